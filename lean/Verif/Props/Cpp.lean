import Verif.Gen.CppLemmas
import Verif.Props.Data
import Verif.Props.Text
/-
C84: the preprocessor.
-/
namespace Clara.Props
open Clara.Gen hiding Txt Bytes
open Clara.Gas Clara.Data Clara.Types Clara.Cpp Clara.Tbl

/-! ### Specification -/

/-- The claim for labels of functions: what the assembler sees is what the compiler wrote. -/
def C84_claim : Prop :=
  ∀ M, Predefined M → ∀ (n : String) (ps : List Ty), isSym n.toList = true → tysSpelt ps = true →
    cppLine M (label (fnAsm .normal n ps)) = some (label (fnAsm .normal n ps))

/-- The claim that different labels stay different. -/
def C84_claim_labels : Prop :=
  ∀ M, Predefined M → ∀ fs : List FnDecl, accepted (fun _ => "T") fs → (fs.map (fun f => fnAsm f.kind f.name f.params)).Nodup →
    (fs.map (fun f => cppLine M (label (fnAsm f.kind f.name f.params)))).Nodup

mutual
/-- The names of structs and enums in a type. -/
def tyNames : Ty → List String
  | .array e => tyNames e
  | .struct n ts | .enum n ts => n :: tysNames ts
  | .fn _ ps _ => tysNames ps
  | .param _ | .prim _ => []
def tysNames : List Ty → List String
  | [] => []
  | t :: ts => tyNames t ++ tysNames ts
end

/-- Letters, digits and underscores, as the names in a source. -/
def isName (n : String) : Bool := n.toList.all wordChar

/-- The names that an instruction mentions. -/
def insNames : HIns → List Gas.Txt
  | .ins (.jmp l) | .ins (.jcc _ l) => [l.text]
  | .ins (.call f) | .ins (.movabs (.fn f) _) => [f.toList]
  | _ => []

/-! ### Lines that are copied -/

/-- No word is reserved, and nothing begins a string or a comment. -/
def Copied (t : Gas.Txt) : Prop := t.all tame = true ∧ free t = true

theorem Copied.cpp {M : Gas.Txt → Option Gas.Txt} (hM : Predefined M) {t : Gas.Txt} (h : Copied t) : cppLine M t = some t := cpp_free hM h.1 h.2

theorem Copied.sep {a b : Gas.Txt} {c : Char} (hc : wordChar c = false ∧ tame c = true) (ha : Copied a) (hb : Copied b) : Copied (a ++ c :: b) := by
  constructor
  · rw [List.all_append, List.all_cons, ha.1, hb.1, hc.2]; rfl
  · rw [free_sep hc.1, ha.2, hb.2]; rfl

theorem Copied.nil : Copied [] := ⟨rfl, rfl⟩

theorem Copied.cons {b : Gas.Txt} {c : Char} (hc : wordChar c = false ∧ tame c = true) (hb : Copied b) : Copied (c :: b) := .sep (a := []) hc .nil hb

theorem Copied.snoc {a : Gas.Txt} {c : Char} (hc : wordChar c = false ∧ tame c = true) (ha : Copied a) : Copied (a ++ [c]) := .sep hc ha .nil

theorem Copied.spaces {b : Gas.Txt} (n : Nat) (hb : Copied b) : Copied (List.replicate n ' ' ++ b) := by
  induction n with
  | zero => exact hb
  | succ n ih => exact .cons (by decide) ih

/-- Characters of no macro. -/
def simpleChar (c : Char) : Bool := tame c && c != 'n' && c != '_'

theorem Copied.simple {t : Gas.Txt} (h : t.all simpleChar = true) : Copied t := by
  have h' := List.all_eq_true.1 h
  simp only [simpleChar, Bool.and_eq_true, bne_iff_ne, ne_eq] at h'
  exact ⟨List.all_eq_true.2 (fun c hc => (h' c hc).1.1), free_of (fun c hc => ⟨(h' c hc).1.2, (h' c hc).2⟩)⟩

theorem tame_sym {c : Char} (h : symChar c = true) : tame c = true := by
  unfold tame
  simp only [Bool.and_eq_true, bne_iff_ne, ne_eq]
  refine ⟨⟨⟨?_, ?_⟩, ?_⟩, ?_⟩ <;> (rintro rfl; revert h; decide)

theorem Copied.sym {t : Gas.Txt} (h : isSym t = true) (hf : free t = true) : Copied t := by
  obtain ⟨_, _, _, _, _, _, hx⟩ := isSym_iff h
  exact ⟨List.all_eq_true.2 (fun c hc => tame_sym (hx c hc)), hf⟩

/-- A word with a usual beginning. -/
theorem Copied.word {c : Char} {w : Gas.Txt} (h : c ≠ '_' ∧ c ≠ 'l' ∧ c ≠ 'u') (hw : (c :: w).all wordChar = true) : Copied (c :: w) := by
  refine ⟨List.all_eq_true.2 (fun x hx => ?_), by rw [free_word hw, reserved_head h]; rfl⟩
  have := List.all_eq_true.1 hw x hx
  unfold tame
  simp only [Bool.and_eq_true, bne_iff_ne, ne_eq]
  refine ⟨⟨⟨?_, ?_⟩, ?_⟩, ?_⟩ <;> (rintro rfl; revert this; decide)

theorem digit_simple {c : Char} (h : c.isDigit = true) : simpleChar c = true := by
  unfold simpleChar tame
  simp only [Bool.and_eq_true, bne_iff_ne, ne_eq]
  refine ⟨⟨⟨⟨⟨?_, ?_⟩, ?_⟩, ?_⟩, ?_⟩, ?_⟩ <;> (rintro rfl; revert h; decide)

theorem dec_simple (n : Nat) : (dec n).all simpleChar = true := List.all_eq_true.2 (fun c hc => digit_simple (dec_digit n c hc))

theorem dec_word (n : Nat) : (dec n).all wordChar = true := List.all_eq_true.2 (fun c hc => digit_word (dec_digit n c hc))

theorem itoa_simple (i : Int) : (itoa i).all simpleChar = true := by
  unfold itoa
  split
  · rw [List.all_cons, dec_simple]; decide
  · exact dec_simple _

/-! ### Numbers -/

theorem digitVal_simple {c : Char} {d : Nat} (h : digitVal c = some d) : simpleChar c = true := by
  unfold simpleChar tame
  simp only [Bool.and_eq_true, bne_iff_ne, ne_eq]
  refine ⟨⟨⟨⟨⟨?_, ?_⟩, ?_⟩, ?_⟩, ?_⟩, ?_⟩ <;> (rintro rfl; revert h; simp [digitVal])

theorem digits_simple {b : Nat} {t : Gas.Txt} : ∀ {n m : Nat}, digits b n t = some m → t.all simpleChar = true := by
  induction t with
  | nil => intros; rfl
  | cons c t ih =>
    intro n m h
    rw [digits] at h
    split at h
    · cases h
    · rename_i d hd
      split at h
      · rw [List.all_cons, digitVal_simple hd, ih h]; rfl
      · cases h

theorem natural_simple {t : Gas.Txt} {n : Nat} (h : natural t = some n) : t.all simpleChar = true := by
  unfold natural at h
  split at h
  · cases h
  · decide
  · rename_i c cs
    split at h
    · rename_i hx
      split at h
      · cases h
      · rw [List.all_cons, List.all_cons, digits_simple h]
        rcases hx with rfl | rfl <;> decide
    · split at h
      · rename_i hx
        split at h
        · cases h
        · rw [List.all_cons, List.all_cons, digits_simple h]
          rcases hx with rfl | rfl <;> decide
      · rw [List.all_cons, digits_simple h]; decide
  · exact digits_simple h

theorem integer_simple {t : Gas.Txt} {i : Int} (h : integer t = some i) : t.all simpleChar = true := by
  unfold integer at h
  split at h
  · obtain ⟨n, h, -⟩ := Option.map_eq_some_iff.1 h
    obtain ⟨m, h, -⟩ := Option.bind_eq_some_iff.1 h
    rw [List.all_cons, natural_simple h]; decide
  · obtain ⟨n, h, -⟩ := Option.map_eq_some_iff.1 h
    obtain ⟨m, h, -⟩ := Option.bind_eq_some_iff.1 h
    exact natural_simple h

/-! ### Instructions -/

theorem reg_simple (r : PReg) : r.name.all simpleChar = true := by
  cases r <;> rename_i r <;> cases r <;> decide

theorem mem_simple (b : Reg) (i : Option Reg) (d : Int) (s : Nat) (x y : Bool) : (POp.mem b i d s x y).print.all simpleChar = true := by
  have h1 : ∀ r, (PReg.full r).name.all simpleChar = true := fun r => reg_simple _
  have h2 := itoa_simple
  simp only [POp.print, List.all_append, Bool.and_eq_true]
  refine ⟨?_, ?_, ?_, h1 b, ?_, ?_, ?_⟩
  · split <;> decide
  · split
    · exact h2 d
    · rfl
  · split <;> decide
  · split
    · rw [List.all_cons, h1]; decide
    · rfl
  · split
    · rw [List.all_cons, h2]; decide
    · rfl
  · split <;> decide

theorem ops_copied {S : Spell} (hS : Numbers S) {i : HIns} (hn : ∀ t ∈ insNames i, Copied t) : ∀ o ∈ i.ops S, Copied o.print := by
  have reg : ∀ r, Copied (POp.reg r).print := fun r => .simple (reg_simple r)
  have mem : ∀ (a : MemOp) x, Copied (a.pop x).print := fun a x => .simple (mem_simple _ _ _ _ _ _)
  have num : ∀ j, Copied (POp.lit (S.num j)).print := fun j => .cons (by decide) (.simple (integer_simple (hS j).1))
  have lit : ∀ j, Copied (POp.lit (itoa j)).print := fun j => .cons (by decide) (.simple (itoa_simple j))
  have opd : ∀ o : Opd, Copied (o.pop S).print := by
    intro o
    cases o with
    | imm j => exact num j
    | reg r => exact reg _
    | mem a => exact mem a false
  have cnt : ∀ c : Cnt, Copied c.pop.print := by
    intro c
    cases c with
    | imm n => exact lit n
    | cl => exact reg _
  cases i with
  | movsbq a d =>
    intro o ho
    simp only [HIns.ops, List.mem_cons, List.not_mem_nil, or_false] at ho
    rcases ho with rfl | rfl
    · exact mem _ _
    · exact reg _
  | movb s a =>
    intro o ho
    simp only [HIns.ops, List.mem_cons, List.not_mem_nil, or_false] at ho
    rcases ho with rfl | rfl
    · exact reg _
    · exact mem _ _
  | ins i =>
    intro o ho
    cases i with
    | movabs s d =>
      simp only [HIns.ops, Ins.ops, List.mem_cons, List.not_mem_nil, or_false] at ho
      rcases ho with rfl | rfl
      · cases s with
        | imm j => exact num j
        | str s =>
          refine .cons (by decide) (.simple ?_)
          rw [List.all_append, List.all_append, dec_simple]
          decide
        | fn f => exact .cons (by decide) (hn _ (by simp [insNames]))
      · exact reg _
    | jmp l =>
      simp only [HIns.ops, Ins.ops, List.mem_singleton] at ho
      subst ho
      exact hn _ (List.mem_singleton.2 rfl)
    | jcc c l =>
      simp only [HIns.ops, Ins.ops, List.mem_singleton] at ho
      subst ho
      exact hn _ (List.mem_singleton.2 rfl)
    | call f =>
      simp only [HIns.ops, Ins.ops, List.mem_singleton] at ho
      subst ho
      exact hn _ (List.mem_singleton.2 rfl)
    | jmpReg r | callReg r =>
      simp only [HIns.ops, Ins.ops, List.mem_singleton] at ho
      subst ho
      exact .simple (mem_simple _ _ _ _ _ _)
    | _ =>
      first
        | (cases ho; done)
        | skip
      all_goals simp only [HIns.ops, Ins.ops, List.mem_cons, List.not_mem_nil, or_false] at ho
      all_goals first
        | (subst ho; first | exact opd _ | exact reg _ | exact mem _ _ | exact cnt _ | exact lit _)
        | (rcases ho with rfl | rfl <;> first | exact opd _ | exact reg _ | exact mem _ _ | exact cnt _ | exact lit _)

theorem join_copied {ts : List Gas.Txt} (h : ∀ t ∈ ts, Copied t) : Copied (joinOps ts) := by
  induction ts with
  | nil => exact .nil
  | cons x ts ih =>
    cases ts with
    | nil => exact h x (by simp)
    | cons y r =>
      exact .sep (c := ',') (by decide) (h x (by simp)) (.cons (by decide) (ih (fun t ht => h t (List.mem_cons_of_mem _ ht))))

theorem mnem_copied (i : HIns) : i.mnem.toList.length < 8 ∧ Copied i.mnem.toList := by
  unfold Copied
  cases i with
  | movsbq a d => simp only [HIns.mnem]; decide
  | movb s a => simp only [HIns.mnem]; decide
  | ins i =>
    cases i with
    | alu o s d => cases o <;> (simp only [HIns.mnem, Ins.mnem, Alu.mnem]; decide)
    | set c => cases c <;> (simp only [HIns.mnem, Ins.mnem, Cond.setName]; decide)
    | jcc c l => cases c <;> (simp only [HIns.mnem, Ins.mnem, Cond.jmpName]; decide)
    | _ => simp only [HIns.mnem, Ins.mnem]; decide

theorem ins_copied {S : Spell} (hS : Numbers S) {i : HIns} (hn : ∀ t ∈ insNames i, Copied t) : Copied (insText S i) := by
  obtain ⟨hl, hm⟩ := mnem_copied i
  have hj : Copied (joinOps ((i.ops S).map POp.print)) := join_copied (by
    intro t ht
    obtain ⟨o, ho, rfl⟩ := List.mem_map.1 ht
    exact ops_copied hS hn o ho)
  have h2 : Copied (padTo 50 (joinOps ((i.ops S).map POp.print)) ++ ['\n']) := by
    unfold padTo
    rw [List.append_assoc]
    cases 50 - (joinOps ((i.ops S).map POp.print)).length with
    | zero => exact .sep (by decide) hj .nil
    | succ n =>
      rw [List.replicate_succ, List.cons_append]
      exact .sep (by decide) hj (.spaces n (.cons (by decide) .nil))
  have h1 : Copied (padTo 8 i.mnem.toList ++ (padTo 50 (joinOps ((i.ops S).map POp.print)) ++ ['\n'])) := by
    unfold padTo at h2 ⊢
    obtain ⟨n, hn⟩ : ∃ n, 8 - i.mnem.toList.length = n + 1 := ⟨8 - i.mnem.toList.length - 1, by omega⟩
    rw [hn, List.replicate_succ, List.append_assoc, List.cons_append]
    exact .sep (by decide) hm (.spaces n h2)
  exact .spaces 3 h1

/-! ### Names -/

mutual
theorem asm_free (t : Ty) (h : (tyNames t).all isName = true) : free t.asm = (tyNames t).all (fun n => !reserved n.toList) := by
  match t with
  | .array e =>
    have e1 : Ty.asm (.array e) = "array".toList ++ '$' :: (e.asm ++ '$' :: []) := by
      show "array$".toList ++ e.asm ++ ['$'] = _
      rw [List.append_assoc]; rfl
    rw [e1, free_sep (by decide), free_sep (by decide), asm_free e h]
    rw [show free "array".toList = true by decide, show free [] = true from rfl]
    simp [tyNames]
  | .struct n ts | .enum n ts =>
    simp only [tyNames, List.all_cons, Bool.and_eq_true] at h
    have hn : free n.toList = !reserved n.toList := free_word h.1
    simp only [Ty.asm]
    split
    · rename_i he
      have : ts = [] := by simpa using he
      subst this
      rw [hn]
      simp [tyNames, tysNames]
    · rw [List.append_assoc, List.append_assoc]
      show free (n.toList ++ '$' :: (Types.join ['.'] (asmAll ts) ++ '$' :: [])) = _
      rw [free_sep (by decide), free_sep (by decide), hn, (asmAll_free ts h.2).1, show free [] = true from rfl]
      simp [tyNames]
  | .fn d ps r =>
    simp only [Ty.asm]
    split
    · rename_i he
      have : ps = [] := by simpa using he
      subst this
      simp only [tyNames, tysNames]
      decide
    · rw [List.append_assoc, List.append_assoc]
      show free ("fn".toList ++ '$' :: (Types.join ['.'] (asmAll ps) ++ '$' :: [])) = _
      rw [free_sep (by decide), free_sep (by decide), (asmAll_free ps h).1, show free [] = true from rfl, show free "fn".toList = true by decide]
      simp [tyNames]
  | .param _ => rfl
  | .prim p => cases p <;> decide
theorem asmAll_free (ts : List Ty) (h : (tysNames ts).all isName = true) :
    free (Types.join ['.'] (asmAll ts)) = (tysNames ts).all (fun n => !reserved n.toList) ∧
    ∀ a, free (a ++ (asmAll ts).flatMap (fun s => '.' :: s)) = (free a && (tysNames ts).all (fun n => !reserved n.toList)) := by
  match ts with
  | [] => exact ⟨rfl, fun a => by simp [asmAll, tysNames]⟩
  | t :: ts =>
    simp only [tysNames, List.all_append, Bool.and_eq_true] at h
    have h1 := asm_free t h.1
    obtain ⟨h2, h3⟩ := asmAll_free ts h.2
    constructor
    · cases ts with
      | nil => simp [asmAll, Types.join, tysNames, h1]
      | cons u us =>
        show free (t.asm ++ ['.'] ++ Types.join ['.'] (asmAll (u :: us))) = _
        rw [List.append_assoc, List.singleton_append, free_sep (by decide), h1, h2]
        simp [tysNames]
    · intro a
      show free (a ++ ('.' :: t.asm ++ (asmAll ts).flatMap (fun s => '.' :: s))) = _
      rw [List.cons_append, free_sep (by decide), h3, h1]
      simp [tysNames]
end

theorem word_tame {w : Gas.Txt} (hw : w.all wordChar = true) : w.all tame = true := by
  refine List.all_eq_true.2 (fun x hx => ?_)
  have := List.all_eq_true.1 hw x hx
  unfold tame
  simp only [Bool.and_eq_true, bne_iff_ne, ne_eq]
  refine ⟨⟨⟨?_, ?_⟩, ?_⟩, ?_⟩ <;> (rintro rfl; revert this; decide)

mutual
theorem asm_tame (t : Ty) (h : (tyNames t).all isName = true) : t.asm.all tame = true := by
  match t with
  | .array e =>
    have := asm_tame e h
    simp only [Ty.asm, List.all_append, this]
    decide
  | .struct n ts | .enum n ts =>
    simp only [tyNames, List.all_cons, Bool.and_eq_true] at h
    have hn : n.toList.all tame = true := word_tame h.1
    have := asmAll_tame ts h.2
    simp only [Ty.asm]
    split
    · exact hn
    · simp only [List.all_append, this, hn]
      decide
  | .fn d ps r =>
    have := asmAll_tame ps h
    simp only [Ty.asm]
    split
    · decide
    · simp only [List.all_append, this]
      decide
  | .param _ => simp only [Ty.asm]; decide
  | .prim p => cases p <;> decide
theorem asmAll_tame (ts : List Ty) (h : (tysNames ts).all isName = true) : (Types.join ['.'] (asmAll ts)).all tame = true := by
  match ts with
  | [] => rfl
  | t :: ts =>
    simp only [tysNames, List.all_append, Bool.and_eq_true] at h
    have h1 := asm_tame t h.1
    have h2 := asmAll_tame ts h.2
    cases ts with
    | nil => exact h1
    | cons u us =>
      show (t.asm ++ ['.'] ++ Types.join ['.'] (asmAll (u :: us))).all tame = true
      rw [List.all_append, List.all_append, h1, h2]
      decide
end

/-! ### C84 -/

/-- **C84, names.**  The label of a function mentions a reserved name exactly if a struct or enum in the types of its parameters has one; that
of an external function, exactly if the function has one. -/
theorem C84_names (k : FnKind) (n : String) (ps : List Ty) (hn : isName n = true) (hp : (tysNames ps).all isName = true) :
    free (fnAsm k n ps) = true ↔
      if k = .external then reserved n.toList = false else n = "main" ∨ ∀ m ∈ tysNames ps, reserved m.toList = false := by
  unfold fnAsm
  split
  · rw [free_word hn]; simp
  · split
    · rename_i h
      simp only [h, true_or, iff_true]
      decide
    · rename_i h
      have hw : ("clara_".toList ++ n.toList).all wordChar = true := by
        rw [List.all_append, show n.toList.all wordChar = true from hn]; decide
      have h0 : free ("clara_".toList ++ n.toList) = true := by
        rw [free_word hw]
        have : reserved ("clara_".toList ++ n.toList) = false := reserved_head (c := 'c') (by decide)
        rw [this]; rfl
      rw [(asmAll_free ps hp).2, h0]
      simp [h]

/-- `fn f(x: linux)`: its label is another one behind the preprocessor. -/
def unixMacros (w : Gas.Txt) : Option Gas.Txt := if w = "linux".toList ∨ w = "unix".toList then some ['1'] else none

theorem unixMacros_ok : Predefined unixMacros := by
  intro w h
  unfold unixMacros
  rw [if_neg]
  rintro (rfl | rfl) <;> revert h <;> decide

theorem C84_violated : ¬ C84_claim := by
  intro h
  have := h unixMacros unixMacros_ok "f" [.struct "linux" []] (by decide) (by decide)
  revert this
  decide +kernel

/-- `fn f(x: linux)` and `fn f(x: unix)`: two functions, one label. -/
theorem C84_violated_labels : ¬ C84_claim_labels := by
  intro h
  have := h unixMacros unixMacros_ok [⟨.normal, "f", [.struct "linux" []]⟩, ⟨.normal, "f", [.struct "unix" []]⟩]
    (by unfold accepted; decide +kernel) (by decide +kernel)
  revert this
  decide +kernel

/-- The proved part of **C84** for instructions: a line whose names mention nothing reserved is copied. -/
theorem C84_line_partial (M : Gas.Txt → Option Gas.Txt) (hM : Predefined M) (S : Spell) (hS : Numbers S) (i : HIns)
    (hs : ∀ t ∈ insNames i, isSym t = true) (hf : ∀ t ∈ insNames i, free t = true) : cppLine M (insText S i) = some (insText S i) :=
  (ins_copied hS (fun t ht => .sym (hs t ht) (hf t ht))).cpp hM

theorem label_copied {alloc ioob : String} {fds : List FnDef} (hs : ∀ fd ∈ fds, isSym fd.name.toList = true)
    (hf : ∀ fd ∈ fds, free fd.name.toList = true) {l : Label} (hl : l ∈ labels (genProg alloc ioob fds)) : Copied l.text := by
  rcases genProg_label hl with rfl | ⟨fd, h1, rfl⟩ | ⟨s, n, rfl, h⟩
  · exact .simple (by decide)
  · exact .sym (hs fd h1) (hf fd h1)
  · have hw : ∀ s ∈ stems, ∃ c w, s.toList = c :: w ∧ (c ≠ '_' ∧ c ≠ 'l' ∧ c ≠ 'u') ∧ (c :: w).all wordChar = true := by
      intro s hs
      simp only [stems, List.mem_cons, List.not_mem_nil, or_false] at hs
      rcases hs with rfl | rfl | rfl | rfl | rfl <;> exact ⟨_, _, rfl, by decide, by decide⟩
    obtain ⟨c, w, e, h1, h2⟩ := hw s h
    show Copied (s.toList ++ '_' :: dec n)
    rw [e, List.cons_append]
    refine .word h1 ?_
    rw [← List.cons_append, List.all_append, h2, List.all_cons, dec_word]
    decide

/-- The proved part of **C84** for programs: behind the preprocessor, the assembler reads the lines of the instructions as the program
(`C79`), and the labels are those written, if no function is called by a reserved name (`C84_names`). -/
theorem C84_program_partial (M : Gas.Txt → Option Gas.Txt) (hM : Predefined M) (o : Bool) (alloc ioob : String) (fds : List FnDef) (lits : List String)
    (num : Int → Gas.Txt) (hnum : Numbers ⟨num, lits.idxOf⟩) (h : ∀ fd ∈ fds, fd.body.small = true) (hp : Ev.panic ∉ genProg alloc ioob fds)
    (hn : (fds.map (·.name)).Nodup)
    (hf : ∀ fd ∈ fds, (∃ s : List Char, fd.name.toList = "clara_".toList ++ s) ∧ fd.name ≠ "clara_asm_entrypoint")
    (hs : ∀ fd ∈ fds, isSym fd.name.toList = true) (hi : ∀ i, Ev.ins i ∈ genProg alloc ioob fds → namesOk lits i = true)
    (hfree : ∀ fd ∈ fds, free fd.name.toList = true)
    (hcalls : ∀ i f, Ev.ins i ∈ genProg alloc ioob fds → (i = .call f ∨ ∃ d, i = .movabs (.fn f) d) → free f.toList = true) :
    (∀ i, Item.ins i ∈ peepWith o (genProg alloc ioob fds) → ∃ t, cppLine M (insText ⟨num, lits.idxOf⟩ (.ins i)) = some t ∧
      line (fileSymbols (genProg alloc ioob fds) lits) t = some (.ins i)) ∧
    ∀ l ∈ labels (genProg alloc ioob fds), cppLine M (label l.text) = some (label l.text) := by
  constructor
  · intro i hm
    refine ⟨_, ?_, C79_program o alloc ioob fds lits num hnum h hp hn hf hs hi i hm⟩
    refine (ins_copied hnum ?_).cpp hM
    refine peep_all (fun i => ∀ t ∈ insNames (.ins i), Copied t) (fun _ _ => by simp [insNames]) (fun _ => by simp [insNames]) o _ ?_ i hm
    intro i hm t ht
    have hok := hi i hm
    cases i with
    | jmp l =>
      simp only [insNames, List.mem_singleton] at ht
      subst ht
      exact label_copied hs hfree (C79_jumps alloc ioob fds hp hm (.inl rfl))
    | jcc c l =>
      simp only [insNames, List.mem_singleton] at ht
      subst ht
      exact label_copied hs hfree (C79_jumps alloc ioob fds hp hm (.inr ⟨c, rfl⟩))
    | call f =>
      simp only [insNames, List.mem_singleton] at ht
      subst ht
      exact .sym hok (hcalls _ f hm (.inl rfl))
    | movabs s d =>
      cases s with
      | fn f =>
        simp only [insNames, List.mem_singleton] at ht
        subst ht
        simp only [namesOk, Bool.and_eq_true] at hok
        exact .sym hok.1 (hcalls _ f hm (.inr ⟨d, rfl⟩))
      | _ => simp [insNames] at ht
    | _ => simp [insNames] at ht
  · intro l hl
    exact (Copied.snoc (by decide) (label_copied hs hfree hl)).cpp hM

/-! ### Data -/

theorem joinWith_copied {ts : List Gas.Txt} (h : ∀ t ∈ ts, Copied t) : Copied (joinWith "   ".toList ts) := by
  induction ts with
  | nil => exact .nil
  | cons x ts ih =>
    cases ts with
    | nil => exact h x (by simp)
    | cons y r => exact .sep (c := ' ') (by decide) (h x (by simp)) (.spaces 2 (ih (fun t ht => h t (List.mem_cons_of_mem _ ht))))

theorem tab_copied {ts : List Gas.Txt} (h : ∀ t ∈ ts, Copied t) : Copied (tab ts) := .spaces 3 (joinWith_copied h)

theorem tab_one {t : Gas.Txt} (h : Copied t) : Copied (tab [t]) := tab_copied (by simpa using h)

theorem tab_two {t u : Gas.Txt} (h : Copied t) (h' : Copied u) : Copied (tab [t, u]) := tab_copied (by simpa using ⟨h, h'⟩)

theorem label_line {t : Gas.Txt} (h : Copied t) : Copied (label t) := .snoc (by decide) h

theorem byte8 : Copied ".8byte".toList := .simple (by decide)

theorem tagged_copied (i : Int) : Copied (taggedInt i) := tab_two byte8 (.simple (itoa_simple _))

theorem spacer_copied : ∀ t ∈ spacer, Copied t := by
  intro t ht
  simp only [spacer, List.mem_cons, List.not_mem_nil, or_false] at ht
  rcases ht with rfl | rfl | rfl
  · exact .nil
  · exact .simple (by rw [List.all_replicate]; decide)
  · exact .nil

theorem commas_simple {ts : List Gas.Txt} (h : ∀ t ∈ ts, t.all simpleChar = true) : (joinWith [','] ts).all simpleChar = true := by
  induction ts with
  | nil => rfl
  | cons x ts ih =>
    cases ts with
    | nil => exact h x (by simp)
    | cons y r =>
      show (x ++ ([','] ++ joinWith [','] (y :: r))).all simpleChar = true
      rw [List.all_append, List.all_append, h x (by simp), ih (fun t ht => h t (List.mem_cons_of_mem _ ht))]
      decide

theorem gcMap_copied {n : Gas.Txt} (hn : Copied n) (offs : List Int) : ∀ t ∈ gcMap n offs, Copied t := by
  intro t ht
  rcases List.mem_append.1 ht with ht | ht
  · simp only [List.mem_cons, List.not_mem_nil, or_false] at ht
    rcases ht with rfl | rfl | rfl
    · exact label_line hn
    · exact tagged_copied _
    · refine tab_two byte8 (.simple (commas_simple ?_))
      intro t ht
      obtain ⟨o, -, rfl⟩ := List.mem_map.1 ht
      exact itoa_simple _
  · exact spacer_copied t ht

theorem fnStart_copied {n : Gas.Txt} (hn : Copied n) : ∀ t ∈ fnStart n, Copied t := by
  intro t ht
  simp only [fnStart, List.mem_cons, List.not_mem_nil, or_false] at ht
  rcases ht with rfl | rfl | rfl | rfl | rfl | rfl
  · exact tab_one (.simple (by decide))
  · exact tab_two ⟨by decide, by decide⟩ (.simple (by decide))
  · exact tagged_copied _
  · exact tab_two ⟨by decide, by decide⟩ hn
  · exact tab_two ⟨by decide, by decide⟩ (.sep (c := ',') (by decide) hn ⟨by decide, by decide⟩)
  · exact label_line hn

theorem fnMaps_copied {maps : List (Gas.Txt × List Nat)} (hn : ∀ m ∈ maps, Copied m.1) : ∀ t ∈ fnMaps maps, Copied t := by
  intro t ht
  rcases List.mem_append.1 ht with ht | ht
  · exact spacer_copied t ht
  · rcases List.mem_cons.1 ht with rfl | ht
    · exact tab_one (.simple (by decide))
    · obtain ⟨m, hm, ht⟩ := List.mem_flatMap.1 ht
      exact gcMap_copied (hn m hm) _ t ht

theorem noGc_copied : Copied noGcLabel := ⟨by decide, by decide⟩

theorem genNoGc_copied : ∀ t ∈ genNoGc, Copied t := by
  intro t ht
  simp only [genNoGc, List.mem_cons, List.not_mem_nil, or_false] at ht
  rcases ht with rfl | rfl | rfl | rfl
  · exact tab_one (.simple (by decide))
  · exact label_line noGc_copied
  · exact tagged_copied _
  · exact tab_one (.simple (by decide))

/-- A name behind a word that is the beginning of no reserved name. -/
theorem Copied.prefix {c : Char} {w t : Gas.Txt} (h : c ≠ '_' ∧ c ≠ 'l' ∧ c ≠ 'u') (hw : (c :: w).all wordChar = true) (ht : Copied t) :
    Copied ((c :: w) ++ t) := by
  have e := List.takeWhile_append_dropWhile (p := wordChar) (l := t)
  have hu : (t.takeWhile wordChar).all wordChar = true := List.all_takeWhile
  have h1 : Copied ((c :: w) ++ t.takeWhile wordChar) := by
    rw [List.cons_append]
    refine .word h ?_
    rw [← List.cons_append, List.all_append, hw, hu]
    rfl
  generalize t.takeWhile wordChar = a at *
  cases hb : t.dropWhile wordChar with
  | nil =>
    rw [hb, List.append_nil] at e
    rw [← e]
    exact h1
  | cons x b =>
    have hx : wordChar x = false := by
      have := List.head?_dropWhile_not wordChar t
      rw [hb] at this
      simpa using this
    rw [hb] at e
    subst e
    have hf := ht.2
    have ha := ht.1
    rw [free_sep hx, Bool.and_eq_true] at hf
    rw [List.all_append, List.all_cons, Bool.and_eq_true, Bool.and_eq_true] at ha
    rw [← List.append_assoc]
    exact .sep ⟨hx, ha.2.1⟩ h1 ⟨ha.2.2, hf.2⟩

/-- The text of a type is a word or ends in `$`. -/
theorem asm_shape (t : Ty) (h : (tyNames t).all isName = true) : t.asm.all wordChar = true ∨ ∃ a, t.asm = a ++ ['$'] := by
  cases t with
  | array e => exact .inr ⟨_, rfl⟩
  | struct n ts | enum n ts =>
    simp only [tyNames, List.all_cons, Bool.and_eq_true] at h
    simp only [Ty.asm]
    split
    · exact .inl h.1
    · exact .inr ⟨_, rfl⟩
  | fn d ps r =>
    simp only [Ty.asm]
    split
    · exact .inl (by decide)
    · exact .inr ⟨_, rfl⟩
  | param _ => exact .inl (by simp only [Ty.asm]; decide)
  | prim p => exact .inl (by cases p <;> decide)

theorem enumLabel_copied {n : Gas.Txt} (hn : Copied n) (hs : n.all wordChar = true ∨ ∃ a, n = a ++ ['$']) (k : Nat) : Copied (enumLabel n k) := by
  have ht : ("_tag_".toList ++ dec k).all wordChar = true := by rw [List.all_append, dec_word]; decide
  rcases hs with h | ⟨a, rfl⟩
  · refine Copied.word (c := 'e') (w := "num_".toList ++ (n ++ ("_tag_".toList ++ dec k))) (by decide) ?_
    rw [← List.cons_append, List.all_append, List.all_append, h, ht]
    decide
  · have ha : Copied a := by
      obtain ⟨h1, h2⟩ := hn
      rw [free_sep (by decide), Bool.and_eq_true] at h2
      rw [List.all_append, Bool.and_eq_true] at h1
      exact ⟨h1.1, h2.1⟩
    have e : enumLabel (a ++ ['$']) k = ('e' :: "num_".toList ++ a) ++ '$' :: ("_tag_".toList ++ dec k) := by
      show "enum_".toList ++ ((a ++ ['$']) ++ _) = _
      rw [List.append_assoc, List.singleton_append, ← List.append_assoc]
      rfl
    rw [e]
    refine .sep (by decide) (.prefix (by decide) (by decide) ha) ⟨?_, ?_⟩
    · rw [List.all_append, (Copied.simple (dec_simple k)).1]; decide
    · rw [free_word ht]
      rfl

theorem rootLines_copied {types : List TypeD} {nm : Nat → Gas.Txt} (hn : ∀ t, Copied (structLabel (nm t)) ∧ ∀ k, Copied (enumLabel (nm t) k)) :
    ∀ (ts : List Nat) (tag : Nat) (et : Option Nat) r, rootLines types nm ts tag et = some r → (∀ t ∈ r.1, Copied t) ∧ ∀ t ∈ r.2, Copied t := by
  intro ts
  induction ts with
  | nil => intro _ _ r h; cases h; simp
  | cons t ts ih =>
    have step : ∀ {tag et r} (l : List Gas.Txt) (x : Gas.Txt), (∀ t ∈ l, Copied t) → Copied x →
        (rootLines types nm ts tag et).map (fun r => (l ++ r.1, x :: r.2)) = some r → (∀ t ∈ r.1, Copied t) ∧ ∀ t ∈ r.2, Copied t := by
      intro tag et r l x hl hx h
      obtain ⟨q, hq, rfl⟩ := Option.map_eq_some_iff.1 h
      obtain ⟨h1, h2⟩ := ih _ _ _ hq
      refine ⟨fun t ht => ?_, fun t ht => ?_⟩
      · rcases List.mem_append.1 ht with ht | ht
        · exact hl t ht
        · exact h1 t ht
      · rcases List.mem_cons.1 ht with rfl | ht
        · exact hx
        · exact h2 t ht
    intro tag et r h
    rw [rootLines] at h
    split at h
    · dsimp only at h
      split at h
      · exact step [] _ (by simp) noGc_copied h
      · exact step _ _ (gcMap_copied (hn t).1 _) (hn t).1 h
    · dsimp only at h
      generalize (if et = some t then tag else 0) = tg at h
      split at h
      · split at h
        · split at h
          · exact step [] _ (by simp) noGc_copied h
          · exact step _ _ (gcMap_copied ((hn t).2 _) _) ((hn t).2 _) h
        · cases h
      · cases h
    · exact step [] _ (by simp) noGc_copied h
    · cases h

theorem infoBody_copied {lc root : Gas.Txt} (hl : Copied lc) (hr : Copied root) (d : TypeD) : ∀ t ∈ infoBody lc root d, Copied t := by
  have h8 : Copied (addrLabel (lc ++ "+8".toList)) := tab_two byte8 (.sep (c := '+') (by decide) hl (.simple (by decide)))
  intro t ht
  cases d <;> simp only [infoBody, List.mem_cons, List.not_mem_nil, or_false] at ht
  case struct | enum =>
    rcases ht with rfl | rfl | rfl
    · exact tagged_copied _
    · exact h8
    · exact tab_two byte8 hr
  case array e =>
    rcases ht with rfl | rfl | rfl
    · exact tagged_copied _
    · exact h8
    · refine tab_two byte8 ?_
      split <;> exact .simple (by decide)
  all_goals (subst ht; exact tagged_copied _)

theorem infoLabel_copied (i : Nat) : Copied (infoLabel i) :=
  Copied.word (c := 't') (w := "ypeInfo_".toList ++ dec i) (by decide) (by rw [← List.cons_append, List.all_append, dec_word]; decide)

theorem infoLines_copied {types : List TypeD} {lc : Nat → Gas.Txt} (hl : ∀ i, Copied (lc i)) :
    ∀ (ts : List Nat) (i : Nat) (rs : List Gas.Txt) ls, (∀ r ∈ rs, Copied r) → infoLines types lc i ts rs = some ls → ∀ t ∈ ls, Copied t := by
  intro ts
  induction ts with
  | nil => intro i rs ls _ h; cases h; simp
  | cons t ts ih =>
    intro i rs ls hr h
    cases rs with
    | nil => cases h; simp
    | cons r rs =>
      rw [infoLines] at h
      split at h
      · obtain ⟨q, hq, rfl⟩ := Option.map_eq_some_iff.1 h
        intro x hx
        simp only [roSymbol, List.mem_append, List.mem_cons, List.not_mem_nil, or_false] at hx
        rcases hx with ((rfl | rfl) | hx) | hx
        · exact tagged_copied _
        · exact label_line (infoLabel_copied i)
        · exact infoBody_copied (hl i) (hr r (by simp)) _ x hx
        · exact ih _ _ _ (fun r hr' => hr r (by simp [hr'])) hq x hx
      · cases h

theorem tableLines_copied {types : List TypeD} {nm lc : Nat → Gas.Txt} (hn : ∀ t, Copied (structLabel (nm t)) ∧ ∀ k, Copied (enumLabel (nm t) k))
    (hl : ∀ i, Copied (lc i)) {gt : List Nat} {ls : List Gas.Txt} (h : tableLines types nm lc gt = some ls) : ∀ t ∈ ls, Copied t := by
  unfold tableLines at h
  split at h
  · rename_i r hr
    obtain ⟨q, hq, rfl⟩ := Option.map_eq_some_iff.1 h
    obtain ⟨h1, h2⟩ := rootLines_copied hn _ _ _ _ hr
    intro x hx
    rcases List.mem_cons.1 hx with rfl | hx
    · exact .simple (by decide)
    rcases List.mem_append.1 hx with hx | hx
    · exact h1 x hx
    rcases List.mem_append.1 hx with hx | hx
    · exact infoLines_copied hl _ _ _ _ h2 hq x hx
    · simp only [infoArray, roSymbol, List.mem_append, List.mem_cons, List.not_mem_nil, or_false, List.mem_map] at hx
      rcases hx with (rfl | rfl) | rfl | ⟨i, -, rfl⟩
      · exact tagged_copied _
      · exact ⟨by decide, by decide⟩
      · exact tagged_copied _
      · exact tab_two byte8 (infoLabel_copied i)
  · cases h

/-! ### Texts of literals -/

theorem scan_clean (M : Gas.Txt → Option Gas.Txt) {t : Clara.Lex.Bytes} (h : Clean t) :
    scan M (.str false) (charsOf t ++ "\\0\"".toList) = some (charsOf t ++ "\\0\"".toList) := by
  induction h with
  | nil => rfl
  | @plain b t h34 h92 h10 _ ih =>
    have h1 : Char.ofNat b.toNat ≠ '"' := char_ne (c := 34) h34
    have h3 : Char.ofNat b.toNat ≠ '\\' := char_ne (c := 92) h92
    rw [show charsOf (b :: t) ++ "\\0\"".toList = Char.ofNat b.toNat :: (charsOf t ++ "\\0\"".toList) from rfl, scan, next]
    simp only [if_neg h1, h3, decide_false, ih]
    rfl
  | @esc c t hc _ ih =>
    rw [show charsOf (92 :: c :: t) ++ "\\0\"".toList = '\\' :: Char.ofNat c.toNat :: (charsOf t ++ "\\0\"".toList) from rfl, scan, next]
    simp only [show ('\\' : Char) ≠ '"' by decide, if_false, decide_true]
    rw [scan, next]
    simp only [ih]
    rfl

theorem scan_prefix {M : Gas.Txt → Option Gas.Txt} (h : M "ascii".toList = none) (r r' : Gas.Txt) (hr : scan M (.str false) r = some r') :
    cppLine M ("   .ascii \"".toList ++ r) = some ("   .ascii \"".toList ++ r') := by
  have e : cppLine M ("   .ascii \"".toList ++ r) = scan M .gap (' ' :: ' ' :: ' ' :: '.' :: 'a' :: 's' :: 'c' :: 'i' :: 'i' :: ' ' :: '"' :: r) := rfl
  rw [e]
  have gap : ∀ (c : Char) (w : Gas.Txt), start c = some ([c], .gap) → scan M .gap (c :: w) = (scan M .gap w).map (fun x => [c] ++ x) := by
    intro c w h; rw [scan, next, h]
  have word : ∀ (c : Char) (acc w : Gas.Txt), wordChar c = true → scan M (.ident acc) (c :: w) = (scan M (.ident (c :: acc)) w).map (fun x => [] ++ x) := by
    intro c acc w h; rw [scan, next, if_pos h]
  rw [gap _ _ (by decide), gap _ _ (by decide), gap _ _ (by decide), gap _ _ (by decide)]
  have e1 : scan M .gap ('a' :: 's' :: 'c' :: 'i' :: 'i' :: ' ' :: '"' :: r) = (scan M (.ident ['a']) ('s' :: 'c' :: 'i' :: 'i' :: ' ' :: '"' :: r)).map (fun x => [] ++ x) := by
    rw [scan, next, show start 'a' = some ([], .ident ['a']) by decide]
  have e2 : scan M (.ident "iicsa".toList) (' ' :: '"' :: r) = (scan M .gap ('"' :: r)).map (fun x => ("ascii".toList ++ [' ']) ++ x) := by
    rw [scan, next, if_neg (by decide), show start ' ' = some ([' '], .gap) by decide]
    simp only [Option.map_some]
    rw [show ("iicsa".toList : Gas.Txt).reverse = "ascii".toList from rfl, ident, h]
  have e3 : scan M .gap ('"' :: r) = (scan M (.str false) r).map (fun x => ['"'] ++ x) := by
    rw [scan, next, show start '"' = some (['"'], .str false) by decide]
  rw [e1, word _ _ _ (by decide), word _ _ _ (by decide), word _ _ _ (by decide), word _ _ _ (by decide)]
  rw [show (['i', 'i', 'c', 's', 'a'] : Gas.Txt) = "iicsa".toList from rfl, e2, e3, hr]
  rfl

theorem mapM_same {f : Gas.Txt → Option Gas.Txt} {ls : List Gas.Txt} (h : ∀ t ∈ ls, f t = some t) : ls.mapM f = some ls := by
  induction ls with
  | nil => rfl
  | cons t ls ih => rw [List.mapM_cons, h t (by simp), ih (fun t ht => h t (by simp [ht]))]; rfl

theorem flush_cpp {M : Gas.Txt → Option Gas.Txt} (hM : Predefined M) {out : List Emitted} (h : ∀ e ∈ out, Clean e.text) :
    (flushLines out).mapM (cppLine M) = some (flushLines out) := by
  refine mapM_same (fun t ht => ?_)
  rcases List.mem_cons.1 ht with rfl | ht
  · exact (tab_one (.simple (by decide))).cpp hM
  · obtain ⟨e, he, ht⟩ := List.mem_flatMap.1 ht
    rcases List.mem_append.1 ht with ht | ht
    · simp only [litStart, List.mem_cons, List.not_mem_nil, or_false] at ht
      rcases ht with rfl | rfl | rfl | rfl
      · exact (tab_two (u := "8".toList) ⟨by decide, by decide⟩ (.simple (by decide))).cpp hM
      · refine (label_line (.simple ?_)).cpp hM
        rw [litLabel, List.all_append, dec_simple]; decide
      · exact (tagged_copied _).cpp hM
      · exact (tagged_copied _).cpp hM
    · rw [List.mem_singleton.1 ht]
      exact scan_prefix (hM _ (by decide)) _ _ (scan_clean M (h e he))

/-! ### C84, data -/

/-- The proved part of **C84** for the data: the lines of a function before its instructions, its maps, the empty map, and the type table. -/
theorem C84_data_partial (M : Gas.Txt → Option Gas.Txt) (hM : Predefined M) :
    (∀ n : Gas.Txt, isSym n = true → free n = true → (fnStart n).mapM (cppLine M) = some (fnStart n)) ∧
    (∀ maps : List (Gas.Txt × List Nat), (∀ m ∈ maps, isSym m.1 = true ∧ free m.1 = true) → (fnMaps maps).mapM (cppLine M) = some (fnMaps maps)) ∧
    genNoGc.mapM (cppLine M) = some genNoGc ∧
    ∀ (types : List TypeD) (ty : Nat → Ty) (lc : Nat → Nat) (gt : List Nat) ls,
      (∀ t, ∀ m ∈ tyNames (ty t), isName m = true ∧ reserved m.toList = false) →
      tableLines types (fun t => (ty t).asm) (fun i => litLabel (lc i)) gt = some ls → ls.mapM (cppLine M) = some ls := by
  refine ⟨?_, ?_, ?_, ?_⟩
  · intro n h1 h2
    exact mapM_same (fun t ht => (fnStart_copied (.sym h1 h2) t ht).cpp hM)
  · intro maps h
    exact mapM_same (fun t ht => (fnMaps_copied (fun m hm => .sym (h m hm).1 (h m hm).2) t ht).cpp hM)
  · exact mapM_same (fun t ht => (genNoGc_copied t ht).cpp hM)
  · intro types ty lc gt ls hty h
    refine mapM_same (fun t ht => (tableLines_copied ?_ ?_ h t ht).cpp hM)
    · intro t
      have h2 := hty t
      have hn : (tyNames (ty t)).all isName = true := List.all_eq_true.2 (fun m hm => (h2 m hm).1)
      have hc : Copied (ty t).asm := by
        refine ⟨?_, ?_⟩
        · exact asm_tame _ hn
        · rw [asm_free _ hn]
          exact List.all_eq_true.2 (fun m hm => by simp [(h2 m hm).2])
      exact ⟨.prefix (c := 's') (w := "truct_".toList) (by decide) (by decide) hc, enumLabel_copied hc (asm_shape _ hn)⟩
    · intro i
      refine .simple ?_
      rw [litLabel, List.all_append, dec_simple]; decide

/-- **C84, literals.**  Whatever the text of the literals (`C39`), the preprocessor changes nothing in it: the assembler reads the lines that
`C82_string` is about. -/
theorem C84_string (M : Gas.Txt → Option Gas.Txt) (hM : Predefined M) (ss : List Clara.Lex.Bytes)
    (hs : ∀ s ∈ ss, (∃ u, Lex.Spec.Lexeme u .string s) ∧ validUtf8 s = true ∧ 10 ∉ s ∧ s.length < 2 ^ 62)
    {order : List (Clara.Lex.Bytes × Nat)} (ho : order.Perm (stringLits {} ss).2.table) :
    ∃ out, flushLits order = some out ∧ (flushLines out).mapM (cppLine M) = some (flushLines out) := by
  obtain ⟨out, h1, h2, h3, h4⟩ := C39_emit_partial ss (fun s h => ⟨(hs s h).1, (hs s h).2.1, (hs s h).2.2.1⟩) ho
  exact ⟨out, h1, flush_cpp hM (emitted_clean ss hs ho h1)⟩

/-! ### Examples -/

/-- The macros of `gcc` and three lines. -/
example : cppLine unixMacros "clara_f.linux:".toList = some "clara_f.1:".toList ∧
    cppLine unixMacros "clara_f.Box$unix$:".toList = some "clara_f.Box$1$:".toList ∧
    cppLine unixMacros "   call    unix       \n".toList = some "   call    1       \n".toList ∧
    cppLine unixMacros "struct_linux:".toList = some "struct_linux:".toList ∧
    cppLine unixMacros "   .ascii \"linux // it's \\\" unix\\0\"".toList = some "   .ascii \"linux // it's \\\" unix\\0\"".toList := by decide +kernel

/-- Names that are reserved, and names that are not. -/
example : ["linux", "__x86_64__", "_LP64", "unix"].all (fun n => reserved n.toList) = true ∧
    ["Linux", "linux_", "_main", "clara", "i386", "_"].all (fun n => !reserved n.toList) = true := by decide +kernel

/-- The hypotheses of `C84_names` and of the part about the type table. -/
example : tysNames [.array (.struct "Map" [.prim .string, .enum "Option" [.prim .int]]), .prim .int] = ["Map", "Option"] ∧
    ["Map", "Option"].all (fun n => isName n && !reserved n.toList) = true := by decide +kernel

/-- The hypotheses of `C84_program_partial` hold for the program of `C79`. -/
example (M : Gas.Txt → Option Gas.Txt) (hM : Predefined M) (o : Bool) (i : Ins) (hm : Item.ins i ∈ peepWith o (genProg "clara_alloc" "clara_ioob" txFns)) :
    ∃ t, cppLine M (insText (plainSpell ["\"a\""]) (.ins i)) = some t ∧
      line (fileSymbols (genProg "clara_alloc" "clara_ioob" txFns) ["\"a\""]) t = some (.ins i) := by
  have hc : ∀ e ∈ cProg "clara_alloc" "clara_ioob" txFns, e ≠ .panic ∧ ∀ j, e = .ins j → namesOk ["\"a\""] j = true ∧
      ∀ f, (j = .call f ∨ ∃ d, j = .movabs (.fn f) d) → free f.toList = true := by
    have : (cProg "clara_alloc" "clara_ioob" txFns).all
        (fun e => match e with
          | .panic => false
          | .ins j => namesOk ["\"a\""] j && (match j with | .call f | .movabs (.fn f) _ => free f.toList | _ => true)
          | _ => true) = true := by decide +kernel
    intro e he
    have := List.all_eq_true.1 this e he
    cases e with
    | panic => cases this
    | ins j =>
      simp only [Bool.and_eq_true] at this
      refine ⟨by simp, fun j' h => ?_⟩
      cases h
      refine ⟨this.1, ?_⟩
      rintro f (rfl | ⟨d, rfl⟩) <;> exact this.2
    | _ => exact ⟨by simp, fun j' h => by cases h⟩
  rw [cProg_eq] at hc
  refine (C84_program_partial M hM o _ _ txFns _ itoa (fun i => C79_itoa i) (by decide +kernel) (fun h => (hc _ h).1 rfl) (by decide) ?_ (by decide)
    (fun i h => ((hc _ h).2 i rfl).1) (by decide) (fun i f h hf => ((hc _ h).2 i rfl).2 f hf)).1 i hm
  intro fd h
  rcases List.mem_singleton.1 h with rfl
  exact ⟨⟨"f.int".toList, by decide⟩, by decide⟩

end Clara.Props
