import Verif.Gen.TextProg
import Verif.Gen.Compute
/-
C79: the lines of the assembly file.
-/
namespace Clara.Props
open Clara.Gen Clara.Gas Clara.Types

/-! ### Specification

`Gas.line` (in `Verif/Gen/Gas.lean`) is how the assembler reads a line, `Ins.valid` (in `Verif/Gen/Valid.lean`) says which
instructions the processor has. -/

/-- The symbols of a file: the labels of its code, and its string literals in the order of their numbers. -/
def fileSymbols (code : List Ev) (lits : List String) : Symbols where
  label t := (labels code).find? (fun l => l.text == t)
  text t := lits.find? (fun s => ".LC".toList ++ dec (lits.idxOf s) == t)

/-- Names that are used in an instruction are symbols that are not labels of literals (they do not begin with a dot), and its
string is one of the literals. -/
def namesOk (lits : List String) : Ins → Bool
  | .call f => isSym f.toList
  | .movabs (.fn f) _ => isSym f.toList && f.toList.head? != some '.'
  | .movabs (.str s) _ => lits.contains s
  | _ => true

mutual
/-- The names of types in a type are made of characters of symbols. -/
def tySpelt : Ty → Bool
  | .array e => tySpelt e
  | .struct n ts | .enum n ts => n.toList.all symChar && tysSpelt ts
  | .fn _ ps _ => tysSpelt ps
  | .param _ | .prim _ => true
def tysSpelt : List Ty → Bool
  | [] => true
  | t :: ts => tySpelt t && tysSpelt ts
end

/-! ### Theorems -/

/-- Instructions: whatever the compiler writes as a line, the assembler reads as that instruction.  `hk` is about names: jumps
need labels that are known, functions a name that is a symbol. -/
theorem C79_line (S : Spell) (Y : Symbols) (i : HIns) (hS : Numbers S) (hv : HIns.valid i = true) (hk : Known S Y i) :
    line Y (insText S i) = some i :=
  line_ins hS i hv hk

/-- All instructions written for a program exist, if the compiler does not panic.  The numbers of the program have 64 bits. -/
theorem C79_exists (o : Bool) (alloc ioob : String) (fds : List FnDef) (h : ∀ fd ∈ fds, fd.body.small = true)
    (hp : Ev.panic ∉ genProg alloc ioob fds) (i : Ins) (hi : Item.ins i ∈ peepWith o (genProg alloc ioob fds)) : i.valid = true :=
  prog_ok o alloc ioob fds h hp _ hi

/-- Every jump of a program goes to one of its labels. -/
theorem C79_jumps (alloc ioob : String) (fds : List FnDef) (hp : Ev.panic ∉ genProg alloc ioob fds) {i : Ins} {l : Label}
    (hi : Ev.ins i ∈ genProg alloc ioob fds) (hj : i = .jmp l ∨ ∃ c, i = .jcc c l) : l ∈ labels (genProg alloc ioob fds) := by
  refine jumps_defined alloc ioob fds hp hi ?_
  rcases hj with rfl | ⟨c, rfl⟩ <;> exact decide_eq_true rfl

theorem find_text {α : Type} [DecidableEq α] (f : α → Gas.Txt) {l : List α} (hi : ∀ a ∈ l, ∀ b ∈ l, f a = f b → a = b) {a : α} (ha : a ∈ l) :
    l.find? (fun x => f x == f a) = some a := by
  induction l with
  | nil => cases ha
  | cons x l ih =>
    rw [List.find?_cons]
    by_cases hx : f x = f a
    · have : x = a := hi x (by simp) a ha hx
      subst this
      simp
    · have : (f x == f a) = false := by simpa using hx
      rw [this]
      refine ih (fun a ha b hb => hi a (by simp [ha]) b (by simp [hb])) ?_
      rcases List.mem_cons.1 ha with rfl | ha
      · exact absurd rfl hx
      · exact ha

theorem text_sym {alloc ioob : String} {fds : List FnDef} (hs : ∀ fd ∈ fds, isSym fd.name.toList = true) {l : Label}
    (hl : l ∈ labels (genProg alloc ioob fds)) : isSym l.text = true := by
  rcases genProg_label hl with rfl | ⟨fd, h1, rfl⟩ | ⟨s, n, rfl, h⟩
  · decide
  · exact hs fd h1
  · have hd : ('_' :: dec n).all symChar = true := by
      rw [List.all_eq_true]
      intro c hc
      rcases List.mem_cons.1 hc with rfl | hc
      · decide
      · have := dec_digit n c hc
        unfold symChar Char.isAlphanum
        rw [this]; simp
    have h2 : ∀ s ∈ stems, isSym s.toList = true := by decide
    have h3 := h2 s h
    obtain ⟨c, cs, e, k1, k2, k3, k4⟩ := isSym_iff h3
    show isSym (s.toList ++ '_' :: dec n) = true
    rw [e] at k4 ⊢
    simp only [List.cons_append, isSym, Bool.and_eq_true, Bool.not_eq_true', bne_iff_ne, List.all_append]
    refine ⟨k1, k2, k3, ?_, hd⟩
    rw [List.all_eq_true]
    exact fun x hx => k4 x (by simp [hx])

/-- Programs: the file read by the assembler is the program.  `hn` and `hf` are those of C36, `hnum` allows any way to write
constants, as C79_itoa and C79_number. -/
theorem C79_program (o : Bool) (alloc ioob : String) (fds : List FnDef) (lits : List String) (num : Int → Gas.Txt)
    (hnum : Numbers ⟨num, lits.idxOf⟩) (h : ∀ fd ∈ fds, fd.body.small = true) (hp : Ev.panic ∉ genProg alloc ioob fds)
    (hn : (fds.map (·.name)).Nodup)
    (hf : ∀ fd ∈ fds, (∃ s : List Char, fd.name.toList = "clara_".toList ++ s) ∧ fd.name ≠ "clara_asm_entrypoint")
    (hs : ∀ fd ∈ fds, isSym fd.name.toList = true) (hi : ∀ i, Ev.ins i ∈ genProg alloc ioob fds → namesOk lits i = true)
    (i : Ins) (hm : Item.ins i ∈ peepWith o (genProg alloc ioob fds)) :
    line (fileSymbols (genProg alloc ioob fds) lits) (insText ⟨num, lits.idxOf⟩ (.ins i)) = some (.ins i) := by
  refine line_ins hnum (.ins i) (prog_ok o alloc ioob fds h hp _ hm) ?_
  have hinj : ∀ a ∈ labels (genProg alloc ioob fds), ∀ b ∈ labels (genProg alloc ioob fds), a.text = b.text → a = b := by
    have := allSyms_nodup alloc ioob fds 0 0 hn hf
    intro a ha b hb e
    have hab := List.inj_on_of_nodup_map this (x := .code a) (y := .code b) (by simp [allSyms, ha]) (by simp [allSyms, hb]) e
    injection hab
  have hlab : ∀ l ∈ labels (genProg alloc ioob fds), isSym l.text = true ∧
      (fileSymbols (genProg alloc ioob fds) lits).label l.text = some l :=
    fun l hl => ⟨text_sym hs hl, find_text Label.text hinj hl⟩
  have key : ∀ i, Ev.ins i ∈ genProg alloc ioob fds →
      Known ⟨num, lits.idxOf⟩ (fileSymbols (genProg alloc ioob fds) lits) (.ins i) := by
    intro i hm
    have hno := hi i hm
    cases i with
    | jmp l => exact hlab l (C79_jumps alloc ioob fds hp hm (.inl rfl))
    | jcc c l => exact hlab l (C79_jumps alloc ioob fds hp hm (.inr ⟨c, rfl⟩))
    | call f => exact hno
    | movabs s d =>
      cases s with
      | imm j => trivial
      | str s =>
        refine find_text (fun s => ".LC".toList ++ dec (lits.idxOf s)) ?_ (by simpa [namesOk] using hno)
        intro a ha b hb e
        have := dec_inj (List.append_cancel_left e)
        exact (List.idxOf_inj ha).1 this
      | fn f =>
        simp only [namesOk, Bool.and_eq_true, bne_iff_ne] at hno
        refine ⟨hno.1, ?_⟩
        show lits.find? _ = none
        rw [List.find?_eq_none]
        intro s _ e
        have e' := eq_of_beq e
        refine hno.2 ?_
        rw [← e']
        rfl
    | _ => trivial
  exact peep_all (fun i => Known _ _ (.ins i)) (fun _ _ => trivial) (fun _ => trivial) o _ key i hm

/-- Constants of the compiler. -/
theorem C79_itoa (i : Int) : integer (itoa i) = some i ∧ ∀ c ∈ itoa i, numChar c = true := ⟨integer_itoa i, itoa_num i⟩

/-- Literals of the source are copied into the file; the assembler reads the same number as the compiler did.  No literal has a
plus or the prefix `0o`. -/
theorem C79_number (s : Clara.Lex.Bytes) (i : Int) (h : Clara.Sema.Lit.parseInt s = some i) (hp : ∀ t, s ≠ 43 :: t)
    (ho : octalO s = false) (ho' : ∀ t, s = 45 :: t → octalO t = false) :
    integer (chars s) = some i ∧ ∀ c ∈ chars s, numChar c = true :=
  int_integer s i h hp ho ho'

mutual
theorem asm_spelt (t : Ty) (h : tySpelt t = true) : t.asm.all symChar = true := by
  match t with
  | .array e =>
    have h1 : Ty.asm (.array e) = "array$".toList ++ e.asm ++ ['$'] := rfl
    rw [h1, List.all_append, List.all_append, asm_spelt e h]
    decide
  | .struct n ts | .enum n ts =>
    simp only [tySpelt, Bool.and_eq_true] at h
    rw [Ty.asm]
    split
    · exact h.1
    · rw [List.all_append, List.all_append, List.all_append, h.1, asmAll_spelt ts h.2]
      decide
  | .fn _ ps _ =>
    simp only [tySpelt] at h
    rw [Ty.asm]
    split
    · decide
    · rw [List.all_append, List.all_append, List.all_append, asmAll_spelt ps h]
      decide
  | .param _ => rfl
  | .prim p => cases p <;> decide
theorem asmAll_spelt (ts : List Ty) (h : tysSpelt ts = true) : (join ['.'] (asmAll ts)).all symChar = true := by
  match ts with
  | [] => rfl
  | [t] =>
    simp only [tysSpelt, Bool.and_eq_true] at h
    exact asm_spelt t h.1
  | t :: u :: ts =>
    simp only [tysSpelt, Bool.and_eq_true] at h
    have h1 : join ['.'] (asmAll (t :: u :: ts)) = t.asm ++ ['.'] ++ join ['.'] (asmAll (u :: ts)) := rfl
    rw [h1, List.all_append, List.all_append, asm_spelt t h.1, asmAll_spelt (u :: ts) (by simp only [tysSpelt, Bool.and_eq_true]; exact h.2)]
    decide
end

/-- Names of functions are symbols, if the names in the source are made of characters of symbols. -/
theorem C79_names (k : FnKind) (n : String) (ps : List Ty) (hn : isSym n.toList = true) (hp : tysSpelt ps = true) :
    isSym (fnAsm k n ps) = true := by
  have cl : ∀ t : Gas.Txt, t.all symChar = true → isSym ("clara_".toList ++ t) = true := by
    intro t ht
    show (symChar 'c' && (!Char.isDigit 'c' && ('c' != '$' && ("lara_".toList ++ t).all symChar))) = true
    rw [List.all_append, ht]
    decide
  have hall : n.toList.all symChar = true := by
    obtain ⟨_, _, _, _, _, _, h⟩ := isSym_iff hn
    exact List.all_eq_true.2 h
  have hps : ∀ ps : List Ty, tysSpelt ps = true → ((asmAll ps).flatMap (fun s => '.' :: s)).all symChar = true := by
    intro ps
    induction ps with
    | nil => intro _; rfl
    | cons t ts ih =>
      intro h
      simp only [tysSpelt, Bool.and_eq_true] at h
      have e : (asmAll (t :: ts)).flatMap (fun s => '.' :: s) = '.' :: (t.asm ++ (asmAll ts).flatMap (fun s => '.' :: s)) := by
        simp [asmAll, List.flatMap_cons]
      rw [e, List.all_cons, List.all_append, asm_spelt t h.1, ih h.2]
      decide
  unfold fnAsm
  split
  · exact hn
  · split
    · exact cl _ (by decide)
    · rw [List.append_assoc]
      refine cl _ ?_
      rw [List.all_append, hall, hps ps hp]
      rfl

/-! ### Examples -/

/-- Literals are numbered from zero and constants written in decimal. -/
def plainSpell (lits : List String) : Spell := ⟨itoa, lits.idxOf⟩

example : Numbers (plainSpell ["\"a\""]) := fun i => C79_itoa i

example : insText (plainSpell []) (.ins (.mov (.mem { base := .rax, idx := some .rbx, scale := 8, disp := 8 }) (.reg .rax))) =
    "   movq    8(%rax,%rbx,8), %rax                              \n".toList := by decide +kernel

example : insText (plainSpell ["\"a\"", "\"b\""]) (.ins (.movabs (.str "\"b\"") .rax)) =
    "   movabs  $.LC1+8, %rax                                     \n".toList := by decide +kernel

example : insText (plainSpell []) (.ins (.callMem { base := .rbp, disp := -16 })) =
    "   call    *-16(%rbp)                                        \n".toList := by decide +kernel

/-- `fn f(n: int) { while n > 0 { g("a", f) n = n - 0x10 } }` -/
def txFns : List FnDef := [
  { name := "clara_f.int", params := [(0, ⟨.integer, 0⟩)], retNothing := true, body := .block (
      .cons (.loop (.bin .gt ⟨.boolean, 0⟩ (.var 0 ⟨.integer, 0⟩) (.int 0))
        (.cons (.expr (.callFn "clara_g.string" { ret := ⟨.integer, 0⟩ } [.str "\"a\"", .fnRef "clara_f.int" false ⟨.integer, 0⟩]))
          (.cons (.asg false (.var 0 ⟨.integer, 0⟩) (.bin .sub ⟨.integer, 0⟩ (.var 0 ⟨.integer, 0⟩) (.int 16))) .nil))) .nil) }]

example (o : Bool) (i : Ins) (hm : Item.ins i ∈ peepWith o (genProg "clara_alloc" "clara_ioob" txFns)) :
    line (fileSymbols (genProg "clara_alloc" "clara_ioob" txFns) ["\"a\""]) (insText (plainSpell ["\"a\""]) (.ins i)) = some (.ins i) := by
  have hc : ∀ e ∈ cProg "clara_alloc" "clara_ioob" txFns, e ≠ .panic ∧ ∀ j, e = .ins j → namesOk ["\"a\""] j = true := by
    have : (cProg "clara_alloc" "clara_ioob" txFns).all
        (fun e => match e with | .panic => false | .ins j => namesOk ["\"a\""] j | _ => true) = true := by decide +kernel
    intro e he
    have := List.all_eq_true.1 this e he
    cases e with
    | panic => cases this
    | ins j => exact ⟨by simp, fun j' h => by cases h; exact this⟩
    | _ => exact ⟨by simp, fun j' h => by cases h⟩
  rw [cProg_eq] at hc
  refine C79_program o _ _ txFns _ itoa (fun i => C79_itoa i) (by decide +kernel) (fun h => (hc _ h).1 rfl) (by decide) ?_ (by decide)
    (fun j hj => (hc _ hj).2 j rfl) i hm
  intro fd hfd
  rcases List.mem_singleton.1 hfd with rfl
  exact ⟨⟨"f.int".toList, rfl⟩, by decide⟩

/-- The reader does not take everything: swapped operands are another instruction, and some texts are no instruction. -/
example : line (fileSymbols [] []) " subq %rax, %rbx\n".toList = some (.ins (.alu .sub (.reg .rax) .rbx)) ∧
    line (fileSymbols [] []) " subq %rbx, %rax\n".toList = some (.ins (.alu .sub (.reg .rbx) .rax)) ∧
    line (fileSymbols [] []) " movb %r8l, (%rax)\n".toList = none ∧ line (fileSymbols [] []) " jmp nowhere\n".toList = none ∧
    line (fileSymbols [] []) " movq (%rax,8), %rax\n".toList = none := by decide +kernel

/-- Octal, hexadecimal and negative literals. -/
example : integer "010".toList = some 8 ∧ integer "0xFf".toList = some 255 ∧ integer "-12".toList = some (-12) ∧
    Clara.Sema.Lit.parseInt [48, 49, 48] = some 8 := by decide +kernel

example : fnAsm .normal "f" [.array (.prim .int), .struct "Map" [.prim .string]] = "clara_f.array$int$.Map$string$".toList ∧
    isSym (fnAsm .normal "f" [.array (.prim .int), .struct "Map" [.prim .string]]) = true := by decide +kernel

end Clara.Props
