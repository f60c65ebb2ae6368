import Verif.Props.CodeFile
import Verif.Props.Closure
/-
**C94.**  The order in which Go goes through its maps.
-/
namespace Clara.Props
open Clara.Gen hiding Txt
open Clara.Gas Clara.Data

/-! ### Specification

Go goes through a map in any order, and in another one when the same program runs again.  The compiler does so at three places: the root maps
of a function (`codegen.go` 201), the string literals (`asm.go` 415) and the variables of a function literal (`closures.go` 103). -/

/-- An order for the entries of each map. -/
def MapOrder {α : Type} (ord : List α → List α) : Prop := ∀ l, (ord l).Perm l

/-- **C94** as claimed: compiling a program twice gives the same file.  The code of the functions, ... -/
def C94_code_claim : Prop := ∀ (S : Spell) (o : Bool) (alloc ioob : String) (fds : List FnDef), Ev.panic ∉ genProg alloc ioob fds →
  ∀ (ord ord' : List (Gas.Txt × List Nat) → List (Gas.Txt × List Nat)), MapOrder ord → MapOrder ord' →
  codeLines S ord 0 none (parts (peepWith o (genProg alloc ioob fds))) = codeLines S ord' 0 none (parts (peepWith o (genProg alloc ioob fds)))

/-- ... the literals ... -/
def C94_strings_claim (ss : List Clara.Lex.Bytes) : Prop :=
  ∀ ord ord' : List (Clara.Lex.Bytes × Nat), ord.Perm (stringLits {} ss).2.table → ord'.Perm (stringLits {} ss).2.table →
    (flushLits ord).map flushLines = (flushLits ord').map flushLines

open Clara.Sema.Closure in
/-- ... and the functions that are made of function literals. -/
def C94_closure_claim : Prop := ∀ (name : Nat → String) (ord ord' : List Nat → List Nat) (t : T), MapOrder ord → MapOrder ord' →
  Checked t → Named name t → conv name ord t = conv name ord' t

/-- How many calls with roots there are in each function. -/
def rootedCalls : Nat → List CItem → List Nat
  | n, [] => [n]
  | n, .start _ :: cs | n, .ioob :: cs => n :: rootedCalls 0 cs
  | n, .word (_ :: _) :: cs => rootedCalls (n + 1) cs
  | n, _ :: cs => rootedCalls n cs

/-! ### The root maps -/

theorem perm_short {α : Type} {l l' : List α} (h : l'.Perm l) (hl : l.length ≤ 1) : l' = l := by
  match l, hl with
  | [], _ => exact List.perm_nil.1 h
  | [x], _ => exact List.perm_singleton.1 h

theorem fnMaps_perm {l l' : List (Gas.Txt × List Nat)} (h : l.Perm l') : (fnMaps l).Perm (fnMaps l') :=
  List.Perm.append_left _ (List.Perm.cons _ (h.flatMap_right _))

theorem endMaps_perm {ord ord' : List (Gas.Txt × List Nat) → List (Gas.Txt × List Nat)} (h : MapOrder ord) (h' : MapOrder ord')
    (ms : Option (List (Gas.Txt × List Nat))) : (endMaps ord ms).Perm (endMaps ord' ms) := by
  cases ms with
  | none => exact .refl _
  | some l => exact fnMaps_perm ((h l).trans (h' l).symm)

theorem codeLines_perm (S : Spell) {ord ord' : List (Gas.Txt × List Nat) → List (Gas.Txt × List Nat)} (h : MapOrder ord) (h' : MapOrder ord')
    (k : Nat) (ms : Option (List (Gas.Txt × List Nat))) (cs : List CItem) : (codeLines S ord k ms cs).Perm (codeLines S ord' k ms cs) := by
  fun_induction codeLines S ord k ms cs with
  | case1 k ms => exact endMaps_perm h h' ms
  | case2 k ms f cs ih => exact (endMaps_perm h h' ms).append (ih.append_left _)
  | case3 k ms cs ih => exact (endMaps_perm h h' ms).append ((ih.cons _).cons _)
  | case4 k ms i cs ih => exact ih.cons _
  | case5 k ms l cs ih => exact ih.cons _
  | case6 k ms cs ih => exact ih.cons _
  | case7 k ms r rs cs ih => exact ih.cons _

/-- The maps at hand: they have different names, all used before. -/
def HandMaps (k : Nat) (ms : Option (List (Gas.Txt × List Nat))) : Prop :=
  ((ms.getD []).map Prod.fst).Nodup ∧ ∀ m ∈ ms.getD [], ∃ j < k, m.1 = mapName j

theorem mapName_inj {i j : Nat} (h : mapName i = mapName j) : i = j := dec_inj (List.append_cancel_left h)

theorem handMaps_add {k : Nat} {ms : Option (List (Gas.Txt × List Nat))} (h : HandMaps k ms) (rs : List Nat) :
    HandMaps (k + 1) (some (ms.getD [] ++ [(mapName k, rs)])) := by
  refine ⟨?_, ?_⟩
  · simp only [Option.getD_some, List.map_append, List.map_cons, List.map_nil]
    rw [List.nodup_append]
    refine ⟨h.1, by simp, ?_⟩
    intro a ha b hb
    rw [List.mem_singleton] at hb
    subst hb
    obtain ⟨m, hm, rfl⟩ := List.mem_map.1 ha
    obtain ⟨j, hj, e⟩ := h.2 m hm
    rw [e]
    intro he
    have := mapName_inj he
    omega
  · intro m hm
    rcases List.mem_append.1 hm with hm | hm
    · obtain ⟨j, hj, e⟩ := h.2 m hm
      exact ⟨j, by omega, e⟩
    · rw [List.mem_singleton.1 hm]
      exact ⟨k, by omega, rfl⟩

/-- Two maps or more: the other way round they are other lines. -/
theorem fnMaps_reverse {l : List (Gas.Txt × List Nat)} (hn : (l.map Prod.fst).Nodup) (h : fnMaps l = fnMaps l.reverse) : l.length ≤ 1 := by
  match l, hn, h with
  | [], _, _ => simp
  | [_], _, _ => simp
  | x :: y :: r, hn, h =>
    exfalso
    have h1 := List.append_cancel_left h
    obtain ⟨z, t, hz⟩ : ∃ z t, (x :: y :: r).reverse = z :: t := by
      cases e : (x :: y :: r).reverse with
      | nil => simp at e
      | cons z t => exact ⟨z, t, rfl⟩
    rw [hz] at h1
    have h2 : label x.1 = label z.1 := by
      simp only [List.flatMap_cons, Data.gcMap, List.cons_append, List.cons.injEq] at h1
      exact h1.2.1
    have h3 : x.1 = z.1 := List.append_cancel_right h2
    have hzm : z ∈ y :: r := by
      have : (y :: r).reverse ++ [x] = z :: t := by rw [← hz]; simp
      cases e : (y :: r).reverse with
      | nil => simp at e
      | cons w s =>
        rw [e] at this
        simp only [List.cons_append, List.cons.injEq] at this
        rw [← List.mem_reverse, e, this.1]
        simp
    rw [List.map_cons, List.nodup_cons] at hn
    exact hn.1 (by rw [h3]; exact List.mem_map_of_mem hzm)

theorem endMaps_reverse {k : Nat} {ms : Option (List (Gas.Txt × List Nat))} (hm : HandMaps k ms) (h : endMaps id ms = endMaps List.reverse ms) :
    (ms.getD []).length ≤ 1 := by
  cases ms with
  | none => simp
  | some l => exact fnMaps_reverse hm.1 h

theorem handMaps_start (k : Nat) {ms : Option (List (Gas.Txt × List Nat))} (h : ms.getD [] = []) : HandMaps k ms := by
  unfold HandMaps; rw [h]; simp

theorem codeLines_reverse (S : Spell) (k : Nat) (ms : Option (List (Gas.Txt × List Nat))) (cs : List CItem) (hm : HandMaps k ms)
    (h : codeLines S id k ms cs = codeLines S List.reverse k ms cs) : ∀ n ∈ rootedCalls (ms.getD []).length cs, n ≤ 1 := by
  have hid : MapOrder (id : List (Gas.Txt × List Nat) → _) := fun l => .refl _
  have hrv : MapOrder (List.reverse : List (Gas.Txt × List Nat) → _) := List.reverse_perm
  induction cs generalizing k ms with
  | nil =>
    intro n hn
    rw [rootedCalls, List.mem_singleton] at hn
    subst hn
    exact endMaps_reverse hm h
  | cons c cs ih =>
    have two {A B A' B' : List Gas.Txt} (e : A ++ B = A' ++ B') (hl : A.Perm A') : A = A' ∧ B = B' := List.append_inj e hl.length_eq
    cases c with
    | start f =>
      obtain ⟨h1, h2⟩ := two h (endMaps_perm hid hrv ms)
      have h3 := ih k (some []) (handMaps_start k rfl) (List.append_cancel_left h2)
      intro n hn
      rcases List.mem_cons.1 hn with rfl | hn
      · exact endMaps_reverse hm h1
      · exact h3 n hn
    | ioob =>
      obtain ⟨h1, h2⟩ := two h (endMaps_perm hid hrv ms)
      simp only [List.cons.injEq, true_and] at h2
      have h3 := ih k none (handMaps_start k rfl) h2
      intro n hn
      rcases List.mem_cons.1 hn with rfl | hn
      · exact endMaps_reverse hm h1
      · exact h3 n hn
    | ins i => exact ih k ms hm (List.cons.inj h).2
    | label l => exact ih k ms hm (List.cons.inj h).2
    | word rs =>
      cases rs with
      | nil => exact ih k ms hm (List.cons.inj h).2
      | cons r rs =>
        have := ih (k + 1) _ (handMaps_add hm _) (List.cons.inj h).2
        simpa [rootedCalls] using this

theorem endMaps_short {ord ord' : List (Gas.Txt × List Nat) → List (Gas.Txt × List Nat)} (h : MapOrder ord) (h' : MapOrder ord')
    {ms : Option (List (Gas.Txt × List Nat))} (hl : (ms.getD []).length ≤ 1) : endMaps ord ms = endMaps ord' ms := by
  cases ms with
  | none => rfl
  | some l =>
    show fnMaps (ord l) = fnMaps (ord' l)
    rw [perm_short (h l) hl, perm_short (h' l) hl]

theorem codeLines_short (S : Spell) {ord ord' : List (Gas.Txt × List Nat) → List (Gas.Txt × List Nat)} (h : MapOrder ord) (h' : MapOrder ord')
    (k : Nat) (ms : Option (List (Gas.Txt × List Nat))) (cs : List CItem) (hc : ∀ n ∈ rootedCalls (ms.getD []).length cs, n ≤ 1) :
    codeLines S ord k ms cs = codeLines S ord' k ms cs := by
  induction cs generalizing k ms with
  | nil => exact endMaps_short h h' (hc _ (by simp [rootedCalls]))
  | cons c cs ih =>
    cases c with
    | start f =>
      simp only [codeLines]
      rw [endMaps_short h h' (hc _ (by simp [rootedCalls])), ih k (some []) (fun n hn => hc n (by simp only [rootedCalls]; exact List.mem_cons_of_mem _ hn))]
    | ioob =>
      simp only [codeLines]
      rw [endMaps_short h h' (hc _ (by simp [rootedCalls])), ih k none (fun n hn => hc n (by simp only [rootedCalls]; exact List.mem_cons_of_mem _ hn))]
    | ins i => simp only [codeLines]; rw [ih k ms hc]
    | label l => simp only [codeLines]; rw [ih k ms hc]
    | word rs =>
      cases rs with
      | nil => simp only [codeLines]; rw [ih k ms hc]
      | cons r rs =>
        simp only [codeLines]
        rw [ih (k + 1) _ (by simpa [rootedCalls] using hc)]

/-- **C94, code, exactly.**  The lines of a program are the same in all orders if and only if no function has two calls with roots. -/
theorem C94_code_iff (S : Spell) (c : List Item) :
    (∀ ord ord' : List (Gas.Txt × List Nat) → List (Gas.Txt × List Nat), MapOrder ord → MapOrder ord' →
      codeLines S ord 0 none (parts c) = codeLines S ord' 0 none (parts c)) ↔ ∀ n ∈ rootedCalls 0 (parts c), n ≤ 1 :=
  ⟨fun h => codeLines_reverse S 0 none (parts c) (handMaps_start 0 rfl) (h _ _ (fun l => .refl _) List.reverse_perm),
    fun h _ _ ho ho' => codeLines_short S ho ho' 0 none (parts c) h⟩

/-- **C94, code.**  All lines are there in every order. -/
theorem C94_lines_partial (S : Spell) (c : List Item) {ord ord' : List (Gas.Txt × List Nat) → List (Gas.Txt × List Nat)} (h : MapOrder ord)
    (h' : MapOrder ord') : (codeLines S ord 0 none (parts c)).Perm (codeLines S ord' 0 none (parts c)) :=
  codeLines_perm S h h' 0 none (parts c)

/-! ### The text section -/

/-- The statements of an end of a function in the text section. -/
theorem endMaps_text (Y : Symbols) {ord : List (Gas.Txt × List Nat) → List (Gas.Txt × List Nat)} (hord : MapOrder ord)
    {ms : Option (List (Gas.Txt × List Nat))} (hn : ∀ m ∈ ms.getD [], isSym m.1 = true) :
    ∃ es : List DStmt, rlines Y (endMaps ord ms) = some (es.map .d) ∧
      (∀ r, codeOf false (es.map .d ++ .d (.sect false) :: r) = (if ms.isSome then spacerStmts.map .d else []) ++ codeOf false r) ∧
      codeOf false (es.map .d) = (if ms.isSome then spacerStmts.map .d else []) := by
  cases ms with
  | none => exact ⟨[], rfl, fun _ => rfl, rfl⟩
  | some l =>
    obtain ⟨S, h1, h2, h3⟩ := fnMaps_stmts (maps := ord l) (fun m hm => hn m ((hord l).mem_iff.1 hm))
    refine ⟨_, rlines_data h3 h1, ?_, ?_⟩
    · intro r
      rw [List.map_append, List.append_assoc, codeOf_plain spacer_plain, if_neg (by decide), List.map_cons, List.cons_append,
        codeOf, codeOf_plain h2]
      rfl
    · rw [List.map_append, codeOf_plain spacer_plain, if_neg (by decide), List.map_cons, codeOf,
        ← List.append_nil (S.map Stm.d), codeOf_plain h2]
      simp [codeOf]

theorem code_text (S : Spell) (Y : Symbols) (cs : List CItem) (k : Nat) (ms : Option (List (Gas.Txt × List Nat)))
    (hc : ∀ c ∈ cs, ReadableC S Y c) (hn : ∀ m ∈ ms.getD [], isSym m.1 = true) :
    ∃ text, ∀ ord, MapOrder ord → ∃ st, rlines Y (codeLines S ord k ms cs) = some st ∧ codeOf false st = text := by
  induction cs generalizing k ms with
  | nil =>
    refine ⟨if ms.isSome then spacerStmts.map .d else [], fun ord ho => ?_⟩
    obtain ⟨es, h1, -, h3⟩ := endMaps_text Y ho hn
    exact ⟨_, h1, h3⟩
  | cons c cs ih =>
    have hcs : ∀ c ∈ cs, ReadableC S Y c := fun x hx => hc x (by simp [hx])
    have hc0 := hc c (by simp)
    have one {ms' : Option (List (Gas.Txt × List Nat))} {k' : Nat} (hn' : ∀ m ∈ ms'.getD [], isSym m.1 = true) {l : Gas.Txt} {s : Stm} (hl : rline Y l = some [s])
        (hs : ∀ r, codeOf false (s :: r) = s :: codeOf false r) :
        ∃ text, ∀ ord, MapOrder ord → ∃ st, rlines Y (l :: codeLines S ord k' ms' cs) = some st ∧ codeOf false st = text := by
      obtain ⟨text, h⟩ := ih k' ms' hcs hn'
      refine ⟨s :: text, fun ord ho => ?_⟩
      obtain ⟨st, g1, g2⟩ := h ord ho
      exact ⟨_, rlines_cons hl g1, by rw [← g2]; exact hs st⟩
    cases c with
    | start f =>
      have hf : isSym f.toList = true := hc0
      have hr : rlines Y (fnStart f.toList) =
          some ([DStmt.sect false, .align 8, .quads [.num (goTag (roHeader 5))], .none, .none, .label f.toList].map Stm.d) := by
        refine rlines_data ?_ (dlines_cons dline_text (dlines_cons dline_align (dlines_cons (dline_tagged _) (dlines_cons (dline_globl hf)
          (dlines_cons (dline_type hf) (dlines_one (dline_label hf)))))))
        intro l hl
        simp only [fnStart, List.mem_cons, List.not_mem_nil, or_false] at hl
        rcases hl with rfl | rfl | rfl | rfl | rfl | rfl
        · exact isData_tab _ _
        · exact isData_tab _ _
        · exact isData_tab _ _
        · exact isData_tab _ _
        · exact isData_tab _ _
        · exact isData_label hf
      obtain ⟨text, h⟩ := ih k (some []) hcs (by simp)
      refine ⟨(if ms.isSome then spacerStmts.map Stm.d else []) ++ ([DStmt.align 8, .quads [.num (goTag (roHeader 5))], .none, .none, .label f.toList].map Stm.d ++ text), fun ord ho => ?_⟩
      obtain ⟨st, g1, g2⟩ := h ord ho
      obtain ⟨es, h1, h2, -⟩ := endMaps_text Y ho hn
      refine ⟨_, rlines_append h1 (rlines_append hr g1), ?_⟩
      simp only [List.map_cons, List.map_nil, List.cons_append, List.nil_append]
      rw [h2]
      simp only [codeOf]
      rw [g2]
    | ioob =>
      obtain ⟨text, h⟩ := ih k none hcs (by simp)
      refine ⟨(if ms.isSome then spacerStmts.map Stm.d else []) ++ (Stm.d (.label "ioob".toList) :: text), fun ord ho => ?_⟩
      obtain ⟨st, g1, g2⟩ := h ord ho
      obtain ⟨es, h1, h2, -⟩ := endMaps_text Y ho hn
      refine ⟨_, rlines_append h1 (rlines_cons (rline_data (isData_tab _ _) dline_text)
        (rlines_cons (rline_data (isData_label (by decide)) (dline_label (by decide))) g1)), ?_⟩
      rw [h2]
      simp only [codeOf]
      rw [g2]
    | ins i => exact one hn (rline_ins hc0) (fun r => rfl)
    | label l => exact one hn (rline_data (isData_label hc0) (dline_label hc0)) (fun r => rfl)
    | word rs =>
      cases rs with
      | nil => exact one hn (rline_data (isData_tab _ _) (dline_addr (by decide))) (fun r => rfl)
      | cons r rs =>
        refine one ?_ (rline_data (isData_tab _ _) (dline_addr (mapName_sym k))) (fun r => rfl)
        intro m hm
        rcases List.mem_append.1 hm with hm | hm
        · exact hn m hm
        · rw [List.mem_singleton.1 hm]; exact mapName_sym k

/-- **C94, text section.**  The assembler reads the code of a program in every order, and what it puts into the text section is the same in all of
them: the orders differ in the data only.  The hypotheses are those of C88. -/
theorem C94_text_partial (o : Bool) (alloc ioob : String) (fds : List FnDef) (lits : List String) (num : Int → Gas.Txt)
    (hnum : Numbers ⟨num, lits.idxOf⟩) (h : ∀ fd ∈ fds, fd.body.small = true) (hp : Ev.panic ∉ genProg alloc ioob fds)
    (hn : (fds.map (·.name)).Nodup)
    (hf : ∀ fd ∈ fds, (∃ s : List Char, fd.name.toList = "clara_".toList ++ s) ∧ fd.name ≠ "clara_asm_entrypoint")
    (hs : ∀ fd ∈ fds, isSym fd.name.toList = true) (hi : ∀ i, Ev.ins i ∈ genProg alloc ioob fds → namesOk lits i = true) :
    ∃ text, ∀ ord, MapOrder ord → ∃ st, rlines (fileSymbols (genProg alloc ioob fds) lits)
        (codeLines ⟨num, lits.idxOf⟩ ord 0 none (parts (peepWith o (genProg alloc ioob fds)))) = some st ∧ codeOf false st = text := by
  refine code_text _ _ _ 0 none ?_ (by simp)
  intro c hc
  have hm := parts_mem hc
  have hlab : ∀ l, Item.label l ∈ peepWith o (genProg alloc ioob fds) → isSym l.text = true :=
    fun l hl => text_sym hs (peep_label hl)
  cases c with
  | start f => exact hlab _ hm
  | ioob => trivial
  | ins i => exact C79_program o alloc ioob fds lits num hnum h hp hn hf hs hi i hm
  | label l => exact hlab _ hm
  | word rs => trivial

/-! ### The literals -/

theorem mapM_perm {α β : Type} {f : α → Option β} {l l' : List α} (h : l.Perm l') {out : List β} (ho : l.mapM f = some out) :
    ∃ out', l'.mapM f = some out' ∧ out.Perm out' := by
  induction h generalizing out with
  | nil => exact ⟨out, ho, .refl _⟩
  | cons x _ ih =>
    rw [List.mapM_cons] at ho ⊢
    cases hx : f x with
    | none => rw [hx] at ho; simp at ho
    | some y =>
      rw [hx] at ho
      simp only [Option.pure_def, Option.bind_eq_bind, Option.bind_some, Option.bind_eq_some_iff, Option.some.injEq] at ho ⊢
      obtain ⟨ys, h1, rfl⟩ := ho
      obtain ⟨ys', h2, h3⟩ := ih h1
      exact ⟨_, ⟨ys', h2, rfl⟩, h3.cons _⟩
  | swap x y l =>
    simp only [List.mapM_cons, Option.pure_def, Option.bind_eq_bind, Option.bind_eq_some_iff, Option.some.injEq] at ho ⊢
    obtain ⟨b, hb, c, ⟨a, ha, cs, hcs, rfl⟩, rfl⟩ := ho
    exact ⟨_, ⟨a, ha, _, ⟨b, hb, cs, hcs, rfl⟩, rfl⟩, .swap ..⟩
  | trans _ _ ih1 ih2 =>
    obtain ⟨o1, h1, p1⟩ := ih1 ho
    obtain ⟨o2, h2, p2⟩ := ih2 h1
    exact ⟨o2, h2, p1.trans p2⟩

/-- **C94, literals.**  The same literals are written in every order (if the compiler does not panic). -/
theorem C94_strings_partial (ss : List Clara.Lex.Bytes) {ord ord' : List (Clara.Lex.Bytes × Nat)} (h : ord.Perm (stringLits {} ss).2.table)
    (h' : ord'.Perm (stringLits {} ss).2.table) {out : List Emitted} (ho : flushLits ord = some out) :
    ∃ out', flushLits ord' = some out' ∧ out.Perm out' ∧ (flushLines out).Perm (flushLines out') := by
  obtain ⟨out', h1, h2⟩ := mapM_perm (h.trans h'.symm) ho
  exact ⟨out', h1, h2, List.Perm.cons _ (h2.flatMap_right _)⟩

/-- **C94, literals, exactly.**  The lines of the literals are the same in all orders if and only if the program has no two different
literals.  The literals are those of C39. -/
theorem C94_strings_iff (ss : List Clara.Lex.Bytes)
    (hs : ∀ s ∈ ss, (∃ u, Lex.Spec.Lexeme u .string s) ∧ validUtf8 s = true ∧ 10 ∉ s) :
    C94_strings_claim ss ↔ ∀ s ∈ ss, ∀ t ∈ ss, s = t := by
  obtain ⟨hok, hlen, -, h4, h5⟩ := stringLits_ok Lits.Ok.start ss
  have hin : ∀ x ∈ (stringLits {} ss).2.table, x.1 ∈ ss := by
    intro x hx
    rcases h4 x hx with h | h
    · cases h
    · exact h
  have hget : ∀ s ∈ ss, ∃ n, (s, n) ∈ (stringLits {} ss).2.table := by
    intro s hs
    obtain ⟨i, hi, e⟩ := List.getElem_of_mem hs
    have hi' : i < (stringLits {} ss).1.length := by rw [hlen]; exact hi
    exact ⟨_, h5 i s _ (by rw [List.getElem?_eq_getElem hi, e]) (List.getElem?_eq_getElem hi')⟩
  have hflush : ∀ l : List (Clara.Lex.Bytes × Nat), (∀ x ∈ l, x.1 ∈ ss) → ∃ out, flushLits l = some out ∧ out.map (·.label) = l.map (·.2) := by
    intro l hl
    obtain ⟨out, h1, h2, -⟩ := mapM_emit (l := l) (fun x hx => by
      obtain ⟨⟨u, hu⟩, hv, hn⟩ := hs _ (hl x hx)
      rw [unquote_val hu hv hn]; simp)
    exact ⟨out, h1, h2⟩
  have hlabs := hok.labs
  have hkeys := hok.keys
  generalize he : (stringLits {} ss).2.table = tb at *
  constructor
  · intro h s hs' t ht
    obtain ⟨n, hn⟩ := hget s hs'
    obtain ⟨m, hm⟩ := hget t ht
    unfold C94_strings_claim at h
    rw [he] at h
    match tb, hn, hm with
    | [x], hn, hm =>
      rw [List.mem_singleton] at hn hm
      rw [← hm] at hn
      exact (Prod.mk.inj hn).1
    | x :: y :: r, hn, hm =>
      exfalso
      have h := h _ _ (.refl _) (List.reverse_perm _)
      obtain ⟨o1, a1, a2⟩ := hflush (x :: y :: r) hin
      obtain ⟨o2, b1, b2⟩ := hflush (x :: y :: r).reverse (fun z hz => hin z (List.mem_reverse.1 hz))
      rw [a1, b1] at h
      simp only [Option.map_some, Option.some.injEq, flushLines, List.cons.injEq, true_and] at h
      cases o1 with
      | nil => simp at a2
      | cons e1 o1 =>
        cases o2 with
        | nil => simp at b2
        | cons e2 o2 =>
          simp only [List.flatMap_cons, litStart, List.cons_append, List.cons.injEq, true_and] at h
          have h6 : litLabel e1.label = litLabel e2.label := List.append_cancel_right h.1
          have h7 : e1.label = e2.label := dec_inj (List.append_cancel_left h6)
          rw [List.map_cons, List.map_cons, List.cons.injEq] at a2
          have h8 : e2.label ∈ (y :: r).map (·.2) := by
            have : ((y :: r).map (·.2)).reverse ++ [x.2] = e2.label :: o2.map (·.label) := by
              rw [← List.map_cons, b2]; simp
            cases e : ((y :: r).map (·.2)).reverse with
            | nil => simp at e
            | cons w t =>
              rw [e] at this
              simp only [List.cons_append, List.cons.injEq] at this
              rw [← List.mem_reverse, e, this.1]
              simp
          rw [List.map_cons, List.nodup_cons] at hlabs
          exact hlabs.1 (by rw [← a2.1, h7]; exact h8)
  · intro h ord ord' p p'
    rw [he] at p p'
    have hl : tb.length ≤ 1 := by
      match tb, hkeys, hin with
      | [], _, _ => simp
      | [_], _, _ => simp
      | x :: y :: r, hkeys, hin =>
        exfalso
        have := h x.1 (hin x (by simp)) y.1 (hin y (by simp))
        rw [List.map_cons, List.nodup_cons] at hkeys
        exact hkeys.1 (by rw [this]; simp)
    rw [perm_short p hl, perm_short p' hl]

/-! ### Function literals -/

section
open Clara.Sema.Closure

/-- **C94, function literals.**  The environments have the same variables in every order (in the functions for which C28 holds). -/
theorem C94_closure_partial {name : Nat → String} {ord ord' : List Nat → List Nat} {t : T} (h : MapOrder ord) (h' : MapOrder ord')
    (hc : Checked t) (hn : Named name t) (hi : IndexPlain t) (hd : DotPlain t) :
    List.Forall₂ (fun a b => a.own = b.own ∧ a.caps.Perm b.caps) (conv name ord t).2 (conv name ord' t).2 := by
  have h1 := C28_partial h hc hn hi hd
  have h2 := C28_partial h' hc hn hi hd
  rw [List.forall₂_iff_get] at h1 h2 ⊢
  refine ⟨h1.1.symm.trans h2.1, fun i a b => ?_⟩
  have c1 := h1.2 i (by rw [h1.1]; exact a) a
  have c2 := h2.2 i (by rw [h1.1]; exact a) b
  refine ⟨c1.own.trans c2.own.symm, ?_⟩
  rw [List.perm_ext_iff_of_nodup c1.once c2.once]
  intro x
  rw [c1.caps, c2.caps]

/-- `fn(a, b) { fn() { a; b } }` -/
def orTwo : T := .scope (clOwn [0, 1]) [.lit (clOwn []) [.id 0, .id 1]]

theorem orTwo_ok : Checked orTwo ∧ Named clName orTwo ∧ IndexPlain orTwo ∧ DotPlain orTwo := by
  refine ⟨⟨?_, ?_, ?_⟩, fun _ _ _ _ _ _ _ _ h => clName_inj h, ?_, ?_⟩
  · decide
  · simp [orTwo, every, everyL, Apart, clOwn]
  · simp [orTwo, every, everyL, flds, fldsL, clOwn]
  · simp [orTwo, IndexPlain, IndexPlainL, fv]
  · simp [orTwo, DotPlain, DotPlainL]

/-- The environment has other fields the second time. -/
theorem C94_violated_closure : ¬ C94_closure_claim := by
  intro h
  have := h clName id List.reverse orTwo (fun l => .refl _) List.reverse_perm orTwo_ok.1 orTwo_ok.2.1
  exact absurd (congrArg (fun p => p.2.map (·.caps)) this) (by decide)

end

/-! ### Examples -/

/-- `cfFns` (`Props/CodeFile.lean`) has a function with two calls with roots, and one with a call without. -/
theorem orders_cf : rootedCalls 0 (parts (peepWith true (genProg "clara_alloc" "clara_ioob" cfFns))) = [0, 2, 0, 0] := by
  rw [← cProg_eq]; decide +kernel

/-- The code of such a program is not the same each time. -/
theorem C94_violated : ¬ C94_code_claim := by
  intro h
  have hp : Ev.panic ∉ genProg "clara_alloc" "clara_ioob" cfFns := by rw [← cProg_eq]; decide +kernel
  have h1 := (C94_code_iff (plainSpell []) _).1 (fun ord ord' => h (plainSpell []) true "clara_alloc" "clara_ioob" cfFns hp ord ord')
  rw [orders_cf] at h1
  exact absurd (h1 2 (by simp)) (by decide)

/-- The literals `"a"` and `"b"`. -/
theorem C94_violated_strings : ¬ ∀ ss, (∀ s ∈ ss, (∃ u, Lex.Spec.Lexeme u .string s) ∧ validUtf8 s = true ∧ 10 ∉ s) → C94_strings_claim ss := by
  intro h
  have := h [[34, 97, 34], [34, 98, 34]] ?_ [([34, 97, 34], 0), ([34, 98, 34], 1)] [([34, 98, 34], 1), ([34, 97, 34], 0)]
    (by decide +kernel) (by decide +kernel)
  · exact absurd this (by decide +kernel)
  · have lx (b : UInt8) (hb : b = 97 ∨ b = 98) : Lex.Spec.Lexeme asciiUni .string [34, b, 34] := by
      unfold Lex.Spec.Lexeme
      rcases hb with rfl | rfl
      · rw [show Clara.Lex.runes [34, 97, 34] = [34, 97, 34] by decide +kernel]
        exact ⟨[97], rfl, .plain (by decide) (by decide) .nil⟩
      · rw [show Clara.Lex.runes [34, 98, 34] = [34, 98, 34] by decide +kernel]
        exact ⟨[98], rfl, .plain (by decide) (by decide) .nil⟩
    intro s hs
    rcases List.mem_cons.1 hs with rfl | hs
    · exact ⟨⟨_, lx _ (.inl rfl)⟩, by decide +kernel, by decide⟩
    · rw [List.mem_singleton.1 hs]
      exact ⟨⟨_, lx _ (.inr rfl)⟩, by decide +kernel, by decide⟩

/-- `fn f(s: string) { g(s) }`: one call with roots in each function, so one file. -/
def orFns : List FnDef := ["clara_f.string", "clara_h.string"].map fun n =>
  { name := n, params := [(0, ⟨.string, 0⟩)], retNothing := true, body := .block (
      .cons (.expr (.callFn "clara_g.string" { ret := ⟨.integer, 0⟩ } [.var 0 ⟨.string, 0⟩])) .nil) }

theorem orders_one : rootedCalls 0 (parts (peepWith true (genProg "clara_alloc" "clara_ioob" orFns))) = [0, 1, 1, 0] := by
  rw [← cProg_eq]; decide +kernel

/-- The hypotheses of `C94_text_partial` hold of `orFns`, and of `cfFns` (see the end of `Props/CodeFile.lean`). -/
example : ∃ text, ∀ ord, MapOrder ord → ∃ st, rlines (fileSymbols (genProg "clara_alloc" "clara_ioob" orFns) [])
    (codeLines (plainSpell []) ord 0 none (parts (peepWith true (genProg "clara_alloc" "clara_ioob" orFns)))) = some st ∧ codeOf false st = text := by
  have hc : ∀ e ∈ cProg "clara_alloc" "clara_ioob" orFns, e ≠ .panic ∧ ∀ j, e = .ins j → namesOk [] j = true := by
    have : (cProg "clara_alloc" "clara_ioob" orFns).all
        (fun e => match e with | .panic => false | .ins j => namesOk [] j | _ => true) = true := by decide +kernel
    intro e he
    have := List.all_eq_true.1 this e he
    cases e with
    | panic => cases this
    | ins j => exact ⟨by simp, fun j' h => by cases h; exact this⟩
    | _ => exact ⟨by simp, fun j' h => by cases h⟩
  rw [cProg_eq] at hc
  have hf : ∀ fd ∈ orFns, (∃ s : List Char, fd.name.toList = "clara_".toList ++ s) ∧ fd.name ≠ "clara_asm_entrypoint" := by
    intro fd hfd
    rcases List.mem_cons.1 hfd with rfl | hfd
    · exact ⟨⟨"f.string".toList, rfl⟩, by decide⟩
    · rcases List.mem_singleton.1 hfd with rfl
      exact ⟨⟨"h.string".toList, rfl⟩, by decide⟩
  exact C94_text_partial true _ _ orFns [] itoa (fun i => C79_itoa i) (by decide +kernel) (fun h => (hc _ h).1 rfl) (by decide) hf (by decide)
    (fun j hj => (hc _ hj).2 j rfl)

end Clara.Props
