import Verif.Types.Texts
/-
Property C87: what error messages say about types.
-/
namespace Clara.Props
open Clara.Types

/-! ### C87 -/

/-- The full claim: two types that the compiler takes for different ones are written differently, so that no message says
`mismatched types, got 'X', wanted 'X'`. -/
def C87_claim : Prop := ∀ (pname : Nat → String) (t u : Ty), t.same u = false → t.text pname ≠ u.text pname

/-- The claim fails: with `enum T { A() }` and `fn e() T = A()`, in `fn f«T»(x: T) { x = e() }` the message is `got 'T', wanted 'T'`.  A type
parameter hides the type of that name (C21), and the text has the name only. -/
theorem C87_violated : ¬ C87_claim := fun h => h (fun _ => "T") (.enum "T" []) (.param 0) rfl (by decide)

/-- What a name stands for. -/
inductive Stands
  | prim (p : Prim)
  | param (k : Nat)
  | struct
  | enum

mutual
/-- The names in a type stand for what `M` says, and look like identifiers. -/
def OneEach (pname : Nat → String) (M : Str → Stands) : Ty → Prop
  | .prim p => M p.kindName = .prim p
  | .param k => M (pname k).toList = .param k ∧ plainName (pname k).toList
  | .array t => OneEach pname M t
  | .struct n ts => M n.toList = .struct ∧ plainName n.toList ∧ OneAll pname M ts
  | .enum n ts => M n.toList = .enum ∧ plainName n.toList ∧ OneAll pname M ts
  | .fn _ ps r => OneAll pname M ps ∧ OneEach pname M r
def OneAll (pname : Nat → String) (M : Str → Stands) : List Ty → Prop
  | [] => True
  | t :: ts => OneEach pname M t ∧ OneAll pname M ts
end

theorem kind_plain (p : Prim) : plainName p.kindName := by
  refine ⟨by cases p <;> decide, ?_⟩
  have : ∀ c ∈ p.kindName, c ≠ '«' ∧ c ≠ '»' ∧ c ≠ '(' ∧ c ≠ ')' ∧ c ≠ ',' ∧ c ≠ '[' := by cases p <;> decide
  rintro c hc h
  obtain ⟨h1, h2, h3, h4, h5, h6⟩ := this c hc
  rcases h with h | h | h | h | h | h
  · exact h1 h
  · exact h2 h
  · exact h3 h
  · exact h4 h
  · exact h5 h
  · exact h6 h

mutual
theorem fits_plain {pname : Nat → String} {M : Str → Stands} : (t : Ty) → OneEach pname M t → (t.tx pname).plain
  | .prim p, _ => ⟨kind_plain p, trivial⟩
  | .param _, h => ⟨h.2, trivial⟩
  | .array t, h => fits_plain t h
  | .struct _ ts, h => ⟨h.2.1, fitsAll_plain ts h.2.2⟩
  | .enum _ ts, h => ⟨h.2.1, fitsAll_plain ts h.2.2⟩
  | .fn _ ps r, h => ⟨fitsAll_plain ps h.1, fits_plain r h.2⟩
theorem fitsAll_plain {pname : Nat → String} {M : Str → Stands} : (ts : List Ty) → OneAll pname M ts → txPlainAll (tysTx pname ts)
  | [], _ => trivial
  | t :: ts, h => ⟨fits_plain t h.1, fitsAll_plain ts h.2⟩
end

mutual
theorem tx_same {pname : Nat → String} {M : Str → Stands} : (t u : Ty) → OneEach pname M t → OneEach pname M u → t.tx pname = u.tx pname →
    t.same u = true
  | .prim p, .prim q, h, h', e => by
    simp only [Ty.tx, Tx.named.injEq, and_true] at e
    rw [OneEach, e] at h
    rw [OneEach, h] at h'
    injection h' with h'
    simp [Ty.same, h']
  | .param i, .param j, h, h', e => by
    simp only [Ty.tx, Tx.named.injEq, and_true] at e
    have h1 := h.1
    rw [e, h'.1] at h1
    injection h1 with h1
    simp [Ty.same, h1]
  | .array t, .array u, h, h', e => by
    simp only [Ty.tx, Tx.arr.injEq] at e
    rw [Ty.same]
    exact tx_same t u h h' e
  | .struct n ts, .struct m us, h, h', e => by
    simp only [Ty.tx, Tx.named.injEq] at e
    obtain ⟨h1, h2⟩ := txs_same ts us h.2.2 h'.2.2 e.2
    simp [Ty.same, String.toList_inj.1 e.1, h1, h2]
  | .enum n ts, .enum m us, h, h', e => by
    simp only [Ty.tx, Tx.named.injEq] at e
    obtain ⟨h1, h2⟩ := txs_same ts us h.2.2 h'.2.2 e.2
    simp [Ty.same, String.toList_inj.1 e.1, h1, h2]
  | .fn _ ps r, .fn _ qs s, h, h', e => by
    simp only [Ty.tx, Tx.fn.injEq] at e
    obtain ⟨h1, h2⟩ := txs_same ps qs h.1 h'.1 e.1
    simp [Ty.same, h1, h2, tx_same r s h.2 h'.2 e.2]
  | .prim p, .param k, h, h', e | .prim p, .struct _ _, h, h', e | .prim p, .enum _ _, h, h', e => by
    simp only [Ty.tx, Tx.named.injEq] at e
    have h1 := h'.1
    rw [OneEach, e.1, h1] at h
    cases h
  | .param k, .prim p, h', h, e | .struct _ _, .prim p, h', h, e | .enum _ _, .prim p, h', h, e => by
    simp only [Ty.tx, Tx.named.injEq] at e
    have h1 := h'.1
    rw [OneEach, ← e.1, h1] at h
    cases h
  | .param _, .struct _ _, h, h', e | .param _, .enum _ _, h, h', e | .struct _ _, .param _, h, h', e | .struct _ _, .enum _ _, h, h', e
  | .enum _ _, .param _, h, h', e | .enum _ _, .struct _ _, h, h', e => by
    simp only [Ty.tx, Tx.named.injEq] at e
    have h1 := h.1
    rw [e.1, h'.1] at h1
    cases h1
  | .array _, .prim _, _, _, e | .array _, .param _, _, _, e | .array _, .struct _ _, _, _, e | .array _, .enum _ _, _, _, e
  | .array _, .fn _ _ _, _, _, e | .fn _ _ _, .array _, _, _, e
  | .fn _ _ _, .prim _, _, _, e | .fn _ _ _, .param _, _, _, e | .fn _ _ _, .struct _ _, _, _, e | .fn _ _ _, .enum _ _, _, _, e
  | .prim _, .array _, _, _, e | .param _, .array _, _, _, e | .struct _ _, .array _, _, _, e | .enum _ _, .array _, _, _, e
  | .prim _, .fn _ _ _, _, _, e | .param _, .fn _ _ _, _, _, e | .struct _ _, .fn _ _ _, _, _, e | .enum _ _, .fn _ _ _, _, _, e => by
    simp [Ty.tx] at e
theorem txs_same {pname : Nat → String} {M : Str → Stands} : (ts us : List Ty) → OneAll pname M ts → OneAll pname M us →
    tysTx pname ts = tysTx pname us → ts.length = us.length ∧ sameAll ts us = true
  | [], [], _, _, _ => ⟨rfl, rfl⟩
  | [], _ :: _, _, _, e => by simp [tysTx] at e
  | _ :: _, [], _, _, e => by simp [tysTx] at e
  | t :: ts, u :: us, h, h', e => by
    simp only [tysTx, List.cons.injEq] at e
    obtain ⟨h1, h2⟩ := txs_same ts us h.2 h'.2 e.2
    exact ⟨by simp [h1], by simp [sameAll, tx_same t u h.1 h'.1 e.1, h2]⟩
end

mutual
theorem same_tx {pname : Nat → String} : (t u : Ty) → t.same u = true → t.tx pname = u.tx pname
  | .prim p, .prim q, h => by
    simp only [Ty.same, beq_iff_eq] at h
    rw [h]
  | .param i, .param j, h => by
    simp only [Ty.same, beq_iff_eq] at h
    rw [h]
  | .array t, .array u, h => by
    rw [Ty.same] at h
    rw [Ty.tx, Ty.tx, same_tx t u h]
  | .struct n ts, .struct m us, h => by
    simp only [Ty.same, Bool.and_eq_true, beq_iff_eq] at h
    rw [Ty.tx, Ty.tx, h.1.1, sames_tx ts us h.1.2 h.2]
  | .enum n ts, .enum m us, h => by
    simp only [Ty.same, Bool.and_eq_true, beq_iff_eq] at h
    rw [Ty.tx, Ty.tx, h.1.1, sames_tx ts us h.1.2 h.2]
  | .fn _ ps r, .fn _ qs s, h => by
    simp only [Ty.same, Bool.and_eq_true, beq_iff_eq] at h
    rw [Ty.tx, Ty.tx, sames_tx ps qs h.1.1.symm h.1.2, same_tx r s h.2]
  | .prim p, .param k, h | .prim p, .struct _ _, h | .prim p, .enum _ _, h 
  | .param k, .prim p, h | .struct _ _, .prim p, h | .enum _ _, .prim p, h 
  | .param _, .struct _ _, h | .param _, .enum _ _, h | .struct _ _, .param _, h | .struct _ _, .enum _ _, h
  | .enum _ _, .param _, h | .enum _ _, .struct _ _, h 
  | .array _, .prim _, h | .array _, .param _, h | .array _, .struct _ _, h | .array _, .enum _ _, h
  | .array _, .fn _ _ _, h | .fn _ _ _, .array _, h
  | .fn _ _ _, .prim _, h | .fn _ _ _, .param _, h | .fn _ _ _, .struct _ _, h | .fn _ _ _, .enum _ _, h
  | .prim _, .array _, h | .param _, .array _, h | .struct _ _, .array _, h | .enum _ _, .array _, h
  | .prim _, .fn _ _ _, h | .param _, .fn _ _ _, h | .struct _ _, .fn _ _ _, h | .enum _ _, .fn _ _ _, h => by
    simp [Ty.same] at h
theorem sames_tx {pname : Nat → String} : (ts us : List Ty) → ts.length = us.length → sameAll ts us = true → tysTx pname ts = tysTx pname us
  | [], [], _, _ => rfl
  | [], _ :: _, e, _ => by simp at e
  | _ :: _, [], e, _ => by simp at e
  | t :: ts, u :: us, e, h => by
    simp only [sameAll, Bool.and_eq_true] at h
    rw [tysTx, tysTx, same_tx t u h.1, sames_tx ts us (by simpa using e) h.2]
end

theorem nil_ends : Ends [] := by intro c hc; cases hc

/-- What holds: where each name stands for one thing, two types have the same text exactly if the compiler takes them for the same.  Missing: type
parameters with the name of a type or of another type parameter. -/
theorem C87_partial {pname : Nat → String} {M : Str → Stands} {t u : Ty} (ht : OneEach pname M t) (hu : OneEach pname M u) :
    t.text pname = u.text pname ↔ t.same u = true := by
  constructor
  · intro h
    rw [text_tx, text_tx] at h
    exact tx_same t u ht hu
      (tx_read _ _ (fits_plain t ht) (fits_plain u hu) nil_ends nil_ends (by rw [List.append_nil, List.append_nil]; exact h)).1
  · intro h
    rw [text_tx, text_tx, same_tx t u h]

/-- The names of the types of the language can stand for them all: no two of them are written alike. -/
theorem C87_builtins_partial (pname : Nat → String) : ∃ M : Str → Stands, ∀ p : Prim, OneEach pname M (.prim p) := by
  refine ⟨fun n => if n = "bool".toList then .prim .bool else if n = "string".toList then .prim .string
    else if n = "nothing".toList then .prim .nothing else if n = "pointer".toList then .prim .pointer
    else if n = "int".toList then .prim .int else .prim .bytes, ?_⟩
  intro p
  cases p <;> rfl

/-- Two candidates in the list of an overload error are written alike exactly if their parameters and results are the same. -/
theorem C87_candidates_partial {pname : Nat → String} {M : Str → Stands} (f : String) {ps qs : List Ty} {r s : Ty} (hp : OneAll pname M ps)
    (hq : OneAll pname M qs) (hr : OneEach pname M r) (hs : OneEach pname M s) :
    candidate pname f ps r = candidate pname f qs s ↔ (ps.length = qs.length ∧ sameAll ps qs = true) ∧ r.same s = true := by
  unfold candidate
  constructor
  · intro h
    have h := List.append_cancel_left h
    simp only [List.cons.injEq, true_and, textAll_tx] at h
    obtain ⟨h1, h2⟩ := txs_read [' '] _ _ (fitsAll_plain ps hp) (fitsAll_plain qs hq) ⟨')', rfl, .inr rfl⟩ ⟨')', rfl, .inr rfl⟩ h
    simp only [List.cons.injEq, true_and] at h2
    exact ⟨txs_same ps qs hp hq h1, (C87_partial hr hs).1 h2⟩
  · rintro ⟨⟨h1, h2⟩, h3⟩
    rw [textAll_tx, textAll_tx, sames_tx ps qs h1 h2, (C87_partial hr hs).2 h3]

/-- The names that allocations are recorded under are those of the constructors. -/
theorem C87_allocations_partial {pname : Nat → String} {M : Str → Stands} {f g : String} {k k' : FnKind} {ps qs : List Ty}
    (hk : k ≠ .external) (hk' : k' ≠ .external) (hf : plainName f.toList) (hg : plainName g.toList) (hp : OneAll pname M ps)
    (hq : OneAll pname M qs) :
    describe pname k f ps = describe pname k' g qs ↔ f = g ∧ ps.length = qs.length ∧ sameAll ps qs = true := by
  unfold describe
  rw [if_neg hk, if_neg hk']
  constructor
  · intro h
    obtain ⟨h1, h2⟩ := split_name hf.2 hg.2 (by intro c hc; injection hc with hc; simp [isMark, ← hc])
      (by intro c hc; injection hc with hc; simp [isMark, ← hc]) h
    simp only [List.cons.injEq, true_and, textAll_tx] at h2
    obtain ⟨h3, -⟩ := txs_read [' '] _ _ (fitsAll_plain ps hp) (fitsAll_plain qs hq) ⟨')', rfl, .inr rfl⟩ ⟨')', rfl, .inr rfl⟩ h2
    exact ⟨String.toList_inj.1 h1, txs_same ps qs hp hq h3⟩
  · rintro ⟨rfl, h1, h2⟩
    rw [textAll_tx, textAll_tx, sames_tx ps qs h1 h2]

/-! ### An example -/

/-- `T` is a type parameter, `list` a structure, `option` an enumeration. -/
def exM (n : Str) : Stands :=
  if n = "T".toList then .param 0 else if n = "list".toList then .struct else if n = "option".toList then .enum
  else if n = "bool".toList then .prim .bool else if n = "string".toList then .prim .string else if n = "nothing".toList then .prim .nothing
  else if n = "pointer".toList then .prim .pointer else if n = "int".toList then .prim .int else .prim .bytes

theorem plain_of {n : Str} (h : n ≠ [] ∧ ∀ c ∈ n, c ≠ '«' ∧ c ≠ '»' ∧ c ≠ '(' ∧ c ≠ ')' ∧ c ≠ ',' ∧ c ≠ '[') : plainName n := by
  refine ⟨h.1, fun c hc hm => ?_⟩
  obtain ⟨h1, h2, h3, h4, h5, h6⟩ := h.2 c hc
  rcases hm with h | h | h | h | h | h
  · exact h1 h
  · exact h2 h
  · exact h3 h
  · exact h4 h
  · exact h5 h
  · exact h6 h

/-- `fn(list«T»,[]int) option«T»` and `fn(list«T») option«T»`. -/
def exT : Ty := .fn {} [.struct "list" [.param 0], .array (.prim .int)] (.enum "option" [.param 0])
def exU : Ty := .fn {} [.struct "list" [.param 0]] (.enum "option" [.param 0])

example : exT.text (fun _ => "T") = "fn(list«T»,[]int) option«T»".toList := by decide

theorem exT_fits : OneEach (fun _ => "T") exM exT ∧ OneEach (fun _ => "T") exM exU := by
  have h1 : plainName "T".toList := plain_of (by decide)
  have h2 : plainName "list".toList := plain_of (by decide)
  have h3 : plainName "option".toList := plain_of (by decide)
  have p0 : OneEach (fun _ => "T") exM (.param 0) := ⟨by simp [exM], h1⟩
  have l0 : OneEach (fun _ => "T") exM (.struct "list" [.param 0]) := ⟨by simp [exM], h2, p0, trivial⟩
  have o0 : OneEach (fun _ => "T") exM (.enum "option" [.param 0]) := ⟨by simp [exM], h3, p0, trivial⟩
  have i0 : OneEach (fun _ => "T") exM (.array (.prim .int)) := by simp [OneEach, exM, Prim.kindName]
  exact ⟨⟨⟨l0, i0, trivial⟩, o0⟩, ⟨⟨l0, trivial⟩, o0⟩⟩

example : exT.text (fun _ => "T") ≠ exU.text (fun _ => "T") := by
  intro h
  have := (C87_partial exT_fits.1 exT_fits.2).1 h
  revert this
  decide

end Clara.Props
