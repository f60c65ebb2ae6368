import Verif.Props.Names
/-
Property C20: exactly when two functions share a symbol.
-/
namespace Clara.Props
open Clara.Types

/-! ### Specification -/

mutual
/-- Types that a symbol does not tell apart: any two type parameters; functions with different results; a structure and an
enumeration of one name. -/
def Alike : Ty → Ty → Prop
  | .prim p, .prim q => p = q
  | .param _, .param _ => True
  | .array t, .array u => Alike t u
  | .struct n ts, .struct m us | .struct n ts, .enum m us | .enum n ts, .struct m us | .enum n ts, .enum m us => n = m ∧ AlikeAll ts us
  | .fn _ ps _, .fn _ qs _ => AlikeAll ps qs
  | _, _ => False
def AlikeAll : List Ty → List Ty → Prop
  | [], [] => True
  | t :: ts, u :: us => Alike t u ∧ AlikeAll ts us
  | _, _ => False
end

/-- Names that the compiler uses itself in symbols. -/
def ownNames : List Str := ["array".toList, "fn".toList, ['T']] ++ [Prim.bool, .string, .nothing, .pointer, .int, .bytes].map Prim.kindName

mutual
/-- Structures and enumerations have names of their own. -/
def OwnName : Ty → Prop
  | .prim _ | .param _ => True
  | .array t => OwnName t
  | .struct n ts | .enum n ts => (goodName n.toList ∧ n.toList ∉ ownNames) ∧ OwnNames ts
  | .fn _ ps _ => OwnNames ps
def OwnNames : List Ty → Prop
  | [] => True
  | t :: ts => OwnName t ∧ OwnNames ts
end

/-! ### Lemmas -/

theorem tee_good : goodName ['T'] := by
  refine ⟨by decide, ?_⟩
  have : ∀ c ∈ ['T'], c ≠ '.' ∧ c ≠ '$' := by decide
  rintro c hc (h | h)
  · exact (this c hc).1 h
  · exact (this c hc).2 h

mutual
theorem own_good (t : Ty) (h : OwnName t) : t.rose.good := by
  match t with
  | .prim p => exact ⟨prim_good p, trivial⟩
  | .param _ => exact ⟨tee_good, trivial⟩
  | .array t => exact ⟨lit_good.1, own_good t h, trivial⟩
  | .struct n ts => exact ⟨h.1.1, owns_good ts h.2⟩
  | .enum n ts => exact ⟨h.1.1, owns_good ts h.2⟩
  | .fn _ ps _ => exact ⟨lit_good.2, owns_good ps h⟩
theorem owns_good (ts : List Ty) (h : OwnNames ts) : goodAll (roseAll ts) := by
  match ts with
  | [] => trivial
  | t :: ts => exact ⟨own_good t h.1, owns_good ts h.2⟩
end

theorem own_kind (p : Prim) : p.kindName ∈ ownNames := by cases p <;> decide
theorem kind_inj : ∀ p q : Prim, p.kindName = q.kindName → p = q := by intro p q; cases p <;> cases q <;> decide
theorem kind_tee (p : Prim) : p.kindName ≠ ['T'] := by cases p <;> decide

mutual
theorem rose_alike (t u : Ty) (ht : OwnName t) (hu : OwnName u) : t.rose = u.rose ↔ Alike t u := by
  match t, u with
  | .prim p, .prim q =>
    simp only [Ty.rose, Rose.node.injEq, and_true, Alike]
    exact ⟨kind_inj p q, fun h => by rw [h]⟩
  | .param _, .param _ => simp [Ty.rose, Alike]
  | .array t, .array u =>
    simp only [Ty.rose, Rose.node.injEq, List.cons.injEq, and_true, true_and, Alike]
    exact rose_alike t u ht hu
  | .struct n ts, .struct m us | .struct n ts, .enum m us | .enum n ts, .struct m us | .enum n ts, .enum m us =>
    simp only [Ty.rose, Rose.node.injEq, Alike, String.toList_inj]
    exact and_congr_right (fun _ => roses_alike ts us ht.2 hu.2)
  | .fn _ ps _, .fn _ qs _ =>
    simp only [Ty.rose, Rose.node.injEq, true_and, Alike]
    exact roses_alike ps qs ht hu
  | .prim p, .param _ => simpa [Ty.rose, Alike] using kind_tee p
  | .param _, .prim p => simpa [Ty.rose, Alike] using (kind_tee p).symm
  | .prim p, .array _ | .array _, .prim p =>
    simp only [Ty.rose, Rose.node.injEq, Alike, iff_false]; simp
  | .prim p, .fn .. => simpa [Ty.rose, Alike] using fun h => absurd h (prim_ne p).2
  | .fn .., .prim p => simpa [Ty.rose, Alike] using fun h => absurd h.symm (prim_ne p).2
  | .prim p, .struct m us | .prim p, .enum m us =>
    simp only [Ty.rose, Rose.node.injEq, Alike, iff_false]
    exact fun h => hu.1.2 (h.1 ▸ own_kind p)
  | .struct m us, .prim p | .enum m us, .prim p =>
    simp only [Ty.rose, Rose.node.injEq, Alike, iff_false]
    exact fun h => ht.1.2 (h.1 ▸ own_kind p)
  | .param _, .struct m us | .param _, .enum m us | .array _, .struct m us | .array _, .enum m us | .fn .., .struct m us | .fn .., .enum m us =>
    simp only [Ty.rose, Rose.node.injEq, Alike, iff_false]
    exact fun h => hu.1.2 (h.1 ▸ by decide)
  | .struct m us, .param _ | .enum m us, .param _ | .struct m us, .array _ | .enum m us, .array _ | .struct m us, .fn .. | .enum m us, .fn .. =>
    simp only [Ty.rose, Rose.node.injEq, Alike, iff_false]
    exact fun h => ht.1.2 (h.1 ▸ by decide)
  | .param _, .array _ | .array _, .param _ | .param _, .fn .. | .fn .., .param _ | .array _, .fn .. | .fn .., .array _ =>
    simp [Ty.rose, Alike]
theorem roses_alike (ts us : List Ty) (ht : OwnNames ts) (hu : OwnNames us) : roseAll ts = roseAll us ↔ AlikeAll ts us := by
  match ts, us with
  | [], [] => simp [roseAll, AlikeAll]
  | [], _ :: _ => simp [roseAll, AlikeAll]
  | _ :: _, [] => simp [roseAll, AlikeAll]
  | t :: ts, u :: us =>
    simp only [roseAll, List.cons.injEq, AlikeAll]
    exact and_congr (rose_alike t u ht.1 hu.1) (roses_alike ts us ht.2 hu.2)
end

/-- **C20.**  Two functions, constructors or closures, generic or not, have the same symbol exactly if they have the same name and the symbols
do not tell their parameters apart; functions `main` have one symbol whatever their parameters.  Missing: external functions, whose
symbol is their name, and types with the names of `ownNames`. -/
theorem C20_exact_partial {k k' : FnKind} {n m : String} {ps qs : List Ty} (hk : k ≠ .external) (hk' : k' ≠ .external)
    (hn : goodName n.toList) (hm : goodName m.toList) (hp : OwnNames ps) (hq : OwnNames qs) :
    fnAsm k n ps = fnAsm k' m qs ↔ n = m ∧ (n = "main" ∨ AlikeAll ps qs) := by
  have hf : ∀ (xs : List Rose) c, ((encAll xs).flatMap (fun s => '.' :: s)).head? = some c → isSep c := by
    intro xs c hc
    cases xs with
    | nil => simp [encAll] at hc
    | cons x xs => simp [encAll] at hc; exact .inl hc.symm
  have e : ∀ {k : FnKind} {n : String} {ps : List Ty}, k ≠ .external →
      fnAsm k n ps = "clara_".toList ++ (n.toList ++ (encAll (if n = "main" then [] else roseAll ps)).flatMap (fun s => '.' :: s)) := by
    intro k n ps hk
    unfold fnAsm
    rw [if_neg hk]
    split
    · rename_i h; rw [h]; rfl
    · rw [asmAll_enc, List.append_assoc]
  rw [e hk, e hk', List.append_cancel_left_eq]
  have hg : ∀ {n : String} {ps : List Ty}, OwnNames ps → goodAll (if n = "main" then [] else roseAll ps) := by
    intro n ps h
    split
    · trivial
    · exact owns_good ps h
  constructor
  · intro h
    obtain ⟨h1, h2⟩ := name_split hn.2 hm.2 (hf _) (hf _) h
    have h1 : n = m := String.toList_inj.1 h1
    subst h1
    refine ⟨rfl, ?_⟩
    have h3 := seq_inj _ _ (hg hp) (hg hq) h2
    by_cases hmn : n = "main"
    · exact .inl hmn
    · rw [if_neg hmn, if_neg hmn] at h3
      exact .inr ((roses_alike ps qs hp hq).1 h3)
  · rintro ⟨rfl, h | h⟩
    · simp [h]
    · rw [(roses_alike ps qs hp hq).2 h]

/-! ### Examples -/

/-- `f(x: A, g: fn(int) bool)` and `f(x: B, g: fn(int) string)` share a symbol, `f([]int)` and `f([]bytes)` do not. -/
example : fnAsm .normal "f" [.param 0, .fn {} [.prim .int] (.prim .bool)] = fnAsm .normal "f" [.param 1, .fn {} [.prim .int] (.prim .string)] := by
  have h : ∀ c ∈ "f".toList, c ≠ '.' ∧ c ≠ '$' := by decide
  have hf : goodName "f".toList := ⟨by decide, fun c hc h' => h'.elim (h c hc).1 (h c hc).2⟩
  exact (C20_exact_partial (by decide) (by decide) hf hf (by simp [OwnNames, OwnName]) (by simp [OwnNames, OwnName])).2
    ⟨rfl, .inr (by simp [AlikeAll, Alike])⟩

example : fnAsm .normal "f" [.array (.prim .int)] ≠ fnAsm .normal "f" [.array (.prim .bytes)] := by
  have h : ∀ c ∈ "f".toList, c ≠ '.' ∧ c ≠ '$' := by decide
  have hf : goodName "f".toList := ⟨by decide, fun c hc h' => h'.elim (h c hc).1 (h c hc).2⟩
  intro e
  have := ((C20_exact_partial (by decide) (by decide) hf hf (by simp [OwnNames, OwnName]) (by simp [OwnNames, OwnName])).1 e).2
  simp [AlikeAll, Alike] at this

end Clara.Props
