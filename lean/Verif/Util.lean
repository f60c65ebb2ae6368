/- Small general definitions. -/
namespace Clara

/-- Two lists of equal length related element by element. -/
inductive All₂ {α β : Type} (R : α → β → Prop) : List α → List β → Prop
  | nil : All₂ R [] []
  | cons {a b as bs} : R a b → All₂ R as bs → All₂ R (a :: as) (b :: bs)

theorem all₂_cons {α β : Type} {R : α → β → Prop} {a b as bs} :
    All₂ R (a :: as) (b :: bs) ↔ R a b ∧ All₂ R as bs :=
  ⟨fun h => by cases h; exact ⟨by assumption, by assumption⟩, fun h => .cons h.1 h.2⟩

theorem All₂.length {α β : Type} {R : α → β → Prop} {as : List α} {bs : List β} (h : All₂ R as bs) :
    as.length = bs.length := by
  induction h with
  | nil => rfl
  | cons _ _ ih => simp [ih]

theorem All₂.get {α β : Type} {R : α → β → Prop} {as : List α} {bs : List β} (h : All₂ R as bs) {i : Nat}
    (ha : i < as.length) (hb : i < bs.length) : R as[i] bs[i] := by
  induction h generalizing i with
  | nil => cases ha
  | cons h _ ih =>
    cases i with
    | zero => exact h
    | succ i => exact ih _ _

end Clara
