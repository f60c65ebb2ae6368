/-
Model of type graphs and of `substituteType` on them: `typecheck.go` 804-851, called from
`instantiateType` (`semantic.go` 246-333) and `matchFuncCallByType` (`typecheck.go` 705-802).

Types are nodes of a graph because a struct's field may refer to the struct itself
(`createType`, `semantic.go` 401-448, returns the declared type unchanged for a named type).
-/
namespace Clara.Types

/-- A node of the type graph; numbers are `*Type` pointers. Enum members are left out: the code
copies them without looking at them (line 841). -/
inductive GNode
  | prim
  | param
  | array (elem : Nat)
  | fn (params : List Nat) (ret : Nat)
  | struct (types : List Nat) (fields : List Nat)
  | enum (types : List Nat)

/-- The memory holding the types. -/
abbrev Graph := Nat → GNode

/-- The types built by `substituteType`: fresh nodes above pointers to existing types. -/
inductive GTy
  | old (p : Nat)
  | array (elem : GTy)
  | fn (params : List GTy) (ret : GTy)
  | struct (types fields : List GTy)
  | enum (types : List GTy)

mutual
/-- `substituteType` (`typecheck.go` 804-851). `fuel` bounds the depth of the recursion; `none` means
that the bound was hit. -/
def substG (G : Graph) (bound : List (Nat × Nat)) : Nat → Nat → Option GTy
  | 0, _ => none
  | fuel + 1, p =>
    if bound.isEmpty then some (.old p)
    else
      match G p with
      | .array e => do return .array (← substG G bound fuel e)
      | .fn ps r => do return .fn (← substGs G bound fuel ps) (← substG G bound fuel r)
      | .struct ts fs => do return .struct (← substGs G bound fuel ts) (← substGs G bound fuel fs)
      | .enum ts => do return .enum (← substGs G bound fuel ts)
      | .param | .prim => some (.old ((bound.lookup p).getD p))
  termination_by fuel _ => (fuel, 0)
/-- The loops over parameters, type arguments and fields. -/
def substGs (G : Graph) (bound : List (Nat × Nat)) (fuel : Nat) : List Nat → Option (List GTy)
  | [] => some []
  | p :: ps => do return (← substG G bound fuel p) :: (← substGs G bound fuel ps)
  termination_by ps => (fuel, ps.length + 1)
end

/-- The types `substituteType` descends into. -/
def children : GNode → List Nat
  | .array e => [e]
  | .fn ps r => ps ++ [r]
  | .struct ts fs => ts ++ fs
  | .enum ts => ts
  | .param | .prim => []

/-- `q` is a direct part of `p`. -/
def Part (G : Graph) (q p : Nat) : Prop := q ∈ children (G p)

theorem substGs_isSome (G : Graph) (b : List (Nat × Nat)) (n : Nat) (ps : List Nat) :
    (substGs G b n ps).isSome ↔ ∀ p ∈ ps, (substG G b n p).isSome := by
  induction ps with
  | nil => simp [substGs]
  | cons p ps ih =>
    simp only [substGs, List.mem_cons, forall_eq_or_imp, ← ih]
    cases substG G b n p <;> cases substGs G b n ps <;> simp

theorem substG_isSome (G : Graph) (b : List (Nat × Nat)) (hb : b ≠ []) (n p : Nat) :
    (substG G b (n + 1) p).isSome ↔ ∀ q ∈ children (G p), (substG G b n q).isSome := by
  rw [substG, if_neg (by simpa using hb)]
  cases h : G p with
  | prim => simp [children]
  | param => simp [children]
  | array e =>
    simp only [children, List.mem_singleton, forall_eq]
    cases substG G b n e <;> simp
  | fn ps r =>
    simp only [children, List.mem_append, List.mem_singleton, or_imp, forall_and, forall_eq]
    rw [← substGs_isSome]
    cases substGs G b n ps <;> cases substG G b n r <;> simp
  | struct ts fs =>
    simp only [children, List.mem_append, or_imp, forall_and]
    rw [← substGs_isSome, ← substGs_isSome]
    cases substGs G b n ts <;> cases substGs G b n fs <;> simp
  | enum ts =>
    simp only [children]
    rw [← substGs_isSome]
    cases substGs G b n ts <;> simp

theorem substG_mono (G : Graph) (b : List (Nat × Nat)) (hb : b ≠ []) (n m p : Nat) (h : n ≤ m)
    (hs : (substG G b n p).isSome) : (substG G b m p).isSome := by
  induction n generalizing m p with
  | zero => simp [substG] at hs
  | succ n ih =>
    obtain ⟨m, rfl⟩ : ∃ m', m = m' + 1 := ⟨m - 1, by omega⟩
    rw [substG_isSome G b hb] at hs ⊢
    exact fun q hq => ih m q (by omega) (hs q hq)

theorem substG_acc (G : Graph) (b : List (Nat × Nat)) (hb : b ≠ []) (p : Nat) :
    (∃ n, (substG G b n p).isSome) ↔ Acc (Part G) p := by
  constructor
  · rintro ⟨n, hn⟩
    induction n generalizing p with
    | zero => simp [substG] at hn
    | succ n ih =>
      rw [substG_isSome G b hb] at hn
      exact ⟨p, fun q hq => ih q (hn q hq)⟩
  · intro h
    induction h with
    | intro p _ ih =>
      have : ∀ ps : List Nat, (∀ q ∈ ps, ∃ n, (substG G b n q).isSome) →
          ∃ n, ∀ q ∈ ps, (substG G b n q).isSome := by
        intro ps
        induction ps with
        | nil => intro _; exact ⟨0, by simp⟩
        | cons q qs ihq =>
          intro h
          obtain ⟨n, hn⟩ := h q (by simp)
          obtain ⟨m, hm⟩ := ihq (fun q hq => h q (by simp [hq]))
          refine ⟨max n m, ?_⟩
          intro r hr
          rcases List.mem_cons.1 hr with rfl | hr
          · exact substG_mono G b hb n _ _ (Nat.le_max_left ..) hn
          · exact substG_mono G b hb m _ _ (Nat.le_max_right ..) (hm r hr)
      obtain ⟨n, hn⟩ := this (children (G p)) (fun q hq => ih q hq)
      exact ⟨n + 1, (substG_isSome G b hb n p).2 hn⟩

end Clara.Types
