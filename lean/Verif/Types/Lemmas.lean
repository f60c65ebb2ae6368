import Verif.Types.Spec
import Verif.Util
/-
Helper lemmas about type matching.
-/
namespace Clara.Types

theorem canonAll_length (ts : List Ty) : (canonAll ts).length = ts.length := by
  induction ts with
  | nil => rfl
  | cons t ts ih => simp [canonAll, ih]

theorem instAll_length (σ : Nat → Ty) (ts : List Ty) : (instAll σ ts).length = ts.length := by
  induction ts with
  | nil => rfl
  | cons t ts ih => simp [instAll, ih]

mutual
theorem same_iff (t x : Ty) : t.same x = true ↔ t.canon = x.canon := by
  match t, x with
  | .struct n ts, .struct m xs =>
    simp only [Ty.same, Ty.canon, Bool.and_eq_true, beq_iff_eq, Ty.struct.injEq]
    constructor
    · rintro ⟨⟨h1, h2⟩, h3⟩; exact ⟨h1, (sameAll_iff ts xs h2).1 h3⟩
    · rintro ⟨h1, h2⟩
      have hl : ts.length = xs.length := by rw [← canonAll_length ts, h2, canonAll_length]
      exact ⟨⟨h1, hl⟩, (sameAll_iff ts xs hl).2 h2⟩
  | .enum n ts, .enum m xs =>
    simp only [Ty.same, Ty.canon, Bool.and_eq_true, beq_iff_eq, Ty.enum.injEq]
    constructor
    · rintro ⟨⟨h1, h2⟩, h3⟩; exact ⟨h1, (sameAll_iff ts xs h2).1 h3⟩
    · rintro ⟨h1, h2⟩
      have hl : ts.length = xs.length := by rw [← canonAll_length ts, h2, canonAll_length]
      exact ⟨⟨h1, hl⟩, (sameAll_iff ts xs hl).2 h2⟩
  | .prim p, .prim q => simp [Ty.same, Ty.canon]
  | .array t, .array x => simp only [Ty.same, Ty.canon, Ty.array.injEq]; exact same_iff t x
  | .fn _ ts t, .fn _ xs x =>
    simp only [Ty.same, Ty.canon, Bool.and_eq_true, beq_iff_eq, Ty.fn.injEq, true_and]
    constructor
    · rintro ⟨⟨h1, h2⟩, h3⟩; exact ⟨(sameAll_iff ts xs h1.symm).1 h2, (same_iff t x).1 h3⟩
    · rintro ⟨h1, h2⟩
      have hl : ts.length = xs.length := by rw [← canonAll_length ts, h1, canonAll_length]
      exact ⟨⟨hl.symm, (sameAll_iff ts xs hl).2 h1⟩, (same_iff t x).2 h2⟩
  | .param i, .param j => simp [Ty.same, Ty.canon]
  | .struct .., .prim .. | .struct .., .param .. | .struct .., .array .. | .struct .., .enum ..
  | .struct .., .fn .. => simp [Ty.same, Ty.canon]
  | .enum .., .prim .. | .enum .., .param .. | .enum .., .array .. | .enum .., .struct ..
  | .enum .., .fn .. => simp [Ty.same, Ty.canon]
  | .prim .., .struct .. | .prim .., .param .. | .prim .., .array .. | .prim .., .enum ..
  | .prim .., .fn .. => simp [Ty.same, Ty.canon]
  | .array .., .struct .. | .array .., .param .. | .array .., .prim .. | .array .., .enum ..
  | .array .., .fn .. => simp [Ty.same, Ty.canon]
  | .fn .., .struct .. | .fn .., .param .. | .fn .., .prim .. | .fn .., .enum ..
  | .fn .., .array .. => simp [Ty.same, Ty.canon]
  | .param .., .struct .. | .param .., .fn .. | .param .., .prim .. | .param .., .enum ..
  | .param .., .array .. => simp [Ty.same, Ty.canon]
theorem sameAll_iff (ts xs : List Ty) (h : ts.length = xs.length) :
    sameAll ts xs = true ↔ canonAll ts = canonAll xs := by
  match ts, xs with
  | [], [] => simp [sameAll, canonAll]
  | t :: ts, x :: xs =>
    simp only [sameAll, canonAll, Bool.and_eq_true, List.cons.injEq]
    rw [same_iff t x, sameAll_iff ts xs (by simpa using h)]
  | [], x :: xs => simp at h
  | t :: ts, [] => simp at h
end

/-- The later map keeps every binding of the earlier one. -/
def Bound.le (b b' : Bound) : Prop := ∀ k v, b.get k = some v → b'.get k = some v

theorem Bound.le_refl (b : Bound) : b.le b := fun _ _ h => h
theorem Bound.le_trans {a b c : Bound} (h : a.le b) (h' : b.le c) : a.le c :=
  fun k v e => h' k v (h k v e)

theorem get_cons (k : Nat) (t : Ty) (b : Bound) (j : Nat) :
    Bound.get ((k, t) :: b) j = if j = k then some t else b.get j := by
  unfold Bound.get
  rw [List.lookup_cons]
  by_cases h : j = k
  · simp [h]
  · simp [h, beq_false_of_ne h]

theorem le_cons {b : Bound} {k : Nat} {t : Ty} (h : b.get k = none) : b.le ((k, t) :: b) := by
  intro j v hv
  rw [get_cons]
  by_cases hj : j = k
  · subst hj; rw [h] at hv; cases hv
  · rw [if_neg hj]; exact hv

mutual
theorem poly_le (t x : Ty) (b : Bound) : b.le (t.poly x b).2 := by
  unfold Ty.poly
  split
  · split
    · exact le_cons (by assumption)
    · exact Bound.le_refl b
  · cases t with
    | struct n ts =>
      dsimp only
      split
      · split
        · exact polyAll_le ts _ b
        · exact Bound.le_refl b
      · exact Bound.le_refl b
    | enum n ts =>
      dsimp only
      split
      · split
        · exact polyAll_le ts _ b
        · exact Bound.le_refl b
      · exact Bound.le_refl b
    | prim p => dsimp only; split <;> exact Bound.le_refl b
    | array t =>
      dsimp only
      split
      · exact poly_le t _ b
      · exact Bound.le_refl b
    | fn d ts t =>
      dsimp only
      split
      · split
        · split
          · exact Bound.le_trans (polyAll_le ts _ b) (poly_le t _ _)
          · exact polyAll_le ts _ b
        · exact Bound.le_refl b
      · exact Bound.le_refl b
    | param k => exact Bound.le_refl b
theorem polyAll_le (ts xs : List Ty) (b : Bound) : b.le (polyAll ts xs b).2 := by
  match ts, xs with
  | t :: ts, x :: xs =>
    simp only [polyAll]
    split
    · exact Bound.le_trans (poly_le t x b) (polyAll_le ts xs _)
    · exact poly_le t x b
  | [], _ => simp [polyAll]; exact Bound.le_refl b
  | _ :: _, [] => simp [polyAll]; exact Bound.le_refl b
end

/-- The substitution a map of bindings stands for. -/
def Bound.fn (b : Bound) (k : Nat) : Ty := (b.get k).getD (.param k)

mutual
/-- A successful match is a match: substituting the bindings (or any extension) gives the type. -/
theorem poly_sound (t x : Ty) (b : Bound) (h : (t.poly x b).1 = true) (b' : Bound)
    (hb : (t.poly x b).2.le b') :
    (x.inst b'.fn).canon = t.canon ∧ ∀ k ∈ x.vars, (b'.get k).isSome := by
  unfold Ty.poly at h hb
  split at h
  · rename_i k
    simp only at hb
    split at h
    · rename_i hk
      rw [hk] at hb
      have := hb k t (by simp [get_cons])
      simp [Ty.inst, Bound.fn, this, Ty.vars]
    · rename_i bind hk
      rw [hk] at hb
      have := hb k bind hk
      simp [Ty.inst, Bound.fn, this, Ty.vars]
      exact ((same_iff t bind).1 h).symm
  · rename_i hx
    cases t with
    | struct n ts =>
      cases x with
      | struct m xs =>
        dsimp only at h hb
        split at h
        · rename_i hc
          rw [if_pos hc] at hb
          simp only [Bool.and_eq_true, beq_iff_eq] at hc
          obtain ⟨h1, h2⟩ := polyAll_sound ts xs b hc.2 h b' hb
          exact ⟨by simp [Ty.inst, Ty.canon, h1, hc.1], h2⟩
        · cases h
      | param k => exact absurd rfl (hx k)
      | _ => cases h
    | enum n ts =>
      cases x with
      | enum m xs =>
        dsimp only at h hb
        split at h
        · rename_i hc
          rw [if_pos hc] at hb
          simp only [Bool.and_eq_true, beq_iff_eq] at hc
          obtain ⟨h1, h2⟩ := polyAll_sound ts xs b hc.2 h b' hb
          exact ⟨by simp [Ty.inst, Ty.canon, h1, hc.1], h2⟩
        · cases h
      | param k => exact absurd rfl (hx k)
      | _ => cases h
    | prim p =>
      cases x with
      | prim q => simp only [beq_iff_eq] at h; subst h; simp [Ty.inst, Ty.canon, Ty.vars]
      | param k => exact absurd rfl (hx k)
      | _ => cases h
    | array t =>
      cases x with
      | array x =>
        obtain ⟨h1, h2⟩ := poly_sound t x b h b' hb
        exact ⟨by simp [Ty.inst, Ty.canon, h1], h2⟩
      | param k => exact absurd rfl (hx k)
      | _ => cases h
    | fn d ts t =>
      cases x with
      | fn e xs x =>
        dsimp only at h hb
        split at h
        · rename_i hc
          rw [if_pos hc] at hb
          simp only [beq_iff_eq] at hc
          split at h
          · rename_i hr
            rw [if_pos hr] at hb
            obtain ⟨h1, h2⟩ := polyAll_sound ts xs b hc.symm hr b' (Bound.le_trans (poly_le t x _) hb)
            obtain ⟨h3, h4⟩ := poly_sound t x _ h b' hb
            refine ⟨by simp [Ty.inst, Ty.canon, h1, h3], ?_⟩
            intro k hk
            simp only [Ty.vars, List.mem_append] at hk
            exact hk.elim (h2 k) (h4 k)
          · rename_i hr
            exact absurd h hr
        · cases h
      | param k => exact absurd rfl (hx k)
      | _ => cases h
    | param k =>
      cases x with
      | param k => exact absurd rfl (hx k)
      | _ => cases h
theorem polyAll_sound (ts xs : List Ty) (b : Bound) (hl : ts.length = xs.length)
    (h : (polyAll ts xs b).1 = true) (b' : Bound) (hb : (polyAll ts xs b).2.le b') :
    canonAll (instAll b'.fn xs) = canonAll ts ∧ ∀ k ∈ varsAll xs, (b'.get k).isSome := by
  match ts, xs with
  | t :: ts, x :: xs =>
    simp only [polyAll] at h hb
    split at h
    · rename_i hr
      rw [if_pos hr] at hb
      obtain ⟨h1, h2⟩ := poly_sound t x b hr b' (Bound.le_trans (polyAll_le ts xs _) hb)
      obtain ⟨h3, h4⟩ := polyAll_sound ts xs _ (by simpa using hl) h b' hb
      refine ⟨by simp [instAll, canonAll, h1, h3], ?_⟩
      intro k hk
      simp only [varsAll, List.mem_append] at hk
      exact hk.elim (h2 k) (h4 k)
    · rename_i hr
      exact absurd h hr
  | [], [] => simp [instAll, canonAll, varsAll]
  | [], _ :: _ => simp at hl
  | _ :: _, [] => simp at hl
end

/-- Every binding agrees with `σ` up to erased data. -/
def Bound.agrees (b : Bound) (σ : Nat → Ty) : Prop := ∀ k v, b.get k = some v → v.canon = (σ k).canon

mutual
/-- If some substitution makes the types the same, matching succeeds and only binds what that
substitution says. -/
theorem poly_complete (t x : Ty) (b : Bound) (σ : Nat → Ty) (hb : b.agrees σ)
    (h : (x.inst σ).canon = t.canon) : (t.poly x b).1 = true ∧ (t.poly x b).2.agrees σ := by
  unfold Ty.poly
  split
  · rename_i k
    simp only [Ty.inst] at h
    split
    · refine ⟨rfl, ?_⟩
      intro j v hv
      rw [get_cons] at hv
      split at hv
      · rename_i hj; subst hj; cases hv; exact h.symm
      · exact hb j v hv
    · rename_i bind hk
      exact ⟨(same_iff t bind).2 (by rw [← h, hb k bind hk]), hb⟩
  · rename_i hx
    cases t with
    | struct n ts =>
      cases x with
      | struct m xs =>
        simp only [Ty.inst, Ty.canon, Ty.struct.injEq] at h
        have hl : ts.length = xs.length := by
          rw [← canonAll_length ts, ← h.2, canonAll_length, instAll_length]
        dsimp only
        rw [if_pos (by simp [h.1, hl])]
        exact polyAll_complete ts xs b σ hb h.2
      | param k => exact absurd rfl (hx k)
      | _ => simp [Ty.inst, Ty.canon] at h
    | enum n ts =>
      cases x with
      | enum m xs =>
        simp only [Ty.inst, Ty.canon, Ty.enum.injEq] at h
        have hl : ts.length = xs.length := by
          rw [← canonAll_length ts, ← h.2, canonAll_length, instAll_length]
        dsimp only
        rw [if_pos (by simp [h.1, hl])]
        exact polyAll_complete ts xs b σ hb h.2
      | param k => exact absurd rfl (hx k)
      | _ => simp [Ty.inst, Ty.canon] at h
    | prim p =>
      cases x with
      | prim q => simp only [Ty.inst, Ty.canon, Ty.prim.injEq] at h; exact ⟨by simp [h], hb⟩
      | param k => exact absurd rfl (hx k)
      | _ => simp [Ty.inst, Ty.canon] at h
    | array t =>
      cases x with
      | array x =>
        simp only [Ty.inst, Ty.canon, Ty.array.injEq] at h
        exact poly_complete t x b σ hb h
      | param k => exact absurd rfl (hx k)
      | _ => simp [Ty.inst, Ty.canon] at h
    | fn d ts t =>
      cases x with
      | fn e xs x =>
        simp only [Ty.inst, Ty.canon, Ty.fn.injEq, true_and] at h
        have hl : ts.length = xs.length := by
          rw [← canonAll_length ts, ← h.1, canonAll_length, instAll_length]
        dsimp only
        rw [if_pos (by simp [hl])]
        obtain ⟨h1, h2⟩ := polyAll_complete ts xs b σ hb h.1
        rw [if_pos h1]
        exact poly_complete t x _ σ h2 h.2
      | param k => exact absurd rfl (hx k)
      | _ => simp [Ty.inst, Ty.canon] at h
    | param k =>
      cases x with
      | param k => exact absurd rfl (hx k)
      | _ => simp [Ty.inst, Ty.canon] at h
theorem polyAll_complete (ts xs : List Ty) (b : Bound) (σ : Nat → Ty) (hb : b.agrees σ)
    (h : canonAll (instAll σ xs) = canonAll ts) :
    (polyAll ts xs b).1 = true ∧ (polyAll ts xs b).2.agrees σ := by
  match ts, xs with
  | t :: ts, x :: xs =>
    simp only [instAll, canonAll, List.cons.injEq] at h
    simp only [polyAll]
    obtain ⟨h1, h2⟩ := poly_complete t x b σ hb h.1
    rw [if_pos h1]
    exact polyAll_complete ts xs _ σ h2 h.2
  | [], _ => simp [polyAll]; exact hb
  | _ :: _, [] => simp [polyAll]; exact hb
end

mutual
/-- New bindings are for parameters of `x`, to types built from `t`. -/
theorem poly_new (t x : Ty) (b : Bound) (k : Nat) (v : Ty) (h : (t.poly x b).2.get k = some v) :
    b.get k = some v ∨ (k ∈ x.vars ∧ ∀ j ∈ v.vars, j ∈ t.vars) := by
  unfold Ty.poly at h
  split at h
  · rename_i i
    split at h
    · rw [get_cons] at h
      split at h
      · rename_i hk; subst hk; cases h; exact .inr ⟨by simp [Ty.vars], fun _ h => h⟩
      · exact .inl h
    · exact .inl h
  · cases t with
    | struct n ts =>
      cases x with
      | struct m xs =>
        dsimp only at h
        split at h
        · exact polyAll_new ts xs b k v h
        · exact .inl h
      | _ => exact .inl h
    | enum n ts =>
      cases x with
      | enum m xs =>
        dsimp only at h
        split at h
        · exact polyAll_new ts xs b k v h
        · exact .inl h
      | _ => exact .inl h
    | prim p => cases x <;> exact .inl h
    | array t =>
      cases x with
      | array x => exact poly_new t x b k v h
      | _ => exact .inl h
    | fn d ts t =>
      cases x with
      | fn e xs x =>
        dsimp only at h
        split at h
        · split at h
          · rcases poly_new t x _ k v h with h | ⟨h1, h2⟩
            · rcases polyAll_new ts xs b k v h with h | ⟨h1, h2⟩
              · exact .inl h
              · refine .inr ⟨?_, fun j hj => ?_⟩
                · simp [Ty.vars, h1]
                · simp [Ty.vars, h2 j hj]
            · refine .inr ⟨?_, fun j hj => ?_⟩
              · simp [Ty.vars, h1]
              · simp [Ty.vars, h2 j hj]
          · rcases polyAll_new ts xs b k v h with h | ⟨h1, h2⟩
            · exact .inl h
            · refine .inr ⟨?_, fun j hj => ?_⟩
              · simp [Ty.vars, h1]
              · simp [Ty.vars, h2 j hj]
        · exact .inl h
      | _ => exact .inl h
    | param i => exact .inl h
theorem polyAll_new (ts xs : List Ty) (b : Bound) (k : Nat) (v : Ty)
    (h : (polyAll ts xs b).2.get k = some v) :
    b.get k = some v ∨ (k ∈ varsAll xs ∧ ∀ j ∈ v.vars, j ∈ varsAll ts) := by
  match ts, xs with
  | t :: ts, x :: xs =>
    simp only [polyAll] at h
    split at h
    · rcases polyAll_new ts xs _ k v h with h | ⟨h1, h2⟩
      · rcases poly_new t x b k v h with h | ⟨h1, h2⟩
        · exact .inl h
        · refine .inr ⟨?_, fun j hj => ?_⟩
          · simp [varsAll, h1]
          · simp [varsAll, h2 j hj]
      · refine .inr ⟨?_, fun j hj => ?_⟩
        · simp [varsAll, h1]
        · simp [varsAll, h2 j hj]
    · rcases poly_new t x b k v h with h | ⟨h1, h2⟩
      · exact .inl h
      · refine .inr ⟨?_, fun j hj => ?_⟩
        · simp [varsAll, h1]
        · simp [varsAll, h2 j hj]
  | [], _ => simp [polyAll] at h; exact .inl h
  | _ :: _, [] => simp [polyAll] at h; exact .inl h
end

mutual
/-- `substituteType` is simultaneous substitution, up to erased data. -/
theorem subst_canon (b : Bound) (t : Ty) : (t.subst b).canon = (t.inst b.fn).canon := by
  match t with
  | .prim p => rfl
  | .param k => rfl
  | .array t =>
    simp only [Ty.subst, Ty.inst]
    split
    · rename_i h
      simp only [Ty.canon, ← subst_canon b t]
      cases b with
      | nil => rw [subst_nil]
      | cons => simp at h
    · simp only [Ty.canon, subst_canon b t]
  | .struct n ts =>
    simp only [Ty.subst, Ty.inst]
    split
    · rename_i h
      simp only [Ty.canon, ← substAll_canon b ts]
      cases b with
      | nil => rw [substAll_nil]
      | cons => simp at h
    · simp only [Ty.canon, substAll_canon b ts]
  | .enum n ts =>
    simp only [Ty.subst, Ty.inst]
    split
    · rename_i h
      simp only [Ty.canon, ← substAll_canon b ts]
      cases b with
      | nil => rw [substAll_nil]
      | cons => simp at h
    · simp only [Ty.canon, substAll_canon b ts]
  | .fn d ps r =>
    simp only [Ty.subst, Ty.inst]
    split
    · rename_i h
      simp only [Ty.canon, ← substAll_canon b ps, ← subst_canon b r]
      cases b with
      | nil => rw [substAll_nil, subst_nil]
      | cons => simp at h
    · simp only [Ty.canon, substAll_canon b ps, subst_canon b r]
theorem substAll_canon (b : Bound) (ts : List Ty) :
    canonAll (substAll b ts) = canonAll (instAll b.fn ts) := by
  match ts with
  | [] => rfl
  | t :: ts => simp only [substAll, instAll, canonAll, subst_canon b t, substAll_canon b ts]
theorem subst_nil (t : Ty) : t.subst [] = t := by
  match t with
  | .prim p => rfl
  | .param k => rfl
  | .array t => simp [Ty.subst]
  | .struct n ts => simp [Ty.subst]
  | .enum n ts => simp [Ty.subst]
  | .fn d ps r => simp [Ty.subst]
theorem substAll_nil (ts : List Ty) : substAll [] ts = ts := by
  match ts with
  | [] => rfl
  | t :: ts => simp only [substAll, subst_nil t, substAll_nil ts]
end

/-! ### The argument loops -/

theorem zip_get {tps : List Nat} {types : List Ty} (hn : tps.Nodup) (hl : types.length = tps.length)
    (σ : Nat → Ty) (h : canonAll (tps.map σ) = canonAll types) :
    Bound.agrees (explicitBound tps types) σ := by
  intro k v hv
  unfold explicitBound Bound.get at hv
  induction tps generalizing types with
  | nil => simp at hv
  | cons a as ih =>
    cases types with
    | nil => simp at hl
    | cons t ts =>
      simp only [List.map_cons, canonAll, List.cons.injEq] at h
      simp only [List.zip_cons_cons, List.lookup_cons] at hv
      split at hv
      · rename_i hk
        have : k = a := by simpa using hk
        cases hv
        rw [this]
        exact h.1.symm
      · exact ih (List.nodup_cons.1 hn).2 (by simpa using hl) h.2 hv

theorem zip_dom {tps : List Nat} {types : List Ty} (hl : types.length = tps.length) (k : Nat) :
    (Bound.get (explicitBound tps types) k).isSome ↔ k ∈ tps := by
  unfold explicitBound Bound.get
  induction tps generalizing types with
  | nil => simp
  | cons a as ih =>
    cases types with
    | nil => simp at hl
    | cons t ts =>
      simp only [List.zip_cons_cons, List.lookup_cons, List.mem_cons]
      by_cases hk : k = a
      · simp [hk]
      · simp only [beq_false_of_ne hk, hk, false_or]
        exact ih (by simpa using hl)

theorem zip_mem {tps : List Nat} {types : List Ty} {k : Nat} {v : Ty}
    (h : Bound.get (explicitBound tps types) k = some v) : v ∈ types ∧ k ∈ tps := by
  unfold explicitBound Bound.get at h
  induction tps generalizing types with
  | nil => simp at h
  | cons a as ih =>
    cases types with
    | nil => simp at h
    | cons t ts =>
      simp only [List.zip_cons_cons, List.lookup_cons] at h
      split at h
      · rename_i hk
        cases h
        exact ⟨by simp, by simp [(by simpa using hk : k = a)]⟩
      · exact ⟨List.mem_cons_of_mem _ (ih h).1, List.mem_cons_of_mem _ (ih h).2⟩

theorem zip_lookup {tps : List Nat} {types : List Ty} {k : Nat} {v : Ty} (hn : tps.Nodup)
    (h : (k, v) ∈ tps.zip types) : Bound.get (explicitBound tps types) k = some v := by
  unfold explicitBound Bound.get
  induction tps generalizing types with
  | nil => simp at h
  | cons a tps ih =>
    cases types with
    | nil => simp at h
    | cons t ts =>
      simp only [List.zip_cons_cons, List.mem_cons, Prod.mk.injEq] at h
      rw [List.zip_cons_cons, List.lookup_cons]
      rcases h with ⟨rfl, rfl⟩ | h
      · simp
      · have hne : k ≠ a := by
          intro e
          subst e
          exact (List.nodup_cons.1 hn).1 (List.of_mem_zip h).1
        simp only [beq_false_of_ne hne]
        exact ih (List.nodup_cons.1 hn).2 h

/-- What an argument may be resolved to. -/
def Arg.options (a : Arg) : List Ty := if a.overloaded then a.chain else [a.typ]

theorem pick_spec {p : Ty} {c : List Ty} {a : Arg} (h : pick p c = some a) :
    a.typ ∈ c ∧ a.typ.same p = true := by
  induction c with
  | nil => simp [pick] at h
  | cons s c ih =>
    simp only [pick] at h
    split at h
    · cases h; exact ⟨by simp, by assumption⟩
    · exact ⟨List.mem_cons_of_mem _ (ih h).1, (ih h).2⟩

theorem pick_none {p : Ty} {c : List Ty} (h : pick p c = none) : ∀ s ∈ c, ¬ s.same p = true := by
  induction c with
  | nil => simp
  | cons s c ih =>
    simp only [pick] at h
    split at h
    · cases h
    · intro x hx
      rcases List.mem_cons.1 hx with rfl | hx
      · assumption
      · exact ih h x hx

/-- The types the arguments were resolved to. -/
def argTypes (as : List Arg) : List Ty := as.map Arg.typ

theorem argCheck_length (as : List Arg) (ps : List Ty) : (argCheck as ps).2.length = as.length := by
  induction as generalizing ps with
  | nil => cases ps <;> rfl
  | cons a as ih =>
    cases ps with
    | nil => rfl
    | cons p ps =>
      simp only [argCheck]
      split
      · split <;> simp [ih]
      · split <;> simp [ih]

theorem argCheck_iff (as : List Arg) (ps : List Ty) (hl : as.length = ps.length) :
    (argCheck as ps).1 = true ↔
      All₂ (fun (a : Arg) p => ∃ t ∈ a.options, Same t p) as ps := by
  induction as generalizing ps with
  | nil =>
    cases ps with
    | nil => exact ⟨fun _ => .nil, fun _ => rfl⟩
    | cons => simp at hl
  | cons a as ih =>
    cases ps with
    | nil => simp at hl
    | cons p ps =>
      have ih' := ih ps (by simpa using hl)
      rw [all₂_cons, ← ih']
      simp only [argCheck, Arg.options]
      split
      · split
        · rename_i a' ha
          obtain ⟨h1, h2⟩ := pick_spec ha
          exact ⟨fun h => ⟨⟨_, h1, (same_iff _ _).1 h2⟩, h⟩, fun h => h.2⟩
        · rename_i ha
          have := pick_none ha
          constructor
          · intro h; cases h
          · rintro ⟨⟨t, h1, h2⟩, _⟩
            exact absurd ((same_iff _ _).2 h2) (this t h1)
      · split
        · rename_i h0
          exact ⟨fun h => ⟨⟨_, by simp, (same_iff _ _).1 h0⟩, h⟩, fun h => h.2⟩
        · rename_i h0
          constructor
          · intro h; cases h
          · rintro ⟨⟨t, h1, h2⟩, _⟩
            simp only [List.mem_singleton] at h1
            subst h1
            exact absurd ((same_iff _ _).2 h2) h0

theorem argCheck_sound (as : List Arg) (ps : List Ty) (hl : as.length = ps.length)
    (h : (argCheck as ps).1 = true) :
    SameAll ps (argTypes (argCheck as ps).2) ∧
      All₂ (fun (a a' : Arg) => a'.typ ∈ a.options) as (argCheck as ps).2 := by
  induction as generalizing ps with
  | nil =>
    cases ps with
    | nil => exact ⟨rfl, .nil⟩
    | cons => simp at hl
  | cons a as ih =>
    cases ps with
    | nil => simp at hl
    | cons p ps =>
      simp only [argCheck] at h ⊢
      split at h
      · rename_i ho
        rw [if_pos ho]
        split at h
        · rename_i a' ha
          obtain ⟨h1, h2⟩ := pick_spec ha
          obtain ⟨h3, h4⟩ := ih ps (by simpa using hl) h
          refine ⟨?_, ?_⟩
          · simp only [SameAll, argTypes, List.map_cons, canonAll, ((same_iff _ _).1 h2)]
            rw [show canonAll ps = _ from h3]
            rfl
          · exact .cons (by simp [Arg.options, ho, h1]) h4
        · cases h
      · rename_i ho
        rw [if_neg ho]
        split at h
        · rename_i h2
          rw [if_pos h2]
          obtain ⟨h3, h4⟩ := ih ps (by simpa using hl) h
          refine ⟨?_, ?_⟩
          · simp only [SameAll, argTypes, List.map_cons, canonAll, ((same_iff _ _).1 h2)]
            rw [show canonAll ps = _ from h3]
            rfl
          · exact .cons (by simp [Arg.options, ho]) h4
        · cases h

theorem polyPick_le (p : Ty) (c : List Ty) (b : Bound) : b.le (polyPick p c b).2 := by
  induction c generalizing b with
  | nil => exact Bound.le_refl b
  | cons s c ih =>
    simp only [polyPick]
    split
    · exact poly_le s p b
    · exact Bound.le_trans (poly_le s p b) (ih _)

theorem polyPick_sound {p : Ty} {c : List Ty} {b : Bound} {a : Arg}
    (h : (polyPick p c b).1 = some a) (b' : Bound) (hb : (polyPick p c b).2.le b') :
    a.typ ∈ c ∧ Same (p.inst b'.fn) a.typ ∧ ∀ k ∈ p.vars, (b'.get k).isSome := by
  induction c generalizing b with
  | nil => simp [polyPick] at h
  | cons s c ih =>
    simp only [polyPick] at h hb
    split at h
    · rename_i hr
      rw [if_pos hr] at hb
      cases h
      exact ⟨by simp, poly_sound s p b hr b' hb⟩
    · rename_i hr
      rw [if_neg hr] at hb
      obtain ⟨h1, h2⟩ := ih h hb
      exact ⟨List.mem_cons_of_mem _ h1, h2⟩

theorem polyPick_new {p : Ty} {c : List Ty} {b : Bound} {k : Nat} {v : Ty}
    (h : (polyPick p c b).2.get k = some v) :
    b.get k = some v ∨ (k ∈ p.vars ∧ ∀ j ∈ v.vars, j ∈ varsAll c) := by
  induction c generalizing b with
  | nil => exact .inl h
  | cons s c ih =>
    simp only [polyPick] at h
    have key : ∀ {v}, (s.poly p b).2.get k = some v →
        b.get k = some v ∨ (k ∈ p.vars ∧ ∀ j ∈ v.vars, j ∈ varsAll (s :: c)) := by
      intro v hv
      rcases poly_new s p b k v hv with h | ⟨h1, h2⟩
      · exact .inl h
      · exact .inr ⟨h1, fun j hj => by simp [varsAll, h2 j hj]⟩
    split at h
    · exact key h
    · rcases ih h with h | ⟨h1, h2⟩
      · exact key h
      · exact .inr ⟨h1, fun j hj => by simp [varsAll, h2 j hj]⟩

theorem polyCheck_le (as : List Arg) (ps : List Ty) (b : Bound) : b.le (polyCheck as ps b).2.2 := by
  induction as generalizing ps b with
  | nil => cases ps <;> exact Bound.le_refl b
  | cons a as ih =>
    cases ps with
    | nil => exact Bound.le_refl b
    | cons p ps =>
      simp only [polyCheck]
      split
      · have := polyPick_le p a.chain b
        split
        · rename_i a' b' he
          rw [he] at this
          exact Bound.le_trans this (ih ps b')
        · rename_i b' he
          rw [he] at this
          exact this
      · split
        · exact Bound.le_trans (poly_le _ p b) (ih ps _)
        · exact poly_le _ p b

theorem polyCheck_length (as : List Arg) (ps : List Ty) (b : Bound) :
    (polyCheck as ps b).2.1.length = as.length := by
  induction as generalizing ps b with
  | nil => cases ps <;> rfl
  | cons a as ih =>
    cases ps with
    | nil => rfl
    | cons p ps =>
      simp only [polyCheck]
      split
      · split <;> simp [ih]
      · split <;> simp [ih]

theorem polyCheck_sound (as : List Arg) (ps : List Ty) (b : Bound) (hl : as.length = ps.length)
    (h : (polyCheck as ps b).1 = true) (b' : Bound) (hb : (polyCheck as ps b).2.2.le b') :
    SameAll (instAll b'.fn ps) (argTypes (polyCheck as ps b).2.1) ∧
      (∀ k ∈ varsAll ps, (b'.get k).isSome) ∧
      All₂ (fun (a a' : Arg) => a'.typ ∈ a.options) as (polyCheck as ps b).2.1 := by
  induction as generalizing ps b with
  | nil =>
    cases ps with
    | nil => exact ⟨rfl, by simp [varsAll], .nil⟩
    | cons => simp at hl
  | cons a as ih =>
    cases ps with
    | nil => simp at hl
    | cons p ps =>
      simp only [polyCheck] at h hb ⊢
      split at h
      · rename_i ho
        rw [if_pos ho] at hb ⊢
        split at h
        · rename_i a' b1 he
          rw [he] at hb
          simp only at hb ⊢
          obtain ⟨h3, h4, h5⟩ := ih ps b1 (by simpa using hl) h hb
          have he1 : (polyPick p a.chain b).1 = some a' := by rw [he]
          have he2 : (polyPick p a.chain b).2.le b' := by
            rw [he]; exact Bound.le_trans (polyCheck_le as ps b1) hb
          obtain ⟨k1, k2, k3⟩ := polyPick_sound he1 b' he2
          refine ⟨?_, ?_, .cons (by simp [Arg.options, ho, k1]) h5⟩
          · simp only [SameAll, argTypes, List.map_cons, instAll, canonAll, show _ = _ from k2]
            rw [show canonAll _ = _ from h3]
            rfl
          · intro k hk
            simp only [varsAll, List.mem_append] at hk
            exact hk.elim (k3 k) (h4 k)
        · cases h
      · rename_i ho
        rw [if_neg ho] at hb ⊢
        split at h
        · rename_i hr
          rw [if_pos hr] at hb ⊢
          simp only at hb ⊢
          obtain ⟨h3, h4, h5⟩ := ih ps _ (by simpa using hl) h hb
          obtain ⟨k2, k3⟩ := poly_sound _ p b hr b' (Bound.le_trans (polyCheck_le as ps _) hb)
          refine ⟨?_, ?_, .cons (by simp [Arg.options, ho]) h5⟩
          · simp only [SameAll, argTypes, List.map_cons, instAll, canonAll, show _ = _ from k2]
            rw [show canonAll _ = _ from h3]
            rfl
          · intro k hk
            simp only [varsAll, List.mem_append] at hk
            exact hk.elim (k3 k) (h4 k)
        · cases h

/-- Everything the caller supplies: argument types and the overloads of its arguments. -/
def supplied (as : List Arg) : List Ty := as.flatMap Arg.options

theorem varsAll_append (ts xs : List Ty) : varsAll (ts ++ xs) = varsAll ts ++ varsAll xs := by
  induction ts with
  | nil => rfl
  | cons t ts ih => simp [varsAll, ih]

theorem polyCheck_new {as : List Arg} {ps : List Ty} {b : Bound} {k : Nat} {v : Ty}
    (h : (polyCheck as ps b).2.2.get k = some v) :
    b.get k = some v ∨ (k ∈ varsAll ps ∧ ∀ j ∈ v.vars, j ∈ varsAll (supplied as)) := by
  induction as generalizing ps b with
  | nil => cases ps <;> exact .inl h
  | cons a as ih =>
    cases ps with
    | nil => exact .inl h
    | cons p ps =>
      simp only [polyCheck] at h
      have lift : ∀ {b1 : Bound}, (polyCheck as ps b1).2.2.get k = some v →
          (b1.get k = some v → b.get k = some v ∨
            (k ∈ p.vars ∧ ∀ j ∈ v.vars, j ∈ varsAll a.options)) →
          b.get k = some v ∨
            (k ∈ varsAll (p :: ps) ∧ ∀ j ∈ v.vars, j ∈ varsAll (supplied (a :: as))) := by
        intro b1 h1 h2
        rcases ih h1 with h1 | ⟨h3, h4⟩
        · rcases h2 h1 with h | ⟨h5, h6⟩
          · exact .inl h
          · exact .inr ⟨by simp [varsAll, h5],
              fun j hj => by simp [supplied, varsAll_append, h6 j hj]⟩
        · refine .inr ⟨by simp [varsAll, h3], fun j hj => ?_⟩
          have := h4 j hj
          unfold supplied at this ⊢
          simp [varsAll_append, this]
      have stop : (b.get k = some v ∨ (k ∈ p.vars ∧ ∀ j ∈ v.vars, j ∈ varsAll a.options)) →
          b.get k = some v ∨
            (k ∈ varsAll (p :: ps) ∧ ∀ j ∈ v.vars, j ∈ varsAll (supplied (a :: as))) := by
        rintro (h | ⟨h5, h6⟩)
        · exact .inl h
        · exact .inr ⟨by simp [varsAll, h5],
            fun j hj => by simp [supplied, varsAll_append, h6 j hj]⟩
      split at h
      · rename_i ho
        split at h
        · rename_i a' b1 he
          refine lift h (fun h1 => ?_)
          have := polyPick_new (p := p) (c := a.chain) (b := b) (k := k) (v := v) (by rw [he]; exact h1)
          simpa [Arg.options, ho] using this
        · rename_i b1 he
          refine stop ?_
          have := polyPick_new (p := p) (c := a.chain) (b := b) (k := k) (v := v) (by rw [he]; exact h)
          simpa [Arg.options, ho] using this
      · rename_i ho
        split at h
        · refine lift h (fun h1 => ?_)
          have := poly_new _ p b k v h1
          simpa [Arg.options, ho, varsAll] using this
        · refine stop ?_
          have := poly_new _ p b k v h
          simpa [Arg.options, ho, varsAll] using this

/-- Completeness of the loop when every argument is not overloaded, or its first overload fits. -/
theorem polyCheck_complete (as : List Arg) (ps : List Ty) (b : Bound) (σ : Nat → Ty)
    (hl : as.length = ps.length) (hb : b.agrees σ)
    (h : SameAll (instAll σ ps) (as.map (fun a => a.options.headD a.typ))) :
    (polyCheck as ps b).1 = true ∧ (polyCheck as ps b).2.2.agrees σ ∧
      argTypes (polyCheck as ps b).2.1 = as.map (fun a => a.options.headD a.typ) := by
  induction as generalizing ps b with
  | nil =>
    cases ps with
    | nil => exact ⟨rfl, hb, rfl⟩
    | cons => simp at hl
  | cons a as ih =>
    cases ps with
    | nil => simp at hl
    | cons p ps =>
      simp only [SameAll, instAll, List.map_cons, canonAll, List.cons.injEq] at h
      simp only [polyCheck]
      split
      · rename_i ho
        obtain ⟨s, c, hc⟩ : ∃ s c, a.chain = s :: c := by
          unfold Arg.overloaded at ho
          cases hc : a.chain with
          | nil => simp [hc] at ho
          | cons s c => exact ⟨s, c, rfl⟩
        have hh : a.options.headD a.typ = s := by simp [Arg.options, ho, hc]
        rw [hh] at h
        obtain ⟨h1, h2⟩ := poly_complete s p b σ hb h.1
        have : polyPick p a.chain b = (some ⟨s, s :: c⟩, (s.poly p b).2) := by
          rw [hc]; simp [polyPick, h1]
        rw [this]
        obtain ⟨h3, h4, h5⟩ := ih ps _ (by simpa using hl) h2 h.2
        refine ⟨h3, h4, ?_⟩
        simp only [argTypes, List.map_cons, hh] at h5 ⊢
        rw [h5]
      · rename_i ho
        have hh : a.options.headD a.typ = a.typ := by simp [Arg.options, ho]
        rw [hh] at h
        obtain ⟨h1, h2⟩ := poly_complete a.typ p b σ hb h.1
        rw [if_pos h1]
        obtain ⟨h3, h4, h5⟩ := ih ps _ (by simpa using hl) h2 h.2
        refine ⟨h3, h4, ?_⟩
        simp only [argTypes, List.map_cons, hh] at h5 ⊢
        rw [h5]

mutual
theorem unbound_plain (b : Bound) (t : Ty) (hp : t.plain) :
    t.unbound b = t.outer.filter (fun k => (b.get k).isNone) := by
  match t with
  | .prim p => rfl
  | .param k =>
    simp only [Ty.unbound, Ty.outer]
    cases h : b.get k <;> simp [h]
  | .array t => simp only [Ty.unbound, Ty.outer]; exact unbound_plain b t hp
  | .struct n ts => simp only [Ty.unbound, Ty.outer]; exact unboundAll_plain b ts hp
  | .enum n ts => simp only [Ty.unbound, Ty.outer]; exact unboundAll_plain b ts hp
  | .fn d ps r => simp [Ty.unbound, Ty.outer, hp.1]
theorem unboundAll_plain (b : Bound) (ts : List Ty) (hp : plainAll ts) :
    unboundAll b ts = (outerAll ts).filter (fun k => (b.get k).isNone) := by
  match ts with
  | [] => rfl
  | t :: ts =>
    simp only [unboundAll, outerAll, List.filter_append, unbound_plain b t hp.1,
      unboundAll_plain b ts hp.2]
end

mutual
theorem inst_congr (σ τ : Nat → Ty) (t : Ty) (h : ∀ k ∈ t.vars, Same (σ k) (τ k)) :
    Same (t.inst σ) (t.inst τ) := by
  match t with
  | .prim p => rfl
  | .param k => exact h k (by simp [Ty.vars])
  | .array t =>
    simp only [Same, Ty.inst, Ty.canon, show _ = _ from inst_congr σ τ t h]
  | .struct n ts => simp only [Same, Ty.inst, Ty.canon, show _ = _ from instAll_congr σ τ ts h]
  | .enum n ts => simp only [Same, Ty.inst, Ty.canon, show _ = _ from instAll_congr σ τ ts h]
  | .fn d ps r =>
    simp only [Ty.vars, List.mem_append] at h
    simp only [Same, Ty.inst, Ty.canon,
      show _ = _ from instAll_congr σ τ ps (fun k hk => h k (.inl hk)),
      show _ = _ from inst_congr σ τ r (fun k hk => h k (.inr hk))]
theorem instAll_congr (σ τ : Nat → Ty) (ts : List Ty) (h : ∀ k ∈ varsAll ts, Same (σ k) (τ k)) :
    SameAll (instAll σ ts) (instAll τ ts) := by
  match ts with
  | [] => rfl
  | t :: ts =>
    simp only [varsAll, List.mem_append] at h
    simp only [SameAll, instAll, canonAll,
      show _ = _ from inst_congr σ τ t (fun k hk => h k (.inl hk)),
      show _ = _ from instAll_congr σ τ ts (fun k hk => h k (.inr hk))]
end

mutual
/-- Matching determines the substitution on the parameters that occur. -/
theorem inst_inj (σ τ : Nat → Ty) (t : Ty) (h : Same (t.inst σ) (t.inst τ)) :
    ∀ k ∈ t.vars, Same (σ k) (τ k) := by
  match t with
  | .prim p => simp [Ty.vars]
  | .param k => intro j hj; simp only [Ty.vars, List.mem_singleton] at hj; subst hj; exact h
  | .array t => simp only [Same, Ty.inst, Ty.canon, Ty.array.injEq] at h; exact inst_inj σ τ t h
  | .struct n ts =>
    simp only [Same, Ty.inst, Ty.canon, Ty.struct.injEq, true_and] at h; exact instAll_inj σ τ ts h
  | .enum n ts =>
    simp only [Same, Ty.inst, Ty.canon, Ty.enum.injEq, true_and] at h; exact instAll_inj σ τ ts h
  | .fn d ps r =>
    simp only [Same, Ty.inst, Ty.canon, Ty.fn.injEq, true_and] at h
    intro k hk
    simp only [Ty.vars, List.mem_append] at hk
    exact hk.elim (instAll_inj σ τ ps h.1 k) (inst_inj σ τ r h.2 k)
theorem instAll_inj (σ τ : Nat → Ty) (ts : List Ty) (h : SameAll (instAll σ ts) (instAll τ ts)) :
    ∀ k ∈ varsAll ts, Same (σ k) (τ k) := by
  match ts with
  | [] => simp [varsAll]
  | t :: ts =>
    simp only [SameAll, instAll, canonAll, List.cons.injEq] at h
    intro k hk
    simp only [varsAll, List.mem_append] at hk
    exact hk.elim (inst_inj σ τ t h.1 k) (instAll_inj σ τ ts h.2 k)
end

mutual
theorem inst_vars (σ : Nat → Ty) (t : Ty) (j : Nat) (h : j ∈ (t.inst σ).vars) :
    ∃ k ∈ t.vars, j ∈ (σ k).vars := by
  match t with
  | .prim p => simp [Ty.inst, Ty.vars] at h
  | .param k => exact ⟨k, by simp [Ty.vars], h⟩
  | .array t => exact inst_vars σ t j h
  | .struct n ts => exact instAll_vars σ ts j h
  | .enum n ts => exact instAll_vars σ ts j h
  | .fn d ps r =>
    simp only [Ty.inst, Ty.vars, List.mem_append] at h
    rcases h with h | h
    · obtain ⟨k, h1, h2⟩ := instAll_vars σ ps j h; exact ⟨k, by simp [Ty.vars, h1], h2⟩
    · obtain ⟨k, h1, h2⟩ := inst_vars σ r j h; exact ⟨k, by simp [Ty.vars, h1], h2⟩
theorem instAll_vars (σ : Nat → Ty) (ts : List Ty) (j : Nat) (h : j ∈ varsAll (instAll σ ts)) :
    ∃ k ∈ varsAll ts, j ∈ (σ k).vars := by
  match ts with
  | [] => simp [instAll, varsAll] at h
  | t :: ts =>
    simp only [instAll, varsAll, List.mem_append] at h
    rcases h with h | h
    · obtain ⟨k, h1, h2⟩ := inst_vars σ t j h; exact ⟨k, by simp [varsAll, h1], h2⟩
    · obtain ⟨k, h1, h2⟩ := instAll_vars σ ts j h; exact ⟨k, by simp [varsAll, h1], h2⟩
end

mutual
theorem canon_vars (t : Ty) : t.canon.vars = t.vars := by
  match t with
  | .prim p => rfl
  | .param k => rfl
  | .array t => exact canon_vars t
  | .struct n ts => exact canonAll_vars ts
  | .enum n ts => exact canonAll_vars ts
  | .fn d ps r => simp only [Ty.canon, Ty.vars, canonAll_vars ps, canon_vars r]
theorem canonAll_vars (ts : List Ty) : varsAll (canonAll ts) = varsAll ts := by
  match ts with
  | [] => rfl
  | t :: ts => simp only [canonAll, varsAll, canon_vars t, canonAll_vars ts]
end

mutual
theorem inst_param (t : Ty) : t.inst .param = t := by
  match t with
  | .prim p => rfl
  | .param k => rfl
  | .array t => simp only [Ty.inst, inst_param t]
  | .struct n ts => simp only [Ty.inst, instAll_param ts]
  | .enum n ts => simp only [Ty.inst, instAll_param ts]
  | .fn d ps r => simp only [Ty.inst, instAll_param ps, inst_param r]
theorem instAll_param (ts : List Ty) : instAll .param ts = ts := by
  match ts with
  | [] => rfl
  | t :: ts => simp only [instAll, inst_param t, instAll_param ts]
end

mutual
theorem outer_vars (t : Ty) (k : Nat) (h : k ∈ t.outer) : k ∈ t.vars := by
  match t with
  | .prim p => exact h
  | .param j => exact h
  | .array t => exact outer_vars t k h
  | .struct n ts => exact outerAll_vars ts k h
  | .enum n ts => exact outerAll_vars ts k h
  | .fn d ps r => simp [Ty.outer] at h
theorem outerAll_vars (ts : List Ty) (k : Nat) (h : k ∈ outerAll ts) : k ∈ varsAll ts := by
  match ts with
  | [] => exact h
  | t :: ts =>
    simp only [outerAll, varsAll, List.mem_append] at h ⊢
    exact h.imp (outer_vars t k) (outerAll_vars ts k)
end

theorem mem_varsAll {k : Nat} {t : Ty} {ts : List Ty} (h : t ∈ ts) (hk : k ∈ t.vars) :
    k ∈ varsAll ts := by
  induction ts with
  | nil => simp at h
  | cons x xs ih =>
    simp only [varsAll, List.mem_append]
    rcases List.mem_cons.1 h with rfl | h
    · exact .inl hk
    · exact .inr (ih h)

end Clara.Types
