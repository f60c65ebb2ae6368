import Verif.Types.Lemmas
/-
Properties C13-C18: type equality, generic calls, overload resolution.
-/
namespace Clara.Props
open Clara.Types

/-! ### C13 Type equality is an equivalence -/

/-- Two types match exactly when they are the same type. -/
theorem C13_same (t x : Ty) : t.same x = true ↔ Same t x := same_iff t x

theorem C13_refl (t : Ty) : t.same t = true := (same_iff t t).2 rfl

theorem C13_symm (t x : Ty) : t.same x = x.same t := by
  rw [Bool.eq_iff_iff, same_iff, same_iff]; exact eq_comm

theorem C13_trans (t x y : Ty) (h1 : t.same x = true) (h2 : x.same y = true) : t.same y = true :=
  (same_iff t y).2 (((same_iff t x).1 h1).trans ((same_iff x y).1 h2))

/-- Different values that match: a constructor and a plain function of the same type, ... -/
example : (Ty.fn { kind := .structCons, tps := [3] } [.prim .int] (.enum "option" [.param 3])).same
    (.fn {} [.prim .int] (.enum "option" [.param 3])) = true := rfl
/-- ... and different type arguments do not. -/
example : (Ty.struct "list" [.prim .int]).same (.struct "list" [.prim .string]) = false := rfl

/-! ### C14 Generic calls are sound -/

/-- Callee type `fn d ps r` called with explicit type arguments `types`: `σ` assigns types to
the callee's type parameters so that the parameter types become the argument types. -/
structure Fits (d : FnData) (ps : List Ty) (types as : List Ty) (σ : Nat → Ty) : Prop where
  args : SameAll (instAll σ ps) as
  explicit : types = [] ∨ SameAll (d.tps.map σ) types
  /-- a callee without type parameters is taken as it is -/
  mono : d.tps = [] → σ = .param

/-- An accepted call has a fitting assignment; the arguments keep their type or, for an overloaded
name, get one of its types; the call has the declared result type under the assignment. -/
theorem C14_sound (f : Ty) (types : List Ty) (args : List Arg) (ret : Ty) (args' : List Arg)
    (hn : ∀ d ps r, f = .fn d ps r → d.tps.Nodup)
    (h : matchCall f types args = (.ok ret, args')) :
    ∃ d ps r σ, f = .fn d ps r ∧ Fits d ps types (argTypes args') σ ∧ Same ret (r.inst σ) ∧
      All₂ (fun (a a' : Arg) => a'.typ ∈ a.options) args args' := by
  cases f with
  | fn d ps r =>
    refine ⟨d, ps, r, ?_⟩
    simp only [matchCall] at h
    split at h
    · simp at h
    · rename_i hl
      have hl : args.length = ps.length := by simpa using hl
      split at h
      · simp at h
      · rename_i ht
        split at h
        · rename_i htp
          split at h
          · rename_i hok
            simp only [Prod.mk.injEq, Except.ok.injEq] at h
            obtain ⟨rfl, rfl⟩ := h
            obtain ⟨h1, h2⟩ := argCheck_sound args ps hl hok
            have hz : d.tps = [] := List.length_eq_zero_iff.1 htp
            refine ⟨.param, rfl, ⟨by rw [instAll_param]; exact h1, .inl ?_, fun _ => rfl⟩,
              by rw [inst_param]; rfl, h2⟩
            apply List.length_eq_zero_iff.1
            rw [hz] at ht
            simpa using ht
          · simp at h
        · rename_i htp
          split at h
          · rename_i hok
            split at h
            · simp at h
            · simp only [Prod.mk.injEq, Except.ok.injEq] at h
              obtain ⟨rfl, rfl⟩ := h
              have hs := polyCheck_sound args ps (explicitBound d.tps types) hl hok _ (Bound.le_refl _)
              generalize hb : (polyCheck args ps (explicitBound d.tps types)).2.2 = b at hs
              have hle : (explicitBound d.tps types).le b := hb ▸ polyCheck_le args ps _
              refine ⟨b.fn, rfl, ⟨hs.1, ?_, ?_⟩, ?_, hs.2.2⟩
              · by_cases h0 : types.length = 0
                · exact .inl (List.length_eq_zero_iff.1 h0)
                · right
                  have hlen : types.length = d.tps.length := by
                    apply Classical.byContradiction; intro h; exact ht ⟨h0, h⟩
                  have hnd := hn d ps r rfl
                  clear ht htp hok hs h0 hn
                  -- every explicit binding is still there
                  have : ∀ (tps : List Nat) (tys : List Ty), tys.length = tps.length → tps.Nodup →
                      (∀ k v, (k, v) ∈ tps.zip tys → b.get k = some v) →
                      SameAll (tps.map b.fn) tys := by
                    intro tps
                    induction tps with
                    | nil => intro tys hl _ _; cases tys with
                      | nil => rfl
                      | cons => simp at hl
                    | cons k tps ih =>
                      intro tys hl hnd hz
                      cases tys with
                      | nil => simp at hl
                      | cons t tys =>
                        have h1 := hz k t (by simp)
                        have h2 := ih tys (by simpa using hl) (List.nodup_cons.1 hnd).2
                          (fun k v hkv => hz k v (by simp [hkv]))
                        simp only [SameAll, List.map_cons, canonAll]
                        rw [show canonAll _ = _ from h2]
                        simp [Bound.fn, h1]
                  exact this d.tps types hlen hnd (fun k v hkv => hle k v (zip_lookup hnd hkv))
              · intro hz; rw [hz] at htp; simp at htp
              · exact subst_canon b r
          · simp at h
  | _ => simp [matchCall] at h

/-- `fn get«A,B»(m: map«A,B», k: A) B` called with a `map«string,int»` and a `string`. -/
example : matchCall (.fn { tps := [0, 1] } [.struct "map" [.param 0, .param 1], .param 0] (.param 1)) []
    [⟨.struct "map" [.prim .string, .prim .int], []⟩, ⟨.prim .string, []⟩] =
      (.ok (.prim .int), [⟨.struct "map" [.prim .string, .prim .int], []⟩, ⟨.prim .string, []⟩]) := rfl

/-! ### C15 Generic calls are complete -/

/-- The parameters whose value a call determines. -/
def Determined (d : FnData) (ps types : List Ty) (k : Nat) : Prop :=
  k ∈ varsAll ps ∨ (types ≠ [] ∧ k ∈ d.tps)

theorem heads_plain {args : List Arg} (ho : ∀ a ∈ args, a.overloaded = false) :
    args.map (fun a => a.options.headD a.typ) = argTypes args := by
  unfold argTypes
  apply List.map_congr_left
  intro a ha
  simp [Arg.options, ho a ha]

theorem argCheck_plain {args : List Arg} (ho : ∀ a ∈ args, a.overloaded = false) (ps : List Ty) :
    (argCheck args ps).2 = args := by
  induction args generalizing ps with
  | nil => cases ps <;> rfl
  | cons a as ih =>
    cases ps with
    | nil => rfl
    | cons p ps =>
      simp only [argCheck, ho a (by simp)]
      have := ih (fun a ha => ho a (by simp [ha])) ps
      simp only [Bool.false_eq_true, if_false]
      split
      · simp [this]
      · rfl

theorem polyCheck_plain {args : List Arg} (ho : ∀ a ∈ args, a.overloaded = false) (ps : List Ty)
    (b : Bound) : (polyCheck args ps b).2.1 = args := by
  induction args generalizing ps b with
  | nil => cases ps <;> rfl
  | cons a as ih =>
    cases ps with
    | nil => rfl
    | cons p ps =>
      simp only [polyCheck, ho a (by simp)]
      simp only [Bool.false_eq_true, if_false]
      split
      · simp [ih (fun a ha => ho a (by simp [ha])) ps]
      · rfl

/-- If some assignment fits and determines the result type, the call is accepted, and with the
result type of that assignment. -/
theorem C15_complete (d : FnData) (ps : List Ty) (r : Ty) (types : List Ty) (args : List Arg)
    (ho : ∀ a ∈ args, a.overloaded = false) (hn : d.tps.Nodup) (hp : r.plain) (σ : Nat → Ty)
    (hfit : Fits d ps types (argTypes args) σ)
    (hret : d.tps ≠ [] → ∀ k ∈ r.vars, Determined d ps types k) :
    ∃ ret, matchCall (.fn d ps r) types args = (.ok ret, args) ∧ Same ret (r.inst σ) := by
  have hl : args.length = ps.length := by
    have h1 : (canonAll (instAll σ ps)).length = (canonAll (argTypes args)).length :=
      congrArg _ hfit.args
    rw [canonAll_length, canonAll_length, instAll_length] at h1
    simpa [argTypes] using h1.symm
  have htl : types = [] ∨ types.length = d.tps.length := by
    rcases hfit.explicit with h | h
    · exact .inl h
    · right
      have h1 := congrArg List.length (show canonAll _ = _ from h)
      rw [canonAll_length, canonAll_length] at h1
      simpa using h1.symm
  simp only [matchCall]
  rw [if_neg (by simp [hl]), if_neg (by
    rintro ⟨h1, h2⟩
    rcases htl with h | h
    · simp [h] at h1
    · exact h2 h)]
  by_cases hz : d.tps = []
  · have hσ := hfit.mono hz
    subst hσ
    rw [if_pos (by simp [hz])]
    have hall : (argCheck args ps).1 = true := by
      rw [argCheck_iff args ps hl]
      have h := hfit.args
      rw [instAll_param] at h
      clear hfit htl hret
      induction args generalizing ps with
      | nil => cases ps with
        | nil => exact .nil
        | cons => simp at hl
      | cons a as ih =>
        cases ps with
        | nil => simp at hl
        | cons p ps =>
          simp only [SameAll, argTypes, List.map_cons, canonAll, List.cons.injEq] at h
          refine .cons ⟨a.typ, by simp [Arg.options, ho a (by simp)], h.1.symm⟩ ?_
          exact ih ps (fun a ha => ho a (by simp [ha])) (by simpa using hl) h.2
    rw [if_pos hall, argCheck_plain ho]
    exact ⟨r, rfl, by rw [inst_param]; rfl⟩
  · rw [if_neg (by simpa using hz)]
    have hag : Bound.agrees (explicitBound d.tps types) σ := by
      rcases hfit.explicit with h | h
      · subst h; intro k v hv; simp [explicitBound, Bound.get] at hv
      · rcases htl with h' | h'
        · subst h'; intro k v hv; simp [explicitBound, Bound.get] at hv
        · exact zip_get hn h' σ h
    obtain ⟨h1, h2, h3⟩ := polyCheck_complete args ps (explicitBound d.tps types) σ hl hag
      (by rw [heads_plain ho]; exact hfit.args)
    rw [if_pos h1, polyCheck_plain ho]
    have hs := polyCheck_sound args ps (explicitBound d.tps types) hl h1 _ (Bound.le_refl _)
    have hle := polyCheck_le args ps (explicitBound d.tps types)
    generalize (polyCheck args ps (explicitBound d.tps types)).2.2 = b at h2 hs hle ⊢
    have hdet : ∀ k ∈ r.vars, (b.get k).isSome := by
      intro k hk
      rcases hret hz k hk with h | ⟨h4, h5⟩
      · exact hs.2.1 k h
      · rcases htl with h | h
        · exact absurd h h4
        · have := (zip_dom h k).2 h5
          obtain ⟨v, hv⟩ := Option.isSome_iff_exists.1 this
          rw [hle k v hv]; rfl
    have houter : ∀ t : Ty, ∀ k ∈ t.outer, k ∈ t.vars := outer_vars
    have hun : r.unbound b = [] := by
      rw [unbound_plain b r hp, List.filter_eq_nil_iff]
      intro k hk
      have := hdet k (houter r k hk)
      cases hg : b.get k with
      | none => rw [hg] at this; cases this
      | some v => simp
    rw [if_neg (by simp [hun])]
    refine ⟨_, rfl, ?_⟩
    rw [Same, subst_canon]
    refine inst_congr b.fn σ r (fun k hk => ?_)
    obtain ⟨v, hv⟩ := Option.isSome_iff_exists.1 (hdet k hk)
    have := h2 k v hv
    simp only [Same, Bound.fn, hv, Option.getD_some]
    exact this

/-- The assignment is unique: the arguments determine every type parameter of the parameter list. -/
theorem C15_unique (d : FnData) (ps types as : List Ty) (σ τ : Nat → Ty)
    (h1 : Fits d ps types as σ) (h2 : Fits d ps types as τ) :
    ∀ k ∈ varsAll ps, Same (σ k) (τ k) :=
  instAll_inj σ τ ps (by unfold SameAll; rw [show canonAll _ = _ from h1.args, show canonAll _ = _ from h2.args])

/-- The `get` call above fits with `A := string`, `B := int`. -/
example : Fits { tps := [0, 1] } [.struct "map" [.param 0, .param 1], .param 0] []
    [.struct "map" [.prim .string, .prim .int], .prim .string]
    (fun k => if k = 0 then .prim .string else .prim .int) :=
  ⟨rfl, .inl rfl, by simp⟩

/-! ### C16 Overload resolution picks the first declared match -/

def isOk {α : Type} (r : Except CallErr Ty × α) : Prop := ∃ t, r.1 = .ok t

/-- The full claim: the call resolves to the first overload that accepts the arguments, and fails
only if none does. -/
def C16_claim : Prop := ∀ (fs types : List Ty) (args : List Arg),
  match matchSymbol fs types args with
  | some (i, _) => ∃ f, fs[i]? = some f ∧ isOk (matchCall f types args) ∧
      ∀ j f', j < i → fs[j]? = some f' → ¬ isOk (matchCall f' types args)
  | none => ∀ f ∈ fs, ¬ isOk (matchCall f types args)

/-- The claim fails when an argument is itself overloaded: trying a candidate leaves the argument
resolved to a later overload. Here `run(h, "x")` with `run(fn(string) int, int)` and
`run(fn(int) int, string)`, and `h` declared for `int` and for `string`. -/
theorem C16_violated : ¬ C16_claim := by
  intro h
  let hi : Ty := .fn {} [.prim .int] (.prim .int)
  let hs : Ty := .fn {} [.prim .string] (.prim .int)
  let run1 : Ty := .fn {} [hs, .prim .int] (.prim .int)
  let run2 : Ty := .fn {} [hi, .prim .string] (.prim .int)
  have := h [run1, run2] [] [⟨hi, [hi, hs]⟩, ⟨.prim .string, []⟩]
  exact this run2 (by simp) ⟨.prim .int, rfl⟩

theorem matchCall_args {f : Ty} {types : List Ty} {args : List Arg}
    (ho : ∀ a ∈ args, a.overloaded = false) : (matchCall f types args).2 = args := by
  cases f with
  | fn d ps r =>
    simp only [matchCall]
    split
    · rfl
    · split
      · rfl
      · split
        · split <;> exact argCheck_plain ho ps
        · split
          · split <;> exact polyCheck_plain ho ps _
          · exact polyCheck_plain ho ps _
  | _ => rfl

/-- The claim holds for all calls whose arguments are not overloaded names. Missing: calls with
overloaded arguments, for which the claim is false. -/
theorem C16_first_partial (fs types : List Ty) (args : List Arg)
    (ho : ∀ a ∈ args, a.overloaded = false) :
    match matchSymbol fs types args with
    | some (i, _) => ∃ f, fs[i]? = some f ∧ isOk (matchCall f types args) ∧
        ∀ j f', j < i → fs[j]? = some f' → ¬ isOk (matchCall f' types args)
    | none => ∀ f ∈ fs, ¬ isOk (matchCall f types args) := by
  induction fs with
  | nil => simp [matchSymbol]
  | cons f fs ih =>
    simp only [matchSymbol]
    split
    · rename_i i ret he
      split at he
      · rename_i args' hm
        cases he
        exact ⟨f, rfl, ⟨ret, by rw [hm]⟩, fun j _ hj => by omega⟩
      · rename_i e args' hm
        have ha : args' = args := by
          have := matchCall_args (f := f) (types := types) ho; rw [hm] at this; exact this
        subst ha
        cases hs : matchSymbol fs types args' with
        | none => rw [hs] at he; cases he
        | some r =>
          rw [hs] at he ih
          simp only [Option.map_some, Option.some.injEq, Prod.mk.injEq] at he
          obtain ⟨rfl, _⟩ := he
          obtain ⟨f', h1, h2, h3⟩ := ih
          refine ⟨f', by simpa using h1, h2, ?_⟩
          intro j g hj hg
          cases j with
          | zero =>
            simp only [List.getElem?_cons_zero, Option.some.injEq] at hg
            subst hg
            rintro ⟨t, ht⟩
            rw [hm] at ht; cases ht
          | succ j => exact h3 j g (by omega) (by simpa using hg)
    · rename_i he
      split at he
      · cases he
      · rename_i e args' hm
        have ha : args' = args := by
          have := matchCall_args (f := f) (types := types) ho; rw [hm] at this; exact this
        subst ha
        cases hs : matchSymbol fs types args' with
        | some r => rw [hs] at he; cases he
        | none =>
          rw [hs] at ih
          intro g hg
          rcases List.mem_cons.1 hg with rfl | hg
          · rintro ⟨t, ht⟩
            rw [hm] at ht; cases ht
          · exact ih g hg

/-- Adding overloads after the existing ones never changes a resolved call (with or without
overloaded arguments). -/
theorem C16_stable (fs gs types : List Ty) (args : List Arg) (r : Nat × Ty)
    (h : matchSymbol fs types args = some r) : matchSymbol (fs ++ gs) types args = some r := by
  induction fs generalizing args r with
  | nil => simp [matchSymbol] at h
  | cons f fs ih =>
    simp only [List.cons_append, matchSymbol] at h ⊢
    split
    · rename_i hm; rw [hm] at h; exact h
    · rename_i e args' hm
      rw [hm] at h
      simp only at h ⊢
      cases hs : matchSymbol fs types args' with
      | none => rw [hs] at h; cases h
      | some r' => rw [hs] at h; rw [ih args' r' hs]; exact h

/-- What "accepts" means for arguments that are not overloaded, without the matching algorithm. -/
theorem C16_accepts (d : FnData) (ps : List Ty) (r : Ty) (types : List Ty) (args : List Arg)
    (ho : ∀ a ∈ args, a.overloaded = false) (hn : d.tps.Nodup)
    (hret : r.plain ∧ (d.tps ≠ [] → ∀ k ∈ r.vars, Determined d ps types k)) :
    isOk (matchCall (.fn d ps r) types args) ↔ ∃ σ, Fits d ps types (argTypes args) σ := by
  constructor
  · rintro ⟨t, ht⟩
    have hm : matchCall (.fn d ps r) types args = (.ok t, args) :=
      Prod.ext ht (matchCall_args ho)
    obtain ⟨d', ps', r', σ, h1, h2, _⟩ := C14_sound _ _ _ _ _ (by intro d ps r h; cases h; exact hn) hm
    cases h1
    exact ⟨σ, h2⟩
  · rintro ⟨σ, h⟩
    obtain ⟨t, h1, _⟩ := C15_complete d ps r types args ho hn hret.1 σ h hret.2
    exact ⟨t, by rw [h1]⟩

/-- Second overload chosen because the first does not accept a `string`. -/
example : matchSymbol [.fn {} [.prim .int] (.prim .int), .fn {} [.prim .string] (.prim .bool)] []
    [⟨.prim .string, []⟩] = some (1, .prim .bool) := rfl

/-! ### C17 Passing an overloaded function as an argument -/

/-- The full claim: the call is accepted if some choice of overloads fits. -/
def C17_claim : Prop := ∀ (d : FnData) (ps : List Ty) (r : Ty) (types : List Ty) (args : List Arg)
  (as : List Ty) (σ : Nat → Ty), d.tps.Nodup → r.plain → (∀ k ∈ r.vars, Determined d ps types k) →
  All₂ (fun (a : Arg) t => t ∈ a.options) args as → Fits d ps types as σ →
  isOk (matchCall (.fn d ps r) types args)

/-- The claim fails: a rejected overload leaves its bindings behind. Here `apply«A»(fn(A, int) int)`
called with `h`, declared as `h(string, string) int` and as `h(bool, int) int`. -/
theorem C17_violated : ¬ C17_claim := by
  intro h
  let h1 : Ty := .fn {} [.prim .string, .prim .string] (.prim .int)
  let h2 : Ty := .fn {} [.prim .bool, .prim .int] (.prim .int)
  obtain ⟨t, ht⟩ := h { tps := [0] } [.fn {} [.param 0, .prim .int] (.prim .int)] (.prim .int) []
    [⟨h1, [h1, h2]⟩] [h2] (fun _ => .prim .bool) (by simp) trivial (by simp [Ty.vars])
    (.cons (by simp [Arg.options, Arg.overloaded]) .nil) ⟨rfl, .inl rfl, by simp⟩
  have he : (matchCall (.fn { tps := [0] } [.fn {} [.param 0, .prim .int] (.prim .int)] (.prim .int)) []
    [⟨h1, [h1, h2]⟩]).1 = .error .mismatch := rfl
  rw [he] at ht
  cases ht

/-- For a callee without type parameters the claim holds exactly. Missing: generic callees. -/
theorem C17_mono_partial (d : FnData) (ps : List Ty) (r : Ty) (args : List Arg)
    (hd : d.tps = []) :
    isOk (matchCall (.fn d ps r) [] args) ↔
      All₂ (fun (a : Arg) p => ∃ t ∈ a.options, Same t p) args ps := by
  simp only [matchCall, isOk]
  by_cases hl : args.length = ps.length
  · rw [if_neg (by simp [hl]), if_neg (by simp), if_pos (by simp [hd]), ← argCheck_iff args ps hl]
    constructor
    · rintro ⟨t, ht⟩
      split at ht
      · assumption
      · cases ht
    · intro h
      rw [if_pos h]
      exact ⟨r, rfl⟩
  · rw [if_pos (by simpa using hl)]
    constructor
    · rintro ⟨t, ht⟩; cases ht
    · intro h; exact absurd h.length hl

/-- For a generic callee the call is accepted when the first overload of each name fits. Missing:
fitting choices other than the first overloads. -/
theorem C17_generic_partial (d : FnData) (ps : List Ty) (r : Ty) (types : List Ty) (args : List Arg)
    (hz : d.tps ≠ []) (hn : d.tps.Nodup) (hp : r.plain) (hret : ∀ k ∈ r.vars, Determined d ps types k)
    (σ : Nat → Ty) (hfit : Fits d ps types (args.map (fun a => a.options.headD a.typ)) σ) :
    isOk (matchCall (.fn d ps r) types args) := by
  have hl : args.length = ps.length := by
    have h1 := congrArg List.length (show canonAll _ = _ from hfit.args)
    rw [canonAll_length, canonAll_length, instAll_length] at h1
    simpa using h1.symm
  have htl : types = [] ∨ types.length = d.tps.length := by
    rcases hfit.explicit with h | h
    · exact .inl h
    · right
      have h1 := congrArg List.length (show canonAll _ = _ from h)
      rw [canonAll_length, canonAll_length] at h1
      simpa using h1.symm
  unfold isOk
  simp only [matchCall]
  rw [if_neg (by simp [hl]), if_neg (by
    rintro ⟨h1, h2⟩
    rcases htl with h | h
    · simp [h] at h1
    · exact h2 h), if_neg (by simpa using hz)]
  have hag : Bound.agrees (explicitBound d.tps types) σ := by
    rcases hfit.explicit with h | h
    · subst h; intro k v hv; simp [explicitBound, Bound.get] at hv
    · rcases htl with h' | h'
      · subst h'; intro k v hv; simp [explicitBound, Bound.get] at hv
      · exact zip_get hn h' σ h
  obtain ⟨h1, h2, _⟩ := polyCheck_complete args ps (explicitBound d.tps types) σ hl hag hfit.args
  rw [if_pos h1]
  have hs := polyCheck_sound args ps (explicitBound d.tps types) hl h1 _ (Bound.le_refl _)
  have hle := polyCheck_le args ps (explicitBound d.tps types)
  generalize (polyCheck args ps (explicitBound d.tps types)).2.2 = b at h2 hs hle ⊢
  have hun : r.unbound b = [] := by
    rw [unbound_plain b r hp, List.filter_eq_nil_iff]
    intro k hk
    have : (b.get k).isSome := by
      rcases hret k (outer_vars r k hk) with h | ⟨h4, h5⟩
      · exact hs.2.1 k h
      · rcases htl with h | h
        · exact absurd h h4
        · obtain ⟨v, hv⟩ := Option.isSome_iff_exists.1 ((zip_dom h k).2 h5)
          rw [hle k v hv]; rfl
    cases hg : b.get k with
    | none => rw [hg] at this; cases this
    | some v => simp
  rw [if_neg (by simp [hun])]
  exact ⟨_, rfl⟩

/-! ### C18 No type parameter of the callee escapes -/

/-- The full claim: the result type mentions only type parameters the caller supplied. -/
def C18_claim : Prop := ∀ (d : FnData) (ps : List Ty) (r : Ty) (types : List Ty) (args : List Arg)
  (ret : Ty), d.tps ≠ [] → (matchCall (.fn d ps r) types args).1 = .ok ret →
  ∀ k ∈ ret.vars, k ∈ varsAll (supplied args) ∨ k ∈ varsAll types

/-- The claim fails for function types: `fn mk«T»() fn(T) int` can be called without `T` being
known, and `mk()` has type `fn(T) int`. -/
theorem C18_violated : ¬ C18_claim := by
  intro h
  have := h { tps := [0] } [] (.fn {} [.param 0] (.prim .int)) [] []
    (.fn {} [.param 0] (.prim .int)) (by simp) rfl 0 (by simp [Ty.vars, varsAll])
  simp [supplied, varsAll] at this

/-- The claim holds when the declared result type does not contain a function type. Missing: result
types that contain function types. -/
theorem C18_no_escape_partial (d : FnData) (ps : List Ty) (r : Ty) (types : List Ty) (args : List Arg)
    (ret : Ty) (hz : d.tps ≠ []) (hr : r.plain) (hfn : r.vars = r.outer)
    (h : (matchCall (.fn d ps r) types args).1 = .ok ret) :
    ∀ k ∈ ret.vars, k ∈ varsAll (supplied args) ∨ k ∈ varsAll types := by
  simp only [matchCall] at h
  split at h
  · cases h
  · split at h
    · cases h
    · split at h
      · rename_i h0; exact absurd (List.length_eq_zero_iff.1 h0) hz
      · split at h
        · split at h
          · cases h
          · rename_i hun
            simp only [Except.ok.injEq] at h
            subst h
            intro k hk
            have hnew := @polyCheck_new args ps (explicitBound d.tps types)
            generalize (polyCheck args ps (explicitBound d.tps types)).2.2 = b at hun hk hnew
            rw [← canon_vars, subst_canon, canon_vars] at hk
            obtain ⟨i, hi, hj⟩ := inst_vars b.fn r k hk
            have hsome : (b.get i).isSome := by
              have : r.unbound b = [] := by
                apply List.length_eq_zero_iff.1; omega
              rw [unbound_plain b r hr, List.filter_eq_nil_iff] at this
              have := this i (hfn ▸ hi)
              cases hg : b.get i with
              | none => simp [hg] at this
              | some v => rfl
            obtain ⟨v, hv⟩ := Option.isSome_iff_exists.1 hsome
            simp only [Bound.fn, hv, Option.getD_some] at hj
            rcases hnew hv with h | ⟨_, h⟩
            · right
              exact mem_varsAll (zip_mem h).1 hj
            · exact .inl (h k hj)
        · cases h

/-- `fn first«T»(xs: []T) T` applied to `[]string`: nothing escapes. -/
example : (matchCall (.fn { tps := [0] } [.array (.param 0)] (.param 0)) [] [⟨.array (.prim .string), []⟩]).1
    = .ok (.prim .string) := rfl
/-- `fn none«T»() option«T»` without type argument is rejected. -/
example : (matchCall (.fn { tps := [0] } [] (.enum "option" [.param 0])) [] []).1
    = .error .unknownTypeParameter := rfl

end Clara.Props
