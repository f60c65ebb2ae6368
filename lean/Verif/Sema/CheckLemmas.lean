import Verif.Sema.Typing
set_option linter.unusedVariables false
set_option linter.unusedSimpArgs false
/-
Lemmas about the parts of the type checker that do not recurse into expressions: scopes, written types,
signatures of function literals, matching of calls, variables of cases.
-/
namespace Clara.Sema.Chk
open Clara.Types
open Clara.Props (Fits)

theorem nodup_rev {α : Type} {l : List α} : l.reverse.Nodup ↔ l.Nodup := l.reverse_perm.nodup_iff

/-! ### Scopes -/

theorem finds_iff {Γ : Env} {x : String} {s : Sym} : lookup Γ x = some s ↔ Finds Γ x s := by
  induction Γ with
  | nil => simp only [lookup, reduceCtorEq, false_iff]; intro h; cases h
  | cons sc Γ ih =>
    simp only [lookup]
    cases h : sc.lookup x with
    | some s' =>
      simp only [Option.some.injEq]
      constructor
      · rintro rfl; exact .here h
      · intro hf
        cases hf with
        | here h' => rw [h] at h'; cases h'; rfl
        | outer h' _ => rw [h] at h'; cases h'
    | none =>
      simp only
      rw [ih]
      constructor
      · exact .outer h
      · intro hf
        cases hf with
        | here h' => rw [h] at h'; cases h'
        | outer _ h' => exact h'

theorem findsType_of {Γ : Env} {x : String} {s : Alt} (h : lookupType Γ x = some s) : FindsType Γ x s := by
  induction Γ with
  | nil => cases h
  | cons sc Γ ih =>
    simp only [lookupType] at h
    split at h
    · rename_i s' r hl
      split at h
      · rename_i ht
        cases h
        exact .here hl ht
      · rename_i ht
        refine .outer ?_ (ih h)
        intro a r' hr
        rw [hl] at hr
        cases hr
        simpa using ht
    · rename_i hl
      refine .outer ?_ (ih h)
      intro a r hr
      exact absurd hr (hl a r)

/-- All symbols have types. -/
def Good (Γ : Env) : Prop := ∀ sc ∈ Γ, ∀ x s, sc.lookup x = some s → s ≠ [] ∧ ∀ a ∈ s, ∃ t, a.ty = some t

theorem good_cons {sc : Scope} {Γ : Env} (h : ∀ x s, sc.lookup x = some s → s ≠ [] ∧ ∀ a ∈ s, ∃ t, a.ty = some t)
    (hg : Good Γ) : Good (sc :: Γ) := by
  intro sc' hs
  rcases List.mem_cons.1 hs with rfl | hs
  · exact h
  · exact hg sc' hs

theorem good_finds {Γ : Env} (hg : Good Γ) {x : String} {s : Sym} (h : Finds Γ x s) : s ≠ [] ∧ ∀ a ∈ s, ∃ t, a.ty = some t := by
  induction h with
  | here h => exact hg _ (by simp) _ _ h
  | outer _ _ ih => exact ih (fun sc hs => hg sc (by simp [hs]))

theorem good_type {Γ : Env} (hg : Good Γ) {x : String} {s : Alt} (h : FindsType Γ x s) : ∃ t, s.ty = some t := by
  induction h with
  | here h _ => exact (hg _ (by simp) _ _ h).2 _ (by simp)
  | outer _ _ ih => exact ih (fun sc hs => hg sc (by simp [hs]))

theorem lookup_mem {α : Type} {sc : List (String × α)} {x : String} {s : α} (h : sc.lookup x = some s) : (x, s) ∈ sc := by
  induction sc with
  | nil => cases h
  | cons e sc ih =>
    obtain ⟨y, t⟩ := e
    rw [List.lookup_cons] at h
    split at h
    · rename_i he
      have : x = y := by simpa using he
      cases h; subst this; simp
    · exact List.mem_cons_of_mem _ (ih h)

theorem good_scope {sc : Scope} {Γ : Env} (h : ∀ e ∈ sc, ∃ a t, e.2 = [a] ∧ a.ty = some t) (hg : Good Γ) : Good (sc :: Γ) := by
  refine good_cons ?_ hg
  intro x s hs
  obtain ⟨a, t, h1, h2⟩ := h _ (lookup_mem hs)
  simp only at h1
  subst h1
  exact ⟨by simp, fun b hb => ⟨t, by simp at hb; rw [hb]; exact h2⟩⟩

/-- The environment with one more symbol. -/
def push (x : String) (s : Sym) : Env → Env
  | [] => [[(x, s)]]
  | sc :: Γ => ((x, s) :: sc) :: Γ

theorem define_some {Γ Γ' : Env} {x : String} {s : Sym} (h : define Γ x s = some Γ') : (Fresh Γ x) ∧ Γ' = push x s Γ := by
  cases Γ with
  | nil =>
    simp only [define, Option.some.injEq] at h
    exact ⟨fun _ _ h => (by cases h), h.symm⟩
  | cons sc Γ =>
    simp only [define] at h
    split at h
    · cases h
    · rename_i hl
      simp only [Option.some.injEq] at h
      exact ⟨fun _ _ h => by cases h; exact hl, h.symm⟩

theorem good_define {Γ Γ' : Env} {x : String} {a : Alt} {t : Ty} (h : define Γ x [a] = some Γ') (ha : a.ty = some t)
    (hg : Good Γ) : Good Γ' := by
  obtain ⟨_, rfl⟩ := define_some h
  have one : ([a] : Sym) ≠ [] ∧ ∀ b ∈ ([a] : Sym), ∃ t, b.ty = some t := ⟨by simp, fun b hb => ⟨t, by simp at hb; rw [hb]; exact ha⟩⟩
  cases Γ with
  | nil =>
    refine good_cons ?_ hg
    intro y s h'
    have := lookup_mem h'
    simp at this
    rw [this.2]
    exact one
  | cons sc Γ =>
    refine good_cons ?_ (fun sc' hs => hg sc' (by simp [hs]))
    intro y s h'
    rw [List.lookup_cons] at h'
    split at h'
    · cases h'
      exact one
    · exact hg sc (by simp) y s h'

/-! ### Written types -/

theorem allSome_length : ∀ {os : List (Option Ty)} {ts : List Ty}, allSome os = some ts → ts.length = os.length
  | [], ts, h => by simp only [allSome, Option.some.injEq] at h; subst h; rfl
  | none :: os, ts, h => by simp [allSome] at h
  | some t :: os, ts, h => by
    simp only [allSome, Option.map_eq_some_iff] at h
    obtain ⟨us, hu, rfl⟩ := h
    simp [allSome_length hu]

theorem allSome_map {os : List (Option Ty)} {ts : List Ty} (h : allSome os = some ts) : os = ts.map some := by
  induction os generalizing ts with
  | nil => simp only [allSome, Option.some.injEq] at h; subst h; rfl
  | cons o os ih =>
    cases o with
    | none => simp [allSome] at h
    | some t =>
      simp only [allSome, Option.map_eq_some_iff] at h
      obtain ⟨us, hu, rfl⟩ := h
      simp [ih hu]

theorem instArgs_ok {mk : List Ty → Ty} {n : Nat} {r : List (Option Ty) × List Err} {o : Option Ty}
    (h : instArgs mk n r = (o, [])) : n ≠ 0 ∧ n = r.1.length ∧ r.2 = [] ∧ o = (allSome r.1).map mk := by
  unfold instArgs at h
  split at h
  · simp at h
  · split at h
    · simp at h
    · split at h
      · simp only [Prod.mk.injEq] at h
        rename_i hne
        exact absurd h.2 hne
      · rename_i h1 h2 h3
        simp only [Prod.mk.injEq] at h
        refine ⟨h1, ?_, h.2, h.1.symm⟩
        simpa using h2

mutual
theorem instTy_means (Γ : Env) : ∀ (t : TyN) (es : List Err) (o : Option Ty), instTy Γ es t = (o, []) →
    es = [] ∧ ∀ u, o = some u → t.Means Γ u
  | .named x g args, es, o, h => by
    simp only [instTy] at h
    split at h
    · simp at h
    · rename_i s hs
      cases g with
      | false =>
        simp only [Bool.not_false, if_true, Prod.mk.injEq] at h
        refine ⟨h.2, fun u hu => ?_⟩
        simp only [TyN.Means]
        exact ⟨s, findsType_of hs, by rw [h.1, hu]⟩
      | true =>
        simp only [Bool.not_true, Bool.false_eq_true, if_false] at h
        split at h
        · rename_i n ps hty
          obtain ⟨h1, h2, h3, h4⟩ := instArgs_ok h
          obtain ⟨h5, h6⟩ := instTys_means Γ args es _ _ rfl h3
          refine ⟨h5, fun u hu => ?_⟩
          rw [hu] at h4
          obtain ⟨ts, hts, rfl⟩ := Option.map_eq_some_iff.mp h4.symm
          simp only [TyN.Means]
          refine ⟨s, n, ps, ts, findsType_of hs, h6 ts hts, ?_, ?_, .inl ⟨hty, rfl⟩⟩
          · rw [allSome_length hts, h2]
          · intro h0; simp [h0] at h1
        · rename_i n ps hty
          obtain ⟨h1, h2, h3, h4⟩ := instArgs_ok h
          obtain ⟨h5, h6⟩ := instTys_means Γ args es _ _ rfl h3
          refine ⟨h5, fun u hu => ?_⟩
          rw [hu] at h4
          obtain ⟨ts, hts, rfl⟩ := Option.map_eq_some_iff.mp h4.symm
          simp only [TyN.Means]
          refine ⟨s, n, ps, ts, findsType_of hs, h6 ts hts, ?_, ?_, .inr ⟨hty, rfl⟩⟩
          · rw [allSome_length hts, h2]
          · intro h0; simp [h0] at h1
        · simp at h
  | .array t, es, o, h => by
    simp only [instTy] at h
    split at h
    · rename_i hne
      simp only [Prod.mk.injEq] at h
      exact absurd h.2 hne
    · simp only [Prod.mk.injEq] at h
      obtain ⟨h5, h6⟩ := instTy_means Γ t es _ (Prod.ext rfl h.2)
      refine ⟨h5, fun u hu => ?_⟩
      rw [hu] at h
      obtain ⟨v, hv, rfl⟩ := Option.map_eq_some_iff.mp h.1
      simp only [TyN.Means]
      exact ⟨v, rfl, h6 v hv⟩
  | .func ps, es, o, h => by
    simp only [instTy] at h
    split at h
    · rename_i hne
      simp only [Prod.mk.injEq] at h
      exact absurd h.2 hne
    · simp only [Prod.mk.injEq] at h
      obtain ⟨h5, h6⟩ := instTys_means Γ ps es _ _ rfl h.2
      refine ⟨h5, fun u hu => ?_⟩
      rw [hu] at h
      obtain ⟨v, hv, rfl⟩ := Option.map_eq_some_iff.mp h.1
      simp only [TyN.Means]
      exact ⟨v, rfl, h6 v hv⟩
  | .funcR ps t, es, o, h => by
    simp only [instTy] at h
    split at h
    · rename_i hne
      simp only [Prod.mk.injEq] at h
      exact absurd h.2 hne
    · simp only [Prod.mk.injEq] at h
      obtain ⟨h1, h2⟩ := h
      obtain ⟨h3, h4⟩ := instTy_means Γ t _ _ (Prod.ext rfl h2)
      obtain ⟨h5, h6⟩ := instTys_means Γ ps es _ _ rfl h3
      refine ⟨h5, fun u hu => ?_⟩
      rw [hu] at h1
      split at h1
      · rename_i ts v hts hv
        cases h1
        simp only [TyN.Means]
        exact ⟨ts, v, rfl, h6 ts hts, h4 v hv⟩
      · cases h1
theorem instTys_means (Γ : Env) : ∀ (ts : List TyN) (es : List Err) (os : List (Option Ty)) (es' : List Err),
    instTys Γ es ts = (os, es') → es' = [] → es = [] ∧ ∀ us, allSome os = some us → MeansAll Γ ts us
  | [], es, os, es', h, he => by
    simp only [instTys, Prod.mk.injEq] at h
    obtain ⟨rfl, rfl⟩ := h
    refine ⟨he, fun us hu => ?_⟩
    simp only [allSome, Option.some.injEq] at hu
    simp [MeansAll, hu]
  | t :: ts, es, os, es', h, he => by
    simp only [instTys, Prod.mk.injEq] at h
    obtain ⟨rfl, rfl⟩ := h
    obtain ⟨h1, h2⟩ := instTys_means Γ ts _ _ _ rfl he
    obtain ⟨h3, h4⟩ := instTy_means Γ t es _ (Prod.ext rfl h1)
    refine ⟨h3, fun us hu => ?_⟩
    cases ho : (instTy Γ es t).1 with
    | none => rw [ho] at hu; simp [allSome] at hu
    | some u =>
      rw [ho] at hu
      simp only [allSome, Option.map_eq_some_iff] at hu
      obtain ⟨vs, hv, rfl⟩ := hu
      simp only [MeansAll]
      exact ⟨u, vs, rfl, h4 u ho, h2 vs hv⟩
end

/-- A written type that has a type is free of errors. -/
theorem instTy_some (Γ : Env) (t : TyN) (u : Ty) (es : List Err) (h : instTy Γ [] t = (some u, es)) : es = [] := by
  cases t with
  | named x g args =>
    simp only [instTy] at h
    split at h
    · simp at h
    · split at h
      · simp at h; exact h.2
      · split at h
        all_goals first
          | (unfold instArgs at h
             split at h
             · simp at h
             · split at h
               · simp at h
               · split at h
                 · simp at h
                 · rename_i hne
                   simp only [Prod.mk.injEq] at h
                   rw [← h.2]; simpa using hne)
          | (simp at h)
  | array t =>
    simp only [instTy] at h
    split at h
    · simp at h
    · rename_i hne
      simp only [Prod.mk.injEq] at h
      rw [← h.2]; simpa using hne
  | func ps =>
    simp only [instTy] at h
    split at h
    · simp at h
    · rename_i hne
      simp only [Prod.mk.injEq] at h
      rw [← h.2]; simpa using hne
  | funcR ps t =>
    simp only [instTy] at h
    split at h
    · simp at h
    · rename_i hne
      simp only [Prod.mk.injEq] at h
      rw [← h.2]; simpa using hne

theorem instArgs_total {mk : List Ty → Ty} {n : Nat} {r : List (Option Ty) × List Err} {o : Option Ty} {us : List Ty}
    (h : instArgs mk n r = (o, [])) (hu : allSome r.1 = some us) : o ≠ none := by
  have := (instArgs_ok h).2.2.2
  rw [hu] at this
  simp [this]

mutual
/-- A written type without errors has a type. -/
theorem instTy_total {Γ : Env} (hg : Good Γ) : ∀ (t : TyN) (es : List Err) (o : Option Ty), instTy Γ es t = (o, []) → o ≠ none
  | .named x g args, es, o, h => by
    simp only [instTy] at h
    split at h
    · simp at h
    · rename_i s hs
      obtain ⟨t, ht⟩ := good_type hg (findsType_of hs)
      cases g with
      | false =>
        simp only [Bool.not_false, if_true, Prod.mk.injEq] at h
        rw [← h.1, ht]; simp
      | true =>
        simp only [Bool.not_true, Bool.false_eq_true, if_false] at h
        split at h
        · obtain ⟨us, hu⟩ := instTys_total hg args es _ _ rfl (instArgs_ok h).2.2.1
          exact instArgs_total h hu
        · obtain ⟨us, hu⟩ := instTys_total hg args es _ _ rfl (instArgs_ok h).2.2.1
          exact instArgs_total h hu
        · simp at h
  | .array t, es, o, h => by
    simp only [instTy] at h
    split at h
    · rename_i hne
      simp only [Prod.mk.injEq] at h
      exact absurd h.2 hne
    · simp only [Prod.mk.injEq] at h
      have := instTy_total hg t es _ (Prod.ext rfl h.2)
      rw [← h.1]
      simpa using this
  | .func ps, es, o, h => by
    simp only [instTy] at h
    split at h
    · rename_i hne
      simp only [Prod.mk.injEq] at h
      exact absurd h.2 hne
    · simp only [Prod.mk.injEq] at h
      obtain ⟨us, hu⟩ := instTys_total hg ps es _ _ rfl h.2
      rw [← h.1, hu]
      simp
  | .funcR ps t, es, o, h => by
    simp only [instTy] at h
    split at h
    · rename_i hne
      simp only [Prod.mk.injEq] at h
      exact absurd h.2 hne
    · simp only [Prod.mk.injEq] at h
      obtain ⟨h1, h2⟩ := h
      have h3 := instTy_total hg t _ _ (Prod.ext rfl h2)
      have h4 := (instTy_means Γ t _ _ (Prod.ext rfl h2)).1
      obtain ⟨us, hu⟩ := instTys_total hg ps es _ _ rfl h4
      rw [← h1, hu]
      cases ho : (instTy Γ (instTys Γ es ps).2 t).1 with
      | none => exact absurd ho h3
      | some u => simp
theorem instTys_total {Γ : Env} (hg : Good Γ) : ∀ (ts : List TyN) (es : List Err) (os : List (Option Ty)) (es' : List Err),
    instTys Γ es ts = (os, es') → es' = [] → ∃ us, allSome os = some us
  | [], es, os, es', h, he => by
    simp only [instTys, Prod.mk.injEq] at h
    rw [← h.1]
    exact ⟨[], rfl⟩
  | t :: ts, es, os, es', h, he => by
    simp only [instTys, Prod.mk.injEq] at h
    obtain ⟨rfl, rfl⟩ := h
    obtain ⟨us, hu⟩ := instTys_total hg ts _ _ _ rfl he
    have h1 := (instTys_means Γ ts _ _ _ rfl he).1
    have h2 := instTy_total hg t es _ (Prod.ext rfl h1)
    cases ho : (instTy Γ es t).1 with
    | none => exact absurd ho h2
    | some u => exact ⟨u :: us, by simp [allSome, hu]⟩
end

theorem typeArgs_means {Γ : Env} : ∀ {ts : List TyN} {tys : List Ty}, typeArgs Γ ts = .ok tys → MeansAll Γ ts tys
  | [], tys, h => by
    simp only [typeArgs, Except.ok.injEq] at h
    subst h
    simp [MeansAll]
  | t :: ts, tys, h => by
    simp only [typeArgs] at h
    split at h
    · rename_i u hu
      cases hr : typeArgs Γ ts with
      | error e => rw [hr] at h; cases h
      | ok us =>
        rw [hr] at h
        cases h
        simp only [MeansAll]
        exact ⟨u, us, rfl, (instTy_means Γ t _ _ hu).2 u rfl, typeArgs_means hr⟩
    · cases h

mutual
theorem means_mono {Γ Γ' : Env} (hf : ∀ x s, FindsType Γ x s → FindsType Γ' x s) : ∀ (t : TyN) (u : Ty),
    t.Means Γ u → t.Means Γ' u
  | .named x g args, u, h => by
    cases g with
    | false =>
      simp only [TyN.Means] at h ⊢
      obtain ⟨s, h1, h2⟩ := h
      exact ⟨s, hf x s h1, h2⟩
    | true =>
      simp only [TyN.Means] at h ⊢
      obtain ⟨s, n, ps, ts, h1, h2, h3⟩ := h
      exact ⟨s, n, ps, ts, hf x s h1, meansAll_mono hf args ts h2, h3⟩
  | .array t, u, h => by
    simp only [TyN.Means] at h ⊢
    obtain ⟨v, h1, h2⟩ := h
    exact ⟨v, h1, means_mono hf t v h2⟩
  | .func ps, u, h => by
    simp only [TyN.Means] at h ⊢
    obtain ⟨v, h1, h2⟩ := h
    exact ⟨v, h1, meansAll_mono hf ps v h2⟩
  | .funcR ps t, u, h => by
    simp only [TyN.Means] at h ⊢
    obtain ⟨v, w, h1, h2, h3⟩ := h
    exact ⟨v, w, h1, meansAll_mono hf ps v h2, means_mono hf t w h3⟩
theorem meansAll_mono {Γ Γ' : Env} (hf : ∀ x s, FindsType Γ x s → FindsType Γ' x s) : ∀ (ts : List TyN) (us : List Ty),
    MeansAll Γ ts us → MeansAll Γ' ts us
  | [], us, h => by simpa only [MeansAll] using h
  | t :: ts, us, h => by
    simp only [MeansAll] at h ⊢
    obtain ⟨v, vs, h1, h2, h3⟩ := h
    exact ⟨v, vs, h1, means_mono hf t v h2, meansAll_mono hf ts vs h3⟩
end

/-! ### Signatures -/

theorem lookup_none {α : Type} {sc : List (String × α)} {x : String} : sc.lookup x = none ↔ x ∉ sc.map (·.1) := by
  induction sc with
  | nil => simp
  | cons e sc ih =>
    obtain ⟨y, t⟩ := e
    rw [List.lookup_cons]
    by_cases h : x = y
    · subst h; simp
    · rw [beq_false_of_ne h]
      simp [ih, h]

theorem defTps_ok {sc : Scope} {Γ Γ' : Env} : ∀ {tps : List (String × Nat)} , defTps (sc :: Γ) tps = .ok Γ' →
    (sc.map (·.1)).Nodup → ∃ sc', Γ' = sc' :: Γ ∧ sc' = tps.reverse.map (fun p => (p.1, [tparamSym p.2])) ++ sc ∧ (sc'.map (·.1)).Nodup := by
  intro tps
  induction tps generalizing sc with
  | nil =>
    intro h hn
    simp only [defTps, Except.ok.injEq] at h
    exact ⟨sc, h.symm, rfl, hn⟩
  | cons p tps ih =>
    obtain ⟨x, k⟩ := p
    intro h hn
    simp only [defTps] at h
    split at h
    · cases h
    · rename_i Γ1 hd
      obtain ⟨hfr, rfl⟩ := define_some hd
      simp only [push] at h
      have hl := hfr sc Γ rfl
      obtain ⟨sc', h1, h2, h3⟩ := ih h (by
        simp only [List.map_cons, List.nodup_cons]
        exact ⟨lookup_none.1 hl, hn⟩)
      refine ⟨sc', h1, ?_, h3⟩
      rw [h2]
      simp

theorem defParams_ok {sc : Scope} {Γ Γ' : Env} : ∀ {ps : List (String × TyN)} , defParams (sc :: Γ) ps = .ok Γ' →
    (sc.map (·.1)).Nodup → ∃ sc', Γ' = sc' :: Γ ∧ sc' = ps.reverse.map (fun p => (p.1, [plainSym none])) ++ sc ∧ (sc'.map (·.1)).Nodup := by
  intro ps
  induction ps generalizing sc with
  | nil =>
    intro h hn
    simp only [defParams, Except.ok.injEq] at h
    exact ⟨sc, h.symm, rfl, hn⟩
  | cons p ps ih =>
    obtain ⟨x, t⟩ := p
    intro h hn
    simp only [defParams] at h
    split at h
    · cases h
    · split at h
      · cases h
      · rename_i Γ1 hd
        obtain ⟨hfr, rfl⟩ := define_some hd
        simp only [push] at h
        have hl := hfr sc Γ rfl
        obtain ⟨sc', h1, h2, h3⟩ := ih h (by
          simp only [List.map_cons, List.nodup_cons]
          exact ⟨lookup_none.1 hl, hn⟩)
        refine ⟨sc', h1, ?_, h3⟩
        rw [h2]
        simp

theorem ite_ite {p q : Bool} {e e' : Err} {Γ Γ' : Env} (h : (if p then .error e else if q then .error e' else .ok Γ' : Except Err Env) = .ok Γ) : Γ = Γ' := by
  cases p <;> cases q <;> simp_all

theorem sigScope_ok {Γ Γ' : Env} {h : Head} {b : Bool} (hs : sigScope Γ h b = .ok Γ') :
    ∃ sc, Γ' = sc :: Γ ∧ sc = h.params.reverse.map (fun p => (p.1, [plainSym none])) ++
      h.tps.reverse.map (fun p => (p.1, [tparamSym p.2])) ∧ (sc.map (·.1)).Nodup := by
  unfold sigScope at hs
  split at hs
  · cases hs
  · rename_i Γ1 h1
    obtain ⟨sc1, rfl, h2, h3⟩ := defTps_ok h1 (by simp)
    split at hs
    · cases hs
    · rename_i Γ2 h4
      obtain ⟨sc2, rfl, h5, h6⟩ := defParams_ok h4 h3
      have fin : Γ' = sc2 :: Γ := by
        exact ite_ite hs
      refine ⟨sc2, fin, ?_, h6⟩
      rw [h5, h2]
      simp

theorem setTypes_eq (sc : Scope) (ps : List (String × Ty)) (hn : (ps.map (·.1)).Nodup) :
    setTypes sc ps = sc.map (fun e => match ps.lookup e.1 with | some t => (e.1, [plainSym (some t)]) | none => e) := by
  induction ps generalizing sc with
  | nil => simp [setTypes]
  | cons p ps ih =>
    obtain ⟨x, t⟩ := p
    simp only [List.map_cons, List.nodup_cons] at hn
    simp only [setTypes]
    rw [ih _ hn.2, List.map_map]
    apply List.map_congr_left
    intro e _
    simp only [Function.comp]
    rw [List.lookup_cons]
    by_cases h : e.1 = x
    · rw [if_pos h]
      simp only [h, beq_self_eq_true]
      rw [lookup_none.2 hn.1]
    · rw [if_neg h, beq_false_of_ne h]

theorem lookup_zip {xs : List String} {ts : List Ty} (hl : ts.length = xs.length) (hn : xs.Nodup) :
    ∀ (i : Nat) (x : String) (t : Ty), xs[i]? = some x → ts[i]? = some t → (xs.zip ts).lookup x = some t := by
  induction xs generalizing ts with
  | nil => simp
  | cons y xs ih =>
    cases ts with
    | nil => simp at hl
    | cons u ts =>
      intro i x t hx ht
      simp only [List.nodup_cons] at hn
      rw [List.zip_cons_cons, List.lookup_cons]
      cases i with
      | zero =>
        simp at hx ht
        subst hx ht
        simp
      | succ i =>
        simp only [List.getElem?_cons_succ] at hx ht
        have : x ≠ y := by
          rintro rfl
          exact hn.1 (List.mem_of_getElem? hx)
        rw [beq_false_of_ne this]
        exact ih (by simpa using hl) hn.2 i x t hx ht

theorem litScope_eq {h : Head} {ts : List Ty} (hl : ts.length = h.params.length)
    (hn : ((h.params.reverse.map (fun p => (p.1, [plainSym none])) ++ h.tps.reverse.map (fun p => (p.1, [tparamSym p.2])) : Scope).map (·.1)).Nodup) :
    setTypes (h.params.reverse.map (fun p => (p.1, [plainSym none])) ++ h.tps.reverse.map (fun p => (p.1, [tparamSym p.2])))
      ((h.params.map (·.1)).zip ts) = litScope h ts := by
  have hnp : (h.params.map (·.1)).Nodup := by
    rw [List.map_append, List.nodup_append] at hn
    have := hn.1
    rw [List.map_map] at this
    simpa [Function.comp_def, List.map_reverse, nodup_rev] using this
  rw [setTypes_eq _ _ (by rw [List.map_fst_zip (by simp [hl])]; exact hnp)]
  unfold litScope
  rw [List.map_append]
  congr 1
  · rw [List.map_map, List.map_reverse, List.map_reverse]
    congr 1
    apply List.ext_getElem?
    intro i
    simp only [List.getElem?_map, List.getElem?_zip_eq_some]
    cases hp : h.params[i]? with
    | none =>
      simp only [Option.map_none]
      symm
      rw [Option.map_eq_none_iff, List.getElem?_eq_none_iff]
      have := List.getElem?_eq_none_iff.1 hp
      simp only [List.length_zip, List.length_map]
      omega
    | some p =>
      have hi := (List.getElem?_eq_some_iff.1 hp).1
      have ht : ts[i]? = some (ts[i]'(by omega)) := List.getElem?_eq_getElem (by omega)
      have hz : ((h.params.map (·.1)).zip ts)[i]? = some (p.1, ts[i]'(by omega)) := by
        rw [List.getElem?_zip_eq_some]
        exact ⟨by simp [hp], ht⟩
      rw [hz]
      simp only [Option.map_some, Function.comp]
      rw [lookup_zip (by simp [hl]) hnp i p.1 _ (by simp [hp]) ht]
  · rw [List.map_map]
    apply List.map_congr_left
    intro p hp
    simp only [Function.comp]
    have : (((h.params.map (·.1)).zip ts).lookup p.1) = none := by
      rw [lookup_none, List.map_fst_zip (by simp [hl])]
      rw [List.map_append, List.nodup_append] at hn
      intro hm
      refine hn.2.2 p.1 ?_ p.1 ?_ rfl
      · simpa [List.map_map, Function.comp_def] using hm
      · simp only [List.map_map, List.mem_map, Function.comp]
        exact ⟨p, hp, rfl⟩
    rw [this]

theorem litScope_good {h : Head} {ts : List Ty} {Γ : Env} (hg : Good Γ) : Good (litScope h ts :: Γ) := by
  refine good_scope ?_ hg
  intro e he
  unfold litScope at he
  rcases List.mem_append.1 he with h | h
  · obtain ⟨p, _, rfl⟩ := List.mem_map.1 h
    exact ⟨_, p.2, rfl, rfl⟩
  · obtain ⟨p, _, rfl⟩ := List.mem_map.1 h
    exact ⟨_, .param p.2, rfl, rfl⟩

theorem lookup_append {α : Type} (a b : List (String × α)) (x : String) : (a ++ b).lookup x = (a.lookup x).or (b.lookup x) := by
  induction a with
  | nil => simp
  | cons e a ih =>
    obtain ⟨y, t⟩ := e
    rw [List.cons_append, List.lookup_cons, List.lookup_cons]
    split
    · simp
    · exact ih

theorem litScope_types {h : Head} {ts : List Ty} {Γ : Env} (hl : ts.length = h.params.length) (x : String) (s : Alt)
    (hf : FindsType ((h.params.reverse.map (fun p => (p.1, [plainSym none])) ++ h.tps.reverse.map (fun p => (p.1, [tparamSym p.2]))) :: Γ) x s) :
    FindsType (litScope h ts :: Γ) x s := by
  unfold litScope
  have hkey : (h.params.reverse.map (fun p => (p.1, ([plainSym none] : Sym)))).lookup x = none ↔
      ((((h.params.map (·.1)).zip ts).reverse.map (fun p => (p.1, ([plainSym (some p.2)] : Sym)))).lookup x = none) := by
    rw [lookup_none, lookup_none]
    have : (((h.params.map (·.1)).zip ts).reverse.map (fun p => (p.1, ([plainSym (some p.2)] : Sym)))).map (·.1) =
        (h.params.reverse.map (fun p => (p.1, ([plainSym none] : Sym)))).map (·.1) := by
      rw [List.map_map, List.map_map, List.map_reverse, List.map_reverse]
      congr 1
      have := List.map_fst_zip (l₁ := h.params.map (·.1)) (l₂ := ts) (by simp [hl])
      simpa [Function.comp_def] using this
    rw [this]
  have hpar : ∀ a r, (h.params.reverse.map (fun p => (p.1, ([plainSym none] : Sym)))).lookup x = some (a :: r) → a.isType = false := by
    intro a r ha
    have := lookup_mem ha
    simp only [List.mem_map] at this
    obtain ⟨p, _, hp⟩ := this
    simp only [Prod.mk.injEq, List.cons.injEq] at hp
    rw [← hp.2.1]; rfl
  have hpar' : ∀ a r, (((h.params.map (·.1)).zip ts).reverse.map (fun p => (p.1, ([plainSym (some p.2)] : Sym)))).lookup x = some (a :: r) → a.isType = false := by
    intro a r ha
    have := lookup_mem ha
    simp only [List.mem_map] at this
    obtain ⟨p, _, hp⟩ := this
    simp only [Prod.mk.injEq, List.cons.injEq] at hp
    rw [← hp.2.1]; rfl
  have hsome : ∀ v, (((h.params.map (·.1)).zip ts).reverse.map (fun p => (p.1, ([plainSym (some p.2)] : Sym)))).lookup x = some v → ∃ a r, v = a :: r := by
    intro v hv
    have := lookup_mem hv
    simp only [List.mem_map] at this
    obtain ⟨p, _, hp⟩ := this
    simp only [Prod.mk.injEq] at hp
    exact ⟨_, _, hp.2.symm⟩
  have hsome0 : ∀ v, (h.params.reverse.map (fun p => (p.1, ([plainSym none] : Sym)))).lookup x = some v → ∃ a r, v = a :: r := by
    intro v hv
    have := lookup_mem hv
    simp only [List.mem_map] at this
    obtain ⟨p, _, hp⟩ := this
    simp only [Prod.mk.injEq] at hp
    exact ⟨_, _, hp.2.symm⟩
  cases hf with
  | here h1 h2 =>
    rw [lookup_append] at h1
    cases hp : (h.params.reverse.map (fun p => (p.1, ([plainSym none] : Sym)))).lookup x with
    | some v =>
      rw [hp] at h1
      simp only [Option.some_or, Option.some.injEq] at h1
      rw [h1] at hp
      rw [hpar _ _ hp] at h2
      cases h2
    | none =>
      rw [hp] at h1
      refine FindsType.here (by rw [lookup_append, hkey.1 hp]; exact h1) h2
  | outer h1 h2 =>
    refine .outer ?_ h2
    intro a r ha
    rw [lookup_append] at ha h1
    cases hp : (((h.params.map (·.1)).zip ts).reverse.map (fun p => (p.1, ([plainSym (some p.2)] : Sym)))).lookup x with
    | some v =>
      rw [hp] at ha
      simp only [Option.some_or, Option.some.injEq] at ha
      rw [ha] at hp
      exact hpar' _ _ hp
    | none =>
      rw [hp] at ha
      rw [hkey.2 hp] at h1
      exact h1 a r ha

theorem signature_ok {Γ : Env} {h : Head} {b : Bool} {i : FnInfo} (hs : signature Γ h b = .ok (.ok i)) :
    ∃ d ts r, i.ty = (d, ts, r) ∧ i.own = litScope h ts ∧ Signature Γ h d ts r := by
  unfold signature at hs
  split at hs
  · cases hs
  · cases hs
  · rename_i sc Γ' hsc
    obtain ⟨sc', he, hsc', hn⟩ := sigScope_ok hsc
    simp only [List.cons.injEq] at he
    obtain ⟨rfl, rfl⟩ := he
    simp only at hs
    split at hs
    · rename_i ts hts hes
      have hl : ts.length = h.params.length := by
        have h1 := allSome_length hts
        have h2 : ∀ (Γ : Env) (es : List Err) (l : List TyN), (instTys Γ es l).1.length = l.length := by
          intro Γ es l
          induction l generalizing es with
          | nil => rfl
          | cons t l ih => simp [instTys, ih]
        rw [h1, h2]; simp
      have hm := (instTys_means _ _ _ _ _ rfl hes).2 ts hts
      rw [hsc'] at hm hn
      have hm := meansAll_mono (litScope_types (Γ := Γ') hl) _ _ hm
      have hdist : (h.tps.map (·.1) ++ h.params.map (·.1)).Nodup := by
        rw [List.map_append, List.map_map, List.map_map, List.nodup_append] at hn
        have h1 : (h.params.map (·.1)).Nodup := by simpa [Function.comp_def, List.map_reverse, nodup_rev] using hn.1
        have h2 : (h.tps.map (·.1)).Nodup := by simpa [Function.comp_def, List.map_reverse, nodup_rev] using hn.2.1
        rw [List.nodup_append]
        refine ⟨h2, h1, ?_⟩
        intro a ha c hc hac
        subst hac
        refine hn.2.2 a ?_ a ?_ rfl
        · simpa [Function.comp_def] using hc
        · simpa [Function.comp_def] using ha
      split at hs
      · rename_i hr
        cases hs
        refine ⟨_, ts, _, rfl, ?_, ⟨rfl, hdist, hm, ?_⟩⟩
        · simp only
          rw [hsc']
          exact litScope_eq hl hn
        · rw [hr]
      · rename_i t hr
        split at hs
        · rename_i u hu
          cases hs
          refine ⟨_, ts, _, rfl, ?_, ⟨rfl, hdist, hm, ?_⟩⟩
          · simp only
            rw [hsc']
            exact litScope_eq hl hn
          · rw [hr]
            simp only
            rw [hsc'] at hu
            exact means_mono (litScope_types hl) _ _ ((instTy_means _ _ _ _ hu).2 u rfl)
        · cases hs
    · cases hs

/-! ### Matching -/

/-- What trying a call does to an argument: an overloaded name may be narrowed. -/
def Narrowed (a a' : Arg) : Prop := a' = a ∨ ∃ pre r, a.chain = pre ++ a'.chain ∧ a'.chain = a'.typ :: r

theorem Narrowed.trans {a b c : Arg} (h1 : Narrowed a b) (h2 : Narrowed b c) : Narrowed a c := by
  rcases h1 with rfl | ⟨p, r, h1, h1'⟩
  · exact h2
  · rcases h2 with rfl | ⟨q, r', h2, h2'⟩
    · exact .inr ⟨p, r, h1, h1'⟩
    · exact .inr ⟨p ++ q, r', by rw [h1, h2, List.append_assoc], h2'⟩

theorem all₂_refl {α : Type} {R : α → α → Prop} (h : ∀ a, R a a) : ∀ l : List α, All₂ R l l
  | [] => by constructor
  | a :: l => by
    constructor
    · exact h a
    · exact all₂_refl h l

theorem pick_narrow {p : Ty} {c : List Ty} {a : Arg} (h : pick p c = some a) : ∃ pre r, c = pre ++ a.chain ∧ a.chain = a.typ :: r := by
  induction c with
  | nil => simp [pick] at h
  | cons s c ih =>
    simp only [pick] at h
    split at h
    · cases h; exact ⟨[], c, rfl, rfl⟩
    · obtain ⟨pre, r, h1, h2⟩ := ih h
      exact ⟨s :: pre, r, by rw [h1]; rfl, h2⟩

theorem polyPick_narrow {p : Ty} {c : List Ty} {b : Bound} {a : Arg} (h : (polyPick p c b).1 = some a) :
    ∃ pre r, c = pre ++ a.chain ∧ a.chain = a.typ :: r := by
  induction c generalizing b with
  | nil => simp [polyPick] at h
  | cons s c ih =>
    simp only [polyPick] at h
    split at h
    · cases h; exact ⟨[], c, rfl, rfl⟩
    · obtain ⟨pre, r, h1, h2⟩ := ih h
      exact ⟨s :: pre, r, by rw [h1]; rfl, h2⟩

theorem argCheck_narrow : ∀ (as : List Arg) (ps : List Ty), All₂ Narrowed as (argCheck as ps).2
  | [], ps => by cases ps <;> exact .nil
  | a :: as, [] => by simp only [argCheck]; exact all₂_refl (fun _ => .inl rfl) _
  | a :: as, p :: ps => by
    simp only [argCheck]
    split
    · split
      · rename_i a' h
        exact .cons (.inr (pick_narrow h)) (argCheck_narrow as ps)
      · exact all₂_refl (fun _ => .inl rfl) _
    · split
      · exact .cons (.inl rfl) (argCheck_narrow as ps)
      · exact all₂_refl (fun _ => .inl rfl) _

theorem polyCheck_narrow : ∀ (as : List Arg) (ps : List Ty) (b : Bound), All₂ Narrowed as (polyCheck as ps b).2.1
  | [], ps, b => by cases ps <;> exact .nil
  | a :: as, [], b => by simp only [polyCheck]; exact all₂_refl (fun _ => .inl rfl) _
  | a :: as, p :: ps, b => by
    simp only [polyCheck]
    split
    · split
      · rename_i a' b' h
        exact .cons (.inr (polyPick_narrow (by rw [h]))) (polyCheck_narrow as ps b')
      · exact all₂_refl (fun _ => .inl rfl) _
    · split
      · exact .cons (.inl rfl) (polyCheck_narrow as ps _)
      · exact all₂_refl (fun _ => .inl rfl) _

theorem matchCall_narrow (f : Ty) (tys : List Ty) (as : List Arg) : All₂ Narrowed as (matchCall f tys as).2 := by
  unfold matchCall
  split
  · split
    · exact all₂_refl (fun _ => .inl rfl) _
    · split
      · exact all₂_refl (fun _ => .inl rfl) _
      · split
        · simp only; split <;> exact argCheck_narrow _ _
        · simp only
          split
          · split <;> exact polyCheck_narrow _ _ _
          · exact polyCheck_narrow _ _ _
  · exact all₂_refl (fun _ => .inl rfl) _

theorem all₂_trans {α : Type} {R : α → α → Prop} (h : ∀ a b c, R a b → R b c → R a c) : ∀ {l m n : List α},
    All₂ R l m → All₂ R m n → All₂ R l n
  | _, _, _, .nil, .nil => .nil
  | _, _, _, .cons h1 h2, .cons h3 h4 => .cons (h _ _ _ h1 h3) (all₂_trans h h2 h4)

theorem matchSym_spec : ∀ {fs tys : List Ty} {gs : List Arg} {k : Nat} {ret : Ty} {gs' : List Arg},
    matchSym fs tys gs = some (k, ret, gs') →
    All₂ Narrowed gs gs' ∧ ∃ f gs0, fs[k]? = some f ∧ matchCall f tys gs0 = (.ok ret, gs')
  | [], tys, gs, k, ret, gs', h => by simp [matchSym] at h
  | f :: fs, tys, gs, k, ret, gs', h => by
    have hn := matchCall_narrow f tys gs
    simp only [matchSym] at h
    split at h
    · rename_i ret1 args' hm
      simp only [Option.some.injEq, Prod.mk.injEq] at h
      obtain ⟨rfl, rfl, rfl⟩ := h
      rw [hm] at hn
      exact ⟨hn, f, gs, rfl, hm⟩
    · rename_i e args' hm
      rw [hm] at hn
      simp only [Option.map_eq_some_iff] at h
      obtain ⟨⟨k', r'⟩, h1, h2⟩ := h
      simp only [Prod.mk.injEq] at h2
      obtain ⟨rfl, rfl⟩ := h2
      obtain ⟨h3, f', gs0, h4, h5⟩ := matchSym_spec h1
      exact ⟨all₂_trans (R := Narrowed) (fun _ _ _ a b => Narrowed.trans a b) hn h3, f', gs0, by simpa using h4, h5⟩

/-- What a successful match says about the types. -/
theorem applies_of {f : Ty} {tys : List Ty} {gs gs' : List Arg} {ret : Ty} (h : matchCall f tys gs = (.ok ret, gs')) :
    ∃ d ps r, f = .fn d ps r ∧ Applies d ps r tys (argTypes gs') ret := by
  cases f with
  | fn d ps r =>
    refine ⟨d, ps, r, rfl, fun hn => ?_⟩
    obtain ⟨d', ps', r', σ, he, h1, h2, _⟩ := Clara.Props.C14_sound _ _ _ _ _ (fun d' ps' r' he => by cases he; exact hn) h
    cases he
    exact ⟨σ, h1, h2⟩
  | _ => simp [matchCall] at h

/-! ### Cases -/

theorem chkVars_ok : ∀ {vs : List (String × Ann)} {ts : List Ty} {sc : Scope} {Γ : Env} {vs' : List (String × Ann)} {Γ' : Env},
    ts.length = vs.length → chkVars (sc :: Γ) vs ts = (vs', [], Γ') → (sc.map (·.1)).Nodup →
    Γ' = (((vs.map (·.1)).zip ts).reverse.map (fun p => (p.1, [stackSym (some p.2)])) ++ sc) :: Γ ∧
    vs'.map (·.1) = vs.map (·.1) ∧ vs'.map (·.2) = ts.map (fun t => ⟨some t, some [stackSym (some t)]⟩) ∧
    (sc.map (·.1) ++ vs.map (·.1)).Nodup
  | [], [], sc, Γ, vs', Γ', hl, h, hn => by
    simp only [chkVars, Prod.mk.injEq] at h
    obtain ⟨rfl, _, rfl⟩ := h
    simpa using hn
  | [], t :: ts, sc, Γ, vs', Γ', hl, h, hn => by simp at hl
  | v :: vs, [], sc, Γ, vs', Γ', hl, h, hn => by simp at hl
  | (x, a) :: vs, t :: ts, sc, Γ, vs', Γ', hl, h, hn => by
    simp only [chkVars] at h
    split at h
    · simp at h
    · rename_i Γ1 hd
      obtain ⟨hf, rfl⟩ := define_some hd
      simp only [push, Prod.mk.injEq] at h
      have hfr := lookup_none.1 (hf sc Γ rfl)
      obtain ⟨h1, h2⟩ := h
      obtain ⟨k1, k2, k3, k4⟩ := chkVars_ok (vs := vs) (ts := ts) (sc := (x, [stackSym (some t)]) :: sc) (Γ := Γ)
        (vs' := (chkVars (((x, [stackSym (some t)]) :: sc) :: Γ) vs ts).1) (Γ' := Γ') (by simpa using hl)
        (Prod.ext rfl h2) (by
          simp only [List.map_cons, List.nodup_cons]
          exact ⟨hfr, hn⟩)
      subst h1
      refine ⟨?_, ?_, ?_, ?_⟩
      · rw [k1]; simp
      · simp only [List.map_cons, k2]
      · simp only [List.map_cons, k3]
      · simp only [List.map_cons, List.cons_append, List.nodup_cons, List.mem_append, not_or] at k4
        rw [List.nodup_append]
        rw [List.nodup_append] at k4
        obtain ⟨⟨a1, a2⟩, a3, a4, a5⟩ := k4
        refine ⟨a3, by simp only [List.map_cons, List.nodup_cons]; exact ⟨a2, a4⟩, ?_⟩
        intro y hy z hz hyz
        subst hyz
        rcases List.mem_cons.1 hz with rfl | hz
        · exact hfr hy
        · exact a5 y hy y hz rfl

theorem chkMembers_ok : ∀ {ms seen : List Nat} {cs : List Case}, chkMembers ms seen cs = [] →
    (Case.fids cs).Nodup ∧ (∀ f ∈ Case.fids cs, f ∈ ms ∧ f ∉ seen)
  | ms, seen, [], h => by simp [Case.fids]
  | ms, seen, .mk x none vs ss :: cs, h => by
    simp only [chkMembers] at h
    simpa only [Case.fids] using chkMembers_ok h
  | ms, seen, .mk x (some s) vs ss :: cs, h => by
    simp only [chkMembers] at h
    split at h
    · simp at h
    · split at h
      · simp at h
      · rename_i h1 h2
        obtain ⟨h3, h4⟩ := chkMembers_ok h
        simp only [Case.fids, List.nodup_cons]
        refine ⟨⟨fun hm => (h4 _ hm).2 (by simp), h3⟩, ?_⟩
        intro f hf
        rcases List.mem_cons.1 hf with rfl | hf
        · exact ⟨by simpa using h1, h2⟩
        · exact ⟨(h4 f hf).1, fun hs => (h4 f hf).2 (by simp [hs])⟩

theorem perm_of {l m : List Nat} (hn : l.Nodup) (hs : ∀ x ∈ l, x ∈ m) (hl : l.length = m.length) : l.Perm m := by
  induction l generalizing m with
  | nil =>
    cases m with
    | nil => exact .nil
    | cons => simp at hl
  | cons x l ih =>
    have hx := hs x (by simp)
    have hp := List.perm_cons_erase hx
    refine .trans ?_ hp.symm
    refine .cons x (ih (List.nodup_cons.1 hn).2 ?_ ?_)
    · intro y hy
      have hne : y ≠ x := by rintro rfl; exact (List.nodup_cons.1 hn).1 hy
      exact (List.mem_erase_of_ne hne).2 (hs y (by simp [hy]))
    · rw [List.length_erase_of_mem hx, ← hl]; simp

theorem paramIds_eq : ∀ {ts : List Ty} {ks : List Nat}, paramIds ts = some ks → ts = ks.map .param
  | [], ks, h => by simp only [paramIds, Option.some.injEq] at h; subst h; rfl
  | .param k :: ts, ks, h => by
    simp only [paramIds, Option.map_eq_some_iff] at h
    obtain ⟨ks', h1, rfl⟩ := h
    simp [paramIds_eq h1]
  | .prim _ :: ts, ks, h => by simp [paramIds] at h
  | .array _ :: ts, ks, h => by simp [paramIds] at h
  | .struct _ _ :: ts, ks, h => by simp [paramIds] at h
  | .enum _ _ :: ts, ks, h => by simp [paramIds] at h
  | .fn _ _ _ :: ts, ks, h => by simp [paramIds] at h

theorem assign_fn (ks : List Nat) (ts : List Ty) : Bound.fn (ks.zip ts) = assign ks ts := rfl

theorem enumBound_ok {Γ : Env} {n : String} {us : List Ty} {b : Bound} (h : enumBound Γ n us = .ok b) (ps : List Ty) :
    CaseTypes Γ n us ps (ps.map (Ty.subst b)) := by
  unfold enumBound at h
  split at h
  · rename_i h0
    cases h
    exact .inl ⟨by simpa using h0, by rw [show (Ty.subst []) = id from funext subst_nil]; simp⟩
  · split at h
    · rename_i m qs hl
      split at h
      · cases h
      · rename_i ks hk
        split at h
        · cases h
        · rename_i hlen
          cases h
          cases hlt : lookupType Γ n with
          | none => rw [hlt] at hl; cases hl
          | some s =>
            rw [hlt] at hl
            refine .inr ⟨s, m, ks, findsType_of hlt, ?_, by omega, ?_⟩
            · rw [← paramIds_eq hk]; exact hl
            · rw [← assign_fn]
              have := substAll_canon (ks.zip us) ps
              rw [SameAll, ← this]
              congr 1
              clear hl hk hlen hlt this
              induction ps with
              | nil => rfl
              | cons p ps ih => simp [substAll, ih]
    · cases h

end Clara.Sema.Chk
