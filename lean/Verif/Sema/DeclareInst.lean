import Verif.Sema.DeclareSubst
set_option linter.unusedVariables false
/-
Written types in declarations: what `instantiateType` and `createType` make of them.
-/
namespace Clara.Sema.Dcl
open Clara.Types
open Clara.Sema.Chk (TyN Err assign Env FindsType MeansAll)

/-- The types of the root table are the builtin ones and the declared structs and enums. -/
def Wf (T : Tab) : Prop := ∀ x t r, T.root.lookup x = some (.type t :: r) →
  (∃ p, t = .prim p) ∨ (t = .decl x ∧ ∃ S, T.structs.lookup x = some S ∧ (S.tps.map (·.2)).Nodup) ∨
  (∃ E, T.enums.lookup x = some E ∧ (E.tps.map (·.2)).Nodup ∧ t = .enum x (E.tps.map fun p => .param p.2))

theorem type?_cases {T : Tab} (hT : Wf T) {tys : List (String × Nat)} {x : String} {t : RTy} (h : T.type? tys x = some t) :
    (∃ k, (x, k) ∈ tys ∧ t = .param k) ∨ (∃ p, t = .prim p) ∨ (t = .decl x ∧ ∃ S, T.structs.lookup x = some S ∧ (S.tps.map (·.2)).Nodup) ∨
      (∃ E, T.enums.lookup x = some E ∧ (E.tps.map (·.2)).Nodup ∧ t = .enum x (E.tps.map fun p => .param p.2)) := by
  unfold Tab.type? at h
  split at h
  · rename_i k hk
    cases h
    exact .inl ⟨k, lookup_mem' hk, rfl⟩
  · split at h
    · rename_i u r hu
      cases h
      exact .inr (hT x t r hu)
    · cases h

theorem sub_zip (ar : String → List Nat) : ∀ (ks : List Nat) (ts : List RTy), ks.Nodup → ks.length = ts.length →
    ks.map (sub ar (ks.zip ts)) = tyAll ar ts
  | [], [], _, _ => rfl
  | [], _ :: _, _, h => by simp at h
  | _ :: _, [], _, h => by simp at h
  | k :: ks, t :: ts, hn, hl => by
    simp only [List.nodup_cons] at hn
    simp only [List.zip_cons_cons, List.map_cons, tyAll, List.cons.injEq]
    refine ⟨by simp [sub], ?_⟩
    rw [← sub_zip ar ks ts hn.2 (by simpa using hl)]
    apply List.map_congr_left
    intro j hj
    have : j ≠ k := fun h => hn.1 (h ▸ hj)
    simp [sub, List.lookup_cons, beq_eq_false_iff_ne.2 this]

theorem allSome_iff : ∀ {os : List (Option RTy)} {ts : List RTy}, allSome os = some ts ↔ os = ts.map some
  | [], ts => by cases ts <;> simp [allSome]
  | none :: os, ts => by cases ts <;> simp [allSome]
  | some t :: os, ts => by
    simp only [allSome, Option.map_eq_some_iff]
    constructor
    · rintro ⟨us, h, rfl⟩
      simp [allSome_iff.1 h]
    · intro h
      cases ts with
      | nil => simp at h
      | cons u us =>
        simp only [List.map_cons, List.cons.injEq, Option.some.injEq] at h
        obtain ⟨rfl, h⟩ := h
        exact ⟨us, allSome_iff.2 h, rfl⟩

theorem args_ok {T : Tab} {k : Nat} {t : RTy} {ps : List Nat} {ts : List RTy} {es : List Err} {o : Option RTy}
    (h : T.args k t ps (ts.map some) es = .ok (o, [])) :
    es = [] ∧ ps ≠ [] ∧ ps.length = ts.length ∧ ∃ u, o = some u ∧ T.subst (ps.zip ts) k t = .ok u := by
  unfold Tab.args at h
  split at h
  · simp at h
  · rename_i h1
    split at h
    · simp at h
    · rename_i h2
      split at h
      · rename_i h3
        simp only [Except.ok.injEq, Prod.mk.injEq] at h
        exact absurd h.2 h3
      · rename_i h3
        rw [allSome_iff.2 rfl] at h
        obtain ⟨u, hu, h⟩ := map_ok h
        simp only [Prod.mk.injEq] at h
        exact ⟨h.2.symm, h1, by simpa using h2, u, h.1, hu⟩

theorem args_errs {T : Tab} {k : Nat} {t : RTy} {ps : List Nat} {ts : List (Option RTy)} {es : List Err} {o : Option RTy}
    (h : T.args k t ps ts es = .ok (o, [])) : es = [] := by
  unfold Tab.args at h
  split at h
  · simp at h
  · split at h
    · simp at h
    · split at h
      · rename_i h3
        simp only [Except.ok.injEq, Prod.mk.injEq] at h
        exact h.2
      · rename_i h3
        simpa using h3

/-- The written type `t` has been made into `u`. -/
structure Made (T : Tab) (Γ : Env) (t : TyN) (u : RTy) : Prop where
  means : t.Means Γ (u.ty T.arity)
  decls : ∀ m ∈ u.decls, m ∈ bare t ++ applied t
  right : ∀ F P, Sealed F → Settled T F P → (∀ x ∈ applied t, P x) → u.right F

structure MadeAll (T : Tab) (Γ : Env) (ts : List TyN) (us : List RTy) : Prop where
  means : MeansAll Γ ts (tyAll T.arity us)
  decls : ∀ m ∈ declsAll us, m ∈ bareAll ts ++ appliedAll ts
  right : ∀ F P, Sealed F → Settled T F P → (∀ x ∈ appliedAll ts, P x) → rightAll F us

/-- The names of types mean the same in the environment and in the table. -/
def Shows (T : Tab) (tys : List (String × Nat)) (Γ : Env) : Prop :=
  ∀ x t, T.type? tys x = some t → ∃ s, FindsType Γ x s ∧ s.ty = some (t.ty T.arity)

mutual
theorem inst_made {T : Tab} (hT : Wf T) {k : Nat} {tys : List (String × Nat)} {Γ : Env} (hΓ : Shows T tys Γ) :
    ∀ (t : TyN) (es : List Err) (o : Option RTy), T.inst k tys es t = .ok (o, []) → es = [] ∧ ∃ u, o = some u ∧ Made T Γ t u
  | .named x false as, es, o, h => by
    simp only [Tab.inst] at h
    split at h
    · simp at h
    · rename_i u hu
      simp only [Bool.not_false, if_true, Except.ok.injEq, Prod.mk.injEq] at h
      obtain ⟨rfl, rfl⟩ := h
      refine ⟨rfl, u, rfl, ?_⟩
      obtain ⟨s, h1, h2⟩ := hΓ x u hu
      refine ⟨by simp only [TyN.Means]; exact ⟨s, h1, h2⟩, ?_, ?_⟩
      · rcases type?_cases hT hu with ⟨_, _, rfl⟩ | ⟨_, rfl⟩ | ⟨rfl, _⟩ | ⟨E, _, _, rfl⟩
        · simp [RTy.decls]
        · simp [RTy.decls]
        · simp [RTy.decls, bare]
        · intro m hm
          simp only [RTy.decls] at hm
          obtain ⟨v, hv, hm⟩ := declsAll_mem.1 hm
          obtain ⟨p, _, rfl⟩ := List.mem_map.1 hv
          simp [RTy.decls] at hm
      · intro F P _ _ _
        rcases type?_cases hT hu with ⟨_, _, rfl⟩ | ⟨_, rfl⟩ | ⟨rfl, _⟩ | ⟨E, _, _, rfl⟩
        · simp [RTy.right]
        · simp [RTy.right]
        · simp [RTy.right]
        · simp only [RTy.right, rightAll_iff]
          intro v hv
          obtain ⟨p, _, rfl⟩ := List.mem_map.1 hv
          simp [RTy.right]
  | .named x true as, es, o, h => by
    simp only [Tab.inst] at h
    split at h
    · simp at h
    · rename_i u hu
      simp only [Bool.not_true, Bool.false_eq_true, if_false] at h
      split at h
      · cases h
      · rename_i ts es' hi
        obtain ⟨s, h1, h2⟩ := hΓ x u hu
        have he : es' = [] := by
          split at h
          · exact args_errs h
          · exact args_errs h
          · simp at h
        subst he
        obtain ⟨rfl, us, rfl, hm⟩ := insts_made hT hΓ as es ts hi
        refine ⟨rfl, ?_⟩
        rcases type?_cases hT hu with ⟨_, _, rfl⟩ | ⟨_, rfl⟩ | ⟨rfl, S, hS, hn⟩ | ⟨E, hE, hn, rfl⟩
        · simp at h
        · simp at h
        · simp only [hS, Option.map_some, Option.getD_some] at h
          obtain ⟨_, h3, h4, v, rfl, hv⟩ := args_ok h
          have hty := subst_ty hv
          rw [show (RTy.decl x).ty T.arity = .struct x ((S.tps.map (·.2)).map .param) by simp [RTy.ty, arity_of hS]] at hty
          simp only [Ty.inst, instAll_map, List.map_map] at hty
          have hz := sub_zip T.arity (S.tps.map (·.2)) us hn h4
          rw [List.map_map] at hz
          have hty' : v.ty T.arity = .struct x (tyAll T.arity us) := by
            rw [hty, ← hz]
            simp [Function.comp_def, Ty.inst]
          refine ⟨v, rfl, ?_, ?_, ?_⟩
          · simp only [TyN.Means]
            refine ⟨s, x, _, tyAll T.arity us, h1, hm.means, ?_, ?_, .inl ⟨h2, hty'⟩⟩
            · simpa [tyAll_map, arity_of hS] using h4
            · simpa [arity_of hS] using h3
          · intro m hmv
            have := subst_decls (P := fun m => m ∈ bareAll as ++ appliedAll as) (fun e he n hn => ?_) hv m hmv
            · simp only [bare, applied, List.mem_append, List.mem_cons] at this ⊢
              grind
            · exact hm.decls n (declsAll_mem.2 ⟨e.2, (List.of_mem_zip he).2, hn⟩)
          · intro F P hF hs hP
            simp only [applied, List.mem_cons, forall_eq_or_imp] at hP
            have hr := hm.right F P hF hs hP.2
            rw [rightAll_iff] at hr
            exact subst_right hF hs (fun e he => hr _ (List.of_mem_zip he).2) (by simp [RTy.right])
              (fun n hn => by simp only [RTy.decls, List.mem_singleton] at hn; subst hn; exact hP.1) hv
        · simp only [hE, Option.map_some, Option.getD_some] at h
          obtain ⟨_, h3, h4, v, rfl, hv⟩ := args_ok h
          have hty := subst_ty hv
          rw [show (RTy.enum x (E.tps.map fun p => .param p.2)).ty T.arity = .enum x ((E.tps.map (·.2)).map .param) by
            simp [RTy.ty, tyAll_map, Function.comp_def]] at hty h2
          simp only [Ty.inst, instAll_map, List.map_map] at hty
          have hz := sub_zip T.arity (E.tps.map (·.2)) us hn h4
          rw [List.map_map] at hz
          have hty' : v.ty T.arity = .enum x (tyAll T.arity us) := by
            rw [hty, ← hz]
            simp [Function.comp_def, Ty.inst]
          refine ⟨v, rfl, ?_, ?_, ?_⟩
          · simp only [TyN.Means]
            refine ⟨s, x, _, tyAll T.arity us, h1, hm.means, ?_, ?_, .inr ⟨h2, hty'⟩⟩
            · simpa [tyAll_map] using h4
            · simpa using h3
          · intro m hmv
            have := subst_decls (P := fun m => m ∈ bareAll as ++ appliedAll as) (fun e he n hn => ?_) hv m hmv
            · simp only [bare, applied, List.mem_append, List.mem_cons] at this ⊢
              grind
            · exact hm.decls n (declsAll_mem.2 ⟨e.2, (List.of_mem_zip he).2, hn⟩)
          · intro F P hF hs hP
            simp only [applied, List.mem_cons, forall_eq_or_imp] at hP
            have hr := hm.right F P hF hs hP.2
            rw [rightAll_iff] at hr
            refine subst_right hF hs (fun e he => hr _ (List.of_mem_zip he).2) ?_ (fun n hn => ?_) hv
            · simp only [RTy.right, rightAll_iff]
              intro v hv
              obtain ⟨p, _, rfl⟩ := List.mem_map.1 hv
              simp [RTy.right]
            · simp only [RTy.decls] at hn
              obtain ⟨v, hv, hm⟩ := declsAll_mem.1 hn
              obtain ⟨p, _, rfl⟩ := List.mem_map.1 hv
              simp [RTy.decls] at hm
  | .array e, es, o, h => by
    simp only [Tab.inst] at h
    split at h
    · cases h
    · rename_i t' es' hi
      split at h
      · rename_i hne
        simp only [Except.ok.injEq, Prod.mk.injEq] at h
        exact absurd h.2 hne
      · rename_i hne
        simp only [Except.ok.injEq, Prod.mk.injEq] at h
        obtain ⟨rfl, rfl⟩ := h
        obtain ⟨rfl, u, rfl, hm⟩ := inst_made hT hΓ e es t' hi
        refine ⟨rfl, .array u, rfl, ?_, ?_, ?_⟩
        · simp only [TyN.Means, RTy.ty]
          exact ⟨_, rfl, hm.means⟩
        · simpa only [RTy.decls, bare, applied] using hm.decls
        · simpa only [RTy.right, applied] using hm.right
  | .func ps, es, o, h => by
    simp only [Tab.inst] at h
    split at h
    · cases h
    · rename_i ts es' hi
      split at h
      · rename_i hne
        simp only [Except.ok.injEq, Prod.mk.injEq] at h
        exact absurd h.2 hne
      · rename_i hne
        simp only [Except.ok.injEq, Prod.mk.injEq] at h
        obtain ⟨rfl, rfl⟩ := h
        obtain ⟨rfl, us, rfl, hm⟩ := insts_made hT hΓ ps es ts hi
        rw [allSome_iff.2 rfl]
        refine ⟨rfl, .fn us (.prim .nothing), rfl, ?_, ?_, ?_⟩
        · simp only [TyN.Means, RTy.ty]
          exact ⟨_, rfl, hm.means⟩
        · simpa only [RTy.decls, bare, applied, List.append_nil] using hm.decls
        · simpa only [RTy.right, applied, and_true] using hm.right
  | .funcR ps r, es, o, h => by
    simp only [Tab.inst] at h
    split at h
    · cases h
    · rename_i ts es' hi
      split at h
      · cases h
      · rename_i r' es'' hr
        split at h
        · rename_i hne
          simp only [Except.ok.injEq, Prod.mk.injEq] at h
          exact absurd h.2 hne
        · rename_i hne
          simp only [Except.ok.injEq, Prod.mk.injEq] at h
          obtain ⟨h, rfl⟩ := h
          obtain ⟨rfl, v, rfl, hm'⟩ := inst_made hT hΓ r _ r' hr
          obtain ⟨rfl, us, rfl, hm⟩ := insts_made hT hΓ ps es ts hi
          rw [allSome_iff.2 rfl] at h
          refine ⟨rfl, .fn us v, h.symm, ?_, ?_, ?_⟩
          · simp only [TyN.Means, RTy.ty]
            exact ⟨_, _, rfl, hm.means, hm'.means⟩
          · intro m hmm
            have h1 := hm.decls m
            have h2 := hm'.decls m
            simp only [RTy.decls, bare, applied, List.mem_append] at h1 h2 hmm ⊢
            grind
          · intro F P hF hs hP
            simp only [applied, List.mem_append] at hP
            simp only [RTy.right]
            exact ⟨hm.right F P hF hs (fun x hx => hP x (.inl hx)), hm'.right F P hF hs (fun x hx => hP x (.inr hx))⟩
theorem insts_made {T : Tab} (hT : Wf T) {k : Nat} {tys : List (String × Nat)} {Γ : Env} (hΓ : Shows T tys Γ) :
    ∀ (ts : List TyN) (es : List Err) (os : List (Option RTy)), T.insts k tys es ts = .ok (os, []) →
      es = [] ∧ ∃ us, os = us.map some ∧ MadeAll T Γ ts us
  | [], es, os, h => by
    simp only [Tab.insts, Except.ok.injEq, Prod.mk.injEq] at h
    obtain ⟨rfl, rfl⟩ := h
    exact ⟨rfl, [], rfl, by simp [MeansAll, tyAll], by simp [declsAll], by simp [rightAll]⟩
  | t :: ts, es, os, h => by
    simp only [Tab.insts] at h
    split at h
    · cases h
    · rename_i t' es' hi
      split at h
      · cases h
      · rename_i ts' es'' his
        simp only [Except.ok.injEq, Prod.mk.injEq] at h
        obtain ⟨rfl, rfl⟩ := h
        obtain ⟨rfl, us, rfl, hm⟩ := insts_made hT hΓ ts _ _ his
        obtain ⟨rfl, u, rfl, hm'⟩ := inst_made hT hΓ t _ _ hi
        refine ⟨rfl, u :: us, rfl, ?_, ?_, ?_⟩
        · simp only [MeansAll, tyAll]
          exact ⟨_, _, rfl, hm'.means, hm.means⟩
        · intro m hmm
          have h1 := hm.decls m
          have h2 := hm'.decls m
          simp only [declsAll, bareAll, appliedAll, List.mem_append] at h1 h2 hmm ⊢
          grind
        · intro F P hF hs hP
          simp only [appliedAll, List.mem_append] at hP
          simp only [rightAll]
          exact ⟨hm'.right F P hF hs (fun x hx => hP x (.inl hx)), hm.right F P hF hs (fun x hx => hP x (.inr hx))⟩
end

end Clara.Sema.Dcl
