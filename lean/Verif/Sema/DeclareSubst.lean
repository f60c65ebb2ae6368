import Verif.Sema.DeclareSpec
set_option linter.unusedVariables false
/-
Substitution of types with fields: what it does to the types without the fields, and to their copies of structs.
-/
namespace Clara.Sema.Dcl
open Clara.Types
open Clara.Sema.Chk (TyN assign)

theorem map_ok {α β : Type} {r : Except Stop α} {f : α → β} {b : β} (h : r.map f = .ok b) : ∃ a, r = .ok a ∧ b = f a := by
  cases r with
  | error s => simp [Except.map] at h
  | ok a => exact ⟨a, rfl, by simpa [Except.map] using h.symm⟩

theorem mapM_ok {α β : Type} {f : α → Except Stop β} : ∀ {l : List α} {r : List β}, l.mapM f = .ok r → l.map f = r.map .ok
  | [], r, h => by
    simp only [List.mapM_nil, pure, Except.pure, Except.ok.injEq] at h
    subst h; rfl
  | a :: l, r, h => by
    simp only [List.mapM_cons, bind, Except.bind, pure, Except.pure] at h
    split at h
    · cases h
    · rename_i b hb
      split at h
      · cases h
      · rename_i bs hbs
        cases h
        simp [hb, mapM_ok hbs]

/-! ### Lists -/

theorem lookup_mem' {α β : Type} [BEq α] [LawfulBEq α] {l : List (α × β)} {x : α} {s : β} (h : l.lookup x = some s) : (x, s) ∈ l := by
  induction l with
  | nil => cases h
  | cons e l ih =>
    obtain ⟨y, t⟩ := e
    rw [List.lookup_cons] at h
    split at h
    · rename_i he
      cases h
      rw [eq_of_beq he]
      exact List.mem_cons_self
    · exact List.mem_cons_of_mem _ (ih h)

theorem tyAll_map (ar : String → List Nat) : ∀ ts, tyAll ar ts = ts.map (RTy.ty ar)
  | [] => rfl
  | t :: ts => by simp [tyAll, tyAll_map ar ts]

theorem instAll_map (σ : Nat → Ty) : ∀ ts, instAll σ ts = ts.map (Ty.inst σ)
  | [] => rfl
  | t :: ts => by simp [instAll, instAll_map σ ts]

theorem rightAll_iff (T : Tab) : ∀ ts, rightAll T ts ↔ ∀ t ∈ ts, t.right T
  | [] => by simp [rightAll]
  | t :: ts => by simp [rightAll, rightAll_iff T ts]

theorem varsAll_mem {k : Nat} : ∀ {ts : List Ty}, k ∈ varsAll ts ↔ ∃ t ∈ ts, k ∈ t.vars
  | [] => by simp [varsAll]
  | t :: ts => by simp [varsAll, varsAll_mem (ts := ts)]

mutual
/-- The declared structs inside of the type. -/
def RTy.decls : RTy → List String
  | .prim _ => []
  | .param _ => []
  | .array e => e.decls
  | .fn ps r => declsAll ps ++ r.decls
  | .enum _ ts => declsAll ts
  | .decl n => [n]
  | .inst _ ts _ us => declsAll ts ++ declsAll us
def declsAll : List RTy → List String
  | [] => []
  | t :: ts => t.decls ++ declsAll ts
end

theorem declsAll_mem {n : String} : ∀ {ts : List RTy}, n ∈ declsAll ts ↔ ∃ t ∈ ts, n ∈ t.decls
  | [] => by simp [declsAll]
  | t :: ts => by simp [declsAll, declsAll_mem (ts := ts)]

/-! ### Without the fields -/

/-- The substitution for types without fields. -/
def sub (ar : String → List Nat) (b : List (Nat × RTy)) (k : Nat) : Ty := ((b.lookup k).map (RTy.ty ar)).getD (.param k)

theorem ty_lookup (ar : String → List Nat) (b : List (Nat × RTy)) (k : Nat) : ((b.lookup k).getD (.param k)).ty ar = sub ar b k := by
  unfold sub
  cases b.lookup k <;> simp [RTy.ty]

mutual
theorem substWith_ty {ar : String → List Nat} {dec : String → Except Stop RTy} {b : List (Nat × RTy)}
    (hd : ∀ n u, dec n = .ok u → u.ty ar = .struct n ((ar n).map (sub ar b))) :
    ∀ (t u : RTy), substWith dec b t = .ok u → u.ty ar = (t.ty ar).inst (sub ar b)
  | .prim p, u, h => by simp only [substWith, Except.ok.injEq] at h; subst h; simp [RTy.ty, Ty.inst]
  | .param k, u, h => by
    simp only [substWith, Except.ok.injEq] at h; subst h
    simp only [RTy.ty, Ty.inst, ty_lookup]
  | .array e, u, h => by
    simp only [substWith] at h
    obtain ⟨v, hv, rfl⟩ := map_ok h
    simp [RTy.ty, Ty.inst, substWith_ty hd e v hv]
  | .fn ps r, u, h => by
    simp only [substWith] at h
    split at h
    · cases h
    · rename_i qs hq
      obtain ⟨v, hv, rfl⟩ := map_ok h
      simp [RTy.ty, Ty.inst, substWith_ty hd r v hv, substsWith_ty hd ps qs hq]
  | .enum n ts, u, h => by
    simp only [substWith] at h
    obtain ⟨v, hv, rfl⟩ := map_ok h
    simp [RTy.ty, Ty.inst, substsWith_ty hd ts v hv]
  | .decl n, u, h => by
    simp only [substWith] at h
    rw [hd n u h]
    simp [RTy.ty, Ty.inst, instAll_map, Function.comp_def]
  | .inst n ts xs us, u, h => by
    simp only [substWith] at h
    split at h
    · cases h
    · rename_i qs hq
      obtain ⟨v, hv, rfl⟩ := map_ok h
      simp [RTy.ty, Ty.inst, substsWith_ty hd ts qs hq]
theorem substsWith_ty {ar : String → List Nat} {dec : String → Except Stop RTy} {b : List (Nat × RTy)}
    (hd : ∀ n u, dec n = .ok u → u.ty ar = .struct n ((ar n).map (sub ar b))) :
    ∀ (ts us : List RTy), substsWith dec b ts = .ok us → tyAll ar us = instAll (sub ar b) (tyAll ar ts)
  | [], us, h => by simp only [substsWith, Except.ok.injEq] at h; subst h; simp [tyAll, instAll]
  | t :: ts, us, h => by
    simp only [substsWith] at h
    split at h
    · cases h
    · rename_i q hq
      obtain ⟨v, hv, rfl⟩ := map_ok h
      simp [tyAll, instAll, substWith_ty hd t q hq, substsWith_ty hd ts v hv]
end

/-- What is made of the type of a declared struct. -/
theorem substs_params (dec : String → Except Stop RTy) (b : List (Nat × RTy)) : ∀ (ks : List Nat),
    substsWith dec b (ks.map .param) = .ok (ks.map fun k => (b.lookup k).getD (.param k))
  | [] => rfl
  | k :: ks => by simp [substsWith, substWith, substs_params dec b ks, Except.map]

theorem allFields_ok : ∀ {fs : List (String × Option RTy)} {us : List RTy}, allFields fs = .ok us → fs.map (·.2) = us.map some
  | [], us, h => by simp only [allFields, Except.ok.injEq] at h; subst h; rfl
  | (x, none) :: fs, us, h => by simp [allFields] at h
  | (x, some t) :: fs, us, h => by
    simp only [allFields] at h
    obtain ⟨v, hv, rfl⟩ := map_ok h
    simp [allFields_ok hv]

theorem subst_decl {T : Tab} {b : List (Nat × RTy)} {k : Nat} {n : String} {u : RTy} (h : T.subst b k (.decl n) = .ok u) :
    ∃ (j : Nat) (S : SRec) (us vs : List RTy), k = j + 1 ∧ T.structs.lookup n = some S ∧ S.fields.map (·.2) = us.map some ∧
      us.map (T.subst b j) = vs.map .ok ∧
      u = .inst n ((S.tps.map (·.2)).map fun k => (b.lookup k).getD (.param k)) (S.fields.map (·.1)) vs := by
  cases k with
  | zero => simp [Tab.subst, substWith] at h
  | succ j =>
    simp only [Tab.subst, substWith] at h
    split at h
    · cases h
    · rename_i S hS
      have := substs_params (fun _ => .error .panic) b (S.tps.map (·.2))
      simp only [List.map_map] at this
      rw [show (S.tps.map fun p => RTy.param p.2) = S.tps.map (RTy.param ∘ (·.2)) from rfl, this] at h
      simp only at h
      split at h
      · cases h
      · rename_i us hus
        split at h
        · cases h
        · rename_i vs hvs
          cases h
          exact ⟨j, S, us, vs, rfl, hS, allFields_ok hus, mapM_ok hvs, by simp⟩

theorem subst_dec {T : Tab} {b : List (Nat × RTy)} (k : Nat) : ∃ dec, T.subst b k = substWith dec b ∧ ∀ n, dec n = T.subst b k (.decl n) := by
  cases k with
  | zero => exact ⟨_, rfl, fun n => by simp [Tab.subst, substWith]⟩
  | succ k => exact ⟨_, rfl, fun n => by simp only [Tab.subst, substWith]⟩

theorem arity_of {T : Tab} {n : String} {S : SRec} (h : T.structs.lookup n = some S) : T.arity n = S.tps.map (·.2) := by
  simp [Tab.arity, h]

/-- Substitution is what it should be, apart from the fields. -/
theorem subst_ty {T : Tab} {b : List (Nat × RTy)} {k : Nat} {t u : RTy} (h : T.subst b k t = .ok u) :
    u.ty T.arity = (t.ty T.arity).inst (sub T.arity b) := by
  obtain ⟨dec, h1, h2⟩ := subst_dec (T := T) (b := b) k
  rw [h1] at h
  refine substWith_ty (fun n u hu => ?_) t u h
  rw [h2] at hu
  obtain ⟨j, S, us, vs, _, hS, _, _, rfl⟩ := subst_decl hu
  simp only [RTy.ty, tyAll_map, List.map_map, arity_of hS, Ty.struct.injEq, true_and]
  apply List.map_congr_left
  intro k _
  simp only [Function.comp_apply, ty_lookup]

/-! ### The declared structs inside of the result -/

mutual
theorem substWith_decls {dec : String → Except Stop RTy} {b : List (Nat × RTy)} {P : String → Prop}
    (hb : ∀ e ∈ b, ∀ n ∈ e.2.decls, P n) (hd : ∀ n u, dec n = .ok u → ∀ m ∈ u.decls, P m) :
    ∀ (t u : RTy), substWith dec b t = .ok u → ∀ m ∈ u.decls, P m
  | .prim p, u, h => by simp only [substWith, Except.ok.injEq] at h; subst h; simp [RTy.decls]
  | .param k, u, h => by
    simp only [substWith, Except.ok.injEq] at h; subst h
    cases hl : b.lookup k with
    | none => simp [RTy.decls]
    | some v => simpa using hb (k, v) (lookup_mem' hl)
  | .array e, u, h => by
    simp only [substWith] at h
    obtain ⟨v, hv, rfl⟩ := map_ok h
    simpa [RTy.decls] using substWith_decls hb hd e v hv
  | .fn ps r, u, h => by
    simp only [substWith] at h
    split at h
    · cases h
    · rename_i qs hq
      obtain ⟨v, hv, rfl⟩ := map_ok h
      intro m hm
      rcases List.mem_append.1 (by simpa only [RTy.decls] using hm) with hm | hm
      · exact substsWith_decls hb hd ps qs hq m hm
      · exact substWith_decls hb hd r v hv m hm
  | .enum n ts, u, h => by
    simp only [substWith] at h
    obtain ⟨v, hv, rfl⟩ := map_ok h
    simpa [RTy.decls] using substsWith_decls hb hd ts v hv
  | .decl n, u, h => by
    simp only [substWith] at h
    exact hd n u h
  | .inst n ts xs us, u, h => by
    simp only [substWith] at h
    split at h
    · cases h
    · rename_i qs hq
      obtain ⟨v, hv, rfl⟩ := map_ok h
      intro m hm
      rcases List.mem_append.1 (by simpa only [RTy.decls] using hm) with hm | hm
      · exact substsWith_decls hb hd ts qs hq m hm
      · exact substsWith_decls hb hd us v hv m hm
theorem substsWith_decls {dec : String → Except Stop RTy} {b : List (Nat × RTy)} {P : String → Prop}
    (hb : ∀ e ∈ b, ∀ n ∈ e.2.decls, P n) (hd : ∀ n u, dec n = .ok u → ∀ m ∈ u.decls, P m) :
    ∀ (ts us : List RTy), substsWith dec b ts = .ok us → ∀ m ∈ declsAll us, P m
  | [], us, h => by simp only [substsWith, Except.ok.injEq] at h; subst h; simp [declsAll]
  | t :: ts, us, h => by
    simp only [substsWith] at h
    split at h
    · cases h
    · rename_i q hq
      obtain ⟨v, hv, rfl⟩ := map_ok h
      intro m hm
      rcases List.mem_append.1 (by simpa only [declsAll] using hm) with hm | hm
      · exact substWith_decls hb hd t q hq m hm
      · exact substsWith_decls hb hd ts v hv m hm
end

theorem map_mem_ok {α β : Type} {f : α → Except Stop β} : ∀ {l : List α} {r : List β}, l.map f = r.map .ok → ∀ b ∈ r, ∃ a ∈ l, f a = .ok b
  | [], [], _, b, hb => by cases hb
  | [], _ :: _, h, _, _ => by simp at h
  | _ :: _, [], h, _, _ => by simp at h
  | a :: l, c :: r, h, b, hb => by
    simp only [List.map_cons, List.cons.injEq] at h
    rcases List.mem_cons.1 hb with rfl | hb
    · exact ⟨a, List.mem_cons_self, h.1⟩
    · obtain ⟨a', h1, h2⟩ := map_mem_ok h.2 b hb
      exact ⟨a', List.mem_cons_of_mem _ h1, h2⟩

theorem lookup_decls {b : List (Nat × RTy)} {P : String → Prop} (hb : ∀ e ∈ b, ∀ n ∈ e.2.decls, P n) (k : Nat) :
    ∀ m ∈ ((b.lookup k).getD (.param k)).decls, P m := by
  cases hl : b.lookup k with
  | none => simp [RTy.decls]
  | some v => simpa using hb (k, v) (lookup_mem' hl)

theorem subst_decls {T : Tab} {b : List (Nat × RTy)} {P : String → Prop} (hb : ∀ e ∈ b, ∀ n ∈ e.2.decls, P n) : ∀ {k : Nat} {t u : RTy},
    T.subst b k t = .ok u → ∀ m ∈ u.decls, P m := by
  intro k
  induction k with
  | zero =>
    intro t u h
    obtain ⟨dec, h1, h2⟩ := subst_dec (T := T) (b := b) 0
    rw [h1] at h
    refine substWith_decls hb (fun n u hu => ?_) t u h
    rw [h2] at hu
    obtain ⟨j, S, us, vs, h0, _⟩ := subst_decl hu
    cases h0
  | succ k ih =>
    intro t u h
    obtain ⟨dec, h1, h2⟩ := subst_dec (T := T) (b := b) (k + 1)
    rw [h1] at h
    refine substWith_decls hb (fun n u hu => ?_) t u h
    rw [h2] at hu
    obtain ⟨j, S, us, vs, h0, hS, h3, h4, rfl⟩ := subst_decl hu
    cases h0
    intro m hm
    rcases List.mem_append.1 (by simpa only [RTy.decls] using hm) with hm | hm
    · obtain ⟨t, ht, hm⟩ := declsAll_mem.1 hm
      obtain ⟨i, _, rfl⟩ := List.mem_map.1 ht
      exact lookup_decls hb i m hm
    · obtain ⟨t, ht, hm⟩ := declsAll_mem.1 hm
      obtain ⟨a, _, ha⟩ := map_mem_ok h4 t ht
      exact ih ha m hm

/-! ### Copies -/

mutual
theorem inst_inst (σ τ : Nat → Ty) : ∀ t : Ty, (t.inst σ).inst τ = t.inst (fun k => (σ k).inst τ)
  | .prim _ => rfl
  | .param _ => rfl
  | .array t => by simp [Ty.inst, inst_inst σ τ t]
  | .struct n ts => by simp [Ty.inst, instAll_instAll σ τ ts]
  | .enum n ts => by simp [Ty.inst, instAll_instAll σ τ ts]
  | .fn d ps r => by simp [Ty.inst, instAll_instAll σ τ ps, inst_inst σ τ r]
theorem instAll_instAll (σ τ : Nat → Ty) : ∀ ts : List Ty, instAll τ (instAll σ ts) = instAll (fun k => (σ k).inst τ) ts
  | [] => rfl
  | t :: ts => by simp [instAll, inst_inst σ τ t, instAll_instAll σ τ ts]
end

mutual
theorem inst_agree {σ τ : Nat → Ty} : ∀ t : Ty, (∀ k ∈ t.vars, σ k = τ k) → t.inst σ = t.inst τ
  | .prim _, _ => rfl
  | .param k, h => h k (by simp [Ty.vars])
  | .array t, h => by simp [Ty.inst, inst_agree t h]
  | .struct n ts, h => by simp [Ty.inst, instAll_agree ts h]
  | .enum n ts, h => by simp [Ty.inst, instAll_agree ts h]
  | .fn d ps r, h => by
    simp only [Ty.vars, List.mem_append] at h
    simp [Ty.inst, instAll_agree ps (fun k hk => h k (.inl hk)), inst_agree r (fun k hk => h k (.inr hk))]
theorem instAll_agree {σ τ : Nat → Ty} : ∀ ts : List Ty, (∀ k ∈ varsAll ts, σ k = τ k) → instAll σ ts = instAll τ ts
  | [], _ => rfl
  | t :: ts, h => by
    simp only [varsAll, List.mem_append] at h
    simp [instAll, inst_agree t (fun k hk => h k (.inl hk)), instAll_agree ts (fun k hk => h k (.inr hk))]
end

theorem assign_map (σ : Nat → Ty) : ∀ (ks : List Nat) (k : Nat), k ∈ ks → assign ks (ks.map σ) k = σ k
  | j :: ks, k, h => by
    have ih := assign_map σ ks k
    unfold assign at ih ⊢
    simp only [List.map_cons, List.zip_cons_cons, List.lookup_cons]
    by_cases hk : k = j
    · subst hk; simp
    · simp only [beq_eq_false_iff_ne.2 hk]
      exact ih ((List.mem_cons.1 h).resolve_left hk)

theorem assign_inst (σ : Nat → Ty) : ∀ (ks : List Nat) (ts : List Ty) (k : Nat), ks.length = ts.length → k ∈ ks →
    (assign ks ts k).inst σ = assign ks (instAll σ ts) k
  | j :: ks, [], k, hl, h => by simp at hl
  | j :: ks, t :: ts, k, hl, h => by
    have ih := assign_inst σ ks ts k (by simpa using hl)
    unfold assign at ih ⊢
    simp only [instAll, List.zip_cons_cons, List.lookup_cons]
    by_cases hk : k = j
    · subst hk; simp
    · simp only [beq_eq_false_iff_ne.2 hk]
      exact ih ((List.mem_cons.1 h).resolve_left hk)

/-- The fields of structs have no type parameters but the ones of the struct. -/
def Sealed (F : Tab) : Prop :=
  ∀ n S, F.structs.lookup n = some S → ∀ p ∈ S.fields, ∀ t, p.2 = some t → ∀ k ∈ (t.ty F.arity).vars, k ∈ S.tps.map (·.2)

theorem with_inst {F : Tab} (hF : Sealed F) {n : String} {S : SRec} (hS : F.structs.lookup n = some S) (σ : Nat → Ty) (ts : List Ty)
    (hl : ts.length = S.tps.length) :
    S.with F.arity (instAll σ ts) = (S.with F.arity ts).map (Option.map (Ty.inst σ)) := by
  unfold SRec.with
  rw [List.map_map]
  apply List.map_congr_left
  intro p hp
  simp only [Function.comp_apply, Option.map_map]
  cases ht : p.2 with
  | none => rfl
  | some t =>
    simp only [Option.map_some, Function.comp_apply, inst_inst, Option.some.injEq]
    apply inst_agree
    intro k hk
    exact (assign_inst σ _ ts k (by simpa using hl.symm) (hF n S hS p hp t ht k hk)).symm

mutual
theorem substWith_right {F : Tab} (hF : Sealed F) {dec : String → Except Stop RTy} {b : List (Nat × RTy)} {P : String → Prop}
    (hb : ∀ e ∈ b, e.2.right F) (ht : ∀ n u, dec n = .ok u → u.ty F.arity = .struct n ((F.arity n).map (sub F.arity b)))
    (hd : ∀ n u, P n → dec n = .ok u → u.right F) :
    ∀ (t u : RTy), t.right F → (∀ n ∈ t.decls, P n) → substWith dec b t = .ok u → u.right F
  | .prim p, u, _, _, h => by simp only [substWith, Except.ok.injEq] at h; subst h; simp [RTy.right]
  | .param k, u, _, _, h => by
    simp only [substWith, Except.ok.injEq] at h; subst h
    cases hl : b.lookup k with
    | none => simp [RTy.right]
    | some v => simpa using hb (k, v) (lookup_mem' hl)
  | .array e, u, hr, hn, h => by
    simp only [substWith] at h
    obtain ⟨v, hv, rfl⟩ := map_ok h
    simpa [RTy.right] using substWith_right hF hb ht hd e v (by simpa only [RTy.right] using hr) (by simpa only [RTy.decls] using hn) hv
  | .fn ps r, u, hr, hn, h => by
    simp only [substWith] at h
    split at h
    · cases h
    · rename_i qs hq
      obtain ⟨v, hv, rfl⟩ := map_ok h
      simp only [RTy.right] at hr ⊢
      simp only [RTy.decls, List.mem_append] at hn
      exact ⟨substsWith_right hF hb ht hd ps qs hr.1 (fun n h => hn n (.inl h)) hq, substWith_right hF hb ht hd r v hr.2 (fun n h => hn n (.inr h)) hv⟩
  | .enum n ts, u, hr, hn, h => by
    simp only [substWith] at h
    obtain ⟨v, hv, rfl⟩ := map_ok h
    simpa [RTy.right] using substsWith_right hF hb ht hd ts v (by simpa only [RTy.right] using hr) (by simpa only [RTy.decls] using hn) hv
  | .decl n, u, hr, hn, h => by
    simp only [substWith] at h
    exact hd n u (hn n (by simp [RTy.decls])) h
  | .inst n ts xs us, u, hr, hn, h => by
    simp only [substWith] at h
    split at h
    · cases h
    · rename_i qs hq
      obtain ⟨v, hv, rfl⟩ := map_ok h
      simp only [RTy.right] at hr ⊢
      simp only [RTy.decls, List.mem_append] at hn
      obtain ⟨h1, h2, S, hS, hl, hx, hw⟩ := hr
      refine ⟨substsWith_right hF hb ht hd ts qs h1 (fun n h => hn n (.inl h)) hq,
        substsWith_right hF hb ht hd us v h2 (fun n h => hn n (.inr h)) hv, S, hS, ?_, hx, ?_⟩
      · have := congrArg List.length (substsWith_ty ht ts qs hq)
        rw [instAll_map, tyAll_map, tyAll_map] at this
        simp only [List.length_map] at this
        omega
      · rw [substsWith_ty ht ts qs hq, substsWith_ty ht us v hv, with_inst hF hS _ _ (by simpa [tyAll_map] using hl), hw, instAll_map]
        simp
theorem substsWith_right {F : Tab} (hF : Sealed F) {dec : String → Except Stop RTy} {b : List (Nat × RTy)} {P : String → Prop}
    (hb : ∀ e ∈ b, e.2.right F) (ht : ∀ n u, dec n = .ok u → u.ty F.arity = .struct n ((F.arity n).map (sub F.arity b)))
    (hd : ∀ n u, P n → dec n = .ok u → u.right F) :
    ∀ (ts us : List RTy), rightAll F ts → (∀ n ∈ declsAll ts, P n) → substsWith dec b ts = .ok us → rightAll F us
  | [], us, _, _, h => by simp only [substsWith, Except.ok.injEq] at h; subst h; simp [rightAll]
  | t :: ts, us, hr, hn, h => by
    simp only [substsWith] at h
    split at h
    · cases h
    · rename_i q hq
      obtain ⟨v, hv, rfl⟩ := map_ok h
      simp only [rightAll] at hr ⊢
      simp only [declsAll, List.mem_append] at hn
      exact ⟨substWith_right hF hb ht hd t q hr.1 (fun n h => hn n (.inl h)) hq, substsWith_right hF hb ht hd ts v hr.2 (fun n h => hn n (.inr h)) hv⟩
end

/-- The structs of `P` have in `T` the fields they have in `F`, and these are right. -/
structure Settled (T F : Tab) (P : String → Prop) : Prop where
  arity : T.arity = F.arity
  same : ∀ n, P n → T.structs.lookup n = F.structs.lookup n
  right : ∀ n S, P n → F.structs.lookup n = some S → ∀ p ∈ S.fields, ∀ t, p.2 = some t → t.right F ∧ ∀ m ∈ t.decls, P m

theorem mapOk_length {α β : Type} {f : α → Except Stop β} {l : List α} {r : List β} (h : l.map f = r.map .ok) : l.length = r.length := by
  simpa using congrArg List.length h

theorem with_subst {T F : Tab} {b : List (Nat × RTy)} {j : Nat} (ha : T.arity = F.arity) (σ : Nat → Ty) (hσ : ∀ (us vs : List RTy), us.map (T.subst b j) = vs.map .ok →
      tyAll F.arity vs = instAll σ (tyAll F.arity us)) :
    ∀ (fs : List (String × Option RTy)) (us vs : List RTy) (τ : Nat → Ty), fs.map (·.2) = us.map some → us.map (T.subst b j) = vs.map .ok →
      (∀ p ∈ fs, ∀ t, p.2 = some t → (t.ty F.arity).inst τ = (t.ty F.arity).inst σ) →
      fs.map (fun p => p.2.map fun t => (t.ty F.arity).inst τ) = (tyAll F.arity vs).map some := by
  intro fs us vs τ h1 h2 h3
  rw [hσ us vs h2, instAll_map, tyAll_map, List.map_map, List.map_map]
  have : fs.map (fun p => p.2.map fun t => (t.ty F.arity).inst τ) = fs.map (fun p => p.2.map fun t => (t.ty F.arity).inst σ) := by
    apply List.map_congr_left
    intro p hp
    cases ht : p.2 with
    | none => rfl
    | some t => simp [h3 p hp t ht]
  rw [this]
  have := congrArg (List.map (Option.map fun t : RTy => (t.ty F.arity).inst σ)) h1
  simpa [Function.comp_def] using this

theorem subst_right {T F : Tab} (hF : Sealed F) {P : String → Prop} (hs : Settled T F P) {b : List (Nat × RTy)} (hb : ∀ e ∈ b, e.2.right F) :
    ∀ {k : Nat} {t u : RTy}, t.right F → (∀ n ∈ t.decls, P n) → T.subst b k t = .ok u → u.right F := by
  have hty : ∀ (k : Nat) (n : String) (u : RTy), T.subst b k (.decl n) = .ok u → u.ty F.arity = .struct n ((F.arity n).map (sub F.arity b)) := by
    intro k n u h
    have := subst_ty h
    rw [hs.arity] at this
    rw [this]
    simp [RTy.ty, Ty.inst, instAll_map]
  intro k
  induction k with
  | zero =>
    intro t u hr hn h
    obtain ⟨dec, h1, h2⟩ := subst_dec (T := T) (b := b) 0
    rw [h1] at h
    refine substWith_right hF hb (fun n u hu => hty 0 n u (h2 n ▸ hu)) (fun n u _ hu => ?_) t u hr hn h
    rw [h2] at hu
    obtain ⟨j, S, us, vs, h0, _⟩ := subst_decl hu
    cases h0
  | succ k ih =>
    intro t u hr hn h
    obtain ⟨dec, h1, h2⟩ := subst_dec (T := T) (b := b) (k + 1)
    rw [h1] at h
    refine substWith_right hF hb (fun n u hu => hty _ n u (h2 n ▸ hu)) (fun n u hp hu => ?_) t u hr hn h
    rw [h2] at hu
    obtain ⟨j, S, us, vs, h0, hS, h3, h4, rfl⟩ := subst_decl hu
    cases h0
    rw [hs.same n hp] at hS
    have hf := hs.right n S hp hS
    have hmem : ∀ a ∈ us, ∃ p ∈ S.fields, p.2 = some a := by
      intro a ha
      have : some a ∈ S.fields.map (·.2) := by rw [h3]; exact List.mem_map_of_mem ha
      obtain ⟨p, h5, h6⟩ := List.mem_map.1 this
      exact ⟨p, h5, h6⟩
    simp only [RTy.right]
    refine ⟨?_, ?_, S, hS, by simp, rfl, ?_⟩
    · rw [rightAll_iff]
      intro t ht
      obtain ⟨i, _, rfl⟩ := List.mem_map.1 ht
      cases hl : b.lookup i with
      | none => simp [RTy.right]
      | some v => simpa using hb (i, v) (lookup_mem' hl)
    · rw [rightAll_iff]
      intro t ht
      obtain ⟨a, ha, hta⟩ := map_mem_ok h4 t ht
      obtain ⟨p, h5, h6⟩ := hmem a ha
      obtain ⟨h7, h8⟩ := hf p h5 a h6
      exact ih h7 h8 hta
    · unfold SRec.with
      refine with_subst hs.arity (sub F.arity b) (fun us vs h => ?_) S.fields us vs _ h3 h4 (fun p hp t ht => ?_)
      · have : ∀ (us vs : List RTy), us.map (T.subst b k) = vs.map .ok → vs.map (RTy.ty F.arity) = us.map (fun t => (t.ty F.arity).inst (sub F.arity b)) := by
          intro us
          induction us with
          | nil => intro vs h; cases vs with
            | nil => rfl
            | cons _ _ => simp at h
          | cons u us ih => intro vs h; cases vs with
            | nil => simp at h
            | cons v vs =>
              simp only [List.map_cons, List.cons.injEq] at h ⊢
              refine ⟨?_, ih vs h.2⟩
              have := subst_ty h.1
              rw [hs.arity] at this
              exact this
        rw [tyAll_map, tyAll_map, instAll_map, this us vs h, List.map_map]
        rfl
      · apply inst_agree
        intro i hi
        have hk := hF n S hS p hp t ht i hi
        rw [tyAll_map, List.map_map]
        have : ((RTy.ty F.arity) ∘ fun k => (b.lookup k).getD (.param k)) = sub F.arity b := by
          funext k
          simp only [Function.comp_apply, ty_lookup]
        rw [this]
        exact assign_map _ _ _ hk

end Clara.Sema.Dcl
