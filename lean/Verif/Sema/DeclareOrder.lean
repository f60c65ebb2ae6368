import Verif.Sema.DeclareMain
set_option linter.unusedVariables false
/-
The copies of structs in the table of declarations.
-/
namespace Clara.Sema.Dcl
open Clara Clara.Types
open Clara.Sema.Chk (TyN Err Head FnBody assign Env FindsType MeansAll)

/-! ### Types without type arguments -/

mutual
theorem inst_flat {T : Tab} (k : Nat) (tys : List (String × Nat)) : ∀ (t : TyN) (u : RTy), applied t = [] → T.create tys t = some u → T.inst k tys [] t = .ok (some u, [])
  | .named x false as, u, h, hc => by
    simp only [Tab.create] at hc
    simp only [Tab.inst]
    split at hc
    · cases hc
    · rename_i t ht
      simp only [Bool.false_eq_true, if_false, Option.some.injEq] at hc
      simp [ht, hc]
  | .named x true as, u, h, hc => by simp [applied] at h
  | .array e, u, h, hc => by
    simp only [Tab.create, Option.map_eq_some_iff] at hc
    obtain ⟨v, hv, rfl⟩ := hc
    simp [Tab.inst, inst_flat k tys e v (by simpa only [applied] using h) hv]
  | .func ps, u, h, hc => by
    simp only [Tab.create, Option.map_eq_some_iff] at hc
    obtain ⟨v, hv, rfl⟩ := hc
    simp [Tab.inst, insts_flat k tys ps v (by simpa only [applied] using h) hv, allSome_iff.2 rfl]
  | .funcR ps r, u, h, hc => by
    simp only [Tab.create] at hc
    simp only [applied, List.append_eq_nil_iff] at h
    split at hc
    · rename_i vs v hvs hv
      cases hc
      simp [Tab.inst, insts_flat k tys ps vs h.1 hvs, inst_flat k tys r v h.2 hv, allSome_iff.2 rfl]
    · cases hc
theorem insts_flat {T : Tab} (k : Nat) (tys : List (String × Nat)) : ∀ (ts : List TyN) (us : List RTy), appliedAll ts = [] → T.creates tys ts = some us →
    T.insts k tys [] ts = .ok (us.map some, [])
  | [], us, h, hc => by
    simp only [Tab.creates, Option.some.injEq] at hc
    subst hc
    rfl
  | t :: ts, us, h, hc => by
    simp only [Tab.creates] at hc
    simp only [appliedAll, List.append_eq_nil_iff] at h
    split at hc
    · rename_i v vs hv hvs
      cases hc
      simp [Tab.insts, inst_flat k tys t v h.1 hv, insts_flat k tys ts vs h.2 hvs]
    · cases hc
end

theorem appliedAll_mem {x : String} : ∀ {ts : List TyN}, x ∈ appliedAll ts ↔ ∃ t ∈ ts, x ∈ applied t
  | [] => by simp [appliedAll]
  | t :: ts => by simp [appliedAll, appliedAll_mem (ts := ts)]
theorem bareAll_mem {x : String} : ∀ {ts : List TyN}, x ∈ bareAll ts ↔ ∃ t ∈ ts, x ∈ bare t
  | [] => by simp [bareAll]
  | t :: ts => by simp [bareAll, bareAll_mem (ts := ts)]

mutual
theorem create_right {T : Tab} (hT : Wf T) (F : Tab) (tys : List (String × Nat)) : ∀ (t : TyN) (u : RTy), T.create tys t = some u → u.right F
  | .named x g as, u, h => by
    simp only [Tab.create] at h
    split at h
    · cases h
    · rename_i v hv
      have : u = v := by
        split at h
        · obtain ⟨_, _, h⟩ := Option.map_eq_some_iff.1 h
          exact h.symm
        · cases h; rfl
      subst this
      rcases type?_cases hT hv with ⟨_, _, rfl⟩ | ⟨_, rfl⟩ | ⟨rfl, _⟩ | ⟨E, _, _, rfl⟩
      · simp [RTy.right]
      · simp [RTy.right]
      · simp [RTy.right]
      · simp only [RTy.right, rightAll_iff]
        intro v hv
        obtain ⟨p, _, rfl⟩ := List.mem_map.1 hv
        simp [RTy.right]
  | .array e, u, h => by
    simp only [Tab.create, Option.map_eq_some_iff] at h
    obtain ⟨v, hv, rfl⟩ := h
    simpa only [RTy.right] using create_right hT F tys e v hv
  | .func ps, u, h => by
    simp only [Tab.create, Option.map_eq_some_iff] at h
    obtain ⟨v, hv, rfl⟩ := h
    simpa only [RTy.right, and_true] using creates_right hT F tys ps v hv
  | .funcR ps r, u, h => by
    simp only [Tab.create] at h
    split at h
    · rename_i vs v hvs hv
      cases h
      simp only [RTy.right]
      exact ⟨creates_right hT F tys ps vs hvs, create_right hT F tys r v hv⟩
    · cases h
theorem creates_right {T : Tab} (hT : Wf T) (F : Tab) (tys : List (String × Nat)) : ∀ (ts : List TyN) (us : List RTy), T.creates tys ts = some us → rightAll F us
  | [], us, h => by
    simp only [Tab.creates, Option.some.injEq] at h
    subst h
    simp [rightAll]
  | t :: ts, us, h => by
    simp only [Tab.creates] at h
    split at h
    · rename_i v vs hv hvs
      cases h
      simp only [rightAll]
      exact ⟨create_right hT F tys t v hv, creates_right hT F tys ts vs hvs⟩
    · cases h
end

/-! ### Lists of fields -/

theorem zip_mem_all₂ {α β : Type} {R : (String × α) → β → Prop} : ∀ {fs : List (String × α)} {us : List β}, All₂ R fs us →
    ∀ p ∈ (fs.map (·.1)).zip (us.map some), ∃ t u, (p.1, t) ∈ fs ∧ p.2 = some u ∧ R (p.1, t) u := by
  intro fs us h
  induction h with
  | nil => simp
  | cons h _ ih =>
    rename_i a b as bs h'
    intro p hp
    simp only [List.map_cons, List.zip_cons_cons, List.mem_cons] at hp
    rcases hp with rfl | hp
    · exact ⟨a.2, b, by simp, rfl, h⟩
    · obtain ⟨t, u, h1, h2, h3⟩ := ih p hp
      exact ⟨t, u, List.mem_cons_of_mem _ h1, h2, h3⟩

theorem zip_eq_created {fs : List (String × TyN)} {us : List RTy} {c : TyN → Option RTy} (h : All₂ (fun p u => c p.2 = some u) fs us) :
    (fs.map (·.1)).zip (us.map some) = fs.map fun p => (p.1, c p.2) := by
  induction h with
  | nil => rfl
  | cons h _ ih => simp [ih, h]

/-! ### One struct -/

section
variable {k : Nat} {ds : List Dcl} {T1 T2 F T : Tab} {items : List Item} (R : Run k ds T1 T2 F T items)
include R

theorem Run.second_struct {n : String} {tps : List (String × Nat)} {fs : List (String × TyN)} (h : Dcl.struct n tps fs ∈ ds) :
    T2.structs.lookup n = some ⟨tps, fs.map fun p => (p.1, T1.create tps p.2)⟩ ∧ ∀ p ∈ fs, (T1.create tps p.2).isSome := by
  obtain ⟨us, hu⟩ := R.known.structs n tps fs h
  have := R.empty n _ hu
  simp only at this
  subst this
  obtain ⟨h1, _, h2⟩ := R.second.structs n tps fs [] h hu
  exact ⟨by simpa using h1, fun p hp => (h2 p hp).2⟩

theorem Run.second_none {n : String} (h : ∀ tps fs, Dcl.struct n tps fs ∉ ds) : T2.structs.lookup n = none := by
  rw [R.second.others n h, R.first.structs]
  simp only [Tab.std, List.nil_append, lookup_none]
  intro hm
  obtain ⟨e, he, rfl⟩ := List.mem_map.1 hm
  obtain ⟨d, hd, he⟩ := List.mem_filterMap.1 he
  cases d <;> simp [Dcl.structEntry] at he
  subst he
  exact h _ _ hd

theorem Run.not_name {n : String} (h : ∀ tps fs, Dcl.struct n tps fs ∉ ds) : n ∉ structNames (allNodes ds) := by
  unfold allNodes
  rw [structNames_append, structNames_fns, List.append_nil, nodes_names]
  intro hm
  obtain ⟨e, he, rfl⟩ := List.mem_map.1 hm
  obtain ⟨d, hd, he⟩ := List.mem_filterMap.1 he
  cases d <;> simp [Dcl.structEntry] at he
  subst he
  exact h _ _ hd

theorem Run.unique {n : String} {tps tps' : List (String × Nat)} {fs fs' : List (String × TyN)} {pre post : List Dcl}
    (he : ds = pre ++ .struct n tps fs :: post) (h : Dcl.struct n tps' fs' ∈ pre ∨ Dcl.struct n tps' fs' ∈ post) : False := by
  have := R.names
  rw [he, List.filterMap_append, List.filterMap_cons] at this
  simp only [Dcl.typeEntry, List.map_append, List.map_cons, List.nodup_append, List.nodup_cons] at this
  rcases h with h | h
  · exact this.2.2 n (struct_entry h) n List.mem_cons_self rfl
  · exact this.2.1.1 (struct_entry h)

/-- Where the third loop comes to a struct. -/
theorem Run.split {pre post : List Dcl} {d : Dcl} (he : ds = pre ++ d :: post) :
    allNodes ds = (nodes 2 pre).1 ++ ((nodes (2 + (pre.flatMap Dcl.entries).length) (d :: post)).1 ++ (nodes 2 ds).2.map .fn) := by
  unfold allNodes
  subst he
  rw [nodes_append]
  simp only [List.append_assoc]

theorem Run.later : Later T2 F ∧ (∀ n, n ∉ structNames (allNodes ds) → F.structs.lookup n = T2.structs.lookup n) ∧
    ∀ id, id ∉ itemIds (allNodes ds) → F.fns[id]? = T2.fns[id]? :=
  third_later R.wf R.fits R.structs R.third

/-- The fields of a struct after the third loop. -/
theorem Run.struct_done {n : String} {tps : List (String × Nat)} {fs : List (String × TyN)} {pre post : List Dcl} (he : ds = pre ++ .struct n tps fs :: post) :
    ∃ M, Dcl.third k T2 (nodes 2 pre).1 = .ok (M, []) ∧ Later T2 M ∧ Later M F ∧ ∃ us : List RTy, F.structs.lookup n = some ⟨tps, (fs.map (·.1)).zip (us.map some)⟩ ∧
      All₂ (fun p u => ∃ M', Near n M M' ∧ M'.inst k tps [] p.2 = .ok (some u, []) ∧ ∀ Γ, Shows T2 tps Γ → Made M' Γ p.2 u) fs us := by
  have hs := R.split he
  simp only [nodes, List.cons_append] at hs
  obtain ⟨h1, _⟩ := R.second_struct (n := n) (tps := tps) (fs := fs) (by rw [he]; simp)
  exact third_struct R.wf (hs ▸ R.fits) (hs ▸ R.structs) (hs ▸ R.third) h1

/-- A struct without type arguments in its fields is not changed by the third loop. -/
theorem Run.flat {n : String} {tps : List (String × Nat)} {fs : List (String × TyN)} (h : Dcl.struct n tps fs ∈ ds) (hf : appliedAll (fs.map (·.2)) = [])
    {a b : List Node} (ha : allNodes ds = a ++ b) {M : Tab} (hM : Dcl.third k T2 a = .ok (M, [])) : M.structs.lookup n = T2.structs.lookup n := by
  obtain ⟨h1, h2⟩ := R.second_struct h
  have hfit : Fits T2 a := fits_sub R.fits (fun x hx => by rw [ha]; simp [hx])
  have hnames : (structNames a).Nodup := by
    have := R.structs
    rw [ha, structNames_append, List.nodup_append] at this
    exact this.1
  by_cases hn : n ∈ structNames a
  · have hmem : ∃ gs, Node.struct n gs ∈ a := by
      clear ha hM hfit hnames
      induction a with
      | nil => simp [structNames] at hn
      | cons x a ih =>
        cases x with
        | struct m gs =>
          simp only [structNames, List.mem_cons] at hn
          rcases hn with rfl | hn
          · exact ⟨gs, by simp⟩
          · obtain ⟨gs, h⟩ := ih hn
            exact ⟨gs, by simp [h]⟩
        | fn i =>
          obtain ⟨gs, h⟩ := ih (by simpa [structNames] using hn)
          exact ⟨gs, by simp [h]⟩
    obtain ⟨gs, hg⟩ := hmem
    have hgs : gs = fs := by
      have : Node.struct n gs ∈ allNodes ds := by rw [ha]; simp [hg]
      have : Node.struct n gs ∈ (nodes 2 ds).1 := by
        rcases List.mem_append.1 this with hm | hm
        · exact hm
        · obtain ⟨_, _, h⟩ := List.mem_map.1 hm
          cases h
      obtain ⟨tps', hd⟩ := nodes_struct.1 this
      obtain ⟨pre, post, he⟩ := List.append_of_mem h
      rw [he] at hd
      rcases List.mem_append.1 hd with hd | hd
      · exact (R.unique he (.inl hd)).elim
      · rcases List.mem_cons.1 hd with hd | hd
        · cases hd; rfl
        · exact (R.unique he (.inr hd)).elim
    subst hgs
    obtain ⟨pre, post, he⟩ := List.append_of_mem hg
    subst he
    obtain ⟨M1, h3, h4, h5, us, h6, h7⟩ := third_struct R.wf hfit hnames hM h1
    rw [h6, h1]
    simp only [Option.some.injEq, SRec.mk.injEq, true_and]
    have : ∀ (gs : List (String × TyN)) (us : List RTy), appliedAll (gs.map (·.2)) = [] → (∀ p ∈ gs, (T1.create tps p.2).isSome) →
        All₂ (fun p u => ∃ M', Near n M1 M' ∧ M'.inst k tps [] p.2 = .ok (some u, []) ∧ ∀ Γ, Shows T2 tps Γ → Made M' Γ p.2 u) gs us →
        All₂ (fun p u => T1.create tps p.2 = some u) gs us := by
      intro gs us hg hs h
      induction h with
      | nil => exact .nil
      | cons h _ ih =>
        rename_i a b as bs h'
        simp only [List.map_cons, appliedAll, List.append_eq_nil_iff] at hg
        refine .cons ?_ (ih hg.2 (fun p hp => hs p (List.mem_cons_of_mem _ hp)))
        obtain ⟨M', h8, h9, _⟩ := h
        obtain ⟨v, hv⟩ := Option.isSome_iff_exists.1 (hs a List.mem_cons_self)
        have hst : SameTypes T1 M' := fun tys x => by
          rw [h8.types, h4.types, R.second.step.types]
        have h10 := inst_flat k tps a.2 v hg.1 (by rw [create_congr hst]; exact hv)
        rw [h9] at h10
        simp only [Except.ok.injEq, Prod.mk.injEq, Option.some.injEq, and_true] at h10
        rw [hv, h10]
    exact zip_eq_created (this gs us hf h2 h7)
  · exact (third_later R.wf hfit hnames hM).2.1 n hn

/-- Every struct in the table is declared. -/
theorem Run.declared {n : String} {S : SRec} (h : F.structs.lookup n = some S) : ∃ tps fs, Dcl.struct n tps fs ∈ ds := by
  by_cases hn : ∃ tps fs, Dcl.struct n tps fs ∈ ds
  · exact hn
  · have hn : ∀ tps fs, Dcl.struct n tps fs ∉ ds := fun tps fs hm => hn ⟨tps, fs, hm⟩
    rw [R.later.2.1 n (R.not_name hn), R.second_none hn] at h
    cases h

theorem Run.second_enum {n : String} {E : ERec} (h : T2.enums.lookup n = some E) : ∃ tps cs, Dcl.enum n tps cs ∈ ds ∧ E.tps = tps := by
  by_cases hn : ∃ tps cs, Dcl.enum n tps cs ∈ ds
  · obtain ⟨tps, cs, hm⟩ := hn
    refine ⟨tps, cs, hm, ?_⟩
    obtain ⟨ms, hms⟩ := R.known.enums n tps cs hm
    obtain ⟨pre, post, he⟩ := List.append_of_mem hm
    obtain ⟨h1, _⟩ := R.second.enums pre n tps cs post ms he hms
    rw [h] at h1
    cases h1
    rfl
  · have hn : ∀ tps cs, Dcl.enum n tps cs ∉ ds := fun tps fs hm => hn ⟨tps, fs, hm⟩
    rw [R.second.otherEnums n hn, R.first.enums] at h
    simp only [Tab.std, List.nil_append] at h
    obtain ⟨d, hd, he⟩ := List.mem_filterMap.1 (lookup_mem' h)
    cases d <;> simp [Dcl.enumEntry] at he
    obtain ⟨rfl, _⟩ := he
    exact absurd hd (hn _ _)

/-- The fields of a struct mention what is written. -/
theorem Run.field_decls {n : String} {tps : List (String × Nat)} {fs : List (String × TyN)} (h : Dcl.struct n tps fs ∈ ds) {S : SRec} (hS : F.structs.lookup n = some S) :
    ∀ p ∈ S.fields, ∀ t, p.2 = some t → ∀ m ∈ t.decls, m ∈ bareAll (fs.map (·.2)) ++ appliedAll (fs.map (·.2)) := by
  obtain ⟨pre, post, he⟩ := List.append_of_mem h
  obtain ⟨M, _, h1, h2, us, h3, h4⟩ := R.struct_done he
  rw [h3] at hS
  cases hS
  intro p hp t ht m hm
  obtain ⟨w, u, h5, h6, M', h7, h8, h9⟩ := zip_mem_all₂ h4 p hp
  rw [ht] at h6
  cases h6
  have := (h9 _ (shows_plain T2 tps)).decls m hm
  simp only [List.mem_append, bareAll_mem, appliedAll_mem] at this ⊢
  have hw : w ∈ fs.map (·.2) := List.mem_map_of_mem (f := (·.2)) h5
  rcases this with h | h
  · exact .inl ⟨w, hw, h⟩
  · exact .inr ⟨w, hw, h⟩

end

mutual
theorem means_vars {Γ : Env} {V : List Nat} : ∀ (t : TyN) (u : Ty), t.Means Γ u →
    (∀ x ∈ bare t, ∀ s v, FindsType Γ x s → s.ty = some v → ∀ k ∈ v.vars, k ∈ V) → ∀ k ∈ u.vars, k ∈ V
  | .named x false as, u, h, hb => by
    simp only [TyN.Means] at h
    obtain ⟨s, h1, h2⟩ := h
    exact hb x (by simp [bare]) s u h1 h2
  | .named x true as, u, h, hb => by
    simp only [TyN.Means] at h
    obtain ⟨s, n, ps, ts, h1, h2, _, _, h3⟩ := h
    have := meansAll_vars as ts h2 (by simpa only [bare] using hb)
    rcases h3 with ⟨_, rfl⟩ | ⟨_, rfl⟩ <;> simpa only [Ty.vars] using this
  | .array e, u, h, hb => by
    simp only [TyN.Means] at h
    obtain ⟨v, rfl, h⟩ := h
    simpa only [Ty.vars] using means_vars e v h (by simpa only [bare] using hb)
  | .func ps, u, h, hb => by
    simp only [TyN.Means] at h
    obtain ⟨ts, rfl, h⟩ := h
    simpa only [Ty.vars, List.append_nil] using meansAll_vars ps ts h (by simpa only [bare] using hb)
  | .funcR ps r, u, h, hb => by
    simp only [TyN.Means] at h
    obtain ⟨ts, v, rfl, h1, h2⟩ := h
    simp only [bare, List.mem_append] at hb
    intro k hk
    simp only [Ty.vars, List.mem_append] at hk
    rcases hk with hk | hk
    · exact meansAll_vars ps ts h1 (fun x hx => hb x (.inl hx)) k hk
    · exact means_vars r v h2 (fun x hx => hb x (.inr hx)) k hk
theorem meansAll_vars {Γ : Env} {V : List Nat} : ∀ (ts : List TyN) (us : List Ty), MeansAll Γ ts us →
    (∀ x ∈ bareAll ts, ∀ s v, FindsType Γ x s → s.ty = some v → ∀ k ∈ v.vars, k ∈ V) → ∀ k ∈ varsAll us, k ∈ V
  | [], us, h, hb => by
    simp only [MeansAll] at h
    subst h
    simp [varsAll]
  | t :: ts, us, h, hb => by
    simp only [MeansAll] at h
    obtain ⟨v, vs, rfl, h1, h2⟩ := h
    simp only [bareAll, List.mem_append] at hb
    intro k hk
    simp only [varsAll, List.mem_append] at hk
    rcases hk with hk | hk
    · exact means_vars t v h1 (fun x hx => hb x (.inl hx)) k hk
    · exact meansAll_vars ts vs h2 (fun x hx => hb x (.inr hx)) k hk
end

theorem finds_plain {T : Tab} {tys : List (String × Nat)} {x : String} {s : Chk.Alt} (h : FindsType (plainEnv T tys) x s) :
    (∃ k, (x, k) ∈ tys ∧ s.ty = some (.param k)) ∨ (x ∉ tys.map (·.1) ∧ ∃ t, T.type? [] x = some t ∧ s.ty = some (t.ty T.arity)) := by
  unfold plainEnv at h
  cases h with
  | here h1 h2 =>
    rw [lookup_map (fun k => [Chk.tparamSym k]) tys x] at h1
    obtain ⟨k, hk, h3⟩ := Option.map_eq_some_iff.1 h1
    cases h3
    exact .inl ⟨k, lookup_mem' hk, rfl⟩
  | outer h1 h2 =>
    have hx : tys.lookup x = none := by
      cases hk : tys.lookup x with
      | none => rfl
      | some k =>
        have := h1 (Chk.tparamSym k) [] (by rw [lookup_map (fun k => [Chk.tparamSym k]) tys x, hk]; rfl)
        cases this
    refine .inr ⟨lookup_none.1 hx, ?_⟩
    cases h2 with
    | here h3 h4 =>
      rw [scope_lookup] at h3
      obtain ⟨l, hl, h5⟩ := Option.map_eq_some_iff.1 h3
      cases l with
      | nil => cases h5
      | cons a l =>
        simp only [List.map_cons, List.cons.injEq] at h5
        obtain ⟨rfl, _⟩ := h5
        cases a with
        | fn id => cases h4
        | type t => exact ⟨t, by simp [Tab.type?, hl], rfl⟩
    | outer _ h => cases h

section
variable {k : Nat} {ds : List Dcl} {T1 T2 F T : Tab} {items : List Item} (R : Run k ds T1 T2 F T items)
include R

theorem Run.sealed (hs : Saturated ds) : Sealed F := by
  intro n S hS p hp t ht i hi
  obtain ⟨tps, fs, h⟩ := R.declared hS
  obtain ⟨pre, post, he⟩ := List.append_of_mem h
  obtain ⟨M, _, h1, h2, us, h3, h4⟩ := R.struct_done he
  rw [h3] at hS
  cases hS
  obtain ⟨w, u, h5, h6, M', h7, h8, h9⟩ := zip_mem_all₂ h4 p hp
  rw [ht] at h6
  cases h6
  have hm := (h9 _ (shows_plain T2 tps)).means
  rw [h7.arity, ← h2.arity] at hm
  refine means_vars w _ hm (fun x hx s v hf hv j hj => ?_) i hi
  rcases finds_plain hf with ⟨l, hl, h10⟩ | ⟨hx', t', h10, h11⟩
  · rw [hv] at h10
    cases h10
    simp only [Ty.vars, List.mem_singleton] at hj
    subst hj
    exact List.mem_map_of_mem (f := (·.2)) hl
  · have hng := (hs n tps fs h (p.1, w) h5 x hx).resolve_right hx'
    rw [hv] at h11
    cases h11
    rcases type?_cases R.wf h10 with ⟨_, h, _⟩ | ⟨_, rfl⟩ | ⟨rfl, S, hS, _⟩ | ⟨E, hE, _, rfl⟩
    · cases h
    · simp [RTy.ty, Ty.vars] at hj
    · by_cases hd : ∃ tps fs, Dcl.struct x tps fs ∈ ds
      · obtain ⟨tps', fs', hd⟩ := hd
        have := hng _ hd
        simp only [Dcl.generic, true_and, ne_eq, Classical.not_not] at this
        subst this
        rw [(R.second_struct hd).1] at hS
        cases hS
        simp [RTy.ty, Tab.arity, (R.second_struct hd).1, Ty.vars, varsAll] at hj
      · rw [R.second_none (fun tps fs hm => hd ⟨tps, fs, hm⟩)] at hS
        cases hS
    · obtain ⟨tps', cs, hd, h12⟩ := R.second_enum hE
      have := hng _ hd
      simp only [Dcl.generic, true_and, ne_eq, Classical.not_not] at this
      rw [h12, this] at hj
      simp [RTy.ty, tyAll, Ty.vars, varsAll] at hj

/-- The fields of the struct are right. -/
def FieldsRight (F : Tab) (n : String) : Prop := ∀ S, F.structs.lookup n = some S → ∀ p ∈ S.fields, ∀ t, p.2 = some t → t.right F

theorem Run.flat_right {n : String} {tps : List (String × Nat)} {fs : List (String × TyN)} (h : Dcl.struct n tps fs ∈ ds) (hf : appliedAll (fs.map (·.2)) = []) :
    FieldsRight F n := by
  intro S hS p hp t ht
  have := R.flat h hf (a := allNodes ds) (b := []) (by simp) R.third
  rw [hS, (R.second_struct h).1] at this
  cases this
  obtain ⟨q, hq, rfl⟩ := List.mem_map.1 hp
  simp only at ht
  rw [← create_congr R.second.step.types] at ht
  exact create_right R.wf F tps _ _ ht

/-- A part of the structs that the third loop is done with when it has come to `d`. -/
theorem Run.settled {pre post : List Dcl} {d : Dcl} (he : ds = pre ++ d :: post)
    (hpre : ∀ n tps fs, Dcl.struct n tps fs ∈ pre → FieldsRight F n) {M M' : Tab} {n : String}
    (hM : Dcl.third k T2 (nodes 2 pre).1 = .ok (M, [])) (hMM : Near n M M')
    (hn : (∃ tps fs, d = .struct n tps fs ∧ appliedAll (fs.map (·.2)) ≠ []) ∨ ((∀ m tps fs, d ≠ .struct m tps fs) ∧ M' = M)) :
    Settled M' F (Ready ds pre) := by
  have hsp := R.split he
  have hlF : Later T2 F := R.later.1
  have hlM : Later T2 M := (third_later R.wf (fits_sub R.fits (fun x hx => by rw [hsp]; simp [hx]))
    (by have := R.structs; rw [hsp, structNames_append, List.nodup_append] at this; exact this.1) hM).1
  have notn : ∀ m, Ready ds pre m → M'.structs.lookup m = M.structs.lookup m := by
    intro m hm
    rcases hn with ⟨tps, fs, rfl, hne⟩ | ⟨_, rfl⟩
    · refine hMM.others m (fun hmn => ?_)
      subst hmn
      obtain ⟨h1, h2⟩ := hm
      rcases h1 tps fs (by rw [he]; simp) with h | h
      · exact R.unique he (.inl h)
      · exact hne h
    · rfl
  have same : ∀ m, Ready ds pre m → M'.structs.lookup m = F.structs.lookup m := by
    intro m hm
    rw [notn m hm]
    by_cases hd : ∃ tps fs, Dcl.struct m tps fs ∈ ds
    · obtain ⟨tps, fs, hd⟩ := hd
      obtain ⟨h1, h2⟩ := hm
      rcases h1 tps fs hd with h | h
      · -- declared before
        obtain ⟨N, h3, h4⟩ := third_append (hsp ▸ R.third)
        rw [hM] at h3
        cases h3
        have hnn := R.structs
        rw [hsp, structNames_append, List.nodup_append] at hnn
        have hmem : m ∈ structNames (nodes 2 pre).1 := mem_structNames (nodes_struct.2 ⟨tps, h⟩)
        have hfit : Fits M ((nodes (2 + (pre.flatMap Dcl.entries).length) (d :: post)).1 ++ (nodes 2 ds).2.map .fn) := by
          intro y fs' hy
          rw [(third_later R.wf (fits_sub R.fits (fun x hx => by rw [hsp]; simp [hx])) hnn.1 hM).2.1 y
            (fun hc => hnn.2.2 y hc y (mem_structNames hy) rfl)]
          exact R.fits y fs' (by rw [hsp]; exact List.mem_append_right _ hy)
        exact ((third_later (hlM.wf R.wf) hfit hnn.2.1 h4).2.1 m (fun hc => hnn.2.2 m hmem m hc rfl)).symm
      · rw [R.flat hd h hsp hM, R.flat hd h (a := allNodes ds) (b := []) (by simp) R.third]
    · have hd : ∀ tps fs, Dcl.struct m tps fs ∉ ds := fun tps fs h => hd ⟨tps, fs, h⟩
      have hnn := R.not_name hd
      rw [R.later.2.1 m hnn]
      rw [hsp, structNames_append] at hnn
      exact (third_later R.wf (fits_sub R.fits (fun x hx => by rw [hsp]; simp [hx]))
        (by have := R.structs; rw [hsp, structNames_append, List.nodup_append] at this; exact this.1) hM).2.1 m (fun hc => hnn (List.mem_append_left _ hc))
  refine ⟨by rw [hMM.arity, hlM.arity, hlF.arity], same, fun m S hm hS p hp t ht => ?_⟩
  obtain ⟨tps, fs, hd⟩ := R.declared hS
  obtain ⟨h1, h2⟩ := hm
  refine ⟨?_, fun y hy => h2 tps fs hd y (R.field_decls hd hS p hp t ht y hy)⟩
  rcases h1 tps fs hd with h | h
  · exact hpre m tps fs h S hS p hp t ht
  · exact R.flat_right hd h S hS p hp t ht

/-- All fields are right. -/
theorem Run.fields_right (hs : Saturated ds) (ho : Ordered ds) : ∀ n, FieldsRight F n := by
  have key : ∀ (N : Nat) (pre post : List Dcl), pre.length = N → ds = pre ++ post → ∀ n tps fs, Dcl.struct n tps fs ∈ pre → FieldsRight F n := by
    intro N
    induction N with
    | zero =>
      intro pre post hl _ n tps fs hm
      cases pre with
      | nil => cases hm
      | cons _ _ => simp at hl
    | succ N ih =>
      intro pre post hl he n tps fs hm
      have hne : pre ≠ [] := by intro h; subst h; simp at hl
      obtain ⟨pre', d, rfl⟩ : ∃ pre' d, pre = pre' ++ [d] := ⟨pre.dropLast, pre.getLast hne, (List.dropLast_concat_getLast hne).symm⟩
      have he' : ds = pre' ++ d :: post := by rw [he]; simp
      have ih' := ih pre' (d :: post) (by simpa using hl) he'
      rcases List.mem_append.1 hm with hm | hm
      · exact ih' n tps fs hm
      · simp only [List.mem_singleton] at hm
        subst hm
        by_cases hf : appliedAll (fs.map (·.2)) = []
        · exact R.flat_right (tps := tps) (by rw [he']; simp) hf
        · intro S hS p hp t ht
          obtain ⟨M, h0, h1, h2, us, h3, h4⟩ := R.struct_done he'
          rw [h3] at hS
          cases hS
          obtain ⟨w, u, h5, h6, M', h7, h8, h9⟩ := zip_mem_all₂ h4 p hp
          rw [ht] at h6
          cases h6
          have hset := R.settled he' ih' h0 h7 (.inl ⟨tps, fs, rfl, hf⟩)
          refine (h9 _ (shows_plain T2 tps)).right F _ (R.sealed hs) hset (fun x hx => ?_)
          refine ho pre' _ post he' x ?_
          simp only [Dcl.applied, appliedAll_mem]
          exact ⟨w, List.mem_map_of_mem (f := (·.2)) h5, hx⟩
  intro n S hS
  obtain ⟨tps, fs, hd⟩ := R.declared hS
  exact key ds.length ds [] rfl (by simp) n tps fs hd S hS

end

/-! ### Functions -/

theorem nodes_fn_split {i : Item} : ∀ {ds : List Dcl} {id : Nat} {a b : List Node}, (nodes id ds).1 = a ++ .fn i :: b →
    ∃ pre f post, ds = pre ++ .fn f :: post ∧ (nodes id pre).1 = a ∧
      i = ⟨id + (pre.flatMap Dcl.entries).length, f.head.params.map (·.2), f.head.ret, f.body⟩
  | [], id, a, b, h => by simp [nodes] at h
  | .struct n tps fs :: ds, id, a, b, h => by
    simp only [nodes] at h
    cases a with
    | nil => simp at h
    | cons x a =>
      simp only [List.cons_append, List.cons.injEq] at h
      obtain ⟨rfl, h⟩ := h
      obtain ⟨pre, f, post, h1, h2, h3⟩ := nodes_fn_split h
      exact ⟨.struct n tps fs :: pre, f, post, by simp [h1], by simp [nodes, h2], by simpa [Dcl.entries] using h3⟩
  | .enum n tps cs :: ds, id, a, b, h => by
    simp only [nodes] at h
    obtain ⟨pre, f, post, h1, h2, h3⟩ := nodes_fn_split h
    refine ⟨.enum n tps cs :: pre, f, post, by simp [h1], by simp [nodes, h2], ?_⟩
    rw [h3]
    simp [Dcl.entries, Nat.add_assoc]
  | .fn g :: ds, id, a, b, h => by
    simp only [nodes] at h
    cases a with
    | nil =>
      simp only [List.nil_append, List.cons.injEq, Node.fn.injEq] at h
      exact ⟨[], g, ds, rfl, by simp [nodes], by rw [← h.1]; simp⟩
    | cons x a =>
      simp only [List.cons_append, List.cons.injEq] at h
      obtain ⟨rfl, h⟩ := h
      obtain ⟨pre, f, post, h1, h2, h3⟩ := nodes_fn_split h
      refine ⟨.fn g :: pre, f, post, by simp [h1], by simp [nodes, h2], ?_⟩
      rw [h3]
      simp only [List.flatMap_cons, Dcl.entries, List.length_append, List.length_cons, List.length_nil, Item.mk.injEq, and_true]
      omega

theorem mem_itemIds {id : Nat} : ∀ {ns : List Node}, id ∈ itemIds ns → ∃ i, Node.fn i ∈ ns ∧ i.id = id
  | [], h => by cases h
  | .struct _ _ :: ns, h => by
    obtain ⟨i, h1, h2⟩ := mem_itemIds (ns := ns) h
    exact ⟨i, by simp [h1], h2⟩
  | .fn j :: ns, h => by
    simp only [itemIds, List.mem_cons] at h
    rcases h with rfl | h
    · exact ⟨j, by simp, rfl⟩
    · obtain ⟨i, h1, h2⟩ := mem_itemIds h
      exact ⟨i, by simp [h1], h2⟩

theorem setTypes_mem : ∀ {ps : List (String × Option RTy)} {os : List (Option RTy)} {p : String × Option RTy}, p ∈ setTypes ps os → p.2 ∈ os ∨ p ∈ ps
  | [], os, p, h => by simp [setTypes] at h
  | q :: ps, [], p, h => by simp only [setTypes] at h; exact .inr h
  | (x, _) :: ps, t :: ts, p, h => by
    simp only [setTypes, List.mem_cons] at h
    rcases h with rfl | h
    · exact .inl (by simp)
    · rcases setTypes_mem h with h | h
      · exact .inl (by simp [h])
      · exact .inr (by simp [h])

/-- The types of the function are right. -/
structure FnRight (F : Tab) (f : FRec) : Prop where
  params : ∀ p ∈ f.params, ∀ t, p.2 = some t → t.right F
  ret : ∀ t, f.ret = some t → t.right F

theorem params_right {T : Tab} (hT : Wf T) (F : Tab) {tys : List (String × Nat)} : ∀ {ps : List (String × TyN)} {names : List String} {qs : List (String × Option RTy)},
    T.params tys names ps = .ok qs → ∀ p ∈ qs, ∀ t, p.2 = some t → t.right F
  | [], names, qs, h => by
    simp only [Tab.params, Except.ok.injEq] at h
    subst h
    simp
  | (x, t) :: ps, names, qs, h => by
    simp only [Tab.params] at h
    split at h
    · cases h
    · rename_i u hu
      split at h
      · cases h
      · cases hq : T.params tys (x :: names) ps with
        | error e => rw [hq] at h; simp [Except.map] at h
        | ok rs =>
          rw [hq] at h
          simp only [Except.map, Except.ok.injEq] at h
          subst h
          intro p hp v hv
          rcases List.mem_cons.1 hp with rfl | hp
          · cases hv
            exact create_right hT F tys t _ hu
          · exact params_right hT F hq p hp v hv

theorem signature_right {T : Tab} (hT : Wf T) (F : Tab) {data : FnData} {outer : List (String × Nat)} {h : Head} {nr : Bool} {r : FRec}
    (hs : T.signature data outer h nr = .ok r) : FnRight F r := by
  unfold Tab.signature at hs
  split at hs
  · cases hs
  · simp only at hs
    split at hs
    · cases hs
    · rename_i ps hp
      split at hs
      · cases hs
      · rename_i u hu
        have hu' : u.right F := by
          cases hr : h.ret with
          | none =>
            rw [hr] at hu
            simp only [Tab.ret, Except.ok.injEq] at hu
            subst hu
            simp [RTy.right]
          | some w =>
            rw [hr] at hu
            simp only [Tab.ret] at hu
            split at hu
            · cases hu
            · rename_i v hv
              cases hu
              exact create_right hT F _ w _ hv
        have : r.params = ps ∧ r.ret = some u := by
          repeat' split at hs
          all_goals first
            | (simp only [Except.ok.injEq] at hs; subst hs; exact ⟨rfl, rfl⟩)
            | cases hs
        refine ⟨by rw [this.1]; exact params_right hT F hp, fun t ht => ?_⟩
        rw [this.2] at ht
        cases ht
        exact hu'

theorem all₂_mem {α β : Type} {R : α → β → Prop} {as : List α} {bs : List β} (h : All₂ R as bs) : ∀ b ∈ bs, ∃ a ∈ as, R a b := by
  induction h with
  | nil => simp
  | cons h _ ih =>
    intro b hb
    rcases List.mem_cons.1 hb with rfl | hb
    · exact ⟨_, by simp, h⟩
    · obtain ⟨a, h1, h2⟩ := ih b hb
      exact ⟨a, by simp [h1], h2⟩

section
variable {k : Nat} {ds : List Dcl} {T1 T2 F T : Tab} {items : List Item} (R : Run k ds T1 T2 F T items)
include R

theorem Run.second_fns (f : FRec) (h : f ∈ T2.fns) : FnRight F f := by
  obtain ⟨rs, h1, h2⟩ := R.second.step.fns
  rw [h1, R.first.fns] at h
  rcases List.mem_append.1 h with h | h
  · simp only [Tab.std, List.mem_cons, List.not_mem_nil, or_false] at h
    rcases h with rfl | rfl
    · refine ⟨fun p hp t ht => ?_, fun t ht => by cases ht; simp [RTy.right]⟩
      simp only [List.mem_cons, List.not_mem_nil, or_false, or_self] at hp
      subst hp
      cases ht
      simp [RTy.right]
    · refine ⟨fun p hp t ht => ?_, fun t ht => by cases ht; simp [RTy.right]⟩
      simp only [List.mem_cons, List.not_mem_nil, or_false] at hp
      subst hp
      cases ht
      simp [RTy.right]
  · obtain ⟨e, _, h3⟩ := all₂_mem h2 f h
    rw [← signature_congr R.second.step.types] at h3
    exact signature_right R.wf F h3

omit R in
theorem done_right {M : Tab} {i : Item} {f f' : FRec} {P : String → Prop} (hd : FnDone M k i f f') (hf : FnRight F f) (hF : Sealed F)
    (hs : Settled M F P) (hp : ∀ x ∈ appliedAll i.params ++ appliedAll i.ret.toList, P x) : FnRight F f' := by
  have hp1 : ∀ x ∈ appliedAll i.params, P x := fun x hx => hp x (List.mem_append_left _ hx)
  have hp2 : ∀ x ∈ appliedAll i.ret.toList, P x := fun x hx => hp x (List.mem_append_right _ hx)
  refine ⟨fun p hpm t ht => ?_, fun t ht => ?_⟩
  · obtain ⟨us, h1, h2⟩ := hd.params
    rw [h1] at hpm
    rcases setTypes_mem hpm with h | h
    · rw [ht] at h
      obtain ⟨u, hu, h⟩ := List.mem_map.1 h
      cases h
      have := (h2 _ (shows_plain M f.tys)).right F P hF hs hp1
      rw [rightAll_iff] at this
      exact this _ hu
    · exact hf.params p h t ht
  · have := hd.ret
    cases hr : i.ret with
    | none =>
      rw [hr] at this
      exact hf.ret t (this ▸ ht)
    | some w =>
      rw [hr] at this hp2
      obtain ⟨u, h1, h2⟩ := this
      rw [ht] at h1
      cases h1
      refine (h2 _ (shows_plain M f.tys)).right F P hF hs (fun x hx => hp2 x ?_)
      simp [appliedAll, hx]

theorem Run.fns_right (hs : Saturated ds) (ho : Ordered ds) : ∀ f ∈ F.fns, FnRight F f := by
  intro f hf
  have hF := R.sealed hs
  have hall := R.fields_right hs ho
  obtain ⟨id, hid⟩ := List.getElem?_of_mem hf
  by_cases hi : id ∈ itemIds (allNodes ds)
  · obtain ⟨i, hm, rfl⟩ := mem_itemIds hi
    unfold allNodes at hm
    rcases List.mem_append.1 hm with hm | hm
    · obtain ⟨a, b, hab⟩ := List.append_of_mem hm
      obtain ⟨pre, g, post, h1, h2, h3⟩ := nodes_fn_split hab
      have hall' : allNodes ds = a ++ .fn i :: (b ++ (nodes 2 ds).2.map .fn) := by
        unfold allNodes; rw [hab]; simp
      obtain ⟨M, h4, h5, h6, f0, f', h7, h8, h9⟩ := third_fn R.wf (hall' ▸ R.fits) (hall' ▸ R.structs) (hall' ▸ R.ids) (hall' ▸ R.third)
      rw [hid] at h8
      cases h8
      have hset := R.settled h1 (fun n _ _ _ => hall n) (n := "") (h2.symm ▸ h4) (Near.refl "" M) (.inr ⟨by simp, rfl⟩)
      refine done_right h9 (R.second_fns f0 (List.mem_of_getElem? h7)) hF hset (fun x hx => ?_)
      refine ho pre _ post h1 x ?_
      rw [h3] at hx
      simpa [Dcl.applied] using hx
    · obtain ⟨j, hj, hji⟩ := List.mem_map.1 hm
      cases hji
      obtain ⟨a, b, hab⟩ := List.append_of_mem hj
      have hall' : allNodes ds = ((nodes 2 ds).1 ++ a.map .fn) ++ .fn i :: b.map .fn := by
        unfold allNodes; rw [hab]; simp
      obtain ⟨M, h4, h5, h6, f0, f', h7, h8, h9⟩ := third_fn R.wf (hall' ▸ R.fits) (hall' ▸ R.structs) (hall' ▸ R.ids) (hall' ▸ R.third)
      rw [hid] at h8
      cases h8
      have hsame : ∀ n, M.structs.lookup n = F.structs.lookup n := by
        intro n
        obtain ⟨N, h10, h11⟩ := third_append (hall' ▸ R.third)
        rw [h4] at h10
        cases h10
        have hnil : structNames (Node.fn i :: b.map .fn) = [] := by simp [structNames, structNames_fns]
        refine ((third_later (h5.wf R.wf) (fun m fs hm => ?_) (by rw [hnil]; simp) h11).2.1 n (by rw [hnil]; simp)).symm
        have := mem_structNames hm
        rw [hnil] at this
        cases this
      have hset : Settled M F (fun _ => True) :=
        ⟨h6.arity.symm, fun n _ => hsame n, fun n S _ hS p hp t ht => ⟨hall n S hS p hp t ht, fun _ _ => trivial⟩⟩
      exact done_right h9 (R.second_fns f0 (List.mem_of_getElem? h7)) hF hset (fun _ _ => trivial)
  · rw [R.later.2.2 id hi] at hid
    exact R.second_fns f (List.mem_of_getElem? hid)

end

/-! ### Constructors of structs -/

mutual
theorem right_congr {T T' : Tab} (h : T'.structs = T.structs) : ∀ t : RTy, t.right T' ↔ t.right T
  | .prim _ => by simp [RTy.right]
  | .param _ => by simp [RTy.right]
  | .array e => by simp only [RTy.right, right_congr h e]
  | .fn ps r => by simp only [RTy.right, rightAll_congr h ps, right_congr h r]
  | .enum _ ts => by simp only [RTy.right, rightAll_congr h ts]
  | .decl _ => by simp [RTy.right]
  | .inst n ts xs us => by
    have ha : T'.arity = T.arity := by funext n; simp only [Tab.arity, h]
    simp only [RTy.right, rightAll_congr h ts, rightAll_congr h us, h, ha]
theorem rightAll_congr {T T' : Tab} (h : T'.structs = T.structs) : ∀ ts : List RTy, rightAll T' ts ↔ rightAll T ts
  | [] => by simp [rightAll]
  | t :: ts => by simp only [rightAll, right_congr h t, rightAll_congr h ts]
end

/-- What a constructor adds. -/
theorem structCons_ok {T T' : Tab} {n : String} (h : structCons T n = .ok (T', [])) :
    ∃ c S, consName n = some c ∧ T.root.lookup c = none ∧ T.structs.lookup n = some S ∧
      T' = { T with root := T.root ++ [(c, [.fn T.fns.length])],
                    fns := T.fns ++ [⟨{ kind := .structCons, tps := S.tps.map (·.2) }, [], [], S.fields, some (.decl n)⟩] } := by
  unfold structCons at h
  split at h
  · simp at h
  · rename_i c hc
    split at h
    · split at h
      · simp at h
      · cases h
    · rename_i hl
      split at h
      · cases h
      · rename_i S hS
        simp only [Except.ok.injEq, Prod.mk.injEq, and_true] at h
        exact ⟨c, S, hc, hl, hS, h.symm⟩

theorem structConses_right {T T' : Tab} : ∀ {ds : List Dcl}, structConses T ds = .ok (T', []) → T.right → T'.right ∧ T'.structs = T.structs := by
  intro ds
  induction ds generalizing T with
  | nil =>
    intro h hr
    simp only [structConses, Except.ok.injEq, Prod.mk.injEq, and_true] at h
    subst h
    exact ⟨hr, rfl⟩
  | cons d ds ih =>
    intro h hr
    cases d with
    | struct n tps fs =>
      simp only [structConses] at h
      split at h
      · cases h
      · rename_i T1 es h1
        split at h
        · cases h
        · rename_i T2 es' h2
          simp only [Except.ok.injEq, Prod.mk.injEq, List.append_eq_nil_iff] at h
          obtain ⟨rfl, rfl, rfl⟩ := h
          obtain ⟨c, S, _, _, hS, rfl⟩ := structCons_ok h1
          have hr' : Tab.right { T with
              root := T.root ++ [(c, [.fn T.fns.length])]
              fns := T.fns ++ [⟨{ kind := .structCons, tps := S.tps.map (·.2) }, [], [], S.fields, some (.decl n)⟩] } := by
            refine ⟨fun n S hS p hp t ht => (right_congr (T := T) (by rfl) t).2 (hr.structs n S hS p hp t ht), fun f hf p hp t ht => (right_congr (T := T) (by rfl) t).2 ?_,
              fun f hf t ht => (right_congr (T := T) (by rfl) t).2 ?_⟩
            · rcases List.mem_append.1 hf with hf | hf
              · exact hr.params f hf p hp t ht
              · simp only [List.mem_singleton] at hf
                subst hf
                exact hr.structs _ _ hS p hp t ht
            · rcases List.mem_append.1 hf with hf | hf
              · exact hr.rets f hf t ht
              · simp only [List.mem_singleton] at hf
                subst hf
                cases ht
                simp [RTy.right]
          obtain ⟨h3, h4⟩ := ih h2 hr'
          exact ⟨h3, h4⟩
    | enum n tps cs => exact ih (by simpa only [structConses] using h) hr
    | fn f => exact ih (by simpa only [structConses] using h) hr

theorem Run.right {k : Nat} {ds : List Dcl} {T1 T2 F T : Tab} {items : List Item} (R : Run k ds T1 T2 F T items) (hs : Saturated ds) (ho : Ordered ds) :
    F.right := by
  exact ⟨R.fields_right hs ho, fun f hf => (R.fns_right hs ho f hf).params, fun f hf => (R.fns_right hs ho f hf).ret⟩

end Clara.Sema.Dcl
