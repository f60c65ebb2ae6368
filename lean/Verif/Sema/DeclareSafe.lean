import Verif.Sema.DeclareMeans
import Verif.Sema.DeclareTame
import Verif.Sema.CheckSafe
set_option linter.unusedVariables false
/-
Declaring tame declarations does not panic, and it ends when no struct is inside of itself.
-/
namespace Clara.Sema.Dcl
open Clara Clara.Types
open Clara.Sema.Chk (TyN Err Head FnBody appliesAll)

/-- A result, or the bound was too small, which `E` excludes. -/
def Okd {α : Type} (E : Prop) (P : α → Prop) : Except Stop α → Prop
  | .ok a => P a
  | .error s => s = .fuel ∧ ¬ E

theorem Okd.imp {α : Type} {E : Prop} {P Q : α → Prop} {r : Except Stop α} (h : Okd E P r) (hi : ∀ a, P a → Q a) : Okd E Q r := by
  cases r with
  | ok a => exact hi a h
  | error s => exact h

theorem Okd.map {α β : Type} {E : Prop} {P : α → Prop} {Q : β → Prop} {r : Except Stop α} {f : α → β} (h : Okd E P r) (hi : ∀ a, P a → Q (f a)) : Okd E Q (r.map f) := by
  cases r with
  | ok a => exact hi a h
  | error s => exact h

mutual
theorem substWith_okd {E : Prop} {dec : String → Except Stop RTy} {b : List (Nat × RTy)} : ∀ (t : RTy),
    (∀ n ∈ t.decls, Okd E (fun _ => True) (dec n)) → Okd E (fun _ => True) (substWith dec b t)
  | .prim p, h => trivial
  | .param k, h => trivial
  | .array e, h => by
    simp only [substWith]
    exact (substWith_okd e (by simpa only [RTy.decls] using h)).map (fun _ _ => trivial)
  | .fn ps r, h => by
    simp only [RTy.decls, List.mem_append] at h
    have h1 := substsWith_okd (b := b) ps (fun n hn => h n (.inl hn))
    simp only [substWith]
    cases hq : substsWith dec b ps with
    | error s => rw [hq] at h1; exact h1
    | ok us => exact (substWith_okd r (fun n hn => h n (.inr hn))).map (fun _ _ => trivial)
  | .enum n ts, h => by
    simp only [substWith]
    exact (substsWith_okd ts (by simpa only [RTy.decls] using h)).map (fun _ _ => trivial)
  | .decl n, h => by
    simp only [substWith]
    exact h n (by simp [RTy.decls])
  | .inst n ts xs us, h => by
    simp only [RTy.decls, List.mem_append] at h
    have h1 := substsWith_okd (b := b) ts (fun n hn => h n (.inl hn))
    simp only [substWith]
    cases hq : substsWith dec b ts with
    | error s => rw [hq] at h1; exact h1
    | ok vs => exact (substsWith_okd us (fun n hn => h n (.inr hn))).map (fun _ _ => trivial)
theorem substsWith_okd {E : Prop} {dec : String → Except Stop RTy} {b : List (Nat × RTy)} : ∀ (ts : List RTy),
    (∀ n ∈ declsAll ts, Okd E (fun _ => True) (dec n)) → Okd E (fun _ => True) (substsWith dec b ts)
  | [], h => trivial
  | t :: ts, h => by
    simp only [declsAll, List.mem_append] at h
    have h1 := substWith_okd (b := b) t (fun n hn => h n (.inl hn))
    simp only [substsWith]
    cases hq : substWith dec b t with
    | error s => rw [hq] at h1; exact h1
    | ok vs => exact (substsWith_okd ts (fun n hn => h n (.inr hn))).map (fun _ _ => trivial)
end

theorem mapM_okd {α β : Type} {E : Prop} {f : α → Except Stop β} : ∀ {l : List α}, (∀ a ∈ l, Okd E (fun _ => True) (f a)) → Okd E (fun _ => True) (l.mapM f)
  | [], h => trivial
  | a :: l, h => by
    simp only [List.mapM_cons, bind, Except.bind, pure, Except.pure]
    have h1 := h a (by simp)
    have h2 := mapM_okd (l := l) (fun a ha => h a (by simp [ha]))
    cases hq : f a with
    | error s => rw [hq] at h1; exact h1
    | ok b =>
      simp only
      cases hq : l.mapM f with
      | error s => rw [hq] at h2; exact h2
      | ok b => trivial

/-- The declared structs have fields with types that lead to declared structs with smaller numbers. -/
def FieldsOk (E : Prop) (rank : String → Nat) (T : Tab) : Prop :=
  ∀ n S, T.structs.lookup n = some S → ∀ p ∈ S.fields, ∃ t, p.2 = some t ∧ ∀ m ∈ t.decls, T.structs.lookup m ≠ none ∧ (E → rank m < rank n)

theorem allFields_some : ∀ {fs : List (String × Option RTy)}, (∀ p ∈ fs, ∃ t, p.2 = some t) → ∃ us, allFields fs = .ok us ∧ fs.map (·.2) = us.map some
  | [], h => ⟨[], rfl, rfl⟩
  | (x, o) :: fs, h => by
    obtain ⟨t, ht⟩ := h (x, o) (by simp)
    simp only at ht
    subst ht
    obtain ⟨us, h1, h2⟩ := allFields_some (fs := fs) (fun p hp => h p (by simp [hp]))
    exact ⟨t :: us, by simp [allFields, h1, Except.map], by simp [h2]⟩

theorem subst_okd {E : Prop} {rank : String → Nat} {T : Tab} {b : List (Nat × RTy)} (hT : FieldsOk E rank T) : ∀ (k : Nat) (t : RTy),
    (∀ m ∈ t.decls, T.structs.lookup m ≠ none ∧ (E → rank m < k)) → Okd E (fun _ => True) (T.subst b k t)
  | 0, t, h => by
    simp only [Tab.subst]
    exact substWith_okd t (fun n hn => ⟨rfl, fun he => by have := (h n hn).2 he; omega⟩)
  | k + 1, t, h => by
    simp only [Tab.subst]
    refine substWith_okd t (fun n hn => ?_)
    obtain ⟨h1, h2⟩ := h n hn
    cases hS : T.structs.lookup n with
    | none => exact absurd hS h1
    | some S =>
      have hf := hT n S hS
      have hp := substs_params (fun _ => Except.error Stop.panic) b (S.tps.map (·.2))
      simp only [List.map_map] at hp
      have hp' : ∃ us, substsWith (fun _ => Except.error Stop.panic) b (S.tps.map fun p => RTy.param p.2) = .ok us := ⟨_, hp⟩
      obtain ⟨us, hus⟩ := hp'
      obtain ⟨vs, hvs, hm⟩ := allFields_some (fun p hp => by obtain ⟨t, ht, _⟩ := hf p hp; exact ⟨t, ht⟩)
      simp only [hus, hvs]
      have h3 : Okd E (fun _ => True) (vs.mapM (T.subst b k)) := by
        refine mapM_okd (fun v hv => subst_okd hT k v (fun m hmv => ?_))
        have : some v ∈ S.fields.map (·.2) := by rw [hm]; exact List.mem_map_of_mem hv
        obtain ⟨p, hp, hpv⟩ := List.mem_map.1 this
        obtain ⟨t, ht, hd⟩ := hf p hp
        rw [hpv] at ht
        cases ht
        refine ⟨(hd m hmv).1, fun he => ?_⟩
        have := (hd m hmv).2 he
        have := h2 he
        omega
      cases hq : vs.mapM (T.subst b k) with
      | error s => rw [hq] at h3; exact h3
      | ok ws => trivial

/-! ### Written types -/

/-- The names of the written type are known. -/
def knows (T : Tab) (tys : List (String × Nat)) (t : TyN) : Prop := (T.create tys t).isSome = true

/-- Generic types that are declared are found with their type parameters. -/
def ArOk (ds : List Dcl) (T : Tab) : Prop := ∀ x n, arityIn ds x n → n ≠ 0 ∧
  ((∃ S r, T.root.lookup x = some (.type (.decl x) :: r) ∧ T.structs.lookup x = some S ∧ S.tps.length = n) ∨
   (∃ E ps r, T.root.lookup x = some (.type (.enum x ps) :: r) ∧ T.enums.lookup x = some E ∧ E.tps.length = n ∧ ∀ p ∈ ps, ∃ k, p = .param k))

def TysOk (ds : List Dcl) (tys : List (String × Nat)) : Prop := ∀ p ∈ tys, ∀ k, ¬ arityIn ds p.1 k

theorem insts_length {T : Tab} {k : Nat} {tys : List (String × Nat)} : ∀ {ts : List TyN} {es : List Err} {os : List (Option RTy)} {es' : List Err},
    T.insts k tys es ts = .ok (os, es') → os.length = ts.length
  | [], es, os, es', h => by simp only [Tab.insts, Except.ok.injEq, Prod.mk.injEq] at h; obtain ⟨rfl, _⟩ := h; rfl
  | t :: ts, es, os, es', h => by
    simp only [Tab.insts] at h
    split at h
    · cases h
    · split at h
      · cases h
      · rename_i ts' es'' h2
        simp only [Except.ok.injEq, Prod.mk.injEq] at h
        obtain ⟨rfl, _⟩ := h
        simp [insts_length h2]

section
variable {E : Prop} {rank : String → Nat} {T : Tab} {ds : List Dcl} {k : Nat} {tys : List (String × Nat)}

/-- The structs of the table. -/
def IsStruct (T : Tab) (m : String) : Prop := T.structs.lookup m ≠ none

theorem args_okd (hT : FieldsOk E rank T) (hE : E → ∀ m, IsStruct T m → rank m < k) {t : RTy} {ps : List Nat} {us : List RTy}
    (ht : ∀ m ∈ t.decls, IsStruct T m) (hu : ∀ u ∈ us, ∀ m ∈ u.decls, IsStruct T m) (h0 : ps.length ≠ 0) (hl : ps.length = us.length) :
    Okd E (fun r => ∃ u, r = (some u, []) ∧ ∀ m ∈ u.decls, IsStruct T m) (T.args k t ps (us.map some) []) := by
  unfold Tab.args
  rw [if_neg (fun h => h0 (by simp [h])), if_neg (by simpa using hl), if_neg (by simp), allSome_iff.2 rfl]
  have h1 := subst_okd (b := ps.zip us) hT k t (fun m hm => ⟨ht m hm, fun he => hE he m (ht m hm)⟩)
  simp only
  cases hq : T.subst (ps.zip us) k t with
  | error s => rw [hq] at h1; exact h1
  | ok u => 
    refine ⟨u, rfl, fun m hm => ?_⟩
    have := subst_decls (P := IsStruct T) (fun e he n hn => hu _ (List.of_mem_zip he).2 n hn) hq m hm
    exact this

theorem type_decls (hwf : Wf T) {x : String} {t : RTy} (h : T.type? tys x = some t) : ∀ m ∈ t.decls, IsStruct T m ∧ m = x := by
  rcases type?_cases hwf h with ⟨_, _, rfl⟩ | ⟨_, rfl⟩ | ⟨rfl, S, hS, _⟩ | ⟨E, _, _, rfl⟩
  · simp [RTy.decls]
  · simp [RTy.decls]
  · intro m hm
    simp only [RTy.decls, List.mem_singleton] at hm
    subst hm
    exact ⟨by unfold IsStruct; rw [hS]; simp, rfl⟩
  · intro m hm
    simp only [RTy.decls] at hm
    obtain ⟨v, hv, hm⟩ := declsAll_mem.1 hm
    obtain ⟨p, _, rfl⟩ := List.mem_map.1 hv
    simp [RTy.decls] at hm

mutual
theorem create_decls (hwf : Wf T) : ∀ (t : TyN) (u : RTy), T.create tys t = some u → ∀ m ∈ u.decls, IsStruct T m ∧ m ∈ bare t ++ applied t
  | .named x g as, u, h, m, hm => by
    simp only [Tab.create] at h
    split at h
    · cases h
    · rename_i t ht
      have hu : u = t := by
        cases g with
        | false => simpa using h.symm
        | true =>
          simp only [if_true, Option.map_eq_some_iff] at h
          obtain ⟨_, _, h⟩ := h
          exact h.symm
      subst hu
      obtain ⟨h1, rfl⟩ := type_decls hwf ht m hm
      exact ⟨h1, by cases g <;> simp [bare, applied]⟩
  | .array e, u, h, m, hm => by
    simp only [Tab.create, Option.map_eq_some_iff] at h
    obtain ⟨v, hv, rfl⟩ := h
    exact create_decls hwf e v hv m (by simpa only [RTy.decls] using hm)
  | .func ps, u, h, m, hm => by
    simp only [Tab.create, Option.map_eq_some_iff] at h
    obtain ⟨v, hv, rfl⟩ := h
    exact creates_decls hwf ps v hv m (by simpa only [RTy.decls, List.append_nil] using hm)
  | .funcR ps r, u, h, m, hm => by
    simp only [Tab.create] at h
    split at h
    · rename_i vs v hvs hv
      cases h
      simp only [RTy.decls, List.mem_append] at hm
      simp only [bare, applied, List.mem_append]
      rcases hm with hm | hm
      · have := creates_decls hwf ps vs hvs m hm
        simp only [List.mem_append] at this
        grind
      · have := create_decls hwf r v hv m hm
        simp only [List.mem_append] at this
        grind
    · cases h
theorem creates_decls (hwf : Wf T) : ∀ (ts : List TyN) (us : List RTy), T.creates tys ts = some us → ∀ m ∈ declsAll us, IsStruct T m ∧ m ∈ bareAll ts ++ appliedAll ts
  | [], us, h, m, hm => by
    simp only [Tab.creates, Option.some.injEq] at h
    subst h
    simp [declsAll] at hm
  | t :: ts, us, h, m, hm => by
    simp only [Tab.creates] at h
    split at h
    · rename_i u vs hu hvs
      cases h
      simp only [declsAll, List.mem_append] at hm
      simp only [bareAll, appliedAll, List.mem_append]
      rcases hm with hm | hm
      · have := create_decls hwf t u hu m hm
        simp only [List.mem_append] at this
        grind
      · have := creates_decls hwf ts vs hvs m hm
        simp only [List.mem_append] at this
        grind
    · cases h
end

/-- The written types are made. -/
def Mk (T : Tab) (r : Option RTy × List Err) : Prop := ∃ u, r = (some u, []) ∧ ∀ m ∈ u.decls, IsStruct T m
def Mks (T : Tab) (r : List (Option RTy) × List Err) : Prop := ∃ us : List RTy, r = (us.map some, []) ∧ ∀ u ∈ us, ∀ m ∈ u.decls, IsStruct T m

mutual
theorem inst_okd (hwf : Wf T) (hT : FieldsOk E rank T) (hE : E → ∀ m, IsStruct T m → rank m < k) (har : ArOk ds T) (htys : TysOk ds tys) :
    ∀ t : TyN, (T.create tys t).isSome = true → t.applies (arityIn ds) → Okd E (Mk T) (T.inst k tys [] t)
  | .named x false as, hk, ha => by
    simp only [Tab.create] at hk
    simp only [Tab.inst]
    cases ht : T.type? tys x with
    | none => rw [ht] at hk; cases hk
    | some t => exact ⟨t, rfl, fun m hm => (type_decls hwf ht m hm).1⟩
  | .named x true as, hk, ha => by
    simp only [Tab.create, if_true] at hk
    simp only [TyN.applies] at ha
    simp only [Tab.inst, Bool.not_true, Bool.false_eq_true, if_false]
    obtain ⟨hn, hfound⟩ := har x _ ha.1
    have hx : tys.lookup x = none := by
      rw [lookup_none]
      intro hm
      obtain ⟨p, hp, rfl⟩ := List.mem_map.1 hm
      exact htys p hp _ ha.1
    have hks : (T.creates tys as).isSome = true := by
      split at hk
      · cases hk
      · simpa using hk
    have ih := insts_okd hwf hT hE har htys as hks ha.2
    rcases hfound with ⟨S, r, h1, h2, h3⟩ | ⟨En, ps, r, h1, h2, h3, h4⟩
    · have ht : T.type? tys x = some (.decl x) := by simp [Tab.type?, hx, h1]
      simp only [ht]
      cases hq : T.insts k tys [] as with
      | error s => rw [hq] at ih; exact ih
      | ok q =>
        have hlen := insts_length (os := q.1) (es' := q.2) hq
        rw [hq] at ih
        obtain ⟨us, rfl, hu⟩ := ih
        simp only [h2, Option.map_some, Option.getD_some]
        refine args_okd hT hE ?_ hu (by rw [List.length_map, h3]; exact hn) ?_
        · intro m hm
          simp only [RTy.decls, List.mem_singleton] at hm
          subst hm
          simp [IsStruct, h2]
        · simp only [List.length_map] at hlen ⊢
          rw [h3, hlen]
    · have ht : T.type? tys x = some (.enum x ps) := by simp [Tab.type?, hx, h1]
      simp only [ht]
      cases hq : T.insts k tys [] as with
      | error s => rw [hq] at ih; exact ih
      | ok q =>
        have hlen := insts_length (os := q.1) (es' := q.2) hq
        rw [hq] at ih
        obtain ⟨us, rfl, hu⟩ := ih
        simp only [h2, Option.map_some, Option.getD_some]
        refine args_okd hT hE ?_ hu (by rw [List.length_map, h3]; exact hn) ?_
        · intro m hm
          simp only [RTy.decls] at hm
          obtain ⟨v, hv, hm⟩ := declsAll_mem.1 hm
          obtain ⟨j, rfl⟩ := h4 v hv
          simp [RTy.decls] at hm
        · simp only [List.length_map] at hlen ⊢
          rw [h3, hlen]
  | .array e, hk, ha => by
    simp only [Tab.create, Option.isSome_map] at hk
    simp only [TyN.applies] at ha
    have ih := inst_okd hwf hT hE har htys e hk ha
    simp only [Tab.inst]
    cases hq : T.inst k tys [] e with
    | error s => rw [hq] at ih; exact ih
    | ok q =>
      rw [hq] at ih
      obtain ⟨u, rfl, hu⟩ := ih
      exact ⟨.array u, by simp, by simpa only [RTy.decls] using hu⟩
  | .func ps, hk, ha => by
    simp only [Tab.create, Option.isSome_map] at hk
    simp only [TyN.applies] at ha
    have ih := insts_okd hwf hT hE har htys ps hk ha
    simp only [Tab.inst]
    cases hq : T.insts k tys [] ps with
    | error s => rw [hq] at ih; exact ih
    | ok q =>
      rw [hq] at ih
      obtain ⟨us, rfl, hu⟩ := ih
      refine ⟨.fn us (.prim .nothing), by simp [allSome_iff.2 rfl], ?_⟩
      intro m hm
      simp only [RTy.decls, List.append_nil] at hm
      obtain ⟨u, h1, h2⟩ := declsAll_mem.1 hm
      exact hu u h1 m h2
  | .funcR ps r, hk, ha => by
    simp only [TyN.applies] at ha
    simp only [Tab.create] at hk
    have hk' : (T.creates tys ps).isSome = true ∧ (T.create tys r).isSome = true := by
      split at hk
      · rename_i h1 h2
        simp [h1, h2]
      · cases hk
    have ih := insts_okd hwf hT hE har htys ps hk'.1 ha.1
    have ih' := inst_okd hwf hT hE har htys r hk'.2 ha.2
    simp only [Tab.inst]
    cases hq : T.insts k tys [] ps with
    | error s => rw [hq] at ih; exact ih
    | ok q =>
      rw [hq] at ih
      obtain ⟨us, rfl, hu⟩ := ih
      simp only
      cases hq : T.inst k tys [] r with
      | error s => rw [hq] at ih'; exact ih'
      | ok q =>
        rw [hq] at ih'
        obtain ⟨u, rfl, hu'⟩ := ih'
        refine ⟨.fn us u, by simp [allSome_iff.2 rfl], ?_⟩
        intro m hm
        simp only [RTy.decls, List.mem_append] at hm
        rcases hm with hm | hm
        · obtain ⟨u, h1, h2⟩ := declsAll_mem.1 hm
          exact hu u h1 m h2
        · exact hu' m hm
theorem insts_okd (hwf : Wf T) (hT : FieldsOk E rank T) (hE : E → ∀ m, IsStruct T m → rank m < k) (har : ArOk ds T) (htys : TysOk ds tys) :
    ∀ ts : List TyN, (T.creates tys ts).isSome = true → appliesAll (arityIn ds) ts → Okd E (Mks T) (T.insts k tys [] ts)
  | [], hk, ha => ⟨[], rfl, by simp⟩
  | t :: ts, hk, ha => by
    simp only [appliesAll] at ha
    simp only [Tab.creates] at hk
    have hk' : (T.create tys t).isSome = true ∧ (T.creates tys ts).isSome = true := by
      split at hk
      · rename_i h1 h2
        simp [h1, h2]
      · cases hk
    have ih := inst_okd hwf hT hE har htys t hk'.1 ha.1
    have ih' := insts_okd hwf hT hE har htys ts hk'.2 ha.2
    simp only [Tab.insts]
    cases hq : T.inst k tys [] t with
    | error s => rw [hq] at ih; exact ih
    | ok q =>
      rw [hq] at ih
      obtain ⟨u, rfl, hu⟩ := ih
      simp only
      cases hq : T.insts k tys [] ts with
      | error s => rw [hq] at ih'; exact ih'
      | ok q =>
        rw [hq] at ih'
        obtain ⟨us, rfl, hu'⟩ := ih'
        refine ⟨u :: us, rfl, ?_⟩
        intro v hv
        rcases List.mem_cons.1 hv with rfl | hv
        · exact hu
        · exact hu' v hv
end

end

/-! ### The third loop -/

/-- What the loop keeps. -/
structure Inv (E : Prop) (rank : String → Nat) (T2 T : Tab) : Prop where
  later : Later T2 T
  fields : FieldsOk E rank T
  tys : ∀ id : Nat, (T.fns[id]?).map FRec.tys = (T2.fns[id]?).map FRec.tys

theorem Later.isStruct {T T' : Tab} (h : Later T T') (m : String) : IsStruct T' m ↔ IsStruct T m := by
  have := h.tps m
  unfold IsStruct
  cases h1 : T'.structs.lookup m <;> cases h2 : T.structs.lookup m <;> simp [h1, h2] at this ⊢

theorem Later.arOk {ds : List Dcl} {T T' : Tab} (h : Later T T') (ha : ArOk ds T) : ArOk ds T' := by
  intro x n hx
  obtain ⟨h0, h1⟩ := ha x n hx
  refine ⟨h0, ?_⟩
  rcases h1 with ⟨S, r, h2, h3, h4⟩ | h1
  · left
    have := h.tps x
    rw [h3] at this
    obtain ⟨S', h5, h6⟩ := Option.map_eq_some_iff.1 this
    exact ⟨S', r, by rw [h.root]; exact h2, h5, by rw [h6]; exact h4⟩
  · right
    rw [h.root, h.enums]
    exact h1

/-- What a node needs. -/
def NodeOk (E : Prop) (rank : String → Nat) (ds : List Dcl) (T : Tab) : Node → Prop
  | .struct n fs => ∃ S, T.structs.lookup n = some S ∧ TysOk ds S.tps ∧ ∀ p ∈ fs, (T.create S.tps p.2).isSome = true ∧ p.2.applies (arityIn ds) ∧
      ∀ m ∈ bare p.2 ++ applied p.2, IsStruct T m → E → rank m < rank n
  | .fn i => ∃ f, T.fns[i.id]? = some f ∧ TysOk ds f.tys ∧ ((T.creates f.tys i.params).isSome = true ∧ appliesAll (arityIn ds) i.params) ∧
      ∀ t, i.ret = some t → (T.create f.tys t).isSome = true ∧ t.applies (arityIn ds)

section
variable {E : Prop} {rank : String → Nat} {T2 : Tab} {ds : List Dcl} {k : Nat}

theorem setField_inv {T : Tab} {n x : String} {u : RTy} (h : Inv E rank T2 T) (hu : ∀ m ∈ u.decls, IsStruct T m ∧ (E → rank m < rank n)) :
    Inv E rank T2 (T.setField n x (some u)) := by
  have hnear := setField_near T n x (some u)
  refine ⟨h.later.trans hnear.toLater, ?_, fun id => by rw [hnear.fns]; exact h.tys id⟩
  have his : ∀ m, IsStruct (T.setField n x (some u)) m ↔ IsStruct T m := hnear.toLater.isStruct
  intro n' S hS p hp
  suffices hs : ∃ t, p.2 = some t ∧ ∀ m ∈ t.decls, IsStruct T m ∧ (E → rank m < rank n') by
    obtain ⟨t, h1, h2⟩ := hs
    exact ⟨t, h1, fun m hm => ⟨(his m).2 (h2 m hm).1, (h2 m hm).2⟩⟩
  by_cases hn : n' = n
  · subst hn
    simp only [Tab.setField] at hS
    rw [lookup_update T.structs n' (fun S => { S with fields := S.fields.map fun p => if p.1 = x then (x, some u) else p }) n', if_pos rfl] at hS
    obtain ⟨S0, h0, rfl⟩ := Option.map_eq_some_iff.1 hS
    obtain ⟨q, hq, rfl⟩ := List.mem_map.1 hp
    split
    · exact ⟨u, rfl, hu⟩
    · exact h.fields n' S0 h0 q hq
  · rw [hnear.others n' hn] at hS
    exact h.fields n' S hS p hp

theorem instFields_okd (hwf : Wf T2) (har : ArOk ds T2) (hE : E → ∀ m, IsStruct T2 m → rank m < k) {n : String} {tys : List (String × Nat)} (htys : TysOk ds tys) :
    ∀ (fs : List (String × TyN)) (T : Tab), Inv E rank T2 T →
    (∀ p ∈ fs, (T2.create tys p.2).isSome = true ∧ p.2.applies (arityIn ds) ∧ ∀ m ∈ bare p.2 ++ applied p.2, IsStruct T2 m → E → rank m < rank n) →
    Okd E (fun r => r.2 = [] ∧ Inv E rank T2 r.1) (Tab.instFields k n tys T [] fs)
  | [], T, hi, h => ⟨rfl, hi⟩
  | (x, t) :: fs, T, hi, h => by
    obtain ⟨h1, h2, h3⟩ := h (x, t) (by simp)
    have his := hi.later.isStruct
    have hwf' := hi.later.wf hwf
    have ih := inst_okd (k := k) hwf' hi.fields (fun he m hm => hE he m ((his m).1 hm)) (hi.later.arOk har) htys t
      (by rw [create_congr hi.later.types]; exact h1) h2
    simp only [Tab.instFields]
    cases hq : T.inst k tys [] t with
    | error s => rw [hq] at ih; exact ih
    | ok q =>
      rw [hq] at ih
      obtain ⟨u, rfl, hu⟩ := ih
      obtain ⟨_, v, hv, hm⟩ := made_all hwf' hq
      cases hv
      have hd := (hm _ (shows_plain T tys)).decls
      exact instFields_okd hwf har hE htys fs _ (setField_inv hi (fun m hm => ⟨hu m hm, h3 m (hd m hm) ((his m).1 (hu m hm))⟩)) (fun p hp => h p (by simp [hp]))

theorem set_inv {T : Tab} {id : Nat} {f g : FRec} (h : Inv E rank T2 T) (hf : T.fns[id]? = some f) (hg : g.tys = f.tys) :
    Inv E rank T2 { T with fns := T.fns.set id g } := by
  refine ⟨h.later.trans ⟨rfl, rfl, fun _ => rfl, by simp⟩, h.fields, fun j => ?_⟩
  rw [← h.tys j]
  by_cases hj : id = j
  · subst hj
    have hlt := (List.getElem?_eq_some_iff.1 hf).1
    simp only [List.getElem?_set_self hlt, hf, Option.map_some, hg]
  · simp only [List.getElem?_set_ne hj]

theorem instFn_okd (hwf : Wf T2) (har : ArOk ds T2) (hE : E → ∀ m, IsStruct T2 m → rank m < k) {i : Item} {T : Tab} (hi : Inv E rank T2 T)
    (h : NodeOk E rank ds T2 (.fn i)) : Okd E (fun r => r.2 = [] ∧ Inv E rank T2 r.1) (T.instFn k i) := by
  obtain ⟨f2, hf2, htys, hps, hr⟩ := h
  have := hi.tys i.id
  rw [hf2] at this
  obtain ⟨f, hf, hft⟩ := Option.map_eq_some_iff.1 this
  have his := hi.later.isStruct
  have hwf' := hi.later.wf hwf
  have htys' : TysOk ds f.tys := by rw [hft]; exact htys
  have hE' : E → ∀ m, IsStruct T m → rank m < k := fun he m hm => hE he m ((his m).1 hm)
  have har' := hi.later.arOk har
  have ih := insts_okd (k := k) hwf' hi.fields hE' har' htys' i.params (by rw [creates_congr hi.later.types, hft]; exact hps.1) hps.2
  simp only [Tab.instFn, hf]
  cases hq : T.insts k f.tys [] i.params with
  | error s => rw [hq] at ih; exact ih
  | ok q =>
    rw [hq] at ih
    obtain ⟨us, rfl, hu⟩ := ih
    simp only
    cases hret : i.ret with
    | none => exact ⟨rfl, set_inv hi hf (by rfl)⟩
    | some t =>
      obtain ⟨h1, h2⟩ := hr t hret
      have ih := inst_okd (k := k) hwf' hi.fields hE' har' htys' t (by rw [create_congr hi.later.types, hft]; exact h1) h2
      simp only
      cases hq : T.inst k f.tys [] t with
      | error s => rw [hq] at ih; exact ih
      | ok q =>
        rw [hq] at ih
        obtain ⟨u, rfl, hu⟩ := ih
        exact ⟨rfl, set_inv hi hf (by rfl)⟩

theorem third_okd (hwf : Wf T2) (har : ArOk ds T2) (hE : E → ∀ m, IsStruct T2 m → rank m < k) :
    ∀ (ns : List Node) (T : Tab), Inv E rank T2 T → (∀ n ∈ ns, NodeOk E rank ds T2 n) → Okd E (fun r => r.2 = [] ∧ Inv E rank T2 r.1) (third k T ns)
  | [], T, hi, h => ⟨rfl, hi⟩
  | n :: ns, T, hi, h => by
    have h1 : Okd E (fun r => r.2 = [] ∧ Inv E rank T2 r.1) (T.instNode k n) := by
      have hn := h n (by simp)
      cases n with
      | struct n fs =>
        obtain ⟨S, hS, htys, hf⟩ := hn
        have := hi.later.tps n
        rw [hS] at this
        simp only [Tab.instNode, this, Option.map_some, Option.getD_some]
        exact instFields_okd hwf har hE htys fs T hi hf
      | fn i => exact instFn_okd hwf har hE hi hn
    simp only [third]
    cases hq : T.instNode k n with
    | error s => rw [hq] at h1; exact h1
    | ok q =>
      rw [hq] at h1
      obtain ⟨h2, h3⟩ := h1
      have ih := third_okd hwf har hE ns q.1 h3 (fun n hn => h n (by simp [hn]))
      simp only
      cases hq : third k q.1 ns with
      | error s => rw [hq] at ih; exact ih
      | ok q' =>
        rw [hq] at ih
        exact ⟨by simp [h2, ih.1], ih.2⟩

end

/-! ### Constructors of structs -/

theorem structConses_okd : ∀ (ds : List Dcl) (T : Tab),
    (∀ n tps fs, Dcl.struct n tps fs ∈ ds → T.structs.lookup n ≠ none ∧ ∀ c, consName n = some c → ∀ s, T.root.lookup c = some s → ∃ id, RSym.fn id ∈ s) →
    ∃ r, structConses T ds = .ok r
  | [], T, h => ⟨_, rfl⟩
  | .enum _ _ _ :: ds, T, h => by
    simp only [structConses]
    exact structConses_okd ds T (fun n tps fs hm => h n tps fs (by simp [hm]))
  | .fn _ :: ds, T, h => by
    simp only [structConses]
    exact structConses_okd ds T (fun n tps fs hm => h n tps fs (by simp [hm]))
  | .struct n tps fs :: ds, T, h => by
    obtain ⟨h1, h2⟩ := h n tps fs (by simp)
    have hrest : ∀ n tps fs, Dcl.struct n tps fs ∈ ds → T.structs.lookup n ≠ none ∧ ∀ c, consName n = some c → ∀ s, T.root.lookup c = some s → ∃ id, RSym.fn id ∈ s :=
      fun n tps fs hm => h n tps fs (by simp [hm])
    have key : ∃ T' es, structCons T n = .ok (T', es) ∧ ∀ n tps fs, Dcl.struct n tps fs ∈ ds → T'.structs.lookup n ≠ none ∧
        ∀ c, consName n = some c → ∀ s, T'.root.lookup c = some s → ∃ id, RSym.fn id ∈ s := by
      unfold structCons
      cases hc : consName n with
      | none => exact ⟨_, _, rfl, hrest⟩
      | some c =>
        simp only
        cases hl : T.root.lookup c with
        | some s =>
          obtain ⟨id, hid⟩ := h2 c hc s hl
          refine ⟨T, [.override], ?_, hrest⟩
          exact if_pos (List.any_eq_true.2 ⟨_, hid, rfl⟩)
        | none =>
          simp only
          cases hS : T.structs.lookup n with
          | none => exact absurd hS h1
          | some S =>
            refine ⟨_, _, rfl, fun m tps fs hm => ⟨(hrest m tps fs hm).1, fun c' hc' s hs => ?_⟩⟩
            simp only [lookup_append'] at hs
            cases hl' : T.root.lookup c' with
            | some s' =>
              rw [hl'] at hs
              simp only [Option.some_or, Option.some.injEq] at hs
              subst hs
              exact (hrest m tps fs hm).2 c' hc' _ hl'
            | none =>
              rw [hl'] at hs
              simp only [Option.none_or, lookup_cons', List.lookup_nil] at hs
              split at hs
              · cases hs; exact ⟨_, List.mem_cons_self⟩
              · cases hs
    obtain ⟨T', es, h3, h4⟩ := key
    obtain ⟨r, hr⟩ := structConses_okd ds T' h4
    exact ⟨_, by simp only [structConses, h3, hr]; rfl⟩

/-! ### Together -/

theorem params_known {T : Tab} {tys : List (String × Nat)} : ∀ {ps : List (String × TyN)} {names : List String} {qs : List (String × Option RTy)},
    T.params tys names ps = .ok qs → (T.creates tys (ps.map (·.2))).isSome = true
  | [], names, qs, h => rfl
  | (x, t) :: ps, names, qs, h => by
    simp only [Tab.params] at h
    split at h
    · cases h
    · rename_i u hu
      split at h
      · cases h
      · cases hq : T.params tys (x :: names) ps with
        | error e => rw [hq] at h; simp [Except.map] at h
        | ok rs =>
          have ih := params_known hq
          obtain ⟨us, hus⟩ := Option.isSome_iff_exists.1 ih
          simp [Tab.creates, hu, hus]

theorem sig_known {T : Tab} {data : FnData} {outer : List (String × Nat)} {h : Head} {nr : Bool} {r : FRec}
    (hs : T.signature data outer h nr = .ok r) : (T.creates (h.tps ++ outer) (h.params.map (·.2))).isSome = true ∧
      ∀ t, h.ret = some t → (T.create (h.tps ++ outer) t).isSome = true := by
  unfold Tab.signature at hs
  split at hs
  · cases hs
  · simp only at hs
    split at hs
    · cases hs
    · rename_i ps hp
      split at hs
      · cases hs
      · rename_i u hu
        refine ⟨params_known hp, fun t ht => ?_⟩
        rw [ht] at hu
        simp only [Tab.ret] at hu
        split at hu
        · cases hu
        · rename_i v hv
          rw [hv]; rfl

section
variable {ds : List Dcl} {T1 T2 : Tab} (L : Loops ds T1 T2)
include L

theorem Loops.type_root {d : Dcl} (hd : d ∈ ds) {x : String} {s : List RSym} (he : d.typeEntry = some (x, s)) : ∃ r, T2.root.lookup x = some (s ++ r) := by
  have h1 : T1.root.lookup x = some s := by
    refine lookup_of_mem L.first_names ?_
    rw [L.first.root]
    exact List.mem_append_right _ (List.mem_filterMap.2 ⟨d, hd, he⟩)
  refine ⟨idsOf x T1.fns.length (ds.flatMap Dcl.entries), ?_⟩
  rw [L.second.step.root, h1]
  cases idsOf x T1.fns.length (ds.flatMap Dcl.entries) <;> simp [joinSyms]

theorem Loops.struct_tps {n : String} {tps : List (String × Nat)} {fs : List (String × TyN)} (hd : Dcl.struct n tps fs ∈ ds) :
    ∃ S, T2.structs.lookup n = some S ∧ S.tps = tps := by
  obtain ⟨us, h1⟩ := L.known.structs n tps fs hd
  exact ⟨_, (L.second.structs n tps fs us hd h1).1, rfl⟩

theorem Loops.enum_tps {n : String} {tps : List (String × Nat)} {cs : List (String × List (String × TyN))} (hd : Dcl.enum n tps cs ∈ ds) :
    ∃ E, T2.enums.lookup n = some E ∧ E.tps = tps := by
  obtain ⟨us, h1⟩ := L.known.enums n tps cs hd
  obtain ⟨pre, post, hp⟩ := List.append_of_mem hd
  exact ⟨_, (L.second.enums pre n tps cs post us hp h1).1, rfl⟩

theorem Loops.is_struct {m : String} (h : IsStruct T2 m) : ∃ tps fs, Dcl.struct m tps fs ∈ ds := by
  by_cases hm : ∃ tps fs, Dcl.struct m tps fs ∈ ds
  · exact hm
  · refine absurd ?_ h
    rw [L.second.others m (fun tps fs hd => hm ⟨tps, fs, hd⟩), L.first.structs]
    rw [lookup_none]
    intro hmem
    obtain ⟨e, he, rfl⟩ := List.mem_map.1 hmem
    simp only [Tab.std, List.nil_append] at he
    obtain ⟨d, hd, he⟩ := List.mem_filterMap.1 he
    cases d <;> simp [Dcl.structEntry] at he
    rw [← he] at hm
    exact hm ⟨_, _, hd⟩

theorem Loops.arOk : ArOk ds T2 := by
  intro x n ⟨d, hd, ha⟩
  cases d with
  | struct m tps fs =>
    obtain ⟨rfl, rfl, h0⟩ := ha
    refine ⟨h0, .inl ?_⟩
    obtain ⟨r, hr⟩ := L.type_root hd rfl
    obtain ⟨S, hS, ht⟩ := L.struct_tps hd
    exact ⟨S, r, hr, hS, by rw [ht]⟩
  | enum m tps cs =>
    obtain ⟨rfl, rfl, h0⟩ := ha
    refine ⟨h0, .inr ?_⟩
    obtain ⟨r, hr⟩ := L.type_root hd rfl
    obtain ⟨S, hS, ht⟩ := L.enum_tps hd
    refine ⟨S, _, r, hr, hS, by rw [ht], fun p hp => ?_⟩
    obtain ⟨q, _, rfl⟩ := List.mem_map.1 hp
    exact ⟨_, rfl⟩
  | fn f => exact ha.elim

theorem Loops.inv {E : Prop} {rank : String → Nat} (hE : E → Layered rank ds) : Inv E rank T2 T2 := by
  refine ⟨Later.refl T2, fun n S hS p hp => ?_, fun _ => rfl⟩
  obtain ⟨tps, fs, hd⟩ := L.is_struct (m := n) (by unfold IsStruct; rw [hS]; simp)
  obtain ⟨us, h1⟩ := L.known.structs n tps fs hd
  have h2 := L.empty n _ h1
  simp only at h2
  subst h2
  obtain ⟨h3, _, h4⟩ := L.second.structs n tps fs [] hd h1
  rw [hS] at h3
  cases h3
  simp only [List.nil_append] at hp
  obtain ⟨q, hq, rfl⟩ := List.mem_map.1 hp
  obtain ⟨t, ht⟩ := Option.isSome_iff_exists.1 (h4 q hq).2
  refine ⟨t, ht, fun m hm => ?_⟩
  rw [← create_congr L.second.step.types] at ht
  obtain ⟨h5, h6⟩ := create_decls L.wf q.2 t ht m hm
  exact ⟨h5, fun he => hE he n tps fs hd q hq m h6 (L.is_struct h5)⟩

omit L in
theorem sig_tame {ds : List Dcl} {case : String → Prop} (ht : TameDcls ds case) {s : Sig} (hs : s ∈ ds.flatMap Dcl.sigs) :
    TysOk ds (s.head.tps ++ s.outer) ∧ (∀ p ∈ s.head.params, p.2.applies (arityIn ds)) ∧ ∀ t, s.head.ret = some t → t.applies (arityIn ds) := by
  obtain ⟨d, hd, hs⟩ := List.mem_flatMap.1 hs
  cases d with
  | struct n tps fs => simp [Dcl.sigs] at hs
  | enum n tps cs =>
    simp only [Dcl.sigs] at hs
    obtain ⟨c, hc, rfl⟩ := List.mem_map.1 hs
    obtain ⟨_, h1, h2⟩ := ht.enums n tps cs hd
    exact ⟨fun p hp => h1 p (by simpa using hp), h2 c hc, fun t ht => by cases ht; simp [TyN.applies]⟩
  | fn f =>
    simp only [Dcl.sigs, List.mem_singleton] at hs
    subst hs
    obtain ⟨h1, _⟩ := ht.fns f hd
    exact ⟨fun p hp => (h1.tps p (by simpa using hp)).2, fun p hp => (h1.params p hp).2, h1.ret⟩

omit L in
theorem item_of {ds : List Dcl} {i : Item} (h : Node.fn i ∈ allNodes ds) : ∃ (j : Nat) (s : Sig), (ds.flatMap Dcl.sigs)[j]? = some s ∧ ItemOf (2 + j) s i := by
  obtain ⟨h1, h2⟩ := nodes_items ds 2
  have key : ∃ p ∈ numbered 2 (ds.flatMap Dcl.sigs), ItemOf p.1 p.2 i := by
    unfold allNodes at h
    rcases List.mem_append.1 h with h | h
    · obtain ⟨p, hp, hi⟩ := all₂_mem h1 i (List.mem_filterMap.2 ⟨_, h, rfl⟩)
      exact ⟨p, (List.mem_filter.1 hp).1, hi⟩
    · obtain ⟨i', hi', he⟩ := List.mem_map.1 h
      cases he
      obtain ⟨p, hp, hi⟩ := all₂_mem h2 i hi'
      exact ⟨p, (List.mem_filter.1 hp).1, hi⟩
  obtain ⟨p, hp, hi⟩ := key
  obtain ⟨j, h3, h4⟩ := numbered_mem hp
  exact ⟨j, p.2, h4, h3 ▸ hi⟩

theorem Loops.nodes_ok {E : Prop} {rank : String → Nat} {case : String → Prop} (ht : TameDcls ds case) (hE : E → Layered rank ds) :
    ∀ n ∈ allNodes ds, NodeOk E rank ds T2 n := by
  intro nd hn
  cases nd with
  | struct n fs =>
    have hn' : Node.struct n fs ∈ (nodes 2 ds).1 := by
      unfold allNodes at hn
      rcases List.mem_append.1 hn with hn | hn
      · exact hn
      · obtain ⟨_, _, h⟩ := List.mem_map.1 hn
        cases h
    obtain ⟨tps, hd⟩ := nodes_struct.1 hn'
    obtain ⟨S, hS, hst⟩ := L.struct_tps hd
    obtain ⟨us, h1⟩ := L.known.structs n tps fs hd
    obtain ⟨_, _, h4⟩ := L.second.structs n tps fs us hd h1
    obtain ⟨_, h5, h6⟩ := ht.structs n tps fs hd
    refine ⟨S, hS, by rw [hst]; exact h5, fun p hp => ⟨?_, h6 p hp, fun m hm his he => hE he n tps fs hd p hp m hm (L.is_struct his)⟩⟩
    rw [hst, create_congr L.second.step.types]
    exact (h4 p hp).2
  | fn i =>
    obtain ⟨j, s, hs, hi⟩ := item_of hn
    obtain ⟨rs, h7, h8⟩ := L.second.step.fns
    rw [all_entries] at h8
    have h10 : ((ds.flatMap Dcl.sigs).map Sig.entry)[j]? = some s.entry := by simp [hs]
    have hlt := (List.getElem?_eq_some_iff.1 h10)
    have hlt' : j < rs.length := by rw [← h8.length]; exact hlt.1
    have hsig := h8.get hlt.1 hlt'
    rw [hlt.2] at hsig
    have hf : T2.fns[i.id]? = some rs[j] := by
      rw [hi.id, h7, L.first.fns, show 2 + j = Tab.std.fns.length + j by rfl, List.getElem?_append_right (by omega)]
      simp [hlt']
    have hfacts := sig_facts hsig
    obtain ⟨hk1, hk2⟩ := sig_known hsig
    obtain ⟨ht1, ht2, ht3⟩ := sig_tame ht (List.mem_of_getElem? hs)
    refine ⟨rs[j], hf, ?_, ⟨?_, ?_⟩, fun t hr => ?_⟩
    · rw [hfacts.tys]; exact ht1
    · rw [hfacts.tys, hi.params, creates_congr L.second.step.types]; exact hk1
    · rw [hi.params, Clara.Sema.Chk.appliesAll_iff]
      intro t htm
      obtain ⟨p, hp, rfl⟩ := List.mem_map.1 htm
      exact ht2 p hp
    · rw [hi.ret] at hr
      rw [hfacts.tys, create_congr L.second.step.types]
      exact ⟨hk2 t hr, ht3 t hr⟩

omit L in
theorem fnSyms_mem {x : String} : ∀ {xs : List String} {id : Nat}, ∀ a ∈ fnSyms x id xs, ∃ j, a = .fn j
  | [], id, a, h => by simp [fnSyms] at h
  | y :: xs, id, a, h => by
    simp only [fnSyms] at h
    split at h
    · rcases List.mem_cons.1 h with rfl | h
      · exact ⟨_, rfl⟩
      · exact fnSyms_mem a h
    · exact fnSyms_mem a h

omit L in
theorem upper_not_lower {a : Char} (h : a.isLower = true) : a.toUpper.isLower = false := by
  have h1 : 97 ≤ a.toNat ∧ a.toNat ≤ 122 := by
    simp only [Char.isLower, Bool.and_eq_true, decide_eq_true_eq, ge_iff_le, UInt32.le_iff_toNat_le] at h
    exact h
  have h2 : ∀ n, n < 123 → 97 ≤ n → (Char.ofNat n).toUpper.isLower = false := by decide
  have := h2 a.toNat (by omega) h1.1
  rwa [Char.ofNat_toNat] at this

theorem Loops.cons_name {case : String → Prop} (ht : TameDcls ds case) {n c : String} {tps : List (String × Nat)} {fs : List (String × TyN)} (hd : Dcl.struct n tps fs ∈ ds)
    (hc : consName n = some c) {s : List RSym} (hs : T2.root.lookup c = some s) : ∃ id, RSym.fn id ∈ s := by
  have hcap := consName_capital hc
  have hno : typeSyms ds c = [] := by
    obtain ⟨a, as, hn, hcap'⟩ := hcap
    have hlt : a.val < 128 := by
      by_cases hlt : a.val < 128
      · exact hlt
      · exact absurd ⟨a, as, hn, fun h => absurd h hlt⟩ (ht.conses n tps fs hd _ hd _ rfl)
    obtain ⟨hlow, hct⟩ := hcap' hlt
    unfold typeSyms
    rw [List.append_eq_nil_iff]
    constructor
    · rw [List.map_eq_nil_iff, List.filter_eq_nil_iff]
      intro p hp hpc
      simp only [decide_eq_true_eq] at hpc
      have h1 : ∀ p ∈ builtinTypes, (p.1.toList.head?.any Char.isLower) = true := by decide
      have h2 := h1 p hp
      rw [hpc, hct] at h2
      simp only [List.head?_cons, Option.any_some] at h2
      rw [upper_not_lower hlow] at h2
      cases h2
    · rw [List.flatMap_eq_nil_iff]
      intro e he
      obtain ⟨he, hec⟩ := List.mem_filter.1 he
      obtain ⟨d, hdm, hde⟩ := List.mem_filterMap.1 he
      simp only [decide_eq_true_eq] at hec
      have hcap2 := consName_capital hc
      cases d with
      | struct m tps' fs' =>
        simp only [Dcl.typeEntry, Option.some.injEq] at hde
        subst hde
        exact absurd (hec ▸ hcap2) (ht.conses n tps fs hd _ hdm _ rfl)
      | enum m tps' cs' =>
        simp only [Dcl.typeEntry, Option.some.injEq] at hde
        subst hde
        exact absurd (hec ▸ hcap2) (ht.conses n tps fs hd _ hdm _ rfl)
      | fn f => simp [Dcl.typeEntry] at hde
  rw [L.second.step.root, L.first_lookup, idsOf_fnSyms, hno, List.nil_append, join_ne] at hs
  generalize hq : fnSyms c 0 ["debug", "printf"] ++ fnSyms c T1.fns.length ((ds.flatMap Dcl.entries).map (·.name)) = q at hs
  cases q with
  | nil => simp [ne] at hs
  | cons a as =>
    simp only [ne, Option.some.injEq] at hs
    subst hs
    have hm : a ∈ fnSyms c 0 ["debug", "printf"] ++ fnSyms c T1.fns.length ((ds.flatMap Dcl.entries).map (·.name)) := by rw [hq]; simp
    rcases List.mem_append.1 hm with hm | hm <;> obtain ⟨j, rfl⟩ := fnSyms_mem a hm <;> exact ⟨j, by simp⟩

end

/-- Declaring tame declarations does not panic, and it ends with a result if structs are not inside of themselves and
the bound is large enough. -/
theorem declare_okd {k : Nat} {ds : List Dcl} {case : String → Prop} {rank : String → Nat} (hi : Identified ds) (ht : TameDcls ds case) :
    Okd (Layered rank ds ∧ ∀ n tps fs, Dcl.struct n tps fs ∈ ds → rank n < k) (fun _ => True) (declare k ds) := by
  unfold declare
  simp only
  split
  · trivial
  · rename_i h1
    simp only [ne_eq, Classical.not_not] at h1
    split
    · trivial
    · rename_i h2
      simp only [ne_eq, Classical.not_not] at h2
      have L := loops_ok hi h1 h2
      have h3 := third_okd (E := Layered rank ds ∧ ∀ n tps fs, Dcl.struct n tps fs ∈ ds → rank n < k) (k := k) L.wf L.arOk
        (fun he m hm => by obtain ⟨tps, fs, hd⟩ := L.is_struct hm; exact he.2 m tps fs hd) (allNodes ds) _ (L.inv (fun h => h.1)) (L.nodes_ok ht (fun h => h.1))
      unfold allNodes at h3
      cases hq : third k (loop second (loop first Tab.std ds).1 ds).1 ((nodes 2 ds).1 ++ (nodes 2 ds).2.map .fn) with
      | error s => rw [hq] at h3; exact h3
      | ok q =>
        rw [hq] at h3
        obtain ⟨h4, h5⟩ := h3
        obtain ⟨F, es⟩ := q
        simp only at h4 h5
        subst h4
        simp only [ne_eq, not_true_eq_false, if_false]
        obtain ⟨r, hr⟩ := structConses_okd ds F (fun n tps fs hd => ⟨(h5.later.isStruct n).2 (by
          obtain ⟨S, hS, _⟩ := L.struct_tps hd
          unfold IsStruct; rw [hS]; simp), fun c hc s hs => L.cons_name ht hd hc (by rw [← h5.later.root]; exact hs)⟩)
        rw [hr]
        trivial

end Clara.Sema.Dcl
