import Verif.Sema.DeclareSafe
import Verif.Sema.CheckSafeMain
import Verif.Sema.CheckStmt
set_option linter.unusedVariables false
/-
The tables of accepted tame declarations are such that type checking does not panic.
-/
namespace Clara.Sema.Chk
open Clara.Types

section
variable {root : Scope} {C : String → Prop}

theorem ann_empty : AnnOk root {} := ⟨fun _ h => (nomatch h), fun _ h => (nomatch h)⟩
theorem id_empty {p : Place} {x : String} : IdOk root p x {} := ⟨ann_empty, fun _ _ h => by simp at h, fun _ h => absurd rfl h⟩

mutual
theorem nice_x : ∀ (x : X) (p : Place), x.raw → x.tame (ArityAt root) C → x.nice root C p
  | .lit _ a, p, h, t => by simp only [X.raw] at h; subst h; exact ann_empty
  | .ident _ a, p, h, t => by simp only [X.raw] at h; subst h; exact id_empty
  | .call f _ args a, p, h, t => by
    simp only [X.raw, X.tame] at h t
    obtain ⟨h1, h2, rfl⟩ := h
    exact ⟨nice_x f _ h1 t.1, nice_l args h2 t.2, ann_empty⟩
  | .bin _ l r a, p, h, t => by
    simp only [X.raw, X.tame] at h t
    obtain ⟨h1, h2, rfl⟩ := h
    exact ⟨nice_x l _ h1 t.1, nice_x r _ h2 t.2, ann_empty⟩
  | .cmp _ l r a, p, h, t => by
    simp only [X.raw, X.tame] at h t
    obtain ⟨h1, h2, rfl⟩ := h
    exact ⟨nice_x l _ h1 t.1, nice_x r _ h2 t.2, ann_empty⟩
  | .un _ l a, p, h, t => by
    simp only [X.raw, X.tame] at h t
    obtain ⟨h1, rfl⟩ := h
    exact ⟨nice_x l _ h1 t, ann_empty⟩
  | .tern c x y a, p, h, t => by
    simp only [X.raw, X.tame] at h t
    obtain ⟨h1, h2, h3, rfl⟩ := h
    exact ⟨nice_x c _ h1 t.1, nice_x x _ h2 t.2.1, nice_x y _ h3 t.2.2, ann_empty⟩
  | .arr es a, p, h, t => by
    simp only [X.raw, X.tame] at h t
    obtain ⟨h1, rfl⟩ := h
    exact ⟨nice_l es h1 t, ann_empty⟩
  | .index l r a, p, h, t => by
    simp only [X.raw, X.tame] at h t
    obtain ⟨h1, h2, rfl⟩ := h
    exact ⟨nice_x l _ h1 t.1, nice_x r _ h2 t.2, ann_empty⟩
  | .dot l r a, p, h, t => by
    simp only [X.raw, X.tame] at h t
    obtain ⟨h1, h2, rfl⟩ := h
    exact ⟨nice_x l _ h1 t.1, nice_x r _ h2 t.2, ann_empty⟩
  | .ty _ a, p, h, t => by simp only [X.raw] at h; subst h; exact ann_empty
  | .fnB _ info ss a, p, h, t => by
    simp only [X.raw, X.tame] at h t
    obtain ⟨rfl, h1, rfl⟩ := h
    exact ⟨t.1, fun i h => by (cases h), nice_b ss h1 t.2, ann_empty⟩
  | .fnE _ info e a, p, h, t => by
    simp only [X.raw, X.tame] at h t
    obtain ⟨rfl, h1, rfl⟩ := h
    exact ⟨t.1, fun i h => by (cases h), nice_x e _ h1 t.2, ann_empty⟩
theorem nice_l : ∀ (xs : List X), rawL xs → tameL (ArityAt root) C xs → niceL root C xs
  | [], h, t => trivial
  | x :: xs, h, t => by
    simp only [rawL, tameL] at h t
    exact ⟨nice_x x _ h.1 t.1, nice_l xs h.2 t.2⟩
theorem nice_s : ∀ (s : S), s.raw → s.tame (ArityAt root) C → s.nice root C
  | .expr x, h, t => by simp only [S.raw, S.tame] at h t; exact nice_x x _ h t
  | .loop c ss, h, t => by simp only [S.raw, S.tame] at h t; exact ⟨nice_x c _ h.1 t.1, nice_b ss h.2 t.2⟩
  | .for_ x a e ss, h, t => by simp only [S.raw, S.tame] at h t; exact ⟨t.1, t.2.1, nice_x e _ h.1 t.2.2.1, nice_b ss h.2.1 t.2.2.2⟩
  | .ifs c, h, t => by simp only [S.raw, S.tame] at h t; exact nice_ch c h t
  | .ret0, h, t => trivial
  | .ret e, h, t => by simp only [S.raw, S.tame] at h t; exact nice_x e _ h t
  | .das l r, h, t => by simp only [S.raw, S.tame] at h t; exact ⟨t.1, nice_x r _ h.2 t.2⟩
  | .asg l r, h, t => by simp only [S.raw, S.tame] at h t; exact ⟨nice_x l _ h.1 t.1, nice_x r _ h.2 t.2⟩
  | .match_ e cs, h, t => by simp only [S.raw, S.tame] at h t; exact ⟨nice_x e _ h.1 t.1, nice_c cs h.2 t.2⟩
theorem nice_ch : ∀ (c : Ch), c.raw → c.tame (ArityAt root) C → c.nice root C
  | .done, h, t => trivial
  | .els ss, h, t => by simp only [Ch.raw, Ch.tame] at h t; exact nice_b ss h t
  | .cond c ss n, h, t => by simp only [Ch.raw, Ch.tame] at h t; exact ⟨nice_x c _ h.1 t.1, nice_b ss h.2.1 t.2.1, nice_ch n h.2.2 t.2.2⟩
theorem nice_b : ∀ (ss : List S), rawB ss → tameB (ArityAt root) C ss → niceB root C ss
  | [], h, t => trivial
  | s :: ss, h, t => by
    simp only [rawB, tameB] at h t
    exact ⟨nice_s s h.1 t.1, nice_b ss h.2 t.2⟩
theorem nice_c : ∀ (cs : List Case), rawC cs → tameC (ArityAt root) C cs → niceC root C cs
  | [], h, t => trivial
  | c :: cs, h, t => by
    simp only [rawC, tameC] at h t
    exact ⟨nice_case c h.1 t.1, nice_c cs h.2 t.2⟩
theorem nice_case : ∀ (c : Case), c.raw → c.tame (ArityAt root) C → c.nice root C
  | .mk x sym vs ss, h, t => by
    simp only [Case.raw, Case.tame] at h t
    exact ⟨t.1, t.2.1, nice_b ss h.2 t.2.2⟩
end

/-! ### Written types -/

/-- Names of types have fine types. -/
def Fine (root : Scope) (Γ : Env) : Prop := ∀ x s, FindsType Γ x s → ∃ t, s.ty = some t ∧ okTy root t

mutual
theorem means_okTy {Γ : Env} (hΓ : Fine root Γ) : ∀ (e : TyN) (t : Ty), e.Means Γ t → okTy root t
  | .named x false _, t, h => by
    simp only [TyN.Means] at h
    obtain ⟨s, h1, h2⟩ := h
    obtain ⟨u, h3, h4⟩ := hΓ x s h1
    rw [h2] at h3
    cases h3
    exact h4
  | .named x true args, t, h => by
    simp only [TyN.Means] at h
    obtain ⟨s, n, ps, ts, h1, h2, h3, h4, h5⟩ := h
    obtain ⟨u, h6, h7⟩ := hΓ x s h1
    have ih := meansAll_okTy hΓ args ts h2
    rcases h5 with ⟨_, rfl⟩ | ⟨h5, rfl⟩
    · simpa only [okTy] using ih
    · rw [h5] at h6
      cases h6
      simp only [okTy] at h7 ⊢
      exact ⟨fun _ => h3 ▸ h7.1 h4, ih⟩
  | .array e, t, h => by
    simp only [TyN.Means] at h
    obtain ⟨u, rfl, h1⟩ := h
    simp only [okTy]
    exact means_okTy hΓ e u h1
  | .func ps, t, h => by
    simp only [TyN.Means] at h
    obtain ⟨ts, rfl, h1⟩ := h
    simp only [okTy, and_true]
    exact meansAll_okTy hΓ ps ts h1
  | .funcR ps r, t, h => by
    simp only [TyN.Means] at h
    obtain ⟨ts, u, rfl, h1, h2⟩ := h
    simp only [okTy]
    exact ⟨meansAll_okTy hΓ ps ts h1, means_okTy hΓ r u h2⟩
theorem meansAll_okTy {Γ : Env} (hΓ : Fine root Γ) : ∀ (es : List TyN) (ts : List Ty), MeansAll Γ es ts → okTys root ts
  | [], ts, h => by simp only [MeansAll] at h; subst h; trivial
  | e :: es, ts, h => by
    simp only [MeansAll] at h
    obtain ⟨u, us, rfl, h1, h2⟩ := h
    exact ⟨means_okTy hΓ e u h1, meansAll_okTy hΓ es us h2⟩
end

end
end Clara.Sema.Chk

namespace Clara.Sema.Dcl
open Clara Clara.Types
open Clara.Sema.Chk (TyN Err Head FnBody Alt Sym Scope Env Decls Fn MeansAll plainSym tparamSym ArityAt EnumAt okTy okTys okTys_iff okTy_param RootOk LocOk LocalOk Fine FindsType)

theorem okTys_tps {root : Scope} (tps : List (String × Nat)) : okTys root (tpTys tps) := by
  rw [okTys_iff]
  intro t ht
  obtain ⟨p, _, rfl⟩ := List.mem_map.1 ht
  exact okTy_param _

theorem fnAlts_mem {x : String} : ∀ {l : List (String × Ty)} {id : Nat}, ∀ a ∈ fnAlts x id l, a.isType = false ∧ ∃ p ∈ l, p.1 = x ∧ a.ty = some p.2
  | [], id, a, h => by simp [fnAlts] at h
  | (y, t) :: l, id, a, h => by
    simp only [fnAlts] at h
    have ih := fnAlts_mem (x := x) (l := l) (id := id + 1) a
    split at h
    · rename_i hy
      rcases List.mem_cons.1 h with rfl | h
      · exact ⟨rfl, (y, t), by simp, hy, rfl⟩
      · obtain ⟨h1, p, h2, h3⟩ := ih h
        exact ⟨h1, p, by simp [h2], h3⟩
    · obtain ⟨h1, p, h2, h3⟩ := ih h
      exact ⟨h1, p, by simp [h2], h3⟩

theorem typeAlts_mem {ds : List Dcl} {x : String} {a : Alt} (h : a ∈ typeAlts ds x) : a.isType = true ∧
    ((∃ p ∈ builtinTypes, p.1 = x ∧ a.ty = some (.prim p.2)) ∨ ∃ d ∈ ds, ∃ t, d.type? = some (x, t) ∧ a.ty = some t) := by
  unfold typeAlts at h
  rcases List.mem_append.1 h with h | h
  · obtain ⟨p, hp, rfl⟩ := List.mem_map.1 h
    obtain ⟨hp, hx⟩ := List.mem_filter.1 hp
    exact ⟨rfl, .inl ⟨p, hp, by simpa using hx, rfl⟩⟩
  · obtain ⟨p, hp, rfl⟩ := List.mem_map.1 h
    obtain ⟨hp, hx⟩ := List.mem_filter.1 hp
    obtain ⟨d, hd, he⟩ := List.mem_filterMap.1 hp
    simp only [decide_eq_true_eq] at hx
    subst hx
    exact ⟨rfl, .inr ⟨d, hd, p.2, he, rfl⟩⟩

section
variable {ds : List Dcl} {D : Decls} {sc : Scope} {gs : List Fn} {ts us : List (String × Ty)} (h : Declared ds D sc gs ts us)
include h

theorem Declared.lookup_some {x : String} {s : Sym} (hs : sc.lookup x = some s) : s ≠ [] ∧ s = typeAlts ds x ++ fnAlts x 0 (builtinFns ++ ts ++ us) := by
  rw [h.lookup] at hs
  split at hs
  · cases hs
  · rename_i a as hq
    cases hs
    exact ⟨by simp, hq.symm⟩

theorem Declared.type_alts {d : Dcl} (hd : d ∈ ds) {x : String} {t : Ty} (he : d.type? = some (x, t)) :
    ∃ a, a.isType = true ∧ a.ty = some t ∧ typeAlts ds x = [a] := by
  refine ⟨{ ty := some t, isType := true, isGlobal := true }, rfl, rfl, ?_⟩
  have hn := h.types
  have hm : (x, t) ∈ ds.filterMap Dcl.type? := List.mem_filterMap.2 ⟨d, hd, he⟩
  rw [List.nodup_append, List.nodup_append] at hn
  unfold typeAlts
  have h1 : builtinTypes.filter (·.1 = x) = [] := by
    rw [List.filter_eq_nil_iff]
    intro p hp hpx
    simp only [decide_eq_true_eq] at hpx
    exact hn.2.2 p.1 (List.mem_append_left _ (List.mem_map_of_mem hp)) x (List.mem_map_of_mem (f := (·.1)) hm) hpx
  have h2 : ∀ (l : List (String × Ty)), (l.map (·.1)).Nodup → (x, t) ∈ l → l.filter (·.1 = x) = [(x, t)] := by
    intro l hl hm
    induction l with
    | nil => cases hm
    | cons e l ih =>
      simp only [List.map_cons, List.nodup_cons] at hl
      rcases List.mem_cons.1 hm with rfl | hm
      · simp only [List.filter_cons, decide_true, if_true, List.cons.injEq, true_and, List.filter_eq_nil_iff, decide_eq_true_eq]
        intro q hq hqx
        exact hl.1 (List.mem_map.2 ⟨q, hq, hqx⟩)
      · have hne : e.1 ≠ x := fun hx => hl.1 (List.mem_map.2 ⟨_, hm, hx.symm⟩)
        simp only [List.filter_cons, hne, decide_false, Bool.false_eq_true, if_false]
        exact ih hl.2 hm
  rw [h1, h2 _ hn.2.1 hm]
  rfl

theorem Declared.type_root {d : Dcl} (hd : d ∈ ds) {x : String} {t : Ty} (he : d.type? = some (x, t)) :
    ∃ a r, a.isType = true ∧ a.ty = some t ∧ sc.lookup x = some (a :: r) := by
  obtain ⟨a, h1, h2, h3⟩ := h.type_alts hd he
  refine ⟨a, fnAlts x 0 (builtinFns ++ ts ++ us), h1, h2, ?_⟩
  rw [h.lookup, h3]
  rfl

theorem Declared.arity : ArityAt sc = arityIn ds := by
  funext x n
  apply propext
  constructor
  · rintro ⟨h0, s, r, m, ps, h1, h2, h3, h4⟩
    obtain ⟨_, hs⟩ := h.lookup_some h1
    have hm : s ∈ typeAlts ds x ++ fnAlts x 0 (builtinFns ++ ts ++ us) := by rw [← hs]; simp
    rcases List.mem_append.1 hm with hm | hm
    · obtain ⟨_, ⟨p, _, _, hp⟩ | ⟨d, hd, t, ht, hty⟩⟩ := typeAlts_mem hm
      · rw [hp] at h4; simp at h4
      · refine ⟨d, hd, ?_⟩
        rw [hty] at h4
        cases d with
        | struct m' tps fs =>
          simp only [Dcl.type?, Option.some.injEq, Prod.mk.injEq] at ht
          obtain ⟨rfl, rfl⟩ := ht
          simp only [Option.some.injEq, Ty.struct.injEq, reduceCtorEq, or_false] at h4
          exact ⟨rfl, by rw [← h3, ← h4.2]; simp [tpTys], h0⟩
        | enum m' tps fs =>
          simp only [Dcl.type?, Option.some.injEq, Prod.mk.injEq] at ht
          obtain ⟨rfl, rfl⟩ := ht
          simp only [Option.some.injEq, Ty.enum.injEq, reduceCtorEq, false_or] at h4
          exact ⟨rfl, by rw [← h3, ← h4.2]; simp [tpTys], h0⟩
        | fn f => simp [Dcl.type?] at ht
    · rw [(fnAlts_mem s hm).1] at h2
      cases h2
  · rintro ⟨d, hd, ha⟩
    cases d with
    | struct m tps fs =>
      obtain ⟨rfl, rfl, h0⟩ := ha
      obtain ⟨a, r, h1, h2, h3⟩ := h.type_root hd rfl
      exact ⟨h0, a, r, _, _, h3, h1, by simp [tpTys], .inl h2⟩
    | enum m tps fs =>
      obtain ⟨rfl, rfl, h0⟩ := ha
      obtain ⟨a, r, h1, h2, h3⟩ := h.type_root hd rfl
      exact ⟨h0, a, r, _, _, h3, h1, by simp [tpTys], .inr h2⟩
    | fn f => exact ha.elim

theorem Declared.type_ok {x : String} {a : Alt} (ha : a ∈ typeAlts ds x) : ∃ t, a.ty = some t ∧ okTy sc t := by
  obtain ⟨_, ⟨p, _, _, hp⟩ | ⟨d, hd, t, ht, hty⟩⟩ := typeAlts_mem ha
  · exact ⟨_, hp, by simp [okTy]⟩
  · refine ⟨t, hty, ?_⟩
    obtain ⟨b, r, h1, h2, h3⟩ := h.type_root hd ht
    cases d with
    | struct m tps fs =>
      simp only [Dcl.type?, Option.some.injEq, Prod.mk.injEq] at ht
      obtain ⟨rfl, rfl⟩ := ht
      simp only [okTy]
      exact okTys_tps tps
    | enum m tps cs =>
      simp only [Dcl.type?, Option.some.injEq, Prod.mk.injEq] at ht
      obtain ⟨rfl, rfl⟩ := ht
      simp only [okTy]
      refine ⟨fun _ => ⟨b, r, m, tps.map (·.2), h3, h1, ?_, by simp [tpTys]⟩, okTys_tps tps⟩
      rw [h2]
      simp [tpTys, Function.comp_def]
    | fn f => simp [Dcl.type?] at ht

theorem Declared.fine (tps : List (String × Nat)) : Fine sc [tpScope tps, sc] := by
  intro x s hf
  cases hf with
  | here hl ht =>
    rename_i r
    unfold tpScope at hl
    obtain ⟨p, _, hp⟩ := Clara.Sema.Chk.lookup_map_mem hl
    simp only [Prod.mk.injEq, List.cons.injEq] at hp
    rw [← hp.2.1]
    exact ⟨_, rfl, okTy_param _⟩
  | outer _ hf =>
    cases hf with
    | here hl ht =>
      obtain ⟨_, hs⟩ := h.lookup_some hl
      have hm : s ∈ typeAlts ds x ++ fnAlts x 0 (builtinFns ++ ts ++ us) := by rw [← hs]; simp
      rcases List.mem_append.1 hm with hm | hm
      · exact h.type_ok hm
      · rw [(fnAlts_mem s hm).1] at ht
        cases ht
    | outer _ hf => cases hf

theorem Declared.types_ok {s : Sig} {vs : List Ty} {r : Ty} (ht : s.Types sc vs r) : okTys sc vs ∧ okTy sc r := by
  refine ⟨Clara.Sema.Chk.meansAll_okTy (h.fine _) _ _ ht.params, ?_⟩
  have := ht.ret
  cases hr : s.head.ret with
  | none => rw [hr] at this; simp only [retMeans] at this; subst this; simp [okTy]
  | some t => rw [hr] at this; exact Clara.Sema.Chk.means_okTy (h.fine _) _ _ this

/-- The types of functions. -/
theorem Declared.fn_ok {p : String × Ty} (hp : p ∈ builtinFns ++ ts ++ us) : okTy sc p.2 ∧ ∃ d ps r, p.2 = .fn d ps r := by
  rcases List.mem_append.1 hp with hp | hp
  · rcases List.mem_append.1 hp with hp | hp
    · simp only [builtinFns, List.mem_cons, List.not_mem_nil, or_false] at hp
      rcases hp with rfl | rfl <;> exact ⟨by simp [okTy, okTys], _, _, _, rfl⟩
    · obtain ⟨s, _, hs⟩ := all₂_mem h.functions p hp
      obtain ⟨vs, r, h1, h2⟩ := hs.type
      rw [h2]
      exact ⟨by simp only [okTy]; exact h.types_ok h1, _, _, _, rfl⟩
  · obtain ⟨s, _, hs⟩ := all₂_mem h.structs p hp
    obtain ⟨vs, h1, _, h2⟩ := hs.fields
    rw [h2]
    refine ⟨?_, _, _, _, rfl⟩
    simp only [okTy]
    exact ⟨Clara.Sema.Chk.meansAll_okTy (h.fine _) _ _ h1, okTys_tps _⟩

theorem Declared.root_ok {case : String → Prop} (ht : TameDcls ds case) : RootOk sc D := by
  refine ⟨fun x s hs => ?_, fun s hs => ?_, fun n d hd p hp => ?_⟩
  · obtain ⟨h1, h2⟩ := h.lookup_some hs
    refine ⟨h1, fun a ha => ?_⟩
    rw [h2] at ha
    rcases List.mem_append.1 ha with ha | ha
    · exact h.type_ok ha
    · obtain ⟨_, p, h3, _, h4⟩ := fnAlts_mem a ha
      exact ⟨p.2, h4, (h.fn_ok h3).1⟩
  · obtain ⟨h1, h2⟩ := h.lookup_some hs
    have hno : typeAlts ds "unsafe" = [] := by
      cases hq : typeAlts ds "unsafe" with
      | nil => rfl
      | cons a as =>
        exfalso
        obtain ⟨_, ⟨p, hp, hx, _⟩ | ⟨d, hd, t, hdt, _⟩⟩ := typeAlts_mem (a := a) (by rw [hq]; simp)
        · have : ∀ p ∈ builtinTypes, p.1 ≠ "unsafe" := by decide
          exact this p hp hx
        · cases d with
          | struct m tps fs =>
            simp only [Dcl.type?, Option.some.injEq, Prod.mk.injEq] at hdt
            exact (ht.structs m tps fs hd).1 hdt.1
          | enum m tps fs =>
            simp only [Dcl.type?, Option.some.injEq, Prod.mk.injEq] at hdt
            exact (ht.enums m tps fs hd).1 hdt.1
          | fn f => simp [Dcl.type?] at hdt
    rw [hno, List.nil_append] at h2
    cases s with
    | nil => exact absurd rfl h1
    | cons a s =>
      obtain ⟨_, p, h3, _, h4⟩ := fnAlts_mem a (by rw [← h2]; simp)
      obtain ⟨d, ps, r, h5⟩ := (h.fn_ok h3).2
      exact ⟨d, ps, r, by simp [Sym.ty, h4, h5]⟩
  · by_cases hm : ∃ tps fs, Dcl.struct n tps fs ∈ ds
    · obtain ⟨tps, fs, hm⟩ := hm
      obtain ⟨c, _, hc⟩ := all₂_mem_left h.structs (n, tps, fs) (List.mem_filterMap.2 ⟨_, hm, rfl⟩)
      obtain ⟨vs, h1, h2, _⟩ := hc.fields
      rw [hd] at h2
      cases h2
      have h3 := Clara.Sema.Chk.meansAll_okTy (h.fine _) _ _ h1
      exact okTys_iff.1 h3 _ (List.of_mem_zip hp).2
    · rw [h.noStruct n (fun tps fs hm' => hm ⟨tps, fs, hm'⟩)] at hd
      cases hd

theorem Declared.own_ok {case : String → Prop} {tps : List (String × Nat)} {ps : List (String × TyN)} {vs : List Ty}
    (htp : ∀ p ∈ tps, p.1 ≠ "unsafe" ∧ ∀ n, ¬ arityIn ds p.1 n) (hps : ∀ p ∈ ps, p.1 ≠ "unsafe") (hv : okTys sc vs) :
    LocOk sc case (((ps.map (·.1)).zip vs).map (fun p => (p.1, [plainSym (some p.2)])) ++ tpScope tps) := by
  intro x s hx
  rw [lookup_append'] at hx
  cases hp : (((ps.map (·.1)).zip vs).map (fun p => (p.1, ([plainSym (some p.2)] : Sym)))).lookup x with
  | some v =>
    rw [hp] at hx
    simp only [Option.some_or, Option.some.injEq] at hx
    subst hx
    obtain ⟨p, hm, he⟩ := Clara.Sema.Chk.lookup_map_mem hp
    simp only [Prod.mk.injEq] at he
    obtain ⟨rfl, rfl⟩ := he
    have hz := List.of_mem_zip hm
    obtain ⟨q, hq, hq1⟩ := List.mem_map.1 hz.1
    have hok := okTys_iff.1 hv _ hz.2
    refine ⟨by simp, ⟨?_, .inl (by simp)⟩, ?_, ?_, ?_⟩
    · intro a ha t hat
      simp only [List.mem_singleton] at ha
      subst ha
      simp only [plainSym, Option.some.injEq] at hat
      subst hat
      exact hok
    · intro _ a ha
      simp only [List.mem_singleton] at ha
      subst ha
      simp [plainSym]
    · rw [← hq1]; exact hps q hq
    · intro a ha hty
      simp only [List.mem_singleton] at ha
      subst ha
      cases hty
  | none =>
    rw [hp] at hx
    simp only [Option.none_or] at hx
    unfold tpScope at hx
    obtain ⟨p, hm, he⟩ := Clara.Sema.Chk.lookup_map_mem hx
    simp only [Prod.mk.injEq] at he
    obtain ⟨rfl, rfl⟩ := he
    refine ⟨by simp, ⟨?_, .inl (by simp)⟩, ?_, (htp p hm).1, ?_⟩
    · intro a ha t hat
      simp only [List.mem_singleton] at ha
      subst ha
      simp only [tparamSym, Option.some.injEq] at hat
      subst hat
      exact okTy_param _
    · intro _ a ha
      simp only [List.mem_singleton] at ha
      subst ha
      simp [tparamSym]
    · intro a ha hty
      simp only [List.mem_singleton] at ha
      subst ha
      refine ⟨by simp [tparamSym], fun n => ?_⟩
      rw [h.arity]
      exact (htp p hm).2 n

theorem Declared.nice {case : String → Prop} (ht : TameDcls ds case) (hr : ∀ f, Dcl.fn f ∈ ds → f.body.raw) : ∀ g ∈ gs, g.nice sc case := by
  intro g hg
  obtain ⟨s, hs, hb⟩ := all₂_mem h.bodies g hg
  have hs' : s ∈ ds.flatMap Dcl.sigs := by
    rcases List.mem_append.1 hs with hs | hs <;> exact (List.mem_filter.1 hs).1
  obtain ⟨d, hd, hs⟩ := List.mem_flatMap.1 hs'
  cases d with
  | struct n tps fs => simp [Dcl.sigs] at hs
  | enum n tps cs =>
    simp only [Dcl.sigs] at hs
    obtain ⟨c, hc, rfl⟩ := List.mem_map.1 hs
    have := hb.body
    simp only at this
    exact ⟨fun hn => absurd this hn, fun ss he => (by rw [this] at he; cases he), fun e he => (by rw [this] at he; cases he)⟩
  | fn f =>
    simp only [Dcl.sigs, List.mem_singleton] at hs
    subst hs
    obtain ⟨h1, h2⟩ := ht.fns f hd
    have hraw := hr f hd
    rw [← h.arity] at h2
    obtain ⟨vs, h3, h4⟩ := hb.types
    have h5 := hb.body
    simp only at h4 h5
    refine ⟨fun _ => ?_, fun ss he => ?_, fun e he => ?_⟩
    · rw [h4]
      exact h.own_ok h1.tps (fun p hp => (h1.params p hp).1) (h.types_ok h3).1
    · rw [h5] at he
      rw [he] at hraw h2
      exact Clara.Sema.Chk.nice_b ss hraw h2
    · rw [h5] at he
      rw [he] at hraw h2
      exact Clara.Sema.Chk.nice_x e _ hraw h2

end

end Clara.Sema.Dcl
