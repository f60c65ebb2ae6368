import Verif.Sema.CheckMain
set_option linter.unusedVariables false
set_option linter.unusedSimpArgs false
set_option linter.unnecessarySimpa false
/-
Statements and programs that the type checker accepts are well typed.
-/
namespace Clara.Sema.Chk
open Clara.Types

/-- `body` for a fixed result type. -/
def SoundR (D : Decls) (ret : Ty) (body : Env → List S → Except Stop (List S × List Err × Env)) : Prop :=
  ∀ Γ ss ss' Γ', Good Γ → rawB ss → quietB D ss → body Γ ss = .ok (ss', [], Γ') → wtB true D ret Γ ss'

theorem good_nil {Γ : Env} (hg : Good Γ) : Good ([] :: Γ) := good_scope (by simp) hg

theorem sound_ch {D : Decls} {chk : Env → X → R X} {body : Env → List S → Except Stop (List S × List Err × Env)} {ret : Ty}
    (hk : Sound D chk) (hB : SoundR D ret body) {Γ : Env} (hg : Good Γ) : ∀ {c c' : Ch}, c.raw → c.quiet D →
    chkCh (chk Γ) body Γ c = .ok (c', []) → c'.wt true D ret Γ
  | .done, c', hr, hq, h => by
    simp only [chkCh, Except.ok.injEq, Prod.mk.injEq] at h
    rw [← h.1]
    simp [Ch.wt]
  | .els ss, c', hr, hq, h => by
    simp only [Ch.raw] at hr
    simp only [Ch.quiet] at hq
    simp only [chkCh] at h
    split at h
    · cases h
    · rename_i h1
      simp only [Except.ok.injEq, Prod.mk.injEq] at h
      obtain ⟨rfl, rfl⟩ := h
      simp only [Ch.wt]
      exact hB _ _ _ _ (good_nil hg) hr hq h1
  | .cond c ss next, c', hr, hq, h => by
    simp only [Ch.raw] at hr
    simp only [Ch.quiet] at hq
    simp only [chkCh] at h
    getok h1 : chk Γ c at h with c1 es1
    have key : es1 = [] → c1.wt true D Γ .value := by
      rintro rfl
      exact (hk _ _ _ hg (.raw hr.1 hq.1) h1).1
    split at h
    · rename_i hn
      simp only [Except.ok.injEq, Prod.mk.injEq] at h
      obtain ⟨t, ht⟩ := wt_typ (key h.2)
      rw [hn] at ht; cases ht
    · rename_i t ht
      split at h
      · simp at h
      · rename_i p1
        have p1 := isPrim_eq (by simpa using p1 : isPrim .bool t = true)
        subst p1
        split at h
        · cases h
        · rename_i h2
          split at h
          · cases h
          · rename_i h3
            simp only [Except.ok.injEq, Prod.mk.injEq, List.append_eq_nil_iff] at h
            obtain ⟨rfl, ⟨rfl, rfl⟩, rfl⟩ := h
            simp only [Ch.wt]
            exact ⟨key rfl, ht, hB _ _ _ _ (good_nil hg) hr.2.1 hq.2.1 h2, sound_ch hk hB hg hr.2.2 hq.2.2 h3⟩

theorem sound_case {D : Decls} {body : Env → List S → Except Stop (List S × List Err × Env)} {ret : Ty}
    (hB : SoundR D ret body) {Γ : Env} (hg : Good Γ) {n : String} {us : List Ty} {b : Bound}
    (hb : ∀ ps, CaseTypes Γ n us ps (ps.map (Ty.subst b))) {c c' : Case} (hr : c.raw) (hq : c.quiet D)
    (h : chkCase body Γ b c = .ok (c', [])) : c'.wt true D ret Γ n us ∧ ∃ x s vs ss, c' = .mk x (some s) vs ss := by
  obtain ⟨x, sym, vs, ss⟩ := c
  simp only [Case.raw] at hr
  simp only [Case.quiet] at hq
  simp only [chkCase] at h
  split at h
  · simp at h
  · cases h
  · rename_i s rs hl
    split at h
    · cases h
    · rename_i d ps r hty
      split at h
      · simp at h
      · rename_i hd
        split at h
        · simp at h
        · rename_i hlen
          split at h
          · cases h
          · rename_i ss1 es1 Γ1 h1
            simp only [Except.ok.injEq, Prod.mk.injEq, List.append_eq_nil_iff] at h
            obtain ⟨rfl, h2, rfl⟩ := h
            have hv := chkVars_ok (vs := vs) (ts := ps.map (Ty.subst b)) (sc := []) (Γ := Γ) (by simp; omega) (Prod.ext rfl (Prod.ext h2 rfl)) (by simp)
            obtain ⟨v1, v2, v3, v4⟩ := hv
            have v1 : (chkVars ([] :: Γ) vs (ps.map (Ty.subst b))).2.2 = _ := v1
            rw [v1] at h1
            simp only [List.append_nil] at h1
            refine ⟨?_, _, _, _, _, rfl⟩
            simp only [Case.wt]
            refine ⟨s, rs, d, ps, r, ps.map (Ty.subst b), finds_iff.1 hl, rfl, hty, by simpa using hd, hb ps, v3, ?_, ?_⟩
            · rw [v2]; simpa using v4
            · rw [v2]
              refine hB _ _ _ _ ?_ hr.2 hq h1
              refine good_scope ?_ hg
              intro e he
              obtain ⟨p, _, rfl⟩ := List.mem_map.1 he
              exact ⟨_, p.2, rfl, rfl⟩
    · simp at h

theorem sound_cases {D : Decls} {body : Env → List S → Except Stop (List S × List Err × Env)} {ret : Ty}
    (hB : SoundR D ret body) {Γ : Env} (hg : Good Γ) {n : String} {us : List Ty} {b : Bound}
    (hb : ∀ ps, CaseTypes Γ n us ps (ps.map (Ty.subst b))) : ∀ {cs cs' : List Case}, rawC cs → quietC D cs →
    chkCases body Γ b cs = .ok (cs', []) → wtC true D ret Γ n us cs' ∧ (Case.fids cs').length = cs'.length
  | [], cs', hr, hq, h => by
    simp only [chkCases, Except.ok.injEq, Prod.mk.injEq] at h
    rw [← h.1]
    simp [wtC, Case.fids]
  | c :: cs, cs', hr, hq, h => by
    simp only [rawC] at hr
    simp only [quietC] at hq
    simp only [chkCases] at h
    split at h
    · cases h
    · rename_i h1
      split at h
      · cases h
      · rename_i h2
        simp only [Except.ok.injEq, Prod.mk.injEq, List.append_eq_nil_iff] at h
        obtain ⟨rfl, rfl, rfl⟩ := h
        obtain ⟨k1, x, s, vs, ss, rfl⟩ := sound_case hB hg hb hr.1 hq.1 h1
        obtain ⟨k2, k3⟩ := sound_cases hB hg hb hr.2 hq.2 h2
        simp only [wtC, Case.fids, List.length_cons, k3]
        exact ⟨⟨k1, k2⟩, trivial⟩

theorem after_push {Γ : Env} {x : String} {s : Sym} {r : X} {t : Option Ty} : S.after Γ (.das (.ident x ⟨t, some s⟩) r) = push x s Γ := by
  cases Γ <;> rfl

theorem sound_stmt {D : Decls} {chk : Env → X → R X} {body : Env → List S → Except Stop (List S × List Err × Env)} {ret : Ty}
    (hk : Sound D chk) (hB : SoundR D ret body) {Γ Γ1 : Env} (hg : Good Γ) {s s' : S} (hr : s.raw) (hq : s.quiet D)
    (h : stepS D chk body Γ ret s = .ok (s', [], Γ1)) : s'.wt true D ret Γ ∧ Γ1 = s'.after Γ ∧ Good Γ1 := by
  have one : ∀ {e e1 : X}, e.raw → e.quiet D → chk Γ e = .ok (e1, []) → e1.wt true D Γ .value ∧ ∃ t, e1.typ = some t := by
    intro e e1 hr hq h
    have := (hk _ _ _ hg (.raw hr hq) h).1
    exact ⟨this, wt_typ this⟩
  cases s with
  | expr x =>
    simp only [S.raw] at hr
    simp only [S.quiet] at hq
    simp only [stepS] at h
    getok h1 : chk Γ x at h with x1 es1
    simp only [Except.ok.injEq, Prod.mk.injEq] at h
    obtain ⟨rfl, rfl, rfl⟩ := h
    simp only [S.wt]
    exact ⟨(one hr hq h1).1, rfl, hg⟩
  | loop c ss =>
    simp only [S.raw] at hr
    simp only [S.quiet] at hq
    simp only [stepS] at h
    getok h1 : chk Γ c at h with c1 es1
    split at h
    · rename_i hn
      simp only [Except.ok.injEq, Prod.mk.injEq] at h
      obtain ⟨_, rfl, _⟩ := h
      obtain ⟨t, ht⟩ := (one hr.1 hq.1 h1).2
      rw [hn] at ht; cases ht
    · rename_i t ht
      split at h
      · simp at h
      · rename_i p1
        have p1 := isPrim_eq (by simpa using p1 : isPrim .bool t = true)
        subst p1
        split at h
        · cases h
        · rename_i h2
          simp only [Except.ok.injEq, Prod.mk.injEq, List.append_eq_nil_iff] at h
          obtain ⟨rfl, ⟨rfl, rfl⟩, rfl⟩ := h
          simp only [S.wt]
          exact ⟨⟨(one hr.1 hq.1 h1).1, ht, hB _ _ _ _ (good_nil hg) hr.2 hq.2 h2⟩, rfl, hg⟩
  | for_ x a e ss =>
    simp only [S.raw] at hr
    simp only [S.quiet] at hq
    simp only [stepS] at h
    getok h1 : chk Γ e at h with e1 es1
    split at h
    · rename_i hn
      simp only [Except.ok.injEq, Prod.mk.injEq] at h
      obtain ⟨_, rfl, _⟩ := h
      obtain ⟨t, ht⟩ := (one hr.1 hq.1 h1).2
      rw [hn] at ht; cases ht
    · rename_i t ht
      split at h
      · cases h
      · rename_i ss1 es2 Γ2 h2
        simp only [Except.ok.injEq, Prod.mk.injEq, List.append_eq_nil_iff] at h
        obtain ⟨rfl, ⟨⟨rfl, h3⟩, rfl⟩, rfl⟩ := h
        have key : ∃ u, loopTy t e1 = (some u, []) ∧
            (e1.typ = some (.array u) ∨ ((∃ l r b, e1 = .bin .range l r b) ∧ e1.typ = some u)) := by
          revert h3
          generalize hv : loopTy t e1 = v
          unfold loopTy at hv
          split at hv
          · intro _; exact ⟨_, hv.symm, .inl ht⟩
          · intro _; exact ⟨_, hv.symm, .inr ⟨⟨_, _, _, rfl⟩, ht⟩⟩
          · intro h; rw [← hv] at h; simp at h
        obtain ⟨u, k1, k2⟩ := key
        rw [k1] at h2 ⊢
        simp only [S.wt]
        refine ⟨⟨(one hr.1 hq.1 h1).1, u, k2, rfl, hB _ _ _ _ ?_ hr.2.1 hq.2 h2⟩, rfl, hg⟩
        exact good_scope (by intro e he; simp at he; subst he; exact ⟨_, u, rfl, rfl⟩) hg
  | ifs c =>
    simp only [S.raw] at hr
    simp only [S.quiet] at hq
    simp only [stepS] at h
    split at h
    · cases h
    · rename_i h1
      simp only [Except.ok.injEq, Prod.mk.injEq] at h
      obtain ⟨rfl, rfl, rfl⟩ := h
      simp only [S.wt]
      exact ⟨sound_ch hk hB hg hr hq h1, rfl, hg⟩
  | ret0 =>
    simp only [stepS, Except.ok.injEq, Prod.mk.injEq] at h
    obtain ⟨rfl, h1, rfl⟩ := h
    simp only [S.wt]
    refine ⟨(same_iff _ _).1 ?_, rfl, hg⟩
    split at h1
    · assumption
    · simp at h1
  | ret e =>
    simp only [S.raw] at hr
    simp only [S.quiet] at hq
    simp only [stepS] at h
    getok h1 : chk Γ e at h with e1 es1
    split at h
    · rename_i hn
      simp only [Except.ok.injEq, Prod.mk.injEq] at h
      obtain ⟨_, rfl, _⟩ := h
      obtain ⟨t, ht⟩ := (one hr hq h1).2
      rw [hn] at ht; cases ht
    · rename_i t ht
      simp only [Except.ok.injEq, Prod.mk.injEq, List.append_eq_nil_iff] at h
      obtain ⟨rfl, ⟨rfl, h2⟩, rfl⟩ := h
      simp only [S.wt]
      refine ⟨⟨(one hr hq h1).1, t, ht, (same_iff _ _).1 ?_⟩, rfl, hg⟩
      split at h2
      · assumption
      · simp at h2
  | das l r =>
    simp only [S.raw] at hr
    simp only [S.quiet] at hq
    simp only [stepS] at h
    getok h1 : chk Γ r at h with r1 es1
    split at h
    · rename_i hn
      simp only [Except.ok.injEq, Prod.mk.injEq] at h
      obtain ⟨_, rfl, _⟩ := h
      obtain ⟨t, ht⟩ := (one hr.2 hq.2 h1).2
      rw [hn] at ht; cases ht
    · rename_i t ht
      split at h
      · rename_i x a
        split at h
        · simp at h
        · rename_i Γ2 hd
          simp only [Except.ok.injEq, Prod.mk.injEq] at h
          obtain ⟨rfl, rfl, rfl⟩ := h
          obtain ⟨hf, hp⟩ := define_some hd
          simp only [S.wt]
          exact ⟨⟨(one hr.2 hq.2 h1).1, x, t, ht, rfl, hf⟩, by rw [after_push]; exact hp, good_define hd rfl hg⟩
      · simp at h
  | asg l r =>
    simp only [S.raw] at hr
    simp only [S.quiet] at hq
    simp only [stepS] at h
    getok h1 : chk Γ r at h with r1 es1
    getok h2 : chk Γ l at h with l1 es2
    have he : es1 = [] ∧ es2 = [] := by
      repeat' split at h
      all_goals (simp at h; try exact h.2.1)
    obtain ⟨rfl, rfl⟩ := he
    obtain ⟨k1, u, hu⟩ := one hr.2 hq.2 h1
    obtain ⟨k2, t, ht⟩ := one hr.1 hq.1 h2
    simp only [ht, hu] at h
    split at h
    · simp at h
    · rename_i p1
      split at h
      · simp at h
      · rename_i p2
        split at h
        · simp at h
        · rename_i p3
          simp only [Except.ok.injEq, Prod.mk.injEq] at h
          obtain ⟨rfl, _, rfl⟩ := h
          simp only [S.wt]
          refine ⟨⟨k1, k2, ⟨t, u, ht, hu, (same_iff _ _).1 (by simpa using p3)⟩, ?_⟩, rfl, hg⟩
          cases l1 with
          | ident x b => intro h; cases h
          | index l r b => trivial
          | dot l r b =>
            rintro c t' rfl hlt
            simp only [X.readOnly, hlt, decide_true, Bool.true_and] at p2
            refine ⟨?_, ?_⟩
            · rintro rfl; simp [hasLength] at p2
            · rintro e rfl; simp [hasLength] at p2
          | call f ts as b =>
            refine ⟨trivial, ?_⟩
            simp only [X.addressable] at p1
            split at p1
            · rename_i n ts hb; exact .inl ⟨n, ts, hb⟩
            · rename_i e hb; exact .inr ⟨e, hb⟩
            · simp at p1
          | _ => simp [X.addressable] at p1
  | match_ e cs =>
    simp only [S.raw] at hr
    simp only [S.quiet] at hq
    simp only [stepS] at h
    getok h1 : chk Γ e at h with e1 es1
    split at h
    · rename_i hn
      simp only [Except.ok.injEq, Prod.mk.injEq] at h
      obtain ⟨_, rfl, _⟩ := h
      obtain ⟨t, ht⟩ := (one hr.1 hq.1 h1).2
      rw [hn] at ht; cases ht
    · rename_i n us ht
      split at h
      · cases h
      · rename_i b hb
        split at h
        · cases h
        · rename_i cs1 es2 h2
          split at h
          · rename_i hne
            simp only [Except.ok.injEq, Prod.mk.injEq] at h
            exact absurd h.2.1 hne
          · rename_i hne
            simp only [ne_eq, Classical.not_not, List.append_eq_nil_iff] at hne
            obtain ⟨⟨rfl, rfl⟩, h3⟩ := hne
            simp only [Except.ok.injEq, Prod.mk.injEq] at h
            obtain ⟨rfl, h4, rfl⟩ := h
            obtain ⟨k1, k2⟩ := sound_cases hB hg (enumBound_ok hb) hr.2 hq.2 h2
            obtain ⟨m1, m2⟩ := chkMembers_ok h3
            simp only [S.wt]
            refine ⟨⟨(one hr.1 hq.1 h1).1, n, us, ht, k1, perm_of m1 (fun x hx => (m2 x hx).1) ?_⟩, rfl, hg⟩
            rw [k2]
            split at h4
            · simp at h4
            · rename_i h5; simpa using h5
    · simp at h

theorem sound_chk (D : Decls) : ∀ n, Sound D (chkX D n) ∧ SoundB D (chkB D n)
  | 0 => by
    refine ⟨fun Γ e e' _ _ h => by simp [chkX] at h, fun Γ ret ss ss' Γ' _ _ _ h => ?_⟩
    cases ss with
    | nil => simp only [chkB, Except.ok.injEq, Prod.mk.injEq] at h; rw [← h.1]; simp [wtB]
    | cons s ss => simp [chkB] at h
  | n + 1 => by
    obtain ⟨ih1, ih2⟩ := sound_chk D n
    constructor
    · intro Γ e e' hg hm h
      rw [chkX] at h
      exact sound_step ih1 (back_chk D n) (calm_chk D n) (fixed_chk D n) (shape_chk D n) ih2 Γ e e' hg hm h
    · intro Γ ret ss ss' Γ' hg hr hq h
      cases ss with
      | nil => simp only [chkB, Except.ok.injEq, Prod.mk.injEq] at h; rw [← h.1]; simp [wtB]
      | cons s ss =>
        simp only [rawB] at hr
        simp only [quietB] at hq
        simp only [chkB] at h
        split at h
        · cases h
        · rename_i h1
          split at h
          · cases h
          · rename_i h2
            simp only [Except.ok.injEq, Prod.mk.injEq, List.append_eq_nil_iff] at h
            obtain ⟨rfl, ⟨rfl, rfl⟩, rfl⟩ := h
            obtain ⟨k1, rfl, k3⟩ := sound_stmt ih1 (fun Γ ss ss' Γ' a b c d => ih2 Γ ret ss ss' Γ' a b c d) hg hr.1 hq.1 h1
            simp only [wtB]
            exact ⟨k1, ih2 _ _ _ _ _ k3 hr.2 hq.2 h2⟩

/-! ### Programs -/

def FnBody.raw : FnBody → Prop
  | .none_ => True
  | .block ss => rawB ss
  | .expr e => e.raw

def FnBody.quiet (D : Decls) : FnBody → Prop
  | .none_ => True
  | .block ss => quietB D ss
  | .expr e => e.quiet D

theorem sound_fn {D : Decls} {n : Nat} {root : Scope} {f f' : Fn} (hg : Good [f.own, root]) (hr : f.body.raw) (hq : f.body.quiet D)
    (h : chkFn D n root f = .ok (f', [])) : f'.wt true D root f.own ∧ f'.ret = f.ret := by
  unfold chkFn at h
  split at h
  · rename_i hb
    cases h
    exact ⟨by simp [Fn.wt, hb], rfl⟩
  · rename_i ss hb
    rw [hb] at hr hq
    split at h
    · cases h
    · rename_i h1
      cases h
      exact ⟨by simp only [Fn.wt]; exact (sound_chk D n).2 _ _ _ _ _ hg hr hq h1, rfl⟩
  · rename_i e hb
    rw [hb] at hr hq
    split at h
    · cases h
    · rename_i e1 es1 h1
      simp only [Except.ok.injEq, Prod.mk.injEq, List.append_eq_nil_iff] at h
      obtain ⟨rfl, rfl, h2⟩ := h
      refine ⟨?_, rfl⟩
      have k := ((sound_chk D n).1 _ _ _ hg (.raw hr hq) h1).1
      obtain ⟨t, ht⟩ := wt_typ k
      simp only [Fn.wt]
      refine ⟨k, t, ht, (same_iff _ _).1 ?_⟩
      simp only [ht] at h2
      split at h2
      · assumption
      · simp at h2

theorem sound_prog {D : Decls} {n : Nat} {root : Scope} : ∀ {fs fs' : List Fn}, (∀ f ∈ fs, Good [f.own, root] ∧ f.body.raw ∧ f.body.quiet D) →
    chkProg D n root fs = .ok (fs', []) → All₂ (fun f f' => f'.wt true D root f.own ∧ f'.ret = f.ret) fs fs'
  | [], fs', hp, h => by
    simp only [chkProg, Except.ok.injEq, Prod.mk.injEq] at h
    rw [← h.1]
    exact .nil
  | f :: fs, fs', hp, h => by
    simp only [chkProg] at h
    split at h
    · cases h
    · rename_i h1
      split at h
      · cases h
      · rename_i h2
        simp only [Except.ok.injEq, Prod.mk.injEq, List.append_eq_nil_iff] at h
        obtain ⟨rfl, rfl, rfl⟩ := h
        obtain ⟨a, b, c⟩ := hp f (by simp)
        exact .cons (sound_fn a b c h1) (sound_prog (fun g hg => hp g (by simp [hg])) h2)

end Clara.Sema.Chk
