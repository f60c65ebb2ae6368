import Verif.Sema.CheckSound
set_option linter.unusedVariables false
set_option linter.unusedSimpArgs false
set_option linter.unnecessarySimpa false
/-
A quiet program that the type checker accepts is well typed.
-/
namespace Clara.Sema.Chk
open Clara.Types
open Clara.Props (Fits)

mutual
/-- An expression that can be checked again: no function literal, and operands whose errors would be dropped
have their final types. -/
def X.firm (D : Decls) (Γ : Env) : X → Prop
  | .lit _ _ => True
  | .ident _ _ => True
  | .call f _ args _ => f.firm D Γ ∧ firmL D Γ args
  | .bin _ l r _ => l.firm D Γ ∧ r.firm D Γ
  | .cmp _ l r _ => l.firm D Γ ∧ r.firm D Γ
  | .un _ l _ => l.firm D Γ
  | .tern c x y _ => c.fixed D Γ ∧ x.fixed D Γ ∧ y.fixed D Γ
  | .arr es _ => fixedL D Γ es
  | .index l r _ => l.firm D Γ ∧ r.firm D Γ
  | .dot l r _ => l.firm D Γ
  | .ty _ _ => True
  | .fnB _ _ _ _ => False
  | .fnE _ _ _ _ => False
def firmL (D : Decls) (Γ : Env) : List X → Prop
  | [] => True
  | x :: xs => x.firm D Γ ∧ firmL D Γ xs
end

theorem firm_mem {D : Decls} {Γ : Env} : ∀ {xs : List X}, firmL D Γ xs → ∀ x ∈ xs, x.firm D Γ
  | [], _, x, h => by simp at h
  | y :: ys, h, x, hx => by
    simp only [firmL] at h
    rcases List.mem_cons.1 hx with rfl | hx
    · exact h.1
    · exact firm_mem h.2 x hx

theorem firm_of_fixed {D : Decls} {Γ : Env} : ∀ {e : X}, e.fixed D Γ → e.firm D Γ
  | .lit _ _, h | .ident _ _, h | .ty _ _, h => by simp [X.firm]
  | .call _ _ _ _, h | .fnB _ _ _ _, h | .fnE _ _ _ _, h => by simp [X.fixed] at h
  | .bin _ l r _, h | .cmp _ l r _, h | .index l r _, h => by
    simp only [X.fixed] at h; simp only [X.firm]
    exact ⟨firm_of_fixed h.1, firm_of_fixed h.2.1⟩
  | .un _ l _, h => by
    simp only [X.fixed] at h; simp only [X.firm]
    exact firm_of_fixed h.1
  | .tern c x y _, h => by
    simp only [X.fixed] at h; simp only [X.firm]
    exact ⟨h.1, h.2.1, h.2.2.1⟩
  | .arr es _, h => by
    simp only [X.fixed] at h; simp only [X.firm]
    exact h.1
  | .dot l r _, h => by
    simp only [X.fixed] at h; simp only [X.firm]
    exact firm_of_fixed h.1

theorem firm_setArg {D : Decls} {Γ : Env} {x : X} {g : Arg} (h : x.firm D Γ) : (x.setArg g).firm D Γ := by
  cases x <;> simpa only [X.setArg, X.firm] using h

theorem firm_setArgs {D : Decls} {Γ : Env} : ∀ {xs : List X} {gs : List Arg}, firmL D Γ xs → firmL D Γ (setArgs xs gs)
  | [], _, h => by simpa [setArgs] using h
  | x :: xs, [], h => by simpa only [setArgs] using h
  | x :: xs, g :: gs, h => by
    simp only [setArgs, firmL] at h ⊢
    exact ⟨firm_setArg h.1, firm_setArgs h.2⟩

theorem firm_setCallee {D : Decls} {Γ : Env} {x : X} {s : Option Sym} (h : x.firm D Γ) : (setCallee x s).firm D Γ := by
  cases x <;> simpa only [setCallee, X.firm] using h

/-! ### Well typed expressions -/

theorem wt_typ {odd : Bool} {D : Decls} {Γ : Env} {pos : Pos} {e : X} (h : e.wt odd D Γ pos) : ∃ t, e.typ = some t := by
  cases e <;> simp only [X.wt] at h
  case lit => exact ⟨_, h⟩
  case ident => obtain ⟨s, t, _, _, _, h, _⟩ := h; exact ⟨t, h⟩
  case call f ts args a =>
    obtain ⟨_, _, tys, _, h⟩ := h
    split at h
    · exact ⟨_, h.1⟩
    · split at h
      · obtain ⟨_, p, q, x, t, _, _, h⟩ := h
        exact ⟨t, h⟩
      · obtain ⟨d, ps, r, us, u, _, _, h, _⟩ := h
        exact ⟨u, h⟩
  case bin => exact ⟨_, h.2.2.2.2⟩
  case cmp => exact ⟨_, h.2.2.2⟩
  case un => exact ⟨_, h.2.2⟩
  case tern => obtain ⟨_, _, _, _, t, u, _, _, _, h⟩ := h; exact ⟨t, h⟩
  case arr => obtain ⟨_, t, _, h, _⟩ := h; exact ⟨_, h⟩
  case index => obtain ⟨_, _, _, t, _, h⟩ := h; exact ⟨_, h⟩
  case dot => obtain ⟨_, t, x, b, u, _, _, _, h, _⟩ := h; exact ⟨_, h⟩
  case ty => obtain ⟨_, t, _, h⟩ := h; exact ⟨_, h⟩
  case fnB => obtain ⟨d, ts, r, h, _⟩ := h; exact ⟨_, h⟩
  case fnE => obtain ⟨d, ts, r, t, h, _⟩ := h; exact ⟨_, h⟩

theorem wt_value {D : Decls} {Γ : Env} {pos : Pos} {e : X} (h : e.wt true D Γ .value) : e.wt true D Γ pos := by
  cases e <;> simp only [X.wt] at h ⊢
  case ident =>
    obtain ⟨s, t, h1, h2, h3, h4, h5, h6⟩ := h
    exact ⟨s, t, h1, h2, h3, h4, h5, fun _ => h6 trivial⟩
  case ty => exact ⟨.inl trivial, h.2⟩
  all_goals exact h

theorem wt_arg {D : Decls} {Γ : Env} {pos : Pos} {e : X} (hp : pos ≠ .value) (h : e.wt true D Γ .arg) : e.wt true D Γ pos := by
  cases e <;> simp only [X.wt] at h ⊢
  case ident =>
    obtain ⟨s, t, h1, h2, h3, h4, h5, h6⟩ := h
    exact ⟨s, t, h1, h2, h3, h4, h5, fun h => absurd h hp⟩
  case ty => exact ⟨.inl trivial, h.2⟩
  all_goals exact h

theorem wtL_arg {D : Decls} {Γ : Env} {pos : Pos} (hp : pos ≠ .value) : ∀ {es : List X}, wtL true D Γ .arg es → wtL true D Γ pos es
  | [], h => by simp [wtL]
  | e :: es, h => by
    simp only [wtL] at h ⊢
    exact ⟨wt_arg hp h.1, wtL_arg hp h.2⟩

theorem wtL_mem {odd : Bool} {D : Decls} {Γ : Env} {pos : Pos} : ∀ {es : List X}, wtL odd D Γ pos es → ∀ e ∈ es, e.wt odd D Γ pos
  | [], _, e, h => by simp at h
  | x :: xs, h, e, he => by
    simp only [wtL] at h
    rcases List.mem_cons.1 he with rfl | he
    · exact h.1
    · exact wtL_mem h.2 e he

/-! ### Arguments -/

theorem arg_wt {D : Decls} {Γ : Env} {x : X} {g g' : Arg} (h : x.wt true D Γ .arg) (hg : x.arg = some g) (hn : Narrowed g g') :
    (x.setArg g').wt true D Γ .arg ∧ (x.setArg g').typ = some g'.typ := by
  have plain : ∀ x : X, (∀ n a, x ≠ .ident n a) → x.wt true D Γ .arg → x.arg = some g →
      (x.setArg g').wt true D Γ .arg ∧ (x.setArg g').typ = some g'.typ := by
    intro x hx h hg
    have h1 : x.setArg g' = x := by
      cases x with
      | ident n a => exact absurd rfl (hx n a)
      | _ => rfl
    have h2 : x.typ.map (fun t => (⟨t, []⟩ : Arg)) = some g := by
      cases x with
      | ident n a => exact absurd rfl (hx n a)
      | _ => exact hg
    rw [h1]
    refine ⟨h, ?_⟩
    obtain ⟨t, ht, rfl⟩ := Option.map_eq_some_iff.1 h2
    rcases hn with rfl | ⟨pre, r, h3, h4⟩
    · exact ht
    · rw [h4] at h3; simp at h3
  cases x with
  | ident n a =>
    simp only [X.wt] at h
    obtain ⟨s, t, ⟨p, hp⟩, h2, h3, h4, _, _⟩ := h
    simp only [X.arg, h2, h4, Option.map_eq_some_iff] at hg
    obtain ⟨ts, hts, rfl⟩ := hg
    have hm := allSome_map hts
    simp only [X.setArg, h2, Option.map_some, X.wt]
    refine ⟨⟨s.drop (s.length - g'.chain.length), g'.typ, ⟨p ++ s.take (s.length - g'.chain.length), ?_⟩, rfl, ?_, rfl, by simp, by simp⟩, rfl⟩
    · rw [List.append_assoc, List.take_append_drop]; exact hp
    · rcases hn with rfl | ⟨pre, r, h5, h6⟩
      · have : s.length = ts.length := by simpa using congrArg List.length hm
        simp only [this, Nat.sub_self, List.drop_zero]
        exact h3
      · simp only at h5
        have hlen : s.length = ts.length := by simpa using congrArg List.length hm
        have hpl : s.length - g'.chain.length = pre.length := by rw [hlen, h5]; simp
        rw [hpl]
        have : (s.drop pre.length).map Alt.ty = some g'.typ :: r.map some := by
          rw [List.map_drop, hm, h5, h6]
          simp
        cases hd : s.drop pre.length with
        | nil => rw [hd] at this; simp at this
        | cons b bs =>
          rw [hd] at this
          simp only [List.map_cons, List.cons.injEq] at this
          exact ⟨b, bs, rfl, this.1⟩
  | _ => exact plain _ (by simp) h hg

theorem args_wt {D : Decls} {Γ : Env} : ∀ {xs : List X} {gs gs' : List Arg}, wtL true D Γ .arg xs → allArgs xs = some gs → All₂ Narrowed gs gs' →
    wtL true D Γ .arg (setArgs xs gs') ∧ (setArgs xs gs').map X.typ = (argTypes gs').map some ∧ (setArgs xs gs').length = xs.length
  | [], gs, gs', h, hg, hn => by
    simp only [allArgs, Option.some.injEq] at hg
    subst hg
    cases hn
    simp [setArgs, wtL, argTypes]
  | x :: xs, gs, gs', h, hg, hn => by
    simp only [allArgs] at hg
    simp only [wtL] at h
    split at hg
    · rename_i g1 gs1 h1 h2
      cases hg
      cases hn with
      | cons h3 h4 =>
        obtain ⟨k1, k2⟩ := arg_wt h.1 h1 h3
        obtain ⟨k3, k4, k5⟩ := args_wt h.2 h2 h4
        simp only [setArgs, wtL, List.map_cons, argTypes, List.length_cons, k2, k5]
        exact ⟨⟨k1, k3⟩, by rw [k4]; rfl, trivial⟩
    · cases hg

/-! ### The checker is sound -/

/-- Expressions that have been checked and may be checked again. -/
abbrev Done (D : Decls) (Γ : Env) (l : X) : Prop := l.wt true D Γ .value ∧ l.firm D Γ

abbrev QuietIn (D : Decls) (Γ : Env) : X → Prop :=
  Mix (Done D Γ) (fun l => l.wt true D Γ .value ∧ (l.plain true → l.firm D Γ)) (X.quiet D)

def Sound (D : Decls) (chk : Env → X → R X) : Prop := ∀ Γ e e', Good Γ → QuietIn D Γ e → chk Γ e = .ok (e', []) →
  e'.wt true D Γ .value ∧ (e.plain true → e'.firm D Γ)

def SoundB (D : Decls) (body : Env → Ty → List S → Except Stop (List S × List Err × Env)) : Prop :=
  ∀ Γ ret ss ss' Γ', Good Γ → rawB ss → quietB D ss → body Γ ret ss = .ok (ss', [], Γ') → wtB true D ret Γ ss'

theorem good_ty {Γ : Env} (hg : Good Γ) {x : String} {s : Sym} (h : Finds Γ x s) : ∃ t, s.Has t ∧ s.ty = some t := by
  obtain ⟨h1, h2⟩ := good_finds hg h
  cases s with
  | nil => exact absurd rfl h1
  | cons a r =>
    obtain ⟨t, ht⟩ := h2 a (by simp)
    exact ⟨t, ⟨a, r, rfl, ht⟩, ht⟩

theorem chkIdent_ok {Γ : Env} {amb : Bool} {x : String} {a' : Ann} (h : chkIdent Γ amb x {} = (a', [])) :
    ∃ s, Finds Γ x s ∧ (amb = false → s.length < 2) ∧ a' = ⟨s.ty, some s⟩ := by
  unfold chkIdent at h
  simp only at h
  split at h
  · simp at h
  · rename_i s hl
    split at h
    · simp at h
    · rename_i hc
      simp only [Prod.mk.injEq] at h
      refine ⟨s, finds_iff.1 hl, ?_, h.1.symm⟩
      intro ha
      simp only [ha, Bool.not_false, Bool.and_true, decide_eq_true_eq] at hc
      omega

theorem sound_args {D : Decls} {chk : Env → X → R X} (hk : Sound D chk) {Γ : Env} (hg : Good Γ) : ∀ {xs xs' : List X} {b : Bool},
    (∀ x ∈ xs, (x.wt true D Γ .arg ∧ (x.plain true → x.firm D Γ)) ∨ (x.raw ∧ x.quiet D)) → chkArgs (chk Γ) Γ xs = .ok (xs', [], b) →
    b = true ∧ wtL true D Γ .arg xs' ∧ xs'.length = xs.length ∧ (plainL true xs → firmL D Γ xs')
  | [], xs', b, hp, h => by
    simp only [chkArgs, Except.ok.injEq, Prod.mk.injEq] at h
    rw [← h.1]
    exact ⟨h.2.2.symm, by simp [wtL], rfl, fun _ => by simp [firmL]⟩
  | x :: xs, xs', b, hp, h => by
    have ih := fun {xs' b} => sound_args hk hg (Γ := Γ) (xs := xs) (xs' := xs') (b := b) (fun y hy => hp y (by simp [hy]))
    simp only [chkArgs] at h
    split at h
    · rename_i hx
      split at h
      · cases h
      · rename_i xs1 es1 b1 h1
        simp only [Except.ok.injEq, Prod.mk.injEq] at h
        obtain ⟨rfl, rfl, rfl⟩ := h
        obtain ⟨i1, i2, i3, i4⟩ := ih h1
        have hw := (hp x (by simp)).resolve_right (by
          rintro ⟨hr, _⟩
          rw [raw_typ hr] at hx
          simp at hx)
        refine ⟨i1, ⟨hw.1, i2⟩, by simp [i3], fun hq => ?_⟩
        simp only [plainL] at hq
        exact ⟨hw.2 hq.1, i4 hq.2⟩
    · rename_i hx
      have hx : x.typ = none := by simpa using hx
      have hr : x.raw ∧ x.quiet D := (hp x (by simp)).resolve_left (by
        rintro ⟨hw, _⟩
        obtain ⟨t, ht⟩ := wt_typ hw
        rw [ht] at hx; cases hx)
      split at h
      · cases h
      · rename_i x1 es1 h1
        have key : es1 = [] → x1.wt true D Γ .arg ∧ (x.plain true → x1.firm D Γ) := by
          rintro rfl
          split at h1
          · rename_i n a
            have := raw_ann hr.1
            simp only [X.ann] at this
            subst this
            simp only [Except.ok.injEq, Prod.mk.injEq] at h1
            obtain ⟨s, hs, _, ha⟩ := chkIdent_ok (Prod.ext rfl h1.2)
            obtain ⟨t, ht1, ht2⟩ := good_ty hg hs
            have hx1 := h1.1.symm.trans (congrArg (X.ident _) ha)
            rw [hx1]
            refine ⟨?_, fun _ => by simp [X.firm]⟩
            simp only [X.wt]
            exact ⟨s, t, ⟨[], hs⟩, rfl, ht1, ht2, by simp, by simp⟩
          · obtain ⟨k1, k2⟩ := hk _ _ _ hg (.raw hr.1 hr.2) h1
            exact ⟨wt_value k1, k2⟩
        split at h
        · rename_i hn
          simp only [Except.ok.injEq, Prod.mk.injEq] at h
          obtain ⟨_, rfl, _⟩ := h
          obtain ⟨t, ht⟩ := wt_typ (key rfl).1
          rw [ht] at hn; simp at hn
        · split at h
          · cases h
          · rename_i xs2 es2 b2 h2
            simp only [Except.ok.injEq, Prod.mk.injEq, List.append_eq_nil_iff] at h
            obtain ⟨rfl, ⟨rfl, rfl⟩, rfl⟩ := h
            obtain ⟨i1, i2, i3, i4⟩ := ih h2
            refine ⟨i1, ⟨(key rfl).1, i2⟩, by simp [i3], fun hq => ?_⟩
            simp only [plainL] at hq
            exact ⟨(key rfl).2 hq.1, i4 hq.2⟩

/-- The callee after it has been checked. -/
def CalleeOk (D : Decls) (Γ : Env) : X → Prop
  | .ident x b => ∃ s t, Names Γ x s ∧ b.sym = some s ∧ s.Has t
  | .fnB h i ss a => (X.fnB h i ss a).wt true D Γ .value
  | .dot l r a => (X.dot l r a).wt true D Γ .value
  | .call f ts as a => (X.call f ts as a).wt true D Γ .value
  | .index l r a => (X.index l r a).wt true D Γ .value
  | _ => False

theorem callee_name {D : Decls} {Γ : Env} {f : X} (h : CalleeOk D Γ f) (hn : f.name ≠ "") : ∃ x b, f = .ident x b := by
  cases f with
  | ident x b => exact ⟨x, b, rfl⟩
  | _ => exact absurd rfl hn

theorem names_lookup {Γ : Env} {x : String} {s : Sym} (h : Names Γ x s) : ∃ s', lookup Γ x = some s' ∧ Finds Γ x s' := by
  obtain ⟨p, hp⟩ := h
  exact ⟨_, finds_iff.2 hp, hp⟩

theorem sound_apply {D : Decls} {Γ : Env} (hg : Good Γ) {f : X} {ts : List TyN} {tys : List Ty} {args : List X} {a : Ann} {e' : X}
    (hf : CalleeOk D Γ f) (ht : MeansAll Γ ts tys) (ha : wtL true D Γ .arg args) (hl : args.length ≤ 6)
    (h : chkApply Γ f ts tys args a [] = .ok (e', [])) :
    e'.wt true D Γ .value ∧ (f.firm D Γ → firmL D Γ args → e'.firm D Γ) := by
  have hpos : ∀ s : String, (if s = "unsafe" then Pos.unsafeArg else .arg) ≠ .value := by
    intro s; split <;> simp
  unfold chkApply at h
  split at h
  · rename_i hn
    obtain ⟨x, b, rfl⟩ := callee_name hf (by rintro h0; rw [h0] at hn; rcases hn with h | h <;> exact absurd h (by decide))
    simp only [Except.ok.injEq, Prod.mk.injEq, and_true] at h
    rw [← h]
    simp only [CalleeOk] at hf
    obtain ⟨s, t, hs, _⟩ := hf
    obtain ⟨s', h1, h2⟩ := names_lookup hs
    refine ⟨?_, fun k1 k2 => ?_⟩
    · simp only [X.wt, setCallee, X.name] at hn ⊢
      refine ⟨hl, wtL_arg (hpos _) ha, tys, ht, ?_⟩
      rw [if_pos hn]
      exact ⟨trivial, s', h2, h1, by simp⟩
    · simp only [X.firm]
      exact ⟨firm_setCallee k1, k2⟩
  · rename_i hn
    split at h
    · rename_i hu
      obtain ⟨x, b, rfl⟩ := callee_name hf (by rintro h0; rw [h0] at hu; exact absurd hu (by decide))
      split at h
      · cases h
      · rename_i s hls
        split at h
        · rename_i d ps r hty
          split at h
          · rename_i p q y
            simp only [Except.ok.injEq, Prod.mk.injEq, and_true] at h
            rw [← h]
            refine ⟨?_, fun k1 k2 => ?_⟩
            · simp only [X.wt, setCallee, X.name] at hn hu ⊢
              refine ⟨hl, wtL_arg (hpos _) ha, tys, ht, ?_⟩
              refine (if_neg hn).symm ▸ (if_pos hu).symm ▸ ?_
              obtain ⟨ty, hty'⟩ := wt_typ (wtL_mem ha y (by simp))
              refine ⟨⟨s, d, ps, r, finds_iff.1 hls, rfl, ?_⟩, p, q, y, ty, rfl, hty', hty'⟩
              cases s with
              | nil => cases hty
              | cons b bs => exact ⟨b, bs, rfl, hty⟩
            · simp only [X.firm]
              exact ⟨firm_setCallee k1, k2⟩
          · simp at h
        · cases h
    · rename_i hu
      split at h
      · rename_i gs t hgs htf
        split at h
        · rename_i hcs
          split at h
          · rename_i ret gs' hm
            simp only [Except.ok.injEq, Prod.mk.injEq, and_true] at h
            rw [← h]
            have hnar := matchCall_narrow t tys gs
            rw [hm] at hnar
            obtain ⟨w1, w2, w3⟩ := args_wt ha hgs hnar
            obtain ⟨d, ps, r, rfl, hap⟩ := applies_of hm
            refine ⟨?_, fun k1 k2 => ?_⟩
            · simp only [X.wt]
              refine ⟨by rw [w3]; exact hl, wtL_arg (hpos _) w1, tys, ht, ?_⟩
              rw [if_neg hn, if_neg hu]
              refine ⟨d, ps, r, argTypes gs', ret, ?_, w2, rfl, hap⟩
              cases f with
              | ident x b =>
                simp only [CalleeOk] at hf
                obtain ⟨s, t, _, h2, _⟩ := hf
                simp only [calleeSym] at hcs
                rw [hcs] at h2; cases h2
              | fnB h i ss a => exact ⟨hf, htf⟩
              | dot l r a => exact ⟨hf, htf⟩
              | call f ts as a => exact ⟨hf, htf⟩
              | index l r a => exact ⟨hf, htf⟩
              | _ => exact hf
            · simp only [X.firm]
              exact ⟨k1, firm_setArgs k2⟩
          · simp at h
        · rename_i s hcs
          split at h
          · cases h
          · rename_i fs hfs
            split at h
            · rename_i k ret gs' hm
              simp only [Except.ok.injEq, Prod.mk.injEq, and_true] at h
              rw [← h]
              obtain ⟨hnar, f0, gs0, hk, hm0⟩ := matchSym_spec hm
              obtain ⟨w1, w2, w3⟩ := args_wt ha hgs hnar
              obtain ⟨d, ps, r, rfl, hap⟩ := applies_of hm0
              have hfm := allSome_map hfs
              have hname : (setCallee f (some (s.drop k))).name = f.name := by cases f <;> rfl
              refine ⟨?_, fun k1 k2 => ?_⟩
              · simp only [X.wt, hname]
                refine ⟨by rw [w3]; exact hl, wtL_arg (hpos _) w1, tys, ht, ?_⟩
                rw [if_neg hn, if_neg hu]
                refine ⟨d, ps, r, argTypes gs', ret, ?_, w2, rfl, hap⟩
                have hhas : Sym.Has (s.drop k) (.fn d ps r) := by
                  have h1 : (s.map Alt.ty)[k]? = some (some (.fn d ps r)) := by rw [hfm]; simp [hk]
                  rw [List.getElem?_map, Option.map_eq_some_iff] at h1
                  obtain ⟨b, hb, hb2⟩ := h1
                  have := List.getElem?_eq_some_iff.1 hb
                  obtain ⟨hlt, hbe⟩ := this
                  exact ⟨b, s.drop (k + 1), by rw [← hbe]; exact List.drop_eq_getElem_cons hlt, hb2⟩
                cases f with
                | ident x b =>
                  simp only [CalleeOk] at hf
                  obtain ⟨s', t', ⟨p, hp⟩, h2, _⟩ := hf
                  simp only [calleeSym] at hcs
                  rw [hcs] at h2; cases h2
                  simp only [setCallee]
                  exact ⟨s.drop k, ⟨p ++ s.take k, by rw [List.append_assoc, List.take_append_drop]; exact hp⟩, rfl, hhas, by simp⟩
                | fnB h i ss a =>
                  simp only [setCallee]
                  refine ⟨hf, ?_⟩
                  cases i with
                  | none => simp [calleeSym] at hcs
                  | some i =>
                    simp only [calleeSym, Option.some.injEq] at hcs
                    subst hcs
                    obtain ⟨b, bs, h3, h4⟩ := hhas
                    have hb : b = plainSym (some (.fn i.ty.1 i.ty.2.1 i.ty.2.2)) := by
                      cases k with
                      | zero => simp at h3; exact h3.1.symm
                      | succ k => simp at h3
                    rw [hb] at h4
                    simp only [plainSym, Option.some.injEq] at h4
                    simp only [CalleeOk, X.wt] at hf
                    obtain ⟨d', ts', r', h5, h6, ⟨i', h7, h8⟩, _⟩ := hf
                    cases h7
                    rw [h8] at h4
                    rw [← h4]
                    exact h5
                | dot l r a => simp [calleeSym] at hcs
                | call f ts as a => simp [calleeSym] at hcs
                | index l r a => simp [calleeSym] at hcs
                | _ => exact absurd hf (by simp [CalleeOk])
              · simp only [X.firm]
                exact ⟨firm_setCallee k1, firm_setArgs k2⟩
            · simp at h
      · cases h

/-- The shapes of callees other than names. -/
def X.callee : X → Bool
  | .fnB .. => true
  | .dot .. => true
  | .call .. => true
  | .index .. => true
  | _ => false

def Shapes (chk : Env → X → R X) : Prop := ∀ Γ f f1 es, f.callee = true → chk Γ f = .ok (f1, es) → f1.callee = true

theorem shape_call {chk : X → R X} {Γ : Env} {f : X} {ts : List TyN} {args : List X} {a : Ann} {e' : X} {es : List Err}
    (h : chkCall chk Γ f ts args a = .ok (e', es)) : e'.callee = true := by
  unfold chkCall at h
  split at h
  · cases h; rfl
  · split at h
    · cases h
    · split at h
      · cases h; rfl
      · split at h
        · cases h; rfl
        · split at h
          · cases h
          · cases h; rfl
          · unfold chkApply at h
            repeat' split at h
            all_goals first | (cases h; rfl) | cases h

theorem shape_step {D : Decls} {chk : Env → X → R X} {body : Env → Ty → List S → Except Stop (List S × List Err × Env)}
    (hk : Shapes chk) : Shapes (stepX D chk body) := by
  intro Γ f f1 es hf h
  cases f with
  | call f ts args a => exact shape_call h
  | index l r a =>
    simp only [stepX] at h
    getok h1 : chk Γ l at h with l1 es1
    getok h2 : chk Γ r at h with r1 es2
    repeat' split at h
    all_goals (cases h; rfl)
  | fnB h' i ss a =>
    simp only [stepX] at h
    repeat' split at h
    all_goals first | (cases h; rfl) | cases h
  | dot l r a =>
    simp only [stepX] at h
    getok h1 : chk Γ l at h with l1 es1
    split at h
    · cases h; rfl
    · rename_i t ht
      split at h
      · rename_i f ts args b
        split at h
        · cases h
        · rename_i n1 es2 h2
          cases h
          refine hk _ _ _ _ ?_ h2
          split
          · split <;> rfl
          · rfl
      · split at h
        · cases h
        · rename_i n1 es2 h2
          cases h
          exact hk _ _ _ _ rfl h2
      · cases h
        obtain ⟨b', a', he⟩ := chkField_shape D l1 t _ _ a
        rw [he]; rfl
      · cases h; rfl
  | _ => cases hf

theorem shape_chk (D : Decls) : ∀ n, Shapes (chkX D n)
  | 0 => fun Γ e e' es _ h => by simp [chkX] at h
  | n + 1 => fun Γ e e' es hp h => by
    rw [chkX] at h
    exact shape_step (shape_chk D n) Γ e e' es hp h

theorem callee_ok {D : Decls} {Γ : Env} {f : X} (h : f.callee = true) (hw : f.wt true D Γ .value) : CalleeOk D Γ f := by
  cases f <;> first | exact hw | cases h

theorem typeArgs_err {Γ : Env} (hg : Good Γ) : ∀ ts, typeArgs Γ ts ≠ .error []
  | [] => by simp [typeArgs]
  | t :: ts => by
    intro h
    simp only [typeArgs] at h
    split at h
    · cases hr : typeArgs Γ ts with
      | error e =>
        rw [hr] at h
        simp only [Except.map, Except.error.injEq] at h
        exact typeArgs_err hg ts (by rw [hr, h])
      | ok us => rw [hr] at h; cases h
    · rename_i o es hn hi
      simp only [Except.error.injEq] at h
      subst h
      cases o with
      | none => exact instTy_total hg t _ _ hi rfl
      | some u => exact hn u rfl rfl

theorem apply_es {Γ : Env} {f : X} {ts : List TyN} {tys : List Ty} {args : List X} {a : Ann} {es es' : List Err} {e' : X}
    (h : chkApply Γ f ts tys args a es = .ok (e', es')) : es' = [] → es = [] := by
  unfold chkApply at h
  repeat' split at h
  all_goals first
    | (cases h; exact id)
    | (cases h; intro h; simp at h)
    | cases h

theorem sound_call {D : Decls} {chk : Env → X → R X} (hk : Sound D chk) (hsh : Shapes chk) {Γ : Env} (hg : Good Γ) {f : X} {ts : List TyN} {args : List X} {a : Ann} {e' : X}
    (hf : (∃ x b, f = .ident x b ∧ (b = {} ∨ ∃ s t, Names Γ x s ∧ b.sym = some s ∧ s.Has t)) ∨ ((∀ x b, f ≠ .ident x b) ∧ QuietIn D Γ f))
    (ha : ∀ x ∈ args, (x.wt true D Γ .arg ∧ (x.plain true → x.firm D Γ)) ∨ (x.raw ∧ x.quiet D))
    (h : chkCall (chk Γ) Γ f ts args a = .ok (e', [])) :
    e'.wt true D Γ .value ∧ (f.plain true → plainL true args → e'.firm D Γ) := by
  unfold chkCall at h
  split at h
  · simp at h
  · rename_i hlen
    split at h
    · cases h
    · rename_i f1 es1 h1
      have key : es1 = [] → CalleeOk D Γ f1 ∧ (f.plain true → f1.firm D Γ) ∧ f1.typ ≠ none := by
        rintro rfl
        have viaChk : (∀ x b, f ≠ .ident x b) → chk Γ f = .ok (f1, []) → (f1.wt true D Γ .value ∧ (f.plain true → f1.firm D Γ)) := by
          intro hni h1
          rcases hf with ⟨x, b, rfl, _⟩ | ⟨_, hq⟩
          · exact absurd rfl (hni x b)
          · exact hk _ _ _ hg hq h1
        have hid : ∀ x b, f = .ident x b → f1 = .ident x (chkIdent Γ true x b).1 → (chkIdent Γ true x b).2 = [] →
            CalleeOk D Γ f1 ∧ (f.plain true → f1.firm D Γ) ∧ f1.typ ≠ none := by
          rintro x b rfl rfl he
          refine ⟨?_, fun _ => by simp [X.firm], ?_⟩ <;>
          · rcases hf with ⟨x', b', hx, hb⟩ | ⟨hni, _⟩
            · cases hx
              rcases hb with rfl | ⟨s, t, h2, h3, h4⟩
              · obtain ⟨s, hs, _, ha⟩ := chkIdent_ok (Prod.ext rfl he)
                obtain ⟨t, ht1, ht2⟩ := good_ty hg hs
                first
                  | exact ⟨s, t, ⟨[], hs⟩, congrArg Ann.sym ha, ht1⟩
                  | (intro hh; exact absurd ((congrArg Ann.typ ha).symm.trans hh) (by simp [ht2]))
              · obtain ⟨b0, bs, hb0, hb1⟩ := h4
                first
                  | exact ⟨s, t, h2, by simp [chkIdent, h3], ⟨b0, bs, hb0, hb1⟩⟩
                  | simp [chkIdent, h3, X.typ, X.ann, Sym.ty, hb0, hb1]
            · exact absurd rfl (hni _ _)
        unfold chkCallee at h1
        split at h1
        · rename_i x b
          simp only [Except.ok.injEq, Prod.mk.injEq] at h1
          exact hid x b rfl h1.1.symm h1.2
        iterate 4
          · obtain ⟨k1, k2⟩ := viaChk (by simp) h1
            obtain ⟨t, ht⟩ := wt_typ k1
            exact ⟨callee_ok (hsh _ _ _ _ rfl h1) k1, k2, by simp [ht]⟩
        · simp at h1
      split at h
      · rename_i hn
        simp only [Except.ok.injEq, Prod.mk.injEq] at h
        have := (key h.2).2.2
        simp at hn
        exact absurd hn this
      · split at h
        · rename_i es2 hte
          simp only [Except.ok.injEq, Prod.mk.injEq, List.append_eq_nil_iff] at h
          obtain ⟨_, _, rfl⟩ := h
          exact absurd hte (typeArgs_err hg _)
        · rename_i tys htys
          have hmeans := typeArgs_means htys
          split at h
          · cases h
          · rename_i args2 es2 h2
            simp only [Except.ok.injEq, Prod.mk.injEq, List.append_eq_nil_iff] at h
            obtain ⟨_, _, rfl⟩ := h
            exact absurd (sound_args hk hg ha h2).1 (by simp)
          · rename_i args2 es2 h2
            have hes := apply_es h rfl
            simp only [List.append_eq_nil_iff] at hes
            obtain ⟨rfl, rfl⟩ := hes
            obtain ⟨k1, k2, k3⟩ := key rfl
            obtain ⟨_, a2, a3, a4⟩ := sound_args hk hg ha h2
            obtain ⟨r1, r2⟩ := sound_apply hg k1 hmeans a2 (by rw [a3]; omega) h
            exact ⟨r1, fun p1 p2 => r2 (k2 p1) (a4 p2)⟩

/-! ### Expressions -/

theorem chkField_ok {D : Decls} {l : X} {t : Ty} {x : String} {b a : Ann} (h : (chkField D l t x b a).2 = []) :
    ∃ u, (chkField D l t x b a).1 = .dot l (.ident x ⟨some u, some [plainSym (some u)]⟩) ⟨some u, a.sym⟩ ∧ Selects true D l t x u := by
  have fo : ∀ {n ts u}, D.field n ts x = some u → FieldOf D n ts x u := by
    intro n ts u hu
    unfold Decls.field at hu
    split at hu
    · cases hu
    · rename_i d hd
      obtain ⟨f, hf, rfl⟩ := Option.map_eq_some_iff.1 hu
      exact ⟨d, f, hd, hf, by rw [Same, ← assign_fn]; exact subst_canon _ _⟩
  unfold chkField at h ⊢
  simp only at h ⊢
  split
  · rename_i h1
    obtain ⟨rfl, h2⟩ := h1
    refine ⟨_, rfl, ?_⟩
    cases t with
    | array e => exact .length
    | prim p => cases p <;> first | exact .strlen | simp [hasLength] at h2
    | _ => simp [hasLength] at h2
  · rename_i h1
    rw [if_neg h1] at h
    split
    · rename_i h2
      obtain ⟨rfl, h2⟩ := h2
      rw [isPrim_eq h2]
      exact ⟨_, rfl, .deref⟩
    · rename_i h2
      rw [if_neg h2] at h
      split
      · simp only at h
        split
        · rename_i hd; rw [hd] at h; simp at h
        · rename_i u hd
          exact ⟨u, rfl, .field (fo hd)⟩
      · simp only at h
        split
        · rename_i hd; rw [hd] at h; simp at h
        · rename_i u hd
          exact ⟨u, rfl, .result rfl rfl (fo hd)⟩
      · rename_i h3 h4
        split at h
        · exact absurd rfl (h3 _ _)
        · exact absurd rfl (h4 _ _ _ _ _ _ _ _ rfl)
        · simp at h

theorem wt_any {D : Decls} {Γ : Env} {pos : Pos} {e : X} (h : e.wt true D Γ pos) : e.wt true D Γ .arg := by
  cases pos with
  | value => exact wt_value h
  | arg => exact h
  | unsafeArg =>
    cases e <;> simp only [X.wt] at h ⊢
    case ident =>
      obtain ⟨s, t, h1, h2, h3, h4, h5, h6⟩ := h
      exact ⟨s, t, h1, h2, h3, h4, h5, fun h => by cases h⟩
    case ty => exact ⟨.inl trivial, h.2⟩
    all_goals exact h

theorem wtL_any {D : Decls} {Γ : Env} {pos : Pos} : ∀ {es : List X}, wtL true D Γ pos es → wtL true D Γ .arg es
  | [], h => by simp [wtL]
  | e :: es, h => by
    simp only [wtL] at h ⊢
    exact ⟨wt_any h.1, wtL_any h.2⟩

/-- The parts of a call. -/
theorem wt_call {D : Decls} {Γ : Env} {pos : Pos} {f : X} {ts : List TyN} {args : List X} {a : Ann}
    (w : (X.call f ts args a).wt true D Γ pos) :
    wtL true D Γ .arg args ∧
    ((∃ x b s, f = .ident x b ∧ b.sym = some s ∧ Names Γ x s ∧ (Finds Γ x s ∨ ∃ t, s.Has t)) ∨
     ((∀ x b, f ≠ .ident x b) ∧ f.wt true D Γ .value)) := by
  simp only [X.wt] at w
  obtain ⟨_, w1, tys, _, w2⟩ := w
  refine ⟨wtL_any w1, ?_⟩
  cases f with
  | ident x b =>
    refine .inl ?_
    split at w2
    · obtain ⟨_, s, h1, h2, _⟩ := w2
      exact ⟨x, b, s, rfl, h2, ⟨[], h1⟩, .inl h1⟩
    · split at w2
      · obtain ⟨⟨s, d, ps, r, h1, h2, _⟩, _⟩ := w2
        exact ⟨x, b, s, rfl, h2, ⟨[], h1⟩, .inl h1⟩
      · obtain ⟨d, ps, r, us, u, ⟨s, h1, h2, h3, _⟩, _⟩ := w2
        exact ⟨x, b, s, rfl, h2, h1, .inr ⟨_, h3⟩⟩
  | _ =>
    refine .inr ⟨by simp, ?_⟩
    split at w2
    · rename_i h0
      exact absurd h0 (by simp [X.name])
    · split at w2
      · rename_i h0
        exact absurd h0 (by simp [X.name])
      · obtain ⟨d, ps, r, us, u, w3, _⟩ := w2
        first | exact w3.1 | exact w3.elim

mutual
theorem firm_plain {D : Decls} {Γ : Env} {pos : Pos} : ∀ {e : X}, e.wt true D Γ pos → e.firm D Γ → e.plain true
  | .lit _ _, _, h | .ident _ _, _, h | .ty _ _, _, h => by simp [X.plain]
  | .fnB _ _ _ _, _, h | .fnE _ _ _ _, _, h => by simp [X.firm] at h
  | .call f ts args a, w, h => by
    simp only [X.firm] at h; simp only [X.plain]
    obtain ⟨w1, w2⟩ := wt_call w
    refine ⟨trivial, ?_, firmL_plain w1 h.2⟩
    rcases w2 with ⟨x, b, s, rfl, _⟩ | ⟨_, w2⟩
    · simp [X.plain]
    · exact firm_plain w2 h.1
  | .bin _ l r _, w, h | .cmp _ l r _, w, h | .index l r _, w, h => by
    simp only [X.firm] at h; simp only [X.plain]
    simp only [X.wt] at w
    exact ⟨firm_plain w.1 h.1, firm_plain w.2.1 h.2⟩
  | .un _ l _, w, h => by
    simp only [X.firm] at h; simp only [X.plain]
    simp only [X.wt] at w
    exact firm_plain w.1 h
  | .tern c x y _, w, h => by
    simp only [X.firm] at h; simp only [X.plain]
    exact ⟨fixed_plain h.1, fixed_plain h.2.1, fixed_plain h.2.2⟩
  | .arr es _, w, h => by
    simp only [X.firm] at h; simp only [X.plain]
    exact fixedL_plain h
  | .dot l r _, w, h => by
    simp only [X.firm] at h; simp only [X.plain]
    simp only [X.wt] at w
    obtain ⟨w1, t, x, b, u, _, rfl, _⟩ := w
    exact ⟨firm_plain w1 h, by simp [X.plain]⟩
theorem firmL_plain {D : Decls} {Γ : Env} {pos : Pos} : ∀ {es : List X}, wtL true D Γ pos es → firmL D Γ es → plainL true es
  | [], _, h => by simp [plainL]
  | e :: es, w, h => by
    simp only [firmL] at h; simp only [plainL]
    simp only [wtL] at w
    exact ⟨firm_plain w.1 h.1, firmL_plain w.2 h.2⟩
end

/-- Checking does not remove calls and function literals. -/
def Backs (chk : Env → X → R X) : Prop := ∀ c Γ e e' es, chk Γ e = .ok (e', es) → e'.plain c → e.plain c

theorem back_args {chk : Env → X → R X} (hk : Backs chk) {c : Bool} {Γ : Env} : ∀ {xs xs' : List X} {es : List Err} {b : Bool},
    chkArgs (chk Γ) Γ xs = .ok (xs', es, b) → plainL c xs' → plainL c xs
  | [], xs', es, b, h, hp => by simp [plainL]
  | x :: xs, xs', es, b, h, hp => by
    simp only [chkArgs] at h
    split at h
    · split at h
      · cases h
      · rename_i h1
        cases h
        simp only [plainL] at hp ⊢
        exact ⟨hp.1, back_args hk h1 hp.2⟩
    · split at h
      · cases h
      · rename_i x1 es1 h1
        have hx : x1.plain c → x.plain c := by
          split at h1
          · intro _; simp [X.plain]
          · exact hk _ _ _ _ _ h1
        split at h
        · cases h
          simp only [plainL] at hp ⊢
          exact ⟨hx hp.1, hp.2⟩
        · split at h
          · cases h
          · rename_i h2
            cases h
            simp only [plainL] at hp ⊢
            exact ⟨hx hp.1, back_args hk h2 hp.2⟩

theorem plain_setArg {c : Bool} {x : X} {g : Arg} (h : (x.setArg g).plain c) : x.plain c := by
  cases x <;> simpa only [X.setArg, X.plain] using h

theorem plain_setArgs {c : Bool} : ∀ {xs : List X} {gs : List Arg}, plainL c (setArgs xs gs) → plainL c xs
  | [], _, h => by simpa [setArgs] using h
  | x :: xs, [], h => by simpa only [setArgs] using h
  | x :: xs, g :: gs, h => by
    simp only [setArgs, plainL] at h ⊢
    exact ⟨plain_setArg h.1, plain_setArgs h.2⟩

theorem plain_setCallee {c : Bool} {x : X} {s : Option Sym} (h : (setCallee x s).plain c) : x.plain c := by
  cases x <;> simpa only [setCallee, X.plain] using h

theorem back_call {chk : Env → X → R X} (hk : Backs chk) {c : Bool} {Γ : Env} {f : X} {ts : List TyN} {args : List X} {a : Ann} {e' : X} {es : List Err}
    (h : chkCall (chk Γ) Γ f ts args a = .ok (e', es)) (hp : e'.plain c) : (X.call f ts args a).plain c := by
  unfold chkCall at h
  split at h
  · cases h; exact hp
  · split at h
    · cases h
    · rename_i f1 es1 h1
      have hf : f1.plain c → f.plain c := by
        unfold chkCallee at h1
        split at h1
        · intro _; simp [X.plain]
        · exact hk _ _ _ _ _ h1
        · exact hk _ _ _ _ _ h1
        · exact hk _ _ _ _ _ h1
        · exact hk _ _ _ _ _ h1
        · cases h1; exact id
      split at h
      · cases h
        simp only [X.plain] at hp ⊢
        exact ⟨hp.1, hf hp.2.1, hp.2.2⟩
      · split at h
        · cases h
          simp only [X.plain] at hp ⊢
          exact ⟨hp.1, hf hp.2.1, hp.2.2⟩
        · split at h
          · cases h
          · rename_i h2
            cases h
            simp only [X.plain] at hp ⊢
            exact ⟨hp.1, hf hp.2.1, back_args hk h2 hp.2.2⟩
          · rename_i args1 es2 h2
            have key : ∀ {f2 args2 a2}, (X.call f2 ts args2 a2).plain c → (f2.plain c → f1.plain c) → (plainL c args2 → plainL c args1) → (X.call f ts args a).plain c := by
              intro f2 args2 a2 hp i1 i2
              simp only [X.plain] at hp ⊢
              exact ⟨hp.1, hf (i1 hp.2.1), back_args hk h2 (i2 hp.2.2)⟩
            unfold chkApply at h
            repeat' split at h
            all_goals first
              | (cases h; exact key hp plain_setCallee id)
              | (cases h; exact key hp id id)
              | (cases h; exact key hp id plain_setArgs)
              | (cases h; exact key hp plain_setCallee plain_setArgs)
              | cases h

theorem back_elems {chk : Env → X → R X} (hk : Backs chk) {c : Bool} {Γ : Env} : ∀ {xs xs' : List X} {t0 : Option Ty} {es : List Err} {b : Bool},
    chkElems (chk Γ) t0 xs = .ok (xs', es, b) → plainL c xs' → plainL c xs
  | [], xs', t0, es, b, h, hp => by simp [plainL]
  | x :: xs, xs', t0, es, b, h, hp => by
    simp only [chkElems] at h
    getok h1 : chk Γ x at h with x1 es1
    split at h
    · cases h
      simp only [plainL] at hp ⊢
      exact ⟨hk _ _ _ _ _ h1 hp.1, hp.2⟩
    · split at h
      · cases h
        simp only [plainL] at hp ⊢
        exact ⟨hk _ _ _ _ _ h1 hp.1, hp.2⟩
      · split at h
        · cases h
        · rename_i h2
          cases h
          simp only [plainL] at hp ⊢
          exact ⟨hk _ _ _ _ _ h1 hp.1, back_elems hk h2 hp.2⟩

theorem back_step {D : Decls} {chk : Env → X → R X} {body : Env → Ty → List S → Except Stop (List S × List Err × Env)}
    (hk : Backs chk) : Backs (stepX D chk body) := by
  intro c Γ e e' es h hp
  cases e with
  | lit k a => simp [X.plain]
  | ident x a => simp [X.plain]
  | ty x a => simp [X.plain]
  | call f ts args a => exact back_call hk h hp
  | bin op l r a =>
    simp only [stepX] at h
    getok h1 : chk Γ l at h with l1 es1
    getok h2 : chk Γ r at h with r1 es2
    have : l1.plain c ∧ r1.plain c := by
      repeat' split at h
      all_goals (cases h; simpa only [X.plain] using hp)
    simp only [X.plain]
    exact ⟨hk _ _ _ _ _ h1 this.1, hk _ _ _ _ _ h2 this.2⟩
  | cmp op l r a =>
    simp only [stepX] at h
    getok h1 : chk Γ l at h with l1 es1
    getok h2 : chk Γ r at h with r1 es2
    have : l1.plain c ∧ r1.plain c := by
      repeat' split at h
      all_goals (cases h; simpa only [X.plain] using hp)
    simp only [X.plain]
    exact ⟨hk _ _ _ _ _ h1 this.1, hk _ _ _ _ _ h2 this.2⟩
  | index l r a =>
    simp only [stepX] at h
    getok h1 : chk Γ l at h with l1 es1
    getok h2 : chk Γ r at h with r1 es2
    have : l1.plain c ∧ r1.plain c := by
      repeat' split at h
      all_goals (cases h; simpa only [X.plain] using hp)
    simp only [X.plain]
    exact ⟨hk _ _ _ _ _ h1 this.1, hk _ _ _ _ _ h2 this.2⟩
  | un op l a =>
    simp only [stepX] at h
    getok h1 : chk Γ l at h with l1 es1
    have : l1.plain c := by
      repeat' split at h
      all_goals (cases h; simpa only [X.plain] using hp)
    simp only [X.plain]
    exact hk _ _ _ _ _ h1 this
  | tern x y z a =>
    simp only [stepX] at h
    getok h1 : chk Γ x at h with x1 es1
    have k1 := hk false _ _ _ _ h1
    simp only [X.plain]
    split at h
    · cases h; simp only [X.plain] at hp; exact ⟨k1 hp.1, hp.2⟩
    · split at h
      · cases h; simp only [X.plain] at hp; exact ⟨k1 hp.1, hp.2⟩
      · getok h2 : chk Γ y at h with y1 es2
        have k2 := hk false _ _ _ _ h2
        split at h
        · cases h; simp only [X.plain] at hp; exact ⟨k1 hp.1, k2 hp.2.1, hp.2.2⟩
        · getok h3 : chk Γ z at h with z1 es3
          have k3 := hk false _ _ _ _ h3
          repeat' split at h
          all_goals (cases h; simp only [X.plain] at hp; exact ⟨k1 hp.1, k2 hp.2.1, k3 hp.2.2⟩)
  | arr xs a =>
    simp only [stepX] at h
    simp only [X.plain]
    split at h
    · cases h; simpa only [X.plain] using hp
    · split at h
      · cases h
      · rename_i h1
        cases h; simp only [X.plain] at hp; exact back_elems hk h1 hp
      · rename_i h1
        cases h; simp only [X.plain] at hp; exact back_elems hk h1 hp
  | dot l r a =>
    simp only [stepX] at h
    getok h1 : chk Γ l at h with l1 es1
    have k1 := hk c _ _ _ _ h1
    simp only [X.plain]
    split at h
    · cases h; simp only [X.plain] at hp; exact ⟨k1 hp.1, hp.2⟩
    · rename_i t ht
      split at h
      · rename_i f ts args b
        split at h
        · cases h
        · rename_i n1 es2 h2
          cases h
          have hq := hk c _ _ _ _ h2 hp
          simp only [X.plain]
          have hrecv : (X.call f ts (l1 :: args) a).plain c → l.plain c ∧ c = true ∧ f.plain c ∧ plainL c args := by
            intro hq
            simp only [X.plain, plainL] at hq
            exact ⟨k1 hq.2.2.1, hq.1, hq.2.1, hq.2.2.2⟩
          split at hq
          · split at hq
            · simp only [X.plain] at hq
              exact ⟨k1 hq.2.1.1, hq.1, hq.2.1.2, hq.2.2⟩
            · exact hrecv hq
          · exact hrecv hq
      · split at h
        · cases h
        · rename_i n1 es2 h2
          cases h
          have hq := hk c _ _ _ _ h2 hp
          simp only [X.plain] at hq ⊢
          exact ⟨k1 hq.1.1, hq.1.2, hq.2⟩
      · cases h
        obtain ⟨b', a', he⟩ := chkField_shape D l1 t _ _ a
        rw [he] at hp
        simp only [X.plain] at hp ⊢
        exact ⟨k1 hp.1, trivial⟩
      · cases h; simp only [X.plain] at hp; exact ⟨k1 hp.1, hp.2⟩
  | fnB h' i ss a =>
    simp only [stepX] at h
    repeat' split at h
    all_goals first | (cases h; simp [X.plain] at hp; done) | cases h
  | fnE h' i x a =>
    simp only [stepX] at h
    repeat' split at h
    all_goals first | (cases h; simp [X.plain] at hp; done) | cases h

theorem back_chk (D : Decls) : ∀ n, Backs (chkX D n)
  | 0 => fun c Γ e e' es h => by simp [chkX] at h
  | n + 1 => fun c Γ e e' es h => by
    rw [chkX] at h
    exact back_step (back_chk D n) c Γ e e' es h

theorem sound_dot {D : Decls} {chk : Env → X → R X} {body : Env → Ty → List S → Except Stop (List S × List Err × Env)}
    (hk : Sound D chk) (hb : Backs chk) {Γ : Env} (hg : Good Γ) {l f e' : X} {a : Ann}
    (hl : QuietIn D Γ l) (hf : (∃ x b, f = .ident x b) ∨ (f.raw ∧ f.quiet D ∧ a = {} ∧ (Twice D true l f ∨ Done D Γ l)))
    (h : stepX D chk body Γ (.dot l f a) = .ok (e', [])) :
    e'.wt true D Γ .value ∧ (l.plain true → f.plain true → e'.firm D Γ) := by
  simp only [stepX] at h
  getok h1 : chk Γ l at h with l1 es1
  have key : es1 = [] → l1.wt true D Γ .value ∧ (l.plain true → l1.firm D Γ) := by
    rintro rfl
    exact hk _ _ _ hg hl h1
  cases htl : l1.typ with
  | none =>
    simp only [htl, Except.ok.injEq, Prod.mk.injEq] at h
    obtain ⟨t, ht⟩ := wt_typ (key h.2).1
    rw [ht] at htl; cases htl
  | some t =>
    simp only [htl] at h
    cases f with
    | ident x b =>
      simp only [Except.ok.injEq, Prod.mk.injEq, List.append_eq_nil_iff] at h
      obtain ⟨rfl, rfl, h2⟩ := h
      obtain ⟨u, h3, h4⟩ := chkField_ok h2
      rw [h3]
      obtain ⟨k1, k2⟩ := key rfl
      refine ⟨?_, fun hp _ => ?_⟩
      · simp only [X.wt]
        exact ⟨k1, t, x, _, u, htl, rfl, h4, rfl, rfl⟩
      · simp only [X.firm]
        exact k2 hp
    | call f' ts args b =>
      rcases hf with ⟨x, b, hf⟩ | ⟨hr, hq, rfl, htw⟩
      · cases hf
      simp only [X.raw] at hr
      simp only [X.quiet] at hq
      simp only at h
      split at h
      · cases h
      · rename_i n1 es2 h2
        simp only [Except.ok.injEq, Prod.mk.injEq, List.append_eq_nil_iff] at h
        obtain ⟨rfl, rfl, rfl⟩ := h
        obtain ⟨k1, k2⟩ := key rfl
        have hargs : ∀ x ∈ args, X.raw x ∧ X.quiet D x := fun x hx => ⟨raw_mem hr.2.1 x hx, quiet_mem hq.2 x hx⟩
        have hfirm : l.plain true ∨ Done D Γ l → l1.firm D Γ := by
          rintro (hp | hp)
          · exact k2 hp
          · exact k2 (firm_plain hp.1 hp.2)
        have hrecv : ∀ n, n = X.call f' ts (l1 :: args) {} → QuietIn D Γ n ∧ (l.plain true → (X.call f' ts args b).plain true → n.plain true) := by
          rintro n rfl
          refine ⟨.recv ⟨k1, fun p => k2 (hb true _ _ _ _ h1 p)⟩ hr.1 hq.1 hargs, fun p1 p2 => ?_⟩
          simp only [X.plain, plainL] at p2 ⊢
          exact ⟨trivial, p2.2.1, firm_plain k1 (k2 p1), p2.2.2⟩
        split at h2
        · split at h2
          · rename_i n us hfd
            have hl1 : l1.firm D Γ := by
              refine hfirm ?_
              rcases htw with ht | ht
              · simp only [Twice] at ht
                rcases ht with ht | ht
                · exact .inl ht
                · rw [ht] at hfd; simp at hfd
              · exact .inr ht
            obtain ⟨r1, r2⟩ := hk _ _ _ hg (.field ⟨k1, hl1⟩ hr.1 hq.1 hargs) h2
            refine ⟨r1, fun p1 p2 => r2 ?_⟩
            simp only [X.plain] at p2 ⊢
            exact ⟨trivial, ⟨firm_plain k1 hl1, p2.2.1⟩, p2.2.2⟩
          · obtain ⟨q1, q2⟩ := hrecv _ rfl
            obtain ⟨r1, r2⟩ := hk _ _ _ hg q1 h2
            exact ⟨r1, fun p1 p2 => r2 (q2 p1 p2)⟩
        · obtain ⟨q1, q2⟩ := hrecv _ rfl
          obtain ⟨r1, r2⟩ := hk _ _ _ hg q1 h2
          exact ⟨r1, fun p1 p2 => r2 (q2 p1 p2)⟩
    | index f' i b =>
      rcases hf with ⟨x, b, hf⟩ | ⟨hr, hq, rfl, htw⟩
      · cases hf
      simp only [X.raw] at hr
      simp only [X.quiet] at hq
      simp only at h
      split at h
      · cases h
      · rename_i n1 es2 h2
        simp only [Except.ok.injEq, Prod.mk.injEq, List.append_eq_nil_iff] at h
        obtain ⟨rfl, rfl, rfl⟩ := h
        obtain ⟨k1, k2⟩ := key rfl
        have hl1 : l1.firm D Γ := by
          rcases htw with ht | ht
          · exact k2 ht
          · exact k2 (firm_plain ht.1 ht.2)
        obtain ⟨r1, r2⟩ := hk _ _ _ hg (.index ⟨k1, hl1⟩ hr.1 hq.1 hr.2.1 hq.2) h2
        refine ⟨r1, fun p1 p2 => r2 ?_⟩
        simp only [X.plain] at p2 ⊢
        exact ⟨⟨firm_plain k1 hl1, p2.1⟩, p2.2⟩
    | _ => simp at h

theorem sound_index {D : Decls} {chk : Env → X → R X} {body : Env → Ty → List S → Except Stop (List S × List Err × Env)}
    (hk : Sound D chk) {Γ : Env} (hg : Good Γ) {l r e' : X} {a : Ann} (hl : QuietIn D Γ l) (hr : QuietIn D Γ r)
    (h : stepX D chk body Γ (.index l r a) = .ok (e', [])) :
    e'.wt true D Γ .value ∧ (l.plain true → r.plain true → e'.firm D Γ) := by
  simp only [stepX] at h
  getok h1 : chk Γ l at h with l1 es1
  getok h2 : chk Γ r at h with r1 es2
  have he : es1 = [] ∧ es2 = [] := by
    repeat' split at h
    all_goals (simp at h; try exact h.2)
  obtain ⟨rfl, rfl⟩ := he
  obtain ⟨k1, k2⟩ := hk _ _ _ hg hl h1
  obtain ⟨k3, k4⟩ := hk _ _ _ hg hr h2
  obtain ⟨t, ht⟩ := wt_typ k1
  obtain ⟨u, hu⟩ := wt_typ k3
  simp only [ht, hu] at h
  split at h
  · simp at h
  · rename_i hp
    have hp := isPrim_eq (by simpa using hp : isPrim .int u = true)
    subst hp
    split at h
    · cases h
      simp only [X.wt, X.firm]
      exact ⟨⟨k1, k3, hu, _, ht, rfl⟩, fun p1 p2 => ⟨k2 p1, k4 p2⟩⟩
    · simp at h

/-- Elements of an array literal: no errors are dropped. -/
theorem sound_elems {D : Decls} {chk : Env → X → R X} (hk : Sound D chk) {Γ : Env} (hg : Good Γ) : ∀ {xs xs' : List X} {t0 : Option Ty} {es : List Err},
    (∀ x ∈ xs, QuietIn D Γ x ∧ ∀ x' es, chk Γ x = .ok (x', es) → x'.typ ≠ none → es = [] ∧ (x.plain false → x'.fixed D Γ)) →
    chkElems (chk Γ) t0 xs = .ok (xs', es, true) →
    wtL true D Γ .value xs' ∧ (plainL false xs → fixedL D Γ xs') ∧
    (∀ t, (t0 = some t ∨ (t0 = none ∧ (xs'.map X.typ).head? = some (some t))) → ∀ e ∈ xs', ∃ u, e.typ = some u ∧ u.same t = true)
  | [], xs', t0, es, hp, h => by
    simp only [chkElems, Except.ok.injEq, Prod.mk.injEq] at h
    rw [← h.1]
    exact ⟨by simp [wtL], fun _ => by simp [fixedL], fun _ _ _ h => by simp at h⟩
  | x :: xs, xs', t0, es, hp, h => by
    simp only [chkElems] at h
    getok h1 : chk Γ x at h with x1 es1
    split at h
    · simp at h
    · rename_i t ht
      split at h
      · simp at h
      · rename_i hs
        rcases h5 : chkElems (chk Γ) (some (t0.getD t)) xs with s | ⟨xs2, es2, b2⟩
        · simp [h5] at h
        · simp only [h5, Except.ok.injEq, Prod.mk.injEq] at h
          obtain ⟨rfl, rfl, rfl⟩ := h
          obtain ⟨hq, hc⟩ := hp x (by simp)
          obtain ⟨rfl, hf⟩ := hc _ _ h1 (by simp [ht])
          obtain ⟨h6, h7, h8⟩ := sound_elems hk hg (fun e he => hp e (by simp [he])) h5
          refine ⟨⟨(hk _ _ _ hg hq h1).1, h6⟩, fun hp => ?_, fun t' ht' e he => ?_⟩
          · simp only [plainL] at hp
            exact ⟨hf hp.1, h7 hp.2⟩
          · have hg : t0.getD t = t' := by
              rcases ht' with rfl | ⟨rfl, h0⟩
              · rfl
              · simp only [List.map_cons, List.head?_cons, Option.some.injEq] at h0
                rw [ht] at h0
                simpa using h0
            rcases List.mem_cons.1 he with rfl | he
            · exact ⟨t, ht, by rw [hg] at hs; simpa using hs⟩
            · exact h8 t' (.inl (by rw [hg])) e he

theorem fixed_mem {D : Decls} {Γ : Env} : ∀ {xs : List X}, fixedL D Γ xs → ∀ x ∈ xs, x.fixed D Γ
  | [], _, x, h => by simp at h
  | y :: ys, h, x, hx => by
    simp only [fixedL] at h
    rcases List.mem_cons.1 hx with rfl | hx
    · exact h.1
    · exact fixed_mem h.2 x hx

theorem elems_err {D : Decls} {chk : Env → X → R X} {Γ : Env} (hg : Good Γ) (hk : Sound D chk) : ∀ {xs xs' : List X} {t0 : Option Ty} {es : List Err},
    (∀ x ∈ xs, QuietIn D Γ x ∧ ∀ x' es, chk Γ x = .ok (x', es) → x'.typ ≠ none → es = [] ∧ (x.plain false → x'.fixed D Γ)) →
    chkElems (chk Γ) t0 xs = .ok (xs', es, false) → es ≠ []
  | [], xs', t0, es, hp, h => by simp [chkElems] at h
  | x :: xs, xs', t0, es, hp, h => by
    simp only [chkElems] at h
    getok h1 : chk Γ x at h with x1 es1
    split at h
    · rename_i hn
      cases h
      rintro rfl
      obtain ⟨t, ht⟩ := wt_typ (hk _ _ _ hg (hp x (by simp)).1 h1).1
      rw [hn] at ht; cases ht
    · split at h
      · cases h; simp
      · split at h
        · cases h
        · rename_i h2
          simp only [Except.ok.injEq, Prod.mk.injEq] at h
          obtain ⟨_, rfl, rfl⟩ := h
          exact elems_err hg hk (fun x hx => hp x (by simp [hx])) h2

theorem sound_arr {D : Decls} {chk : Env → X → R X} {body : Env → Ty → List S → Except Stop (List S × List Err × Env)}
    (hk : Sound D chk) {Γ : Env} (hg : Good Γ) {xs : List X} {a : Ann} {e' : X}
    (hx : ∀ x ∈ xs, QuietIn D Γ x ∧ ∀ x' es, chk Γ x = .ok (x', es) → x'.typ ≠ none → es = [] ∧ (x.plain false → x'.fixed D Γ))
    (h : stepX D chk body Γ (.arr xs a) = .ok (e', [])) :
    e'.wt true D Γ .value ∧ (plainL false xs → e'.firm D Γ) := by
  simp only [stepX] at h
  split at h
  · simp at h
  · rename_i hne
    split at h
    · cases h
    · rename_i h1
      simp only [Except.ok.injEq, Prod.mk.injEq] at h
      obtain ⟨_, rfl⟩ := h
      exact absurd rfl (elems_err hg hk hx h1)
    · rename_i xs1 es1 h1
      cases h
      obtain ⟨h2, h3, h4⟩ := sound_elems hk hg hx h1
      simp only [X.wt, X.firm]
      refine ⟨⟨h2, ?_⟩, h3⟩
      cases xs1 with
      | nil =>
        exfalso
        cases xs with
        | nil => simp at hne
        | cons x xs =>
          simp only [chkElems] at h1
          repeat' split at h1
          all_goals simp at h1
      | cons y ys =>
        simp only [wtL] at h2
        obtain ⟨t, ht⟩ := wt_typ h2.1
        refine ⟨t, by simp [ht], by simp [ht], fun e he => ?_⟩
        obtain ⟨u, hu, hs⟩ := h4 t (.inr ⟨rfl, by simp [ht]⟩) e he
        exact ⟨u, hu, (same_iff _ _).1 hs⟩

theorem sound_tern {D : Decls} {chk : Env → X → R X} {body : Env → Ty → List S → Except Stop (List S × List Err × Env)}
    (hk : Sound D chk) {Γ : Env} (hg : Good Γ) {c x y : X} {a : Ann} {e' : X}
    (hx : ∀ z, z = c ∨ z = x ∨ z = y → QuietIn D Γ z ∧ ∀ x' es, chk Γ z = .ok (x', es) → x'.typ ≠ none → es = [] ∧ (z.plain false → x'.fixed D Γ))
    (h : stepX D chk body Γ (.tern c x y a) = .ok (e', [])) :
    e'.wt true D Γ .value ∧ (c.plain false → x.plain false → y.plain false → e'.firm D Γ) := by
  have one : ∀ z, z = c ∨ z = x ∨ z = y → ∀ z' es, chk Γ z = .ok (z', es) → z'.typ = none → es ≠ [] := by
    rintro z hz z' es h1 hn rfl
    obtain ⟨t, ht⟩ := wt_typ (hk _ _ _ hg (hx z hz).1 h1).1
    rw [hn] at ht; cases ht
  have two : ∀ z, z = c ∨ z = x ∨ z = y → ∀ z' es t, chk Γ z = .ok (z', es) → z'.typ = some t → z'.wt true D Γ .value ∧ (z.plain false → z'.fixed D Γ) := by
    intro z hz z' es t h1 ht
    obtain ⟨rfl, hf⟩ := (hx z hz).2 _ _ h1 (by simp [ht])
    exact ⟨(hk _ _ _ hg (hx z hz).1 h1).1, hf⟩
  simp only [stepX] at h
  getok h1 : chk Γ c at h with c1 es1
  split at h
  · rename_i hn
    cases h; exact absurd rfl (one c (.inl rfl) _ _ h1 hn)
  · rename_i tc htc
    split at h
    · simp at h
    · rename_i p1
      have p1 := isPrim_eq (by simpa using p1 : isPrim .bool tc = true)
      subst p1
      getok h2 : chk Γ x at h with x1 es2
      split at h
      · rename_i hn
        cases h; exact absurd rfl (one x (.inr (.inl rfl)) _ _ h2 hn)
      · rename_i tx htx
        getok h3 : chk Γ y at h with y1 es3
        split at h
        · rename_i hn
          cases h; exact absurd rfl (one y (.inr (.inr rfl)) _ _ h3 hn)
        · rename_i ty hty
          split at h
          · simp at h
          · rename_i hs
            cases h
            obtain ⟨a1, a2⟩ := two c (.inl rfl) _ _ _ h1 htc
            obtain ⟨b1, b2⟩ := two x (.inr (.inl rfl)) _ _ _ h2 htx
            obtain ⟨c1, c2⟩ := two y (.inr (.inr rfl)) _ _ _ h3 hty
            simp only [X.wt, X.firm]
            exact ⟨⟨a1, b1, c1, htc, tx, ty, htx, hty, (same_iff _ _).1 (by simpa using hs), rfl⟩, fun p1 p2 p3 => ⟨a2 p1, b2 p2, c2 p3⟩⟩

theorem sound_two {D : Decls} {chk : Env → X → R X} (hk : Sound D chk) {Γ : Env} (hg : Good Γ) {l r l1 r1 : X} {es1 es2 : List Err}
    (hl : QuietIn D Γ l) (hr : QuietIn D Γ r) (h1 : chk Γ l = .ok (l1, es1)) (h2 : chk Γ r = .ok (r1, es2)) (he : es1 = [] ∧ es2 = []) :
    l1.wt true D Γ .value ∧ r1.wt true D Γ .value ∧ (l.plain true → l1.firm D Γ) ∧ (r.plain true → r1.firm D Γ) ∧ ∃ t u, l1.typ = some t ∧ r1.typ = some u := by
  obtain ⟨rfl, rfl⟩ := he
  obtain ⟨k1, k2⟩ := hk _ _ _ hg hl h1
  obtain ⟨k3, k4⟩ := hk _ _ _ hg hr h2
  obtain ⟨t, ht⟩ := wt_typ k1
  obtain ⟨u, hu⟩ := wt_typ k3
  exact ⟨k1, k3, k2, k4, t, u, ht, hu⟩

theorem operandTy_eq (op : BinOp) : Ty.prim op.operand = operandTy op := by cases op <;> rfl
theorem resultTy_eq (op : BinOp) : Ty.prim op.result = operandTy op := by cases op <;> rfl
theorem unTy_eq (op : UnOp) : Ty.prim op.operand = unTy op := by cases op <;> rfl

theorem sound_step {D : Decls} {chk : Env → X → R X} {body : Env → Ty → List S → Except Stop (List S × List Err × Env)}
    (hk : Sound D chk) (hb : Backs chk) (hc : Calms D chk) (hx : Fixes D chk) (hsh : Shapes chk) (hB : SoundB D body) : Sound D (stepX D chk body) := by
  intro Γ e e' hg hm h
  have bin : ∀ op l r a, QuietIn D Γ l → QuietIn D Γ r → stepX D chk body Γ (.bin op l r a) = .ok (e', []) →
      e'.wt true D Γ .value ∧ (l.plain true → r.plain true → e'.firm D Γ) := by
    intro op l r a hl hr h
    simp only [stepX] at h
    getok h1 : chk Γ l at h with l1 es1
    getok h2 : chk Γ r at h with r1 es2
    obtain ⟨k1, k2, k3, k4, t, u, ht, hu⟩ := sound_two hk hg hl hr h1 h2 (by
      repeat' split at h
      all_goals (simp at h; try exact h.2)
      all_goals simp_all)
    simp only [ht, hu] at h
    split at h
    · simp at h
    · rename_i p1
      split at h
      · simp at h
      · rename_i p2
        have p1 := isPrim_eq (by simpa using p1 : isPrim op.operand t = true)
        have p2 := isPrim_eq (by simpa using p2 : isPrim op.operand u = true)
        subst p1 p2
        simp only [Except.ok.injEq, Prod.mk.injEq] at h
        rw [← h.1]
        simp only [X.wt, X.firm, resultTy_eq]
        rw [operandTy_eq] at ht hu
        exact ⟨⟨k1, k2, ht, hu, trivial⟩, fun p1 p2 => ⟨k3 p1, k4 p2⟩⟩
  have cmp : ∀ op l r a, QuietIn D Γ l → QuietIn D Γ r → stepX D chk body Γ (.cmp op l r a) = .ok (e', []) →
      e'.wt true D Γ .value ∧ (l.plain true → r.plain true → e'.firm D Γ) := by
    intro op l r a hl hr h
    simp only [stepX] at h
    getok h1 : chk Γ l at h with l1 es1
    getok h2 : chk Γ r at h with r1 es2
    obtain ⟨k1, k2, k3, k4, t, u, ht, hu⟩ := sound_two hk hg hl hr h1 h2 (by
      repeat' split at h
      all_goals (simp at h; try exact h.2))
    simp only [ht, hu] at h
    split at h
    · simp at h
    · rename_i p1
      simp only [Except.ok.injEq, Prod.mk.injEq] at h
      rw [← h.1]
      simp only [X.wt, X.firm]
      exact ⟨⟨k1, k2, ⟨t, u, ht, hu, (same_iff _ _).1 (by simpa using p1)⟩, trivial⟩, fun p1 p2 => ⟨k3 p1, k4 p2⟩⟩
  have un : ∀ op l a, QuietIn D Γ l → stepX D chk body Γ (.un op l a) = .ok (e', []) →
      e'.wt true D Γ .value ∧ (l.plain true → e'.firm D Γ) := by
    intro op l a hl h
    simp only [stepX] at h
    getok h1 : chk Γ l at h with l1 es1
    have he : es1 = [] := by
      repeat' split at h
      all_goals (simp at h; try exact h.2)
    subst he
    obtain ⟨k1, k2⟩ := hk _ _ _ hg hl h1
    obtain ⟨t, ht⟩ := wt_typ k1
    simp only [ht] at h
    split at h
    · simp at h
    · rename_i p1
      have p1 := isPrim_eq (by simpa using p1 : isPrim op.operand t = true)
      subst p1
      cases h
      rw [unTy_eq] at ht
      simp only [X.wt, X.firm, unTy_eq]
      exact ⟨⟨k1, ht, trivial⟩, fun p1 => k2 p1⟩
  have tyc : ∀ t a, stepX D chk body Γ (.ty t a) = .ok (e', []) → e'.wt true D Γ .value ∧ e'.firm D Γ := by
    intro t a h
    simp only [stepX] at h
    cases hi : instTy Γ [] t with
    | mk o es =>
      rw [hi] at h
      simp only [Except.ok.injEq, Prod.mk.injEq] at h
      obtain ⟨rfl, rfl⟩ := h
      cases o with
      | none => exact absurd rfl (instTy_total hg t _ _ hi)
      | some u =>
        simp only [X.wt, X.firm]
        exact ⟨⟨.inl trivial, u, (instTy_means Γ t _ _ hi).2 _ rfl, rfl⟩, trivial⟩
  have calmOf : ∀ x, x.raw → x.calm D → ∀ x' es, chk Γ x = .ok (x', es) → x'.typ ≠ none → es = [] ∧ (x.plain false → x'.fixed D Γ) :=
    fun x h1 h2 x' es h3 h4 => hc _ _ _ _ (.raw h1 h2) h3 h4
  have fixOf : ∀ x, x.fixed D Γ → ∀ x' es, chk Γ x = .ok (x', es) → x'.typ ≠ none → es = [] ∧ (x.plain false → x'.fixed D Γ) :=
    fun x h1 x' es h3 h4 => ⟨(hx _ _ _ _ h1 h3).1, fun _ => (hx _ _ _ _ h1 h3).2.1⟩
  have rawCallee : ∀ {f : X}, f.raw → f.quiet D →
      (∃ x b, f = .ident x b ∧ (b = {} ∨ ∃ s t, Names Γ x s ∧ b.sym = some s ∧ s.Has t)) ∨ ((∀ x b, f ≠ .ident x b) ∧ QuietIn D Γ f) := by
    intro f hr hq
    cases f with
    | ident x b =>
      simp only [X.raw] at hr
      exact .inl ⟨x, b, rfl, .inl hr⟩
    | _ => exact .inr ⟨by simp, .raw hr hq⟩
  cases hm with
  | again hq =>
    obtain ⟨hw, hf⟩ := hq
    cases e with
    | lit k a =>
      simp only [stepX, Except.ok.injEq, Prod.mk.injEq] at h
      rw [← h.1]
      simp only [X.wt, X.firm]
      exact ⟨by cases k <;> rfl, fun _ => trivial⟩
    | ident x a =>
      simp only [X.wt] at hw
      obtain ⟨s, t, h1, h2, h3, h4, h5, h6⟩ := hw
      simp only [stepX, chkIdent, h2, Except.ok.injEq, Prod.mk.injEq] at h
      rw [← h.1]
      simp only [X.wt, X.firm]
      refine ⟨⟨s, t, h1, rfl, h3, ?_, h5, h6⟩, fun _ => trivial⟩
      obtain ⟨b, bs, rfl, hb⟩ := h3
      exact hb
    | call f ts args a =>
      simp only [X.firm] at hf
      obtain ⟨w1, w2⟩ := wt_call hw
      have q := sound_call hk hsh hg ?_ ?_ h
      rotate_left
      · rcases w2 with ⟨x, b, s, rfl, h1, h2, h3⟩ | ⟨h1, h2⟩
        · refine .inl ⟨x, b, rfl, .inr ?_⟩
          rcases h3 with h3 | ⟨t, h3⟩
          · obtain ⟨t, ht, _⟩ := good_ty hg h3
            exact ⟨s, t, h2, h1, ht⟩
          · exact ⟨s, t, h2, h1, h3⟩
        · exact .inr ⟨h1, .again ⟨h2, hf.1⟩⟩
      · intro x hx
        exact .inl ⟨wtL_mem w1 x hx, fun _ => firm_mem hf.2 x hx⟩
      · refine ⟨q.1, fun hp => ?_⟩
        simp only [X.plain] at hp
        exact q.2 hp.2.1 hp.2.2
    | bin op l r a =>
      simp only [X.firm] at hf
      simp only [X.wt] at hw
      obtain ⟨r1, r2⟩ := bin op l r a (.again ⟨hw.1, hf.1⟩) (.again ⟨hw.2.1, hf.2⟩) h
      exact ⟨r1, fun hp => by simp only [X.plain] at hp; exact r2 hp.1 hp.2⟩
    | cmp op l r a =>
      simp only [X.firm] at hf
      simp only [X.wt] at hw
      obtain ⟨r1, r2⟩ := cmp op l r a (.again ⟨hw.1, hf.1⟩) (.again ⟨hw.2.1, hf.2⟩) h
      exact ⟨r1, fun hp => by simp only [X.plain] at hp; exact r2 hp.1 hp.2⟩
    | un op l a =>
      simp only [X.firm] at hf
      simp only [X.wt] at hw
      obtain ⟨r1, r2⟩ := un op l a (.again ⟨hw.1, hf⟩) h
      exact ⟨r1, fun hp => by simp only [X.plain] at hp; exact r2 hp⟩
    | tern c x y a =>
      simp only [X.firm] at hf
      simp only [X.wt] at hw
      have q := sound_tern hk hg (c := c) (x := x) (y := y) ?_ h
      · exact ⟨q.1, fun hp => by simp only [X.plain] at hp; exact q.2 hp.1 hp.2.1 hp.2.2⟩
      · rintro z (rfl | rfl | rfl)
        · exact ⟨.again ⟨hw.1, firm_of_fixed hf.1⟩, fixOf _ hf.1⟩
        · exact ⟨.again ⟨hw.2.1, firm_of_fixed hf.2.1⟩, fixOf _ hf.2.1⟩
        · exact ⟨.again ⟨hw.2.2.1, firm_of_fixed hf.2.2⟩, fixOf _ hf.2.2⟩
    | arr xs a =>
      simp only [X.firm] at hf
      simp only [X.wt] at hw
      have q := sound_arr hk hg (xs := xs) ?_ h
      · exact ⟨q.1, fun hp => by simp only [X.plain] at hp; exact q.2 hp⟩
      · intro z hz
        have := fixed_mem hf z hz
        exact ⟨.again ⟨wtL_mem hw.1 z hz, firm_of_fixed this⟩, fixOf _ this⟩
    | index l r a =>
      simp only [X.firm] at hf
      simp only [X.wt] at hw
      obtain ⟨r1, r2⟩ := sound_index hk hg (.again ⟨hw.1, hf.1⟩) (.again ⟨hw.2.1, hf.2⟩) h
      exact ⟨r1, fun hp => by simp only [X.plain] at hp; exact r2 hp.1 hp.2⟩
    | dot l r a =>
      simp only [X.firm] at hf
      simp only [X.wt] at hw
      obtain ⟨w1, t, x, b, u, _, rfl, _⟩ := hw
      obtain ⟨r1, r2⟩ := sound_dot hk hb hg (.again ⟨w1, hf⟩) (.inl ⟨x, b, rfl⟩) h
      exact ⟨r1, fun hp => by simp only [X.plain] at hp; exact r2 hp.1 hp.2⟩
    | ty t a =>
      obtain ⟨r1, r2⟩ := tyc t a h
      exact ⟨r1, fun _ => r2⟩
    | fnB h' i ss a => simp [X.firm] at hf
    | fnE h' i e a => simp [X.firm] at hf
  | dot hq hr hc =>
    obtain ⟨h1, h2⟩ := sound_dot hk hb hg (.again hq) (.inr ⟨hr, hc, rfl, .inr hq⟩) h
    exact ⟨h1, fun hp => by simp only [X.plain] at hp; exact h2 hp.1 hp.2⟩
  | recv hq hr hc ha =>
    have q := sound_call hk hsh hg (rawCallee hr hc) ?_ h
    · refine ⟨q.1, fun hp => ?_⟩
      simp only [X.plain] at hp
      exact q.2 hp.2.1 hp.2.2
    · intro x hx
      rcases List.mem_cons.1 hx with rfl | hx
      · exact .inl ⟨wt_any hq.1, hq.2⟩
      · exact .inr (ha x hx)
  | field hq hr hc ha =>
    have q := sound_call hk hsh hg (.inr ⟨by simp, .dot hq hr hc⟩) (fun x hx => .inr (ha x hx)) h
    refine ⟨q.1, fun hp => ?_⟩
    simp only [X.plain] at hp
    exact q.2 (by simpa only [X.plain] using hp.2.1) hp.2.2
  | index hq hr hc hr' hc' =>
    obtain ⟨h1, h2⟩ := sound_index hk hg (.dot hq hr hc) (.raw hr' hc') h
    exact ⟨h1, fun hp => by simp only [X.plain] at hp; exact h2 hp.1 hp.2⟩
  | raw hr hq =>
    cases e with
    | lit k a =>
      simp only [stepX, Except.ok.injEq, Prod.mk.injEq] at h
      rw [← h.1]
      simp only [X.wt, X.firm]
      exact ⟨by cases k <;> rfl, fun _ => trivial⟩
    | ident x a =>
      simp only [X.raw] at hr
      subst hr
      simp only [stepX, Except.ok.injEq, Prod.mk.injEq] at h
      obtain ⟨s, hs, hl, ha⟩ := chkIdent_ok (Prod.ext rfl h.2)
      obtain ⟨t, ht1, ht2⟩ := good_ty hg hs
      rw [h.1.symm.trans (congrArg (X.ident _) ha)]
      simp only [X.wt, X.firm]
      have hl := hl rfl
      have hne := (good_finds hg hs).1
      refine ⟨⟨s, t, ⟨[], hs⟩, rfl, ht1, ht2, by simp, fun _ => ⟨?_, hs⟩⟩, fun _ => trivial⟩
      cases s with
      | nil => exact absurd rfl hne
      | cons b bs => simp only [List.length_cons] at hl ⊢; omega
    | call f ts args a =>
      simp only [X.raw] at hr
      simp only [X.quiet] at hq
      have q := sound_call hk hsh hg (rawCallee hr.1 hq.1) (fun x hx => .inr ⟨raw_mem hr.2.1 x hx, quiet_mem hq.2 x hx⟩) h
      refine ⟨q.1, fun hp => ?_⟩
      simp only [X.plain] at hp
      exact q.2 hp.2.1 hp.2.2
    | bin op l r a =>
      simp only [X.raw] at hr
      simp only [X.quiet] at hq
      obtain ⟨r1, r2⟩ := bin op l r a (.raw hr.1 hq.1) (.raw hr.2.1 hq.2) h
      exact ⟨r1, fun hp => by simp only [X.plain] at hp; exact r2 hp.1 hp.2⟩
    | cmp op l r a =>
      simp only [X.raw] at hr
      simp only [X.quiet] at hq
      obtain ⟨r1, r2⟩ := cmp op l r a (.raw hr.1 hq.1) (.raw hr.2.1 hq.2) h
      exact ⟨r1, fun hp => by simp only [X.plain] at hp; exact r2 hp.1 hp.2⟩
    | un op l a =>
      simp only [X.raw] at hr
      simp only [X.quiet] at hq
      obtain ⟨r1, r2⟩ := un op l a (.raw hr.1 hq) h
      exact ⟨r1, fun hp => by simp only [X.plain] at hp; exact r2 hp⟩
    | tern c x y a =>
      simp only [X.raw] at hr
      simp only [X.quiet] at hq
      have q := sound_tern hk hg (c := c) (x := x) (y := y) ?_ h
      · exact ⟨q.1, fun hp => by simp only [X.plain] at hp; exact q.2 hp.1 hp.2.1 hp.2.2⟩
      · rintro z (rfl | rfl | rfl)
        · exact ⟨.raw hr.1 hq.2.2.2.1, calmOf _ hr.1 hq.1⟩
        · exact ⟨.raw hr.2.1 hq.2.2.2.2.1, calmOf _ hr.2.1 hq.2.1⟩
        · exact ⟨.raw hr.2.2.1 hq.2.2.2.2.2, calmOf _ hr.2.2.1 hq.2.2.1⟩
    | arr xs a =>
      simp only [X.raw] at hr
      simp only [X.quiet] at hq
      have q := sound_arr hk hg (xs := xs) ?_ h
      · exact ⟨q.1, fun hp => by simp only [X.plain] at hp; exact q.2 hp⟩
      · intro z hz
        exact ⟨.raw (raw_mem hr.1 z hz) (quiet_mem hq.2 z hz), calmOf _ (raw_mem hr.1 z hz) (calm_mem hq.1 z hz)⟩
    | index l r a =>
      simp only [X.raw] at hr
      simp only [X.quiet] at hq
      obtain ⟨r1, r2⟩ := sound_index hk hg (.raw hr.1 hq.1) (.raw hr.2.1 hq.2) h
      exact ⟨r1, fun hp => by simp only [X.plain] at hp; exact r2 hp.1 hp.2⟩
    | dot l r a =>
      simp only [X.raw] at hr
      simp only [X.quiet] at hq
      obtain ⟨r1, r2⟩ := sound_dot hk hb hg (.raw hr.1 hq.1) (.inr ⟨hr.2.1, hq.2.1, hr.2.2, .inl hq.2.2⟩) h
      exact ⟨r1, fun hp => by simp only [X.plain] at hp; exact r2 hp.1 hp.2⟩
    | ty t a =>
      obtain ⟨r1, r2⟩ := tyc t a h
      exact ⟨r1, fun _ => r2⟩
    | fnB h' i ss a =>
      refine ⟨?_, fun hp => by simp [X.plain] at hp⟩
      simp only [X.raw] at hr
      simp only [X.quiet] at hq
      obtain ⟨rfl, hr1, rfl⟩ := hr
      simp only [stepX] at h
      split at h
      · cases h
      · simp at h
      · rename_i i hs
        obtain ⟨d, ts, r, hi, ho, hsg⟩ := signature_ok hs
        split at h
        · cases h
        · cases h
        · rename_i ss1 es1 own Γ1 h1
          simp only [Except.ok.injEq, Prod.mk.injEq] at h
          obtain ⟨rfl, rfl⟩ := h
          rw [hi, ho] at h1
          simp only [X.wt, hi]
          exact ⟨d, ts, r, rfl, hsg, ⟨_, rfl, rfl⟩, hB _ _ _ _ _ (litScope_good hg) hr1 hq h1⟩
    | fnE h' i e a =>
      refine ⟨?_, fun hp => by simp [X.plain] at hp⟩
      simp only [X.raw] at hr
      simp only [X.quiet] at hq
      obtain ⟨rfl, hr1, rfl⟩ := hr
      simp only [stepX] at h
      split at h
      · cases h
      · simp at h
      · rename_i i hs
        obtain ⟨d, ts, r, hi, ho, hsg⟩ := signature_ok hs
        split at h
        · cases h
        · rename_i e1 es1 h1
          simp only [Except.ok.injEq, Prod.mk.injEq, List.append_eq_nil_iff] at h
          obtain ⟨rfl, rfl, h2⟩ := h
          rw [ho] at h1
          have k1 := (hk _ _ _ (litScope_good hg) (.raw hr1 hq) h1).1
          obtain ⟨t, ht⟩ := wt_typ k1
          simp only [ht, hi] at h2
          simp only [X.wt, hi]
          refine ⟨d, ts, r, t, rfl, hsg, ⟨_, rfl, hi⟩, k1, ht, (same_iff _ _).1 ?_⟩
          split at h2
          · assumption
          · simp at h2

end Clara.Sema.Chk
