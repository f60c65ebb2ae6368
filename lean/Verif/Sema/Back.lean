import Verif.Sema.Backward
set_option linter.unusedVariables false
/-
Lowering keeps the meaning: following unfolded runs along the source statements.
-/
namespace Clara.Sema
open Clara.Gen

variable {σ : Type} {L : Lib} {P : SProg σ} {N : Nat}

theorem agree_self {A : Nat → Prop} {ρ ρ' : Env} {x : Nat} {v : Val} (h : Agree A ρ ρ') (hx : ρ' x = some v) :
    Agree (fun y => A y ∨ y = x) (ρ.upd x v) ρ' := by
  intro y hy
  rw [(h.upd x v) y hy]
  simp only [Env.upd]
  split
  · rename_i e; rw [e, hx]
  · rfl

theorem toInt_succ {v e : BitVec 63} (h : v.toInt < e.toInt) : (v + BitVec.ofInt 63 1).toInt = v.toInt + 1 := by
  have h1 : e.toInt < 2 ^ 62 := BitVec.toInt_lt
  have h2 : - 2 ^ 62 ≤ v.toInt := BitVec.le_toInt v
  rw [BitVec.toInt_add]
  have : (BitVec.ofInt 63 1).toInt = 1 := by decide
  rw [this]
  exact Int.bmod_eq_of_le (by omega) (by omega)

theorem toInt_pred {v e : BitVec 63} (h : e.toInt < v.toInt) : (v + BitVec.ofInt 63 (-1)).toInt = v.toInt - 1 := by
  have h1 : v.toInt < 2 ^ 62 := BitVec.toInt_lt
  have h2 : - 2 ^ 62 ≤ e.toInt := BitVec.le_toInt e
  rw [BitVec.toInt_add]
  have : (BitVec.ofInt 63 (-1)).toInt = -1 := by decide
  rw [this]
  exact (Int.bmod_eq_of_le (by omega) (by omega)).trans (by omega)

/-- The values of the loop variable of an increasing loop. -/
theorem steps_up (e : BitVec 63) : ∀ (k : Nat) (v : BitVec 63), (e.toInt - v.toInt).toNat = k → ∀ vs,
    Steps false e v vs ↔ vs.map (·.toInt) = (List.range k).map (fun i : Nat => v.toInt + (i : Int)) := by
  intro k
  induction k with
  | zero =>
    intro v hk vs
    have hg : going false e v = false := by simp only [going, Bool.false_eq_true, if_false]; exact decide_eq_false (by omega)
    cases vs with
    | nil => simp [Steps, hg]
    | cons w ws => simp [Steps, hg]
  | succ k ih =>
    intro v hk vs
    have hlt : v.toInt < e.toInt := by omega
    have hg : going false e v = true := by simp only [going, Bool.false_eq_true, if_false]; exact decide_eq_true hlt
    have hs : (succv false v).toInt = v.toInt + 1 := by simp only [succv, Bool.false_eq_true, if_false]; exact toInt_succ hlt
    cases vs with
    | nil => simp [Steps, hg]
    | cons w ws =>
      have := ih (succv false v) (by rw [hs]; omega) ws
      simp only [Steps, hg, true_and, this, List.map_cons, List.range_succ_eq_map, List.cons.injEq, List.map_map]
      rw [BitVec.toInt_inj.symm]
      simp only [Int.ofNat_zero, Int.add_zero]
      refine and_congr Iff.rfl ?_
      rw [List.map_congr_left (g := (fun i : Nat => v.toInt + (i : Int)) ∘ Nat.succ) (fun i _ => by
        simp only [Function.comp, hs]
        omega)]

/-- The values of the loop variable of a decreasing loop. -/
theorem steps_down (e : BitVec 63) (he : - 2 ^ 62 < e.toInt) : ∀ (k : Nat) (v : BitVec 63), (v.toInt + 1 - e.toInt).toNat = k → ∀ vs,
    Steps true e v vs ↔ vs.map (·.toInt) = (List.range k).map (fun i : Nat => v.toInt - (i : Int)) := by
  intro k
  induction k with
  | zero =>
    intro v hk vs
    have hg : going true e v = false := by simp only [going, if_true]; exact decide_eq_false (by omega)
    cases vs with
    | nil => simp [Steps, hg]
    | cons w ws => simp [Steps, hg]
  | succ k ih =>
    intro v hk vs
    have hlt : e.toInt ≤ v.toInt := by omega
    have hg : going true e v = true := by simp only [going, if_true]; exact decide_eq_true hlt
    have hm : (BitVec.ofInt 63 (- 2 ^ 62)).toInt = - 2 ^ 62 := by decide
    have hs : (succv true v).toInt = v.toInt - 1 := by
      simp only [succv, if_true]
      exact toInt_pred (e := BitVec.ofInt 63 (- 2 ^ 62)) (by rw [hm]; omega)
    cases vs with
    | nil => simp [Steps, hg]
    | cons w ws =>
      have := ih (succv true v) (by rw [hs]; omega) ws
      simp only [Steps, hg, true_and, this, List.map_cons, List.range_succ_eq_map, List.cons.injEq, List.map_map]
      rw [BitVec.toInt_inj.symm]
      simp only [Int.ofNat_zero, Int.sub_zero]
      refine and_congr Iff.rfl ?_
      rw [List.map_congr_left (g := (fun i : Nat => v.toInt - (i : Int)) ∘ Nat.succ) (fun i _ => by
        simp only [Function.comp, hs]
        omega)]

theorem steps_exist (zero : Bool) (e : BitVec 63) (he : zero = true → - 2 ^ 62 < e.toInt) : ∀ v, ∃ vs, Steps zero e v vs := by
  cases zero
  · suffices ∀ k v, (e.toInt - v.toInt).toNat = k → ∃ vs, Steps false e v vs from fun v => this _ v rfl
    intro k
    induction k with
    | zero =>
      intro v hk
      exact ⟨[], by simp only [Steps, going, Bool.false_eq_true, if_false]; exact decide_eq_false (by omega)⟩
    | succ k ih =>
      intro v hk
      have hlt : v.toInt < e.toInt := by omega
      obtain ⟨vs, h⟩ := ih (succv false v) (by
        simp only [succv, Bool.false_eq_true, if_false]; rw [toInt_succ hlt]; omega)
      exact ⟨v :: vs, by simp only [going, Bool.false_eq_true, if_false]; exact decide_eq_true hlt, rfl, h⟩
  · suffices ∀ k v, (v.toInt + 1 - e.toInt).toNat = k → ∃ vs, Steps true e v vs from fun v => this _ v rfl
    have he := he rfl
    have hm : (BitVec.ofInt 63 (- 2 ^ 62)).toInt = - 2 ^ 62 := by decide
    intro k
    induction k with
    | zero =>
      intro v hk
      exact ⟨[], by simp only [Steps, going, if_true]; exact decide_eq_false (by omega)⟩
    | succ k ih =>
      intro v hk
      have hlt : e.toInt ≤ v.toInt := by omega
      obtain ⟨vs, h⟩ := ih (succv true v) (by
        simp only [succv, if_true]
        rw [toInt_pred (e := BitVec.ofInt 63 (- 2 ^ 62)) (by rw [hm]; omega)]
        omega)
      exact ⟨v :: vs, by simp only [going, if_true]; exact decide_eq_true hlt, rfl, h⟩

/-- Following a body. -/
def BackL (L : Lib) (N : Nat) (P : SProg σ) (b : SSs) : Prop :=
  ∀ n A ρ ρ' S o ρ1' S1, N ≤ n → (∀ y, A y → y < N) → Agree A ρ ρ' → b.Fine N A →
    RunL codeOpts P (lowL L b n).1 ρ' S o ρ1' S1 → ∃ ρ1, SBig codeOpts P (.stmts ρ S b o ρ1 S1) ∧ Agree A ρ1 ρ1'

theorem back_range {b : SSs} (hb : BackL L N P b) {zero : Bool} {x : Nat} {hi : Expr} {n : Nat} {A : Nat → Prop}
    (hn : N ≤ n) (hA : ∀ y, A y → y < N) (h1 : ¬ A x) (h2 : x < N) (h3 : x ∉ b.writes) (h4 : Scoped A hi)
    (h5 : StableEnd b.writes hi) (h7 : zero = true → hi = .int 0) (h6 : b.Fine N (fun y => A y ∨ y = x)) {ρ' ρ1' : Env} {S S1 : Store σ} {o : Out}
    (h : RunS codeOpts P (rangeLoop zero x hi (lowL L b n).1) ρ' S o ρ1' S1) :
    ∀ (ρ : Env) (e v : BitVec 63), Agree A ρ ρ' → EndVal ρ' e hi → ρ' x = some (.int v) →
      ∃ vs ρ1, Steps zero e v vs ∧ SBig codeOpts P (.range ρ S x hi e vs b o ρ1 S1) ∧ Agree A ρ1 ρ1' := by
  have hxe : x ∉ hi.vars := fun hc => h1 (h4 x hc)
  have hAx : ∀ y, (A y ∨ y = x) → y < N := fun y hy => hy.elim (hA y) (fun e => e ▸ h2)
  have hw : ∀ {ρa ρb : Env} {Sa Sb : Store σ} {o' : Out}, RunL codeOpts P (lowL L b n).1 ρa Sa o' ρb Sb →
      ∀ y, y < N → y ∉ b.writes → ρb y = ρa y := fun hr y hy1 hy2 =>
    runL_frame _ hr y (fun hc => by
      rcases (lowL_writes L b n).2 y hc with hc | hc
      · exact hy2 hc
      · omega)
  simp only [rangeLoop, RunS] at h
  induction h with
  | done hc =>
    intro ρ e v ha he hx
    obtain ⟨v', e', hx', he', hg, rfl⟩ := cond_inv h5 hc
    rw [hx] at hx'; cases hx'
    have := endVal_det he he'; subst this
    exact ⟨[], ρ, hg.symm, .rangeNil nofun, ha⟩
  | again hc hr _ ih =>
    intro ρ e v ha he hx
    obtain ⟨v', e', hx', he', hg, rfl⟩ := cond_inv h5 hc
    rw [hx] at hx'; cases hx'
    have := endVal_det he he'; subst this
    rcases runL_app _ _ hr with ⟨r, hr, -⟩ | ⟨ρm, Sm, hr1, hr2⟩
    · cases hr
    · obtain ⟨v2, hx2, -, rfl, rfl⟩ := next_inv (one_inv hr2)
      rw [hw hr1 x h2 h3, hx] at hx2
      cases hx2
      obtain ⟨ρ3, s3, g3⟩ := hb n _ _ _ _ _ _ _ hn hAx (agree_self ha hx) h6 hr1
      obtain ⟨vs, ρ4, t4, s4, g4⟩ := ih ρ3 e (succv zero v) ((g3.mono (fun y hy => .inl hy)).updr h1 _)
        (endVal_upd (endVal_frame he (fun y hy => hw hr1 y (hA y (h4 y hy)) (stable_not h5 y hy))) hxe) upd_eq
      exact ⟨v :: vs, ρ4, ⟨hg.symm, rfl, t4⟩, .rangeCons nofun s3 nofun s4, g4⟩
  | ret hc hr =>
    intro ρ e v ha he hx
    obtain ⟨v', e', hx', he', hg, rfl⟩ := cond_inv h5 hc
    rw [hx] at hx'; cases hx'
    have := endVal_det he he'; subst this
    rcases runL_app _ _ hr with ⟨r, hr, hr1⟩ | ⟨ρm, Sm, hr1, hr2⟩
    · cases hr
      obtain ⟨ρ3, s3, g3⟩ := hb n _ _ _ _ _ _ _ hn hAx (agree_self ha hx) h6 hr1
      -- values that the run does not reach
      obtain ⟨vs, hvs⟩ := steps_exist zero e (fun hz => by
        rw [h7 hz] at he
        simp only [EndVal] at he
        rw [← he]
        decide) (succv zero v)
      exact ⟨v :: vs, ρ3, ⟨hg.symm, rfl, hvs⟩, .rangeRet nofun s3, g3.mono (fun y hy => .inl hy)⟩
    · obtain ⟨v2, -, ho, -⟩ := next_inv (one_inv hr2)
      cases ho

theorem back_elems {b : SSs} (hb : BackL L N P b) {arr : Expr} {x h : Nat} {t th : TyR} {idx n : Nat} {A : Nat → Prop} {p : Word}
    (hn : N ≤ n) (hA : ∀ y, A y → y < N) (h1 : ¬ A x) (h2 : x < N) (h3 : (lowL L b n).2 ≤ idx) (h4 : h ≠ x) (h5 : h ≠ idx)
    (h6 : h ∉ (lowL L b n).1.writes) (h7 : idx ∉ (lowL L b n).1.writes) (h8 : b.Fine N (fun y => A y ∨ y = x))
    {ρ' ρ1' : Env} {S S1 : Store σ} {o : Out}
    (hr : RunS codeOpts P (elemLoop x t (.var h th) idx (lowL L b n).1) ρ' S o ρ1' S1) :
    ∀ (ρ : Env) (i : Nat), Agree A ρ ρ' → ρ' h = some (.ptr p) → ρ' idx = some (.int (BitVec.ofNat 63 i)) → i < 2 ^ 62 →
      ∃ ρ1, SBig codeOpts P (.elems ρ S x arr p i b o ρ1 S1) ∧ Agree A ρ1 ρ1' := by
  have hnw := (lowL_writes L b n).1
  have hAx : ∀ y, (A y ∨ y = x) → y < N := fun y hy => hy.elim (hA y) (fun e => e ▸ h2)
  simp only [elemLoop, RunS] at hr
  induction hr with
  | done hc =>
    intro ρ i ha hh hi hb
    obtain ⟨k, q, len, hk, hq, hl, hd, rfl⟩ := length_inv hc
    rw [hi] at hk; cases hk
    rw [hh] at hq; cases hq
    rw [ofNat_toInt63 hb] at hd
    exact ⟨ρ, .elemsEnd nofun hl (of_decide_eq_false hd.symm), ha⟩
  | again hc hr _ ih =>
    intro ρ i ha hh hi hlt
    obtain ⟨k, q, len, hk, hq, hl, hd, rfl⟩ := length_inv hc
    rw [hi] at hk; cases hk
    rw [hh] at hq; cases hq
    rw [ofNat_toInt63 hlt] at hd
    have hd' := of_decide_eq_true hd.symm
    have hlen : len.toInt < 2 ^ 62 := BitVec.toInt_lt
    obtain ⟨v, hv, -⟩ | ⟨ρa, Sa, ra, rb⟩ := hr
    · cases hv
    · obtain ⟨k, q, len', v, hk, hq, -, -, -, hv, -, rfl, rfl⟩ := elem_inv ra
      rw [hi] at hk; cases hk
      rw [hh] at hq; cases hq
      rw [ofNat_toInt63 hlt] at hv
      rcases runL_app _ _ rb with ⟨r, hr, -⟩ | ⟨ρm, Sm, hr1, hr2⟩
      · cases hr
      · obtain ⟨v2, hx2, -, rfl, rfl⟩ := inc_inv (one_inv hr2)
        have hfr := runL_frame _ hr1
        rw [hfr idx h7, upd_ne (by omega), hi] at hx2
        cases hx2
        obtain ⟨ρ3, s3, g3⟩ := hb n _ _ _ _ _ _ _ hn hAx (ha.upd x v) h8 hr1
        obtain ⟨ρ4, s4, g4⟩ := ih ρ3 (i + 1) ((g3.mono (fun y hy => .inl hy)).updr (fun hc => by have := hA _ hc; omega) _)
          (by rw [upd_ne h5, hfr h h6, upd_ne h4, hh]) (by rw [upd_eq, ofNat_succ63]) (by omega)
        exact ⟨ρ4, .elemsCons nofun hl hd' hv s3 s4, g4⟩
  | ret hc hr =>
    intro ρ i ha hh hi hlt
    obtain ⟨k, q, len, hk, hq, hl, hd, rfl⟩ := length_inv hc
    rw [hi] at hk; cases hk
    rw [hh] at hq; cases hq
    rw [ofNat_toInt63 hlt] at hd
    have hd' := of_decide_eq_true hd.symm
    obtain ⟨v, hv, ra⟩ | ⟨ρa, Sa, ra, rb⟩ := hr
    · cases ra.1
    · obtain ⟨k, q, len', v, hk, hq, -, -, -, hv, -, rfl, rfl⟩ := elem_inv ra
      rw [hi] at hk; cases hk
      rw [hh] at hq; cases hq
      rw [ofNat_toInt63 hlt] at hv
      rcases runL_app _ _ rb with ⟨r, hr, hr1⟩ | ⟨ρm, Sm, hr1, hr2⟩
      · cases hr
        obtain ⟨ρ3, s3, g3⟩ := hb n _ _ _ _ _ _ _ hn hAx (ha.upd x v) h8 hr1
        exact ⟨ρ3, .elemsRet nofun hl hd' hv s3, g3.mono (fun y hy => .inl hy)⟩
      · obtain ⟨v2, -, ho, -⟩ := inc_inv (one_inv hr2)
        cases ho

mutual
theorem back_s (hL : LibOk L P) : ∀ (s : SS) (n : Nat) (A : Nat → Prop) (ρ ρ' : Env) (S : Store σ) (o : Out) (ρ1' : Env) (S1 : Store σ),
    N ≤ n → (∀ y, A y → y < N) → Agree A ρ ρ' → s.Fine N A → RunS codeOpts P (lowS L s n).1 ρ' S o ρ1' S1 →
    ∃ ρ1, SBig codeOpts P (.stmt ρ S s o ρ1 S1) ∧ Agree A ρ1 ρ1'
  | .ret none, n, A, ρ, ρ', S, o, ρ1', S1, hn, hA, ha, hf, h => by
    rw [lowS] at h
    obtain ⟨rfl, rfl, rfl⟩ := h
    exact ⟨ρ, .retN, ha⟩
  | .ret (some e), n, A, ρ, ρ', S, o, ρ1', S1, hn, hA, ha, hf, h => by
    rw [lowS] at h
    obtain ⟨v, h, rfl, rfl⟩ := h
    exact ⟨ρ, .retE (expr_like ha hf h), ha⟩
  | .expr e, n, A, ρ, ρ', S, o, ρ1', S1, hn, hA, ha, hf, h => by
    rw [lowS] at h
    obtain ⟨v, h, rfl, rfl⟩ := h
    exact ⟨ρ, .expr (expr_like ha hf h), ha⟩
  | .asg d l r, n, A, ρ, ρ', S, o, ρ1', S1, hn, hA, ha, hf, h => by
    rw [lowS] at h
    obtain ⟨rfl, v, S2, he, ⟨x, hl, rfl⟩ | ⟨a, S3, hl, hw, rfl⟩⟩ := h
    · exact ⟨_, .asgVar (expr_like ha hf.2 he) (loc_like ha hf.1 hl), (ha.upd x v).mono (fun y hy => .inl hy)⟩
    · exact ⟨ρ, .asgMem (expr_like ha hf.2 he) (loc_like ha hf.1 hl) hw, ha⟩
  | .ifs c, n, A, ρ, ρ', S, o, ρ1', S1, hn, hA, ha, hf, h => by
    rw [lowS] at h
    obtain ⟨ρ1, s1, g1⟩ := back_c hL c n A ρ ρ' S o ρ1' S1 hn hA ha hf h
    exact ⟨ρ1, .ifs s1, g1⟩
  | .loop c b, n, A, ρ, ρ', S, o, ρ1', S1, hn, hA, ha, hf, h => by
    rw [lowS] at h
    simp only [RunS] at h
    have hb := back_l hL b
    induction h generalizing ρ with
    | done hc => exact ⟨ρ, .loopF (expr_like ha hf.1 hc), ha⟩
    | again hc hr _ ih =>
      obtain ⟨ρ3, s3, g3⟩ := hb n A ρ _ _ _ _ _ hn hA ha hf.2 hr
      obtain ⟨ρ4, s4, g4⟩ := ih ρ3 g3
      exact ⟨ρ4, .loopT (expr_like ha hf.1 hc) s3 s4, g4⟩
    | ret hc hr =>
      obtain ⟨ρ3, s3, g3⟩ := hb n A ρ _ _ _ _ _ hn hA ha hf.2 hr
      exact ⟨ρ3, .loopR (expr_like ha hf.1 hc) s3, g3⟩
  | .forR x lo hi zero b, n, A, ρ, ρ', S, o, ρ1', S1, hn, hA, ha, hf, h => by
    simp only [SS.Fine] at hf
    obtain ⟨f1, f2, f3, f4, f5, f6, f7, f8⟩ := hf
    have hb := back_l hL b
    rw [lowS] at h
    obtain ⟨r, -, hr, -⟩ | ⟨ρa, Sa, ra, rb⟩ := h
    · cases hr
    · have rb : RunS codeOpts P (rangeLoop zero x hi (lowL L b n).1) ρa Sa o ρ1' S1 := one_inv rb
      obtain ⟨-, v, S2, he, ⟨y, hl, rfl⟩ | ⟨a, S3, hl, -⟩⟩ := ra
      · cases hl
        have hc : ∃ bb Sc, condRun codeOpts P (rangeCond zero x hi) (ρ'.upd x v) Sa bb Sc := by
          simp only [rangeLoop, RunS] at rb
          cases rb with
          | done hc => exact ⟨_, _, hc⟩
          | again hc => exact ⟨_, _, hc⟩
          | ret hc => exact ⟨_, _, hc⟩
        obtain ⟨bb, Sc, hc⟩ := hc
        obtain ⟨v', e, hv', hend, -, -⟩ := cond_inv f6 hc
        rw [upd_eq] at hv'
        cases hv'
        have hxe : x ∉ hi.vars := fun hc => f3 (f2 x hc)
        have hend0 : EndVal ρ e hi := endVal_frame hend (fun y hy => by
          have hne : y ≠ x := fun e => hxe (e ▸ hy)
          rw [upd_ne hne, ha y (f2 y hy)])
        obtain ⟨vs, ρ1, t1, s1, g1⟩ := back_range hb hn hA f3 f4 f5 f2 f6 f7 f8 rb ρ e v' (ha.updr f3 _) hend upd_eq
        cases zero
        · exact ⟨ρ1, .forR (expr_like ha f1 he) (endVal_srun hend0) nofun t1 s1, g1⟩
        · have he : SBig codeOpts P (.expr ρ' S (.bin .add tInt lo (.int (-1))) (some (.int v')) Sa) := he
          cases he with
          | bin l1 l2 l3 =>
            cases l2
            rename_i a
            cases a <;> simp only [BinOp.eval, reduceCtorEq, Option.some.injEq, Val.int.injEq] at l3
            subst l3
            exact ⟨ρ1, .forR (expr_like ha f1 l1) (endVal_srun hend0) nofun t1 s1, g1⟩
      · cases hl
  | .forA x t arr b, n, A, ρ, ρ', S, o, ρ1', S1, hn, hA, ha, hf, h => by
    simp only [SS.Fine] at hf
    obtain ⟨f1, f2, f3, f4, f5⟩ := hf
    have hb := back_l hL b
    have hw := lowL_writes L b n
    have hbw := b.mild_writes (fun z hz => hz.elim (hA z) (fun e => e ▸ f3)) f5.mild
    have hfresh : ∀ y, (lowL L b n).2 ≤ y → y ∉ (lowL L b n).1.writes := by
      intro y hy hc
      rcases hw.2 y hc with hc | hc
      · have := hbw y hc
        omega
      · omega
    cases arr <;> simp only [StableArr] at f4
    case var hh th =>
      have hAh : A hh := f1 hh (by simp [Expr.vars])
      have hhN := hA hh hAh
      rw [lowS] at h
      simp only [loopArray] at h
      obtain ⟨r, -, hr, -⟩ | ⟨ρa, Sa, ra, rb⟩ := h
      · cases hr
      · have rb : RunS codeOpts P (elemLoop x t (.var hh th) (lowL L b n).2 (lowL L b n).1) ρa Sa o ρ1' S1 := one_inv rb
        obtain ⟨-, v, S2, he, ⟨y, hl, rfl⟩ | ⟨a, S3, hl, -⟩⟩ := ra
        · cases hl
          cases he
          have hc : ∃ bb Sc, condRun codeOpts P (.bin .lt tBool (.var (lowL L b n).2 tInt) (.dot tInt (.var hh th) 0))
              (ρ'.upd (lowL L b n).2 (.int (BitVec.ofInt 63 0))) S bb Sc := by
            simp only [elemLoop, RunS] at rb
            cases rb with
            | done hc => exact ⟨_, _, hc⟩
            | again hc => exact ⟨_, _, hc⟩
            | ret hc => exact ⟨_, _, hc⟩
          obtain ⟨bb, Sc, hc⟩ := hc
          obtain ⟨k, p, len, -, hp, -⟩ := length_inv hc
          obtain ⟨ρ1, s1, g1⟩ := back_elems hb (A := A) hn hA f2 f3 (Nat.le_refl _) (fun e => f2 (e ▸ hAh)) (by omega)
            (fun hc => by
              rcases hw.2 hh hc with hc | hc
              · exact f4 hc
              · omega) (hfresh _ (Nat.le_refl _)) f5 rb ρ 0
            (ha.updr (fun hc => by have := hA _ hc; omega) _) hp (by rw [upd_eq]; rfl) (by decide)
          refine ⟨ρ1, .forA (.var ?_) nofun s1, g1⟩
          rw [upd_ne (by omega)] at hp
          rw [ha hh hAh, hp]
        · cases hl
    case arrLit tl el =>
      rw [lowS] at h
      simp only [loopArray] at h
      obtain ⟨r, -, hr, -⟩ | ⟨ρa, Sa, ra, rb⟩ := h
      · cases hr
      · obtain ⟨r, -, hr, -⟩ | ⟨ρb, Sb, rb, rc⟩ := rb
        · cases hr
        · have rc : RunS codeOpts P (elemLoop x t (.var (lowL L b n).2 L.intArr) ((lowL L b n).2 + 1) (lowL L b n).1) ρb Sb o ρ1' S1 :=
            one_inv rc
          obtain ⟨-, v, S2, he, ⟨y, hl, rfl⟩ | ⟨a, S3, hl, -⟩⟩ := ra
          · cases hl
            obtain ⟨-, v2, S2, he2, ⟨y, hl, rfl⟩ | ⟨a, S3, hl, -⟩⟩ := rb
            · cases hl
              cases he2
              have hc : ∃ bb Sc, condRun codeOpts P (.bin .lt tBool (.var ((lowL L b n).2 + 1) tInt) (.dot tInt (.var (lowL L b n).2 L.intArr) 0))
                  ((ρ'.upd (lowL L b n).2 v).upd ((lowL L b n).2 + 1) (.int (BitVec.ofInt 63 0))) Sa bb Sc := by
                simp only [elemLoop, RunS] at rc
                cases rc with
                | done hc => exact ⟨_, _, hc⟩
                | again hc => exact ⟨_, _, hc⟩
                | ret hc => exact ⟨_, _, hc⟩
              obtain ⟨bb, Sc, hc⟩ := hc
              obtain ⟨k, p, len, -, hp, -⟩ := length_inv hc
              obtain ⟨ρ1, s1, g1⟩ := back_elems hb (A := A) hn hA f2 f3 (by omega) (by omega) (by omega)
                (hfresh _ (Nat.le_refl _)) (hfresh _ (by omega)) f5 rc ρ 0
                ((ha.updr (fun hc => by have := hA _ hc; omega) _).updr (fun hc => by have := hA _ hc; omega) _)
                hp (by rw [upd_eq]; rfl) (by decide)
              rw [upd_ne (by omega), upd_eq] at hp
              cases hp
              exact ⟨ρ1, .forA (.arrLit (expr_like ha (fun y hy => f1 y (by simpa [Expr.vars] using hy)) he)) nofun s1, g1⟩
            · cases hl
          · cases hl
  | .match_ e .nil, n, A, ρ, ρ', S, o, ρ1', S1, hn, hA, ha, hf, h => by
    rw [lowS_match_nil] at h
    have h : RunS codeOpts P (.asg true (.var n e.ty) e) ρ' S o ρ1' S1 := one_inv h
    obtain ⟨rfl, v, S2, he, ⟨y, hl, rfl⟩ | ⟨a, S3, hl, -⟩⟩ := h
    · cases hl
      exact ⟨ρ, .matchNil rfl (expr_like ha hf.1 he), ha.updr (fun hc => by have := hA _ hc; omega) _⟩
    · cases hl
  | .match_ e (.cons tag vs b nx), n, A, ρ, ρ', S, o, ρ1', S1, hn, hA, ha, hf, h => by
    rw [lowS_match_cons] at h
    obtain ⟨r, -, hr, -⟩ | ⟨ρa, Sa, ra, rb⟩ := h
    · cases hr
    · have rb : RunC codeOpts P (lowM L (.cons tag vs b nx) n e.ty (n + 1)).1 ρa Sa o ρ1' S1 := one_inv rb
      obtain ⟨-, v, S2, he, ⟨y, hl, rfl⟩ | ⟨a, S3, hl, -⟩⟩ := ra
      · cases hl
        have hc : ∃ k, Sa.heap v.enc = some (.int k) := by
          rw [lowM] at rb
          obtain ⟨S4, hc, -⟩ | ⟨S4, hc, -⟩ := rb
          · obtain ⟨v', k, hv', hk, -⟩ := tag_inv hL hc
            rw [upd_eq] at hv'; cases hv'
            exact ⟨k, hk⟩
          · obtain ⟨v', k, hv', hk, -⟩ := tag_inv hL hc
            rw [upd_eq] at hv'; cases hv'
            exact ⟨k, hk⟩
        obtain ⟨k, hk⟩ := hc
        have ha' : Agree A ρ (ρ'.upd n v) := ha.updr (fun hc => by have := hA _ hc; omega) _
        rcases back_m hL (.cons tag vs b nx) n e.ty (n + 1) A ρ (ρ'.upd n v) Sa o ρ1' S1 v k (by omega) hn hA ha' hf.2 upd_eq hk rb with
          ⟨vars, bd, vals, ρ1, m1, m2, m3, m4, m5⟩ | ⟨m1, rfl, rfl, rfl⟩
        · exact ⟨ρ1, .match_ (expr_like ha hf.1 he) hk m1 m2 m3 m4, m5⟩
        · exact ⟨ρ, .matchPass rfl (expr_like ha hf.1 he) hk m1, ha'⟩
      · cases hl
theorem back_m (hL : LibOk L P) : ∀ (cs : SCs) (tmp : Nat) (tt : TyR) (m : Nat) (A : Nat → Prop) (ρ ρ' : Env) (S : Store σ) (o : Out)
    (ρ1' : Env) (S1 : Store σ) (v : Val) (k : BitVec 63),
    N ≤ m → N ≤ tmp → (∀ y, A y → y < N) → Agree A ρ ρ' → cs.Fine N A → ρ' tmp = some v → S.heap v.enc = some (.int k) →
    RunC codeOpts P (lowM L cs tmp tt m).1 ρ' S o ρ1' S1 →
    (∃ vars b vals ρ1, cs.find k = some (vars, b) ∧ vals.length = vars.length ∧ fields S v.enc 1 vals ∧
      SBig codeOpts P (.stmts (bindVars vars vals ρ) S b o ρ1 S1) ∧ Agree A ρ1 ρ1') ∨
    (cs.find k = none ∧ o = .norm ∧ ρ1' = ρ' ∧ S1 = S)
  | .nil, tmp, tt, m, A, ρ, ρ', S, o, ρ1', S1, v, k, hm, ht, hA, ha, hf, hv, hk, h => by
    rw [lowM] at h
    exact .inr ⟨rfl, h⟩
  | .cons tag vs b nx, tmp, tt, m, A, ρ, ρ', S, o, ρ1', S1, v, k, hm, ht, hA, ha, hf, hv, hk, h => by
    rw [lowM] at h
    simp only [SCs.Fine] at hf
    obtain ⟨S4, hc, h⟩ | ⟨S4, hc, h⟩ := h
    · obtain ⟨v', k', hv', hk', hd, rfl⟩ := tag_inv hL hc
      rw [hv] at hv'; cases hv'
      rw [hk] at hk'; cases hk'
      have hd := of_decide_eq_true hd.symm
      have hnt : tmp ∉ vs.map (·.1) := by
        intro hc
        obtain ⟨y, hy, he⟩ := List.mem_map.mp hc
        have := hf.1 y hy
        omega
      left
      simp only [SCs.find, hd, if_true]
      rcases runL_app _ _ h with ⟨r, rfl, h1⟩ | ⟨ρm, Sm, h1, h2⟩
      · have := (caseVars_inv hL vs 0 hv hnt h1).1
        cases this
      · obtain ⟨-, rfl, vals, hl, hfs, rfl⟩ := caseVars_inv hL vs 0 hv hnt h1
        obtain ⟨ρ1, s1, g1⟩ := back_l hL b m (fun y => A y ∨ y ∈ vs.map (·.1)) _ _ _ _ _ _ hm (by
            intro y hy
            rcases hy with hy | hy
            · exact hA y hy
            · obtain ⟨z, hz, he⟩ := List.mem_map.mp hy
              rw [← he]
              exact hf.1 z hz) (agree_bind vs vals _ _ _ ha hl) hf.2.1 h2
        exact ⟨vs, b, vals, ρ1, rfl, hl, hfs, s1, g1.mono (fun y hy => .inl hy)⟩
    · obtain ⟨v', k', hv', hk', hd, rfl⟩ := tag_inv hL hc
      rw [hv] at hv'; cases hv'
      rw [hk] at hk'; cases hk'
      have hd := of_decide_eq_false hd.symm
      have := back_m hL nx tmp tt _ A ρ ρ' _ o ρ1' S1 v k (Nat.le_trans hm (lowL_writes L b m).1) ht hA ha hf.2.2 hv hk h
      simpa only [SCs.find, hd, if_false] using this
theorem back_c (hL : LibOk L P) : ∀ (s : SCh) (n : Nat) (A : Nat → Prop) (ρ ρ' : Env) (S : Store σ) (o : Out) (ρ1' : Env) (S1 : Store σ),
    N ≤ n → (∀ y, A y → y < N) → Agree A ρ ρ' → s.Fine N A → RunC codeOpts P (lowC L s n).1 ρ' S o ρ1' S1 →
    ∃ ρ1, SBig codeOpts P (.chain ρ S s o ρ1 S1) ∧ Agree A ρ1 ρ1'
  | .done, n, A, ρ, ρ', S, o, ρ1', S1, hn, hA, ha, hf, h => by
    rw [lowC] at h
    obtain ⟨rfl, rfl, rfl⟩ := h
    exact ⟨ρ, .chDone, ha⟩
  | .els b, n, A, ρ, ρ', S, o, ρ1', S1, hn, hA, ha, hf, h => by
    rw [lowC] at h
    obtain ⟨ρ1, s1, g1⟩ := back_l hL b n A ρ ρ' S o ρ1' S1 hn hA ha hf h
    exact ⟨ρ1, .chElse s1, g1⟩
  | .cond c b nx, n, A, ρ, ρ', S, o, ρ1', S1, hn, hA, ha, hf, h => by
    rw [lowC] at h
    obtain ⟨S4, hc, h⟩ | ⟨S4, hc, h⟩ := h
    · obtain ⟨ρ1, s1, g1⟩ := back_l hL b n A ρ ρ' S4 o ρ1' S1 hn hA ha hf.2.1 h
      exact ⟨ρ1, .chT (expr_like ha hf.1 hc) s1, g1⟩
    · obtain ⟨ρ1, s1, g1⟩ := back_c hL nx _ A ρ ρ' S4 o ρ1' S1 (Nat.le_trans hn (lowL_writes L b n).1) hA ha hf.2.2 h
      exact ⟨ρ1, .chF (expr_like ha hf.1 hc) s1, g1⟩
theorem back_l (hL : LibOk L P) : ∀ (s : SSs) (n : Nat) (A : Nat → Prop) (ρ ρ' : Env) (S : Store σ) (o : Out) (ρ1' : Env) (S1 : Store σ),
    N ≤ n → (∀ y, A y → y < N) → Agree A ρ ρ' → s.Fine N A → RunL codeOpts P (lowL L s n).1 ρ' S o ρ1' S1 →
    ∃ ρ1, SBig codeOpts P (.stmts ρ S s o ρ1 S1) ∧ Agree A ρ1 ρ1'
  | .nil, n, A, ρ, ρ', S, o, ρ1', S1, hn, hA, ha, hf, h => by
    rw [lowL] at h
    obtain ⟨rfl, rfl, rfl⟩ := h
    exact ⟨ρ, .nil, ha⟩
  | .cons s ss, n, A, ρ, ρ', S, o, ρ1', S1, hn, hA, ha, hf, h => by
    rw [lowL] at h
    obtain ⟨v, rfl, h⟩ | ⟨ρm, Sm, h1, h2⟩ := h
    · obtain ⟨ρ1, s1, g1⟩ := back_s hL s n A ρ ρ' S _ ρ1' S1 hn hA ha hf.1 h
      exact ⟨ρ1, .consR s1, g1⟩
    · obtain ⟨ρ1, s1, g1⟩ := back_s hL s n A ρ ρ' S _ ρm Sm hn hA ha hf.1 h1
      obtain ⟨ρ2, s2, g2⟩ := back_l hL ss _ A ρ1 ρm Sm _ ρ1' S1 (Nat.le_trans hn (lowS_writes L s n).1) hA g1 hf.2 h2
      exact ⟨ρ2, .cons s1 s2, g2⟩
end

/-! ### From runs of the lowered program -/

/-- What is shown of a run of the lowered program. -/
def Bwd (L : Lib) (N : Nat) (P : SProg σ) : Jd σ → Prop
  | .expr ρ S e v S' => SBig codeOpts P (.expr ρ S e v S')
  | .args ρ S es vs S' => SBig codeOpts P (.args ρ S es vs S')
  | .loc ρ S e l S' => SBig codeOpts P (.loc ρ S e l S')
  | .stmt ρ S s o ρ1 S1 => RunS codeOpts P s ρ S o ρ1 S1
  | .stmts ρ S s o ρ1 S1 => RunL codeOpts P s ρ S o ρ1 S1
  | .chain ρ S s o ρ1 S1 => RunC codeOpts P s ρ S o ρ1 S1
  | .fn fd' vs S v S' => ∀ fd ∈ P.fns, fd' = lowF L N fd → SBig codeOpts P (.fn fd vs S v S')

theorem lowF_block {fd : SFn} {ss : Stmts} (h : (lowF L N fd).body = .block ss) : ∃ b, fd.body = .block b ∧ ss = (lowL L b N).1 := by
  simp only [lowF] at h
  cases hb : fd.body <;> simp only [hb, lowB, reduceCtorEq, Body.block.injEq] at h
  exact ⟨_, rfl, h.symm⟩

/-- **The lowered program does only what the program does.** -/
theorem backward (hL : LibOk L P) (hF : ∀ fd ∈ P.fns, fd.Fine N) {d : Nat} {j : Jd σ} (h : Big (lowP L N P) d j) : Bwd L N P j := by
  have hmem : ∀ {fd' : FnDef}, fd' ∈ (lowP L N P).fns → ∃ fd ∈ P.fns, lowF L N fd = fd' := fun h => List.mem_map.mp h
  induction h with
  | int => exact .int
  | bool => exact .bool
  | str => exact .str
  | typ => exact .typ
  | fnRef => exact .fnRef
  | var h => exact .var h
  | bin _ _ h i1 i2 => exact .bin i1 i2 h
  | un _ h i => exact .un i h
  | ternT _ _ i1 i2 => exact .ternT i1 i2
  | ternF _ _ i1 i2 => exact .ternF i1 i2
  | arrLit _ i => exact .arrLit i
  | callFn h1 _ h3 h4 h5 _ _ i1 i2 =>
    obtain ⟨fd, hm, rfl⟩ := hmem h3
    exact .callFn h1 i1 hm h4 h5 (i2 fd hm rfl)
  | callRt h1 _ h3 _ i1 => exact .callRt h1 i1 h3
  | callExt h1 _ h3 h4 _ i1 => exact .callExt h1 i1 h3 h4
  | callVar h1 h2 _ h4 h5 _ _ i1 i2 =>
    obtain ⟨fd, hm, rfl⟩ := hmem h4
    exact .callVar (fd := fd) h1 h2 i1 hm h5 (i2 fd hm rfl)
  | callExpr h1 _ _ h4 h5 _ _ i0 i1 i2 =>
    obtain ⟨fd, hm, rfl⟩ := hmem h4
    exact .callExpr (fd := fd) h1 i0 i1 hm h5 (i2 fd hm rfl)
  | dot _ h i => exact .dot i h
  | index _ _ a b c e i1 i2 => exact .index i1 i2 a b c e
  | argsNil => exact .argsNil
  | argsCons _ _ i1 i2 => exact .argsCons i1 i2
  | locVar => exact .locVar
  | locDot _ i => exact .locDot i
  | locIndex _ _ a b c i1 i2 => exact .locIndex i1 i2 a b c
  | retE _ i => exact ⟨_, i, rfl, rfl⟩
  | retN => exact ⟨rfl, rfl, rfl⟩
  | ifs _ i => exact i
  | asgVar _ _ i1 i2 => exact ⟨rfl, _, _, i1, .inl ⟨_, i2, rfl⟩⟩
  | asgMem _ _ h i1 i2 => exact ⟨rfl, _, _, i1, .inr ⟨_, _, i2, h, rfl⟩⟩
  | loopF _ i => exact .done i
  | loopT _ _ _ i1 i2 i3 => exact .again i1 i2 i3
  | loopR _ _ i1 i2 => exact .ret i1 i2
  | block _ i => exact i
  | expr _ i => exact ⟨_, i, rfl, rfl⟩
  | chDone => exact ⟨rfl, rfl, rfl⟩
  | chElse _ i => exact i
  | chT _ _ i1 i2 => exact .inl ⟨_, i1, i2⟩
  | chF _ _ i1 i2 => exact .inr ⟨_, i1, i2⟩
  | nil => exact ⟨rfl, rfl, rfl⟩
  | cons _ _ i1 i2 => exact .inr ⟨_, _, i1, i2⟩
  | consR _ i => exact .inl ⟨_, rfl, i⟩
  | fnRet h1 h2 _ i =>
    intro fd hm he
    subst he
    obtain ⟨b, hb, rfl⟩ := lowF_block h1
    have hf := hF _ hm
    simp only [SFn.Fine, hb] at hf
    obtain ⟨A, hA, hf⟩ := hf
    obtain ⟨ρ1, s1, -⟩ := back_l hL b N A _ _ _ _ _ _ (Nat.le_refl _) hA (fun _ _ => rfl) hf i
    exact .fnRet hb h2 s1
  | fnEnd h1 h2 h3 _ i =>
    intro fd hm he
    subst he
    obtain ⟨b, hb, rfl⟩ := lowF_block h1
    have hf := hF _ hm
    simp only [SFn.Fine, hb] at hf
    obtain ⟨A, hA, hf⟩ := hf
    obtain ⟨ρ1, s1, -⟩ := back_l hL b N A _ _ _ _ _ _ (Nat.le_refl _) hA (fun _ _ => rfl) hf i
    exact .fnEnd hb h2 h3 s1
  | fnExpr h1 h2 _ i =>
    intro fd hm he
    subst he
    simp only [lowF] at h1
    cases hb : fd.body <;> simp only [hb, lowB, reduceCtorEq, Body.expr.injEq] at h1
    subst h1
    exact .fnExpr hb h2 i
  | fnCons h1 h2 h3 _ h4 =>
    intro fd hm he
    subst he
    simp only [lowF] at h1
    cases hb : fd.body <;> simp only [hb, lowB, reduceCtorEq, Body.cons.injEq] at h1
    obtain ⟨rfl, rfl, rfl⟩ := h1
    exact .fnCons hb h2 h3 h4
  | fnDyn h1 h2 _ _ h6 h7 h8 _ _ i1 i2 i =>
    intro fd hm he
    subst he
    obtain ⟨fd', hm', rfl⟩ := hmem h6
    exact .fnDyn (lowF_dyn h1) (h2.more (fns := P.base.fns)) i1 i2 hm' h7 h8 (i fd' hm' rfl)

end Clara.Sema
