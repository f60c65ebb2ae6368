import Verif.Sema.Forward
set_option linter.unusedVariables false
/-
Lowering keeps the meaning: the lowered program does only what the program does.

A run of lowered statements is first unfolded into a relation that follows the statements (`RunS`)
in which the expressions have their meaning in the source program; a function call is then one step.
Then the relation is followed along the source statements.
-/
namespace Clara.Sema
open Clara.Gen

variable {σ : Type} {L : Lib} {P : SProg σ} {N : Nat} {O : Opts}

/-- Expressions depend on their variables only. -/
def SJd.Like : SJd σ → (SJd σ → Prop) → Prop
  | .expr ρ S e v S', R => ∀ ρ', (∀ y ∈ e.vars, ρ y = ρ' y) → R (.expr ρ' S e v S')
  | .args ρ S es vs S', R => ∀ ρ', (∀ y ∈ varsL es, ρ y = ρ' y) → R (.args ρ' S es vs S')
  | .loc ρ S e l S', R => ∀ ρ', (∀ y ∈ e.vars, ρ y = ρ' y) → R (.loc ρ' S e l S')
  | _, _ => True

theorem sbig_like {j : SJd σ} (h : SBig O P j) : j.Like (SBig O P) := by
  induction h with
  | int => exact fun ρ' _ => .int
  | bool => exact fun ρ' _ => .bool
  | str => exact fun ρ' _ => .str
  | typ => exact fun ρ' _ => .typ
  | fnRef => exact fun ρ' _ => .fnRef
  | @var ρ S x t v h => exact fun ρ' ha => .var (by rw [← ha x (by simp [Expr.vars])]; exact h)
  | bin _ _ h3 i1 i2 =>
    exact fun ρ' ha => .bin (i1 ρ' (fun y hy => ha y (by simp [Expr.vars, hy]))) (i2 ρ' (fun y hy => ha y (by simp [Expr.vars, hy]))) h3
  | un _ h i => exact fun ρ' ha => .un (i ρ' ha) h
  | ternT _ _ i1 i2 =>
    exact fun ρ' ha => .ternT (i1 ρ' (fun y hy => ha y (by simp [Expr.vars, hy]))) (i2 ρ' (fun y hy => ha y (by simp [Expr.vars, hy])))
  | ternF _ _ i1 i2 =>
    exact fun ρ' ha => .ternF (i1 ρ' (fun y hy => ha y (by simp [Expr.vars, hy]))) (i2 ρ' (fun y hy => ha y (by simp [Expr.vars, hy])))
  | arrLit _ i => exact fun ρ' ha => .arrLit (i ρ' ha)
  | callFn h1 _ h3 h4 h5 h6 i1 _ => exact fun ρ' ha => .callFn h1 (i1 ρ' ha) h3 h4 h5 h6
  | callRt h1 _ h3 i1 => exact fun ρ' ha => .callRt h1 (i1 ρ' ha) h3
  | callExt h1 _ h3 h4 i1 => exact fun ρ' ha => .callExt h1 (i1 ρ' ha) h3 h4
  | @callVar ρ S x fi args vs S1 fd v S2 h1 h2 _ h4 h5 h6 i1 _ =>
    exact fun ρ' ha => .callVar h1 (by rw [← ha x (by simp [Expr.vars])]; exact h2)
      (i1 ρ' (fun y hy => ha y (by simp [Expr.vars, hy]))) h4 h5 h6
  | callExpr h1 _ _ h4 h5 h6 i0 i1 _ =>
    exact fun ρ' ha => .callExpr h1 (i0 ρ' (fun y hy => ha y (by simp [Expr.vars, hy])))
      (i1 ρ' (fun y hy => ha y (by simp [Expr.vars, hy]))) h4 h5 h6
  | dot _ h i => exact fun ρ' ha => .dot (i ρ' ha) h
  | index _ _ a b c e i1 i2 =>
    exact fun ρ' ha => .index (i1 ρ' (fun y hy => ha y (by simp [Expr.vars, hy]))) (i2 ρ' (fun y hy => ha y (by simp [Expr.vars, hy]))) a b c e
  | argsNil => exact fun ρ' _ => .argsNil
  | argsCons _ _ i1 i2 =>
    exact fun ρ' ha => .argsCons (i1 ρ' (fun y hy => ha y (by simp [varsL, hy]))) (i2 ρ' (fun y hy => ha y (by simp [varsL, hy])))
  | locVar => exact fun ρ' _ => .locVar
  | locDot _ i => exact fun ρ' ha => .locDot (i ρ' ha)
  | locIndex _ _ a b c i1 i2 =>
    exact fun ρ' ha => .locIndex (i1 ρ' (fun y hy => ha y (by simp [Expr.vars, hy]))) (i2 ρ' (fun y hy => ha y (by simp [Expr.vars, hy]))) a b c
  | _ => trivial

theorem expr_like {A : Nat → Prop} {ρ ρ' : Env} {S S' : Store σ} {e : Expr} {v : Option Val} (ha : Agree A ρ ρ') (hs : Scoped A e)
    (h : SBig O P (.expr ρ' S e v S')) : SBig O P (.expr ρ S e v S') :=
  sbig_like h ρ (fun y hy => (ha y (hs y hy)).symm)

theorem loc_like {A : Nat → Prop} {ρ ρ' : Env} {S S' : Store σ} {e : Expr} {l : Loc} (ha : Agree A ρ ρ') (hs : Scoped A e)
    (h : SBig O P (.loc ρ' S e l S')) : SBig O P (.loc ρ S e l S') :=
  sbig_like h ρ (fun y hy => (ha y (hs y hy)).symm)

/-! ### Unfolded runs -/

/-- A loop, given its condition and its body. -/
inductive LoopRun (C : Env → Store σ → Bool → Store σ → Prop) (B : Env → Store σ → Out → Env → Store σ → Prop) :
    Env → Store σ → Out → Env → Store σ → Prop
  | done {ρ S S1} : C ρ S false S1 → LoopRun C B ρ S .norm ρ S1
  | again {ρ S S1 ρ1 S2 o ρ2 S3} : C ρ S true S1 → B ρ S1 .norm ρ1 S2 → LoopRun C B ρ1 S2 o ρ2 S3 → LoopRun C B ρ S o ρ2 S3
  | ret {ρ S S1 v ρ1 S2} : C ρ S true S1 → B ρ S1 (.ret v) ρ1 S2 → LoopRun C B ρ S (.ret v) ρ1 S2

/-- An expression as a condition. -/
def condRun (O : Opts) (P : SProg σ) (c : Expr) (ρ : Env) (S : Store σ) (b : Bool) (S' : Store σ) : Prop :=
  SBig O P (.expr ρ S c (some (.bool b)) S')

/-- An assignment. -/
def asgRun (O : Opts) (P : SProg σ) (l r : Expr) (ρ : Env) (S : Store σ) (ρ' : Env) (S' : Store σ) : Prop :=
  ∃ v S1, SBig O P (.expr ρ S r (some v) S1) ∧
    ((∃ x, SBig O P (.loc ρ S1 l (.var x) S') ∧ ρ' = ρ.upd x v) ∨
     (∃ a S2, SBig O P (.loc ρ S1 l (.mem a) S2) ∧ S2.write a v = some S' ∧ ρ' = ρ))

mutual
def RunS (O : Opts) (P : SProg σ) : Stmt → Env → Store σ → Out → Env → Store σ → Prop
  | .ret (some e), ρ, S, o, ρ', S' => ∃ v, SBig O P (.expr ρ S e v S') ∧ o = .ret v ∧ ρ' = ρ
  | .ret none, ρ, S, o, ρ', S' => o = .ret none ∧ ρ' = ρ ∧ S' = S
  | .expr e, ρ, S, o, ρ', S' => ∃ v, SBig O P (.expr ρ S e v S') ∧ o = .norm ∧ ρ' = ρ
  | .asg _ l r, ρ, S, o, ρ', S' => o = .norm ∧ asgRun O P l r ρ S ρ' S'
  | .ifs c, ρ, S, o, ρ', S' => RunC O P c ρ S o ρ' S'
  | .block b, ρ, S, o, ρ', S' => RunL O P b ρ S o ρ' S'
  | .loop c b, ρ, S, o, ρ', S' => LoopRun (condRun O P c) (RunL O P b) ρ S o ρ' S'
def RunC (O : Opts) (P : SProg σ) : Chain → Env → Store σ → Out → Env → Store σ → Prop
  | .done, ρ, S, o, ρ', S' => o = .norm ∧ ρ' = ρ ∧ S' = S
  | .els b, ρ, S, o, ρ', S' => RunL O P b ρ S o ρ' S'
  | .cond c b n, ρ, S, o, ρ', S' =>
    (∃ S1, condRun O P c ρ S true S1 ∧ RunL O P b ρ S1 o ρ' S') ∨ (∃ S1, condRun O P c ρ S false S1 ∧ RunC O P n ρ S1 o ρ' S')
def RunL (O : Opts) (P : SProg σ) : Stmts → Env → Store σ → Out → Env → Store σ → Prop
  | .nil, ρ, S, o, ρ', S' => o = .norm ∧ ρ' = ρ ∧ S' = S
  | .cons s ss, ρ, S, o, ρ', S' =>
    (∃ v, o = .ret v ∧ RunS O P s ρ S (.ret v) ρ' S') ∨ (∃ ρ1 S1, RunS O P s ρ S .norm ρ1 S1 ∧ RunL O P ss ρ1 S1 o ρ' S')
end

theorem runL_app : ∀ (a b : Stmts) {ρ ρ' : Env} {S S' : Store σ} {o : Out}, RunL O P (a.app b) ρ S o ρ' S' →
    (∃ v, o = .ret v ∧ RunL O P a ρ S (.ret v) ρ' S') ∨ (∃ ρ1 S1, RunL O P a ρ S .norm ρ1 S1 ∧ RunL O P b ρ1 S1 o ρ' S')
  | .nil, b, ρ, ρ', S, S', o, h => .inr ⟨ρ, S, ⟨rfl, rfl, rfl⟩, h⟩
  | .cons s ss, b, ρ, ρ', S, S', o, h => by
    simp only [Stmts.app, RunL] at h
    rcases h with ⟨v, rfl, h⟩ | ⟨ρ1, S1, h1, h2⟩
    · exact .inl ⟨v, rfl, .inl ⟨v, rfl, h⟩⟩
    · rcases runL_app ss b h2 with ⟨v, rfl, h⟩ | ⟨ρ2, S2, h3, h4⟩
      · exact .inl ⟨v, rfl, .inr ⟨ρ1, S1, h1, h⟩⟩
      · exact .inr ⟨ρ2, S2, .inr ⟨ρ1, S1, h1, h3⟩, h4⟩

theorem sloc_lhs {ρ : Env} {S S' : Store σ} {l : Expr} {x : Nat} (h : SBig O P (.loc ρ S l (.var x) S')) : lhs l = [x] ∧ S' = S := by
  cases h
  exact ⟨rfl, rfl⟩

mutual
theorem runS_frame : ∀ (s : Stmt) {ρ ρ' : Env} {S S' : Store σ} {o : Out}, RunS O P s ρ S o ρ' S' → ∀ y, y ∉ s.writes → ρ' y = ρ y
  | .ret (some e), ρ, ρ', S, S', o, h => by obtain ⟨v, -, -, rfl⟩ := h; exact fun _ _ => rfl
  | .ret none, ρ, ρ', S, S', o, h => by obtain ⟨-, rfl, -⟩ := h; exact fun _ _ => rfl
  | .expr e, ρ, ρ', S, S', o, h => by obtain ⟨v, -, -, rfl⟩ := h; exact fun _ _ => rfl
  | .asg _ l r, ρ, ρ', S, S', o, h => by
    obtain ⟨-, v, S1, -, ⟨x, h, rfl⟩ | ⟨a, S2, -, -, rfl⟩⟩ := h
    · intro y hy
      simp only [Stmt.writes, (sloc_lhs h).1, List.mem_singleton] at hy
      exact upd_ne hy
    · exact fun _ _ => rfl
  | .ifs c, ρ, ρ', S, S', o, h => runC_frame c h
  | .block b, ρ, ρ', S, S', o, h => runL_frame b h
  | .loop c b, ρ, ρ', S, S', o, h => by
    intro y hy
    simp only [RunS] at h
    induction h with
    | done => rfl
    | again _ h2 _ ih => rw [ih, runL_frame b h2 y hy]
    | ret _ h2 => exact runL_frame b h2 y hy
theorem runC_frame : ∀ (s : Chain) {ρ ρ' : Env} {S S' : Store σ} {o : Out}, RunC O P s ρ S o ρ' S' → ∀ y, y ∉ s.writes → ρ' y = ρ y
  | .done, ρ, ρ', S, S', o, h => by obtain ⟨-, rfl, -⟩ := h; exact fun _ _ => rfl
  | .els b, ρ, ρ', S, S', o, h => runL_frame b h
  | .cond c b n, ρ, ρ', S, S', o, h => by
    intro y hy
    simp only [Chain.writes, List.mem_append, not_or] at hy
    obtain ⟨S1, -, h⟩ | ⟨S1, -, h⟩ := h
    · exact runL_frame b h y hy.1
    · exact runC_frame n h y hy.2
theorem runL_frame : ∀ (s : Stmts) {ρ ρ' : Env} {S S' : Store σ} {o : Out}, RunL O P s ρ S o ρ' S' → ∀ y, y ∉ s.writes → ρ' y = ρ y
  | .nil, ρ, ρ', S, S', o, h => by obtain ⟨-, rfl, -⟩ := h; exact fun _ _ => rfl
  | .cons s ss, ρ, ρ', S, S', o, h => by
    intro y hy
    simp only [Stmts.writes, List.mem_append, not_or] at hy
    obtain ⟨v, -, h⟩ | ⟨ρ1, S1, h1, h2⟩ := h
    · exact runS_frame s h y hy.1
    · rw [runL_frame ss h2 y hy.2, runS_frame s h1 y hy.1]
end

/-! ### Generated expressions -/

theorem asEnum_inv (hL : LibOk L P) {ρ : Env} {S S' : Store σ} {tmp : Nat} {tt : TyR} {p : Word}
    (h : SBig O P (.expr ρ S (.callFn L.asEnum L.asEnumInfo [.var tmp tt]) (some (.ptr p)) S')) :
    ∃ v, ρ tmp = some v ∧ p = v.enc ∧ S' = S := by
  obtain ⟨fd, un, ui, q, tp, te, h1, h2, h3, h4, h5, h6, h7, hu, h8⟩ := hL.asEnum
  cases h with
  | callRt _ _ h => exact absurd h (hL.rt _ _ _ _)
  | callExt h => rw [hL.info] at h; cases h
  | callFn _ ha hm hn _ hf =>
    have hfd := hu _ hm hn
    subst hfd
    cases ha with
    | argsCons hv hnil =>
      cases hnil
      cases hv with
      | var hv =>
        rename_i v
        refine ⟨v, hv, ?_⟩
        generalize hvs : [some v] = vs at hf
        cases hf with
        | fnRet hb => rw [h5] at hb; cases hb
        | fnCons hb => rw [h5] at hb; cases hb
        | fnDyn hD => have := hD.body; rw [h5] at this; cases this
        | fnExpr hb hl he =>
          rw [h5] at hb
          cases hb
          cases he with
          | callFn hc => rw [h6] at hc; cases hc
          | callRt hc => rw [h6] at hc; cases hc
          | callExt _ ha hx hr =>
            cases ha with
            | argsCons a1 a2 =>
              cases a2 with
              | argsCons a2 a3 =>
                cases a3 with
                | argsCons a3 a4 =>
                  cases a4
                  cases a3
                  cases a2
                  cases a1 with
                  | var hq =>
                    rename_i w _ v'
                    rw [← hvs, h4] at hq
                    simp only [bindParams] at hq
                    have hvv : v' = v := by simpa using hq.symm
                    subst hvv
                    have hx' : P.base.ext un [some v'.enc, some 1, none] S w S' := by
                      simpa [extArgs, rawArg, h7, Val.enc] using hx
                    obtain ⟨rfl, rfl⟩ := (h8 _ _ _ _).mp hx'
                    simp only [extRes, h7, Bool.false_eq_true, false_and, if_false] at hr
                    exact ⟨hr _ rfl, rfl⟩

theorem field_inv (hL : LibOk L P) {ρ : Env} {S S' : Store σ} {tmp off : Nat} {tt t : TyR} {w : Option Val}
    (h : SBig O P (.expr ρ S (field L tmp tt t off) w S')) :
    ∃ v x, ρ tmp = some v ∧ w = some x ∧ S.heap (v.enc + BitVec.ofNat 64 off) = some x ∧ S' = S := by
  cases h with
  | dot h1 h2 =>
    obtain ⟨v, hv, rfl, rfl⟩ := asEnum_inv hL h1
    exact ⟨v, _, hv, rfl, h2, rfl⟩

theorem tag_inv (hL : LibOk L P) {ρ : Env} {S S' : Store σ} {tmp tag : Nat} {tt : TyR} {b : Bool}
    (h : condRun O P (.bin .eq tBool (field L tmp tt tInt 0) (.int tag)) ρ S b S') :
    ∃ v n, ρ tmp = some v ∧ S.heap v.enc = some (.int n) ∧ b = decide (n = BitVec.ofInt 63 tag) ∧ S' = S := by
  cases h with
  | bin h1 h2 h3 =>
    obtain ⟨v, x, hv, hx, hh, hS⟩ := field_inv hL h1
    subst hS
    rename_i a _ _
    cases h2
    cases a <;> simp only [BinOp.eval, reduceCtorEq, Option.some.injEq, Val.bool.injEq] at h3
    cases hx
    exact ⟨v, _, hv, by simpa using hh, h3.symm, rfl⟩

theorem caseVars_inv (hL : LibOk L P) {tmp : Nat} {tt : TyR} {S S' : Store σ} {o : Out} {v : Val} :
    ∀ (vars : List (Nat × TyR)) (i : Nat) {ρ ρ' : Env}, ρ tmp = some v → tmp ∉ vars.map (·.1) →
      RunL O P (caseVars L tmp tt i vars) ρ S o ρ' S' →
      o = .norm ∧ S' = S ∧ ∃ vals, vals.length = vars.length ∧ fields S v.enc (i + 1) vals ∧ ρ' = bindVars vars vals ρ
  | [], i, ρ, ρ', hv, hn, h => by
    obtain ⟨rfl, rfl, rfl⟩ := h
    exact ⟨rfl, rfl, [], rfl, trivial, rfl⟩
  | (x, t) :: xs, i, ρ, ρ', hv, hn, h => by
    simp only [List.map_cons, List.mem_cons, not_or] at hn
    obtain ⟨r, -, h⟩ | ⟨ρ1, S1, h1, h2⟩ := h
    · cases h.1
    · obtain ⟨-, w, S2, he, ⟨y, hl, rfl⟩ | ⟨a, S3, hl, -⟩⟩ := h1
      · obtain ⟨v', z, hv', hz, hf, rfl⟩ := field_inv hL he
        cases hz
        cases hl
        rw [hv] at hv'
        cases hv'
        obtain ⟨rfl, rfl, vals, hl, hfs, rfl⟩ := caseVars_inv hL xs (i + 1) (by rw [upd_ne hn.1]; exact hv) hn.2 h2
        exact ⟨rfl, rfl, w :: vals, by simp [hl], ⟨hf, hfs⟩, rfl⟩
      · cases hl

theorem endVal_inv {w : List Nat} {hi : Expr} {ρ : Env} {S S' : Store σ} {b : BitVec 63} (hs : StableEnd w hi)
    (h : SBig O P (.expr ρ S hi (some (.int b)) S')) : EndVal ρ b hi ∧ S' = S := by
  cases hi <;> simp only [StableEnd] at hs
  · cases h; exact ⟨rfl, rfl⟩
  · cases h; rename_i h; exact ⟨h, rfl⟩

theorem endVal_srun {b : BitVec 63} {hi : Expr} {ρ : Env} {S : Store σ} (h : EndVal ρ b hi) :
    SBig O P (.expr ρ S hi (some (.int b)) S) := by
  cases hi <;> simp only [EndVal] at h
  · rw [← h]; exact .int
  · exact .var h

theorem endVal_det {b b' : BitVec 63} {hi : Expr} {ρ : Env} (h : EndVal ρ b hi) (h' : EndVal ρ b' hi) : b = b' := by
  cases hi <;> simp only [EndVal] at h h'
  · rw [← h, h']
  · rw [h] at h'; cases h'; rfl

theorem cond_inv {zero : Bool} {w : List Nat} {x : Nat} {hi : Expr} {ρ : Env} {S S' : Store σ} {b : Bool} (hs : StableEnd w hi)
    (h : condRun O P (rangeCond zero x hi) ρ S b S') :
    ∃ v e, ρ x = some (.int v) ∧ EndVal ρ e hi ∧ b = going zero e v ∧ S' = S := by
  cases zero
  · cases h with
    | bin h1 h2 h3 =>
      rename_i l S1 r
      cases l <;> cases r <;> simp only [BinOp.eval, reduceCtorEq, Option.some.injEq, Val.bool.injEq] at h3
      obtain ⟨he, rfl⟩ := endVal_inv hs h2
      cases h1 with
      | var h1 => exact ⟨_, _, h1, he, h3.symm, rfl⟩
  · cases h with
    | bin h1 h2 h3 =>
      rename_i l S1 r
      cases l <;> cases r <;> simp only [BinOp.eval, reduceCtorEq, Option.some.injEq, Val.bool.injEq] at h3
      obtain ⟨he, rfl⟩ := endVal_inv hs h1
      cases h2 with
      | var h2 => exact ⟨_, _, h2, he, h3.symm, rfl⟩

theorem inc_inv {x : Nat} {k : Int} {ρ ρ' : Env} {S S' : Store σ} {o : Out} (h : RunS O P (inc x k) ρ S o ρ' S') :
    ∃ v, ρ x = some (.int v) ∧ o = .norm ∧ ρ' = ρ.upd x (.int (v + BitVec.ofInt 63 k)) ∧ S' = S := by
  obtain ⟨ho, w, S1, he, ⟨y, hl, hρ⟩ | ⟨a, S2, hl, -⟩⟩ := h
  · cases hl
    cases he with
    | bin h1 h2 h3 =>
      rename_i l S1 r
      cases l <;> cases r <;> simp only [BinOp.eval, reduceCtorEq, Option.some.injEq] at h3
      cases h2
      cases h1 with
      | var h1 => exact ⟨_, h1, ho, by rw [hρ, ← h3], rfl⟩
  · cases hl

theorem next_inv {zero : Bool} {x : Nat} {ρ ρ' : Env} {S S' : Store σ} {o : Out} (h : RunS O P (rangeNext zero x) ρ S o ρ' S') :
    ∃ v, ρ x = some (.int v) ∧ o = .norm ∧ ρ' = ρ.upd x (.int (succv zero v)) ∧ S' = S := by
  cases zero
  · exact inc_inv h
  · exact inc_inv h

theorem one_inv {s : Stmt} {ρ ρ' : Env} {S S' : Store σ} {o : Out} (h : RunL O P (one s) ρ S o ρ' S') : RunS O P s ρ S o ρ' S' := by
  obtain ⟨v, rfl, h⟩ | ⟨ρ1, S1, h1, rfl, rfl, rfl⟩ := h
  · exact h
  · exact h1

theorem length_inv {i h : Nat} {th : TyR} {ρ : Env} {S S' : Store σ} {b : Bool}
    (hc : condRun O P (.bin .lt tBool (.var i tInt) (.dot tInt (.var h th) 0)) ρ S b S') :
    ∃ k p len, ρ i = some (.int k) ∧ ρ h = some (.ptr p) ∧ S.heap p = some (.int len) ∧
      b = decide (k.toInt < len.toInt) ∧ S' = S := by
  cases hc with
  | bin h1 h2 h3 =>
    rename_i l S1 r
    cases l <;> cases r <;> simp only [BinOp.eval, reduceCtorEq, Option.some.injEq, Val.bool.injEq] at h3
    cases h1 with
    | var h1 =>
      cases h2 with
      | dot h4 h5 =>
        cases h4 with
        | var h4 => exact ⟨_, _, _, h1, h4, by simpa using h5, h3.symm, rfl⟩

theorem elem_inv {x i h : Nat} {t th : TyR} {ρ ρ' : Env} {S S' : Store σ} {o : Out}
    (hr : RunS O P (.asg false (.var x t) (.index t (.var h th) (.var i tInt))) ρ S o ρ' S') :
    ∃ k p len v, ρ i = some (.int k) ∧ ρ h = some (.ptr p) ∧ S.heap p = some (.int len) ∧ 0 ≤ k.toInt ∧ k.toInt < len.toInt ∧
      S.heap (p + 8 + 8 * BitVec.ofInt 64 k.toInt) = some v ∧ o = .norm ∧ ρ' = ρ.upd x v ∧ S' = S := by
  obtain ⟨ho, w, S1, he, ⟨y, hl, hρ⟩ | ⟨a, S2, hl, -⟩⟩ := hr
  · cases hl
    cases he with
    | index h1 h2 h3 h4 h5 h6 =>
      cases h1 with
      | var h1 =>
        cases h2 with
        | var h2 => exact ⟨_, _, _, _, h2, h1, h3, h4, h5, h6, ho, hρ, rfl⟩
  · cases hl

end Clara.Sema
