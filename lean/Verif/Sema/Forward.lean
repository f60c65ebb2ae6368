import Verif.Sema.Fine
set_option linter.unusedVariables false
/-
Lowering keeps the meaning: what the program does, the lowered program does.
-/
namespace Clara.Sema
open Clara.Gen

variable {σ : Type}

/-! ### Ranges as the lowered loop runs through them -/

/-- The condition of the loop. -/
def going (zero : Bool) (b v : BitVec 63) : Bool :=
  if zero then decide (b.toInt ≤ v.toInt) else decide (v.toInt < b.toInt)

/-- The step of the loop. -/
def succv (zero : Bool) (v : BitVec 63) : BitVec 63 :=
  if zero then v + BitVec.ofInt 63 (-1) else v + BitVec.ofInt 63 1

/-- The values of the loop variable from `v` on. -/
def Steps (zero : Bool) (b : BitVec 63) : BitVec 63 → List (BitVec 63) → Prop
  | v, [] => going zero b v = false
  | v, w :: ws => going zero b v = true ∧ w = v ∧ Steps zero b (succv zero v) ws

/-- The values visited by a lowered range loop. -/
def codeRange (zero : Bool) (a b : BitVec 63) (vs : List (BitVec 63)) : Prop :=
  Steps zero b (if zero then a + BitVec.ofInt 63 (-1) else a) vs

/-- The meaning with these ranges. -/
def codeOpts : Opts := ⟨codeRange, true, false⟩

/-- ... and of the runs in which ends and arrays keep their values. -/
def againOpts : Opts := ⟨codeRange, true, true⟩

/-! ### Pieces of lowered code -/

/-- The condition of a range loop. -/
def rangeCond (zero : Bool) (x : Nat) (hi : Expr) : Expr :=
  if zero then .bin .le tBool hi (.var x tInt) else .bin .lt tBool (.var x tInt) hi

def rangeNext (zero : Bool) (x : Nat) : Stmt := if zero then inc x (-1) else inc x 1

def rangeLoop (zero : Bool) (x : Nat) (hi : Expr) (b : Stmts) : Stmt :=
  .loop (rangeCond zero x hi) (b.app (one (rangeNext zero x)))

/-- The loop over an array: its index is `i`. -/
def elemLoop (x : Nat) (t : TyR) (arr : Expr) (i : Nat) (b : Stmts) : Stmt :=
  .loop (.bin .lt tBool (.var i tInt) (.dot tInt arr 0))
    (.cons (.asg false (.var x t) (.index t arr (.var i tInt))) (b.app (one (inc i 1))))

/-- The end of a range has the value. -/
def EndVal (ρ : Env) (b : BitVec 63) : Expr → Prop
  | .int k => BitVec.ofInt 63 k = b
  | .var h _ => ρ h = some (.int b)
  | _ => False

section
variable {P : Prog σ} {d : Nat} {ρ ρ' : Env} {S S' : Store σ}

theorem endVal_run {b : BitVec 63} {hi : Expr} (h : EndVal ρ b hi) : Big P d (.expr ρ S hi (some (.int b)) S) := by
  cases hi <;> simp only [EndVal] at h
  · rw [← h]; exact .int
  · exact .var h

theorem cond_run {zero : Bool} {x : Nat} {hi : Expr} {b v : BitVec 63} (h : Big P d (.expr ρ S hi (some (.int b)) S)) (hx : ρ x = some (.int v)) :
    Big P d (.expr ρ S (rangeCond zero x hi) (some (.bool (going zero b v))) S) := by
  cases zero
  · exact .bin (.var hx) h rfl
  · exact .bin h (.var hx) rfl

theorem inc_run {x : Nat} {k : Int} {v : BitVec 63} (hx : ρ x = some (.int v)) :
    Big P d (.stmt ρ S (inc x k) .norm (ρ.upd x (.int (v + BitVec.ofInt 63 k))) S) :=
  .asgVar (.bin (.var hx) .int rfl) .locVar

theorem next_run {zero : Bool} {x : Nat} {v : BitVec 63} (hx : ρ x = some (.int v)) :
    Big P d (.stmt ρ S (rangeNext zero x) .norm (ρ.upd x (.int (succv zero v))) S) := by
  cases zero
  · exact inc_run hx
  · exact inc_run hx

theorem length_run {p : Word} {arr : Expr} {i : Nat} {k len : BitVec 63}
    (ha : Big P d (.expr ρ S arr (some (.ptr p)) S)) (hi : ρ i = some (.int k)) (hl : S.heap p = some (.int len)) :
    Big P d (.expr ρ S (.bin .lt tBool (.var i tInt) (.dot tInt arr 0)) (some (.bool (decide (k.toInt < len.toInt)))) S) :=
  .bin (.var hi) (.dot ha (by simpa using hl)) rfl

end

/-! ### Agreeing environments -/

def Agree (A : Nat → Prop) (ρ ρ' : Env) : Prop := ∀ y, A y → ρ y = ρ' y

section
variable {A B : Nat → Prop} {ρ ρ' : Env}

theorem Agree.mono (h : Agree B ρ ρ') (hs : ∀ y, A y → B y) : Agree A ρ ρ' := fun y hy => h y (hs y hy)

theorem Agree.upd (h : Agree A ρ ρ') (x : Nat) (v : Val) : Agree (fun y => A y ∨ y = x) (ρ.upd x v) (ρ'.upd x v) := by
  intro y hy
  simp only [Env.upd]
  split
  · rfl
  · rename_i hne
    rcases hy with hy | hy
    · exact h y hy
    · exact absurd hy hne

theorem Agree.updr (h : Agree A ρ ρ') {x : Nat} (hx : ¬ A x) (v : Val) : Agree A ρ (ρ'.upd x v) := by
  intro y hy
  rw [h y hy]
  simp only [Env.upd]
  split
  · rename_i e; rw [e] at hy; exact absurd hy hx
  · rfl

theorem Agree.updl (h : Agree A ρ ρ') {x : Nat} (hx : ¬ A x) (v : Val) : Agree A (ρ.upd x v) ρ' := by
  intro y hy
  rw [← h y hy]
  simp only [Env.upd]
  split
  · rename_i e; rw [e] at hy; exact absurd hy hx
  · rfl

theorem upd_ne {ρ : Env} {x y : Nat} {v : Val} (h : y ≠ x) : ρ.upd x v y = ρ y := by simp [Env.upd, h]
theorem upd_eq {ρ : Env} {x : Nat} {v : Val} : ρ.upd x v x = some v := by simp [Env.upd]

theorem agree_bind : ∀ (vars : List (Nat × TyR)) (vals : List Val) (A : Nat → Prop) (ρ ρ' : Env), Agree A ρ ρ' →
    vals.length = vars.length →
    Agree (fun y => A y ∨ y ∈ vars.map (·.1)) (bindVars vars vals ρ) (bindVars vars vals ρ')
  | [], _, A, ρ, ρ', h, _ => by
    simp only [bindVars]
    exact h.mono (fun y hy => by simpa using hy)
  | (x, t) :: xs, [], A, ρ, ρ', h, hl => by simp at hl
  | (x, t) :: xs, v :: vs, A, ρ, ρ', h, hl => by
    simp only [bindVars]
    refine (agree_bind xs vs _ _ _ (h.upd x v) (by simpa using hl)).mono (fun y hy => ?_)
    simp only [List.map_cons, List.mem_cons] at hy
    rcases hy with hy | hy | hy
    · exact .inl (.inl hy)
    · exact .inl (.inr hy)
    · exact .inr hy

theorem bindVars_ne {x : Nat} : ∀ (vars : List (Nat × TyR)) (vals : List Val) (ρ : Env), x ∉ vars.map (·.1) →
    bindVars vars vals ρ x = ρ x
  | [], _, _, _ => rfl
  | (y, t) :: xs, [], _, _ => rfl
  | (y, t) :: xs, v :: vs, ρ, h => by
    simp only [List.map_cons, List.mem_cons, not_or] at h
    rw [bindVars, bindVars_ne xs vs _ h.2, upd_ne h.1]
end

/-! ### The library function -/

variable {L : Lib} {P : SProg σ} {N : Nat}

theorem asEnum_run (hL : LibOk L P) : ∃ d0, ∀ d, d0 ≤ d → ∀ ρ S tmp tt v, ρ tmp = some v →
    Big (lowP L N P) d (.expr ρ S (.callFn L.asEnum L.asEnumInfo [.var tmp tt]) (some (.ptr v.enc)) S) := by
  obtain ⟨fd, un, ui, p, tp, te, h1, h2, h3, h4, h5, h6, h7, -, h8⟩ := hL.asEnum
  refine ⟨P.base.extNeed un + (lowF L N fd).cost, fun d hd ρ S tmp tt v hv => ?_⟩
  refine .callFn (d' := P.base.extNeed un) (vs := [some v]) hL.info (.argsCons (.var hv) .argsNil)
    (List.mem_map_of_mem h1) h2 h3 ?_ hd
  refine .fnExpr (e := .callFn un ui [.var p tp, .int 0, .typ te]) (by simp [lowF, h5, lowB]) (by simp [lowF, h4]) ?_
  refine .callExt (S1 := S) (vs := [some v, some (.int (BitVec.ofInt 63 0)), none]) (w := v.enc) h6 ?_ ?_ ?_ (Nat.le_refl _)
  · refine .argsCons (.var ?_) (.argsCons .int (.argsCons .typ .argsNil))
    simp [lowF, h4, bindParams]
  · have := (h8 v.enc S v.enc S).mpr ⟨rfl, rfl⟩
    simpa [extArgs, rawArg, h7, Val.enc, lowP] using this
  · simp [extRes, h7, Val.enc]

theorem field_run (hL : LibOk L P) : ∃ d0, ∀ d, d0 ≤ d → ∀ ρ S tmp tt t off v w, ρ tmp = some v →
    S.heap (v.enc + BitVec.ofNat 64 off) = some w →
    Big (lowP L N P) d (.expr ρ S (field L tmp tt t off) (some w) S) := by
  obtain ⟨d0, h⟩ := asEnum_run (N := N) hL
  exact ⟨d0, fun d hd ρ S tmp tt t off v w hv hw => .dot (h d hd ρ S tmp tt v hv) hw⟩

theorem caseVars_run (hL : LibOk L P) : ∃ d0, ∀ d, d0 ≤ d → ∀ tmp tt (vars : List (Nat × TyR)) vals i ρ (S : Store σ) v,
    ρ tmp = some v → tmp ∉ vars.map (·.1) → vals.length = vars.length → fields S v.enc (i + 1) vals →
    Big (lowP L N P) d (.stmts ρ S (caseVars L tmp tt i vars) .norm (bindVars vars vals ρ) S) := by
  obtain ⟨d0, h⟩ := field_run (N := N) hL
  refine ⟨d0, fun d hd tmp tt vars => ?_⟩
  induction vars with
  | nil =>
    intro vals i ρ S v _ _ _ _
    exact .nil
  | cons x xs ih =>
    intro vals i ρ S v hv hn hl hf
    obtain ⟨x, t⟩ := x
    cases vals with
    | nil => simp at hl
    | cons w ws =>
      simp only [List.map_cons, List.mem_cons, not_or] at hn
      rw [caseVars, bindVars]
      refine .cons (.asgVar (h d hd ρ S tmp tt t _ v w hv hf.1) .locVar) ?_
      exact ih ws (i + 1) _ S v (by rw [upd_ne hn.1]; exact hv) hn.2 (by simpa using hl) hf.2

/-! ### The simulation -/

/-- What is shown of a run. -/
def Fwd (L : Lib) (N : Nat) (P : SProg σ) : SJd σ → Prop
  | .expr ρ S e v S' => ∀ ρ', (∀ y ∈ e.vars, ρ y = ρ' y) → ∃ d, Big (lowP L N P) d (.expr ρ' S e v S')
  | .args ρ S es vs S' => ∀ ρ', (∀ y ∈ varsL es, ρ y = ρ' y) → ∃ d, Big (lowP L N P) d (.args ρ' S es vs S')
  | .loc ρ S e l S' => ∀ ρ', (∀ y ∈ e.vars, ρ y = ρ' y) →
      (∀ x, l = .var x → lhs e = [x]) ∧ ∃ d, Big (lowP L N P) d (.loc ρ' S e l S')
  | .stmt ρ S s o ρ1 S1 => ∀ n A ρ', N ≤ n → (∀ y, A y → y < N) → Agree A ρ ρ' → s.Mild N A →
      ∃ d ρ1', Big (lowP L N P) d (.stmt ρ' S (lowS L s n).1 o ρ1' S1) ∧ Agree A ρ1 ρ1'
  | .stmts ρ S s o ρ1 S1 => ∀ n A ρ', N ≤ n → (∀ y, A y → y < N) → Agree A ρ ρ' → s.Mild N A →
      ∃ d ρ1', Big (lowP L N P) d (.stmts ρ' S (lowL L s n).1 o ρ1' S1) ∧ Agree A ρ1 ρ1'
  | .chain ρ S s o ρ1 S1 => ∀ n A ρ', N ≤ n → (∀ y, A y → y < N) → Agree A ρ ρ' → s.Mild N A →
      ∃ d ρ1', Big (lowP L N P) d (.chain ρ' S (lowC L s n).1 o ρ1' S1) ∧ Agree A ρ1 ρ1'
  | .range ρ S x hi e vs b o ρ1 S1 => ∀ n A ρ' zero v, N ≤ n → (∀ y, A y → y < N) → ¬ A x → x < N →
      Scoped A hi → b.Mild N (fun y => A y ∨ y = x) → Agree A ρ ρ' → ρ' x = some (.int v) → Steps zero e v vs →
      ∃ d ρ1', Big (lowP L N P) d (.stmt ρ' S (rangeLoop zero x hi (lowL L b n).1) o ρ1' S1) ∧ Agree A ρ1 ρ1'
  | .elems ρ S x arr p i b o ρ1 S1 => ∀ n A ρ' t arr' idx, N ≤ n → (∀ y, A y → y < N) → ¬ A x → x < N →
      (lowL L b n).2 ≤ idx → idx ∉ (lowL L b n).1.writes →
      ((litArr arr = false ∧ arr' = arr ∧ Scoped A arr) ∨
        (litArr arr = true ∧ ∃ h th, arr' = .var h th ∧ N ≤ h ∧ h ≠ idx ∧ h ∉ (lowL L b n).1.writes ∧ ρ' h = some (.ptr p))) →
      b.Mild N (fun y => A y ∨ y = x) → Agree A ρ ρ' → ρ' idx = some (.int (BitVec.ofNat 63 i)) → i < 2 ^ 62 →
      ∃ d ρ1', Big (lowP L N P) d (.stmt ρ' S (elemLoop x t arr' idx (lowL L b n).1) o ρ1' S1) ∧ Agree A ρ1 ρ1'
  | .fn fd vs S v S' => fd ∈ P.fns → ∃ d, Big (lowP L N P) d (.fn (lowF L N fd) vs S v S')

theorem ofNat_toInt63 {i : Nat} (h : i < 2 ^ 62) : (BitVec.ofNat 63 i).toInt = i := by
  rw [BitVec.toInt_eq_toNat_of_lt (by simp; omega)]
  simp
  omega

theorem ofNat_succ63 (i : Nat) : BitVec.ofNat 63 i + BitVec.ofInt 63 1 = BitVec.ofNat 63 (i + 1) := by
  apply BitVec.eq_of_toNat_eq
  simp

/-- The array of a loop, or the variable that holds it. -/
theorem elem_arr {A : Nat → Prop} {ρ ρ' : Env} {S : Store σ} {arr arr' : Expr} {p : Word} {idx : Nat} {w : List Nat}
    (h : (litArr arr = false ∧ arr' = arr ∧ Scoped A arr) ∨
      (litArr arr = true ∧ ∃ h th, arr' = .var h th ∧ N ≤ h ∧ h ≠ idx ∧ h ∉ w ∧ ρ' h = some (.ptr p))) (ha : Agree A ρ ρ')
    (hi : litArr arr = false → Fwd L N P (.expr ρ S arr (some (.ptr p)) S)) :
    ∃ d, Big (lowP L N P) d (.expr ρ' S arr' (some (.ptr p)) S) := by
  rcases h with ⟨hl, rfl, hs⟩ | ⟨-, h, th, rfl, -, -, -, hv⟩
  · exact hi hl ρ' (fun y hy => ha y (hs y hy))
  · exact ⟨0, .var hv⟩

/-- The chain of a `match`, given the run of the body of the case found. -/
theorem match_run (hL : LibOk L P) {A : Nat → Prop} {ρ ρ1 : Env} {S S1 : Store σ} {v : Val} {n : BitVec 63} {vars : List (Nat × TyR)}
    {b : SSs} {vals : List Val} {o : Out} {tmp : Nat} {tt : TyR} (htag : S.heap v.enc = some (.int n))
    (hlen : vals.length = vars.length) (hf : fields S v.enc 1 vals) (hA : ∀ y, A y → y < N) (htmp : N ≤ tmp)
    (hb : Fwd L N P (.stmts (bindVars vars vals ρ) S b o ρ1 S1)) :
    ∀ (cs : SCs) (m : Nat) (ρ' : Env), N ≤ m → cs.find n = some (vars, b) → cs.Mild N A → Agree A ρ ρ' → ρ' tmp = some v →
      ∃ d ρ1', Big (lowP L N P) d (.chain ρ' S (lowM L cs tmp tt m).1 o ρ1' S1) ∧ Agree A ρ1 ρ1'
  | .nil, m, ρ', hm, hfind, hfine, hag, hv => by simp [SCs.find] at hfind
  | .cons tag vs' b' next, m, ρ', hm, hfind, hfine, hag, hv => by
    obtain ⟨d0, h0⟩ := field_run (N := N) hL
    simp only [SCs.Mild] at hfine
    have hcond : ∀ d, d0 ≤ d → Big (lowP L N P) d (.expr ρ' S (.bin .eq tBool (field L tmp tt tInt 0) (.int tag))
        (some (.bool (decide (n = BitVec.ofInt 63 tag)))) S) := fun d hd =>
      .bin (h0 d hd ρ' S tmp tt tInt 0 v _ hv (by simpa using htag)) .int rfl
    simp only [SCs.find] at hfind
    rw [lowM]
    split at hfind
    · rename_i heq
      simp only [Option.some.injEq, Prod.mk.injEq] at hfind
      obtain ⟨rfl, rfl⟩ := hfind
      have hnt : tmp ∉ vs'.map (·.1) := by
        intro hc
        obtain ⟨y, hy, he⟩ := List.mem_map.mp hc
        have := hfine.1 y hy
        omega
      obtain ⟨d1, h1⟩ := caseVars_run (N := N) hL
      obtain ⟨d2, ρ1', h2, h3⟩ := hb m (fun y => A y ∨ y ∈ vs'.map (·.1)) (bindVars vs' vals ρ') hm (by
        intro y hy
        rcases hy with hy | hy
        · exact hA y hy
        · obtain ⟨z, hz, he⟩ := List.mem_map.mp hy
          rw [← he]
          exact hfine.1 z hz) (agree_bind vs' vals _ _ _ hag hlen) hfine.2.1
      refine ⟨max d0 (max d1 d2), ρ1', ?_, h3.mono (fun y hy => .inl hy)⟩
      have hc := hcond (max d0 (max d1 d2)) (Nat.le_max_left _ _)
      rw [decide_eq_true heq] at hc
      refine .chT hc (stmts_app (h1 _ (by omega) tmp tt vs' vals 0 ρ' S v hv hnt hlen hf) (Big.mono h2 (by omega)))
    · rename_i heq
      obtain ⟨d1, ρ1', h1, h2⟩ := match_run hL htag hlen hf hA htmp hb next (lowL L b' m).2 ρ'
        (Nat.le_trans hm (lowL_writes L b' m).1) hfind hfine.2.2 hag hv
      refine ⟨max d0 d1, ρ1', ?_, h2⟩
      have hc := hcond (max d0 d1) (Nat.le_max_left _ _)
      rw [decide_eq_false heq] at hc
      exact .chF hc (Big.mono h1 (by omega))

/-- ... and without a case for the value. -/
theorem match_pass (hL : LibOk L P) {S : Store σ} {v : Val} {n : BitVec 63} {tmp : Nat} {tt : TyR}
    (htag : S.heap v.enc = some (.int n)) :
    ∀ (cs : SCs) (m : Nat) (ρ' : Env), cs.find n = none → ρ' tmp = some v →
      ∃ d, Big (lowP L N P) d (.chain ρ' S (lowM L cs tmp tt m).1 .norm ρ' S)
  | .nil, m, ρ', _, _ => ⟨0, .chDone⟩
  | .cons tag vs' b' next, m, ρ', hfind, hv => by
    obtain ⟨d0, h0⟩ := field_run (N := N) hL
    simp only [SCs.find] at hfind
    split at hfind
    · cases hfind
    · rename_i heq
      obtain ⟨d1, h1⟩ := match_pass hL htag next (lowL L b' m).2 ρ' hfind hv
      have hc : Big (lowP L N P) (max d0 d1) (.expr ρ' S (.bin .eq tBool (field L tmp tt tInt 0) (.int tag))
          (some (.bool (decide (n = BitVec.ofInt 63 tag)))) S) :=
        .bin (h0 _ (Nat.le_max_left _ _) ρ' S tmp tt tInt 0 v _ hv (by simpa using htag)) .int rfl
      rw [decide_eq_false heq] at hc
      refine ⟨max d0 d1, ?_⟩
      rw [lowM]
      exact .chF hc (Big.mono h1 (by omega))

theorem endVal_upd {ρ : Env} {x : Nat} {v : Val} {b : BitVec 63} {hi : Expr} (h : EndVal ρ b hi) (hx : x ∉ hi.vars) :
    EndVal (ρ.upd x v) b hi := by
  cases hi <;> simp only [EndVal] at h ⊢ <;> try exact h
  rw [upd_ne]
  · exact h
  · simp only [Expr.vars, List.mem_singleton] at hx
    exact fun e => hx e.symm

theorem endVal_frame {ρ ρ' : Env} {b : BitVec 63} {hi : Expr} (h : EndVal ρ b hi) (hx : ∀ y ∈ hi.vars, ρ' y = ρ y) :
    EndVal ρ' b hi := by
  cases hi <;> simp only [EndVal] at h ⊢ <;> try exact h
  rw [hx _ (by simp [Expr.vars])]
  exact h

theorem stable_not {w : List Nat} {hi : Expr} (h : StableEnd w hi) : ∀ y ∈ hi.vars, y ∉ w := by
  cases hi <;> simp_all [StableEnd, Expr.vars]

/-- What the lowered program does with the value of the end. -/
theorem end_value {O : Opts} {ρ : Env} {S S' : Store σ} {w : List Nat} {hi : Expr} {v : BitVec 63}
    (hs : StableEnd w hi) (h : SBig O P (.expr ρ S hi (some (.int v)) S')) : EndVal ρ v hi ∧ S' = S := by
  cases hi <;> simp only [StableEnd] at hs
  · cases h; exact ⟨rfl, rfl⟩
  · cases h; rename_i h; exact ⟨h, rfl⟩


theorem lowF_body {fd : SFn} {ss : SSs} (h : fd.body = .block ss) : (lowF L N fd).body = .block (lowL L ss N).1 := by
  simp [lowF, h, lowB]

theorem lowS_match_nil (e : Expr) (n : Nat) :
    (lowS L (.match_ e .nil) n).1 = .block (one (.asg true (.var n e.ty) e)) := by
  simp only [lowS]

theorem lowS_match_cons (e : Expr) (tag : Nat) (vs : List (Nat × TyR)) (b : SSs) (nx : SCs) (n : Nat) :
    (lowS L (.match_ e (.cons tag vs b nx)) n).1 =
      .block (.cons (.asg true (.var n e.ty) e) (one (.ifs (lowM L (.cons tag vs b nx) n e.ty (n + 1)).1))) := by
  simp only [lowS]

/-- **What the program does, the lowered program does.** -/
theorem forward (hL : LibOk L P) (hF : ∀ fd ∈ P.fns, fd.Mild N) {j : SJd σ} (h : SBig againOpts P j) : Fwd L N P j := by
  induction h with
  | int => exact fun ρ' _ => ⟨0, .int⟩
  | bool => exact fun ρ' _ => ⟨0, .bool⟩
  | str => exact fun ρ' _ => ⟨0, .str⟩
  | typ => exact fun ρ' _ => ⟨0, .typ⟩
  | fnRef => exact fun ρ' _ => ⟨0, .fnRef⟩
  | @var ρ S x t v h => exact fun ρ' ha => ⟨0, .var (by rw [← ha x (by simp [Expr.vars])]; exact h)⟩
  | bin h1 h2 h3 i1 i2 =>
    intro ρ' ha
    obtain ⟨d1, b1⟩ := i1 ρ' (fun y hy => ha y (by simp [Expr.vars, hy]))
    obtain ⟨d2, b2⟩ := i2 ρ' (fun y hy => ha y (by simp [Expr.vars, hy]))
    have := big2 b1 b2
    exact ⟨_, .bin this.1 this.2 h3⟩
  | un h1 h2 i1 =>
    intro ρ' ha
    obtain ⟨d1, b1⟩ := i1 ρ' ha
    exact ⟨_, .un b1 h2⟩
  | ternT h1 h2 i1 i2 =>
    intro ρ' ha
    obtain ⟨d1, b1⟩ := i1 ρ' (fun y hy => ha y (by simp [Expr.vars, hy]))
    obtain ⟨d2, b2⟩ := i2 ρ' (fun y hy => ha y (by simp [Expr.vars, hy]))
    have := big2 b1 b2
    exact ⟨_, .ternT this.1 this.2⟩
  | ternF h1 h2 i1 i2 =>
    intro ρ' ha
    obtain ⟨d1, b1⟩ := i1 ρ' (fun y hy => ha y (by simp [Expr.vars, hy]))
    obtain ⟨d2, b2⟩ := i2 ρ' (fun y hy => ha y (by simp [Expr.vars, hy]))
    have := big2 b1 b2
    exact ⟨_, .ternF this.1 this.2⟩
  | arrLit h1 i1 =>
    intro ρ' ha
    obtain ⟨d1, b1⟩ := i1 ρ' ha
    exact ⟨_, .arrLit b1⟩
  | callFn h1 h2 h3 h4 h5 h6 i1 i2 =>
    intro ρ' ha
    obtain ⟨d1, b1⟩ := i1 ρ' ha
    obtain ⟨d2, b2⟩ := i2 h3
    rename_i fd _ _
    exact ⟨max d1 (d2 + (lowF L N fd).cost), .callFn h1 (Big.mono b1 (by omega)) (List.mem_map_of_mem h3) h4 h5 b2 (by omega)⟩
  | @callRt ρ S f fi args vs S1 v S2 h1 h2 h3 i1 =>
    intro ρ' ha
    obtain ⟨d1, b1⟩ := i1 ρ' ha
    exact ⟨max d1 (P.base.extNeed f), .callRt h1 (Big.mono b1 (by omega)) h3 (Nat.le_max_right _ _)⟩
  | @callExt ρ S f fi args vs S1 w v S2 h1 h2 h3 h4 i1 =>
    intro ρ' ha
    obtain ⟨d1, b1⟩ := i1 ρ' ha
    exact ⟨max d1 (P.base.extNeed f), .callExt h1 (Big.mono b1 (by omega)) h3 h4 (Nat.le_max_right _ _)⟩
  | callVar h1 h2 h3 h4 h5 h6 i1 i2 =>
    intro ρ' ha
    obtain ⟨d1, b1⟩ := i1 ρ' (fun y hy => ha y (by simp [Expr.vars, hy]))
    obtain ⟨d2, b2⟩ := i2 h4
    rename_i x _ _ _ _ fd _ _
    exact ⟨max d1 (d2 + (lowF L N fd).cost), .callVar (fd := lowF L N fd) h1
      (by rw [← ha x (by simp [Expr.vars])]; exact h2) (Big.mono b1 (by omega)) (List.mem_map_of_mem h4) h5 b2 (by omega)⟩
  | callExpr h1 h2 h3 h4 h5 h6 i0 i1 i2 =>
    intro ρ' ha
    obtain ⟨d0, b0⟩ := i0 ρ' (fun y hy => ha y (by simp [Expr.vars, hy]))
    obtain ⟨d1, b1⟩ := i1 ρ' (fun y hy => ha y (by simp [Expr.vars, hy]))
    obtain ⟨d2, b2⟩ := i2 h4
    rename_i fd _ _
    exact ⟨max d0 (max d1 (d2 + (lowF L N fd).cost)), .callExpr (fd := lowF L N fd) h1 (Big.mono b0 (by omega))
      (Big.mono b1 (by omega)) (List.mem_map_of_mem h4) h5 b2 (by omega)⟩
  | dot h1 h2 i1 =>
    intro ρ' ha
    obtain ⟨d1, b1⟩ := i1 ρ' ha
    exact ⟨_, .dot b1 h2⟩
  | index h1 h2 h3 h4 h5 h6 i1 i2 =>
    intro ρ' ha
    obtain ⟨d1, b1⟩ := i1 ρ' (fun y hy => ha y (by simp [Expr.vars, hy]))
    obtain ⟨d2, b2⟩ := i2 ρ' (fun y hy => ha y (by simp [Expr.vars, hy]))
    have := big2 b1 b2
    exact ⟨_, .index this.1 this.2 h3 h4 h5 h6⟩
  | argsNil => exact fun ρ' _ => ⟨0, .argsNil⟩
  | argsCons h1 h2 i1 i2 =>
    intro ρ' ha
    obtain ⟨d1, b1⟩ := i1 ρ' (fun y hy => ha y (by simp [varsL, hy]))
    obtain ⟨d2, b2⟩ := i2 ρ' (fun y hy => ha y (by simp [varsL, hy]))
    have := big2 b1 b2
    exact ⟨_, .argsCons this.1 this.2⟩
  | locVar => exact fun ρ' _ => ⟨fun x hx => by cases hx; rfl, 0, .locVar⟩
  | locDot h1 i1 =>
    intro ρ' ha
    obtain ⟨d1, b1⟩ := i1 ρ' ha
    exact ⟨by simp, _, .locDot b1⟩
  | locIndex h1 h2 h3 h4 h5 i1 i2 =>
    intro ρ' ha
    obtain ⟨d1, b1⟩ := i1 ρ' (fun y hy => ha y (by simp [Expr.vars, hy]))
    obtain ⟨d2, b2⟩ := i2 ρ' (fun y hy => ha y (by simp [Expr.vars, hy]))
    have := big2 b1 b2
    exact ⟨by simp, _, .locIndex this.1 this.2 h3 h4 h5⟩
  | retE h1 i1 =>
    intro n A ρ' hn hA ha hf
    obtain ⟨d1, b1⟩ := i1 ρ' (fun y hy => ha y (hf y hy))
    exact ⟨_, _, .retE b1, ha⟩
  | retN => exact fun n A ρ' hn hA ha hf => ⟨0, _, .retN, ha⟩
  | ifs h1 i1 =>
    intro n A ρ' hn hA ha hf
    obtain ⟨d1, ρ1', b1, g1⟩ := i1 n A ρ' hn hA ha hf
    exact ⟨_, _, .ifs b1, g1⟩
  | asgVar h1 h2 i1 i2 =>
    intro n A ρ' hn hA ha hf
    obtain ⟨d1, b1⟩ := i1 ρ' (fun y hy => ha y (hf.2 y hy))
    obtain ⟨-, d2, b2⟩ := i2 ρ' (fun y hy => ha y (hf.1 y hy))
    have := big2 b1 b2
    exact ⟨_, _, .asgVar this.1 this.2, (ha.upd _ _).mono (fun y hy => .inl hy)⟩
  | asgMem h1 h2 h3 i1 i2 =>
    intro n A ρ' hn hA ha hf
    obtain ⟨d1, b1⟩ := i1 ρ' (fun y hy => ha y (hf.2 y hy))
    obtain ⟨-, d2, b2⟩ := i2 ρ' (fun y hy => ha y (hf.1 y hy))
    have := big2 b1 b2
    exact ⟨_, _, .asgMem this.1 this.2 h3, ha⟩
  | loopF h1 i1 =>
    intro n A ρ' hn hA ha hf
    obtain ⟨d1, b1⟩ := i1 ρ' (fun y hy => ha y (hf.1 y hy))
    exact ⟨_, _, .loopF b1, ha⟩
  | loopT h1 h2 h3 i1 i2 i3 =>
    intro n A ρ' hn hA ha hf
    obtain ⟨d1, b1⟩ := i1 ρ' (fun y hy => ha y (hf.1 y hy))
    obtain ⟨d2, ρ2, b2, g2⟩ := i2 n A ρ' hn hA ha hf.2
    obtain ⟨d3, ρ3, b3, g3⟩ := i3 n A ρ2 hn hA g2 hf
    obtain ⟨m, c1, c2, c3⟩ := big3 b1 b2 b3
    exact ⟨m, _, .loopT c1 c2 c3, g3⟩
  | loopR h1 h2 i1 i2 =>
    intro n A ρ' hn hA ha hf
    obtain ⟨d1, b1⟩ := i1 ρ' (fun y hy => ha y (hf.1 y hy))
    obtain ⟨d2, ρ2, b2, g2⟩ := i2 n A ρ' hn hA ha hf.2
    have := big2 b1 b2
    exact ⟨_, _, .loopR this.1 this.2, g2⟩
  | expr h1 i1 =>
    intro n A ρ' hn hA ha hf
    obtain ⟨d1, b1⟩ := i1 ρ' (fun y hy => ha y (hf y hy))
    exact ⟨_, _, .expr b1, ha⟩
  | @forR ρ S x lo hi zero b a k S1 S2 vs o ρ1 S' h1 h2 hs h3 h4 i1 i2 i3 =>
    intro n A ρ' hn hA ha hf
    simp only [SS.Mild] at hf
    obtain ⟨f1, f2, f3, f4, f5⟩ := hf
    obtain ⟨d1, b1⟩ := i1 ρ' (fun y hy => ha y (f1 y hy))
    obtain rfl := hs rfl
    let a0 := if zero then a + BitVec.ofInt 63 (-1) else a
    have b2 : Big (lowP L N P) d1 (.stmt ρ' S (.asg true (.var x tInt) (if zero then .bin .add tInt lo (.int (-1)) else lo))
        .norm (ρ'.upd x (.int a0)) S2) := by
      refine .asgVar ?_ .locVar
      cases zero
      · exact b1
      · exact .bin b1 .int rfl
    obtain ⟨d3, ρ3, b3, g3⟩ := i3 n A (ρ'.upd x (.int a0)) zero a0 hn hA f3 f4 f2 f5 (ha.updr f3 _) upd_eq h3
    have := big2 b2 b3
    refine ⟨max d1 d3, ρ3, ?_, g3⟩
    rw [lowS]
    refine .block (.cons this.1 ?_)
    cases o with
    | norm => exact stmts_one this.2
    | ret v => exact .consR this.2
  | rangeNil _ i0 =>
    intro n A ρ' zero v hn hA h1 h2 h4 h6 h7 h9 h10
    obtain ⟨d0, b0⟩ := i0 rfl ρ' (fun y hy => h7 y (h4 y hy))
    have := cond_run (zero := zero) b0 h9
    rw [h10] at this
    exact ⟨d0, _, .loopF this, h7⟩
  | @rangeCons ρ S x hi e v0 vs b ρ1 S1 o ρ2 S2 _ r1 hx r2 i0 i1 i2 =>
    intro n A ρ' zero v hn hA h1 h2 h4 h6 h7 h9 h10
    obtain ⟨hg, rfl, hs⟩ := h10
    obtain ⟨d0, b0⟩ := i0 rfl ρ' (fun y hy => h7 y (h4 y hy))
    obtain ⟨d1, ρ3, b1, g1⟩ := i1 n (fun y => A y ∨ y = x) ρ' hn
      (fun y hy => hy.elim (hA y) (fun e => e ▸ h2))
      (by
        have := h7.upd x (.int v0)
        intro y hy
        rw [this y hy]
        simp only [Env.upd]
        split
        · rename_i e; rw [e, h9]
        · rfl) h6
    have hx3 : ρ3 x = some (.int v0) := by rw [← g1 x (.inr rfl), hx rfl]
    obtain ⟨d2, ρ4, b2, g2⟩ := i2 n A (ρ3.upd x (.int (succv zero v0))) zero (succv zero v0) hn hA h1 h2 h4 h6
      ((g1.mono (fun y hy => .inl hy)).updr h1 _) upd_eq hs
    obtain ⟨m, c0, c1, c2⟩ := big3 b0 b1 b2
    refine ⟨m, ρ4, ?_, g2⟩
    refine .loopT ?_ (stmts_app c1 (stmts_one (next_run hx3))) c2
    have hc := cond_run (zero := zero) c0 h9
    rwa [hg] at hc
  | @rangeRet ρ S x hi e v0 vs b r ρ1 S1 _ r1 i0 i1 =>
    intro n A ρ' zero v hn hA h1 h2 h4 h6 h7 h9 h10
    obtain ⟨hg, rfl, hs⟩ := h10
    obtain ⟨d0, b0⟩ := i0 rfl ρ' (fun y hy => h7 y (h4 y hy))
    obtain ⟨d1, ρ3, b1, g1⟩ := i1 n (fun y => A y ∨ y = x) ρ' hn
      (fun y hy => hy.elim (hA y) (fun e => e ▸ h2))
      (by
        have := h7.upd x (.int v0)
        intro y hy
        rw [this y hy]
        simp only [Env.upd]
        split
        · rename_i e; rw [e, h9]
        · rfl) h6
    have := big2 b0 b1
    refine ⟨max d0 d1, ρ3, ?_, g1.mono (fun y hy => .inl hy)⟩
    refine .loopR ?_ (stmts_app_ret this.2)
    have hc := cond_run (zero := zero) this.1 h9
    rwa [hg] at hc
  | @forA ρ S x t arr b p S1 o ρ1 S' h1 hs h2 i1 i2 =>
    intro n A ρ' hn hA ha hf
    simp only [SS.Mild] at hf
    obtain ⟨f1, f2, f3, f5⟩ := hf
    have hw := lowL_writes L b n
    have hbw := b.mild_writes (fun z hz => hz.elim (hA z) (fun e => e ▸ f3)) f5
    have hfresh : ∀ y, (lowL L b n).2 ≤ y → y ∉ (lowL L b n).1.writes := by
      intro y hy hc
      rcases hw.2 y hc with hc | hc
      · have := hbw y hc
        omega
      · omega
    obtain ⟨d1, b1⟩ := i1 ρ' (fun y hy => ha y (f1 y hy))
    cases hl : litArr arr with
    | false =>
      obtain rfl := hs rfl hl
      obtain ⟨d3, ρ3, b3, g3⟩ := i2 n A (ρ'.upd (lowL L b n).2 (.int (BitVec.ofInt 63 0))) t arr (lowL L b n).2 hn hA f2 f3
        (Nat.le_refl _) (hfresh _ (Nat.le_refl _)) (.inl ⟨hl, rfl, f1⟩) f5
        (ha.updr (fun hc => by have := hA _ hc; omega) _) (by rw [upd_eq]; rfl) (by decide)
      refine ⟨d3, ρ3, ?_, g3⟩
      have hla : loopArray L arr (lowL L b n).2 = (none, arr, (lowL L b n).2) := by
        cases arr <;> first | rfl | cases hl
      rw [lowS, hla]
      refine .block (.cons (.asgVar .int .locVar) ?_)
      cases o with
      | norm => exact stmts_one b3
      | ret v => exact .consR b3
    | true =>
      cases arr <;> first | cases hl | skip
      rename_i tl el
      have b1' : Big (lowP L N P) d1 (.expr ρ' S el (some (.ptr p)) S1) := by cases b1; assumption
      obtain ⟨d3, ρ3, b3, g3⟩ := i2 n A ((ρ'.upd (lowL L b n).2 (.ptr p)).upd ((lowL L b n).2 + 1) (.int (BitVec.ofInt 63 0))) t
        (.var (lowL L b n).2 L.intArr) ((lowL L b n).2 + 1) hn hA f2 f3
        (by omega) (hfresh _ (by omega))
        (.inr ⟨rfl, _, _, rfl, by omega, by omega, hfresh _ (Nat.le_refl _), by rw [upd_ne (by omega), upd_eq]⟩) f5
        ((ha.updr (fun hc => by have := hA _ hc; omega) _).updr (fun hc => by have := hA _ hc; omega) _)
        (by rw [upd_eq]; rfl) (by decide)
      have := big2 b1' b3
      refine ⟨max d1 d3, ρ3, ?_, g3⟩
      rw [lowS]
      refine .block (.cons (.asgVar this.1 .locVar) (.cons (.asgVar .int .locVar) ?_))
      cases o with
      | norm => exact stmts_one this.2
      | ret v => exact .consR this.2
  | @elemsEnd ρ S x arr p i b len _ r1 r2 i0 =>
    intro n A ρ' t arr' idx hn hA h1 h2 h3 h7 h8 hb h9 h11 h12
    obtain ⟨d0, b0⟩ := elem_arr h8 h9 (fun h => i0 rfl h)
    have := length_run b0 h11 r1
    rw [ofNat_toInt63 h12, decide_eq_false r2] at this
    exact ⟨d0, _, .loopF this, h9⟩
  | @elemsCons ρ S x arr p i b len v ρ1 S1 o ρ2 S2 _ r1 r2 r3 r4 r5 i0 i1 i2 =>
    intro n A ρ' t arr' idx hn hA h1 h2 h3 h7 h8 hb h9 h11 h12
    have hlt : len.toInt < 2 ^ 62 := BitVec.toInt_lt
    have hnw := (lowL_writes L b n).1
    obtain ⟨d0, b0⟩ := elem_arr h8 h9 (fun h => i0 rfl h)
    obtain ⟨d1, ρ3, b1, g1⟩ := i1 n (fun y => A y ∨ y = x) (ρ'.upd x v) hn
      (fun y hy => hy.elim (hA y) (fun e => e ▸ h2)) (h9.upd x v) hb
    have hi3 : ρ3 idx = some (.int (BitVec.ofNat 63 i)) := by rw [stmts_frame b1 h7, upd_ne (by omega), h11]
    obtain ⟨d2, ρ4, b2, g2⟩ := i2 n A (ρ3.upd idx (.int (BitVec.ofNat 63 i + BitVec.ofInt 63 1))) t arr' idx hn hA h1 h2 h3 h7
      (by
        rcases h8 with h8 | ⟨hl, h, th, e, k1, k2, k3, k4⟩
        · exact .inl h8
        · exact .inr ⟨hl, h, th, e, k1, k2, k3, by rw [upd_ne k2, stmts_frame b1 k3, upd_ne (by omega), k4]⟩) hb
      ((g1.mono (fun y hy => .inl hy)).updr (fun hc => by have := hA _ hc; omega) _)
      (by rw [upd_eq, ofNat_succ63]) (by omega)
    obtain ⟨m, c0, c1, c2⟩ := big3 b0 b1 b2
    refine ⟨m, ρ4, ?_, g2⟩
    refine .loopT ?_ (.cons (.asgVar (.index c0 (.var h11) r1 ?_ ?_ ?_) .locVar)
      (stmts_app c1 (stmts_one (inc_run hi3)))) c2
    · have hc := length_run c0 h11 r1
      rw [ofNat_toInt63 h12, decide_eq_true r2] at hc
      exact hc
    · rw [ofNat_toInt63 h12]; omega
    · rw [ofNat_toInt63 h12]; exact r2
    · rw [ofNat_toInt63 h12]; exact r3
  | @elemsRet ρ S x arr p i b len v r ρ1 S1 _ r1 r2 r3 r4 i0 i1 =>
    intro n A ρ' t arr' idx hn hA h1 h2 h3 h7 h8 hb h9 h11 h12
    obtain ⟨d0, b0⟩ := elem_arr h8 h9 (fun h => i0 rfl h)
    obtain ⟨d1, ρ3, b1, g1⟩ := i1 n (fun y => A y ∨ y = x) (ρ'.upd x v) hn
      (fun y hy => hy.elim (hA y) (fun e => e ▸ h2)) (h9.upd x v) hb
    have := big2 b0 b1
    refine ⟨max d0 d1, ρ3, ?_, g1.mono (fun y hy => .inl hy)⟩
    refine .loopR ?_ (.cons (.asgVar (.index this.1 (.var h11) r1 ?_ ?_ ?_) .locVar) (stmts_app_ret this.2))
    · have hc := length_run this.1 h11 r1
      rw [ofNat_toInt63 h12, decide_eq_true r2] at hc
      exact hc
    · rw [ofNat_toInt63 h12]; omega
    · rw [ofNat_toInt63 h12]; exact r2
    · rw [ofNat_toInt63 h12]; exact r3
  | @match_ ρ S e cs v S1 k vars b vals o ρ1 S' h1 h2 h3 h4 h5 h6 i1 i2 =>
    intro n A ρ' hn hA ha hf
    simp only [SS.Mild] at hf
    obtain ⟨d1, b1⟩ := i1 ρ' (fun y hy => ha y (hf.1 y hy))
    obtain ⟨d2, ρ2, b2, g2⟩ := match_run (tt := e.ty) hL h2 h4 h5 hA hn i2 cs (n + 1) (ρ'.upd n v) (by omega) h3 hf.2
      (ha.updr (fun hc => by have := hA _ hc; omega) _) upd_eq
    have := big2 b1 b2
    refine ⟨max d1 d2, ρ2, ?_, g2⟩
    cases cs with
    | nil => simp [SCs.find] at h3
    | cons tag vs b next =>
      rw [lowS_match_cons]
      refine .block (.cons (.asgVar this.1 .locVar) ?_)
      cases o with
      | norm => exact stmts_one (.ifs this.2)
      | ret v => exact .consR (.ifs this.2)
  | @matchPass ρ S e cs v S1 k h0 h1 h2 h3 i1 =>
    intro n A ρ' hn hA ha hf
    simp only [SS.Mild] at hf
    obtain ⟨d1, b1⟩ := i1 ρ' (fun y hy => ha y (hf.1 y hy))
    obtain ⟨d2, b2⟩ := match_pass (N := N) (tt := e.ty) hL h2 cs (n + 1) (ρ'.upd n v) h3 upd_eq
    have := big2 b1 b2
    refine ⟨max d1 d2, ρ'.upd n v, ?_, ha.updr (fun hc => by have := hA _ hc; omega) _⟩
    cases cs with
    | nil =>
      rw [lowS_match_nil]
      exact .block (stmts_one (.asgVar this.1 .locVar))
    | cons tag vs b next =>
      rw [lowS_match_cons]
      exact .block (.cons (.asgVar this.1 .locVar) (stmts_one (.ifs this.2)))
  | @matchNil ρ S e v S1 h0 h1 i1 =>
    intro n A ρ' hn hA ha hf
    simp only [SS.Mild] at hf
    obtain ⟨d1, b1⟩ := i1 ρ' (fun y hy => ha y (hf.1 y hy))
    refine ⟨d1, ρ'.upd n v, ?_, ha.updr (fun hc => by have := hA _ hc; omega) _⟩
    rw [lowS_match_nil]
    exact .block (stmts_one (.asgVar b1 .locVar))
  | chDone => exact fun n A ρ' hn hA ha hf => ⟨0, _, .chDone, ha⟩
  | chElse h1 i1 =>
    intro n A ρ' hn hA ha hf
    obtain ⟨d1, ρ1', b1, g1⟩ := i1 n A ρ' hn hA ha hf
    exact ⟨_, _, .chElse b1, g1⟩
  | chT h1 h2 i1 i2 =>
    intro n A ρ' hn hA ha hf
    obtain ⟨d1, b1⟩ := i1 ρ' (fun y hy => ha y (hf.1 y hy))
    obtain ⟨d2, ρ2, b2, g2⟩ := i2 n A ρ' hn hA ha hf.2.1
    have := big2 b1 b2
    exact ⟨_, _, .chT this.1 this.2, g2⟩
  | @chF ρ S c b nx S1 o ρ1 S' h1 h2 i1 i2 =>
    intro n A ρ' hn hA ha hf
    obtain ⟨d1, b1⟩ := i1 ρ' (fun y hy => ha y (hf.1 y hy))
    obtain ⟨d2, ρ2, b2, g2⟩ := i2 (lowL L b n).2 A ρ' (Nat.le_trans hn (lowL_writes L b n).1) hA ha hf.2.2
    have := big2 b1 b2
    exact ⟨_, _, .chF this.1 this.2, g2⟩
  | nil => exact fun n A ρ' hn hA ha hf => ⟨0, _, .nil, ha⟩
  | @cons ρ S s ss ρ1 S1 o ρ2 S2 h1 h2 i1 i2 =>
    intro n A ρ' hn hA ha hf
    obtain ⟨d1, ρ3, b1, g1⟩ := i1 n A ρ' hn hA ha hf.1
    obtain ⟨d2, ρ4, b2, g2⟩ := i2 (lowS L s n).2 A ρ3 (Nat.le_trans hn (lowS_writes L s n).1) hA g1 hf.2
    have := big2 b1 b2
    exact ⟨_, _, .cons this.1 this.2, g2⟩
  | consR h1 i1 =>
    intro n A ρ' hn hA ha hf
    obtain ⟨d1, ρ3, b1, g1⟩ := i1 n A ρ' hn hA ha hf.1
    exact ⟨_, _, .consR b1, g1⟩
  | fnRet h1 h2 h3 i1 =>
    intro hm
    have hf := hF _ hm
    simp only [SFn.Mild, h1] at hf
    obtain ⟨A, hA, hf⟩ := hf
    obtain ⟨d1, ρ1, b1, -⟩ := i1 N A _ (Nat.le_refl _) hA (fun _ _ => rfl) hf
    exact ⟨d1, .fnRet (lowF_body h1) h2 b1⟩
  | fnEnd h1 h2 h3 h4 i1 =>
    intro hm
    have hf := hF _ hm
    simp only [SFn.Mild, h1] at hf
    obtain ⟨A, hA, hf⟩ := hf
    obtain ⟨d1, ρ1, b1, -⟩ := i1 N A _ (Nat.le_refl _) hA (fun _ _ => rfl) hf
    exact ⟨d1, .fnEnd (lowF_body h1) h2 h3 b1⟩
  | fnExpr h1 h2 h3 i1 =>
    intro hm
    obtain ⟨d1, b1⟩ := i1 _ (fun _ _ => rfl)
    exact ⟨d1, .fnExpr (by simp [lowF, h1, lowB]) h2 b1⟩
  | fnCons h1 h2 h3 h4 =>
    intro hm
    exact ⟨P.base.extNeed P.base.alloc, .fnCons (by simp [lowF, h1, lowB]) h2 h3 (Nat.le_refl _) h4⟩
  | @fnDyn fd0 isCl uns T n b p vs vs' fd v S S1 h1 h2 _ _ h4 h5 h6 _ i2 i3 i1 =>
    intro hm
    obtain ⟨d1, b1⟩ := i1 h4
    obtain ⟨d2, b2⟩ := i2 _ (fun _ _ => rfl)
    obtain ⟨d3, b3⟩ := i3 _ (fun _ _ => rfl)
    exact ⟨max d2 (max d3 (d1 + (lowF L N fd).cost)),
      .fnDyn (fd := lowF L N fd) h1.low h2.more (Big.mono b2 (by omega)) (Big.mono b3 (by omega)) (List.mem_map_of_mem h4) h5 h6 b1 (by omega)⟩

end Clara.Sema
