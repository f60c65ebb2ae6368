import Verif.Gen.SimGo
import Verif.Props.Codegen
/-
Programs that do not end normally (C77): they go on for ever, call a function that need not return (a panic, or
the C library), or divide by zero.
-/
namespace Clara.Props
open Clara.Gen

variable {σ : Type} {P : Prog σ} {I : Image σ} {C : List Ev} {lim top d k : Nat}

/-- `n` steps of the machine. -/
inductive StepsN {σ : Type} (I : Image σ) : Nat → Cfg σ → Cfg σ → Prop
  | none {c} : StepsN I 0 c c
  | more {n c c1 c2} : Step I c c1 → StepsN I n c1 c2 → StepsN I (n + 1) c c2

theorem far_next {n : Nat} {c c' : Cfg σ} (h : Far I (fun _ => True) k c) (hk : n < k) (hs : StepsN I n c c') :
    ∃ c2, Step I c' c2 := by
  induction hs generalizing k with
  | none =>
    cases h with
    | now => omega
    | step h => exact h
  | more h1 _ ih =>
    cases h with
    | now => omega
    | step _ h => exact ih (h _ h1) (by omega)

theorem go_fn (X : Ctx P I C lim top) {h : Hit σ} {fd : FnDef} (hfd : fd ∈ P.fns) (hs : fd.skip = false)
    {vs : List (Option Val)} {S : Store σ} {p q : Nat} {m : Mach σ} (hg : Going P h d k (.fn fd vs S))
    (hc : Called I lim top fd vs S d p q m) : Far I (h.at I lim top) k (p, m) :=
  Far.of_reaches (go X hg m p q hfd hs hc.entry hc.back hc.align hc.stack hc.below hc.args hc.rel)

/-- **C77.** A function that goes on for ever does so when it is compiled: after any number of steps of any execution
there is a next one. -/
theorem C77_forever (X : Ctx P I C lim top) {fd : FnDef} (hfd : fd ∈ P.fns) (hs : fd.skip = false)
    {vs : List (Option Val)} {S : Store σ} (hg : ∀ k, Going P .run d k (.fn fd vs S))
    {p q : Nat} {m : Mach σ} (hc : Called I lim top fd vs S d p q m) :
    ∀ n c, StepsN I n (p, m) c → ∃ c', Step I c c' :=
  fun n _ h => far_next (go_fn X hfd hs (hg (n + 1)) hc) (Nat.lt_succ_self n) h

/-- In particular it does not return to a place without code. -/
theorem C77_no_return (X : Ctx P I C lim top) {fd : FnDef} (hfd : fd ∈ P.fns) (hs : fd.skip = false)
    {vs : List (Option Val)} {S : Store σ} (hg : ∀ k, Going P .run d k (.fn fd vs S))
    {p q : Nat} {m : Mach σ} (hc : Called I lim top fd vs S d p q m) (hq : I.code[q]? = none) :
    ∀ n c, StepsN I n (p, m) c → c.1 ≠ q := by
  rintro n ⟨q', m'⟩ h rfl
  obtain ⟨c', hst⟩ := C77_forever X hfd hs hg hc n _ h
  cases hst <;> simp_all

/-- Every call the source comes to is reached, by every execution, with the arguments in the registers, the stack aligned,
and the heap and the world those of the source: calls of the C library and of the allocator as well as panics. -/
theorem C77_call (X : Ctx P I C lim top) {fd : FnDef} (hfd : fd ∈ P.fns) (hs : fd.skip = false)
    {vs : List (Option Val)} {S S' : Store σ} {f : String} {ws : List (Option Word)}
    (hg : Going P (.call f ws S') d k (.fn fd vs S)) {p q : Nat} {m : Mach σ}
    (hc : Called I lim top fd vs S d p q m) : Reaches I (AtCall I lim top f ws S') (p, m) :=
  (go_fn X hfd hs hg hc).reaches

/-- A division by zero of the source is one of the machine, which stops there. -/
theorem C77_div (X : Ctx P I C lim top) {fd : FnDef} (hfd : fd ∈ P.fns) (hs : fd.skip = false)
    {vs : List (Option Val)} {S S' : Store σ} (hg : Going P (.div S') d k (.fn fd vs S)) {p q : Nat} {m : Mach σ}
    (hc : Called I lim top fd vs S d p q m) :
    Reaches I (fun c => AtDiv I lim top S' c ∧ ∀ c', ¬ Step I c c') (p, m) := by
  refine (go_fn X hfd hs hg hc).reaches.mono ?_
  rintro ⟨p', m'⟩ ⟨h1, h2, h3⟩
  refine ⟨⟨h1, h2, h3⟩, ?_⟩
  intro c' hst
  simp only at h1 h2
  cases hst with
  | straight hc' _ he => rw [h1] at hc'; cases hc'; simp [exec, h2] at he
  | jmp hc' | label hc' | taken hc' | fall hc' | jmpReg hc' | ret hc' | call hc' | callC hc'
  | callRt hc' | callReg hc' | callMem hc' => rw [h1] at hc'; cases hc'

/-! Examples

    fn spin(n: int) { while n == n { n = n + 1 } }
    fn quot(n: int) int { s := 0; while n > 0 { n = n - 1 } return s / n }
    fn calls(a: []int) int { i := 0; while true { i = i + a[i] } }
    fn main(n: int) { spin(quot(n) - 1) }
-/

def loopSpin : Stmt :=
  .loop (.bin .eq tBool (.var 0 tInt) (.var 0 tInt))
    (.cons (.asg false (.var 0 tInt) (.bin .add tInt (.var 0 tInt) (.int 1))) .nil)

def loopCount : Stmt :=
  .loop (.bin .gt tBool (.var 0 tInt) (.int 0))
    (.cons (.asg false (.var 0 tInt) (.bin .sub tInt (.var 0 tInt) (.int 1))) .nil)

def loopSum : Stmt :=
  .loop (.bool true) (.cons (.asg false (.var 1 tInt) (.bin .add tInt (.var 1 tInt)
    (.index tInt (.var 0 tArr) (.var 1 tInt)))) .nil)

def loopFns : List FnDef :=
  [{ name := "clara_spin", params := [(0, tInt)], retNothing := true, body := .block (.cons loopSpin .nil) },
   { name := "clara_quot", params := [(0, tInt)],
     body := .block (.cons (.asg true (.var 1 tInt) (.int 0)) (.cons loopCount
       (.cons (.ret (some (.bin .div tInt (.var 1 tInt) (.var 0 tInt)))) .nil))) },
   { name := "clara_calls", params := [(0, tArr)], retNothing := true,
     body := .block (.cons (.asg true (.var 1 tInt) (.int 0)) (.cons loopSum .nil)) },
   { name := "clara_main", params := [(0, tInt)], retNothing := true,
     body := .block (.cons (.expr (.callFn "clara_spin" { ret := { kind := .nothing } }
       [.bin .sub tInt (.callFn "clara_quot" { ret := tInt } [.var 0 tInt]) (.int 1)])) .nil) }]

abbrev loopImage (opt : Bool) : Image Word := bumpImage opt "alloc" "ioob" loopFns (fun _ => 0)

theorem loopCtx (opt : Bool) : Ctx (bumpProg opt "alloc" "ioob" loopFns (fun _ => 0) 65536)
    (loopImage opt) (genProg "alloc" "ioob" loopFns) 65536 (2 ^ 60) :=
  bump_ctx' _ (by decide +kernel) (by decide +kernel) (by decide +kernel) (by decide +kernel) (by decide) (by decide +kernel)

/-- The loop of `spin` makes any number of rounds. -/
theorem spin_rounds (P : Prog σ) (S : Store σ) (k : Nat) : ∀ (ρ : Env) (n : BitVec 63), ρ 0 = some (.int n) →
    Going P .run d k (.stmt ρ S loopSpin) := by
  induction k with
  | zero => intro ρ n _; exact .here rfl
  | succ k ih =>
    intro ρ n hn
    refine .loop (.bin (.var hn) (.var hn) ?_) (.cons (.asgVar (.bin (.var hn) .int rfl) .locVar) .nil)
      (ih _ (n + 1) ?_)
    · simp [BinOp.eval]
    · simp [Env.upd]

theorem spin_going (P : Prog σ) (S : Store σ) (k : Nat) (n : BitVec 63) :
    Going P .run d k (.fn loopFns[0] [some (.int n)] S) :=
  .fnBlock rfl rfl (.consHd (spin_rounds P S k _ n rfl))

/-- `main(-1)` goes on for ever. -/
theorem main_forever (opt : Bool) : ∃ p q m, Called (loopImage opt) 65536 (2 ^ 60) loopFns[3] [some (.int (-1))]
    ⟨fun _ => none, 0⟩ 64 p q m ∧ ∀ n c, StepsN (loopImage opt) n (p, m) c → ∃ c', Step (loopImage opt) c c' := by
  have X := loopCtx opt
  have h : loopFns[3] ∈ loopFns := by simp [loopFns]
  obtain ⟨p, q, m, hc⟩ := bump_called (d := 64) X h [.int (-1)] (by decide) 0
  refine ⟨p, q, m, hc, C77_forever X h rfl ?_ hc⟩
  intro k
  refine .fnBlock rfl rfl (.consHd (.expr (.callFn (d' := 0) (fd := loopFns[0]) rfl (.argsCons (.bin
    (.callFn (d' := 0) (fd := loopFns[1]) rfl (.argsCons (.var rfl) .argsNil) (by simp [loopFns, bumpProg]) rfl rfl
      (.fnRet rfl rfl (.cons (.asgVar .int .locVar) (.cons (.loopF (.bin (.var rfl) .int rfl))
        (.consR (.retE (.bin (.var rfl) (.var rfl) rfl)))))) (by decide))
    .int rfl) .argsNil) (by simp [loopFns, bumpProg]) rfl rfl (spin_going _ _ k _) (by decide))))

/-- `main(2)` divides by zero. -/
example (opt : Bool) : ∃ p m, Reaches (loopImage opt)
    (fun c => AtDiv (loopImage opt) 65536 (2 ^ 60) ⟨fun _ => none, 0⟩ c ∧ ∀ c', ¬ Step (loopImage opt) c c') (p, m) := by
  have X := loopCtx opt
  have h : loopFns[3] ∈ loopFns := by simp [loopFns]
  obtain ⟨p, q, m, hc⟩ := bump_called (d := 64) X h [.int 2] (by decide) 0
  refine ⟨p, m, C77_div X h rfl (k := 0) ?_ hc⟩
  exact .fnBlock rfl rfl (.consHd (.expr (.callFnA (.argsHd (.binL (.callFn (d' := 0) (fd := loopFns[1]) rfl
    (.argsCons (.var rfl) .argsNil) (by simp [loopFns, bumpProg]) rfl rfl
    (.fnBlock rfl rfl (.consTl (.asgVar .int .locVar) (.consTl
      (.loopT (.bin (.var rfl) .int rfl) (.cons (.asgVar (.bin (.var rfl) .int rfl) .locVar) .nil)
      (.loopT (.bin (.var rfl) .int rfl) (.cons (.asgVar (.bin (.var rfl) .int rfl) .locVar) .nil)
        (.loopF (.bin (.var rfl) .int rfl))))
      (.consHd (.ret (.divZero rfl (.var rfl) (.var rfl))))))) (by decide)))))))

/-- `calls([10, 20, 30])` panics in its second round. -/
example (opt : Bool) : ∃ p m, Reaches (loopImage opt) (AtCall (loopImage opt) 65536 (2 ^ 60) "ioob"
    [some (Val.int 10).enc, some (Val.int 3).enc] arrStore) (p, m) := by
  have X := loopCtx opt
  have h : loopFns[2] ∈ loopFns := by simp [loopFns]
  obtain ⟨p, q, m, hc⟩ := bump_called_heap (d := 64) X h [.ptr 4096] (by decide) arrStore arrOk
  refine ⟨p, m, C77_call X h rfl (k := 1) ?_ hc⟩
  exact .fnBlock rfl rfl (.consTl (.asgVar .int .locVar) (.consHd (.loop .bool
    (.cons (.asgVar (.bin (.var rfl) (.index (.var rfl) (.var rfl) rfl (by decide) (by decide) rfl) rfl) .locVar) .nil)
    (.loopB .bool (.consHd (.asgR (.binR (.var rfl)
      (.outside rfl (.var rfl) (.var rfl) rfl (by decide) (.inr (by decide))))))))))

end Clara.Props
