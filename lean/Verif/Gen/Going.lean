import Verif.Gen.Ready
import Verif.Gen.Spec
/-
Executions that do not end: what the semantics says about a program that is still running, that is about to
call a function (one of C, of the runtime, or the panic function for indices), or that divides by zero.

`Big` (`Sem.lean`) relates the start of an evaluation to its end.  `Going` only has the start: it says how far
the evaluation gets.  The parts that are over are described by `Big`.
-/
namespace Clara.Gen

/-- The start of an evaluation. -/
inductive Pt (σ : Type)
  | expr (ρ : Env) (S : Store σ) (e : Expr)
  | args (ρ : Env) (S : Store σ) (es : List Expr)
  | loc (ρ : Env) (S : Store σ) (e : Expr)
  | stmt (ρ : Env) (S : Store σ) (s : Stmt)
  | stmts (ρ : Env) (S : Store σ) (ss : Stmts)
  | chain (ρ : Env) (S : Store σ) (c : Chain)
  | fn (fd : FnDef) (vs : List (Option Val)) (S : Store σ)

/-- Where an evaluation is observed. -/
inductive Hit (σ : Type)
  /-- anywhere -/
  | run
  /-- it calls the function with these words, in this heap and world -/
  | call (f : String) (ws : List (Option Word)) (S : Store σ)
  /-- it divides by zero -/
  | div (S : Store σ)

/-- The words a function receives. -/
def argWords (fi : FnInfo) (es : List Expr) (vs : List (Option Val)) : List (Option Word) :=
  if fi.ext then extArgs fi es vs else vs.map (·.map Val.enc)

/-- The evaluation that starts at the point comes to `h`, after at least `k` further rounds of loops.  As in `Big`,
`d` is the number of words of stack there are beyond those of the functions being executed. -/
inductive Going {σ : Type} (P : Prog σ) (h : Hit σ) : Nat → Nat → Pt σ → Prop
  | here {d p} : h = .run → Going P h d 0 p
  -- expressions
  | callNow {d ρ S f fi args vs S1} : h = .call f (argWords fi args vs) S1 → Big P d (.args ρ S args vs S1) →
      Going P h d 0 (.expr ρ S (.callFn f fi args))
  | divZero {d ρ S t l r a S1 S2} : h = .div S2 → Big P d (.expr ρ S l (some (.int a)) S1) →
      Big P d (.expr ρ S1 r (some (.int 0)) S2) → Going P h d 0 (.expr ρ S (.bin .div t l r))
  | outside {d ρ S t a i p n len S1 S2} : h = .call P.ioob [some (Val.int n).enc, some (Val.int len).enc] S2 →
      Big P d (.expr ρ S a (some (.ptr p)) S1) → Big P d (.expr ρ S1 i (some (.int n)) S2) →
      S2.heap p = some (.int len) → 0 ≤ len.toInt → n.toInt < 0 ∨ len.toInt ≤ n.toInt →
      Going P h d 0 (.expr ρ S (.index t a i))
  | binL {d k ρ S o t l r} : Going P h d k (.expr ρ S l) → Going P h d k (.expr ρ S (.bin o t l r))
  | binR {d k ρ S o t l r a S1} : Big P d (.expr ρ S l (some a) S1) → Going P h d k (.expr ρ S1 r) →
      Going P h d k (.expr ρ S (.bin o t l r))
  | un {d k ρ S o t e} : Going P h d k (.expr ρ S e) → Going P h d k (.expr ρ S (.un o t e))
  | ternC {d k ρ S t c x y} : Going P h d k (.expr ρ S c) → Going P h d k (.expr ρ S (.tern t c x y))
  | ternT {d k ρ S t c x y S1} : Big P d (.expr ρ S c (some (.bool true)) S1) → Going P h d k (.expr ρ S1 x) →
      Going P h d k (.expr ρ S (.tern t c x y))
  | ternF {d k ρ S t c x y S1} : Big P d (.expr ρ S c (some (.bool false)) S1) → Going P h d k (.expr ρ S1 y) →
      Going P h d k (.expr ρ S (.tern t c x y))
  | arrLit {d k ρ S t e} : Going P h d k (.expr ρ S e) → Going P h d k (.expr ρ S (.arrLit t e))
  | callFnA {d k ρ S f fi args} : Going P h d k (.args ρ S args) → Going P h d k (.expr ρ S (.callFn f fi args))
  | callFn {d d' k ρ S f fi args vs S1 fd} : fi.ext = false →
      Big P d (.args ρ S args vs S1) → fd ∈ P.fns → fd.name = f → fd.skip = false →
      Going P h d' k (.fn fd vs S1) → d' + fd.cost ≤ d → Going P h d k (.expr ρ S (.callFn f fi args))
  | callVarA {d k ρ S x fi args} : Going P h d k (.args ρ S args) → Going P h d k (.expr ρ S (.callVar x fi args))
  | callVar {d d' k ρ S x fi args vs S1 fd} : fi.ext = false → ρ x = some (.ptr (P.fnAddr fd.name)) →
      Big P d (.args ρ S args vs S1) → fd ∈ P.fns → fd.skip = false →
      Going P h d' k (.fn fd vs S1) → d' + fd.cost ≤ d → Going P h d k (.expr ρ S (.callVar x fi args))
  | callExprE {d k ρ S e fi args} : Going P h d k (.expr ρ S e) → Going P h d k (.expr ρ S (.callExpr e fi args))
  | callExprA {d k ρ S e fi args v S0} : Big P d (.expr ρ S e v S0) → Going P h d k (.args ρ S0 args) →
      Going P h d k (.expr ρ S (.callExpr e fi args))
  | callExpr {d d' k ρ S e fi args vs S0 S1 fd} : fi.ext = false →
      Big P d (.expr ρ S e (some (.ptr (P.fnAddr fd.name))) S0) →
      Big P d (.args ρ S0 args vs S1) → fd ∈ P.fns → fd.skip = false →
      Going P h d' k (.fn fd vs S1) → d' + fd.cost ≤ d → Going P h d k (.expr ρ S (.callExpr e fi args))
  | dot {d k ρ S t e off} : Going P h d k (.expr ρ S e) → Going P h d k (.expr ρ S (.dot t e off))
  | indexA {d k ρ S t a i} : Going P h d k (.expr ρ S a) → Going P h d k (.expr ρ S (.index t a i))
  | indexI {d k ρ S t a i v S1} : Big P d (.expr ρ S a v S1) → Going P h d k (.expr ρ S1 i) →
      Going P h d k (.expr ρ S (.index t a i))
  -- arguments
  | argsHd {d k ρ S e es} : Going P h d k (.expr ρ S e) → Going P h d k (.args ρ S (e :: es))
  | argsTl {d k ρ S e es v S1} : Big P d (.expr ρ S e v S1) → Going P h d k (.args ρ S1 es) →
      Going P h d k (.args ρ S (e :: es))
  -- locations
  | locDot {d k ρ S t e off} : Going P h d k (.expr ρ S e) → Going P h d k (.loc ρ S (.dot t e off))
  | locIndexA {d k ρ S t a i} : Going P h d k (.expr ρ S a) → Going P h d k (.loc ρ S (.index t a i))
  | locIndexI {d k ρ S t a i v S1} : Big P d (.expr ρ S a v S1) → Going P h d k (.expr ρ S1 i) →
      Going P h d k (.loc ρ S (.index t a i))
  | locOutside {d ρ S t a i p n len S1 S2} : h = .call P.ioob [some (Val.int n).enc, some (Val.int len).enc] S2 →
      Big P d (.expr ρ S a (some (.ptr p)) S1) → Big P d (.expr ρ S1 i (some (.int n)) S2) →
      S2.heap p = some (.int len) → 0 ≤ len.toInt → n.toInt < 0 ∨ len.toInt ≤ n.toInt →
      Going P h d 0 (.loc ρ S (.index t a i))
  -- statements
  | ret {d k ρ S e} : Going P h d k (.expr ρ S e) → Going P h d k (.stmt ρ S (.ret (some e)))
  | ifs {d k ρ S c} : Going P h d k (.chain ρ S c) → Going P h d k (.stmt ρ S (.ifs c))
  | asgR {d k ρ S dc l r} : Going P h d k (.expr ρ S r) → Going P h d k (.stmt ρ S (.asg dc l r))
  | asgL {d k ρ S dc l r v S1} : Big P d (.expr ρ S r v S1) → Going P h d k (.loc ρ S1 l) →
      Going P h d k (.stmt ρ S (.asg dc l r))
  | loopC {d k ρ S c b} : Going P h d k (.expr ρ S c) → Going P h d k (.stmt ρ S (.loop c b))
  | loopB {d k ρ S c b S1} : Big P d (.expr ρ S c (some (.bool true)) S1) → Going P h d k (.stmts ρ S1 b) →
      Going P h d k (.stmt ρ S (.loop c b))
  /-- one round more -/
  | loop {d k ρ S c b S1 ρ1 S2} : Big P d (.expr ρ S c (some (.bool true)) S1) →
      Big P d (.stmts ρ S1 b .norm ρ1 S2) → Going P h d k (.stmt ρ1 S2 (.loop c b)) →
      Going P h d (k + 1) (.stmt ρ S (.loop c b))
  | block {d k ρ S b} : Going P h d k (.stmts ρ S b) → Going P h d k (.stmt ρ S (.block b))
  | expr {d k ρ S e} : Going P h d k (.expr ρ S e) → Going P h d k (.stmt ρ S (.expr e))
  -- `if` chains
  | chElse {d k ρ S b} : Going P h d k (.stmts ρ S b) → Going P h d k (.chain ρ S (.els b))
  | chC {d k ρ S c b n} : Going P h d k (.expr ρ S c) → Going P h d k (.chain ρ S (.cond c b n))
  | chT {d k ρ S c b n S1} : Big P d (.expr ρ S c (some (.bool true)) S1) → Going P h d k (.stmts ρ S1 b) →
      Going P h d k (.chain ρ S (.cond c b n))
  | chF {d k ρ S c b n S1} : Big P d (.expr ρ S c (some (.bool false)) S1) → Going P h d k (.chain ρ S1 n) →
      Going P h d k (.chain ρ S (.cond c b n))
  -- sequences
  | consHd {d k ρ S s ss} : Going P h d k (.stmt ρ S s) → Going P h d k (.stmts ρ S (.cons s ss))
  | consTl {d k ρ S s ss ρ1 S1} : Big P d (.stmt ρ S s .norm ρ1 S1) → Going P h d k (.stmts ρ1 S1 ss) →
      Going P h d k (.stmts ρ S (.cons s ss))
  -- functions
  | fnBlock {d k fd vs S ss} : fd.body = .block ss → vs.length = fd.params.length →
      Going P h d k (.stmts (bindParams fd.params vs) S ss) → Going P h d k (.fn fd vs S)
  | fnExpr {d k fd vs S e} : fd.body = .expr e → vs.length = fd.params.length →
      Going P h d k (.expr (bindParams fd.params vs) S e) → Going P h d k (.fn fd vs S)
  /-- a constructor calls the allocator -/
  | fnCons {d fd vs S tag desc id} : h = .call P.alloc [some (Val.int (BitVec.ofNat 63 (8 * fd.params.length +
        if tag.isSome then 8 else 0))).enc, some (P.str desc), some (Val.int (BitVec.ofNat 63 id)).enc] S →
      fd.body = .cons tag desc id → vs.length = fd.params.length → Going P h d 0 (.fn fd vs S)
  /-- `invokeDynamic` runs the function that the value stands for -/
  | fnDyn {d d' k fd0 isCl uns T n b p vs vs' fd S} : IsDyn fd0 isCl uns T n → Denotes P S b fd.name vs p vs' →
      Big P d (.expr (bindParams fd0.params (some (.ptr p) :: vs)) S (T.test isCl n) (some (.bool b)) S) →
      Big P d (.expr (bindParams fd0.params (some (.ptr p) :: vs)) S (T.castIf uns b n) (some (.ptr p)) S) →
      fd ∈ P.fns → fd.skip = false → vs.length ≤ 5 →
      Going P h d' k (.fn fd vs' S) → d' + fd.cost ≤ d → Going P h d k (.fn fd0 (some (.ptr p) :: vs) S)

/-! ### The machine -/

/-- Every execution from the configuration makes at least `k` steps, without getting stuck, and comes to `H`. -/
inductive Far {σ : Type} (I : Image σ) (H : Cfg σ → Prop) : Nat → Cfg σ → Prop
  | now {c} : H c → Far I H 0 c
  | step {k c} : (∃ c', Step I c c') → (∀ c', Step I c c' → Far I H (k - 1) c') → Far I H k c

/-- The machine is about to divide by zero. -/
structure AtDiv {σ : Type} (I : Image σ) (lim top : Nat) (S : Store σ) (c : Cfg σ) : Prop where
  code : I.code[c.1]? = some (.ins (.idiv .rbx))
  zero : c.2.reg .rbx = 0
  rel : Rel lim top S c.2

/-- The machine is where the evaluation is observed. -/
def Hit.at {σ : Type} (I : Image σ) (lim top : Nat) : Hit σ → Cfg σ → Prop
  | .run, _ => True
  | .call f ws S, c => AtCall I lim top f ws S c
  | .div S, c => AtDiv I lim top S c

end Clara.Gen
