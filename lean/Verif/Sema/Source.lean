import Verif.Gen.Sem
/-
Statements as they are after type checking and before `match` and `for` are lowered, and what they
mean.  This is the specification: the meaning of `match` and `for` is given directly, with nothing
of the lowering in it.

Expressions are those of `Verif/Gen/Emit.lean` (array literals and function literals are rewritten
before, `main.go` 119-124).
-/
namespace Clara.Sema
open Clara.Gen

mutual
/-- Statements. -/
inductive SS
  | ret (e : Option Expr)
  | ifs (c : SCh)
  | asg (decl : Bool) (l r : Expr)
  | loop (c : Expr) (body : SSs)
  | expr (e : Expr)
  /-- `for x in lo .. hi`; `zero`: `hi` is a literal with the text `0` -/
  | forR (x : Nat) (lo hi : Expr) (zero : Bool) (body : SSs)
  /-- `for x in arr`; `t` is the type of the elements -/
  | forA (x : Nat) (t : TyR) (arr : Expr) (body : SSs)
  | match_ (e : Expr) (cs : SCs)
/-- `if … elseif … else` chains. -/
inductive SCh
  | done
  | els (body : SSs)
  | cond (c : Expr) (body : SSs) (next : SCh)
inductive SSs
  | nil
  | cons (s : SS) (ss : SSs)
/-- Cases of a `match`: the tag of the constructor, the variables, the statements. -/
inductive SCs
  | nil
  | cons (tag : Nat) (vars : List (Nat × TyR)) (body : SSs) (next : SCs)
end

inductive SBody
  | block (ss : SSs)
  | expr (e : Expr)
  | cons (tag : Option Nat) (desc : String) (id : Nat)

/-- A function. -/
structure SFn where
  name : String
  params : List (Nat × TyR)
  body : SBody
  retNothing : Bool := false
  skip : Bool := false

/-- A program: its functions, and the surroundings (literals, external and runtime functions) from
`base`, whose own `fns` are not used. -/
structure SProg (σ : Type) where
  fns : List SFn
  base : Prog σ

/-- The case for a tag: the first one with this tag. -/
def SCs.find (n : BitVec 63) : SCs → Option (List (Nat × TyR) × SSs)
  | .nil => none
  | .cons tag vars body next => if n = BitVec.ofInt 63 tag then some (vars, body) else next.find n

/-- The variables of a case bound to the arguments of the constructor, in order. -/
def bindVars : List (Nat × TyR) → List Val → Env → Env
  | (x, _) :: xs, v :: vs, ρ => bindVars xs vs (ρ.upd x v)
  | _, _, ρ => ρ

/-- The arguments that are stored in the object at `p` from the word `i` on. -/
def fields {σ : Type} (S : Store σ) (p : Word) (i : Nat) : List Val → Prop
  | [] => True
  | v :: vs => S.heap (p + BitVec.ofNat 64 (8 * i)) = some v ∧ fields S p (i + 1) vs

/-- What can vary: the values visited by a range loop, and whether a `match` without a case for the
value is passed over (`true`) or has no meaning (`false`).  With `again` only those runs count in which the
end of a range, and the array of a loop when it is not an array literal, have the same value each time
round, evaluating them changes nothing, and the variable of a range is not changed by the body. -/
structure Opts where
  range : Bool → BitVec 63 → BitVec 63 → List (BitVec 63) → Prop
  pass : Bool
  again : Bool := false

def litArr : Expr → Bool
  | .arrLit _ _ => true
  | _ => false

inductive SJd (σ : Type)
  | expr (ρ : Env) (S : Store σ) (e : Expr) (v : Option Val) (S' : Store σ)
  | args (ρ : Env) (S : Store σ) (es : List Expr) (vs : List (Option Val)) (S' : Store σ)
  | loc (ρ : Env) (S : Store σ) (e : Expr) (l : Loc) (S' : Store σ)
  | stmt (ρ : Env) (S : Store σ) (s : SS) (o : Out) (ρ' : Env) (S' : Store σ)
  | stmts (ρ : Env) (S : Store σ) (ss : SSs) (o : Out) (ρ' : Env) (S' : Store σ)
  | chain (ρ : Env) (S : Store σ) (c : SCh) (o : Out) (ρ' : Env) (S' : Store σ)
  /-- the statements are executed for each of the values of the variable in turn; the end of the range is
  `hi`, with the value `n` -/
  | range (ρ : Env) (S : Store σ) (x : Nat) (hi : Expr) (n : BitVec 63) (vs : List (BitVec 63)) (b : SSs) (o : Out) (ρ' : Env) (S' : Store σ)
  /-- the statements are executed for each element of the array at `p` from the `i`th on; the array is
  written `arr` -/
  | elems (ρ : Env) (S : Store σ) (x : Nat) (arr : Expr) (p : Word) (i : Nat) (b : SSs) (o : Out) (ρ' : Env) (S' : Store σ)
  | fn (fd : SFn) (vs : List (Option Val)) (S : Store σ) (v : Option Val) (S' : Store σ)

/-- The function is `invokeDynamic` (`install/lib/runtime.clara` 117-126). -/
structure SIsDyn (fd : SFn) (isCl uns : String) (T : DynT) (n : Nat) : Prop where
  params : fd.params = [(n, T.ptr), (n + 1, T.int), (n + 2, T.int), (n + 3, T.int), (n + 4, T.int), (n + 5, T.int)]
  body : fd.body = .block (.cons (.ifs (.cond (T.test isCl n)
    (.cons (.asg true (.var (n + 6) T.cl) (T.cast uns T.fiU1 T.cl n)) (.cons (.expr (.callExpr (.dot T.clf (.var (n + 6) T.cl) 0) T.fiE
      (.dot T.env (.var (n + 6) T.cl) 8 :: T.args n))) .nil))
    (.els (.cons (.asg true (.var (n + 7) T.f) (T.cast uns T.fiU2 T.f n)) (.cons (.expr (.callVar (n + 7) T.fiV (T.args n))) .nil))))) .nil)
  ret : fd.retNothing = true
  skip : fd.skip = false
  fiE : T.fiE.ext = false
  fiV : T.fiV.ext = false

/-- The meaning of programs.  Expressions, assignments, `if`, `while` and calls are as in
`Verif/Gen/Sem.lean`, without counting stack words. -/
inductive SBig {σ : Type} (O : Opts) (P : SProg σ) : SJd σ → Prop
  -- expressions
  | int {ρ S i} : SBig O P (.expr ρ S (.int i) (some (.int (BitVec.ofInt 63 i))) S)
  | bool {ρ S b} : SBig O P (.expr ρ S (.bool b) (some (.bool b)) S)
  | str {ρ S s} : SBig O P (.expr ρ S (.str s) (some (.ptr (P.base.str s))) S)
  | typ {ρ S t} : SBig O P (.expr ρ S (.typ t) none S)
  | var {ρ S x t v} : ρ x = some v → SBig O P (.expr ρ S (.var x t) (some v) S)
  | fnRef {ρ S f t} : SBig O P (.expr ρ S (.fnRef f false t) (some (.ptr (P.base.fnAddr f))) S)
  | bin {ρ S o t l r a S1 b S2 c} :
      SBig O P (.expr ρ S l (some a) S1) → SBig O P (.expr ρ S1 r (some b) S2) →
      o.eval a b = some c → SBig O P (.expr ρ S (.bin o t l r) (some c) S2)
  | un {ρ S o t e a S1 b} : SBig O P (.expr ρ S e (some a) S1) → o.eval a = some b →
      SBig O P (.expr ρ S (.un o t e) (some b) S1)
  | ternT {ρ S t c x y S1 v S2} : SBig O P (.expr ρ S c (some (.bool true)) S1) →
      SBig O P (.expr ρ S1 x v S2) → SBig O P (.expr ρ S (.tern t c x y) v S2)
  | ternF {ρ S t c x y S1 v S2} : SBig O P (.expr ρ S c (some (.bool false)) S1) →
      SBig O P (.expr ρ S1 y v S2) → SBig O P (.expr ρ S (.tern t c x y) v S2)
  | arrLit {ρ S t e v S1} : SBig O P (.expr ρ S e v S1) → SBig O P (.expr ρ S (.arrLit t e) v S1)
  | callFn {ρ S f fi args vs S1 fd v S2} : fi.ext = false →
      SBig O P (.args ρ S args vs S1) → fd ∈ P.fns → fd.name = f → fd.skip = false →
      SBig O P (.fn fd vs S1 v S2) → SBig O P (.expr ρ S (.callFn f fi args) v S2)
  | callRt {ρ S f fi args vs S1 v S2} : fi.ext = false →
      SBig O P (.args ρ S args vs S1) → P.base.rt f vs S1 v S2 →
      SBig O P (.expr ρ S (.callFn f fi args) v S2)
  | callExt {ρ S f fi args vs S1 w v S2} : fi.ext = true →
      SBig O P (.args ρ S args vs S1) → P.base.ext f (extArgs fi args vs) S1 w S2 → extRes fi w v →
      SBig O P (.expr ρ S (.callFn f fi args) v S2)
  | callVar {ρ S x fi args vs S1 fd v S2} : fi.ext = false → ρ x = some (.ptr (P.base.fnAddr fd.name)) →
      SBig O P (.args ρ S args vs S1) → fd ∈ P.fns → fd.skip = false →
      SBig O P (.fn fd vs S1 v S2) → SBig O P (.expr ρ S (.callVar x fi args) v S2)
  | callExpr {ρ S e fi args vs S0 S1 fd v S2} : fi.ext = false →
      SBig O P (.expr ρ S e (some (.ptr (P.base.fnAddr fd.name))) S0) →
      SBig O P (.args ρ S0 args vs S1) → fd ∈ P.fns → fd.skip = false →
      SBig O P (.fn fd vs S1 v S2) → SBig O P (.expr ρ S (.callExpr e fi args) v S2)
  | dot {ρ S t e off p S1 v} : SBig O P (.expr ρ S e (some (.ptr p)) S1) →
      S1.heap (p + BitVec.ofNat 64 off) = some v →
      SBig O P (.expr ρ S (.dot t e off) (some v) S1)
  | index {ρ S t a i p n len S1 S2 v} : SBig O P (.expr ρ S a (some (.ptr p)) S1) →
      SBig O P (.expr ρ S1 i (some (.int n)) S2) → S2.heap p = some (.int len) →
      0 ≤ n.toInt → n.toInt < len.toInt →
      S2.heap (p + 8 + 8 * BitVec.ofInt 64 n.toInt) = some v →
      SBig O P (.expr ρ S (.index t a i) (some v) S2)
  -- arguments
  | argsNil {ρ S} : SBig O P (.args ρ S [] [] S)
  | argsCons {ρ S e es v vs S1 S2} : SBig O P (.expr ρ S e v S1) → SBig O P (.args ρ S1 es vs S2) →
      SBig O P (.args ρ S (e :: es) (v :: vs) S2)
  -- locations
  | locVar {ρ S x t} : SBig O P (.loc ρ S (.var x t) (.var x) S)
  | locDot {ρ S t e off p S1} : SBig O P (.expr ρ S e (some (.ptr p)) S1) →
      SBig O P (.loc ρ S (.dot t e off) (.mem (p + BitVec.ofNat 64 off)) S1)
  | locIndex {ρ S t a i p n len S1 S2} : SBig O P (.expr ρ S a (some (.ptr p)) S1) →
      SBig O P (.expr ρ S1 i (some (.int n)) S2) → S2.heap p = some (.int len) →
      0 ≤ n.toInt → n.toInt < len.toInt →
      SBig O P (.loc ρ S (.index t a i) (.mem (p + 8 + 8 * BitVec.ofInt 64 n.toInt)) S2)
  -- statements
  | retE {ρ S e v S1} : SBig O P (.expr ρ S e v S1) → SBig O P (.stmt ρ S (.ret (some e)) (.ret v) ρ S1)
  | retN {ρ S} : SBig O P (.stmt ρ S (.ret none) (.ret none) ρ S)
  | ifs {ρ S c o ρ' S'} : SBig O P (.chain ρ S c o ρ' S') → SBig O P (.stmt ρ S (.ifs c) o ρ' S')
  | asgVar {ρ S dc l r v x S1 S2} : SBig O P (.expr ρ S r (some v) S1) →
      SBig O P (.loc ρ S1 l (.var x) S2) →
      SBig O P (.stmt ρ S (.asg dc l r) .norm (ρ.upd x v) S2)
  | asgMem {ρ S dc l r v a S1 S2 S3} : SBig O P (.expr ρ S r (some v) S1) →
      SBig O P (.loc ρ S1 l (.mem a) S2) → S2.write a v = some S3 →
      SBig O P (.stmt ρ S (.asg dc l r) .norm ρ S3)
  | loopF {ρ S c b S1} : SBig O P (.expr ρ S c (some (.bool false)) S1) →
      SBig O P (.stmt ρ S (.loop c b) .norm ρ S1)
  | loopT {ρ S c b S1 ρ1 S2 o ρ2 S3} : SBig O P (.expr ρ S c (some (.bool true)) S1) →
      SBig O P (.stmts ρ S1 b .norm ρ1 S2) → SBig O P (.stmt ρ1 S2 (.loop c b) o ρ2 S3) →
      SBig O P (.stmt ρ S (.loop c b) o ρ2 S3)
  | loopR {ρ S c b S1 v ρ1 S2} : SBig O P (.expr ρ S c (some (.bool true)) S1) →
      SBig O P (.stmts ρ S1 b (.ret v) ρ1 S2) → SBig O P (.stmt ρ S (.loop c b) (.ret v) ρ1 S2)
  | expr {ρ S e v S1} : SBig O P (.expr ρ S e v S1) → SBig O P (.stmt ρ S (.expr e) .norm ρ S1)
  -- `for`: the bounds are evaluated once, then the body is executed for the values of the range
  | forR {ρ S x lo hi zero b a n S1 S2 vs o ρ' S'} : SBig O P (.expr ρ S lo (some (.int a)) S1) →
      SBig O P (.expr ρ S1 hi (some (.int n)) S2) → (O.again = true → S2 = S1) → O.range zero a n vs →
      SBig O P (.range ρ S2 x hi n vs b o ρ' S') → SBig O P (.stmt ρ S (.forR x lo hi zero b) o ρ' S')
  | rangeNil {ρ S x hi n b} : (O.again = true → SBig O P (.expr ρ S hi (some (.int n)) S)) →
      SBig O P (.range ρ S x hi n [] b .norm ρ S)
  | rangeCons {ρ S x hi n v vs b ρ1 S1 o ρ2 S2} : (O.again = true → SBig O P (.expr ρ S hi (some (.int n)) S)) →
      SBig O P (.stmts (ρ.upd x (.int v)) S b .norm ρ1 S1) → (O.again = true → ρ1 x = some (.int v)) →
      SBig O P (.range ρ1 S1 x hi n vs b o ρ2 S2) → SBig O P (.range ρ S x hi n (v :: vs) b o ρ2 S2)
  | rangeRet {ρ S x hi n v vs b r ρ1 S1} : (O.again = true → SBig O P (.expr ρ S hi (some (.int n)) S)) →
      SBig O P (.stmts (ρ.upd x (.int v)) S b (.ret r) ρ1 S1) →
      SBig O P (.range ρ S x hi n (v :: vs) b (.ret r) ρ1 S1)
  -- `for`: the array is evaluated once, then the body is executed for each element
  | forA {ρ S x t arr b p S1 o ρ' S'} : SBig O P (.expr ρ S arr (some (.ptr p)) S1) →
      (O.again = true → litArr arr = false → S1 = S) →
      SBig O P (.elems ρ S1 x arr p 0 b o ρ' S') → SBig O P (.stmt ρ S (.forA x t arr b) o ρ' S')
  | elemsEnd {ρ S x arr p} {i : Nat} {b len} :
      (O.again = true → litArr arr = false → SBig O P (.expr ρ S arr (some (.ptr p)) S)) →
      S.heap p = some (.int len) → ¬ ((i : Int) < len.toInt) → SBig O P (.elems ρ S x arr p i b .norm ρ S)
  | elemsCons {ρ S x arr p} {i : Nat} {b len v ρ1 S1 o ρ2 S2} :
      (O.again = true → litArr arr = false → SBig O P (.expr ρ S arr (some (.ptr p)) S)) →
      S.heap p = some (.int len) → (i : Int) < len.toInt →
      S.heap (p + 8 + 8 * BitVec.ofInt 64 i) = some v →
      SBig O P (.stmts (ρ.upd x v) S b .norm ρ1 S1) →
      SBig O P (.elems ρ1 S1 x arr p (i + 1) b o ρ2 S2) → SBig O P (.elems ρ S x arr p i b o ρ2 S2)
  | elemsRet {ρ S x arr p} {i : Nat} {b len v r ρ1 S1} :
      (O.again = true → litArr arr = false → SBig O P (.expr ρ S arr (some (.ptr p)) S)) →
      S.heap p = some (.int len) → (i : Int) < len.toInt →
      S.heap (p + 8 + 8 * BitVec.ofInt 64 i) = some v →
      SBig O P (.stmts (ρ.upd x v) S b (.ret r) ρ1 S1) →
      SBig O P (.elems ρ S x arr p i b (.ret r) ρ1 S1)
  -- `match`: the object has the tag of a constructor and then its arguments; the case for the
  -- constructor is executed with its variables bound to the arguments
  | match_ {ρ S e cs v S1 n vars b vals o ρ' S'} : SBig O P (.expr ρ S e (some v) S1) →
      S1.heap v.enc = some (.int n) → cs.find n = some (vars, b) →
      vals.length = vars.length → fields S1 v.enc 1 vals →
      SBig O P (.stmts (bindVars vars vals ρ) S1 b o ρ' S') →
      SBig O P (.stmt ρ S (.match_ e cs) o ρ' S')
  | matchPass {ρ S e cs v S1 n} : O.pass = true → SBig O P (.expr ρ S e (some v) S1) →
      S1.heap v.enc = some (.int n) → cs.find n = none →
      SBig O P (.stmt ρ S (.match_ e cs) .norm ρ S1)
  | matchNil {ρ S e v S1} : O.pass = true → SBig O P (.expr ρ S e (some v) S1) →
      SBig O P (.stmt ρ S (.match_ e .nil) .norm ρ S1)
  -- `if` chains
  | chDone {ρ S} : SBig O P (.chain ρ S .done .norm ρ S)
  | chElse {ρ S b o ρ' S'} : SBig O P (.stmts ρ S b o ρ' S') → SBig O P (.chain ρ S (.els b) o ρ' S')
  | chT {ρ S c b n S1 o ρ' S'} : SBig O P (.expr ρ S c (some (.bool true)) S1) →
      SBig O P (.stmts ρ S1 b o ρ' S') → SBig O P (.chain ρ S (.cond c b n) o ρ' S')
  | chF {ρ S c b n S1 o ρ' S'} : SBig O P (.expr ρ S c (some (.bool false)) S1) →
      SBig O P (.chain ρ S1 n o ρ' S') → SBig O P (.chain ρ S (.cond c b n) o ρ' S')
  -- sequences
  | nil {ρ S} : SBig O P (.stmts ρ S .nil .norm ρ S)
  | cons {ρ S s ss ρ1 S1 o ρ2 S2} : SBig O P (.stmt ρ S s .norm ρ1 S1) →
      SBig O P (.stmts ρ1 S1 ss o ρ2 S2) → SBig O P (.stmts ρ S (.cons s ss) o ρ2 S2)
  | consR {ρ S s ss v ρ1 S1} : SBig O P (.stmt ρ S s (.ret v) ρ1 S1) →
      SBig O P (.stmts ρ S (.cons s ss) (.ret v) ρ1 S1)
  -- functions
  | fnRet {fd vs S ss v ρ' S'} : fd.body = .block ss → vs.length = fd.params.length →
      SBig O P (.stmts (bindParams fd.params vs) S ss (.ret v) ρ' S') → SBig O P (.fn fd vs S v S')
  | fnEnd {fd vs S ss ρ' S'} : fd.body = .block ss → vs.length = fd.params.length →
      fd.retNothing = true →
      SBig O P (.stmts (bindParams fd.params vs) S ss .norm ρ' S') → SBig O P (.fn fd vs S none S')
  | fnExpr {fd vs S e v S'} : fd.body = .expr e → vs.length = fd.params.length →
      SBig O P (.expr (bindParams fd.params vs) S e v S') → SBig O P (.fn fd vs S v S')
  | fnCons {fd S tag desc id vals a S1 S2} : fd.body = .cons tag desc id →
      vals.length = fd.params.length →
      P.base.rt P.base.alloc [some (.int (BitVec.ofNat 63 (8 * vals.length + if tag.isSome then 8 else 0))),
        some (.ptr (P.base.str desc)), some (.int (BitVec.ofNat 63 id))] S (some (.ptr a)) S1 →
      S1.writeAll a ((tag.map (fun t => Val.int (BitVec.ofNat 63 t))).toList ++ vals) = some S2 →
      SBig O P (.fn fd (vals.map some) S (some (.ptr a)) S2)
  /-- `invokeDynamic` runs the function that the value stands for -/
  | fnDyn {fd0 isCl uns T n b p vs vs' fd v S S1} : SIsDyn fd0 isCl uns T n → Denotes P.base S b fd.name vs p vs' →
      SBig O P (.expr (bindParams fd0.params (some (.ptr p) :: vs)) S (T.test isCl n) (some (.bool b)) S) →
      SBig O P (.expr (bindParams fd0.params (some (.ptr p) :: vs)) S (T.castIf uns b n) (some (.ptr p)) S) → fd ∈ P.fns → fd.skip = false → vs.length ≤ 5 →
      SBig O P (.fn fd vs' S v S1) → SBig O P (.fn fd0 (some (.ptr p) :: vs) S v S1)

/-- The documented range: the start is included and the end is not when the range increases, the
other way round when it decreases (`docs/index.md` 159-160). -/
def docRange (_ : Bool) (a b : BitVec 63) (vs : List (BitVec 63)) : Prop :=
  if a.toInt ≤ b.toInt then
    vs.map (·.toInt) = (List.range (b.toInt - a.toInt).toNat).map (fun i : Nat => a.toInt + (i : Int))
  else
    vs.map (·.toInt) = (List.range (a.toInt - b.toInt).toNat).map (fun i : Nat => a.toInt - 1 - (i : Int))

end Clara.Sema
