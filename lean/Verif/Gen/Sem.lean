import Verif.Gen.Emit
import Verif.Gen.DynFn
/-
Meaning of lowered programs: a big-step semantics over 63-bit integers, booleans and addresses.
It knows nothing about registers, tags or stack slots.

Stack use is part of the semantics: `Big P d …` says that the evaluation succeeds with `d` words of
stack beyond what the functions being executed need for themselves; each call takes the cost of the
function called from the budget.
-/
namespace Clara.Gen

inductive Val
  | int (n : BitVec 63)
  | bool (b : Bool)
  | ptr (w : Word)
  deriving DecidableEq, Repr

structure Store (σ : Type) where
  heap : Word → Option Val
  ext : σ

abbrev Env := Nat → Option Val

def Env.upd (ρ : Env) (x : Nat) (v : Val) : Env := fun y => if y = x then some v else ρ y

/-- Writing an allocated cell. -/
def Store.write {σ : Type} (S : Store σ) (a : Word) (v : Val) : Option (Store σ) :=
  match S.heap a with
  | none => none
  | some _ => some { S with heap := fun b => if b = a then some v else S.heap b }

/-- Writing consecutive words. -/
def Store.writeAll {σ : Type} (S : Store σ) (a : Word) : List Val → Option (Store σ)
  | [] => some S
  | v :: vs => (S.write a v).bind (fun S' => S'.writeAll (a + 8) vs)

/-- Binary operators. -/
def BinOp.eval : BinOp → Val → Val → Option Val
  | .add, .int a, .int b => some (.int (a + b))
  | .sub, .int a, .int b => some (.int (a - b))
  | .mul, .int a, .int b => some (.int (a * b))
  | .div, .int a, .int b => if b = 0 then none else some (.int (a.sdiv b))
  | .bor, .int a, .int b => some (.int (a ||| b))
  | .band, .int a, .int b => some (.int (a &&& b))
  | .bxor, .int a, .int b => some (.int (a ^^^ b))
  | .bleft, .int a, .int b => some (.int (a <<< (b.toNat % 64)))
  | .bright, .int a, .int b => some (.int (a.sshiftRight (b.toNat % 64)))
  | .gt, .int a, .int b => some (.bool (decide (b.toInt < a.toInt)))
  | .ge, .int a, .int b => some (.bool (decide (b.toInt ≤ a.toInt)))
  | .lt, .int a, .int b => some (.bool (decide (a.toInt < b.toInt)))
  | .le, .int a, .int b => some (.bool (decide (a.toInt ≤ b.toInt)))
  | .eq, .int a, .int b => some (.bool (decide (a = b)))
  | .and, .bool a, .bool b => some (.bool (a && b))
  | .or, .bool a, .bool b => some (.bool (a || b))
  | _, _, _ => none

def UnOp.eval : UnOp → Val → Option Val
  | .not, .bool a => some (.bool (!a))
  | .bnot, .int a => some (.int (~~~ a))
  | .neg, .int a => some (.int (- a))
  | _, _ => none

/-- The 64-bit representation of values. -/
def Val.enc : Val → Word
  | .int n => (n.setWidth 64 <<< 1) ||| 1
  | .bool b => if b then 1 else 0
  | .ptr w => w

/-- What an external function receives: raw functions get C integers and pointers to the data behind
the length word. -/
def rawArg (fi : FnInfo) (t : TK) (v : Val) : Word :=
  if fi.raw then
    match t, v with
    | .string, v | .array, v | .bytes, v => v.enc + 8
    | .integer, .int n => n.signExtend 64
    | .integer, v => v.enc.sshiftRight 1
    | _, v => v.enc
  else v.enc

/-- How the result of an external function is read: raw functions return C integers. -/
def extRes (fi : FnInfo) (w : Word) (v : Option Val) : Prop :=
  if fi.raw = true ∧ fi.ret.kind = .integer then ∀ x, v = some x → x = .int (w.setWidth 63)
  else ∀ x, v = some x → x.enc = w

/-! ### Stack use -/

mutual
/-- Words of stack that an expression needs apart from the functions it calls. -/
def Expr.use : Expr → Nat
  | .int _ | .bool _ | .str _ | .typ _ | .fnRef _ _ _ | .var _ _ => 0
  | .bin _ _ l r => max l.use (1 + r.use)
  | .un _ _ e => e.use
  | .tern _ c a b => max c.use (max a.use b.use)
  | .arrLit _ e => e.use
  | .callFn _ _ args | .callVar _ _ args => 6 + (1 + useL args)
  | .callExpr e _ args => max e.use (1 + (6 + (1 + useL args)))
  | .dot _ e _ => max e.use 1
  | .index _ a i => max a.use (1 + i.use)
def useL : List Expr → Nat
  | [] => 0
  | e :: es => max e.use (useL es)
end

mutual
def Stmt.use : Stmt → Nat
  | .ret (some e) => e.use
  | .ret none => 0
  | .ifs c => c.use
  | .asg _ l r => max r.use (1 + l.use)
  | .loop c b => max c.use b.use
  | .block b => b.use
  | .expr e => e.use
def Chain.use : Chain → Nat
  | .done => 0
  | .els b => b.use
  | .cond c b n => max c.use (max b.use n.use)
def Stmts.use : Stmts → Nat
  | .nil => 0
  | .cons s ss => max s.use ss.use
end

def Body.use : Body → Nat
  | .block ss => ss.use
  | .expr e => e.use
  | .cons _ _ _ => 0

/-- Stack words taken by a call of the function: return address, saved frame pointer, variables,
temporaries. -/
def FnDef.cost (fd : FnDef) : Nat := 2 + fd.frame + fd.body.use

/-! ### Programs -/

structure Prog (σ : Type) where
  fns : List FnDef
  /-- assembler names of the allocator and of the index panic function -/
  alloc : String
  ioob : String
  /-- addresses of string literals and functions -/
  str : String → Word
  fnAddr : String → Word
  /-- external functions: argument words, result word -/
  ext : String → List (Option Word) → Store σ → Word → Store σ → Prop
  /-- functions of the runtime with the calling convention of Clara -/
  rt : String → List (Option Val) → Store σ → Option Val → Store σ → Prop
  /-- stack words that these need -/
  extNeed : String → Nat

/-- Values of the parameters at the start of a call. -/
def bindParams : List (Nat × TyR) → List (Option Val) → Env
  | (x, _) :: ps, v :: vs => fun y => if y = x then v else bindParams ps vs y
  | _, _ => fun _ => none

inductive Out
  | norm
  | ret (v : Option Val)

inductive Loc
  | var (x : Nat)
  | mem (a : Word)

/-- What a derivation is about. -/
inductive Jd (σ : Type)
  /-- the expression has the value; `none` is a result that must not be used -/
  | expr (ρ : Env) (S : Store σ) (e : Expr) (v : Option Val) (S' : Store σ)
  | args (ρ : Env) (S : Store σ) (es : List Expr) (vs : List (Option Val)) (S' : Store σ)
  /-- the expression denotes the location -/
  | loc (ρ : Env) (S : Store σ) (e : Expr) (l : Loc) (S' : Store σ)
  | stmt (ρ : Env) (S : Store σ) (s : Stmt) (o : Out) (ρ' : Env) (S' : Store σ)
  | stmts (ρ : Env) (S : Store σ) (ss : Stmts) (o : Out) (ρ' : Env) (S' : Store σ)
  | chain (ρ : Env) (S : Store σ) (c : Chain) (o : Out) (ρ' : Env) (S' : Store σ)
  /-- a call of the function with the arguments -/
  | fn (fd : FnDef) (vs : List (Option Val)) (S : Store σ) (v : Option Val) (S' : Store σ)

def extArgs (fi : FnInfo) : List Expr → List (Option Val) → List (Option Word)
  | e :: es, v :: vs => v.map (rawArg fi e.ty.kind) :: extArgs fi es vs
  | _, _ => []

/-- The value `p` stands for the function `f`, which is to be called with `vs'` when the value is called with `vs`:
it is the address of the function (`b` is `false`), or a closure that holds the address of the function and of its environment. -/
inductive Denotes {σ : Type} (P : Prog σ) (S : Store σ) : Bool → String → List (Option Val) → Word → List (Option Val) → Prop
  | fn {f vs} : Denotes P S false f vs (P.fnAddr f) vs
  | closure {f vs p e} : S.heap p = some (.ptr (P.fnAddr f)) → S.heap (p + 8) = some (.ptr e) →
      Denotes P S true f vs p (some (.ptr e) :: vs)

theorem Denotes.more {σ : Type} {P : Prog σ} {fns : List FnDef} {S : Store σ} {b : Bool} {f : String} {vs : List (Option Val)} {p : Word}
    {vs' : List (Option Val)} (h : Denotes P S b f vs p vs') : Denotes { P with fns := fns } S b f vs p vs' := by
  cases h with
  | fn => exact .fn (P := { P with fns := fns })
  | closure h1 h2 => exact .closure (P := { P with fns := fns }) h1 h2

inductive Big {σ : Type} (P : Prog σ) : Nat → Jd σ → Prop
  -- expressions
  | int {d ρ S i} : Big P d (.expr ρ S (.int i) (some (.int (BitVec.ofInt 63 i))) S)
  | bool {d ρ S b} : Big P d (.expr ρ S (.bool b) (some (.bool b)) S)
  | str {d ρ S s} : Big P d (.expr ρ S (.str s) (some (.ptr (P.str s))) S)
  | typ {d ρ S t} : Big P d (.expr ρ S (.typ t) none S)
  | var {d ρ S x t v} : ρ x = some v → Big P d (.expr ρ S (.var x t) (some v) S)
  | fnRef {d ρ S f t} : Big P d (.expr ρ S (.fnRef f false t) (some (.ptr (P.fnAddr f))) S)
  | bin {d ρ S o t l r a S1 b S2 c} :
      Big P d (.expr ρ S l (some a) S1) → Big P d (.expr ρ S1 r (some b) S2) →
      o.eval a b = some c → Big P d (.expr ρ S (.bin o t l r) (some c) S2)
  | un {d ρ S o t e a S1 b} : Big P d (.expr ρ S e (some a) S1) → o.eval a = some b →
      Big P d (.expr ρ S (.un o t e) (some b) S1)
  | ternT {d ρ S t c x y S1 v S2} : Big P d (.expr ρ S c (some (.bool true)) S1) →
      Big P d (.expr ρ S1 x v S2) → Big P d (.expr ρ S (.tern t c x y) v S2)
  | ternF {d ρ S t c x y S1 v S2} : Big P d (.expr ρ S c (some (.bool false)) S1) →
      Big P d (.expr ρ S1 y v S2) → Big P d (.expr ρ S (.tern t c x y) v S2)
  | arrLit {d ρ S t e v S1} : Big P d (.expr ρ S e v S1) → Big P d (.expr ρ S (.arrLit t e) v S1)
  | callFn {d d' ρ S f fi args vs S1 fd v S2} : fi.ext = false →
      Big P d (.args ρ S args vs S1) → fd ∈ P.fns → fd.name = f → fd.skip = false →
      Big P d' (.fn fd vs S1 v S2) → d' + fd.cost ≤ d →
      Big P d (.expr ρ S (.callFn f fi args) v S2)
  | callRt {d ρ S f fi args vs S1 v S2} : fi.ext = false →
      Big P d (.args ρ S args vs S1) → P.rt f vs S1 v S2 → P.extNeed f ≤ d →
      Big P d (.expr ρ S (.callFn f fi args) v S2)
  | callExt {d ρ S f fi args vs S1 w v S2} : fi.ext = true →
      Big P d (.args ρ S args vs S1) → P.ext f (extArgs fi args vs) S1 w S2 → extRes fi w v →
      P.extNeed f ≤ d → Big P d (.expr ρ S (.callFn f fi args) v S2)
  | callVar {d d' ρ S x fi args vs S1 fd v S2} : fi.ext = false → ρ x = some (.ptr (P.fnAddr fd.name)) →
      Big P d (.args ρ S args vs S1) → fd ∈ P.fns → fd.skip = false →
      Big P d' (.fn fd vs S1 v S2) → d' + fd.cost ≤ d →
      Big P d (.expr ρ S (.callVar x fi args) v S2)
  | callExpr {d d' ρ S e fi args vs S0 S1 fd v S2} : fi.ext = false →
      Big P d (.expr ρ S e (some (.ptr (P.fnAddr fd.name))) S0) →
      Big P d (.args ρ S0 args vs S1) → fd ∈ P.fns → fd.skip = false →
      Big P d' (.fn fd vs S1 v S2) → d' + fd.cost ≤ d →
      Big P d (.expr ρ S (.callExpr e fi args) v S2)
  | dot {d ρ S t e off p S1 v} : Big P d (.expr ρ S e (some (.ptr p)) S1) →
      S1.heap (p + BitVec.ofNat 64 off) = some v →
      Big P d (.expr ρ S (.dot t e off) (some v) S1)
  | index {d ρ S t a i p n len S1 S2 v} : Big P d (.expr ρ S a (some (.ptr p)) S1) →
      Big P d (.expr ρ S1 i (some (.int n)) S2) → S2.heap p = some (.int len) →
      0 ≤ n.toInt → n.toInt < len.toInt →
      S2.heap (p + 8 + 8 * BitVec.ofInt 64 n.toInt) = some v →
      Big P d (.expr ρ S (.index t a i) (some v) S2)
  -- arguments
  | argsNil {d ρ S} : Big P d (.args ρ S [] [] S)
  | argsCons {d ρ S e es v vs S1 S2} : Big P d (.expr ρ S e v S1) → Big P d (.args ρ S1 es vs S2) →
      Big P d (.args ρ S (e :: es) (v :: vs) S2)
  -- locations
  | locVar {d ρ S x t} : Big P d (.loc ρ S (.var x t) (.var x) S)
  | locDot {d ρ S t e off p S1} : Big P d (.expr ρ S e (some (.ptr p)) S1) →
      Big P d (.loc ρ S (.dot t e off) (.mem (p + BitVec.ofNat 64 off)) S1)
  | locIndex {d ρ S t a i p n len S1 S2} : Big P d (.expr ρ S a (some (.ptr p)) S1) →
      Big P d (.expr ρ S1 i (some (.int n)) S2) → S2.heap p = some (.int len) →
      0 ≤ n.toInt → n.toInt < len.toInt →
      Big P d (.loc ρ S (.index t a i) (.mem (p + 8 + 8 * BitVec.ofInt 64 n.toInt)) S2)
  -- statements
  | retE {d ρ S e v S1} : Big P d (.expr ρ S e v S1) → Big P d (.stmt ρ S (.ret (some e)) (.ret v) ρ S1)
  | retN {d ρ S} : Big P d (.stmt ρ S (.ret none) (.ret none) ρ S)
  | ifs {d ρ S c o ρ' S'} : Big P d (.chain ρ S c o ρ' S') → Big P d (.stmt ρ S (.ifs c) o ρ' S')
  | asgVar {d ρ S dc l r v x S1 S2} : Big P d (.expr ρ S r (some v) S1) →
      Big P d (.loc ρ S1 l (.var x) S2) →
      Big P d (.stmt ρ S (.asg dc l r) .norm (ρ.upd x v) S2)
  | asgMem {d ρ S dc l r v a S1 S2 S3} : Big P d (.expr ρ S r (some v) S1) →
      Big P d (.loc ρ S1 l (.mem a) S2) → S2.write a v = some S3 →
      Big P d (.stmt ρ S (.asg dc l r) .norm ρ S3)
  | loopF {d ρ S c b S1} : Big P d (.expr ρ S c (some (.bool false)) S1) →
      Big P d (.stmt ρ S (.loop c b) .norm ρ S1)
  | loopT {d ρ S c b S1 ρ1 S2 o ρ2 S3} : Big P d (.expr ρ S c (some (.bool true)) S1) →
      Big P d (.stmts ρ S1 b .norm ρ1 S2) → Big P d (.stmt ρ1 S2 (.loop c b) o ρ2 S3) →
      Big P d (.stmt ρ S (.loop c b) o ρ2 S3)
  | loopR {d ρ S c b S1 v ρ1 S2} : Big P d (.expr ρ S c (some (.bool true)) S1) →
      Big P d (.stmts ρ S1 b (.ret v) ρ1 S2) → Big P d (.stmt ρ S (.loop c b) (.ret v) ρ1 S2)
  | block {d ρ S b o ρ' S'} : Big P d (.stmts ρ S b o ρ' S') → Big P d (.stmt ρ S (.block b) o ρ' S')
  | expr {d ρ S e v S1} : Big P d (.expr ρ S e v S1) → Big P d (.stmt ρ S (.expr e) .norm ρ S1)
  -- `if` chains
  | chDone {d ρ S} : Big P d (.chain ρ S .done .norm ρ S)
  | chElse {d ρ S b o ρ' S'} : Big P d (.stmts ρ S b o ρ' S') → Big P d (.chain ρ S (.els b) o ρ' S')
  | chT {d ρ S c b n S1 o ρ' S'} : Big P d (.expr ρ S c (some (.bool true)) S1) →
      Big P d (.stmts ρ S1 b o ρ' S') → Big P d (.chain ρ S (.cond c b n) o ρ' S')
  | chF {d ρ S c b n S1 o ρ' S'} : Big P d (.expr ρ S c (some (.bool false)) S1) →
      Big P d (.chain ρ S1 n o ρ' S') → Big P d (.chain ρ S (.cond c b n) o ρ' S')
  -- sequences
  | nil {d ρ S} : Big P d (.stmts ρ S .nil .norm ρ S)
  | cons {d ρ S s ss ρ1 S1 o ρ2 S2} : Big P d (.stmt ρ S s .norm ρ1 S1) →
      Big P d (.stmts ρ1 S1 ss o ρ2 S2) → Big P d (.stmts ρ S (.cons s ss) o ρ2 S2)
  | consR {d ρ S s ss v ρ1 S1} : Big P d (.stmt ρ S s (.ret v) ρ1 S1) →
      Big P d (.stmts ρ S (.cons s ss) (.ret v) ρ1 S1)
  -- functions
  | fnRet {d fd vs S ss v ρ' S'} : fd.body = .block ss → vs.length = fd.params.length →
      Big P d (.stmts (bindParams fd.params vs) S ss (.ret v) ρ' S') → Big P d (.fn fd vs S v S')
  | fnEnd {d fd vs S ss ρ' S'} : fd.body = .block ss → vs.length = fd.params.length →
      fd.retNothing = true →
      Big P d (.stmts (bindParams fd.params vs) S ss .norm ρ' S') → Big P d (.fn fd vs S none S')
  | fnExpr {d fd vs S e v S'} : fd.body = .expr e → vs.length = fd.params.length →
      Big P d (.expr (bindParams fd.params vs) S e v S') → Big P d (.fn fd vs S v S')
  | fnCons {d fd S tag desc id vals a S1 S2} : fd.body = .cons tag desc id →
      vals.length = fd.params.length →
      P.rt P.alloc [some (.int (BitVec.ofNat 63 (8 * vals.length + if tag.isSome then 8 else 0))),
        some (.ptr (P.str desc)), some (.int (BitVec.ofNat 63 id))] S (some (.ptr a)) S1 →
      P.extNeed P.alloc ≤ d →
      S1.writeAll a ((tag.map (fun t => Val.int (BitVec.ofNat 63 t))).toList ++ vals) = some S2 →
      Big P d (.fn fd (vals.map some) S (some (.ptr a)) S2)
  /-- `invokeDynamic` runs the function that the value stands for -/
  | fnDyn {d d' fd0 isCl uns T n b p vs vs' fd v S S1} : IsDyn fd0 isCl uns T n → Denotes P S b fd.name vs p vs' →
      Big P d (.expr (bindParams fd0.params (some (.ptr p) :: vs)) S (T.test isCl n) (some (.bool b)) S) →
      Big P d (.expr (bindParams fd0.params (some (.ptr p) :: vs)) S (T.castIf uns b n) (some (.ptr p)) S) → fd ∈ P.fns → fd.skip = false → vs.length ≤ 5 →
      Big P d' (.fn fd vs' S v S1) → d' + fd.cost ≤ d → Big P d (.fn fd0 (some (.ptr p) :: vs) S v S1)

end Clara.Gen
