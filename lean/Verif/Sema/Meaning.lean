import Verif.Sema.ToGen
set_option linter.unusedVariables false
/-
What programs mean after type checking (C68): a big-step semantics on the checked tree.  It knows nothing about the
numbers of variables, about the trees of the code generator, or about how `for` and `match` are rewritten.  Variables are
found by name, the innermost first; a name that the type checker has bound to a declared function is a call of it.

Values, the heap and the behaviour of external functions are those of `Verif/Gen/Sem.lean`.

A function literal without captured variables is the address of its function.  Otherwise its value is an object with the
address of its function and the address of an object with the values that the captured variables have when the literal is
evaluated; in its body the captured variables are in that object.  The functions of literals are numbered in the order of
the program, inner ones first.  An array literal is what the library functions `arrayNoInit` and `setElement` make.
-/
namespace Clara.Sema.Chk
open Clara.Types
open Clara.Gen (Val Store Out Word TK Prog rawArg extRes)

/-- What a variable has: a value, or a place in memory where its value is.  A parameter has no value when the argument
has none (as `type(T)`). -/
inductive Cell
  | val (v : Option Val)
  | ref (a : Word)

/-- The variables in scope, the innermost first. -/
abbrev Vars := List (String × Cell)

/-- The value of the innermost variable of the name. -/
def Vars.value {σ : Type} (γ : Vars) (S : Store σ) (x : String) : Option Val :=
  match γ.lookup x with
  | some (.val v) => v
  | some (.ref a) => S.heap a
  | none => none

/-- Assignment changes the innermost variable of the name. -/
def Vars.set : Vars → String → Val → Vars
  | [], _, _ => []
  | (y, w) :: γ, x, v => if y = x then (y, .val (some v)) :: γ else (y, w) :: Vars.set γ x v

/-- At the end of a block what was declared in it is gone: `γ` are the variables at its beginning. -/
def Vars.leave (γ γ' : Vars) : Vars := γ'.drop (γ'.length - γ.length)

/-- Names bound to values, the last one being the innermost. -/
def Vars.bind (xs : List String) (vs : List (Option Val)) : Vars := (xs.zip (vs.map Cell.val)).reverse

/-- Variables that are one after the other in memory. -/
def Vars.at (xs : List String) (a : Word) : Vars := xs.zipIdx.map fun q => (q.1, .ref (a + BitVec.ofNat 64 (8 * q.2)))

/-- The arithmetic is that of 63-bit integers. -/
def BinOp.val : BinOp → Val → Val → Option Val
  | .and, .bool a, .bool b => some (.bool (a && b))
  | .or, .bool a, .bool b => some (.bool (a || b))
  | .add, .int a, .int b => some (.int (a + b))
  | .sub, .int a, .int b => some (.int (a - b))
  | .mul, .int a, .int b => some (.int (a * b))
  | .div, .int a, .int b => if b = 0 then none else some (.int (a.sdiv b))
  | .band, .int a, .int b => some (.int (a &&& b))
  | .bor, .int a, .int b => some (.int (a ||| b))
  | .bxor, .int a, .int b => some (.int (a ^^^ b))
  | .bleft, .int a, .int b => some (.int (a <<< (b.toNat % 64)))
  | .bright, .int a, .int b => some (.int (a.sshiftRight (b.toNat % 64)))
  | _, _, _ => none

def CmpOp.val : CmpOp → Val → Val → Option Val
  | .gt, .int a, .int b => some (.bool (decide (a.toInt > b.toInt)))
  | .gte, .int a, .int b => some (.bool (decide (a.toInt ≥ b.toInt)))
  | .lt, .int a, .int b => some (.bool (decide (a.toInt < b.toInt)))
  | .lte, .int a, .int b => some (.bool (decide (a.toInt ≤ b.toInt)))
  | .eq, .int a, .int b => some (.bool (decide (a.toInt = b.toInt)))
  | _, _, _ => none

def UnOp.val : UnOp → Val → Option Val
  | .not, .bool a => some (.bool (!a))
  | .bnot, .int a => some (.int (~~~ a))
  | .neg, .int a => some (.int (- a))
  | _, _ => none

/-- The kind of value an expression has; this matters for arguments of external functions. -/
def X.kind : X → TK
  | .lit (.int _ _) _ => .integer
  | .lit (.string _) _ => .string
  | .lit (.bool _) _ => .boolean
  | e => match e.typ with | some t => kindOf t | none => .nothing

/-- The words that an external function with these attributes gets. -/
def extWords (fi : Gen.FnInfo) : List X → List (Option Val) → List (Option Word)
  | e :: es, v :: vs => v.map (rawArg fi e.kind) :: extWords fi es vs
  | _, _ => []

/-- The first case for the constructor. -/
def caseFor (fid : Nat) : List Case → Option (List String × List S)
  | [] => none
  | .mk _ sym vars ss :: cs => if sym.map (·.fid) = some fid then some (vars.map (·.1), ss) else caseFor fid cs

/-! ### Function literals -/

/-- Each name once, where it is first. -/
def firsts : List String → List String
  | [] => []
  | x :: xs => x :: (firsts xs).filter (· ≠ x)

/-- The names without the given ones. -/
def without (ys xs : List String) : List String := xs.filter (· ∉ ys)

/-- The names that a statement declares for the statements after it. -/
def declares : S → List String
  | .das (.ident x _) _ => [x]
  | _ => []

mutual
/-- The variables that are used in an expression and not declared in it, in order. -/
def freeX : X → List String
  | .lit _ _ => []
  | .ident x a => match a.sym with | some (s :: _) => if s.isGlobal then [] else [x] | _ => []
  | .call f _ args _ => freeX f ++ freeL args
  | .bin _ l r _ => freeX l ++ freeX r
  | .cmp _ l r _ => freeX l ++ freeX r
  | .un _ e _ => freeX e
  | .tern c x y _ => freeX c ++ (freeX x ++ freeX y)
  | .arr es _ => freeL es
  | .index l r _ => freeX l ++ freeX r
  | .dot l _ _ => freeX l
  | .ty _ _ => []
  | .fnB h _ ss _ => firsts (without (h.params.map (·.1)) (freeB ss))
  | .fnE h _ e _ => firsts (without (h.params.map (·.1)) (freeX e))
def freeL : List X → List String
  | [] => []
  | e :: es => freeX e ++ freeL es
def freeS : S → List String
  | .expr e => freeX e
  | .loop c ss => freeX c ++ freeB ss
  | .for_ x _ e ss => freeX e ++ without [x] (freeB ss)
  | .ifs c => freeCh c
  | .ret0 => []
  | .ret e => freeX e
  | .das _ r => freeX r
  | .asg l r => freeX l ++ freeX r
  | .match_ e cs => freeX e ++ freeCs cs
def freeCh : Ch → List String
  | .done => []
  | .els ss => freeB ss
  | .cond c ss n => freeX c ++ (freeB ss ++ freeCh n)
def freeB : List S → List String
  | [] => []
  | s :: ss => freeS s ++ without (declares s) (freeB ss)
def freeCs : List Case → List String
  | [] => []
  | .mk _ _ vs ss :: cs => without (vs.map (·.1)) (freeB ss) ++ freeCs cs
end

def isLit : X → Bool
  | .fnB _ _ _ _ => true
  | .fnE _ _ _ _ => true
  | _ => false

/-- The variables that a function literal captures. -/
def captured : X → List String
  | .fnB h _ ss _ => firsts (without (h.params.map (·.1)) (freeB ss))
  | .fnE h _ e _ => firsts (without (h.params.map (·.1)) (freeX e))
  | _ => []

mutual
/-- The function literals in an expression in the order in which they end. -/
def litsX : X → List X
  | .lit _ _ => []
  | .ident _ _ => []
  | .call f _ args _ => litsX f ++ litsL args
  | .bin _ l r _ => litsX l ++ litsX r
  | .cmp _ l r _ => litsX l ++ litsX r
  | .un _ e _ => litsX e
  | .tern c x y _ => litsX c ++ (litsX x ++ litsX y)
  | .arr es _ => litsL es
  | .index l r _ => litsX l ++ litsX r
  | .dot l _ _ => litsX l
  | .ty _ _ => []
  | .fnB h i ss a => litsB ss ++ [.fnB h i ss a]
  | .fnE h i e a => litsX e ++ [.fnE h i e a]
def litsL : List X → List X
  | [] => []
  | e :: es => litsX e ++ litsL es
def litsS : S → List X
  | .expr e => litsX e
  | .loop c ss => litsX c ++ litsB ss
  | .for_ _ _ e ss => litsX e ++ litsB ss
  | .ifs c => litsCh c
  | .ret0 => []
  | .ret e => litsX e
  | .das _ r => litsX r
  | .asg l r => litsX l ++ litsX r
  | .match_ e cs => litsX e ++ litsCs cs
def litsCh : Ch → List X
  | .done => []
  | .els ss => litsB ss
  | .cond c ss n => litsX c ++ (litsB ss ++ litsCh n)
def litsB : List S → List X
  | [] => []
  | s :: ss => litsS s ++ litsB ss
def litsCs : List Case → List X
  | [] => []
  | .mk _ _ _ ss :: cs => litsB ss ++ litsCs cs
end

/-- The function literals of a function. -/
def litsFn (p : Top) (f : Fn) : List X :=
  match p.kind, f.body with
  | .normal, .block ss => litsB ss
  | .normal, .expr e => litsX e
  | _, _ => []

/-- The function literals of a program. -/
def litsOf (fs : List (Top × Fn)) : List X := fs.flatMap fun q => litsFn q.1 q.2

/-- The declared functions with their bodies, each with the number of its symbol; the function literals with their
numbers; the names of functions in the assembly; the numbers of three library functions; and what is outside of the program. -/
structure XProg (σ : Type) where
  fns : List (Nat × Top × Fn)
  asm : String → Alt → String
  base : Prog σ
  lits : List (X × Nat) := []
  /-- the functions of literals without and with captured variables -/
  anonFn : Nat → String := fun _ => ""
  clFn : Nat → String := fun _ => ""
  /-- how the objects of a literal are described to the garbage collector -/
  desc : Nat → String := fun _ => ""
  envId : Nat → Nat := fun _ => 0
  clId : Nat → Nat := fun _ => 0
  isClosure : Nat := 0
  arrayNoInit : Nat := 0
  setElement : Nat := 0

inductive XLoc
  | var (x : String)
  | mem (a : Word)

inductive XJd (σ : Type)
  /-- the expression has the value; `none`: no value that can be used -/
  | expr (γ : Vars) (S : Store σ) (e : X) (v : Option Val) (S' : Store σ)
  | args (γ : Vars) (S : Store σ) (es : List X) (vs : List (Option Val)) (S' : Store σ)
  /-- what an assignment changes -/
  | loc (γ : Vars) (S : Store σ) (e : X) (l : XLoc) (S' : Store σ)
  | stmt (γ : Vars) (S : Store σ) (s : Chk.S) (o : Out) (γ' : Vars) (S' : Store σ)
  | stmts (γ : Vars) (S : Store σ) (ss : List Chk.S) (o : Out) (γ' : Vars) (S' : Store σ)
  | chain (γ : Vars) (S : Store σ) (c : Ch) (o : Out) (γ' : Vars) (S' : Store σ)
  /-- the statements are executed for each of the values of the variable in turn; the end of the range is `hi`, with the
  value `n` -/
  | range (γ : Vars) (S : Store σ) (x : String) (hi : X) (n : BitVec 63) (vs : List (BitVec 63)) (b : List Chk.S) (o : Out) (γ' : Vars) (S' : Store σ)
  /-- the statements are executed for each element of the array at `p`, the value of `arr`, from the `i`th on -/
  | elems (γ : Vars) (S : Store σ) (x : String) (arr : X) (p : Word) (i : Nat) (b : List Chk.S) (o : Out) (γ' : Vars) (S' : Store σ)
  /-- the expressions are made the elements from the `i`th on of the array `v` -/
  | fill (γ : Vars) (S : Store σ) (v : Option Val) (i : Nat) (es : List X) (w : Option Val) (S' : Store σ)
  /-- a call of the function value `p` -/
  | value (p : Word) (vs : List (Option Val)) (S : Store σ) (v : Option Val) (S' : Store σ)
  /-- a call of the function of a literal, whose captured variables are `γ` -/
  | lit (e : X) (γ : Vars) (vs : List (Option Val)) (S : Store σ) (v : Option Val) (S' : Store σ)
  /-- a call of the function -/
  | fn (p : Top) (f : Fn) (vs : List (Option Val)) (S : Store σ) (v : Option Val) (S' : Store σ)

/-- The meaning of loops.  `range zero a b vs`: a loop over the range from `a` to `b` visits the values `vs`; `zero`: the
end of the range is written `0`.  With `again` only those runs count in which the end of a range, and the array of a
loop when it is not an array literal, have the same value each time round, evaluating them changes nothing, and the
variable of a range has its value at the end of the body. -/
structure Loops where
  range : Bool → BitVec 63 → BitVec 63 → List (BitVec 63) → Prop
  again : Bool := false

def isArr : X → Bool
  | .arr _ _ => true
  | _ => false

/-- The meaning of programs. -/
inductive XBig {σ : Type} (R : Loops) (D : Decls) (P : XProg σ) : XJd σ → Prop
  -- literals and variables
  | int {γ S i z a} : XBig R D P (.expr γ S (.lit (.int i z) a) (some (.int (BitVec.ofInt 63 i))) S)
  | bool {γ S b a} : XBig R D P (.expr γ S (.lit (.bool b) a) (some (.bool b)) S)
  | str {γ S s a} : XBig R D P (.expr γ S (.lit (.string s) a) (some (.ptr (P.base.str s))) S)
  | typ {γ S t a} : XBig R D P (.expr γ S (.ty t a) none S)
  | var {γ S x t s r v} : s.isGlobal = false → γ.value S x = some v →
      XBig R D P (.expr γ S (.ident x ⟨t, some (s :: r)⟩) (some v) S)
  -- functions as values
  | fnRef {γ S x t s r d us u} : s.isGlobal = true → s.ty = some (.fn d us u) → d.kind ≠ .external →
      XBig R D P (.expr γ S (.ident x ⟨t, some (s :: r)⟩) (some (.ptr (P.base.fnAddr (P.asm x s)))) S)
  | anon {γ S e k} : (e, k) ∈ P.lits → captured e = [] → XBig R D P (.expr γ S e (some (.ptr (P.base.fnAddr (P.anonFn k)))) S)
  | closure {γ S e k a S1 S2 c S3 S4} {vals : List Val} : (e, k) ∈ P.lits → captured e ≠ [] →
      (captured e).map (γ.value S) = vals.map some →
      P.base.rt P.base.alloc [some (.int (BitVec.ofNat 63 (8 * vals.length))), some (.ptr (P.base.str (P.desc k))),
        some (.int (BitVec.ofNat 63 (P.envId k)))] S (some (.ptr a)) S1 → S1.writeAll a vals = some S2 →
      P.base.rt P.base.alloc [some (.int 16), some (.ptr (P.base.str (P.desc k))),
        some (.int (BitVec.ofNat 63 (P.clId k)))] S2 (some (.ptr c)) S3 →
      S3.writeAll c [.ptr (P.base.fnAddr (P.clFn k)), .ptr a] = some S4 → XBig R D P (.expr γ S e (some (.ptr c)) S4)
  -- operators
  | bin {γ S o l r a v S1 w S2 c} : XBig R D P (.expr γ S l (some v) S1) → XBig R D P (.expr γ S1 r (some w) S2) →
      o.val v w = some c → XBig R D P (.expr γ S (.bin o l r a) (some c) S2)
  | cmp {γ S o l r a v S1 w S2 c} : XBig R D P (.expr γ S l (some v) S1) → XBig R D P (.expr γ S1 r (some w) S2) →
      o.val v w = some c → XBig R D P (.expr γ S (.cmp o l r a) (some c) S2)
  | un {γ S o e a v S1 c} : XBig R D P (.expr γ S e (some v) S1) → o.val v = some c → XBig R D P (.expr γ S (.un o e a) (some c) S1)
  | ternT {γ S c x y a S1 v S2} : XBig R D P (.expr γ S c (some (.bool true)) S1) → XBig R D P (.expr γ S1 x v S2) →
      XBig R D P (.expr γ S (.tern c x y a) v S2)
  | ternF {γ S c x y a S1 v S2} : XBig R D P (.expr γ S c (some (.bool false)) S1) → XBig R D P (.expr γ S1 y v S2) →
      XBig R D P (.expr γ S (.tern c x y a) v S2)
  -- calls: the arguments are evaluated from left to right
  | call {γ S x t s r ts args a d us u vs S1 p f v S2} : s.isGlobal = true → s.ty = some (.fn d us u) → d.kind ≠ .external →
      XBig R D P (.args γ S args vs S1) → (s.fid, p, f) ∈ P.fns → p.skip = false → XBig R D P (.fn p f vs S1 v S2) →
      XBig R D P (.expr γ S (.call (.ident x ⟨t, some (s :: r)⟩) ts args a) v S2)
  | callRt {γ S x t s r ts args a d us u vs S1 v S2} : s.isGlobal = true → s.ty = some (.fn d us u) → d.kind ≠ .external →
      XBig R D P (.args γ S args vs S1) → P.base.rt (P.asm x s) vs S1 v S2 →
      XBig R D P (.expr γ S (.call (.ident x ⟨t, some (s :: r)⟩) ts args a) v S2)
  | callExt {γ S x t s r ts args d us u u' sym vs S1 w v S2} : s.isGlobal = true → s.ty = some (.fn d us u) → d.kind = .external →
      XBig R D P (.args γ S args vs S1) →
      P.base.ext (P.asm x s) (extWords { ext := true, raw := d.raw, ret := ⟨kindOf u', 0⟩ } args vs) S1 w S2 →
      extRes { ext := true, raw := d.raw, ret := ⟨kindOf u', 0⟩ } w v →
      XBig R D P (.expr γ S (.call (.ident x ⟨t, some (s :: r)⟩) ts args ⟨some u', sym⟩) v S2)
  -- a literal without captured variables is called as it is; otherwise the callee is a value, and it is evaluated first
  | callLit {γ S e k ts args a vs S1 v S2} : (e, k) ∈ P.lits → captured e = [] → XBig R D P (.args γ S args vs S1) →
      XBig R D P (.lit e [] vs S1 v S2) → XBig R D P (.expr γ S (.call e ts args a) v S2)
  | callVal {γ S f ts args a p S1 vs S2 v S3} : (∀ x t s r, f = .ident x ⟨t, some (s :: r)⟩ → s.isGlobal = false) →
      (isLit f = true → captured f ≠ []) → XBig R D P (.expr γ S f (some (.ptr p)) S1) → XBig R D P (.args γ S1 args vs S2) →
      vs.length ≤ 5 → XBig R D P (.value p vs S2 v S3) → XBig R D P (.expr γ S (.call f ts args a) v S3)
  -- the function of the library tells closures from other functions
  | valFn {p vs S v S' pc fc fid q g} : (P.isClosure, pc, fc) ∈ P.fns → pc.skip = false →
      XBig R D P (.fn pc fc [some (.ptr p)] S (some (.bool false)) S) → (fid, q, g) ∈ P.fns → q.skip = false → p = P.base.fnAddr q.name →
      XBig R D P (.fn q g vs S v S') → XBig R D P (.value p vs S v S')
  | valLit {p vs S v S' pc fc e k} : (P.isClosure, pc, fc) ∈ P.fns → pc.skip = false →
      XBig R D P (.fn pc fc [some (.ptr p)] S (some (.bool false)) S) → (e, k) ∈ P.lits → captured e = [] → p = P.base.fnAddr (P.anonFn k) →
      XBig R D P (.lit e [] vs S v S') → XBig R D P (.value p vs S v S')
  | valCl {p vs S v S' pc fc e k a} : (P.isClosure, pc, fc) ∈ P.fns → pc.skip = false →
      XBig R D P (.fn pc fc [some (.ptr p)] S (some (.bool true)) S) → (e, k) ∈ P.lits → captured e ≠ [] →
      S.heap p = some (.ptr (P.base.fnAddr (P.clFn k))) → S.heap (p + 8) = some (.ptr a) →
      XBig R D P (.lit e (Vars.at (captured e) a) vs S v S') → XBig R D P (.value p vs S v S')
  -- array literals
  | arr {γ S es a p f v S1 w S2} : (P.arrayNoInit, p, f) ∈ P.fns → p.skip = false →
      XBig R D P (.fn p f [some (.int (BitVec.ofInt 63 es.length))] S v S1) → XBig R D P (.fill γ S1 v 0 es w S2) →
      XBig R D P (.expr γ S (.arr es a) w S2)
  | fillNil {γ S v i} : XBig R D P (.fill γ S v i [] v S)
  | fillCons {γ S v} {i : Nat} {e es w S1 p f v' S2 u S3} : XBig R D P (.expr γ S e w S1) → (P.setElement, p, f) ∈ P.fns → p.skip = false →
      XBig R D P (.fn p f [v, some (.int (BitVec.ofInt 63 i)), w] S1 v' S2) → XBig R D P (.fill γ S2 v' (i + 1) es u S3) →
      XBig R D P (.fill γ S v i (e :: es) u S3)
  -- fields, elements
  | dot {γ S l x b a n us d pre t post p S1 v} : l.typ = some (.struct n us) → D.structs n = some d →
      d.fields = pre ++ (x, t) :: post → x ∉ pre.map (·.1) →
      XBig R D P (.expr γ S l (some (.ptr p)) S1) → S1.heap (p + BitVec.ofNat 64 (8 * pre.length)) = some v →
      XBig R D P (.expr γ S (.dot l (.ident x b) a) (some v) S1)
  | length {γ S l b a p S1 v} : (∃ t, l.typ = some (.array t)) ∨ l.typ = some (.prim .string) →
      XBig R D P (.expr γ S l (some (.ptr p)) S1) → S1.heap p = some v →
      XBig R D P (.expr γ S (.dot l (.ident "length" b) a) (some v) S1)
  | index {γ S l i a p n len S1 S2 v} : XBig R D P (.expr γ S l (some (.ptr p)) S1) →
      XBig R D P (.expr γ S1 i (some (.int n)) S2) → S2.heap p = some (.int len) → 0 ≤ n.toInt → n.toInt < len.toInt →
      S2.heap (p + 8 + 8 * BitVec.ofInt 64 n.toInt) = some v → XBig R D P (.expr γ S (.index l i a) (some v) S2)
  -- arguments
  | argsNil {γ S} : XBig R D P (.args γ S [] [] S)
  | argsCons {γ S e es v vs S1 S2} : XBig R D P (.expr γ S e v S1) → XBig R D P (.args γ S1 es vs S2) →
      XBig R D P (.args γ S (e :: es) (v :: vs) S2)
  -- what is assigned
  | locVar {γ S x t s r w} : s.isGlobal = false → γ.lookup x = some (.val w) → XBig R D P (.loc γ S (.ident x ⟨t, some (s :: r)⟩) (.var x) S)
  | locRef {γ S x t s r a} : s.isGlobal = false → γ.lookup x = some (.ref a) → XBig R D P (.loc γ S (.ident x ⟨t, some (s :: r)⟩) (.mem a) S)
  | locDot {γ S l x b a n us d pre t post p S1} : l.typ = some (.struct n us) → D.structs n = some d →
      d.fields = pre ++ (x, t) :: post → x ∉ pre.map (·.1) → XBig R D P (.expr γ S l (some (.ptr p)) S1) →
      XBig R D P (.loc γ S (.dot l (.ident x b) a) (.mem (p + BitVec.ofNat 64 (8 * pre.length))) S1)
  | locIndex {γ S l i a p n len S1 S2} : XBig R D P (.expr γ S l (some (.ptr p)) S1) →
      XBig R D P (.expr γ S1 i (some (.int n)) S2) → S2.heap p = some (.int len) → 0 ≤ n.toInt → n.toInt < len.toInt →
      XBig R D P (.loc γ S (.index l i a) (.mem (p + 8 + 8 * BitVec.ofInt 64 n.toInt)) S2)
  -- statements
  | expr {γ S e v S1} : XBig R D P (.expr γ S e v S1) → XBig R D P (.stmt γ S (.expr e) .norm γ S1)
  | ret0 {γ S} : XBig R D P (.stmt γ S .ret0 (.ret none) γ S)
  | ret {γ S e v S1} : XBig R D P (.expr γ S e v S1) → XBig R D P (.stmt γ S (.ret e) (.ret v) γ S1)
  | das {γ S x b r v S1} : XBig R D P (.expr γ S r (some v) S1) →
      XBig R D P (.stmt γ S (.das (.ident x b) r) .norm ((x, .val (some v)) :: γ) S1)
  | asgVar {γ S l r v x S1 S2} : XBig R D P (.expr γ S r (some v) S1) → XBig R D P (.loc γ S1 l (.var x) S2) →
      XBig R D P (.stmt γ S (.asg l r) .norm (Vars.set γ x v) S2)
  | asgMem {γ S l r v a S1 S2 S3} : XBig R D P (.expr γ S r (some v) S1) → XBig R D P (.loc γ S1 l (.mem a) S2) →
      S2.write a v = some S3 → XBig R D P (.stmt γ S (.asg l r) .norm γ S3)
  | ifs {γ S c o γ' S'} : XBig R D P (.chain γ S c o γ' S') → XBig R D P (.stmt γ S (.ifs c) o γ' S')
  | loopF {γ S c b S1} : XBig R D P (.expr γ S c (some (.bool false)) S1) → XBig R D P (.stmt γ S (.loop c b) .norm γ S1)
  | loopT {γ S c b S1 γ1 S2 o γ2 S3} : XBig R D P (.expr γ S c (some (.bool true)) S1) → XBig R D P (.stmts γ S1 b .norm γ1 S2) →
      XBig R D P (.stmt (Vars.leave γ γ1) S2 (.loop c b) o γ2 S3) → XBig R D P (.stmt γ S (.loop c b) o γ2 S3)
  | loopR {γ S c b S1 v γ1 S2} : XBig R D P (.expr γ S c (some (.bool true)) S1) → XBig R D P (.stmts γ S1 b (.ret v) γ1 S2) →
      XBig R D P (.stmt γ S (.loop c b) (.ret v) (Vars.leave γ γ1) S2)
  -- `for`: the bounds, or the array, are evaluated once
  | forR {γ S x b lo hi c ss v n S1 S2 vs o γ' S'} : XBig R D P (.expr γ S lo (some (.int v)) S1) →
      XBig R D P (.expr γ S1 hi (some (.int n)) S2) → (R.again = true → S2 = S1) → R.range (isZero hi) v n vs →
      XBig R D P (.range γ S2 x hi n vs ss o γ' S') → XBig R D P (.stmt γ S (.for_ x b (.bin .range lo hi c) ss) o γ' S')
  | rangeNil {γ S x hi n ss} : (R.again = true → XBig R D P (.expr γ S hi (some (.int n)) S)) →
      XBig R D P (.range γ S x hi n [] ss .norm γ S)
  | rangeCons {γ S x hi n v vs ss γ1 S1 o γ2 S2} : (R.again = true → XBig R D P (.expr γ S hi (some (.int n)) S)) →
      XBig R D P (.stmts ((x, .val (some (.int v))) :: γ) S ss .norm γ1 S1) →
      (R.again = true → Vars.leave ((x, .val (some (.int v))) :: γ) γ1 = (x, .val (some (.int v))) :: Vars.leave γ γ1) →
      XBig R D P (.range (Vars.leave γ γ1) S1 x hi n vs ss o γ2 S2) → XBig R D P (.range γ S x hi n (v :: vs) ss o γ2 S2)
  | rangeRet {γ S x hi n v vs ss r γ1 S1} : (R.again = true → XBig R D P (.expr γ S hi (some (.int n)) S)) →
      XBig R D P (.stmts ((x, .val (some (.int v))) :: γ) S ss (.ret r) γ1 S1) →
      XBig R D P (.range γ S x hi n (v :: vs) ss (.ret r) (Vars.leave γ γ1) S1)
  | forA {γ S x b e ss t p S1 o γ' S'} : e.typ = some (.array t) → XBig R D P (.expr γ S e (some (.ptr p)) S1) →
      (R.again = true → isArr e = false → S1 = S) →
      XBig R D P (.elems γ S1 x e p 0 ss o γ' S') → XBig R D P (.stmt γ S (.for_ x b e ss) o γ' S')
  | elemsEnd {γ S x e p} {i : Nat} {ss len} : (R.again = true → isArr e = false → XBig R D P (.expr γ S e (some (.ptr p)) S)) →
      S.heap p = some (.int len) → ¬ ((i : Int) < len.toInt) → XBig R D P (.elems γ S x e p i ss .norm γ S)
  | elemsCons {γ S x e p} {i : Nat} {ss len v γ1 S1 o γ2 S2} : (R.again = true → isArr e = false → XBig R D P (.expr γ S e (some (.ptr p)) S)) →
      S.heap p = some (.int len) → (i : Int) < len.toInt →
      S.heap (p + 8 + 8 * BitVec.ofInt 64 i) = some v → XBig R D P (.stmts ((x, .val (some v)) :: γ) S ss .norm γ1 S1) →
      XBig R D P (.elems (Vars.leave γ γ1) S1 x e p (i + 1) ss o γ2 S2) → XBig R D P (.elems γ S x e p i ss o γ2 S2)
  | elemsRet {γ S x e p} {i : Nat} {ss len v r γ1 S1} : (R.again = true → isArr e = false → XBig R D P (.expr γ S e (some (.ptr p)) S)) →
      S.heap p = some (.int len) → (i : Int) < len.toInt →
      S.heap (p + 8 + 8 * BitVec.ofInt 64 i) = some v → XBig R D P (.stmts ((x, .val (some v)) :: γ) S ss (.ret r) γ1 S1) →
      XBig R D P (.elems γ S x e p i ss (.ret r) (Vars.leave γ γ1) S1)
  -- `match`: the object has the tag of its constructor, which is its position among the constructors of the enum, and
  -- then its arguments; the case for the constructor is executed with its variables bound to the arguments
  | match_ {γ S e cs n us p S1 pre fid post xs ss} {vals : List Val} {o γ1 S'} : e.typ = some (.enum n us) →
      XBig R D P (.expr γ S e (some (.ptr p)) S1) → D.members n = pre ++ fid :: post → fid ∉ pre →
      S1.heap p = some (.int (BitVec.ofNat 63 pre.length)) → caseFor fid cs = some (xs, ss) → vals.length = xs.length →
      (∀ i v, vals[i]? = some v → S1.heap (p + BitVec.ofNat 64 (8 * (i + 1))) = some v) →
      XBig R D P (.stmts (Vars.bind xs (vals.map some) ++ γ) S1 ss o γ1 S') →
      XBig R D P (.stmt γ S (.match_ e cs) o (Vars.leave γ γ1) S')
  -- `if`
  | chDone {γ S} : XBig R D P (.chain γ S .done .norm γ S)
  | chElse {γ S ss o γ1 S'} : XBig R D P (.stmts γ S ss o γ1 S') → XBig R D P (.chain γ S (.els ss) o (Vars.leave γ γ1) S')
  | chT {γ S c ss n S1 o γ1 S'} : XBig R D P (.expr γ S c (some (.bool true)) S1) → XBig R D P (.stmts γ S1 ss o γ1 S') →
      XBig R D P (.chain γ S (.cond c ss n) o (Vars.leave γ γ1) S')
  | chF {γ S c ss n S1 o γ' S'} : XBig R D P (.expr γ S c (some (.bool false)) S1) → XBig R D P (.chain γ S1 n o γ' S') →
      XBig R D P (.chain γ S (.cond c ss n) o γ' S')
  -- sequences
  | nil {γ S} : XBig R D P (.stmts γ S [] .norm γ S)
  | cons {γ S s ss γ1 S1 o γ2 S2} : XBig R D P (.stmt γ S s .norm γ1 S1) → XBig R D P (.stmts γ1 S1 ss o γ2 S2) →
      XBig R D P (.stmts γ S (s :: ss) o γ2 S2)
  | consR {γ S s ss v γ1 S1} : XBig R D P (.stmt γ S s (.ret v) γ1 S1) → XBig R D P (.stmts γ S (s :: ss) (.ret v) γ1 S1)
  -- functions of literals
  | litRet {h i ss d ts r y γ vs S v γ' S'} : ts.length = h.params.length → vs.length = h.params.length →
      XBig R D P (.stmts (Vars.bind (h.params.map (·.1)) vs ++ γ) S ss (.ret v) γ' S') →
      XBig R D P (.lit (.fnB h i ss ⟨some (.fn d ts r), y⟩) γ vs S v S')
  | litEnd {h i ss d ts y γ vs S γ' S'} : ts.length = h.params.length → vs.length = h.params.length →
      XBig R D P (.stmts (Vars.bind (h.params.map (·.1)) vs ++ γ) S ss .norm γ' S') →
      XBig R D P (.lit (.fnB h i ss ⟨some (.fn d ts (.prim .nothing)), y⟩) γ vs S none S')
  | litExpr {h i e d ts r y γ vs S v S'} : ts.length = h.params.length → vs.length = h.params.length →
      XBig R D P (.expr (Vars.bind (h.params.map (·.1)) vs ++ γ) S e v S') →
      XBig R D P (.lit (.fnE h i e ⟨some (.fn d ts r), y⟩) γ vs S v S')
  -- functions; a function without result may end without `return`
  | fnRet {p f vs S ss v γ' S'} : p.kind = .normal → f.body = .block ss → vs.length = p.params.length →
      XBig R D P (.stmts (Vars.bind (p.params.map (·.1)) vs) S ss (.ret v) γ' S') → XBig R D P (.fn p f vs S v S')
  | fnEnd {p f vs S ss γ' S'} : p.kind = .normal → f.body = .block ss → vs.length = p.params.length → f.ret = .prim .nothing →
      XBig R D P (.stmts (Vars.bind (p.params.map (·.1)) vs) S ss .norm γ' S') → XBig R D P (.fn p f vs S none S')
  | fnExpr {p f vs S e v S'} : p.kind = .normal → f.body = .expr e → vs.length = p.params.length →
      XBig R D P (.expr (Vars.bind (p.params.map (·.1)) vs) S e v S') → XBig R D P (.fn p f vs S v S')
  -- constructors: an object with the tag, if there is one, and the arguments
  | fnCons {p f S tag desc id a S1 S2} {vals : List Val} : p.kind = .cons tag desc id → vals.length = p.params.length →
      P.base.rt P.base.alloc [some (.int (BitVec.ofNat 63 (8 * vals.length + if tag.isSome then 8 else 0))),
        some (.ptr (P.base.str desc)), some (.int (BitVec.ofNat 63 id))] S (some (.ptr a)) S1 →
      S1.writeAll a ((tag.map (fun t => Val.int (BitVec.ofNat 63 t))).toList ++ vals) = some S2 →
      XBig R D P (.fn p f (vals.map some) S (some (.ptr a)) S2)

end Clara.Sema.Chk
