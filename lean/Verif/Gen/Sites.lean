import Verif.Gen.Emit
/-
What is alive at the calls of a function, read off the syntax tree: the variables in scope and the
intermediate values that wait on the stack.  Nothing here refers to the code generator.

Only calls of Clara functions count; a collection cannot start in a C function.
-/
namespace Clara.Gen

/-- An intermediate value waiting on the stack while another part of the statement is evaluated. -/
inductive Temp
  /-- the left operand of a binary operator -/
  | left (t : TyR)
  /-- the array of `a[i]` while `i` is evaluated -/
  | base (t : TyR)
  /-- the function called, when it is the result of an expression -/
  | callee (t : TyR)
  /-- the right hand side of an assignment while the left hand side is evaluated -/
  | value (t : TyR)
  /-- argument number `i` of a call while a call in a later argument runs -/
  | arg (i : Nat) (t : TyR)
  deriving DecidableEq, Repr

def Temp.ty : Temp → TyR
  | .left t | .base t | .callee t | .value t | .arg _ t => t

/-- Evaluated arguments, the last first. -/
def waiting : Nat → List TyR → List Temp
  | _, [] => []
  | i, t :: ts => waiting (i + 1) ts ++ [.arg i t]

mutual
/-- The intermediate values at each call in an expression, in the order of evaluation.  `u` are the types of
the evaluated arguments of the enclosing call, `ts` the values waiting already, the oldest first. -/
def sitesE : Expr → List TyR → List Temp → List (List Temp)
  | .int _, _, _ | .bool _, _, _ | .str _, _, _ | .typ _, _, _ | .fnRef _ _ _, _, _ | .var _ _, _, _ => []
  | .bin _ _ l r, u, ts => sitesE l u ts ++ sitesE r u (ts ++ [.left l.ty])
  | .un _ _ e, u, ts => sitesE e u ts
  | .tern _ c a b, u, ts => sitesE c u ts ++ (sitesE a u ts ++ sitesE b u ts)
  | .arrLit _ e, u, ts => sitesE e u ts
  | .callFn _ fi args, u, ts | .callVar _ fi args, u, ts =>
    sitesL args [] (ts ++ waiting 0 u) ++ (if fi.ext then [] else [ts ++ waiting 0 u])
  | .callExpr e fi args, u, ts =>
    sitesE e u ts ++ (sitesL args [] (ts ++ [.callee e.ty] ++ waiting 0 u) ++ (if fi.ext then [] else [ts ++ waiting 0 u]))
  | .dot _ e _, u, ts => sitesE e u ts
  | .index _ a i, u, ts => sitesE a u ts ++ sitesE i u (ts ++ [.base a.ty])
def sitesL : List Expr → List TyR → List Temp → List (List Temp)
  | [], _, _ => []
  | e :: es, u, ts => sitesE e u ts ++ sitesL es (u ++ [e.ty]) ts
end

/-- A call in a function: the variables in scope, oldest first, and the intermediate values. -/
structure Site where
  vars : List (Nat × TyR)
  temps : List Temp
  deriving DecidableEq, Repr

/-- The variables in scope after a statement. -/
def Stmt.scope (sc : List (Nat × TyR)) : Stmt → List (Nat × TyR)
  | .asg true (.var x t) _ => sc ++ [(x, t)]
  | _ => sc

def siteAt (sc : List (Nat × TyR)) (l : List (List Temp)) : List Site := l.map (fun ts => ⟨sc, ts⟩)

mutual
/-- The calls of a statement; `sc` are the variables in scope. -/
def sitesS (sc : List (Nat × TyR)) : Stmt → List Site
  | .ret (some e) => siteAt sc (sitesE e [] [])
  | .ret none => []
  | .ifs c => sitesC sc c
  | .asg _ l r => siteAt sc (sitesE r [] []) ++ siteAt sc (sitesE l [] [.value r.ty])
  | .loop c body => siteAt sc (sitesE c [] []) ++ sitesB sc body
  | .block body => sitesB sc body
  | .expr e => siteAt sc (sitesE e [] [])
def sitesC (sc : List (Nat × TyR)) : Chain → List Site
  | .done => []
  | .els body => sitesB sc body
  | .cond c body next => siteAt sc (sitesE c [] []) ++ (sitesB sc body ++ sitesC sc next)
/-- A declared variable is in scope from the next statement to the end of the list. -/
def sitesB (sc : List (Nat × TyR)) : Stmts → List Site
  | .nil => []
  | .cons s ss => sitesS sc s ++ sitesB (s.scope sc) ss
end

/-- The calls of a function. -/
def FnDef.sites (fd : FnDef) : List Site :=
  match fd.body with
  | .block ss => sitesB fd.params ss
  | .expr e => siteAt fd.params (sitesE e [] [])
  | .cons _ _ _ => [⟨fd.params, []⟩]

/-! ### Calls of computed functions -/

mutual
/-- A call of a computed function `(e)(…)` is nowhere inside an argument that follows another argument (such
calls pop the wrong word, see C37).  `b`: no argument of the enclosing call has been evaluated yet. -/
def Expr.direct : Bool → Expr → Bool
  | _, .int _ | _, .bool _ | _, .str _ | _, .typ _ | _, .fnRef _ _ _ | _, .var _ _ => true
  | b, .bin _ _ l r => l.direct b && r.direct b
  | b, .un _ _ e => e.direct b
  | b, .tern _ c x y => c.direct b && (x.direct b && y.direct b)
  | b, .arrLit _ e => e.direct b
  | _, .callFn _ _ args => directL true args
  | _, .callVar _ _ args => directL true args
  | b, .callExpr e _ args => b && (e.direct b && directL true args)
  | b, .dot _ e _ => e.direct b
  | b, .index _ a i => a.direct b && i.direct b
def directL : Bool → List Expr → Bool
  | _, [] => true
  | b, e :: es => e.direct b && directL false es
end

mutual
def Stmt.direct : Stmt → Bool
  | .ret (some e) => e.direct true
  | .ret none => true
  | .ifs c => c.direct
  | .asg _ l r => l.direct true && r.direct true
  | .loop c b => c.direct true && b.direct
  | .block b => b.direct
  | .expr e => e.direct true
def Chain.direct : Chain → Bool
  | .done => true
  | .els b => b.direct
  | .cond c b n => c.direct true && (b.direct && n.direct)
def Stmts.direct : Stmts → Bool
  | .nil => true
  | .cons s ss => s.direct && ss.direct
end

def Body.direct : Body → Bool
  | .block ss => ss.direct
  | .expr e => e.direct true
  | .cons _ _ _ => true

/-! ### Blocks that declare nothing before an inner block -/

/-- Declaration of a variable that holds a pointer. -/
def Stmt.declares : Stmt → Bool
  | .asg true (.var _ t) _ => t.kind.isPointer
  | _ => false

/-- A statement without statement lists in it. -/
def Stmt.flat : Stmt → Bool
  | .ret _ | .asg _ _ _ | .expr _ => true
  | _ => false

mutual
/-- All statement lists inside are `neat`. -/
def Stmt.neat : Stmt → Bool
  | .ret _ | .asg _ _ _ | .expr _ => true
  | .ifs c => c.neat
  | .loop _ b => b.neat false
  | .block b => b.neat false
def Chain.neat : Chain → Bool
  | .done => true
  | .els b => b.neat false
  | .cond _ b n => b.neat false && n.neat
/-- No declaration of a pointer variable comes before a statement with an inner list; `d` says that there was
one already. -/
def Stmts.neat : Bool → Stmts → Bool
  | _, .nil => true
  | d, .cons s ss => s.neat && ((!d || s.flat) && ss.neat (d || s.declares))
end

/-- The statement lists inside the outermost one are `neat`. -/
def Stmts.inner : Stmts → Bool
  | .nil => true
  | .cons s ss => s.neat && ss.inner

def Body.neat : Body → Bool
  | .block ss => ss.inner
  | _ => true

/-! ### What the code does to the stack -/

/-- The root maps in the code: the words after the calls. -/
def maps (c : List Ev) : List (List Nat) := c.filterMap (fun e => match e with | .data l => some l | _ => none)

/-- What is on the stack below the frame, the oldest first, and what was there at each root map.  `none` is a
word reserved for alignment. -/
def stackWalk : List Ev → List (Option Opd) → List (List (Option Opd)) × List (Option Opd)
  | [], st => ([], st)
  | .data _ :: c, st => let r := stackWalk c st; (st :: r.1, r.2)
  | .ins (.push o) :: c, st => stackWalk c (st ++ [some o])
  | .ins (.pop _) :: c, st => stackWalk c st.dropLast
  | .ins (.alu .sub (.imm 8) .rsp) :: c, st => stackWalk c (st ++ [none])
  | .ins (.alu .add (.imm 8) .rsp) :: c, st => stackWalk c st.dropLast
  | _ :: c, st => stackWalk c st

end Clara.Gen
