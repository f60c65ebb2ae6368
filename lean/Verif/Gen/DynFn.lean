import Verif.Gen.Emit
/-
Calls of function values: `invokeDynamic` (`install/lib/runtime.clara` 117-126), which the compiler calls instead of
values that are functions (`closures.go` 84-97).

A function value is the address of a function, or the address of an object with the address of a function and the
address of an environment (`closures.go` 20-59); `isClosure` tells which (`runtime.clara` 129-132).  `invokeDynamic` has
six parameters and no result.  It is called with at most six arguments and passes on whatever is in the registers of
the others; the result of the function is what is left in `rax`.
-/
namespace Clara.Gen

/-- The types in `invokeDynamic`, and what the calls in it say about the functions. -/
structure DynT where
  int : TyR := ⟨.integer, 0⟩
  ptr : TyR := ⟨.pointer, 0⟩
  cl : TyR := ⟨.struct, 0⟩
  env : TyR := ⟨.struct, 0⟩
  clf : TyR := ⟨.function, 0⟩
  f : TyR := ⟨.function, 0⟩
  fiC : FnInfo := { ret := ⟨.nothing, 0⟩ }
  fiU1 : FnInfo := { ext := true, ret := ⟨.nothing, 0⟩ }
  fiU2 : FnInfo := { ext := true, ret := ⟨.nothing, 0⟩ }
  fiE : FnInfo := { ret := ⟨.nothing, 0⟩ }
  fiV : FnInfo := { ret := ⟨.nothing, 0⟩ }

/-- The integer parameters as arguments. -/
def DynT.args (T : DynT) (n : Nat) : List Expr :=
  [.var (n + 1) T.int, .var (n + 2) T.int, .var (n + 3) T.int, .var (n + 4) T.int, .var (n + 5) T.int]

/-- `p.isClosure()`. -/
def DynT.test (T : DynT) (isCl : String) (n : Nat) : Expr := .callFn isCl T.fiC [.var n T.ptr]

/-- `unsafe(p, 0, type(…))`. -/
def DynT.cast (T : DynT) (uns : String) (fi : FnInfo) (t : TyR) (n : Nat) : Expr := .callFn uns fi [.var n T.ptr, .int 0, .typ t]

/-- The cast that is used when the test has the result `b`. -/
def DynT.castIf (T : DynT) (uns : String) (b : Bool) (n : Nat) : Expr :=
  if b then T.cast uns T.fiU1 T.cl n else T.cast uns T.fiU2 T.f n

/-- The statements for closures (`runtime.clara` 119-120). -/
def DynT.yes (T : DynT) (uns : String) (n : Nat) : Stmts :=
  .cons (.asg true (.var (n + 6) T.cl) (T.cast uns T.fiU1 T.cl n)) (.cons (.expr (.callExpr (.dot T.clf (.var (n + 6) T.cl) 0) T.fiE
    (.dot T.env (.var (n + 6) T.cl) 8 :: T.args n))) .nil)

/-- The statements for addresses of functions (`runtime.clara` 122-123). -/
def DynT.no (T : DynT) (uns : String) (n : Nat) : Stmts :=
  .cons (.asg true (.var (n + 7) T.f) (T.cast uns T.fiU2 T.f n)) (.cons (.expr (.callVar (n + 7) T.fiV (T.args n))) .nil)

/-- The function is `invokeDynamic` (`runtime.clara` 117-126). -/
structure IsDyn (fd : FnDef) (isCl uns : String) (T : DynT) (n : Nat) : Prop where
  params : fd.params = [(n, T.ptr), (n + 1, T.int), (n + 2, T.int), (n + 3, T.int), (n + 4, T.int), (n + 5, T.int)]
  body : fd.body = .block (.cons (.ifs (.cond (T.test isCl n) (T.yes uns n) (.els (T.no uns n)))) .nil)
  ret : fd.retNothing = true
  skip : fd.skip = false
  fiE : T.fiE.ext = false
  fiV : T.fiV.ext = false

end Clara.Gen
