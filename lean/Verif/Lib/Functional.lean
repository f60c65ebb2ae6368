/-
The library enums `option`, `result` and `list` (`install/lib/functional.clara`, `install/lib/list.clara`).

Function arguments may have effects: they are functions into an arbitrary monad `m`, and the functions of the
library are programs in that monad.  Values of the enums are never changed after their construction, so they are
values here.  `match` is pattern matching (what the lowering of `match` does is the subject of C24), the conditional
operator evaluates one branch, and `and` evaluates both operands (C30).
-/
namespace Clara.Lib

universe u

/-- `enum option` (`functional.clara` 1-4). -/
inductive Opt (T : Type u)
  | some (t : T)
  | none
  deriving DecidableEq, Repr

/-- `enum result` (`functional.clara` 54-57). -/
inductive Result (T E : Type u)
  | ok (val : T)
  | err (val : E)
  deriving DecidableEq, Repr

/-- `enum list` (`list.clara` 1-4). -/
inductive LList (T : Type u)
  | element (val : T) (rest : LList T)
  | empty
  deriving DecidableEq, Repr

section
variable {T R E : Type u} {m : Type u → Type u} [Monad m]

/-- `functional.clara` 6-11. -/
def Opt.isNone (o : Opt T) : Bool :=
  match o with
  | .some _ => false
  | .none => true

/-- `functional.clara` 13. -/
def Opt.isSome (o : Opt T) : Bool := !o.isNone

/-- `functional.clara` 15-20. -/
def Opt.filter (o : Opt T) (pred : T → m (ULift Bool)) : m (Opt T) :=
  match o with
  | .some v => do if (← pred v).down then return o else return .none
  | .none => return o

/-- `functional.clara` 22-27. -/
def Opt.orElse (o : Opt T) (other : T) : T :=
  match o with
  | .some v => v
  | .none => other

/-- `functional.clara` 29-34. -/
def Opt.map (o : Opt T) (f : T → m R) : m (Opt R) :=
  match o with
  | .some v => do return .some (← f v)
  | .none => return .none

/-- `functional.clara` 36-43. -/
def Opt.peek (o : Opt T) (f : T → m PUnit) : m (Opt T) := do
  match o with
  | .some v => f v
  | .none => pure ⟨⟩
  return o

/-- `functional.clara` 59-64.  `unsafe` returns the same object at the other type; an `Err` object holds a value
of type `E` only. -/
def Result.map (r : Result T E) (f : T → m R) : m (Result R E) :=
  match r with
  | .ok v => do return .ok (← f v)
  | .err e => return .err e

/-- `functional.clara` 66-71. -/
def Result.then (r : Result T E) (f : T → m (Result R E)) : m (Result R E) :=
  match r with
  | .ok v => f v
  | .err e => return .err e

/-- `functional.clara` 73-84. -/
def Result.peek (r : Result T E) (f : T → m (Opt E)) : m (Result T E) :=
  match r with
  | .ok v => do
    match ← f v with
    | .some e => return .err e
    | .none => return r
  | .err _ => return r

/-! ### Lists -/

/-- The loop of `toList`: `for x in a.length .. 0` counts down from `a.length - 1` (`semantic.go` 497-501);
`none` is the index panic. -/
def toListLoop (a : List T) : Nat → LList T → Option (LList T)
  | 0, l => some l
  | x + 1, l =>
    match a[x]? with
    | some v => toListLoop a x (.element v l)
    | none => none

/-- `list.clara` 6-12. -/
def toList (a : List T) : Option (LList T) := toListLoop a a.length .empty

/-- `list.clara` 14. -/
def LList.append (l : LList T) (val : T) : LList T := .element val l

/-- The loop of `reverse` (`list.clara` 39-47). -/
def LList.reverseLoop : LList T → LList T → LList T
  | .empty, new => new
  | .element val rest, new => rest.reverseLoop (.element val new)

/-- `list.clara` 36-49. -/
def LList.reverse (l : LList T) : LList T := l.reverseLoop .empty

/-- The loop of `remove` (`list.clara` 20-32).  `pred` is called on every element. -/
def LList.removeLoop (pred : T → m (ULift Bool)) : LList T → LList T → Opt T → m (LList T × Opt T)
  | .empty, new, val => return (new, val)
  | .element v rest, new, val => do
    let b ← pred v
    if b.down && val.isNone then rest.removeLoop pred new (.some v)
    else rest.removeLoop pred (.element v new) val

/-- `list.clara` 16-34. -/
def LList.remove (l : LList T) (pred : T → m (ULift Bool)) : m (LList T × Opt T) := do
  let r ← l.removeLoop pred .empty .none
  return (r.1.reverse, r.2)

/-- `list.clara` 51-56. -/
def LList.find (pred : T → m (ULift Bool)) : LList T → m (Opt T)
  | .empty => return .none
  | .element val rest => do if (← pred val).down then return .some val else rest.find pred

/-- `list.clara` 58-65. -/
def LList.foreach (f : T → m PUnit) : LList T → m PUnit
  | .empty => return ⟨⟩
  | .element val rest => do f val; rest.foreach f

/-- `list.clara` 67-72. -/
def LList.map (f : T → m R) : LList T → m (LList R)
  | .empty => return .empty
  | .element val rest => do
    let a ← f val
    let b ← rest.map f
    return .element a b

/-- `list.clara` 74-79. -/
def LList.reduce (f : T → T → m T) : LList T → T → m T
  | .empty, acc => return acc
  | .element val rest, acc => do rest.reduce f (← f acc val)

end

end Clara.Lib
