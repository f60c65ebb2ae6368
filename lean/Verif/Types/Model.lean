/-
Model of the type representation and of type matching: `symtab.go` 27-156 and
`typecheck.go` 694-894.

Simplifications:
* A `*Type` pointer is modelled by the tree it points to. Pointer identity matters to the code for
  type parameters only (`symtab.go` 152, `typecheck.go` 845), so parameters carry an identity.
* Struct fields and enum members are left out here: matching never looks at them. They are what
  makes type graphs cyclic and are modelled in `Verif/Types/Graph.lean`.
* Error values are reduced to the reason for the error.
-/
namespace Clara.Types

/-- The kinds compared by kind only (`symtab.go` 127). -/
inductive Prim
  | bool | string | nothing | pointer | int | bytes
  deriving DecidableEq, Repr

/-- `FuncKind` (`symtab.go` 321-328). -/
inductive FnKind
  | normal | external | closure | structCons | enumCons
  deriving DecidableEq, Repr

/-- The parts of a `FunctionType` (`symtab.go` 330-338) that matching ignores. `tps` are the
function's own type parameters (`Types`). -/
structure FnData where
  kind : FnKind := .normal
  tps : List Nat := []
  variadic : Bool := false
  raw : Bool := false
  deriving DecidableEq, Repr

/-- `Type` (`symtab.go` 66-69) with its `Data`. -/
inductive Ty
  | prim (p : Prim)
  | param (id : Nat)
  | array (elem : Ty)
  | struct (name : String) (types : List Ty)
  | enum (name : String) (types : List Ty)
  | fn (data : FnData) (params : List Ty) (ret : Ty)

/-- The map `bound` from type parameters to types. -/
abbrev Bound := List (Nat × Ty)

/-- `bound[k]`. -/
def Bound.get (b : Bound) (k : Nat) : Option Ty := b.lookup k

mutual
/-- `t.MatchesImpl(x, false, _)` (`symtab.go` 81-156 with `allowBinding` off). -/
def Ty.same : Ty → Ty → Bool
  | .struct n ts, .struct m xs => n == m && ts.length == xs.length && sameAll ts xs
  | .enum n ts, .enum m xs => n == m && ts.length == xs.length && sameAll ts xs
  | .prim p, .prim q => p == q
  | .array t, .array x => t.same x
  | .fn _ ts t, .fn _ xs x => xs.length == ts.length && sameAll ts xs && t.same x
  | .param i, .param j => i == j
  | _, _ => false
/-- The element-wise loops of `MatchesImpl` (`symtab.go` 106-110, 121-125, 145-149). -/
def sameAll : List Ty → List Ty → Bool
  | t :: ts, x :: xs => t.same x && sameAll ts xs
  | _, _ => true
end

mutual
/-- `t.PolyMatch(x, bound)` (`symtab.go` 77-156 with `allowBinding` on). The updated map is returned
even on failure: the Go code updates it in place. -/
def Ty.poly (t x : Ty) (b : Bound) : Bool × Bound :=
  match x with
  | .param k =>
    match b.get k with
    | none => (true, (k, t) :: b)
    | some bind => (t.same bind, b)
  | x =>
    match t with
    | .struct n ts =>
      match x with
      | .struct m xs => if n == m && ts.length == xs.length then polyAll ts xs b else (false, b)
      | _ => (false, b)
    | .enum n ts =>
      match x with
      | .enum m xs => if n == m && ts.length == xs.length then polyAll ts xs b else (false, b)
      | _ => (false, b)
    | .prim p =>
      match x with
      | .prim q => (p == q, b)
      | _ => (false, b)
    | .array t =>
      match x with
      | .array x => t.poly x b
      | _ => (false, b)
    | .fn _ ts t =>
      match x with
      | .fn _ xs x =>
        if xs.length == ts.length then
          let r := polyAll ts xs b
          if r.1 then t.poly x r.2 else r
        else (false, b)
      | _ => (false, b)
    | .param _ => (false, b)
/-- The loops of `MatchesImpl` with binding: they stop at the first mismatch. -/
def polyAll : List Ty → List Ty → Bound → Bool × Bound
  | t :: ts, x :: xs, b =>
    let r := t.poly x b
    if r.1 then polyAll ts xs r.2 else r
  | _, _, b => (true, b)
end

mutual
/-- `substituteType` (`typecheck.go` 804-851), without the struct fields. The function case drops
the function's own type parameters, as the Go code does. -/
def Ty.subst (b : Bound) : Ty → Ty
  | .array t => if b.isEmpty then .array t else .array (t.subst b)
  | .fn d ps r =>
    if b.isEmpty then .fn d ps r else .fn { d with tps := [] } (substAll b ps) (r.subst b)
  | .struct n ts => if b.isEmpty then .struct n ts else .struct n (substAll b ts)
  | .enum n ts => if b.isEmpty then .enum n ts else .enum n (substAll b ts)
  | .prim p => .prim p
  | .param k => (b.get k).getD (.param k)
def substAll (b : Bound) : List Ty → List Ty
  | [] => []
  | t :: ts => t.subst b :: substAll b ts
end

mutual
/-- `findUnboundTypeParameters` (`typecheck.go` 853-894). For a function type it looks at the
function's own type parameters instead of its parameter and result types. -/
def Ty.unbound (b : Bound) : Ty → List Nat
  | .array t => t.unbound b
  | .fn d _ _ => d.tps.filter (fun k => (b.get k).isNone)
  | .struct _ ts => unboundAll b ts
  | .enum _ ts => unboundAll b ts
  | .param k => if (b.get k).isSome then [] else [k]
  | .prim _ => []
def unboundAll (b : Bound) : List Ty → List Nat
  | [] => []
  | t :: ts => t.unbound b ++ unboundAll b ts
end

/-- An argument of a call. `chain` holds the types of `arg.sym` and its `Next` symbols when the
argument is an identifier (empty otherwise); more than one entry means an overloaded name. -/
structure Arg where
  typ : Ty
  chain : List Ty := []

/-- `arg.op == opIdentifier && arg.sym.Next != nil` (`typecheck.go` 733, 768). -/
def Arg.overloaded (a : Arg) : Bool := 2 ≤ a.chain.length

/-- The inner loop over an overloaded argument's symbols, callee without type parameters
(`typecheck.go` 734-740). On success `arg.sym` and `arg.typ` are updated. -/
def pick (param : Ty) : List Ty → Option Arg
  | [] => none
  | s :: rest => if s.same param then some ⟨s, s :: rest⟩ else pick param rest

/-- The argument loop for a callee without type parameters (`typecheck.go` 729-755). The arguments
are returned as they are left behind, also on failure. -/
def argCheck : List Arg → List Ty → Bool × List Arg
  | a :: as, p :: ps =>
    if a.overloaded then
      match pick p a.chain with
      | some a' => let r := argCheck as ps; (r.1, a' :: r.2)
      | none => (false, a :: as)
    else if a.typ.same p then
      let r := argCheck as ps; (r.1, a :: r.2)
    else (false, a :: as)
  | as, _ => (true, as)

/-- The inner loop over an overloaded argument's symbols, generic callee (`typecheck.go` 769-775).
All symbols share the one map. -/
def polyPick (param : Ty) : List Ty → Bound → Option Arg × Bound
  | [], b => (none, b)
  | s :: rest, b =>
    let r := s.poly param b
    if r.1 then (some ⟨s, s :: rest⟩, r.2) else polyPick param rest r.2

/-- The argument loop for a generic callee (`typecheck.go` 764-789). -/
def polyCheck : List Arg → List Ty → Bound → Bool × List Arg × Bound
  | a :: as, p :: ps, b =>
    if a.overloaded then
      match polyPick p a.chain b with
      | (some a', b') => let r := polyCheck as ps b'; (r.1, a' :: r.2.1, r.2.2)
      | (none, b') => (false, a :: as, b')
    else
      let r := a.typ.poly p b
      if r.1 then
        let r' := polyCheck as ps r.2; (r'.1, a :: r'.2.1, r'.2.2)
      else (false, a :: as, r.2)
  | as, _, b => (true, as, b)

/-- Why a call was rejected. -/
inductive CallErr
  | notFunction | argCount | typeArgCount | mismatch | unknownTypeParameter
  deriving DecidableEq, Repr

/-- `bound[f.Types[i]] = t.typ` for the explicit type arguments (`typecheck.go` 760-763). -/
def explicitBound (tps : List Nat) (types : List Ty) : Bound := tps.zip types

/-- `matchFuncCallByType` (`typecheck.go` 705-802): the result type or an error, and the arguments as
left behind. -/
def matchCall (f : Ty) (types : List Ty) (args : List Arg) : Except CallErr Ty × List Arg :=
  match f with
  | .fn d ps ret =>
    if args.length ≠ ps.length then (.error .argCount, args)
    else if types.length ≠ 0 ∧ types.length ≠ d.tps.length then (.error .typeArgCount, args)
    else if d.tps.length = 0 then
      let r := argCheck args ps
      if r.1 then (.ok ret, r.2) else (.error .mismatch, r.2)
    else
      let r := polyCheck args ps (explicitBound d.tps types)
      if r.1 then
        if (ret.unbound r.2.2).length > 0 then (.error .unknownTypeParameter, r.2.1)
        else (.ok (ret.subst r.2.2), r.2.1)
      else (.error .mismatch, r.2.1)
  | _ => (.error .notFunction, args)

/-- `matchFuncCallBySymbol` (`typecheck.go` 694-703): the position of the chosen symbol in the
overload chain and the result type. -/
def matchSymbol : List Ty → List Ty → List Arg → Option (Nat × Ty)
  | [], _, _ => none
  | f :: fs, types, args =>
    match matchCall f types args with
    | (.ok ret, _) => some (0, ret)
    | (.error _, args') => (matchSymbol fs types args').map (fun r => (r.1 + 1, r.2))

end Clara.Types
