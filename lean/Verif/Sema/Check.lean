import Verif.Types.Model
set_option linter.unusedVariables false
/-
Type checking: `typeCheck` and its helpers (`typecheck.go` 14-802, 896-915), with `instantiateType`,
`processFnType` and `createType` (`semantic.go` 246-448) for the types and functions written inside
function bodies.

A checked tree carries what the Go code stores in its nodes (`typ`, `sym`, and for a function literal
its own symbol table). `typeCheck` changes nodes in place; here the changed tree is returned together
with the errors.

Simplifications:
* Trees have the shapes that the parser makes (C11): expressions and statements are two types, and the
  fields that a node needs are there.
* A symbol is what type checking uses of it. The first entry is the symbol itself, the others are its
  `Next` symbols. The types of struct fields and the members of enums are kept in tables by type name;
  a field of an instantiated struct has the declared type under the substitution (`typecheck.go` 829-832).
* Literals get their type from the kind of their token and carry their value, which nothing here looks at; the symbol that line 160 defines for a literal
  has the text of the literal as its name, which is no identifier. The random name that line 204 gives to
  a function literal is taken not to be the name of anything else, so it is not recorded.
* Type parameters of function literals carry their identity in the tree.
* An error is its kind, without text and position.
* `Stop.fuel`: the recursion is cut off. `Stop.panic`: the Go code panics or uses a nil type.
  `Stop.partialType`: a parameter or result type of a function literal exists but cannot be instantiated
  (the Go code reports that and goes on with a function type that has nil inside).
* When a function literal's signature is rejected nothing is stored in its node, and arguments of a call
  that is rejected stay as they were before overloads were tried.
-/
namespace Clara.Sema.Chk
open Clara.Types

inductive Stop
  | fuel | panic | partialType
  deriving DecidableEq, Repr

/-- The messages of `semantic.go` 16-43. -/
inductive Err
  | redeclared | unknownType | unknownVar | ambiguous | notStruct | noField | badDot | badOperator | mismatch
  | argCount | typeArgCount | resolveFn | overload | badIndex | notIdentifier | notAddressable | notWritable
  | missingReturn | unknownCase | notExhaustive | notCase | tooManyArgs | typeParamUnknown | emptyArray | noTypeParams
  | structNaming | override
  deriving DecidableEq, Repr

/-- Literals with their values; `zero`: the text of the integer is `0`. -/
inductive LitK
  | int (i : Int) (zero : Bool)
  | string (s : String)
  | bool (b : Bool)
  deriving DecidableEq, Repr

/-- The binary operators of `typecheck.go` 100. -/
inductive BinOp
  | and | or | add | sub | mul | div | band | bor | bxor | bleft | bright | range
  deriving DecidableEq, Repr

/-- The operators of `typecheck.go` 184. -/
inductive CmpOp
  | gt | gte | lt | lte | eq
  deriving DecidableEq, Repr

inductive UnOp
  | not | bnot | neg
  deriving DecidableEq, Repr

/-- Types as written (`opNamedType`, `opArrayType`, `opFuncType`). `generic`: there is a list of type
arguments. -/
inductive TyN
  | named (name : String) (generic : Bool) (args : List TyN)
  | array (elem : TyN)
  | func (params : List TyN)
  | funcR (params : List TyN) (ret : TyN)

/-- A `Symbol` (`symtab.go` 17-30) without `Next`. `fid` stands for the identity of the function type. -/
structure Alt where
  ty : Option Ty
  isType : Bool := false
  isStack : Bool := false
  isGlobal : Bool := false
  fid : Nat := 0

/-- A local variable. -/
def stackSym (t : Option Ty) : Alt := { ty := t, isStack := true }
/-- A parameter or a field. -/
def plainSym (t : Option Ty) : Alt := { ty := t }
/-- A type parameter. -/
def tparamSym (k : Nat) : Alt := { ty := some (.param k), isType := true }

/-- A symbol and its `Next` symbols. -/
abbrev Sym := List Alt

/-- The symbols of one table. -/
abbrev Scope := List (String × Sym)

/-- A table and its parents, the innermost first. -/
abbrev Env := List Scope

/-- `Resolve` (`symtab.go` 512-518). -/
def lookup : Env → String → Option Sym
  | [], _ => none
  | sc :: Γ, x =>
    match sc.lookup x with
    | some s => some s
    | none => lookup Γ x

/-- `ResolveAll(name, IsType)` (`symtab.go` 520-528). -/
def lookupType : Env → String → Option Alt
  | [], _ => none
  | sc :: Γ, x =>
    match sc.lookup x with
    | some (s :: _) => if s.isType then some s else lookupType Γ x
    | _ => lookupType Γ x

/-- `Define` (`symtab.go` 499-505) in the innermost table; `none`: the name is taken. -/
def define (Γ : Env) (x : String) (s : Sym) : Option Env :=
  match Γ with
  | [] => some [[(x, s)]]
  | sc :: Γ =>
    match sc.lookup x with
    | some _ => none
    | none => some (((x, s) :: sc) :: Γ)

/-- `sym.Type`. -/
def Sym.ty (s : Sym) : Option Ty := s.head?.bind Alt.ty

/-- What `typeCheck` stores in a node. -/
structure Ann where
  typ : Option Ty := none
  sym : Option Sym := none

/-- The signature of a function literal. -/
structure Head where
  tps : List (String × Nat)
  params : List (String × TyN)
  ret : Option TyN

/-- What is stored in the node of a function literal: its type and its own symbol table. -/
structure FnInfo where
  ty : FnData × List Ty × Ty
  own : Scope

mutual
/-- Expressions. -/
inductive X
  | lit (k : LitK) (a : Ann)
  | ident (x : String) (a : Ann)
  | call (f : X) (ts : List TyN) (args : List X) (a : Ann)
  | bin (op : BinOp) (l r : X) (a : Ann)
  | cmp (op : CmpOp) (l r : X) (a : Ann)
  | un (op : UnOp) (e : X) (a : Ann)
  | tern (c x y : X) (a : Ann)
  | arr (es : List X) (a : Ann)
  | index (l r : X) (a : Ann)
  | dot (l r : X) (a : Ann)
  | ty (t : TyN) (a : Ann)
  | fnB (h : Head) (info : Option FnInfo) (body : List S) (a : Ann)
  | fnE (h : Head) (info : Option FnInfo) (body : X) (a : Ann)
/-- Statements. -/
inductive S
  | expr (x : X)
  | loop (c : X) (body : List S)
  | for_ (x : String) (a : Ann) (e : X) (body : List S)
  | ifs (c : Ch)
  | ret0
  | ret (e : X)
  | das (l r : X)
  | asg (l r : X)
  | match_ (e : X) (cases : List Case)
/-- `if`, `elseif`, `else`. -/
inductive Ch
  | done
  | els (body : List S)
  | cond (c : X) (body : List S) (next : Ch)
inductive Case
  | mk (name : String) (sym : Option Alt) (vars : List (String × Ann)) (body : List S)
end

def X.ann : X → Ann
  | .lit _ a | .ident _ a | .call _ _ _ a | .bin _ _ _ a | .cmp _ _ _ a | .un _ _ a | .tern _ _ _ a | .arr _ a
  | .index _ _ a | .dot _ _ a | .ty _ a | .fnB _ _ _ a | .fnE _ _ _ a => a

/-- `n.typ`. -/
def X.typ (x : X) : Option Ty := x.ann.typ

/-- A declared struct: its type parameters and its fields. -/
structure StructD where
  tps : List Nat
  fields : List (String × Ty)

/-- The declared structs, and the constructors of the declared enums. -/
structure Decls where
  structs : String → Option StructD
  members : String → List Nat

/-- `GetField` (`symtab.go` 289-296) of an instantiated struct. -/
def Decls.field (D : Decls) (n : String) (ts : List Ty) (f : String) : Option Ty :=
  match D.structs n with
  | none => none
  | some d => (d.fields.lookup f).map (Ty.subst (d.tps.zip ts))

/-! ### Written types -/

mutual
/-- `instantiateType` (`semantic.go` 246-333); `es` are the errors so far.  The kinds that line 306 does
not expect have no symbol that is a type. -/
def instTy (Γ : Env) (es : List Err) : TyN → Option Ty × List Err
  | .named x g args =>
    match lookupType Γ x with
    | none => (none, es ++ [.unknownType])
    | some s =>
      if !g then (s.ty, es)
      else
        let r := instTys Γ es args
        match s.ty with
        | some (.struct n ps) => instArgs (.struct n) ps.length r
        | some (.enum n ps) => instArgs (.enum n) ps.length r
        | _ => (none, r.2 ++ [.noTypeParams])
  | .func ps =>
    let r := instTys Γ es ps
    if r.2 ≠ [] then (none, r.2) else ((allSome r.1).map fun ts => .fn {} ts (.prim .nothing), r.2)
  | .funcR ps t =>
    let r := instTys Γ es ps
    let q := instTy Γ r.2 t
    if q.2 ≠ [] then (none, q.2)
    else (match allSome r.1, q.1 with | some ts, some t => some (.fn {} ts t) | _, _ => none, q.2)
  | .array t =>
    let r := instTy Γ es t
    if r.2 ≠ [] then (none, r.2) else (r.1.map .array, r.2)
def instTys (Γ : Env) (es : List Err) : List TyN → List (Option Ty) × List Err
  | [] => ([], es)
  | t :: ts =>
    let r := instTy Γ es t
    let q := instTys Γ r.2 ts
    (r.1 :: q.1, q.2)
/-- `semantic.go` 266-301: the declared type has `n` type parameters. -/
def instArgs (mk : List Ty → Ty) (n : Nat) (r : List (Option Ty) × List Err) : Option Ty × List Err :=
  if n = 0 then (none, r.2 ++ [.noTypeParams])
  else if n ≠ r.1.length then (none, r.2 ++ [.typeArgCount])
  else if r.2 ≠ [] then (none, r.2)
  else ((allSome r.1).map mk, r.2)
def allSome : List (Option Ty) → Option (List Ty)
  | [] => some []
  | none :: _ => none
  | some t :: ts => (allSome ts).map (t :: ·)
end

mutual
/-- The errors of `createType` (`semantic.go` 401-448). -/
def knownTy (Γ : Env) : TyN → Bool
  | .named x g args => (lookupType Γ x).isSome && (!g || knownTys Γ args)
  | .array t => knownTy Γ t
  | .func ps => knownTys Γ ps
  | .funcR ps t => knownTys Γ ps && knownTy Γ t
def knownTys (Γ : Env) : List TyN → Bool
  | [] => true
  | t :: ts => knownTy Γ t && knownTys Γ ts
end

/-! ### Function literals -/

mutual
/-- `isTerminating` (`ast.go` 69-128). -/
def S.term : S → Bool
  | .ret0 => true
  | .ret _ => true
  | .ifs c => c.term
  | .match_ _ [] => false
  | .match_ _ (c :: cs) => Case.term c && casesTerm cs
  | .expr _ | .loop _ _ | .for_ _ _ _ _ | .das _ _ | .asg _ _ => false
def Ch.term : Ch → Bool
  | .done => false
  | .els b => bodyTerm b
  | .cond _ b n => bodyTerm b && n.term
def Case.term : Case → Bool
  | .mk _ _ _ b => bodyTerm b
def casesTerm : List Case → Bool
  | [] => true
  | c :: cs => c.term && casesTerm cs
def bodyTerm : List S → Bool
  | [] => false
  | s :: ss => match ss with | [] => s.term | _ :: _ => bodyTerm ss
end

/-- The type parameters (`semantic.go` 357-368). -/
def defTps (Γ : Env) : List (String × Nat) → Except Err Env
  | [] => .ok Γ
  | (x, k) :: tps =>
    match define Γ x [tparamSym k] with
    | none => .error .redeclared
    | some Γ' => defTps Γ' tps

/-- The parameters (`semantic.go` 369-381). -/
def defParams (Γ : Env) : List (String × TyN) → Except Err Env
  | [] => .ok Γ
  | (x, t) :: ps =>
    if !knownTy Γ t then .error .unknownType
    else
      match define Γ x [plainSym none] with
      | none => .error .redeclared
      | some Γ' => defParams Γ' ps

/-- `fnType.ret.Is(Nothing)` (`semantic.go` 394) for the type that `createType` returns. -/
def isNothing (Γ : Env) : Option TyN → Bool
  | none => true
  | some (.named x _ _) =>
    match lookupType Γ x with
    | some s => (match s.ty with | some t => t.same (.prim .nothing) | none => false)
    | none => false
  | some _ => false

/-- `processFnType` (`semantic.go` 335-398) on a function literal: its scope, where the types of the
parameters are still missing. -/
def sigScope (Γ : Env) (h : Head) (term : Bool) : Except Err Env :=
  match defTps ([] :: Γ) h.tps with
  | .error e => .error e
  | .ok Γ1 =>
    match defParams Γ1 h.params with
    | .error e => .error e
    | .ok Γ2 =>
      if !(match h.ret with | none => true | some t => knownTy Γ2 t) then .error .unknownType
      else if !isNothing Γ2 h.ret && !term then .error .missingReturn
      else .ok Γ2

/-- `param.sym.Type = instantiated` (`semantic.go` 237): the scope with the types of the parameters. -/
def setTypes (sc : Scope) : List (String × Ty) → Scope
  | [] => sc
  | (x, t) :: ps => setTypes (sc.map fun e => if e.1 = x then (x, [plainSym (some t)]) else e) ps

/-- `processFnType` and `instantiateFunctionTypes` (`semantic.go` 233-244) on a function literal. -/
def signature (Γ : Env) (h : Head) (term : Bool) : Except Stop (Except Err FnInfo) :=
  match sigScope Γ h term with
  | .error e => .ok (.error e)
  | .ok [] => .error .panic
  | .ok (sc :: Γ') =>
    let r := instTys (sc :: Γ') [] (h.params.map (·.2))
    match allSome r.1, r.2 with
    | some ts, [] =>
      match h.ret with
      | none => .ok (.ok ⟨({ tps := h.tps.map (·.2) }, ts, .prim .nothing), setTypes sc ((h.params.map (·.1)).zip ts)⟩)
      | some t =>
        match instTy (sc :: Γ') [] t with
        | (some t, []) => .ok (.ok ⟨({ tps := h.tps.map (·.2) }, ts, t), setTypes sc ((h.params.map (·.1)).zip ts)⟩)
        | _ => .error .partialType
    | _, _ => .error .partialType

/-! ### Calls -/

/-- `typeCheckIdentifier` (`typecheck.go` 896-915). -/
def chkIdent (Γ : Env) (amb : Bool) (x : String) (a : Ann) : Ann × List Err :=
  match a.sym with
  | some s => (⟨s.ty, some s⟩, [])
  | none =>
    match lookup Γ x with
    | none => (a, [.unknownVar])
    | some s => if 2 ≤ s.length && !amb then (a, [.ambiguous]) else (⟨s.ty, some s⟩, [])

/-- `matchFuncCallBySymbol` (`typecheck.go` 694-703): the position of the symbol, the result type and
the arguments as they are left. -/
def matchSym : List Ty → List Ty → List Arg → Option (Nat × Ty × List Arg)
  | [], _, _ => none
  | f :: fs, types, args =>
    match matchCall f types args with
    | (.ok ret, args') => some (0, ret, args')
    | (.error _, args') => (matchSym fs types args').map (fun r => (r.1 + 1, r.2))

/-- The argument as the matching functions see it; `none`: something has no type. -/
def X.arg (x : X) : Option Arg :=
  match x with
  | .ident _ a =>
    match a.typ, a.sym with
    | some t, some s => (allSome (s.map Alt.ty)).map fun ts => ⟨t, ts⟩
    | some t, none => some ⟨t, []⟩
    | none, _ => none
  | x => x.typ.map fun t => ⟨t, []⟩

/-- `arg.sym = s; arg.typ = s.Type` (`typecheck.go` 736-737, 771-772). -/
def X.setArg (x : X) (g : Arg) : X :=
  match x with
  | .ident n a => .ident n ⟨some g.typ, a.sym.map fun s => s.drop (s.length - g.chain.length)⟩
  | x => x

def allArgs : List X → Option (List Arg)
  | [] => some []
  | x :: xs => match x.arg, allArgs xs with | some g, some gs => some (g :: gs) | _, _ => none

def setArgs : List X → List Arg → List X
  | x :: xs, g :: gs => x.setArg g :: setArgs xs gs
  | xs, _ => xs

/-- The kind of error of `matchFuncCallByType`. -/
def callErr : CallErr → Err
  | .notFunction => .mismatch
  | .argCount => .argCount
  | .typeArgCount => .typeArgCount
  | .mismatch => .mismatch
  | .unknownTypeParameter => .typeParamUnknown

/-- The type arguments of a call (`typecheck.go` 615-621); each is checked on its own, and has a type exactly
when there is no error. -/
def typeArgs (Γ : Env) : List TyN → Except (List Err) (List Ty)
  | [] => .ok []
  | t :: ts =>
    match instTy Γ [] t with
    | (some t, []) => (typeArgs Γ ts).map (t :: ·)
    | (_, es) => .error es

/-- A result of checking: the changed tree and the errors. -/
abbrev R (α : Type) := Except Stop (α × List Err)

/-- The arguments of a call (`typecheck.go` 623-640); the flag says whether the loop was completed. -/
def chkArgs (chk : X → R X) (Γ : Env) : List X → Except Stop (List X × List Err × Bool)
  | [] => .ok ([], [], true)
  | x :: xs =>
    if x.typ.isSome then
      match chkArgs chk Γ xs with
      | .error s => .error s
      | .ok (xs, es, b) => .ok (x :: xs, es, b)
    else
      match (match x with
        | .ident n a =>
          let r := chkIdent Γ true n a
          .ok (.ident n r.1, r.2)
        | x => chk x : R X) with
      | .error s => .error s
      | .ok (x', es) =>
        if x'.typ.isNone then .ok (x' :: xs, es, false)
        else
          match chkArgs chk Γ xs with
          | .error s => .error s
          | .ok (xs, es', b) => .ok (x' :: xs, es ++ es', b)

/-- The symbol of the callee and its `Next` symbols (`n.left.sym`). -/
def calleeSym : X → Option Sym
  | .ident _ a => a.sym
  | .fnB _ (some i) _ _ => some [plainSym (some (.fn i.ty.1 i.ty.2.1 i.ty.2.2))]
  | _ => none

/-- `n.left.sym = match`. -/
def setCallee (f : X) (s : Option Sym) : X :=
  match f with
  | .ident x a => .ident x ⟨a.typ, s⟩
  | f => f

/-- `n.left.token.Val` where it is the name of a function. -/
def X.name : X → String
  | .ident x _ => x
  | _ => ""

/-- The callee (`typecheck.go` 599-610). -/
def chkCallee (chk : X → R X) (Γ : Env) (f : X) : R X :=
  match f with
  | .ident x a => let r := chkIdent Γ true x a; .ok (.ident x r.1, r.2)
  | .fnB .. | .dot .. | .call .. | .index .. => chk f
  | f => .ok (f, [.resolveFn])

/-- The end of `typeCheckFuncCall` (`typecheck.go` 642-691): callee, type arguments and arguments have types. -/
def chkApply (Γ : Env) (f : X) (ts : List TyN) (tys : List Ty) (args : List X) (a : Ann) (es : List Err) : R X :=
  if f.name = "printf" ∨ f.name = "debug" then
    .ok (.call (setCallee f (lookup Γ f.name)) ts args ⟨some (.prim .nothing), a.sym⟩, es)
  else if f.name = "unsafe" then
    match lookup Γ f.name with
    | none => .error .panic
    | some s =>
      match Sym.ty s with
      | some (.fn _ _ _) =>
        match args with
        | [_, _, x] => .ok (.call (setCallee f (some s)) ts args ⟨x.typ, a.sym⟩, es)
        | _ => .ok (.call f ts args a, es ++ [.argCount])
      | _ => .error .panic
  else
    match allArgs args, f.typ with
    | some gs, some t =>
      match calleeSym f with
      | none =>
        match matchCall t tys gs with
        | (.ok ret, gs') => .ok (.call f ts (setArgs args gs') ⟨some ret, a.sym⟩, es)
        | (.error e, _) => .ok (.call f ts args a, es ++ [callErr e])
      | some s =>
        match allSome (s.map Alt.ty) with
        | none => .error .panic
        | some fs =>
          match matchSym fs tys gs with
          | some (k, ret, gs') =>
            .ok (.call (setCallee f (some (s.drop k))) ts (setArgs args gs') ⟨some ret, a.sym⟩, es)
          | none => .ok (.call f ts args a, es ++ [if fs.length = 1 then .mismatch else .overload])
    | _, _ => .error .panic

/-- `typeCheckFuncCall` (`typecheck.go` 592-692). -/
def chkCall (chk : X → R X) (Γ : Env) (f : X) (ts : List TyN) (args : List X) (a : Ann) : R X :=
  if 6 < args.length then .ok (.call f ts args a, [.tooManyArgs])
  else
    match chkCallee chk Γ f with
    | .error s => .error s
    | .ok (f', es) =>
      if f'.typ.isNone then .ok (.call f' ts args a, es)
      else
        match typeArgs Γ ts with
        | .error es' => .ok (.call f' ts args a, es ++ es')
        | .ok tys =>
          match chkArgs chk Γ args with
          | .error s => .error s
          | .ok (args', es', false) => .ok (.call f' ts args' a, es ++ es')
          | .ok (args', es', true) => chkApply Γ f' ts tys args' a (es ++ es')

/-! ### Expressions -/

def litTy : LitK → Ty
  | .int _ _ => .prim .int
  | .string _ => .prim .string
  | .bool _ => .prim .bool

/-- `operatorTypes` (`semantic.go` 55-69). -/
def BinOp.operand : BinOp → Prim
  | .and | .or => .bool
  | _ => .int

/-- `typecheck.go` 123-129. -/
def BinOp.result : BinOp → Prim
  | .and | .or => .bool
  | _ => .int

/-- `typecheck.go` 131-155. -/
def UnOp.operand : UnOp → Prim
  | .not => .bool
  | .bnot | .neg => .int

def isPrim (p : Prim) : Ty → Bool
  | .prim q => p == q
  | _ => false

/-- `typeCheckArrayLit` (`typecheck.go` 544-552): the elements from the second on are compared with the type
`t0` of the first.  The errors that `chk` returns are dropped when the element has a type. -/
def chkElems (chk : X → R X) (t0 : Option Ty) : List X → Except Stop (List X × List Err × Bool)
  | [] => .ok ([], [], true)
  | x :: xs =>
    match chk x with
    | .error s => .error s
    | .ok (x', es) =>
      match x'.typ with
      | none => .ok (x' :: xs, es, false)
      | some t =>
        if !t.same (t0.getD t) then .ok (x' :: xs, [.mismatch], false)
        else
          match chkElems chk (some (t0.getD t)) xs with
          | .error s => .error s
          | .ok (xs, es, b) => .ok (x' :: xs, es, b)

/-- Arrays and strings have a field `length` (`typecheck.go` 270). -/
def hasLength : Ty → Bool
  | .array _ => true
  | .prim .string => true
  | _ => false

/-- Field selection (`typecheck.go` 267-306), `l` has the type `t`. -/
def chkField (D : Decls) (l : X) (t : Ty) (x : String) (b a : Ann) : X × List Err :=
  let sel (t : Ty) : X × List Err := (.dot l (.ident x ⟨some t, some [plainSym (some t)]⟩) ⟨some t, a.sym⟩, [])
  let inStruct (n : String) (ts : List Ty) : X × List Err :=
    match D.field n ts x with
    | none => (.dot l (.ident x b) a, [.noField])
    | some t => sel t
  if x = "length" ∧ hasLength t then sel (.prim .int)
  else if x = "deref" ∧ isPrim .pointer t then sel (.prim .pointer)
  else
    match t, l with
    | .struct n ts, _ => inStruct n ts
    | .fn _ _ (.struct n ts), .call .. => inStruct n ts
    | _, _ => (.dot l (.ident x b) a, [.notStruct])

/-- One step of `typeCheck` on an expression; `chk` checks the parts, `body` the body of a function literal. -/
def stepX (D : Decls) (chk : Env → X → R X) (body : Env → Ty → List S → Except Stop (List S × List Err × Env))
    (Γ : Env) (e : X) : R X :=
  match e with
  | .lit k a => .ok (.lit k ⟨some (litTy k), a.sym⟩, [])
  | .ident x a => let r := chkIdent Γ false x a; .ok (.ident x r.1, r.2)
  | .call f ts args a => chkCall (chk Γ) Γ f ts args a
  | .bin op l r a =>
    match chk Γ l with
    | .error s => .error s
    | .ok (l, es) =>
      match chk Γ r with
      | .error s => .error s
      | .ok (r, es') =>
        match l.typ, r.typ with
        | some t, some u =>
          if !isPrim op.operand t then .ok (.bin op l r a, es ++ es' ++ [.badOperator])
          else if !isPrim op.operand u then .ok (.bin op l r a, es ++ es' ++ [.badOperator])
          else .ok (.bin op l r ⟨some (.prim op.result), a.sym⟩, es ++ es' ++ (if t.same u then [] else [.mismatch]))
        | _, _ => .ok (.bin op l r a, es ++ es')
  | .cmp op l r a =>
    match chk Γ l with
    | .error s => .error s
    | .ok (l, es) =>
      match chk Γ r with
      | .error s => .error s
      | .ok (r, es') =>
        match l.typ, r.typ with
        | some t, some u =>
          if !t.same u then .ok (.cmp op l r a, es ++ es' ++ [.mismatch])
          else .ok (.cmp op l r ⟨some (.prim .bool), a.sym⟩, es ++ es')
        | _, _ => .ok (.cmp op l r a, es ++ es')
  | .un op l a =>
    match chk Γ l with
    | .error s => .error s
    | .ok (l, es) =>
      match l.typ with
      | none => .ok (.un op l a, es)
      | some t =>
        if !isPrim op.operand t then .ok (.un op l a, es ++ [.mismatch])
        else .ok (.un op l ⟨some (.prim op.operand), a.sym⟩, es)
  | .tern c x y a =>                                               -- `typeCheckTernary` (517-538)
    match chk Γ c with
    | .error s => .error s
    | .ok (c, es) =>
      match c.typ with
      | none => .ok (.tern c x y a, es)
      | some t =>
        if !isPrim .bool t then .ok (.tern c x y a, [.mismatch])
        else
          match chk Γ x with
          | .error s => .error s
          | .ok (x, es) =>
            match x.typ with
            | none => .ok (.tern c x y a, es)
            | some tx =>
              match chk Γ y with
              | .error s => .error s
              | .ok (y, es) =>
                match y.typ with
                | none => .ok (.tern c x y a, es)
                | some ty =>
                  if !tx.same ty then .ok (.tern c x y a, [.mismatch])
                  else .ok (.tern c x y ⟨some tx, a.sym⟩, [])
  | .arr es a =>                                                   -- `typeCheckArrayLit` (540-555)
    if es.isEmpty then .ok (.arr es a, [.emptyArray])
    else
      match chkElems (chk Γ) none es with
      | .error s => .error s
      | .ok (xs, es, false) => .ok (.arr xs a, es)
      | .ok (xs, _, true) => .ok (.arr xs ⟨(xs.head?.bind X.typ).map .array, a.sym⟩, [])
  | .index l r a =>
    match chk Γ l with
    | .error s => .error s
    | .ok (l, es) =>
      match chk Γ r with
      | .error s => .error s
      | .ok (r, es') =>
        match l.typ, r.typ with
        | some t, some u =>
          if !isPrim .int u then .ok (.index l r a, es ++ es' ++ [.badIndex])
          else
            match t with
            | .array t => .ok (.index l r ⟨some t, a.sym⟩, es ++ es')
            | _ => .ok (.index l r a, es ++ es' ++ [.mismatch])
        | _, _ => .ok (.index l r a, es ++ es')
  | .dot l r a =>
    match chk Γ l with
    | .error s => .error s
    | .ok (l, es) =>
      match l.typ with
      | none => .ok (.dot l r a, es)
      | some t =>
        match r with
        | .call f ts args _ =>                                     -- 235-254
          let n := match t with
            | .struct n us => if (D.field n us f.name).isSome then .call (.dot l f {}) ts args a else .call f ts (l :: args) a
            | _ => .call f ts (l :: args) a
          match chk Γ n with
          | .error s => .error s
          | .ok (n, es') => .ok (n, es ++ es')
        | .index f i _ =>                                          -- 256-264
          match chk Γ (.index (.dot l f {}) i a) with
          | .error s => .error s
          | .ok (n, es') => .ok (n, es ++ es')
        | .ident x b => let r := chkField D l t x b a; .ok (r.1, es ++ r.2)
        | r => .ok (.dot l r a, es ++ [.badDot])
  | .ty t a =>
    match instTy Γ [] t with
    | (t', es) => .ok (.ty t ⟨t', a.sym⟩, es)
  | .fnB h info ss a =>                                            -- 200-226
    match (match info with | some i => .ok (.ok i) | none => signature Γ h (bodyTerm ss) : Except Stop (Except Err FnInfo)) with
    | .error s => .error s
    | .ok (.error e) => .ok (.fnB h info ss a, [e])
    | .ok (.ok i) =>
      match body (i.own :: Γ) i.ty.2.2 ss with
      | .error s => .error s
      | .ok (_, _, []) => .error .panic
      | .ok (ss, es, own :: _) =>
        .ok (.fnB h (some ⟨i.ty, own⟩) ss ⟨some (.fn i.ty.1 i.ty.2.1 i.ty.2.2), a.sym⟩, es)
  | .fnE h info e a =>
    match (match info with | some i => .ok (.ok i) | none => signature Γ h true : Except Stop (Except Err FnInfo)) with
    | .error s => .error s
    | .ok (.error er) => .ok (.fnE h info e a, [er])
    | .ok (.ok i) =>
      match chk (i.own :: Γ) e with
      | .error s => .error s
      | .ok (e, es) =>
        .ok (.fnE h (some i) e ⟨some (.fn i.ty.1 i.ty.2.1 i.ty.2.2), a.sym⟩,
          es ++ (match e.typ with | some t => if i.ty.2.2.same t then [] else [.mismatch] | none => []))

/-! ### Statements -/

/-- `isAddressable` (`ast.go` 37-46). -/
def X.addressable : X → Bool
  | .index .. => true
  | .ident .. => true
  | .dot .. => true
  | .call _ _ _ a => match a.typ with | some (.struct _ _) => true | some (.array _) => true | _ => false
  | _ => false

/-- `isReadOnly` (`ast.go` 49-58). -/
def X.readOnly : X → Bool
  | .dot l (.ident x _) _ => decide (x = "length") && (match l.typ with | some t => hasLength t | none => false)
  | _ => false

/-- The variables of a case (`typecheck.go` 498-507). -/
def chkVars (Γ : Env) : List (String × Ann) → List Ty → List (String × Ann) × List Err × Env
  | (x, a) :: vs, t :: ts =>
    match define Γ x [stackSym (some t)] with
    | none => let r := chkVars Γ vs ts; ((x, a) :: r.1, .redeclared :: r.2.1, r.2.2)
    | some Γ' => let r := chkVars Γ' vs ts; ((x, ⟨some t, some [stackSym (some t)]⟩) :: r.1, r.2)
  | vs, _ => (vs, [], Γ)

/-- `typeCheckCase` (`typecheck.go` 477-515). -/
def chkCase (body : Env → List S → Except Stop (List S × List Err × Env)) (Γ : Env) (bound : Bound) : Case → R Case
  | .mk x sym vs ss =>
    match lookup Γ x with
    | none => .ok (.mk x sym vs ss, [.notCase])
    | some [] => .error .panic
    | some (s :: _) =>
      match s.ty with
      | none => .error .panic
      | some (.fn d ps _) =>
        if d.kind ≠ .enumCons then .ok (.mk x sym vs ss, [.notCase])
        else if ps.length ≠ vs.length then .ok (.mk x (some s) vs ss, [.argCount])
        else
          let r := chkVars ([] :: Γ) vs (ps.map (Ty.subst bound))
          match body r.2.2 ss with
          | .error s => .error s
          | .ok (ss, es, _) => .ok (.mk x (some s) r.1 ss, r.2.1 ++ es)
      | some _ => .ok (.mk x sym vs ss, [.notCase])

def chkCases (body : Env → List S → Except Stop (List S × List Err × Env)) (Γ : Env) (bound : Bound) : List Case → R (List Case)
  | [] => .ok ([], [])
  | c :: cs =>
    match chkCase body Γ bound c with
    | .error s => .error s
    | .ok (c, es) =>
      match chkCases body Γ bound cs with
      | .error s => .error s
      | .ok (cs, es') => .ok (c :: cs, es ++ es')

/-- `typecheck.go` 431-450. -/
def chkMembers (members : List Nat) : List Nat → List Case → List Err
  | _, [] => []
  | seen, .mk _ none _ _ :: cs => chkMembers members seen cs
  | seen, .mk _ (some s) _ _ :: cs =>
    if s.fid ∉ members then .unknownCase :: chkMembers members seen cs
    else if s.fid ∈ seen then .redeclared :: chkMembers members seen cs
    else chkMembers members (s.fid :: seen) cs

/-- The type parameters of a declared type, `Types` in `semantic.go` 90-102. -/
def paramIds : List Ty → Option (List Nat)
  | [] => some []
  | .param k :: ts => (paramIds ts).map (k :: ·)
  | _ :: _ => none

/-- The bindings of the type parameters of an enum (`typecheck.go` 417-424). -/
def enumBound (Γ : Env) (n : String) (ts : List Ty) : Except Stop Bound :=
  if ts.isEmpty then .ok []
  else
    match (lookupType Γ n).bind Alt.ty with
    | some (.enum _ ps) =>
      match paramIds ps with
      | none => .error .panic
      | some ks => if ks.length < ts.length then .error .panic else .ok (ks.zip ts)
    | _ => .error .panic

/-- `if`, `elseif` and `else` (`typecheck.go` 44-74). -/
def chkCh (chk : X → R X) (body : Env → List S → Except Stop (List S × List Err × Env)) (Γ : Env) : Ch → R Ch
  | .done => .ok (.done, [])
  | .els ss =>
    match body ([] :: Γ) ss with
    | .error s => .error s
    | .ok (ss, es, _) => .ok (.els ss, es)
  | .cond c ss next =>
    match chk c with
    | .error s => .error s
    | .ok (c, es) =>
      match c.typ with
      | none => .ok (.cond c ss next, es)
      | some t =>
        if !isPrim .bool t then .ok (.cond c ss next, es ++ [.mismatch])
        else
          match body ([] :: Γ) ss with
          | .error s => .error s
          | .ok (ss, es', _) =>
            match chkCh chk body Γ next with
            | .error s => .error s
            | .ok (next, es'') => .ok (.cond c ss next, es ++ es' ++ es'')

/-- The type of the variable of a loop over `e`, which has the type `t` (`typecheck.go` 564-574). -/
def loopTy (t : Ty) (e : X) : Option Ty × List Err :=
  match t, e with
  | .array t, _ => (some t, [])
  | t, .bin .range _ _ _ => (some t, [])
  | _, _ => (none, [.mismatch])

/-- One step of `typeCheck` on a statement, in a function with the result type `ret`. -/
def stepS (D : Decls) (chk : Env → X → R X) (body : Env → List S → Except Stop (List S × List Err × Env))
    (Γ : Env) (ret : Ty) (s : S) : Except Stop (S × List Err × Env) :=
  match s with
  | .expr x =>
    match chk Γ x with
    | .error s => .error s
    | .ok (x, es) => .ok (.expr x, es, Γ)
  | .loop c ss =>                                                  -- 20-36
    match chk Γ c with
    | .error s => .error s
    | .ok (c, es) =>
      match c.typ with
      | none => .ok (.loop c ss, es, Γ)
      | some t =>
        if !isPrim .bool t then .ok (.loop c ss, es ++ [.mismatch], Γ)
        else
          match body ([] :: Γ) ss with
          | .error s => .error s
          | .ok (ss, es', _) => .ok (.loop c ss, es ++ es', Γ)
  | .for_ x a e ss =>                                              -- `typeCheckFor` (557-590)
    match chk Γ e with
    | .error s => .error s
    | .ok (e, es) =>
      match e.typ with
      | none => .ok (.for_ x a e ss, es, Γ)
      | some t =>
        let v := loopTy t e
        let sym : Sym := [stackSym v.1]
        match body ([(x, sym)] :: Γ) ss with
        | .error s => .error s
        | .ok (ss, es', _) => .ok (.for_ x ⟨v.1, some sym⟩ e ss, es ++ v.2 ++ es', Γ)
  | .ifs c =>
    match chkCh (chk Γ) body Γ c with
    | .error s => .error s
    | .ok (c, es) => .ok (.ifs c, es, Γ)
  | .ret0 => .ok (.ret0, if ret.same (.prim .nothing) then [] else [.mismatch], Γ)   -- 78-98
  | .ret e =>
    match chk Γ e with
    | .error s => .error s
    | .ok (e, es) =>
      match e.typ with
      | none => .ok (.ret e, es, Γ)
      | some t => .ok (.ret e, es ++ (if ret.same t then [] else [.mismatch]), Γ)
  | .das l r =>                                                    -- 336-361
    match chk Γ r with
    | .error s => .error s
    | .ok (r, es) =>
      match r.typ with
      | none => .ok (.das l r, es, Γ)
      | some t =>
        match l with
        | .ident x a =>
          match define Γ x [stackSym (some t)] with
          | none => .ok (.das l r, es ++ [.redeclared], Γ)
          | some Γ' => .ok (.das (.ident x ⟨some t, some [stackSym (some t)]⟩) r, es, Γ')
        | l => .ok (.das l r, es ++ [.notIdentifier], Γ)
  | .asg l r =>                                                    -- 363-389
    match chk Γ r with
    | .error s => .error s
    | .ok (r, es) =>
      match chk Γ l with
      | .error s => .error s
      | .ok (l, es') =>
        match l.typ, r.typ with
        | some t, some u =>
          if !l.addressable then .ok (.asg l r, es ++ es' ++ [.notAddressable], Γ)
          else if l.readOnly then .ok (.asg l r, es ++ es' ++ [.notWritable], Γ)
          else if !t.same u then .ok (.asg l r, es ++ es' ++ [.mismatch], Γ)
          else .ok (.asg l r, es ++ es', Γ)
        | _, _ => .ok (.asg l r, es ++ es', Γ)
  | .match_ e cs =>                                                -- 400-460
    match chk Γ e with
    | .error s => .error s
    | .ok (e, es) =>
      match e.typ with
      | none => .ok (.match_ e cs, es, Γ)
      | some (.enum n ts) =>
        match enumBound Γ n ts with
        | .error s => .error s
        | .ok bound =>
          match chkCases body Γ bound cs with
          | .error s => .error s
          | .ok (cs, es') =>
            let es := es ++ es' ++ chkMembers (D.members n) [] cs
            if es ≠ [] then .ok (.match_ e cs, es, Γ)
            else .ok (.match_ e cs, if cs.length ≠ (D.members n).length then [.notExhaustive] else [], Γ)
      | some _ => .ok (.match_ e cs, es ++ [.mismatch], Γ)

mutual
/-- `typeCheck` on an expression. -/
def chkX (D : Decls) : Nat → Env → X → R X
  | 0, _, _ => .error .fuel
  | n + 1, Γ, e => stepX D (chkX D n) (chkB D n) Γ e
/-- `typeCheck` on the statements of a block, one after the other. -/
def chkB (D : Decls) : Nat → Env → Ty → List S → Except Stop (List S × List Err × Env)
  | _, Γ, _, [] => .ok ([], [], Γ)
  | 0, _, _, _ :: _ => .error .fuel
  | n + 1, Γ, ret, s :: ss =>
    match stepS D (chkX D n) (fun Γ ss => chkB D n Γ ret ss) Γ ret s with
    | .error s => .error s
    | .ok (s, es, Γ) =>
      match chkB D n Γ ret ss with
      | .error s => .error s
      | .ok (ss, es', Γ) => .ok (s :: ss, es ++ es', Γ)
end

/-! ### Programs -/

inductive FnBody
  | none_
  | block (ss : List S)
  | expr (x : X)

/-- A declared function when `typeCheck` gets to it: its own table and its result type are known
(`semantic.go` 196-221). -/
structure Fn where
  own : Scope
  ret : Ty
  body : FnBody

/-- `typeCheck` on a declared function (`typecheck.go` 213-226). -/
def chkFn (D : Decls) (n : Nat) (root : Scope) (f : Fn) : R Fn :=
  match f.body with
  | .none_ => .ok (f, [])
  | .block ss =>
    match chkB D n [f.own, root] f.ret ss with
    | .error s => .error s
    | .ok (ss, es, Γ) => .ok ({ f with body := .block ss, own := Γ.headD f.own }, es)
  | .expr e =>
    match chkX D n [f.own, root] e with
    | .error s => .error s
    | .ok (e, es) =>
      .ok ({ f with body := .expr e },
        es ++ (match e.typ with | some t => if f.ret.same t then [] else [.mismatch] | none => []))

/-- `typeCheck` on the root (`typecheck.go` 391-394). -/
def chkProg (D : Decls) (n : Nat) (root : Scope) : List Fn → R (List Fn)
  | [] => .ok ([], [])
  | f :: fs =>
    match chkFn D n root f with
    | .error s => .error s
    | .ok (f, es) =>
      match chkProg D n root fs with
      | .error s => .error s
      | .ok (fs, es') => .ok (f :: fs, es ++ es')

end Clara.Sema.Chk
