import Verif.Sema.Check
set_option linter.unusedVariables false
/-
Declarations: `stdSyms` (`main.go` 203-221), `processTopLevelTypes`, `instantiateFieldTypes`,
`instantiateFunctionTypes`, `instantiateType`, `processFnType`, `createType` (`semantic.go` 84-448),
`generateStructConstructor` (`semantic.go` 609-663) and `substituteType` (`typecheck.go` 804-851) with the fields of
structs.

A struct type is either the type of the declaration, whose fields are the ones in the table at the time they are
looked up, or a copy that `substituteType` made, with the fields it had then.  Functions are numbered in the order in
which their types are made; the number stands for the identity of the function type.

Simplifications:
* The symbols with names such as `f(int)`, which are there to find functions that are declared twice, are kept in
  a list of their own (`keys`), and the symbols `[]string`, `[]int` and `[]T` are left out: no identifier has such a
  name.
* Type parameters carry their identity in the tree.
* Addresses of fields and the text of errors are left out.
* Names that begin with a letter outside of ASCII: see `consName`.
-/
namespace Clara.Sema.Dcl
open Clara.Types
open Clara.Sema.Chk (TyN Err Head FnBody Scope Alt Decls StructD Fn plainSym tparamSym bodyTerm)

inductive Stop
  | fuel | panic
  deriving DecidableEq, Repr

/-- `Type` (`symtab.go` 66-69) with the fields of structs.  The only function types inside of types are the ones that
are written, which have no type parameters and no kind. -/
inductive RTy
  | prim (p : Prim)
  | param (id : Nat)
  | array (elem : RTy)
  | fn (params : List RTy) (ret : RTy)
  | enum (name : String) (types : List RTy)
  /-- The type of the declared struct. -/
  | decl (name : String)
  /-- A copy made by `substituteType` (`typecheck.go` 821-833). -/
  | inst (name : String) (types : List RTy) (names : List String) (fields : List RTy)

/-- A declared struct: its type parameters and its fields, `none` for a nil type. -/
structure SRec where
  tps : List (String × Nat)
  fields : List (String × Option RTy)

/-- A declared enum: its type parameters and its constructors. -/
structure ERec where
  tps : List (String × Nat)
  members : List Nat

/-- A declared function: `tys` are the type parameters in its scope, the innermost first. -/
structure FRec where
  data : FnData
  tps : List (String × Nat) := []
  tys : List (String × Nat) := []
  params : List (String × Option RTy) := []
  ret : Option RTy := some (.prim .nothing)

/-- A symbol of the root table. -/
inductive RSym
  | type (t : RTy)
  | fn (id : Nat)

/-- What is left of a function after its type was made: `instantiateFunctionTypes` and `typeCheck` use this. -/
structure Item where
  id : Nat
  params : List TyN
  ret : Option TyN
  body : FnBody

structure Tab where
  root : List (String × List RSym)
  keys : List String := []
  structs : List (String × SRec) := []
  enums : List (String × ERec) := []
  fns : List FRec

/-- `stdSyms` (`main.go` 203-221). -/
def Tab.std : Tab where
  root := [("string", [.type (.prim .string)]), ("int", [.type (.prim .int)]), ("bool", [.type (.prim .bool)]),
    ("pointer", [.type (.prim .pointer)]), ("nothing", [.type (.prim .nothing)]), ("bytes", [.type (.prim .bytes)]),
    ("debug", [.fn 0]), ("printf", [.fn 1])]
  fns := [⟨{ kind := .external, variadic := true, raw := true }, [], [], [("", some (.prim .string)), ("", some (.prim .string))], some (.prim .nothing)⟩,
    ⟨{ kind := .external, variadic := true, raw := true }, [], [], [("", some (.prim .string))], some (.prim .nothing)⟩]

/-- A declared function; without a body it is external. -/
structure FnDcl where
  name : String
  head : Head
  body : FnBody
  raw : Bool := false

/-- The statements of the root node. -/
inductive Dcl
  | struct (name : String) (tps : List (String × Nat)) (fields : List (String × TyN))
  | enum (name : String) (tps : List (String × Nat)) (conses : List (String × List (String × TyN)))
  | fn (f : FnDcl)

/-! ### Substitution -/

mutual
/-- `substituteType` (`typecheck.go` 804-851) where `dec` does it for the types of declared structs. -/
def substWith (dec : String → Except Stop RTy) (b : List (Nat × RTy)) : RTy → Except Stop RTy
  | .prim p => .ok (.prim p)
  | .param k => .ok ((b.lookup k).getD (.param k))
  | .array e => (substWith dec b e).map .array
  | .fn ps r =>
    match substsWith dec b ps with
    | .error s => .error s
    | .ok ps => (substWith dec b r).map (.fn ps)
  | .enum n ts => (substsWith dec b ts).map (.enum n)
  | .decl n => dec n
  | .inst n ts xs us =>
    match substsWith dec b ts with
    | .error s => .error s
    | .ok ts => (substsWith dec b us).map (.inst n ts xs)
def substsWith (dec : String → Except Stop RTy) (b : List (Nat × RTy)) : List RTy → Except Stop (List RTy)
  | [] => .ok []
  | t :: ts =>
    match substWith dec b t with
    | .error s => .error s
    | .ok t => (substsWith dec b ts).map (t :: ·)
end

/-- The fields have types: `t.Is` on a nil type panics. -/
def allFields : List (String × Option RTy) → Except Stop (List RTy)
  | [] => .ok []
  | (_, none) :: _ => .error .panic
  | (_, some t) :: fs => (allFields fs).map (t :: ·)

/-- `substituteType` for non-empty `b`; the number bounds the depth of declared structs inside of each other. -/
def Tab.subst (T : Tab) (b : List (Nat × RTy)) : Nat → RTy → Except Stop RTy
  | 0 => substWith (fun _ => .error .fuel) b
  | k + 1 => substWith (fun n =>
      match T.structs.lookup n with
      | none => .error .panic
      | some S =>
        match substsWith (fun _ => .error .panic) b (S.tps.map fun p => .param p.2) with
        | .error s => .error s
        | .ok ts =>
          match allFields S.fields with
          | .error s => .error s
          | .ok us =>
            match us.mapM (T.subst b k) with
            | .error s => .error s
            | .ok us => .ok (.inst n ts (S.fields.map (·.1)) us)) b

/-! ### Written types -/

/-- `ResolveAll(name, IsType)` (`symtab.go` 520-528): type parameters `tys` in scope. -/
def Tab.type? (T : Tab) (tys : List (String × Nat)) (x : String) : Option RTy :=
  match tys.lookup x with
  | some k => some (.param k)
  | none =>
    match T.root.lookup x with
    | some (.type t :: _) => some t
    | _ => none

mutual
/-- `createType` (`semantic.go` 401-448): type arguments are looked at and dropped. -/
def Tab.create (T : Tab) (tys : List (String × Nat)) : TyN → Option RTy
  | .named x g args =>
    match T.type? tys x with
    | none => none
    | some t => if g then (T.creates tys args).map (fun _ => t) else some t
  | .array e => (T.create tys e).map .array
  | .func ps => (T.creates tys ps).map (fun ps => .fn ps (.prim .nothing))
  | .funcR ps r =>
    match T.creates tys ps, T.create tys r with
    | some ps, some r => some (.fn ps r)
    | _, _ => none
def Tab.creates (T : Tab) (tys : List (String × Nat)) : List TyN → Option (List RTy)
  | [] => some []
  | t :: ts =>
    match T.create tys t, T.creates tys ts with
    | some t, some ts => some (t :: ts)
    | _, _ => none
end

def allSome : List (Option RTy) → Option (List RTy)
  | [] => some []
  | none :: _ => none
  | some t :: ts => (allSome ts).map (t :: ·)

/-- `semantic.go` 266-301, where `t` is the declared type and `ps` its type parameters. -/
def Tab.args (T : Tab) (k : Nat) (t : RTy) (ps : List Nat) (ts : List (Option RTy)) (es : List Err) :
    Except Stop (Option RTy × List Err) :=
  if ps = [] then .ok (none, es ++ [.noTypeParams])
  else if ps.length ≠ ts.length then .ok (none, es ++ [.typeArgCount])
  else if es ≠ [] then .ok (none, es)
  else
    match allSome ts with
    | none => .ok (none, es)
    | some ts => (T.subst (ps.zip ts) k t).map (fun t => (some t, es))

mutual
/-- `instantiateType` (`semantic.go` 246-333); `es` are the errors so far. -/
def Tab.inst (T : Tab) (k : Nat) (tys : List (String × Nat)) (es : List Err) : TyN → Except Stop (Option RTy × List Err)
  | .named x g as =>
    match T.type? tys x with
    | none => .ok (none, es ++ [.unknownType])
    | some t =>
      if !g then .ok (some t, es)
      else
        match T.insts k tys es as with
        | .error s => .error s
        | .ok (ts, es) =>
          match t with
          | .decl n => T.args k t (((T.structs.lookup n).map (fun S => S.tps.map (·.2))).getD []) ts es
          | .enum n ps => T.args k t (((T.enums.lookup n).map (fun E => E.tps.map (·.2))).getD []) ts es
          | _ => .ok (none, es ++ [.noTypeParams])
  | .func ps =>
    match T.insts k tys es ps with
    | .error s => .error s
    | .ok (ts, es) => .ok (if es ≠ [] then none else (allSome ts).map fun ts => .fn ts (.prim .nothing), es)
  | .funcR ps r =>
    match T.insts k tys es ps with
    | .error s => .error s
    | .ok (ts, es) =>
      match T.inst k tys es r with
      | .error s => .error s
      | .ok (r, es) =>
        .ok (if es ≠ [] then none else (match allSome ts, r with | some ts, some r => some (.fn ts r) | _, _ => none), es)
  | .array e =>
    match T.inst k tys es e with
    | .error s => .error s
    | .ok (t, es) => .ok (if es ≠ [] then none else t.map .array, es)
def Tab.insts (T : Tab) (k : Nat) (tys : List (String × Nat)) (es : List Err) : List TyN → Except Stop (List (Option RTy) × List Err)
  | [] => .ok ([], es)
  | t :: ts =>
    match T.inst k tys es t with
    | .error s => .error s
    | .ok (t, es) =>
      match T.insts k tys es ts with
      | .error s => .error s
      | .ok (ts, es) => .ok (t :: ts, es)
end

/-! ### The first loop -/

/-- The type parameters of a struct or an enum (`semantic.go` 88-99, 104-115); a repeated one is left out. -/
def typeParams (seen : List (String × Nat)) : List (String × Nat) → List (String × Nat) × List Err
  | [] => ([], [])
  | (x, k) :: tps =>
    if (seen.lookup x).isSome then
      let r := typeParams seen tps
      (r.1, .redeclared :: r.2)
    else
      let r := typeParams ((x, k) :: seen) tps
      ((x, k) :: r.1, r.2)

mutual
/-- `typeName` of a type (`ast.go` 186-208). -/
def typeName : TyN → String
  | .named x g as => if g then x ++ "«" ++ ", ".intercalate (typeNames as) ++ "»" else x
  | .array e => "[]" ++ typeName e
  | .func ps => "fn(" ++ ", ".intercalate (typeNames ps) ++ ")"
  | .funcR ps _ => "fn(" ++ ", ".intercalate (typeNames ps) ++ ")"
def typeNames : List TyN → List String
  | [] => []
  | t :: ts => typeName t :: typeNames ts
end

/-- `typeName` of a function (`ast.go` 175-184). -/
def fnName (f : FnDcl) : String := f.name ++ "(" ++ ", ".intercalate (f.head.params.map fun p => typeName p.2) ++ ")"

/-- The first loop of `processTopLevelTypes` (`semantic.go` 85-135). -/
def first (T : Tab) : Dcl → Tab × List Err
  | .struct n tps _ =>
    let r := typeParams [] tps
    if (T.root.lookup n).isSome then (T, r.2 ++ [.redeclared])
    else ({ T with root := T.root ++ [(n, [.type (.decl n)])], structs := T.structs ++ [(n, ⟨r.1, []⟩)] }, r.2)
  | .enum n tps _ =>
    let r := typeParams [] tps
    if (T.root.lookup n).isSome then (T, r.2 ++ [.redeclared])
    else ({ T with root := T.root ++ [(n, [.type (.enum n (r.1.map fun p => .param p.2))])], enums := T.enums ++ [(n, ⟨r.1, []⟩)] }, r.2)
  | .fn f => if fnName f ∈ T.keys then (T, [.redeclared]) else ({ T with keys := T.keys ++ [fnName f] }, [])

/-- A loop that collects errors. -/
def loop {α : Type} (f : Tab → α → Tab × List Err) (T : Tab) : List α → Tab × List Err
  | [] => (T, [])
  | a :: as =>
    let r := f T a
    let q := loop f r.1 as
    (q.1, r.2 ++ q.2)

/-! ### The second loop -/

/-- The parameters of a function (`semantic.go` 369-381). -/
def Tab.params (T : Tab) (tys : List (String × Nat)) (names : List String) : List (String × TyN) → Except Err (List (String × Option RTy))
  | [] => .ok []
  | (x, t) :: ps =>
    match T.create tys t with
    | none => .error .unknownType
    | some t => if x ∈ names then .error .redeclared else (T.params tys (x :: names) ps).map ((x, some t) :: ·)

/-- The result type (`semantic.go` 383-391). -/
def Tab.ret (T : Tab) (tys : List (String × Nat)) : Option TyN → Except Err RTy
  | none => .ok (.prim .nothing)
  | some t => match T.create tys t with | none => .error .unknownType | some t => .ok t

/-- The symbol of a function (`semantic.go` 344-353). -/
def Tab.define (T : Tab) (x : String) (overload : Bool) : Option (List (String × List RSym)) :=
  match T.root.lookup x with
  | none => some (T.root ++ [(x, [.fn T.fns.length])])
  | some _ => if overload then some (T.root.map fun e => if e.1 = x then (x, e.2 ++ [.fn T.fns.length]) else e) else none

/-- The type of a function after its symbol was defined (`semantic.go` 355-397): `outer` are the type parameters of
its enum, `noReturn` says that it has a block that does not return. -/
def Tab.signature (T : Tab) (data : FnData) (outer : List (String × Nat)) (h : Head) (noReturn : Bool) : Except Err FRec :=
  if ¬ (h.tps.map (·.1)).Nodup then .error .redeclared
  else
    let tys := h.tps ++ outer
    match T.params tys (h.tps.map (·.1)) h.params with
    | .error e => .error e
    | .ok ps =>
      match T.ret tys h.ret with
      | .error e => .error e
      | .ok r =>
        if noReturn && (match r with | .prim .nothing => false | _ => true) then .error .missingReturn
        else .ok ⟨{ data with tps := outer.map (·.2) ++ h.tps.map (·.2) }, h.tps, tys, ps, some r⟩

/-- `processFnType` (`semantic.go` 335-398). -/
def Tab.process (T : Tab) (x : String) (data : FnData) (outer : List (String × Nat)) (h : Head) (noReturn overload : Bool) : Tab × Option Err :=
  match T.define x overload with
  | none => (T, some .redeclared)
  | some root =>
    let T' : Tab := { T with root := root }
    match T'.signature data outer h noReturn with
    | .error e => ({ T' with fns := T.fns ++ [⟨data, [], [], [], none⟩] }, some e)
    | .ok r => ({ T' with fns := T.fns ++ [r] }, none)

/-- The constructors of an enum (`semantic.go` 147-169). -/
def conses (n : String) (tps : List (String × Nat)) (T : Tab) : List (String × List (String × TyN)) → Tab × List Err
  | [] => (T, [])
  | (c, ps) :: cs =>
    match T.process c { kind := .enumCons } tps ⟨[], ps, some (.named n false [])⟩ false false with
    | (T', some e) => (T', [e])
    | (T', none) =>
      if ps.length > 5 then
        let r := conses n tps T' cs
        (r.1, .tooManyArgs :: r.2)
      else
        conses n tps { T' with enums := T'.enums.map fun e => if e.1 = n then (n, { e.2 with members := e.2.members ++ [T.fns.length] }) else e } cs

/-- The fields of a struct (`semantic.go` 177-195). -/
def fields (n : String) (tps : List (String × Nat)) (T : Tab) (names : List String) : List (String × TyN) → Tab × List Err
  | [] => (T, [])
  | (x, t) :: fs =>
    match T.create tps t with
    | none =>
      let r := fields n tps T names fs
      (r.1, .unknownType :: r.2)
    | some u =>
      if x ∈ names then
        let r := fields n tps T names fs
        (r.1, .redeclared :: r.2)
      else
        fields n tps { T with structs := T.structs.map fun e => if e.1 = n then (n, { e.2 with fields := e.2.fields ++ [(x, some u)] }) else e } (x :: names) fs

/-- A block that does not return (`semantic.go` 394). -/
def noReturn : FnBody → Bool
  | .block ss => !bodyTerm ss
  | _ => false

def FnDcl.data (f : FnDcl) : FnData := { kind := match f.body with | .none_ => .external | _ => .normal, raw := f.raw }

/-- The second loop (`semantic.go` 141-206). -/
def second (T : Tab) : Dcl → Tab × List Err
  | .struct n _ fs =>
    let tps := ((T.structs.lookup n).map SRec.tps).getD []
    fields n tps T (tps.map (·.1)) fs
  | .enum n _ cs => conses n (((T.enums.lookup n).map ERec.tps).getD []) T cs
  | .fn f =>
    match T.process f.name f.data [] f.head (noReturn f.body) true with
    | (T, some e) => (T, [e])
    | (T, none) => (T, [])

/-! ### The third loop -/

/-- A statement of the root node with a type to instantiate. -/
inductive Node
  | struct (name : String) (fields : List (String × TyN))
  | fn (i : Item)

/-- The nodes of constructors, which are moved to the end of the root node (`semantic.go` 168); `id` is the number of the first. -/
def consItems (n : String) (id : Nat) : List (String × List (String × TyN)) → List Item
  | [] => []
  | (_, ps) :: cs => ⟨id, ps.map (·.2), some (.named n false []), .none_⟩ :: consItems n (id + 1) cs

/-- The root node after the second loop, in two parts; `id` is the number of the next function. -/
def nodes (id : Nat) : List Dcl → List Node × List Item
  | [] => ([], [])
  | .struct n _ fs :: ds => let r := nodes id ds; (.struct n fs :: r.1, r.2)
  | .enum n _ cs :: ds => let r := nodes (id + cs.length) ds; (r.1, consItems n id cs ++ r.2)
  | .fn f :: ds => let r := nodes (id + 1) ds; (.fn ⟨id, f.head.params.map (·.2), f.head.ret, f.body⟩ :: r.1, r.2)

def Tab.setField (T : Tab) (n x : String) (t : Option RTy) : Tab :=
  { T with structs := T.structs.map fun e =>
      if e.1 = n then (n, { e.2 with fields := e.2.fields.map fun p => if p.1 = x then (x, t) else p }) else e }

/-- `instantiateFieldTypes` (`semantic.go` 224-231). -/
def Tab.instFields (k : Nat) (n : String) (tys : List (String × Nat)) (T : Tab) (es : List Err) : List (String × TyN) → Except Stop (Tab × List Err)
  | [] => .ok (T, es)
  | (x, t) :: fs =>
    match T.inst k tys es t with
    | .error s => .error s
    | .ok (t, es) => Tab.instFields k n tys (T.setField n x t) es fs

/-- The parameters of a function with their new types. -/
def setTypes : List (String × Option RTy) → List (Option RTy) → List (String × Option RTy)
  | (x, _) :: ps, t :: ts => (x, t) :: setTypes ps ts
  | ps, _ => ps

/-- `instantiateFunctionTypes` (`semantic.go` 233-244). -/
def Tab.instFn (k : Nat) (T : Tab) (i : Item) : Except Stop (Tab × List Err) :=
  match T.fns[i.id]? with
  | none => .error .panic
  | some f =>
    match T.insts k f.tys [] i.params with
    | .error s => .error s
    | .ok (ts, es) =>
      match i.ret with
      | none => .ok ({ T with fns := T.fns.set i.id { f with params := setTypes f.params ts } }, es)
      | some r =>
        match T.inst k f.tys es r with
        | .error s => .error s
        | .ok (r, es) => .ok ({ T with fns := T.fns.set i.id { f with params := setTypes f.params ts, ret := r } }, es)

def Tab.instNode (k : Nat) (T : Tab) : Node → Except Stop (Tab × List Err)
  | .struct n fs => Tab.instFields k n (((T.structs.lookup n).map SRec.tps).getD []) T [] fs
  | .fn i => T.instFn k i

/-- The third loop (`semantic.go` 213-220). -/
def third (k : Nat) (T : Tab) : List Node → Except Stop (Tab × List Err)
  | [] => .ok (T, [])
  | n :: ns =>
    match T.instNode k n with
    | .error s => .error s
    | .ok (T, es) =>
      match third k T ns with
      | .error s => .error s
      | .ok (T, es') => .ok (T, es ++ es')

/-! ### Constructors of structs -/

/-- The name of the constructor (`semantic.go` 620-629), `none`: the name of the struct does not begin with a lower
case letter.  A first letter outside of ASCII is cut after its first byte, for which `strings.ToUpper` gives U+FFFD;
the constructor then has a name that is no identifier. -/
def consName (x : String) : Option String :=
  match x.toList with
  | [] => none
  | c :: cs =>
    if c.val < 128 then if c.isLower then some (String.ofList (c.toUpper :: cs)) else none
    else some (String.ofList ('�' :: c :: cs))

/-- `generateStructConstructor` (`semantic.go` 618-663).  When the name is taken, the Go code looks for a function
of that name and uses its token; if it is the name of a type only, there is none. -/
def structCons (T : Tab) (n : String) : Except Stop (Tab × List Err) :=
  match consName n with
  | none => .ok (T, [.structNaming])
  | some c =>
    match T.root.lookup c with
    | some s => if s.any (fun a => match a with | .fn _ => true | .type _ => false) then .ok (T, [.override]) else .error .panic
    | none =>
      match T.structs.lookup n with
      | none => .error .panic
      | some S =>
        .ok ({ T with root := T.root ++ [(c, [.fn T.fns.length])],
                      fns := T.fns ++ [⟨{ kind := .structCons, tps := S.tps.map (·.2) }, [], [], S.fields, some (.decl n)⟩] }, [])

def structConses (T : Tab) : List Dcl → Except Stop (Tab × List Err)
  | [] => .ok (T, [])
  | .struct n _ _ :: ds =>
    match structCons T n with
    | .error s => .error s
    | .ok (T, es) =>
      match structConses T ds with
      | .error s => .error s
      | .ok (T, es') => .ok (T, es ++ es')
  | _ :: ds => structConses T ds

/-- The declarations of a program (`main.go` 92-103): the table, the functions and the errors. -/
def declare (k : Nat) (ds : List Dcl) : Except Stop (Tab × List Item × List Err) :=
  let r := loop first Tab.std ds
  if r.2 ≠ [] then .ok (r.1, [], r.2)
  else
    let r := loop second r.1 ds
    if r.2 ≠ [] then .ok (r.1, [], r.2)
    else
      let q := nodes 2 ds
      match third k r.1 (q.1 ++ q.2.map .fn) with
      | .error s => .error s
      | .ok (T, es) =>
        if es ≠ [] then .ok (T, [], es)
        else
          match structConses T ds with
          | .error s => .error s
          | .ok (T, es) => .ok (T, (q.1.filterMap fun n => match n with | .fn i => some i | .struct _ _ => none) ++ q.2, es)

/-! ### What type checking starts from -/

mutual
/-- The type without the fields of structs; `ar` are the type parameters of the declared ones. -/
def RTy.ty (ar : String → List Nat) : RTy → Ty
  | .prim p => .prim p
  | .param k => .param k
  | .array e => .array (e.ty ar)
  | .fn ps r => .fn {} (tyAll ar ps) (r.ty ar)
  | .enum n ts => .enum n (tyAll ar ts)
  | .decl n => .struct n ((ar n).map .param)
  | .inst n ts _ _ => .struct n (tyAll ar ts)
def tyAll (ar : String → List Nat) : List RTy → List Ty
  | [] => []
  | t :: ts => t.ty ar :: tyAll ar ts
end

/-- The type parameters of a struct. -/
def Tab.arity (T : Tab) (n : String) : List Nat := ((T.structs.lookup n).map fun S => S.tps.map (·.2)).getD []

/-- The type of a function. -/
def Tab.fnTy (T : Tab) (f : FRec) : Option Ty :=
  match allSome (f.params.map (·.2)), f.ret with
  | some ps, some r => some (.fn f.data (tyAll T.arity ps) (r.ty T.arity))
  | _, _ => none

def Tab.alt (T : Tab) : RSym → Alt
  | .type t => { ty := some (t.ty T.arity), isType := true, isGlobal := match t with | .prim _ => false | _ => true }
  | .fn id => { ty := (T.fns[id]?).bind T.fnTy, isGlobal := true, fid := id }

/-- The root table. -/
def Tab.scope (T : Tab) : Scope := T.root.map fun e => (e.1, e.2.map T.alt)

/-- The declared structs and enums. -/
def Tab.decls (T : Tab) : Decls where
  structs n := (T.structs.lookup n).map fun S => ⟨S.tps.map (·.2), S.fields.filterMap fun p => p.2.map fun t => (p.1, t.ty T.arity)⟩
  members n := ((T.enums.lookup n).map ERec.members).getD []

/-- The own table of a function; its names are distinct when it has no errors. -/
def Tab.own (T : Tab) (f : FRec) : Scope :=
  f.params.map (fun p => (p.1, [plainSym (p.2.map (RTy.ty T.arity))])) ++ f.tps.map (fun p => (p.1, [tparamSym p.2]))

/-- The functions to check. -/
def Tab.items (T : Tab) : List Item → List Fn
  | [] => []
  | i :: is =>
    match T.fns[i.id]? with
    | none => T.items is
    | some f => ⟨T.own f, (f.ret.map (RTy.ty T.arity)).getD (.prim .nothing), i.body⟩ :: T.items is

end Clara.Sema.Dcl
