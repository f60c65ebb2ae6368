import Verif.Sema.Check
import Verif.Sema.Lower
set_option linter.unusedVariables false
/-
From the checked tree to the trees of the code generator: `rewriteArrayLiteralExpr` (`semantic.go` 515-527),
`rewriteAnonFnAndClosures` (`closures.go` 10-135), and what `genExpr` takes from the nodes and symbols
(`codegen.go` 574-856).  `match` and `for` are kept here and lowered by `Verif/Sema/Lower.lean`.

A Go panic is `.panic`.  `.outside`: the program is not covered here.  This is so for
* names of types used as values, for which `genExpr` takes the `Addr` of the symbol (`codegen.go` 777-779);
* function literals in which the search for captured variables takes fields for variables or passes over
  variables (`closures.go` 161-168; these are in `Verif/Sema/Closure.lean` and C28);
* trees that have no types where the checker puts types.

Simplifications:
* Variables are numbers.  In the Go code an identifier has its symbol; here its name is looked up among the
  names in scope when it is a parameter or a local variable.
* Captured variables are taken in the order in which they are found (the Go code iterates over a map), and a
  captured variable has the position of its own in the environment (C28 has the case of equal names).
* The library functions are there (`MustResolve`).  `invokeDynamic` itself, which is not rewritten (`main.go` 121), is
  given as it is in `runtime.clara` 117-126.
-/
namespace Clara.Sema.Chk
open Clara.Types
open Clara.Gen (TK TyR Expr)
open Clara.Sema (SS SCh SSs SCs SBody SFn Lib)

inductive Bad
  | panic | outside
  deriving DecidableEq, Repr

abbrev Tr (α : Type) := Except Bad α

/-- `Kind` of a type. -/
def kindOf : Ty → TK
  | .prim .bool => .boolean
  | .prim .string => .string
  | .prim .nothing => .nothing
  | .prim .pointer => .pointer
  | .prim .int => .integer
  | .prim .bytes => .bytes
  | .param _ => .parameter
  | .array _ => .array
  | .struct _ _ => .struct
  | .enum _ _ => .enum
  | .fn _ _ _ => .function

/-- What is needed from outside: the identity of types, the names of functions in the assembly (`AsmName`), the
library functions, and the names, descriptions and type numbers of what is made for function literals. -/
structure TrLib where
  ids : Ty → Nat
  asm : String → Alt → String
  invokeDynamic : String
  setElement : String
  arrayNoInit : String
  anonFn : Nat → String
  clFn : Nat → String
  envCons : Nat → String
  clCons : Nat → String
  desc : Nat → String
  envId : Nat → Nat
  clId : Nat → Nat
  low : Lib

def TrLib.ty (T : TrLib) (t : Ty) : TyR := ⟨kindOf t, T.ids t⟩

/-- The next variable, the number of the last function literal (`id` in `closures.go` 8), and the functions that
were made, in order. -/
structure TrSt where
  n : Nat
  k : Nat
  out : List SFn

/-- The parameters and local variables in scope, the innermost first. -/
abbrev Names' := List (String × Nat)

/-- The offset of a field: `Addr` of its symbol. -/
def fieldOff (D : Decls) (t : Ty) (x : String) : Option Nat :=
  let inStruct (n : String) : Option Nat :=
    match D.structs n with
    | none => none
    | some d => if x ∈ d.fields.map (·.1) then some (8 * (d.fields.map (·.1)).idxOf x) else none
  match t with
  | .struct n _ => inStruct n
  | .fn _ _ (.struct n _) => inStruct n
  | _ => some 0

/-- An identifier (`codegen.go` 758-780). -/
def trIdent (T : TrLib) (ρ : Names') (x : String) (a : Ann) : Tr Expr :=
  match a.sym, a.typ with
  | some (s :: _), some t =>
    if s.isType then .error .outside
    else if s.isGlobal then
      match s.ty with
      | some (.fn d _ _) => .ok (.fnRef (T.asm x s) (d.kind == .external) (T.ty t))
      | _ => .error .outside
    else
      match ρ.lookup x with
      | some n => .ok (.var n (T.ty t))
      | none => .error .outside
  | _, _ => .error .outside

/-- A call of the function that the symbol stands for (`codegen.go` 577-582, 601-640). -/
def trCall (T : TrLib) (x : String) (s : Alt) (u : Ty) (args : List Expr) : Tr Expr :=
  match s.ty with
  | some (.fn d _ _) => .ok (.callFn (T.asm x s) { ext := d.kind == .external, raw := d.raw, variadic := d.variadic, ret := T.ty u } args)
  | _ => .error .panic

/-- `closures.go` 84-97.  The callee is a function by name where a function literal without captured variables was
(`closures.go` 73-80). -/
def trInvoke (T : TrLib) (f : Expr) (u : Ty) (args : List Expr) : Expr :=
  match f with
  | .fnRef name _ _ => .callFn name { ret := T.ty u } args
  | f => .callFn T.invokeDynamic { ret := T.ty u } (f :: args)

/-- `semantic.go` 517-525; `t` is the type `[]T` of the library functions. -/
def trElems (T : TrLib) (t : TyR) (x : Expr) : Nat → List Expr → Expr
  | _, [] => x
  | i, e :: es => trElems T t (.callFn T.setElement { ret := t } [x, .int i, e]) (i + 1) es

def trArr (T : TrLib) (es : List Expr) : Expr :=
  let t := T.ty (.array (.param 0))
  trElems T t (.callFn T.arrayNoInit { ret := t } [.int es.length]) 0 es

def trBin : BinOp → Option Gen.BinOp
  | .and => some .and
  | .or => some .or
  | .add => some .add
  | .sub => some .sub
  | .mul => some .mul
  | .div => some .div
  | .band => some .band
  | .bor => some .bor
  | .bxor => some .bxor
  | .bleft => some .bleft
  | .bright => some .bright
  | .range => none

def trCmp : CmpOp → Gen.BinOp
  | .gt => .gt
  | .gte => .ge
  | .lt => .lt
  | .lte => .le
  | .eq => .eq

def trUn : UnOp → Gen.UnOp
  | .not => .not
  | .bnot => .bnot
  | .neg => .neg

def trLit : LitK → Expr
  | .int i _ => .int i
  | .string s => .str s
  | .bool b => .bool b

/-! ### Captured variables -/

mutual
/-- The variables in an expression, in order. -/
def found : Expr → List (Nat × TyR)
  | .var x t => [(x, t)]
  | .int _ | .bool _ | .str _ | .typ _ | .fnRef _ _ _ => []
  | .bin _ _ l r => found l ++ found r
  | .un _ _ e => found e
  | .tern _ c x y => found c ++ (found x ++ found y)
  | .arrLit _ e => found e
  | .callFn _ _ args => foundL args
  | .callVar _ _ args => foundL args
  | .callExpr e _ args => found e ++ foundL args
  | .dot _ e _ => found e
  | .index _ a i => found a ++ found i
def foundL : List Expr → List (Nat × TyR)
  | [] => []
  | e :: es => found e ++ foundL es
end

def Gen.isVar : Expr → Bool
  | .var _ _ => true
  | _ => false

mutual
/-- The search of `closures.go` 151-174 finds the variables below `n` and nothing else: fields of variables only
are accessed, and the index into a variable has none of these variables. -/
def plainly (n : Nat) : Expr → Bool
  | .var _ _ | .int _ | .bool _ | .str _ | .typ _ | .fnRef _ _ _ => true
  | .bin _ _ l r => plainly n l && plainly n r
  | .un _ _ e => plainly n e
  | .tern _ c x y => plainly n c && (plainly n x && plainly n y)
  | .arrLit _ e => plainly n e
  | .callFn _ _ args => plainlyL n args
  | .callVar _ _ args => plainlyL n args
  | .callExpr e _ args => plainly n e && plainlyL n args
  | .dot _ e _ => Gen.isVar e
  | .index _ a i => plainly n a && (plainly n i && (!Gen.isVar a || (found i).all (fun p => n ≤ p.1)))
def plainlyL (n : Nat) : List Expr → Bool
  | [] => true
  | e :: es => plainly n e && plainlyL n es
end

mutual
/-- The expressions in a statement, in order. -/
def exprsS : SS → List Expr
  | .ret none => []
  | .ret (some e) => [e]
  | .ifs c => exprsCh c
  | .asg _ l r => [l, r]
  | .loop c b => c :: exprsB b
  | .expr e => [e]
  | .forR _ lo hi _ b => lo :: hi :: exprsB b
  | .forA _ _ a b => a :: exprsB b
  | .match_ e cs => e :: exprsCs cs
def exprsCh : SCh → List Expr
  | .done => []
  | .els b => exprsB b
  | .cond c b n => c :: (exprsB b ++ exprsCh n)
def exprsB : SSs → List Expr
  | .nil => []
  | .cons s ss => exprsS s ++ exprsB ss
def exprsCs : SCs → List Expr
  | .nil => []
  | .cons _ _ b n => exprsB b ++ exprsCs n
end

def exprsBody : SBody → List Expr
  | .block ss => exprsB ss
  | .expr e => [e]
  | .cons _ _ _ => []

/-- The captured variables: those below `n` (the variables of the literal have numbers from `n` on). -/
def caps (n : Nat) : List (Nat × TyR) → List (Nat × TyR)
  | [] => []
  | p :: ps => if p.1 < n then p :: (caps n ps).filter (·.1 ≠ p.1) else caps n ps

mutual
/-- `clRewriteFreeVars` (`closures.go` 117-134): a captured variable becomes a field of the environment, which is
the variable `m`. -/
def capX (cs : List Nat) (m : Nat) (t : TyR) : Expr → Expr
  | .var x u => if x ∈ cs then .dot u (.var m t) (8 * cs.idxOf x) else .var x u
  | .int i => .int i
  | .bool b => .bool b
  | .str s => .str s
  | .typ u => .typ u
  | .fnRef f e u => .fnRef f e u
  | .bin o u l r => .bin o u (capX cs m t l) (capX cs m t r)
  | .un o u e => .un o u (capX cs m t e)
  | .tern u c x y => .tern u (capX cs m t c) (capX cs m t x) (capX cs m t y)
  | .arrLit u e => .arrLit u (capX cs m t e)
  | .callFn f fi args => .callFn f fi (capL cs m t args)
  | .callVar x fi args => .callVar x fi (capL cs m t args)
  | .callExpr e fi args => .callExpr (capX cs m t e) fi (capL cs m t args)
  | .dot u e off => .dot u (capX cs m t e) off
  | .index u a i => .index u (capX cs m t a) (capX cs m t i)
def capL (cs : List Nat) (m : Nat) (t : TyR) : List Expr → List Expr
  | [] => []
  | e :: es => capX cs m t e :: capL cs m t es
end

mutual
def capS (cs : List Nat) (m : Nat) (t : TyR) : SS → SS
  | .ret none => .ret none
  | .ret (some e) => .ret (some (capX cs m t e))
  | .ifs c => .ifs (capCh cs m t c)
  | .asg d l r => .asg d (capX cs m t l) (capX cs m t r)
  | .loop c b => .loop (capX cs m t c) (capB cs m t b)
  | .expr e => .expr (capX cs m t e)
  | .forR x lo hi z b => .forR x (capX cs m t lo) (capX cs m t hi) z (capB cs m t b)
  | .forA x u a b => .forA x u (capX cs m t a) (capB cs m t b)
  | .match_ e ks => .match_ (capX cs m t e) (capCs cs m t ks)
def capCh (cs : List Nat) (m : Nat) (t : TyR) : SCh → SCh
  | .done => .done
  | .els b => .els (capB cs m t b)
  | .cond c b n => .cond (capX cs m t c) (capB cs m t b) (capCh cs m t n)
def capB (cs : List Nat) (m : Nat) (t : TyR) : SSs → SSs
  | .nil => .nil
  | .cons s ss => .cons (capS cs m t s) (capB cs m t ss)
def capCs (cs : List Nat) (m : Nat) (t : TyR) : SCs → SCs
  | .nil => .nil
  | .cons tag vs b n => .cons tag vs (capB cs m t b) (capCs cs m t n)
end

def capBody (cs : List Nat) (m : Nat) (t : TyR) : SBody → SBody
  | .block ss => .block (capB cs m t ss)
  | .expr e => .expr (capX cs m t e)
  | .cons tag desc id => .cons tag desc id

/-- `rewriteAnonFnAndClosures` on a function literal (`closures.go` 12-82) whose body is rewritten: `n` is its first
variable, `ps` its parameters, `u` its type, `r` its result type. -/
def hoist (T : TrLib) (n : Nat) (ps : List (Nat × TyR)) (b : SBody) (u r : Ty) (st : TrSt) : Tr (Expr × TrSt) :=
  if (exprsBody b).all (plainly n) then
    let k := st.k + 1
    let cs := caps n (foundL (exprsBody b))
    let none? : Bool := kindOf r == .nothing
    if cs.isEmpty then
      let f : SFn := { name := T.anonFn k, params := ps, body := b, retNothing := none? }
      .ok (.fnRef f.name false (T.ty u), { st with k := k, out := st.out ++ [f] })
    else
      let te : TyR := ⟨.struct, T.envId k⟩
      let tc : TyR := ⟨.struct, T.clId k⟩
      let env : SFn := { name := T.envCons k, params := cs, body := .cons none (T.desc k) (T.envId k) }
      let cl : SFn := { name := T.clCons k, params := [(0, T.ty u), (1, te)], body := .cons none (T.desc k) (T.clId k) }
      let f : SFn := { name := T.clFn k, params := (st.n, te) :: ps, body := capBody (cs.map (·.1)) st.n te b, retNothing := none? }
      .ok (.callFn cl.name { ret := tc } [.fnRef f.name false (T.ty u), .callFn env.name { ret := te } (cs.map fun p => .var p.1 p.2)],
        { n := st.n + 1, k := k, out := st.out ++ [env, cl, f] })
  else .error .outside

/-! ### Expressions and statements -/

def bindParams (names : List String) (n : Nat) : Names' := (names.zipIdx n).reverse

def typedParams (T : TrLib) (ts : List Ty) (n : Nat) : List (Nat × TyR) := (ts.zipIdx n).map fun p => (p.2, T.ty p.1)

/-- The types of the variables of a case. -/
def varTypes : List (String × Ann) → Option (List Ty)
  | [] => some []
  | (_, a) :: vs => match a.typ, varTypes vs with | some t, some ts => some (t :: ts) | _, _ => none

def isZero : X → Bool
  | .lit (.int _ z) _ => z
  | _ => false

mutual
def trX (T : TrLib) (D : Decls) (ρ : Names') : X → TrSt → Tr (Expr × TrSt)
  | .lit k _, st => .ok (trLit k, st)
  | .ident x a, st => do
    let e ← trIdent T ρ x a
    pure (e, st)
  | .call f _ args a, st =>
    match f with
    | .ident x ⟨t, some (s :: r)⟩ => do
      let (as, st) ← trL T D ρ args st
      match a.typ with
      | none => .error .outside
      | some u =>
        if s.isGlobal then do
          let e ← trCall T x s u as
          pure (e, st)
        else do
          let e ← trIdent T ρ x ⟨t, some (s :: r)⟩
          pure (trInvoke T e u as, st)
    | f => do
      let (e, st) ← trX T D ρ f st
      let (as, st) ← trL T D ρ args st
      match a.typ with
      | none => .error .outside
      | some u => pure (trInvoke T e u as, st)
  | .bin op l r a, st =>
    match trBin op with
    | none => .error .panic                                        -- `codegen.go` 853-854
    | some o => do
      let (l, st) ← trX T D ρ l st
      let (r, st) ← trX T D ρ r st
      match a.typ with
      | none => .error .outside
      | some u => pure (.bin o (T.ty u) l r, st)
  | .cmp op l r a, st => do
    let (l, st) ← trX T D ρ l st
    let (r, st) ← trX T D ρ r st
    match a.typ with
    | none => .error .outside
    | some u => pure (.bin (trCmp op) (T.ty u) l r, st)
  | .un op e a, st => do
    let (e, st) ← trX T D ρ e st
    match a.typ with
    | none => .error .outside
    | some u => pure (.un (trUn op) (T.ty u) e, st)
  | .tern c x y a, st => do
    let (c, st) ← trX T D ρ c st
    let (x, st) ← trX T D ρ x st
    let (y, st) ← trX T D ρ y st
    match a.typ with
    | none => .error .outside
    | some u => pure (.tern (T.ty u) c x y, st)
  | .arr es a, st => do
    let (es, st) ← trL T D ρ es st
    match a.typ with
    | none => .error .outside
    | some u => pure (.arrLit (T.ty u) (trArr T es), st)
  | .index l r a, st => do
    let (l, st) ← trX T D ρ l st
    let (r, st) ← trX T D ρ r st
    match a.typ with
    | none => .error .outside
    | some u => pure (.index (T.ty u) l r, st)
  | .dot l r a, st => do
    let t := l.typ
    let (e, st) ← trX T D ρ l st
    match t, r, a.typ with
    | some t, .ident x _, some u =>
      match fieldOff D t x with
      | none => .error .outside
      | some off => pure (.dot (T.ty u) e off, st)
    | _, _, _ => .error .outside
  | .ty _ a, st =>
    match a.typ with
    | none => .error .outside
    | some u => .ok (.typ (T.ty u), st)
  | .fnB h _ ss a, st =>
    match a.typ with
    | some (.fn d ts r) => do
      let (b, st1) ← trB T D (bindParams (h.params.map (·.1)) st.n ++ ρ) ss { st with n := st.n + ts.length }
      hoist T st.n (typedParams T ts st.n) (.block b) (.fn d ts r) r st1
    | _ => .error .outside
  | .fnE h _ e a, st =>
    match a.typ with
    | some (.fn d ts r) => do
      let (b, st1) ← trX T D (bindParams (h.params.map (·.1)) st.n ++ ρ) e { st with n := st.n + ts.length }
      hoist T st.n (typedParams T ts st.n) (.expr b) (.fn d ts r) r st1
    | _ => .error .outside
def trL (T : TrLib) (D : Decls) (ρ : Names') : List X → TrSt → Tr (List Expr × TrSt)
  | [], st => .ok ([], st)
  | e :: es, st => do
    let (e, st) ← trX T D ρ e st
    let (es, st) ← trL T D ρ es st
    pure (e :: es, st)
/-- A statement; the names in scope after it are also returned. -/
def trS (T : TrLib) (D : Decls) (ρ : Names') : S → TrSt → Tr (SS × Names' × TrSt)
  | .expr x, st => do
    let (e, st) ← trX T D ρ x st
    pure (.expr e, ρ, st)
  | .loop c ss, st => do
    let (c, st) ← trX T D ρ c st
    let (b, st) ← trB T D ρ ss st
    pure (.loop c b, ρ, st)
  | .for_ x _ (.bin .range lo hi _) ss, st => do
    let z := isZero hi
    let (lo, st) ← trX T D ρ lo st
    let (hi, st) ← trX T D ρ hi st
    let (b, st1) ← trB T D ((x, st.n) :: ρ) ss { st with n := st.n + 1 }
    pure (.forR st.n lo hi z b, ρ, st1)
  | .for_ x _ e ss, st => do
    let t := e.typ
    let (e, st) ← trX T D ρ e st
    match t with
    | some (.array u) => do
      let (b, st1) ← trB T D ((x, st.n) :: ρ) ss { st with n := st.n + 1 }
      pure (.forA st.n (T.ty u) e b, ρ, st1)
    | _ => .error .outside
  | .ifs c, st => do
    let (c, st) ← trCh T D ρ c st
    pure (.ifs c, ρ, st)
  | .ret0, st => .ok (.ret none, ρ, st)
  | .ret e, st => do
    let (e, st) ← trX T D ρ e st
    pure (.ret (some e), ρ, st)
  | .das l r, st => do
    let (r, st) ← trX T D ρ r st
    match l with
    | .ident x ⟨some t, _⟩ => pure (.asg true (.var st.n (T.ty t)) r, (x, st.n) :: ρ, { st with n := st.n + 1 })
    | _ => .error .outside
  | .asg l r, st => do
    let (l, st) ← trX T D ρ l st
    let (r, st) ← trX T D ρ r st
    pure (.asg false l r, ρ, st)
  | .match_ e cs, st => do
    let t := e.typ
    let (e, st) ← trX T D ρ e st
    match t with
    | some (.enum n _) => do
      let (cs, st) ← trCs T D ρ (D.members n) cs st
      pure (.match_ e cs, ρ, st)
    | _ => .error .outside
def trCh (T : TrLib) (D : Decls) (ρ : Names') : Ch → TrSt → Tr (SCh × TrSt)
  | .done, st => .ok (.done, st)
  | .els ss, st => do
    let (b, st) ← trB T D ρ ss st
    pure (.els b, st)
  | .cond c ss n, st => do
    let (c, st) ← trX T D ρ c st
    let (b, st) ← trB T D ρ ss st
    let (n, st) ← trCh T D ρ n st
    pure (.cond c b n, st)
def trB (T : TrLib) (D : Decls) (ρ : Names') : List S → TrSt → Tr (SSs × TrSt)
  | [], st => .ok (.nil, st)
  | s :: ss, st => do
    let (s, ρ, st) ← trS T D ρ s st
    let (ss, st) ← trB T D ρ ss st
    pure (.cons s ss, st)
def trCs (T : TrLib) (D : Decls) (ρ : Names') (members : List Nat) : List Case → TrSt → Tr (SCs × TrSt)
  | [], st => .ok (.nil, st)
  | .mk _ sym vs ss :: cs, st =>
    match sym, varTypes vs with
    | some s, some ts => do
      let (b, st1) ← trB T D (bindParams (vs.map (·.1)) st.n ++ ρ) ss { st with n := st.n + ts.length }
      let (cs, st2) ← trCs T D ρ members cs st1
      pure (.cons (members.idxOf s.fid) (typedParams T ts st.n) b cs, st2)
    | _, _ => .error .outside
end

/-! ### Programs -/

/-- What kind of function a declaration is. -/
inductive TopKind
  | normal
  | external
  | cons (tag : Option Nat) (desc : String) (id : Nat)
  /-- `invokeDynamic`; the names of the functions `isClosure` and `unsafe` -/
  | dynamic (isCl uns : String)

/-- The declaration of a function; `skip`: it has the attribute `ExtRet`. -/
structure Top where
  name : String
  params : List (String × Ty)
  kind : TopKind := .normal
  skip : Bool := false

/-- The types in `invokeDynamic`. -/
def dynT (T : TrLib) : Gen.DynT :=
  let cl := T.ty (.struct "closure" [])
  let f := T.ty (.fn {} [] (.prim .nothing))
  { int := T.ty (.prim .int), ptr := T.ty (.prim .pointer), cl := cl, env := T.ty (.struct "clEnv" []), clf := f, f := f,
    fiC := { ret := T.ty (.prim .bool) }, fiU1 := { ext := true, ret := cl }, fiU2 := { ext := true, ret := f },
    fiE := { ret := T.ty (.prim .nothing) }, fiV := { ret := T.ty (.prim .nothing) } }

/-- `invokeDynamic` (`runtime.clara` 117-126) with variables from `n` on: a closure is called with its environment, any
other function without. -/
def dynFn (T : TrLib) (name isCl uns : String) (n : Nat) : SFn :=
  let t := dynT T
  { name := name
    params := [(n, t.ptr), (n + 1, t.int), (n + 2, t.int), (n + 3, t.int), (n + 4, t.int), (n + 5, t.int)]
    body := .block (.cons (.ifs (.cond (t.test isCl n)
      (.cons (.asg true (.var (n + 6) t.cl) (t.cast uns t.fiU1 t.cl n)) (.cons (.expr (.callExpr (.dot t.clf (.var (n + 6) t.cl) 0) t.fiE
        (.dot t.env (.var (n + 6) t.cl) 8 :: t.args n))) .nil))
      (.els (.cons (.asg true (.var (n + 7) t.f) (t.cast uns t.fiU2 t.f n)) (.cons (.expr (.callVar (n + 7) t.fiV (t.args n))) .nil))))) .nil)
    retNothing := true }

/-- A declared function with its checked body. -/
def trFn (T : TrLib) (D : Decls) (p : Top) (f : Fn) (st : TrSt) : Tr (List SFn × TrSt) :=
  let ρ := bindParams (p.params.map (·.1)) st.n
  let ps := typedParams T (p.params.map (·.2)) st.n
  let st' := { st with n := st.n + p.params.length }
  let none? : Bool := kindOf f.ret == .nothing
  match p.kind, f.body with
  | .external, _ => .ok ([], st)
  | .cons tag desc id, _ => .ok ([{ name := p.name, params := ps, body := .cons tag desc id }], st')
  | .dynamic isCl uns, _ => .ok ([dynFn T p.name isCl uns st.n], { st with n := st.n + 8 })
  | .normal, .block ss => do
    let (b, st1) ← trB T D ρ ss st'
    pure ([{ name := p.name, params := ps, body := .block b, retNothing := none?, skip := p.skip }], st1)
  | .normal, .expr e => do
    let (b, st1) ← trX T D ρ e st'
    pure ([{ name := p.name, params := ps, body := .expr b, retNothing := none?, skip := p.skip }], st1)
  | .normal, .none_ => .error .outside

def trFns (T : TrLib) (D : Decls) : List (Top × Fn) → TrSt → Tr (List SFn × TrSt)
  | [], st => .ok ([], st)
  | (p, f) :: fs, st => do
    let (a, st) ← trFn T D p f st
    let (b, st) ← trFns T D fs st
    pure (a ++ b, st)

/-- The functions for which code is generated, lowered: the declared ones, then those made for function literals. -/
def trProg (T : TrLib) (D : Decls) (fs : List (Top × Fn)) : Tr (List Gen.FnDef) := do
  let (a, st) ← trFns T D fs ⟨0, 0, []⟩
  pure ((a ++ st.out).map (lowF T.low st.n))

end Clara.Sema.Chk
