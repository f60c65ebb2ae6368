import Verif.Sema.DeclareSpec
set_option linter.unusedVariables false
/-
What the tables that type checking starts from should be, for a list of declarations.  Nothing here uses the functions
that make them.
-/
namespace Clara.Sema.Dcl
open Clara.Types
open Clara.Sema.Chk (TyN Head FnBody Alt Sym Scope Env Decls Fn MeansAll plainSym tparamSym)

/-- A function that is declared, with the type parameters `outer` of its enum. -/
structure Sig where
  name : String
  data : FnData
  outer : List (String × Nat)
  head : Head
  body : FnBody

/-- The functions that are declared: constructors of enums return the enum and have no body. -/
def Dcl.sigs : Dcl → List Sig
  | .struct _ _ _ => []
  | .enum n tps cs => cs.map fun c => ⟨c.1, { kind := .enumCons }, tps, ⟨[], c.2, some (.named n false [])⟩, .none_⟩
  | .fn f => [⟨f.name, { kind := match f.body with | .none_ => .external | _ => .normal, raw := f.raw }, [], f.head, f.body⟩]

def Sig.isCons (s : Sig) : Bool := match s.data.kind with | .enumCons => true | _ => false

/-- Type parameters as types. -/
def tpTys (tps : List (String × Nat)) : List Ty := tps.map fun p => .param p.2

/-- Type parameters as a scope. -/
def tpScope (tps : List (String × Nat)) : Scope := tps.map fun p => (p.1, [tparamSym p.2])

/-- A result type that is not written is `nothing`. -/
def retMeans (Γ : Env) : Option TyN → Ty → Prop
  | none, r => r = .prim .nothing
  | some t, r => t.Means Γ r

/-- The parameters have the types `us` and the result has the type `r`. -/
structure Sig.Types (root : Scope) (s : Sig) (us : List Ty) (r : Ty) : Prop where
  params : MeansAll [tpScope (s.head.tps ++ s.outer), root] (s.head.params.map (·.2)) us
  ret : retMeans [tpScope (s.head.tps ++ s.outer), root] s.head.ret r

/-- The types of built-in names. -/
def builtinTypes : List (String × Prim) :=
  [("string", .string), ("int", .int), ("bool", .bool), ("pointer", .pointer), ("nothing", .nothing), ("bytes", .bytes)]

/-- The built-in functions take any number of further arguments. -/
def builtinFns : List (String × Ty) :=
  [("debug", .fn { kind := .external, variadic := true, raw := true } [.prim .string, .prim .string] (.prim .nothing)),
   ("printf", .fn { kind := .external, variadic := true, raw := true } [.prim .string] (.prim .nothing))]

/-- The type that is declared. -/
def Dcl.type? : Dcl → Option (String × Ty)
  | .struct n tps _ => some (n, .struct n (tpTys tps))
  | .enum n tps _ => some (n, .enum n (tpTys tps))
  | .fn _ => none

/-- The types named `x`. -/
def typeAlts (ds : List Dcl) (x : String) : List Alt :=
  (builtinTypes.filter (·.1 = x)).map (fun p => { ty := some (.prim p.2), isType := true }) ++
  ((ds.filterMap Dcl.type?).filter (·.1 = x)).map fun p => { ty := some p.2, isType := true, isGlobal := true }

/-- The functions named `x`, when the first function has the number `id`. -/
def fnAlts (x : String) (id : Nat) : List (String × Ty) → List Alt
  | [] => []
  | (y, t) :: fs => if y = x then { ty := some t, isGlobal := true, fid := id } :: fnAlts x (id + 1) fs else fnAlts x (id + 1) fs

/-- `c` is `n` with a capital letter. -/
def Capital (n c : String) : Prop :=
  ∃ a as, n.toList = a :: as ∧ (a.val < 128 → a.isLower = true ∧ c.toList = a.toUpper :: as)

/-- The fields of the declared struct and its constructor. -/
structure StructOk (D : Decls) (root : Scope) (n : String) (tps : List (String × Nat)) (fs : List (String × TyN)) (c : String × Ty) : Prop where
  names : (fs.map (·.1)).Nodup ∧ ∀ p ∈ fs, p.1 ∉ tps.map (·.1)
  name : Capital n c.1
  fields : ∃ us, MeansAll [tpScope tps, root] (fs.map (·.2)) us ∧
    D.structs n = some ⟨tps.map (·.2), (fs.map (·.1)).zip us⟩ ∧
    c.2 = .fn { kind := .structCons, tps := tps.map (·.2) } us (.struct n (tpTys tps))

/-- The symbol of the declared function. -/
structure SigOk (root : Scope) (s : Sig) (c : String × Ty) : Prop where
  name : c.1 = s.name
  type : ∃ us r, s.Types root us r ∧ c.2 = .fn { s.data with tps := s.outer.map (·.2) ++ s.head.tps.map (·.2) } us r
  names : (s.head.tps.map (·.1) ++ s.head.params.map (·.1)).Nodup

/-- The function to check. -/
structure BodyOk (root : Scope) (s : Sig) (g : Fn) : Prop where
  types : ∃ us, s.Types root us g.ret ∧
    g.own = ((s.head.params.map (·.1)).zip us).map (fun p => (p.1, [plainSym (some p.2)])) ++ tpScope s.head.tps
  body : g.body = s.body

/-- A struct and its parts. -/
def Dcl.struct? : Dcl → Option (String × List (String × Nat) × List (String × TyN))
  | .struct n tps fs => some (n, tps, fs)
  | _ => none

/-- The tables and functions are the ones that are declared: `ts` are the types of the declared functions, `us`
the constructors of the declared structs. -/
structure Declared (ds : List Dcl) (D : Decls) (sc : Scope) (gs : List Fn) (ts us : List (String × Ty)) : Prop where
  /-- A name means the types and functions that are declared with it, and nothing else. -/
  lookup : ∀ x, sc.lookup x = (match typeAlts ds x ++ fnAlts x 0 (builtinFns ++ ts ++ us) with | [] => none | a :: as => some (a :: as))
  functions : All₂ (SigOk sc) (ds.flatMap Dcl.sigs) ts
  structs : All₂ (fun s c => StructOk D sc s.1 s.2.1 s.2.2 c) (ds.filterMap Dcl.struct?) us
  noStruct : ∀ n, (∀ tps fs, Dcl.struct n tps fs ∉ ds) → D.structs n = none
  /-- The members of an enum are its constructors, in order. -/
  members : ∀ pre n tps cs post, ds = pre ++ .enum n tps cs :: post →
    D.members n = List.range' (builtinFns.length + (pre.flatMap Dcl.sigs).length) cs.length ∧ ∀ c ∈ cs, c.2.length ≤ 5
  noEnum : ∀ n, (∀ tps cs, Dcl.enum n tps cs ∉ ds) → D.members n = []
  /-- Functions are checked in order, constructors of enums last. -/
  bodies : All₂ (BodyOk sc) ((ds.flatMap Dcl.sigs).filter (!·.isCons) ++ (ds.flatMap Dcl.sigs).filter (·.isCons)) gs
  /-- A type has a name of its own. -/
  types : ((builtinTypes.map (·.1)) ++ (builtinFns.map (·.1)) ++ (ds.filterMap Dcl.type?).map (·.1)).Nodup
  /-- The constructor of an enum has a name that no type has and no function before it. -/
  enumConses : ∀ pre s post, ds.flatMap Dcl.sigs = pre ++ s :: post → s.isCons = true →
    s.name ∉ (builtinTypes.map (·.1)) ++ (builtinFns.map (·.1)) ++ (ds.filterMap Dcl.type?).map (·.1) ++ pre.map (·.name)
  /-- The constructor of a struct has a name of its own. -/
  structConses : (us.map (·.1)).Nodup ∧
    ∀ c ∈ us, c.1 ∉ (builtinTypes.map (·.1)) ++ (builtinFns.map (·.1)) ++ (ds.filterMap Dcl.type?).map (·.1) ++ (ds.flatMap Dcl.sigs).map (·.name)

  /-- Functions of the same name have different parameter types. -/
  overloads : ∀ pre f mid g post, ds = pre ++ .fn f :: (mid ++ .fn g :: post) → f.name = g.name → f.head.params.map (·.2) ≠ g.head.params.map (·.2)

end Clara.Sema.Dcl
