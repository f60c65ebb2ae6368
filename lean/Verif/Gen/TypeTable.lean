import Verif.Gen.Emit
import Verif.Gc.Collect
/-
Type declarations, generated constructors and the type table of the collector: `processTopLevelTypes` and
`generateStructConstructor` (`semantic.go` 84-222, 618-663), `generateStruct` (`ast.go` 296-326), `GcTypes` (`gc.go` 80-125)
and `genTypeInfoTable` (`codegen.go` 211-323).

Programs without errors; names are resolved, a field or parameter is given by the kind of its type.  A `*Type` is an index
into the list of all types created so far.
-/
namespace Clara.Tbl
open Clara.Gen (TK)

/-- A field symbol: `Addr` and the kind of its type. -/
structure Field where
  addr : Nat
  kind : TK
  deriving DecidableEq, Repr

/-- A member of an enum: `EnumConsFunc.Tag` and the kinds of `Params`. -/
structure Member where
  tag : Nat
  params : List TK
  deriving DecidableEq, Repr

inductive TypeD
  | struct (fields : List Field)
  | enum (members : List Member)
  | array (elem : TK)
  | string | bytes | function
  deriving DecidableEq, Repr

/-- A top level declaration of the source. -/
inductive Decl
  | struct (fields : List TK)
  | enum (members : List (List TK))
  | func
  deriving DecidableEq, Repr

/-- A statement of the root node.  A constructor function has the type it returns, its tag and its parameters. -/
inductive Node
  | structDcl (t : Nat) (fields : List TK)
  | enumDcl (t : Nat) (members : List (List TK))
  | fn
  | cons (ret : Nat) (tag : Option Nat) (params : List TK)
  deriving DecidableEq, Repr

structure Prog where
  types : List TypeD
  root : List Node

/-- `stdSyms` (`main.go` 203-221), the types that `AddBuiltins` looks up: `bytes`, `[]int`, `[]string`, `string`, `[]T`. -/
def stdTypes : List TypeD := [.bytes, .array .integer, .array .string, .string, .array .parameter]

/-- The first loop of `processTopLevelTypes` (`semantic.go` 85-136). -/
def declare : List Decl → Prog → Prog
  | [], p => p
  | .struct fs :: ds, p =>
    declare ds { types := p.types ++ [.struct []], root := p.root ++ [.structDcl p.types.length fs] }
  | .enum ms :: ds, p =>
    declare ds { types := p.types ++ [.enum []], root := p.root ++ [.enumDcl p.types.length ms] }
  | .func :: ds, p => declare ds { p with root := p.root ++ [.fn] }

/-- The fields of a struct (`semantic.go` 177-195, `ast.go` 300-306). -/
def mkFields (x : Nat) : List TK → List Field
  | [] => []
  | k :: ks => { addr := x * 8, kind := k } :: mkFields (x + 1) ks

/-- The members of an enum (`semantic.go` 150-168). -/
def mkMembers (i : Nat) : List (List TK) → List Member
  | [] => []
  | ps :: ms => { tag := i, params := ps } :: mkMembers (i + 1) ms

/-- The constructors of an enum moved to the root node (`semantic.go` 170). -/
def mkConses (t : Nat) (i : Nat) : List (List TK) → List Node
  | [] => []
  | ps :: ms => .cons t (some i) ps :: mkConses t (i + 1) ms

/-- The second loop of `processTopLevelTypes` (`semantic.go` 142-206) over the statements that the root node has at the start. -/
def process : List Node → Prog → Prog
  | [], p => p
  | .structDcl t fs :: ns, p => process ns { p with types := p.types.set t (.struct (mkFields 0 fs)) }
  | .enumDcl t ms :: ns, p =>
    process ns { types := p.types.set t (.enum (mkMembers 0 ms)), root := p.root ++ mkConses t 0 ms }
  | _ :: ns, p => process ns p

/-- `generateStructConstructors` for each statement of the root node (`main.go` 99, `semantic.go` 609-663). -/
def structConses : List Node → Prog → Prog
  | [], p => p
  | .structDcl t fs :: ns, p => structConses ns { p with root := p.root ++ [.cons t none fs] }
  | _ :: ns, p => structConses ns p

/-- `generateStruct` (`ast.go` 296-326). -/
def generateStruct (fs : List TK) (p : Prog) : Prog where
  types := p.types ++ [.struct (mkFields 0 fs)]
  root := p.root ++ [.structDcl p.types.length fs, .cons p.types.length none fs]

/-- A function inside a function: an anonymous one, or a closure with free variables (`closures.go` 10-78). -/
inductive Local
  | anon
  | closure (free : List TK)
  deriving DecidableEq, Repr

/-- `rewriteAnonFnAndClosures` (`closures.go` 10-78) for each of them, in the order of the walk. -/
def hoist : List Local → Prog → Prog
  | [], p => p
  | .anon :: ls, p => hoist ls { p with root := p.root ++ [.fn] }
  | .closure free :: ls, p =>
    let p := generateStruct free p
    let p := generateStruct [.function, .struct] p
    hoist ls { p with root := p.root ++ [.fn] }

/-- The program given to `codegen` (`main.go` 92-140). -/
def lowered (ds : List Decl) (ls : List Local) : Prog :=
  let p := declare ds { types := stdTypes, root := [] }
  let p := process p.root p
  let p := structConses p.root p
  hoist ls p

/-- `AddBuiltins` (`gc.go` 84-120). -/
def addBuiltins (types : List TypeD) : List TypeD × List Nat :=
  (types ++ [.struct [], .function], [types.length, 0, 1, 2, 3, types.length + 1, 0, 4])

/-- A constructor function with the type id that it passes to the allocator. -/
structure Con where
  ret : Nat
  tag : Option Nat
  params : List TK
  id : Nat
  deriving DecidableEq, Repr

/-- The loop of `codegen` over the functions (`codegen.go` 117-122), with `AssignId` (`gc.go` 122-125). -/
def assignIds : List Node → List Nat → List Con × List Nat
  | [], gt => ([], gt)
  | .cons t tag ps :: ns, gt =>
    let r := assignIds ns (gt ++ [t])
    ({ ret := t, tag := tag, params := ps, id := gt.length } :: r.1, r.2)
  | _ :: ns, gt => assignIds ns gt

/-- Offsets of the pointer fields of a struct (`codegen.go` 223-228). -/
def fieldOffs (fs : List Field) : List Int := (fs.filter (·.kind.isPointer)).map (fun f => ((f.addr / 8 : Nat) : Int))

/-- Offsets of the pointer parameters of an enum constructor (`codegen.go` 252-257). -/
def memberOffs (i : Nat) : List TK → List Int
  | [] => []
  | k :: ks => if k.isPointer then ((i + 1 : Nat) : Int) :: memberOffs (i + 1) ks else memberOffs (i + 1) ks

/-- The root maps (`codegen.go` 213-275); the label `noGc` is the empty map.  `none` is a panic. -/
def rootMaps (types : List TypeD) : List Nat → Nat → Option Nat → Option (List (List Int))
  | [], _, _ => some []
  | t :: ts, tag, et =>
    match types[t]? with
    | some (.struct fs) =>
      let off := fieldOffs fs
      if off.length = 0 then (rootMaps types ts tag et).map ([] :: ·)
      else (rootMaps types ts 0 et).map (off :: ·)
    | some (.enum ms) =>
      let tag := if et = some t then tag else 0
      match ms[tag]? with
      | some m => if m.tag = tag then (rootMaps types ts (tag + 1) (some t)).map (memberOffs 0 m.params :: ·) else none
      | none => none
    | some _ => (rootMaps types ts 0 et).map ([] :: ·)
    | none => none

/-- The entry of a type (`codegen.go` 281-308). -/
def info (t : TypeD) (roots : List Int) : Gc.TypeInfo :=
  match t with
  | .struct _ | .enum _ => .struct roots
  | .string => .string
  | .array e => .array e.isPointer
  | .function => .function
  | .bytes => .bytes

def infos (types : List TypeD) : List Nat → List (List Int) → Option (List Gc.TypeInfo)
  | t :: ts, r :: rs =>
    match types[t]? with
    | some d => (infos types ts rs).map (info d r :: ·)
    | none => none
  | _, _ => some []

/-- `genTypeInfoTable` (`codegen.go` 211-323). -/
def typeInfoTable (types : List TypeD) (gt : List Nat) : Option (List Gc.TypeInfo) :=
  match rootMaps types gt 0 none with
  | some roots => infos types gt roots
  | none => none

/-- The constructors of a program and its type table. -/
def constructors (ds : List Decl) (ls : List Local) : List Con :=
  let p := lowered ds ls
  (assignIds p.root (addBuiltins p.types).2).1

def typeTable (ds : List Decl) (ls : List Local) : Option (List Gc.TypeInfo) :=
  let p := lowered ds ls
  let b := addBuiltins p.types
  typeInfoTable b.1 (assignIds p.root b.2).2

end Clara.Tbl
