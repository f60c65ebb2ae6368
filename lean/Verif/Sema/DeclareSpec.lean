import Verif.Sema.Declare
import Verif.Sema.Typing
set_option linter.unusedVariables false
/-
What the types in the table of declarations should be.  Nothing here uses the functions that make them.
-/
namespace Clara.Sema.Dcl
open Clara.Types
open Clara.Sema.Chk (TyN assign)

/-! ### Copies of structs -/

/-- The types of the fields of the declared struct, with the type arguments `ts`. -/
def SRec.with (S : SRec) (ar : String → List Nat) (ts : List Ty) : List (Option Ty) :=
  S.fields.map fun p => p.2.map fun t => (t.ty ar).inst (assign (S.tps.map (·.2)) ts)

mutual
/-- Every copy of a struct inside of the type has the fields that are declared, with its type arguments. -/
def RTy.right (T : Tab) : RTy → Prop
  | .prim _ => True
  | .param _ => True
  | .array e => e.right T
  | .fn ps r => rightAll T ps ∧ r.right T
  | .enum _ ts => rightAll T ts
  | .decl _ => True
  | .inst n ts xs us => rightAll T ts ∧ rightAll T us ∧ ∃ S, T.structs.lookup n = some S ∧ ts.length = S.tps.length ∧
      xs = S.fields.map (·.1) ∧ S.with T.arity (tyAll T.arity ts) = (tyAll T.arity us).map some
def rightAll (T : Tab) : List RTy → Prop
  | [] => True
  | t :: ts => t.right T ∧ rightAll T ts
end

/-- Every type in the table is right. -/
structure Tab.right (T : Tab) : Prop where
  structs : ∀ n S, T.structs.lookup n = some S → ∀ p ∈ S.fields, ∀ t, p.2 = some t → t.right T
  params : ∀ f ∈ T.fns, ∀ p ∈ f.params, ∀ t, p.2 = some t → t.right T
  rets : ∀ f ∈ T.fns, ∀ t, f.ret = some t → t.right T

/-! ### Names in written types -/

mutual
/-- The names that have no type arguments. -/
def bare : TyN → List String
  | .named x false _ => [x]
  | .named _ true as => bareAll as
  | .array e => bare e
  | .func ps => bareAll ps
  | .funcR ps r => bareAll ps ++ bare r
def bareAll : List TyN → List String
  | [] => []
  | t :: ts => bare t ++ bareAll ts
end

mutual
/-- The names that have type arguments. -/
def applied : TyN → List String
  | .named _ false _ => []
  | .named x true as => x :: appliedAll as
  | .array e => applied e
  | .func ps => appliedAll ps
  | .funcR ps r => appliedAll ps ++ applied r
def appliedAll : List TyN → List String
  | [] => []
  | t :: ts => applied t ++ appliedAll ts
end

/-- The struct or enum `n` is declared with type parameters. -/
def Dcl.generic (n : String) : Dcl → Prop
  | .struct m tps _ => n = m ∧ tps ≠ []
  | .enum m tps _ => n = m ∧ tps ≠ []
  | .fn _ => False

/-- In the fields of structs every struct or enum with type parameters has type arguments. -/
def Saturated (ds : List Dcl) : Prop :=
  ∀ n tps fs, Dcl.struct n tps fs ∈ ds → ∀ p ∈ fs, ∀ y ∈ bare p.2, (∀ d ∈ ds, ¬ d.generic y) ∨ y ∈ tps.map (·.1)

/-- If `n` is a struct, it is declared in `pre` or has no type arguments in its fields, and the structs in its
fields are like that. -/
inductive Ready (ds pre : List Dcl) : String → Prop
  | mk {n} : (∀ tps fs, Dcl.struct n tps fs ∈ ds → Dcl.struct n tps fs ∈ pre ∨ appliedAll (fs.map (·.2)) = []) →
      (∀ tps fs, Dcl.struct n tps fs ∈ ds → ∀ y ∈ bareAll (fs.map (·.2)) ++ appliedAll (fs.map (·.2)), Ready ds pre y) →
      Ready ds pre n

/-- The names that the declaration gives type arguments to; constructors of enums are looked at last. -/
def Dcl.applied : Dcl → List String
  | .struct _ _ fs => appliedAll (fs.map (·.2))
  | .enum _ _ _ => []
  | .fn f => appliedAll (f.head.params.map (·.2)) ++ appliedAll f.head.ret.toList

/-- A struct with type parameters is used after it and after the structs it is made of. -/
def Ordered (ds : List Dcl) : Prop :=
  ∀ pre d post, ds = pre ++ d :: post → ∀ x ∈ d.applied, Ready ds pre x

/-- The type parameters. -/
def Dcl.tps : Dcl → List (String × Nat)
  | .struct _ tps _ => tps
  | .enum _ tps _ => tps
  | .fn f => f.head.tps

/-- The identities of the type parameters of a declaration are distinct. -/
def Identified (ds : List Dcl) : Prop := ∀ d ∈ ds, (d.tps.map (·.2)).Nodup

end Clara.Sema.Dcl
