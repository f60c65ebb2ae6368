import Verif.Sema.DeclareRules
import Verif.Sema.Tame
set_option linter.unusedVariables false
/-
Conditions on declarations under which declaring and type checking do not panic (C66).  Nothing here uses the functions
that do it.
-/
namespace Clara.Sema.Dcl
open Clara.Sema.Chk (TyN)

/-- The struct or enum `x` is declared with `n` type parameters, at least one. -/
def Dcl.arityOf (x : String) (n : Nat) : Dcl → Prop
  | .struct m tps _ => x = m ∧ tps.length = n ∧ n ≠ 0
  | .enum m tps _ => x = m ∧ tps.length = n ∧ n ≠ 0
  | .fn _ => False

def arityIn (ds : List Dcl) (x : String) (n : Nat) : Prop := ∃ d ∈ ds, d.arityOf x n

/-- The declarations are tame: type arguments are given to generic types only, as many as there are type parameters;
no type parameter has the name of a generic type; no type is called `unsafe`; names of structs begin with a letter of
ASCII, and no type is named like a struct with a capital letter; functions are tame, where `case` are the names
after `case`. -/
structure TameDcls (ds : List Dcl) (case : String → Prop) : Prop where
  structs : ∀ n tps fs, Dcl.struct n tps fs ∈ ds → n ≠ "unsafe" ∧ (∀ p ∈ tps, ∀ k, ¬ arityIn ds p.1 k) ∧ ∀ p ∈ fs, p.2.applies (arityIn ds)
  enums : ∀ n tps cs, Dcl.enum n tps cs ∈ ds → n ≠ "unsafe" ∧ (∀ p ∈ tps, ∀ k, ¬ arityIn ds p.1 k) ∧ ∀ c ∈ cs, ∀ p ∈ c.2, p.2.applies (arityIn ds)
  conses : ∀ n tps fs, Dcl.struct n tps fs ∈ ds → ∀ d ∈ ds, ∀ p, d.type? = some p → ¬ Capital n p.1
  fns : ∀ f, Dcl.fn f ∈ ds → f.head.tame (arityIn ds) ∧ f.body.tame (arityIn ds) case

/-- No struct is inside of itself: the structs in the fields of a struct have a smaller number. -/
def Layered (rank : String → Nat) (ds : List Dcl) : Prop :=
  ∀ n tps fs, Dcl.struct n tps fs ∈ ds → ∀ p ∈ fs, ∀ y ∈ bare p.2 ++ applied p.2, (∃ tps fs, Dcl.struct y tps fs ∈ ds) → rank y < rank n

end Clara.Sema.Dcl
