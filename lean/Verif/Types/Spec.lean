import Verif.Types.Model
/-
Specification of types: when two types are the same, substitution, occurrences of parameters.
-/
namespace Clara.Types

mutual
/-- The data that determines which type it is: function kind and flags erased. -/
def Ty.canon : Ty → Ty
  | .prim p => .prim p
  | .param k => .param k
  | .array t => .array t.canon
  | .struct n ts => .struct n (canonAll ts)
  | .enum n ts => .enum n (canonAll ts)
  | .fn _ ps r => .fn {} (canonAll ps) r.canon
def canonAll : List Ty → List Ty
  | [] => []
  | t :: ts => t.canon :: canonAll ts
end

mutual
/-- Simultaneous substitution of types for parameters. -/
def Ty.inst (σ : Nat → Ty) : Ty → Ty
  | .prim p => .prim p
  | .param k => σ k
  | .array t => .array (t.inst σ)
  | .struct n ts => .struct n (instAll σ ts)
  | .enum n ts => .enum n (instAll σ ts)
  | .fn d ps r => .fn d (instAll σ ps) (r.inst σ)
def instAll (σ : Nat → Ty) : List Ty → List Ty
  | [] => []
  | t :: ts => t.inst σ :: instAll σ ts
end

mutual
/-- The type parameters that occur in a type. -/
def Ty.vars : Ty → List Nat
  | .prim _ => []
  | .param k => [k]
  | .array t => t.vars
  | .struct _ ts => varsAll ts
  | .enum _ ts => varsAll ts
  | .fn _ ps r => varsAll ps ++ r.vars
def varsAll : List Ty → List Nat
  | [] => []
  | t :: ts => t.vars ++ varsAll ts
end

mutual
/-- The type parameters that occur outside function types. -/
def Ty.outer : Ty → List Nat
  | .prim _ => []
  | .param k => [k]
  | .array t => t.outer
  | .struct _ ts => outerAll ts
  | .enum _ ts => outerAll ts
  | .fn _ _ _ => []
def outerAll : List Ty → List Nat
  | [] => []
  | t :: ts => t.outer ++ outerAll ts
end

mutual
/-- Function types written in a declaration have no type parameters of their own. -/
def Ty.plain : Ty → Prop
  | .prim _ => True
  | .param _ => True
  | .array t => t.plain
  | .struct _ ts => plainAll ts
  | .enum _ ts => plainAll ts
  | .fn d ps r => d.tps = [] ∧ plainAll ps ∧ r.plain
def plainAll : List Ty → Prop
  | [] => True
  | t :: ts => t.plain ∧ plainAll ts
end

/-- The types are the same: equal but for the function data that plays no role in typing. -/
def Same (t x : Ty) : Prop := t.canon = x.canon

/-- Pointwise `Same`. -/
def SameAll (ts xs : List Ty) : Prop := canonAll ts = canonAll xs

end Clara.Types
