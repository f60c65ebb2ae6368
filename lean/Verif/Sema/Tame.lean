import Verif.Sema.Check
set_option linter.unusedVariables false
/-
Conditions on function bodies under which the type checker does not panic (C66).  They are about what is written, not
about what the checker does.
-/
namespace Clara.Sema.Chk

mutual
/-- Type arguments are given to generic types only, as many as there are type parameters: `ar x n` says that `x` is
declared with `n` type parameters, `n` is not 0. -/
def TyN.applies (ar : String → Nat → Prop) : TyN → Prop
  | .named _ false _ => True
  | .named x true args => ar x args.length ∧ appliesAll ar args
  | .array t => t.applies ar
  | .func ps => appliesAll ar ps
  | .funcR ps t => appliesAll ar ps ∧ t.applies ar
def appliesAll (ar : String → Nat → Prop) : List TyN → Prop
  | [] => True
  | t :: ts => t.applies ar ∧ appliesAll ar ts
end

/-- A head of a function: no type parameter has the name of a generic type, nothing is called `unsafe`, and types are
applied as they are declared. -/
structure Head.tame (ar : String → Nat → Prop) (h : Head) : Prop where
  tps : ∀ p ∈ h.tps, p.1 ≠ "unsafe" ∧ ∀ n, ¬ ar p.1 n
  params : ∀ p ∈ h.params, p.1 ≠ "unsafe" ∧ p.2.applies ar
  ret : ∀ t, h.ret = some t → t.applies ar

mutual
/-- The condition on expressions: `case` says which names may stand after `case`; variables of loops have other names. -/
def X.tame (ar : String → Nat → Prop) (case : String → Prop) : X → Prop
  | .lit _ _ => True
  | .ident _ _ => True
  | .call f _ args _ => f.tame ar case ∧ tameL ar case args
  | .bin _ l r _ => l.tame ar case ∧ r.tame ar case
  | .cmp _ l r _ => l.tame ar case ∧ r.tame ar case
  | .un _ e _ => e.tame ar case
  | .tern c x y _ => c.tame ar case ∧ x.tame ar case ∧ y.tame ar case
  | .arr es _ => tameL ar case es
  | .index l r _ => l.tame ar case ∧ r.tame ar case
  | .dot l r _ => l.tame ar case ∧ r.tame ar case
  | .ty _ _ => True
  | .fnB h _ ss _ => h.tame ar ∧ tameB ar case ss
  | .fnE h _ e _ => h.tame ar ∧ e.tame ar case
def tameL (ar : String → Nat → Prop) (case : String → Prop) : List X → Prop
  | [] => True
  | x :: xs => x.tame ar case ∧ tameL ar case xs
def S.tame (ar : String → Nat → Prop) (case : String → Prop) : S → Prop
  | .expr x => x.tame ar case
  | .loop c ss => c.tame ar case ∧ tameB ar case ss
  | .for_ x _ e ss => x ≠ "unsafe" ∧ ¬ case x ∧ e.tame ar case ∧ tameB ar case ss
  | .ifs c => c.tame ar case
  | .ret0 => True
  | .ret e => e.tame ar case
  | .das l r => (∀ x a, l = .ident x a → x ≠ "unsafe") ∧ r.tame ar case
  | .asg l r => l.tame ar case ∧ r.tame ar case
  | .match_ e cs => e.tame ar case ∧ tameC ar case cs
def Ch.tame (ar : String → Nat → Prop) (case : String → Prop) : Ch → Prop
  | .done => True
  | .els ss => tameB ar case ss
  | .cond c ss n => c.tame ar case ∧ tameB ar case ss ∧ n.tame ar case
def tameB (ar : String → Nat → Prop) (case : String → Prop) : List S → Prop
  | [] => True
  | s :: ss => s.tame ar case ∧ tameB ar case ss
def tameC (ar : String → Nat → Prop) (case : String → Prop) : List Case → Prop
  | [] => True
  | c :: cs => c.tame ar case ∧ tameC ar case cs
def Case.tame (ar : String → Nat → Prop) (case : String → Prop) : Case → Prop
  | .mk x _ vs ss => case x ∧ (∀ v ∈ vs, v.1 ≠ "unsafe") ∧ tameB ar case ss
end

def FnBody.tame (ar : String → Nat → Prop) (case : String → Prop) : FnBody → Prop
  | .none_ => True
  | .block ss => tameB ar case ss
  | .expr e => e.tame ar case

end Clara.Sema.Chk
