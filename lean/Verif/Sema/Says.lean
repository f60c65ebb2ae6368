import Verif.Sema.Check
set_option linter.unusedVariables false
/-
What it means that one tree is another one with types and symbols filled in (C67).  Nothing here uses the functions of
the type checker.
-/
namespace Clara.Sema.Chk
open Clara.Types

/-- The expression is of a struct type with a field `x`. -/
def HasField (D : Decls) (l : X) (x : String) : Prop :=
  ∃ n us d, l.typ = some (.struct n us) ∧ D.structs n = some d ∧ x ∈ d.fields.map (·.1)

/-- An identifier that has a type or a symbol already, before it is checked. -/
def Given (l : X) : Prop := ∃ x a, l = .ident x a ∧ (a.typ ≠ none ∨ a.sym ≠ none)

mutual
/-- `e'` is `e` with other annotations, and with `l.f(..)` and `l.f[..]` read as what they stand for: `l.f(..)` is a call
of the field `f`, or, if there is no such field, a call of `f` with `l` as its first argument. -/
inductive X.Says (D : Decls) : X → X → Prop
  | lit {k a a'} : X.Says D (.lit k a) (.lit k a')
  | ident {x a a'} : X.Says D (.ident x a) (.ident x a')
  | call {f f' ts args args' a a'} : X.Says D f f' → SaysL D args args' → X.Says D (.call f ts args a) (.call f' ts args' a')
  | bin {op l l' r r' a a'} : X.Says D l l' → X.Says D r r' → X.Says D (.bin op l r a) (.bin op l' r' a')
  | cmp {op l l' r r' a a'} : X.Says D l l' → X.Says D r r' → X.Says D (.cmp op l r a) (.cmp op l' r' a')
  | un {op e e' a a'} : X.Says D e e' → X.Says D (.un op e a) (.un op e' a')
  | tern {c c' x x' y y' a a'} : X.Says D c c' → X.Says D x x' → X.Says D y y' → X.Says D (.tern c x y a) (.tern c' x' y' a')
  | arr {es es' a a'} : SaysL D es es' → X.Says D (.arr es a) (.arr es' a')
  | index {l l' r r' a a'} : X.Says D l l' → X.Says D r r' → X.Says D (.index l r a) (.index l' r' a')
  | dot {l l' x b b' a a'} : X.Says D l l' → X.Says D (.dot l (.ident x b) a) (.dot l' (.ident x b') a')
  /-- What is behind the dot is not looked at (in programs with errors). -/
  | dotOpen {l l' r a a'} : X.Says D l l' → X.Says D (.dot l r a) (.dot l' r a')
  | method {l l' f f' ts args args' b a a'} : X.Says D l l' → ¬ HasField D l' f.name ∨ Given l → X.Says D f f' → SaysL D args args' →
      X.Says D (.dot l (.call f ts args b) a) (.call f' ts (l' :: args') a')
  | fieldCall {l l' f f' ts args args' b a a'} : X.Says D l l' → X.Says D (.dot l' f {}) f' → SaysL D args args' →
      X.Says D (.dot l (.call f ts args b) a) (.call f' ts args' a')
  | fieldIndex {l l' f i b a e'} : X.Says D l l' → X.Says D (.index (.dot l' f {}) i a) e' → X.Says D (.dot l (.index f i b) a) e'
  | ty {t a a'} : X.Says D (.ty t a) (.ty t a')
  | fnB {h i i' ss ss' a a'} : SaysB D ss ss' → X.Says D (.fnB h i ss a) (.fnB h i' ss' a')
  | fnE {h i i' e e' a a'} : X.Says D e e' → X.Says D (.fnE h i e a) (.fnE h i' e' a')
inductive SaysL (D : Decls) : List X → List X → Prop
  | nil : SaysL D [] []
  | cons {e e' es es'} : X.Says D e e' → SaysL D es es' → SaysL D (e :: es) (e' :: es')
inductive S.Says (D : Decls) : S → S → Prop
  | expr {e e'} : X.Says D e e' → S.Says D (.expr e) (.expr e')
  | loop {c c' ss ss'} : X.Says D c c' → SaysB D ss ss' → S.Says D (.loop c ss) (.loop c' ss')
  | for_ {x a a' e e' ss ss'} : X.Says D e e' → SaysB D ss ss' → S.Says D (.for_ x a e ss) (.for_ x a' e' ss')
  | ifs {c c'} : Ch.Says D c c' → S.Says D (.ifs c) (.ifs c')
  | ret0 : S.Says D .ret0 .ret0
  | ret {e e'} : X.Says D e e' → S.Says D (.ret e) (.ret e')
  | das {l l' r r'} : X.Says D l l' → X.Says D r r' → S.Says D (.das l r) (.das l' r')
  | asg {l l' r r'} : X.Says D l l' → X.Says D r r' → S.Says D (.asg l r) (.asg l' r')
  | match_ {e e' cs cs'} : X.Says D e e' → SaysC D cs cs' → S.Says D (.match_ e cs) (.match_ e' cs')
inductive Ch.Says (D : Decls) : Ch → Ch → Prop
  | done : Ch.Says D .done .done
  | els {ss ss'} : SaysB D ss ss' → Ch.Says D (.els ss) (.els ss')
  | cond {c c' ss ss' n n'} : X.Says D c c' → SaysB D ss ss' → Ch.Says D n n' → Ch.Says D (.cond c ss n) (.cond c' ss' n')
inductive SaysB (D : Decls) : List S → List S → Prop
  | nil : SaysB D [] []
  | cons {s s' ss ss'} : S.Says D s s' → SaysB D ss ss' → SaysB D (s :: ss) (s' :: ss')
inductive SaysC (D : Decls) : List Case → List Case → Prop
  | nil : SaysC D [] []
  | cons {x s s' vs vs' ss ss' cs cs'} : vs'.map (·.1) = vs.map (·.1) → SaysB D ss ss' → SaysC D cs cs' →
      SaysC D (.mk x s vs ss :: cs) (.mk x s' vs' ss' :: cs')
end

/-- The same for the body of a function. -/
inductive FnBody.Says (D : Decls) : FnBody → FnBody → Prop
  | none_ : FnBody.Says D .none_ .none_
  | block {ss ss'} : SaysB D ss ss' → FnBody.Says D (.block ss) (.block ss')
  | expr {e e'} : X.Says D e e' → FnBody.Says D (.expr e) (.expr e')

end Clara.Sema.Chk
