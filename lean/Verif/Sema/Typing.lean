import Verif.Sema.Check
import Verif.Props.Types
set_option linter.unusedVariables false
/-
Typing rules for annotated trees: what it means that the types and symbols stored in a tree are right.
Nothing here uses the functions of the type checker.

The parameter `odd` says whether the rules are the ones a reader would expect (`false`) or also cover some
constructs that `typeCheck` lets through (`true`): names of types and written types as values, calls of
anything named `printf` or `debug`, fields of a call whose type is a function that returns a struct, and
assignments to functions and to the results of calls.
-/
namespace Clara.Sema.Chk
open Clara.Types
open Clara.Props (Fits)

/-- `x` is declared in the innermost scope that has the name. -/
inductive Finds : Env → String → Sym → Prop
  | here {sc Γ x s} : sc.lookup x = some s → Finds (sc :: Γ) x s
  | outer {sc Γ x s} : sc.lookup x = none → Finds Γ x s → Finds (sc :: Γ) x s

/-- `x` is the name of a type in the innermost scope where it is. -/
inductive FindsType : Env → String → Alt → Prop
  | here {sc Γ x s r} : sc.lookup x = some (s :: r) → s.isType = true → FindsType (sc :: Γ) x s
  | outer {sc Γ x s} : (∀ a r, sc.lookup x = some (a :: r) → a.isType = false) → FindsType Γ x s → FindsType (sc :: Γ) x s

mutual
/-- The written type means `t`. -/
def TyN.Means (Γ : Env) : TyN → Ty → Prop
  | .named x false _, t => ∃ s, FindsType Γ x s ∧ s.ty = some t
  | .named x true args, t => ∃ s n ps ts, FindsType Γ x s ∧ MeansAll Γ args ts ∧ ps.length = ts.length ∧ ps ≠ [] ∧
      ((s.ty = some (.struct n ps) ∧ t = .struct n ts) ∨ (s.ty = some (.enum n ps) ∧ t = .enum n ts))
  | .array e, t => ∃ u, t = .array u ∧ e.Means Γ u
  | .func ps, t => ∃ ts, t = .fn {} ts (.prim .nothing) ∧ MeansAll Γ ps ts
  | .funcR ps r, t => ∃ ts u, t = .fn {} ts u ∧ MeansAll Γ ps ts ∧ r.Means Γ u
def MeansAll (Γ : Env) : List TyN → List Ty → Prop
  | [], ts => ts = []
  | e :: es, ts => ∃ u us, ts = u :: us ∧ e.Means Γ u ∧ MeansAll Γ es us
end

/-- The types `ts` for the type parameters `ks`. -/
def assign (ks : List Nat) (ts : List Ty) (k : Nat) : Ty := ((ks.zip ts).lookup k).getD (.param k)

/-- The struct `n` with the type arguments `ts` has a field `x` of type `u`. -/
def FieldOf (D : Decls) (n : String) (ts : List Ty) (x : String) (u : Ty) : Prop :=
  ∃ d f, D.structs n = some d ∧ d.fields.lookup x = some f ∧ Same u (f.inst (assign d.tps ts))

/-- `l.x`, where `l` has the type `t`, has the type `u`. -/
inductive Selects (odd : Bool) (D : Decls) (l : X) : Ty → String → Ty → Prop
  | length {e} : Selects odd D l (.array e) "length" (.prim .int)
  | strlen : Selects odd D l (.prim .string) "length" (.prim .int)
  | deref : Selects odd D l (.prim .pointer) "deref" (.prim .pointer)
  | field {n ts x u} : FieldOf D n ts x u → Selects odd D l (.struct n ts) x u
  | result {d ps n ts x u f as bs a} : odd = true → l = .call f as bs a → FieldOf D n ts x u →
      Selects odd D l (.fn d ps (.struct n ts)) x u

/-- Where an expression stands. -/
inductive Pos
  | value | arg | unsafeArg
  deriving DecidableEq

/-- The symbol `s` with its later overloads is a declaration of `x`, or `x` has several and `s` starts at one
of them. -/
def Names (Γ : Env) (x : String) (s : Sym) : Prop := ∃ pre, Finds Γ x (pre ++ s)

/-- The type of the symbol. -/
def Sym.Has (s : Sym) (t : Ty) : Prop := ∃ a r, s = a :: r ∧ a.ty = some t

/-- The symbol stands for a value. -/
def Sym.value (s : Sym) : Prop := ∃ a r, s = a :: r ∧ a.isType = false

def operandTy : BinOp → Ty
  | .and => .prim .bool
  | .or => .prim .bool
  | _ => .prim .int

def unTy : UnOp → Ty
  | .not => .prim .bool
  | _ => .prim .int

def typeOfLit : LitK → Ty
  | .int _ _ => .prim .int
  | .string _ => .prim .string
  | .bool _ => .prim .bool

/-- A callee of the type `fn d ps r`, given type arguments `tys` and arguments of types `ts`, returns `u`. -/
def Applies (d : FnData) (ps : List Ty) (r : Ty) (tys ts : List Ty) (u : Ty) : Prop :=
  d.tps.Nodup → ∃ σ, Fits d ps tys ts σ ∧ Same u (r.inst σ)

/-- The scope of a function literal: its parameters before its type parameters. -/
def litScope (h : Head) (ts : List Ty) : Scope :=
  ((h.params.map (·.1)).zip ts).reverse.map (fun p => (p.1, [plainSym (some p.2)])) ++
    h.tps.reverse.map (fun p => (p.1, [tparamSym p.2]))

/-- The function literal has the type `fn d ts r`. -/
structure Signature (Γ : Env) (h : Head) (d : FnData) (ts : List Ty) (r : Ty) : Prop where
  data : d = { tps := h.tps.map (·.2) }
  distinct : (h.tps.map (·.1) ++ h.params.map (·.1)).Nodup
  params : MeansAll (litScope h ts :: Γ) (h.params.map (·.2)) ts
  ret : match h.ret with | none => r = .prim .nothing | some t => t.Means (litScope h ts :: Γ) r

def Case.fids : List Case → List Nat
  | [] => []
  | .mk _ (some s) _ _ :: cs => s.fid :: Case.fids cs
  | .mk _ none _ _ :: cs => Case.fids cs

/-- The scope after a statement. -/
def S.after (Γ : Env) : S → Env
  | .das (.ident x ⟨_, some s⟩) _ =>
    match Γ with
    | [] => [[(x, s)]]
    | sc :: Γ => ((x, s) :: sc) :: Γ
  | _ => Γ

/-- The name is not declared in the innermost scope. -/
def Fresh (Γ : Env) (x : String) : Prop := ∀ sc Γ', Γ = sc :: Γ' → sc.lookup x = none

/-- The types `ts` of the variables of a case: the parameter types of the constructor, for an enum with type
arguments `us`. -/
def CaseTypes (Γ : Env) (n : String) (us : List Ty) (ps ts : List Ty) : Prop :=
  (us = [] ∧ ts = ps) ∨
  ∃ s m ks, FindsType Γ n s ∧ s.ty = some (.enum m (ks.map .param)) ∧ us.length ≤ ks.length ∧
    SameAll ts (instAll (assign ks us) ps)

mutual
/-- The expression is well typed. -/
def X.wt (odd : Bool) (D : Decls) (Γ : Env) (pos : Pos) : X → Prop
  | .lit k a => a.typ = some (typeOfLit k)
  | .ident x a => ∃ s t, Names Γ x s ∧ a.sym = some s ∧ s.Has t ∧ a.typ = some t ∧
      (odd = false → s.value) ∧ (pos = .value → s.length = 1 ∧ Finds Γ x s)
  | .call f ts args a =>
      args.length ≤ 6 ∧ wtL odd D Γ (if f.name = "unsafe" then .unsafeArg else .arg) args ∧
      ∃ tys, MeansAll Γ ts tys ∧
        if f.name = "printf" ∨ f.name = "debug" then
          a.typ = some (.prim .nothing) ∧
          ∃ s, Finds Γ f.name s ∧ f.ann.sym = some s ∧ (odd = false → ∃ d ps r, s.Has (.fn d ps r) ∧ d.variadic = true)
        else if f.name = "unsafe" then
          (∃ s d ps r, Finds Γ f.name s ∧ f.ann.sym = some s ∧ s.Has (.fn d ps r)) ∧
          ∃ p q x t, args = [p, q, x] ∧ x.typ = some t ∧ a.typ = some t
        else
          ∃ d ps r us u, (match f with
            | .ident x b => ∃ s, Names Γ x s ∧ b.sym = some s ∧ s.Has (.fn d ps r) ∧ (odd = false → s.value)
            | .fnB .. | .dot .. | .call .. | .index .. => f.wt odd D Γ .value ∧ f.typ = some (.fn d ps r)
            | _ => False) ∧
            args.map X.typ = us.map some ∧ a.typ = some u ∧ Applies d ps r tys us u
  | .bin op l r a => l.wt odd D Γ .value ∧ r.wt odd D Γ .value ∧ l.typ = some (operandTy op) ∧ r.typ = some (operandTy op) ∧
      a.typ = some (operandTy op)
  | .cmp op l r a => l.wt odd D Γ .value ∧ r.wt odd D Γ .value ∧
      (∃ t u, l.typ = some t ∧ r.typ = some u ∧ Same t u) ∧ a.typ = some (.prim .bool)
  | .un op l a => l.wt odd D Γ .value ∧ l.typ = some (unTy op) ∧ a.typ = some (unTy op)
  | .tern c x y a => c.wt odd D Γ .value ∧ x.wt odd D Γ .value ∧ y.wt odd D Γ .value ∧ c.typ = some (.prim .bool) ∧
      ∃ t u, x.typ = some t ∧ y.typ = some u ∧ Same t u ∧ a.typ = some t
  | .arr es a => wtL odd D Γ .value es ∧ ∃ t, (es.map X.typ).head? = some (some t) ∧ a.typ = some (.array t) ∧
      ∀ e ∈ es, ∃ u, e.typ = some u ∧ Same u t
  | .index l r a => l.wt odd D Γ .value ∧ r.wt odd D Γ .value ∧ r.typ = some (.prim .int) ∧
      ∃ t, l.typ = some (.array t) ∧ a.typ = some t
  | .dot l r a => l.wt odd D Γ .value ∧ ∃ t x b u, l.typ = some t ∧ r = .ident x b ∧ Selects odd D l t x u ∧ a.typ = some u ∧ b.typ = some u
  | .ty e a => (odd = true ∨ pos = .unsafeArg) ∧ ∃ t, e.Means Γ t ∧ a.typ = some t
  | .fnB h info ss a => ∃ d ts r, a.typ = some (.fn d ts r) ∧ Signature Γ h d ts r ∧ (∃ i, info = some i ∧ i.ty = (d, ts, r)) ∧
      wtB odd D r (litScope h ts :: Γ) ss
  | .fnE h info e a => ∃ d ts r t, a.typ = some (.fn d ts r) ∧ Signature Γ h d ts r ∧ (∃ i, info = some i ∧ i.ty = (d, ts, r)) ∧
      e.wt odd D (litScope h ts :: Γ) .value ∧ e.typ = some t ∧ Same r t
def wtL (odd : Bool) (D : Decls) (Γ : Env) (pos : Pos) : List X → Prop
  | [] => True
  | x :: xs => x.wt odd D Γ pos ∧ wtL odd D Γ pos xs
/-- The statement is well typed in a function that returns `ret`. -/
def S.wt (odd : Bool) (D : Decls) (ret : Ty) (Γ : Env) : S → Prop
  | .expr x => x.wt odd D Γ .value
  | .loop c ss => c.wt odd D Γ .value ∧ c.typ = some (.prim .bool) ∧ wtB odd D ret ([] :: Γ) ss
  | .for_ x a e ss => e.wt odd D Γ .value ∧ ∃ u, (e.typ = some (.array u) ∨ ((∃ l r b, e = .bin .range l r b) ∧ e.typ = some u)) ∧
      a = ⟨some u, some [stackSym (some u)]⟩ ∧ wtB odd D ret ([(x, [stackSym (some u)])] :: Γ) ss
  | .ifs c => c.wt odd D ret Γ
  | .ret0 => Same ret (.prim .nothing)
  | .ret e => e.wt odd D Γ .value ∧ ∃ t, e.typ = some t ∧ Same ret t
  | .das l r => r.wt odd D Γ .value ∧ ∃ x t, r.typ = some t ∧ l = .ident x ⟨some t, some [stackSym (some t)]⟩ ∧ Fresh Γ x
  | .asg l r => r.wt odd D Γ .value ∧ l.wt odd D Γ .value ∧ (∃ t u, l.typ = some t ∧ r.typ = some u ∧ Same t u) ∧
      match l with
      | .ident _ b => odd = false → ∃ s a rs, b.sym = some s ∧ s = a :: rs ∧ a.isGlobal = false
      | .index _ _ _ => True
      | .dot l r _ => ∀ b t, r = .ident "length" b → l.typ = some t → t ≠ .prim .string ∧ ∀ e, t ≠ .array e
      | .call _ _ _ b => odd = true ∧ ((∃ n ts, b.typ = some (.struct n ts)) ∨ ∃ e, b.typ = some (.array e))
      | _ => False
  | .match_ e cs => e.wt odd D Γ .value ∧ ∃ n us, e.typ = some (.enum n us) ∧ wtC odd D ret Γ n us cs ∧
      (Case.fids cs).Perm (D.members n)
def Ch.wt (odd : Bool) (D : Decls) (ret : Ty) (Γ : Env) : Ch → Prop
  | .done => True
  | .els ss => wtB odd D ret ([] :: Γ) ss
  | .cond c ss next => c.wt odd D Γ .value ∧ c.typ = some (.prim .bool) ∧ wtB odd D ret ([] :: Γ) ss ∧ next.wt odd D ret Γ
/-- The statements of a block. -/
def wtB (odd : Bool) (D : Decls) (ret : Ty) (Γ : Env) : List S → Prop
  | [] => True
  | s :: ss => s.wt odd D ret Γ ∧ wtB odd D ret (s.after Γ) ss
/-- The cases of a `match` over the enum `n` with the type arguments `us`. -/
def wtC (odd : Bool) (D : Decls) (ret : Ty) (Γ : Env) (n : String) (us : List Ty) : List Case → Prop
  | [] => True
  | c :: cs => c.wt odd D ret Γ n us ∧ wtC odd D ret Γ n us cs
def Case.wt (odd : Bool) (D : Decls) (ret : Ty) (Γ : Env) (n : String) (us : List Ty) : Case → Prop
  | .mk x sym vs ss => ∃ s rs d ps r ts, Finds Γ x (s :: rs) ∧ sym = some s ∧ s.ty = some (.fn d ps r) ∧ d.kind = .enumCons ∧
      CaseTypes Γ n us ps ts ∧ vs.map (·.2) = ts.map (fun t => ⟨some t, some [stackSym (some t)]⟩) ∧ (vs.map (·.1)).Nodup ∧
      wtB odd D ret (((vs.map (·.1)).zip ts).reverse.map (fun p => (p.1, [stackSym (some p.2)])) :: Γ) ss
end

/-- A declared function is well typed. -/
def Fn.wt (odd : Bool) (D : Decls) (root : Scope) (own : Scope) (f : Fn) : Prop :=
  match f.body with
  | .none_ => True
  | .block ss => wtB odd D f.ret [own, root] ss
  | .expr e => e.wt odd D [own, root] .value ∧ ∃ t, e.typ = some t ∧ Same f.ret t

end Clara.Sema.Chk
