import Verif.Parse.Model
import Verif.Sema.Literal
import Verif.Sema.Declare
set_option linter.unusedVariables false
/-
From the nodes that the parser makes (`Verif/Parse/Model.lean`) to the trees of the declarations and of type checking
(`Verif/Sema/Declare.lean`, `Verif/Sema/Check.lean`).  In the Go code these are the same nodes: `n.token.Val` is the name,
the fields `left`, `right`, `stmts` and `params` are read as the phases read them (`semantic.go` 84-448,
`typecheck.go` 14-600), and the kind of a literal is the kind of its token (`typecheck.go` 157-182).  `none`: the phases
would find a node that they have no case for, or a nil field.

* A name is a string with one character for each byte, so that different names stay different, and names of ASCII
  letters are what they look like.
* Type parameters get the numbers from `k` on, in the order of the tree; in the Go code each one has its own type.
* The value of an integer literal is the one that `genExpr` reads (`codegen.go` 662-671); a literal that is no number is
  reported before type checking (`foldConstants`, `Verif/Sema/Literal.lean`).
-/
namespace Clara.Sema.Front
open Clara.Parse Clara.Lex
open Clara.Sema.Chk (X S Ch Case TyN Head LitK BinOp CmpOp UnOp FnBody)
open Clara.Sema.Dcl (Dcl FnDcl)

/-- The name that a token stands for. -/
def text (b : Bytes) : String := String.ofList (b.map fun c => Char.ofNat c.toNat)

mutual
/-- A type as written (`semantic.go` 401-448). -/
def toTy : Node → Option TyN
  | .mk op t _ l _ ss _ =>
    match op with
    | .namedType =>
      match l with
      | none => some (.named (text t.val) false [])
      | some (.mk _ _ _ _ _ _ ps) => (toTys ps).map (.named (text t.val) true)
    | .arrayType =>
      match l with
      | none => none
      | some e => (toTy e).map .array
    | .funcType =>
      match l with
      | none => (toTys ss).map .func
      | some r =>
        match toTys ss, toTy r with
        | some ts, some r => some (.funcR ts r)
        | _, _ => none
    | _ => none
def toTys : List Node → Option (List TyN)
  | [] => some []
  | n :: ns =>
    match toTy n, toTys ns with
    | some t, some ts => some (t :: ts)
    | _, _ => none
end

def Node.tok : Node → Token
  | .mk _ t _ _ _ _ _ => t

def Node.params : Node → List Node
  | .mk _ _ _ _ _ _ ps => ps

/-- Type parameters: `tParam.token.Val`, whatever the node is (`semantic.go` 90-97, 357-366). -/
def toTps (k : Nat) (ns : List Node) : List (String × Nat) := (ns.map fun n => text (Node.tok n).val).zipIdx k

/-- Parameters and fields. -/
def toParams : List Node → Option (List (String × TyN))
  | [] => some []
  | .mk _ t _ l _ _ _ :: ns =>
    match l.bind toTy, toParams ns with
    | some ty, some ps => some ((text t.val, ty) :: ps)
    | _, _ => none

/-- The head of a function: the type parameters are in `right`, the result type is `left`. -/
def toHead (k : Nat) (ps : List Node) (l r : Option Node) : Option Head :=
  match toParams ps with
  | none => none
  | some ps =>
    let tps := match r with | none => [] | some n => toTps k (Node.params n)
    match l with
    | none => some ⟨tps, ps, none⟩
    | some t => (toTy t).map fun t => ⟨tps, ps, some t⟩

/-- A literal (`typecheck.go` 157-182; `lowerForStatement` looks for the text `0`). -/
def toLit (t : Token) : Option LitK :=
  match t.kind with
  | .integer => some (.int ((Lit.parseInt t.val).getD 0) (t.val == [48]))
  | .string => some (.string (text t.val))
  | .true_ => some (.bool true)
  | .false_ => some (.bool false)
  | _ => none

inductive OpX
  | bin (o : BinOp)
  | cmp (o : CmpOp)
  | dot
  | index

/-- Nodes with two operands. -/
def opX : Op → Option OpX
  | .add => some (.bin .add)
  | .sub => some (.bin .sub)
  | .mul => some (.bin .mul)
  | .div => some (.bin .div)
  | .and => some (.bin .and)
  | .or => some (.bin .or)
  | .band => some (.bin .band)
  | .bor => some (.bin .bor)
  | .bxor => some (.bin .bxor)
  | .bleft => some (.bin .bleft)
  | .bright => some (.bin .bright)
  | .range => some (.bin .range)
  | .gt => some (.cmp .gt)
  | .gte => some (.cmp .gte)
  | .lt => some (.cmp .lt)
  | .lte => some (.cmp .lte)
  | .eq => some (.cmp .eq)
  | .dot => some .dot
  | .array => some .index
  | _ => none

def OpX.mk : OpX → X → X → X
  | .bin o, l, r => .bin o l r {}
  | .cmp o, l, r => .cmp o l r {}
  | .dot, l, r => .dot l r {}
  | .index, l, r => .index l r {}

def opU : Op → Option UnOp
  | .not => some .not
  | .bnot => some .bnot
  | .neg => some .neg
  | _ => none

/-- The variables of a case. -/
def toVars (ns : List Node) : List (String × Chk.Ann) := ns.map fun n => (text (Node.tok n).val, {})

/-- The expression, if the statement is one. -/
def asX : Option (S × Nat) → Option (X × Nat)
  | some (.expr x, k) => some (x, k)
  | _ => none

mutual
/-- Statements and expressions; `k` is the number of the next type parameter. -/
def toS (k : Nat) : Node → Option (S × Nat)
  | .mk op t a l r ss ps =>
    match op with
    | .identifier => some (.expr (.ident (text t.val) {}), k)
    | .lit => (toLit t).map fun v => (.expr (.lit v {}), k)
    | .namedType | .arrayType | .funcType => (toTy (.mk op t a l r ss ps)).map fun ty => (.expr (.ty ty {}), k)
    | .ternary =>
      match l, ss with
      | some c, [x, y] =>
        match asX (toS k c) with
        | none => none
        | some (c, k) =>
          match asX (toS k x) with
          | none => none
          | some (x, k) => (asX (toS k y)).map fun y => (.expr (.tern c x y.1 {}), y.2)
      | _, _ => none
    | .funcCall =>
      match l, toTys ps with
      | some f, some ts =>
        match asX (toS k f) with
        | none => none
        | some (f, k) => (toXs k ss).map fun as => (.expr (.call f ts as.1 {}), as.2)
      | _, _ => none
    | .arrayLit => (toXs k ss).map fun es => (.expr (.arr es.1 {}), es.2)
    | .blockFnDcl =>
      match toHead k ps l r with
      | none => none
      | some h => (toB (k + h.tps.length) ss).map fun b => (.expr (.fnB h none b.1 {}), b.2)
    | .exprFnDcl =>
      match toHead k ps l r, ss with
      | some h, [e] => (asX (toS (k + h.tps.length) e)).map fun e => (.expr (.fnE h none e.1 {}), e.2)
      | _, _ => none
    | .ret =>
      match l with
      | none => some (.ret0, k)
      | some e => (asX (toS k e)).map fun e => (.ret e.1, e.2)
    | .while_ =>
      match l with
      | none => none
      | some c =>
        match asX (toS k c) with
        | none => none
        | some (c, k) => (toB k ss).map fun b => (.loop c b.1, b.2)
    | .for_ =>
      match l, r with
      | some v, some e =>
        match asX (toS k e) with
        | none => none
        | some (e, k) => (toB k ss).map fun b => (.for_ (text (Node.tok v).val) {} e b.1, b.2)
      | _, _ => none
    | .if_ =>
      match l with
      | none => none
      | some c =>
        match asX (toS k c) with
        | none => none
        | some (c, k) =>
          match toB k ss with
          | none => none
          | some (b, k) => (toCh k r).map fun n => (.ifs (.cond c b n.1), n.2)
    | .as_ =>
      match l, r with
      | some l, some r =>
        match asX (toS k l) with
        | none => none
        | some (l, k) => (asX (toS k r)).map fun r => (.asg l r.1, r.2)
      | _, _ => none
    | .das =>
      match l, r with
      | some l, some r =>
        match asX (toS k l) with
        | none => none
        | some (l, k) => (asX (toS k r)).map fun r => (.das l r.1, r.2)
      | _, _ => none
    | .match_ =>
      match l with
      | none => none
      | some e =>
        match asX (toS k e) with
        | none => none
        | some (e, k) => (toCs k ss).map fun cs => (.match_ e cs.1, cs.2)
    | op =>
      match opX op, opU op with
      | some o, _ =>
        match l, r with
        | some l, some r =>
          match asX (toS k l) with
          | none => none
          | some (l, k) => (asX (toS k r)).map fun r => (.expr (o.mk l r.1), r.2)
        | _, _ => none
      | none, some o =>
        match l with
        | some e => (asX (toS k e)).map fun e => (.expr (.un o e.1 {}), e.2)
        | none => none
      | none, none => none
def toXs (k : Nat) : List Node → Option (List X × Nat)
  | [] => some ([], k)
  | n :: ns =>
    match asX (toS k n) with
    | none => none
    | some (x, k) => (toXs k ns).map fun xs => (x :: xs.1, xs.2)
def toB (k : Nat) : List Node → Option (List S × Nat)
  | [] => some ([], k)
  | n :: ns =>
    match toS k n with
    | none => none
    | some (s, k) => (toB k ns).map fun b => (s :: b.1, b.2)
/-- `elseif` and `else` (`n.right`). -/
def toCh (k : Nat) : Option Node → Option (Ch × Nat)
  | none => some (.done, k)
  | some (.mk op _ _ l r ss _) =>
    match op, l with
    | .else_, _ => (toB k ss).map fun b => (.els b.1, b.2)
    | .elseif, some c =>
      match asX (toS k c) with
      | none => none
      | some (c, k) =>
        match toB k ss with
        | none => none
        | some (b, k) => (toCh k r).map fun n => (.cond c b n.1, n.2)
    | _, _ => none
def toCs (k : Nat) : List Node → Option (List Case × Nat)
  | [] => some ([], k)
  | .mk _ t _ _ _ ss ps :: ns =>
    match toB k ss with
    | none => none
    | some (b, k) => (toCs k ns).map fun cs => (.mk (text t.val) none (toVars ps) b :: cs.1, cs.2)
end

/-- The constructors of an enum: the nodes have no type parameters of their own. -/
def toConses : List Node → Option (List (String × List (String × TyN)))
  | [] => some []
  | .mk _ t _ _ _ _ ps :: ns =>
    match toParams ps, toConses ns with
    | some ps, some cs => some ((text t.val, ps) :: cs)
    | _, _ => none

/-- A declaration (`semantic.go` 84-206). -/
def toDcl (k : Nat) : Node → Option (Dcl × Nat)
  | .mk op t a l r ss ps =>
    match op with
    | .structDcl => (toParams ss).map fun fs => (.struct (text t.val) (toTps k ps) fs, k + ps.length)
    | .enumDcl => (toConses ss).map fun cs => (.enum (text t.val) (toTps k ps) cs, k + ps.length)
    | .blockFnDcl =>
      match toHead k ps l r with
      | none => none
      | some h => (toB (k + h.tps.length) ss).map fun b => (.fn ⟨text t.val, h, .block b.1, a.rawValues⟩, b.2)
    | .exprFnDcl =>
      match toHead k ps l r, ss with
      | some h, [e] => (asX (toS (k + h.tps.length) e)).map fun e => (.fn ⟨text t.val, h, .expr e.1, a.rawValues⟩, e.2)
      | _, _ => none
    | .externFnDcl => (toHead k ps l r).map fun h => (.fn ⟨text t.val, h, .none_, a.rawValues⟩, k + h.tps.length)
    | _ => none

/-- The declarations of a program. -/
def toDcls (k : Nat) : List Node → Option (List Dcl)
  | [] => some []
  | n :: ns =>
    match toDcl k n with
    | none => none
    | some (d, k) => (toDcls k ns).map (d :: ·)

end Clara.Sema.Front
