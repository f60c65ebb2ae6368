import Verif.Parse.Model
import Verif.Gen.Emit
set_option linter.unusedVariables false
/-
Integer literals: `strconv.ParseInt(s, 0, 64)` of Go, `foldConstants` (`semantic.go` 450-466) under
`WalkPreOrder` (`walk.go` 5-131, called in `main.go` 99-106), and the literal case of `genExpr`
(`codegen.go` 657-671).

* Underscores, which `ParseInt` allows with base 0, are a syntax error here: no token has them
  (`Digit` and `HexDigit` of `Verif/Lex/Spec.lean`).
* A field that `Walk` visits without a test for nil is skipped here when it is nil; the parser does not
  make such nodes (C11).
* The generated instruction has the text of the literal, which the assembler reads as `ParseInt` does (C79)
  (`0x` for hexadecimal, a leading `0` for octal).
-/
namespace Clara.Sema.Lit
open Clara.Parse Clara.Lex

inductive NumErr
  | syntax | range
  deriving DecidableEq, Repr

/-- The value of a digit: `0-9`, `a-z`, `A-Z`. -/
def digit (c : UInt8) : Option Nat :=
  if 48 ≤ c ∧ c ≤ 57 then some (c.toNat - 48)
  else if 97 ≤ c ∧ c ≤ 122 then some (c.toNat - 97 + 10)
  else if 65 ≤ c ∧ c ≤ 90 then some (c.toNat - 65 + 10)
  else none

/-- The loop of `ParseUint` (Go's `strconv/atoi.go`): `cutoff` is `maxUint64/base + 1`. -/
def uintLoop (base : Nat) : Nat → Bytes → Except NumErr Nat
  | n, [] => .ok n
  | n, c :: cs =>
    match digit c with
    | none => .error .syntax
    | some d =>
      if d ≥ base then .error .syntax
      else if n ≥ (2 ^ 64 - 1) / base + 1 then .error .range
      else
        let n1 := (n * base + d) % 2 ^ 64
        if n1 < n * base then .error .range else uintLoop base n1 cs

/-- `ParseUint(s, 0, 64)`. -/
def parseUint (s : Bytes) : Except NumErr Nat :=
  match s with
  | [] => .error .syntax
  | 48 :: c :: c2 :: cs =>
    if c = 98 ∨ c = 66 then uintLoop 2 0 (c2 :: cs)
    else if c = 111 ∨ c = 79 then uintLoop 8 0 (c2 :: cs)
    else if c = 120 ∨ c = 88 then uintLoop 16 0 (c2 :: cs)
    else uintLoop 8 0 (c :: c2 :: cs)
  | 48 :: cs => uintLoop 8 0 cs
  | s => uintLoop 10 0 s

/-- The end of `ParseInt`. -/
def signed (neg : Bool) (r : Except NumErr Nat) : Option Int :=
  match r with
  | .error .syntax => none
  | .error .range => none
  | .ok un =>
    if !neg && decide (un ≥ 2 ^ 63) then none
    else if neg && decide (un > 2 ^ 63) then none
    else some (if neg then -un else un)

/-- `ParseInt(s, 0, 64)`. -/
def parseInt (s : Bytes) : Option Int :=
  match s with
  | [] => none
  | 43 :: cs => signed false (parseUint cs)
  | 45 :: cs => signed true (parseUint cs)
  | s => signed false (parseUint s)

/-- The fields of a node. -/
inductive Fld
  | left | right | stmts | params
  deriving DecidableEq, Repr

/-- The fields that `Walk` visits, in order (`walk.go` 21-124). -/
def walk : Op → List Fld
  | .blockFnDcl | .exprFnDcl | .externFnDcl | .consFnDcl | .funcType => [.right, .params, .stmts, .left]
  | .structDcl | .enumDcl | .else_ => [.stmts]
  | .typeList => [.params]
  | .funcCall => [.left, .params, .stmts]
  | .while_ | .match_ | .ternary => [.left, .stmts]
  | .case_ => [.params, .stmts]
  | .if_ | .elseif => [.left, .stmts, .right]
  | .for_ => [.right, .left, .stmts]
  | .lit | .error => []
  | .identifier | .ret | .namedType => [.left]
  | .not | .neg | .bnot | .arrayType => [.left]
  | .as_ | .das | .add | .sub | .mul | .div | .and | .or | .band | .bor | .bxor | .eq | .gt | .gte | .lt | .lte
  | .bleft | .bright | .dot | .array | .range => [.left, .right]
  | .arrayLit => [.left, .stmts]

/-- The first part of `foldConstants` (`semantic.go` 453-457): the token of the literal that the node becomes. -/
def negLit : Op → Option Node → Option Token
  | .neg, some (.mk .lit t _ _ _ _ _) => if t.kind = .integer then some { t with val := 45 :: t.val } else none
  | _, _ => none

/-- The second part (`semantic.go` 460-465): the token of the error. -/
def check (op : Op) (tok : Token) : List Token :=
  if op = .lit ∧ tok.kind = .integer ∧ parseInt tok.val = none then [tok] else []

mutual
/-- `foldConstants` under `WalkPreOrder`: the new tree and the tokens of the errors.  The node is
changed before its children are visited, and a node that has become a literal has none. -/
def fold : Node → Node × List Token
  | .mk op tok a l r ss ps =>
    match negLit op l with
    | some t => (.mk .lit t a none r ss ps, check .lit t)
    | none =>
      let l' := if .left ∈ walk op then foldO l else (l, [])
      let r' := if .right ∈ walk op then foldO r else (r, [])
      let ss' := if .stmts ∈ walk op then foldL ss else (ss, [])
      let ps' := if .params ∈ walk op then foldL ps else (ps, [])
      (.mk op tok a l'.1 r'.1 ss'.1 ps'.1,
        check op tok ++ (walk op).flatMap (fun | .left => l'.2 | .right => r'.2 | .stmts => ss'.2 | .params => ps'.2))
def foldO : Option Node → Option Node × List Token
  | none => (none, [])
  | some n => (some (fold n).1, (fold n).2)
def foldL : List Node → List Node × List Token
  | [] => ([], [])
  | n :: ns => ((fold n).1 :: (foldL ns).1, (fold n).2 ++ (foldL ns).2)
end

/-- `genExpr` on an integer literal (`codegen.go` 662-671): the expression of the model of code
generation; `none` is the panic in line 666. -/
def genLit : Node → Option Gen.Expr
  | .mk .lit tok _ _ _ _ _ => (parseInt tok.val).map .int
  | _ => none

/-! ### Lemmas -/

/-- The number written with the digits. -/
def run (base : Nat) : Nat → Bytes → Option Nat
  | n, [] => some n
  | n, c :: cs =>
    match digit c with
    | none => none
    | some d => if d < base then run base (n * base + d) cs else none

theorem run_ge {base : Nat} (hb : 1 ≤ base) : ∀ (cs : Bytes) (n v : Nat), run base n cs = some v → n ≤ v
  | [], n, v, h => by simp only [run, Option.some.injEq] at h; omega
  | c :: cs, n, v, h => by
    simp only [run] at h
    split at h
    · cases h
    · split at h
      · have := run_ge hb cs _ v h
        have : n * 1 ≤ n * base := Nat.mul_le_mul_left n hb
        omega
      · cases h

/-- The loop computes the number, if it is small enough. -/
theorem uintLoop_run {base : Nat} (hb : 2 ≤ base) (hb' : base ≤ 16) : ∀ (cs : Bytes) (n v : Nat), n < 2 ^ 64 → run base n cs = some v →
    uintLoop base n cs = if v < 2 ^ 64 then .ok v else .error .range
  | [], n, v, hn, h => by
    simp only [run, Option.some.injEq] at h
    subst h
    rw [if_pos hn]
    rfl
  | c :: cs, n, v, hn, h => by
    simp only [run] at h
    simp only [uintLoop]
    cases hd : digit c with
    | none => simp [hd] at h
    | some d =>
      simp only [hd] at h ⊢
      split at h
      · rename_i hlt
        rw [if_neg (by omega)]
        have hge := run_ge (by omega) cs _ v h
        have hdm := Nat.div_add_mod (2 ^ 64 - 1) base
        have hml := Nat.mod_lt (2 ^ 64 - 1) (show base > 0 by omega)
        split
        · rename_i hcut
          rw [if_neg]
          have : ((2 ^ 64 - 1) / base + 1) * base ≤ n * base := Nat.mul_le_mul_right base hcut
          rw [Nat.add_mul, Nat.mul_comm ((2 ^ 64 - 1) / base)] at this
          omega
        · rename_i hcut
          have : n * base ≤ (2 ^ 64 - 1) / base * base := Nat.mul_le_mul_right base (by omega)
          rw [Nat.mul_comm ((2 ^ 64 - 1) / base)] at this
          by_cases hov : n * base + d < 2 ^ 64
          · rw [Nat.mod_eq_of_lt hov, if_neg (by omega)]
            exact uintLoop_run hb hb' cs _ v hov h
          · rw [Nat.mod_eq_sub_mod (by omega), Nat.mod_eq_of_lt (by omega), if_pos (by omega), if_neg (by omega)]
      · cases h

theorem uintLoop_none {base : Nat} : ∀ (cs : Bytes) (n : Nat), run base n cs = none → (uintLoop base n cs).toOption = none := by
  intro cs
  have : ∀ (cs : Bytes) (n m : Nat), run base n cs = none → (uintLoop base m cs).toOption = none := by
    intro cs
    induction cs with
    | nil => intro n m h; simp [run] at h
    | cons c cs ih =>
      intro n m h
      simp only [run] at h
      simp only [uintLoop]
      cases hd : digit c with
      | none => rfl
      | some d =>
        simp only [hd] at h ⊢
        split
        · rfl
        · rename_i hlt
          rw [if_pos (by omega)] at h
          split
          · rfl
          · split
            · rfl
            · exact ih _ _ h
  exact fun n => this cs n n

end Clara.Sema.Lit
