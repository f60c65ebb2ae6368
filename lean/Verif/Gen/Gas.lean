import Verif.Gen.Helpers
/-
How the GNU assembler reads an instruction in AT&T syntax (its manual, sections "Symbols", "Constants" and "80386 Dependent
Features"), as far as needed.  Nothing here is about the compiler.
-/
namespace Clara.Gas
open Clara.Gen

abbrev Txt := List Char

/-! ### Numbers -/

def digitVal (c : Char) : Option Nat :=
  if 48 ≤ c.toNat ∧ c.toNat ≤ 57 then some (c.toNat - 48)
  else if 97 ≤ c.toNat ∧ c.toNat ≤ 102 then some (c.toNat - 87)
  else if 65 ≤ c.toNat ∧ c.toNat ≤ 70 then some (c.toNat - 55)
  else none

/-- Digits in a base, most significant first. -/
def digits (base : Nat) : Nat → Txt → Option Nat
  | n, [] => some n
  | n, c :: cs =>
    match digitVal c with
    | none => none
    | some d => if d < base then digits base (base * n + d) cs else none

/-- Hexadecimal with `0x`, binary with `0b`, octal with a leading zero, decimal. -/
def natural : Txt → Option Nat
  | [] => none
  | ['0'] => some 0
  | '0' :: c :: cs =>
    if c = 'x' ∨ c = 'X' then (if cs = [] then none else digits 16 0 cs)
    else if c = 'b' ∨ c = 'B' then (if cs = [] then none else digits 2 0 cs)
    else digits 8 0 (c :: cs)
  | cs => digits 10 0 cs

def integer : Txt → Option Int
  | '-' :: cs => (natural cs).map (fun n => -(n : Int))
  | cs => (natural cs).map (fun n => (n : Int))

/-! ### Words and operands -/

def blank (c : Char) : Bool := c == ' ' || c == '\t'

def trimL : Txt → Txt := List.dropWhile blank
def trim (t : Txt) : Txt := (trimL (trimL t).reverse).reverse

/-- Characters of symbols. -/
def symChar (c : Char) : Bool := c.isAlphanum || c == '_' || c == '.' || c == '$' || decide (128 ≤ c.toNat)

/-- Symbols do not begin with a digit, and a `$` at the beginning is no part of them. -/
def isSym : Txt → Bool
  | [] => false
  | c :: cs => symChar c && (!c.isDigit && (c != '$' && cs.all symChar))

/-- Parts between commas that are not in parentheses; the number is the depth. -/
def split : Nat → Txt → List Txt
  | _, [] => [[]]
  | d, c :: cs =>
    if c = ',' ∧ d = 0 then [] :: split d cs
    else
      match split (if c = '(' then d + 1 else if c = ')' then d - 1 else d) cs with
      | [] => [[c]]
      | x :: xs => (c :: x) :: xs

/-- The 64-bit registers that occur. -/
def reg64 (t : Txt) : Option Reg :=
  [("rax", Reg.rax), ("rbx", .rbx), ("rcx", .rcx), ("rdx", .rdx), ("rsi", .rsi), ("rdi", .rdi), ("rbp", .rbp), ("rsp", .rsp),
    ("r8", .r8), ("r9", .r9)].findSome? (fun p => if p.1.toList = t then some p.2 else none)

/-- The registers of a byte. -/
def reg8 (t : Txt) : Option Reg :=
  [("al", Reg.rax), ("bl", .rbx), ("cl", .rcx), ("dl", .rdx), ("sil", .rsi), ("dil", .rdi), ("bpl", .rbp), ("spl", .rsp),
    ("r8b", .r8), ("r9b", .r9)].findSome? (fun p => if p.1.toList = t then some p.2 else none)

inductive GOp
  | imm (i : Int)
  /-- the address of a symbol, with an addend -/
  | addr (s : Txt) (n : Int)
  | reg (r : Reg)
  | low (r : Reg)
  | mem (a : MemOp)
  | name (s : Txt)
  /-- `*` before a register or memory operand -/
  | star (o : GOp)
  deriving DecidableEq, Repr

def register (t : Txt) : Option Reg :=
  match t with
  | '%' :: n => reg64 n
  | _ => none

/-- What is in the parentheses. -/
def address (disp : Int) (parts : List Txt) : Option MemOp :=
  match parts with
  | [b] => do return { base := ← register b, disp }
  | [b, i] => do return { base := ← register b, idx := some (← register i), disp }
  | [b, i, s] => do return { base := ← register b, idx := some (← register i), scale := ← natural s, disp }
  | _ => none

def immediate (t : Txt) : Option GOp :=
  match integer t with
  | some i => some (.imm i)
  | none =>
    if isSym t then some (.addr t 0)
    else
      match t.dropWhile (· ≠ '+') with
      | '+' :: n => if isSym (t.takeWhile (· ≠ '+')) then (integer n).map (.addr (t.takeWhile (· ≠ '+'))) else none
      | _ => none

/-- The number before the parentheses. -/
def displacement (t : Txt) : Option Int := if t = [] then some 0 else integer t

/-- A register, memory or a name. -/
def place (t : Txt) : Option GOp :=
  match t with
  | '%' :: n =>
    match reg64 n with
    | some r => some (.reg r)
    | none => (reg8 n).map .low
  | _ =>
    let d := t.takeWhile (· ≠ '(')
    match t.dropWhile (· ≠ '(') with
    | [] => if isSym t then some (.name t) else none
    | _ :: r =>
      if r.dropWhile (· ≠ ')') = [')'] then do
        let disp ← displacement d
        return .mem (← address disp ((split 0 (r.takeWhile (· ≠ ')'))).map trim))
      else none

def operand (t : Txt) : Option GOp :=
  match t with
  | '$' :: n => immediate n
  | '*' :: n => (place n).map .star
  | _ => place t

/-! ### Instructions -/

inductive Opc
  | mov | movabs | push | pop | lea | alu (o : Alu) | not | neg | shl | sar | cmp | set (c : Cond) | cqo | idiv | jmp | jcc (c : Cond)
  | call | enter | leave | ret | movsbq | movb
  deriving DecidableEq, Repr

def opcodes : List (String × Opc) :=
  [("movq", .mov), ("movabs", .movabs), ("pushq", .push), ("popq", .pop), ("leaq", .lea), ("addq", .alu .add), ("subq", .alu .sub),
   ("imulq", .alu .imul), ("andq", .alu .and), ("orq", .alu .or), ("xorq", .alu .xor), ("notq", .not), ("negq", .neg), ("shlq", .shl),
   ("sarq", .sar), ("cmpq", .cmp), ("sete", .set .e), ("setne", .set .ne), ("setg", .set .g), ("setge", .set .ge), ("setl", .set .l),
   ("setle", .set .le), ("setae", .set .ae), ("cqo", .cqo), ("idivq", .idiv), ("jmp", .jmp), ("je", .jcc .e), ("jne", .jcc .ne),
   ("jg", .jcc .g), ("jge", .jcc .ge), ("jl", .jcc .l), ("jle", .jcc .le), ("jae", .jcc .ae), ("call", .call), ("enter", .enter),
   ("leave", .leave), ("ret", .ret), ("movsbq", .movsbq), ("movb", .movb)]

def opcode (t : Txt) : Option Opc := opcodes.findSome? (fun p => if p.1.toList = t then some p.2 else none)

def source : GOp → Option Opd
  | .imm i => some (.imm i)
  | .reg r => some (.reg r)
  | .mem a => some (.mem a)
  | _ => none

/-- What is known of the symbols of the file: labels of the code, and string literals, whose symbol is eight bytes before the
object. -/
structure Symbols where
  label : Txt → Option Label
  text : Txt → Option String

/-- The operand of `movabs`.  Symbols that are no literals are functions. -/
def wide (Y : Symbols) : GOp → Option Abs
  | .imm i => some (.imm i)
  | .addr s n =>
    match Y.text s with
    | some t => if n = 8 then some (.str t) else none
    | none => if n = 0 then some (.fn (String.ofList s)) else none
  | _ => none

/-- Source first, destination last.  Forms that do not exist are refused by `Ins.valid`, see C79. -/
def build (Y : Symbols) : Opc → List GOp → Option HIns
  | .mov, [s, d] => do return .ins (.mov (← source s) (← source d))
  | .movabs, [s, .reg d] => do return .ins (.movabs (← wide Y s) d)
  | .push, [s] => do return .ins (.push (← source s))
  | .pop, [.reg d] => some (.ins (.pop d))
  | .lea, [.mem a, .reg d] => some (.ins (.lea a d))
  | .alu o, [s, .reg d] => do return .ins (.alu o (← source s) d)
  | .not, [.reg d] => some (.ins (.not d))
  | .neg, [.reg d] => some (.ins (.neg d))
  | .shl, [.imm n, .reg d] => if 0 ≤ n then some (.ins (.shl (.imm n.toNat) d)) else none
  | .shl, [.low .rcx, .reg d] => some (.ins (.shl .cl d))
  | .sar, [.imm n, .reg d] => if 0 ≤ n then some (.ins (.sar (.imm n.toNat) d)) else none
  | .sar, [.low .rcx, .reg d] => some (.ins (.sar .cl d))
  | .cmp, [s, .reg d] => do return .ins (.cmp (← source s) d)
  | .set c, [.low .rax] => some (.ins (.set c))
  | .cqo, [] => some (.ins .cqo)
  | .idiv, [.reg d] => some (.ins (.idiv d))
  | .jmp, [.name s] => do return .ins (.jmp (← Y.label s))
  | .jmp, [.star (.reg r)] => some (.ins (.jmpReg r))
  | .jcc c, [.name s] => do return .ins (.jcc c (← Y.label s))
  | .call, [.name s] => some (.ins (.call (String.ofList s)))
  | .call, [.star (.reg r)] => some (.ins (.callReg r))
  | .call, [.star (.mem a)] => some (.ins (.callMem a))
  | .enter, [.imm n, .imm 0] => if 0 ≤ n then some (.ins (.enter n.toNat)) else none
  | .leave, [] => some (.ins .leave)
  | .ret, [] => some (.ins .ret)
  | .movsbq, [.mem a, .reg d] => some (.movsbq a d)
  | .movb, [.low s, .mem a] => some (.movb s a)
  | _, _ => none

/-- One line. -/
def line (Y : Symbols) (t : Txt) : Option HIns := do
  let s := trimL (t.takeWhile (· ≠ '\n'))
  let m ← opcode (s.takeWhile (fun c => !blank c))
  let r := trim (s.dropWhile (fun c => !blank c))
  let os ← (if r = [] then [] else (split 0 r).map trim).mapM operand
  build Y m os

end Clara.Gas
