import Verif.Gen.Helpers
import Verif.Gen.Labels
/-
The text of instructions in the assembly file (`asm.go` 14-324, 400-451), on Linux.
-/
namespace Clara.Gen

abbrev Txt := List Char

/-- Registers as they are named: whole, or the lowest byte (`asm.go` 139-167). -/
inductive PReg
  | full (r : Reg)
  | low (r : Reg)
  deriving DecidableEq, Repr

/-- `regNames` (`asm.go` 169-198). -/
def PReg.name : PReg → Txt
  | .full .rax => "%rax".toList
  | .full .rbx => "%rbx".toList
  | .full .rcx => "%rcx".toList
  | .full .rdx => "%rdx".toList
  | .full .rsi => "%rsi".toList
  | .full .rdi => "%rdi".toList
  | .full .rbp => "%rbp".toList
  | .full .rsp => "%rsp".toList
  | .full .r8 => "%r8".toList
  | .full .r9 => "%r9".toList
  | .low .rdi => "%dil".toList
  | .low .rsi => "%sil".toList
  | .low .rdx => "%dl".toList
  | .low .rcx => "%cl".toList
  | .low .r8 => "%r8l".toList
  | .low .r9 => "%r9l".toList
  | .low .rax => "%al".toList
  | .low .rbx => "%bl".toList
  | .low _ => []

/-- Operands: the types that implement `operand` (`asm.go` 14-137).  `memOp` always has a base register in the code. -/
inductive POp
  | mem (base : Reg) (idx : Option Reg) (disp : Int) (scl : Nat) (indir deref : Bool)
  | fn (s : Txt)
  | sym (s : Txt)
  | label (s : Txt)
  | lit (s : Txt)
  | reg (r : PReg)

/-- `strconv.Itoa`. -/
def itoa (i : Int) : Txt := if i < 0 then '-' :: dec i.natAbs else dec i.natAbs

/-- `Print` (`asm.go` 49-76, 82-87, 93-98, 103-105, 111-113, 135-137). -/
def POp.print : POp → Txt
  | .mem b i d s indir deref =>
    (if indir then ['*'] else []) ++ ((if d ≠ 0 then itoa d else []) ++ ((if deref then ['('] else []) ++
      ((PReg.full b).name ++ ((match i with | some r => ',' :: (PReg.full r).name | none => []) ++
        ((if s > 1 then ',' :: itoa s else []) ++ (if deref then [')'] else []))))))
  | .fn s => s
  | .sym s => '$' :: s
  | .label s => s
  | .lit s => '$' :: s
  | .reg r => r.name

/-- What the text needs besides the instruction: how a constant is written (`intOp`, or the text of the literal in the source,
`codegen.go` 671), and the number of the label of a string literal. -/
structure Spell where
  num : Int → Txt
  lit : String → Nat

def MemOp.pop (a : MemOp) (indir : Bool := false) : POp := .mem a.base a.idx a.disp a.scale indir true

def Opd.pop (S : Spell) : Opd → POp
  | .imm i => .lit (S.num i)
  | .reg r => .reg (.full r)
  | .mem a => a.pop

/-- `stringLit` gives the label and `+8` (`asm.go` 400-411); functions are `symOp`. -/
def Abs.pop (S : Spell) : Abs → POp
  | .imm i => .lit (S.num i)
  | .str s => .lit (".LC".toList ++ (dec (S.lit s) ++ "+8".toList))
  | .fn f => .sym f.toList

def Cnt.pop : Cnt → POp
  | .imm n => .lit (itoa n)
  | .cl => .reg (.low .rcx)

/-- `instNames` (`asm.go` 290-324) of the instruction; conditions without a constant have no name. -/
def Alu.mnem : Alu → String
  | .add => "addq" | .sub => "subq" | .imul => "imulq" | .and => "andq" | .or => "orq" | .xor => "xorq"
def Cond.setName : Cond → String
  | .e => "sete" | .g => "setg" | .ge => "setge" | .l => "setl" | .le => "setle" | .ne | .ae => ""
def Cond.jmpName : Cond → String
  | .e => "je" | .ne => "jne" | .ae => "jae" | .g | .ge | .l | .le => ""

def Ins.mnem : Ins → String
  | .mov _ _ => "movq"
  | .movabs _ _ => "movabs"
  | .push _ => "pushq"
  | .pop _ => "popq"
  | .lea _ _ => "leaq"
  | .alu o _ _ => o.mnem
  | .not _ => "notq"
  | .neg _ => "negq"
  | .shl _ _ => "shlq"
  | .sar _ _ => "sarq"
  | .cmp _ _ => "cmpq"
  | .set c => c.setName
  | .cqo => "cqo"
  | .idiv _ => "idivq"
  | .jmp _ | .jmpReg _ => "jmp"
  | .jcc c _ => c.jmpName
  | .call _ | .callReg _ | .callMem _ => "call"
  | .enter _ => "enter"
  | .leave => "leave"
  | .ret => "ret"

/-- The operands that `codegen.go` gives to `ins` for the instruction. -/
def Ins.ops (S : Spell) : Ins → List POp
  | .mov s d => [s.pop S, d.pop S]
  | .movabs s d => [s.pop S, .reg (.full d)]
  | .push s => [s.pop S]
  | .pop d => [.reg (.full d)]
  | .lea a d => [a.pop, .reg (.full d)]
  | .alu _ s d => [s.pop S, .reg (.full d)]
  | .not d | .neg d => [.reg (.full d)]
  | .shl c d | .sar c d => [c.pop, .reg (.full d)]
  | .cmp s d => [s.pop S, .reg (.full d)]
  | .set _ => [.reg (.low .rax)]
  | .cqo | .leave | .ret => []
  | .idiv s => [.reg (.full s)]
  | .jmp l | .jcc _ l => [.label l.text]
  | .jmpReg r | .callReg r => [.mem r none 0 0 true false]
  | .call f => [.fn f.toList]
  | .callMem a => [a.pop true]
  | .enter n => [.lit (itoa n), .lit (itoa 0)]

def HIns.mnem : HIns → String
  | .ins i => i.mnem
  | .movsbq _ _ => "movsbq"
  | .movb _ _ => "movb"

/-- `_8bit` (`asm.go` 219-240) for `movb`. -/
def HIns.ops (S : Spell) : HIns → List POp
  | .ins i => i.ops S
  | .movsbq a d => [a.pop, .reg (.full d)]
  | .movb s a => [.reg (.low s), a.pop]

/-- `strings.Join`. -/
def joinOps : List Txt → Txt
  | [] => []
  | [x] => x
  | x :: y :: r => x ++ (", ".toList ++ joinOps (y :: r))

/-- `%-ns` of `fmt`. -/
def padTo (n : Nat) (t : Txt) : Txt := t ++ List.replicate (n - t.length) ' '

/-- `ins` (`asm.go` 445-451). -/
def insText (S : Spell) (i : HIns) : Txt :=
  "   ".toList ++ (padTo 8 i.mnem.toList ++ (padTo 50 (joinOps ((i.ops S).map POp.print)) ++ ['\n']))

end Clara.Gen
