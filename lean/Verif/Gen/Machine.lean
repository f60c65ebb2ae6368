/-
The part of the x86-64 instruction set that the code generator uses, and its execution
(`asm.go` 240-330 lists the instructions; the meaning is that of the processor manual).

Simplifications, all noted in DESIGN.md: memory is a map from addresses to 64-bit words (accesses
never overlap partially), code is a list of instructions placed in the address space
(a base address and the size of each instruction), flags other than those of the last comparison are unknown.
-/
namespace Clara.Gen

abbrev Word := BitVec 64

/-- The registers used by `codegen.go` (`asm.go` 138-166). -/
inductive Reg
  | rax | rbx | rcx | rdx | rsi | rdi | rbp | rsp | r8 | r9
  deriving DecidableEq, Repr

/-- Memory operands `disp(base, idx, scale)` (`asm.go` 20-75). -/
structure MemOp where
  base : Reg
  idx : Option Reg := none
  scale : Nat := 1
  disp : Int := 0
  deriving DecidableEq, Repr

/-- Operands of `movq`, `pushq` and the arithmetic instructions (`asm.go` 16-136). -/
inductive Opd
  | imm (i : Int)
  | reg (r : Reg)
  | mem (a : MemOp)
  deriving DecidableEq, Repr

/-- Source of `movabs`: a constant, a string literal label or a function address. -/
inductive Abs
  | imm (i : Int)
  | str (s : String)
  | fn (f : String)
  deriving DecidableEq, Repr

inductive Alu
  | add | sub | imul | and | or | xor
  deriving DecidableEq, Repr

/-- Conditions after `cmpq src, dst`. -/
inductive Cond
  | e | ne | g | ge | l | le | ae
  deriving DecidableEq, Repr

/-- Shift counts: an immediate or `%cl`. -/
inductive Cnt
  | imm (n : Nat)
  | cl
  deriving DecidableEq, Repr

/-- Labels: those made by `newLabel` (`asm.go` 429-433), functions, and the bounds-check target. -/
inductive Label
  | loc (s : String) (n : Nat)
  | fn (f : String)
  | ioob
  deriving DecidableEq, Repr

/-- Instructions (`asm.go` 242-286). -/
inductive Ins
  | mov (s d : Opd)
  | movabs (s : Abs) (d : Reg)
  | push (s : Opd)
  | pop (d : Reg)
  | lea (a : MemOp) (d : Reg)
  | alu (o : Alu) (s : Opd) (d : Reg)
  | not (d : Reg)
  | neg (d : Reg)
  | shl (c : Cnt) (d : Reg)
  | sar (c : Cnt) (d : Reg)
  | cmp (s : Opd) (d : Reg)
  | set (c : Cond)
  | cqo
  | idiv (s : Reg)
  | jmp (l : Label)
  | jcc (c : Cond) (l : Label)
  | jmpReg (r : Reg)
  | call (f : String)
  | callReg (r : Reg)
  | callMem (a : MemOp)
  | enter (n : Nat)
  | leave
  | ret
  deriving DecidableEq, Repr

/-- What an assembly file contains: instructions, labels and data words.  A data word after a call
is the address of the list of GC roots of the caller's frame; the model keeps the list. -/
inductive Item
  | ins (i : Ins)
  | label (l : Label)
  | data (roots : List Nat)
  deriving DecidableEq, Repr

/-- Machine states.  `σ` is the state of the world outside (allocator, I/O). -/
structure Mach (σ : Type) where
  reg : Reg → Word
  mem : Word → Word
  flags : Option (Word × Word)
  ext : σ

namespace Mach
variable {σ : Type}

def set (m : Mach σ) (r : Reg) (w : Word) : Mach σ :=
  { m with reg := fun r' => if r' = r then w else m.reg r' }

def store (m : Mach σ) (a w : Word) : Mach σ :=
  { m with mem := fun a' => if a' = a then w else m.mem a' }

/-- Effective address. -/
def ea (m : Mach σ) (a : MemOp) : Word :=
  m.reg a.base + (match a.idx with | none => 0 | some r => m.reg r * BitVec.ofNat 64 a.scale) +
    BitVec.ofInt 64 a.disp

/-- Value of an operand. -/
def get (m : Mach σ) : Opd → Word
  | .imm i => BitVec.ofInt 64 i
  | .reg r => m.reg r
  | .mem a => m.mem (m.ea a)

/-- Write to an operand; immediates are not destinations. -/
def put (m : Mach σ) : Opd → Word → Mach σ
  | .imm _, _ => m
  | .reg r, w => m.set r w
  | .mem a, w => m.store (m.ea a) w

def push (m : Mach σ) (w : Word) : Mach σ :=
  (m.set .rsp (m.reg .rsp - 8)).store (m.reg .rsp - 8) w

def noFlags (m : Mach σ) : Mach σ := { m with flags := none }

end Mach

def Alu.eval : Alu → Word → Word → Word
  | .add, d, s => d + s
  | .sub, d, s => d - s
  | .imul, d, s => d * s
  | .and, d, s => d &&& s
  | .or, d, s => d ||| s
  | .xor, d, s => d ^^^ s

/-- Conditions after `cmpq src, dst`, for the pair `(dst, src)`. -/
def Cond.holds : Cond → Word × Word → Bool
  | .e, (d, s) => d == s
  | .ne, (d, s) => d != s
  | .g, (d, s) => s.slt d
  | .ge, (d, s) => s.sle d
  | .l, (d, s) => d.slt s
  | .le, (d, s) => d.sle s
  | .ae, (d, s) => s.ule d

def Cnt.val {σ : Type} (m : Mach σ) : Cnt → Nat
  | .imm n => n
  | .cl => (m.reg .rcx).toNat % 64

/-- Effect of an instruction that does not transfer control; `none` is a processor exception.
`abs` gives the addresses of labels. -/
def exec {σ : Type} (abs : Abs → Word) (m : Mach σ) : Ins → Option (Mach σ)
  | .mov s d => some (m.put d (m.get s))
  | .movabs s d => some (m.set d (match s with | .imm i => BitVec.ofInt 64 i | s => abs s))
  | .push s => some (m.push (m.get s))
  | .pop d => some ((m.set .rsp (m.reg .rsp + 8)).set d (m.mem (m.reg .rsp)))
  | .lea a d => some (m.set d (m.ea a))
  | .alu o s d => some ((m.set d (o.eval (m.reg d) (m.get s))).noFlags)
  | .not d => some (m.set d (~~~ m.reg d))
  | .neg d => some ((m.set d (- m.reg d)).noFlags)
  | .shl c d => some ((m.set d (m.reg d <<< c.val m)).noFlags)
  | .sar c d => some ((m.set d ((m.reg d).sshiftRight (c.val m))).noFlags)
  | .cmp s d => some { m with flags := some (m.reg d, m.get s) }
  | .set c =>
    match m.flags with
    | none => none
    | some f =>
      -- writes the low byte of `rax`
      some (m.set .rax ((m.reg .rax &&& ~~~ 0xFF) ||| (if c.holds f then 1 else 0)))
  | .cqo => some (m.set .rdx (if (m.reg .rax).msb then BitVec.allOnes 64 else 0))
  | .idiv s =>
    -- the dividend is `rdx:rax`; the model covers the case where it is a sign-extended `rax`
    if m.reg .rdx = (if (m.reg .rax).msb then BitVec.allOnes 64 else 0) ∧ m.reg s ≠ 0 ∧
        ¬ (m.reg .rax = BitVec.intMin 64 ∧ m.reg s = BitVec.allOnes 64) then
      some (((m.set .rax ((m.reg .rax).sdiv (m.reg s))).set .rdx ((m.reg .rax).srem (m.reg s))).noFlags)
    else none
  | .enter n =>
    let m1 := m.push (m.reg .rbp)
    some ((m1.set .rbp (m1.reg .rsp)).set .rsp (m1.reg .rsp - BitVec.ofNat 64 n))
  | .leave =>
    let m1 := m.set .rsp (m.reg .rbp)
    some ((m1.set .rsp (m1.reg .rsp + 8)).set .rbp (m1.mem (m1.reg .rsp)))
  | _ => none

/-- Is this an instruction that `exec` covers? -/
def Ins.straight : Ins → Bool
  | .jmp _ | .jcc _ _ | .jmpReg _ | .call _ | .callReg _ | .callMem _ | .ret => false
  | _ => true

/-- A loaded program.  Items lie one after the other from `base`; labels take no space, data words
take 8 bytes and an instruction takes `isize` bytes. -/
structure Image (σ : Type) where
  code : List Item
  /-- was the code written through the peephole optimiser? -/
  opt : Bool
  base : Word
  isize : Ins → Nat
  /-- address of string literals -/
  str : String → Word
  /-- effect of calling a C function: state before the call to state after it -/
  cfun : String → Mach σ → Mach σ → Prop
  /-- effect of calling a Clara function that is part of the runtime and not of `code` -/
  rt : String → Mach σ → Mach σ → Prop

namespace Image
variable {σ : Type} (I : Image σ)

def size : Item → Nat
  | .ins i => I.isize i
  | .label _ => 0
  | .data _ => 8

/-- Bytes taken by the first `p` items. -/
def offset (p : Nat) : Nat := ((I.code.take p).map I.size).sum

/-- Address of a position. -/
def addr (p : Nat) : Word := I.base + BitVec.ofNat 64 (I.offset p)

/-- The first position with the given address. -/
def pos (a : Word) : Option Nat := (List.range (I.code.length + 1)).find? (fun p => I.addr p == a)

/-- Instructions take space and the code does not wrap around the address space. -/
def Fits : Prop := (∀ i, 0 < I.isize i) ∧ I.base.toNat + I.offset I.code.length < 2 ^ 64

/-- Position of a label. -/
def find (l : Label) : Option Nat := I.code.findIdx? (· == .label l)

def fnAddr (f : String) : Word := match I.find (.fn f) with | some p => I.addr p | none => 0

def abs : Abs → Word
  | .imm i => BitVec.ofInt 64 i
  | .str s => I.str s
  | .fn f => I.fnAddr f

end Image

abbrev Cfg (σ : Type) := Nat × Mach σ

/-- The system ABI wants a 16-byte aligned stack at calls. -/
def Mach.aligned {σ : Type} (m : Mach σ) : Prop := (m.reg .rsp).toNat % 16 = 0

/-- One step of execution.  There is no step from a call with a misaligned stack, from a data word,
or to an address that is not a code position: such states are crashes. -/
inductive Step {σ : Type} (I : Image σ) : Cfg σ → Cfg σ → Prop
  | straight {p m i m'} : I.code[p]? = some (.ins i) → i.straight = true → exec I.abs m i = some m' →
      Step I (p, m) (p + 1, m')
  | label {p m l} : I.code[p]? = some (.label l) → Step I (p, m) (p + 1, m)
  | jmp {p m l q} : I.code[p]? = some (.ins (.jmp l)) → I.find l = some q → Step I (p, m) (q, m)
  | taken {p m c l f q} : I.code[p]? = some (.ins (.jcc c l)) → m.flags = some f →
      c.holds f = true → I.find l = some q → Step I (p, m) (q, m)
  | fall {p m c l f} : I.code[p]? = some (.ins (.jcc c l)) → m.flags = some f →
      c.holds f = false → Step I (p, m) (p + 1, m)
  | jmpReg {p m r q} : I.code[p]? = some (.ins (.jmpReg r)) → I.pos (m.reg r) = some q →
      Step I (p, m) (q, m)
  | ret {p m q} : I.code[p]? = some (.ins .ret) → I.pos (m.mem (m.reg .rsp)) = some q →
      Step I (p, m) (q, m.set .rsp (m.reg .rsp + 8))
  | call {p m f q} : I.code[p]? = some (.ins (.call f)) → m.aligned → I.find (.fn f) = some q →
      Step I (p, m) (q, m.push (I.addr (p + 1)))
  | callC {p m f m'} : I.code[p]? = some (.ins (.call f)) → m.aligned → I.find (.fn f) = none →
      I.cfun f m m' → Step I (p, m) (p + 1, m')
  | callRt {p m f m'} : I.code[p]? = some (.ins (.call f)) → m.aligned → I.find (.fn f) = none →
      I.rt f m m' → Step I (p, m) (p + 2, m')
  | callReg {p m r q} : I.code[p]? = some (.ins (.callReg r)) → m.aligned → I.pos (m.reg r) = some q →
      Step I (p, m) (q, m.push (I.addr (p + 1)))
  | callMem {p m a q} : I.code[p]? = some (.ins (.callMem a)) → m.aligned →
      I.pos (m.mem (m.ea a)) = some q → Step I (p, m) (q, m.push (I.addr (p + 1)))

/-- Every execution from the configuration reaches `G` after finitely many steps, without getting
stuck before. -/
inductive Reaches {σ : Type} (I : Image σ) (G : Cfg σ → Prop) : Cfg σ → Prop
  | now {c} : G c → Reaches I G c
  | step {c} : (∃ c', Step I c c') → (∀ c', Step I c c' → Reaches I G c') → Reaches I G c

end Clara.Gen
