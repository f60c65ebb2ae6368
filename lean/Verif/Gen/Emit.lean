import Verif.Gen.Machine
/-
The code generator (`codegen.go`, `gc.go` 24-72) as a function from lowered syntax trees to the
sequence of calls it makes on its assembly writer.

A Go panic inside the generator is the event `.panic`.  `newLabel` and `stringLit` produce no output
but make the peephole optimiser write its pending instruction; they are the event `.flush`.
-/
namespace Clara.Gen

/-- `TypeKind` (`symtab.go` 27-40). -/
inductive TK
  | struct | enum | function | array | integer | boolean | string | bytes | pointer | nothing
  | parameter
  deriving DecidableEq, Repr

/-- A `*Type` as far as the generator looks at it: its kind and its identity. -/
structure TyR where
  kind : TK
  id : Nat := 0
  deriving DecidableEq, Repr

/-- `IsPointer` (`symtab.go` 179-181). -/
def TK.isPointer : TK → Bool
  | .array | .struct | .string | .function | .enum | .parameter | .bytes => true
  | _ => false

inductive BinOp
  | add | sub | mul | div | bor | band | bxor
  | or | and
  | gt | ge | lt | le | eq
  | bleft | bright
  deriving DecidableEq, Repr

inductive UnOp
  | not | bnot | neg
  deriving DecidableEq, Repr

/-- The callee's `FunctionType` as far as `genFnCall` looks at it. -/
structure FnInfo where
  ext : Bool := false
  raw : Bool := false
  variadic : Bool := false
  ret : TyR
  deriving DecidableEq, Repr

/-- Expressions after type checking and lowering.  Variables are symbols, identified by a number. -/
inductive Expr
  | int (i : Int)
  | bool (b : Bool)
  | str (s : String)
  | typ (t : TyR)
  | var (x : Nat) (t : TyR)
  | fnRef (f : String) (ext : Bool) (t : TyR)
  | bin (o : BinOp) (t : TyR) (l r : Expr)
  | un (o : UnOp) (t : TyR) (e : Expr)
  | tern (t : TyR) (c a b : Expr)
  | arrLit (t : TyR) (e : Expr)
  | callFn (f : String) (fi : FnInfo) (args : List Expr)
  | callVar (x : Nat) (fi : FnInfo) (args : List Expr)
  | callExpr (e : Expr) (fi : FnInfo) (args : List Expr)
  | dot (t : TyR) (e : Expr) (off : Nat)
  | index (t : TyR) (a i : Expr)
  deriving Repr

/-- `n.typ`. -/
def Expr.ty : Expr → TyR
  | .int _ => ⟨.integer, 0⟩
  | .bool _ => ⟨.boolean, 0⟩
  | .str _ => ⟨.string, 0⟩
  | .typ t | .var _ t | .fnRef _ _ t | .bin _ t _ _ | .un _ t _ | .tern t _ _ _ | .arrLit t _
  | .dot t _ _ | .index t _ _ => t
  | .callFn _ fi _ | .callVar _ fi _ | .callExpr _ fi _ => fi.ret

mutual
/-- Statements after lowering. -/
inductive Stmt
  | ret (e : Option Expr)
  | ifs (c : Chain)
  | asg (decl : Bool) (l r : Expr)
  | loop (c : Expr) (body : Stmts)
  | block (body : Stmts)
  | expr (e : Expr)
/-- `if … elseif … else` chains, linked through `right` in the code. -/
inductive Chain
  | done
  | els (body : Stmts)
  | cond (c : Expr) (body : Stmts) (next : Chain)
inductive Stmts
  | nil
  | cons (s : Stmt) (ss : Stmts)
end

/-- Calls on the assembly writer. -/
inductive Ev
  | ins (i : Ins)
  | label (l : Label)
  | data (roots : List Nat)
  | flush
  | panic
  deriving DecidableEq, Repr

/-- `GcState` (`gc.go` 18-21). -/
structure GcS where
  scopes : List Nat := []
  roots : List (Nat × TyR) := []
  deriving DecidableEq, Repr

/-- `Add` (`gc.go` 54-58). -/
def GcS.add (g : GcS) (off : Nat) (t : TyR) : GcS :=
  if t.kind.isPointer then { g with roots := g.roots ++ [(off, t)] } else g

/-- `Remove` (`gc.go` 60-70): removes the first matching root; `none` is the panic. -/
def GcS.remove (g : GcS) (off : Nat) (t : TyR) : Option GcS :=
  if t.kind.isPointer then
    if (off, t) ∈ g.roots then some { g with roots := g.roots.erase (off, t) } else none
  else some g

/-- `OpenScope` (`gc.go` 46-48). -/
def GcS.openScope (g : GcS) : GcS := { g with scopes := g.scopes ++ [g.roots.length] }

/-- `CloseScope` (`gc.go` 50-52).  It does not pop `scopes`.  (Go would also allow the slice to
grow up to its capacity; the length never exceeds the current one here, see `Grow.high` in `RootStmts.lean`.) -/
def GcS.closeScope (g : GcS) : GcS := { g with roots := g.roots.take (g.scopes.getLastD 0) }

/-- The state of the generator: the label counter (`asm.go` 344), and `sp`, `reg`, `gcRoots` of
`function` (`codegen.go` 28-37).  The innermost call is at the head of `reg`. -/
structure GS where
  lbl : Nat := 0
  sp : Nat := 0
  reg : List (List TyR) := []
  gc : GcS := {}
  deriving DecidableEq, Repr

def GS.inc (g : GS) : GS := { g with sp := g.sp + 1 }
def GS.dec (g : GS) : GS := { g with sp := g.sp - 1 }

/-- `regs` (`codegen.go` 25). -/
def argRegs : List Reg := [.rdi, .rsi, .rdx, .rcx, .r8, .r9]

def rax : Opd := .reg .rax
def rbx : Opd := .reg .rbx
/-- `rbp.displace(-addr)` for the stack slot `s`. -/
def slotOp (s : Nat) : MemOp := { base := .rbp, disp := -(8 * s : Nat) }
/-- `displace` panics on offsets that do not fit 16 bits (`asm.go` 204-209). -/
def slotOk (s : Nat) : Bool := 8 * s ≤ 32768

/-- `tagAs` (`codegen.go` 862-865, 875-891). -/
def tagAs (t : TK) (r : Reg) : List Ev :=
  if t = .integer then [.ins (.shl (.imm 1) r), .ins (.alu .or (.imm 1) r)] else [.panic]

/-- `untagAs` (`codegen.go` 871-873). -/
def untagAs (t : TK) (r : Reg) : List Ev :=
  if t = .integer then [.ins (.sar (.imm 1) r)] else [.panic]

/-- `ins` (`codegen.go` 903-920). -/
def BinOp.alu : BinOp → Alu
  | .add => .add | .sub => .sub | .mul => .imul
  | .bor | .or => .or
  | .band | .and => .and
  | .bxor => .xor
  | _ => .add

def BinOp.cond : BinOp → Cond
  | .gt => .g | .ge => .ge | .lt => .l | .le => .le | _ => .e

/-- `SpillRegisters` (`codegen.go` 69-80): the registers of the call in progress are pushed from the
last to the first. -/
def spillAux : List TyR → Nat → GS → List Ev × GS
  | [], _, g => ([], g)
  | t :: ts, i, g =>
    let r := spillAux ts (i + 1) g
    let g' := r.2.inc
    (r.1 ++ [match argRegs[i]? with | some r => .ins (.push (.reg r)) | none => .panic],
      { g' with gc := g'.gc.add (g'.sp * 8) t })

def spill (g : GS) : List Ev × GS :=
  match g.reg with
  | [] => ([], { g with reg := [[]] })
  | top :: rest =>
    let r := spillAux top 0 g
    (r.1, { r.2 with reg := [] :: top :: rest })

/-- `RestoreRegisters` (`codegen.go` 83-96). -/
def restoreAux : List TyR → Nat → GS → List Ev × GS
  | [], _, g => ([], g)
  | t :: ts, i, g =>
    let e : Ev := match argRegs[i]? with | some r => .ins (.pop r) | none => .panic
    match g.gc.remove (g.sp * 8) t with
    | none => let r := restoreAux ts (i + 1) g.dec; (e :: .panic :: r.1, r.2)
    | some gc => let r := restoreAux ts (i + 1) { g.dec with gc := gc }; (e :: r.1, r.2)

def restoreRegs (g : GS) : List Ev × GS :=
  match g.reg with
  | _ :: top :: rest => restoreAux top 0 { g with reg := top :: rest }
  | _ => ([], { g with reg := [] })

/-- `RegisterInUse` (`codegen.go` 98-100). -/
def GS.inUse (g : GS) (t : TyR) : GS :=
  match g.reg with
  | top :: rest => { g with reg := (top ++ [t]) :: rest }
  | [] => g

/-- Conversion of an argument of an external function (`codegen.go` 599-609). -/
def rawConv (fi : FnInfo) (t : TK) (r : Reg) : List Ev :=
  if fi.ext && fi.raw then
    match t with
    | .string | .array | .bytes => [.ins (.lea { base := r, disp := 8 } r)]
    | .integer => untagAs t r
    | _ => []
  else []

/-- `NewGcMap` (`codegen.go` 57-66). -/
def gcMap (g : GS) : Ev := .data (g.gc.roots.map (fun r => r.1 / 8))

/-- The tail of `genFnCall` (`codegen.go` 612-650): `target` is the call instruction, `indirect` says
that the function address is on the stack. -/
def finishCall (fi : FnInfo) (target : Ins) (indirect : Bool) (g : GS) : List Ev × GS :=
  let c1 : List Ev := if fi.variadic then [.ins (.mov (.imm 0) rax)] else []
  let c2 : List Ev := if indirect then [.ins (.pop .rax)] else []
  let g1 := if indirect then g.dec else g
  let c3 : List Ev := if g1.sp % 2 = 0 then [] else [.ins (.alu .sub (.imm 8) .rsp)]
  let c4 : List Ev := if fi.ext && fi.raw && fi.ret.kind == .integer then tagAs .integer .rax else []
  let c5 : List Ev := if fi.ext then [] else [gcMap g1]
  let c6 : List Ev := if g1.sp % 2 = 0 then [] else [.ins (.alu .add (.imm 8) .rsp)]
  let r := restoreRegs g1
  (c1 ++ (c2 ++ (c3 ++ (.ins target :: (c4 ++ (c5 ++ (c6 ++ r.1)))))), r.2)

def slotIns (s : Nat) (i : Ins) : Ev := if slotOk s then .ins i else .panic

mutual
/-- `genExpr` and `genFnCall` (`codegen.go` 574-856).  `slot` gives the stack slot of a symbol. -/
def genExpr (slot : Nat → Nat) : Expr → Bool → GS → List Ev × GS
  | .int i, _, g =>
    (.ins (if i > 2147483647 ∨ i < -2147483648 then .movabs (.imm i) .rax else .mov (.imm i) rax) ::
      tagAs .integer .rax, g)
  | .bool b, _, g => ([.ins (.mov (.imm (if b then 1 else 0)) rax)], g)
  | .str s, _, g => ([.flush, .ins (.movabs (.str s) .rax)], g)
  | .typ _, _, g => ([], g)
  | .var x _, addr, g =>
    ([slotIns (slot x) (if addr then .lea (slotOp (slot x)) .rax else .mov (.mem (slotOp (slot x))) rax)], g)
  | .fnRef f ext _, _, g => ([.ins (if ext then .mov (.imm 0) rax else .movabs (.fn f) .rax)], g)
  | .bin o t l r, _, g =>
    let a := genExpr slot l false g
    match o with
    | .or | .and =>
      let b := genExpr slot r false a.2.inc
      (a.1 ++ (.ins (.push rax) :: (b.1 ++ [.ins (.mov rax rbx), .ins (.pop .rax),
        .ins (.alu o.alu rbx .rax)])), b.2.dec)
    | .gt | .ge | .lt | .le | .eq =>
      let b := genExpr slot r false a.2.inc
      (a.1 ++ (untagAs l.ty.kind .rax ++ (.ins (.push rax) :: (b.1 ++ (untagAs r.ty.kind .rax ++
        [.ins (.mov rax rbx), .ins (.pop .rax), .ins (.cmp rbx .rax), .ins (.set o.cond),
         .ins (.alu .and (.imm 1) .rax)])))), b.2.dec)
    | .bleft | .bright =>
      let b := genExpr slot r false a.2.inc
      (a.1 ++ (untagAs l.ty.kind .rax ++ (.ins (.push rax) :: (b.1 ++ (untagAs r.ty.kind .rax ++
        (.ins (.mov rax (.reg .rcx)) :: .ins (.pop .rax) ::
         .ins (if o = .bleft then .shl .cl .rax else .sar .cl .rax) :: tagAs t.kind .rax))))), b.2.dec)
    | .div =>
      let b := genExpr slot r false a.2.inc
      (a.1 ++ (untagAs l.ty.kind .rax ++ (.ins (.push rax) :: (b.1 ++ (untagAs r.ty.kind .rax ++
        (.ins (.mov rax rbx) :: .ins (.pop .rax) :: .ins .cqo :: .ins (.idiv .rbx) ::
         tagAs t.kind .rax))))), b.2.dec)
    | _ =>
      let b := genExpr slot r false a.2.inc
      (a.1 ++ (untagAs l.ty.kind .rax ++ (.ins (.push rax) :: (b.1 ++ (untagAs r.ty.kind .rax ++
        (.ins (.mov rax rbx) :: .ins (.pop .rax) :: .ins (.alu o.alu rbx .rax) ::
         tagAs t.kind .rax))))), b.2.dec)
  | .un o _ e, _, g =>
    let a := genExpr slot e false g
    match o with
    | .not => (a.1 ++ [.ins (.not .rax), .ins (.alu .and (.imm 1) .rax)], a.2)
    | .bnot => (a.1 ++ (.ins (.not .rax) ::
        (if e.ty.kind = .integer then [.ins (.alu .or (.imm 1) .rax)] else [.panic])), a.2)
    | .neg => (a.1 ++ (untagAs e.ty.kind .rax ++ (.ins (.neg .rax) :: tagAs e.ty.kind .rax)), a.2)
  | .tern _ c x y, _, g =>
    let a := genExpr slot c false g
    let els := Label.loc "else" a.2.lbl
    let exit := Label.loc "exit" (a.2.lbl + 1)
    let b := genExpr slot x false { a.2 with lbl := a.2.lbl + 2 }
    let d := genExpr slot y false b.2
    (a.1 ++ (.flush :: .flush :: .ins (.cmp (.imm 1) .rax) :: .ins (.jcc .ne els) ::
      (b.1 ++ (.ins (.jmp exit) :: .label els :: (d.1 ++ [.label exit])))), d.2)
  | .arrLit _ e, _, g => genExpr slot e false g
  | .callFn f fi args, _, g =>
    let s := spill g
    let a := genArgs slot fi args 0 s.2
    let z := finishCall fi (.call f) false a.2
    (s.1 ++ (a.1 ++ z.1), z.2)
  | .callVar x fi args, _, g =>
    let s := spill g
    let a := genArgs slot fi args 0 s.2
    let z := finishCall fi (.callMem (slotOp (slot x))) false a.2
    (s.1 ++ (a.1 ++ (if slotOk (slot x) then z.1 else [.panic])), z.2)
  | .callExpr e fi args, _, g =>
    let c := genExpr slot e false g
    let s := spill c.2.inc
    let a := genArgs slot fi args 0 s.2
    let z := finishCall fi (.callReg .rax) true a.2
    (c.1 ++ (.ins (.push rax) :: (s.1 ++ (a.1 ++ z.1))), z.2)
  | .dot _ e off, addr, g =>
    let a := genExpr slot e false g
    let m : MemOp := { base := .rax, idx := some .rbx }
    (a.1 ++ [.ins (.push rax), .ins (.mov (.imm off) rax), .ins (.mov rax rbx), .ins (.pop .rax),
      .ins (if addr then .lea m .rax else .mov (.mem m) rax)], a.2)
  | .index _ e i, addr, g =>
    let a := genExpr slot e false g
    let b := genExpr slot i false a.2.inc
    let m : MemOp := { base := .rax, idx := some .rbx, scale := 8, disp := 8 }
    (a.1 ++ (.ins (.push rax) :: (b.1 ++ (untagAs i.ty.kind .rax ++
      (.ins (.mov rax rbx) :: .ins (.mov (.mem { base := .rsp }) rax) ::
       .ins (.mov (.mem { base := .rax }) rax) :: (untagAs .integer .rax ++
       [.ins (.cmp rax .rbx), .ins (.pop .rax), .ins (.jcc .ae .ioob),
        .ins (if addr then .lea m .rax else .mov (.mem m) rax)]))))), b.2.dec)

/-- The argument loop of `genFnCall` (`codegen.go` 592-610). -/
def genArgs (slot : Nat → Nat) (fi : FnInfo) : List Expr → Nat → GS → List Ev × GS
  | [], _, g => ([], g)
  | e :: es, i, g =>
    let a := genExpr slot e false g
    let c : List Ev :=
      match argRegs[i]? with
      | some r => .ins (.mov rax (.reg r)) :: rawConv fi e.ty.kind r
      | none => [.panic]
    let b := genArgs slot fi es (i + 1) (a.2.inUse e.ty)
    (a.1 ++ (c ++ b.1), b.2)
end

/-- `genFnExit` (`codegen.go` 406-418). -/
def genFnExit (skip : Bool) : List Ev :=
  .ins .leave ::
    ((if skip then [.ins .ret]
      else [.ins (.pop .rbx), .ins (.alu .add (.imm 8) .rbx), .ins (.jmpReg .rbx)]) ++ [.flush])

/-- `genReturnStmt` (`codegen.go` 563-572). -/
def genReturn (slot : Nat → Nat) (skip : Bool) (e : Option Expr) (g : GS) : List Ev × GS :=
  match e with
  | some e => let a := genExpr slot e false g; (a.1 ++ genFnExit skip, a.2)
  | none => (genFnExit skip, g)

mutual
/-- One iteration of `genStmtList` (`codegen.go` 470-491), `genWhileStmt` (495-510) and
`genAssignStmt` (512-533). -/
def genStmt (slot : Nat → Nat) (skip : Bool) : Stmt → GS → List Ev × GS
  | .ret e, g => genReturn slot skip e g
  | .ifs c, g =>
    let exit := Label.loc "if_end" g.lbl
    let a := genChain slot skip exit c { g with lbl := g.lbl + 1 }
    (.flush :: (a.1 ++ [.label exit]), a.2)
  | .asg decl l r, g =>
    let a := genExpr slot r false g
    let b := genExpr slot l true a.2.inc
    let g' := b.2.dec
    (a.1 ++ (.ins (.push rax) :: (b.1 ++ [.ins (.pop .rbx), .ins (.mov rbx (.mem { base := .rax }))])),
      if decl then
        match l with
        | .var x t => { g' with gc := g'.gc.add (8 * slot x) t }
        | _ => g'
      else g')
  | .loop c body, g =>
    let exit := Label.loc "while_end" g.lbl
    let start := Label.loc "while_start" (g.lbl + 1)
    let a := genExpr slot c false { g with lbl := g.lbl + 2 }
    let b := genStmts slot skip body a.2
    (.flush :: .flush :: .label start :: (a.1 ++ (.ins (.cmp (.imm 1) .rax) :: .ins (.jcc .ne exit) ::
      (b.1 ++ [.ins (.jmp start), .label exit]))), b.2)
  | .block body, g => genStmts slot skip body g
  | .expr e, g => genExpr slot e false g

/-- The loop of `genIfElseIfElseStmts` (`codegen.go` 540-559). -/
def genChain (slot : Nat → Nat) (skip : Bool) (exit : Label) : Chain → GS → List Ev × GS
  | .done, g => ([], g)
  | .els body, g => genStmts slot skip body g
  | .cond c body next, g =>
    let a := genExpr slot c false g
    let els := Label.loc "else" a.2.lbl
    let b := genStmts slot skip body { a.2 with lbl := a.2.lbl + 1 }
    let d := genChain slot skip exit next b.2
    (a.1 ++ (.flush :: .ins (.cmp (.imm 1) .rax) :: .ins (.jcc .ne els) ::
      (b.1 ++ (.ins (.jmp exit) :: .label els :: d.1))), d.2)

/-- `genStmtList` (`codegen.go` 468-493). -/
def genStmts (slot : Nat → Nat) (skip : Bool) : Stmts → GS → List Ev × GS
  | ss, g =>
    let a := genStmtsGo slot skip ss { g with gc := g.gc.openScope }
    (a.1, { a.2 with gc := a.2.gc.closeScope })

def genStmtsGo (slot : Nat → Nat) (skip : Bool) : Stmts → GS → List Ev × GS
  | .nil, g => ([], g)
  | .cons s ss, g =>
    let a := genStmt slot skip s g
    let b := genStmtsGo slot skip ss a.2
    (a.1 ++ b.1, b.2)
end

/-! ### Functions -/

mutual
/-- Variables of an expression in the order of `Walk` (`walk.go` 16-130). -/
def Expr.vars : Expr → List Nat
  | .int _ | .bool _ | .str _ | .typ _ | .fnRef _ _ _ => []
  | .var x _ => [x]
  | .bin _ _ l r => l.vars ++ r.vars
  | .un _ _ e => e.vars
  | .tern _ c a b => c.vars ++ (a.vars ++ b.vars)
  | .arrLit _ e => e.vars
  | .callFn _ _ args => varsL args
  | .callVar x _ args => x :: varsL args
  | .callExpr e _ args => e.vars ++ varsL args
  | .dot _ e _ => e.vars
  | .index _ a i => a.vars ++ i.vars
def varsL : List Expr → List Nat
  | [] => []
  | e :: es => e.vars ++ varsL es
end

mutual
def Stmt.vars : Stmt → List Nat
  | .ret (some e) => e.vars
  | .ret none => []
  | .ifs c => c.vars
  | .asg _ l r => l.vars ++ r.vars
  | .loop c b => c.vars ++ b.vars
  | .block b => b.vars
  | .expr e => e.vars
def Chain.vars : Chain → List Nat
  | .done => []
  | .els b => b.vars
  | .cond c b n => c.vars ++ (b.vars ++ n.vars)
def Stmts.vars : Stmts → List Nat
  | .nil => []
  | .cons s ss => s.vars ++ ss.vars
end

inductive Body
  | block (ss : Stmts)
  | expr (e : Expr)
  /-- constructors: the tag of enum constructors, the description, the type id -/
  | cons (tag : Option Nat) (desc : String) (id : Nat)

def Body.vars : Body → List Nat
  | .block ss => ss.vars
  | .expr e => e.vars
  | .cons _ _ _ => []

/-- A function declaration.  `name` is its assembler name, `retNothing` says that it returns nothing,
`skip` that it has the attribute `ExtRet`. -/
structure FnDef where
  name : String
  params : List (Nat × TyR)
  body : Body
  retNothing : Bool := false
  skip : Bool := false

/-- Keep first occurrences (a symbol gets its slot when it is first seen, `codegen.go` 160-166). -/
def addNew (acc : List Nat) : List Nat → List Nat
  | [] => acc
  | x :: xs => if x ∈ acc then addNew acc xs else addNew (acc ++ [x]) xs

/-- The symbols of a function in the order of their stack slots. -/
def FnDef.syms (fd : FnDef) : List Nat := addNew (fd.params.map (·.1)) fd.body.vars

/-- `sym.Addr / 8` (`codegen.go` 157-175). -/
def FnDef.slot (fd : FnDef) (x : Nat) : Nat := fd.syms.idxOf x + 1

/-- Stack slots reserved by the prologue (`codegen.go` 394-404). -/
def FnDef.frame (fd : FnDef) : Nat := fd.syms.length + fd.syms.length % 2

/-- Copying of the parameters to their slots (`codegen.go` 171-178). -/
def genParams : List (Nat × TyR) → Nat → GcS → List Ev × GcS
  | [], _, gc => ([], gc)
  | (_, t) :: ps, i, gc =>
    let r := genParams ps (i + 1) (gc.add (8 * (i + 1)) t)
    ((match argRegs[i]? with
      | some r => slotIns (i + 1) (.mov (.reg r) (.mem (slotOp (i + 1))))
      | none => .panic) :: r.1, r.2)

/-- `taggedIntOp` (`asm.go` 110-114). -/
def tagged (n : Nat) : Opd := .imm (2 * (n : Int) + 1)

/-- The field stores of `genConstructor` (`codegen.go` 456-463). -/
def genFields : Nat → Nat → Nat → List Ev
  | 0, _, _ => []
  | n + 1, i, off =>
    .ins (.mov (.mem (slotOp (i + 1))) rbx) :: .ins (.mov rbx (.mem { base := .rax, disp := off })) ::
      genFields n (i + 1) (off + 8)

/-- `genConstructor` (`codegen.go` 433-466). -/
def genCons (alloc : String) (n : Nat) (tag : Option Nat) (desc : String) (id : Nat) (g : GS) : List Ev :=
  .ins (.mov (tagged (8 * n + if tag.isSome then 8 else 0)) (.reg .rdi)) ::
  .flush :: .ins (.movabs (.str desc) .rsi) ::
  .ins (.movabs (.imm (2 * (id : Int) + 1)) .rdx) ::
  .ins (.call alloc) :: gcMap g ::
  ((match tag with
    | some t => .ins (.mov (tagged t) (.mem { base := .rax })) :: genFields n 0 8
    | none => genFields n 0 0) ++ genFnExit false)

/-- `IsReturnLastStmt` (`ast.go` 128-136). -/
def Stmts.retLast : Stmts → Bool
  | .nil => false
  | .cons (.ret _) .nil => true
  | .cons _ ss => ss.retLast

/-- `genFunc` (`codegen.go` 153-209).  The label counter is the only state kept between functions.
The data word before the label is the object header written by `fnStart` (`asm.go` 372-376). -/
def genFunc (alloc : String) (fd : FnDef) (lbl : Nat) : List Ev × Nat :=
  let p := genParams fd.params 0 {}
  let g : GS := { lbl := lbl, sp := fd.frame, gc := p.2 }
  let b : List Ev × GS :=
    match fd.body with
    | .cons tag desc id => (genCons alloc fd.params.length tag desc id g, g)
    | .block ss =>
      let a := genStmts fd.slot fd.skip ss g
      (a.1 ++ (if fd.retNothing && !ss.retLast then genFnExit fd.skip else []), a.2)
    | .expr e => genReturn fd.slot fd.skip (some e) g
  (.flush :: .data [] :: .label (.fn fd.name) :: .ins (.enter (fd.frame * 8)) ::
    (p.1 ++ (b.1 ++ [.flush])), b.2.lbl)

def genFuncs (alloc : String) : List FnDef → Nat → List Ev
  | [], _ => []
  | fd :: fds, lbl =>
    let r := genFunc alloc fd lbl
    r.1 ++ genFuncs alloc fds r.2

/-- `genIoobTrampoline` (`codegen.go` 420-431). -/
def genIoob (ioob : String) : List Ev :=
  [.flush, .label .ioob, .ins (.alu .and (.imm (-16)) .rsp), .ins (.mov rbx (.reg .rdi))] ++
  (tagAs .integer .rdi ++
   [.ins (.mov (.mem { base := .rax }) (.reg .rsi)), .ins (.call ioob), .flush])

/-- `codegen` (`codegen.go` 100-151), without the assembly helpers, which are treated as external
functions. -/
def genProg (alloc ioob : String) (fds : List FnDef) : List Ev :=
  genFuncs alloc fds 0 ++ genIoob ioob

end Clara.Gen
