import Verif.Gen.Top
/-
A copy of the statement generator without well-founded recursion, equal to the model, so that the kernel
can evaluate it on concrete programs; and conditions of `bump_ctx` in a form that is easy to evaluate.
-/
namespace Clara.Gen

mutual
def cStmt (slot : Nat → Nat) (skip : Bool) : Stmt → GS → List Ev × GS
  | .ret e, g => genReturn slot skip e g
  | .ifs c, g =>
    let a := cChain slot skip (.loc "if_end" g.lbl) c { g with lbl := g.lbl + 1 }
    (.flush :: (a.1 ++ [.label (.loc "if_end" g.lbl)]), a.2)
  | .asg decl l r, g =>
    let a := genExpr slot r false g
    let b := genExpr slot l true a.2.inc
    (a.1 ++ (.ins (.push rax) :: (b.1 ++ [.ins (.pop .rbx), .ins (.mov rbx (.mem { base := .rax }))])),
      if decl then
        match l with
        | .var x t => { b.2.dec with gc := b.2.dec.gc.add (8 * slot x) t }
        | _ => b.2.dec
      else b.2.dec)
  | .loop c body, g =>
    let a := genExpr slot c false { g with lbl := g.lbl + 2 }
    let b := cStmts slot skip body { a.2 with gc := a.2.gc.openScope }
    (.flush :: .flush :: .label (.loc "while_start" (g.lbl + 1)) :: (a.1 ++ (.ins (.cmp (.imm 1) .rax) ::
      .ins (.jcc .ne (.loc "while_end" g.lbl)) ::
      (b.1 ++ [.ins (.jmp (.loc "while_start" (g.lbl + 1))), .label (.loc "while_end" g.lbl)]))),
      { b.2 with gc := b.2.gc.closeScope })
  | .block body, g =>
    let b := cStmts slot skip body { g with gc := g.gc.openScope }
    (b.1, { b.2 with gc := b.2.gc.closeScope })
  | .expr e, g => genExpr slot e false g
def cChain (slot : Nat → Nat) (skip : Bool) (exit : Label) : Chain → GS → List Ev × GS
  | .done, g => ([], g)
  | .els body, g =>
    let b := cStmts slot skip body { g with gc := g.gc.openScope }
    (b.1, { b.2 with gc := b.2.gc.closeScope })
  | .cond c body next, g =>
    let a := genExpr slot c false g
    let b := cStmts slot skip body { a.2 with lbl := a.2.lbl + 1, gc := a.2.gc.openScope }
    let d := cChain slot skip exit next { b.2 with gc := b.2.gc.closeScope }
    (a.1 ++ (.flush :: .ins (.cmp (.imm 1) .rax) :: .ins (.jcc .ne (.loc "else" a.2.lbl)) ::
      (b.1 ++ (.ins (.jmp exit) :: .label (.loc "else" a.2.lbl) :: d.1))), d.2)
def cStmts (slot : Nat → Nat) (skip : Bool) : Stmts → GS → List Ev × GS
  | .nil, g => ([], g)
  | .cons s ss, g =>
    let a := cStmt slot skip s g
    let b := cStmts slot skip ss a.2
    (a.1 ++ b.1, b.2)
end

mutual
theorem cStmt_eq (slot : Nat → Nat) (skip : Bool) (s : Stmt) (g : GS) : cStmt slot skip s g = genStmt slot skip s g := by
  cases s with
  | ret e => simp only [cStmt, genStmt]
  | ifs c => simp only [cStmt, genStmt, cChain_eq]
  | asg d l r => cases l <;> simp only [cStmt, genStmt]
  | loop c b => simp only [cStmt, genStmt, cStmts_eq, genStmts]
  | block b => simp only [cStmt, genStmt, cStmts_eq, genStmts]
  | expr e => simp only [cStmt, genStmt]
theorem cChain_eq (slot : Nat → Nat) (skip : Bool) (exit : Label) (c : Chain) (g : GS) :
    cChain slot skip exit c g = genChain slot skip exit c g := by
  cases c with
  | done => simp only [cChain, genChain]
  | els b => simp only [cChain, genChain, cStmts_eq, genStmts]
  | cond c b n => simp only [cChain, genChain, cStmts_eq, cChain_eq, genStmts]
theorem cStmts_eq (slot : Nat → Nat) (skip : Bool) (s : Stmts) (g : GS) :
    cStmts slot skip s g = genStmtsGo slot skip s g := by
  cases s with
  | nil => simp only [cStmts, genStmtsGo]
  | cons s ss => simp only [cStmts, genStmtsGo, cStmt_eq, cStmts_eq]
end

def cFunc (alloc : String) (fd : FnDef) (lbl : Nat) : List Ev × Nat :=
  let p := genParams fd.params 0 {}
  let g : GS := { lbl := lbl, sp := fd.frame, gc := p.2 }
  let b : List Ev × GS :=
    match fd.body with
    | .cons tag desc id => (genCons alloc fd.params.length tag desc id g, g)
    | .block ss =>
      let a := cStmts fd.slot fd.skip ss { g with gc := g.gc.openScope }
      (a.1 ++ (if fd.retNothing && !ss.retLast then genFnExit fd.skip else []),
        { a.2 with gc := a.2.gc.closeScope })
    | .expr e => genReturn fd.slot fd.skip (some e) g
  (.flush :: .data [] :: .label (.fn fd.name) :: .ins (.enter (fd.frame * 8)) ::
    (p.1 ++ (b.1 ++ [.flush])), b.2.lbl)

theorem cFunc_eq (alloc : String) (fd : FnDef) (lbl : Nat) : cFunc alloc fd lbl = genFunc alloc fd lbl := by
  unfold cFunc genFunc
  cases fd.body <;> simp only [cStmts_eq, genStmts]

def cFuncs (alloc : String) : List FnDef → Nat → List Ev
  | [], _ => []
  | fd :: fds, lbl => (cFunc alloc fd lbl).1 ++ cFuncs alloc fds (cFunc alloc fd lbl).2

theorem cFuncs_eq (alloc : String) (fds : List FnDef) (lbl : Nat) : cFuncs alloc fds lbl = genFuncs alloc fds lbl := by
  induction fds generalizing lbl with
  | nil => rfl
  | cons fd fds ih => simp only [cFuncs, genFuncs, cFunc_eq, ih]

def cProg (alloc ioob : String) (fds : List FnDef) : List Ev := cFuncs alloc fds 0 ++ genIoob ioob

theorem cProg_eq (alloc ioob : String) (fds : List FnDef) : cProg alloc ioob fds = genProg alloc ioob fds := by
  rw [cProg, genProg, cFuncs_eq]

/-- `bump_ctx` with conditions that can be evaluated. -/
theorem bump_ctx' {opt : Bool} {alloc ioob : String} {fns : List FnDef} (str : String → Word)
    {lim top : Nat} (hn : (fns.map (·.name)).Nodup) (ha : ∀ fd ∈ fns, fd.name ≠ alloc)
    (hp : Ev.panic ∉ cProg alloc ioob fns)
    (hlen : (cProg alloc ioob fns).length < 2 ^ 50) (htop : top ≤ 2 ^ 64)
    (hok : ∀ fd ∈ fns, fd.body.ok = true ∧ (fd.params.map (·.1)).Nodup) :
    Ctx (bumpProg opt alloc ioob fns str lim) (bumpImage opt alloc ioob fns str)
      (genProg alloc ioob fns) lim top := by
  rw [cProg_eq] at hp hlen
  refine bump_ctx str hn ?_ hp hlen htop hok
  intro h
  rcases genProg_label h with h | ⟨fd, h1, h2⟩ | ⟨s, n, h, -⟩
  · cases h
  · injection h2 with h2
    exact ha fd h1 h2.symm
  · cases h

end Clara.Gen
