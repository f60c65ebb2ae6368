import Verif.Gen.Peep
/-
Which instructions exist: every instruction that the code generator writes has an encoding.
-/
namespace Clara.Gen

/-! ### What the processor has

From the manual: forms of operands, sizes of constants. -/

def fits32 (i : Int) : Bool := -2147483648 ≤ i && i ≤ 2147483647
def fits64 (i : Int) : Bool := -9223372036854775808 ≤ i && i ≤ 9223372036854775807

/-- `disp(base, idx, scale)`: `rsp` is no index, the scale is a power of two up to 8, the displacement has 32 bits.
(A scale without index register means nothing.) -/
def MemOp.valid (a : MemOp) : Bool :=
  fits32 a.disp && match a.idx with
    | none => a.scale == 1
    | some r => r != .rsp && (a.scale == 1 || a.scale == 2 || a.scale == 4 || a.scale == 8)

/-- Sources: constants are 32 bits, extended with the sign. -/
def Opd.source : Opd → Bool
  | .imm i => fits32 i
  | .reg _ => true
  | .mem a => a.valid

/-- Instructions with an encoding; of the conditions only those with a name in `asm.go` 290-324. -/
def Ins.valid : Ins → Bool
  | .mov _ (.imm _) => false
  | .mov (.mem _) (.mem _) => false
  | .mov s d => s.source && d.source
  | .movabs (.imm i) _ => fits64 i
  | .movabs _ _ => true
  | .push s => s.source
  | .pop _ | .not _ | .neg _ | .idiv _ | .cqo | .leave | .ret => true
  | .lea a _ => a.valid
  | .alu _ s _ => s.source
  | .cmp s _ => s.source
  | .shl (.imm n) _ | .sar (.imm n) _ => n < 64
  | .shl .cl r | .sar .cl r => r != .rcx
  | .set c => c == .e || c == .g || c == .ge || c == .l || c == .le
  | .jmp _ | .jmpReg _ | .call _ | .callReg _ => true
  | .jcc c _ => c == .e || c == .ne || c == .ae
  | .callMem a => a.valid
  | .enter n => n < 65536

/-! ### Constants of programs -/

mutual
/-- Numbers have 64 bits (`ParseInt`, C27), and fields are less than 2^31 bytes into their object. -/
def Expr.small : Expr → Bool
  | .int i => fits64 i
  | .bool _ | .str _ | .typ _ | .fnRef _ _ _ | .var _ _ => true
  | .bin _ _ l r => l.small && r.small
  | .un _ _ e => e.small
  | .tern _ c x y => c.small && (x.small && y.small)
  | .arrLit _ e => e.small
  | .callFn _ _ args => smallL args
  | .callVar _ _ args => smallL args
  | .callExpr e _ args => e.small && smallL args
  | .dot _ e off => decide (off ≤ 2147483647) && e.small
  | .index _ a i => a.small && i.small
def smallL : List Expr → Bool
  | [] => true
  | e :: es => e.small && smallL es
end

mutual
def Stmt.small : Stmt → Bool
  | .ret (some e) => e.small
  | .ret none => true
  | .ifs c => c.small
  | .asg _ l r => l.small && r.small
  | .loop c b => c.small && b.small
  | .block b => b.small
  | .expr e => e.small
def Chain.small : Chain → Bool
  | .done => true
  | .els b => b.small
  | .cond c b n => c.small && (b.small && n.small)
def Stmts.small : Stmts → Bool
  | .nil => true
  | .cons s ss => s.small && ss.small
end

/-- Constructors: tags below 2^30, type ids below 2^62. -/
def Body.small : Body → Bool
  | .block ss => ss.small
  | .expr e => e.small
  | .cons tag _ id => decide (tag.getD 0 < 1073741824) && decide (id < 4611686018427387904)

/-! ### The generator -/

def Ev.enc : Ev → Bool
  | .ins i => i.valid
  | _ => true

def encL (c : List Ev) : Bool := c.all Ev.enc

theorem encL_append (a b : List Ev) : encL (a ++ b) = (encL a && encL b) := List.all_append
theorem encL_cons (e : Ev) (a : List Ev) : encL (e :: a) = (e.enc && encL a) := rfl
theorem encL_nil : encL [] = true := rfl

theorem encL_tag (t : TK) (r : Reg) : encL (tagAs t r) = true := by
  unfold tagAs; split <;> rfl
theorem encL_untag (t : TK) (r : Reg) : encL (untagAs t r) = true := by
  unfold untagAs; split <;> rfl

theorem slotOp_valid {s : Nat} (h : slotOk s = true) : (slotOp s).valid = true := by
  simp only [slotOk, decide_eq_true_eq] at h
  simp only [slotOp, MemOp.valid, fits32, Bool.and_eq_true]
  refine ⟨⟨decide_eq_true ?_, decide_eq_true ?_⟩, rfl⟩ <;> omega

theorem slotIns_ok {s : Nat} {i : Ins} (h : (slotOp s).valid = true → i.valid = true) : (slotIns s i).enc = true := by
  unfold slotIns
  split
  · rename_i hs; exact h (slotOp_valid hs)
  · rfl

theorem encL_spillAux (ts : List TyR) (i : Nat) (g : GS) : encL (spillAux ts i g).1 = true := by
  induction ts generalizing i with
  | nil => rfl
  | cons t ts ih =>
    simp only [spillAux, encL_append, ih, Bool.true_and, encL_cons, encL_nil, Bool.and_true]
    split <;> rfl

theorem encL_spill (g : GS) : encL (spill g).1 = true := by
  unfold spill
  split
  · rfl
  · exact encL_spillAux _ _ _

theorem encL_restoreAux (ts : List TyR) (i : Nat) (g : GS) : encL (restoreAux ts i g).1 = true := by
  induction ts generalizing i g with
  | nil => rfl
  | cons t ts ih =>
    simp only [restoreAux]
    cases g.gc.remove (g.sp * 8) t with
    | none =>
      simp only [encL_cons, ih, Bool.and_true]
      split <;> rfl
    | some gc =>
      simp only [encL_cons, ih, Bool.and_true]
      split <;> rfl

theorem encL_restore (g : GS) : encL (restoreRegs g).1 = true := by
  unfold restoreRegs
  split
  · exact encL_restoreAux _ _ _
  · rfl

theorem encL_finish (fi : FnInfo) {t : Ins} (ht : t.valid = true) (ind : Bool) (g : GS) : encL (finishCall fi t ind g).1 = true := by
  simp only [finishCall, encL_append, encL_cons, encL_restore, Bool.and_true, Bool.and_eq_true]
  refine ⟨by split <;> rfl, by split <;> rfl, ?_, ht, ?_, by split <;> rfl, ?_⟩
  · generalize (if ind = true then g.dec else g) = g1
    split <;> rfl
  · split
    · exact encL_tag _ _
    · rfl
  · generalize (if ind = true then g.dec else g) = g1
    split <;> rfl

theorem encL_rawConv (fi : FnInfo) (t : TK) (r : Reg) : encL (rawConv fi t r) = true := by
  unfold rawConv
  split
  · split <;> first | exact encL_untag _ _ | rfl
  · rfl

theorem encL_int (i : Int) (h : fits64 i = true) :
    (Ev.ins (if i > 2147483647 ∨ i < -2147483648 then .movabs (.imm i) .rax else .mov (.imm i) rax)).enc = true := by
  split
  · exact h
  · rename_i hn
    simp only [Ev.enc, rax, Ins.valid, Opd.source, fits32, Bool.and_true, Bool.and_eq_true, decide_eq_true_eq]
    omega

mutual
theorem encL_expr (slot : Nat → Nat) (e : Expr) (b : Bool) (g : GS) (h : e.small = true) : encL (genExpr slot e b g).1 = true := by
  match e with
  | .int i =>
    simp only [genExpr, encL_cons, encL_tag, Bool.and_true]
    exact encL_int i h
  | .bool b => cases b <;> rfl
  | .str _ => rfl
  | .typ _ => rfl
  | .var x t =>
    simp only [genExpr, encL_cons, encL_nil, Bool.and_true]
    refine slotIns_ok fun hs => ?_
    split
    · exact hs
    · simp [Ins.valid, rax, Opd.source, hs]
  | .fnRef f x _ => cases x <;> rfl
  | .bin o t l r =>
    simp only [Expr.small, Bool.and_eq_true] at h
    have l1 := encL_expr slot l false g h.1
    have r1 := encL_expr slot r false (genExpr slot l false g).2.inc h.2
    cases o <;> simp only [genExpr, encL_append, encL_cons, encL_nil, l1, r1, encL_untag, encL_tag, Bool.true_and, Bool.and_true] <;> rfl
  | .un o t e =>
    simp only [Expr.small] at h
    have l1 := encL_expr slot e false g h
    cases o <;> simp only [genExpr, encL_append, encL_cons, encL_nil, l1, encL_untag, encL_tag, Bool.true_and, Bool.and_true]
    · rfl
    · split <;> rfl
    · rfl
  | .tern t c x y =>
    simp only [Expr.small, Bool.and_eq_true] at h
    have a1 := encL_expr slot c false g h.1
    have b1 := encL_expr slot x false { (genExpr slot c false g).2 with lbl := (genExpr slot c false g).2.lbl + 2 } h.2.1
    have c1 := encL_expr slot y false (genExpr slot x false { (genExpr slot c false g).2 with lbl := (genExpr slot c false g).2.lbl + 2 }).2 h.2.2
    simp only [genExpr, encL_append, encL_cons, encL_nil, a1, b1, c1, Bool.true_and, Bool.and_true]
    rfl
  | .arrLit t e =>
    simp only [Expr.small] at h
    rw [genExpr]
    exact encL_expr slot e false g h
  | .callFn f fi args =>
    simp only [Expr.small] at h
    have a1 := encL_args slot fi args 0 (spill g).2 h
    simp only [genExpr, encL_append, encL_spill, a1, Bool.true_and]
    exact encL_finish fi rfl _ _
  | .callVar x fi args =>
    simp only [Expr.small] at h
    have a1 := encL_args slot fi args 0 (spill g).2 h
    simp only [genExpr, encL_append, encL_spill, a1, Bool.true_and]
    split
    · rename_i hs
      exact encL_finish fi (t := .callMem (slotOp (slot x))) (slotOp_valid hs) _ _
    · rfl
  | .callExpr e fi args =>
    simp only [Expr.small, Bool.and_eq_true] at h
    have e1 := encL_expr slot e false g h.1
    have a1 := encL_args slot fi args 0 (spill (genExpr slot e false g).2.inc).2 h.2
    simp only [genExpr, encL_append, encL_cons, encL_spill, e1, a1, Bool.true_and]
    exact encL_finish fi rfl _ _
  | .dot t e off =>
    simp only [Expr.small, Bool.and_eq_true, decide_eq_true_eq] at h
    have l1 := encL_expr slot e false g h.2
    have hv : (Ev.ins (.mov (.imm (off : Int)) rax)).enc = true := by
      simp only [Ev.enc, rax, Ins.valid, Opd.source, fits32, Bool.and_true, Bool.and_eq_true, decide_eq_true_eq]
      omega
    simp only [genExpr, encL_append, encL_cons, encL_nil, l1, hv, Bool.true_and, Bool.and_true]
    cases b <;> rfl
  | .index t a i =>
    simp only [Expr.small, Bool.and_eq_true] at h
    have l1 := encL_expr slot a false g h.1
    have r1 := encL_expr slot i false (genExpr slot a false g).2.inc h.2
    simp only [genExpr, encL_append, encL_cons, encL_nil, l1, r1, encL_untag, Bool.true_and, Bool.and_true]
    cases b <;> rfl
termination_by (sizeOf e, 0)

theorem encL_args (slot : Nat → Nat) (fi : FnInfo) (es : List Expr) (i : Nat) (g : GS) (h : smallL es = true) :
    encL (genArgs slot fi es i g).1 = true := by
  match es with
  | [] => rfl
  | e :: es =>
    simp only [smallL, Bool.and_eq_true] at h
    have a1 := encL_expr slot e false g h.1
    have b1 := encL_args slot fi es (i + 1) ((genExpr slot e false g).2.inUse e.ty) h.2
    simp only [genArgs, encL_append, a1, b1, Bool.true_and, Bool.and_true]
    split
    · simp only [encL_cons, encL_rawConv, Bool.and_true]; rfl
    · rfl
termination_by (sizeOf es, 0)
end

theorem encL_exit (skip : Bool) : encL (genFnExit skip) = true := by cases skip <;> rfl

mutual
theorem encL_stmt (slot : Nat → Nat) (skip : Bool) (s : Stmt) (g : GS) (h : s.small = true) : encL (genStmt slot skip s g).1 = true := by
  match s with
  | .ret none => rw [genStmt]; exact encL_exit skip
  | .ret (some e) =>
    simp only [Stmt.small] at h
    rw [genStmt]
    simp only [genReturn, encL_append, encL_expr slot e false g h, encL_exit, Bool.and_self]
  | .ifs c =>
    simp only [Stmt.small] at h
    rw [genStmt]
    simp only [encL_cons, encL_append, encL_chain slot skip _ c _ h, encL_nil, Bool.and_true, Bool.true_and]
    rfl
  | .asg decl l r =>
    simp only [Stmt.small, Bool.and_eq_true] at h
    have a1 := encL_expr slot r false g h.2
    have b1 := encL_expr slot l true (genExpr slot r false g).2.inc h.1
    rw [genStmt.eq_def]
    simp only [encL_append, encL_cons, encL_nil, a1, b1, Bool.true_and]
    rfl
  | .loop c b =>
    simp only [Stmt.small, Bool.and_eq_true] at h
    rw [genStmt]
    simp only [encL_append, encL_cons, encL_nil, encL_expr slot c _ _ h.1, encL_stmts slot skip b _ h.2, Bool.true_and, Bool.and_true]
    rfl
  | .block b =>
    rw [genStmt]
    exact encL_stmts slot skip b g h
  | .expr e =>
    rw [genStmt]
    exact encL_expr slot e false g h
termination_by (sizeOf s, 0)

theorem encL_chain (slot : Nat → Nat) (skip : Bool) (exit : Label) (c : Chain) (g : GS) (h : c.small = true) :
    encL (genChain slot skip exit c g).1 = true := by
  match c with
  | .done => rw [genChain]; rfl
  | .els b => rw [genChain]; exact encL_stmts slot skip b g h
  | .cond c b n =>
    simp only [Chain.small, Bool.and_eq_true] at h
    rw [genChain]
    simp only [encL_append, encL_cons, encL_expr slot c _ _ h.1, encL_stmts slot skip b _ h.2.1, encL_chain slot skip exit n _ h.2.2,
      Bool.true_and, Bool.and_true]
    rfl
termination_by (sizeOf c, 0)

theorem encL_stmts (slot : Nat → Nat) (skip : Bool) (ss : Stmts) (g : GS) (h : ss.small = true) : encL (genStmts slot skip ss g).1 = true := by
  rw [genStmts]
  exact encL_go slot skip ss _ h
termination_by (sizeOf ss, 1)

theorem encL_go (slot : Nat → Nat) (skip : Bool) (ss : Stmts) (g : GS) (h : ss.small = true) : encL (genStmtsGo slot skip ss g).1 = true := by
  match ss with
  | .nil => rw [genStmtsGo]; rfl
  | .cons s ss =>
    simp only [Stmts.small, Bool.and_eq_true] at h
    rw [genStmtsGo]
    simp only [encL_append, encL_stmt slot skip s _ h.1, encL_go slot skip ss _ h.2, Bool.and_self]
termination_by (sizeOf ss, 0)
end

/-! ### Frames: a function that is generated without panic has few variables -/

mutual
theorem reach_expr (slot : Nat → Nat) (e : Expr) (b : Bool) (g : GS) (h : Ev.panic ∉ (genExpr slot e b g).1) :
    ∀ x ∈ e.vars, slotOk (slot x) = true := by
  match e with
  | .int _ | .bool _ | .str _ | .typ _ | .fnRef _ _ _ => simp [Expr.vars]
  | .var y t =>
    intro x hx
    simp only [Expr.vars, List.mem_singleton] at hx
    subst hx
    simp only [genExpr, slotIns, List.mem_singleton] at h
    by_cases hs : slotOk (slot x) = true
    · exact hs
    · simp [hs] at h
  | .bin o t l r =>
    have l1 := reach_expr slot l false g
    have r1 := reach_expr slot r false (genExpr slot l false g).2.inc
    intro x hx
    simp only [Expr.vars, List.mem_append] at hx
    have : Ev.panic ∉ (genExpr slot l false g).1 ∧ Ev.panic ∉ (genExpr slot r false (genExpr slot l false g).2.inc).1 := by
      cases o <;> simp only [genExpr, List.mem_append, List.mem_cons, not_or] at h <;> grind
    rcases hx with hx | hx
    · exact l1 this.1 x hx
    · exact r1 this.2 x hx
  | .un o t e =>
    refine reach_expr slot e false g ?_
    cases o <;> simp only [genExpr, List.mem_append, not_or] at h <;> exact h.1
  | .tern t c x y =>
    simp only [genExpr, List.mem_append, List.mem_cons, not_or] at h
    have a1 := reach_expr slot c false g h.1
    have b1 := reach_expr slot x false _ h.2.2.2.2.2.1
    have c1 := reach_expr slot y false _ h.2.2.2.2.2.2.2.2.1
    intro z hz
    simp only [Expr.vars, List.mem_append] at hz
    rcases hz with hz | hz | hz
    · exact a1 z hz
    · exact b1 z hz
    · exact c1 z hz
  | .arrLit t e =>
    rw [genExpr] at h
    exact reach_expr slot e false g h
  | .callFn f fi args =>
    simp only [genExpr, List.mem_append, not_or] at h
    exact reach_args slot fi args 0 _ h.2.1
  | .callVar y fi args =>
    simp only [genExpr, List.mem_append, not_or] at h
    have a1 := reach_args slot fi args 0 _ h.2.1
    intro x hx
    simp only [Expr.vars, List.mem_cons] at hx
    rcases hx with rfl | hx
    · by_cases hs : slotOk (slot x) = true
      · exact hs
      · have := h.2.2; simp [hs] at this
    · exact a1 x hx
  | .callExpr e fi args =>
    simp only [genExpr, List.mem_append, List.mem_cons, not_or] at h
    have e1 := reach_expr slot e false g h.1
    have a1 := reach_args slot fi args 0 _ h.2.2.2.1
    intro x hx
    simp only [Expr.vars, List.mem_append] at hx
    rcases hx with hx | hx
    · exact e1 x hx
    · exact a1 x hx
  | .dot t e off =>
    simp only [genExpr, List.mem_append, not_or] at h
    exact reach_expr slot e false g h.1
  | .index t a i =>
    simp only [genExpr, List.mem_append, List.mem_cons, not_or] at h
    have a1 := reach_expr slot a false g h.1
    have b1 := reach_expr slot i false _ h.2.2.1
    intro x hx
    simp only [Expr.vars, List.mem_append] at hx
    rcases hx with hx | hx
    · exact a1 x hx
    · exact b1 x hx
termination_by (sizeOf e, 0)

theorem reach_args (slot : Nat → Nat) (fi : FnInfo) (es : List Expr) (i : Nat) (g : GS) (h : Ev.panic ∉ (genArgs slot fi es i g).1) :
    ∀ x ∈ varsL es, slotOk (slot x) = true := by
  match es with
  | [] => simp [varsL]
  | e :: es =>
    simp only [genArgs, List.mem_append, not_or] at h
    have a1 := reach_expr slot e false g h.1
    have b1 := reach_args slot fi es (i + 1) _ h.2.2
    intro x hx
    simp only [varsL, List.mem_append] at hx
    rcases hx with hx | hx
    · exact a1 x hx
    · exact b1 x hx
termination_by (sizeOf es, 0)
end

mutual
theorem reach_stmt (slot : Nat → Nat) (skip : Bool) (s : Stmt) (g : GS) (h : Ev.panic ∉ (genStmt slot skip s g).1) :
    ∀ x ∈ s.vars, slotOk (slot x) = true := by
  match s with
  | .ret none => simp [Stmt.vars]
  | .ret (some e) =>
    rw [genStmt] at h
    simp only [genReturn, List.mem_append, not_or] at h
    exact reach_expr slot e false g h.1
  | .ifs c =>
    rw [genStmt] at h
    simp only [List.mem_cons, List.mem_append, not_or] at h
    exact reach_chain slot skip _ c _ h.2.1
  | .asg decl l r =>
    rw [genStmt.eq_def] at h
    simp only [List.mem_append, List.mem_cons, not_or] at h
    have a1 := reach_expr slot r false g h.1
    have b1 := reach_expr slot l true _ h.2.2.1
    intro x hx
    simp only [Stmt.vars, List.mem_append] at hx
    rcases hx with hx | hx
    · exact b1 x hx
    · exact a1 x hx
  | .loop c b =>
    rw [genStmt] at h
    simp only [List.mem_append, List.mem_cons, not_or] at h
    have a1 := reach_expr slot c false _ h.2.2.2.1
    have b1 := reach_stmts slot skip b _ h.2.2.2.2.2.2.1
    intro x hx
    simp only [Stmt.vars, List.mem_append] at hx
    rcases hx with hx | hx
    · exact a1 x hx
    · exact b1 x hx
  | .block b =>
    rw [genStmt] at h
    exact reach_stmts slot skip b g h
  | .expr e =>
    rw [genStmt] at h
    exact reach_expr slot e false g h
termination_by (sizeOf s, 0)

theorem reach_chain (slot : Nat → Nat) (skip : Bool) (exit : Label) (c : Chain) (g : GS) (h : Ev.panic ∉ (genChain slot skip exit c g).1) :
    ∀ x ∈ c.vars, slotOk (slot x) = true := by
  match c with
  | .done => simp [Chain.vars]
  | .els b =>
    rw [genChain] at h
    exact reach_stmts slot skip b g h
  | .cond c b n =>
    rw [genChain] at h
    simp only [List.mem_append, List.mem_cons, not_or] at h
    have a1 := reach_expr slot c false _ h.1
    have b1 := reach_stmts slot skip b _ h.2.2.2.2.1
    have c1 := reach_chain slot skip exit n _ h.2.2.2.2.2.2.2
    intro x hx
    simp only [Chain.vars, List.mem_append] at hx
    rcases hx with hx | hx | hx
    · exact a1 x hx
    · exact b1 x hx
    · exact c1 x hx
termination_by (sizeOf c, 0)

theorem reach_stmts (slot : Nat → Nat) (skip : Bool) (ss : Stmts) (g : GS) (h : Ev.panic ∉ (genStmts slot skip ss g).1) :
    ∀ x ∈ ss.vars, slotOk (slot x) = true := by
  rw [genStmts] at h
  exact reach_go slot skip ss _ h
termination_by (sizeOf ss, 1)

theorem reach_go (slot : Nat → Nat) (skip : Bool) (ss : Stmts) (g : GS) (h : Ev.panic ∉ (genStmtsGo slot skip ss g).1) :
    ∀ x ∈ ss.vars, slotOk (slot x) = true := by
  match ss with
  | .nil => simp [Stmts.vars]
  | .cons s ss =>
    rw [genStmtsGo] at h
    simp only [List.mem_append, not_or] at h
    have a1 := reach_stmt slot skip s _ h.1
    have b1 := reach_go slot skip ss _ h.2
    intro x hx
    simp only [Stmts.vars, List.mem_append] at hx
    rcases hx with hx | hx
    · exact a1 x hx
    · exact b1 x hx
termination_by (sizeOf ss, 0)
end

theorem reach_params (ps : List (Nat × TyR)) (i : Nat) (gc : GcS) (h : Ev.panic ∉ (genParams ps i gc).1) : ps = [] ∨ i + ps.length ≤ 6 := by
  induction ps generalizing i gc with
  | nil => exact .inl rfl
  | cons p ps ih =>
    right
    simp only [genParams, List.mem_cons, not_or] at h
    have hi : i < 6 := by
      refine Nat.lt_of_not_le fun hle => ?_
      have : argRegs[i]? = none := by rw [List.getElem?_eq_none_iff]; exact hle
      rw [this] at h
      exact h.1 rfl
    rcases ih (i + 1) _ h.2 with rfl | h'
    · simp only [List.length_cons, List.length_nil]; omega
    · simp only [List.length_cons]; omega

theorem addNew_ext (acc xs : List Nat) : ∃ t, addNew acc xs = acc ++ t := by
  induction xs generalizing acc with
  | nil => exact ⟨[], (List.append_nil _).symm⟩
  | cons y ys ih =>
    rw [addNew]
    split
    · exact ih acc
    · obtain ⟨t, e⟩ := ih (acc ++ [y])
      exact ⟨[y] ++ t, by rw [e, List.append_assoc]⟩

/-- The variables after the first ones have their places. -/
theorem addNew_idx {acc xs : List Nat} {i x : Nat} (hi : acc.length ≤ i) (h : (addNew acc xs)[i]? = some x) :
    x ∈ xs ∧ (addNew acc xs).idxOf x = i := by
  induction xs generalizing acc with
  | nil =>
    rw [addNew, List.getElem?_eq_none hi] at h
    cases h
  | cons y ys ih =>
    rw [addNew] at h ⊢
    split at h
    · rename_i hy
      rw [if_pos hy]
      obtain ⟨a, b⟩ := ih hi h
      exact ⟨List.mem_cons_of_mem _ a, b⟩
    · rename_i hy
      rw [if_neg hy]
      by_cases hi' : i = acc.length
      · subst hi'
        obtain ⟨t, e⟩ := addNew_ext (acc ++ [y]) ys
        rw [e] at h ⊢
        rw [List.append_assoc, List.getElem?_append_right (Nat.le_refl _)] at h
        simp only [Nat.sub_self, List.singleton_append, List.getElem?_cons_zero, Option.some.injEq] at h
        subst h
        refine ⟨List.mem_cons_self, ?_⟩
        rw [List.append_assoc, List.idxOf_append, if_neg hy]
        simp
      · obtain ⟨a, b⟩ := ih (acc := acc ++ [y]) (by rw [List.length_append, List.length_singleton]; omega) h
        exact ⟨List.mem_cons_of_mem _ a, b⟩

/-! ### Functions and programs -/

theorem encL_params (ps : List (Nat × TyR)) (i : Nat) (gc : GcS) : encL (genParams ps i gc).1 = true := by
  induction ps generalizing i gc with
  | nil => rfl
  | cons p ps ih =>
    simp only [genParams, encL_cons, ih, Bool.and_true]
    split
    · exact slotIns_ok fun hs => by simp [Ins.valid, Opd.source, hs]
    · rfl

theorem encL_fields (n i off : Nat) (h1 : i + n ≤ 6) (h2 : off + 8 * n ≤ 64) : encL (genFields n i off) = true := by
  induction n generalizing i off with
  | zero => rfl
  | succ n ih =>
    have hs : (slotOp (i + 1)).valid = true := slotOp_valid (by simp only [slotOk, decide_eq_true_eq]; omega)
    have ho : ({ base := .rax, disp := (off : Int) } : MemOp).valid = true := by
      simp only [MemOp.valid, fits32, Bool.and_eq_true]
      refine ⟨⟨decide_eq_true ?_, decide_eq_true ?_⟩, rfl⟩ <;> omega
    simp only [genFields, encL_cons, ih (i + 1) (off + 8) (by omega) (by omega), Bool.and_true, Ev.enc, Ins.valid, rbx, Opd.source, hs, ho]

theorem tagged_source {n : Nat} (h : n < 1073741824) : (tagged n).source = true := by
  simp only [tagged, Opd.source, fits32, Bool.and_eq_true]
  refine ⟨decide_eq_true ?_, decide_eq_true ?_⟩ <;> omega

theorem mov_tagged {n : Nat} {d : Opd} (h : n < 1073741824) (hd : ∀ i, d ≠ .imm i) (hd' : d.source = true) :
    (Ins.mov (tagged n) d).valid = true := by
  cases d with
  | imm i => exact absurd rfl (hd i)
  | reg r => simp only [tagged, Ins.valid, Bool.and_eq_true]; exact ⟨tagged_source h, hd'⟩
  | mem a => simp only [tagged, Ins.valid, Bool.and_eq_true]; exact ⟨tagged_source h, hd'⟩

theorem encL_cons_fn (alloc : String) (n : Nat) (tag : Option Nat) (desc : String) (id : Nat) (g : GS) (hn : n ≤ 6)
    (h : (Body.cons tag desc id).small = true) : encL (genCons alloc n tag desc id g) = true := by
  simp only [Body.small, Bool.and_eq_true, decide_eq_true_eq] at h
  have h1 : (Ev.ins (.mov (tagged (8 * n + if tag.isSome then 8 else 0)) (.reg .rdi))).enc = true := by
    have hl : (8 * n + if tag.isSome then 8 else 0) ≤ 56 := by cases tag <;> simp <;> omega
    generalize (8 * n + if tag.isSome then 8 else 0) = k at hl
    rw [Ev.enc, mov_tagged (Nat.lt_of_le_of_lt hl (by omega)) (fun i => by simp) rfl]
  have h2 : (Ev.ins (.movabs (.imm (2 * (id : Int) + 1)) .rdx)).enc = true := by
    simp only [Ev.enc, Ins.valid, fits64, Bool.and_eq_true]
    refine ⟨decide_eq_true ?_, decide_eq_true ?_⟩ <;> omega
  have e1 : Ev.flush.enc = true := rfl
  have e2 : (Ev.ins (.movabs (.str desc) .rsi)).enc = true := rfl
  have e3 : (Ev.ins (.call alloc)).enc = true := rfl
  have e4 : (gcMap g).enc = true := rfl
  simp only [genCons, encL_cons, encL_append, h1, h2, e1, e2, e3, e4, encL_exit, Bool.true_and, Bool.and_true]
  cases tag with
  | none => exact encL_fields n 0 0 (by omega) (by omega)
  | some t =>
    simp only [encL_cons, encL_fields n 0 8 (by omega) (by omega), Bool.and_true]
    rw [Ev.enc, mov_tagged (by simpa using h.1) (by simp) (by decide)]

/-- The frame of a function that is generated without panic. -/
theorem frame_small (alloc : String) (fd : FnDef) (lbl : Nat) (h : Ev.panic ∉ (genFunc alloc fd lbl).1) : fd.syms.length ≤ 4096 := by
  simp only [genFunc, List.mem_cons, List.mem_append, not_or] at h
  obtain ⟨-, -, -, -, hp, hb, -⟩ := h
  have hps := reach_params _ _ _ hp
  have hvars : ∀ x ∈ fd.body.vars, slotOk (fd.slot x) = true := by
    cases hbd : fd.body with
    | cons tag desc id => simp [Body.vars]
    | block ss =>
      rw [hbd] at hb
      simp only [List.mem_append, not_or] at hb
      exact reach_stmts _ _ ss _ hb.1
    | expr e =>
      rw [hbd] at hb
      simp only [genReturn, List.mem_append, not_or] at hb
      exact reach_expr _ e _ _ hb.1
  refine Nat.le_of_not_lt fun hlt => ?_
  obtain ⟨hm, hi⟩ := addNew_idx (acc := fd.params.map (·.1)) (xs := fd.body.vars) (i := 4096) (x := fd.syms[4096]'hlt) (by
    rw [List.length_map]
    rcases hps with e | e
    · rw [e]; decide
    · omega) (List.getElem?_eq_getElem hlt)
  have := of_decide_eq_true (hvars _ hm)
  have hs : fd.slot (fd.syms[4096]'hlt) = 4096 + 1 := congrArg (· + 1) hi
  rw [hs] at this
  omega

theorem encL_func (alloc : String) (fd : FnDef) (lbl : Nat) (h : fd.body.small = true) (hp : Ev.panic ∉ (genFunc alloc fd lbl).1) :
    encL (genFunc alloc fd lbl).1 = true := by
  have hf := frame_small alloc fd lbl hp
  have he : (Ev.ins (.enter (fd.frame * 8))).enc = true := by
    refine decide_eq_true ?_
    unfold FnDef.frame
    omega
  have hps : fd.params.length ≤ 6 := by
    simp only [genFunc, List.mem_cons, List.mem_append, not_or] at hp
    rcases reach_params _ _ _ hp.2.2.2.2.1 with e | e
    · rw [e]; decide
    · omega
  have e1 : ∀ l, (Ev.label l).enc = true := fun _ => rfl
  have e2 : Ev.flush.enc = true := rfl
  have e3 : (Ev.data []).enc = true := rfl
  simp only [genFunc, encL_cons, encL_append, encL_nil, encL_params, he, e1, e2, e3, Bool.true_and, Bool.and_true]
  cases hbd : fd.body with
  | cons tag desc id =>
    rw [hbd] at h
    exact encL_cons_fn _ _ _ _ _ _ hps h
  | block ss =>
    rw [hbd] at h
    simp only [encL_append, encL_stmts _ _ ss _ h, Bool.true_and]
    split
    · exact encL_exit _
    · rfl
  | expr e =>
    rw [hbd] at h
    simp only [genReturn, encL_append, encL_expr _ e _ _ h, encL_exit, Bool.and_self]

theorem encL_funcs (alloc : String) (fds : List FnDef) (lbl : Nat) (h : ∀ fd ∈ fds, fd.body.small = true)
    (hp : Ev.panic ∉ genFuncs alloc fds lbl) : encL (genFuncs alloc fds lbl) = true := by
  induction fds generalizing lbl with
  | nil => rfl
  | cons fd fds ih =>
    simp only [genFuncs, List.mem_append, not_or] at hp
    simp only [genFuncs, encL_append, encL_func alloc fd lbl (h fd List.mem_cons_self) hp.1,
      ih _ (fun x hx => h x (List.mem_cons_of_mem _ hx)) hp.2, Bool.and_self]

theorem encL_ioob (ioob : String) : encL (genIoob ioob) = true := rfl

/-! ### The optimiser -/

theorem merge_valid {o : Bool} {p i q : Ins} (h : merge o p i = some q) (hp : p.valid = true) (hi : i.valid = true) : q.valid = true := by
  unfold merge at h
  split at h
  · rename_i x r r' y
    split at h
    · rename_i hc
      cases h
      obtain ⟨-, -, hm⟩ := hc
      cases x <;> cases y <;> simp_all [Ins.valid, Opd.source, Opd.isMem]
    · cases h
  · rename_i x r r'
    split at h
    · cases h
      cases x <;> simp_all [Ins.valid, Opd.source]
    · cases h
  · cases h

def Item.enc : Item → Bool
  | .ins i => i.valid
  | _ => true

/-- The state of the optimiser holds instructions that exist. -/
def PS.Enc (s : PS) : Prop := (∀ x ∈ s.out, x.enc = true) ∧ ∀ p, s.pend = some p → p.valid = true

theorem PS.Enc.write {s : PS} (h : s.Enc) : s.write.Enc := by
  unfold PS.write
  split
  · rename_i p hp
    refine ⟨fun x hx => ?_, by simp⟩
    rcases List.mem_append.1 hx with hx | hx
    · exact h.1 x hx
    · rw [List.mem_singleton] at hx; subst hx; exact h.2 p hp
  · exact h

theorem PS.Enc.feed {o : Bool} {s : PS} (h : s.Enc) {e : Ev} (he : e.enc = true) : (s.feed o e).Enc := by
  cases e with
  | ins i =>
    simp only [PS.feed]
    cases hm : s.pend.bind (merge o · i) with
    | none => exact ⟨h.write.1, fun p hp => by cases hp; exact he⟩
    | some q =>
      obtain ⟨p, hp, hq⟩ := Option.bind_eq_some_iff.1 hm
      exact ⟨h.1, fun p' hp' => by cases hp'; exact merge_valid hq (h.2 p hp) he⟩
  | label l =>
    refine ⟨fun x hx => ?_, h.write.2⟩
    rcases List.mem_append.1 hx with hx | hx
    · exact h.write.1 x hx
    · rw [List.mem_singleton] at hx; subst hx; rfl
  | data l =>
    refine ⟨fun x hx => ?_, h.write.2⟩
    rcases List.mem_append.1 hx with hx | hx
    · exact h.write.1 x hx
    · rw [List.mem_singleton] at hx; subst hx; rfl
  | flush => exact h.write
  | panic => exact h

theorem peep_ok (o : Bool) (c : List Ev) (h : encL c = true) : ∀ x ∈ peepWith o c, x.enc = true := by
  have : ∀ (c : List Ev) (s : PS), s.Enc → encL c = true → (c.foldl (PS.feed o) s).Enc := by
    intro c
    induction c with
    | nil => exact fun s hs _ => hs
    | cons e c ih =>
      intro s hs hc
      rw [encL_cons, Bool.and_eq_true] at hc
      exact ih _ (hs.feed hc.1) hc.2
  exact (this c {} ⟨by simp, by simp⟩ h).write.1

/-- The items of a whole file. -/
theorem prog_ok (o : Bool) (alloc ioob : String) (fds : List FnDef) (h : ∀ fd ∈ fds, fd.body.small = true)
    (hp : Ev.panic ∉ genProg alloc ioob fds) : ∀ x ∈ peepWith o (genProg alloc ioob fds), x.enc = true := by
  refine peep_ok o _ ?_
  simp only [genProg, List.mem_append, not_or] at hp
  simp only [genProg, encL_append, encL_funcs alloc fds 0 h hp.1, encL_ioob, Bool.and_self]

end Clara.Gen
