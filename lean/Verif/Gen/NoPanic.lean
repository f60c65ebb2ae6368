import Verif.Gen.RootStmts
/-
When the code generator does not panic.

`safe` and `Expr.direct` are about the syntax tree alone.
-/
namespace Clara.Gen

/-- The types that the operator needs: `o` applied to operands of kinds `l` and `r` with a result of kind `t`. -/
def BinOp.fits (o : BinOp) (t l r : TK) : Bool :=
  match o with
  | .and | .or => true
  | .gt | .ge | .lt | .le | .eq => l == .integer && r == .integer
  | .add | .sub | .mul | .div | .bor | .band | .bxor | .bleft | .bright => l == .integer && (r == .integer && t == .integer)

def UnOp.fits (o : UnOp) (e : TK) : Bool :=
  match o with
  | .not => true
  | .bnot | .neg => e == .integer

mutual
/-- Operands of arithmetic and comparisons and indices are integers, and no call has more than six
arguments. -/
def Expr.safe : Expr → Bool
  | .int _ | .bool _ | .str _ | .typ _ | .fnRef _ _ _ | .var _ _ => true
  | .bin o t l r => o.fits t.kind l.ty.kind r.ty.kind && (l.safe && r.safe)
  | .un o _ e => o.fits e.ty.kind && e.safe
  | .tern _ c x y => c.safe && (x.safe && y.safe)
  | .arrLit _ e => e.safe
  | .callFn _ _ args => decide (args.length ≤ 6) && safeL args
  | .callVar _ _ args => decide (args.length ≤ 6) && safeL args
  | .callExpr e _ args => e.safe && (decide (args.length ≤ 6) && safeL args)
  | .dot _ e _ => e.safe
  | .index _ a i => i.ty.kind == .integer && (a.safe && i.safe)
def safeL : List Expr → Bool
  | [] => true
  | e :: es => e.safe && safeL es
end

mutual
def Stmt.safe : Stmt → Bool
  | .ret (some e) => e.safe
  | .ret none => true
  | .ifs c => c.safe
  | .asg _ l r => l.safe && r.safe
  | .loop c b => c.safe && b.safe
  | .block b => b.safe
  | .expr e => e.safe
def Chain.safe : Chain → Bool
  | .done => true
  | .els b => b.safe
  | .cond c b n => c.safe && (b.safe && n.safe)
def Stmts.safe : Stmts → Bool
  | .nil => true
  | .cons s ss => s.safe && ss.safe
end

def Body.safe : Body → Bool
  | .block ss => ss.safe
  | .expr e => e.safe
  | .cons _ _ _ => true

/-- A function without panics: at most six parameters, at most 4096 variables, and a good body. -/
def FnDef.safe (fd : FnDef) : Prop :=
  fd.params.length ≤ 6 ∧ fd.syms.length ≤ 4096 ∧ fd.body.safe = true ∧ fd.body.direct = true

/-! ### Pieces -/

theorem tagAs_np {r : Reg} : Ev.panic ∉ tagAs .integer r := by simp [tagAs]
theorem untagAs_np {r : Reg} : Ev.panic ∉ untagAs .integer r := by simp [untagAs]

theorem rawConv_np (fi : FnInfo) (t : TK) (r : Reg) : Ev.panic ∉ rawConv fi t r := by
  unfold rawConv
  split
  · cases t <;> simp [untagAs]
  · simp

theorem regs_some {i : Nat} (h : i < 6) : ∃ r, argRegs[i]? = some r := by
  have h' : i < argRegs.length := by simpa [argRegs] using h
  exact ⟨argRegs[i], List.getElem?_eq_getElem h'⟩

theorem spillAux_np (ts : List TyR) (i : Nat) (g : GS) (h : i + ts.length ≤ 6) : Ev.panic ∉ (spillAux ts i g).1 := by
  induction ts generalizing i with
  | nil => simp [spillAux]
  | cons t ts ih =>
    rw [List.length_cons] at h
    obtain ⟨r, hr⟩ := regs_some (i := i) (by omega)
    simp only [spillAux, hr, List.mem_append, List.mem_singleton, not_or]
    exact ⟨ih (i + 1) (by omega), by simp⟩

theorem spill_np (g : GS) (h : g.top.length ≤ 6) : Ev.panic ∉ (spill g).1 := by
  unfold spill
  unfold GS.top at h
  cases hr : g.reg with
  | nil => simp
  | cons top rest =>
    rw [hr] at h
    exact spillAux_np top 0 g (by simpa using h)

theorem restoreAux_np (u : List TyR) (i : Nat) (g : GS) (R : List (Nat × TyR)) (s0 : Nat) (h : i + u.length ≤ 6)
    (hs : g.sp = s0 + u.length) (hr : g.gc.roots = R ++ rootedFrom (s0 + 1) (waiting i u)) (hR : ∀ p ∈ R, p.1 ≤ 8 * s0) :
    Ev.panic ∉ (restoreAux u i g).1 := by
  induction u generalizing i g with
  | nil => simp [restoreAux]
  | cons t u ih =>
    rw [waiting, rootedFrom_append, waiting_length] at hr
    rw [List.length_cons] at h
    have hrem : g.gc.remove (g.sp * 8) t = some { g.gc with roots := R ++ rootedFrom (s0 + 1) (waiting (i + 1) u) } := by
      unfold GcS.remove
      simp only [rootedFrom] at hr
      split
      · rename_i hp
        rw [if_pos hp, List.append_nil, ← List.append_assoc] at hr
        rw [List.length_cons] at hs
        rw [show g.sp * 8 = 8 * (s0 + 1 + u.length) by omega, hr]
        have hno : (8 * (s0 + 1 + u.length), t) ∉ R ++ rootedFrom (s0 + 1) (waiting (i + 1) u) := by
          rw [List.mem_append, not_or]
          refine ⟨fun h => ?_, fun h => ?_⟩
          · have := hR _ h; simp only at this; omega
          · have := rootedFrom_le _ _ _ h
            rw [waiting_length] at this
            simp only at this; omega
        rw [if_pos (by simp), List.erase_append_right _ hno]
        simp
      · rename_i hp
        rw [if_neg hp] at hr
        simp only [List.append_nil] at hr
        simp [← hr]
    obtain ⟨r, hreg⟩ := regs_some (i := i) (by omega)
    have hstep := ih (i + 1) { g.dec with gc := { g.gc with roots := R ++ rootedFrom (s0 + 1) (waiting (i + 1) u) } } (by omega)
      (by simp only [GS.dec]; rw [hs, List.length_cons]; omega) rfl
    rw [restoreAux]
    simp only [hrem, hreg, List.mem_cons, not_or]
    exact ⟨by simp, hstep⟩

theorem restoreRegs_np {F : Nat} {V : List (Nat × TyR)} (hV : ∀ p ∈ V, p.1 ≤ 8 * F) {ts : List Temp} {g : GS} {x : List TyR} {l : List (List TyR)}
    (hl : g.reg = x :: l) (h6 : (l.headD []).length ≤ 6) (h : Inv F V (ts ++ waiting 0 (l.headD [])) g) :
    Ev.panic ∉ (restoreRegs g).1 := by
  unfold restoreRegs
  rw [hl]
  cases l with
  | nil => simp
  | cons top rest =>
    simp only [List.headD_cons] at h h6 ⊢
    have hs := h.sp
    rw [List.length_append, waiting_length] at hs
    exact restoreAux_np top 0 { g with reg := top :: rest } (V ++ rootedFrom (F + 1) ts) (F + ts.length) (by omega)
      (by simp only [hs]; omega) (by
        simp only [h.roots, rootedFrom_append, List.append_assoc]
        rw [show F + ts.length + 1 = F + 1 + ts.length by omega]) (bound hV ts)

theorem finishCall_np {F : Nat} {V : List (Nat × TyR)} (hV : ∀ p ∈ V, p.1 ≤ 8 * F) {ts : List Temp} (fi : FnInfo) (target : Ins) (ind : Bool)
    {g : GS} {x : List TyR} {l : List (List TyR)} (hl : g.reg = x :: l) (h6 : (l.headD []).length ≤ 6)
    (h : Inv F V (ts ++ waiting 0 (l.headD [])) (if ind then g.dec else g)) : Ev.panic ∉ (finishCall fi target ind g).1 := by
  have hr := restoreRegs_np hV (x := x) (by cases ind <;> exact hl) h6 h
  simp only [finishCall, List.mem_append, List.mem_cons, not_or]
  refine ⟨by split <;> simp, by split <;> simp, by split <;> simp, by simp, ?_, by split <;> simp [gcMap], by split <;> simp, hr⟩
  split
  · exact tagAs_np
  · simp

theorem slotIns_np {s : Nat} (i : Ins) (h : slotOk s = true) : slotIns s i ≠ Ev.panic := by
  simp [slotIns, h]

/-! ### Expressions -/

mutual
theorem genExpr_np {F : Nat} {V : List (Nat × TyR)} (hV : ∀ p ∈ V, p.1 ≤ 8 * F) (slot : Nat → Nat) (e : Expr) (b : Bool)
    {g : GS} {ts : List Temp} (h : Inv F V ts g) (h6 : g.top.length ≤ 6) (hok : e.direct g.top.isEmpty = true) (hs : e.safe = true)
    (hv : ∀ x ∈ e.vars, slotOk (slot x) = true) : Ev.panic ∉ (genExpr slot e b g).1 := by
  match e with
  | .int i =>
    simp only [genExpr, List.mem_cons, not_or]
    exact ⟨by simp, tagAs_np⟩
  | .bool _ => simp [genExpr]
  | .str _ => simp [genExpr]
  | .typ _ => simp [genExpr]
  | .var x t =>
    simp only [genExpr, List.mem_singleton]
    exact fun h => slotIns_np _ (hv x (by simp [Expr.vars])) h.symm
  | .fnRef f x _ => simp [genExpr]
  | .bin o t l r =>
    simp only [Expr.direct, Bool.and_eq_true] at hok
    simp only [Expr.safe, Bool.and_eq_true] at hs
    simp only [Expr.vars, List.mem_append] at hv
    have l1 := genExpr_np hV slot l false h h6 hok.1 hs.2.1 (fun x hx => hv x (.inl hx))
    have l2 := (genExpr_calls hV slot l false h hok.1).2
    have ls := genExpr_state slot l false g
    have hi : Inv F V (ts ++ [.left l.ty]) (genExpr slot l false g).2.inc := (h.congr ls.1 l2).inc (fun _ => rfl)
    have ht : (genExpr slot l false g).2.inc.top = g.top := by simp only [GS.top, GS.inc, ls.2]
    have r1 := genExpr_np hV slot r false hi (by rw [ht]; exact h6) (by rw [ht]; exact hok.2) hs.2.2 (fun x hx => hv x (.inr hx))
    have hf := hs.1
    cases o <;> simp only [BinOp.fits, Bool.and_eq_true, beq_iff_eq] at hf <;>
      simp [genExpr, l1, r1, hf, untagAs, tagAs]
  | .un o t e =>
    simp only [Expr.direct] at hok
    simp only [Expr.safe, Bool.and_eq_true] at hs
    have l1 := genExpr_np hV slot e false h h6 hok hs.2 hv
    have hf := hs.1
    cases o <;> simp only [UnOp.fits, beq_iff_eq] at hf <;> simp [genExpr, l1, hf, untagAs, tagAs]
  | .tern t c x y =>
    simp only [Expr.direct, Bool.and_eq_true] at hok
    simp only [Expr.safe, Bool.and_eq_true] at hs
    simp only [Expr.vars, List.mem_append] at hv
    have a1 := genExpr_np hV slot c false h h6 hok.1 hs.1 (fun x hx => hv x (.inl hx))
    have a2 := (genExpr_calls hV slot c false h hok.1).2
    have as := genExpr_state slot c false g
    let g1 : GS := { (genExpr slot c false g).2 with lbl := (genExpr slot c false g).2.lbl + 2 }
    have ht1 : g1.top = g.top := by simp only [g1, GS.top, as.2]
    have hi1 : Inv F V ts g1 := h.congr as.1 a2
    have b1 := genExpr_np hV slot x false hi1 (by rw [ht1]; exact h6) (by rw [ht1]; exact hok.2.1) hs.2.1
      (fun x hx => hv x (.inr (.inl hx)))
    have b2 := (genExpr_calls hV slot x false hi1 (by rw [ht1]; exact hok.2.1)).2
    have bs := genExpr_state slot x false g1
    have ht2 : (genExpr slot x false g1).2.top = g.top := by simp only [GS.top, bs.2]; exact ht1
    have d1 := genExpr_np hV slot y false (g := (genExpr slot x false g1).2)
      (h.congr (bs.1.trans as.1) (b2.trans a2)) (by rw [ht2]; exact h6) (by rw [ht2]; exact hok.2.2) hs.2.2
      (fun x hx => hv x (.inr (.inr hx)))
    simp only [genExpr, List.mem_append, List.mem_cons, not_or]
    refine ⟨a1, by simp, by simp, by simp, by simp, b1, by simp, by simp, d1, by simp⟩
  | .arrLit t e =>
    simp only [Expr.direct] at hok
    simp only [Expr.safe] at hs
    exact genExpr_np hV slot e false h h6 hok hs hv
  | .callFn f fi args =>
    simp only [Expr.direct] at hok
    simp only [Expr.safe, Bool.and_eq_true, decide_eq_true_eq] at hs
    obtain ⟨s1, s2, s3⟩ := spill_calls h
    have ss := spill_state g
    have a1 := genArgs_np hV slot fi args 0 s2 ss.2.1 rfl (by omega) hok hs.2 hv
    have a2 := (genArgs_calls hV slot fi args 0 s2 ss.2.1 hok).2
    have as := genArgs_state slot fi args 0 (spill g).2 ss.2.1
    have f1 := finishCall_np hV fi (.call f) false (g := (genArgs slot fi args 0 (spill g).2).2) as.2 h6 (s2.congr as.1 a2)
    simp only [genExpr, List.mem_append, not_or]
    exact ⟨spill_np g h6, a1, f1⟩
  | .callVar x fi args =>
    simp only [Expr.direct] at hok
    simp only [Expr.safe, Bool.and_eq_true, decide_eq_true_eq] at hs
    simp only [Expr.vars, List.mem_cons] at hv
    obtain ⟨s1, s2, s3⟩ := spill_calls h
    have ss := spill_state g
    have a1 := genArgs_np hV slot fi args 0 s2 ss.2.1 rfl (by omega) hok hs.2 (fun x hx => hv x (.inr hx))
    have a2 := (genArgs_calls hV slot fi args 0 s2 ss.2.1 hok).2
    have as := genArgs_state slot fi args 0 (spill g).2 ss.2.1
    have f1 := finishCall_np hV fi (.callMem (slotOp (slot x))) false (g := (genArgs slot fi args 0 (spill g).2).2) as.2 h6 (s2.congr as.1 a2)
    simp only [genExpr, List.mem_append, not_or, hv x (.inl rfl), if_true]
    exact ⟨spill_np g h6, a1, f1⟩
  | .callExpr e fi args =>
    simp only [Expr.direct, Bool.and_eq_true] at hok
    simp only [Expr.safe, Bool.and_eq_true, decide_eq_true_eq] at hs
    simp only [Expr.vars, List.mem_append] at hv
    have htop : g.top = [] := List.isEmpty_iff.1 hok.1
    have c1 := genExpr_np hV slot e false h h6 hok.2.1 hs.1 (fun x hx => hv x (.inl hx))
    have c2 := (genExpr_calls hV slot e false h hok.2.1).2
    have cs := genExpr_state slot e false g
    have hi : Inv F V (ts ++ [.callee e.ty]) (genExpr slot e false g).2.inc := (h.congr cs.1 c2).inc (fun _ => rfl)
    have ht : (genExpr slot e false g).2.inc.top = [] := by rw [← htop]; simp only [GS.top, GS.inc, cs.2]
    obtain ⟨s1, s2, s3⟩ := spill_calls hi
    rw [ht, waiting, List.append_nil] at s1 s2
    have ss := spill_state (genExpr slot e false g).2.inc
    have a1 := genArgs_np hV slot fi args 0 s2 ss.2.1 rfl (by omega) hok.2.2 hs.2.2 (fun x hx => hv x (.inr hx))
    have a2 := (genArgs_calls hV slot fi args 0 s2 ss.2.1 hok.2.2).2
    have as := genArgs_state slot fi args 0 (spill (genExpr slot e false g).2.inc).2 ss.2.1
    have hd : Inv F V (ts ++ waiting 0 ((genExpr slot e false g).2.inc.reg.headD [])) (genArgs slot fi args 0 (spill (genExpr slot e false g).2.inc).2).2.dec := by
      have := s2.congr as.1 a2
      rw [show (genExpr slot e false g).2.inc.reg.headD [] = [] from ht, waiting, List.append_nil]
      refine ⟨?_, ?_⟩
      · have := this.sp
        rw [List.length_append, List.length_singleton] at this
        simp only [GS.dec]; omega
      · have := this.roots
        rw [rootedFrom_append] at this
        simpa [GS.dec, rootedFrom] using this
    have f1 := finishCall_np hV fi (.callReg .rax) true (g := (genArgs slot fi args 0 (spill (genExpr slot e false g).2.inc).2).2) as.2
      (by rw [show (genExpr slot e false g).2.inc.reg.headD [] = [] from ht]; simp) hd
    simp only [genExpr, List.mem_append, List.mem_cons, not_or]
    exact ⟨c1, by simp, spill_np _ (by rw [ht]; simp), a1, f1⟩
  | .dot t e off =>
    simp only [Expr.direct] at hok
    simp only [Expr.safe] at hs
    have l1 := genExpr_np hV slot e false h h6 hok hs hv
    simp [genExpr, l1]
  | .index t a i =>
    simp only [Expr.direct, Bool.and_eq_true] at hok
    simp only [Expr.safe, Bool.and_eq_true, beq_iff_eq] at hs
    simp only [Expr.vars, List.mem_append] at hv
    have l1 := genExpr_np hV slot a false h h6 hok.1 hs.2.1 (fun x hx => hv x (.inl hx))
    have l2 := (genExpr_calls hV slot a false h hok.1).2
    have ls := genExpr_state slot a false g
    have hi : Inv F V (ts ++ [.base a.ty]) (genExpr slot a false g).2.inc := (h.congr ls.1 l2).inc (fun _ => rfl)
    have ht : (genExpr slot a false g).2.inc.top = g.top := by simp only [GS.top, GS.inc, ls.2]
    have r1 := genExpr_np hV slot i false hi (by rw [ht]; exact h6) (by rw [ht]; exact hok.2) hs.2.2 (fun x hx => hv x (.inr hx))
    simp [genExpr, l1, r1, hs.1, untagAs]
termination_by (sizeOf e, 0)

theorem genArgs_np {F : Nat} {V : List (Nat × TyR)} (hV : ∀ p ∈ V, p.1 ≤ 8 * F) (slot : Nat → Nat) (fi : FnInfo) (es : List Expr) (i : Nat)
    {g : GS} {ts : List Temp} {u : List TyR} {l : List (List TyR)} (h : Inv F V ts g) (hl : g.reg = u :: l) (hu : u.length = i)
    (h6 : i + es.length ≤ 6) (hok : directL u.isEmpty es = true) (hs : safeL es = true) (hv : ∀ x ∈ varsL es, slotOk (slot x) = true) :
    Ev.panic ∉ (genArgs slot fi es i g).1 := by
  match es with
  | [] => simp [genArgs]
  | e :: es =>
    simp only [directL, Bool.and_eq_true] at hok
    simp only [safeL, Bool.and_eq_true] at hs
    simp only [varsL, List.mem_append] at hv
    rw [List.length_cons] at h6
    have htop : g.top = u := by simp [GS.top, hl]
    have e1 := genExpr_np hV slot e false h (by rw [htop]; omega) (by rw [htop]; exact hok.1) hs.1 (fun x hx => hv x (.inl hx))
    have e2 := (genExpr_calls hV slot e false h (by rw [htop]; exact hok.1)).2
    have es' := genExpr_state slot e false g
    have hf := inUse_facts (genExpr slot e false g).2 e.ty
    have r1 := genArgs_np hV slot fi es (i + 1) (g := (genExpr slot e false g).2.inUse e.ty) (u := u ++ [e.ty]) (l := l)
      (h.congr (hf.1.trans es'.1) (hf.2.trans e2)) (by rw [GS.inUse, es'.2, hl]) (by simp [hu]) (by omega) (by
        rw [show (u ++ [e.ty]).isEmpty = false by cases u <;> rfl]; exact hok.2) hs.2 (fun x hx => hv x (.inr hx))
    obtain ⟨r, hr⟩ := regs_some (i := i) (by omega)
    simp only [genArgs, hr, List.mem_append, List.mem_cons, not_or]
    exact ⟨e1, ⟨by simp, rawConv_np _ _ _⟩, r1⟩
termination_by (sizeOf es, 0)
end

/-! ### Statements -/

/-- The slots of the variables are in the frame and can be addressed. -/
def SlotsOk (F : Nat) (slot : Nat → Nat) (xs : List Nat) : Prop := ∀ x ∈ xs, slot x ≤ F ∧ slotOk (slot x) = true

/-- The code has no panic and the generator is as before between statements. -/
def Clear (F : Nat) (r : List Ev × GS) : Prop := Ev.panic ∉ r.1 ∧ Rest F r.2

theorem expr_clear {F : Nat} {slot : Nat → Nat} {e : Expr} {g : GS} (b : Bool) (h : Rest F g) (hd : e.direct true = true) (hs : e.safe = true)
    (hv : SlotsOk F slot e.vars) : Clear F (genExpr slot e b g) ∧ (genExpr slot e b g).2.gc = g.gc := by
  have hd' : e.direct g.top.isEmpty = true := by rw [h.top]; exact hd
  have gc := (genExpr_calls h.bound slot e b h.inv hd').2
  exact ⟨⟨genExpr_np h.bound slot e b h.inv (by rw [h.top]; simp) hd' hs (fun x hx => (hv x hx).2),
    h.same (genExpr_state slot e b g) (by rw [gc]; exact h.bound)⟩, gc⟩

theorem Rest.lbl {F : Nat} {g : GS} (h : Rest F g) (n : Nat) : Rest F { g with lbl := n } := ⟨h.sp, h.top, h.bound⟩

theorem Clear.ret {F : Nat} {slot : Nat → Nat} {skip : Bool} {e : Option Expr} {g : GS} (h : Rest F g)
    (hd : (Stmt.ret e).direct = true) (hs : (Stmt.ret e).safe = true) (hv : SlotsOk F slot (Stmt.ret e).vars) :
    Clear F (genReturn slot skip e g) := by
  have hx : Ev.panic ∉ genFnExit skip := by cases skip <;> simp [genFnExit]
  cases e with
  | none => exact ⟨hx, h⟩
  | some e =>
    obtain ⟨⟨a, b⟩, _⟩ := expr_clear (e := e) false h hd hs hv
    exact ⟨by simp only [genReturn, List.mem_append, not_or]; exact ⟨a, hx⟩, b⟩

mutual
theorem stmt_clear {F : Nat} {slot : Nat → Nat} (skip : Bool) (s : Stmt) {g : GS} (h : Rest F g) (hd : s.direct = true) (hs : s.safe = true)
    (hv : SlotsOk F slot s.vars) : Clear F (genStmt slot skip s g) := by
  match s with
  | .ret e =>
    rw [genStmt]
    exact .ret h hd hs hv
  | .ifs c =>
    simp only [Stmt.direct] at hd
    simp only [Stmt.safe] at hs
    obtain ⟨a, b⟩ := chain_clear skip (Label.loc "if_end" g.lbl) c (h.lbl (g.lbl + 1)) hd hs hv
    rw [genStmt]
    exact ⟨by simp [a], b⟩
  | .asg decl l r =>
    simp only [Stmt.direct, Bool.and_eq_true] at hd
    simp only [Stmt.safe, Bool.and_eq_true] at hs
    simp only [Stmt.vars] at hv
    have hvl : SlotsOk F slot l.vars := fun x hx => hv x (List.mem_append_left _ hx)
    have hvr : SlotsOk F slot r.vars := fun x hx => hv x (List.mem_append_right _ hx)
    obtain ⟨⟨a1, a2⟩, a3⟩ := expr_clear false h hd.2 hs.2 hvr
    have st := genExpr_state slot r false g
    have hi : Inv F g.gc.roots ([] ++ [.value r.ty]) (genExpr slot r false g).2.inc := (h.inv.congr st.1 a3).inc (fun _ => rfl)
    have ht : (genExpr slot r false g).2.inc.top = [] := by rw [← h.top]; simp only [GS.top, GS.inc, st.2]
    have hdl : l.direct (genExpr slot r false g).2.inc.top.isEmpty = true := by rw [ht]; exact hd.1
    have b1 := genExpr_np h.bound slot l true hi (by rw [ht]; simp) hdl hs.1 (fun x hx => (hvl x hx).2)
    have b2 := (genExpr_calls h.bound slot l true hi hdl).2
    have hgc := genStmt_asg_gc slot skip decl l r g (b2.trans a3)
    refine ⟨by rw [genStmt.eq_def]; simp [a1, b1], h.same (genStmt_state slot skip _ g) ?_⟩
    cases decl
    · rw [hgc]; exact h.bound
    · cases l with
      | var x t =>
        rw [hgc]
        simp only [GcS.add]
        split
        · intro p hp
          simp only [List.mem_append, List.mem_singleton] at hp
          rcases hp with hp | rfl
          · exact h.bound p hp
          · have := (hvl x (by simp [Expr.vars])).1
            simp only; omega
        · exact h.bound
      | _ => rw [hgc]; exact h.bound
  | .loop c b =>
    simp only [Stmt.direct, Bool.and_eq_true] at hd
    simp only [Stmt.safe, Bool.and_eq_true] at hs
    simp only [Stmt.vars] at hv
    obtain ⟨⟨a1, a2⟩, _⟩ := expr_clear false (h.lbl (g.lbl + 2)) hd.1 hs.1 (fun x hx => hv x (List.mem_append_left _ hx))
    obtain ⟨b1, b2⟩ := stmts_clear skip b a2 hd.2 hs.2 (fun x hx => hv x (List.mem_append_right _ hx))
    rw [genStmt]
    exact ⟨by simp [a1, b1], b2⟩
  | .block b =>
    rw [genStmt]
    exact stmts_clear skip b h hd hs hv
  | .expr e =>
    rw [genStmt]
    exact (expr_clear false h hd hs hv).1
termination_by (sizeOf s, 0)

theorem chain_clear {F : Nat} {slot : Nat → Nat} (skip : Bool) (exit : Label) (c : Chain) {g : GS} (h : Rest F g) (hd : c.direct = true)
    (hs : c.safe = true) (hv : SlotsOk F slot c.vars) : Clear F (genChain slot skip exit c g) := by
  match c with
  | .done =>
    rw [genChain]
    exact ⟨by simp, h⟩
  | .els b =>
    rw [genChain]
    exact stmts_clear skip b h hd hs hv
  | .cond c b n =>
    simp only [Chain.direct, Bool.and_eq_true] at hd
    simp only [Chain.safe, Bool.and_eq_true] at hs
    simp only [Chain.vars] at hv
    obtain ⟨⟨a1, a2⟩, _⟩ := expr_clear false h hd.1 hs.1 (fun x hx => hv x (List.mem_append_left _ hx))
    obtain ⟨b1, b2⟩ := stmts_clear skip b (a2.lbl ((genExpr slot c false g).2.lbl + 1)) hd.2.1 hs.2.1
      (fun x hx => hv x (List.mem_append_right _ (List.mem_append_left _ hx)))
    obtain ⟨d1, d2⟩ := chain_clear skip exit n b2 hd.2.2 hs.2.2
      (fun x hx => hv x (List.mem_append_right _ (List.mem_append_right _ hx)))
    rw [genChain]
    exact ⟨by simp [a1, b1, d1], d2⟩
termination_by (sizeOf c, 0)

theorem stmts_clear {F : Nat} {slot : Nat → Nat} (skip : Bool) (ss : Stmts) {g : GS} (h : Rest F g) (hd : ss.direct = true) (hs : ss.safe = true)
    (hv : SlotsOk F slot ss.vars) : Clear F (genStmts slot skip ss g) := by
  have h0 : Rest F { g with gc := g.gc.openScope } := ⟨h.sp, h.top, h.bound⟩
  obtain ⟨a, b⟩ := go_clear skip ss h0 hd hs hv
  rw [genStmts]
  refine ⟨a, b.sp, b.top, ?_⟩
  intro p hp
  exact b.bound p (List.mem_of_mem_take hp)
termination_by (sizeOf ss, 1)

theorem go_clear {F : Nat} {slot : Nat → Nat} (skip : Bool) (ss : Stmts) {g : GS} (h : Rest F g) (hd : ss.direct = true) (hs : ss.safe = true)
    (hv : SlotsOk F slot ss.vars) : Clear F (genStmtsGo slot skip ss g) := by
  match ss with
  | .nil =>
    rw [genStmtsGo]
    exact ⟨by simp, h⟩
  | .cons s ss =>
    simp only [Stmts.direct, Bool.and_eq_true] at hd
    simp only [Stmts.safe, Bool.and_eq_true] at hs
    simp only [Stmts.vars] at hv
    obtain ⟨a1, a2⟩ := stmt_clear skip s h hd.1 hs.1 (fun x hx => hv x (List.mem_append_left _ hx))
    obtain ⟨b1, b2⟩ := go_clear skip ss a2 hd.2 hs.2 (fun x hx => hv x (List.mem_append_right _ hx))
    rw [genStmtsGo]
    exact ⟨by simp [a1, b1], b2⟩
termination_by (sizeOf ss, 0)
end

/-! ### Functions -/

theorem genParams_np (ps : List (Nat × TyR)) (i : Nat) (gc : GcS) (h : i + ps.length ≤ 6) : Ev.panic ∉ (genParams ps i gc).1 := by
  induction ps generalizing i gc with
  | nil => simp [genParams]
  | cons p ps ih =>
    rw [List.length_cons] at h
    obtain ⟨r, hr⟩ := regs_some (i := i) (by omega)
    simp only [genParams, hr, List.mem_cons, not_or]
    exact ⟨fun h' => slotIns_np (s := i + 1) _ (by simp [slotOk]; omega) h'.symm, ih _ _ (by omega)⟩

theorem genFields_np (n i off : Nat) : Ev.panic ∉ genFields n i off := by
  induction n generalizing i off with
  | zero => simp [genFields]
  | succ n ih => simp [genFields, ih]

theorem addNew_np (acc xs : List Nat) : ∀ x, x ∈ acc ∨ x ∈ xs → x ∈ addNew acc xs := by
  induction xs generalizing acc with
  | nil => intro x h; simpa [addNew] using h
  | cons y ys ih =>
    intro x h
    rw [addNew]
    split
    · rename_i hy
      refine ih _ x ?_
      rcases h with h | h
      · exact .inl h
      · rcases List.mem_cons.1 h with rfl | h
        · exact .inl hy
        · exact .inr h
    · refine ih _ x ?_
      rcases h with h | h
      · exact .inl (List.mem_append_left _ h)
      · rcases List.mem_cons.1 h with rfl | h
        · exact .inl (by simp)
        · exact .inr h

/-- A safe function is generated without a panic. -/
theorem genFunc_np (alloc : String) {fd : FnDef} (lbl : Nat) (h : fd.safe) : Ev.panic ∉ (genFunc alloc fd lbl).1 := by
  obtain ⟨h1, h2, h3, h4⟩ := h
  have hp := genParams_np fd.params 0 {} (by omega)
  have hv : SlotsOk fd.frame fd.slot fd.body.vars := by
    intro x hx
    have : x ∈ fd.syms := addNew_np _ _ x (.inr hx)
    have := List.idxOf_lt_length_of_mem this
    refine ⟨?_, ?_⟩
    · unfold FnDef.slot FnDef.frame; omega
    · unfold slotOk FnDef.slot
      exact decide_eq_true (by omega)
  have hr := start_rest fd lbl
  unfold FnDef.start at hr
  have hx : ∀ b, Ev.panic ∉ genFnExit b := by intro b; cases b <;> simp [genFnExit]
  have hb : Ev.panic ∉ (match fd.body with
    | .cons tag desc id => (genCons alloc fd.params.length tag desc id { lbl := lbl, sp := fd.frame, gc := (genParams fd.params 0 {}).2 }, ({ lbl := lbl, sp := fd.frame, gc := (genParams fd.params 0 {}).2 } : GS))
    | .block ss =>
      let a := genStmts fd.slot fd.skip ss { lbl := lbl, sp := fd.frame, gc := (genParams fd.params 0 {}).2 }
      (a.1 ++ (if fd.retNothing && !ss.retLast then genFnExit fd.skip else []), a.2)
    | .expr e => genReturn fd.slot fd.skip (some e) { lbl := lbl, sp := fd.frame, gc := (genParams fd.params 0 {}).2 } : List Ev × GS).1 := by
    cases hbody : fd.body with
    | cons tag desc id =>
      have hf := hx false
      cases tag <;> simp [genCons, gcMap, genFields_np, hf]
    | block ss =>
      rw [hbody] at h3 h4 hv
      obtain ⟨a, _⟩ := stmts_clear fd.skip ss hr h4 h3 hv
      simp only [List.mem_append, not_or]
      refine ⟨a, ?_⟩
      split
      · exact hx _
      · simp
    | expr e =>
      rw [hbody] at h3 h4 hv
      exact (Clear.ret (e := some e) hr h4 h3 hv).1
  simp only [genFunc, List.mem_cons, List.mem_append, not_or]
  exact ⟨by simp, by simp, by simp, by simp, hp, hb, by simp⟩

theorem genFuncs_np (alloc : String) (fds : List FnDef) (lbl : Nat) (h : ∀ fd ∈ fds, fd.safe) : Ev.panic ∉ genFuncs alloc fds lbl := by
  induction fds generalizing lbl with
  | nil => simp [genFuncs]
  | cons fd fds ih =>
    simp only [genFuncs, List.mem_append, not_or]
    exact ⟨genFunc_np alloc lbl (h fd (by simp)), ih _ (fun x hx => h x (by simp [hx]))⟩

/-- A program of safe functions is generated without a panic. -/
theorem genProg_np (alloc ioob : String) (fds : List FnDef) (h : ∀ fd ∈ fds, fd.safe) : Ev.panic ∉ genProg alloc ioob fds := by
  simp only [genProg, genIoob, List.mem_append, not_or]
  exact ⟨genFuncs_np alloc fds 0 h, by simp, tagAs_np, by simp⟩

end Clara.Gen
