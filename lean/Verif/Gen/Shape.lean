import Verif.Gen.Peep
/-
What the generator leaves unchanged in its state, and which labels it produces.
-/
namespace Clara.Gen

/-- The generator's view of the stack is unchanged. -/
def Same (g g' : GS) : Prop := g'.sp = g.sp ∧ g'.reg = g.reg

theorem Same.refl (g : GS) : Same g g := ⟨rfl, rfl⟩
theorem Same.trans {a b c : GS} (h : Same a b) (h' : Same b c) : Same a c :=
  ⟨h'.1.trans h.1, h'.2.trans h.2⟩

theorem spillAux_state (ts : List TyR) (i : Nat) (g : GS) :
    (spillAux ts i g).2.sp = g.sp + ts.length ∧ (spillAux ts i g).2.reg = g.reg ∧
    (spillAux ts i g).2.lbl = g.lbl := by
  induction ts generalizing i g with
  | nil => exact ⟨rfl, rfl, rfl⟩
  | cons t ts ih =>
    obtain ⟨h1, h2, h3⟩ := ih (i + 1) g
    simp only [spillAux, GS.inc, List.length_cons]
    exact ⟨by omega, h2, h3⟩

theorem restoreAux_state (ts : List TyR) (i : Nat) (g : GS) :
    (restoreAux ts i g).2.sp = g.sp - ts.length ∧ (restoreAux ts i g).2.reg = g.reg ∧
    (restoreAux ts i g).2.lbl = g.lbl := by
  induction ts generalizing i g with
  | nil => exact ⟨rfl, rfl, rfl⟩
  | cons t ts ih =>
    simp only [restoreAux, List.length_cons]
    split
    · obtain ⟨h1, h2, h3⟩ := ih (i + 1) g.dec
      simp only [GS.dec] at h1 h2 h3 ⊢
      exact ⟨by omega, h2, h3⟩
    · rename_i gc _
      obtain ⟨h1, h2, h3⟩ := ih (i + 1) { g.dec with gc := gc }
      simp only [GS.dec] at h1 h2 h3 ⊢
      exact ⟨by omega, h2, h3⟩

/-- Registers in use by the call whose arguments are being evaluated. -/
def GS.top (g : GS) : List TyR := g.reg.headD []

theorem spill_state (g : GS) :
    (spill g).2.sp = g.sp + g.top.length ∧ (spill g).2.reg = [] :: g.reg ∧
    (spill g).2.lbl = g.lbl := by
  unfold spill
  cases h : g.reg with
  | nil => simp [GS.top, h]
  | cons top rest =>
    have := spillAux_state top 0 g
    simp [GS.top, h, this]

theorem restoreRegs_state {g : GS} {x : List TyR} {l : List (List TyR)} (h : g.reg = x :: l) :
    (restoreRegs g).2.sp = g.sp - (l.headD []).length ∧ (restoreRegs g).2.reg = l ∧
    (restoreRegs g).2.lbl = g.lbl := by
  unfold restoreRegs
  rw [h]
  cases l with
  | nil => simp
  | cons top rest =>
    have := restoreAux_state top 0 { g with reg := top :: rest }
    simpa using this

theorem finishCall_state (fi : FnInfo) (t : Ins) (ind : Bool) {g : GS} {x : List TyR}
    {l : List (List TyR)} (h : g.reg = x :: l) :
    (finishCall fi t ind g).2.sp = (if ind then g.sp - 1 else g.sp) - (l.headD []).length ∧
    (finishCall fi t ind g).2.reg = l ∧ (finishCall fi t ind g).2.lbl = g.lbl := by
  simp only [finishCall]
  cases ind
  · exact restoreRegs_state h
  · exact restoreRegs_state (g := g.dec) (x := x) (l := l) h

mutual
theorem genExpr_state (slot : Nat → Nat) (e : Expr) (b : Bool) (g : GS) :
    Same g (genExpr slot e b g).2 := by
  match e with
  | .int _ | .bool _ | .str _ | .typ _ | .var _ _ | .fnRef _ _ _ =>
    simp only [genExpr]; exact Same.refl _
  | .bin o t l r =>
    have h1 := genExpr_state slot l false g
    have h2 := genExpr_state slot r false (genExpr slot l false g).2.inc
    have : Same g (genExpr slot r false (genExpr slot l false g).2.inc).2.dec := by
      obtain ⟨a, b⟩ := h1
      obtain ⟨c, d⟩ := h2
      refine ⟨?_, ?_⟩
      · simp only [GS.dec, GS.inc] at *; rw [c, a]; omega
      · simp only [GS.dec, GS.inc] at *; rw [d, b]
    cases o <;> exact this
  | .un o t e => cases o <;> exact genExpr_state slot e false g
  | .tern t c x y =>
    have h1 := genExpr_state slot c false g
    have h2 := genExpr_state slot x false
      { (genExpr slot c false g).2 with lbl := (genExpr slot c false g).2.lbl + 2 }
    have h3 := genExpr_state slot y false (genExpr slot x false
      { (genExpr slot c false g).2 with lbl := (genExpr slot c false g).2.lbl + 2 }).2
    exact ⟨(h3.1.trans h2.1).trans h1.1, (h3.2.trans h2.2).trans h1.2⟩
  | .arrLit t e => exact genExpr_state slot e false g
  | .callFn f fi args =>
    have h1 := spill_state g
    have h2 := genArgs_state slot fi args 0 (spill g).2 h1.2.1
    have h3 := finishCall_state fi (.call f) false (g := (genArgs slot fi args 0 (spill g).2).2) h2.2
    refine ⟨?_, h3.2.1⟩
    have := h3.1
    simp only [genExpr]
    rw [this, h2.1, h1.1]
    simp [GS.top]
  | .callVar x fi args =>
    have h1 := spill_state g
    have h2 := genArgs_state slot fi args 0 (spill g).2 h1.2.1
    have h3 := finishCall_state fi (.callMem (slotOp (slot x))) false
      (g := (genArgs slot fi args 0 (spill g).2).2) h2.2
    refine ⟨?_, h3.2.1⟩
    have := h3.1
    simp only [genExpr]
    rw [this, h2.1, h1.1]
    simp [GS.top]
  | .callExpr e fi args =>
    have h0 := genExpr_state slot e false g
    have h1 := spill_state (genExpr slot e false g).2.inc
    have h2 := genArgs_state slot fi args 0 (spill (genExpr slot e false g).2.inc).2 h1.2.1
    have h3 := finishCall_state fi (.callReg .rax) true
      (g := (genArgs slot fi args 0 (spill (genExpr slot e false g).2.inc).2).2) h2.2
    refine ⟨?_, h3.2.1.trans h0.2⟩
    have := h3.1
    simp only [genExpr]
    rw [this, h2.1, h1.1]
    simp only [GS.top, GS.inc, h0.1, if_true]
    omega
  | .dot t e off => exact genExpr_state slot e false g
  | .index t a i =>
    have h1 := genExpr_state slot a false g
    have h2 := genExpr_state slot i false (genExpr slot a false g).2.inc
    refine ⟨?_, ?_⟩
    · simp only [genExpr, GS.dec, GS.inc] at *; rw [h2.1, h1.1]; exact Nat.add_sub_cancel _ _
    · simp only [genExpr, GS.dec, GS.inc] at *; rw [h2.2, h1.2]

theorem genArgs_state (slot : Nat → Nat) (fi : FnInfo) (es : List Expr) (i : Nat) (g : GS)
    {top : List TyR} {l : List (List TyR)} (h : g.reg = top :: l) :
    (genArgs slot fi es i g).2.sp = g.sp ∧
    (genArgs slot fi es i g).2.reg = (top ++ es.map Expr.ty) :: l := by
  match es with
  | [] => simp [genArgs, h]
  | e :: es =>
    have h1 := genExpr_state slot e false g
    have hr : ((genExpr slot e false g).2.inUse e.ty).reg = (top ++ [e.ty]) :: l := by
      simp [GS.inUse, h1.2, h]
    have hs : ((genExpr slot e false g).2.inUse e.ty).sp = g.sp := by
      simp only [GS.inUse, h1.2, h]; exact h1.1
    have h2 := genArgs_state slot fi es (i + 1) ((genExpr slot e false g).2.inUse e.ty) hr
    simp only [genArgs]
    rw [h2.1, h2.2, hs]
    simp
end

/-! ### Labels -/

/-- The arguments of `newLabel` in `codegen.go`. -/
def stems : List String := ["while_end", "while_start", "if_end", "else", "exit"]

/-- The labels of `c` are numbered from `a` up to `b`, each number at most once. -/
structure Fresh (c : List Ev) (a b : Nat) : Prop where
  le : a ≤ b
  num : ∀ l ∈ labels c, ∃ s n, l = .loc s n ∧ a ≤ n ∧ n < b
  nodup : (labels c).Nodup
  stem : ∀ s n, .loc s n ∈ labels c → s ∈ stems

theorem Fresh.none {c : List Ev} (h : labels c = []) {a b : Nat} (hab : a ≤ b) : Fresh c a b :=
  ⟨hab, by simp [h], by simp [h], by simp [h]⟩

theorem Fresh.append {c c' : List Ev} {a b d : Nat} (h : Fresh c a b) (h' : Fresh c' b d) :
    Fresh (c ++ c') a d := by
  refine ⟨Nat.le_trans h.le h'.le, ?_, ?_, ?_⟩
  · intro l hl
    rw [labels_append, List.mem_append] at hl
    rcases hl with hl | hl
    · obtain ⟨s, n, e, h1, h2⟩ := h.num l hl
      exact ⟨s, n, e, h1, Nat.lt_of_lt_of_le h2 h'.le⟩
    · obtain ⟨s, n, e, h1, h2⟩ := h'.num l hl
      exact ⟨s, n, e, Nat.le_trans h.le h1, h2⟩
  · rw [labels_append, List.nodup_append]
    refine ⟨h.nodup, h'.nodup, ?_⟩
    intro l hl l' hl' he
    subst he
    obtain ⟨s, n, e, h1, h2⟩ := h.num l hl
    obtain ⟨s', n', e', h1', h2'⟩ := h'.num l hl'
    rw [e] at e'
    cases e'
    omega
  · intro s n hl
    rw [labels_append, List.mem_append] at hl
    exact hl.elim (h.stem s n) (h'.stem s n)

theorem Fresh.mono {c : List Ev} {a b a' b' : Nat} (h : Fresh c a b) (h1 : a' ≤ a) (h2 : b ≤ b') :
    Fresh c a' b' :=
  ⟨Nat.le_trans h1 (Nat.le_trans h.le h2), fun l hl => by
    obtain ⟨s, n, e, h3, h4⟩ := h.num l hl
    exact ⟨s, n, e, Nat.le_trans h1 h3, Nat.lt_of_lt_of_le h4 h2⟩, h.nodup, h.stem⟩

/-- Only the labels matter. -/
theorem Fresh.congr {c c' : List Ev} {a b : Nat} (h : Fresh c a b) (hl : labels c' = labels c) :
    Fresh c' a b := ⟨h.le, by rw [hl]; exact h.num, by rw [hl]; exact h.nodup, by rw [hl]; exact h.stem⟩

@[simp] theorem labels_tagAs (t : TK) (r : Reg) : labels (tagAs t r) = [] := by
  unfold tagAs; split <;> rfl
@[simp] theorem labels_untagAs (t : TK) (r : Reg) : labels (untagAs t r) = [] := by
  unfold untagAs; split <;> rfl
@[simp] theorem labels_rawConv (fi : FnInfo) (t : TK) (r : Reg) : labels (rawConv fi t r) = [] := by
  unfold rawConv; split
  · split <;> simp
  · rfl
@[simp] theorem labels_slotIns (s : Nat) (i : Ins) (c : List Ev) :
    labels (slotIns s i :: c) = labels c := by
  unfold slotIns; split <;> rfl
@[simp] theorem labels_gcMap (g : GS) (c : List Ev) : labels (gcMap g :: c) = labels c := rfl

theorem labels_spillAux (ts : List TyR) (i : Nat) (g : GS) : labels (spillAux ts i g).1 = [] := by
  induction ts generalizing i g with
  | nil => rfl
  | cons t ts ih =>
    simp only [spillAux, labels_append, ih]
    split <;> rfl

@[simp] theorem labels_spill (g : GS) : labels (spill g).1 = [] := by
  unfold spill; split
  · rfl
  · exact labels_spillAux _ _ _

theorem labels_restoreAux (ts : List TyR) (i : Nat) (g : GS) : labels (restoreAux ts i g).1 = [] := by
  induction ts generalizing i g with
  | nil => rfl
  | cons t ts ih =>
    simp only [restoreAux]
    split <;> (cases argRegs[i]? <;> simp [ih])

@[simp] theorem labels_restoreRegs (g : GS) : labels (restoreRegs g).1 = [] := by
  unfold restoreRegs; split
  · exact labels_restoreAux _ _ _
  · rfl

@[simp] theorem labels_finishCall (fi : FnInfo) (t : Ins) (ind : Bool) (g : GS) :
    labels (finishCall fi t ind g).1 = [] := by
  simp only [finishCall, labels_append, labels_ins, labels_restoreRegs, List.append_nil]
  repeat' split
  all_goals simp

@[simp] theorem labels_genFnExit (b : Bool) : labels (genFnExit b) = [] := by
  unfold genFnExit; split <;> rfl

@[simp] theorem spill_lbl (g : GS) : (spill g).2.lbl = g.lbl := (spill_state g).2.2

theorem inUse_lbl (g : GS) (t : TyR) : (g.inUse t).lbl = g.lbl := by
  unfold GS.inUse; split <;> rfl

mutual
theorem genExpr_fresh (slot : Nat → Nat) (e : Expr) (b : Bool) (g : GS) :
    Fresh (genExpr slot e b g).1 g.lbl (genExpr slot e b g).2.lbl := by
  match e with
  | .int _ | .bool _ | .str _ | .typ _ | .var _ _ | .fnRef _ _ _ =>
    simp only [genExpr]; exact .none (by simp) (Nat.le_refl _)
  | .bin o t l r =>
    have h1 := genExpr_fresh slot l false g
    have h2 := genExpr_fresh slot r false (genExpr slot l false g).2.inc
    have h := h1.append h2
    cases o <;>
      · simp only [genExpr]
        refine h.congr ?_
        simp
  | .un o t e =>
    have h := genExpr_fresh slot e false g
    cases o <;> simp only [genExpr]
    · exact h.congr (by simp)
    · refine h.congr ?_
      split <;> simp
    · exact h.congr (by simp)
  | .tern t c x y =>
    have h1 := genExpr_fresh slot c false g
    have h2 := genExpr_fresh slot x false
      { (genExpr slot c false g).2 with lbl := (genExpr slot c false g).2.lbl + 2 }
    have h3 := genExpr_fresh slot y false (genExpr slot x false
      { (genExpr slot c false g).2 with lbl := (genExpr slot c false g).2.lbl + 2 }).2
    simp only [genExpr]
    generalize genExpr slot c false g = A at *
    generalize genExpr slot x false { A.2 with lbl := A.2.lbl + 2 } = B at *
    generalize genExpr slot y false B.2 = D at *
    simp only at h2
    refine ⟨?_, ?_, ?_, ?_⟩
    rotate_left 3
    · intro s n hl
      simp only [labels_append, labels_flush, labels_ins, labels_label, labels_nil, List.mem_append,
        List.mem_cons, List.not_mem_nil, or_false] at hl
      rcases hl with hl | hl | hl | hl | hl
      · exact h1.stem s n hl
      · exact h2.stem s n hl
      · cases hl; decide
      · exact h3.stem s n hl
      · cases hl; decide
    · have := h1.le; have := h2.le; have := h3.le; omega
    · intro l hl
      simp only [labels_append, labels_flush, labels_ins, labels_label, labels_nil, List.mem_append,
        List.mem_cons, List.not_mem_nil, or_false] at hl
      have := h1.le; have := h2.le; have := h3.le
      rcases hl with hl | hl | hl | hl | hl
      · obtain ⟨s, n, e, p, q⟩ := h1.num l hl; exact ⟨s, n, e, by omega, by omega⟩
      · obtain ⟨s, n, e, p, q⟩ := h2.num l hl; exact ⟨s, n, e, by omega, by omega⟩
      · exact ⟨_, _, hl, by omega, by omega⟩
      · obtain ⟨s, n, e, p, q⟩ := h3.num l hl; exact ⟨s, n, e, by omega, by omega⟩
      · exact ⟨_, _, hl, by omega, by omega⟩
    · have hc : Fresh (D.1 ++ [] : List Ev) B.2.lbl D.2.lbl := by simpa using h3
      have h12 := h1.mono (Nat.le_refl _) (b' := A.2.lbl) (Nat.le_refl _)
      simp only [labels_append, labels_flush, labels_ins, labels_label, labels_nil]
      have key : ∀ {k : Nat} {s : String} {c : List Ev} {a b : Nat}, Fresh c a b → (k < a ∨ b ≤ k) →
          Label.loc s k ∉ labels c := by
        intro k s c a b hf hk hm
        obtain ⟨s', n, e, p, q⟩ := hf.num _ hm
        cases e
        omega
      have l1 := h1.le; have l2 := h2.le; have l3 := h3.le
      have hdis : ∀ {c c' : List Ev} {a b a' b' : Nat}, Fresh c a b → Fresh c' a' b' → b ≤ a' →
          ∀ x ∈ labels c, ∀ y ∈ labels c', x ≠ y := by
        intro c c' a b a' b' hf hf' hle x hx y hy he
        subst he
        obtain ⟨s, n, e, p, q⟩ := hf.num _ hx
        obtain ⟨s', n', e', p', q'⟩ := hf'.num _ hy
        rw [e] at e'; cases e'; omega
      rw [List.nodup_append]
      refine ⟨h1.nodup, ?_, ?_⟩
      · rw [List.nodup_append]
        refine ⟨h2.nodup, ?_, ?_⟩
        · rw [List.nodup_cons]
          refine ⟨?_, ?_⟩
          · rw [List.mem_append]
            rintro (hm | hm)
            · exact key h3 (by omega) hm
            · simp at hm
          · rw [List.nodup_append]
            refine ⟨h3.nodup, by simp, ?_⟩
            intro a ha b hb he
            simp only [List.mem_cons, List.not_mem_nil, or_false] at hb
            subst he; subst hb
            exact key h3 (by omega) ha
        · intro a ha b hb he
          subst he
          simp only [List.mem_cons, List.mem_append, List.not_mem_nil, or_false] at hb
          rcases hb with hb | hb | hb
          · subst hb; exact key h2 (by omega) ha
          · exact hdis h2 h3 (Nat.le_refl _) a ha a hb rfl
          · subst hb; exact key h2 (by omega) ha
      · intro a ha b hb he
        subst he
        simp only [List.mem_cons, List.mem_append, List.not_mem_nil, or_false] at hb
        rcases hb with hb | hb | hb | hb
        · exact hdis h1 h2 (by omega) a ha a hb rfl
        · subst hb; exact key h1 (by omega) ha
        · exact hdis h1 h3 (by omega) a ha a hb rfl
        · subst hb; exact key h1 (by omega) ha
  | .arrLit t e => simp only [genExpr]; exact genExpr_fresh slot e false g
  | .callFn f fi args =>
    have h1 := spill_state g
    have h2 := genArgs_state slot fi args 0 (spill g).2 h1.2.1
    have h3 := finishCall_state fi (.call f) false (g := (genArgs slot fi args 0 (spill g).2).2) h2.2
    have h := genArgs_fresh slot fi args 0 (spill g).2
    simp only [genExpr]
    rw [h3.2.2]
    rw [spill_lbl] at h
    exact h.congr (by simp)
  | .callVar x fi args =>
    have h1 := spill_state g
    have h2 := genArgs_state slot fi args 0 (spill g).2 h1.2.1
    have h3 := finishCall_state fi (.callMem (slotOp (slot x))) false
      (g := (genArgs slot fi args 0 (spill g).2).2) h2.2
    have h := genArgs_fresh slot fi args 0 (spill g).2
    simp only [genExpr]
    rw [h3.2.2]
    rw [spill_lbl] at h
    refine h.congr ?_
    split <;> simp
  | .callExpr e fi args =>
    have h0 := genExpr_fresh slot e false g
    have h1 := spill_state (genExpr slot e false g).2.inc
    have h2 := genArgs_state slot fi args 0 (spill (genExpr slot e false g).2.inc).2 h1.2.1
    have h3 := finishCall_state fi (.callReg .rax) true
      (g := (genArgs slot fi args 0 (spill (genExpr slot e false g).2.inc).2).2) h2.2
    have h := genArgs_fresh slot fi args 0 (spill (genExpr slot e false g).2.inc).2
    simp only [genExpr]
    rw [h3.2.2]
    rw [spill_lbl] at h
    exact (h0.append h).congr (by simp)
  | .dot t e off =>
    have h := genExpr_fresh slot e false g
    simp only [genExpr]
    exact h.congr (by simp)
  | .index t a i =>
    have h1 := genExpr_fresh slot a false g
    have h2 := genExpr_fresh slot i false (genExpr slot a false g).2.inc
    simp only [genExpr]
    exact (h1.append h2).congr (by simp)

theorem genArgs_fresh (slot : Nat → Nat) (fi : FnInfo) (es : List Expr) (i : Nat) (g : GS) :
    Fresh (genArgs slot fi es i g).1 g.lbl (genArgs slot fi es i g).2.lbl := by
  match es with
  | [] => exact .none (by simp [genArgs]) (by simp [genArgs])
  | e :: es =>
    have h1 := genExpr_fresh slot e false g
    have h2 := genArgs_fresh slot fi es (i + 1) ((genExpr slot e false g).2.inUse e.ty)
    rw [inUse_lbl] at h2
    simp only [genArgs]
    refine (h1.append h2).congr ?_
    cases argRegs[i]? <;> simp
end


/-! ### Statements -/

mutual
theorem genStmt_state (slot : Nat → Nat) (skip : Bool) (s : Stmt) (g : GS) :
    Same g (genStmt slot skip s g).2 := by
  match s with
  | .ret e =>
    cases e with
    | none => simp only [genStmt, genReturn]; exact Same.refl _
    | some e => simp only [genStmt, genReturn]; exact genExpr_state _ _ _ _
  | .ifs c =>
    simp only [genStmt]
    exact genChain_state slot skip (.loc "if_end" g.lbl) c { g with lbl := g.lbl + 1 }
  | .asg decl l r =>
    have h1 := genExpr_state slot r false g
    have h2 := genExpr_state slot l true (genExpr slot r false g).2.inc
    have h3 : Same g (genExpr slot l true (genExpr slot r false g).2.inc).2.dec := by
      refine ⟨?_, h2.2.trans h1.2⟩
      have h2' := h2.1
      have h1' := h1.1
      show (genExpr slot l true (genExpr slot r false g).2.inc).2.sp - 1 = g.sp
      rw [h2']
      show (genExpr slot r false g).2.sp + 1 - 1 = g.sp
      omega
    rw [genStmt.eq_def]
    simp only
    split
    · split <;> exact h3
    · exact h3
  | .loop c body =>
    simp only [genStmt]
    have h1 := genExpr_state slot c false { g with lbl := g.lbl + 2 }
    exact Same.trans (a := g) (b := (genExpr slot c false { g with lbl := g.lbl + 2 }).2) h1
      (genStmts_state slot skip body _)
  | .block body => simp only [genStmt]; exact genStmts_state slot skip body g
  | .expr e => simp only [genStmt]; exact genExpr_state _ _ _ _
termination_by (sizeOf s, 0)

theorem genChain_state (slot : Nat → Nat) (skip : Bool) (exit : Label) (c : Chain) (g : GS) :
    Same g (genChain slot skip exit c g).2 := by
  match c with
  | .done => simp only [genChain]; exact Same.refl _
  | .els body => simp only [genChain]; exact genStmts_state slot skip body g
  | .cond c body next =>
    simp only [genChain]
    have h1 := genExpr_state slot c false g
    have h2 := genStmts_state slot skip body
      { (genExpr slot c false g).2 with lbl := (genExpr slot c false g).2.lbl + 1 }
    have h3 := genChain_state slot skip exit next (genStmts slot skip body
      { (genExpr slot c false g).2 with lbl := (genExpr slot c false g).2.lbl + 1 }).2
    exact h1.trans (Same.trans (a := (genExpr slot c false g).2) h2 h3)
termination_by (sizeOf c, 0)

theorem genStmts_state (slot : Nat → Nat) (skip : Bool) (ss : Stmts) (g : GS) :
    Same g (genStmts slot skip ss g).2 := by
  rw [genStmts]
  have h := genStmtsGo_state slot skip ss { g with gc := g.gc.openScope }
  exact h
termination_by (sizeOf ss, 1)

theorem genStmtsGo_state (slot : Nat → Nat) (skip : Bool) (ss : Stmts) (g : GS) :
    Same g (genStmtsGo slot skip ss g).2 := by
  match ss with
  | .nil => simp only [genStmtsGo]; exact Same.refl _
  | .cons s ss =>
    simp only [genStmtsGo]
    exact (genStmt_state slot skip s g).trans (genStmtsGo_state slot skip ss _)
termination_by (sizeOf ss, 0)
end

/-- The order of the labels does not matter. -/
theorem Fresh.perm {c c' : List Ev} {a b : Nat} (h : Fresh c a b) (hl : (labels c').Perm (labels c)) :
    Fresh c' a b :=
  ⟨h.le, fun l hm => h.num l (hl.mem_iff.mp hm), hl.nodup_iff.mpr h.nodup,
    fun s n hm => h.stem s n (hl.mem_iff.mp hm)⟩

theorem Fresh.one (s : String) (n : Nat) (hs : s ∈ stems) : Fresh [.label (.loc s n)] n (n + 1) :=
  ⟨by omega, fun l hl => ⟨s, n, by simpa using hl, by omega, by omega⟩, by simp, fun s' n' h => by
    simp only [labels_label, labels_nil, List.mem_singleton, Label.loc.injEq] at h
    rw [h.1]; exact hs⟩

mutual
theorem genStmt_fresh (slot : Nat → Nat) (skip : Bool) (s : Stmt) (g : GS) :
    Fresh (genStmt slot skip s g).1 g.lbl (genStmt slot skip s g).2.lbl := by
  match s with
  | .ret e =>
    cases e with
    | none => simp only [genStmt, genReturn]; exact .none (by simp) (Nat.le_refl _)
    | some e =>
      simp only [genStmt, genReturn]
      exact (genExpr_fresh slot e false g).congr (by simp)
  | .ifs c =>
    have h := genChain_fresh slot skip (.loc "if_end" g.lbl) c { g with lbl := g.lbl + 1 }
    simp only [genStmt]
    refine ((Fresh.one "if_end" g.lbl (by decide)).append h).perm ?_
    simp only [labels_flush, labels_append, labels_label, labels_nil]
    exact List.perm_append_comm
  | .asg decl l r =>
    have h1 := genExpr_fresh slot r false g
    have h2 := genExpr_fresh slot l true (genExpr slot r false g).2.inc
    have hl : (genStmt slot skip (.asg decl l r) g).2.lbl =
        (genExpr slot l true (genExpr slot r false g).2.inc).2.lbl := by
      rw [genStmt.eq_def]
      simp only
      split
      · split <;> rfl
      · rfl
    rw [hl, genStmt.eq_def]
    exact (h1.append h2).congr (by simp)
  | .loop c body =>
    have h1 := genExpr_fresh slot c false { g with lbl := g.lbl + 2 }
    have h2 := genStmts_fresh slot skip body (genExpr slot c false { g with lbl := g.lbl + 2 }).2
    simp only [genStmt]
    generalize genExpr slot c false { g with lbl := g.lbl + 2 } = A at *
    generalize genStmts slot skip body A.2 = B at *
    have h := (Fresh.one "while_end" g.lbl (by decide)).append
      ((Fresh.one "while_start" (g.lbl + 1) (by decide)).append (h1.append h2))
    refine h.perm ?_
    simp only [labels_flush, labels_append, labels_label, labels_nil, labels_ins]
    have hp : (Label.loc "while_start" (g.lbl + 1) :: (labels A.1 ++ (labels B.1 ++ [Label.loc "while_end" g.lbl]))) =
      ([Label.loc "while_start" (g.lbl + 1)] ++ (labels A.1 ++ labels B.1)) ++ [Label.loc "while_end" g.lbl] := by simp
    rw [hp]
    exact List.perm_append_comm
  | .block body => simp only [genStmt]; exact genStmts_fresh slot skip body g
  | .expr e => simp only [genStmt]; exact genExpr_fresh _ _ _ _
termination_by (sizeOf s, 0)

theorem genChain_fresh (slot : Nat → Nat) (skip : Bool) (exit : Label) (c : Chain) (g : GS) :
    Fresh (genChain slot skip exit c g).1 g.lbl (genChain slot skip exit c g).2.lbl := by
  match c with
  | .done => simp only [genChain]; exact .none (by simp) (Nat.le_refl _)
  | .els body => simp only [genChain]; exact genStmts_fresh slot skip body g
  | .cond c body next =>
    have h1 := genExpr_fresh slot c false g
    have h2 := genStmts_fresh slot skip body
      { (genExpr slot c false g).2 with lbl := (genExpr slot c false g).2.lbl + 1 }
    have h3 := genChain_fresh slot skip exit next (genStmts slot skip body
      { (genExpr slot c false g).2 with lbl := (genExpr slot c false g).2.lbl + 1 }).2
    simp only [genChain]
    generalize genExpr slot c false g = A at *
    generalize genStmts slot skip body { A.2 with lbl := A.2.lbl + 1 } = B at *
    generalize genChain slot skip exit next B.2 = D at *
    have h := h1.append ((Fresh.one "else" A.2.lbl (by decide)).append (h2.append h3))
    refine h.perm ?_
    simp only [labels_flush, labels_append, labels_label, labels_nil, labels_ins]
    refine List.Perm.append_left _ ?_
    have hp : labels B.1 ++ (Label.loc "else" A.2.lbl :: labels D.1) =
      (labels B.1 ++ [Label.loc "else" A.2.lbl]) ++ labels D.1 := by simp
    rw [hp, ← List.append_assoc]
    exact List.Perm.append_right _ List.perm_append_comm
termination_by (sizeOf c, 0)

theorem genStmts_fresh (slot : Nat → Nat) (skip : Bool) (ss : Stmts) (g : GS) :
    Fresh (genStmts slot skip ss g).1 g.lbl (genStmts slot skip ss g).2.lbl := by
  rw [genStmts]
  exact genStmtsGo_fresh slot skip ss { g with gc := g.gc.openScope }
termination_by (sizeOf ss, 1)

theorem genStmtsGo_fresh (slot : Nat → Nat) (skip : Bool) (ss : Stmts) (g : GS) :
    Fresh (genStmtsGo slot skip ss g).1 g.lbl (genStmtsGo slot skip ss g).2.lbl := by
  match ss with
  | .nil => simp only [genStmtsGo]; exact .none (by simp) (Nat.le_refl _)
  | .cons s ss =>
    simp only [genStmtsGo]
    exact (genStmt_fresh slot skip s g).append (genStmtsGo_fresh slot skip ss _)
termination_by (sizeOf ss, 0)
end

/-! ### Functions and programs -/

@[simp] theorem labels_genParams (ps : List (Nat × TyR)) (i : Nat) (gc : GcS) :
    labels (genParams ps i gc).1 = [] := by
  induction ps generalizing i gc with
  | nil => rfl
  | cons p ps ih =>
    obtain ⟨x, t⟩ := p
    simp only [genParams]
    split <;> simp [ih]

@[simp] theorem labels_genFields (n i off : Nat) : labels (genFields n i off) = [] := by
  induction n generalizing i off with
  | zero => rfl
  | succ n ih => simp [genFields, ih]

@[simp] theorem labels_genCons (alloc : String) (n : Nat) (tag : Option Nat) (desc : String) (id : Nat)
    (g : GS) : labels (genCons alloc n tag desc id g) = [] := by
  unfold genCons
  cases tag <;> simp

/-- The code of a function has its own label and local labels with new numbers. -/
theorem genFunc_labels (alloc : String) (fd : FnDef) (lbl : Nat) :
    ∃ c, labels (genFunc alloc fd lbl).1 = .fn fd.name :: labels c ∧
      Fresh c lbl (genFunc alloc fd lbl).2 := by
  cases hb : fd.body with
  | block ss =>
    have h := genStmts_fresh fd.slot fd.skip ss
      { lbl := lbl, sp := fd.frame, gc := (genParams fd.params 0 {}).2 }
    refine ⟨_, ?_, by simpa only [genFunc, hb] using h⟩
    simp only [genFunc, hb, labels_flush, labels_data, labels_label, labels_ins, labels_append,
      labels_genParams, List.nil_append, labels_nil, List.append_nil]
    split <;> simp
  | expr e =>
    have h := genExpr_fresh fd.slot e false
      { lbl := lbl, sp := fd.frame, gc := (genParams fd.params 0 {}).2 }
    refine ⟨_, ?_, by simpa only [genFunc, hb, genReturn] using h⟩
    simp [genFunc, hb, genReturn]
  | cons tag desc id =>
    refine ⟨[], ?_, .none rfl (by simp only [genFunc, hb]; exact Nat.le_refl _)⟩
    simp [genFunc, hb]

theorem genFuncs_labels (alloc : String) (fds : List FnDef) (lbl : Nat) :
    (∀ l ∈ labels (genFuncs alloc fds lbl),
      (∃ fd ∈ fds, l = .fn fd.name) ∨ ∃ s n, l = .loc s n ∧ lbl ≤ n ∧ s ∈ stems) ∧
    ((fds.map (·.name)).Nodup → (labels (genFuncs alloc fds lbl)).Nodup) := by
  induction fds generalizing lbl with
  | nil => simp [genFuncs]
  | cons fd fds ih =>
    obtain ⟨c, h1, h2⟩ := genFunc_labels alloc fd lbl
    obtain ⟨i1, i2⟩ := ih (genFunc alloc fd lbl).2
    simp only [genFuncs, labels_append, h1]
    refine ⟨?_, ?_⟩
    · intro l hl
      simp only [List.cons_append, List.mem_cons, List.mem_append] at hl
      rcases hl with hl | hl | hl
      · exact .inl ⟨fd, by simp, hl⟩
      · obtain ⟨s, n, e, p, _⟩ := h2.num l hl
        exact .inr ⟨s, n, e, p, h2.stem s n (e ▸ hl)⟩
      · rcases i1 l hl with ⟨f, hf, e⟩ | ⟨s, n, e, p, hs⟩
        · exact .inl ⟨f, by simp [hf], e⟩
        · exact .inr ⟨s, n, e, Nat.le_trans h2.le p, hs⟩
    · intro hn
      simp only [List.map_cons, List.nodup_cons, List.mem_map, not_exists, not_and] at hn
      simp only [List.cons_append, List.nodup_cons, List.mem_append, not_or, List.nodup_append]
      refine ⟨⟨?_, ?_⟩, h2.nodup, i2 hn.2, ?_⟩
      · intro hl
        obtain ⟨s, n, e, -⟩ := h2.num _ hl
        cases e
      · intro hl
        rcases i1 _ hl with ⟨f, hf, e⟩ | ⟨s, n, e, p⟩
        · exact hn.1 f hf (by injection e with e; exact e.symm)
        · cases e
      · intro a ha b hb e
        subst e
        obtain ⟨s, n, e, -, q⟩ := h2.num _ ha
        rcases i1 _ hb with ⟨f, hf, e'⟩ | ⟨s', n', e', p⟩
        · rw [e] at e'; cases e'
        · rw [e] at e'; cases e'; omega

/-- What the labels of a program are. -/
theorem genProg_label {alloc ioob : String} {fds : List FnDef} {l : Label}
    (h : l ∈ labels (genProg alloc ioob fds)) :
    l = .ioob ∨ (∃ fd ∈ fds, l = .fn fd.name) ∨ ∃ s n, l = .loc s n ∧ s ∈ stems := by
  simp only [genProg, labels_append, List.mem_append] at h
  rcases h with h | h
  · rcases (genFuncs_labels alloc fds 0).1 l h with h | ⟨s, n, h1, -, h2⟩
    · exact .inr (.inl h)
    · exact .inr (.inr ⟨s, n, h1, h2⟩)
  · have hi : labels (genIoob ioob) = [.ioob] := by simp [genIoob]
    rw [hi] at h
    exact .inl (by simpa using h)

/-- All labels of a program with different function names are different. -/
theorem genProg_labels (alloc ioob : String) (fds : List FnDef) (h : (fds.map (·.name)).Nodup) :
    (labels (genProg alloc ioob fds)).Nodup := by
  obtain ⟨h1, h2⟩ := genFuncs_labels alloc fds 0
  simp only [genProg, labels_append]
  rw [List.nodup_append]
  have hi : labels (genIoob ioob) = [.ioob] := by simp [genIoob]
  rw [hi]
  refine ⟨h2 h, by simp, ?_⟩
  intro a ha b hb e
  simp only [List.mem_singleton] at hb
  subst e hb
  rcases h1 _ ha with ⟨f, hf, e⟩ | ⟨s, n, e, p⟩ <;> cases e

end Clara.Gen
