import Verif.Gen.Balance
import Verif.Gen.Frame
/-
Executions inside one activation of a function.  Calls are single steps that keep the calling convention.
-/
namespace Clara.Gen
variable {σ : Type}

def Ins.isCall : Ins → Bool
  | .call _ | .callReg _ | .callMem _ => true
  | _ => false

/-- Paths through a piece of code: straight instructions are executed, conditional jumps go either way,
jumps go to a label of the piece, calls return to the next item with the stack and frame pointers and the stack
above as they were. -/
inductive Walk (abs : Abs → Word) (top : Nat) (c : List Ev) : Nat × Mach σ → Nat × Mach σ → Prop
  | here {x} : Walk abs top c x x
  | straight {i m x m' y} : c[i]? = some (.ins x) → x.straight = true → exec abs m x = some m' →
      Walk abs top c (i + 1, m') y → Walk abs top c (i, m) y
  | skip {i m e y} : c[i]? = some e → (∀ x, e ≠ .ins x) → Walk abs top c (i + 1, m) y →
      Walk abs top c (i, m) y
  | jump {i j : Nat} {m l e y} : c[i]? = some e → e.jumps l = true → c[j]? = some (.label l) →
      Walk abs top c (j, m) y → Walk abs top c (i, m) y
  | fall {i m k l y} : c[i]? = some (.ins (.jcc k l)) → Walk abs top c (i + 1, m) y → Walk abs top c (i, m) y
  | call {i m x m' y} : c[i]? = some (.ins x) → x.isCall = true → Kept top m m' →
      Walk abs top c (i + 1, m') y → Walk abs top c (i, m) y

theorem isCall_depth {x : Ins} (hx : x.isCall = true) {F d d' : Int} (h : x.depth F d = some d') :
    d' = d ∧ F ≤ d ∧ d % 2 = 0 := by
  cases x <;> simp only [Ins.isCall, Bool.false_eq_true] at hx
  all_goals
    simp only [Ins.depth] at h
    split at h
    · rename_i hc
      simp only [Option.some.injEq] at h
      exact ⟨h.symm, hc.1, by first | exact hc.2 | exact hc.2.1⟩
    · cases h

theorem Balanced.walk {F : Nat} {c : List Ev} {dep : Nat → Int} (hb : Balanced F c dep) {abs : Abs → Word}
    {top : Nat} {B : Word} {x y : Nat × Mach σ} (hw : Walk abs top c x y) (h : AtDepth B (dep x.1) x.2) :
    AtDepth B (dep y.1) y.2 := by
  induction hw with
  | here => exact h
  | straight h1 h2 h3 _ ih => exact ih (depth_exec (Int.natCast_nonneg F) h (hb.step _ _ h1) h3)
  | @skip i m e y h1 h2 _ ih =>
    have := hb.step _ _ h1
    apply ih
    cases e with
    | ins x => exact absurd rfl (h2 x)
    | panic => cases this
    | _ => simp only [Ev.depth, Option.some.injEq] at this; exact this ▸ h
  | @jump i j m l e y h1 h2 h3 _ ih => exact ih (hb.jump i j e l h1 h2 h3 ▸ h)
  | @fall i m k l y h1 _ ih =>
    have := hb.step _ _ h1
    simp only [Ev.depth, Ins.depth, Option.some.injEq] at this
    exact ih (this ▸ h)
  | @call i m x m' y h1 h2 h3 _ ih =>
    have := isCall_depth h2 (hb.step _ _ h1)
    apply ih
    simp only
    rw [this.1]
    exact ⟨h3.rsp.trans h.1, fun h0 => h3.rbp.trans (h.2 h0)⟩

/-! ### Expression code -/

/-- Instructions that expression code uses: no memory is written except by `push` and calls. -/
def Ins.tame : Ins → Bool
  | .mov _ (.mem _) | .jmpReg _ | .enter _ | .leave | .ret => false
  | .pop r => r.free
  | _ => true

def Ev.tame : Ev → Bool
  | .ins i => i.tame
  | _ => true

theorem tame_tag {t : TK} {r : Reg} : ∀ x ∈ tagAs t r, x.tame = true := by
  unfold tagAs; split <;> simp [Ev.tame, Ins.tame]

theorem tame_untag {t : TK} {r : Reg} : ∀ x ∈ untagAs t r, x.tame = true := by
  unfold untagAs; split <;> simp [Ev.tame, Ins.tame]

theorem tame_rawConv {fi : FnInfo} {t : TK} {r : Reg} : ∀ x ∈ rawConv fi t r, x.tame = true := by
  unfold rawConv
  split
  · cases t <;> simp [Ev.tame, Ins.tame, untagAs]
  · simp

theorem free_argReg {i : Nat} {r : Reg} (h : argRegs[i]? = some r) : r.free = true := by
  have := List.mem_of_getElem? h
  simp only [argRegs, List.mem_cons, List.not_mem_nil, or_false] at this
  rcases this with rfl | rfl | rfl | rfl | rfl | rfl <;> rfl

theorem tame_spillAux (ts : List TyR) (i : Nat) (g : GS) : ∀ x ∈ (spillAux ts i g).1, x.tame = true := by
  induction ts generalizing i g with
  | nil => simp [spillAux]
  | cons t ts ih =>
    intro x hx
    simp only [spillAux, List.mem_append, List.mem_singleton] at hx
    rcases hx with hx | rfl
    · exact ih _ _ x hx
    · split <;> rfl

theorem tame_spill (g : GS) : ∀ x ∈ (spill g).1, x.tame = true := by
  unfold spill
  split
  · simp
  · exact tame_spillAux _ _ _

theorem tame_restoreAux (ts : List TyR) (i : Nat) (g : GS) : ∀ x ∈ (restoreAux ts i g).1, x.tame = true := by
  induction ts generalizing i g with
  | nil => simp [restoreAux]
  | cons t ts ih =>
    intro x hx
    have he : (match argRegs[i]? with | some r => Ev.ins (.pop r) | none => .panic).tame = true := by
      split
      · rename_i h; exact free_argReg h
      · rfl
    simp only [restoreAux] at hx
    split at hx
    · simp only [List.mem_cons] at hx
      rcases hx with rfl | rfl | hx
      · exact he
      · rfl
      · exact ih _ _ x hx
    · simp only [List.mem_cons] at hx
      rcases hx with rfl | hx
      · exact he
      · exact ih _ _ x hx

theorem tame_restore (g : GS) : ∀ x ∈ (restoreRegs g).1, x.tame = true := by
  unfold restoreRegs
  split
  · exact tame_restoreAux _ _ _
  · simp

theorem mem_ite_nil {α : Type} {p : Prop} [Decidable p] {l : List α} {x : α} (h : x ∈ (if p then [] else l)) : x ∈ l := by
  split at h
  · cases h
  · exact h

theorem tame_finish (fi : FnInfo) (t : Ins) (ht : t.tame = true) (b : Bool) (g : GS) :
    ∀ x ∈ (finishCall fi t b g).1, x.tame = true := by
  intro x hx
  simp only [finishCall, List.mem_append, List.mem_cons] at hx
  rcases hx with hx | hx | hx | rfl | hx | hx | hx | hx
  · split at hx <;> simp at hx; subst hx; rfl
  · split at hx <;> simp at hx; subst hx; rfl
  · replace hx := mem_ite_nil hx; simp at hx; subst hx; rfl
  · exact ht
  · split at hx
    · exact tame_tag x hx
    · simp at hx
  · split at hx <;> simp at hx; subst hx; rfl
  · replace hx := mem_ite_nil hx; simp at hx; subst hx; rfl
  · exact tame_restore _ x hx

variable (slot : Nat → Nat)

mutual
theorem tame_expr (e : Expr) (b : Bool) (g : GS) : ∀ x ∈ (genExpr slot e b g).1, x.tame = true := by
  match e with
  | .int i =>
    intro x hx
    simp only [genExpr, List.mem_cons] at hx
    rcases hx with rfl | hx
    · split <;> rfl
    · exact tame_tag x hx
  | .bool b => simp only [genExpr, List.mem_singleton, forall_eq]; rfl
  | .str _ => simp only [genExpr, List.mem_cons, List.not_mem_nil, or_false, forall_eq_or_imp, forall_eq]; exact ⟨rfl, rfl⟩
  | .typ _ => simp [genExpr]
  | .var x t =>
    simp only [genExpr, List.mem_singleton, forall_eq, slotIns]
    split
    · split <;> rfl
    · rfl
  | .fnRef f ext t => simp only [genExpr, List.mem_singleton, forall_eq]; split <;> rfl
  | .bin o t l r =>
    have h1 := tame_expr l false g
    have h2 := tame_expr r false (genExpr slot l false g).2.inc
    intro x hx
    cases o <;> simp only [genExpr, List.mem_append, List.mem_cons, List.not_mem_nil, or_false] at hx
    all_goals
      repeat' (rcases hx with hx | hx)
      all_goals first
        | exact h1 x hx
        | exact h2 x hx
        | exact tame_tag x hx
        | exact tame_untag x hx
        | rfl
  | .un o t e =>
    have h1 := tame_expr e false g
    intro x hx
    cases o <;> simp only [genExpr, List.mem_append, List.mem_cons, List.not_mem_nil, or_false] at hx
    all_goals
      repeat' (rcases hx with hx | hx)
      all_goals first
        | exact h1 x hx
        | exact tame_tag x hx
        | exact tame_untag x hx
        | rfl
        | (split at hx <;> simp at hx <;> subst hx <;> rfl)
  | .tern t c x y =>
    have h1 := tame_expr c false g
    have h2 := tame_expr x false { (genExpr slot c false g).2 with lbl := (genExpr slot c false g).2.lbl + 2 }
    have h3 := tame_expr y false (genExpr slot x false { (genExpr slot c false g).2 with lbl := (genExpr slot c false g).2.lbl + 2 }).2
    intro z hz
    simp only [genExpr, List.mem_append, List.mem_cons, List.not_mem_nil, or_false] at hz
    repeat' (rcases hz with hz | hz)
    all_goals first
      | exact h1 z hz
      | exact h2 z hz
      | exact h3 z hz
      | rfl
  | .arrLit t e => simp only [genExpr]; exact tame_expr e false g
  | .callFn f fi args =>
    have h := tame_args fi args 0 (spill g).2
    intro x hx
    simp only [genExpr, List.mem_append] at hx
    rcases hx with hx | hx | hx
    · exact tame_spill _ x hx
    · exact h x hx
    · exact tame_finish _ _ (by rfl) _ _ x hx
  | .callVar v fi args =>
    have h := tame_args fi args 0 (spill g).2
    intro x hx
    simp only [genExpr, List.mem_append] at hx
    rcases hx with hx | hx | hx
    · exact tame_spill _ x hx
    · exact h x hx
    · split at hx
      · exact tame_finish _ _ (by rfl) _ _ x hx
      · simp at hx; subst hx; rfl
  | .callExpr e fi args =>
    have h1 := tame_expr e false g
    have h := tame_args fi args 0 (spill (genExpr slot e false g).2.inc).2
    intro x hx
    simp only [genExpr, List.mem_append, List.mem_cons] at hx
    rcases hx with hx | rfl | hx | hx | hx
    · exact h1 x hx
    · rfl
    · exact tame_spill _ x hx
    · exact h x hx
    · exact tame_finish _ _ (by rfl) _ _ x hx
  | .dot t e off =>
    have h1 := tame_expr e false g
    intro x hx
    simp only [genExpr, List.mem_append, List.mem_cons, List.not_mem_nil, or_false] at hx
    rcases hx with hx | rfl | rfl | rfl | rfl | rfl
    · exact h1 x hx
    · rfl
    · rfl
    · rfl
    · rfl
    · split <;> rfl
  | .index t e i =>
    have h1 := tame_expr e false g
    have h2 := tame_expr i false (genExpr slot e false g).2.inc
    intro x hx
    simp only [genExpr, List.mem_append, List.mem_cons, List.not_mem_nil, or_false] at hx
    rcases hx with hx | rfl | hx | hx | rfl | rfl | rfl | hx | rfl | rfl | rfl | rfl
    · exact h1 x hx
    · rfl
    · exact h2 x hx
    · exact tame_untag x hx
    · rfl
    · rfl
    · rfl
    · exact tame_untag x hx
    · rfl
    · rfl
    · rfl
    · split <;> rfl

theorem tame_args (fi : FnInfo) (es : List Expr) (i : Nat) (g : GS) :
    ∀ x ∈ (genArgs slot fi es i g).1, x.tame = true := by
  match es with
  | [] => simp [genArgs]
  | e :: es =>
    have h1 := tame_expr e false g
    have h2 := tame_args fi es (i + 1) ((genExpr slot e false g).2.inUse e.ty)
    intro x hx
    simp only [genArgs, List.mem_append] at hx
    rcases hx with hx | hx | hx
    · exact h1 x hx
    · split at hx
      · simp only [List.mem_cons] at hx
        rcases hx with rfl | hx
        · rfl
        · exact tame_rawConv x hx
      · simp at hx; subst hx; rfl
    · exact h2 x hx
end

/-- Tame events keep the depth at or above the floor and raise it by at most one. -/
theorem tame_depth {F d d' : Int} {e : Ev} (ht : e.tame = true) (h : e.depth F d = some d') (hd : F ≤ d) (hF : 0 ≤ F) :
    F ≤ d' ∧ d' ≤ d + 1 := by
  cases e with
  | ins i =>
    simp only [Ev.depth] at h
    cases i with
    | alu o s r =>
      simp only [Ins.depth] at h
      split at h
      all_goals rename_i heq
      all_goals first | (cases heq; done) | skip
      · cases heq; split at h <;> cases h <;> omega
      · cases heq; split at h <;> cases h <;> omega
      · split at h <;> cases h; omega
    | mov s t => simp only [Ins.depth] at h; split at h <;> simp at h; omega
    | jmpReg _ | enter _ | leave | ret => simp [Ev.tame, Ins.tame] at ht
    | push s => simp only [Ins.depth] at h; split at h <;> simp at h; omega
    | pop s =>
      simp only [Ins.depth] at h
      split at h <;> simp at h
      rename_i hc
      simp only [Bool.and_eq_true, Bool.or_eq_true, decide_eq_true_eq] at hc
      omega
    | set _ | cqo | idiv _ | jmp _ | jcc _ _ => simp [Ins.depth] at h; omega
    | _ => simp only [Ins.depth] at h; split at h <;> simp at h; omega
  | panic => cases h
  | _ => simp [Ev.depth] at h; omega

/-- Memory written by a tame instruction: the word below the stack pointer, if it is a push. -/
theorem tame_mem {abs : Abs → Word} {m m' : Mach σ} {x : Ins} (ht : x.tame = true) (hx : exec abs m x = some m')
    (hs : x.straight = true) {a : Word} (ha : a ≠ m.reg .rsp - 8) : m'.mem a = m.mem a := by
  cases x with
  | mov s d =>
    cases d with
    | mem _ => simp [Ins.tame] at ht
    | _ => simp only [exec, Option.some.injEq] at hx; subst hx; rfl
  | push s =>
    simp only [exec, Option.some.injEq] at hx; subst hx
    simp only [Mach.push, Mach.store, Mach.set, if_neg ha]
  | set c =>
    simp only [exec] at hx
    split at hx
    · cases hx
    · simp only [Option.some.injEq] at hx; subst hx; rfl
  | idiv s =>
    rw [exec] at hx
    by_cases hc : m.reg .rdx = (if (m.reg .rax).msb then BitVec.allOnes 64 else 0) ∧ m.reg s ≠ 0 ∧
        ¬ (m.reg .rax = BitVec.intMin 64 ∧ m.reg s = BitVec.allOnes 64)
    · rw [if_pos hc] at hx; simp only [Option.some.injEq] at hx; subst hx; rfl
    · rw [if_neg hc] at hx; cases hx
  | enter _ | leave => simp [Ins.tame] at ht
  | jmp _ | jcc _ _ | jmpReg _ | call _ | callReg _ | callMem _ | ret => simp [Ins.straight] at hs
  | _ => simp only [exec, Option.some.injEq] at hx; subst hx; rfl

theorem Balanced.floor {F : Nat} {c : List Ev} {dep : Nat → Int} (hb : Balanced F c dep)
    (ht : ∀ x ∈ c, x.tame = true) (i : Nat) (hi : i ≤ c.length) : (F : Int) ≤ dep i ∧ dep i ≤ F + i := by
  induction i with
  | zero => rw [hb.start]; omega
  | succ i ih =>
    have := ih (by omega)
    have he : c[i]? = some c[i] := List.getElem?_eq_getElem (by omega)
    have := tame_depth (ht _ (List.mem_of_getElem? he)) (hb.step _ _ he) (this.1) (Int.natCast_nonneg _)
    push_cast
    omega

theorem sub_ofInt_toNat {B : Word} {F : Nat} {d : Int} {n : Nat} (hd : (F : Int) ≤ d) (hn : d ≤ F + n)
    (h : 8 * n ≤ (B - BitVec.ofInt 64 (8 * F)).toNat) :
    (B - BitVec.ofInt 64 (8 * d)).toNat = (B - BitVec.ofInt 64 (8 * F)).toNat - 8 * (d - F).toNat := by
  obtain ⟨k, rfl⟩ : ∃ k : Nat, d = F + k := ⟨(d - F).toNat, by omega⟩
  have e : B - BitVec.ofInt 64 (8 * ((F : Int) + k)) = B - BitVec.ofInt 64 (8 * F) - BitVec.ofNat 64 (8 * k) := by
    rw [BitVec.sub_sub, Int.mul_add, BitVec.ofInt_add]
    rfl
  rw [e]
  generalize B - BitVec.ofInt 64 (8 * F) = w at *
  have hw := w.isLt
  have : (BitVec.ofNat 64 (8 * k)).toNat = 8 * k := by
    rw [BitVec.toNat_ofNat]; exact Nat.mod_eq_of_lt (by omega)
  rw [BitVec.toNat_sub_of_le (by rw [BitVec.le_def, this]; omega), this]
  omega

/-- A piece of tame code that passes the check keeps the stack above the point where it starts. -/
theorem Balanced.stack {F : Nat} {c : List Ev} {dep : Nat → Int} (hb : Balanced F c dep)
    (ht : ∀ x ∈ c, x.tame = true) {abs : Abs → Word} {top : Nat} {B s0 : Word} {x y : Nat × Mach σ}
    (hw : Walk abs top c x y) (hx : x.1 ≤ c.length) (h : AtDepth B (dep x.1) x.2)
    (hs : s0 = B - BitVec.ofInt 64 (8 * F)) (hroom : 8 * (c.length + 1) ≤ s0.toNat)
    {a : Word} (ha : s0.toNat ≤ a.toNat) (hat : a.toNat < top) :
    y.2.mem a = x.2.mem a ∧ y.1 ≤ c.length := by
  have hrsp : ∀ i (m : Mach σ), i ≤ c.length → AtDepth B (dep i) m →
      (m.reg .rsp).toNat ≤ s0.toNat ∧ 8 ≤ (m.reg .rsp).toNat := by
    intro i m hi hm
    have := hb.floor ht i hi
    rw [hm.1, sub_ofInt_toNat this.1 (n := i) this.2 (by rw [← hs]; omega), ← hs]
    omega
  have step : ∀ {x y : Nat × Mach σ}, Walk abs top c x y → AtDepth B (dep x.1) x.2 → AtDepth B (dep y.1) y.2 :=
    fun w h => hb.walk w h
  induction hw with
  | here => exact ⟨rfl, hx⟩
  | @straight i m x m' y h1 h2 h3 hw' ih =>
    have hi := (List.getElem?_eq_some_iff.1 h1).1
    have hd := step (.straight h1 h2 h3 .here) h
    have := ih hi hd
    refine ⟨?_, this.2⟩
    rw [this.1]
    refine tame_mem (ht _ (List.mem_of_getElem? h1)) h3 h2 ?_
    have hr := hrsp _ _ hx h
    simp only at hr
    intro he
    rw [he, BitVec.toNat_sub_of_le (by rw [BitVec.le_def]; exact hr.2)] at ha
    rw [show BitVec.toNat (8 : Word) = 8 from rfl] at ha
    omega
  | @skip i m e y h1 h2 _ ih =>
    exact ih (List.getElem?_eq_some_iff.1 h1).1 (step (.skip h1 h2 .here) h)
  | @jump i j m l e y h1 h2 h3 _ ih =>
    exact ih (Nat.le_of_lt (List.getElem?_eq_some_iff.1 h3).1) (step (.jump h1 h2 h3 .here) h)
  | @fall i m k l y h1 _ ih =>
    exact ih (List.getElem?_eq_some_iff.1 h1).1 (step (.fall h1 .here) h)
  | @call i m x m' y h1 h2 h3 _ ih =>
    have := ih (List.getElem?_eq_some_iff.1 h1).1 (step (.call h1 h2 h3 .here) h)
    refine ⟨?_, this.2⟩
    rw [this.1]
    have hr := hrsp _ _ hx h
    exact h3.stk a (Nat.le_trans hr.1 ha) hat

theorem Balanced.walk_le {F : Nat} {c : List Ev} {dep : Nat → Int} (_ : Balanced F c dep) {abs : Abs → Word}
    {top : Nat} {x y : Nat × Mach σ} (hw : Walk abs top c x y) (hx : x.1 ≤ c.length) : y.1 ≤ c.length := by
  induction hw with
  | here => exact hx
  | straight h1 _ _ _ ih | skip h1 _ _ ih | fall h1 _ ih | call h1 _ _ _ ih =>
    exact ih (List.getElem?_eq_some_iff.1 h1).1
  | jump _ _ h1 _ ih => exact ih (Nat.le_of_lt (List.getElem?_eq_some_iff.1 h1).1)

theorem Balanced.rsp_le {F : Nat} {c : List Ev} {dep : Nat → Int} (hb : Balanced F c dep)
    (ht : ∀ x ∈ c, x.tame = true) {B s0 : Word} {i : Nat} {m : Mach σ} (hi : i ≤ c.length) (h : AtDepth B (dep i) m)
    (hs : s0 = B - BitVec.ofInt 64 (8 * F)) (hroom : 8 * (c.length + 1) ≤ s0.toNat) :
    (m.reg .rsp).toNat ≤ s0.toNat := by
  have := hb.floor ht i hi
  rw [h.1, sub_ofInt_toNat this.1 (n := i) this.2 (by rw [← hs]; omega), ← hs]
  omega

theorem balanced_stmts (skip : Bool) (ss : Stmts) (g : GS) (hs : ∀ x ∈ ss.vars, 1 ≤ slot x ∧ slot x ≤ g.sp)
    (hp : Ev.panic ∉ (genStmts slot skip ss g).1) :
    Balanced g.sp (genStmts slot skip ss g).1 (depthAt g.sp (genStmts slot skip ss g).1 g.sp) := by
  have hf := genStmts_fresh slot skip ss g
  refine (chk_stmts (F := g.sp) (slot := slot) skip ss g hs rfl hp []).balanced hf.nodup ?_
  intro hi
  obtain ⟨s, n, e, -⟩ := hf.num _ hi
  cases e

/-- The code of an expression passes the check with the depth at its start as floor. -/
theorem balanced_expr (e : Expr) (b : Bool) (g : GS) (hs : ∀ x ∈ e.vars, 1 ≤ slot x ∧ slot x ≤ g.sp)
    (hp : Ev.panic ∉ (genExpr slot e b g).1) :
    Balanced g.sp (genExpr slot e b g).1 (depthAt g.sp (genExpr slot e b g).1 g.sp) := by
  have hf := genExpr_fresh slot e b g
  refine (chk_expr (F := g.sp) (slot := slot) e b g (fun x hx => ?_) (Nat.le_refl _) hp []).balanced hf.nodup ?_
  · have := hs x hx; omega
  · intro hi
    obtain ⟨s, n, e, -⟩ := hf.num _ hi
    cases e

end Clara.Gen
