import Verif.Gen.Shape
import Mathlib.Tactic.Tauto
/-
A stack-depth check of generated code, independent of the simulation proof.

The depth of a point in the code of a function is the number of words between the stack pointer and the
frame pointer: `rsp = rbp - 8 * depth`.  The check follows the code from top to bottom; every label must
have the depth of all the jumps to it.
-/
namespace Clara.Gen

/-- Memory operands relative to the frame pointer must name one of the `F` slots of the frame; nothing is
addressed relative to the stack pointer except the word on top. -/
def MemOp.inFrame (F : Int) (a : MemOp) : Bool :=
  match a.base with
  | .rbp => a.idx.isNone && decide (a.disp ≤ -8 ∧ -8 * F ≤ a.disp ∧ a.disp % 8 = 0)
  | .rsp => a.idx.isNone && decide (a.disp = 0)
  | _ => true

/-- Operands that are read. -/
def Opd.readOk (F : Int) : Opd → Bool
  | .mem a => a.inFrame F
  | _ => true

def Reg.free : Reg → Bool
  | .rsp | .rbp => false
  | _ => true

/-- Operands that are written: no stack or frame pointer, nothing through the stack pointer. -/
def Opd.writeOk (F : Int) : Opd → Bool
  | .mem a => a.inFrame F && decide (a.base ≠ .rsp)
  | .reg r => r.free
  | .imm _ => false

/-- The depth after an instruction; `none` if the check fails.  `F` is the size of the frame.  After
`leave` the stack pointer is one word above the frame pointer of the function. -/
def Ins.depth (F d : Int) : Ins → Option Int
  | .push s => if F ≤ d ∧ s.readOk F = true then some (d + 1) else none
  | .pop r => if r.free && (decide (F < d) || decide (d = -1)) then some (d - 1) else none
  | .alu .sub (.imm 8) .rsp => if F ≤ d then some (d + 1) else none
  | .alu .add (.imm 8) .rsp => if F < d then some (d - 1) else none
  | .alu _ s r | .cmp s r => if r.free && s.readOk F then some d else none
  | .mov s t => if s.readOk F && t.writeOk F then some d else none
  | .movabs _ r | .not r | .neg r | .shl _ r | .sar _ r => if r.free then some d else none
  | .lea a r => if r.free && a.inFrame F then some d else none
  | .set _ | .cqo | .idiv _ | .jmp _ | .jcc _ _ => some d
  | .leave => if d = F then some (-1) else none
  | .ret => if d = -1 then some F else none
  | .jmpReg _ => if d = -2 then some F else none
  | .call _ | .callReg _ => if F ≤ d ∧ d % 2 = 0 then some d else none
  | .callMem a => if F ≤ d ∧ d % 2 = 0 ∧ a.inFrame F then some d else none
  | .enter _ => none

def Ev.depth (F d : Int) : Ev → Option Int
  | .ins i => i.depth F d
  | .label _ | .data _ | .flush => some d
  | .panic => none

/-- Jump targets with the depth of the jump. -/
def Ev.uses (d : Int) : Ev → List (Label × Int)
  | .ins (.jmp l) | .ins (.jcc _ l) => [(l, d)]
  | _ => []

def Ev.defs (d : Int) : Ev → List (Label × Int)
  | .label l => [(l, d)]
  | _ => []

structure Tr where
  stop : Int
  uses : List (Label × Int)
  defs : List (Label × Int)

def track (F : Int) : List Ev → Int → Option Tr
  | [], d => some ⟨d, [], []⟩
  | e :: c, d =>
    match e.depth F d with
    | none => none
    | some d' =>
      match track F c d' with
      | none => none
      | some t => some ⟨t.stop, e.uses d ++ t.uses, e.defs d ++ t.defs⟩

/-- The code passes the check from depth `d` to depth `d'`; jumps out of it go to `L`, the labels `E` are
in it. -/
def Chk (F : Int) (c : List Ev) (d d' : Int) (L E : List (Label × Int)) : Prop :=
  ∃ u e, track F c d = some ⟨d', u, e⟩ ∧ (∀ p ∈ u, p ∈ e ∨ p.1 = .ioob ∨ p ∈ L) ∧ (∀ p ∈ E, p ∈ e)

section
variable {F d d' d'' : Int} {c c' : List Ev} {L E E' : List (Label × Int)}

theorem track_append (a b : List Ev) (d : Int) {d1 d2 : Int} {u1 e1 u2 e2 : List (Label × Int)}
    (h1 : track F a d = some ⟨d1, u1, e1⟩) (h2 : track F b d1 = some ⟨d2, u2, e2⟩) :
    track F (a ++ b) d = some ⟨d2, u1 ++ u2, e1 ++ e2⟩ := by
  induction a generalizing d u1 e1 with
  | nil => simp only [track, Option.some.injEq, Tr.mk.injEq] at h1; obtain ⟨rfl, rfl, rfl⟩ := h1; exact h2
  | cons x a ih =>
    simp only [track, List.cons_append] at h1 ⊢
    cases hx : x.depth F d with
    | none => rw [hx] at h1; cases h1
    | some k =>
      rw [hx] at h1
      simp only at h1 ⊢
      cases ht : track F a k with
      | none => rw [ht] at h1; cases h1
      | some t =>
        obtain ⟨s, tu, te⟩ := t
        rw [ht] at h1
        simp only [Option.some.injEq, Tr.mk.injEq] at h1
        obtain ⟨rfl, rfl, rfl⟩ := h1
        rw [ih _ ht]
        simp

theorem Chk.nil : Chk F [] d d L [] := ⟨[], [], rfl, by simp, by simp⟩

theorem Chk.append (h : Chk F c d d' L E) (h' : Chk F c' d' d'' L E') :
    Chk F (c ++ c') d d'' L (E ++ E') := by
  obtain ⟨u, e, h1, h2, h3⟩ := h
  obtain ⟨u', e', h1', h2', h3'⟩ := h'
  refine ⟨u ++ u', e ++ e', track_append _ _ _ h1 h1', ?_, ?_⟩
  · intro p hp
    rw [List.mem_append] at hp ⊢
    rcases hp with hp | hp
    · rcases h2 p hp with h | h
      · exact .inl (.inl h)
      · exact .inr h
    · rcases h2' p hp with h | h
      · exact .inl (.inr h)
      · exact .inr h
  · intro p hp
    rw [List.mem_append] at hp ⊢
    exact hp.imp (h3 p) (h3' p)

theorem Chk.mono {L' : List (Label × Int)} (h : Chk F c d d' L E) (hE : E' ⊆ E) (hL : L ⊆ L') :
    Chk F c d d' L' E' := by
  obtain ⟨u, e, h1, h2, h3⟩ := h
  exact ⟨u, e, h1, fun p hp => (h2 p hp).imp id (Or.imp id (fun h => hL h)), fun p hp => h3 p (hE hp)⟩

theorem Chk.all (h : Chk F c d d' L E) {L' : List (Label × Int)} (hL : L ⊆ L') : Chk F c d d' L' [] :=
  h.mono (by simp) hL

theorem Chk.close {p : Label × Int} (h : Chk F c d d' (p :: L) E) (hp : p ∈ E) : Chk F c d d' L E := by
  obtain ⟨u, e, h1, h2, h3⟩ := h
  refine ⟨u, e, h1, ?_, h3⟩
  intro q hq
  rcases h2 q hq with h | h | h
  · exact .inl h
  · exact .inr (.inl h)
  · rcases List.mem_cons.1 h with rfl | h
    · exact .inl (h3 _ hp)
    · exact .inr (.inr h)

theorem Chk.ev {x : Ev} (hx : x.depth F d = some d') (hu : x.uses d = []) (h : Chk F c d' d'' L E) :
    Chk F (x :: c) d d'' L E := by
  obtain ⟨u, e, h1, h2, h3⟩ := h
  refine ⟨u, x.defs d ++ e, ?_, ?_, ?_⟩
  · simp only [track, hx, h1, hu, List.nil_append]
  · intro p hp
    exact (h2 p hp).imp (fun h => by simp [h]) id
  · intro p hp; simp [h3 p hp]

theorem Chk.ins {i : Ins} (hi : i.depth F d = some d') (hu : (Ev.ins i).uses d = [] := by rfl)
    (h : Chk F c d' d'' L E) : Chk F (.ins i :: c) d d'' L E := Chk.ev hi hu h

theorem Chk.keep {i : Ins} (hi : i.depth F d = some d) (hu : (Ev.ins i).uses d = [])
    (h : Chk F c d d' L E) : Chk F (.ins i :: c) d d' L E := Chk.ev hi hu h

theorem Chk.flush (h : Chk F c d d' L E) : Chk F (.flush :: c) d d' L E := Chk.ev rfl rfl h

theorem Chk.label {l : Label} (h : Chk F c d d' L E) : Chk F (.label l :: c) d d' L ((l, d) :: E) := by
  obtain ⟨u, e, h1, h2, h3⟩ := h
  refine ⟨u, (l, d) :: e, ?_, ?_, ?_⟩
  · simp only [track, Ev.depth, h1]; rfl
  · intro p hp
    exact (h2 p hp).imp (fun h => by simp [h]) id
  · intro p hp
    rcases List.mem_cons.1 hp with rfl | hp
    · simp
    · simp [h3 p hp]

theorem Chk.jump {i : Ins} {l : Label} (hi : i = .jmp l ∨ ∃ k, i = .jcc k l)
    (hl : l = .ioob ∨ (l, d) ∈ L) (h : Chk F c d d' L E) : Chk F (.ins i :: c) d d' L E := by
  obtain ⟨u, e, h1, h2, h3⟩ := h
  refine ⟨(l, d) :: u, e, ?_, ?_, h3⟩
  · rcases hi with rfl | ⟨k, rfl⟩ <;> simp only [track, Ev.depth, Ins.depth, h1] <;> rfl
  · intro p hp
    rcases List.mem_cons.1 hp with rfl | hp
    · exact .inr hl
    · exact h2 p hp

/-! ### Pieces of code -/

theorem chk_tag {t : TK} {r : Reg} (hr : r.free = true) (hp : Ev.panic ∉ tagAs t r) :
    Chk F (tagAs t r) d d L [] := by
  unfold tagAs at hp ⊢
  split
  · refine Chk.keep (by simp [Ins.depth, hr]) rfl (Chk.keep ?_ rfl Chk.nil)
    cases r <;> simp_all [Ins.depth, Opd.readOk, Reg.free]
  · rename_i h; simp [h] at hp

theorem chk_untag {t : TK} {r : Reg} (hr : r.free = true) (hp : Ev.panic ∉ untagAs t r) :
    Chk F (untagAs t r) d d L [] := by
  unfold untagAs at hp ⊢
  split
  · exact Chk.keep (by simp [Ins.depth, hr]) rfl Chk.nil
  · rename_i h; simp [h] at hp

theorem argReg_free {i : Nat} {r : Reg} (h : argRegs[i]? = some r) : r.free = true := by
  have := List.mem_of_getElem? h
  simp only [argRegs, List.mem_cons, List.not_mem_nil, or_false] at this
  rcases this with rfl | rfl | rfl | rfl | rfl | rfl <;> rfl

theorem push_depth {s : Opd} (hs : s.readOk F = true) (hF : F ≤ d) :
    (Ins.push s).depth F d = some (d + 1) := by
  simp only [Ins.depth]
  rw [if_pos ⟨hF, hs⟩]

theorem chk_spillAux (ts : List TyR) (i : Nat) (g : GS) (hF : F ≤ d) (hp : Ev.panic ∉ (spillAux ts i g).1) :
    Chk F (spillAux ts i g).1 d (d + ts.length) L [] := by
  induction ts generalizing i g with
  | nil => simpa [spillAux] using Chk.nil
  | cons t ts ih =>
    simp only [spillAux, List.mem_append, List.mem_singleton, not_or] at hp ⊢
    have h1 := ih (i + 1) g hp.1
    cases hr : argRegs[i]? with
    | none => rw [hr] at hp; exact absurd rfl hp.2
    | some r =>
      have := h1.append (Chk.ins (i := .push (.reg r)) (d' := d + ts.length + 1)
        (push_depth rfl (by omega)) rfl (Chk.nil (L := L)))
      simp only [List.length_cons, Int.natCast_add, Int.cast_ofNat_Int]
      rw [← Int.add_assoc]
      exact this

theorem chk_spill (g : GS) (hF : F ≤ d) (hp : Ev.panic ∉ (spill g).1) :
    Chk F (spill g).1 d (d + g.top.length) L [] := by
  unfold spill at hp ⊢
  cases h : g.reg with
  | nil => simpa [GS.top, h] using Chk.nil
  | cons top rest =>
    simp only [h] at hp
    simpa [GS.top, h] using chk_spillAux top 0 g hF hp

theorem chk_restoreAux (ts : List TyR) (i : Nat) (g : GS) (hF : F ≤ d)
    (hp : Ev.panic ∉ (restoreAux ts i g).1) :
    Chk F (restoreAux ts i g).1 (d + ts.length) d L [] := by
  induction ts generalizing i g with
  | nil => simpa [restoreAux] using Chk.nil
  | cons t ts ih =>
    simp only [restoreAux] at hp ⊢
    cases hr : argRegs[i]? with
    | none => rw [hr] at hp; revert hp; split <;> simp
    | some r =>
      rw [hr] at hp
      revert hp
      have hd : (Ins.pop r).depth F (d + ((t :: ts).length : Int)) = some (d + ts.length) := by
        simp only [Ins.depth, argReg_free hr, List.length_cons, Int.natCast_add, Int.cast_ofNat_Int, Bool.true_and]
        rw [if_pos]
        · congr 1; omega
        · rw [Bool.or_eq_true]; left; rw [decide_eq_true_eq]; omega
      split
      · simp
      · intro hp
        simp only [List.mem_cons, not_or] at hp
        exact Chk.ins hd rfl (ih _ _ hp.2)

theorem chk_restore (g : GS) {x : List TyR} {l : List (List TyR)} (h : g.reg = x :: l) (hF : F ≤ d)
    (hp : Ev.panic ∉ (restoreRegs g).1) :
    Chk F (restoreRegs g).1 (d + (l.headD []).length) d L [] := by
  unfold restoreRegs at hp ⊢
  rw [h] at hp ⊢
  cases l with
  | nil => simpa using Chk.nil
  | cons top rest => exact chk_restoreAux top 0 _ hF hp

theorem chk_rawConv {fi : FnInfo} {t : TK} {r : Reg} (hr : r.free = true)
    (hp : Ev.panic ∉ rawConv fi t r) : Chk F (rawConv fi t r) d d L [] := by
  unfold rawConv at hp ⊢
  split
  · rename_i hc
    rw [if_pos hc] at hp
    have hlea : (Ins.lea { base := r, disp := 8 } r).depth F d = some d := by
      cases r <;> simp_all [Ins.depth, MemOp.inFrame, Reg.free]
    split at hp
    · exact Chk.ins hlea rfl Chk.nil
    · exact Chk.ins hlea rfl Chk.nil
    · exact Chk.ins hlea rfl Chk.nil
    · exact chk_untag hr hp
    · rename_i h1 h2 h3 h4
      exact Chk.nil
  · exact Chk.nil

theorem chk_one {i : Ins} (hi : i.depth F d = some d') (hu : (Ev.ins i).uses d = []) :
    Chk F [.ins i] d d' L [] := Chk.ins hi hu Chk.nil

theorem chk_finish (fi : FnInfo) {t : Ins} (ind : Bool) {g : GS} {x : List TyR} {l : List (List TyR)}
    (h : g.reg = x :: l) (ht : ∀ k, F ≤ k → k % 2 = 0 → t.depth F k = some k)
    (hu : ∀ k, (Ev.ins t).uses k = []) (hF0 : 0 ≤ F) (hF : F ≤ d)
    (hd : (g.sp : Int) = d + (l.headD []).length + if ind then 1 else 0)
    (hp : Ev.panic ∉ (finishCall fi t ind g).1) :
    Chk F (finishCall fi t ind g).1 g.sp d L [] := by
  simp only [finishCall] at hp ⊢
  generalize hg1 : (if ind = true then g.dec else g) = g1 at hp ⊢
  have hr1 : g1.reg = x :: l := by rw [← hg1]; split <;> exact h
  have hs1 : (g1.sp : Int) = d + (l.headD []).length := by
    rw [← hg1]
    cases ind
    · simpa using hd
    · simp only [if_true, GS.dec] at hd ⊢; omega
  simp only [List.mem_append, List.mem_cons, not_or] at hp
  obtain ⟨-, -, -, -, hp4, -, -, hp7⟩ := hp
  have key : Chk F ((if fi.variadic then [.ins (.mov (.imm 0) rax)] else []) ++
      ((if ind then [.ins (.pop .rax)] else []) ++
      ((if g1.sp % 2 = 0 then [] else [.ins (.alu .sub (.imm 8) .rsp)]) ++
      ([.ins t] ++ ((if fi.ext && fi.raw && fi.ret.kind == .integer then tagAs .integer .rax else []) ++
      ((if fi.ext then [] else [gcMap g1]) ++
      ((if g1.sp % 2 = 0 then [] else [.ins (.alu .add (.imm 8) .rsp)]) ++ (restoreRegs g1).1)))))))
      g.sp d L [] := by
    have c1 : Chk F (if fi.variadic then [.ins (.mov (.imm 0) rax)] else []) g.sp g.sp L [] := by
      split
      · exact chk_one rfl rfl
      · exact Chk.nil
    have c2 : Chk F (if ind then [.ins (.pop .rax)] else []) g.sp g1.sp L [] := by
      cases ind
      · simp only [Bool.false_eq_true, if_false] at hd hg1 ⊢
        rw [← hg1]; exact Chk.nil
      · simp only [if_true] at hd ⊢
        refine chk_one ?_ rfl
        simp only [Ins.depth, Reg.free, Bool.true_and]
        rw [if_pos (by rw [Bool.or_eq_true]; left; rw [decide_eq_true_eq]; omega)]
        congr 1; omega
    have c4 : Chk F (if fi.ext && fi.raw && fi.ret.kind == .integer then tagAs .integer .rax else [])
        (g1.sp + (g1.sp % 2 : Nat)) (g1.sp + (g1.sp % 2 : Nat)) L [] := by
      split
      · rename_i hc
        rw [if_pos hc] at hp4
        exact chk_tag rfl hp4
      · exact Chk.nil
    have c5 : Chk F (if fi.ext then [] else [gcMap g1])
        (g1.sp + (g1.sp % 2 : Nat)) (g1.sp + (g1.sp % 2 : Nat)) L [] := by
      split
      · exact Chk.nil
      · exact Chk.ev rfl rfl Chk.nil
    have c3 : Chk F (if g1.sp % 2 = 0 then [] else [.ins (.alu .sub (.imm 8) .rsp)])
        g1.sp (g1.sp + (g1.sp % 2 : Nat)) L [] := by
      split
      · rename_i h; rw [h]; simpa using Chk.nil
      · rename_i h
        have : g1.sp % 2 = 1 := by omega
        rw [this]
        refine chk_one ?_ rfl
        simp only [Ins.depth]
        rw [if_pos (by omega)]
        rfl
    have c6 : Chk F (if g1.sp % 2 = 0 then [] else [.ins (.alu .add (.imm 8) .rsp)])
        (g1.sp + (g1.sp % 2 : Nat)) g1.sp L [] := by
      split
      · rename_i h; rw [h]; simpa using Chk.nil
      · rename_i h
        have : g1.sp % 2 = 1 := by omega
        rw [this]
        refine chk_one ?_ rfl
        simp only [Ins.depth]
        rw [if_pos (by omega)]
        congr 1; omega
    have ct : Chk F [.ins t] (g1.sp + (g1.sp % 2 : Nat)) (g1.sp + (g1.sp % 2 : Nat)) L [] :=
      chk_one (ht _ (by omega) (by omega)) (hu _)
    have c7 : Chk F (restoreRegs g1).1 g1.sp d L [] := by
      rw [hs1]
      exact chk_restore g1 hr1 hF hp7
    exact c1.append (c2.append (c3.append (ct.append (c4.append (c5.append (c6.append c7))))))
  exact key

theorem slot_inFrame {F s : Nat} (h1 : 1 ≤ s) (h2 : s ≤ F) : (slotOp s).inFrame F = true := by
  have h : (slotOp s).disp ≤ -8 ∧ -8 * (F : Int) ≤ (slotOp s).disp ∧ (slotOp s).disp % 8 = 0 := by
    simp only [slotOp]; omega
  exact Bool.and_eq_true_iff.2 ⟨rfl, decide_eq_true h⟩

end

section
variable {slot : Nat → Nat} {F : Nat} {L : List (Label × Int)}

theorem chk_op2 {a b post : List Ev} {t1 t2 : List Ev} {d : Int} (hF : (F : Int) ≤ d)
    (h1 : Chk F a d d L []) (ht1 : Chk F t1 d d L [])
    (h2 : Chk F b (d + 1) (d + 1) L []) (ht2 : Chk F t2 (d + 1) (d + 1) L [])
    {r : Reg} (hr : r.free = true) (h3 : Chk F post d d L []) :
    Chk F (a ++ (t1 ++ (.ins (.push rax) :: (b ++ (t2 ++ (.ins (.mov rax (.reg r)) :: .ins (.pop .rax) ::
      post)))))) d d L [] := by
  refine h1.append (ht1.append (Chk.ins (i := .push rax) (push_depth rfl (by omega)) rfl (h2.append (ht2.append ?_))))
  refine Chk.ins (d' := d + 1) ?_ rfl (Chk.ins (d' := d) ?_ rfl h3)
  · simp [Ins.depth, Opd.readOk, Opd.writeOk, hr, rax]
  · simp only [Ins.depth, Reg.free, Bool.true_and]
    rw [if_pos (by rw [Bool.or_eq_true]; left; rw [decide_eq_true_eq]; omega)]
    congr 1; omega

mutual
theorem chk_expr (e : Expr) (b : Bool) (g : GS) (hs : ∀ x ∈ e.vars, 1 ≤ slot x ∧ slot x ≤ F)
    (hF : F ≤ g.sp) (hp : Ev.panic ∉ (genExpr slot e b g).1) (L : List (Label × Int)) :
    Chk F (genExpr slot e b g).1 g.sp g.sp L [] := by
  match e with
  | .int i =>
    simp only [genExpr, List.mem_cons, not_or] at hp ⊢
    refine Chk.keep ?_ ?_ (chk_tag rfl hp.2)
    · split <;> rfl
    · split <;> rfl
  | .bool b => exact chk_one rfl rfl
  | .str s => exact Chk.flush (chk_one rfl rfl)
  | .typ t => exact Chk.nil
  | .fnRef f ext t =>
    simp only [genExpr]
    refine Chk.keep ?_ ?_ Chk.nil
    · split <;> rfl
    · split <;> rfl
  | .var x t =>
    have := slot_inFrame (hs x (by simp [Expr.vars])).1 (hs x (by simp [Expr.vars])).2
    simp only [genExpr, slotIns] at hp ⊢
    split
    · refine Chk.keep ?_ ?_ Chk.nil
      · split
        · simp [Ins.depth, Reg.free, this]
        · simp [Ins.depth, Opd.readOk, Opd.writeOk, Reg.free, rax, this]
      · split <;> rfl
    · rename_i h; simp [h] at hp
  | .bin o t l r =>
    simp only [Expr.vars, List.mem_append] at hs
    have ha := genExpr_state slot l false g
    have hsp : ((genExpr slot l false g).2.inc.sp : Int) = (g.sp : Int) + 1 := by
      simp only [GS.inc, ha.1]; rfl
    have il := fun hp => chk_expr l false g (fun x hx => hs x (.inl hx)) hF hp L
    have ir := fun hp => chk_expr r false (genExpr slot l false g).2.inc (fun x hx => hs x (.inr hx))
      (by simp only [GS.inc, ha.1]; omega) hp L
    rw [hsp] at ir
    have hF' : (F : Int) ≤ g.sp := by omega
    cases o
    case or | and =>
      simp only [genExpr, List.mem_append, List.mem_cons, not_or] at hp ⊢
      exact chk_op2 (t1 := []) (t2 := []) hF' (il (by tauto)) Chk.nil (ir (by tauto)) Chk.nil
        (r := .rbx) rfl (chk_one rfl rfl)
    case gt | ge | lt | le | eq =>
      simp only [genExpr, List.mem_append, List.mem_cons, not_or] at hp ⊢
      exact chk_op2 hF' (il (by tauto)) (chk_untag rfl (by tauto)) (ir (by tauto)) (chk_untag rfl (by tauto))
        (r := .rbx) rfl (Chk.keep rfl rfl (Chk.keep rfl rfl (chk_one rfl rfl)))
    case bleft | bright =>
      simp only [genExpr, List.mem_append, List.mem_cons, not_or] at hp ⊢
      exact chk_op2 hF' (il (by tauto)) (chk_untag rfl (by tauto)) (ir (by tauto)) (chk_untag rfl (by tauto))
        (r := .rcx) rfl (Chk.keep rfl rfl (chk_tag rfl (by tauto)))
    case div =>
      simp only [genExpr, List.mem_append, List.mem_cons, not_or] at hp ⊢
      exact chk_op2 hF' (il (by tauto)) (chk_untag rfl (by tauto)) (ir (by tauto)) (chk_untag rfl (by tauto))
        (r := .rbx) rfl (Chk.keep rfl rfl (Chk.keep rfl rfl (chk_tag rfl (by tauto))))
    all_goals
      simp only [genExpr, List.mem_append, List.mem_cons, not_or] at hp ⊢
      exact chk_op2 hF' (il (by tauto)) (chk_untag rfl (by tauto)) (ir (by tauto)) (chk_untag rfl (by tauto))
        (r := .rbx) rfl (Chk.keep rfl rfl (chk_tag rfl (by tauto)))
  | .un o t e =>
    simp only [Expr.vars] at hs
    have ie := fun hp => chk_expr e false g hs hF hp L
    cases o
    case not =>
      simp only [genExpr, List.mem_append, List.mem_cons, not_or] at hp ⊢
      exact (ie (by tauto)).append (Chk.keep rfl rfl (chk_one rfl rfl))
    case bnot =>
      simp only [genExpr, List.mem_append, List.mem_cons, not_or] at hp ⊢
      refine (ie (by tauto)).append (Chk.keep rfl rfl ?_)
      split
      · exact chk_one rfl rfl
      · rename_i h; simp [h] at hp
    case neg =>
      simp only [genExpr, List.mem_append, List.mem_cons, not_or] at hp ⊢
      exact (ie (by tauto)).append ((chk_untag rfl (by tauto)).append
        (Chk.keep rfl rfl (chk_tag rfl (by tauto))))
  | .tern t c x y =>
    simp only [Expr.vars, List.mem_append] at hs
    simp only [genExpr] at hp ⊢
    have h1 := genExpr_state slot c false g
    generalize ha : genExpr slot c false g = A at *
    have h2 := genExpr_state slot x false { A.2 with lbl := A.2.lbl + 2 }
    generalize hb : genExpr slot x false { A.2 with lbl := A.2.lbl + 2 } = B at *
    have h3 := genExpr_state slot y false B.2
    generalize hd : genExpr slot y false B.2 = D at *
    simp only [List.mem_append, List.mem_cons, not_or] at hp
    let L' : List (Label × Int) :=
      (Label.loc "else" A.2.lbl, (g.sp : Int)) :: (Label.loc "exit" (A.2.lbl + 1), (g.sp : Int)) :: L
    have ic := chk_expr c false g (fun x hx => hs x (.inl hx)) hF (by rw [ha]; tauto) L'
    have ix := chk_expr x false { A.2 with lbl := A.2.lbl + 2 } (fun x hx => hs x (.inr (.inl hx)))
      (by simp only [h1.1]; exact hF) (by rw [hb]; tauto) L'
    have iy := chk_expr y false B.2 (fun x hx => hs x (.inr (.inr hx)))
      (by simp only [h2.1, h1.1]; exact hF) (by rw [hd]; tauto) L'
    rw [ha] at ic
    rw [hb] at ix
    rw [hd] at iy
    simp only [h1.1] at ix
    simp only [h2.1, h1.1] at iy
    have key : Chk F (A.1 ++ (.flush :: .flush :: .ins (.cmp (.imm 1) .rax) ::
        .ins (.jcc .ne (Label.loc "else" A.2.lbl)) ::
        (B.1 ++ (.ins (.jmp (Label.loc "exit" (A.2.lbl + 1))) :: .label (Label.loc "else" A.2.lbl) ::
          (D.1 ++ [.label (Label.loc "exit" (A.2.lbl + 1))]))))) g.sp g.sp L' _ :=
      ic.append (Chk.flush (Chk.flush (Chk.keep rfl rfl (Chk.jump (.inr ⟨_, rfl⟩) (.inr (by simp [L']))
        (ix.append (Chk.jump (.inl rfl) (.inr (by simp [L'])) (Chk.label (iy.append (Chk.label Chk.nil)))))))))
    exact ((key.close (by simp)).close (by simp)).all (by simp)
  | .arrLit t e => simp only [genExpr] at hp ⊢; exact chk_expr e false g hs hF hp L
  | .callFn f fi args =>
    simp only [Expr.vars] at hs
    simp only [genExpr, List.mem_append, not_or] at hp ⊢
    have h1 := spill_state g
    have h2 := genArgs_state slot fi args 0 (spill g).2 h1.2.1
    have is := chk_spill (F := F) (d := g.sp) (L := L) g (by omega) hp.1
    have ia := chk_args fi args 0 (spill g).2 hs (by rw [h1.1]; omega) h1.2.1 hp.2.1 L
    have iz := chk_finish (F := F) (d := g.sp) (L := L) fi (t := .call f) false h2.2
      (fun k h h' => by simp [Ins.depth, h, h']) (fun _ => rfl) (by omega) (by omega)
      (by simp [h2.1, h1.1, GS.top]) hp.2.2
    rw [h2.1, h1.1] at iz
    rw [h1.1] at ia
    push_cast at ia iz
    exact is.append (ia.append iz)
  | .callVar x fi args =>
    have hx := slot_inFrame (hs x (by simp [Expr.vars])).1 (hs x (by simp [Expr.vars])).2
    simp only [Expr.vars, List.mem_cons] at hs
    simp only [genExpr, List.mem_append, not_or] at hp ⊢
    have hsl : slotOk (slot x) = true := by
      have := hp.2.2
      split at this
      · assumption
      · simp at this
    simp only [hsl, if_true] at hp ⊢
    have h1 := spill_state g
    have h2 := genArgs_state slot fi args 0 (spill g).2 h1.2.1
    have is := chk_spill (F := F) (d := g.sp) (L := L) g (by omega) hp.1
    have ia := chk_args fi args 0 (spill g).2 (fun y hy => hs y (.inr hy)) (by rw [h1.1]; omega)
      h1.2.1 hp.2.1 L
    have iz := chk_finish (F := F) (d := g.sp) (L := L) fi (t := .callMem (slotOp (slot x))) false h2.2
      (fun k h h' => by simp [Ins.depth, h, h', hx]) (fun _ => rfl) (by omega) (by omega)
      (by simp [h2.1, h1.1, GS.top]) hp.2.2
    rw [h2.1, h1.1] at iz
    rw [h1.1] at ia
    push_cast at ia iz
    exact is.append (ia.append iz)
  | .callExpr e fi args =>
    simp only [Expr.vars, List.mem_append] at hs
    simp only [genExpr, List.mem_append, List.mem_cons, not_or] at hp ⊢
    have h0 := genExpr_state slot e false g
    have h1 := spill_state (genExpr slot e false g).2.inc
    have h2 := genArgs_state slot fi args 0 (spill (genExpr slot e false g).2.inc).2 h1.2.1
    have h0' : (genExpr slot e false g).2.inc.sp = g.sp + 1 := by simp only [GS.inc, h0.1]
    have ie := chk_expr e false g (fun y hy => hs y (.inl hy)) hF (by tauto) L
    have is := chk_spill (F := F) (d := g.sp + 1) (L := L) (genExpr slot e false g).2.inc (by omega) (by tauto)
    have ia := chk_args fi args 0 (spill (genExpr slot e false g).2.inc).2 (fun y hy => hs y (.inr hy))
      (by rw [h1.1]; omega) h1.2.1 (by tauto) L
    have iz := chk_finish (F := F) (d := g.sp) (L := L) fi (t := .callReg .rax) true h2.2
      (fun k h h' => by simp [Ins.depth, h, h']) (fun _ => rfl) (by omega) (by omega)
      (by simp only [h2.1, h1.1, GS.top, h0', if_true]; push_cast; omega) (by tauto)
    rw [h2.1, h1.1, h0'] at iz
    rw [h1.1, h0'] at ia
    push_cast at ia iz
    exact ie.append (Chk.ins (i := .push rax) (push_depth rfl (by omega)) rfl (is.append (ia.append iz)))
  | .dot t e off =>
    simp only [Expr.vars] at hs
    simp only [genExpr, List.mem_append, not_or] at hp ⊢
    have ie := chk_expr e false g hs hF hp.1 L
    refine chk_op2 (t1 := []) (t2 := []) (b := [.ins (.mov (.imm off) rax)]) (r := .rbx) (by omega) ie Chk.nil
      (chk_one rfl rfl) Chk.nil rfl (chk_one ?_ ?_)
    · split <;> rfl
    · split <;> rfl
  | .index t a i =>
    simp only [Expr.vars, List.mem_append] at hs
    simp only [genExpr, List.mem_append, List.mem_cons, not_or] at hp ⊢
    have ha := genExpr_state slot a false g
    have hsp : ((genExpr slot a false g).2.inc.sp : Int) = (g.sp : Int) + 1 := by
      simp only [GS.inc, ha.1]; rfl
    have ia := chk_expr a false g (fun x hx => hs x (.inl hx)) hF (by tauto) L
    have ii := chk_expr i false (genExpr slot a false g).2.inc (fun x hx => hs x (.inr hx))
      (by simp only [GS.inc, ha.1]; omega) (by tauto) L
    rw [hsp] at ii
    refine ia.append (Chk.ins (i := .push rax) (push_depth rfl (by omega)) rfl (ii.append ((chk_untag rfl (by tauto)).append
      (Chk.keep rfl rfl (Chk.keep rfl rfl (Chk.keep rfl rfl ((chk_untag rfl (by tauto)).append
      (Chk.keep rfl rfl (Chk.ins (d' := g.sp) ?_ rfl (Chk.jump (.inr ⟨_, rfl⟩) (.inl rfl)
      (Chk.keep ?_ ?_ Chk.nil)))))))))))
    · simp only [Ins.depth, Reg.free, Bool.true_and]
      rw [if_pos (by rw [Bool.or_eq_true]; left; rw [decide_eq_true_eq]; omega)]
      congr 1; omega
    · split <;> rfl
    · split <;> rfl

theorem chk_args (fi : FnInfo) (es : List Expr) (i : Nat) (g : GS) {top : List TyR} {l : List (List TyR)}
    (hs : ∀ x ∈ varsL es, 1 ≤ slot x ∧ slot x ≤ F) (hF : F ≤ g.sp) (h : g.reg = top :: l)
    (hp : Ev.panic ∉ (genArgs slot fi es i g).1) (L : List (Label × Int)) :
    Chk F (genArgs slot fi es i g).1 g.sp g.sp L [] := by
  match es with
  | [] => exact Chk.nil
  | e :: es =>
    simp only [varsL, List.mem_append] at hs
    have h1 := genExpr_state slot e false g
    have hr : ((genExpr slot e false g).2.inUse e.ty).reg = (top ++ [e.ty]) :: l := by
      simp [GS.inUse, h1.2, h]
    have hsp : ((genExpr slot e false g).2.inUse e.ty).sp = g.sp := by
      simp only [GS.inUse, h1.2, h]; exact h1.1
    simp only [genArgs, List.mem_append, not_or] at hp ⊢
    have ie := chk_expr e false g (fun x hx => hs x (.inl hx)) hF hp.1 L
    have is := chk_args fi es (i + 1) ((genExpr slot e false g).2.inUse e.ty)
      (fun x hx => hs x (.inr hx)) (by rw [hsp]; exact hF) hr hp.2.2 L
    rw [hsp] at is
    refine ie.append (Chk.append (E := []) ?_ is)
    obtain ⟨-, hp, -⟩ := hp
    cases hc : argRegs[i]? with
    | none => rw [hc] at hp; simp at hp
    | some r =>
      rw [hc] at hp
      simp only [List.mem_cons, not_or] at hp
      refine Chk.keep ?_ rfl (chk_rawConv (argReg_free hc) hp.2)
      simp [Ins.depth, Opd.readOk, Opd.writeOk, argReg_free hc, rax]
end

end

section
variable {slot : Nat → Nat} {F : Nat} {L : List (Label × Int)}

theorem chk_exit (skip : Bool) : Chk F (genFnExit skip) F F L [] := by
  unfold genFnExit
  refine Chk.ins (d' := -1) (by simp [Ins.depth]) rfl ?_
  cases skip
  · refine Chk.ins (d' := -2) (by rfl) rfl (Chk.keep rfl rfl (Chk.ins (d' := F) rfl rfl (Chk.flush Chk.nil)))
  · exact Chk.ins (d' := F) rfl rfl (Chk.flush Chk.nil)

theorem spF {c : List Ev} {n : Nat} (h : Chk F c n n L []) (hn : n = F) : Chk F c F F L [] := by
  subst hn; exact h

theorem chk_return (skip : Bool) (e : Option Expr) (g : GS) (hg : g.sp = F)
    (hs : ∀ e' , e = some e' → ∀ x ∈ e'.vars, 1 ≤ slot x ∧ slot x ≤ F)
    (hp : Ev.panic ∉ (genReturn slot skip e g).1) (L : List (Label × Int)) :
    Chk F (genReturn slot skip e g).1 F F L [] := by
  cases e with
  | none => exact chk_exit skip
  | some e =>
    simp only [genReturn, List.mem_append, not_or] at hp ⊢
    have := chk_expr e false g (hs e rfl) (by omega) hp.1 L
    rw [hg] at this
    exact this.append (chk_exit skip)

mutual
theorem chk_stmt (skip : Bool) (s : Stmt) (g : GS) (hs : ∀ x ∈ s.vars, 1 ≤ slot x ∧ slot x ≤ F)
    (hg : g.sp = F) (hp : Ev.panic ∉ (genStmt slot skip s g).1) (L : List (Label × Int)) :
    Chk F (genStmt slot skip s g).1 F F L [] := by
  match s with
  | .ret e =>
    simp only [genStmt] at hp ⊢
    refine chk_return skip e g hg ?_ hp L
    intro e' he
    subst he
    exact hs
  | .ifs c =>
    simp only [genStmt, List.mem_append, List.mem_cons, not_or] at hp ⊢
    have h := chk_chain skip (.loc "if_end" g.lbl) c { g with lbl := g.lbl + 1 } hs hg hp.2.1
      ((.loc "if_end" g.lbl, (F : Int)) :: L) (by simp)
    have := Chk.flush (h.append (Chk.label (l := .loc "if_end" g.lbl) Chk.nil))
    exact (this.close (by simp)).all (by simp)
  | .asg decl l r =>
    rw [genStmt.eq_def] at hp ⊢
    simp only [Stmt.vars, List.mem_append] at hs
    simp only [List.mem_append, List.mem_cons, not_or] at hp ⊢
    have h1 := genExpr_state slot r false g
    have h2 : (genExpr slot r false g).2.inc.sp = F + 1 := by simp only [GS.inc, h1.1, hg]
    have ir := chk_expr r false g (fun x hx => hs x (.inr hx)) (by omega) (by tauto) L
    have il := chk_expr l true (genExpr slot r false g).2.inc (fun x hx => hs x (.inl hx)) (by omega)
      (by tauto) L
    rw [hg] at ir
    rw [h2] at il
    refine ir.append (Chk.ins (i := .push rax) (d' := ((F + 1 : Nat) : Int)) (push_depth rfl (by omega)) rfl (il.append (Chk.ins (d' := F) ?_ rfl
      (chk_one rfl rfl))))
    simp only [Ins.depth, Reg.free, Bool.true_and]
    rw [if_pos (by rw [Bool.or_eq_true]; left; rw [decide_eq_true_eq]; omega)]
    congr 1; omega
  | .loop c body =>
    simp only [Stmt.vars, List.mem_append] at hs
    simp only [genStmt, List.mem_append, List.mem_cons, not_or] at hp ⊢
    have h1 := genExpr_state slot c false { g with lbl := g.lbl + 2 }
    let L' : List (Label × Int) :=
      (Label.loc "while_end" g.lbl, (F : Int)) :: (Label.loc "while_start" (g.lbl + 1), (F : Int)) :: L
    have ic := chk_expr c false { g with lbl := g.lbl + 2 } (fun x hx => hs x (.inl hx)) (by simp only; omega)
      (by tauto) L'
    have ib := chk_stmts skip body (genExpr slot c false { g with lbl := g.lbl + 2 }).2
      (fun x hx => hs x (.inr hx)) (by rw [h1.1]; exact hg) (by tauto) L'
    replace ic := spF ic hg
    have key := Chk.flush (Chk.flush (Chk.label (l := .loc "while_start" (g.lbl + 1)) (ic.append (Chk.keep
      (i := .cmp (.imm 1) .rax) rfl rfl
      (Chk.jump (i := .jcc .ne (.loc "while_end" g.lbl)) (.inr ⟨_, rfl⟩) (.inr (by simp [L']))
      (ib.append (Chk.jump (i := .jmp (.loc "while_start" (g.lbl + 1))) (.inl rfl) (.inr (by simp [L']))
      (Chk.label (l := .loc "while_end" g.lbl) Chk.nil))))))))
    exact ((key.close (by simp)).close (by simp)).all (fun _ h => h)
  | .block body => simp only [genStmt] at hp ⊢; exact chk_stmts skip body g hs hg hp L
  | .expr e =>
    simp only [genStmt] at hp ⊢
    have := chk_expr e false g hs (by omega) hp L
    rwa [hg] at this
termination_by (sizeOf s, 0)

theorem chk_chain (skip : Bool) (exit : Label) (c : Chain) (g : GS)
    (hs : ∀ x ∈ c.vars, 1 ≤ slot x ∧ slot x ≤ F) (hg : g.sp = F)
    (hp : Ev.panic ∉ (genChain slot skip exit c g).1) (L : List (Label × Int)) (hL : (exit, (F : Int)) ∈ L) :
    Chk F (genChain slot skip exit c g).1 F F L [] := by
  match c with
  | .done => simp only [genChain]; exact Chk.nil
  | .els body => simp only [genChain] at hp ⊢; exact chk_stmts skip body g hs hg hp L
  | .cond c body next =>
    simp only [Chain.vars, List.mem_append] at hs
    simp only [genChain, List.mem_append, List.mem_cons, not_or] at hp ⊢
    have h1 := genExpr_state slot c false g
    have h2 := genStmts_state slot skip body { (genExpr slot c false g).2 with lbl := (genExpr slot c false g).2.lbl + 1 }
    let L' : List (Label × Int) :=
      (Label.loc "else" (genExpr slot c false g).2.lbl, (F : Int)) :: L
    have ic := chk_expr c false g (fun x hx => hs x (.inl hx)) (by omega) (by tauto) L'
    have ib := chk_stmts skip body
      { (genExpr slot c false g).2 with lbl := (genExpr slot c false g).2.lbl + 1 }
      (fun x hx => hs x (.inr (.inl hx))) (by simp only [h1.1]; exact hg) (by tauto) L'
    have id := chk_chain skip exit next _ (fun x hx => hs x (.inr (.inr hx)))
      (by rw [h2.1]; simp only [h1.1]; exact hg) hp.2.2.2.2.2.2.2 L' (by simp [L', hL])
    rw [hg] at ic
    have key := ic.append (Chk.flush (Chk.keep (i := .cmp (.imm 1) .rax) rfl rfl
      (Chk.jump (i := .jcc .ne (.loc "else" (genExpr slot c false g).2.lbl)) (.inr ⟨_, rfl⟩)
        (.inr (by simp [L']))
      (ib.append (Chk.jump (i := .jmp exit) (.inl rfl) (.inr (by simp [L', hL]))
      (Chk.label (l := .loc "else" (genExpr slot c false g).2.lbl) id))))))
    exact (key.close (by simp)).all (by simp)
termination_by (sizeOf c, 0)

theorem chk_stmts (skip : Bool) (ss : Stmts) (g : GS) (hs : ∀ x ∈ ss.vars, 1 ≤ slot x ∧ slot x ≤ F)
    (hg : g.sp = F) (hp : Ev.panic ∉ (genStmts slot skip ss g).1) (L : List (Label × Int)) :
    Chk F (genStmts slot skip ss g).1 F F L [] := by
  rw [genStmts] at hp ⊢
  exact chk_stmtsGo skip ss { g with gc := g.gc.openScope } hs hg hp L
termination_by (sizeOf ss, 1)

theorem chk_stmtsGo (skip : Bool) (ss : Stmts) (g : GS) (hs : ∀ x ∈ ss.vars, 1 ≤ slot x ∧ slot x ≤ F)
    (hg : g.sp = F) (hp : Ev.panic ∉ (genStmtsGo slot skip ss g).1) (L : List (Label × Int)) :
    Chk F (genStmtsGo slot skip ss g).1 F F L [] := by
  match ss with
  | .nil => simp only [genStmtsGo]; exact Chk.nil
  | .cons s ss =>
    simp only [Stmts.vars, List.mem_append] at hs
    simp only [genStmtsGo, List.mem_append, not_or] at hp ⊢
    have h1 := genStmt_state slot skip s g
    exact (chk_stmt skip s g (fun x hx => hs x (.inl hx)) hg hp.1 L).append
      (chk_stmtsGo skip ss _ (fun x hx => hs x (.inr hx)) (by rw [h1.1]; exact hg) hp.2 L)
termination_by (sizeOf ss, 0)
end

/-! ### Functions -/

theorem chk_params (ps : List (Nat × TyR)) (i : Nat) (gc : GcS) (hi : i + ps.length ≤ F)
    (hp : Ev.panic ∉ (genParams ps i gc).1) : Chk F (genParams ps i gc).1 F F L [] := by
  induction ps generalizing i gc with
  | nil => exact Chk.nil
  | cons p ps ih =>
    obtain ⟨x, t⟩ := p
    simp only [genParams, List.mem_cons, not_or, List.length_cons] at hp hi ⊢
    have := ih (i + 1) _ (by omega) hp.2
    revert hp
    split
    · rename_i r hr
      intro hp
      unfold slotIns at hp ⊢
      split
      · refine Chk.keep ?_ rfl this
        have h := slot_inFrame (F := F) (s := i + 1) (by omega) (by omega)
        have hb : (slotOp (i + 1)).base ≠ .rsp := by simp [slotOp]
        simp [Ins.depth, Opd.readOk, Opd.writeOk, h, hb]
      · rename_i h; simp [h] at hp
    · intro hp; exact absurd rfl hp.1

theorem chk_fields (n i off : Nat) (hi : i + n ≤ F) : Chk F (genFields n i off) F F L [] := by
  induction n generalizing i off with
  | zero => exact Chk.nil
  | succ n ih =>
    refine Chk.keep ?_ rfl (Chk.keep rfl rfl (ih (i + 1) (off + 8) (by omega)))
    have h := slot_inFrame (F := F) (s := i + 1) (by omega) (by omega)
    simp [Ins.depth, Opd.readOk, Opd.writeOk, rbx, h, Reg.free]

theorem chk_cons (alloc : String) (n : Nat) (tag : Option Nat) (desc : String) (id : Nat) (g : GS)
    (hn : n ≤ F) (he : F % 2 = 0) : Chk F (genCons alloc n tag desc id g) F F L [] := by
  unfold genCons
  refine Chk.keep rfl rfl (Chk.flush (Chk.keep rfl rfl (Chk.keep rfl rfl (Chk.keep ?_ rfl
    (Chk.ev rfl rfl (Chk.append (E := []) (d' := F) ?_ (chk_exit false)))))))
  · simp only [Ins.depth]
    rw [if_pos (by omega)]
  · cases tag with
    | none => exact chk_fields n 0 0 (by omega)
    | some t => exact Chk.keep rfl rfl (chk_fields n 0 8 (by omega))

theorem addNew_pre (acc l : List Nat) : ∃ t, addNew acc l = acc ++ t := by
  induction l generalizing acc with
  | nil => exact ⟨[], by simp [addNew]⟩
  | cons x l ih =>
    simp only [addNew]
    split
    · exact ih acc
    · obtain ⟨t, ht⟩ := ih (acc ++ [x]); exact ⟨x :: t, by simp [ht]⟩

theorem addNew_sub (acc l : List Nat) : ∀ x ∈ l, x ∈ addNew acc l := by
  induction l generalizing acc with
  | nil => simp
  | cons y l ih =>
    intro x hx
    simp only [addNew]
    rcases List.mem_cons.1 hx with rfl | hx
    · split
      · obtain ⟨t, ht⟩ := addNew_pre acc l; rw [ht]; simp [*]
      · obtain ⟨t, ht⟩ := addNew_pre (acc ++ [x]) l; rw [ht]; simp
    · split <;> exact ih _ x hx

theorem frame_slot {fd : FnDef} : ∀ x ∈ fd.body.vars, 1 ≤ fd.slot x ∧ fd.slot x ≤ fd.frame := by
  intro x hx
  have := List.idxOf_lt_length_of_mem (addNew_sub (fd.params.map (·.1)) fd.body.vars x hx)
  simp only [FnDef.slot, FnDef.frame]
  change fd.syms.idxOf x < fd.syms.length at this
  omega

theorem frame_even (fd : FnDef) : fd.frame % 2 = 0 := by simp only [FnDef.frame]; omega

theorem frame_params (fd : FnDef) : fd.params.length ≤ fd.frame := by
  obtain ⟨t, ht⟩ := addNew_pre (fd.params.map (·.1)) fd.body.vars
  simp only [FnDef.frame, FnDef.syms, ht]
  simp only [List.length_append, List.length_map]
  omega

/-- The code of a function after its `enter`. -/
def FnDef.inner (alloc : String) (fd : FnDef) (lbl : Nat) : List Ev := (genFunc alloc fd lbl).1.drop 4

theorem genFunc_inner (alloc : String) (fd : FnDef) (lbl : Nat) :
    (genFunc alloc fd lbl).1 = .flush :: .data [] :: .label (.fn fd.name) :: .ins (.enter (fd.frame * 8)) ::
      fd.inner alloc lbl := rfl

theorem chk_func (alloc : String) (fd : FnDef) (lbl : Nat) (hp : Ev.panic ∉ (genFunc alloc fd lbl).1) :
    Chk fd.frame (fd.inner alloc lbl) fd.frame fd.frame [] [] := by
  rw [genFunc_inner] at hp
  simp only [List.mem_cons, not_or] at hp
  replace hp := hp.2.2.2.2
  revert hp
  unfold FnDef.inner genFunc
  intro hp
  simp only [List.drop_succ_cons, List.drop_zero, List.mem_append, not_or] at hp ⊢
  refine (chk_params _ 0 {} (by have := frame_params fd; omega) hp.1).append (Chk.append (E := []) ?_ (Chk.flush Chk.nil))
  obtain ⟨-, hp, -⟩ := hp
  revert hp
  have hv := frame_slot (fd := fd)
  revert hv
  cases fd.body with
  | cons tag desc id =>
    intro _ _
    exact chk_cons _ _ _ _ _ _ (frame_params fd) (frame_even fd)
  | block ss =>
    intro hv hp
    simp only [List.mem_append, not_or] at hp ⊢
    refine (chk_stmts fd.skip ss _ hv rfl hp.1 []).append ?_
    split
    · exact chk_exit _
    · exact Chk.nil
  | expr e =>
    intro hv hp
    refine chk_return fd.skip (some e) _ rfl ?_ hp []
    intro e' he
    injection he with he; subst he; exact hv

end

/-! ### Meaning of the check -/

/-- The machine is at depth `d` of a frame with base `B`.  Negative depths are those after `leave`. -/
def AtDepth {σ : Type} (B : Word) (d : Int) (m : Mach σ) : Prop :=
  m.reg .rsp = B - BitVec.ofInt 64 (8 * d) ∧ (0 ≤ d → m.reg .rbp = B)

theorem Reg.free_ne {r : Reg} (h : r.free = true) : Reg.rsp ≠ r ∧ Reg.rbp ≠ r := by
  cases r <;> simp_all [Reg.free]

section
variable {σ : Type}

theorem AtDepth.set {m : Mach σ} {B : Word} {d : Int} {r : Reg} (hr : r.free = true) (w : Word)
    (h : AtDepth B d m) : AtDepth B d (m.set r w) := by
  have := Reg.free_ne hr
  simp only [AtDepth, Mach.set, this.1, this.2, if_false]
  exact h

theorem AtDepth.put {m : Mach σ} {B : Word} {F d : Int} {o : Opd} (ho : o.writeOk F = true) (w : Word)
    (h : AtDepth B d m) : AtDepth B d (m.put o w) := by
  cases o with
  | imm i => exact h
  | reg r => exact h.set ho w
  | mem a => exact h

theorem ofInt_succ8 (d : Int) : BitVec.ofInt 64 (8 * (d + 1)) = BitVec.ofInt 64 (8 * d) + 8 := by
  rw [Int.mul_add, BitVec.ofInt_add]; rfl

theorem ofInt_pred8 (d : Int) : BitVec.ofInt 64 (8 * (d - 1)) = BitVec.ofInt 64 (8 * d) - 8 := by
  have := ofInt_succ8 (d - 1)
  rw [Int.sub_add_cancel] at this
  rw [this]
  exact (BitVec.add_sub_cancel _ _).symm

theorem sub_sub8 (a b : Word) : a - (b - 8) = a - b + 8 := by
  rw [BitVec.sub_eq_add_neg, BitVec.sub_eq_add_neg b, BitVec.neg_add, BitVec.sub_eq_add_neg, BitVec.neg_neg,
    BitVec.sub_eq_add_neg, BitVec.add_assoc]

theorem sub_neg8 (a : Word) : a - BitVec.ofInt 64 (8 * (-1)) = a + 8 := by
  have := sub_sub8 a 0#64
  rw [BitVec.sub_zero] at this
  exact this

/-- One instruction that passes the check moves the stack pointer as the check says. -/
theorem depth_exec {m m' : Mach σ} {B : Word} {F d d' : Int} {i : Ins} {abs : Abs → Word} (hF : 0 ≤ F)
    (h : AtDepth B d m) (hd : i.depth F d = some d') (hx : exec abs m i = some m') : AtDepth B d' m' := by
  have hsub : AtDepth B (d + 1) (m.set .rsp (m.reg .rsp - 8)) ∨ d < 0 := by
    by_cases h0 : 0 ≤ d
    · left
      refine ⟨?_, fun _ => h.2 h0⟩
      simp only [Mach.set, if_true, h.1, ofInt_succ8]
      exact (BitVec.sub_sub _ _ _)
    · omega
  have hadd : AtDepth B (d - 1) (m.set .rsp (m.reg .rsp + 8)) := by
    refine ⟨?_, fun _ => h.2 (by omega)⟩
    simp only [Mach.set, if_true, h.1, ofInt_pred8]
    exact (sub_sub8 _ _).symm
  have halu : ∀ o s r, r.free = true → i = .alu o s r → AtDepth B d m' := by
    rintro o s r hr rfl
    simp only [exec, Option.some.injEq] at hx
    subst hx
    exact AtDepth.set (m := m) hr _ h
  cases i with
  | push s =>
    simp only [Ins.depth] at hd
    split at hd
    · cases hd
      simp only [exec, Option.some.injEq] at hx
      subst hx
      rcases hsub with h | h
      · exact h
      · omega
    · cases hd
  | pop r =>
    simp only [Ins.depth] at hd
    split at hd
    · rename_i hc
      cases hd
      simp only [exec, Option.some.injEq] at hx
      subst hx
      exact hadd.set (Bool.and_eq_true_iff.1 hc).1 _
    · cases hd
  | alu o s r =>
    simp only [Ins.depth] at hd
    split at hd
    all_goals rename_i heq
    all_goals first | (cases heq; done) | skip
    · cases heq
      split at hd <;> cases hd
      simp only [exec, Option.some.injEq] at hx
      subst hx
      rcases hsub with h | h
      · exact h
      · omega
    · cases heq
      split at hd <;> cases hd
      simp only [exec, Option.some.injEq] at hx
      subst hx
      exact hadd
    · cases heq
      split at hd
      · rename_i hc
        cases hd
        exact halu _ _ _ (Bool.and_eq_true_iff.1 hc).1 rfl
      · cases hd
  | leave =>
    simp only [Ins.depth] at hd
    split at hd
    · rename_i hc
      cases hd
      simp only [exec, Option.some.injEq] at hx
      subst hx
      refine ⟨?_, fun h => absurd h (by omega)⟩
      simp only [Mach.set, if_true, if_false, reduceCtorEq, h.2 (by omega)]
      exact (sub_neg8 B).symm
    · cases hd
  | mov s t =>
    simp only [Ins.depth] at hd
    split at hd
    · rename_i hc
      cases hd
      simp only [exec, Option.some.injEq] at hx
      subst hx
      exact h.put (Bool.and_eq_true_iff.1 hc).2 _
    · cases hd
  | movabs s r =>
    simp only [Ins.depth] at hd
    split at hd <;> cases hd
    simp only [exec, Option.some.injEq] at hx
    subst hx
    exact h.set (by assumption) _
  | not r =>
    simp only [Ins.depth] at hd
    split at hd <;> cases hd
    simp only [exec, Option.some.injEq] at hx
    subst hx
    exact h.set (by assumption) _
  | neg r =>
    simp only [Ins.depth] at hd
    split at hd <;> cases hd
    simp only [exec, Option.some.injEq] at hx
    subst hx
    exact AtDepth.set (m := m) (by assumption) _ h
  | shl c r =>
    simp only [Ins.depth] at hd
    split at hd <;> cases hd
    simp only [exec, Option.some.injEq] at hx
    subst hx
    exact AtDepth.set (m := m) (by assumption) _ h
  | sar c r =>
    simp only [Ins.depth] at hd
    split at hd <;> cases hd
    simp only [exec, Option.some.injEq] at hx
    subst hx
    exact AtDepth.set (m := m) (by assumption) _ h
  | lea a r =>
    simp only [Ins.depth] at hd
    split at hd
    · rename_i hc
      cases hd
      simp only [exec, Option.some.injEq] at hx
      subst hx
      exact h.set (Bool.and_eq_true_iff.1 hc).1 _
    · cases hd
  | cmp s r =>
    simp only [Ins.depth] at hd
    split at hd <;> cases hd
    simp only [exec, Option.some.injEq] at hx
    subst hx
    exact h
  | set c =>
    cases hd
    simp only [exec] at hx
    split at hx
    · cases hx
    · simp only [Option.some.injEq] at hx
      subst hx
      exact h.set rfl _
  | cqo =>
    cases hd
    simp only [exec, Option.some.injEq] at hx
    subst hx
    exact h.set rfl _
  | idiv r =>
    simp only [Ins.depth, Option.some.injEq] at hd
    subst hd
    have key : ∀ (c : Prop) [Decidable c] (x : Mach σ),
        (if c then some x else none) = some m' → x = m' := by
      intro c _ x h
      split at h
      · injection h
      · cases h
    have := key _ _ hx
    subst this
    exact AtDepth.set (m := m.set .rax ((m.reg .rax).sdiv (m.reg r))) (r := .rdx) rfl
      ((m.reg .rax).srem (m.reg r)) (AtDepth.set (r := .rax) rfl _ h)
  | enter n => cases hd
  | jmp | jcc | jmpReg | call | callReg | callMem | ret => cases hx
end

end Clara.Gen
