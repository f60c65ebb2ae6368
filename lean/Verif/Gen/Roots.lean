import Verif.Gen.Sites
import Verif.Gen.Shape
/-
The root maps written by the generator, call by call.
-/
namespace Clara.Gen

/-- The roots for intermediate values; `k` is the stack slot of the first. -/
def rootedFrom : Nat → List Temp → List (Nat × TyR)
  | _, [] => []
  | k, .arg _ t :: ts => (if t.kind.isPointer then [(8 * k, t)] else []) ++ rootedFrom (k + 1) ts
  | k, _ :: ts => rootedFrom (k + 1) ts

def Temp.opd : Temp → Option Opd
  | .arg i _ => (argRegs[i]?).map .reg
  | _ => some rax

def mapOf (F : Nat) (V : List (Nat × TyR)) (ts : List Temp) : List Nat := (V ++ rootedFrom (F + 1) ts).map (·.1 / 8)

theorem rootedFrom_append (k : Nat) (a b : List Temp) : rootedFrom k (a ++ b) = rootedFrom k a ++ rootedFrom (k + a.length) b := by
  induction a generalizing k with
  | nil => rfl
  | cons t a ih =>
    cases t <;> simp only [List.cons_append, rootedFrom, ih (k + 1), List.length_cons, List.append_assoc] <;>
      rw [show k + 1 + a.length = k + (a.length + 1) by omega]

theorem rootedFrom_le (k : Nat) (ts : List Temp) : ∀ p ∈ rootedFrom k ts, p.1 + 8 ≤ 8 * (k + ts.length) := by
  induction ts generalizing k with
  | nil => intro p hp; cases hp
  | cons t ts ih =>
    intro p hp
    have h2 : p ∈ rootedFrom (k + 1) ts → p.1 + 8 ≤ 8 * (k + (t :: ts).length) := fun h => by
      have := ih _ p h
      simp only [List.length_cons]
      omega
    cases t with
    | arg i t =>
      simp only [rootedFrom, List.mem_append] at hp
      rcases hp with hp | hp
      · split at hp
        · rw [List.mem_singleton] at hp
          rw [hp]
          simp only [List.length_cons]
          omega
        · cases hp
      · exact h2 hp
    | _ => exact h2 hp

theorem waiting_length (i : Nat) (u : List TyR) : (waiting i u).length = u.length := by
  induction u generalizing i with
  | nil => rfl
  | cons t u ih => simp [waiting, ih]

/-! ### The judgement -/

inductive All2 {α β : Type} (R : α → β → Prop) : List α → List β → Prop
  | nil : All2 R [] []
  | cons {a b as bs} : R a b → All2 R as bs → All2 R (a :: as) (b :: bs)

theorem All2.append {α β : Type} {R : α → β → Prop} {a a' : List α} {b b' : List β} (h : All2 R a b) (h' : All2 R a' b') :
    All2 R (a ++ a') (b ++ b') := by
  induction h with
  | nil => exact h'
  | cons x _ ih => exact .cons x ih

theorem maps_append (a b : List Ev) : maps (a ++ b) = maps a ++ maps b := by simp [maps]

theorem stackWalk_append (a b : List Ev) (st : List (Option Opd)) :
    stackWalk (a ++ b) st = ((stackWalk a st).1 ++ (stackWalk b (stackWalk a st).2).1, (stackWalk b (stackWalk a st).2).2) := by
  fun_induction stackWalk a st with
  | case1 st => rfl
  | case2 l c st r ih => simp only [List.cons_append, stackWalk, ih]; rfl
  | case3 o c st ih => simp only [List.cons_append, stackWalk, ih]
  | case4 r c st ih => simp only [List.cons_append, stackWalk, ih]
  | case5 c st ih => simp only [List.cons_append, stackWalk, ih]
  | case6 c st ih => simp only [List.cons_append, stackWalk, ih]
  | case7 e c st h1 h2 h3 h4 h5 ih =>
    rw [List.cons_append, stackWalk, ih]
    · exact h1
    · exact h2
    · exact h3
    · exact h4
    · exact h5

/-- The code turns the stack `st` into `st'` and its calls are `S`. -/
def Calls (F : Nat) (V : List (Nat × TyR)) (c : List Ev) (st st' : List (Option Opd)) (S : List (List Temp)) : Prop :=
  Ev.panic ∉ c → maps c = S.map (mapOf F V) ∧
    ∃ R, stackWalk c st = (R, st') ∧ All2 (fun ts r => ts.map Temp.opd <+: r) S R

theorem Calls.append {F : Nat} {V : List (Nat × TyR)} {c c' : List Ev} {s s' s'' : List (Option Opd)} {S S' : List (List Temp)}
    (h : Calls F V c s s' S) (h' : Calls F V c' s' s'' S') : Calls F V (c ++ c') s s'' (S ++ S') := by
  intro hp
  rw [List.mem_append, not_or] at hp
  obtain ⟨m1, R1, w1, a1⟩ := h hp.1
  obtain ⟨m2, R2, w2, a2⟩ := h' hp.2
  refine ⟨by rw [maps_append, m1, m2, List.map_append], R1 ++ R2, ?_, a1.append a2⟩
  rw [stackWalk_append, w1, w2]

/-- Events without calls and without effect on the stack pointer. -/
def Ev.still : Ev → Bool
  | .data _ | .ins (.push _) | .ins (.pop _) | .ins (.alu .sub (.imm 8) .rsp) | .ins (.alu .add (.imm 8) .rsp) => false
  | _ => true

theorem Calls.nil (F : Nat) (V : List (Nat × TyR)) (s : List (Option Opd)) : Calls F V [] s s [] :=
  fun _ => ⟨rfl, [], rfl, .nil⟩

theorem Calls.still1 {F : Nat} {V : List (Nat × TyR)} {e : Ev} (h : e.still = true) (s : List (Option Opd)) : Calls F V [e] s s [] := by
  intro _
  refine ⟨?_, [], ?_, .nil⟩
  · cases e <;> first | rfl | cases h
  · rw [stackWalk, stackWalk]
    · rintro l rfl; cases h
    · rintro o rfl; cases h
    · rintro r rfl; cases h
    · rintro rfl; cases h
    · rintro rfl; cases h

theorem Calls.still {F : Nat} {V : List (Nat × TyR)} {c : List Ev} (h : c.all Ev.still = true) (s : List (Option Opd)) :
    Calls F V c s s [] := by
  induction c with
  | nil => exact .nil _ _ _
  | cons e c ih =>
    rw [List.all_cons, Bool.and_eq_true] at h
    exact (Calls.still1 h.1 s).append (ih h.2)

theorem Calls.push (F : Nat) (V : List (Nat × TyR)) (o : Opd) (s : List (Option Opd)) : Calls F V [.ins (.push o)] s (s ++ [some o]) [] :=
  fun _ => ⟨rfl, [], rfl, .nil⟩

theorem Calls.pop (F : Nat) (V : List (Nat × TyR)) (r : Reg) (s : List (Option Opd)) (x : Option Opd) :
    Calls F V [.ins (.pop r)] (s ++ [x]) s [] :=
  fun _ => ⟨rfl, [], by simp [stackWalk], .nil⟩

theorem Calls.site {F : Nat} {V : List (Nat × TyR)} {l : List Nat} {ts : List Temp} {s : List (Option Opd)}
    (hl : l = mapOf F V ts) (hs : ts.map Temp.opd <+: s) : Calls F V [.data l] s s [ts] :=
  fun _ => ⟨by rw [hl]; rfl, [s], rfl, .cons hs .nil⟩

theorem Calls.panic {F : Nat} {V : List (Nat × TyR)} {c : List Ev} {s s' : List (Option Opd)} {S : List (List Temp)}
    (h : Ev.panic ∈ c) : Calls F V c s s' S := fun hp => absurd h hp

theorem Calls.cons {F : Nat} {V : List (Nat × TyR)} {e : Ev} {c : List Ev} {s s' : List (Option Opd)} {S : List (List Temp)}
    (h : e.still = true) (h' : Calls F V c s s' S) : Calls F V (e :: c) s s' S :=
  (Calls.still1 h s).append h'

theorem Calls.consPush {F : Nat} {V : List (Nat × TyR)} {o : Opd} {c : List Ev} {s s' : List (Option Opd)} {S : List (List Temp)}
    (h' : Calls F V c (s ++ [some o]) s' S) : Calls F V (.ins (.push o) :: c) s s' S :=
  (Calls.push F V o s).append h'

theorem Calls.consPop {F : Nat} {V : List (Nat × TyR)} {r : Reg} {x : Option Opd} {c : List Ev} {s s' : List (Option Opd)}
    {S : List (List Temp)} (h' : Calls F V c s s' S) : Calls F V (.ins (.pop r) :: c) (s ++ [x]) s' S :=
  (Calls.pop F V r s x).append h'

theorem Calls.appendStill {F : Nat} {V : List (Nat × TyR)} {c c' : List Ev} {s s' : List (Option Opd)} {S : List (List Temp)}
    (h' : c.all Ev.still = true) (h : Calls F V c' s s' S) : Calls F V (c ++ c') s s' S :=
  (Calls.still h' s).append h

theorem Calls.appendEnd {F : Nat} {V : List (Nat × TyR)} {c c' : List Ev} {s s' s'' : List (Option Opd)} {S : List (List Temp)}
    (h : Calls F V c s s' S) (h' : Calls F V c' s' s'' []) : Calls F V (c ++ c') s s'' S := by
  have := h.append h'
  rwa [List.append_nil] at this

/-! ### Spilled registers -/

theorem spillAux_calls (F : Nat) (V : List (Nat × TyR)) (u : List TyR) (i : Nat) (g : GS) (s : List (Option Opd)) :
    Calls F V (spillAux u i g).1 s (s ++ (waiting i u).map Temp.opd) [] ∧
    (spillAux u i g).2.gc = { g.gc with roots := g.gc.roots ++ rootedFrom (g.sp + 1) (waiting i u) } := by
  induction u generalizing i with
  | nil => exact ⟨by simpa [waiting] using .nil F V s, by simp [spillAux, waiting, rootedFrom]⟩
  | cons t u ih =>
    obtain ⟨h1, h2⟩ := ih (i + 1)
    refine ⟨?_, ?_⟩
    · rw [spillAux, waiting]
      cases hr : argRegs[i]? with
      | none => exact .panic (by simp)
      | some r =>
        have := h1.append (.push F V (.reg r) _)
        simpa [Temp.opd, hr] using this
    · have hs := (spillAux_state u (i + 1) g).1
      simp only [spillAux, waiting, GS.inc, h2, hs, GcS.add, rootedFrom_append, waiting_length, rootedFrom]
      split
      · simp only [List.append_assoc, List.append_nil]
        rw [show (g.sp + u.length + 1) * 8 = 8 * (g.sp + 1 + u.length) by omega]
      · simp

theorem restoreAux_calls (F : Nat) (V : List (Nat × TyR)) (u : List TyR) (i : Nat) (g : GS) (s : List (Option Opd)) (R : List (Nat × TyR)) (s0 : Nat)
    (hs : g.sp = s0 + u.length) (hr : g.gc.roots = R ++ rootedFrom (s0 + 1) (waiting i u)) (hR : ∀ p ∈ R, p.1 ≤ 8 * s0) :
    Calls F V (restoreAux u i g).1 (s ++ (waiting i u).map Temp.opd) s [] ∧
    (restoreAux u i g).2.gc = { g.gc with roots := R } := by
  induction u generalizing i g with
  | nil =>
    refine ⟨by simpa [waiting, restoreAux] using .nil F V s, ?_⟩
    simp only [waiting, rootedFrom, List.append_nil] at hr
    simp [restoreAux, ← hr]
  | cons t u ih =>
    rw [waiting, rootedFrom_append, waiting_length] at hr
    have hrem : g.gc.remove (g.sp * 8) t = some { g.gc with roots := R ++ rootedFrom (s0 + 1) (waiting (i + 1) u) } := by
      unfold GcS.remove
      simp only [rootedFrom] at hr
      split
      · rename_i hp
        rw [if_pos hp, List.append_nil, ← List.append_assoc] at hr
        rw [List.length_cons] at hs
        rw [show g.sp * 8 = 8 * (s0 + 1 + u.length) by omega, hr]
        have hno : (8 * (s0 + 1 + u.length), t) ∉ R ++ rootedFrom (s0 + 1) (waiting (i + 1) u) := by
          rw [List.mem_append, not_or]
          refine ⟨fun h => ?_, fun h => ?_⟩
          · have := hR _ h; simp only at this; omega
          · have := rootedFrom_le _ _ _ h
            rw [waiting_length] at this
            simp only at this; omega
        rw [if_pos (by simp), List.erase_append_right _ hno]
        simp
      · rename_i hp
        rw [if_neg hp] at hr
        simp only [List.append_nil] at hr
        simp [← hr]
    have hstep := ih (i + 1) { g.dec with gc := { g.gc with roots := R ++ rootedFrom (s0 + 1) (waiting (i + 1) u) } }
      (by simp only [GS.dec]; rw [hs, List.length_cons]; omega) rfl
    rw [restoreAux]
    simp only [hrem]
    refine ⟨?_, hstep.2⟩
    rw [waiting]
    cases hr : argRegs[i]? with
    | none => exact .panic (by simp)
    | some r =>
      have := (Calls.pop F V r (s ++ (waiting (i + 1) u).map Temp.opd) (Temp.opd (.arg i t))).append hstep.1
      simpa [hr] using this

/-! ### Calls -/

/-- The generator's state while the values `ts` wait on the stack. -/
structure Inv (F : Nat) (V : List (Nat × TyR)) (ts : List Temp) (g : GS) : Prop where
  sp : g.sp = F + ts.length
  roots : g.gc.roots = V ++ rootedFrom (F + 1) ts

theorem Inv.congr {F : Nat} {V : List (Nat × TyR)} {ts : List Temp} {g g' : GS} (h : Inv F V ts g) (hs : g'.sp = g.sp) (hg : g'.gc = g.gc) :
    Inv F V ts g' := ⟨by rw [hs, h.sp], by rw [hg, h.roots]⟩

/-- One more word on the stack that is not a root. -/
theorem Inv.inc {F : Nat} {V : List (Nat × TyR)} {ts : List Temp} {g : GS} (h : Inv F V ts g) {t : Temp} (ht : ∀ k, rootedFrom k [t] = []) :
    Inv F V (ts ++ [t]) g.inc :=
  ⟨by simp only [GS.inc, h.sp, List.length_append, List.length_singleton]; omega, by
    rw [rootedFrom_append, ht, List.append_nil]; exact h.roots⟩

theorem bound {F : Nat} {V : List (Nat × TyR)} (hV : ∀ p ∈ V, p.1 ≤ 8 * F) (ts : List Temp) :
    ∀ p ∈ V ++ rootedFrom (F + 1) ts, p.1 ≤ 8 * (F + ts.length) := by
  intro p hp
  rw [List.mem_append] at hp
  rcases hp with hp | hp
  · have := hV p hp; omega
  · have := rootedFrom_le _ _ p hp; omega

theorem spill_calls {F : Nat} {V : List (Nat × TyR)} {ts : List Temp} {g : GS} (h : Inv F V ts g) :
    Calls F V (spill g).1 (ts.map Temp.opd) ((ts ++ waiting 0 g.top).map Temp.opd) [] ∧ Inv F V (ts ++ waiting 0 g.top) (spill g).2 ∧
    (spill g).2.gc.scopes = g.gc.scopes := by
  have hst := spill_state g
  unfold spill GS.top at *
  cases hr : g.reg with
  | nil =>
    simp only [List.headD_nil, waiting, List.append_nil]
    exact ⟨.nil _ _ _, ⟨h.sp, h.roots⟩, trivial⟩
  | cons top rest =>
    simp only [hr, List.headD_cons] at hst ⊢
    obtain ⟨h1, h2⟩ := spillAux_calls F V top 0 g (ts.map Temp.opd)
    refine ⟨by simpa using h1, ⟨?_, ?_⟩, ?_⟩
    · rw [hst.1, h.sp, List.length_append, waiting_length]; omega
    · simp only [h2, h.roots, h.sp, rootedFrom_append, List.append_assoc]
      rw [show F + ts.length + 1 = F + 1 + ts.length by omega]
    · simp only [h2]

theorem restoreRegs_calls {F : Nat} {V : List (Nat × TyR)} (hV : ∀ p ∈ V, p.1 ≤ 8 * F) {ts : List Temp} {g : GS} {x : List TyR} {l : List (List TyR)}
    (hl : g.reg = x :: l) (h : Inv F V (ts ++ waiting 0 (l.headD [])) g) :
    Calls F V (restoreRegs g).1 ((ts ++ waiting 0 (l.headD [])).map Temp.opd) (ts.map Temp.opd) [] ∧
    (restoreRegs g).2.gc = { g.gc with roots := V ++ rootedFrom (F + 1) ts } := by
  unfold restoreRegs
  rw [hl]
  cases l with
  | nil =>
    simp only [List.headD_nil, waiting, List.append_nil] at h ⊢
    exact ⟨.nil _ _ _, by rw [← h.roots]⟩
  | cons top rest =>
    simp only [List.headD_cons] at h ⊢
    have hs := h.sp
    rw [List.length_append, waiting_length] at hs
    have := restoreAux_calls F V top 0 { g with reg := top :: rest } (ts.map Temp.opd) (V ++ rootedFrom (F + 1) ts) (F + ts.length)
      (by simp only [hs]; omega) (by
        simp only [h.roots, rootedFrom_append, List.append_assoc]
        rw [show F + ts.length + 1 = F + 1 + ts.length by omega]) (bound hV ts)
    simpa using this

/-- The tail of a call after the function address is in place. -/
def callRest (fi : FnInfo) (target : Ins) (g : GS) : List Ev :=
  (if g.sp % 2 = 0 then [] else [.ins (.alu .sub (.imm 8) .rsp)]) ++ (.ins target ::
    ((if fi.ext && fi.raw && fi.ret.kind == .integer then tagAs .integer .rax else []) ++
      ((if fi.ext then [] else [gcMap g]) ++ ((if g.sp % 2 = 0 then [] else [.ins (.alu .add (.imm 8) .rsp)]) ++ (restoreRegs g).1))))

theorem callRest_calls {F : Nat} {V : List (Nat × TyR)} (hV : ∀ p ∈ V, p.1 ≤ 8 * F) {ts : List Temp} (fi : FnInfo) {target : Ins}
    (ht : (Ev.ins target).still = true) {g : GS} {x : List TyR} {l : List (List TyR)}
    (hl : g.reg = x :: l) (h : Inv F V (ts ++ waiting 0 (l.headD [])) g) :
    Calls F V (callRest fi target g) ((ts ++ waiting 0 (l.headD [])).map Temp.opd) (ts.map Temp.opd)
      (if fi.ext then [] else [ts ++ waiting 0 (l.headD [])]) ∧
    (restoreRegs g).2.gc = { g.gc with roots := V ++ rootedFrom (F + 1) ts } := by
  obtain ⟨r1, r2⟩ := restoreRegs_calls hV hl h
  refine ⟨?_, r2⟩
  rw [callRest]
  have hsite : ∀ s, (ts ++ waiting 0 (l.headD [])).map Temp.opd <+: s →
      Calls F V (if fi.ext then [] else [gcMap g]) s s (if fi.ext then [] else [ts ++ waiting 0 (l.headD [])]) := by
    intro s hs
    cases fi.ext
    · exact .site (by rw [h.roots]; rfl) hs
    · exact .nil _ _ _
  have htag : (if (fi.ext && fi.raw && fi.ret.kind == .integer) = true then tagAs .integer .rax else []).all Ev.still = true := by
    split <;> rfl
  by_cases hal : g.sp % 2 = 0
  · simp only [if_pos hal, List.nil_append]
    refine .cons ht (.appendStill htag ?_)
    have := (hsite _ (List.prefix_refl _)).append r1
    simpa using this
  · simp only [if_neg hal]
    have h1 : Calls F V [Ev.ins (.alu .sub (.imm 8) .rsp)] ((ts ++ waiting 0 (l.headD [])).map Temp.opd)
      ((ts ++ waiting 0 (l.headD [])).map Temp.opd ++ [none]) [] := fun _ => ⟨rfl, [], rfl, .nil⟩
    have h2 : Calls F V [Ev.ins (.alu .add (.imm 8) .rsp)] ((ts ++ waiting 0 (l.headD [])).map Temp.opd ++ [none])
      ((ts ++ waiting 0 (l.headD [])).map Temp.opd) [] := fun _ => ⟨rfl, [], by simp [stackWalk], .nil⟩
    have h3 := h1.append (.cons ht (.appendStill htag ((hsite _ (List.prefix_append _ [none])).append (h2.append r1))))
    simpa using h3

theorem finishCall_calls {F : Nat} {V : List (Nat × TyR)} (hV : ∀ p ∈ V, p.1 ≤ 8 * F) {ts : List Temp} (fi : FnInfo) {target : Ins}
    (ht : (Ev.ins target).still = true) {g : GS} {x : List TyR} {l : List (List TyR)}
    (hl : g.reg = x :: l) (h : Inv F V (ts ++ waiting 0 (l.headD [])) g) :
    Calls F V (finishCall fi target false g).1 ((ts ++ waiting 0 (l.headD [])).map Temp.opd) (ts.map Temp.opd)
      (if fi.ext then [] else [ts ++ waiting 0 (l.headD [])]) ∧
    (finishCall fi target false g).2.gc = { g.gc with roots := V ++ rootedFrom (F + 1) ts } := by
  obtain ⟨r1, r2⟩ := callRest_calls hV fi ht hl h
  refine ⟨?_, by simpa [finishCall] using r2⟩
  simp only [finishCall, Bool.false_eq_true, if_false, List.nil_append]
  exact .appendStill (by split <;> rfl) r1

theorem finishCall_indirect {F : Nat} {V : List (Nat × TyR)} (hV : ∀ p ∈ V, p.1 ≤ 8 * F) {ts : List Temp} (fi : FnInfo) {target : Ins}
    (ht : (Ev.ins target).still = true) {g : GS} {x : List TyR} {l : List (List TyR)} (t : TyR)
    (hl : g.reg = x :: l) (hu : l.headD [] = []) (h : Inv F V (ts ++ [.callee t]) g) :
    Calls F V (finishCall fi target true g).1 ((ts ++ [Temp.callee t]).map Temp.opd) (ts.map Temp.opd)
      (if fi.ext then [] else [ts]) ∧
    (finishCall fi target true g).2.gc = { g.gc with roots := V ++ rootedFrom (F + 1) ts } := by
  have hd : Inv F V (ts ++ waiting 0 (l.headD [])) g.dec := by
    rw [hu, waiting, List.append_nil]
    refine ⟨?_, ?_⟩
    · have := h.sp
      rw [List.length_append, List.length_singleton] at this
      simp only [GS.dec]; omega
    · have := h.roots
      rw [rootedFrom_append] at this
      simpa [GS.dec, rootedFrom] using this
  obtain ⟨r1, r2⟩ := callRest_calls hV fi ht (g := g.dec) hl hd
  rw [hu, waiting, List.append_nil] at r1
  refine ⟨?_, by simpa [finishCall, GS.dec] using r2⟩
  simp only [finishCall, if_true]
  rw [List.map_append]
  refine .appendStill (by split <;> rfl) ?_
  exact .consPop r1

/-! ### Expressions -/

theorem tagAs_still (t : TK) (r : Reg) : (tagAs t r).all Ev.still = true := by unfold tagAs; split <;> rfl
theorem untagAs_still (t : TK) (r : Reg) : (untagAs t r).all Ev.still = true := by unfold untagAs; split <;> rfl

theorem rawConv_still (fi : FnInfo) (t : TK) (r : Reg) : (rawConv fi t r).all Ev.still = true := by
  unfold rawConv
  split
  · split <;> first | rfl | exact untagAs_still _ _
  · rfl

theorem slotIns_still (s : Nat) {i : Ins} (h : (Ev.ins i).still = true) : (slotIns s i).still = true := by
  unfold slotIns; split
  · exact h
  · rfl

theorem inUse_facts (g : GS) (t : TyR) : (g.inUse t).sp = g.sp ∧ (g.inUse t).gc = g.gc := by
  unfold GS.inUse; split <;> exact ⟨rfl, rfl⟩

mutual
theorem genExpr_calls {F : Nat} {V : List (Nat × TyR)} (hV : ∀ p ∈ V, p.1 ≤ 8 * F) (slot : Nat → Nat) (e : Expr) (b : Bool)
    {g : GS} {ts : List Temp} (h : Inv F V ts g) (hok : e.direct g.top.isEmpty = true) :
    Calls F V (genExpr slot e b g).1 (ts.map Temp.opd) (ts.map Temp.opd) (sitesE e g.top ts) ∧ (genExpr slot e b g).2.gc = g.gc := by
  match e with
  | .int i =>
    simp only [genExpr, sitesE]
    exact ⟨.cons (by split <;> rfl) (.still (tagAs_still _ _) _), trivial⟩
  | .bool _ => exact ⟨.still rfl _, rfl⟩
  | .str _ => exact ⟨.still rfl _, rfl⟩
  | .typ _ => exact ⟨.nil _ _ _, rfl⟩
  | .var x t =>
    simp only [genExpr, sitesE]
    exact ⟨.still1 (slotIns_still _ (by split <;> rfl)) _, trivial⟩
  | .fnRef f x _ =>
    simp only [genExpr, sitesE]
    exact ⟨.still1 (by split <;> rfl) _, trivial⟩
  | .bin o t l r =>
    simp only [Expr.direct, Bool.and_eq_true] at hok
    obtain ⟨l1, l2⟩ := genExpr_calls hV slot l false h hok.1
    have ls := genExpr_state slot l false g
    have hi : Inv F V (ts ++ [.left l.ty]) (genExpr slot l false g).2.inc := (h.congr ls.1 l2).inc (fun _ => rfl)
    have ht : (genExpr slot l false g).2.inc.top = g.top := by simp only [GS.top, GS.inc, ls.2]
    obtain ⟨r1, r2⟩ := genExpr_calls hV slot r false hi (by rw [ht]; exact hok.2)
    rw [ht] at r1
    have hgc : (genExpr slot r false (genExpr slot l false g).2.inc).2.dec.gc = g.gc := by
      exact r2.trans l2
    rw [List.map_append] at r1
    have fin : ∀ (c1 c2 c3 : List Ev), c1.all Ev.still = true → c2.all Ev.still = true → c3.all Ev.still = true →
        Calls F V ((genExpr slot l false g).1 ++ (c1 ++ (.ins (.push rax) :: ((genExpr slot r false (genExpr slot l false g).2.inc).1 ++
          (c2 ++ (.ins (.mov rax rbx) :: .ins (.pop .rax) :: c3)))))) (ts.map Temp.opd) (ts.map Temp.opd)
          (sitesE l g.top ts ++ sitesE r g.top (ts ++ [.left l.ty])) := by
      intro c1 c2 c3 k1 k2 k3
      refine l1.append (.appendStill k1 (.consPush ?_))
      exact r1.appendEnd (.appendStill k2 (.cons rfl (.consPop (.still k3 _))))
    have fin2 : ∀ (c1 c2 c3 : List Ev), c1.all Ev.still = true → c2.all Ev.still = true → c3.all Ev.still = true →
        Calls F V ((genExpr slot l false g).1 ++ (c1 ++ (.ins (.push rax) :: ((genExpr slot r false (genExpr slot l false g).2.inc).1 ++
          (c2 ++ (.ins (.mov rax (.reg .rcx)) :: .ins (.pop .rax) :: c3)))))) (ts.map Temp.opd) (ts.map Temp.opd)
          (sitesE l g.top ts ++ sitesE r g.top (ts ++ [.left l.ty])) := by
      intro c1 c2 c3 k1 k2 k3
      refine l1.append (.appendStill k1 (.consPush ?_))
      exact r1.appendEnd (.appendStill k2 (.cons rfl (.consPop (.still k3 _))))
    have c3t : ∀ (l : List Ev) (t : TK), l.all Ev.still = true → (l ++ tagAs t .rax).all Ev.still = true := by
      intro l t hl
      rw [List.all_append, hl, tagAs_still]; rfl
    refine ⟨?_, by cases o <;> exact hgc⟩
    rw [sitesE]
    cases o with
    | or | and => exact fin [] [] [_] rfl rfl rfl
    | gt | ge | lt | le | eq => exact fin _ _ [_, _, _] (untagAs_still _ _) (untagAs_still _ _) rfl
    | bleft | bright => exact fin2 _ _ (_ :: tagAs _ _) (untagAs_still _ _) (untagAs_still _ _) (c3t [_] _ rfl)
    | div => exact fin _ _ (_ :: _ :: tagAs _ _) (untagAs_still _ _) (untagAs_still _ _) (c3t [_, _] _ rfl)
    | add | sub | mul | bor | band | bxor =>
      exact fin _ _ (_ :: tagAs _ _) (untagAs_still _ _) (untagAs_still _ _) (c3t [_] _ rfl)
  | .un o t e =>
    simp only [Expr.direct] at hok
    obtain ⟨l1, l2⟩ := genExpr_calls hV slot e false h hok
    refine ⟨?_, by cases o <;> exact l2⟩
    have fin : ∀ c : List Ev, c.all Ev.still = true → Calls F V ((genExpr slot e false g).1 ++ c) (ts.map Temp.opd) (ts.map Temp.opd)
        (sitesE e g.top ts) := fun c hc => by simpa using l1.append (.still hc _)
    rw [sitesE]
    cases o with
    | not => exact fin _ rfl
    | bnot => exact fin _ (by rw [List.all_cons]; split <;> rfl)
    | neg => exact fin _ (by rw [List.all_append, untagAs_still, List.all_cons, tagAs_still]; rfl)
  | .tern t c x y =>
    simp only [Expr.direct, Bool.and_eq_true] at hok
    obtain ⟨a1, a2⟩ := genExpr_calls hV slot c false h hok.1
    have as := genExpr_state slot c false g
    let g1 : GS := { (genExpr slot c false g).2 with lbl := (genExpr slot c false g).2.lbl + 2 }
    have ht1 : g1.top = g.top := by simp only [g1, GS.top, as.2]
    obtain ⟨b1, b2⟩ := genExpr_calls hV slot x false (g := g1) (h.congr as.1 a2) (by rw [ht1]; exact hok.2.1)
    have bs := genExpr_state slot x false g1
    have ht2 : (genExpr slot x false g1).2.top = g.top := by simp only [GS.top, bs.2]; exact ht1
    obtain ⟨d1, d2⟩ := genExpr_calls hV slot y false (g := (genExpr slot x false g1).2)
      (h.congr (bs.1.trans as.1) (b2.trans a2)) (by rw [ht2]; exact hok.2.2)
    rw [ht1] at b1
    rw [ht2] at d1
    refine ⟨?_, d2.trans (b2.trans a2)⟩
    rw [sitesE]
    simp only [genExpr]
    refine a1.append (.cons rfl (.cons rfl (.cons rfl (.cons rfl (b1.append (.cons rfl (.cons rfl ?_)))))))
    simpa using d1.append (.still1 (e := .label _) rfl _)
  | .arrLit t e =>
    simp only [Expr.direct] at hok
    exact genExpr_calls hV slot e false h hok
  | .callFn f fi args =>
    simp only [Expr.direct] at hok
    obtain ⟨s1, s2, s3⟩ := spill_calls h
    have ss := spill_state g
    obtain ⟨a1, a2⟩ := genArgs_calls hV slot fi args 0 s2 ss.2.1 hok
    have as := genArgs_state slot fi args 0 (spill g).2 ss.2.1
    obtain ⟨f1, f2⟩ := finishCall_calls hV fi (target := .call f) rfl (g := (genArgs slot fi args 0 (spill g).2).2) as.2 (s2.congr as.1 a2)
    refine ⟨?_, ?_⟩
    · simp only [genExpr, sitesE]
      exact s1.append (a1.append f1)
    · simp only [genExpr]
      rw [f2, a2, ← h.roots]
      simp only [s3]
  | .callVar x fi args =>
    simp only [Expr.direct] at hok
    obtain ⟨s1, s2, s3⟩ := spill_calls h
    have ss := spill_state g
    obtain ⟨a1, a2⟩ := genArgs_calls hV slot fi args 0 s2 ss.2.1 hok
    have as := genArgs_state slot fi args 0 (spill g).2 ss.2.1
    obtain ⟨f1, f2⟩ := finishCall_calls hV fi (target := .callMem (slotOp (slot x))) rfl (g := (genArgs slot fi args 0 (spill g).2).2) as.2
      (s2.congr as.1 a2)
    refine ⟨?_, ?_⟩
    · simp only [genExpr, sitesE]
      refine s1.append (a1.append ?_)
      split
      · exact f1
      · exact .panic (List.mem_singleton.2 rfl)
    · simp only [genExpr]
      rw [f2, a2, ← h.roots]
      simp only [s3]
  | .callExpr e fi args =>
    simp only [Expr.direct, Bool.and_eq_true] at hok
    have htop : g.top = [] := List.isEmpty_iff.1 hok.1
    obtain ⟨c1, c2⟩ := genExpr_calls hV slot e false h hok.2.1
    have cs := genExpr_state slot e false g
    have hi : Inv F V (ts ++ [.callee e.ty]) (genExpr slot e false g).2.inc := (h.congr cs.1 c2).inc (fun _ => rfl)
    have ht : (genExpr slot e false g).2.inc.top = [] := by rw [← htop]; simp only [GS.top, GS.inc, cs.2]
    obtain ⟨s1, s2, s3⟩ := spill_calls hi
    rw [ht, waiting, List.append_nil] at s1 s2
    have ss := spill_state (genExpr slot e false g).2.inc
    obtain ⟨a1, a2⟩ := genArgs_calls hV slot fi args 0 s2 ss.2.1 hok.2.2
    have as := genArgs_state slot fi args 0 (spill (genExpr slot e false g).2.inc).2 ss.2.1
    obtain ⟨f1, f2⟩ := finishCall_indirect hV fi (target := .callReg .rax) rfl e.ty (g := (genArgs slot fi args 0 (spill (genExpr slot e false g).2.inc).2).2)
      as.2 ht (s2.congr as.1 a2)
    refine ⟨?_, ?_⟩
    · simp only [genExpr, sitesE, htop, waiting, List.append_nil]
      rw [htop] at c1
      refine c1.append (.consPush ?_)
      rw [List.map_append] at s1 a1 f1
      exact s1.append (a1.append f1)
    · simp only [genExpr]
      rw [f2, a2, ← h.roots]
      have s4 : (spill (genExpr slot e false g).2.inc).2.gc.scopes = g.gc.scopes := s3.trans (congrArg GcS.scopes c2)
      simp only [s4]
  | .dot t e off =>
    simp only [Expr.direct] at hok
    obtain ⟨l1, l2⟩ := genExpr_calls hV slot e false h hok
    refine ⟨?_, l2⟩
    simp only [genExpr, sitesE]
    refine l1.appendEnd (.consPush (.cons rfl (.cons rfl (.consPop (.still1 ?_ _)))))
    split <;> rfl
  | .index t a i =>
    simp only [Expr.direct, Bool.and_eq_true] at hok
    obtain ⟨l1, l2⟩ := genExpr_calls hV slot a false h hok.1
    have ls := genExpr_state slot a false g
    have hi : Inv F V (ts ++ [.base a.ty]) (genExpr slot a false g).2.inc := (h.congr ls.1 l2).inc (fun _ => rfl)
    have ht : (genExpr slot a false g).2.inc.top = g.top := by simp only [GS.top, GS.inc, ls.2]
    obtain ⟨r1, r2⟩ := genExpr_calls hV slot i false hi (by rw [ht]; exact hok.2)
    rw [ht] at r1
    rw [List.map_append] at r1
    refine ⟨?_, r2.trans l2⟩
    simp only [genExpr, sitesE]
    refine l1.append (.consPush ?_)
    refine r1.appendEnd (.appendStill (untagAs_still _ _) (.cons rfl (.cons rfl (.cons rfl (.appendStill (untagAs_still _ _)
      (.cons rfl (.consPop (.cons rfl (.still1 ?_ _)))))))))
    split <;> rfl
termination_by (sizeOf e, 0)

theorem genArgs_calls {F : Nat} {V : List (Nat × TyR)} (hV : ∀ p ∈ V, p.1 ≤ 8 * F) (slot : Nat → Nat) (fi : FnInfo) (es : List Expr) (i : Nat)
    {g : GS} {ts : List Temp} {u : List TyR} {l : List (List TyR)} (h : Inv F V ts g) (hl : g.reg = u :: l) 
    (hok : directL u.isEmpty es = true) :
    Calls F V (genArgs slot fi es i g).1 (ts.map Temp.opd) (ts.map Temp.opd) (sitesL es u ts) ∧ (genArgs slot fi es i g).2.gc = g.gc := by
  match es with
  | [] => exact ⟨.nil _ _ _, rfl⟩
  | e :: es =>
    simp only [directL, Bool.and_eq_true] at hok
    have htop : g.top = u := by simp [GS.top, hl]
    obtain ⟨e1, e2⟩ := genExpr_calls hV slot e false h (by rw [htop]; exact hok.1)
    have es' := genExpr_state slot e false g
    have hu := inUse_facts (genExpr slot e false g).2 e.ty
    obtain ⟨r1, r2⟩ := genArgs_calls hV slot fi es (i + 1) (g := (genExpr slot e false g).2.inUse e.ty) (u := u ++ [e.ty]) (l := l)
      (h.congr (hu.1.trans es'.1) (hu.2.trans e2)) (by rw [GS.inUse, es'.2, hl]) (by
        rw [show (u ++ [e.ty]).isEmpty = false by cases u <;> rfl]; exact hok.2)
    rw [htop] at e1
    refine ⟨?_, r2.trans (hu.2.trans e2)⟩
    simp only [genArgs, sitesL]
    refine e1.append (.appendStill ?_ r1)
    split
    · rw [List.all_cons, rawConv_still]; rfl
    · rfl
termination_by (sizeOf es, 0)
end

end Clara.Gen
