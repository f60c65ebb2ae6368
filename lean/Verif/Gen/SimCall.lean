import Verif.Gen.SimExpr2
/-
Correctness of the code for calls.
-/
namespace Clara.Gen
variable {σ : Type} {P : Prog σ} {I : Image σ} {C : List Ev} {lim top : Nat}
  {d : Nat} {ρ : Env} {S S1 S2 : Store σ}

/-! ### Saving and restoring argument registers -/

structure Saved (top : Nat) (m m' : Mach σ) (i n : Nat) : Prop where
  rsp : (m'.reg .rsp).toNat + 8 * n = (m.reg .rsp).toNat
  rbp : m'.reg .rbp = m.reg .rbp
  stk : ∀ a : Word, (m.reg .rsp).toNat ≤ a.toNat → a.toNat < top → m'.mem a = m.mem a
  saved : ∀ (j : Nat) (r : Reg) (a : Word), j < n → argRegs[i + j]? = some r →
    a.toNat = (m'.reg .rsp).toNat + 8 * j → m'.mem a = m.reg r
  low : ∀ (j : Nat) (r : Reg), j < i → argRegs[j]? = some r → m'.reg r = m.reg r

theorem Saved.zero (m : Mach σ) (i : Nat) : Saved top m m i 0 :=
  ⟨rfl, rfl, fun _ _ _ => rfl, fun _ _ _ h => absurd h (by omega), fun _ _ _ _ => rfl⟩

theorem exe_spillAux (X : Ctx P I C lim top) {fd : FnDef} (ts : List TyR) : ∀ (i : Nat) (g : GS)
    (m : Mach σ) (u : Nat), Pre lim top fd ρ S g m (ts.length + u) →
    Exe I C (spillAux ts i g).1 m (fun m' => Pre lim top fd ρ S (spillAux ts i g).2 m' u ∧
      Saved top m m' i ts.length) := by
  induction ts with
  | nil =>
    intro i g m u hpre
    simp only [spillAux]
    refine Exe.nil ⟨hpre.less (by omega), Saved.zero m i⟩
  | cons t ts ih =>
    intro i g m u hpre
    simp only [List.length_cons] at hpre
    simp only [spillAux]
    refine (ih (i + 1) g m (1 + u) (hpre.less (by omega))).append ?_
    rintro m1 ⟨hpre1, hs⟩
    cases hr : argRegs[i]? with
    | none => exact Exe.panic X.nopanic (by simp)
    | some r =>
      obtain ⟨n1, n2, n3, n4⟩ := argReg_ne hr
      simp only
      refine Exe.push X.loaded ?_
      intro w
      have hb := hpre1.bud
      have h1 : ((m1.set r w).push (m1.reg r)).reg .rsp = m1.reg .rsp - 8 := by
        simp [Mach.push, Mach.set, Mach.store, Ne.symm n3]
      have h2 := toNat_sub8 (a := m1.reg .rsp) (by omega)
      have h3 : ∀ a, a ≠ m1.reg .rsp - 8 → ((m1.set r w).push (m1.reg r)).mem a = m1.mem a := by
        intro a ha
        simp only [Mach.push, Mach.set, Mach.store, Ne.symm n3, if_false]
        rw [if_neg ha]
      have h4 : ((m1.set r w).push (m1.reg r)).mem (m1.reg .rsp - 8) = m1.reg r := by
        simp [Mach.push, Mach.set, Mach.store, Ne.symm n3]
      refine Exe.nil ⟨(hpre1.push n3 n4 w (m1.reg r)).spEq rfl, ?_, ?_, ?_, ?_, ?_⟩
      · rw [h1, h2]
        have := hs.rsp
        simp only [List.length_cons]
        omega
      · rw [← hs.rbp]
        simp [Mach.push, Mach.set, Mach.store, Ne.symm n4]
      · intro a ha hat
        rw [h3, hs.stk a ha hat]
        rintro rfl
        have := hs.rsp
        omega
      · intro j r' a hj hr' ha
        rw [h1, h2] at ha
        cases j with
        | zero =>
          rw [Nat.add_zero, hr] at hr'
          cases hr'
          have : a = m1.reg .rsp - 8 := BitVec.eq_of_toNat_eq (by omega)
          rw [this, h4]
          exact hs.low i r (by omega) hr
        | succ j =>
          simp only [List.length_cons] at hj
          rw [h3]
          · exact hs.saved j r' a (by omega) (by rw [← hr']; congr 1; omega) (by omega)
          · rintro rfl; omega
      · intro j r' hj hr'
        rw [← hs.low j r' (by omega) hr']
        have hne : r' ≠ r := by
          rintro rfl
          have := argReg_inj hr hr'
          omega
        simp [Mach.push, Mach.set, Mach.store, hne, (argReg_ne hr').2.2.1]

theorem exe_spill (X : Ctx P I C lim top) {fd : FnDef} {g : GS} {m : Mach σ} {u : Nat}
    (hpre : Pre lim top fd ρ S g m (g.top.length + u)) :
    Exe I C (spill g).1 m (fun m' => Pre lim top fd ρ S (spill g).2 m' u ∧
      Saved top m m' 0 g.top.length) := by
  unfold spill
  cases hg : g.reg with
  | nil =>
    have : g.top = [] := by simp [GS.top, hg]
    rw [this] at hpre ⊢
    exact Exe.nil ⟨(hpre.less (by omega)).spEq rfl, Saved.zero m 0⟩
  | cons x l =>
    have : g.top = x := by simp [GS.top, hg]
    rw [this] at hpre ⊢
    exact (exe_spillAux X x 0 g m u hpre).mono (fun m' hm => ⟨hm.1.spEq rfl, hm.2⟩)

/-- What `restoreAux` does. -/
structure Restored (m m' : Mach σ) (i n : Nat) : Prop where
  rsp : (m'.reg .rsp).toNat = (m.reg .rsp).toNat + 8 * n
  mem : m'.mem = m.mem
  ext : m'.ext = m.ext
  regs : ∀ (j : Nat) (r : Reg) (a : Word), j < n → argRegs[i + j]? = some r →
    a.toNat = (m.reg .rsp).toNat + 8 * j → m'.reg r = m.mem a
  other : ∀ r, r ≠ .rsp → (∀ j, i ≤ j → argRegs[j]? ≠ some r) → m'.reg r = m.reg r

theorem exe_restoreAux (X : Ctx P I C lim top) (ts : List TyR) : ∀ (i : Nat) (g : GS) (m : Mach σ),
    (m.reg .rsp).toNat + 8 * ts.length < 2 ^ 64 →
    Exe I C (restoreAux ts i g).1 m (fun m' => Restored m m' i ts.length) := by
  induction ts with
  | nil =>
    intro i g m _
    exact Exe.nil ⟨rfl, rfl, rfl, fun _ _ _ h => absurd h (by simp), fun _ _ _ => rfl⟩
  | cons t ts ih =>
    intro i g m hlt
    simp only [List.length_cons] at hlt
    simp only [restoreAux]
    cases hr : argRegs[i]? with
    | none => split <;> exact Exe.panic X.nopanic (by simp)
    | some r =>
      obtain ⟨n1, n2, n3, n4⟩ := argReg_ne hr
      split
      · exact Exe.panic X.nopanic (by simp)
      · simp only
        refine Exe.ins X.loaded rfl ?_
        have h1 : (((m.set .rsp (m.reg .rsp + 8)).set r (m.mem (m.reg .rsp))).reg .rsp).toNat =
            (m.reg .rsp).toNat + 8 := by
          simp only [Mach.set, Ne.symm n3, if_false, if_true]
          rw [BitVec.toNat_add]
          show ((m.reg .rsp).toNat + 8) % 2 ^ 64 = _
          omega
        refine (ih (i + 1) _ _ (by rw [h1]; omega)).mono ?_
        intro m' hm
        refine ⟨?_, hm.mem, hm.ext, ?_, ?_⟩
        · rw [hm.rsp, h1, List.length_cons]; omega
        · intro j r' a hj hr' ha
          cases j with
          | zero =>
            rw [Nat.add_zero, hr] at hr'
            cases hr'
            rw [hm.other r n3 ?_]
            · have : a = m.reg .rsp := BitVec.eq_of_toNat_eq (by omega)
              simp [Mach.set, this]
            · intro j hj hrj
              have := argReg_inj hr hrj
              omega
          | succ j =>
            simp only [List.length_cons] at hj
            exact hm.regs j r' a (by omega) (by rw [← hr']; congr 1; omega) (by rw [h1]; omega)
        · intro r' hne hno
          rw [hm.other r' hne (fun j hj => hno j (by omega))]
          have : r' ≠ r := by rintro rfl; exact hno i (Nat.le_refl _) hr
          simp [Mach.set, this, hne]

/-! ### The call itself -/

/-- The code after the call instruction that belongs to the call: the conversion of the result, or the
data word that the callee skips. -/
def callTail (fi : FnInfo) (g : GS) : List Ev :=
  (if fi.ext && fi.raw && fi.ret.kind == .integer then tagAs .integer .rax else []) ++
    (if fi.ext then [] else [gcMap g])

def GS.popd (g : GS) (ind : Bool) : GS := if ind then g.dec else g

theorem finishCall_eq (fi : FnInfo) (target : Ins) (ind : Bool) (g : GS) :
    (finishCall fi target ind g).1 =
      (if fi.variadic then [.ins (.mov (.imm 0) rax)] else []) ++
      ((if ind then [.ins (.pop .rax)] else []) ++
      ((if (g.popd ind).sp % 2 = 0 then [] else [.ins (.alu .sub (.imm 8) .rsp)]) ++
      ((.ins target :: callTail fi (g.popd ind)) ++
      ((if (g.popd ind).sp % 2 = 0 then [] else [.ins (.alu .add (.imm 8) .rsp)]) ++
        (restoreRegs (g.popd ind)).1)))) := by
  simp only [finishCall, callTail, GS.popd, List.cons_append, List.append_assoc]
  rfl

theorem toNat_add8 {a : Word} (h : a.toNat + 8 < 2 ^ 64) : (a + 8).toNat = a.toNat + 8 := by
  rw [BitVec.toNat_add]
  show (a.toNat + 8) % 2 ^ 64 = _
  omega

/-- What the call has to do. -/
def CallOk (I : Image σ) (C : List Ev) (lim top : Nat) (code : List Ev) (m1 : Mach σ) (S2 : Store σ)
    (v : Option Val) : Prop :=
  Exe I C code m1 (fun m2 => Kept top m1 m2 ∧ Rel lim top S2 m2 ∧
    ∀ x, v = some x → m2.reg .rax = x.enc)

/-- State after `finishCall`, from the state `m` after the arguments. -/
structure Finished (lim top : Nat) (ind : Bool) (n : Nat) (S2 : Store σ) (v : Option Val)
    (m m' : Mach σ) : Prop where
  rsp : (m'.reg .rsp).toNat = (m.reg .rsp).toNat + 8 * (if ind then 1 else 0) + 8 * n
  rbp : m'.reg .rbp = m.reg .rbp
  stk : ∀ a : Word, (m.reg .rsp).toNat + 8 * (if ind then 1 else 0) ≤ a.toNat → a.toNat < top →
    m'.mem a = m.mem a
  regs : ∀ (j : Nat) (r : Reg) (a : Word), j < n → argRegs[j]? = some r →
    a.toNat = (m.reg .rsp).toNat + 8 * (if ind then 1 else 0) + 8 * j → m'.reg r = m.mem a
  rel : Rel lim top S2 m'
  rax : ∀ x, v = some x → m'.reg .rax = x.enc

theorem exe_finish (X : Ctx P I C lim top) {fi : FnInfo} {target : Ins} {ind : Bool} {g : GS} {m : Mach σ}
    {hd : List TyR} {tl : List (List TyR)} {v : Option Val} {need : Nat}
    (hreg : g.reg = hd :: tl)
    (hsp : (m.reg .rsp).toNat + 8 * g.sp = (m.reg .rbp).toNat) (hal : (m.reg .rbp).toNat % 16 = 0)
    (hbud : lim + 8 * (1 + need) ≤ (m.reg .rsp).toNat) (hhi : (m.reg .rbp).toNat + 16 ≤ top)
    (hn : (if ind then 1 else 0) + (tl.headD []).length ≤ g.sp)
    (hcall : ∀ m1 : Mach σ, m1.aligned → lim + 8 * need ≤ (m1.reg .rsp).toNat →
      (m1.reg .rsp).toNat < top →
      (∀ r ∈ argRegs, m1.reg r = m.reg r) → m1.reg .rbp = m.reg .rbp → m1.mem = m.mem →
      m1.ext = m.ext → (ind = true → m1.reg .rax = m.mem (m.reg .rsp)) →
      CallOk I C lim top (.ins target :: callTail fi (g.popd ind)) m1 S2 v) :
    Exe I C (finishCall fi target ind g).1 m (Finished lim top ind (tl.headD []).length S2 v m) := by
  have htop := X.htop
  rw [finishCall_eq]
  -- `movq $0, %rax`
  suffices h0 : ∀ m0 : Mach σ, Mod [.rax] m m0 → Exe I C
      ((if ind then [.ins (.pop .rax)] else []) ++
      ((if (g.popd ind).sp % 2 = 0 then [] else [.ins (.alu .sub (.imm 8) .rsp)]) ++
      ((.ins target :: callTail fi (g.popd ind)) ++
      ((if (g.popd ind).sp % 2 = 0 then [] else [.ins (.alu .add (.imm 8) .rsp)]) ++
        (restoreRegs (g.popd ind)).1)))) m0
        (Finished lim top ind (tl.headD []).length S2 v m) by
    split
    · exact Exe.ins X.loaded rfl (h0 _ (mod_set _ _ _))
    · exact h0 m (Mod.refl _ _)
  intro m0 hm0
  have hsp0 : m0.reg .rsp = m.reg .rsp := hm0.reg _ (by simp)
  have hbp0 : m0.reg .rbp = m.reg .rbp := hm0.reg _ (by simp)
  -- popping the address of the function
  suffices h1 : ∀ m1 : Mach σ, (m1.reg .rsp).toNat = (m.reg .rsp).toNat + 8 * (if ind then 1 else 0) →
      m1.reg .rbp = m.reg .rbp → (∀ r ∈ argRegs, m1.reg r = m.reg r) → m1.mem = m.mem →
      m1.ext = m.ext → (ind = true → m1.reg .rax = m.mem (m.reg .rsp)) → Exe I C
      ((if (g.popd ind).sp % 2 = 0 then [] else [.ins (.alu .sub (.imm 8) .rsp)]) ++
      ((.ins target :: callTail fi (g.popd ind)) ++
      ((if (g.popd ind).sp % 2 = 0 then [] else [.ins (.alu .add (.imm 8) .rsp)]) ++
        (restoreRegs (g.popd ind)).1))) m1
        (Finished lim top ind (tl.headD []).length S2 v m) by
    have hargs0 : ∀ r ∈ argRegs, m0.reg r = m.reg r := by
      intro r hr
      obtain ⟨i, hi⟩ := List.getElem?_of_mem hr
      exact hm0.reg _ (by simp [(argReg_ne hi).1])
    cases ind with
    | false => exact h1 m0 (by simp [hsp0]) hbp0 hargs0 hm0.mem hm0.ext (by simp)
    | true =>
      simp only [if_true] at hn
      refine Exe.ins X.loaded rfl (h1 _ ?_ ?_ ?_ hm0.mem hm0.ext ?_)
      · simp only [Mach.set, reduceCtorEq, if_false, if_true, hsp0]
        rw [toNat_add8 (by omega)]
      · simp only [Mach.set, reduceCtorEq, if_false, hbp0]
      · intro r hr
        obtain ⟨i, hi⟩ := List.getElem?_of_mem hr
        simp only [Mach.set, (argReg_ne hi).1, (argReg_ne hi).2.2.1, if_false]
        exact hargs0 r hr
      · intro _
        simp only [Mach.set, if_true, hm0.mem, hsp0]
  intro m1 hsp1 hbp1 hargs1 hmem1 hext1 hrax1
  have hspp : (m1.reg .rsp).toNat + 8 * (g.popd ind).sp = (m.reg .rbp).toNat := by
    rw [hsp1]
    cases ind with
    | false => simpa [GS.popd] using hsp
    | true =>
      simp only [if_true] at hn
      simp only [GS.popd, GS.dec, if_true]
      omega
  have hrest : (restoreRegs (g.popd ind)).1 =
      (restoreAux (tl.headD []) 0 { g.popd ind with reg := tl }).1 := by
    have : (g.popd ind).reg = hd :: tl := by cases ind <;> exact hreg
    unfold restoreRegs
    rw [this]
    cases tl with
    | nil => rfl
    | cons x l => rfl
  rw [hrest]
  have hlen : (tl.headD []).length ≤ (g.popd ind).sp := by
    cases ind with
    | false => simpa [GS.popd] using hn
    | true => simp only [if_true] at hn; simp only [GS.popd, GS.dec, if_true]; omega
  have hlt : (m1.reg .rsp).toNat + 8 * (tl.headD []).length < 2 ^ 64 := by omega
  -- the end, from the state in which the stack pointer is back
  have hend : ∀ m3 : Mach σ, m3.reg .rsp = m1.reg .rsp → m3.reg .rbp = m1.reg .rbp →
      (∀ a : Word, (m1.reg .rsp).toNat ≤ a.toNat → a.toNat < top → m3.mem a = m1.mem a) →
      Rel lim top S2 m3 → (∀ x, v = some x → m3.reg .rax = x.enc) →
      Exe I C (restoreAux (tl.headD []) 0 { g.popd ind with reg := tl }).1 m3 (Finished lim top ind (tl.headD []).length S2 v m) := by
    intro m3 r1 r2 r3 r4 r5
    refine (exe_restoreAux X (tl.headD []) 0 _ m3 (by rw [r1]; exact hlt)).mono ?_
    intro m' hm
    have hno : ∀ (r : Reg), r = .rbp ∨ r = .rax → ∀ j, 0 ≤ j → argRegs[j]? ≠ some r := by
      intro r hr j _ hj
      have := argReg_ne hj
      rcases hr with rfl | rfl <;> simp_all
    refine ⟨?_, ?_, ?_, ?_, r4.congr hm.mem hm.ext, ?_⟩
    · rw [hm.rsp, r1, hsp1]
    · rw [hm.other _ (by simp) (hno _ (Or.inl rfl)), r2, hbp1]
    · intro a h1 h2
      rw [hm.mem, r3 a (by omega) h2, hmem1]
    · intro j r a hj hr ha
      rw [hm.regs j r a hj (by simpa using hr) (by rw [r1]; omega), r3 a (by omega) (by omega), hmem1]
    · intro x hx
      rw [hm.other _ (by simp) (hno _ (Or.inr rfl))]
      exact r5 x hx
  by_cases hev : (g.popd ind).sp % 2 = 0
  · simp only [if_pos hev, List.nil_append]
    refine (hcall m1 ?_ (by omega) (by omega) hargs1 hbp1 hmem1 hext1 hrax1).append ?_
    · show (m1.reg .rsp).toNat % 16 = 0
      omega
    · rintro m2 ⟨hk, hr, hx⟩
      exact hend m2 hk.rsp hk.rbp hk.stk hr hx
  · simp only [if_neg hev]
    simp only [List.cons_append (as := []), List.nil_append]
    refine Exe.ins X.loaded rfl ?_
    have hs8 : (m1.reg .rsp - 8).toNat = (m1.reg .rsp).toNat - 8 := toNat_sub8 (by omega)
    have e1 : ((m1.set .rsp (m1.reg .rsp - 8)).noFlags).reg .rsp = m1.reg .rsp - 8 := by
      simp [Mach.set, Mach.noFlags]
    refine (hcall ((m1.set .rsp (m1.reg .rsp - 8)).noFlags) ?_ ?_ ?_ ?_ ?_ hmem1 hext1 ?_).append ?_
    · show (((m1.set .rsp (m1.reg .rsp - 8)).noFlags).reg .rsp).toNat % 16 = 0
      rw [e1, hs8]
      omega
    · rw [e1, hs8]
      omega
    · rw [e1, hs8]; omega
    · intro r hr
      obtain ⟨i, hi⟩ := List.getElem?_of_mem hr
      rw [← hargs1 r hr]
      simp [Mach.set, Mach.noFlags, (argReg_ne hi).2.2.1]
    · rw [← hbp1]
      simp [Mach.set, Mach.noFlags]
    · intro hi
      rw [← hrax1 hi]
      simp [Mach.set, Mach.noFlags]
    · rintro m2 ⟨hk, hr, hx⟩
      refine Exe.ins X.loaded rfl (hend _ ?_ ?_ ?_ (hr.congr rfl rfl) ?_)
      · simp only [Mach.noFlags, set_reg_self, hk.rsp, Alu.eval]
        exact sub8_add8 _
      · have := hk.rbp
        simp only [Mach.set, Mach.noFlags, reduceCtorEq, if_false] at this ⊢
        exact this
      · intro a h1 h2
        have := hk.stk a (by rw [e1, hs8]; omega) h2
        exact this
      · intro x hx'
        rw [← hx x hx']
        simp [Mach.set, Mach.noFlags]


/-! ### Calls as expressions -/

theorem spillAux_panic : ∀ (ts : List TyR) (i : Nat) (g : GS), ts ≠ [] → 6 < i + ts.length →
    Ev.panic ∈ (spillAux ts i g).1
  | [], _, _, h, _ => absurd rfl h
  | t :: ts, i, g, _, h => by
    simp only [List.length_cons] at h
    simp only [spillAux, List.mem_append, List.mem_singleton]
    by_cases hts : ts = []
    · right
      subst hts
      have hi : 6 ≤ i := by simp at h; omega
      have : argRegs[i]? = none := List.getElem?_eq_none hi
      rw [this]
    · exact Or.inl (spillAux_panic ts (i + 1) g hts (by omega))

theorem spill_panic {g : GS} (h : 6 < g.top.length) : Ev.panic ∈ (spill g).1 := by
  unfold spill
  cases hg : g.reg with
  | nil => simp [GS.top, hg] at h
  | cons x l =>
    have ht : g.top = x := by simp [GS.top, hg]
    rw [ht] at h
    exact spillAux_panic x 0 g (by rintro rfl; simp at h) (by omega)

/-- Saving registers, evaluating the arguments, calling and restoring registers. -/
theorem exe_call (X : Ctx P I C lim top) {fd : FnDef} {g : GS} {m : Mach σ} {fi : FnInfo}
    {args : List Expr} {vs : List (Option Val)} {target : Ins} {ind : Bool} {v : Option Val}
    (hargs : Sim P I C lim top d (.args ρ S args vs S1))
    (hv : varsL args ⊆ fd.syms) (hok : okL 0 args = true) (hind : ind = true → g.top = [] ∧ 1 ≤ g.sp)
    (hpre : Pre lim top fd ρ S g m (6 + (1 + useL args) + d))
    (hcall : ∀ (m1 : Mach σ) (g' : GS), m1.aligned → lim + 8 * d ≤ (m1.reg .rsp).toNat →
      (m1.reg .rsp).toNat < top →
      (∀ (j : Nat) (r : Reg) (x : Word), (argWs fi args vs)[j]? = some (some x) →
        argRegs[j]? = some r → m1.reg r = x) →
      m1.reg .rbp = m.reg .rbp →
      (∀ a : Word, (m.reg .rsp).toNat ≤ a.toNat → a.toNat < top → m1.mem a = m.mem a) →
      Rel lim top S1 m1 → (ind = true → m1.reg .rax = m.mem (m.reg .rsp)) →
      CallOk I C lim top (.ins target :: callTail fi g') m1 S2 v) :
    Exe I C ((spill g).1 ++ ((genArgs fd.slot fi args 0 (spill g).2).1 ++
      (finishCall fi target ind (genArgs fd.slot fi args 0 (spill g).2).2).1)) m (fun m' =>
      (m'.reg .rsp).toNat = (m.reg .rsp).toNat + 8 * (if ind then 1 else 0) ∧
      m'.reg .rbp = m.reg .rbp ∧
      (∀ a : Word, (m.reg .rsp).toNat + 8 * (if ind then 1 else 0) ≤ a.toNat → a.toNat < top →
        m'.mem a = m.mem a) ∧
      (∀ i r, i < g.top.length → argRegs[i]? = some r → m'.reg r = m.reg r) ∧
      Rel lim top S2 m' ∧ ∀ x, v = some x → m'.reg .rax = x.enc) := by
  by_cases hk : 6 < g.top.length
  · exact Exe.panic X.nopanic (List.mem_append_left _ (spill_panic hk))
  obtain ⟨-, hargs⟩ := hargs
  have hsp := spill_state g
  refine (exe_spill (u := 1 + useL args + d) X (hpre.less (by omega))).append ?_
  rintro m1 ⟨hpre1, hs⟩
  have hA := hargs fd fi (spill g).2 m1 [] g.reg hsp.2.1 hv hok (hpre1.less (by omega))
  refine hA.append ?_
  rintro m2 ⟨hp2, hx2⟩
  have hpre2 := hpre1.kept hp2.kept hp2.rel
  obtain ⟨hsp2, hreg2⟩ := genArgs_state fd.slot fi args 0 (spill g).2 hsp.2.1
  have htl : g.reg.headD [] = g.top := rfl
  have hb2 := hpre2.bud
  have hhi2 := hpre2.hi
  have hsp2' := hpre2.sp
  have hn : (if ind then 1 else 0) + (g.reg.headD []).length ≤
      (genArgs fd.slot fi args 0 (spill g).2).2.sp := by
    rw [hsp2, hsp.1, htl]
    cases ind with
    | false => simp
    | true => have := (hind rfl).2; simp only [if_true]; omega
  have hkr := hp2.kept.rsp
  have hrsp : (m2.reg .rsp).toNat + 8 * g.top.length = (m.reg .rsp).toNat := by
    rw [hkr]; exact hs.rsp
  refine (exe_finish (need := d) X hreg2 (by rw [hsp2]; exact hpre2.sp) hpre2.al
    (by omega) hpre2.hi hn ?_ (v := v) (S2 := S2)).mono ?_
  · intro m3 h1 h2 h3 h4 h5 h6 h7 h8
    refine hcall m3 _ h1 h2 h3 ?_ ?_ ?_ (hp2.rel.congr h6 h7) ?_
    · intro j r x hj hr
      rw [h4 r (List.mem_of_getElem? hr)]
      exact hx2 j r x hj (by simpa using hr)
    · rw [h5, hp2.kept.rbp, hs.rbp]
    · intro a ha hat
      rw [h6, hp2.kept.stk a (by rw [← hkr]; omega) hat, hs.stk a ha hat]
    · intro hi
      obtain ⟨ht, -⟩ := hind hi
      have he : m2.reg .rsp = m.reg .rsp := by
        apply BitVec.eq_of_toNat_eq
        simpa [ht] using hrsp
      rw [h8 hi, he, hp2.kept.stk _ (by rw [← hkr, he]; exact Nat.le_refl _) (by rw [← he]; omega),
        hs.stk _ (Nat.le_refl _) (by rw [← he]; omega)]
  · intro m' hm
    rw [htl] at hm
    have hrsp' := hm.rsp
    refine ⟨by rw [hm.rsp]; omega, by rw [hm.rbp, hp2.kept.rbp, hs.rbp], ?_, ?_, hm.rel, hm.rax⟩
    · intro a ha hat
      rw [hm.stk a (by omega) hat, hp2.kept.stk a (by rw [← hkr]; omega) hat, hs.stk a (by omega) hat]
    · intro i r hi hr
      cases ind with
      | true => rw [(hind rfl).1] at hi; simp at hi
      | false =>
        have hlt := (m.reg .rsp).isLt
        have hhi := hpre.hi
        have hsp0 := hpre.sp
        generalize ha : (BitVec.ofNat 64 ((m2.reg .rsp).toNat + 8 * i) : Word) = a
        have hat : a.toNat = (m2.reg .rsp).toNat + 8 * i := by
          rw [← ha, BitVec.toNat_ofNat]
          exact Nat.mod_eq_of_lt (by omega)
        rw [hm.regs i r a hi hr (by simpa using hat),
          hp2.kept.stk a (by rw [← hkr]; omega) (by omega)]
        exact hs.saved i r a hi (by simpa using hr) (by rw [← hkr]; exact hat)

theorem Post.of_call {k : Nat} {m m' : Mach σ} (h1 : (m'.reg .rsp).toNat = (m.reg .rsp).toNat)
    (h2 : m'.reg .rbp = m.reg .rbp)
    (h3 : ∀ a : Word, (m.reg .rsp).toNat ≤ a.toNat → a.toNat < top → m'.mem a = m.mem a)
    (h4 : ∀ i r, i < k → argRegs[i]? = some r → m'.reg r = m.reg r) (h5 : Rel lim top S m') :
    Post lim top k m m' S := ⟨⟨BitVec.eq_of_toNat_eq h1, h2, h3⟩, h4, h5⟩

/-! ### Callees -/

theorem genFuncs_mem {alloc : String} {fds : List FnDef} {fd : FnDef} (h : fd ∈ fds) (lbl : Nat) :
    ∃ pre l rest, genFuncs alloc fds lbl = pre ++ ((genFunc alloc fd l).1 ++ rest) := by
  induction fds generalizing lbl with
  | nil => simp at h
  | cons f fs ih =>
    rcases List.mem_cons.mp h with rfl | h
    · exact ⟨[], lbl, _, rfl⟩
    · obtain ⟨pre, l, rest, e⟩ := ih h (genFunc alloc f lbl).2
      exact ⟨(genFunc alloc f lbl).1 ++ pre, l, rest, by simp [genFuncs, e]⟩

theorem fn_found (X : Ctx P I C lim top) {fd : FnDef} (h : fd ∈ P.fns) :
    ∃ pre l, pre ++ (genFunc P.alloc fd l).1 <+: C := by
  obtain ⟨pre, l, rest, e⟩ := genFuncs_mem (alloc := P.alloc) h 0
  refine ⟨pre, l, ?_⟩
  rw [X.code, genProg, e]
  exact ⟨rest ++ genIoob P.ioob, by simp⟩

theorem fn_pos (X : Ctx P I C lim top) {fd : FnDef} (h : fd ∈ P.fns) :
    ∃ p, I.find (.fn fd.name) = some p ∧ I.pos (P.fnAddr fd.name) = some p := by
  obtain ⟨pre, l, hp⟩ := fn_found X h
  rw [← X.addr]
  refine pos_fnAddr (pre := pre ++ [.flush]) (r := []) X.loaded ?_
  simp only [genFunc] at hp
  pfx hp

/-- From the entry of a function called with the stack pointer of `m` to its return. -/
theorem fn_reaches {fd : FnDef} {vs : List (Option Val)} {v : Option Val} {d' : Nat}
    (hfn : Sim P I C lim top d' (.fn fd vs S1 v S2)) (hfd : fd ∈ P.fns) (hskip : fd.skip = false)
    {m : Mach σ} {p q : Nat} {ra : Word} {G : Cfg σ → Prop} (hp : I.find (.fn fd.name) = some p)
    (hq : I.pos (ra + 8) = some q) (hal : m.aligned) (hbud : lim + 8 * d ≤ (m.reg .rsp).toNat)
    (hd : d' + fd.cost ≤ d) (htop : (m.reg .rsp).toNat < top)
    (hregs : ∀ (j : Nat) (r : Reg) (x : Val), vs[j]? = some (some x) → argRegs[j]? = some r →
      m.reg r = x.enc) (hrel : Rel lim top S1 m)
    (hk : ∀ m', Kept top m m' → Rel lim top S2 m' → (∀ x, v = some x → m'.reg .rax = x.enc) →
      Reaches I G (q, m')) :
    Reaches I G (p, m.push ra) := by
  have hc : 2 ≤ fd.cost := by simp only [FnDef.cost]; omega
  have e1 : (m.push ra).reg .rsp = m.reg .rsp - 8 := by simp [Mach.push, Mach.set, Mach.store]
  have e2 := toNat_sub8 (a := m.reg .rsp) (by omega)
  have e3 : ∀ r, r ≠ .rsp → (m.push ra).reg r = m.reg r := by
    intro r hr; simp [Mach.push, Mach.set, Mach.store, hr]
  have e4 : ∀ a, a ≠ m.reg .rsp - 8 → (m.push ra).mem a = m.mem a := by
    intro a ha
    simp only [Mach.push, Mach.set, Mach.store]
    rw [if_neg ha]
  have e5 : (m.push ra).mem ((m.push ra).reg .rsp) = ra := by
    rw [e1]; simp [Mach.push, Mach.set, Mach.store]
  have hal' : (m.reg .rsp).toNat % 16 = 0 := hal
  refine hfn (m.push ra) p q G hfd hskip hp (by rw [e5]; exact hq) (by rw [e1, e2]; omega)
    (by rw [e1, e2]; omega) (by rw [e1, e2]; omega) ?_ ?_ ?_
  · intro j r x hj hr
    rw [e3 r (argReg_ne hr).2.2.1]
    exact hregs j r x hj hr
  · refine hrel.stack ?_ rfl
    intro a ha
    apply e4
    rintro rfl
    omega
  · intro m' h1 h2 h3 h4 h5
    refine hk m' ⟨?_, ?_, ?_⟩ h4 h5
    · rw [h1, e1]; exact sub8_add8 _
    · rw [h2, e3 _ (by simp)]
    · intro a ha hat
      rw [h3 a (by rw [e1, e2]; omega) hat, e4]
      rintro rfl
      omega

theorem argWs_get {fi : FnInfo} (h : fi.ext = false) {es : List Expr} {vs : List (Option Val)}
    (hl : vs.length = es.length) {j : Nat} {x : Val} (hj : vs[j]? = some (some x)) :
    (argWs fi es vs)[j]? = some (some x.enc) := by
  induction es generalizing vs j with
  | nil =>
    cases vs with
    | nil => simp at hj
    | cons => simp at hl
  | cons e es ih =>
    cases vs with
    | nil => simp at hl
    | cons v vs =>
      cases j with
      | zero =>
        simp only [List.getElem?_cons_zero, Option.some.injEq] at hj
        subst hj
        simp [argWs, argW, h]
      | succ j =>
        simp only [List.getElem?_cons_succ] at hj
        simp only [argWs, List.getElem?_cons_succ]
        exact ih (by simpa using hl) hj

theorem callTail_clara {fi : FnInfo} (h : fi.ext = false) (g : GS) : callTail fi g = [gcMap g] := by
  simp [callTail, h]

theorem sim_callFn (X : Ctx P I C lim top) {fi : FnInfo} {args : List Expr} {vs : List (Option Val)}
    {fd' : FnDef} {v : Option Val} {d' : Nat} (hext : fi.ext = false)
    (hargs : Sim P I C lim top d (.args ρ S args vs S1)) (hfd : fd' ∈ P.fns) (hskip : fd'.skip = false)
    (hfn : Sim P I C lim top d' (.fn fd' vs S1 v S2)) (hd : d' + fd'.cost ≤ d) :
    Sim P I C lim top d (.expr ρ S (.callFn fd'.name fi args) v S2) := by
  intro fd g m hv hok hpre
  simp only [genExpr]
  refine (exe_call X hargs hv hok (by simp) hpre ?_ (v := v) (S2 := S2)).mono ?_
  · intro m1 g' k1 k2 k3 k4 k5 k6 k7 _
    rw [callTail_clara hext]
    intro G pre hp hk
    obtain ⟨p, hf, -⟩ := fn_pos X hfd
    refine Run.call X.loaded hp k1 hf ?_
    intro ra hra
    refine fn_reaches hfn hfd hskip hf hra k1 k2 hd k3 ?_ k7 ?_
    · intro j r x hj hr
      exact k4 j r _ (argWs_get hext hargs.1 hj) hr
    · intro m' j1 j2 j3
      exact (hk m' ⟨j1, j2, j3⟩).atRet
  · rintro m' ⟨h1, h2, h3, h4, h5, h6⟩
    exact ⟨Post.of_call (by simpa using h1) h2 (by simpa using h3) h4 h5, h6⟩

theorem sim_callVar (X : Ctx P I C lim top) {fi : FnInfo} {args : List Expr} {vs : List (Option Val)}
    {x : Nat} {fd' : FnDef} {v : Option Val} {d' : Nat} (hext : fi.ext = false)
    (hx : ρ x = some (.ptr (P.fnAddr fd'.name)))
    (hargs : Sim P I C lim top d (.args ρ S args vs S1)) (hfd : fd' ∈ P.fns) (hskip : fd'.skip = false)
    (hfn : Sim P I C lim top d' (.fn fd' vs S1 v S2)) (hd : d' + fd'.cost ≤ d) :
    Sim P I C lim top d (.expr ρ S (.callVar x fi args) v S2) := by
  intro fd g m hv hok hpre
  simp only [Expr.vars, List.cons_subset] at hv
  simp only [genExpr]
  split
  · refine (exe_call X hargs hv.2 hok (by simp) hpre ?_ (v := v) (S2 := S2)).mono ?_
    · intro m1 g' k1 k2 k3 k4 k5 k6 k7 _
      rw [callTail_clara hext]
      intro G pre hp hk
      obtain ⟨p, hf, hpos⟩ := fn_pos X hfd
      refine Run.callMem (q := p) X.loaded hp k1 ?_ ?_
      · rw [ea_slot]
        have hs : slotA m1 (fd.slot x) = slotA m (fd.slot x) := by simp only [slotA, k5]
        obtain ⟨i1, i2⟩ := hpre.slot_in hv.1
        have := hpre.hi
        rw [hs, k6 _ i2 (by omega), (hpre.env x _ hx).2]
        exact hpos
      · intro ra hra
        refine fn_reaches hfn hfd hskip hf hra k1 k2 hd k3 ?_ k7 ?_
        · intro j r x hj hr
          exact k4 j r _ (argWs_get hext hargs.1 hj) hr
        · intro m' j1 j2 j3
          exact (hk m' ⟨j1, j2, j3⟩).atRet
    · rintro m' ⟨h1, h2, h3, h4, h5, h6⟩
      exact ⟨Post.of_call (by simpa using h1) h2 (by simpa using h3) h4 h5, h6⟩
  · exact Exe.panic X.nopanic (by simp)

theorem sim_callExpr (X : Ctx P I C lim top) {fi : FnInfo} {e : Expr} {args : List Expr}
    {vs : List (Option Val)} {S0 : Store σ} {fd' : FnDef} {v : Option Val} {d' : Nat}
    (hext : fi.ext = false)
    (he : Sim P I C lim top d (.expr ρ S e (some (.ptr (P.fnAddr fd'.name))) S0))
    (hargs : Sim P I C lim top d (.args ρ S0 args vs S1)) (hfd : fd' ∈ P.fns) (hskip : fd'.skip = false)
    (hfn : Sim P I C lim top d' (.fn fd' vs S1 v S2)) (hd : d' + fd'.cost ≤ d) :
    Sim P I C lim top d (.expr ρ S (.callExpr e fi args) v S2) := by
  intro fd g m hv hok hpre
  simp only [Expr.vars, List.append_subset] at hv
  simp only [Expr.ok, Bool.and_eq_true, decide_eq_true_eq] at hok
  simp only [Expr.use] at hpre
  simp only [genExpr]
  have htop : g.top = [] := List.length_eq_zero_iff.mp hok.1
  have hE := he fd g m hv.1 (by rw [hok.1]; exact hok.2.1) (hpre.less (by omega))
  refine hE.append ?_
  rintro m1 ⟨hp1, hx1⟩
  have hpre1 := hpre.kept hp1.kept hp1.rel
  refine Exe.push X.loaded ?_
  intro w
  have hpre2 := ((hpre1.less (u' := 1 + (6 + (1 + useL args) + d)) (by omega)).push (r := .rax)
    (by simp) (by simp) w (m1.reg .rax)).spEq
    (g' := (genExpr fd.slot e false g).2.inc) (by simp only [GS.inc, genExpr_sp])
  have hg0 : (genExpr fd.slot e false g).2.inc.top = [] := (genExpr_top (g := g)).trans htop
  have hb1 := hpre1.bud
  have hh1 := hpre1.hi
  have hs1 := hpre1.sp
  have e1 : ((m1.set .rax w).push (m1.reg .rax)).reg .rsp = m1.reg .rsp - 8 := by
    simp [Mach.push, Mach.set, Mach.store]
  have e2 := toNat_sub8 (a := m1.reg .rsp) (by omega)
  have e3 : ((m1.set .rax w).push (m1.reg .rax)).mem (m1.reg .rsp - 8) = P.fnAddr fd'.name := by
    have : m1.reg .rax = P.fnAddr fd'.name := hx1 _ rfl
    simp [Mach.push, Mach.set, Mach.store, this]
  have e4 : ∀ a, a ≠ m1.reg .rsp - 8 → ((m1.set .rax w).push (m1.reg .rax)).mem a = m1.mem a := by
    intro a ha
    simp only [Mach.push, Mach.set, Mach.store, reduceCtorEq, if_false]
    rw [if_neg ha]
  refine (exe_call (ind := true) X hargs hv.2 hok.2.2 (fun _ => ⟨hg0, by simp [GS.inc]⟩) hpre2 ?_
    (v := v) (S2 := S2)).mono ?_
  · intro m2 g' k1 k2 k3 k4 k5 k6 k7 k8
    rw [callTail_clara hext]
    intro G pre hp hk
    obtain ⟨p, hf, hpos⟩ := fn_pos X hfd
    refine Run.callReg (q := p) X.loaded hp k1 ?_ ?_
    · rw [k8 rfl, e1, e3]
      exact hpos
    · intro ra hra
      refine fn_reaches hfn hfd hskip hf hra k1 k2 hd k3 ?_ k7 ?_
      · intro j r x hj hr
        exact k4 j r _ (argWs_get hext hargs.1 hj) hr
      · intro m' j1 j2 j3
        exact (hk m' ⟨j1, j2, j3⟩).atRet
  · rintro m' ⟨h1, h2, h3, h4, h5, h6⟩
    rw [e1, e2] at h1 h3
    simp only [if_true] at h1 h3
    refine ⟨Post.of_call ?_ ?_ ?_ ?_ h5, h6⟩
    · rw [h1, ← hp1.kept.rsp]; omega
    · rw [h2, ← hp1.kept.rbp]
      simp [Mach.push, Mach.set, Mach.store]
    · intro a ha hat
      rw [← hp1.kept.rsp] at ha
      rw [h3 a (by omega) hat, e4 a (by rintro rfl; omega),
        hp1.kept.stk a (by rw [← hp1.kept.rsp]; exact ha) hat]
    · intro i r hi
      rw [htop] at hi
      simp at hi

theorem sim_callRt (X : Ctx P I C lim top) {fi : FnInfo} {f : String} {args : List Expr}
    {vs : List (Option Val)} {v : Option Val} (hext : fi.ext = false)
    (hargs : Sim P I C lim top d (.args ρ S args vs S1)) (hrt : P.rt f vs S1 v S2)
    (hd : P.extNeed f ≤ d) :
    Sim P I C lim top d (.expr ρ S (.callFn f fi args) v S2) := by
  intro fd g m hv hok hpre
  simp only [genExpr]
  refine (exe_call X hargs hv hok (by simp) hpre ?_ (v := v) (S2 := S2)).mono ?_
  · intro m1 g' k1 k2 k3 k4 k5 k6 k7 _
    rw [callTail_clara hext]
    intro G pre hp hk
    obtain ⟨j1, j2, j3, j4⟩ := X.rt f vs S1 v S2 m1 hrt k1 (by omega) k3
      (fun j r x hj hr => k4 j r _ (argWs_get hext hargs.1 hj) hr) k7
    refine Run.callRt X.loaded hp k1 j1 j2 j3 ?_
    intro m' hm'
    exact hk m' (j4 m' hm')
  · rintro m' ⟨h1, h2, h3, h4, h5, h6⟩
    exact ⟨Post.of_call (by simpa using h1) h2 (by simpa using h3) h4 h5, h6⟩

theorem sim_callExt (X : Ctx P I C lim top) {fi : FnInfo} {f : String} {args : List Expr}
    {vs : List (Option Val)} {w : Word} {v : Option Val} (hext : fi.ext = true)
    (hargs : Sim P I C lim top d (.args ρ S args vs S1))
    (hx : P.ext f (extArgs fi args vs) S1 w S2) (hres : extRes fi w v)
    (hd : P.extNeed f ≤ d) :
    Sim P I C lim top d (.expr ρ S (.callFn f fi args) v S2) := by
  intro fd g m hv hok hpre
  simp only [genExpr]
  refine (exe_call X hargs hv hok (by simp) hpre ?_ (v := v) (S2 := S2)).mono ?_
  · intro m1 g' k1 k2 k3 k4 k5 k6 k7 _
    rw [argWs_ext hext] at k4
    obtain ⟨j1, j2, j3, j4⟩ := X.ext f _ S1 w S2 m1 hx k1 (by omega) k3 k4 k7
    have hcall : Exe I C [.ins (.call f)] m1
        (fun m' => Kept top m1 m' ∧ Rel lim top S2 m' ∧ m'.reg .rax = w) := by
      intro G pre hp hk
      exact Run.callC X.loaded hp k1 j1 j2 j3 (fun m' hm' => hk m' (j4 m' hm'))
    refine Exe.append (c := [.ins (.call f)]) hcall ?_
    rintro m2 ⟨i1, i2, i3⟩
    simp only [hext, if_true, Bool.true_and, List.append_nil]
    unfold extRes at hres
    split
    · rename_i hc
      simp only [Bool.and_eq_true, beq_iff_eq] at hc
      rw [if_pos hc] at hres
      refine Exe.tag_end X ?_
      intro _ m3 hm3 hx3
      refine ⟨i1.trans (hm3.kept (by simp) (by simp)), i2.congr hm3.mem hm3.ext, ?_⟩
      intro x hx
      rw [hx3, hres x hx, i3]
    · rename_i hc
      simp only [Bool.and_eq_true, beq_iff_eq] at hc
      rw [if_neg hc] at hres
      refine Exe.nil ⟨i1, i2, ?_⟩
      intro x hx
      rw [i3, hres x hx]
  · rintro m' ⟨h1, h2, h3, h4, h5, h6⟩
    exact ⟨Post.of_call (by simpa using h1) h2 (by simpa using h3) h4 h5, h6⟩

end Clara.Gen
