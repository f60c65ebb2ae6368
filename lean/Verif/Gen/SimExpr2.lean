import Verif.Gen.SimExpr
/-
Correctness of the code for expressions: unary operators, conditionals, fields and elements,
arguments.
-/
namespace Clara.Gen
variable {σ : Type} {P : Prog σ} {I : Image σ} {C : List Ev} {lim top : Nat}
  {d : Nat} {ρ : Env} {S S1 S2 : Store σ}

theorem sim_un (X : Ctx P I C lim top) {o : UnOp} {t : TyR} {e : Expr} {a b : Val}
    (h1 : Sim P I C lim top d (.expr ρ S e (some a) S1)) (he : o.eval a = some b) :
    Sim P I C lim top d (.expr ρ S (.un o t e) (some b) S1) := by
  intro fd g m hv hok hpre
  have hl := h1 fd g m hv hok hpre
  cases o with
  | not =>
    cases a <;> simp only [UnOp.eval, reduceCtorEq] at he
    have he := Option.some.inj he
    subst he
    simp only [genExpr]
    refine hl.append ?_
    rintro m1 ⟨hp, hx⟩
    refine Exe.ins X.loaded rfl (Exe.ins X.loaded rfl (Exe.nil ?_))
    refine ⟨(hp.rax (mod_set _ _ _)).rax (mod_setF _ _ _), eval_some ?_⟩
    simp only [Mach.noFlags, set_reg_self, Mach.get, Alu.eval, hx _ rfl]
    exact not_word _
  | bnot =>
    cases a <;> simp only [UnOp.eval, reduceCtorEq] at he
    have he := Option.some.inj he
    subst he
    simp only [genExpr]
    refine hl.append ?_
    rintro m1 ⟨hp, hx⟩
    refine Exe.ins X.loaded rfl ?_
    split
    · refine Exe.ins X.loaded rfl (Exe.nil ?_)
      refine ⟨(hp.rax (mod_set _ _ _)).rax (mod_setF _ _ _), eval_some ?_⟩
      simp only [Mach.noFlags, set_reg_self, Mach.get, Alu.eval, hx _ rfl]
      exact bnot_word _
    · exact Exe.panic X.nopanic (by simp)
  | neg =>
    cases a <;> simp only [UnOp.eval, reduceCtorEq] at he
    have he := Option.some.inj he
    subst he
    simp only [genExpr]
    refine hl.append ?_
    rintro m1 ⟨hp, hx⟩
    refine Exe.untag X ?_
    intro _ m2 hm2 hx2
    refine Exe.ins X.loaded rfl (Exe.tag_end X ?_)
    intro _ m3 hm3 hx3
    refine ⟨((hp.rax hm2).rax (mod_setF _ _ _)).rax hm3, eval_some ?_⟩
    rw [hx3]
    simp only [Mach.noFlags, set_reg_self, hx2, hx _ rfl, untag_word, neg_word]

theorem sim_arrLit {t : TyR} {e : Expr} {v : Option Val}
    (h1 : Sim P I C lim top d (.expr ρ S e v S1)) :
    Sim P I C lim top d (.expr ρ S (.arrLit t e) v S1) := by
  intro fd g m hv hok hpre
  simp only [genExpr]
  exact h1 fd g m hv hok hpre

/-- A prefix of a prefix. -/
macro "pfx " h:term : tactic =>
  `(tactic| exact List.IsPrefix.trans ⟨_, by simp <;> rfl⟩ $h)

/-! ### Conditionals -/

/-- `cmpq $1, %rax` after a condition. -/
theorem cond_flags (b : Bool) :
    Cond.ne.holds ((Val.bool b).enc, BitVec.ofInt 64 1) = !b := by cases b <;> decide

theorem Exe.trans {c : List Ev} {m : Mach σ} {Q Q' : Mach σ → Prop} (h : Exe I C c m Q)
    (hq : ∀ m', Q m' → Q' m') : Exe I C c m Q' := h.mono hq

theorem sim_tern (X : Ctx P I C lim top) {t : TyR} {c x y : Expr} {b : Bool} {v : Option Val}
    (h1 : Sim P I C lim top d (.expr ρ S c (some (.bool b)) S1))
    (h2 : b = true → Sim P I C lim top d (.expr ρ S1 x v S2))
    (h3 : b = false → Sim P I C lim top d (.expr ρ S1 y v S2)) :
    Sim P I C lim top d (.expr ρ S (.tern t c x y) v S2) := by
  intro fd g m hv hok hpre
  simp only [Expr.vars, List.append_subset] at hv
  simp only [Expr.ok, Bool.and_eq_true] at hok
  simp only [Expr.use] at hpre
  have hc := h1 fd g m hv.1 hok.1 (hpre.less (by omega))
  simp only [genExpr]
  generalize ha : genExpr fd.slot c false g = a at hc ⊢
  have hsa : Same g a.2 := by rw [← ha]; exact genExpr_state _ _ _ _
  generalize hgx : ({ a.2 with lbl := a.2.lbl + 2 } : GS) = gx
  have hsx : Same g gx := by rw [← hgx]; exact hsa
  generalize hb : genExpr fd.slot x false gx = bb
  have hsb : Same g bb.2 := by rw [← hb]; exact hsx.trans (genExpr_state _ _ _ _)
  generalize hd : genExpr fd.slot y false bb.2 = dd
  intro G pre hp hk
  refine hc G pre (prefix_left hp) ?_
  rintro m1 ⟨hp1, hx1⟩
  have hpre1 := hpre.kept hp1.kept hp1.rel
  refine Run.flush X.loaded (by pfx hp) ?_
  refine Run.flush X.loaded (by pfx hp) ?_
  refine Run.straight (i := .cmp (.imm 1) .rax) X.loaded (by pfx hp) rfl rfl rfl ?_
  have hpl : (pre ++ a.1 ++ [.flush] ++ [.flush] ++ [.ins (.cmp (.imm 1) .rax)] ++
      [.ins (.jcc .ne (.loc "else" a.2.lbl))] ++ bb.1 ++ [.ins (.jmp (.loc "exit" (a.2.lbl + 1)))]) ++
      [.label (.loc "else" a.2.lbl)] <+: C := by pfx hp
  have hpx : (pre ++ a.1 ++ [.flush] ++ [.flush] ++ [.ins (.cmp (.imm 1) .rax)] ++
      [.ins (.jcc .ne (.loc "else" a.2.lbl))] ++ bb.1 ++ [.ins (.jmp (.loc "exit" (a.2.lbl + 1)))]) ++
      [.label (.loc "else" a.2.lbl)] ++ dd.1 ++ [.label (.loc "exit" (a.2.lbl + 1))] <+: C :=
    List.IsPrefix.trans ⟨[], by simp⟩ hp
  have hrax : m1.reg .rax = (Val.bool b).enc := hx1 _ rfl
  refine Run.jcc (c := .ne) X.loaded (by pfx hp) rfl hpl ?_ ?_
  · intro hcond
    simp only [Mach.get, hrax, cond_flags] at hcond
    have hb0 : b = false := by simpa using hcond
    have hy := h3 hb0 fd bb.2 { m1 with flags := some (m1.reg .rax, m1.get (.imm 1)) } hv.2.2
      (by rw [top_of_same hsb]; exact hok.2.2)
      (((hpre1.same hsb).less (by omega)).kept ⟨rfl, rfl, fun _ _ _ => rfl⟩ (hp1.rel.congr rfl rfl))
    rw [hd, top_of_same hsb] at hy
    refine hy G _ (prefix_left (b := [_]) (by simpa using hpx)) ?_
    rintro m2 ⟨hp2, hx2⟩
    refine Run.label X.loaded (by simpa using hpx) ?_
    have := hk m2 ⟨⟨hp1.kept.trans ⟨hp2.kept.rsp, hp2.kept.rbp, hp2.kept.stk⟩,
      fun i r hi hr => (hp2.regs i r hi hr).trans (hp1.regs i r hi hr), hp2.rel⟩, hx2⟩
    simpa using this
  · intro hcond
    simp only [Mach.get, hrax, cond_flags] at hcond
    have hb1 : b = true := by simpa using hcond
    have hy := h2 hb1 fd gx { m1 with flags := some (m1.reg .rax, m1.get (.imm 1)) } hv.2.1
      (by rw [top_of_same hsx]; exact hok.2.1)
      (((hpre1.same hsx).less (by omega)).kept ⟨rfl, rfl, fun _ _ _ => rfl⟩ (hp1.rel.congr rfl rfl))
    rw [hb, top_of_same hsx] at hy
    refine hy G _ (by pfx hp) ?_
    rintro m2 ⟨hp2, hx2⟩
    refine Run.jmp (l := .loc "exit" (a.2.lbl + 1)) X.loaded (by pfx hp) hpx ?_
    have := hk m2 ⟨⟨hp1.kept.trans ⟨hp2.kept.rsp, hp2.kept.rbp, hp2.kept.stk⟩,
      fun i r hi hr => (hp2.regs i r hi hr).trans (hp1.regs i r hi hr), hp2.rel⟩, hx2⟩
    simpa using this

/-! ### Fields -/

theorem exe_dot (X : Ctx P I C lim top) {e : Expr} {off : Nat} {p : Word} {rest : List Ev} {fd : FnDef}
    {g : GS} {m : Mach σ} {Q : Mach σ → Prop}
    (h1 : Sim P I C lim top d (.expr ρ S e (some (.ptr p)) S1))
    (hv : e.vars ⊆ fd.syms) (hok : e.ok g.top.length = true)
    (hpre : Pre lim top fd ρ S g m (max e.use 1 + d))
    (h : ∀ m', Post lim top g.top.length m m' S1 →
      m'.ea { base := .rax, idx := some .rbx } = p + BitVec.ofNat 64 off → Exe I C rest m' Q) :
    Exe I C ((genExpr fd.slot e false g).1 ++ (.ins (.push rax) :: .ins (.mov (.imm off) rax) ::
      .ins (.mov rax rbx) :: .ins (.pop .rax) :: rest)) m Q := by
  have hl := (h1 fd g m hv hok (hpre.less (by omega))).mono
    (fun m' hm' => And.intro hm'.1 (hm'.2 _ rfl))
  refine exe_two (g2 := g.inc) (u := d) (cr := [.ins (.mov (.imm off) rax)]) (t1 := []) (t2 := [])
    (S2 := S1) (B := BitVec.ofInt 64 off) X
    (hpre.less (by omega)) rfl hl ?_ OnRax.nil OnRax.nil (Or.inl rfl) ?_
  · intro m2 hp2
    exact Exe.ins X.loaded rfl (Exe.nil ⟨Post.refl hp2.rel (mod_set _ _ _), set_reg_self _ _ _⟩)
  · intro m' k1 k2 k3 k4 k5
    refine h m' (Post.two k1 k2 k5 ne_rbx) ?_
    simp only [Mach.ea, k3, k4, id, Val.enc, BitVec.ofInt_natCast]
    show p + BitVec.ofNat 64 off * 1#64 + 0#64 = _
    rw [BitVec.mul_one, BitVec.add_zero]

theorem sim_dot (X : Ctx P I C lim top) {t : TyR} {e : Expr} {off : Nat} {p : Word} {v : Val}
    (h1 : Sim P I C lim top d (.expr ρ S e (some (.ptr p)) S1))
    (hh : S1.heap (p + BitVec.ofNat 64 off) = some v) :
    Sim P I C lim top d (.expr ρ S (.dot t e off) (some v) S1) := by
  intro fd g m hv hok hpre
  simp only [genExpr]
  refine exe_dot X h1 hv hok hpre ?_
  intro m' hp hea
  refine Exe.ins X.loaded rfl (Exe.nil ⟨hp.rax (mod_set _ _ _), eval_some ?_⟩)
  refine (set_reg_self _ _ _).trans ?_
  simp only [Mach.get, hea]
  exact hp.rel.heap _ _ hh

theorem sim_locDot (X : Ctx P I C lim top) {t : TyR} {e : Expr} {off : Nat} {p : Word}
    (h1 : Sim P I C lim top d (.expr ρ S e (some (.ptr p)) S1)) :
    Sim P I C lim top d (.loc ρ S (.dot t e off) (.mem (p + BitVec.ofNat 64 off)) S1) := by
  intro fd g m hv hok hpre
  simp only [genExpr]
  refine exe_dot X h1 hv hok hpre ?_
  intro m' hp hea
  refine Exe.ins X.loaded rfl (Exe.nil ⟨hp.rax (mod_set _ _ _), ?_⟩)
  exact (set_reg_self _ _ _).trans hea

/-! ### Array elements -/

theorem ioob_label (X : Ctx P I C lim top) : ∃ pre, pre ++ [.label .ioob] <+: C := by
  refine ⟨genFuncs P.alloc P.fns 0 ++ [.flush], ?_⟩
  rw [X.code, genProg, genIoob]
  exact ⟨_, by simp; rfl⟩

/-- Up to the bounds check. -/
theorem exe_index (X : Ctx P I C lim top) {a i : Expr} {p : Word} {n len : BitVec 63} {rest : List Ev}
    {fd : FnDef} {g : GS} {m : Mach σ} {Q : Mach σ → Prop}
    (h1 : Sim P I C lim top d (.expr ρ S a (some (.ptr p)) S1))
    (h2 : Sim P I C lim top d (.expr ρ S1 i (some (.int n)) S2))
    (hlen : S2.heap p = some (.int len))
    (hv : a.vars ++ i.vars ⊆ fd.syms) (hok : (a.ok g.top.length && i.ok g.top.length) = true)
    (hpre : Pre lim top fd ρ S g m (max a.use (1 + i.use) + d))
    (h : ∀ m', Post lim top g.top.length m m' S2 → m'.reg .rax = p → m'.reg .rbx = n.signExtend 64 →
      m'.flags = some (n.signExtend 64, len.signExtend 64) → Exe I C rest m' Q) :
    Exe I C ((genExpr fd.slot a false g).1 ++ (.ins (.push rax) ::
      ((genExpr fd.slot i false (genExpr fd.slot a false g).2.inc).1 ++ (untagAs i.ty.kind .rax ++
      (.ins (.mov rax rbx) :: .ins (.mov (.mem { base := .rsp }) rax) ::
       .ins (.mov (.mem { base := .rax }) rax) :: (untagAs .integer .rax ++
       (.ins (.cmp rax .rbx) :: .ins (.pop .rax) :: rest))))))) m Q := by
  simp only [List.append_subset] at hv
  simp only [Bool.and_eq_true] at hok
  refine (h1 fd g m hv.1 hok.1 (hpre.less (by omega))).append ?_
  rintro m1 ⟨hp1, hx1⟩
  have hpre1 := (hpre.kept hp1.kept hp1.rel).less (u' := 1 + (i.use + d)) (by omega)
  refine Exe.push X.loaded ?_
  intro w
  have ht : (genExpr fd.slot a false g).2.inc.top = g.top := genExpr_top
  have hpre2 := (hpre1.push (r := .rax) (by simp) (by simp) w (m1.reg .rax)).spEq
    (g' := (genExpr fd.slot a false g).2.inc) (by simp only [GS.inc, genExpr_sp])
  have hi := h2 fd _ _ hv.2 (by rw [ht]; exact hok.2) hpre2
  rw [ht] at hi
  refine hi.append ?_
  rintro m4 ⟨hp4, hb⟩
  refine Exe.untag X ?_
  intro _ m5 hm5 hb5
  have hp5 := hp4.rax hm5
  have hb2 := hpre1.bud
  have hh2 := hpre1.hi
  have hs2 := hpre1.sp
  obtain ⟨q1, q2, q3, q4⟩ := hp5.kept.pushed (by simp) (by simp) (by omega) (by omega)
  rw [hb _ rfl, untag_word] at hb5
  have hpe : m1.reg .rax = p := hx1 _ rfl
  rw [hpe] at q2
  refine Exe.mov X.loaded ?_
  intro w'
  refine Exe.ins X.loaded rfl (Exe.ins X.loaded rfl ?_)
  refine Exe.untag X ?_
  intro _ m6 hm6 hx6
  refine Exe.ins X.loaded rfl (Exe.ins X.loaded rfl ?_)
  have e0 : ∀ w : Word, w + 0 + BitVec.ofInt 64 0 = w := by
    intro w
    show w + 0#64 + 0#64 = w
    rw [BitVec.add_zero, BitVec.add_zero]
  have hrsp6 : m6.reg .rsp = m5.reg .rsp := by
    rw [hm6.reg _ (by simp)]
    simp [Mach.set, Mach.put, rax, rbx]
  have hrbx6 : m6.reg .rbx = n.signExtend 64 := by
    rw [hm6.reg _ (by simp)]
    simp [Mach.set, Mach.put, rax, rbx, hb5]
  have hrax6 : m6.reg .rax = len.signExtend 64 := by
    rw [hx6, ← untag_word]
    congr 1
    simp only [Mach.put, Mach.get, Mach.ea, rax, rbx, set_reg_self, e0]
    simp only [Mach.set, reduceCtorEq, if_false]
    rw [q2]
    exact hp5.rel.heap _ _ hlen
  have hmem6 : m6.mem = m5.mem := hm6.mem.trans rfl
  apply h
  · refine ⟨⟨?_, ?_, ?_⟩, ?_, ?_⟩
    · simp only [Mach.set, reduceCtorEq, if_false, if_true]
      rw [hrsp6, q1]
      exact (sub8_add8 _).trans hp1.kept.rsp
    · simp only [Mach.set, reduceCtorEq, if_false]
      rw [hm6.reg _ (by simp)]
      simp only [Mach.put, rax, rbx, Mach.set, reduceCtorEq, if_false]
      rw [q3, hp1.kept.rbp]
    · intro x h1 h2
      simp only [Mach.set]
      rw [hmem6, q4 x (by rw [hp1.kept.rsp]; exact h1) h2, hp1.kept.stk x h1 h2]
    · intro j r hj hr
      obtain ⟨n1, n2, n3, n4⟩ := argReg_ne hr
      simp only [Mach.set, n1, n3, if_false]
      rw [hm6.reg _ (by simp [n1])]
      simp only [Mach.put, rax, rbx, Mach.set, n1, n2, if_false]
      rw [hp5.regs j r hj hr]
      simp only [Mach.push, Mach.set, Mach.store, n1, n3, if_false]
      exact hp1.regs j r hj hr
    · exact hp5.rel.congr hmem6 (hm6.ext.trans rfl)
  · simp only [Mach.set, if_true]
    rw [hmem6, hrsp6, q2]
  · simp only [Mach.set, reduceCtorEq, if_false]
    exact hrbx6
  · simp only [Mach.set, rax, Mach.get]
    rw [hrbx6, hrax6]

theorem Exe.jcc_fall {l : Label} {c : Cond} {f : Word × Word} {m : Mach σ} {rest : List Ev}
    {Q : Mach σ → Prop} (hL : Loaded I C) {pre' : List Ev} (hl : pre' ++ [.label l] <+: C)
    (hf : m.flags = some f) (hc : c.holds f = false) (h : Exe I C rest m Q) :
    Exe I C (.ins (.jcc c l) :: rest) m Q := by
  intro G pre hp hk
  refine Run.jcc_fall hL (List.IsPrefix.trans ⟨rest, by simp⟩ hp) hf hc (find_label hL hl) ?_
  exact h G _ (by simpa using hp) (by simpa using hk)

theorem index_ea {m : Mach σ} {p : Word} {n : BitVec 63} (h1 : m.reg .rax = p)
    (h2 : m.reg .rbx = n.signExtend 64) :
    m.ea { base := .rax, idx := some .rbx, scale := 8, disp := 8 } =
      p + 8 + 8 * BitVec.ofInt 64 n.toInt := by
  simp only [Mach.ea, h1, h2, sext_ofInt]
  show p + BitVec.ofInt 64 n.toInt * 8#64 + 8#64 = p + 8#64 + 8#64 * BitVec.ofInt 64 n.toInt
  rw [BitVec.mul_comm, BitVec.add_assoc, BitVec.add_comm (8#64 * _), BitVec.add_assoc]

theorem in_range {n len : BitVec 63} (h0 : 0 ≤ n.toInt) (h1 : n.toInt < len.toInt) :
    Cond.ae.holds (n.signExtend 64, len.signExtend 64) = false := by
  rw [ae_word (by omega)]
  simp [h0, h1]

theorem sim_index (X : Ctx P I C lim top) {t : TyR} {a i : Expr} {p : Word} {n len : BitVec 63} {v : Val}
    (h1 : Sim P I C lim top d (.expr ρ S a (some (.ptr p)) S1))
    (h2 : Sim P I C lim top d (.expr ρ S1 i (some (.int n)) S2))
    (hlen : S2.heap p = some (.int len)) (h0 : 0 ≤ n.toInt) (hlt : n.toInt < len.toInt)
    (hh : S2.heap (p + 8 + 8 * BitVec.ofInt 64 n.toInt) = some v) :
    Sim P I C lim top d (.expr ρ S (.index t a i) (some v) S2) := by
  intro fd g m hv hok hpre
  simp only [genExpr]
  refine exe_index X h1 h2 hlen hv hok hpre ?_
  intro m' hp hx hb hf
  obtain ⟨pre', hl⟩ := ioob_label X
  refine Exe.jcc_fall X.loaded hl hf (in_range h0 hlt) ?_
  refine Exe.ins X.loaded rfl (Exe.nil ⟨hp.rax (mod_set _ _ _), eval_some ?_⟩)
  refine (set_reg_self _ _ _).trans ?_
  simp only [Mach.get, index_ea hx hb]
  exact hp.rel.heap _ _ hh

theorem sim_locIndex (X : Ctx P I C lim top) {t : TyR} {a i : Expr} {p : Word} {n len : BitVec 63}
    (h1 : Sim P I C lim top d (.expr ρ S a (some (.ptr p)) S1))
    (h2 : Sim P I C lim top d (.expr ρ S1 i (some (.int n)) S2))
    (hlen : S2.heap p = some (.int len)) (h0 : 0 ≤ n.toInt) (hlt : n.toInt < len.toInt) :
    Sim P I C lim top d
      (.loc ρ S (.index t a i) (.mem (p + 8 + 8 * BitVec.ofInt 64 n.toInt)) S2) := by
  intro fd g m hv hok hpre
  simp only [genExpr]
  refine exe_index X h1 h2 hlen hv hok hpre ?_
  intro m' hp hx hb hf
  obtain ⟨pre', hl⟩ := ioob_label X
  refine Exe.jcc_fall X.loaded hl hf (in_range h0 hlt) ?_
  refine Exe.ins X.loaded rfl (Exe.nil ⟨hp.rax (mod_set _ _ _), ?_⟩)
  exact (set_reg_self _ _ _).trans (index_ea hx hb)

/-! ### Arguments -/

theorem exe_rawConv (X : Ctx P I C lim top) {fi : FnInfo} {t : TK} {r : Reg} {c : List Ev} {m : Mach σ}
    {Q : Mach σ → Prop}
    (h : ∀ m', Mod [r] m m' → (∀ v : Val, m.reg r = v.enc → m'.reg r = argW fi t v) → Exe I C c m' Q) :
    Exe I C (rawConv fi t r ++ c) m Q := by
  unfold rawConv
  cases he : (fi.ext && fi.raw) with
  | false =>
    refine h m (Mod.refl _ _) ?_
    intro v hv
    rw [hv]
    simp only [argW, rawArg]
    cases h1 : fi.ext <;> cases h2 : fi.raw <;> simp_all
  | true =>
    simp only [Bool.and_eq_true] at he
    have hid : (t ≠ .string ∧ t ≠ .array ∧ t ≠ .bytes ∧ t ≠ .integer) →
        Exe I C ([] ++ c) m Q := by
      intro ht
      refine h m (Mod.refl _ _) ?_
      intro v hv
      simp only [argW, rawArg, he.1, he.2, if_true]
      rw [hv]
      cases t <;> simp_all
    have hlea : (t = .string ∨ t = .array ∨ t = .bytes) →
        Exe I C ([.ins (.lea { base := r, disp := 8 } r)] ++ c) m Q := by
      intro ht
      refine Exe.ins X.loaded rfl (h _ (mod_set _ _ _) ?_)
      intro v hv
      rw [set_reg_self]
      simp only [argW, rawArg, he.1, he.2, if_true, Mach.ea, hv]
      show v.enc + 0#64 + 8#64 = _
      rw [BitVec.add_zero]
      rcases ht with rfl | rfl | rfl <;> rfl
    simp only [if_true]
    cases t with
    | string => exact hlea (by simp)
    | array => exact hlea (by simp)
    | bytes => exact hlea (by simp)
    | integer =>
      refine Exe.untag X ?_
      intro _ m' hm hx
      refine h m' hm ?_
      intro v hv
      rw [hx, hv]
      simp only [argW, rawArg, he.1, he.2, if_true]
      cases v with
      | int n => exact untag_word n
      | bool _ => rfl
      | ptr _ => rfl
    | struct => exact hid (by simp)
    | enum => exact hid (by simp)
    | function => exact hid (by simp)
    | boolean => exact hid (by simp)
    | pointer => exact hid (by simp)
    | nothing => exact hid (by simp)
    | parameter => exact hid (by simp)

theorem sim_argsNil : Sim P I C lim top d (.args ρ S [] [] S) := by
  refine ⟨rfl, ?_⟩
  intro fd fi g m hd tl _ _ _ hpre
  simp only [genArgs]
  exact Exe.nil ⟨Post.refl hpre.rel (Mod.refl _ _), by simp [argWs]⟩

theorem sim_argsCons (X : Ctx P I C lim top) {e : Expr} {es : List Expr} {v : Option Val}
    {vs : List (Option Val)}
    (h1 : Sim P I C lim top d (.expr ρ S e v S1))
    (h2 : Sim P I C lim top d (.args ρ S1 es vs S2)) :
    Sim P I C lim top d (.args ρ S (e :: es) (v :: vs) S2) := by
  obtain ⟨hlen, h2⟩ := h2
  refine ⟨by simp [hlen], ?_⟩
  intro fd fi g m hd tl hreg hv hok hpre
  simp only [varsL, List.append_subset] at hv
  simp only [okL, Bool.and_eq_true] at hok
  simp only [useL] at hpre
  have htop : g.top = hd := by simp [GS.top, hreg]
  have hl := h1 fd g m hv.1 (by rw [htop]; exact hok.1) (hpre.less (by omega))
  rw [htop] at hl
  simp only [genArgs]
  refine hl.append ?_
  rintro m1 ⟨hp1, hx1⟩
  cases hr : argRegs[hd.length]? with
  | none => exact Exe.panic X.nopanic (by simp)
  | some r =>
    obtain ⟨n1, n2, n3, n4⟩ := argReg_ne hr
    simp only [List.cons_append]
    refine Exe.mov X.loaded ?_
    intro w
    refine exe_rawConv X ?_
    intro m2 hm2 hx2
    have hm12 : Mod [.rax, r] m1 m2 := by
      refine ⟨?_, hm2.mem, hm2.ext⟩
      intro r' hr'
      simp only [List.mem_cons, List.not_mem_nil, or_false, not_or] at hr'
      rw [hm2.reg r' (by simp [hr'])]
      simp [Mach.set, Mach.put, hr']
    have hx2' : ∀ x, v = some x → m2.reg r = argW fi e.ty.kind x := by
      intro x hx
      refine hx2 x ?_
      simp only [Mach.put, set_reg_self]
      exact hx1 x hx
    have hp2 : Post lim top hd.length m m2 S1 := by
      refine hp1.mod hm12 (by simp [Ne.symm n3]) (by simp [Ne.symm n4]) ?_
      intro i r' hi hr'
      simp only [List.mem_cons, List.not_mem_nil, or_false, not_or]
      refine ⟨(argReg_ne hr').1, ?_⟩
      rintro rfl
      have := argReg_inj hr hr'
      omega
    have hst := genExpr_state fd.slot e false g
    generalize hga : genExpr fd.slot e false g = a at hst ⊢
    have hreg2 : (a.2.inUse e.ty).reg = (hd ++ [e.ty]) :: tl := by
      simp only [GS.inUse, hst.2, hreg]
    have hsp2 : (a.2.inUse e.ty).sp = g.sp := by
      rw [← hst.1]
      unfold GS.inUse
      split <;> rfl
    have hpre2 := ((hpre.kept hp2.kept hp2.rel).spEq hsp2).less (u' := useL es + d) (by omega)
    have hrest := h2 fd fi _ m2 (hd ++ [e.ty]) tl hreg2 hv.2 (by simpa using hok.2) hpre2
    simp only [List.length_append, List.length_cons, List.length_nil, Nat.zero_add] at hrest
    refine hrest.mono ?_
    rintro m3 ⟨hp3, hx3⟩
    refine ⟨⟨hp2.kept.trans hp3.kept, ?_, hp3.rel⟩, ?_⟩
    · intro i r' hi hr'
      rw [hp3.regs i r' (by omega) hr', hp2.regs i r' hi hr']
    · intro j r' x hj hr'
      cases j with
      | zero =>
        simp only [argWs, List.getElem?_cons_zero] at hj
        rw [Nat.add_zero, hr] at hr'
        cases hr'
        cases v with
        | none => simp at hj
        | some y =>
          simp only [Option.map_some, Option.some.injEq] at hj
          rw [← hj, ← hx2' y rfl]
          exact hp3.regs hd.length r (by omega) hr
      | succ j =>
        simp only [argWs, List.getElem?_cons_succ] at hj
        exact hx3 j r' x hj (by rw [← hr']; congr 1; omega)

end Clara.Gen
