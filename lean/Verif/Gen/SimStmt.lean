import Verif.Gen.SimCall
/-
Correctness of the code for statements.
-/
namespace Clara.Gen
variable {σ : Type} {P : Prog σ} {I : Image σ} {C : List Ev} {lim top : Nat}
  {d : Nat} {ρ ρ1 ρ2 : Env} {S S1 S2 S3 : Store σ}

/-- The frame pointer and the stack above it are untouched. -/
structure Low (top : Nat) (m m' : Mach σ) : Prop where
  rbp : m'.reg .rbp = m.reg .rbp
  stk : ∀ a : Word, (m.reg .rbp).toNat ≤ a.toNat → a.toNat < top → m'.mem a = m.mem a

theorem SPost.low {fd : FnDef} {g : GS} {u : Nat} {m m' : Mach σ}
    (h : SPost lim top fd ρ S g u m m') : Low top m m' := ⟨h.rbp, h.stk⟩

theorem Kept.low {m m' : Mach σ} (h : Kept top m m') (hs : (m.reg .rsp).toNat ≤ (m.reg .rbp).toNat) :
    Low top m m' := ⟨h.rbp, fun a h1 h2 => h.stk a (Nat.le_trans hs h1) h2⟩

theorem Pre.rspLe {fd : FnDef} {g : GS} {m : Mach σ} {u : Nat} (h : Pre lim top fd ρ S g m u) :
    (m.reg .rsp).toNat ≤ (m.reg .rbp).toNat := by have := h.sp; omega

theorem Low.trans {a b c : Mach σ} (h : Low top a b) (h' : Low top b c) : Low top a c :=
  ⟨h'.rbp.trans h.rbp, fun x h1 h2 => (h'.stk x (by rw [h.rbp]; exact h1) h2).trans (h.stk x h1 h2)⟩

theorem Low.ra {m m' : Mach σ} (h : Low top m m') (hi : (m.reg .rbp).toNat + 16 ≤ top) (ht : top ≤ 2 ^ 64) :
    m'.mem (m'.reg .rbp + 8) = m.mem (m.reg .rbp + 8) := by
  have e := toNat_add8 (a := m.reg .rbp) (by omega)
  rw [h.rbp, h.stk _ (by omega) (by omega)]

theorem Ret.low {m m1 m' : Mach σ} {v : Option Val} (h : Low top m m1)
    (hi : (m.reg .rbp).toNat + 16 ≤ top) (hr : Ret lim top m1 m' v S) : Ret lim top m m' v S := by
  have hb := h.rbp
  refine ⟨by rw [hr.rsp, hb], ?_, ?_, hr.rel, hr.rax⟩
  · rw [hr.rbp, hb, h.stk _ (Nat.le_refl _) (by omega)]
  · intro a h1 h2
    rw [hr.stk a (by rw [hb]; exact h1) h2, h.stk a (by omega) h2]

theorem SPost.trans {fd : FnDef} {g g' : GS} {u u' : Nat} {a b c : Mach σ}
    (h : Low top a b) (h' : SPost lim top fd ρ S g u b c) (hg : g'.sp = g.sp) (hu : u' ≤ u) :
    SPost lim top fd ρ S g' u' a c :=
  ⟨(h.trans h'.low).rbp, (h.trans h'.low).stk, (h'.pre.less hu).spEq hg⟩

theorem ExeS.of_stmt (X : Ctx P I C lim top) {s : Stmt} {o : Out}
    (h : Sim P I C lim top d (.stmt ρ S s o ρ1 S1)) {fd : FnDef} {g : GS} {m : Mach σ} {u : Nat}
    (h1 : fd.skip = false) (h2 : g.top = []) (h3 : s.vars ⊆ fd.syms) (h4 : s.ok = true)
    (h5 : s.use + d ≤ u) (h6 : Pre lim top fd ρ S g m u) :
    ExeS I C lim top fd g u (genStmt fd.slot false s g).1 m o ρ1 S1 := by
  intro G pre q hp hq hn hr
  have := h fd g m u h1 h2 h3 h4 h5 h6 G pre q hp hq hn hr
  cases s with
  | loop c b =>
    simp only [genStmt] at hp
    refine Run.flush X.loaded (by pfx hp) (Run.flush X.loaded (by pfx hp) (Run.label
      (l := .loc "while_start" (g.lbl + 1)) X.loaded (by pfx hp) ?_))
    simpa [Stmt.head] using this
  | _ => simpa [Stmt.head] using this

/-! ### Return -/

theorem run_exit (X : Ctx P I C lim top) {m : Mach σ} {v : Option Val} {G : Cfg σ → Prop}
    {pre : List Ev} {q : Nat} (hp : pre ++ genFnExit false <+: C)
    (hq : I.pos (m.mem (m.reg .rbp + 8) + 8) = some q) (hrel : Rel lim top S m)
    (hx : ∀ x, v = some x → m.reg .rax = x.enc)
    (hk : ∀ m', Ret lim top m m' v S → Reaches I G (q, m')) : Run I G pre m := by
  simp only [genFnExit, Bool.false_eq_true, if_false, List.cons_append, List.nil_append] at hp
  refine Run.straight (i := .leave) X.loaded (by pfx hp) rfl rfl rfl ?_
  refine Run.straight (i := .pop .rbx) X.loaded (by pfx hp) rfl rfl rfl ?_
  refine Run.straight (i := .alu .add (.imm 8) .rbx) X.loaded (by pfx hp) rfl rfl rfl ?_
  refine Run.jmpReg (r := .rbx) X.loaded (by pfx hp) ?_ (hk _ ?_)
  · simpa [Mach.noFlags, Mach.set, Alu.eval, Mach.get] using hq
  · refine ⟨?_, ?_, ?_, hrel.congr rfl rfl, ?_⟩
    · simp only [Mach.noFlags, Mach.set, reduceCtorEq, if_false, if_true]
      rw [BitVec.add_assoc]
      rfl
    · simp [Mach.noFlags, Mach.set]
    · intro a _ _; rfl
    · intro x hv
      simp [Mach.noFlags, Mach.set, hx x hv]

theorem sim_retE (X : Ctx P I C lim top) {e : Expr} {v : Option Val}
    (h : Sim P I C lim top d (.expr ρ S e v S1)) :
    Sim P I C lim top d (.stmt ρ S (.ret (some e)) (.ret v) ρ S1) := by
  intro fd g m u _ ht hv hok hu hpre G pre q hp hq _ hr
  simp only [genStmt, genReturn] at hp
  simp only [Stmt.head, List.append_nil]
  have hE := h fd g m hv (by rw [ht]; exact hok) (hpre.less hu)
  refine hE G pre (prefix_left hp) ?_
  rintro m1 ⟨hp1, hx1⟩
  have hl := hp1.kept.low hpre.rspLe
  refine run_exit X (v := v) (by simpa using hp)
    (by rw [hl.ra hpre.hi X.htop]; exact hq) hp1.rel hx1 ?_
  intro m' hm'
  exact hr v rfl m' (hm'.low hl hpre.hi)

theorem sim_retN (X : Ctx P I C lim top) :
    Sim P I C lim top d (.stmt ρ S (.ret none) (.ret none) ρ S) := by
  intro fd g m u _ ht hv hok hu hpre G pre q hp hq _ hr
  simp only [genStmt, genReturn] at hp
  simp only [Stmt.head, List.append_nil]
  exact run_exit X (v := none) hp hq hpre.rel (by simp) (hr none rfl)

theorem sim_exprS {e : Expr} {v : Option Val}
    (h : Sim P I C lim top d (.expr ρ S e v S1)) :
    Sim P I C lim top d (.stmt ρ S (.expr e) .norm ρ S1) := by
  intro fd g m u _ ht hv hok hu hpre G pre q hp hq hn _
  simp only [genStmt] at hp hn
  simp only [Stmt.head, List.append_nil]
  refine h fd g m hv (by rw [ht]; exact hok) (hpre.less hu) G pre hp ?_
  rintro m1 ⟨hp1, -⟩
  have hl := hp1.kept.low hpre.rspLe
  exact hn trivial m1 ⟨hl.rbp, hl.stk, hpre.kept hp1.kept hp1.rel⟩

/-! ### Blocks and sequences -/

theorem sim_nil : Sim P I C lim top d (.stmts ρ S .nil .norm ρ S) := by
  intro fd g m u _ _ _ _ _ hpre G pre q hp _ hn _
  simp only [genStmtsGo, List.append_nil] at hn
  exact hn trivial m ⟨rfl, fun _ _ _ => rfl, hpre⟩

theorem sim_cons (X : Ctx P I C lim top) {s : Stmt} {ss : Stmts} {o : Out}
    (h1 : Sim P I C lim top d (.stmt ρ S s .norm ρ1 S1))
    (h2 : Sim P I C lim top d (.stmts ρ1 S1 ss o ρ2 S2)) :
    Sim P I C lim top d (.stmts ρ S (.cons s ss) o ρ2 S2) := by
  intro fd g m u hsk ht hv hok hu hpre G pre q hp hq hn hr
  simp only [Stmts.vars, List.append_subset] at hv
  simp only [Stmts.ok, Bool.and_eq_true] at hok
  simp only [Stmts.use] at hu
  simp only [genStmtsGo] at hp hn
  have hs := genStmt_state fd.slot false s g
  refine ExeS.of_stmt X h1 hsk ht hv.1 hok.1 (by omega) hpre G pre q (prefix_left hp) hq ?_
    (by intro v e; cases e)
  intro _ m1 hm1
  refine h2 fd _ m1 u hsk ((top_of_same hs).trans ht) hv.2 hok.2 (by omega) (hm1.pre.same hs)
    G _ q (by simpa using hp) (by rw [hm1.low.ra hpre.hi X.htop]; exact hq) ?_ ?_
  · intro e m2 hm2
    have := hn e m2 (SPost.trans hm1.low hm2 hs.1.symm (Nat.le_refl _))
    simpa using this
  · intro v e m2 hm2
    exact hr v e m2 (hm2.low hm1.low hpre.hi)

theorem sim_consR (X : Ctx P I C lim top) {s : Stmt} {ss : Stmts} {v : Option Val}
    (h1 : Sim P I C lim top d (.stmt ρ S s (.ret v) ρ1 S1)) :
    Sim P I C lim top d (.stmts ρ S (.cons s ss) (.ret v) ρ1 S1) := by
  intro fd g m u hsk ht hv hok hu hpre G pre q hp hq hn hr
  simp only [Stmts.vars, List.append_subset] at hv
  simp only [Stmts.ok, Bool.and_eq_true] at hok
  simp only [Stmts.use] at hu
  simp only [genStmtsGo] at hp
  exact ExeS.of_stmt X h1 hsk ht hv.1 hok.1 (by omega) hpre G pre q (prefix_left hp) hq
    (by intro e; cases e) hr

/-- Statement lists with their own scope. -/
theorem exeS_scope {ss : Stmts} {o : Out} (h : Sim P I C lim top d (.stmts ρ S ss o ρ1 S1))
    {fd : FnDef} {g : GS} {m : Mach σ} {u : Nat}
    (h1 : fd.skip = false) (h2 : g.top = []) (h3 : ss.vars ⊆ fd.syms) (h4 : ss.ok = true)
    (h5 : ss.use + d ≤ u) (h6 : Pre lim top fd ρ S g m u) :
    ExeS I C lim top fd g u (genStmts fd.slot false ss g).1 m o ρ1 S1 := by
  rw [genStmts]
  intro G pre q hp hq hn hr
  refine h fd { g with gc := g.gc.openScope } m u h1 h2 h3 h4 h5 (h6.spEq rfl) G pre q hp hq ?_ hr
  intro e m' hm'
  exact hn e m' ⟨hm'.rbp, hm'.stk, hm'.pre.spEq rfl⟩

theorem sim_block {b : Stmts} {o : Out} (h : Sim P I C lim top d (.stmts ρ S b o ρ1 S1)) :
    Sim P I C lim top d (.stmt ρ S (.block b) o ρ1 S1) := by
  intro fd g m u hsk ht hv hok hu hpre
  simp only [genStmt, Stmt.head, List.append_nil]
  exact exeS_scope h hsk ht hv hok hu hpre

/-! ### Conditionals -/

theorem sim_ifs (X : Ctx P I C lim top) {c : Chain} {o : Out}
    (h : Sim P I C lim top d (.chain ρ S c o ρ1 S1)) :
    Sim P I C lim top d (.stmt ρ S (.ifs c) o ρ1 S1) := by
  intro fd g m u hsk ht hv hok hu hpre G pre q hp hq hn hr
  simp only [genStmt] at hp hn
  simp only [Stmt.head, List.append_nil]
  refine Run.flush X.loaded (by pfx hp) ?_
  refine h fd { g with lbl := g.lbl + 1 } m u (.loc "if_end" g.lbl) hsk ht hv hok hu (hpre.spEq rfl)
    G _ q (pre ++ [.flush] ++ (genChain fd.slot false (.loc "if_end" g.lbl) c { g with lbl := g.lbl + 1 }).1)
    (by pfx hp) (by simpa using hp) hq ?_ hr
  intro e m' hm'
  have hl := hn e m' ⟨hm'.rbp, hm'.stk, hm'.pre.spEq rfl⟩
  refine ⟨Run.label X.loaded (by simpa using hp) (by simpa using hl), by simpa using hl⟩

theorem sim_chDone : Sim P I C lim top d (.chain ρ S .done .norm ρ S) := by
  intro fd g m u exit hsk ht hv hok hu hpre G pre q pre' hp hp' hq hn hr
  have := (hn rfl m ⟨rfl, fun _ _ _ => rfl, hpre⟩).1
  simpa [genChain] using this

theorem sim_chElse {b : Stmts} {o : Out} (h : Sim P I C lim top d (.stmts ρ S b o ρ1 S1)) :
    Sim P I C lim top d (.chain ρ S (.els b) o ρ1 S1) := by
  intro fd g m u exit hsk ht hv hok hu hpre G pre q pre' hp hp' hq hn hr
  simp only [genChain] at hp hn
  exact exeS_scope h hsk ht hv hok hu hpre G pre q hp hq (fun e m' hm' => (hn e m' hm').1) hr

theorem sim_chT (X : Ctx P I C lim top) {c : Expr} {b : Stmts} {n : Chain} {o : Out}
    (h1 : Sim P I C lim top d (.expr ρ S c (some (.bool true)) S1))
    (h2 : Sim P I C lim top d (.stmts ρ S1 b o ρ1 S2)) :
    Sim P I C lim top d (.chain ρ S (.cond c b n) o ρ1 S2) := by
  intro fd g m u exit hsk ht hv hok hu hpre G pre q pre' hp hp' hq hn hr
  simp only [Chain.vars, List.append_subset] at hv
  simp only [Chain.ok, Bool.and_eq_true] at hok
  simp only [Chain.use] at hu
  simp only [genChain] at hp hn
  have hc := h1 fd g m hv.1 (by rw [ht]; exact hok.1) (hpre.less (by omega))
  generalize ha : genExpr fd.slot c false g = a at hc hp hn
  have hsa : Same g a.2 := by rw [← ha]; exact genExpr_state _ _ _ _
  generalize hgx : ({ a.2 with lbl := a.2.lbl + 1 } : GS) = gx at hp hn
  have hsx : Same g gx := by rw [← hgx]; exact hsa
  generalize hbb : genStmts fd.slot false b gx = bb at hp hn
  generalize hdd : genChain fd.slot false exit n bb.2 = dd at hp hn
  refine hc G pre (prefix_left hp) ?_
  rintro m1 ⟨hp1, hx1⟩
  have hl1 := hp1.kept.low hpre.rspLe
  have hpre1 := hpre.kept hp1.kept hp1.rel
  have hrax : m1.reg .rax = (Val.bool true).enc := hx1 _ rfl
  refine Run.flush X.loaded (by pfx hp) ?_
  refine Run.straight (i := .cmp (.imm 1) .rax) X.loaded (by pfx hp) rfl rfl rfl ?_
  have hpl : (pre ++ a.1 ++ [.flush] ++ [.ins (.cmp (.imm 1) .rax)] ++
      [.ins (.jcc .ne (.loc "else" a.2.lbl))] ++ bb.1 ++ [.ins (.jmp exit)]) ++
      [.label (.loc "else" a.2.lbl)] <+: C := by pfx hp
  refine Run.jcc (c := .ne) X.loaded (by pfx hp) rfl hpl ?_ ?_
  · intro hcond
    simp only [Mach.get, hrax, cond_flags] at hcond
    cases hcond
  · intro _
    have hy := exeS_scope h2 (fd := fd) (g := gx) (u := u)
      (m := { m1 with flags := some (m1.reg .rax, m1.get (.imm 1)) }) hsk
      ((top_of_same hsx).trans ht) hv.2.1 hok.2.1 (by omega)
      ((hpre1.same hsx).kept ⟨rfl, rfl, fun _ _ _ => rfl⟩ (hp1.rel.congr rfl rfl))
    rw [hbb] at hy
    have hl2 : Low top m { m1 with flags := some (m1.reg .rax, m1.get (.imm 1)) } := ⟨hl1.rbp, hl1.stk⟩
    refine hy G _ q (by pfx hp) (by rw [hl2.ra hpre.hi X.htop]; exact hq) ?_ ?_
    · intro e m2 hm2
      refine Run.jmp (l := exit) X.loaded (by pfx hp) hp' ?_
      exact (hn e m2 (SPost.trans hl2 hm2 hsx.1.symm (Nat.le_refl _))).2
    · intro v e m2 hm2
      exact hr v e m2 (hm2.low hl2 hpre.hi)

theorem sim_chF (X : Ctx P I C lim top) {c : Expr} {b : Stmts} {n : Chain} {o : Out}
    (h1 : Sim P I C lim top d (.expr ρ S c (some (.bool false)) S1))
    (h2 : Sim P I C lim top d (.chain ρ S1 n o ρ1 S2)) :
    Sim P I C lim top d (.chain ρ S (.cond c b n) o ρ1 S2) := by
  intro fd g m u exit hsk ht hv hok hu hpre G pre q pre' hp hp' hq hn hr
  simp only [Chain.vars, List.append_subset] at hv
  simp only [Chain.ok, Bool.and_eq_true] at hok
  simp only [Chain.use] at hu
  simp only [genChain] at hp hn
  have hc := h1 fd g m hv.1 (by rw [ht]; exact hok.1) (hpre.less (by omega))
  generalize ha : genExpr fd.slot c false g = a at hc hp hn
  have hsa : Same g a.2 := by rw [← ha]; exact genExpr_state _ _ _ _
  generalize hgx : ({ a.2 with lbl := a.2.lbl + 1 } : GS) = gx at hp hn
  have hsx : Same g gx := by rw [← hgx]; exact hsa
  generalize hbb : genStmts fd.slot false b gx = bb at hp hn
  have hsb : Same g bb.2 := by rw [← hbb]; exact hsx.trans (genStmts_state _ _ _ _)
  refine hc G pre (prefix_left hp) ?_
  rintro m1 ⟨hp1, hx1⟩
  have hl1 := hp1.kept.low hpre.rspLe
  have hpre1 := hpre.kept hp1.kept hp1.rel
  have hrax : m1.reg .rax = (Val.bool false).enc := hx1 _ rfl
  refine Run.flush X.loaded (by pfx hp) ?_
  refine Run.straight (i := .cmp (.imm 1) .rax) X.loaded (by pfx hp) rfl rfl rfl ?_
  have hpl : (pre ++ a.1 ++ [.flush] ++ [.ins (.cmp (.imm 1) .rax)] ++
      [.ins (.jcc .ne (.loc "else" a.2.lbl))] ++ bb.1 ++ [.ins (.jmp exit)]) ++
      [.label (.loc "else" a.2.lbl)] <+: C := by pfx hp
  refine Run.jcc (c := .ne) X.loaded (by pfx hp) rfl hpl ?_ ?_
  · intro _
    have hl2 : Low top m { m1 with flags := some (m1.reg .rax, m1.get (.imm 1)) } := ⟨hl1.rbp, hl1.stk⟩
    refine h2 fd bb.2 { m1 with flags := some (m1.reg .rax, m1.get (.imm 1)) } u exit hsk
      ((top_of_same hsb).trans ht) hv.2.2 hok.2.2 (by omega)
      ((hpre1.same hsb).kept ⟨rfl, rfl, fun _ _ _ => rfl⟩ (hp1.rel.congr rfl rfl)) G _ q pre'
      (by simpa using hp) hp' (by rw [hl2.ra hpre.hi X.htop]; exact hq) ?_ ?_
    · intro e m2 hm2
      have := hn e m2 (SPost.trans hl2 hm2 hsb.1.symm (Nat.le_refl _))
      simpa using this
    · intro v e m2 hm2
      exact hr v e m2 (hm2.low hl2 hpre.hi)
  · intro hcond
    simp only [Mach.get, hrax, cond_flags] at hcond
    cases hcond

/-! ### Loops -/

theorem sim_loopF (X : Ctx P I C lim top) {c : Expr} {b : Stmts}
    (h1 : Sim P I C lim top d (.expr ρ S c (some (.bool false)) S1)) :
    Sim P I C lim top d (.stmt ρ S (.loop c b) .norm ρ S1) := by
  intro fd g m u hsk ht hv hok hu hpre G pre q hp hq hn hr
  simp only [Stmt.vars, List.append_subset] at hv
  simp only [Stmt.ok, Bool.and_eq_true] at hok
  simp only [Stmt.use] at hu
  simp only [genStmt] at hp hn
  simp only [Stmt.head]
  have hc := h1 fd { g with lbl := g.lbl + 2 } m hv.1 (by rw [show GS.top { g with lbl := g.lbl + 2 } = [] from ht]; exact hok.1)
    ((hpre.less (by omega)).spEq rfl)
  generalize ha : genExpr fd.slot c false { g with lbl := g.lbl + 2 } = a at hc hp hn
  generalize hbb : genStmts fd.slot false b a.2 = bb at hp hn
  refine hc G _ (by pfx hp) ?_
  rintro m1 ⟨hp1, hx1⟩
  have hl1 := hp1.kept.low hpre.rspLe
  have hpre1 := hpre.kept hp1.kept hp1.rel
  have hrax : m1.reg .rax = (Val.bool false).enc := hx1 _ rfl
  refine Run.straight (i := .cmp (.imm 1) .rax) X.loaded (by pfx hp) rfl rfl rfl ?_
  have hpl : (pre ++ [.flush, .flush, .label (.loc "while_start" (g.lbl + 1))] ++ a.1 ++
      [.ins (.cmp (.imm 1) .rax)] ++ [.ins (.jcc .ne (.loc "while_end" g.lbl))] ++ bb.1 ++
      [.ins (.jmp (.loc "while_start" (g.lbl + 1)))]) ++ [.label (.loc "while_end" g.lbl)] <+: C := by
    pfx hp
  refine Run.jcc (c := .ne) X.loaded (by pfx hp) rfl hpl ?_ ?_
  · intro _
    have := hn trivial { m1 with flags := some (m1.reg .rax, m1.get (.imm 1)) }
      ⟨hl1.rbp, hl1.stk, hpre1.kept ⟨rfl, rfl, fun _ _ _ => rfl⟩ (hp1.rel.congr rfl rfl)⟩
    simpa using this
  · intro hcond
    simp only [Mach.get, hrax, cond_flags] at hcond
    cases hcond

/-- An iteration whose body ends with `o1`; the rest of the loop is given. -/
theorem sim_loopT (X : Ctx P I C lim top) {c : Expr} {b : Stmts} {o1 o : Out}
    (h1 : Sim P I C lim top d (.expr ρ S c (some (.bool true)) S1))
    (h2 : Sim P I C lim top d (.stmts ρ S1 b o1 ρ1 S2))
    (h3 : o1 = .norm ∧ Sim P I C lim top d (.stmt ρ1 S2 (.loop c b) o ρ2 S3) ∨
      ∃ v, o1 = .ret v ∧ o = o1 ∧ S3 = S2) :
    Sim P I C lim top d (.stmt ρ S (.loop c b) o ρ2 S3) := by
  intro fd g m u hsk ht hv hok hu hpre G pre q hp hq hn hr
  have hv0 := hv
  have hok0 := hok
  have hu0 := hu
  have hp0 := hp
  simp only [Stmt.vars, List.append_subset] at hv
  simp only [Stmt.ok, Bool.and_eq_true] at hok
  simp only [Stmt.use] at hu
  simp only [genStmt] at hp
  simp only [Stmt.head]
  have hc := h1 fd { g with lbl := g.lbl + 2 } m hv.1 (by rw [show GS.top { g with lbl := g.lbl + 2 } = [] from ht]; exact hok.1)
    ((hpre.less (by omega)).spEq rfl)
  generalize ha : genExpr fd.slot c false { g with lbl := g.lbl + 2 } = a at hc hp
  have hsa : Same g a.2 := by
    rw [← ha]
    exact genExpr_state fd.slot c false { g with lbl := g.lbl + 2 }
  generalize hbb : genStmts fd.slot false b a.2 = bb at hp
  refine hc G _ (by pfx hp) ?_
  rintro m1 ⟨hp1, hx1⟩
  have hl1 := hp1.kept.low hpre.rspLe
  have hpre1 := hpre.kept hp1.kept hp1.rel
  have hrax : m1.reg .rax = (Val.bool true).enc := hx1 _ rfl
  refine Run.straight (i := .cmp (.imm 1) .rax) X.loaded (by pfx hp) rfl rfl rfl ?_
  have hpl : (pre ++ [.flush, .flush, .label (.loc "while_start" (g.lbl + 1))] ++ a.1 ++
      [.ins (.cmp (.imm 1) .rax)] ++ [.ins (.jcc .ne (.loc "while_end" g.lbl))] ++ bb.1 ++
      [.ins (.jmp (.loc "while_start" (g.lbl + 1)))]) ++ [.label (.loc "while_end" g.lbl)] <+: C := by
    pfx hp
  have hps : (pre ++ [.flush, .flush]) ++ [.label (.loc "while_start" (g.lbl + 1))] <+: C := by pfx hp
  refine Run.jcc (c := .ne) X.loaded (by pfx hp) rfl hpl ?_ ?_
  · intro hcond
    simp only [Mach.get, hrax, cond_flags] at hcond
    cases hcond
  · intro _
    have hl2 : Low top m { m1 with flags := some (m1.reg .rax, m1.get (.imm 1)) } := ⟨hl1.rbp, hl1.stk⟩
    have hy := exeS_scope h2 (fd := fd) (g := a.2) (u := u)
      (m := { m1 with flags := some (m1.reg .rax, m1.get (.imm 1)) }) hsk
      ((top_of_same hsa).trans ht) hv.2 hok.2 (by omega)
      ((hpre1.same hsa).kept ⟨rfl, rfl, fun _ _ _ => rfl⟩ (hp1.rel.congr rfl rfl))
    rw [hbb] at hy
    refine hy G _ q (by pfx hp) (by rw [hl2.ra hpre.hi X.htop]; exact hq) ?_ ?_
    · intro e m2 hm2
      rcases h3 with ⟨-, h3⟩ | ⟨v, e', -⟩
      · refine Run.jmp (l := .loc "while_start" (g.lbl + 1)) X.loaded (by pfx hp) hps ?_
        have hm3 : SPost lim top fd ρ1 S2 g u m m2 := SPost.trans hl2 hm2 hsa.1.symm (Nat.le_refl _)
        have := h3 fd g m2 u hsk ht hv0 hok0 hu0 hm3.pre G pre q hp0
          (by rw [hm3.low.ra hpre.hi X.htop]; exact hq)
          (fun e m3 hm => hn e m3 (SPost.trans hm3.low hm rfl (Nat.le_refl _)))
          (fun v e m3 hm => hr v e m3 (hm.low hm3.low hpre.hi))
        simpa [Stmt.head] using this
      · rw [e] at e'; cases e'
    · intro v e m2 hm2
      rcases h3 with ⟨e', -⟩ | ⟨v', -, e', e''⟩
      · rw [e] at e'; cases e'
      · subst e''
        exact hr v (e'.trans e) m2 (hm2.low hl2 hpre.hi)

/-! ### Assignments -/

/-- Evaluation of the right side, then of the location. -/
theorem exe_asg (X : Ctx P I C lim top) {fd : FnDef} {g : GS} {m : Mach σ} {u : Nat} {l r : Expr}
    {v : Val} {L : Loc} {Q : Mach σ → Prop}
    (h1 : Sim P I C lim top d (.expr ρ S r (some v) S1)) (h2 : Sim P I C lim top d (.loc ρ S1 l L S2))
    (ht : g.top = []) (hv : l.vars ++ r.vars ⊆ fd.syms) (hok : (l.ok 0 && r.ok 0) = true)
    (hu : max r.use (1 + l.use) + d ≤ u) (hpre : Pre lim top fd ρ S g m u)
    (hQ : ∀ (m1 : Mach σ) (w : Word), Kept top m m1 → Rel lim top S2 m1 → LocIs fd m1 w L →
      ∀ m', m'.reg .rsp = m1.reg .rsp → m'.reg .rbp = m1.reg .rbp → m'.ext = m1.ext →
        m'.mem = (m1.store w v.enc).mem → Q m') :
    Exe I C ((genExpr fd.slot r false g).1 ++ (.ins (.push rax) ::
      ((genExpr fd.slot l true (genExpr fd.slot r false g).2.inc).1 ++
        [.ins (.pop .rbx), .ins (.mov rbx (.mem { base := .rax }))]))) m Q := by
  simp only [List.append_subset] at hv
  simp only [Bool.and_eq_true] at hok
  have hR := h1 fd g m hv.2 (by rw [ht]; exact hok.2) (hpre.less (by omega))
  refine hR.append ?_
  rintro m1 ⟨hp1, hx1⟩
  have hpre1 := hpre.kept hp1.kept hp1.rel
  refine Exe.push X.loaded ?_
  intro w
  have hpre2 := ((hpre1.less (u' := 1 + (l.use + d)) (by omega)).push (r := .rax)
    (by simp) (by simp) w (m1.reg .rax)).spEq
    (g' := (genExpr fd.slot r false g).2.inc) (by simp only [GS.inc, genExpr_sp])
  have hg0 : (genExpr fd.slot r false g).2.inc.top = [] := (genExpr_top (g := g)).trans ht
  have hL := h2 fd _ _ hv.1 (by rw [hg0]; exact hok.1) hpre2
  refine hL.append ?_
  rintro m2 ⟨hp2, hx2⟩
  have hb1 := hpre1.bud
  have hh1 := hpre1.hi
  have hs1 := hpre1.sp
  obtain ⟨q1, q2, q3, q4⟩ := hp2.kept.pushed (by simp) (by simp) (by omega) (by omega)
  refine Exe.ins X.loaded rfl (Exe.mov X.loaded ?_)
  intro w'
  refine Exe.nil ?_
  have hr1 := hp1.kept.rsp
  have hloc : LocIs fd ((m2.set .rsp (m2.reg .rsp + 8)).set .rbx (m2.mem (m2.reg .rsp)))
      (m2.reg .rax) L := by
    cases L with
    | var x => exact hx2
    | mem a => exact hx2
  refine hQ _ _ ⟨?_, ?_, ?_⟩ (hp2.rel.congr (m' := (m2.set .rsp (m2.reg .rsp + 8)).set .rbx (m2.mem (m2.reg .rsp))) rfl rfl) hloc _ ?_ ?_ ?_ ?_
  · simp [Mach.set, q1, hr1]
    exact sub8_add8 _
  · simp [Mach.set, q3, hp1.kept.rbp]
  · intro a ha hat
    show m2.mem a = _
    rw [q4 a (by rw [hr1]; exact ha) hat, hp1.kept.stk a ha hat]
  · simp [Mach.set, Mach.put, Mach.store]
  · simp [Mach.set, Mach.put, Mach.store]
  · simp [Mach.set, Mach.put, Mach.store]
  · have : m1.reg .rax = v.enc := hx1 _ rfl
    funext a
    simp [Mach.set, Mach.put, Mach.store, Mach.ea, q2, this]

theorem sim_asgVar (X : Ctx P I C lim top) {dc : Bool} {l r : Expr} {v : Val} {x : Nat}
    (h1 : Sim P I C lim top d (.expr ρ S r (some v) S1))
    (h2 : Sim P I C lim top d (.loc ρ S1 l (.var x) S2)) :
    Sim P I C lim top d (.stmt ρ S (.asg dc l r) .norm (ρ.upd x v) S2) := by
  intro fd g m u hsk ht hv hok hu hpre G pre q hp hq hn hr
  rw [genStmt.eq_def] at hp hn
  simp only [Stmt.head, List.append_nil]
  refine exe_asg X (Q := fun m' => SPost lim top fd (ρ.upd x v) S2 g u m m') h1 h2 ht hv hok hu hpre
    ?_ G pre hp (hn rfl)
  rintro m1 w hk hrel ⟨hx, rfl⟩ m' e1 e2 e3 e4
  have hpre1 := hpre.kept hk hrel
  obtain ⟨i1, i2⟩ := hpre1.slot_in hx
  have hlow := hk.low hpre.rspLe
  have hb := hpre1.bud
  have hh := hpre1.hi
  have hs := hpre1.sp
  have hpos := slot_pos (fd := fd) (x := x)
  have hmem : ∀ a : Word, a ≠ slotA m1 (fd.slot x) → m'.mem a = m1.mem a := by
    intro a ha
    rw [e4]
    simp [Mach.store, ha]
  refine ⟨by rw [e2, hlow.rbp], ?_, ?_, ?_, hpre1.fr, ?_, ?_, ?_, ?_⟩
  · intro a ha hat
    rw [hmem a, hlow.stk a ha hat]
    rintro rfl
    rw [← hlow.rbp] at ha
    omega
  · rw [e1, e2]; exact hs
  · rw [e2]; exact hpre1.al
  · rw [e1]; exact hb
  · rw [e2]; exact hh
  · intro y w hy
    have hsl : slotA m' (fd.slot y) = slotA m1 (fd.slot y) := by simp only [slotA, e2]
    simp only [Env.upd] at hy
    split at hy
    · rename_i hyx
      subst hyx
      cases hy
      refine ⟨hx, ?_⟩
      rw [hsl, e4]
      simp [Mach.store]
    · rename_i hyx
      obtain ⟨j1, j2⟩ := hpre1.env y w hy
      refine ⟨j1, ?_⟩
      rw [hsl, hmem _, j2]
      intro he
      apply hyx
      obtain ⟨k1, k2⟩ := hpre1.slot_in j1
      rw [he] at k1
      exact slot_inj j1 (by omega)
  · refine hrel.stack ?_ e3
    intro a ha
    apply hmem
    rintro rfl
    exact ha ⟨by omega, by omega⟩

theorem sim_asgMem (X : Ctx P I C lim top) {dc : Bool} {l r : Expr} {v : Val} {a : Word}
    (h1 : Sim P I C lim top d (.expr ρ S r (some v) S1))
    (h2 : Sim P I C lim top d (.loc ρ S1 l (.mem a) S2)) (hw : S2.write a v = some S3) :
    Sim P I C lim top d (.stmt ρ S (.asg dc l r) .norm ρ S3) := by
  intro fd g m u hsk ht hv hok hu hpre G pre q hp hq hn hr
  rw [genStmt.eq_def] at hp hn
  simp only [Stmt.head, List.append_nil]
  refine exe_asg X (Q := fun m' => SPost lim top fd ρ S3 g u m m') h1 h2 ht hv hok hu hpre
    ?_ G pre hp (hn rfl)
  rintro m1 w hk hrel hloc m' e1 e2 e3 e4
  have hloc : w = a := hloc
  subst hloc
  have hpre1 := hpre.kept hk hrel
  obtain ⟨j1, j2⟩ := Rel.write hrel hw e3 e4
  have hb := hpre1.bud
  have hk' : Kept top m1 m' := ⟨e1, e2, fun x h1 h2 => j2 x (by omega) h2⟩
  have hlow := (hk.low hpre.rspLe).trans (hk'.low hpre1.rspLe)
  exact ⟨hlow.rbp, hlow.stk, hpre1.kept hk' j1⟩

end Clara.Gen
