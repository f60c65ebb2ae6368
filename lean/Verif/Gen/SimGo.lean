import Verif.Gen.Going
/-
The generated code gets as far as the semantics says.
-/
namespace Clara.Gen
variable {σ : Type} {P : Prog σ} {I : Image σ} {C : List Ev} {lim top : Nat}
  {d k : Nat} {ρ ρ1 : Env} {S S0 S1 S2 : Store σ} {H : Cfg σ → Prop} {G : Cfg σ → Prop}

/-! ### Counting steps -/

theorem Far.less {c : Cfg σ} (h : Far I H k c) : Far I H (k - 1) c := by
  induction h with
  | now h => exact .now h
  | step he _ ih => exact .step he ih

theorem Far.of_reaches {c : Cfg σ} (h : Reaches I (Far I H k) c) : Far I H k c := by
  induction h with
  | now h => exact h
  | step he _ ih => exact .step he (fun c' hc => (ih c' hc).less)

theorem Far.reaches {c : Cfg σ} (h : Far I H k c) : Reaches I H c := by
  induction h with
  | now h => exact .now h
  | step he _ ih => exact .step he ih

/-- A jump is a step. -/
theorem Run.jmp_far {l : Label} {pre pre' : List Ev} {v : Mach σ} (hL : Loaded I C)
    (hp : pre ++ [.ins (.jmp l)] <+: C) (hp' : pre' ++ [.label l] <+: C)
    (h : Run I (Far I H k) (pre' ++ [.label l]) v) : Run I (Far I H (k + 1)) pre v := by
  obtain ⟨h1, h2, h3⟩ := code_ctl hL hp rfl rfl
  have hq := find_label hL hp'
  refine flush_pend h1 (.now (.step ⟨_, .jmp h2 hq⟩ ?_))
  intro c' hst
  have hr := Far.of_reaches (reaches_label hL hp' hq h)
  cases hst with
  | jmp hc' hq' => rw [h2] at hc'; cases hc'; rw [hq] at hq'; cases hq'; exact hr
  | straight hc' hs => rw [h2] at hc'; cases hc'; cases hs
  | label hc' | taken hc' | fall hc' | jmpReg hc' | ret hc' | call hc' | callC hc'
  | callRt hc' | callReg hc' | callMem hc' => rw [h2] at hc'; cases hc'

/-! ### Code that is entered -/

/-- Executing `code` from `m` leads to `G`; it need not come to the end of `code`. -/
def Into (I : Image σ) (C : List Ev) (G : Cfg σ → Prop) (code : List Ev) (m : Mach σ) : Prop :=
  ∀ pre, pre ++ code <+: C → Run I G pre m

theorem Into.left {c c' : List Ev} {m : Mach σ} (h : Into I C G c m) : Into I C G (c ++ c') m :=
  fun pre hp => h pre (prefix_left hp)

theorem Into.after {c c' : List Ev} {m : Mach σ} {Q : Mach σ → Prop} (h : Exe I C c m Q)
    (h' : ∀ m', Q m' → Into I C G c' m') : Into I C G (c ++ c') m :=
  fun pre hp => h G pre (prefix_left hp) (fun m' hm => h' m' hm (pre ++ c) (by simpa using hp))

theorem Into.panic {c : List Ev} {m : Mach σ} (hn : Ev.panic ∉ C) (h : Ev.panic ∈ c) : Into I C G c m := by
  intro pre hp
  obtain ⟨t, ht⟩ := hp
  exact absurd (by rw [← ht]; simp [h]) hn

/-- What is proved about each start. -/
def GoSim (P : Prog σ) (I : Image σ) (C : List Ev) (lim top : Nat) (H : Cfg σ → Prop) (d k : Nat) : Pt σ → Prop
  | .expr ρ S e => ∀ (fd : FnDef) (g : GS) (m : Mach σ),
      e.vars ⊆ fd.syms → e.ok g.top.length = true → Pre lim top fd ρ S g m (e.use + d) →
      Into I C (Far I H k) (genExpr fd.slot e false g).1 m
  | .args ρ S es => ∀ (fd : FnDef) (fi : FnInfo) (g : GS) (m : Mach σ) (hd : List TyR)
      (tl : List (List TyR)), g.reg = hd :: tl →
      varsL es ⊆ fd.syms → okL hd.length es = true → Pre lim top fd ρ S g m (useL es + d) →
      Into I C (Far I H k) (genArgs fd.slot fi es hd.length g).1 m
  | .loc ρ S e => ∀ (fd : FnDef) (g : GS) (m : Mach σ),
      e.vars ⊆ fd.syms → e.ok g.top.length = true → Pre lim top fd ρ S g m (e.use + d) →
      Into I C (Far I H k) (genExpr fd.slot e true g).1 m
  | .stmt ρ S s => ∀ (fd : FnDef) (g : GS) (m : Mach σ) (u : Nat), fd.skip = false → g.top = [] →
      s.vars ⊆ fd.syms → s.ok = true → s.use + d ≤ u → Pre lim top fd ρ S g m u →
      ∀ pre q, pre ++ (genStmt fd.slot false s g).1 <+: C →
        I.pos (m.mem (m.reg .rbp + 8) + 8) = some q → Run I (Far I H k) (pre ++ s.head g) m
  | .stmts ρ S ss => ∀ (fd : FnDef) (g : GS) (m : Mach σ) (u : Nat), fd.skip = false → g.top = [] →
      ss.vars ⊆ fd.syms → ss.ok = true → ss.use + d ≤ u → Pre lim top fd ρ S g m u →
      ∀ pre q, pre ++ (genStmtsGo fd.slot false ss g).1 <+: C →
        I.pos (m.mem (m.reg .rbp + 8) + 8) = some q → Run I (Far I H k) pre m
  | .chain ρ S c => ∀ (fd : FnDef) (g : GS) (m : Mach σ) (u : Nat) (exit : Label),
      fd.skip = false → g.top = [] →
      c.vars ⊆ fd.syms → c.ok = true → c.use + d ≤ u → Pre lim top fd ρ S g m u →
      ∀ pre q, pre ++ (genChain fd.slot false exit c g).1 <+: C →
        I.pos (m.mem (m.reg .rbp + 8) + 8) = some q → Run I (Far I H k) pre m
  | .fn fd vs S => ∀ (m : Mach σ) (p q : Nat), fd ∈ P.fns → fd.skip = false →
      I.find (.fn fd.name) = some p → I.pos (m.mem (m.reg .rsp) + 8) = some q →
      (m.reg .rsp).toNat % 16 = 8 → lim + 8 * (fd.cost + d) ≤ (m.reg .rsp).toNat + 8 →
      (m.reg .rsp).toNat + 8 ≤ top →
      (∀ (j : Nat) (r : Reg) (x : Val), vs[j]? = some (some x) → argRegs[j]? = some r → m.reg r = x.enc) →
      Rel lim top S m → Reaches I (Far I H k) (p, m)

/-! ### Expressions -/

/-- The second of two operands. -/
theorem into_two (X : Ctx P I C lim top) {fd : FnDef} {g g2 : GS} {j u : Nat} {m : Mach σ}
    {cl cr t1 rest : List Ev} {f1 : Word → Word} {Q : Mach σ → Prop}
    (hpre : Pre lim top fd ρ S g m (1 + u)) (hg2 : g2.sp = g.sp + 1)
    (hl : Exe I C cl m (fun m' => Post lim top j m m' S1 ∧ Q m'))
    (hr : ∀ m2, Pre lim top fd ρ S1 g2 m2 u → Into I C G cr m2) (ht1 : OnRax I C t1 f1) :
    Into I C G (cl ++ (t1 ++ (.ins (.push rax) :: (cr ++ rest)))) m := by
  refine Into.after hl ?_
  rintro m1 ⟨hp1, -⟩
  have ht : Exe I C (t1 ++ []) m1 (fun m2 => Mod [.rax] m1 m2) := ht1 [] m1 _ (fun m' h _ => Exe.nil h)
  rw [List.append_nil] at ht
  refine Into.after ht ?_
  intro m2 hm2
  have hp2 := hp1.rax hm2
  have hpre2 := hpre.kept hp2.kept hp2.rel
  refine Into.after (c := [.ins (.push rax)]) (c' := cr ++ rest)
    (Q := fun m3 => Pre lim top fd ρ S1 g2 m3 u) (Exe.push X.loaded ?_) (fun m3 h3 => (hr m3 h3).left)
  intro w
  exact Exe.nil ((hpre2.push (r := .rax) (by simp) (by simp) w (m2.reg .rax)).spEq (by rw [hg2]; rfl))

theorem go_binL {o : BinOp} {t : TyR} {l r : Expr} (h : GoSim P I C lim top H d k (.expr ρ S l)) :
    GoSim P I C lim top H d k (.expr ρ S (.bin o t l r)) := by
  intro fd g m hv hok hpre
  simp only [Expr.vars, List.append_subset] at hv
  simp only [Expr.ok, Bool.and_eq_true] at hok
  simp only [Expr.use] at hpre
  have := h fd g m hv.1 hok.1.1 (hpre.less (by omega))
  cases o <;> simp only [genExpr] <;> exact this.left

theorem go_binR (X : Ctx P I C lim top) {o : BinOp} {t : TyR} {l r : Expr} {v : Option Val}
    (h1 : Sim P I C lim top d (.expr ρ S l v S1)) (h2 : GoSim P I C lim top H d k (.expr ρ S1 r)) :
    GoSim P I C lim top H d k (.expr ρ S (.bin o t l r)) := by
  intro fd g m hv hok hpre
  simp only [Expr.vars, List.append_subset] at hv
  simp only [Expr.ok, Bool.and_eq_true] at hok
  simp only [Expr.use] at hpre
  have hl := h1 fd g m hv.1 hok.1.1 (hpre.less (by omega))
  have hr : ∀ m2, Pre lim top fd ρ S1 (genExpr fd.slot l false g).2.inc m2 (r.use + d) →
      Into I C (Far I H k) (genExpr fd.slot r false (genExpr fd.slot l false g).2.inc).1 m2 := by
    intro m2 hp2
    have ht : (genExpr fd.slot l false g).2.inc.top = g.top := genExpr_top
    exact h2 fd _ m2 hv.2 (by rw [ht]; exact hok.1.2) hp2
  have hpre' : Pre lim top fd ρ S g m (1 + (r.use + d)) := hpre.less (by omega)
  have hg : (genExpr fd.slot l false g).2.inc.sp = g.sp + 1 := by simp only [GS.inc, genExpr_sp]
  cases o <;> simp only [genExpr]
  case or | and => exact into_two (t1 := []) X hpre' hg hl hr OnRax.nil
  all_goals exact into_two X hpre' hg hl hr (OnRax.untag X _)

/-- A divisor that is zero. -/
theorem go_div (X : Ctx P I C lim top) {t : TyR} {l r : Expr} {a : BitVec 63}
    (h1 : Sim P I C lim top d (.expr ρ S l (some (.int a)) S1))
    (h2 : Sim P I C lim top d (.expr ρ S1 r (some (.int 0)) S2)) :
    GoSim P I C lim top (AtDiv I lim top S2) d 0 (.expr ρ S (.bin .div t l r)) := by
  intro fd g m hv hok hpre pre hp
  simp only [Expr.vars, List.append_subset] at hv
  simp only [Expr.ok, Bool.and_eq_true] at hok
  simp only [Expr.use] at hpre
  have hl := (h1 fd g m hv.1 hok.1.1 (hpre.less (by omega))).mono
    (fun m' hm' => And.intro hm'.1 (hm'.2 _ rfl))
  have hr : ∀ m2, Pre lim top fd ρ S1 (genExpr fd.slot l false g).2.inc m2 (r.use + d) →
      Exe I C (genExpr fd.slot r false (genExpr fd.slot l false g).2.inc).1 m2
        (fun m' => Post lim top g.top.length m2 m' S2 ∧ m'.reg .rax = (Val.int 0).enc) := by
    intro m2 hp2
    have ht : (genExpr fd.slot l false g).2.inc.top = g.top := genExpr_top
    have := h2 fd _ m2 hv.2 (by rw [ht]; exact hok.1.2) hp2
    rw [ht] at this
    exact this.mono (fun m' hm' => ⟨hm'.1, hm'.2 _ rfl⟩)
  have hpre' : Pre lim top fd ρ S g m (1 + (r.use + d)) := hpre.less (by omega)
  have hg : (genExpr fd.slot l false g).2.inc.sp = g.sp + 1 := by simp only [GS.inc, genExpr_sp]
  simp only [genExpr] at hp
  have hx := exe_two (rest := [.ins .cqo]) (Q := fun m' => Rel lim top S2 m' ∧ m'.reg .rbx = 0) X hpre' hg hl hr
    (OnRax.untag X l.ty.kind) (OnRax.untag X r.ty.kind) (Or.inl rfl) (by
      intro m5 k1 k2 k3 k4 k5
      refine Exe.ins X.loaded rfl (Exe.nil ⟨k2.congr rfl rfl, ?_⟩)
      simp only [Mach.set, reduceCtorEq, if_false]
      rw [k4, untag_word]
      rfl)
  have hp2 : pre ++ ((genExpr fd.slot l false g).1 ++ (untagAs l.ty.kind .rax ++ (.ins (.push rax) ::
      ((genExpr fd.slot r false (genExpr fd.slot l false g).2.inc).1 ++ (untagAs r.ty.kind .rax ++
      (.ins (.mov rax rbx) :: .ins (.pop .rax) :: [.ins .cqo])))))) ++ [.ins (.idiv .rbx)] <+: C :=
    List.IsPrefix.trans ⟨tagAs t.kind .rax, by simp only [List.append_assoc, List.cons_append, List.nil_append]⟩ hp
  refine hx _ pre ((List.prefix_append _ _).trans hp2) ?_
  rintro m' ⟨q1, q2⟩
  obtain ⟨c1, c2, c3⟩ := code_ctl X.loaded hp2 rfl rfl
  exact flush_pend c1 (.now (.now ⟨c2, q2, q1⟩))

theorem go_un {o : UnOp} {t : TyR} {e : Expr} (h : GoSim P I C lim top H d k (.expr ρ S e)) :
    GoSim P I C lim top H d k (.expr ρ S (.un o t e)) := by
  intro fd g m hv hok hpre
  have := h fd g m hv hok hpre
  cases o <;> simp only [genExpr] <;> exact this.left

theorem go_arrLit {t : TyR} {e : Expr} (h : GoSim P I C lim top H d k (.expr ρ S e)) :
    GoSim P I C lim top H d k (.expr ρ S (.arrLit t e)) := by
  intro fd g m hv hok hpre
  simp only [genExpr]
  exact h fd g m hv hok hpre

theorem go_ternC {t : TyR} {c x y : Expr} (h : GoSim P I C lim top H d k (.expr ρ S c)) :
    GoSim P I C lim top H d k (.expr ρ S (.tern t c x y)) := by
  intro fd g m hv hok hpre
  simp only [Expr.vars, List.append_subset] at hv
  simp only [Expr.ok, Bool.and_eq_true] at hok
  simp only [Expr.use] at hpre
  simp only [genExpr]
  exact (h fd g m hv.1 hok.1 (hpre.less (by omega))).left

theorem go_tern (X : Ctx P I C lim top) {t : TyR} {c x y : Expr} {b : Bool}
    (h1 : Sim P I C lim top d (.expr ρ S c (some (.bool b)) S1))
    (h2 : b = true → GoSim P I C lim top H d k (.expr ρ S1 x))
    (h3 : b = false → GoSim P I C lim top H d k (.expr ρ S1 y)) :
    GoSim P I C lim top H d k (.expr ρ S (.tern t c x y)) := by
  intro fd g m hv hok hpre
  simp only [Expr.vars, List.append_subset] at hv
  simp only [Expr.ok, Bool.and_eq_true] at hok
  simp only [Expr.use] at hpre
  have hc := h1 fd g m hv.1 hok.1 (hpre.less (by omega))
  simp only [genExpr]
  generalize ha : genExpr fd.slot c false g = a at hc ⊢
  have hsa : Same g a.2 := by rw [← ha]; exact genExpr_state _ _ _ _
  generalize hgx : ({ a.2 with lbl := a.2.lbl + 2 } : GS) = gx
  have hsx : Same g gx := by rw [← hgx]; exact hsa
  generalize hb : genExpr fd.slot x false gx = bb
  have hsb : Same g bb.2 := by rw [← hb]; exact hsx.trans (genExpr_state _ _ _ _)
  generalize hd : genExpr fd.slot y false bb.2 = dd
  intro pre hp
  refine hc _ pre (prefix_left hp) ?_
  rintro m1 ⟨hp1, hx1⟩
  have hpre1 := hpre.kept hp1.kept hp1.rel
  refine Run.flush X.loaded (by pfx hp) ?_
  refine Run.flush X.loaded (by pfx hp) ?_
  refine Run.straight (i := .cmp (.imm 1) .rax) X.loaded (by pfx hp) rfl rfl rfl ?_
  have hpl : (pre ++ a.1 ++ [.flush] ++ [.flush] ++ [.ins (.cmp (.imm 1) .rax)] ++
      [.ins (.jcc .ne (.loc "else" a.2.lbl))] ++ bb.1 ++ [.ins (.jmp (.loc "exit" (a.2.lbl + 1)))]) ++
      [.label (.loc "else" a.2.lbl)] <+: C := by pfx hp
  have hrax : m1.reg .rax = (Val.bool b).enc := hx1 _ rfl
  refine Run.jcc (c := .ne) X.loaded (by pfx hp) rfl hpl ?_ ?_
  · intro hcond
    simp only [Mach.get, hrax, cond_flags] at hcond
    have hb0 : b = false := by simpa using hcond
    have hy := h3 hb0 fd bb.2 { m1 with flags := some (m1.reg .rax, m1.get (.imm 1)) } hv.2.2
      (by rw [top_of_same hsb]; exact hok.2.2)
      (((hpre1.same hsb).less (by omega)).kept ⟨rfl, rfl, fun _ _ _ => rfl⟩ (hp1.rel.congr rfl rfl))
    rw [hd] at hy
    exact hy _ (by pfx hp)
  · intro hcond
    simp only [Mach.get, hrax, cond_flags] at hcond
    have hb1 : b = true := by simpa using hcond
    have hy := h2 hb1 fd gx { m1 with flags := some (m1.reg .rax, m1.get (.imm 1)) } hv.2.1
      (by rw [top_of_same hsx]; exact hok.2.1)
      (((hpre1.same hsx).less (by omega)).kept ⟨rfl, rfl, fun _ _ _ => rfl⟩ (hp1.rel.congr rfl rfl))
    rw [hb] at hy
    exact hy _ (by pfx hp)

theorem go_dot {t : TyR} {e : Expr} {off : Nat} (h : GoSim P I C lim top H d k (.expr ρ S e)) :
    GoSim P I C lim top H d k (.expr ρ S (.dot t e off)) ∧ GoSim P I C lim top H d k (.loc ρ S (.dot t e off)) := by
  constructor <;>
  · intro fd g m hv hok hpre
    simp only [Expr.use] at hpre
    simp only [genExpr]
    exact (h fd g m hv hok (hpre.less (by omega))).left

theorem go_indexA {t : TyR} {a i : Expr} (h : GoSim P I C lim top H d k (.expr ρ S a)) :
    GoSim P I C lim top H d k (.expr ρ S (.index t a i)) ∧ GoSim P I C lim top H d k (.loc ρ S (.index t a i)) := by
  constructor <;>
  · intro fd g m hv hok hpre
    simp only [Expr.vars, List.append_subset] at hv
    simp only [Expr.ok, Bool.and_eq_true] at hok
    simp only [Expr.use] at hpre
    simp only [genExpr]
    exact (h fd g m hv.1 hok.1 (hpre.less (by omega))).left

theorem go_indexI (X : Ctx P I C lim top) {t : TyR} {a i : Expr} {v : Option Val}
    (h1 : Sim P I C lim top d (.expr ρ S a v S1)) (h2 : GoSim P I C lim top H d k (.expr ρ S1 i)) :
    GoSim P I C lim top H d k (.expr ρ S (.index t a i)) ∧ GoSim P I C lim top H d k (.loc ρ S (.index t a i)) := by
  constructor <;>
  · intro fd g m hv hok hpre
    simp only [Expr.vars, List.append_subset] at hv
    simp only [Expr.ok, Bool.and_eq_true] at hok
    simp only [Expr.use] at hpre
    have ht : (genExpr fd.slot a false g).2.inc.top = g.top := genExpr_top
    have hpre' : Pre lim top fd ρ S g m (1 + (i.use + d)) := hpre.less (by omega)
    simp only [genExpr]
    exact into_two (t1 := []) X hpre' (by simp only [GS.inc, genExpr_sp])
      (h1 fd g m hv.1 hok.1 (hpre.less (by omega)))
      (fun m2 hp2 => h2 fd _ m2 hv.2 (by rw [ht]; exact hok.2) hp2) OnRax.nil

theorem go_outside (X : Ctx P I C lim top) {t : TyR} {a i : Expr} {p : Word} {n len : BitVec 63}
    (h1 : Big P d (.expr ρ S a (some (.ptr p)) S1)) (h2 : Big P d (.expr ρ S1 i (some (.int n)) S2))
    (hlen : S2.heap p = some (.int len)) (h0 : 0 ≤ len.toInt) (ho : n.toInt < 0 ∨ len.toInt ≤ n.toInt) :
    GoSim P I C lim top (AtCall I lim top P.ioob [some (Val.int n).enc, some (Val.int len).enc] S2) d 0
        (.expr ρ S (.index t a i)) ∧
      GoSim P I C lim top (AtCall I lim top P.ioob [some (Val.int n).enc, some (Val.int len).enc] S2) d 0
        (.loc ρ S (.index t a i)) := by
  constructor <;>
  · intro fd g m hv hok hpre pre hp c hc
    refine (index_panics X h1 h2 hlen h0 ho hv hok hpre hp c hc).mono ?_
    intro c' hc'
    refine .now ⟨hc'.code, hc'.align, ?_, hc'.rel⟩
    intro j r x hj hr
    match j, hj with
    | 0, hj => cases hj; cases hr; exact hc'.rdi
    | 1, hj => cases hj; cases hr; exact hc'.rsi
    | n + 2, hj => simp at hj

/-! ### Arguments and calls -/

theorem go_argsHd {e : Expr} {es : List Expr} (h : GoSim P I C lim top H d k (.expr ρ S e)) :
    GoSim P I C lim top H d k (.args ρ S (e :: es)) := by
  intro fd fi g m hd tl hreg hv hok hpre
  simp only [varsL, List.append_subset] at hv
  simp only [okL, Bool.and_eq_true] at hok
  simp only [useL] at hpre
  have htop : g.top = hd := by simp [GS.top, hreg]
  simp only [genArgs]
  exact (h fd g m hv.1 (by rw [htop]; exact hok.1) (hpre.less (by omega))).left

theorem go_argsTl (X : Ctx P I C lim top) {e : Expr} {es : List Expr} {v : Option Val}
    (h1 : Sim P I C lim top d (.expr ρ S e v S1)) (h2 : GoSim P I C lim top H d k (.args ρ S1 es)) :
    GoSim P I C lim top H d k (.args ρ S (e :: es)) := by
  intro fd fi g m hd tl hreg hv hok hpre
  simp only [varsL, List.append_subset] at hv
  simp only [okL, Bool.and_eq_true] at hok
  simp only [useL] at hpre
  have htop : g.top = hd := by simp [GS.top, hreg]
  have hl := h1 fd g m hv.1 (by rw [htop]; exact hok.1) (hpre.less (by omega))
  rw [htop] at hl
  simp only [genArgs]
  refine Into.after hl ?_
  rintro m1 ⟨hp1, hx1⟩
  cases hr : argRegs[hd.length]? with
  | none => exact Into.panic X.nopanic (by simp)
  | some r =>
    obtain ⟨n1, n2, n3, n4⟩ := argReg_ne hr
    simp only
    have hst := genExpr_state fd.slot e false g
    generalize hga : genExpr fd.slot e false g = a at hst ⊢
    have hreg2 : (a.2.inUse e.ty).reg = (hd ++ [e.ty]) :: tl := by
      simp only [GS.inUse, hst.2, hreg]
    have hsp2 : (a.2.inUse e.ty).sp = g.sp := by
      rw [← hst.1]
      unfold GS.inUse
      split <;> rfl
    have hconv : Exe I C (.ins (.mov rax (.reg r)) :: (rawConv fi e.ty.kind r ++ [])) m1
        (fun m2 => Mod [.rax, r] m1 m2) := by
      refine Exe.mov X.loaded ?_
      intro w
      refine exe_rawConv X ?_
      intro m2 hm2 hx2
      refine Exe.nil ⟨?_, hm2.mem, hm2.ext⟩
      intro r' hr'
      simp only [List.mem_cons, List.not_mem_nil, or_false, not_or] at hr'
      rw [hm2.reg r' (by simp [hr'])]
      simp [Mach.set, Mach.put, hr']
    rw [List.append_nil] at hconv
    refine Into.after hconv ?_
    intro m2 hm12
    have hp2 : Post lim top hd.length m m2 S1 := by
      refine hp1.mod hm12 (by simp [Ne.symm n3]) (by simp [Ne.symm n4]) ?_
      intro i r' hi hr'
      simp only [List.mem_cons, List.not_mem_nil, or_false, not_or]
      refine ⟨(argReg_ne hr').1, ?_⟩
      rintro rfl
      have := argReg_inj hr hr'
      omega
    have hpre2 := ((hpre.kept hp2.kept hp2.rel).spEq hsp2).less (u' := useL es + d) (by omega)
    have hrest := h2 fd fi _ m2 (hd ++ [e.ty]) tl hreg2 hv.2 (by simpa using hok.2) hpre2
    simpa using hrest

/-- Saving registers and evaluating arguments that do not end. -/
theorem into_args (X : Ctx P I C lim top) {fd : FnDef} {g : GS} {m : Mach σ} {fi : FnInfo} {args : List Expr}
    {rest : List Ev} (hargs : GoSim P I C lim top H d k (.args ρ S args))
    (hv : varsL args ⊆ fd.syms) (hok : okL 0 args = true)
    (hpre : Pre lim top fd ρ S g m (6 + (1 + useL args) + d)) :
    Into I C (Far I H k) ((spill g).1 ++ ((genArgs fd.slot fi args 0 (spill g).2).1 ++ rest)) m := by
  by_cases hk : 6 < g.top.length
  · exact Into.panic X.nopanic (List.mem_append_left _ (spill_panic hk))
  have hsp := spill_state g
  refine Into.after (exe_spill (u := 1 + useL args + d) X (hpre.less (by omega))) ?_
  rintro m1 ⟨hpre1, hs⟩
  exact (hargs fd fi (spill g).2 m1 [] g.reg hsp.2.1 hv hok (hpre1.less (by omega))).left

/-- Up to the call instruction. -/
theorem into_call (X : Ctx P I C lim top) {fd : FnDef} {g : GS} {m : Mach σ} {fi : FnInfo}
    {args : List Expr} {vs : List (Option Val)} {target : Ins} {ind : Bool}
    (hargs : Sim P I C lim top d (.args ρ S args vs S1))
    (hv : varsL args ⊆ fd.syms) (hok : okL 0 args = true) (hind : ind = true → g.top = [] ∧ 1 ≤ g.sp)
    (hpre : Pre lim top fd ρ S g m (6 + (1 + useL args) + d))
    (hcall : ∀ (m1 : Mach σ) (g' : GS), m1.aligned → lim + 8 * d ≤ (m1.reg .rsp).toNat →
      (m1.reg .rsp).toNat < top →
      (∀ (j : Nat) (r : Reg) (x : Word), (argWs fi args vs)[j]? = some (some x) →
        argRegs[j]? = some r → m1.reg r = x) →
      m1.reg .rbp = m.reg .rbp →
      (∀ a : Word, (m.reg .rsp).toNat ≤ a.toNat → a.toNat < top → m1.mem a = m.mem a) →
      Rel lim top S1 m1 → (ind = true → m1.reg .rax = m.mem (m.reg .rsp)) →
      Into I C G (.ins target :: callTail fi g') m1) :
    Into I C G ((spill g).1 ++ ((genArgs fd.slot fi args 0 (spill g).2).1 ++
      (finishCall fi target ind (genArgs fd.slot fi args 0 (spill g).2).2).1)) m := by
  by_cases hk : 6 < g.top.length
  · exact Into.panic X.nopanic (List.mem_append_left _ (spill_panic hk))
  obtain ⟨-, hargs⟩ := hargs
  have hsp := spill_state g
  refine Into.after (exe_spill (u := 1 + useL args + d) X (hpre.less (by omega))) ?_
  rintro m1 ⟨hpre1, hs⟩
  have hA := hargs fd fi (spill g).2 m1 [] g.reg hsp.2.1 hv hok (hpre1.less (by omega))
  refine Into.after hA ?_
  rintro m2 ⟨hp2, hx2⟩
  have hpre2 := hpre1.kept hp2.kept hp2.rel
  obtain ⟨hsp2, hreg2⟩ := genArgs_state fd.slot fi args 0 (spill g).2 hsp.2.1
  have hb2 := hpre2.bud
  have hhi2 := hpre2.hi
  have hsp2' := hpre2.sp
  have hal2 := hpre2.al
  have hn : (if ind then 1 else 0) ≤ (genArgs fd.slot fi args 0 (spill g).2).2.sp := by
    rw [hsp2, hsp.1]
    cases ind with
    | false => simp
    | true => have := (hind rfl).2; simp only [if_true]; omega
  have hkr := hp2.kept.rsp
  have hrsp : (m2.reg .rsp).toNat + 8 * g.top.length = (m.reg .rsp).toNat := by
    rw [hkr]; exact hs.rsp
  have htop := X.htop
  generalize hga : (genArgs fd.slot fi args 0 (spill g).2).2 = ga at hsp2 hn
  rw [← hsp2] at hsp2'
  rw [finishCall_eq]
  -- `movq $0, %rax`
  suffices h0 : ∀ m0 : Mach σ, Mod [.rax] m2 m0 → Into I C G
      ((if ind then [.ins (.pop .rax)] else []) ++
      ((if (ga.popd ind).sp % 2 = 0 then [] else [.ins (.alu .sub (.imm 8) .rsp)]) ++
      ((.ins target :: callTail fi (ga.popd ind)) ++
      ((if (ga.popd ind).sp % 2 = 0 then [] else [.ins (.alu .add (.imm 8) .rsp)]) ++
        (restoreRegs (ga.popd ind)).1)))) m0 by
    refine Into.after (Q := fun m0 => Mod [.rax] m2 m0) ?_ h0
    split
    · exact Exe.ins X.loaded rfl (Exe.nil (mod_set _ _ _))
    · exact Exe.nil (Mod.refl _ _)
  intro m0 hm0
  have hsp0 : m0.reg .rsp = m2.reg .rsp := hm0.reg _ (by simp)
  have hbp0 : m0.reg .rbp = m2.reg .rbp := hm0.reg _ (by simp)
  have hargs0 : ∀ r ∈ argRegs, m0.reg r = m2.reg r := by
    intro r hr
    obtain ⟨i, hi⟩ := List.getElem?_of_mem hr
    exact hm0.reg _ (by simp [(argReg_ne hi).1])
  -- popping the address of the function
  suffices h1 : ∀ m3 : Mach σ, (m3.reg .rsp).toNat = (m2.reg .rsp).toNat + 8 * (if ind then 1 else 0) →
      m3.reg .rbp = m2.reg .rbp → (∀ r ∈ argRegs, m3.reg r = m2.reg r) → m3.mem = m2.mem →
      m3.ext = m2.ext → (ind = true → m3.reg .rax = m2.mem (m2.reg .rsp)) → Into I C G
      ((if (ga.popd ind).sp % 2 = 0 then [] else [.ins (.alu .sub (.imm 8) .rsp)]) ++
      ((.ins target :: callTail fi (ga.popd ind)) ++
      ((if (ga.popd ind).sp % 2 = 0 then [] else [.ins (.alu .add (.imm 8) .rsp)]) ++
        (restoreRegs (ga.popd ind)).1))) m3 by
    cases ind with
    | false => exact h1 m0 (by simp [hsp0]) hbp0 hargs0 hm0.mem hm0.ext (by simp)
    | true =>
      simp only [if_true] at hn
      refine Into.after (c := [.ins (.pop .rax)]) (Q := fun m' => m' = (m0.set .rsp (m0.reg .rsp + 8)).set .rax
        (m0.mem (m0.reg .rsp))) (Exe.ins X.loaded rfl (Exe.nil rfl)) ?_
      rintro m' rfl
      refine h1 _ ?_ ?_ ?_ hm0.mem hm0.ext ?_
      · simp only [Mach.set, reduceCtorEq, if_false, if_true, hsp0]
        rw [toNat_add8 (by omega)]
      · simp only [Mach.set, reduceCtorEq, if_false, hbp0]
      · intro r hr
        obtain ⟨i, hi⟩ := List.getElem?_of_mem hr
        simp only [Mach.set, (argReg_ne hi).1, (argReg_ne hi).2.2.1, if_false]
        exact hargs0 r hr
      · intro _
        simp only [Mach.set, if_true, hm0.mem, hsp0]
  intro m3 hsp3 hbp3 hargs3 hmem3 hext3 hrax3
  have hspp : (m3.reg .rsp).toNat + 8 * (ga.popd ind).sp = (m2.reg .rbp).toNat := by
    rw [hsp3]
    cases ind with
    | false => simpa [GS.popd] using hsp2'
    | true =>
      simp only [if_true] at hn
      simp only [GS.popd, GS.dec, if_true]
      omega
  -- the call, from a state that differs in the stack pointer only
  have fin : ∀ m4 : Mach σ, m4.aligned → lim + 8 * d ≤ (m4.reg .rsp).toNat → (m4.reg .rsp).toNat < top →
      (∀ r, r ≠ .rsp → m4.reg r = m3.reg r) → m4.mem = m3.mem → m4.ext = m3.ext →
      Into I C G (.ins target :: callTail fi (ga.popd ind)) m4 := by
    intro m4 ha hb ht hr hm he
    refine hcall m4 _ ha hb ht ?_ ?_ ?_ (hp2.rel.congr (hm.trans hmem3) (he.trans hext3)) ?_
    · intro j r x hj hrj
      rw [hr r (argReg_ne hrj).2.2.1, hargs3 r (List.mem_of_getElem? hrj)]
      exact hx2 j r x hj (by simpa using hrj)
    · rw [hr _ (by simp), hbp3, hp2.kept.rbp, hs.rbp]
    · intro a ha hat
      rw [hm, hmem3, hp2.kept.stk a (by rw [← hkr]; omega) hat, hs.stk a ha hat]
    · intro hi
      obtain ⟨ht, -⟩ := hind hi
      have he : m2.reg .rsp = m.reg .rsp := by
        apply BitVec.eq_of_toNat_eq
        simpa [ht] using hrsp
      rw [hr _ (by simp), hrax3 hi, he, hp2.kept.stk _ (by rw [← hkr, he]; exact Nat.le_refl _) (by rw [← he]; omega),
        hs.stk _ (Nat.le_refl _) (by rw [← he]; omega)]
  by_cases hev : (ga.popd ind).sp % 2 = 0
  · simp only [if_pos hev, List.nil_append]
    refine Into.left (fin m3 ?_ (by omega) (by omega) (fun _ _ => rfl) rfl rfl)
    show (m3.reg .rsp).toNat % 16 = 0
    omega
  · simp only [if_neg hev]
    have hs8 : (m3.reg .rsp - 8).toNat = (m3.reg .rsp).toNat - 8 := toNat_sub8 (by omega)
    have e1 : ((m3.set .rsp (m3.reg .rsp - 8)).noFlags).reg .rsp = m3.reg .rsp - 8 := by
      simp [Mach.set, Mach.noFlags]
    refine Into.after (c := [.ins (.alu .sub (.imm 8) .rsp)])
      (Q := fun m' => m' = (m3.set .rsp (m3.reg .rsp - 8)).noFlags) (Exe.ins X.loaded rfl (Exe.nil rfl)) ?_
    rintro m' rfl
    refine Into.left (fin _ ?_ ?_ ?_ ?_ rfl rfl)
    · show (((m3.set .rsp (m3.reg .rsp - 8)).noFlags).reg .rsp).toNat % 16 = 0
      rw [e1, hs8]
      omega
    · rw [e1, hs8]
      omega
    · rw [e1, hs8]; omega
    · intro r hr
      simp [Mach.set, Mach.noFlags, hr]

/-- Into a function called with the stack pointer of `m`. -/
theorem fn_goes {fd : FnDef} {vs : List (Option Val)} {d' : Nat}
    (hfn : GoSim P I C lim top H d' k (.fn fd vs S1)) (hfd : fd ∈ P.fns) (hskip : fd.skip = false)
    {m : Mach σ} {p q : Nat} {ra : Word} (hp : I.find (.fn fd.name) = some p)
    (hq : I.pos (ra + 8) = some q) (hal : m.aligned) (hbud : lim + 8 * d ≤ (m.reg .rsp).toNat)
    (hd : d' + fd.cost ≤ d) (htop : (m.reg .rsp).toNat < top)
    (hregs : ∀ (j : Nat) (r : Reg) (x : Val), vs[j]? = some (some x) → argRegs[j]? = some r →
      m.reg r = x.enc) (hrel : Rel lim top S1 m) : Reaches I (Far I H k) (p, m.push ra) := by
  have hc : 2 ≤ fd.cost := by simp only [FnDef.cost]; omega
  have e1 : (m.push ra).reg .rsp = m.reg .rsp - 8 := by simp [Mach.push, Mach.set, Mach.store]
  have e2 := toNat_sub8 (a := m.reg .rsp) (by omega)
  have e3 : ∀ r, r ≠ .rsp → (m.push ra).reg r = m.reg r := by
    intro r hr; simp [Mach.push, Mach.set, Mach.store, hr]
  have e4 : ∀ a, a ≠ m.reg .rsp - 8 → (m.push ra).mem a = m.mem a := by
    intro a ha
    simp only [Mach.push, Mach.set, Mach.store]
    rw [if_neg ha]
  have e5 : (m.push ra).mem ((m.push ra).reg .rsp) = ra := by
    rw [e1]; simp [Mach.push, Mach.set, Mach.store]
  have hal' : (m.reg .rsp).toNat % 16 = 0 := hal
  refine hfn (m.push ra) p q hfd hskip hp (by rw [e5]; exact hq) (by rw [e1, e2]; omega)
    (by rw [e1, e2]; omega) (by rw [e1, e2]; omega) ?_ ?_
  · intro j r x hj hr
    rw [e3 r (argReg_ne hr).2.2.1]
    exact hregs j r x hj hr
  · refine hrel.stack ?_ rfl
    intro a ha
    apply e4
    rintro rfl
    omega

theorem go_callFnA (X : Ctx P I C lim top) {f : String} {fi : FnInfo} {args : List Expr}
    (h : GoSim P I C lim top H d k (.args ρ S args)) :
    GoSim P I C lim top H d k (.expr ρ S (.callFn f fi args)) := by
  intro fd g m hv hok hpre
  simp only [genExpr]
  exact into_args X h hv hok hpre

theorem go_callVarA (X : Ctx P I C lim top) {x : Nat} {fi : FnInfo} {args : List Expr}
    (h : GoSim P I C lim top H d k (.args ρ S args)) :
    GoSim P I C lim top H d k (.expr ρ S (.callVar x fi args)) := by
  intro fd g m hv hok hpre
  simp only [Expr.vars, List.cons_subset] at hv
  simp only [genExpr]
  exact into_args X h hv.2 hok hpre

theorem go_callFn (X : Ctx P I C lim top) {fi : FnInfo} {args : List Expr} {vs : List (Option Val)}
    {fd' : FnDef} {d' : Nat} (hext : fi.ext = false)
    (hargs : Sim P I C lim top d (.args ρ S args vs S1)) (hfd : fd' ∈ P.fns) (hskip : fd'.skip = false)
    (hfn : GoSim P I C lim top H d' k (.fn fd' vs S1)) (hd : d' + fd'.cost ≤ d) :
    GoSim P I C lim top H d k (.expr ρ S (.callFn fd'.name fi args)) := by
  intro fd g m hv hok hpre
  simp only [genExpr]
  refine into_call X hargs hv hok (by simp) hpre ?_
  intro m1 g' k1 k2 k3 k4 k5 k6 k7 _
  rw [callTail_clara hext]
  intro pre hp
  obtain ⟨p, hf, -⟩ := fn_pos X hfd
  refine Run.call X.loaded hp k1 hf ?_
  intro ra hra
  refine fn_goes hfn hfd hskip hf hra k1 k2 hd k3 ?_ k7
  intro j r x hj hr
  exact k4 j r _ (argWs_get hext hargs.1 hj) hr

theorem go_callVar (X : Ctx P I C lim top) {fi : FnInfo} {args : List Expr} {vs : List (Option Val)}
    {x : Nat} {fd' : FnDef} {d' : Nat} (hext : fi.ext = false)
    (hx : ρ x = some (.ptr (P.fnAddr fd'.name)))
    (hargs : Sim P I C lim top d (.args ρ S args vs S1)) (hfd : fd' ∈ P.fns) (hskip : fd'.skip = false)
    (hfn : GoSim P I C lim top H d' k (.fn fd' vs S1)) (hd : d' + fd'.cost ≤ d) :
    GoSim P I C lim top H d k (.expr ρ S (.callVar x fi args)) := by
  intro fd g m hv hok hpre
  simp only [Expr.vars, List.cons_subset] at hv
  simp only [genExpr]
  split
  · refine into_call X hargs hv.2 hok (by simp) hpre ?_
    intro m1 g' k1 k2 k3 k4 k5 k6 k7 _
    rw [callTail_clara hext]
    intro pre hp
    obtain ⟨p, hf, hpos⟩ := fn_pos X hfd
    refine Run.callMem (q := p) X.loaded hp k1 ?_ ?_
    · rw [ea_slot]
      have hs : slotA m1 (fd.slot x) = slotA m (fd.slot x) := by simp only [slotA, k5]
      obtain ⟨i1, i2⟩ := hpre.slot_in hv.1
      have := hpre.hi
      rw [hs, k6 _ i2 (by omega), (hpre.env x _ hx).2]
      exact hpos
    · intro ra hra
      refine fn_goes hfn hfd hskip hf hra k1 k2 hd k3 ?_ k7
      intro j r x hj hr
      exact k4 j r _ (argWs_get hext hargs.1 hj) hr
  · exact Into.panic X.nopanic (by simp)

theorem go_callExprE {fi : FnInfo} {e : Expr} {args : List Expr} (h : GoSim P I C lim top H d k (.expr ρ S e)) :
    GoSim P I C lim top H d k (.expr ρ S (.callExpr e fi args)) := by
  intro fd g m hv hok hpre
  simp only [Expr.vars, List.append_subset] at hv
  simp only [Expr.ok, Bool.and_eq_true, decide_eq_true_eq] at hok
  simp only [Expr.use] at hpre
  simp only [genExpr]
  exact (h fd g m hv.1 (by rw [hok.1]; exact hok.2.1) (hpre.less (by omega))).left

/-- Evaluation and saving of the function, then the rest. -/
theorem into_callExpr (X : Ctx P I C lim top) {e : Expr} {args : List Expr} {v : Option Val}
    {fd : FnDef} {g : GS} {m : Mach σ} {rest : List Ev}
    (he : Sim P I C lim top d (.expr ρ S e v S0)) (hv : e.vars ⊆ fd.syms) (hok : e.ok g.top.length = true)
    (hpre : Pre lim top fd ρ S g m (max e.use (1 + (6 + (1 + useL args))) + d))
    (h : ∀ m', Pre lim top fd ρ S0 (genExpr fd.slot e false g).2.inc m' (6 + (1 + useL args) + d) →
      (∀ x, v = some x → m'.mem (m'.reg .rsp) = x.enc) → Into I C G rest m') :
    Into I C G ((genExpr fd.slot e false g).1 ++ (.ins (.push rax) :: rest)) m := by
  refine Into.after (he fd g m hv hok (hpre.less (by omega))) ?_
  rintro m1 ⟨hp1, hx1⟩
  have hpre1 := hpre.kept hp1.kept hp1.rel
  refine Into.after (c := [.ins (.push rax)]) (Q := fun m' => Pre lim top fd ρ S0
    (genExpr fd.slot e false g).2.inc m' (6 + (1 + useL args) + d) ∧
    ∀ x, v = some x → m'.mem (m'.reg .rsp) = x.enc) (Exe.push X.loaded ?_) (fun m' hm' => h m' hm'.1 hm'.2)
  intro w
  refine Exe.nil ⟨((hpre1.less (u' := 1 + (6 + (1 + useL args) + d)) (by omega)).push (r := .rax)
    (by simp) (by simp) w (m1.reg .rax)).spEq
    (g' := (genExpr fd.slot e false g).2.inc) (by simp only [GS.inc, genExpr_sp]), ?_⟩
  intro x hx
  rw [← hx1 x hx]
  simp [Mach.push, Mach.set, Mach.store]

theorem go_callExprA (X : Ctx P I C lim top) {fi : FnInfo} {e : Expr} {args : List Expr} {v : Option Val}
    (he : Sim P I C lim top d (.expr ρ S e v S0)) (hargs : GoSim P I C lim top H d k (.args ρ S0 args)) :
    GoSim P I C lim top H d k (.expr ρ S (.callExpr e fi args)) := by
  intro fd g m hv hok hpre
  simp only [Expr.vars, List.append_subset] at hv
  simp only [Expr.ok, Bool.and_eq_true, decide_eq_true_eq] at hok
  simp only [Expr.use] at hpre
  simp only [genExpr]
  refine into_callExpr X he hv.1 (by rw [hok.1]; exact hok.2.1) hpre ?_
  intro m' hpre' _
  exact into_args X hargs hv.2 hok.2.2 hpre'

theorem go_callExpr (X : Ctx P I C lim top) {fi : FnInfo} {e : Expr} {args : List Expr}
    {vs : List (Option Val)} {fd' : FnDef} {d' : Nat} (hext : fi.ext = false)
    (he : Sim P I C lim top d (.expr ρ S e (some (.ptr (P.fnAddr fd'.name))) S0))
    (hargs : Sim P I C lim top d (.args ρ S0 args vs S1)) (hfd : fd' ∈ P.fns) (hskip : fd'.skip = false)
    (hfn : GoSim P I C lim top H d' k (.fn fd' vs S1)) (hd : d' + fd'.cost ≤ d) :
    GoSim P I C lim top H d k (.expr ρ S (.callExpr e fi args)) := by
  intro fd g m hv hok hpre
  simp only [Expr.vars, List.append_subset] at hv
  simp only [Expr.ok, Bool.and_eq_true, decide_eq_true_eq] at hok
  simp only [Expr.use] at hpre
  simp only [genExpr]
  have htop : g.top = [] := List.length_eq_zero_iff.mp hok.1
  refine into_callExpr X he hv.1 (by rw [hok.1]; exact hok.2.1) hpre ?_
  intro m' hpre' hx
  have hg0 : (genExpr fd.slot e false g).2.inc.top = [] := (genExpr_top (g := g)).trans htop
  refine into_call (ind := true) X hargs hv.2 hok.2.2 (fun _ => ⟨hg0, by simp [GS.inc]⟩) hpre' ?_
  intro m2 g' k1 k2 k3 k4 k5 k6 k7 k8
  rw [callTail_clara hext]
  intro pre hp
  obtain ⟨p, hf, hpos⟩ := fn_pos X hfd
  refine Run.callReg (q := p) X.loaded hp k1 ?_ ?_
  · rw [k8 rfl, hx _ rfl]
    exact hpos
  · intro ra hra
    refine fn_goes hfn hfd hskip hf hra k1 k2 hd k3 ?_ k7
    intro j r x hj hr
    exact k4 j r _ (argWs_get hext hargs.1 hj) hr

theorem argWs_words {fi : FnInfo} {es : List Expr} {vs : List (Option Val)} (hl : vs.length = es.length) :
    argWs fi es vs = argWords fi es vs := by
  unfold argWords
  split
  · rename_i h; exact argWs_ext h es vs
  · rename_i h
    have h : fi.ext = false := by simpa using h
    induction es generalizing vs with
    | nil => cases vs with
      | nil => rfl
      | cons => simp at hl
    | cons e es ih =>
      cases vs with
      | nil => simp at hl
      | cons v vs =>
        simp only [argWs, List.map_cons]
        rw [ih (by simpa using hl)]
        congr 2
        funext x; simp [argW, h]

theorem go_callNow (X : Ctx P I C lim top) {f : String} {fi : FnInfo} {args : List Expr} {vs : List (Option Val)}
    (hargs : Big P d (.args ρ S args vs S1)) :
    GoSim P I C lim top (AtCall I lim top f (argWords fi args vs) S1) d 0 (.expr ρ S (.callFn f fi args)) := by
  intro fd g m hv hok hpre pre hp c hc
  rw [← argWs_words (sim X hargs).1]
  exact (call_ready X hargs hv hok hpre hp c hc).mono (fun c' hc' => .now hc')

/-! ### Statements -/

theorem go_ret {e : Expr} (h : GoSim P I C lim top H d k (.expr ρ S e)) :
    GoSim P I C lim top H d k (.stmt ρ S (.ret (some e))) := by
  intro fd g m u _ ht hv hok hu hpre pre q hp hq
  simp only [genStmt, genReturn] at hp
  simp only [Stmt.head, List.append_nil]
  exact h fd g m hv (by rw [ht]; exact hok) (hpre.less hu) pre (prefix_left hp)

theorem go_expr {e : Expr} (h : GoSim P I C lim top H d k (.expr ρ S e)) :
    GoSim P I C lim top H d k (.stmt ρ S (.expr e)) := by
  intro fd g m u _ ht hv hok hu hpre pre q hp hq
  simp only [genStmt] at hp
  simp only [Stmt.head, List.append_nil]
  exact h fd g m hv (by rw [ht]; exact hok) (hpre.less hu) pre hp

theorem go_asgR {dc : Bool} {l r : Expr} (h : GoSim P I C lim top H d k (.expr ρ S r)) :
    GoSim P I C lim top H d k (.stmt ρ S (.asg dc l r)) := by
  intro fd g m u _ ht hv hok hu hpre pre q hp hq
  simp only [Stmt.vars, List.append_subset] at hv
  simp only [Stmt.ok, Bool.and_eq_true] at hok
  simp only [Stmt.use] at hu
  rw [genStmt.eq_def] at hp
  simp only [Stmt.head, List.append_nil]
  exact h fd g m hv.2 (by rw [ht]; exact hok.2) (hpre.less (by omega)) pre (prefix_left hp)

theorem go_asgL (X : Ctx P I C lim top) {dc : Bool} {l r : Expr} {v : Option Val}
    (h1 : Sim P I C lim top d (.expr ρ S r v S1)) (h2 : GoSim P I C lim top H d k (.loc ρ S1 l)) :
    GoSim P I C lim top H d k (.stmt ρ S (.asg dc l r)) := by
  intro fd g m u _ ht hv hok hu hpre pre q hp hq
  simp only [Stmt.vars, List.append_subset] at hv
  simp only [Stmt.ok, Bool.and_eq_true] at hok
  simp only [Stmt.use] at hu
  rw [genStmt.eq_def] at hp
  simp only [Stmt.head, List.append_nil]
  have hg0 : (genExpr fd.slot r false g).2.inc.top = [] := (genExpr_top (g := g)).trans ht
  exact into_two (t1 := []) X (hpre.less (u' := 1 + (l.use + d)) (by omega)) (by simp only [GS.inc, genExpr_sp])
    (h1 fd g m hv.2 (by rw [ht]; exact hok.2) (hpre.less (by omega)))
    (fun m2 hp2 => h2 fd _ m2 hv.1 (by rw [hg0]; exact hok.1) hp2) OnRax.nil pre hp

/-- A statement from its beginning. -/
theorem GoSim.start (X : Ctx P I C lim top) {s : Stmt} (h : GoSim P I C lim top H d k (.stmt ρ S s))
    {fd : FnDef} {g : GS} {m : Mach σ} {u : Nat}
    (h1 : fd.skip = false) (h2 : g.top = []) (h3 : s.vars ⊆ fd.syms) (h4 : s.ok = true)
    (h5 : s.use + d ≤ u) (h6 : Pre lim top fd ρ S g m u) {pre : List Ev} {q : Nat}
    (hp : pre ++ (genStmt fd.slot false s g).1 <+: C) (hq : I.pos (m.mem (m.reg .rbp + 8) + 8) = some q) :
    Run I (Far I H k) pre m := by
  have := h fd g m u h1 h2 h3 h4 h5 h6 pre q hp hq
  cases s with
  | loop c b =>
    simp only [genStmt] at hp
    refine Run.flush X.loaded (by pfx hp) (Run.flush X.loaded (by pfx hp) (Run.label
      (l := .loc "while_start" (g.lbl + 1)) X.loaded (by pfx hp) ?_))
    simpa [Stmt.head] using this
  | _ => simpa [Stmt.head] using this

theorem go_consHd (X : Ctx P I C lim top) {s : Stmt} {ss : Stmts} (h : GoSim P I C lim top H d k (.stmt ρ S s)) :
    GoSim P I C lim top H d k (.stmts ρ S (.cons s ss)) := by
  intro fd g m u hsk ht hv hok hu hpre pre q hp hq
  simp only [Stmts.vars, List.append_subset] at hv
  simp only [Stmts.ok, Bool.and_eq_true] at hok
  simp only [Stmts.use] at hu
  simp only [genStmtsGo] at hp
  exact h.start X hsk ht hv.1 hok.1 (by omega) hpre (prefix_left hp) hq

theorem go_consTl (X : Ctx P I C lim top) {s : Stmt} {ss : Stmts}
    (h1 : Sim P I C lim top d (.stmt ρ S s .norm ρ1 S1)) (h2 : GoSim P I C lim top H d k (.stmts ρ1 S1 ss)) :
    GoSim P I C lim top H d k (.stmts ρ S (.cons s ss)) := by
  intro fd g m u hsk ht hv hok hu hpre pre q hp hq
  simp only [Stmts.vars, List.append_subset] at hv
  simp only [Stmts.ok, Bool.and_eq_true] at hok
  simp only [Stmts.use] at hu
  simp only [genStmtsGo] at hp
  have hs := genStmt_state fd.slot false s g
  refine ExeS.of_stmt X h1 hsk ht hv.1 hok.1 (by omega) hpre _ pre q (prefix_left hp) hq ?_
    (by intro v e; cases e)
  intro _ m1 hm1
  exact h2 fd _ m1 u hsk ((top_of_same hs).trans ht) hv.2 hok.2 (by omega) (hm1.pre.same hs)
    _ q (by simpa using hp) (by rw [hm1.low.ra hpre.hi X.htop]; exact hq)

/-- Statement lists with their own scope. -/
theorem GoSim.scope {ss : Stmts} (h : GoSim P I C lim top H d k (.stmts ρ S ss))
    {fd : FnDef} {g : GS} {m : Mach σ} {u : Nat}
    (h1 : fd.skip = false) (h2 : g.top = []) (h3 : ss.vars ⊆ fd.syms) (h4 : ss.ok = true)
    (h5 : ss.use + d ≤ u) (h6 : Pre lim top fd ρ S g m u) {pre : List Ev} {q : Nat}
    (hp : pre ++ (genStmts fd.slot false ss g).1 <+: C) (hq : I.pos (m.mem (m.reg .rbp + 8) + 8) = some q) :
    Run I (Far I H k) pre m := by
  rw [genStmts] at hp
  exact h fd { g with gc := g.gc.openScope } m u h1 h2 h3 h4 h5 (h6.spEq rfl) pre q hp hq

theorem go_block {b : Stmts} (h : GoSim P I C lim top H d k (.stmts ρ S b)) :
    GoSim P I C lim top H d k (.stmt ρ S (.block b)) := by
  intro fd g m u hsk ht hv hok hu hpre pre q hp hq
  simp only [genStmt] at hp
  simp only [Stmt.head, List.append_nil]
  exact h.scope hsk ht hv hok hu hpre hp hq

theorem go_ifs (X : Ctx P I C lim top) {c : Chain} (h : GoSim P I C lim top H d k (.chain ρ S c)) :
    GoSim P I C lim top H d k (.stmt ρ S (.ifs c)) := by
  intro fd g m u hsk ht hv hok hu hpre pre q hp hq
  simp only [genStmt] at hp
  simp only [Stmt.head, List.append_nil]
  refine Run.flush X.loaded (by pfx hp) ?_
  exact h fd { g with lbl := g.lbl + 1 } m u (.loc "if_end" g.lbl) hsk ht hv hok hu (hpre.spEq rfl)
    _ q (by pfx hp) hq

theorem go_chElse {b : Stmts} (h : GoSim P I C lim top H d k (.stmts ρ S b)) :
    GoSim P I C lim top H d k (.chain ρ S (.els b)) := by
  intro fd g m u exit hsk ht hv hok hu hpre pre q hp hq
  simp only [genChain] at hp
  exact h.scope hsk ht hv hok hu hpre hp hq

theorem go_chC {c : Expr} {b : Stmts} {n : Chain} (h : GoSim P I C lim top H d k (.expr ρ S c)) :
    GoSim P I C lim top H d k (.chain ρ S (.cond c b n)) := by
  intro fd g m u exit hsk ht hv hok hu hpre pre q hp hq
  simp only [Chain.vars, List.append_subset] at hv
  simp only [Chain.ok, Bool.and_eq_true] at hok
  simp only [Chain.use] at hu
  simp only [genChain] at hp
  exact h fd g m hv.1 (by rw [ht]; exact hok.1) (hpre.less (by omega)) pre (prefix_left hp)

theorem go_ch (X : Ctx P I C lim top) {c : Expr} {b : Stmts} {n : Chain} {bv : Bool}
    (h1 : Sim P I C lim top d (.expr ρ S c (some (.bool bv)) S1))
    (h2 : bv = true → GoSim P I C lim top H d k (.stmts ρ S1 b))
    (h3 : bv = false → GoSim P I C lim top H d k (.chain ρ S1 n)) :
    GoSim P I C lim top H d k (.chain ρ S (.cond c b n)) := by
  intro fd g m u exit hsk ht hv hok hu hpre pre q hp hq
  simp only [Chain.vars, List.append_subset] at hv
  simp only [Chain.ok, Bool.and_eq_true] at hok
  simp only [Chain.use] at hu
  simp only [genChain] at hp
  have hc := h1 fd g m hv.1 (by rw [ht]; exact hok.1) (hpre.less (by omega))
  generalize ha : genExpr fd.slot c false g = a at hc hp
  have hsa : Same g a.2 := by rw [← ha]; exact genExpr_state _ _ _ _
  generalize hgx : ({ a.2 with lbl := a.2.lbl + 1 } : GS) = gx at hp
  have hsx : Same g gx := by rw [← hgx]; exact hsa
  generalize hbb : genStmts fd.slot false b gx = bb at hp
  have hsb : Same g bb.2 := by rw [← hbb]; exact hsx.trans (genStmts_state _ _ _ _)
  generalize hdd : genChain fd.slot false exit n bb.2 = dd at hp
  refine hc _ pre (prefix_left hp) ?_
  rintro m1 ⟨hp1, hx1⟩
  have hl1 := hp1.kept.low hpre.rspLe
  have hpre1 := hpre.kept hp1.kept hp1.rel
  have hrax : m1.reg .rax = (Val.bool bv).enc := hx1 _ rfl
  refine Run.flush X.loaded (by pfx hp) ?_
  refine Run.straight (i := .cmp (.imm 1) .rax) X.loaded (by pfx hp) rfl rfl rfl ?_
  have hpl : (pre ++ a.1 ++ [.flush] ++ [.ins (.cmp (.imm 1) .rax)] ++
      [.ins (.jcc .ne (.loc "else" a.2.lbl))] ++ bb.1 ++ [.ins (.jmp exit)]) ++
      [.label (.loc "else" a.2.lbl)] <+: C := by pfx hp
  have hl2 : Low top m { m1 with flags := some (m1.reg .rax, m1.get (.imm 1)) } := ⟨hl1.rbp, hl1.stk⟩
  refine Run.jcc (c := .ne) X.loaded (by pfx hp) rfl hpl ?_ ?_
  · intro hcond
    simp only [Mach.get, hrax, cond_flags] at hcond
    refine h3 (by simpa using hcond) fd bb.2 { m1 with flags := some (m1.reg .rax, m1.get (.imm 1)) } u exit hsk
      ((top_of_same hsb).trans ht) hv.2.2 hok.2.2 (by omega)
      ((hpre1.same hsb).kept ⟨rfl, rfl, fun _ _ _ => rfl⟩ (hp1.rel.congr rfl rfl)) _ q ?_
      (by rw [hl2.ra hpre.hi X.htop]; exact hq)
    rw [hdd]
    simpa using hp
  · intro hcond
    simp only [Mach.get, hrax, cond_flags] at hcond
    refine (h2 (by simpa using hcond)).scope (fd := fd) (g := gx) (u := u)
      (m := { m1 with flags := some (m1.reg .rax, m1.get (.imm 1)) }) hsk
      ((top_of_same hsx).trans ht) hv.2.1 hok.2.1 (by omega)
      ((hpre1.same hsx).kept ⟨rfl, rfl, fun _ _ _ => rfl⟩ (hp1.rel.congr rfl rfl)) (q := q) ?_
      (by rw [hl2.ra hpre.hi X.htop]; exact hq)
    rw [hbb]
    pfx hp

theorem go_loopC {c : Expr} {b : Stmts} (h : GoSim P I C lim top H d k (.expr ρ S c)) :
    GoSim P I C lim top H d k (.stmt ρ S (.loop c b)) := by
  intro fd g m u hsk ht hv hok hu hpre pre q hp hq
  simp only [Stmt.vars, List.append_subset] at hv
  simp only [Stmt.ok, Bool.and_eq_true] at hok
  simp only [Stmt.use] at hu
  simp only [genStmt] at hp
  simp only [Stmt.head]
  exact h fd { g with lbl := g.lbl + 2 } m hv.1 (by rw [show GS.top { g with lbl := g.lbl + 2 } = [] from ht]; exact hok.1)
    ((hpre.less (by omega)).spEq rfl) _ (by pfx hp)

/-- A round of a loop, up to the body. -/
theorem run_round (X : Ctx P I C lim top) {c : Expr} {b : Stmts} {fd : FnDef} {g : GS} {m : Mach σ} {u : Nat}
    (h1 : Sim P I C lim top d (.expr ρ S c (some (.bool true)) S1)) (ht : g.top = [])
    (hv : (Stmt.loop c b).vars ⊆ fd.syms) (hok : (Stmt.loop c b).ok = true) (hu : (Stmt.loop c b).use + d ≤ u)
    (hpre : Pre lim top fd ρ S g m u) {pre : List Ev} (hp : pre ++ (genStmt fd.slot false (.loop c b) g).1 <+: C)
    (h : ∀ (a : List Ev × GS) (m1 : Mach σ), Same g a.2 → Low top m m1 → Pre lim top fd ρ S1 a.2 m1 u →
      (pre ++ [.flush, .flush, .label (.loc "while_start" (g.lbl + 1))] ++ a.1 ++
        [.ins (.cmp (.imm 1) .rax)] ++ [.ins (.jcc .ne (.loc "while_end" g.lbl))]) ++
        ((genStmts fd.slot false b a.2).1 ++ [.ins (.jmp (.loc "while_start" (g.lbl + 1)))]) <+: C →
      Run I G (pre ++ [.flush, .flush, .label (.loc "while_start" (g.lbl + 1))] ++ a.1 ++
        [.ins (.cmp (.imm 1) .rax)] ++ [.ins (.jcc .ne (.loc "while_end" g.lbl))]) m1) :
    Run I G (pre ++ (Stmt.loop c b).head g) m := by
  simp only [Stmt.vars, List.append_subset] at hv
  simp only [Stmt.ok, Bool.and_eq_true] at hok
  simp only [Stmt.use] at hu
  simp only [genStmt] at hp
  simp only [Stmt.head]
  have hc := h1 fd { g with lbl := g.lbl + 2 } m hv.1 (by rw [show GS.top { g with lbl := g.lbl + 2 } = [] from ht]; exact hok.1)
    ((hpre.less (by omega)).spEq rfl)
  generalize ha : genExpr fd.slot c false { g with lbl := g.lbl + 2 } = a at hc hp
  have hsa : Same g a.2 := by
    rw [← ha]
    exact genExpr_state fd.slot c false { g with lbl := g.lbl + 2 }
  generalize hbb : genStmts fd.slot false b a.2 = bb at hp
  refine hc _ _ (by pfx hp) ?_
  rintro m1 ⟨hp1, hx1⟩
  have hl1 := hp1.kept.low hpre.rspLe
  have hpre1 := hpre.kept hp1.kept hp1.rel
  have hrax : m1.reg .rax = (Val.bool true).enc := hx1 _ rfl
  refine Run.straight (i := .cmp (.imm 1) .rax) X.loaded (by pfx hp) rfl rfl rfl ?_
  have hpl : (pre ++ [.flush, .flush, .label (.loc "while_start" (g.lbl + 1))] ++ a.1 ++
      [.ins (.cmp (.imm 1) .rax)] ++ [.ins (.jcc .ne (.loc "while_end" g.lbl))] ++ bb.1 ++
      [.ins (.jmp (.loc "while_start" (g.lbl + 1)))]) ++ [.label (.loc "while_end" g.lbl)] <+: C := by
    pfx hp
  refine Run.jcc (c := .ne) X.loaded (by pfx hp) rfl hpl ?_ ?_
  · intro hcond
    simp only [Mach.get, hrax, cond_flags] at hcond
    cases hcond
  · intro _
    refine h a _ hsa ⟨hl1.rbp, hl1.stk⟩ ((hpre1.same hsa).kept ⟨rfl, rfl, fun _ _ _ => rfl⟩ (hp1.rel.congr rfl rfl)) ?_
    rw [hbb]
    pfx hp

theorem go_loopB (X : Ctx P I C lim top) {c : Expr} {b : Stmts}
    (h1 : Sim P I C lim top d (.expr ρ S c (some (.bool true)) S1)) (h2 : GoSim P I C lim top H d k (.stmts ρ S1 b)) :
    GoSim P I C lim top H d k (.stmt ρ S (.loop c b)) := by
  intro fd g m u hsk ht hv hok hu hpre pre q hp hq
  refine run_round X h1 ht hv hok hu hpre hp ?_
  intro a m1 hsa hl hpre1 hp1
  simp only [Stmt.vars, List.append_subset] at hv
  simp only [Stmt.ok, Bool.and_eq_true] at hok
  simp only [Stmt.use] at hu
  exact h2.scope hsk ((top_of_same hsa).trans ht) hv.2 hok.2 (by omega) hpre1 (prefix_left hp1)
    (by rw [hl.ra hpre.hi X.htop]; exact hq)

theorem go_loop (X : Ctx P I C lim top) {c : Expr} {b : Stmts}
    (h1 : Sim P I C lim top d (.expr ρ S c (some (.bool true)) S1))
    (h2 : Sim P I C lim top d (.stmts ρ S1 b .norm ρ1 S2))
    (h3 : GoSim P I C lim top H d k (.stmt ρ1 S2 (.loop c b))) :
    GoSim P I C lim top H d (k + 1) (.stmt ρ S (.loop c b)) := by
  intro fd g m u hsk ht hv hok hu hpre pre q hp hq
  refine run_round X h1 ht hv hok hu hpre hp ?_
  intro a m1 hsa hl hpre1 hp1
  have hv0 := hv
  have hok0 := hok
  have hu0 := hu
  simp only [Stmt.vars, List.append_subset] at hv
  simp only [Stmt.ok, Bool.and_eq_true] at hok
  simp only [Stmt.use] at hu
  have hps : (pre ++ [.flush, .flush]) ++ [.label (.loc "while_start" (g.lbl + 1))] <+: C := by
    simp only [genStmt] at hp
    pfx hp
  refine exeS_scope h2 hsk ((top_of_same hsa).trans ht) hv.2 hok.2 (by omega) hpre1 _ _ q (prefix_left hp1)
    (by rw [hl.ra hpre.hi X.htop]; exact hq) ?_ (by intro v e; cases e)
  intro _ m2 hm2
  refine Run.jmp_far (l := .loc "while_start" (g.lbl + 1)) X.loaded (by simpa using hp1) hps ?_
  have hm3 : SPost lim top fd ρ1 S2 g u m m2 := SPost.trans hl hm2 hsa.1.symm (Nat.le_refl _)
  have := h3 fd g m2 u hsk ht hv0 hok0 hu0 hm3.pre pre q hp
    (by rw [hm3.low.ra hpre.hi X.htop]; exact hq)
  simpa [Stmt.head] using this

/-! ### Functions -/

theorem go_fnBlock (X : Ctx P I C lim top) {fd : FnDef} {vs : List (Option Val)} {ss : Stmts}
    (hb : fd.body = .block ss) (h : GoSim P I C lim top H d k (.stmts (bindParams fd.params vs) S ss)) :
    GoSim P I C lim top H d k (.fn fd vs S) := by
  intro m p q hfd hsk hf hq hal hbud htop hregs hrel
  refine fn_enter X hfd hf hq hal hbud htop hregs hrel ?_
  intro pre l m1 hp h6 hpre hval hlen hra hret
  simp only [hb] at hp
  rw [hsk] at hp
  rw [hb] at hpre
  have hok := (X.ok fd hfd).1
  rw [hb] at hok
  exact h.scope hsk rfl (vars_block hb) hok (Nat.le_refl _) hpre (prefix_left hp) hra

theorem go_fnExpr (X : Ctx P I C lim top) {fd : FnDef} {vs : List (Option Val)} {e : Expr}
    (hb : fd.body = .expr e) (h : GoSim P I C lim top H d k (.expr (bindParams fd.params vs) S e)) :
    GoSim P I C lim top H d k (.fn fd vs S) := by
  intro m p q hfd hsk hf hq hal hbud htop hregs hrel
  refine fn_enter X hfd hf hq hal hbud htop hregs hrel ?_
  intro pre l m1 hp h6 hpre hval hlen hra hret
  simp only [hb] at hp
  rw [hsk] at hp
  rw [hb] at hpre
  have hok := (X.ok fd hfd).1
  rw [hb] at hok
  have := go_ret h fd _ m1 _ hsk rfl (vars_expr hb) hok (Nat.le_refl _) hpre pre q
    (by simpa [genStmt] using hp) hra
  simpa [Stmt.head] using this

theorem go_fnCons (X : Ctx P I C lim top) {fd : FnDef} {tag : Option Nat} {desc : String} {id : Nat}
    {vs : List (Option Val)} (hb : fd.body = .cons tag desc id) :
    GoSim P I C lim top (AtCall I lim top P.alloc [some (Val.int (BitVec.ofNat 63 (8 * fd.params.length +
      if tag.isSome then 8 else 0))).enc, some (P.str desc), some (Val.int (BitVec.ofNat 63 id)).enc] S) d 0
      (.fn fd vs S) := by
  intro m p q hfd hsk hf hq hal hbud htop hregs hrel
  refine fn_enter X hfd hf hq hal hbud htop hregs hrel ?_
  intro pre l m1 hp h6 hpre hval hlen hra hret
  simp only [hb] at hp
  simp only [hb, Body.use, Nat.zero_add] at hpre
  simp only [genCons] at hp
  refine Run.straight (i := .mov (tagged (8 * fd.params.length + if tag.isSome then 8 else 0)) (.reg .rdi))
    X.loaded (by pfx hp) rfl rfl rfl ?_
  refine Run.flush X.loaded (by pfx hp) ?_
  refine Run.straight (i := .movabs (.str desc) .rsi) X.loaded (by pfx hp) rfl rfl rfl ?_
  refine Run.straight (i := .movabs (.imm (2 * (id : Int) + 1)) .rdx) X.loaded (by pfx hp) rfl rfl rfl ?_
  generalize hm2 : (((m1.put (.reg .rdi) _).set .rsi _).set .rdx _ : Mach σ) = m2
  have g1 : m2.reg .rdi = (Val.int (BitVec.ofNat 63 (8 * fd.params.length + if tag.isSome then 8 else 0))).enc := by
    rw [← hm2, ← tagged_word]
    simp [Mach.put, Mach.set, tagged, Mach.get]
  have g2 : m2.reg .rsi = P.str desc := by
    rw [← hm2, ← X.str]
    simp [Mach.put, Mach.set, Image.abs]
  have g3 : m2.reg .rdx = (Val.int (BitVec.ofNat 63 id)).enc := by
    rw [← hm2, ← tagged_word]
    simp [Mach.put, Mach.set]
  have g4 : m2.reg .rsp = m1.reg .rsp := by rw [← hm2]; simp [Mach.put, Mach.set]
  have g6 : m2.mem = m1.mem := by rw [← hm2]; rfl
  have g7 : m2.ext = m1.ext := by rw [← hm2]; rfl
  have hsp := hpre.sp
  have hpal := hpre.al
  have heven : fd.frame % 2 = 0 := by simp only [FnDef.frame]; omega
  have ha2 : m2.aligned := by
    unfold Mach.aligned
    rw [g4]
    simp only at hsp
    omega
  have hpc : pre ++ [.ins (.mov (tagged (8 * fd.params.length + if tag.isSome then 8 else 0)) (.reg .rdi))] ++
      [.flush] ++ [.ins (.movabs (.str desc) .rsi)] ++ [.ins (.movabs (.imm (2 * (id : Int) + 1)) .rdx)] ++
      [.ins (.call P.alloc)] <+: C := by pfx hp
  obtain ⟨c1, c2, c3⟩ := code_ctl X.loaded hpc rfl rfl
  refine flush_pend c1 (.now (.now ⟨c2, ha2, ?_, hpre.rel.congr g6 g7⟩))
  intro j r x hj hr
  match j, hj with
  | 0, hj => cases hj; cases hr; exact g1
  | 1, hj => cases hj; cases hr; exact g2
  | 2, hj => cases hj; cases hr; exact g3
  | n + 3, hj => simp at hj

/-- More arguments than are needed do not matter. -/
theorem go_fn_args {fd : FnDef} {vs vs' : List (Option Val)} (h : GoSim P I C lim top H d k (.fn fd vs S))
    (hs : ∀ (j : Nat) (x : Val), j < 6 → vs[j]? = some (some x) → vs'[j]? = some (some x)) :
    GoSim P I C lim top H d k (.fn fd vs' S) := by
  intro m p q hfd hsk hf hq hal hbud htop hregs hrel
  refine h m p q hfd hsk hf hq hal hbud htop ?_ hrel
  intro j r x hj hr
  have : j < 6 := by
    have := (List.getElem?_eq_some_iff.mp hr).1
    simpa [argRegs] using this
  exact hregs j r x (hs j x this hj) hr

theorem go_dyn (X : Ctx P I C lim top) {fd0 fd : FnDef} {isCl uns : String} {T : DynT} {n : Nat} (hD : IsDyn fd0 isCl uns T n)
    {p : Word} {vs vs' : List (Option Val)} {d' : Nat} {b : Bool} (hden : Denotes P S b fd.name vs p vs')
    (htest : Sim P I C lim top d (.expr (bindParams fd0.params (some (.ptr p) :: vs)) S (T.test isCl n) (some (.bool b)) S))
    (hcast : Sim P I C lim top d (.expr (bindParams fd0.params (some (.ptr p) :: vs)) S (T.castIf uns b n) (some (.ptr p)) S))
    (hfd : fd ∈ P.fns) (hskip : fd.skip = false)
    (hlen : vs.length ≤ 5) (hfn : GoSim P I C lim top H d' k (.fn fd vs' S)) (hd : d' + fd.cost ≤ d) :
    GoSim P I C lim top H d k (.fn fd0 (some (.ptr p) :: vs) S) := by
  have hbs := dyn_binds hD (p := p) (vs := vs)
  refine go_fnBlock X hD.body (go_consHd X (go_ifs X ?_))
  generalize bindParams fd0.params (some (.ptr p) :: vs) = ρ at hbs htest hcast ⊢
  cases hden with
  | fn =>
    have hcl : (ρ.upd (n + 7) (.ptr (P.fnAddr fd.name))) (n + 7) = some (.ptr (P.fnAddr fd.name)) := by simp [Env.upd]
    refine go_ch X htest (fun h => by cases h) (fun _ => go_chElse (go_consTl X (sim_asgVar X hcast (sim_locVar X))
      (go_consHd X (go_expr (go_callVar X hD.fiV hcl (sim_dynArgs X) hfd hskip (go_fn_args hfn ?_) hd)))))
    intro j x hj hx
    have hj : j < 5 := by
      have := (List.getElem?_eq_some_iff.mp hx).1
      omega
    have := hbs j x (by omega) hx
    have hne : n + 1 + j ≠ n + 7 := by omega
    match j, hj with
    | 0, _ | 1, _ | 2, _ | 3, _ | 4, _ => simpa [Env.upd, hne] using this
  | @closure _ _ _ e h1 h2 =>
    have hcl : (ρ.upd (n + 6) (.ptr p)) (n + 6) = some (.ptr p) := by simp [Env.upd]
    refine go_ch X htest (fun _ => go_consTl X (sim_asgVar X hcast (sim_locVar X))
      (go_consHd X (go_expr (go_callExpr X hD.fiE (sim_dot X (sim_var X hcl) (by simpa using h1))
        (sim_argsCons X (sim_dot X (sim_var X hcl) (v := .ptr e) (by simpa using h2)) (sim_dynArgs X)) hfd hskip
        (go_fn_args hfn ?_) hd)))) (fun h => by cases h)
    intro j x hj hx
    match j, hx with
    | 0, hx => simpa using hx
    | j + 1, hx =>
      simp only [List.getElem?_cons_succ] at hx ⊢
      have := hbs j x (by omega) hx
      have hj : j < 5 := by omega
      have hne : n + 1 + j ≠ n + 6 := by omega
      match j, hj with
      | 0, _ | 1, _ | 2, _ | 3, _ | 4, _ => simpa [Env.upd, hne] using this

/-! ### All of them -/

theorem go_here {p : Pt σ} (hH : ∀ c, H c) : GoSim P I C lim top H d 0 p := by
  have hr : ∀ pre m, Run I (Far I H 0) pre m := fun pre m c _ => .now (.now (hH c))
  cases p with
  | fn fd vs S => intro m p q _ _ _ _ _ _ _ _ _; exact .now (.now (hH _))
  | expr ρ S e => intro fd g m _ _ _ pre _; exact hr _ _
  | loc ρ S e => intro fd g m _ _ _ pre _; exact hr _ _
  | args ρ S e => intro fd fi g m _ _ _ _ _ _ pre _; exact hr _ _
  | stmt ρ S e => intro fd g m _ _ _ _ _ _ _ pre _ _ _; exact hr _ _
  | stmts ρ S e => intro fd g m _ _ _ _ _ _ _ pre _ _ _; exact hr _ _
  | chain ρ S e => intro fd g m _ _ _ _ _ _ _ _ pre _ _ _; exact hr _ _

/-- However far the semantics gets, the code gets. -/
theorem go (X : Ctx P I C lim top) {h : Hit σ} {p : Pt σ} (hg : Going P h d k p) :
    GoSim P I C lim top (h.at I lim top) d k p := by
  induction hg with
  | here e => subst e; exact go_here (fun _ => trivial)
  | callNow e h1 => subst e; exact go_callNow X h1
  | divZero e h1 h2 => subst e; exact go_div X (sim X h1) (sim X h2)
  | outside e h1 h2 h3 h4 h5 => subst e; exact (go_outside X h1 h2 h3 h4 h5).1
  | binL _ ih => exact go_binL ih
  | binR h1 _ ih => exact go_binR X (sim X h1) ih
  | un _ ih => exact go_un ih
  | ternC _ ih => exact go_ternC ih
  | ternT h1 _ ih => exact go_tern X (sim X h1) (fun _ => ih) (fun h => by cases h)
  | ternF h1 _ ih => exact go_tern X (sim X h1) (fun h => by cases h) (fun _ => ih)
  | arrLit _ ih => exact go_arrLit ih
  | callFnA _ ih => exact go_callFnA X ih
  | callFn hx h1 hfd hn hsk _ hd ih => subst hn; exact go_callFn X hx (sim X h1) hfd hsk ih hd
  | callVarA _ ih => exact go_callVarA X ih
  | callVar hx hρ h1 hfd hsk _ hd ih => exact go_callVar X hx hρ (sim X h1) hfd hsk ih hd
  | callExprE _ ih => exact go_callExprE ih
  | callExprA h1 _ ih => exact go_callExprA X (sim X h1) ih
  | callExpr hx h0 h1 hfd hsk _ hd ih => exact go_callExpr X hx (sim X h0) (sim X h1) hfd hsk ih hd
  | dot _ ih => exact (go_dot ih).1
  | indexA _ ih => exact (go_indexA ih).1
  | indexI h1 _ ih => exact (go_indexI X (sim X h1) ih).1
  | argsHd _ ih => exact go_argsHd ih
  | argsTl h1 _ ih => exact go_argsTl X (sim X h1) ih
  | locDot _ ih => exact (go_dot ih).2
  | locIndexA _ ih => exact (go_indexA ih).2
  | locIndexI h1 _ ih => exact (go_indexI X (sim X h1) ih).2
  | locOutside e h1 h2 h3 h4 h5 => subst e; exact (go_outside X h1 h2 h3 h4 h5).2
  | ret _ ih => exact go_ret ih
  | ifs _ ih => exact go_ifs X ih
  | asgR _ ih => exact go_asgR ih
  | asgL h1 _ ih => exact go_asgL X (sim X h1) ih
  | loopC _ ih => exact go_loopC ih
  | loopB h1 _ ih => exact go_loopB X (sim X h1) ih
  | loop h1 h2 _ ih => exact go_loop X (sim X h1) (sim X h2) ih
  | block _ ih => exact go_block ih
  | expr _ ih => exact go_expr ih
  | chElse _ ih => exact go_chElse ih
  | chC _ ih => exact go_chC ih
  | chT h1 _ ih => exact go_ch X (sim X h1) (fun _ => ih) (fun h => by cases h)
  | chF h1 _ ih => exact go_ch X (sim X h1) (fun h => by cases h) (fun _ => ih)
  | consHd _ ih => exact go_consHd X ih
  | consTl h1 _ ih => exact go_consTl X (sim X h1) ih
  | fnBlock hb _ _ ih => exact go_fnBlock X hb ih
  | fnExpr hb _ _ ih => exact go_fnExpr X hb ih
  | fnCons e hb _ => subst e; exact go_fnCons X hb
  | fnDyn h1 h2 h3 h4 h6 h7 h8 _ h9 ih => exact go_dyn X h1 h2 (sim X h3) (sim X h4) h6 h7 h8 ih h9

end Clara.Gen
