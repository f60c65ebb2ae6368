import Verif.Gen.SimFn
/-
Correctness of the code for `invokeDynamic` (`install/lib/runtime.clara` 117-126).
-/
namespace Clara.Gen
variable {σ : Type} {P : Prog σ} {I : Image σ} {C : List Ev} {lim top : Nat}
  {d : Nat} {ρ ρ1 ρ2 : Env} {S S1 S2 S3 : Store σ}

/-! ### Statements whose last value is left in `rax` -/

/-- The code ends with the value in `rax`. -/
def TExe (I : Image σ) (C : List Ev) (lim top : Nat) (fd : FnDef) (g : GS) (u : Nat) (code : List Ev) (m : Mach σ)
    (v : Option Val) (S' : Store σ) : Prop :=
  ∀ G pre q, pre ++ code <+: C → I.pos (m.mem (m.reg .rbp + 8) + 8) = some q →
    (∀ m' ρ', SPost lim top fd ρ' S' g u m m' → (∀ x, v = some x → m'.reg .rax = x.enc) → Run I G (pre ++ code) m') →
    Run I G pre m

theorem texe_expr {e : Expr} {v : Option Val} (h : Sim P I C lim top d (.expr ρ S e v S1)) {fd : FnDef} {g : GS} {m : Mach σ} {u : Nat}
    (ht : g.top = []) (hv : e.vars ⊆ fd.syms) (hok : e.ok 0 = true) (hu : e.use + d ≤ u) (hpre : Pre lim top fd ρ S g m u) :
    TExe I C lim top fd g u (genStmtsGo fd.slot false (.cons (.expr e) .nil) g).1 m v S1 := by
  intro G pre q hp hq hn
  simp only [genStmtsGo, genStmt, List.append_nil] at hp hn
  refine h fd g m hv (by rw [ht]; exact hok) (hpre.less hu) G pre hp ?_
  rintro m1 ⟨hp1, hx⟩
  have hl := hp1.kept.low hpre.rspLe
  exact hn m1 ρ ⟨hl.rbp, hl.stk, hpre.kept hp1.kept hp1.rel⟩ hx

theorem texe_cons (X : Ctx P I C lim top) {s : Stmt} {ss : Stmts} {v : Option Val}
    (h1 : Sim P I C lim top d (.stmt ρ S s .norm ρ1 S1)) {fd : FnDef} {g : GS} {m : Mach σ} {u : Nat}
    (h2 : ∀ g' m', g'.top = [] → Pre lim top fd ρ1 S1 g' m' u → TExe I C lim top fd g' u (genStmtsGo fd.slot false ss g').1 m' v S2)
    (hsk : fd.skip = false) (ht : g.top = []) (hv : s.vars ⊆ fd.syms) (hok : s.ok = true)
    (hu : s.use + d ≤ u) (hpre : Pre lim top fd ρ S g m u) :
    TExe I C lim top fd g u (genStmtsGo fd.slot false (.cons s ss) g).1 m v S2 := by
  intro G pre q hp hq hn
  simp only [genStmtsGo] at hp hn
  have hs := genStmt_state fd.slot false s g
  refine ExeS.of_stmt X h1 hsk ht hv hok hu hpre G pre q (prefix_left hp) hq ?_
    (by intro v e; cases e)
  intro _ m1 hm1
  refine h2 _ m1 ((top_of_same hs).trans ht) (hm1.pre.same hs)
    G _ q (by simpa using hp) (by rw [hm1.low.ra hpre.hi X.htop]; exact hq) ?_
  intro m2 ρ' hm2 hx
  have := hn m2 ρ' (SPost.trans hm1.low hm2 hs.1.symm (Nat.le_refl _)) hx
  simpa using this

theorem texe_scope {ss : Stmts} {v : Option Val} {fd : FnDef} {g : GS} {m : Mach σ} {u : Nat}
    (h : ∀ g' m', g'.top = [] → Pre lim top fd ρ S g' m' u → TExe I C lim top fd g' u (genStmtsGo fd.slot false ss g').1 m' v S1)
    (h2 : g.top = []) (h6 : Pre lim top fd ρ S g m u) :
    TExe I C lim top fd g u (genStmts fd.slot false ss g).1 m v S1 := by
  rw [genStmts]
  intro G pre q hp hq hn
  refine h { g with gc := g.gc.openScope } m h2 (h6.spEq rfl) G pre q hp hq ?_
  intro m' ρ' hm' hx
  exact hn m' ρ' ⟨hm'.rbp, hm'.stk, hm'.pre.spEq rfl⟩ hx

/-- `if c { b1 } else { b2 }` where the branch that is taken ends with the value. -/
theorem texe_if (X : Ctx P I C lim top) {c : Expr} {b1 b2 : Stmts} {bv : Bool} {v : Option Val}
    (h1 : Sim P I C lim top d (.expr ρ S c (some (.bool bv)) S1)) {fd : FnDef} {g : GS} {m : Mach σ} {u : Nat}
    (h2 : bv = true → ∀ g' m', g'.top = [] → Pre lim top fd ρ S1 g' m' u →
      TExe I C lim top fd g' u (genStmtsGo fd.slot false b1 g').1 m' v S2)
    (h3 : bv = false → ∀ g' m', g'.top = [] → Pre lim top fd ρ S1 g' m' u →
      TExe I C lim top fd g' u (genStmtsGo fd.slot false b2 g').1 m' v S2)
    (ht : g.top = []) (hv : c.vars ⊆ fd.syms) (hok : c.ok 0 = true) (hu : c.use + d ≤ u) (hpre : Pre lim top fd ρ S g m u) :
    TExe I C lim top fd g u (genStmtsGo fd.slot false (.cons (.ifs (.cond c b1 (.els b2))) .nil) g).1 m v S2 := by
  intro G pre q hp hq hn
  simp only [genStmtsGo, genStmt, List.append_nil] at hp hn
  refine Run.flush X.loaded (by pfx hp) ?_
  simp only [genChain] at hp hn
  generalize hg0 : ({ g with lbl := g.lbl + 1 } : GS) = g0 at hp hn
  have hs0 : Same g g0 := by rw [← hg0]; exact ⟨rfl, rfl⟩
  have hc := h1 fd g0 m hv (by rw [(top_of_same hs0).trans ht]; exact hok) ((hpre.less hu).same hs0)
  generalize ha : genExpr fd.slot c false g0 = a at hc hp hn
  have hsa : Same g a.2 := by rw [← ha]; exact hs0.trans (genExpr_state _ _ _ _)
  generalize hgx : ({ a.2 with lbl := a.2.lbl + 1 } : GS) = gx at hp hn
  have hsx : Same g gx := by rw [← hgx]; exact hsa
  generalize hbb : genStmts fd.slot false b1 gx = bb at hp hn
  have hsb : Same g bb.2 := by rw [← hbb]; exact hsx.trans (genStmts_state _ _ _ _)
  generalize hdd : genStmts fd.slot false b2 bb.2 = dd at hp hn
  refine hc G _ (by pfx hp) ?_
  rintro m1 ⟨hp1, hx1⟩
  have hl1 := hp1.kept.low hpre.rspLe
  have hpre1 := hpre.kept hp1.kept hp1.rel
  have hrax : m1.reg .rax = (Val.bool bv).enc := hx1 _ rfl
  refine Run.flush X.loaded (by pfx hp) ?_
  refine Run.straight (i := .cmp (.imm 1) .rax) X.loaded (by pfx hp) rfl rfl rfl ?_
  have hpl : (pre ++ [.flush] ++ a.1 ++ [.flush] ++ [.ins (.cmp (.imm 1) .rax)] ++
      [.ins (.jcc .ne (.loc "else" a.2.lbl))] ++ bb.1 ++ [.ins (.jmp (.loc "if_end" g.lbl))]) ++
      [.label (.loc "else" a.2.lbl)] <+: C := by pfx hp
  have hpe : (pre ++ [.flush] ++ a.1 ++ [.flush] ++ [.ins (.cmp (.imm 1) .rax)] ++
      [.ins (.jcc .ne (.loc "else" a.2.lbl))] ++ bb.1 ++ [.ins (.jmp (.loc "if_end" g.lbl))] ++
      [.label (.loc "else" a.2.lbl)] ++ dd.1) ++ [.label (.loc "if_end" g.lbl)] <+: C := by pfx hp
  have hl2 : Low top m { m1 with flags := some (m1.reg .rax, m1.get (.imm 1)) } := ⟨hl1.rbp, hl1.stk⟩
  have hpx : ∀ g', Same g g' → Pre lim top fd ρ S1 g' { m1 with flags := some (m1.reg .rax, m1.get (.imm 1)) } u := fun g' hg' =>
    (hpre1.same hg').kept ⟨rfl, rfl, fun _ _ _ => rfl⟩ (hp1.rel.congr rfl rfl)
  refine Run.jcc (c := .ne) X.loaded (by pfx hp) rfl hpl ?_ ?_
  · intro hcond
    simp only [Mach.get, hrax] at hcond
    cases bv with
    | true => rw [cond_flags] at hcond; cases hcond
    | false =>
      have hy := texe_scope (h3 rfl) ((top_of_same hsb).trans ht) (hpx _ hsb)
      rw [hdd] at hy
      refine hy G _ q (by pfx hp) (by rw [hl2.ra hpre.hi X.htop]; exact hq) ?_
      intro m2 ρ' hm2 hx
      refine Run.label (l := .loc "if_end" g.lbl) X.loaded (by pfx hp) ?_
      have := hn m2 ρ' (SPost.trans hl2 hm2 hsb.1.symm (Nat.le_refl _)) hx
      simpa using this
  · intro hcond
    simp only [Mach.get, hrax] at hcond
    cases bv with
    | false => rw [cond_flags] at hcond; cases hcond
    | true =>
      have hy := texe_scope (h2 rfl) ((top_of_same hsx).trans ht) (hpx _ hsx)
      rw [hbb] at hy
      refine hy G _ q (by pfx hp) (by rw [hl2.ra hpre.hi X.htop]; exact hq) ?_
      intro m2 ρ' hm2 hx
      refine Run.jmp (l := .loc "if_end" g.lbl) X.loaded (by pfx hp) hpe ?_
      have := hn m2 ρ' (SPost.trans hl2 hm2 hsx.1.symm (Nat.le_refl _)) hx
      simpa using this

/-! ### `invokeDynamic` -/

/-- Reading a variable of which nothing is known. -/
theorem sim_varU (X : Ctx P I C lim top) {x : Nat} {t : TyR} : Sim P I C lim top d (.expr ρ S (.var x t) none S) := by
  intro fd g m _ _ hpre
  simp only [genExpr]
  refine Exe.slotIns X ?_
  exact Exe.ins X.loaded rfl (Exe.nil ⟨Post.refl hpre.rel (mod_set _ _ _), by simp⟩)

theorem sim_varO (X : Ctx P I C lim top) {x : Nat} {t : TyR} : Sim P I C lim top d (.expr ρ S (.var x t) (ρ x) S) := by
  cases h : ρ x with
  | none => exact sim_varU X
  | some v => exact sim_var X h

theorem sim_dynArgs (X : Ctx P I C lim top) {T : DynT} {n : Nat} :
    Sim P I C lim top d (.args ρ S (T.args n) [ρ (n + 1), ρ (n + 2), ρ (n + 3), ρ (n + 4), ρ (n + 5)] S) :=
  sim_argsCons X (sim_varO X) (sim_argsCons X (sim_varO X) (sim_argsCons X (sim_varO X) (sim_argsCons X (sim_varO X)
    (sim_argsCons X (sim_varO X) sim_argsNil))))

/-- More arguments than are needed do not matter. -/
theorem sim_fn_args {fd : FnDef} {vs vs' : List (Option Val)} {v : Option Val}
    (h : Sim P I C lim top d (.fn fd vs S v S1)) (hs : ∀ (j : Nat) (x : Val), j < 6 → vs[j]? = some (some x) → vs'[j]? = some (some x)) :
    Sim P I C lim top d (.fn fd vs' S v S1) := by
  intro m p q G hfd hsk hf hq hal hbud htop hregs hrel hk
  refine h m p q G hfd hsk hf hq hal hbud htop ?_ hrel hk
  intro j r x hj hr
  have : j < 6 := by
    have := (List.getElem?_eq_some_iff.mp hr).1
    simpa [argRegs] using this
  exact hregs j r x (hs j x this hj) hr

/-- The parameters of `invokeDynamic`, read back. -/
theorem dyn_binds {fd : FnDef} {isCl uns : String} {T : DynT} {n : Nat} (hD : IsDyn fd isCl uns T n) {p : Word} {vs : List (Option Val)} :
    ∀ (j : Nat) (x : Val), j < 5 → vs[j]? = some (some x) → bindParams fd.params (some (.ptr p) :: vs) (n + 1 + j) = some x := by
  rw [hD.params]
  intro j x hj hx
  match j, vs, hx with
  | 0, a :: vs, hx => simp only [List.getElem?_cons_zero, Option.some.injEq] at hx; (simp [bindParams, hx]; try omega)
  | 1, _ :: a :: vs, hx => simp at hx; (simp [bindParams, hx]; try omega)
  | 2, _ :: _ :: a :: vs, hx => simp at hx; (simp [bindParams, hx]; try omega)
  | 3, _ :: _ :: _ :: a :: vs, hx => simp at hx; (simp [bindParams, hx]; try omega)
  | 4, _ :: _ :: _ :: _ :: a :: vs, hx => simp at hx; (simp [bindParams, hx]; try omega)

theorem texe_yes (X : Ctx P I C lim top) {fd0 fd : FnDef} {uns : String} {T : DynT} {n : Nat} {p e : Word}
    {vs : List (Option Val)} {v : Option Val} {d' : Nat} (hE : T.fiE.ext = false)
    (hs0 : fd0.skip = false) (hcast : Sim P I C lim top d (.expr ρ S (T.cast uns T.fiU1 T.cl n) (some (.ptr p)) S))
    (hf : S.heap p = some (.ptr (P.fnAddr fd.name))) (he : S.heap (p + 8) = some (.ptr e))
    (hfd : fd ∈ P.fns) (hskip : fd.skip = false)
    (hfn : Sim P I C lim top d' (.fn fd (some (.ptr e) :: vs) S v S1)) (hd : d' + fd.cost ≤ d)
    (hvs : ∀ (j : Nat) (x : Val), j < 5 → vs[j]? = some (some x) → ρ (n + 1 + j) = some x)
    {u : Nat} (hv : (T.yes uns n).vars ⊆ fd0.syms) (hok : (T.yes uns n).ok = true) (hu : (T.yes uns n).use + d ≤ u)
    {g : GS} {m : Mach σ} (ht : g.top = []) (hpre : Pre lim top fd0 ρ S g m u) :
    TExe I C lim top fd0 g u (genStmtsGo fd0.slot false (T.yes uns n) g).1 m v S1 := by
  simp only [DynT.yes, Stmts.vars, Stmts.ok, Stmts.use, Stmt.vars, List.append_subset, Bool.and_eq_true] at hv hok hu
  have hcl : (ρ.upd (n + 6) (.ptr p)) (n + 6) = some (.ptr p) := by simp [Env.upd]
  refine texe_cons X (sim_asgVar X hcast (sim_locVar X)) ?_ hs0 ht
    (by simp only [Stmt.vars, List.append_subset]; exact hv.1) hok.1 (by omega) hpre
  intro g' m' ht' hpre'
  refine texe_expr (P := P) (d := d) ?_ ht' hv.2.1 hok.2.1 (by simp only [Stmt.use] at hu; omega) hpre'
  refine sim_callExpr X hE (sim_dot X (sim_var X hcl) (by simpa using hf))
    (sim_argsCons X (sim_dot X (sim_var X hcl) (v := .ptr e) (by simpa using he)) (sim_dynArgs X)) hfd hskip (sim_fn_args hfn ?_) hd
  intro j x hj hx
  match j, hx with
  | 0, hx => simpa using hx
  | j + 1, hx =>
    simp only [List.getElem?_cons_succ] at hx ⊢
    have := hvs j x (by omega) hx
    have hj : j < 5 := by omega
    have hne : n + 1 + j ≠ n + 6 := by omega
    match j, hj with
    | 0, _ | 1, _ | 2, _ | 3, _ | 4, _ => simpa [Env.upd, hne] using this

theorem texe_no (X : Ctx P I C lim top) {fd0 fd : FnDef} {uns : String} {T : DynT} {n : Nat} {p : Word}
    {vs : List (Option Val)} {v : Option Val} {d' : Nat} (hE : T.fiV.ext = false)
    (hs0 : fd0.skip = false) (hcast : Sim P I C lim top d (.expr ρ S (T.cast uns T.fiU2 T.f n) (some (.ptr p)) S))
    (hf : p = P.fnAddr fd.name)
    (hfd : fd ∈ P.fns) (hskip : fd.skip = false) (hlen : vs.length ≤ 5)
    (hfn : Sim P I C lim top d' (.fn fd vs S v S1)) (hd : d' + fd.cost ≤ d)
    (hvs : ∀ (j : Nat) (x : Val), j < 5 → vs[j]? = some (some x) → ρ (n + 1 + j) = some x)
    {u : Nat} (hv : (T.no uns n).vars ⊆ fd0.syms) (hok : (T.no uns n).ok = true) (hu : (T.no uns n).use + d ≤ u)
    {g : GS} {m : Mach σ} (ht : g.top = []) (hpre : Pre lim top fd0 ρ S g m u) :
    TExe I C lim top fd0 g u (genStmtsGo fd0.slot false (T.no uns n) g).1 m v S1 := by
  simp only [DynT.no, Stmts.vars, Stmts.ok, Stmts.use, Stmt.vars, List.append_subset, Bool.and_eq_true] at hv hok hu
  have hcl : (ρ.upd (n + 7) (.ptr p)) (n + 7) = some (.ptr p) := by simp [Env.upd]
  refine texe_cons X (sim_asgVar X hcast (sim_locVar X)) ?_ hs0 ht
    (by simp only [Stmt.vars, List.append_subset]; exact hv.1) hok.1 (by omega) hpre
  intro g' m' ht' hpre'
  refine texe_expr (P := P) (d := d) ?_ ht' hv.2.1 hok.2.1 (by simp only [Stmt.use] at hu; omega) hpre'
  refine sim_callVar X hE (by rw [hcl, hf]) (sim_dynArgs X) hfd hskip (sim_fn_args hfn ?_) hd
  intro j x hj hx
  have hj : j < 5 := by
    have := (List.getElem?_eq_some_iff.mp hx).1
    omega
  have := hvs j x (by omega) hx
  have hne : n + 1 + j ≠ n + 7 := by omega
  match j, hj with
  | 0, _ | 1, _ | 2, _ | 3, _ | 4, _ => simpa [Env.upd, hne] using this

/-- `invokeDynamic` runs the function that the value stands for, and its result is the one of the function. -/
theorem sim_dyn (X : Ctx P I C lim top) {fd0 fd : FnDef} {isCl uns : String} {T : DynT} {n : Nat} (hD : IsDyn fd0 isCl uns T n)
    {p : Word} {vs vs' : List (Option Val)} {v : Option Val} {d' : Nat} {b : Bool} (hden : Denotes P S b fd.name vs p vs')
    (htest : Sim P I C lim top d (.expr (bindParams fd0.params (some (.ptr p) :: vs)) S (T.test isCl n) (some (.bool b)) S))
    (hcast : Sim P I C lim top d (.expr (bindParams fd0.params (some (.ptr p) :: vs)) S (T.castIf uns b n) (some (.ptr p)) S)) (hfd : fd ∈ P.fns) (hskip : fd.skip = false)
    (hlen : vs.length ≤ 5) (hfn : Sim P I C lim top d' (.fn fd vs' S v S1)) (hd : d' + fd.cost ≤ d) :
    Sim P I C lim top d (.fn fd0 (some (.ptr p) :: vs) S v S1) := by
  intro m pp q G hfd0 hsk hf hq hal hbud htop hregs hrel hk
  refine fn_enter X hfd0 hf hq hal hbud htop hregs hrel ?_
  intro pre l m1 hp h6 hpre hval hlen' hra hret
  have hbs := dyn_binds hD (p := p) (vs := vs)
  generalize hρ : bindParams fd0.params (some (.ptr p) :: vs) = ρ at hpre hbs htest hcast
  have hb := hD.body
  simp only [hb] at hp
  rw [hsk] at hp
  rw [hb] at hpre
  have hok := (X.ok fd0 hfd0).1
  have hvb := vars_block hb
  rw [hb] at hok
  simp only [Body.use] at hpre
  simp only [Body.ok, Stmts.ok, Stmt.ok, Chain.ok, Bool.and_eq_true] at hok
  simp only [Stmts.vars, Stmt.vars, Chain.vars, List.append_subset] at hvb
  simp only [Stmts.use, Stmt.use, Chain.use] at hpre
  refine texe_scope (v := v) (S1 := S1) (g := { lbl := l, sp := fd0.frame, gc := (genParams fd0.params 0 {}).2 })
    (ss := .cons (.ifs (.cond (T.test isCl n) (T.yes uns n) (.els (T.no uns n)))) .nil) ?_ rfl hpre G pre q (prefix_left hp) hra ?_
  · intro g' m' ht' hpre'
    cases hden with
    | fn =>
      refine texe_if X htest (fun h => by cases h) (fun _ g2 m2 ht2 hpre2 => ?_) ht' hvb.1.1 hok.1.1 (by omega) hpre'
      exact texe_no X hD.fiV hsk hcast rfl hfd hskip hlen hfn hd hbs hvb.1.2.2 hok.1.2.2 (by omega) ht2 hpre2
    | closure h1 h2 =>
      refine texe_if X htest (fun _ g2 m2 ht2 hpre2 => ?_) (fun h => by cases h) ht' hvb.1.1 hok.1.1 (by omega) hpre'
      exact texe_yes X hD.fiE hsk hcast h1 h2 hfd hskip hfn hd hbs hvb.1.2.1 hok.1.2.1 (by omega) ht2 hpre2
  intro m2 ρ' hm2 hx
  simp only [hD.ret, Stmts.retLast, Bool.not_false, Bool.and_self, if_true] at hp
  refine run_exit X (v := v) (by simpa using hp) (by rw [hm2.low.ra hpre.hi X.htop]; exact hra) hm2.pre.rel hx ?_
  intro m' hm'
  obtain ⟨t1, t2, t3⟩ := hret m' _ _ (hm'.low hm2.low hpre.hi)
  exact hk m' t1 t2 t3 hm'.rel hm'.rax

end Clara.Gen
