import Verif.Gen.Roots
import Verif.Gen.Depth
/-
The root maps of statements and functions.
-/
namespace Clara.Gen

/-- A root map that has the roots `V` for variables, with `P` relating the variables in scope to `V`. -/
def MapOk (P : List (Nat × TyR) → List (Nat × TyR) → Prop) (F : Nat) (s : Site) (m : List Nat) : Prop :=
  ∃ V, P s.vars V ∧ m = mapOf F V s.temps

/-- The calls of the code are `S`; the code leaves the stack as it is. -/
def StCalls (P : List (Nat × TyR) → List (Nat × TyR) → Prop) (F : Nat) (c : List Ev) (S : List Site) : Prop :=
  Ev.panic ∉ c → All2 (MapOk P F) S (maps c) ∧
    ∃ R, stackWalk c [] = (R, []) ∧ All2 (fun s r => s.temps.map Temp.opd <+: r) S R

section
variable {P : List (Nat × TyR) → List (Nat × TyR) → Prop} {F : Nat}

theorem StCalls.append {c c' : List Ev} {S S' : List Site} (h : StCalls P F c S) (h' : StCalls P F c' S') :
    StCalls P F (c ++ c') (S ++ S') := by
  intro hp
  rw [List.mem_append, not_or] at hp
  obtain ⟨m1, R1, w1, a1⟩ := h hp.1
  obtain ⟨m2, R2, w2, a2⟩ := h' hp.2
  refine ⟨by rw [maps_append]; exact m1.append m2, R1 ++ R2, ?_, a1.append a2⟩
  rw [stackWalk_append, w1, w2]

theorem Calls.st {V : List (Nat × TyR)} {sc : List (Nat × TyR)} (hP : P sc V) {c : List Ev} {S : List (List Temp)}
    (h : Calls F V c [] [] S) : StCalls P F c (siteAt sc S) := by
  intro hp
  obtain ⟨m, R, w, a⟩ := h hp
  refine ⟨?_, R, w, ?_⟩
  · rw [m]
    clear m w a h hp
    induction S with
    | nil => exact .nil
    | cons x S ih => exact .cons ⟨V, hP, rfl⟩ ih
  · clear m w h
    induction a with
    | nil => exact .nil
    | cons x _ ih => exact .cons x ih

theorem StCalls.nil : StCalls P F [] [] := fun _ => ⟨.nil, [], rfl, .nil⟩

theorem StCalls.still {c : List Ev} (h : c.all Ev.still = true) : StCalls P F c [] := by
  intro hp
  obtain ⟨m, R, w, a⟩ := Calls.still (F := F) (V := []) h [] hp
  refine ⟨by rw [m]; exact .nil, R, w, ?_⟩
  cases a
  exact .nil

theorem StCalls.cons {e : Ev} {c : List Ev} {S : List Site} (h : e.still = true) (h' : StCalls P F c S) : StCalls P F (e :: c) S :=
  (StCalls.still (c := [e]) (by simp [h])).append h'

theorem StCalls.appendEnd {c c' : List Ev} {S : List Site} (h : StCalls P F c S) (h' : StCalls P F c' []) :
    StCalls P F (c ++ c') S := by
  have := h.append h'
  rwa [List.append_nil] at this

theorem genFnExit_st (skip : Bool) : StCalls P F (genFnExit skip) [] := by
  intro _
  cases skip
  · exact ⟨.nil, [], rfl, .nil⟩
  · exact ⟨.nil, [], rfl, .nil⟩

theorem siteAt_append (sc : List (Nat × TyR)) (a b : List (List Temp)) : siteAt sc (a ++ b) = siteAt sc a ++ siteAt sc b := by
  simp [siteAt]

/-- The generator between statements. -/
structure Rest (F : Nat) (g : GS) : Prop where
  sp : g.sp = F
  top : g.top = []
  bound : ∀ p ∈ g.gc.roots, p.1 ≤ 8 * F

theorem Rest.inv {g : GS} (h : Rest F g) : Inv F g.gc.roots [] g := ⟨by simp [h.sp], by simp [rootedFrom]⟩

theorem Rest.same {g g' : GS} (h : Rest F g) (hs : Same g g') (hb : ∀ p ∈ g'.gc.roots, p.1 ≤ 8 * F) : Rest F g' :=
  ⟨hs.1.trans h.sp, by rw [GS.top, hs.2]; exact h.top, hb⟩

theorem genExpr_st {slot : Nat → Nat} {e : Expr} {b : Bool} {g : GS} {sc : List (Nat × TyR)} (h : Rest F g) (hok : e.direct true = true)
    (hP : P sc g.gc.roots) :
    StCalls P F (genExpr slot e b g).1 (siteAt sc (sitesE e [] [])) ∧ (genExpr slot e b g).2.gc = g.gc := by
  obtain ⟨h1, h2⟩ := genExpr_calls h.bound slot e b h.inv (by rw [h.top]; exact hok)
  rw [h.top] at h1
  exact ⟨h1.st hP, h2⟩

/-- An assignment up to its effect on the roots. -/
theorem asg_st {slot : Nat → Nat} {l r : Expr} {g : GS} {sc : List (Nat × TyR)} (h : Rest F g) (hl : l.direct true = true) (hr : r.direct true = true)
    (hP : P sc g.gc.roots) :
    StCalls P F ((genExpr slot r false g).1 ++ (.ins (.push rax) :: ((genExpr slot l true (genExpr slot r false g).2.inc).1 ++
      [.ins (.pop .rbx), .ins (.mov rbx (.mem { base := .rax }))])))
      (siteAt sc (sitesE r [] []) ++ siteAt sc (sitesE l [] [.value r.ty])) ∧
    (genExpr slot l true (genExpr slot r false g).2.inc).2.dec.gc = g.gc := by
  obtain ⟨h1, h2⟩ := genExpr_calls h.bound slot r false h.inv (by rw [h.top]; exact hr)
  rw [h.top] at h1
  have hs := genExpr_state slot r false g
  have hi : Inv F g.gc.roots ([] ++ [.value r.ty]) (genExpr slot r false g).2.inc := (h.inv.congr hs.1 h2).inc (fun _ => rfl)
  have ht : (genExpr slot r false g).2.inc.top = [] := by rw [← h.top]; simp only [GS.top, GS.inc, hs.2]
  obtain ⟨h3, h4⟩ := genExpr_calls h.bound slot l true hi (by rw [ht]; exact hl)
  rw [ht] at h3
  refine ⟨?_, h4.trans h2⟩
  rw [← siteAt_append]
  refine Calls.st hP (h1.append (.consPush (h3.appendEnd ?_)))
  exact .consPop (s := []) (.still1 rfl _)

end

theorem genStmt_asg_gc (slot : Nat → Nat) (skip decl : Bool) (l r : Expr) (g : GS)
    (h : (genExpr slot l true (genExpr slot r false g).2.inc).2.dec.gc = g.gc) :
    (genStmt slot skip (.asg decl l r) g).2.gc = (match decl, l with | true, .var x t => g.gc.add (8 * slot x) t | _, _ => g.gc) := by
  rw [genStmt.eq_def]
  simp only
  cases decl
  · exact h
  · cases l <;> first | exact h | (simp only [if_true]; rw [h])

/-! ### Every variable in scope is a root -/

def Covers (slot : Nat → Nat) (sc V : List (Nat × TyR)) : Prop :=
  ∀ p ∈ sc, p.2.kind.isPointer = true → (8 * slot p.1, p.2) ∈ V

theorem Covers.mono {slot : Nat → Nat} {sc V V' : List (Nat × TyR)} (h : Covers slot sc V) (hv : V <+: V') : Covers slot sc V' :=
  fun p hp hk => hv.subset (h p hp hk)

/-- Roots only grow, and the last scope starts within the roots. -/
structure Grow (g g' : GcS) : Prop where
  pre : g.roots <+: g'.roots
  low : g.scopes.getLastD 0 ≤ g'.scopes.getLastD 0
  high : g'.scopes.getLastD 0 ≤ g'.roots.length

theorem Grow.trans {a b c : GcS} (h : Grow a b) (h' : Grow b c) : Grow a c :=
  ⟨h.pre.trans h'.pre, Nat.le_trans h.low h'.low, h'.high⟩

theorem Grow.refl {a : GcS} (h : a.scopes.getLastD 0 ≤ a.roots.length) : Grow a a := ⟨List.prefix_refl _, Nat.le_refl _, h⟩

theorem Grow.add {a : GcS} (h : a.scopes.getLastD 0 ≤ a.roots.length) (off : Nat) (t : TyR) : Grow a (a.add off t) := by
  unfold GcS.add
  split
  · exact ⟨List.prefix_append _ _, Nat.le_refl _, by simp only [List.length_append, List.length_singleton]; omega⟩
  · exact .refl h

theorem Grow.scope {a b : GcS} (h : a.scopes.getLastD 0 ≤ a.roots.length) (hg : Grow a.openScope b) : Grow a b.closeScope := by
  have hl : a.roots.length ≤ b.scopes.getLastD 0 := by
    have := hg.low
    simpa [GcS.openScope] using this
  have hp : a.roots <+: b.roots := hg.pre
  refine ⟨?_, ?_, ?_⟩
  · simp only [GcS.closeScope]
    exact List.prefix_take_iff.2 ⟨hp, hl⟩
  · simp only [GcS.closeScope]; omega
  · simp only [GcS.closeScope, List.length_take]
    have := hg.high
    omega

mutual
theorem genStmt_covers {F : Nat} {slot : Nat → Nat} (skip : Bool) (s : Stmt) {g : GS} {sc : List (Nat × TyR)} (h : Rest F g)
    (hok : s.direct = true) (hv : ∀ x ∈ s.vars, slot x ≤ F) (hc : Covers slot sc g.gc.roots) (hl : g.gc.scopes.getLastD 0 ≤ g.gc.roots.length) :
    StCalls (Covers slot) F (genStmt slot skip s g).1 (sitesS sc s) ∧ Grow g.gc (genStmt slot skip s g).2.gc ∧
    Rest F (genStmt slot skip s g).2 ∧ Covers slot (s.scope sc) (genStmt slot skip s g).2.gc.roots := by
  match s with
  | .ret none =>
    simp only [genStmt, genReturn, sitesS]
    exact ⟨genFnExit_st _, .refl hl, h, hc⟩
  | .ret (some e) =>
    simp only [Stmt.direct] at hok
    obtain ⟨h1, h2⟩ := genExpr_st (slot := slot) (b := false) h hok hc
    have hs := genExpr_state slot e false g
    simp only [genStmt, genReturn, sitesS]
    refine ⟨h1.appendEnd (genFnExit_st _), by rw [h2]; exact .refl hl, h.same hs (by rw [h2]; exact h.bound), by rw [h2]; exact hc⟩
  | .ifs c =>
    simp only [Stmt.direct] at hok
    obtain ⟨h1, h2, h3⟩ := genChain_covers skip (.loc "if_end" g.lbl) c (g := { g with lbl := g.lbl + 1 }) (sc := sc) ⟨h.sp, h.top, h.bound⟩ hok hv hc hl
    simp only [genStmt, sitesS]
    exact ⟨.cons rfl (h1.appendEnd (.still rfl)), h2, h3, hc.mono h2.pre⟩
  | .asg decl l r =>
    simp only [Stmt.direct, Bool.and_eq_true] at hok
    obtain ⟨h1, h2⟩ := asg_st (slot := slot) (l := l) (r := r) h hok.1 hok.2 hc
    have hs : Same g (genStmt slot skip (.asg decl l r) g).2 := genStmt_state slot skip _ g
    have hgc := genStmt_asg_gc slot skip decl l r g h2
    refine ⟨?_, ?_, ?_, ?_⟩
    · rw [genStmt.eq_def]; simp only [sitesS]; exact h1
    · rw [hgc]
      split
      · exact .add hl _ _
      · exact .refl hl
    · refine h.same hs ?_
      rw [hgc]
      split
      · rename_i x t
        unfold GcS.add
        split
        · intro p hp
          simp only [List.mem_append, List.mem_singleton] at hp
          rcases hp with hp | rfl
          · exact h.bound p hp
          · have := hv _ (by simp only [Stmt.vars, Expr.vars, List.mem_append, List.mem_singleton]; exact .inl rfl)
            simp only; omega
        · exact h.bound
      · exact h.bound
    · rw [hgc]
      unfold Stmt.scope
      split
      · rename_i x t r heq
        cases heq
        simp only
        intro p hp hk
        unfold GcS.add
        rw [List.mem_append, List.mem_singleton] at hp
        rcases hp with hp | rfl
        · have := hc p hp hk
          split
          · exact List.mem_append_left _ this
          · exact this
        · rw [if_pos hk]
          simp
      · rename_i hne
        split
        · exact absurd rfl (hne _ _ _)
        · exact hc
  | .loop c body =>
    simp only [Stmt.direct, Bool.and_eq_true] at hok
    obtain ⟨h1, h2⟩ := genExpr_st (slot := slot) (b := false) (e := c) (g := { g with lbl := g.lbl + 2 }) ⟨h.sp, h.top, h.bound⟩ hok.1 hc
    have hs := genExpr_state slot c false { g with lbl := g.lbl + 2 }
    have hgc : (genExpr slot c false { g with lbl := g.lbl + 2 }).2.gc = g.gc := h2
    have hr : Rest F (genExpr slot c false { g with lbl := g.lbl + 2 }).2 := h.same hs (by rw [hgc]; exact h.bound)
    obtain ⟨b1, b2, b3⟩ := genStmts_covers skip body (sc := sc) hr hok.2 (fun x hx => hv x (by simp [Stmt.vars, hx])) (by rw [hgc]; exact hc)
      (by rw [hgc]; exact hl)
    rw [hgc] at b2
    simp only [genStmt, sitesS]
    refine ⟨.cons rfl (.cons rfl (.cons rfl (h1.append (.cons rfl (.cons rfl (b1.appendEnd (.still rfl))))))), b2, b3, hc.mono b2.pre⟩
  | .block body =>
    simp only [Stmt.direct] at hok
    obtain ⟨b1, b2, b3⟩ := genStmts_covers skip body (sc := sc) h hok hv hc hl
    simp only [genStmt, sitesS]
    exact ⟨b1, b2, b3, hc.mono b2.pre⟩
  | .expr e =>
    simp only [Stmt.direct] at hok
    obtain ⟨h1, h2⟩ := genExpr_st (slot := slot) (b := false) h hok hc
    have hs := genExpr_state slot e false g
    simp only [genStmt, sitesS]
    exact ⟨h1, by rw [h2]; exact .refl hl, h.same hs (by rw [h2]; exact h.bound), by rw [h2]; exact hc⟩
termination_by (sizeOf s, 0)

theorem genChain_covers {F : Nat} {slot : Nat → Nat} (skip : Bool) (exit : Label) (c : Chain) {g : GS} {sc : List (Nat × TyR)} (h : Rest F g)
    (hok : c.direct = true) (hv : ∀ x ∈ c.vars, slot x ≤ F) (hc : Covers slot sc g.gc.roots) (hl : g.gc.scopes.getLastD 0 ≤ g.gc.roots.length) :
    StCalls (Covers slot) F (genChain slot skip exit c g).1 (sitesC sc c) ∧ Grow g.gc (genChain slot skip exit c g).2.gc ∧
    Rest F (genChain slot skip exit c g).2 := by
  match c with
  | .done =>
    simp only [genChain, sitesC]
    exact ⟨.nil, .refl hl, h⟩
  | .els body =>
    simp only [Chain.direct] at hok
    simp only [genChain, sitesC]
    exact genStmts_covers skip body h hok hv hc hl
  | .cond c body next =>
    simp only [Chain.direct, Bool.and_eq_true] at hok
    obtain ⟨h1, h2⟩ := genExpr_st (slot := slot) (b := false) (e := c) h hok.1 hc
    have hs := genExpr_state slot c false g
    let g1 : GS := { (genExpr slot c false g).2 with lbl := (genExpr slot c false g).2.lbl + 1 }
    have hg1 : g1.gc = g.gc := h2
    have hr : Rest F g1 := h.same hs (by rw [hg1]; exact h.bound)
    obtain ⟨b1, b2, b3⟩ := genStmts_covers skip body (sc := sc) hr hok.2.1 (fun x hx => hv x (by simp [Chain.vars, hx])) (by rw [hg1]; exact hc)
      (by rw [hg1]; exact hl)
    rw [hg1] at b2
    obtain ⟨d1, d2, d3⟩ := genChain_covers skip exit next b3 hok.2.2 (fun x hx => hv x (by simp [Chain.vars, hx])) (hc.mono b2.pre) b2.high
    simp only [genChain, sitesC]
    exact ⟨h1.append (.cons rfl (.cons rfl (.cons rfl (b1.append (.cons rfl (.cons rfl d1)))))), b2.trans d2, d3⟩
termination_by (sizeOf c, 0)

theorem genStmts_covers {F : Nat} {slot : Nat → Nat} (skip : Bool) (ss : Stmts) {g : GS} {sc : List (Nat × TyR)} (h : Rest F g)
    (hok : ss.direct = true) (hv : ∀ x ∈ ss.vars, slot x ≤ F) (hc : Covers slot sc g.gc.roots) (hl : g.gc.scopes.getLastD 0 ≤ g.gc.roots.length) :
    StCalls (Covers slot) F (genStmts slot skip ss g).1 (sitesB sc ss) ∧ Grow g.gc (genStmts slot skip ss g).2.gc ∧
    Rest F (genStmts slot skip ss g).2 := by
  rw [genStmts]
  obtain ⟨h1, h2, h3⟩ := genStmtsGo_covers skip ss (g := { g with gc := g.gc.openScope }) (sc := sc) ⟨h.sp, h.top, h.bound⟩ hok hv hc
    (by simp [GcS.openScope])
  refine ⟨h1, .scope hl h2, h3.sp, h3.top, ?_⟩
  intro p hp
  exact h3.bound p (List.mem_of_mem_take hp)
termination_by (sizeOf ss, 1)

theorem genStmtsGo_covers {F : Nat} {slot : Nat → Nat} (skip : Bool) (ss : Stmts) {g : GS} {sc : List (Nat × TyR)} (h : Rest F g)
    (hok : ss.direct = true) (hv : ∀ x ∈ ss.vars, slot x ≤ F) (hc : Covers slot sc g.gc.roots) (hl : g.gc.scopes.getLastD 0 ≤ g.gc.roots.length) :
    StCalls (Covers slot) F (genStmtsGo slot skip ss g).1 (sitesB sc ss) ∧ Grow g.gc (genStmtsGo slot skip ss g).2.gc ∧
    Rest F (genStmtsGo slot skip ss g).2 := by
  match ss with
  | .nil =>
    simp only [genStmtsGo, sitesB]
    exact ⟨.nil, .refl hl, h⟩
  | .cons s ss =>
    simp only [Stmts.direct, Bool.and_eq_true] at hok
    obtain ⟨a1, a2, a3, a4⟩ := genStmt_covers skip s h hok.1 (fun x hx => hv x (by simp [Stmts.vars, hx])) hc hl
    obtain ⟨b1, b2, b3⟩ := genStmtsGo_covers skip ss a3 hok.2 (fun x hx => hv x (by simp [Stmts.vars, hx])) a4 a2.high
    simp only [genStmtsGo, sitesB]
    exact ⟨a1.append b1, a2.trans b2, b3⟩
termination_by (sizeOf ss, 0)
end

/-! ### When nothing else is a root -/

def Exact (slot : Nat → Nat) (sc V : List (Nat × TyR)) : Prop :=
  V = (sc.filter (fun p => p.2.kind.isPointer)).map (fun p => (8 * slot p.1, p.2))

mutual
theorem genStmt_exact {F : Nat} {slot : Nat → Nat} (skip : Bool) (s : Stmt) {g : GS} {sc : List (Nat × TyR)} (h : Rest F g)
    (hok : s.direct = true) (hn : s.neat = true) (hv : ∀ x ∈ s.vars, slot x ≤ F) (hc : Exact slot sc g.gc.roots) :
    StCalls (Exact slot) F (genStmt slot skip s g).1 (sitesS sc s) ∧ Rest F (genStmt slot skip s g).2 ∧
    Exact slot (s.scope sc) (genStmt slot skip s g).2.gc.roots ∧
    g.gc.roots <+: (genStmt slot skip s g).2.gc.roots ∧
    (s.declares = false → (genStmt slot skip s g).2.gc.roots = g.gc.roots) ∧
    ((genStmt slot skip s g).2.gc.scopes.getLastD 0 = g.gc.scopes.getLastD 0 ∨
      s.flat = false ∧ (genStmt slot skip s g).2.gc.scopes.getLastD 0 = g.gc.roots.length) := by
  match s with
  | .ret none =>
    simp only [genStmt, genReturn, sitesS]
    exact ⟨genFnExit_st _, h, hc, List.prefix_refl _, fun _ => trivial, .inl trivial⟩
  | .ret (some e) =>
    simp only [Stmt.direct] at hok
    obtain ⟨h1, h2⟩ := genExpr_st (slot := slot) (b := false) h hok hc
    have hs := genExpr_state slot e false g
    simp only [genStmt, genReturn, sitesS, h2]
    exact ⟨h1.appendEnd (genFnExit_st _), h.same hs (by rw [h2]; exact h.bound), hc, List.prefix_refl _, fun _ => trivial, .inl trivial⟩
  | .ifs c =>
    simp only [Stmt.direct] at hok
    simp only [Stmt.neat] at hn
    obtain ⟨h1, h2, h3, h4⟩ := genChain_exact skip (.loc "if_end" g.lbl) c (g := { g with lbl := g.lbl + 1 }) (sc := sc) ⟨h.sp, h.top, h.bound⟩ hok hn hv hc
    simp only [genStmt, sitesS]
    refine ⟨.cons rfl (h1.appendEnd (.still rfl)), h2, ?_, ?_, fun _ => h3, ?_⟩
    · rw [h3]; exact hc
    · rw [h3]; exact List.prefix_refl _
    · rcases h4 with h4 | h4
      · exact .inl h4
      · exact .inr ⟨rfl, h4⟩
  | .asg decl l r =>
    simp only [Stmt.direct, Bool.and_eq_true] at hok
    obtain ⟨h1, h2⟩ := asg_st (slot := slot) (l := l) (r := r) h hok.1 hok.2 hc
    have hs : Same g (genStmt slot skip (.asg decl l r) g).2 := genStmt_state slot skip _ g
    have hgc := genStmt_asg_gc slot skip decl l r g h2
    refine ⟨?_, h.same hs ?_, ?_, ?_, ?_, ?_⟩
    · rw [genStmt.eq_def]; simp only [sitesS]; exact h1
    · rw [hgc]
      split
      · rename_i x t
        unfold GcS.add
        split
        · intro p hp
          simp only [List.mem_append, List.mem_singleton] at hp
          rcases hp with hp | rfl
          · exact h.bound p hp
          · have := hv _ (by simp only [Stmt.vars, Expr.vars, List.mem_append, List.mem_singleton]; exact .inl rfl)
            simp only; omega
        · exact h.bound
      · exact h.bound
    · rw [hgc]
      unfold Stmt.scope
      split
      · rename_i x t r heq
        cases heq
        simp only
        unfold GcS.add Exact
        split
        · rename_i hk
          rw [List.filter_append, List.map_append, ← hc]
          simp [hk]
        · rename_i hk
          rw [List.filter_append, List.map_append, ← hc]
          simp [hk]
      · rename_i hne
        split
        · exact absurd rfl (hne _ _ _)
        · exact hc
    · rw [hgc]
      split
      · unfold GcS.add
        split
        · exact List.prefix_append _ _
        · exact List.prefix_refl _
      · exact List.prefix_refl _
    · intro hd
      rw [hgc]
      split
      · unfold GcS.add
        simp only [Stmt.declares] at hd
        simp [hd]
      · rfl
    · rw [hgc]
      left
      split
      · unfold GcS.add
        split <;> rfl
      · rfl
  | .loop c body =>
    simp only [Stmt.direct, Bool.and_eq_true] at hok
    simp only [Stmt.neat] at hn
    obtain ⟨h1, h2⟩ := genExpr_st (slot := slot) (b := false) (e := c) (g := { g with lbl := g.lbl + 2 }) ⟨h.sp, h.top, h.bound⟩ hok.1 hc
    have hs := genExpr_state slot c false { g with lbl := g.lbl + 2 }
    have hgc : (genExpr slot c false { g with lbl := g.lbl + 2 }).2.gc = g.gc := h2
    have hr : Rest F (genExpr slot c false { g with lbl := g.lbl + 2 }).2 := h.same hs (by rw [hgc]; exact h.bound)
    obtain ⟨b1, b2, b3, b4⟩ := genStmts_exact skip body (sc := sc) hr hok.2 hn (fun x hx => hv x (by simp [Stmt.vars, hx])) (by rw [hgc]; exact hc)
    rw [hgc] at b3 b4
    simp only [genStmt, sitesS]
    refine ⟨.cons rfl (.cons rfl (.cons rfl (h1.append (.cons rfl (.cons rfl (b1.appendEnd (.still rfl))))))), b2, ?_, ?_, fun _ => b3, .inr ⟨rfl, b4⟩⟩
    · rw [b3]; exact hc
    · rw [b3]; exact List.prefix_refl _
  | .block body =>
    simp only [Stmt.direct] at hok
    simp only [Stmt.neat] at hn
    obtain ⟨b1, b2, b3, b4⟩ := genStmts_exact skip body (sc := sc) h hok hn hv hc
    simp only [genStmt, sitesS]
    refine ⟨b1, b2, ?_, ?_, fun _ => b3, .inr ⟨rfl, b4⟩⟩
    · rw [b3]; exact hc
    · rw [b3]; exact List.prefix_refl _
  | .expr e =>
    simp only [Stmt.direct] at hok
    obtain ⟨h1, h2⟩ := genExpr_st (slot := slot) (b := false) h hok hc
    have hs := genExpr_state slot e false g
    simp only [genStmt, sitesS, h2]
    exact ⟨h1, h.same hs (by rw [h2]; exact h.bound), hc, List.prefix_refl _, fun _ => trivial, .inl trivial⟩
termination_by (sizeOf s, 0)

theorem genChain_exact {F : Nat} {slot : Nat → Nat} (skip : Bool) (exit : Label) (c : Chain) {g : GS} {sc : List (Nat × TyR)} (h : Rest F g)
    (hok : c.direct = true) (hn : c.neat = true) (hv : ∀ x ∈ c.vars, slot x ≤ F) (hc : Exact slot sc g.gc.roots) :
    StCalls (Exact slot) F (genChain slot skip exit c g).1 (sitesC sc c) ∧ Rest F (genChain slot skip exit c g).2 ∧
    (genChain slot skip exit c g).2.gc.roots = g.gc.roots ∧
    ((genChain slot skip exit c g).2.gc.scopes.getLastD 0 = g.gc.scopes.getLastD 0 ∨
      (genChain slot skip exit c g).2.gc.scopes.getLastD 0 = g.gc.roots.length) := by
  match c with
  | .done =>
    simp only [genChain, sitesC]
    exact ⟨.nil, h, trivial, .inl trivial⟩
  | .els body =>
    simp only [Chain.direct] at hok
    simp only [Chain.neat] at hn
    simp only [genChain, sitesC]
    obtain ⟨b1, b2, b3, b4⟩ := genStmts_exact skip body h hok hn hv hc
    exact ⟨b1, b2, b3, .inr b4⟩
  | .cond c body next =>
    simp only [Chain.direct, Bool.and_eq_true] at hok
    simp only [Chain.neat, Bool.and_eq_true] at hn
    obtain ⟨h1, h2⟩ := genExpr_st (slot := slot) (b := false) (e := c) h hok.1 hc
    have hs := genExpr_state slot c false g
    let g1 : GS := { (genExpr slot c false g).2 with lbl := (genExpr slot c false g).2.lbl + 1 }
    have hg1 : g1.gc = g.gc := h2
    have hr : Rest F g1 := h.same hs (by rw [hg1]; exact h.bound)
    obtain ⟨b1, b2, b3, b4⟩ := genStmts_exact skip body (sc := sc) hr hok.2.1 hn.1 (fun x hx => hv x (by simp [Chain.vars, hx])) (by rw [hg1]; exact hc)
    rw [hg1] at b3 b4
    obtain ⟨d1, d2, d3, d4⟩ := genChain_exact skip exit next b2 hok.2.2 hn.2 (fun x hx => hv x (by simp [Chain.vars, hx])) (by rw [b3]; exact hc)
    simp only [genChain, sitesC]
    refine ⟨h1.append (.cons rfl (.cons rfl (.cons rfl (b1.append (.cons rfl (.cons rfl d1)))))), d2, d3.trans b3, .inr ?_⟩
    rcases d4 with d4 | d4
    · exact d4.trans b4
    · exact d4.trans (congrArg List.length b3)
termination_by (sizeOf c, 0)

theorem genStmts_exact {F : Nat} {slot : Nat → Nat} (skip : Bool) (ss : Stmts) {g : GS} {sc : List (Nat × TyR)} (h : Rest F g)
    (hok : ss.direct = true) (hn : ss.neat false = true) (hv : ∀ x ∈ ss.vars, slot x ≤ F) (hc : Exact slot sc g.gc.roots) :
    StCalls (Exact slot) F (genStmts slot skip ss g).1 (sitesB sc ss) ∧ Rest F (genStmts slot skip ss g).2 ∧
    (genStmts slot skip ss g).2.gc.roots = g.gc.roots ∧
    (genStmts slot skip ss g).2.gc.scopes.getLastD 0 = g.gc.roots.length := by
  rw [genStmts]
  obtain ⟨h1, h2, h3, h4⟩ := genStmtsGo_exact skip ss (g := { g with gc := g.gc.openScope }) (sc := sc) false g.gc.roots.length ⟨h.sp, h.top, h.bound⟩
    hok hn hv hc (by simp [GcS.openScope]) (fun _ => rfl)
  have hr : (genStmtsGo slot skip ss { g with gc := g.gc.openScope }).2.gc.closeScope.roots = g.gc.roots := by
    simp only [GcS.closeScope, h4]
    obtain ⟨t, ht⟩ := h3
    rw [← ht]
    simp [GcS.openScope]
  refine ⟨h1, ⟨h2.sp, h2.top, ?_⟩, hr, h4⟩
  intro p hp
  exact h2.bound p (List.mem_of_mem_take hp)
termination_by (sizeOf ss, 1)

/-- `n` is the number of roots when the list was entered. -/
theorem genStmtsGo_exact {F : Nat} {slot : Nat → Nat} (skip : Bool) (ss : Stmts) {g : GS} {sc : List (Nat × TyR)} (d : Bool) (n : Nat) (h : Rest F g)
    (hok : ss.direct = true) (hn : ss.neat d = true) (hv : ∀ x ∈ ss.vars, slot x ≤ F) (hc : Exact slot sc g.gc.roots)
    (hl : g.gc.scopes.getLastD 0 = n) (hd : d = false → g.gc.roots.length = n) :
    StCalls (Exact slot) F (genStmtsGo slot skip ss g).1 (sitesB sc ss) ∧ Rest F (genStmtsGo slot skip ss g).2 ∧
    g.gc.roots <+: (genStmtsGo slot skip ss g).2.gc.roots ∧ (genStmtsGo slot skip ss g).2.gc.scopes.getLastD 0 = n := by
  match ss with
  | .nil =>
    simp only [genStmtsGo, sitesB]
    exact ⟨.nil, h, List.prefix_refl _, hl⟩
  | .cons s ss =>
    simp only [Stmts.direct, Bool.and_eq_true] at hok
    simp only [Stmts.neat, Bool.and_eq_true, Bool.or_eq_true, Bool.not_eq_true'] at hn
    obtain ⟨a1, a2, a3, a4, a5, a6⟩ := genStmt_exact skip s h hok.1 hn.1 (fun x hx => hv x (by simp [Stmts.vars, hx])) hc
    have hl' : (genStmt slot skip s g).2.gc.scopes.getLastD 0 = n := by
      rcases a6 with a6 | ⟨a6, a7⟩
      · rw [a6, hl]
      · rw [a7]
        rcases hn.2.1 with k | k
        · exact hd k
        · rw [a6] at k; cases k
    obtain ⟨b1, b2, b3, b4⟩ := genStmtsGo_exact skip ss (d || s.declares) n a2 hok.2 hn.2.2 (fun x hx => hv x (by simp [Stmts.vars, hx])) a3 hl'
      (by
        intro k
        rw [Bool.or_eq_false_iff] at k
        rw [a5 k.2]
        exact hd k.1)
    simp only [genStmtsGo, sitesB]
    exact ⟨a1.append b1, b2, a4.trans b3, b4⟩
termination_by (sizeOf ss, 0)
end

/-- The outermost list may declare variables anywhere. -/
theorem genStmtsGo_inner {F : Nat} {slot : Nat → Nat} (skip : Bool) (ss : Stmts) {g : GS} {sc : List (Nat × TyR)} (h : Rest F g)
    (hok : ss.direct = true) (hn : ss.inner = true) (hv : ∀ x ∈ ss.vars, slot x ≤ F) (hc : Exact slot sc g.gc.roots) :
    StCalls (Exact slot) F (genStmtsGo slot skip ss g).1 (sitesB sc ss) := by
  match ss with
  | .nil =>
    simp only [genStmtsGo, sitesB]
    exact .nil
  | .cons s ss =>
    simp only [Stmts.direct, Bool.and_eq_true] at hok
    simp only [Stmts.inner, Bool.and_eq_true] at hn
    obtain ⟨a1, a2, a3, -, -, -⟩ := genStmt_exact skip s h hok.1 hn.1 (fun x hx => hv x (by simp [Stmts.vars, hx])) hc
    simp only [genStmtsGo, sitesB]
    exact a1.append (genStmtsGo_inner skip ss a2 hok.2 hn.2 (fun x hx => hv x (by simp [Stmts.vars, hx])) a3)

/-! ### Functions -/

def paramRoots : Nat → List (Nat × TyR) → List (Nat × TyR)
  | _, [] => []
  | i, (_, t) :: ps => (if t.kind.isPointer then [(8 * (i + 1), t)] else []) ++ paramRoots (i + 1) ps

theorem genParams_gc (ps : List (Nat × TyR)) (i : Nat) (gc : GcS) :
    (genParams ps i gc).2 = { gc with roots := gc.roots ++ paramRoots i ps } := by
  induction ps generalizing i gc with
  | nil => simp [genParams, paramRoots]
  | cons p ps ih =>
    obtain ⟨x, t⟩ := p
    simp only [genParams, paramRoots, ih, GcS.add]
    split <;> simp

theorem genParams_still (ps : List (Nat × TyR)) (i : Nat) (gc : GcS) : (genParams ps i gc).1.all Ev.still = true := by
  induction ps generalizing i gc with
  | nil => rfl
  | cons p ps ih =>
    obtain ⟨x, t⟩ := p
    simp only [genParams, List.all_cons, ih, Bool.and_true]
    split
    · exact slotIns_still _ rfl
    · rfl

theorem paramRoots_exact {slot : Nat → Nat} (ps : List (Nat × TyR)) (i : Nat)
    (h : ∀ (j : Nat) (p : Nat × TyR), ps[j]? = some p → slot p.1 = i + j + 1) : Exact slot ps (paramRoots i ps) := by
  induction ps generalizing i with
  | nil => rfl
  | cons p ps ih =>
    obtain ⟨x, t⟩ := p
    have h0 := h 0 _ rfl
    have := ih (i + 1) (fun j p hp => by have := h (j + 1) p hp; omega)
    unfold Exact at *
    simp only [paramRoots, List.filter_cons]
    split
    · rw [List.map_cons, ← this]
      simp only at h0
      simp [h0]
    · rw [← this]; rfl

theorem paramRoots_le (ps : List (Nat × TyR)) (i : Nat) : ∀ p ∈ paramRoots i ps, p.1 ≤ 8 * (i + ps.length) := by
  induction ps generalizing i with
  | nil => intro p hp; cases hp
  | cons q ps ih =>
    obtain ⟨x, t⟩ := q
    intro p hp
    simp only [paramRoots, List.mem_append, List.length_cons] at hp ⊢
    rcases hp with hp | hp
    · split at hp
      · rw [List.mem_singleton] at hp; rw [hp]; simp only; omega
      · cases hp
    · have := ih (i + 1) p hp; omega

theorem param_slot {fd : FnDef} (hnd : (fd.params.map (·.1)).Nodup) {j : Nat} {p : Nat × TyR} (h : fd.params[j]? = some p) :
    fd.slot p.1 = j + 1 := by
  obtain ⟨t, ht⟩ := addNew_pre (fd.params.map (·.1)) fd.body.vars
  have hj : (fd.params.map (·.1))[j]? = some p.1 := by simp [h]
  simp only [FnDef.slot, FnDef.syms, ht]
  obtain ⟨hlt, hge⟩ := List.getElem?_eq_some_iff.1 hj
  rw [List.idxOf_append, if_pos (List.mem_of_getElem? hj), ← hge, hnd.idxOf_getElem]

theorem Exact.covers {slot : Nat → Nat} {sc V : List (Nat × TyR)} (h : Exact slot sc V) : Covers slot sc V := by
  intro p hp hk
  rw [h]
  exact List.mem_map.2 ⟨p, List.mem_filter.2 ⟨hp, hk⟩, rfl⟩

theorem genFields_still (n i off : Nat) : (genFields n i off).all Ev.still = true := by
  induction n generalizing i off with
  | zero => rfl
  | succ n ih => simp only [genFields, List.all_cons, ih]; rfl

/-- The state after the parameters are stored. -/
def FnDef.start (fd : FnDef) (lbl : Nat) : GS := { lbl := lbl, sp := fd.frame, gc := (genParams fd.params 0 {}).2 }

theorem start_rest (fd : FnDef) (lbl : Nat) : Rest fd.frame (fd.start lbl) :=
  ⟨rfl, rfl, by
    intro p hp
    simp only [FnDef.start, genParams_gc, List.nil_append] at hp
    have := paramRoots_le _ _ p hp
    have := frame_params fd
    omega⟩

theorem start_exact {fd : FnDef} (hnd : (fd.params.map (·.1)).Nodup) (lbl : Nat) : Exact fd.slot fd.params (fd.start lbl).gc.roots := by
  simp only [FnDef.start, genParams_gc, List.nil_append]
  exact paramRoots_exact _ _ (fun j p hp => by rw [param_slot hnd hp]; omega)

theorem inner_eq (alloc : String) (fd : FnDef) (lbl : Nat) :
    fd.inner alloc lbl = (genParams fd.params 0 {}).1 ++ ((match fd.body with
      | .cons tag desc id => genCons alloc fd.params.length tag desc id (fd.start lbl)
      | .block ss => (genStmts fd.slot fd.skip ss (fd.start lbl)).1 ++ (if fd.retNothing && !ss.retLast then genFnExit fd.skip else [])
      | .expr e => (genReturn fd.slot fd.skip (some e) (fd.start lbl)).1) ++ [.flush]) := by
  unfold FnDef.inner genFunc
  simp only [List.drop_succ_cons, List.drop_zero]
  congr 2
  cases fd.body <;> rfl

theorem fn_st {P : List (Nat × TyR) → List (Nat × TyR) → Prop} (alloc : String) {fd : FnDef} (lbl : Nat) (hok : fd.body.direct = true)
    (hP : P fd.params (fd.start lbl).gc.roots)
    (hss : ∀ ss, fd.body = .block ss → StCalls P fd.frame (genStmts fd.slot fd.skip ss (fd.start lbl)).1 (sitesB fd.params ss)) :
    StCalls P fd.frame (fd.inner alloc lbl) fd.sites := by
  rw [inner_eq, FnDef.sites]
  refine (StCalls.still (genParams_still _ _ _)).append (StCalls.appendEnd ?_ (.still rfl))
  cases hb : fd.body with
  | block ss =>
    simp only
    refine (hss ss hb).appendEnd ?_
    split
    · exact genFnExit_st _
    · exact .nil
  | expr e =>
    rw [hb, Body.direct] at hok
    simp only [genReturn]
    exact (genExpr_st (start_rest fd lbl) hok hP).1.appendEnd (genFnExit_st _)
  | cons tag desc id =>
    simp only [genCons]
    have hs : StCalls P fd.frame [gcMap (fd.start lbl)] [⟨fd.params, []⟩] :=
      Calls.st hP (.site (ts := []) (by simp [mapOf, rootedFrom]) (List.prefix_refl _))
    refine .cons rfl (.cons rfl (.cons rfl (.cons rfl (.cons rfl (hs.append (S' := []) ?_)))))
    refine StCalls.appendEnd (.still ?_) (genFnExit_st _)
    cases tag with
    | none => exact genFields_still _ _ _
    | some t => exact genFields_still _ _ _

theorem fn_covers (alloc : String) {fd : FnDef} (lbl : Nat) (hok : fd.body.direct = true) (hnd : (fd.params.map (·.1)).Nodup) :
    StCalls (Covers fd.slot) fd.frame (fd.inner alloc lbl) fd.sites := by
  refine fn_st alloc lbl hok (start_exact hnd lbl).covers ?_
  intro ss hb
  refine (genStmts_covers fd.skip ss (start_rest fd lbl) (by rw [hb] at hok; exact hok) ?_ (start_exact hnd lbl).covers ?_).1
  · intro x hx
    exact (frame_slot x (by rw [hb]; exact hx)).2
  · simp [FnDef.start, genParams_gc]

theorem fn_exact (alloc : String) {fd : FnDef} (lbl : Nat) (hok : fd.body.direct = true) (hnd : (fd.params.map (·.1)).Nodup) (hn : fd.body.neat = true) :
    StCalls (Exact fd.slot) fd.frame (fd.inner alloc lbl) fd.sites := by
  refine fn_st alloc lbl hok (start_exact hnd lbl) ?_
  intro ss hb
  rw [genStmts]
  have hr := start_rest fd lbl
  refine genStmtsGo_inner fd.skip ss (g := { fd.start lbl with gc := (fd.start lbl).gc.openScope }) ⟨hr.sp, hr.top, hr.bound⟩
    (by rw [hb] at hok; exact hok) (by rw [hb] at hn; exact hn) ?_ (start_exact hnd lbl)
  intro x hx
  exact (frame_slot x (by rw [hb]; exact hx)).2

end Clara.Gen
