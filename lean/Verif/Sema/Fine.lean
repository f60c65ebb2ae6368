import Verif.Sema.Lower
set_option linter.unusedVariables false
set_option linter.unusedSimpArgs false
/-
The programs for which lowering is shown to keep the meaning, and lemmas about the target language.
-/
namespace Clara.Sema
open Clara.Gen

variable {σ : Type} {P : Prog σ}

/-! ### Variables that statements assign -/

def lhs : Expr → List Nat
  | .var x _ => [x]
  | _ => []

mutual
def _root_.Clara.Gen.Stmt.writes : Stmt → List Nat
  | .ret _ | .expr _ => []
  | .ifs c => c.writes
  | .asg _ l _ => lhs l
  | .loop _ b => b.writes
  | .block b => b.writes
def _root_.Clara.Gen.Chain.writes : Chain → List Nat
  | .done => []
  | .els b => b.writes
  | .cond _ b n => b.writes ++ n.writes
def _root_.Clara.Gen.Stmts.writes : Stmts → List Nat
  | .nil => []
  | .cons s ss => s.writes ++ ss.writes
end

mutual
def SS.writes : SS → List Nat
  | .ret _ | .expr _ => []
  | .ifs c => c.writes
  | .asg _ l _ => lhs l
  | .loop _ b => b.writes
  | .forR x _ _ _ b => x :: b.writes
  | .forA x _ _ b => x :: b.writes
  | .match_ _ cs => cs.writes
def SCh.writes : SCh → List Nat
  | .done => []
  | .els b => b.writes
  | .cond _ b n => b.writes ++ n.writes
def SSs.writes : SSs → List Nat
  | .nil => []
  | .cons s ss => s.writes ++ ss.writes
def SCs.writes : SCs → List Nat
  | .nil => []
  | .cons _ vars b n => vars.map (·.1) ++ (b.writes ++ n.writes)
end

/-! ### Programs considered -/

/-- The end of a range that does not change during the loop: a literal, or a variable that the loop
does not assign. -/
def StableEnd (w : List Nat) : Expr → Prop
  | .int _ => True
  | .var h _ => h ∉ w
  | _ => False

/-- The array of a loop: a literal, or a variable that the loop does not assign. -/
def StableArr (w : List Nat) : Expr → Prop
  | .arrLit _ _ => True
  | .var h _ => h ∉ w
  | _ => False

/-- The expression uses variables in scope. -/
def Scoped (A : Nat → Prop) (e : Expr) : Prop := ∀ y ∈ e.vars, A y

mutual
/-- `A`: the variables in scope.  A loop variable is in scope in its loop only, and the variable of a
range loop is not assigned in it; the end of the range and the array do not change.  All numbers
are below `N`. -/
def SS.Fine (N : Nat) (A : Nat → Prop) : SS → Prop
  | .ret none => True
  | .ret (some e) => Scoped A e
  | .ifs c => c.Fine N A
  | .asg _ l r => Scoped A l ∧ Scoped A r
  | .loop c b => Scoped A c ∧ b.Fine N A
  | .expr e => Scoped A e
  | .forR x lo hi zero b => Scoped A lo ∧ Scoped A hi ∧ ¬ A x ∧ x < N ∧ x ∉ b.writes ∧
      StableEnd b.writes hi ∧ (zero = true → hi = .int 0) ∧ b.Fine N (fun y => A y ∨ y = x)
  | .forA x _ arr b => Scoped A arr ∧ ¬ A x ∧ x < N ∧ StableArr b.writes arr ∧ b.Fine N (fun y => A y ∨ y = x)
  | .match_ e cs => Scoped A e ∧ cs.Fine N A
def SCh.Fine (N : Nat) (A : Nat → Prop) : SCh → Prop
  | .done => True
  | .els b => b.Fine N A
  | .cond c b n => Scoped A c ∧ b.Fine N A ∧ n.Fine N A
def SSs.Fine (N : Nat) (A : Nat → Prop) : SSs → Prop
  | .nil => True
  | .cons s ss => s.Fine N A ∧ ss.Fine N A
def SCs.Fine (N : Nat) (A : Nat → Prop) : SCs → Prop
  | .nil => True
  | .cons _ vars b n => (∀ x ∈ vars, x.1 < N) ∧ b.Fine N (fun y => A y ∨ y ∈ vars.map (·.1)) ∧ n.Fine N A
end

/-- A function: some set of variables is in scope in its body. -/
def SFn.Fine (N : Nat) (f : SFn) : Prop :=
  match f.body with
  | .block ss => ∃ A : Nat → Prop, (∀ y, A y → y < N) ∧ ss.Fine N A
  | _ => True

mutual
/-- As `SS.Fine`, without the conditions that the end of a range, its variable and the array do not change. -/
def SS.Mild (N : Nat) (A : Nat → Prop) : SS → Prop
  | .ret none => True
  | .ret (some e) => Scoped A e
  | .ifs c => c.Mild N A
  | .asg _ l r => Scoped A l ∧ Scoped A r
  | .loop c b => Scoped A c ∧ b.Mild N A
  | .expr e => Scoped A e
  | .forR x lo hi _ b => Scoped A lo ∧ Scoped A hi ∧ ¬ A x ∧ x < N ∧ b.Mild N (fun y => A y ∨ y = x)
  | .forA x _ arr b => Scoped A arr ∧ ¬ A x ∧ x < N ∧ b.Mild N (fun y => A y ∨ y = x)
  | .match_ e cs => Scoped A e ∧ cs.Mild N A
def SCh.Mild (N : Nat) (A : Nat → Prop) : SCh → Prop
  | .done => True
  | .els b => b.Mild N A
  | .cond c b n => Scoped A c ∧ b.Mild N A ∧ n.Mild N A
def SSs.Mild (N : Nat) (A : Nat → Prop) : SSs → Prop
  | .nil => True
  | .cons s ss => s.Mild N A ∧ ss.Mild N A
def SCs.Mild (N : Nat) (A : Nat → Prop) : SCs → Prop
  | .nil => True
  | .cons _ vars b n => (∀ x ∈ vars, x.1 < N) ∧ b.Mild N (fun y => A y ∨ y ∈ vars.map (·.1)) ∧ n.Mild N A
end

def SFn.Mild (N : Nat) (f : SFn) : Prop :=
  match f.body with
  | .block ss => ∃ A : Nat → Prop, (∀ y, A y → y < N) ∧ ss.Mild N A
  | _ => True

mutual
theorem SS.Fine.mild {N : Nat} : ∀ {s : SS} {A : Nat → Prop}, s.Fine N A → s.Mild N A
  | .ret none, _, _ => trivial
  | .ret (some _), _, h => h
  | .ifs c, _, h => SCh.Fine.mild (s := c) h
  | .asg _ _ _, _, h => h
  | .loop _ b, _, h => ⟨h.1, SSs.Fine.mild (s := b) h.2⟩
  | .expr _, _, h => h
  | .forR _ _ _ _ b, _, h => ⟨h.1, h.2.1, h.2.2.1, h.2.2.2.1, SSs.Fine.mild (s := b) h.2.2.2.2.2.2.2⟩
  | .forA _ _ _ b, _, h => ⟨h.1, h.2.1, h.2.2.1, SSs.Fine.mild (s := b) h.2.2.2.2⟩
  | .match_ _ cs, _, h => ⟨h.1, SCs.Fine.mild (s := cs) h.2⟩
theorem SCh.Fine.mild {N : Nat} : ∀ {s : SCh} {A : Nat → Prop}, s.Fine N A → s.Mild N A
  | .done, _, _ => trivial
  | .els b, _, h => SSs.Fine.mild (s := b) h
  | .cond _ b n, _, h => ⟨h.1, SSs.Fine.mild (s := b) h.2.1, SCh.Fine.mild (s := n) h.2.2⟩
theorem SSs.Fine.mild {N : Nat} : ∀ {s : SSs} {A : Nat → Prop}, s.Fine N A → s.Mild N A
  | .nil, _, _ => trivial
  | .cons s ss, _, h => ⟨SS.Fine.mild (s := s) h.1, SSs.Fine.mild (s := ss) h.2⟩
theorem SCs.Fine.mild {N : Nat} : ∀ {s : SCs} {A : Nat → Prop}, s.Fine N A → s.Mild N A
  | .nil, _, _ => trivial
  | .cons _ _ b n, _, h => ⟨h.1, SSs.Fine.mild (s := b) h.2.1, SCs.Fine.mild (s := n) h.2.2⟩
end

theorem SFn.Fine.mild {N : Nat} {f : SFn} (h : f.Fine N) : f.Mild N := by
  unfold SFn.Fine at h
  unfold SFn.Mild
  split at h
  · obtain ⟨A, hA, h⟩ := h
    exact ⟨A, hA, h.mild⟩
  · trivial

/-- The library functions the lowering relies on: `asEnum` is the function of `enums.clara` 13, and
the external function `unsafe` adds an offset to a pointer (`codegen.go` 358-363). -/
structure LibOk (L : Lib) (P : SProg σ) : Prop where
  info : L.asEnumInfo.ext = false
  asEnum : ∃ fd un ui p tp te, fd ∈ P.fns ∧ fd.name = L.asEnum ∧ fd.skip = false ∧ fd.params = [(p, tp)] ∧
    fd.body = .expr (.callFn un ui [.var p tp, .int 0, .typ te]) ∧ ui.ext = true ∧ ui.raw = false ∧
    (∀ fd' ∈ P.fns, fd'.name = L.asEnum → fd' = fd) ∧
    (∀ a S w S', P.base.ext un [some a, some 1, none] S w S' ↔ (w = a ∧ S' = S))
  rt : ∀ vs S v S', ¬ P.base.rt L.asEnum vs S v S'

/-! ### Stack budget, frames, sequences -/

theorem Big.mono {d d' : Nat} {j : Jd σ} (h : Big P d j) (hd : d ≤ d') : Big P d' j := by
  induction h generalizing d' with
  | callFn h1 h2 h3 h4 h5 h6 h7 ih1 ih2 => exact .callFn h1 (ih1 hd) h3 h4 h5 h6 (by omega)
  | callVar h1 h2 h3 h4 h5 h6 h7 ih1 ih2 => exact .callVar h1 h2 (ih1 hd) h4 h5 h6 (by omega)
  | callExpr h1 h2 h3 h4 h5 h6 h7 ih0 ih1 ih2 => exact .callExpr h1 (ih0 hd) (ih1 hd) h4 h5 h6 (by omega)
  | callRt h1 h2 h3 h4 ih => exact .callRt h1 (ih hd) h3 (by omega)
  | callExt h1 h2 h3 h4 h5 ih => exact .callExt h1 (ih hd) h3 h4 (by omega)
  | fnCons h1 h2 h3 h4 h5 => exact .fnCons h1 h2 h3 (by omega) h5
  | fnDyn h1 h2 _ _ h6 h7 h8 h9 h10 i1 i2 => exact .fnDyn h1 h2 (i1 hd) (i2 hd) h6 h7 h8 h9 (by omega)
  | int => exact .int
  | bool => exact .bool
  | str => exact .str
  | typ => exact .typ
  | fnRef => exact .fnRef
  | var h => exact .var h
  | bin _ _ h i1 i2 => exact .bin (i1 hd) (i2 hd) h
  | un _ h i => exact .un (i hd) h
  | ternT _ _ i1 i2 => exact .ternT (i1 hd) (i2 hd)
  | ternF _ _ i1 i2 => exact .ternF (i1 hd) (i2 hd)
  | arrLit _ i => exact .arrLit (i hd)
  | dot _ h i => exact .dot (i hd) h
  | index _ _ a b c e i1 i2 => exact .index (i1 hd) (i2 hd) a b c e
  | argsNil => exact .argsNil
  | argsCons _ _ i1 i2 => exact .argsCons (i1 hd) (i2 hd)
  | locVar => exact .locVar
  | locDot _ i => exact .locDot (i hd)
  | locIndex _ _ a b c i1 i2 => exact .locIndex (i1 hd) (i2 hd) a b c
  | retE _ i => exact .retE (i hd)
  | retN => exact .retN
  | ifs _ i => exact .ifs (i hd)
  | asgVar _ _ i1 i2 => exact .asgVar (i1 hd) (i2 hd)
  | asgMem _ _ h i1 i2 => exact .asgMem (i1 hd) (i2 hd) h
  | loopF _ i => exact .loopF (i hd)
  | loopT _ _ _ i1 i2 i3 => exact .loopT (i1 hd) (i2 hd) (i3 hd)
  | loopR _ _ i1 i2 => exact .loopR (i1 hd) (i2 hd)
  | block _ i => exact .block (i hd)
  | expr _ i => exact .expr (i hd)
  | chDone => exact .chDone
  | chElse _ i => exact .chElse (i hd)
  | chT _ _ i1 i2 => exact .chT (i1 hd) (i2 hd)
  | chF _ _ i1 i2 => exact .chF (i1 hd) (i2 hd)
  | nil => exact .nil
  | cons _ _ i1 i2 => exact .cons (i1 hd) (i2 hd)
  | consR _ i => exact .consR (i hd)
  | fnRet h1 h2 _ i => exact .fnRet h1 h2 (i hd)
  | fnEnd h1 h2 h3 _ i => exact .fnEnd h1 h2 h3 (i hd)
  | fnExpr h1 h2 _ i => exact .fnExpr h1 h2 (i hd)

/-- Two runs under one budget. -/
theorem big2 {j k : Jd σ} {d e : Nat} (h : Big P d j) (h' : Big P e k) : Big P (max d e) j ∧ Big P (max d e) k :=
  ⟨Big.mono h (Nat.le_max_left _ _), Big.mono h' (Nat.le_max_right _ _)⟩

theorem big3 {j k l : Jd σ} {d e f : Nat} (h : Big P d j) (h' : Big P e k) (h'' : Big P f l) :
    ∃ m, Big P m j ∧ Big P m k ∧ Big P m l :=
  ⟨max d (max e f), Big.mono h (by omega), Big.mono h' (by omega), Big.mono h'' (by omega)⟩

/-- Variables that are not assigned keep their values. -/
def Jd.frame : Jd σ → Prop
  | .loc _ _ e (.var x) _ => lhs e = [x]
  | .stmt ρ _ s _ ρ' _ => ∀ y, y ∉ s.writes → ρ' y = ρ y
  | .stmts ρ _ s _ ρ' _ => ∀ y, y ∉ s.writes → ρ' y = ρ y
  | .chain ρ _ s _ ρ' _ => ∀ y, y ∉ s.writes → ρ' y = ρ y
  | _ => True

theorem Big.frame {d : Nat} {j : Jd σ} (h : Big P d j) : Jd.frame j := by
  induction h with
  | asgVar _ _ i1 i2 =>
    intro y hy
    simp only [Jd.frame] at i2
    simp only [Stmt.writes, i2, List.mem_singleton] at hy
    simp [Env.upd, hy]
  | loopT _ _ _ i1 i2 i3 => exact fun y hy => (i3 y hy).trans (i2 y hy)
  | cons _ _ i1 i2 =>
    intro y hy
    simp only [Stmts.writes, List.mem_append, not_or] at hy
    exact (i2 y hy.2).trans (i1 y hy.1)
  | consR _ i1 =>
    intro y hy
    simp only [Stmts.writes, List.mem_append, not_or] at hy
    exact i1 y hy.1
  | chT _ _ i1 i2 =>
    intro y hy
    simp only [Chain.writes, List.mem_append, not_or] at hy
    exact i2 y hy.1
  | chF _ _ i1 i2 =>
    intro y hy
    simp only [Chain.writes, List.mem_append, not_or] at hy
    exact i2 y hy.2
  | ifs _ i | loopR _ _ _ i | block _ i | chElse _ i => exact i
  | locVar => rfl
  | _ => first | trivial | exact fun _ _ => rfl

theorem stmts_frame {d : Nat} {ρ ρ' : Env} {S S' : Store σ} {ss : Stmts} {o : Out} (h : Big P d (.stmts ρ S ss o ρ' S'))
    {y : Nat} (hy : y ∉ ss.writes) : ρ' y = ρ y := Big.frame h y hy

theorem stmts_app {d : Nat} {a b : Stmts} {ρ ρ1 ρ2 : Env} {S S1 S2 : Store σ} {o : Out}
    (h : Big P d (.stmts ρ S a .norm ρ1 S1)) (h' : Big P d (.stmts ρ1 S1 b o ρ2 S2)) :
    Big P d (.stmts ρ S (a.app b) o ρ2 S2) := by
  generalize hj : Jd.stmts ρ S a .norm ρ1 S1 = j at h
  induction h generalizing ρ S a <;> simp only [Jd.stmts.injEq, reduceCtorEq, false_and, and_false] at hj
  · obtain ⟨rfl, rfl, rfl, -, rfl, rfl⟩ := hj
    exact h'
  · rename_i h1 h2 i1 i2
    obtain ⟨rfl, rfl, rfl, rfl, rfl, rfl⟩ := hj
    exact .cons h1 (i2 h' rfl)

theorem stmts_app_ret {d : Nat} {a b : Stmts} {ρ ρ1 : Env} {S S1 : Store σ} {v : Option Val}
    (h : Big P d (.stmts ρ S a (.ret v) ρ1 S1)) : Big P d (.stmts ρ S (a.app b) (.ret v) ρ1 S1) := by
  generalize hj : Jd.stmts ρ S a (.ret v) ρ1 S1 = j at h
  induction h generalizing ρ S a <;> simp only [Jd.stmts.injEq, reduceCtorEq, false_and, and_false] at hj
  · rename_i h1 h2 i1 i2
    obtain ⟨rfl, rfl, rfl, rfl, rfl, rfl⟩ := hj
    exact .cons h1 (i2 rfl)
  · rename_i h1 i1
    obtain ⟨rfl, rfl, rfl, ho, rfl, rfl⟩ := hj
    cases ho
    exact .consR h1

theorem stmts_one {d : Nat} {s : Stmt} {ρ ρ1 : Env} {S S1 : Store σ} (h : Big P d (.stmt ρ S s .norm ρ1 S1)) :
    Big P d (.stmts ρ S (one s) .norm ρ1 S1) := .cons h .nil

theorem writes_app (a b : Stmts) : (a.app b).writes = a.writes ++ b.writes := by
  induction a using Stmts.rec (motive_1 := fun _ => True) (motive_2 := fun _ => True) <;> simp_all [Stmts.app, Stmts.writes]

/-! ### What the lowering assigns -/

theorem caseVars_writes (L : Lib) (tmp : Nat) (tt : TyR) (i : Nat) (vs : List (Nat × TyR)) :
    (caseVars L tmp tt i vs).writes = vs.map (·.1) := by
  induction vs generalizing i with
  | nil => rfl
  | cons v vs ih => simp [caseVars, Stmts.writes, Stmt.writes, lhs, ih]

theorem loopArray_writes (L : Lib) (arr : Expr) (n : Nat) :
    n ≤ (loopArray L arr n).2.2 ∧ ∀ s, (loopArray L arr n).1 = some s → s.writes = [n] := by
  unfold loopArray
  split <;> simp [Stmt.writes, lhs]

mutual
theorem lowS_writes (L : Lib) (s : SS) (n : Nat) : n ≤ (lowS L s n).2 ∧
    ∀ y ∈ (lowS L s n).1.writes, y ∈ s.writes ∨ (n ≤ y ∧ y < (lowS L s n).2) := by
  cases s with
  | ret | expr => simp [lowS, Stmt.writes, SS.writes]
  | asg d l r => simpa [lowS, Stmt.writes, SS.writes] using fun y h => Or.inl h
  | ifs c => simpa [lowS, Stmt.writes, SS.writes] using lowC_writes L c n
  | loop c b => simpa [lowS, Stmt.writes, SS.writes] using lowL_writes L b n
  | forR x lo hi zero b =>
    have h := lowL_writes L b n
    refine ⟨h.1, ?_⟩
    intro y hy
    have : y = x ∨ y ∈ (lowL L b n).1.writes := by
      cases zero <;> simp [lowS, Stmt.writes, Stmts.writes, one, writes_app, inc, lhs] at hy <;> grind
    rcases this with rfl | hy
    · simp [SS.writes]
    · rcases h.2 y hy with h | h
      · simp [SS.writes, h]
      · exact .inr (by simp only [lowS, lowM, lowC, lowL] at *; omega)
  | forA x t arr b =>
    have h := lowL_writes L b n
    have ha := loopArray_writes L arr (lowL L b n).2
    refine ⟨by simp only [lowS]; omega, ?_⟩
    intro y hy
    have : y = x ∨ y ∈ (lowL L b n).1.writes ∨ y = (loopArray L arr (lowL L b n).2).2.2 ∨ y = (lowL L b n).2 := by
      simp only [lowS] at hy
      split at hy
      · rename_i s hs
        simp only [Stmt.writes, Stmts.writes, one, writes_app, inc, lhs, ha.2 s hs] at hy
        simp at hy
        grind
      · simp only [Stmt.writes, Stmts.writes, one, writes_app, inc, lhs] at hy
        simp at hy
        grind
    rcases this with rfl | hy | hy | hy
    · simp [SS.writes]
    · rcases h.2 y hy with h | h
      · simp [SS.writes, h]
      · exact .inr (by simp only [lowS, lowM, lowC, lowL] at *; omega)
    · exact .inr (by simp only [lowS, lowM, lowC, lowL] at *; omega)
    · exact .inr (by simp only [lowS, lowM, lowC, lowL] at *; omega)
  | match_ e cs =>
    have h := lowM_writes L cs n e.ty (n + 1)
    refine ⟨by simp only [lowS]; omega, ?_⟩
    intro y hy
    have : y = n ∨ y ∈ (lowM L cs n e.ty (n + 1)).1.writes := by
      simp only [lowS] at hy
      split at hy <;> simp [Stmt.writes, Stmts.writes, one, lhs] at hy
      · exact .inl hy
      · exact hy
    rcases this with rfl | hy
    · exact .inr (by simp only [lowS] at *; omega)
    · rcases h.2 y hy with h | h
      · simp [SS.writes, h]
      · exact .inr (by simp only [lowS, lowM, lowC, lowL] at *; omega)
theorem lowM_writes (L : Lib) (cs : SCs) (tmp : Nat) (tt : TyR) (n : Nat) : n ≤ (lowM L cs tmp tt n).2 ∧
    ∀ y ∈ (lowM L cs tmp tt n).1.writes, y ∈ cs.writes ∨ (n ≤ y ∧ y < (lowM L cs tmp tt n).2) := by
  cases cs with
  | nil => simp [lowM, Chain.writes]
  | cons tag vars b next =>
    have h := lowL_writes L b n
    have h' := lowM_writes L next tmp tt (lowL L b n).2
    refine ⟨by simp only [lowM]; omega, ?_⟩
    intro y hy
    simp only [lowM, Chain.writes, writes_app, caseVars_writes, List.mem_append] at hy
    simp only [SCs.writes, List.mem_append]
    rcases hy with (hy | hy) | hy
    · exact .inl (.inl hy)
    · rcases h.2 y hy with h | h
      · exact .inl (.inr (.inl h))
      · exact .inr (by simp only [lowS, lowM, lowC, lowL] at *; omega)
    · rcases h'.2 y hy with h | h
      · exact .inl (.inr (.inr h))
      · exact .inr (by simp only [lowS, lowM, lowC, lowL] at *; omega)
theorem lowC_writes (L : Lib) (c : SCh) (n : Nat) : n ≤ (lowC L c n).2 ∧
    ∀ y ∈ (lowC L c n).1.writes, y ∈ c.writes ∨ (n ≤ y ∧ y < (lowC L c n).2) := by
  cases c with
  | done => simp [lowC, Chain.writes]
  | els b => simpa [lowC, Chain.writes, SCh.writes] using lowL_writes L b n
  | cond c b next =>
    have h := lowL_writes L b n
    have h' := lowC_writes L next (lowL L b n).2
    refine ⟨by simp only [lowC]; omega, ?_⟩
    intro y hy
    simp only [lowC, Chain.writes, List.mem_append] at hy
    simp only [SCh.writes, List.mem_append]
    rcases hy with hy | hy
    · rcases h.2 y hy with h | h
      · exact .inl (.inl h)
      · exact .inr (by simp only [lowS, lowM, lowC, lowL] at *; omega)
    · rcases h'.2 y hy with h | h
      · exact .inl (.inr h)
      · exact .inr (by simp only [lowS, lowM, lowC, lowL] at *; omega)
theorem lowL_writes (L : Lib) (ss : SSs) (n : Nat) : n ≤ (lowL L ss n).2 ∧
    ∀ y ∈ (lowL L ss n).1.writes, y ∈ ss.writes ∨ (n ≤ y ∧ y < (lowL L ss n).2) := by
  cases ss with
  | nil => simp [lowL, Stmts.writes]
  | cons s ss =>
    have h := lowS_writes L s n
    have h' := lowL_writes L ss (lowS L s n).2
    refine ⟨by simp only [lowL]; omega, ?_⟩
    intro y hy
    simp only [lowL, Stmts.writes, List.mem_append] at hy
    simp only [SSs.writes, List.mem_append]
    rcases hy with hy | hy
    · rcases h.2 y hy with h | h
      · exact .inl (.inl h)
      · exact .inr (by simp only [lowS, lowM, lowC, lowL] at *; omega)
    · rcases h'.2 y hy with h | h
      · exact .inl (.inr h)
      · exact .inr (by simp only [lowS, lowM, lowC, lowL] at *; omega)
end


/-! ### What mild statements assign -/

theorem lhs_vars (e : Expr) : ∀ y ∈ lhs e, y ∈ e.vars := by
  cases e <;> simp [lhs, Expr.vars]

mutual
theorem SS.mild_writes {N : Nat} {A : Nat → Prop} (hA : ∀ y, A y → y < N) : ∀ s : SS, s.Mild N A → ∀ y ∈ s.writes, y < N
  | .ret _, _ | .expr _, _ => by simp [SS.writes]
  | .ifs c, h => by simpa [SS.writes] using c.mild_writes hA h
  | .asg _ l _, h => fun y hy => hA y (h.1 y (lhs_vars l y hy))
  | .loop _ b, h => by simpa [SS.writes] using b.mild_writes hA h.2
  | .forR x _ _ _ b, h => by
    intro y hy
    simp only [SS.writes, List.mem_cons] at hy
    rcases hy with rfl | hy
    · exact h.2.2.2.1
    · exact b.mild_writes (fun z hz => hz.elim (hA z) (fun e => e ▸ h.2.2.2.1)) h.2.2.2.2 y hy
  | .forA x _ _ b, h => by
    intro y hy
    simp only [SS.writes, List.mem_cons] at hy
    rcases hy with rfl | hy
    · exact h.2.2.1
    · exact b.mild_writes (fun z hz => hz.elim (hA z) (fun e => e ▸ h.2.2.1)) h.2.2.2 y hy
  | .match_ _ cs, h => by simpa [SS.writes] using cs.mild_writes hA h.2
theorem SCh.mild_writes {N : Nat} {A : Nat → Prop} (hA : ∀ y, A y → y < N) : ∀ s : SCh, s.Mild N A → ∀ y ∈ s.writes, y < N
  | .done, _ => by simp [SCh.writes]
  | .els b, h => by simpa [SCh.writes] using b.mild_writes hA h
  | .cond _ b n, h => by
    intro y hy
    simp only [SCh.writes, List.mem_append] at hy
    rcases hy with hy | hy
    · exact b.mild_writes hA h.2.1 y hy
    · exact n.mild_writes hA h.2.2 y hy
theorem SSs.mild_writes {N : Nat} {A : Nat → Prop} (hA : ∀ y, A y → y < N) : ∀ s : SSs, s.Mild N A → ∀ y ∈ s.writes, y < N
  | .nil, _ => by simp [SSs.writes]
  | .cons s ss, h => by
    intro y hy
    simp only [SSs.writes, List.mem_append] at hy
    rcases hy with hy | hy
    · exact s.mild_writes hA h.1 y hy
    · exact ss.mild_writes hA h.2 y hy
theorem SCs.mild_writes {N : Nat} {A : Nat → Prop} (hA : ∀ y, A y → y < N) : ∀ s : SCs, s.Mild N A → ∀ y ∈ s.writes, y < N
  | .nil, _ => by simp [SCs.writes]
  | .cons _ vars b n, h => by
    intro y hy
    simp only [SCs.writes, List.mem_append] at hy
    have hv : ∀ y, y ∈ vars.map (·.1) → y < N := by
      intro y hy
      obtain ⟨z, hz, rfl⟩ := List.mem_map.mp hy
      exact h.1 z hz
    rcases hy with hy | hy | hy
    · exact hv y hy
    · exact b.mild_writes (fun z hz => hz.elim (hA z) (hv z)) h.2.1 y hy
    · exact n.mild_writes hA h.2.2 y hy
end

end Clara.Sema
