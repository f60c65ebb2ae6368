import Verif.Gen.Spec
/-
Programs that do not use functions as values: their meaning does not depend on the addresses at which
functions are placed.
-/
namespace Clara.Gen
variable {σ : Type}

mutual
/-- No function value is made or called. -/
def Expr.fo : Expr → Bool
  | .int _ | .bool _ | .str _ | .typ _ | .var _ _ => true
  | .fnRef _ _ _ => false
  | .bin _ _ l r => l.fo && r.fo
  | .un _ _ e => e.fo
  | .tern _ c a b => c.fo && (a.fo && b.fo)
  | .arrLit _ e => e.fo
  | .callFn _ _ args => foL args
  | .callVar _ _ _ | .callExpr _ _ _ => false
  | .dot _ e _ => e.fo
  | .index _ a i => a.fo && i.fo
def foL : List Expr → Bool
  | [] => true
  | e :: es => e.fo && foL es
end

mutual
def Stmt.fo : Stmt → Bool
  | .ret (some e) => e.fo
  | .ret none => true
  | .ifs c => c.fo
  | .asg _ l r => l.fo && r.fo
  | .loop c b => c.fo && b.fo
  | .block b => b.fo
  | .expr e => e.fo
def Chain.fo : Chain → Bool
  | .done => true
  | .els b => b.fo
  | .cond c b n => c.fo && (b.fo && n.fo)
def Stmts.fo : Stmts → Bool
  | .nil => true
  | .cons s ss => s.fo && ss.fo
end

def Body.fo : Body → Bool
  | .block ss => ss.fo
  | .expr e => e.fo
  | .cons _ _ _ => true

def Jd.fo : Jd σ → Bool
  | .expr _ _ e _ _ | .loc _ _ e _ _ => e.fo
  | .args _ _ es _ _ => foL es
  | .stmt _ _ s _ _ _ => s.fo
  | .stmts _ _ ss _ _ _ => ss.fo
  | .chain _ _ c _ _ _ => c.fo
  | .fn fd _ _ _ _ => fd.body.fo

/-- The addresses of functions do not matter. -/
theorem Big.readdr {P : Prog σ} {d : Nat} {J : Jd σ} (h : Big P d J) (a : String → Word)
    (hP : ∀ fd ∈ P.fns, fd.body.fo = true) (hJ : J.fo = true) :
    Big { P with fnAddr := a } d J := by
  induction h with
  | int => exact .int
  | bool => exact .bool
  | str => exact .str
  | typ => exact .typ
  | var h => exact .var h
  | fnRef => simp [Jd.fo, Expr.fo] at hJ
  | bin _ _ he ih1 ih2 =>
    simp only [Jd.fo, Expr.fo, Bool.and_eq_true] at hJ
    exact .bin (ih1 hJ.1) (ih2 hJ.2) he
  | un _ he ih => simp only [Jd.fo, Expr.fo] at hJ; exact .un (ih hJ) he
  | ternT _ _ ih1 ih2 =>
    simp only [Jd.fo, Expr.fo, Bool.and_eq_true] at hJ
    exact .ternT (ih1 hJ.1) (ih2 hJ.2.1)
  | ternF _ _ ih1 ih2 =>
    simp only [Jd.fo, Expr.fo, Bool.and_eq_true] at hJ
    exact .ternF (ih1 hJ.1) (ih2 hJ.2.2)
  | arrLit _ ih => simp only [Jd.fo, Expr.fo] at hJ; exact .arrLit (ih hJ)
  | callFn hx _ hfd hn hsk _ hd ih1 ih2 =>
    simp only [Jd.fo, Expr.fo] at hJ
    exact .callFn hx (ih1 hJ) hfd hn hsk (ih2 (hP _ hfd)) hd
  | callRt hx _ hrt hd ih => simp only [Jd.fo, Expr.fo] at hJ; exact .callRt hx (ih hJ) hrt hd
  | callExt hx _ he hr hd ih => simp only [Jd.fo, Expr.fo] at hJ; exact .callExt hx (ih hJ) he hr hd
  | callVar => simp [Jd.fo, Expr.fo] at hJ
  | callExpr => simp [Jd.fo, Expr.fo] at hJ
  | dot _ hh ih => simp only [Jd.fo, Expr.fo] at hJ; exact .dot (ih hJ) hh
  | index _ _ h1 h2 h3 h4 ih1 ih2 =>
    simp only [Jd.fo, Expr.fo, Bool.and_eq_true] at hJ
    exact .index (ih1 hJ.1) (ih2 hJ.2) h1 h2 h3 h4
  | argsNil => exact .argsNil
  | argsCons _ _ ih1 ih2 =>
    simp only [Jd.fo, foL, Bool.and_eq_true] at hJ
    exact .argsCons (ih1 hJ.1) (ih2 hJ.2)
  | locVar => exact .locVar
  | locDot _ ih => simp only [Jd.fo, Expr.fo] at hJ; exact .locDot (ih hJ)
  | locIndex _ _ h1 h2 h3 ih1 ih2 =>
    simp only [Jd.fo, Expr.fo, Bool.and_eq_true] at hJ
    exact .locIndex (ih1 hJ.1) (ih2 hJ.2) h1 h2 h3
  | retE _ ih => simp only [Jd.fo, Stmt.fo] at hJ; exact .retE (ih hJ)
  | retN => exact .retN
  | ifs _ ih => simp only [Jd.fo, Stmt.fo] at hJ; exact .ifs (ih hJ)
  | asgVar _ _ ih1 ih2 =>
    simp only [Jd.fo, Stmt.fo, Bool.and_eq_true] at hJ
    exact .asgVar (ih1 hJ.2) (ih2 hJ.1)
  | asgMem _ _ hw ih1 ih2 =>
    simp only [Jd.fo, Stmt.fo, Bool.and_eq_true] at hJ
    exact .asgMem (ih1 hJ.2) (ih2 hJ.1) hw
  | loopF _ ih =>
    simp only [Jd.fo, Stmt.fo, Bool.and_eq_true] at hJ
    exact .loopF (ih hJ.1)
  | loopT _ _ _ ih1 ih2 ih3 =>
    have hJ' := hJ
    simp only [Jd.fo, Stmt.fo, Bool.and_eq_true] at hJ
    exact .loopT (ih1 hJ.1) (ih2 hJ.2) (ih3 hJ')
  | loopR _ _ ih1 ih2 =>
    simp only [Jd.fo, Stmt.fo, Bool.and_eq_true] at hJ
    exact .loopR (ih1 hJ.1) (ih2 hJ.2)
  | block _ ih => simp only [Jd.fo, Stmt.fo] at hJ; exact .block (ih hJ)
  | expr _ ih => simp only [Jd.fo, Stmt.fo] at hJ; exact .expr (ih hJ)
  | chDone => exact .chDone
  | chElse _ ih => simp only [Jd.fo, Chain.fo] at hJ; exact .chElse (ih hJ)
  | chT _ _ ih1 ih2 =>
    simp only [Jd.fo, Chain.fo, Bool.and_eq_true] at hJ
    exact .chT (ih1 hJ.1) (ih2 hJ.2.1)
  | chF _ _ ih1 ih2 =>
    simp only [Jd.fo, Chain.fo, Bool.and_eq_true] at hJ
    exact .chF (ih1 hJ.1) (ih2 hJ.2.2)
  | nil => exact .nil
  | cons _ _ ih1 ih2 =>
    simp only [Jd.fo, Stmts.fo, Bool.and_eq_true] at hJ
    exact .cons (ih1 hJ.1) (ih2 hJ.2)
  | consR _ ih =>
    simp only [Jd.fo, Stmts.fo, Bool.and_eq_true] at hJ
    exact .consR (ih hJ.1)
  | fnRet hb hl _ ih =>
    simp only [Jd.fo, hb, Body.fo] at hJ
    exact .fnRet hb hl (ih hJ)
  | fnEnd hb hl hn _ ih =>
    simp only [Jd.fo, hb, Body.fo] at hJ
    exact .fnEnd hb hl hn (ih hJ)
  | fnExpr hb hl _ ih =>
    simp only [Jd.fo, hb, Body.fo] at hJ
    exact .fnExpr hb hl (ih hJ)
  | fnCons hb hl hrt hd hw => exact .fnCons hb hl hrt hd hw
  | fnDyn hD => simp [Jd.fo, hD.body, Body.fo, Stmts.fo, Stmt.fo, Chain.fo, DynT.no, Expr.fo] at hJ

/-! ### Integer and boolean expressions -/

mutual
/-- The code of an integer expression does not depend on the registers in use. -/
theorem ZE.code_eq (slot : Nat → Nat) (e : ZE) (b : Bool) {g g' : GS} (h : g.lbl = g'.lbl) :
    (genExpr slot e.tree b g).1 = (genExpr slot e.tree b g').1 ∧
    (genExpr slot e.tree b g).2.lbl = (genExpr slot e.tree b g').2.lbl := by
  cases e with
  | lit z => exact ⟨rfl, h⟩
  | var x => exact ⟨rfl, h⟩
  | bin o l r =>
    have h1 := ZE.code_eq slot l false h
    have h2 := ZE.code_eq slot r false (g := (genExpr slot l.tree false g).2.inc)
      (g' := (genExpr slot l.tree false g').2.inc) h1.2
    cases o <;> simp only [ZE.tree, ZOp.op, genExpr, h1.1, h2.1, GS.dec, h2.2, and_self]
  | neg a =>
    have h1 := ZE.code_eq slot a false h
    simp only [ZE.tree, genExpr, h1.1, h1.2, and_self]
  | not a =>
    have h1 := ZE.code_eq slot a false h
    simp only [ZE.tree, genExpr, h1.1, h1.2, and_self]
  | ite c x y =>
    have h1 := BE.code_eq slot c false h
    simp only [ZE.tree, genExpr]
    rw [h1.1, h1.2]
    have h2 := ZE.code_eq slot x false (g := { (genExpr slot c.tree false g).2 with lbl := (genExpr slot c.tree false g').2.lbl + 2 })
      (g' := { (genExpr slot c.tree false g').2 with lbl := (genExpr slot c.tree false g').2.lbl + 2 }) rfl
    have h3 := ZE.code_eq slot y false h2.2
    rw [h2.1, h3.1]
    exact ⟨rfl, h3.2⟩
theorem BE.code_eq (slot : Nat → Nat) (e : BE) (b : Bool) {g g' : GS} (h : g.lbl = g'.lbl) :
    (genExpr slot e.tree b g).1 = (genExpr slot e.tree b g').1 ∧
    (genExpr slot e.tree b g).2.lbl = (genExpr slot e.tree b g').2.lbl := by
  cases e with
  | lit z => exact ⟨rfl, h⟩
  | var x => exact ⟨rfl, h⟩
  | cmp o l r =>
    have h1 := ZE.code_eq slot l false h
    have h2 := ZE.code_eq slot r false (g := (genExpr slot l.tree false g).2.inc)
      (g' := (genExpr slot l.tree false g').2.inc) h1.2
    cases o <;> simp only [BE.tree, ZCmp.op, genExpr, h1.1, h2.1, GS.dec, h2.2, and_self]
  | and l r =>
    have h1 := BE.code_eq slot l false h
    have h2 := BE.code_eq slot r false (g := (genExpr slot l.tree false g).2.inc)
      (g' := (genExpr slot l.tree false g').2.inc) h1.2
    simp only [BE.tree, genExpr, h1.1, h2.1, GS.dec, h2.2, and_self]
  | or l r =>
    have h1 := BE.code_eq slot l false h
    have h2 := BE.code_eq slot r false (g := (genExpr slot l.tree false g).2.inc)
      (g' := (genExpr slot l.tree false g').2.inc) h1.2
    simp only [BE.tree, genExpr, h1.1, h2.1, GS.dec, h2.2, and_self]
  | not a =>
    have h1 := BE.code_eq slot a false h
    simp only [BE.tree, genExpr, h1.1, h1.2, and_self]
end

mutual
theorem ZE.tree_ok (e : ZE) {k : Nat} (hk : k ≤ 2) : e.tree.ok k = true := by
  cases e with
  | lit z => rfl
  | var x => rfl
  | bin o l r =>
    have h1 := ZE.tree_ok l hk
    have h2 := ZE.tree_ok r hk
    cases o <;> simp [ZE.tree, Expr.ok, h1, h2, ZOp.op] <;> omega
  | neg a => simp only [ZE.tree, Expr.ok, ZE.tree_ok a hk]
  | not a => simp only [ZE.tree, Expr.ok, ZE.tree_ok a hk]
  | ite c x y => simp only [ZE.tree, Expr.ok, BE.tree_ok c hk, ZE.tree_ok x hk, ZE.tree_ok y hk, Bool.and_self]
theorem BE.tree_ok (e : BE) {k : Nat} (hk : k ≤ 2) : e.tree.ok k = true := by
  cases e with
  | lit z => rfl
  | var x => rfl
  | cmp o l r =>
    have h1 := ZE.tree_ok l hk
    have h2 := ZE.tree_ok r hk
    cases o <;> simp [BE.tree, Expr.ok, h1, h2, ZCmp.op]
  | and l r => simp only [BE.tree, Expr.ok, BE.tree_ok l hk, BE.tree_ok r hk, Bool.and_self]
  | or l r => simp only [BE.tree, Expr.ok, BE.tree_ok l hk, BE.tree_ok r hk, Bool.and_self]
  | not a => simp only [BE.tree, Expr.ok, BE.tree_ok a hk]
end

/-- The code of an integer expression, with any number of registers in use. -/
theorem ZE.exe {P : Prog σ} {I : Image σ} {C : List Ev} {lim top : Nat} (X : Ctx P I C lim top)
    {ρ : Nat → Int} {β : Nat → Bool} {e : ZE} {z : Int} (h : ZE.Val ρ β e z) {env : Env} {S : Store σ}
    {fd : FnDef} {g : GS} {m : Mach σ} (hv : Holds ρ β env e.tree.vars) (hs : e.tree.vars ⊆ fd.syms)
    (hpre : Pre lim top fd env S g m e.tree.use) :
    Exe I C (genExpr fd.slot e.tree false g).1 m (fun m' => m'.reg .rax = BitVec.ofInt 64 (2 * z + 1) ∧
      Kept top m m' ∧ Rel lim top S m') := by
  obtain ⟨n, rfl, hb⟩ := ZE.big (P := P) (d := 0) (S := S) h hv
  have := sim X hb fd { g with reg := [] } m hs (ZE.tree_ok e (by simp [GS.top])) (hpre.spEq rfl)
  rw [(ZE.code_eq fd.slot e false (g := { g with reg := [] }) (g' := g) rfl).1] at this
  exact this.mono (fun m' hm' => ⟨by rw [← enc_tag]; exact hm'.2 _ rfl, hm'.1.kept, hm'.1.rel⟩)

theorem BE.exe {P : Prog σ} {I : Image σ} {C : List Ev} {lim top : Nat} (X : Ctx P I C lim top)
    {ρ : Nat → Int} {β : Nat → Bool} {e : BE} {z : Bool} (h : BE.Val ρ β e z) {env : Env} {S : Store σ}
    {fd : FnDef} {g : GS} {m : Mach σ} (hv : Holds ρ β env e.tree.vars) (hs : e.tree.vars ⊆ fd.syms)
    (hpre : Pre lim top fd env S g m e.tree.use) :
    Exe I C (genExpr fd.slot e.tree false g).1 m (fun m' => m'.reg .rax = (if z then 1 else 0) ∧
      Kept top m m' ∧ Rel lim top S m') := by
  have hb := BE.big (P := P) (d := 0) (S := S) h hv
  have := sim X hb fd { g with reg := [] } m hs (BE.tree_ok e (by simp [GS.top])) (hpre.spEq rfl)
  rw [(BE.code_eq fd.slot e false (g := { g with reg := [] }) (g' := g) rfl).1] at this
  exact this.mono (fun m' hm' => ⟨hm'.2 _ rfl, hm'.1.kept, hm'.1.rel⟩)

end Clara.Gen
