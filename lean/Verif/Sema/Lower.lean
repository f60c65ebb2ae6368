import Verif.Sema.Source
/-
`lowerMatchStatement` and `lowerForStatement` (`semantic.go` 468-512, 528-607).

Both are applied to every node in post-order, first all `match` statements, then all `for`
statements (`main.go` 125-126).  Each rewrites one node from its already rewritten children and
neither looks at what the other makes, so the two passes are one structural recursion here.
A new symbol (`newVar`, `ast.go` 284-287) is a number that is not used yet; the functions carry the
next unused number along.
-/
namespace Clara.Sema
open Clara.Gen

/-- What the lowering resolves in the symbol table: the library function `asEnum` (`enums.clara` 13)
and the type `[]int`. -/
structure Lib where
  asEnum : String
  asEnumInfo : FnInfo
  intArr : TyR

def tInt : TyR := ⟨.integer, 0⟩
def tBool : TyR := ⟨.boolean, 0⟩

/-- Statements one after the other. -/
def _root_.Clara.Gen.Stmts.app : Stmts → Stmts → Stmts
  | .nil, b => b
  | .cons s a, b => .cons s (a.app b)

def one (s : Stmt) : Stmts := .cons s .nil

/-- `inc` (`ast.go` 237-239). -/
def inc (x : Nat) (k : Int) : Stmt := .asg false (.var x tInt) (.bin .add tInt (.var x tInt) (.int k))

/-- `dot(fnCallBySym(asEnum, matchVar), ident(field))` with the offset of the field in `enum_`
(`enums.clara` 2-10). -/
def field (L : Lib) (tmp : Nat) (tt : TyR) (t : TyR) (off : Nat) : Expr :=
  .dot t (.callFn L.asEnum L.asEnumInfo [.var tmp tt]) off

/-- The variables of a case (`semantic.go` 584-592).  (`enum_` has fields for five arguments, and a constructor
with more is rejected, `semantic.go` 157-160.) -/
def caseVars (L : Lib) (tmp : Nat) (tt : TyR) : Nat → List (Nat × TyR) → Stmts
  | _, [] => .nil
  | i, (x, t) :: xs => .cons (.asg true (.var x t) (field L tmp tt t (8 * (i + 1)))) (caseVars L tmp tt (i + 1) xs)

/-- The array of an array loop: an array literal is first assigned to a new variable
(`semantic.go` 477-482). -/
def loopArray (L : Lib) (arr : Expr) (n : Nat) : Option Stmt × Expr × Nat :=
  match arr with
  | .arrLit _ e => (some (.asg true (.var n L.intArr) e), .var n L.intArr, n + 1)
  | e => (none, e, n)

mutual
/-- One statement. -/
def lowS (L : Lib) : SS → Nat → Stmt × Nat
  | .ret e, n => (.ret e, n)
  | .ifs c, n => let r := lowC L c n; (.ifs r.1, r.2)
  | .asg d l r, n => (.asg d l r, n)
  | .loop c b, n => let r := lowL L b n; (.loop c r.1, r.2)
  | .expr e, n => (.expr e, n)
  | .forR x lo hi zero b, n =>
    -- `semantic.go` 490-503
    let r := lowL L b n
    let v := Expr.var x tInt
    let init := if zero then .bin .add tInt lo (.int (-1)) else lo
    let cond := if zero then .bin .le tBool hi v else .bin .lt tBool v hi
    let next := if zero then inc x (-1) else inc x 1
    (.block (.cons (.asg true v init) (one (.loop cond (r.1.app (one next))))), r.2)
  | .forA x t arr b, n =>
    -- `semantic.go` 474-489
    let r := lowL L b n
    let a := loopArray L arr r.2
    let i := a.2.2
    let loop := Stmt.loop (.bin .lt tBool (.var i tInt) (.dot tInt a.2.1 0))
      (.cons (.asg false (.var x t) (.index t a.2.1 (.var i tInt))) (r.1.app (one (inc i 1))))
    let ss := Stmts.cons (.asg true (.var i tInt) (.int 0)) (one loop)
    (.block (match a.1 with | some s => .cons s ss | none => ss), i + 1)
  | .match_ e cs, n =>
    -- `semantic.go` 552-606
    let r := lowM L cs n e.ty (n + 1)
    let first := Stmt.asg true (.var n e.ty) e
    (match cs with
      | .nil => .block (one first)
      | _ => .block (.cons first (one (.ifs r.1))), r.2)
/-- The cases of a `match` on the variable `tmp` (`semantic.go` 560-594). -/
def lowM (L : Lib) : SCs → Nat → TyR → Nat → Chain × Nat
  | .nil, _, _, n => (.done, n)
  | .cons tag vars b next, tmp, tt, n =>
    let r := lowL L b n
    let q := lowM L next tmp tt r.2
    (.cond (.bin .eq tBool (field L tmp tt tInt 0) (.int tag)) ((caseVars L tmp tt 0 vars).app r.1) q.1, q.2)
def lowC (L : Lib) : SCh → Nat → Chain × Nat
  | .done, n => (.done, n)
  | .els b, n => let r := lowL L b n; (.els r.1, r.2)
  | .cond c b next, n =>
    let r := lowL L b n
    let q := lowC L next r.2
    (.cond c r.1 q.1, q.2)
def lowL (L : Lib) : SSs → Nat → Stmts × Nat
  | .nil, n => (.nil, n)
  | .cons s ss, n =>
    let r := lowS L s n
    let q := lowL L ss r.2
    (.cons r.1 q.1, q.2)
end

def lowB (L : Lib) (n : Nat) : SBody → Body
  | .block ss => .block (lowL L ss n).1
  | .expr e => .expr e
  | .cons tag desc id => .cons tag desc id

/-- A function; `n` is above all its symbols. -/
def lowF (L : Lib) (n : Nat) (f : SFn) : FnDef :=
  { name := f.name, params := f.params, body := lowB L n f.body, retNothing := f.retNothing, skip := f.skip }

/-- A program. -/
def lowP (L : Lib) (n : Nat) {σ : Type} (P : SProg σ) : Prog σ :=
  { P.base with fns := P.fns.map (lowF L n) }

/-! ### `invokeDynamic` is not changed -/

theorem SIsDyn.low {L : Lib} {N : Nat} {fd : SFn} {isCl uns : String} {T : DynT} {n : Nat} (h : SIsDyn fd isCl uns T n) :
    IsDyn (lowF L N fd) isCl uns T n :=
  ⟨h.params, by simp [lowF, lowB, h.body, lowL, lowS, lowC, DynT.yes, DynT.no], h.ret, h.skip, h.fiE, h.fiV⟩

theorem lowS_ifs {L : Lib} {N : Nat} {s : SS} {c : Chain} (h : (lowS L s N).1 = .ifs c) : ∃ c', s = .ifs c' ∧ c = (lowC L c' N).1 := by
  cases s <;> simp only [lowS, reduceCtorEq, Stmt.ifs.injEq] at h
  · exact ⟨_, rfl, h.symm⟩
  · split at h <;> cases h

theorem lowS_asg {L : Lib} {N : Nat} {s : SS} {d : Bool} {l r : Expr} (h : (lowS L s N).1 = .asg d l r) : s = .asg d l r := by
  cases s <;> simp only [lowS, reduceCtorEq, Stmt.asg.injEq] at h
  · obtain ⟨rfl, rfl, rfl⟩ := h; rfl
  · split at h <;> cases h

theorem lowS_expr {L : Lib} {N : Nat} {s : SS} {e : Expr} (h : (lowS L s N).1 = .expr e) : s = .expr e := by
  cases s <;> simp only [lowS, reduceCtorEq, Stmt.expr.injEq] at h
  · subst h; rfl
  · split at h <;> cases h

theorem lowL_nil {L : Lib} {N : Nat} {b : SSs} (h : (lowL L b N).1 = .nil) : b = .nil := by
  cases b <;> simp [lowL] at h ⊢

theorem lowL_cons {L : Lib} {N : Nat} {b : SSs} {s : Stmt} {ss : Stmts} (h : (lowL L b N).1 = .cons s ss) :
    ∃ s' b', b = .cons s' b' ∧ (lowS L s' N).1 = s ∧ ∃ M, (lowL L b' M).1 = ss := by
  cases b with
  | nil => simp [lowL] at h
  | cons s' b' =>
    simp only [lowL, Stmts.cons.injEq] at h
    exact ⟨s', b', rfl, h.1, _, h.2⟩

theorem lowL_two {L : Lib} {N : Nat} {b : SSs} {d : Bool} {l r e : Expr} (h : (lowL L b N).1 = .cons (.asg d l r) (.cons (.expr e) .nil)) :
    b = .cons (.asg d l r) (.cons (.expr e) .nil) := by
  obtain ⟨s, b1, rfl, hs, M, h⟩ := lowL_cons h
  obtain ⟨s2, b2, rfl, hs2, M2, h⟩ := lowL_cons h
  rw [lowS_asg hs, lowS_expr hs2, lowL_nil h]

theorem lowF_dyn {L : Lib} {N : Nat} {fd : SFn} {isCl uns : String} {T : DynT} {n : Nat} (h : IsDyn (lowF L N fd) isCl uns T n) :
    SIsDyn fd isCl uns T n := by
  refine ⟨h.params, ?_, h.ret, h.skip, h.fiE, h.fiV⟩
  have hb := h.body
  simp only [lowF] at hb
  cases hc : fd.body <;> simp only [hc, lowB, reduceCtorEq, Body.block.injEq] at hb
  obtain ⟨s, b1, rfl, hs, M, hb2⟩ := lowL_cons hb
  obtain ⟨c, rfl, hs'⟩ := lowS_ifs hs
  cases lowL_nil hb2
  cases c <;> simp only [lowC, reduceCtorEq, Chain.cond.injEq] at hs'
  obtain ⟨rfl, hy, hn⟩ := hs'
  cases lowL_two hy.symm
  rename_i c
  cases c <;> simp only [lowC, reduceCtorEq, Chain.els.injEq] at hn
  cases lowL_two hn.symm
  rfl

end Clara.Sema
