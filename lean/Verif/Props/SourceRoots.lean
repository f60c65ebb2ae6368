import Verif.Props.Freed
import Verif.Sema.Lower
/-
C92: the pointer variables of the source are roots.

C40 is about the statements that code is generated from, where a variable is in scope from its declaration on.  Here the
scopes are those of the source: the variable of a loop is in scope in the body of the loop, the variables of a case in the case.
-/
namespace Clara.Props
open Clara.Gen Clara.Sema

/-! ### Specification -/

abbrev Vars := List (Nat × TyR)

/-- The calls of an expression, each with the variables in scope. -/
def callsIn (sc : Vars) (e : Expr) : List Vars := (sitesE e [] []).map (fun _ => sc)

/-- The variables in scope after a statement. -/
def srcScope (sc : Vars) : SS → Vars
  | .asg true (.var x t) _ => sc ++ [(x, t)]
  | _ => sc

/-- The variables of a case are read one after the other, each by a call of `asEnum`. -/
def caseCalls (sc : Vars) : Vars → List Vars
  | [] => []
  | v :: vs => sc :: caseCalls (sc ++ [v]) vs

mutual
/-- The variables in scope at the calls of a statement, in the order of the code.  (The end of a range and the array of a loop, unless it is
a literal, are evaluated again and again, C25 and C26: the array in two places.) -/
def scS (sc : Vars) : SS → List Vars
  | .ret (some e) => callsIn sc e
  | .ret none => []
  | .ifs c => scC sc c
  | .asg _ l r => callsIn sc r ++ callsIn sc l
  | .loop c b => callsIn sc c ++ scB sc b
  | .expr e => callsIn sc e
  | .forR x lo hi _ b => callsIn sc lo ++ (callsIn sc hi ++ scB (sc ++ [(x, tInt)]) b)
  | .forA x t (.arrLit _ e) b => callsIn sc e ++ scB (sc ++ [(x, t)]) b
  | .forA x t e b => callsIn sc e ++ (callsIn sc e ++ scB (sc ++ [(x, t)]) b)
  | .match_ e cs => callsIn sc e ++ scM sc cs
def scM (sc : Vars) : SCs → List Vars
  | .nil => []
  | .cons _ vars b next => sc :: ((caseCalls sc vars ++ scB (sc ++ vars) b) ++ scM sc next)
def scC (sc : Vars) : SCh → List Vars
  | .done => []
  | .els b => scB sc b
  | .cond c b next => callsIn sc c ++ (scB sc b ++ scC sc next)
def scB (sc : Vars) : SSs → List Vars
  | .nil => []
  | .cons s ss => scS sc s ++ scB (srcScope sc s) ss
end

/-- The calls of a function. -/
def scF (f : SFn) : List Vars :=
  match f.body with
  | .block ss => scB f.params ss
  | .expr e => callsIn f.params e
  | .cons _ _ _ => [f.params]

/-- Each call of the code has a map, and it has the slots of all pointer variables that are in scope in the source. -/
def SrcRooted (alloc : String) (L : Lib) (n : Nat) (f : SFn) (lbl : Nat) : Prop :=
  ∃ ms, maps (genFunc alloc (lowF L n f) lbl).1 = [] :: ms ∧ ms.length = (scF f).length ∧
    ∀ (i : Nat) (sc : Vars) (m : List Nat), (scF f)[i]? = some sc → ms[i]? = some m →
      ∀ x t, (x, t) ∈ sc → t.kind.isPointer = true → (lowF L n f).slot x ∈ m

/-- **The claim.** -/
def C92_claim : Prop := ∀ (alloc : String) (L : Lib) (n : Nat) (f : SFn) (lbl : Nat), L.asEnumInfo.ext = false →
  Ev.panic ∉ (genFunc alloc (lowF L n f) lbl).1 → (lowF L n f).body.direct = true → (f.params.map (·.1)).Nodup → SrcRooted alloc L n f lbl

mutual
/-- No loop goes over an array of pointers. -/
def flatS : SS → Bool
  | .ifs c => flatC c
  | .loop _ b => flatB b
  | .forR _ _ _ _ b => flatB b
  | .forA _ t _ b => !t.kind.isPointer && flatB b
  | .match_ _ cs => flatM cs
  | _ => true
def flatC : SCh → Bool
  | .done => true
  | .els b => flatB b
  | .cond _ b next => flatB b && flatC next
def flatB : SSs → Bool
  | .nil => true
  | .cons s ss => flatS s && flatB ss
def flatM : SCs → Bool
  | .nil => true
  | .cons _ _ b next => flatB b && flatM next
end

def SFn.flat (f : SFn) : Bool :=
  match f.body with
  | .block ss => flatB ss
  | _ => true

/-! ### What holds -/

mutual
theorem sitesE_length (e : Expr) (u u' : List TyR) (ts ts' : List Temp) : (sitesE e u ts).length = (sitesE e u' ts').length := by
  cases e with
  | int | bool | str | typ | fnRef | var => rfl
  | bin _ _ l r => simp only [sitesE, List.length_append]; rw [sitesE_length l u u' ts ts', sitesE_length r u u' _ (ts' ++ [.left l.ty])]
  | un _ _ e => exact sitesE_length e u u' ts ts'
  | tern _ c a b => simp only [sitesE, List.length_append]; rw [sitesE_length c u u' ts ts', sitesE_length a u u' ts ts', sitesE_length b u u' ts ts']
  | arrLit _ e => exact sitesE_length e u u' ts ts'
  | callFn _ fi args => simp only [sitesE, List.length_append]; rw [sitesL_length args [] [] _ (ts' ++ waiting 0 u')]; split <;> rfl
  | callVar _ fi args => simp only [sitesE, List.length_append]; rw [sitesL_length args [] [] _ (ts' ++ waiting 0 u')]; split <;> rfl
  | callExpr e fi args =>
    simp only [sitesE, List.length_append]
    rw [sitesL_length args [] [] _ (ts' ++ [.callee e.ty] ++ waiting 0 u'), sitesE_length e u u' ts ts']; split <;> rfl
  | dot _ e _ => exact sitesE_length e u u' ts ts'
  | index _ a i => simp only [sitesE, List.length_append]; rw [sitesE_length a u u' ts ts', sitesE_length i u u' _ (ts' ++ [.base a.ty])]
theorem sitesL_length (es : List Expr) (u u' : List TyR) (ts ts' : List Temp) : (sitesL es u ts).length = (sitesL es u' ts').length := by
  cases es with
  | nil => rfl
  | cons e es => simp only [sitesL, List.length_append]; rw [sitesE_length e u u' ts ts', sitesL_length es _ (u' ++ [e.ty]) ts ts']
end

/-- The site has the pointer variables of the scope. -/
def SiteHas (s : Site) (sc : Vars) : Prop := ∀ p ∈ sc, p.2.kind.isPointer = true → p ∈ s.vars

def Wider (sc sc' : Vars) : Prop := ∀ p ∈ sc, p.2.kind.isPointer = true → p ∈ sc'

theorem Wider.add {sc sc' : Vars} (h : Wider sc sc') (p : Nat × TyR) : Wider (sc ++ [p]) (sc' ++ [p]) := by
  intro q hq hp
  rcases List.mem_append.1 hq with hq | hq
  · exact List.mem_append_left _ (h q hq hp)
  · exact List.mem_append_right _ hq

theorem Wider.more {sc sc' : Vars} (h : Wider sc sc') (l : Vars) : Wider sc (sc' ++ l) :=
  fun q hq hp => List.mem_append_left _ (h q hq hp)

theorem Wider.plain {sc sc' : Vars} (h : Wider sc sc') {p : Nat × TyR} (hp : p.2.kind.isPointer = false) : Wider (sc ++ [p]) sc' := by
  intro q hq hq'
  rcases List.mem_append.1 hq with hq | hq
  · exact h q hq hq'
  · cases List.mem_singleton.1 hq; rw [hp] at hq'; cases hq'

theorem has_calls {sc sc' : Vars} (h : Wider sc sc') {l : List (List Temp)} {e : Expr} (hl : l.length = (sitesE e [] []).length) :
    All2 SiteHas (siteAt sc' l) (callsIn sc e) := by
  simp only [siteAt, callsIn]
  generalize sitesE e [] [] = k at hl
  induction l generalizing k with
  | nil => cases k with
    | nil => exact .nil
    | cons => cases hl
  | cons a l ih => cases k with
    | nil => cases hl
    | cons b k => exact .cons h (ih k (by simpa using hl))

theorem sitesB_inc (sc : Vars) (b : Stmts) (x : Nat) (d : Int) : sitesB sc (b.app (one (inc x d))) = sitesB sc b := by
  cases b with
  | nil => simp [Stmts.app, one, inc, sitesB, sitesS, sitesE, siteAt]
  | cons s ss => simp only [Stmts.app, sitesB]; rw [sitesB_inc _ ss]

theorem field_sites (L : Lib) (hL : L.asEnumInfo.ext = false) (tmp : Nat) (tt t : TyR) (off : Nat) (ts : List Temp) :
    sitesE (field L tmp tt t off) [] ts = [ts] := by
  simp [field, sitesE, sitesL, hL, waiting]

theorem has_case (L : Lib) (hL : L.asEnumInfo.ext = false) (tmp : Nat) (tt : TyR) (vars : Vars) : ∀ {sc sc' : Vars} (i : Nat) {b : Stmts} {k : List Vars},
    Wider sc sc' → (∀ sc2, Wider (sc ++ vars) sc2 → All2 SiteHas (sitesB sc2 b) k) →
    All2 SiteHas (sitesB sc' ((caseVars L tmp tt i vars).app b)) (caseCalls sc vars ++ k) := by
  induction vars with
  | nil => intro sc sc' i b k h hb; exact hb sc' (by simpa using h)
  | cons v vs ih =>
    intro sc sc' i b k h hb
    obtain ⟨x, t⟩ := v
    simp only [caseVars, Stmts.app, sitesB, sitesS, field_sites L hL, sitesE, siteAt, List.map_cons, List.map_nil, List.append_nil, List.cons_append,
      List.nil_append, caseCalls, Stmt.scope]
    exact .cons h (ih (i + 1) (h.add (x, t)) (fun sc2 h2 => hb sc2 (by simpa using h2)))

theorem lowS_scope {sc sc' : Vars} (h : Wider sc sc') (L : Lib) (s : SS) (n : Nat) : Wider (srcScope sc s) ((lowS L s n).1.scope sc') := by
  cases s with
  | asg d l r =>
    cases d with
    | false => exact h
    | true => cases l <;> first | exact h | exact h.add _
  | match_ e cs => simp only [lowS, srcScope]; split <;> exact h
  | _ => exact h

mutual
theorem has_S (L : Lib) (hL : L.asEnumInfo.ext = false) (s : SS) {sc sc' : Vars} (n : Nat) (h : Wider sc sc') (hf : flatS s = true) :
    All2 SiteHas (sitesS sc' (lowS L s n).1) (scS sc s) := by
  cases s with
  | ret e => cases e with
    | none => exact .nil
    | some e => exact has_calls h rfl
  | ifs c => exact has_C L hL c n h hf
  | asg d l r => exact (has_calls h rfl).append (has_calls h (sitesE_length _ _ _ _ _))
  | loop c b => exact (has_calls h rfl).append (has_B L hL b n h hf)
  | expr e => exact has_calls h rfl
  | forR x lo hi zero b =>
    simp only [lowS, sitesS, sitesB, one, scS, Stmt.scope, List.append_nil]
    have hb := has_B L hL b n (h.add (x, tInt)) hf
    refine All2.append ?_ (All2.append ?_ ?_)
    · have := has_calls h (e := lo) (l := sitesE (if zero then .bin .add tInt lo (.int (-1)) else lo) [] [])
        (by split <;> simp [sitesE])
      simpa [sitesE, siteAt] using this
    · refine has_calls (h.more _) ?_
      split
      · simp [sitesE]
      · simpa [sitesE] using sitesE_length _ _ _ _ _
    · split <;> (have := sitesB_inc (sc' ++ [(x, tInt)]) (lowL L b n).1 x; simp only [one] at this; rw [this]; exact hb)
  | forA x t arr b =>
    simp only [flatS, Bool.and_eq_true, Bool.not_eq_true'] at hf
    have hb (sc2 : Vars) (h2 : Wider sc sc2) := has_B L hL b n (h2.plain (p := (x, t)) hf.1) hf.2
    have hi (sc2 : Vars) (i : Nat) := sitesB_inc sc2 (lowL L b n).1 i 1
    simp only [one] at hi
    have other (e : Expr) (i : Nat) : All2 SiteHas
        (sitesS sc' (.block (.cons (.asg true (.var i tInt) (.int 0)) (one (.loop (.bin .lt tBool (.var i tInt) (.dot tInt e 0))
          (.cons (.asg false (.var x t) (.index t e (.var i tInt))) ((lowL L b n).1.app (one (inc i 1)))))))))
        (callsIn sc e ++ (callsIn sc e ++ scB (sc ++ [(x, t)]) b)) := by
      simp only [sitesS, sitesB, one, Stmt.scope, sitesE, List.append_nil, List.nil_append, siteAt, List.map_nil, hi]
      exact All2.append (has_calls (h.more _) (sitesE_length _ _ _ _ _)) ((has_calls (h.more _) rfl).append (hb _ (h.more _)))
    cases arr with
    | arrLit _ e =>
      simp only [lowS, loopArray, sitesS, sitesB, one, scS, Stmt.scope, sitesE, List.append_nil, List.nil_append, siteAt, List.map_nil, hi]
      exact (has_calls h rfl).append (hb _ ((h.more _).more _))
    | _ => exact other _ _
  | match_ e cs =>
    cases cs with
    | nil =>
      simp only [lowS, sitesS, sitesB, one, scS, scM, List.append_nil, sitesE, siteAt, List.map_nil]
      exact has_calls h rfl
    | cons tag vars b next =>
      simp only [lowS, sitesS, sitesB, one, scS, List.append_nil, sitesE, Stmt.scope]
      refine All2.append ?_ (has_M L hL _ n e.ty (n + 1) (h.more _) hf)
      simpa [siteAt] using has_calls h rfl
theorem has_M (L : Lib) (hL : L.asEnumInfo.ext = false) (cs : SCs) {sc sc' : Vars} (tmp : Nat) (tt : TyR) (n : Nat) (h : Wider sc sc') (hf : flatM cs = true) :
    All2 SiteHas (sitesC sc' (lowM L cs tmp tt n).1) (scM sc cs) := by
  cases cs with
  | nil => exact .nil
  | cons tag vars b next =>
    simp only [flatM, Bool.and_eq_true] at hf
    simp only [lowM, sitesC, scM, sitesE, field_sites L hL, siteAt, List.append_nil, List.map_cons, List.map_nil, List.cons_append, List.nil_append]
    refine .cons h (All2.append ?_ (has_M L hL next tmp tt _ h hf.2))
    exact has_case L hL tmp tt vars 0 h (fun sc2 h2 => has_B L hL b n h2 hf.1)
theorem has_C (L : Lib) (hL : L.asEnumInfo.ext = false) (c : SCh) {sc sc' : Vars} (n : Nat) (h : Wider sc sc') (hf : flatC c = true) :
    All2 SiteHas (sitesC sc' (lowC L c n).1) (scC sc c) := by
  cases c with
  | done => exact .nil
  | els b => exact has_B L hL b n h hf
  | cond c b next =>
    simp only [flatC, Bool.and_eq_true] at hf
    exact (has_calls h rfl).append ((has_B L hL b n h hf.1).append (has_C L hL next _ h hf.2))
theorem has_B (L : Lib) (hL : L.asEnumInfo.ext = false) (b : SSs) {sc sc' : Vars} (n : Nat) (h : Wider sc sc') (hf : flatB b = true) :
    All2 SiteHas (sitesB sc' (lowL L b n).1) (scB sc b) := by
  cases b with
  | nil => exact .nil
  | cons s ss =>
    simp only [flatB, Bool.and_eq_true] at hf
    exact (has_S L hL s n h hf.1).append (has_B L hL ss _ (lowS_scope h L s n) hf.2)
end

theorem has_F (L : Lib) (hL : L.asEnumInfo.ext = false) (n : Nat) (f : SFn) (hf : SFn.flat f = true) :
    All2 SiteHas (lowF L n f).sites (scF f) := by
  have h0 : Wider f.params f.params := fun _ h _ => h
  simp only [FnDef.sites, scF, lowF, lowB, SFn.flat] at hf ⊢
  cases hb : f.body with
  | block ss => rw [hb] at hf; exact has_B L hL ss n h0 hf
  | expr e => exact has_calls h0 rfl
  | cons => exact .cons h0 .nil

theorem all2_get' {α β : Type} {R : α → β → Prop} {a : List α} {b : List β} (h : All2 R a b) : ∀ {i : Nat} {y : β}, b[i]? = some y →
    ∃ x, a[i]? = some x ∧ R x y := by
  induction h with
  | nil => intro i y hy; simp at hy
  | cons h _ ih =>
    intro i y hy
    cases i with
    | zero => cases hy; exact ⟨_, rfl, h⟩
    | succ i => exact ih (by simpa using hy)

/-- **C92 without loops over arrays of pointers.**
What is missing: functions in which a loop goes over an array of pointers; see `C92_violated`. -/
theorem C92_partial (alloc : String) (L : Lib) (n : Nat) (f : SFn) (lbl : Nat) (hL : L.asEnumInfo.ext = false)
    (hp : Ev.panic ∉ (genFunc alloc (lowF L n f) lbl).1) (hd : (lowF L n f).body.direct = true) (hnd : (f.params.map (·.1)).Nodup)
    (hf : SFn.flat f = true) : SrcRooted alloc L n f lbl := by
  obtain ⟨ms, h1, h2, h3⟩ := C40_live_partial alloc (lowF L n f) lbl hp hd hnd
  have h4 := has_F L hL n f hf
  refine ⟨ms, h1, h2.trans (all2_length h4), fun i sc m hs hm x t hx ht => ?_⟩
  obtain ⟨s, k1, k2⟩ := all2_get' h4 hs
  exact h3 i s m k1 hm x t (k2 _ hx ht) ht

/-! ### The array of a loop over a literal -/

def srLib : Lib := ⟨"asEnum", { ret := ⟨.struct, 0⟩ }, ⟨.array, 0⟩⟩

theorem siteAt_vars {sc : Vars} {l : List (List Temp)} {s : Site} (h : s ∈ siteAt sc l) {p : Nat × TyR} (hp : p ∈ sc) : p ∈ s.vars := by
  obtain ⟨_, -, rfl⟩ := List.mem_map.1 h; exact hp

theorem scope_keeps {sc : Vars} {st : Stmt} {p : Nat × TyR} (hp : p ∈ sc) : p ∈ st.scope sc := by
  unfold Stmt.scope
  split
  · exact List.mem_append_left _ hp
  · exact hp

mutual
theorem keep_S {p : Nat × TyR} : ∀ (st : Stmt) {sc : Vars} {s : Site}, p ∈ sc → s ∈ sitesS sc st → p ∈ s.vars
  | .ret none, _, _, _, h => by cases h
  | .ret (some _), _, _, hp, h => siteAt_vars h hp
  | .ifs c, _, _, hp, h => keep_C c hp h
  | .asg _ _ _, _, _, hp, h => (List.mem_append.1 h).elim (siteAt_vars · hp) (siteAt_vars · hp)
  | .loop _ b, _, _, hp, h => (List.mem_append.1 h).elim (siteAt_vars · hp) (keep_B b hp ·)
  | .block b, _, _, hp, h => keep_B b hp h
  | .expr _, _, _, hp, h => siteAt_vars h hp
theorem keep_C {p : Nat × TyR} : ∀ (c : Chain) {sc : Vars} {s : Site}, p ∈ sc → s ∈ sitesC sc c → p ∈ s.vars
  | .done, _, _, _, h => by cases h
  | .els b, _, _, hp, h => keep_B b hp h
  | .cond _ b n, _, _, hp, h => (List.mem_append.1 h).elim (siteAt_vars · hp)
      (fun h => (List.mem_append.1 h).elim (keep_B b hp ·) (keep_C n hp ·))
theorem keep_B {p : Nat × TyR} : ∀ (b : Stmts) {sc : Vars} {s : Site}, p ∈ sc → s ∈ sitesB sc b → p ∈ s.vars
  | .nil, _, _, _, h => by cases h
  | .cons st ss, _, _, hp, h => (List.mem_append.1 h).elim (keep_S st hp ·) (keep_B ss (scope_keeps hp) ·)
end

theorem decl_sites (sc : Vars) (v : Nat) (t : TyR) (e : Expr) (ss : Stmts) :
    sitesS sc (.block (.cons (.asg true (.var v t) e) ss)) = siteAt sc (sitesE e [] []) ++ sitesB (sc ++ [(v, t)]) ss := by
  simp only [sitesS, sitesB, sitesE, siteAt, List.map_nil, List.append_nil, Stmt.scope]

/-- **The array of a loop over a literal.**  It is first put into a variable, and this variable is in scope at all calls in
the loop (so by C40 it is a root). -/
theorem C92_literal (L : Lib) (x : Nat) (t ty : TyR) (e : Expr) (b : SSs) (n : Nat) : ∃ v ss,
    (lowS L (.forA x t (.arrLit ty e) b) n).1 = .block (.cons (.asg true (.var v L.intArr) e) ss) ∧
    ∀ sc, ∃ rest, sitesS sc (lowS L (.forA x t (.arrLit ty e) b) n).1 = siteAt sc (sitesE e [] []) ++ rest ∧
      ∀ s ∈ rest, (v, L.intArr) ∈ s.vars := by
  simp only [lowS, loopArray]
  exact ⟨_, _, rfl, fun sc => ⟨_, decl_sites sc _ _ _ _, fun s hs => keep_B _ (List.mem_append_right _ (List.mem_singleton.2 rfl)) hs⟩⟩

example : ∃ v, (lowS srLib (.forA 3 rtInt (.arrLit rtInt (.callFn "array" { ret := rtBoxes } [])) (.cons (.expr (.callFn "next" { ret := rtNone } [])) .nil)) 4).1.scope [] = [] ∧
    (sitesS [] (lowS srLib (.forA 3 rtInt (.arrLit rtInt (.callFn "array" { ret := rtBoxes } [])) (.cons (.expr (.callFn "next" { ret := rtNone } [])) .nil)) 4).1).map
      (·.vars.map (·.1)) = [[], [v, v + 1]] := ⟨4, by decide⟩

/-! ### What does not hold -/

/-- `fn f(a: []box, c: box) { for b in a { a[0] = c  next()  a[0] = b } }`. -/
def srF : SFn :=
  { name := "f", params := [(0, rtBoxes), (1, rtBox)], retNothing := true,
    body := .block (.cons (.forA 2 rtBox (.var 0 rtBoxes)
      (.cons (.asg false (.index rtBox (.var 0 rtBoxes) (.int 0)) (.var 1 rtBox))
      (.cons (.expr (.callFn "next" { ret := rtNone } []))
      (.cons (.asg false (.index rtBox (.var 0 rtBoxes) (.int 0)) (.var 2 rtBox)) .nil)))) .nil) }

/-- `struct box { n: int }`, `f` and `fn next() { Box(6) }`. -/
def srSrc : List SFn :=
  [srF, { name := "next", params := [], retNothing := true, body := .block (.cons (.expr (.callFn "Box" { ret := rtBox } [.int 6])) .nil) },
   { name := "Box", params := [(0, rtInt)], body := .cons none "box" 0 }]

def srFns : List FnDef := srSrc.map (lowF srLib 3)

theorem srF_maps : maps (genFunc "alloc" (lowF srLib 3 srF) 0).1 = [[], [1, 2]] := by
  simp only [srF, lowF, lowB, lowL, lowS, loopArray, one, Stmts.app, inc, genFunc, genStmts, genStmtsGo, genStmt]
  decide +kernel

theorem srF_fine : Ev.panic ∉ (genFunc "alloc" (lowF srLib 3 srF) 0).1 := by
  simp only [srF, lowF, lowB, lowL, lowS, loopArray, one, Stmts.app, inc, genFunc, genStmts, genStmtsGo, genStmt]
  decide +kernel

/-- **C92 fails.**  At the call of `next` in `f` the variable `b` is in scope, and the map has the slots of `a` and `c` only. -/
theorem C92_violated : ¬ C92_claim := by
  intro claim
  obtain ⟨ms, h1, -, h3⟩ := claim "alloc" srLib 3 srF 0 rfl srF_fine (by decide) (by decide)
  rw [srF_maps] at h1
  cases h1
  exact absurd (h3 0 [(0, rtBoxes), (1, rtBox), (2, rtBox)] [1, 2] (by decide) rfl 2 rtBox (by decide) (by decide)) (by decide)

/-- `fn g(a: []int, s: string, o: option) { for i in a { t := s  next() }  match o { case some(u): next()  case none(): next() } }`. -/
def srG : SFn :=
  { name := "g", params := [(0, rtBoxes), (1, rtStr), (2, rtBox)], retNothing := true,
    body := .block (.cons (.forA 3 rtInt (.var 0 rtBoxes)
        (.cons (.asg true (.var 4 rtStr) (.var 1 rtStr)) (.cons (.expr (.callFn "next" { ret := rtNone } [])) .nil)))
      (.cons (.match_ (.var 2 rtBox)
        (.cons 0 [(5, rtStr)] (.cons (.expr (.callFn "next" { ret := rtNone } [])) .nil)
        (.cons 1 [] (.cons (.expr (.callFn "next" { ret := rtNone } [])) .nil) .nil))) .nil)) }

theorem srG_fine : Ev.panic ∉ (genFunc "alloc" (lowF srLib 6 srG) 0).1 := by
  simp only [srG, lowF, lowB, lowL, lowS, lowM, caseVars, field, loopArray, one, Stmts.app, inc, genFunc, genStmts, genStmtsGo, genStmt, genChain]
  decide +kernel

example : SrcRooted "alloc" srLib 6 srG 0 := C92_partial "alloc" srLib 6 srG 0 rfl srG_fine (by decide) (by decide) (by decide)

/-- Six calls: of `next` in the loop, of `asEnum` for the tag and for `u`, of `next`, of `asEnum` for the second case, of `next`. -/
example : (scF srG).map (·.map (·.1)) = [[0, 1, 2, 3, 4], [0, 1, 2], [0, 1, 2], [0, 1, 2, 5], [0, 1, 2], [0, 1, 2]] := by decide

/-- `fn h(o: option, c: bool) { match o { case some(u): if c {}  case none(): next() } }`. -/
def srH : SFn :=
  { name := "h", params := [(0, rtBox), (1, rtBool)], retNothing := true,
    body := .block (.cons (.match_ (.var 0 rtBox)
      (.cons 0 [(2, rtStr)] (.cons (.ifs (.cond (.var 1 rtBool) .nil .done)) .nil)
      (.cons 1 [] (.cons (.expr (.callFn "next" { ret := rtNone } [])) .nil) .nil))) .nil) }

/-- **Variables of other cases.**  In `h` the variable `u` of the first case is in the map of the call of `next` in the second case, where
it is not in scope and its slot may never have been written (C93 has what can come of that). -/
theorem C92_other_case : (maps (genFunc "alloc" (lowF srLib 3 srH) 0).1)[4]? = some [1, 3, 4] ∧ (lowF srLib 3 srH).slot 2 = 4 ∧
    (scF srH)[3]? = some [(0, rtBox), (1, rtBool)] ∧ (scF srH).length = 4 := by
  refine ⟨?_, by decide, by decide, by decide⟩
  simp only [srH, lowF, lowB, lowL, lowS, lowM, lowC, caseVars, field, loopArray, one, Stmts.app, inc, genFunc, genStmts, genStmtsGo, genStmt, genChain]
  decide +kernel

/-- **C73 for functions without values on the stack.**  As `C73_claim`, for functions of the source in which nothing waits on the
stack at any call. -/
def C92_freed_claim : Prop :=
  ∀ (I : Image Word) (alloc ioob : String) (L : Lib) (n : Nat) (fs : List SFn) (top p0 : Nat) (m0 : Mach Word),
    Entered I alloc ioob (fs.map (lowF L n)) top p0 m0 → L.asEnumInfo.ext = false →
    (∀ fd ∈ fs.map (lowF L n), fd.body.direct = true) → (∀ fd ∈ fs.map (lowF L n), (fd.params.map (·.1)).Nodup) →
    (∀ fd ∈ fs.map (lowF L n), ∀ site ∈ fd.sites, site.temps = []) →
    ∀ p m s, Active I top (p0, m0) (p, m) s → I.code[p]? = some (.ins (.call alloc)) →
    ∀ l, walkFrames I m.mem (m0.reg .rsp - 8) s.length (m.reg .rbp) = some l →
    ∀ table hp addrs runtime, Gc.WF table hp addrs → HeapIs hp m →
      (∀ w ∈ frameRoots m.mem l ++ [runtime], Gc.isReal w = true → ∃ x, hp.block (w - 16) = some x) →
    ∀ hp', Gc.Ends (Gc.gc table (gcOwn l) (gcFrames m.mem l) runtime) hp () hp' →
    ∀ m1, Step I (p, m) (p + 2, m1) → ∀ q mq r a, Quiet I (p + 2, m1) (q, mq) → I.code[q]? = some (.ins (.mov (.reg r) (.mem a))) →
      a.base ≠ .rbp → mq.reg r ≠ m1.reg .rax → ∀ b ∈ addrs, mq.reg r = b + 16 → ∃ x, hp'.block b = some x

/-- The image, with code that the kernel can compute. -/
def srImage : Image Word where
  code := peepWith false (cProg "alloc" "ioob" srFns)
  opt := false
  base := 4096
  isize := fun _ => 4
  str := fun _ => 0
  cfun := fun _ _ _ => False
  rt := bumpCode "alloc"

theorem srImage_eq : srImage = bumpImage false "alloc" "ioob" srFns (fun _ => 0) := by
  rw [srImage, bumpImage, cProg_eq]

/-- `f` is entered with an array of one element at address 32768, which is the box at 40960, and the box at 36864; new objects are
at 49152 and after. -/
def srMach : Mach Word where
  reg := fun r => if r = .rsp then 65544 else if r = .rdi then 32768 else if r = .rsi then 36864 else 0
  mem := fun a => if a = 32768 then 3 else if a = 32776 then 40960 else if a = 36864 then 5 else if a = 40960 then 11 else 0
  flags := none
  ext := 49152

theorem srEntered : Entered srImage "alloc" "ioob" srFns (2 ^ 60) 1 srMach := by
  have X : Ctx _ (bumpImage false "alloc" "ioob" srFns (fun _ => 0)) _ 65536 (2 ^ 60) :=
    bump_ctx' _ (by decide +kernel) (by decide +kernel) (by decide +kernel) (by decide +kernel) (by decide +kernel) (by decide +kernel)
  rw [← srImage_eq] at X
  exact ⟨X.loaded, X.nopanic, by decide +kernel, ⟨"f", by decide +kernel⟩, by decide, by decide⟩

/-- Up to the call of the allocator, made by `Box` for `next`. -/
def srRun := actRun' srImage (2 ^ 60) (bumpFn "alloc") 77 (1, srMach, [])

theorem srRun_pos : srRun.map (·.1) = some 126 := by decide +kernel
theorem srRun_code : srImage.code[126]? = some (.ins (.call "alloc")) := by decide +kernel
theorem srRun_len : srRun.map (fun y => y.2.2.length) = some 2 := by decide +kernel
theorem srRun_walk : srRun.bind (fun y => walkFrames srImage y.2.1.mem 65536 2 (y.2.1.reg .rbp)) = some [(65488, []), (65536, [1, 2])] := by decide +kernel
theorem srRun_roots : srRun.map (fun y => frameRoots y.2.1.mem [(65488, []), (65536, [1, 2])]) = some [32768, 36864] := by decide +kernel
theorem srRun_words : srRun.map (fun y => [y.2.1.mem 32768, y.2.1.mem 32776, y.2.1.mem 36864, y.2.1.mem 40960]) = some [3, 36864, 5, 11] := by
  decide +kernel
theorem srRun_find : srImage.find (.fn "alloc") = none := by decide +kernel
theorem srRun_aligned : srRun.map (fun y => (y.2.1.reg .rsp).toNat % 16) = some 0 := by decide +kernel

/-- From there to the second assignment. -/
def srLater := (srRun.bind (fun y => bumpFn "alloc" "alloc" y.2.1)).bind (fun m1 => quietRun srImage 27 (128, m1))

theorem srLater_pos : srLater.map (·.1) = some 83 := by decide +kernel
theorem srLater_code : srImage.code[83]? = some (.ins (.mov (.reg .rbx) (.mem { base := .rax }))) := by decide +kernel
theorem srLater_val : srLater.map (fun c => c.2.reg .rbx) = some 40960 := by decide +kernel
theorem srLater_new : (srRun.bind (fun y => bumpFn "alloc" "alloc" y.2.1)).map (fun m1 => m1.reg .rax) = some 49152 := by decide +kernel

def srTable : List Gc.TypeInfo := [.struct [], .array true]

/-- The array, the box `c` and the box `b`. -/
def srHeap : Gc.Heap where
  block := fun b =>
    if b = 32752 then some ⟨36848, Gc.newHeader 1, [3, 36864]⟩
    else if b = 36848 then some ⟨40944, Gc.newHeader 0, [5]⟩
    else if b = 40944 then some ⟨0, Gc.newHeader 0, [11]⟩
    else none
  blocks := 32752

theorem srHeap_cases {b : Word} {x : Gc.Block} (h : srHeap.block b = some x) :
    (b = 32752 ∧ x = ⟨36848, Gc.newHeader 1, [3, 36864]⟩) ∨ (b = 36848 ∧ x = ⟨40944, Gc.newHeader 0, [5]⟩) ∨
    (b = 40944 ∧ x = ⟨0, Gc.newHeader 0, [11]⟩) := by
  simp only [srHeap] at h
  split at h
  · rename_i e; cases h; exact .inl ⟨e, rfl⟩
  · split at h
    · rename_i e; cases h; exact .inr (.inl ⟨e, rfl⟩)
    · split at h
      · rename_i e; cases h; exact .inr (.inr ⟨e, rfl⟩)
      · cases h

/-- The only pointer in the objects is to `c`. -/
theorem srHeap_points {b : Word} {x : Gc.Block} (h : srHeap.block b = some x) {w : Word} (hp : Gc.Points srTable x w) : w = 36864 := by
  have h0 : Gc.typeId (Gc.newHeader 0) = 0 := by decide +kernel
  rcases srHeap_cases h with ⟨-, rfl⟩ | ⟨-, rfl⟩ | ⟨-, rfl⟩
  · have ht : Gc.typeId (Gc.newHeader 1) = 1 := by decide +kernel
    cases hp with
    | field id roots r ht' hi =>
      rw [ht] at ht'
      have : id = 1 := by omega
      subst this
      cases hi
    | elem id len i ht' hi hl hlt hw =>
      cases hl
      have hn : Gc.intOf 3 = 1 := by decide +kernel
      rw [hn] at hlt
      have : i = 0 := by omega
      subst this
      cases hw
      rfl
  all_goals
    cases hp with
    | field id roots r ht' hi hr =>
      rw [h0] at ht'
      have : id = 0 := by omega
      subst this
      cases hi
      cases hr
    | elem id len i ht' hi =>
      rw [h0] at ht'
      have : id = 0 := by omega
      subst this
      cases hi

theorem srWF : Gc.WF srTable srHeap [32752, 36848, 40944] where
  nodup := by decide +kernel
  alloc := by
    intro b
    constructor
    · intro hb
      simp only [List.mem_cons, List.not_mem_nil, or_false] at hb
      rcases hb with rfl | rfl | rfl
      · exact ⟨_, rfl, by decide +kernel⟩
      · exact ⟨_, rfl, by decide +kernel⟩
      · exact ⟨_, rfl, by decide +kernel⟩
    · rintro ⟨x, hx, -⟩
      rcases srHeap_cases hx with ⟨rfl, -⟩ | ⟨rfl, -⟩ | ⟨rfl, -⟩ <;> decide
  valid := by
    intro b hb
    simp only [List.mem_cons, List.not_mem_nil, or_false] at hb
    rcases hb with rfl | rfl | rfl <;> exact valid_of (by decide) (by decide)
  shaped := by
    intro b x hx
    rcases srHeap_cases hx with ⟨rfl, rfl⟩ | ⟨rfl, rfl⟩ | ⟨rfl, rfl⟩
    · exact ⟨1, .array true, by decide +kernel, rfl, fun _ => ⟨3, rfl, by decide +kernel⟩⟩
    · exact ⟨0, .struct [], by decide +kernel, rfl, fun _ => by simp⟩
    · exact ⟨0, .struct [], by decide +kernel, rfl, fun _ => by simp⟩
  closed := by
    intro b x w hx _ hp hr
    cases srHeap_points hx hp
    exact ⟨_, rfl⟩
  unmarked := by
    intro b x hx
    rcases srHeap_cases hx with ⟨-, rfl⟩ | ⟨-, rfl⟩ | ⟨-, rfl⟩ <;> decide
  chain := ⟨rfl, _, rfl, rfl, _, rfl, rfl, _, rfl, rfl⟩

theorem srFacts' (im : Image Word) (n : Nat) (y : Option (Nat × Mach Word × List (Cfg Word))) (z : Option (Cfg Word))
    (hef : ∀ f m m', bumpFn "alloc" f m = some m' → im.rt f m m' ∧ Kept (2 ^ 60) m m')
    (ha : ∀ p m s, y = some (p, m, s) → Active im (2 ^ 60) (1, srMach) (p, m) s)
    (hz : z = (y.bind (fun y => bumpFn "alloc" "alloc" y.2.1)).bind (fun m1 => quietRun im n (128, m1)))
    (e1 : y.map (·.1) = some 126) (e2 : y.map (fun y => y.2.2.length) = some 2)
    (e3 : y.bind (fun y => walkFrames im y.2.1.mem 65536 2 (y.2.1.reg .rbp)) = some [(65488, []), (65536, [1, 2])])
    (e4 : y.map (fun y => frameRoots y.2.1.mem [(65488, []), (65536, [1, 2])]) = some [32768, 36864])
    (e5 : y.map (fun y => [y.2.1.mem 32768, y.2.1.mem 32776, y.2.1.mem 36864, y.2.1.mem 40960]) = some [3, 36864, 5, 11])
    (e6 : y.map (fun y => (y.2.1.reg .rsp).toNat % 16) = some 0) (e7 : z.map (·.1) = some 83)
    (e8 : z.map (fun c => c.2.reg .rbx) = some 40960)
    (e9 : (y.bind (fun y => bumpFn "alloc" "alloc" y.2.1)).map (fun m1 => m1.reg .rax) = some 49152) :
    ∃ m s m1 mq, Active im (2 ^ 60) (1, srMach) (126, m) s ∧ s.length = 2 ∧
    walkFrames im m.mem 65536 2 (m.reg .rbp) = some [(65488, []), (65536, [1, 2])] ∧
    frameRoots m.mem [(65488, []), (65536, [1, 2])] = [32768, 36864] ∧ [m.mem 32768, m.mem 32776, m.mem 36864, m.mem 40960] = [3, 36864, 5, 11] ∧
    (m.reg .rsp).toNat % 16 = 0 ∧ im.rt "alloc" m m1 ∧ Quiet im (128, m1) (83, mq) ∧ mq.reg .rbx = 40960 ∧ m1.reg .rax = 49152 := by
  cases y with
  | none => cases e1
  | some y =>
    obtain ⟨p, m, s⟩ := y
    simp only [Option.map_some, Option.bind_some, Option.some.injEq] at e1 e2 e3 e4 e5 e6 e9 hz
    subst e1
    cases hm1 : bumpFn "alloc" "alloc" m with
    | none => rw [hm1] at e9; cases e9
    | some m1 =>
      rw [hm1] at e9 hz
      simp only [Option.map_some, Option.bind_some, Option.some.injEq] at e9 hz
      obtain ⟨mq, hq⟩ := fst_some e7
      rw [hq] at e8 hz
      simp only [Option.map_some, Option.some.injEq] at e8
      exact ⟨m, s, m1, mq, ha _ _ _ rfl, e2, e3, e4, e5, e6, (hef _ _ _ hm1).1, quietRun_quiet .refl hz.symm, e8, e9⟩

theorem srFn (f : String) (m m' : Mach Word) (h : bumpFn "alloc" f m = some m') : srImage.rt f m m' ∧ Kept (2 ^ 60) m m' := by
  rw [srImage_eq]
  exact bumpFn_ok f m m' h

theorem srActive (p : Nat) (m : Mach Word) (s : List (Cfg Word)) (h : srRun = some (p, m, s)) :
    Active srImage (2 ^ 60) (1, srMach) (p, m) s := by
  rw [srRun] at h
  exact actRun'_active srFn (c0 := (1, srMach)) Active.start h

/-- **The object in the variable of a loop is freed.**  `srSrc`: the collection in `next` frees the box `b`, and its address is stored
in the array. -/
theorem C92_violated_freed : ¬ C92_freed_claim := by
  intro claim
  obtain ⟨m, s, m1, mq, ha, e2, e3, e4, e5, e6, hrt, hq, e8, e9⟩ := srFacts' srImage 27 srRun srLater srFn srActive (by rw [srLater])
    srRun_pos srRun_len srRun_walk srRun_roots srRun_words srRun_aligned srLater_pos srLater_val srLater_new
  have hr0 : Gc.isReal 0 = false := by
    have : ¬ Gc.isReal 0 = true := by rw [Gc.isReal_iff]; decide
    simpa using this
  have hwalk : walkFrames srImage m.mem (srMach.reg .rsp - 8) s.length (m.reg .rbp) = some [(65488, []), (65536, [1, 2])] := by
    rw [e2, show srMach.reg .rsp - 8 = 65536 from by decide +kernel]; exact e3
  have hroots : ∀ w ∈ frameRoots m.mem [(65488, []), (65536, [1, 2])] ++ [0], Gc.isReal w = true → ∃ x, srHeap.block (w - 16) = some x := by
    intro w hw hr
    rw [e4] at hw
    simp only [List.cons_append, List.nil_append, List.mem_cons, List.not_mem_nil, or_false] at hw
    rcases hw with rfl | rfl | rfl
    · exact ⟨_, rfl⟩
    · exact ⟨_, rfl⟩
    · rw [hr0] at hr; cases hr
  have hroots' := hroots
  rw [← rootWords_walk] at hroots'
  obtain ⟨hp', kept, g1, -, g3, -, g5, -⟩ := C41 srWF (gcOwn _) (gcFrames m.mem _) 0 hroots'
  have hnot : (40944 : Word) ∉ kept := by
    rw [g3]
    rintro ⟨-, hreach⟩
    rw [rootWords_walk, e4] at hreach
    have : ∀ b, Gc.Reach srTable srHeap ([32768, 36864] ++ [0]) b → b = 32752 ∨ b = 36848 := by
      intro b hb
      induction hb with
      | root hw hr =>
        simp only [List.cons_append, List.nil_append, List.mem_cons, List.not_mem_nil, or_false] at hw
        rcases hw with rfl | rfl | rfl
        · exact .inl rfl
        · exact .inr rfl
        · rw [hr0] at hr; cases hr
      | step _ hx _ hp hr =>
        cases srHeap_points hx hp; exact .inr rfl
    rcases this _ hreach with h | h <;> exact absurd h (by decide)
  have hheap : HeapIs srHeap m := by
    intro b x hx i w hw
    simp only [List.cons.injEq, and_true] at e5
    obtain ⟨e51, e52, e53, e54⟩ := e5
    rcases srHeap_cases hx with ⟨rfl, rfl⟩ | ⟨rfl, rfl⟩ | ⟨rfl, rfl⟩
    · match i, hw with
      | 0, hw =>
        cases hw
        rw [show (32752 : Word) + 16 + BitVec.ofNat 64 (8 * 0) = 32768 from by decide]
        exact e51
      | 1, hw =>
        cases hw
        rw [show (32752 : Word) + 16 + BitVec.ofNat 64 (8 * 1) = 32776 from by decide]
        exact e52
    · match i, hw with
      | 0, hw =>
        cases hw
        rw [show (36848 : Word) + 16 + BitVec.ofNat 64 (8 * 0) = 36864 from by decide]
        exact e53
    · match i, hw with
      | 0, hw =>
        cases hw
        rw [show (40944 : Word) + 16 + BitVec.ofNat 64 (8 * 0) = 40960 from by decide]
        exact e54
  obtain ⟨x, hx⟩ := claim srImage "alloc" "ioob" srLib 3 srSrc (2 ^ 60) 1 srMach srEntered rfl (by decide) (by decide) (by decide) 126 m s ha
    srRun_code _ hwalk srTable srHeap [32752, 36848, 40944] 0 srWF hheap hroots hp' g1 m1 (.callRt srRun_code e6 srRun_find hrt) 83 mq .rbx
    { base := .rax } hq srLater_code (by decide) (by rw [e8, e9]; decide) 40944 (by decide) (by rw [e8]; decide)
  rw [g5 _ (by decide) hnot] at hx
  cases hx

end Clara.Props
