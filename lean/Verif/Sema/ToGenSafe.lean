import Verif.Sema.ToGen
import Verif.Sema.Typing
import Verif.Gen.NoPanic
set_option linter.unusedVariables false
set_option linter.unusedSimpArgs false
/-
Checked trees become trees that the code generator can handle.
-/
namespace Clara.Sema.Chk
open Clara.Types
open Clara.Gen (TK TyR Expr safeL directL Stmt Stmts Chain)
open Clara.Sema

/-! ### What the checker does not look at -/

mutual
/-- `..` stands in `for` only, only integers are compared, calls of function values have at most five arguments,
and what is called `printf` or `debug` is a function. -/
def X.sane : X → Prop
  | .lit _ _ => True
  | .ident _ _ => True
  | .call f _ args _ => f.sane ∧ saneL args ∧
      (args.length ≤ 5 ∨ ∃ x t s r, f = .ident x ⟨t, some (s :: r)⟩ ∧ s.isGlobal = true) ∧
      (f.name = "printf" ∨ f.name = "debug" → ∃ x t s r d ps q, f = .ident x ⟨t, some (s :: r)⟩ ∧ s.ty = some (.fn d ps q))
  | .bin op l r _ => op ≠ .range ∧ l.sane ∧ r.sane
  | .cmp _ l r _ => l.typ = some (.prim .int) ∧ r.typ = some (.prim .int) ∧ l.sane ∧ r.sane
  | .un _ e _ => e.sane
  | .tern c x y _ => c.sane ∧ x.sane ∧ y.sane
  | .arr es _ => saneL es
  | .index l r _ => l.sane ∧ r.sane
  | .dot l _ _ => l.sane
  | .ty _ _ => True
  | .fnB _ _ ss _ => saneB ss
  | .fnE _ _ e _ => e.sane
def saneL : List X → Prop
  | [] => True
  | x :: xs => x.sane ∧ saneL xs
def S.sane : S → Prop
  | .expr x => x.sane
  | .loop c ss => c.sane ∧ saneB ss
  | .for_ _ _ (.bin .range lo hi _) ss => lo.sane ∧ hi.sane ∧ saneB ss
  | .for_ _ _ e ss => e.sane ∧ saneB ss
  | .ifs c => c.sane
  | .ret0 => True
  | .ret e => e.sane
  | .das _ r => r.sane
  | .asg l r => l.sane ∧ r.sane
  | .match_ e cs => e.sane ∧ saneC cs
def Ch.sane : Ch → Prop
  | .done => True
  | .els ss => saneB ss
  | .cond c ss n => c.sane ∧ saneB ss ∧ n.sane
def saneB : List S → Prop
  | [] => True
  | s :: ss => s.sane ∧ saneB ss
def saneC : List Case → Prop
  | [] => True
  | .mk _ _ _ ss :: cs => saneB ss ∧ saneC cs
end

def FnBody.sane : FnBody → Prop
  | .none_ => True
  | .block ss => saneB ss
  | .expr e => e.sane

/-! ### Results -/

def Sat {α : Type} (r : Tr α) (P : α → Prop) : Prop :=
  match r with
  | .ok a => P a
  | .error .outside => True
  | .error .panic => False

theorem Sat.bind {α β : Type} {r : Tr α} {f : α → Tr β} {P : α → Prop} {Q : β → Prop} (h : Sat r P) (k : ∀ a, P a → Sat (f a) Q) :
    Sat (r >>= f) Q := by
  cases r with
  | ok a => exact k a h
  | error e => cases e <;> exact h

/-! ### Trees for the generator -/

mutual
/-- An expression without panics, in which all calls are calls of functions by name. -/
def okX : Expr → Bool
  | .int _ | .bool _ | .str _ | .typ _ | .fnRef _ _ _ | .var _ _ => true
  | .bin o t l r => o.fits t.kind l.ty.kind r.ty.kind && (okX l && okX r)
  | .un o _ e => o.fits e.ty.kind && okX e
  | .tern _ c x y => okX c && (okX x && okX y)
  | .arrLit _ e => okX e
  | .callFn _ _ args => decide (args.length ≤ 6) && okL args
  | .callVar _ _ _ => false
  | .callExpr _ _ _ => false
  | .dot _ e _ => okX e
  | .index _ a i => i.ty.kind == .integer && (okX a && okX i)
def okL : List Expr → Bool
  | [] => true
  | e :: es => okX e && okL es
end

theorem okL_iff {es : List Expr} : okL es = true ↔ ∀ e ∈ es, okX e = true := by
  induction es with
  | nil => simp [okL]
  | cons e es ih => simp [okL, ih]

mutual
theorem okX_safe : ∀ (e : Expr), okX e = true → e.safe = true ∧ ∀ b, e.direct b = true
  | .int _, _ | .bool _, _ | .str _, _ | .typ _, _ | .fnRef _ _ _, _ | .var _ _, _ => by simp [Expr.safe, Expr.direct]
  | .bin o t l r, h => by
    simp only [okX, Bool.and_eq_true] at h
    simp [Expr.safe, Expr.direct, okX_safe l h.2.1, okX_safe r h.2.2, h.1]
  | .un o t e, h => by
    simp only [okX, Bool.and_eq_true] at h
    simp [Expr.safe, Expr.direct, okX_safe e h.2, h.1]
  | .tern t c x y, h => by
    simp only [okX, Bool.and_eq_true] at h
    simp [Expr.safe, Expr.direct, okX_safe c h.1, okX_safe x h.2.1, okX_safe y h.2.2]
  | .arrLit _ e, h => by
    simp only [okX] at h
    simp [Expr.safe, Expr.direct, okX_safe e h]
  | .callFn _ _ args, h => by
    simp only [okX, Bool.and_eq_true, decide_eq_true_eq] at h
    simp [Expr.safe, Expr.direct, okL_safe args h.2, h.1]
  | .callVar _ _ _, h => by simp [okX] at h
  | .callExpr _ _ _, h => by simp [okX] at h
  | .dot _ e _, h => by
    simp only [okX] at h
    simp [Expr.safe, Expr.direct, okX_safe e h]
  | .index _ a i, h => by
    simp only [okX, Bool.and_eq_true, beq_iff_eq] at h
    simp [Expr.safe, Expr.direct, okX_safe a h.2.1, okX_safe i h.2.2, h.1]
theorem okL_safe : ∀ (es : List Expr), okL es = true → safeL es = true ∧ ∀ b, directL b es = true
  | [], _ => by simp [safeL, directL]
  | e :: es, h => by
    simp only [okL, Bool.and_eq_true] at h
    simp [safeL, directL, okX_safe e h.1, okL_safe es h.2]
end

theorem capX_ty (cs : List Nat) (m : Nat) (t : TyR) (e : Expr) : (capX cs m t e).ty = e.ty := by
  cases e with
  | var x u => by_cases h : x ∈ cs <;> simp [capX, h, Expr.ty]
  | _ => rfl

theorem capL_length (cs : List Nat) (m : Nat) (t : TyR) (es : List Expr) : (capL cs m t es).length = es.length := by
  induction es with
  | nil => rfl
  | cons e es ih => simp [capL, ih]

mutual
theorem okX_cap (cs : List Nat) (m : Nat) (t : TyR) : ∀ (e : Expr), okX e = true → okX (capX cs m t e) = true
  | .int _, _ | .bool _, _ | .str _, _ | .typ _, _ | .fnRef _ _ _, _ => by simp [capX, okX]
  | .var x u, _ => by
    simp only [capX]
    split <;> simp [okX]
  | .bin o u l r, h => by
    simp only [okX, Bool.and_eq_true] at h
    simp [capX, okX, capX_ty, okX_cap cs m t l h.2.1, okX_cap cs m t r h.2.2, h.1]
  | .un o u e, h => by
    simp only [okX, Bool.and_eq_true] at h
    simp [capX, okX, capX_ty, okX_cap cs m t e h.2, h.1]
  | .tern u c x y, h => by
    simp only [okX, Bool.and_eq_true] at h
    simp [capX, okX, okX_cap cs m t c h.1, okX_cap cs m t x h.2.1, okX_cap cs m t y h.2.2]
  | .arrLit _ e, h => by
    simp only [okX] at h
    simp [capX, okX, okX_cap cs m t e h]
  | .callFn _ _ args, h => by
    simp only [okX, Bool.and_eq_true, decide_eq_true_eq] at h
    simp [capX, okX, capL_length, okL_cap cs m t args h.2, h.1]
  | .callVar _ _ _, h => by simp [okX] at h
  | .callExpr _ _ _, h => by simp [okX] at h
  | .dot _ e _, h => by
    simp only [okX] at h
    simp [capX, okX, okX_cap cs m t e h]
  | .index _ a i, h => by
    simp only [okX, Bool.and_eq_true, beq_iff_eq] at h
    simp [capX, okX, capX_ty, okX_cap cs m t a h.2.1, okX_cap cs m t i h.2.2, h.1]
theorem okL_cap (cs : List Nat) (m : Nat) (t : TyR) : ∀ (es : List Expr), okL es = true → okL (capL cs m t es) = true
  | [], _ => rfl
  | e :: es, h => by
    simp only [okL, Bool.and_eq_true] at h
    simp [capL, okL, okX_cap cs m t e h.1, okL_cap cs m t es h.2]
end

mutual
/-- Statements whose expressions are without panics and whose ranges are between integers. -/
def okS : SS → Prop
  | .ret none => True
  | .ret (some e) => okX e = true
  | .ifs c => okCh c
  | .asg _ l r => okX l = true ∧ okX r = true
  | .loop c b => okX c = true ∧ okB b
  | .expr e => okX e = true
  | .forR _ lo hi _ b => okX lo = true ∧ okX hi = true ∧ lo.ty.kind = .integer ∧ hi.ty.kind = .integer ∧ okB b
  | .forA _ _ a b => okX a = true ∧ okB b
  | .match_ e cs => okX e = true ∧ okCs cs
def okCh : SCh → Prop
  | .done => True
  | .els b => okB b
  | .cond c b n => okX c = true ∧ okB b ∧ okCh n
def okB : SSs → Prop
  | .nil => True
  | .cons s ss => okS s ∧ okB ss
def okCs : SCs → Prop
  | .nil => True
  | .cons _ _ b n => okB b ∧ okCs n
end

def okBody : SBody → Prop
  | .block ss => okB ss
  | .expr e => okX e = true
  | .cons _ _ _ => True

mutual
theorem okS_cap (cs : List Nat) (m : Nat) (t : TyR) : ∀ (s : SS), okS s → okS (capS cs m t s)
  | .ret none, _ => trivial
  | .ret (some e), h => okX_cap cs m t e h
  | .ifs c, h => okCh_cap cs m t c h
  | .asg _ l r, h => ⟨okX_cap cs m t l h.1, okX_cap cs m t r h.2⟩
  | .loop c b, h => ⟨okX_cap cs m t c h.1, okB_cap cs m t b h.2⟩
  | .expr e, h => okX_cap cs m t e h
  | .forR _ lo hi _ b, h => ⟨okX_cap cs m t lo h.1, okX_cap cs m t hi h.2.1, by rw [capX_ty]; exact h.2.2.1, by rw [capX_ty]; exact h.2.2.2.1,
      okB_cap cs m t b h.2.2.2.2⟩
  | .forA _ _ a b, h => ⟨okX_cap cs m t a h.1, okB_cap cs m t b h.2⟩
  | .match_ e ks, h => ⟨okX_cap cs m t e h.1, okCs_cap cs m t ks h.2⟩
theorem okCh_cap (cs : List Nat) (m : Nat) (t : TyR) : ∀ (c : SCh), okCh c → okCh (capCh cs m t c)
  | .done, _ => trivial
  | .els b, h => okB_cap cs m t b h
  | .cond c b n, h => ⟨okX_cap cs m t c h.1, okB_cap cs m t b h.2.1, okCh_cap cs m t n h.2.2⟩
theorem okB_cap (cs : List Nat) (m : Nat) (t : TyR) : ∀ (ss : SSs), okB ss → okB (capB cs m t ss)
  | .nil, _ => trivial
  | .cons s ss, h => ⟨okS_cap cs m t s h.1, okB_cap cs m t ss h.2⟩
theorem okCs_cap (cs : List Nat) (m : Nat) (t : TyR) : ∀ (ks : SCs), okCs ks → okCs (capCs cs m t ks)
  | .nil, _ => trivial
  | .cons _ _ b n, h => ⟨okB_cap cs m t b h.1, okCs_cap cs m t n h.2⟩
end

/-! ### Lowering -/

theorem okX_pair {e : Expr} (h : okX e = true) : e.safe = true ∧ e.direct true = true := ⟨(okX_safe e h).1, (okX_safe e h).2 true⟩

theorem app_good {a b : Stmts} (ha : a.safe = true ∧ a.direct = true) (hb : b.safe = true ∧ b.direct = true) :
    (a.app b).safe = true ∧ (a.app b).direct = true := by
  match a with
  | .nil => exact hb
  | .cons s a =>
    simp only [Stmts.safe, Stmts.direct, Bool.and_eq_true] at ha
    have := app_good (a := a) ⟨ha.1.2, ha.2.2⟩ hb
    simp [Gen.Stmts.app, Stmts.safe, Stmts.direct, this, ha.1.1, ha.2.1]

theorem field_ok (L : Lib) (tmp : Nat) (tt t : TyR) (off : Nat) : okX (field L tmp tt t off) = true := by
  simp [field, okX, okL]

theorem caseVars_good (L : Lib) (tmp : Nat) (tt : TyR) : ∀ (vs : List (Nat × TyR)) (i : Nat),
    (caseVars L tmp tt i vs).safe = true ∧ (caseVars L tmp tt i vs).direct = true
  | [], i => by simp [caseVars, Stmts.safe, Stmts.direct]
  | (x, t) :: vs, i => by
    have h := okX_pair (field_ok L tmp tt t (8 * (i + 1)))
    have := caseVars_good L tmp tt vs (i + 1)
    simp [caseVars, Stmts.safe, Stmts.direct, Stmt.safe, Stmt.direct, this, h, Expr.safe, Expr.direct]

theorem ty_var (x : Nat) (t : TyR) : (Expr.var x t).ty = t := rfl
theorem ty_int (i : Int) : (Expr.int i).ty = ⟨.integer, 0⟩ := rfl
theorem ty_dot (t : TyR) (e : Expr) (off : Nat) : (Expr.dot t e off).ty = t := rfl
theorem ty_bin (o : Gen.BinOp) (t : TyR) (l r : Expr) : (Expr.bin o t l r).ty = t := rfl

mutual
theorem lowS_good (L : Lib) : ∀ (s : SS) (n : Nat), okS s → (lowS L s n).1.safe = true ∧ (lowS L s n).1.direct = true
  | .ret none, n, _ => by simp [lowS, Stmt.safe, Stmt.direct]
  | .ret (some e), n, h => by
    simp only [okS] at h
    simpa [lowS, Stmt.safe, Stmt.direct] using okX_pair h
  | .ifs c, n, h => by
    simpa [lowS, Stmt.safe, Stmt.direct] using lowC_good L c n h
  | .asg _ l r, n, h => by
    simp only [okS] at h
    simp [lowS, Stmt.safe, Stmt.direct, okX_pair h.1, okX_pair h.2]
  | .loop c b, n, h => by
    simp only [okS] at h
    simp [lowS, Stmt.safe, Stmt.direct, okX_pair h.1, lowL_good L b n h.2]
  | .expr e, n, h => by
    simp only [okS] at h
    simpa [lowS, Stmt.safe, Stmt.direct] using okX_pair h
  | .forR x lo hi z b, n, h => by
    simp only [okS] at h
    obtain ⟨h1, h2, h3, h4, h5⟩ := h
    have hb := lowL_good L b n h5
    cases z
    · have := app_good hb (b := one (inc x 1)) (by simp [one, inc, Stmts.safe, Stmts.direct, Stmt.safe, Stmt.direct, Expr.safe, Expr.direct, Gen.BinOp.fits, tInt, ty_var, ty_int, ty_dot, ty_bin])
      simp [lowS, one, Stmt.safe, Stmt.direct, Stmts.safe, Stmts.direct, Expr.safe, Expr.direct, okX_pair h1, okX_pair h2, Gen.BinOp.fits, h4, tInt, ty_var, ty_int, ty_dot, ty_bin]
      simpa [one] using this
    · have := app_good hb (b := one (inc x (-1))) (by simp [one, inc, Stmts.safe, Stmts.direct, Stmt.safe, Stmt.direct, Expr.safe, Expr.direct, Gen.BinOp.fits, tInt, ty_var, ty_int, ty_dot, ty_bin])
      simp [lowS, one, Stmt.safe, Stmt.direct, Stmts.safe, Stmts.direct, Expr.safe, Expr.direct, okX_pair h1, okX_pair h2, Gen.BinOp.fits, h3, h4, tInt, ty_var, ty_int, ty_dot, ty_bin]
      simpa [one] using this
  | .forA x t a b, n, h => by
    simp only [okS] at h
    have hb := lowL_good L b n h.2
    have key : ∀ (e : Expr) (i : Nat), okX e = true →
        (Stmts.cons (.asg true (.var i tInt) (.int 0)) (one (.loop (.bin .lt tBool (.var i tInt) (.dot tInt e 0))
          (.cons (.asg false (.var x t) (.index t e (.var i tInt))) ((lowL L b n).1.app (one (inc i 1))))))).safe = true ∧
        (Stmts.cons (.asg true (.var i tInt) (.int 0)) (one (.loop (.bin .lt tBool (.var i tInt) (.dot tInt e 0))
          (.cons (.asg false (.var x t) (.index t e (.var i tInt))) ((lowL L b n).1.app (one (inc i 1))))))).direct = true := by
      intro e i he
      have := app_good hb (b := one (inc i 1)) (by simp [one, inc, Stmts.safe, Stmts.direct, Stmt.safe, Stmt.direct, Expr.safe, Expr.direct, Gen.BinOp.fits, tInt, ty_var, ty_int, ty_dot, ty_bin])
      simp [one, Stmt.safe, Stmt.direct, Stmts.safe, Stmts.direct, Expr.safe, Expr.direct, okX_pair he, Gen.BinOp.fits, tInt, ty_var, ty_int, ty_dot, ty_bin]
      simpa [one] using this
    by_cases hl : ∃ u e, a = .arrLit u e
    · obtain ⟨u, e, rfl⟩ := hl
      have hk := key (.var (lowL L b n).2 L.intArr) ((lowL L b n).2 + 1) rfl
      have he := okX_pair (e := e) (by simpa [okX] using h.1)
      simp only [lowS, loopArray]
      rw [Stmt.safe, Stmt.direct, Stmts.safe, Stmts.direct, hk.1, hk.2]
      simp [Stmt.safe, Stmt.direct, he, Expr.safe, Expr.direct]
    · have hk := key a (lowL L b n).2 h.1
      have : loopArray L a (lowL L b n).2 = (none, a, (lowL L b n).2) := by
        cases a <;> first | rfl | exact absurd ⟨_, _, rfl⟩ hl
      simp only [lowS, this]
      exact hk
  | .match_ e cs, n, h => by
    simp only [okS] at h
    have := lowM_good L cs n e.ty (n + 1) h.2
    cases cs <;> simp [lowS, one, Stmt.safe, Stmt.direct, Stmts.safe, Stmts.direct, Expr.safe, Expr.direct, okX_pair h.1]
    simpa using this
theorem lowM_good (L : Lib) : ∀ (cs : SCs) (tmp : Nat) (tt : TyR) (n : Nat), okCs cs →
    (lowM L cs tmp tt n).1.safe = true ∧ (lowM L cs tmp tt n).1.direct = true
  | .nil, _, _, _, _ => by simp [lowM, Chain.safe, Chain.direct]
  | .cons tag vars b next, tmp, tt, n, h => by
    simp only [okCs] at h
    have h1 := app_good (caseVars_good L tmp tt vars 0) (lowL_good L b n h.1)
    have h2 := lowM_good L next tmp tt (lowL L b n).2 h.2
    have h3 := okX_pair (field_ok L tmp tt tInt 0)
    simp [lowM, Chain.safe, Chain.direct, h1, h2, h3, Expr.safe, Expr.direct, Gen.BinOp.fits, Expr.ty]
    simp [field, Expr.ty, tInt]
theorem lowC_good (L : Lib) : ∀ (c : SCh) (n : Nat), okCh c → (lowC L c n).1.safe = true ∧ (lowC L c n).1.direct = true
  | .done, _, _ => by simp [lowC, Chain.safe, Chain.direct]
  | .els b, n, h => by
    simpa [lowC, Chain.safe, Chain.direct] using lowL_good L b n h
  | .cond c b next, n, h => by
    simp only [okCh] at h
    simp [lowC, Chain.safe, Chain.direct, okX_pair h.1, lowL_good L b n h.2.1, lowC_good L next (lowL L b n).2 h.2.2]
theorem lowL_good (L : Lib) : ∀ (ss : SSs) (n : Nat), okB ss → (lowL L ss n).1.safe = true ∧ (lowL L ss n).1.direct = true
  | .nil, _, _ => by simp [lowL, Stmts.safe, Stmts.direct]
  | .cons s ss, n, h => by
    simp only [okB] at h
    simp [lowL, Stmts.safe, Stmts.direct, lowS_good L s n h.1, lowL_good L ss (lowS L s n).2 h.2]
end

theorem lowF_good (L : Lib) (n : Nat) {f : SFn} (h : okBody f.body) : (lowF L n f).body.safe = true ∧ (lowF L n f).body.direct = true := by
  unfold lowF
  cases hb : f.body with
  | block ss =>
    rw [hb] at h
    exact lowL_good L ss n h
  | expr e =>
    rw [hb] at h
    exact okX_pair h
  | cons tag desc id => exact ⟨rfl, rfl⟩

/-! ### Translation -/

/-- From the state `st` to `st'`: functions are only added, and if all functions are among `all`, then `Q` holds
and the new functions are without panics, too. -/
def Post (all : List SFn) (st st' : TrSt) (Q : Prop) : Prop :=
  st.out ⊆ st'.out ∧ (st'.out ⊆ all → Q ∧ ((∀ f ∈ st.out, okBody f.body) → ∀ f ∈ st'.out, okBody f.body))

theorem Post.refl {all : List SFn} {st : TrSt} {Q : Prop} (h : Q) : Post all st st Q := ⟨fun _ h => h, fun _ => ⟨h, fun h => h⟩⟩

theorem Post.and {all : List SFn} {a b c : TrSt} {P Q : Prop} (h : Post all a b P) (h' : Post all b c Q) : Post all a c (P ∧ Q) :=
  ⟨fun _ hx => h'.1 (h.1 hx), fun hs =>
    have h1 := h.2 (fun _ hx => hs (h'.1 hx))
    have h2 := h'.2 hs
    ⟨⟨h1.1, h2.1⟩, fun hx => h2.2 (h1.2 hx)⟩⟩

theorem Post.imp {all : List SFn} {a b : TrSt} {P Q : Prop} (h : Post all a b P) (k : P → Q) : Post all a b Q :=
  ⟨h.1, fun hs => ⟨k (h.2 hs).1, (h.2 hs).2⟩⟩

/-- The counter does not matter. -/
theorem Post.from {all : List SFn} {a a' b : TrSt} {P : Prop} (h : Post all a b P) (ho : a.out = a'.out) : Post all a' b P := by
  unfold Post at *; rwa [← ho]

theorem Post.to {all : List SFn} {a b b' : TrSt} {P : Prop} (h : Post all a b P) (ho : b.out = b'.out) : Post all a b' P := by
  unfold Post at *; rwa [← ho]

/-- The expression is without panics, and has the type of the tree if that is a primitive type. -/
def Fit (t : Option Ty) (e : Expr) : Prop := okX e = true ∧ ∀ p, t = some (.prim p) → e.ty.kind = kindOf (.prim p)

theorem sat_outside {α : Type} {P : α → Prop} : Sat (.error .outside : Tr α) P := trivial

theorem trIdent_ok (T : TrLib) (ρ : Names') (x : String) (a : Ann) : Sat (trIdent T ρ x a) (Fit a.typ) := by
  unfold trIdent
  split
  · rename_i s r t hs ht
    split
    · trivial
    · split
      · split
        · exact ⟨rfl, fun u hu => by rw [ht] at hu; cases hu; rfl⟩
        · trivial
      · split
        · exact ⟨rfl, fun u hu => by rw [ht] at hu; cases hu; rfl⟩
        · trivial
  · trivial

theorem trElems_ok (T : TrLib) (t : TyR) : ∀ (es : List Expr) (x : Expr) (i : Nat), okX x = true → okL es = true → okX (trElems T t x i es) = true
  | [], x, i, hx, _ => hx
  | e :: es, x, i, hx, h => by
    simp only [okL, Bool.and_eq_true] at h
    exact trElems_ok T t es _ _ (by simp [okX, okL, hx, h.1]) h.2

theorem trInvoke_ok {T : TrLib} {f : Expr} {u : Ty} {as : List Expr} (hf : okX f = true) (ha : okL as = true) (hl : as.length ≤ 5) :
    Fit (some u) (trInvoke T f u as) := by
  unfold trInvoke
  split
  · exact ⟨by simp [okX, ha]; omega, fun v hv => by cases hv; rfl⟩
  · exact ⟨by simp [okX, okL, ha, hf]; omega, fun v hv => by cases hv; rfl⟩

theorem caps_vars (cs : List (Nat × TyR)) : okL (cs.map fun p => Expr.var p.1 p.2) = true := by
  induction cs with
  | nil => rfl
  | cons c cs ih => simp [okL, okX, ih]

/-- No function has more than six parameters. -/
def Few (all : List SFn) : Prop := ∀ f ∈ all, f.params.length ≤ 6

theorem hoist_ok {all : List SFn} (hall : Few all) (T : TrLib) {n : Nat} {ps : List (Nat × TyR)} {b : SBody} {u r : Ty} {st0 st : TrSt}
    (hu : ∃ d ts q, u = .fn d ts q) (h : Post all st0 st (okBody b)) : Sat (hoist T n ps b u r st) (fun q => Post all st0 q.2 (Fit (some u) q.1)) := by
  have hc : ∀ cs m t, okBody b → okBody (capBody cs m t b) := by
    intro cs m t hb
    cases b with
    | block ss => exact okB_cap cs m t ss hb
    | expr e => exact okX_cap cs m t e hb
    | cons _ _ _ => trivial
  unfold hoist
  split
  · simp only
    split
    · refine ⟨fun _ hx => List.mem_append_left _ (h.1 hx), fun hs => ?_⟩
      obtain ⟨h1, h2⟩ := h.2 (fun _ hx => hs (List.mem_append_left _ hx))
      refine ⟨⟨rfl, fun v hv => by obtain ⟨_, _, _, rfl⟩ := hu; cases hv⟩, fun h0 f hf => ?_⟩
      rcases List.mem_append.1 hf with hf | hf
      · exact h2 h0 f hf
      · simp only [List.mem_singleton] at hf
        subst hf; exact h1
    · refine ⟨fun _ hx => List.mem_append_left _ (h.1 hx), fun hs => ?_⟩
      obtain ⟨h1, h2⟩ := h.2 (fun _ hx => hs (List.mem_append_left _ hx))
      refine ⟨?_, fun h0 f hf => ?_⟩
      · have hl := hall _ (hs (List.mem_append_right _ (List.mem_cons_self ..)))
        simp only at hl
        refine ⟨?_, fun v hv => by obtain ⟨_, _, _, rfl⟩ := hu; cases hv⟩
        simp [okX, okL, caps_vars, hl]
      · rcases List.mem_append.1 hf with hf | hf
        · exact h2 h0 f hf
        · simp only [List.mem_cons, List.not_mem_nil, or_false] at hf
          rcases hf with rfl | rfl | rfl
          · trivial
          · trivial
          · exact hc _ _ _ h1
  · trivial

theorem Fit.ty {t : Option Ty} {e : Expr} {p : Prim} (h : Fit t e) (ht : t = some (.prim p)) : e.ty.kind = kindOf (.prim p) := h.2 p ht

theorem trBin_fits {op : BinOp} {o : Gen.BinOp} (h : trBin op = some o) {l r : TK} {T : TrLib}
    (hl : l = kindOf (operandTy op)) (hr : r = kindOf (operandTy op)) : o.fits (T.ty (operandTy op)).kind l r = true := by
  subst hl; subst hr
  cases op <;> simp [trBin] at h <;> subst h <;> rfl

mutual
theorem trX_ok {all : List SFn} (hall : Few all) (T : TrLib) (D : Decls) : ∀ (x : X) (ρ : Names') (Γ : Env) (pos : Pos) (st : TrSt),
    x.wt true D Γ pos → x.sane → Sat (trX T D ρ x st) (fun r => Post all st r.2 (Fit x.typ r.1))
  | .lit k a, ρ, Γ, pos, st, hw, hs => by
    simp only [X.wt] at hw
    refine Post.refl ?_
    cases k <;> exact ⟨rfl, fun p hp => by rw [X.typ, X.ann, hw] at hp; cases hp; rfl⟩
  | .ident x a, ρ, Γ, pos, st, hw, hs => by
    unfold trX
    exact (trIdent_ok T ρ x a).bind fun e he => Post.refl he
  | .call f ts args a, ρ, Γ, pos, st, hw, hs => by
    simp only [X.wt] at hw
    simp only [X.sane] at hs
    obtain ⟨hlen, hargs, tys, hm, hf⟩ := hw
    obtain ⟨sf, sa, s5, sp⟩ := hs
    have other : (∀ x t s r, f ≠ .ident x ⟨t, some (s :: r)⟩) → Sat (trX T D ρ f st >>= fun q => trL T D ρ args q.2 >>= fun q' =>
        match a.typ with
        | none => .error .outside
        | some u => pure (trInvoke T q.1 u q'.1, q'.2)) (fun r => Post all st r.2 (Fit (X.call f ts args a).typ r.1)) := by
      intro hne
      have h5 : args.length ≤ 5 := by
        rcases s5 with h | ⟨x, t, s, r, h, _⟩
        · exact h
        · exact absurd h (hne _ _ _ _)
      have fw : ∃ p, f.wt true D Γ p := by
        by_cases hp : f.name = "printf" ∨ f.name = "debug"
        · obtain ⟨x, t, s, r, _, _, _, h, _⟩ := sp hp
          exact absurd h (hne _ _ _ _)
        · rw [if_neg hp] at hf
          by_cases hu : f.name = "unsafe"
          · rw [if_pos hu] at hf
            obtain ⟨⟨s, d, ps, r, hfi, hsy, a', r', hh, _⟩, _⟩ := hf
            cases f with
            | ident x b =>
              obtain ⟨t, sy⟩ := b
              simp only [X.ann] at hsy
              subst hsy; subst hh
              exact absurd rfl (hne _ _ _ _)
            | _ => simp [X.name] at hu
          · rw [if_neg hu] at hf
            obtain ⟨d, ps, r, us, u, hc, _⟩ := hf
            cases f with
            | ident x b =>
              obtain ⟨s, hn, hsy, ⟨a', r', hh, _⟩, _⟩ := hc
              obtain ⟨t, sy⟩ := b
              simp only at hsy
              subst hsy; subst hh
              exact absurd rfl (hne _ _ _ _)
            | fnB => exact ⟨_, hc.1⟩
            | dot => exact ⟨_, hc.1⟩
            | call => exact ⟨_, hc.1⟩
            | index => exact ⟨_, hc.1⟩
            | _ => exact hc.elim
      obtain ⟨p, fw⟩ := fw
      refine (trX_ok hall T D f ρ Γ p st fw sf).bind ?_
      rintro ⟨e, st1⟩ h1
      refine (trL_ok hall T D args ρ Γ _ st1 hargs sa).bind ?_
      rintro ⟨as, st2⟩ h2
      cases ht : a.typ with
      | none => trivial
      | some u =>
        refine (h1.and h2).imp fun h => ?_
        simp only [X.typ, X.ann, ht]
        exact trInvoke_ok h.1.1 h.2.1 (by have := h.2.2; simp only at this; omega)
    cases f with
    | ident x b =>
      obtain ⟨t, sy⟩ := b
      cases sy with
      | none => unfold trX; exact other (by intro x t s r h; cases h)
      | some l =>
        cases l with
        | nil => unfold trX; exact other (by intro x t s r h; cases h)
        | cons s r =>
          unfold trX
          refine (trL_ok hall T D args ρ Γ _ st hargs sa).bind ?_
          rintro ⟨as, st1⟩ h1
          simp only
          cases ht : a.typ with
          | none => trivial
          | some u =>
            simp only
            split
            · rename_i hg
              have hfn : ∃ d ps q, s.ty = some (.fn d ps q) := by
                by_cases hp : (X.ident x ⟨t, some (s :: r)⟩).name = "printf" ∨ (X.ident x ⟨t, some (s :: r)⟩).name = "debug"
                · obtain ⟨_, _, _, _, d, ps, q, h, hh⟩ := sp hp
                  cases h
                  exact ⟨d, ps, q, hh⟩
                · rw [if_neg hp] at hf
                  by_cases hu : (X.ident x ⟨t, some (s :: r)⟩).name = "unsafe"
                  · rw [if_pos hu] at hf
                    obtain ⟨⟨s', d, ps, q, _, hsy, a', r', hh, ha'⟩, _⟩ := hf
                    cases hsy; cases hh
                    exact ⟨d, ps, q, ha'⟩
                  · rw [if_neg hu] at hf
                    obtain ⟨d, ps, q, us, u, ⟨s', hn, hsy, ⟨a', r', hh, ha'⟩, _⟩, _⟩ := hf
                    cases hsy; cases hh
                    exact ⟨d, ps, q, ha'⟩
              obtain ⟨d, ps, q, hfn⟩ := hfn
              simp only [trCall, hfn]
              refine h1.imp fun h => ?_
              refine ⟨?_, fun p hp => ?_⟩
              · have := h.2; simp only at this
                simp [okX, h.1, this, hlen]
              · simp only [X.typ, X.ann, ht] at hp
                cases hp; rfl
            · rename_i hg
              have h5 : args.length ≤ 5 := by
                rcases s5 with h | ⟨x', t', s', r', h, hg'⟩
                · exact h
                · cases h; exact absurd hg' hg
              refine (trIdent_ok T ρ x _).bind fun e he => ?_
              refine h1.imp fun h => ?_
              simp only [X.typ, X.ann, ht]
              exact trInvoke_ok he.1 h.1 (by have := h.2; simp only at this; omega)
    | _ => unfold trX; exact other (by intro x t s r h; cases h)
  | .bin op l r a, ρ, Γ, pos, st, hw, hs => by
    simp only [X.wt] at hw
    simp only [X.sane] at hs
    obtain ⟨lw, rw', lt, rt, at'⟩ := hw
    unfold trX
    cases ho : trBin op with
    | none => cases op <;> simp [trBin] at ho; exact absurd rfl hs.1
    | some o =>
      simp only
      refine (trX_ok hall T D l ρ Γ _ st lw hs.2.1).bind ?_
      rintro ⟨e1, st1⟩ h1
      refine (trX_ok hall T D r ρ Γ _ st1 rw' hs.2.2).bind ?_
      rintro ⟨e2, st2⟩ h2
      simp only [at']
      refine (h1.and h2).imp fun h => ?_
      have hp : ∃ p, operandTy op = .prim p := by cases op <;> exact ⟨_, rfl⟩
      obtain ⟨p, hp⟩ := hp
      refine ⟨?_, fun p hp => ?_⟩
      · have hf := trBin_fits ho (T := T) (h.1.ty (p := p) (by rw [lt, hp])|>.trans (by rw [hp])) (h.2.ty (p := p) (by rw [rt, hp])|>.trans (by rw [hp]))
        simp [okX, h.1.1, h.2.1, hf]
      · simp only [X.typ, X.ann, at'] at hp
        rw [ty_bin, ← Option.some.inj hp]; rfl
  | .cmp op l r a, ρ, Γ, pos, st, hw, hs => by
    simp only [X.wt] at hw
    simp only [X.sane] at hs
    obtain ⟨lw, rw', _, at'⟩ := hw
    unfold trX
    refine (trX_ok hall T D l ρ Γ _ st lw hs.2.2.1).bind ?_
    rintro ⟨e1, st1⟩ h1
    refine (trX_ok hall T D r ρ Γ _ st1 rw' hs.2.2.2).bind ?_
    rintro ⟨e2, st2⟩ h2
    simp only [at']
    refine (h1.and h2).imp fun h => ?_
    refine ⟨?_, fun p hp => ?_⟩
    · have k1 := h.1.ty hs.1
      have k2 := h.2.ty hs.2.1
      simp only at k1 k2
      simp only [okX, h.1.1, h.2.1, k1, k2, kindOf]
      cases op <;> rfl
    · simp only [X.typ, X.ann, at'] at hp
      cases hp; rw [ty_bin]; rfl
  | .un op e a, ρ, Γ, pos, st, hw, hs => by
    simp only [X.wt] at hw
    simp only [X.sane] at hs
    unfold trX
    refine (trX_ok hall T D e ρ Γ _ st hw.1 hs).bind ?_
    rintro ⟨e1, st1⟩ h1
    simp only [hw.2.2]
    refine h1.imp fun h => ?_
    have hp : ∃ p, unTy op = .prim p := by cases op <;> exact ⟨_, rfl⟩
    obtain ⟨p, hp⟩ := hp
    refine ⟨?_, fun p hp => ?_⟩
    · have k1 := h.ty (p := p) (by rw [hw.2.1, hp])
      simp only at k1
      simp only [okX, h.1, k1]
      cases op <;> cases hp <;> rfl
    · simp only [X.typ, X.ann, hw.2.2] at hp
      rw [← Option.some.inj hp]; rfl
  | .tern c x y a, ρ, Γ, pos, st, hw, hs => by
    simp only [X.wt] at hw
    simp only [X.sane] at hs
    unfold trX
    refine (trX_ok hall T D c ρ Γ _ st hw.1 hs.1).bind ?_
    rintro ⟨e1, st1⟩ h1
    refine (trX_ok hall T D x ρ Γ _ st1 hw.2.1 hs.2.1).bind ?_
    rintro ⟨e2, st2⟩ h2
    refine (trX_ok hall T D y ρ Γ _ st2 hw.2.2.1 hs.2.2).bind ?_
    rintro ⟨e3, st3⟩ h3
    simp only
    cases ht : a.typ with
    | none => trivial
    | some u =>
      refine (h1.and (h2.and h3)).imp fun h => ⟨by simp [okX, h.1.1, h.2.1.1, h.2.2.1], fun p hp => ?_⟩
      simp only [X.typ, X.ann, ht] at hp
      cases hp; rfl
  | .arr es a, ρ, Γ, pos, st, hw, hs => by
    simp only [X.wt] at hw
    simp only [X.sane] at hs
    unfold trX
    refine (trL_ok hall T D es ρ Γ _ st hw.1 hs).bind ?_
    rintro ⟨e1, st1⟩ h1
    simp only
    cases ht : a.typ with
    | none => trivial
    | some u =>
      refine h1.imp fun h => ⟨?_, fun p hp => ?_⟩
      · simp only [okX, trArr]
        exact trElems_ok T _ _ _ _ (by simp [okX, okL]) h.1
      · simp only [X.typ, X.ann, ht] at hp
        cases hp; rfl
  | .index l r a, ρ, Γ, pos, st, hw, hs => by
    simp only [X.wt] at hw
    simp only [X.sane] at hs
    unfold trX
    refine (trX_ok hall T D l ρ Γ _ st hw.1 hs.1).bind ?_
    rintro ⟨e1, st1⟩ h1
    refine (trX_ok hall T D r ρ Γ _ st1 hw.2.1 hs.2).bind ?_
    rintro ⟨e2, st2⟩ h2
    simp only
    cases ht : a.typ with
    | none => trivial
    | some u =>
      refine (h1.and h2).imp fun h => ⟨?_, fun p hp => ?_⟩
      · have k := h.2.ty hw.2.2.1
        simp only at k
        simp [okX, h.1.1, h.2.1, k, kindOf]
      · simp only [X.typ, X.ann, ht] at hp
        cases hp; rfl
  | .dot l r a, ρ, Γ, pos, st, hw, hs => by
    simp only [X.wt] at hw
    simp only [X.sane] at hs
    unfold trX
    simp only
    refine (trX_ok hall T D l ρ Γ _ st hw.1 hs).bind ?_
    rintro ⟨e1, st1⟩ h1
    simp only
    split
    · rename_i ht
      split
      · trivial
      · refine h1.imp fun h => ⟨by simp [okX, h.1], fun p hp => ?_⟩
        simp only [X.typ, X.ann, ht] at hp
        cases hp; rfl
    · trivial
  | .ty e a, ρ, Γ, pos, st, hw, hs => by
    unfold trX
    cases ht : a.typ with
    | none => trivial
    | some u =>
      refine Post.refl ⟨rfl, fun p hp => ?_⟩
      simp only [X.typ, X.ann, ht] at hp
      cases hp; rfl
  | .fnB h info ss a, ρ, Γ, pos, st, hw, hs => by
    simp only [X.wt] at hw
    simp only [X.sane] at hs
    obtain ⟨d, ts, r, ht, _, _, bw⟩ := hw
    unfold trX
    simp only [ht]
    refine (trB_ok hall T D ss _ r _ { st with n := st.n + ts.length } bw hs).bind ?_
    rintro ⟨b, st1⟩ h1
    simp only [X.typ, X.ann, ht]
    exact hoist_ok hall T ⟨_, _, _, rfl⟩ (h1.from rfl)
  | .fnE h info e a, ρ, Γ, pos, st, hw, hs => by
    simp only [X.wt] at hw
    simp only [X.sane] at hs
    obtain ⟨d, ts, r, t, ht, _, _, ew, _⟩ := hw
    unfold trX
    simp only [ht]
    refine (trX_ok hall T D e _ _ _ { st with n := st.n + ts.length } ew hs).bind ?_
    rintro ⟨b, st1⟩ h1
    simp only [X.typ, X.ann, ht]
    exact hoist_ok hall T ⟨_, _, _, rfl⟩ ((h1.imp fun h => h.1).from rfl)
theorem trL_ok {all : List SFn} (hall : Few all) (T : TrLib) (D : Decls) : ∀ (xs : List X) (ρ : Names') (Γ : Env) (pos : Pos) (st : TrSt),
    wtL true D Γ pos xs → saneL xs → Sat (trL T D ρ xs st) (fun r => Post all st r.2 (okL r.1 = true ∧ r.1.length = xs.length))
  | [], ρ, Γ, pos, st, hw, hs => Post.refl ⟨rfl, rfl⟩
  | x :: xs, ρ, Γ, pos, st, hw, hs => by
    simp only [wtL] at hw
    simp only [saneL] at hs
    unfold trL
    refine (trX_ok hall T D x ρ Γ _ st hw.1 hs.1).bind ?_
    rintro ⟨e1, st1⟩ h1
    refine (trL_ok hall T D xs ρ Γ _ st1 hw.2 hs.2).bind ?_
    rintro ⟨e2, st2⟩ h2
    refine (h1.and h2).imp fun h => ?_
    have := h.2.2
    simp only at this
    simp [okL, h.1.1, h.2.1, this]
theorem trS_ok {all : List SFn} (hall : Few all) (T : TrLib) (D : Decls) : ∀ (s : S) (ρ : Names') (ret : Ty) (Γ : Env) (st : TrSt),
    s.wt true D ret Γ → s.sane → Sat (trS T D ρ s st) (fun r => Post all st r.2.2 (okS r.1))
  | .expr x, ρ, ret, Γ, st, hw, hs => by
    simp only [S.wt] at hw
    simp only [S.sane] at hs
    unfold trS
    refine (trX_ok hall T D x ρ Γ _ st hw hs).bind ?_
    rintro ⟨e1, st1⟩ h1
    exact h1.imp fun h => by simp only [okS]; exact h.1
  | .loop c ss, ρ, ret, Γ, st, hw, hs => by
    simp only [S.wt] at hw
    simp only [S.sane] at hs
    unfold trS
    refine (trX_ok hall T D c ρ Γ _ st hw.1 hs.1).bind ?_
    rintro ⟨e1, st1⟩ h1
    refine (trB_ok hall T D ss ρ _ _ st1 hw.2.2 hs.2).bind ?_
    rintro ⟨b, st2⟩ h2
    exact (h1.and h2).imp fun h => by simp only [okS]; exact ⟨h.1.1, h.2⟩
  | .for_ x a e ss, ρ, ret, Γ, st, hw, hs => by
    simp only [S.wt] at hw
    obtain ⟨ew, u, hu, _, bw⟩ := hw
    by_cases he : ∃ lo hi b, e = .bin .range lo hi b
    · obtain ⟨lo, hi, b, rfl⟩ := he
      simp only [S.sane] at hs
      simp only [X.wt] at ew
      unfold trS
      simp only
      refine (trX_ok hall T D lo ρ Γ _ st ew.1 hs.1).bind ?_
      rintro ⟨e1, st1⟩ h1
      refine (trX_ok hall T D hi ρ Γ _ st1 ew.2.1 hs.2.1).bind ?_
      rintro ⟨e2, st2⟩ h2
      refine (trB_ok hall T D ss _ _ _ { st2 with n := st2.n + 1 } bw hs.2.2).bind ?_
      rintro ⟨b', st3⟩ h3
      refine (h1.and (h2.and (h3.from rfl))).imp fun h => ?_
      simp only [okS]
      exact ⟨h.1.1, h.2.1.1, h.1.ty ew.2.2.1, h.2.1.ty ew.2.2.2.1, h.2.2⟩
    · have hs' : e.sane ∧ saneB ss := by
        cases e with
        | bin op l r b =>
          cases op with
          | range => exact absurd ⟨_, _, _, rfl⟩ he
          | _ => simpa only [S.sane] using hs
        | _ => simpa only [S.sane] using hs
      have ht : trS T D ρ (.for_ x a e ss) st = (do
          let t := e.typ
          let (e, st) ← trX T D ρ e st
          match t with
          | some (.array u) => do
            let (b, st1) ← trB T D ((x, st.n) :: ρ) ss { st with n := st.n + 1 }
            pure (.forA st.n (T.ty u) e b, ρ, st1)
          | _ => .error .outside) := by
        cases e with
        | bin op l r b =>
          cases op with
          | range => exact absurd ⟨_, _, _, rfl⟩ he
          | _ => rw [trS.eq_def]; try rfl
        | _ => rw [trS.eq_def]; try rfl
      rw [ht]
      simp only
      refine (trX_ok hall T D e ρ Γ _ st ew hs'.1).bind ?_
      rintro ⟨e1, st1⟩ h1
      simp only
      split
      · refine (trB_ok hall T D ss _ _ _ { st1 with n := st1.n + 1 } bw hs'.2).bind ?_
        rintro ⟨b', st3⟩ h3
        refine (h1.and (h3.from rfl)).imp fun h => ?_
        simp only [okS]
        exact ⟨h.1.1, h.2⟩
      · trivial
  | .ifs c, ρ, ret, Γ, st, hw, hs => by
    simp only [S.wt] at hw
    simp only [S.sane] at hs
    unfold trS
    refine (trCh_ok hall T D c ρ _ _ st hw hs).bind ?_
    rintro ⟨b, st2⟩ h2
    exact h2.imp fun h => by simp only [okS]; exact h
  | .ret0, ρ, ret, Γ, st, hw, hs => Post.refl trivial
  | .ret e, ρ, ret, Γ, st, hw, hs => by
    simp only [S.wt] at hw
    simp only [S.sane] at hs
    unfold trS
    refine (trX_ok hall T D e ρ Γ _ st hw.1 hs).bind ?_
    rintro ⟨e1, st1⟩ h1
    exact h1.imp fun h => by simp only [okS]; exact h.1
  | .das l r, ρ, ret, Γ, st, hw, hs => by
    simp only [S.wt] at hw
    simp only [S.sane] at hs
    unfold trS
    refine (trX_ok hall T D r ρ Γ _ st hw.1 hs).bind ?_
    rintro ⟨e1, st1⟩ h1
    simp only
    split
    · exact (h1.imp fun h => by simp only [okS]; exact ⟨rfl, h.1⟩).to rfl
    · trivial
  | .asg l r, ρ, ret, Γ, st, hw, hs => by
    simp only [S.wt] at hw
    simp only [S.sane] at hs
    unfold trS
    refine (trX_ok hall T D l ρ Γ _ st hw.2.1 hs.1).bind ?_
    rintro ⟨e1, st1⟩ h1
    refine (trX_ok hall T D r ρ Γ _ st1 hw.1 hs.2).bind ?_
    rintro ⟨e2, st2⟩ h2
    exact (h1.and h2).imp fun h => by simp only [okS]; exact ⟨h.1.1, h.2.1⟩
  | .match_ e cs, ρ, ret, Γ, st, hw, hs => by
    simp only [S.wt] at hw
    simp only [S.sane] at hs
    obtain ⟨ew, n, us, _, cw, _⟩ := hw
    unfold trS
    simp only
    refine (trX_ok hall T D e ρ Γ _ st ew hs.1).bind ?_
    rintro ⟨e1, st1⟩ h1
    simp only
    split
    · refine (trCs_ok hall T D cs ρ _ _ _ _ _ st1 cw hs.2).bind ?_
      rintro ⟨b, st2⟩ h2
      exact (h1.and h2).imp fun h => by simp only [okS]; exact ⟨h.1.1, h.2⟩
    · trivial
theorem trCh_ok {all : List SFn} (hall : Few all) (T : TrLib) (D : Decls) : ∀ (c : Ch) (ρ : Names') (ret : Ty) (Γ : Env) (st : TrSt),
    c.wt true D ret Γ → c.sane → Sat (trCh T D ρ c st) (fun r => Post all st r.2 (okCh r.1))
  | .done, ρ, ret, Γ, st, hw, hs => Post.refl trivial
  | .els ss, ρ, ret, Γ, st, hw, hs => by
    simp only [Ch.wt] at hw
    simp only [Ch.sane] at hs
    unfold trCh
    refine (trB_ok hall T D ss ρ _ _ st hw hs).bind ?_
    rintro ⟨b, st2⟩ h2
    exact h2.imp fun h => by simp only [okCh]; exact h
  | .cond c ss n, ρ, ret, Γ, st, hw, hs => by
    simp only [Ch.wt] at hw
    simp only [Ch.sane] at hs
    unfold trCh
    refine (trX_ok hall T D c ρ Γ _ st hw.1 hs.1).bind ?_
    rintro ⟨e1, st1⟩ h1
    refine (trB_ok hall T D ss ρ _ _ st1 hw.2.2.1 hs.2.1).bind ?_
    rintro ⟨b, st2⟩ h2
    refine (trCh_ok hall T D n ρ _ _ st2 hw.2.2.2 hs.2.2).bind ?_
    rintro ⟨n', st3⟩ h3
    exact (h1.and (h2.and h3)).imp fun h => by simp only [okCh]; exact ⟨h.1.1, h.2.1, h.2.2⟩
theorem trB_ok {all : List SFn} (hall : Few all) (T : TrLib) (D : Decls) : ∀ (ss : List S) (ρ : Names') (ret : Ty) (Γ : Env) (st : TrSt),
    wtB true D ret Γ ss → saneB ss → Sat (trB T D ρ ss st) (fun r => Post all st r.2 (okB r.1))
  | [], ρ, ret, Γ, st, hw, hs => Post.refl trivial
  | s :: ss, ρ, ret, Γ, st, hw, hs => by
    simp only [wtB] at hw
    simp only [saneB] at hs
    unfold trB
    refine (trS_ok hall T D s ρ _ _ st hw.1 hs.1).bind ?_
    rintro ⟨s', ρ', st1⟩ h1
    refine (trB_ok hall T D ss ρ' _ _ st1 hw.2 hs.2).bind ?_
    rintro ⟨b, st2⟩ h2
    exact (h1.and h2).imp fun h => by simp only [okB]; exact ⟨h.1, h.2⟩
theorem trCs_ok {all : List SFn} (hall : Few all) (T : TrLib) (D : Decls) : ∀ (cs : List Case) (ρ : Names') (ms : List Nat) (ret : Ty) (Γ : Env)
    (n : String) (us : List Ty) (st : TrSt),
    wtC true D ret Γ n us cs → saneC cs → Sat (trCs T D ρ ms cs st) (fun r => Post all st r.2 (okCs r.1))
  | [], ρ, ms, ret, Γ, n, us, st, hw, hs => Post.refl trivial
  | .mk x sym vs ss :: cs, ρ, ms, ret, Γ, n, us, st, hw, hs => by
    simp only [wtC, Case.wt] at hw
    simp only [saneC] at hs
    obtain ⟨⟨_, _, _, _, _, _, _, _, _, _, _, _, _, bw⟩, cw⟩ := hw
    unfold trCs
    split
    · refine (trB_ok hall T D ss _ _ _ _ bw hs.1).bind ?_
      rintro ⟨b, st1⟩ h1
      refine (trCs_ok hall T D cs ρ ms _ _ _ _ st1 cw hs.2).bind ?_
      rintro ⟨b', st2⟩ h2
      exact ((h1.from rfl).and h2).imp fun h => by simp only [okCs]; exact ⟨h.1, h.2⟩
    · trivial
end

/-! ### Programs -/

def okFn (T : TrLib) (g : SFn) : Prop := okBody g.body ∨ ∃ name isCl uns n, g = dynFn T name isCl uns n

theorem trFn_ok {all : List SFn} (hall : Few all) (T : TrLib) (D : Decls) {root own : Scope} (p : Top) (f : Fn) (st : TrSt)
    (hw : f.wt true D root own) (hs : f.body.sane) :
    Sat (trFn T D p f st) (fun r => Post all st r.2 (∀ g ∈ r.1, okFn T g)) := by
  unfold trFn
  simp only
  unfold Fn.wt at hw
  split
  · exact Post.refl (by simp)
  · exact (Post.refl (by simp [okFn, okBody])).to rfl
  · exact (Post.refl (by simp only [List.mem_singleton, forall_eq]; exact .inr ⟨_, _, _, _, rfl⟩)).to rfl
  · rename_i ss _ hb
    rw [hb] at hw hs
    refine (trB_ok hall T D ss _ _ _ { st with n := st.n + p.params.length } hw hs).bind ?_
    rintro ⟨b, st1⟩ h1
    exact (h1.from rfl).imp fun h => by simpa [okFn, okBody] using Or.inl h
  · rename_i e _ hb
    rw [hb] at hw hs
    refine (trX_ok hall T D e _ _ _ { st with n := st.n + p.params.length } hw.1 hs).bind ?_
    rintro ⟨b, st1⟩ h1
    exact (h1.from rfl).imp fun h => by simpa [okFn, okBody] using Or.inl h.1
  · trivial

theorem trFns_ok {all : List SFn} (hall : Few all) (T : TrLib) (D : Decls) {root : Scope} : ∀ (fs : List (Top × Fn)) (st : TrSt),
    (∀ p ∈ fs, (∃ own, p.2.wt true D root own) ∧ p.2.body.sane) →
    Sat (trFns T D fs st) (fun r => Post all st r.2 (∀ g ∈ r.1, okFn T g))
  | [], st, _ => Post.refl (by simp)
  | (p, f) :: fs, st, h => by
    obtain ⟨⟨own, hw⟩, hs⟩ := h _ (List.mem_cons_self ..)
    unfold trFns
    refine (trFn_ok hall T D p f st hw hs).bind ?_
    rintro ⟨a, st1⟩ h1
    refine (trFns_ok hall T D fs st1 (fun q hq => h q (List.mem_cons_of_mem _ hq))).bind ?_
    rintro ⟨b, st2⟩ h2
    refine (h1.and h2).imp fun k g hg => ?_
    rcases List.mem_append.1 hg with hg | hg
    · exact k.1 g hg
    · exact k.2 g hg

/-- The translation of a well-typed program does not panic. -/
theorem trProg_np (T : TrLib) (D : Decls) {root : Scope} {fs : List (Top × Fn)}
    (h : ∀ p ∈ fs, (∃ own, p.2.wt true D root own) ∧ p.2.body.sane) : trProg T D fs ≠ .error .panic := by
  have q := trFns_ok (all := []) (by intro f hf; cases hf) T D fs ⟨0, 0, []⟩ h
  unfold trProg
  intro hp
  cases hr : trFns T D fs ⟨0, 0, []⟩ with
  | ok r => rw [hr] at hp; cases hp
  | error e =>
    rw [hr] at hp q
    cases e with
    | panic => exact q
    | outside => cases hp

theorem trProg_safe (T : TrLib) (D : Decls) {root : Scope} {fs : List (Top × Fn)} {fds : List Gen.FnDef}
    (h : ∀ p ∈ fs, (∃ own, p.2.wt true D root own) ∧ p.2.body.sane) (ht : trProg T D fs = .ok fds)
    (hp : ∀ fd ∈ fds, fd.params.length ≤ 6) (hn : ∀ fd ∈ fds, fd.syms.length ≤ 4096) : ∀ fd ∈ fds, fd.safe := by
  unfold trProg at ht
  cases hr : trFns T D fs ⟨0, 0, []⟩ with
  | error e => rw [hr] at ht; cases ht
  | ok r =>
    obtain ⟨a, st⟩ := r
    rw [hr] at ht
    cases ht
    have hall : Few st.out := by
      intro f hf
      have := hp (lowF T.low st.n f) (List.mem_map_of_mem (List.mem_append_right _ hf))
      exact this
    have q := trFns_ok hall T D fs ⟨0, 0, []⟩ h
    rw [hr] at q
    obtain ⟨q1, q2⟩ := q.2 (fun _ h => h)
    have q3 := q2 (by simp)
    intro fd hfd
    obtain ⟨f, hf, rfl⟩ := List.mem_map.1 hfd
    have hb : okFn T f := by
      rcases List.mem_append.1 hf with hf | hf
      · exact q1 f hf
      · exact .inl (q3 f hf)
    have hg : (lowF T.low st.n f).body.safe = true ∧ (lowF T.low st.n f).body.direct = true := by
      rcases hb with hb | ⟨name, isCl, uns, n, rfl⟩
      · exact lowF_good T.low st.n hb
      · exact ⟨rfl, rfl⟩
    exact ⟨hp _ hfd, hn _ hfd, hg.1, hg.2⟩

end Clara.Sema.Chk
