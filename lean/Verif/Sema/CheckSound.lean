import Verif.Sema.CheckLemmas
set_option linter.unusedVariables false
set_option linter.unusedSimpArgs false
set_option linter.unnecessarySimpa false
/-
A tree that the type checker accepts is well typed, for trees in which no error can be dropped (`quiet`).
-/
namespace Clara.Sema.Chk
open Clara.Types
open Clara.Props (Fits)

/-- The part has been checked. -/
macro "getok " hq:ident " : " t:term " at " h:ident " with " y:ident ys:ident : tactic =>
  `(tactic| (rcases $hq:ident : $t with s | ⟨$y:ident, $ys:ident⟩; (focus (exfalso; simp [$hq:ident] at $h:ident; done)); simp only [$hq:ident] at $h:ident))

/-! ### Trees from the parser -/

mutual
/-- Nothing has been checked yet. -/
def X.raw : X → Prop
  | .lit _ a => a = {}
  | .ident _ a => a = {}
  | .call f _ args a => f.raw ∧ rawL args ∧ a = {}
  | .bin _ l r a => l.raw ∧ r.raw ∧ a = {}
  | .cmp _ l r a => l.raw ∧ r.raw ∧ a = {}
  | .un _ l a => l.raw ∧ a = {}
  | .tern c x y a => c.raw ∧ x.raw ∧ y.raw ∧ a = {}
  | .arr es a => rawL es ∧ a = {}
  | .index l r a => l.raw ∧ r.raw ∧ a = {}
  | .dot l r a => l.raw ∧ r.raw ∧ a = {}
  | .ty _ a => a = {}
  | .fnB _ info ss a => info = none ∧ rawB ss ∧ a = {}
  | .fnE _ info e a => info = none ∧ e.raw ∧ a = {}
def rawL : List X → Prop
  | [] => True
  | x :: xs => x.raw ∧ rawL xs
def S.raw : S → Prop
  | .expr x => x.raw
  | .loop c ss => c.raw ∧ rawB ss
  | .for_ _ a e ss => e.raw ∧ rawB ss ∧ a = {}
  | .ifs c => c.raw
  | .ret0 => True
  | .ret e => e.raw
  | .das l r => l.raw ∧ r.raw
  | .asg l r => l.raw ∧ r.raw
  | .match_ e cs => e.raw ∧ rawC cs
def Ch.raw : Ch → Prop
  | .done => True
  | .els ss => rawB ss
  | .cond c ss n => c.raw ∧ rawB ss ∧ n.raw
def rawB : List S → Prop
  | [] => True
  | s :: ss => s.raw ∧ rawB ss
def rawC : List Case → Prop
  | [] => True
  | c :: cs => c.raw ∧ rawC cs
def Case.raw : Case → Prop
  | .mk _ sym _ ss => sym = none ∧ rawB ss
end

/-! ### Trees in which no error is dropped -/

mutual
/-- No function literal, operands of `?:` and elements of array literals without calls; without any call
if `calls` is off. -/
def X.plain (calls : Bool) : X → Prop
  | .lit _ _ => True
  | .ident _ _ => True
  | .call f _ args _ => calls = true ∧ f.plain calls ∧ plainL calls args
  | .bin _ l r _ => l.plain calls ∧ r.plain calls
  | .cmp _ l r _ => l.plain calls ∧ r.plain calls
  | .un _ l _ => l.plain calls
  | .tern c x y _ => c.plain false ∧ x.plain false ∧ y.plain false
  | .arr es _ => plainL false es
  | .index l r _ => l.plain calls ∧ r.plain calls
  | .dot l r _ => l.plain calls ∧ r.plain calls
  | .ty _ _ => True
  | .fnB _ _ _ _ => False
  | .fnE _ _ _ _ => False
def plainL (calls : Bool) : List X → Prop
  | [] => True
  | x :: xs => x.plain calls ∧ plainL calls xs
end

/-- No struct has a field with the name of the function. -/
def NoField (D : Decls) (f : X) : Prop := ∀ n ts, D.field n ts f.name = none

/-- `l.r` where `l` may be checked again. -/
def Twice (D : Decls) (calls : Bool) (l : X) : X → Prop
  | .index _ _ _ => l.plain calls
  | .call f _ _ _ => l.plain calls ∨ NoField D f
  | _ => True

mutual
/-- No function literal, and what is checked again has no call. -/
def X.calm (D : Decls) : X → Prop
  | .lit _ _ => True
  | .ident _ _ => True
  | .call f _ args _ => f.calm D ∧ calmL D args
  | .bin _ l r _ => l.calm D ∧ r.calm D
  | .cmp _ l r _ => l.calm D ∧ r.calm D
  | .un _ l _ => l.calm D
  | .tern c x y _ => c.calm D ∧ x.calm D ∧ y.calm D
  | .arr es _ => calmL D es
  | .index l r _ => l.calm D ∧ r.calm D
  | .dot l r _ => l.calm D ∧ r.calm D ∧ Twice D false l r
  | .ty _ _ => True
  | .fnB _ _ _ _ => False
  | .fnE _ _ _ _ => False
def calmL (D : Decls) : List X → Prop
  | [] => True
  | x :: xs => x.calm D ∧ calmL D xs
end

mutual
/-- The operands of `?:` and the elements of array literals are calm, and what is checked again is plain. -/
def X.quiet (D : Decls) : X → Prop
  | .lit _ _ => True
  | .ident _ _ => True
  | .call f _ args _ => f.quiet D ∧ quietL D args
  | .bin _ l r _ => l.quiet D ∧ r.quiet D
  | .cmp _ l r _ => l.quiet D ∧ r.quiet D
  | .un _ l _ => l.quiet D
  | .tern c x y _ => c.calm D ∧ x.calm D ∧ y.calm D ∧ c.quiet D ∧ x.quiet D ∧ y.quiet D
  | .arr es _ => calmL D es ∧ quietL D es
  | .index l r _ => l.quiet D ∧ r.quiet D
  | .dot l r _ => l.quiet D ∧ r.quiet D ∧ Twice D true l r
  | .ty _ _ => True
  | .fnB _ _ ss _ => quietB D ss
  | .fnE _ _ e _ => e.quiet D
def quietL (D : Decls) : List X → Prop
  | [] => True
  | x :: xs => x.quiet D ∧ quietL D xs
def S.quiet (D : Decls) : S → Prop
  | .expr x => x.quiet D
  | .loop c ss => c.quiet D ∧ quietB D ss
  | .for_ _ _ e ss => e.quiet D ∧ quietB D ss
  | .ifs c => c.quiet D
  | .ret0 => True
  | .ret e => e.quiet D
  | .das l r => l.quiet D ∧ r.quiet D
  | .asg l r => l.quiet D ∧ r.quiet D
  | .match_ e cs => e.quiet D ∧ quietC D cs
def Ch.quiet (D : Decls) : Ch → Prop
  | .done => True
  | .els ss => quietB D ss
  | .cond c ss n => c.quiet D ∧ quietB D ss ∧ n.quiet D
def quietB (D : Decls) : List S → Prop
  | [] => True
  | s :: ss => s.quiet D ∧ quietB D ss
def quietC (D : Decls) : List Case → Prop
  | [] => True
  | c :: cs => c.quiet D ∧ quietC D cs
def Case.quiet (D : Decls) : Case → Prop
  | .mk _ _ _ ss => quietB D ss
end

/-! ### Trees that are checked a second time -/

/-- The type of `l.x` where `l` is not a call. -/
def selTy (D : Decls) (t : Ty) (x : String) : Option Ty :=
  if x = "length" ∧ hasLength t then some (.prim .int)
  else if x = "deref" ∧ isPrim .pointer t then some (.prim .pointer)
  else match t with | .struct n ts => D.field n ts x | _ => none

mutual
/-- An expression without calls and function literals that has its final types. -/
def X.fixed (D : Decls) (Γ : Env) : X → Prop
  | .lit k a => a.typ = some (litTy k)
  | .ident x a => ∃ s, a.sym = some s ∧ a.typ = s.ty
  | .bin op l r a => l.fixed D Γ ∧ r.fixed D Γ ∧ l.typ = some (.prim op.operand) ∧ r.typ = some (.prim op.operand) ∧ a.typ = some (.prim op.result)
  | .cmp op l r a => l.fixed D Γ ∧ r.fixed D Γ ∧ a.typ = some (.prim .bool) ∧ ∃ t u, l.typ = some t ∧ r.typ = some u ∧ t.same u = true
  | .un op l a => l.fixed D Γ ∧ l.typ = some (.prim op.operand) ∧ a.typ = some (.prim op.operand)
  | .tern c x y a => c.fixed D Γ ∧ x.fixed D Γ ∧ y.fixed D Γ ∧ c.typ = some (.prim .bool) ∧
      ∃ t u, x.typ = some t ∧ y.typ = some u ∧ t.same u = true ∧ a.typ = some t
  | .arr es a => fixedL D Γ es ∧ ∃ t, (es.map X.typ).head? = some (some t) ∧ a.typ = some (.array t) ∧
      ∀ e ∈ es, ∃ u, e.typ = some u ∧ u.same t = true
  | .index l r a => l.fixed D Γ ∧ r.fixed D Γ ∧ r.typ = some (.prim .int) ∧ ∃ t, l.typ = some (.array t) ∧ a.typ = some t
  | .dot l r a => l.fixed D Γ ∧ ∃ t x b u, r = .ident x b ∧ l.typ = some t ∧ selTy D t x = some u ∧ a.typ = some u
  | .ty t a => ∃ u, instTy Γ [] t = (some u, []) ∧ a.typ = some u
  | .call _ _ _ _ => False
  | .fnB _ _ _ _ => False
  | .fnE _ _ _ _ => False
def fixedL (D : Decls) (Γ : Env) : List X → Prop
  | [] => True
  | x :: xs => x.fixed D Γ ∧ fixedL D Γ xs
end

theorem chkField_call {D : Decls} {l : X} {t : Ty} {x : String} {b a : Ann} (hl : ∀ f ts as c, l ≠ .call f ts as c) :
    (∃ u, selTy D t x = some u ∧ chkField D l t x b a = (.dot l (.ident x ⟨some u, some [plainSym (some u)]⟩) ⟨some u, a.sym⟩, [])) ∨
    (selTy D t x = none ∧ ∃ er, chkField D l t x b a = (.dot l (.ident x b) a, [er])) := by
  unfold chkField selTy
  simp only
  split
  · exact .inl ⟨_, rfl, rfl⟩
  · split
    · exact .inl ⟨_, rfl, rfl⟩
    · cases t with
      | struct n ts =>
        simp only
        cases D.field n ts x with
        | none => exact .inr ⟨rfl, _, rfl⟩
        | some u => exact .inl ⟨u, rfl, rfl⟩
      | fn d ps r =>
        refine .inr ⟨rfl, .notStruct, ?_⟩
        cases l with
        | call f ts as c => exact absurd rfl (hl f ts as c)
        | _ => cases r <;> rfl
      | _ => exact .inr ⟨rfl, _, rfl⟩

theorem chkField_shape (D : Decls) (l : X) (t : Ty) (x : String) (b a : Ann) : ∃ b' a', (chkField D l t x b a).1 = .dot l (.ident x b') a' := by
  unfold chkField
  simp only
  split
  · exact ⟨_, _, rfl⟩
  · split
    · exact ⟨_, _, rfl⟩
    · split
      · split <;> exact ⟨_, _, rfl⟩
      · split <;> exact ⟨_, _, rfl⟩
      · exact ⟨_, _, rfl⟩

theorem fixed_call {D : Decls} {Γ : Env} {l : X} (h : l.fixed D Γ) : ∀ f ts as c, l ≠ .call f ts as c := by
  rintro f ts as c rfl
  simp [X.fixed] at h

theorem isPrim_self (p : Prim) : isPrim p (.prim p) = true := by simp [isPrim]

theorem isPrim_eq {p : Prim} {t : Ty} (h : isPrim p t = true) : t = .prim p := by
  cases t <;> simp [isPrim] at h
  rw [h]

theorem same_refl (t : Ty) : t.same t = true := (same_iff t t).2 rfl

/-- Checking again changes nothing that matters. -/
def Fixes (D : Decls) (chk : Env → X → R X) : Prop := ∀ Γ e e' es, e.fixed D Γ → chk Γ e = .ok (e', es) →
  es = [] ∧ e'.fixed D Γ ∧ e'.typ = e.typ

theorem fixed_elems {D : Decls} {chk : Env → X → R X} (hk : Fixes D chk) {Γ : Env} {t : Ty} : ∀ {xs xs' : List X} {t0 : Option Ty} {es : List Err} {b : Bool},
    fixedL D Γ xs → (∀ e ∈ xs, ∃ u, e.typ = some u ∧ u.same t = true) → (t0 = some t ∨ (t0 = none ∧ (xs.map X.typ).head? = some (some t))) →
    chkElems (chk Γ) t0 xs = .ok (xs', es, b) → b = true ∧ fixedL D Γ xs' ∧ xs'.map X.typ = xs.map X.typ
  | [], xs', t0, es, b, hp, ht, h0, h => by
    simp only [chkElems, Except.ok.injEq, Prod.mk.injEq] at h
    rw [← h.1]; exact ⟨h.2.2.symm, hp, rfl⟩
  | x :: xs, xs', t0, es, b, hp, ht, h0, h => by
    simp only [fixedL] at hp
    simp only [chkElems] at h
    getok h1 : chk Γ x at h with x1 es1
    obtain ⟨_, h3, h4⟩ := hk _ _ _ _ hp.1 h1
    obtain ⟨u, hu, hs⟩ := ht x (by simp)
    rw [h4, hu] at h
    simp only at h
    have hg : t0.getD u = t := by
      rcases h0 with rfl | ⟨rfl, h0⟩
      · rfl
      · simp only [List.map_cons, List.head?_cons, Option.some.injEq] at h0
        rw [hu] at h0
        simpa using h0
    rw [hg, hs] at h
    simp only [Bool.not_true, Bool.false_eq_true, if_false] at h
    rcases h5 : chkElems (chk Γ) (some t) xs with s | ⟨xs2, es2, b2⟩
    · simp [h5] at h
    · simp only [h5, Except.ok.injEq, Prod.mk.injEq] at h
      obtain ⟨h6, h7, h8⟩ := fixed_elems hk hp.2 (fun e he => ht e (by simp [he])) (.inl rfl) h5
      rw [← h.1, ← h.2.2]
      refine ⟨h6, ⟨h3, h7⟩, ?_⟩
      simp only [List.map_cons, h8, h4]

theorem fixed_step {D : Decls} {chk : Env → X → R X} {body : Env → Ty → List S → Except Stop (List S × List Err × Env)}
    (hk : Fixes D chk) : Fixes D (stepX D chk body) := by
  intro Γ e e' es hp h
  cases e with
  | lit k a => simp only [stepX, Except.ok.injEq, Prod.mk.injEq] at h; rw [← h.1, ← h.2]; exact ⟨rfl, rfl, hp.symm⟩
  | ident x a =>
    simp only [X.fixed] at hp
    obtain ⟨s, hs, ht⟩ := hp
    simp only [stepX, chkIdent, hs, Except.ok.injEq, Prod.mk.injEq] at h
    rw [← h.1, ← h.2]
    exact ⟨rfl, ⟨s, rfl, rfl⟩, ht.symm⟩
  | call f ts args a => simp [X.fixed] at hp
  | bin op l r a =>
    simp only [X.fixed] at hp
    obtain ⟨hl, hr, tl, tr, ta⟩ := hp
    simp only [stepX] at h
    getok h1 : chk Γ l at h with l1 es1
    getok h2 : chk Γ r at h with r1 es2
    obtain ⟨e1, f1, t1⟩ := hk _ _ _ _ hl h1
    obtain ⟨e2, f2, t2⟩ := hk _ _ _ _ hr h2
    rw [t1, t2, tl, tr] at h
    simp only [isPrim_self, Bool.not_true, Bool.false_eq_true, if_false, same_refl, if_true, e1, e2, List.append_nil, Except.ok.injEq, Prod.mk.injEq] at h
    rw [← h.1, ← h.2]
    refine ⟨rfl, ?_, ta.symm⟩
    simp only [X.fixed]
    exact ⟨f1, f2, t1.trans tl, t2.trans tr, trivial⟩
  | cmp op l r a =>
    simp only [X.fixed] at hp
    obtain ⟨hl, hr, ta, t, u, tl, tr, hs⟩ := hp
    simp only [stepX] at h
    getok h1 : chk Γ l at h with l1 es1
    getok h2 : chk Γ r at h with r1 es2
    obtain ⟨e1, f1, t1⟩ := hk _ _ _ _ hl h1
    obtain ⟨e2, f2, t2⟩ := hk _ _ _ _ hr h2
    rw [t1, t2, tl, tr] at h
    simp only [hs, Bool.not_true, Bool.false_eq_true, if_false, e1, e2, List.append_nil, Except.ok.injEq, Prod.mk.injEq] at h
    rw [← h.1, ← h.2]
    refine ⟨rfl, ?_, ta.symm⟩
    simp only [X.fixed]
    exact ⟨f1, f2, trivial, t, u, t1.trans tl, t2.trans tr, hs⟩
  | un op l a =>
    simp only [X.fixed] at hp
    obtain ⟨hl, tl, ta⟩ := hp
    simp only [stepX] at h
    getok h1 : chk Γ l at h with l1 es1
    obtain ⟨e1, f1, t1⟩ := hk _ _ _ _ hl h1
    rw [t1, tl] at h
    simp only [isPrim_self, Bool.not_true, Bool.false_eq_true, if_false, e1, Except.ok.injEq, Prod.mk.injEq] at h
    rw [← h.1, ← h.2]
    refine ⟨rfl, ?_, ta.symm⟩
    simp only [X.fixed]
    exact ⟨f1, t1.trans tl, trivial⟩
  | tern c x y a =>
    simp only [X.fixed] at hp
    obtain ⟨hc, hx, hy, tc, t, u, tx, ty, hs, ta⟩ := hp
    simp only [stepX] at h
    getok h1 : chk Γ c at h with c1 es1
    obtain ⟨e1, f1, t1⟩ := hk _ _ _ _ hc h1
    rw [t1, tc] at h
    simp only [isPrim_self, Bool.not_true, Bool.false_eq_true, if_false] at h
    getok h2 : chk Γ x at h with x1 es2
    obtain ⟨e2, f2, t2⟩ := hk _ _ _ _ hx h2
    rw [t2, tx] at h
    simp only at h
    getok h3 : chk Γ y at h with y1 es3
    obtain ⟨e3, f3, t3⟩ := hk _ _ _ _ hy h3
    rw [t3, ty] at h
    simp only [hs, Bool.not_true, Bool.false_eq_true, if_false, Except.ok.injEq, Prod.mk.injEq] at h
    rw [← h.1, ← h.2]
    refine ⟨rfl, ?_, ta.symm⟩
    simp only [X.fixed]
    exact ⟨f1, f2, f3, t1.trans tc, t, u, t2.trans tx, t3.trans ty, hs, rfl⟩
  | arr xs a =>
    simp only [X.fixed] at hp
    obtain ⟨hx, t, h0, ta, hs⟩ := hp
    simp only [stepX] at h
    split at h
    · rename_i he
      have : xs = [] := by simpa using he
      subst this
      simp at h0
    · rcases h1 : chkElems (chk Γ) none xs with s | ⟨xs1, es1, b1⟩
      · simp [h1] at h
      · obtain ⟨h2, h3, h4⟩ := fixed_elems hk hx hs (.inr ⟨rfl, h0⟩) h1
        subst h2
        simp only [h1, Except.ok.injEq, Prod.mk.injEq] at h
        rw [← h.1, ← h.2]
        have hh : (xs1.head?.bind X.typ) = some t := by
          rw [← h4] at h0
          cases xs1 with
          | nil => simp at h0
          | cons y ys => simpa using h0
        rw [hh]
        refine ⟨rfl, ?_, ta.symm⟩
        simp only [X.fixed]
        refine ⟨h3, t, by rw [h4]; exact h0, rfl, ?_⟩
        intro e he
        have : e.typ ∈ xs.map X.typ := by rw [← h4]; exact List.mem_map_of_mem he
        obtain ⟨e2, he2, h5⟩ := List.mem_map.1 this
        rw [← h5]
        exact hs e2 he2
  | index l r a =>
    simp only [X.fixed] at hp
    obtain ⟨hl, hr, tr, t, tl, ta⟩ := hp
    simp only [stepX] at h
    getok h1 : chk Γ l at h with l1 es1
    getok h2 : chk Γ r at h with r1 es2
    obtain ⟨e1, f1, t1⟩ := hk _ _ _ _ hl h1
    obtain ⟨e2, f2, t2⟩ := hk _ _ _ _ hr h2
    rw [t1, t2, tl, tr] at h
    simp only [isPrim_self, Bool.not_true, Bool.false_eq_true, if_false, e1, e2, List.append_nil, Except.ok.injEq, Prod.mk.injEq] at h
    rw [← h.1, ← h.2]
    refine ⟨rfl, ?_, ta.symm⟩
    simp only [X.fixed]
    exact ⟨f1, f2, t2.trans tr, t, t1.trans tl, rfl⟩
  | dot l r a =>
    simp only [X.fixed] at hp
    obtain ⟨hl, t, x, b, u, rfl, tl, hs, ta⟩ := hp
    simp only [stepX] at h
    getok h1 : chk Γ l at h with l1 es1
    obtain ⟨e1, f1, t1⟩ := hk _ _ _ _ hl h1
    rw [t1, tl] at h
    simp only at h
    rcases chkField_call (D := D) (l := l1) (t := t) (x := x) (b := b) (a := a) (fixed_call f1) with ⟨u', hu, hf⟩ | ⟨hn, _⟩
    · rw [hf] at h
      rw [hs] at hu
      cases hu
      simp only [e1, List.append_nil, Except.ok.injEq, Prod.mk.injEq] at h
      rw [← h.1, ← h.2]
      refine ⟨rfl, ?_, ta.symm⟩
      simp only [X.fixed]
      exact ⟨f1, t, x, _, u, rfl, t1.trans tl, hs, rfl⟩
    · rw [hn] at hs; cases hs
  | ty t a =>
    simp only [X.fixed] at hp
    obtain ⟨u, hu, ta⟩ := hp
    simp only [stepX, hu, Except.ok.injEq, Prod.mk.injEq] at h
    rw [← h.1, ← h.2]
    refine ⟨rfl, ?_, ta.symm⟩
    simp only [X.fixed]
    exact ⟨u, hu, rfl⟩
  | fnB h' i ss a => simp [X.fixed] at hp
  | fnE h' i e a => simp [X.fixed] at hp

theorem fixed_chk (D : Decls) : ∀ n, Fixes D (chkX D n)
  | 0 => fun Γ e e' es _ h => by simp [chkX] at h
  | n + 1 => fun Γ e e' es hp h => by
    rw [chkX] at h
    exact fixed_step (fixed_chk D n) Γ e e' es hp h

/-! ### Expressions whose errors are not dropped -/

/-- Trees from the parser, trees that have been checked (`Q`), and the trees that the checker makes of
`l.f(..)` and `l.f[..]`. -/
inductive Mix (Q T P : X → Prop) : X → Prop
  | raw {e} : e.raw → P e → Mix Q T P e
  | again {e} : Q e → Mix Q T P e
  | dot {l f} : Q l → f.raw → P f → Mix Q T P (.dot l f {})
  | recv {l f ts args} : T l → f.raw → P f → (∀ x ∈ args, X.raw x ∧ P x) → Mix Q T P (.call f ts (l :: args) {})
  | field {l f ts args} : Q l → f.raw → P f → (∀ x ∈ args, X.raw x ∧ P x) → Mix Q T P (.call (.dot l f {}) ts args {})
  | index {l f i} : Q l → f.raw → P f → i.raw → P i → Mix Q T P (.index (.dot l f {}) i {})

theorem raw_mem : ∀ {xs : List X}, rawL xs → ∀ x ∈ xs, x.raw
  | [], _, x, h => by simp at h
  | y :: ys, h, x, hx => by
    simp only [rawL] at h
    rcases List.mem_cons.1 hx with rfl | hx
    · exact h.1
    · exact raw_mem h.2 x hx

theorem calm_mem {D : Decls} : ∀ {xs : List X}, calmL D xs → ∀ x ∈ xs, x.calm D
  | [], _, x, h => by simp at h
  | y :: ys, h, x, hx => by
    simp only [calmL] at h
    rcases List.mem_cons.1 hx with rfl | hx
    · exact h.1
    · exact calm_mem h.2 x hx

theorem quiet_mem {D : Decls} : ∀ {xs : List X}, quietL D xs → ∀ x ∈ xs, x.quiet D
  | [], _, x, h => by simp at h
  | y :: ys, h, x, hx => by
    simp only [quietL] at h
    rcases List.mem_cons.1 hx with rfl | hx
    · exact h.1
    · exact quiet_mem h.2 x hx

theorem raw_ann {x : X} (h : x.raw) : x.ann = {} := by
  cases x <;> simp only [X.raw] at h <;> simp only [X.ann] <;> first | exact h | exact h.2 | exact h.2.2 | exact h.2.2.2

theorem raw_typ {x : X} (h : x.raw) : x.typ = none := by rw [X.typ, raw_ann h]

abbrev CalmIn (D : Decls) (Γ : Env) : X → Prop := Mix (X.fixed D Γ) (fun l => l.typ ≠ none) (X.calm D)

/-- When the expression gets a type there are no errors. -/
def Calms (D : Decls) (chk : Env → X → R X) : Prop := ∀ Γ e e' es, CalmIn D Γ e → chk Γ e = .ok (e', es) →
  e'.typ ≠ none → es = [] ∧ (e.plain false → e'.fixed D Γ)

mutual
theorem fixed_plain {D : Decls} {Γ : Env} : ∀ {e : X}, e.fixed D Γ → e.plain false
  | .lit _ _, h | .ident _ _, h | .ty _ _, h => by simp [X.plain]
  | .call _ _ _ _, h | .fnB _ _ _ _, h | .fnE _ _ _ _, h => by simp [X.fixed] at h
  | .bin _ l r _, h | .cmp _ l r _, h | .index l r _, h => by
    simp only [X.fixed] at h; simp only [X.plain]
    exact ⟨fixed_plain h.1, fixed_plain h.2.1⟩
  | .un _ l _, h => by
    simp only [X.fixed] at h; simp only [X.plain]
    exact fixed_plain h.1
  | .tern c x y _, h => by
    simp only [X.fixed] at h; simp only [X.plain]
    exact ⟨fixed_plain h.1, fixed_plain h.2.1, fixed_plain h.2.2.1⟩
  | .arr es _, h => by
    simp only [X.fixed] at h; simp only [X.plain]
    exact fixedL_plain h.1
  | .dot l r _, h => by
    simp only [X.fixed] at h; simp only [X.plain]
    obtain ⟨h1, t, x, b, u, rfl, _⟩ := h
    exact ⟨fixed_plain h1, by simp [X.plain]⟩
theorem fixedL_plain {D : Decls} {Γ : Env} : ∀ {es : List X}, fixedL D Γ es → plainL false es
  | [], h => by simp [plainL]
  | e :: es, h => by
    simp only [fixedL] at h; simp only [plainL]
    exact ⟨fixed_plain h.1, fixedL_plain h.2⟩
end

theorem chkIdent_typed {Γ : Env} {amb : Bool} {x : String} (h : (chkIdent Γ amb x {}).1.typ ≠ none) :
    ∃ s, lookup Γ x = some s ∧ (amb = false → s.length < 2) ∧ chkIdent Γ amb x {} = (⟨s.ty, some s⟩, []) := by
  unfold chkIdent at h ⊢
  simp only at h ⊢
  cases hl : lookup Γ x with
  | none => simp [hl] at h
  | some s =>
    simp only [hl] at h ⊢
    split
    · rename_i hc
      rw [if_pos hc] at h
      simp at h
    · rename_i hc
      refine ⟨s, rfl, ?_, rfl⟩
      intro ha
      simp only [ha, Bool.not_false, Bool.and_true, decide_eq_true_eq] at hc
      omega

theorem chkField_typed {D : Decls} {l : X} {t : Ty} {x : String} {b a : Ann} (ha : a.typ = none)
    (h : (chkField D l t x b a).1.typ ≠ none) : (chkField D l t x b a).2 = [] := by
  unfold chkField at h ⊢
  simp only at h ⊢
  split
  · rfl
  · rename_i h1
    rw [if_neg h1] at h
    split
    · rfl
    · rename_i h2
      rw [if_neg h2] at h
      split
      · split
        · rename_i hd
          simp only [hd] at h
          exact absurd ha h
        · rfl
      · split
        · rename_i hd
          simp only [hd] at h
          exact absurd ha h
        · rfl
      · rename_i h3 h4
        split at h
        · exact absurd rfl (h3 _ _)
        · exact absurd rfl (h4 _ _ _ _ _ _ _ _ rfl)
        · exact absurd ha h

theorem calm_args {D : Decls} {chk : Env → X → R X} (hk : Calms D chk) {Γ : Env} : ∀ {xs xs' : List X} {es : List Err},
    (∀ x ∈ xs, x.typ ≠ none ∨ (x.raw ∧ x.calm D)) → chkArgs (chk Γ) Γ xs = .ok (xs', es, true) → es = []
  | [], xs', es, hp, h => by
    simp only [chkArgs, Except.ok.injEq, Prod.mk.injEq] at h
    exact h.2.1.symm
  | x :: xs, xs', es, hp, h => by
    have ih := fun {xs' es} => calm_args hk (Γ := Γ) (xs := xs) (xs' := xs') (es := es) (fun y hy => hp y (by simp [hy]))
    simp only [chkArgs] at h
    split at h
    · split at h
      · cases h
      · rename_i xs1 es1 b1 h1
        simp only [Except.ok.injEq, Prod.mk.injEq] at h
        obtain ⟨_, rfl, rfl⟩ := h
        exact ih h1
    · rename_i hx
      have hx : x.typ = none := by simpa using hx
      have hr : x.raw ∧ x.calm D := (hp x (by simp)).resolve_left (by simp [hx])
      split at h
      · cases h
      · rename_i x1 es1 h1
        split at h
        · simp at h
        · rename_i hn
          have hn : x1.typ ≠ none := by simpa using hn
          have he : es1 = [] := by
            split at h1
            · have := raw_ann hr.1
              simp only [X.ann] at this
              subst this
              cases h1
              obtain ⟨s, _, _, h3⟩ := chkIdent_typed hn
              rw [h3]
            · exact (hk _ _ _ _ (.raw hr.1 hr.2) h1 hn).1
          split at h
          · cases h
          · rename_i xs2 es2 b2 h2
            simp only [Except.ok.injEq, Prod.mk.injEq] at h
            obtain ⟨_, rfl, rfl⟩ := h
            rw [he, ih h2]
            rfl

theorem calm_call {D : Decls} {chk : Env → X → R X} (hk : Calms D chk) {Γ : Env} {f : X} {ts : List TyN} {args : List X}
    {e' : X} {es : List Err} (hfr : (f.raw ∧ f.calm D) ∨ ∃ l f', f = .dot l f' {} ∧ l.fixed D Γ ∧ f'.raw ∧ f'.calm D)
    (ha : ∀ x ∈ args, x.typ ≠ none ∨ (x.raw ∧ x.calm D))
    (h : chkCall (chk Γ) Γ f ts args {} = .ok (e', es)) (ht : e'.typ ≠ none) : es = [] := by
  have hf : CalmIn D Γ f := by
    rcases hfr with h | ⟨l, f', rfl, h1, h2, h3⟩
    · exact .raw h.1 h.2
    · exact .dot h1 h2 h3
  unfold chkCall at h
  split at h
  · cases h; exact absurd rfl ht
  · split at h
    · cases h
    · rename_i f1 es1 h1
      split at h
      · cases h; exact absurd rfl ht
      · rename_i hft
        have hft : f1.typ ≠ none := by simpa using hft
        have he1 : es1 = [] := by
          unfold chkCallee at h1
          split at h1
          · rcases hfr with hr | ⟨l, f', hr, _⟩
            · have := raw_ann hr.1
              simp only [X.ann] at this
              subst this
              cases h1
              obtain ⟨s, _, _, h3⟩ := chkIdent_typed hft
              rw [h3]
            · cases hr
          · exact (hk _ _ _ _ hf h1 hft).1
          · exact (hk _ _ _ _ hf h1 hft).1
          · exact (hk _ _ _ _ hf h1 hft).1
          · exact (hk _ _ _ _ hf h1 hft).1
          · rename_i n1 n2 n3 n4 n5
            cases h1
            rcases hfr with hr | ⟨l, f', rfl, _⟩
            · exact absurd (raw_typ hr.1) hft
            · exact absurd rfl hft
        split at h
        · cases h; exact absurd rfl ht
        · split at h
          · cases h
          · rename_i h2
            cases h; exact absurd rfl ht
          · rename_i args2 es2 h2
            have he2 := calm_args hk ha h2
            subst he1 he2
            unfold chkApply at h
            split at h
            · cases h; rfl
            · split at h
              · split at h
                · cases h
                · split at h
                  · split at h
                    · cases h; rfl
                    · cases h; exact absurd rfl ht
                  · cases h
              · split at h
                · split at h
                  · split at h
                    · cases h; rfl
                    · cases h; exact absurd rfl ht
                  · split at h
                    · cases h
                    · split at h
                      · cases h; rfl
                      · cases h; exact absurd rfl ht
                · cases h

theorem calm_dot {D : Decls} {chk : Env → X → R X} {body : Env → Ty → List S → Except Stop (List S × List Err × Env)}
    (hk : Calms D chk) (hx : Fixes D chk) {Γ : Env} {l f e' : X} {es : List Err}
    (hl : CalmIn D Γ l) (hr : f.raw) (hc : f.calm D) (ht : Twice D false l f ∨ l.fixed D Γ)
    (h : stepX D chk body Γ (.dot l f {}) = .ok (e', es)) (hn : e'.typ ≠ none) :
    es = [] ∧ (l.plain false → f.plain false → e'.fixed D Γ) := by
  simp only [stepX] at h
  getok h1 : chk Γ l at h with l1 es1
  cases htl : l1.typ with
  | none => simp only [htl] at h; cases h; exact absurd rfl hn
  | some t =>
    simp only [htl] at h
    obtain ⟨he1, hfx⟩ := hk _ _ _ _ hl h1 (by simp [htl])
    have hfx : (l.plain false ∨ l.fixed D Γ) → l1.fixed D Γ := by
      rintro (hp | hp)
      · exact hfx hp
      · exact (hx _ _ _ _ hp h1).2.1
    subst he1
    simp only [List.nil_append] at h
    cases f with
    | call f' ts args b =>
      simp only [X.raw] at hr
      simp only [X.calm] at hc
      have hargs : ∀ x ∈ args, X.raw x ∧ X.calm D x := fun x hx => ⟨raw_mem hr.2.1 x hx, calm_mem hc.2 x hx⟩
      have hrecv : CalmIn D Γ (.call f' ts (l1 :: args) {}) := .recv (by simp [htl]) hr.1 hc.1 hargs
      refine ⟨?_, fun _ hp => by simp [X.plain] at hp⟩
      simp only at h
      split at h
      · cases h
      · rename_i n1 es2 h2
        cases h
        refine (hk _ _ _ _ ?_ h2 hn).1
        split
        · split
          · rename_i n us hfd
            refine .field (hfx ?_) hr.1 hc.1 hargs
            rcases ht with ht | ht
            · simp only [Twice] at ht
              rcases ht with ht | ht
              · exact .inl ht
              · rw [ht] at hfd; simp at hfd
            · exact .inr ht
          · exact hrecv
        · exact hrecv
    | index f' i b =>
      simp only [X.raw] at hr
      simp only [X.calm] at hc
      have hl1 : l1.fixed D Γ := by
        refine hfx ?_
        rcases ht with ht | ht
        · exact .inl ht
        · exact .inr ht
      simp only at h
      split at h
      · cases h
      · rename_i n1 es2 h2
        cases h
        obtain ⟨h3, h4⟩ := hk _ _ _ _ (.index hl1 hr.1 hc.1 hr.2.1 hc.2) h2 hn
        refine ⟨h3, fun _ hp => h4 ?_⟩
        simp only [X.plain] at hp ⊢
        exact ⟨⟨fixed_plain hl1, hp.1⟩, hp.2⟩
    | ident x b =>
      simp only [Except.ok.injEq, Prod.mk.injEq] at h
      obtain ⟨rfl, rfl⟩ := h
      refine ⟨chkField_typed rfl hn, fun hp _ => ?_⟩
      have hl1 := hfx (.inl hp)
      rcases chkField_call (D := D) (l := l1) (t := t) (x := x) (b := b) (a := {}) (fixed_call hl1) with ⟨u, hu, hf⟩ | ⟨_, er, hf⟩
      · rw [hf]
        simp only [X.fixed]
        exact ⟨hl1, t, x, _, u, rfl, htl, hu, rfl⟩
      · rw [hf] at hn; exact absurd rfl hn
    | _ => simp only at h; cases h; exact absurd rfl hn

theorem calm_index {D : Decls} {chk : Env → X → R X} {body : Env → Ty → List S → Except Stop (List S × List Err × Env)}
    (hk : Calms D chk) {Γ : Env} {l r e' : X} {es : List Err} (hl : CalmIn D Γ l) (hr : CalmIn D Γ r)
    (h : stepX D chk body Γ (.index l r {}) = .ok (e', es)) (hn : e'.typ ≠ none) :
    es = [] ∧ (l.plain false → r.plain false → e'.fixed D Γ) := by
  simp only [stepX] at h
  getok h1 : chk Γ l at h with l1 es1
  getok h2 : chk Γ r at h with r1 es2
  split at h
  · rename_i t u ht hu
    obtain ⟨rfl, hf1⟩ := hk _ _ _ _ hl h1 (by simp [ht])
    obtain ⟨rfl, hf2⟩ := hk _ _ _ _ hr h2 (by simp [hu])
    split at h
    · cases h; exact absurd rfl hn
    · rename_i hp
      have hp := isPrim_eq (by simpa using hp : isPrim .int u = true)
      subst hp
      split at h
      · cases h
        refine ⟨rfl, fun h3 h4 => ?_⟩
        simp only [X.fixed]
        exact ⟨hf1 h3, hf2 h4, hu, _, ht, rfl⟩
      · cases h; exact absurd rfl hn
  · cases h; exact absurd rfl hn

theorem calm_elems {D : Decls} {chk : Env → X → R X} (hk : Calms D chk) {Γ : Env} : ∀ {xs xs' : List X} {t0 : Option Ty} {es : List Err},
    (∀ x ∈ xs, x.raw ∧ x.calm D) → chkElems (chk Γ) t0 xs = .ok (xs', es, true) →
    (plainL false xs → fixedL D Γ xs') ∧
    (∀ t, (t0 = some t ∨ (t0 = none ∧ (xs'.map X.typ).head? = some (some t))) → ∀ e ∈ xs', ∃ u, e.typ = some u ∧ u.same t = true)
  | [], xs', t0, es, hp, h => by
    simp only [chkElems, Except.ok.injEq, Prod.mk.injEq] at h
    rw [← h.1]
    exact ⟨fun _ => by simp [fixedL], fun _ _ _ h => by simp at h⟩
  | x :: xs, xs', t0, es, hp, h => by
    simp only [chkElems] at h
    getok h1 : chk Γ x at h with x1 es1
    split at h
    · simp at h
    · rename_i t ht
      split at h
      · simp at h
      · rename_i hs
        rcases h5 : chkElems (chk Γ) (some (t0.getD t)) xs with s | ⟨xs2, es2, b2⟩
        · simp [h5] at h
        · simp only [h5, Except.ok.injEq, Prod.mk.injEq] at h
          obtain ⟨rfl, rfl, rfl⟩ := h
          obtain ⟨hf1, hf2⟩ := hk _ _ _ _ (.raw (hp x (by simp)).1 (hp x (by simp)).2) h1 (by simp [ht])
          obtain ⟨h6, h7⟩ := calm_elems hk (fun e he => hp e (by simp [he])) h5
          refine ⟨fun hq => ?_, fun t' ht' e he => ?_⟩
          · simp only [plainL] at hq
            exact ⟨hf2 hq.1, h6 hq.2⟩
          · have hg : t0.getD t = t' := by
              rcases ht' with rfl | ⟨rfl, h0⟩
              · rfl
              · simp only [List.map_cons, List.head?_cons, Option.some.injEq] at h0
                rw [ht] at h0
                simpa using h0
            rcases List.mem_cons.1 he with rfl | he
            · exact ⟨t, ht, by rw [hg] at hs; simpa using hs⟩
            · exact h7 t' (.inl (by rw [hg])) e he

theorem calm_step {D : Decls} {chk : Env → X → R X} {body : Env → Ty → List S → Except Stop (List S × List Err × Env)}
    (hk : Calms D chk) (hx : Fixes D chk) : Calms D (stepX D chk body) := by
  intro Γ e e' es hm h hn
  cases hm with
  | again hq =>
    obtain ⟨h1, h2, _⟩ := fixed_step hx _ _ _ _ hq h
    exact ⟨h1, fun _ => h2⟩
  | dot hq hr hc =>
    obtain ⟨h1, h2⟩ := calm_dot hk hx (.again hq) hr hc (.inr hq) h hn
    exact ⟨h1, fun hp => by simp only [X.plain] at hp; exact h2 hp.1 hp.2⟩
  | recv hq hr hc ha =>
    refine ⟨?_, fun hp => by simp [X.plain] at hp⟩
    refine calm_call hk (.inl ⟨hr, hc⟩) ?_ h hn
    intro x hx
    rcases List.mem_cons.1 hx with rfl | hx
    · exact .inl hq
    · exact .inr (ha x hx)
  | field hq hr hc ha =>
    refine ⟨?_, fun hp => by simp [X.plain] at hp⟩
    exact calm_call hk (.inr ⟨_, _, rfl, hq, hr, hc⟩) (fun x hx => .inr (ha x hx)) h hn
  | index hq hr hc hr' hc' =>
    obtain ⟨h1, h2⟩ := calm_index hk (.dot hq hr hc) (.raw hr' hc') h hn
    exact ⟨h1, fun hp => by simp only [X.plain] at hp; exact h2 hp.1 hp.2⟩
  | raw hr hc =>
    cases e with
    | lit k a => simp only [stepX, Except.ok.injEq, Prod.mk.injEq] at h; rw [← h.1, ← h.2]; exact ⟨rfl, fun _ => rfl⟩
    | ident x a =>
      simp only [X.raw] at hr
      subst hr
      simp only [stepX, Except.ok.injEq, Prod.mk.injEq] at h
      obtain ⟨rfl, rfl⟩ := h
      obtain ⟨s, _, _, h3⟩ := chkIdent_typed hn
      rw [h3]
      exact ⟨rfl, fun _ => ⟨s, rfl, rfl⟩⟩
    | call f ts args a =>
      simp only [X.raw] at hr
      simp only [X.calm] at hc
      obtain ⟨hr1, hr2, rfl⟩ := hr
      refine ⟨?_, fun hp => by simp [X.plain] at hp⟩
      exact calm_call hk (.inl ⟨hr1, hc.1⟩) (fun x hx => .inr ⟨raw_mem hr2 x hx, calm_mem hc.2 x hx⟩) h hn
    | bin op l r a =>
      simp only [X.raw] at hr
      simp only [X.calm] at hc
      obtain ⟨hr1, hr2, rfl⟩ := hr
      simp only [stepX] at h
      getok h1 : chk Γ l at h with l1 es1
      getok h2 : chk Γ r at h with r1 es2
      split at h
      · rename_i t u ht hu
        obtain ⟨rfl, hf1⟩ := hk _ _ _ _ (.raw hr1 hc.1) h1 (by simp [ht])
        obtain ⟨rfl, hf2⟩ := hk _ _ _ _ (.raw hr2 hc.2) h2 (by simp [hu])
        split at h
        · cases h; exact absurd rfl hn
        · rename_i p1
          split at h
          · cases h; exact absurd rfl hn
          · rename_i p2
            have p1 := isPrim_eq (by simpa using p1 : isPrim op.operand t = true)
            have p2 := isPrim_eq (by simpa using p2 : isPrim op.operand u = true)
            subst p1 p2
            cases h
            rw [same_refl]
            refine ⟨rfl, fun hp => ?_⟩
            simp only [X.plain] at hp
            simp only [X.fixed]
            exact ⟨hf1 hp.1, hf2 hp.2, ht, hu, trivial⟩
      · cases h; exact absurd rfl hn
    | cmp op l r a =>
      simp only [X.raw] at hr
      simp only [X.calm] at hc
      obtain ⟨hr1, hr2, rfl⟩ := hr
      simp only [stepX] at h
      getok h1 : chk Γ l at h with l1 es1
      getok h2 : chk Γ r at h with r1 es2
      split at h
      · rename_i t u ht hu
        obtain ⟨rfl, hf1⟩ := hk _ _ _ _ (.raw hr1 hc.1) h1 (by simp [ht])
        obtain ⟨rfl, hf2⟩ := hk _ _ _ _ (.raw hr2 hc.2) h2 (by simp [hu])
        split at h
        · cases h; exact absurd rfl hn
        · rename_i p1
          cases h
          refine ⟨rfl, fun hp => ?_⟩
          simp only [X.plain] at hp
          simp only [X.fixed]
          exact ⟨hf1 hp.1, hf2 hp.2, trivial, t, u, ht, hu, by simpa using p1⟩
      · cases h; exact absurd rfl hn
    | un op l a =>
      simp only [X.raw] at hr
      simp only [X.calm] at hc
      obtain ⟨hr1, rfl⟩ := hr
      simp only [stepX] at h
      getok h1 : chk Γ l at h with l1 es1
      split at h
      · cases h; exact absurd rfl hn
      · rename_i t ht
        obtain ⟨rfl, hf1⟩ := hk _ _ _ _ (.raw hr1 hc) h1 (by simp [ht])
        split at h
        · cases h; exact absurd rfl hn
        · rename_i p1
          have p1 := isPrim_eq (by simpa using p1 : isPrim op.operand t = true)
          subst p1
          cases h
          refine ⟨rfl, fun hp => ?_⟩
          simp only [X.plain] at hp
          simp only [X.fixed]
          exact ⟨hf1 hp, ht, trivial⟩
    | tern c x y a =>
      simp only [X.raw] at hr
      simp only [X.calm] at hc
      obtain ⟨hr1, hr2, hr3, rfl⟩ := hr
      simp only [stepX] at h
      getok h1 : chk Γ c at h with c1 es1
      split at h
      · cases h; exact absurd rfl hn
      · rename_i tc htc
        split at h
        · cases h; exact absurd rfl hn
        · rename_i p1
          have p1 := isPrim_eq (by simpa using p1 : isPrim .bool tc = true)
          subst p1
          getok h2 : chk Γ x at h with x1 es2
          split at h
          · cases h; exact absurd rfl hn
          · rename_i tx htx
            getok h3 : chk Γ y at h with y1 es3
            split at h
            · cases h; exact absurd rfl hn
            · rename_i ty hty
              split at h
              · cases h; exact absurd rfl hn
              · rename_i hs
                cases h
                refine ⟨rfl, fun hp => ?_⟩
                simp only [X.plain] at hp
                simp only [X.fixed]
                exact ⟨(hk _ _ _ _ (.raw hr1 hc.1) h1 (by simp [htc])).2 hp.1,
                  (hk _ _ _ _ (.raw hr2 hc.2.1) h2 (by simp [htx])).2 hp.2.1,
                  (hk _ _ _ _ (.raw hr3 hc.2.2) h3 (by simp [hty])).2 hp.2.2,
                  htc, tx, ty, htx, hty, by simpa using hs, rfl⟩
    | arr xs a =>
      simp only [X.raw] at hr
      simp only [X.calm] at hc
      obtain ⟨hr1, rfl⟩ := hr
      simp only [stepX] at h
      split at h
      · cases h; exact absurd rfl hn
      · split at h
        · cases h
        · cases h; exact absurd rfl hn
        · rename_i xs1 es1 h1
          cases h
          obtain ⟨h2, h3⟩ := calm_elems hk (fun x hx => ⟨raw_mem hr1 x hx, calm_mem hc x hx⟩) h1
          refine ⟨rfl, fun hp => ?_⟩
          simp only [X.plain] at hp
          simp only [X.fixed]
          cases hh : xs1.head?.bind X.typ with
          | none => simp [X.typ, X.ann, hh] at hn
          | some t =>
            have h0 : (xs1.map X.typ).head? = some (some t) := by
              cases xs1 with
              | nil => simp at hh
              | cons y ys => simpa using hh
            exact ⟨h2 hp, t, h0, rfl, h3 t (.inr ⟨rfl, h0⟩)⟩
    | index l r a =>
      simp only [X.raw] at hr
      simp only [X.calm] at hc
      obtain ⟨hr1, hr2, rfl⟩ := hr
      obtain ⟨h1, h2⟩ := calm_index hk (.raw hr1 hc.1) (.raw hr2 hc.2) h hn
      exact ⟨h1, fun hp => by simp only [X.plain] at hp; exact h2 hp.1 hp.2⟩
    | dot l r a =>
      simp only [X.raw] at hr
      simp only [X.calm] at hc
      obtain ⟨hr1, hr2, rfl⟩ := hr
      obtain ⟨h1, h2⟩ := calm_dot hk hx (.raw hr1 hc.1) hr2 hc.2.1 (.inl hc.2.2) h hn
      exact ⟨h1, fun hp => by simp only [X.plain] at hp; exact h2 hp.1 hp.2⟩
    | ty t a =>
      simp only [stepX] at h
      cases h
      cases hi : instTy Γ [] t with
      | mk o es2 =>
        rw [hi] at hn
        cases o with
        | none => exact absurd rfl hn
        | some u =>
          have := instTy_some Γ t u es2 hi
          subst this
          refine ⟨rfl, fun _ => ?_⟩
          simp only [X.fixed]
          exact ⟨u, hi, rfl⟩
    | fnB h' i ss a => simp [X.calm] at hc
    | fnE h' i e a => simp [X.calm] at hc

theorem calm_chk (D : Decls) : ∀ n, Calms D (chkX D n)
  | 0 => fun Γ e e' es _ h => by simp [chkX] at h
  | n + 1 => fun Γ e e' es hp h => by
    rw [chkX] at h
    exact calm_step (calm_chk D n) (fixed_chk D n) Γ e e' es hp h

end Clara.Sema.Chk
