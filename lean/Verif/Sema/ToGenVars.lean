import Verif.Sema.ToGen
set_option linter.unusedVariables false
/-
The numbers that variables get: they grow, and an expression uses the variables in scope.
-/
namespace Clara.Sema.Chk
open Clara.Types
open Clara.Gen (TK TyR Expr varsL)
open Clara.Sema (SS SCh SSs SCs SBody SFn Lib)

theorem ok_bind {α β : Type} {a : Tr α} {f : α → Tr β} {b : β} (h : (a >>= f) = .ok b) : ∃ x, a = .ok x ∧ f x = .ok b := by
  cases a with
  | error e => cases h
  | ok x => exact ⟨x, rfl, h⟩

theorem ok_pure {α : Type} {a b : α} (h : (pure a : Tr α) = .ok b) : a = b := by
  cases h; rfl

theorem mem_bindParams {names : List String} {n : Nat} {q : String × Nat} (h : q ∈ bindParams names n) :
    n ≤ q.2 ∧ q.2 < n + names.length := by
  simp only [bindParams, List.mem_reverse] at h
  have h1 := List.le_snd_of_mem_zipIdx h
  have h2 := List.snd_lt_of_mem_zipIdx h
  omega

theorem mem_varsL {es : List Expr} {y : Nat} : y ∈ varsL es ↔ ∃ e ∈ es, y ∈ e.vars := by
  induction es with
  | nil => simp [varsL]
  | cons e es ih => simp [varsL, ih]

mutual
theorem found_vars : ∀ (e : Expr), ∀ p ∈ found e, p.1 ∈ e.vars
  | .var x t, p, h => by simp only [found, List.mem_singleton] at h; subst h; simp [Expr.vars]
  | .int _, p, h => by cases h
  | .bool _, p, h => by cases h
  | .str _, p, h => by cases h
  | .typ _, p, h => by cases h
  | .fnRef _ _ _, p, h => by cases h
  | .bin _ _ l r, p, h => by
    simp only [found, List.mem_append] at h
    simp only [Expr.vars, List.mem_append]
    exact h.imp (found_vars l p) (found_vars r p)
  | .un _ _ e, p, h => found_vars e p h
  | .tern _ c x y, p, h => by
    simp only [found, List.mem_append] at h
    simp only [Expr.vars, List.mem_append]
    exact h.imp (found_vars c p) (fun h => h.imp (found_vars x p) (found_vars y p))
  | .arrLit _ e, p, h => found_vars e p h
  | .callFn _ _ args, p, h => foundL_vars args p h
  | .callVar x _ args, p, h => List.mem_cons_of_mem _ (foundL_vars args p h)
  | .callExpr e _ args, p, h => by
    simp only [found, List.mem_append] at h
    simp only [Expr.vars, List.mem_append]
    exact h.imp (found_vars e p) (foundL_vars args p)
  | .dot _ e _, p, h => found_vars e p h
  | .index _ a i, p, h => by
    simp only [found, List.mem_append] at h
    simp only [Expr.vars, List.mem_append]
    exact h.imp (found_vars a p) (found_vars i p)
theorem foundL_vars : ∀ (es : List Expr), ∀ p ∈ foundL es, p.1 ∈ varsL es
  | [], p, h => by cases h
  | e :: es, p, h => by
    simp only [foundL, List.mem_append] at h
    simp only [varsL, List.mem_append]
    exact h.imp (found_vars e p) (foundL_vars es p)
end

theorem mem_caps {n : Nat} {p : Nat × TyR} : ∀ {ps : List (Nat × TyR)}, p ∈ caps n ps → p ∈ ps ∧ p.1 < n := by
  intro ps
  induction ps with
  | nil => intro h; cases h
  | cons q ps ih =>
    intro h
    simp only [caps] at h
    split at h
    · rename_i hq
      rcases List.mem_cons.mp h with rfl | h
      · exact ⟨List.mem_cons_self, hq⟩
      · have := ih (List.mem_filter.mp h).1
        exact ⟨List.mem_cons_of_mem _ this.1, this.2⟩
    · have := ih h
      exact ⟨List.mem_cons_of_mem _ this.1, this.2⟩

/-- What is made for a function literal uses captured variables only. -/
theorem hoist_vars {T : TrLib} {n : Nat} {ps : List (Nat × TyR)} {b : SBody} {u r : Ty} {st st' : TrSt} {e : Expr} {q : Nat → Prop}
    (hb : ∀ x ∈ exprsBody b, ∀ y ∈ x.vars, y < n → q y) (h : hoist T n ps b u r st = .ok (e, st')) :
    st.n ≤ st'.n ∧ ∀ y ∈ e.vars, q y := by
  simp only [hoist] at h
  split at h
  · split at h
    · cases h
      exact ⟨Nat.le_refl _, by simp [Expr.vars]⟩
    · cases h
      refine ⟨Nat.le_succ _, ?_⟩
      intro y hy
      simp only [Expr.vars, varsL, List.append_nil, List.nil_append] at hy
      obtain ⟨x, hx, hy⟩ := mem_varsL.mp hy
      obtain ⟨c, hc, rfl⟩ := List.mem_map.mp hx
      simp only [Expr.vars, List.mem_singleton] at hy
      subst hy
      obtain ⟨h1, h2⟩ := mem_caps hc
      obtain ⟨x, hx, hy⟩ := mem_varsL.mp (foundL_vars _ _ h1)
      exact hb x hx _ hy h2
  · cases h

theorem trElems_vars {T : TrLib} {t : TyR} : ∀ (es : List Expr) (x : Expr) (i : Nat), ∀ y ∈ (trElems T t x i es).vars,
    y ∈ x.vars ∨ y ∈ varsL es
  | [], x, i, y, h => .inl h
  | e :: es, x, i, y, h => by
    simp only [trElems] at h
    rcases trElems_vars es _ _ y h with h | h
    · simp only [Expr.vars, varsL, List.append_nil, List.nil_append, List.mem_append] at h
      rcases h with h | h
      · exact .inl h
      · exact .inr (List.mem_append_left _ h)
    · exact .inr (List.mem_append_right _ h)

theorem lookup_num {ρ : Names'} {x : String} {n : Nat} (h : ρ.lookup x = some n) : n ∈ ρ.map (·.2) := by
  induction ρ with
  | nil => cases h
  | cons q ρ ih =>
    obtain ⟨y, m⟩ := q
    simp only [List.lookup] at h
    split at h
    · cases h; simp
    · exact List.mem_cons_of_mem _ (ih h)

theorem trIdent_vars {T : TrLib} {ρ : Names'} {x : String} {a : Ann} {e : Expr} (h : trIdent T ρ x a = .ok e) :
    ∀ y ∈ e.vars, y ∈ ρ.map (·.2) := by
  simp only [trIdent] at h
  split at h
  · split at h
    · cases h
    · split at h
      · split at h
        · cases h; simp [Expr.vars]
        · cases h
      · split at h
        · rename_i n hn
          cases h
          intro y hy
          simp only [Expr.vars, List.mem_singleton] at hy
          subst hy
          exact lookup_num hn
        · cases h
  · cases h

theorem trInvoke_vars {T : TrLib} {f : Expr} {u : Ty} {as : List Expr} : ∀ y ∈ (trInvoke T f u as).vars, y ∈ f.vars ∨ y ∈ varsL as := by
  intro y hy
  cases f <;> simp only [trInvoke, Expr.vars, varsL, List.mem_append] at hy ⊢ <;> first | exact .inr hy | exact hy

theorem trCall_vars {T : TrLib} {x : String} {s : Alt} {u : Ty} {as : List Expr} {e : Expr} (h : trCall T x s u as = .ok e) :
    e.vars = varsL as := by
  simp only [trCall] at h
  split at h
  · cases h; rfl
  · cases h

/-- Numbers that are not in scope are new. -/
def Own (ρ : Names') (n : Nat) (es : List Expr) : Prop := ∀ e ∈ es, ∀ y ∈ e.vars, y ∈ ρ.map (·.2) ∨ n ≤ y

theorem Own.app {ρ : Names'} {n m : Nat} {es es' : List Expr} (h : Own ρ n es) (h' : Own ρ m es') (hm : n ≤ m) : Own ρ n (es ++ es') := by
  intro e he y hy
  rcases List.mem_append.mp he with he | he
  · exact h e he y hy
  · exact (h' e he y hy).imp id (fun h => by omega)

theorem Own.cons {ρ : Names'} {n m : Nat} {e : Expr} {es : List Expr} (h : ∀ y ∈ e.vars, y ∈ ρ.map (·.2)) (h' : Own ρ m es) (hm : n ≤ m) :
    Own ρ n (e :: es) := by
  intro x he y hy
  rcases List.mem_cons.mp he with rfl | he
  · exact .inl (h y hy)
  · exact (h' x he y hy).imp id (fun h => by omega)

theorem Own.one {ρ : Names'} {n : Nat} {e : Expr} (h : ∀ y ∈ e.vars, y ∈ ρ.map (·.2)) : Own ρ n [e] :=
  Own.cons h (m := n) (fun _ h => by cases h) (Nat.le_refl _)

theorem Own.out {pre ρ : Names'} {n m : Nat} {es : List Expr} (h : Own (pre ++ ρ) m es) (hp : ∀ q ∈ pre, n ≤ q.2) (hm : n ≤ m) : Own ρ n es := by
  intro e he y hy
  rcases h e he y hy with h | h
  · simp only [List.map_append, List.mem_append] at h
    rcases h with h | h
    · obtain ⟨q, hq, rfl⟩ := List.mem_map.mp h
      exact .inr (hp q hq)
    · exact .inl h
  · exact .inr (by omega)

/-- The names after a statement: some new ones before those in scope. -/
def More (ρ ρ' : Names') (n n' : Nat) : Prop := ρ' = ρ ∨ ∃ x, n < n' ∧ ρ' = (x, n' - 1) :: ρ

theorem callForm (f : X) : (∃ x t s r, f = .ident x ⟨t, some (s :: r)⟩) ∨ ∀ x t s r, f ≠ .ident x ⟨t, some (s :: r)⟩ := by
  by_cases h : ∃ x t s r, f = .ident x ⟨t, some (s :: r)⟩
  · exact .inl h
  · exact .inr (fun x t s r e => h ⟨x, t, s, r, e⟩)

theorem trX_callI {T : TrLib} {D : Decls} {ρ : Names'} {x : String} {t : Option Ty} {s : Alt} {r : Sym} {ts : List TyN} {args : List X} {a : Ann}
    {st : TrSt} : trX T D ρ (.call (.ident x ⟨t, some (s :: r)⟩) ts args a) st = (do
      let (as, st) ← trL T D ρ args st
      match a.typ with
      | none => .error .outside
      | some u =>
        if s.isGlobal then do
          let e ← trCall T x s u as
          pure (e, st)
        else do
          let e ← trIdent T ρ x ⟨t, some (s :: r)⟩
          pure (trInvoke T e u as, st)) := by
  rw [trX]
  rfl

theorem trX_callF {T : TrLib} {D : Decls} {ρ : Names'} {f : X} {ts : List TyN} {args : List X} {a : Ann} {st : TrSt}
    (hf : ∀ x t s r, f ≠ .ident x ⟨t, some (s :: r)⟩) : trX T D ρ (.call f ts args a) st = (do
      let (e, st) ← trX T D ρ f st
      let (as, st) ← trL T D ρ args st
      match a.typ with
      | none => .error .outside
      | some u => pure (trInvoke T e u as, st)) := by
  rw [trX]
  · rfl
  · exact hf

theorem trS_for {T : TrLib} {D : Decls} {ρ : Names'} {x : String} {a : Ann} {e : X} {ss : List S} {st : TrSt}
    (he : ∀ lo hi c, e ≠ .bin .range lo hi c) : trS T D ρ (.for_ x a e ss) st = (do
      let r ← trX T D ρ e st
      match e.typ with
      | some (.array u) => do
        let q ← trB T D ((x, r.2.n) :: ρ) ss { r.2 with n := r.2.n + 1 }
        pure (.forA r.2.n (T.ty u) r.1 q.1, ρ, q.2)
      | _ => .error .outside) := by
  cases e with
  | bin op lo hi c =>
    cases op with
    | range => exact absurd rfl (he lo hi c)
    | _ => rfl
  | _ => rfl

theorem for_vars {T : TrLib} {D : Decls} {ρ : Names'} {x : String} {a : Ann} {e : X} {ss : List S} {st st' : TrSt} {s' : SS} {ρ' : Names'}
    (he : ∀ lo hi c, e ≠ .bin .range lo hi c)
    (k1 : ∀ {e' st1}, trX T D ρ e st = .ok (e', st1) → st.n ≤ st1.n ∧ ∀ y ∈ e'.vars, y ∈ ρ.map (·.2))
    (k2 : ∀ {ρ1 st1 b st2}, trB T D ρ1 ss st1 = .ok (b, st2) → st1.n ≤ st2.n ∧ Own ρ1 st1.n (exprsB b))
    (h : trS T D ρ (.for_ x a e ss) st = .ok (s', ρ', st')) : st.n ≤ st'.n ∧ More ρ ρ' st.n st'.n ∧ Own ρ st.n (exprsS s') := by
  rw [trS_for he] at h
  obtain ⟨⟨e1, st1⟩, h1, h⟩ := ok_bind h
  obtain ⟨m1, v1⟩ := k1 h1
  simp only at h
  split at h
  · obtain ⟨⟨b, st2⟩, h2, h⟩ := ok_bind h
    obtain ⟨m2, v2⟩ := k2 h2
    simp only at m2
    cases h
    have o3 : Own ρ st1.n (exprsB b) := Own.out (pre := [(x, st1.n)]) v2 (by simp) (Nat.le_succ _)
    exact ⟨by simp only; omega, .inl rfl, Own.cons v1 o3 m1⟩
  · cases h

set_option maxHeartbeats 2000000 in
mutual
theorem trX_vars (T : TrLib) (D : Decls) : ∀ (x : X) (ρ : Names') (st : TrSt) (e : Expr) (st' : TrSt),
    trX T D ρ x st = .ok (e, st') → st.n ≤ st'.n ∧ ∀ y ∈ e.vars, y ∈ ρ.map (·.2)
  | .lit k a, ρ, st, e, st', h => by
    cases h
    cases k <;> exact ⟨Nat.le_refl _, by simp [trLit, Expr.vars]⟩
  | .ident x a, ρ, st, e, st', h => by
    simp only [trX] at h
    obtain ⟨e1, h1, h⟩ := ok_bind h
    cases h
    exact ⟨Nat.le_refl _, trIdent_vars h1⟩
  | .call f ts args a, ρ, st, e, st', h => by
    rcases callForm f with ⟨x, t, s, r, rfl⟩ | hf
    · rw [trX_callI] at h
      obtain ⟨⟨as, st1⟩, h1, h⟩ := ok_bind h
      obtain ⟨m1, v1⟩ := trL_vars T D args ρ st as st1 h1
      simp only at h
      split at h
      · cases h
      · split at h
        · obtain ⟨e1, h2, h⟩ := ok_bind h
          cases h
          refine ⟨m1, ?_⟩
          rw [trCall_vars h2]
          exact v1
        · obtain ⟨e1, h2, h⟩ := ok_bind h
          cases h
          refine ⟨m1, ?_⟩
          intro y hy
          rcases trInvoke_vars y hy with hy | hy
          · exact trIdent_vars h2 y hy
          · exact v1 y hy
    · rw [trX_callF hf] at h
      obtain ⟨⟨e1, st1⟩, h1, h⟩ := ok_bind h
      obtain ⟨⟨as, st2⟩, h2, h⟩ := ok_bind h
      obtain ⟨m1, v1⟩ := trX_vars T D f ρ st e1 st1 h1
      obtain ⟨m2, v2⟩ := trL_vars T D args ρ st1 as st2 h2
      simp only at h
      split at h
      · cases h
      · cases h
        refine ⟨Nat.le_trans m1 m2, ?_⟩
        intro y hy
        rcases trInvoke_vars y hy with hy | hy
        · exact v1 y hy
        · exact v2 y hy
  | .bin op l r a, ρ, st, e, st', h => by
    simp only [trX] at h
    split at h
    · cases h
    · obtain ⟨⟨e1, st1⟩, h1, h⟩ := ok_bind h
      obtain ⟨⟨e2, st2⟩, h2, h⟩ := ok_bind h
      obtain ⟨m1, v1⟩ := trX_vars T D l ρ st e1 st1 h1
      obtain ⟨m2, v2⟩ := trX_vars T D r ρ st1 e2 st2 h2
      simp only at h
      split at h
      · cases h
      · cases h
        refine ⟨Nat.le_trans m1 m2, ?_⟩
        intro y hy
        simp only [Expr.vars, List.mem_append] at hy
        exact hy.elim (v1 y) (v2 y)
  | .cmp op l r a, ρ, st, e, st', h => by
    simp only [trX] at h
    obtain ⟨⟨e1, st1⟩, h1, h⟩ := ok_bind h
    obtain ⟨⟨e2, st2⟩, h2, h⟩ := ok_bind h
    obtain ⟨m1, v1⟩ := trX_vars T D l ρ st e1 st1 h1
    obtain ⟨m2, v2⟩ := trX_vars T D r ρ st1 e2 st2 h2
    simp only at h
    split at h
    · cases h
    · cases h
      refine ⟨Nat.le_trans m1 m2, ?_⟩
      intro y hy
      simp only [Expr.vars, List.mem_append] at hy
      exact hy.elim (v1 y) (v2 y)
  | .un op x a, ρ, st, e, st', h => by
    simp only [trX] at h
    obtain ⟨⟨e1, st1⟩, h1, h⟩ := ok_bind h
    obtain ⟨m1, v1⟩ := trX_vars T D x ρ st e1 st1 h1
    simp only at h
    split at h
    · cases h
    · cases h
      exact ⟨m1, v1⟩
  | .tern c x y a, ρ, st, e, st', h => by
    simp only [trX] at h
    obtain ⟨⟨e1, st1⟩, h1, h⟩ := ok_bind h
    obtain ⟨⟨e2, st2⟩, h2, h⟩ := ok_bind h
    obtain ⟨⟨e3, st3⟩, h3, h⟩ := ok_bind h
    obtain ⟨m1, v1⟩ := trX_vars T D c ρ st e1 st1 h1
    obtain ⟨m2, v2⟩ := trX_vars T D x ρ st1 e2 st2 h2
    obtain ⟨m3, v3⟩ := trX_vars T D y ρ st2 e3 st3 h3
    simp only at h
    split at h
    · cases h
    · cases h
      refine ⟨Nat.le_trans m1 (Nat.le_trans m2 m3), ?_⟩
      intro y hy
      simp only [Expr.vars, List.mem_append] at hy
      exact hy.elim (v1 y) (fun hy => hy.elim (v2 y) (v3 y))
  | .arr es a, ρ, st, e, st', h => by
    simp only [trX] at h
    obtain ⟨⟨as, st1⟩, h1, h⟩ := ok_bind h
    obtain ⟨m1, v1⟩ := trL_vars T D es ρ st as st1 h1
    simp only at h
    split at h
    · cases h
    · cases h
      refine ⟨m1, ?_⟩
      intro y hy
      simp only [Expr.vars, trArr] at hy
      rcases trElems_vars _ _ _ y hy with hy | hy
      · simp [Expr.vars, varsL] at hy
      · exact v1 y hy
  | .index l r a, ρ, st, e, st', h => by
    simp only [trX] at h
    obtain ⟨⟨e1, st1⟩, h1, h⟩ := ok_bind h
    obtain ⟨⟨e2, st2⟩, h2, h⟩ := ok_bind h
    obtain ⟨m1, v1⟩ := trX_vars T D l ρ st e1 st1 h1
    obtain ⟨m2, v2⟩ := trX_vars T D r ρ st1 e2 st2 h2
    simp only at h
    split at h
    · cases h
    · cases h
      refine ⟨Nat.le_trans m1 m2, ?_⟩
      intro y hy
      simp only [Expr.vars, List.mem_append] at hy
      exact hy.elim (v1 y) (v2 y)
  | .dot l r a, ρ, st, e, st', h => by
    simp only [trX] at h
    obtain ⟨⟨e1, st1⟩, h1, h⟩ := ok_bind h
    obtain ⟨m1, v1⟩ := trX_vars T D l ρ st e1 st1 h1
    simp only at h
    split at h
    · split at h
      · cases h
      · cases h
        exact ⟨m1, v1⟩
    · cases h
  | .ty t a, ρ, st, e, st', h => by
    simp only [trX] at h
    split at h
    · cases h
    · cases h
      exact ⟨Nat.le_refl _, by simp [Expr.vars]⟩
  | .fnB hd i ss a, ρ, st, e, st', h => by
    simp only [trX] at h
    split at h
    · obtain ⟨⟨b, st1⟩, h1, h⟩ := ok_bind h
      obtain ⟨m1, v1⟩ := trB_vars T D ss _ _ b st1 h1
      simp only at m1
      have := hoist_vars (q := fun y => y ∈ ρ.map (·.2)) ?_ h
      · exact ⟨by have := this.1; simp only at this; omega, this.2⟩
      · intro x hx y hy hn
        rcases v1 x hx y hy with h | h
        · simp only [List.map_append, List.mem_append] at h
          rcases h with h | h
          · obtain ⟨q, hq, rfl⟩ := List.mem_map.mp h
            have := mem_bindParams hq
            omega
          · exact h
        · simp only at h; omega
    · cases h
  | .fnE hd i x a, ρ, st, e, st', h => by
    simp only [trX] at h
    split at h
    · obtain ⟨⟨b, st1⟩, h1, h⟩ := ok_bind h
      obtain ⟨m1, v1⟩ := trX_vars T D x _ _ b st1 h1
      simp only at m1
      have := hoist_vars (q := fun y => y ∈ ρ.map (·.2)) ?_ h
      · exact ⟨by have := this.1; simp only at this; omega, this.2⟩
      · intro x hx y hy hn
        simp only [exprsBody, List.mem_singleton] at hx
        subst hx
        have h := v1 y hy
        simp only [List.map_append, List.mem_append] at h
        rcases h with h | h
        · obtain ⟨q, hq, rfl⟩ := List.mem_map.mp h
          have := mem_bindParams hq
          omega
        · exact h
    · cases h
theorem trL_vars (T : TrLib) (D : Decls) : ∀ (xs : List X) (ρ : Names') (st : TrSt) (es : List Expr) (st' : TrSt),
    trL T D ρ xs st = .ok (es, st') → st.n ≤ st'.n ∧ ∀ y ∈ varsL es, y ∈ ρ.map (·.2)
  | [], ρ, st, es, st', h => by
    simp only [trL] at h
    cases h
    exact ⟨Nat.le_refl _, by simp [varsL]⟩
  | x :: xs, ρ, st, es, st', h => by
    simp only [trL] at h
    obtain ⟨⟨e1, st1⟩, h1, h⟩ := ok_bind h
    obtain ⟨⟨es2, st2⟩, h2, h⟩ := ok_bind h
    obtain ⟨m1, v1⟩ := trX_vars T D x ρ st e1 st1 h1
    obtain ⟨m2, v2⟩ := trL_vars T D xs ρ st1 es2 st2 h2
    cases h
    refine ⟨Nat.le_trans m1 m2, ?_⟩
    intro y hy
    simp only [varsL, List.mem_append] at hy
    exact hy.elim (v1 y) (v2 y)
theorem trS_vars (T : TrLib) (D : Decls) : ∀ (s : S) (ρ : Names') (st : TrSt) (s' : SS) (ρ' : Names') (st' : TrSt),
    trS T D ρ s st = .ok (s', ρ', st') → st.n ≤ st'.n ∧ More ρ ρ' st.n st'.n ∧ Own ρ st.n (exprsS s')
  | .expr x, ρ, st, s', ρ', st', h => by
    simp only [trS] at h
    obtain ⟨⟨e1, st1⟩, h1, h⟩ := ok_bind h
    obtain ⟨m1, v1⟩ := trX_vars T D x ρ st e1 st1 h1
    cases h
    exact ⟨m1, .inl rfl, Own.one v1⟩
  | .loop c ss, ρ, st, s', ρ', st', h => by
    simp only [trS] at h
    obtain ⟨⟨e1, st1⟩, h1, h⟩ := ok_bind h
    obtain ⟨⟨b, st2⟩, h2, h⟩ := ok_bind h
    obtain ⟨m1, v1⟩ := trX_vars T D c ρ st e1 st1 h1
    obtain ⟨m2, v2⟩ := trB_vars T D ss ρ st1 b st2 h2
    cases h
    exact ⟨Nat.le_trans m1 m2, .inl rfl, Own.cons v1 v2 m1⟩
  | .for_ x a e ss, ρ, st, s', ρ', st', h => by
    cases e with
    | bin op lo hi c =>
      cases op with
      | range =>
        simp only [trS] at h
        obtain ⟨⟨e1, st1⟩, h1, h⟩ := ok_bind h
        obtain ⟨⟨e2, st2⟩, h2, h⟩ := ok_bind h
        obtain ⟨⟨b, st3⟩, h3, h⟩ := ok_bind h
        obtain ⟨m1, v1⟩ := trX_vars T D lo ρ st e1 st1 h1
        obtain ⟨m2, v2⟩ := trX_vars T D hi ρ st1 e2 st2 h2
        obtain ⟨m3, v3⟩ := trB_vars T D ss _ _ b st3 h3
        simp only at m3
        cases h
        have o3 : Own ρ st2.n (exprsB b) := Own.out (pre := [(x, st2.n)]) v3 (by simp) (Nat.le_succ _)
        exact ⟨by simp only; omega, .inl rfl, Own.cons v1 (Own.cons v2 o3 (Nat.le_refl _)) (by omega)⟩
      | _ => exact for_vars (by intros; nofun) (fun h => trX_vars T D _ ρ _ _ _ h) (fun h => trB_vars T D ss _ _ _ _ h) h
    | _ => exact for_vars (by intros; nofun) (fun h => trX_vars T D _ ρ _ _ _ h) (fun h => trB_vars T D ss _ _ _ _ h) h
  | .ifs c, ρ, st, s', ρ', st', h => by
    simp only [trS] at h
    obtain ⟨⟨e1, st1⟩, h1, h⟩ := ok_bind h
    obtain ⟨m1, v1⟩ := trCh_vars T D c ρ st e1 st1 h1
    cases h
    exact ⟨m1, .inl rfl, v1⟩
  | .ret0, ρ, st, s', ρ', st', h => by
    simp only [trS] at h
    cases h
    exact ⟨Nat.le_refl _, .inl rfl, fun _ h => by cases h⟩
  | .ret x, ρ, st, s', ρ', st', h => by
    simp only [trS] at h
    obtain ⟨⟨e1, st1⟩, h1, h⟩ := ok_bind h
    obtain ⟨m1, v1⟩ := trX_vars T D x ρ st e1 st1 h1
    cases h
    exact ⟨m1, .inl rfl, Own.one v1⟩
  | .das l r, ρ, st, s', ρ', st', h => by
    simp only [trS] at h
    obtain ⟨⟨e1, st1⟩, h1, h⟩ := ok_bind h
    obtain ⟨m1, v1⟩ := trX_vars T D r ρ st e1 st1 h1
    simp only at h
    split at h
    · rename_i x t sy _
      cases h
      refine ⟨Nat.le_succ_of_le m1, .inr ⟨x, by simp only; omega, rfl⟩, ?_⟩
      intro e he y hy
      simp only [exprsS, List.mem_cons, List.not_mem_nil, or_false] at he
      rcases he with rfl | rfl
      · simp only [Expr.vars, List.mem_singleton] at hy
        exact .inr (by omega)
      · exact .inl (v1 y hy)
    · cases h
  | .asg l r, ρ, st, s', ρ', st', h => by
    simp only [trS] at h
    obtain ⟨⟨e1, st1⟩, h1, h⟩ := ok_bind h
    obtain ⟨⟨e2, st2⟩, h2, h⟩ := ok_bind h
    obtain ⟨m1, v1⟩ := trX_vars T D l ρ st e1 st1 h1
    obtain ⟨m2, v2⟩ := trX_vars T D r ρ st1 e2 st2 h2
    cases h
    exact ⟨Nat.le_trans m1 m2, .inl rfl, Own.cons v1 (Own.one (n := st.n) v2) (Nat.le_refl _)⟩
  | .match_ e cs, ρ, st, s', ρ', st', h => by
    simp only [trS] at h
    obtain ⟨⟨e1, st1⟩, h1, h⟩ := ok_bind h
    obtain ⟨m1, v1⟩ := trX_vars T D e ρ st e1 st1 h1
    simp only at h
    split at h
    · obtain ⟨⟨b, st2⟩, h2, h⟩ := ok_bind h
      obtain ⟨m2, v2⟩ := trCs_vars T D cs ρ _ st1 b st2 h2
      cases h
      exact ⟨Nat.le_trans m1 m2, .inl rfl, Own.cons v1 v2 m1⟩
    · cases h
theorem trCh_vars (T : TrLib) (D : Decls) : ∀ (c : Ch) (ρ : Names') (st : TrSt) (c' : SCh) (st' : TrSt),
    trCh T D ρ c st = .ok (c', st') → st.n ≤ st'.n ∧ Own ρ st.n (exprsCh c')
  | .done, ρ, st, c', st', h => by
    simp only [trCh] at h
    cases h
    exact ⟨Nat.le_refl _, fun _ h => by cases h⟩
  | .els ss, ρ, st, c', st', h => by
    simp only [trCh] at h
    obtain ⟨⟨b, st1⟩, h1, h⟩ := ok_bind h
    obtain ⟨m1, v1⟩ := trB_vars T D ss ρ st b st1 h1
    cases h
    exact ⟨m1, v1⟩
  | .cond c ss n, ρ, st, c', st', h => by
    simp only [trCh] at h
    obtain ⟨⟨e1, st1⟩, h1, h⟩ := ok_bind h
    obtain ⟨⟨b, st2⟩, h2, h⟩ := ok_bind h
    obtain ⟨⟨n', st3⟩, h3, h⟩ := ok_bind h
    obtain ⟨m1, v1⟩ := trX_vars T D c ρ st e1 st1 h1
    obtain ⟨m2, v2⟩ := trB_vars T D ss ρ st1 b st2 h2
    obtain ⟨m3, v3⟩ := trCh_vars T D n ρ st2 n' st3 h3
    cases h
    exact ⟨Nat.le_trans m1 (Nat.le_trans m2 m3), Own.cons v1 (Own.app v2 v3 m2) m1⟩
theorem trB_vars (T : TrLib) (D : Decls) : ∀ (ss : List S) (ρ : Names') (st : TrSt) (b : SSs) (st' : TrSt),
    trB T D ρ ss st = .ok (b, st') → st.n ≤ st'.n ∧ Own ρ st.n (exprsB b)
  | [], ρ, st, b, st', h => by
    simp only [trB] at h
    cases h
    exact ⟨Nat.le_refl _, fun _ h => by cases h⟩
  | s :: ss, ρ, st, b, st', h => by
    simp only [trB] at h
    obtain ⟨⟨s', ρ1, st1⟩, h1, h⟩ := ok_bind h
    obtain ⟨⟨b', st2⟩, h2, h⟩ := ok_bind h
    obtain ⟨m1, r1, v1⟩ := trS_vars T D s ρ st s' ρ1 st1 h1
    obtain ⟨m2, v2⟩ := trB_vars T D ss ρ1 st1 b' st2 h2
    cases h
    refine ⟨Nat.le_trans m1 m2, ?_⟩
    have o2 : Own ρ st.n (exprsB b') := by
      rcases r1 with rfl | ⟨x, hx, rfl⟩
      · exact Own.out (pre := []) v2 (by simp) m1
      · exact Own.out (pre := [(x, st1.n - 1)]) v2 (by simp; omega) m1
    exact Own.app v1 o2 (Nat.le_refl _)
theorem trCs_vars (T : TrLib) (D : Decls) : ∀ (cs : List Case) (ρ : Names') (ms : List Nat) (st : TrSt) (b : SCs) (st' : TrSt),
    trCs T D ρ ms cs st = .ok (b, st') → st.n ≤ st'.n ∧ Own ρ st.n (exprsCs b)
  | [], ρ, ms, st, b, st', h => by
    simp only [trCs] at h
    cases h
    exact ⟨Nat.le_refl _, fun _ h => by cases h⟩
  | .mk x sym vs ss :: cs, ρ, ms, st, b, st', h => by
    simp only [trCs] at h
    split at h
    · obtain ⟨⟨b1, st1⟩, h1, h⟩ := ok_bind h
      obtain ⟨⟨b2, st2⟩, h2, h⟩ := ok_bind h
      obtain ⟨m1, v1⟩ := trB_vars T D ss _ _ b1 st1 h1
      obtain ⟨m2, v2⟩ := trCs_vars T D cs ρ ms st1 b2 st2 h2
      simp only at m1
      cases h
      refine ⟨by simp only; omega, ?_⟩
      exact Own.app (Own.out v1 (fun q hq => (mem_bindParams hq).1) (by simp)) v2 (by omega)
    · cases h
end

end Clara.Sema.Chk
