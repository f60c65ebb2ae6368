import Verif.Sema.MeaningOk
import Verif.Sema.Fine
set_option linter.unusedVariables false
/-
The functions made of checked functions (C68) are such that lowering keeps the meaning (`SFn.Mild`).
-/
namespace Clara.Sema.Chk
open Clara.Types Clara.Sema
open Clara.Gen (Expr TyR)

theorem rangeForm (e : X) : (∃ lo hi c, e = .bin .range lo hi c) ∨ ∀ lo hi c, e ≠ .bin .range lo hi c := by
  by_cases h : ∃ lo hi c, e = .bin .range lo hi c
  · exact .inl h
  · exact .inr (fun lo hi c e => h ⟨lo, hi, c, e⟩)

/-! ### The variables of loops are new -/

mutual
def loopsS : SS → List Nat
  | .ifs c => loopsCh c
  | .loop _ b => loopsB b
  | .forR x _ _ _ b => x :: loopsB b
  | .forA x _ _ b => x :: loopsB b
  | .match_ _ cs => loopsCs cs
  | _ => []
def loopsCh : SCh → List Nat
  | .done => []
  | .els b => loopsB b
  | .cond _ b n => loopsB b ++ loopsCh n
def loopsB : SSs → List Nat
  | .nil => []
  | .cons s ss => loopsS s ++ loopsB ss
def loopsCs : SCs → List Nat
  | .nil => []
  | .cons _ _ b n => loopsB b ++ loopsCs n
end

/-- Numbers between `n` and `m`. -/
def Betw (n m : Nat) (ys : List Nat) : Prop := ∀ y ∈ ys, n ≤ y ∧ y < m

theorem Betw.app {n n' m m' k l : Nat} {xs ys : List Nat} (h : Betw n m xs) (h' : Betw n' m' ys) (h1 : k ≤ n) (h2 : k ≤ n') (h3 : m ≤ l)
    (h4 : m' ≤ l) : Betw k l (xs ++ ys) := by
  intro y hy
  rcases List.mem_append.mp hy with hy | hy
  · have := h y hy; omega
  · have := h' y hy; omega

theorem Betw.le {n m k l : Nat} {xs : List Nat} (h : Betw n m xs) (h1 : k ≤ n) (h3 : m ≤ l) : Betw k l xs := by
  intro y hy
  have := h y hy; omega

mutual
theorem trS_loops (T : TrLib) (D : Decls) : ∀ (s : S) (ρ : Names') (st : TrSt) (s' : SS) (ρ' : Names') (st' : TrSt),
    trS T D ρ s st = .ok (s', ρ', st') → Betw st.n st'.n (loopsS s')
  | .expr x, ρ, st, s', ρ', st', h => by
    simp only [trS] at h
    obtain ⟨⟨e1, st1⟩, h1, h⟩ := ok_bind h
    cases h
    intro y hy; cases hy
  | .loop c ss, ρ, st, s', ρ', st', h => by
    simp only [trS] at h
    obtain ⟨⟨e1, st1⟩, h1, h⟩ := ok_bind h
    obtain ⟨⟨b, st2⟩, h2, h⟩ := ok_bind h
    cases h
    exact (trB_loops T D ss _ _ _ _ h2).le (trX_vars _ _ _ _ _ _ _ h1).1 (Nat.le_refl _)
  | .for_ x a e ss, ρ, st, s', ρ', st', h => by
    rcases rangeForm e with ⟨lo, hi, c, rfl⟩ | he
    · simp only [trS] at h
      obtain ⟨⟨e1, st1⟩, h1, h⟩ := ok_bind h
      obtain ⟨⟨e2, st2⟩, h2, h⟩ := ok_bind h
      obtain ⟨⟨b, st3⟩, h3, h⟩ := ok_bind h
      cases h
      have n1 := (trX_vars _ _ _ _ _ _ _ h1).1
      have n2 := (trX_vars _ _ _ _ _ _ _ h2).1
      have n3 := (trB_vars _ _ _ _ _ _ _ h3).1
      have l3 := trB_loops T D ss _ _ _ _ h3
      simp only at n1 n2 n3 l3 ⊢
      intro y hy
      simp only [loopsS, List.mem_cons] at hy
      rcases hy with rfl | hy
      · omega
      · have := l3 y hy; omega
    · rw [trS_for he] at h
      obtain ⟨⟨e1, st1⟩, h1, h⟩ := ok_bind h
      simp only at h
      split at h
      · obtain ⟨⟨b, st2⟩, h2, h⟩ := ok_bind h
        cases h
        have n1 := (trX_vars _ _ _ _ _ _ _ h1).1
        have n3 := (trB_vars _ _ _ _ _ _ _ h2).1
        have l3 := trB_loops T D ss _ _ _ _ h2
        simp only at n1 n3 l3 ⊢
        intro y hy
        simp only [loopsS, List.mem_cons] at hy
        rcases hy with rfl | hy
        · omega
        · have := l3 y hy; omega
      · cases h
  | .ifs c, ρ, st, s', ρ', st', h => by
    simp only [trS] at h
    obtain ⟨⟨c', st1⟩, h1, h⟩ := ok_bind h
    cases h
    exact trCh_loops T D c _ _ _ _ h1
  | .ret0, ρ, st, s', ρ', st', h => by
    simp only [trS] at h
    cases h
    intro y hy; cases hy
  | .ret e, ρ, st, s', ρ', st', h => by
    simp only [trS] at h
    obtain ⟨⟨e1, st1⟩, h1, h⟩ := ok_bind h
    cases h
    intro y hy; cases hy
  | .das l r, ρ, st, s', ρ', st', h => by
    simp only [trS] at h
    obtain ⟨⟨e1, st1⟩, h1, h⟩ := ok_bind h
    simp only at h
    split at h
    · cases h
      intro y hy; cases hy
    · cases h
  | .asg l r, ρ, st, s', ρ', st', h => by
    simp only [trS] at h
    obtain ⟨⟨e1, st1⟩, h1, h⟩ := ok_bind h
    obtain ⟨⟨e2, st2⟩, h2, h⟩ := ok_bind h
    cases h
    intro y hy; cases hy
  | .match_ e cs, ρ, st, s', ρ', st', h => by
    simp only [trS] at h
    obtain ⟨⟨e1, st1⟩, h1, h⟩ := ok_bind h
    simp only at h
    split at h
    · obtain ⟨⟨cs', st2⟩, h2, h⟩ := ok_bind h
      cases h
      exact (trCs_loops T D cs _ _ _ _ _ h2).le (trX_vars _ _ _ _ _ _ _ h1).1 (Nat.le_refl _)
    · cases h
theorem trCh_loops (T : TrLib) (D : Decls) : ∀ (c : Ch) (ρ : Names') (st : TrSt) (c' : SCh) (st' : TrSt),
    trCh T D ρ c st = .ok (c', st') → Betw st.n st'.n (loopsCh c')
  | .done, ρ, st, c', st', h => by
    simp only [trCh] at h
    cases h
    intro y hy; cases hy
  | .els ss, ρ, st, c', st', h => by
    simp only [trCh] at h
    obtain ⟨⟨b, st1⟩, h1, h⟩ := ok_bind h
    cases h
    exact trB_loops T D ss _ _ _ _ h1
  | .cond c ss n, ρ, st, c', st', h => by
    simp only [trCh] at h
    obtain ⟨⟨e1, st1⟩, h1, h⟩ := ok_bind h
    obtain ⟨⟨b, st2⟩, h2, h⟩ := ok_bind h
    obtain ⟨⟨c2, st3⟩, h3, h⟩ := ok_bind h
    cases h
    have n1 := (trX_vars _ _ _ _ _ _ _ h1).1
    have n2 := (trB_vars _ _ _ _ _ _ _ h2).1
    have n3 := (trCh_vars _ _ _ _ _ _ _ h3).1
    exact (trB_loops T D ss _ _ _ _ h2).app (trCh_loops T D n _ _ _ _ h3) n1 (Nat.le_trans n1 n2) n3 (Nat.le_refl _)
theorem trB_loops (T : TrLib) (D : Decls) : ∀ (ss : List S) (ρ : Names') (st : TrSt) (b : SSs) (st' : TrSt),
    trB T D ρ ss st = .ok (b, st') → Betw st.n st'.n (loopsB b)
  | [], ρ, st, b, st', h => by
    simp only [trB] at h
    cases h
    intro y hy; cases hy
  | s :: ss, ρ, st, b, st', h => by
    simp only [trB] at h
    obtain ⟨⟨s1, ρ1, st1⟩, h1, h⟩ := ok_bind h
    obtain ⟨⟨b2, st2⟩, h2, h⟩ := ok_bind h
    cases h
    have n1 := (trS_vars _ _ _ _ _ _ _ _ h1).1
    have n2 := (trB_vars _ _ _ _ _ _ _ h2).1
    exact (trS_loops T D s _ _ _ _ _ h1).app (trB_loops T D ss _ _ _ _ h2) (Nat.le_refl _) n1 n2 (Nat.le_refl _)
theorem trCs_loops (T : TrLib) (D : Decls) : ∀ (cs : List Case) (ρ : Names') (ms : List Nat) (st : TrSt) (b : SCs) (st' : TrSt),
    trCs T D ρ ms cs st = .ok (b, st') → Betw st.n st'.n (loopsCs b)
  | [], ρ, ms, st, b, st', h => by
    simp only [trCs] at h
    cases h
    intro y hy; cases hy
  | .mk x sym vs ss :: cs, ρ, ms, st, b, st', h => by
    simp only [trCs] at h
    split at h
    · rename_i s ts hts
      obtain ⟨⟨b1, st1⟩, h1, h⟩ := ok_bind h
      obtain ⟨⟨b2, st2⟩, h2, h⟩ := ok_bind h
      cases h
      have n1 := (trB_vars _ _ _ _ _ _ _ h1).1
      have n2 := (trCs_vars _ _ _ _ _ _ _ _ h2).1
      simp only at n1
      exact (trB_loops T D ss _ _ _ _ h1).app (trCs_loops T D cs _ _ _ _ _ h2) (Nat.le_add_right _ _) (by simp only; omega) n2 (Nat.le_refl _)
    · cases h
end

/-- Only declarations change the names in scope. -/
theorem trS_das {T : TrLib} {D : Decls} {s : S} {ρ : Names'} {st : TrSt} {s' : SS} {ρ' : Names'} {st' : TrSt}
    (h : trS T D ρ s st = .ok (s', ρ', st')) : ρ' = ρ ∨ loopsS s' = [] := by
  cases s with
  | expr x =>
    simp only [trS] at h
    obtain ⟨_, h1, h⟩ := ok_bind h
    cases h; exact .inl rfl
  | loop c ss =>
    simp only [trS] at h
    obtain ⟨_, h1, h⟩ := ok_bind h
    obtain ⟨_, h2, h⟩ := ok_bind h
    cases h; exact .inl rfl
  | for_ x a e ss =>
    rcases rangeForm e with ⟨lo, hi, c, rfl⟩ | he
    · simp only [trS] at h
      obtain ⟨_, h1, h⟩ := ok_bind h
      obtain ⟨_, h2, h⟩ := ok_bind h
      obtain ⟨_, h3, h⟩ := ok_bind h
      cases h; exact .inl rfl
    · rw [trS_for he] at h
      obtain ⟨_, h1, h⟩ := ok_bind h
      simp only at h
      split at h
      · obtain ⟨_, h2, h⟩ := ok_bind h
        cases h; exact .inl rfl
      · cases h
  | ifs c =>
    simp only [trS] at h
    obtain ⟨_, h1, h⟩ := ok_bind h
    cases h; exact .inl rfl
  | ret0 => simp only [trS] at h; cases h; exact .inl rfl
  | ret e =>
    simp only [trS] at h
    obtain ⟨_, h1, h⟩ := ok_bind h
    cases h; exact .inl rfl
  | das l r =>
    simp only [trS] at h
    obtain ⟨_, h1, h⟩ := ok_bind h
    split at h
    · cases h; exact .inr rfl
    · cases h
  | asg l r =>
    simp only [trS] at h
    obtain ⟨_, h1, h⟩ := ok_bind h
    obtain ⟨_, h2, h⟩ := ok_bind h
    cases h; exact .inl rfl
  | match_ e cs =>
    simp only [trS] at h
    obtain ⟨_, h1, h⟩ := ok_bind h
    split at h
    · obtain ⟨_, h2, h⟩ := ok_bind h
      cases h; exact .inl rfl
    · cases h

/-! ### What is assigned -/

mutual
theorem capX_vars {cs : List Nat} {m : Nat} {t : TyR} : ∀ (e : Expr) (y : Nat), y ∈ (capX cs m t e).vars → y = m ∨ y ∈ e.vars
  | .var x u, y, h => by
    simp only [capX] at h
    split at h
    · exact .inl (by simpa [Expr.vars] using h)
    · exact .inr h
  | .int _, y, h => by cases h
  | .bool _, y, h => by cases h
  | .str _, y, h => by cases h
  | .typ _, y, h => by cases h
  | .fnRef _ _ _, y, h => by cases h
  | .bin _ _ l r, y, h => by
    simp only [capX, Expr.vars, List.mem_append] at h ⊢
    rcases h with h | h
    · exact (capX_vars l y h).imp id .inl
    · exact (capX_vars r y h).imp id .inr
  | .un _ _ e, y, h => capX_vars e y h
  | .tern _ c a b, y, h => by
    simp only [capX, Expr.vars, List.mem_append] at h ⊢
    rcases h with h | h | h
    · exact (capX_vars c y h).imp id .inl
    · exact (capX_vars a y h).imp id (fun h => .inr (.inl h))
    · exact (capX_vars b y h).imp id (fun h => .inr (.inr h))
  | .arrLit _ e, y, h => capX_vars e y h
  | .callFn _ _ as, y, h => capL_vars as y h
  | .callVar x _ as, y, h => by
    simp only [capX, Expr.vars, List.mem_cons] at h ⊢
    rcases h with h | h
    · exact .inr (.inl h)
    · exact (capL_vars as y h).imp id .inr
  | .callExpr f _ as, y, h => by
    simp only [capX, Expr.vars, List.mem_append] at h ⊢
    rcases h with h | h
    · exact (capX_vars f y h).imp id .inl
    · exact (capL_vars as y h).imp id .inr
  | .dot _ e _, y, h => capX_vars e y h
  | .index _ a i, y, h => by
    simp only [capX, Expr.vars, List.mem_append] at h ⊢
    rcases h with h | h
    · exact (capX_vars a y h).imp id .inl
    · exact (capX_vars i y h).imp id .inr
theorem capL_vars {cs : List Nat} {m : Nat} {t : TyR} : ∀ (es : List Expr) (y : Nat), y ∈ Gen.varsL (capL cs m t es) → y = m ∨ y ∈ Gen.varsL es
  | [], y, h => by cases h
  | e :: es, y, h => by
    simp only [capL, Gen.varsL, List.mem_append] at h ⊢
    rcases h with h | h
    · exact (capX_vars e y h).imp id .inl
    · exact (capL_vars es y h).imp id .inr
end

/-- The captured variables are outside. -/
def CapLt (cs : List Nat) (n : Nat) : Prop := ∀ c ∈ cs, c < n

theorem CapLt.le {cs : List Nat} {n m : Nat} (h : CapLt cs n) (hm : n ≤ m) : CapLt cs m := fun c hc => Nat.lt_of_lt_of_le (h c hc) hm

theorem CapLt.nil {n : Nat} : CapLt [] n := nofun

/-- The variables in scope: those that have names, and new ones that are not loop variables. -/
structure InScope (A : Nat → Prop) (ρ : Names') (n m : Nat) (ls : List Nat) : Prop where
  old : ∀ y ∈ ρ.map (·.2), A y
  new : ∀ y, n ≤ y → y < m → y ∉ ls → A y
  loop : ∀ y ∈ ls, ¬ A y

theorem scoped_of {T : TrLib} {D : Decls} {A : Nat → Prop} {ρ : Names'} {n m : Nat} {ls : List Nat} {e : X} {e' : Expr} {st st' : TrSt}
    {cs : List Nat} {k : Nat} {t : TyR} (hA : InScope A ρ n m ls) (hk : cs ≠ [] → A k) (h : trX T D ρ e st = .ok (e', st')) : Scoped A (capX cs k t e') := by
  intro y hy
  by_cases hc : cs = []
  · subst hc
    rw [capX_nil] at hy
    exact hA.old y ((trX_vars _ _ _ _ _ _ _ h).2 y hy)
  rcases capX_vars e' y hy with rfl | hy
  · exact hk hc
  · exact hA.old y ((trX_vars _ _ _ _ _ _ _ h).2 y hy)

theorem InScope.sub {A : Nat → Prop} {ρ : Names'} {n n' m m' : Nat} {ls ls' : List Nat} (h : InScope A ρ n m ls) (h1 : n ≤ n') (h2 : m' ≤ m)
    (hs : ∀ y ∈ ls', y ∈ ls) (hn : ∀ y, n' ≤ y → y < m' → y ∈ ls → y ∈ ls') : InScope A ρ n' m' ls' :=
  ⟨h.old, fun y a b c => h.new y (by omega) (by omega) (fun hc => c (hn y a b hc)), fun y hy => h.loop y (hs y hy)⟩

/-- In a loop its variable is in scope too. -/
theorem InScope.loopVar {A : Nat → Prop} {ρ : Names'} {n m : Nat} {ls : List Nat} {x : String} (h : InScope A ρ n m (n :: ls)) (hl : Betw (n + 1) m ls) :
    InScope (fun y => A y ∨ y = n) ((x, n) :: ρ) (n + 1) m ls := by
  refine ⟨?_, ?_, ?_⟩
  · intro y hy
    simp only [List.map_cons, List.mem_cons] at hy
    exact hy.symm.imp (h.old y) id
  · intro y a b c
    refine .inl (h.new y (by omega) b ?_)
    simp only [List.mem_cons, not_or]
    exact ⟨by omega, c⟩
  · rintro y hy (hc | rfl)
    · exact h.loop y (List.mem_cons_of_mem _ hy) hc
    · have := hl _ hy; omega

mutual
theorem trS_mild (T : TrLib) (D : Decls) (N : Nat) {cs : List Nat} {k : Nat} {t : TyR} : ∀ (s : S) (ρ : Names') (st : TrSt) (s' : SS) (ρ' : Names') (st' : TrSt) (A : Nat → Prop),
    trS T D ρ s st = .ok (s', ρ', st') → Below ρ st.n → CapLt cs st.n → (cs ≠ [] → A k) → InScope A ρ st.n st'.n (loopsS s') → st'.n ≤ N → (capS cs k t s').Mild N A
  | .expr x, ρ, st, s', ρ', st', A, h, hb, hE, hk, hA, hN => by
    simp only [trS] at h
    obtain ⟨⟨e1, st1⟩, h1, h⟩ := ok_bind h
    cases h
    exact scoped_of hA hk h1
  | .loop c ss, ρ, st, s', ρ', st', A, h, hb, hE, hk, hA, hN => by
    simp only [trS] at h
    obtain ⟨⟨e1, st1⟩, h1, h⟩ := ok_bind h
    obtain ⟨⟨b, st2⟩, h2, h⟩ := ok_bind h
    cases h
    have n1 := (trX_vars _ _ _ _ _ _ _ h1).1
    exact ⟨scoped_of hA hk h1, trB_mild T D N ss _ _ _ _ _ h2 (hb.le n1) (hE.le n1) hk
      (hA.sub n1 (Nat.le_refl _) (fun _ h => h) (fun _ _ _ h => h)) hN⟩
  | .for_ x a e ss, ρ, st, s', ρ', st', A, h, hb, hE, hk, hA, hN => by
    rcases rangeForm e with ⟨lo, hi, c, rfl⟩ | he
    · simp only [trS] at h
      obtain ⟨⟨e1, st1⟩, h1, h⟩ := ok_bind h
      obtain ⟨⟨e2, st2⟩, h2, h⟩ := ok_bind h
      obtain ⟨⟨b, st3⟩, h3, h⟩ := ok_bind h
      cases h
      have n1 := (trX_vars _ _ _ _ _ _ _ h1).1
      have n2 := (trX_vars _ _ _ _ _ _ _ h2).1
      have n3 := (trB_vars _ _ _ _ _ _ _ h3).1
      have l := trB_loops T D ss _ _ _ _ h3
      simp only [loopsS] at n1 n2 n3 l hA hN
      have hb2 := hb.le (Nat.le_trans n1 n2)
      have hE2 := hE.le (Nat.le_trans n1 n2)
      have hA2 : InScope A ρ st2.n st3.n (st2.n :: loopsB b) := hA.sub (Nat.le_trans n1 n2) (Nat.le_refl _) (fun _ h => h) (fun _ _ _ h => h)
      exact ⟨scoped_of hA hk h1, scoped_of hA hk h2, hA.loop _ List.mem_cons_self, by simp only; omega,
        trB_mild T D N ss _ _ _ _ _ h3 (hb2.push (Nat.lt_succ_self _)) (hE2.le (Nat.le_succ _)) (fun h => .inl (hk h)) (hA2.loopVar l) hN⟩
    · rw [trS_for he] at h
      obtain ⟨⟨e1, st1⟩, h1, h⟩ := ok_bind h
      simp only at h
      split at h
      · obtain ⟨⟨b, st2⟩, h2, h⟩ := ok_bind h
        cases h
        have n1 := (trX_vars _ _ _ _ _ _ _ h1).1
        have n3 := (trB_vars _ _ _ _ _ _ _ h2).1
        have l := trB_loops T D ss _ _ _ _ h2
        simp only [loopsS] at n1 n3 l hA hN
        have hb2 := hb.le n1
        have hE2 := hE.le n1
        have hA2 : InScope A ρ st1.n st2.n (st1.n :: loopsB b) := hA.sub n1 (Nat.le_refl _) (fun _ h => h) (fun _ _ _ h => h)
        exact ⟨scoped_of hA hk h1, hA.loop _ List.mem_cons_self, by first | omega | (simp only; omega),
          trB_mild T D N ss _ _ _ _ _ h2 (hb2.push (Nat.lt_succ_self _)) (hE2.le (Nat.le_succ _)) (fun h => .inl (hk h)) (hA2.loopVar l) hN⟩
      · cases h
  | .ifs c, ρ, st, s', ρ', st', A, h, hb, hE, hk, hA, hN => by
    simp only [trS] at h
    obtain ⟨⟨c', st1⟩, h1, h⟩ := ok_bind h
    cases h
    exact trCh_mild T D N c _ _ _ _ _ h1 hb hE hk hA hN
  | .ret0, ρ, st, s', ρ', st', A, h, hb, hE, hk, hA, hN => by
    simp only [trS] at h
    cases h
    trivial
  | .ret e, ρ, st, s', ρ', st', A, h, hb, hE, hk, hA, hN => by
    simp only [trS] at h
    obtain ⟨⟨e1, st1⟩, h1, h⟩ := ok_bind h
    cases h
    exact scoped_of hA hk h1
  | .das l r, ρ, st, s', ρ', st', A, h, hb, hE, hk, hA, hN => by
    simp only [trS] at h
    obtain ⟨⟨e1, st1⟩, h1, h⟩ := ok_bind h
    simp only at h
    split at h
    · cases h
      have n1 := (trX_vars _ _ _ _ _ _ _ h1).1
      refine ⟨?_, scoped_of hA hk h1⟩
      intro y hy
      rw [capX, if_neg (fun hc => by have := hE _ hc; omega)] at hy
      simp only [Expr.vars, List.mem_singleton] at hy
      subst hy
      exact hA.new _ n1 (Nat.lt_succ_self _) (by simp [loopsS])
    · cases h
  | .asg l r, ρ, st, s', ρ', st', A, h, hb, hE, hk, hA, hN => by
    simp only [trS] at h
    obtain ⟨⟨e1, st1⟩, h1, h⟩ := ok_bind h
    obtain ⟨⟨e2, st2⟩, h2, h⟩ := ok_bind h
    cases h
    exact ⟨scoped_of hA hk h1, scoped_of hA hk h2⟩
  | .match_ e ks, ρ, st, s', ρ', st', A, h, hb, hE, hk, hA, hN => by
    simp only [trS] at h
    obtain ⟨⟨e1, st1⟩, h1, h⟩ := ok_bind h
    simp only at h
    split at h
    · obtain ⟨⟨cs', st2⟩, h2, h⟩ := ok_bind h
      cases h
      have n1 := (trX_vars _ _ _ _ _ _ _ h1).1
      exact ⟨scoped_of hA hk h1, trCs_mild T D N ks _ _ _ _ _ _ h2 (hb.le n1) (hE.le n1) hk
        (hA.sub n1 (Nat.le_refl _) (fun _ h => h) (fun _ _ _ h => h)) hN⟩
    · cases h
theorem trCh_mild (T : TrLib) (D : Decls) (N : Nat) {cs : List Nat} {k : Nat} {t : TyR} : ∀ (c : Ch) (ρ : Names') (st : TrSt) (c' : SCh) (st' : TrSt) (A : Nat → Prop),
    trCh T D ρ c st = .ok (c', st') → Below ρ st.n → CapLt cs st.n → (cs ≠ [] → A k) → InScope A ρ st.n st'.n (loopsCh c') → st'.n ≤ N → (capCh cs k t c').Mild N A
  | .done, ρ, st, c', st', A, h, hb, hE, hk, hA, hN => by
    simp only [trCh] at h
    cases h
    trivial
  | .els ss, ρ, st, c', st', A, h, hb, hE, hk, hA, hN => by
    simp only [trCh] at h
    obtain ⟨⟨b, st1⟩, h1, h⟩ := ok_bind h
    cases h
    exact trB_mild T D N ss _ _ _ _ _ h1 hb hE hk hA hN
  | .cond c ss n, ρ, st, c', st', A, h, hb, hE, hk, hA, hN => by
    simp only [trCh] at h
    obtain ⟨⟨e1, st1⟩, h1, h⟩ := ok_bind h
    obtain ⟨⟨b, st2⟩, h2, h⟩ := ok_bind h
    obtain ⟨⟨c2, st3⟩, h3, h⟩ := ok_bind h
    cases h
    have n1 := (trX_vars _ _ _ _ _ _ _ h1).1
    have n2 := (trB_vars _ _ _ _ _ _ _ h2).1
    have n3 := (trCh_vars _ _ _ _ _ _ _ h3).1
    have l2 := trB_loops T D ss _ _ _ _ h2
    have l3 := trCh_loops T D n _ _ _ _ h3
    simp only [loopsCh] at hA hN n3 n2
    refine ⟨scoped_of hA hk h1, trB_mild T D N ss _ _ _ _ _ h2 (hb.le n1) (hE.le n1) hk (hA.sub n1 n3 (fun _ h => List.mem_append_left _ h) ?_) (Nat.le_trans n3 hN),
      trCh_mild T D N n _ _ _ _ _ h3 (hb.le (Nat.le_trans n1 n2)) (hE.le (Nat.le_trans n1 n2)) hk (hA.sub (Nat.le_trans n1 n2) (Nat.le_refl _) (fun _ h => List.mem_append_right _ h) ?_) hN⟩
    · intro y a b' hy
      rcases List.mem_append.mp hy with hy | hy
      · exact hy
      · have := l3 y hy; simp only at this; omega
    · intro y a b' hy
      rcases List.mem_append.mp hy with hy | hy
      · have := l2 y hy; first | omega | (simp only at a; omega)
      · exact hy
theorem trB_mild (T : TrLib) (D : Decls) (N : Nat) {cs : List Nat} {k : Nat} {t : TyR} : ∀ (ss : List S) (ρ : Names') (st : TrSt) (b : SSs) (st' : TrSt) (A : Nat → Prop),
    trB T D ρ ss st = .ok (b, st') → Below ρ st.n → CapLt cs st.n → (cs ≠ [] → A k) → InScope A ρ st.n st'.n (loopsB b) → st'.n ≤ N → (capB cs k t b).Mild N A
  | [], ρ, st, b, st', A, h, hb, hE, hk, hA, hN => by
    simp only [trB] at h
    cases h
    trivial
  | s :: ss, ρ, st, b, st', A, h, hb, hE, hk, hA, hN => by
    simp only [trB] at h
    obtain ⟨⟨s1, ρ1, st1⟩, h1, h⟩ := ok_bind h
    obtain ⟨⟨b2, st2⟩, h2, h⟩ := ok_bind h
    cases h
    obtain ⟨n1, more, -⟩ := trS_vars _ _ _ _ _ _ _ _ h1
    have n2 := (trB_vars _ _ _ _ _ _ _ h2).1
    have l1 := trS_loops T D s _ _ _ _ _ h1
    have l2 := trB_loops T D ss _ _ _ _ h2
    have hd := trS_das h1
    simp only [loopsB] at hA hN n1 n2
    refine ⟨trS_mild T D N s _ _ _ _ _ _ h1 hb hE hk (hA.sub (Nat.le_refl _) n2 (fun _ h => List.mem_append_left _ h) ?_) (Nat.le_trans n2 hN),
      trB_mild T D N ss _ _ _ _ _ h2 (hb.more more n1) (hE.le n1) hk ⟨?_, ?_, fun y hy => hA.loop y (List.mem_append_right _ hy)⟩ hN⟩
    · intro y a b' hy
      rcases List.mem_append.mp hy with hy | hy
      · exact hy
      · have := l2 y hy; simp only at this; omega
    · intro y hy
      rcases more with rfl | ⟨x, hx, rfl⟩
      · exact hA.old y hy
      · simp only [List.map_cons, List.mem_cons] at hy
        rcases hy with rfl | hy
        · refine hA.new _ (by omega) (by omega) ?_
          rw [hd.resolve_left (by simp)]
          intro hc
          have := l2 _ hc
          simp only at this
          omega
        · exact hA.old y hy
    · intro y a b' hy
      refine hA.new y (Nat.le_trans n1 a) b' ?_
      simp only [List.mem_append, not_or]
      exact ⟨fun hc => by have := l1 y hc; simp only at a; omega, hy⟩
theorem trCs_mild (T : TrLib) (D : Decls) (N : Nat) {cs : List Nat} {k : Nat} {t : TyR} : ∀ (ks : List Case) (ρ : Names') (ms : List Nat) (st : TrSt) (b : SCs) (st' : TrSt) (A : Nat → Prop),
    trCs T D ρ ms ks st = .ok (b, st') → Below ρ st.n → CapLt cs st.n → (cs ≠ [] → A k) → InScope A ρ st.n st'.n (loopsCs b) → st'.n ≤ N → (capCs cs k t b).Mild N A
  | [], ρ, ms, st, b, st', A, h, hb, hE, hk, hA, hN => by
    simp only [trCs] at h
    cases h
    trivial
  | .mk x sym vs ss :: ks, ρ, ms, st, b, st', A, h, hb, hE, hk, hA, hN => by
    simp only [trCs] at h
    split at h
    · rename_i s ts hts
      obtain ⟨⟨b1, st1⟩, h1, h⟩ := ok_bind h
      obtain ⟨⟨b2, st2⟩, h2, h⟩ := ok_bind h
      cases h
      have n1 := (trB_vars _ _ _ _ _ _ _ h1).1
      have n2 := (trCs_vars _ _ _ _ _ _ _ _ h2).1
      have l1 := trB_loops T D ss _ _ _ _ h1
      have l2 := trCs_loops T D ks _ _ _ _ _ h2
      have hlen := varTypes_length _ _ hts
      simp only [loopsCs] at hA hN n1 n2 l1 l2
      have hv : ∀ y ∈ (typedParams T ts st.n).map (·.1), st.n ≤ y ∧ y < st.n + ts.length := by
        intro y hy
        simp only [typedParams, List.map_map, List.mem_map] at hy
        obtain ⟨q, hq, rfl⟩ := hy
        exact ⟨List.le_snd_of_mem_zipIdx hq, by have := List.snd_lt_of_mem_zipIdx hq; simp only [Function.comp_apply]; omega⟩
      refine ⟨?_, trB_mild T D N ss _ _ _ _ _ h1 (hb.bind (by simp [hlen])) (hE.le (Nat.le_add_right _ _)) (fun h => .inl (hk h)) ⟨?_, ?_, ?_⟩ (Nat.le_trans n2 hN),
        trCs_mild T D N ks _ _ _ _ _ _ h2 (hb.le (by simp only; omega)) (hE.le (by simp only; omega)) hk (hA.sub (by simp only; omega) (Nat.le_refl _) (fun _ h => List.mem_append_right _ h) ?_) hN⟩
      · intro p hp
        have := hv p.1 (List.mem_map_of_mem hp)
        omega
      · intro y hy
        simp only [List.map_append, List.mem_append] at hy
        rcases hy with hy | hy
        · obtain ⟨q, hq, rfl⟩ := List.mem_map.mp hy
          have := mem_bindParams hq
          simp only [List.length_map] at this
          refine .inl (hA.new _ this.1 (by omega) ?_)
          intro hc
          rcases List.mem_append.mp hc with hc | hc
          · have := l1 _ hc; omega
          · have := l2 _ hc; omega
        · exact .inl (hA.old y hy)
      · intro y a b' hy
        simp only at a b'
        refine .inl (hA.new y (by omega) (by omega) ?_)
        intro hc
        rcases List.mem_append.mp hc with hc | hc
        · exact hy hc
        · have := l2 _ hc; omega
      · rintro y hy (hc | hc)
        · exact hA.loop y (List.mem_append_left _ hy) hc
        · have := hv y hc; have := l1 y hy; omega
      · intro y a b' hy
        rcases List.mem_append.mp hy with hy | hy
        · have := l1 y hy; first | omega | (simp only at a; omega)
        · exact hy
    · cases h
end

theorem dynFn_mild {T : TrLib} {name isCl uns : String} {n N : Nat} (hN : n + 8 ≤ N) : (dynFn T name isCl uns n).Mild N := by
  refine ⟨fun y => n ≤ y ∧ y < n + 8, fun y hy => by omega, ?_⟩
  simp [SSs.Mild, SS.Mild, SCh.Mild, Scoped, Gen.DynT.test, Gen.DynT.cast, Gen.DynT.args, Expr.vars, Gen.varsL]

/-- The body of a function or a function literal. -/
theorem body_mild {T : TrLib} {D : Decls} {names : List String} {n' : Nat} {ρ : Names'} {st st1 : TrSt} {ss : List S} {b : SSs} {N m : Nat} {t : TyR}
    {cs : List Nat} (h1 : trB T D (bindParams names st.n ++ ρ) ss { st with n := n' } = .ok (b, st1))
    (hn : st.n + names.length ≤ n') (hb : Below ρ st.n) (he : CapLt cs st.n) (hm : cs ≠ [] → st1.n ≤ m ∧ m < N) (hN : st1.n ≤ N) :
    ∃ A : Nat → Prop, (∀ y, A y → y < N) ∧ (capB cs m t b).Mild N A := by
  have n1 := (trB_vars _ _ _ _ _ _ _ h1).1
  have l := trB_loops T D ss _ _ _ _ h1
  simp only at n1 l hN
  refine ⟨fun y => y ∉ loopsB b ∧ y < N, fun y hy => hy.2, ?_⟩
  refine trB_mild T D N ss _ _ _ _ _ h1 (hb.bind (by simpa using hn)) (he.le (by simp only; omega)) ?_
    ⟨?_, fun y _ a b => ⟨b, by omega⟩, fun y hy hc => hc.1 hy⟩ hN
  · intro hc
    exact ⟨fun hl => by have := l _ hl; have := hm hc; omega, (hm hc).2⟩
  · intro y hy
    simp only [List.map_append, List.mem_append] at hy
    rcases hy with hy | hy
    · obtain ⟨q, hq, rfl⟩ := List.mem_map.mp hy
      have := mem_bindParams hq
      exact ⟨fun hc => by have := l _ hc; omega, by omega⟩
    · obtain ⟨q, hq, rfl⟩ := List.mem_map.mp hy
      have := hb.2 q hq
      exact ⟨fun hc => by have := l _ hc; omega, by omega⟩

/-- **The functions made of checked functions are mild.** -/
theorem trFn_mild {T : TrLib} {D : Decls} {p : Top} {f : Fn} {st st' : TrSt} {fd : SFn} {N : Nat}
    (h : trFn T D p f st = .ok ([fd], st')) (hN : st'.n ≤ N) : fd.Mild N := by
  simp only [trFn] at h
  split at h
  · cases h
  · cases h; trivial
  · cases h
    exact dynFn_mild hN
  · rename_i ss _ hb
    obtain ⟨⟨b, st1⟩, h1, h⟩ := ok_bind h
    cases h
    have n1 := (trB_vars _ _ _ _ _ _ _ h1).1
    have l := trB_loops T D ss _ _ _ _ h1
    simp only at n1 l hN
    have := body_mild (ρ := []) (names := p.params.map (·.1)) (cs := []) (m := 0) (t := ⟨.nothing, 0⟩) (N := N) (st := st)
      (by rw [List.append_nil]; exact h1) (by simp) .nil .nil (by simp) hN
    rw [capB_nil] at this
    exact this
  · rename_i e _ hb
    obtain ⟨⟨b, st1⟩, h1, h⟩ := ok_bind h
    cases h
    trivial
  · cases h

/-- So are the functions made of a function literal. -/
theorem lit_in {T : TrLib} {D : Decls} {A : List X} (hA : ∀ t ∈ A, LitTyped t) {t : X} {k N : Nat} {out fns : List SFn} (ht : LitTyped t)
    (h : LitMade T D A t k N out) (hf : ∀ f ∈ out, f.Mild N → f ∈ fns) : LitIn T D A fns k t := by
  obtain ⟨ρ, st, e, st', hb, hN, h, rfl, hn, ho⟩ := h
  have ends : ∀ fd : List (Nat × TyR), CapLt ((caps st.n fd).map (·.1)) st.n := by
    intro fd c hc
    obtain ⟨q, hq, rfl⟩ := List.mem_map.mp hc
    exact caps_lt q hq
  cases t with
  | fnB hd i ss a =>
    simp only [trX] at h
    split at h
    · rename_i d ts r hty
      obtain ⟨⟨b, st1⟩, h1, h⟩ := ok_bind h
      simp only [litsX] at hN
      refine ⟨d, ts, r, ρ, st, b, st1, hty, hb, hN.left, h1, ?_⟩
      obtain ⟨-, ⟨h2, -, h3, h4⟩ | ⟨h2, -, h3, h4, h5, h6⟩⟩ := hoist_inv h
      · intro f hm
        simp only [litFns, h2, List.isEmpty_nil, if_true, List.mem_singleton] at hm
        subst hm
        refine hf _ (ho _ h3) ?_
        simp only [exprsBody] at h2 h4
        have := body_mild (m := 0) (t := ⟨.nothing, 0⟩) (N := N) h1 (by simp [ht d ts r hty]) hb .nil (by simp) (by omega)
        simp only [capB_nil] at this
        exact this
      · intro f hm
        simp only [litFns, List.isEmpty_iff, if_neg h2, List.mem_cons, List.not_mem_nil, or_false] at hm
        simp only at h6
        rcases hm with rfl | rfl | rfl
        · exact hf _ (ho _ h3) trivial
        · exact hf _ (ho _ h4) trivial
        · refine hf _ (ho _ h5) ?_
          exact body_mild (N := N) h1 (by simp [ht d ts r hty]) hb (ends _) (fun _ => by omega) (by omega)
    · cases h
  | fnE hd i x a =>
    simp only [trX] at h
    split at h
    · rename_i d ts r hty
      obtain ⟨⟨b, st1⟩, h1, h⟩ := ok_bind h
      simp only [litsX] at hN
      refine ⟨d, ts, r, ρ, st, b, st1, hty, hb, hN.left, h1, ?_⟩
      obtain ⟨-, ⟨h2, -, h3, h4⟩ | ⟨h2, -, h3, h4, h5, h6⟩⟩ := hoist_inv h
      · intro f hm
        simp only [litFns, h2, List.isEmpty_nil, if_true, List.mem_singleton] at hm
        subst hm
        exact hf _ (ho _ h3) trivial
      · intro f hm
        simp only [litFns, List.isEmpty_iff, if_neg h2, List.mem_cons, List.not_mem_nil, or_false] at hm
        rcases hm with rfl | rfl | rfl
        · exact hf _ (ho _ h3) trivial
        · exact hf _ (ho _ h4) trivial
        · exact hf _ (ho _ h5) trivial
    · cases h
  | _ => exact ht.elim

end Clara.Sema.Chk
