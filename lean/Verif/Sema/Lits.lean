import Verif.Sema.Meaning
import Verif.Sema.ToGenVars
import Verif.Util
set_option linter.unusedVariables false
set_option linter.unusedSimpArgs false
/-
What the translation makes of function literals: the captured variables are the free names of the tree
(`Verif/Sema/Meaning.lean`), the literals are numbered in the order of the tree, and their functions are made.
-/
namespace Clara.Sema.Chk
open Clara.Types
open Clara (All₂ all₂_cons)
open Clara.Gen (TK TyR Expr varsL)
open Clara.Sema (SS SCh SSs SCs SBody SFn Lib)

/-- Inner names have greater numbers, and all are below `n`. -/
def Below (ρn : Names') (n : Nat) : Prop := (ρn.map (·.2)).Pairwise (· > ·) ∧ ∀ q ∈ ρn, q.2 < n

theorem Below.le {ρn : Names'} {n m : Nat} (h : Below ρn n) (hm : n ≤ m) : Below ρn m :=
  ⟨h.1, fun q hq => Nat.lt_of_lt_of_le (h.2 q hq) hm⟩

theorem Below.push {ρn : Names'} {n m : Nat} {x : String} (h : Below ρn n) (hm : n < m) : Below ((x, n) :: ρn) m := by
  refine ⟨?_, ?_⟩
  · simp only [List.map_cons, List.pairwise_cons]
    refine ⟨?_, h.1⟩
    intro a ha
    obtain ⟨q, hq, rfl⟩ := List.mem_map.mp ha
    exact h.2 q hq
  · intro q hq
    rcases List.mem_cons.mp hq with rfl | hq
    · exact hm
    · exact Nat.lt_trans (h.2 q hq) hm

theorem Below.more {ρ ρ' : Names'} {n n' : Nat} (h : Below ρ n) (hm : More ρ ρ' n n') (hn : n ≤ n') : Below ρ' n' := by
  rcases hm with rfl | ⟨x, hx, rfl⟩
  · exact h.le hn
  · exact (h.le (m := n' - 1) (by omega)).push (by omega)

theorem pairwise_bind (names : List String) (n : Nat) : ((bindParams names n).map (·.2)).Pairwise (· > ·) := by
  simp only [bindParams, List.map_reverse, List.pairwise_reverse]
  induction names generalizing n with
  | nil => simp
  | cons x xs ih =>
    simp only [List.zipIdx_cons, List.map_cons, List.pairwise_cons]
    refine ⟨?_, ih (n + 1)⟩
    intro a ha
    obtain ⟨q, hq, rfl⟩ := List.mem_map.mp ha
    exact List.le_snd_of_mem_zipIdx hq

theorem Below.bind {ρn : Names'} {n : Nat} {names : List String} {m : Nat} (h : Below ρn n) (hm : n + names.length ≤ m) :
    Below (bindParams names n ++ ρn) m := by
  refine ⟨?_, ?_⟩
  · simp only [List.map_append, List.pairwise_append]
    refine ⟨pairwise_bind names n, h.1, ?_⟩
    intro a ha b hb
    obtain ⟨q, hq, rfl⟩ := List.mem_map.mp ha
    obtain ⟨q', hq', rfl⟩ := List.mem_map.mp hb
    have := (mem_bindParams hq).1
    have := h.2 q' hq'
    omega
  · intro q hq
    rcases List.mem_append.mp hq with hq | hq
    · have := (mem_bindParams hq).2
      omega
    · have := h.2 q hq
      omega

theorem Below.nil {n : Nat} : Below [] n := ⟨by simp, by simp⟩

theorem all₂_snoc {α β : Type} {R : α → β → Prop} {as : List α} {bs : List β} {a : α} {b : β} (h : All₂ R as bs) (h1 : R a b) :
    All₂ R (as ++ [a]) (bs ++ [b]) := by
  induction h with
  | nil => exact .cons h1 .nil
  | cons h _ ih => exact .cons h ih

theorem all₂_reverse {α β : Type} {R : α → β → Prop} {as : List α} {bs : List β} (h : All₂ R as bs) : All₂ R as.reverse bs.reverse := by
  induction h with
  | nil => exact .nil
  | cons h _ ih =>
    simp only [List.reverse_cons]
    exact all₂_snoc ih h

theorem all₂_append {α β : Type} {R : α → β → Prop} {as as' : List α} {bs bs' : List β} (h : All₂ R as bs) (h' : All₂ R as' bs') :
    All₂ R (as ++ as') (bs ++ bs') := by
  induction h with
  | nil => exact h'
  | cons h _ ih => exact .cons h ih

theorem varTypes_length : ∀ (vs : List (String × Ann)) (ts : List Ty), varTypes vs = some ts → ts.length = vs.length
  | [], ts, h => by simp only [varTypes] at h; cases h; rfl
  | (x, a) :: vs, ts, h => by
    simp only [varTypes] at h
    split at h
    · rename_i t ts' _ h2
      cases h
      simp [varTypes_length vs ts' h2]
    · cases h


/-! ### Names and numbers -/

theorem all₂_filter {α β : Type} {R : α → β → Prop} {f : α → Bool} {g : β → Bool} {as : List α} {bs : List β} (h : All₂ R as bs)
    (hf : ∀ a b, R a b → f a = g b) : All₂ R (as.filter f) (bs.filter g) := by
  induction h with
  | nil => exact .nil
  | @cons a b as bs h _ ih =>
    simp only [List.filter_cons, hf a b h]
    split
    · exact .cons h ih
    · exact ih

theorem all₂_imp {α β : Type} {R Q : α → β → Prop} {as : List α} {bs : List β} (h : All₂ R as bs) (hi : ∀ a b, R a b → Q a b) : All₂ Q as bs := by
  induction h with
  | nil => exact .nil
  | cons h _ ih => exact .cons (hi _ _ h) ih

theorem all₂_right {α β : Type} {R : α → β → Prop} {as : List α} {bs : List β} (h : All₂ R as bs) : ∀ b ∈ bs, ∃ a ∈ as, R a b := by
  induction h with
  | nil => intro b hb; cases hb
  | cons h _ ih =>
    intro b hb
    rcases List.mem_cons.mp hb with rfl | hb
    · exact ⟨_, List.mem_cons_self, h⟩
    · obtain ⟨a, ha, hr⟩ := ih b hb
      exact ⟨a, List.mem_cons_of_mem _ ha, hr⟩

theorem names_mem {ρ : Names'} {x : String} {n : Nat} (h : ρ.lookup x = some n) : (x, n) ∈ ρ := by
  induction ρ with
  | nil => cases h
  | cons q ρ ih =>
    obtain ⟨y, m⟩ := q
    simp only [List.lookup] at h
    split at h
    · rename_i he
      have : x = y := by simpa using he
      cases h; subst this; simp
    · exact List.mem_cons_of_mem _ (ih h)

theorem Below.lt {ρ : Names'} {n m : Nat} {x : String} (h : Below ρ n) (hl : ρ.lookup x = some m) : m < n := h.2 _ (names_mem hl)

/-- Different names have different numbers. -/
theorem Below.inj {ρ : Names'} {n m : Nat} {x y : String} (h : Below ρ n) (hx : ρ.lookup x = some m) (hy : ρ.lookup y = some m) : x = y := by
  have hp := h.1
  clear h
  induction ρ with
  | nil => cases hx
  | cons q ρ ih =>
    obtain ⟨z, k⟩ := q
    simp only [List.map_cons, List.pairwise_cons] at hp
    simp only [List.lookup] at hx hy
    have key : ∀ w, ρ.lookup w = some m → k = m → False := by
      intro w hw e
      have := hp.1 m (lookup_num hw)
      omega
    split at hx
    · rename_i hxz
      cases hx
      split at hy
      · rename_i hyz
        simp only [beq_iff_eq] at hxz hyz
        rw [hxz, hyz]
      · exact (key _ hy rfl).elim
    · split at hy
      · cases hy; exact (key _ hx rfl).elim
      · exact ih hx hy hp.2

/-- The names stand for the variables. -/
abbrev Named (ρ : Names') : List String → List (Nat × TyR) → Prop := All₂ (fun x p => ρ.lookup x = some p.1)

theorem lookup_app {pre ρ : Names'} {x : String} : (pre ++ ρ).lookup x = (pre.lookup x).or (ρ.lookup x) := by
  induction pre with
  | nil => rfl
  | cons q pre ih =>
    obtain ⟨y, m⟩ := q
    simp only [List.cons_append, List.lookup]
    split
    · rfl
    · exact ih

theorem lookup_none_iff {pre : Names'} {x : String} : pre.lookup x = none ↔ x ∉ pre.map (·.1) := by
  induction pre with
  | nil => simp
  | cons q pre ih =>
    obtain ⟨y, m⟩ := q
    simp only [List.lookup, List.map_cons, List.mem_cons, not_or]
    split
    · rename_i he
      simp only [beq_iff_eq] at he
      simp [he]
    · rename_i he
      have : x ≠ y := by rintro rfl; simp at he
      simp [ih, this]

/-- Leaving a scope whose names `xs` have numbers from `n` on. -/
theorem Named.out {pre ρ : Names'} {n m : Nat} {f : List String} {fd : List (Nat × TyR)} {xs : List String} (hb : Below ρ n) (hnm : n ≤ m)
    (hp : ∀ q ∈ pre, n ≤ q.2) (hx : ∀ x, x ∈ pre.map (·.1) ↔ x ∈ xs) (h : Named (pre ++ ρ) f (fd.filter (·.1 < m))) :
    Named ρ (without xs f) (fd.filter (·.1 < n)) := by
  have key : ∀ x (p : Nat × TyR), (pre ++ ρ).lookup x = some p.1 → (decide (x ∉ xs) = decide (p.1 < n)) ∧ (x ∉ xs → ρ.lookup x = some p.1) := by
    intro x p hl
    rw [lookup_app] at hl
    cases hq : pre.lookup x with
    | some k =>
      rw [hq] at hl
      cases hl
      have h1 := hp _ (names_mem hq)
      have h2 : x ∈ xs := (hx x).mp (by
        by_cases hc : x ∈ pre.map (·.1)
        · exact hc
        · rw [lookup_none_iff.mpr hc] at hq; cases hq)
      refine ⟨?_, fun h => absurd h2 h⟩
      have h1' : ¬ p.1 < n := by simp only at h1; omega
      simp [h2, h1']
    | none =>
      rw [hq] at hl
      have h2 : x ∉ xs := fun hc => (lookup_none_iff.mp hq) ((hx x).mpr hc)
      have := hb.lt hl
      refine ⟨by simp [h2, this], fun _ => hl⟩
  have h1 := all₂_filter (f := fun x => decide (x ∉ xs)) (g := fun p => decide (p.1 < n)) h (fun x p hl => (key x p hl).1)
  have e : (fd.filter (fun p => decide (p.1 < m))).filter (fun p => decide (p.1 < n)) = fd.filter (fun p => decide (p.1 < n)) := by
    rw [List.filter_filter]
    congr 1
    funext p
    by_cases h : p.1 < n
    · simp [h]; omega
    · simp [h]
  rw [e] at h1
  have h2 : ∀ x ∈ without xs f, x ∉ xs := by
    intro x hx
    simpa using (List.mem_filter.mp hx).2
  have h3 : ∀ {as : List String} {bs : List (Nat × TyR)}, (∀ x ∈ as, x ∉ xs) → Named (pre ++ ρ) as bs → Named ρ as bs := by
    intro as bs hn h
    induction h with
    | nil => exact .nil
    | cons h _ ih =>
      exact .cons ((key _ _ h).2 (hn _ List.mem_cons_self)) (ih (fun x hx => hn x (List.mem_cons_of_mem _ hx)))
  exact h3 h2 h1

theorem Named.app {ρ : Names'} {n m : Nat} {f f' : List String} {fd fd' : List (Nat × TyR)} (hb : Below ρ n) (hnm : n ≤ m)
    (h : Named ρ f (fd.filter (·.1 < n))) (h' : Named ρ f' (fd'.filter (·.1 < m))) : Named ρ (f ++ f') ((fd ++ fd').filter (·.1 < n)) := by
  rw [List.filter_append]
  refine all₂_append h ?_
  have e : fd'.filter (fun p => decide (p.1 < n)) = fd'.filter (fun p => decide (p.1 < m)) := by
    refine List.filter_congr ?_
    intro p hp
    by_cases h1 : p.1 < m
    · obtain ⟨x, -, hx⟩ := all₂_right h' p (List.mem_filter.mpr ⟨hp, by simpa using h1⟩)
      have := hb.lt hx
      simp [h1, this]
    · have : ¬ p.1 < n := by omega
      simp [h1, this]
  rw [e]
  exact h'

/-- The captured variables stand for the captured names. -/
theorem Named.captured {ρ : Names'} {n : Nat} (hb : Below ρ n) : ∀ {fd : List (Nat × TyR)} {f : List String}, Named ρ f (fd.filter (·.1 < n)) →
    Named ρ (firsts f) (caps n fd)
  | [], f, h => by
    simp only [List.filter_nil] at h
    cases h
    exact .nil
  | p :: fd, f, h => by
    simp only [List.filter_cons] at h
    simp only [caps]
    split at h
    · rename_i hp
      rw [if_pos (by simpa using hp)]
      cases h with
      | cons h1 h2 =>
        rename_i x f
        simp only [firsts]
        refine .cons h1 (all₂_filter (Named.captured hb h2) ?_)
        intro y q hq
        by_cases e : y = x
        · subst e
          rw [h1] at hq
          have : p.1 = q.1 := Option.some.inj hq
          simp [this]
        · have : q.1 ≠ p.1 := by
            intro e2
            rw [← e2] at h1
            exact e (hb.inj hq h1)
          simp [e, this]
    · rename_i hp
      rw [if_neg (by simpa using hp)]
      exact Named.captured hb h

/-! ### What the translation does -/

/-- The trees are the `k`th and following ones of `A`. -/
def Num (A : List X) (k : Nat) (l : List X) : Prop := ∀ j t, l[j]? = some t → A[k + j]? = some t

theorem Num.left {A : List X} {k : Nat} {l l' : List X} (h : Num A k (l ++ l')) : Num A k l := by
  intro j t hj
  refine h j t ?_
  rw [List.getElem?_append_left ?_, hj]
  obtain ⟨h, -⟩ := List.getElem?_eq_some_iff.mp hj
  exact h

theorem Num.right {A : List X} {k : Nat} {l l' : List X} (h : Num A k (l ++ l')) : Num A (k + l.length) l' := by
  intro j t hj
  have := h (l.length + j) t (by rw [List.getElem?_append_right (by omega)]; simpa using hj)
  rw [← Nat.add_assoc] at this
  exact this

/-- A literal has a type for each parameter. -/
def LitTyped : X → Prop
  | .fnB h _ _ a => ∀ d ts r, a.typ = some (.fn d ts r) → ts.length = h.params.length
  | .fnE h _ _ a => ∀ d ts r, a.typ = some (.fn d ts r) → ts.length = h.params.length
  | _ => False

/-- The literal `t` is translated with the number `k`, and the functions made of it are in `out`. -/
def LitMade (T : TrLib) (D : Decls) (A : List X) (t : X) (k N : Nat) (out : List SFn) : Prop :=
  ∃ ρ st e st', Below ρ st.n ∧ Num A st.k (litsX t) ∧ trX T D ρ t st = .ok (e, st') ∧ st'.k = k ∧ st'.n ≤ N ∧ ∀ f ∈ st'.out, f ∈ out

/-- The result of translating something with free names `free` and literals `lits`, in which `fd` are the variables. -/
structure Tx (T : TrLib) (D : Decls) (A : List X) (ρ : Names') (free : List String) (lits : List X) (st st' : TrSt) (fd : List (Nat × TyR)) : Prop where
  n : st.n ≤ st'.n
  k : st'.k = st.k + lits.length
  out : ∀ f ∈ st.out, f ∈ st'.out
  names : Named ρ free (fd.filter (·.1 < st.n))
  made : ∀ j t, lits[j]? = some t → LitMade T D A t (st.k + j + 1) st'.n st'.out

theorem Tx.nil {T : TrLib} {D : Decls} {A : List X} {ρ : Names'} {st : TrSt} : Tx T D A ρ [] [] st st [] :=
  ⟨Nat.le_refl _, rfl, fun _ h => h, .nil, fun j t h => by cases h⟩

theorem LitMade.le {T : TrLib} {D : Decls} {A : List X} {t : X} {k N N' : Nat} {out out' : List SFn} (h : LitMade T D A t k N out)
    (hn : N ≤ N') (ho : ∀ f ∈ out, f ∈ out') : LitMade T D A t k N' out' := by
  obtain ⟨ρ, st, e, st', h1, h2, h3, h4, h5, h6⟩ := h
  exact ⟨ρ, st, e, st', h1, h2, h3, h4, Nat.le_trans h5 hn, fun f hf => ho f (h6 f hf)⟩

theorem Tx.app {T : TrLib} {D : Decls} {A : List X} {ρ : Names'} {f f' : List String} {l l' : List X} {st st1 st2 : TrSt} {fd fd' : List (Nat × TyR)}
    (hb : Below ρ st.n) (h : Tx T D A ρ f l st st1 fd) (h' : Tx T D A ρ f' l' st1 st2 fd') : Tx T D A ρ (f ++ f') (l ++ l') st st2 (fd ++ fd') := by
  refine ⟨Nat.le_trans h.n h'.n, ?_, fun g hg => h'.out g (h.out g hg), Named.app hb h.n h.names h'.names, ?_⟩
  · rw [h'.k, h.k, List.length_append]; omega
  · intro j t hj
    by_cases hl : j < l.length
    · rw [List.getElem?_append_left hl] at hj
      exact (h.made j t hj).le h'.n h'.out
    · rw [List.getElem?_append_right (by omega)] at hj
      have := h'.made _ t hj
      rw [h.k] at this
      rw [show st.k + j + 1 = st.k + l.length + (j - l.length) + 1 by omega]
      exact this

/-- Leaving a scope. -/
theorem Tx.leave {T : TrLib} {D : Decls} {A : List X} {pre ρ : Names'} {f : List String} {l : List X} {st st1 st2 : TrSt} {fd : List (Nat × TyR)}
    {xs : List String} (hb : Below ρ st.n) (hn : st.n ≤ st1.n) (hk : st1.k = st.k) (ho : st1.out = st.out) (hp : ∀ q ∈ pre, st.n ≤ q.2)
    (hx : ∀ x, x ∈ pre.map (·.1) ↔ x ∈ xs) (h : Tx T D A (pre ++ ρ) f l st1 st2 fd) : Tx T D A ρ (without xs f) l st st2 fd := by
  refine ⟨Nat.le_trans hn h.n, by rw [h.k, hk], fun g hg => h.out g (by rw [ho]; exact hg), Named.out hb hn hp hx h.names, ?_⟩
  intro j t hj
  have := h.made j t hj
  rw [hk] at this
  exact this

theorem bindParams_names {xs : List String} {n : Nat} (x : String) : x ∈ (bindParams xs n).map (·.1) ↔ x ∈ xs := by
  simp only [bindParams, List.map_reverse, List.mem_reverse]
  rw [show (xs.zipIdx n).map (·.1) = xs from by simp [List.zipIdx_map_fst]]

theorem Tx.leaveP {T : TrLib} {D : Decls} {A : List X} {ρ : Names'} {f : List String} {l : List X} {st st2 : TrSt} {fd : List (Nat × TyR)}
    {xs : List String} {m : Nat} (hb : Below ρ st.n) (h : Tx T D A (bindParams xs st.n ++ ρ) f l { st with n := st.n + m } st2 fd) :
    Tx T D A ρ (without xs f) l st st2 fd :=
  h.leave (st1 := { st with n := st.n + m }) hb (Nat.le_add_right _ _) rfl rfl (fun q hq => (mem_bindParams hq).1) (fun x => bindParams_names x)

theorem found_vars_map (cs : List (Nat × TyR)) : foundL (cs.map fun p => Expr.var p.1 p.2) = cs := by
  induction cs with
  | nil => rfl
  | cons c cs ih => simp [foundL, found, ih]

theorem caps_lt {n : Nat} {fd : List (Nat × TyR)} : ∀ p ∈ caps n fd, p.1 < n := fun p hp => (mem_caps hp).2

/-- A function literal after its body. -/
theorem Tx.hoisted {T : TrLib} {D : Decls} {A : List X} {ρ : Names'} {f : List String} {l : List X} {st st1 st2 : TrSt} {b : SBody}
    {ps : List (Nat × TyR)} {u r : Ty} {e : Expr} {t : X} (hb : Below ρ st.n) (h : Tx T D A ρ f l st st1 (foundL (exprsBody b)))
    (hh : hoist T st.n ps b u r st1 = .ok (e, st2)) (hx : trX T D ρ t st = .ok (e, st2)) (hl : litsX t = l ++ [t]) (hN : Num A st.k (litsX t)) :
    Tx T D A ρ (firsts f) (l ++ [t]) st st2 (found e) := by
  have hc := Named.captured hb h.names
  simp only [hoist] at hh
  split at hh
  · have self : ∀ N out, st2.n ≤ N → (∀ f ∈ st2.out, f ∈ out) → LitMade T D A t st2.k N out :=
      fun N out hN' ho => ⟨ρ, st, e, st2, hb, hN, hx, rfl, hN', ho⟩
    have mk : st1.n ≤ st2.n → st2.k = st1.k + 1 → (∀ f ∈ st1.out, f ∈ st2.out) → Named ρ (firsts f) ((found e).filter (·.1 < st.n)) →
        Tx T D A ρ (firsts f) (l ++ [t]) st st2 (found e) := by
      intro a1 a2 a3 a4
      refine ⟨Nat.le_trans h.n a1, by rw [a2, h.k, List.length_append]; simp [Nat.add_assoc], fun g hg => a3 g (h.out g hg), a4, ?_⟩
      intro j t' hj
      by_cases hlt : j < l.length
      · rw [List.getElem?_append_left hlt] at hj
        exact (h.made j t' hj).le a1 a3
      · rw [List.getElem?_append_right (by omega)] at hj
        have hj0 : j - l.length = 0 := by
          obtain ⟨h, -⟩ := List.getElem?_eq_some_iff.mp hj
          simp at h; omega
        rw [hj0] at hj
        cases hj
        rw [show st.k + j + 1 = st2.k by rw [a2, h.k]; omega]
        exact self _ _ (Nat.le_refl _) (fun _ h => h)
    split at hh
    · rename_i he
      cases hh
      refine mk (Nat.le_refl _) rfl (fun g hg => List.mem_append_left _ hg) ?_
      have : caps st.n (foundL (exprsBody b)) = [] := by simpa using he
      rw [this] at hc
      exact hc
    · cases hh
      refine mk (Nat.le_succ _) rfl (fun g hg => List.mem_append_left _ hg) ?_
      have e1 : found (Expr.callFn (T.clCons (st1.k + 1)) { ret := ⟨.struct, T.clId (st1.k + 1)⟩ } [.fnRef (T.clFn (st1.k + 1)) false (T.ty u),
          .callFn (T.envCons (st1.k + 1)) { ret := ⟨.struct, T.envId (st1.k + 1)⟩ } ((caps st.n (foundL (exprsBody b))).map fun p => .var p.1 p.2)]) =
          caps st.n (foundL (exprsBody b)) := by
        simp [found, foundL, found_vars_map]
      rw [e1]
      rw [List.filter_eq_self.mpr (fun p hp => by simpa using caps_lt p hp)]
      exact hc
  · cases hh

theorem found_elems {T : TrLib} {t : TyR} : ∀ (es : List Expr) (x : Expr) (i : Nat), found (trElems T t x i es) = found x ++ foundL es
  | [], x, i => by simp [trElems, foundL]
  | e :: es, x, i => by
    simp only [trElems]
    rw [found_elems es]
    simp [found, foundL]

theorem foundL_app (a b : List Expr) : foundL (a ++ b) = foundL a ++ foundL b := by
  induction a with
  | nil => rfl
  | cons e a ih => simp [foundL, ih]

theorem Tx.ident {T : TrLib} {D : Decls} {A : List X} {ρ : Names'} {x : String} {a : Ann} {st : TrSt} {e : Expr} (hb : Below ρ st.n)
    (h : trIdent T ρ x a = .ok e) : Tx T D A ρ (freeX (.ident x a)) [] st st (found e) := by
  refine ⟨Nat.le_refl _, rfl, fun _ h => h, ?_, fun j t h => by cases h⟩
  obtain ⟨ty, sym⟩ := a
  simp only [trIdent] at h
  split at h
  · rename_i _ _ s r t
    simp only [freeX]
    split at h
    · cases h
    · split at h
      · rename_i hg
        rw [if_pos hg]
        split at h
        · cases h; exact .nil
        · cases h
      · rename_i hg
        rw [if_neg hg]
        split at h
        · rename_i n hn
          cases h
          simp only [found]
          rw [List.filter_eq_self.mpr (by simpa using hb.lt hn)]
          exact .cons hn .nil
        · cases h
  · cases h

/-- The expression is no function by name. -/
def notRef : Expr → Prop
  | .fnRef _ _ _ => False
  | _ => True

theorem found_invoke {T : TrLib} {f : Expr} {u : Ty} {as : List Expr} : found (trInvoke T f u as) = found f ++ foundL as := by
  cases f <;> simp [trInvoke, found, foundL]

theorem found_call {T : TrLib} {x : String} {s : Alt} {u : Ty} {as : List Expr} {e : Expr} (h : trCall T x s u as = .ok e) : found e = foundL as := by
  simp only [trCall] at h
  split at h
  · cases h; rfl
  · cases h

theorem for_tx {T : TrLib} {D : Decls} {A : List X} {ρ : Names'} {x : String} {a : Ann} {e : X} {ss : List S} {st st' : TrSt} {s' : SS} {ρ' : Names'}
    (he : ∀ lo hi c, e ≠ .bin .range lo hi c) (hb : Below ρ st.n)
    (hN : Num A st.k (litsS (.for_ x a e ss)))
    (k1 : ∀ {e' st1}, Num A st.k (litsX e) → trX T D ρ e st = .ok (e', st1) → Tx T D A ρ (freeX e) (litsX e) st st1 (found e'))
    (k2 : ∀ {ρ1 st1 b st2}, Below ρ1 st1.n → Num A st1.k (litsB ss) → trB T D ρ1 ss st1 = .ok (b, st2) → Tx T D A ρ1 (freeB ss) (litsB ss) st1 st2 (foundL (exprsB b)))
    (h : trS T D ρ (.for_ x a e ss) st = .ok (s', ρ', st')) :
    Tx T D A ρ (freeS (.for_ x a e ss)) (litsS (.for_ x a e ss)) st st' (foundL (exprsS s')) := by
  rw [trS_for he] at h
  obtain ⟨⟨e1, st1⟩, h1, h⟩ := ok_bind h
  simp only [litsS] at hN
  have t1 := k1 hN.left h1
  simp only at h
  split at h
  · obtain ⟨⟨b, st2⟩, h2, h⟩ := ok_bind h
    have hb1 := hb.le t1.n
    have hN2 := hN.right
    rw [← t1.k] at hN2
    have t2 := k2 (st1 := { st1 with n := st1.n + 1 }) (hb1.push (Nat.lt_succ_self _)) hN2 h2
    cases h
    have t3 := Tx.leave (pre := [(x, st1.n)]) (st := st1) (st1 := { st1 with n := st1.n + 1 }) (xs := [x]) hb1 (Nat.le_succ _) rfl rfl (by simp) (by simp) t2
    have := t1.app hb t3
    simp only [freeS, litsS, exprsS, foundL]
    exact this
  · cases h

theorem More.names {ρ ρ' : Names'} {n n' : Nat} (h : More ρ ρ' n n') : ∃ pre : Names', ρ' = pre ++ ρ ∧ ∀ q ∈ pre, n ≤ q.2 := by
  rcases h with rfl | ⟨x, hx, rfl⟩
  · exact ⟨[], rfl, by simp⟩
  · exact ⟨[(x, n' - 1)], rfl, by simp; omega⟩

theorem declared {T : TrLib} {D : Decls} {ρ ρ' : Names'} {s : S} {st st' : TrSt} {s' : SS} (h : trS T D ρ s st = .ok (s', ρ', st')) :
    ∃ pre : Names', ρ' = pre ++ ρ ∧ ∀ x, x ∈ pre.map (·.1) ↔ x ∈ declares s := by
  cases s with
  | das l r =>
    simp only [trS] at h
    obtain ⟨⟨e1, st1⟩, h1, h⟩ := ok_bind h
    simp only at h
    split at h
    · rename_i x t sy _
      cases h
      exact ⟨[(x, st1.n)], rfl, by simp [declares]⟩
    · cases h
  | for_ x a e ss =>
    refine ⟨[], ?_, by simp [declares]⟩
    cases e with
    | bin op lo hi c =>
      cases op with
      | range =>
        simp only [trS] at h
        obtain ⟨⟨e1, st1⟩, h1, h⟩ := ok_bind h
        obtain ⟨⟨e2, st2⟩, h2, h⟩ := ok_bind h
        obtain ⟨⟨b, st3⟩, h3, h⟩ := ok_bind h
        cases h; rfl
      | _ =>
        rw [trS_for (by intros; nofun)] at h
        obtain ⟨⟨e1, st1⟩, h1, h⟩ := ok_bind h
        simp only at h
        split at h
        · obtain ⟨⟨b, st2⟩, h2, h⟩ := ok_bind h
          cases h; rfl
        · cases h
    | _ =>
      rw [trS_for (by intros; nofun)] at h
      obtain ⟨⟨e1, st1⟩, h1, h⟩ := ok_bind h
      simp only at h
      split at h
      · obtain ⟨⟨b, st2⟩, h2, h⟩ := ok_bind h
        cases h; rfl
      · cases h
  | ret0 => simp only [trS] at h; cases h; exact ⟨[], rfl, by simp [declares]⟩
  | expr x =>
    simp only [trS] at h
    obtain ⟨⟨e1, st1⟩, h1, h⟩ := ok_bind h
    cases h; exact ⟨[], rfl, by simp [declares]⟩
  | ret x =>
    simp only [trS] at h
    obtain ⟨⟨e1, st1⟩, h1, h⟩ := ok_bind h
    cases h; exact ⟨[], rfl, by simp [declares]⟩
  | ifs x =>
    simp only [trS] at h
    obtain ⟨⟨e1, st1⟩, h1, h⟩ := ok_bind h
    cases h; exact ⟨[], rfl, by simp [declares]⟩
  | loop c ss =>
    simp only [trS] at h
    obtain ⟨⟨e1, st1⟩, h1, h⟩ := ok_bind h
    obtain ⟨⟨e2, st2⟩, h2, h⟩ := ok_bind h
    cases h; exact ⟨[], rfl, by simp [declares]⟩
  | asg l r =>
    simp only [trS] at h
    obtain ⟨⟨e1, st1⟩, h1, h⟩ := ok_bind h
    obtain ⟨⟨e2, st2⟩, h2, h⟩ := ok_bind h
    cases h; exact ⟨[], rfl, by simp [declares]⟩
  | match_ e cs =>
    simp only [trS] at h
    obtain ⟨⟨e1, st1⟩, h1, h⟩ := ok_bind h
    simp only at h
    split at h
    · obtain ⟨⟨b, st2⟩, h2, h⟩ := ok_bind h
      cases h; exact ⟨[], rfl, by simp [declares]⟩
    · cases h

set_option maxHeartbeats 2000000 in
mutual
theorem trX_tx {A : List X} (hA : ∀ t ∈ A, LitTyped t) (T : TrLib) (D : Decls) : ∀ (x : X) (ρ : Names') (st : TrSt) (e : Expr) (st' : TrSt),
    Below ρ st.n → Num A st.k (litsX x) → trX T D ρ x st = .ok (e, st') → Tx T D A ρ (freeX x) (litsX x) st st' (found e)
  | .lit k a, ρ, st, e, st', hb, hN, h => by
    cases h
    cases k <;> exact Tx.nil
  | .ident x a, ρ, st, e, st', hb, hN, h => by
    simp only [trX] at h
    obtain ⟨e1, h1, h⟩ := ok_bind h
    cases h
    exact Tx.ident hb h1
  | .call f ts args a, ρ, st, e, st', hb, hN, h => by
    simp only [litsX] at hN ⊢
    simp only [freeX]
    rcases callForm f with ⟨x, t, s, r, rfl⟩ | hf
    · rw [trX_callI] at h
      obtain ⟨⟨as, st1⟩, h1, h⟩ := ok_bind h
      have t1 := trL_tx hA T D args ρ st as st1 hb (by simpa [litsX] using hN) h1
      simp only at h
      split at h
      · cases h
      · split at h
        · rename_i hg
          obtain ⟨e1, h2, h⟩ := ok_bind h
          cases h
          rw [found_call h2]
          simpa [freeX, hg, litsX] using t1
        · obtain ⟨e1, h2, h⟩ := ok_bind h
          cases h
          rw [found_invoke]
          exact (Tx.ident hb h2).app hb t1
    · rw [trX_callF hf] at h
      obtain ⟨⟨e1, st1⟩, h1, h⟩ := ok_bind h
      obtain ⟨⟨as, st2⟩, h2, h⟩ := ok_bind h
      have t1 := trX_tx hA T D f ρ st e1 st1 hb hN.left h1
      have t2 := trL_tx hA T D args ρ st1 as st2 (hb.le t1.n) (by rw [t1.k]; exact hN.right) h2
      simp only at h
      split at h
      · cases h
      · cases h
        rw [found_invoke]
        exact t1.app hb t2
  | .bin op l r a, ρ, st, e, st', hb, hN, h => by
    simp only [litsX] at hN ⊢
    simp only [freeX]
    simp only [trX] at h
    split at h
    · cases h
    · obtain ⟨⟨e1, st1⟩, h1, h⟩ := ok_bind h
      obtain ⟨⟨e2, st2⟩, h2, h⟩ := ok_bind h
      have t1 := trX_tx hA T D l ρ st e1 st1 hb hN.left h1
      have t2 := trX_tx hA T D r ρ st1 e2 st2 (hb.le t1.n) (by rw [t1.k]; exact hN.right) h2
      simp only at h
      split at h
      · cases h
      · cases h
        exact t1.app hb t2
  | .cmp op l r a, ρ, st, e, st', hb, hN, h => by
    simp only [litsX] at hN ⊢
    simp only [freeX]
    simp only [trX] at h
    obtain ⟨⟨e1, st1⟩, h1, h⟩ := ok_bind h
    obtain ⟨⟨e2, st2⟩, h2, h⟩ := ok_bind h
    have t1 := trX_tx hA T D l ρ st e1 st1 hb hN.left h1
    have t2 := trX_tx hA T D r ρ st1 e2 st2 (hb.le t1.n) (by rw [t1.k]; exact hN.right) h2
    simp only at h
    split at h
    · cases h
    · cases h
      exact t1.app hb t2
  | .un op x a, ρ, st, e, st', hb, hN, h => by
    simp only [litsX] at hN ⊢
    simp only [freeX]
    simp only [trX] at h
    obtain ⟨⟨e1, st1⟩, h1, h⟩ := ok_bind h
    have t1 := trX_tx hA T D x ρ st e1 st1 hb hN h1
    simp only at h
    split at h
    · cases h
    · cases h
      exact t1
  | .tern c x y a, ρ, st, e, st', hb, hN, h => by
    simp only [litsX] at hN ⊢
    simp only [freeX]
    simp only [trX] at h
    obtain ⟨⟨e1, st1⟩, h1, h⟩ := ok_bind h
    obtain ⟨⟨e2, st2⟩, h2, h⟩ := ok_bind h
    obtain ⟨⟨e3, st3⟩, h3, h⟩ := ok_bind h
    have t1 := trX_tx hA T D c ρ st e1 st1 hb hN.left h1
    have hN1 := hN.right
    rw [← t1.k] at hN1
    have t2 := trX_tx hA T D x ρ st1 e2 st2 (hb.le t1.n) hN1.left h2
    have hN2 := hN1.right
    rw [← t2.k] at hN2
    have t3 := trX_tx hA T D y ρ st2 e3 st3 (hb.le (Nat.le_trans t1.n t2.n)) hN2 h3
    simp only at h
    split at h
    · cases h
    · cases h
      exact t1.app hb (t2.app (hb.le t1.n) t3)
  | .arr es a, ρ, st, e, st', hb, hN, h => by
    simp only [litsX] at hN ⊢
    simp only [freeX]
    simp only [trX] at h
    obtain ⟨⟨as, st1⟩, h1, h⟩ := ok_bind h
    have t1 := trL_tx hA T D es ρ st as st1 hb hN h1
    simp only at h
    split at h
    · cases h
    · cases h
      simp only [found, trArr, found_elems, foundL, List.nil_append]
      exact t1
  | .index l r a, ρ, st, e, st', hb, hN, h => by
    simp only [litsX] at hN ⊢
    simp only [freeX]
    simp only [trX] at h
    obtain ⟨⟨e1, st1⟩, h1, h⟩ := ok_bind h
    obtain ⟨⟨e2, st2⟩, h2, h⟩ := ok_bind h
    have t1 := trX_tx hA T D l ρ st e1 st1 hb hN.left h1
    have t2 := trX_tx hA T D r ρ st1 e2 st2 (hb.le t1.n) (by rw [t1.k]; exact hN.right) h2
    simp only at h
    split at h
    · cases h
    · cases h
      exact t1.app hb t2
  | .dot l r a, ρ, st, e, st', hb, hN, h => by
    simp only [litsX] at hN ⊢
    simp only [freeX]
    simp only [trX] at h
    obtain ⟨⟨e1, st1⟩, h1, h⟩ := ok_bind h
    have t1 := trX_tx hA T D l ρ st e1 st1 hb hN h1
    simp only at h
    split at h
    · split at h
      · cases h
      · cases h
        exact t1
    · cases h
  | .ty t a, ρ, st, e, st', hb, hN, h => by
    simp only [trX] at h
    split at h
    · cases h
    · cases h
      exact Tx.nil
  | .fnB hd i ss a, ρ, st, e, st', hb, hN, h => by
    have h0 := h
    have hT : LitTyped (.fnB hd i ss a) := by
      refine hA _ (List.mem_of_getElem? (hN (litsB ss).length _ ?_))
      simp [litsX]
    simp only [trX] at h
    split at h
    · rename_i d ts r ht
      obtain ⟨⟨b, st1⟩, h1, h⟩ := ok_bind h
      have t1 := trB_tx hA T D ss _ _ b st1 (hb.bind (by simp [hT d ts r ht])) (by simp only [litsX] at hN; exact hN.left) h1
      exact (t1.leaveP hb).hoisted (b := .block b) (t := .fnB hd i ss a) hb h h0 rfl hN
    · cases h
  | .fnE hd i x a, ρ, st, e, st', hb, hN, h => by
    have h0 := h
    have hT : LitTyped (.fnE hd i x a) := by
      refine hA _ (List.mem_of_getElem? (hN (litsX x).length _ ?_))
      simp [litsX]
    simp only [trX] at h
    split at h
    · rename_i d ts r ht
      obtain ⟨⟨b, st1⟩, h1, h⟩ := ok_bind h
      have t1 := trX_tx hA T D x _ _ b st1 (hb.bind (by simp [hT d ts r ht])) (by simp only [litsX] at hN; exact hN.left) h1
      exact Tx.hoisted (b := .expr b) (t := .fnE hd i x a) hb (by simpa [exprsBody, foundL] using t1.leaveP hb) h h0 rfl hN
    · cases h
theorem trL_tx {A : List X} (hA : ∀ t ∈ A, LitTyped t) (T : TrLib) (D : Decls) : ∀ (xs : List X) (ρ : Names') (st : TrSt) (es : List Expr) (st' : TrSt),
    Below ρ st.n → Num A st.k (litsL xs) → trL T D ρ xs st = .ok (es, st') → Tx T D A ρ (freeL xs) (litsL xs) st st' (foundL es)
  | [], ρ, st, es, st', hb, hN, h => by
    simp only [trL] at h
    cases h
    exact Tx.nil
  | x :: xs, ρ, st, es, st', hb, hN, h => by
    simp only [litsL] at hN ⊢
    simp only [freeL]
    simp only [trL] at h
    obtain ⟨⟨e1, st1⟩, h1, h⟩ := ok_bind h
    obtain ⟨⟨es2, st2⟩, h2, h⟩ := ok_bind h
    have t1 := trX_tx hA T D x ρ st e1 st1 hb hN.left h1
    have t2 := trL_tx hA T D xs ρ st1 es2 st2 (hb.le t1.n) (by rw [t1.k]; exact hN.right) h2
    cases h
    exact t1.app hb t2
theorem trS_tx {A : List X} (hA : ∀ t ∈ A, LitTyped t) (T : TrLib) (D : Decls) : ∀ (s : S) (ρ : Names') (st : TrSt) (s' : SS) (ρ' : Names') (st' : TrSt),
    Below ρ st.n → Num A st.k (litsS s) → trS T D ρ s st = .ok (s', ρ', st') → Tx T D A ρ (freeS s) (litsS s) st st' (foundL (exprsS s'))
  | .expr x, ρ, st, s', ρ', st', hb, hN, h => by
    simp only [litsS] at hN ⊢
    simp only [freeS]
    simp only [trS] at h
    obtain ⟨⟨e1, st1⟩, h1, h⟩ := ok_bind h
    have t1 := trX_tx hA T D x ρ st e1 st1 hb hN h1
    cases h
    simpa [exprsS, foundL] using t1
  | .loop c ss, ρ, st, s', ρ', st', hb, hN, h => by
    simp only [litsS] at hN ⊢
    simp only [freeS]
    simp only [trS] at h
    obtain ⟨⟨e1, st1⟩, h1, h⟩ := ok_bind h
    obtain ⟨⟨b, st2⟩, h2, h⟩ := ok_bind h
    have t1 := trX_tx hA T D c ρ st e1 st1 hb hN.left h1
    have t2 := trB_tx hA T D ss ρ st1 b st2 (hb.le t1.n) (by rw [t1.k]; exact hN.right) h2
    cases h
    exact t1.app hb t2
  | .for_ x a e ss, ρ, st, s', ρ', st', hb, hN, h => by
    cases e with
    | bin op lo hi c =>
      cases op with
      | range =>
        simp only [litsS, litsX, List.append_assoc] at hN ⊢
        simp only [freeS, freeX, List.append_assoc]
        simp only [trS] at h
        obtain ⟨⟨e1, st1⟩, h1, h⟩ := ok_bind h
        obtain ⟨⟨e2, st2⟩, h2, h⟩ := ok_bind h
        obtain ⟨⟨b, st3⟩, h3, h⟩ := ok_bind h
        have t1 := trX_tx hA T D lo ρ st e1 st1 hb hN.left h1
        have hN1 := hN.right
        rw [← t1.k] at hN1
        have t2 := trX_tx hA T D hi ρ st1 e2 st2 (hb.le t1.n) hN1.left h2
        have hN2 := hN1.right
        rw [← t2.k] at hN2
        have hb2 := hb.le (Nat.le_trans t1.n t2.n)
        have t3 := trB_tx hA T D ss ((x, st2.n) :: ρ) { st2 with n := st2.n + 1 } b st3 (hb2.push (Nat.lt_succ_self _)) hN2 h3
        have t4 := Tx.leave (pre := [(x, st2.n)]) (st := st2) (st1 := { st2 with n := st2.n + 1 }) (xs := [x]) hb2 (Nat.le_succ _) rfl rfl (by simp) (by simp) t3
        cases h
        exact t1.app hb (t2.app (hb.le t1.n) t4)
      | _ => exact for_tx (by intros; nofun) hb hN (fun k h => trX_tx hA T D _ ρ _ _ _ hb k h) (fun b k h => trB_tx hA T D ss _ _ _ _ b k h) h
    | _ => exact for_tx (by intros; nofun) hb hN (fun k h => trX_tx hA T D _ ρ _ _ _ hb k h) (fun b k h => trB_tx hA T D ss _ _ _ _ b k h) h
  | .ifs c, ρ, st, s', ρ', st', hb, hN, h => by
    simp only [litsS] at hN ⊢
    simp only [freeS]
    simp only [trS] at h
    obtain ⟨⟨e1, st1⟩, h1, h⟩ := ok_bind h
    have t1 := trCh_tx hA T D c ρ st e1 st1 hb hN h1
    cases h
    exact t1
  | .ret0, ρ, st, s', ρ', st', hb, hN, h => by
    simp only [trS] at h
    cases h
    exact Tx.nil
  | .ret x, ρ, st, s', ρ', st', hb, hN, h => by
    simp only [litsS] at hN ⊢
    simp only [freeS]
    simp only [trS] at h
    obtain ⟨⟨e1, st1⟩, h1, h⟩ := ok_bind h
    have t1 := trX_tx hA T D x ρ st e1 st1 hb hN h1
    cases h
    simpa [exprsS, foundL] using t1
  | .das l r, ρ, st, s', ρ', st', hb, hN, h => by
    simp only [litsS] at hN ⊢
    simp only [freeS]
    simp only [trS] at h
    obtain ⟨⟨e1, st1⟩, h1, h⟩ := ok_bind h
    have t1 := trX_tx hA T D r ρ st e1 st1 hb hN h1
    simp only at h
    split at h
    · cases h
      simp only [exprsS, foundL, found, List.append_nil]
      refine ⟨Nat.le_succ_of_le t1.n, t1.k, t1.out, ?_, fun j t hj => (t1.made j t hj).le (Nat.le_succ _) (fun _ h => h)⟩
      have hn : ¬ st1.n < st.n := by have := t1.n; omega
      rw [List.singleton_append, List.filter_cons, if_neg (by simpa using hn)]
      exact t1.names
    · cases h
  | .asg l r, ρ, st, s', ρ', st', hb, hN, h => by
    simp only [litsS] at hN ⊢
    simp only [freeS]
    simp only [trS] at h
    obtain ⟨⟨e1, st1⟩, h1, h⟩ := ok_bind h
    obtain ⟨⟨e2, st2⟩, h2, h⟩ := ok_bind h
    have t1 := trX_tx hA T D l ρ st e1 st1 hb hN.left h1
    have t2 := trX_tx hA T D r ρ st1 e2 st2 (hb.le t1.n) (by rw [t1.k]; exact hN.right) h2
    cases h
    simpa [exprsS, foundL] using t1.app hb t2
  | .match_ e cs, ρ, st, s', ρ', st', hb, hN, h => by
    simp only [litsS] at hN ⊢
    simp only [freeS]
    simp only [trS] at h
    obtain ⟨⟨e1, st1⟩, h1, h⟩ := ok_bind h
    have t1 := trX_tx hA T D e ρ st e1 st1 hb hN.left h1
    simp only at h
    split at h
    · obtain ⟨⟨b, st2⟩, h2, h⟩ := ok_bind h
      have t2 := trCs_tx hA T D cs ρ _ st1 b st2 (hb.le t1.n) (by rw [t1.k]; exact hN.right) h2
      cases h
      exact t1.app hb t2
    · cases h
theorem trCh_tx {A : List X} (hA : ∀ t ∈ A, LitTyped t) (T : TrLib) (D : Decls) : ∀ (c : Ch) (ρ : Names') (st : TrSt) (c' : SCh) (st' : TrSt),
    Below ρ st.n → Num A st.k (litsCh c) → trCh T D ρ c st = .ok (c', st') → Tx T D A ρ (freeCh c) (litsCh c) st st' (foundL (exprsCh c'))
  | .done, ρ, st, c', st', hb, hN, h => by
    simp only [trCh] at h
    cases h
    exact Tx.nil
  | .els ss, ρ, st, c', st', hb, hN, h => by
    simp only [litsCh] at hN ⊢
    simp only [freeCh]
    simp only [trCh] at h
    obtain ⟨⟨b, st1⟩, h1, h⟩ := ok_bind h
    have t1 := trB_tx hA T D ss ρ st b st1 hb hN h1
    cases h
    exact t1
  | .cond c ss n, ρ, st, c', st', hb, hN, h => by
    simp only [litsCh] at hN ⊢
    simp only [freeCh]
    simp only [trCh] at h
    obtain ⟨⟨e1, st1⟩, h1, h⟩ := ok_bind h
    obtain ⟨⟨b, st2⟩, h2, h⟩ := ok_bind h
    obtain ⟨⟨n', st3⟩, h3, h⟩ := ok_bind h
    have t1 := trX_tx hA T D c ρ st e1 st1 hb hN.left h1
    have hN1 := hN.right
    rw [← t1.k] at hN1
    have t2 := trB_tx hA T D ss ρ st1 b st2 (hb.le t1.n) hN1.left h2
    have hN2 := hN1.right
    rw [← t2.k] at hN2
    have t3 := trCh_tx hA T D n ρ st2 n' st3 (hb.le (Nat.le_trans t1.n t2.n)) hN2 h3
    cases h
    simp only [exprsCh, foundL, foundL_app]
    exact t1.app hb (t2.app (hb.le t1.n) t3)
theorem trB_tx {A : List X} (hA : ∀ t ∈ A, LitTyped t) (T : TrLib) (D : Decls) : ∀ (ss : List S) (ρ : Names') (st : TrSt) (b : SSs) (st' : TrSt),
    Below ρ st.n → Num A st.k (litsB ss) → trB T D ρ ss st = .ok (b, st') → Tx T D A ρ (freeB ss) (litsB ss) st st' (foundL (exprsB b))
  | [], ρ, st, b, st', hb, hN, h => by
    simp only [trB] at h
    cases h
    exact Tx.nil
  | s :: ss, ρ, st, b, st', hb, hN, h => by
    simp only [litsB] at hN ⊢
    simp only [freeB]
    simp only [trB] at h
    obtain ⟨⟨s', ρ1, st1⟩, h1, h⟩ := ok_bind h
    obtain ⟨⟨b', st2⟩, h2, h⟩ := ok_bind h
    have t1 := trS_tx hA T D s ρ st s' ρ1 st1 hb hN.left h1
    obtain ⟨n1, more, -⟩ := trS_vars _ _ _ _ _ _ _ _ h1
    have t2 := trB_tx hA T D ss ρ1 st1 b' st2 (hb.more more n1) (by rw [t1.k]; exact hN.right) h2
    cases h
    simp only [exprsB, foundL_app]
    obtain ⟨pre, e1, hp⟩ := more.names
    obtain ⟨pre', e2, hx⟩ := declared h1
    have : pre = pre' := by
      rw [e1] at e2
      exact List.append_cancel_right e2
    subst this e1
    refine ⟨Nat.le_trans n1 t2.n, ?_, fun g hg => t2.out g (t1.out g hg), ?_, ?_⟩
    · rw [t2.k, t1.k, List.length_append]; omega
    · rw [List.filter_append]
      exact all₂_append t1.names (Named.out hb n1 hp hx t2.names)
    · intro j t hj
      by_cases hl : j < (litsS s).length
      · rw [List.getElem?_append_left hl] at hj
        exact (t1.made j t hj).le t2.n t2.out
      · rw [List.getElem?_append_right (by omega)] at hj
        have := t2.made _ t hj
        rw [t1.k] at this
        rw [show st.k + j + 1 = st.k + (litsS s).length + (j - (litsS s).length) + 1 by omega]
        exact this
theorem trCs_tx {A : List X} (hA : ∀ t ∈ A, LitTyped t) (T : TrLib) (D : Decls) : ∀ (cs : List Case) (ρ : Names') (ms : List Nat) (st : TrSt) (b : SCs) (st' : TrSt),
    Below ρ st.n → Num A st.k (litsCs cs) → trCs T D ρ ms cs st = .ok (b, st') → Tx T D A ρ (freeCs cs) (litsCs cs) st st' (foundL (exprsCs b))
  | [], ρ, ms, st, b, st', hb, hN, h => by
    simp only [trCs] at h
    cases h
    exact Tx.nil
  | .mk x sym vs ss :: cs, ρ, ms, st, b, st', hb, hN, h => by
    simp only [litsCs] at hN ⊢
    simp only [freeCs]
    simp only [trCs] at h
    split at h
    · rename_i s ts hts
      obtain ⟨⟨b1, st1⟩, h1, h⟩ := ok_bind h
      obtain ⟨⟨b2, st2⟩, h2, h⟩ := ok_bind h
      have t1 := (trB_tx hA T D ss (bindParams (vs.map (·.1)) st.n ++ ρ) { st with n := st.n + ts.length } b1 st1 (hb.bind (by simp [varTypes_length _ _ hts])) hN.left h1).leaveP hb
      have t2 := trCs_tx hA T D cs ρ ms st1 b2 st2 (hb.le t1.n) (by rw [t1.k]; exact hN.right) h2
      cases h
      simp only [exprsCs, foundL_app]
      exact t1.app hb t2
    · cases h
end


/-! ### What is made for a literal -/

theorem caps_nodup (n : Nat) : ∀ (fd : List (Nat × TyR)), ((caps n fd).map (·.1)).Nodup
  | [] => by simp [caps]
  | p :: fd => by
    simp only [caps]
    split
    · simp only [List.map_cons, List.nodup_cons, List.mem_map, List.mem_filter, not_exists, not_and, and_imp]
      refine ⟨?_, ?_⟩
      · intro q _ hq e
        simp [e] at hq
      · refine List.Nodup.sublist ?_ (caps_nodup n fd)
        exact List.filter_sublist.map _
    · exact caps_nodup n fd

def envFn (T : TrLib) (k : Nat) (cs : List (Nat × TyR)) : SFn :=
  { name := T.envCons k, params := cs, body := .cons none (T.desc k) (T.envId k) }
def clObj (T : TrLib) (k : Nat) (u : Ty) : SFn :=
  { name := T.clCons k, params := [(0, T.ty u), (1, ⟨.struct, T.envId k⟩)], body := .cons none (T.desc k) (T.clId k) }
def clBody (T : TrLib) (k m : Nat) (cs ps : List (Nat × TyR)) (b : SBody) (r : Ty) : SFn :=
  { name := T.clFn k, params := (m, ⟨.struct, T.envId k⟩) :: ps, body := capBody (cs.map (·.1)) m ⟨.struct, T.envId k⟩ b, retNothing := kindOf r == .nothing }
def anonBody (T : TrLib) (k : Nat) (ps : List (Nat × TyR)) (b : SBody) (r : Ty) : SFn :=
  { name := T.anonFn k, params := ps, body := b, retNothing := kindOf r == .nothing }

/-- The value of a closure. -/
def clExpr (T : TrLib) (k : Nat) (u : Ty) (cs : List (Nat × TyR)) : Expr :=
  .callFn (T.clCons k) { ret := ⟨.struct, T.clId k⟩ } [.fnRef (T.clFn k) false (T.ty u),
    .callFn (T.envCons k) { ret := ⟨.struct, T.envId k⟩ } (cs.map fun p => .var p.1 p.2)]

theorem hoist_inv {T : TrLib} {n : Nat} {ps : List (Nat × TyR)} {b : SBody} {u r : Ty} {st1 st' : TrSt} {e : Expr}
    (h : hoist T n ps b u r st1 = .ok (e, st')) : st'.k = st1.k + 1 ∧
    ((caps n (foundL (exprsBody b)) = [] ∧ e = .fnRef (T.anonFn st'.k) false (T.ty u) ∧ anonBody T st'.k ps b r ∈ st'.out ∧ st'.n = st1.n) ∨
     (caps n (foundL (exprsBody b)) ≠ [] ∧ e = clExpr T st'.k u (caps n (foundL (exprsBody b))) ∧ envFn T st'.k (caps n (foundL (exprsBody b))) ∈ st'.out ∧
      clObj T st'.k u ∈ st'.out ∧ clBody T st'.k st1.n (caps n (foundL (exprsBody b))) ps b r ∈ st'.out ∧ st'.n = st1.n + 1)) := by
  simp only [hoist] at h
  split at h
  · split at h
    · rename_i he
      cases h
      exact ⟨rfl, .inl ⟨by simpa using he, rfl, by simp [anonBody], rfl⟩⟩
    · rename_i he
      cases h
      exact ⟨rfl, .inr ⟨by simpa using he, rfl, by simp [envFn], by simp [clObj], by simp [clBody], rfl⟩⟩
  · cases h

/-- How a literal is translated. -/
theorem lit_inv {T : TrLib} {D : Decls} {A : List X} (hA : ∀ t ∈ A, LitTyped t) {t : X} {ρ : Names'} {st st' : TrSt} {e : Expr} (ht : LitTyped t)
    (hb : Below ρ st.n) (hN : Num A st.k (litsX t)) (h : trX T D ρ t st = .ok (e, st')) :
    ∃ cs u, Named ρ (captured t) cs ∧ ((cs = [] ∧ e = .fnRef (T.anonFn st'.k) false (T.ty u)) ∨
      (cs ≠ [] ∧ e = clExpr T st'.k u cs ∧ envFn T st'.k cs ∈ st'.out ∧ clObj T st'.k u ∈ st'.out)) := by
  cases t with
  | fnB hd i ss a =>
    simp only [trX] at h
    split at h
    · rename_i d ts r hty
      obtain ⟨⟨b, st1⟩, h1, h⟩ := ok_bind h
      simp only [litsX] at hN
      have t1 := (trB_tx hA T D ss (bindParams (hd.params.map (·.1)) st.n ++ ρ) { st with n := st.n + ts.length } b st1 (hb.bind (by simp [ht d ts r hty])) hN.left h1).leaveP hb
      have nm := Named.captured hb t1.names
      obtain ⟨-, ⟨h1, h2, -⟩ | ⟨h1, h2, h3, h4, -⟩⟩ := hoist_inv h
      · exact ⟨_, _, nm, .inl ⟨h1, h2⟩⟩
      · exact ⟨_, _, nm, .inr ⟨h1, h2, h3, h4⟩⟩
    · cases h
  | fnE hd i x a =>
    simp only [trX] at h
    split at h
    · rename_i d ts r hty
      obtain ⟨⟨b, st1⟩, h1, h⟩ := ok_bind h
      simp only [litsX] at hN
      have t1 := (trX_tx hA T D x (bindParams (hd.params.map (·.1)) st.n ++ ρ) { st with n := st.n + ts.length } b st1 (hb.bind (by simp [ht d ts r hty])) hN.left h1).leaveP hb
      have nm := Named.captured hb t1.names
      rw [show found b = foundL (exprsBody (.expr b)) by simp [exprsBody, foundL]] at nm
      obtain ⟨-, ⟨h1, h2, -⟩ | ⟨h1, h2, h3, h4, -⟩⟩ := hoist_inv h
      · exact ⟨_, _, nm, .inl ⟨h1, h2⟩⟩
      · exact ⟨_, _, nm, .inr ⟨h1, h2, h3, h4⟩⟩
    · cases h
  | _ => exact ht.elim

/-- A literal is the last one in its tree. -/
theorem lits_last {t : X} (ht : LitTyped t) : (litsX t)[(litsX t).length - 1]? = some t ∧ 0 < (litsX t).length := by
  cases t with
  | fnB hd i ss a => simp [litsX]
  | fnE hd i x a => simp [litsX]
  | _ => exact ht.elim

theorem nodup_at {A : List X} (hn : A.Nodup) {i j : Nat} {t : X} (hi : A[i]? = some t) (hj : A[j]? = some t) : i = j := by
  obtain ⟨h1, e1⟩ := List.getElem?_eq_some_iff.mp hi
  obtain ⟨h2, e2⟩ := List.getElem?_eq_some_iff.mp hj
  exact (List.getElem_inj hn).mp (e1.trans e2.symm)

/-- The number of a literal is the one with which it is translated. -/
theorem lit_number {T : TrLib} {D : Decls} {A : List X} (hA : ∀ t ∈ A, LitTyped t) (hn : A.Nodup) {t : X} {k : Nat} {ρ : Names'} {st st' : TrSt} {e : Expr}
    (ht : (t, k) ∈ A.zipIdx 1) (hb : Below ρ st.n) (hN : Num A st.k (litsX t)) (h : trX T D ρ t st = .ok (e, st')) : st'.k = k := by
  have hk := List.mem_zipIdx ht
  have ha : A[k - 1]? = some t := by
    rw [List.getElem?_eq_some_iff]
    exact ⟨by omega, hk.2.2.symm⟩
  have hT := hA t (List.mem_of_getElem? ha)
  obtain ⟨h1, h2⟩ := lits_last hT
  have h3 := nodup_at hn ha (hN _ _ h1)
  have := (trX_tx hA T D t ρ st e st' hb hN h).k
  omega

end Clara.Sema.Chk
