import Verif.Sema.Closure
import Mathlib.Data.List.Forall2
set_option linter.unusedVariables false
/-
Which variables a function literal mentions, and that the conversion of function literals in
`Verif/Sema/Closure.lean` captures these.
-/
namespace Clara.Sema.Closure

/-! ### Specification -/

mutual
/-- The variables that are mentioned in a tree and not declared in it: in a field access only the left
side mentions variables, an array access mentions those of both sides, and a function literal mentions
those of its body that are not its own. -/
def fv : T → List Nat
  | .glob => []
  | .id x => [x]
  | .dot l _ => fv l
  | .index l r => fv l ++ fv r
  | .scope own kids => (fvL kids).filter (!own ·)
  | .node kids => fvL kids
  | .lit own kids => (fvL kids).filter (!own ·)
def fvL : List T → List Nat
  | [] => []
  | t :: ts => fv t ++ fvL ts
end

mutual
/-- The function literals of a tree, inner ones first. -/
def lits : T → List (Scope × List T)
  | .glob | .id _ => []
  | .dot l _ => lits l
  | .index l r => lits l ++ lits r
  | .scope _ kids => litsL kids
  | .node kids => litsL kids
  | .lit own kids => litsL kids ++ [(own, kids)]
def litsL : List T → List (Scope × List T)
  | [] => []
  | t :: ts => lits t ++ litsL ts
end

mutual
/-- All scopes of a tree. -/
def every : T → List Scope
  | .glob | .id _ => []
  | .dot l _ => every l
  | .index l r => every l ++ every r
  | .scope own kids => own :: everyL kids
  | .node kids => everyL kids
  | .lit own kids => own :: everyL kids
def everyL : List T → List Scope
  | [] => []
  | t :: ts => every t ++ everyL ts
end

mutual
/-- The fields accessed in a tree. -/
def flds : T → List Nat
  | .glob | .id _ => []
  | .dot l f => f :: flds l
  | .index l r => flds l ++ flds r
  | .scope _ kids => fldsL kids
  | .node kids => fldsL kids
  | .lit _ kids => fldsL kids
def fldsL : List T → List Nat
  | [] => []
  | t :: ts => flds t ++ fldsL ts
end

/-- No symbol is owned by both scopes. -/
def Apart (a b : Scope) : Prop := ∀ x, a x = true → b x = false

/-- A function as the type checker leaves it: every variable is declared in it, a symbol is declared
in one scope only, and fields are not declared in scopes. -/
structure Checked (t : T) : Prop where
  closed : fv t = []
  apart : (every t).Pairwise Apart
  flds : ∀ f ∈ flds t, ∀ o ∈ every t, o f = false

mutual
/-- No array access has an identifier on its left side and a variable on its right side.  (And no
function literal on its left side, which is not an array.) -/
def IndexPlain : T → Prop
  | .glob | .id _ => True
  | .dot l _ => IndexPlain l
  | .index (.id _) r => fv r = [] ∧ IndexPlain r
  | .index .glob r => fv r = [] ∧ IndexPlain r
  | .index (.lit _ _) _ => False
  | .index l r => IndexPlain l ∧ IndexPlain r
  | .scope _ kids => IndexPlainL kids
  | .node kids => IndexPlainL kids
  | .lit _ kids => IndexPlainL kids
def IndexPlainL : List T → Prop
  | [] => True
  | t :: ts => IndexPlain t ∧ IndexPlainL ts
end

mutual
/-- Fields of variables only are accessed. -/
def DotPlain : T → Prop
  | .glob | .id _ => True
  | .dot (.id _) _ => True
  | .dot _ _ => False
  | .index l r => DotPlain l ∧ DotPlain r
  | .scope _ kids => DotPlainL kids
  | .node kids => DotPlainL kids
  | .lit _ kids => DotPlainL kids
def DotPlainL : List T → Prop
  | [] => True
  | t :: ts => DotPlain t ∧ DotPlainL ts
end

mutual
/-- The field number `i` of the environment read as the `i`th captured variable. -/
def restore (caps : List Nat) : T → T
  | .glob => .glob
  | .id x => .id x
  | .dot .glob i => match caps[i]? with
    | some x => .id x
    | none => .dot .glob i
  | .dot l f => .dot (restore caps l) f
  | .index l r => .index (restore caps l) (restore caps r)
  | .scope own kids => .scope own (restoreL caps kids)
  | .node kids => .node (restoreL caps kids)
  | .lit own kids => .lit own (restoreL caps kids)
def restoreL (caps : List Nat) : List T → List T
  | [] => []
  | t :: ts => restore caps t :: restoreL caps ts
end

/-! ### Proofs -/

mutual
/-- No scope inside a literal owns a variable that the literal mentions and does not own. -/
def WS : T → Prop
  | .glob | .id _ => True
  | .dot l _ => WS l
  | .index l r => WS l ∧ WS r
  | .scope _ kids => WSL kids
  | .node kids => WSL kids
  | .lit own kids => WSL kids ∧ ∀ x ∈ fvL kids, own x = false → ∀ o ∈ scopesL kids, o x = false
def WSL : List T → Prop
  | [] => True
  | t :: ts => WS t ∧ WSL ts
end

mutual
theorem scopes_every : ∀ (t : T), ∀ o ∈ scopes t, o ∈ every t
  | .glob, o, h => by simp [scopes] at h
  | .id _, o, h => by simp [scopes] at h
  | .lit _ _, o, h => by simp [scopes] at h
  | .dot l _, o, h => by simp only [scopes, every] at *; exact scopes_every l o h
  | .index l r, o, h => by
    simp only [scopes, every, List.mem_append] at *
    exact h.imp (scopes_every l o) (scopes_every r o)
  | .scope own ks, o, h => by
    simp only [scopes, every, List.mem_cons] at *
    exact h.imp id (scopesL_every ks o)
  | .node ks, o, h => by simp only [scopes, every] at *; exact scopesL_every ks o h
theorem scopesL_every : ∀ (ts : List T), ∀ o ∈ scopesL ts, o ∈ everyL ts
  | [], o, h => by simp [scopesL] at h
  | t :: ts, o, h => by
    simp only [scopesL, everyL, List.mem_append] at *
    exact h.imp (scopes_every t o) (scopesL_every ts o)
end

theorem owned_cons {own : Scope} {fs : List Nat} {env : List Scope} (h1 : ∀ x ∈ fs.filter (!own ·), ∃ e ∈ env, e x = true) :
    ∀ x ∈ fs, ∃ e ∈ own :: env, e x = true := by
  intro x hx
  by_cases ho : own x = true
  · exact ⟨own, List.mem_cons_self .., ho⟩
  · obtain ⟨e, he, h⟩ := h1 x (List.mem_filter.mpr ⟨hx, by simpa using ho⟩)
    exact ⟨e, List.mem_cons_of_mem _ he, h⟩

mutual
theorem ws_of : ∀ (t : T) (env : List Scope), (∀ x ∈ fv t, ∃ e ∈ env, e x = true) → (every t).Pairwise Apart →
    (∀ e ∈ env, ∀ o ∈ every t, Apart e o) → WS t
  | .glob, env, h1, h2, h3 => trivial
  | .id _, env, h1, h2, h3 => trivial
  | .dot l _, env, h1, h2, h3 => by
    simp only [fv, every, WS] at *
    exact ws_of l env h1 h2 h3
  | .index l r, env, h1, h2, h3 => by
    simp only [fv, every, WS, List.mem_append, List.pairwise_append] at *
    exact ⟨ws_of l env (fun x hx => h1 x (.inl hx)) h2.1 (fun e he o ho => h3 e he o (.inl ho)),
      ws_of r env (fun x hx => h1 x (.inr hx)) h2.2.1 (fun e he o ho => h3 e he o (.inr ho))⟩
  | .node ks, env, h1, h2, h3 => by
    simp only [fv, every, WS] at *
    exact wsL_of ks env h1 h2 h3
  | .scope own ks, env, h1, h2, h3 => by
    simp only [fv, every, WS, List.pairwise_cons] at *
    refine wsL_of ks (own :: env) ?_ h2.2 ?_
    · intro x hx
      by_cases ho : own x = true
      · exact ⟨own, List.mem_cons_self .., ho⟩
      · obtain ⟨e, he, h⟩ := h1 x (List.mem_filter.mpr ⟨hx, by simpa using ho⟩)
        exact ⟨e, List.mem_cons_of_mem _ he, h⟩
    · intro e he o ho
      rcases List.mem_cons.mp he with rfl | he
      · exact h2.1 o ho
      · exact h3 e he o (List.mem_cons_of_mem _ ho)
  | .lit own ks, env, h1, h2, h3 => by
    simp only [fv, every, WS, List.pairwise_cons] at *
    refine ⟨wsL_of ks (own :: env) ?_ h2.2 ?_, ?_⟩
    · intro x hx
      by_cases ho : own x = true
      · exact ⟨own, List.mem_cons_self .., ho⟩
      · obtain ⟨e, he, h⟩ := h1 x (List.mem_filter.mpr ⟨hx, by simpa using ho⟩)
        exact ⟨e, List.mem_cons_of_mem _ he, h⟩
    · intro e he o ho
      rcases List.mem_cons.mp he with rfl | he
      · exact h2.1 o ho
      · exact h3 e he o (List.mem_cons_of_mem _ ho)
    · intro x hx ho o hm
      obtain ⟨e, he, h⟩ := h1 x (List.mem_filter.mpr ⟨hx, by simp [ho]⟩)
      exact h3 e he o (List.mem_cons_of_mem _ (scopesL_every ks o hm)) x h
theorem wsL_of : ∀ (ts : List T) (env : List Scope), (∀ x ∈ fvL ts, ∃ e ∈ env, e x = true) → (everyL ts).Pairwise Apart →
    (∀ e ∈ env, ∀ o ∈ everyL ts, Apart e o) → WSL ts
  | [], env, h1, h2, h3 => trivial
  | t :: ts, env, h1, h2, h3 => by
    simp only [fvL, everyL, WSL, List.mem_append, List.pairwise_append] at *
    exact ⟨ws_of t env (fun x hx => h1 x (.inl hx)) h2.1 (fun e he o ho => h3 e he o (.inl ho)),
      wsL_of ts env (fun x hx => h1 x (.inr hx)) h2.2.1 (fun e he o ho => h3 e he o (.inr ho))⟩
end

mutual
/-- A variable mentioned in a literal is declared around it. -/
theorem lits_owned : ∀ (t : T) (env : List Scope), (∀ x ∈ fv t, ∃ e ∈ env, e x = true) → ∀ p ∈ lits t, ∀ x ∈ fvL p.2,
    ∃ o, (o ∈ env ∨ o ∈ every t) ∧ o x = true
  | .glob, env, h1, p, hp => by simp [lits] at hp
  | .id _, env, h1, p, hp => by simp [lits] at hp
  | .dot l _, env, h1, p, hp => by
    simp only [fv, every, lits] at *
    exact lits_owned l env h1 p hp
  | .index l r, env, h1, p, hp => by
    simp only [fv, every, lits, List.mem_append] at *
    intro x hx
    rcases hp with hp | hp
    · obtain ⟨o, ho, h⟩ := lits_owned l env (fun x hx => h1 x (.inl hx)) p hp x hx
      exact ⟨o, ho.imp id .inl, h⟩
    · obtain ⟨o, ho, h⟩ := lits_owned r env (fun x hx => h1 x (.inr hx)) p hp x hx
      exact ⟨o, ho.imp id .inr, h⟩
  | .node ks, env, h1, p, hp => by
    simp only [fv, every, lits] at *
    exact litsL_owned ks env h1 p hp
  | .scope own ks, env, h1, p, hp => by
    simp only [fv, every, lits] at *
    intro x hx
    obtain ⟨o, ho, h⟩ := litsL_owned ks (own :: env) (owned_cons h1) p hp x hx
    refine ⟨o, ?_, h⟩
    simp only [List.mem_cons] at ho ⊢
    rcases ho with (ho | ho) | ho
    · exact .inr (.inl ho)
    · exact .inl ho
    · exact .inr (.inr ho)
  | .lit own ks, env, h1, p, hp => by
    simp only [fv, every, lits, List.mem_append, List.mem_singleton] at *
    intro x hx
    rcases hp with hp | rfl
    · obtain ⟨o, ho, h⟩ := litsL_owned ks (own :: env) (owned_cons h1) p hp x hx
      refine ⟨o, ?_, h⟩
      simp only [List.mem_cons] at ho ⊢
      rcases ho with (ho | ho) | ho
      · exact .inr (.inl ho)
      · exact .inl ho
      · exact .inr (.inr ho)
    · obtain ⟨e, he, h⟩ := owned_cons h1 x hx
      rcases List.mem_cons.mp he with rfl | he
      · exact ⟨e, .inr (List.mem_cons_self ..), h⟩
      · exact ⟨e, .inl he, h⟩
theorem litsL_owned : ∀ (ts : List T) (env : List Scope), (∀ x ∈ fvL ts, ∃ e ∈ env, e x = true) → ∀ p ∈ litsL ts, ∀ x ∈ fvL p.2,
    ∃ o, (o ∈ env ∨ o ∈ everyL ts) ∧ o x = true
  | [], env, h1, p, hp => by simp [litsL] at hp
  | t :: ts, env, h1, p, hp => by
    simp only [fvL, everyL, litsL, List.mem_append] at *
    intro x hx
    rcases hp with hp | hp
    · obtain ⟨o, ho, h⟩ := lits_owned t env (fun x hx => h1 x (.inl hx)) p hp x hx
      exact ⟨o, ho.imp id .inl, h⟩
    · obtain ⟨o, ho, h⟩ := litsL_owned ts env (fun x hx => h1 x (.inr hx)) p hp x hx
      exact ⟨o, ho.imp id .inr, h⟩
end

theorem Checked.owned {t : T} (h : Checked t) {p : Scope × List T} (hp : p ∈ lits t) {x : Nat} (hx : x ∈ fvL p.2) :
    ∃ o ∈ every t, o x = true := by
  obtain ⟨o, ho, h⟩ := lits_owned t [] (by rw [h.closed]; simp) p hp x hx
  exact ⟨o, by simpa using ho, h⟩

theorem Checked.ws {t : T} (h : Checked t) : WS t :=
  ws_of t [] (by rw [h.closed]; simp) h.apart (by simp)

section
variable {name : Nat → String} {ord : List Nat → List Nat}

theorem foundL_ids (xs : List Nat) : foundL (xs.map .id) = xs := by
  induction xs with
  | nil => rfl
  | cons x xs ih => simp [foundL, found, ih]

theorem fvL_ids (xs : List Nat) : fvL (xs.map .id) = xs := by
  induction xs with
  | nil => rfl
  | cons x xs ih => simp [fvL, fv, ih]

theorem scopesL_ids (xs : List Nat) : scopesL (xs.map .id) = [] := by
  induction xs with
  | nil => rfl
  | cons x xs ih => simp [scopesL, scopes, ih]

theorem found_conv_lit (own : Scope) (ks : List T) :
    found (conv name ord (.lit own ks)).1 = ord (identify own (convL name ord ks).1) := by
  simp only [conv]
  split
  · rename_i h
    simp [found, h]
  · simp [found, foundL, foundL_ids]

theorem fv_conv_lit (own : Scope) (ks : List T) :
    fv (conv name ord (.lit own ks)).1 = ord (identify own (convL name ord ks).1) := by
  simp only [conv]
  split
  · rename_i h
    simp [fv, h]
  · simp [fv, fvL, fvL_ids]

theorem found_dot (l : T) (f : Nat) : ∀ x ∈ found l, x ∈ found (.dot l f) := by
  intro x hx
  cases l <;> simp_all [found]

theorem found_index (l r : T) : ∀ x ∈ found l, x ∈ found (.index l r) := by
  intro x hx
  cases l <;> simp_all [found]

mutual
theorem scopes_conv : ∀ (t : T), ∀ o ∈ scopes (conv name ord t).1, o ∈ scopes t
  | .glob, o, h => h
  | .id _, o, h => h
  | .dot l _, o, h => by simp only [conv, scopes] at *; exact scopes_conv l o h
  | .index l r, o, h => by
    simp only [conv, scopes, List.mem_append] at *
    exact h.imp (scopes_conv l o) (scopes_conv r o)
  | .scope own ks, o, h => by
    simp only [conv, scopes, List.mem_cons] at *
    exact h.imp id (scopesL_conv ks o)
  | .node ks, o, h => by simp only [conv, scopes] at *; exact scopesL_conv ks o h
  | .lit own ks, o, h => by
    simp only [conv] at h
    split at h
    · exact h
    · simp [scopes, scopesL, scopesL_ids] at h
theorem scopesL_conv : ∀ (ts : List T), ∀ o ∈ scopesL (convL name ord ts).1, o ∈ scopesL ts
  | [], o, h => h
  | t :: ts, o, h => by
    simp only [convL, scopesL, List.mem_append] at *
    exact h.imp (scopes_conv t o) (scopesL_conv ts o)
end

theorem index_not_ident {l r : T} (h : IndexPlain (.index l r)) (hr : fv r ≠ []) :
    IndexPlain l ∧ (∀ x, (conv name ord l).1 ≠ .id x) ∧ (conv name ord l).1 ≠ .glob := by
  cases l with
  | lit own ks => exact absurd h (by simp [IndexPlain])
  | glob => exact absurd h.1 hr
  | id x => exact absurd h.1 hr
  | _ => exact ⟨h.1, by simp [conv], by simp [conv]⟩

theorem index_plain {l r : T} (h : IndexPlain (.index l r)) : IndexPlain l ∧ IndexPlain r := by
  cases l with
  | lit own ks => exact absurd h (by simp [IndexPlain])
  | glob => exact ⟨trivial, h.2⟩
  | id x => exact ⟨trivial, h.2⟩
  | _ => exact h

variable (hord : ∀ xs, (ord xs).Perm xs)
include hord

mutual
/-- The walk finds the variables that are mentioned. -/
theorem fv_found : ∀ (t : T), IndexPlain t → WS t → ∀ x ∈ fv t, x ∈ found (conv name ord t).1
  | .glob, _, _, x, h => h
  | .id _, _, _, x, h => h
  | .dot l f, hi, hw, x, h => by
    simp only [conv]
    exact found_dot _ _ x (fv_found l (by simpa [IndexPlain] using hi) hw x h)
  | .index l r, hi, hw, x, h => by
    have hp := index_plain hi
    simp only [fv, List.mem_append] at h
    simp only [conv]
    rcases h with h | h
    · exact found_index _ _ x (fv_found l hp.1 hw.1 x h)
    · have hn := index_not_ident (name := name) (ord := ord) hi (List.ne_nil_of_mem h)
      have := fv_found r hp.2 hw.2 x h
      generalize (conv name ord l).1 = l' at *
      cases l' with
      | id y => exact absurd rfl (hn.2.1 y)
      | glob => exact absurd rfl hn.2.2
      | _ => exact List.mem_append_right _ this
  | .scope own ks, hi, hw, x, h => by
    simp only [fv, conv, found, List.mem_filter] at *
    exact ⟨fvL_found ks hi hw x h.1, h.2⟩
  | .node ks, hi, hw, x, h => by
    simp only [fv, conv, found] at *
    exact fvL_found ks hi hw x h
  | .lit own ks, hi, hw, x, h => by
    rw [found_conv_lit, (hord _).mem_iff]
    simp only [fv, List.mem_filter, Bool.not_eq_true'] at h
    exact identify_full (fvL_found ks hi hw.1 x h.1) h.2 (fun o ho => hw.2 x h.1 h.2 o (scopesL_conv ks o ho))
theorem fvL_found : ∀ (ts : List T), IndexPlainL ts → WSL ts → ∀ x ∈ fvL ts, x ∈ foundL (convL name ord ts).1
  | [], _, _, x, h => h
  | t :: ts, hi, hw, x, h => by
    simp only [fvL, convL, foundL, List.mem_append] at *
    exact h.imp (fv_found t hi.1 hw.1 x) (fvL_found ts hi.2 hw.2 x)
end

mutual
/-- When only fields of variables are accessed the walk finds nothing else. -/
theorem found_fv : ∀ (t : T), DotPlain t → ∀ x ∈ found (conv name ord t).1, x ∈ fv t
  | .glob, _, x, h => h
  | .id _, _, x, h => h
  | .dot l f, hd, x, h => by
    cases l with
    | id y => simpa [conv, found, fv] using h
    | _ => exact absurd hd (by simp [DotPlain])
  | .index l r, hd, x, h => by
    have h1 := found_fv l hd.1 x
    have h2 := found_fv r hd.2 x
    simp only [conv, fv, List.mem_append] at *
    generalize (conv name ord l).1 = l' at *
    cases l' with
    | id y => exact .inl (h1 h)
    | glob => simp [found] at h
    | _ =>
      rcases List.mem_append.mp (show x ∈ found _ ++ found _ from h) with h | h
      · exact .inl (h1 h)
      · exact .inr (h2 h)
  | .scope own ks, hd, x, h => by
    simp only [fv, conv, found, List.mem_filter] at *
    exact ⟨foundL_fv ks hd x h.1, h.2⟩
  | .node ks, hd, x, h => by
    simp only [fv, conv, found] at *
    exact foundL_fv ks hd x h
  | .lit own ks, hd, x, h => by
    rw [found_conv_lit, (hord _).mem_iff] at h
    simp only [fv, List.mem_filter, Bool.not_eq_true']
    have := identify_sound h
    exact ⟨foundL_fv ks hd x this.1, this.2⟩
theorem foundL_fv : ∀ (ts : List T), DotPlainL ts → ∀ x ∈ foundL (convL name ord ts).1, x ∈ fvL ts
  | [], _, x, h => h
  | t :: ts, hd, x, h => by
    simp only [fvL, convL, foundL, List.mem_append] at *
    exact h.imp (found_fv t hd.1 x) (foundL_fv ts hd.2 x)
end

/-- What a literal captures. -/
theorem caps_full {own : Scope} {ks : List T} (hi : IndexPlainL ks) (hw : WS (.lit own ks)) {x : Nat} (hx : x ∈ fvL ks)
    (ho : own x = false) : x ∈ ord (identify own (convL name ord ks).1) := by
  rw [(hord _).mem_iff]
  exact identify_full (fvL_found hord ks hi hw.1 x hx) ho (fun o hm => hw.2 x hx ho o (scopesL_conv ks o hm))

theorem caps_sound {own : Scope} {ks : List T} (hd : DotPlainL ks) {x : Nat}
    (hx : x ∈ ord (identify own (convL name ord ks).1)) : x ∈ fvL ks ∧ own x = false := by
  rw [(hord _).mem_iff] at hx
  have := identify_sound hx
  exact ⟨foundL_fv hord ks hd x this.1, this.2⟩

mutual
/-- The conversion of nested literals does not change what is mentioned. -/
theorem fv_conv : ∀ (t : T), IndexPlain t → DotPlain t → WS t → ∀ x, x ∈ fv (conv name ord t).1 ↔ x ∈ fv t
  | .glob, _, _, _, x => Iff.rfl
  | .id _, _, _, _, x => Iff.rfl
  | .dot l f, hi, hd, hw, x => by
    cases l with
    | id y => exact Iff.rfl
    | _ => exact absurd hd (by simp [DotPlain])
  | .index l r, hi, hd, hw, x => by
    have hp := index_plain hi
    simp only [conv, fv, List.mem_append]
    rw [fv_conv l hp.1 hd.1 hw.1 x, fv_conv r hp.2 hd.2 hw.2 x]
  | .scope own ks, hi, hd, hw, x => by
    simp only [fv, conv, List.mem_filter]
    rw [fvL_conv ks hi hd hw x]
  | .node ks, hi, hd, hw, x => by
    simp only [fv, conv]
    exact fvL_conv ks hi hd hw x
  | .lit own ks, hi, hd, hw, x => by
    rw [fv_conv_lit]
    simp only [fv, List.mem_filter, Bool.not_eq_true']
    exact ⟨caps_sound hord hd, fun h => caps_full hord hi hw h.1 h.2⟩
theorem fvL_conv : ∀ (ts : List T), IndexPlainL ts → DotPlainL ts → WSL ts → ∀ x, x ∈ fvL (convL name ord ts).1 ↔ x ∈ fvL ts
  | [], _, _, _, x => Iff.rfl
  | t :: ts, hi, hd, hw, x => by
    simp only [fvL, convL, List.mem_append]
    rw [fv_conv t hi.1 hd.1 hw.1 x, fvL_conv ts hi.2 hd.2 hw.2 x]
end
end

/-! ### Bodies -/

mutual
theorem rewrite_nil (name : Nat → String) : ∀ (t : T), rewrite name [] t = t
  | .glob => rfl
  | .id _ => by simp [rewrite]
  | .dot l _ => by simp [rewrite, rewrite_nil name l]
  | .index l r => by simp [rewrite, rewrite_nil name l, rewrite_nil name r]
  | .scope _ ks => by simp [rewrite, rewriteL_nil name ks]
  | .node ks => by simp [rewrite, rewriteL_nil name ks]
  | .lit _ ks => by simp [rewrite, rewriteL_nil name ks]
theorem rewriteL_nil (name : Nat → String) : ∀ (ts : List T), rewriteL name [] ts = ts
  | [] => rfl
  | t :: ts => by simp [rewriteL, rewrite_nil name t, rewriteL_nil name ts]
end

/-- What becomes of a literal. -/
def Becomes (name : Nat → String) (ord : List Nat → List Nat) (p : Scope × List T) (h : Hoisted) : Prop :=
  h.own = p.1 ∧ h.caps = ord (identify p.1 (convL name ord p.2).1) ∧ h.body = rewriteL name h.caps (convL name ord p.2).1

mutual
theorem conv_lits (name : Nat → String) (ord : List Nat → List Nat) : ∀ (t : T), List.Forall₂ (Becomes name ord) (lits t) (conv name ord t).2
  | .glob => .nil
  | .id _ => .nil
  | .dot l _ => conv_lits name ord l
  | .index l r => List.rel_append (conv_lits name ord l) (conv_lits name ord r)
  | .scope _ ks => convL_lits name ord ks
  | .node ks => convL_lits name ord ks
  | .lit own ks => by
    simp only [lits, conv]
    split
    · rename_i h
      exact List.rel_append (convL_lits name ord ks) (.cons ⟨rfl, h.symm, (rewriteL_nil name _).symm⟩ .nil)
    · exact List.rel_append (convL_lits name ord ks) (.cons ⟨rfl, rfl, rfl⟩ .nil)
theorem convL_lits (name : Nat → String) (ord : List Nat → List Nat) : ∀ (ts : List T), List.Forall₂ (Becomes name ord) (litsL ts) (convL name ord ts).2
  | [] => .nil
  | t :: ts => List.rel_append (conv_lits name ord t) (convL_lits name ord ts)
end

/-- What holds of a tree holds of its literals. -/
structure Part (t : T) (p : Scope × List T) : Prop where
  index : IndexPlain t → IndexPlainL p.2
  dot : DotPlain t → DotPlainL p.2
  ws : WS t → WS (.lit p.1 p.2)
  flds : ∀ f ∈ fldsL p.2, f ∈ flds t
  every : ∀ o ∈ everyL p.2, o ∈ every t
  own : p.1 ∈ Closure.every t

structure PartL (ts : List T) (p : Scope × List T) : Prop where
  index : IndexPlainL ts → IndexPlainL p.2
  dot : DotPlainL ts → DotPlainL p.2
  ws : WSL ts → WS (.lit p.1 p.2)
  flds : ∀ f ∈ fldsL p.2, f ∈ fldsL ts
  every : ∀ o ∈ everyL p.2, o ∈ everyL ts
  own : p.1 ∈ everyL ts

mutual
theorem lits_part : ∀ (t : T) (p : Scope × List T), p ∈ lits t → Part t p
  | .glob, p, h => by simp [lits] at h
  | .id _, p, h => by simp [lits] at h
  | .dot l f, p, h => by
    have := lits_part l p h
    refine ⟨fun h => this.index (by simpa [IndexPlain] using h), ?_, this.ws, fun f hf => List.mem_cons_of_mem _ (this.flds f hf), this.every, this.own⟩
    intro hd
    cases l with
    | id x => exact this.dot trivial
    | _ => exact absurd hd (by simp [DotPlain])
  | .index l r, p, h => by
    rcases List.mem_append.mp (show p ∈ lits l ++ lits r from h) with h | h
    · have := lits_part l p h
      exact ⟨fun h => this.index (index_plain h).1, fun h => this.dot h.1, fun h => this.ws h.1, fun f hf => List.mem_append_left _ (this.flds f hf),
        fun o ho => List.mem_append_left _ (this.every o ho), List.mem_append_left _ this.own⟩
    · have := lits_part r p h
      exact ⟨fun h => this.index (index_plain h).2, fun h => this.dot h.2, fun h => this.ws h.2, fun f hf => List.mem_append_right _ (this.flds f hf),
        fun o ho => List.mem_append_right _ (this.every o ho), List.mem_append_right _ this.own⟩
  | .node ks, p, h => by
    have := litsL_part ks p h
    exact ⟨this.index, this.dot, this.ws, this.flds, this.every, this.own⟩
  | .scope own ks, p, h => by
    have := litsL_part ks p h
    exact ⟨this.index, this.dot, this.ws, this.flds, fun o ho => List.mem_cons_of_mem _ (this.every o ho), List.mem_cons_of_mem _ this.own⟩
  | .lit own ks, p, h => by
    rcases List.mem_append.mp (show p ∈ litsL ks ++ [(own, ks)] from h) with h | h
    · have := litsL_part ks p h
      exact ⟨this.index, this.dot, fun h => this.ws h.1, this.flds, fun o ho => List.mem_cons_of_mem _ (this.every o ho), List.mem_cons_of_mem _ this.own⟩
    · rw [List.mem_singleton.mp h]
      exact ⟨id, id, id, fun _ => id, fun o ho => List.mem_cons_of_mem _ ho, List.mem_cons_self ..⟩
theorem litsL_part : ∀ (ts : List T) (p : Scope × List T), p ∈ litsL ts → PartL ts p
  | [], p, h => by simp [litsL] at h
  | t :: ts, p, h => by
    rcases List.mem_append.mp (show p ∈ lits t ++ litsL ts from h) with h | h
    · have := lits_part t p h
      exact ⟨fun h => this.index h.1, fun h => this.dot h.1, fun h => this.ws h.1, fun f hf => List.mem_append_left _ (this.flds f hf),
        fun o ho => List.mem_append_left _ (this.every o ho), List.mem_append_left _ this.own⟩
    · have := litsL_part ts p h
      exact ⟨fun h => this.index h.2, fun h => this.dot h.2, fun h => this.ws h.2, fun f hf => List.mem_append_right _ (this.flds f hf),
        fun o ho => List.mem_append_right _ (this.every o ho), List.mem_append_right _ this.own⟩
end

theorem slot_get {name : Nat → String} {caps : List Nat} (hn : ∀ x ∈ caps, ∀ y ∈ caps, name x = name y → x = y) {x : Nat}
    (hx : x ∈ caps) : caps[slot name caps x]? = some x := by
  have hlt : slot name caps x < caps.length := List.findIdx_lt_length_of_exists ⟨x, hx, by simp⟩
  rw [List.getElem?_eq_getElem hlt]
  have := List.findIdx_getElem (w := hlt)
  simp only [beq_iff_eq] at this
  rw [hn _ (List.getElem_mem hlt) _ hx this]

mutual
/-- Trees in which no field of a global is accessed, and no field is captured. -/
def Clean (caps : List Nat) : T → Prop
  | .glob | .id _ => True
  | .dot l f => l ≠ .glob ∧ f ∉ caps ∧ Clean caps l ∧ ∃ x, l = .id x
  | .index l r => Clean caps l ∧ Clean caps r
  | .scope _ kids => CleanL caps kids
  | .node kids => CleanL caps kids
  | .lit _ kids => CleanL caps kids
def CleanL (caps : List Nat) : List T → Prop
  | [] => True
  | t :: ts => Clean caps t ∧ CleanL caps ts
end

mutual
theorem restore_rewrite {name : Nat → String} {caps : List Nat} (hn : ∀ x ∈ caps, ∀ y ∈ caps, name x = name y → x = y) :
    ∀ (t : T), Clean caps t → restore caps (rewrite name caps t) = t
  | .glob, _ => rfl
  | .id x, _ => by
    rw [rewrite]
    split
    · rename_i h
      simp only [restore, slot_get hn h]
    · rfl
  | .dot l f, hc => by
    obtain ⟨h1, h2, h3, x, rfl⟩ := hc
    rw [rewrite, if_neg h2, rewrite]
    split
    · rename_i h
      simp only [restore, slot_get hn h]
    · rfl
  | .index l r, hc => by simp only [rewrite, restore, restore_rewrite hn l hc.1, restore_rewrite hn r hc.2]
  | .scope _ ks, hc => by simp only [rewrite, restore, restoreL_rewrite hn ks hc]
  | .node ks, hc => by simp only [rewrite, restore, restoreL_rewrite hn ks hc]
  | .lit _ ks, hc => by simp only [rewrite, restore, restoreL_rewrite hn ks hc]
theorem restoreL_rewrite {name : Nat → String} {caps : List Nat} (hn : ∀ x ∈ caps, ∀ y ∈ caps, name x = name y → x = y) :
    ∀ (ts : List T), CleanL caps ts → restoreL caps (rewriteL name caps ts) = ts
  | [], _ => rfl
  | t :: ts, hc => by simp only [rewriteL, restoreL, restore_rewrite hn t hc.1, restoreL_rewrite hn ts hc.2]
end

theorem clean_ids (caps xs : List Nat) : CleanL caps (xs.map .id) := by
  induction xs with
  | nil => trivial
  | cons x xs ih => exact ⟨trivial, ih⟩

mutual
theorem clean_conv {name : Nat → String} {ord : List Nat → List Nat} {caps : List Nat} :
    ∀ (t : T), DotPlain t → (∀ f ∈ flds t, f ∉ caps) → Clean caps (conv name ord t).1
  | .glob, _, _ => trivial
  | .id _, _, _ => trivial
  | .dot l f, hd, hf => by
    cases l with
    | id x => exact ⟨by simp [conv], hf f (List.mem_cons_self ..), trivial, x, rfl⟩
    | _ => exact absurd hd (by simp [DotPlain])
  | .index l r, hd, hf => ⟨clean_conv l hd.1 (fun f h => hf f (List.mem_append_left _ h)), clean_conv r hd.2 (fun f h => hf f (List.mem_append_right _ h))⟩
  | .scope _ ks, hd, hf => cleanL_conv ks hd hf
  | .node ks, hd, hf => cleanL_conv ks hd hf
  | .lit own ks, hd, hf => by
    simp only [conv]
    split
    · trivial
    · exact ⟨trivial, trivial, ⟨trivial, clean_ids _ _⟩, trivial⟩
theorem cleanL_conv {name : Nat → String} {ord : List Nat → List Nat} {caps : List Nat} :
    ∀ (ts : List T), DotPlainL ts → (∀ f ∈ fldsL ts, f ∉ caps) → CleanL caps (convL name ord ts).1
  | [], _, _ => trivial
  | t :: ts, hd, hf => ⟨clean_conv t hd.1 (fun f h => hf f (List.mem_append_left _ h)), cleanL_conv ts hd.2 (fun f h => hf f (List.mem_append_right _ h))⟩
end

mutual
/-- A rewritten tree does not mention what is captured. -/
theorem fv_rewrite (name : Nat → String) (caps : List Nat) : ∀ (t : T), ∀ x ∈ fv (rewrite name caps t), x ∈ fv t ∧ x ∉ caps
  | .glob, x, h => by simp [rewrite, fv] at h
  | .id y, x, h => by
    rw [rewrite] at h
    split at h
    · simp [fv] at h
    · rename_i hy
      simp only [fv, List.mem_singleton] at h
      subst h
      exact ⟨by simp [fv], hy⟩
  | .dot l f, x, h => by
    rw [rewrite] at h
    split at h
    · simp only [fv, fvL, List.append_nil] at h
      exact fv_rewrite name caps l x h
    · exact fv_rewrite name caps l x h
  | .index l r, x, h => by
    simp only [rewrite, fv, List.mem_append] at *
    rcases h with h | h
    · exact ⟨.inl (fv_rewrite name caps l x h).1, (fv_rewrite name caps l x h).2⟩
    · exact ⟨.inr (fv_rewrite name caps r x h).1, (fv_rewrite name caps r x h).2⟩
  | .scope own ks, x, h => by
    simp only [rewrite, fv, List.mem_filter] at *
    exact ⟨⟨(fvL_rewrite name caps ks x h.1).1, h.2⟩, (fvL_rewrite name caps ks x h.1).2⟩
  | .node ks, x, h => by simp only [rewrite, fv] at *; exact fvL_rewrite name caps ks x h
  | .lit own ks, x, h => by
    simp only [rewrite, fv, List.mem_filter] at *
    exact ⟨⟨(fvL_rewrite name caps ks x h.1).1, h.2⟩, (fvL_rewrite name caps ks x h.1).2⟩
theorem fvL_rewrite (name : Nat → String) (caps : List Nat) : ∀ (ts : List T), ∀ x ∈ fvL (rewriteL name caps ts), x ∈ fvL ts ∧ x ∉ caps
  | [], x, h => by simp [rewriteL, fvL] at h
  | t :: ts, x, h => by
    simp only [rewriteL, fvL, List.mem_append] at *
    rcases h with h | h
    · exact ⟨.inl (fv_rewrite name caps t x h).1, (fv_rewrite name caps t x h).2⟩
    · exact ⟨.inr (fvL_rewrite name caps ts x h).1, (fvL_rewrite name caps ts x h).2⟩
end

end Clara.Sema.Closure
