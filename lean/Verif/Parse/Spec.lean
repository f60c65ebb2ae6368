import Verif.Parse.Complete
import Verif.Parse.Kinds
set_option linter.unusedVariables false
set_option linter.unusedSimpArgs false

/-!
# Running the parser on arbitrary tokens

`Spec` describes a run of a method from a state in one go: it returns, it does not crash, tokens are
only taken from the front, errors are only added, point at tokens of the input and say what was expected, and, if the run
is clean (no error so far, no error at the end), it did what the grammar says.
-/

namespace Clara.Parse

open Clara.Lex (Kind Token Bytes)

/-- Tokens as the lexer delivers them: one `EOF`, at the end. -/
def Wr (ts : List Token) : Prop :=
  ∃ body e, ts = body ++ [e] ∧ e.kind = .eof ∧ ∀ t ∈ body, t.kind ≠ .eof

/-- How states change. `tp`: the root may have grown. -/
structure Ext (tp : Bool) (s s' : PS) : Prop where
  suffix : ∃ pre, s.rest = pre ++ s'.rest
  ne : s'.rest ≠ []
  errs : ∃ new, s'.errs = s.errs ++ new ∧ ∀ e ∈ new, e.tok ∈ s.rest ∧ e.want.text ≠ []
  disc : (s.discard = true → s.errs ≠ []) → s'.discard = true → s'.errs ≠ []
  root : tp = false → s'.root = s.root

theorem Ext.refl {tp : Bool} {s : PS} (h : s.rest ≠ []) : Ext tp s s :=
  ⟨⟨[], rfl⟩, h, ⟨[], by simp, by simp⟩, fun h => h, fun _ => rfl⟩

theorem Ext.trans {tp : Bool} {a b c : PS} (h1 : Ext tp a b) (h2 : Ext tp b c) : Ext tp a c := by
  obtain ⟨⟨p1, hp1⟩, n1, ⟨e1, he1, ht1⟩, d1, r1⟩ := h1
  obtain ⟨⟨p2, hp2⟩, n2, ⟨e2, he2, ht2⟩, d2, r2⟩ := h2
  refine ⟨⟨p1 ++ p2, by rw [hp1, hp2, List.append_assoc]⟩, n2,
    ⟨e1 ++ e2, by rw [he2, he1, List.append_assoc], ?_⟩, fun h => d2 (d1 h),
    fun h => (r2 h).trans (r1 h)⟩
  intro e he
  rcases List.mem_append.mp he with h | h
  · exact ht1 e h
  · rw [hp1]
    exact ⟨List.mem_append_right _ (ht2 e h).1, (ht2 e h).2⟩

theorem Ext.weaken {a b : PS} (h : Ext false a b) : Ext true a b :=
  ⟨h.suffix, h.ne, h.errs, h.disc, fun h => by simp at h⟩

theorem Ext.length {tp : Bool} {a b : PS} (h : Ext tp a b) : b.rest.length ≤ a.rest.length := by
  obtain ⟨p, hp⟩ := h.suffix
  rw [hp]
  simp

/-- No error so far. -/
structure Clean (s : PS) : Prop where
  errs : s.errs = []
  disc : s.discard = false
  wr : Wr s.rest

theorem Wr.suffix {p r : List Token} (h : Wr (p ++ r)) (hr : r ≠ []) : Wr r := by
  obtain ⟨body, e, h1, h2, h3⟩ := h
  obtain ⟨l, x, rfl⟩ : ∃ l x, r = l ++ [x] := ⟨r.dropLast, r.getLast hr, (List.dropLast_concat_getLast hr).symm⟩
  rw [← List.append_assoc] at h1
  have h4 := List.append_inj' h1 rfl
  obtain ⟨h4, h5⟩ := h4
  simp only [List.cons.injEq, and_true] at h5
  refine ⟨l, x, rfl, h5 ▸ h2, fun t ht => h3 t ?_⟩
  rw [← h4]
  exact List.mem_append_right _ ht

theorem Wr.single {t : Token} (h : Wr [t]) : t.kind = .eof := by
  obtain ⟨body, e, h1, h2, h3⟩ := h
  cases body with
  | nil => simp at h1; rw [h1]; exact h2
  | cons a b => simp at h1

theorem Wr.more {t : Token} {r : List Token} (h : Wr (t :: r)) (ht : t.kind ≠ .eof) :
    r ≠ [] ∧ Wr r := by
  have hr : r ≠ [] := by
    rintro rfl
    exact ht h.single
  exact ⟨hr, Wr.suffix (p := [t]) h hr⟩

theorem Wr.eof {t : Token} {r : List Token} (h : Wr (t :: r)) (ht : t.kind = .eof) : r = [] := by
  obtain ⟨body, e, h1, h2, h3⟩ := h
  cases body with
  | nil => simp at h1; exact h1.2
  | cons a b =>
    simp only [List.cons_append, List.cons.injEq] at h1
    exact absurd (h1.1 ▸ ht) (h3 a (by simp))

/-- See the top of the file.  At least `c` tokens are read when the method returns; `G` holds of the
result and the final state of a clean run, `E` of the final state of a clean run that panicked. -/
def Spec {α : Type} (tp : Bool) (c : Nat) (x : P α) (s : PS) (G : α → PS → Prop) (E : PS → Prop) : Prop :=
  ∃ r s', x s = some (r, s') ∧ r ≠ .error .crash ∧ Ext tp s s' ∧
    (∀ a, r = .ok a → s'.rest.length + c ≤ s.rest.length) ∧
    (Clean s → s'.errs = [] → (∀ a, r = .ok a → s'.discard = false ∧ G a s') ∧ ((∃ e, r = .error e) → E s'))

section
variable {α β : Type} {tp : Bool} {s : PS}

theorem Spec.bind {x : P α} {f : α → P β} {c c1 c2 : Nat} {G1 : α → PS → Prop} {E1 : PS → Prop}
    {G : β → PS → Prop} {E : PS → Prop}
    (hx : Spec tp c1 x s G1 E1)
    (hf : ∀ a s1, Ext tp s s1 → s1.rest.length + c1 ≤ s.rest.length →
      Spec tp c2 (f a) s1 (fun b s2 => G1 a s1 → G b s2) (fun s2 => G1 a s1 → E s2))
    (hE : Clean s → ∀ s', E1 s' → E s') (hc : c ≤ c1 + c2) : Spec tp c (x >>= f) s G E := by
  obtain ⟨r, s1, h1, h2, h3, h4, h5⟩ := hx
  have hrun : (x >>= f) s = ((x s) >>= fun p => (match p with
      | (.ok a, s1) => f a s1
      | (.error e, s1) => some (.error e, s1) : Option (Except Stop β × PS))) := by
    show ((x s) >>= _ : Option _) = _
    congr 1
    funext p
    obtain ⟨p, q⟩ := p
    cases p <;> rfl
  rw [h1] at hrun
  cases r with
  | error e =>
    refine ⟨.error e, s1, hrun, fun h => h2 (by cases h; rfl), h3, fun a h => (by cases h), ?_⟩
    intro hcl he
    exact ⟨fun a h => (by cases h), fun _ => hE hcl s1 ((h5 hcl he).2 ⟨e, rfl⟩)⟩
  | ok a =>
    obtain ⟨r2, s2, g1, g2, g3, g4, g5⟩ := hf a s1 h3 (h4 a rfl)
    refine ⟨r2, s2, hrun.trans g1, g2, h3.trans g3, ?_, ?_⟩
    · intro b hb
      have := g4 b hb
      have := h4 a rfl
      omega
    · intro hcl he
      have he1 : s1.errs = [] := by
        obtain ⟨new, hn, -⟩ := g3.errs
        rw [he] at hn
        have := List.append_eq_nil_iff.mp hn.symm
        exact this.1
      obtain ⟨hd, hg⟩ := (h5 hcl he1).1 a rfl
      have hcl1 : Clean s1 := by
        refine ⟨he1, hd, ?_⟩
        obtain ⟨p, hp⟩ := h3.suffix
        exact Wr.suffix (hp ▸ hcl.wr) h3.ne
      obtain ⟨k1, k2⟩ := g5 hcl1 he
      exact ⟨fun b hb => ⟨(k1 b hb).1, (k1 b hb).2 hg⟩, fun h => k2 h hg⟩

theorem Spec.pure {a : α} {G : α → PS → Prop} {E : PS → Prop} (hs : s.rest ≠ [])
    (h : Clean s → G a s) : Spec tp 0 (Pure.pure a : P α) s G E :=
  ⟨.ok a, s, rfl, by simp, Ext.refl hs, by simp, fun hcl he =>
    ⟨fun b hb => by cases hb; exact ⟨hcl.disc, h hcl⟩, fun ⟨e, h⟩ => by cases h⟩⟩

theorem Spec.congr {x y : P α} {c : Nat} {G : α → PS → Prop} {E : PS → Prop} (h : x s = y s)
    (hy : Spec tp c y s G E) : Spec tp c x s G E := by
  unfold Spec
  rw [h]
  exact hy

theorem Spec.mono {x : P α} {c c' : Nat} {G G' : α → PS → Prop} {E E' : PS → Prop}
    (h : Spec tp c x s G E) (hc : c' ≤ c) (hG : Clean s → ∀ a s', Ext tp s s' → Clean s' → G a s' → G' a s')
    (hE : Clean s → ∀ s', E s' → E' s') : Spec tp c' x s G' E' := by
  obtain ⟨r, s1, h1, h2, h3, h4, h5⟩ := h
  refine ⟨r, s1, h1, h2, h3, fun a ha => by have := h4 a ha; omega, ?_⟩
  intro hcl he
  obtain ⟨k1, k2⟩ := h5 hcl he
  refine ⟨fun a ha => ⟨(k1 a ha).1, hG hcl a s1 h3 ⟨he, (k1 a ha).1, ?_⟩ (k1 a ha).2⟩, fun h => hE hcl s1 (k2 h)⟩
  obtain ⟨p, hp⟩ := h3.suffix
  exact Wr.suffix (hp ▸ hcl.wr) h3.ne

theorem Spec.weaken {x : P α} {c : Nat} {G : α → PS → Prop} {E : PS → Prop}
    (h : Spec false c x s G E) : Spec true c x s G E := by
  obtain ⟨r, s1, h1, h2, h3, h4, h5⟩ := h
  exact ⟨r, s1, h1, h2, h3.weaken, h4, h5⟩

/-- A run that starts clean may use that. -/
theorem Spec.clean {x : P α} {c : Nat} {G : α → PS → Prop} {E : PS → Prop}
    (h : Spec tp c x s (fun a s' => Clean s → G a s') (fun s' => Clean s → E s')) : Spec tp c x s G E :=
  h.mono (Nat.le_refl _) (fun hcl a s' _ _ h => h hcl) (fun hcl s' h => h hcl)

theorem Spec.kind {f : Kind → P β} {c : Nat} {G : β → PS → Prop} {E : PS → Prop} {t : Token}
    {r : List Token} (hs : s.rest = t :: r) (h : Spec tp c (f t.kind) s G E) :
    Spec tp c (kind >>= f) s G E := by
  refine Spec.congr ?_ h
  obtain ⟨rest, es, d, rt⟩ := s
  simp only at hs
  subst hs
  rfl

theorem Spec.is {f : Bool → P β} {k : Kind} {c : Nat} {G : β → PS → Prop} {E : PS → Prop} {t : Token}
    {r : List Token} (hs : s.rest = t :: r) (h : Spec tp c (f (t.kind == k)) s G E) :
    Spec tp c (is k >>= f) s G E := by
  refine Spec.congr ?_ h
  obtain ⟨rest, es, d, rt⟩ := s
  simp only at hs
  subst hs
  rfl

theorem spec_next (hs : s.rest ≠ []) :
    Spec tp 1 next s (fun t s' => s.rest = t :: s'.rest) (fun _ => ∃ e, s.rest = [e]) := by
  obtain ⟨rest, es, d, rt⟩ := s
  match rest, hs with
  | [t], _ =>
    exact ⟨.error .eof, _, rfl, by simp, Ext.refl (by simp), by simp, fun hcl he =>
      ⟨fun b hb => (by cases hb), fun _ => ⟨t, rfl⟩⟩⟩
  | t :: u :: r, _ =>
    refine ⟨.ok t, ⟨u :: r, es, d, rt⟩, rfl, by simp, ⟨⟨[t], rfl⟩, by simp, ⟨[], by simp, by simp⟩,
      fun h => h, fun _ => rfl⟩, by simp, fun hcl he => ⟨fun b hb => ?_, fun ⟨e, h⟩ => by cases h⟩⟩
    cases hb
    exact ⟨hcl.disc, rfl⟩

theorem spec_syntaxError {w : Want} (hs : s.rest ≠ []) (hw : w.text ≠ []) :
    Spec tp 0 (syntaxError w) s (fun _ _ => False) (fun _ => False) := by
  obtain ⟨rest, es, d, rt⟩ := s
  match rest, hs with
  | t :: r, _ =>
    cases d with
    | true =>
      refine ⟨.ok (), _, rfl, by simp, Ext.refl (by simp), by simp, fun hcl he => ?_⟩
      have := hcl.disc
      simp at this
    | false =>
      refine ⟨.ok (), ⟨t :: r, es ++ [⟨t, w⟩], true, rt⟩, rfl, by simp,
        ⟨⟨[], rfl⟩, by simp, ⟨[⟨t, w⟩], rfl, by simp [hw]⟩, fun _ _ => by simp, fun _ => rfl⟩, by simp,
        fun hcl he => ?_⟩
      simp at he

theorem spec_discard (hs : s.rest ≠ []) :
    Spec tp 0 (modify (fun s => { s with discard := false }) : P Unit) s (fun _ s' => s'.rest = s.rest) (fun _ => False) := by
  refine ⟨.ok (), { s with discard := false }, rfl, by simp,
    ⟨⟨[], rfl⟩, hs, ⟨[], by simp, by simp⟩, fun _ h => by simp at h, fun _ => rfl⟩, by simp,
    fun hcl he => ⟨fun _ _ => ⟨rfl, rfl⟩, fun ⟨e, h⟩ => by cases h⟩⟩

theorem rest_cons (hs : s.rest ≠ []) : ∃ t r, s.rest = t :: r := by
  cases h : s.rest with
  | nil => exact absurd h hs
  | cons t r => exact ⟨t, r, rfl⟩

theorem spec_need {k : Kind} (hs : s.rest ≠ []) (hw : kindText k ≠ [] := by decide) :
    Spec tp 1 (need k) s (fun t s' => t.kind = k ∧ s.rest = t :: s'.rest) (fun _ => k = .eof) := by
  obtain ⟨n, hn⟩ : ∃ n, s.rest.length ≤ n := ⟨_, Nat.le_refl _⟩
  induction n generalizing s with
  | zero =>
    have := List.length_pos_iff.mpr hs
    omega
  | succ n ih =>
    obtain ⟨t, r, ht⟩ := rest_cons hs
    rw [need]
    refine Spec.is ht ?_
    by_cases hk : t.kind = k
    · rw [hk, beq_self_eq_true, if_pos rfl]
      refine Spec.clean (Spec.bind (c1 := 0) (c2 := 1) (spec_discard hs) ?_ (fun _ _ h => h.elim) (by omega))
      intro _ s1 h1 _
      refine (spec_next h1.ne).mono (by omega) ?_ ?_
      · intro _ a s' _ _ ha hr _
        rw [hr, ht, List.cons.injEq] at ha
        rw [← ha.1, ht]
        exact ⟨hk, by rw [ha.1, ha.2]⟩
      · intro _ s' ⟨e, he⟩ hr hcl
        rw [hr, ht, List.cons.injEq] at he
        rw [← hk]
        have := hcl.wr
        rw [ht, he.2] at this
        exact this.single
    · rw [beq_false_of_ne hk, if_neg (by simp)]
      refine Spec.bind (c1 := 0) (c2 := 1) (spec_syntaxError hs hw) ?_ (fun _ _ h => h.elim) (by omega)
      intro _ s1 h1 hl1
      refine Spec.bind (c1 := 1) (c2 := 1) (spec_next h1.ne) ?_ (fun _ _ _ h => h.elim) (by omega)
      intro _ s2 h2 hl2
      refine (ih h2.ne (by omega)).mono (by omega) (fun _ _ _ _ _ _ _ h => h.elim) (fun _ _ _ _ h => h.elim)

theorem spec_accept {k : Kind} (hk0 : k ≠ .eof) (hs : s.rest ≠ []) :
    Spec tp 0 (accept k) s (fun b s' => (b = true ∧ ∃ t, t.kind = k ∧ s.rest = t :: s'.rest) ∨
      (b = false ∧ s'.rest = s.rest ∧ headKind s.rest .eof ≠ k)) (fun _ => False) := by
  obtain ⟨t, r, ht⟩ := rest_cons hs
  unfold accept
  refine Spec.is ht ?_
  by_cases hk : t.kind = k
  · rw [hk, beq_self_eq_true, if_pos rfl]
    refine Spec.clean (Spec.bind (c1 := 1) (c2 := 0) (spec_next hs) ?_ ?_ (by omega))
    · intro a s1 h1 _
      refine Spec.bind (c1 := 0) (c2 := 0) (spec_discard h1.ne) ?_ (fun _ _ h => h.elim) (by omega)
      intro _ s2 h2 _
      refine Spec.pure h2.ne ?_
      intro _ hr ha _
      rw [ht, List.cons.injEq] at ha
      exact .inl ⟨rfl, t, hk, by rw [ht, hr, ha.2]⟩
    · rintro _ s' ⟨e, he⟩ hcl
      rw [ht, List.cons.injEq] at he
      have := hcl.wr
      rw [ht, he.2] at this
      exact hk0 (hk ▸ this.single)
  · rw [beq_false_of_ne hk, if_neg (by simp)]
    refine Spec.pure hs ?_
    intro _
    exact .inr ⟨rfl, rfl, by rw [ht]; exact hk⟩

/-- `Spec.bind` where the rest need not read anything. -/
theorem Spec.seq {x : P α} {f : α → P β} {c c1 : Nat} {G1 : α → PS → Prop} {E1 : PS → Prop}
    {G : β → PS → Prop} {E : PS → Prop}
    (hx : Spec tp c1 x s G1 E1) (hc : c ≤ c1) (hE : Clean s → ∀ s', E1 s' → E s')
    (hf : ∀ a s1, Ext tp s s1 → s1.rest.length + c1 ≤ s.rest.length →
      Spec tp 0 (f a) s1 (fun b s2 => G1 a s1 → G b s2) (fun s2 => G1 a s1 → E s2)) :
    Spec tp c (x >>= f) s G E :=
  Spec.bind hx hf hE (by omega)

theorem Spec.need {f : Token → P β} {k : Kind} {c : Nat} {G : β → PS → Prop} {E : PS → Prop}
    (hs : s.rest ≠ []) (hk : k ≠ .eof) (hc : c ≤ 1)
    (hf : ∀ t s1, Ext tp s s1 → s1.rest.length + 1 ≤ s.rest.length →
      Spec tp 0 (f t) s1 (fun b s2 => t.kind = k ∧ s.rest = t :: s1.rest → G b s2)
        (fun s2 => t.kind = k ∧ s.rest = t :: s1.rest → E s2)) (hw : kindText k ≠ [] := by decide) :
    Spec tp c (Parse.need k >>= f) s G E :=
  Spec.seq (spec_need hs hw) hc (fun _ _ h => absurd h hk) hf

/-- `next` on a token that may be the last one. -/
theorem Spec.next0 {f : Token → P β} {c : Nat} {G : β → PS → Prop} {E : PS → Prop} {t : Token} {r : List Token}
    (hs : s.rest = t :: r) (hc : c ≤ 1) (hE : Clean s → r = [] → E s)
    (hf : ∀ s1, Ext tp s s1 → s1.rest = r → Spec tp 0 (f t) s1 G E) :
    Spec tp c (Parse.next >>= f) s G E := by
  obtain ⟨rest, es, d, rt⟩ := s
  simp only at hs
  subst hs
  cases r with
  | nil =>
    refine ⟨.error .eof, _, rfl, by simp, Ext.refl (by simp), by simp, fun hcl he =>
      ⟨fun b hb => (by cases hb), fun _ => hE hcl rfl⟩⟩
  | cons u r =>
    have hx : Ext tp ⟨t :: u :: r, es, d, rt⟩ ⟨u :: r, es, d, rt⟩ :=
      ⟨⟨[t], rfl⟩, by simp, ⟨[], by simp, by simp⟩, fun h => h, fun _ => rfl⟩
    obtain ⟨q, s', h1, h2, h3, h4, h5⟩ := hf _ hx rfl
    refine ⟨q, s', h1, h2, hx.trans h3, ?_, ?_⟩
    · intro a ha
      have := h4 a ha
      simp only [List.length_cons] at this ⊢
      omega
    · intro hcl he
      exact h5 ⟨hcl.errs, hcl.disc, Wr.suffix (p := [t]) hcl.wr (by simp)⟩ he

/-- `next` on a token that is not `EOF`. -/
theorem Spec.next {f : Token → P β} {c : Nat} {G : β → PS → Prop} {E : PS → Prop} {t : Token} {r : List Token}
    (hs : s.rest = t :: r) (hk : t.kind ≠ .eof) (hc : c ≤ 1)
    (hf : ∀ s1, Ext tp s s1 → s1.rest = r → Spec tp 0 (f t) s1 G E) :
    Spec tp c (Parse.next >>= f) s G E := by
  refine Spec.next0 hs hc ?_ hf
  rintro hcl rfl
  have := hcl.wr
  rw [hs] at this
  exact absurd this.single hk

/-- After a syntax error nothing is clean. -/
theorem Spec.syntaxError {f : Unit → P β} {w : Want} {c : Nat} {G : β → PS → Prop} {E : PS → Prop}
    (hs : s.rest ≠ [])
    (hf : ∀ s1, Ext tp s s1 → Spec tp c (f ()) s1 (fun _ _ => True) (fun _ => True)) (hw : w.text ≠ [] := by decide) :
    Spec tp c (Parse.syntaxError w >>= f) s G E := by
  refine Spec.bind (c1 := 0) (c2 := c) (spec_syntaxError hs hw) ?_ (fun _ _ h => h.elim) (by omega)
  intro _ s1 h1 _
  exact (hf s1 h1).mono (Nat.le_refl _) (fun _ _ _ _ _ _ h => h.elim) (fun _ _ _ h => h.elim)

/-- The end of a branch that reported an error: one more token. -/
theorem Spec.skip {f : Token → P β} (hs : s.rest ≠ [])
    (hf : ∀ u s1, Ext tp s s1 → Spec tp 0 (f u) s1 (fun _ _ => True) (fun _ => True)) :
    Spec tp 1 (Parse.next >>= f) s (fun _ _ => True) (fun _ => True) :=
  Spec.seq (spec_next hs) (Nat.le_refl _) (fun _ _ _ => trivial) (fun u s1 h1 _ =>
    (hf u s1 h1).mono (Nat.le_refl _) (fun _ _ _ _ _ _ _ => trivial) (fun _ _ _ _ => trivial))

end

end Clara.Parse
