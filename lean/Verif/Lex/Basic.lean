import Verif.Lex.Model
/-
Helper lemmas about the lexer model and the definition of the whole run (`lexAll`).
-/
namespace Clara.Lex

theorem ite_intro {α : Type} {P : α → Prop} {c : Prop} [Decidable c] {a b : α}
    (h1 : c → P a) (h2 : ¬c → P b) : P (if c then a else b) := by
  by_cases h : c
  · simpa [h] using h1 h
  · simpa [h] using h2 h

/-- `s'` is `s` after consuming some more input. -/
def Adv (s s' : LS) : Prop :=
  ∃ d, s'.pre = s.pre ∧ s'.cur = s.cur ++ d ∧ s.rest = d ++ s'.rest

theorem Adv.refl (s : LS) : Adv s s := ⟨[], by simp⟩

theorem Adv.trans {a b c : LS} (h : Adv a b) (h' : Adv b c) : Adv a c := by
  obtain ⟨d, h1, h2, h3⟩ := h
  obtain ⟨e, h4, h5, h6⟩ := h'
  exact ⟨d ++ e, by simp [*], by simp [*], by simp [*]⟩

theorem Adv.le {a b : LS} (h : Adv a b) : b.rest.length ≤ a.rest.length := by
  obtain ⟨d, _, _, h3⟩ := h
  simp [h3]

theorem Adv.next (s : LS) : Adv s s.next := by
  unfold LS.next
  cases decode s.rest with
  | none => exact Adv.refl s
  | some p => exact ⟨s.rest.take p.2, by simp⟩

theorem Adv.scan (p : Nat → Bool) (s : LS) : Adv s (s.scan p) := by
  fun_induction LS.scan p s with
  | case1 s h => exact Adv.refl _
  | case2 s r h hp this ih => exact (Adv.next s).trans ih
  | case3 s r h hp => exact Adv.refl _

theorem Adv.scanString (s : LS) : Adv s s.scanString.1 := by
  fun_induction LS.scanString s with
  | case1 | case2 => exact Adv.refl _
  | case3 | case5 => exact Adv.next _
  | case4 s h _ _ _ _ _ _ ih => exact (Adv.next s).trans ((Adv.next _).trans ih)
  | case6 s _ _ _ _ _ ih => exact (Adv.next s).trans ih

/-- What an emitting step does to the state: the token is the text consumed since `start`,
positions are those of `start`, and scanning continues right after it. -/
def Emits (s : LS) (x : Token × Option LS) : Prop :=
  ∀ s', x.2 = some s' → ∃ d, s'.pre = s.pre ++ (s.cur ++ d) ∧ s'.cur = [] ∧ s.rest = d ++ s'.rest ∧
    x.1.val = s.cur ++ d ∧ x.1.pos = linePos s.pre ∧ x.1.line = lineNumber s.pre ∧
    x.1.kind ≠ .eof ∧ x.1.kind ≠ .err

theorem Emits.of_adv {a b : LS} {x} (h : Adv a b) (h' : Emits b x) : Emits a x := by
  intro s' hs
  obtain ⟨e, g1, g2, g3, g4, g5, g6, g7, g8⟩ := h' s' hs
  obtain ⟨d, h1, h2, h3⟩ := h
  exact ⟨d ++ e, by simp [*], by simp [*], by simp [*], by simp [*], by simp [*], by simp [*], g7, g8⟩

theorem Emits.emit (s : LS) (k : Kind) (h1 : k ≠ .eof) (h2 : k ≠ .err) : Emits s (s.emit k) := by
  intro s' hs
  simp only [LS.emit, Option.some.injEq] at hs
  subst hs
  exact ⟨[], by simp, rfl, rfl, by simp [LS.emit], rfl, rfl, h1, h2⟩

theorem Emits.errorf (s : LS) : Emits s s.errorf := by
  intro s' hs
  simp [LS.errorf] at hs

theorem Emits.two {s : LS} {c : Nat} {k : Kind} {o} (h1 : k ≠ .eof) (h2 : k ≠ .err)
    (ho : Emits s o) : Emits s (s.two c k o) := by
  unfold LS.two
  split
  · exact .of_adv (.next s) (.emit _ _ h1 h2)
  · exact ho

theorem key_lookup_mem {w : Bytes} {k : Kind} (h : key.lookup w = some k) : (w, k) ∈ key := by
  generalize key = l at h
  induction l with
  | nil => simp at h
  | cons a t ih =>
    obtain ⟨a1, a2⟩ := a
    rw [List.lookup_cons] at h
    split at h
    · next hb => simp only [beq_iff_eq] at hb; simp_all
    · simp [ih h]

theorem wordKind_ne {w : Bytes} : wordKind w ≠ .eof ∧ wordKind w ≠ .err := by
  unfold wordKind
  cases h : key.lookup w with
  | none => simp
  | some k =>
    have : ∀ x ∈ key, x.2 ≠ .eof ∧ x.2 ≠ .err := by decide
    exact this _ (key_lookup_mem h)

theorem Emits.lexInteger (p : Nat → Bool) (s : LS) : Emits s (lexInteger p s) :=
  .of_adv (.scan p s) (.emit _ _ (by decide) (by decide))

theorem Emits.lexSpace (s : LS) : Emits s (lexSpace s) :=
  .of_adv (.scan _ _) (.emit _ _ (by decide) (by decide))

theorem Emits.lexComment (s : LS) : Emits s (lexComment s) :=
  .of_adv (.scan _ _) (.emit _ _ (by decide) (by decide))

theorem Emits.lexString (s : LS) : Emits s (lexString s) := by
  unfold Lex.lexString
  have hA := Adv.scanString s
  split
  · next s' hs => rw [hs] at hA; exact .of_adv hA (.errorf _)
  · next s' hs =>
    rw [hs] at hA
    split
    · exact .of_adv (hA.trans (.next _)) (.emit _ _ (by decide) (by decide))
    · exact .of_adv (hA.trans (.next _)) (.errorf _)

theorem Emits.lexHexOrDecInteger (u : Uni) (s : LS) : Emits s (lexHexOrDecInteger u s) := by
  unfold Lex.lexHexOrDecInteger
  repeat' split
  all_goals first
    | exact .of_adv (.next _) (.lexInteger _ _)
    | exact .of_adv (.next _) (.errorf _)
    | exact .lexInteger _ _

theorem Emits.lexIdentifier (u : Uni) (s : LS) : Emits s (lexIdentifier u s) := by
  unfold Lex.lexIdentifier
  dsimp only
  split
  · exact .of_adv (.scan _ _) (.emit _ _ wordKind_ne.1 wordKind_ne.2)
  · exact .of_adv (.scan _ _) (.errorf _)

/-- Every iteration of `lexText` after its first rune. -/
theorem lexOne_emits {u : Uni} {s0 : LS} {r : Nat} (h : s0.peek = some r) :
    Emits s0.next (lexOne u s0) := by
  unfold lexOne
  simp only [h]
  repeat' with_reducible refine ite_intro (P := Emits s0.next) (fun _ => ?_) (fun _ => ?_)
  all_goals first
    | exact .emit _ _ (by decide) (by decide)
    | exact .errorf _
    | exact .lexInteger _ _
    | exact .lexSpace _
    | exact .lexString _
    | exact .of_adv (.next _) (.lexComment _)
    | exact .lexHexOrDecInteger _ _
    | exact .lexIdentifier _ _
    | exact .two (by decide) (by decide) (.emit _ _ (by decide) (by decide))
    | exact .two (by decide) (by decide) (.two (by decide) (by decide) (.emit _ _ (by decide) (by decide)))

theorem lexOne_lt {u : Uni} {s s' : LS} {t : Token} (h : lexOne u s = (t, some s')) :
    s'.rest.length < s.rest.length := by
  cases hp : s.peek with
  | none => simp [lexOne, hp] at h
  | some r =>
    have hn := LS.next_lt hp
    obtain ⟨d, _, _, h3, _⟩ := lexOne_emits (u := u) hp s' (by rw [h])
    have := congrArg List.length h3
    simp at this
    omega

/-- `run` (`lex.go` 305-311) started in state `s`: the list of tokens sent on the channel. -/
def lexAll (u : Uni) (s : LS) : List Token :=
  match _h : lexOne u s with
  | (t, none) => [t]
  | (t, some s') => t :: lexAll u s'
  termination_by s.rest.length
  decreasing_by exact lexOne_lt ‹_›

/-- `Lex(input)` (`lex.go` 299-303): everything the lexer sends for a source text. -/
def lex (u : Uni) (input : Bytes) : List Token := lexAll u ⟨[], [], input⟩

end Clara.Lex
