import Verif.Props.Lexer
/-
**C98.**  Places of lexical errors.
-/
namespace Clara.Props
open Clara.Lex

/-! ### Specification -/

/-- The line and column of `t` are those of the place in the source that has `before` in front of it.  Columns count from 0 on the first line and from 1 on
the others (C05). -/
def PlacedAt (input before : Bytes) (t : Token) : Prop :=
  before <+: input ∧ t.line = 1 + before.count 10 ∧ t.pos = column0 before + (if t.line = 1 then 0 else 1)

/-- An error is reported at a place of the source, not before the token it is about. -/
def C98_claim (u : Uni) : Prop :=
  ∀ (input : Bytes) (a : List Token) (t : Token), lex u input = a ++ [t] → t.kind = .err →
    ∃ d, PlacedAt input (a.flatMap Token.val ++ d) t

/-! ### Newlines -/

theorem decode_newline {bs : Bytes} {r w : Nat} (h : decode bs = some (r, w)) (hr : r ≠ 10) : 10 ∉ bs.take w := by
  have big : ∀ b : UInt8, 128 ≤ b.toNat → (10 : UInt8) ≠ b := by rintro b hb rfl; simp at hb
  cases bs with
  | nil => simp [decode] at h
  | cons b t =>
    simp only [decode, Option.some.injEq] at h
    unfold decode1 at h
    simp only at h
    by_cases h1 : b.toNat < 128
    · rw [if_pos h1] at h
      injection h with h2 h3
      subst h3
      simp only [List.take_succ_cons, List.take_zero, List.mem_singleton]
      rintro rfl
      exact hr h2.symm
    · have hb : (10 : UInt8) ≠ b := big b (by omega)
      rw [if_neg h1] at h
      have one : (runeError, 1) = (r, w) → 10 ∉ (b :: t).take w := by
        intro e
        injection e with _ e
        subst e
        simpa using hb
      have cont : ∀ c : UInt8, isCont c = true → (10 : UInt8) ≠ c := by
        intro c hc
        simp [isCont] at hc
        exact big c (by omega)
      repeat' split at h
      all_goals first
        | exact one h
        | skip
      all_goals
        injection h with _ h
        subst h
        simp only [List.take_succ_cons, List.take_zero, List.mem_cons, List.not_mem_nil, or_false, not_or]
        try simp only [Bool.and_eq_true, decide_eq_true_eq] at *
        grind

theorem next_newline {s : LS} {r : Nat} (hp : s.peek = some r) (hr : r ≠ 10) (hc : 10 ∉ s.cur) : 10 ∉ s.next.cur := by
  unfold LS.peek at hp
  unfold LS.next
  cases hd : decode s.rest with
  | none => simpa using hc
  | some p =>
    obtain ⟨r', w⟩ := p
    rw [hd] at hp
    have : r' = r := by simpa using hp
    subst this
    simp only [List.mem_append, not_or]
    exact ⟨hc, decode_newline hd hr⟩

theorem scan_newline {p : Nat → Bool} (hp : p 10 = false) (s : LS) (hc : 10 ∉ s.cur) : 10 ∉ (s.scan p).cur := by
  fun_induction LS.scan p s with
  | case1 s h => exact hc
  | case2 s r h hpr this ih => exact ih (next_newline h (by rintro rfl; simp [hp] at hpr) hc)
  | case3 s r h hpr => exact hc

theorem next_head {s : LS} (hp : s.peek = some 34) (hc : s.cur = []) : s.next.cur = [34] := by
  unfold LS.peek at hp
  unfold LS.next
  cases hd : decode s.rest with
  | none => rw [hd] at hp; cases hp
  | some p =>
    obtain ⟨r', w⟩ := p
    rw [hd] at hp
    have : r' = 34 := by simpa using hp
    subst this
    obtain ⟨rfl, b, t, hb, e⟩ := decode_lt_128 hd (by omega)
    have : b = 34 := UInt8.toNat_inj.1 (by simpa using e)
    simp [hc, hb, this]

/-- What is known of the state of an error. -/
def ErrState (s : LS) (x : Token × Option LS) : Prop :=
  x.2 = none → x.1.kind = .err → ∃ b, Adv s b ∧ x = b.errorf ∧ (10 ∈ b.cur → b.cur.head? = some 34)

theorem ErrState.emit (s b : LS) (k : Kind) : ErrState s (b.emit k) := fun h => by cases h

theorem ErrState.two {s b : LS} {c : Nat} {k : Kind} {o : Token × Option LS} (h : ErrState s o) : ErrState s (b.two c k o) := by
  unfold LS.two
  split
  · exact .emit _ _ _
  · exact h

theorem errState {u : Uni} (hu : u.Ok) {s : LS} (hc : s.cur = []) : ErrState s (lexOne u s) := by
  have hl : isAlphabetic u 10 = false := by
    have := hu.letter 10 (by decide); simp [isAlphabetic] at *; exact this
  have hd : isNumeric u 10 = false := by
    have := hu.digit 10 (by decide); simp [isNumeric] at *; exact this
  cases hp : s.peek with
  | none =>
    unfold lexOne
    simp only [hp]
    intro _ hk
    cases hk
  | some r =>
    unfold lexOne
    simp only [hp]
    have hn : r ≠ 10 → 10 ∉ s.next.cur := fun h => next_newline hp h (by simp [hc])
    repeat' with_reducible refine ite_intro (P := ErrState s) (fun hr => ?_) (fun hno => ?_)
    all_goals first
      | exact .emit _ _ _
      | exact .two (.emit _ _ _)
      | exact .two (.two (.emit _ _ _))
      | skip
    · subst hr
      have hh := next_head hp hc
      unfold lexString
      have hA := Adv.scanString s.next
      have key : ∀ b, Adv s.next b → b.cur.head? = some 34 := by
        rintro b ⟨d, -, h2, -⟩
        rw [h2, hh]; rfl
      split
      · next s' e =>
        rw [e] at hA
        exact fun _ _ => ⟨s', (Adv.next s).trans hA, rfl, fun _ => key _ hA⟩
      · next s' e =>
        rw [e] at hA
        split
        · exact .emit _ _ _
        · exact fun _ _ => ⟨s'.next, (Adv.next s).trans (hA.trans (Adv.next _)), rfl, fun _ => key _ (hA.trans (Adv.next _))⟩
    · subst hr
      unfold lexHexOrDecInteger
      split
      · next hx =>
        have h2 : 10 ∉ s.next.next.cur := next_newline hx (by decide) (hn (by decide))
        split
        · split
          · exact .emit _ _ _
          · exact fun _ _ => ⟨s.next.next, (Adv.next s).trans (Adv.next _), rfl, fun h => absurd h h2⟩
        · exact fun _ _ => ⟨s.next.next, (Adv.next s).trans (Adv.next _), rfl, fun h => absurd h h2⟩
      · exact .emit _ _ _
    · unfold lexIdentifier
      have hr10 : r ≠ 10 := by rintro rfl; rw [hl] at hr; cases hr
      simp only
      split
      · exact .emit _ _ _
      · refine fun _ _ => ⟨_, (Adv.next s).trans (Adv.scan _ _), rfl, fun h => absurd h (scan_newline ?_ _ (hn hr10))⟩
        simp [isAlphaNumeric, hl, hd]
    · have hr10 : r ≠ 10 := by rintro rfl; exact hno (by decide)
      exact fun _ _ => ⟨s.next, Adv.next s, rfl, fun h => absurd h (hn hr10)⟩

theorem lexAll_first {u : Uni} (s : LS) : ∃ l, lexAll u s = (lexOne u s).1 :: l ∧ ((lexOne u s).2 = none → l = []) := by
  rw [lexAll]
  split
  · next h => rw [h]; exact ⟨_, rfl, fun _ => rfl⟩
  · next h => rw [h]; exact ⟨_, rfl, fun h => by cases h⟩

/-- Where errors are reported. -/
theorem error_place {u : Uni} (hu : u.Ok) (s : LS) (hc : s.cur = []) (a : List Token) (t : Token) (h : lexAll u s = a ++ [t]) (hk : t.kind = .err) :
    ∃ d, text a ++ d <+: s.rest ∧ t.line = lineNumber (s.pre ++ text a) ∧ t.pos = linePos (s.pre ++ text a ++ d) ∧ (10 ∈ d → d.head? = some 34) := by
  revert a t
  refine lexAll_induct (u := u) ?_ ?_ ?_ s hc
  · intro s hc hr hl a t h hk
    rw [hl] at h
    cases a with
    | cons x a => simp at h
    | nil =>
      simp at h
      subst h
      cases hk
  · intro s b hc ha hl a t h hk
    rw [hl] at h
    cases a with
    | cons x a => simp at h
    | nil =>
      simp at h
      obtain ⟨l, e, -⟩ := lexAll_first (u := u) s
      rw [hl] at e
      injection e with e _
      have hnone : (lexOne u s).2 = none := by
        rcases hx : lexOne u s with ⟨t', o⟩
        cases o with
        | none => rfl
        | some s' =>
          have := lexAll_step hx
          rw [hl] at this
          injection this with _ this
          obtain ⟨l, e, -⟩ := lexAll_first (u := u) s'
          rw [e] at this
          cases this
      obtain ⟨b', ⟨d, h1, h2, h3⟩, hx, h4⟩ := errState hu hc hnone (by rw [← e]; rfl)
      rw [hx] at e
      rw [h2, hc, List.nil_append] at h4
      refine ⟨d, ?_, ?_, ?_, h4⟩
      · rw [h3]; simp [text]
      · rw [← h, e]; simp [LS.errorf, h1, text]
      · rw [← h, e]; simp [LS.errorf, h1, h2, hc, text]
  · intro s t s' hc hl hc' hpre hrest hlex hne _ _ _ ih a x h hk
    rw [hl] at h
    cases a with
    | nil =>
      simp at h
      rw [← h.1] at hk
      exact absurd hk (lexeme_kind hlex).2
    | cons y a =>
      simp only [List.cons_append, List.cons.injEq] at h
      obtain ⟨rfl, h⟩ := h
      obtain ⟨d, g1, g2, g3, g4⟩ := ih a x h hk
      have e : text (t :: a) = t.val ++ text a := rfl
      refine ⟨d, ?_, ?_, ?_, g4⟩
      · rw [e, hrest, List.append_assoc]; exact (List.prefix_append_right_inj _).2 g1
      · rw [g2, e, hpre, List.append_assoc]
      · rw [g3, e, hpre, List.append_assoc, List.append_assoc, List.append_assoc, List.append_assoc]

/-- The line is that of the beginning of the token, the column that of a place in it. -/
theorem C98_place (u : Uni) (hu : u.Ok) (input : Bytes) (a : List Token) (t : Token) (h : lex u input = a ++ [t]) (hk : t.kind = .err) :
    ∃ d, a.flatMap Token.val ++ d <+: input ∧ t.line = 1 + (a.flatMap Token.val).count 10 ∧
      t.pos = column0 (a.flatMap Token.val ++ d) + (if 10 ∈ a.flatMap Token.val ++ d then 1 else 0) ∧ (10 ∈ d → d.head? = some 34) := by
  obtain ⟨d, h1, h2, h3, h4⟩ := error_place hu ⟨[], [], input⟩ rfl a t h hk
  refine ⟨d, h1, by simpa [lineNumber, text] using h2, ?_, h4⟩
  rw [h3, linePos_eq]
  rfl

/-- Errors that are not about a string literal, and those about one on the last line, are reported at a place of the source.  Missing: string
literals with a line feed behind their beginning; `C98_place` has their line and column. -/
theorem C98_partial (u : Uni) (hu : u.Ok) (input : Bytes) (a : List Token) (t : Token) (h : lex u input = a ++ [t]) (hk : t.kind = .err)
    (hs : a.flatMap Token.val ++ [34] <+: input → 10 ∉ input.drop (a.flatMap Token.val).length) : ∃ d, PlacedAt input (a.flatMap Token.val ++ d) t := by
  obtain ⟨d, h1, h2, h3, h4⟩ := C98_place u hu input a t h hk
  have hd : 10 ∉ d := by
    intro hm
    have := h4 hm
    cases d with
    | nil => cases hm
    | cons b d =>
      have e : b = 34 := by simpa using this
      subst e
      refine hs (List.IsPrefix.trans ⟨d, by simp⟩ h1) ?_
      obtain ⟨r, rfl⟩ := h1
      rw [List.append_assoc, List.drop_left]
      exact List.mem_append_left _ hm
  have hcount : (a.flatMap Token.val ++ d).count 10 = (a.flatMap Token.val).count 10 := by
    rw [List.count_append, List.count_eq_zero.2 hd]; rfl
  refine ⟨d, h1, by rw [h2, hcount], ?_⟩
  rw [h3, h2]
  by_cases hm : 10 ∈ a.flatMap Token.val
  · have := List.count_pos_iff.2 hm
    rw [if_pos (by simp [hm]), if_neg (by omega)]
  · have := List.count_eq_zero.2 hm
    rw [if_neg (by simp [hm, hd]), if_pos (by omega)]

/-- The source `$` is such a case. -/
example (u : Uni) (hu : u.Ok) : ∃ t, lex u [36] = [] ++ [t] ∧ t.kind = .err ∧ PlacedAt [36] [36] t ∧ ¬ (([] : List Token).flatMap Token.val ++ [34] <+: [36]) := by
  have hn : u.isLetter 36 = false := by
    cases e : u.isLetter 36
    · rfl
    · have := (hu.letter 36 (by decide)).1 e; omega
  have e : lexOne u ⟨[], [], [36]⟩ = LS.errorf ⟨[], [36], []⟩ := by
    unfold lexOne
    have hp : (LS.mk [] [] [36]).peek = some 36 := rfl
    simp only [hp]
    simp [isAlphabetic, hn, isEndOfLine]
    rfl
  refine ⟨_, lexAll_stop e, rfl, ⟨List.prefix_rfl, rfl, by decide +kernel⟩, ?_⟩
  decide

/-- An unclosed literal on the last line is another. -/
example (u : Uni) : ∃ t, lex u [34, 97] = [] ++ [t] ∧ t.kind = .err ∧ 10 ∉ ([34, 97] : Bytes).drop (([] : List Token).flatMap Token.val).length := by
  have e : lexOne u ⟨[], [], [34, 97]⟩ = lexString ⟨[], [34], [97]⟩ := rfl
  have e' : lexString ⟨[], [34], [97]⟩ = (⟨.err, [], 2, 1⟩, none) := by decide +kernel
  exact ⟨_, lexAll_stop (e.trans e'), rfl, by decide⟩

/-- The source `"⏎abc` without an end of the literal. -/
def openString : Bytes := [34, 10, 97, 98, 99]

theorem openString_lex (u : Uni) : lex u openString = [⟨.err, [], 4, 1⟩] := by
  have e : lexOne u ⟨[], [], openString⟩ = lexString ⟨[], [34], [10, 97, 98, 99]⟩ := rfl
  have e' : lexString ⟨[], [34], [10, 97, 98, 99]⟩ = (⟨.err, [], 4, 1⟩, none) := by decide +kernel
  exact lexAll_stop (e.trans e')

theorem C98_violated (u : Uni) : ¬ C98_claim u := by
  intro h
  obtain ⟨d, h1, h2, h3⟩ := h openString [] _ (openString_lex u) rfl
  have hd : d = openString.take d.length := List.prefix_iff_eq_take.1 h1
  have hn : d.length < 6 := by have := List.IsPrefix.length_le h1; simpa [openString] using Nat.lt_succ_of_le this
  have key : ∀ n < 6, ¬ (1 = 1 + (openString.take n).count 10 ∧ 4 = column0 (openString.take n) + 0) := by decide +kernel
  refine key d.length hn ?_
  rw [← hd]
  exact ⟨h2, h3⟩

end Clara.Props
