import Verif.Lex.Print
import Verif.Lex.Run
/-
Exactly which texts the lexer rejects.
-/
namespace Clara.Lex
open Spec

/-- `Rejected u rs`: no token can be taken from the front of the text `rs`.  Independent of the
lexer's control flow. -/
inductive Rejected (u : Uni) : List Nat → Prop
  /-- a rune that begins no token -/
  | other {r : Nat} {tl : List Nat} : r ∉ chars " (){}[]«»#?,:+-*~^|&><.\"=/\r\n" →
      ¬ ('0'.toNat ≤ r ∧ r ≤ '9'.toNat) → ¬ Letter u r → Rejected u (r :: tl)
  /-- a word directly followed by something that may not follow a word -/
  | word {a r : Nat} {as tl : List Nat} : Letter u a → (∀ x ∈ as, Letter u x ∨ Digit u x) →
      ¬ (Letter u r ∨ Digit u r) → r ∉ chars " ():,.+-*/<>[]«»\r\n" →
      Rejected u (a :: (as ++ r :: tl))
  /-- `0x` without digits -/
  | hex {tl : List Nat} : (∀ r, tl.head? = some r → ¬ HexDigit u r) →
      Rejected u ('0'.toNat :: 'x'.toNat :: tl)
  /-- an unterminated string, or one with an unknown escape -/
  | str {tl : List Nat} : (∀ body, StrBody body → ¬ (body ++ ['"'.toNat]) <+: tl) →
      Rejected u ('"'.toNat :: tl)

theorem runes_peek {s : LS} {r : Nat} (h : s.peek = some r) :
    runes s.rest = r :: runes s.next.rest := by
  unfold LS.peek at h
  unfold LS.next
  cases hd : decode s.rest with
  | none => simp [hd] at h
  | some p =>
    obtain ⟨r', w⟩ := p
    rw [hd] at h
    simp at h
    subst h
    rw [runes_of_decode hd]

theorem runes_peek_none {s : LS} (h : s.peek = none) : runes s.rest = [] := by
  rw [peek_none.1 h, runes_nil]

theorem peek_eq_head (s : LS) : s.peek = (runes s.rest).head? := by
  cases h : s.peek with
  | none => rw [runes_peek_none h]; rfl
  | some r => rw [runes_peek h]; rfl

theorem Steps.runes_eq {a b : Bytes} {rs : List Nat} (h : Steps a rs b) : runes a = rs ++ runes b := by
  induction h with
  | nil => rfl
  | cons hd _ ih => rw [runes_of_decode hd, ih]; rfl

theorem span_unique {p : Nat → Prop} {a b : List Nat} {x y : Nat} {c d : List Nat}
    (h : a ++ x :: c = b ++ y :: d) (ha : ∀ z ∈ a, p z) (hb : ∀ z ∈ b, p z) (hx : ¬ p x)
    (hy : ¬ p y) : x = y := by
  induction a generalizing b with
  | nil =>
    cases b with
    | nil => simp at h; exact h.1
    | cons z b => simp at h; exact absurd (h.1 ▸ hb z (by simp)) hx
  | cons z a ih =>
    cases b with
    | nil => simp at h; exact absurd (h.1 ▸ ha z (by simp)) hy
    | cons w b =>
      simp at h
      exact ih h.2 (fun z hz => ha z (by simp [hz])) (fun z hz => hb z (by simp [hz]))

theorem span_nil {p : Nat → Prop} {a b : List Nat} {x : Nat} {c : List Nat}
    (h : a ++ x :: c = b) (hb : ∀ z ∈ b, p z) : p x := by
  subst h; exact hb x (by simp)

theorem chars_stops : chars " ():,.+-*/<>[]«»\r\n" =
    [32, 40, 41, 58, 44, 46, 43, 45, 42, 47, 60, 62, 91, 93, 0xAB, 0xBB, 13, 10] := by decide

theorem chars_starts : chars " (){}[]«»#?,:+-*~^|&><.\"=/\r\n" =
    [32, 40, 41, 123, 125, 91, 93, 0xAB, 0xBB, 35, 63, 44, 58, 43, 45, 42, 126, 94, 124, 38, 62, 60,
     46, 34, 61, 47, 13, 10] := by decide

theorem atTerminator_some (r : Nat) :
    atTerminator (some r) = true ↔ r ∈ chars " ():,.+-*/<>[]«»\r\n" := by
  rw [chars_stops]
  simp [atTerminator, or_assoc]
  grind

theorem letter_not_start {u : Uni} (hu : u.Ok) {r : Nat} (h : Letter u r) :
    r ∉ chars " (){}[]«»#?,:+-*~^|&><.\"=/\r\n" ∧ ¬ (48 ≤ r ∧ r ≤ 57) := by
  have := letter_cases hu h
  rw [chars_starts]
  simp
  omega

theorem rejected_word {u : Uni} (hu : u.Ok) {s : LS} {a : Nat} (ha : Letter u a)
    (hp : s.peek = some a) :
    (lexIdentifier u s.next).1.kind = .err ↔ Rejected u (runes s.rest) := by
  obtain ⟨rs, h1, h2, h3⟩ := scan_spec (isAlphaNumeric u) s.next
  have hL := letter_cases hu ha
  have e := h1.steps.runes_eq
  have h2' : ∀ r ∈ rs, Letter u r ∨ Digit u r := fun r hr => (alnum_iff u r).1 (h2 r hr)
  rw [runes_peek hp]
  unfold lexIdentifier
  generalize LS.scan (isAlphaNumeric u) s.next = s' at *
  simp only
  cases hp' : s'.peek with
  | none =>
    have hk : wordKind s'.cur ≠ .err := by
      unfold wordKind
      cases hl : key.lookup s'.cur with
      | none => simp
      | some k =>
        have hm := key_lookup_mem hl
        simp only [Option.getD]
        rintro rfl
        revert hm
        have : ∀ x ∈ key, x.2 ≠ .err := by decide
        intro hm
        exact this _ hm rfl
    simp only [atTerminator, if_true, LS.emit]
    refine ⟨fun h => absurd h hk, ?_⟩
    rw [runes_peek_none hp', List.append_nil] at e
    intro hr
    exfalso
    generalize hg : a :: runes s.next.rest = g at hr
    cases hr with
    | other _ _ h => cases hg; exact h ha
    | word _ _ hr2 hr3 =>
      injection hg with _ hg
      rw [e] at hg
      exact hr2 (span_nil (p := fun r => Letter u r ∨ Digit u r) hg.symm h2')
    | hex _ => injection hg with hg _; subst hg; simp at hL
    | str _ => cases hg; simp at hL
  | some r =>
    have hn := h3 r hp'
    have hn' : ¬ (Letter u r ∨ Digit u r) := fun h => by
      rw [(alnum_iff u r).2 h] at hn; exact absurd hn (by decide)
    rw [runes_peek hp'] at e
    have hk : wordKind s'.cur ≠ .err := by
      unfold wordKind
      cases hl : key.lookup s'.cur with
      | none => simp
      | some k =>
        have hm := key_lookup_mem hl
        simp only [Option.getD]
        rintro rfl
        revert hm
        have : ∀ x ∈ key, x.2 ≠ .err := by decide
        intro hm
        exact this _ hm rfl
    by_cases ht : atTerminator (some r) = true
    · simp only [ht, if_true, LS.emit]
      refine ⟨fun h => absurd h hk, ?_⟩
      rw [atTerminator_some] at ht
      intro hr
      exfalso
      generalize hg : a :: runes s.next.rest = g at hr
      cases hr with
      | other _ _ h => cases hg; exact h ha
      | word _ has hr2 hr3 =>
        injection hg with _ hg
        rw [e] at hg
        rw [span_unique (p := fun r => Letter u r ∨ Digit u r) hg h2' has hn' hr2] at ht
        exact hr3 ht
      | hex _ => injection hg with hg _; subst hg; simp at hL
      | str _ => cases hg; simp at hL
    · have hb : atTerminator (some r) = false := by simpa using ht
      simp only [hb, Bool.false_eq_true, if_false, LS.errorf, true_iff]
      rw [e]
      exact .word ha h2' hn' (fun h => ht ((atTerminator_some r).2 h))

theorem rejected_hex {u : Uni} (hu : u.Ok) {s : LS} (hp : s.peek = some 48) :
    (lexHexOrDecInteger u s.next).1.kind = .err ↔ Rejected u (runes s.rest) := by
  have hr48 : ∀ tl, Rejected u (48 :: tl) ↔
      ∃ t, tl = 120 :: t ∧ ∀ r, t.head? = some r → ¬ HexDigit u r := by
    intro tl
    constructor
    · intro h
      generalize hg : 48 :: tl = g at h
      cases h with
      | other _ h _ => cases hg; simp at h
      | word h => cases hg; have := letter_cases hu h; simp at this
      | hex h => cases hg; exact ⟨_, rfl, h⟩
      | str h => simp at hg
    · rintro ⟨t, rfl, h⟩
      exact .hex h
  rw [runes_peek hp, hr48]
  unfold lexHexOrDecInteger
  simp only [Char.reduceToNat]
  by_cases hx : s.next.peek = some 120
  · rw [if_pos hx, runes_peek hx]
    cases hd : s.next.next.peek with
    | none =>
      rw [runes_peek_none hd]
      simp [LS.errorf]
    | some d =>
      rw [runes_peek hd]
      by_cases hh : isHexadecimal u d = true
      · simp [hh, lexInteger, LS.emit, (hex_iff u d).1 hh]
      · have hh' : isHexadecimal u d = false := by simpa using hh
        simp [hh', LS.errorf]
        intro h; exact hh ((hex_iff u d).2 h)
  · rw [if_neg hx]
    simp only [lexInteger, LS.emit, reduceCtorEq, false_iff]
    rintro ⟨t, ht, -⟩
    rw [peek_eq_head, ht] at hx
    simp at hx

theorem steps_of_runes {bs : Bytes} {a b : List Nat} (h : runes bs = a ++ b) :
    ∃ c, Steps bs a c ∧ runes c = b := by
  induction a generalizing bs with
  | nil => exact ⟨bs, .nil _, h⟩
  | cons x a ih =>
    cases hd : decode bs with
    | none =>
      rw [runes] at h
      split at h
      · simp at h
      · simp_all
    | some p =>
      rw [runes_of_decode hd] at h
      simp at h
      obtain ⟨c, h1, h2⟩ := ih h.2
      exact ⟨c, .cons (by rw [hd, ← h.1]) h1, h2⟩

theorem rejected_str {u : Uni} (hu : u.Ok) {s : LS} (hp : s.peek = some 34) :
    (lexString s.next).1.kind = .err ↔ Rejected u (runes s.rest) := by
  have hr34 : ∀ tl, Rejected u (34 :: tl) ↔ ∀ body, StrBody body → ¬ (body ++ [34]) <+: tl := by
    intro tl
    constructor
    · intro h
      generalize hg : 34 :: tl = g at h
      cases h with
      | other h _ _ => cases hg; simp [chars_starts] at h
      | word h => cases hg; have := letter_cases hu h; simp at this
      | hex h => simp at hg
      | str h => cases hg; exact h
    · intro h
      exact .str h
  rw [runes_peek hp, hr34]
  constructor
  · rintro h body hb ⟨tl, e⟩
    rw [List.append_assoc] at e
    obtain ⟨c, h1, h2⟩ := steps_of_runes e.symm
    have hq : (LS.mk [] [] c).peek = some 34 := by rw [peek_eq_head]; simp [h2]
    obtain ⟨d, hd⟩ := h1.suffix
    have := scanString_run hb h1 hd hq
    unfold lexString at h
    rw [this] at h
    have hq' : (LS.mk s.next.pre (s.next.cur ++ d) c).peek = some 34 := hq
    simp only [hq', if_true, LS.emit] at h
    cases h
  · intro h
    unfold lexString
    split
    · rfl
    · next s' hs =>
      obtain ⟨rs, h1, h2, h3⟩ := scanString_spec s.next (by rw [hs])
      rw [hs] at h1 h3
      split
      · next hq =>
        exfalso
        refine h rs h2 ⟨runes s'.next.rest, ?_⟩
        rw [h1.steps.runes_eq, runes_peek hq]
        simp
      · rfl

theorem not_rejected {u : Uni} (hu : u.Ok) {r : Nat} {tl : List Nat}
    (h : r ∈ chars " (){}[]«»#?,:+-*~^|&><.=/\r\n" ∨ (49 ≤ r ∧ r ≤ 57)) : ¬ Rejected u (r :: tl) := by
  have hs : r ∈ chars " (){}[]«»#?,:+-*~^|&><.=/\r\n" → r ∈ chars " (){}[]«»#?,:+-*~^|&><.\"=/\r\n" ∧
      r ≠ 48 ∧ r ≠ 34 := by
    have : ∀ r ∈ chars " (){}[]«»#?,:+-*~^|&><.=/\r\n",
        r ∈ chars " (){}[]«»#?,:+-*~^|&><.\"=/\r\n" ∧ r ≠ 48 ∧ r ≠ 34 := by decide
    exact this r
  intro hr
  generalize hg : r :: tl = g at hr
  cases hr with
  | other h1 h2 _ =>
    cases hg
    rcases h with h | h
    · exact h1 (hs h).1
    · exact h2 ⟨by simp; omega, by simp; omega⟩
  | word ha =>
    cases hg
    rcases h with h | h
    · exact (letter_not_start hu ha).1 (hs h).1
    · exact (letter_not_start hu ha).2 (by omega)
  | hex _ =>
    cases hg
    rcases h with h | h
    · exact (hs h).2.1 rfl
    · simp at h
  | str _ =>
    cases hg
    rcases h with h | h
    · exact (hs h).2.2 rfl
    · simp at h

theorem lexOne_err_iff {u : Uni} (hu : u.Ok) (s : LS) :
    (lexOne u s).1.kind = .err ↔ Rejected u (runes s.rest) := by
  cases hp : s.peek with
  | none =>
    rw [lexOne_eof hp, runes_peek_none hp]
    simp only [LS.emit, reduceCtorEq, false_iff]
    intro h
    cases h
  | some r =>
    have hemit : (lexOne u s).1.kind ≠ .err →
        (r ∈ chars " (){}[]«»#?,:+-*~^|&><.=/\r\n" ∨ (49 ≤ r ∧ r ≤ 57)) →
        ((lexOne u s).1.kind = .err ↔ Rejected u (runes s.rest)) := by
      intro h1 h2
      rw [runes_peek hp]
      exact ⟨fun h => absurd h h1, fun h => absurd h (not_rejected hu h2)⟩
    by_cases hsym : r ∈ chars " (){}[]«»#?,:+-*~^|&><.=/\r\n"
    · refine hemit ?_ (.inl hsym)
      have hc : chars " (){}[]«»#?,:+-*~^|&><.=/\r\n" = [32, 40, 41, 123, 125, 91, 93, 0xAB, 0xBB,
        35, 63, 44, 58, 43, 45, 42, 126, 94, 124, 38, 62, 60, 46, 61, 47, 13, 10] := by decide
      rw [hc] at hsym
      unfold lexOne
      simp only [hp]
      simp only [List.mem_cons, List.not_mem_nil, or_false] at hsym
      have h13 : isAlphabetic u 13 = false := by
        have := (hu.letter 13 (by decide)); simp [isAlphabetic] at *; exact this
      have h10 : isAlphabetic u 10 = false := by
        have := (hu.letter 10 (by decide)); simp [isAlphabetic] at *; exact this
      rcases hsym with rfl | rfl | rfl | rfl | rfl | rfl | rfl | rfl | rfl | rfl | rfl | rfl | rfl |
        rfl | rfl | rfl | rfl | rfl | rfl | rfl | rfl | rfl | rfl | rfl | rfl | rfl | rfl
      all_goals
        simp only [Char.reduceToNat, Nat.reduceEqDiff, if_true, if_false]
      all_goals first
        | (simp [LS.emit, lexSpace]; done)
        | (simp only [LS.two]; repeat' split
           all_goals simp [LS.emit]
           done)
        | (split <;> simp [LS.emit, lexComment]; done)
        | skip
      · simp [h13, isEndOfLine, LS.emit]
      · simp [h10, isEndOfLine, LS.emit]
    · by_cases hd : 49 ≤ r ∧ r ≤ 57
      · refine hemit ?_ (.inr hd)
        rw [lexOne_digit hd.1 hd.2 hp]
        simp [lexInteger, LS.emit]
      · by_cases h48 : r = 48
        · subst h48
          rw [lexOne_zero hp]
          exact rejected_hex hu hp
        · by_cases h34 : r = 34
          · subst h34
            rw [lexOne_quote hp]
            exact rejected_str hu hp
          · by_cases hl : Letter u r
            · rw [lexOne_letter hu hl hp]
              exact rejected_word hu hl hp
            · have hne : r ∉ chars " (){}[]«»#?,:+-*~^|&><.\"=/\r\n" := by
                intro hm
                rw [chars_starts] at hm
                have hc : chars " (){}[]«»#?,:+-*~^|&><.=/\r\n" = [32, 40, 41, 123, 125, 91, 93, 0xAB,
                  0xBB, 35, 63, 44, 58, 43, 45, 42, 126, 94, 124, 38, 62, 60, 46, 61, 47, 13, 10] := by
                  decide
                rw [hc] at hsym
                simp at hm hsym
                omega
              rw [runes_peek hp]
              refine ⟨fun _ => .other hne (by simp; omega) hl, fun _ => ?_⟩
              have hal : isAlphabetic u r = false := by
                cases h : isAlphabetic u r
                · rfl
                · exact absurd (by simpa [isAlphabetic, Letter] using h) hl
              rw [chars_starts] at hne
              simp at hne
              unfold lexOne
              simp only [hp, Char.reduceToNat]
              repeat rw [if_neg (by omega)]
              rw [if_neg (by simp [hal]), if_neg (by simp [isEndOfLine]; omega)]
              rfl

/-- The last token of a run is an error exactly where the remaining text is rejected. -/
theorem lexAll_err_iff {u : Uni} (hu : u.Ok) (s : LS) (hc : s.cur = []) :
    ∀ ts last, lexAll u s = ts ++ [last] →
      (last.kind = .err ↔ ∃ rest, s.rest = text ts ++ rest ∧ Rejected u (runes rest)) := by
  refine lexAll_induct (u := u) ?_ ?_ ?_ s hc
  · intro s hc hr hl ts last h
    rw [hl] at h
    cases ts with
    | cons x ts => simp at h
    | nil =>
      simp at h
      subst h
      simp only [LS.emit, reduceCtorEq, false_iff]
      rintro ⟨rest, h1, h2⟩
      rw [hr] at h1
      simp [text] at h1
      rw [h1, runes_nil] at h2
      cases h2
  · intro s b hc ha hl ts last h
    have hk := lexOne_err_iff hu s
    have h0 : (lexOne u s).1 = b.errorf.1 := by
      have : ∃ l, lexAll u s = (lexOne u s).1 :: l := by
        rw [lexAll]
        split
        · next h => rw [h]; exact ⟨_, rfl⟩
        · next h => rw [h]; exact ⟨_, rfl⟩
      obtain ⟨l, this⟩ := this
      rw [hl] at this
      injection this with h _
      exact h.symm
    rw [h0] at hk
    rw [hl] at h
    cases ts with
    | cons x ts => simp at h
    | nil =>
      simp at h
      subst h
      have : Rejected u (runes s.rest) := hk.1 rfl
      exact ⟨fun _ => ⟨s.rest, by simp [text], this⟩, fun _ => rfl⟩
  · intro s t s' hc hl hc' hpre hrest hlex hne _ _ _ ih ts last h
    rw [hl] at h
    cases ts with
    | nil =>
      exfalso
      simp at h
      have := h.2
      obtain ⟨ts', l', h', -⟩ := lexAll_lossless (u := u) s' hc'
      rw [this] at h'
      simp at h'
    | cons x ts =>
      simp at h
      obtain ⟨rfl, h⟩ := h
      rw [ih ts last h, hrest]
      simp [text]

end Clara.Lex
