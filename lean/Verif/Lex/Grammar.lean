import Verif.Lex.Spec
/-
The lexer delivers only tokens of the lexical grammar, each of maximal length.
-/
namespace Clara.Lex
open Spec

/-- All runes of `bs` are ASCII and `bs` is exactly those bytes. -/
theorem bytes_of_runes {bs : Bytes} (h : ∀ r ∈ runes bs, r < 128) :
    bs = (runes bs).map Nat.toUInt8 := by
  fun_induction runes bs with
  | case1 bs hd => cases bs <;> simp_all [decode]
  | case2 bs r w hd _ ih =>
    obtain ⟨rfl, b, t, rfl, hb⟩ := decode_lt_128 hd (h r (by simp))
    simp only [List.drop_one, List.tail_cons, List.map_cons] at *
    rw [← ih (fun r hr => h r (by simp [hr])), ← hb]
    simp

theorem runes_ascii_map {l : List Nat} (h : ∀ r ∈ l, r < 128) : runes (l.map Nat.toUInt8) = l := by
  induction l with
  | nil => exact runes_nil
  | cons a t ih =>
    have ha : (Nat.toUInt8 a).toNat = a := by
      have := h a (by simp)
      simp only [Nat.toUInt8, UInt8.toNat_ofNat']
      omega
    have hd : decode (Nat.toUInt8 a :: t.map Nat.toUInt8) = some (a, 1) := by
      have := decode_byte (b := Nat.toUInt8 a) (t := t.map Nat.toUInt8) (by rw [ha]; exact h a (by simp))
      rwa [ha] at this
    rw [List.map_cons, runes_of_decode hd]
    simp [ih (fun r hr => h r (by simp [hr]))]

theorem ascii_eq (s : String) : ascii s = (chars s).map Nat.toUInt8 := by
  simp [ascii, chars, Function.comp_def]

theorem runes_ascii {s : String} (h : ∀ r ∈ chars s, r < 128) : runes (ascii s) = chars s := by
  rw [ascii_eq]; exact runes_ascii_map h

theorem key_eq : key = reserved.map (fun w => (ascii w.1, w.2)) := by
  rfl

theorem reserved_ascii : ∀ w ∈ reserved, ∀ r ∈ chars w.1, r < 128 := by decide

theorem reserved_kinds : ∀ w ∈ reserved, w.2 ∈ reserved.map Prod.snd := by decide

/-- Outcome of one step: a maximal token of the grammar, or an error. -/
def Outcome (u : Uni) (s : LS) (x : Token × Option LS) : Prop :=
  (∃ b k rs, AdvR s rs b ∧ x = b.emit k ∧ LexR u k rs ∧
      ∀ r, b.peek = some r → ¬ Extends u k rs r) ∨
  (∃ b, Adv s b ∧ x = b.errorf)

theorem Outcome.err {u s b} (h : Adv s b) : Outcome u s b.errorf := .inr ⟨b, h, rfl⟩

theorem lexR_sym {u : Uni} {k : Kind} {w : String} (hw : (w, k) ∈ symbols) : LexR u k (chars w) := by
  have h : ∃ w' ∈ reserved ++ symbols, w'.2 = k ∧ chars w = chars w'.1 :=
    ⟨(w, k), List.mem_append_right _ hw, rfl, rfl⟩
  have hk : k ∈ symbols.map Prod.snd := List.mem_map.2 ⟨_, hw, rfl⟩
  clear hw
  cases k <;> first | exact h | (exfalso; revert hk; decide)

theorem lexR_reserved {u : Uni} {k : Kind} {w : String} (hw : (w, k) ∈ reserved) :
    LexR u k (chars w) := by
  have h : ∃ w' ∈ reserved ++ symbols, w'.2 = k ∧ chars w = chars w'.1 :=
    ⟨(w, k), List.mem_append_left _ hw, rfl, rfl⟩
  have hk : k ∈ reserved.map Prod.snd := List.mem_map.2 ⟨_, hw, rfl⟩
  clear hw
  cases k <;> first | exact h | (exfalso; revert hk; decide)

theorem extends_reserved {u : Uni} {k : Kind} {rs : List Nat} {r : Nat}
    (hk : k ∈ reserved.map Prod.snd) : Extends u k rs r ↔ Letter u r ∨ Digit u r := by
  cases k <;> first
    | (exfalso; revert hk; decide)
    | simp [Extends, reserved]

/-- Fixed spellings. -/
theorem Outcome.sym {u : Uni} {s b : LS} {k : Kind} {rs : List Nat} (w : String)
    (h : AdvR s rs b) (hw : (w, k) ∈ symbols) (hr : rs = chars w)
    (hx : ∀ r, b.peek = some r → ¬ Extends u k rs r) : Outcome u s (b.emit k) :=
  .inl ⟨b, k, rs, h, rfl, hr ▸ lexR_sym hw, hx⟩

theorem two_spec {u : Uni} {s b : LS} {c : Nat} {k : Kind} {o : Token × Option LS} {rs : List Nat}
    (w : String) (h : AdvR s rs b) (hw : (w, k) ∈ symbols) (hr : rs ++ [c] = chars w)
    (hx : ∀ r, ¬ Extends u k (rs ++ [c]) r)
    (ho : b.peek ≠ some c → Outcome u s o) : Outcome u s (b.two c k o) := by
  unfold LS.two
  split
  · next hp => exact .sym w (h.trans (.next hp)) hw hr (fun r _ => hx r)
  · next hp => exact ho hp

theorem hex_iff (u : Uni) (r : Nat) : isHexadecimal u r = true ↔ HexDigit u r := by
  have : chars "abcdefABCDEF" = [97, 98, 99, 100, 101, 102, 65, 66, 67, 68, 69, 70] := by decide
  simp [isHexadecimal, HexDigit, isNumeric, Digit, this, or_assoc]

theorem alnum_iff (u : Uni) (r : Nat) : isAlphaNumeric u r = true ↔ Letter u r ∨ Digit u r := by
  simp [isAlphaNumeric, isAlphabetic, isNumeric, Letter, Digit]

theorem chars_slashes : chars "//" = [47, 47] := by decide
theorem chars_0x : chars "0x" = [48, 120] := by decide

theorem Outcome.space {u : Uni} {s b : LS} (h : AdvR s [32] b) : Outcome u s (lexSpace b) := by
  obtain ⟨rs, h1, h2, h3⟩ := scan_spec (· == 32) b
  refine .inl ⟨_, _, _, h.trans h1, rfl, ⟨by simp, ?_⟩, ?_⟩
  · simpa using h2
  · intro r hr; simpa [Extends] using h3 r hr

theorem Outcome.comment {u : Uni} {s b : LS} (h : AdvR s [47, 47] b) :
    Outcome u s (lexComment b) := by
  obtain ⟨rs, h1, h2, h3⟩ := scan_spec (fun r => !isEndOfLine r) b
  refine .inl ⟨_, _, _, h.trans h1, rfl, ⟨rs, by rw [chars_slashes], ?_⟩, ?_⟩
  · intro r hr
    have := h2 r hr
    simp [isEndOfLine] at this
    exact ⟨this.2, this.1⟩
  · intro r hr
    have := h3 r hr
    simp [isEndOfLine] at this
    simp only [Extends]
    omega

theorem Outcome.string {u : Uni} {s b : LS} (h : AdvR s [34] b) : Outcome u s (lexString b) := by
  unfold lexString
  split
  · next s' hs =>
    have := Adv.scanString b
    rw [hs] at this
    exact .err (h.adv.trans this)
  · next s' hs =>
    obtain ⟨rs, h1, h2, h3⟩ := scanString_spec b (by rw [hs])
    rw [hs] at h1 h3
    split
    · next hp =>
      refine .inl ⟨_, _, _, (h.trans h1).trans (.next hp), rfl, ⟨rs, rfl, h2⟩, ?_⟩
      intro r _
      simp [Extends, reserved]
    · exact .err ((h.adv.trans h1.adv).trans (.next _))

theorem AdvR.peek {s s' : LS} {x : Nat} {rs : List Nat} (h : AdvR s (x :: rs) s') :
    s.peek = some x := by
  cases h.steps with
  | cons hd _ => simp [LS.peek, hd]

theorem Steps.nil_eq {a b : Bytes} (h : Steps a [] b) : a = b := by
  cases h
  rfl

theorem Outcome.dec {u : Uni} {s b : LS} {d : Nat} (h : AdvR s [d] b) (h1 : '0'.toNat ≤ d)
    (h2 : d ≤ '9'.toNat) (hx : d = '0'.toNat → b.peek ≠ some 'x'.toNat) :
    Outcome u s (lexInteger (isNumeric u) b) := by
  obtain ⟨rs, g1, g2, g3⟩ := scan_spec (isNumeric u) b
  refine .inl ⟨_, _, _, h.trans g1, rfl, .inl ⟨d, rs, rfl, h1, h2, g2⟩, ?_⟩
  intro r hr
  have hn : ([d] ++ rs).take 2 ≠ chars "0x" := by
    rw [chars_0x]
    intro hc
    match rs, g1, hc with
    | x :: rs', g1, hc =>
      simp at hc
      obtain ⟨rfl, rfl⟩ := hc
      exact hx rfl (g1.peek)
  simp only [Extends, hn, if_false]
  simpa [Digit, isNumeric] using g3 r hr

theorem Outcome.hexOrDec {u : Uni} {s b : LS} (h : AdvR s [48] b) :
    Outcome u s (lexHexOrDecInteger u b) := by
  unfold lexHexOrDecInteger
  split
  · next hp =>
    have h' := h.trans (.next hp)
    split
    · next r hr =>
      split
      · next hh =>
        obtain ⟨rs, g1, g2, g3⟩ := scan_spec (isHexadecimal u) b.next
        refine .inl ⟨_, _, _, h'.trans g1, rfl, .inr ⟨rs, rfl, ?_, ?_⟩, ?_⟩
        · rintro rfl
          have e : (b.next.scan (isHexadecimal u)).peek = some r := by
            have := g1.steps.nil_eq
            unfold LS.peek at hr ⊢
            rw [← this]
            exact hr
          have := g3 r e
          simp [hh] at this
        · intro x hx; exact (hex_iff u x).1 (g2 x hx)
        · intro r hr
          have : ([48] ++ ['x'.toNat] ++ rs).take 2 = chars "0x" := by rw [chars_0x]; simp
          simp only [Extends, this, if_true]
          rw [← hex_iff, g3 r hr]; simp
      · exact .err h'.adv
    · exact .err h'.adv
  · next hp => exact .dec h (by decide) (by decide) (fun _ => hp)

theorem Outcome.ident {u : Uni} {s b : LS} {a : Nat} (hc : s.cur = []) (h : AdvR s [a] b)
    (ha : isAlphabetic u a = true) : Outcome u s (lexIdentifier u b) := by
  unfold lexIdentifier
  obtain ⟨rs, g1, g2, g3⟩ := scan_spec (isAlphaNumeric u) b
  have hA := h.trans g1
  have hr := hA.runes hc
  have hmax : ∀ r, (b.scan (isAlphaNumeric u)).peek = some r → ¬ (Letter u r ∨ Digit u r) := by
    intro r hr
    rw [← alnum_iff, g3 r hr]; simp
  dsimp only
  split
  · unfold wordKind
    cases hl : key.lookup (b.scan (isAlphaNumeric u)).cur with
    | none =>
      refine .inl ⟨_, _, _, hA, rfl, ⟨⟨a, rs, rfl, ?_, ?_⟩, ?_⟩, ?_⟩
      · simpa [Letter, isAlphabetic] using ha
      · intro x hx; exact (alnum_iff u x).1 (g2 x hx)
      · intro w hw he
        rw [← hr] at he
        have hb : (b.scan (isAlphaNumeric u)).cur = ascii w.1 := by
          rw [bytes_of_runes (bs := (b.scan (isAlphaNumeric u)).cur), he, ascii_eq]
          rw [he]; exact reserved_ascii w hw
        rw [hb, List.lookup_eq_none_iff] at hl
        have := hl (ascii w.1, w.2) (by rw [key_eq]; exact List.mem_map.2 ⟨w, hw, rfl⟩)
        simp at this
      · exact hmax
    | some k =>
      have hm := key_lookup_mem hl
      rw [key_eq] at hm
      obtain ⟨w, hw, he⟩ := List.mem_map.1 hm
      simp only [Prod.mk.injEq] at he
      obtain ⟨e1, rfl⟩ := he
      have hrs : [a] ++ rs = chars w.1 := by
        rw [← hr, ← e1, runes_ascii (reserved_ascii w hw)]
      refine .inl ⟨_, _, _, hA, rfl, ?_, ?_⟩
      · rw [hrs]; exact lexR_reserved hw
      · intro r hr'
        simp only [Option.getD_some]
        rw [extends_reserved (reserved_kinds w hw)]
        exact hmax r hr'
  · exact .err hA.adv

/-- One step of the lexer on non-empty input. -/
theorem lexOne_outcome {u : Uni} {s : LS} {r : Nat} (hc : s.cur = []) (hp : s.peek = some r) :
    Outcome u s (lexOne u s) := by
  have h := AdvR.next hp
  have hsym : ∀ k w, (w, k) ∈ symbols → (∀ r', ¬ Extends u k (chars w) r') → [r] = chars w →
      Outcome u s (s.next.emit k) := by
    intro k w hw hx hr
    exact .sym w h hw hr (fun r' _ => hr ▸ hx r')
  unfold lexOne
  simp only [hp]
  repeat' with_reducible refine ite_intro (P := Outcome u s) (fun hr => ?_) (fun hno => ?_)
  all_goals try subst hr
  · exact .space h
  · exact hsym .lparen "(" (by decide) (by intro r'; simp [Extends, reserved]) (by decide)
  · exact hsym .rparen ")" (by decide) (by intro r'; simp [Extends, reserved]) (by decide)
  · exact hsym .lbrace "{" (by decide) (by intro r'; simp [Extends, reserved]) (by decide)
  · exact hsym .rbrace "}" (by decide) (by intro r'; simp [Extends, reserved]) (by decide)
  · exact hsym .lbrack "[" (by decide) (by intro r'; simp [Extends, reserved]) (by decide)
  · exact hsym .rbrack "]" (by decide) (by intro r'; simp [Extends, reserved]) (by decide)
  · exact hsym .lgmet "«" (by decide) (by intro r'; simp [Extends, reserved]) (by decide)
  · exact hsym .rgmet "»" (by decide) (by intro r'; simp [Extends, reserved]) (by decide)
  · exact hsym .hash "#" (by decide) (by intro r'; simp [Extends, reserved]) (by decide)
  · exact hsym .question "?" (by decide) (by intro r'; simp [Extends, reserved]) (by decide)
  · exact hsym .comma "," (by decide) (by intro r'; simp [Extends, reserved]) (by decide)
  · refine two_spec ":=" h (by decide) (by decide) (by intro r'; simp [Extends, reserved]) (fun hn => ?_)
    refine .sym ":" h (by decide) (by decide) (fun r' hr' hx => ?_)
    simp only [Extends] at hx
    rw [hx] at hr'
    exact hn hr'
  · exact hsym .plus "+" (by decide) (by intro r'; simp [Extends, reserved]) (by decide)
  · exact hsym .min "-" (by decide) (by intro r'; simp [Extends, reserved]) (by decide)
  · exact hsym .mul "*" (by decide) (by intro r'; simp [Extends, reserved]) (by decide)
  · exact hsym .bnot "~" (by decide) (by intro r'; simp [Extends, reserved]) (by decide)
  · exact hsym .bxor "^" (by decide) (by intro r'; simp [Extends, reserved]) (by decide)
  · exact hsym .bor "|" (by decide) (by intro r'; simp [Extends, reserved]) (by decide)
  · exact hsym .band "&" (by decide) (by intro r'; simp [Extends, reserved]) (by decide)
  · refine two_spec ">>" h (by decide) (by decide) (by intro r'; simp [Extends, reserved]) (fun hn => ?_)
    refine two_spec ">=" h (by decide) (by decide) (by intro r'; simp [Extends, reserved]) (fun hn2 => ?_)
    refine .sym ">" h (by decide) (by decide) (fun r' hr' hx => ?_)
    simp only [Extends] at hx
    rcases hx with hx | hx
    · rw [hx] at hr'; exact hn hr'
    · rw [hx] at hr'; exact hn2 hr'
  · refine two_spec "<<" h (by decide) (by decide) (by intro r'; simp [Extends, reserved]) (fun hn => ?_)
    refine two_spec "<=" h (by decide) (by decide) (by intro r'; simp [Extends, reserved]) (fun hn2 => ?_)
    refine .sym "<" h (by decide) (by decide) (fun r' hr' hx => ?_)
    simp only [Extends] at hx
    rcases hx with hx | hx
    · rw [hx] at hr'; exact hn hr'
    · rw [hx] at hr'; exact hn2 hr'
  · refine two_spec ".." h (by decide) (by decide) (by intro r'; simp [Extends, reserved]) (fun hn => ?_)
    refine .sym "." h (by decide) (by decide) (fun r' hr' hx => ?_)
    simp only [Extends] at hx
    rw [hx] at hr'
    exact hn hr'
  · exact .string h
  · refine two_spec "==" h (by decide) (by decide) (by intro r'; simp [Extends, reserved]) (fun hn => ?_)
    refine .sym "=" h (by decide) (by decide) (fun r' hr' hx => ?_)
    simp only [Extends] at hx
    rw [hx] at hr'
    exact hn hr'
  · have e : r = '/'.toNat := by assumption
    subst e
    exact .comment (h.trans (.next (by assumption)))
  · refine .sym "/" h (by decide) (by decide) (fun r' hr' hx => ?_)
    simp only [Extends] at hx
    rw [hx] at hr'
    exact absurd hr' (by assumption)
  · exact .hexOrDec h
  · exact .dec h (by have := hr.1; simp at this ⊢; omega) hr.2 (fun e => absurd e (by assumption))
  · exact .ident hc h hr
  · refine .inl ⟨_, _, _, h, rfl, ?_, fun r' _ => by simp [Extends, reserved]⟩
    simpa [LexR, isEndOfLine] using hr
  · exact .err h.adv

end Clara.Lex
