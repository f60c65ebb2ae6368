import Verif.Props.Text
import Verif.Props.Lexer
/-
C79: the literals of a source file are of the form that `C79_number` asks for.
-/
namespace Clara.Props
open Clara.Lex Clara.Lex.Spec Clara.Gas
open Clara.Gen hiding Bytes

/-- An ASCII rune is one byte. -/
theorem runes_ascii {v : Bytes} {r : Nat} {rs : List Nat} (h : runes v = r :: rs) (hr : r < 128) : ∃ b t, v = b :: t ∧ b.toNat = r ∧ runes t = rs := by
  cases hd : decode v with
  | none =>
    rw [runes] at h
    split at h
    · cases h
    · rename_i h'; rw [hd] at h'; cases h'
  | some x =>
    obtain ⟨r', w⟩ := x
    rw [runes_of_decode hd] at h
    cases h
    obtain ⟨rfl, b, t, rfl, h1⟩ := decode_lt_128 hd hr

    exact ⟨b, t, rfl, h1, rfl⟩

/-- The first byte of an integer is a digit, and the second is not the `o` of Go's octal numbers. -/
theorem integer_start {u : Uni} (hu : u.Ok) {v : Bytes} (h : Lexeme u .integer v) : ∃ b t, v = b :: t ∧ 48 ≤ b.toNat ∧ b.toNat ≤ 57 ∧
    ∀ c t', t = c :: t' → c ≠ 111 ∧ c ≠ 79 := by
  have key : ∀ {t : Bytes} {c : UInt8} {t' : Bytes}, t = c :: t' → c.toNat < 128 → ∃ rs, runes t = c.toNat :: rs := by
    rintro t c t' rfl hc
    exact ⟨_, runes_of_decode (decode_byte hc)⟩
  have hno (c : UInt8) (hc : c = 111 ∨ c = 79) : c.toNat < 128 ∧ ¬ (48 ≤ c.toNat ∧ c.toNat ≤ 57) := by
    rcases hc with rfl | rfl <;> decide
  rcases h with ⟨d, ds, h, h1, h2, h3⟩ | ⟨ds, h, -, -⟩
  · simp only [show '0'.toNat = 48 from rfl, show '9'.toNat = 57 from rfl] at h1 h2
    obtain ⟨b, t, rfl, hb, ht⟩ := runes_ascii h (by omega)
    refine ⟨b, t, rfl, by omega, by omega, fun c t' e => ?_⟩
    have : ¬ (c = 111 ∨ c = 79) := by
      intro hc
      obtain ⟨h5, h6⟩ := hno c hc
      obtain ⟨rs, hrs⟩ := key e h5
      rw [ht] at hrs
      have := h3 c.toNat (by rw [hrs]; simp)
      exact h6 ((hu.digit _ h5).1 this)
    exact not_or.1 this
  · have h' : runes v = 48 :: 120 :: ds := h
    obtain ⟨b, t, rfl, hb, ht⟩ := runes_ascii h' (by omega)
    refine ⟨b, t, rfl, by omega, by omega, fun c t' e => ?_⟩
    have : ¬ (c = 111 ∨ c = 79) := by
      intro hc
      obtain ⟨h5, -⟩ := hno c hc
      obtain ⟨rs, hrs⟩ := key e h5
      rw [ht] at hrs
      have : c.toNat = 120 := by injection hrs with h _; exact h.symm
      rcases hc with rfl | rfl <;> exact absurd this (by decide)
    exact not_or.1 this

/-- **C79, the literals of a file.**  The text of an integer token, with a `-` before it if the compiler has drawn one in, is copied into the
file, and the assembler reads the number that the compiler took it for. -/
theorem C79_literal (u : Uni) (hu : u.Ok) (input : Bytes) (tok : Token) (h : tok ∈ lex u input) (hk : tok.kind = .integer) (s : Bytes)
    (hs : s = tok.val ∨ s = 45 :: tok.val) (i : Int) (hi : Clara.Sema.Lit.parseInt s = some i) :
    integer (Gas.chars s) = some i ∧ ∀ c ∈ Gas.chars s, numChar c = true := by
  have hg := C03_grammar u input tok h (by rw [hk]; decide) (by rw [hk]; decide)
  rw [hk] at hg
  obtain ⟨b, t, hv, h1, h2, h3⟩ := integer_start hu hg
  have ho : octalO tok.val = false := by
    rw [hv]
    unfold octalO
    split
    · rename_i c t' e
      cases e
      have := h3 c _ rfl
      simp [this.1, this.2]
    · rfl
  have hb (k : UInt8) (hk : k.toNat < 48) (t' : Bytes) : tok.val ≠ k :: t' := by
    rw [hv]
    intro e
    cases e
    omega
  rcases hs with rfl | rfl
  · exact C79_number _ i hi (hb 43 (by decide)) ho (fun t' e => absurd e (hb 45 (by decide) t'))
  · refine C79_number _ i hi (fun t' e => ?_) rfl (fun t' e => ?_)
    · injection e with e _; exact absurd e (by decide)
    · injection e with _ e; rw [← e]; exact ho

/-- `0x1F` is such a token; with the sign before it both read -31. -/
example : ((lex asciiUni (ascii "0x1F 017")).map (fun t => (t.kind, t.val)) =
      [(.integer, ascii "0x1F"), (.space, ascii " "), (.integer, ascii "017"), (.eof, [])]) ∧
    Clara.Sema.Lit.parseInt (45 :: ascii "0x1F") = some (-31) ∧ integer (Gas.chars (45 :: ascii "0x1F")) = some (-31) ∧
    Clara.Sema.Lit.parseInt (ascii "017") = some 15 := by decide +kernel

end Clara.Props
