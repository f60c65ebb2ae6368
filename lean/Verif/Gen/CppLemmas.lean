import Verif.Gen.Cpp
import Verif.Gen.DataText
/-
Lines without macros.
-/
namespace Clara.Cpp
open Clara.Gen hiding Txt Bytes
open Clara.Gas Clara.Data

/-- The names that `gcc` on Linux may define before the file is read: `linux`, `unix`, and those reserved for the implementation. -/
def reserved : Txt → Bool
  | '_' :: '_' :: _ => true
  | '_' :: c :: _ => c.isUpper
  | w => w == "linux".toList || w == "unix".toList

/-- The words of a text: what lies between other characters (`acc` backwards is before it). -/
def wordsAux : Txt → Txt → List Txt
  | acc, [] => [acc.reverse]
  | acc, c :: cs => if wordChar c then wordsAux (c :: acc) cs else acc.reverse :: wordsAux [] cs

/-- No word of the text is reserved. -/
def free (t : Txt) : Bool := (wordsAux [] t).all (fun w => !reserved w)

/-- Only reserved names are macros. -/
def Predefined (M : Txt → Option Txt) : Prop := ∀ w, reserved w = false → M w = none

/-- Characters that do not begin a string, a comment or a directive. -/
def tame (c : Char) : Bool := c != '"' && c != '\'' && c != '/' && c != '#'

/-! ### Words -/

theorem words_sep {c : Char} (hc : wordChar c = false) (acc a b : Txt) : wordsAux acc (a ++ c :: b) = wordsAux acc a ++ wordsAux [] b := by
  induction a generalizing acc with
  | nil => simp [wordsAux, hc]
  | cons x a ih =>
    rw [List.cons_append, wordsAux, wordsAux]
    split
    · exact ih _
    · rw [ih]; rfl

theorem free_sep {c : Char} (hc : wordChar c = false) (a b : Txt) : free (a ++ c :: b) = (free a && free b) := by
  rw [free, words_sep hc, List.all_append]
  rfl

theorem free_cons {c : Char} (hc : wordChar c = false) (b : Txt) : free (c :: b) = free b := by
  have := free_sep hc [] b
  rw [List.nil_append] at this
  rw [this]
  rfl

theorem words_word {acc t : Txt} (h : t.all wordChar = true) : wordsAux acc t = [acc.reverse ++ t] := by
  induction t generalizing acc with
  | nil => simp [wordsAux]
  | cons c t ih =>
    simp only [List.all_cons, Bool.and_eq_true] at h
    rw [wordsAux, if_pos h.1, ih h.2]
    simp

theorem free_word {t : Txt} (h : t.all wordChar = true) : free t = !reserved t := by
  rw [free, words_word h]
  simp

/-- Words have the characters of the text. -/
theorem words_chars {t : Txt} : ∀ {acc w : Txt}, w ∈ wordsAux acc t → ∀ c ∈ w, c ∈ acc ∨ c ∈ t := by
  induction t with
  | nil =>
    intro acc w hw c hc
    rw [wordsAux, List.mem_singleton] at hw
    subst hw
    exact .inl (by simpa using hc)
  | cons x t ih =>
    intro acc w hw c hc
    rw [wordsAux] at hw
    split at hw
    · rcases ih hw c hc with h | h
      · rcases List.mem_cons.1 h with h | h
        · exact .inr (by simp [h])
        · exact .inl h
      · exact .inr (List.mem_cons_of_mem _ h)
    · rcases List.mem_cons.1 hw with rfl | hw
      · exact .inl (by simpa using hc)
      · rcases ih hw c hc with h | h
        · cases h
        · exact .inr (List.mem_cons_of_mem _ h)

theorem reserved_char {w : Txt} (h : reserved w = true) : 'n' ∈ w ∨ '_' ∈ w := by
  unfold reserved at h
  split at h
  · exact .inr (by simp)
  · exact .inr (by simp)
  · rw [Bool.or_eq_true, beq_iff_eq, beq_iff_eq] at h
    rcases h with rfl | rfl <;> exact .inl (by decide)

theorem free_of {t : Txt} (h : ∀ c ∈ t, c ≠ 'n' ∧ c ≠ '_') : free t = true := by
  rw [free, List.all_eq_true]
  intro w hw
  rw [Bool.not_eq_true', ← Bool.not_eq_true]
  intro hr
  rcases reserved_char hr with hc | hc
  · rcases words_chars hw _ hc with h' | h'
    · cases h'
    · exact (h _ h').1 rfl
  · rcases words_chars hw _ hc with h' | h'
    · cases h'
    · exact (h _ h').2 rfl

/-- A word with a usual beginning is not reserved. -/
theorem reserved_head {c : Char} {w : Txt} (h : c ≠ '_' ∧ c ≠ 'l' ∧ c ≠ 'u') : reserved (c :: w) = false := by
  rw [← Bool.not_eq_true]
  intro hr
  unfold reserved at hr
  split at hr
  · rename_i e; injection e with e _; exact h.1 e
  · rename_i e; injection e with e _; exact h.1 e
  · rw [Bool.or_eq_true, beq_iff_eq, beq_iff_eq] at hr
    rcases hr with e | e
    · injection e with e _; exact h.2.1 e
    · injection e with e _; exact h.2.2 e

/-! ### The preprocessor copies lines without macros -/

theorem start_tame {c : Char} (h : tame c = true) : start c = some (if c.isDigit then ([c], .num false) else if wordChar c then ([], .ident [c])
    else ([c], .gap)) := by
  simp only [tame, Bool.and_eq_true, bne_iff_ne, ne_eq] at h
  unfold start
  rw [if_neg h.1.1.1, if_neg (by rintro (e | e); exact h.1.1.2 e; exact h.1.2 e)]
  split
  · rfl
  · split <;> rfl

theorem digit_word {c : Char} (h : c.isDigit = true) : wordChar c = true := by
  simp [wordChar, Char.isAlphanum, h]

theorem scan_free {M : Txt → Option Txt} (hM : Predefined M) (t : Txt) (ht : t.all tame = true) : ∀ acc : Txt,
    (wordsAux acc t).all (fun w => !reserved w) = true →
      scan M (.ident acc) t = some (acc.reverse ++ t) ∧ (∀ e, scan M (.num e) t = some t) ∧ (acc = [] → scan M .gap t = some t) := by
  induction t with
  | nil =>
    intro acc h
    simp only [wordsAux, List.all_cons, List.all_nil, Bool.and_true, Bool.not_eq_true'] at h
    refine ⟨?_, fun e => rfl, fun _ => rfl⟩
    simp [scan, finish, ident, hM _ h]
  | cons c t ih =>
    intro acc h
    simp only [List.all_cons, Bool.and_eq_true] at ht
    have hs := start_tame ht.1
    rw [wordsAux] at h
    -- a token that begins here
    have key : ∀ acc' : Txt, (wordChar c = true → (wordsAux [c] t).all (fun w => !reserved w) = true ∨
        (c.isDigit = true ∧ (wordsAux acc' t).all (fun w => !reserved w) = true)) →
        (wordChar c = false → (wordsAux [] t).all (fun w => !reserved w) = true) →
        ∃ x, start c = some x ∧ (scan M x.2 t).map (fun r => x.1 ++ r) = some (c :: t) := by
      intro acc' h1 h2
      rw [hs]
      refine ⟨_, rfl, ?_⟩
      by_cases hd : c.isDigit = true
      · rw [if_pos hd]
        have : ∃ a, (wordsAux a t).all (fun w => !reserved w) = true := by
          rcases h1 (digit_word hd) with h | ⟨-, h⟩
          · exact ⟨_, h⟩
          · exact ⟨_, h⟩
        obtain ⟨a, ha⟩ := this
        simp [(ih ht.2 a ha).2.1 false]
      · rw [if_neg hd]
        by_cases hw : wordChar c = true
        · rw [if_pos hw]
          rcases h1 hw with h | ⟨h, -⟩
          · simp [(ih ht.2 [c] h).1]
          · exact absurd h hd
        · rw [if_neg hw]
          simp [(ih ht.2 [] (h2 (by simpa using hw))).2.2 rfl]
    by_cases hw : wordChar c = true
    · rw [if_pos hw] at h
      refine ⟨?_, ?_, ?_⟩
      · rw [scan]
        simp only [next, if_pos hw]
        rw [(ih ht.2 _ h).1]
        simp
      · intro e
        rw [scan]
        simp only [next, if_pos (Or.inl hw : wordChar c = true ∨ c = '.')]
        rw [(ih ht.2 _ h).2.1]
        rfl
      · intro hacc
        subst hacc
        obtain ⟨x, hx, hr⟩ := key [] (fun _ => .inl h) (fun hf => by rw [hw] at hf; cases hf)
        rw [scan]
        simp only [next, hx]
        exact hr
    · rw [if_neg hw] at h
      simp only [List.all_cons, Bool.and_eq_true, Bool.not_eq_true'] at h
      obtain ⟨x, hx, hr⟩ := key [] (fun hf => absurd hf hw) (fun _ => h.2)
      refine ⟨?_, ?_, ?_⟩
      · rw [scan]
        simp only [next, if_neg hw, hx, Option.map_some, ident, hM _ h.1]
        obtain ⟨r, h1, h2⟩ := Option.map_eq_some_iff.1 hr
        rw [h1]
        simp only [Option.map_some, List.append_assoc, h2]
      · intro e
        rw [scan]
        simp only [next]
        by_cases hdot : c = '.'
        · rw [if_pos (.inr hdot)]
          simp only
          rw [(ih ht.2 _ h.2).2.1]
          rfl
        · rw [if_neg (by rintro (e | e); exact hw e; exact hdot e)]
          by_cases he : e = true ∧ (c = '+' ∨ c = '-')
          · rw [if_pos he]
            simp only
            rw [(ih ht.2 _ h.2).2.1]
            rfl
          · rw [if_neg he, hx]
            exact hr
      · intro _
        rw [scan]
        simp only [next, hx]
        exact hr

/-- The preprocessor copies a line without macros. -/
theorem cpp_free {M : Txt → Option Txt} (hM : Predefined M) {t : Txt} (ht : t.all tame = true) (h : free t = true) : cppLine M t = some t := by
  rw [cppLine, if_neg, (scan_free hM t ht [] h).2.2 rfl]
  intro hh
  have : '#' ∈ t := (List.dropWhile_sublist _).subset (List.mem_of_head? hh)
  have := List.all_eq_true.1 ht _ this
  revert this
  decide

end Clara.Cpp
