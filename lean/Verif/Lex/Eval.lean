import Verif.Lex.Basic
/-
Running the lexer on a given text: `lexN` is `lexAll` with a bound on the number of tokens.
-/
namespace Clara.Lex

def lexN (u : Uni) : Nat → LS → Option (List Token)
  | 0, _ => none
  | n + 1, s =>
    match lexOne u s with
    | (t, none) => some [t]
    | (t, some s') => (lexN u n s').map (t :: ·)

theorem lexN_eq {u : Uni} : ∀ {n : Nat} {s : LS} {ts : List Token}, lexN u n s = some ts → lexAll u s = ts
  | 0, s, ts, h => by cases h
  | n + 1, s, ts, h => by
    unfold lexN at h
    rw [lexAll]
    split at h
    · rename_i t h1
      cases h
      split <;> simp_all
    · rename_i t s' h1
      rw [Option.map_eq_some_iff] at h
      obtain ⟨r, h2, rfl⟩ := h
      split
      · simp_all
      · rename_i h3
        rw [h1] at h3
        cases h3
        rw [lexN_eq h2]

end Clara.Lex
