import Verif.Props.Lexer
import Verif.Props.Parse
/-
The lexer and the parser together, from the source text: `lexAndParse` (`main.go` 172-200) for C08,
C09 and C12.
-/
namespace Clara.Props
open Clara.Lex Clara.Parse

/-- The tokens handed to the parser end in the only `EOF`, under every schedule of the lexer. -/
theorem handed_wr (u : Uni) (input : Bytes) (s : Sys) (h : Sys.Reach u input s) (ts : List Token)
    (hr : s.cons = .done (.tokens ts)) : Wr ts ∧ ts ⊆ lex u input ∧ ∀ t ∈ ts, t.kind ≠ .err := by
  have h1 := C06_result u input s h _ hr
  obtain ⟨b, last, h2, h3, h4, -⟩ := C02_one_terminal u input
  rw [expected, h2, List.getLast?_append] at h1
  simp only [List.getLast?_singleton, Option.some_or] at h1
  rcases h3 with h3 | h3
  · have hb : blank last = false := by simp [blank, h3]
    simp only [h3, reduceCtorEq, if_false, Handed.tokens.injEq, List.filter_append] at h1
    rw [show List.filter (fun t => !blank t) [last] = [last] by simp [hb]] at h1
    refine ⟨⟨_, last, h1, h3, fun t ht => (h4 t ((List.mem_filter.mp ht).1)).1⟩, ?_, ?_⟩
    · rw [h1, h2]
      intro t ht
      rcases List.mem_append.mp ht with ht | ht
      · exact List.mem_append.mpr (.inl ((List.mem_filter.mp ht).1))
      · exact List.mem_append.mpr (.inr ht)
    · intro t ht
      rw [h1] at ht
      rcases List.mem_append.mp ht with ht | ht
      · exact (h4 t ((List.mem_filter.mp ht).1)).2
      · rw [List.mem_singleton.mp ht, h3]
        simp
  · simp [h3] at h1

/-- On every source text and under every schedule of the lexer, the parser returns, without a
runtime error, and its errors are at tokens of this text. -/
theorem C08_source (u : Uni) (input : Bytes) (s : Sys) (h : Sys.Reach u input s) (ts : List Token)
    (hr : s.cons = .done (.tokens ts)) :
    ∃ errs root, parse ts = some (.done errs root) ∧ ∀ e ∈ errs, e.tok ∈ lex u input := by
  obtain ⟨hw, hs, -⟩ := handed_wr u input s h ts hr
  have hne : ts ≠ [] := by
    obtain ⟨b, e, rfl, -⟩ := hw
    simp
  obtain ⟨errs, root, hp⟩ := C08_terminates ts hne
  exact ⟨errs, root, hp, fun e he => hs (C12_located ts hne errs root hp e he)⟩

/-- A source text without errors consists of declarations of the grammar and blanks, unless it
breaks off behind a token that needs an expression (C09). -/
theorem C09_partial_source (u : Uni) (input : Bytes) (s : Sys) (h : Sys.Reach u input s) (ts : List Token)
    (hr : s.cons = .done (.tokens ts)) (root : List Node) (hp : parse ts = some (.done [] root)) :
    ∃ (ds : List CD) (rest : List Token), (lex u input).filter (fun t => !blank t) = fileToks ds ++ rest ∧
      FileWf ds (headKind rest .eof) ∧ root = ds.map CD.node ∧
      ((∃ e, rest = [e] ∧ e.kind = .eof) ∨
        ∃ pre t e, rest = pre ++ [t, e] ∧ e.kind = .eof ∧ wantsExpr t.kind = true) := by
  have h1 := C06_result u input s h _ hr
  have h2 : (lex u input).filter (fun t => !blank t) = ts := by
    unfold expected at h1
    split at h1
    · split at h1
      · cases h1
      · rw [Handed.tokens.injEq] at h1
        exact h1.symm
    · obtain ⟨b, last, h3, -⟩ := C02_one_terminal u input
      rename_i hn
      rw [h3] at hn
      simp at hn
  rw [h2]
  exact C09_partial ts root (handed_wr u input s h ts hr).1 hp

/-- The empty source. -/
example (u : Uni) : ∃ s ts, Sys.Reach u [] s ∧ s.cons = .done (.tokens ts) :=
  ⟨_, _, .step (.step (.step (.step .init .compute) .rendezvous) .react) .close, rfl⟩

end Clara.Props
