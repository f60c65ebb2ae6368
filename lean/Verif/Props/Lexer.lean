import Verif.Lex.Print
import Verif.Lex.Reject
import Verif.Lex.Channel
/-
Properties C01-C07 and C61: the lexer.
-/
namespace Clara.Props
open Clara.Lex Clara.Lex.Spec

/-! ### C01 Lexing is lossless -/

/-- The texts of the delivered tokens, concatenated, are the source if the stream ends in EOF and a
prefix of the source if it ends in an error. -/
theorem C01_lossless (u : Uni) (input : Bytes) :
    ∃ ts last, lex u input = ts ++ [last] ∧
      ((last.kind = .eof ∧ (ts ++ [last]).flatMap Token.val = input) ∨
       (last.kind = .err ∧ ts.flatMap Token.val <+: input)) := by
  obtain ⟨ts, last, h1, _, h3⟩ := lexAll_lossless (u := u) ⟨[], [], input⟩ rfl
  refine ⟨ts, last, h1, ?_⟩
  rcases h3 with ⟨a, b, c⟩ | ⟨a, b, tail, c⟩
  · exact .inl ⟨a, by simpa [b, text] using c.symm⟩
  · exact .inr ⟨a, tail, c.symm⟩

/-- Two different sources never yield the same token texts, when both lex without error. -/
theorem C01_injective (u : Uni) (i j : Bytes) (hi : ∀ t ∈ lex u i, t.kind ≠ .err)
    (hj : ∀ t ∈ lex u j, t.kind ≠ .err)
    (h : (lex u i).map Token.val = (lex u j).map Token.val) : i = j := by
  have key : ∀ k, (∀ t ∈ lex u k, t.kind ≠ .err) → ((lex u k).map Token.val).flatten = k := by
    intro k hk
    obtain ⟨ts, last, h1, h2⟩ := C01_lossless u k
    rcases h2 with ⟨_, h2⟩ | ⟨h2, _⟩
    · rw [h1, ← List.flatMap_def, h2]
    · exact absurd h2 (hk last (by rw [h1]; simp))
  rw [← key i hi, ← key j hj, h]

/-! ### C02 Lexing ends exactly once -/

theorem C02_one_terminal (u : Uni) (input : Bytes) :
    ∃ ts last, lex u input = ts ++ [last] ∧ (last.kind = .eof ∨ last.kind = .err) ∧
      (∀ t ∈ ts, t.kind ≠ .eof ∧ t.kind ≠ .err) ∧ ts.length ≤ input.length := by
  obtain ⟨ts, last, h1, h2, h3⟩ := lexAll_lossless (u := u) ⟨[], [], input⟩ rfl
  refine ⟨ts, last, h1, ?_, fun t ht => ⟨(h2 t ht).1, (h2 t ht).2.1⟩, ?_⟩
  · rcases h3 with h | h
    · exact .inl h.1
    · exact .inr h.1
  · have hlen : ts.length ≤ (text ts).length := by
      clear h1 h3
      induction ts with
      | nil => simp [text]
      | cons a t ih =>
        have ha := List.length_pos_iff.2 (h2 a (by simp)).2.2
        have := ih (fun x hx => h2 x (by simp [hx]))
        simp [text] at this ⊢
        omega
    rcases h3 with ⟨_, _, c⟩ | ⟨_, _, tail, c⟩
    · have : input.length = (text ts).length := congrArg List.length c
      omega
    · have : input.length = (text ts ++ tail).length := congrArg List.length c
      simp at this
      omega

/-! ### C03 Tokens obey the lexical grammar -/

theorem C03_grammar (u : Uni) (input : Bytes) (t : Token) (h : t ∈ lex u input)
    (h1 : t.kind ≠ .eof) (h2 : t.kind ≠ .err) : Lexeme u t.kind t.val := by
  obtain ⟨a, b, hab⟩ := List.append_of_mem h
  exact (lexAll_token (u := u) ⟨[], [], input⟩ rfl a t b hab h1 h2).1

/-- A reserved word is never delivered as an identifier, and a reserved-word token spells its
word. -/
theorem C03_reserved (u : Uni) (input : Bytes) (t : Token) (h : t ∈ lex u input) (w : String × Kind)
    (hw : w ∈ reserved) :
    (t.kind = w.2 → runes t.val = chars w.1) ∧ (t.kind = .identifier → runes t.val ≠ chars w.1) := by
  constructor
  · intro hk
    have hne : t.kind ≠ .eof ∧ t.kind ≠ .err := by
      rw [hk]
      have : ∀ w ∈ reserved, w.2 ≠ .eof ∧ w.2 ≠ .err := by decide
      exact this w hw
    have hg := C03_grammar u input t h hne.1 hne.2
    rw [hk] at hg
    have huniq : ∀ w ∈ reserved, ∀ w' ∈ reserved ++ symbols, w'.2 = w.2 → w' = w := by decide
    have : ∃ w' ∈ reserved ++ symbols, w'.2 = w.2 ∧ runes t.val = chars w'.1 := by
      have hk' : w.2 ∈ reserved.map Prod.snd := List.mem_map.2 ⟨w, hw, rfl⟩
      revert hg hk'
      unfold Lexeme
      cases w.2 <;> intro hg hk' <;> first | exact hg | (exfalso; revert hk'; decide)
    obtain ⟨w', hw', e, hr⟩ := this
    rw [hr, huniq w hw w' hw' e]
  · intro hk
    have hg := C03_grammar u input t h (by simp [hk]) (by simp [hk])
    rw [hk] at hg
    exact hg.2 w hw

/-! ### C04 Longest match -/

/-- The source continues after the token with a rune that could not have extended it. -/
theorem C04_longest (u : Uni) (input : Bytes) (a b : List Token) (t : Token)
    (h : lex u input = a ++ t :: b) (h1 : t.kind ≠ .eof) (h2 : t.kind ≠ .err) :
    ∃ rest, input = a.flatMap Token.val ++ t.val ++ rest ∧
      ∀ r, (runes rest).head? = some r → ¬ Extends u t.kind (runes t.val) r := by
  obtain ⟨_, _, _, rest, h4, h5⟩ := lexAll_token (u := u) ⟨[], [], input⟩ rfl a t b h h1 h2
  refine ⟨rest, h4, ?_⟩
  intro r hr
  cases hd : decode rest with
  | none =>
    rw [runes] at hr
    split at hr
    · simp at hr
    · simp_all
  | some p =>
    rw [runes_of_decode hd] at hr
    simp at hr
    exact hr ▸ h5 p.1 p.2 hd

/-! ### C05 Token positions -/

/-- The line of every token is one plus the number of newlines before it. -/
theorem C05_line (u : Uni) (input : Bytes) (a b : List Token) (t : Token)
    (h : lex u input = a ++ t :: b) (h1 : t.kind ≠ .eof) (h2 : t.kind ≠ .err) :
    t.line = 1 + (a.flatMap Token.val).count 10 := by
  obtain ⟨_, h3, _⟩ := lexAll_token (u := u) ⟨[], [], input⟩ rfl a t b h h1 h2
  simpa [lineNumber, text] using h3

/-- Zero-based column of the byte offset after `before`: the number of runes since the last
newline. -/
def column0 (before : Bytes) : Nat := (runes (afterLastNewline before)).length

/-- What the code reports: a zero-based column on the first line, a one-based column on all
others.  The full property (one base for all lines) fails, see `C05_column_violated`. -/
theorem C05_column_partial (u : Uni) (input : Bytes) (a b : List Token) (t : Token)
    (h : lex u input = a ++ t :: b) (h1 : t.kind ≠ .eof) (h2 : t.kind ≠ .err) :
    t.pos = column0 (a.flatMap Token.val) + (if t.line = 1 then 0 else 1) := by
  obtain ⟨_, hl, h3, _⟩ := lexAll_token (u := u) ⟨[], [], input⟩ rfl a t b h h1 h2
  have e : text a = a.flatMap Token.val := rfl
  rw [List.nil_append, linePos_eq, e] at h3
  rw [h3, hl]
  unfold column0 lineNumber
  rw [List.nil_append, e]
  by_cases hm : 10 ∈ a.flatMap Token.val
  · have := List.count_pos_iff.2 hm
    rw [if_pos hm, if_neg (by omega)]
  · have := List.count_eq_zero.2 hm
    rw [if_neg hm, if_pos (by omega)]

/-- The full claim: some fixed base works for every token of every source. -/
def C05_column_claim (u : Uni) : Prop :=
  ∃ base, ∀ (input : Bytes) (a b : List Token) (t : Token), lex u input = a ++ t :: b →
    t.kind ≠ .eof → t.kind ≠ .err → t.pos = column0 (a.flatMap Token.val) + base

/-- No fixed base works: in the source `"(\n("` both parentheses start their line, but they are
reported at columns 0 and 1. -/
theorem C05_column_violated (u : Uni) (hu : u.Ok) : ¬ C05_column_claim u := by
  rintro ⟨base, h⟩
  have hn : u.isLetter 10 = false := by
    cases e : u.isLetter 10
    · rfl
    · have := (hu.letter 10 (by decide)).1 e; omega
  obtain ⟨t1, t2, t3, rest, hl, k1, k2, k3, v1, v2⟩ :
      ∃ t1 t2 t3 rest, lex u [40, 10, 40] = t1 :: t2 :: t3 :: rest ∧
        t1.kind = .lparen ∧ t2.kind = .eol ∧ t3.kind = .lparen ∧ t1.val = [40] ∧ t2.val = [10] := by
    have e1 : lexOne u ⟨[], [], [40, 10, 40]⟩ = LS.emit ⟨[], [40], [10, 40]⟩ .lparen := rfl
    have e2 : lexOne u ⟨[40], [], [10, 40]⟩ = LS.emit ⟨[40], [10], [40]⟩ .eol := by
      unfold lexOne
      have hp : (LS.mk [40] [] [10, 40]).peek = some 10 := rfl
      simp only [hp]
      simp [isAlphabetic, hn, isEndOfLine]
      rfl
    have e3 : lexOne u ⟨[40, 10], [], [40]⟩ = LS.emit ⟨[40, 10], [40], []⟩ .lparen := rfl
    have f1 := lexAll_step e1
    have f2 := lexAll_step e2
    have f3 := lexAll_step e3
    refine ⟨_, _, _, _, f1.trans (congrArg _ (f2.trans (congrArg _ f3))), rfl, rfl, rfl, rfl, rfl⟩
  have p1 := C05_column_partial u _ [] _ t1 hl (by simp [k1]) (by simp [k1])
  have l1 := C05_line u _ [] _ t1 hl (by simp [k1]) (by simp [k1])
  have p3 := C05_column_partial u _ [t1, t2] _ t3 hl (by simp [k3]) (by simp [k3])
  have l3 := C05_line u _ [t1, t2] _ t3 hl (by simp [k3]) (by simp [k3])
  have b1 := h _ [] _ t1 hl (by simp [k1]) (by simp [k1])
  have b3 := h _ [t1, t2] _ t3 hl (by simp [k3]) (by simp [k3])
  simp [v1, v2] at l1 l3
  rw [if_pos l1] at p1
  rw [if_neg (by omega)] at p3
  omega

/-! ### C06 The token channel under every schedule -/

/-- What the consumer must hand on for a given token stream. -/
def expected (ts : List Token) : Handed :=
  match ts.getLast? with
  | some t => if t.kind = .err then .error t else .tokens (ts.filter (fun t => !blank t))
  | none => .tokens []

/-- Under every schedule: the consumer never receives from a closed channel, ... -/
theorem C06_no_crash (u : Uni) (input : Bytes) (s : Sys) (h : Sys.Reach u input s) :
    s.cons ≠ .crashed := by
  intro e
  obtain ⟨_, _, c, _, hc⟩ := inv_reach h
  rw [e] at hc
  exact hc

/-- ... the system can always move until both processes have finished (no deadlock, no leaked
goroutine), ... -/
theorem C06_progress (u : Uni) (input : Bytes) (s : Sys) (h : Sys.Reach u input s) :
    (∃ s', Sys.Step u s s') ∨ (s.prod = .closed ∧ ∃ r, s.cons = .done r) := by
  obtain ⟨hr, hsd, c, hl, hc⟩ := inv_reach h
  obtain ⟨p, q⟩ := s
  cases q with
  | got acc t => exact .inl ⟨_, .react⟩
  | crashed => exact absurd hc (by simp [ConsInv])
  | done r =>
    cases p with
    | run ls => exact .inl ⟨_, .compute⟩
    | send t o =>
      have := hc.1
      simp [pending_send] at this
    | closing => exact .inl ⟨_, .close⟩
    | closed => exact .inr ⟨rfl, r, rfl⟩
  | recv acc =>
    cases p with
    | run ls => exact .inl ⟨_, .compute⟩
    | send t o => exact .inl ⟨_, .rendezvous⟩
    | closing => exact .inl ⟨_, .close⟩
    | closed => exact .inl ⟨_, .recvClosed⟩

/-- ... every schedule is finite: each step decreases a natural number, ... -/
theorem C06_terminates (u : Uni) (run : Nat → Sys) :
    ∃ n, ¬ Sys.Step u (run n) (run (n + 1)) := by
  apply Classical.byContradiction
  intro hno
  have hall : ∀ n, Sys.Step u (run n) (run (n + 1)) := fun n =>
    Classical.byContradiction (fun h => hno ⟨n, h⟩)
  have hm : ∀ n, (run n).measure + n ≤ (run 0).measure := by
    intro n
    induction n with
    | zero => simp
    | succ n ih => have := measure_step (hall n); omega
  have := hm ((run 0).measure + 1)
  omega

/-- ... and when it has finished the consumer holds exactly the non-blank tokens in order, or the
lexical error. -/
theorem C06_result (u : Uni) (input : Bytes) (s : Sys) (h : Sys.Reach u input s) (r : Handed)
    (hr : s.cons = .done r) : r = expected (lex u input) := by
  obtain ⟨_, _, c, hl, hc⟩ := inv_reach h
  rw [hr] at hc
  obtain ⟨hp, c', t, rfl, hcase⟩ := hc
  rw [hp, List.append_nil] at hl
  unfold expected
  rw [hl, List.getLast?_append]
  simp only [List.getLast?_singleton, Option.some_or]
  rcases hcase with ⟨hk, rfl⟩ | ⟨hk, rfl⟩
  · have : blank t = false := by simp [blank, hk]
    simp [hk, this]
  · simp [hk]

/-- A schedule of a small source that runs to completion: the hypotheses above are reachable. -/
example (u : Uni) : ∃ s, Sys.Reach u [] s ∧ s.prod = .closed ∧ ∃ r, s.cons = .done r :=
  ⟨_, .step (.step (.step (.step .init .compute) .rendezvous) .react) .close, rfl, _, rfl⟩

/-! ### C07 Printing then lexing is the identity -/

/-- The source text of a token sequence: every token followed by one space. -/
def render (ts : List (Kind × Bytes)) : Bytes := ts.flatMap (fun t => t.2 ++ [32])

/-- A token that stands for itself in a source text. -/
def Printable (u : Uni) (t : Kind × Bytes) : Prop :=
  Lexeme u t.1 t.2 ∧ t.1 ≠ .space ∧ t.1 ≠ .eol ∧ t.1 ≠ .comment

theorem runes_ne_nil_head {u : Uni} {t : Kind × Bytes} (h : Printable u t) : t.2 ≠ [] := by
  intro e
  have := lexR_ne_nil h.1
  rw [e, runes_nil] at this
  exact this rfl

/-- No printable token starts with a space. -/
theorem printable_head {u : Uni} (hu : u.Ok) {t : Kind × Bytes} (h : Printable u t) (rest : Bytes) :
    ∀ r w, decode (t.2 ++ 32 :: rest) = some (r, w) → r ≠ 32 := by
  intro r w hd hr
  subst hr
  have h1 := lexOne_print (pre := []) (t := rest) hu h.1 h.2
  have hp : (LS.mk [] [] (t.2 ++ 32 :: rest)).peek = some 32 := by simp [LS.peek, hd]
  have h2 : (lexOne u ⟨[], [], t.2 ++ 32 :: rest⟩).1.kind = .space := by
    unfold lexOne
    simp only [hp]
    rfl
  rw [h1] at h2
  exact h.2.1 h2

theorem lexAll_render {u : Uni} (hu : u.Ok) (ts : List (Kind × Bytes)) (h : ∀ t ∈ ts, Printable u t)
    (pre : Bytes) :
    (lexAll u ⟨pre, [], render ts⟩).map (fun t => (t.kind, t.val)) =
      ts.flatMap (fun t => [t, (.space, [32])]) ++ [(.eof, [])] := by
  induction ts generalizing pre with
  | nil =>
    have : lexAll u ⟨pre, [], render []⟩ = [_] := lexAll_stop (lexOne_eof (by rfl))
    rw [this]
    rfl
  | cons t ts ih =>
    have hr : render (t :: ts) = t.2 ++ 32 :: render ts := by simp [render]
    have h1 := lexOne_print (pre := pre) (t := render ts) hu (h t (by simp)).1 (h t (by simp)).2
    have hsp : ∀ r w, decode (render ts) = some (r, w) → r ≠ 32 := by
      cases ts with
      | nil => intro r w hd; simp [render, decode] at hd
      | cons t' ts' =>
        have e : render (t' :: ts') = t'.2 ++ 32 :: render ts' := by simp [render]
        rw [e]
        exact printable_head hu (h t' (by simp)) _
    have h2 := lexOne_space (u := u) (pre := pre ++ t.2) hsp
    rw [hr, lexAll_step h1, List.map_cons]
    have e2 : lexAll u ⟨pre ++ t.2, [], 32 :: render ts⟩ = _ := lexAll_step h2
    simp only at e2 ⊢
    rw [e2, List.map_cons, ih (fun t' ht' => h t' (by simp [ht']))]
    simp

theorem C07_print_lex (u : Uni) (hu : u.Ok) (ts : List (Kind × Bytes))
    (h : ∀ t ∈ ts, Printable u t) :
    (lex u (render ts)).map (fun t => (t.kind, t.val)) =
      ts.flatMap (fun t => [t, (.space, [32])]) ++ [(.eof, [])] :=
  lexAll_render hu ts h []

/-- What the parser receives for a printed token sequence: the tokens themselves, then EOF. -/
theorem C07_print_lex_parser (u : Uni) (hu : u.Ok) (ts : List (Kind × Bytes))
    (h : ∀ t ∈ ts, Printable u t) :
    ((lex u (render ts)).filter (fun t => !blank t)).map (fun t => (t.kind, t.val)) =
      ts ++ [(.eof, [])] := by
  have key := C07_print_lex u hu ts h
  let nb : Kind × Bytes → Bool := fun t => !(t.1 == .eol || t.1 == .space || t.1 == .comment)
  have h1 : ((lex u (render ts)).filter (fun t => !blank t)).map (fun t => (t.kind, t.val)) =
      ((lex u (render ts)).map (fun t => (t.kind, t.val))).filter nb := by
    rw [List.filter_map]; rfl
  rw [h1, key]
  clear h1 key
  induction ts with
  | nil => decide
  | cons t ts ih =>
    have ht := (h t (by simp)).2
    have h1 : nb t = true := by simp [nb, ht.1, ht.2.1, ht.2.2]
    have h2 : nb (.space, [32]) = false := rfl
    simp only [List.flatMap_cons, List.cons_append, List.nil_append]
    rw [List.filter_cons_of_pos h1, List.filter_cons_of_neg (by simp [h2]),
      ih (fun t' ht' => h t' (by simp [ht']))]

/-- A table satisfying `Uni.Ok`: plain ASCII. -/
def asciiUni : Uni where
  isLetter r := (65 ≤ r && r ≤ 90) || (97 ≤ r && r ≤ 122)
  isDigit r := 48 ≤ r && r ≤ 57

theorem asciiUni_ok : asciiUni.Ok := by
  constructor
  · intro r _; simp [asciiUni]
  · intro r _; simp [asciiUni]
  · rintro r (rfl | rfl) <;> decide

/-- `x := 0x1F` is a printable sequence with an identifier, an operator and an integer. -/
example : ∀ t ∈ [(Kind.identifier, ascii "x"), (.das, ascii ":="), (.integer, ascii "0x1F")],
    Printable asciiUni t := by
  intro t ht
  simp only [List.mem_cons, List.not_mem_nil, or_false] at ht
  rcases ht with rfl | rfl | rfl
  · refine ⟨?_, by decide⟩
    unfold Lexeme
    rw [runes_ascii (by decide)]
    exact ⟨⟨_, _, rfl, by unfold Letter; decide, by simp⟩, by decide⟩
  · refine ⟨?_, by decide⟩
    unfold Lexeme
    rw [runes_ascii (by decide)]
    exact ⟨(":=", .das), by decide, rfl, rfl⟩
  · refine ⟨?_, by decide⟩
    unfold Lexeme
    rw [runes_ascii (by decide)]
    exact .inr ⟨chars "1F", by decide, by decide, by unfold HexDigit Digit; decide⟩

/-! ### C61 What the lexer rejects -/

/-- A run ends in an error token exactly when the text left over begins with no token: a rune that
starts nothing, a word followed by a rune that may not follow a word, `0x` without digits, or a
string that is not closed or has an unknown escape. -/
theorem C61_reject (u : Uni) (hu : u.Ok) (input : Bytes) (ts : List Token) (last : Token)
    (h : lex u input = ts ++ [last]) :
    last.kind = .err ↔ ∃ rest, input = ts.flatMap Token.val ++ rest ∧ Rejected u (runes rest) :=
  lexAll_err_iff hu ⟨[], [], input⟩ rfl ts last h

/-- `x` is a token sequence that is accepted, `x$` is not. -/
example : (lex asciiUni (ascii "x")).map Token.kind = [.identifier, .eof] ∧
    Rejected asciiUni (chars "x$") := by
  refine ⟨by decide +kernel, ?_⟩
  exact .word (as := []) (by unfold Letter; decide) (by simp) (by unfold Letter Digit; decide)
    (by decide)

/-- The claim that blanks are optional between a word and a following (ASCII) operator or bracket. -/
def C61_adjacent_claim (u : Uni) : Prop :=
  ∀ w ∈ symbols, (∀ r ∈ chars w.1, r < 128) → ∀ t ∈ lex u (ascii "x" ++ ascii w.1), t.kind ≠ .err

/-- It fails: `x=` (for instance in `x=1`), and likewise `x}`, is a lexical error. -/
theorem C61_adjacent_violated (u : Uni) (hu : u.Ok) : ¬ C61_adjacent_claim u := by
  intro h
  have h1 := h ("=", Kind.as) (by decide) (by decide)
  have hr : runes (ascii "x" ++ ascii "=") = chars "x=" := by
    have : ascii "x" ++ ascii "=" = ascii "x=" := by decide
    rw [this, runes_ascii (by decide)]
  have hx : Letter u 120 := .inr ((hu.letter 120 (by decide)).2 (by decide))
  have hrej : Rejected u (runes (LS.mk [] [] (ascii "x" ++ ascii "=")).rest) := by
    show Rejected u (runes (ascii "x" ++ ascii "="))
    rw [hr]
    refine .word (a := 120) (r := 61) (as := []) (tl := []) hx (by simp) ?_ (by decide)
    rintro (h | h)
    · have := letter_cases hu h; omega
    · have := (hu.digit 61 (by decide)).1 h; omega
  have hk := (lexOne_err_iff hu ⟨[], [], ascii "x" ++ ascii "="⟩).2 hrej
  refine h1 (lexOne u ⟨[], [], ascii "x" ++ ascii "="⟩).1 ?_ hk
  unfold lex
  rw [lexAll]
  split
  · next h => rw [h]; simp
  · next h => rw [h]; simp

end Clara.Props
