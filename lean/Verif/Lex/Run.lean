import Verif.Lex.Grammar
/-
Facts about complete runs of the lexer.
-/
namespace Clara.Lex
open Spec

/-- Concatenated text of a token list. -/
def text (ts : List Token) : Bytes := ts.flatMap Token.val

theorem lexAll_stop {u : Uni} {s : LS} {t : Token} (h : lexOne u s = (t, none)) :
    lexAll u s = [t] := by
  rw [lexAll]; split <;> simp_all

theorem lexAll_step {u : Uni} {s s' : LS} {t : Token} (h : lexOne u s = (t, some s')) :
    lexAll u s = t :: lexAll u s' := by
  rw [lexAll]; split <;> simp_all

theorem lexOne_eof {u : Uni} {s : LS} (h : s.peek = none) :
    lexOne u s = ((s.emit .eof).1, none) := by
  simp [lexOne, h]

theorem peek_none {s : LS} : s.peek = none ↔ s.rest = [] := by
  unfold LS.peek
  cases s.rest <;> simp [decode]

theorem lexR_ne_nil {u : Uni} {k : Kind} {rs : List Nat} (h : LexR u k rs) : rs ≠ [] := by
  rintro rfl
  have hs : ∀ w ∈ reserved ++ symbols, chars w.1 ≠ [] := by decide
  have h' : ∀ k', ¬ ∃ w ∈ reserved ++ symbols, w.2 = k' ∧ [] = chars w.1 := by
    rintro k' ⟨w, hw, _, e⟩
    exact hs w hw e.symm
  cases k <;> simp only [LexR] at h
  all_goals first
    | exact h' _ h
    | (simp [chars_slashes, chars_0x] at h)

/-- What the lexer does from a state at a token boundary. -/
inductive StepResult (u : Uni) (s : LS) : Prop
  | eof (hr : s.rest = []) (hl : lexAll u s = [(s.emit .eof).1])
  | err (b : LS) (ha : Adv s b) (hl : lexAll u s = [(b.errorf).1])
  | tok (t : Token) (s' : LS) (hl : lexAll u s = t :: lexAll u s') (hc : s'.cur = [])
      (hpre : s'.pre = s.pre ++ t.val) (hrest : s.rest = t.val ++ s'.rest)
      (hlex : Lexeme u t.kind t.val) (hne : t.val ≠ [])
      (hpos : t.pos = linePos s.pre) (hline : t.line = lineNumber s.pre)
      (hmax : ∀ r, s'.peek = some r → ¬ Extends u t.kind (runes t.val) r)

theorem stepResult (u : Uni) (s : LS) (hc : s.cur = []) : StepResult u s := by
  cases hp : s.peek with
  | none => exact .eof (peek_none.1 hp) (lexAll_stop (lexOne_eof hp))
  | some r =>
    rcases lexOne_outcome (u := u) hc hp with ⟨b, k, rs, hA, hx, hl, hmax⟩ | ⟨b, hA, hx⟩
    · obtain ⟨d, h1, h2, h3⟩ := hA.adv
      have hru := hA.runes hc
      have hbv : b.cur = d := by simp [h2, hc]
      have hne : b.cur ≠ [] := by
        intro e
        rw [e, runes_nil] at hru
        exact lexR_ne_nil hl hru.symm
      refine .tok (b.emit k).1 ⟨b.pre ++ b.cur, [], b.rest⟩ (lexAll_step hx) rfl ?_ ?_ ?_ hne ?_ ?_ ?_
      · simp [LS.emit, h1]
      · simp [LS.emit, h3, hbv]
      · simp only [Lexeme, LS.emit, hru]; exact hl
      · simp [LS.emit, h1]
      · simp [LS.emit, h1]
      · intro r hr
        simp only [LS.emit, hru]
        exact hmax r hr
    · exact .err b hA (lexAll_stop hx)

/-- Induction principle over runs. -/
@[elab_as_elim]
theorem lexAll_induct {u : Uni} {P : LS → Prop}
    (eof : ∀ s, s.cur = [] → s.rest = [] → lexAll u s = [(s.emit .eof).1] → P s)
    (err : ∀ s b, s.cur = [] → Adv s b → lexAll u s = [(b.errorf).1] → P s)
    (tok : ∀ s t s', s.cur = [] → lexAll u s = t :: lexAll u s' → s'.cur = [] →
      s'.pre = s.pre ++ t.val → s.rest = t.val ++ s'.rest → Lexeme u t.kind t.val → t.val ≠ [] →
      t.pos = linePos s.pre → t.line = lineNumber s.pre →
      (∀ r, s'.peek = some r → ¬ Extends u t.kind (runes t.val) r) → P s' → P s)
    (s : LS) (hc : s.cur = []) : P s := by
  generalize hn : s.rest.length = n
  induction n using Nat.strongRecOn generalizing s with
  | _ n ih =>
    rcases stepResult u s hc with ⟨hr, hl⟩ | ⟨b, ha, hl⟩ | ⟨t, s', hl, hc', hpre, hrest, hlex, hne, hpos, hline, hmax⟩
    · exact eof s hc hr hl
    · exact err s b hc ha hl
    · refine tok s t s' hc hl hc' hpre hrest hlex hne hpos hline hmax (ih s'.rest.length ?_ s' hc' rfl)
      rw [← hn, hrest, List.length_append]
      have : 0 < t.val.length := List.length_pos_iff.2 hne
      omega

theorem lexeme_kind {u : Uni} {k : Kind} {v : Bytes} (h : Lexeme u k v) : k ≠ .eof ∧ k ≠ .err := by
  constructor <;> (rintro rfl; exact h)

theorem lexAll_lossless {u : Uni} (s : LS) (hc : s.cur = []) :
    ∃ ts last, lexAll u s = ts ++ [last] ∧ (∀ t ∈ ts, t.kind ≠ .eof ∧ t.kind ≠ .err ∧ t.val ≠ []) ∧
      ((last.kind = .eof ∧ last.val = [] ∧ s.rest = text ts) ∨
       (last.kind = .err ∧ last.val = [] ∧ ∃ tail, s.rest = text ts ++ tail)) := by
  refine lexAll_induct (u := u) ?_ ?_ ?_ s hc
  · intro s hc hr hl
    exact ⟨[], _, hl, by simp, .inl ⟨rfl, hc, by simp [hr, text]⟩⟩
  · intro s b hc ha hl
    exact ⟨[], _, hl, by simp, .inr ⟨rfl, rfl, s.rest, by simp [text]⟩⟩
  · intro s t s' hc hl hc' hpre hrest hlex hne _ _ _ ⟨ts, last, h1, h2, h3⟩
    refine ⟨t :: ts, last, by simp [hl, h1], ?_, ?_⟩
    · intro x hx
      rcases List.mem_cons.1 hx with rfl | hx
      · exact ⟨(lexeme_kind hlex).1, (lexeme_kind hlex).2, hne⟩
      · exact h2 x hx
    · rcases h3 with ⟨a, b, c⟩ | ⟨a, b, tail, c⟩
      · exact .inl ⟨a, b, by simp [hrest, c, text]⟩
      · exact .inr ⟨a, b, tail, by simp [hrest, c, text]⟩

theorem lexAll_token {u : Uni} (s : LS) (hc : s.cur = []) :
    ∀ a t b, lexAll u s = a ++ t :: b → t.kind ≠ .eof → t.kind ≠ .err →
      Lexeme u t.kind t.val ∧ t.line = lineNumber (s.pre ++ text a) ∧
      t.pos = linePos (s.pre ++ text a) ∧
      ∃ rest, s.rest = text a ++ t.val ++ rest ∧
        ∀ r w, decode rest = some (r, w) → ¬ Extends u t.kind (runes t.val) r := by
  refine lexAll_induct (u := u) ?_ ?_ ?_ s hc
  · intro s hc hr hl a t b h he
    rw [hl] at h
    have : t.kind = .eof := by
      cases a with
      | nil => simp at h; rw [← h.1]; rfl
      | cons x a => simp at h
    exact absurd this he
  · intro s b hc ha hl a t b' h _ he
    rw [hl] at h
    have : t.kind = .err := by
      cases a with
      | nil => simp at h; rw [← h.1]; rfl
      | cons x a => simp at h
    exact absurd this he
  · intro s t0 s' hc hl hc' hpre hrest hlex hne hpos hline hmax ih a t b h he1 he2
    rw [hl] at h
    cases a with
    | nil =>
      simp at h
      obtain ⟨rfl, -⟩ := h
      refine ⟨hlex, by simpa [text] using hline, by simpa [text] using hpos, s'.rest, by simp [text, hrest], ?_⟩
      intro r w hd
      exact hmax r (by simp [LS.peek, hd])
    | cons x a =>
      simp at h
      obtain ⟨rfl, h⟩ := h
      obtain ⟨h1, h2, h3, rest, h4, h5⟩ := ih a t b h he1 he2
      refine ⟨h1, ?_, ?_, rest, ?_, h5⟩
      · simpa [hpre, text, List.append_assoc] using h2
      · simpa [hpre, text, List.append_assoc] using h3
      · simp [hrest, h4, text]

theorem takeWhile_self {α : Type} {p : α → Bool} {l : List α} (h : ∀ a ∈ l, p a = true) :
    l.takeWhile p = l := by
  induction l with
  | nil => rfl
  | cons a t ih => simp [h a (by simp), ih (fun b hb => h b (by simp [hb]))]

theorem takeWhile_append_of_mem {α : Type} {p : α → Bool} {l l' : List α} {x : α} (hx : x ∈ l)
    (hp : p x = false) : (l ++ l').takeWhile p = l.takeWhile p := by
  induction l with
  | nil => simp at hx
  | cons a t ih =>
    rw [List.cons_append, List.takeWhile_cons, List.takeWhile_cons]
    cases ha : p a
    · simp
    · rcases List.mem_cons.1 hx with rfl | hx
      · simp [hp] at ha
      · simp [ih hx]

theorem takeWhile_append_all {α : Type} {p : α → Bool} {l l' : List α} (h : ∀ a ∈ l, p a = true) :
    (l ++ l').takeWhile p = l ++ l'.takeWhile p := by
  induction l with
  | nil => rfl
  | cons a t ih => simp [h a (by simp), ih (fun b hb => h b (by simp [hb]))]

/-- The bytes after the last newline. -/
def afterLastNewline (bs : Bytes) : Bytes := (bs.reverse.takeWhile (· != 10)).reverse

theorem fromLastNewline_eq (bs : Bytes) :
    fromLastNewline bs = (if 10 ∈ bs then [10] else []) ++ afterLastNewline bs := by
  have hall : ∀ l : Bytes, 10 ∉ l → ∀ a ∈ l.reverse, (a != 10) = true := by
    intro l hl a ha
    simp only [bne_iff_ne]
    rintro rfl
    exact hl (List.mem_reverse.1 ha)
  induction bs with
  | nil => simp [fromLastNewline, afterLastNewline]
  | cons b t ih =>
    rw [fromLastNewline]
    by_cases h : 10 ∈ t
    · have : afterLastNewline (b :: t) = afterLastNewline t := by
        unfold afterLastNewline
        rw [List.reverse_cons, takeWhile_append_of_mem (x := 10) (by simpa using h) (by simp)]
      simp [h, ih, this]
    · have : afterLastNewline (b :: t) = if b = 10 then t else b :: t := by
        unfold afterLastNewline
        rw [List.reverse_cons, takeWhile_append_all (hall t h)]
        by_cases hb : b = 10 <;> simp [hb]
      by_cases hb : b = 10
      · simp [h, hb] at this ⊢; simp [this]
      · have h10 : 10 ∉ b :: t := by simp [h, Ne.symm hb]
        rw [if_neg (by simpa using h), if_neg h10, this, if_neg hb]; simp

theorem linePos_eq (bs : Bytes) :
    linePos bs = (runes (afterLastNewline bs)).length + (if 10 ∈ bs then 1 else 0) := by
  unfold linePos
  rw [fromLastNewline_eq, runeCount_eq]
  split
  · have : decode ([10] ++ afterLastNewline bs) = some (10, 1) := decode_byte (b := 10) (by decide)
    rw [runes_of_decode this]
    simp
  · simp

end Clara.Lex
