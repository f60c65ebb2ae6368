import Verif.Lex.Run
/-
The lexer goroutine and its consumer (`lex.go` 299-311, 538-562 and `main.go` 170-199): two
processes and an unbuffered channel, as a labelled transition system.
-/
namespace Clara.Lex

/-- The lexer goroutine. -/
inductive Prod
  /-- about to run the next state function -/
  | run (s : LS)
  /-- blocked in `l.tokens <- t`; afterwards it continues with `next` (`nil` state if `none`) -/
  | send (t : Token) (next : Option LS)
  /-- the state function is `nil`: about to `close(l.tokens)` -/
  | closing
  | closed

/-- What `lexAndParse` hands on: the filtered tokens for the parser, or a lexical error. -/
inductive Handed
  | tokens (ts : List Token)
  | error (t : Token)
  deriving DecidableEq

/-- The loop of `lexAndParse` (`main.go` 177-192). -/
inductive Cons
  /-- blocked in `lexer.NextToken()` -/
  | recv (acc : List Token)
  /-- inspecting the token received -/
  | got (acc : List Token) (t : Token)
  | done (r : Handed)
  /-- received `nil` from a closed channel and dereferenced it -/
  | crashed

structure Sys where
  prod : Prod
  cons : Cons

/-- `EOL`, `Space` and `Comment` tokens are skipped (`main.go` 182-183). -/
def blank (t : Token) : Bool := t.kind == .eol || t.kind == .space || t.kind == .comment

def Prod.after : Option LS → Prod
  | some s => .run s
  | none => .closing

/-- `main.go` 181-191: what the consumer does with a token. -/
def Cons.react (acc : List Token) (t : Token) : Cons :=
  if blank t then .recv acc
  else if t.kind = .err then .done (.error t)
  else if t.kind = .eof then .done (.tokens (acc ++ [t]))
  else .recv (acc ++ [t])

/-- One step of the system; the scheduler may pick any enabled one. -/
inductive Sys.Step (u : Uni) : Sys → Sys → Prop
  | compute {s c} : Step u ⟨.run s, c⟩ ⟨.send (lexOne u s).1 (lexOne u s).2, c⟩
  | rendezvous {t o acc} : Step u ⟨.send t o, .recv acc⟩ ⟨Prod.after o, .got acc t⟩
  | close {c} : Step u ⟨.closing, c⟩ ⟨.closed, c⟩
  | react {p acc t} : Step u ⟨p, .got acc t⟩ ⟨p, Cons.react acc t⟩
  | recvClosed {acc} : Step u ⟨.closed, .recv acc⟩ ⟨.closed, .crashed⟩

/-- Both processes have just started. -/
def Sys.init (input : Bytes) : Sys := ⟨.run ⟨[], [], input⟩, .recv []⟩

inductive Sys.Reach (u : Uni) (input : Bytes) : Sys → Prop
  | init : Reach u input (Sys.init input)
  | step {a b} : Reach u input a → Sys.Step u a b → Reach u input b

/-- Tokens the producer still has to deliver. -/
def Prod.pending (u : Uni) : Prod → List Token
  | .run s => lexAll u s
  | .send t (some s) => t :: lexAll u s
  | .send t none => [t]
  | .closing | .closed => []

/-- The consumer's view of the tokens consumed so far. -/
def ConsInv (consumed : List Token) (pending : List Token) : Cons → Prop
  | .recv acc => acc = consumed.filter (fun t => !blank t) ∧
      (∀ t ∈ consumed, t.kind ≠ .eof ∧ t.kind ≠ .err) ∧ pending ≠ []
  | .got acc t => ∃ c, consumed = c ++ [t] ∧ acc = c.filter (fun t => !blank t) ∧
      (∀ t ∈ c, t.kind ≠ .eof ∧ t.kind ≠ .err)
  | .done r => pending = [] ∧ ∃ c t, consumed = c ++ [t] ∧
      ((t.kind = .eof ∧ r = .tokens (c.filter (fun t => !blank t) ++ [t])) ∨
       (t.kind = .err ∧ r = .error t))
  | .crashed => False

def Inv (u : Uni) (input : Bytes) (s : Sys) : Prop :=
  (∀ ls, s.prod = .run ls → ls.cur = []) ∧
  (∀ t ls, s.prod = .send t (some ls) → ls.cur = []) ∧
  ∃ consumed, lex u input = consumed ++ s.prod.pending u ∧ ConsInv consumed (s.prod.pending u) s.cons

theorem lexAll_ne_nil (u : Uni) (s : LS) : lexAll u s ≠ [] := by
  rw [lexAll]; split <;> simp

theorem lex_terminal (u : Uni) (input : Bytes) :
    ∃ ts last, lex u input = ts ++ [last] ∧ (∀ t ∈ ts, t.kind ≠ .eof ∧ t.kind ≠ .err) ∧
      (last.kind = .eof ∨ last.kind = .err) := by
  obtain ⟨ts, last, h1, h2, h3⟩ := lexAll_lossless (u := u) ⟨[], [], input⟩ rfl
  refine ⟨ts, last, h1, fun t ht => ⟨(h2 t ht).1, (h2 t ht).2.1⟩, ?_⟩
  rcases h3 with h | h
  · exact .inl h.1
  · exact .inr h.1

/-- A token of the stream is terminal exactly when nothing follows it. -/
theorem terminal_iff {u : Uni} {input : Bytes} {c p : List Token} {t : Token}
    (h : lex u input = c ++ t :: p) : (t.kind = .eof ∨ t.kind = .err) ↔ p = [] := by
  obtain ⟨ts, last, h1, h2, h3⟩ := lex_terminal u input
  rw [h1] at h
  constructor
  · intro ht
    cases hp : p.reverse with
    | nil => simpa using hp
    | cons x xs =>
      have hpe : p = xs.reverse ++ [x] := by
        have := congrArg List.reverse hp; simpa using this
      rw [hpe] at h
      have e : ts ++ [last] = (c ++ t :: xs.reverse) ++ [x] := by simpa using h
      have := (List.append_inj' e rfl).1
      have hm : t ∈ ts := by rw [this]; simp
      have := h2 t hm
      rcases ht with ht | ht
      · exact absurd ht this.1
      · exact absurd ht this.2
  · rintro rfl
    have := (List.append_inj' h rfl).2
    simp at this
    rwa [← this]

theorem inv_init (u : Uni) (input : Bytes) : Inv u input (Sys.init input) := by
  refine ⟨by rintro ls ⟨⟩; rfl, by rintro t ls ⟨⟩, [], rfl, rfl, by simp, lexAll_ne_nil _ _⟩

theorem lexOne_cur {u : Uni} {s s' : LS} {t : Token} (h : lexOne u s = (t, some s')) : s'.cur = [] := by
  cases hp : s.peek with
  | none => simp [lexOne, hp] at h
  | some r =>
    obtain ⟨d, _, h2, _⟩ := lexOne_emits (u := u) hp s' (by rw [h])
    exact h2

theorem pending_compute (u : Uni) (s : LS) :
    Prod.pending u (.send (lexOne u s).1 (lexOne u s).2) = lexAll u s := by
  cases h : lexOne u s with
  | mk t o =>
    cases o with
    | none => simp [Prod.pending, lexAll_stop h]
    | some s' => simp [Prod.pending, lexAll_step h]

theorem pending_send (u : Uni) (t : Token) (o : Option LS) :
    Prod.pending u (.send t o) = t :: Prod.pending u (Prod.after o) := by
  cases o <;> rfl

theorem inv_step {u : Uni} {input : Bytes} {a b : Sys} (h : Inv u input a) (hs : Sys.Step u a b) :
    Inv u input b := by
  obtain ⟨hr, hsd, consumed, hl, hc⟩ := h
  cases hs with
  | @compute s c =>
    refine ⟨by rintro ls ⟨⟩, ?_, consumed, ?_, ?_⟩
    · intro t ls he
      simp only [Prod.send.injEq] at he
      exact lexOne_cur (u := u) (s := s) (t := t) (by rw [← he.1, ← he.2])
    · rw [pending_compute]; exact hl
    · simp only [pending_compute]; exact hc
  | @rendezvous t o acc =>
    simp only [pending_send] at hl hc
    refine ⟨?_, by intro t' ls he; cases o <;> simp [Prod.after] at he, consumed ++ [t], ?_, ?_⟩
    · intro ls he
      cases o with
      | none => simp [Prod.after] at he
      | some s' => simp [Prod.after] at he; subst he; exact hsd t s' rfl
    · simp [hl]
    · exact ⟨consumed, rfl, hc.1, hc.2.1⟩
  | @close c =>
    exact ⟨by rintro ls ⟨⟩, by rintro t ls ⟨⟩, consumed, hl, hc⟩
  | @react p acc t =>
    refine ⟨hr, hsd, consumed, hl, ?_⟩
    obtain ⟨c, rfl, rfl, hnt⟩ := hc
    have hterm := terminal_iff (u := u) (input := input) (c := c) (t := t) (p := p.pending u)
      (by simp only [hl, List.append_assoc, List.singleton_append])
    unfold Cons.react
    dsimp only
    split
    · next hb =>
      refine ⟨by simp [hb], ?_, ?_⟩
      · intro x hx
        rcases List.mem_append.1 hx with hx | hx
        · exact hnt x hx
        · simp at hx; subst hx
          constructor <;> (intro e; simp [blank, e] at hb)
      · intro e
        rcases hterm.2 e with e | e <;> simp [blank, e] at hb
    · next hb =>
      split
      · next he => exact ⟨hterm.1 (.inr he), c, t, rfl, .inr ⟨he, rfl⟩⟩
      · split
        · next he => exact ⟨hterm.1 (.inl he), c, t, rfl, .inl ⟨he, rfl⟩⟩
        · next he1 he2 =>
          refine ⟨by simp [hb], ?_, ?_⟩
          · intro x hx
            rcases List.mem_append.1 hx with hx | hx
            · exact hnt x hx
            · simp at hx; subst hx; exact ⟨he2, he1⟩
          · intro e
            rcases hterm.2 e with e | e
            · exact he2 e
            · exact he1 e
  | @recvClosed acc =>
    exact absurd rfl hc.2.2

theorem inv_reach {u : Uni} {input : Bytes} {s : Sys} (h : Sys.Reach u input s) : Inv u input s := by
  induction h with
  | init => exact inv_init u input
  | step _ hs ih => exact inv_step ih hs

/-- A measure that every step of a reachable system decreases. -/
def Sys.measure (s : Sys) : Nat :=
  (match s.prod with
    | .run ls => 4 * ls.rest.length + 6
    | .send _ (some ls) => 4 * ls.rest.length + 6 + 3
    | .send _ none => 5
    | .closing => 1
    | .closed => 0) +
  (match s.cons with
    | .recv _ => 1
    | .got _ _ => 2
    | .done _ => 0
    | .crashed => 0)

theorem measure_step {u : Uni} {a b : Sys} (h : Sys.Step u a b) : b.measure < a.measure := by
  cases h with
  | @compute s c =>
    cases h : lexOne u s with
    | mk t o =>
      cases o with
      | none => simp [Sys.measure]
      | some s' =>
        have := lexOne_lt h
        simp [Sys.measure]; omega
  | @rendezvous t o acc => cases o <;> simp [Sys.measure, Prod.after]
  | @close c => simp [Sys.measure]
  | @react p acc t =>
    unfold Cons.react
    split
    · simp [Sys.measure]
    · split
      · simp [Sys.measure]
      · split <;> simp [Sys.measure]
  | recvClosed => simp [Sys.measure]

end Clara.Lex
