import Verif.Types.AsmName
/-
The texts of types in error messages: `String` (`symtab.go` 203-239) and the descriptions of functions (`symtab.go` 359-374, 471-480).

`pname` are the declared names of type parameters.  Functions of `strings` and `fmt` are modelled as far as used: `join` and concatenation.
-/
namespace Clara.Types

mutual
/-- `(t *Type) String` (`symtab.go` 203-239); the names of the kinds are in `symtab.go` 43-55. -/
def Ty.text (pname : Nat → String) : Ty → Str
  | .array e => '[' :: ']' :: e.text pname
  | .struct n ts => if ts.isEmpty then n.toList else n.toList ++ '«' :: (join [','] (textAll pname ts) ++ ['»'])
  | .enum n ts => if ts.isEmpty then n.toList else n.toList ++ '«' :: (join [','] (textAll pname ts) ++ ['»'])
  | .fn _ ps r => 'f' :: 'n' :: '(' :: (join [','] (textAll pname ps) ++ ')' :: ' ' :: r.text pname)
  | .param k => (pname k).toList
  | .prim p => p.kindName
def textAll (pname : Nat → String) : List Ty → List Str
  | [] => []
  | t :: ts => t.text pname :: textAll pname ts
end

/-- `(s *Symbol) Describe` of a function (`symtab.go` 471-480): a candidate in the list of an overload error (`typecheck.go` 682, 744, 779). -/
def candidate (pname : Nat → String) (name : String) (params : List Ty) (ret : Ty) : Str :=
  name.toList ++ '(' :: (join [',', ' '] (textAll pname params) ++ ')' :: ' ' :: ret.text pname)

/-- `(ft *FunctionType) Describe` (`symtab.go` 359-374): the name of a function that a program has for itself (`codegen.go` 442). -/
def describe (pname : Nat → String) (kind : FnKind) (name : String) (params : List Ty) : Str :=
  if kind = .external then name.toList ++ " (external)".toList
  else name.toList ++ '(' :: (join [',', ' '] (textAll pname params) ++ [')'])

/-! ### Texts as trees -/

/-- What can be read off a text. -/
inductive Tx
  | named (n : Str) (args : List Tx)
  | arr (e : Tx)
  | fn (ps : List Tx) (r : Tx)

mutual
def Tx.text : Tx → Str
  | .named n ts => if ts.isEmpty then n else n ++ '«' :: (join [','] (txAll ts) ++ ['»'])
  | .arr e => '[' :: ']' :: e.text
  | .fn ps r => 'f' :: 'n' :: '(' :: (join [','] (txAll ps) ++ ')' :: ' ' :: r.text)
def txAll : List Tx → List Str
  | [] => []
  | t :: ts => t.text :: txAll ts
end

mutual
def Ty.tx (pname : Nat → String) : Ty → Tx
  | .array e => .arr (e.tx pname)
  | .struct n ts => .named n.toList (tysTx pname ts)
  | .enum n ts => .named n.toList (tysTx pname ts)
  | .fn _ ps r => .fn (tysTx pname ps) (r.tx pname)
  | .param k => .named (pname k).toList []
  | .prim p => .named p.kindName []
def tysTx (pname : Nat → String) : List Ty → List Tx
  | [] => []
  | t :: ts => t.tx pname :: tysTx pname ts
end

theorem tysTx_isEmpty (pname : Nat → String) (ts : List Ty) : (tysTx pname ts).isEmpty = ts.isEmpty := by cases ts <;> rfl

mutual
theorem text_tx (pname : Nat → String) : (t : Ty) → t.text pname = (t.tx pname).text
  | .array e => by simp only [Ty.text, Ty.tx, Tx.text, text_tx pname e]
  | .struct n ts => by simp only [Ty.text, Ty.tx, Tx.text, tysTx_isEmpty, textAll_tx pname ts]
  | .enum n ts => by simp only [Ty.text, Ty.tx, Tx.text, tysTx_isEmpty, textAll_tx pname ts]
  | .fn _ ps r => by simp only [Ty.text, Ty.tx, Tx.text, textAll_tx pname ps, text_tx pname r]
  | .param k => by simp only [Ty.text, Ty.tx, Tx.text, List.isEmpty_nil, if_true]
  | .prim p => by simp only [Ty.text, Ty.tx, Tx.text, List.isEmpty_nil, if_true]
theorem textAll_tx (pname : Nat → String) : (ts : List Ty) → textAll pname ts = txAll (tysTx pname ts)
  | [] => rfl
  | t :: ts => by simp only [textAll, tysTx, txAll, text_tx pname t, textAll_tx pname ts]
end

/-- The characters with a meaning in texts. -/
def isMark (c : Char) : Prop := c = '«' ∨ c = '»' ∨ c = '(' ∨ c = ')' ∨ c = ',' ∨ c = '['

/-- A name: not empty and without these characters. -/
def plainName (n : Str) : Prop := n ≠ [] ∧ ∀ c ∈ n, ¬ isMark c

mutual
def Tx.plain : Tx → Prop
  | .named n ts => plainName n ∧ txPlainAll ts
  | .arr e => e.plain
  | .fn ps r => txPlainAll ps ∧ r.plain
def txPlainAll : List Tx → Prop
  | [] => True
  | t :: ts => t.plain ∧ txPlainAll ts
end

/-- What comes after a text begins with an end. -/
def Ends (r : Str) : Prop := ∀ c, r.head? = some c → c = '»' ∨ c = ')' ∨ c = ','

/-- What comes after a list. -/
def Closes (r : Str) : Prop := ∃ c, r.head? = some c ∧ (c = '»' ∨ c = ')')

theorem Closes.ends {r : Str} (h : Closes r) : Ends r := by
  obtain ⟨c, h1, h2⟩ := h
  intro d hd
  rw [h1] at hd
  injection hd with hd
  subst hd
  rcases h2 with h | h
  · exact .inl h
  · exact .inr (.inl h)

theorem split_name : ∀ {n m r r' : Str}, (∀ c ∈ n, ¬ isMark c) → (∀ c ∈ m, ¬ isMark c) → (∀ c, r.head? = some c → isMark c) →
    (∀ c, r'.head? = some c → isMark c) → n ++ r = m ++ r' → n = m ∧ r = r'
  | [], [], _, _, _, _, _, _, h => ⟨rfl, h⟩
  | [], d :: m, r, r', _, hm, hr, _, h => by
    have : r = d :: (m ++ r') := h
    exact absurd (hr d (by rw [this]; rfl)) (hm d (by simp))
  | c :: n, [], r, r', hn, _, _, hr', h => by
    have : r' = c :: (n ++ r) := h.symm
    exact absurd (hr' c (by rw [this]; rfl)) (hn c (by simp))
  | c :: n, d :: m, r, r', hn, hm, hr, hr', h => by
    simp only [List.cons_append, List.cons.injEq] at h
    obtain ⟨h1, h2⟩ := split_name (fun x hx => hn x (by simp [hx])) (fun x hx => hm x (by simp [hx])) hr hr' h.2
    exact ⟨by rw [h.1, h1], h2⟩

theorem Ends.mark {r : Str} (h : Ends r) : ∀ c, r.head? = some c → isMark c := by
  intro c hc
  rcases h c hc with h | h | h <;> simp [isMark, h]

/-- A text of a name: the name and what follows it. -/
theorem named_text (n : Str) (ts : List Tx) (r : Str) : (Tx.named n ts).text ++ r =
    n ++ (if ts.isEmpty then r else '«' :: (join [','] (txAll ts) ++ '»' :: r)) := by
  rw [Tx.text]
  split <;> simp

theorem text_first {t : Tx} (h : t.plain) : ∃ c s, t.text = c :: s ∧ c ≠ '»' ∧ c ≠ ')' ∧ c ≠ ',' := by
  match t with
  | .arr e => exact ⟨'[', _, rfl, by decide, by decide, by decide⟩
  | .fn ps r => exact ⟨'f', _, rfl, by decide, by decide, by decide⟩
  | .named n ts =>
    have e := named_text n ts []
    rw [List.append_nil] at e
    obtain ⟨⟨h1, h2⟩, -⟩ := h
    cases n with
    | nil => exact absurd rfl h1
    | cons c n =>
      have hc := h2 c (by simp)
      refine ⟨c, _, e, ?_, ?_, ?_⟩ <;> (rintro rfl; exact hc (by simp [isMark]))

theorem fn_marks : ∀ c ∈ ['f', 'n'], ¬ isMark c := by
  intro c hc
  simp only [List.mem_cons, List.not_mem_nil, or_false] at hc
  rcases hc with rfl | rfl <;> simp [isMark]

theorem join_cons (sep x : Str) (xs : List Str) : join sep (x :: xs) = x ++ (if xs = [] then [] else sep ++ join sep xs) := by
  cases xs with
  | nil => simp [join]
  | cons y ys => simp [join]

theorem txAll_nil {ts : List Tx} : txAll ts = [] ↔ ts = [] := by cases ts <;> simp [txAll]

mutual
/-- A text can be read in one way. -/
theorem tx_read : (t u : Tx) → t.plain → u.plain → {r r' : Str} → Ends r → Ends r' → t.text ++ r = u.text ++ r' → t = u ∧ r = r'
  | .arr e, .arr e', h, h', r, r', hr, hr', hh => by
    simp only [Tx.text, List.cons_append, List.cons.injEq, true_and] at hh
    obtain ⟨h1, h2⟩ := tx_read e e' h h' hr hr' hh
    exact ⟨by rw [h1], h2⟩
  | .fn ps t, .fn qs u, h, h', r, r', hr, hr', hh => by
    simp only [Tx.text, List.cons_append, List.cons.injEq, true_and, List.append_assoc] at hh
    obtain ⟨h1, h2⟩ := txs_read [] ps qs h.1 h'.1 ⟨')', rfl, .inr rfl⟩ ⟨')', rfl, .inr rfl⟩ hh
    simp only [List.cons.injEq, true_and] at h2
    obtain ⟨h3, h4⟩ := tx_read t u h.2 h'.2 hr hr' h2
    exact ⟨by rw [h1, h3], h4⟩
  | .named n ts, .named m us, h, h', r, r', hr, hr', hh => by
    rw [named_text, named_text] at hh
    have hm : ∀ (ts : List Tx) (r : Str), Ends r → ∀ c,
        (if ts.isEmpty then r else '«' :: (join [','] (txAll ts) ++ '»' :: r)).head? = some c → isMark c := by
      intro ts r hr c hc
      split at hc
      · exact hr.mark c hc
      · injection hc with hc; simp [isMark, ← hc]
    obtain ⟨h1, h2⟩ := split_name h.1.2 h'.1.2 (hm ts r hr) (hm us r' hr') hh
    subst h1
    match ts, us with
    | [], [] => exact ⟨rfl, h2⟩
    | [], _ :: _ =>
      have : r = '«' :: _ := h2
      rcases hr '«' (by rw [this]; rfl) with h | h | h <;> exact absurd h (by decide)
    | _ :: _, [] =>
      have : r' = '«' :: _ := h2.symm
      rcases hr' '«' (by rw [this]; rfl) with h | h | h <;> exact absurd h (by decide)
    | t :: ts, u :: us =>
      simp only [List.isEmpty_cons, Bool.false_eq_true, if_false, List.cons.injEq, true_and] at h2
      obtain ⟨h3, h4⟩ := txs_read [] (t :: ts) (u :: us) h.2 h'.2 ⟨'»', rfl, .inl rfl⟩ ⟨'»', rfl, .inl rfl⟩ h2
      simp only [List.cons.injEq, true_and] at h4
      exact ⟨by rw [h3], h4⟩
  | .arr e, .fn qs u, _, _, _, _, _, _, hh => by simp [Tx.text] at hh
  | .fn qs u, .arr e, _, _, _, _, _, _, hh => by simp [Tx.text] at hh
  | .arr e, .named n ts, _, h, _, _, _, _, hh => by
    rw [named_text] at hh
    obtain ⟨⟨h1, h2⟩, -⟩ := h
    cases n with
    | nil => exact absurd rfl h1
    | cons c n =>
      simp only [Tx.text, List.cons_append, List.cons.injEq] at hh
      exact absurd (by simp [isMark, ← hh.1]) (h2 c (by simp))
  | .named n ts, .arr e, h, _, _, _, _, _, hh => by
    rw [named_text] at hh
    obtain ⟨⟨h1, h2⟩, -⟩ := h
    cases n with
    | nil => exact absurd rfl h1
    | cons c n =>
      simp only [Tx.text, List.cons_append, List.cons.injEq] at hh
      exact absurd (by simp [isMark, hh.1]) (h2 c (by simp))
  | .fn ps t, .named n ts, _, h, r, r', _, hr', hh => by
    rw [named_text] at hh
    have e : (Tx.fn ps t).text ++ r = ['f', 'n'] ++ ('(' :: ((join [','] (txAll ps) ++ ')' :: ' ' :: t.text) ++ r)) := by
      rw [Tx.text]; rfl
    rw [e] at hh
    obtain ⟨-, h2⟩ := split_name fn_marks h.1.2 (by intro c hc; injection hc with hc; simp [isMark, ← hc]) (by
      intro c hc
      split at hc
      · exact hr'.mark c hc
      · injection hc with hc; simp [isMark, ← hc]) hh
    split at h2
    · rcases hr' '(' (by rw [← h2]; rfl) with h | h | h <;> exact absurd h (by decide)
    · simp at h2
  | .named n ts, .fn ps t, h, _, r, r', hr, _, hh => by
    rw [named_text] at hh
    have e : (Tx.fn ps t).text ++ r' = ['f', 'n'] ++ ('(' :: ((join [','] (txAll ps) ++ ')' :: ' ' :: t.text) ++ r')) := by
      rw [Tx.text]; rfl
    rw [e] at hh
    obtain ⟨-, h2⟩ := split_name h.1.2 fn_marks (by
      intro c hc
      split at hc
      · exact hr.mark c hc
      · injection hc with hc; simp [isMark, ← hc]) (by intro c hc; injection hc with hc; simp [isMark, ← hc]) hh
    split at h2
    · rcases hr '(' (by rw [h2]; rfl) with h | h | h <;> exact absurd h (by decide)
    · simp at h2
/-- A list of texts with commas can be read in one way; `sp` follows each comma. -/
theorem txs_read (sp : Str) : (ts us : List Tx) → txPlainAll ts → txPlainAll us → {r r' : Str} → Closes r → Closes r' →
    join (',' :: sp) (txAll ts) ++ r = join (',' :: sp) (txAll us) ++ r' → ts = us ∧ r = r'
  | [], [], _, _, r, r', _, _, hh => ⟨rfl, hh⟩
  | [], u :: us, _, h, r, r', ⟨c, h1, h2⟩, _, hh => by
    obtain ⟨d, s, e, n1, n2, -⟩ := text_first h.1
    rw [txAll, txAll, join_cons, e] at hh
    have : r = d :: _ := hh
    rw [this] at h1
    injection h1 with h1
    subst h1
    rcases h2 with h | h
    · exact absurd h n1
    · exact absurd h n2
  | u :: us, [], h, _, r, r', _, ⟨c, h1, h2⟩, hh => by
    obtain ⟨d, s, e, n1, n2, -⟩ := text_first h.1
    rw [txAll, txAll, join_cons, e] at hh
    have : r' = d :: _ := hh.symm
    rw [this] at h1
    injection h1 with h1
    subst h1
    rcases h2 with h | h
    · exact absurd h n1
    · exact absurd h n2
  | t :: ts, u :: us, h, h', r, r', hr, hr', hh => by
    rw [txAll, txAll, join_cons, join_cons, List.append_assoc, List.append_assoc] at hh
    have he : ∀ (ts : List Tx) (r : Str), Closes r →
        Ends ((if txAll ts = [] then [] else ',' :: sp ++ join (',' :: sp) (txAll ts)) ++ r) := by
      intro ts r hr
      split
      · exact hr.ends
      · intro c hc
        injection hc with hc
        exact .inr (.inr hc.symm)
    obtain ⟨h1, h2⟩ := tx_read t u h.1 h'.1 (he ts r hr) (he us r' hr') hh
    match ts, us with
    | [], [] => exact ⟨by rw [h1], by simpa [txAll] using h2⟩
    | [], u' :: us =>
      obtain ⟨c, e, hc⟩ := hr
      have : r = ',' :: (sp ++ join (',' :: sp) (txAll (u' :: us)) ++ r') := by simpa [txAll] using h2
      rw [this] at e
      injection e with e
      subst e
      rcases hc with h | h <;> exact absurd h (by decide)
    | t' :: ts, [] =>
      obtain ⟨c, e, hc⟩ := hr'
      have : r' = ',' :: (sp ++ join (',' :: sp) (txAll (t' :: ts)) ++ r) := by simpa [txAll] using h2.symm
      rw [this] at e
      injection e with e
      subst e
      rcases hc with h | h <;> exact absurd h (by decide)
    | t' :: ts, u' :: us =>
      rw [if_neg (by simp [txAll]), if_neg (by simp [txAll]), List.append_assoc, List.append_assoc] at h2
      have h2 := List.append_cancel_left h2
      obtain ⟨h3, h4⟩ := txs_read sp (t' :: ts) (u' :: us) h.2 h'.2 hr hr' h2
      exact ⟨by rw [h1, h3], h4⟩
end

end Clara.Types
