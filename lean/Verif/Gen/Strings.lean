import Verif.Lex.Grammar
import Mathlib.Data.List.Nodup
/-
String literals in the assembly output (`asm.go` 392-423).
-/
namespace Clara.Gen
open Clara.Lex

/-! ### The table of literals -/

/-- The fields `literals` and `sIndex` of `gasWriter` (`asm.go` 346-351).  The map is a list of entries
with different keys; the label `.LC n` is the number `n`. -/
structure Lits where
  table : List (Bytes × Nat) := []
  next : Nat := 0

/-- `stringLit` (`asm.go` 401-411): the label for a literal, given its source spelling. -/
def stringLit (st : Lits) (s : Bytes) : Nat × Lits :=
  match st.table.lookup s with
  | some n => (n, st)
  | none => (st.next, { table := st.table ++ [(s, st.next)], next := st.next + 1 })

/-- The labels for a sequence of literals. -/
def stringLits : Lits → List Bytes → List Nat × Lits
  | st, [] => ([], st)
  | st, s :: ss =>
    let a := stringLit st s
    let b := stringLits a.2 ss
    (a.1 :: b.1, b.2)

/-! ### `strconv.Unquote` on double-quoted text -/

/-- `utf8.AppendRune`. -/
def encodeRune (r : Nat) : Bytes :=
  if r < 0x80 then [r.toUInt8]
  else if r < 0x800 then [(0xC0 + r / 64).toUInt8, (0x80 + r % 64).toUInt8]
  else if r < 0x10000 then
    [(0xE0 + r / 4096).toUInt8, (0x80 + r / 64 % 64).toUInt8, (0x80 + r % 64).toUInt8]
  else [(0xF0 + r / 262144).toUInt8, (0x80 + r / 4096 % 64).toUInt8, (0x80 + r / 64 % 64).toUInt8,
    (0x80 + r % 64).toUInt8]

/-- One-letter escapes of `strconv.UnquoteChar`.  The numeric escapes (`\x`, `\u`, `\U`, octal) are not
modelled: the lexer rejects literals that contain them (`lex.go` 437-441, 586-588). -/
def goEscape (c : UInt8) : Option UInt8 :=
  if c = 97 then some 7 else if c = 98 then some 8 else if c = 102 then some 12
  else if c = 110 then some 10 else if c = 114 then some 13 else if c = 116 then some 9
  else if c = 118 then some 11 else if c = 92 then some 92 else if c = 34 then some 34 else none

/-- The loop of `strconv.Unquote` after the opening quote: raw line feeds are an error, bytes that are
not UTF-8 become U+FFFD, and the closing quote must be the end of the text. -/
def unquoteLoop (bs : Bytes) : Option Bytes :=
  match h : decode bs with
  | none => none
  | some (r, w) =>
    have := decode_width h
    if r = 34 then (if bs.length = 1 then some [] else none)
    else if r = 10 then none
    else if r = 92 then
      match bs with
      | _ :: c :: t => do
        let e ← goEscape c
        let x ← unquoteLoop t
        return e :: x
      | _ => none
    else do
      let x ← unquoteLoop (bs.drop w)
      return encodeRune r ++ x
  termination_by bs.length
  decreasing_by
    · simp only [List.length_cons]; omega
    · simp only [List.length_drop]; omega

/-- `strconv.Unquote`. -/
def unquote : Bytes → Option Bytes
  | 34 :: t => unquoteLoop t
  | _ => none

/-- One literal as written by `flush` (`asm.go` 413-427): its label, the length word (untagged) and the
text between the quotes of the `.ascii` directive, without the final `\0`. -/
structure Emitted where
  label : Nat
  len : Nat
  text : Bytes
  deriving DecidableEq

/-- One iteration of `flush`; `none` is the panic. -/
def emitLit (e : Bytes × Nat) : Option Emitted :=
  (unquote e.1).map (fun raw => { label := e.2, len := raw.length, text := (e.1.drop 1).dropLast })

/-- `flush` writes the literals in some order (the iteration order of a Go map). -/
def flushLits (order : List (Bytes × Nat)) : Option (List Emitted) := order.mapM emitLit

/-- The bytes that the assembler makes of the text of an `.ascii` directive, for the escapes that the
lexer lets through (GNU as manual, "Strings"). -/
def gasBytes : Bytes → Bytes
  | 92 :: 110 :: t => 10 :: gasBytes t
  | 92 :: 114 :: t => 13 :: gasBytes t
  | 92 :: c :: t => c :: gasBytes t
  | b :: t => b :: gasBytes t
  | [] => []

/-- `utf8.ValidString`. -/
def validUtf8 (bs : Bytes) : Bool :=
  match h : decode bs with
  | none => true
  | some (r, w) =>
    have := decode_width h
    !(r == runeError && w == 1) && validUtf8 (bs.drop w)
  termination_by bs.length
  decreasing_by simp only [List.length_drop]; omega

/-! ### Facts about the table -/

theorem lookup_mem {l : List (Bytes × Nat)} {s : Bytes} {n : Nat} (h : l.lookup s = some n) :
    (s, n) ∈ l := by
  induction l with
  | nil => cases h
  | cons x l ih =>
    obtain ⟨a, b⟩ := x
    rw [List.lookup_cons] at h
    split at h
    · rename_i he; simp only [beq_iff_eq] at he; cases h; simp [he]
    · exact List.mem_cons_of_mem _ (ih h)

theorem lookup_none {l : List (Bytes × Nat)} {s : Bytes} (h : l.lookup s = none) :
    s ∉ l.map (·.1) := by
  induction l with
  | nil => simp
  | cons x l ih =>
    obtain ⟨a, b⟩ := x
    rw [List.lookup_cons] at h
    split at h
    · cases h
    · rename_i he
      simp only [beq_eq_false_iff_ne] at he
      simp only [List.map_cons, List.mem_cons, not_or]
      exact ⟨he, ih h⟩

/-- Keys and labels are different, and labels are below the counter. -/
structure Lits.Ok (st : Lits) : Prop where
  keys : (st.table.map (·.1)).Nodup
  labs : (st.table.map (·.2)).Nodup
  low : ∀ x ∈ st.table, x.2 < st.next

theorem Lits.Ok.start : ({} : Lits).Ok := ⟨by simp, by simp, by simp⟩

theorem stringLit_ok {st : Lits} (h : st.Ok) (s : Bytes) :
    (stringLit st s).2.Ok ∧ (s, (stringLit st s).1) ∈ (stringLit st s).2.table ∧
    (∀ x ∈ st.table, x ∈ (stringLit st s).2.table) ∧
    (∀ x ∈ (stringLit st s).2.table, x ∈ st.table ∨ x = (s, (stringLit st s).1)) := by
  unfold stringLit
  split
  · rename_i n hn
    exact ⟨h, lookup_mem hn, fun _ hx => hx, fun _ hx => .inl hx⟩
  · rename_i hn
    refine ⟨⟨?_, ?_, ?_⟩, ?_, ?_, ?_⟩
    · simp only [List.map_append, List.map_cons, List.map_nil]
      rw [List.nodup_append]
      refine ⟨h.keys, by simp, ?_⟩
      rintro a ha b hb rfl
      rw [List.mem_singleton] at hb
      subst hb
      exact lookup_none hn ha
    · simp only [List.map_append, List.map_cons, List.map_nil]
      rw [List.nodup_append]
      refine ⟨h.labs, by simp, ?_⟩
      rintro a ha b hb rfl
      rw [List.mem_singleton] at hb
      subst hb
      rw [List.mem_map] at ha
      obtain ⟨x, hx, he⟩ := ha
      have := h.low x hx
      omega
    · intro x hx
      rw [List.mem_append] at hx
      rcases hx with hx | hx
      · have := h.low x hx; simp only; omega
      · rw [List.mem_singleton] at hx; subst hx; simp
    · simp
    · intro x hx; simp [hx]
    · intro x hx; simpa using hx

theorem stringLits_ok {st : Lits} (h : st.Ok) (ss : List Bytes) :
    (stringLits st ss).2.Ok ∧ (stringLits st ss).1.length = ss.length ∧
    (∀ x ∈ st.table, x ∈ (stringLits st ss).2.table) ∧
    (∀ x ∈ (stringLits st ss).2.table, x ∈ st.table ∨ x.1 ∈ ss) ∧
    (∀ (i : Nat) (s : Bytes) (n : Nat), ss[i]? = some s → (stringLits st ss).1[i]? = some n →
      (s, n) ∈ (stringLits st ss).2.table) := by
  induction ss generalizing st with
  | nil => exact ⟨h, rfl, fun _ hx => hx, fun _ hx => .inl hx, by simp⟩
  | cons s ss ih =>
    obtain ⟨a1, a2, a3, a4⟩ := stringLit_ok h s
    obtain ⟨b1, b2, b3, b4, b5⟩ := ih a1
    simp only [stringLits]
    refine ⟨b1, by simp [b2], fun x hx => b3 x (a3 x hx), ?_, ?_⟩
    · intro x hx
      rcases b4 x hx with hx | hx
      · rcases a4 x hx with hx | hx
        · exact .inl hx
        · subst hx; simp
      · simp [hx]
    · intro i s' n hs hn
      cases i with
      | zero =>
        simp only [List.getElem?_cons_zero, Option.some.injEq] at hs hn
        subst hs hn
        exact b3 _ a2
      | succ i =>
        simp only [List.getElem?_cons_succ] at hs hn
        exact b5 i s' n hs hn

theorem entry_inj {l : List (Bytes × Nat)} (h1 : (l.map (·.1)).Nodup) (h2 : (l.map (·.2)).Nodup)
    {s s' : Bytes} {n n' : Nat} (ha : (s, n) ∈ l) (hb : (s', n') ∈ l) : s = s' ↔ n = n' := by
  constructor
  · rintro rfl
    exact congrArg Prod.snd (List.inj_on_of_nodup_map h1 ha hb rfl)
  · rintro rfl
    exact congrArg Prod.fst (List.inj_on_of_nodup_map h2 ha hb rfl)

/-! ### Facts about unquoting -/

theorem runes_cons {bs : Bytes} {r : Nat} {rs : List Nat} (h : runes bs = r :: rs) :
    ∃ w, decode bs = some (r, w) ∧ runes (bs.drop w) = rs := by
  rw [runes] at h
  split at h
  · cases h
  · rename_i r' w hd
    simp only [List.cons.injEq] at h
    obtain ⟨rfl, h⟩ := h
    exact ⟨w, hd, h⟩

theorem unquoteLoop_eq {bs : Bytes} {r w : Nat} (h : decode bs = some (r, w)) :
    unquoteLoop bs =
      if r = 34 then (if bs.length = 1 then some [] else none)
      else if r = 10 then none
      else if r = 92 then
        match bs with
        | _ :: c :: t => do
          let e ← goEscape c
          let x ← unquoteLoop t
          return e :: x
        | _ => none
      else do
        let x ← unquoteLoop (bs.drop w)
        return encodeRune r ++ x := by
  rw [unquoteLoop]
  split
  · rename_i h'; rw [h] at h'; cases h'
  · rename_i r' w' h'
    rw [h] at h'
    cases h'
    rcases bs with _ | ⟨a, _ | ⟨c, t⟩⟩ <;> rfl

theorem validUtf8_eq {bs : Bytes} {r w : Nat} (h : decode bs = some (r, w)) :
    validUtf8 bs = (!(r == runeError && w == 1) && validUtf8 (bs.drop w)) := by
  rw [validUtf8]
  split
  · rename_i h'; rw [h] at h'; cases h'
  · rename_i r' w' h'
    rw [h] at h'
    cases h'
    rfl

theorem toUInt8_of {n : Nat} {b : UInt8} (h : n = b.toNat) : n.toUInt8 = b := by
  subst h; simp

/-- A rune above 127 that is not an encoding error: its bytes are its encoding, and are above 127. -/
theorem decode1_high {b : UInt8} {t : Bytes} (hb : 128 ≤ b.toNat)
    (hv : ¬ ((decode1 b t).1 = runeError ∧ (decode1 b t).2 = 1)) :
    encodeRune (decode1 b t).1 = (b :: t).take (decode1 b t).2 ∧
    ∀ x ∈ (b :: t).take (decode1 b t).2, 128 ≤ x.toNat := by
  have hlt := b.toNat_lt
  revert hv
  unfold decode1
  simp only
  rw [if_neg (by omega)]
  split
  · intro h; exact absurd ⟨rfl, rfl⟩ h
  rename_i h1
  split
  · rename_i h2
    split
    · rename_i b1 t'
      split
      · rename_i hc
        intro _
        simp only [isCont, Bool.and_eq_true, decide_eq_true_eq] at hc
        refine ⟨?_, ?_⟩
        · rw [encodeRune, if_neg (by omega), if_pos (by omega)]
          simp only [List.take_succ_cons, List.take_zero, List.cons.injEq, and_true]
          exact ⟨toUInt8_of (by omega), toUInt8_of (by omega)⟩
        · simp only [List.take_succ_cons, List.take_zero, List.mem_cons, List.not_mem_nil, or_false]
          rintro x (rfl | rfl) <;> omega
      · intro h; exact absurd ⟨rfl, rfl⟩ h
    · intro h; exact absurd ⟨rfl, rfl⟩ h
  rename_i h2
  split
  · rename_i h3
    split
    · rename_i b1 b2 t'
      generalize hlo : (if b.toNat = 224 then 160 else 128) = lo
      generalize hhi : (if b.toNat = 237 then 159 else 191) = hi
      split
      · rename_i hc
        intro _
        simp only [isCont, Bool.and_eq_true, decide_eq_true_eq] at hc
        obtain ⟨⟨c1, c2⟩, c3⟩ := hc
        have c4 : 0x80 ≤ b1.toNat := by split at hlo <;> omega
        have c6 : b.toNat = 224 → 0xA0 ≤ b1.toNat := by intro h; rw [if_pos h] at hlo; omega
        have c5 : b1.toNat ≤ 0xBF := by split at hhi <;> omega
        refine ⟨?_, ?_⟩
        · rw [encodeRune, if_neg (by omega), if_neg (by omega), if_pos (by omega)]
          simp only [List.take_succ_cons, List.take_zero, List.cons.injEq, and_true]
          exact ⟨toUInt8_of (by omega), toUInt8_of (by omega), toUInt8_of (by omega)⟩
        · simp only [List.take_succ_cons, List.take_zero, List.mem_cons, List.not_mem_nil, or_false]
          rintro x (rfl | rfl | rfl) <;> omega
      · intro h; exact absurd ⟨rfl, rfl⟩ h
    · intro h; exact absurd ⟨rfl, rfl⟩ h
  rename_i h3
  split
  · rename_i h4
    split
    · rename_i b1 b2 b3 t'
      generalize hlo : (if b.toNat = 240 then 144 else 128) = lo
      generalize hhi : (if b.toNat = 244 then 143 else 191) = hi
      split
      · rename_i hc
        intro _
        simp only [isCont, Bool.and_eq_true, decide_eq_true_eq] at hc
        obtain ⟨⟨⟨c1, c2⟩, c3⟩, c7⟩ := hc
        have c4 : 0x80 ≤ b1.toNat := by split at hlo <;> omega
        have c6 : b.toNat = 240 → 0x90 ≤ b1.toNat := by intro h; rw [if_pos h] at hlo; omega
        have c5 : b1.toNat ≤ 0xBF := by split at hhi <;> omega
        refine ⟨?_, ?_⟩
        · rw [encodeRune, if_neg (by omega), if_neg (by omega), if_neg (by omega)]
          simp only [List.take_succ_cons, List.take_zero, List.cons.injEq, and_true]
          exact ⟨toUInt8_of (by omega), toUInt8_of (by omega), toUInt8_of (by omega), toUInt8_of (by omega)⟩
        · simp only [List.take_succ_cons, List.take_zero, List.mem_cons, List.not_mem_nil, or_false]
          rintro x (rfl | rfl | rfl | rfl) <;> omega
      · intro h; exact absurd ⟨rfl, rfl⟩ h
    · intro h; exact absurd ⟨rfl, rfl⟩ h
  · intro h; exact absurd ⟨rfl, rfl⟩ h

theorem gasBytes_high {a t : Bytes} (h : ∀ x ∈ a, 128 ≤ x.toNat) : gasBytes (a ++ t) = a ++ gasBytes t := by
  induction a with
  | nil => rfl
  | cons x a ih =>
    have hx : x ≠ 92 := by rintro rfl; have := h 92 (by simp); revert this; decide
    have := ih (fun y hy => h y (by simp [hy]))
    rw [List.cons_append, List.cons_append, gasBytes, this]
    · rintro t' rfl; exact absurd rfl hx
    · rintro t' rfl; exact absurd rfl hx
    · rintro c t' rfl; exact absurd rfl hx

/-- Unquoting accepted literals: the value is what the assembler makes of the text. -/
theorem unquoteLoop_val {body : List Nat} (hb : StrBody body) : ∀ {bs : Bytes}, runes bs = body ++ [34] →
    validUtf8 bs = true → 10 ∉ bs → unquoteLoop bs = some (gasBytes bs.dropLast) ∧ bs ≠ [] := by
  have byte : ∀ {bs : Bytes} {r w : Nat}, decode bs = some (r, w) → r < 128 →
      ∃ b t, bs = b :: t ∧ b.toNat = r ∧ w = 1 ∧ b = r.toUInt8 := by
    intro bs r w h hr
    obtain ⟨h1, b, t, h2, h3⟩ := decode_lt_128 h hr
    exact ⟨b, t, h2, h3, h1, (toUInt8_of h3.symm).symm⟩
  induction hb with
  | nil =>
    intro bs hr _ _
    obtain ⟨w, hd, hrest⟩ := runes_cons (show runes bs = 34 :: [] from hr)
    obtain ⟨b, t, rfl, e1, rfl, e2⟩ := byte hd (by omega)
    have ht : t = [] := by
      cases t with
      | nil => rfl
      | cons x t =>
        simp only [List.drop_succ_cons, List.drop_zero] at hrest
        rw [runes] at hrest
        simp [decode] at hrest
    subst ht
    refine ⟨?_, by simp⟩
    rw [unquoteLoop_eq hd, if_pos rfl]
    rfl
  | @plain r rs h34 h92 _ ih =>
    intro bs hr hval hnl
    obtain ⟨w, hd, hrest⟩ := runes_cons (show runes bs = r :: (rs ++ [34]) from hr)
    rw [validUtf8_eq hd, Bool.and_eq_true] at hval
    obtain ⟨v1, v2⟩ := hval
    have hnl' : 10 ∉ bs.drop w := fun h => hnl (List.mem_of_mem_drop h)
    obtain ⟨ih1, ih2⟩ := ih hrest v2 hnl'
    have hsplit : bs = bs.take w ++ bs.drop w := (List.take_append_drop w bs).symm
    have hne : bs ≠ [] := by rintro rfl; simp [decode] at hd
    refine ⟨?_, hne⟩
    rw [unquoteLoop_eq hd, if_neg h34]
    by_cases hr128 : r < 128
    · obtain ⟨b, t, rfl, e1, rfl, e2⟩ := byte hd hr128
      have h10 : r ≠ 10 := by
        rintro rfl
        apply hnl
        rw [e2]
        simp
      rw [if_neg h10, if_neg h92]
      simp only [List.drop_succ_cons, List.drop_zero] at ih1 ih2 ⊢
      rw [ih1]
      have hb92 : b ≠ 92 := by rintro rfl; exact h92 e1.symm
      have henc : encodeRune r = [b] := by rw [encodeRune, if_pos hr128, e2]
      rw [henc]
      rw [List.dropLast_cons_of_ne_nil ih2]
      rw [gasBytes]
      · rfl
      · rintro t' rfl; exact absurd rfl hb92
      · rintro t' rfl; exact absurd rfl hb92
      · rintro c t' rfl; exact absurd rfl hb92
    · cases bs with
      | nil => exact absurd rfl hne
      | cons b t =>
        simp only [decode, Option.some.injEq] at hd
        have hb : 128 ≤ b.toNat := by
          refine Nat.le_of_not_lt (fun hlt => ?_)
          have : decode1 b t = (b.toNat, 1) := by
            rw [decode1.eq_def]; simp only; rw [if_pos (by omega)]
          rw [hd] at this
          cases this
          omega
        have hv : ¬ ((decode1 b t).1 = runeError ∧ (decode1 b t).2 = 1) := by
          rw [hd]
          rintro ⟨q1, q2⟩
          simp only at q1 q2
          simp [q1, q2] at v1
        obtain ⟨k1, k2⟩ := decode1_high hb hv
        rw [hd] at k1 k2
        simp only at k1 k2
        rw [if_neg (by omega), if_neg (by omega), ih1, k1]
        have : (b :: t).dropLast = (b :: t).take w ++ ((b :: t).drop w).dropLast := by
          conv => lhs; rw [hsplit]
          rw [List.dropLast_append_of_ne_nil ih2]
        rw [this, gasBytes_high k2]
        rfl
  | @esc r rs hesc _ ih =>
    intro bs hr hval hnl
    obtain ⟨w, hd, hrest⟩ := runes_cons (show runes bs = 92 :: (r :: (rs ++ [34])) from hr)
    rw [validUtf8_eq hd, Bool.and_eq_true] at hval
    obtain ⟨b, t, rfl, e1, rfl, e2⟩ := byte hd (by omega)
    simp only [List.drop_succ_cons, List.drop_zero] at hrest hval
    obtain ⟨w, hd2, hrest2⟩ := runes_cons hrest
    have hr128 : r < 128 := by rcases hesc with rfl | rfl | rfl | rfl <;> decide
    rw [validUtf8_eq hd2, Bool.and_eq_true] at hval
    obtain ⟨c, t, rfl, f1, rfl, f2⟩ := byte hd2 hr128
    simp only [List.drop_succ_cons, List.drop_zero] at hrest2 hval
    have hnl' : 10 ∉ t := fun h => hnl (by simp [h])
    obtain ⟨ih1, ih2⟩ := ih hrest2 hval.2.2 hnl'
    refine ⟨?_, by simp⟩
    rw [unquoteLoop_eq hd, if_neg (by decide), if_neg (by decide), if_pos rfl]
    simp only
    rw [ih1, List.dropLast_cons_of_ne_nil (by simp), List.dropLast_cons_of_ne_nil ih2]
    have hb : b = 92 := by rw [e2]; rfl
    subst hb
    rcases hesc with rfl | rfl | rfl | rfl
    · have hc : c = 114 := by rw [f2]; rfl
      subst hc
      rw [gasBytes]; rfl
    · have hc : c = 110 := by rw [f2]; rfl
      subst hc
      rw [gasBytes]; rfl
    · have hc : c = 92 := by rw [f2]; rfl
      subst hc
      rw [gasBytes]
      · rfl
      · intro h; exact absurd h (by decide)
      · intro h; exact absurd h (by decide)
    · have hc : c = 34 := by rw [f2]; rfl
      subst hc
      rw [gasBytes]
      · rfl
      · intro h; exact absurd h (by decide)
      · intro h; exact absurd h (by decide)

/-- The full text of a literal. -/
theorem unquote_val {u : Uni} {v : Bytes} (h : Spec.Lexeme u .string v) (hv : validUtf8 v = true)
    (hn : 10 ∉ v) : unquote v = some (gasBytes (v.drop 1).dropLast) := by
  obtain ⟨body, h1, h2⟩ := h
  obtain ⟨w, hd, hrest⟩ := runes_cons h1
  obtain ⟨rfl, b, t, rfl, h3⟩ := decode_lt_128 hd (by decide)
  rw [validUtf8_eq hd, Bool.and_eq_true] at hv
  have hb : b = 34 := (toUInt8_of h3.symm).symm
  subst hb
  exact (unquoteLoop_val h2 hrest hv.2 (fun hx => hn (by simp at hx; simp [hx]))).1

/-- A raw line feed makes `flush` panic. -/
theorem unquoteLoop_nl {body : List Nat} (hb : StrBody body) : ∀ {bs : Bytes}, runes bs = body ++ [34] →
    10 ∈ body → unquoteLoop bs = none := by
  induction hb with
  | nil => intro bs _ h; simp at h
  | @plain r rs h34 h92 _ ih =>
    intro bs hr hm
    obtain ⟨w, hd, hrest⟩ := runes_cons (show runes bs = r :: (rs ++ [34]) from hr)
    rw [unquoteLoop_eq hd, if_neg h34]
    by_cases h10 : r = 10
    · rw [if_pos h10]
    · rw [if_neg h10, if_neg h92, ih hrest (by simpa [Ne.symm h10] using hm)]
      rfl
  | @esc r rs hesc _ ih =>
    intro bs hr hm
    obtain ⟨w, hd, hrest⟩ := runes_cons (show runes bs = 92 :: (r :: (rs ++ [34])) from hr)
    obtain ⟨rfl, b, t, rfl, e1⟩ := decode_lt_128 hd (by omega)
    simp only [List.drop_succ_cons, List.drop_zero] at hrest
    obtain ⟨w, hd2, hrest2⟩ := runes_cons hrest
    have hr128 : r < 128 := by rcases hesc with rfl | rfl | rfl | rfl <;> decide
    have hr10 : r ≠ 10 := by rcases hesc with rfl | rfl | rfl | rfl <;> decide
    obtain ⟨rfl, c, t, rfl, f1⟩ := decode_lt_128 hd2 hr128
    simp only [List.drop_succ_cons, List.drop_zero] at hrest2
    rw [unquoteLoop_eq hd, if_neg (by decide), if_neg (by decide), if_pos rfl]
    simp only
    rw [ih hrest2 (by simpa [Ne.symm hr10] using hm)]
    cases goEscape c <;> rfl

end Clara.Gen
