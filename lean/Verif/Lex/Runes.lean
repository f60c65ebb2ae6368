import Verif.Lex.Basic
/-
Runes of a byte string, and how decoding inside a longer string relates to decoding a piece of it.
-/
namespace Clara.Lex

/-- The runes of a byte string, decoded as Go's `for range` would. -/
def runes (bs : Bytes) : List Nat :=
  match h : decode bs with
  | none => []
  | some (r, w) =>
    have := decode_width h
    r :: runes (bs.drop w)
  termination_by bs.length
  decreasing_by simp only [List.length_drop]; omega

theorem runes_nil : runes [] = [] := by
  unfold runes; rfl

theorem runes_of_decode {bs : Bytes} {r w : Nat} (h : decode bs = some (r, w)) :
    runes bs = r :: runes (bs.drop w) := by
  rw [runes]
  split <;> simp_all

theorem runeCount_eq (bs : Bytes) : runeCount bs = (runes bs).length := by
  fun_induction runeCount bs with
  | case1 bs h => rw [runes]; split <;> simp_all
  | case2 bs r w h _ ih => rw [runes_of_decode h, ih]; simp; omega

/-- Decoding looks at complete runes only: if the first rune of `bs ++ tail` lies within `bs`,
then it is the first rune of `bs`. -/
theorem decode_append {bs tail : Bytes} {r w : Nat}
    (h : decode (bs ++ tail) = some (r, w)) (hw : w ≤ bs.length) : decode bs = some (r, w) := by
  match bs with
  | [] => have := decode_width h; simp at hw; omega
  | [a] =>
    simp only [List.cons_append, List.nil_append, decode, Option.some.injEq, List.length_cons,
      List.length_nil] at h hw ⊢
    unfold decode1 at h ⊢
    grind
  | [a, b] =>
    simp only [List.cons_append, List.nil_append, decode, Option.some.injEq, List.length_cons,
      List.length_nil] at h hw ⊢
    unfold decode1 at h ⊢
    grind
  | [a, b, c] =>
    simp only [List.cons_append, List.nil_append, decode, Option.some.injEq, List.length_cons,
      List.length_nil] at h hw ⊢
    unfold decode1 at h ⊢
    grind
  | a :: b :: c :: d :: t =>
    simp only [List.cons_append, decode, Option.some.injEq] at h ⊢
    unfold decode1 at h ⊢
    grind

/-- Runes below 128 are single bytes. -/
theorem decode_lt_128 {bs : Bytes} {r w : Nat} (h : decode bs = some (r, w)) (hr : r < 128) :
    w = 1 ∧ ∃ b t, bs = b :: t ∧ b.toNat = r := by
  cases bs with
  | nil => simp [decode] at h
  | cons b t =>
    simp only [decode, Option.some.injEq] at h
    have : (decode1 b t).1 < 128 → (decode1 b t).2 = 1 ∧ b.toNat = (decode1 b t).1 := by
      unfold decode1 runeError isCont
      grind
    rw [h] at this
    have := this hr
    exact ⟨this.1, b, t, rfl, this.2⟩

theorem decode_byte {b : UInt8} {t : Bytes} (h : b.toNat < 128) :
    decode (b :: t) = some (b.toNat, 1) := by
  simp [decode, decode1, h]

/-- `Steps bs rs rest`: decoding `bs` rune by rune yields `rs` and leaves `rest`. -/
inductive Steps : Bytes → List Nat → Bytes → Prop
  | nil (bs) : Steps bs [] bs
  | cons {bs r w rs rest} : decode bs = some (r, w) → Steps (bs.drop w) rs rest →
      Steps bs (r :: rs) rest

theorem Steps.trans {a b c rs rs'} (h : Steps a rs b) (h' : Steps b rs' c) :
    Steps a (rs ++ rs') c := by
  induction h with
  | nil => exact h'
  | cons hd _ ih => exact .cons hd (ih h')

theorem Steps.suffix {a b rs} (h : Steps a rs b) : ∃ d, a = d ++ b := by
  induction h with
  | nil bs => exact ⟨[], rfl⟩
  | @cons bs r w rs rest hd _ ih =>
    obtain ⟨d, hd'⟩ := ih
    exact ⟨bs.take w ++ d, by rw [List.append_assoc, ← hd', List.take_append_drop]⟩

theorem Steps.runes_prefix {a b rs} (h : Steps a rs b) :
    ∀ d, a = d ++ b → runes d = rs := by
  induction h with
  | nil bs => intro d hd; simp at hd; simp [hd, runes_nil]
  | @cons bs r w rs rest hdec hst ih =>
    intro d hd
    obtain ⟨e, he⟩ := hst.suffix
    have hw := decode_width hdec
    have hlen : bs.length = d.length + rest.length := by simp [hd]
    have hlen2 : bs.length - w = e.length + rest.length := by
      have := congrArg List.length he; simpa using this
    have hwd : w ≤ d.length := by omega
    have hdec' : decode d = some (r, w) := decode_append (tail := rest) (hd ▸ hdec) hwd
    rw [runes_of_decode hdec', ih (d.drop w)]
    rw [hd, List.drop_append_of_le_length hwd]

/-- `s'` is `s` after consuming the runes `rs`. -/
structure AdvR (s : LS) (rs : List Nat) (s' : LS) : Prop where
  adv : Adv s s'
  steps : Steps s.rest rs s'.rest

theorem AdvR.refl (s : LS) : AdvR s [] s := ⟨.refl s, .nil _⟩

theorem AdvR.trans {a b c rs rs'} (h : AdvR a rs b) (h' : AdvR b rs' c) : AdvR a (rs ++ rs') c :=
  ⟨h.adv.trans h'.adv, h.steps.trans h'.steps⟩

theorem AdvR.next {s : LS} {r : Nat} (h : s.peek = some r) : AdvR s [r] s.next := by
  refine ⟨.next s, ?_⟩
  unfold LS.peek at h
  unfold LS.next
  cases hd : decode s.rest with
  | none => simp [hd] at h
  | some p =>
    obtain ⟨r', w⟩ := p
    simp [hd] at h
    subst h
    exact .cons hd (.nil _)

/-- The text consumed decodes to the runes consumed. -/
theorem AdvR.runes {s s' : LS} {rs} (h : AdvR s rs s') (hc : s.cur = []) :
    Clara.Lex.runes s'.cur = rs := by
  obtain ⟨⟨d, _, h2, h3⟩, hst⟩ := h
  rw [h2, hc, List.nil_append]
  exact hst.runes_prefix d h3

theorem scan_spec (p : Nat → Bool) (s : LS) :
    ∃ rs, AdvR s rs (s.scan p) ∧ (∀ r ∈ rs, p r = true) ∧
      (∀ r, (s.scan p).peek = some r → p r = false) := by
  fun_induction LS.scan p s with
  | case1 s h => exact ⟨[], .refl _, by simp, by simp [h]⟩
  | case2 s r h hp _ ih =>
    obtain ⟨rs, h1, h2, h3⟩ := ih
    exact ⟨r :: rs, (AdvR.next h).trans h1, by simpa [hp] using h2, h3⟩
  | case3 s r h hp => exact ⟨[], .refl _, by simp, by simpa [h] using hp⟩

/-- Body of a string literal: anything but quotes and backslashes, or a legal escape. -/
inductive StrBody : List Nat → Prop
  | nil : StrBody []
  | plain {r rs} : r ≠ 34 → r ≠ 92 → StrBody rs → StrBody (r :: rs)
  | esc {r rs} : r = 'r'.toNat ∨ r = 'n'.toNat ∨ r = 92 ∨ r = 34 → StrBody rs →
      StrBody (92 :: r :: rs)

theorem scanString_spec (s : LS) (hok : s.scanString.2 = true) :
    ∃ rs, AdvR s rs s.scanString.1 ∧ StrBody rs ∧
      (∀ r, s.scanString.1.peek = some r → r = 34) := by
  fun_induction LS.scanString s with
  | case1 s h => exact ⟨[], .refl _, .nil, by simp [h]⟩
  | case2 s h => exact ⟨[], .refl _, .nil, by simp [h]⟩
  | case3 => simp at hok
  | case4 s r' h' _ hesc h _ _ ih =>
    obtain ⟨rs, h1, h2, h3⟩ := ih hok
    refine ⟨92 :: r' :: rs, (AdvR.next h).trans ((AdvR.next h').trans h1), .esc ?_ h2, h3⟩
    simpa [isEscape, or_assoc] using hesc
  | case5 => simp at hok
  | case6 s r h _ h34 h92 ih =>
    obtain ⟨rs, h1, h2, h3⟩ := ih hok
    exact ⟨r :: rs, (AdvR.next h).trans h1, .plain h34 h92 h2, h3⟩

end Clara.Lex
