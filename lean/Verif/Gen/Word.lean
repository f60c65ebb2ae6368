import Verif.Gen.Sem
/-
Arithmetic of tagged words.
-/
namespace Clara.Gen
open BitVec

theorem bit_one (i : Nat) : (1 : Word).getLsbD i = decide (i = 0) := by
  show (1#64).getLsbD i = _
  rw [getLsbD_one]; simp

theorem enc_bits (n : BitVec 63) (i : Nat) :
    (Val.int n).enc.getLsbD i = if i = 0 then true else n.getLsbD (i - 1) := by
  simp only [Val.enc, getLsbD_or, getLsbD_shiftLeft, getLsbD_setWidth, bit_one]
  rcases Nat.eq_zero_or_pos i with h | h
  · subst h; simp
  · by_cases hi : i < 64
    · have h1 : ¬ i < 1 := by omega
      have h2 : i - 1 < 64 := by omega
      simp [hi, h1, h2, Nat.ne_of_gt h]
    · have : n.getLsbD (i - 1) = false := BitVec.getLsbD_of_ge _ _ (by omega)
      simp [hi, Nat.ne_of_gt h, this]

/-- Tagging a word keeps its low 63 bits. -/
theorem tag_word (w : Word) : (w <<< 1) ||| 1 = (Val.int (w.setWidth 63)).enc := by
  apply BitVec.eq_of_getLsbD_eq
  intro i hi
  rw [enc_bits]
  simp only [getLsbD_or, getLsbD_shiftLeft, getLsbD_setWidth, bit_one]
  rcases Nat.eq_zero_or_pos i with h | h
  · subst h; simp
  · have h1 : ¬ i < 1 := by omega
    have h2 : i - 1 < 63 := by omega
    simp [hi, h1, h2, Nat.ne_of_gt h]

/-- Untagging. -/
theorem untag_word (n : BitVec 63) : (Val.int n).enc.sshiftRight 1 = n.signExtend 64 := by
  apply BitVec.eq_of_getLsbD_eq
  intro i hi
  rw [getLsbD_sshiftRight, getLsbD_signExtend]
  have hm : (Val.int n).enc.msb = n.msb := by
    rw [msb_eq_getLsbD_last, msb_eq_getLsbD_last, enc_bits]; rfl
  by_cases h : i < 63
  · have h2 : 1 + i < 64 := by omega
    have h3 : ¬ (64 ≤ i) := by omega
    have h4 : 1 + i - 1 = i := by omega
    simp only [h, h2, h3, enc_bits, hi, h4]
    simp
  · have h2 : ¬ (1 + i < 64) := by omega
    have h3 : ¬ (64 ≤ i) := by omega
    simp [h, h2, hi, h3, hm]

theorem setWidth_sext (n : BitVec 63) : (n.signExtend 64).setWidth 63 = n := by
  apply BitVec.eq_of_getLsbD_eq
  intro i hi
  have : i < 64 := by omega
  rw [getLsbD_setWidth, getLsbD_signExtend]
  simp [hi, this]

theorem sext_toInt (n : BitVec 63) : (n.signExtend 64).toInt = n.toInt :=
  BitVec.toInt_signExtend_of_le (by decide)

theorem toInt_bound (n : BitVec 63) : -2 ^ 62 ≤ n.toInt ∧ n.toInt < 2 ^ 62 := by
  have h1 := n.toInt_lt; have h2 := n.le_toInt
  simp at h1 h2
  omega

theorem enc_inj {a b : BitVec 63} (h : (Val.int a).enc = (Val.int b).enc) : a = b := by
  have := congrArg (fun w => (w.sshiftRight 1).setWidth 63) h
  simpa [untag_word, setWidth_sext] using this

theorem add_word (a b : BitVec 63) : (a.signExtend 64 + b.signExtend 64).setWidth 63 = a + b := by
  rw [BitVec.setWidth_add _ _ (by decide), setWidth_sext, setWidth_sext]

theorem mul_word (a b : BitVec 63) : (a.signExtend 64 * b.signExtend 64).setWidth 63 = a * b := by
  rw [BitVec.setWidth_mul _ _ (by decide), setWidth_sext, setWidth_sext]

theorem neg_word (a : BitVec 63) : (- (a.signExtend 64)).setWidth 63 = - a := by
  rw [BitVec.neg_eq_not_add, BitVec.neg_eq_not_add, BitVec.setWidth_add _ _ (by decide),
    BitVec.setWidth_not (by decide), setWidth_sext]
  rfl

theorem sub_word (a b : BitVec 63) : (a.signExtend 64 - b.signExtend 64).setWidth 63 = a - b := by
  rw [BitVec.sub_eq_add_neg, BitVec.setWidth_add _ _ (by decide), setWidth_sext, neg_word,
    ← BitVec.sub_eq_add_neg]

theorem or_word (a b : BitVec 63) : (a.signExtend 64 ||| b.signExtend 64).setWidth 63 = a ||| b := by
  rw [BitVec.setWidth_or, setWidth_sext, setWidth_sext]

theorem and_word (a b : BitVec 63) : (a.signExtend 64 &&& b.signExtend 64).setWidth 63 = a &&& b := by
  rw [BitVec.setWidth_and, setWidth_sext, setWidth_sext]

theorem xor_word (a b : BitVec 63) : (a.signExtend 64 ^^^ b.signExtend 64).setWidth 63 = a ^^^ b := by
  rw [BitVec.setWidth_xor, setWidth_sext, setWidth_sext]

/-- Shift counts use the low six bits. -/
theorem count_word (b : BitVec 63) : (b.signExtend 64).toNat % 64 = b.toNat % 64 := by
  have h := congrArg BitVec.toNat (setWidth_sext b)
  rw [BitVec.toNat_setWidth] at h
  omega

theorem shl_word (a : BitVec 63) (k : Nat) : (a.signExtend 64 <<< k).setWidth 63 = a <<< k := by
  apply BitVec.eq_of_getLsbD_eq
  intro i hi
  simp only [getLsbD_setWidth, getLsbD_shiftLeft, getLsbD_signExtend]
  by_cases h : i < k
  · simp [h]
  · have h1 : i - k < 63 := by omega
    have h2 : i - k < 64 := by omega
    have h3 : i < 64 := by omega
    simp [h, hi, h1, h2, h3]

theorem sar_word (a : BitVec 63) (k : Nat) :
    ((a.signExtend 64).sshiftRight k).setWidth 63 = a.sshiftRight k := by
  apply BitVec.eq_of_getLsbD_eq
  intro i hi
  rw [getLsbD_setWidth, getLsbD_sshiftRight, getLsbD_sshiftRight, getLsbD_signExtend]
  have hm : (a.signExtend 64).msb = a.msb := by
    rw [msb_eq_getLsbD_last, getLsbD_signExtend]; simp
  have h3 : ¬ (64 ≤ i) := by omega
  have h4 : ¬ (63 ≤ i) := by omega
  by_cases h : k + i < 63
  · have h1 : k + i < 64 := by omega
    simp [h, h1, hi, h3, h4]
  · by_cases h1 : k + i < 64
    · simp [h, h1, hi, h3, h4]
    · simp [h, h1, hi, h3, h4, hm]

theorem div_word (a b : BitVec 63) :
    ((a.signExtend 64).sdiv (b.signExtend 64)).setWidth 63 = a.sdiv b := by
  apply BitVec.eq_of_toInt_eq
  have ha := toInt_bound a
  have hb := toInt_bound b
  have key : ((a.signExtend 64).sdiv (b.signExtend 64)).toInt = a.toInt.tdiv b.toInt := by
    rw [BitVec.toInt_sdiv, sext_toInt, sext_toInt]
    have hq : -2 ^ 62 ≤ a.toInt.tdiv b.toInt ∧ a.toInt.tdiv b.toInt ≤ 2 ^ 62 := by
      have h1 : (a.toInt.tdiv b.toInt).natAbs ≤ a.toInt.natAbs := by
        rw [Int.natAbs_tdiv]; exact Nat.div_le_self _ _
      omega
    rw [Int.bmod_eq_of_le] <;> omega
  rw [BitVec.toInt_sdiv, ← key]
  rw [BitVec.toInt_setWidth, BitVec.toInt_eq_toNat_bmod]
  rw [Int.bmod_bmod_of_dvd]
  decide

theorem sext_ne_zero {b : BitVec 63} (h : b ≠ 0) : b.signExtend 64 ≠ 0 := by
  intro h'
  apply h
  rw [← setWidth_sext b, h']
  rfl

theorem sext_ne_intMin (a : BitVec 63) : a.signExtend 64 ≠ BitVec.intMin 64 := by
  intro h
  have h1 := congrArg BitVec.toInt h
  rw [sext_toInt] at h1
  have := toInt_bound a
  rw [show (BitVec.intMin 64).toInt = -2 ^ 63 by decide] at h1
  omega

theorem sext_eq_iff {a b : BitVec 63} : a.signExtend 64 = b.signExtend 64 ↔ a = b := by
  constructor
  · intro h
    rw [← setWidth_sext a, h, setWidth_sext]
  · rintro rfl; rfl

theorem slt_word (a b : BitVec 63) :
    (a.signExtend 64).slt (b.signExtend 64) = decide (a.toInt < b.toInt) := by
  rw [BitVec.slt, sext_toInt, sext_toInt]

theorem sle_word (a b : BitVec 63) :
    (a.signExtend 64).sle (b.signExtend 64) = decide (a.toInt ≤ b.toInt) := by
  rw [BitVec.sle, sext_toInt, sext_toInt]

/-- The comparison of `genExpr`. -/
theorem cond_word {o : BinOp} {a b : BitVec 63} {c : Bool}
    (h : o.eval (.int a) (.int b) = some (.bool c)) :
    o.cond.holds (a.signExtend 64, b.signExtend 64) = c := by
  cases o <;> simp [BinOp.eval] at h <;> subst h <;>
    simp only [BinOp.cond, Cond.holds, slt_word, sle_word]
  rw [Bool.eq_iff_iff]
  simp [sext_eq_iff]

theorem set_word (x : Word) (c : Bool) :
    ((x &&& ~~~ 0xFF) ||| (if c then 1 else 0)) &&& 1 = (Val.bool c).enc := by
  have h : ∀ y : Word, (x &&& ~~~ (0xFF : Word) ||| y) &&& 1 = y &&& 1 := by
    intro y
    apply BitVec.eq_of_getLsbD_eq
    intro i _
    simp only [getLsbD_and, getLsbD_or, bit_one, getLsbD_not]
    rcases Nat.eq_zero_or_pos i with h | h
    · subst h; simp
    · simp [Nat.ne_of_gt h]
  rw [h]
  cases c <;> rfl

theorem not_word (b : Bool) : ~~~ (Val.bool b).enc &&& 1 = (Val.bool (!b)).enc := by
  cases b <;> decide

theorem bnot_word (n : BitVec 63) : ~~~ (Val.int n).enc ||| 1 = (Val.int (~~~ n)).enc := by
  apply BitVec.eq_of_getLsbD_eq
  intro i hi
  rw [getLsbD_or, getLsbD_not, enc_bits, enc_bits, bit_one, getLsbD_not]
  rcases Nat.eq_zero_or_pos i with h | h
  · subst h; simp
  · have h1 : i - 1 < 63 := by omega
    simp [Nat.ne_of_gt h, hi, h1]

theorem and_bool (a b : Bool) : (Val.bool a).enc &&& (Val.bool b).enc = (Val.bool (a && b)).enc := by
  cases a <;> cases b <;> decide

theorem or_bool (a b : Bool) : (Val.bool a).enc ||| (Val.bool b).enc = (Val.bool (a || b)).enc := by
  cases a <;> cases b <;> decide

/-- The constants of integer literals. -/
theorem lit_word (i : Int) :
    (BitVec.ofInt 64 i <<< 1) ||| 1 = (Val.int (BitVec.ofInt 63 i)).enc := by
  rw [tag_word]
  congr 2
  apply BitVec.eq_of_toInt_eq
  rw [BitVec.toInt_setWidth, BitVec.toInt_ofInt, BitVec.toNat_ofInt]
  rw [Int.toNat_of_nonneg (Int.emod_nonneg _ (by decide))]
  rw [Int.bmod_def, Int.bmod_def]
  omega

/-- The constants of `taggedIntOp`. -/
theorem tagged_word (n : Nat) :
    BitVec.ofInt 64 (2 * (n : Int) + 1) = (Val.int (BitVec.ofNat 63 n)).enc := by
  have h := lit_word n
  rw [BitVec.ofInt_natCast, BitVec.ofInt_natCast] at h
  rw [← h]
  apply BitVec.eq_of_toNat_eq
  have h2 : BitVec.ofInt 64 (2 * (n : Int) + 1) = BitVec.ofNat 64 (2 * n + 1) := by
    rw [← BitVec.ofInt_natCast]; congr 1
  rw [h2]
  have h3 : (BitVec.ofNat 64 n <<< 1) ||| (1 : Word) = (BitVec.ofNat 64 n <<< 1) + 1 := by
    rw [BitVec.add_eq_or_of_and_eq_zero]
    apply BitVec.eq_of_getLsbD_eq
    intro i _
    simp only [getLsbD_and, getLsbD_shiftLeft, bit_one]
    rcases Nat.eq_zero_or_pos i with h | h
    · subst h; simp
    · simp [Nat.ne_of_gt h]
  rw [h3]
  have h4 : (1 : Word).toNat = 1 := rfl
  simp only [BitVec.toNat_add, BitVec.toNat_shiftLeft, BitVec.toNat_ofNat, Nat.shiftLeft_eq, h4]
  omega

/-- The bounds check: for a non-negative length, `index ≥ length` as unsigned numbers means that the
index is out of range. -/
theorem ae_word {n len : BitVec 63} (hl : 0 ≤ len.toInt) :
    Cond.ae.holds (n.signExtend 64, len.signExtend 64) =
      !(decide (0 ≤ n.toInt) && decide (n.toInt < len.toInt)) := by
  have h1 := sext_toInt n
  have h2 := sext_toInt len
  have h3 := toInt_bound n
  have h4 := toInt_bound len
  have e1 := BitVec.toInt_eq_toNat_cond (n.signExtend 64)
  have e2 := BitVec.toInt_eq_toNat_cond (len.signExtend 64)
  have l1 := (n.signExtend 64).isLt
  have l2 := (len.signExtend 64).isLt
  simp only [Cond.holds, BitVec.ule]
  rw [Bool.eq_iff_iff]
  simp only [decide_eq_true_eq, Bool.not_eq_true', Bool.and_eq_false_iff, decide_eq_false_iff_not]
  split at e1 <;> split at e2 <;> omega

theorem sext_ofInt (n : BitVec 63) : n.signExtend 64 = BitVec.ofInt 64 n.toInt := rfl

end Clara.Gen
