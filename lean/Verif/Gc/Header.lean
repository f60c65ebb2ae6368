import Verif.Gc.Collect
/-
Facts about headers and words.
-/
namespace Clara.Gc

theorem isMarked_bit (h : BitVec 63) : isMarked h = h.getLsbD 0 := by
  unfold isMarked
  rw [show (0x1#63) = BitVec.twoPow 63 0 by decide, BitVec.and_twoPow]
  cases h.getLsbD 0 <;> decide

theorem isReadOnly_bit (h : BitVec 63) : isReadOnly h = h.getLsbD 1 := by
  unfold isReadOnly
  rw [show (0x2#63) = BitVec.twoPow 63 1 by decide, BitVec.and_twoPow]
  cases h.getLsbD 1 <;> decide

theorem isMarked_set (h : BitVec 63) : isMarked (h ||| 0x1#63) = true := by
  rw [isMarked_bit, BitVec.getLsbD_or]; simp

theorem isMarked_clear (h : BitVec 63) : isMarked (h &&& ~~~0x1#63) = false := by
  rw [isMarked_bit, BitVec.getLsbD_and]
  rw [show (~~~0x1#63).getLsbD 0 = false by decide]; simp

theorem isReadOnly_set (h : BitVec 63) : isReadOnly (h ||| 0x1#63) = isReadOnly h := by
  rw [isReadOnly_bit, isReadOnly_bit, BitVec.getLsbD_or, show (0x1#63).getLsbD 1 = false by decide]; simp

theorem isReadOnly_clear (h : BitVec 63) : isReadOnly (h &&& ~~~0x1#63) = isReadOnly h := by
  rw [isReadOnly_bit, isReadOnly_bit, BitVec.getLsbD_and, show (~~~0x1#63).getLsbD 1 = true by decide]; simp

theorem and_or (a b c : BitVec 63) : (a ||| b) &&& c = (a &&& c) ||| (b &&& c) := by
  ext i hi
  simp [Bool.and_or_distrib_right]

theorem and_and (a b c : BitVec 63) : (a &&& b) &&& c = a &&& (b &&& c) := BitVec.and_assoc _ _ _

theorem typeId_or {h m : BitVec 63} (hm : m &&& (0xFFFF#63 <<< 47) = 0#63) : typeId (h ||| m) = typeId h := by
  unfold typeId
  rw [and_or, hm]
  simp

theorem typeId_set (h : BitVec 63) : typeId (h ||| 0x1#63) = typeId h := typeId_or (by decide)

theorem typeId_clear (h : BitVec 63) : typeId (h &&& ~~~0x1#63) = typeId h := by
  unfold typeId
  rw [and_and, show (~~~0x1#63 &&& 0xFFFF#63 <<< 47) = 0xFFFF#63 <<< 47 by decide]

/-- Setting the mark of an unmarked header and clearing it gives the header. -/
theorem clear_set {h : BitVec 63} (hm : isMarked h = false) : (h ||| 0x1#63) &&& ~~~0x1#63 = h := by
  rw [isMarked_bit] at hm
  apply BitVec.eq_of_getLsbD_eq
  intro i hi
  rw [BitVec.getLsbD_and, BitVec.getLsbD_or]
  by_cases h0 : i = 0
  · subst h0; rw [hm]; decide
  · have h1 : (0x1#63).getLsbD i = false := by
      rw [BitVec.getLsbD_one]; simp; omega
    have h2 : (~~~0x1#63).getLsbD i = true := by
      rw [BitVec.getLsbD_not, h1]; simp; omega
    rw [h1, h2]; simp

/-- The type id read from the bits of `id`. -/
theorem typeId_shift (x : BitVec 63) : typeId (x <<< 47) = ((x.toNat % 2 ^ 16 : Nat) : Int).bmod (2 ^ 16) := by
  unfold typeId
  rw [← BitVec.shiftLeft_and_distrib, BitVec.toInt_sshiftRight, BitVec.toInt_eq_toNat_bmod, BitVec.toNat_shiftLeft, BitVec.toNat_and,
    show (0xFFFF#63).toNat = 2 ^ 16 - 1 by decide, Nat.and_two_pow_sub_one_eq_mod, Nat.shiftLeft_eq, Int.shiftRight_eq_div_pow]
  simp only [Int.bmod_def]
  split <;> split <;> omega

theorem typeId_readOnly (id : Int) : typeId (readOnlyGcHeader id) = typeId (newHeader id) := by
  unfold readOnlyGcHeader newHeader
  have e : (BitVec.ofInt 64 id <<< 47).setWidth 63 = BitVec.ofInt 63 id <<< 47 := by
    have e1 : BitVec.ofInt 63 id = (BitVec.ofInt 64 id).setWidth 63 := by
      apply BitVec.eq_of_toNat_eq
      rw [BitVec.toNat_setWidth, BitVec.toNat_ofInt, BitVec.toNat_ofInt]
      omega
    rw [e1]
    generalize BitVec.ofInt 64 id = x
    apply BitVec.eq_of_getLsbD_eq
    intro i hi
    rw [BitVec.getLsbD_setWidth, BitVec.getLsbD_shiftLeft, BitVec.getLsbD_shiftLeft, BitVec.getLsbD_setWidth]
    rw [decide_eq_true (p := i < 63) hi, decide_eq_true (p := i < 64) (by omega), decide_eq_true (p := i - 47 < 63) (by omega)]
    simp
  rw [BitVec.setWidth_or, show (2#64).setWidth 63 = 2#63 by decide, e]
  exact typeId_or (by decide)

/-- A multiple of 8 above 1024 and below 2^62 passes the pointer test. -/
theorem isReal_iff (p : Word) : isReal p = true ↔ p.toNat % 8 = 0 ∧ 1024 < p.toNat % 2 ^ 63 ∧ p.toNat % 2 ^ 63 < 2 ^ 62 := by
  unfold isReal toTaggedInt
  simp only [Bool.and_eq_true, beq_iff_eq, decide_eq_true_eq]
  have h1 : (p.setWidth 63 &&& 0x7#63 = 0#63) ↔ p.toNat % 8 = 0 := by
    rw [← BitVec.toNat_inj, BitVec.toNat_and, show (0x7#63).toNat = 2 ^ 3 - 1 by decide, Nat.and_two_pow_sub_one_eq_mod,
      BitVec.toNat_setWidth]
    simp
  rw [h1, BitVec.toInt_eq_toNat_cond, BitVec.toNat_setWidth]
  split <;> omega

end Clara.Gc
