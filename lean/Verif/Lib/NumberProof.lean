import Verif.Lib.BufferProof
/-
Facts about hashing and printing.
-/
namespace Clara.Lib

variable {α β : Type} {h h1 h2 h' : Heap}

/-! ### Hashing -/

/-- One step of 32 bit FNV-1a: mix a byte in, multiply by the prime. -/
def fnvStep (x : BitVec 32) (b : UInt8) : BitVec 32 := (x ^^^ b.toBitVec.setWidth 32) * 16777619#32

theorem iand_ff (b : UInt8) : iand (signed b) 0xff = b.toNat := by
  have key : ∀ b : UInt8, iand (signed b) 0xff = b.toNat := by
    intro b
    have := b.toNat_lt
    have e : BitVec.ofInt 63 (signed b) &&& BitVec.ofInt 63 0xff = BitVec.ofNat 63 b.toNat := by
      have : BitVec.ofInt 63 (signed b) = b.toBitVec.signExtend 63 := by
        rw [BitVec.signExtend]
        congr 1
        rw [BitVec.toInt_eq_toNat_cond]
        unfold signed
        simp only [UInt8.toNat_toBitVec]
        split <;> split <;> omega
      rw [this]
      apply BitVec.eq_of_toNat_eq
      rw [BitVec.toNat_and, BitVec.toNat_ofNat]
      rw [show (BitVec.ofInt 63 0xff).toNat = 2 ^ 8 - 1 from rfl, Nat.and_two_pow_sub_one_eq_mod]
      rw [BitVec.toNat_signExtend]
      simp only [BitVec.toNat_setWidth, UInt8.toNat_toBitVec]
      split <;> omega
    unfold iand
    rw [e, BitVec.toInt_eq_toNat_cond, BitVec.toNat_ofNat]
    split <;> omega
  exact key b

theorem iand_mask32 {n : Nat} (hn : n < 2 ^ 62) : iand (n : Int) 4294967295 = ((n % 2 ^ 32 : Nat) : Int) := by
  have hc : (BitVec.ofInt 63 4294967295).toNat = 2 ^ 32 - 1 := by decide +kernel
  have hn' : (BitVec.ofInt 63 (n : Int)).toNat = n := by rw [BitVec.toNat_ofInt]; omega
  have : (BitVec.ofInt 63 (n : Int) &&& BitVec.ofInt 63 4294967295).toNat = n % 2 ^ 32 := by
    rw [BitVec.toNat_and, hc, Nat.and_two_pow_sub_one_eq_mod, hn']
  unfold iand
  rw [BitVec.toInt_eq_toNat_cond, this]
  split <;> omega

theorem fnv_step_eq {x : BitVec 32} {hash : Int} (hx : hash = x.toNat) (b : UInt8) :
    iand (wrap (ixor hash (iand (signed b) 0xff) * 0x01000193)) 0xffffffff = ((fnvStep x b).toNat : Int) := by
  subst hx
  rw [iand_ff]
  have hb := b.toNat_lt
  have hx := x.isLt
  have e1 : ixor (x.toNat : Int) (b.toNat : Int) = ((x ^^^ b.toBitVec.setWidth 32).toNat : Int) := by
    unfold ixor
    have hlt := (x ^^^ b.toBitVec.setWidth 32).isLt
    have : BitVec.ofInt 63 (x.toNat : Int) ^^^ BitVec.ofInt 63 (b.toNat : Int) =
        BitVec.ofNat 63 (x ^^^ b.toBitVec.setWidth 32).toNat := by
      apply BitVec.eq_of_toNat_eq
      rw [BitVec.toNat_xor, BitVec.toNat_ofNat, Nat.mod_eq_of_lt (a := BitVec.toNat _) (by omega), BitVec.toNat_xor]
      congr 1
      · rw [BitVec.toNat_ofInt]; omega
      · rw [BitVec.toNat_ofInt, BitVec.toNat_setWidth, UInt8.toNat_toBitVec]; omega
    rw [this, BitVec.toInt_eq_toNat_cond, BitVec.toNat_ofNat]
    split <;> omega
  rw [e1]
  have hlt := (x ^^^ b.toBitVec.setWidth 32).isLt
  unfold fnvStep
  generalize x ^^^ b.toBitVec.setWidth 32 = y at hlt ⊢
  rw [wrap_eq ⟨by omega, by omega⟩, BitVec.toNat_mul, show (16777619#32).toNat = 16777619 from rfl]
  have hm : ((y.toNat : Int) * 16777619) = ((y.toNat * 16777619 : Nat) : Int) := by omega
  have hlt2 : y.toNat * 16777619 < 2 ^ 62 := by omega
  rw [show (0x01000193 : Int) = 16777619 from rfl, hm]
  exact iand_mask32 hlt2

theorem fnvLoop_ends {r : Nat} {s : List UInt8} (hs : IsStr h r s) (i : Nat) (hi : i ≤ s.length) {x : BitVec 32}
    {hash : Int} (hx : hash = x.toNat) :
    Ends (fnvLoop r i hash) h (((s.drop i).foldl fnvStep x).toNat : Int) h := by
  have hsm := hs.small
  generalize hk : s.length - i = k
  induction k generalizing i x hash with
  | zero =>
    rw [fnvLoop]
    refine (Ends.strLen hs).bind ?_
    rw [if_neg (by omega), List.drop_eq_nil_of_le (by omega), hx]
    exact Ends.pure _ _
  | succ k ih =>
    have hi1 : i < s.length := by omega
    rw [fnvLoop]
    refine (Ends.strLen hs).bind ?_
    rw [if_pos (by omega)]
    refine (Ends.strByte hs (List.getElem?_eq_getElem hi1)).bind ?_
    rw [List.drop_eq_getElem_cons hi1, List.foldl_cons]
    simp only []
    rw [succ_wrap hs (by omega)]
    exact ih (i + 1) (by omega) (fnv_step_eq hx _) (by omega)

theorem fnv1a_ends {r : Nat} {s : List UInt8} (hs : IsStr h r s) :
    Ends (fnv1a r) h ((s.foldl fnvStep 2166136261#32).toNat : Int) h := by
  have := fnvLoop_ends hs 0 (by omega) (x := 2166136261#32) rfl
  exact this

/-! ### Remainder -/

theorem wrap_sub_wrap (a b : Int) : wrap (a - wrap b) = wrap (a - b) := by unfold wrap; omega

theorem wrap_mul_wrap (a b : Int) : wrap (wrap a * b) = wrap (a * b) := by
  rw [wrap_toInt, wrap_toInt (a * b), BitVec.ofInt_mul, BitVec.ofInt_mul, wrap_toInt, BitVec.ofInt_toInt]

theorem imod_ends {i m : Int} (hi : IsInt i) (hm : IsInt m) (h0 : m ≠ 0) : Ends (imod i m) h (i.tmod m) h := by
  unfold imod idiv
  rw [if_neg h0]
  refine (Ends.pure _ _).bind ?_
  have h1 : i.tmod m = i - i.tdiv m * m := by
    have := Int.tmod_add_mul_tdiv i m
    rw [Int.mul_comm] at this
    omega
  have : wrap (i - wrap (wrap (i.tdiv m) * m)) = i.tmod m := by
    rw [wrap_mul_wrap, wrap_sub_wrap, ← h1]
    apply wrap_eq
    have := Int.natAbs_tmod i m
    have h2 := Nat.mod_le i.natAbs m.natAbs
    have h3 : i.natAbs % m.natAbs < m.natAbs := Nat.mod_lt _ (by omega)
    unfold IsInt at *
    omega
  rw [this]
  exact Ends.pure _ _

/-! ### Decimal digits -/

/-- The decimal digits of a positive number; none for zero. -/
def decDigits (n : Nat) : List UInt8 :=
  if n = 0 then [] else decDigits (n / 10) ++ [UInt8.ofNat (48 + n % 10)]
decreasing_by omega

theorem decDigits_zero : decDigits 0 = [] := by rw [decDigits]; rfl
theorem decDigits_pos {n : Nat} (hn : n ≠ 0) : decDigits n = decDigits (n / 10) ++ [UInt8.ofNat (48 + n % 10)] := by
  rw [decDigits, if_neg hn]

theorem decDigits_length {n k : Nat} (hn : n < 10 ^ k) : (decDigits n).length ≤ k := by
  induction k generalizing n with
  | zero => rw [show n = 0 by simpa using hn, decDigits_zero]; simp
  | succ k ih =>
    by_cases h0 : n = 0
    · rw [h0, decDigits_zero]; simp
    · rw [decDigits_pos h0, List.length_append]
      have := ih (n := n / 10) (by rw [Nat.pow_succ] at hn; omega)
      simp only [List.length_singleton]; omega

theorem toDigits_dec {n : Nat} (hn : n ≠ 0) :
    (Nat.toDigits 10 n).map (fun c => UInt8.ofNat c.toNat) = decDigits n := by
  induction n using Nat.strongRecOn with
  | ind n ih =>
    have hd : ∀ d : Fin 10, UInt8.ofNat (Nat.digitChar d.val).toNat = UInt8.ofNat (48 + d.val) := by decide
    rw [decDigits_pos hn]
    by_cases hl : n < 10
    · rw [Nat.toDigits_of_lt_base hl, show n / 10 = 0 by omega, decDigits_zero, Nat.mod_eq_of_lt hl]
      exact congrArg (· :: []) (hd ⟨n, hl⟩)
    · rw [Nat.toDigits_of_base_le (by omega) (by omega), List.map_append, ih (n / 10) (by omega) (by omega)]
      exact congrArg (_ ++ [·]) (hd ⟨n % 10, by omega⟩)

theorem overlay_snoc {D xs : List UInt8} {p : Nat} {x : UInt8} (hp : p + xs.length < D.length) :
    overlay (D.set (p + xs.length) x) p xs = overlay D p (xs ++ [x]) := by
  unfold overlay
  rw [List.take_set_of_le (by omega)]
  simp only [List.append_assoc]
  congr 2
  rw [List.length_append, List.length_singleton, List.drop_set, if_neg (by omega), Nat.sub_self,
    List.drop_eq_getElem_cons hp]
  rfl

theorem digits_byte {dg : Nat} (hd : IsStr h dg (chars "0123456789")) (d : Nat) (hd2 : d < 10) :
    Ends (getByte dg (d : Int)) h (signed (UInt8.ofNat (48 + d))) h := by
  have key : ∀ d : Fin 10, (chars "0123456789")[d.val]? = some (UInt8.ofNat (48 + d.val)) := by decide +kernel
  exact Ends.strByte hd (key ⟨d, hd2⟩)

theorem digitsLoop_ends {dg out : Nat} {val n x : Int} {y : Nat} {D : List UInt8}
    (hd : IsStr h dg (chars "0123456789")) (ho : h.objs[out]? = some { len := D.length, data := D })
    (hne : dg ≠ out) (hs1 : val < 0 → n ≤ 0) (hs2 : ¬ val < 0 → 0 ≤ n) (hn : IsInt n) (hxy : x = (y : Int) - 1)
    (hx : y ≤ D.length) (hD : D.length < 2 ^ 61) (hlen : (decDigits n.natAbs).length ≤ y) :
    Ends (digitsLoop dg out val n x) h ((y : Int) - 1 - (decDigits n.natAbs).length)
      (h.put out { len := D.length, data := overlay D (y - (decDigits n.natAbs).length) (decDigits n.natAbs) }) := by
  generalize hk : n.natAbs = k at *
  induction k using Nat.strongRecOn generalizing h n x y D with
  | ind k ih =>
    rw [digitsLoop]
    by_cases h0 : k = 0
    · subst h0
      rw [if_neg (by omega), decDigits_zero, overlay_nil, put_same ho, hxy]
      simp only [List.length_nil, Int.ofNat_zero, Int.sub_zero]
      exact Ends.pure _ _
    · rw [if_pos (by omega)]
      have hq : (n.tdiv 10).natAbs = k / 10 := by rw [Int.natAbs_tdiv, hk]; rfl
      have hq1 : val < 0 → n.tdiv 10 ≤ 0 := fun hv => by
        have := hs1 hv
        rw [show n = -(-n) by omega, Int.neg_tdiv]
        have := Int.tdiv_nonneg (a := -n) (b := 10) (by omega) (by omega)
        omega
      have hq2 : ¬ val < 0 → 0 ≤ n.tdiv 10 := fun hv => Int.tdiv_nonneg (hs2 hv) (by omega)
      unfold IsInt at hn
      rw [decDigits_pos h0] at hlen ⊢
      rw [List.length_append, List.length_singleton] at hlen ⊢
      have hy : 1 ≤ y := by omega
      unfold idiv
      rw [if_neg (by omega), wrap_eq ⟨by omega, by omega⟩]
      refine (Ends.pure _ _).bind ?_
      simp only []
      have hdig : (if val < 0 then wrap (wrap (10 * n.tdiv 10) - n) else wrap (n - wrap (10 * n.tdiv 10))) = ((k % 10 : Nat) : Int) := by
        split
        · rename_i hv
          have := hs1 hv
          have := hq1 hv
          rw [wrap_eq (z := 10 * _) ⟨by omega, by omega⟩, wrap_eq ⟨by omega, by omega⟩]
          omega
        · rename_i hv
          have := hs2 hv
          have := hq2 hv
          rw [wrap_eq (z := 10 * _) ⟨by omega, by omega⟩, wrap_eq ⟨by omega, by omega⟩]
          omega
      rw [hdig]
      refine (digits_byte hd _ (by omega)).bind ?_
      have hset := Ends.setByte ho (signed (UInt8.ofNat (48 + k % 10))) (i := y - 1) (by simp only; omega) (by simp only; omega)
      rw [show ((y - 1 : Nat) : Int) = x by omega, lowByte_signed] at hset
      refine Ends.bind hset ?_
      rw [wrap_eq (z := x - 1) ⟨by omega, by omega⟩]
      have hset_len : (D.set (y - 1) (UInt8.ofNat (48 + k % 10))).length = D.length := by simp
      have hrec := ih (k / 10) (by omega) (n := n.tdiv 10) (x := x - 1) (y := y - 1)
        (h := h.put out { len := D.length, data := D.set (y - 1) (UInt8.ofNat (48 + k % 10)) })
        (D := D.set (y - 1) (UInt8.ofNat (48 + k % 10))) (hd.put hne) (by rw [put_get ho, hset_len]) hq1 hq2
        ⟨by omega, by omega⟩ (by omega) (by omega) (by omega) hq (by omega)
      rw [hset_len, put_put] at hrec
      have hov := overlay_snoc (D := D) (xs := decDigits (k / 10)) (p := y - 1 - (decDigits (k / 10)).length)
        (x := UInt8.ofNat (48 + k % 10)) (by omega)
      rw [show y - 1 - (decDigits (k / 10)).length + (decDigits (k / 10)).length = y - 1 by omega] at hov
      rw [hov] at hrec
      rw [show y - ((decDigits (k / 10)).length + 1) = y - 1 - (decDigits (k / 10)).length by omega]
      rw [show (y : Int) - 1 - ((decDigits (k / 10)).length + 1 : Nat) = ((y - 1 : Nat) : Int) - 1 - (decDigits (k / 10)).length by omega]
      exact hrec

/-- The heap only gained objects. -/
structure Grows (h h' : Heap) : Prop where
  objs : ∀ r, r < h.objs.length → h'.objs[r]? = h.objs[r]?
  more : h.objs.length ≤ h'.objs.length
  bufs : ∀ r, r < h.bufs.length → h'.bufs[r]? = h.bufs[r]?

theorem Grows.add (h : Heap) (o : Obj) : Grows h (h.add o) :=
  ⟨fun _ hr => add_get_lt o hr, by show _ ≤ (h.objs ++ [o]).length; simp, fun _ _ => rfl⟩

theorem Grows.trans (a : Grows h h1) (b : Grows h1 h2) (hb : h.bufs.length ≤ h1.bufs.length) : Grows h h2 :=
  ⟨fun r hr => by rw [b.objs r (Nat.lt_of_lt_of_le hr a.more), a.objs r hr], Nat.le_trans a.more b.more,
   fun r hr => by rw [b.bufs r (Nat.lt_of_lt_of_le hr hb), a.bufs r hr]⟩

theorem Grows.str (g : Grows h h') {r : Nat} {s : List UInt8} (hs : IsStr h r s) : IsStr h' r s := by
  obtain ⟨o, a1, a2, a3⟩ := hs.ex
  exact ⟨⟨o, by rw [g.objs r hs.lt, a1], a2, a3⟩, hs.small⟩

/-- The decimal numeral of an int: a minus sign for negative ints, then the digits of its absolute value. -/
def numeral (z : Int) : List UInt8 :=
  (if z < 0 then [45] else []) ++ (Nat.toDigits 10 z.natAbs).map (fun c => UInt8.ofNat c.toNat)

theorem chars_0 : chars "0" = [48] := by decide +kernel

theorem lit_str {s : List UInt8} (hs : s.length < 2 ^ 61) :
    IsStr (h.add { len := s.length, data := s ++ [0] }) h.objs.length s :=
  ⟨⟨_, add_get _, rfl, List.prefix_append _ _⟩, hs⟩

theorem overlay_drop {D xs : List UInt8} {p : Nat} (hp : p + xs.length = D.length) : (overlay D p xs).drop p = xs := by
  unfold overlay
  rw [List.drop_append_of_le_length (by simp; omega),
    List.drop_eq_nil_of_le (as := List.take p D) (by simp; omega), List.drop_eq_nil_of_le (i := p + xs.length) (by omega)]
  simp

theorem drop_set_cons {E : List UInt8} {p : Nat} (hp : p < E.length) (x : UInt8) : (E.set p x).drop p = x :: E.drop (p + 1) := by
  rw [List.drop_set, if_neg (by omega), Nat.sub_self, List.drop_eq_getElem_cons hp]
  rfl

theorem intToString_ends {val : Int} (hv : IsInt val) :
    ∃ r h', Ends (intToString val) h r h' ∧ IsStr h' r (numeral val) ∧ Grows h h' ∧ h'.bufs = h.bufs := by
  by_cases h0 : val = 0
  · subst h0
    have hn0 : numeral 0 = chars "0" := by decide +kernel
    rw [hn0]
    refine ⟨_, _, ?_, lit_str (h := h) (s := chars "0") (by decide +kernel), Grows.add _ _, rfl⟩
    unfold intToString
    rw [if_pos rfl]
    exact Ends.lit _
  · unfold IsInt at hv
    have hcnt : (decDigits val.natAbs).length ≤ 19 := decDigits_length (by omega)
    have hnz : val.natAbs ≠ 0 := by omega
    generalize hds : decDigits val.natAbs = ds at hcnt
    -- the heap with the digits literal and the output array
    let o0 : Obj := { len := (chars "0123456789").length, data := chars "0123456789" ++ [0] }
    let h1 := h.add o0
    have hd0 : IsStr h1 h.objs.length (chars "0123456789") := lit_str (by decide +kernel)
    let D0 : List UInt8 := List.replicate 20 0
    have hD0 : D0.length = 20 := by simp [D0]
    let h2 := h1.add { len := ((20 : Nat) : Int), data := D0 }
    have hout : h2.objs[h1.objs.length]? = some { len := D0.length, data := D0 } := by
      rw [show h2.objs[h1.objs.length]? = some { len := ((20 : Nat) : Int), data := D0 } from add_get _, hD0]
    have hd : IsStr h2 h.objs.length (chars "0123456789") := hd0.add _
    have hne : h.objs.length ≠ h1.objs.length := by
      have : h1.objs.length = h.objs.length + 1 := by show (h.objs ++ [o0]).length = _; simp
      omega
    have hloop := digitsLoop_ends (val := val) (n := val) (x := 19) (y := 20) hd hout hne (fun h => by omega) (fun h => by omega)
      ⟨hv.1, hv.2⟩ (by omega) (by omega) (by omega) (by rw [hds]; omega)
    rw [hds] at hloop
    let D1 := overlay D0 (20 - ds.length) ds
    have hD1 : D1.length = 20 := by
      show (overlay D0 (20 - ds.length) ds).length = 20
      rw [overlay_length (by omega), hD0]
    have hdrop : D1.drop (20 - ds.length) = ds := overlay_drop (by omega)
    let h3 := h2.put h1.objs.length { len := D0.length, data := D1 }
    have hout3 : h3.objs[h1.objs.length]? = some { len := D1.length, data := D1 } := by
      rw [hD1, ← hD0]; exact put_get hout
    have hg3 : Grows h h3 := by
      refine ⟨fun r hr => ?_, ?_, fun _ _ => rfl⟩
      · have : h1.objs.length = h.objs.length + 1 := by show (h.objs ++ [o0]).length = _; simp
        rw [show h3.objs[r]? = h2.objs[r]? from put_get_ne (by omega), add_get_lt _ (by omega), add_get_lt _ hr]
      · show h.objs.length ≤ ((((h.objs ++ [o0]) ++ [_]).set _ _)).length
        simp
    have hnum : numeral val = (if val < 0 then [45] else []) ++ ds := by
      unfold numeral; rw [toDigits_dec hnz, hds]
    by_cases hneg : val < 0
    · rw [if_pos hneg] at hnum
      let D2 := D1.set (19 - ds.length) 45
      let h4 := h3.put h1.objs.length { len := D1.length, data := D2 }
      have hD2 : D2.length = 20 := by simp [D2, hD1]
      have hs4 : IsStr h4 h1.objs.length D2 :=
        ⟨⟨_, put_get hout3, by simp only [hD1, hD2], List.prefix_refl _⟩, by omega⟩
      obtain ⟨o, a1, a2, a3⟩ := toStr_ends hs4 (p := 19 - ds.length) (n := ds.length + 1) (by omega)
      have hfin : (D2.drop (19 - ds.length)).take (ds.length + 1) = numeral val := by
        rw [drop_set_cons (by omega), show 19 - ds.length + 1 = 20 - ds.length by omega, hdrop, hnum,
          List.take_of_length_le (by simp)]
        rfl
      refine ⟨h4.objs.length, h4.add o, ?_, ⟨⟨o, add_get o, ?_, ?_⟩, ?_⟩, ?_, rfl⟩
      · unfold intToString
        rw [if_neg h0]
        refine Ends.bind (Ends.lit _) (Ends.bind (Ends.newBytes 20) (Ends.bind (Ends.length (add_get _)) ?_))
        rw [show wrap (({ len := ((20 : Nat) : Int), data := List.replicate 20 0 } : Obj).len - 1) = 19 by decide]
        refine Ends.bind hloop ?_
        rw [if_pos hneg]
        have hset := Ends.setByte hout3 0x2d (i := 19 - ds.length) (by simp only; omega) (by simp only; omega)
        rw [show lowByte 0x2d = 45 by decide] at hset
        rw [show ((20 : Nat) : Int) - 1 - (ds.length : Int) = ((19 - ds.length : Nat) : Int) by omega]
        refine Ends.bind hset ((Ends.pure _ _).bind ?_)
        simp only []
        refine Ends.bind (Ends.strLen hs4) ?_
        rw [wrap_eq (z := ((19 - ds.length : Nat) : Int) - 1) ⟨by omega, by omega⟩,
          wrap_eq (z := (D2.length : Int) - 1) ⟨by omega, by omega⟩, wrap_eq ⟨by omega, by omega⟩, wrap_eq ⟨by omega, by omega⟩,
          show ((19 - ds.length : Nat) : Int) - 1 + 1 = ((19 - ds.length : Nat) : Int) by omega,
          show (D2.length : Int) - 1 - (((19 - ds.length : Nat) : Int) - 1) = ((ds.length + 1 : Nat) : Int) by omega]
        exact a1
      · rw [a2, hnum]; simp
      · rw [a3, hfin]; exact List.prefix_append _ _
      · rw [hnum]; simp; omega
      · have hg4 : Grows h h4 := by
          refine ⟨fun r hr => ?_, ?_, fun _ _ => rfl⟩
          · have : h1.objs.length = h.objs.length + 1 := by show (h.objs ++ [o0]).length = _; simp
            rw [show h4.objs[r]? = h3.objs[r]? from put_get_ne (by omega), hg3.objs r hr]
          · have := hg3.more
            show h.objs.length ≤ (h3.objs.set _ _).length
            simpa using this
        exact hg4.trans (Grows.add _ _) (Nat.le_refl _)
    · rw [if_neg hneg, List.nil_append] at hnum
      have hs3 : IsStr h3 h1.objs.length D1 := ⟨⟨_, hout3, rfl, List.prefix_refl _⟩, by omega⟩
      obtain ⟨o, a1, a2, a3⟩ := toStr_ends hs3 (p := 20 - ds.length) (n := ds.length) (by omega)
      rw [hdrop, List.take_length] at a3
      refine ⟨h3.objs.length, h3.add o, ?_, ⟨⟨o, add_get o, ?_, ?_⟩, ?_⟩, ?_, rfl⟩
      · unfold intToString
        rw [if_neg h0]
        refine Ends.bind (Ends.lit _) (Ends.bind (Ends.newBytes 20) (Ends.bind (Ends.length (add_get _)) ?_))
        rw [show wrap (({ len := ((20 : Nat) : Int), data := List.replicate 20 0 } : Obj).len - 1) = 19 by decide]
        refine Ends.bind hloop ?_
        rw [if_neg hneg]
        refine (Ends.pure _ _).bind ?_
        simp only []
        refine Ends.bind (Ends.strLen hs3) ?_
        rw [wrap_eq (z := (D1.length : Int) - 1) ⟨by omega, by omega⟩, wrap_eq ⟨by omega, by omega⟩, wrap_eq ⟨by omega, by omega⟩,
          show ((20 : Nat) : Int) - 1 - (ds.length : Int) + 1 = ((20 - ds.length : Nat) : Int) by omega,
          show (D1.length : Int) - 1 - (((20 : Nat) : Int) - 1 - (ds.length : Int)) = (ds.length : Int) by omega]
        exact a1
      · rw [a2, hnum]
      · rw [a3, hnum]; exact List.prefix_append _ _
      · rw [hnum]; omega
      · exact hg3.trans (Grows.add _ _) (Nat.le_refl _)

/-! ### Bits -/

/-- The output of `toBinary`: bit 62 first, a separator of two bytes after each bit whose number is a positive multiple
of eight. -/
def bits (i : Int) : Nat → List UInt8
  | 0 => []
  | j + 1 => [if (BitVec.ofInt 63 i).getLsbD j then 49 else 48] ++ (if 0 < j ∧ j % 8 = 0 then [0xC2, 0xB7] else []) ++ bits i j

theorem bit_test (i : Int) {j : Nat} (hj : j < 63) :
    (iand i (ishl 1 j) = ishl 1 j) ↔ (BitVec.ofInt 63 i).getLsbD j = true := by
  have hm : BitVec.ofInt 63 (ishl 1 j) = BitVec.twoPow 63 j := by
    unfold ishl
    rw [wrap_toInt, BitVec.ofInt_toInt]
    apply BitVec.eq_of_toNat_eq
    rw [BitVec.toNat_twoPow, BitVec.toNat_ofInt, Int.one_mul]
    rw [show (2 : Int) ^ j = ((2 ^ j : Nat) : Int) by norm_cast]
    omega
  have hs : ishl 1 j = (BitVec.twoPow 63 j).toInt := by
    rw [← hm]; unfold ishl
    rw [← wrap_toInt, wrap_eq (wrap_isInt _)]
  unfold iand
  rw [hm, hs, BitVec.toInt_inj, BitVec.and_twoPow]
  have hnz : BitVec.twoPow 63 j ≠ 0#63 := by
    intro e
    have := congrArg (·.getLsbD j) e
    simp [hj] at this
  constructor
  · intro h
    cases hb : (BitVec.ofInt 63 i).getLsbD j with
    | true => rfl
    | false => rw [hb] at h; exact absurd h.symm (by simpa using hnz)
  · intro h
    rw [if_pos h]

theorem bits_length (i : Int) (j : Nat) : (bits i j).length ≤ 3 * j := by
  induction j with
  | zero => simp [bits]
  | succ j ih =>
    rw [bits]
    simp only [List.length_append, List.length_singleton]
    split <;> simp <;> omega

theorem binaryLoop_ends {b d dg sp : Nat} {D c : List UInt8} (i : Int) (j : Nat) (hj : j ≤ 63)
    (hb : BufAt h b d D c) (hd : IsStr h dg (chars "01")) (hs : IsStr h sp (chars "·")) (hd1 : dg ≠ d) (hs1 : sp ≠ d)
    (hc : c.length + 3 * j ≤ 2 ^ 59) :
    ∃ h' d' D', Ends (binaryLoop b dg sp i j) h () h' ∧ BufAt h' b d' D' (c ++ bits i j) ∧ Keeps h h' b d ∧ SameOrNew h d d' := by
  induction j generalizing h d D c with
  | zero => exact ⟨h, d, D, Ends.pure _ _, by rw [bits, List.append_nil]; exact hb, Keeps.refl _ _ _, .inl rfl⟩
  | succ j ih =>
    let x : UInt8 := if (BitVec.ofInt 63 i).getLsbD j then 49 else 48
    have hget : Ends (getByte dg (if iand i (ishl 1 j) = ishl 1 j then 1 else 0)) h (signed x) h := by
      by_cases hbit : (BitVec.ofInt 63 i).getLsbD j = true
      · rw [if_pos ((bit_test i (by omega)).2 hbit)]
        simp only [x, if_pos hbit]
        exact Ends.strByte (i := 1) hd (by decide +kernel)
      · rw [if_neg (fun h => hbit ((bit_test i (by omega)).1 h))]
        simp only [x, if_neg hbit]
        exact Ends.strByte (i := 0) hd (by decide +kernel)
    obtain ⟨h1, d1, D1, a1, a2, a3, a4⟩ := bufAppendByte_ends hb (signed x) (by omega)
    rw [lowByte_signed] at a2
    have hmod : Ends (imod j 8) h1 ((j : Int).tmod 8) h1 := imod_ends ⟨by omega, by omega⟩ ⟨by omega, by omega⟩ (by omega)
    have hj8 : (j : Int).tmod 8 = ((j % 8 : Nat) : Int) := by
      rw [Int.tmod_eq_emod_of_nonneg (by omega)]; omega
    have hd' : IsStr h1 dg (chars "01") := a3.str hd hd1
    have hs' : IsStr h1 sp (chars "·") := a3.str hs hs1
    have hdn : dg ≠ d1 := by have := hd.lt; rcases a4 with e | e <;> omega
    have hsn : sp ≠ d1 := by have := hs.lt; rcases a4 with e | e <;> omega
    have hsep : chars "·" = [0xC2, 0xB7] := by decide +kernel
    by_cases hp : 0 < j ∧ j % 8 = 0
    · obtain ⟨h2, d2, D2, b1, b2, b3, b4⟩ := bufAppend_ends a2 hs' hsn (by rw [hsep]; simp; omega)
      have hd2 := b3.str hd' hdn
      have hs2 := b3.str hs' hsn
      have hdn2 : dg ≠ d2 := by have := hd'.lt; rcases b4 with e | e <;> omega
      have hsn2 : sp ≠ d2 := by have := hs'.lt; rcases b4 with e | e <;> omega
      obtain ⟨h3, d3, D3, c1, c2, c3, c4⟩ := ih (by omega) b2 hd2 hs2 hdn2 hsn2 (by rw [hsep]; simp; omega)
      refine ⟨h3, d3, D3, ?_, ?_, ?_, ?_⟩
      · unfold binaryLoop
        simp only []
        refine Ends.bind hget (Ends.bind a1 (Ends.bind hmod ?_))
        rw [if_pos ⟨by omega, by omega⟩]
        exact Ends.bind b1 c1
      · rw [bits, if_pos hp, ← hsep]
        simpa only [List.append_assoc] using c2
      · exact a3.trans (b3.trans c3 b4) a4
      · exact (a4.trans b4 a3.more).trans c4 (Nat.le_trans a3.more b3.more)
    · obtain ⟨h3, d3, D3, c1, c2, c3, c4⟩ := ih (by omega) a2 hd' hs' hdn hsn (by simp; omega)
      refine ⟨h3, d3, D3, ?_, ?_, ?_, ?_⟩
      · unfold binaryLoop
        simp only []
        refine Ends.bind hget (Ends.bind a1 (Ends.bind hmod ?_))
        rw [if_neg (by rw [hj8]; omega)]
        exact c1
      · rw [bits, if_neg hp, List.append_nil]
        simpa only [List.append_assoc] using c2
      · exact a3.trans c3 a4
      · exact a4.trans c4 a3.more

theorem toBinary_ends (i : Int) :
    ∃ r h', Ends (toBinary i) h r h' ∧ IsStr h' r (bits i 63) ∧ Grows h h' := by
  obtain ⟨h1, a1, a2, a3, a4, a5⟩ := newByteBuffer_ends (h := h) (cap := 77) (by omega) (by omega)
  let o1 : Obj := { len := (chars "01").length, data := chars "01" ++ [0] }
  let o2 : Obj := { len := (chars "·").length, data := chars "·" ++ [0] }
  let h2 := h1.add o1
  let h3 := h2.add o2
  have hl2 : h2.objs.length = h1.objs.length + 1 := by show (h1.objs ++ [o1]).length = _; simp
  have hl3 : h3.objs.length = h2.objs.length + 1 := by show (h2.objs ++ [o2]).length = _; simp
  have hlt := (List.getElem?_eq_some_iff.1 a2.obj).1
  have hb : BufAt h3 h.bufs.length h.objs.length (List.replicate 77 0) [] := by
    refine ⟨a2.buf, ?_, a2.pre, a2.pos, a2.small⟩
    rw [add_get_lt _ (by omega), add_get_lt _ hlt, a2.obj]
  have hd : IsStr h3 h1.objs.length (chars "01") := IsStr.add (lit_str (h := h1) (by decide +kernel)) _
  have hs : IsStr h3 h2.objs.length (chars "·") := lit_str (h := h2) (by decide +kernel)
  obtain ⟨h4, d4, D4, b1, b2, b3, b4⟩ := binaryLoop_ends i 63 (by omega) hb hd hs (by omega) (by omega) (by simp)
  rw [List.nil_append] at b2
  obtain ⟨o, c1, c2⟩ := bufToString_ends b2
  refine ⟨h4.objs.length, h4.add o, ?_, c2, ?_⟩
  · unfold toBinary
    exact Ends.bind a1 (Ends.bind (Ends.lit _) (Ends.bind (Ends.lit _) (Ends.bind b1 c1)))
  · have g3 : Grows h h4 := by
      refine ⟨fun r hr => ?_, ?_, fun r hr => ?_⟩
      · rw [b3.objs r (by omega) (by omega), add_get_lt _ (by omega), add_get_lt _ (by omega), a3 r hr]
      · have := b3.more; omega
      · rw [b3.bufs r (by omega)]
        show h1.bufs[r]? = _
        rw [a5, List.getElem?_append_left hr]
    refine g3.trans (Grows.add _ _) ?_
    rw [b3.nbufs, show h3.bufs = h1.bufs from rfl, a5]
    simp

end Clara.Lib
