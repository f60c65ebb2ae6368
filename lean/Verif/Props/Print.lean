import Verif.Lib.Print
import Verif.Props.Files
/-
C78: what is printed.
-/
namespace Clara.Props
open Clara.Lib

/-- A string with the NUL byte behind it that C needs. -/
structure IsText (h : Heap) (r : Nat) (s : Str) : Prop where
  ex : ∃ o, h.objs[r]? = some o ∧ o.len = s.length ∧ (s ++ [0]) <+: o.data
  small : s.length < 2 ^ 61

theorem IsText.str {h : Heap} {r : Nat} {s : Str} (t : IsText h r s) : IsStr h r s := by
  obtain ⟨o, a1, a2, a3⟩ := t.ex
  exact ⟨⟨o, a1, a2, (List.prefix_append _ _).trans a3⟩, t.small⟩

theorem IsText.fresh {h : Heap} {s : Str} {o : Obj} (h1 : o.len = s.length) (h2 : o.data = s ++ [0])
    (hs : s.length < 2 ^ 61) : IsText (h.add o) h.objs.length s :=
  ⟨⟨o, add_get o, h1, by rw [h2]; exact List.prefix_refl _⟩, hs⟩

theorem IsText.add {h : Heap} {r : Nat} {s : Str} (t : IsText h r s) (o : Obj) : IsText (h.add o) r s := by
  obtain ⟨o', a1, a2, a3⟩ := t.ex
  exact ⟨⟨o', by rw [add_get_lt o t.str.lt, a1], a2, a3⟩, t.small⟩

theorem takeWhile_text {s d : Str} (h : (s ++ [0]) <+: d) :
    (0 : UInt8) ∈ d ∧ d.takeWhile (· ≠ 0) = s.takeWhile (· ≠ 0) := by
  obtain ⟨t, rfl⟩ := h
  refine ⟨by simp, ?_⟩
  rw [List.append_assoc]
  induction s with
  | nil => simp
  | cons a s ih =>
    rw [List.cons_append, List.takeWhile_cons, List.takeWhile_cons]
    by_cases ha : a = 0
    · simp [ha]
    · rw [ih]

theorem takeWhile_all {s : Str} (h : (0 : UInt8) ∉ s) : s.takeWhile (· ≠ 0) = s := by
  induction s with
  | nil => rfl
  | cons a s ih =>
    simp only [List.mem_cons, not_or] at h
    rw [List.takeWhile_cons, ih h.2]
    simp [Ne.symm h.1]

theorem cString_text {h : Heap} {r : Nat} {s : Str} (t : IsText h r s) :
    Ends (cString r) h (s.takeWhile (· ≠ 0)) h := by
  obtain ⟨o, a1, a2, a3⟩ := t.ex
  obtain ⟨h0, h1⟩ := takeWhile_text a3
  refine (Ends.obj a1).bind ?_
  rw [if_pos h0, h1]
  rfl

/-! ### Formats -/

/-- The output of `printf` with a literal format. -/
theorem printLit_gives {s : String} {as : List CArg} {ps : List Piece} {h : Heap} {out t : Str}
    (h0 : (0 : UInt8) ∉ chars s) (hl : (chars s).length < 2 ^ 61)
    (hp : parseFmt (chars s).length (chars s) = some ps)
    (ht : Ends (formatAll ps as) (h.add { len := (chars s).length, data := chars s ++ [0] }) t
      (h.add { len := (chars s).length, data := chars s ++ [0] })) :
    Gives (printLit s as) (h, out) () (h.add { len := (chars s).length, data := chars s ++ [0] }, out ++ t) := by
  refine (Gives.heap (Ends.lit _)).bind ?_
  unfold printf
  have hc := cString_text (IsText.fresh (h := h) (s := chars s)
    (o := { len := (chars s).length, data := chars s ++ [0] }) rfl rfl hl)
  rw [takeWhile_all h0] at hc
  refine (Gives.heap hc).bind ?_
  rw [hp]
  exact (Gives.heap ht).bind rfl

theorem Ends.fmtNil {h : Heap} {as : List CArg} : Ends (formatAll [] as) h [] h := rfl

theorem Ends.fmtByte {h : Heap} {b : UInt8} {ps : List Piece} {as : List CArg} {t : Str}
    (ht : Ends (formatAll ps as) h t h) : Ends (formatAll (.byte b :: ps) as) h (b :: t) h :=
  ht.bind (Ends.pure _ _)

theorem Ends.fmtConv {h : Heap} {s : CSpec} {ps : List Piece} {a : CArg} {as : List CArg} {t1 t : Str}
    (h1 : Ends (convert s a) h t1 h) (ht : Ends (formatAll ps as) h t h) :
    Ends (formatAll (.conv s :: ps) (a :: as)) h (t1 ++ t) h :=
  h1.bind (ht.bind (Ends.pure _ _))

/-- Only bytes. -/
theorem Ends.fmtText {h : Heap} {s : Str} {ps : List Piece} {as : List CArg} {t : Str}
    (ht : Ends (formatAll ps as) h t h) : Ends (formatAll (s.map Piece.byte ++ ps) as) h (s ++ t) h := by
  induction s with
  | nil => exact ht
  | cons b s ih => exact Ends.fmtByte ih

theorem Ends.convStr {h : Heap} {r : Nat} {s : Str} (t : IsText h r s) :
    Ends (convert { conv := 115 } (.str r)) h (s.takeWhile (· ≠ 0)) h := by
  refine (cString_text t).bind ?_
  simp only [cPad]
  rw [if_neg (by decide)]
  simp only [List.length_nil, Nat.zero_add, Nat.zero_sub, List.replicate_zero, List.nil_append]
  exact Ends.pure _ _

theorem ofInt_toInt64 {z : Int} (hz : IsInt z) : (BitVec.ofInt 64 z).toInt = z := by
  obtain ⟨h1, h2⟩ := hz
  rw [BitVec.toInt_ofInt]
  unfold Int.bmod
  simp only []
  split <;> omega

theorem Ends.convInt {h : Heap} {z : Int} (hz : IsInt z) :
    Ends (convert { conv := 105, long := true } (rawInt z)) h (numeral z) h := by
  unfold convert rawInt
  simp only []
  rw [if_pos (by decide)]
  simp only [CSpec.signed, if_true, ofInt_toInt64 hz, cPad, Nat.zero_sub, List.replicate_zero, List.nil_append, numeral, cDigits]
  exact Ends.pure _ _

/-! ### Strings -/

/-- Strings that come from literals, from `append` and from `toString` of bytes have the NUL byte. -/
theorem C78_terminated {h : Heap} :
    (∀ s : Str, s.length < 2 ^ 61 → ∃ h', Ends (lit s) h h.objs.length h' ∧ IsText h' h.objs.length s) ∧
    (∀ r1 r2 s t, IsStr h r1 s → IsStr h r2 t → s.length + t.length < 2 ^ 61 →
      ∃ h', Ends (append r1 r2) h h.objs.length h' ∧ IsText h' h.objs.length (s ++ t)) ∧
    (∀ (b p n : Nat) s, IsStr h b s → p + n ≤ s.length →
      ∃ h', Ends (toStr b p n) h h.objs.length h' ∧ IsText h' h.objs.length ((s.drop p).take n)) := by
  refine ⟨fun s hs => ⟨_, Ends.lit s, IsText.fresh rfl rfl hs⟩, ?_, ?_⟩
  · intro r1 r2 s t h1 h2 hl
    obtain ⟨o, a1, a2, a3⟩ := append_ends h1 h2 hl
    exact ⟨_, a1, IsText.fresh a2 a3 (by simpa using hl)⟩
  · intro b p n s hs hp
    obtain ⟨o, a1, a2, a3⟩ := toStr_ends hs hp
    have := hs.small
    refine ⟨_, a1, IsText.fresh ?_ a3 ?_⟩
    · rw [a2]; simp; omega
    · simp; omega

/-- **C78, strings.**  The bytes before the first NUL byte are printed, and nothing else. -/
theorem C78_string_partial {h : Heap} {r : Nat} {s out : Str} (t : IsText h r s) :
    (∃ h', Gives (printStr r) (h, out) () (h', out ++ s.takeWhile (· ≠ 0)) ∧ Grows h h') ∧
    (∃ h', Gives (printlnStr r) (h, out) () (h', out ++ (s.takeWhile (· ≠ 0) ++ [10])) ∧ Grows h h') := by
  refine ⟨⟨_, printLit_gives (ps := [.conv { conv := 115 }]) (by decide +kernel) (by decide +kernel)
    (by decide +kernel) ?_, Grows.add _ _⟩, ⟨_, printLit_gives (ps := [.conv { conv := 115 }, .byte 10])
    (by decide +kernel) (by decide +kernel) (by decide +kernel) ?_, Grows.add _ _⟩⟩
  · have := Ends.fmtConv (Ends.convStr (t.add { len := (chars "%s").length, data := chars "%s" ++ [0] }))
      (Ends.fmtNil (as := []))
    rwa [List.append_nil] at this
  · exact Ends.fmtConv (Ends.convStr (t.add { len := (chars "%s\n").length, data := chars "%s\n" ++ [0] }))
      (Ends.fmtByte (Ends.fmtNil (as := [])))

/-- So strings without NUL bytes are printed as they are. -/
theorem C78_string {h : Heap} {r : Nat} {s out : Str} (t : IsText h r s) (h0 : (0 : UInt8) ∉ s) :
    (∃ h', Gives (printStr r) (h, out) () (h', out ++ s) ∧ Grows h h') ∧
    (∃ h', Gives (printlnStr r) (h, out) () (h', out ++ (s ++ [10])) ∧ Grows h h') := by
  have := C78_string_partial (out := out) t
  rwa [takeWhile_all h0] at this

/-- The string of `a`, NUL, `b`, as `toString` makes it from a byte array. -/
def nulHeap : Heap := { objs := [{ len := 3, data := [97, 0, 98, 0] }] }

theorem nulText : IsText nulHeap 0 [97, 0, 98] := ⟨⟨_, rfl, rfl, by decide⟩, by decide⟩

/-- The full claim is false: of a string with a NUL byte only the start is printed. -/
theorem C78_violated_nul : ¬ ∀ (h : Heap) (r : Nat) (s out : Str), IsText h r s →
    ∃ h', Gives (printStr r) (h, out) () (h', out ++ s) := by
  intro hall
  obtain ⟨h1, e1⟩ := hall _ _ _ [] nulText
  obtain ⟨⟨h2, e2, -⟩, -⟩ := C78_string_partial (out := []) nulText
  have := (Gives.det e1 e2).2
  have : ([97, 0, 98] : Str) = [97] := congrArg Prod.snd this
  exact absurd this (by decide)

/-! ### Ints and bools -/

/-- **C78, ints.**  The decimal numeral is printed (`C52_numeral` says what that is). -/
theorem C78_int {h : Heap} {z : Int} {out : Str} (hz : IsInt z) :
    (∃ h', Gives (printInt z) (h, out) () (h', out ++ numeral z) ∧ Grows h h') ∧
    (∃ h', Gives (printlnInt z) (h, out) () (h', out ++ (numeral z ++ [10])) ∧ Grows h h') := by
  refine ⟨⟨_, printLit_gives (ps := [.conv { conv := 105, long := true }]) (by decide +kernel) (by decide +kernel)
    (by decide +kernel) ?_, Grows.add _ _⟩, ⟨_, printLit_gives (ps := [.conv { conv := 105, long := true }, .byte 10])
    (by decide +kernel) (by decide +kernel) (by decide +kernel) ?_, Grows.add _ _⟩⟩
  · have := Ends.fmtConv (h := h.add { len := (chars "%lli").length, data := chars "%lli" ++ [0] }) (Ends.convInt hz)
      (Ends.fmtNil (as := []))
    rwa [List.append_nil] at this
  · exact Ends.fmtConv (Ends.convInt hz) (Ends.fmtByte (Ends.fmtNil (as := [])))

/-- The same text as `toString` makes. -/
theorem C78_int_toString {h h1 : Heap} {z : Int} {r : Nat} {out : Str} (hz : IsInt z) (hr : Ends (intToString z) h r h1) :
    ∃ s h2, IsStr h1 r s ∧ Gives (printInt z) (h1, out) () (h2, out ++ s) := by
  obtain ⟨r', h', a, b, -⟩ := C52_toString (h := h) hz
  have e : some (Except.ok (r', h')) = some (Except.ok (r, h1)) := a.symm.trans hr
  cases e
  obtain ⟨⟨h2, e, -⟩, -⟩ := C78_int (h := h1) (out := out) hz
  exact ⟨_, h2, b, e⟩

/-- **C78, bools.** -/
theorem C78_bool (h : Heap) (b : Bool) (out : Str) :
    ∃ h', Gives (printlnBool b) (h, out) () (h', out ++ (if b then [116, 114, 117, 101, 10] else [102, 97, 108, 115, 101, 10])) ∧
      Grows h h' := by
  cases b with
  | true =>
    have ht := IsText.fresh (h := h) (s := chars "true") (o := { len := (chars "true").length, data := chars "true" ++ [0] })
      rfl rfl (by decide +kernel)
    obtain ⟨-, h', e, g⟩ := C78_string (out := out) ht (by decide +kernel)
    refine ⟨h', (Gives.heap (Ends.lit _)).bind ?_, (Grows.add _ _).trans g (Nat.le_refl _)⟩
    rw [show chars "true" ++ [10] = ([116, 114, 117, 101, 10] : Str) from by decide +kernel] at e
    exact e
  | false =>
    have ht := IsText.fresh (h := h) (s := chars "false") (o := { len := (chars "false").length, data := chars "false" ++ [0] })
      rfl rfl (by decide +kernel)
    obtain ⟨-, h', e, g⟩ := C78_string (out := out) ht (by decide +kernel)
    refine ⟨h', (Gives.heap (Ends.lit _)).bind ?_, (Grows.add _ _).trans g (Nat.le_refl _)⟩
    rw [show chars "false" ++ [10] = ([102, 97, 108, 115, 101, 10] : Str) from by decide +kernel] at e
    exact e

/-! ### Hexadecimal -/

/-- The value of a hexadecimal digit. -/
def hexVal (b : UInt8) : Nat := if b.toNat ≤ 57 then b.toNat - 48 else b.toNat - 87

/-- Lower case hexadecimal digits. -/
def IsHex (b : UInt8) : Prop := (48 ≤ b.toNat ∧ b.toNat ≤ 57) ∨ (97 ≤ b.toNat ∧ b.toNat ≤ 102)

/-- The number that hexadecimal digits stand for. -/
def readHex (ds : Str) : Nat := ds.foldl (fun a b => 16 * a + hexVal b) 0

theorem hexDigit (d : Fin 16) : IsHex (UInt8.ofNat (Nat.digitChar d).toNat) ∧
    hexVal (UInt8.ofNat (Nat.digitChar d).toNat) = d ∧ (UInt8.ofNat (Nat.digitChar d).toNat = 48 → d = 0) := by
  unfold IsHex
  revert d
  decide

theorem cDigits_spec (n : Nat) : cDigits 16 n ≠ [] ∧ (∀ b ∈ cDigits 16 n, IsHex b) ∧ readHex (cDigits 16 n) = n ∧
    ((cDigits 16 n).head? = some 48 → n = 0) := by
  induction n using Nat.strongRecOn with
  | ind n ih =>
    by_cases hn : n < 16
    · unfold cDigits
      rw [Nat.toDigits_of_lt_base hn]
      obtain ⟨a1, a2, a3⟩ := hexDigit ⟨n, hn⟩
      refine ⟨by simp, by simpa using a1, ?_, ?_⟩
      · simpa [readHex] using a2
      · intro e
        have := a3 (by simpa using e)
        exact congrArg Fin.val this
    · have e : cDigits 16 n = cDigits 16 (n / 16) ++ [UInt8.ofNat (Nat.digitChar (n % 16)).toNat] := by
        unfold cDigits
        rw [Nat.toDigits_of_base_le (by omega) (by omega), List.map_append]
        rfl
      obtain ⟨i1, i2, i3, i4⟩ := ih (n / 16) (by omega)
      obtain ⟨a1, a2, a3⟩ := hexDigit ⟨n % 16, by omega⟩
      rw [e]
      refine ⟨by simp, ?_, ?_, ?_⟩
      · intro b hb
        rcases List.mem_append.1 hb with hb | hb
        · exact i2 b hb
        · rw [List.mem_singleton.1 hb]; exact a1
      · unfold readHex at i3 ⊢
        rw [List.foldl_append, i3]
        simp only [List.foldl_cons, List.foldl_nil]
        have : hexVal (UInt8.ofNat (Nat.digitChar (n % 16)).toNat) = n % 16 := a2
        rw [this]
        omega
      · intro hh
        have : (cDigits 16 (n / 16)).head? = some 48 := by
          cases hc : cDigits 16 (n / 16) with
          | nil => exact absurd hc i1
          | cons x xs => rw [hc] at hh; exact hh
        have := i4 this
        omega

theorem cDigits_length {n : Nat} (hn : n < 2 ^ 64) : (cDigits 16 n).length ≤ 16 := by
  unfold cDigits
  rw [List.length_map, Nat.length_toDigits_le_iff (by omega) (by omega)]
  exact Nat.lt_of_lt_of_le hn (by decide)

theorem readHex_zeros (k : Nat) (ds : Str) : readHex (List.replicate k 48 ++ ds) = readHex ds := by
  induction k with
  | zero => rfl
  | succ k ih => rw [List.replicate_succ]; exact ih

/-- The 64-bit number with the same last bits. -/
def word64 (z : Int) : Nat := (z % 2 ^ 64).toNat

theorem word64_eq (z : Int) : (BitVec.ofInt 64 z).toNat = word64 z := by
  rw [BitVec.toNat_ofInt]; rfl

/-- **C78, hexadecimal.**  `printHex` prints `0x`, the digits of the value as 64-bit number without leading zeros and a line end. -/
theorem C78_hex (h : Heap) (z : Int) (out : Str) :
    ∃ h' ds, Gives (printHex z) (h, out) () (h', out ++ ([48, 120] ++ ds ++ [10])) ∧ Grows h h' ∧
      ds ≠ [] ∧ (∀ b ∈ ds, IsHex b) ∧ readHex ds = word64 z ∧ (ds.head? = some 48 → word64 z = 0) := by
  obtain ⟨d1, d2, d3, d4⟩ := cDigits_spec (word64 z)
  refine ⟨_, cDigits 16 (word64 z), printLit_gives (ps := [.byte 48, .byte 120, .conv { conv := 120, long := true }, .byte 10])
    (by decide +kernel) (by decide +kernel) (by decide +kernel) ?_, Grows.add _ _, d1, d2, d3, d4⟩
  refine Ends.fmtByte (Ends.fmtByte (Ends.fmtConv ?_ (Ends.fmtByte (Ends.fmtNil (as := [])))))
  unfold convert rawInt
  simp only []
  rw [if_neg (by decide), if_pos (by decide)]
  simp only [CSpec.unsigned, if_true, cPad, Nat.zero_sub, List.replicate_zero, List.nil_append, word64_eq]
  exact Ends.pure _ _

/-- `printHexPadded` prints exactly sixteen digits. -/
theorem C78_hexPadded (h : Heap) (z : Int) (out : Str) :
    ∃ h' ds, Gives (printHexPadded z) (h, out) () (h', out ++ ([48, 120] ++ ds ++ [10])) ∧ Grows h h' ∧
      ds.length = 16 ∧ (∀ b ∈ ds, IsHex b) ∧ readHex ds = word64 z := by
  obtain ⟨d1, d2, d3, d4⟩ := cDigits_spec (word64 z)
  have hl := cDigits_length (n := word64 z) (by unfold word64; omega)
  refine ⟨_, List.replicate (16 - (cDigits 16 (word64 z)).length) 48 ++ cDigits 16 (word64 z),
    printLit_gives (ps := [.byte 48, .byte 120, .conv { zero := true, width := 16, conv := 120, long := true }, .byte 10])
    (by decide +kernel) (by decide +kernel) (by decide +kernel) ?_, Grows.add _ _, ?_, ?_, ?_⟩
  · refine Ends.fmtByte (Ends.fmtByte (Ends.fmtConv ?_ (Ends.fmtByte (Ends.fmtNil (as := [])))))
    unfold convert rawInt
    simp only []
    rw [if_neg (by decide), if_pos (by decide)]
    simp only [CSpec.unsigned, if_true, cPad, List.nil_append, List.length_nil, Nat.zero_add, word64_eq]
    exact Ends.pure _ _
  · rw [List.length_append, List.length_replicate]; omega
  · intro b hb
    rcases List.mem_append.1 hb with hb | hb
    · rw [List.eq_of_mem_replicate hb]; left; decide
    · exact d2 b hb
  · rw [readHex_zeros, d3]

/-! ### Messages before the program stops -/

/-- A format without conversions prints itself. -/
theorem printText_gives {s : String} {h : Heap} (out : Str)
    (h0 : (0 : UInt8) ∉ chars s) (hl : (chars s).length < 2 ^ 61)
    (hp : parseFmt (chars s).length (chars s) = some ((chars s).map Piece.byte)) :
    Gives (printLit s []) (h, out) () (h.add { len := (chars s).length, data := chars s ++ [0] }, out ++ chars s) := by
  have := Ends.fmtText (h := h.add { len := (chars s).length, data := chars s ++ [0] }) (s := chars s) (ps := []) (as := []) Ends.fmtNil
  rw [List.append_nil, List.append_nil] at this
  exact printLit_gives h0 hl hp this

/-- The object of a literal. -/
def litObj (s : String) : Obj := { len := (chars s).length, data := chars s ++ [0] }

/-- **C78, panics.**  The message names the cause (without NUL bytes) and the program ends with status 1. -/
theorem C78_panic {h : Heap} {r : Nat} {s out : Str} (t : IsText h r s) (h0 : (0 : UInt8) ∉ s) :
    ∃ h', Gives (panicText r) (h, out) 1 (h', out ++ chars ("\n" ++ panicRule) ++
      (chars "// Panic: " ++ s ++ [10]) ++ chars panicRule) ∧ Grows h h' := by
  refine ⟨((h.add (litObj ("\n" ++ panicRule))).add (litObj "// Panic: %s\n")).add (litObj panicRule), ?_,
    (((Grows.add h _).trans (Grows.add _ _) (Nat.le_refl _)).trans (Grows.add _ _) (Nat.le_refl _))⟩
  refine (printText_gives (s := "\n" ++ panicRule) out (by decide +kernel) (by decide +kernel) (by decide +kernel)).bind ?_
  have key := printLit_gives (s := "// Panic: %s\n") (as := [.str r]) (out := out ++ chars ("\n" ++ panicRule))
    (h := h.add { len := (chars ("\n" ++ panicRule)).length, data := chars ("\n" ++ panicRule) ++ [0] })
    (ps := (chars "// Panic: ").map Piece.byte ++ [.conv { conv := 115 }, .byte 10]) (t := chars "// Panic: " ++ (s ++ [10]))
    (by decide +kernel) (by decide +kernel) (by decide +kernel) ?_
  · rw [← List.append_assoc (chars "// Panic: ")] at key
    refine key.bind ?_
    exact (printText_gives (s := panicRule) _ (by decide +kernel) (by decide +kernel) (by decide +kernel)).bind rfl
  · refine Ends.fmtText ?_
    have := Ends.fmtConv (Ends.convStr ((t.add { len := (chars ("\n" ++ panicRule)).length, data := chars ("\n" ++ panicRule) ++ [0] }).add
      { len := (chars "// Panic: %s\n").length, data := chars "// Panic: %s\n" ++ [0] })) (Ends.fmtByte (b := 10) (Ends.fmtNil (as := [])))
    rwa [takeWhile_all h0] at this

/-- `assert` prints and stops exactly if the condition is false. -/
theorem C78_assert {h : Heap} {r : Nat} {s out : Str} (t : IsText h r s) (h0 : (0 : UInt8) ∉ s) :
    Gives (assertText true r) (h, out) none (h, out) ∧
    ∃ h', Gives (assertText false r) (h, out) (some 1) (h', out ++ chars ("\n" ++ panicRule) ++
      (chars "// Panic: " ++ s ++ [10]) ++ chars panicRule) := by
  obtain ⟨h', e, -⟩ := C78_panic (out := out) t h0
  exact ⟨rfl, h', e.bind rfl⟩

/-- The number that is left of an int when C takes 32 bits of it. -/
def int32 (z : Int) : Int := Int.bmod z (2 ^ 32)

theorem int32_eq {z : Int} (h1 : -2 ^ 31 ≤ z) (h2 : z < 2 ^ 31) : int32 z = z := by
  unfold int32 Int.bmod
  simp only []
  split <;> omega

theorem setWidth_int32 (z : Int) : ((BitVec.ofInt 64 z).setWidth 32).toInt = int32 z := by
  have : (BitVec.ofInt 64 z).setWidth 32 = BitVec.ofInt 32 z := by
    apply BitVec.eq_of_toNat_eq
    rw [BitVec.toNat_setWidth, BitVec.toNat_ofInt, BitVec.toNat_ofInt]
    omega
  rw [this, BitVec.toInt_ofInt]
  rfl

theorem Ends.convD {h : Heap} (z : Int) : Ends (convert { conv := 100 } (rawInt z)) h (numeral (int32 z)) h := by
  unfold convert rawInt
  simp only []
  rw [if_pos (by decide)]
  simp only [CSpec.signed, if_false, Bool.false_eq_true, setWidth_int32, cPad, Nat.zero_sub, List.replicate_zero, List.nil_append,
    numeral, cDigits]
  exact Ends.pure _ _

/-- The message for a bad index. -/
def indexMessage (i n : Int) : Str :=
  chars ("\n" ++ panicRule) ++ (chars "// Panic: index out of bounds! index = " ++ (numeral i ++ (chars ", array.length = " ++
    (numeral n ++ [10])))) ++ chars panicRule ++ chars "\nBacktrace:\nTODO!\n\n"

/-- **C78, bad indices.**  The message shows the index and the length, as far as 32 bits hold them; the status is 1. -/
theorem C78_index_partial (h : Heap) (i n : Int) (out : Str) :
    ∃ h', Gives (indexText i n) (h, out) 1 (h', out ++ indexMessage (int32 i) (int32 n)) ∧ Grows h h' := by
  refine ⟨(((h.add (litObj ("\n" ++ panicRule))).add
      (litObj "// Panic: index out of bounds! index = %d, array.length = %d\n")).add (litObj panicRule)).add
      (litObj "\nBacktrace:\nTODO!\n\n"), ?_,
    ((((Grows.add h _).trans (Grows.add _ _) (Nat.le_refl _)).trans (Grows.add _ _) (Nat.le_refl _)).trans
    (Grows.add _ _) (Nat.le_refl _))⟩
  unfold indexMessage
  rw [← List.append_assoc, ← List.append_assoc, ← List.append_assoc]
  refine (printText_gives (s := "\n" ++ panicRule) out (by decide +kernel) (by decide +kernel) (by decide +kernel)).bind ?_
  have key := printLit_gives (s := "// Panic: index out of bounds! index = %d, array.length = %d\n") (as := [rawInt i, rawInt n])
    (out := out ++ chars ("\n" ++ panicRule))
    (h := h.add { len := (chars ("\n" ++ panicRule)).length, data := chars ("\n" ++ panicRule) ++ [0] })
    (ps := (chars "// Panic: index out of bounds! index = ").map Piece.byte ++ (.conv { conv := 100 } ::
      ((chars ", array.length = ").map Piece.byte ++ [.conv { conv := 100 }, .byte 10])))
    (t := chars "// Panic: index out of bounds! index = " ++ (numeral (int32 i) ++ (chars ", array.length = " ++
      (numeral (int32 n) ++ [10]))))
    (by decide +kernel) (by decide +kernel) (by decide +kernel) ?_
  · refine key.bind ?_
    refine (printText_gives (s := panicRule) _ (by decide +kernel) (by decide +kernel) (by decide +kernel)).bind ?_
    exact (printText_gives (s := "\nBacktrace:\nTODO!\n\n") _ (by decide +kernel) (by decide +kernel) (by decide +kernel)).bind rfl
  · exact Ends.fmtText (Ends.fmtConv (Ends.convD i) (Ends.fmtText (Ends.fmtConv (Ends.convD n)
      (Ends.fmtByte (b := 10) (Ends.fmtNil (as := []))))))

/-- So small numbers are shown as they are. -/
theorem C78_index {h : Heap} {i n : Int} {out : Str} (h1 : -2 ^ 31 ≤ i) (h2 : i < 2 ^ 31) (h3 : -2 ^ 31 ≤ n) (h4 : n < 2 ^ 31) :
    ∃ h', Gives (indexText i n) (h, out) 1 (h', out ++ indexMessage i n) ∧ Grows h h' := by
  have := C78_index_partial h i n out
  rwa [int32_eq h1 h2, int32_eq h3 h4] at this

/-- The full claim is false: the index 2^32 of an array with 3 elements is shown as 0. -/
theorem C78_violated_index : ¬ ∀ (h : Heap) (i n : Int) (out : Str), IsInt i → IsInt n →
    ∃ h', Gives (indexText i n) (h, out) 1 (h', out ++ indexMessage i n) := by
  intro hall
  obtain ⟨h1, e1⟩ := hall nulHeap 4294967296 3 [] ⟨by omega, by omega⟩ ⟨by omega, by omega⟩
  obtain ⟨h2, e2, -⟩ := C78_index_partial nulHeap 4294967296 3 []
  have := (Gives.det e1 e2).2
  have : indexMessage 4294967296 3 = indexMessage (int32 4294967296) (int32 3) := by
    have := congrArg Prod.snd this
    simpa using this
  exact absurd this (by decide +kernel)

/-! ### Examples -/

/-- The heap with the text `hi`. -/
def hiHeap : Heap := { objs := [{ len := 2, data := [104, 105, 0] }] }

theorem hiText : IsText hiHeap 0 [104, 105] := ⟨⟨_, rfl, rfl, by decide⟩, by decide⟩

example : ∃ h', Gives (printlnStr 0) (hiHeap, [65]) () (h', chars "Ahi\n") := by
  obtain ⟨-, h', e, -⟩ := C78_string (out := [65]) hiText (by decide)
  exact ⟨h', by rw [show chars "Ahi\n" = [65] ++ ([104, 105] ++ [10]) from by decide +kernel]; exact e⟩

example : ∃ h', Gives (printlnInt (-42)) (hiHeap, []) () (h', chars "-42\n") := by
  obtain ⟨-, h', e, -⟩ := C78_int (h := hiHeap) (z := -42) (out := []) ⟨by omega, by omega⟩
  exact ⟨h', by rw [show chars "-42\n" = [] ++ (numeral (-42) ++ [10]) from by decide +kernel]; exact e⟩

example : word64 (-1) = 18446744073709551615 ∧ cDigits 16 (word64 (-1)) = chars "ffffffffffffffff" := by decide +kernel

example : ∃ h', Gives (panicText 0) (hiHeap, []) 1 (h', chars ("\n" ++ panicRule ++ "// Panic: hi\n" ++ panicRule)) := by
  obtain ⟨h', e, -⟩ := C78_panic (out := []) hiText (by decide)
  refine ⟨h', ?_⟩
  rw [show chars ("\n" ++ panicRule ++ "// Panic: hi\n" ++ panicRule) = [] ++ chars ("\n" ++ panicRule) ++
      (chars "// Panic: " ++ [104, 105] ++ [10]) ++ chars panicRule from by decide +kernel]
  exact e

end Clara.Props
