import Verif.Lib.NumberProof
/-
C49-C57: strings, byte arrays, byte buffers, hashing and printing of the library.

`IsStr h r s` says that the object `r` is a string with the bytes `s` (shorter than 2^61, which every string in a
64-bit address space is); `Ends x h a h'` that the program `x` started in the heap `h` ends with the value `a` in the
heap `h'`; `Fails x h e` that it stops with a panic (`.panic`) or touches memory outside of the object (`.wild`).
-/
namespace Clara.Props
open Clara.Lib

/-- A heap for the examples: the strings "abcab", "ab" and "". -/
def exHeap : Heap := { objs := [{ len := 5, data := [97, 98, 99, 97, 98, 0] }, { len := 2, data := [97, 98, 0] }, { len := 0, data := [0] }] }

theorem exHeap_0 : IsStr exHeap 0 [97, 98, 99, 97, 98] := ⟨⟨_, rfl, rfl, by decide⟩, by decide⟩
theorem exHeap_1 : IsStr exHeap 1 [97, 98] := ⟨⟨_, rfl, rfl, by decide⟩, by decide⟩
theorem exHeap_2 : IsStr exHeap 2 [] := ⟨⟨_, rfl, rfl, by decide⟩, by decide⟩

/-! ### C49 -/

/-- `Equals` always ends, changes nothing and returns whether the bytes are the same. -/
theorem C49_equals {h : Heap} {r1 r2 : Nat} {s t : List UInt8} (h1 : IsStr h r1 s) (h2 : IsStr h r2 t) :
    ∃ b, Ends (equals r1 r2) h b h ∧ (b = true ↔ s = t) :=
  ⟨_, equals_ends h1 h2, decide_eq_true_iff⟩

example : ∃ b, Ends (equals 0 1) exHeap b exHeap ∧ b = false := by
  obtain ⟨b, a, e⟩ := C49_equals exHeap_0 exHeap_1
  refine ⟨b, a, ?_⟩
  cases b with
  | false => rfl
  | true => exact absurd (e.1 rfl) (by decide)

/-! ### C50 -/

/-- `p` is the answer `IndexOf` should give: the least position from `start` on at which `t` occurs in `s`, or -1. -/
def FirstFrom (s t : List UInt8) (start p : Int) : Prop :=
  (p = -1 ∧ ∀ q : Nat, start ≤ q → q ≤ s.length → ¬ t <+: s.drop q) ∨
  ∃ q : Nat, p = q ∧ start ≤ q ∧ q ≤ s.length ∧ t <+: s.drop q ∧ ∀ q' : Nat, start ≤ q' → q' < q → ¬ t <+: s.drop q'

/-- `IndexOf` for a substring that is not empty, or from position 0, and a start that is not negative.
What is missing: the empty substring with a later start and negative starts; see `C50_violated`. -/
theorem C50_partial {h : Heap} {r1 r2 : Nat} {s t : List UInt8} (h1 : IsStr h r1 s) (h2 : IsStr h r2 t) {start : Int}
    (hst : 0 ≤ start) (hi : IsInt start) (ht : t ≠ [] ∨ start = 0) :
    ∃ z, Ends (indexOf r1 r2 start) h z h ∧ FirstFrom s t start z := by
  by_cases hn : t = []
  · subst hn
    have : start = 0 := by rcases ht with e | e; exact absurd rfl e; exact e
    subst this
    refine ⟨0, ?_, .inr ⟨0, rfl, by omega, by omega, List.nil_prefix, fun q' _ h => by omega⟩⟩
    unfold indexOf
    refine (Ends.strLen h2).bind ?_
    rw [if_pos (by simp)]
    exact Ends.pure _ _
  · obtain ⟨z, a, b⟩ := indexOf_ends h1 h2 hn hst hi
    refine ⟨z, a, ?_⟩
    rcases b with ⟨b1, b2⟩ | ⟨q, b1, b2, b3, b4⟩
    · exact .inl ⟨b1, fun q hq _ => b2 q hq⟩
    · refine .inr ⟨q, b1, b2, ?_, b3, b4⟩
      rcases Nat.lt_or_ge s.length q with hlt | hge
      · unfold OccursAt at b3
        rw [List.drop_eq_nil_of_le (by omega), List.prefix_nil] at b3
        exact absurd b3 hn
      · exact hge

example : FirstFrom [97, 98, 99, 97, 98] [97, 98] 1 3 :=
  .inr ⟨3, rfl, by omega, by decide, by decide, fun q' h1 h2 => by
    have : q' = 1 ∨ q' = 2 := by omega
    rcases this with rfl | rfl <;> decide⟩
example : ∃ z, Ends (indexOf 0 1 1) exHeap z exHeap ∧ FirstFrom [97, 98, 99, 97, 98] [97, 98] 1 z :=
  C50_partial exHeap_0 exHeap_1 (by omega) ⟨by omega, by omega⟩ (.inl (by simp))

/-- The claim is false: the empty substring from a later start gives 0, and a negative start reads outside of the
string. -/
theorem C50_violated :
    (∃ h r1 r2 s t start z, IsStr h r1 s ∧ IsStr h r2 t ∧ 0 ≤ start ∧ start ≤ s.length ∧
      Ends (indexOf r1 r2 start) h z h ∧ ¬ FirstFrom s t start z) ∧
    ∃ h r1 r2 s t start, IsStr h r1 s ∧ IsStr h r2 t ∧ t ≠ [] ∧ start < 0 ∧ Fails (indexOf r1 r2 start) h .wild := by
  refine ⟨⟨exHeap, 0, 2, _, _, 3, 0, exHeap_0, exHeap_2, by omega, by decide, rfl, ?_⟩,
    exHeap, 0, 1, _, _, -1, exHeap_0, exHeap_1, by simp, by omega, ?_⟩
  · rintro (⟨h, -⟩ | ⟨q, h1, h2, -⟩) <;> omega
  · unfold indexOf
    refine (Ends.strLen exHeap_1).bind_fails ?_
    rw [if_neg (by simp)]
    refine (Ends.strLen exHeap_0).bind_fails ?_
    rw [if_neg (by simp)]
    refine (Ends.strLen exHeap_1).bind_fails ((Ends.strLen exHeap_0).bind_fails ?_)
    rw [if_neg (by decide), indexLoop]
    refine (Ends.strLen exHeap_0).bind_fails ?_
    rw [if_pos (by decide)]
    exact Fails.bind rfl

/-! ### C51 -/

/-- `append` gives a new string with the bytes of both; the strings that existed are not changed. -/
theorem C51_append {h : Heap} {r1 r2 : Nat} {s t : List UInt8} (h1 : IsStr h r1 s) (h2 : IsStr h r2 t)
    (hl : s.length + t.length < 2 ^ 61) :
    ∃ r h', Ends (append r1 r2) h r h' ∧ IsStr h' r (s ++ t) ∧ Grows h h' := by
  obtain ⟨o, a1, a2, a3⟩ := append_ends h1 h2 hl
  refine ⟨_, _, a1, ⟨⟨o, add_get o, a2, ?_⟩, by simpa using hl⟩, Grows.add _ _⟩
  rw [a3]; exact List.prefix_append _ _

/-- `Substring` with bounds inside of the string.
What is missing: bounds outside of the string; see `C51_violated`. -/
theorem C51_substring_partial {h : Heap} {r : Nat} {s : List UInt8} (hs : IsStr h r s) {start stop : Int}
    (h0 : 0 ≤ start) (h1 : start ≤ stop) (h2 : stop ≤ s.length) :
    ∃ r' h', Ends (substring r start stop) h r' h' ∧
      IsStr h' r' ((s.take stop.toNat).drop start.toNat) ∧ Grows h h' := by
  have hsm := hs.small
  obtain ⟨p, rfl⟩ : ∃ p : Nat, start = p := ⟨start.toNat, by omega⟩
  obtain ⟨n, rfl⟩ : ∃ n : Nat, stop = (p + n : Nat) := ⟨(stop - p).toNat, by omega⟩
  obtain ⟨o, a1, a2, a3⟩ := toStr_ends hs (p := p) (n := n) (by omega)
  have e : (s.take (p + n)).drop p = (s.drop p).take n := by rw [List.drop_take, Nat.add_sub_cancel_left]
  refine ⟨h.objs.length, h.add o, ?_, ?_, Grows.add _ _⟩
  · unfold substring
    rw [wrap_eq ⟨by omega, by omega⟩, show ((p + n : Nat) : Int) - p = (n : Int) by omega]
    exact a1
  · simp only [Int.toNat_natCast]
    rw [e]
    refine ⟨⟨o, add_get o, ?_, ?_⟩, by simp; omega⟩
    · rw [a2, List.length_take, List.length_drop]; omega
    · rw [a3]; exact List.prefix_append _ _

example : ∃ r' h', Ends (substring 0 1 4) exHeap r' h' ∧ IsStr h' r' [98, 99, 97] := by
  obtain ⟨r', h', a, b, -⟩ := C51_substring_partial exHeap_0 (start := 1) (stop := 4) (by omega) (by omega) (by decide)
  exact ⟨r', h', a, b⟩
example : ∃ r h', Ends (append 1 0) exHeap r h' ∧ IsStr h' r [97, 98, 97, 98, 99, 97, 98] := by
  obtain ⟨r, h', a, b, -⟩ := C51_append exHeap_1 exHeap_0 (by decide)
  exact ⟨r, h', a, b⟩

/-- The claim is false: for an end past the string the result is padded with NUL bytes up to the requested length,
for a start past the string the program panics, and for a negative start it reads outside of the string. -/
theorem C51_violated :
    (∃ h r s stop r' h', IsStr h r s ∧ (s.length : Int) < stop ∧ Ends (substring r 0 stop) h r' h' ∧
      IsStr h' r' (s ++ [0, 0]) ∧ ¬ IsStr h' r' s) ∧
    (∃ h r s start stop, IsStr h r s ∧ (s.length : Int) < start ∧ start < stop ∧ Fails (substring r start stop) h .panic) ∧
    ∃ (h : Heap) (r : Nat) (s : List UInt8) (start stop : Int), IsStr h r s ∧ start < 0 ∧ stop ≤ s.length ∧ Fails (substring r start stop) h .wild := by
  refine ⟨?_, ?_, ?_⟩
  · let o : Obj := { len := 4, data := List.replicate 5 0 }
    have hc := copyArray_ends (exHeap_1.add o) (add_get o) (by decide) (L := 4) rfl (by decide) (by omega) 0 0 (by omega) (by omega)
    rw [add_put] at hc
    refine ⟨exHeap, 1, [97, 98], 4, 3, exHeap.add { len := 4, data := [97, 98, 0, 0, 0] }, exHeap_1, by decide, ?_, ?_, ?_⟩
    · unfold substring toStr
      rw [show wrap (wrap (4 - 0) + 1) = ((5 : Nat) : Int) by decide, show wrap (4 - 0) = 4 by decide]
      refine Ends.bind (Ends.newBytes 5) (Ends.bind (Ends.setLen (add_get _) 4) ?_)
      rw [show ∀ o : Obj, { exHeap.add o with objs := (exHeap.add o).objs.set exHeap.objs.length { o with len := 4 } } =
        exHeap.add { o with len := 4 } from fun o => add_put _ _]
      exact Ends.bind hc (Ends.pure _ _)
    · exact ⟨⟨_, rfl, rfl, by decide⟩, by decide⟩
    · intro hs
      have h2 : IsStr (exHeap.add { len := 4, data := [97, 98, 0, 0, 0] }) 3 [97, 98, 0, 0] := ⟨⟨_, rfl, rfl, by decide⟩, by decide⟩
      exact absurd (hs.uniq h2) (by decide)
  · refine ⟨exHeap, 1, _, 3, 4, exHeap_1, by decide, by omega, ?_⟩
    unfold substring toStr
    rw [show wrap (wrap (4 - 3) + 1) = ((2 : Nat) : Int) by decide, show wrap (4 - 3) = 1 by decide]
    refine (Ends.newBytes 2).bind_fails ((Ends.setLen (add_get _) 1).bind_fails ?_)
    rw [copyArray]
    exact Fails.bind rfl
  · refine ⟨exHeap, 1, [97, 98], -1, (1 : Int), exHeap_1, by omega, by decide, ?_⟩
    unfold substring toStr
    rw [show wrap (wrap (1 - -1) + 1) = ((3 : Nat) : Int) by decide, show wrap (1 - -1) = 2 by decide]
    refine (Ends.newBytes 3).bind_fails ((Ends.setLen (add_get _) 2).bind_fails ?_)
    rw [copyArray]
    exact Fails.bind rfl

/-! ### C52 -/

/-- The number a numeral stands for. -/
def readNumeral (ds : List UInt8) : Nat := ds.foldl (fun a b => 10 * a + (b.toNat - 48)) 0

theorem read_decDigits (n : Nat) : readNumeral (decDigits n) = n := by
  induction n using Nat.strongRecOn with
  | ind n ih =>
    by_cases h0 : n = 0
    · rw [h0, decDigits_zero]; rfl
    · rw [decDigits_pos h0, readNumeral, List.foldl_append]
      have := ih (n / 10) (by omega)
      unfold readNumeral at this
      rw [this]
      simp only [List.foldl_cons, List.foldl_nil, UInt8.toNat_ofNat']
      omega

theorem decDigits_ge {n : Nat} {b : UInt8} (hb : b ∈ decDigits n) : 48 ≤ b.toNat ∧ b.toNat ≤ 57 := by
  induction n using Nat.strongRecOn with
  | ind n ih =>
    by_cases h0 : n = 0
    · rw [h0, decDigits_zero] at hb; cases hb
    · rw [decDigits_pos h0, List.mem_append] at hb
      rcases hb with hb | hb
      · exact ih (n / 10) (by omega) hb
      · rw [List.mem_singleton] at hb
        subst hb
        rw [UInt8.toNat_ofNat']
        omega

/-- The digits of `numeral` are decimal digits and stand for the absolute value. -/
theorem C52_numeral (z : Int) :
    ∃ ds, numeral z = (if z < 0 then [45] else []) ++ ds ∧ ds ≠ [] ∧ (∀ b ∈ ds, 48 ≤ b.toNat ∧ b.toNat ≤ 57) ∧
      readNumeral ds = z.natAbs ∧ (ds.head? = some 48 → z = 0) := by
  by_cases h0 : z.natAbs = 0
  · have : z = 0 := by omega
    subst this
    exact ⟨[48], by decide, by simp, by decide, by decide, fun _ => rfl⟩
  · refine ⟨decDigits z.natAbs, ?_, ?_, fun b hb => decDigits_ge hb, read_decDigits _, ?_⟩
    · unfold numeral; rw [toDigits_dec h0]
    · rw [decDigits_pos h0]; simp
    · intro hh
      exfalso
      have key : ∀ n, n ≠ 0 → (decDigits n).head? ≠ some 48 := by
        intro n
        induction n using Nat.strongRecOn with
        | ind n ih =>
          intro hn
          rw [decDigits_pos hn]
          by_cases hl : n / 10 = 0
          · rw [hl, decDigits_zero]
            intro e
            simp only [List.nil_append, List.head?_cons, Option.some.injEq] at e
            have := congrArg UInt8.toNat e
            rw [UInt8.toNat_ofNat'] at this
            have : (48 : UInt8).toNat = 48 := rfl
            omega
          · have hrec := ih _ (by omega) hl
            have hne : decDigits (n / 10) ≠ [] := by rw [decDigits_pos hl]; simp
            cases hd : decDigits (n / 10) with
            | nil => exact absurd hd hne
            | cons x xs => rw [hd] at hrec; exact hrec
      exact key _ h0 hh

/-- `toString` of every int is its decimal numeral in a new string. -/
theorem C52_toString {h : Heap} {z : Int} (hz : IsInt z) :
    ∃ r h', Ends (intToString z) h r h' ∧ IsStr h' r (numeral z) ∧ Grows h h' := by
  obtain ⟨r, h', a, b, c, -⟩ := intToString_ends (h := h) hz
  exact ⟨r, h', a, b, c⟩

/-- Distinct ints have distinct numerals. -/
theorem C52_injective {a b : Int} (e : numeral a = numeral b) : a = b := by
  obtain ⟨d1, n1, ne1, g1, r1, -⟩ := C52_numeral a
  obtain ⟨d2, n2, ne2, g2, r2, -⟩ := C52_numeral b
  rw [n1, n2] at e
  have minus : ∀ {d d' : List UInt8}, (∀ b ∈ d', 48 ≤ b.toNat ∧ b.toNat ≤ 57) → [45] ++ d = d' → False := by
    intro d d' hd e
    have := hd 45 (by rw [← e]; simp)
    have h45 : (45 : UInt8).toNat = 45 := rfl
    omega
  by_cases ha : a < 0 <;> by_cases hb : b < 0
  · rw [if_pos ha, if_pos hb] at e
    have : d1 = d2 := by simpa using e
    rw [this] at r1
    omega
  · rw [if_pos ha, if_neg hb] at e
    exact (minus g2 e).elim
  · rw [if_neg ha, if_pos hb] at e
    exact (minus g1 e.symm).elim
  · rw [if_neg ha, if_neg hb] at e
    have : d1 = d2 := by simpa using e
    rw [this] at r1
    omega

example : numeral (-4611686018427387904) = chars "-4611686018427387904" := by decide +kernel
example : ∃ r h', Ends (intToString (-4611686018427387904)) exHeap r h' ∧ IsStr h' r (chars "-4611686018427387904") := by
  obtain ⟨r, h', a, b, -⟩ := C52_toString (h := exHeap) (z := -4611686018427387904) ⟨by omega, by omega⟩
  exact ⟨r, h', a, by rw [show chars "-4611686018427387904" = numeral (-4611686018427387904) by decide +kernel]; exact b⟩

/-! ### C53 -/

/-- The object `r` is a byte array with the bytes `D`. -/
def IsBytes (h : Heap) (r : Nat) (D : List UInt8) : Prop := h.objs[r]? = some { len := D.length, data := D }

/-- A new byte array has the requested length and holds zeros. -/
theorem C53_new {h : Heap} (n : Nat) : ∃ r h', Ends (newBytes n) h r h' ∧ IsBytes h' r (List.replicate n 0) := by
  refine ⟨_, _, Ends.newBytes n, ?_⟩
  unfold IsBytes
  rw [add_get]
  simp

/-- Storing at `i` and then reading `j`: the low byte of the value with its sign if `j = i`, what was there if not.
Reading and storing at or past the length panics.
What is missing: negative indexes should panic and do not; see `C53_violated`. -/
theorem C53_partial {h : Heap} {r : Nat} {D : List UInt8} (hr : IsBytes h r D) (v : Int) :
    (∀ i j : Int, 0 ≤ i → i < D.length → 0 ≤ j → j < D.length →
      ∃ h' old, Ends (getByte r j) h old h ∧ Ends (setByte r i v) h () h' ∧
        Ends (getByte r j) h' (if j = i then (v + 128) % 256 - 128 else old) h' ∧
        ∀ r', r' ≠ r → h'.objs[r']? = h.objs[r']?) ∧
    (∀ i : Int, (D.length : Int) ≤ i → Fails (getByte r i) h .panic ∧ Fails (setByte r i v) h .panic) := by
  have get : ∀ {h : Heap} {D : List UInt8} (j : Nat) (hj : j < D.length), IsBytes h r D →
      Ends (getByte r j) h (signed D[j]) h := by
    intro h D j hj hr
    exact Ends.getByte hr (by simp only; omega) (by simp only [List.getElem?_eq_getElem hj])
  refine ⟨?_, ?_⟩
  · intro i j hi0 hi hj0 hj
    obtain ⟨i, rfl⟩ : ∃ n : Nat, i = n := ⟨i.toNat, by omega⟩
    obtain ⟨j, rfl⟩ : ∃ n : Nat, j = n := ⟨j.toNat, by omega⟩
    have hset := Ends.setByte hr v (i := i) (by simpa using hi) (by simp only; omega)
    refine ⟨_, _, get j (by omega) hr, hset, ?_, fun r' hne => List.getElem?_set_ne (Ne.symm hne)⟩
    have hnew : IsBytes { h with objs := h.objs.set r { len := D.length, data := D.set i (lowByte v) } } r (D.set i (lowByte v)) := by
      unfold IsBytes
      rw [List.length_set]
      exact put_get hr
    have := get j (by rw [List.length_set]; omega) hnew
    rw [List.getElem_set] at this
    by_cases hij : i = j
    · subst hij
      simp only [if_true] at this ⊢
      rw [signed_low] at this
      exact this
    · rw [if_neg hij] at this
      rw [if_neg (by omega)]
      exact this
  · intro i hi
    constructor
    · exact (Ends.length hr).bind_fails (Fails.bind (Fails.assert (by simpa using hi)))
    · exact (Ends.length hr).bind_fails (Fails.bind (Fails.assert (by simpa using hi)))

example : IsBytes exHeap 1 [97, 98, 0] → False := by intro h; cases h
example : ∃ h r, IsBytes h r [7, 200, 9] := ⟨{ objs := [{ len := 3, data := [7, 200, 9] }] }, 0, rfl⟩

/-- The claim is false: a negative index is not rejected but reads or writes in front of the bytes. -/
theorem C53_violated :
    ∃ h r D i, IsBytes h r D ∧ i < 0 ∧ Fails (getByte r i) h .wild ∧ Fails (setByte r i 1) h .wild :=
  ⟨{ objs := [{ len := 3, data := [7, 200, 9] }] }, 0, [7, 200, 9], -1, rfl, by omega, by unfold Fails; rfl, by unfold Fails; rfl⟩

/-! ### C54 -/

/-- An append to a byte buffer: a byte given as an int, or a string. -/
inductive Op
  | byte (v : Int)
  | str (s : List UInt8)

/-- What an append should add. -/
def Op.bytes : Op → List UInt8
  | .byte v => [lowByte v]
  | .str s => s

/-- The appends to buffer `b` one after the other; strings are literals of the program. -/
def appendAll (b : Nat) : List Op → M Unit
  | [] => pure ()
  | .byte v :: ops => do
    bufAppendByte b v
    appendAll b ops
  | .str s :: ops => do
    let _ ← bufAppend b (← lit s)
    appendAll b ops

theorem appendAll_ends {h : Heap} {b d : Nat} {D c : List UInt8} (ops : List Op) (hb : BufAt h b d D c)
    (hl : (c ++ ops.flatMap Op.bytes).length ≤ 2 ^ 59) :
    ∃ h' d' D', Ends (appendAll b ops) h () h' ∧ BufAt h' b d' D' (c ++ ops.flatMap Op.bytes) := by
  induction ops generalizing h d D c with
  | nil => exact ⟨h, d, D, Ends.pure _ _, by simpa using hb⟩
  | cons op ops ih =>
    rw [List.flatMap_cons, ← List.append_assoc] at hl ⊢
    have hl' := hl
    rw [List.length_append, List.length_append] at hl'
    cases op with
    | byte v =>
      obtain ⟨h1, d1, D1, a1, a2, -, -⟩ := bufAppendByte_ends hb v (by simp only [Op.bytes, List.length_singleton] at hl'; omega)
      obtain ⟨h2, d2, D2, b1, b2⟩ := ih a2 hl
      exact ⟨h2, d2, D2, a1.bind b1, b2⟩
    | str s =>
      simp only [Op.bytes] at hl' hl ⊢
      have hs := lit_str (h := h) (s := s) (by omega)
      have hlt := (List.getElem?_eq_some_iff.1 hb.obj).1
      have hb' : BufAt (h.add { len := s.length, data := s ++ [0] }) b d D c :=
        ⟨hb.buf, by rw [add_get_lt _ hlt, hb.obj], hb.pre, hb.pos, hb.small⟩
      obtain ⟨h1, d1, D1, a1, a2, -, -⟩ := bufAppend_ends hb' hs (by omega) (by omega)
      obtain ⟨h2, d2, D2, b1, b2⟩ := ih a2 hl
      exact ⟨h2, d2, D2, Ends.bind (Ends.lit s) (a1.bind b1), b2⟩

/-- A buffer with a positive capacity: any appends end, and `toString` then gives what was appended, in order.
`reset` makes the buffer empty again.
What is missing: capacity 0, for which the second append never ends; see `C54_violated`. -/
theorem C54_partial (h : Heap) {cap : Nat} (h1 : 1 ≤ cap) (h2 : cap < 2 ^ 60) (ops ops' : List Op)
    (hl : (ops.flatMap Op.bytes).length ≤ 2 ^ 59) (hl' : (ops'.flatMap Op.bytes).length ≤ 2 ^ 59) :
    ∃ h' r1 r2, Ends (do
        let b ← newByteBuffer cap
        appendAll b ops
        let r1 ← bufToString b
        bufReset b
        appendAll b ops'
        let r2 ← bufToString b
        return (r1, r2)) h (r1, r2) h' ∧
      IsStr h' r2 (ops'.flatMap Op.bytes) ∧
      ∃ h'', Ends (do
        let b ← newByteBuffer cap
        appendAll b ops
        bufToString b) h r1 h'' ∧ IsStr h'' r1 (ops.flatMap Op.bytes) := by
  obtain ⟨g1, a1, a2, -⟩ := newByteBuffer_ends (h := h) h1 h2
  obtain ⟨g2, d2, D2, b1, b2⟩ := appendAll_ends ops a2 (by simpa using hl)
  rw [List.nil_append] at b2
  obtain ⟨o, c1, c2⟩ := bufToString_ends b2
  have hlt := (List.getElem?_eq_some_iff.1 b2.obj).1
  have b3 : BufAt (g2.add o) h.bufs.length d2 D2 (ops.flatMap Op.bytes) :=
    ⟨b2.buf, by rw [add_get_lt _ hlt, b2.obj], b2.pre, b2.pos, b2.small⟩
  obtain ⟨g3, e1, e2, -⟩ := bufReset_ends b3
  obtain ⟨g4, d4, D4, f1, f2⟩ := appendAll_ends ops' e2 (by simpa using hl')
  rw [List.nil_append] at f2
  obtain ⟨o', k1, k2⟩ := bufToString_ends f2
  refine ⟨_, _, _, a1.bind (b1.bind (c1.bind (e1.bind (f1.bind (k1.bind (Ends.pure _ _)))))), k2, _, a1.bind (b1.bind c1), c2⟩

/-- One append of a byte or a string to a buffer in any heap: the contents grow at the end by what is appended,
and no string or other buffer of the heap changes. -/
theorem C54_step {h : Heap} {b d : Nat} {D c : List UInt8} (hb : BufAt h b d D c) (hc : c.length < 2 ^ 58) :
    (∀ v, ∃ h' d' D', Ends (bufAppendByte b v) h () h' ∧ BufAt h' b d' D' (c ++ [lowByte v]) ∧
      (∀ r s, r ≠ d → IsStr h r s → IsStr h' r s ∧ r ≠ d') ∧ ∀ b', b' ≠ b → h'.bufs[b']? = h.bufs[b']?) ∧
    (∀ r s, IsStr h r s → r ≠ d → s.length < 2 ^ 58 →
      ∃ h' d' D', Ends (bufAppend b r) h b h' ∧ BufAt h' b d' D' (c ++ s) ∧
        (∀ r s, r ≠ d → IsStr h r s → IsStr h' r s ∧ r ≠ d') ∧ ∀ b', b' ≠ b → h'.bufs[b']? = h.bufs[b']?) := by
  have other : ∀ {h' d'}, Keeps h h' b d → SameOrNew h d d' →
      (∀ r s, r ≠ d → IsStr h r s → IsStr h' r s ∧ r ≠ d') ∧ ∀ b', b' ≠ b → h'.bufs[b']? = h.bufs[b']? := by
    intro h' d' hk hd
    refine ⟨fun r s hr hs => ⟨hk.str hs hr, ?_⟩, hk.bufs⟩
    have := hs.lt
    rcases hd with e | e <;> omega
  constructor
  · intro v
    obtain ⟨h', d', D', a1, a2, a3, a4⟩ := bufAppendByte_ends hb v (by omega)
    exact ⟨h', d', D', a1, a2, other a3 a4⟩
  · intro r s hs hr hl
    obtain ⟨h', d', D', a1, a2, a3, a4⟩ := bufAppend_ends hb hs hr (by omega)
    exact ⟨h', d', D', a1, a2, other a3 a4⟩

/-- `substring` of a buffer: the bytes asked for if they are inside of the contents, a panic if not. -/
theorem C54_substring {h : Heap} {b d : Nat} {D c : List UInt8} (hb : BufAt h b d D c) (p n : Int)
    (hp : IsInt p) (hn : IsInt n) (hs : IsInt (p + n)) :
    (0 ≤ p ∧ 0 ≤ n ∧ p + n ≤ c.length →
      ∃ r h', Ends (bufSubstring b p n) h r h' ∧ IsStr h' r ((c.drop p.toNat).take n.toNat) ∧ Grows h h') ∧
    (p < 0 ∨ n < 0 ∨ (c.length : Int) < p + n → Fails (bufSubstring b p n) h .panic) := by
  constructor
  · rintro ⟨h0, h1, h2⟩
    obtain ⟨p, rfl⟩ : ∃ m : Nat, p = m := ⟨p.toNat, by omega⟩
    obtain ⟨n, rfl⟩ : ∃ m : Nat, n = m := ⟨n.toNat, by omega⟩
    obtain ⟨o, a1, a2⟩ := bufSubstring_ends hb (p := p) (n := n) (by omega)
    exact ⟨_, _, a1, a2, Grows.add _ _⟩
  · intro hbad
    unfold bufSubstring
    by_cases hneg : p < 0 ∨ n < 0
    · rw [if_pos hneg]
      exact Fails.bind rfl
    · rw [if_neg hneg]
      refine (Ends.buf hb.buf).bind_fails ?_
      rw [wrap_eq hs, if_pos (by simp only; omega)]
      exact Fails.bind rfl

theorem growLoop_zero {req : Int} (hr : 0 < req) (h : Heap) : growLoop 0 req h = none := by
  refine growLoop.fixpoint_induct req (motive := fun f => f 0 h = none) ?_ ?_
  · refine Lean.Order.admissible_apply (fun (_ : Int) (g : M Int) => g h = none) 0 ?_
    refine Lean.Order.admissible_apply (fun (_ : Heap) (g : ExceptT Err Option (Int × Heap)) => g = none) h ?_
    exact Lean.Order.admissible_flatOrder _ rfl
  · intro f hf
    show (if (0 : Int) < req then f (wrap (0 * 2)) else pure 0) h = none
    rw [if_pos hr, show wrap (0 * 2) = 0 by decide]
    exact hf

/-- The claim is false: a buffer created with capacity 0 never finishes its first append. -/
theorem C54_violated (h : Heap) (v : Int) : (do let b ← newByteBuffer 0; bufAppendByte b v) h = none := by
  have never : ∀ {α β : Type} {x : M α} {f : α → M β} {a : α} {h h1 : Heap}, Ends x h a h1 → f a h1 = none → (x >>= f) h = none := by
    intro α β x f a h h1 hx hf
    unfold Ends at hx
    show (StateT.bind x f) h = _
    simp only [StateT.bind, bind, ExceptT.bind, ExceptT.mk, hx, ExceptT.bindCont, Option.bind_some]
    exact hf
  have stops : ∀ {α β : Type} {x : M α} {f : α → M β} {h : Heap}, x h = none → (x >>= f) h = none := by
    intro α β x f h hx
    show (StateT.bind x f) h = _
    simp only [StateT.bind, bind, ExceptT.bind, ExceptT.mk, hx]
    rfl
  let h1 : Heap := (h.add { len := ((0 : Nat) : Int), data := List.replicate 0 0 }).withBuf { data := h.objs.length, size := 0 }
  have hnew : Ends (newByteBuffer 0) h h.bufs.length h1 := Ends.bind (Ends.newBytes (h := h) 0) rfl
  have hbuf : h1.bufs[h.bufs.length]? = some { data := h.objs.length, size := 0 } := by
    show (h.bufs ++ [_])[h.bufs.length]? = _
    simp
  have hobj : h1.objs[h.objs.length]? = some { len := ((0 : Nat) : Int), data := List.replicate 0 0 } := add_get _
  refine never hnew ?_
  unfold bufAppendByte
  refine never (Ends.buf hbuf) (never (Ends.buf hbuf) (never (Ends.length hobj) ?_))
  rw [if_pos (by show wrap (0 + 1) > 0; decide)]
  refine stops ?_
  unfold grow
  refine never (Ends.buf hbuf) (never (Ends.length hobj) (stops ?_))
  exact growLoop_zero (by show 0 < wrap (0 + 1); decide) _

/-! ### C55 -/

/-- The published function: start with the offset basis; for each byte mix it in and multiply by the prime 2^24 + 2^8 + 0x93. -/
def fnv1aSpec (s : List UInt8) : BitVec 32 :=
  s.foldl (fun x b => (x ^^^ BitVec.ofNat 32 b.toNat) * BitVec.ofNat 32 (2 ^ 24 + 2 ^ 8 + 0x93)) (BitVec.ofNat 32 2166136261)

theorem C55_fnv1a {h : Heap} {r : Nat} {s : List UInt8} (hs : IsStr h r s) :
    ∃ z : Int, Ends (fnv1a r) h z h ∧ z = (fnv1aSpec s).toNat ∧ 0 ≤ z ∧ z < 2 ^ 32 := by
  have e : fnv1aSpec s = s.foldl fnvStep 2166136261#32 := by
    unfold fnv1aSpec
    have hf : (fun (x : BitVec 32) (b : UInt8) => (x ^^^ BitVec.ofNat 32 b.toNat) * BitVec.ofNat 32 (2 ^ 24 + 2 ^ 8 + 0x93)) = fnvStep := by
      funext x b
      have h1 : BitVec.ofNat 32 b.toNat = b.toBitVec.setWidth 32 := by
        apply BitVec.eq_of_toNat_eq
        rw [BitVec.toNat_ofNat, BitVec.toNat_setWidth, UInt8.toNat_toBitVec]
      rw [h1]
      rfl
    rw [hf]
  refine ⟨_, fnv1a_ends hs, by rw [e], by omega, ?_⟩
  have := (s.foldl fnvStep 2166136261#32).isLt
  omega

-- test vectors published with the function
example : fnv1aSpec [] = 0x811c9dc5#32 := by decide +kernel
example : fnv1aSpec (chars "a") = 0xe40c292c#32 := by decide +kernel
example : fnv1aSpec (chars "foobar") = 0xbf9cf968#32 := by decide +kernel
example : ∃ z : Int, Ends (fnv1a 1) exHeap z exHeap ∧ z = (fnv1aSpec [97, 98]).toNat := by
  obtain ⟨z, a, b, -⟩ := C55_fnv1a exHeap_1
  exact ⟨z, a, b⟩

/-! ### C56 -/

/-- `mod` for a modulus that is not zero: with `q = i / m`, `i = q * m + i.mod(m)` (`q * m` as the program computes
it), and the remainder is smaller than `m` and has the sign of `i`. -/
theorem C56_mod (h : Heap) {i m : Int} (hi : IsInt i) (hm : IsInt m) (h0 : m ≠ 0) :
    ∃ q r, Ends (idiv i m) h q h ∧ Ends (imod i m) h r h ∧ i = wrap (q * m) + r ∧ r.natAbs < m.natAbs ∧
      (0 < r → 0 < i) ∧ (r < 0 → i < 0) := by
  refine ⟨wrap (i.tdiv m), i.tmod m, ?_, imod_ends hi hm h0, ?_, ?_, ?_, ?_⟩
  · unfold idiv; rw [if_neg h0]; exact Ends.pure _ _
  · have h1 := Int.tmod_add_mul_tdiv i m
    rw [Int.mul_comm] at h1
    have h2 := Int.natAbs_tmod i m
    have h3 := Nat.mod_le i.natAbs m.natAbs
    rw [wrap_mul_wrap]
    have h4 : IsInt (i.tdiv m * m) := by
      have hle : (i.tdiv m * m).natAbs ≤ i.natAbs := by
        rw [Int.natAbs_mul, Int.natAbs_tdiv]
        exact Nat.div_mul_le_self _ _
      have hsg : 0 ≤ i → 0 ≤ i.tdiv m * m := by
        intro hi0
        have : i.tmod m ≤ i := by
          have := Int.tmod_nonneg m hi0
          omega
        omega
      unfold IsInt at *
      omega
    rw [wrap_eq h4]
    omega
  · rw [Int.natAbs_tmod]
    exact Nat.mod_lt _ (by omega)
  · intro hr
    rcases Int.lt_or_le 0 i with h | h
    · exact h
    · have := Int.tmod_nonneg (a := -i) m (by omega)
      rw [Int.neg_tmod] at this
      omega
  · intro hr
    rcases Int.lt_or_le i 0 with h | h
    · exact h
    · have := Int.tmod_nonneg (a := i) m h
      omega

example : Ends (imod (-7) 3) exHeap (-1) exHeap := imod_ends ⟨by omega, by omega⟩ ⟨by omega, by omega⟩ (by omega)
/-- The quotient that does not fit. -/
example : ∃ q r, Ends (idiv (-2 ^ 62) (-1)) exHeap q exHeap ∧ Ends (imod (-2 ^ 62) (-1)) exHeap r exHeap ∧
    -2 ^ 62 = wrap (q * -1) + r := by
  obtain ⟨q, r, a, b, c, -⟩ := C56_mod exHeap (i := -2 ^ 62) (m := -1) ⟨by omega, by omega⟩ ⟨by omega, by omega⟩ (by omega)
  exact ⟨q, r, a, b, c⟩

/-! ### C57 -/

/-- Bits 62 down to 0 as `0` and `1`, with the two bytes of `·` after each group: bits 62 to 56, then eight at a time. -/
def binarySpec (i : Int) : List UInt8 :=
  (List.range 63).reverse.flatMap fun j =>
    (if (BitVec.ofInt 63 i).getLsbD j then [49] else [48]) ++ (if j ≠ 0 ∧ 8 ∣ j then [0xC2, 0xB7] else [])

theorem C57_toBinary (h : Heap) (i : Int) :
    ∃ r h', Ends (toBinary i) h r h' ∧ IsStr h' r (binarySpec i) ∧ Grows h h' := by
  have e : ∀ n, (List.range n).reverse.flatMap (fun j =>
      (if (BitVec.ofInt 63 i).getLsbD j then [49] else [48]) ++ (if j ≠ 0 ∧ 8 ∣ j then [0xC2, 0xB7] else [])) = bits i n := by
    intro n
    induction n with
    | zero => rfl
    | succ n ih =>
      rw [List.range_succ, List.reverse_append, List.reverse_singleton, List.singleton_append, List.flatMap_cons, ih, bits]
      congr 2
      · split <;> rfl
      · simp only [Nat.pos_iff_ne_zero, Nat.dvd_iff_mod_eq_zero]
  unfold binarySpec
  rw [e]
  exact toBinary_ends i

example : ((binarySpec 5).length, (binarySpec 5).take 9, (binarySpec 5).drop 69) =
    (77, [48, 48, 48, 48, 48, 48, 48, 0xC2, 0xB7], [48, 48, 48, 48, 48, 49, 48, 49]) := by decide +kernel

end Clara.Props
