import Verif.Lib.Strings
/-
Facts about the functions of `Verif.Lib.Strings`.
-/
namespace Clara.Lib

set_option linter.unusedSimpArgs false

/-- The program ends with the value `a` and the heap `h'`. -/
def Ends {α : Type} (x : M α) (h : Heap) (a : α) (h' : Heap) : Prop := x h = some (.ok (a, h'))

def Fails {α : Type} (x : M α) (h : Heap) (e : Err) : Prop := x h = some (.error e)

variable {α β : Type} {h h1 h2 : Heap}

theorem Ends.bind {x : M α} {f : α → M β} {a : α} {b : β} (hx : Ends x h a h1) (hf : Ends (f a) h1 b h2) :
    Ends (x >>= f) h b h2 := by
  unfold Ends at *
  show (StateT.bind x f) h = _
  simp only [StateT.bind, bind, ExceptT.bind, ExceptT.mk, hx, ExceptT.bindCont, Option.bind_some]
  exact hf

theorem Ends.bind_fails {x : M α} {f : α → M β} {a : α} {e : Err} (hx : Ends x h a h1) (hf : Fails (f a) h1 e) :
    Fails (x >>= f) h e := by
  unfold Ends Fails at *
  show (StateT.bind x f) h = _
  simp only [StateT.bind, bind, ExceptT.bind, ExceptT.mk, hx, ExceptT.bindCont, Option.bind_some]
  exact hf

theorem Fails.bind {x : M α} {f : α → M β} {e : Err} (hx : Fails x h e) : Fails (x >>= f) h e := by
  unfold Fails at *
  show (StateT.bind x f) h = _
  simp only [StateT.bind, bind, ExceptT.bind, ExceptT.mk, hx, ExceptT.bindCont, Option.bind_some]
  rfl

theorem Ends.pure (a : α) (h : Heap) : Ends (Pure.pure a) h a h := rfl

theorem Ends.det {x : M α} {a b : α} (h1' : Ends x h a h1) (h2' : Ends x h b h2) : a = b ∧ h1 = h2 := by
  unfold Ends at *
  rw [h1'] at h2'
  cases h2'
  exact ⟨rfl, rfl⟩

/-! ### Ints -/

def IsInt (z : Int) : Prop := -2 ^ 62 ≤ z ∧ z < 2 ^ 62

theorem wrap_eq {z : Int} (hz : IsInt z) : wrap z = z := by
  unfold wrap; unfold IsInt at hz; omega

theorem wrap_isInt (z : Int) : IsInt (wrap z) := by
  unfold wrap IsInt; omega

theorem wrap_toInt (z : Int) : wrap z = (BitVec.ofInt 63 z).toInt := by
  rw [BitVec.toInt_ofInt, Int.bmod_def]
  unfold wrap
  split <;> omega

/-! ### Primitive operations -/

theorem Ends.obj {r : Nat} {o : Obj} (ho : h.objs[r]? = some o) : Ends (obj r) h o h := by
  unfold Ends Lib.obj; rw [ho]

theorem Ends.buf {r : Nat} {o : Buf} (ho : h.bufs[r]? = some o) : Ends (buf r) h o h := by
  unfold Ends Lib.buf; rw [ho]

theorem Ends.length {r : Nat} {o : Obj} (ho : h.objs[r]? = some o) : Ends (length r) h o.len h :=
  (Ends.obj ho).bind (.pure _ _)

theorem Ends.assert {b : Bool} (hb : b = true) : Ends (assert b) h () h := by subst hb; rfl

theorem Fails.assert {b : Bool} (hb : b = false) : Fails (Lib.assert b) h .panic := by subst hb; rfl

theorem Ends.getByte {r : Nat} {o : Obj} (ho : h.objs[r]? = some o) {i : Nat} {x : UInt8} (hi : (i : Int) < o.len)
    (hx : o.data[i]? = some x) : Ends (getByte r i) h (signed x) h := by
  refine (Ends.length ho).bind ((Ends.assert (by simpa using hi)).bind ((Ends.obj ho).bind ?_))
  simp only [show ¬ ((i : Int) < 0) by omega, if_false, Int.toNat_natCast, hx]
  rfl

theorem Ends.setByte {r : Nat} {o : Obj} (ho : h.objs[r]? = some o) {i : Nat} (v : Int) (hi : (i : Int) < o.len)
    (hx : i < o.data.length) :
    Ends (setByte r i v) h () { h with objs := h.objs.set r { o with data := o.data.set i (lowByte v) } } := by
  refine (Ends.length ho).bind ((Ends.assert (by simpa using hi)).bind ((Ends.obj ho).bind ?_))
  simp only [show ¬ ((i : Int) < 0) by omega, if_false, Int.toNat_natCast, hx, if_true]
  rfl

theorem Ends.setLen {r : Nat} {o : Obj} (ho : h.objs[r]? = some o) (n : Int) :
    Ends (setLen r n) h () { h with objs := h.objs.set r { o with len := n } } :=
  (Ends.obj ho).bind rfl

theorem lowByte_signed (b : UInt8) : lowByte (signed b) = b := by
  unfold lowByte signed
  have := b.toNat_lt
  apply UInt8.toNat_inj.1
  simp only [UInt8.toNat_ofNat']
  split <;> omega

theorem signed_inj {a b : UInt8} (h : signed a = signed b) : a = b := by
  rw [← lowByte_signed a, h, lowByte_signed]

theorem signed_low (v : Int) : signed (lowByte v) = (v + 128) % 256 - 128 := by
  unfold lowByte signed
  simp only [UInt8.toNat_ofNat']
  split <;> omega

/-! ### Strings -/

/-- The object `r` is a string (or byte array) with the bytes `s`. -/
structure IsStr (h : Heap) (r : Nat) (s : List UInt8) : Prop where
  ex : ∃ o, h.objs[r]? = some o ∧ o.len = s.length ∧ s <+: o.data
  small : s.length < 2 ^ 61

theorem IsStr.uniq {r : Nat} {s t : List UInt8} (h1 : IsStr h r s) (h2 : IsStr h r t) : s = t := by
  obtain ⟨⟨o, a1, a2, a3⟩, -⟩ := h1
  obtain ⟨⟨o', b1, b2, b3⟩, -⟩ := h2
  rw [a1] at b1
  cases b1
  have : s.length = t.length := by omega
  rw [List.prefix_iff_eq_take] at a3 b3
  rw [a3, b3, this]

theorem Ends.strLen {r : Nat} {s : List UInt8} (hs : IsStr h r s) : Ends (Lib.length r) h s.length h := by
  obtain ⟨o, a1, a2, -⟩ := hs.ex
  rw [← a2]; exact Ends.length a1

theorem Ends.strByte {r : Nat} {s : List UInt8} (hs : IsStr h r s) {i : Nat} {x : UInt8} (hx : s[i]? = some x) :
    Ends (Lib.getByte r i) h (signed x) h := by
  obtain ⟨o, a1, a2, a3⟩ := hs.ex
  have hi := (List.getElem?_eq_some_iff.1 hx).1
  refine Ends.getByte a1 (by omega) ?_
  obtain ⟨t, ht⟩ := a3
  rw [← ht, List.getElem?_append_left hi, hx]

theorem succ_wrap {r : Nat} {s : List UInt8} (hs : IsStr h r s) {i : Nat} (hi : i ≤ s.length) :
    wrap ((i : Int) + 1) = ((i + 1 : Nat) : Int) := by
  have := hs.small
  rw [wrap_eq ⟨by omega, by omega⟩]
  rfl

theorem equalsLoop_ends {r1 r2 : Nat} {s t : List UInt8} (h1 : IsStr h r1 s) (h2 : IsStr h r2 t)
    (hl : s.length = t.length) (i : Nat) (hi : i ≤ s.length) :
    Ends (equalsLoop r1 r2 i) h (decide (s.drop i = t.drop i)) h := by
  generalize hk : s.length - i = k
  induction k generalizing i with
  | zero =>
    have : i = s.length := by omega
    subst this
    rw [equalsLoop]
    refine (Ends.strLen h1).bind ?_
    rw [if_neg (by omega), List.drop_length, hl, List.drop_length]
    exact Ends.pure _ _
  | succ k ih =>
    have hi1 : i < s.length := by omega
    have hi2 : i < t.length := by omega
    rw [equalsLoop]
    refine (Ends.strLen h1).bind ?_
    rw [if_pos (by omega)]
    refine (Ends.strByte h1 (List.getElem?_eq_getElem hi1)).bind ?_
    refine (Ends.strByte h2 (List.getElem?_eq_getElem hi2)).bind ?_
    rw [List.drop_eq_getElem_cons hi1, List.drop_eq_getElem_cons hi2]
    by_cases he : s[i] = t[i]
    · rw [if_neg (by simp [he])]
      rw [succ_wrap h1 (by omega)]
      have := ih (i + 1) (by omega) (by omega)
      simp only [List.cons.injEq, he, true_and]
      exact this
    · rw [if_pos (fun hh => he (signed_inj hh))]
      simp only [List.cons.injEq, he, false_and, decide_false]
      exact Ends.pure _ _

theorem equals_ends {r1 r2 : Nat} {s t : List UInt8} (h1 : IsStr h r1 s) (h2 : IsStr h r2 t) :
    Ends (equals r1 r2) h (decide (s = t)) h := by
  unfold equals
  refine (Ends.strLen h1).bind ((Ends.strLen h2).bind ?_)
  by_cases hl : s.length = t.length
  · rw [if_neg (by simp [hl])]
    have := equalsLoop_ends h1 h2 hl 0 (by omega)
    simpa using this
  · rw [if_pos (by omega)]
    have : s ≠ t := fun h => hl (by rw [h])
    simp only [this, decide_false]
    exact Ends.pure _ _


/-! ### `IndexOf` -/

theorem matchRun_ends {r1 r2 : Nat} {s t : List UInt8} (h1 : IsStr h r1 s) (h2 : IsStr h r2 t) (i p : Nat)
    (hi : i ≤ t.length) (hp : p ≤ s.length) :
    Ends (matchRun r1 r2 i p) h (decide (t.drop i <+: s.drop p)) h := by
  generalize hk : t.length - i = k
  induction k generalizing i p with
  | zero =>
    have : i = t.length := by omega
    subst this
    rw [matchRun]
    refine (Ends.strLen h1).bind ((Ends.strLen h2).bind ?_)
    rw [if_neg (by omega)]
    refine (Ends.strLen h2).bind ?_
    simp only [List.drop_length, List.nil_prefix, decide_true, beq_self_eq_true]
    exact Ends.pure _ _
  | succ k ih =>
    have hi2 : i < t.length := by omega
    rw [matchRun]
    refine (Ends.strLen h1).bind ((Ends.strLen h2).bind ?_)
    by_cases hp1 : p < s.length
    · rw [if_pos ⟨by omega, by omega⟩]
      refine (Ends.strByte h1 (List.getElem?_eq_getElem hp1)).bind ?_
      refine (Ends.strByte h2 (List.getElem?_eq_getElem hi2)).bind ?_
      rw [List.drop_eq_getElem_cons hp1, List.drop_eq_getElem_cons hi2]
      by_cases he : s[p] = t[i]
      · rw [if_neg (by simp [he])]
        rw [succ_wrap h1 (i := p) (by omega), succ_wrap h2 (i := i) (by omega)]
        have := ih (i + 1) (p + 1) (by omega) (by omega) (by omega)
        simp only [List.cons_prefix_cons, he, true_and]
        exact this
      · rw [if_pos (fun hh => he (signed_inj hh))]
        simp only [List.cons_prefix_cons, Ne.symm he, false_and, decide_false]
        exact Ends.pure _ _
    · have : p = s.length := by omega
      subst this
      rw [if_neg (by omega)]
      refine (Ends.strLen h2).bind ?_
      have h3 : ¬ (t.drop i <+: s.drop s.length) := by
        rw [List.drop_length, List.prefix_nil]
        intro h
        have := congrArg List.length h
        simp at this
        omega
      simp only [h3, decide_false]
      rw [show ((i : Int) == (t.length : Int)) = false by simp; omega]
      exact Ends.pure _ _

/-- The substring occurs at position `p`. -/
def OccursAt (s t : List UInt8) (p : Nat) : Prop := t <+: s.drop p

instance (s t : List UInt8) (p : Nat) : Decidable (OccursAt s t p) := by unfold OccursAt; infer_instance

theorem indexLoop_ends {r1 r2 : Nat} {s t : List UInt8} (h1 : IsStr h r1 s) (h2 : IsStr h r2 t) (ht : t ≠ [])
    (p : Nat) (hp : p ≤ s.length) :
    ∃ z : Int, Ends (indexLoop r1 r2 p) h z h ∧
      ((z = -1 ∧ ∀ q, p ≤ q → ¬ OccursAt s t q) ∨
       ∃ q, z = (q : Nat) ∧ p ≤ q ∧ OccursAt s t q ∧ ∀ q', p ≤ q' → q' < q → ¬ OccursAt s t q') := by
  generalize hk : s.length - p = k
  have past : ∀ q, s.length ≤ q → ¬ OccursAt s t q := by
    intro q hq h
    unfold OccursAt at h
    rw [List.drop_eq_nil_of_le hq, List.prefix_nil] at h
    exact ht h
  induction k generalizing p with
  | zero =>
    have : p = s.length := by omega
    subst this
    refine ⟨-1, ?_, .inl ⟨rfl, past⟩⟩
    rw [indexLoop]
    refine (Ends.strLen h1).bind ?_
    rw [if_neg (by omega)]
    exact Ends.pure _ _
  | succ k ih =>
    have hp1 : p < s.length := by omega
    obtain ⟨b, t', rfl⟩ := List.exists_cons_of_ne_nil ht
    have hrun := matchRun_ends h1 h2 1 (p + 1) (by simp) (by omega)
    have hocc : OccursAt s (b :: t') p ↔ s[p] = b ∧ t' <+: s.drop (p + 1) := by
      unfold OccursAt
      rw [List.drop_eq_getElem_cons hp1, List.cons_prefix_cons]
      exact ⟨fun h => ⟨h.1.symm, h.2⟩, fun h => ⟨h.1.symm, h.2⟩⟩
    have hwp := succ_wrap h1 (i := p) (by omega)
    rw [indexLoop]
    by_cases ho : OccursAt s (b :: t') p
    · refine ⟨p, ?_, .inr ⟨p, rfl, Nat.le_refl _, ho, fun q' h1 h2 => by omega⟩⟩
      refine (Ends.strLen h1).bind ?_
      rw [if_pos (by omega)]
      refine (Ends.strByte h1 (List.getElem?_eq_getElem hp1)).bind ?_
      refine (Ends.strByte h2 (i := 0) rfl).bind ?_
      rw [hwp]
      refine Ends.bind (h1 := h) hrun ?_
      rw [if_pos ⟨by rw [(hocc.1 ho).1], by simpa using (hocc.1 ho).2⟩]
      exact Ends.pure _ _
    · obtain ⟨z, hz, hz'⟩ := ih (p + 1) (by omega) (by omega)
      refine ⟨z, ?_, ?_⟩
      · refine (Ends.strLen h1).bind ?_
        rw [if_pos (by omega)]
        refine (Ends.strByte h1 (List.getElem?_eq_getElem hp1)).bind ?_
        refine (Ends.strByte h2 (i := 0) rfl).bind ?_
        rw [hwp]
        refine Ends.bind (h1 := h) hrun ?_
        rw [if_neg ?_]
        · exact hz
        · rintro ⟨a1, a2⟩
          exact ho (hocc.2 ⟨signed_inj a1, by simpa using a2⟩)
      · rcases hz' with ⟨rfl, hn⟩ | ⟨q, rfl, hq, ho', hn⟩
        · refine .inl ⟨rfl, fun q hq => ?_⟩
          by_cases hqp : q = p
          · subst hqp; exact ho
          · exact hn q (by omega)
        · refine .inr ⟨q, rfl, by omega, ho', fun q' hq' hlt => ?_⟩
          by_cases hqp : q' = p
          · subst hqp; exact ho
          · exact hn q' (by omega) hlt

theorem indexOf_ends {r1 r2 : Nat} {s t : List UInt8} (h1 : IsStr h r1 s) (h2 : IsStr h r2 t) (ht : t ≠ [])
    {start : Int} (hst : 0 ≤ start) (hi : IsInt start) :
    ∃ z : Int, Ends (indexOf r1 r2 start) h z h ∧
      ((z = -1 ∧ ∀ q : Nat, start ≤ q → ¬ OccursAt s t q) ∨
       ∃ q : Nat, z = q ∧ start ≤ q ∧ OccursAt s t q ∧ ∀ q' : Nat, start ≤ q' → q' < q → ¬ OccursAt s t q') := by
  have hl : 0 < t.length := List.length_pos_iff.2 ht
  have hs1 := h1.small
  have hs2 := h2.small
  have bound : ∀ q, OccursAt s t q → q + t.length ≤ s.length := by
    intro q h
    have := h.length_le
    rw [List.length_drop] at this
    omega
  unfold indexOf
  by_cases h0 : s.length = 0
  · refine ⟨-1, ?_, .inl ⟨rfl, fun q hq ho => ?_⟩⟩
    · refine (Ends.strLen h2).bind ?_
      rw [if_neg (by omega)]
      refine (Ends.strLen h1).bind ?_
      rw [if_pos (by omega)]
      exact Ends.pure _ _
    · have := bound q ho; omega
  by_cases hb : wrap ((t.length : Int) + start) > (s.length : Int)
  · refine ⟨-1, ?_, .inl ⟨rfl, fun q hq ho => ?_⟩⟩
    · refine (Ends.strLen h2).bind ?_
      rw [if_neg (by omega)]
      refine (Ends.strLen h1).bind ?_
      rw [if_neg (by omega)]
      refine (Ends.strLen h2).bind ((Ends.strLen h1).bind ?_)
      rw [if_pos hb]
      exact Ends.pure _ _
    · have := bound q ho
      rw [wrap_eq ⟨by omega, by omega⟩] at hb
      omega
  obtain ⟨p, rfl⟩ := Int.eq_ofNat_of_zero_le hst
  have step : ∀ {z}, Ends (indexLoop r1 r2 p) h z h → Ends (do
      if (← length r2) = 0 then return 0
      if (← length r1) = 0 then return -1
      if wrap ((← length r2) + (p : Int)) > (← length r1) then return -1
      indexLoop r1 r2 p) h z h := by
    intro z hz
    refine (Ends.strLen h2).bind ?_
    rw [if_neg (by omega)]
    refine (Ends.strLen h1).bind ?_
    rw [if_neg (by omega)]
    refine (Ends.strLen h2).bind ((Ends.strLen h1).bind ?_)
    rw [if_neg hb]
    exact hz
  by_cases hp : p ≤ s.length
  · obtain ⟨z, hz, hz'⟩ := indexLoop_ends h1 h2 ht p hp
    refine ⟨z, step hz, ?_⟩
    rcases hz' with ⟨rfl, hn⟩ | ⟨q, rfl, hq, ho, hn⟩
    · exact .inl ⟨rfl, fun q hq => hn q (by omega)⟩
    · exact .inr ⟨q, rfl, by omega, ho, fun q' a b => hn q' (by omega) b⟩
  · refine ⟨-1, step ?_, .inl ⟨rfl, fun q hq ho => ?_⟩⟩
    · rw [indexLoop]
      refine (Ends.strLen h1).bind ?_
      rw [if_neg (by omega)]
      exact Ends.pure _ _
    · have := bound q ho; omega

/-! ### Copying -/

/-- `xs` written over `D` from position `p` on. -/
def overlay (D : List UInt8) (p : Nat) (xs : List UInt8) : List UInt8 := D.take p ++ (xs ++ D.drop (p + xs.length))

theorem overlay_nil (D : List UInt8) (p : Nat) : overlay D p [] = D := by simp [overlay]

theorem overlay_cons {D : List UInt8} {p : Nat} (hp : p < D.length) (x : UInt8) (xs : List UInt8) :
    overlay (D.set p x) (p + 1) xs = overlay D p (x :: xs) := by
  unfold overlay
  have h1 : (D.set p x).take (p + 1) = D.take p ++ [x] := by
    rw [List.set_eq_take_append_cons_drop, if_pos hp, List.take_append, List.take_take, List.length_take]
    rw [Nat.min_eq_left (by omega : p ≤ D.length), Nat.min_eq_right (by omega)]
    rw [show p + 1 - p = 1 by omega]
    rfl
  have h2 : (D.set p x).drop (p + 1 + xs.length) = D.drop (p + (x :: xs).length) := by
    rw [List.drop_set, if_pos (by omega), List.length_cons]
    congr 1
    omega
  rw [h1, h2]
  simp

theorem overlay_length {D : List UInt8} {p : Nat} {xs : List UInt8} (h : p + xs.length ≤ D.length) :
    (overlay D p xs).length = D.length := by
  unfold overlay
  simp only [List.length_append, List.length_take, List.length_drop]
  omega

/-- The heap with another data part of object `r`. -/
def Heap.put (h : Heap) (r : Nat) (o : Obj) : Heap := { h with objs := h.objs.set r o }

theorem put_same {r : Nat} {o : Obj} (ho : h.objs[r]? = some o) : h.put r o = h := by
  unfold Heap.put
  obtain ⟨hr, rfl⟩ := List.getElem?_eq_some_iff.1 ho
  rw [List.set_getElem_self]

theorem put_put (r : Nat) (o o' : Obj) : (h.put r o).put r o' = h.put r o' := by
  unfold Heap.put; simp

theorem put_get {r : Nat} {o o' : Obj} (ho : h.objs[r]? = some o) : (h.put r o').objs[r]? = some o' := by
  unfold Heap.put
  have := (List.getElem?_eq_some_iff.1 ho).1
  simp [this]

theorem put_get_ne {r r' : Nat} {o' : Obj} (hr : r' ≠ r) : (h.put r o').objs[r']? = h.objs[r']? := by
  unfold Heap.put
  exact List.getElem?_set_ne (Ne.symm hr)

theorem IsStr.put {r r' : Nat} {s : List UInt8} {o' : Obj} (hs : IsStr h r' s) (hr : r' ≠ r) :
    IsStr (h.put r o') r' s := by
  obtain ⟨⟨o, a1, a2, a3⟩, b⟩ := hs
  exact ⟨⟨o, by rw [put_get_ne hr, a1], a2, a3⟩, b⟩

theorem copyString_ends {src dest : Nat} {s : List UInt8} {o : Obj} (hs : IsStr h src s)
    (ho : h.objs[dest]? = some o) (hne : src ≠ dest) {L : Nat} (hL : o.len = L) (hd : L ≤ o.data.length)
    (hL2 : L < 2 ^ 61) (sp dp : Nat) (hsp : sp ≤ s.length) (hdp : dp ≤ L) :
    Ends (copyString src sp dest dp) h ()
      (h.put dest { o with data := overlay o.data dp ((s.drop sp).take (L - dp)) }) := by
  generalize hk : s.length - sp = k
  induction k generalizing h o sp dp with
  | zero =>
    have : s.drop sp = [] := List.drop_eq_nil_of_le (by omega)
    rw [this, List.take_nil, overlay_nil, show ({ o with data := o.data } : Obj) = o from rfl, put_same ho]
    rw [copyString]
    refine (Ends.strLen hs).bind ((Ends.length ho).bind ?_)
    rw [if_neg (by omega)]
    exact Ends.pure _ _
  | succ k ih =>
    rw [copyString]
    by_cases hdp' : dp = L
    · rw [hdp', Nat.sub_self, List.take_zero, overlay_nil, show ({ o with data := o.data } : Obj) = o from rfl,
        put_same ho]
      refine (Ends.strLen hs).bind ((Ends.length ho).bind ?_)
      rw [if_neg (by omega)]
      exact Ends.pure _ _
    · have hsp' : sp < s.length := by omega
      refine (Ends.strLen hs).bind ((Ends.length ho).bind ?_)
      rw [if_pos (by omega)]
      refine (Ends.strByte hs (List.getElem?_eq_getElem hsp')).bind ?_
      refine (Ends.setByte ho _ (by omega) (by omega)).bind ?_
      rw [lowByte_signed, succ_wrap hs hsp, wrap_eq (z := (dp : Int) + 1) ⟨by omega, by omega⟩]
      have := ih (h := h.put dest { o with data := o.data.set dp s[sp] })
        (o := { o with data := o.data.set dp s[sp] }) (hs.put hne) (put_get ho) hL (by simpa using hd) (sp + 1)
        (dp + 1) (by omega) (by omega) (by omega)
      rw [put_put, overlay_cons (by omega)] at this
      rw [show L - dp = (L - (dp + 1)) + 1 by omega, List.drop_eq_getElem_cons hsp', List.take_succ_cons]
      exact this

theorem copyArray_ends {src dest : Nat} {s : List UInt8} {o : Obj} (hs : IsStr h src s)
    (ho : h.objs[dest]? = some o) (hne : src ≠ dest) {L : Nat} (hL : o.len = L) (hd : L ≤ o.data.length)
    (hL2 : L < 2 ^ 61) (sp dp : Nat) (hsp : sp ≤ s.length) (hdp : dp ≤ L) :
    Ends (copyArray src sp dest dp) h ()
      (h.put dest { o with data := overlay o.data dp ((s.drop sp).take (L - dp)) }) := by
  generalize hk : s.length - sp = k
  induction k generalizing h o sp dp with
  | zero =>
    have : s.drop sp = [] := List.drop_eq_nil_of_le (by omega)
    rw [this, List.take_nil, overlay_nil, show ({ o with data := o.data } : Obj) = o from rfl, put_same ho]
    rw [copyArray]
    refine (Ends.strLen hs).bind ((Ends.length ho).bind ?_)
    rw [if_pos (by omega)]
    exact Ends.pure _ _
  | succ k ih =>
    rw [copyArray]
    by_cases hdp' : dp = L
    · rw [hdp', Nat.sub_self, List.take_zero, overlay_nil, show ({ o with data := o.data } : Obj) = o from rfl,
        put_same ho]
      refine (Ends.strLen hs).bind ((Ends.length ho).bind ?_)
      rw [if_pos (by omega)]
      exact Ends.pure _ _
    · have hsp' : sp < s.length := by omega
      refine (Ends.strLen hs).bind ((Ends.length ho).bind ?_)
      rw [if_neg (by omega)]
      refine (Ends.strByte hs (List.getElem?_eq_getElem hsp')).bind ?_
      refine (Ends.setByte ho _ (by omega) (by omega)).bind ?_
      rw [lowByte_signed, succ_wrap hs hsp, wrap_eq (z := (dp : Int) + 1) ⟨by omega, by omega⟩]
      have := ih (h := h.put dest { o with data := o.data.set dp s[sp] })
        (o := { o with data := o.data.set dp s[sp] }) (hs.put hne) (put_get ho) hL (by simpa using hd) (sp + 1)
        (dp + 1) (by omega) (by omega) (by omega)
      rw [put_put, overlay_cons (by omega)] at this
      rw [show L - dp = (L - (dp + 1)) + 1 by omega, List.drop_eq_getElem_cons hsp', List.take_succ_cons]
      exact this

/-! ### Allocation -/

def Heap.add (h : Heap) (o : Obj) : Heap := { h with objs := h.objs ++ [o] }

theorem Ends.newBytes (n : Nat) :
    Ends (newBytes n) h h.objs.length (h.add { len := n, data := List.replicate n 0 }) := by
  unfold Ends Lib.newBytes
  rw [if_neg (by omega)]
  simp [Heap.add]

theorem Ends.lit (s : List UInt8) : Ends (lit s) h h.objs.length (h.add { len := s.length, data := s ++ [0] }) := rfl

theorem add_get (o : Obj) : (h.add o).objs[h.objs.length]? = some o := by
  unfold Heap.add
  simp

theorem add_get_lt {r : Nat} (o : Obj) (hr : r < h.objs.length) : (h.add o).objs[r]? = h.objs[r]? := by
  unfold Heap.add
  exact List.getElem?_append_left hr

theorem add_put (o o' : Obj) : (h.add o).put h.objs.length o' = h.add o' := by
  unfold Heap.add Heap.put
  simp

theorem IsStr.lt {r : Nat} {s : List UInt8} (hs : IsStr h r s) : r < h.objs.length := by
  obtain ⟨o, a1, -⟩ := hs.ex
  exact (List.getElem?_eq_some_iff.1 a1).1

theorem IsStr.add {r : Nat} {s : List UInt8} (hs : IsStr h r s) (o : Obj) : IsStr (h.add o) r s := by
  obtain ⟨o', a1, a2, a3⟩ := hs.ex
  exact ⟨⟨o', by rw [add_get_lt o hs.lt, a1], a2, a3⟩, hs.small⟩

theorem IsStr.fresh {s : List UInt8} {o : Obj} (h1 : o.len = s.length) (h2 : s <+: o.data) (hs : s.length < 2 ^ 61) :
    IsStr (h.add o) h.objs.length s := ⟨⟨o, add_get o, h1, h2⟩, hs⟩

/-- `toString` of a part of a byte array inside its bounds. -/
theorem toStr_ends {b : Nat} {s : List UInt8} (hs : IsStr h b s) {p n : Nat} (hp : p + n ≤ s.length) :
    ∃ o, Ends (toStr b p n) h h.objs.length (h.add o) ∧ o.len = n ∧ o.data = (s.drop p).take n ++ [0] := by
  have hsm := hs.small
  refine ⟨Obj.mk n (overlay (List.replicate (n + 1) 0) 0 ((s.drop p).take (n - 0))), ?_, ?_⟩
  · unfold toStr
    rw [wrap_eq (z := (n : Int) + 1) ⟨by omega, by omega⟩]
    refine Ends.bind (Ends.newBytes (h := h) (n + 1)) ?_
    refine Ends.bind (Ends.setLen (add_get _) n) ?_
    rw [show ∀ o : Obj, { h.add o with objs := (h.add o).objs.set h.objs.length { o with len := n } } =
      h.add { o with len := n } from fun o => add_put _ _]
    have hc := copyArray_ends (hs.add { len := n, data := List.replicate (n + 1) 0 }) (add_get _)
      (by have := hs.lt; omega) (L := n) rfl (by simp) (by omega) p 0 (by omega) (by omega)
    rw [add_put] at hc
    exact Ends.bind hc (Ends.pure _ _)
  · refine ⟨rfl, ?_⟩
    simp only [overlay, List.take_zero, List.nil_append, Nat.sub_zero, List.drop_replicate, List.length_take,
      List.length_drop, Nat.zero_add]
    rw [show n + 1 - min n (s.length - p) = 1 by omega]
    rfl

theorem append_ends {r1 r2 : Nat} {s t : List UInt8} (h1 : IsStr h r1 s) (h2 : IsStr h r2 t)
    (hl : s.length + t.length < 2 ^ 61) :
    ∃ o, Ends (append r1 r2) h h.objs.length (h.add o) ∧ o.len = (s ++ t).length ∧ o.data = s ++ t ++ [0] := by
  let n := s.length + t.length
  let o0 : Obj := { len := (n : Nat), data := List.replicate (n + 1) 0 }
  let o1 : Obj := { o0 with data := overlay o0.data 0 ((s.drop 0).take (n - 0)) }
  let o2 : Obj := { o1 with data := overlay o1.data s.length ((t.drop 0).take (n - s.length)) }
  have d1 : o1.data = s ++ List.replicate (t.length + 1) 0 := by
    simp only [o1, o0, overlay, List.take_zero, List.nil_append, List.drop_zero, Nat.sub_zero, List.drop_replicate,
      Nat.zero_add]
    rw [List.take_of_length_le (by omega), show n + 1 - s.length = t.length + 1 by omega]
  have d2 : o2.data = s ++ t ++ [0] := by
    simp only [o2, overlay, List.drop_zero]
    rw [List.take_of_length_le (i := n - s.length) (by omega), d1, List.take_append_of_le_length (Nat.le_refl _), List.take_length,
      ← List.drop_drop, List.drop_left, List.drop_replicate, show t.length + 1 - t.length = 1 by omega]
    simp
  refine ⟨o2, ?_, ?_, d2⟩
  · unfold append
    refine (Ends.strLen h1).bind ((Ends.strLen h2).bind ?_)
    rw [wrap_eq (z := (s.length : Int) + t.length) ⟨by omega, by omega⟩]
    simp only []
    rw [wrap_eq (z := (s.length : Int) + t.length + 1) ⟨by omega, by omega⟩]
    refine Ends.bind (Ends.newBytes (h := h) (n + 1)) ?_
    refine Ends.bind (Ends.setLen (add_get _) n) ?_
    rw [show ∀ o : Obj, { h.add o with objs := (h.add o).objs.set h.objs.length { o with len := (n : Nat) } } =
      h.add { o with len := (n : Nat) } from fun o => add_put _ _]
    have c1 := copyString_ends (h1.add o0) (add_get _) (by have := h1.lt; omega) (L := n) rfl (by simp [o0])
      (by omega) 0 0 (by omega) (by omega)
    rw [add_put] at c1
    refine Ends.bind c1 ?_
    refine Ends.bind (Ends.strLen (h1.add o1)) ?_
    have c2 := copyString_ends (h2.add o1) (add_get _) (by have := h2.lt; omega) (L := n) rfl
      (by rw [d1]; simp [n]) (by omega) 0 s.length (by omega) (by omega)
    rw [add_put] at c2
    exact Ends.bind c2 (Ends.pure _ _)
  · simp [o2, o1, o0, n]

end Clara.Lib
