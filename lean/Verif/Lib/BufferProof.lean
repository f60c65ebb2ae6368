import Verif.Lib.StringsProof
/-
Facts about byte buffers.
-/
namespace Clara.Lib

variable {α β : Type} {h h1 h2 h' : Heap}

/-- Buffer `b` has the data object `d` with all its bytes `D`, and holds `c`. -/
structure BufAt (h : Heap) (b d : Nat) (D c : List UInt8) : Prop where
  buf : h.bufs[b]? = some { data := d, size := c.length }
  obj : h.objs[d]? = some { len := D.length, data := D }
  pre : c <+: D
  pos : 1 ≤ D.length
  small : D.length < 2 ^ 60

theorem BufAt.str {b d : Nat} {D c : List UInt8} (hb : BufAt h b d D c) : IsStr h d D :=
  ⟨⟨_, hb.obj, rfl, List.prefix_refl _⟩, by have := hb.small; omega⟩

/-- What appending to a buffer with data object `d` leaves as it is. -/
structure Keeps (h h' : Heap) (b d : Nat) : Prop where
  objs : ∀ r, r ≠ d → r < h.objs.length → h'.objs[r]? = h.objs[r]?
  bufs : ∀ b', b' ≠ b → h'.bufs[b']? = h.bufs[b']?
  more : h.objs.length ≤ h'.objs.length
  nbufs : h'.bufs.length = h.bufs.length

theorem Keeps.refl (h : Heap) (b d : Nat) : Keeps h h b d := ⟨fun _ _ _ => rfl, fun _ _ => rfl, Nat.le_refl _, rfl⟩

theorem Keeps.trans {b d d' : Nat} (k1 : Keeps h h1 b d) (k2 : Keeps h1 h2 b d') (hd : d' = d ∨ h.objs.length ≤ d') :
    Keeps h h2 b d := by
  refine ⟨fun r hr hl => ?_, fun b' hb => (k2.bufs b' hb).trans (k1.bufs b' hb), Nat.le_trans k1.more k2.more,
    k2.nbufs.trans k1.nbufs⟩
  rw [k2.objs r (by rcases hd with rfl | hd <;> omega) (Nat.lt_of_lt_of_le hl k1.more), k1.objs r hr hl]

theorem Keeps.str {b d r : Nat} {s : List UInt8} (k : Keeps h h' b d) (hs : IsStr h r s) (hr : r ≠ d) : IsStr h' r s := by
  obtain ⟨o, a1, a2, a3⟩ := hs.ex
  exact ⟨⟨o, by rw [k.objs r hr hs.lt, a1], a2, a3⟩, hs.small⟩

/-- The data object of the buffer afterwards is the old one or a new one. -/
def SameOrNew (h : Heap) (d d' : Nat) : Prop := d' = d ∨ h.objs.length ≤ d'

theorem SameOrNew.trans {d d' d'' : Nat} (a : SameOrNew h d d') (b : SameOrNew h1 d' d'')
    (hl : h.objs.length ≤ h1.objs.length) : SameOrNew h d d'' := by
  unfold SameOrNew at *
  omega

theorem growLoop_ends {n req : Nat} (hn : 1 ≤ n) (hn2 : n < 2 ^ 60) (hr : req ≤ 2 ^ 59) :
    ∃ n' : Nat, Ends (growLoop n req) h n' h ∧ req ≤ n' ∧ n ≤ n' ∧ n' < 2 ^ 60 := by
  generalize hk : 2 ^ 60 - n = k
  induction k using Nat.strongRecOn generalizing n with
  | ind k ih =>
    by_cases hlt : n < req
    · obtain ⟨n', a, b, c, d⟩ := ih (2 ^ 60 - 2 * n) (by omega) (n := 2 * n) (by omega) (by omega) rfl
      refine ⟨n', ?_, b, by omega, d⟩
      rw [growLoop, if_pos (by omega), wrap_eq ⟨by omega, by omega⟩, show ((n : Int) * 2) = ((2 * n : Nat) : Int) by omega]
      exact a
    · refine ⟨n, ?_, by omega, Nat.le_refl _, hn2⟩
      rw [growLoop, if_neg (by omega)]
      exact Ends.pure _ _

theorem Ends.setBuf (r : Nat) (x : Buf) : Ends (setBuf r x) h () { h with bufs := h.bufs.set r x } := rfl

theorem grow_ends {b d : Nat} {D c : List UInt8} (hb : BufAt h b d D c) {req : Nat} (hr : req ≤ 2 ^ 59)
    (hD : D.length < 2 ^ 59) :
    ∃ h' d' D', Ends (grow b req) h () h' ∧ BufAt h' b d' D' c ∧ req ≤ D'.length ∧ Keeps h h' b d ∧ SameOrNew h d d' := by
  have hpos := hb.pos
  obtain ⟨n', a1, a2, a3, a4⟩ := growLoop_ends (h := h) (n := D.length * 2) (by omega) (by omega) hr
  let o0 : Obj := { len := (n' : Nat), data := List.replicate n' 0 }
  let D' := overlay o0.data 0 ((D.drop 0).take (n' - 0))
  let o1 : Obj := { o0 with data := D' }
  let h2 : Heap := h.add o1
  have hD' : D'.length = n' := by
    show (overlay o0.data 0 ((D.drop 0).take (n' - 0))).length = n'
    rw [overlay_length]
    · simp [o0]
    · simp only [List.drop_zero, Nat.sub_zero, List.length_take, Nat.zero_add, o0, List.length_replicate]; omega
  have hbuf : h2.bufs[b]? = some { data := d, size := c.length } := hb.buf
  refine ⟨{ h2 with bufs := h2.bufs.set b { data := h.objs.length, size := c.length } }, h.objs.length, D', ?_, ?_, ?_, ?_, ?_⟩
  · unfold grow
    refine (Ends.buf hb.buf).bind ((Ends.length hb.obj).bind ?_)
    simp only []
    rw [wrap_eq ⟨by omega, by omega⟩, show ((D.length : Int) * 2) = ((D.length * 2 : Nat) : Int) by omega]
    refine Ends.bind a1 (Ends.bind (Ends.newBytes (h := h) n') ?_)
    refine Ends.bind (Ends.buf (r := b) (o := { data := d, size := c.length }) hb.buf) ?_
    have hc := copyArray_ends (hb.str.add o0) (add_get o0) (by have := hb.str.lt; omega) (L := n') rfl (by simp [o0])
      (by omega) 0 0 (by omega) (by omega)
    rw [add_put] at hc
    refine Ends.bind hc (Ends.bind (Ends.buf hbuf) ?_)
    exact Ends.setBuf _ _
  · have hlt := (List.getElem?_eq_some_iff.1 hb.buf).1
    refine ⟨?_, ?_, ?_, by omega, by omega⟩
    · simp only [List.getElem?_set_self (show b < h2.bufs.length from hlt)]
    · show h2.objs[h.objs.length]? = _
      rw [show h2.objs[h.objs.length]? = some o1 from add_get o1, hD']
    · refine List.IsPrefix.trans hb.pre ?_
      show D <+: overlay o0.data 0 ((D.drop 0).take (n' - 0))
      unfold overlay
      rw [List.take_zero, List.nil_append, List.drop_zero, Nat.sub_zero, List.take_of_length_le (by omega)]
      exact List.prefix_append _ _
  · omega
  · refine ⟨fun r hr hl => add_get_lt _ hl, fun b' hb' => List.getElem?_set_ne (Ne.symm hb'), ?_, ?_⟩
    · show h.objs.length ≤ (h.objs ++ [o1]).length
      simp
    · exact List.length_set
  · exact .inr (Nat.le_refl _)

theorem ite_then {p : Prop} [Decidable p] (x : M Unit) (k : M α) :
    (if p then x >>= fun _ => k else k) = (if p then x else pure ()) >>= fun _ => k := by
  split <;> simp

theorem grow_if_ends {b d : Nat} {D c : List UInt8} (hb : BufAt h b d D c) {req : Nat} (hr : req ≤ 2 ^ 59) :
    ∃ h' d' D', Ends (do if (req : Int) > (← length (← buf b).data) then grow b req) h () h' ∧
      BufAt h' b d' D' c ∧ req ≤ D'.length ∧ Keeps h h' b d ∧ SameOrNew h d d' := by
  by_cases hlt : D.length < req
  · obtain ⟨h', d', D', a, rest⟩ := grow_ends hb hr (by omega)
    refine ⟨h', d', D', ?_, rest⟩
    refine (Ends.buf hb.buf).bind ((Ends.length hb.obj).bind ?_)
    rw [if_pos (by simp only; omega)]
    exact a
  · refine ⟨h, d, D, ?_, hb, by omega, Keeps.refl _ _ _, .inl rfl⟩
    refine (Ends.buf hb.buf).bind ((Ends.length hb.obj).bind ?_)
    rw [if_neg (by simp only; omega)]
    exact Ends.pure _ _

/-- Writing `xs` after the contents and recording the new size. -/
theorem BufAt.write {b d : Nat} {D c xs : List UInt8} (hb : BufAt h b d D c) (hl : c.length + xs.length ≤ D.length) :
    BufAt { h.put d { len := D.length, data := overlay D c.length xs } with
        bufs := h.bufs.set b { data := d, size := (c ++ xs).length } } b d (overlay D c.length xs) (c ++ xs) := by
  have hlt := (List.getElem?_eq_some_iff.1 hb.buf).1
  have hlen : (overlay D c.length xs).length = D.length := overlay_length hl
  refine ⟨?_, ?_, ?_, by rw [hlen]; exact hb.pos, by rw [hlen]; exact hb.small⟩
  · exact List.getElem?_set_self hlt
  · rw [hlen]
    exact put_get hb.obj
  · unfold overlay
    rw [← List.prefix_iff_eq_take.1 hb.pre, ← List.append_assoc]
    exact List.prefix_append _ _

theorem Keeps.write (b d : Nat) (o : Obj) (x : Buf) :
    Keeps h { h.put d o with bufs := h.bufs.set b x } b d :=
  ⟨fun _ hr _ => put_get_ne hr, fun _ hb => List.getElem?_set_ne (Ne.symm hb), by simp [Heap.put], List.length_set⟩

theorem bufAppendByte_ends {b d : Nat} {D c : List UInt8} (hb : BufAt h b d D c) (v : Int)
    (hc : c.length + 1 ≤ 2 ^ 59) :
    ∃ h' d' D', Ends (bufAppendByte b v) h () h' ∧ BufAt h' b d' D' (c ++ [lowByte v]) ∧ Keeps h h' b d ∧ SameOrNew h d d' := by
  obtain ⟨h1, d1, D1, a1, a2, a3, a4, a5⟩ := grow_if_ends hb (req := c.length + 1) hc
  have hset : (D1.set c.length (lowByte v)) = overlay D1 c.length [lowByte v] := by
    rw [← overlay_cons (by omega), overlay_nil]
  have hw := a2.write (xs := [lowByte v]) (by simpa using a3)
  have hk : Keeps h1 { h1.put d1 { len := D1.length, data := overlay D1 c.length [lowByte v] } with
        bufs := h1.bufs.set b { data := d1, size := (c ++ [lowByte v]).length } } b d1 := Keeps.write b d1 _ _
  refine ⟨_, d1, _, ?_, hw, a4.trans hk a5, a5⟩
  unfold bufAppendByte
  refine (Ends.buf hb.buf).bind ?_
  simp only []
  rw [wrap_eq (z := (c.length : Int) + 1) ⟨by omega, by omega⟩]
  have a1' := a1
  rw [show ((c.length + 1 : Nat) : Int) = (c.length : Int) + 1 by omega] at a1'
  have rest : Ends (do
      setByte (← buf b).data (← buf b).size v
      setBuf b { (← buf b) with size := (c.length : Int) + 1 }) h1 ()
      { h1.put d1 { len := D1.length, data := overlay D1 c.length [lowByte v] } with
        bufs := h1.bufs.set b { data := d1, size := (c ++ [lowByte v]).length } } := by
    refine (Ends.buf a2.buf).bind ((Ends.buf a2.buf).bind ?_)
    refine Ends.bind (Ends.setByte a2.obj v (i := c.length) (by simp only; omega) (by simp only; omega)) ?_
    refine Ends.bind (Ends.buf (o := { data := d1, size := c.length }) a2.buf) ?_
    simp only [hset]
    rw [show (c ++ [lowByte v]).length = c.length + 1 by simp]
    exact Ends.setBuf _ _
  have key := Ends.bind (f := fun _ => _) a1' rest
  simp only [ite_then]
  simpa only [bind_assoc] using key

theorem bufAppend_ends {b d r : Nat} {D c s : List UInt8} (hb : BufAt h b d D c) (hs : IsStr h r s) (hr : r ≠ d)
    (hc : c.length + s.length ≤ 2 ^ 59) :
    ∃ h' d' D', Ends (bufAppend b r) h b h' ∧ BufAt h' b d' D' (c ++ s) ∧ Keeps h h' b d ∧ SameOrNew h d d' := by
  obtain ⟨h1, d1, D1, a1, a2, a3, a4, a5⟩ := grow_if_ends hb (req := c.length + s.length) hc
  have hw := a2.write (xs := s) a3
  have hk : Keeps h1 { h1.put d1 { len := D1.length, data := overlay D1 c.length s } with
        bufs := h1.bufs.set b { data := d1, size := (c ++ s).length } } b d1 := Keeps.write b d1 _ _
  have hs1 : IsStr h1 r s := a4.str hs hr
  have hne : r ≠ d1 := by
    have := hs.lt
    rcases a5 with e | e <;> omega
  refine ⟨_, d1, _, ?_, hw, a4.trans hk a5, a5⟩
  unfold bufAppend
  refine (Ends.buf hb.buf).bind ((Ends.strLen hs).bind ?_)
  simp only []
  rw [wrap_eq (z := (c.length : Int) + s.length) ⟨by omega, by omega⟩]
  have a1' := a1
  rw [show ((c.length + s.length : Nat) : Int) = (c.length : Int) + s.length by omega] at a1'
  have rest : Ends (do
      copyString r 0 (← buf b).data (← buf b).size
      setBuf b { (← buf b) with size := (c.length : Int) + s.length }
      return b) h1 b
      { h1.put d1 { len := D1.length, data := overlay D1 c.length s } with
        bufs := h1.bufs.set b { data := d1, size := (c ++ s).length } } := by
    refine (Ends.buf a2.buf).bind ((Ends.buf a2.buf).bind ?_)
    have hcopy := copyString_ends hs1 a2.obj hne (L := D1.length) rfl (Nat.le_refl _) (by have := a2.small; omega) 0
      c.length (by omega) (by omega)
    rw [List.drop_zero] at hcopy
    rw [List.take_of_length_le (by omega)] at hcopy
    refine Ends.bind hcopy ?_
    refine Ends.bind (Ends.buf (o := { data := d1, size := c.length }) a2.buf) ?_
    rw [show (c ++ s).length = c.length + s.length by simp]
    exact Ends.bind (Ends.setBuf _ _) (Ends.pure _ _)
  have key := Ends.bind (f := fun _ => _) a1' rest
  simp only [ite_then]
  simpa only [bind_assoc] using key

/-- The heap after creating a buffer. -/
def Heap.withBuf (h : Heap) (x : Buf) : Heap := { h with bufs := h.bufs ++ [x] }

theorem newByteBuffer_ends {cap : Nat} (h1 : 1 ≤ cap) (h2 : cap < 2 ^ 60) :
    ∃ h', Ends (newByteBuffer cap) h h.bufs.length h' ∧
      BufAt h' h.bufs.length h.objs.length (List.replicate cap 0) [] ∧
      (∀ r, r < h.objs.length → h'.objs[r]? = h.objs[r]?) ∧ h.objs.length ≤ h'.objs.length ∧
      h'.bufs = h.bufs ++ [{ data := h.objs.length, size := 0 }] := by
  let o : Obj := { len := (cap : Nat), data := List.replicate cap 0 }
  refine ⟨(h.add o).withBuf { data := h.objs.length, size := 0 }, ?_, ?_, fun r hr => add_get_lt o hr, ?_, rfl⟩
  · unfold newByteBuffer
    exact Ends.bind (Ends.newBytes cap) rfl
  · refine ⟨?_, ?_, List.nil_prefix, by simpa using h1, by simpa using h2⟩
    · show (h.bufs ++ [_])[h.bufs.length]? = _
      simp
    · show (h.add o).objs[h.objs.length]? = _
      rw [add_get]
      simp [o]
  · show h.objs.length ≤ (h.objs ++ [o]).length
    simp

theorem bufToString_ends {b d : Nat} {D c : List UInt8} (hb : BufAt h b d D c) :
    ∃ o, Ends (bufToString b) h h.objs.length (h.add o) ∧ IsStr (h.add o) h.objs.length c := by
  have hp := hb.pre.length_le
  have hsm := hb.small
  obtain ⟨o, a1, a2, a3⟩ := toStr_ends hb.str (p := 0) (n := c.length) (by omega)
  refine ⟨o, (Ends.buf hb.buf).bind ((Ends.buf hb.buf).bind a1), ⟨⟨o, add_get o, a2, ?_⟩, by omega⟩⟩
  rw [a3, List.drop_zero, ← List.prefix_iff_eq_take.1 hb.pre]
  exact List.prefix_append _ _

theorem bufReset_ends {b d : Nat} {D c : List UInt8} (hb : BufAt h b d D c) :
    ∃ h', Ends (bufReset b) h () h' ∧ BufAt h' b d D [] ∧ Keeps h h' b d := by
  have hlt := (List.getElem?_eq_some_iff.1 hb.buf).1
  refine ⟨_, (Ends.buf hb.buf).bind (Ends.setBuf _ _), ⟨List.getElem?_set_self hlt, hb.obj, List.nil_prefix, hb.pos, hb.small⟩, ?_⟩
  exact ⟨fun _ _ _ => rfl, fun _ hb' => List.getElem?_set_ne (Ne.symm hb'), Nat.le_refl _, List.length_set⟩

theorem bufSubstring_ends {b d : Nat} {D c : List UInt8} (hb : BufAt h b d D c) {p n : Nat} (hp : p + n ≤ c.length) :
    ∃ o, Ends (bufSubstring b p n) h h.objs.length (h.add o) ∧ IsStr (h.add o) h.objs.length ((c.drop p).take n) := by
  have hl := hb.pre.length_le
  have hsm := hb.small
  have hend : ((c.drop p).take n).length = n := by simp; omega
  by_cases hn : n = 0
  · subst hn
    refine ⟨{ len := 0, data := [] ++ [0] }, ?_, ⟨⟨_, add_get _, ?_, ?_⟩, ?_⟩⟩
    · unfold bufSubstring
      rw [if_neg (by omega)]
      refine (Ends.buf hb.buf).bind ?_
      rw [wrap_eq ⟨by omega, by omega⟩, if_neg (by simp only; omega)]
      simp only []
      rw [if_pos (by omega)]
      exact Ends.lit []
    · simp
    · simp
    · simp
  · obtain ⟨o, a1, a2, a3⟩ := toStr_ends hb.str (p := p) (n := n) (by omega)
    refine ⟨o, ?_, ⟨⟨o, add_get o, by rw [a2, hend], ?_⟩, by omega⟩⟩
    · unfold bufSubstring
      rw [if_neg (by omega)]
      refine (Ends.buf hb.buf).bind ?_
      rw [wrap_eq ⟨by omega, by omega⟩, if_neg (by simp only; omega)]
      rw [if_neg (by omega)]
      exact (Ends.buf hb.buf).bind a1
    · rw [a3]
      obtain ⟨t, rfl⟩ := hb.pre
      rw [List.drop_append_of_le_length (by omega), List.take_append_of_le_length (by simp; omega)]
      exact List.prefix_append _ _

end Clara.Lib
