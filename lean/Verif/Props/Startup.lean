import Verif.Lib.Startup
import Verif.Props.Map
/-
C58: the arguments and the environment of the process.
-/
namespace Clara.Props
open Clara.Lib

/-! ### The memory of the process -/

/-- The eight bytes at `a` hold the pointer `w`, lowest byte first. -/
def PtrAt (x : Ext) (a w : BitVec 64) : Prop := ∀ i, i < 8 → (x (a + BitVec.ofNat 64 i)).toNat = w.toNat / 256 ^ i % 256

/-- A C string with the bytes `s` starts at `p`. -/
structure CStr (x : Ext) (p : BitVec 64) (s : Str) : Prop where
  bytes : ∀ i c, s[i]? = some c → x (p + BitVec.ofNat 64 i) = c
  zero : x (p + BitVec.ofNat 64 s.length) = 0
  nonzero : 0 ∉ s

/-- The strings of an array of pointers that starts at `a`. -/
def Vector (x : Ext) (a : BitVec 64) (strs : List Str) : Prop :=
  ∀ (i : Nat) s, strs[i]? = some s → ∃ p, PtrAt x (a + BitVec.ofNat 64 (8 * i)) p ∧ p.toNat % 2 ^ 63 ≠ 0 ∧ CStr x p s

/-- The references `refs` are strings with the bytes `strs`, in order. -/
def Strings (h : Heap) (refs : List Nat) (strs : List Str) : Prop :=
  refs.length = strs.length ∧ ∀ (i : Nat) s, strs[i]? = some s → ∃ r, refs[i]? = some r ∧ IsStr h r s

/-- The name and the value of a variable: what is before and after the first `=`. -/
def splitEq (s : Str) : Str × Str := (s.takeWhile (· != 61), (s.dropWhile (· != 61)).drop 1)

/-- The value of a variable: that of its last entry. -/
def envValue (strs : List Str) (k : Str) : Option Str :=
  ((strs.map splitEq).reverse.find? (·.1 == k)).map (·.2)

/-! ### Lemmas -/

variable {x : Ext} {h h' : Heap}

theorem deref_ptr {a w : BitVec 64} (hp : PtrAt x a w) : deref x a = w := by
  have h0 := hp 0 (by omega)
  have h1 := hp 1 (by omega)
  have h2 := hp 2 (by omega)
  have h3 := hp 3 (by omega)
  have h4 := hp 4 (by omega)
  have h5 := hp 5 (by omega)
  have h6 := hp 6 (by omega)
  have h7 := hp 7 (by omega)
  have hw := w.isLt
  rw [show a + BitVec.ofNat 64 0 = a by simp] at h0
  apply BitVec.eq_of_toNat_eq
  unfold deref
  rw [BitVec.toNat_ofNat]
  change (x (a + 1)).toNat = _ at h1
  change (x (a + 2)).toNat = _ at h2
  change (x (a + 3)).toNat = _ at h3
  change (x (a + 4)).toNat = _ at h4
  change (x (a + 5)).toNat = _ at h5
  change (x (a + 6)).toNat = _ at h6
  change (x (a + 7)).toNat = _ at h7
  rw [h0, h1, h2, h3, h4, h5, h6, h7]
  omega

theorem iand_low (z : Int) : iand (wrap z) 0xFF = z % 256 := by
  have hc : (BitVec.ofInt 63 0xFF).toNat = 2 ^ 8 - 1 := by decide +kernel
  have : (BitVec.ofInt 63 (wrap z) &&& BitVec.ofInt 63 0xFF).toNat = (z % 256).toNat := by
    rw [BitVec.toNat_and, hc, Nat.and_two_pow_sub_one_eq_mod, BitVec.toNat_ofInt]
    unfold wrap
    omega
  unfold iand
  rw [BitVec.toInt_eq_toNat_cond, this]
  split <;> omega

theorem deref_low (p : BitVec 64) : iand (toTaggedInt (deref x p)) 0xFF = (x p).toNat := by
  unfold toTaggedInt
  rw [iand_low, BitVec.toInt_eq_toNat_cond]
  unfold deref
  rw [BitVec.toNat_ofNat]
  have := (x p).toNat_lt
  split <;> omega

theorem inc_nat (p : BitVec 64) (n : Nat) : inc p (n : Int) = p + BitVec.ofNat 64 n := by
  unfold inc
  rw [BitVec.ofInt_natCast]

theorem lowByte_nat (c : UInt8) : lowByte (c.toNat : Int) = c := by
  have := c.toNat_lt
  unfold lowByte
  rw [show ((c.toNat : Int) % 256).toNat = c.toNat by omega]
  simp

/-- Strings other than the data of the buffer stay. -/
def Safe (h : Heap) (d : Nat) (h' : Heap) (d' : Nat) : Prop := ∀ r s, IsStr h r s → r ≠ d → IsStr h' r s ∧ r ≠ d'

theorem Safe.of {b d d' : Nat} (k : Keeps h h' b d) (n : SameOrNew h d d') : Safe h d h' d' := by
  intro r s hs hr
  refine ⟨k.str hs hr, ?_⟩
  have := hs.lt
  rcases n with e | e <;> omega

theorem Safe.trans {h1 : Heap} {d d1 d' : Nat} (a : Safe h d h1 d1) (b : Safe h1 d1 h' d') : Safe h d h' d' :=
  fun r s hs hr => let ⟨i, j⟩ := a r s hs hr; b r s i j

theorem Safe.add (d : Nat) (o : Obj) : Safe h d (h.add o) d := fun _ _ hs hr => ⟨hs.add o, hr⟩

theorem _root_.Clara.Lib.BufAt.add {b d : Nat} {D c : Str} (hb : BufAt h b d D c) (o : Obj) : BufAt (h.add o) b d D c :=
  { hb with
    buf := hb.buf
    obj := by
      have := (List.getElem?_eq_some_iff.1 hb.obj).1
      rw [add_get_lt o this]; exact hb.obj }

theorem _root_.Clara.Lib.BufAt.lt {b d : Nat} {D c : Str} (hb : BufAt h b d D c) : d < h.objs.length :=
  (List.getElem?_eq_some_iff.1 hb.obj).1

theorem cstringLoop_ends {b d : Nat} {D c : Str} {p : BitVec 64} (rest pre : Str) (hs : CStr x p (pre ++ rest))
    (hb : BufAt h b d D c) (hc : c.length + rest.length ≤ 2 ^ 59) (hp : pre.length + rest.length ≤ 2 ^ 59) :
    ∃ h' d' D', Ends (cstringLoop x b p pre.length) h b h' ∧ BufAt h' b d' D' (c ++ rest) ∧ Keeps h h' b d ∧ SameOrNew h d d' := by
  induction rest generalizing h d D c pre with
  | nil =>
    refine ⟨h, d, D, ?_, by rw [List.append_nil]; exact hb, Keeps.refl _ _ _, .inl rfl⟩
    rw [cstringLoop, deref_low, inc_nat]
    have hz := hs.zero
    rw [List.append_nil] at hz
    rw [hz]
    exact Ends.pure _ _
  | cons a rest ih =>
    rw [List.length_cons] at hc hp
    have hx : x (p + BitVec.ofNat 64 pre.length) = a := hs.bytes _ _ (by simp)
    have hne : a ≠ 0 := fun e => hs.nonzero (by simp [e])
    have hne' : a.toNat ≠ 0 := fun e => hne (UInt8.toNat_inj.1 e)
    obtain ⟨h1, d1, D1, a1, a2, a3, a4⟩ := bufAppendByte_ends hb (a.toNat : Int) (by omega)
    rw [lowByte_nat] at a2
    obtain ⟨h2, d2, D2, b1, b2, b3, b4⟩ := ih (pre ++ [a]) (by simpa using hs) a2 (by simp; omega) (by simp; omega)
    refine ⟨h2, d2, D2, ?_, by simpa using b2, a3.trans b3 a4, a4.trans b4 a3.more⟩
    rw [cstringLoop, deref_low, inc_nat, hx]
    rw [if_neg (by omega), wrap_eq ⟨by omega, by omega⟩]
    rw [show ((pre.length : Int) + 1) = ((pre ++ [a]).length : Nat) by simp]
    exact a1.bind b1

theorem parse_ends {b d : Nat} {D : Str} {p : BitVec 64} {s : Str} (hs : CStr x p s) (hb : BufAt h b d D []) (hl : s.length ≤ 2 ^ 59) :
    ∃ h1 h' d' D' r, Ends (parseCString x b p) h b h1 ∧ Ends (bufToString b) h1 r h' ∧ BufAt h' b d' D' s ∧
      IsStr h' r s ∧ r ≠ d' ∧ Safe h d h' d' := by
  obtain ⟨h1, d1, D1, a1, a2, a3, a4⟩ := cstringLoop_ends (x := x) s [] hs hb (by simpa using hl) (by simpa using hl)
  rw [List.nil_append] at a2
  obtain ⟨o, c1, c2⟩ := bufToString_ends a2
  have := a2.lt
  exact ⟨h1, h1.add o, d1, D1, _, a1, c1, a2.add o, c2, by omega, (Safe.of a3 a4).trans (Safe.add d1 o)⟩

theorem argsLoop_ends {argv : BitVec 64} {strs : List Str} (hv : Vector x argv strs) (hl : ∀ s ∈ strs, s.length ≤ 2 ^ 59)
    (hn : strs.length < 2 ^ 58) {b d : Nat} {D : Str} (j i : Nat) (hij : i + j = strs.length) {args : List Nat} (hb : BufAt h b d D [])
    (ha : args.length = strs.length) (inv : ∀ k s, k < i → strs[k]? = some s → ∃ r, args[k]? = some r ∧ IsStr h r s ∧ r ≠ d) :
    ∃ refs h', Ends (argsLoop x argv b args i j) h refs h' ∧ Strings h' refs strs := by
  induction j generalizing h d D i args with
  | zero =>
    refine ⟨args, h, Ends.pure _ _, ha, fun k s hk => ?_⟩
    obtain ⟨r, r1, r2, -⟩ := inv k s (by have := (List.getElem?_eq_some_iff.1 hk).1; omega) hk
    exact ⟨r, r1, r2⟩
  | succ j ih =>
    have hi : strs[i]? = some strs[i] := List.getElem?_eq_getElem (by omega)
    obtain ⟨p, p1, -, p3⟩ := hv i _ hi
    obtain ⟨hm, h1, d1, D1, r, q1, q3, a2, a3, a4, a5⟩ := parse_ends p3 hb (hl _ (List.getElem_mem _))
    obtain ⟨h2, b1, b2, b3⟩ := bufReset_ends a2
    have hsafe := a5.trans (Safe.of b3 (.inl rfl))
    obtain ⟨refs, h3, c1, c2⟩ := ih (i + 1) (by omega) (args := args.set i r) b2 (by simpa using ha) (by
      intro k s hk hks
      by_cases hki : k = i
      · subst hki
        rw [hi] at hks
        cases hks
        exact ⟨r, List.getElem?_set_self (by omega), (Safe.of b3 (.inl rfl)) r _ a3 a4⟩
      · obtain ⟨r', r1, r2, r3⟩ := inv k s (by omega) hks
        exact ⟨r', by rw [List.getElem?_set_ne (by omega)]; exact r1, hsafe r' s r2 r3⟩)
    refine ⟨refs, h3, ?_, c2⟩
    unfold argsLoop
    rw [wrap_eq ⟨by omega, by omega⟩, show ((i : Int) * 8) = ((8 * i : Nat) : Int) by omega, inc_nat, deref_ptr p1]
    refine q1.bind (q3.bind ?_)
    rw [if_neg (by omega)]
    refine b1.bind ?_
    rw [wrap_eq ⟨by omega, by omega⟩]
    exact c1

theorem splitEq_at {a b : Str} (ha : 61 ∉ a) : splitEq (a ++ 61 :: b) = (a, b) := by
  unfold splitEq
  induction a with
  | nil => simp
  | cons c a ih =>
    have hc : c ≠ 61 := fun e => ha (by simp [e])
    have := ih (fun e => ha (by simp [e]))
    simp only [Prod.mk.injEq] at this
    simp [hc, this.1, this.2]

theorem splitEq_none {s : Str} (hs : 61 ∉ s) : splitEq s = (s, []) := by
  unfold splitEq
  induction s with
  | nil => simp
  | cons c a ih =>
    have hc : c ≠ 61 := fun e => hs (by simp [e])
    have := ih (fun e => hs (by simp [e]))
    simp only [Prod.mk.injEq] at this
    simp [hc, this.1]
    simpa using this.2

theorem content_ends {r : Nat} {s : Str} (hs : IsStr h r s) : Ends (content r) h s h := by
  obtain ⟨o, a1, a2, a3⟩ := hs.ex
  refine (Ends.obj a1).bind ?_
  rw [a2, show ((s.length : Int)).toNat = s.length by omega, ← List.prefix_iff_eq_take.1 a3]
  exact Ends.pure _ _

/-- `fnv1a` and `Equals` are a hasher and a matcher that agree. -/
theorem fnvAgree : Agree fnvOf (fun a b : Str => a == b) where
  refl := by simp
  symm := by intro a b h; simp at *; exact h.symm
  trans := by intro a b c h1 h2; simp at *; exact h1.trans h2
  hash := by intro a b h; simp at h; rw [h]
  int := by
    intro k
    unfold fnvOf
    have := (k.foldl fnvStep 0x811c9dc5#32).isLt
    exact ⟨by omega, by omega⟩

theorem fnv_nonneg (k : Str) : 0 ≤ fnvOf k := by unfold fnvOf; omega

abbrev EnvRep (m : MapSt Str Str) (bs : List (LList Nat)) (al : List (Str × Str)) (n : Nat) : Prop :=
  Rep fnvOf (fun a b : Str => a == b) m bs al n

def addVar (al : List (Str × Str)) (s : Str) : List (Str × Str) :=
  FMap.insert (fun a b : Str => a == b) al (splitEq s).1 (splitEq s).2

theorem envPut_ends {m : MapSt Str Str} {bs : List (LList Nat)} {al : List (Str × Str)} {n : Nat} (r : EnvRep m bs al n) (hb : n < 2 ^ 57)
    {k v : Nat} {ks vs : Str} (hk : IsStr h k ks) (hv : IsStr h v vs) :
    ∃ m' bs', Ends (envPut m k v) h m' h ∧ EnvRep m' bs' (FMap.insert (fun a b : Str => a == b) al ks vs) (n + 1) := by
  obtain ⟨m', bs', d, r'⟩ := put_does fnvAgree fnv_nonneg r hb ks vs
  refine ⟨m', bs', ?_, r'⟩
  refine (content_ends hk).bind ((content_ends hv).bind ?_)
  rw [show put fnvOf (fun a b : Str => a == b) ks vs m = .ok (_, m') from d]
  exact Ends.pure _ _

theorem envRound_ends {b d : Nat} {D : Str} {p : BitVec 64} {s : Str} (hs : CStr x p s) (hb : BufAt h b d D []) (hl : s.length ≤ 2 ^ 59)
    {m : MapSt Str Str} {bs : List (LList Nat)} {al : List (Str × Str)} {n : Nat} (r : EnvRep m bs al n) (hn : n < 2 ^ 57) :
    ∃ h' d' D' m' bs', Ends (envRound x b m p) h m' h' ∧ BufAt h' b d' D' [] ∧ EnvRep m' bs' (addVar al s) (n + 1) := by
  obtain ⟨hm, h1, d1, D1, rs, q1, q2, q3, q4, q5, -⟩ := parse_ends hs hb hl
  let oe : Obj := { len := (([0x3D] : Str).length : Nat), data := [0x3D] ++ [0] }
  have he : IsStr (h1.add oe) h1.objs.length [0x3D] := ⟨⟨_, add_get oe, rfl, List.prefix_append _ _⟩, by simp⟩
  have hs1 : IsStr (h1.add oe) rs s := q4.add oe
  have hb1 := q3.add oe
  have hlit : Ends (lit [0x3D]) h1 h1.objs.length (h1.add oe) := Ends.lit _
  obtain ⟨z, i1, i2⟩ := indexOf_ends hs1 he (by simp) (start := 0) (by omega) ⟨by omega, by omega⟩
  rcases i2 with ⟨rfl, hno⟩ | ⟨q, rfl, -, hq, hfirst⟩
  · -- no `=`
    have hno' : 61 ∉ s := by
      intro hmem
      obtain ⟨a, t, rfl⟩ := List.append_of_mem hmem
      refine hno a.length (by omega) ?_
      unfold OccursAt
      rw [List.drop_left]
      exact ⟨t, rfl⟩
    let o0 : Obj := { len := (([] : Str).length : Nat), data := [] ++ [0] }
    have hlit0 : Ends (lit []) (h1.add oe) (h1.add oe).objs.length ((h1.add oe).add o0) := Ends.lit _
    have he0 : IsStr ((h1.add oe).add o0) (h1.add oe).objs.length [] := ⟨⟨_, add_get o0, rfl, List.nil_prefix⟩, by simp⟩
    obtain ⟨m', bs', e1, e2⟩ := envPut_ends r hn (hs1.add o0) he0
    obtain ⟨h3, f1, f2, -⟩ := bufReset_ends (hb1.add o0)
    refine ⟨h3, d1, D1, m', bs', ?_, f2, ?_⟩
    · refine q1.bind (q2.bind (hlit.bind (i1.bind ?_)))
      rw [if_pos rfl]
      exact hlit0.bind (e1.bind (Ends.bind f1 (Ends.pure m' _)))
    · unfold addVar
      rw [splitEq_none hno']
      exact e2
  · obtain ⟨t, ht⟩ := hq
    have hsplit : s = s.take q ++ 61 :: t := by
      conv => lhs; rw [← List.take_append_drop q s, ← ht]
      rfl
    have hql : q + 1 ≤ s.length := by
      have := congrArg List.length ht
      simp at this
      omega
    have hnot : 61 ∉ s.take q := by
      intro hmem
      obtain ⟨a, u, hau⟩ := List.append_of_mem hmem
      have hlen := congrArg List.length hau
      simp at hlen
      refine hfirst a.length (by omega) (by omega) ?_
      unfold OccursAt
      refine ⟨u ++ 61 :: t, ?_⟩
      conv => rhs; rw [hsplit, hau]
      simp
    have hdrop : t = s.drop (q + 1) := by
      rw [← List.drop_drop, ← ht]
      rfl
    obtain ⟨o1, k1, k2⟩ := bufSubstring_ends hb1 (p := 0) (n := q) (by omega)
    obtain ⟨o2, v1, v2⟩ := bufSubstring_ends (hb1.add o1) (p := q + 1) (n := s.length - q - 1) (by omega)
    obtain ⟨m', bs', e1, e2⟩ := envPut_ends r hn (k2.add o2) v2
    obtain ⟨h3, f1, f2, -⟩ := bufReset_ends ((hb1.add o1).add o2)
    refine ⟨h3, d1, D1, m', bs', ?_, f2, ?_⟩
    · refine q1.bind (q2.bind (hlit.bind (i1.bind ?_)))
      rw [if_neg (by omega)]
      refine k1.bind ((Ends.buf (hb1.add o1).buf).bind ?_)
      simp only []
      rw [wrap_eq ⟨by omega, by omega⟩, wrap_eq (z := (s.length : Int) - q) ⟨by omega, by omega⟩, wrap_eq ⟨by omega, by omega⟩]
      rw [show ((q : Int) + 1) = ((q + 1 : Nat) : Int) by omega,
        show ((s.length : Int) - q - 1) = ((s.length - q - 1 : Nat) : Int) by omega]
      exact v1.bind (e1.bind (Ends.bind f1 (Ends.pure m' _)))
    · unfold addVar
      rw [hsplit, splitEq_at hnot]
      rw [List.drop_zero, List.take_of_length_le (l := s.drop (q + 1)) (by simp; omega), ← hdrop] at e2
      exact e2

theorem envLoop_ends {b d : Nat} {D : Str} (strs : List Str) (a : BitVec 64) (hv : Vector x a strs)
    (hend : PtrAt x (a + BitVec.ofNat 64 (8 * strs.length)) 0) (hb : BufAt h b d D []) (hl : ∀ s ∈ strs, s.length ≤ 2 ^ 59)
    {m : MapSt Str Str} {bs : List (LList Nat)} {al : List (Str × Str)} {n : Nat} (r : EnvRep m bs al n) (hn : n + strs.length ≤ 2 ^ 57) :
    ∃ h' m' bs', Ends (envLoop x b m a) h m' h' ∧ EnvRep m' bs' (strs.foldl addVar al) (n + strs.length) := by
  induction strs generalizing h d D a m bs al n with
  | nil =>
    refine ⟨h, m, bs, ?_, r⟩
    rw [envLoop]
    have : deref x a = 0 := by simpa using deref_ptr hend
    rw [this]
    exact Ends.pure _ _
  | cons s strs ih =>
    rw [List.length_cons] at hn hend
    obtain ⟨p, p1, p2, p3⟩ := hv 0 s rfl
    rw [show a + BitVec.ofNat 64 (8 * 0) = a by simp] at p1
    obtain ⟨h1, d1, D1, m1, bs1, a1, a2, a3⟩ := envRound_ends p3 hb (hl s (by simp)) r (by omega)
    have step : ∀ i, inc a 8 + BitVec.ofNat 64 (8 * i) = a + BitVec.ofNat 64 (8 * (i + 1)) := by
      intro i
      rw [show (8 : Int) = ((8 : Nat) : Int) from rfl, inc_nat, BitVec.add_assoc, ← BitVec.ofNat_add]
      congr 2
      omega
    obtain ⟨h2, m2, bs2, b1, b2⟩ := ih (inc a 8) (fun i s' hs' => by rw [step]; exact hv (i + 1) s' hs') (by rw [step]; exact hend) a2
      (fun s' hs' => hl s' (by simp [hs'])) a3 (by omega)
    refine ⟨h2, m2, bs2, ?_, ?_⟩
    · rw [envLoop, deref_ptr p1]
      have : isNull p = false := by
        unfold isNull toTaggedInt
        rw [BitVec.toInt_eq_toNat_cond]
        have := p.isLt
        simp only [beq_eq_false_iff_ne]
        unfold wrap
        split <;> omega
      rw [this]
      exact a1.bind b1
    · rw [List.length_cons, show n + (strs.length + 1) = n + 1 + strs.length by omega]
      exact b2

theorem lookup_addVars (strs : List Str) (k : Str) :
    FMap.lookup (fun a b : Str => a == b) (strs.foldl addVar []) k = envValue strs k := by
  induction hr : strs.reverse generalizing strs with
  | nil => rw [List.reverse_eq_nil_iff] at hr; subst hr; rfl
  | cons s rest ih =>
    have hs : strs = rest.reverse ++ [s] := by rw [← List.reverse_reverse (as := strs), hr]; simp
    subst hs
    rw [List.foldl_append]
    show FMap.lookup _ (addVar _ s) k = _
    rw [show addVar (rest.reverse.foldl addVar []) s = FMap.insert _ _ _ _ from rfl, FMap.lookup_insert fnvAgree, ih rest.reverse (by simp)]
    unfold envValue
    rw [List.map_append, List.reverse_append]
    show _ = Option.map _ (List.find? _ (splitEq s :: _))
    rw [List.find?_cons]
    cases hk : (splitEq s).1 == k <;> simp

/-! ### C58 -/

/-- The argument list is the strings of the argument vector, in order. -/
theorem C58_args (h : Heap) {argv : BitVec 64} {strs : List Str} (hv : Vector x argv strs) (hl : ∀ s ∈ strs, s.length ≤ 2 ^ 59)
    (hn : strs.length < 2 ^ 58) :
    ∃ refs h', Ends (parseArgs x strs.length argv) h refs h' ∧ Strings h' refs strs := by
  obtain ⟨h1, a1, a2, -⟩ := newByteBuffer_ends (h := h.add { len := (([] : Str).length : Nat), data := [] ++ [0] }) (cap := 16) (by omega)
    (by omega)
  obtain ⟨refs, h2, b1, b2⟩ := argsLoop_ends hv hl hn strs.length 0 (by omega) (args := List.replicate strs.length h.objs.length) a2
    (by simp) (fun k s hk => by omega)
  refine ⟨refs, h2, ?_, b2⟩
  refine (Ends.lit []).bind ?_
  rw [if_neg (by omega)]
  refine Ends.bind a1 ?_
  rw [show ((strs.length : Int)).toNat = strs.length by omega]
  exact b1

/-- The environment map has for every name the value of its last entry: what follows the first `=`, or nothing.
Every name is counted once. -/
theorem C58_env (h : Heap) {envp : BitVec 64} {strs : List Str} (hv : Vector x envp strs)
    (hend : PtrAt x (envp + BitVec.ofNat 64 (8 * strs.length)) 0) (hl : ∀ s ∈ strs, s.length ≤ 2 ^ 59) (hn : strs.length < 2 ^ 57) :
    ∃ m h', Ends (parseEnv x envp) h m h' ∧
      (∀ k, mapGet fnvOf (fun a b : Str => a == b) k m = .ok (optOf (envValue strs k), m)) ∧
      ∃ names : List Str, names.Nodup ∧ (∀ k, k ∈ names ↔ ∃ s ∈ strs, (splitEq s).1 = k) ∧ m.size = names.length := by
  obtain ⟨h1, a1, a2, -⟩ := newByteBuffer_ends (h := h) (cap := 16) (by omega) (by omega)
  obtain ⟨h2, m, bs, b1, b2⟩ := envLoop_ends strs envp hv hend a2 hl newHashMap_rep (by omega)
  refine ⟨m, h2, Ends.bind a1 b1, fun k => ?_, (strs.foldl addVar []).map (·.1), ?_, fun k => ?_, ?_⟩
  · have := get_does fnvAgree fnv_nonneg b2 (by omega) k
    rw [lookup_addVars] at this
    exact this
  · have := b2.distinct
    unfold Distinct at this
    rw [List.nodup_iff_pairwise_ne, List.pairwise_map]
    exact this.imp (by intro a b hab; simpa using hab)
  · have h1 : k ∈ (strs.foldl addVar []).map (·.1) ↔ (FMap.lookup (fun a b : Str => a == b) (strs.foldl addVar []) k).isSome := by
      unfold FMap.lookup
      simp only [Option.isSome_map, List.find?_isSome, List.mem_map]
      simp
    rw [h1, lookup_addVars]
    unfold envValue
    simp only [Option.isSome_map, List.find?_isSome]
    simp only [List.mem_reverse, List.mem_map, beq_iff_eq]
    constructor
    · rintro ⟨_, ⟨s, hs, rfl⟩, e⟩; exact ⟨s, hs, e⟩
    · rintro ⟨s, hs, e⟩; exact ⟨_, ⟨s, hs, rfl⟩, e⟩
  · rw [b2.size]
    simp

/-- A process with the environment `A=b`, `A=`, `x`: three pointers, a null pointer and the strings. -/
def exExt : Ext := fun a =>
  ([0x20, 0x10, 0, 0, 0, 0, 0, 0, 0x24, 0x10, 0, 0, 0, 0, 0, 0, 0x27, 0x10, 0, 0, 0, 0, 0, 0, 0, 0, 0, 0, 0, 0, 0, 0,
    65, 61, 98, 0, 65, 61, 0, 120, 0] : List UInt8).getD (a.toNat - 4096) 0

theorem exVector : Vector exExt 4096 [[65, 61, 98], [65, 61], [120]] := by
  intro i s hs
  match i with
  | 0 =>
    cases hs
    refine ⟨4128, by unfold PtrAt; decide +kernel, by decide, ⟨fun i c hi => ?_, by decide +kernel, by decide⟩⟩
    match i with
    | 0 => cases hi; decide +kernel
    | 1 => cases hi; decide +kernel
    | 2 => cases hi; decide +kernel
    | i + 3 => simp at hi
  | 1 =>
    cases hs
    refine ⟨4132, by unfold PtrAt; decide +kernel, by decide, ⟨fun i c hi => ?_, by decide +kernel, by decide⟩⟩
    match i with
    | 0 => cases hi; decide +kernel
    | 1 => cases hi; decide +kernel
    | i + 2 => simp at hi
  | 2 =>
    cases hs
    refine ⟨4135, by unfold PtrAt; decide +kernel, by decide, ⟨fun i c hi => ?_, by decide +kernel, by decide⟩⟩
    match i with
    | 0 => cases hi; decide +kernel
    | i + 1 => simp at hi
  | i + 3 => simp at hs

example : ∃ refs h', Ends (parseArgs exExt 3 4096) {} refs h' ∧ Strings h' refs [[65, 61, 98], [65, 61], [120]] :=
  C58_args {} exVector (by decide) (by decide)

example : ∃ m h', Ends (parseEnv exExt 4096) {} m h' ∧
    mapGet fnvOf (fun a b : Str => a == b) [65] m = .ok (.some [], m) ∧ mapGet fnvOf (fun a b : Str => a == b) [120] m = .ok (.some [], m) ∧
    mapGet fnvOf (fun a b : Str => a == b) [66] m = .ok (.none, m) := by
  obtain ⟨m, h', h1, h2, -⟩ := C58_env {} exVector (by unfold PtrAt; decide +kernel) (by decide) (by decide)
  exact ⟨m, h', h1, h2 [65], h2 [120], h2 [66]⟩

end Clara.Props
