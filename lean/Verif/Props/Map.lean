import Verif.Lib.MapProof
/-
C46: the library hash map is a finite map.
-/
namespace Clara.Props
open Clara.Lib

variable {K V : Type}

/-! ### The specification

A finite map as a list of pairs with keys that do not match each other.  `matcher` is the equality of keys. -/

section
variable (matcher : K → K → Bool)

def FMap.lookup (al : List (K × V)) (k : K) : Option V := (al.find? fun p => matcher p.1 k).map (·.2)

/-- The value for `k` becomes `v`; the other keys keep theirs. -/
def FMap.insert (al : List (K × V)) (k : K) (v : V) : List (K × V) :=
  if al.any fun p => matcher p.1 k then al.map fun p => if matcher p.1 k then (p.1, v) else p else (k, v) :: al

def FMap.erase (al : List (K × V)) (k : K) : List (K × V) := al.filter fun p => !matcher p.1 k

end

/-- The matcher is an equality of keys and the hasher respects it. -/
structure Agree (hasher : K → Int) (matcher : K → K → Bool) : Prop where
  refl : ∀ k, matcher k k = true
  symm : ∀ {a b}, matcher a b = true → matcher b a = true
  trans : ∀ {a b c}, matcher a b = true → matcher b c = true → matcher a c = true
  hash : ∀ {a b}, matcher a b = true → hasher a = hasher b
  int : ∀ k, IsInt (hasher k)

/-- An operation on the map. -/
inductive MapOp (K V : Type)
  | put (k : K) (v : V)
  | get (k : K)
  | remove (k : K)
  | contains (k : K)
  | orElse (k : K) (v : V)
  | size

/-- Its answer. -/
inductive Answer (V : Type)
  | value (o : Opt V)
  | val (v : V)
  | bool (b : Bool)
  | int (z : Int)

/-- The operation of the library. -/
def MapOp.run (hasher : K → Int) (matcher : K → K → Bool) : MapOp K V → MM K V (Answer V)
  | .put k v => do return .value (← Lib.put hasher matcher k v)
  | .get k => do return .value (← Lib.mapGet hasher matcher k)
  | .remove k => do return .value (← Lib.mapRemove hasher matcher k)
  | .contains k => do return .bool (← Lib.contains hasher matcher k)
  | .orElse k v => do return .val (← Lib.mapOrElse hasher matcher k v)
  | .size => do return .int (← MonadState.get).size

def optOf : Option V → Opt V
  | some v => .some v
  | none => .none

/-- The answer it should give. -/
def MapOp.answer (matcher : K → K → Bool) (al : List (K × V)) : MapOp K V → Answer V
  | .put k _ => .value (optOf (FMap.lookup matcher al k))
  | .get k => .value (optOf (FMap.lookup matcher al k))
  | .remove k => .value (optOf (FMap.lookup matcher al k))
  | .contains k => .bool (FMap.lookup matcher al k).isSome
  | .orElse k v => .val ((FMap.lookup matcher al k).getD v)
  | .size => .int al.length

/-- The finite map afterwards. -/
def MapOp.after (matcher : K → K → Bool) (al : List (K × V)) : MapOp K V → List (K × V)
  | .put k v => FMap.insert matcher al k v
  | .remove k => FMap.erase matcher al k
  | _ => al

/-- The library run on a history. -/
def runOps (hasher : K → Int) (matcher : K → K → Bool) : List (MapOp K V) → MM K V (List (Answer V))
  | [] => pure []
  | op :: ops => do
    let a ← op.run hasher matcher
    let r ← runOps hasher matcher ops
    pure (a :: r)

/-- What a history should answer. -/
def specOps (matcher : K → K → Bool) : List (K × V) → List (MapOp K V) → List (Answer V)
  | _, [] => []
  | al, op :: ops => op.answer matcher al :: specOps matcher (op.after matcher al) ops

/-! ### Facts about the specification -/

section
variable {hasher : K → Int} {matcher : K → K → Bool}

/-- Keys do not match each other. -/
def Distinct (matcher : K → K → Bool) (al : List (K × V)) : Prop := al.Pairwise fun p q => matcher p.1 q.1 = false

theorem match_eq (ag : Agree hasher matcher) {a b : K} (h : matcher a b = true) (c : K) : matcher a c = matcher b c := by
  rw [Bool.eq_iff_iff]
  exact ⟨fun h' => ag.trans (ag.symm h) h', fun h' => ag.trans h h'⟩

theorem match_comm (ag : Agree hasher matcher) (a b : K) : matcher a b = matcher b a := by
  rw [Bool.eq_iff_iff]; exact ⟨ag.symm, ag.symm⟩

theorem lookup_update (ag : Agree hasher matcher) (al : List (K × V)) (k k' : K) (v : V) :
    FMap.lookup matcher (al.map fun p => if matcher p.1 k then (p.1, v) else p) k' =
      (FMap.lookup matcher al k').map fun w => if matcher k k' then v else w := by
  induction al with
  | nil => rfl
  | cons p al ih =>
    unfold FMap.lookup at *
    rw [List.map_cons, List.find?_cons, List.find?_cons]
    have hk : (if matcher p.1 k = true then (p.1, v) else p).1 = p.1 := by split <;> rfl
    rw [hk]
    cases hp : matcher p.1 k' with
    | true =>
      have : matcher p.1 k = matcher k k' := by rw [match_eq ag hp k, match_comm ag k' k]
      rw [this]
      cases matcher k k' <;> simp
    | false => exact ih

theorem lookup_some (ag : Agree hasher matcher) {al : List (K × V)} {k k' : K} (h : matcher k k' = true) :
    FMap.lookup matcher al k = FMap.lookup matcher al k' := by
  unfold FMap.lookup
  have : (fun p : K × V => matcher p.1 k) = fun p => matcher p.1 k' := by
    funext p
    rw [match_comm ag, match_eq ag h, match_comm ag]
  rw [this]

theorem lookup_none {al : List (K × V)} {k : K} : FMap.lookup matcher al k = none ↔ ∀ p ∈ al, matcher p.1 k = false := by
  unfold FMap.lookup
  rw [Option.map_eq_none_iff, List.find?_eq_none]
  simp

theorem any_lookup {al : List (K × V)} {k : K} : (al.any fun p => matcher p.1 k) = (FMap.lookup matcher al k).isSome := by
  unfold FMap.lookup
  rw [Option.isSome_map, Bool.eq_iff_iff, List.find?_isSome, List.any_eq_true]

/-- The laws of a finite map. -/
theorem FMap.lookup_insert (ag : Agree hasher matcher) (al : List (K × V)) (k k' : K) (v : V) :
    FMap.lookup matcher (FMap.insert matcher al k v) k' = if matcher k k' then some v else FMap.lookup matcher al k' := by
  unfold FMap.insert
  rw [any_lookup]
  cases hl : FMap.lookup matcher al k with
  | some w =>
    simp only [Option.isSome_some, if_true]
    rw [lookup_update ag]
    cases hk : matcher k k' with
    | true => rw [← lookup_some ag hk, hl]; rfl
    | false => simp
  | none =>
    simp only [Option.isSome_none, Bool.false_eq_true, if_false]
    unfold FMap.lookup
    rw [List.find?_cons]
    simp only []
    cases matcher k k' <;> simp

theorem FMap.lookup_erase (ag : Agree hasher matcher) (al : List (K × V)) (k k' : K) :
    FMap.lookup matcher (FMap.erase matcher al k) k' = if matcher k k' then none else FMap.lookup matcher al k' := by
  unfold FMap.erase
  induction al with
  | nil => unfold FMap.lookup; simp
  | cons p al ih =>
    rw [List.filter_cons]
    unfold FMap.lookup at *
    by_cases hp : matcher p.1 k = true
    · simp only [hp, Bool.not_true, Bool.false_eq_true, if_false]
      rw [ih, List.find?_cons, match_eq ag hp k']
      cases matcher k k' <;> simp
    · simp only [hp, Bool.not_false, if_true]
      rw [List.find?_cons, List.find?_cons]
      cases hk : matcher p.1 k' with
      | true =>
        have : matcher k k' = false := by
          cases h : matcher k k' with
          | false => rfl
          | true => exact absurd (ag.trans hk (ag.symm h)) hp
        simp [this]
      | false => exact ih

theorem Distinct.insert (ag : Agree hasher matcher) {al : List (K × V)} (d : Distinct matcher al) (k : K) (v : V) :
    Distinct matcher (FMap.insert matcher al k v) := by
  unfold FMap.insert
  rw [any_lookup]
  cases hl : FMap.lookup matcher al k with
  | some w =>
    simp only [Option.isSome_some, if_true]
    unfold Distinct at *
    rw [List.pairwise_map]
    refine d.imp ?_
    intro a b hab
    have e : ∀ p : K × V, (if matcher p.1 k = true then (p.1, v) else p).1 = p.1 := by intro p; split <;> rfl
    rw [e, e]
    exact hab
  | none =>
    simp only [Option.isSome_none, Bool.false_eq_true, if_false]
    refine List.pairwise_cons.2 ⟨fun p hp => ?_, d⟩
    rw [match_comm ag]
    exact lookup_none.1 hl p hp

theorem Distinct.erase {al : List (K × V)} (d : Distinct matcher al) (k : K) : Distinct matcher (FMap.erase matcher al k) :=
  List.Pairwise.filter _ d

theorem FMap.length_insert (al : List (K × V)) (k : K) (v : V) :
    (FMap.insert matcher al k v).length = al.length + if (FMap.lookup matcher al k).isSome then 0 else 1 := by
  unfold FMap.insert
  rw [any_lookup]
  cases (FMap.lookup matcher al k) <;> simp

theorem FMap.length_erase (ag : Agree hasher matcher) {al : List (K × V)} (d : Distinct matcher al) (k : K) :
    (FMap.erase matcher al k).length + (if (FMap.lookup matcher al k).isSome then 1 else 0) = al.length := by
  unfold FMap.erase
  induction al with
  | nil => rfl
  | cons p al ih =>
    have d' := List.pairwise_cons.1 d
    rw [List.filter_cons]
    unfold FMap.lookup at *
    rw [List.find?_cons]
    cases hp : matcher p.1 k with
    | true =>
      have hn : al.filter (fun p => !matcher p.1 k) = al := by
        rw [List.filter_eq_self]
        intro q hq
        have := d'.1 q hq
        rw [match_eq ag hp] at this
        rw [match_comm ag, this]
        rfl
      simp [hn]
    | false =>
      have := ih d'.2
      simp only [Bool.not_false, if_true, List.length_cons]
      omega

/-! ### The representation -/

/-- The entries in the buckets `bs` stand for the finite map `al`. -/
structure Core (hasher : K → Int) (matcher : K → K → Bool) (ents : List (K × V)) (bs : List (LList Nat))
    (al : List (K × V)) : Prop where
  table : Table hasher ents bs
  dist : ∀ {e e' : Nat} {x x' : K × V}, In bs e → In bs e' → ents[e]? = some x → ents[e']? = some x' →
    matcher x.1 x'.1 = true → e = e'
  abs : ∀ k v, FMap.lookup matcher al k = some v ↔ ∃ e x, In bs e ∧ ents[e]? = some x ∧ matcher x.1 k = true ∧ x.2 = v

/-- The map object `s` stands for the finite map `al` after at most `n` operations. -/
structure Rep (hasher : K → Int) (matcher : K → K → Bool) (s : MapSt K V) (bs : List (LList Nat)) (al : List (K × V))
    (n : Nat) : Prop extends Core hasher matcher s.ents bs al where
  arr : s.arrs[s.buckets]? = some bs
  low : 16 ≤ bs.length
  high : bs.length ≤ 16 + 4 * n
  thr : s.threshold = bs.length - bs.length / 4
  size : s.size = al.length
  alen : al.length ≤ n
  distinct : Distinct matcher al

theorem Core.update (ag : Agree hasher matcher) {ents : List (K × V)} {bs : List (LList Nat)} {al : List (K × V)}
    (c : Core hasher matcher ents bs al) {e : Nat} {x : K × V} {key : K} (he : In bs e) (hx : ents[e]? = some x)
    (hm : matcher x.1 key = true) (v : V) :
    Core hasher matcher (ents.set e (x.1, v)) bs (FMap.insert matcher al key v) := by
  have hlt := (List.getElem?_eq_some_iff.1 hx).1
  -- what an entry is afterwards
  have fwd : ∀ {e' : Nat} {y : K × V}, ents[e']? = some y →
      (ents.set e (x.1, v))[e']? = some (if e' = e then (x.1, v) else y) := by
    intro e' y hy
    by_cases h : e' = e
    · subst h; rw [List.getElem?_set_self hlt, if_pos rfl]
    · rw [List.getElem?_set_ne (Ne.symm h), if_neg h, hy]
  have bwd : ∀ {e' : Nat} {y : K × V}, (ents.set e (x.1, v))[e']? = some y →
      ∃ y0, ents[e']? = some y0 ∧ y0.1 = y.1 ∧ y = if e' = e then (x.1, v) else y0 := by
    intro e' y hy
    by_cases h : e' = e
    · subst h
      rw [List.getElem?_set_self hlt] at hy
      cases hy
      exact ⟨x, hx, rfl, by rw [if_pos rfl]⟩
    · rw [List.getElem?_set_ne (Ne.symm h)] at hy
      exact ⟨y, hy, rfl, by rw [if_neg h]⟩
  refine ⟨⟨fun hb he' => ?_, c.table.nodup⟩, ?_, ?_⟩
  · obtain ⟨y, hy, hi⟩ := c.table.placed hb he'
    refine ⟨_, fwd hy, ?_⟩
    split
    · rename_i h; subst h; rw [hx] at hy; cases hy; exact hi
    · exact hi
  · intro e1 e2 y1 y2 h1 h2 g1 g2 hmm
    obtain ⟨z1, a1, a2, -⟩ := bwd g1
    obtain ⟨z2, b1, b2, -⟩ := bwd g2
    exact c.dist h1 h2 a1 b1 (by rw [a2, b2]; exact hmm)
  · intro k w
    rw [FMap.lookup_insert ag]
    by_cases hk : matcher key k = true
    · rw [if_pos hk]
      constructor
      · intro h
        cases h
        exact ⟨e, (x.1, v), he, by rw [fwd hx, if_pos rfl], ag.trans hm hk, rfl⟩
      · rintro ⟨e', y, h1, h2, h3, h4⟩
        obtain ⟨y0, a1, a2, a3⟩ := bwd h2
        have : e' = e := c.dist h1 he a1 hx (by rw [a2]; exact ag.trans h3 (ag.symm (ag.trans hm hk)))
        rw [if_pos this] at a3
        rw [← h4, a3]
    · rw [if_neg hk, c.abs]
      constructor
      · rintro ⟨e', y, h1, h2, h3, h4⟩
        have : e' ≠ e := by
          intro h; subst h
          rw [hx] at h2; cases h2
          exact hk (ag.trans (ag.symm hm) h3)
        exact ⟨e', y, h1, by rw [fwd h2, if_neg this], h3, h4⟩
      · rintro ⟨e', y, h1, h2, h3, h4⟩
        obtain ⟨y0, a1, a2, a3⟩ := bwd h2
        have : e' ≠ e := by
          intro h; subst h
          rw [hx] at a1; cases a1
          exact hk (ag.trans (ag.symm hm) (by rw [a2]; exact h3))
        rw [if_neg this] at a3
        subst a3
        exact ⟨e', y, h1, a1, h3, h4⟩

theorem Core.valid {ents : List (K × V)} {bs : List (LList Nat)} {al : List (K × V)} (c : Core hasher matcher ents bs al)
    {e : Nat} (he : In bs e) : ∃ x, ents[e]? = some x := by
  obtain ⟨i, b, hb, he⟩ := he
  obtain ⟨x, hx, -⟩ := c.table.placed hb he
  exact ⟨x, hx⟩

theorem Core.add (ag : Agree hasher matcher) {ents : List (K × V)} {bs : List (LList Nat)} {al : List (K × V)}
    (c : Core hasher matcher ents bs al) {key : K} (v : V) {b : LList Nat}
    (hb : bs[(hasher key).toNat % bs.length]? = some b) (hno : ∀ e, In bs e → hit matcher ents key e = false) :
    Core hasher matcher (ents ++ [(key, v)]) (bs.set ((hasher key).toNat % bs.length) (.element ents.length b))
      (FMap.insert matcher al key v) := by
  have hnew : (ents ++ [(key, v)])[ents.length]? = some (key, v) := by simp
  have hold : ∀ {e : Nat} {y : K × V}, ents[e]? = some y → (ents ++ [(key, v)])[e]? = some y := by
    intro e y hy
    rw [List.getElem?_append_left (List.getElem?_eq_some_iff.1 hy).1, hy]
  have hlt : ∀ {e : Nat}, In bs e → e < ents.length := by
    intro e he
    obtain ⟨x, hx⟩ := c.valid he
    exact (List.getElem?_eq_some_iff.1 hx).1
  have hback : ∀ {e : Nat} {y : K × V}, In bs e → (ents ++ [(key, v)])[e]? = some y → ents[e]? = some y := by
    intro e y he hy
    rwa [List.getElem?_append_left (hlt he)] at hy
  have hmiss : ∀ {e : Nat} {y : K × V}, In bs e → ents[e]? = some y → matcher y.1 key = false := by
    intro e y he hy
    have := hno e he
    unfold hit at this
    rw [hy] at this
    exact this
  have t0 : Table hasher (ents ++ [(key, v)]) bs :=
    ⟨fun hb he => by obtain ⟨x, h1, h2⟩ := c.table.placed hb he; exact ⟨x, hold h1, h2⟩, c.table.nodup⟩
  obtain ⟨t1, m1⟩ := t0.push hasher hb hnew rfl (fun he => by have := hlt he; omega)
  refine ⟨t1, ?_, ?_⟩
  · intro e1 e2 y1 y2 h1 h2 g1 g2 hmm
    rcases (m1 e1).1 h1 with rfl | h1 <;> rcases (m1 e2).1 h2 with rfl | h2
    · rfl
    · rw [hnew] at g1; cases g1
      have := hmiss h2 (hback h2 g2)
      rw [match_comm ag, hmm] at this
      cases this
    · rw [hnew] at g2; cases g2
      have := hmiss h1 (hback h1 g1)
      rw [hmm] at this
      cases this
    · exact c.dist h1 h2 (hback h1 g1) (hback h2 g2) hmm
  · intro k w
    rw [FMap.lookup_insert ag]
    by_cases hk : matcher key k = true
    · rw [if_pos hk]
      constructor
      · intro h; cases h
        exact ⟨ents.length, (key, v), (m1 _).2 (.inl rfl), hnew, hk, rfl⟩
      · rintro ⟨e', y, h1, h2, h3, h4⟩
        rcases (m1 e').1 h1 with rfl | h1
        · rw [hnew] at h2; cases h2; rw [← h4]
        · have := hmiss h1 (hback h1 h2)
          rw [ag.trans h3 (ag.symm hk)] at this
          cases this
    · rw [if_neg hk, c.abs]
      constructor
      · rintro ⟨e', y, h1, h2, h3, h4⟩
        exact ⟨e', y, (m1 e').2 (.inr h1), hold h2, h3, h4⟩
      · rintro ⟨e', y, h1, h2, h3, h4⟩
        rcases (m1 e').1 h1 with rfl | h1
        · rw [hnew] at h2; cases h2; exact absurd h3 hk
        · exact ⟨e', y, h1, hback h1 h2, h3, h4⟩

theorem Core.move {ents : List (K × V)} {bs bs' : List (LList Nat)} {al : List (K × V)}
    (c : Core hasher matcher ents bs al) (t : Table hasher ents bs') (h : ∀ e, In bs' e ↔ In bs e) :
    Core hasher matcher ents bs' al := by
  refine ⟨t, fun h1 h2 => c.dist ((h _).1 h1) ((h _).1 h2), fun k v => ?_⟩
  rw [c.abs]
  constructor
  · rintro ⟨e, x, h1, r⟩; exact ⟨e, x, (h e).2 h1, r⟩
  · rintro ⟨e, x, h1, r⟩; exact ⟨e, x, (h e).1 h1, r⟩

theorem mem_eraseP_uniq {p : Nat → Bool} {l : List Nat} (hd : l.Nodup)
    (hu : ∀ a ∈ l, ∀ b ∈ l, p a = true → p b = true → a = b) {e : Nat} : e ∈ l.eraseP p ↔ e ∈ l ∧ p e = false := by
  induction l with
  | nil => simp
  | cons a l ih =>
    have hd' := List.nodup_cons.1 hd
    rw [List.eraseP_cons]
    cases ha : p a with
    | true =>
      simp only [cond_true, List.mem_cons]
      constructor
      · intro he
        refine ⟨.inr he, ?_⟩
        cases hp : p e with
        | false => rfl
        | true =>
          have := hu a (by simp) e (by simp [he]) ha hp
          subst this
          exact absurd he hd'.1
      · rintro ⟨rfl | he, hp⟩
        · rw [ha] at hp; cases hp
        · exact he
    | false =>
      simp only [cond_false, List.mem_cons]
      rw [ih hd'.2 (fun x hx y hy => hu x (by simp [hx]) y (by simp [hy]))]
      constructor
      · rintro (rfl | ⟨h1, h2⟩)
        · exact ⟨.inl rfl, ha⟩
        · exact ⟨.inr h1, h2⟩
      · rintro ⟨rfl | h1, h2⟩
        · exact .inl rfl
        · exact .inr ⟨h1, h2⟩

theorem Core.bucket (ag : Agree hasher matcher) {ents : List (K × V)} {bs : List (LList Nat)} {al : List (K × V)}
    (c : Core hasher matcher ents bs al) {key : K} {e i : Nat} {b : LList Nat} (hb : bs[i]? = some b) (he : e ∈ b.els)
    (hh : hit matcher ents key e = true) : i = (hasher key).toNat % bs.length := by
  obtain ⟨x, hx, hi⟩ := c.table.placed hb he
  unfold hit at hh
  rw [hx] at hh
  simp only [] at hh
  rw [ag.hash hh] at hi
  exact hi.symm

theorem Core.erase (ag : Agree hasher matcher) {ents : List (K × V)} {bs : List (LList Nat)} {al : List (K × V)}
    (c : Core hasher matcher ents bs al) {key : K} {b b' : LList Nat}
    (hb : bs[(hasher key).toNat % bs.length]? = some b) (hb' : b'.els = b.els.eraseP (hit matcher ents key)) :
    Core hasher matcher ents (bs.set ((hasher key).toNat % bs.length) b') (FMap.erase matcher al key) := by
  have hlt := (List.getElem?_eq_some_iff.1 hb).1
  have hmatch : ∀ {e : Nat} {x : K × V}, ents[e]? = some x → hit matcher ents key e = matcher x.1 key := by
    intro e x hx; unfold hit; rw [hx]
  have hu : ∀ a ∈ b.els, ∀ a' ∈ b.els, hit matcher ents key a = true → hit matcher ents key a' = true → a = a' := by
    intro a ha a' ha' h1 h2
    have i1 : In bs a := ⟨_, b, hb, ha⟩
    have i2 : In bs a' := ⟨_, b, hb, ha'⟩
    obtain ⟨x, hx⟩ := c.valid i1
    obtain ⟨x', hx'⟩ := c.valid i2
    rw [hmatch hx] at h1
    rw [hmatch hx'] at h2
    exact c.dist i1 i2 hx hx' (ag.trans h1 (ag.symm h2))
  have hin : ∀ e, In (bs.set ((hasher key).toNat % bs.length) b') e ↔ In bs e ∧ hit matcher ents key e = false := by
    intro e
    rw [In.set hb, hb', mem_eraseP_uniq (c.table.nodup hb) hu]
    constructor
    · rintro (⟨h1, h2⟩ | ⟨j, d, hj, hd, he⟩)
      · exact ⟨⟨_, b, hb, h1⟩, h2⟩
      · refine ⟨⟨j, d, hd, he⟩, ?_⟩
        cases hh : hit matcher ents key e with
        | false => rfl
        | true => exact absurd (c.bucket ag hd he hh) hj
    · rintro ⟨⟨j, d, hd, he⟩, h2⟩
      by_cases hj : j = (hasher key).toNat % bs.length
      · subst hj; rw [hb] at hd; cases hd; exact .inl ⟨he, h2⟩
      · exact .inr ⟨j, d, hj, hd, he⟩
  refine ⟨⟨?_, ?_⟩, ?_, ?_⟩
  · intro i d e hd he
    rw [List.length_set]
    by_cases hi : i = (hasher key).toNat % bs.length
    · subst hi
      rw [List.getElem?_set_self hlt] at hd
      cases hd
      rw [hb'] at he
      exact c.table.placed hb (List.mem_of_mem_eraseP he)
    · rw [List.getElem?_set_ne (Ne.symm hi)] at hd
      exact c.table.placed hd he
  · intro i d hd
    by_cases hi : i = (hasher key).toNat % bs.length
    · subst hi
      rw [List.getElem?_set_self hlt] at hd
      cases hd
      rw [hb']
      exact List.Nodup.sublist List.eraseP_sublist (c.table.nodup hb)
    · rw [List.getElem?_set_ne (Ne.symm hi)] at hd
      exact c.table.nodup hd
  · intro e1 e2 y1 y2 h1 h2
    exact c.dist ((hin e1).1 h1).1 ((hin e2).1 h2).1
  · intro k w
    rw [FMap.lookup_erase ag]
    by_cases hk : matcher key k = true
    · rw [if_pos hk]
      constructor
      · intro h; cases h
      · rintro ⟨e, x, h1, h2, h3, -⟩
        have := ((hin e).1 h1).2
        rw [hmatch h2, ag.trans h3 (ag.symm hk)] at this
        cases this
    · rw [if_neg hk, c.abs]
      constructor
      · rintro ⟨e, x, h1, h2, h3, h4⟩
        refine ⟨e, x, (hin e).2 ⟨h1, ?_⟩, h2, h3, h4⟩
        rw [hmatch h2]
        cases hm : matcher x.1 key with
        | false => rfl
        | true => exact absurd (ag.trans (ag.symm hm) h3) hk
      · rintro ⟨e, x, h1, r⟩
        exact ⟨e, x, ((hin e).1 h1).1, r⟩

theorem Rep.bucket (ag : Agree hasher matcher) {s : MapSt K V} {bs : List (LList Nat)} {al : List (K × V)} {n : Nat}
    (r : Rep hasher matcher s bs al n) (key : K) :
    ∃ b, bs[(hasher key).toNat % bs.length]? = some b ∧
      ∀ e, In bs e → hit matcher s.ents key e = true → e ∈ b.els := by
  have hlt : (hasher key).toNat % bs.length < bs.length := Nat.mod_lt _ (by have := r.low; omega)
  refine ⟨_, List.getElem?_eq_getElem hlt, ?_⟩
  rintro e ⟨i, b, hb, he⟩ hhit
  have := r.toCore.bucket ag hb he hhit
  subst this
  have h2 := List.getElem?_eq_getElem hlt
  rw [hb] at h2
  cases h2
  exact he

theorem index_does (ag : Agree hasher matcher) (hn : ∀ k, 0 ≤ hasher k) {s : MapSt K V} {bs : List (LList Nat)}
    {al : List (K × V)} {n : Nat} (r : Rep hasher matcher s bs al n) (hb : n ≤ 2 ^ 57) (key : K) :
    Does (indexFor hasher key) s (((hasher key).toNat % bs.length : Nat) : Int) s := by
  have := r.low
  have := r.high
  exact (Does.get).bind ((Does.arrLen r.arr).bind (mapMod_does (ag.int key) (hn key) (by omega) (by omega)))

theorem search_does (ag : Agree hasher matcher) (hn : ∀ k, 0 ≤ hasher k) {s : MapSt K V} {bs : List (LList Nat)}
    {al : List (K × V)} {n : Nat} (r : Rep hasher matcher s bs al n) (hb : n ≤ 2 ^ 57) (key : K) :
    ∃ o, Does (search hasher matcher key) s o s ∧
      ((∃ e x, o = .left e ∧ In bs e ∧ s.ents[e]? = some x ∧ matcher x.1 key = true ∧ FMap.lookup matcher al key = some x.2) ∨
       (o = .right (((hasher key).toNat % bs.length : Nat) : Int) ∧ FMap.lookup matcher al key = none ∧
        ∀ e, In bs e → hit matcher s.ents key e = false)) := by
  obtain ⟨b, hb1, hb2⟩ := r.bucket ag key
  obtain ⟨o, f1, f2⟩ := find_does (s := s) (key := key) matcher b (fun e he => r.valid ⟨_, b, hb1, he⟩)
  have hidx := index_does ag hn r hb key
  rcases f2 with ⟨rfl, f2⟩ | ⟨e, rfl, f2, f3⟩
  · refine ⟨_, hidx.bind ((Does.get).bind ((Does.arrGet r.arr hb1).bind (f1.bind ((Does.pure _).bind (Does.pure _))))), .inr ?_⟩
    have hno : ∀ e, In bs e → hit matcher s.ents key e = false := by
      intro e he
      cases h : hit matcher s.ents key e with
      | false => rfl
      | true => exact absurd (f2 e (hb2 e he h)) (by rw [h]; simp)
    refine ⟨rfl, ?_, hno⟩
    cases hl : FMap.lookup matcher al key with
    | none => rfl
    | some v =>
      obtain ⟨e, x, h1, h2, h3, -⟩ := (r.abs key v).1 hl
      have := hno e h1
      unfold hit at this
      rw [h2] at this
      exact absurd h3 (by simpa using this)
  · obtain ⟨x, hx⟩ := r.valid ⟨_, b, hb1, f2⟩
    have hm : matcher x.1 key = true := by
      unfold hit at f3; rw [hx] at f3; exact f3
    refine ⟨_, hidx.bind ((Does.get).bind ((Does.arrGet r.arr hb1).bind (f1.bind
      (Does.bind (a := .some (.left e)) ((Does.pure _).bind (Does.pure _)) (Does.pure _))))), .inl ⟨e, x, rfl, ⟨_, b, hb1, f2⟩, hx, hm, ?_⟩⟩
    exact (r.abs key x.2).2 ⟨e, x, ⟨_, b, hb1, f2⟩, hx, hm, rfl⟩

theorem Rep.keep {s : MapSt K V} {bs : List (LList Nat)} {al : List (K × V)} {n : Nat} (r : Rep hasher matcher s bs al n) :
    Rep hasher matcher s bs al (n + 1) :=
  { r with high := by have := r.high; omega, alen := by have := r.alen; omega }

theorem get_does (ag : Agree hasher matcher) (hn : ∀ k, 0 ≤ hasher k) {s : MapSt K V} {bs : List (LList Nat)}
    {al : List (K × V)} {n : Nat} (r : Rep hasher matcher s bs al n) (hb : n ≤ 2 ^ 57) (key : K) :
    Does (mapGet hasher matcher key) s (optOf (FMap.lookup matcher al key)) s := by
  obtain ⟨o, d, h⟩ := search_does ag hn r hb key
  rcases h with ⟨e, x, rfl, h1, h2, h3, h4⟩ | ⟨rfl, h1, -⟩
  · rw [h4]
    exact d.bind ((Does.ent h2).bind (Does.pure _))
  · rw [h1]
    exact d.bind (Does.pure _)

theorem put_does (ag : Agree hasher matcher) (hn : ∀ k, 0 ≤ hasher k) {s : MapSt K V} {bs : List (LList Nat)}
    {al : List (K × V)} {n : Nat} (r : Rep hasher matcher s bs al n) (hb : n < 2 ^ 57) (key : K) (v : V) :
    ∃ s' bs', Does (Lib.put hasher matcher key v) s (optOf (FMap.lookup matcher al key)) s' ∧
      Rep hasher matcher s' bs' (FMap.insert matcher al key v) (n + 1) := by
  have hlow := r.low
  have hhigh := r.high
  have halen := r.alen
  obtain ⟨o, d, h⟩ := search_does ag hn r (by omega) key
  rcases h with ⟨e, x, rfl, h1, h2, h3, h4⟩ | ⟨rfl, h1, h2⟩
  · refine ⟨{ s with ents := s.ents.set e (x.1, v) }, bs, ?_, ?_⟩
    · rw [h4]
      exact d.bind ((Does.ent h2).bind ((Does.setValue h2 v).bind (Does.pure _)))
    · have hl : (FMap.insert matcher al key v).length = al.length := by rw [FMap.length_insert, h4]; simp
      exact { toCore := r.toCore.update ag h1 h2 h3 v, arr := r.arr, low := hlow, high := by omega, thr := r.thr,
              size := by rw [hl]; exact r.size, alen := by omega, distinct := r.distinct.insert ag key v }
  · obtain ⟨b, hb1, -⟩ := r.bucket ag key
    have hlt := (List.getElem?_eq_some_iff.1 hb1).1
    have halt := (List.getElem?_eq_some_iff.1 r.arr).1
    have core := r.toCore.add ag v hb1 h2
    have hl : (FMap.insert matcher al key v).length = al.length + 1 := by rw [FMap.length_insert, h1]; simp
    let bs1 := bs.set ((hasher key).toNat % bs.length) (.element s.ents.length b)
    have hlen1 : bs1.length = bs.length := List.length_set
    let s1 : MapSt K V := { s with ents := s.ents ++ [(key, v)], arrs := s.arrs.set s.buckets bs1, size := s.size + 1 }
    have harr1 : s1.arrs[s1.buckets]? = some bs1 := List.getElem?_set_self halt
    have hsz : wrap (s.size + 1) = s.size + 1 := by rw [r.size]; exact wrap_eq ⟨by omega, by omega⟩
    -- everything up to the test of the size
    have pre : ∀ {a : Opt V} {s2 : MapSt K V}, Does (do
        let s ← MonadState.get
        let s' ← MonadState.get
        if s.size > s'.threshold then resize hasher
        return a : MM K V (Opt V)) s1 a s2 → a = .none → Does (Lib.put hasher matcher key v) s .none s2 := by
      intro a s2 h ha
      subst ha
      refine d.bind ((Does.get).bind ((Does.arrGet r.arr hb1).bind ?_))
      have hne : Does (newEnt key v) s s.ents.length { s with ents := s.ents ++ [(key, v)] } := rfl
      refine hne.bind ((Does.get).bind ?_)
      refine (Does.arrSet (s := { s with ents := s.ents ++ [(key, v)] }) r.arr hlt _).bind ((Does.modify _).bind ?_)
      simp only [hsz]
      exact h
    rw [h1]
    by_cases hbig : s1.size > s1.threshold
    · obtain ⟨s2, bs2, e1, e2, e3, e4, e5, e6, e7, e8⟩ := resize_does (s := s1) hasher (fun k => ⟨hn k, ag.int k⟩) harr1 core.table
        (by omega) (by omega)
      refine ⟨s2, bs2, pre ?_ rfl, ?_⟩
      · refine (Does.get).bind ((Does.get).bind ?_)
        rw [if_pos hbig]
        exact e1.bind (Does.pure _)
      · have hth : s1.threshold = bs.length - bs.length / 4 := r.thr
        have hss : s1.size = al.length + 1 := by show s.size + 1 = _; rw [r.size]
        have c2 : Core hasher matcher s2.ents bs2 (FMap.insert matcher al key v) := by
          rw [e2]; exact core.move e7 e8
        exact { toCore := c2, arr := e4, low := by omega, high := by omega, thr := e6,
                size := by rw [e3, hss, hl]; omega, alen := by omega, distinct := r.distinct.insert ag key v }
    · refine ⟨s1, bs1, pre ?_ rfl, ?_⟩
      · refine (Does.get).bind ((Does.get).bind ?_)
        rw [if_neg hbig]
        exact Does.pure _
      · exact { toCore := core, arr := harr1, low := by omega, high := by omega,
                thr := by rw [hlen1]; exact r.thr, size := by show s.size + 1 = _; rw [r.size, hl]; omega,
                alen := by omega, distinct := r.distinct.insert ag key v }

theorem remove_does (ag : Agree hasher matcher) (hn : ∀ k, 0 ≤ hasher k) {s : MapSt K V} {bs : List (LList Nat)}
    {al : List (K × V)} {n : Nat} (r : Rep hasher matcher s bs al n) (hb : n < 2 ^ 57) (key : K) :
    ∃ s' bs', Does (Lib.mapRemove hasher matcher key) s (optOf (FMap.lookup matcher al key)) s' ∧
      Rep hasher matcher s' bs' (FMap.erase matcher al key) (n + 1) := by
  have hlow := r.low
  have hhigh := r.high
  have halen := r.alen
  obtain ⟨b, hb1, hb2⟩ := r.bucket ag key
  have hlt := (List.getElem?_eq_some_iff.1 hb1).1
  have halt := (List.getElem?_eq_some_iff.1 r.arr).1
  obtain ⟨q, q1, q2, q3⟩ := Lib.remove_does (s := s) (key := key) matcher b (fun e he => r.valid ⟨_, b, hb1, he⟩)
  have core := r.toCore.erase ag hb1 q2
  let bs1 := bs.set ((hasher key).toNat % bs.length) q.1
  have hlen1 : bs1.length = bs.length := List.length_set
  let s1 : MapSt K V := { s with arrs := s.arrs.set s.buckets bs1 }
  have harr1 : s1.arrs[s1.buckets]? = some bs1 := List.getElem?_set_self halt
  have hlen := FMap.length_erase ag r.distinct key
  have pre : ∀ {a : Opt V} {s2 : MapSt K V}, Does (do
      let o ← q.2.peek fun _ => modify fun s => { s with size := wrap (s.size - 1) }
      o.map fun e => do return (← ent e).2 : MM K V (Opt V)) s1 a s2 → Does (Lib.mapRemove hasher matcher key) s a s2 := by
    intro a s2 h
    exact (index_does ag hn r (by omega) key).bind ((Does.get).bind ((Does.arrGet r.arr hb1).bind (q1.bind ((Does.get).bind
      ((Does.arrSet r.arr hlt _).bind h)))))
  cases hf : b.els.find? (hit matcher s.ents key) with
  | none =>
    have hnone : FMap.lookup matcher al key = none := by
      cases hl : FMap.lookup matcher al key with
      | none => rfl
      | some w =>
        obtain ⟨e, x, h1, h2, h3, -⟩ := (r.abs key w).1 hl
        have hh : hit matcher s.ents key e = true := by unfold hit; rw [h2]; exact h3
        have := List.find?_eq_none.1 hf e (hb2 e h1 hh)
        exact absurd hh this
    rw [hf] at q3
    rw [hnone] at hlen ⊢
    refine ⟨s1, bs1, pre ?_, ?_⟩
    · rw [q3]
      exact Does.bind (a := .none) ((Does.pure _).bind (Does.pure _)) (Does.pure _)
    · simp only [Option.isSome_none, Bool.false_eq_true, if_false, Nat.add_zero] at hlen
      exact { toCore := core, arr := harr1, low := by omega, high := by omega, thr := by rw [hlen1]; exact r.thr,
              size := by rw [hlen]; exact r.size, alen := by omega, distinct := r.distinct.erase key }
  | some e =>
    have he := List.mem_of_find?_eq_some hf
    have hh := List.find?_some hf
    obtain ⟨x, hx⟩ := r.valid ⟨_, b, hb1, he⟩
    have hm : matcher x.1 key = true := by unfold hit at hh; rw [hx] at hh; exact hh
    have hsome : FMap.lookup matcher al key = some x.2 := (r.abs key x.2).2 ⟨e, x, ⟨_, b, hb1, he⟩, hx, hm, rfl⟩
    rw [hf] at q3
    rw [hsome] at hlen ⊢
    simp only [Option.isSome_some, if_true] at hlen
    have hsz : wrap (s.size - 1) = s.size - 1 := by rw [r.size]; exact wrap_eq ⟨by omega, by omega⟩
    refine ⟨{ s1 with size := s.size - 1 }, bs1, pre ?_, ?_⟩
    · rw [q3]
      have : Does (modify fun s => { s with size := wrap (s.size - 1) } : MM K V PUnit) s1 ⟨⟩ { s1 with size := s.size - 1 } := by
        rw [← hsz]; exact Does.modify _
      have he2 : Does (do return (← ent e).2 : MM K V V) { s1 with size := s.size - 1 } x.2 { s1 with size := s.size - 1 } :=
        (Does.ent (s := { s1 with size := s.size - 1 }) hx).bind (Does.pure x.2)
      have he3 : Does ((Opt.some e).map fun e => do return (← ent e).2 : MM K V (Opt V)) { s1 with size := s.size - 1 } (.some x.2)
          { s1 with size := s.size - 1 } := he2.bind (Does.pure _)
      exact Does.bind (a := .some e) (this.bind (Does.pure _)) he3
    · exact { toCore := core, arr := harr1, low := by omega, high := by omega, thr := by rw [hlen1]; exact r.thr,
              size := by show s.size - 1 = _; rw [r.size]; omega, alen := by omega, distinct := r.distinct.erase key }

theorem step_does (ag : Agree hasher matcher) (hn : ∀ k, 0 ≤ hasher k) {s : MapSt K V} {bs : List (LList Nat)}
    {al : List (K × V)} {n : Nat} (r : Rep hasher matcher s bs al n) (hb : n < 2 ^ 57) (op : MapOp K V) :
    ∃ s' bs', Does (op.run hasher matcher) s (op.answer matcher al) s' ∧ Rep hasher matcher s' bs' (op.after matcher al) (n + 1) := by
  cases op with
  | put k v =>
    obtain ⟨s', bs', d, h⟩ := put_does ag hn r hb k v
    exact ⟨s', bs', d.bind (Does.pure _), h⟩
  | get k => exact ⟨s, bs, (get_does ag hn r (by omega) k).bind (Does.pure _), r.keep⟩
  | remove k =>
    obtain ⟨s', bs', d, h⟩ := remove_does ag hn r hb k
    exact ⟨s', bs', d.bind (Does.pure _), h⟩
  | contains k =>
    refine ⟨s, bs, ?_, r.keep⟩
    have h : Does (Lib.contains hasher matcher k) s (optOf (FMap.lookup matcher al k)).isSome s :=
      (get_does ag hn r (by omega) k).bind (Does.pure _)
    have e : (optOf (FMap.lookup matcher al k)).isSome = (FMap.lookup matcher al k).isSome := by
      cases FMap.lookup matcher al k <;> rfl
    rw [e] at h
    exact h.bind (Does.pure _)
  | orElse k v =>
    refine ⟨s, bs, ?_, r.keep⟩
    have h : Does (Lib.mapOrElse hasher matcher k v) s ((optOf (FMap.lookup matcher al k)).orElse v) s :=
      (get_does ag hn r (by omega) k).bind (Does.pure _)
    have e : (optOf (FMap.lookup matcher al k)).orElse v = (FMap.lookup matcher al k).getD v := by
      cases FMap.lookup matcher al k <;> rfl
    rw [e] at h
    exact h.bind (Does.pure _)
  | size =>
    refine ⟨s, bs, ?_, r.keep⟩
    have h : Does (MapOp.size.run hasher matcher : MM K V (Answer V)) s (.int s.size) s := (Does.get).bind (Does.pure _)
    rw [r.size] at h
    exact h

theorem newHashMap_rep : Rep hasher matcher (newHashMap : MapSt K V) (List.replicate 16 .empty) [] 0 := by
  have hget : ∀ {j : Nat} {b : LList Nat}, (List.replicate 16 LList.empty)[j]? = some b → b = .empty := by
    intro j b hb
    exact List.eq_of_mem_replicate (List.mem_of_getElem? hb)
  have hin : ∀ {e : Nat}, ¬ In (List.replicate 16 LList.empty) e := by
    rintro e ⟨j, b, hb, he⟩; rw [hget hb] at he; cases he
  refine { table := ⟨fun hb he => ?_, fun hb => ?_⟩, dist := fun h => absurd h hin, abs := fun k v => ?_, arr := rfl,
           low := by decide, high := by decide, thr := rfl, size := rfl, alen := by simp, distinct := List.Pairwise.nil }
  · rw [hget hb] at he; cases he
  · rw [hget hb]; exact List.nodup_nil
  · constructor
    · intro h; cases h
    · rintro ⟨e, x, h, -⟩; exact absurd h hin

theorem runOps_does (ag : Agree hasher matcher) (hn : ∀ k, 0 ≤ hasher k) (ops : List (MapOp K V)) {s : MapSt K V}
    {bs : List (LList Nat)} {al : List (K × V)} {n : Nat} (r : Rep hasher matcher s bs al n) (hb : n + ops.length ≤ 2 ^ 57) :
    ∃ s', Does (runOps hasher matcher ops) s (specOps matcher al ops) s' := by
  induction ops generalizing s bs al n with
  | nil => exact ⟨s, Does.pure _⟩
  | cons op ops ih =>
    rw [List.length_cons] at hb
    obtain ⟨s1, bs1, d1, r1⟩ := step_does ag hn r (by omega) op
    obtain ⟨s2, d2⟩ := ih r1 (by omega)
    exact ⟨s2, d1.bind (d2.bind (Does.pure _))⟩

end

/-! ### C46 -/

/-- For a matcher that is an equality and a hasher that respects it and is never negative: every history of at most 2^57
operations on a new map runs without a panic and gives the answers of the finite map.
What is missing: negative hashes; see `C46_violated`. -/
theorem C46_partial {hasher : K → Int} {matcher : K → K → Bool} (ag : Agree hasher matcher) (hn : ∀ k, 0 ≤ hasher k)
    (ops : List (MapOp K V)) (hl : ops.length ≤ 2 ^ 57) :
    ∃ s', Does (runOps hasher matcher ops) newHashMap (specOps matcher [] ops) s' :=
  runOps_does ag hn ops newHashMap_rep (by omega)

/-- The specification is a finite map: the laws of lookup, and the size counts the keys. -/
theorem C46_spec {hasher : K → Int} {matcher : K → K → Bool} (ag : Agree hasher matcher) (al : List (K × V))
    (d : Distinct matcher al) (k k' : K) (v : V) :
    FMap.lookup matcher [] k' = (none : Option V) ∧
    FMap.lookup matcher (FMap.insert matcher al k v) k' = (if matcher k k' then some v else FMap.lookup matcher al k') ∧
    FMap.lookup matcher (FMap.erase matcher al k) k' = (if matcher k k' then none else FMap.lookup matcher al k') ∧
    (FMap.insert matcher al k v).length = al.length + (if (FMap.lookup matcher al k).isSome then 0 else 1) ∧
    (FMap.erase matcher al k).length + (if (FMap.lookup matcher al k).isSome then 1 else 0) = al.length ∧
    Distinct matcher (FMap.insert matcher al k v) ∧ Distinct matcher (FMap.erase matcher al k) :=
  ⟨rfl, FMap.lookup_insert ag al k k' v, FMap.lookup_erase ag al k k', FMap.length_insert al k v, FMap.length_erase ag d k,
   d.insert ag k v, d.erase k⟩

/-- Keys are ints, the hasher keeps the last three bits so that buckets fill up: 40 puts, more than two resizes. -/
def exOps : List (MapOp Int Int) := (List.range 40).map (fun i => .put i (i * i)) ++ [.size, .get 7, .remove 7, .get 7, .size]

theorem exAgree : Agree (fun k : Int => k % 8) (fun a b => a == b) where
  refl := by simp
  symm := by simp
  trans := by intro a b c h1 h2; simp at *; omega
  hash := by intro a b h; simp at h; rw [h]
  int := by intro k; constructor <;> omega

example : ∃ s', Does (runOps (fun k : Int => k % 8) (fun a b => a == b) exOps) newHashMap (specOps (fun a b => a == b) [] exOps) s' :=
  C46_partial exAgree (fun k => by omega) exOps (by decide)

/-- The claim is false for hashers with negative results: already the first `put` panics. -/
theorem C46_violated : ∃ (hasher : Int → Int) (matcher : Int → Int → Bool), Agree hasher matcher ∧
    (put hasher matcher 5 (0 : Int)) newHashMap = .error .panic :=
  ⟨fun _ => -3, fun a b => a == b,
   { refl := by simp, symm := by simp, trans := by intro a b c h1 h2; simp at *; omega, hash := fun _ => rfl,
     int := fun _ => ⟨by omega, by omega⟩ }, rfl⟩

end Clara.Props
