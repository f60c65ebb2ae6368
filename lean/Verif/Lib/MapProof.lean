import Verif.Lib.Map
import Verif.Lib.NumberProof
/-
Facts about the library hash map.
-/
namespace Clara.Lib

section
variable {K V : Type} {α β : Type} {s s1 s2 : MapSt K V}

/-- The program `x` started in `s` ends with `a` in `s'`. -/
def Does (x : MM K V α) (s : MapSt K V) (a : α) (s' : MapSt K V) : Prop := x s = .ok (a, s')

theorem Does.bind {x : MM K V α} {f : α → MM K V β} {a : α} {b : β} (hx : Does x s a s1) (hf : Does (f a) s1 b s2) :
    Does (x >>= f) s b s2 := by
  unfold Does at *
  show (StateT.bind x f) s = _
  simp only [StateT.bind, hx]
  exact hf

theorem Does.pure (a : α) : Does (Pure.pure a : MM K V α) s a s := rfl
theorem Does.get : Does (MonadState.get : MM K V (MapSt K V)) s s s := rfl
theorem Does.modify (f : MapSt K V → MapSt K V) : Does (modify f : MM K V PUnit) s ⟨⟩ (f s) := rfl

theorem Does.ent {e : Nat} {x : K × V} (h : s.ents[e]? = some x) : Does (ent e) s x s := by
  unfold Does Lib.ent; rw [h]

theorem Does.arr {a : Nat} {x : List (LList Nat)} (h : s.arrs[a]? = some x) : Does (arr a) s x s := by
  unfold Does Lib.arr; rw [h]

theorem Does.arrLen {a : Nat} {x : List (LList Nat)} (h : s.arrs[a]? = some x) : Does (arrLen a) s x.length s :=
  (Does.arr h).bind (Does.pure _)

theorem Does.arrGet {a : Nat} {x : List (LList Nat)} {i : Nat} {b : LList Nat} (h : s.arrs[a]? = some x)
    (hb : x[i]? = some b) : Does (arrGet a i) s b s := by
  refine (Does.arr h).bind ?_
  rw [if_neg (by omega), Int.toNat_natCast, hb]
  exact Does.pure _

theorem Does.arrSet {a : Nat} {x : List (LList Nat)} {i : Nat} (h : s.arrs[a]? = some x) (hi : i < x.length) (b : LList Nat) :
    Does (arrSet a i b) s () { s with arrs := s.arrs.set a (x.set i b) } := by
  refine (Does.arr h).bind ?_
  rw [if_neg (by omega), Int.toNat_natCast, if_pos hi]
  exact Does.modify _

theorem Does.setValue {e : Nat} {x : K × V} (h : s.ents[e]? = some x) (v : V) :
    Does (setValue e v) s () { s with ents := s.ents.set e (x.1, v) } :=
  (Does.ent h).bind (Does.modify _)

/-- The elements of a list value. -/
def LList.els {T : Type} : LList T → List T
  | .element v l => v :: l.els
  | .empty => []

/-- `e` is in one of the buckets. -/
def In (bs : List (LList Nat)) (e : Nat) : Prop := ∃ (i : Nat) (b : LList Nat), bs[i]? = some b ∧ e ∈ b.els

theorem mapMod_does {i : Int} {m : Nat} (hi : IsInt i) (h0 : 0 ≤ i) (hm : 0 < m) (hm2 : m < 2 ^ 62) :
    Does (mapMod i m : MM K V Int) s ((i.toNat % m : Nat) : Int) s := by
  have key := imod_ends (h := {}) (i := i) (m := m) hi ⟨by omega, by omega⟩ (by omega)
  have e : wrap (i - wrap (wrap (i.tdiv m) * m)) = i.tmod m := by
    unfold imod idiv at key
    rw [if_neg (by omega)] at key
    have h2 : Ends (do return wrap (i - wrap ((← (pure (wrap (i.tdiv m)) : M Int)) * m))) {} (wrap (i - wrap (wrap (i.tdiv m) * m))) {} :=
      (Ends.pure _ _).bind (Ends.pure _ _)
    exact (Ends.det h2 key).1
  unfold mapMod
  rw [if_neg (by omega), e, Int.tmod_eq_emod_of_nonneg h0, show i % (m : Int) = ((i.toNat % m : Nat) : Int) by
    rw [Int.natCast_emod, Int.toNat_of_nonneg h0]]
  exact Does.pure _

variable (matcher : K → K → Bool)

/-- Whether the entry `e` has a key that matches. -/
def hit (ents : List (K × V)) (key : K) (e : Nat) : Bool :=
  match ents[e]? with
  | some x => matcher x.1 key
  | none => false

theorem pred_does {key : K} {e : Nat} {x : K × V} (h : s.ents[e]? = some x) :
    Does (do return ⟨matcher (← ent e).1 key⟩ : MM K V (ULift Bool)) s ⟨hit matcher s.ents key e⟩ s := by
  unfold hit
  rw [h]
  exact (Does.ent h).bind (Does.pure _)

theorem find_does {key : K} (l : LList Nat) (hv : ∀ e ∈ l.els, ∃ x, s.ents[e]? = some x) :
    ∃ o, Does (l.find (m := MM K V) fun e => do return ⟨matcher (← ent e).1 key⟩) s o s ∧
      ((o = .none ∧ ∀ e ∈ l.els, hit matcher s.ents key e = false) ∨
       ∃ e, o = .some e ∧ e ∈ l.els ∧ hit matcher s.ents key e = true) := by
  induction l with
  | empty => exact ⟨.none, Does.pure _, .inl ⟨rfl, fun e he => by cases he⟩⟩
  | element v l ih =>
    obtain ⟨x, hx⟩ := hv v (by simp [LList.els])
    have hp := pred_does (key := key) matcher hx
    cases hh : hit matcher s.ents key v with
    | true =>
      refine ⟨.some v, ?_, .inr ⟨v, rfl, by simp [LList.els], hh⟩⟩
      refine hp.bind ?_
      simp only [hh, if_true]
      exact Does.pure _
    | false =>
      obtain ⟨o, a, b⟩ := ih (fun e he => hv e (by simp [LList.els, he]))
      refine ⟨o, ?_, ?_⟩
      · refine hp.bind ?_
        simp only [hh, Bool.false_eq_true, if_false]
        exact a
      · rcases b with ⟨rfl, b⟩ | ⟨e, rfl, b1, b2⟩
        · refine .inl ⟨rfl, fun e he => ?_⟩
          rcases List.mem_cons.1 he with rfl | he
          · exact hh
          · exact b e he
        · exact .inr ⟨e, rfl, by simp [LList.els, b1], b2⟩

theorem reverse_els (l new : LList Nat) : (l.reverseLoop new).els = l.els.reverse ++ new.els := by
  induction l generalizing new with
  | empty => rfl
  | element v l ih => rw [LList.reverseLoop, ih]; simp [LList.els]

def toOpt {T : Type} : Option T → Opt T
  | some v => .some v
  | none => .none

theorem removeLoop_does {key : K} (l new : LList Nat) (val : Opt Nat) (hv : ∀ e ∈ l.els, ∃ x, s.ents[e]? = some x) :
    ∃ r, Does (l.removeLoop (m := MM K V) (fun e => do return ⟨matcher (← ent e).1 key⟩) new val) s r s ∧
      (match val with
        | .some w => r.1.els = l.els.reverse ++ new.els ∧ r.2 = .some w
        | .none => r.1.els = (l.els.eraseP (hit matcher s.ents key)).reverse ++ new.els ∧
            r.2 = toOpt (l.els.find? (hit matcher s.ents key))) := by
  induction l generalizing new val with
  | empty =>
    refine ⟨_, Does.pure _, ?_⟩
    cases val <;> exact ⟨rfl, rfl⟩
  | element v l ih =>
    obtain ⟨x, hx⟩ := hv v (by simp [LList.els])
    have hp := pred_does (key := key) matcher hx
    have hv' : ∀ e ∈ l.els, ∃ x, s.ents[e]? = some x := fun e he => hv e (by simp [LList.els, he])
    cases val with
    | some w =>
      obtain ⟨r, a, b⟩ := ih (.element v new) (.some w) hv'
      refine ⟨r, hp.bind ?_, ?_⟩
      · simp only [Opt.isNone, Bool.and_false, Bool.false_eq_true, if_false]
        exact a
      · simp only [LList.els, List.reverse_cons] at b ⊢
        exact ⟨by rw [b.1]; simp, b.2⟩
    | none =>
      cases hh : hit matcher s.ents key v with
      | true =>
        obtain ⟨r, a, b⟩ := ih new (.some v) hv'
        refine ⟨r, hp.bind ?_, ?_⟩
        · simp only [hh, Opt.isNone, Bool.and_true, if_true]
          exact a
        · simp only [LList.els, List.eraseP_cons, List.find?_cons, hh, cond_true]
          exact ⟨b.1, b.2⟩
      | false =>
        obtain ⟨r, a, b⟩ := ih (.element v new) .none hv'
        refine ⟨r, hp.bind ?_, ?_⟩
        · simp only [hh, Opt.isNone, Bool.and_true, Bool.false_eq_true, if_false]
          exact a
        · simp only [LList.els, List.eraseP_cons, List.find?_cons, hh, cond_false, List.reverse_cons] at b ⊢
          exact ⟨by rw [b.1]; simp, b.2⟩

theorem remove_does {key : K} (l : LList Nat) (hv : ∀ e ∈ l.els, ∃ x, s.ents[e]? = some x) :
    ∃ r, Does (l.remove (m := MM K V) fun e => do return ⟨matcher (← ent e).1 key⟩) s r s ∧
      r.1.els = l.els.eraseP (hit matcher s.ents key) ∧ r.2 = toOpt (l.els.find? (hit matcher s.ents key)) := by
  obtain ⟨r, a, b1, b2⟩ := removeLoop_does (key := key) matcher l .empty .none hv
  refine ⟨_, a.bind (Does.pure _), ?_, b2⟩
  show (r.1.reverseLoop .empty).els = _
  rw [reverse_els, b1]
  simp [LList.els]

/-! ### The table -/

variable (hasher : K → Int)

/-- The entries are in the buckets their keys hash to, each once. -/
structure Table (ents : List (K × V)) (bs : List (LList Nat)) : Prop where
  placed : ∀ {i : Nat} {b : LList Nat} {e : Nat}, bs[i]? = some b → e ∈ b.els →
    ∃ x, ents[e]? = some x ∧ (hasher x.1).toNat % bs.length = i
  nodup : ∀ {i : Nat} {b : LList Nat}, bs[i]? = some b → b.els.Nodup

theorem Table.flat {ents : List (K × V)} {bs : List (LList Nat)} (t : Table hasher ents bs) :
    (bs.flatMap LList.els).Nodup := by
  unfold List.Nodup
  rw [List.pairwise_flatMap]
  constructor
  · intro b hb
    obtain ⟨i, hi⟩ := List.mem_iff_getElem?.1 hb
    exact t.nodup hi
  · rw [List.pairwise_iff_getElem]
    intro i j hi hj hij x hx y hy e
    subst e
    obtain ⟨a, a1, a2⟩ := t.placed (List.getElem?_eq_getElem hi) hx
    obtain ⟨b, b1, b2⟩ := t.placed (List.getElem?_eq_getElem hj) hy
    rw [a1] at b1
    cases b1
    omega

theorem mem_flat {bs : List (LList Nat)} {e : Nat} : e ∈ bs.flatMap LList.els ↔ In bs e := by
  rw [List.mem_flatMap]
  constructor
  · rintro ⟨b, hb, he⟩
    obtain ⟨i, hi⟩ := List.mem_iff_getElem?.1 hb
    exact ⟨i, b, hi, he⟩
  · rintro ⟨i, b, hi, he⟩
    exact ⟨b, List.mem_iff_getElem?.2 ⟨i, hi⟩, he⟩

theorem In.set {bs : List (LList Nat)} {i : Nat} {b b' : LList Nat} (hb : bs[i]? = some b) {e : Nat} :
    In (bs.set i b') e ↔ (e ∈ b'.els ∨ ∃ j c, j ≠ i ∧ bs[j]? = some c ∧ e ∈ c.els) := by
  have hlt := (List.getElem?_eq_some_iff.1 hb).1
  constructor
  · rintro ⟨j, c, hj, he⟩
    by_cases hji : j = i
    · subst hji
      rw [List.getElem?_set_self hlt] at hj
      cases hj
      exact .inl he
    · rw [List.getElem?_set_ne (Ne.symm hji)] at hj
      exact .inr ⟨j, c, hji, hj, he⟩
  · rintro (he | ⟨j, c, hji, hj, he⟩)
    · exact ⟨i, b', List.getElem?_set_self hlt, he⟩
    · exact ⟨j, c, by rw [List.getElem?_set_ne (Ne.symm hji)]; exact hj, he⟩

/-- Adding a new entry to its bucket. -/
theorem Table.push {ents : List (K × V)} {bs : List (LList Nat)} (t : Table hasher ents bs) {i : Nat} {b : LList Nat}
    (hb : bs[i]? = some b) {e : Nat} {x : K × V} (hx : ents[e]? = some x) (hi : (hasher x.1).toNat % bs.length = i)
    (hn : ¬ In bs e) :
    Table hasher ents (bs.set i (.element e b)) ∧ ∀ e', In (bs.set i (.element e b)) e' ↔ e' = e ∨ In bs e' := by
  have hlt := (List.getElem?_eq_some_iff.1 hb).1
  refine ⟨⟨?_, ?_⟩, ?_⟩
  · intro j c e' hc he
    rw [List.length_set]
    by_cases hji : j = i
    · subst hji
      rw [List.getElem?_set_self hlt] at hc
      cases hc
      rcases List.mem_cons.1 he with rfl | he
      · exact ⟨x, hx, hi⟩
      · exact t.placed hb he
    · rw [List.getElem?_set_ne (Ne.symm hji)] at hc
      exact t.placed hc he
  · intro j c hc
    by_cases hji : j = i
    · subst hji
      rw [List.getElem?_set_self hlt] at hc
      cases hc
      exact List.nodup_cons.2 ⟨fun he => hn ⟨j, b, hb, he⟩, t.nodup hb⟩
    · rw [List.getElem?_set_ne (Ne.symm hji)] at hc
      exact t.nodup hc
  · intro e'
    rw [In.set hb]
    simp only [LList.els, List.mem_cons]
    constructor
    · rintro ((rfl | he) | ⟨j, c, -, hc, he⟩)
      · exact .inl rfl
      · exact .inr ⟨i, b, hb, he⟩
      · exact .inr ⟨j, c, hc, he⟩
    · rintro (rfl | ⟨j, c, hc, he⟩)
      · exact .inl (.inl rfl)
      · by_cases hji : j = i
        · subst hji; rw [hb] at hc; cases hc; exact .inl (.inr he)
        · exact .inr ⟨j, c, hji, hc, he⟩

theorem rehash_does {bs : List (LList Nat)} {new e : Nat} {x : K × V}
    (hh : ∀ k, 0 ≤ hasher k ∧ IsInt (hasher k)) (ha : s.arrs[new]? = some bs) (hl : 0 < bs.length) (hl2 : bs.length < 2 ^ 62)
    (t : Table hasher s.ents bs) (hx : s.ents[e]? = some x) (hn : ¬ In bs e) :
    ∃ bs', Does (rehash hasher new e) s ⟨⟩ { s with arrs := s.arrs.set new bs' } ∧ bs'.length = bs.length ∧
      Table hasher s.ents bs' ∧ ∀ e', In bs' e' ↔ e' = e ∨ In bs e' := by
  have hlt : (hasher x.1).toNat % bs.length < bs.length := Nat.mod_lt _ hl
  have hb := List.getElem?_eq_getElem hlt
  obtain ⟨t1, t2⟩ := t.push hasher hb hx rfl hn
  refine ⟨_, ?_, by simp, t1, t2⟩
  exact (Does.ent hx).bind ((Does.arrLen ha).bind ((mapMod_does (hh x.1).2 (hh x.1).1 hl hl2).bind
    ((Does.arrGet ha hb).bind (Does.arrSet ha hlt _))))

theorem foreach_does {new : Nat} (hh : ∀ k, 0 ≤ hasher k ∧ IsInt (hasher k)) (l : LList Nat) {bs : List (LList Nat)}
    (ha : s.arrs[new]? = some bs) (hl : 0 < bs.length) (hl2 : bs.length < 2 ^ 62) (t : Table hasher s.ents bs)
    (hv : ∀ e ∈ l.els, ∃ x, s.ents[e]? = some x) (hd : l.els.Nodup) (hn : ∀ e ∈ l.els, ¬ In bs e) :
    ∃ bs', Does (l.foreach (rehash hasher new)) s ⟨⟩ { s with arrs := s.arrs.set new bs' } ∧ bs'.length = bs.length ∧
      Table hasher s.ents bs' ∧ ∀ e', In bs' e' ↔ e' ∈ l.els ∨ In bs e' := by
  induction l generalizing s bs with
  | empty =>
    refine ⟨bs, ?_, rfl, t, fun e' => by simp [LList.els]⟩
    have : s.arrs.set new bs = s.arrs := by
      obtain ⟨hr, rfl⟩ := List.getElem?_eq_some_iff.1 ha
      rw [List.set_getElem_self]
    rw [this]
    exact Does.pure _
  | element v l ih =>
    obtain ⟨x, hx⟩ := hv v (by simp [LList.els])
    have hd' := List.nodup_cons.1 hd
    obtain ⟨b1, d1, l1, t1, m1⟩ := rehash_does hasher hh ha hl hl2 t hx (hn v (by simp [LList.els]))
    have hlt := (List.getElem?_eq_some_iff.1 ha).1
    obtain ⟨b2, d2, l2, t2, m2⟩ := ih (s := { s with arrs := s.arrs.set new b1 }) (bs := b1) (List.getElem?_set_self hlt)
      (by omega) (by omega) t1 (fun e he => hv e (by simp [LList.els, he])) hd'.2 (by
        intro e he hin
        rcases (m1 e).1 hin with rfl | hin
        · exact hd'.1 he
        · exact hn e (by simp [LList.els, he]) hin)
    refine ⟨b2, ?_, by omega, t2, ?_⟩
    · have := Does.bind (f := fun _ => _) d1 d2
      simp only [List.set_set] at this
      exact this
    · intro e'
      rw [m2, m1]
      simp only [LList.els, List.mem_cons]
      constructor
      · rintro (h | h | h)
        · exact .inl (.inr h)
        · exact .inl (.inl h)
        · exact .inr h
      · rintro ((h | h) | h)
        · exact .inr (.inl h)
        · exact .inl h
        · exact .inr (.inr h)

theorem resizeLoop_does {new : Nat} (hh : ∀ k, 0 ≤ hasher k ∧ IsInt (hasher k)) {old : List (LList Nat)} (n i : Nat)
    (hni : i + n = old.length) {bs : List (LList Nat)} (ho : s.arrs[s.buckets]? = some old) (hne : s.buckets ≠ new)
    (to : Table hasher s.ents old)
    (ha : s.arrs[new]? = some bs) (hl : 0 < bs.length) (hl2 : bs.length < 2 ^ 62) (t : Table hasher s.ents bs)
    (hin : ∀ e, In bs e ↔ e ∈ (old.take i).flatMap LList.els) :
    ∃ bs', Does (resizeLoop hasher new n i) s () { s with arrs := s.arrs.set new bs' } ∧ bs'.length = bs.length ∧
      Table hasher s.ents bs' ∧ ∀ e, In bs' e ↔ In old e := by
  induction n generalizing s bs i with
  | zero =>
    have : s.arrs.set new bs = s.arrs := by
      obtain ⟨hr, rfl⟩ := List.getElem?_eq_some_iff.1 ha
      rw [List.set_getElem_self]
    refine ⟨bs, ?_, rfl, t, fun e => ?_⟩
    · rw [this]; exact Does.pure _
    · rw [hin, List.take_of_length_le (by omega), mem_flat]
  | succ n ih =>
    have hi : i < old.length := by omega
    have hb := List.getElem?_eq_getElem hi
    have hflat := to.flat
    have hsplit : old.flatMap LList.els = (old.take i).flatMap LList.els ++ (old[i].els ++ (old.drop (i + 1)).flatMap LList.els) := by
      rw [← List.flatMap_cons, ← List.drop_eq_getElem_cons hi, ← List.flatMap_append, List.take_append_drop]
    rw [hsplit] at hflat
    have hdis := (List.nodup_append.1 hflat).2.2
    obtain ⟨b1, d1, l1, t1, m1⟩ := foreach_does hasher hh old[i] ha hl hl2 t
      (fun e he => by obtain ⟨x, hx, -⟩ := to.placed hb he; exact ⟨x, hx⟩) (to.nodup hb)
      (fun e he hin' => hdis e ((hin e).1 hin') e (List.mem_append_left _ he) rfl)
    have hlt := (List.getElem?_eq_some_iff.1 ha).1
    obtain ⟨b2, d2, l2, t2, m2⟩ := ih (s := { s with arrs := s.arrs.set new b1 }) (bs := b1) (i + 1) (by omega)
      (by simp only; rw [List.getElem?_set_ne (Ne.symm hne)]; exact ho) hne to (List.getElem?_set_self hlt) (by omega) (by omega) t1 (by
        intro e
        rw [m1, hin, show old.take (i + 1) = old.take i ++ [old[i]] by rw [List.take_add_one (l := old), hb]; rfl,
          List.flatMap_append, List.mem_append, or_comm]
        simp)
    refine ⟨b2, ?_, by omega, t2, m2⟩
    have := Does.bind (f := fun _ => _) d1 d2
    simp only [List.set_set] at this
    exact (Does.get).bind ((Does.arrGet ho hb).bind this)

theorem resize_does (hh : ∀ k, 0 ≤ hasher k ∧ IsInt (hasher k)) {old : List (LList Nat)}
    (ho : s.arrs[s.buckets]? = some old) (to : Table hasher s.ents old) (hl : 0 < old.length) (hl2 : old.length < 2 ^ 60) :
    ∃ s' bs', Does (resize hasher) s () s' ∧ s'.ents = s.ents ∧ s'.size = s.size ∧ s'.arrs[s'.buckets]? = some bs' ∧
      bs'.length = 2 * old.length ∧ s'.threshold = bs'.length - bs'.length / 4 ∧ Table hasher s.ents bs' ∧
      ∀ e, In bs' e ↔ In old e := by
  have hlt := (List.getElem?_eq_some_iff.1 ho).1
  let bs0 : List (LList Nat) := List.replicate (2 * old.length) .empty
  let s1 : MapSt K V := { s with arrs := s.arrs ++ [bs0] }
  have hsh : ishl (old.length : Int) 1 = ((2 * old.length : Nat) : Int) := by
    unfold ishl
    rw [wrap_eq ⟨by omega, by omega⟩]
    omega
  have hnew : Does (createBuckets (ishl (old.length : Int) 1)) s s.arrs.length s1 := by
    unfold Does createBuckets
    rw [hsh, if_neg (by omega), Int.toNat_natCast]
  have ho1 : s1.arrs[s1.buckets]? = some old := by
    show (s.arrs ++ [bs0])[s.buckets]? = _
    rw [List.getElem?_append_left hlt]
    exact ho
  have ha1 : s1.arrs[s.arrs.length]? = some bs0 := by
    show (s.arrs ++ [bs0])[s.arrs.length]? = _
    simp
  have hget : ∀ {j : Nat} {b : LList Nat}, bs0[j]? = some b → b = .empty := by
    intro j b hb
    exact List.eq_of_mem_replicate (List.mem_of_getElem? hb)
  have t0 : Table hasher s1.ents bs0 := by
    refine ⟨fun hb he => ?_, fun hb => ?_⟩
    · rw [hget hb] at he; cases he
    · rw [hget hb]; exact List.nodup_nil
  have hl0 : bs0.length = 2 * old.length := by simp [bs0]
  obtain ⟨bs', d, l', t', m'⟩ := resizeLoop_does (s := s1) (new := s.arrs.length) hasher hh old.length 0 (by omega) ho1
    (by show s.buckets ≠ _; omega) to ha1 (by omega) (by omega) t0 (by
      intro e
      constructor
      · rintro ⟨j, b, hb, he⟩; rw [hget hb] at he; cases he
      · intro he; cases he)
  have ha2 : (s1.arrs.set s.arrs.length bs')[s.arrs.length]? = some bs' := by
    rw [List.getElem?_set_self]
    show s.arrs.length < (s.arrs ++ [bs0]).length
    simp
  refine ⟨{ s1 with arrs := s1.arrs.set s.arrs.length bs', threshold := threshold bs'.length, buckets := s.arrs.length }, bs',
    ?_, rfl, rfl, ha2, by omega, ?_, t', m'⟩
  · unfold resize
    refine (Does.get).bind ((Does.arrLen ho).bind (hnew.bind ((Does.get).bind ((Does.arrLen ho1).bind ?_))))
    rw [Int.toNat_natCast]
    exact d.bind ((Does.arrLen (s := { s1 with arrs := s1.arrs.set s.arrs.length bs' }) ha2).bind ((Does.modify _).bind (Does.modify _)))
  · simp only
    unfold threshold
    rw [wrap_eq ⟨by omega, by omega⟩]

end

end Clara.Lib
