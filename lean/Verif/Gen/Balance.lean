import Verif.Gen.Depth
/-
The depth check in terms of positions in the code.
-/
namespace Clara.Gen

def Ev.jumps (l : Label) : Ev → Bool
  | .ins (.jmp l') | .ins (.jcc _ l') => decide (l' = l)
  | _ => false

/-- `dep` assigns a stack depth to every position of the code of a function with `F` slots: it starts and
ends with the frame, every instruction changes it as `Ev.depth` says (so that every call is at an even
depth, nothing is popped from the frame and nothing but frame slots is addressed), and jumps within the
function go to positions with the same depth. -/
structure Balanced (F : Nat) (c : List Ev) (dep : Nat → Int) : Prop where
  start : dep 0 = F
  stop : dep c.length = F
  step : ∀ (i : Nat) (e : Ev), c[i]? = some e → e.depth F (dep i) = some (dep (i + 1))
  jump : ∀ (i j : Nat) (e : Ev) (l : Label), c[i]? = some e → e.jumps l = true → c[j]? = some (.label l) → dep i = dep j
  target : ∀ (i : Nat) (e : Ev) (l : Label), c[i]? = some e → e.jumps l = true → l = .ioob ∨ ∃ j : Nat, c[j]? = some (.label l)

theorem track_split {F : Int} {a b : List Ev} {d : Int} {t : Tr} (h : track F (a ++ b) d = some t) :
    ∃ t1 t2, track F a d = some t1 ∧ track F b t1.stop = some t2 ∧
      t = ⟨t2.stop, t1.uses ++ t2.uses, t1.defs ++ t2.defs⟩ := by
  induction a generalizing d t with
  | nil => exact ⟨⟨d, [], []⟩, t, rfl, h, rfl⟩
  | cons x a ih =>
    simp only [List.cons_append, track] at h
    cases hx : x.depth F d with
    | none => rw [hx] at h; cases h
    | some k =>
      rw [hx] at h
      simp only at h
      cases ht : track F (a ++ b) k with
      | none => rw [ht] at h; cases h
      | some t' =>
        rw [ht] at h
        simp only [Option.some.injEq] at h
        obtain ⟨t1, t2, h1, h2, h3⟩ := ih ht
        refine ⟨⟨t1.stop, x.uses d ++ t1.uses, x.defs d ++ t1.defs⟩, t2, ?_, h2, ?_⟩
        · simp only [track, hx, h1]
        · rw [← h, h3]; simp

/-- Depth at a position. -/
def depthAt (F : Int) (c : List Ev) (d : Int) (i : Nat) : Int :=
  match track F (c.take i) d with
  | some t => t.stop
  | none => 0

theorem depthAt_split {F : Int} {a b : List Ev} {d : Int} {t1 : Tr} (h : track F a d = some t1) :
    depthAt F (a ++ b) d a.length = t1.stop := by
  rw [depthAt, List.take_left, h]

theorem split_at {α : Type} {c : List α} {i : Nat} {e : α} (h : c[i]? = some e) :
    ∃ a b, c = a ++ e :: b ∧ a.length = i := by
  obtain ⟨hl, rfl⟩ := List.getElem?_eq_some_iff.1 h
  refine ⟨c.take i, c.drop (i + 1), ?_, ?_⟩
  · simp
  · rw [List.length_take]; omega

theorem track_at {F : Int} {c : List Ev} {d : Int} {t : Tr} (h : track F c d = some t) {i : Nat} {e : Ev}
    (hi : c[i]? = some e) :
    e.depth F (depthAt F c d i) = some (depthAt F c d (i + 1)) ∧
    (∀ p ∈ e.uses (depthAt F c d i), p ∈ t.uses) := by
  obtain ⟨a, b, rfl, rfl⟩ := split_at hi
  obtain ⟨t1, t2, h1, h2, h3⟩ := track_split h
  rw [depthAt_split h1]
  simp only [track] at h2
  cases hx : e.depth F t1.stop with
  | none => rw [hx] at h2; cases h2
  | some k =>
    rw [hx] at h2
    simp only at h2
    cases ht : track F b k with
    | none => rw [ht] at h2; cases h2
    | some t' =>
      rw [ht] at h2
      simp only [Option.some.injEq] at h2
      have h4 : track F (a ++ [e]) d = some ⟨k, t1.uses ++ (e.uses t1.stop ++ []), t1.defs ++ (e.defs t1.stop ++ [])⟩ :=
        track_append a [e] d h1 (by simp only [track, hx])
      have h5 := depthAt_split (b := b) h4
      simp only [List.append_assoc, List.cons_append, List.nil_append, List.length_append, List.length_cons,
        List.length_nil] at h5
      refine ⟨by rw [h5], ?_⟩
      intro p hp
      rw [h3, ← h2]
      simp [hp]

theorem track_defs {F : Int} {c : List Ev} {d : Int} {t : Tr} (h : track F c d = some t) {l : Label} {k : Int}
    (hp : (l, k) ∈ t.defs) : ∃ j : Nat, c[j]? = some (.label l) ∧ depthAt F c d j = k := by
  induction c generalizing d t with
  | nil => simp only [track, Option.some.injEq] at h; rw [← h] at hp; simp at hp
  | cons x c ih =>
    have h0 := h
    simp only [track] at h
    cases hx : x.depth F d with
    | none => rw [hx] at h; cases h
    | some k' =>
      rw [hx] at h
      simp only at h
      cases ht : track F c k' with
      | none => rw [ht] at h; cases h
      | some t' =>
        rw [ht] at h
        simp only [Option.some.injEq] at h
        rw [← h] at hp
        simp only [List.mem_append] at hp
        rcases hp with hp | hp
        · cases x with
          | label l' =>
            simp only [Ev.defs, List.mem_singleton, Prod.mk.injEq] at hp
            obtain ⟨rfl, rfl⟩ := hp
            exact ⟨0, rfl, rfl⟩
          | _ => simp [Ev.defs] at hp
        · obtain ⟨j, h1, h2⟩ := ih ht hp
          refine ⟨j + 1, h1, ?_⟩
          rw [← h2]
          simp only [depthAt, List.take_succ_cons, track, hx]
          cases hj : track F (List.take j c) k' with
          | none =>
            obtain ⟨t1, t2, q1, -, -⟩ := track_split (a := c.take j) (b := c.drop j)
              (by rw [List.take_append_drop]; exact ht)
            rw [q1] at hj
          | some t'' => rfl

theorem label_unique {c : List Ev} (h : (labels c).Nodup) {i j : Nat} {l : Label}
    (hi : c[i]? = some (.label l)) (hj : c[j]? = some (.label l)) : i = j := by
  induction c generalizing i j with
  | nil => simp at hi
  | cons x c ih =>
    have hmem : ∀ k : Nat, c[k]? = some (.label l) → l ∈ labels c := by
      intro k hk
      rw [labels, List.mem_filterMap]
      exact ⟨_, List.mem_of_getElem? hk, rfl⟩
    cases i with
    | zero =>
      cases j with
      | zero => rfl
      | succ j =>
        simp only [List.getElem?_cons_zero, Option.some.injEq, List.getElem?_cons_succ] at hi hj
        subst hi
        simp only [labels_label, List.nodup_cons] at h
        exact absurd (hmem j hj) h.1
    | succ i =>
      cases j with
      | zero =>
        simp only [List.getElem?_cons_zero, Option.some.injEq, List.getElem?_cons_succ] at hi hj
        subst hj
        simp only [labels_label, List.nodup_cons] at h
        exact absurd (hmem i hi) h.1
      | succ j =>
        simp only [List.getElem?_cons_succ] at hi hj
        have h' : (labels c).Nodup := by
          rw [labels] at h ⊢
          rw [List.filterMap_cons] at h
          split at h
          · exact h
          · exact (List.nodup_cons.1 h).2
        rw [ih h' hi hj]

theorem Chk.balanced {F : Nat} {c : List Ev} (h : Chk F c F F [] []) (hn : (labels c).Nodup)
    (hi : .ioob ∉ labels c) : Balanced F c (depthAt F c F) := by
  obtain ⟨u, e, h1, h2, -⟩ := h
  have huse : ∀ i ev l, c[i]? = some ev → ev.jumps l = true → (l, depthAt F c F i) ∈ u := by
    intro i ev l hc hj
    refine (track_at h1 hc).2 _ ?_
    cases ev with
    | ins i =>
      cases i with
      | jmp l' => simp only [Ev.jumps, decide_eq_true_eq] at hj; subst hj; simp [Ev.uses]
      | jcc k l' => simp only [Ev.jumps, decide_eq_true_eq] at hj; subst hj; simp [Ev.uses]
      | _ => simp [Ev.jumps] at hj
    | _ => simp [Ev.jumps] at hj
  refine ⟨rfl, ?_, fun i ev hc => (track_at h1 hc).1, ?_, ?_⟩
  · rw [depthAt, List.take_length, h1]
  · intro i j ev l hc hj hl
    rcases h2 _ (huse i ev l hc hj) with h | h | h
    · obtain ⟨j', q1, q2⟩ := track_defs h1 h
      rw [label_unique hn hl q1, q2]
    · simp only at h
      subst h
      exact absurd (by rw [labels, List.mem_filterMap]; exact ⟨_, List.mem_of_getElem? hl, rfl⟩) hi
    · cases h
  · intro i ev l hc hj
    rcases h2 _ (huse i ev l hc hj) with h | h | h
    · obtain ⟨j', q1, q2⟩ := track_defs h1 h
      exact .inr ⟨j', q1⟩
    · exact .inl h
    · cases h

/-- The code of every function passes the check. -/
theorem balanced_func (alloc : String) (fd : FnDef) (lbl : Nat) (hp : Ev.panic ∉ (genFunc alloc fd lbl).1) :
    Balanced fd.frame (fd.inner alloc lbl) (depthAt fd.frame (fd.inner alloc lbl) fd.frame) := by
  obtain ⟨c, h1, h2⟩ := genFunc_labels alloc fd lbl
  rw [genFunc_inner] at h1
  simp only [labels_flush, labels_data, labels_label, labels_ins, List.cons.injEq, true_and] at h1
  refine (chk_func alloc fd lbl hp).balanced (by rw [h1]; exact h2.nodup) ?_
  rw [h1]
  intro hi
  obtain ⟨s, n, e, -⟩ := h2.num _ hi
  cases e

/-- At an even depth of a frame with an aligned base the stack is aligned. -/
theorem AtDepth.aligned {σ : Type} {m : Mach σ} {B : Word} {d : Int} (h : AtDepth B d m)
    (hB : B.toNat % 16 = 0) (hd : d % 2 = 0) : m.aligned := by
  obtain ⟨k, rfl⟩ : ∃ k, d = 2 * k := ⟨d / 2, by omega⟩
  unfold Mach.aligned
  rw [h.1, BitVec.toNat_sub, BitVec.toNat_ofInt]
  have := B.isLt
  omega

end Clara.Gen
