import Verif.Gen.Emit
/-
The peephole optimiser (`peep.go`) and the assembly file it writes.
-/
namespace Clara.Gen

def Opd.isMem : Opd → Bool
  | .mem _ => true
  | _ => false

/-- The two merges of `ins` (`peep.go` 17-31).  With `o = false` nothing is merged: that describes
writing the file without the optimiser, to compare with. -/
def merge (o : Bool) : Ins → Ins → Option Ins
  | .mov x (.reg r), .mov (.reg r') y =>
    if o = true ∧ r = r' ∧ ¬ (x.isMem = true ∧ y.isMem = true) then some (.mov x y) else none
  | .mov x (.reg r), .push (.reg r') => if o = true ∧ r = r' then some (.push x) else none
  | _, _ => none

/-- What has been written and the cached instruction (`peep.go` 4-8). -/
structure PS where
  out : List Item := []
  pend : Option Ins := none

/-- `write` (`peep.go` 39-45). -/
def PS.write (s : PS) : PS :=
  match s.pend with
  | some p => { out := s.out ++ [.ins p], pend := none }
  | none => s

/-- One call on the writer (`peep.go` 15-37, 58-70). -/
def PS.feed (o : Bool) (s : PS) : Ev → PS
  | .ins i =>
    match s.pend.bind (merge o · i) with
    | some q => { s with pend := some q }
    | none => { s.write with pend := some i }
  | .label l => { s.write with out := s.write.out ++ [.label l] }
  | .data r => { s.write with out := s.write.out ++ [.data r] }
  | .flush => s.write
  | .panic => s

/-- The file written for a sequence of calls.  `codegen` ends with `spacer`, which writes the cached
instruction. -/
def peepWith (o : Bool) (c : List Ev) : List Item := (c.foldl (PS.feed o) {}).write.out

def peep (c : List Ev) : List Item := peepWith true c

/-- What is written without the optimiser. -/
def plain : List Ev → List Item
  | [] => []
  | .ins i :: c => .ins i :: plain c
  | .label l :: c => .label l :: plain c
  | .data r :: c => .data r :: plain c
  | .flush :: c => plain c
  | .panic :: c => plain c

/-! ### A normal form of the optimiser's state: only a cached `movq` matters -/

def Ins.isMov : Ins → Bool
  | .mov _ _ => true
  | _ => false

/-- Write the cached instruction unless it is a `movq`. -/
def PS.norm (s : PS) : PS :=
  match s.pend with
  | some p => if p.isMov then s else s.write
  | none => s

def st (o : Bool) (pre : List Ev) : PS := (pre.foldl (PS.feed o) {}).norm

variable {o : Bool}

theorem merge_isMov {p i q : Ins} (h : merge o p i = some q) : p.isMov = true := by
  cases p <;> simp [merge, Ins.isMov] at h ⊢

theorem PS.write_write (s : PS) : s.write.write = s.write := by
  rcases s with ⟨u, _ | p⟩ <;> rfl

theorem PS.norm_write (s : PS) : s.norm.write = s.write := by
  rcases s with ⟨u, _ | p⟩
  · rfl
  · simp only [PS.norm]; split <;> simp [PS.write]

theorem PS.write_norm (s : PS) : s.write.norm = s.write := by
  rcases s with ⟨u, _ | p⟩ <;> rfl

theorem PS.norm_pend {s : PS} {p : Ins} (h : s.norm.pend = some p) : p.isMov = true := by
  rcases s with ⟨u, _ | q⟩
  · simp [PS.norm] at h
  · simp only [PS.norm] at h
    split at h
    · cases h; assumption
    · simp [PS.write] at h

theorem PS.norm_feed (s : PS) (e : Ev) : (s.feed o e).norm = (s.norm.feed o e).norm := by
  cases e with
  | ins i =>
    rcases s with ⟨u, _ | p⟩
    · rfl
    · by_cases hp : p.isMov = true
      · rw [show PS.norm { out := u, pend := some p } = { out := u, pend := some p } by
          simp [PS.norm, hp]]
      · rw [show PS.norm { out := u, pend := some p } = PS.write { out := u, pend := some p } by
          simp [PS.norm, hp]]
        have hm : merge o p i = none := by
          cases h : merge o p i with
          | none => rfl
          | some q => exact absurd (merge_isMov h) hp
        simp [PS.feed, PS.write, hm]
  | label l => simp [PS.feed, PS.norm_write]
  | data r => simp [PS.feed, PS.norm_write]
  | flush => simp [PS.feed, PS.norm_write]
  | panic =>
    simp only [PS.feed]
    rcases s with ⟨u, _ | p⟩
    · rfl
    · simp only [PS.norm]; split
      · simp [*]
      · simp [PS.write]

theorem st_snoc (pre : List Ev) (e : Ev) : st o (pre ++ [e]) = ((st o pre).feed o e).norm := by
  simp only [st, List.foldl_append, List.foldl_cons, List.foldl_nil]
  exact PS.norm_feed _ _

theorem st_pend {pre : List Ev} {p : Ins} (h : (st o pre).pend = some p) : p.isMov = true :=
  PS.norm_pend h

theorem peep_eq (c : List Ev) : peepWith o c = (st o c).write.out := by
  simp [peepWith, st, PS.norm_write]

theorem PS.write_out (s : PS) : s.write.out = s.out ++ s.pend.toList.map .ins := by
  rcases s with ⟨u, _ | p⟩ <;> simp [PS.write]

/-- The state after one more event, spelled out. -/
theorem st_ins_none {pre : List Ev} {i : Ins} (h : (st o pre).pend = none) :
    st o (pre ++ [.ins i]) = PS.norm { out := (st o pre).out, pend := some i } := by
  rw [st_snoc]; simp only [PS.feed, h, Option.bind_none, PS.write]

theorem st_ins_merge {pre : List Ev} {i p q : Ins} (h : (st o pre).pend = some p)
    (hm : merge o p i = some q) :
    st o (pre ++ [.ins i]) = PS.norm { out := (st o pre).out, pend := some q } := by
  rw [st_snoc]; simp [PS.feed, h, hm]

theorem st_ins_sep {pre : List Ev} {i p : Ins} (h : (st o pre).pend = some p)
    (hm : merge o p i = none) :
    st o (pre ++ [.ins i]) = PS.norm { out := (st o pre).out ++ [.ins p], pend := some i } := by
  rw [st_snoc]; simp [PS.feed, h, hm, PS.write]

theorem st_label (pre : List Ev) (l : Label) :
    st o (pre ++ [.label l]) = { out := (st o pre).write.out ++ [.label l], pend := none } := by
  rw [st_snoc]; rcases st o pre with ⟨u, _ | p⟩ <;> simp [PS.feed, PS.write, PS.norm]

theorem st_data (pre : List Ev) (r : List Nat) :
    st o (pre ++ [.data r]) = { out := (st o pre).write.out ++ [.data r], pend := none } := by
  rw [st_snoc]; rcases st o pre with ⟨u, _ | p⟩ <;> simp [PS.feed, PS.write, PS.norm]

theorem st_flush (pre : List Ev) :
    st o (pre ++ [.flush]) = { out := (st o pre).write.out, pend := none } := by
  rw [st_snoc]; rcases st o pre with ⟨u, _ | p⟩ <;> simp [PS.feed, PS.write, PS.norm]

theorem PS.norm_out_prefix (s : PS) : s.out <+: s.norm.out := by
  rcases s with ⟨u, _ | p⟩
  · exact List.prefix_refl _
  · simp only [PS.norm]; split
    · exact List.prefix_refl _
    · exact List.prefix_append _ _

theorem PS.write_prefix (s : PS) : s.out <+: s.write.out := by
  rw [PS.write_out]; exact List.prefix_append _ _

theorem PS.feed_prefix (s : PS) (e : Ev) : s.out <+: (s.feed o e).out := by
  cases e with
  | ins i =>
    simp only [PS.feed]; split
    · exact List.prefix_refl _
    · exact s.write_prefix
  | label l => exact s.write_prefix.trans (List.prefix_append _ _)
  | data r => exact s.write_prefix.trans (List.prefix_append _ _)
  | flush => exact s.write_prefix
  | panic => exact List.prefix_refl _

theorem st_out_prefix (pre c : List Ev) : (st o pre).out <+: (st o (pre ++ c)).out := by
  induction c generalizing pre with
  | nil => simp
  | cons e c ih =>
    have h := ih (pre ++ [e])
    rw [List.append_assoc] at h
    refine List.IsPrefix.trans ?_ h
    rw [st_snoc]
    exact (PS.feed_prefix _ _).trans (PS.norm_out_prefix _)

theorem st_prefix_peep {pre C : List Ev} (h : pre <+: C) : (st o pre).out <+: peepWith o C := by
  obtain ⟨c, rfl⟩ := h
  rw [peep_eq]
  exact (st_out_prefix pre c).trans (PS.write_prefix _)

/-! ### Labels are kept -/

def Ev.isLabel : Ev → Option Label
  | .label l => some l
  | _ => none

def labels (c : List Ev) : List Label := c.filterMap Ev.isLabel

def Item.isLabel : Item → Option Label
  | .label l => some l
  | _ => none

def itemLabels (c : List Item) : List Label := c.filterMap Item.isLabel

@[simp] theorem labels_nil : labels [] = [] := rfl
@[simp] theorem labels_append (a b : List Ev) : labels (a ++ b) = labels a ++ labels b := by
  simp [labels]
@[simp] theorem labels_ins (i : Ins) (c : List Ev) : labels (.ins i :: c) = labels c := rfl
@[simp] theorem labels_label (l : Label) (c : List Ev) : labels (.label l :: c) = l :: labels c := rfl
@[simp] theorem labels_data (r : List Nat) (c : List Ev) : labels (.data r :: c) = labels c := rfl
@[simp] theorem labels_flush (c : List Ev) : labels (.flush :: c) = labels c := rfl
@[simp] theorem labels_panic (c : List Ev) : labels (.panic :: c) = labels c := rfl

theorem PS.labels_write (s : PS) : itemLabels s.write.out = itemLabels s.out := by
  rcases s with ⟨u, _ | p⟩ <;> simp [PS.write, itemLabels, Item.isLabel]

theorem PS.labels_feed (s : PS) (e : Ev) :
    itemLabels (s.feed o e).out = itemLabels s.out ++ labels [e] := by
  cases e with
  | ins i =>
    simp only [PS.feed]; split
    · simp
    · simp [PS.labels_write]
  | label l =>
    have h := s.labels_write
    simp only [itemLabels] at h
    simp [PS.feed, itemLabels, Item.isLabel, h]
  | data r =>
    have h := s.labels_write
    simp only [itemLabels] at h
    simp [PS.feed, itemLabels, h, show List.filterMap Item.isLabel [Item.data r] = [] from rfl]
  | flush => simp [PS.feed, PS.labels_write]
  | panic => simp [PS.feed]

theorem itemLabels_peep (c : List Ev) : itemLabels (peepWith o c) = labels c := by
  rw [peepWith, PS.labels_write]
  suffices ∀ (s : PS), itemLabels (c.foldl (PS.feed o) s).out = itemLabels s.out ++ labels c by
    simpa [itemLabels] using this {}
  induction c with
  | nil => intro s; simp
  | cons e c ih =>
    intro s
    rw [List.foldl_cons, ih, PS.labels_feed, List.append_assoc, ← labels_append]
    simp

end Clara.Gen
