import Verif.Gc.MarkProof
/-
The roots and the sweep phase.
-/
namespace Clara.Gc

variable {h h1 h2 h' : Heap}

section
variable {table : List TypeInfo} {h0 : Heap} {addrs : List Word}

theorem markSlots_ends (wf : WF table h0 addrs) (f : Frame) (roots : List Int) (hf : ∀ r ∈ roots, Fine h0 (f.slot r)) (o : Over h0 h) :
    ∃ h', Ends (markSlots table f roots) h () h' ∧ Visit table h0 h (roots.map f.slot) h' := by
  induction roots generalizing h with
  | nil => exact ⟨h, Ends.pure _ _, .nil o⟩
  | cons r rs ih =>
    obtain ⟨h1, a1, a2⟩ := markPointer_good wf _ h (f.slot r) o (Nat.le_refl _) (hf r (by simp))
    obtain ⟨h2, b1, b2⟩ := ih (fun r hr => hf r (by simp [hr])) a2.over
    exact ⟨h2, a1.bind b1, a2.append b2⟩

/-- The words in the root slots, with the roots of the first frame given. -/
def frameWords (roots : List Int) : List Frame → List Word
  | [] => []
  | f :: fs => roots.map f.slot ++ frameWords f.callRoots fs

theorem frameWords_eq (own : Frame) (stack : List Frame) (runtime : Word) :
    rootWords own stack runtime = frameWords own.callRoots stack ++ [runtime] := by
  unfold rootWords
  simp only []
  congr 1
  induction stack generalizing own with
  | nil => rfl
  | cons f fs ih =>
    rw [frameWords, ← ih f]
    rfl

theorem markFrames_ends (wf : WF table h0 addrs) (roots : List Int) (fs : List Frame) (hf : ∀ w ∈ frameWords roots fs, Fine h0 w)
    (o : Over h0 h) : ∃ h', Ends (markFrames table roots fs) h () h' ∧ Visit table h0 h (frameWords roots fs) h' := by
  induction fs generalizing h roots with
  | nil => exact ⟨h, Ends.pure _ _, .nil o⟩
  | cons f fs ih =>
    obtain ⟨h1, a1, a2⟩ := markSlots_ends wf f roots (fun r hr => hf _ (List.mem_append.2 (.inl (List.mem_map.2 ⟨r, hr, rfl⟩)))) o
    obtain ⟨h2, b1, b2⟩ := ih f.callRoots (fun w hw => hf w (List.mem_append.2 (.inr hw))) a2.over
    exact ⟨h2, a1.bind b1, a2.append b2⟩

theorem gcMark_ends (wf : WF table h0 addrs) (own : Frame) (stack : List Frame) (runtime : Word)
    (hf : ∀ w ∈ rootWords own stack runtime, Fine h0 w) :
    ∃ h', Ends (gcMark table own stack runtime) h0 () h' ∧ Visit table h0 h0 (rootWords own stack runtime) h' := by
  rw [frameWords_eq] at *
  obtain ⟨h1, a1, a2⟩ := markFrames_ends wf own.callRoots stack (fun w hw => hf w (by simp [hw])) Over.refl
  obtain ⟨h2, b1, b2⟩ := markPointer_good wf _ h1 runtime a2.over (Nat.le_refl _) (hf runtime (by simp))
  exact ⟨h2, a1.bind b1, a2.append b2⟩

theorem marked_iff_reach (wf : WF table h0 addrs) {ws : List Word} (v : Visit table h0 h0 ws h') {b : Word} (hb : b ∈ addrs) :
    Marked h' b ↔ Reach table h0 ws b := by
  have none0 : ∀ b, ¬ Marked h0 b := by
    rintro b ⟨x, h1, h2⟩
    rw [wf.unmarked h1] at h2
    cases h2
  constructor
  · intro m
    exact (v.new b m (none0 b)).1
  · intro r
    have : Covered h0 h' b := by
      clear hb
      induction r with
      | root hw hr => exact v.done _ hw hr
      | step _ hx ro hp hr ih =>
        rcases ih with ⟨x', e1, e2⟩ | m
        · rw [hx] at e1; cases e1; rw [ro] at e2; cases e2
        · exact (v.new _ m (none0 _)).2 _ _ hx hp hr
    rcases this with ⟨x, e1, e2⟩ | m
    · obtain ⟨x', f1, f2⟩ := (wf.alloc b).1 hb
      rw [e1] at f1; cases f1; rw [e2] at f2; cases f2
    · exact m

end

/-! ### Sweep -/

theorem Chain.congr {a : Word} {l : List Word} {z : Word} (hs : ∀ b ∈ l, ∀ x, h.block b = some x → ∃ y, h'.block b = some y ∧ y.next = x.next)
    (c : Chain h a l z) : Chain h' a l z := by
  induction l generalizing a with
  | nil => exact c
  | cons b l ih =>
    obtain ⟨rfl, x, hx, c'⟩ := c
    obtain ⟨y, hy, hn⟩ := hs a (by simp) x hx
    exact ⟨rfl, y, hy, by rw [hn]; exact ih (fun b hb => hs b (by simp [hb])) c'⟩

theorem Chain.snoc {a b : Word} {l : List Word} {x : Block} (c : Chain h a l b) (hx : h.block b = some x) :
    Chain h a (l ++ [b]) x.next := by
  induction l generalizing a with
  | nil => cases c; exact ⟨rfl, x, hx, rfl⟩
  | cons d l ih =>
    obtain ⟨rfl, y, hy, c'⟩ := c
    exact ⟨rfl, y, hy, ih c'⟩

/-- Changing the last link. -/
theorem Chain.relink {a p z z' : Word} {l : List Word} {x : Block} (c : Chain h a (l ++ [p]) z) (hp : p ∉ l) (hx : h.block p = some x) :
    Chain (h.set p { x with next := z' }) a (l ++ [p]) z' := by
  induction l generalizing a with
  | nil =>
    obtain ⟨rfl, y, hy, -⟩ := c
    exact ⟨rfl, _, set_same _ _ _, rfl⟩
  | cons d l ih =>
    obtain ⟨rfl, y, hy, c'⟩ := c
    exact ⟨rfl, y, by rw [set_ne _ _ (fun e => hp (by simp [e]))]; exact hy, ih c' (fun e => hp (by simp [e]))⟩

theorem Chain.det {a z : Word} {l l' : List Word} (hv : ∀ b ∈ l, b ≠ z) (hv' : ∀ b ∈ l', b ≠ z) (c : Chain h a l z) (c' : Chain h a l' z) :
    l = l' := by
  induction l generalizing a l' with
  | nil =>
    cases c
    cases l' with
    | nil => rfl
    | cons b l' => obtain ⟨e, -⟩ := c'; exact absurd e.symm (hv' b (by simp))
  | cons b l ih =>
    obtain ⟨rfl, x, hx, c⟩ := c
    cases l' with
    | nil => exact absurd c' (hv a (by simp))
    | cons b' l' =>
      obtain ⟨rfl, y, hy, c'⟩ := c'
      rw [hx] at hy
      cases hy
      rw [ih (fun b hb => hv b (by simp [hb])) (fun b hb => hv' b (by simp [hb])) c c']

/-- The block after the sweep: its mark is cleared, the link may be another. -/
def Kept (x y : Block) : Prop := y.body = x.body ∧ y.header = x.header &&& ~~~0x1#63

def marked (h : Heap) (b : Word) : Bool := !unmarked h b

theorem marked_iff {b : Word} : marked h b = true ↔ Marked h b := by
  unfold marked
  rw [Bool.not_eq_true', ← Bool.not_eq_true, unmarked_iff]
  exact Classical.not_not

def Heap.free (h : Heap) (b : Word) : Heap := { h with block := fun a => if a = b then none else h.block a }
theorem free_same (h : Heap) (b : Word) : (h.free b).block b = none := by simp [Heap.free]
theorem free_ne (h : Heap) {a b : Word} (ha : a ≠ b) : (h.free b).block a = h.block a := by simp [Heap.free, ha]

/-- The blocks that were already swept, `kept`, end in `prev`. -/
def IsPrev (kept : List Word) (prev : Word) : Prop := (kept = [] ∧ prev = 0) ∨ ∃ l, kept = l ++ [prev]

theorem sweepLoop_ends (rest kept : List Word) {b prev : Word} (hc : Chain h h.blocks kept b) (hr : Chain h b rest 0)
    (hn : (kept ++ rest).Nodup) (hv : ∀ a ∈ kept ++ rest, isValidBlock a = true) (hp : IsPrev kept prev) :
    ∃ h', Ends (sweepLoop b prev) h () h' ∧ Chain h' h'.blocks (kept ++ rest.filter (marked h)) 0 ∧
      (∀ a, a ∉ kept ++ rest → h'.block a = h.block a) ∧
      (∀ a ∈ kept, ∀ x, h.block a = some x → ∃ n, h'.block a = some { x with next := n }) ∧
      (∀ a ∈ rest, ∀ x, h.block a = some x →
        if isMarked x.header then ∃ n, h'.block a = some { x with next := n, header := x.header &&& ~~~0x1#63 } else h'.block a = none) := by
  induction rest generalizing h kept b prev with
  | nil =>
    cases hr
    refine ⟨h, ?_, by simpa using hc, fun _ _ => rfl, fun a _ x hx => ⟨x.next, hx⟩, fun a ha => by cases ha⟩
    rw [sweepLoop, show isValidBlock 0 = false by decide]
    exact Ends.pure _ _
  | cons a rest ih =>
    obtain ⟨rfl, x, hx, hr'⟩ := hr
    have hvb : isValidBlock b = true := hv b (by simp)
    have hnb : b ∉ kept ∧ b ∉ rest := by
      rw [List.nodup_append] at hn
      refine ⟨fun h => hn.2.2 b h b (by simp) rfl, ?_⟩
      have := hn.2.1
      rw [List.nodup_cons] at this
      exact this.1
    cases hm : isMarked x.header with
    | true =>
      let x' : Block := { x with header := x.header &&& ~~~0x1#63 }
      let h1 := h.set b x'
      have hx1 : h1.block b = some x' := set_same _ _ _
      have congr1 : ∀ a, ∀ y, h.block a = some y → ∃ y', h1.block a = some y' ∧ y'.next = y.next := by
        intro a y hy
        by_cases hab : a = b
        · subst hab
          rw [hx] at hy; cases hy
          exact ⟨x', hx1, rfl⟩
        · exact ⟨y, (set_ne _ _ hab).trans hy, rfl⟩
      have hc1 : Chain h1 h1.blocks (kept ++ [b]) x'.next := (hc.congr (h' := h1) (fun a _ => congr1 a)).snoc hx1
      have hr1 : Chain h1 x'.next rest 0 := hr'.congr (fun a _ => congr1 a)
      obtain ⟨h', e1, e2, e3, e4, e5⟩ := ih (kept ++ [b]) hc1 hr1 (by simpa using hn) (by simpa using hv) (.inr ⟨kept, rfl⟩)
      refine ⟨h', ?_, ?_, ?_, ?_, ?_⟩
      · rw [sweepLoop, hvb]
        refine (Ends.block hx).bind ?_
        rw [hm]
        have hclear : Ends (clearMark b) h () h1 := by
          refine (Ends.block hx).bind ?_
          rw [hm]
          exact (Ends.block hx).bind rfl
        exact hclear.bind ((Ends.block hx1).bind e1)
      · have hmb : marked h b = true := marked_iff.2 ⟨x, hx, hm⟩
        have hfil : rest.filter (marked h1) = rest.filter (marked h) := by
          apply List.filter_congr
          intro a ha
          have hab : a ≠ b := fun e => hnb.2 (e ▸ ha)
          unfold marked unmarked
          rw [show h1.block a = h.block a from set_ne _ _ hab]
        rw [List.filter_cons, hmb, ← hfil]
        simpa using e2
      · intro a ha
        have hab : a ≠ b := fun e => ha (by simp [e])
        rw [e3 a (by simpa using ha)]
        exact set_ne _ _ hab
      · intro a ha y hy
        have hab : a ≠ b := fun e => hnb.1 (e ▸ ha)
        exact e4 a (by simp [ha]) y ((set_ne _ _ hab).trans hy)
      · intro a ha y hy
        by_cases hab : a = b
        · subst hab
          rw [hx] at hy; cases hy
          rw [hm]
          obtain ⟨n, hn'⟩ := e4 a (by simp) x' hx1
          exact ⟨n, hn'⟩
        · have har : a ∈ rest := by simpa [hab] using ha
          exact e5 a har y ((set_ne _ _ hab).trans hy)
    | false =>
      -- the block is unlinked and freed
      obtain ⟨h1, u1, u2, u3, u4, u5⟩ : ∃ h1 : Heap, Ends (unlink b prev) h () h1 ∧ Chain h1 h1.blocks kept x.next ∧
          (∀ a, a ∉ kept → h1.block a = h.block a) ∧ (∀ a ∈ kept, ∀ y, h.block a = some y → ∃ n, h1.block a = some { y with next := n }) ∧
          h1.block b = some x := by
        rcases hp with ⟨rfl, rfl⟩ | ⟨l, rfl⟩
        · refine ⟨{ h with blocks := x.next }, ?_, rfl, fun _ _ => rfl, fun a ha => by (cases ha), hx⟩
          unfold unlink
          rw [show isValidBlock 0 = false by decide]
          exact (Ends.block hx).bind rfl
        · have hpl : prev ∉ l := by
            rw [List.nodup_append, List.nodup_append] at hn
            exact fun e => hn.1.2.2 prev e prev (by simp) rfl
          have hpb : prev ≠ b := fun e => hnb.1 (by simp [e])
          have : ∃ y, h.block prev = some y := by
            have : ∀ (l : List Word) a, Chain h a (l ++ [prev]) b → ∃ y, h.block prev = some y := by
              intro l
              induction l with
              | nil => rintro a ⟨rfl, y, hy, -⟩; exact ⟨y, hy⟩
              | cons d l ih => rintro a ⟨rfl, y, hy, c⟩; exact ih _ c
            exact this l _ hc
          obtain ⟨y, hy⟩ := this
          refine ⟨h.set prev { y with next := x.next }, ?_, hc.relink hpl hy, ?_, ?_, ?_⟩
          · unfold unlink
            rw [hv prev (by simp)]
            exact (Ends.block hx).bind ((Ends.block hy).bind rfl)
          · intro a ha
            exact set_ne _ _ (fun e => ha (by simp [e]))
          · intro a ha z hz
            by_cases hap : a = prev
            · subst hap
              rw [hy] at hz; cases hz
              exact ⟨x.next, set_same _ _ _⟩
            · exact ⟨z.next, (set_ne _ _ hap).trans hz⟩
          · exact (set_ne _ _ (Ne.symm hpb)).trans hx
      have hkr : ∀ a ∈ rest, a ∉ kept := by
        intro a ha hk
        rw [List.nodup_append] at hn
        exact hn.2.2 a hk a (by simp [ha]) rfl
      let h2 := h1.free b
      have hc2 : Chain h2 h2.blocks kept x.next := by
        refine u2.congr (fun a ha y hy => ⟨y, ?_, rfl⟩)
        have hab : a ≠ b := fun e => hnb.1 (e ▸ ha)
        exact (free_ne _ hab).trans hy
      have hr2 : Chain h2 x.next rest 0 := by
        refine hr'.congr (fun a ha y hy => ⟨y, ?_, rfl⟩)
        rw [show h2.block a = h1.block a from free_ne _ (fun e => hnb.2 (e ▸ ha)), u3 a (hkr a ha)]
        exact hy
      have hsub : (kept ++ rest).Nodup := by
        rw [List.nodup_append] at hn ⊢
        have := hn.2.1
        rw [List.nodup_cons] at this
        exact ⟨hn.1, this.2, fun a ha c hc => hn.2.2 a ha c (by simp [hc])⟩
      obtain ⟨h', e1, e2, e3, e4, e5⟩ := ih kept hc2 hr2 hsub (fun a ha => hv a (by
        rcases List.mem_append.1 ha with e | e <;> simp [e])) hp
      have hsame : ∀ a ∈ rest, h2.block a = h.block a := by
        intro a ha
        rw [show h2.block a = h1.block a from free_ne _ (fun e => hnb.2 (e ▸ ha)), u3 a (hkr a ha)]
      refine ⟨h', ?_, ?_, ?_, ?_, ?_⟩
      · rw [sweepLoop, hvb]
        refine (Ends.block hx).bind ?_
        rw [hm]
        have hfree : Ends (modify fun h => { h with block := fun a => if a = b then none else h.block a } : GM PUnit) h1 ⟨⟩ h2 := rfl
        exact u1.bind ((Ends.block u5).bind (hfree.bind e1))
      · have hmb : marked h b = false := by
          rw [← Bool.not_eq_true, marked_iff]
          rintro ⟨z, z1, z2⟩
          rw [hx] at z1; cases z1; rw [hm] at z2; cases z2
        have hfil : rest.filter (marked h2) = rest.filter (marked h) := by
          apply List.filter_congr
          intro a ha
          unfold marked unmarked
          rw [hsame a ha]
        rw [List.filter_cons, hmb, ← hfil]
        simpa using e2
      · intro a ha
        have hab : a ≠ b := fun e => ha (by simp [e])
        rw [e3 a (by
          intro h
          rcases List.mem_append.1 h with e | e <;> exact ha (by simp [e]))]
        rw [show h2.block a = h1.block a from free_ne _ hab, u3 a (fun e => ha (by simp [e]))]
      · intro a ha y hy
        have hab : a ≠ b := fun e => hnb.1 (e ▸ ha)
        obtain ⟨n, hn1⟩ := u4 a ha y hy
        obtain ⟨n', hn2⟩ := e4 a ha { y with next := n } ((free_ne _ hab).trans hn1)
        exact ⟨n', hn2⟩
      · intro a ha y hy
        by_cases hab : a = b
        · subst hab
          rw [hx] at hy; cases hy
          rw [hm]
          show h'.block a = none
          rw [e3 a (by simp [hnb.1, hnb.2])]
          exact free_same _ _
        · have har : a ∈ rest := by simpa [hab] using ha
          exact e5 a har y ((hsame a har).trans hy)

end Clara.Gc
