import Verif.Gc.SweepProof
import Verif.Gen.Sem
/-
C41: a collection keeps exactly the reachable objects.
C42: object headers keep type id and flags apart.
C43: tagged integers are never taken for pointers.
-/
namespace Clara.Props
open Clara.Gc

/-! ### C41 -/

theorem points_next {table : List TypeInfo} {x : Block} {n w : Word} : Points table { x with next := n } w ↔ Points table x w := by
  constructor
  · rintro (⟨id, roots, r, ht, hi, hr, hw⟩ | ⟨id, len, i, ht, hi, hl, hlt, hw⟩)
    · exact .field id roots r ht hi hr hw
    · exact .elem id len i ht hi hl hlt hw
  · rintro (⟨id, roots, r, ht, hi, hr, hw⟩ | ⟨id, len, i, ht, hi, hl, hlt, hw⟩)
    · exact .field id roots r ht hi hr hw
    · exact .elem id len i ht hi hl hlt hw

theorem shaped_next {table : List TypeInfo} {x : Block} (n : Word) (h : Shaped table x) : Shaped table { x with next := n } := ⟨h.id⟩

/-- `gc` ends, and afterwards: the heap is well formed with the blocks `kept`, which are the allocated blocks that were
reachable; a kept block has its header and its contents; the other allocated blocks are freed; nothing else changed. -/
theorem C41 {table : List TypeInfo} {h : Heap} {addrs : List Word} (wf : WF table h addrs) (own : Frame) (stack : List Frame)
    (runtime : Word) (hroots : ∀ w ∈ rootWords own stack runtime, isReal w = true → ∃ x, h.block (w - 16) = some x) :
    ∃ h' kept, Ends (gc table own stack runtime) h () h' ∧ WF table h' kept ∧
      (∀ b, b ∈ kept ↔ b ∈ addrs ∧ Reach table h (rootWords own stack runtime) b) ∧
      (∀ b ∈ kept, ∀ x, h.block b = some x → ∃ n, h'.block b = some { x with next := n }) ∧
      (∀ b ∈ addrs, b ∉ kept → h'.block b = none) ∧
      (∀ b, b ∉ addrs → h'.block b = h.block b) := by
  obtain ⟨h1, m1, v⟩ := gcMark_ends wf own stack runtime hroots
  have hblk : h1.blocks = h.blocks := v.over.blocks
  have chain1 : Chain h1 h1.blocks addrs 0 := by
    rw [hblk]
    refine wf.chain.congr (fun b _ x hx => ?_)
    obtain ⟨y, hy, -, hn, -⟩ := v.over.get hx
    exact ⟨y, hy, hn⟩
  obtain ⟨h', s1, s2, s3, -, s5⟩ := sweepLoop_ends (h := h1) addrs [] (b := h1.blocks) (prev := 0) rfl chain1 (by simpa using wf.nodup)
    (by simpa using wf.valid) (.inl ⟨rfl, rfl⟩)
  rw [List.nil_append] at s2 s3
  have hkept : ∀ b, b ∈ addrs.filter (marked h1) ↔ b ∈ addrs ∧ Reach table h (rootWords own stack runtime) b := by
    intro b
    rw [List.mem_filter]
    constructor
    · rintro ⟨hb, hm⟩
      exact ⟨hb, (marked_iff_reach wf v hb).1 (marked_iff.1 hm)⟩
    · rintro ⟨hb, hr⟩
      exact ⟨hb, marked_iff.2 ((marked_iff_reach wf v hb).2 hr)⟩
  have hsame : ∀ b ∈ addrs.filter (marked h1), ∀ x, h.block b = some x → ∃ n, h'.block b = some { x with next := n } := by
    intro b hb x hx
    obtain ⟨hba, hbm⟩ := List.mem_filter.1 hb
    obtain ⟨y, hy, -, -, -, -, hc⟩ := v.over.get hx
    obtain ⟨z, hz, hzm⟩ := marked_iff.1 hbm
    rw [hy] at hz
    cases hz
    have := s5 b hba y hy
    rw [hzm] at this
    obtain ⟨n, hn⟩ := this
    rcases hc with e | ⟨e, -⟩
    · subst e
      rw [wf.unmarked hx] at hzm
      cases hzm
    · subst e
      refine ⟨n, ?_⟩
      rw [hn]
      simp only [clear_set (wf.unmarked hx)]
  have hfreed : ∀ b ∈ addrs, b ∉ addrs.filter (marked h1) → h'.block b = none := by
    intro b hb hnk
    obtain ⟨x, hx, -⟩ := (wf.alloc b).1 hb
    obtain ⟨y, hy, -⟩ := v.over.get hx
    have := s5 b hb y hy
    cases hm : isMarked y.header with
    | false => rw [hm] at this; exact this
    | true => exact absurd (List.mem_filter.2 ⟨hb, marked_iff.2 ⟨y, hy, hm⟩⟩) hnk
  have hother : ∀ b, b ∉ addrs → h'.block b = h.block b := by
    intro b hb
    rw [s3 b hb]
    rcases v.over.same b with e | ⟨x, e1, e2, -⟩
    · exact e
    · exact absurd ((wf.alloc b).2 ⟨x, e1, e2⟩) hb
  -- every block of the new heap is an old one
  have hback : ∀ b y, h'.block b = some y → ∃ x n, h.block b = some x ∧ y = { x with next := n } ∧
      (b ∉ addrs ∨ b ∈ addrs.filter (marked h1)) := by
    intro b y hy
    by_cases hb : b ∈ addrs
    · by_cases hk : b ∈ addrs.filter (marked h1)
      · obtain ⟨x, hx, -⟩ := (wf.alloc b).1 hb
        obtain ⟨n, hn⟩ := hsame b hk x hx
        rw [hn] at hy
        cases hy
        exact ⟨x, n, hx, rfl, .inr hk⟩
      · rw [hfreed b hb hk] at hy; cases hy
    · rw [hother b hb] at hy
      exact ⟨y, y.next, hy, rfl, .inl hb⟩
  refine ⟨h', addrs.filter (marked h1), ?_, ?_, hkept, hsame, hfreed, hother⟩
  · refine m1.bind ?_
    show Ends (sweepLoop h1.blocks 0) h1 () h'
    exact s1
  · refine { nodup := wf.nodup.filter _, alloc := fun b => ?_, valid := fun b hb => wf.valid b (List.mem_filter.1 hb).1,
             shaped := fun {b x} hx => ?_, closed := fun {b x w} hx ro hp hr => ?_, unmarked := fun {b x} hx => ?_, chain := s2 }
    · constructor
      · intro hb
        obtain ⟨x, hx, hro⟩ := (wf.alloc b).1 (List.mem_filter.1 hb).1
        obtain ⟨n, hn⟩ := hsame b hb x hx
        exact ⟨_, hn, hro⟩
      · rintro ⟨y, hy, hro⟩
        obtain ⟨x, n, hx, rfl, hh⟩ := hback b y hy
        rcases hh with hb | hb
        · exact absurd ((wf.alloc b).2 ⟨x, hx, hro⟩) hb
        · exact hb
    · obtain ⟨y, n, hy, rfl, -⟩ := hback b x hx
      exact shaped_next n (wf.shaped hy)
    · obtain ⟨y, n, hy, rfl, hh⟩ := hback b x hx
      rw [points_next] at hp
      obtain ⟨z, hz⟩ := wf.closed hy ro hp hr
      have hb : b ∈ addrs.filter (marked h1) := by
        rcases hh with hb | hb
        · exact absurd ((wf.alloc b).2 ⟨y, hy, ro⟩) hb
        · exact hb
      by_cases hw : (w - 16) ∈ addrs
      · have : (w - 16) ∈ addrs.filter (marked h1) := (hkept _).2 ⟨hw, .step ((hkept b).1 hb).2 hy ro hp hr⟩
        obtain ⟨n', hn'⟩ := hsame _ this z hz
        exact ⟨_, hn'⟩
      · exact ⟨z, by rw [hother _ hw]; exact hz⟩
    · obtain ⟨y, n, hy, rfl, -⟩ := hback b x hx
      exact (wf.unmarked hy : isMarked y.header = false)

/-- Two objects that point to each other, and one that points to them and to which nothing points. -/
def gcExA : Block := { next := 0x2040, header := 0, body := [0x2050, 7] }
def gcExB : Block := { next := 0x2080, header := 0, body := [0x2010, 0] }
def gcExC : Block := { next := 0, header := 0, body := [0x2010, 0x2050] }
def gcExHeap : Heap where
  block a := if a = 0x2000 then some gcExA else if a = 0x2040 then some gcExB else if a = 0x2080 then some gcExC else none
  blocks := 0x2000
def gcExTable : List TypeInfo := [.struct [0, 1]]
def gcExOwn : Frame := { callRoots := [3], slot := fun _ => 0 }
def gcExFrame : Frame := { callRoots := [], slot := fun i => if i = 3 then 0x2010 else 0 }

theorem gcExHeap_cases {b : Word} {x : Block} (h : gcExHeap.block b = some x) :
    (b = 0x2000 ∧ x = gcExA) ∨ (b = 0x2040 ∧ x = gcExB) ∨ (b = 0x2080 ∧ x = gcExC) := by
  unfold gcExHeap at h
  simp only [] at h
  split at h
  · cases h; exact .inl ⟨‹_›, rfl⟩
  · split at h
    · cases h; exact .inr (.inl ⟨‹_›, rfl⟩)
    · split at h
      · cases h; exact .inr (.inr ⟨‹_›, rfl⟩)
      · cases h

theorem gcExHeap_block {b : Word} {x : Block} (h : gcExHeap.block b = some x) : x = gcExA ∨ x = gcExB ∨ x = gcExC := by
  rcases gcExHeap_cases h with ⟨-, h⟩ | ⟨-, h⟩ | ⟨-, h⟩
  · exact .inl h
  · exact .inr (.inl h)
  · exact .inr (.inr h)

theorem gcExPoints {x : Block} {w : Word} (hp : Points gcExTable x w) : w ∈ x.body := by
  cases hp with
  | field id roots r ht hi hr hw => exact List.mem_of_getElem? hw
  | elem id len i ht hi hl hlt hw => exact List.mem_of_getElem? hw

theorem valid_of {b : Word} (h : 2 ≤ b.toNat) (h2 : b.toNat < 2 ^ 63) : isValidBlock b = true := by
  have h3 : b.toInt = b.toNat := BitVec.toInt_eq_toNat_of_lt (by omega)
  have : intOf b ≠ 0 := by
    unfold intOf
    rw [BitVec.toInt_sshiftRight, h3, Int.shiftRight_eq_div_pow]
    omega
  simp [isValidBlock, this]

theorem gcExReal {x : Block} (hx : x = gcExA ∨ x = gcExB ∨ x = gcExC) {w : Word} (hw : w ∈ x.body) (hr : isReal w = true) :
    w = 0x2010 ∨ w = 0x2050 := by
  have h7 : ¬ isReal 7 = true := by rw [isReal_iff]; decide
  have h0 : ¬ isReal 0 = true := by rw [isReal_iff]; decide
  rcases hx with rfl | rfl | rfl <;> simp only [gcExA, gcExB, gcExC, List.mem_cons, List.not_mem_nil, or_false] at hw <;>
    rcases hw with rfl | rfl
  · exact .inr rfl
  · exact absurd hr h7
  · exact .inl rfl
  · exact absurd hr h0
  · exact .inl rfl
  · exact .inr rfl

theorem gcExRoots {w : Word} (hw : w ∈ rootWords gcExOwn [gcExFrame] 0) (hr : isReal w = true) : w = 0x2010 := by
  have h0 : ¬ isReal 0 = true := by rw [isReal_iff]; decide
  have : w ∈ ([0x2010, 0] : List Word) := by
    have e : rootWords gcExOwn [gcExFrame] 0 = [0x2010, 0] := by decide +kernel
    rwa [e] at hw
  simp only [List.mem_cons, List.not_mem_nil, or_false] at this
  rcases this with rfl | rfl
  · rfl
  · exact absurd hr h0

theorem gcExWF : WF gcExTable gcExHeap [0x2000, 0x2040, 0x2080] where
  nodup := by decide +kernel
  alloc := by
    intro b
    constructor
    · intro hb
      simp only [List.mem_cons, List.not_mem_nil, or_false] at hb
      rcases hb with rfl | rfl | rfl
      · exact ⟨gcExA, rfl, by decide +kernel⟩
      · exact ⟨gcExB, rfl, by decide +kernel⟩
      · exact ⟨gcExC, rfl, by decide +kernel⟩
    · rintro ⟨x, hx, -⟩
      rcases gcExHeap_cases hx with ⟨rfl, -⟩ | ⟨rfl, -⟩ | ⟨rfl, -⟩ <;> decide
  valid := by
    intro b hb
    simp only [List.mem_cons, List.not_mem_nil, or_false] at hb
    rcases hb with rfl | rfl | rfl <;> exact valid_of (by decide) (by decide)
  shaped := by
    intro b x hx
    rcases gcExHeap_cases hx with ⟨rfl, rfl⟩ | ⟨rfl, rfl⟩ | ⟨rfl, rfl⟩ <;>
      exact ⟨0, .struct [0, 1], by decide +kernel, rfl, fun _ => by decide⟩
  closed := by
    intro b x w hx _ hp hr
    have hx' := gcExHeap_block hx
    rcases gcExReal hx' (gcExPoints hp) hr with rfl | rfl
    · exact ⟨gcExA, rfl⟩
    · exact ⟨gcExB, rfl⟩
  unmarked := by
    intro b x hx
    rcases gcExHeap_cases hx with ⟨-, rfl⟩ | ⟨-, rfl⟩ | ⟨-, rfl⟩ <;> decide
  chain := ⟨rfl, gcExA, rfl, rfl, gcExB, rfl, rfl, gcExC, rfl, rfl⟩

/-- The hypotheses of C41 hold for this heap; the object with the other two in it is freed. -/
example : ∃ h', Ends (gc gcExTable gcExOwn [gcExFrame] 0) gcExHeap () h' ∧ h'.block 0x2080 = none ∧ (h'.block 0x2040).isSome = true := by
  obtain ⟨h', kept, e, -, hk, hs, hf, -⟩ := C41 gcExWF gcExOwn [gcExFrame] 0 (by
    intro w hw hr
    rw [gcExRoots hw hr]
    exact ⟨gcExA, rfl⟩)
  have rA : Reach gcExTable gcExHeap (rootWords gcExOwn [gcExFrame] 0) 0x2000 := .root (w := 0x2010) (by decide +kernel) ((isReal_iff _).2 (by decide +kernel))
  have rB : Reach gcExTable gcExHeap (rootWords gcExOwn [gcExFrame] 0) 0x2040 :=
    .step (w := 0x2050) rA (x := gcExA) rfl (by decide +kernel) (.field 0 [0, 1] 0 (by decide +kernel) rfl (by decide +kernel) rfl) ((isReal_iff _).2 (by decide +kernel))
  refine ⟨h', e, hf _ (by decide +kernel) (fun h => ?_), ?_⟩
  · have only : ∀ b, Reach gcExTable gcExHeap (rootWords gcExOwn [gcExFrame] 0) b → b = 0x2000 ∨ b = 0x2040 := by
      intro b r
      induction r with
      | root hw hr => rw [gcExRoots hw hr]; exact .inl rfl
      | step _ hx _ hp hr _ =>
        have hx' := gcExHeap_block hx
        rcases gcExReal hx' (gcExPoints hp) hr with rfl | rfl
        · exact .inl rfl
        · exact .inr rfl
    have := only _ ((hk _).1 h).2
    exact absurd this (by decide +kernel)
  · obtain ⟨n, hn⟩ := hs _ ((hk _).2 ⟨by decide +kernel, rB⟩) gcExB rfl
    rw [hn]; rfl

/-! ### C42 -/

/-- The mark never disturbs the type id or the read-only bit, for every header; the functions change the header of their
block as said; and the type id that was allocated with is read back, for the ids below 2^15.
What is missing: larger ids; see `C42_violated`. -/
theorem C42_partial :
    (∀ (h : Heap) (b : Word) (x : Block), h.block b = some x → isMarked x.header = false →
      ∃ y, Ends (setMark b) h () (h.set b y) ∧ y.next = x.next ∧ y.body = x.body ∧ isMarked y.header = true ∧
        typeId y.header = typeId x.header ∧ isReadOnly y.header = isReadOnly x.header) ∧
    (∀ (h : Heap) (b : Word) (x : Block), h.block b = some x → isMarked x.header = true →
      ∃ y, Ends (clearMark b) h () (h.set b y) ∧ y.next = x.next ∧ y.body = x.body ∧ isMarked y.header = false ∧
        typeId y.header = typeId x.header ∧ isReadOnly y.header = isReadOnly x.header) ∧
    (∀ id : Int, 0 ≤ id → id < 2 ^ 15 → typeId (newHeader id) = id ∧ isMarked (newHeader id) = false ∧
      isReadOnly (newHeader id) = false) ∧
    (∀ id : Int, 0 ≤ id → id < 2 ^ 15 → typeId (readOnlyGcHeader id) = id ∧ isMarked (readOnlyGcHeader id) = false ∧
      isReadOnly (readOnlyGcHeader id) = true) := by
  have low : ∀ (id : Int) (i : Nat), i < 47 → (newHeader id).getLsbD i = false := by
    intro id i hi
    unfold newHeader
    rw [BitVec.getLsbD_shiftLeft]
    simp [hi]
  have tid : ∀ id : Int, 0 ≤ id → id < 2 ^ 15 → typeId (newHeader id) = id := by
    intro id h0 h1
    unfold newHeader
    rw [typeId_shift, BitVec.toNat_ofInt, Int.bmod_def]
    split <;> omega
  have rolow : ∀ (id : Int) (i : Nat), i < 47 → (readOnlyGcHeader id).getLsbD i = (2#64).getLsbD i := by
    intro id i hi
    unfold readOnlyGcHeader
    rw [BitVec.getLsbD_setWidth, BitVec.getLsbD_or, BitVec.getLsbD_shiftLeft]
    simp [hi, show i < 63 by omega]
  refine ⟨fun h b x hx hm => ⟨_, Ends.setMark hx hm, rfl, rfl, isMarked_set _, typeId_set _, isReadOnly_set _⟩,
    fun h b x hx hm => ⟨{ x with header := x.header &&& ~~~0x1#63 }, ?_, rfl, rfl, isMarked_clear _, typeId_clear _, isReadOnly_clear _⟩,
    fun id h0 h1 => ⟨tid id h0 h1, ?_, ?_⟩, fun id h0 h1 => ⟨?_, ?_, ?_⟩⟩
  · refine (Ends.block hx).bind ?_
    rw [hm]
    exact (Ends.block hx).bind rfl
  · rw [isMarked_bit, low _ _ (by omega)]
  · rw [isReadOnly_bit, low _ _ (by omega)]
  · rw [typeId_readOnly, tid id h0 h1]
  · rw [isMarked_bit, rolow _ _ (by omega)]; decide
  · rw [isReadOnly_bit, rolow _ _ (by omega)]; decide

example : typeId (newHeader 1234) = 1234 := (C42_partial.2.2.1 1234 (by decide) (by decide)).1

/-- The claim is false: from id 2^15 on the id is read back as a negative number, and from 2^16 on as the id of another
type. -/
theorem C42_violated : typeId (newHeader 32768) = -32768 ∧ typeId (newHeader 65541) = 5 := by decide

/-! ### C43 -/

/-- No int and no bool of the program passes the pointer test, whatever its value; and the pointer test accepts the
address of the object in every block that `calloc` returns: 16-aligned, not in the first page, in the lower half of the
address space. -/
theorem C43 :
    (∀ n : BitVec 63, isReal (Gen.Val.int n).enc = false) ∧ (∀ b : Bool, isReal (Gen.Val.bool b).enc = false) ∧
    (∀ a : Nat, a % 16 = 0 → 4096 ≤ a → a < 2 ^ 47 → isReal (BitVec.ofNat 64 a + 16) = true) := by
  refine ⟨fun n => ?_, fun b => ?_, fun a h1 h2 h3 => ?_⟩
  · rw [← Bool.not_eq_true, isReal_iff]
    rintro ⟨h, -⟩
    have : ((Gen.Val.int n).enc).toNat % 2 = 1 := by
      have hb : ((Gen.Val.int n).enc).getLsbD 0 = true := by
        unfold Gen.Val.enc
        simp
      rw [BitVec.getLsbD, Nat.testBit_zero] at hb
      simpa using hb
    omega
  · cases b <;> decide
  · rw [isReal_iff, BitVec.toNat_add, BitVec.toNat_ofNat]
    simp
    omega

example : isReal (BitVec.ofNat 64 0x5555_0000_1010 + 16) = true := C43.2.2 _ (by decide) (by decide) (by decide)

end Clara.Props
