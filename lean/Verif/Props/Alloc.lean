import Verif.Gc.AllocProof
/-
C80: a new object is fresh and nothing that is rooted is lost.
C81: arrays have room for their elements.
-/
namespace Clara.Props
open Clara.Gc

variable {calloc : Calloc} {table : List TypeInfo} {h : Heap} {addrs : List Word}

/-! ### C80 -/

/-- `claralloc` collects, and then: for the size 0, for a size below -16 and when `calloc` fails it panics.  Otherwise the
new block is the one that `calloc` gave for 16 bytes more than the size; it is none of the blocks that were kept, it has the
type id that was asked for, no mark, no read-only bit, and zeros in all words; its object passes the pointer test; all other
blocks are as the collection left them; no blocks overlap; and the heap is well formed, so that the next collection finds
the block.
What is missing: the sizes from -16 to -1; see `C80_violated`. -/
theorem C80_partial (ok : CallocOk calloc) (wf : WF table h addrs) (ap : Apart h) (own : Frame) (stack : List Frame) (runtime : Word)
    (hroots : ∀ w ∈ rootWords own stack runtime, Live h w) (size : BitVec 63) (hs : size.toInt < -16 ∨ 0 ≤ size.toInt)
    (id : Int) (fit : Fits table id (size.toInt.toNat / 8)) :
    ∃ h1 kept, Ends (gc table own stack runtime) h () h1 ∧ Collected table h addrs (rootWords own stack runtime) h1 kept ∧
      (size.toInt ≤ 0 ∨ calloc h1 (size.toInt.toNat + 16) = 0 →
        Fails (claralloc calloc table own stack runtime size id) h .panic) ∧
      (0 < size.toInt → calloc h1 (size.toInt.toNat + 16) ≠ 0 → ∃ b h' x, b = calloc h1 (size.toInt.toNat + 16) ∧
        Ends (claralloc calloc table own stack runtime size id) h (b + 16) h' ∧
        b ∉ kept ∧ isReal (b + 16) = true ∧ h'.block b = some x ∧ typeId x.header = id ∧ isMarked x.header = false ∧
        isReadOnly x.header = false ∧ x.body = List.replicate (size.toInt.toNat / 8) 0 ∧
        (∀ c, c ≠ b → h'.block c = h1.block c) ∧ Apart h' ∧ WF table h' (b :: kept)) := by
  obtain ⟨h1, kept, g1, wf1, ap1, g2, a1, a2, a3⟩ := claralloc_run ok wf ap own stack runtime hroots size id
  have hlt := BitVec.toInt_lt (x := size)
  refine ⟨h1, kept, g1, g2, fun hc => a1 ?_, fun h0 hc => ?_⟩
  · by_cases hz : size.toInt = 0
    · exact .inl (Classical.byContradiction fun h => toInt_ne_zero.1 h hz)
    · refine .inr ?_
      rcases request_cases size with ⟨r1, r2, r3⟩ | ⟨r1, r2⟩
      · rw [r3, show (size.toInt + 16).toNat = size.toInt.toNat + 16 by omega]
        exact hc.resolve_left (by omega)
      · exact calloc_big ok (by omega)
  · rcases request_cases size with ⟨r1, r2, r3⟩ | ⟨r1, r2⟩
    · have r4 : request size = size.toInt.toNat + 16 := by omega
      rw [← r4] at hc ⊢
      obtain ⟨h', rfl, e, ap', wf'⟩ := a3 (toInt_ne_zero.2 (by omega)) hc (by omega)
      have gv := given ok hc
      have hsz : (request size - 16) / 8 = size.toInt.toNat / 8 := by omega
      have ⟨f1, f2, _⟩ := fit
      obtain ⟨t1, t2, t3⟩ := C42_partial.2.2.1 id f1 f2
      refine ⟨_, _, _, rfl, e, fun hk => ?_, gv.real (by omega), push_same _ _ _ _, t1, t2, t3, by simp only [hsz], fun c hne => push_ne _ _ _ hne,
        ap', wf' (by rw [hsz]; exact fit)⟩
      obtain ⟨x, hx, -⟩ := (wf1.alloc _).1 hk
      rw [gv.fresh] at hx
      cases hx
    · exact absurd (calloc_big ok (by omega)) hc

/-- A constructor: the new object has the words that it was given, also when they point to objects that the collection in
between would free if they were not rooted.  Without a word, as for a structure that has no fields, it panics. -/
theorem C80_object (ok : CallocOk calloc) (wf : WF table h addrs) (ap : Apart h) (own : Frame) (stack : List Frame) (runtime : Word)
    (hroots : ∀ w ∈ rootWords own stack runtime, Live h w) (id : Int) (words : List Word)
    (hw : ∀ w ∈ words, isReal w = true → w ∈ rootWords own stack runtime)
    (fit : Fits table id words.length) (ht : ∃ roots, table[id.toNat]? = some (.struct roots)) (small : words.length < 2 ^ 58) :
    ∃ h1 kept, Ends (gc table own stack runtime) h () h1 ∧ Collected table h addrs (rootWords own stack runtime) h1 kept ∧
      (words = [] ∨ calloc h1 (8 * words.length + 16) = 0 → Fails (construct calloc table own stack runtime id words) h .panic) ∧
      (words ≠ [] → calloc h1 (8 * words.length + 16) ≠ 0 → ∃ b h' x, b = calloc h1 (8 * words.length + 16) ∧
        Ends (construct calloc table own stack runtime id words) h (b + 16) h' ∧
        b ∉ kept ∧ isReal (b + 16) = true ∧ h'.block b = some x ∧ typeId x.header = id ∧ x.body = words ∧
        (∀ c, c ≠ b → h'.block c = h1.block c) ∧ Apart h' ∧ WF table h' (b :: kept) ∧
        (∀ w ∈ rootWords own stack runtime, Live h' w)) := by
  have hsz := object_size small
  have fit' : Fits table id ((BitVec.ofNat 63 (8 * words.length)).toInt.toNat / 8) := by
    rw [hsz, show (8 * (words.length : Int)).toNat / 8 = words.length by omega]
    exact fit
  obtain ⟨h1, kept, g1, wf1, ap1, g2, a1, a2, a3⟩ := claralloc_run ok wf ap own stack runtime hroots (BitVec.ofNat 63 (8 * words.length)) id
  have hreq : request (BitVec.ofNat 63 (8 * words.length)) = 8 * words.length + 16 := by
    rcases request_cases (BitVec.ofNat 63 (8 * words.length)) with ⟨-, -, r3⟩ | ⟨r1, -⟩ <;> omega
  rw [hreq] at a1 a2 a3
  have hlen : words = [] ↔ BitVec.ofNat 63 (8 * words.length) = 0 := by
    constructor
    · rintro rfl; rfl
    · intro e
      have : (BitVec.ofNat 63 (8 * words.length)).toInt = 0 := by rw [e]; rfl
      exact List.length_eq_zero_iff.1 (by omega)
  refine ⟨h1, kept, g1, g2, fun hc => ?_, fun hne hc => ?_⟩
  · unfold construct
    exact Fails.first (a1 (hc.imp_left hlen.1))
  · obtain ⟨h2, e, e2, ap2, wf2⟩ := a3 (fun h => hne (hlen.2 h)) hc (by omega)
    have gvr := (given ok hc).real (by omega)
    have gvf := (given ok hc).fresh
    generalize hb : calloc h1 (8 * words.length + 16) = b at *
    have h8 : (8 * words.length + 16 - 16) / 8 = words.length := by omega
    rw [h8] at e wf2
    have ⟨f1, f2, _⟩ := fit
    have t1 := (C42_partial.2.2.1 id f1 f2).1
    have hbb : b + 16 - 16 = b := BitVec.add_sub_cancel b 16
    have hx : h2.block (b + 16 - 16) = some { next := h1.blocks, header := newHeader id, body := List.replicate words.length 0 } := by
      rw [hbb, e]; exact push_same _ _ _ _
    have hrl : ∀ w ∈ rootWords own stack runtime, Live h2 w := fun w hw => by
      rw [e]; exact rooted_live g2 hw (hroots w hw)
    obtain ⟨h', e3, wf3, ap3, lv, eq⟩ := setFields_ends (p := b + 16) words 0 hx (by simp) (wf2 fit) ap2
      (fun w hm hr => hrl w (hw w hm hr) hr) (by
        show table[(typeId (newHeader id)).toNat]? ≠ _
        obtain ⟨roots, hr⟩ := ht
        rw [t1, hr]
        simp)
    rw [hbb] at eq
    refine ⟨b, h', { next := h1.blocks, header := newHeader id, body := words }, rfl, ?_, fun hk => ?_, gvr, ?_, t1, rfl,
      fun c hc => ?_, ap3, wf3, fun w hw => lv w (hrl w hw)⟩
    · unfold construct
      exact e2.bind (e3.bind (Ends.pure _ _))
    · obtain ⟨x, hx, -⟩ := (wf1.alloc _).1 hk
      rw [gvf] at hx
      cases hx
    · rw [eq, set_same]
      simp
    · rw [eq, set_ne _ _ hc, e, push_ne _ _ _ hc]

/-! ### C81 -/

/-- `array(length, …)` for the lengths whose size does not overflow: for a negative length it panics; otherwise the new
object has the length in its first word and behind it one word for each element, zero for `intArray` and the default for
`array(length, default)`; and the heap is well formed.
What is missing: the lengths -3 and -2 and those from 2^59 on; see `C81_violated`. -/
theorem C81_array_partial (ok : CallocOk calloc) (wf : WF table h addrs) (ap : Apart h) (own : Frame) (stack : List Frame) (runtime : Word)
    (hroots : ∀ w ∈ rootWords own stack runtime, Live h w) (length : BitVec 63)
    (hl : -2 ^ 59 ≤ length.toInt ∧ length.toInt < 2 ^ 59) (hn : length.toInt ≠ -3 ∧ length.toInt ≠ -2)
    (id : Int) (fit : Fits table id 1) (ht : table[id.toNat]? = some (.array true) ∨ table[id.toNat]? = some (.array false))
    (d : Word) (hd : isReal d = true → d ∈ rootWords own stack runtime) :
    ∃ h1 kept, Ends (gc table own stack runtime) h () h1 ∧ Collected table h addrs (rootWords own stack runtime) h1 kept ∧
      (length.toInt < 0 ∨ calloc h1 (8 * length.toInt.toNat + 24) = 0 →
        Fails (newArray calloc table own stack runtime length id) h .panic ∧
        Fails (filledArray calloc table own stack runtime length id d) h .panic) ∧
      (0 ≤ length.toInt → calloc h1 (8 * length.toInt.toNat + 24) ≠ 0 → ∃ b, b = calloc h1 (8 * length.toInt.toNat + 24) ∧
        b ∉ kept ∧ isReal (b + 16) = true ∧
        (∃ h' x, Ends (newArray calloc table own stack runtime length id) h (b + 16) h' ∧ h'.block b = some x ∧
          typeId x.header = id ∧ x.body = (Gen.Val.int length).enc :: List.replicate length.toInt.toNat 0 ∧
          (∀ c, c ≠ b → h'.block c = h1.block c) ∧ Apart h' ∧ WF table h' (b :: kept) ∧
          (∀ w ∈ rootWords own stack runtime, Live h' w)) ∧
        (∃ h' x, Ends (filledArray calloc table own stack runtime length id d) h (b + 16) h' ∧ h'.block b = some x ∧
          typeId x.header = id ∧ x.body = (Gen.Val.int length).enc :: List.replicate length.toInt.toNat d ∧
          (∀ c, c ≠ b → h'.block c = h1.block c) ∧ Apart h' ∧ WF table h' (b :: kept) ∧
          (∀ w ∈ rootWords own stack runtime, Live h' w))) := by
  obtain ⟨h1, kept, g1, wf1, ap1, g2, a1, a2, a3⟩ := claralloc_run ok wf ap own stack runtime hroots (length * 8 + 8) id
  have hsz := array_size length hl
  refine ⟨h1, kept, g1, g2, fun hc => ?_, fun h0 hc => ?_⟩
  · have : Fails (newArray calloc table own stack runtime length id) h .panic := by
      unfold newArray
      refine Fails.first (a1 ?_)
      by_cases hz : length * 8 + 8 = 0
      · exact .inl hz
      · refine .inr ?_
        have hz' := toInt_ne_zero.1 hz
        rcases request_cases (length * 8 + 8) with ⟨r1, r2, r3⟩ | ⟨r1, r2⟩
        · rw [r3, show ((length * 8 + 8).toInt + 16).toNat = 8 * length.toInt.toNat + 24 by omega]
          exact hc.resolve_left (by omega)
        · exact calloc_big ok (by omega)
    exact ⟨this, by unfold filledArray; exact Fails.first this⟩
  · have hbig : 8 * length.toInt.toNat + 24 ≤ 2 ^ 47 := Classical.byContradiction fun hlt => hc (calloc_big ok (by omega))
    have r4 : request (length * 8 + 8) = 8 * length.toInt.toNat + 24 := by
      rcases request_cases (length * 8 + 8) with ⟨r1, r2, r3⟩ | ⟨r1, r2⟩ <;> omega
    rw [r4] at a3
    obtain ⟨h2, e, e2, ap2, wf2⟩ := a3 (toInt_ne_zero.2 (by omega)) hc (by omega)
    have gvr := (given ok hc).real (by omega)
    have gvf := (given ok hc).fresh
    generalize hb : calloc h1 (8 * length.toInt.toNat + 24) = b at *
    have h8 : (8 * length.toInt.toNat + 24 - 16) / 8 = length.toInt.toNat + 1 := by omega
    rw [h8] at e wf2
    have ⟨f1, f2, t, f3, f4⟩ := fit
    have t1 := (C42_partial.2.2.1 id f1 f2).1
    have fit' : Fits table id (length.toInt.toNat + 1) := by
      refine ⟨f1, f2, t, f3, ?_⟩
      rcases ht with ht | ht
      · rw [ht] at f3; cases f3
        show 1 ≤ _
        omega
      · rw [ht] at f3; cases f3
        trivial
    have hbb : b + 16 - 16 = b := BitVec.add_sub_cancel b 16
    have hx : h2.block (b + 16 - 16) = some { next := h1.blocks, header := newHeader id, body := List.replicate (length.toInt.toNat + 1) 0 } := by
      rw [hbb, e]; exact push_same _ _ _ _
    have hrl : ∀ w ∈ rootWords own stack runtime, Live h2 w := fun w hw => by
      rw [e]; exact rooted_live g2 hw (hroots w hw)
    have e3 := setWord_ends (w := tagged length) (k := 0) hx (by simp)
    have wf3 := store_wf (k := 0) (w := tagged length) (wf2 fit') hx (fun hr => by rw [not_real_tagged] at hr; cases hr) (fun _ _ => by
      refine ⟨?_, fun i v hv => ?_⟩
      · rw [intOf_tagged]
        show _ ≤ ((List.replicate (length.toInt.toNat + 1) (0 : Word)).length : Int)
        rw [List.length_replicate]
        omega
      · have : v = 0 := List.eq_of_mem_replicate (List.mem_of_getElem? hv)
        rw [this]
        exact not_real_zero)
    have ap3 := set_apart ap2 (y := { next := h1.blocks, header := newHeader id, body := (List.replicate (length.toInt.toNat + 1) 0).set 0 (tagged length) })
      hx (List.length_set ..)
    have hbody : (List.replicate (length.toInt.toNat + 1) (0 : Word)).set 0 (tagged length) = tagged length :: List.replicate length.toInt.toNat 0 := rfl
    simp only [hbody] at e3 wf3 ap3
    rw [hbb] at wf3 e3 ap3
    have eA : Ends (newArray calloc table own stack runtime length id) h (b + 16)
        (h2.set b { next := h1.blocks, header := newHeader id, body := tagged length :: List.replicate length.toInt.toNat 0 }) := by
      unfold newArray
      exact e2.bind (e3.bind (Ends.pure _ _))
    refine ⟨b, rfl, fun hk => ?_, gvr, ⟨_, _, eA, set_same _ _ _, t1, rfl, fun c hc => ?_, ap3, wf3, fun w hw => set_live (hrl w hw)⟩, ?_⟩
    · obtain ⟨x, hx, -⟩ := (wf1.alloc _).1 hk
      rw [gvf] at hx
      cases hx
    · rw [set_ne _ _ hc, e, push_ne _ _ _ hc]
    · have hx3 : (h2.set b { next := h1.blocks, header := newHeader id, body := tagged length :: List.replicate length.toInt.toNat 0 }).block (b + 16 - 16) =
          some { next := h1.blocks, header := newHeader id, body := tagged length :: List.replicate length.toInt.toNat 0 } := by
        rw [hbb]; exact set_same _ _ _
      obtain ⟨h4, e4, wf4, ap4, lv, eq⟩ := fillLoop_ends (p := b + 16) (d := d) length.toInt.toNat 0 hx3
        (by simp; omega) wf3 ap3 (fun hr => set_live (hrl d (hd hr)) hr)
      rw [hbb, set_set] at eq
      refine ⟨h4, { next := h1.blocks, header := newHeader id, body := tagged length :: List.replicate length.toInt.toNat d }, ?_, ?_, t1, rfl,
        fun c hc => ?_, ap4, wf4, fun w hw => lv w (set_live (hrl w hw))⟩
      · unfold filledArray
        refine eA.bind ?_
        refine (Ends.word (r := 0) hx3 rfl).bind ?_
        rw [intOf_tagged]
        refine Ends.bind (h1 := h4) (a := ()) ?_ (Ends.pure _ _)
        have e5 : ((0 + length.toInt.toNat : Nat) : Int) = length.toInt := by omega
        rw [e5] at e4
        exact e4
      · rw [eq, set_same]
        simp
      · rw [eq, set_ne _ _ hc, e, push_ne _ _ _ hc]

/-- `Bytes(length)` for a length that is not negative: it panics if `calloc` fails; otherwise the block is the one that
`calloc` gave for the two words of the block, the length word and `length` bytes. -/
theorem C81_bytes_partial (ok : CallocOk calloc) (wf : WF table h addrs) (ap : Apart h) (own : Frame) (stack : List Frame) (runtime : Word)
    (hroots : ∀ w ∈ rootWords own stack runtime, Live h w) (length : BitVec 63) (hl : 0 ≤ length.toInt)
    (ht : table[1]? = some .bytes) :
    ∃ h1 kept, Ends (gc table own stack runtime) h () h1 ∧ Collected table h addrs (rootWords own stack runtime) h1 kept ∧
      (calloc h1 (16 + 8 + length.toInt.toNat) = 0 → Fails (newBytesBlock calloc table own stack runtime length) h .panic) ∧
      (calloc h1 (16 + 8 + length.toInt.toNat) ≠ 0 → ∃ b h' x, b = calloc h1 (16 + 8 + length.toInt.toNat) ∧
        b ∉ kept ∧ isReal (b + 16) = true ∧ Ends (newBytesBlock calloc table own stack runtime length) h (b + 16) h' ∧
        h'.block b = some x ∧ typeId x.header = 1 ∧ x.body = (Gen.Val.int length).enc :: List.replicate (length.toInt.toNat / 8) 0 ∧
        (∀ c, c ≠ b → h'.block c = h1.block c) ∧ Apart h' ∧ WF table h' (b :: kept) ∧
        (∀ w ∈ rootWords own stack runtime, Live h' w)) := by
  obtain ⟨h1, kept, g1, wf1, ap1, g2, a1, a2, a3⟩ := claralloc_run ok wf ap own stack runtime hroots (length + 8) 1
  have hsz := bytes_size length
  have hlt := BitVec.toInt_lt (x := length)
  refine ⟨h1, kept, g1, g2, fun hc => ?_, fun hc => ?_⟩
  · unfold newBytesBlock
    refine Fails.first (a1 (.inr ?_))
    rcases request_cases (length + 8) with ⟨r1, r2, r3⟩ | ⟨r1, r2⟩
    · rw [r3, show ((length + 8).toInt + 16).toNat = 16 + 8 + length.toInt.toNat by omega]
      exact hc
    · exact calloc_big ok (by omega)
  · have hbig : 16 + 8 + length.toInt.toNat ≤ 2 ^ 47 := Classical.byContradiction fun hlt => hc (calloc_big ok (by omega))
    have r4 : request (length + 8) = 16 + 8 + length.toInt.toNat := by
      rcases request_cases (length + 8) with ⟨r1, r2, r3⟩ | ⟨r1, r2⟩ <;> omega
    rw [r4] at a3
    obtain ⟨h2, e, e2, ap2, wf2⟩ := a3 (toInt_ne_zero.2 (by omega)) hc (by omega)
    have gvr := (given ok hc).real (by omega)
    have gvf := (given ok hc).fresh
    generalize hb : calloc h1 (16 + 8 + length.toInt.toNat) = b at *
    have h8 : (16 + 8 + length.toInt.toNat - 16) / 8 = length.toInt.toNat / 8 + 1 := by omega
    rw [h8] at e wf2
    have t1 := (C42_partial.2.2.1 1 (by decide) (by decide)).1
    have fit' : Fits table 1 (length.toInt.toNat / 8 + 1) := ⟨by decide, by decide, .bytes, ht, trivial⟩
    have hbb : b + 16 - 16 = b := BitVec.add_sub_cancel b 16
    have hx : h2.block (b + 16 - 16) = some { next := h1.blocks, header := newHeader 1, body := List.replicate (length.toInt.toNat / 8 + 1) 0 } := by
      rw [hbb, e]; exact push_same _ _ _ _
    have hrl : ∀ w ∈ rootWords own stack runtime, Live h2 w := fun w hw => by
      rw [e]; exact rooted_live g2 hw (hroots w hw)
    have e3 := setWord_ends (w := tagged length) (k := 0) hx (by simp)
    have wf3 := store_wf (k := 0) (w := tagged length) (wf2 fit') hx (fun hr => by rw [not_real_tagged] at hr; cases hr) (fun hh => by
      replace hh : table[(typeId (newHeader 1)).toNat]? = some (TypeInfo.array true) := hh
      rw [t1, show (1 : Int).toNat = 1 from rfl, ht] at hh
      cases hh)
    have ap3 := set_apart ap2 (y := { next := h1.blocks, header := newHeader 1, body := (List.replicate (length.toInt.toNat / 8 + 1) 0).set 0 (tagged length) })
      hx (List.length_set ..)
    rw [hbb] at wf3 e3 ap3
    refine ⟨b, _, _, rfl, fun hk => ?_, gvr, e2.bind (e3.bind (Ends.pure _ _)), set_same _ _ _, t1, rfl, fun c hc => ?_, ap3, wf3,
      fun w hw => set_live (hrl w hw)⟩
    · obtain ⟨x, hx, -⟩ := (wf1.alloc _).1 hk
      rw [gvf] at hx
      cases hx
    · rw [set_ne _ _ hc, e, push_ne _ _ _ hc]

/-! ### Whole runs -/

/-- Whatever a program does - it holds numbers, literals and what it loads from objects it holds, it stores held words into
held objects, it makes objects and arrays, and across these it keeps only what is in root slots - no word that it holds
ever points to an object that was freed, no two objects overlap, and the collector always finds a well-formed heap. -/
theorem C80_run (ok : CallocOk calloc) (wf : WF table h []) (ap : Apart h) {s : Heap × List Word}
    (r : Steps calloc table (h, []) s) :
    (∀ w ∈ s.2, isReal w = true → ∃ x, s.1.block (w - 16) = some x) ∧ Apart s.1 ∧ ∃ addrs, WF table s.1 addrs := by
  induction r with
  | refl =>
    exact ⟨fun w hw => (by cases hw), ap, [], wf⟩
  | tail hst st ih =>
    obtain ⟨lv, ap1, addrs, wf1⟩ := ih
    cases st with
    | number hw =>
      refine ⟨fun w hm hr => ?_, ap1, addrs, wf1⟩
      rcases List.mem_cons.1 hm with rfl | hm
      · rw [hw] at hr; cases hr
      · exact lv w hm hr
    | static hx ro =>
      refine ⟨fun w hm hr => ?_, ap1, addrs, wf1⟩
      rcases List.mem_cons.1 hm with rfl | hm
      · exact ⟨_, hx⟩
      · exact lv w hm hr
    | drop hs => exact ⟨fun w hm hr => lv w (hs w hm) hr, ap1, addrs, wf1⟩
    | load hp hr hx ro hw =>
      refine ⟨fun w hm hr => ?_, ap1, addrs, wf1⟩
      rcases List.mem_cons.1 hm with rfl | hm
      · exact wf1.closed hx ro hw hr
      · exact lv w hm hr
    | store hp hr hx ro hk hw e =>
      obtain ⟨-, rfl⟩ := Ends.det e (setWord_ends hx hk.1)
      exact ⟨fun w hm => set_live (lv w hm), set_apart ap1 hx (List.length_set ..), addrs,
        store_wf wf1 hx (lv _ hw) (fun h h0 => absurd h0 (hk.2 h))⟩
    | object hroots hw fit ht small e =>
      rename_i h2 held own stack runtime id words p h'
      obtain ⟨h1, kept, -, -, a1, a2⟩ := C80_object ok wf1 ap1 own stack runtime (fun w hw => lv w (hroots w hw)) id words hw fit ht small
      by_cases hc : words = [] ∨ calloc h1 (8 * words.length + 16) = 0
      · exact (Ends.not_fails e (a1 hc)).elim
      · obtain ⟨b, h'', x, -, e', -, -, hx, -, -, -, ap', wf', lv'⟩ := a2 (fun h => hc (.inl h)) (fun h => hc (.inr h))
        obtain ⟨rfl, rfl⟩ := Ends.det e e'
        refine ⟨fun w hm hr => ?_, ap', _, wf'⟩
        rcases List.mem_cons.1 hm with rfl | hm
        · exact ⟨x, by rw [BitVec.add_sub_cancel]; exact hx⟩
        · exact lv' w hm hr
    | array hroots fit ht hl hn e =>
      rename_i h2 held own stack runtime length id p h'
      obtain ⟨h1, kept, -, -, a1, a2⟩ := C81_array_partial ok wf1 ap1 own stack runtime (fun w hw => lv w (hroots w hw)) length hl hn id fit ht 0
        (fun hr => by rw [not_real_zero] at hr; cases hr)
      by_cases hc : length.toInt < 0 ∨ calloc h1 (8 * length.toInt.toNat + 24) = 0
      · exact (Ends.not_fails e (a1 hc).1).elim
      · obtain ⟨b, -, -, -, ⟨h'', x, e', hx, -, -, -, ap', wf', lv'⟩, -⟩ := a2 (by omega) (fun h => hc (.inr h))
        obtain ⟨rfl, rfl⟩ := Ends.det e e'
        refine ⟨fun w hm hr => ?_, ap', _, wf'⟩
        rcases List.mem_cons.1 hm with rfl | hm
        · exact ⟨x, by rw [BitVec.add_sub_cancel]; exact hx⟩
        · exact lv' w hm hr
    | bytes hroots ht hl e =>
      rename_i h2 held own stack runtime length p h'
      obtain ⟨h1, kept, -, -, a1, a2⟩ := C81_bytes_partial ok wf1 ap1 own stack runtime (fun w hw => lv w (hroots w hw)) length hl ht
      by_cases hc : calloc h1 (16 + 8 + length.toInt.toNat) = 0
      · exact (Ends.not_fails e (a1 hc)).elim
      · obtain ⟨b, h'', x, -, -, -, e', hx, -, -, -, ap', wf', lv'⟩ := a2 hc
        obtain ⟨rfl, rfl⟩ := Ends.det e e'
        refine ⟨fun w hm hr => ?_, ap', _, wf'⟩
        rcases List.mem_cons.1 hm with rfl | hm
        · exact ⟨x, by rw [BitVec.add_sub_cancel]; exact hx⟩
        · exact lv' w hm hr

/-! ### Where the claims are false -/

/-- A heap without objects. -/
def noHeap : Heap := { block := fun _ => none, blocks := 0 }
def noFrame : Frame := { callRoots := [], slot := fun _ => 0 }

theorem noHeap_wf (table : List TypeInfo) : WF table noHeap [] where
  nodup := List.nodup_nil
  alloc b := by simp [noHeap]
  valid b hb := by cases hb
  shaped hx := by cases hx
  closed hx := by cases hx
  unmarked hx := by cases hx
  chain := rfl

theorem noHeap_apart : Apart noHeap := fun _ _ _ _ hx => by cases hx

/-- The words on the stack of a program without live pointers. -/
theorem noFrame_roots : ∀ w ∈ rootWords noFrame [noFrame] 0, Live noHeap w := by
  intro w hw hr
  have : w = 0 := by
    have e : rootWords noFrame [noFrame] 0 = [0] := by decide
    rw [e] at hw
    simpa using hw
  rw [this, not_real_zero] at hr
  cases hr

/-- A function that meets what libc says of `calloc`: it gives away one block, above all others. -/
def topCalloc : Calloc := fun h n =>
  open Classical in
  if n ≤ 4096 ∧ ∀ b x, h.block b = some x → b ≠ 0x10000 ∧ (0x10000 + n ≤ b.toNat ∨ b.toNat + (16 + 8 * x.body.length) ≤ 0x10000) then 0x10000 else 0

theorem topCalloc_ok : CallocOk topCalloc := by
  intro h n
  unfold topCalloc
  split
  · rename_i hc
    refine .inr ⟨by decide, by decide, ?_, hc.2⟩
    have : (0x10000 : Word).toNat = 0x10000 := rfl
    rw [this]
    omega
  · exact .inl rfl

theorem topCalloc_gives {h1 : Heap} (hb : ∀ b, h1.block b = none) {n : Nat} (hn : n ≤ 4096) : topCalloc h1 n = 0x10000 := by
  unfold topCalloc
  rw [if_pos ⟨hn, fun b x hx => by rw [hb] at hx; cases hx⟩]

/-- The claim is false: for the size -16 `calloc` is asked for no bytes at all; when it answers with an address, as glibc's
does, the header is written behind the block. -/
theorem C80_violated : ∃ (calloc : Calloc) (h : Heap) (size : BitVec 63), CallocOk calloc ∧ WF [.array false] h [] ∧ size.toInt = -16 ∧
    Fails (claralloc calloc [.array false] noFrame [noFrame] 0 size 0) h .wild := by
  refine ⟨topCalloc, noHeap, BitVec.ofInt 63 (-16), topCalloc_ok, noHeap_wf _, by decide, ?_⟩
  obtain ⟨h1, kept, g1, -, -, g2, -, a2, -⟩ := claralloc_run topCalloc_ok (noHeap_wf [.array false]) noHeap_apart noFrame [noFrame] 0 noFrame_roots (BitVec.ofInt 63 (-16)) 0
  refine a2 (by decide) ?_ (by decide)
  rw [topCalloc_gives (fun b => g2.other b (by simp)) (by decide)]
  decide

/-- The claim is false: `array(-3)` writes the header of its block behind the block; and 2^60 elements are given a block
with no room for any of them, with the length 2^60, so that every index passes the check of bounds; and `Bytes(-1)` writes its length behind the block. -/
theorem C81_violated :
    (∃ (calloc : Calloc) (h : Heap), CallocOk calloc ∧ WF [.array false] h [] ∧
      Fails (newArray calloc [.array false] noFrame [noFrame] 0 (BitVec.ofInt 63 (-3)) 0) h .wild) ∧
    (∃ (calloc : Calloc) (h h' : Heap) (p : Word) (x : Block), CallocOk calloc ∧ WF [.array false] h [] ∧
      Ends (newArray calloc [.array false] noFrame [noFrame] 0 (BitVec.ofInt 63 (2 ^ 60)) 0) h p h' ∧
      h'.block (p - 16) = some x ∧ x.body = [(Gen.Val.int (BitVec.ofInt 63 (2 ^ 60))).enc] ∧ intOf (x.body.headD 0) = 2 ^ 60) ∧
    (∃ (calloc : Calloc) (h : Heap), CallocOk calloc ∧ WF [.array false, .bytes] h [] ∧
      Fails (newBytesBlock calloc [.array false, .bytes] noFrame [noFrame] 0 (BitVec.ofInt 63 (-1))) h .wild) := by
  refine ⟨?_, ?_, ?_⟩
  · refine ⟨topCalloc, noHeap, topCalloc_ok, noHeap_wf _, ?_⟩
    obtain ⟨h1, kept, g1, -, -, g2, -, a2, -⟩ := claralloc_run topCalloc_ok (noHeap_wf [.array false]) noHeap_apart noFrame [noFrame] 0 noFrame_roots
      (BitVec.ofInt 63 (-3) * 8 + 8) 0
    unfold newArray
    refine Fails.first (a2 (by decide) ?_ (by decide))
    rw [topCalloc_gives (fun b => g2.other b (by simp)) (by decide)]
    decide
  · obtain ⟨h1, kept, g1, -, -, g2, -, -, a3⟩ := claralloc_run topCalloc_ok (noHeap_wf [.array false]) noHeap_apart noFrame [noFrame] 0 noFrame_roots
      (BitVec.ofInt 63 (2 ^ 60) * 8 + 8) 0
    have hc := topCalloc_gives (fun b => g2.other b (by simp)) (show request (BitVec.ofInt 63 (2 ^ 60) * 8 + 8) ≤ 4096 by decide)
    obtain ⟨h2, e, e2, -, -⟩ := a3 (by decide) (by rw [hc]; decide) (by decide)
    rw [hc] at e e2
    have hx : h2.block ((0x10000 : Word) + 16 - 16) = some { next := h1.blocks, header := newHeader 0, body := [0] } := by
      rw [e, show (0x10000 : Word) + 16 - 16 = 0x10000 by decide, push_same]
      rfl
    have e3 := setWord_ends (w := tagged (BitVec.ofInt 63 (2 ^ 60))) (k := 0) hx Nat.zero_lt_one
    refine ⟨topCalloc, noHeap, _, _, _, topCalloc_ok, noHeap_wf _, e2.bind (e3.bind (Ends.pure _ _)), set_same _ _ _, rfl, ?_⟩
    exact intOf_tagged _
  · obtain ⟨h1, kept, g1, -, -, g2, -, -, a3⟩ := claralloc_run topCalloc_ok (noHeap_wf [.array false, .bytes]) noHeap_apart noFrame [noFrame] 0 noFrame_roots
      (BitVec.ofInt 63 (-1) + 8) 1
    have hc := topCalloc_gives (fun b => g2.other b (by simp)) (show request (BitVec.ofInt 63 (-1) + 8) ≤ 4096 by decide)
    obtain ⟨h2, e, e2, -, -⟩ := a3 (by decide) (by rw [hc]; decide) (by decide)
    rw [hc] at e e2
    have hx : h2.block ((0x10000 : Word) + 16 - 16) = some { next := h1.blocks, header := newHeader 1, body := [] } := by
      rw [e, show (0x10000 : Word) + 16 - 16 = 0x10000 by decide, push_same]
      rfl
    refine ⟨topCalloc, noHeap, topCalloc_ok, noHeap_wf _, ?_⟩
    unfold newBytesBlock
    exact Fails.bind e2 (Fails.first (setWord_wild (k := 0) hx (Nat.le_refl 0)))

/-! ### A program that meets the hypotheses -/

def allocExTable : List TypeInfo := [.struct [0, 1], .bytes, .array true]

/-- A first object, with the number 3 in both fields: the program holds it, and it is there. -/
example : ∃ h', Steps topCalloc allocExTable (noHeap, []) (h', [0x10010, 0]) ∧
    (∃ x, h'.block 0x10000 = some x ∧ x.body = [7, 7]) ∧ ∃ addrs, WF allocExTable h' addrs := by
  have h7 : isReal 7 = false := by rw [← Bool.not_eq_true, isReal_iff]; decide
  have hroots : rootWords noFrame [noFrame] 0 = [0] := by decide
  have fit : Fits allocExTable 0 ([7, 7] : List Word).length := ⟨by decide, by decide, .struct [0, 1], rfl, by decide⟩
  have hw : ∀ w ∈ ([7, 7] : List Word), isReal w = true → w ∈ rootWords noFrame [noFrame] 0 := by
    intro w hw hr
    have : w = 7 := by simpa using hw
    rw [this, h7] at hr
    cases hr
  obtain ⟨h1, kept, g1, g2, -, a⟩ := C80_object topCalloc_ok (noHeap_wf allocExTable) noHeap_apart noFrame [noFrame] 0 noFrame_roots 0 [7, 7]
    hw fit ⟨_, rfl⟩ (by decide)
  have hc := topCalloc_gives (fun b => g2.other b (by simp)) (show 8 * ([7, 7] : List Word).length + 16 ≤ 4096 by decide)
  obtain ⟨b, h', x, hb, e, -, -, hx, -, hbody, -⟩ := a (by decide) (by rw [hc]; decide)
  rw [hc] at hb
  subst hb
  have st : Steps topCalloc allocExTable (noHeap, []) (h', [0x10010, 0]) := by
    refine .tail (.tail .refl (.number (w := 0) not_real_zero)) ?_
    have := Step.object (calloc := topCalloc) (table := allocExTable) (held := [0]) (by rw [hroots]; simp) hw fit ⟨_, rfl⟩ (by decide) e
    rwa [hroots] at this
  exact ⟨h', st, ⟨x, hx, hbody⟩, (C80_run topCalloc_ok (noHeap_wf _) noHeap_apart st).2.2⟩

/-- The lengths 0, 1000 and -1 meet the hypotheses of `C81_array_partial`. -/
example : ∀ n ∈ [0, 1000, -1], -2 ^ 59 ≤ (BitVec.ofInt 63 n).toInt ∧ (BitVec.ofInt 63 n).toInt < 2 ^ 59 ∧ (BitVec.ofInt 63 n).toInt ≠ -3 := by decide

end Clara.Props
