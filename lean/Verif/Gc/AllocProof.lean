import Verif.Gc.Alloc
import Verif.Props.Gc
import Verif.Gen.Word
/-
Allocation: the proofs.
-/
namespace Clara.Gc
open Clara.Props (C41 C42_partial C43 points_next shaped_next valid_of)

variable {α β : Type} {h h1 h2 h' : Heap} {table : List TypeInfo} {addrs : List Word} {calloc : Calloc}

theorem Fails.bind {x : GM α} {f : α → GM β} {a : α} {e : Err} (hx : Ends x h a h1) (hf : Fails (f a) h1 e) :
    Fails (x >>= f) h e := by
  unfold Ends Fails at *
  show (StateT.bind x f) h = _
  unfold StateT.bind
  rw [hx]
  exact hf

theorem Fails.first {x : GM α} {f : α → GM β} {e : Err} (hx : Fails x h e) : Fails (x >>= f) h e := by
  unfold Fails at *
  show (StateT.bind x f) h = _
  unfold StateT.bind
  rw [hx]
  rfl

theorem Ends.det {x : GM α} {a b : α} (e1 : Ends x h a h1) (e2 : Ends x h b h2) : a = b ∧ h1 = h2 := by
  unfold Ends at *
  rw [e1] at e2
  cases e2
  exact ⟨rfl, rfl⟩

theorem Ends.not_fails {x : GM α} {a : α} {e : Err} (e1 : Ends x h a h1) (e2 : Fails x h e) : False := by
  unfold Ends Fails at *
  rw [e1] at e2
  cases e2

/-! ### Numbers -/

theorem request_cases (size : BitVec 63) :
    (0 ≤ size.toInt + 16 ∧ size.toInt + 16 < 2 ^ 62 ∧ request size = (size.toInt + 16).toNat) ∨
    ((size.toInt + 16 < 0 ∨ 2 ^ 62 ≤ size.toInt + 16) ∧ 2 ^ 63 ≤ request size) := by
  have h1 : (size + 16#63).toInt = (size.toInt + 16).bmod (2 ^ 63) := by
    rw [BitVec.toInt_add]
    rfl
  have h2 : ((size + 16#63).signExtend 64).toInt = (size + 16#63).toInt := BitVec.toInt_signExtend_of_le (by omega)
  have h3 := BitVec.toInt_eq_toNat_cond (x := (size + 16#63).signExtend 64)
  have h4 := BitVec.isLt ((size + 16#63).signExtend 64)
  have h5 := BitVec.toInt_lt (x := size)
  have h6 := BitVec.le_toInt (x := size)
  have h7 : request size = ((size + 16#63).signExtend 64).toNat := rfl
  rw [h2, h1, Int.bmod_def] at h3
  split at h3 <;> split at h3 <;> omega

theorem intOf_tagged (n : BitVec 63) : intOf (tagged n) = n.toInt := by
  have : (tagged n).sshiftRight 1 = n.signExtend 64 := Gen.untag_word n
  unfold intOf
  rw [this, BitVec.toInt_signExtend_of_le (by omega)]

theorem not_real_zero : isReal 0 = false := by
  rw [← Bool.not_eq_true, isReal_iff]
  decide

theorem not_real_tagged (n : BitVec 63) : isReal (tagged n) = false := C43.1 n

/-- The address that `calloc` gives. -/
structure Given (calloc : Calloc) (h : Heap) (n : Nat) : Prop where
  real : 0 < n → isReal (calloc h n + 16) = true
  valid : isValidBlock (calloc h n) = true
  fresh : h.block (calloc h n) = none
  bound : (calloc h n).toNat + n ≤ 2 ^ 47
  apart : ∀ b x, h.block b = some x →
    (calloc h n).toNat + n ≤ b.toNat ∨ b.toNat + (16 + 8 * x.body.length) ≤ (calloc h n).toNat

theorem given (ok : CallocOk calloc) {n : Nat} (h0 : calloc h n ≠ 0) : Given calloc h n := by
  rcases ok h n with e | ⟨a1, a2, a3, a4⟩
  · exact absurd e h0
  · refine ⟨fun hn => ?_, valid_of (by omega) (by omega), ?_, a3, fun b x hx => (a4 b x hx).2⟩
    · have a5 : (calloc h n).toNat < 2 ^ 47 := by omega
      have := C43.2.2 (calloc h n).toNat a1 a2 a5
      rwa [BitVec.ofNat_toNat, BitVec.setWidth_eq] at this
    · cases hb : h.block (calloc h n) with
      | none => rfl
      | some x => exact absurd rfl (a4 _ x hb).1

/-! ### The block is linked -/

/-- The heap with a new first block. -/
def Heap.push (h : Heap) (b : Word) (header : BitVec 63) (body : List Word) : Heap where
  block a := if a = b then some { next := h.blocks, header, body } else h.block a
  blocks := b

theorem push_same (h : Heap) (b : Word) (hd : BitVec 63) (body : List Word) :
    (h.push b hd body).block b = some { next := h.blocks, header := hd, body } := by simp [Heap.push]

theorem push_ne (h : Heap) {a b : Word} (hd : BitVec 63) (body : List Word) (ha : a ≠ b) : (h.push b hd body).block a = h.block a := by
  simp [Heap.push, ha]

theorem link_ends {size : BitVec 63} {id : Int} (hv : isValidBlock (calloc h (request size)) = true) (hn : 16 ≤ request size) :
    Ends (link calloc size id) h (calloc h (request size) + 16)
      (h.push (calloc h (request size)) (newHeader id) (List.replicate ((request size - 16) / 8) 0)) := by
  have hn' : ¬ request size < 16 := by omega
  generalize hb : calloc h (request size) = b at hv
  unfold link
  refine Ends.bind (a := h) (h1 := h) rfl ?_
  simp only [hb, hv]
  rw [if_neg (by decide)]
  refine Ends.bind (a := ()) (h1 := h.set b _) (by unfold cleared; rw [if_neg hn']; rfl) ?_
  refine (Ends.block (set_same _ _ _)).bind ?_
  refine Ends.bind (a := ()) (h1 := (h.set b _).set b _) rfl ?_
  refine (Ends.block (set_same _ _ _)).bind ?_
  refine Ends.bind (a := (h.set b _).set b _) (h1 := (h.set b _).set b _) rfl ?_
  refine Ends.bind (a := ()) (h1 := ((h.set b _).set b _).set b _) rfl ?_
  refine Ends.bind (a := ()) (h1 := h.push b (newHeader id) (List.replicate ((request size - 16) / 8) 0)) ?_ rfl
  unfold Ends
  show some (Except.ok ((), _)) = _
  congr 3
  unfold Heap.push Heap.set
  simp only [Heap.mk.injEq, and_true]
  funext a
  split <;> rfl

theorem link_panics {size : BitVec 63} {id : Int} (hv : isValidBlock (calloc h (request size)) = false) :
    Fails (link calloc size id) h .panic := by
  unfold link
  refine Fails.bind (a := h) (h1 := h) rfl ?_
  simp only [hv]
  rw [if_pos (by decide)]
  exact Fails.first rfl

theorem link_wild {size : BitVec 63} {id : Int} (hv : isValidBlock (calloc h (request size)) = true) (hn : request size < 16) :
    Fails (link calloc size id) h .wild := by
  unfold link
  refine Fails.bind (a := h) (h1 := h) rfl ?_
  simp only [hv]
  rw [if_neg (by decide)]
  refine Fails.first ?_
  unfold cleared
  rw [if_pos hn]
  rfl

theorem push_wf (wf : WF table h addrs) {b : Word} {id : Int} {n : Nat} (fresh : h.block b = none) (hv : isValidBlock b = true)
    (fit : Fits table id n) : WF table (h.push b (newHeader id) (List.replicate n 0)) (b :: addrs) := by
  obtain ⟨f1, f2, t, ft, fs⟩ := fit
  obtain ⟨t1, t2, t3⟩ := C42_partial.2.2.1 id f1 f2
  have hmem : b ∉ addrs := fun hb => by
    obtain ⟨x, hx, -⟩ := (wf.alloc b).1 hb
    rw [fresh] at hx
    cases hx
  refine { nodup := ?_, alloc := fun c => ?_, valid := ?_, shaped := fun {c x} hx => ?_, closed := fun {c x w} hx ro hp hr => ?_,
           unmarked := fun {c x} hx => ?_, chain := ?_ }
  · exact List.nodup_cons.2 ⟨hmem, wf.nodup⟩
  · by_cases hc : c = b
    · subst hc
      rw [push_same]
      exact ⟨fun _ => ⟨_, rfl, t3⟩, fun _ => by simp⟩
    · rw [push_ne _ _ _ hc, List.mem_cons, ← wf.alloc]
      simp [hc]
  · intro c hc
    rcases List.mem_cons.1 hc with rfl | hc
    · exact hv
    · exact wf.valid c hc
  · by_cases hc : c = b
    · subst hc
      rw [push_same] at hx
      cases hx
      refine ⟨id.toNat, t, ?_, ft, fun _ => ?_⟩
      · show typeId (newHeader id) = _
        rw [t1]; omega
      · cases t with
        | struct roots => simpa using fs
        | array p =>
          cases p with
          | false => trivial
          | true =>
            replace fs : 1 ≤ n := fs
            refine ⟨0, ?_, ?_⟩
            · show (List.replicate n (0 : Word))[0]? = _
              rw [List.getElem?_replicate, if_pos (by omega)]
            · show intOf 0 + 1 ≤ ((List.replicate n (0 : Word)).length : Int)
              have : intOf 0 = 0 := by decide
              rw [List.length_replicate, this]
              omega
        | function => exact fs
        | string => trivial
        | bytes => trivial
    · rw [push_ne _ _ _ hc] at hx
      exact wf.shaped hx
  · by_cases hc : c = b
    · subst hc
      rw [push_same] at hx
      cases hx
      have hz : w = 0 := by
        cases hp with
        | field _ _ _ _ _ _ hw => exact List.eq_of_mem_replicate (List.mem_of_getElem? hw)
        | elem _ _ _ _ _ _ _ hw => exact List.eq_of_mem_replicate (List.mem_of_getElem? hw)
      subst hz
      rw [not_real_zero] at hr
      cases hr
    · rw [push_ne _ _ _ hc] at hx
      obtain ⟨y, hy⟩ := wf.closed hx ro hp hr
      refine ⟨y, ?_⟩
      rw [push_ne _ _ _ ?_]
      · exact hy
      · intro e
        rw [e, fresh] at hy
        cases hy
  · by_cases hc : c = b
    · subst hc
      rw [push_same] at hx
      cases hx
      exact t2
    · rw [push_ne _ _ _ hc] at hx
      exact wf.unmarked hx
  · refine ⟨rfl, _, push_same _ _ _ _, wf.chain.congr (fun c hc x hx => ⟨x, ?_, rfl⟩)⟩
    rw [push_ne _ _ _ (fun e => hmem (by rw [← e]; exact hc))]
    exact hx

theorem push_apart (ap : Apart h) {b : Word} {hd : BitVec 63} {body : List Word}
    (hb : ∀ c x, h.block c = some x → b.toNat + (16 + 8 * body.length) ≤ c.toNat ∨ c.toNat + (16 + 8 * x.body.length) ≤ b.toNat) :
    Apart (h.push b hd body) := by
  intro c d x y hx hy hne
  by_cases hc : c = b
  · subst hc
    rw [push_same] at hx
    cases hx
    rw [push_ne _ _ _ (Ne.symm hne)] at hy
    exact hb d y hy
  · rw [push_ne _ _ _ hc] at hx
    by_cases hd : d = b
    · subst hd
      rw [push_same] at hy
      cases hy
      exact (hb c x hx).symm
    · rw [push_ne _ _ _ hd] at hy
      exact ap c d x y hx hy hne

/-- Blocks may go, and links may change. -/
theorem Apart.mono (ap : Apart h) (hs : ∀ b y, h'.block b = some y → ∃ x, h.block b = some x ∧ y.body = x.body) : Apart h' := by
  intro b c x y hx hy hne
  obtain ⟨x', hx', ex⟩ := hs b x hx
  obtain ⟨y', hy', ey⟩ := hs c y hy
  rw [ex, ey]
  exact ap b c x' y' hx' hy' hne

/-! ### Stores -/

theorem setWord_ends {p : Word} {x : Block} {k : Nat} {w : Word} (hx : h.block (p - 16) = some x) (hk : k < x.body.length) :
    Ends (setWord p (k : Int) w) h () (h.set (p - 16) { x with body := x.body.set k w }) := by
  unfold setWord
  refine (Ends.block hx).bind ?_
  rw [if_neg (by omega)]
  rw [if_pos (by omega)]
  rfl

theorem setWord_wild {p : Word} {x : Block} {k : Nat} {w : Word} (hx : h.block (p - 16) = some x) (hk : x.body.length ≤ k) :
    Fails (setWord p (k : Int) w) h .wild := by
  unfold setWord
  refine Fails.bind (Ends.block hx) ?_
  rw [if_neg (by omega)]
  rw [if_neg (by omega)]
  rfl

theorem set_apart (ap : Apart h) {b : Word} {x y : Block} (hx : h.block b = some x) (hl : y.body.length = x.body.length) :
    Apart (h.set b y) := by
  have hs : ∀ c z, (h.set b y).block c = some z → ∃ z', h.block c = some z' ∧ z.body.length = z'.body.length := by
    intro c z hz
    by_cases hc : c = b
    · subst hc
      rw [set_same] at hz
      cases hz
      exact ⟨x, hx, hl⟩
    · rw [set_ne _ _ hc] at hz
      exact ⟨z, hz, rfl⟩
  intro c d u v hu hv hne
  obtain ⟨u', hu', eu⟩ := hs c u hu
  obtain ⟨v', hv', ev⟩ := hs d v hv
  rw [eu, ev]
  exact ap c d u' v' hu' hv' hne

/-- A store of a word keeps the heap well formed, if it does not overwrite the length of an array of pointers, and for
that if the new length leaves the elements in the block and alive. -/
theorem store_wf (wf : WF table h addrs) {b : Word} {x : Block} {k : Nat} {w : Word} (hx : h.block b = some x) (hw : Live h w)
    (hk : table[(typeId x.header).toNat]? = some (.array true) → k = 0 →
      intOf w + 1 ≤ x.body.length ∧ ∀ i v, x.body[i + 1]? = some v → isReal v = false) :
    WF table (h.set b { x with body := x.body.set k w }) addrs := by
  have hback : ∀ c y, (h.set b { x with body := x.body.set k w }).block c = some y →
      ∃ z, h.block c = some z ∧ y.next = z.next ∧ y.header = z.header ∧ (c ≠ b → y = z) ∧ (c = b → y = { x with body := x.body.set k w } ∧ z = x) := by
    intro c y hy
    by_cases hc : c = b
    · subst hc
      rw [set_same] at hy
      cases hy
      exact ⟨x, hx, rfl, rfl, fun h => absurd rfl h, fun _ => ⟨rfl, rfl⟩⟩
    · rw [set_ne _ _ hc] at hy
      exact ⟨y, hy, rfl, rfl, fun _ => rfl, fun e => absurd e hc⟩
  have hforw : ∀ c z, h.block c = some z → ∃ y, (h.set b { x with body := x.body.set k w }).block c = some y ∧ y.next = z.next ∧ y.header = z.header := by
    intro c z hz
    by_cases hc : c = b
    · subst hc
      rw [hx] at hz
      cases hz
      exact ⟨_, set_same _ _ _, rfl, rfl⟩
    · exact ⟨z, by rw [set_ne _ _ hc]; exact hz, rfl, rfl⟩
  refine { nodup := wf.nodup, alloc := fun c => ?_, valid := wf.valid, shaped := fun {c y} hy => ?_, closed := fun {c y v} hy ro hp hr => ?_,
           unmarked := fun {c y} hy => ?_, chain := ?_ }
  · rw [wf.alloc]
    constructor
    · rintro ⟨z, hz, ro⟩
      obtain ⟨y, hy, -, e⟩ := hforw c z hz
      exact ⟨y, hy, by rw [e]; exact ro⟩
    · rintro ⟨y, hy, ro⟩
      obtain ⟨z, hz, -, e, -⟩ := hback c y hy
      exact ⟨z, hz, by rw [← e]; exact ro⟩
  · obtain ⟨z, hz, -, e, e1, e2⟩ := hback c y hy
    by_cases hc : c = b
    · obtain ⟨rfl, rfl⟩ := e2 hc
      obtain ⟨id, t, i1, i2, i3⟩ := (wf.shaped hz).id
      refine ⟨id, t, i1, i2, fun ro => ?_⟩
      have i4 := i3 ro
      cases t with
      | struct roots => simpa using i4
      | array q =>
        cases q with
        | false => trivial
        | true =>
          obtain ⟨len, l1, l2⟩ := i4
          by_cases hk0 : k = 0
          · subst hk0
            refine ⟨w, ?_, ?_⟩
            · show (z.body.set 0 w)[0]? = some w
              rw [List.getElem?_set_self (List.getElem?_eq_some_iff.1 l1).1]
            · show intOf w + 1 ≤ ((z.body.set 0 w).length : Int)
              rw [List.length_set]
              exact (hk (by rw [i1]; exact i2) rfl).1
          · refine ⟨len, ?_, ?_⟩
            · show (z.body.set k w)[0]? = some len
              rw [List.getElem?_set_ne (by omega)]
              exact l1
            · show intOf len + 1 ≤ ((z.body.set k w).length : Int)
              rw [List.length_set]
              exact l2
      | function => exact i4
      | string => trivial
      | bytes => trivial
    · rw [e1 hc]
      exact wf.shaped hz
  · obtain ⟨z, hz, -, e, e1, e2⟩ := hback c y hy
    have hlive : Live h v := by
      by_cases hc : c = b
      · obtain ⟨rfl, rfl⟩ := e2 hc
        -- the word was there, or is the new one
        have old : ∀ j : Nat, (z.body.set k w)[j]? = some v → v = w ∨ z.body[j]? = some v := by
          intro j hj
          by_cases hjk : k = j
          · subst hjk
            rw [List.getElem?_set_self' ] at hj
            cases hz' : z.body[k]? with
            | none => rw [hz'] at hj; cases hj
            | some u => rw [hz'] at hj; cases hj; exact .inl rfl
          · rw [List.getElem?_set_ne hjk] at hj
            exact .inr hj
        cases hp with
        | field id roots r ht hi hr' hw' =>
          rcases old r hw' with rfl | hv
          · exact hw
          · exact fun hr => wf.closed hz (ro) (.field id roots r ht hi hr' hv) hr
        | elem id len i ht hi hl hlt hw' =>
          rcases old (i + 1) hw' with rfl | hv
          · exact hw
          · by_cases hk0 : k = 0
            · have := (hk (by rw [show typeId z.header = id from ht]; exact hi) hk0).2 i v hv
              intro hr
              rw [this] at hr
              cases hr
            · have hl' : z.body[0]? = some len := by
                have : (z.body.set k w)[0]? = some len := hl
                rwa [List.getElem?_set_ne (by omega)] at this
              exact fun hr => wf.closed hz (ro) (.elem id len i ht hi hl' hlt hv) hr
      · rw [e1 hc] at hp ro
        exact fun hr => wf.closed hz ro hp hr
    obtain ⟨u, hu⟩ := hlive hr
    obtain ⟨u', hu', -⟩ := hforw _ u hu
    exact ⟨u', hu'⟩
  · obtain ⟨z, hz, -, e, -⟩ := hback c y hy
    rw [e]
    exact wf.unmarked hz
  · refine wf.chain.congr (fun c _ z hz => ?_)
    obtain ⟨y, hy, e, -⟩ := hforw c z hz
    exact ⟨y, hy, e⟩

theorem set_live {b : Word} {x : Block} {w : Word} (hw : Live h w) : Live (h.set b x) w := by
  intro hr
  obtain ⟨y, hy⟩ := hw hr
  by_cases e : w - 16 = b
  · exact ⟨x, by rw [e]; exact set_same _ _ _⟩
  · exact ⟨y, by rw [set_ne _ _ e]; exact hy⟩

theorem set_set (h : Heap) (b : Word) (x y : Block) : (h.set b x).set b y = h.set b y := by
  unfold Heap.set
  simp only [Heap.mk.injEq, and_true]
  funext a
  split <;> rfl

/-! ### `claralloc` -/

theorem invalid_zero : isValidBlock 0 = false := by decide

/-- The collection, and what comes after it. -/
theorem claralloc_run (ok : CallocOk calloc) (wf : WF table h addrs) (ap : Apart h) (own : Frame) (stack : List Frame) (runtime : Word)
    (hroots : ∀ w ∈ rootWords own stack runtime, Live h w) (size : BitVec 63) (id : Int) :
    ∃ h1 kept, Ends (gc table own stack runtime) h () h1 ∧ WF table h1 kept ∧ Apart h1 ∧
      Collected table h addrs (rootWords own stack runtime) h1 kept ∧
      (size = 0 ∨ calloc h1 (request size) = 0 → Fails (claralloc calloc table own stack runtime size id) h .panic) ∧
      (size ≠ 0 → calloc h1 (request size) ≠ 0 → request size < 16 → Fails (claralloc calloc table own stack runtime size id) h .wild) ∧
      (size ≠ 0 → calloc h1 (request size) ≠ 0 → 16 ≤ request size →
        ∃ h', h' = h1.push (calloc h1 (request size)) (newHeader id) (List.replicate ((request size - 16) / 8) 0) ∧
          Ends (claralloc calloc table own stack runtime size id) h (calloc h1 (request size) + 16) h' ∧ Apart h' ∧
          (Fits table id ((request size - 16) / 8) → WF table h' (calloc h1 (request size) :: kept))) := by
  obtain ⟨h1, kept, g1, g2, g3, g4, g5, g6⟩ := C41 wf own stack runtime hroots
  have ap1 : Apart h1 := by
    refine ap.mono (fun b y hy => ?_)
    by_cases hb : b ∈ addrs
    · by_cases hk : b ∈ kept
      · obtain ⟨x, hx, -⟩ := (wf.alloc b).1 hb
        obtain ⟨n, hn⟩ := g4 b hk x hx
        rw [hn] at hy
        cases hy
        exact ⟨x, hx, rfl⟩
      · rw [g5 b hb hk] at hy
        cases hy
    · rw [g6 b hb] at hy
      exact ⟨y, hy, rfl⟩
  refine ⟨h1, kept, g1, g2, ap1, ⟨g3, g4, g5, g6⟩, fun hc => ?_, fun h0 hc hr => ?_, fun h0 hc hr => ⟨_, rfl, ?_, ?_, ?_⟩⟩
  · unfold claralloc
    refine Fails.bind g1 ?_
    by_cases hz : size = 0
    · rw [if_pos (by subst hz; rfl)]
      exact Fails.first rfl
    · rw [if_neg (by simpa using hz)]
      exact link_panics (by rw [hc.resolve_left hz]; exact invalid_zero)
  · unfold claralloc
    refine Fails.bind g1 ?_
    rw [if_neg (by simpa using h0)]
    exact link_wild (given ok hc).valid hr
  · unfold claralloc
    refine Ends.bind g1 ?_
    rw [if_neg (by simpa using h0)]
    exact link_ends (given ok hc).valid hr
  · refine push_apart ap1 (fun c x hx => ?_)
    have := (given ok hc).apart c x hx
    rw [List.length_replicate]
    omega
  · exact push_wf g2 (given ok hc).fresh (given ok hc).valid

/-- What is rooted is still there. -/
theorem rooted_live {kept : List Word} {ws : List Word} {b : Word} {hd : BitVec 63} {body : List Word}
    (g : Collected table h addrs ws h1 kept) {w : Word} (hw : w ∈ ws) (hl : Live h w) : Live (h1.push b hd body) w := by
  intro hr
  obtain ⟨x, hx⟩ := hl hr
  have : ∃ y, h1.block (w - 16) = some y := by
    by_cases ha : w - 16 ∈ addrs
    · obtain ⟨n, hn⟩ := g.same _ ((g.iff _).2 ⟨ha, .root hw hr⟩) x hx
      exact ⟨_, hn⟩
    · exact ⟨x, by rw [g.other _ ha]; exact hx⟩
  obtain ⟨y, hy⟩ := this
  by_cases e : w - 16 = b
  · rw [e, push_same]
    exact ⟨_, rfl⟩
  · exact ⟨y, by rw [push_ne _ _ _ e]; exact hy⟩

/-! ### Constructors and arrays -/

theorem set_self {b : Word} {x : Block} (hx : h.block b = some x) : h.set b x = h := by
  obtain ⟨bl, bs⟩ := h
  unfold Heap.set
  simp only [Heap.mk.injEq, and_true]
  funext a
  split
  · rename_i e
    rw [e]; exact hx.symm
  · rfl

theorem setFields_ends {p : Word} : ∀ (ws : List Word) (k : Nat) {h : Heap} {x : Block}, h.block (p - 16) = some x →
    k + ws.length ≤ x.body.length → WF table h addrs → Apart h → (∀ w ∈ ws, Live h w) →
    table[(typeId x.header).toNat]? ≠ some (.array true) →
    ∃ h', Ends (setFields p k ws) h () h' ∧ WF table h' addrs ∧ Apart h' ∧ (∀ w, Live h w → Live h' w) ∧
      h' = h.set (p - 16) { x with body := x.body.take k ++ ws ++ x.body.drop (k + ws.length) }
  | [], k, h, x, hx, hk, wf, ap, hw, ht => by
    refine ⟨h, rfl, wf, ap, fun _ h => h, ?_⟩
    have : x.body.take k ++ [] ++ x.body.drop (k + ([] : List Word).length) = x.body := by simp
    rw [this]
    exact (set_self hx).symm
  | w :: ws, k, h, x, hx, hk, wf, ap, hw, ht => by
    rw [List.length_cons] at hk
    have e1 := setWord_ends (w := w) hx (show k < x.body.length by omega)
    have wf1 := store_wf (k := k) wf hx (hw w (by simp)) (fun h => absurd h ht)
    have ap1 := set_apart ap (y := { x with body := x.body.set k w }) hx (List.length_set ..)
    obtain ⟨h', e2, wf2, ap2, lv, eq⟩ := setFields_ends ws (k + 1) (h := h.set (p - 16) { x with body := x.body.set k w })
      (set_same _ _ _) (by show k + 1 + ws.length ≤ (x.body.set k w).length; rw [List.length_set]; omega) wf1 ap1
      (fun v hv => set_live (hw v (by simp [hv]))) ht
    refine ⟨h', e1.bind e2, wf2, ap2, fun v hv => lv v (set_live hv), ?_⟩
    rw [eq, set_set]
    congr 2
    show (x.body.set k w).take (k + 1) ++ ws ++ (x.body.set k w).drop (k + 1 + ws.length) = _
    rw [List.drop_set_of_lt (by omega), List.take_set, List.length_cons]
    have : (x.body.take (k + 1)).set k w = x.body.take k ++ [w] := by
      rw [List.take_succ_eq_append_getElem (by omega), List.set_append_right _ _ (by rw [List.length_take]; omega)]
      simp [show min k x.body.length = k by omega]
    rw [this]
    rw [show k + (ws.length + 1) = k + 1 + ws.length by omega]
    simp

theorem fillLoop_ends {p d : Word} : ∀ (n i : Nat) {h : Heap} {x : Block}, h.block (p - 16) = some x →
    1 + i + n = x.body.length → WF table h addrs → Apart h → Live h d →
    ∃ h', Ends (fillLoop p d i (i + n : Nat)) h () h' ∧ WF table h' addrs ∧ Apart h' ∧ (∀ w, Live h w → Live h' w) ∧
      h' = h.set (p - 16) { x with body := x.body.take (1 + i) ++ List.replicate n d }
  | 0, i, h, x, hx, hk, wf, ap, hd => by
    refine ⟨h, ?_, wf, ap, fun _ h => h, ?_⟩
    · rw [fillLoop, if_neg (by omega)]
      rfl
    have : x.body.take (1 + i) ++ List.replicate 0 d = x.body := by
      rw [List.take_of_length_le (by omega)]; simp
    rw [this]
    exact (set_self hx).symm
  | n + 1, i, h, x, hx, hk, wf, ap, hd => by
    have e1 := setWord_ends (w := d) hx (show 1 + i < x.body.length by omega)
    have wf1 := store_wf (k := 1 + i) wf hx hd (fun _ h => by omega)
    have ap1 := set_apart ap (y := { x with body := x.body.set (1 + i) d }) hx (List.length_set ..)
    obtain ⟨h', e2, wf2, ap2, lv, eq⟩ := fillLoop_ends n (i + 1) (h := h.set (p - 16) { x with body := x.body.set (1 + i) d })
      (set_same _ _ _) (by show _ = (x.body.set (1 + i) d).length; rw [List.length_set]; omega) wf1 ap1
      (set_live hd)
    refine ⟨h', ?_, wf2, ap2, fun v hv => lv v (set_live hv), ?_⟩
    · rw [fillLoop, if_pos (by omega)]
      rw [show (1 : Int) + (i : Int) = ((1 + i : Nat) : Int) by omega, show (i : Int) + 1 = ((i + 1 : Nat) : Int) by omega,
        show i + (n + 1) = i + 1 + n by omega]
      exact e1.bind e2
    · rw [eq, set_set]
      congr 2
      show (x.body.set (1 + i) d).take (1 + (i + 1)) ++ List.replicate n d = _
      rw [List.take_set, show 1 + (i + 1) = 1 + i + 1 by omega]
      have : (x.body.take (1 + i + 1)).set (1 + i) d = x.body.take (1 + i) ++ [d] := by
        rw [List.take_succ_eq_append_getElem (by omega), List.set_append_right _ _ (by rw [List.length_take]; omega)]
        simp [show min (1 + i) x.body.length = 1 + i by omega]
      rw [this, List.replicate_succ]
      simp

/-- The size of an array of `length` elements, as `array` computes it. -/
theorem array_size (length : BitVec 63) (hl : -2 ^ 59 ≤ length.toInt ∧ length.toInt < 2 ^ 59) :
    (length.toInt < 2 ^ 59 - 1 ∧ (length * 8 + 8).toInt = 8 * length.toInt + 8) ∨
    (length.toInt = 2 ^ 59 - 1 ∧ (length * 8 + 8).toInt = -2 ^ 62) := by
  have h1 : (length * 8).toInt = (length.toInt * 8).bmod (2 ^ 63) := by
    rw [BitVec.toInt_mul]
    rfl
  have h2 : (length * 8 + 8).toInt = ((length * 8).toInt + 8).bmod (2 ^ 63) := by
    rw [BitVec.toInt_add]
    rfl
  rw [h2, h1]
  obtain ⟨l1, l2⟩ := hl
  have : (length.toInt * 8).bmod (2 ^ 63) = length.toInt * 8 := by
    rw [Int.bmod_def]
    split <;> omega
  rw [this, Int.bmod_def]
  split <;> omega

theorem bytes_size (length : BitVec 63) :
    (length.toInt + 8 < 2 ^ 62 ∧ (length + 8).toInt = length.toInt + 8) ∨
    (2 ^ 62 ≤ length.toInt + 8 ∧ (length + 8).toInt = length.toInt + 8 - 2 ^ 63) := by
  have h2 : (length + 8).toInt = (length.toInt + 8).bmod (2 ^ 63) := by
    rw [BitVec.toInt_add]
    rfl
  have h5 := BitVec.toInt_lt (x := length)
  have h6 := BitVec.le_toInt (x := length)
  rw [h2, Int.bmod_def]
  split <;> omega

theorem object_size {n : Nat} (hn : n < 2 ^ 58) : (BitVec.ofNat 63 (8 * n)).toInt = 8 * n := by
  rw [BitVec.toInt_ofNat', Int.bmod_def]
  split <;> omega

/-- `calloc` fails for such a request. -/
theorem calloc_big (ok : CallocOk calloc) {n : Nat} (hn : 2 ^ 47 < n) : calloc h n = 0 := by
  rcases ok h n with e | ⟨-, -, a, -⟩
  · exact e
  · omega

theorem toInt_ne_zero {n : BitVec 63} : n ≠ 0 ↔ n.toInt ≠ 0 := by
  have : (0 : BitVec 63).toInt = 0 := rfl
  rw [← this, Ne, Ne, BitVec.toInt_inj]

end Clara.Gc
