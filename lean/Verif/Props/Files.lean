import Verif.Lib.Files
import Verif.Lib.BufferProof
import Verif.Props.Strings
/-
C74-C76: files, error texts and the time.
-/
namespace Clara.Props
open Clara.Lib
variable {σ : Type}

/-! ### What an operating system does -/

/-- An open file: what is in it, and the position. -/
structure OpenFile where
  content : List UInt8
  pos : Nat

/-- The position that `whence` (0, 1, 2) counts from. -/
def OpenFile.base (f : OpenFile) : Int → Option Nat
  | 0 => some 0
  | 1 => some f.pos
  | 2 => some f.content.length
  | _ => none

/-- `lseek` and `read` of POSIX for the open files that `view` tells.  Both can fail at any time, with -1; `read` can
give fewer bytes than asked for. -/
structure Posix (os : Os σ) (view : σ → Int → Option OpenFile) : Prop where
  seek : ∀ s fd f off mode b, view s fd = some f → f.base mode = some b → 0 ≤ (b : Int) + off →
    ((os.lseek s fd off mode).2 = -1 ∧ ∀ d, view (os.lseek s fd off mode).1 d = view s d) ∨
    ((os.lseek s fd off mode).2 = BitVec.ofInt 64 (b + off) ∧
      view (os.lseek s fd off mode).1 fd = some { f with pos := ((b : Int) + off).toNat } ∧
      ∀ d, d ≠ fd → view (os.lseek s fd off mode).1 d = view s d)
  read : ∀ s fd f (n : BitVec 64), view s fd = some f →
    ((os.read s fd n).2.1 = -1 ∧ (os.read s fd n).2.2 = [] ∧ ∀ d, view (os.read s fd n).1 d = view s d) ∨
    (∃ k, (os.read s fd n).2.1 = BitVec.ofNat 64 k ∧ k ≤ n.toNat ∧ k ≤ f.content.length - f.pos ∧
      (os.read s fd n).2.2 = (f.content.drop f.pos).take k ∧
      view (os.read s fd n).1 fd = some { f with pos := f.pos + k } ∧ ∀ d, d ≠ fd → view (os.read s fd n).1 d = view s d)

/-- `lseek` to positions below 2^62 does not fail. -/
def SeekWorks (os : Os σ) (view : σ → Int → Option OpenFile) (fd : Int) : Prop :=
  ∀ s x off mode b, view s fd = some x → x.base mode = some b → 0 ≤ (b : Int) + off → (b : Int) + off < 2 ^ 62 → (os.lseek s fd off mode).2 ≠ -1

/-- `read` does not fail on files of less than 2^62 bytes. -/
def ReadWorks (os : Os σ) (view : σ → Int → Option OpenFile) (fd : Int) : Prop :=
  ∀ s x n, view s fd = some x → x.content.length < 2 ^ 62 → (os.read s fd n).2.1 ≠ -1

/-- `read` gives all the bytes that it can. -/
def ReadsAll (os : Os σ) (view : σ → Int → Option OpenFile) (fd : Int) : Prop :=
  ∀ s x n, view s fd = some x → x.content.length < 2 ^ 62 →
    (os.read s fd n).2.1 = BitVec.ofNat 64 (min n.toNat (x.content.length - x.pos))

/-- The program ends with a value, in a heap and a state of the operating system. -/
def Gives {α : Type} (x : FM σ α) (c : Heap × σ) (a : α) (c' : Heap × σ) : Prop := x c = some (.ok (a, c'))

/-- The program crashes (or touches memory of other objects). -/
def Crashes {α : Type} (x : FM σ α) (c : Heap × σ) : Prop := x c = some (.error .wild)

theorem Gives.bind {α β : Type} {x : FM σ α} {f : α → FM σ β} {c c1 c2 : Heap × σ} {a : α} {b : β} (hx : Gives x c a c1)
    (hf : Gives (f a) c1 b c2) : Gives (x >>= f) c b c2 := by
  unfold Gives at *
  show (StateT.bind x f) c = _
  simp only [StateT.bind, hx]
  exact hf

theorem Gives.bind_crashes {α β : Type} {x : FM σ α} {f : α → FM σ β} {c c1 : Heap × σ} {a : α} (hx : Gives x c a c1)
    (hf : Crashes (f a) c1) : Crashes (x >>= f) c := by
  unfold Gives Crashes at *
  show (StateT.bind x f) c = _
  simp only [StateT.bind, hx]
  exact hf

theorem Crashes.bind {α β : Type} {x : FM σ α} {f : α → FM σ β} {c : Heap × σ} (hx : Crashes x c) : Crashes (x >>= f) c := by
  unfold Crashes at *
  show (StateT.bind x f) c = _
  simp only [StateT.bind, hx]
  rfl

theorem Gives.pure {α : Type} (a : α) (c : Heap × σ) : Gives (Pure.pure a : FM σ α) c a c := rfl

theorem Gives.det {α : Type} {x : FM σ α} {c c1 c2 : Heap × σ} {a b : α} (h1 : Gives x c a c1) (h2 : Gives x c b c2) : a = b ∧ c1 = c2 := by
  unfold Gives at *
  rw [h1] at h2
  cases h2
  exact ⟨rfl, rfl⟩

theorem Gives.heap {α : Type} {x : M α} {h h' : Heap} {s : σ} {a : α} (hx : Ends x h a h') : Gives (onHeap x) (h, s) a (h', s) := by
  unfold Gives onHeap Ends at *
  simp only [hx]

theorem Crashes.heap {α : Type} {x : M α} {h : Heap} {s : σ} (hx : Fails x h .wild) : Crashes (onHeap x) (h, s) := by
  unfold Crashes onHeap Fails at *
  simp only [hx]

theorem Gives.os {α : Type} (f : σ → σ × α) (h : Heap) (s : σ) : Gives (onOs f) (h, s) (f s).2 (h, (f s).1) := rfl

/-! ### Words and ints -/

theorem tagged_small {z : Int} (h1 : -2 ^ 62 ≤ z) (h2 : z < 2 ^ 62) : toTaggedInt (BitVec.ofInt 64 z) = z := by
  unfold toTaggedInt wrap
  rw [BitVec.toInt_ofInt]
  unfold Int.bmod
  simp only []
  split <;> omega

theorem tagged_nat {k : Nat} (h : k < 2 ^ 62) : toTaggedInt (BitVec.ofNat 64 k) = k := by
  rw [← BitVec.ofInt_natCast]
  exact tagged_small (by omega) (by omega)

theorem tagged_neg : toTaggedInt (-1) = -1 := by decide +kernel

/-! ### C74: opening files -/

/-- **C74, open.**  The C function returns an `int` of 32 bits, of which the upper half of the register is the sign or zero.
For -1 the result is an error with the path and `errno`, for a descriptor the file.  Nothing on the heap changes. -/
theorem C74_open (os : Os σ) (h : Heap) (s : σ) (path : Nat) (o : Obj) (ho : h.objs[path]? = some o) (h0 : (0 : UInt8) ∈ o.data)
    (v : BitVec 32) (hv : (os.openC s (o.data.takeWhile (· ≠ 0)) 0).2 = v.signExtend 64 ∨
      (os.openC s (o.data.takeWhile (· ≠ 0)) 0).2 = v.setWidth 64) :
    (v = -1 → Gives (openFile os path) (h, s)
      (.err { msg := .some path, err := toTaggedInt (os.errnum (os.openC s (o.data.takeWhile (· ≠ 0)) 0).1) })
      (h, (os.openC s (o.data.takeWhile (· ≠ 0)) 0).1)) ∧
    (0 ≤ v.toInt → Gives (openFile os path) (h, s) (.ok { fd := v.toInt, path := path })
      (h, (os.openC s (o.data.takeWhile (· ≠ 0)) 0).1)) := by
  have hc : Ends (cString path) h (o.data.takeWhile (· ≠ 0)) h := by
    refine (Ends.obj ho).bind ?_
    rw [if_pos h0]
    rfl
  have ho : Gives (cOpen os path 0) (h, s) (toTaggedInt (os.openC s (o.data.takeWhile (· ≠ 0)) 0).2)
      (h, (os.openC s (o.data.takeWhile (· ≠ 0)) 0).1) :=
    (Gives.heap hc).bind ((Gives.os _ _ _).bind (Gives.pure _ _))
  generalize os.openC s (o.data.takeWhile (· ≠ 0)) 0 = q at *
  obtain ⟨s', w⟩ := q
  simp only at ho hv ⊢
  refine ⟨fun hv1 => ?_, fun hv1 => ?_⟩
  · refine ho.bind ?_
    rw [if_pos]
    · exact (Gives.os _ _ _).bind (Gives.pure _ _)
    · subst hv1
      rcases hv with rfl | rfl
      · left; decide +kernel
      · right; decide +kernel
  · have hw : toTaggedInt w = v.toInt := by
      have hlt : v.toInt < 2 ^ 31 := by have := @BitVec.toInt_lt 32 v; simpa using this
      rcases hv with rfl | rfl
      · unfold toTaggedInt wrap
        rw [BitVec.toInt_signExtend_of_le (by omega)]
        omega
      · have : v.toInt = v.toNat := by
          rw [BitVec.toInt_eq_toNat_cond] at hv1 ⊢
          have := v.isLt
          split
          · rfl
          · rename_i hn
            rw [if_neg hn] at hv1
            omega
        have h2 : v.setWidth 64 = BitVec.ofNat 64 v.toNat := by
          apply BitVec.eq_of_toNat_eq
          simp
        rw [h2, tagged_nat (by have := v.isLt; omega), this]
    have hlt : v.toInt < 2 ^ 31 := by have := @BitVec.toInt_lt 32 v; simpa using this
    refine ho.bind ?_
    rw [hw, if_neg (by omega)]
    exact Gives.pure _ _

/-! ### C74: positions and sizes -/

section
variable {os : Os σ} {view : σ → Int → Option OpenFile}

theorem seek_ok {f : File} {off mode : Int} {h : Heap} {s : σ} {z : Int} (h1 : (os.lseek s f.fd off mode).2 = BitVec.ofInt 64 z) (h0 : 0 ≤ z) (hz : z < 2 ^ 62) :
    Gives (seek os f off mode) (h, s) (.ok z) (h, (os.lseek s f.fd off mode).1) := by
  have hl : Gives (cLseek os f.fd off mode) (h, s) (toTaggedInt (os.lseek s f.fd off mode).2) (h, (os.lseek s f.fd off mode).1) :=
    (Gives.os _ _ _).bind (Gives.pure _ _)
  refine hl.bind ?_
  rw [h1, tagged_small (by omega) hz, if_neg (by omega)]
  exact Gives.pure _ _

theorem seek_err {f : File} {off mode : Int} {h : Heap} {s : σ} (h1 : (os.lseek s f.fd off mode).2 = -1) :
    Gives (seek os f off mode) (h, s) (.err { msg := .some f.path, err := toTaggedInt (os.errnum (os.lseek s f.fd off mode).1) })
      (h, (os.lseek s f.fd off mode).1) := by
  have hl : Gives (cLseek os f.fd off mode) (h, s) (toTaggedInt (os.lseek s f.fd off mode).2) (h, (os.lseek s f.fd off mode).1) :=
    (Gives.os _ _ _).bind (Gives.pure _ _)
  refine hl.bind ?_
  rw [h1, if_pos tagged_neg]
  exact (Gives.os _ _ _).bind (Gives.pure _ _)

/-- **C74, seek.**  Either the new position, or an error with the path and `errno` and nothing changed. -/
theorem C74_seek (P : Posix os view) (h : Heap) (s : σ) (f : File) (x : OpenFile) (hf : view s f.fd = some x) (off mode : Int) (b : Nat)
    (hb : x.base mode = some b) (h0 : 0 ≤ (b : Int) + off) (hz : (b : Int) + off < 2 ^ 62) :
    ∃ r s', Gives (seek os f off mode) (h, s) r (h, s') ∧
      ((r = .ok (b + off) ∧ view s' f.fd = some { x with pos := ((b : Int) + off).toNat } ∧ ∀ d, d ≠ f.fd → view s' d = view s d) ∨
       (r = .err { msg := .some f.path, err := toTaggedInt (os.errnum s') } ∧ ∀ d, view s' d = view s d)) := by
  rcases P.seek s f.fd x off mode b hf hb h0 with ⟨a1, a2⟩ | ⟨a1, a2, a3⟩
  · exact ⟨_, _, seek_err a1, .inr ⟨rfl, a2⟩⟩
  · exact ⟨_, _, seek_ok a1 h0 hz, .inl ⟨rfl, a2, a3⟩⟩

/-- **C74, size.**  Either the length of the file, and all positions are as before; or an error with the path and `errno`, and at
most the position of the file has changed, to its end.  If `lseek` does not fail it is the first. -/
theorem C74_size (P : Posix os view) (h : Heap) (s : σ) (f : File) (x : OpenFile) (hf : view s f.fd = some x) (hz : x.content.length < 2 ^ 62)
    (hp : x.pos < 2 ^ 62) :
    ∃ r s', Gives (fileSize os f) (h, s) r (h, s') ∧
      ((r = .ok x.content.length ∧ ∀ d, view s' d = view s d) ∨
       (r = .err { msg := .some f.path, err := toTaggedInt (os.errnum s') } ∧ (∀ d, d ≠ f.fd → view s' d = view s d) ∧
         (view s' f.fd = some x ∨ view s' f.fd = some { x with pos := x.content.length }))) ∧
      (SeekWorks os view f.fd → r = .ok x.content.length) := by
  obtain ⟨r1, s1, g1, o1⟩ := C74_seek P h s f x hf 0 1 x.pos rfl (by omega) (by omega)
  rcases o1 with ⟨rfl, a1, a2⟩ | ⟨rfl, a1⟩
  · have hx1 : view s1 f.fd = some x := by rw [a1]; simp
    obtain ⟨r2, s2, g2, o2⟩ := C74_seek P h s1 f x hx1 0 2 x.content.length rfl (by omega) (by omega)
    rcases o2 with ⟨rfl, b1, b2⟩ | ⟨rfl, b1⟩
    · obtain ⟨r3, s3, g3, o3⟩ := C74_seek P h s2 f _ b1 x.pos 0 0 rfl (by omega) (by omega)
      have e1 : ((x.pos : Int) + 0) = x.pos := by omega
      have e3 : ((0 : Nat) : Int) + x.pos = x.pos := by omega
      rw [e1] at g1
      rcases o3 with ⟨rfl, d1, d2⟩ | ⟨rfl, d1⟩
      · refine ⟨_, s3, g1.bind (Gives.bind (g2.bind (Gives.pure _ _)) (g3.bind (Gives.pure _ _))), .inl ⟨by simp, ?_⟩, fun _ => by simp⟩
        intro d
        by_cases hd : d = f.fd
        · subst hd
          rw [d1, hf]
          simp
        · rw [d2 d hd, b2 d hd, a2 d hd]
      · refine ⟨_, s3, g1.bind (Gives.bind (g2.bind (Gives.pure _ _)) (g3.bind (Gives.pure _ _))), .inr ⟨rfl, ?_, .inr ?_⟩, ?_⟩
        · intro d hd
          rw [d1 d, b2 d hd, a2 d hd]
        · rw [d1, b1]
          simp
        · intro hn
          exfalso
          rcases P.seek s2 f.fd _ x.pos 0 0 b1 rfl (by omega) with ⟨k, -⟩ | ⟨k, -⟩
          · exact hn _ _ _ _ _ b1 rfl (by omega) (by omega) k
          · have := (seek_ok (os := os) (f := f) (off := x.pos) (mode := 0) (h := h) (s := s2) k (by omega) (by omega)).det g3
            cases this.1
    · refine ⟨_, s2, g1.bind (Gives.bind (g2.bind (Gives.pure _ _)) (Gives.pure _ _)), .inr ⟨rfl, ?_, .inl ?_⟩, ?_⟩
      · intro d hd
        rw [b1 d, a2 d hd]
      · rw [b1, hx1]
      · intro hn
        exfalso
        rcases P.seek s1 f.fd _ 0 2 x.content.length hx1 rfl (by omega) with ⟨k, -⟩ | ⟨k, -⟩
        · exact hn _ _ _ _ _ hx1 rfl (by omega) (by omega) k
        · have := (seek_ok (os := os) (f := f) (off := 0) (mode := 2) (h := h) (s := s1) k (by omega) (by omega)).det g2
          cases this.1
  · refine ⟨_, s1, g1.bind (Gives.bind (Gives.pure _ _) (Gives.pure _ _)), .inr ⟨rfl, fun d _ => a1 d, .inl ?_⟩, ?_⟩
    · rw [a1, hf]
    · intro hn
      exfalso
      rcases P.seek s f.fd _ 0 1 x.pos hf rfl (by omega) with ⟨k, -⟩ | ⟨k, -⟩
      · exact hn _ _ _ _ _ hf rfl (by omega) (by omega) k
      · have := (seek_ok (os := os) (f := f) (off := 0) (mode := 1) (h := h) (s := s) k (by omega) (by omega)).det g1
        cases this.1

/-! ### C74: reading -/

/-- **C74, read.**  For sizes from 0 to the length of the buffer, unless the C function fails: nothing is returned, the first `k` bytes of
the buffer are the next `k` bytes of the file and the others are as before, and the position is behind them.  Nothing else on
the heap changes.  For larger sizes there is an error and nothing is read.
What is missing: failing reads and negative sizes; see `C74_violated_error` and `C74_violated_negative`. -/
theorem C74_read_partial (P : Posix os view) (h : Heap) (s : σ) (f : File) (x : OpenFile) (hf : view s f.fd = some x) (b : Nat) (data : List UInt8)
    (hb : h.objs[b]? = some { len := data.length, data := data }) (hs : data.length < 2 ^ 61) (n : Int) :
    (n > data.length → ∃ h' r, Gives (readFile os f b n) (h, s) (.some { msg := .some r, err := -1 }) (h', s) ∧
      IsStr h' r (chars "buffer is too small for requested read size") ∧ ∀ r' < h.objs.length, h'.objs[r']? = h.objs[r']?) ∧
    (0 ≤ n → n ≤ data.length → (os.read s f.fd (BitVec.ofInt 64 n)).2.1 ≠ -1 → ∃ (h' : Heap) (s' : σ) (k : Nat), Gives (readFile os f b n) (h, s) .none (h', s') ∧
      (k : Int) ≤ n ∧ k ≤ x.content.length - x.pos ∧ (os.read s f.fd (BitVec.ofInt 64 n)).2.1 = BitVec.ofNat 64 k ∧
      h'.objs[b]? = some { len := data.length, data := (x.content.drop x.pos).take k ++ data.drop k } ∧
      (∀ r' ≠ b, h'.objs[r']? = h.objs[r']?) ∧ h'.bufs = h.bufs ∧
      view s' f.fd = some { x with pos := x.pos + k } ∧ ∀ d, d ≠ f.fd → view s' d = view s d) := by
  have hlen : Gives (onHeap (Lib.length b)) (h, s) (data.length : Int) (h, s) := Gives.heap (Ends.length hb)
  refine ⟨fun hn => ?_, fun hn0 hn hr => ?_⟩
  · refine ⟨_, _, hlen.bind ?_, lit_str (h := h) (s := chars "buffer is too small for requested read size") (by decide +kernel),
      fun r' hr' => add_get_lt _ hr'⟩
    rw [if_pos hn]
    exact (Gives.heap (Ends.lit _)).bind (Gives.pure _ _)
  · have hcond : ¬ (n > data.length) := by omega
    rcases P.read s f.fd x (BitVec.ofInt 64 n) hf with ⟨a1, -, -⟩ | ⟨k, a1, a2, a3, a4, a5, a6⟩
    · exact absurd a1 hr
    · have hk : (k : Int) ≤ n := by
        rw [BitVec.toNat_ofInt] at a2
        omega
      have hkl : ((x.content.drop x.pos).take k).length = k := by simp; omega
      have hput : Ends (putBytes b ((x.content.drop x.pos).take k)) h ()
          (h.put b { len := data.length, data := (x.content.drop x.pos).take k ++ data.drop k }) := by
        refine (Ends.obj hb).bind ?_
        simp only [hkl]
        rw [if_pos (by omega)]
        rfl
      refine ⟨h.put b { len := data.length, data := (x.content.drop x.pos).take k ++ data.drop k }, _, k, hlen.bind ?_, hk, a3, a1,
        put_get hb, fun r' hr' => put_get_ne hr', rfl, a5, a6⟩
      rw [if_neg hcond]
      have hread : Gives (cRead os f.fd b n) (h, s) (k : Int)
          (h.put b { len := data.length, data := (x.content.drop x.pos).take k ++ data.drop k }, (os.read s f.fd (BitVec.ofInt 64 n)).1) := by
        refine (Gives.os _ _ _).bind (Gives.bind (c1 := (_, _)) (Gives.heap (by rw [a4]; exact hput)) ?_)
        rw [a1, tagged_nat (by omega)]
        exact Gives.pure _ _
      refine hread.bind ?_
      rw [if_neg (by omega)]
      exact Gives.pure _ _

/-- **C74, readAll.**  When no call fails, the result is a string as long as the file: the `k` bytes that one `read` gave, from the
position on, and NUL bytes. -/
theorem C74_readAll_exact (P : Posix os view) (h : Heap) (s : σ) (f : File) (x : OpenFile) (hf : view s f.fd = some x)
    (hz : x.content.length < 2 ^ 60) (hp : x.pos < 2 ^ 62) (hseek : SeekWorks os view f.fd)
    (hread : ReadWorks os view f.fd) :
    ∃ h' s' r k, Gives (readAll os f) (h, s) (.ok r) (h', s') ∧ k ≤ x.content.length - x.pos ∧
      (∃ s1, (∀ d, view s1 d = view s d) ∧ (os.read s1 f.fd (BitVec.ofNat 64 x.content.length)).2.1 = BitVec.ofNat 64 k) ∧
      IsStr h' r ((x.content.drop x.pos).take k ++ List.replicate (x.content.length - k) 0) ∧
      (∀ r' < h.objs.length, h'.objs[r']? = h.objs[r']?) ∧
      view s' f.fd = some { x with pos := x.pos + k } ∧ ∀ d, d ≠ f.fd → view s' d = view s d := by
  obtain ⟨r1, s1, g1, o1, n1⟩ := C74_size P h s f x hf (by omega) hp
  have e1 := n1 hseek
  subst e1
  have hv : ∀ d, view s1 d = view s d := by
    rcases o1 with ⟨-, o1⟩ | ⟨o1, -⟩
    · exact o1
    · cases o1
  let n := x.content.length
  let h1 := h.add { len := (n : Int), data := List.replicate n 0 }
  have hb : h1.objs[h.objs.length]? = some { len := ((List.replicate n (0 : UInt8)).length : Int), data := List.replicate n 0 } := by
    rw [add_get]; simp
  have hn : (List.replicate n (0 : UInt8)).length = n := by simp
  obtain ⟨h2, s2, k, g2, k1, k2, k3, k4, k5, k6, k7, k8⟩ := (C74_read_partial P h1 s1 f x (by rw [hv]; exact hf) h.objs.length
    (List.replicate n 0) hb (by rw [hn]; omega) n).2 (by omega) (by rw [hn]; omega) (hread _ _ _ (by rw [hv]; exact hf) (by omega))
  have hstr : IsStr h2 h.objs.length ((x.content.drop x.pos).take k ++ List.replicate (n - k) 0) := by
    refine ⟨⟨_, k4, ?_, ?_⟩, ?_⟩
    · simp only [List.length_append, List.length_take, List.length_drop, List.length_replicate]
      omega
    · rw [List.drop_replicate]
      exact List.prefix_refl _
    · simp only [List.length_append, List.length_take, List.length_drop, List.length_replicate]
      omega
  have hsl : ((x.content.drop x.pos).take k ++ List.replicate (n - k) (0 : UInt8)).length = n := by
    simp only [List.length_append, List.length_take, List.length_drop, List.length_replicate]
    omega
  obtain ⟨o, t1, t2, t3⟩ := toStr_ends hstr (p := 0) (n := n) (by rw [hsl]; omega)
  have hlen2 : Ends (Lib.length h.objs.length) h2 (n : Int) h2 := by
    have := Ends.strLen hstr
    rwa [hsl] at this
  have hmore : h.objs.length < h2.objs.length := (List.getElem?_eq_some_iff.1 k4).1
  refine ⟨h2.add o, s2, h2.objs.length, k, ?_, k2, ⟨s1, hv, ?_⟩, ?_, ?_, k7, ?_⟩
  · refine g1.bind (Gives.bind (c1 := (h1, s1)) (a := .ok h.objs.length) ?_ ?_)
    · exact Gives.bind (Gives.heap (Ends.newBytes (h := h) n)) (Gives.pure _ _)
    · refine Gives.bind (c1 := (h2, s2)) (a := .ok h.objs.length) ?_ ?_
      · refine Gives.bind (c1 := (h2, s2)) (a := .none) ?_ (Gives.pure _ _)
        refine Gives.bind (Gives.heap (Ends.length hb)) ?_
        rw [hn]
        exact g2
      · exact Gives.bind (Gives.heap (hlen2.bind t1)) (Gives.pure _ _)
  · rw [← BitVec.ofInt_natCast]
    exact k3
  · have : o.data = ((x.content.drop x.pos).take k ++ List.replicate (n - k) 0) ++ [0] := by
      rw [t3, List.drop_zero, List.take_of_length_le (by rw [hsl]; exact Nat.le_refl _)]
    exact IsStr.fresh (by rw [t2, hsl]) (by rw [this]; exact List.prefix_append _ _) (by rw [hsl]; omega)
  · intro r' hr'
    rw [add_get_lt o (by omega), k5 r' (by omega), add_get_lt _ hr']
  · intro d hd
    rw [k8 d hd, hv]

/-- **C74, readAll.**  From the start of the file, and when `read` gives all the bytes at once, the result is what is in the file.
What is missing: other positions and short reads; see `C74_violated_position` and `C74_violated_short`. -/
theorem C74_readAll_partial (P : Posix os view) (h : Heap) (s : σ) (f : File) (x : OpenFile) (hf : view s f.fd = some x)
    (hz : x.content.length < 2 ^ 60) (hp : x.pos = 0) (hseek : SeekWorks os view f.fd) (hread : ReadWorks os view f.fd) (hall : ReadsAll os view f.fd) :
    ∃ h' s' r, Gives (readAll os f) (h, s) (.ok r) (h', s') ∧ IsStr h' r x.content := by
  obtain ⟨h', s', r, k, a1, a2, ⟨s1, a3, a4⟩, a5, -⟩ := C74_readAll_exact P h s f x hf hz (by omega) hseek hread
  have hk : k = x.content.length := by
    rw [hall s1 x _ (by rw [a3]; exact hf) (by omega)] at a4
    have := congrArg BitVec.toNat a4
    simp only [BitVec.toNat_ofNat] at this
    omega
  refine ⟨h', s', r, a1, ?_⟩
  rw [hk, hp] at a5
  simpa using a5

end

/-! ### C74: what fails -/

/-- **C74 fails for errors of read.**  Whenever the C function reports an error, `read` crashes instead of returning it. -/
theorem C74_violated_error (os : Os σ) (h : Heap) (s : σ) (f : File) (b : Nat) (o : Obj) (hb : h.objs[b]? = some o) (n : Int) (hn : n ≤ o.len)
    (h1 : (os.read s f.fd (BitVec.ofInt 64 n)).2.1 = -1) (h2 : (os.read s f.fd (BitVec.ofInt 64 n)).2.2 = []) :
    Crashes (readFile os f b n) (h, s) := by
  refine (Gives.heap (Ends.length hb)).bind_crashes ?_
  rw [if_neg (by omega)]
  refine Gives.bind_crashes (c1 := (h, (os.read s f.fd (BitVec.ofInt 64 n)).1)) (a := -1) ?_ (by rw [if_pos rfl]; exact Crashes.heap rfl)
  refine (Gives.os _ _ _).bind (Gives.bind (c1 := (h, _)) (a := ()) (Gives.heap ?_) ?_)
  · rw [h2]
    refine (Ends.obj hb).bind ?_
    rw [if_pos (by simp)]
    show some (Except.ok ((), { h with objs := h.objs.set b o })) = _
    obtain ⟨hlt, e⟩ := List.getElem?_eq_some_iff.1 hb
    rw [← e, List.set_getElem_self]
  · rw [h1, tagged_neg]
    exact Gives.pure _ _

/-- **C74 fails for negative sizes.**  They pass the check, and `read` of the operating system takes them for large numbers: if there are
more bytes than fit into the buffer, they are written over other objects. -/
theorem C74_violated_negative (os : Os σ) (h : Heap) (s : σ) (f : File) (b : Nat) (o : Obj) (hb : h.objs[b]? = some o) (h0 : 0 ≤ o.len) (n : Int) (hn : n < 0)
    (h1 : o.data.length < (os.read s f.fd (BitVec.ofInt 64 n)).2.2.length) : Crashes (readFile os f b n) (h, s) := by
  refine (Gives.heap (Ends.length hb)).bind_crashes ?_
  rw [if_neg (by omega)]
  refine Crashes.bind ?_
  refine (Gives.os _ _ _).bind_crashes (Crashes.bind (Crashes.heap ?_))
  refine (Ends.obj hb).bind_fails ?_
  rw [if_neg (by omega)]
  rfl

/-- An operating system with one file, open as 3, whose `read` gives at most `chunk` bytes, or always fails. -/
def demoOs (chunk : Nat) (bad : Bool) : Os OpenFile where
  openC s _ _ := (s, 3)
  lseek s _ off mode :=
    match s.base mode with
    | some b => if 0 ≤ (b : Int) + off then ({ s with pos := ((b : Int) + off).toNat }, BitVec.ofInt 64 (b + off)) else (s, -1)
    | none => (s, -1)
  read s _ n :=
    if bad then (s, -1, [])
    else
      ({ s with pos := s.pos + min (min n.toNat chunk) (s.content.length - s.pos) },
        BitVec.ofNat 64 (min (min n.toNat chunk) (s.content.length - s.pos)),
        (s.content.drop s.pos).take (min (min n.toNat chunk) (s.content.length - s.pos)))
  errnum _ := 5
  now s := (s, 1700000000, 250000)

def demoView (s : OpenFile) (fd : Int) : Option OpenFile := if fd = 3 then some s else none

theorem demoView_some {s x : OpenFile} {fd : Int} (h : demoView s fd = some x) : fd = 3 ∧ x = s := by
  unfold demoView at h
  split at h
  · cases h; exact ⟨‹_›, rfl⟩
  · cases h

theorem demo_posix (chunk : Nat) (bad : Bool) : Posix (demoOs chunk bad) demoView where
  seek := by
    intro s fd f off mode b hv hb h0
    obtain ⟨rfl, rfl⟩ := demoView_some hv
    right
    simp only [demoOs, hb, if_pos h0]
    refine ⟨trivial, rfl, fun d hd => ?_⟩
    simp [demoView, hd]
  read := by
    intro s fd f n hv
    obtain ⟨rfl, rfl⟩ := demoView_some hv
    cases bad with
    | true => exact .inl ⟨rfl, rfl, fun d => rfl⟩
    | false =>
      refine .inr ⟨_, rfl, by omega, by omega, rfl, rfl, fun d hd => ?_⟩
      simp [demoView, hd]

theorem ofInt_ne {z : Int} (h0 : 0 ≤ z) (hz : z < 2 ^ 62) : BitVec.ofInt 64 z ≠ -1 := by
  intro h
  have h1 := tagged_small (z := z) (by omega) hz
  rw [h, tagged_neg] at h1
  omega

theorem demo_seeks (chunk : Nat) (bad : Bool) : SeekWorks (demoOs chunk bad) demoView 3 := by
  intro s x off mode b hv hb h0 hz
  obtain ⟨-, rfl⟩ := demoView_some hv
  simp only [demoOs, hb, if_pos h0]
  exact ofInt_ne h0 hz

theorem demo_reads (chunk : Nat) : ReadWorks (demoOs chunk false) demoView 3 := by
  intro s x n hv hx
  obtain ⟨-, rfl⟩ := demoView_some hv
  show BitVec.ofNat 64 _ ≠ -1
  rw [← BitVec.ofInt_natCast]
  exact ofInt_ne (by omega) (by omega)

theorem demo_all : ReadsAll (demoOs (2 ^ 64) false) demoView 3 := by
  intro s x n hv hx
  obtain ⟨-, rfl⟩ := demoView_some hv
  show BitVec.ofNat 64 _ = _
  congr 1
  have := n.isLt
  omega

/-- The claim on `readAll`: when no call fails, the result is what is in the file.  `C` are further conditions. -/
def C74_readAll_claim (C : Os OpenFile → (OpenFile → Int → Option OpenFile) → Int → OpenFile → Prop) : Prop :=
  ∀ (os : Os OpenFile) view, Posix os view → ∀ (h : Heap) (s : OpenFile) (f : File) (x : OpenFile), view s f.fd = some x →
    x.content.length < 2 ^ 60 → x.pos < 2 ^ 62 → SeekWorks os view f.fd → ReadWorks os view f.fd → C os view f.fd x →
    ∃ h' s' r, Gives (readAll os f) (h, s) (.ok r) (h', s') ∧ IsStr h' r x.content

/-- What `readAll` gives for the file of `demoOs`. -/
theorem demo_readAll (chunk : Nat) (x : OpenFile) (hz : x.content.length < 2 ^ 60) (hp : x.pos < 2 ^ 62) {h' : Heap} {s' : OpenFile} {r : Nat}
    {c : List UInt8} (hg : Gives (readAll (demoOs chunk false) { fd := 3, path := 0 }) ({}, x) (.ok r) (h', s')) (hc : IsStr h' r c) :
    c = (x.content.drop x.pos).take (min (min x.content.length chunk) (x.content.length - x.pos)) ++
      List.replicate (x.content.length - min (min x.content.length chunk) (x.content.length - x.pos)) 0 := by
  obtain ⟨h2, s2, r2, k, a1, a2, ⟨s1, a3, a4⟩, a5, -⟩ := C74_readAll_exact (demo_posix chunk false) {} x { fd := 3, path := 0 } x rfl hz hp
    (demo_seeks _ _) (demo_reads _)
  have hs : s1 = x := by
    have := a3 3
    simpa [demoView] using this
  subst hs
  obtain ⟨e1, e2⟩ := hg.det a1
  cases e1
  cases e2
  rw [hc.uniq a5]
  have hk : k = min (min s1.content.length chunk) (s1.content.length - s1.pos) := by
    have := congrArg BitVec.toNat a4
    simp only [demoOs, Bool.false_eq_true, if_false, BitVec.toNat_ofNat] at this
    omega
  rw [hk]

/-- **C74 fails for short reads**, also at the start of the file. -/
theorem C74_violated_short : ¬ C74_readAll_claim (fun _ _ _ x => x.pos = 0) := by
  intro claim
  obtain ⟨h', s', r, h1, h2⟩ := claim (demoOs 1 false) demoView (demo_posix _ _) {} ⟨[1, 2], 0⟩ { fd := 3, path := 0 } ⟨[1, 2], 0⟩ rfl
    (by decide) (by decide) (demo_seeks _ _) (demo_reads _) rfl
  exact absurd (demo_readAll 1 ⟨[1, 2], 0⟩ (by decide) (by decide) h1 h2) (by decide)

/-- **C74 fails in the middle of a file**, also when `read` gives all that it can: the end of the result is NUL bytes. -/
theorem C74_violated_position : ¬ C74_readAll_claim (fun os view fd _ => ReadsAll os view fd) := by
  intro claim
  obtain ⟨h', s', r, h1, h2⟩ := claim (demoOs (2 ^ 64) false) demoView (demo_posix _ _) {} ⟨[1, 2], 1⟩ { fd := 3, path := 0 } ⟨[1, 2], 1⟩ rfl
    (by decide) (by decide) (demo_seeks _ _) (demo_reads _) demo_all
  exact absurd (demo_readAll _ ⟨[1, 2], 1⟩ (by decide) (by decide) h1 h2) (by decide)

/-- The hypotheses of the theorems on files hold for `demoOs`, and `readAll` gives the bytes. -/
example : ∃ h' s' r, Gives (readAll (demoOs (2 ^ 64) false) { fd := 3, path := 0 }) ({}, ⟨[104, 105], 0⟩) (.ok r) (h', s') ∧ IsStr h' r [104, 105] :=
  C74_readAll_partial (demo_posix _ _) {} ⟨[104, 105], 0⟩ { fd := 3, path := 0 } ⟨[104, 105], 0⟩ rfl (by decide) rfl (demo_seeks _ _) (demo_reads _) demo_all

/-- A failing read crashes. -/
example : Crashes (readFile (demoOs 0 true) { fd := 3, path := 0 } 0 1) ({ objs := [⟨1, [0]⟩] }, ⟨[1, 2], 0⟩) :=
  C74_violated_error _ _ _ _ _ ⟨1, [0]⟩ rfl _ (by decide) rfl rfl

/-- So does a negative size, for a file of two bytes and a buffer of one. -/
example : Crashes (readFile (demoOs (2 ^ 64) false) { fd := 3, path := 0 } 0 (-1)) ({ objs := [⟨1, [0]⟩] }, ⟨[1, 2], 0⟩) :=
  C74_violated_negative _ _ _ _ _ ⟨1, [0]⟩ rfl (by decide) _ (by decide) (by decide +kernel)

/-! ### C75: error texts -/

/-- The text of a code: one of the table, or with the number. -/
def codeText (e : Int) : List UInt8 :=
  match errTexts.find? (fun p => p.1 = e) with
  | some p => chars p.2
  | none => chars "Unknown error code: " ++ numeral e

theorem numeral_length {z : Int} (hz : IsInt z) : (numeral z).length ≤ 20 := by
  unfold IsInt at hz
  by_cases h0 : z.natAbs = 0
  · have : z = 0 := by omega
    subst this
    decide +kernel
  · have h1 : (decDigits z.natAbs).length ≤ 19 := decDigits_length (by omega)
    unfold numeral
    rw [toDigits_dec h0, List.length_append]
    split <;> simp <;> omega

theorem codeText_length {e : Int} (he : IsInt e) : (codeText e).length < 2 ^ 10 := by
  have hall : ∀ p ∈ errTexts, (chars p.2).length < 2 ^ 10 := by decide +kernel
  have hu : (chars "Unknown error code: ").length = 20 := by decide +kernel
  unfold codeText
  split
  · rename_i p hp
    exact hall p (List.mem_of_find?_eq_some hp)
  · rw [List.length_append, hu]
    have := numeral_length he
    omega

theorem describeCode_ends {h : Heap} {e : Int} (he : IsInt e) :
    ∃ r h', Ends (describeCode e) h r h' ∧ IsStr h' r (codeText e) ∧ Grows h h' ∧ h'.bufs = h.bufs ∧ h.objs.length ≤ r := by
  have hlen := codeText_length he
  unfold describeCode
  unfold codeText at hlen ⊢
  cases hf : errTexts.find? (fun p => p.1 = e) with
  | some p =>
    rw [hf] at hlen
    exact ⟨_, _, Ends.lit _, lit_str (by simp only at hlen; omega), Grows.add _ _, rfl, Nat.le_refl _⟩
  | none =>
    rw [hf] at hlen
    simp only at hlen ⊢
    have s1 : IsStr (h.add { len := (chars "Unknown error code: ").length, data := chars "Unknown error code: " ++ [0] }) h.objs.length
      (chars "Unknown error code: ") := lit_str (by decide +kernel)
    obtain ⟨r2, h2, a1, a2, a3, a4⟩ := intToString_ends (h := h.add { len := (chars "Unknown error code: ").length, data := chars "Unknown error code: " ++ [0] }) he
    obtain ⟨o, b1, b2, b3⟩ := append_ends (a3.str s1) a2 (by rw [List.length_append] at hlen; omega)
    have hm := a3.more
    refine ⟨_, _, (Ends.lit _).bind (a1.bind b1), IsStr.fresh b2 (by rw [b3]; exact List.prefix_append _ _) (by omega), ?_, a4, ?_⟩
    · exact ((Grows.add h _).trans a3 (Nat.le_refl _)).trans (Grows.add _ _) (by rw [a4]; exact Nat.le_refl _)
    · exact Nat.le_trans (Grows.add h _).more hm

/-- What is added for the message. -/
def msgText : Option (List UInt8) → List UInt8
  | some m => chars ":\n - " ++ m
  | none => []

/-- The message of an error. -/
def MsgIs (h : Heap) : Opt Nat → Option (List UInt8) → Prop
  | .some r, some m => IsStr h r m
  | .none, none => True
  | _, _ => False

/-- **C75.**  `describe` of an error is the text of its code, and the message behind it if there is one, in a new string; all
objects keep what they have. -/
theorem C75_describe (h : Heap) (e : Error) (he : IsInt e.err) (m : Option (List UInt8)) (hm : MsgIs h e.msg m)
    (hl : (m.getD []).length ≤ 2 ^ 58) :
    ∃ r h', Ends (describe e) h r h' ∧ IsStr h' r (codeText e.err ++ msgText m) ∧ ∀ r < h.objs.length, h'.objs[r]? = h.objs[r]? := by
  have h5 : (chars ":\n - ").length = 5 := by decide +kernel
  have hcl := codeText_length he
  obtain ⟨h1, a1, a2, a3, a4, a5⟩ := newByteBuffer_ends (h := h) (cap := 16) (by omega) (by omega)
  obtain ⟨r2, h2, b1, b2, b3, b4, b5⟩ := describeCode_ends (h := h1) he
  -- the buffer is still there
  have a2' : BufAt h2 h.bufs.length h.objs.length (List.replicate 16 0) [] := by
    refine ⟨by rw [b4]; exact a2.buf, ?_, a2.pre, a2.pos, a2.small⟩
    rw [b3.objs _ (List.getElem?_eq_some_iff.1 a2.obj).1]
    exact a2.obj
  have hd1 : h.objs.length < h1.objs.length := (List.getElem?_eq_some_iff.1 a2.obj).1
  obtain ⟨h3, d3, D3, c1, c2, c3, c4⟩ := bufAppend_ends a2' b2 (by omega) (by rw [List.length_nil]; omega)
  rw [List.nil_append] at c2
  have old3 : ∀ r < h.objs.length, h3.objs[r]? = h.objs[r]? := by
    intro r hr
    rw [c3.objs r (by omega) (by have := b3.more; omega), b3.objs r (by omega), a3 r hr]
  have hlen3 : h.objs.length < h3.objs.length := by have := b3.more; have := c3.more; omega
  -- the message
  obtain ⟨r4, h4, q1, q2, q3, q4, q5, q6⟩ : ∃ r h4, (∀ (k : Nat → M Nat) x h5, Ends (k r) h4 x h5 → Ends (do
      let o ← e.msg.map (fun s => (do append (← Lib.lit (chars ":\n - ")) s : M Nat))
      k (o.orElse (← Lib.lit []))) h3 x h5) ∧ IsStr h4 r (msgText m) ∧ (∀ r < h3.objs.length, h4.objs[r]? = h3.objs[r]?) ∧
        h3.objs.length ≤ h4.objs.length ∧ h4.bufs = h3.bufs ∧ h3.objs.length ≤ r := by
    match hem : e.msg, m, hm with
    | .some s, some t, hm =>
      have hs3 : IsStr h3 s t := by
        obtain ⟨o, k1, k2, k3⟩ := IsStr.ex (hm : IsStr h s t)
        exact ⟨⟨o, by rw [old3 s (List.getElem?_eq_some_iff.1 k1).1, k1], k2, k3⟩, IsStr.small (hm : IsStr h s t)⟩
      have hl' : t.length ≤ 2 ^ 58 := hl
      have s1 : IsStr (h3.add { len := (chars ":\n - ").length, data := chars ":\n - " ++ [0] }) h3.objs.length (chars ":\n - ") := lit_str (by omega)
      obtain ⟨o, b1, b2, b3⟩ := append_ends s1 (hs3.add _) (by omega)
      have g : Grows h3 ((h3.add { len := (chars ":\n - ").length, data := chars ":\n - " ++ [0] }).add o) :=
        (Grows.add h3 _).trans (Grows.add _ _) (Nat.le_refl _)
      have g2 := g.trans (Grows.add _ { len := (0 : Nat), data := [0] }) (Nat.le_refl _)
      refine ⟨_, _, fun k x h5 hk => Ends.bind (Ends.bind ((Ends.lit _).bind b1) (Ends.pure _ _)) (Ends.bind (Ends.lit _) hk), ?_, g2.objs, g2.more, rfl, ?_⟩
      · refine IsStr.add (IsStr.fresh b2 (by rw [b3]; exact List.prefix_append _ _) ?_) _
        rw [List.length_append]; omega
      · exact (Grows.add h3 _).more
    | .none, none, hm =>
      refine ⟨_, _, fun k x h5 hk => Ends.bind (Ends.pure _ _) (Ends.bind (Ends.lit _) hk), lit_str (by simp), (Grows.add _ _).objs, (Grows.add _ _).more, rfl, Nat.le_refl _⟩
  have hmt : (msgText m).length ≤ 2 ^ 58 + 5 := by
    cases m with
    | none => simp [msgText]
    | some t =>
      have hl' : t.length ≤ 2 ^ 58 := hl
      show (chars ":\n - " ++ t).length ≤ _
      rw [List.length_append]
      omega
  have hd3 : d3 < h3.objs.length := (List.getElem?_eq_some_iff.1 c2.obj).1
  have c2' : BufAt h4 h.bufs.length d3 D3 (codeText e.err) := by
    refine ⟨by rw [q5]; exact c2.buf, ?_, c2.pre, c2.pos, c2.small⟩
    rw [q3 _ hd3]
    exact c2.obj
  obtain ⟨h5', d5, D5, e1, e2, e3, e4⟩ := bufAppend_ends c2' q2 (by omega) (by omega)
  obtain ⟨o, f1, f2⟩ := bufToString_ends e2
  refine ⟨_, _, ?_, f2, ?_⟩
  · unfold describe
    exact a1.bind (b1.bind (c1.bind (q1 (fun r => bufAppend _ r >>= fun b => bufToString b) _ _ (e1.bind f1))))
  · intro r hr
    have hne : r ≠ d3 := by
      rcases c4 with c4 | c4 <;> have := b3.more <;> omega
    rw [add_get_lt _ (by have := e3.more; omega), e3.objs r hne (by omega), q3 r (by omega), old3 r hr]

/-- **C75.**  Different codes have different texts. -/
theorem C75_injective {a b : Int} (h : codeText a = codeText b) : a = b := by
  have hpair : ∀ p ∈ errTexts, ∀ q ∈ errTexts, chars p.2 = chars q.2 → p.1 = q.1 := by decide +kernel
  have hunk : ∀ p ∈ errTexts, (chars p.2).take 20 ≠ chars "Unknown error code: " := by decide +kernel
  have hu : (chars "Unknown error code: ").length = 20 := by decide +kernel
  have htake : ∀ t, (chars "Unknown error code: " ++ t).take 20 = chars "Unknown error code: " := by
    intro t
    rw [← hu, List.take_left]
  unfold codeText at h
  split at h
  · rename_i p hp
    have hpe : p.1 = a := by simpa using List.find?_some hp
    split at h
    · rename_i q hq
      have hqe : q.1 = b := by simpa using List.find?_some hq
      rw [← hpe, ← hqe]
      exact hpair p (List.mem_of_find?_eq_some hp) q (List.mem_of_find?_eq_some hq) h
    · exact absurd (by rw [h]; exact htake _) (hunk p (List.mem_of_find?_eq_some hp))
  · split at h
    · rename_i q hq
      exact absurd (by rw [← h]; exact htake _) (hunk q (List.mem_of_find?_eq_some hq))
    · exact C52_injective (List.append_cancel_left h)

/-- **C75.**  The codes from 1 to 34 have texts of their own, the others are shown as numbers. -/
theorem C75_known (e : Int) : (¬ (1 ≤ e ∧ e ≤ 34) → codeText e = chars "Unknown error code: " ++ numeral e) ∧
    (1 ≤ e ∧ e ≤ 34 → ¬ chars "Unknown" <+: codeText e) := by
  have hr : ∀ p ∈ errTexts, 1 ≤ p.1 ∧ p.1 ≤ 34 := by decide +kernel
  have hun : ∀ p ∈ errTexts, ¬ chars "Unknown" <+: chars p.2 := by decide +kernel
  have hall : ∀ n ∈ List.range 34, (errTexts.find? (fun p => p.1 = ((n : Int) + 1))).isSome = true := by decide +kernel
  refine ⟨fun he => ?_, fun he => ?_⟩
  · unfold codeText
    split
    · rename_i p hp
      have hpe : p.1 = e := by simpa using List.find?_some hp
      exact absurd (hpe ▸ hr p (List.mem_of_find?_eq_some hp)) he
    · rfl
  · have := hall (e - 1).toNat (by rw [List.mem_range]; omega)
    rw [show (((e - 1).toNat : Int) + 1) = e by omega] at this
    obtain ⟨p, hp⟩ := Option.isSome_iff_exists.1 this
    unfold codeText
    rw [hp]
    exact hun p (List.mem_of_find?_eq_some hp)

example : codeText 2 = chars "No such file or directory" := by decide +kernel
example : codeText 99 = chars "Unknown error code: 99" := by decide +kernel

/-! ### C76: the time -/

/-- **C76.**  `Now` gives the seconds and microseconds of the operating system, for all numbers of 63 bits, and changes nothing on
the heap that was there. -/
theorem C76_now (os : Os σ) (h : Heap) (s : σ) (sec usec : Int) (h1 : IsInt sec) (h2 : IsInt usec)
    (hn : (os.now s).2 = (BitVec.ofInt 64 sec, BitVec.ofInt 64 usec)) :
    Gives (timeNow os) (h, s) { sec := sec, usec := usec } (h, (os.now s).1) := by
  refine (Gives.os _ _ _).bind ?_
  rw [hn, tagged_small h1.1 h1.2, tagged_small h2.1 h2.2]
  exact Gives.pure _ _

/-- **C76.**  The conversions: microseconds exactly, milliseconds and seconds rounded down, for times from 1970 on for more than
146000 years, with microseconds below a million. -/
theorem C76_units (h : Heap) (t : Time) (h0 : 0 ≤ t.sec) (h1 : t.sec < 2 ^ 42) (h2 : 0 ≤ t.usec) (h3 : t.usec < 1000000) :
    t.toMicros = 1000000 * t.sec + t.usec ∧ Ends t.toMillis h (1000 * t.sec + t.usec / 1000) h ∧ Ends t.toSecs h t.sec h := by
  have hm : t.toMicros = 1000000 * t.sec + t.usec := by
    unfold Time.toMicros
    rw [wrap_eq (z := t.sec * 1000000) ⟨by omega, by omega⟩, wrap_eq ⟨by omega, by omega⟩]
    omega
  refine ⟨hm, ?_, ?_⟩
  · unfold Time.toMillis idiv
    rw [if_neg (by decide), hm, Int.tdiv_eq_ediv_of_nonneg (by omega), wrap_eq ⟨by omega, by omega⟩]
    rw [show (1000000 * t.sec + t.usec) / 1000 = 1000 * t.sec + t.usec / 1000 by omega]
    exact Ends.pure _ _
  · unfold Time.toSecs idiv
    rw [if_neg (by decide), hm, Int.tdiv_eq_ediv_of_nonneg (by omega), wrap_eq ⟨by omega, by omega⟩]
    rw [show (1000000 * t.sec + t.usec) / 1000000 = t.sec by omega]
    exact Ends.pure _ _

example : Gives (timeNow (demoOs 0 false)) ({}, ⟨[], 0⟩) { sec := 1700000000, usec := 250000 } ({}, ⟨[], 0⟩) :=
  C76_now (demoOs 0 false) {} ⟨[], 0⟩ 1700000000 250000 ⟨by decide, by decide⟩ ⟨by decide, by decide⟩ rfl

end Clara.Props
