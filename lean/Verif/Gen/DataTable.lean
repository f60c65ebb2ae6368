import Verif.Gen.DataProof
import Verif.Gen.DataPlace
import Verif.Gc.Collect
/-
The tables of the data section, read by the collector.
-/
namespace Clara.Data
open Clara.Gen hiding Txt
open Clara.Tbl Clara.Gas
open Clara.Gc (TypeInfo intOf)

/-! ### What the collector reads -/

/-- An array of integers. -/
def readInts (m : Section) (a : W64) : Option (List Int) := do
  let n ← m.word a
  (List.range (intOf n).toNat).mapM (fun i => (m.word (a + 8#64 + BitVec.ofNat 64 (8 * i))).map intOf)

/-- A value of `typeInfo` (`gc.clara` 123-129): the tag, then the fields of the member; a boolean is 1 or 0. -/
def readInfo (m : Section) (a : W64) : Option TypeInfo := do
  let tag ← m.word a
  if intOf tag = 0 then
    let p ← m.word (a + 16#64)
    return .struct (← readInts m p)
  else if intOf tag = 1 then return .string
  else if intOf tag = 2 then
    let b ← m.word (a + 16#64)
    if b = 1#64 then return .array true else if b = 0#64 then return .array false else none
  else if intOf tag = 3 then return .function
  else if intOf tag = 4 then return .bytes
  else none

/-- An array of them. -/
def readTable (m : Section) (a : W64) : Option (List TypeInfo) := do
  let n ← m.word a
  (List.range (intOf n).toNat).mapM (fun i => (m.word (a + 8#64 + BitVec.ofNat 64 (8 * i))).bind (readInfo m))

/-- The header of the block of which `p` is the memory (`gc.clara` `block`), an int of the program. -/
def readHeader (m : Section) (p : W64) : Option (BitVec 63) := (m.word (p - 8#64)).map (fun (w : W64) => (w >>> 1).setWidth 63)

/-! ### Numbers -/

/-- The word of a tagged integer. -/
def tagW (i : Int) : W64 := BitVec.ofInt 64 (goTag i)

def Small (i : Int) : Prop := -2 ^ 62 ≤ i ∧ i < 2 ^ 62

theorem tagW_eq (i : Int) : tagW i = BitVec.ofInt 64 (2 * i + 1) := by
  rw [tagW, goTag, BitVec.ofInt_toInt, BitVec.ofInt_add, BitVec.ofInt_mul]
  rw [BitVec.shiftLeft_eq_mul_twoPow, BitVec.mul_comm]
  rfl

theorem intOf_tag {i : Int} (h : Small i) : intOf (tagW i) = i := by
  obtain ⟨h1, h2⟩ := h
  rw [tagW_eq, intOf, BitVec.toInt_sshiftRight, BitVec.toInt_ofInt, Int.bmod_eq_of_le (by omega) (by omega),
    Int.shiftRight_eq_div_pow]
  omega

theorem dval_tag (sym : Txt → W64) (i : Int) : dval sym (.num (goTag i)) = tagW i := rfl

/-! ### Reading an array of integers -/

theorem ofNat_shift (n k : Nat) : BitVec.ofNat 64 n + 8#64 + BitVec.ofNat 64 k = BitVec.ofNat 64 (n + 8 + k) := by
  rw [show (8#64) = BitVec.ofNat 64 8 from rfl, ← BitVec.ofNat_add, ← BitVec.ofNat_add]

theorem mapM_get {α : Type} {f : Nat → Option α} {l : List α} (h : ∀ i x, l[i]? = some x → f i = some x) :
    (List.range l.length).mapM f = some l := by
  have : ∀ (k : Nat) (l' : List α) , (∀ i x, l'[i]? = some x → f (k + i) = some x) →
      ((List.range' k l'.length).mapM f) = some l' := by
    intro k l'
    induction l' generalizing k with
    | nil => intro _; rfl
    | cons x l' ih =>
      intro h
      rw [List.length_cons, List.range'_succ, List.mapM_cons, show f k = some x from h 0 x rfl, ih (k + 1) (fun i y hy => by
        have := h (i + 1) y hy
        rwa [show k + (i + 1) = k + 1 + i by omega] at this)]
      rfl
  rw [List.range_eq_range']
  exact this 0 l (fun i x hx => by rw [Nat.zero_add]; exact h i x hx)

theorem readInts_of {m : Section} {n : Nat} {offs : List Int} (h : Holds m n (tagW offs.length :: offs.map tagW))
    (hl : offs.length < 2 ^ 62) (hs : ∀ o ∈ offs, Small o) : readInts m (BitVec.ofNat 64 n) = some offs := by
  have h0 : m.word (BitVec.ofNat 64 n) = some (tagW offs.length) := h 0 _ rfl
  have e : (intOf (tagW offs.length)).toNat = offs.length := by
    rw [intOf_tag ⟨by omega, by omega⟩]; rfl
  rw [readInts, h0]
  simp only [Option.bind_eq_bind, Option.bind_some, e]
  refine mapM_get (fun i o ho => ?_)
  have hi : m.word (BitVec.ofNat 64 (n + 8 * (i + 1))) = some (tagW o) := h (i + 1) (tagW o) (by simp [ho])
  rw [ofNat_shift, show n + 8 + 8 * i = n + 8 * (i + 1) by omega, hi]
  rw [Option.map_some, intOf_tag (hs o (List.mem_of_getElem? ho))]

/-! ### A section with its symbols -/

/-- The data section of the statements of a file. -/
def dataAt (base : Nat) (ext : Txt → W64) (file : List DStmt) : Section := assemble base ext (inSect true false file)

/-- The text section. -/
def textAt (base : Nat) (ext : Txt → W64) (file : List DStmt) : Section := assemble base ext (inSect false false file)

/-- A section whose labels are different and that fits into memory. -/
structure SectOk (base : Nat) (ext : Txt → W64) (D : List DStmt) : Prop where
  labels : (labelsOf D).Nodup
  fits : base + (assemble base ext D).bytes.length ≤ 2 ^ 64

variable {base : Nat} {ext : Txt → W64} {D : List DStmt}

theorem spacer_plain : ∀ s ∈ spacerStmts, plainStmt s = true := by
  intro s hs
  rw [List.eq_of_mem_replicate hs]
  rfl

theorem spacer_words (sym : Txt → W64) : wordsOf sym spacerStmts = [] := rfl

theorem mapStmts_plain (name : Txt) (offs : List Int) : ∀ s ∈ mapStmts name offs, plainStmt s = true := by
  intro s hs
  simp only [mapStmts, List.mem_cons] at hs
  rcases hs with rfl | rfl | rfl | h
  · rfl
  · rfl
  · rfl
  · exact spacer_plain s h

theorem mapStmts_words (sym : Txt → W64) (name : Txt) (offs : List Int) :
    wordsOf sym (mapStmts name offs) = tagW offs.length :: offs.map tagW := by
  simp only [mapStmts, wordsOf, spacer_words, List.map_cons, List.map_nil, List.append_nil, List.map_map, dval_tag]
  rfl

theorem words_fit {P Q R : List DStmt} (hD : D = P ++ (Q ++ R)) (hQ : ∀ s ∈ Q, plainStmt s = true) (g : SectOk base ext D) :
    base + afters 0 P + 8 * (wordsOf (symbols base ext D) Q).length ≤ 2 ^ 64 := by
  have h1 := g.fits
  have e : (assemble base ext D).bytes = emits (symbols base ext D) 0 D := rfl
  have e2 := emits_length (symbols base ext D) 0 D
  rw [← e] at e2
  have e3 : afters 0 D = afters (afters (afters 0 P) Q) R := by rw [hD, afters_append, afters_append]
  have e4 := (plain_emits (symbols base ext D) hQ (afters 0 P)).2
  have e5 := emits_length (symbols base ext D) (afters (afters 0 P) Q) R
  omega

/-- A map is read as its offsets. -/
theorem map_reads {P R : List DStmt} {name : Txt} {offs : List Int} (hD : D = P ++ (mapStmts name offs ++ R)) (g : SectOk base ext D)
    (hs : ∀ o ∈ offs, Small o) : readInts (assemble base ext D) (symbols base ext D name) = some offs := by
  rw [symbol_here (P := P) (R := (mapStmts name offs).tail ++ R) (by rw [hD]; rfl) g.labels]
  have h := holds_plain hD (mapStmts_plain name offs) base ext g.fits
  have hw := words_fit hD (mapStmts_plain name offs) g
  rw [mapStmts_words] at h hw
  simp only [List.length_cons, List.length_map] at hw
  exact readInts_of h (by omega) hs

/-- The empty map. -/
def noGcStmts : List DStmt := [.sect true, .label noGcLabel, .quads [.num (goTag 0)], .sect false]

theorem dlines_noGc : dlines genNoGc = some noGcStmts := by decide +kernel

theorem noGc_reads {P R : List DStmt} (hD : D = P ++ (.label noGcLabel :: .quads [.num (goTag 0)] :: R)) (g : SectOk base ext D) :
    readInts (assemble base ext D) (symbols base ext D noGcLabel) = some [] := by
  rw [symbol_here hD g.labels]
  have h := holds_plain (Q := [.label noGcLabel, .quads [.num (goTag 0)]]) hD (by simp [plainStmt]) base ext g.fits
  exact readInts_of (offs := []) h (by decide) (by simp)

/-! ### Entries -/

/-- The statements of the body of an entry. -/
def bodyStmts (lc root : Txt) : TypeD → List DStmt
  | .struct _ | .enum _ => [.quads [.num (goTag 0)], .quads [.sym lc 8], .quads [.sym root 0]]
  | .string => [.quads [.num (goTag 1)]]
  | .array e => [.quads [.num (goTag 2)], .quads [.sym lc 8], .quads [.num (if e.isPointer then 1 else 0)]]
  | .function => [.quads [.num (goTag 3)]]
  | .bytes => [.quads [.num (goTag 4)]]

theorem dlines_one {l : Txt} {s : DStmt} (h : dline l = some [s]) : dlines [l] = some [s] := dlines_cons h rfl

theorem dlines_body {lc root : Txt} (hl : isSym lc = true) (hr : isSym root = true) (d : TypeD) :
    dlines (infoBody lc root d) = some (bodyStmts lc root d) := by
  cases d with
  | struct | enum => exact dlines_cons (dline_tagged _) (dlines_cons (dline_addr8 hl) (dlines_one (dline_addr hr)))
  | array e =>
    refine dlines_cons (dline_tagged _) (dlines_cons (dline_addr8 hl) (dlines_one ?_))
    cases e.isPointer <;> decide +kernel
  | _ => exact dlines_one (dline_tagged _)

def infoStmts (i : Nat) (lc root : Txt) (d : TypeD) : List DStmt :=
  .quads [.num (goTag 2)] :: .label (infoLabel i) :: bodyStmts lc root d

theorem body_plain (lc root : Txt) (d : TypeD) : ∀ s ∈ bodyStmts lc root d, plainStmt s = true := by
  cases d <;> simp [bodyStmts, plainStmt]

theorem info_plain (i : Nat) (lc root : Txt) (d : TypeD) : ∀ s ∈ infoStmts i lc root d, plainStmt s = true := by
  intro s hs
  simp only [infoStmts, List.mem_cons] at hs
  rcases hs with rfl | rfl | h
  · rfl
  · rfl
  · exact body_plain lc root d s h

theorem small_lit {i : Int} (h : 0 ≤ i ∧ i < 10) : Small i := ⟨by omega, by omega⟩

/-- The place of an entry, the header before it and what it is read as. -/
theorem info_reads {P R : List DStmt} {i : Nat} {lc root : Txt} {d : TypeD} {offs : List Int}
    (hD : D = P ++ (infoStmts i lc root d ++ R)) (g : SectOk base ext D)
    (hr : readInts (assemble base ext D) (symbols base ext D root) = some offs) :
    readInfo (assemble base ext D) (symbols base ext D (infoLabel i)) = some (info d offs) ∧
    readHeader (assemble base ext D) (symbols base ext D (infoLabel i)) = some 2#63 := by
  have hL : symbols base ext D (infoLabel i) = BitVec.ofNat 64 (base + afters 0 P + 8) := by
    rw [symbol_here (P := P ++ [.quads [.num (goTag 2)]]) (R := bodyStmts lc root d ++ R) (by rw [hD]; simp [infoStmts]) g.labels,
      afters_append]
    rfl
  have h := holds_plain hD (info_plain i lc root d) base ext g.fits
  generalize hm : assemble base ext D = m at h hr ⊢
  generalize hsy : symbols base ext D = sym at h hr hL ⊢
  rw [hL]
  generalize hn : base + afters 0 P = n at h ⊢
  have h0 : m.word (BitVec.ofNat 64 n) = some (tagW 2) := h 0 _ rfl
  have at1 : ∀ w, (wordsOf sym (bodyStmts lc root d))[0]? = some w → m.word (BitVec.ofNat 64 (n + 8)) = some w := fun w hw => h 1 w hw
  have at3 : ∀ w, (wordsOf sym (bodyStmts lc root d))[2]? = some w → m.word (BitVec.ofNat 64 (n + 8) + 16#64) = some w := by
    intro w hw
    rw [show (16#64) = BitVec.ofNat 64 16 from rfl, ← BitVec.ofNat_add]
    exact h 3 w hw
  refine ⟨?_, ?_⟩
  · unfold readInfo
    have z0 := intOf_tag (small_lit (i := 0) (by decide))
    have z1 := intOf_tag (small_lit (i := 1) (by decide))
    have z2 := intOf_tag (small_lit (i := 2) (by decide))
    have z3 := intOf_tag (small_lit (i := 3) (by decide))
    have z4 := intOf_tag (small_lit (i := 4) (by decide))
    cases d with
    | struct fs | enum fs =>
      rw [at1 (tagW 0) rfl]
      have : m.word (BitVec.ofNat 64 (n + 8) + 16#64) = some (sym root) := by
        rw [at3 (sym root + BitVec.ofInt 64 0) rfl]
        simp
      simp [z0, this, hr, info]
    | string => rw [at1 (tagW 1) rfl]; simp [z1, info]
    | array e =>
      rw [at1 (tagW 2) rfl, at3 (BitVec.ofInt 64 (if e.isPointer then 1 else 0)) rfl]
      have b1 : BitVec.ofInt 64 1 = 1#64 := rfl
      have b0 : BitVec.ofInt 64 0 = 0#64 := rfl
      rw [info]
      generalize e.isPointer = b
      cases b <;> simp [z2, b1, b0]
    | function => rw [at1 (tagW 3) rfl]; simp [z3, info]
    | bytes => rw [at1 (tagW 4) rfl]; simp [z4, info]
  · have : BitVec.ofNat 64 (n + 8) - 8#64 = BitVec.ofNat 64 n := by
      rw [BitVec.ofNat_add]
      exact BitVec.add_sub_cancel _ _
    rw [readHeader, this, h0]
    decide +kernel

end Clara.Data
