import Verif.Gen.DataRoots
import Verif.Gen.DataText
import Verif.Props.Codegen2
import Verif.Gc.Header
import Verif.Props.TypeTable
/-
C82: the tables of the assembly file are what the collector reads.
-/
namespace Clara.Props
open Clara.Gen hiding Txt
open Clara.Tbl Clara.Gas Clara.Data
open Clara.Gc (TypeInfo intOf isReadOnly typeId)

/-- The place of a label in the data section of a file. -/
def dataAddr (base : Nat) (ext : Txt → W64) (file : List DStmt) (l : Txt) : W64 := symbols base ext (inSect true false file) l

/-- The place of a label in the text section. -/
def textAddr (base : Nat) (ext : Txt → W64) (file : List DStmt) (l : Txt) : W64 := symbols base ext (inSect false false file) l

/-- The labels of the data section are different, and the section fits into memory. -/
def DataOk (base : Nat) (ext : Txt → W64) (file : List DStmt) : Prop :=
  (labelsOf (inSect true false file)).Nodup ∧ base + (dataAt base ext file).bytes.length ≤ 2 ^ 64

def TextOk (base : Nat) (ext : Txt → W64) (file : List DStmt) : Prop :=
  (labelsOf (inSect false false file)).Nodup ∧ base + (textAt base ext file).bytes.length ≤ 2 ^ 64

theorem inSect_data (cur : Bool) {B : List DStmt} (h : ∀ s ∈ B, plainStmt s = true) (R : List DStmt) :
    inSect true cur (.sect true :: (B ++ R)) = B ++ inSect true (lastSect true B) R := by
  rw [inSect, inSect_append, inSect_plain h]

/-! ### The maps of a function -/

/-- **C82, maps.**  The assembler reads the lines; wherever they are in a file, a map is read as its offsets (in words). -/
theorem C82_maps (maps : List (Txt × List Nat)) (hn : ∀ m ∈ maps, isSym m.1 = true) (hs : ∀ m ∈ maps, ∀ o ∈ m.2, o < 2 ^ 62) :
    ∃ ss, dlines (fnMaps maps) = some ss ∧ ∀ pre post base ext, DataOk base ext (pre ++ (ss ++ post)) →
      ∀ m ∈ maps, readInts (dataAt base ext (pre ++ (ss ++ post))) (dataAddr base ext (pre ++ (ss ++ post)) m.1) =
        some (m.2.map (fun o => ((o / 8 : Nat) : Int))) := by
  have key : ∀ l : List (Txt × List Nat), (∀ m ∈ l, isSym m.1 = true) →
      ∃ S, dlines (l.flatMap (fun m => gcMap m.1 (m.2.map (fun o => ((o / 8 : Nat) : Int))))) = some S ∧ (∀ s ∈ S, plainStmt s = true) ∧
        ∀ m ∈ l, ∃ A B, S = A ++ (mapStmts m.1 (m.2.map (fun o => ((o / 8 : Nat) : Int))) ++ B) := by
    intro l hl
    induction l with
    | nil => exact ⟨[], rfl, by simp, by simp⟩
    | cons x l ih =>
      obtain ⟨S, h1, h2, h3⟩ := ih (fun m hm => hl m (List.mem_cons_of_mem _ hm))
      refine ⟨mapStmts x.1 _ ++ S, dlines_append (dlines_gcMap (hl x (by simp)) _) h1, ?_, ?_⟩
      · intro s hs
        rcases List.mem_append.1 hs with hs | hs
        · exact mapStmts_plain _ _ s hs
        · exact h2 s hs
      · intro m hm
        rcases List.mem_cons.1 hm with rfl | hm
        · exact ⟨[], S, rfl⟩
        · obtain ⟨A, B, e⟩ := h3 m hm
          exact ⟨mapStmts x.1 (x.2.map (fun o => ((o / 8 : Nat) : Int))) ++ A, B, by rw [e, List.append_assoc]⟩
  obtain ⟨S, h1, h2, h3⟩ := key maps hn
  refine ⟨spacerStmts ++ (.sect true :: S), dlines_append dlines_spacer (dlines_cons dline_data h1), ?_⟩
  intro pre post base ext ok m hm
  obtain ⟨A, B, e⟩ := h3 m hm
  have hD : ∃ P R, inSect true false (pre ++ (spacerStmts ++ .sect true :: S ++ post)) =
      P ++ (mapStmts m.1 (m.2.map (fun o => ((o / 8 : Nat) : Int))) ++ R) := by
    rw [List.append_assoc, ← List.append_assoc, inSect_append, List.cons_append, inSect_data _ h2, e]
    exact ⟨_ ++ A, B ++ _, by simp only [List.append_assoc]; rfl⟩
  obtain ⟨P, R, hD⟩ := hD
  refine map_reads hD ⟨ok.1, ok.2⟩ ?_
  intro o ho
  obtain ⟨x, hx, rfl⟩ := List.mem_map.1 ho
  have := hs m hm x hx
  exact ⟨by omega, by omega⟩

/-! ### The table -/

/-- Offsets of a table are small numbers. -/
def SmallTable (T : List TypeInfo) : Prop := ∀ offs, TypeInfo.struct offs ∈ T → ∀ o ∈ offs, Small o

theorem read_table {m : Section} {n : Nat} {T : List TypeInfo} {ws : List W64} (hl : ws.length = T.length)
    (h : Holds m n (tagW T.length :: ws)) (ht : T.length < 2 ^ 62)
    (he : ∀ (i : Nat) (w : W64) (x : TypeInfo), ws[i]? = some w → T[i]? = some x → readInfo m w = some x) : readTable m (BitVec.ofNat 64 n) = some T := by
  have h0 : m.word (BitVec.ofNat 64 n) = some (tagW T.length) := h 0 _ rfl
  have e : (intOf (tagW T.length)).toNat = T.length := by
    rw [intOf_tag ⟨by omega, by omega⟩]; rfl
  rw [readTable, h0]
  simp only [Option.bind_eq_bind, Option.bind_some, e]
  refine mapM_get (fun i x hx => ?_)
  have hi : i < ws.length := by rw [hl]; exact (List.getElem?_eq_some_iff.1 hx).1
  have hw : ws[i]? = some ws[i] := List.getElem?_eq_getElem hi
  have := h (i + 1) ws[i] (by simp [hw])
  rw [ofNat_shift, show n + 8 + 8 * i = n + 8 * (i + 1) by omega, this, Option.bind_some]
  exact he i _ x hw hx

/-- **C82, table.**  The lines of `genNoGc` and of `genTypeInfoTable` are read by the assembler; wherever they are in a file,
the collector reads the table `T` of the types at `typeInfoArray`, and the array and its entries have the header of something
that is read only. -/
theorem C82_table (types : List TypeD) (gt : List Nat) (nm lc : Nat → Txt) (T : List TypeInfo) (hT : typeInfoTable types gt = some T)
    (hnm : ∀ t, ∀ c ∈ nm t, symChar c = true) (hlc : ∀ i, isSym (lc i) = true) (hs : SmallTable T) :
    ∃ ns ls ss, dlines genNoGc = some ns ∧ tableLines types nm lc gt = some ls ∧ dlines ls = some ss ∧
      ∀ pre mid post base ext file, file = pre ++ (ns ++ (mid ++ (ss ++ post))) → DataOk base ext file →
        readTable (dataAt base ext file) (dataAddr base ext file "typeInfoArray".toList) = some T ∧
        ∀ l, l = "typeInfoArray".toList ∨ (∃ i < T.length, l = infoLabel i) →
          ∃ hd, readHeader (dataAt base ext file) (dataAddr base ext file l) = some hd ∧ isReadOnly hd = true := by
  unfold typeInfoTable at hT
  split at hT
  next ms hms =>
    obtain ⟨rl, labs, S, r1, r2, r3⟩ := rootLines_ok (nm := nm) hnm hms
    have hmlen := rootMaps_length hms
    have hTlen := infos_length hT hmlen
    have hlabs : ∀ l ∈ labs, isSym l = true := by
      intro l hl
      obtain ⟨i, hi⟩ := List.getElem?_of_mem hl
      have : i < ms.length := by rw [← r3.length]; exact (List.getElem?_eq_some_iff.1 hi).1
      exact (r3.each i l ms[i] hi (List.getElem?_eq_getElem this)).1
    obtain ⟨il, S2, i1, i2, i3⟩ := infoLines_ok (lc := lc) hlc r3.length hlabs hT 0
    refine ⟨noGcStmts, ".data".toList :: (rl ++ (il ++ infoArray gt.length)), .sect true :: (S ++ (S2 ++ arrayStmts gt.length)),
      dlines_noGc, ?_, dlines_cons dline_raw_data (dlines_append r2 (dlines_append i2 (dlines_array _))), ?_⟩
    · rw [tableLines, r1]
      simp only [i1, Option.map_some]
    intro pre mid post base ext file hfile ok
    have hplain : ∀ s ∈ S ++ (S2 ++ arrayStmts gt.length), plainStmt s = true := by
      intro s hs
      rcases List.mem_append.1 hs with hs | hs
      · exact r3.plain s hs
      · rcases List.mem_append.1 hs with hs | hs
        · exact i3.plain s hs
        · exact array_plain _ s hs
    have hD : ∃ P M R, inSect true false file =
        P ++ (.label noGcLabel :: .quads [.num (goTag 0)] :: (M ++ (S ++ (S2 ++ (arrayStmts gt.length ++ R))))) := by
      rw [hfile, inSect_append]
      refine ⟨_, inSect true false mid, inSect true (lastSect true (S ++ (S2 ++ arrayStmts gt.length))) post,
        congrArg (inSect true false pre ++ ·) ?_⟩
      show inSect true (lastSect false pre) (.sect true :: .label noGcLabel :: .quads [.num (goTag 0)] :: .sect false :: _) = _
      simp only [inSect, if_true]
      show _ :: _ :: inSect true false (mid ++ (.sect true :: (S ++ (S2 ++ arrayStmts gt.length)) ++ post)) = _
      rw [inSect_append]
      have := inSect_data (lastSect false mid) hplain post
      rw [List.cons_append, this]
      simp only [List.append_assoc]
    obtain ⟨P, M, R, hD⟩ := hD
    have g : SectOk base ext (inSect true false file) := ⟨ok.1, ok.2⟩
    have hroot : ∀ (i : Nat) (lab : Txt) (offs : List Int), labs[i]? = some lab → ms[i]? = some offs → (∀ o ∈ offs, Small o) →
        readInts (dataAt base ext file) (dataAddr base ext file lab) = some offs := by
      intro i lab offs h1 h2 h3
      obtain ⟨-, ⟨rfl, rfl⟩ | ⟨A, B, e⟩⟩ := r3.each i lab offs h1 h2
      · exact noGc_reads hD g
      · refine map_reads (P := P ++ (.label noGcLabel :: .quads [.num (goTag 0)] :: (M ++ A)))
          (R := B ++ (S2 ++ (arrayStmts gt.length ++ R))) ?_ g h3
        rw [hD, e]
        simp only [List.append_assoc, List.cons_append]
    have hinfo : ∀ (i : Nat) (x : TypeInfo), T[i]? = some x → readInfo (dataAt base ext file) (dataAddr base ext file (infoLabel i)) = some x ∧
        readHeader (dataAt base ext file) (dataAddr base ext file (infoLabel i)) = some 2#63 := by
      intro i x hx
      obtain ⟨t, d, offs, e1, e2, e3, e4⟩ := infos_get hT hx
      have hi : i < labs.length := by rw [r3.length]; exact (List.getElem?_eq_some_iff.1 e3).1
      have hlab : labs[i]? = some labs[i] := List.getElem?_eq_getElem hi
      obtain ⟨A, B, e⟩ := i3.each i t d labs[i] e1 e2 hlab
      rw [Nat.zero_add] at e
      have hsm : ∀ o ∈ offs, Small o := by
        rcases rootMaps_struct hms e1 e2 e3 with h | h
        · simp [h]
        · exact hs offs (by rw [← h, ← e4]; exact List.mem_of_getElem? hx)
      rw [e4]
      refine info_reads (lc := lc i) (P := P ++ (.label noGcLabel :: .quads [.num (goTag 0)] :: (M ++ (S ++ A))))
        (R := B ++ (arrayStmts gt.length ++ R)) ?_ g (hroot i _ offs hlab e3 hsm)
      rw [hD, e]
      simp only [List.append_assoc, List.cons_append]
    have hA : inSect true false file = (P ++ (.label noGcLabel :: .quads [.num (goTag 0)] :: (M ++ (S ++ S2)))) ++
        (arrayStmts gt.length ++ R) := by
      rw [hD]
      simp only [List.append_assoc, List.cons_append]
    generalize hP' : P ++ (.label noGcLabel :: .quads [.num (goTag 0)] :: (M ++ (S ++ S2))) = P' at hA
    have hsym : dataAddr base ext file "typeInfoArray".toList = BitVec.ofNat 64 (base + afters 0 P' + 8) := by
      rw [dataAddr, symbol_here (P := P' ++ [.quads [.num (goTag 2)]]) (R := (arrayStmts gt.length).tail.tail ++ R)
        (by rw [hA]; simp [arrayStmts]) g.labels, afters_append]
      rfl
    have hold := holds_plain hA (array_plain _) base ext g.fits
    have hfit := words_fit hA (array_plain _) g
    rw [array_words] at hold hfit
    simp only [List.length_cons, List.length_map, List.length_range] at hfit
    refine ⟨?_, ?_⟩
    · rw [hsym]
      refine read_table (ws := (List.range gt.length).map (fun i => dataAddr base ext file (infoLabel i))) (by simp [hTlen]) ?_
        (by omega) ?_
      · intro i w hw
        rw [hTlen] at hw
        have := hold (i + 1) w hw
        rwa [show base + afters 0 P' + 8 * (i + 1) = base + afters 0 P' + 8 + 8 * i by omega] at this
      · intro i w x hw hx
        obtain ⟨j, hj, rfl⟩ : ∃ j, (List.range gt.length)[i]? = some j ∧ dataAddr base ext file (infoLabel j) = w := by simpa using hw
        have : j = i := by
          have := (List.getElem?_eq_some_iff.1 hj).2
          simpa using this.symm
        subst this
        exact (hinfo j x hx).1
    · rintro l (rfl | ⟨i, hi, rfl⟩)
      · refine ⟨2#63, ?_, by decide⟩
        rw [hsym, readHeader]
        have : BitVec.ofNat 64 (base + afters 0 P' + 8) - 8#64 = BitVec.ofNat 64 (base + afters 0 P') := by
          rw [BitVec.ofNat_add]
          exact BitVec.add_sub_cancel _ _
        have h0 : (dataAt base ext file).word (BitVec.ofNat 64 (base + afters 0 P')) = some (tagW 2) := hold 0 _ rfl
        rw [this, h0]
        decide +kernel
      · exact ⟨2#63, (hinfo i T[i] (List.getElem?_eq_getElem hi)).2, by decide⟩
  next => cases hT

/-- **C82, program.**  For every program, with the names of its types and the labels of their descriptions: the table that
the collector reads is the one of C45. -/
theorem C82_program (ds : List Decl) (ls : List Local) (nm lc : Nat → Txt) (hnm : ∀ t, ∀ c ∈ nm t, symChar c = true)
    (hlc : ∀ i, isSym (lc i) = true) (hp : ∀ c ∈ constructors ds ls, c.params.length < 2 ^ 61) :
    ∃ T, typeTable ds ls = some T ∧ ∃ ns out ss, dlines genNoGc = some ns ∧
      tableLines (addBuiltins (lowered ds ls).types).1 nm lc (assignIds (lowered ds ls).root (addBuiltins (lowered ds ls).types).2).2 =
        some out ∧ dlines out = some ss ∧
      ∀ pre mid post base ext, DataOk base ext (pre ++ (ns ++ (mid ++ (ss ++ post)))) →
        readTable (dataAt base ext (pre ++ (ns ++ (mid ++ (ss ++ post)))))
          (dataAddr base ext (pre ++ (ns ++ (mid ++ (ss ++ post)))) "typeInfoArray".toList) = some T := by
  refine ⟨_, typeTable_eq ds ls, ?_⟩
  have hs : SmallTable (builtinInfos ++ (constructors ds ls).map (fun c => .struct (entry (c.ret, c.tag, c.params)))) := by
    intro offs hm o ho
    rcases List.mem_append.1 hm with hm | hm
    · simp [builtinInfos] at hm
      subst hm
      cases ho
    · obtain ⟨c, hc, e⟩ := List.mem_map.1 hm
      injection e with e
      subst e
      obtain ⟨k, ty, hk, -, rfl⟩ := (mem_entry _ _ _ _).1 ho
      have h1 := (List.getElem?_eq_some_iff.1 hk).1
      have h2 := hp c hc
      unfold Small
      split <;> constructor <;> omega
  obtain ⟨ns, out, ss, h1, h2, h3, h4⟩ := C82_table _ _ nm lc _ (typeTable_eq ds ls) hnm hlc hs
  exact ⟨ns, out, ss, h1, h2, h3, fun pre mid post base ext ok => (h4 pre mid post base ext _ rfl ok).1⟩

/-! ### Functions and literals -/

theorem afters_align (P : List DStmt) : afters 0 (P ++ [.align 8]) % 8 = 0 := by
  rw [afters_append]
  show after (afters 0 P) (.align 8) % 8 = 0
  rw [after, if_neg (by decide)]
  omega

theorem word_mod {base n : Nat} (h : base + n < 2 ^ 64) (hb : base % 8 = 0) (hn : n % 8 = 0) :
    (BitVec.ofNat 64 (base + n)).toNat % 8 = 0 := by
  rw [BitVec.toNat_ofNat, Nat.mod_eq_of_lt h]
  omega

theorem back8 (n : Nat) : BitVec.ofNat 64 (n + 8) - 8#64 = BitVec.ofNat 64 n := by
  rw [BitVec.ofNat_add]
  exact BitVec.add_sub_cancel _ _

/-- **C82, functions.**  The assembler reads the lines of `fnStart`; whatever is before and after them, the label is at a
multiple of eight, and the word before it is the header of something that is read only, with the type id of functions. -/
theorem C82_function (name : Txt) (hn : isSym name = true) :
    ∃ ss, dlines (fnStart name) = some ss ∧ ∀ pre post base ext file, file = pre ++ (ss ++ post) → TextOk base ext file →
      base % 8 = 0 → base + (textAt base ext file).bytes.length < 2 ^ 64 →
        (textAddr base ext file name).toNat % 8 = 0 ∧
        ∃ hd, readHeader (textAt base ext file) (textAddr base ext file name) = some hd ∧ isReadOnly hd = true ∧ typeId hd = 5 := by
  refine ⟨[.sect false, .align 8, .quads [.num (goTag (roHeader 5))], .none, .none, .label name], ?_, ?_⟩
  · exact dlines_cons dline_text (dlines_cons dline_align (dlines_cons (dline_tagged _) (dlines_cons (dline_globl hn)
      (dlines_cons (dline_type hn) (dlines_one (dline_label hn))))))
  intro pre post base ext file hfile ok hb hlt
  have hD : inSect false false file = (inSect false false pre ++ [.align 8]) ++
      ([.quads [.num (goTag (roHeader 5))], .none, .none, .label name] ++ inSect false false post) := by
    rw [hfile, inSect_append]
    simp [inSect]
  have g : SectOk base ext (inSect false false file) := ⟨ok.1, ok.2⟩
  generalize hP : inSect false false pre ++ [.align 8] = P at hD
  have hP8 : afters 0 P % 8 = 0 := by rw [← hP]; exact afters_align _
  have hpl : ∀ s ∈ [DStmt.quads [.num (goTag (roHeader 5))], .none, .none, .label name], plainStmt s = true := by simp [plainStmt]
  have hold := holds_plain hD hpl base ext g.fits
  have hfit : base + (afters 0 P + 8) < 2 ^ 64 := by
    have e2 := emits_length (symbols base ext (inSect false false file)) 0 (inSect false false file)
    have e3 : (textAt base ext file).bytes = emits (symbols base ext (inSect false false file)) 0 (inSect false false file) := rfl
    rw [← e3] at e2
    have e4 := emits_length (symbols base ext (inSect false false file)) (afters 0 P + 8) (inSect false false post)
    have e5 : afters 0 (inSect false false file) = afters (afters 0 P + 8) (inSect false false post) := by
      rw [hD, afters_append, afters_append]; rfl
    omega
  have hsym : textAddr base ext file name = BitVec.ofNat 64 (base + afters 0 P + 8) := by
    rw [textAddr, symbol_here (P := P ++ [.quads [.num (goTag (roHeader 5))], .none, .none]) (R := inSect false false post)
      (by rw [hD]; simp) g.labels, afters_append]
    rfl
  have h0 : (textAt base ext file).word (BitVec.ofNat 64 (base + afters 0 P)) = some (tagW (roHeader 5)) := hold 0 _ rfl
  refine ⟨?_, _, by rw [hsym, readHeader, back8, h0]; rfl, by decide +kernel, by decide +kernel⟩
  rw [hsym, Nat.add_assoc]
  exact word_mod hfit hb (by omega)

/-- A string object, as the program and the collector see it: at a multiple of eight, behind the header of something that is read only
and has the type id of strings; its length, its bytes and a zero. -/
structure StringAt (m : Section) (p : W64) (v : Clara.Lex.Bytes) : Prop where
  aligned : p.toNat % 8 = 0
  header : ∃ hd, readHeader m p = some hd ∧ isReadOnly hd = true ∧ typeId hd = 4
  len : ∃ w, m.word p = some w ∧ intOf w = v.length
  bytes : ∀ i b, v[i]? = some b → m.byte (p + 8#64 + BitVec.ofNat 64 i) = some b
  zero : m.byte (p + 8#64 + BitVec.ofNat 64 v.length) = some 0

theorem literal_reads {lc : Txt} {len : Nat} {data : Clara.Lex.Bytes} {file P0 R : List DStmt} (hlen : len < 2 ^ 62)
    {base : Nat} {ext : Txt → W64} {p : W64}
    (hD : inSect true false file = (P0 ++ [.align 8]) ++
      ([.label lc, .quads [.num (goTag (roHeader 4))], .quads [.num (goTag len)]] ++ (.bytes data :: R)))
    (ok : DataOk base ext file) (hb : base % 8 = 0) (hp : p = dataAddr base ext file lc + 8#64) :
    p.toNat % 8 = 0 ∧
    (∃ hd, readHeader (dataAt base ext file) p = some hd ∧ isReadOnly hd = true ∧ typeId hd = 4) ∧
    (∃ w, (dataAt base ext file).word p = some w ∧ intOf w = len) ∧
    ∀ i b, data[i]? = some b → (dataAt base ext file).byte (p + 8#64 + BitVec.ofNat 64 i) = some b := by
  have g : SectOk base ext (inSect true false file) := ⟨ok.1, ok.2⟩
  generalize hP : P0 ++ [.align 8] = P at hD
  have hP8 : afters 0 P % 8 = 0 := by rw [← hP]; exact afters_align _
  have hpl : ∀ s ∈ [DStmt.label lc, .quads [.num (goTag (roHeader 4))], .quads [.num (goTag len)]], plainStmt s = true := by simp [plainStmt]
  have hold := holds_plain hD hpl base ext g.fits
  have hfit := words_fit hD hpl g
  have hw : wordsOf (symbols base ext (inSect true false file)) [DStmt.label lc, .quads [.num (goTag (roHeader 4))], .quads [.num (goTag len)]] =
      [tagW (roHeader 4), tagW len] := rfl
  rw [hw] at hold hfit
  simp only [List.length_cons, List.length_nil] at hfit
  have hsym : dataAddr base ext file lc = BitVec.ofNat 64 (base + afters 0 P) := symbol_here hD g.labels base ext
  have hp' : p = BitVec.ofNat 64 (base + afters 0 P + 8) := by rw [hp, hsym, ← BitVec.ofNat_add]
  have h0 : (dataAt base ext file).word (BitVec.ofNat 64 (base + afters 0 P)) = some (tagW (roHeader 4)) := hold 0 _ rfl
  have h1 : (dataAt base ext file).word (BitVec.ofNat 64 (base + afters 0 P + 8)) = some (tagW len) := hold 1 _ rfl
  refine ⟨?_, ⟨_, by rw [hp', readHeader, back8, h0]; rfl, by decide +kernel, by decide +kernel⟩,
    ⟨_, by rw [hp', h1], intOf_tag ⟨by omega, by omega⟩⟩, ?_⟩
  · rw [hp', Nat.add_assoc]
    exact word_mod (by omega) hb (by omega)
  · intro i b hi
    obtain ⟨hlt, hg⟩ := List.getElem?_eq_some_iff.1 hi
    rw [hp', ofNat_shift]
    generalize hsy : symbols base ext (inSect true false file) = sym at *
    have hbytes : (dataAt base ext file).bytes = (emits sym 0 P ++ ([tagW (roHeader 4), tagW len].flatMap le ++ data.take i)) ++
        b :: (data.drop (i + 1) ++ emits sym (afters (afters 0 P + 16) [.bytes data]) (R)) := by
      have e : (dataAt base ext file).bytes = emits sym 0 (inSect true false file) := by rw [← hsy]; rfl
      rw [e, hD, emits_append, emits_append, (plain_emits sym hpl _).1, (plain_emits sym hpl _).2]
      have ed : data = data.take i ++ b :: data.drop (i + 1) := by rw [← hg]; simp
      have e2 : emits sym (afters 0 P + 16) (.bytes data :: R) =
          data ++ emits sym (afters (afters 0 P + 16) [.bytes data]) (R) := rfl
      have e3 : wordsOf sym [DStmt.label lc, .quads [.num (goTag (roHeader 4))], .quads [.num (goTag len)]] = [tagW (roHeader 4), tagW len] := rfl
      rw [e3]
      show emits sym 0 P ++ ([tagW (roHeader 4), tagW len].flatMap le ++ emits sym (afters 0 P + 16) (.bytes data :: R)) = _
      rw [e2]
      generalize emits sym (afters (afters 0 P + 16) [.bytes data]) (R) = X
      rw [show data ++ X = (data.take i ++ b :: data.drop (i + 1)) ++ X from congrArg (· ++ X) ed]
      simp only [List.append_assoc, List.cons_append]
    refine byte_at hbytes g.fits ?_
    have e1 := emits_length sym 0 P
    have e2 := flat_length [tagW (roHeader 4), tagW len]
    rw [List.length_append, List.length_append, List.length_take, e2]
    simp only [List.length_cons, List.length_nil]
    show _ = base + _
    omega

/-- **C82, literals.**  The same for a literal of `flush`: `data` is what the assembler makes of its text (`C39`) and the final
zero.  The value of the program, eight bytes after the label, is at a multiple of eight; the header before it has the type id of
strings; its first word is the length; the bytes follow. -/
theorem C82_literal (lc : Txt) (len : Nat) (data : Clara.Lex.Bytes) (hl : isSym lc = true) (hlen : len < 2 ^ 62) :
    ∃ ss, dlines (litStart lc len) = some ss ∧ ∀ pre post base ext file p, file = pre ++ (.sect true :: (ss ++ (.bytes data :: post))) →
      DataOk base ext file → base % 8 = 0 → p = dataAddr base ext file lc + 8#64 →
        p.toNat % 8 = 0 ∧
        (∃ hd, readHeader (dataAt base ext file) p = some hd ∧ isReadOnly hd = true ∧ typeId hd = 4) ∧
        (∃ w, (dataAt base ext file).word p = some w ∧ intOf w = len) ∧
        ∀ i b, data[i]? = some b → (dataAt base ext file).byte (p + 8#64 + BitVec.ofNat 64 i) = some b := by
  refine ⟨[.align 8, .label lc, .quads [.num (goTag (roHeader 4))], .quads [.num (goTag len)]], ?_, ?_⟩
  · exact dlines_cons dline_align (dlines_cons (dline_label hl) (dlines_cons (dline_tagged _) (dlines_one (dline_tagged _))))
  intro pre post base ext file p hfile ok hb hp
  have hD : inSect true false file = (inSect true false pre ++ [.align 8]) ++
      ([.label lc, .quads [.num (goTag (roHeader 4))], .quads [.num (goTag len)]] ++ (.bytes data :: inSect true true post)) := by
    rw [hfile, inSect_append]
    simp [inSect]
  exact literal_reads hlen hD ok hb hp

theorem gasBytes_le (t : Clara.Lex.Bytes) : (gasBytes t).length ≤ t.length := by
  fun_induction gasBytes t <;> simp only [List.length_cons, List.length_nil] at * <;> omega

theorem emitted_clean (ss : List Clara.Lex.Bytes)
    (hs : ∀ s ∈ ss, (∃ u, Lex.Spec.Lexeme u .string s) ∧ validUtf8 s = true ∧ 10 ∉ s ∧ s.length < 2 ^ 62)
    {order : List (Clara.Lex.Bytes × Nat)} (ho : order.Perm (stringLits {} ss).2.table) {out : List Emitted} (h1 : flushLits order = some out) :
    ∀ e ∈ out, Clean e.text := by
  obtain ⟨out', h1', h2, h3, h4⟩ := C39_emit_partial ss (fun s h => ⟨(hs s h).1, (hs s h).2.1, (hs s h).2.2.1⟩) ho
  obtain rfl : out' = out := by rw [h1] at h1'; exact (Option.some.inj h1').symm
  intro e he
  obtain ⟨i, hi, hie⟩ := List.getElem_of_mem (h3 e he)
  have hi' : i < ss.length := by rw [← C39_labels_total ss]; exact hi
  obtain ⟨e', he', l1, l2, -⟩ := h4 i ss[i] e.label (List.getElem?_eq_getElem hi') (by rw [List.getElem?_eq_getElem hi, hie])
  have : e' = e := List.inj_on_of_nodup_map h2 he' he l1
  subst this
  obtain ⟨⟨u, hu⟩, hv, hn, -⟩ := hs _ (List.getElem_mem hi')
  rw [l2]
  exact clean_literal hu hv hn

theorem labelsOf_lits (out : List Emitted) : labelsOf (out.flatMap litStmts) = out.map (litLabel ∘ (·.label)) := by
  induction out with
  | nil => rfl
  | cons e out ih =>
    rw [List.flatMap_cons, List.map_cons, ← ih]
    rfl

/-- **C82, strings.**  From the spelling of literals in the source to the objects in memory: whatever the order of the map of the compiler,
the assembler reads the lines of `flush`, their labels are different, and wherever they are in a file, the operand of each literal is the address of a string
object with the value of the literal.  The literals are valid UTF-8 without raw line feeds (`C39`). -/
theorem C82_string (ss : List Clara.Lex.Bytes)
    (hs : ∀ s ∈ ss, (∃ u, Lex.Spec.Lexeme u .string s) ∧ validUtf8 s = true ∧ 10 ∉ s ∧ s.length < 2 ^ 62)
    {order : List (Clara.Lex.Bytes × Nat)} (ho : order.Perm (stringLits {} ss).2.table) :
    ∃ out ls, flushLits order = some out ∧ dlines (flushLines out) = some ls ∧ (labelsOf ls).Nodup ∧
      ∀ pre post base ext file, file = pre ++ (ls ++ post) → DataOk base ext file → base % 8 = 0 →
        ∀ (i : Nat) (s : Clara.Lex.Bytes) (n : Nat), ss[i]? = some s → (stringLits {} ss).1[i]? = some n →
          ∃ v, unquote s = some v ∧ StringAt (dataAt base ext file) (dataAddr base ext file (litLabel n) + 8#64) v := by
  obtain ⟨out, h1, h2, h3, h4⟩ := C39_emit_partial ss (fun s h => ⟨(hs s h).1, (hs s h).2.1, (hs s h).2.2.1⟩) ho
  have hclean := emitted_clean ss hs ho h1
  refine ⟨out, _, h1, dlines_flush hclean, ?_, ?_⟩
  · rw [show labelsOf (.sect true :: out.flatMap litStmts) = labelsOf (out.flatMap litStmts) from rfl, labelsOf_lits, ← List.map_map]
    exact List.Nodup.map (fun a b h => dec_inj (List.append_cancel_left h)) h2
  intro pre post base ext file hfile ok hb i s n hi hn
  obtain ⟨e, he, l1, l2, l3⟩ := h4 i s n hi hn
  obtain ⟨⟨u, hu⟩, hv, hnl, hlen⟩ := hs s (List.mem_of_getElem? hi)
  refine ⟨_, unquote_val hu hv hnl, ?_⟩
  rw [← l2]
  obtain ⟨A, B, hAB⟩ := List.append_of_mem he
  have hD : inSect true false file = ((inSect true false pre ++ A.flatMap litStmts) ++ [.align 8]) ++
      ([.label (litLabel n), .quads [.num (goTag (roHeader 4))], .quads [.num (goTag e.len)]] ++
        (.bytes (gasBytes e.text ++ [0]) :: (B.flatMap litStmts ++ inSect true true post))) := by
    rw [hfile, inSect_append, List.cons_append, inSect, lits_sect, hAB, List.flatMap_append, List.flatMap_cons, litStmts, l1]
    simp only [List.append_assoc, List.cons_append, List.nil_append]
  have hl : e.len < 2 ^ 62 := by
    have := gasBytes_le e.text
    have h5 : e.text.length ≤ s.length := by rw [l2]; simp; omega
    omega
  obtain ⟨r1, r2, r3, r4⟩ := literal_reads hl hD ok hb rfl
  exact ⟨r1, r2, by rw [← l3]; exact r3, fun i b hb => r4 i b (by rw [List.getElem?_append_left]; exact hb; exact (List.getElem?_eq_some_iff.1 hb).1),
    r4 _ 0 (by simp)⟩

/-! ### Examples -/

/-- A struct of an int and a string, and an enum with a member with two fields. -/
def dataDecls : List Decl := [.struct [.integer, .string], .enum [[], [.string, .integer]]]

def dataNames (i : Nat) : Txt := 'n' :: dec i
def dataLits (i : Nat) : Txt := ".LC".toList ++ dec i

theorem dataNames_ok : ∀ t, ∀ c ∈ dataNames t, symChar c = true := by
  intro t c hc
  rcases List.mem_cons.1 hc with rfl | hc
  · decide
  · exact sym_digit (dec_digit t c hc)

theorem dataLits_ok (i : Nat) : isSym (dataLits i) = true := by
  have : dataLits i = '.' :: ("LC".toList ++ dec i) := rfl
  rw [this]
  simp only [isSym, Bool.and_eq_true, List.all_append]
  exact ⟨by decide, by decide, by decide, by decide, dec_sym i⟩

/-- The hypotheses of `C82_program` hold for it. -/
example : ∀ c ∈ constructors dataDecls [], c.params.length < 2 ^ 61 := by decide +kernel

/-- The text of a map. -/
example : gcMap "struct_n".toList [1, 3] =
    ["struct_n:".toList, "   .8byte   5".toList, "   .8byte   3,7".toList, [], List.replicate 120 ';', []] := by decide +kernel

/-- The file of `C82_program` for it, with nothing else in it. -/
def dataFile : List DStmt :=
  let p := lowered dataDecls []
  let b := addBuiltins p.types
  match dlines genNoGc, (tableLines b.1 dataNames dataLits (assignIds p.root b.2).2).bind dlines with
  | some ns, some ss => ns ++ ss
  | _, _ => []

/-- Its section at an address, and the table that is read there. -/
example : DataOk 4096 (fun _ => 0) dataFile := by unfold DataOk; decide +kernel
example : readTable (dataAt 4096 (fun _ => 0) dataFile) (dataAddr 4096 (fun _ => 0) dataFile "typeInfoArray".toList) =
    some [.struct [], .bytes, .array false, .array true, .string, .function, .bytes, .array true,
      .struct [], .struct [1], .struct [1]] := by decide +kernel

/-- A function after three bytes of another, and a literal after five bytes. -/
example : TextOk 8192 (fun _ => 0) [.bytes [1, 2, 3], .sect false, .align 8, .quads [.num (goTag (roHeader 5))], .none, .none,
    .label "f".toList] := by unfold TextOk; decide +kernel
example : DataOk 4096 (fun _ => 0) [.sect true, .bytes [1, 2, 3, 4, 5], .sect true, .align 8, .label ".LC0".toList,
    .quads [.num (goTag (roHeader 4))], .quads [.num (goTag 2)], .bytes [104, 105, 0]] := by unfold DataOk; decide +kernel

/-- The literals `"a\n"` and `"é;"` in the file. -/
example : flushLines [{ label := 0, len := 2, text := [97, 92, 110] }, { label := 1, len := 3, text := [195, 169, 59] }] =
    ["   .data".toList, "   .align   8".toList, ".LC0:".toList, "   .8byte   1125899906842629".toList, "   .8byte   5".toList,
      "   .ascii \"a\\n\\0\"".toList, "   .align   8".toList, ".LC1:".toList, "   .8byte   1125899906842629".toList,
      "   .8byte   7".toList, "   .ascii \"Ã©;\\0\"".toList] := by decide +kernel
example : (dlines (flushLines [{ label := 0, len := 2, text := [97, 92, 110] }, { label := 1, len := 3, text := [195, 169, 59] }])).map
    (fun ls => DataOk 4096 (fun _ => 0) (.bytes [1] :: ls)) = some True := by
  rw [show dlines (flushLines [{ label := 0, len := 2, text := [97, 92, 110] }, { label := 1, len := 3, text := [195, 169, 59] }]) =
    some [.sect true, .align 8, .label ".LC0".toList, .quads [.num 1125899906842629], .quads [.num 5], .bytes [97, 10, 0],
      .align 8, .label ".LC1".toList, .quads [.num 1125899906842629], .quads [.num 7], .bytes [195, 169, 59, 0]] by decide +kernel]
  rw [Option.map_some, Option.some.injEq, eq_iff_iff, iff_true]
  unfold DataOk
  decide +kernel

end Clara.Props
