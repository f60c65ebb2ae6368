import Verif.Props.FileTail
import Verif.Gen.PeepList
/-
The text section of the whole file (part of **C88**).
-/
namespace Clara.Props
open Clara.Gen hiding Txt
open Clara.Tbl Clara.Gas Clara.Data
open Clara.Gc (TypeInfo)

/-! ### The lines -/

/-- The functions before the trampoline (`codegen.go` 124-131). -/
def headFns : List (String × List HIns) :=
  [("readByte", inFrame (readBody 1)), ("readInt", inFrame (readBody 8)), ("writeByte", inFrame (writeBody 1)), ("writeInt", inFrame (writeBody 8))]

/-- The lines of `codegen` up to `flush` (`codegen.go` 100-148): the functions of the program, the helpers, the trampoline (it has no root
maps, so the number of the next one does not matter), the spacer behind it and the rest. -/
def fileLines (S : Spell) (ord : List (Gas.Txt × List Nat) → List (Gas.Txt × List Nat)) (o : Bool) (alloc ioob e : String) (fds : List FnDef)
    (tbl : List Gas.Txt) : List Gas.Txt :=
  codeLines S ord 0 none (parts (peepWith o (genFuncs alloc fds 0))) ++ (helpersLines S headFns ++
    (codeLines S ord 0 none (parts (peepWith o (genIoob ioob))) ++ (spacer ++ tailLines S e tbl)))

/-! ### Specification -/

/-- What the text section has to have. -/
def shownFile (o : Bool) (alloc ioob e : String) (fds : List FnDef) : List Got :=
  shown (peepWith o (genFuncs alloc fds 0)) ++ (headFns.flatMap (fun f => shownHelper f.1 f.2) ++
    (shown (peepWith o (genIoob ioob)) ++ (tailFns e ++ [("typeInfoTable", tableFnCode)]).flatMap (fun f => shownHelper f.1 f.2)))

/-! ### Proofs -/

theorem genProg_split (o : Bool) (alloc ioob : String) (fds : List FnDef) :
    peepWith o (genProg alloc ioob fds) = peepWith o (genFuncs alloc fds 0) ++ peepWith o (genIoob ioob) := by
  have h : genIoob ioob = .flush :: (genIoob ioob).tail := rfl
  rw [peepWith_eq, peepWith_eq, peepWith_eq, genProg, h, peepL_flush]
  rfl

/-- The section after statements. -/
def endSect : Bool → List Stm → Bool
  | b, [] => b
  | _, .d (.sect b) :: ss => endSect b ss
  | b, _ :: ss => endSect b ss

theorem codeOf_split (b : Bool) (x y : List Stm) : codeOf b (x ++ y) = codeOf b x ++ codeOf (endSect b x) y := by
  fun_induction codeOf b x <;> simp_all [codeOf, endSect]

theorem sees_split {mp : Gas.Txt → Option (List Int)} {x y : List Stm} {f g : List Got} (hx : sees mp x = some f) (hy : sees mp y = some g) :
    sees mp (x ++ y) = some (f ++ g) := by
  induction x generalizing f with
  | nil => cases hx; exact hy
  | cons s ss ih =>
    rw [sees] at hx
    split at hx
    · rename_i a b ha hb
      cases hx
      rw [List.append_assoc]
      exact sees_cons ha (ih hb)
    · cases hx

theorem ioob_maps (o : Bool) (ioob : String) : codeMaps 0 (parts (peepWith o (genIoob ioob))) = [] := by
  cases o <;> rfl

theorem spacer_any {mp : Gas.Txt → Option (List Int)} {r : List Stm} {g : List Got} (h : ∀ b, sees mp (codeOf b r) = some g) (b : Bool) :
    sees mp (codeOf b (spacerStmts.map Stm.d ++ r)) = some g := by
  cases b with
  | false => rw [codeOf_spacer, sees_spacer]; exact h false
  | true => rw [codeOf_data spacer_plain]; exact h true

/-- **C88, text section.**  The lines of a whole file, literals excepted, are read; wherever they are in a file, the text section has the
functions of the program, the helpers, the trampoline, the entry point and `typeInfoTable`, with exactly their instructions, and the word after each
call leads to its roots.  The hypotheses are those of `C88_code` and `C88_tail`, which have examples. -/
theorem C88_text (o : Bool) (alloc ioob : String) (fds : List FnDef) (lits : List String) (num : Int → Gas.Txt)
    (ord : List (Gas.Txt × List Nat) → List (Gas.Txt × List Nat)) (hord : ∀ l, (ord l).Perm l)
    (hnum : Numbers ⟨num, lits.idxOf⟩) (h : ∀ fd ∈ fds, fd.body.small = true) (hp : Ev.panic ∉ genProg alloc ioob fds)
    (hn : (fds.map (·.name)).Nodup)
    (hf : ∀ fd ∈ fds, (∃ s : List Char, fd.name.toList = "clara_".toList ++ s) ∧ fd.name ≠ "clara_asm_entrypoint")
    (hs : ∀ fd ∈ fds, isSym fd.name.toList = true) (hi : ∀ i, Ev.ins i ∈ genProg alloc ioob fds → namesOk lits i = true)
    (hr : ∀ rs, Item.data rs ∈ peepWith o (genProg alloc ioob fds) → ∀ x ∈ rs, x < 2 ^ 59)
    {e : String} (he : isSym e.toList = true)
    (types : List TypeD) (gt : List Nat) (nm lc : Nat → Gas.Txt) (T : List TypeInfo) (hT : typeInfoTable types gt = some T)
    (hnm : ∀ t, ∀ c ∈ nm t, symChar c = true) (hlc : ∀ i, isSym (lc i) = true) :
    ∃ tbl st, tableLines types nm lc gt = some tbl ∧
      rlines (fileSymbols (genProg alloc ioob fds) lits) (fileLines ⟨num, lits.idxOf⟩ ord o alloc ioob e fds tbl) = some st ∧
      ∀ enc pre post base ext file, file = pre ++ (st.map (asData enc) ++ post) → DataOk base ext file →
        sees (fun s => readInts (dataAt base ext file) (dataAddr base ext file s)) (codeOf false st) =
          some (shownFile o alloc ioob e fds) := by
  have hsp := genProg_split o alloc ioob fds
  have hlab : ∀ l, Item.label l ∈ peepWith o (genProg alloc ioob fds) → isSym l.text = true :=
    fun l hl => text_sym hs (peep_label hl)
  have hread : ∀ c, (∀ x ∈ c, x ∈ peepWith o (genProg alloc ioob fds)) →
      ∀ x ∈ parts c, ReadableC ⟨num, lits.idxOf⟩ (fileSymbols (genProg alloc ioob fds) lits) x := by
    intro c hc x hx
    have hm := hc _ (parts_mem hx)
    cases x with
    | start f => exact hlab _ hm
    | ioob => trivial
    | ins i => exact C79_program o alloc ioob fds lits num hnum h hp hn hf hs hi i hm
    | label l => exact hlab _ hm
    | word rs => trivial
  obtain ⟨s1, a1, a2, a3⟩ := code_read ⟨num, lits.idxOf⟩ (fileSymbols (genProg alloc ioob fds) lits) hord
    (parts (peepWith o (genFuncs alloc fds 0))) 0 none
    (hread _ (fun x hx => by rw [hsp]; exact List.mem_append_left _ hx)) (by simp)
  obtain ⟨s2, b1, b2⟩ := helpers_read (S := ⟨num, lits.idxOf⟩) (Y := fileSymbols (genProg alloc ioob fds) lits) headFns (by
    intro f hf
    simp only [headFns, List.mem_cons, List.not_mem_nil, or_false] at hf
    rcases hf with rfl | rfl | rfl | rfl
    · exact C88_helpers hnum _ rfl
    · exact C88_helpers hnum _ rfl
    · exact C88_helpers hnum _ rfl
    · exact C88_helpers hnum _ rfl)
  obtain ⟨s3, c1, c2, -⟩ := code_read ⟨num, lits.idxOf⟩ (fileSymbols (genProg alloc ioob fds) lits) hord
    (parts (peepWith o (genIoob ioob))) 0 none
    (hread _ (fun x hx => by rw [hsp]; exact List.mem_append_right _ hx)) (by simp)
  obtain ⟨tbl, s4, t1, t2, ⟨A, B, t3⟩, t4⟩ := tail_read hnum (genProg alloc ioob fds) lits he types gt nm lc T hT hnm hlc
  refine ⟨tbl, _, t1, rlines_append a1 (rlines_append b1 (rlines_append c1 (rlines_append (rlines_data isData_spacer dlines_spacer) t2))), ?_⟩
  intro enc pre post base ext file hfile ok
  have m0 : readInts (dataAt base ext file) (dataAddr base ext file noGcLabel) = some [] := by
    have hD : ∃ P R, inSect true false file = P ++ (.label noGcLabel :: .quads [.num (goTag 0)] :: R) := by
      have e : file = (pre ++ ((s1 ++ (s2 ++ (s3 ++ (spacerStmts.map Stm.d ++ A)))).map (asData enc))) ++ (noGcStmts ++ (B.map (asData enc) ++ post)) := by
        have : (noGcStmts.map Stm.d).map (asData enc) = noGcStmts := by rw [List.map_map]; exact List.map_id noGcStmts
        rw [hfile, t3]
        simp only [List.map_append, this, List.append_assoc]
      rw [e, inSect_append]
      exact ⟨_, _, rfl⟩
    obtain ⟨P, R, hD⟩ := hD
    exact noGc_reads hD ⟨ok.1, ok.2⟩
  rw [codeOf_split, shownFile, shown_parts, shown_parts]
  refine sees_split (a2 _ m0 ?_) (b2 _ _ _ _ (fun _ e => by cases e) ?_)
  · intro m hm
    obtain ⟨maps, ss, A', B', g1, g2, g3, g4⟩ := a3 m hm
    have hk : ∀ x ∈ maps, isSym x.1 = true ∧ ∀ y ∈ x.2, y < 2 ^ 62 := by
      intro x hx
      obtain ⟨⟨j, hj⟩, rs, e, hw⟩ := codeMaps_mem (g2 x hx)
      refine ⟨by rw [hj]; exact mapName_sym j, ?_⟩
      rw [e]
      intro y hy
      obtain ⟨z, hz, rfl⟩ := List.mem_map.1 hy
      have := hr _ (by rw [hsp]; exact List.mem_append_left _ (parts_mem hw)) z hz
      omega
    obtain ⟨ss', e1, e2⟩ := C82_maps maps (fun x hx => (hk x hx).1) (fun x hx => (hk x hx).2)
    rw [g3] at e1
    cases e1
    have e : file = (pre ++ A'.map (asData enc)) ++ (ss ++ (B'.map (asData enc) ++
        ((s2 ++ (s3 ++ (spacerStmts.map Stm.d ++ s4))).map (asData enc) ++ post))) := by
      have : (ss.map Stm.d).map (asData enc) = ss := by rw [List.map_map]; exact List.map_id ss
      rw [hfile, g4]
      simp only [List.map_append, this, List.append_assoc]
    rw [e] at ok ⊢
    exact e2 _ _ base ext ok m g1
  · rw [codeOf_split]
    refine sees_split (c2 _ m0 (by rw [ioob_maps]; simp)) (spacer_any (fun b => t4 _ b) _)

theorem flatMap_part {α β : Type} {f : α → List β} {l : List α} {x : α} (h : x ∈ l) : ∃ a b, l.flatMap f = a ++ (f x ++ b) := by
  obtain ⟨p, q, rfl⟩ := List.append_of_mem h
  exact ⟨p.flatMap f, q.flatMap f, by simp⟩

theorem helpers_listed (e : String) {f : String} {code : List HIns} (h : helperCode f = some code) : (f, code) ∈ headFns ++ tailFns e := by
  have hf := helper_name h
  simp only [rawHelpers, List.mem_cons, List.not_mem_nil, or_false] at hf
  rcases hf with rfl | rfl | rfl | rfl | rfl | rfl | rfl | rfl <;> cases h <;> simp [headFns, tailFns]

/-- Nothing is left out of `shownFile`: every helper, the entry point, `typeInfoTable` and every function of the program is somewhere in it. -/
theorem C88_complete (o : Bool) (alloc ioob e : String) (fds : List FnDef) :
    (∀ f code, helperCode f = some code → ∃ a b, shownFile o alloc ioob e fds = a ++ (shownHelper f code ++ b)) ∧
    (∃ a b, shownFile o alloc ioob e fds = a ++ (shownHelper "clara_asm_entrypoint" (Clara.Boot.entryCode e) ++ b)) ∧
    (∃ a, shownFile o alloc ioob e fds = a ++ shownHelper "typeInfoTable" tableFnCode) ∧
    ∃ a b, shownFile o alloc ioob e fds = shown (peepWith o (genFuncs alloc fds 0)) ++ (a ++ (shown (peepWith o (genIoob ioob)) ++ b)) := by
  have tail : ∀ x, x ∈ tailFns e → ∃ a b, shownFile o alloc ioob e fds = a ++ (shownHelper x.1 x.2 ++ b) := by
    intro x hx
    obtain ⟨a, b, h⟩ := flatMap_part (f := fun f : String × List HIns => shownHelper f.1 f.2) (List.mem_append_left [("typeInfoTable", tableFnCode)] hx)
    refine ⟨shown (peepWith o (genFuncs alloc fds 0)) ++ (headFns.flatMap (fun f => shownHelper f.1 f.2) ++ (shown (peepWith o (genIoob ioob)) ++ a)), b, ?_⟩
    rw [shownFile, h]
    simp only [List.append_assoc]
  refine ⟨?_, tail ("clara_asm_entrypoint", Clara.Boot.entryCode e) (by simp [tailFns]), ?_, ⟨_, _, rfl⟩⟩
  · intro f code h
    rcases List.mem_append.1 (helpers_listed e h) with hx | hx
    · obtain ⟨a, b, h⟩ := flatMap_part (f := fun f : String × List HIns => shownHelper f.1 f.2) hx
      refine ⟨shown (peepWith o (genFuncs alloc fds 0)) ++ a, b ++ (shown (peepWith o (genIoob ioob)) ++
        (tailFns e ++ [("typeInfoTable", tableFnCode)]).flatMap (fun f => shownHelper f.1 f.2)), ?_⟩
      rw [shownFile, h]
      simp only [List.append_assoc]
    · exact tail _ hx
  · refine ⟨shown (peepWith o (genFuncs alloc fds 0)) ++ (headFns.flatMap (fun f => shownHelper f.1 f.2) ++ (shown (peepWith o (genIoob ioob)) ++
      (tailFns e).flatMap (fun f => shownHelper f.1 f.2))), ?_⟩
    simp [shownFile, List.flatMap_append]

end Clara.Props
