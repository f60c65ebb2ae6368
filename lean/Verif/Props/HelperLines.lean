import Verif.Gen.Helpers
import Verif.Gen.Peep
import Verif.Lib.Boot
import Verif.Props.CodeFile
import Verif.Props.Format
/-
The assembly helpers as lines of the file (part of **C88** and **C95**).
-/
namespace Clara.Props
open Clara.Gen hiding Txt
open Clara.Gas Clara.Data Clara.Format

/-! ### The lines -/

/-- A helper: `fnStart`, its instructions, and the `spacer` that follows it (`codegen.go` 124-141, 325-378; `asm.go` 462-476). -/
def helperLines (S : Spell) (f : String) (code : List HIns) : List Gas.Txt :=
  fnStart f.toList ++ (code.map (insText S) ++ spacer)

/-- The helpers in the order of the file, without the trampoline that is between the fourth and the fifth (`codegen.go` 124-141). -/
def rawHelpers : List String :=
  ["readByte", "readInt", "writeByte", "writeInt", "getFramePointer", "unsafe", "toTaggedInt", "toUntaggedInt"]

/-! ### Specification -/

/-- What the assembler has to find: a header on a multiple of eight, the label, the instructions and nothing else. -/
def shownHelper (f : String) (code : List HIns) : List Got :=
  .align 8 :: .num (goTag (roHeader 5)) :: .label f.toList :: code.map .ins

/-! ### Proofs -/

theorem helper_name {f : String} {code : List HIns} (h : helperCode f = some code) : f ∈ rawHelpers := by
  unfold helperCode at h
  simp only [rawHelpers, List.mem_cons, List.not_mem_nil, or_false]
  grind

theorem rawHelpers_sym : ∀ f ∈ rawHelpers, isSym f.toList = true := by decide +kernel

/-- An instruction without names. -/
def nameless : HIns → Bool
  | .ins (.jmp _) | .ins (.jcc _ _) | .ins (.call _) | .ins (.movabs _ _) => false
  | _ => true

theorem helper_plain : ∀ f ∈ rawHelpers, ∀ i ∈ (helperCode f).getD [], HIns.valid i = true ∧ nameless i = true := by decide +kernel

theorem helper_known {f : String} {code : List HIns} (h : helperCode f = some code) (S : Spell) (Y : Symbols) :
    ∀ i ∈ code, HIns.valid i = true ∧ Known S Y i := by
  intro i hi
  obtain ⟨h1, h2⟩ := helper_plain f (helper_name h) i (by rw [h]; exact hi)
  refine ⟨h1, ?_⟩
  unfold Known
  split <;> trivial

theorem rlines_code {S : Spell} {Y : Symbols} (hS : Numbers S) {code : List HIns}
    (h : ∀ i ∈ code, HIns.valid i = true ∧ Known S Y i) : rlines Y (code.map (insText S)) = some (code.map .i) := by
  induction code with
  | nil => rfl
  | cons i is ih =>
    obtain ⟨hv, hk⟩ := h i (by simp)
    exact rlines_cons (rline_ins (line_ins hS i hv hk)) (ih (fun x hx => h x (List.mem_cons_of_mem _ hx)))

theorem rlines_fnStart (Y : Symbols) {n : Gas.Txt} (hf : isSym n = true) : rlines Y (fnStart n) =
    some ([DStmt.sect false, .align 8, .quads [.num (goTag (roHeader 5))], .none, .none, .label n].map Stm.d) := by
  refine rlines_data ?_ (dlines_cons dline_text (dlines_cons dline_align (dlines_cons (dline_tagged _) (dlines_cons (dline_globl hf)
    (dlines_cons (dline_type hf) (dlines_one (dline_label hf)))))))
  intro l hl
  simp only [fnStart, List.mem_cons, List.not_mem_nil, or_false] at hl
  rcases hl with rfl | rfl | rfl | rfl | rfl | rfl
  · exact isData_tab _ _
  · exact isData_tab _ _
  · exact isData_tab _ _
  · exact isData_tab _ _
  · exact isData_tab _ _
  · exact isData_label hf

theorem sees_code (mp : Gas.Txt → Option (List Int)) (code : List HIns) {r : List Stm} {g : List Got}
    (h : sees mp (codeOf false r) = some g) : sees mp (codeOf false (code.map .i ++ r)) = some (code.map .ins ++ g) := by
  induction code with
  | nil => exact h
  | cons i is ih => exact sees_cons (a := [.ins i]) rfl ih

theorem codeOf_none (n : Nat) (r : List Stm) :
    codeOf false ((List.replicate n DStmt.none).map .d ++ r) = (List.replicate n DStmt.none).map .d ++ codeOf false r := by
  induction n with
  | zero => rfl
  | succ n ih => show _ :: codeOf false ((List.replicate n DStmt.none).map .d ++ r) = _; rw [ih]; rfl

theorem lines_read {S : Spell} (hS : Numbers S) (Y : Symbols) {f : String} (hf : isSym f.toList = true) {code : List HIns}
    (h : ∀ i ∈ code, HIns.valid i = true ∧ Known S Y i) :
    ∃ st, rlines Y (helperLines S f code) = some st ∧
      ∀ mp b r g, sees mp (codeOf false r) = some g → sees mp (codeOf b (st ++ r)) = some (shownHelper f code ++ g) := by
  refine ⟨_, rlines_append (rlines_fnStart Y hf) (rlines_append (rlines_code hS h)
    (rlines_data isData_spacer dlines_spacer)), ?_⟩
  intro mp b r g hr
  simp only [List.map_cons, List.map_nil, List.cons_append, List.nil_append, List.append_assoc]
  show _ = some ([.align 8] ++ ([.num (goTag (roHeader 5))] ++ ([] ++ ([] ++ ([.label f.toList] ++ (code.map .ins ++ g))))))
  have hb : ∀ x, codeOf b (.d (.sect false) :: x) = codeOf false x := fun x => by cases b <;> rfl
  rw [hb]
  refine sees_cons rfl (sees_cons rfl (sees_cons rfl (sees_cons rfl (sees_cons rfl (sees_code mp code ?_)))))
  rw [spacerStmts, codeOf_none]
  exact (sees_spacer mp _).trans hr

/-- The lines of every helper are read as the function of that name with exactly the instructions of C72, in the text section
whatever the section before was, and whatever follows. -/
theorem C88_helpers {S : Spell} (hS : Numbers S) (Y : Symbols) {f : String} {code : List HIns} (h : helperCode f = some code) :
    ∃ st, rlines Y (helperLines S f code) = some st ∧
      ∀ mp b r g, sees mp (codeOf false r) = some g → sees mp (codeOf b (st ++ r)) = some (shownHelper f code ++ g) :=
  lines_read hS Y (rawHelpers_sym f (helper_name h)) (helper_known h S Y)

/-- So are the lines of `clara_asm_entrypoint`, with the code of C83 (`codegen.go` 144-145, 380-385). -/
theorem C88_entry {S : Spell} (hS : Numbers S) (Y : Symbols) {e : String} (he : isSym e.toList = true) :
    ∃ st, rlines Y (helperLines S "clara_asm_entrypoint" (Clara.Boot.entryCode e)) = some st ∧
      ∀ mp b r g, sees mp (codeOf false r) = some g →
        sees mp (codeOf b (st ++ r)) = some (shownHelper "clara_asm_entrypoint" (Clara.Boot.entryCode e) ++ g) := by
  refine lines_read hS Y (by decide +kernel) ?_
  intro i hi
  simp only [Clara.Boot.entryCode, inFrame, List.cons_append, List.nil_append, List.mem_cons, List.not_mem_nil, or_false] at hi
  rcases hi with rfl | rfl | rfl | rfl | rfl | rfl
  · exact ⟨by decide, trivial⟩
  · exact ⟨by decide, trivial⟩
  · exact ⟨by decide, trivial⟩
  · exact ⟨rfl, he⟩
  · exact ⟨by decide, trivial⟩
  · exact ⟨by decide, trivial⟩

theorem lines_pct (S : Spell) {f : String} (hf : isSym f.toList = true) (code : List HIns) :
    ∀ l ∈ helperLines S f code,
      (∃ i ∈ code, l = wIns i.mnem.toList (joinOps ((i.ops S).map POp.print))) ∨ WrittenAsIs l := by
  intro l hl
  rcases List.mem_append.1 hl with hl | hl
  · exact .inr (writtenAsIs (fnStart_pct (sym_pct hf) l hl))
  · rcases List.mem_append.1 hl with hl | hl
    · obtain ⟨i, hi, rfl⟩ := List.mem_map.1 hl
      exact .inl ⟨i, hi, (C95_ins S i).symm⟩
    · exact .inr (writtenAsIs (spacer_pct l hl))

/-- Every line of a helper is written as it is: it is an instruction, an argument of a format (`C95_ins`), or it has no verb. -/
theorem C95_helpers (S : Spell) {f : String} {code : List HIns} (h : helperCode f = some code) :
    ∀ l ∈ helperLines S f code,
      (∃ i ∈ code, l = wIns i.mnem.toList (joinOps ((i.ops S).map POp.print))) ∨ WrittenAsIs l :=
  lines_pct S (rawHelpers_sym f (helper_name h)) code

/-- The same for `clara_asm_entrypoint`. -/
theorem C95_entry (S : Spell) (e : String) :
    ∀ l ∈ helperLines S "clara_asm_entrypoint" (Clara.Boot.entryCode e),
      (∃ i ∈ Clara.Boot.entryCode e, l = wIns i.mnem.toList (joinOps ((i.ops S).map POp.print))) ∨ WrittenAsIs l :=
  lines_pct S (by decide +kernel) _

def unmerged : HIns → HIns → Bool
  | .ins i, .ins j => (merge true i j).isNone
  | _, _ => true

/-- The optimiser finds nothing in a helper: no instruction is merged with the one after it. -/
theorem C88_helpers_peep {f : String} {code a b : List HIns} {i j : Ins} (h : helperCode f = some code)
    (e : code = a ++ .ins i :: .ins j :: b) : merge true i j = none := by
  have key : ∀ f ∈ rawHelpers, ∀ p ∈ ((helperCode f).getD []).zip (((helperCode f).getD []).drop 1),
      unmerged p.1 p.2 = true := by decide +kernel
  refine Option.isNone_iff_eq_none.1 (key f (helper_name h) (.ins i, .ins j) ?_)
  rw [h, e]
  show _ ∈ (a ++ HIns.ins i :: HIns.ins j :: b).zip ((a ++ HIns.ins i :: HIns.ins j :: b).drop 1)
  clear h e
  induction a with
  | nil => simp
  | cons x a ih =>
    cases a with
    | nil => simp
    | cons y a => simp only [List.cons_append, List.drop_succ_cons, List.drop_zero, List.zip_cons_cons] at ih ⊢; exact List.mem_cons_of_mem _ ih

/-- The names are those that have code. -/
theorem helpers_all (f : String) : f ∈ rawHelpers ↔ (helperCode f).isSome = true := by
  constructor
  · have : ∀ f ∈ rawHelpers, (helperCode f).isSome = true := by decide +kernel
    exact this f
  · intro h
    obtain ⟨c, hc⟩ := Option.isSome_iff_exists.1 h
    exact helper_name hc

/-- A helper with an instruction on bytes. -/
example : ∃ code, helperCode "writeByte" = some code ∧ HIns.movb .rdx { base := .rax } ∈ code ∧ code.length = 6 := ⟨_, rfl, by decide, rfl⟩

end Clara.Props
