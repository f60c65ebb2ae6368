import Verif.Props.TableFn
/-
The end of the assembly file: helpers, entry point, `_noGc`, type table and `typeInfoTable` (part of **C88**).
-/
namespace Clara.Props
open Clara.Gen hiding Txt
open Clara.Tbl Clara.Gas Clara.Data
open Clara.Gc (TypeInfo)

/-! ### The lines -/

/-- The helpers of a list, in its order. -/
def helpersLines (S : Spell) (fs : List (String × List HIns)) : List Gas.Txt := fs.flatMap (fun f => helperLines S f.1 f.2)

/-- The functions behind the trampoline (`codegen.go` 134-144); `e` is the label of `entrypoint`. -/
def tailFns (e : String) : List (String × List HIns) :=
  [("getFramePointer", framePointerCode), ("unsafe", inFrame unsafeBody), ("toTaggedInt", inFrame toTaggedBody),
    ("toUntaggedInt", inFrame toUntaggedBody), ("clara_asm_entrypoint", Clara.Boot.entryCode e)]

/-- The lines behind the trampoline, without the literals of `flush` (`codegen.go` 134-148, 319-323); `tbl` are the lines of the type table. -/
def tailLines (S : Spell) (e : String) (tbl : List Gas.Txt) : List Gas.Txt :=
  helpersLines S (tailFns e) ++ (genNoGc ++ (spacer ++ (tbl ++ (spacer ++ helperLines S "typeInfoTable" tableFnCode))))

/-! ### Data lines -/

theorem isData_map {n : Gas.Txt} (h : isSym n = true) (offs : List Int) : ∀ l ∈ Data.gcMap n offs, isData l := by
  intro l hl
  rcases List.mem_append.1 hl with hl | hl
  · simp only [List.mem_cons, List.not_mem_nil, or_false] at hl
    rcases hl with rfl | rfl | rfl
    · exact isData_label h
    · exact isData_tab _ _
    · exact isData_tab _ _
  · exact isData_spacer l hl

theorem isData_ro {n : Gas.Txt} {b : List Gas.Txt} (hn : isSym n = true) (hb : ∀ l ∈ b, isData l) : ∀ l ∈ roSymbol n b, isData l := by
  intro l hl
  rcases List.mem_append.1 hl with hl | hl
  · simp only [List.mem_cons, List.not_mem_nil, or_false] at hl
    rcases hl with rfl | rfl
    · exact isData_tab _ _
    · exact isData_label hn
  · exact hb l hl

theorem isData_roots {types : List TypeD} {nm : Nat → Gas.Txt} (hnm : ∀ t, ∀ c ∈ nm t, symChar c = true) (gt : List Nat) (tag : Nat)
    (et : Option Nat) {r : List Gas.Txt × List Gas.Txt} (h : rootLines types nm gt tag et = some r) : ∀ l ∈ r.1, isData l := by
  have add {a : Option (List Gas.Txt × List Gas.Txt)} {ls : List Gas.Txt} {x : Gas.Txt} (hl : ∀ l ∈ ls, isData l)
      (ih : ∀ {r}, a = some r → ∀ l ∈ r.1, isData l) {r : List Gas.Txt × List Gas.Txt}
      (h : a.map (fun r => (ls ++ r.1, x :: r.2)) = some r) : ∀ l ∈ r.1, isData l := by
    obtain ⟨r', e, rfl⟩ := Option.map_eq_some_iff.1 h
    intro l hm
    rcases List.mem_append.1 hm with hm | hm
    · exact hl l hm
    · exact ih e l hm
  induction gt generalizing tag et r with
  | nil => cases h; simp
  | cons t ts ih =>
    have nil : ∀ l ∈ ([] : List Gas.Txt), isData l := by simp
    rw [rootLines] at h
    split at h
    · dsimp only at h
      split at h
      · exact add (ls := []) nil (fun e => ih _ _ e) h
      · exact add (isData_map (sym_struct (hnm t)) _) (fun e => ih _ _ e) h
    · dsimp only at h
      generalize (if et = some t then tag else 0) = tg at h
      split at h
      · split at h
        · split at h
          · exact add (ls := []) nil (fun e => ih _ _ e) h
          · exact add (isData_map (sym_enum (hnm t) _) _) (fun e => ih _ _ e) h
        · cases h
      · cases h
    · exact add (ls := []) nil (fun e => ih _ _ e) h
    · cases h

theorem isData_body (lc root : Gas.Txt) (d : TypeD) : ∀ l ∈ infoBody lc root d, isData l := by
  intro l h
  cases d <;> simp only [infoBody, List.mem_cons, List.not_mem_nil, or_false] at h
  case string | function | bytes => subst h; exact isData_tab _ _
  all_goals rcases h with rfl | rfl | rfl <;> exact isData_tab _ _

theorem isData_infos {types : List TypeD} {lc : Nat → Gas.Txt} (i : Nat) (gt : List Nat) (rs : List Gas.Txt)
    {ls : List Gas.Txt} (h : infoLines types lc i gt rs = some ls) : ∀ l ∈ ls, isData l := by
  induction gt generalizing i rs ls with
  | nil => simp only [infoLines] at h; cases h; simp
  | cons t ts ih =>
    cases rs with
    | nil => simp only [infoLines] at h; cases h; simp
    | cons r rs =>
      simp only [infoLines] at h
      split at h
      · obtain ⟨ls', e, rfl⟩ := Option.map_eq_some_iff.1 h
        intro l hl
        rcases List.mem_append.1 hl with hl | hl
        · exact isData_ro (sym_info i) (isData_body _ _ _) l hl
        · exact ih (i + 1) rs e l hl
      · cases h

theorem isData_table {types : List TypeD} {gt : List Nat} {nm lc : Nat → Gas.Txt} (hnm : ∀ t, ∀ c ∈ nm t, symChar c = true)
    {ls : List Gas.Txt} (h : tableLines types nm lc gt = some ls) : ∀ l ∈ ls, isData l := by
  unfold tableLines at h
  split at h
  · rename_i r hr
    obtain ⟨is, e, rfl⟩ := Option.map_eq_some_iff.1 h
    intro l hl
    rcases List.mem_cons.1 hl with rfl | hl
    · unfold isData; decide +kernel
    rcases List.mem_append.1 hl with hl | hl
    · exact isData_roots hnm gt 0 none hr l hl
    rcases List.mem_append.1 hl with hl | hl
    · exact isData_infos 0 gt r.2 e l hl
    · refine isData_ro (by decide +kernel) ?_ l hl
      intro l hl
      rcases List.mem_cons.1 hl with rfl | hl
      · exact isData_tab _ _
      · obtain ⟨i, -, rfl⟩ := List.mem_map.1 hl
        exact isData_tab _ _
  · cases h

theorem isData_noGc : ∀ l ∈ genNoGc, isData l := by unfold isData; decide +kernel

/-- The statements of the table: the switch to the data, then nothing that switches back. -/
theorem table_plain {types : List TypeD} {gt : List Nat} {nm lc : Nat → Gas.Txt} {T : List TypeInfo} (hT : typeInfoTable types gt = some T)
    (hnm : ∀ t, ∀ c ∈ nm t, symChar c = true) (hlc : ∀ i, isSym (lc i) = true) :
    ∃ ls ss, tableLines types nm lc gt = some ls ∧ dlines ls = some (.sect true :: ss) ∧ ∀ s ∈ ss, plainStmt s = true := by
  unfold typeInfoTable at hT
  split at hT
  next ms hms =>
    obtain ⟨rl, labs, S, r1, r2, r3⟩ := rootLines_ok (nm := nm) hnm hms
    have hlabs : ∀ l ∈ labs, isSym l = true := by
      intro l hl
      obtain ⟨i, hi⟩ := List.getElem?_of_mem hl
      have : i < ms.length := by rw [← r3.length]; exact (List.getElem?_eq_some_iff.1 hi).1
      exact (r3.each i l ms[i] hi (List.getElem?_eq_getElem this)).1
    obtain ⟨il, S2, i1, i2, i3⟩ := infoLines_ok (lc := lc) hlc r3.length hlabs hT 0
    refine ⟨".data".toList :: (rl ++ (il ++ infoArray gt.length)), S ++ (S2 ++ arrayStmts gt.length), ?_,
      dlines_cons dline_raw_data (dlines_append r2 (dlines_append i2 (dlines_array _))), ?_⟩
    · rw [tableLines, r1]
      simp only [i1, Option.map_some]
    · intro s hs
      rcases List.mem_append.1 hs with hs | hs
      · exact r3.plain s hs
      · rcases List.mem_append.1 hs with hs | hs
        · exact i3.plain s hs
        · exact array_plain _ s hs
  next => cases hT

theorem codeOf_data {ss : List DStmt} (h : ∀ s ∈ ss, plainStmt s = true) (r : List Stm) : codeOf true (ss.map .d ++ r) = codeOf true r := by
  induction ss with
  | nil => rfl
  | cons s ss ih =>
    have := ih (fun x hx => h x (List.mem_cons_of_mem _ hx))
    have hs := h s (by simp)
    cases s <;> first | exact this | cases hs

theorem codeOf_spacer (r : List Stm) : codeOf false (spacerStmts.map .d ++ r) = spacerStmts.map .d ++ codeOf false r := codeOf_none 123 r

/-- One function after the other. -/
theorem helpers_read {S : Spell} {Y : Symbols} (fs : List (String × List HIns))
    (h : ∀ f ∈ fs, ∃ st, rlines Y (helperLines S f.1 f.2) = some st ∧
      ∀ mp b r g, sees mp (codeOf false r) = some g → sees mp (codeOf b (st ++ r)) = some (shownHelper f.1 f.2 ++ g)) :
    ∃ st, rlines Y (helpersLines S fs) = some st ∧
      ∀ mp b r g, (b = true → fs ≠ []) → sees mp (codeOf false r) = some g →
        sees mp (codeOf b (st ++ r)) = some (fs.flatMap (fun f => shownHelper f.1 f.2) ++ g) := by
  induction fs with
  | nil =>
    refine ⟨[], rfl, fun mp b r g hb hg => ?_⟩
    cases b with
    | false => exact hg
    | true => exact absurd rfl (hb rfl)
  | cons f fs ih =>
    obtain ⟨st, h1, h2⟩ := ih (fun x hx => h x (List.mem_cons_of_mem _ hx))
    obtain ⟨s0, g1, g2⟩ := h f (by simp)
    refine ⟨s0 ++ st, rlines_append g1 h1, ?_⟩
    intro mp b r g _ hg
    rw [List.append_assoc]
    have := g2 mp b (st ++ r) _ (h2 mp false r g (fun e => by cases e) hg)
    rw [this, List.flatMap_cons, List.append_assoc]

theorem tail_read {S : Spell} (hS : Numbers S) (c : List Ev) (lits : List String) {e : String} (he : isSym e.toList = true)
    (types : List TypeD) (gt : List Nat) (nm lc : Nat → Gas.Txt) (T : List TypeInfo) (hT : typeInfoTable types gt = some T)
    (hnm : ∀ t, ∀ c ∈ nm t, symChar c = true) (hlc : ∀ i, isSym (lc i) = true) :
    ∃ ls st, tableLines types nm lc gt = some ls ∧ rlines (fileSymbols c lits) (tailLines S e ls) = some st ∧
      (∃ A B, st = A ++ (noGcStmts.map .d ++ B)) ∧
      ∀ mp b, sees mp (codeOf b st) =
        some ((tailFns e ++ [("typeInfoTable", tableFnCode)]).flatMap (fun f => shownHelper f.1 f.2)) := by
  obtain ⟨ls, ss, t1, t2, t3⟩ := table_plain hT hnm hlc (nm := nm)
  obtain ⟨hs, a1, a2⟩ := helpers_read (S := S) (Y := fileSymbols c lits) (tailFns e) (by
    intro f hf
    simp only [tailFns, List.mem_cons, List.not_mem_nil, or_false] at hf
    rcases hf with rfl | rfl | rfl | rfl | rfl
    · exact C88_helpers hS _ rfl
    · exact C88_helpers hS _ rfl
    · exact C88_helpers hS _ rfl
    · exact C88_helpers hS _ rfl
    · exact C88_entry hS _ he)
  obtain ⟨fs, b1, b2⟩ := C88_tableFn hS c lits
  refine ⟨ls, _, t1, rlines_append a1 (rlines_append (rlines_data isData_noGc dlines_noGc) (rlines_append (rlines_data isData_spacer dlines_spacer)
    (rlines_append (rlines_data (isData_table hnm t1) t2) (rlines_append (rlines_data isData_spacer dlines_spacer) b1)))), ⟨_, _, rfl⟩, ?_⟩
  intro mp b
  rw [a2 mp b _ ([("typeInfoTable", tableFnCode)].flatMap (fun f => shownHelper f.1 f.2)) (fun _ e => by cases e), List.flatMap_append]
  simp only [noGcStmts, List.map_cons, List.map_nil, List.cons_append, List.nil_append, codeOf]
  rw [codeOf_spacer, sees_spacer]
  simp only [codeOf]
  rw [codeOf_data t3, codeOf_data spacer_plain]
  have := b2 mp true [] [] rfl
  rw [List.append_nil] at this
  rw [this]
  simp

/-- **C88, end of the file.**  Behind the trampoline the text section has the five functions and `typeInfoTable`, each with its header and
exactly its instructions, and nothing of `_noGc` or of the table: every switch of sections is undone before the next function, and the section before them does not matter. -/
theorem C88_tail {S : Spell} (hS : Numbers S) (c : List Ev) (lits : List String) {e : String} (he : isSym e.toList = true)
    (types : List TypeD) (gt : List Nat) (nm lc : Nat → Gas.Txt) (T : List TypeInfo) (hT : typeInfoTable types gt = some T)
    (hnm : ∀ t, ∀ c ∈ nm t, symChar c = true) (hlc : ∀ i, isSym (lc i) = true) :
    ∃ ls st, tableLines types nm lc gt = some ls ∧ rlines (fileSymbols c lits) (tailLines S e ls) = some st ∧
      ∀ mp b, sees mp (codeOf b st) =
        some ((tailFns e ++ [("typeInfoTable", tableFnCode)]).flatMap (fun f => shownHelper f.1 f.2)) := by
  obtain ⟨ls, st, h1, h2, -, h3⟩ := tail_read hS c lits he types gt nm lc T hT hnm hlc
  exact ⟨ls, st, h1, h2, h3⟩

/-- A table with one type, and `main` behind `entrypoint`. -/
example : isSym "clara_entrypoint".toList = true ∧ ∃ T, typeInfoTable [.string] [0] = some T := ⟨by decide +kernel, _, rfl⟩

end Clara.Props
