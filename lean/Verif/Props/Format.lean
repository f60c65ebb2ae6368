import Verif.Gen.Format
import Verif.Props.CodeFile
/-
**C95.**  Texts that are used as formats.
-/
namespace Clara.Props
open Clara.Gen hiding Txt
open Clara.Gas Clara.Data Clara.Format

/-! ### Specification

`tab`, `label` and `raw` of the writer give their text to `fmt.Sprintf` as a format.  A line is written as it is if what arrives in the file is its text and a line feed. -/

/-- The line `l` is the same whether it is written by `tab` (its text goes through `Sprintf` twice), or by `label`, `raw` or `spacer` (once). -/
def WrittenAsIs (l : Gas.Txt) : Prop := wWrite (sprintf (l ++ ['\n']) []) [] = l ++ ['\n'] ∧ wWrite (l ++ ['\n']) [] = l ++ ['\n']

/-! ### Formats -/

theorem sprintf_plain {t : Gas.Txt} (h : '%' ∉ t) : sprintf t [] = t := by
  unfold sprintf
  induction t with
  | nil => rfl
  | cons c t ih =>
    rw [List.mem_cons, not_or] at h
    have e : fmtLoop none (c :: t) [] = if c = '%' then fmtLoop (some (false, 0)) t [] else c :: fmtLoop none t [] := rfl
    rw [e, if_neg (fun e => h.1 e.symm), ih h.2]

theorem writtenAsIs {l : Gas.Txt} (h : '%' ∉ l) : WrittenAsIs l := by
  have h' : '%' ∉ l ++ ['\n'] := by simp [h]
  constructor
  · rw [sprintf_plain h']; exact sprintf_plain h'
  · exact sprintf_plain h'

/-- `tab`, `label` and `raw` write such lines. -/
theorem C95_tab (ts : List Gas.Txt) : wTab ts = wWrite (sprintf (tab ts ++ ['\n']) []) [] := by
  unfold wTab tab; rw [List.append_assoc]

theorem C95_label (s : Gas.Txt) : wLabel s = wWrite (label s ++ ['\n']) [] := by
  unfold wLabel
  congr 1
  show (List.replicate (0 - s.length) ' ' ++ s) ++ [':', '\n'] = (s ++ [':']) ++ ['\n']
  simp

theorem C95_raw (s : Gas.Txt) : wRaw s = wWrite (s ++ ['\n']) [] := by
  unfold wRaw
  congr 1
  show (List.replicate (0 - s.length) ' ' ++ s) ++ ['\n'] = s ++ ['\n']
  simp

theorem C95_spacer : wSpacer = (spacer.map (· ++ ['\n'])).flatten := by decide +kernel

/-- Instructions are arguments of a format, with their `%` for registers. -/
theorem C95_ins (S : Spell) (i : HIns) : wIns i.mnem.toList (joinOps ((i.ops S).map POp.print)) = insText S i := by
  show ' ' :: ' ' :: ' ' :: (padTo 8 _ ++ (padTo 50 _ ++ ['\n'])) = _
  rfl

/-- So are the texts of literals. -/
theorem C95_ascii (t : Clara.Lex.Bytes) : wAscii (charsOf t) = asciiText t ++ ['\n'] := by
  unfold asciiText
  show "   .ascii \"".toList ++ ((List.replicate (0 - _) ' ' ++ charsOf t) ++ "\\0\"\n".toList) = _
  simp

/-! ### Lines without `%` -/

theorem symChar_pct {c : Char} (h : symChar c = true) : c ≠ '%' := by rintro rfl; exact absurd h (by decide)

theorem sym_pct {t : Gas.Txt} (h : isSym t = true) : '%' ∉ t := by
  intro hm
  cases t with
  | nil => cases hm
  | cons c cs =>
    simp only [isSym, Bool.and_eq_true] at h
    rcases List.mem_cons.1 hm with e | hm
    · exact symChar_pct h.1 e.symm
    · exact symChar_pct (List.all_eq_true.1 h.2.2.2 _ hm) rfl

theorem dec_pct (n : Nat) : '%' ∉ dec n := fun h => absurd (dec_digit n _ h) (by decide)
theorem itoa_pct (i : Int) : '%' ∉ itoa i := fun h => absurd (itoa_num i _ h) (by decide)

theorem joinWith_pct {sep : Gas.Txt} {ts : List Gas.Txt} (hs : '%' ∉ sep) (h : ∀ t ∈ ts, '%' ∉ t) : '%' ∉ joinWith sep ts := by
  fun_induction joinWith sep ts <;> simp_all

theorem tab_pct {ts : List Gas.Txt} (h : ∀ t ∈ ts, '%' ∉ t) : '%' ∉ tab ts := by
  unfold tab
  rw [List.mem_append, not_or]
  exact ⟨by decide, joinWith_pct (by decide) h⟩

theorem label_pct {s : Gas.Txt} (h : '%' ∉ s) : '%' ∉ label s := by
  unfold label; simp [h]

theorem tagged_pct (i : Int) : '%' ∉ taggedInt i := by
  refine tab_pct ?_
  intro t ht
  simp only [List.mem_cons, List.not_mem_nil, or_false] at ht
  rcases ht with rfl | rfl
  · decide
  · exact itoa_pct _

theorem addrLabel_pct {t : Gas.Txt} (h : '%' ∉ t) : '%' ∉ addrLabel t := by
  refine tab_pct ?_
  intro x hx
  simp only [List.mem_cons, List.not_mem_nil, or_false] at hx
  rcases hx with rfl | rfl
  · decide
  · exact h

theorem spacer_pct : ∀ l ∈ spacer, '%' ∉ l := by decide

theorem gcMap_pct {n : Gas.Txt} (h : '%' ∉ n) (offs : List Int) : ∀ l ∈ Data.gcMap n offs, '%' ∉ l := by
  intro l hl
  rcases List.mem_append.1 hl with hl | hl
  · simp only [List.mem_cons, List.not_mem_nil, or_false] at hl
    rcases hl with rfl | rfl | rfl
    · exact label_pct h
    · exact tagged_pct _
    · refine tab_pct ?_
      intro x hx
      simp only [List.mem_cons, List.not_mem_nil, or_false] at hx
      rcases hx with rfl | rfl
      · decide
      · refine joinWith_pct (by decide) ?_
        intro t ht
        obtain ⟨o, -, rfl⟩ := List.mem_map.1 ht
        exact itoa_pct _
  · exact spacer_pct l hl

theorem fnMaps_pct {maps : List (Gas.Txt × List Nat)} (h : ∀ m ∈ maps, '%' ∉ m.1) : ∀ l ∈ fnMaps maps, '%' ∉ l := by
  intro l hl
  rcases List.mem_append.1 hl with hl | hl
  · exact spacer_pct l hl
  rcases List.mem_cons.1 hl with rfl | hl
  · decide
  · obtain ⟨m, hm, hl⟩ := List.mem_flatMap.1 hl
    exact gcMap_pct (h m hm) _ l hl

theorem fnStart_pct {n : Gas.Txt} (h : '%' ∉ n) : ∀ l ∈ fnStart n, '%' ∉ l := by
  intro l hl
  simp only [fnStart, List.mem_cons, List.not_mem_nil, or_false] at hl
  rcases hl with rfl | rfl | rfl | rfl | rfl | rfl
  · decide
  · decide
  · exact tagged_pct _
  · refine tab_pct ?_
    intro x hx
    simp only [List.mem_cons, List.not_mem_nil, or_false] at hx
    rcases hx with rfl | rfl
    · decide
    · exact h
  · refine tab_pct ?_
    intro x hx
    simp only [List.mem_cons, List.not_mem_nil, or_false] at hx
    rcases hx with rfl | rfl
    · decide
    · rw [List.mem_append, not_or]; exact ⟨h, by decide⟩
  · exact label_pct h

theorem codeLines_pct (S : Spell) {ord : List (Gas.Txt × List Nat) → List (Gas.Txt × List Nat)} (hord : ∀ l, (ord l).Perm l)
    (k : Nat) (ms : Option (List (Gas.Txt × List Nat))) (cs : List CItem) (hm : ∀ m ∈ ms.getD [], '%' ∉ m.1)
    (hs : ∀ f, CItem.start f ∈ cs → '%' ∉ f.toList) (hl : ∀ l, CItem.label l ∈ cs → '%' ∉ l.text) :
    ∀ l ∈ codeLines S ord k ms cs, (∃ i, CItem.ins i ∈ cs ∧ l = insText S (.ins i)) ∨ '%' ∉ l := by
  have hend : ∀ {ms : Option (List (Gas.Txt × List Nat))}, (∀ m ∈ ms.getD [], '%' ∉ m.1) → ∀ l ∈ endMaps ord ms, '%' ∉ l := by
    intro ms hm l h
    cases ms with
    | none => cases h
    | some x => exact fnMaps_pct (fun m h => hm m ((hord x).mem_iff.1 h)) l h
  induction cs generalizing k ms with
  | nil => exact fun l h => .inr (hend hm l h)
  | cons c cs ih =>
    have up {l : Gas.Txt} (h : (∃ i, CItem.ins i ∈ cs ∧ l = insText S (.ins i)) ∨ '%' ∉ l) :
        (∃ i, CItem.ins i ∈ c :: cs ∧ l = insText S (.ins i)) ∨ '%' ∉ l :=
      h.imp (fun ⟨i, a, b⟩ => ⟨i, List.mem_cons_of_mem _ a, b⟩) id
    have ih := fun k ms hm => ih k ms hm (fun f h => hs f (List.mem_cons_of_mem _ h)) (fun l h => hl l (List.mem_cons_of_mem _ h))
    intro l h
    cases c with
    | start f =>
      rcases List.mem_append.1 h with h | h
      · exact .inr (hend hm l h)
      rcases List.mem_append.1 h with h | h
      · exact .inr (fnStart_pct (hs f (by simp)) l h)
      · exact up (ih k (some []) (by simp) l h)
    | ioob =>
      rcases List.mem_append.1 h with h | h
      · exact .inr (hend hm l h)
      rcases List.mem_cons.1 h with rfl | h
      · exact .inr (by decide)
      rcases List.mem_cons.1 h with rfl | h
      · exact .inr (by decide)
      · exact up (ih k none (by simp) l h)
    | ins i =>
      rcases List.mem_cons.1 h with rfl | h
      · exact .inl ⟨i, by simp, rfl⟩
      · exact up (ih k ms hm l h)
    | label x =>
      rcases List.mem_cons.1 h with rfl | h
      · exact .inr (label_pct (hl x (by simp)))
      · exact up (ih k ms hm l h)
    | word rs =>
      cases rs with
      | nil =>
        rcases List.mem_cons.1 h with rfl | h
        · exact .inr (addrLabel_pct (by decide))
        · exact up (ih k ms hm l h)
      | cons r rs =>
        rcases List.mem_cons.1 h with rfl | h
        · exact .inr (addrLabel_pct (sym_pct (mapName_sym k)))
        · refine up (ih (k + 1) _ ?_ l h)
          intro m hm'
          rcases List.mem_append.1 hm' with hm' | hm'
          · exact hm m hm'
          · rw [List.mem_singleton.1 hm']; exact sym_pct (mapName_sym k)

/-! ### Theorems -/

/-- **C95, code.**  Every line of the code of a program is an instruction, or is written as it is.  The names of functions are symbols. -/
theorem C95_code (S : Spell) (o : Bool) (alloc ioob : String) (fds : List FnDef) (hs : ∀ fd ∈ fds, isSym fd.name.toList = true)
    (ord : List (Gas.Txt × List Nat) → List (Gas.Txt × List Nat)) (hord : ∀ l, (ord l).Perm l) :
    ∀ l ∈ codeLines S ord 0 none (parts (peepWith o (genProg alloc ioob fds))),
      (∃ i, Item.ins i ∈ peepWith o (genProg alloc ioob fds) ∧ l = insText S (.ins i)) ∨ WrittenAsIs l := by
  have hlab : ∀ l, Item.label l ∈ peepWith o (genProg alloc ioob fds) → isSym l.text = true := fun l hl => text_sym hs (peep_label hl)
  intro l hl
  rcases codeLines_pct S hord 0 none _ (by simp) (fun f hf => sym_pct (hlab (.fn f) (parts_mem hf)))
      (fun x hx => sym_pct (hlab x (parts_mem hx))) l hl with ⟨i, hi, e⟩ | h
  · exact .inl ⟨i, parts_mem hi, e⟩
  · exact .inr (writtenAsIs h)

theorem rootLines_pct {types : List Tbl.TypeD} {nm : Nat → Gas.Txt} (hnm : ∀ t, '%' ∉ nm t) (gt : List Nat) (tag : Nat) (et : Option Nat)
    {r : List Gas.Txt × List Gas.Txt} (h : rootLines types nm gt tag et = some r) : (∀ l ∈ r.1, '%' ∉ l) ∧ ∀ l ∈ r.2, '%' ∉ l := by
  have hst (t : Nat) : '%' ∉ structLabel (nm t) := by
    unfold structLabel; rw [List.mem_append, not_or]; exact ⟨by decide, hnm t⟩
  have hen (t tag : Nat) : '%' ∉ enumLabel (nm t) tag := by
    unfold enumLabel
    simp only [List.mem_append, not_or]
    exact ⟨by decide, hnm t, by decide, dec_pct _⟩
  have hno : '%' ∉ noGcLabel := by decide
  have add {a : Option (List Gas.Txt × List Gas.Txt)} {ls : List Gas.Txt} {x : Gas.Txt} (hl : ∀ l ∈ ls, '%' ∉ l) (hx : '%' ∉ x)
      (ih : ∀ {r}, a = some r → (∀ l ∈ r.1, '%' ∉ l) ∧ ∀ l ∈ r.2, '%' ∉ l) {r : List Gas.Txt × List Gas.Txt}
      (h : a.map (fun r => (ls ++ r.1, x :: r.2)) = some r) : (∀ l ∈ r.1, '%' ∉ l) ∧ ∀ l ∈ r.2, '%' ∉ l := by
    obtain ⟨r', e, rfl⟩ := Option.map_eq_some_iff.1 h
    obtain ⟨h1, h2⟩ := ih e
    refine ⟨fun l hm => ?_, fun l hm => ?_⟩
    · rcases List.mem_append.1 hm with hm | hm
      · exact hl l hm
      · exact h1 l hm
    · rcases List.mem_cons.1 hm with rfl | hm
      · exact hx
      · exact h2 l hm
  induction gt generalizing tag et r with
  | nil => cases h; simp
  | cons t ts ih =>
    have nil : ∀ l ∈ ([] : List Gas.Txt), '%' ∉ l := by simp
    rw [rootLines] at h
    split at h
    · dsimp only at h
      split at h
      · exact add (ls := []) nil hno (fun e => ih _ _ e) h
      · exact add (gcMap_pct (hst t) _) (hst t) (fun e => ih _ _ e) h
    · dsimp only at h
      generalize (if et = some t then tag else 0) = tg at h
      split at h
      · split at h
        · split at h
          · exact add (ls := []) nil hno (fun e => ih _ _ e) h
          · exact add (gcMap_pct (hen t _) _) (hen t _) (fun e => ih _ _ e) h
        · cases h
      · cases h
    · exact add (ls := []) nil hno (fun e => ih _ _ e) h
    · cases h

theorem roSymbol_pct {n : Gas.Txt} {b : List Gas.Txt} (hn : '%' ∉ n) (hb : ∀ l ∈ b, '%' ∉ l) : ∀ l ∈ roSymbol n b, '%' ∉ l := by
  intro l hl
  rcases List.mem_append.1 hl with hl | hl
  · simp only [List.mem_cons, List.not_mem_nil, or_false] at hl
    rcases hl with rfl | rfl
    · exact tagged_pct _
    · exact label_pct hn
  · exact hb l hl

theorem infoLabel_pct (i : Nat) : '%' ∉ infoLabel i := by
  unfold infoLabel; rw [List.mem_append, not_or]; exact ⟨by decide, dec_pct _⟩

theorem infoBody_pct {lc root : Gas.Txt} (hl : '%' ∉ lc) (hr : '%' ∉ root) (d : Tbl.TypeD) : ∀ l ∈ infoBody lc root d, '%' ∉ l := by
  have h8 : '%' ∉ addrLabel (lc ++ "+8".toList) := addrLabel_pct (by rw [List.mem_append, not_or]; exact ⟨hl, by decide⟩)
  intro l h
  cases d with
  | struct _ =>
    simp only [infoBody, List.mem_cons, List.not_mem_nil, or_false] at h
    rcases h with rfl | rfl | rfl
    · exact tagged_pct _
    · exact h8
    · exact addrLabel_pct hr
  | enum _ =>
    simp only [infoBody, List.mem_cons, List.not_mem_nil, or_false] at h
    rcases h with rfl | rfl | rfl
    · exact tagged_pct _
    · exact h8
    · exact addrLabel_pct hr
  | array e =>
    simp only [infoBody, List.mem_cons, List.not_mem_nil, or_false] at h
    rcases h with rfl | rfl | rfl
    · exact tagged_pct _
    · exact h8
    · cases e.isPointer <;> decide
  | string | function | bytes =>
    simp only [infoBody, List.mem_cons, List.not_mem_nil, or_false] at h
    subst h
    exact tagged_pct _

theorem infoLines_pct {types : List Tbl.TypeD} {lc : Nat → Gas.Txt} (hlc : ∀ i, '%' ∉ lc i) (i : Nat) (gt : List Nat) (rs : List Gas.Txt)
    (hr : ∀ r ∈ rs, '%' ∉ r) {ls : List Gas.Txt} (h : infoLines types lc i gt rs = some ls) : ∀ l ∈ ls, '%' ∉ l := by
  induction gt generalizing i rs ls with
  | nil => simp only [infoLines] at h; cases h; simp
  | cons t ts ih =>
    cases rs with
    | nil => simp only [infoLines] at h; cases h; simp
    | cons r rs =>
      simp only [infoLines] at h
      split at h
      · obtain ⟨ls', e, rfl⟩ := Option.map_eq_some_iff.1 h
        intro l hl
        rcases List.mem_append.1 hl with hl | hl
        · exact roSymbol_pct (infoLabel_pct i) (infoBody_pct (hlc i) (hr r (by simp)) _) l hl
        · exact ih (i + 1) rs (fun x hx => hr x (by simp [hx])) e l hl
      · cases h

/-- **C95, type table.**  The lines of the type table are written as they are; the names of types are those of symbols. -/
theorem C95_table (types : List Tbl.TypeD) (gt : List Nat) (nm lc : Nat → Gas.Txt) (hnm : ∀ t, ∀ c ∈ nm t, symChar c = true)
    (hlc : ∀ i, isSym (lc i) = true) (ls : List Gas.Txt) (h : tableLines types nm lc gt = some ls) : ∀ l ∈ ls, WrittenAsIs l := by
  unfold tableLines at h
  split at h
  · rename_i r hr
    obtain ⟨is, e, rfl⟩ := Option.map_eq_some_iff.1 h
    obtain ⟨h1, h2⟩ := rootLines_pct (fun t ht => symChar_pct (hnm t _ ht) rfl) gt 0 none hr
    intro l hl
    refine writtenAsIs ?_
    rcases List.mem_cons.1 hl with rfl | hl
    · decide
    rcases List.mem_append.1 hl with hl | hl
    · exact h1 l hl
    rcases List.mem_append.1 hl with hl | hl
    · exact infoLines_pct (fun i => sym_pct (hlc i)) 0 gt r.2 h2 e l hl
    · refine roSymbol_pct (by decide) ?_ l hl
      intro l hl
      rcases List.mem_cons.1 hl with rfl | hl
      · exact tagged_pct _
      · obtain ⟨i, -, rfl⟩ := List.mem_map.1 hl
        exact addrLabel_pct (infoLabel_pct i)
  · cases h

/-- **C95, literals.**  The lines of `flush` are texts of literals (`C95_ascii`) or are written as they are. -/
theorem C95_flush (out : List Emitted) : ∀ l ∈ flushLines out, (∃ e ∈ out, l = asciiText e.text) ∨ WrittenAsIs l := by
  intro l hl
  rcases List.mem_cons.1 hl with rfl | hl
  · exact .inr (writtenAsIs (by decide))
  · obtain ⟨e, he, hl⟩ := List.mem_flatMap.1 hl
    rcases List.mem_append.1 hl with hl | hl
    · refine .inr (writtenAsIs ?_)
      simp only [litStart, List.mem_cons, List.not_mem_nil, or_false] at hl
      rcases hl with rfl | rfl | rfl | rfl
      · decide
      · refine label_pct ?_
        unfold litLabel; rw [List.mem_append, not_or]; exact ⟨by decide, dec_pct _⟩
      · exact tagged_pct _
      · exact tagged_pct _
    · exact .inl ⟨e, he, List.mem_singleton.1 hl⟩

/-- **C95, empty map.** -/
theorem C95_noGc : ∀ l ∈ genNoGc, WrittenAsIs l := by
  intro l hl
  exact writtenAsIs ((by decide : ∀ l ∈ genNoGc, '%' ∉ l) l hl)

/-! ### Examples -/

/-- A text with a `%` is not written as it is: `tab(".ascii", "\"100% of\"")` would not write that. -/
example : wTab [".ascii".toList, "\"100%d\"".toList] = "   .ascii   \"100%!!(MISSING)d(MISSING)\"\n".toList ∧
    ¬ WrittenAsIs "   .type   f, %function".toList ∧ ¬ WrittenAsIs "50%%".toList ∧
    sprintf "%-4s|%3s|%d%%".toList ["ab".toList, "c".toList, "d".toList] = "ab  |  c|%!d(string=d)%".toList := by
  unfold WrittenAsIs
  decide +kernel

example : wIns "movq".toList "%rax, 8(%rbx)".toList = "   movq    %rax, 8(%rbx)                                     \n".toList := by decide +kernel

/-- The hypotheses hold of `cfFns`, and the table of `dataDecls` (`Props/Data.lean`). -/
example : ∀ l ∈ codeLines (plainSpell ["\"a\""]) List.reverse 0 none (parts (peepWith true (genProg "clara_alloc" "clara_ioob" cfFns))),
    (∃ i, Item.ins i ∈ peepWith true (genProg "clara_alloc" "clara_ioob" cfFns) ∧ l = insText (plainSpell ["\"a\""]) (.ins i)) ∨ WrittenAsIs l :=
  C95_code _ true _ _ cfFns (by decide) _ List.reverse_perm

example : (∀ t, ∀ c ∈ dataNames t, symChar c = true) ∧
    ((tableLines [.struct [⟨0, .string⟩], .bytes] dataNames dataLits [0, 1]).map (·.length)).isSome = true :=
  ⟨dataNames_ok, by decide +kernel⟩

end Clara.Props
