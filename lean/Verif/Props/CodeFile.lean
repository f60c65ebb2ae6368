import Verif.Gen.CodeFile
import Verif.Gen.DataTable
import Verif.Props.Text
import Verif.Props.Data
/-
**C88.**  The code in the assembly file, read as a whole.
-/
namespace Clara.Props
open Clara.Gen hiding Txt
open Clara.Gas Clara.Data

/-! ### Specification -/

/-- What the text section has to have for an item of the program, in the order of the program: a function begins at a multiple of
eight with a header, the word after a call leads to its roots. -/
def shown : List Item → List Got
  | .data [] :: .label (.fn f) :: r => .align 8 :: .num (goTag (roHeader 5)) :: .label f.toList :: shown r
  | .ins i :: r => .ins (.ins i) :: shown r
  | .label l :: r => .label l.text :: shown r
  | .data rs :: r => .map (rs.map (fun o : Nat => (o : Int))) :: shown r
  | [] => []

/-! ### Data lines -/

theorem opcode_alnum {t : Gas.Txt} {o : Opc} (h : opcode t = some o) : t ≠ [] ∧ ∀ c ∈ t, c.isAlphanum = true := by
  obtain ⟨p, hp, h⟩ := List.exists_of_findSome?_eq_some h
  split at h
  · rename_i e
    rw [← e]
    have : ∀ p ∈ opcodes, p.1.toList ≠ [] ∧ ∀ c ∈ p.1.toList, c.isAlphanum = true := by decide +kernel
    exact this p hp
  · cases h

theorem opcode_odd {t : Gas.Txt} {c : Char} (hc : c ∈ t) (h : c.isAlphanum = false) : (opcode t).isSome = false := by
  cases e : opcode t with
  | none => rfl
  | some o => rw [(opcode_alnum e).2 c hc] at h; cases h

/-- A line that is no instruction. -/
def isData (t : Gas.Txt) : Prop := (opcode (word1 t)).isSome = false

theorem isData_dot (r : Gas.Txt) : isData (' ' :: ' ' :: ' ' :: '.' :: r) := by
  refine opcode_odd (c := '.') ?_ (by decide)
  simp [word1, trimL, blank]

theorem isData_tab (r : Gas.Txt) (as : List Gas.Txt) : isData (tab (('.' :: r) :: as)) := by
  cases as <;> exact isData_dot _

theorem takeWhile_full {α : Type} {p : α → Bool} {l : List α} (h : ∀ x ∈ l, p x = true) : l.takeWhile p = l := by
  induction l with
  | nil => rfl
  | cons a l ih => rw [List.takeWhile_cons, if_pos (h a (by simp)), ih (fun x hx => h x (by simp [hx]))]

theorem isData_label {s : Gas.Txt} (h : isSym s = true) : isData (Data.label s) := by
  obtain ⟨c, cs, e, _, _, _, hx⟩ := isSym_iff h
  have hb : ∀ x ∈ Data.label s, blank x = false ∧ x ≠ '\n' := by
    intro x hx'
    rcases List.mem_append.1 hx' with h' | h'
    · refine ⟨blank_quiet (quiet_sym (hx x h')), ?_⟩
      rintro rfl
      exact absurd (hx _ h') (by decide)
    · rcases List.mem_singleton.1 h' with rfl
      decide
  have e1 : (Data.label s).takeWhile (· ≠ '\n') = Data.label s := by
    exact takeWhile_full (fun x hx' => by simpa using (hb x hx').2)
  have e2 : trimL (Data.label s) = Data.label s := by
    have := (hb c (by simp [Data.label, e])).1
    simp [trimL, Data.label, e, this]
  have e3 : (Data.label s).takeWhile (fun c => !blank c) = Data.label s := by
    exact takeWhile_full (fun x hx' => by simpa using (hb x hx').1)
  refine opcode_odd (c := ':') ?_ (by decide)
  rw [word1, e1, e2, e3]
  simp [Data.label]

theorem isData_spacer : ∀ l ∈ spacer, isData l := by unfold isData; decide +kernel

theorem rlines_append {Y : Symbols} {a b : List Gas.Txt} {x y : List Stm} (ha : rlines Y a = some x) (hb : rlines Y b = some y) :
    rlines Y (a ++ b) = some (x ++ y) := by
  induction a generalizing x with
  | nil => cases ha; simpa using hb
  | cons l ls ih =>
    rw [rlines] at ha
    split at ha
    · rename_i p q hp hq
      cases ha
      rw [List.cons_append, rlines, hp, ih hq]
      simp
    · cases ha

theorem rline_data {Y : Symbols} {l : Gas.Txt} {s : DStmt} (hd : isData l) (h : dline l = some [s]) : rline Y l = some [.d s] := by
  rw [rline, hd, h]; rfl

theorem rlines_cons {Y : Symbols} {l : Gas.Txt} {ls : List Gas.Txt} {s : Stm} {ss : List Stm} (h : rline Y l = some [s])
    (hs : rlines Y ls = some ss) : rlines Y (l :: ls) = some (s :: ss) := by
  rw [rlines, h, hs]; rfl

theorem rlines_data {Y : Symbols} {ls : List Gas.Txt} {ss : List DStmt} (hd : ∀ l ∈ ls, isData l) (h : dlines ls = some ss) :
    rlines Y ls = some (ss.map .d) := by
  induction ls generalizing ss with
  | nil => cases h; rfl
  | cons l ls ih =>
    rw [dlines] at h
    split at h
    · rename_i p q hp hq
      cases h
      have h0 : rline Y l = some (p.map .d) := by rw [rline, hd l (by simp), hp]; rfl
      rw [rlines, h0, ih (fun x hx => hd x (by simp [hx])) hq]
      simp
    · cases h

/-! ### Sections -/

theorem codeOf_plain {ss : List DStmt} (h : ∀ s ∈ ss, plainStmt s = true) (b : Bool) (r : List Stm) :
    codeOf b (ss.map .d ++ r) = (if b then [] else ss.map .d) ++ codeOf b r := by
  induction ss with
  | nil => cases b <;> rfl
  | cons s ss ih =>
    have hs := h s (by simp)
    have ih := ih (fun x hx => h x (by simp [hx]))
    cases s with
    | sect d => cases hs
    | _ => cases b <;> simp_all [codeOf]

theorem sees_spacer (mp : Gas.Txt → Option (List Int)) (r : List Stm) : sees mp (spacerStmts.map .d ++ r) = sees mp r := by
  have : ∀ n, sees mp ((List.replicate n DStmt.none).map .d ++ r) = sees mp r := by
    intro n
    induction n with
    | zero => rfl
    | succ n ih =>
      rw [List.replicate_succ, List.map_cons, List.cons_append, sees, ih]
      cases sees mp r <;> rfl
  exact this _

theorem sees_cons {mp : Gas.Txt → Option (List Int)} {s : Stm} {ss : List Stm} {a b : List Got} (h : see mp s = some a)
    (hs : sees mp ss = some b) : sees mp (s :: ss) = some (a ++ b) := by
  rw [sees, h, hs]

/-! ### The maps at the end of a function -/

theorem fnMaps_stmts {maps : List (Gas.Txt × List Nat)} (hn : ∀ m ∈ maps, isSym m.1 = true) :
    ∃ S, dlines (fnMaps maps) = some (spacerStmts ++ .sect true :: S) ∧ (∀ s ∈ S, plainStmt s = true) ∧ ∀ l ∈ fnMaps maps, isData l := by
  have key : ∀ l : List (Gas.Txt × List Nat), (∀ m ∈ l, isSym m.1 = true) →
      ∃ S, dlines (l.flatMap (fun m => gcMap m.1 (m.2.map (fun o => ((o / 8 : Nat) : Int))))) = some S ∧ (∀ s ∈ S, plainStmt s = true) ∧
        ∀ x ∈ l.flatMap (fun m => gcMap m.1 (m.2.map (fun o => ((o / 8 : Nat) : Int)))), isData x := by
    intro l hl
    induction l with
    | nil => exact ⟨[], rfl, by simp, by simp⟩
    | cons x l ih =>
      obtain ⟨S, h1, h2, h3⟩ := ih (fun m hm => hl m (List.mem_cons_of_mem _ hm))
      refine ⟨mapStmts x.1 _ ++ S, dlines_append (dlines_gcMap (hl x (by simp)) _) h1, ?_, ?_⟩
      · intro s hs
        rcases List.mem_append.1 hs with hs | hs
        · exact mapStmts_plain _ _ s hs
        · exact h2 s hs
      · intro t ht
        rw [List.flatMap_cons] at ht
        rcases List.mem_append.1 ht with ht | ht
        · rw [Data.gcMap] at ht
          rcases List.mem_append.1 ht with ht | ht
          · simp only [List.mem_cons, List.not_mem_nil, or_false] at ht
            rcases ht with rfl | rfl | rfl
            · exact isData_label (hl x (by simp))
            · exact isData_tab _ _
            · exact isData_tab _ _
          · exact isData_spacer t ht
        · exact h3 t ht
  obtain ⟨S, h1, h2, h3⟩ := key maps hn
  refine ⟨S, dlines_append dlines_spacer (dlines_cons dline_data h1), h2, ?_⟩
  intro l hl
  rcases List.mem_append.1 hl with hl | hl
  · exact isData_spacer l hl
  · rcases List.mem_cons.1 hl with rfl | hl
    · exact isData_tab _ _
    · exact h3 l hl

/-- The end of a function leaves nothing in the text section. -/
theorem endMaps_read (Y : Symbols) {ord : List (Gas.Txt × List Nat) → List (Gas.Txt × List Nat)} (hord : ∀ l, (ord l).Perm l)
    {ms : Option (List (Gas.Txt × List Nat))} (hn : ∀ m ∈ ms.getD [], isSym m.1 = true) :
    ∃ es : List DStmt, rlines Y (endMaps ord ms) = some (es.map .d) ∧
      (∀ mp r, sees mp (codeOf false (es.map .d ++ .d (.sect false) :: r)) = sees mp (codeOf false r)) ∧
      (∀ mp, sees mp (codeOf false (es.map .d)) = some []) ∧ ∀ l, ms = some l → dlines (fnMaps (ord l)) = some es := by
  cases ms with
  | none => exact ⟨[], rfl, fun _ _ => rfl, fun _ => rfl, by simp⟩
  | some l =>
    obtain ⟨S, h1, h2, h3⟩ := fnMaps_stmts (maps := ord l) (fun m hm => hn m ((hord l).mem_iff.1 hm))
    refine ⟨_, rlines_data h3 h1, ?_, ?_, by rintro _ ⟨⟩; exact h1⟩
    · intro mp r
      rw [List.map_append, List.append_assoc, codeOf_plain spacer_plain, if_neg (by decide), sees_spacer, List.map_cons, List.cons_append,
        codeOf, codeOf_plain h2]
      rfl
    · intro mp
      rw [List.map_append, codeOf_plain spacer_plain, if_neg (by decide), sees_spacer, List.map_cons, codeOf,
        ← List.append_nil (S.map Stm.d), codeOf_plain h2]
      rfl

/-! ### The code -/

/-- The root maps of the code. -/
def codeMaps : Nat → List CItem → List (Gas.Txt × List Nat)
  | _, [] => []
  | k, .word (r :: rs) :: cs => (mapName k, (r :: rs).map (8 * ·)) :: codeMaps (k + 1) cs
  | k, .start _ :: cs => codeMaps k cs
  | k, .ioob :: cs => codeMaps k cs
  | k, .ins _ :: cs => codeMaps k cs
  | k, .label _ :: cs => codeMaps k cs
  | k, .word [] :: cs => codeMaps k cs

def shownC : CItem → List Got
  | .start f => [.align 8, .num (goTag (roHeader 5)), .label f.toList]
  | .ioob => [.label "ioob".toList]
  | .ins i => [.ins (.ins i)]
  | .label l => [.label l.text]
  | .word rs => [.map (rs.map (fun o : Nat => (o : Int)))]

theorem shown_parts (c : List Item) : shown c = (parts c).flatMap shownC := by
  fun_induction parts c <;> simp_all [shown, shownC, Label.text]

/-- The assembler can read an item. -/
def ReadableC (S : Spell) (Y : Symbols) : CItem → Prop
  | .start f => isSym f.toList = true
  | .ins i => line Y (insText S (.ins i)) = some (.ins i)
  | .label l => isSym l.text = true
  | _ => True

theorem mapName_sym (k : Nat) : isSym (mapName k) = true := by
  have h : (dec k).all symChar = true := by
    rw [List.all_eq_true]
    intro c hc
    have := dec_digit k c hc
    unfold symChar Char.isAlphanum
    rw [this]; simp
  have e : mapName k = '.' :: 'S' :: 'M' :: dec k := rfl
  rw [e]
  simp only [isSym, List.all_cons, h, Bool.and_true]
  decide

theorem rline_ins {Y : Symbols} {t : Gas.Txt} {h : HIns} (e : line Y t = some h) : rline Y t = some [.i h] := by
  have : (opcode (word1 t)).isSome = true := by
    unfold line at e
    simp only [Option.bind_eq_bind] at e
    obtain ⟨o, ho, _⟩ := Option.bind_eq_some_iff.1 e
    show (opcode _).isSome = true
    rw [word1, ho]; rfl
  rw [rline, this, e]; rfl

theorem code_read (S : Spell) (Y : Symbols) {ord : List (Gas.Txt × List Nat) → List (Gas.Txt × List Nat)} (hord : ∀ l, (ord l).Perm l)
    (cs : List CItem) : ∀ (k : Nat) (ms : Option (List (Gas.Txt × List Nat))), (∀ c ∈ cs, ReadableC S Y c) →
    (∀ m ∈ ms.getD [], isSym m.1 = true) →
    ∃ st, rlines Y (codeLines S ord k ms cs) = some st ∧
      (∀ mp, mp noGcLabel = some [] → (∀ m ∈ codeMaps k cs, mp m.1 = some (m.2.map (fun o => ((o / 8 : Nat) : Int)))) →
        sees mp (codeOf false st) = some (cs.flatMap shownC)) ∧
      ∀ m ∈ ms.getD [] ++ codeMaps k cs, ∃ maps ss A B, m ∈ maps ∧ (∀ x ∈ maps, x ∈ ms.getD [] ++ codeMaps k cs) ∧
        dlines (fnMaps maps) = some ss ∧ st = A ++ (ss.map Stm.d ++ B) := by
  induction cs with
  | nil =>
    intro k ms _ hn
    obtain ⟨es, h1, _, h3, h4⟩ := endMaps_read Y hord hn
    refine ⟨_, h1, fun mp _ _ => h3 mp, ?_⟩
    intro m hm
    cases ms with
    | none => cases hm
    | some l =>
      simp only [codeMaps, List.append_nil, Option.getD_some] at hm ⊢
      exact ⟨ord l, es, [], [], (hord l).mem_iff.2 hm, fun x hx => (hord l).mem_iff.1 hx, h4 l rfl, by simp⟩
  | cons c cs ih =>
    intro k ms hc hn
    have hcs : ∀ c ∈ cs, ReadableC S Y c := fun x hx => hc x (by simp [hx])
    have hc0 := hc c (by simp)
    -- the maps of a function that ends here, or of one that follows
    have fin : ∀ {es mid st : List _} {ms' : List (Gas.Txt × List Nat)}, (∀ l, ms = some l → dlines (fnMaps (ord l)) = some es) →
        ms' = [] →
        (∀ m ∈ ms' ++ codeMaps k cs, ∃ maps ss A B, m ∈ maps ∧ (∀ x ∈ maps, x ∈ ms' ++ codeMaps k cs) ∧
          dlines (fnMaps maps) = some ss ∧ st = A ++ (ss.map Stm.d ++ B)) →
        ∀ m ∈ ms.getD [] ++ codeMaps k cs, ∃ maps ss A B, m ∈ maps ∧ (∀ x ∈ maps, x ∈ ms.getD [] ++ codeMaps k cs) ∧
          dlines (fnMaps maps) = some ss ∧ es.map Stm.d ++ (mid ++ st) = A ++ (ss.map Stm.d ++ B) := by
      intro es mid st ms' h4 e h m hm
      subst e
      rcases List.mem_append.1 hm with hm | hm
      · cases ms with
        | none => cases hm
        | some l =>
          exact ⟨ord l, es, [], mid ++ st, (hord l).mem_iff.2 hm, fun x hx => List.mem_append_left _ ((hord l).mem_iff.1 hx), h4 l rfl, rfl⟩
      · obtain ⟨maps, ss, A, B, g1, g2, g3, g4⟩ := h m hm
        exact ⟨maps, ss, es.map Stm.d ++ (mid ++ A), B, g1, fun x hx => List.mem_append_right _ (g2 x hx), g3, by simp [g4]⟩
    have step : ∀ {s : Stm} {st : List Stm} {l : List (Gas.Txt × List Nat)}, (∀ m ∈ l, ∃ maps ss A B, m ∈ maps ∧ (∀ x ∈ maps, x ∈ l) ∧
          dlines (fnMaps maps) = some ss ∧ st = A ++ (ss.map Stm.d ++ B)) →
        ∀ m ∈ l, ∃ maps ss A B, m ∈ maps ∧ (∀ x ∈ maps, x ∈ l) ∧ dlines (fnMaps maps) = some ss ∧ s :: st = A ++ (ss.map Stm.d ++ B) := by
      intro s st l h m hm
      obtain ⟨maps, ss, A, B, g1, g2, g3, g4⟩ := h m hm
      exact ⟨maps, ss, s :: A, B, g1, g2, g3, by simp [g4]⟩
    cases c with
    | start f =>
      obtain ⟨es, h1, h2, _, h4⟩ := endMaps_read Y hord hn
      obtain ⟨st, g1, g2, g3⟩ := ih k (some []) hcs (by simp)
      have hf : isSym f.toList = true := hc0
      have hr : rlines Y (fnStart f.toList) =
          some ([DStmt.sect false, .align 8, .quads [.num (goTag (roHeader 5))], .none, .none, .label f.toList].map Stm.d) := by
        refine rlines_data ?_ (dlines_cons dline_text (dlines_cons dline_align (dlines_cons (dline_tagged _) (dlines_cons (dline_globl hf)
          (dlines_cons (dline_type hf) (dlines_one (dline_label hf)))))))
        intro l hl
        simp only [fnStart, List.mem_cons, List.not_mem_nil, or_false] at hl
        rcases hl with rfl | rfl | rfl | rfl | rfl | rfl
        · exact isData_tab _ _
        · exact isData_tab _ _
        · exact isData_tab _ _
        · exact isData_tab _ _
        · exact isData_tab _ _
        · exact isData_label hf
      refine ⟨_, rlines_append h1 (rlines_append hr g1), ?_, fin h4 rfl g3⟩
      intro mp m0 m1
      have := g2 mp m0 m1
      simp only [List.map_cons, List.map_nil, List.cons_append, List.nil_append]
      rw [h2]
      show _ = some ([.align 8] ++ ([.num (goTag (roHeader 5))] ++ ([] ++ ([] ++ ([.label f.toList] ++ cs.flatMap shownC)))))
      exact sees_cons rfl (sees_cons rfl (sees_cons rfl (sees_cons rfl (sees_cons rfl this))))
    | ioob =>
      obtain ⟨es, h1, h2, _, h4⟩ := endMaps_read Y hord hn
      obtain ⟨st, g1, g2, g3⟩ := ih k none hcs (by simp)
      refine ⟨_, rlines_append h1 (rlines_cons (rline_data (isData_tab _ _) dline_text)
        (rlines_cons (rline_data (isData_label (by decide)) (dline_label (by decide))) g1)),
        ?_, fin (mid := [_, _]) h4 rfl g3⟩
      intro mp m0 m1
      have := g2 mp m0 m1
      rw [h2]
      exact sees_cons rfl this
    | ins i =>
      obtain ⟨st, g1, g2, g3⟩ := ih k ms hcs hn
      exact ⟨_, rlines_cons (rline_ins hc0) g1, fun mp m0 m1 => sees_cons rfl (g2 mp m0 m1), step g3⟩
    | label l =>
      obtain ⟨st, g1, g2, g3⟩ := ih k ms hcs hn
      exact ⟨_, rlines_cons (rline_data (isData_label hc0) (dline_label hc0)) g1, fun mp m0 m1 => sees_cons rfl (g2 mp m0 m1), step g3⟩
    | word rs =>
      cases rs with
      | nil =>
        obtain ⟨st, g1, g2, g3⟩ := ih k ms hcs hn
        refine ⟨_, rlines_cons (rline_data (isData_tab _ _) (dline_addr (by decide))) g1, fun mp m0 m1 => ?_, step g3⟩
        refine sees_cons ?_ (g2 mp m0 m1)
        show (mp noGcLabel).map _ = _
        rw [m0]; rfl
      | cons r rs =>
        obtain ⟨st, g1, g2, g3⟩ := ih (k + 1) (some (ms.getD [] ++ [(mapName k, (r :: rs).map (8 * ·))])) hcs (by
          intro m hm
          rcases List.mem_append.1 hm with hm | hm
          · exact hn m hm
          · rw [List.mem_singleton.1 hm]; exact mapName_sym k)
        have e : (some (ms.getD [] ++ [(mapName k, (r :: rs).map (8 * ·))])).getD [] ++ codeMaps (k + 1) cs =
            ms.getD [] ++ codeMaps k (.word (r :: rs) :: cs) := by simp [codeMaps]
        rw [e] at g3
        refine ⟨_, rlines_cons (rline_data (isData_tab _ _) (dline_addr (mapName_sym k))) g1, fun mp m0 m1 => ?_, step g3⟩
        refine sees_cons ?_ (g2 mp m0 (fun m hm => m1 m (by simp [codeMaps, hm])))
        show (mp (mapName k)).map (fun r => [Got.map r]) = some [.map ((r :: rs).map (fun o : Nat => (o : Int)))]
        rw [m1 (mapName k, (r :: rs).map (8 * ·)) (by simp [codeMaps])]
        simp only [List.map_map, Option.map_some, Option.some.injEq, List.cons.injEq, Got.map.injEq, and_true]
        refine List.map_congr_left (fun o _ => ?_)
        show ((8 * o / 8 : Nat) : Int) = o
        omega

/-! ### Programs -/

theorem peep_label {o : Bool} {c : List Ev} {l : Label} (h : Item.label l ∈ peepWith o c) : l ∈ labels c := by
  rw [← itemLabels_peep c (o := o)]
  exact List.mem_filterMap.2 ⟨_, h, rfl⟩

/-- The item behind a call. -/
def itemOf : CItem → Item
  | .start f => .label (.fn f)
  | .ioob => .label .ioob
  | .ins i => .ins i
  | .label l => .label l
  | .word rs => .data rs

theorem parts_mem {c : List Item} {x : CItem} (h : x ∈ parts c) : itemOf x ∈ c := by
  fun_induction parts c <;> simp_all <;> grind [itemOf]

theorem codeMaps_mem {cs : List CItem} {k : Nat} {m : Gas.Txt × List Nat} (h : m ∈ codeMaps k cs) :
    (∃ j, m.1 = mapName j) ∧ ∃ rs, m.2 = rs.map (8 * ·) ∧ CItem.word rs ∈ cs := by
  fun_induction codeMaps k cs <;> grind

/-- **C88.**  The lines of the program are read by the assembler.  The text section has the instructions, labels and words of the
program in its order, and nothing else; whatever comes before and after, as long as the empty map is there, the words after calls lead to the
roots of the calls.  `hn` and `hf` are those of C36; instructions take any bytes. -/
theorem C88_code (o : Bool) (alloc ioob : String) (fds : List FnDef) (lits : List String) (num : Int → Gas.Txt)
    (ord : List (Gas.Txt × List Nat) → List (Gas.Txt × List Nat)) (hord : ∀ l, (ord l).Perm l)
    (hnum : Numbers ⟨num, lits.idxOf⟩) (h : ∀ fd ∈ fds, fd.body.small = true) (hp : Ev.panic ∉ genProg alloc ioob fds)
    (hn : (fds.map (·.name)).Nodup)
    (hf : ∀ fd ∈ fds, (∃ s : List Char, fd.name.toList = "clara_".toList ++ s) ∧ fd.name ≠ "clara_asm_entrypoint")
    (hs : ∀ fd ∈ fds, isSym fd.name.toList = true) (hi : ∀ i, Ev.ins i ∈ genProg alloc ioob fds → namesOk lits i = true)
    (hr : ∀ rs, Item.data rs ∈ peepWith o (genProg alloc ioob fds) → ∀ x ∈ rs, x < 2 ^ 59) :
    ∃ st ns, rlines (fileSymbols (genProg alloc ioob fds) lits)
        (codeLines ⟨num, lits.idxOf⟩ ord 0 none (parts (peepWith o (genProg alloc ioob fds)))) = some st ∧
      dlines genNoGc = some ns ∧
      ∀ enc pre mid post base ext file, file = pre ++ (st.map (asData enc) ++ (mid ++ (ns ++ post))) → DataOk base ext file →
        sees (fun s => readInts (dataAt base ext file) (dataAddr base ext file s)) (codeOf false st) =
          some (shown (peepWith o (genProg alloc ioob fds))) := by
  have hlab : ∀ l, Item.label l ∈ peepWith o (genProg alloc ioob fds) → isSym l.text = true := by
    intro l hl
    exact text_sym hs (peep_label hl)
  obtain ⟨st, h1, h2, h3⟩ := code_read ⟨num, lits.idxOf⟩ (fileSymbols (genProg alloc ioob fds) lits) hord
    (parts (peepWith o (genProg alloc ioob fds))) 0 none (by
      intro c hc
      have hm := parts_mem hc
      cases c with
      | start f => exact hlab _ hm
      | ioob => trivial
      | ins i => exact C79_program o alloc ioob fds lits num hnum h hp hn hf hs hi i hm
      | label l => exact hlab _ hm
      | word rs => trivial) (by simp)
  refine ⟨st, noGcStmts, h1, dlines_noGc, ?_⟩
  intro enc pre mid post base ext file hfile ok
  rw [shown_parts]
  refine h2 _ ?_ ?_
  · have hD : ∃ P R, inSect true false file = P ++ (.label noGcLabel :: .quads [.num (goTag 0)] :: R) := by
      have e : file = (pre ++ (st.map (asData enc) ++ mid)) ++ (noGcStmts ++ post) := by rw [hfile]; simp
      rw [e, inSect_append]
      exact ⟨_, _, rfl⟩
    obtain ⟨P, R, hD⟩ := hD
    exact noGc_reads hD ⟨ok.1, ok.2⟩
  · intro m hm
    obtain ⟨maps, ss, A, B, g1, g2, g3, g4⟩ := h3 m hm
    have hk : ∀ x ∈ maps, isSym x.1 = true ∧ ∀ y ∈ x.2, y < 2 ^ 62 := by
      intro x hx
      obtain ⟨⟨j, hj⟩, rs, e, hw⟩ := codeMaps_mem (g2 x hx)
      refine ⟨by rw [hj]; exact mapName_sym j, ?_⟩
      rw [e]
      intro y hy
      obtain ⟨z, hz, rfl⟩ := List.mem_map.1 hy
      have := hr _ (parts_mem hw) z hz
      omega
    obtain ⟨ss', e1, e2⟩ := C82_maps maps (fun x hx => (hk x hx).1) (fun x hx => (hk x hx).2)
    rw [g3] at e1
    cases e1
    have e : file = (pre ++ A.map (asData enc)) ++ (ss ++ (B.map (asData enc) ++ (mid ++ (noGcStmts ++ post)))) := by
      have : (ss.map Stm.d).map (asData enc) = ss := by
        rw [List.map_map]
        exact List.map_id ss
      rw [hfile, g4, List.map_append, List.map_append, this]
      simp
    rw [e] at ok ⊢
    exact e2 _ _ base ext ok m g1

/-! ### Examples -/

/-- `fn f(s: string, n: int) { g(s) g(s) }  fn h() { f("a", 7) }` -/
def cfFns : List FnDef := [
  { name := "clara_f.string.int", params := [(0, ⟨.string, 0⟩), (1, ⟨.integer, 0⟩)], retNothing := true, body := .block (
      .cons (.expr (.callFn "clara_g.string" { ret := ⟨.integer, 0⟩ } [.var 0 ⟨.string, 0⟩]))
        (.cons (.expr (.callFn "clara_g.string" { ret := ⟨.integer, 0⟩ } [.var 0 ⟨.string, 0⟩])) .nil)) },
  { name := "clara_h", params := [], retNothing := true, body := .block (
      .cons (.expr (.callFn "clara_f.string.int" { ret := ⟨.nothing, 0⟩ } [.str "\"a\"", .int 7])) .nil) }]

def cfLines : List Gas.Txt :=
  codeLines (plainSpell ["\"a\""]) List.reverse 0 none (parts (peepWith true (cProg "clara_alloc" "clara_ioob" cfFns)))


/-- The lines without blank ones and without what is after the last of them. -/
example : (cfLines.filter (fun l => word1 l ≠ [] && (word1 l).head? ≠ some ';' && (opcode (word1 l)).isNone)).map String.ofList =
    ["   .text", "   .align   8", "   .8byte   1407374883553285", "   .globl   clara_f.string.int",
      "   .type   clara_f.string.int, @function", "clara_f.string.int:", "   .8byte   .SM0", "   .8byte   .SM1", "   .data", ".SM1:",
      "   .8byte   3", "   .8byte   3", ".SM0:", "   .8byte   3", "   .8byte   3", "   .text", "   .align   8",
      "   .8byte   1407374883553285", "   .globl   clara_h", "   .type   clara_h, @function", "clara_h:", "   .8byte   _noGc", "   .data",
      "   .text", "ioob:"] := by decide +kernel

/-- The statements of the file with the empty map behind them; every instruction takes one byte. -/
def cfFile : List DStmt :=
  match rlines (fileSymbols (cProg "clara_alloc" "clara_ioob" cfFns) ["\"a\""]) cfLines, dlines genNoGc with
  | some st, some ns => st.map (asData (fun _ => [0])) ++ ns
  | _, _ => []

example : DataOk 4096 (fun _ => 0) cfFile := by unfold DataOk; decide +kernel
example : (labelsOf (inSect true false cfFile)).map String.ofList = [".SM1", ".SM0", "_noGc"] := by decide +kernel
example : [".SM0", ".SM1", "_noGc"].map (fun s => readInts (dataAt 4096 (fun _ => 0) cfFile) (dataAddr 4096 (fun _ => 0) cfFile s.toList)) =
    [some [1], some [1], some []] := by decide +kernel

/-- The hypotheses hold of the program. -/
example : ∃ st, rlines (fileSymbols (genProg "clara_alloc" "clara_ioob" cfFns) ["\"a\""])
    (codeLines (plainSpell ["\"a\""]) List.reverse 0 none (parts (peepWith true (genProg "clara_alloc" "clara_ioob" cfFns)))) = some st := by
  have hc : ∀ e ∈ cProg "clara_alloc" "clara_ioob" cfFns, e ≠ .panic ∧ ∀ j, e = .ins j → namesOk ["\"a\""] j = true := by
    have : (cProg "clara_alloc" "clara_ioob" cfFns).all
        (fun e => match e with | .panic => false | .ins j => namesOk ["\"a\""] j | _ => true) = true := by decide +kernel
    intro e he
    have := List.all_eq_true.1 this e he
    cases e with
    | panic => cases this
    | ins j => exact ⟨by simp, fun j' h => by cases h; exact this⟩
    | _ => exact ⟨by simp, fun j' h => by cases h⟩
  have hd : ∀ rs, Item.data rs ∈ peepWith true (cProg "clara_alloc" "clara_ioob" cfFns) → ∀ x ∈ rs, x < 2 ^ 59 := by
    have : (peepWith true (cProg "clara_alloc" "clara_ioob" cfFns)).all
        (fun i => match i with | .data rs => rs.all (fun x => decide (x < 2 ^ 59)) | _ => true) = true := by decide +kernel
    intro rs hrs x hx
    have := List.all_eq_true.1 this _ hrs
    simpa using List.all_eq_true.1 this x hx
  rw [cProg_eq] at hc hd
  have hf : ∀ fd ∈ cfFns, (∃ s : List Char, fd.name.toList = "clara_".toList ++ s) ∧ fd.name ≠ "clara_asm_entrypoint" := by
    intro fd hfd
    rcases List.mem_cons.1 hfd with rfl | hfd
    · exact ⟨⟨"f.string.int".toList, rfl⟩, by decide⟩
    · rcases List.mem_singleton.1 hfd with rfl
      exact ⟨⟨"h".toList, rfl⟩, by decide⟩
  obtain ⟨st, ns, h, _⟩ := C88_code true _ _ cfFns _ itoa List.reverse List.reverse_perm (fun i => C79_itoa i) (by decide +kernel)
    (fun h => (hc _ h).1 rfl) (by decide) hf (by decide) (fun j hj => (hc _ hj).2 j rfl) hd
  exact ⟨st, h⟩

end Clara.Props
