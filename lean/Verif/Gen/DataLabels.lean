import Verif.Gen.DataRoots
import Verif.Gen.Labels
import Verif.Types.AsmName
/-
The labels among the lines of `genTypeInfoTable`.
-/
namespace Clara.Data
open Clara.Gen hiding Txt
open Clara.Tbl Clara.Gas

variable {types : List TypeD} {nm lc : Nat → Txt}

theorem structLabel_cons (n : Txt) : ∃ r, structLabel n = 's' :: r := ⟨"truct_".toList ++ n, rfl⟩
theorem enumLabel_cons (n : Txt) (k : Nat) : ∃ r, enumLabel n k = 'e' :: r := ⟨"num_".toList ++ (n ++ ("_tag_".toList ++ dec k)), rfl⟩
theorem noGcLabel_cons : ∃ r, noGcLabel = '_' :: r := ⟨"noGc".toList, rfl⟩

theorem heads_ne {a b : Txt} {c d : Char} (ha : ∃ r, a = c :: r) (hb : ∃ r, b = d :: r) (h : c ≠ d) : a ≠ b := by
  obtain ⟨r, rfl⟩ := ha
  obtain ⟨s, rfl⟩ := hb
  exact fun e => h (List.cons.inj e).1

theorem struct_ne_noGc (n : Txt) : structLabel n ≠ noGcLabel := heads_ne (structLabel_cons n) noGcLabel_cons (by decide)
theorem enum_ne_noGc (n : Txt) (k : Nat) : enumLabel n k ≠ noGcLabel := heads_ne (enumLabel_cons n k) noGcLabel_cons (by decide)

theorem labels_map (name : Txt) (offs : List Int) : labelsOf (mapStmts name offs) = [name] := rfl

/-- The labels of the maps are those that are not the one of the empty map. -/
theorem rootLines_labels (hnm : ∀ t, ∀ c ∈ nm t, symChar c = true) {gt : List Nat} {tag : Nat} {et : Option Nat} {ls labs : List Txt}
    (h : rootLines types nm gt tag et = some (ls, labs)) :
    ∃ S, dlines ls = some S ∧ labelsOf S = labs.filter (· != noGcLabel) ∧ (∀ l ∈ labs, isSym l = true) ∧ labs.length = gt.length := by
  induction gt generalizing tag et ls labs with
  | nil =>
    rw [rootLines] at h
    cases h
    exact ⟨[], rfl, rfl, by simp, rfl⟩
  | cons t ts ih =>
    have skip : ∀ {tag et}, (rootLines types nm ts tag et).map (fun r => (r.1, noGcLabel :: r.2)) = some (ls, labs) →
        ∃ S, dlines ls = some S ∧ labelsOf S = labs.filter (· != noGcLabel) ∧ (∀ l ∈ labs, isSym l = true) ∧
          labs.length = (t :: ts).length := by
      intro tag et h
      obtain ⟨⟨a, b⟩, h1, h2⟩ := Option.map_eq_some_iff.1 h
      cases h2
      obtain ⟨S, e1, e2, e3, e4⟩ := ih h1
      refine ⟨S, e1, ?_, ?_, by simp [e4]⟩
      · rw [e2]; simp
      · intro l hl
        rcases List.mem_cons.1 hl with rfl | hl
        · decide
        · exact e3 l hl
    have put : ∀ {tag et} {l : Txt} {os : List Int}, isSym l = true → l ≠ noGcLabel →
        (rootLines types nm ts tag et).map (fun r => (gcMap l os ++ r.1, l :: r.2)) = some (ls, labs) →
        ∃ S, dlines ls = some S ∧ labelsOf S = labs.filter (· != noGcLabel) ∧ (∀ l ∈ labs, isSym l = true) ∧
          labs.length = (t :: ts).length := by
      intro tag et l os hl hne h
      obtain ⟨⟨a, b⟩, h1, h2⟩ := Option.map_eq_some_iff.1 h
      cases h2
      obtain ⟨S, e1, e2, e3, e4⟩ := ih h1
      refine ⟨mapStmts l os ++ S, dlines_append (dlines_gcMap hl os) e1, ?_, ?_, by simp [e4]⟩
      · rw [labelsOf_append, labels_map, e2]
        simp [hne]
      · intro x hx
        rcases List.mem_cons.1 hx with rfl | hx
        · exact hl
        · exact e3 x hx
    unfold rootLines at h
    cases ht : types[t]? with
    | none => rw [ht] at h; cases h
    | some d =>
      rw [ht] at h
      cases d with
      | struct fs =>
        simp only at h
        split at h
        · exact skip h
        · exact put (sym_struct (hnm t)) (struct_ne_noGc _) h
      | enum mems =>
        simp only at h
        generalize (if et = some t then tag else 0) = tg at h
        split at h
        · split at h
          · split at h
            · exact skip h
            · exact put (sym_enum (hnm t) _) (enum_ne_noGc _ _) h
          · cases h
        · cases h
      | _ => exact skip h

theorem labels_body (lc root : Txt) (d : TypeD) : labelsOf (bodyStmts lc root d) = [] := by cases d <;> rfl

theorem infoLines_labels (hlc : ∀ i, isSym (lc i) = true) {gt : List Nat} {labs ls : List Txt} (hlen : labs.length = gt.length)
    (hlab : ∀ l ∈ labs, isSym l = true) {i : Nat} (h : infoLines types lc i gt labs = some ls) :
    ∃ S, dlines ls = some S ∧ labelsOf S = (List.range' i gt.length).map infoLabel := by
  induction gt generalizing labs ls i with
  | nil =>
    simp only [infoLines, Option.some.injEq] at h
    subst h
    exact ⟨[], rfl, rfl⟩
  | cons t ts ih =>
    cases labs with
    | nil => simp at hlen
    | cons l labs =>
      rw [infoLines] at h
      split at h
      · rename_i d hd
        obtain ⟨ls', h1, h2⟩ := Option.map_eq_some_iff.1 h
        subst h2
        obtain ⟨S, e1, e2⟩ := ih (by simpa using hlen) (fun x hx => hlab x (List.mem_cons_of_mem _ hx)) h1
        refine ⟨infoStmts i (lc i) l d ++ S, dlines_append (dlines_ro (sym_info i) (dlines_body (hlc i) (hlab l (by simp)) d)) e1, ?_⟩
        rw [labelsOf_append, e2]
        show infoLabel i :: labelsOf (bodyStmts (lc i) l d) ++ _ = _
        rw [labels_body]
        rfl
      · cases h

theorem labels_array (n : Nat) : labelsOf (arrayStmts n) = ["typeInfoArray".toList] := by
  have : ∀ l : List Nat, labelsOf (l.map (fun i => DStmt.quads [.sym (infoLabel i) 0])) = [] := by
    intro l
    induction l with
    | nil => rfl
    | cons i l ih => exact ih
  show "typeInfoArray".toList :: labelsOf ((List.range n).map (fun i => DStmt.quads [.sym (infoLabel i) 0])) = _
  rw [this]

/-- All labels of the table. -/
theorem tableLines_labels (hnm : ∀ t, ∀ c ∈ nm t, symChar c = true) (hlc : ∀ i, isSym (lc i) = true) {gt : List Nat} {out : List Txt}
    (h : tableLines types nm lc gt = some out) :
    ∃ ls labs S, rootLines types nm gt 0 none = some (ls, labs) ∧ dlines out = some S ∧
      labelsOf S = labs.filter (· != noGcLabel) ++ ((List.range gt.length).map infoLabel ++ ["typeInfoArray".toList]) := by
  unfold tableLines at h
  split at h
  · rename_i r hr
    obtain ⟨is, h1, h2⟩ := Option.map_eq_some_iff.1 h
    subst h2
    obtain ⟨S, e1, e2, e3, e4⟩ := rootLines_labels (nm := nm) hnm (ls := r.1) (labs := r.2) hr
    obtain ⟨S2, f1, f2⟩ := infoLines_labels (lc := lc) hlc e4 e3 h1
    refine ⟨r.1, r.2, .sect true :: (S ++ (S2 ++ arrayStmts gt.length)), hr,
      dlines_cons dline_raw_data (dlines_append e1 (dlines_append f1 (dlines_array _))), ?_⟩
    show labelsOf (S ++ (S2 ++ arrayStmts gt.length)) = _
    rw [labelsOf_append, labelsOf_append, e2, f2, labels_array, List.range_eq_range']
  · cases h

/-! ### Which labels -/

/-- The label of the map of a constructor. -/
def conLabel (nm : Nat → Txt) (c : CK) : Txt :=
  if (entry c).length = 0 then noGcLabel else
    match c.2.1 with
    | none => structLabel (nm c.1)
    | some k => enumLabel (nm c.1) k

/-- Labels of `rootLines`. -/
def rootLabels (types : List TypeD) (nm : Nat → Txt) (gt : List Nat) (tag : Nat) (et : Option Nat) : Option (List Txt) :=
  (rootLines types nm gt tag et).map (·.2)

theorem rootLabels_structs {ss : List CK} (h : ∀ c ∈ ss, IsStruct types c) (tag : Nat) (et : Option Nat) :
    rootLabels types nm (ss.map (·.1)) tag et = some (ss.map (conLabel nm)) := by
  induction ss generalizing tag et with
  | nil => rfl
  | cons c ss ih =>
    obtain ⟨h1, h2⟩ := h c List.mem_cons_self
    have ih := fun tag et => ih (fun c hc => h c (List.mem_cons_of_mem _ hc)) tag et
    simp only [rootLabels] at ih ⊢
    have he : entry c = fieldOffs (mkFields 0 c.2.2) := by simp only [entry, h1]
    simp only [List.map_cons, rootLines, h2]
    split
    · rename_i hz
      rw [Option.map_map]
      have := ih tag et
      obtain ⟨r, hr, e⟩ := Option.map_eq_some_iff.1 this
      rw [hr, ← e]
      simp only [Option.map_some, Function.comp, conLabel, he, hz, if_true]
    · rename_i hz
      rw [Option.map_map]
      have := ih 0 et
      obtain ⟨r, hr, e⟩ := Option.map_eq_some_iff.1 this
      rw [hr, ← e]
      simp only [Option.map_some, Function.comp, conLabel, he, if_neg hz, h1]

theorem rootLabels_group {t : Nat} {all : List (List TK)} (ht : types[t]? = some (.enum (mkMembers 0 all)))
    (ms pre : List (List TK)) (rest : List Nat) (hall : all = pre ++ ms) :
    rootLabels types nm ((group t pre.length ms).map (·.1) ++ rest) pre.length (some t) =
      (rootLabels types nm rest (pre.length + ms.length) (some t)).map ((group t pre.length ms).map (conLabel nm) ++ ·) := by
  induction ms generalizing pre with
  | nil => simp [group]
  | cons ps ms ih =>
    have ih := ih (pre ++ [ps]) (by rw [hall]; simp)
    simp only [List.length_append, List.length_singleton] at ih
    have hm : (mkMembers 0 all)[pre.length]? = some ⟨pre.length, ps⟩ := by
      rw [mkMembers_get, hall, List.getElem?_append_right (Nat.le_refl _)]
      simp
    have he : entry (t, some pre.length, ps) = memberOffs 0 ps := rfl
    simp only [rootLabels] at ih ⊢
    simp only [group, List.map_cons, List.cons_append, rootLines, ht, if_true, hm, List.length_cons]
    rw [show pre.length + (ms.length + 1) = pre.length + 1 + ms.length by omega]
    split
    · rename_i hz
      rw [Option.map_map]
      have e : ((fun x : List Txt × List Txt => x.2) ∘ fun r : List Txt × List Txt => (r.1, noGcLabel :: r.2)) =
        (noGcLabel :: ·) ∘ (·.2) := rfl
      rw [e, ← Option.map_map, ih, Option.map_map, Option.map_map, Option.map_map]
      congr 1
      funext x
      simp only [Function.comp, conLabel, he, hz, if_true]
    · rename_i hz
      rw [Option.map_map]
      have e : ((fun x : List Txt × List Txt => x.2) ∘ fun r : List Txt × List Txt =>
          (gcMap (enumLabel (nm t) pre.length) (memberOffs 0 ps) ++ r.1, enumLabel (nm t) pre.length :: r.2)) =
        (enumLabel (nm t) pre.length :: ·) ∘ (·.2) := rfl
      rw [e, ← Option.map_map, ih, Option.map_map, Option.map_map, Option.map_map]
      congr 1
      funext x
      simp only [Function.comp, conLabel, he, if_neg hz]

theorem rootLabels_enums {gs : List (Nat × List (List TK))} (hnd : (gs.map (·.1)).Nodup)
    (h : ∀ g ∈ gs, types[g.1]? = some (.enum (mkMembers 0 g.2))) (rest : List Nat) (tag : Nat) (et : Option Nat)
    (het : ∀ t, et = some t → t ∉ gs.map (·.1)) :
    ∃ tag' et', rootLabels types nm ((gs.flatMap (fun g => group g.1 0 g.2)).map (·.1) ++ rest) tag et =
      (rootLabels types nm rest tag' et').map ((gs.flatMap (fun g => group g.1 0 g.2)).map (conLabel nm) ++ ·) := by
  induction gs generalizing tag et with
  | nil => exact ⟨tag, et, by simp⟩
  | cons g gs ih =>
    obtain ⟨t, ms⟩ := g
    simp only [List.map_cons, List.nodup_cons] at hnd
    have ht := h _ List.mem_cons_self
    have ih := fun tag et het => ih hnd.2 (fun g hg => h g (List.mem_cons_of_mem _ hg)) tag et het
    have hne : et ≠ some t := fun e => het t e (by simp)
    cases ms with
    | nil =>
      obtain ⟨tag', et', e⟩ := ih tag et (fun t' e hm => het t' e (by simp only [List.map_cons]; exact List.mem_cons_of_mem _ hm))
      exact ⟨tag', et', by simpa [group] using e⟩
    | cons ps ms =>
      have hg := rootLabels_group (nm := nm) ht (ps :: ms) [] ((gs.flatMap (fun g => group g.1 0 g.2)).map (·.1) ++ rest) rfl
      obtain ⟨tag', et', e⟩ := ih (0 + (ps :: ms).length) (some t) (fun t' e hm => by cases e; exact hnd.1 hm)
      refine ⟨tag', et', ?_⟩
      simp only [List.length_nil] at hg
      rw [e, Option.map_map] at hg
      have first : ∀ r, rootLabels types nm ((group t 0 (ps :: ms)).map (·.1) ++ r) tag et =
          rootLabels types nm ((group t 0 (ps :: ms)).map (·.1) ++ r) 0 (some t) := by
        intro r
        simp only [rootLabels, group, List.map_cons, List.cons_append, rootLines, ht, if_neg hne, if_true]
      simp only [List.flatMap_cons, List.map_append, List.append_assoc]
      rw [first, hg]
      congr 1

/-- The labels for a program. -/
theorem program_labels (nm : Nat → Txt) (ds : List Decl) (ls : List Local) :
    rootLabels (addBuiltins (lowered ds ls).types).1 nm (assignIds (lowered ds ls).root (addBuiltins (lowered ds ls).types).2).2 0 none =
      some (List.replicate 8 noGcLabel ++ ((lowered ds ls).root.filterMap Node.con).map (conLabel nm)) := by
  obtain ⟨gs, ss, R⟩ := lowered_ready ds ls
  generalize hp : lowered ds ls = p at R
  obtain ⟨a1, -, -⟩ := assignIds_spec p.root (addBuiltins p.types).2
  have hT : p.types <+: (addBuiltins p.types).1 := List.prefix_append _ _
  rw [a1, R.con]
  have st : ∀ {i : Nat} {x : TypeD}, stdTypes[i]? = some x → (addBuiltins p.types).1[i]? = some x :=
    fun h => prefix_get (R.std.trans hT) h
  have e0 := st (i := 0) rfl
  have e1 := st (i := 1) rfl
  have e2 := st (i := 2) rfl
  have e3 := st (i := 3) rfl
  have e4 := st (i := 4) rfl
  have e5 : (addBuiltins p.types).1[p.types.length]? = some (.struct []) := by simp [addBuiltins]
  have e6 : (addBuiltins p.types).1[p.types.length + 1]? = some .function := by simp [addBuiltins]
  have hb : (addBuiltins p.types).2 = [p.types.length, 0, 1, 2, 3, p.types.length + 1, 0, 4] := rfl
  rw [hb]
  generalize (addBuiltins p.types).1 = T at *
  have hR : ∀ rest, rootLabels T nm ([p.types.length, 0, 1, 2, 3, p.types.length + 1, 0, 4] ++ rest) 0 none =
      (rootLabels T nm rest 0 none).map (List.replicate 8 noGcLabel ++ ·) := by
    intro rest
    simp only [List.cons_append, List.nil_append, rootLabels, rootLines, e0, e1, e2, e3, e4, e5, e6, fieldOffs, List.filter_nil,
      List.map_nil, List.length_nil, if_true, Option.map_map]
    rfl
  obtain ⟨tag, et, hE⟩ := rootLabels_enums (types := T) (nm := nm) R.nodup (fun g hg => prefix_get hT (R.enums g hg)) (ss.map (·.1)) 0 none (by simp)
  rw [rootLabels_structs (fun c hc => (R.structs c hc).mono hT) tag et] at hE
  rw [List.map_append, hR, hE]
  simp only [Option.map_some, List.map_append]

/-! ### They are different -/

theorem dec_not_underscore (k : Nat) : ∀ c ∈ dec k, c ≠ '_' := by
  intro c hc e
  have := dec_digit k c hc
  rw [e] at this
  revert this
  decide

theorem enumLabel_inj {n m : Txt} {i j : Nat} (h : enumLabel n i = enumLabel m j) : n = m ∧ i = j := by
  have h1 := List.append_cancel_left h
  have h2 := congrArg List.reverse h1
  simp only [List.reverse_append] at h2
  have key : ∀ (a b : List Char), (∀ c ∈ a, c ≠ '_') → (∀ c ∈ b, c ≠ '_') → ∀ x y : List Char, a ++ '_' :: x = b ++ '_' :: y → a = b ∧ x = y := by
    intro a
    induction a with
    | nil =>
      intro b _ hb x y e
      cases b with
      | nil => exact ⟨rfl, (List.cons.inj e).2⟩
      | cons c b => exact absurd (List.cons.inj e).1.symm (hb c (by simp))
    | cons c a ih =>
      intro b ha hb x y e
      cases b with
      | nil => exact absurd (List.cons.inj e).1 (ha c (by simp))
      | cons d b =>
        obtain ⟨e1, e2⟩ := List.cons.inj e
        obtain ⟨f1, f2⟩ := ih b (fun c hc => ha c (by simp [hc])) (fun c hc => hb c (by simp [hc])) x y e2
        exact ⟨by rw [e1, f1], f2⟩
  have hr : ∀ k, ∀ c ∈ (dec k).reverse, c ≠ '_' := fun k c hc => dec_not_underscore k c (List.mem_reverse.1 hc)
  have e : "_tag_".toList.reverse = '_' :: "gat_".toList := by decide
  rw [e, List.append_assoc, List.append_assoc, List.cons_append, List.cons_append] at h2
  obtain ⟨h3, h4⟩ := key _ _ (hr i) (hr j) _ _ h2
  exact ⟨List.reverse_injective (List.append_cancel_left h4), dec_inj (List.reverse_injective h3)⟩

theorem structLabel_inj {n m : Txt} (h : structLabel n = structLabel m) : n = m := List.append_cancel_left h

theorem struct_ne_enum (n m : Txt) (k : Nat) : structLabel n ≠ enumLabel m k := heads_ne (structLabel_cons n) (enumLabel_cons m k) (by decide)

theorem group_keys {t i : Nat} {ms : List (List TK)} :
    ((group t i ms).map (fun c => (c.1, c.2.1))) = (List.range' i ms.length).map (fun k => (t, some k)) := by
  induction ms generalizing i with
  | nil => rfl
  | cons ps ms ih => simp [group, ih, List.range'_succ]

theorem Ready_keys {ds : List Decl} {p : Prog} {gs : List (Nat × List (List TK))} {ss : List CK} (R : Ready ds p gs ss) :
    ((p.root.filterMap Node.con).map (fun c => (c.1, c.2.1))).Nodup := by
  rw [R.con, List.map_append]
  refine List.nodup_append.2 ⟨?_, ?_, ?_⟩
  · have hn := R.nodup
    clear R
    induction gs with
    | nil => simp
    | cons g gs ih =>
      simp only [List.map_cons, List.nodup_cons] at hn
      simp only [List.flatMap_cons, List.map_append]
      refine List.nodup_append.2 ⟨?_, ih hn.2, ?_⟩
      · rw [group_keys]
        exact List.Nodup.map (fun a b h => by simpa using h) List.nodup_range'
      · rintro a ha b hb rfl
        obtain ⟨c, hc, rfl⟩ := List.mem_map.1 ha
        obtain ⟨d, hd, e⟩ := List.mem_map.1 hb
        obtain ⟨g', hg', hd⟩ := List.mem_flatMap.1 hd
        have h1 := mem_group hc
        have h2 := mem_group hd
        have h3 := congrArg Prod.fst e
        simp only at h3
        refine hn.1 ?_
        rw [← h1, ← h3, h2]
        exact List.mem_map_of_mem hg'
  · have : (ss.map (fun c => (c.1, c.2.1))).map (·.1) = ss.map (·.1) := by rw [List.map_map]; rfl
    exact List.Nodup.of_map (·.1) (by rw [this]; exact R.snodup)
  · rintro a ha b hb rfl
    obtain ⟨c, hc, rfl⟩ := List.mem_map.1 ha
    obtain ⟨d, hd, e⟩ := List.mem_map.1 hb
    obtain ⟨g', hg', hc⟩ := List.mem_flatMap.1 hc
    have h1 := (R.structs d hd).1
    have h2 := congrArg Prod.snd e
    simp only [h1] at h2
    have : ∀ {i : Nat} {ms : List (List TK)}, c ∈ group g'.1 i ms → c.2.1 ≠ none := by
      intro i ms
      induction ms generalizing i with
      | nil => intro h; cases h
      | cons ps ms ih =>
        intro h
        rcases List.mem_cons.1 h with rfl | h
        · simp
        · exact ih h
    exact this hc h2.symm

theorem conLabel_inj {c d : CK} (hc : conLabel nm c ≠ noGcLabel) (hd : conLabel nm d ≠ noGcLabel) (h : conLabel nm c = conLabel nm d) :
    nm c.1 = nm d.1 ∧ c.2.1 = d.2.1 := by
  unfold conLabel at *
  by_cases h1 : (entry c).length = 0
  · rw [if_pos h1] at hc; exact absurd rfl hc
  by_cases h2 : (entry d).length = 0
  · rw [if_pos h2] at hd; exact absurd rfl hd
  rw [if_neg h1, if_neg h2] at h
  cases e1 : c.2.1 with
  | none =>
    rw [e1] at h
    cases e2 : d.2.1 with
    | none => rw [e2] at h; exact ⟨structLabel_inj h, rfl⟩
    | some k => rw [e2] at h; exact absurd h (struct_ne_enum _ _ _)
  | some j =>
    rw [e1] at h
    cases e2 : d.2.1 with
    | none => rw [e2] at h; exact absurd h.symm (struct_ne_enum _ _ _)
    | some k =>
      rw [e2] at h
      obtain ⟨a, b⟩ := enumLabel_inj h
      exact ⟨a, by rw [b]⟩

/-- The labels of maps of the types of a program are different if the names of the types are. -/
theorem conLabels_nodup {l : List CK} (hk : (l.map (fun c => (c.1, c.2.1))).Nodup)
    (hnm : ∀ c ∈ l, ∀ d ∈ l, nm c.1 = nm d.1 → c.1 = d.1) : ((l.map (conLabel nm)).filter (· != noGcLabel)).Nodup := by
  rw [List.filter_map]
  refine List.Nodup.map_on ?_ (List.Nodup.filter _ (List.Nodup.of_map _ hk))
  intro c hc d hd h
  obtain ⟨hc, hc'⟩ := List.mem_filter.1 hc
  obtain ⟨hd, hd'⟩ := List.mem_filter.1 hd
  obtain ⟨h1, h2⟩ := conLabel_inj (by simpa using hc') (by simpa using hd') h
  exact List.inj_on_of_nodup_map hk hc hd (Prod.ext (hnm c hc d hd h1) h2)

theorem heads_types : ∀ p ∈ heads, ∀ q ∈ ["struct_", "enum_"], ¬ p.toList <+: q.toList ∧ ¬ q.toList <+: p.toList := by decide

/-- No other label is that of the map of a type. -/
theorem text_ne_conLabel {f : String → Prop} (hf : ∀ g, f g → ∃ s : List Char, g.toList = "clara_".toList ++ s) {a : Sym} (ha : a.Ok f)
    {c : CK} (hc : conLabel nm c ≠ noGcLabel) : a.text ≠ conLabel nm c := by
  have hq : ∃ q ∈ ["struct_", "enum_"], ∃ r, conLabel nm c = q.toList ++ r := by
    unfold conLabel at *
    split at hc
    · exact absurd rfl hc
    · rename_i h0
      rw [if_neg h0]
      split
      · exact ⟨"struct_", by simp, _, rfl⟩
      · exact ⟨"enum_", by simp, _, rfl⟩
  obtain ⟨q, hq, r, e⟩ := hq
  rw [Sym.split_text hf ha, e]
  intro h
  obtain ⟨h1, h2⟩ := heads_types _ (Sym.split_head ha) q hq
  rcases List.prefix_or_prefix_of_prefix (l₃ := q.toList ++ r) ⟨_, h⟩ ⟨_, rfl⟩ with hp | hp
  · exact h1 hp
  · exact h2 hp

/-! ### Names of types -/

/-- The name of a struct or enum. -/
def typeHead : Clara.Types.Ty → Option (List Char)
  | .struct n _ | .enum n _ => some n.toList
  | _ => none

theorem before_dollar {n m a b : List Char} (hn : '$' ∉ n) (hm : '$' ∉ m) (ha : a = [] ∨ ∃ r, a = '$' :: r) (hb : b = [] ∨ ∃ r, b = '$' :: r)
    (h : n ++ a = m ++ b) : n = m := by
  induction n generalizing m with
  | nil =>
    cases m with
    | nil => rfl
    | cons c m =>
      rcases ha with rfl | ⟨r, rfl⟩
      · cases h
      · exact absurd (by rw [(List.cons.inj h).1]; simp) hm
  | cons c n ih =>
    cases m with
    | nil =>
      rcases hb with rfl | ⟨r, rfl⟩
      · cases h
      · exact absurd (by rw [← (List.cons.inj h).1]; simp) hn
    | cons d m =>
      obtain ⟨e1, e2⟩ := List.cons.inj h
      rw [e1, ih (fun h => hn (by simp [h])) (fun h => hm (by simp [h])) e2]

theorem typeHead_asm {t : Clara.Types.Ty} {n : List Char} (h : typeHead t = some n) :
    ∃ r, t.asm = n ++ r ∧ (r = [] ∨ ∃ s, r = '$' :: s) := by
  cases t <;> simp only [typeHead, Option.some.injEq, reduceCtorEq] at h
  all_goals
    subst h
    rw [Clara.Types.Ty.asm]
    split
    · exact ⟨[], by simp, .inl rfl⟩
    · exact ⟨_, by rw [List.append_assoc, List.append_assoc]; rfl, .inr ⟨_, rfl⟩⟩

theorem asm_head_inj {t u : Clara.Types.Ty} {n m : List Char} (ht : typeHead t = some n) (hu : typeHead u = some m) (hn : '$' ∉ n)
    (hm : '$' ∉ m) (h : t.asm = u.asm) : n = m := by
  obtain ⟨r, e1, hr⟩ := typeHead_asm ht
  obtain ⟨s, e2, hs⟩ := typeHead_asm hu
  rw [e1, e2] at h
  exact before_dollar hn hm hr hs h

end Clara.Data
