import Verif.Gen.DataTable
import Verif.Gen.TypeTableProof
/-
The lines of `genTypeInfoTable` as statements.
-/
namespace Clara.Data
open Clara.Gen hiding Txt
open Clara.Tbl Clara.Gas
open Clara.Gc (TypeInfo intOf)

variable {types : List TypeD} {nm lc : Nat → Txt}

theorem sym_struct {n : Txt} (h : ∀ c ∈ n, symChar c = true) : isSym (structLabel n) = true := by
  have : structLabel n = 's' :: ("truct_".toList ++ n) := rfl
  rw [this]
  simp only [isSym, Bool.and_eq_true, List.all_append]
  exact ⟨by decide, by decide, by decide, by decide, List.all_eq_true.2 h⟩

theorem sym_digit {c : Char} (h : c.isDigit = true) : symChar c = true := by
  simp [symChar, Char.isAlphanum, h]

theorem dec_sym (k : Nat) : (dec k).all symChar = true := List.all_eq_true.2 (fun c hc => sym_digit (dec_digit k c hc))

theorem sym_enum {n : Txt} (h : ∀ c ∈ n, symChar c = true) (k : Nat) : isSym (enumLabel n k) = true := by
  have : enumLabel n k = 'e' :: ("num_".toList ++ (n ++ ("_tag_".toList ++ dec k))) := rfl
  rw [this]
  simp only [isSym, Bool.and_eq_true, List.all_append]
  exact ⟨by decide, by decide, by decide, by decide, List.all_eq_true.2 h, by decide, dec_sym k⟩

theorem sym_info (k : Nat) : isSym (infoLabel k) = true := by
  have : infoLabel k = 't' :: ("ypeInfo_".toList ++ dec k) := rfl
  rw [this]
  simp only [isSym, Bool.and_eq_true, List.all_append]
  exact ⟨by decide, by decide, by decide, by decide, dec_sym k⟩

/-- The maps and their labels: a label is that of the empty map, or of a map among the statements. -/
structure RootsOk (S : List DStmt) (labs : List Txt) (ms : List (List Int)) : Prop where
  plain : ∀ s ∈ S, plainStmt s = true
  length : labs.length = ms.length
  each : ∀ (i : Nat) (lab : Txt) (offs : List Int), labs[i]? = some lab → ms[i]? = some offs →
    isSym lab = true ∧ ((lab = noGcLabel ∧ offs = []) ∨ ∃ A B, S = A ++ (mapStmts lab offs ++ B))

theorem RootsOk.skip {S : List DStmt} {labs : List Txt} {ms : List (List Int)} (h : RootsOk S labs ms) :
    RootsOk S (noGcLabel :: labs) ([] :: ms) where
  plain := h.plain
  length := by simp [h.length]
  each := by
    intro i lab offs hl ho
    cases i with
    | zero => cases hl; cases ho; exact ⟨by decide, .inl ⟨rfl, rfl⟩⟩
    | succ i => exact h.each i lab offs hl ho

theorem RootsOk.push {S : List DStmt} {labs : List Txt} {ms : List (List Int)} (h : RootsOk S labs ms) {l : Txt} (hl : isSym l = true)
    (os : List Int) : RootsOk (mapStmts l os ++ S) (l :: labs) (os :: ms) where
  plain := by
    intro s hs
    rcases List.mem_append.1 hs with hs | hs
    · exact mapStmts_plain l os s hs
    · exact h.plain s hs
  length := by simp [h.length]
  each := by
    intro i lab offs hlab ho
    cases i with
    | zero => cases hlab; cases ho; exact ⟨hl, .inr ⟨[], S, rfl⟩⟩
    | succ i =>
      obtain ⟨h1, h2 | ⟨A, B, h2⟩⟩ := h.each i lab offs hlab ho
      · exact ⟨h1, .inl h2⟩
      · exact ⟨h1, .inr ⟨mapStmts l os ++ A, B, by rw [h2, List.append_assoc]⟩⟩

theorem rootLines_ok (hnm : ∀ t, ∀ c ∈ nm t, symChar c = true) {gt : List Nat} {tag : Nat} {et : Option Nat} {ms : List (List Int)}
    (h : rootMaps types gt tag et = some ms) :
    ∃ ls labs S, rootLines types nm gt tag et = some (ls, labs) ∧ dlines ls = some S ∧ RootsOk S labs ms := by
  induction gt generalizing tag et ms with
  | nil =>
    rw [rootMaps] at h
    cases h
    exact ⟨[], [], [], rfl, rfl, ⟨by simp, rfl, by simp⟩⟩
  | cons t ts ih =>
    have skip : ∀ {tag et ms'}, rootMaps types ts tag et = some ms' → ms = [] :: ms' →
        ∃ ls labs S, (rootLines types nm ts tag et).map (fun r => (r.1, noGcLabel :: r.2)) = some (ls, labs) ∧
          dlines ls = some S ∧ RootsOk S labs ms := by
      intro tag et ms' h1 h2
      obtain ⟨ls, labs, S, e1, e2, e3⟩ := ih h1
      subst h2
      exact ⟨ls, noGcLabel :: labs, S, by rw [e1]; rfl, e2, e3.skip⟩
    have put : ∀ {tag et ms'} {l : Txt} {os : List Int}, rootMaps types ts tag et = some ms' → ms = os :: ms' → isSym l = true →
        ∃ ls labs S, (rootLines types nm ts tag et).map (fun r => (gcMap l os ++ r.1, l :: r.2)) = some (ls, labs) ∧
          dlines ls = some S ∧ RootsOk S labs ms := by
      intro tag et ms' l os h1 h2 hl
      obtain ⟨ls, labs, S, e1, e2, e3⟩ := ih h1
      subst h2
      exact ⟨gcMap l os ++ ls, l :: labs, mapStmts l os ++ S, by rw [e1]; rfl, dlines_append (dlines_gcMap hl os) e2, e3.push hl os⟩
    unfold rootMaps at h
    unfold rootLines
    cases ht : types[t]? with
    | none => rw [ht] at h; cases h
    | some d =>
      rw [ht] at h
      cases d with
      | struct fs =>
        simp only at h ⊢
        split at h
        · rename_i h0
          rw [if_pos h0]
          obtain ⟨ms', h1, h2⟩ := Option.map_eq_some_iff.1 h
          exact skip h1 h2.symm
        · rename_i h0
          rw [if_neg h0]
          obtain ⟨ms', h1, h2⟩ := Option.map_eq_some_iff.1 h
          exact put h1 h2.symm (sym_struct (hnm t))
      | enum mems =>
        simp only at h ⊢
        generalize (if et = some t then tag else 0) = tg at h ⊢
        split at h
        · rename_i m hm
          simp only [hm]
          split at h
          · rename_i htag
            rw [if_pos htag]
            obtain ⟨ms', h1, h2⟩ := Option.map_eq_some_iff.1 h
            split
            · rename_i h0
              rw [List.length_eq_zero_iff.1 h0] at h2
              exact skip h1 h2.symm
            · exact put h1 h2.symm (sym_enum (hnm t) _)
          · cases h
        · cases h
      | _ =>
        obtain ⟨ms', h1, h2⟩ := Option.map_eq_some_iff.1 h
        exact skip h1 h2.symm

/-- The entries among the statements. -/
structure InfosOk (types : List TypeD) (lc : Nat → Txt) (i : Nat) (S : List DStmt) (gt : List Nat) (labs : List Txt) : Prop where
  plain : ∀ s ∈ S, plainStmt s = true
  each : ∀ (k t : Nat) (d : TypeD) (lab : Txt), gt[k]? = some t → types[t]? = some d → labs[k]? = some lab →
    ∃ A B, S = A ++ (infoStmts (i + k) (lc (i + k)) lab d ++ B)

theorem infoLines_ok (hlc : ∀ i, isSym (lc i) = true) {gt : List Nat} {labs : List Txt} {ms : List (List Int)} {T : List TypeInfo}
    (hlen : labs.length = ms.length) (hlab : ∀ l ∈ labs, isSym l = true) (h : infos types gt ms = some T) (i : Nat) :
    ∃ ls S, infoLines types lc i gt labs = some ls ∧ dlines ls = some S ∧ InfosOk types lc i S gt labs := by
  induction gt generalizing labs ms T i with
  | nil => exact ⟨[], [], by simp [infoLines], rfl, ⟨by simp, by simp⟩⟩
  | cons t ts ih =>
    cases labs with
    | nil => exact ⟨[], [], by simp [infoLines], rfl, ⟨by simp, by simp⟩⟩
    | cons l labs =>
      cases ms with
      | nil => simp at hlen
      | cons m ms =>
        rw [infos] at h
        split at h
        · rename_i d hd
          obtain ⟨T', h1, h2⟩ := Option.map_eq_some_iff.1 h
          obtain ⟨ls, S, e1, e2, e3⟩ := ih (by simpa using hlen) (fun x hx => hlab x (List.mem_cons_of_mem _ hx)) h1 (i + 1)
          refine ⟨roSymbol (infoLabel i) (infoBody (lc i) l d) ++ ls, infoStmts i (lc i) l d ++ S, ?_, ?_, ?_⟩
          · rw [infoLines, hd]
            simp only [e1, Option.map_some]
          · exact dlines_append (dlines_ro (sym_info i) (dlines_body (hlc i) (hlab l (by simp)) d)) e2
          · refine ⟨?_, ?_⟩
            · intro s hs
              rcases List.mem_append.1 hs with hs | hs
              · exact info_plain i (lc i) l d s hs
              · exact e3.plain s hs
            · intro k t' d' lab hk hd' hlab'
              cases k with
              | zero =>
                cases hk; cases hlab'
                rw [hd] at hd'
                cases hd'
                exact ⟨[], S, rfl⟩
              | succ k =>
                obtain ⟨A, B, e⟩ := e3.each k t' d' lab hk hd' hlab'
                refine ⟨infoStmts i (lc i) l d ++ A, B, ?_⟩
                rw [e, List.append_assoc, show i + 1 + k = i + (k + 1) by omega]
        · cases h

theorem infos_get {gt : List Nat} {ms : List (List Int)} {T : List TypeInfo} (h : infos types gt ms = some T) {k : Nat} {x : TypeInfo}
    (hx : T[k]? = some x) : ∃ t d offs, gt[k]? = some t ∧ types[t]? = some d ∧ ms[k]? = some offs ∧ x = info d offs := by
  induction gt generalizing ms T k with
  | nil => rw [infos] at h; cases h; simp at hx; simp
  | cons t ts ih =>
    cases ms with
    | nil => rw [infos] at h; cases h; simp at hx; simp
    | cons m ms =>
      rw [infos] at h
      split at h
      · rename_i d hd
        obtain ⟨T', h1, h2⟩ := Option.map_eq_some_iff.1 h
        subst h2
        cases k with
        | zero => cases hx; exact ⟨t, d, m, rfl, hd, rfl, rfl⟩
        | succ k => exact ih h1 hx
      · cases h

theorem rootMaps_length {gt : List Nat} {tag : Nat} {et : Option Nat} {ms : List (List Int)} (h : rootMaps types gt tag et = some ms) :
    ms.length = gt.length := by
  induction gt generalizing tag et ms with
  | nil => rw [rootMaps] at h; cases h; rfl
  | cons t ts ih =>
    have go : ∀ {tag et os}, (rootMaps types ts tag et).map (os :: ·) = some ms → ms.length = (t :: ts).length := by
      intro tag et os h
      obtain ⟨ms', h1, h2⟩ := Option.map_eq_some_iff.1 h
      rw [← h2, List.length_cons, List.length_cons, ih h1]
    unfold rootMaps at h
    split at h
    · simp only at h
      split at h <;> exact go h
    · simp only at h
      generalize (if et = some t then tag else 0) = tg at h
      split at h
      · split at h
        · exact go h
        · cases h
      · cases h
    · exact go h
    · cases h

theorem rootMaps_struct {gt : List Nat} {tag : Nat} {et : Option Nat} {ms : List (List Int)} (h : rootMaps types gt tag et = some ms)
    {i t : Nat} {d : TypeD} {offs : List Int} (ht : gt[i]? = some t) (hd : types[t]? = some d) (ho : ms[i]? = some offs) :
    offs = [] ∨ info d offs = .struct offs := by
  induction gt generalizing tag et ms i with
  | nil => simp at ht
  | cons x ts ih =>
    have go : ∀ {tag et os}, (rootMaps types ts tag et).map (os :: ·) = some ms →
        (types[x]? = some d → os = [] ∨ info d os = .struct os) → offs = [] ∨ info d offs = .struct offs := by
      intro tag et os h h0
      obtain ⟨ms', h1, h2⟩ := Option.map_eq_some_iff.1 h
      subst h2
      cases i with
      | zero => cases ht; cases ho; exact h0 hd
      | succ i => exact ih h1 ht ho
    unfold rootMaps at h
    split at h
    · rename_i fs hx
      simp only at h
      split at h
      · exact go h (fun _ => .inl rfl)
      · exact go h (fun e => by rw [hx] at e; cases e; exact .inr rfl)
    · rename_i fs hx
      simp only at h
      generalize (if et = some x then tag else 0) = tg at h
      split at h
      · split at h
        · exact go h (fun e => by rw [hx] at e; cases e; exact .inr rfl)
        · cases h
      · cases h
    · exact go h (fun _ => .inl rfl)
    · cases h

theorem infos_length {gt : List Nat} {ms : List (List Int)} {T : List TypeInfo} (h : infos types gt ms = some T) (hl : ms.length = gt.length) :
    T.length = gt.length := by
  induction gt generalizing ms T with
  | nil => rw [infos] at h; cases h; rfl; simp
  | cons t ts ih =>
    cases ms with
    | nil => simp at hl
    | cons m ms =>
      rw [infos] at h
      split at h
      · obtain ⟨T', h1, h2⟩ := Option.map_eq_some_iff.1 h
        rw [← h2, List.length_cons, List.length_cons, ih h1 (by simpa using hl)]
      · cases h

/-- The statements of the array. -/
def arrayStmts (n : Nat) : List DStmt :=
  .quads [.num (goTag 2)] :: .label "typeInfoArray".toList :: .quads [.num (goTag n)] :: (List.range n).map (fun i => .quads [.sym (infoLabel i) 0])

theorem dlines_array (n : Nat) : dlines (infoArray n) = some (arrayStmts n) := by
  have : ∀ l : List Nat, dlines (l.map (fun i => addrSym (infoLabel i))) = some (l.map (fun i => DStmt.quads [.sym (infoLabel i) 0])) := by
    intro l
    induction l with
    | nil => rfl
    | cons i l ih => exact dlines_cons (dline_addr (sym_info i)) ih
  exact dlines_ro (by decide) (dlines_cons (dline_tagged _) (this _))

theorem array_plain (n : Nat) : ∀ s ∈ arrayStmts n, plainStmt s = true := by
  intro s hs
  simp only [arrayStmts, List.mem_cons, List.mem_map] at hs
  rcases hs with rfl | rfl | rfl | ⟨i, -, rfl⟩ <;> rfl

theorem array_words (sym : Txt → W64) (n : Nat) :
    wordsOf sym (arrayStmts n) = tagW 2 :: tagW n :: (List.range n).map (fun i => sym (infoLabel i)) := by
  have : ∀ l : List Nat, wordsOf sym (l.map (fun i => DStmt.quads [.sym (infoLabel i) 0])) = l.map (fun i => sym (infoLabel i)) := by
    intro l
    induction l with
    | nil => rfl
    | cons i l ih =>
      rw [List.map_cons, List.map_cons, wordsOf, ih]
      simp [dval]
  simp only [arrayStmts, wordsOf, this]
  rfl

end Clara.Data
