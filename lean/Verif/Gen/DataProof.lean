import Verif.Gen.Data
import Verif.Gen.GasData
import Verif.Gen.GasLemmas
/-
How the lines of the data are read and placed.
-/
namespace Clara.Data
open Clara.Gen hiding Txt
open Clara.Tbl Clara.Gas
open Clara.Lex (Bytes)

/-! ### Reading lines -/

theorem semis_one {t : Txt} (h : ';' ∉ t) : semis t = [t] := by
  induction t with
  | nil => rfl
  | cons c cs ih =>
    have h1 : c ≠ ';' := fun e => h (by simp [e])
    rw [semis, if_neg h1, ih (fun hc => h (List.mem_cons_of_mem _ hc))]

theorem dline_one {t : Txt} {s : DStmt} (h : ';' ∉ t) (hs : dstmt t = some s) : dline t = some [s] := by
  rw [dline, semis_one h]
  simp [hs]

theorem dlines_append {a b : List Txt} {x y : List DStmt} (ha : dlines a = some x) (hb : dlines b = some y) :
    dlines (a ++ b) = some (x ++ y) := by
  induction a generalizing x with
  | nil => cases ha; simpa using hb
  | cons l ls ih =>
    rw [dlines] at ha
    split at ha
    · rename_i p q hp hq
      cases ha
      rw [List.cons_append, dlines, hp, ih hq]
      simp
    · cases ha

theorem dlines_cons {l : Txt} {ls : List Txt} {s : DStmt} {ss : List DStmt} (h : dline l = some [s]) (hs : dlines ls = some ss) :
    dlines (l :: ls) = some (s :: ss) := by
  rw [dlines, h, hs]; rfl

theorem sym_semi {t : Txt} (h : isSym t = true) : ';' ∉ t := by
  obtain ⟨_, _, _, _, _, _, hx⟩ := isSym_iff h
  intro hc
  exact absurd (hx _ hc) (by decide)

theorem num_semi {t : Txt} (h : ∀ c ∈ t, numChar c = true) : ';' ∉ t := by
  intro hc
  exact absurd (h _ hc) (by decide)

theorem dline_label {s : Txt} (h : isSym s = true) : dline (label s) = some [.label s] := by
  have hs := sym_semi h
  refine dline_one (by simp [label, hs]) ?_
  obtain ⟨c, cs, e, _, _, _, hx⟩ := isSym_iff h
  have ht : trim (label s) = label s := by
    refine trim_clean ?_
    intro x hxx
    rcases List.mem_append.1 hxx with h' | h'
    · exact blank_quiet (quiet_sym (hx x h'))
    · rcases List.mem_singleton.1 h' with rfl
      decide
  unfold dstmt
  simp only [ht]
  rw [if_neg (by simp [label]), if_pos (by simp [label])]
  simp [label, h]

theorem directive_quads (a : List Txt) : directive ".8byte".toList a = (a.mapM dexpr).map .quads := by
  unfold directive
  rw [if_pos rfl]

/-- A directive with its operands. -/
theorem dstmt_ends {m a : Txt} (hm : m ≠ []) (hmb : ∀ c ∈ m, blank c = false) (ha : a ≠ [])
    (hab : ∀ c, a.head? = some c ∨ a.getLast? = some c → blank c = false) (hl : a.getLast? ≠ some ':') :
    dstmt (tab [m, a]) = directive m ((split 0 a).map trim) := by
  obtain ⟨x, u, v, y, e1, e2⟩ := ends ha
  obtain ⟨p, q, _, _, f1, _⟩ := ends hm
  have ht : trim (tab [m, a]) = m ++ ("   ".toList ++ a) := by
    have e : tab [m, a] = List.replicate 3 ' ' ++ (p :: (q ++ ("   ".toList ++ a)) ++ List.replicate 0 ' ') := by
      simp [tab, joinWith, f1]
    rw [e, trim_spaces (u := m ++ ("   ".toList ++ v)) (b := y) 3 0 (hmb p (by simp [f1])) (hab y (.inr (by simp [e2])))
      (by simp [f1, e2])]
    simp [f1]
  have hlast : (m ++ ("   ".toList ++ a)).getLast? ≠ some ':' := by
    rw [e2]
    simp only [← List.append_assoc, List.getLast?_append, List.getLast?_singleton, Option.some_or]
    intro h
    injection h with h
    exact hl (by rw [e2, h]; simp)
  have hmb' : ∀ c ∈ m, (!blank c) = true := fun c hc => by rw [hmb c hc]; rfl
  have t1 : (m ++ ("   ".toList ++ a)).takeWhile (fun c => !blank c) = m := by
    rw [List.takeWhile_append_of_pos hmb']
    have : ("   ".toList ++ a).takeWhile (fun c => !blank c) = [] := rfl
    rw [this, List.append_nil]
  have t2 : (m ++ ("   ".toList ++ a)).dropWhile (fun c => !blank c) = "   ".toList ++ a := by
    rw [List.dropWhile_append_of_pos hmb']
    rfl
  have t3 : trim ("   ".toList ++ a) = a := by
    have := trim_spaces (u := v) (b := y) 3 0 (hab x (.inl (by simp [e1]))) (hab y (.inr (by simp [e2]))) (by rw [← e1, e2])
    rw [← e1] at this
    simpa using this
  unfold dstmt
  simp only [ht]
  rw [if_neg (by simp [hm]), if_neg hlast, t1, t2, t3]
  rw [dargs, if_neg ha]

theorem dstmt_tab {m a : Txt} (hm : m ≠ []) (hmb : ∀ c ∈ m, blank c = false) (ha : a ≠ []) (hab : ∀ c ∈ a, blank c = false)
    (hl : ':' ∉ a) : dstmt (tab [m, a]) = directive m ((split 0 a).map trim) := by
  refine dstmt_ends hm hmb ha ?_ (fun h => hl (List.mem_of_getLast? h))
  rintro c (h | h)
  · exact hab c (List.mem_of_head? h)
  · exact hab c (List.mem_of_getLast? h)

theorem tab_semi {m a : Txt} (hm : ';' ∉ m) (ha : ';' ∉ a) : ';' ∉ tab [m, a] := by
  have h3 : ';' ∉ "   ".toList := by decide
  simp only [tab, joinWith, List.mem_append]
  rintro (h | h | h | h)
  · exact h3 h
  · exact hm h
  · exact h3 h
  · exact ha h

/-- A word. -/
theorem dline_quad {a : Txt} {e : DExpr} (ha : a ≠ []) (hc : ∀ c ∈ a, quiet c ∧ c ≠ ':' ∧ c ≠ ';') (he : dexpr a = some e) :
    dline (tab [".8byte".toList, a]) = some [.quads [e]] := by
  refine dline_one (tab_semi (by decide) (fun h => (hc _ h).2.2 rfl)) ?_
  have hq : ∀ c ∈ a, blank c = false := fun c h => blank_quiet (hc c h).1
  rw [dstmt_tab (by decide) (by decide) ha hq (fun h => (hc _ h).2.1 rfl), directive_quads]
  rw [split_one (part_quiet (fun c h => ⟨(hc c h).1.2.2.2.1, (hc c h).1.2.2.2.2⟩))]
  simp [trim_clean hq, he]

theorem itoa_ne (i : Int) : itoa i ≠ [] := by
  unfold itoa
  split
  · simp
  · obtain ⟨c, cs, e, -⟩ := dec_head i.natAbs
    simp [e]

theorem num_plain {c : Char} (h : numChar c = true) : quiet c ∧ c ≠ ':' ∧ c ≠ ';' :=
  ⟨quiet_num h, by rintro rfl; exact absurd h (by decide), by rintro rfl; exact absurd h (by decide)⟩

theorem sym_plain {c : Char} (h : symChar c = true) : quiet c ∧ c ≠ ':' ∧ c ≠ ';' :=
  ⟨quiet_sym h, by rintro rfl; exact absurd h (by decide), by rintro rfl; exact absurd h (by decide)⟩

theorem dexpr_itoa (i : Int) : dexpr (itoa i) = some (.num i) := by
  simp [dexpr, immediate, integer_itoa]

theorem dline_int (i : Int) : dline (tab [".8byte".toList, itoa i]) = some [.quads [.num i]] :=
  dline_quad (itoa_ne i) (fun c h => num_plain (itoa_num i c h)) (dexpr_itoa i)

theorem dline_tagged (i : Int) : dline (taggedInt i) = some [.quads [.num (goTag i)]] := dline_int _

theorem dexpr_sym {s : Txt} (h : isSym s = true) : dexpr s = some (.sym s 0) := by
  simp [dexpr, immediate, integer_sym h, h]

theorem dline_addr {s : Txt} (h : isSym s = true) : dline (addrLabel s) = some [.quads [.sym s 0]] := by
  obtain ⟨c, cs, e, _, _, _, hx⟩ := isSym_iff h
  exact dline_quad (by simp [e]) (fun c hc => sym_plain (hx c hc)) (dexpr_sym h)

theorem dexpr_sym8 {s : Txt} (h : isSym s = true) : dexpr (s ++ "+8".toList) = some (.sym s 8) := by
  obtain ⟨g1, -⟩ := good_addr8 h
  have : operand ('$' :: (s ++ "+8".toList)) = immediate (s ++ "+8".toList) := rfl
  rw [this] at g1
  rw [dexpr, g1]

theorem dline_addr8 {s : Txt} (h : isSym s = true) : dline (addrLabel (s ++ "+8".toList)) = some [.quads [.sym s 8]] := by
  obtain ⟨c, cs, e, _, _, _, hx⟩ := isSym_iff h
  refine dline_quad (by simp [e]) (fun c hc => ?_) (dexpr_sym8 h)
  rcases List.mem_append.1 hc with hc | hc
  · exact sym_plain (hx c hc)
  · have : ∀ c ∈ "+8".toList, quiet c ∧ c ≠ ':' ∧ c ≠ ';' := by decide
    exact this c hc

/-! ### The words of a map -/

theorem split_join {ts : List Txt} (hn : ts ≠ []) (h : ∀ t ∈ ts, Part t) : split 0 (joinWith [','] ts) = ts := by
  induction ts with
  | nil => exact absurd rfl hn
  | cons t ts ih =>
    cases ts with
    | nil => exact split_one (h t (by simp))
    | cons u us =>
      show split 0 (t ++ ',' :: joinWith [','] (u :: us)) = _
      rw [split_comma (h t (by simp)), ih (by simp) (fun x hx => h x (List.mem_cons_of_mem _ hx))]

theorem mem_join {sep : Txt} {ts : List Txt} {c : Char} (h : c ∈ joinWith sep ts) : c ∈ sep ∨ ∃ t ∈ ts, c ∈ t := by
  induction ts with
  | nil => cases h
  | cons t ts ih =>
    cases ts with
    | nil => exact .inr ⟨t, by simp, h⟩
    | cons u us =>
      rcases List.mem_append.1 h with h | h
      · exact .inr ⟨t, by simp, h⟩
      · rcases List.mem_append.1 h with h | h
        · exact .inl h
        · rcases ih h with h | ⟨x, hx, h⟩
          · exact .inl h
          · exact .inr ⟨x, List.mem_cons_of_mem _ hx, h⟩

theorem join_ne {sep : Txt} {ts : List Txt} (hn : ts ≠ []) (h : ∀ t ∈ ts, t ≠ []) : joinWith sep ts ≠ [] := by
  cases ts with
  | nil => exact absurd rfl hn
  | cons t ts =>
    cases ts with
    | nil => exact h t (by simp)
    | cons u us => simp [joinWith, h t (by simp)]

theorem mapM_nums (is : List Int) : (is.map itoa).mapM dexpr = some (is.map .num) := by
  induction is with
  | nil => rfl
  | cons i is ih => simp [dexpr_itoa, ih]

theorem dline_ints (is : List Int) : dline (tab [".8byte".toList, joinWith [','] (is.map itoa)]) = some [.quads (is.map .num)] := by
  by_cases hn : is = []
  · subst hn; decide +kernel
  have hn' : is.map itoa ≠ [] := by simpa using hn
  have hne : joinWith [','] (is.map itoa) ≠ [] := join_ne hn' (by
    intro t ht
    obtain ⟨i, -, rfl⟩ := List.mem_map.1 ht
    exact itoa_ne i)
  have hch : ∀ c ∈ joinWith [','] (is.map itoa), c = ',' ∨ numChar c = true := by
    intro c hc
    rcases mem_join hc with h | ⟨t, ht, h⟩
    · exact .inl (by simpa using h)
    · obtain ⟨i, -, rfl⟩ := List.mem_map.1 ht
      exact .inr (itoa_num i c h)
  refine dline_one (tab_semi (by decide) ?_) ?_
  · intro h
    rcases hch _ h with h | h
    · cases h
    · exact absurd h (by decide)
  rw [dstmt_tab (by decide) (by decide) hne, directive_quads]
  · rw [split_join hn' (fun t ht => by
      obtain ⟨i, -, rfl⟩ := List.mem_map.1 ht
      exact part_of_quiet (fun c hc => quiet_num (itoa_num i c hc)))]
    have : (is.map itoa).map trim = is.map itoa := by
      rw [List.map_map]
      refine List.map_congr_left (fun i _ => ?_)
      exact trim_clean (fun c hc => blank_quiet (quiet_num (itoa_num i c hc)))
    rw [this, mapM_nums]
    rfl
  · intro c hc
    rcases hch c hc with rfl | h
    · decide
    · exact blank_quiet (quiet_num h)
  · intro hc
    rcases hch _ hc with h | h
    · cases h
    · exact absurd h (by decide)

def spacerStmts : List DStmt := List.replicate 123 .none

theorem dlines_spacer : dlines spacer = some spacerStmts := by decide +kernel

/-- The statements of a map. -/
def mapStmts (name : Txt) (offs : List Int) : List DStmt :=
  .label name :: .quads [.num (goTag offs.length)] :: .quads (offs.map (fun o => .num (goTag o))) :: spacerStmts

theorem dlines_gcMap {name : Txt} (h : isSym name = true) (offs : List Int) : dlines (gcMap name offs) = some (mapStmts name offs) := by
  have e := dline_ints (offs.map goTag)
  rw [List.map_map, List.map_map] at e
  exact dlines_cons (dline_label h) (dlines_cons (dline_tagged _) (dlines_cons e dlines_spacer))

theorem dlines_ro {name : Txt} (h : isSym name = true) {body : List Txt} {ss : List DStmt} (hb : dlines body = some ss) :
    dlines (roSymbol name body) = some (.quads [.num (goTag 2)] :: .label name :: ss) :=
  dlines_cons (dline_tagged _) (dlines_cons (dline_label h) hb)

theorem dline_data : dline (tab [".data".toList]) = some [.sect true] := by decide +kernel
theorem dline_text : dline (tab [".text".toList]) = some [.sect false] := by decide +kernel
theorem dline_raw_data : dline ".data".toList = some [.sect true] := by decide +kernel
theorem dline_align : dline (tab [".align".toList, "8".toList]) = some [.align 8] := by decide +kernel

theorem directive_info (m : Txt) (h : m = ".globl".toList ∨ m = ".type".toList) (a : List Txt) : directive m a = some .none := by
  unfold directive
  rcases h with rfl | rfl <;> (repeat rw [if_neg (by decide)]) <;> rw [if_pos (by decide)]

theorem dline_globl {s : Txt} (h : isSym s = true) : dline (tab [".globl".toList, s]) = some [.none] := by
  obtain ⟨c, cs, e, _, _, _, hx⟩ := isSym_iff h
  refine dline_one (tab_semi (by decide) (sym_semi h)) ?_
  rw [dstmt_tab (by decide) (by decide) (by simp [e]) (fun c hc => blank_quiet (quiet_sym (hx c hc)))
    (fun hc => (sym_plain (hx _ hc)).2.1 rfl)]
  exact directive_info _ (.inl rfl) _

theorem dline_type {s : Txt} (h : isSym s = true) : dline (tab [".type".toList, s ++ ", @function".toList]) = some [.none] := by
  obtain ⟨c, cs, e, _, _, _, hx⟩ := isSym_iff h
  refine dline_one (tab_semi (by decide) ?_) ?_
  · intro hc
    rcases List.mem_append.1 hc with hc | hc
    · exact sym_semi h hc
    · revert hc; decide
  have hlast : (s ++ ", @function".toList).getLast? = some 'n' := by
    rw [List.getLast?_append]
    rfl
  rw [dstmt_ends (by decide) (by decide) (by simp [e])]
  · exact directive_info _ (.inr rfl) _
  · rintro x (hx' | hx')
    · rw [e] at hx'
      simp only [List.cons_append, List.head?_cons, Option.some.injEq] at hx'
      subst hx'
      exact blank_quiet (quiet_sym (hx c (by simp [e])))
    · rw [hlast] at hx'
      cases hx'
      decide
  · rw [hlast]; decide

end Clara.Data
