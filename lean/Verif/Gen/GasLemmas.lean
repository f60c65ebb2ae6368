import Verif.Gen.Text
import Verif.Gen.Gas
import Verif.Gen.Valid
/-
Reading what the compiler writes.
-/
namespace Clara.Gas
open Clara.Gen

/-! ### Decimal numbers -/

theorem digitVal_digitChar {d : Nat} (h : d < 10) : digitVal (Nat.digitChar d) = some d := by
  have : ∀ d : Fin 10, digitVal (Nat.digitChar d.val) = some d.val := by decide
  exact this ⟨d, h⟩

theorem digits_append (b : Nat) (xs ys : Txt) (n : Nat) : digits b n (xs ++ ys) = (digits b n xs).bind (fun m => digits b m ys) := by
  induction xs generalizing n with
  | nil => rfl
  | cons c cs ih =>
    rw [List.cons_append, digits, digits]
    cases digitVal c with
    | none => rfl
    | some d =>
      by_cases h : d < b
      · simp only [if_pos h]; exact ih _
      · simp only [if_neg h]; rfl

theorem digits_dec (n : Nat) : digits 10 0 (dec n) = some n := by
  induction n using Nat.strongRecOn with
  | _ n ih =>
    unfold dec at ih ⊢
    rw [Nat.toDigits_eq_if (by decide)]
    split
    · rename_i h
      simp only [digits, digitVal_digitChar h, if_pos h]
      simp
    · rename_i h
      rw [digits_append, ih (n / 10) (by omega)]
      have hm : n % 10 < 10 := Nat.mod_lt _ (by decide)
      simp only [Option.bind_some, digits, digitVal_digitChar hm, if_pos hm]
      congr 1; omega

theorem dec_head (n : Nat) : ∃ c cs, dec n = c :: cs ∧ c.isDigit = true ∧ (c = '0' → n = 0 ∧ cs = []) := by
  induction n using Nat.strongRecOn with
  | _ n ih =>
    unfold dec at ih ⊢
    rw [Nat.toDigits_eq_if (by decide)]
    split
    · rename_i h
      refine ⟨_, _, rfl, ?_, ?_⟩
      · have : ∀ d : Fin 10, (Nat.digitChar d.val).isDigit = true := by decide
        exact this ⟨n, h⟩
      · have : ∀ d : Fin 10, Nat.digitChar d.val = '0' → d.val = 0 := by decide
        exact fun e => ⟨this ⟨n, h⟩ e, rfl⟩
    · rename_i h
      obtain ⟨c, cs, e, h1, h2⟩ := ih (n / 10) (by omega)
      rw [e]
      refine ⟨c, cs ++ _, rfl, h1, ?_⟩
      intro hc
      exact absurd (h2 hc).1 (by omega)

theorem dec_digit (n : Nat) : ∀ c ∈ dec n, c.isDigit = true := fun _ h => Nat.isDigit_of_mem_toDigits (by decide) (by decide) h

theorem natural_dec (n : Nat) : natural (dec n) = some n := by
  obtain ⟨c, cs, e, h1, h2⟩ := dec_head n
  by_cases hc : c = '0'
  · obtain ⟨rfl, rfl⟩ := h2 hc
    rfl
  · have := digits_dec n
    rw [e] at this ⊢
    unfold natural
    split
    · rename_i h; exact absurd h (by simp)
    · rename_i h; injection h with h _; exact absurd h hc
    · rename_i h; injection h with h _; exact absurd h hc
    · exact this

theorem integer_itoa (i : Int) : integer (itoa i) = some i := by
  unfold itoa
  split
  · rw [integer, natural_dec]
    have : -(i.natAbs : Int) = i := by omega
    exact congrArg some this
  · obtain ⟨c, cs, e, h1, _⟩ := dec_head i.natAbs
    have : integer (dec i.natAbs) = (natural (dec i.natAbs)).map (fun n => (n : Int)) := by
      rw [e]
      unfold integer
      split
      · rename_i h; injection h with h _; subst h; exact absurd h1 (by decide)
      · rfl
    rw [this, natural_dec]
    have : (i.natAbs : Int) = i := by omega
    exact congrArg some this

/-! ### Characters -/

/-- Letters, digits and the sign. -/
def numChar (c : Char) : Bool := c.isAlphanum || c == '-'

/-- Characters that mean nothing to the reader of a line. -/
def quiet (c : Char) : Prop := c ≠ ' ' ∧ c ≠ '\t' ∧ c ≠ '\n' ∧ c ≠ ',' ∧ c ≠ '(' ∧ c ≠ ')'

instance (c : Char) : Decidable (quiet c) := inferInstanceAs (Decidable (_ ∧ _))

theorem quiet_num {c : Char} (h : numChar c = true) : quiet c := by
  refine ⟨?_, ?_, ?_, ?_, ?_, ?_⟩ <;> rintro rfl <;> exact absurd h (by decide)

theorem quiet_sym {c : Char} (h : symChar c = true) : quiet c := by
  refine ⟨?_, ?_, ?_, ?_, ?_, ?_⟩ <;> rintro rfl <;> exact absurd h (by decide)

theorem num_digit {c : Char} (h : c.isDigit = true) : numChar c = true := by
  unfold numChar Char.isAlphanum
  rw [h]; simp

theorem itoa_num (i : Int) : ∀ c ∈ itoa i, numChar c = true := by
  intro c h
  unfold itoa at h
  split at h
  · rcases List.mem_cons.1 h with rfl | h
    · decide
    · exact num_digit (dec_digit _ _ h)
  · exact num_digit (dec_digit _ _ h)

theorem isSym_iff {t : Txt} (h : isSym t = true) :
    ∃ c cs, t = c :: cs ∧ symChar c = true ∧ c.isDigit = false ∧ c ≠ '$' ∧ ∀ x ∈ t, symChar x = true := by
  cases t with
  | nil => exact absurd h (by simp [isSym])
  | cons c cs =>
    simp only [isSym, Bool.and_eq_true, Bool.not_eq_true', bne_iff_ne, List.all_eq_true] at h
    obtain ⟨h1, h2, h3, h4⟩ := h
    refine ⟨c, cs, rfl, h1, h2, h3, ?_⟩
    intro x hx
    rcases List.mem_cons.1 hx with rfl | hx
    · exact h1
    · exact h4 x hx

/-! ### Blanks -/

theorem trimL_of {c : Char} {t : Txt} (h : blank c = false) : trimL (c :: t) = c :: t := by
  rw [trimL, List.dropWhile_cons_of_neg (by simp [h])]

theorem trimL_spaces (n : Nat) (t : Txt) : trimL (List.replicate n ' ' ++ t) = trimL t := by
  induction n with
  | zero => rfl
  | succ n ih =>
    rw [List.replicate_succ, List.cons_append, trimL, List.dropWhile_cons_of_pos (by decide)]
    exact ih

/-- Text that begins and ends with other characters, between spaces. -/
theorem trim_spaces {a b : Char} {t u : Txt} (n m : Nat) (ha : blank a = false) (hb : blank b = false) (e : a :: t = u ++ [b]) :
    trim (List.replicate n ' ' ++ (a :: t ++ List.replicate m ' ')) = a :: t := by
  unfold trim
  rw [trimL_spaces, List.cons_append, trimL_of ha, ← List.cons_append, List.reverse_append, List.reverse_replicate, trimL_spaces, e,
    List.reverse_append]
  show (trimL (b :: u.reverse)).reverse = _
  rw [trimL_of hb]
  simp

theorem blank_quiet {c : Char} (h : quiet c) : blank c = false := by
  obtain ⟨h1, h2, _⟩ := h
  unfold blank
  simp [h1, h2]

/-! ### Parts of operands -/

def push (t : Txt) : List Txt → List Txt
  | [] => [t]
  | x :: xs => (t ++ x) :: xs

theorem split_ne (d : Nat) (t : Txt) : split d t ≠ [] := by
  cases t with
  | nil => simp [split]
  | cons c cs =>
    rw [split]
    split
    · simp
    · split <;> simp

theorem push_push (a b : Txt) {l : List Txt} (h : l ≠ []) : push a (push b l) = push (a ++ b) l := by
  cases l with
  | nil => exact absurd rfl h
  | cons x xs => simp [push]

theorem split_step {d d' : Nat} {c : Char} {u : Txt} (h : ¬ (c = ',' ∧ d = 0))
    (hd : (if c = '(' then d + 1 else if c = ')' then d - 1 else d) = d') : split d (c :: u) = push [c] (split d' u) := by
  rw [split, if_neg h, hd]
  have := split_ne d' u
  cases hs : split d' u with
  | nil => exact absurd hs this
  | cons x xs => rfl

theorem split_inner (d : Nat) (t u : Txt) (h : ∀ c ∈ t, c ≠ '(' ∧ c ≠ ')') : split (d + 1) (t ++ u) = push t (split (d + 1) u) := by
  induction t with
  | nil =>
    have := split_ne (d + 1) u
    show split (d + 1) u = _
    cases hs : split (d + 1) u with
    | nil => exact absurd hs this
    | cons x xs => rfl
  | cons c cs ih =>
    obtain ⟨h1, h2⟩ := h c (by simp)
    rw [List.cons_append, split_step (d' := d + 1) (by omega) (by rw [if_neg h1, if_neg h2]), ih (fun x hx => h x (by simp [hx])),
      push_push _ _ (split_ne _ _)]
    rfl

/-- Text that is one part. -/
def Part (t : Txt) : Prop := ∀ d u, split d (t ++ u) = push t (split d u)

theorem part_nil : Part [] := by
  intro d u
  have := split_ne d u
  show split d u = _
  cases hs : split d u with
  | nil => exact absurd hs this
  | cons x xs => rfl

theorem Part.append {a b : Txt} (ha : Part a) (hb : Part b) : Part (a ++ b) := by
  intro d u
  rw [List.append_assoc, ha, hb, push_push _ _ (split_ne _ _)]

theorem part_quiet {t : Txt} (h : ∀ c ∈ t, c ≠ ',' ∧ c ≠ '(' ∧ c ≠ ')') : Part t := by
  induction t with
  | nil => exact part_nil
  | cons c cs ih =>
    intro d u
    obtain ⟨h1, h2, h3⟩ := h c (by simp)
    rw [List.cons_append, split_step (d' := d) (fun k => h1 k.1) (by rw [if_neg h2, if_neg h3]), ih (fun x hx => h x (by simp [hx])) d u,
      push_push _ _ (split_ne _ _)]
    rfl

theorem part_paren {t : Txt} (h : ∀ c ∈ t, c ≠ '(' ∧ c ≠ ')') : Part ('(' :: (t ++ [')'])) := by
  intro d u
  rw [List.cons_append, split_step (d' := d + 1) (by simp) (by simp), List.append_assoc, split_inner d t _ h]
  show push _ (push t (split (d + 1) (')' :: u))) = _
  rw [split_step (d := d + 1) (d' := d) (c := ')') (by simp) (by simp), push_push _ _ (split_ne _ _ |> fun h => by
    cases hs : split d u with
    | nil => exact absurd hs h
    | cons x xs => simp [push]), push_push _ _ (split_ne _ _)]
  simp

/-! ### Operands -/

/-- An operand as it is read, and what the reader of lines needs to know about it. -/
structure Good (t : Txt) (g : GOp) : Prop where
  op : operand t = some g
  ne : t ≠ []
  chars : ∀ c ∈ t, c ≠ ' ' ∧ c ≠ '\t' ∧ c ≠ '\n'
  part : Part t

theorem natural_none {c : Char} {cs : Txt} (h : c.isDigit = false) (hh : ∀ d, digitVal c = some d → 10 ≤ d) : natural (c :: cs) = none := by
  have h0 : c ≠ '0' := by rintro rfl; exact absurd h (by decide)
  unfold natural
  split
  · rfl
  · rename_i e; injection e with e _; exact absurd e h0
  · rename_i e; injection e with e _; exact absurd e h0
  · rw [digits]
    cases hd : digitVal c with
    | none => rfl
    | some d => exact if_neg (Nat.not_lt.2 (hh d hd))

theorem digit_big {c : Char} (h : c.isDigit = false) : ∀ d, digitVal c = some d → 10 ≤ d := by
  intro d hd
  unfold digitVal at hd
  split at hd
  · rename_i k
    exfalso
    have : c.isDigit = true := by
      unfold Char.isDigit
      simp only [Bool.and_eq_true, decide_eq_true_eq]
      exact ⟨k.1, k.2⟩
    rw [h] at this
    exact absurd this (by decide)
  · split at hd
    · rename_i k; injection hd with hd; omega
    · split at hd
      · rename_i k; injection hd with hd; omega
      · cases hd

theorem integer_sym {t : Txt} (h : isSym t = true) : integer t = none := by
  obtain ⟨c, cs, rfl, h1, h2, _⟩ := isSym_iff h
  have hm : c ≠ '-' := by rintro rfl; exact absurd h1 (by decide)
  unfold integer
  split
  · rename_i e; injection e with e _; exact absurd e hm
  · rw [natural_none h2 (digit_big h2)]; rfl

theorem place_sym {t : Txt} (h : isSym t = true) : place t = some (.name t) := by
  obtain ⟨c, cs, e, h1, h2, _, h4⟩ := isSym_iff h
  have hp : c ≠ '%' := by rintro rfl; exact absurd h1 (by decide)
  have hd : t.dropWhile (fun x => decide (x ≠ '(')) = [] := by
    have hq : ∀ x ∈ t, decide (x ≠ '(') = true := fun x hx => decide_eq_true (quiet_sym (h4 x hx)).2.2.2.2.1
    have := List.dropWhile_append_of_pos (l₂ := []) hq
    rwa [List.append_nil] at this
  unfold place
  split
  · injection e with e _; exact absurd e.symm hp
  · simp only [hd, h, if_true]

theorem part_of_quiet {t : Txt} (h : ∀ c ∈ t, quiet c) : Part t :=
  part_quiet (fun c hc => ⟨(h c hc).2.2.2.1, (h c hc).2.2.2.2.1, (h c hc).2.2.2.2.2⟩)

theorem good_of_quiet {t : Txt} {g : GOp} (ho : operand t = some g) (hn : t ≠ []) (h : ∀ c ∈ t, quiet c) : Good t g :=
  ⟨ho, hn, fun c hc => ⟨(h c hc).1, (h c hc).2.1, (h c hc).2.2.1⟩, part_of_quiet h⟩

theorem operand_place {t : Txt} (h : ∀ c cs, t = c :: cs → c ≠ '$' ∧ c ≠ '*') : operand t = place t := by
  unfold operand
  split
  · exact absurd rfl (h _ _ rfl).1
  · exact absurd rfl (h _ _ rfl).2
  · rfl

theorem good_name {t : Txt} (h : isSym t = true) : Good t (.name t) := by
  obtain ⟨c, cs, e, h1, h2, h3, h4⟩ := isSym_iff h
  refine good_of_quiet ?_ (by rw [e]; simp) (fun x hx => quiet_sym (h4 x hx))
  rw [operand_place, place_sym h]
  intro c' cs' e'
  rw [e] at e'
  injection e' with e1 _
  subst e1
  exact ⟨h3, by rintro rfl; exact absurd h1 (by decide)⟩

theorem good_imm {t : Txt} {i : Int} (h : integer t = some i) (hc : ∀ c ∈ t, numChar c = true) : Good ('$' :: t) (.imm i) := by
  refine good_of_quiet ?_ (by simp) ?_
  · show immediate t = _
    unfold immediate
    rw [h]
  · intro c hm
    rcases List.mem_cons.1 hm with rfl | hm
    · decide
    · exact quiet_num (hc c hm)

theorem good_addr {t : Txt} (h : isSym t = true) : Good ('$' :: t) (.addr t 0) := by
  obtain ⟨_, _, _, _, _, _, h4⟩ := isSym_iff h
  refine good_of_quiet ?_ (by simp) ?_
  · show immediate t = _
    unfold immediate
    rw [integer_sym h]
    simp only [h, if_true]
  · intro c hm
    rcases List.mem_cons.1 hm with rfl | hm
    · decide
    · exact quiet_sym (h4 c hm)

theorem good_addr8 {t : Txt} (h : isSym t = true) : Good ('$' :: (t ++ "+8".toList)) (.addr t 8) := by
  obtain ⟨c, cs, e, h1, h2, _, h4⟩ := isSym_iff h
  have hp : ∀ x ∈ t, decide (x ≠ '+') = true := by
    intro x hx
    refine decide_eq_true ?_
    rintro rfl
    exact absurd (h4 _ hx) (by decide)
  have hm : c ≠ '-' := by rintro rfl; exact absurd h1 (by decide)
  have hi : integer (t ++ "+8".toList) = none := by
    rw [e, List.cons_append]
    unfold integer
    split
    · rename_i e; injection e with e _; exact absurd e hm
    · rw [natural_none h2 (digit_big h2)]; rfl
  have hs : isSym (t ++ "+8".toList) = false := by
    rw [Bool.eq_false_iff]
    intro hb
    obtain ⟨_, _, _, _, _, _, k⟩ := isSym_iff hb
    exact absurd (k '+' (by simp)) (by decide)
  refine good_of_quiet ?_ (by simp) ?_
  · show immediate _ = _
    unfold immediate
    rw [hi]
    have e1 : (t ++ "+8".toList).dropWhile (fun x => decide (x ≠ '+')) = "+8".toList := by
      rw [List.dropWhile_append_of_pos hp]; decide
    have e2 : (t ++ "+8".toList).takeWhile (fun x => decide (x ≠ '+')) = t := by
      rw [List.takeWhile_append_of_pos hp]
      have : "+8".toList.takeWhile (fun x => decide (x ≠ '+')) = [] := by decide
      rw [this, List.append_nil]
    simp only [hs, e1, e2]
    simp only [h]
    rfl
  · intro x hx
    rcases List.mem_cons.1 hx with rfl | hx
    · decide
    · rcases List.mem_append.1 hx with hx | hx
      · exact quiet_sym (h4 x hx)
      · have : ∀ x ∈ "+8".toList, quiet x := by decide
        exact this x hx

theorem good_reg (r : Reg) : Good (PReg.full r).name (.reg r) := by
  refine good_of_quiet ?_ ?_ ?_ <;> cases r <;> decide +kernel

theorem trim_clean {t : Txt} (h : ∀ c ∈ t, blank c = false) : trim t = t := by
  cases t with
  | nil => rfl
  | cons a u =>
    rcases List.eq_nil_or_concat (a :: u) with e | ⟨v, b, e⟩
    · cases e
    · rw [List.concat_eq_append] at e
      have := trim_spaces (u := v) (b := b) 0 0 (h a (by simp)) (h b (by rw [e]; simp)) e
      simpa using this

theorem split_comma {t : Txt} (h : Part t) (u : Txt) : split 0 (t ++ ',' :: u) = t :: split 0 u := by
  rw [h]
  have : split 0 (',' :: u) = [] :: split 0 u := by rw [split, if_pos ⟨rfl, rfl⟩]
  rw [this]
  simp [push]

theorem split_one {t : Txt} (h : Part t) : split 0 t = [t] := by
  have := h 0 []
  rw [List.append_nil] at this
  rw [this]
  simp [split, push]

theorem reg_quiet (r : Reg) : ∀ c ∈ (PReg.full r).name, quiet c := by cases r <;> decide +kernel
theorem reg_read (r : Reg) : register (PReg.full r).name = some r := by cases r <;> decide +kernel
theorem reg_trim (r : Reg) : trim (PReg.full r).name = (PReg.full r).name := by cases r <;> decide +kernel

/-- What is between the parentheses. -/
def inner (a : MemOp) : Txt :=
  (PReg.full a.base).name ++ ((match a.idx with | some r => ',' :: (PReg.full r).name | none => []) ++
    (if a.scale > 1 then ',' :: itoa a.scale else []))

theorem natural_itoa (n : Nat) : natural (itoa n) = some n := by
  have : itoa (n : Int) = dec n := by
    unfold itoa
    rw [if_neg (by omega)]
    rfl
  rw [this, natural_dec]

theorem inner_read (a : MemOp) (h : a.valid = true) : address a.disp ((split 0 (inner a)).map trim) = some a := by
  obtain ⟨b, i, s, d⟩ := a
  simp only [MemOp.valid, Bool.and_eq_true] at h
  obtain ⟨_, h⟩ := h
  have pq : ∀ r, Part (PReg.full r).name := fun r => part_of_quiet (reg_quiet r)
  cases i with
  | none =>
    have hs : s = 1 := by simpa using h
    subst hs
    simp only [inner]
    rw [if_neg (by decide)]
    simp only [List.append_nil]
    rw [split_one (pq b)]
    simp only [List.map_cons, List.map_nil, reg_trim, address, reg_read]
    rfl
  | some r =>
    simp only [Bool.and_eq_true, Bool.or_eq_true, beq_iff_eq] at h
    obtain ⟨_, h⟩ := h
    simp only [inner]
    by_cases hs : s > 1
    · rw [if_pos hs, List.cons_append, split_comma (pq b), split_comma (pq r),
        split_one (part_of_quiet (fun c hc => quiet_num (itoa_num _ c hc)))]
      simp only [List.map_cons, List.map_nil, reg_trim, address, reg_read]
      rw [trim_clean (fun c hc => blank_quiet (quiet_num (itoa_num _ c hc)))]
      simp only [natural_itoa]
      rfl
    · have hs1 : s = 1 := by omega
      subst hs1
      rw [if_neg hs, List.append_nil, split_comma (pq b), split_one (pq r)]
      simp only [List.map_cons, List.map_nil, reg_trim, address, reg_read]
      rfl

theorem inner_chars (a : MemOp) : ∀ c ∈ inner a, c ≠ ' ' ∧ c ≠ '\t' ∧ c ≠ '\n' ∧ c ≠ '(' ∧ c ≠ ')' := by
  have q : ∀ {c}, quiet c → c ≠ ' ' ∧ c ≠ '\t' ∧ c ≠ '\n' ∧ c ≠ '(' ∧ c ≠ ')' := fun h => ⟨h.1, h.2.1, h.2.2.1, h.2.2.2.2⟩
  intro c h
  rcases List.mem_append.1 h with h | h
  · exact q (reg_quiet _ c h)
  · rcases List.mem_append.1 h with h | h
    · split at h
      · rcases List.mem_cons.1 h with rfl | h
        · decide
        · exact q (reg_quiet _ c h)
      · cases h
    · split at h
      · rcases List.mem_cons.1 h with rfl | h
        · decide
        · exact q (quiet_num (itoa_num _ c h))
      · cases h

/-- Displacement. -/
def dispTxt (a : MemOp) : Txt := if a.disp ≠ 0 then itoa a.disp else []

theorem disp_num (a : MemOp) : ∀ c ∈ dispTxt a, numChar c = true := by
  intro c h
  unfold dispTxt at h
  split at h
  · exact itoa_num _ c h
  · cases h

theorem disp_read (a : MemOp) : displacement (dispTxt a) = some a.disp := by
  unfold dispTxt displacement
  by_cases h : a.disp = 0
  · simp [h]
  · rw [if_pos h]
    have : itoa a.disp ≠ [] := by
      intro e
      have := integer_itoa a.disp
      rw [e] at this
      cases this
    rw [if_neg this, integer_itoa]

theorem mem_text (a : MemOp) (ind : Bool) :
    (a.pop ind).print = (if ind then ['*'] else []) ++ (dispTxt a ++ '(' :: (inner a ++ [')'])) := by
  simp only [MemOp.pop, POp.print, dispTxt, inner, if_true, List.append_assoc]
  rfl

theorem place_mem (a : MemOp) (h : a.valid = true) : place (dispTxt a ++ '(' :: (inner a ++ [')'])) = some (.mem a) := by
  have hd : ∀ x ∈ dispTxt a, decide (x ≠ '(') = true := fun x hx => decide_eq_true (quiet_num (disp_num a x hx)).2.2.2.2.1
  have hi : ∀ x ∈ inner a, decide (x ≠ ')') = true := fun x hx => decide_eq_true (inner_chars a x hx).2.2.2.2
  have e1 : (dispTxt a ++ '(' :: (inner a ++ [')'])).takeWhile (fun x => decide (x ≠ '(')) = dispTxt a := by
    rw [List.takeWhile_append_of_pos hd]; simp
  have e2 : (dispTxt a ++ '(' :: (inner a ++ [')'])).dropWhile (fun x => decide (x ≠ '(')) = '(' :: (inner a ++ [')']) := by
    rw [List.dropWhile_append_of_pos hd]; simp
  have e3 : (inner a ++ [')']).takeWhile (fun x => decide (x ≠ ')')) = inner a := by
    rw [List.takeWhile_append_of_pos hi]; simp
  have e4 : (inner a ++ [')']).dropWhile (fun x => decide (x ≠ ')')) = [')'] := by
    rw [List.dropWhile_append_of_pos hi]; simp
  unfold place
  split
  · rename_i n e
    exfalso
    cases hz : dispTxt a with
    | nil => rw [hz] at e; injection e with e _; exact absurd e (by decide)
    | cons c cs =>
      rw [hz] at e; injection e with e _
      subst e
      exact absurd (disp_num a '%' (by rw [hz]; simp)) (by decide)
  · simp only [e1, e2, e3, e4, if_true, disp_read]
    have := inner_read a h
    simp only [Option.bind_eq_bind, Option.bind_some, this]
    rfl

theorem mem_chars (a : MemOp) : ∀ c ∈ dispTxt a ++ '(' :: (inner a ++ [')']), c ≠ ' ' ∧ c ≠ '\t' ∧ c ≠ '\n' := by
  intro c h
  rcases List.mem_append.1 h with h | h
  · have := quiet_num (disp_num a c h)
    exact ⟨this.1, this.2.1, this.2.2.1⟩
  · rcases List.mem_cons.1 h with rfl | h
    · decide
    · rcases List.mem_append.1 h with h | h
      · have := inner_chars a c h
        exact ⟨this.1, this.2.1, this.2.2.1⟩
      · rcases List.mem_singleton.1 h with rfl
        decide

theorem mem_part (a : MemOp) : Part (dispTxt a ++ '(' :: (inner a ++ [')'])) :=
  (part_of_quiet (fun c hc => quiet_num (disp_num a c hc))).append
    (part_paren (fun c hc => ⟨(inner_chars a c hc).2.2.2.1, (inner_chars a c hc).2.2.2.2⟩))

theorem good_mem (a : MemOp) (h : a.valid = true) : Good (a.pop).print (.mem a) := by
  rw [mem_text]
  simp only [Bool.false_eq_true, if_false, List.nil_append]
  refine ⟨?_, by simp, mem_chars a, mem_part a⟩
  rw [operand_place, place_mem a h]
  intro c cs e
  cases hz : dispTxt a with
  | nil => rw [hz] at e; injection e with e _; subst e; decide
  | cons c' cs' =>
    rw [hz] at e; injection e with e _
    have := disp_num a c' (by rw [hz]; simp)
    rw [e] at this
    exact ⟨by rintro rfl; exact absurd this (by decide), by rintro rfl; exact absurd this (by decide)⟩

theorem good_star_mem (a : MemOp) (h : a.valid = true) : Good (a.pop true).print (.star (.mem a)) := by
  rw [mem_text]
  simp only [if_true, List.cons_append, List.nil_append]
  refine ⟨?_, by simp, ?_, ?_⟩
  · show (place _).map _ = _
    rw [place_mem a h]; rfl
  · intro c hc
    rcases List.mem_cons.1 hc with rfl | hc
    · decide
    · exact mem_chars a c hc
  · exact Part.append (a := ['*']) (part_of_quiet (by decide)) (mem_part a)

theorem good_star_reg (r : Reg) : Good (POp.mem r none 0 0 true false).print (.star (.reg r)) := by
  refine good_of_quiet ?_ ?_ ?_ <;> cases r <;> decide +kernel

theorem good_low {r : Reg} (h : r ∈ [Reg.rax, .rbx, .rcx, .rdx, .rsi, .rdi]) : Good (PReg.low r).name (.low r) := by
  refine good_of_quiet ?_ ?_ ?_ <;> revert h <;> cases r <;> decide +kernel

/-! ### Lines -/

theorem blank_of {c : Char} (h : c ≠ ' ' ∧ c ≠ '\t' ∧ c ≠ '\n') : blank c = false := by
  unfold blank
  simp [h.1, h.2.1]

/-- Mnemonics. -/
def word (m : Txt) : Bool := m != [] && (m.length < 8 && m.all (fun c => !blank c && c != '\n'))

theorem cut (m : Txt) (hm : word m = true) (J : Txt) (hJ : ∀ c ∈ J, c ≠ '\n') :
    let s := trimL (("   ".toList ++ (padTo 8 m ++ (padTo 50 J ++ ['\n']))).takeWhile (· ≠ '\n'))
    s.takeWhile (fun c => !blank c) = m ∧
      ∃ n k, s.dropWhile (fun c => !blank c) = List.replicate n ' ' ++ (J ++ List.replicate k ' ') := by
  simp only [word, Bool.and_eq_true, bne_iff_ne, decide_eq_true_eq, List.all_eq_true, Bool.not_eq_true', ne_eq] at hm
  obtain ⟨h1, h2, h3⟩ := hm
  obtain ⟨n, hn⟩ : ∃ n, 8 - m.length = n + 1 := ⟨7 - m.length, by omega⟩
  have hl : ∀ c ∈ "   ".toList ++ (padTo 8 m ++ padTo 50 J), (decide (c ≠ '\n')) = true := by
    intro c hc
    refine decide_eq_true ?_
    simp only [padTo, List.mem_append, List.mem_replicate] at hc
    rcases hc with hc | (hc | hc) | hc | hc
    · have : ∀ c ∈ "   ".toList, c ≠ '\n' := by decide
      exact this c hc
    · exact (h3 c hc).2
    · rw [hc.2]; decide
    · exact hJ c hc
    · rw [hc.2]; decide
  have e1 : ("   ".toList ++ (padTo 8 m ++ (padTo 50 J ++ ['\n']))).takeWhile (fun x => decide (x ≠ '\n')) =
      "   ".toList ++ (padTo 8 m ++ padTo 50 J) := by
    have : "   ".toList ++ (padTo 8 m ++ (padTo 50 J ++ ['\n'])) = ("   ".toList ++ (padTo 8 m ++ padTo 50 J)) ++ ['\n'] := by simp
    rw [this, List.takeWhile_append_of_pos hl]; simp
  have e2 : trimL ("   ".toList ++ (padTo 8 m ++ padTo 50 J)) = m ++ (' ' :: (List.replicate n ' ' ++ padTo 50 J)) := by
    have := trimL_spaces 3 (padTo 8 m ++ padTo 50 J)
    have e3 : "   ".toList = List.replicate 3 ' ' := rfl
    rw [e3, this]
    unfold padTo
    rw [hn, List.replicate_succ]
    cases m with
    | nil => exact absurd rfl h1
    | cons a u =>
      simp only [List.cons_append, List.append_assoc]
      rw [trimL_of (h3 a (by simp)).1]
  have hb : ∀ c ∈ m, (!blank c) = true := fun c hc => by rw [(h3 c hc).1]; rfl
  intro s
  have es : s = m ++ (' ' :: (List.replicate n ' ' ++ padTo 50 J)) := by
    show trimL _ = _
    rw [e1, e2]
  rw [es]
  constructor
  · rw [List.takeWhile_append_of_pos hb, List.takeWhile_cons_of_neg (by decide), List.append_nil]
  · refine ⟨n + 1, 50 - J.length, ?_⟩
    rw [List.dropWhile_append_of_pos hb, List.dropWhile_cons_of_neg (by decide), List.replicate_succ]
    rfl

theorem ends {t : Txt} (hn : t ≠ []) : ∃ a u v b, t = a :: u ∧ t = v ++ [b] := by
  cases t with
  | nil => exact absurd rfl hn
  | cons a u =>
    rcases List.eq_nil_or_concat (a :: u) with e | ⟨v, b, e⟩
    · cases e
    · exact ⟨a, u, v, b, rfl, by rw [e, List.concat_eq_append]⟩

theorem trim_good {t : Txt} (h : ∀ c ∈ t, c ≠ ' ' ∧ c ≠ '\t' ∧ c ≠ '\n') : trim t = t := trim_clean (fun c hc => blank_of (h c hc))

theorem trim_space (t : Txt) : trim (' ' :: t) = trim t := by
  unfold trim
  have := trimL_spaces 1 t
  rw [show ' ' :: t = List.replicate 1 ' ' ++ t from rfl, this]

theorem line0 (Y : Symbols) {m : Txt} {o : Opc} (hm : word m = true) (ho : opcode m = some o) :
    line Y ("   ".toList ++ (padTo 8 m ++ (padTo 50 (joinOps []) ++ ['\n']))) = build Y o [] := by
  obtain ⟨h1, n, k, h2⟩ := cut m hm (joinOps []) (by simp [joinOps])
  unfold line
  simp only [h1, h2, ho]
  have e : trim (List.replicate n ' ' ++ (joinOps [] ++ List.replicate k ' ')) = [] := by
    show trim (List.replicate n ' ' ++ List.replicate k ' ') = []
    rw [trim, trimL_spaces]
    have := trimL_spaces k []
    rw [List.append_nil] at this
    rw [this]; rfl
  rw [e]
  rfl

theorem line1 (Y : Symbols) {m : Txt} {o : Opc} {t : Txt} {g : GOp} (hm : word m = true) (ho : opcode m = some o) (hg : Good t g) :
    line Y ("   ".toList ++ (padTo 8 m ++ (padTo 50 (joinOps [t]) ++ ['\n']))) = build Y o [g] := by
  obtain ⟨h1, n, k, h2⟩ := cut m hm (joinOps [t]) (fun c hc => (hg.chars c hc).2.2)
  unfold line
  simp only [h1, h2, ho]
  have e : trim (List.replicate n ' ' ++ (joinOps [t] ++ List.replicate k ' ')) = t := by
    obtain ⟨a, u, v, b, e1, e2⟩ := ends hg.ne
    show trim (List.replicate n ' ' ++ (t ++ List.replicate k ' ')) = t
    have ha := blank_of (hg.chars a (by rw [e1]; simp))
    have hb := blank_of (hg.chars b (by rw [e2]; simp))
    rw [e1]
    exact trim_spaces n k ha hb (e1.symm.trans e2)
  rw [e, if_neg hg.ne, split_one hg.part]
  simp only [List.map_cons, List.map_nil, trim_good hg.chars, List.mapM_cons, List.mapM_nil, hg.op]
  rfl

theorem line2 (Y : Symbols) {m : Txt} {o : Opc} {t t' : Txt} {g g' : GOp} (hm : word m = true) (ho : opcode m = some o) (hg : Good t g)
    (hg' : Good t' g') : line Y ("   ".toList ++ (padTo 8 m ++ (padTo 50 (joinOps [t, t']) ++ ['\n']))) = build Y o [g, g'] := by
  have ej : joinOps [t, t'] = t ++ (',' :: ' ' :: t') := rfl
  obtain ⟨h1, n, k, h2⟩ := cut m hm (joinOps [t, t']) (fun c hc => by
    rw [ej] at hc
    rcases List.mem_append.1 hc with hc | hc
    · exact (hg.chars c hc).2.2
    · rcases List.mem_cons.1 hc with rfl | hc
      · decide
      · rcases List.mem_cons.1 hc with rfl | hc
        · decide
        · exact (hg'.chars c hc).2.2)
  unfold line
  simp only [h1, h2, ho]
  have e : trim (List.replicate n ' ' ++ (joinOps [t, t'] ++ List.replicate k ' ')) = t ++ (',' :: ' ' :: t') := by
    obtain ⟨a, u, _, _, e1, _⟩ := ends hg.ne
    obtain ⟨_, _, v, b, _, e2⟩ := ends hg'.ne
    have ha := blank_of (hg.chars a (by rw [e1]; simp))
    have hb := blank_of (hg'.chars b (by rw [e2]; simp))
    rw [ej, e1]
    refine trim_spaces (u := t ++ (',' :: ' ' :: v)) n k ha hb ?_
    show a :: (u ++ (',' :: ' ' :: t')) = _
    rw [e1, e2]
    simp
  have hs : split 0 (t ++ (',' :: ' ' :: t')) = [t, ' ' :: t'] := by
    have hp : Part (' ' :: t') := Part.append (a := [' ']) (part_quiet (by decide)) hg'.part
    rw [split_comma hg.part, split_one hp]
  rw [e, if_neg (by simp), hs]
  simp only [List.map_cons, List.map_nil, trim_space, trim_good hg.chars, trim_good hg'.chars, List.mapM_cons, List.mapM_nil, hg.op, hg'.op]
  rfl

end Clara.Gas
