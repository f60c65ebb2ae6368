import Verif.Gen.DataRoots
/-
The text of a literal in the assembly file, read by the assembler.
-/
namespace Clara.Data
open Clara.Gen hiding Txt Bytes
open Clara.Gas
open Clara.Lex

/-- Text between quotes: bytes that stand for themselves, and the escapes of the language. -/
inductive Clean : Bytes → Prop
  | nil : Clean []
  | plain {b t} : b ≠ 34 → b ≠ 92 → b ≠ 10 → Clean t → Clean (b :: t)
  | esc {c t} : c = 114 ∨ c = 110 ∨ c = 92 ∨ c = 34 → Clean t → Clean (92 :: c :: t)

theorem Clean.high {a t : Bytes} (h : ∀ x ∈ a, 128 ≤ x.toNat) (ht : Clean t) : Clean (a ++ t) := by
  induction a with
  | nil => exact ht
  | cons x a ih =>
    have hx := h x (by simp)
    refine .plain ?_ ?_ ?_ (ih (fun y hy => h y (by simp [hy])))
    all_goals
      rintro rfl
      revert hx
      decide

theorem clean_of {body : List Nat} (hb : StrBody body) : ∀ {bs : Bytes}, runes bs = body ++ [34] →
    validUtf8 bs = true → 10 ∉ bs → Clean bs.dropLast ∧ bs ≠ [] := by
  have byte : ∀ {bs : Bytes} {r w : Nat}, decode bs = some (r, w) → r < 128 →
      ∃ b t, bs = b :: t ∧ b.toNat = r ∧ w = 1 ∧ b = r.toUInt8 := by
    intro bs r w h hr
    obtain ⟨h1, b, t, h2, h3⟩ := decode_lt_128 h hr
    exact ⟨b, t, h2, h3, h1, (toUInt8_of h3.symm).symm⟩
  induction hb with
  | nil =>
    intro bs hr _ _
    obtain ⟨w, hd, hrest⟩ := runes_cons (show runes bs = 34 :: [] from hr)
    obtain ⟨b, t, rfl, e1, rfl, e2⟩ := byte hd (by omega)
    have ht : t = [] := by
      cases t with
      | nil => rfl
      | cons x t =>
        simp only [List.drop_succ_cons, List.drop_zero] at hrest
        rw [runes] at hrest
        simp [decode] at hrest
    subst ht
    exact ⟨.nil, by simp⟩
  | @plain r rs h34 h92 _ ih =>
    intro bs hr hval hnl
    obtain ⟨w, hd, hrest⟩ := runes_cons (show runes bs = r :: (rs ++ [34]) from hr)
    rw [validUtf8_eq hd, Bool.and_eq_true] at hval
    obtain ⟨v1, v2⟩ := hval
    have hnl' : 10 ∉ bs.drop w := fun h => hnl (List.mem_of_mem_drop h)
    obtain ⟨ih1, ih2⟩ := ih hrest v2 hnl'
    have hsplit : bs = bs.take w ++ bs.drop w := (List.take_append_drop w bs).symm
    have hne : bs ≠ [] := by rintro rfl; simp [decode] at hd
    refine ⟨?_, hne⟩
    by_cases hr128 : r < 128
    · obtain ⟨b, t, rfl, e1, rfl, e2⟩ := byte hd hr128
      simp only [List.drop_succ_cons, List.drop_zero] at ih1 ih2 ⊢
      rw [List.dropLast_cons_of_ne_nil ih2]
      refine .plain ?_ ?_ (fun h => hnl (by simp [h])) ih1
      · rintro rfl; exact h34 e1.symm
      · rintro rfl; exact h92 e1.symm
    · cases bs with
      | nil => exact absurd rfl hne
      | cons b t =>
        simp only [decode, Option.some.injEq] at hd
        have hb : 128 ≤ b.toNat := by
          refine Nat.le_of_not_lt (fun hlt => ?_)
          have : decode1 b t = (b.toNat, 1) := by
            rw [decode1.eq_def]; simp only; rw [if_pos (by omega)]
          rw [hd] at this
          cases this
          omega
        have hv : ¬ ((decode1 b t).1 = runeError ∧ (decode1 b t).2 = 1) := by
          rw [hd]
          rintro ⟨q1, q2⟩
          simp only at q1 q2
          simp [q1, q2] at v1
        obtain ⟨k1, k2⟩ := decode1_high hb hv
        rw [hd] at k1 k2
        simp only at k1 k2
        have : (b :: t).dropLast = (b :: t).take w ++ ((b :: t).drop w).dropLast := by
          conv => lhs; rw [hsplit]
          rw [List.dropLast_append_of_ne_nil ih2]
        rw [this]
        exact .high k2 ih1
  | @esc r rs hesc _ ih =>
    intro bs hr hval hnl
    obtain ⟨w, hd, hrest⟩ := runes_cons (show runes bs = 92 :: (r :: (rs ++ [34])) from hr)
    rw [validUtf8_eq hd, Bool.and_eq_true] at hval
    obtain ⟨b, t, rfl, e1, rfl, e2⟩ := byte hd (by omega)
    simp only [List.drop_succ_cons, List.drop_zero] at hrest hval
    obtain ⟨w, hd2, hrest2⟩ := runes_cons hrest
    have hr128 : r < 128 := by rcases hesc with rfl | rfl | rfl | rfl <;> decide
    rw [validUtf8_eq hd2, Bool.and_eq_true] at hval
    obtain ⟨c, t, rfl, f1, rfl, f2⟩ := byte hd2 hr128
    simp only [List.drop_succ_cons, List.drop_zero] at hrest2 hval
    have hnl' : 10 ∉ t := fun h => hnl (by simp [h])
    obtain ⟨ih1, ih2⟩ := ih hrest2 hval.2.2 hnl'
    refine ⟨?_, by simp⟩
    rw [List.dropLast_cons_of_ne_nil (by simp), List.dropLast_cons_of_ne_nil ih2]
    have hb : b = 92 := by rw [e2]; rfl
    subst hb
    refine .esc ?_ ih1
    rw [f2]
    rcases hesc with rfl | rfl | rfl | rfl <;> decide

/-- The text of an accepted literal. -/
theorem clean_literal {u : Uni} {v : Bytes} (h : Spec.Lexeme u .string v) (hv : validUtf8 v = true)
    (hn : 10 ∉ v) : Clean (v.drop 1).dropLast := by
  obtain ⟨body, h1, h2⟩ := h
  obtain ⟨w, hd, hrest⟩ := runes_cons h1
  obtain ⟨rfl, b, t, rfl, h3⟩ := decode_lt_128 hd (by decide)
  rw [validUtf8_eq hd, Bool.and_eq_true] at hv
  exact (clean_of h2 hrest hv.2 (fun hx => hn (by simp at hx; simp [hx]))).1

theorem byteOf_char (b : UInt8) : byteOf (Char.ofNat b.toNat) = b := by
  have h := b.toNat_lt
  have e : (Char.ofNat b.toNat).toNat = b.toNat := by
    unfold Char.ofNat
    rw [dif_pos (.inl (by omega))]
    rfl
  rw [byteOf, e]
  exact UInt8.ofNat_toNat

theorem char_ne {b c : UInt8} (h : b ≠ c) : Char.ofNat b.toNat ≠ Char.ofNat c.toNat := by
  intro e
  apply h
  rw [← byteOf_char b, e, byteOf_char]

/-- The assembler reads the text as its bytes, and the final zero. -/
theorem gstr_clean {t : Bytes} (h : Clean t) : ∀ n, t.length + 3 ≤ n → gstr n (charsOf t ++ "\\0\"".toList) = some (gasBytes t ++ [0], []) := by
  induction h with
  | nil =>
    intro n hn
    match n, hn with
    | n + 3, _ => rfl
  | @plain b t h34 h92 h10 _ ih =>
    intro n hn
    match n, hn with
    | n + 1, hn =>
      have h1 : Char.ofNat b.toNat ≠ '"' := char_ne (c := 34) h34
      have h2 : Char.ofNat b.toNat ≠ '\n' := char_ne (c := 10) h10
      have h3 : Char.ofNat b.toNat ≠ '\\' := char_ne (c := 92) h92
      simp only [List.length_cons] at hn
      rw [show charsOf (b :: t) ++ "\\0\"".toList = Char.ofNat b.toNat :: (charsOf t ++ "\\0\"".toList) from rfl, gstr, if_neg h1, if_neg h2, if_neg h3,
        ih n (by omega), byteOf_char]
      rw [gasBytes]
      · rfl
      · rintro t' rfl; exact absurd rfl h92
      · rintro t' rfl; exact absurd rfl h92
      · rintro c t' rfl; exact absurd rfl h92
  | @esc c t hc _ ih =>
    intro n hn
    match n, hn with
    | n + 1, hn =>
      simp only [List.length_cons] at hn
      have e : charsOf (92 :: c :: t) ++ "\\0\"".toList = '\\' :: Char.ofNat c.toNat :: (charsOf t ++ "\\0\"".toList) := rfl
      have k : ∀ x : UInt8, escape (Char.ofNat c.toNat :: (charsOf t ++ "\\0\"".toList)) = some (x, charsOf t ++ "\\0\"".toList) →
          gstr (n + 1) (charsOf (92 :: c :: t) ++ "\\0\"".toList) = some (x :: gasBytes t ++ [0], []) := by
        intro x hx
        rw [e, gstr, if_neg (by decide), if_neg (by decide), if_pos rfl, hx]
        simp only
        rw [ih n (by omega)]
        rfl
      rcases hc with rfl | rfl | rfl | rfl
      · rw [k 13 rfl, gasBytes]
      · rw [k 10 rfl, gasBytes]
      · rw [k 92 rfl, gasBytes]
        · intro h; exact absurd h (by decide)
        · intro h; exact absurd h (by decide)
      · rw [k 34 rfl, gasBytes]
        · intro h; exact absurd h (by decide)
        · intro h; exact absurd h (by decide)

theorem semis_prefix {a : Txt} (h : ';' ∉ a) (r : Txt) : ∃ x xs, semis (a ++ r) = (a ++ x) :: xs := by
  induction a with
  | nil =>
    cases hs : semis r with
    | nil =>
      exfalso
      cases r with
      | nil => cases hs
      | cons c r =>
        rw [semis] at hs
        split at hs
        · cases hs
        · split at hs <;> cases hs
    | cons x xs => exact ⟨x, xs, hs⟩
  | cons c a ih =>
    obtain ⟨x, xs, e⟩ := ih (fun hc => h (List.mem_cons_of_mem _ hc))
    have h1 : c ≠ ';' := fun e => h (by simp [e])
    exact ⟨x, xs, by rw [List.cons_append, semis, if_neg h1, e]; rfl⟩

theorem trim_prefix {a : Txt} {b : Char} (hb : blank b = false) {c : Char} (hc : blank c = false) (n : Nat) (x : Txt) :
    ∃ y, trim (List.replicate n ' ' ++ (c :: a ++ b :: x)) = c :: a ++ b :: y := by
  unfold trim
  rw [trimL_spaces, List.cons_append, trimL_of hc]
  have e : (c :: (a ++ b :: x)).reverse = x.reverse ++ b :: (c :: a).reverse := by simp
  rw [e, trimL, List.dropWhile_append]
  split
  · rw [List.dropWhile_cons_of_neg (by simp [hb])]
    exact ⟨[], by simp⟩
  · exact ⟨(x.reverse.dropWhile blank).reverse, by simp⟩

theorem dstmt_ascii (x : Txt) : dstmt ("   .ascii \"".toList ++ x) = none := by
  obtain ⟨y, hy⟩ := trim_prefix (a := "ascii ".toList) (b := '"') (by decide) (c := '.') (by decide) 3 x
  have e : "   .ascii \"".toList ++ x = List.replicate 3 ' ' ++ ('.' :: "ascii ".toList ++ '"' :: x) := rfl
  rw [e]
  unfold dstmt
  simp only [hy]
  have hs : isSym ('.' :: "ascii ".toList ++ '"' :: y).dropLast = false := by
    cases y with
    | nil => decide
    | cons z y =>
      have : ('.' :: "ascii ".toList ++ '"' :: z :: y).dropLast = '.' :: "ascii ".toList ++ '"' :: (z :: y).dropLast := by simp
      rw [this]
      rfl
  have hd : directive (('.' :: "ascii ".toList ++ '"' :: y).takeWhile (fun c => !blank c))
      (dargs (trim (('.' :: "ascii ".toList ++ '"' :: y).dropWhile (fun c => !blank c)))) = none := by
    rw [show ('.' :: "ascii ".toList ++ '"' :: y).takeWhile (fun c => !blank c) = ".ascii".toList from rfl]
    unfold directive
    repeat rw [if_neg (by decide)]
  rw [hd, hs]
  split
  · rename_i h; exact absurd h (by rw [List.cons_append]; exact List.cons_ne_nil _ _)
  · split <;> rfl

theorem mapM_prefix {a : Txt} (h : ';' ∉ a) (hd : ∀ x, dstmt (a ++ x) = none) (r : Txt) : (semis (a ++ r)).mapM dstmt = none := by
  obtain ⟨x, xs, e⟩ := semis_prefix h r
  rw [e, List.mapM_cons, hd]
  rfl

/-- The line of the text of a literal. -/
theorem dline_ascii {t : Bytes} (h : Clean t) : dline (asciiText t) = some [.bytes (gasBytes t ++ [0])] := by
  have h1 : (semis (asciiText t)).mapM dstmt = none := mapM_prefix (by decide) dstmt_ascii _
  have h2 : asciiLine (asciiText t) = some (.bytes (gasBytes t ++ [0])) := by
    have e : trimL (asciiText t) = ".ascii".toList ++ (' ' :: '"' :: (charsOf t ++ "\\0\"".toList)) := rfl
    unfold asciiLine
    simp only [e]
    rw [show (".ascii".toList ++ (' ' :: '"' :: (charsOf t ++ "\\0\"".toList))).takeWhile (fun c => !blank c) = ".ascii".toList from rfl, if_pos rfl,
      show trimL ((".ascii".toList ++ (' ' :: '"' :: (charsOf t ++ "\\0\"".toList))).dropWhile (fun c => !blank c)) = '"' :: (charsOf t ++ "\\0\"".toList) from rfl]
    simp only
    rw [gstr_clean h _ (by simp [charsOf])]
    rfl
  rw [dline, h1]
  simp only
  rw [h2]
  rfl

theorem litLabel_sym (n : Nat) : isSym (litLabel n) = true := by
  have : litLabel n = '.' :: ("LC".toList ++ dec n) := rfl
  rw [this]
  simp only [isSym, Bool.and_eq_true, List.all_append]
  exact ⟨by decide, by decide, by decide, by decide, dec_sym n⟩

/-- The statements of a literal. -/
def litStmts (e : Emitted) : List DStmt :=
  [.align 8, .label (litLabel e.label), .quads [.num (goTag (roHeader 4))], .quads [.num (goTag e.len)], .bytes (gasBytes e.text ++ [0])]

theorem dlines_flush {out : List Emitted} (h : ∀ e ∈ out, Clean e.text) :
    dlines (flushLines out) = some (.sect true :: out.flatMap litStmts) := by
  refine dlines_cons dline_data ?_
  induction out with
  | nil => rfl
  | cons e out ih =>
    rw [List.flatMap_cons, List.flatMap_cons]
    refine dlines_append ?_ (ih (fun x hx => h x (List.mem_cons_of_mem _ hx)))
    exact dlines_cons dline_align (dlines_cons (dline_label (litLabel_sym _)) (dlines_cons (dline_tagged _) (dlines_cons (dline_tagged _)
      (dlines_cons (dline_ascii (h e (by simp))) rfl))))

theorem lits_sect (out : List Emitted) (R : List DStmt) : inSect true true (out.flatMap litStmts ++ R) = out.flatMap litStmts ++ inSect true true R := by
  induction out with
  | nil => rfl
  | cons e out ih =>
    rw [List.flatMap_cons, List.append_assoc]
    simp only [litStmts, List.cons_append, List.nil_append, inSect, if_true] at ih ⊢
    rw [ih]

end Clara.Data
