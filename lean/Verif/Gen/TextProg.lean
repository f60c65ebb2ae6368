import Verif.Gen.GasLemmas
import Verif.Gen.Balance
import Verif.Sema.Literal
import Verif.Types.AsmName
/-
Lines of whole programs, numbers of the source, names of functions.
-/
namespace Clara.Gas
open Clara.Gen

/-- Constants are written as numbers that the assembler reads as the constant. -/
def Numbers (S : Spell) : Prop := ∀ i, integer (S.num i) = some i ∧ ∀ c ∈ S.num i, numChar c = true

/-- What the assembler knows of the names in an instruction. -/
def Known (S : Spell) (Y : Symbols) : HIns → Prop
  | .ins (.jmp l) | .ins (.jcc _ l) => isSym l.text = true ∧ Y.label l.text = some l
  | .ins (.call f) => isSym f.toList = true
  | .ins (.movabs (.fn f) _) => isSym f.toList = true ∧ Y.text f.toList = none
  | .ins (.movabs (.str s) _) => Y.text (".LC".toList ++ dec (S.lit s)) = some s
  | _ => True

/-- As `Ins.valid`; the byte of every register but `r8` and `r9` has its right name. -/
def HIns.valid : HIns → Bool
  | .ins i => i.valid
  | .movsbq a _ => a.valid
  | .movb s a => a.valid && (s == .rax || s == .rbx || s == .rcx || s == .rdx || s == .rsi || s == .rdi)

theorem lit_sym (n : Nat) : isSym (".LC".toList ++ dec n) = true := by
  show (symChar '.' && (!Char.isDigit '.' && ('.' != '$' && (('L' :: 'C' :: dec n).all symChar)))) = true
  have : (('L' :: 'C' :: dec n).all symChar) = true := by
    rw [List.all_eq_true]
    intro c hc
    rcases List.mem_cons.1 hc with rfl | hc
    · decide
    · rcases List.mem_cons.1 hc with rfl | hc
      · decide
      · have := dec_digit n c hc
        unfold symChar Char.isAlphanum
        rw [this]; simp
  rw [this]
  decide

/-- How operands are read. -/
def gop : Opd → GOp
  | .imm i => .imm i
  | .reg r => .reg r
  | .mem a => .mem a

theorem source_gop (o : Opd) : source (gop o) = some o := by cases o <;> rfl

theorem good_opd {S : Spell} (hS : Numbers S) (o : Opd) (h : o.source = true ∨ ∃ i, o = .imm i) : Good (o.pop S).print (gop o) := by
  cases o with
  | imm i => exact good_imm (hS i).1 (hS i).2
  | reg r => exact good_reg r
  | mem a =>
    refine good_mem a ?_
    rcases h with h | ⟨i, h⟩
    · exact h
    · cases h

theorem good_itoa (n : Nat) : Good (POp.lit (itoa n)).print (.imm n) := good_imm (integer_itoa n) (itoa_num n)

/-- Every instruction is read as it was meant. -/
theorem line_ins {S : Spell} {Y : Symbols} (hS : Numbers S) (i : HIns) (hv : HIns.valid i = true) (hk : Known S Y i) :
    line Y (insText S i) = some i := by
  have src : ∀ {o : Opd}, o.source = true → Good (o.pop S).print (gop o) := fun h => good_opd hS _ (.inl h)
  cases i with
  | movsbq a d => exact line2 Y (o := .movsbq) (m := "movsbq".toList) (by decide) (by decide) (good_mem a hv) (good_reg d)
  | movb s a =>
    simp only [HIns.valid, Bool.and_eq_true] at hv
    refine line2 Y (o := .movb) (m := "movb".toList) (by decide) (by decide) (good_low ?_) (good_mem a hv.1)
    have := hv.2
    revert this
    cases s <;> decide
  | ins i =>
    replace hv : i.valid = true := hv
    cases i with
    | mov s d =>
      have hs : s.source = true ∧ d.source = true := by
        cases d with
        | imm j => simp [Ins.valid] at hv
        | reg r => cases s <;> simp_all [Ins.valid]
        | mem a => cases s <;> simp_all [Ins.valid]
      refine (line2 Y (o := .mov) (m := "movq".toList) (by decide) (by decide) (src hs.1) (src hs.2)).trans ?_
      simp only [build, source_gop]; rfl
    | movabs s d =>
      cases s with
      | imm j => exact line2 Y (o := .movabs) (m := "movabs".toList) (by decide) (by decide) (good_imm (hS j).1 (hS j).2) (good_reg d)
      | str s =>
        refine (line2 Y (o := .movabs) (m := "movabs".toList) (by decide) (by decide) (t := '$' :: (".LC".toList ++ (dec (S.lit s) ++ "+8".toList)))
          (g := .addr (".LC".toList ++ dec (S.lit s)) 8) ?_ (good_reg d)).trans ?_
        · have := good_addr8 (lit_sym (S.lit s))
          rwa [List.append_assoc] at this
        · replace hk : Y.text (".LC".toList ++ dec (S.lit s)) = some s := hk
          simp only [build, wide, hk]; rfl
      | fn f =>
        refine (line2 Y (o := .movabs) (m := "movabs".toList) (by decide) (by decide) (good_addr hk.1) (good_reg d)).trans ?_
        simp only [build, wide, hk.2, String.ofList_toList]; rfl
    | push s =>
      refine (line1 Y (o := .push) (m := "pushq".toList) (by decide) (by decide) (src hv)).trans ?_
      simp only [build, source_gop]; rfl
    | pop d => exact line1 Y (o := .pop) (m := "popq".toList) (by decide) (by decide) (good_reg d)
    | lea a d => exact line2 Y (o := .lea) (m := "leaq".toList) (by decide) (by decide) (good_mem a hv) (good_reg d)
    | alu o s d =>
      refine (line2 Y (o := .alu o) (m := o.mnem.toList) (by cases o <;> decide) (by cases o <;> decide) (src hv) (good_reg d)).trans ?_
      simp only [build, source_gop]; rfl
    | not d => exact line1 Y (o := .not) (m := "notq".toList) (by decide) (by decide) (good_reg d)
    | neg d => exact line1 Y (o := .neg) (m := "negq".toList) (by decide) (by decide) (good_reg d)
    | shl c d =>
      cases c with
      | imm n =>
        refine (line2 Y (o := .shl) (m := "shlq".toList) (by decide) (by decide) (good_itoa n) (good_reg d)).trans ?_
        simp only [build, Int.natCast_nonneg, if_true, Int.toNat_natCast]
      | cl => exact line2 Y (o := .shl) (m := "shlq".toList) (by decide) (by decide) (good_low (r := .rcx) (by decide)) (good_reg d)
    | sar c d =>
      cases c with
      | imm n =>
        refine (line2 Y (o := .sar) (m := "sarq".toList) (by decide) (by decide) (good_itoa n) (good_reg d)).trans ?_
        simp only [build, Int.natCast_nonneg, if_true, Int.toNat_natCast]
      | cl => exact line2 Y (o := .sar) (m := "sarq".toList) (by decide) (by decide) (good_low (r := .rcx) (by decide)) (good_reg d)
    | cmp s d =>
      refine (line2 Y (o := .cmp) (m := "cmpq".toList) (by decide) (by decide) (src hv) (good_reg d)).trans ?_
      simp only [build, source_gop]; rfl
    | set c =>
      refine line1 Y (o := .set c) (m := c.setName.toList) ?_ ?_ (good_low (r := .rax) (by decide)) <;> revert hv <;> cases c <;> decide
    | cqo => exact line0 Y (o := .cqo) (m := "cqo".toList) (by decide) (by decide)
    | idiv s => exact line1 Y (o := .idiv) (m := "idivq".toList) (by decide) (by decide) (good_reg s)
    | jmp l =>
      refine (line1 Y (o := .jmp) (m := "jmp".toList) (by decide) (by decide) (good_name hk.1)).trans ?_
      simp only [build, hk.2]; rfl
    | jmpReg r => exact line1 Y (o := .jmp) (m := "jmp".toList) (by decide) (by decide) (good_star_reg r)
    | jcc c l =>
      refine (line1 Y (o := .jcc c) (m := c.jmpName.toList) ?_ ?_ (good_name hk.1)).trans ?_
      · replace hv : (c == .e || c == .ne || c == .ae) = true := hv
        revert hv; cases c <;> decide
      · replace hv : (c == .e || c == .ne || c == .ae) = true := hv
        revert hv; cases c <;> decide
      · simp only [build, hk.2]; rfl
    | call f =>
      refine (line1 Y (o := .call) (m := "call".toList) (by decide) (by decide) (good_name hk)).trans ?_
      simp only [build, String.ofList_toList]
    | callReg r => exact line1 Y (o := .call) (m := "call".toList) (by decide) (by decide) (good_star_reg r)
    | callMem a => exact line1 Y (o := .call) (m := "call".toList) (by decide) (by decide) (good_star_mem a hv)
    | enter n =>
      refine (line2 Y (o := .enter) (m := "enter".toList) (by decide) (by decide) (good_itoa n) (good_itoa 0)).trans ?_
      show (if (0 : Int) ≤ (n : Int) then some (HIns.ins (.enter (n : Int).toNat)) else none) = _
      rw [if_pos (Int.natCast_nonneg n), Int.toNat_natCast]
    | leave => exact line0 Y (o := .leave) (m := "leave".toList) (by decide) (by decide)
    | ret => exact line0 Y (o := .ret) (m := "ret".toList) (by decide) (by decide)

/-! ### Whole programs -/

/-- What holds of every instruction holds of every line, if it holds of everything that the optimiser makes. -/
theorem peep_all (P : Ins → Prop) (hm : ∀ x y, P (.mov x y)) (hp : ∀ x, P (.push x)) (o : Bool) (c : List Ev)
    (h : ∀ i, Ev.ins i ∈ c → P i) : ∀ i, Item.ins i ∈ peepWith o c → P i := by
  let Q (s : PS) : Prop := (∀ i, Item.ins i ∈ s.out → P i) ∧ ∀ i, s.pend = some i → P i
  have hw : ∀ s, Q s → Q s.write := by
    intro s hs
    unfold PS.write
    split
    · rename_i p hp
      refine ⟨fun x hx => ?_, by simp⟩
      rcases List.mem_append.1 hx with hx | hx
      · exact hs.1 x hx
      · rw [List.mem_singleton] at hx; cases hx; exact hs.2 p hp
    · exact hs
  have hmerge : ∀ p i q, merge o p i = some q → P q := by
    intro p i q h
    unfold merge at h
    split at h
    · split at h
      · cases h; exact hm _ _
      · cases h
    · split at h
      · cases h; exact hp _
      · cases h
    · cases h
  have hf : ∀ s e, Q s → (∀ i, e = Ev.ins i → P i) → Q (s.feed o e) := by
    intro s e hs he
    cases e with
    | ins i =>
      simp only [PS.feed]
      cases hmm : s.pend.bind (merge o · i) with
      | none => exact ⟨(hw s hs).1, fun p hp => by cases hp; exact he i rfl⟩
      | some q =>
        obtain ⟨p, hp, hq⟩ := Option.bind_eq_some_iff.1 hmm
        exact ⟨hs.1, fun p' hp' => by cases hp'; exact hmerge _ _ _ hq⟩
    | label l =>
      refine ⟨fun x hx => ?_, (hw s hs).2⟩
      rcases List.mem_append.1 hx with hx | hx
      · exact (hw s hs).1 x hx
      · rw [List.mem_singleton] at hx; cases hx
    | data l =>
      refine ⟨fun x hx => ?_, (hw s hs).2⟩
      rcases List.mem_append.1 hx with hx | hx
      · exact (hw s hs).1 x hx
      · rw [List.mem_singleton] at hx; cases hx
    | flush => exact hw s hs
    | panic => exact hs
  have : ∀ (c : List Ev) (s : PS), Q s → (∀ i, Ev.ins i ∈ c → P i) → Q (c.foldl (PS.feed o) s) := by
    intro c
    induction c with
    | nil => exact fun s hs _ => hs
    | cons e c ih =>
      intro s hs hc
      exact ih _ (hf s e hs (fun i hi => hc i (by rw [hi]; simp))) (fun i hi => hc i (by simp [hi]))
  exact (hw _ (this c {} ⟨by simp, by simp⟩ h)).1

/-- Jumps go to labels of the program. -/
theorem jumps_defined (alloc ioob : String) (fds : List FnDef) (hp : Ev.panic ∉ genProg alloc ioob fds) {e : Ev} {l : Label}
    (he : e ∈ genProg alloc ioob fds) (hj : e.jumps l = true) : l ∈ labels (genProg alloc ioob fds) := by
  have hio : Label.ioob ∈ labels (genProg alloc ioob fds) := by
    rw [genProg, labels_append]
    exact List.mem_append_right _ (by simp [genIoob, labels, Ev.isLabel])
  have hfn : ∀ (fds : List FnDef) (lbl : Nat), Ev.panic ∉ genFuncs alloc fds lbl → e ∈ genFuncs alloc fds lbl →
      l = .ioob ∨ l ∈ labels (genFuncs alloc fds lbl) := by
    intro fds
    induction fds with
    | nil => intro lbl _ h; cases h
    | cons fd fds ih =>
      intro lbl hp h
      simp only [genFuncs] at hp h ⊢
      rw [labels_append]
      rcases List.mem_append.1 h with h | h
      · have hp1 : Ev.panic ∉ (genFunc alloc fd lbl).1 := fun k => hp (List.mem_append_left _ k)
        have hb := balanced_func alloc fd lbl hp1
        rw [genFunc_inner] at h ⊢
        have hin : e ∈ fd.inner alloc lbl := by
          rcases List.mem_cons.1 h with rfl | h
          · cases hj
          rcases List.mem_cons.1 h with rfl | h
          · cases hj
          rcases List.mem_cons.1 h with rfl | h
          · cases hj
          rcases List.mem_cons.1 h with rfl | h
          · cases hj
          exact h
        obtain ⟨k, hk⟩ := List.getElem?_of_mem hin
        rcases hb.target k e l hk hj with hl | ⟨j, hl⟩
        · exact .inl hl
        · right
          refine List.mem_append_left _ ?_
          rw [labels, List.mem_filterMap]
          exact ⟨.label l, by simp [List.mem_of_getElem? hl], rfl⟩
      · rcases ih _ (fun k => hp (List.mem_append_right _ k)) h with h | h
        · exact .inl h
        · exact .inr (List.mem_append_right _ h)
  rw [genProg] at hp he
  rcases List.mem_append.1 he with he | he
  · rcases hfn fds 0 (fun k => hp (List.mem_append_left _ k)) he with h | h
    · rw [h]; exact hio
    · rw [genProg, labels_append]; exact List.mem_append_left _ h
  · exfalso
    have : (genIoob ioob).all (fun e => !e.jumps l) = true := rfl
    rw [List.all_eq_true] at this
    have := this e he
    rw [hj] at this
    cases this

/-! ### Literals of the source -/

open Clara.Sema.Lit (digit uintLoop parseUint parseInt signed)

/-- The characters of a text in the source. -/
def chars (s : Clara.Lex.Bytes) : Txt := s.map (fun b => Char.ofNat b.toNat)

theorem char_val (b : UInt8) : (Char.ofNat b.toNat).toNat = b.toNat := by
  have : ∀ n : Fin 256, (Char.ofNat n.val).toNat = n.val := by decide +kernel
  exact this ⟨b.toNat, b.toNat_lt⟩

theorem digit_char {b : UInt8} {d : Nat} (h : digit b = some d) (hd : d < 16) : digitVal (Char.ofNat b.toNat) = some d := by
  unfold digit at h
  unfold digitVal
  rw [char_val]
  simp only [UInt8.le_iff_toNat_le] at h
  have e1 : (48 : UInt8).toNat = 48 := rfl
  have e2 : (57 : UInt8).toNat = 57 := rfl
  have e3 : (97 : UInt8).toNat = 97 := rfl
  have e4 : (122 : UInt8).toNat = 122 := rfl
  have e5 : (65 : UInt8).toNat = 65 := rfl
  have e6 : (90 : UInt8).toNat = 90 := rfl
  rw [e1, e2, e3, e4, e5, e6] at h
  split at h
  · rename_i k; injection h with h; rw [if_pos k, h]
  · rename_i k1
    split at h
    · rename_i k2
      injection h with h
      rw [if_neg k1, if_pos (by omega)]
      congr 1; omega
    · rename_i k2
      split at h
      · rename_i k3
        injection h with h
        rw [if_neg k1, if_neg (by omega), if_pos (by omega)]
        congr 1; omega
      · cases h

theorem digit_num {b : UInt8} {d : Nat} (h : digit b = some d) : numChar (Char.ofNat b.toNat) = true := by
  have : ∀ n : Fin 256, (digit (UInt8.ofNat n.val)).isSome = true → numChar (Char.ofNat n.val) = true := by decide +kernel
  exact this ⟨b.toNat, b.toNat_lt⟩ (by simp only [UInt8.ofNat_toNat, h]; rfl)

/-- Without overflow the loop reads digits. -/
theorem uint_digits (base : Nat) (hb : 0 < base) (hb' : base ≤ 16) (s : Clara.Lex.Bytes) (n m : Nat) (h : uintLoop base n s = .ok m) :
    digits base n (chars s) = some m ∧ ∀ c ∈ chars s, numChar c = true := by
  induction s generalizing n with
  | nil =>
    rw [uintLoop] at h
    injection h with h
    exact ⟨by rw [h]; rfl, by simp [chars]⟩
  | cons b s ih =>
    rw [uintLoop] at h
    cases hd : digit b with
    | none => rw [hd] at h; cases h
    | some d =>
      rw [hd] at h
      simp only at h
      by_cases h1 : d ≥ base
      · rw [if_pos h1] at h; cases h
      rw [if_neg h1] at h
      by_cases h2 : n ≥ (2 ^ 64 - 1) / base + 1
      · rw [if_pos h2] at h; cases h
      rw [if_neg h2] at h
      by_cases h3 : (n * base + d) % 2 ^ 64 < n * base
      · rw [if_pos h3] at h; cases h
      rw [if_neg h3] at h
      have hle : n * base ≤ 2 ^ 64 - 1 := by
        have h4 : n ≤ (2 ^ 64 - 1) / base := by omega
        exact (Nat.le_div_iff_mul_le hb).1 h4
      have he : (n * base + d) % 2 ^ 64 = base * n + d := by
        rw [Nat.mul_comm base n]
        generalize n * base = k at hle h3 ⊢
        omega
      rw [he] at h
      obtain ⟨i1, i2⟩ := ih _ h
      constructor
      · show digits base n (Char.ofNat b.toNat :: chars s) = _
        rw [digits, digit_char hd (by omega)]
        simp only
        rw [if_pos (by omega)]
        exact i1
      · intro c hc
        rcases List.mem_cons.1 hc with rfl | hc
        · exact digit_num hd
        · exact i2 c hc

/-- The prefix `0o`, which only Go has. -/
def octalO : Clara.Lex.Bytes → Bool
  | 48 :: c :: _ => c == 111 || c == 79
  | _ => false

theorem chars_cons (b : UInt8) (s : Clara.Lex.Bytes) : chars (b :: s) = Char.ofNat b.toNat :: chars s := rfl

theorem char_inj {b : UInt8} {c : Char} (h : Char.ofNat b.toNat = c) : b.toNat = c.toNat := by rw [← h, char_val]

theorem uint_natural (s : Clara.Lex.Bytes) (n : Nat) (h : parseUint s = .ok n) (ho : octalO s = false) :
    natural (chars s) = some n ∧ ∀ c ∈ chars s, numChar c = true := by
  unfold parseUint at h
  split at h
  · cases h
  · rename_i c c2 cs
    have e0 : chars (48 :: c :: c2 :: cs) = '0' :: Char.ofNat c.toNat :: chars (c2 :: cs) := rfl
    have z : numChar '0' = true := by decide
    rw [e0]
    rw [natural]
    · by_cases h1 : c = 98 ∨ c = 66
      · rw [if_pos h1] at h
        obtain ⟨i1, i2⟩ := uint_digits 2 (by decide) (by decide) _ _ _ h
        rcases h1 with rfl | rfl
        · refine ⟨i1, ?_⟩
          intro x hx
          rcases List.mem_cons.1 hx with rfl | hx
          · exact z
          · rcases List.mem_cons.1 hx with rfl | hx
            · decide
            · exact i2 x hx
        · refine ⟨i1, ?_⟩
          intro x hx
          rcases List.mem_cons.1 hx with rfl | hx
          · exact z
          · rcases List.mem_cons.1 hx with rfl | hx
            · decide
            · exact i2 x hx
      rw [if_neg h1] at h
      by_cases h2 : c = 111 ∨ c = 79
      · exfalso
        rcases h2 with rfl | rfl <;> exact absurd ho (by simp [octalO])
      rw [if_neg h2] at h
      by_cases h3 : c = 120 ∨ c = 88
      · rw [if_pos h3] at h
        obtain ⟨i1, i2⟩ := uint_digits 16 (by decide) (by decide) _ _ _ h
        rcases h3 with rfl | rfl
        · refine ⟨i1, ?_⟩
          intro x hx
          rcases List.mem_cons.1 hx with rfl | hx
          · exact z
          · rcases List.mem_cons.1 hx with rfl | hx
            · decide
            · exact i2 x hx
        · refine ⟨i1, ?_⟩
          intro x hx
          rcases List.mem_cons.1 hx with rfl | hx
          · exact z
          · rcases List.mem_cons.1 hx with rfl | hx
            · decide
            · exact i2 x hx
      rw [if_neg h3] at h
      obtain ⟨i1, i2⟩ := uint_digits 8 (by decide) (by decide) _ _ _ h
      have n1 : ∀ {d : UInt8}, c ≠ d → Char.ofNat c.toNat ≠ Char.ofNat d.toNat := by
        intro d hne e
        have := char_inj e
        rw [char_val] at this
        exact hne (UInt8.toNat_inj.1 this)
      simp only [not_or] at h1 h3
      rw [if_neg (by
        rintro (e | e)
        · exact n1 h3.1 e
        · exact n1 h3.2 e), if_neg (by
        rintro (e | e)
        · exact n1 h1.1 e
        · exact n1 h1.2 e)]
      refine ⟨i1, ?_⟩
      intro x hx
      rcases List.mem_cons.1 hx with rfl | hx
      · exact z
      · exact i2 x hx
  · rename_i cs hcs
    obtain ⟨i1, i2⟩ := uint_digits 8 (by decide) (by decide) _ _ _ h
    have hx : ∀ x ∈ chars (48 :: cs), numChar x = true := by
      intro x hx
      rcases List.mem_cons.1 hx with rfl | hx
      · decide
      · exact i2 x hx
    refine ⟨?_, hx⟩
    cases cs with
    | nil => exact i1
    | cons c cs =>
      cases cs with
      | cons c2 cs => exact absurd rfl (hcs c c2 cs)
      | nil =>
        have i1' : digits 8 0 [Char.ofNat c.toNat] = some n := i1
        show natural ['0', Char.ofNat c.toNat] = _
        have hx8 : ∀ x : Char, x = 'x' ∨ x = 'X' ∨ x = 'b' ∨ x = 'B' → digits 8 0 [x] = none := by
          rintro x (rfl | rfl | rfl | rfl) <;> decide
        rw [natural]
        by_cases k1 : Char.ofNat c.toNat = 'x' ∨ Char.ofNat c.toNat = 'X'
        · rw [hx8 _ (by rcases k1 with k | k <;> simp [k])] at i1'; cases i1'
        by_cases k2 : Char.ofNat c.toNat = 'b' ∨ Char.ofNat c.toNat = 'B'
        · rw [hx8 _ (by rcases k2 with k | k <;> simp [k])] at i1'; cases i1'
        rw [if_neg k1, if_neg k2]
        exact i1'
  · rename_i h1 h2 h3
    obtain ⟨i1, i2⟩ := uint_digits 10 (by decide) (by decide) _ _ _ h
    refine ⟨?_, i2⟩
    cases s with
    | nil => exact absurd rfl h1
    | cons b s =>
      have hb : Char.ofNat b.toNat ≠ '0' := by
        intro e
        have : b = 48 := UInt8.toNat_inj.1 (char_inj e)
        subst this
        exact h3 s rfl
      rw [chars_cons] at i1 ⊢
      unfold natural
      split
      · rename_i e; cases e
      · rename_i e; injection e with e _; exact absurd e hb
      · rename_i e; injection e with e _; exact absurd e hb
      · exact i1

/-- The assembler reads a literal as Go does. -/
theorem int_integer (s : Clara.Lex.Bytes) (i : Int) (h : parseInt s = some i) (hp : ∀ t, s ≠ 43 :: t)
    (ho : octalO s = false) (ho' : ∀ t, s = 45 :: t → octalO t = false) :
    integer (chars s) = some i ∧ ∀ c ∈ chars s, numChar c = true := by
  have sg : ∀ {neg r}, signed neg r = some i → ∃ un, r = .ok un ∧ i = if neg then -(un : Int) else un := by
    intro neg r h
    unfold signed at h
    split at h
    · cases h
    · cases h
    · split at h
      · cases h
      · split at h
        · cases h
        · injection h with h
          exact ⟨_, rfl, h.symm⟩
  unfold parseInt at h
  split at h
  · cases h
  · exact absurd rfl (hp _)
  · rename_i cs
    obtain ⟨un, h1, h2⟩ := sg h
    obtain ⟨i1, i2⟩ := uint_natural cs un h1 (ho' cs rfl)
    refine ⟨?_, ?_⟩
    · show integer ('-' :: chars cs) = _
      rw [integer, i1, h2]
      rfl
    · intro x hx
      rcases List.mem_cons.1 hx with rfl | hx
      · decide
      · exact i2 x hx
  · rename_i h0 _ hm
    obtain ⟨un, h1, h2⟩ := sg h
    obtain ⟨i1, i2⟩ := uint_natural s un h1 ho
    refine ⟨?_, i2⟩
    cases s with
    | nil => exact absurd rfl h0
    | cons b s =>
      have hb : Char.ofNat b.toNat ≠ '-' := by
        intro e
        have : b = 45 := UInt8.toNat_inj.1 (char_inj e)
        subst this
        exact hm s rfl
      rw [chars_cons] at i1 ⊢
      unfold integer
      split
      · rename_i e; injection e with e _; exact absurd e hb
      · rw [i1, h2]; rfl

end Clara.Gas
