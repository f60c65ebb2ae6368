import Verif.Gen.Helpers
import Verif.Props.Dynamic
/-
C72: the functions that the code generator writes in assembler.
-/
namespace Clara.Props
open Clara.Gen

variable {σ : Type} {P : Prog σ} {I : Image σ} {C : List Ev} {lim top : Nat}

/-- What a call of a helper leaves alone: all registers but `rax` and the two first argument registers, the world, and
all bytes but the two words of its own frame. -/
structure HelperKeeps (b b' : BMach σ) : Prop where
  reg : ∀ r, r ≠ .rax → r ≠ .rsi → r ≠ .rdi → b'.reg r = b.reg r
  ext : b'.ext = b.ext

/-- The call of helper `f` in the state `b`, with the return address `ra`, comes back to `ra` in the state `b'`. -/
def HelperCall (abs : Abs → Word) (f : String) (ra : Word) (b b' : BMach σ) : Prop :=
  ∃ code, helperCode f = some code ∧ hrun abs (b.push ra) code = some (ra, b')

theorem helper_frame {abs : Abs → Word} {b e : BMach σ} {f : String} {ra : Word} {body : List HIns}
    (hc : helperCode f = some (inFrame body)) (hr : HIns.ins .ret ∉ body) (hb : hbody abs (b.entered ra) body = some e)
    (hreg : ∀ r, r ≠ .rax → r ≠ .rsi → r ≠ .rdi → e.reg r = (b.entered ra).reg r) (hext : e.ext = b.ext)
    (hin : ∀ x, ¬ b.outside x → e.byte x = (b.entered ra).byte x) :
    ∃ b', HelperCall abs f ra b b' ∧ HelperKeeps b b' ∧ b'.reg .rax = e.reg .rax ∧ b'.byte = e.byte := by
  refine ⟨_, ⟨_, hc, frame_run hr hb ?_ hin⟩, ⟨?_, hext⟩, ?_, rfl⟩
  · rw [hreg _ (by decide) (by decide) (by decide), entered_rbp]
  · intro r h1 h2 h3
    by_cases h4 : r = .rsp
    · subst h4; simp
    · by_cases h5 : r = .rbp
      · subst h5; simp
      · simp only [if_neg h4, if_neg h5]
        rw [hreg r h1 h2 h3, entered_reg b ra h4 h5]
  · simp

/-- `unsafe(p, off)` is `p + off`. -/
theorem C72_unsafe (abs : Abs → Word) (b : BMach σ) (ra : Word) (k : BitVec 63) (hi : b.reg .rsi = (Val.int k).enc) :
    ∃ b', HelperCall abs "unsafe" ra b b' ∧ HelperKeeps b b' ∧ b'.reg .rax = b.reg .rdi + k.signExtend 64 ∧
      ∀ x, b.outside x → b'.byte x = b.byte x := by
  obtain ⟨b', h1, h2, h3, h4⟩ := helper_frame (abs := abs) (b := b) (f := "unsafe") (ra := ra) (body := unsafeBody) rfl (by decide) rfl
    (by intro r h1 h2 h3; simp [BMach.set, BMach.noFlags, h1, h2]) rfl (fun x _ => rfl)
  refine ⟨b', h1, h2, ?_, ?_⟩
  · rw [h3]
    simp [BMach.set, BMach.noFlags, BMach.ea, BMach.cnt, entered_reg, hi, untag_word]
  · intro x hx; rw [h4]; exact entered_outside b ra hx

theorem tagged_twice (w : Word) : w + w + 1 = (Val.int (w.setWidth 63)).enc := by
  have : w <<< 1 = w + w := by
    apply BitVec.eq_of_toNat_eq
    rw [BitVec.toNat_shiftLeft, BitVec.toNat_add, Nat.shiftLeft_eq, Nat.pow_one]
    congr 1; omega
  rw [← tag_word, ← this]
  refine BitVec.add_eq_or_of_and_eq_zero _ _ ?_
  apply BitVec.eq_of_getLsbD_eq
  intro i hi
  rw [BitVec.getLsbD_and, bit_one]
  by_cases h0 : i = 0 <;> simp [h0]

/-- `toTaggedInt` gives the number with the word as its value, modulo 2^63. -/
theorem C72_toTaggedInt (abs : Abs → Word) (b : BMach σ) (ra : Word) :
    ∃ b', HelperCall abs "toTaggedInt" ra b b' ∧ HelperKeeps b b' ∧ b'.reg .rax = (Val.int ((b.reg .rdi).setWidth 63)).enc ∧
      ∀ x, b.outside x → b'.byte x = b.byte x := by
  obtain ⟨b', h1, h2, h3, h4⟩ := helper_frame (abs := abs) (b := b) (f := "toTaggedInt") (ra := ra) (body := toTaggedBody) rfl (by decide) rfl
    (by intro r h1 h2 h3; simp [BMach.set, h1]) rfl (fun x _ => rfl)
  refine ⟨b', h1, h2, ?_, ?_⟩
  · rw [h3]
    simp only [BMach.set, BMach.ea, if_pos, entered_reg b ra (r := .rdi) (by decide) (by decide)]
    rw [← tagged_twice]
    simp
  · intro x hx; rw [h4]; exact entered_outside b ra hx

/-- `toUntaggedInt` gives the value of a number as a word. -/
theorem C72_toUntaggedInt (abs : Abs → Word) (b : BMach σ) (ra : Word) (k : BitVec 63) (hi : b.reg .rdi = (Val.int k).enc) :
    ∃ b', HelperCall abs "toUntaggedInt" ra b b' ∧ HelperKeeps b b' ∧ b'.reg .rax = k.signExtend 64 ∧
      ∀ x, b.outside x → b'.byte x = b.byte x := by
  obtain ⟨b', h1, h2, h3, h4⟩ := helper_frame (abs := abs) (b := b) (f := "toUntaggedInt") (ra := ra) (body := toUntaggedBody) rfl (by decide) rfl
    (by intro r h1 h2 h3; simp [BMach.set, BMach.put, BMach.noFlags, h1, h3]) rfl (fun x _ => rfl)
  refine ⟨b', h1, h2, ?_, ?_⟩
  · rw [h3]
    simp [BMach.set, BMach.put, BMach.get, BMach.noFlags, BMach.cnt, entered_reg, hi, untag_word]
  · intro x hx; rw [h4]; exact entered_outside b ra hx

/-- `getFramePointer` gives the frame pointer of its caller and changes nothing else. -/
theorem C72_getFramePointer (abs : Abs → Word) (b : BMach σ) (ra : Word) :
    ∃ b', HelperCall abs "getFramePointer" ra b b' ∧ HelperKeeps b b' ∧ b'.reg .rax = b.reg .rbp ∧
      ∀ x, b.outside x → b'.byte x = b.byte x := by
  have hrun' : hrun abs (b.push ra) framePointerCode = some (ra, ((b.push ra).set .rax (b.reg .rbp)).set .rsp (b.reg .rsp)) := by
    rw [framePointerCode, hrun, if_neg (by simp)]
    simp only [hexec, bexec, Option.bind_some]
    rw [hrun, if_pos rfl]
    simp only [BMach.put, BMach.get, BMach.load]
    have e1 : (((b.push ra).set .rax ((b.push ra).reg .rbp))).reg .rsp = b.reg .rsp - 8 := by
      simp [BMach.set, BMach.push_rsp]
    rw [e1, BMach.push_reg _ _ (by decide), BitVec.sub_add_cancel]
    have e2 : load64 ((b.push ra).set .rax (b.reg .rbp)).byte (b.reg .rsp - 8) = ra := load_store _ _ _
    rw [e2]
  refine ⟨_, ⟨_, rfl, hrun'⟩, ⟨?_, rfl⟩, ?_, ?_⟩
  · intro r h1 h2 h3
    by_cases h4 : r = .rsp
    · subst h4; simp [BMach.set]
    · simp only [BMach.set, if_neg h4, if_neg h1]; exact BMach.push_reg _ _ h4
  · simp [BMach.set]
  · intro x hx
    rw [← entered_outside b ra hx, entered_byte]
    show store64 b.byte (b.reg .rsp - 8) ra x = _
    unfold BMach.outside at hx
    exact (if_neg (by omega)).symm

/-- `readInt(p, k)` reads the word with index `k`. -/
theorem C72_readInt (abs : Abs → Word) (b : BMach σ) (ra a : Word) (k : BitVec 63) (hi : b.reg .rsi = (Val.int k).enc)
    (ha : a = b.reg .rdi + k.signExtend 64 * 8) (ho : ∀ j : Nat, j < 8 → b.outside (a + BitVec.ofNat 64 j)) :
    ∃ b', HelperCall abs "readInt" ra b b' ∧ HelperKeeps b b' ∧ b'.reg .rax = load64 b.byte a ∧
      ∀ x, b.outside x → b'.byte x = b.byte x := by
  obtain ⟨b', h1, h2, h3, h4⟩ := helper_frame (abs := abs) (b := b) (f := "readInt") (ra := ra) (body := readBody 8) rfl (by decide) rfl
    (by intro r h1 h2 h3; simp [BMach.set, BMach.put, BMach.noFlags, h1, h2]) rfl (fun x _ => rfl)
  refine ⟨b', h1, h2, ?_, ?_⟩
  · rw [h3]
    have : load64 (b.entered ra).byte a = load64 b.byte a := load_congr (fun j hj => entered_outside b ra (ho j hj))
    rw [← this, ha]
    simp [BMach.set, BMach.put, BMach.get, BMach.load, BMach.noFlags, BMach.ea, BMach.cnt, entered_reg, hi, untag_word]
  · intro x hx; rw [h4]; exact entered_outside b ra hx

/-- `readByte(p, k)` reads the byte with index `k`, with its sign. -/
theorem C72_readByte (abs : Abs → Word) (b : BMach σ) (ra a : Word) (k : BitVec 63) (hi : b.reg .rsi = (Val.int k).enc)
    (ha : a = b.reg .rdi + k.signExtend 64) (ho : b.outside a) :
    ∃ b', HelperCall abs "readByte" ra b b' ∧ HelperKeeps b b' ∧ b'.reg .rax = (b.byte a).signExtend 64 ∧
      ∀ x, b.outside x → b'.byte x = b.byte x := by
  obtain ⟨b', h1, h2, h3, h4⟩ := helper_frame (abs := abs) (b := b) (f := "readByte") (ra := ra) (body := readBody 1) rfl (by decide) rfl
    (by intro r h1 h2 h3; simp [BMach.set, BMach.noFlags, h1, h2]) rfl (fun x _ => rfl)
  refine ⟨b', h1, h2, ?_, ?_⟩
  · rw [h3, ← entered_outside b ra ho, ha]
    simp [BMach.set, BMach.noFlags, BMach.ea, BMach.cnt, entered_reg, hi, untag_word]
  · intro x hx; rw [h4]; exact entered_outside b ra hx

/-- `writeInt(p, k, v)` changes the word with index `k` and no other byte. -/
theorem C72_writeInt (abs : Abs → Word) (b : BMach σ) (ra a : Word) (k : BitVec 63) (hi : b.reg .rsi = (Val.int k).enc)
    (ha : a = b.reg .rdi + k.signExtend 64 * 8) (ho : ∀ j : Nat, j < 8 → b.outside (a + BitVec.ofNat 64 j)) :
    ∃ b', HelperCall abs "writeInt" ra b b' ∧ HelperKeeps b b' ∧ load64 b'.byte a = b.reg .rdx ∧
      ∀ x, b.outside x → 8 ≤ (x - a).toNat → b'.byte x = b.byte x := by
  have hin : ∀ x, ¬ b.outside x → 8 ≤ (x - a).toNat := by
    intro x hx
    apply Nat.le_of_not_lt
    intro hlt
    have := ho _ hlt
    rw [show a + BitVec.ofNat 64 (x - a).toNat = x by rw [BitVec.ofNat_toNat, BitVec.setWidth_eq, BitVec.add_comm, BitVec.sub_add_cancel]] at this
    exact hx this
  have hb : ∃ e, hbody abs (b.entered ra) (writeBody 8) = some e ∧
      (∀ r, r ≠ .rax → r ≠ .rsi → r ≠ .rdi → e.reg r = (b.entered ra).reg r) ∧ e.ext = b.ext ∧
      e.byte = store64 (b.entered ra).byte a (b.reg .rdx) := by
    refine ⟨_, rfl, ?_, rfl, ?_⟩
    · intro r h1 h2 h3; simp [BMach.set, BMach.put, BMach.store, BMach.noFlags, h1, h2]
    · rw [ha]
      simp [BMach.set, BMach.put, BMach.get, BMach.store, BMach.noFlags, BMach.ea, BMach.cnt, entered_reg, hi, untag_word]
  obtain ⟨e, he, hreg, hext, hbyte⟩ := hb
  obtain ⟨b', h1, h2, h3, h4⟩ := helper_frame (abs := abs) (b := b) (f := "writeInt") (ra := ra) (body := writeBody 8) rfl (by decide) he
    hreg hext (fun x hx => by rw [hbyte, store64]; have := hin x hx; rw [if_neg (by omega)])
  refine ⟨b', h1, h2, ?_, ?_⟩
  · rw [h4, hbyte, load_store]
  · intro x hx h8; rw [h4, hbyte, store64, if_neg (by omega)]; exact entered_outside b ra hx

/-- `writeByte(p, k, v)` changes the byte with index `k` to the low byte of `v` and no other byte. -/
theorem C72_writeByte (abs : Abs → Word) (b : BMach σ) (ra a : Word) (k : BitVec 63) (hi : b.reg .rsi = (Val.int k).enc)
    (ha : a = b.reg .rdi + k.signExtend 64) (ho : b.outside a) :
    ∃ b', HelperCall abs "writeByte" ra b b' ∧ HelperKeeps b b' ∧ b'.byte a = (b.reg .rdx).setWidth 8 ∧
      ∀ x, b.outside x → x ≠ a → b'.byte x = b.byte x := by
  have hb : ∃ e, hbody abs (b.entered ra) (writeBody 1) = some e ∧
      (∀ r, r ≠ .rax → r ≠ .rsi → r ≠ .rdi → e.reg r = (b.entered ra).reg r) ∧ e.ext = b.ext ∧
      e.byte = store8 (b.entered ra).byte a ((b.reg .rdx).setWidth 8) := by
    refine ⟨_, rfl, ?_, rfl, ?_⟩
    · intro r h1 h2 h3; simp [BMach.set, BMach.noFlags, h1, h2]
    · rw [ha]
      simp [BMach.set, BMach.noFlags, BMach.ea, BMach.cnt, entered_reg, hi, untag_word]
  obtain ⟨e, he, hreg, hext, hbyte⟩ := hb
  have hin : ∀ x, ¬ b.outside x → x ≠ a := fun x hx h => hx (h ▸ ho)
  obtain ⟨b', h1, h2, h3, h4⟩ := helper_frame (abs := abs) (b := b) (f := "writeByte") (ra := ra) (body := writeBody 1) rfl (by decide) he
    hreg hext (fun x hx => by rw [hbyte, store8, if_neg (hin x hx)])
  refine ⟨b', h1, h2, ?_, ?_⟩
  · rw [h4, hbyte, store8, if_pos rfl]
  · intro x hx hne; rw [h4, hbyte, store8, if_neg hne]; exact entered_outside b ra hx

/-! ### The machine of words -/

/-- The call of a helper on the machine of words, from the state before the call to the state after it. -/
def WordHelper (abs : Abs → Word) (f : String) (m m' : Mach σ) : Prop :=
  ∃ code ra, helperCode f = some code ∧ hwrun abs (m.push ra) code = some (ra, m')

/-- What the source makes of the helpers: `unsafe` adds, `toTaggedInt` and `toUntaggedInt` change the representation of a
number, `readInt` and `writeInt` read and write a cell. -/
inductive HelperSpec : String → List (Option Word) → Store σ → Word → Store σ → Prop
  | add (a : Word) (k : BitVec 63) (S : Store σ) :
      HelperSpec "unsafe" [some a, some (Val.int k).enc, none] S (a + k.signExtend 64) S
  | tag (w : Word) (S : Store σ) : HelperSpec "toTaggedInt" [some w] S (Val.int (w.setWidth 63)).enc S
  | untag (k : BitVec 63) (S : Store σ) : HelperSpec "toUntaggedInt" [some (Val.int k).enc] S (k.signExtend 64) S
  | read (a : Word) (k : BitVec 63) (v : Val) (S : Store σ) : S.heap (a + k.signExtend 64 * 8) = some v →
      HelperSpec "readInt" [some a, some (Val.int k).enc] S v.enc S
  | write (a : Word) (k : BitVec 63) (v : Val) (S S' : Store σ) : S.write (a + k.signExtend 64 * 8) v = some S' →
      HelperSpec "writeInt" [some a, some (Val.int k).enc, some v.enc] S (a + k.signExtend 64 * 8) S'

/-- After `enter`. -/
def wentered (m : Mach σ) (ra : Word) : Mach σ :=
  let m1 := (m.push ra).push (m.reg .rbp)
  (m1.set .rbp (m1.reg .rsp)).set .rsp (m1.reg .rsp - BitVec.ofNat 64 0)

def hwbody (abs : Abs → Word) : Mach σ → List HIns → Option (Mach σ)
  | m, [] => some m
  | m, i :: is => (hwexec abs m i).bind (fun m' => hwbody abs m' is)

theorem hwbody_ret {abs : Abs → Word} {m : Mach σ} {is : List HIns} (h : HIns.ins .ret ∉ is) (js : List HIns) :
    hwrun abs m (is ++ js) = (hwbody abs m is).bind (fun m' => hwrun abs m' js) := by
  induction is generalizing m with
  | nil => rfl
  | cons i is ih =>
    simp only [List.mem_cons, not_or] at h
    rw [List.cons_append, hwrun, if_neg (Ne.symm h.1), hwbody]
    cases hwexec abs m i with
    | none => rfl
    | some m' => exact ih h.2

theorem wentered_regs (m : Mach σ) (ra : Word) : (wentered m ra).reg .rbp = m.reg .rsp - 16 ∧
    ∀ r, r ≠ .rsp → r ≠ .rbp → (wentered m ra).reg r = m.reg r := by
  refine ⟨?_, fun r h h' => ?_⟩
  · simp [wentered, Mach.set, Mach.push, Mach.store]; exact sub16 _
  · simp [wentered, Mach.set, Mach.push, Mach.store, h, h']

theorem wentered_mem (m : Mach σ) (ra : Word) :
    (wentered m ra).mem = fun x => if x = m.reg .rsp - 16 then m.reg .rbp else if x = m.reg .rsp - 8 then ra else m.mem x := by
  funext x
  show (if x = m.reg .rsp - 8 - 8 then m.reg .rbp else if x = m.reg .rsp - 8 then ra else m.mem x) = _
  rw [sub16]

theorem wframe_run {abs : Abs → Word} {m e : Mach σ} {ra : Word} {body : List HIns} (hr : HIns.ins .ret ∉ body)
    (hb : hwbody abs (wentered m ra) body = some e) (hbp : e.reg .rbp = m.reg .rsp - 16)
    (h1 : e.mem (m.reg .rsp - 16) = m.reg .rbp) (h2 : e.mem (m.reg .rsp - 8) = ra) :
    hwrun abs (m.push ra) (inFrame body) =
      some (ra, { e with reg := fun r => if r = .rsp then m.reg .rsp else if r = .rbp then m.reg .rbp else e.reg r }) := by
  have e0 : hwrun abs (m.push ra) (inFrame body) = hwrun abs (wentered m ra) (body ++ [.ins .leave, .ins .ret]) := by
    rw [inFrame, hwrun, if_neg (by simp)]
    show ((some _).bind _) = _
    rw [Option.bind_some]
    congr 1
  have e8 : m.reg .rsp - 16 + 8 = m.reg .rsp - 8 := by rw [← sub16, BitVec.sub_add_cancel]
  rw [e0, hwbody_ret hr, hb, Option.bind_some, hwrun, if_neg (by simp)]
  simp only [hwexec, exec, Option.bind_some]
  rw [hwrun, if_pos rfl]
  simp only [Mach.set, if_pos, hbp, h1, reduceCtorEq, if_false, e8, h2, BitVec.sub_add_cancel]
  congr 2
  congr 1
  funext r
  cases r <;> simp

/-- A helper with a frame whose body keeps the registers and writes at most one cell outside of the stack. -/
theorem whelper {f : String} {body : List HIns} {abs : Abs → Word} {m : Mach σ} {S S' : Store σ} {w : Word}
    (hc : helperCode f = some (inFrame body)) (hr : HIns.ins .ret ∉ body) (hlim : lim + 16 ≤ (m.reg .rsp).toNat)
    (htop : (m.reg .rsp).toNat < top) (hrel : Rel lim top S m)
    (hb : ∀ ra, ∃ e, hwbody abs (wentered m ra) body = some e ∧ e.reg .rbp = (wentered m ra).reg .rbp ∧ e.reg .rax = w ∧
      e.ext = m.ext ∧ ((e.mem = (wentered m ra).mem ∧ S' = S) ∨
        ∃ a v, S.write a v = some S' ∧ e.mem = ((wentered m ra).store a v.enc).mem)) :
    (∃ m', WordHelper abs f m m') ∧ ∀ m', WordHelper abs f m m' → Kept top m m' ∧ Rel lim top S' m' ∧ m'.reg .rax = w := by
  have hs := (m.reg .rsp).isLt
  have t16 : (m.reg .rsp - 16).toNat = (m.reg .rsp).toNat - 16 := by
    rw [BitVec.toNat_sub_of_le]
    · rfl
    · rw [BitVec.le_def]; show 16 ≤ _; omega
  have t8 : (m.reg .rsp - 8).toNat = (m.reg .rsp).toNat - 8 := by
    rw [BitVec.toNat_sub_of_le]
    · rfl
    · rw [BitVec.le_def]; show 8 ≤ _; omega
  have key : ∀ ra, ∃ m', hwrun abs (m.push ra) (inFrame body) = some (ra, m') ∧ Kept top m m' ∧ Rel lim top S' m' ∧ m'.reg .rax = w := by
    intro ra
    obtain ⟨e, he, hbp, hax, hext, hmem⟩ := hb ra
    have hrelw : Rel lim top S (wentered m ra) := by
      refine hrel.stack ?_ rfl
      intro x hx
      rw [wentered_mem]
      have n1 : x ≠ m.reg .rsp - 16 := fun h => hx (by rw [h]; omega)
      have n2 : x ≠ m.reg .rsp - 8 := fun h => hx (by rw [h]; omega)
      simp only [if_neg n1, if_neg n2]
    have hk : (∀ x : Word, lim ≤ x.toNat → x.toNat < top → e.mem x = (wentered m ra).mem x) ∧ Rel lim top S' e := by
      rcases hmem with ⟨h1, h2⟩ | ⟨a, v, h1, h2⟩
      · subst h2
        exact ⟨fun x _ _ => by rw [h1], hrelw.congr h1 hext⟩
      · have := hrelw.write h1 (m' := e) hext h2
        exact ⟨this.2, this.1⟩
    have h1 : e.mem (m.reg .rsp - 16) = m.reg .rbp := by
      rw [hk.1 _ (by omega) (by omega), wentered_mem]; simp
    have h2 : e.mem (m.reg .rsp - 8) = ra := by
      rw [hk.1 _ (by omega) (by omega), wentered_mem]; simp
    refine ⟨_, wframe_run hr he (by rw [hbp, (wentered_regs m ra).1]) h1 h2, ⟨?_, ?_, ?_⟩, ?_, ?_⟩
    · simp
    · simp
    · intro x hx hx'
      show e.mem x = m.mem x
      rw [hk.1 x (by omega) hx', wentered_mem]
      have n1 : x ≠ m.reg .rsp - 16 := fun h => by rw [h] at hx; omega
      have n2 : x ≠ m.reg .rsp - 8 := fun h => by rw [h] at hx; omega
      simp only [if_neg n1, if_neg n2]
    · exact hk.2.congr rfl rfl
    · simpa using hax
  refine ⟨?_, ?_⟩
  · obtain ⟨m', h, -⟩ := key 0
    exact ⟨m', _, 0, hc, h⟩
  · rintro m' ⟨code, ra, hc', hrun'⟩
    rw [hc] at hc'
    cases hc'
    obtain ⟨m'', h, hh⟩ := key ra
    rw [h] at hrun'
    cases hrun'
    exact hh

/-- The hypothesis about external functions in the correctness of the code generator (C34), for the helpers. -/
theorem C72_ext {f : String} (hP : ∀ ws S w S', P.ext f ws S w S' → HelperSpec f ws S w S') (hI : I.cfun f = WordHelper I.abs f)
    (hfind : I.find (.fn f) = none) (hrt : ∀ m m', ¬ I.rt f m m') (hneed : 2 ≤ P.extNeed f) :
    ∀ ws S w S' m, P.ext f ws S w S' → m.aligned →
      lim + 8 * P.extNeed f ≤ (m.reg .rsp).toNat → (m.reg .rsp).toNat < top →
      (∀ (j : Nat) (r : Reg) (x : Word), ws[j]? = some (some x) → argRegs[j]? = some r → m.reg r = x) →
      Rel lim top S m →
      I.find (.fn f) = none ∧ (∀ m', ¬ I.rt f m m') ∧ (∃ m', I.cfun f m m') ∧
      ∀ m', I.cfun f m m' → Kept top m m' ∧ Rel lim top S' m' ∧ m'.reg .rax = w := by
  intro ws S w S' m hp hal hlim htop hargs hrel
  refine ⟨hfind, hrt m, ?_⟩
  rw [hI]
  have hlim' : lim + 16 ≤ (m.reg .rsp).toNat := by omega
  cases hP _ _ _ _ hp with
  | add a k =>
    have a0 : m.reg .rdi = a := hargs 0 .rdi _ rfl rfl
    have a1 : m.reg .rsi = (Val.int k).enc := hargs 1 .rsi _ rfl rfl
    refine whelper (body := unsafeBody) rfl (by decide) hlim' htop hrel (fun ra => ⟨_, rfl, ?_, ?_, rfl, .inl ⟨rfl, rfl⟩⟩)
    · simp [Mach.set, Mach.noFlags]
    · simp [Mach.set, Mach.noFlags, Mach.ea, Cnt.val, (wentered_regs m ra).2, a0, a1, untag_word]
  | tag w =>
    have a0 : m.reg .rdi = w := hargs 0 .rdi _ rfl rfl
    refine whelper (body := toTaggedBody) rfl (by decide) hlim' htop hrel (fun ra => ⟨_, rfl, ?_, ?_, rfl, .inl ⟨rfl, rfl⟩⟩)
    · simp [Mach.set]
    · rw [← tagged_twice]
      simp [Mach.set, Mach.ea, (wentered_regs m ra).2, a0]
  | untag k =>
    have a0 : m.reg .rdi = (Val.int k).enc := hargs 0 .rdi _ rfl rfl
    refine whelper (body := toUntaggedBody) rfl (by decide) hlim' htop hrel (fun ra => ⟨_, rfl, ?_, ?_, rfl, .inl ⟨rfl, rfl⟩⟩)
    · simp [Mach.set, Mach.put, Mach.noFlags]
    · simp [Mach.set, Mach.put, Mach.get, Mach.noFlags, Cnt.val, (wentered_regs m ra).2, a0, untag_word]
  | read a k v _ hv =>
    have a0 : m.reg .rdi = a := hargs 0 .rdi _ rfl rfl
    have a1 : m.reg .rsi = (Val.int k).enc := hargs 1 .rsi _ rfl rfl
    refine whelper (body := readBody 8) rfl (by decide) hlim' htop hrel (fun ra => ⟨_, rfl, ?_, ?_, rfl, .inl ⟨rfl, rfl⟩⟩)
    · simp [Mach.set, Mach.put, Mach.noFlags]
    · have hs := (m.reg .rsp).isLt
      have t16 : (m.reg .rsp - 16).toNat = (m.reg .rsp).toNat - 16 := by
        rw [BitVec.toNat_sub_of_le]
        · rfl
        · rw [BitVec.le_def]; show 16 ≤ _; omega
      have t8 : (m.reg .rsp - 8).toNat = (m.reg .rsp).toNat - 8 := by
        rw [BitVec.toNat_sub_of_le]
        · rfl
        · rw [BitVec.le_def]; show 8 ≤ _; omega
      have hx := hrel.away _ _ hv
      have n1 : a + k.signExtend 64 * 8 ≠ m.reg .rsp - 16 := fun h => hx (by rw [h]; omega)
      have n2 : a + k.signExtend 64 * 8 ≠ m.reg .rsp - 8 := fun h => hx (by rw [h]; omega)
      have : (wentered m ra).mem (a + k.signExtend 64 * 8) = v.enc := by
        rw [wentered_mem]
        simp only [if_neg n1, if_neg n2]
        exact hrel.heap _ _ hv
      rw [← this]
      simp [Mach.set, Mach.put, Mach.get, Mach.noFlags, Mach.ea, Cnt.val, (wentered_regs m ra).2, a0, a1, untag_word]
  | write a k v _ _ hv =>
    have a0 : m.reg .rdi = a := hargs 0 .rdi _ rfl rfl
    have a1 : m.reg .rsi = (Val.int k).enc := hargs 1 .rsi _ rfl rfl
    have a2 : m.reg .rdx = v.enc := hargs 2 .rdx _ rfl rfl
    refine whelper (body := writeBody 8) rfl (by decide) hlim' htop hrel (fun ra => ⟨_, rfl, ?_, ?_, rfl, .inr ⟨_, v, hv, ?_⟩⟩)
    · simp [Mach.set, Mach.put, Mach.store, Mach.noFlags]
    · simp [Mach.set, Mach.put, Mach.store, Mach.noFlags, Mach.ea, Cnt.val, (wentered_regs m ra).2, a0, a1, untag_word]
    · simp [Mach.set, Mach.put, Mach.get, Mach.store, Mach.noFlags, Mach.ea, Cnt.val, (wentered_regs m ra).2, a0, a1, a2, untag_word]

/-! ### Storing a byte and reading it again -/

/-- `set` and `get` of `install/lib/bytes.clara` 9-17: what was written with `untag` is read back through `tag` just if it is
the value of a signed byte. -/
theorem C72_byte_back (n : BitVec 63) :
    (((n.signExtend 64).setWidth 8).signExtend 64).setWidth 63 = n ↔ (-128 ≤ n.toInt ∧ n.toInt < 128) := by
  have e : ((((n.signExtend 64).setWidth 8).signExtend 64).setWidth 63).toInt = ((n.toInt + 128) % 256) - 128 := by
    have h1 : ((n.signExtend 64).setWidth 8).toInt = ((n.toInt + 128) % 256) - 128 := by
      rw [BitVec.toInt_setWidth, BitVec.signExtend, BitVec.toNat_ofInt]
      simp only [Int.bmod]
      have := toInt_bound n
      omega
    have h2 : (((n.signExtend 64).setWidth 8).signExtend 64).setWidth 63 = BitVec.ofInt 63 ((n.signExtend 64).setWidth 8).toInt := by
      apply BitVec.eq_of_toInt_eq
      rw [BitVec.toInt_setWidth, BitVec.signExtend, BitVec.toNat_ofInt, BitVec.toInt_ofInt, h1]
      simp only [Int.bmod]
      omega
    rw [h2, BitVec.toInt_ofInt, h1]
    simp only [Int.bmod]
    omega
  constructor
  · intro h
    rw [h] at e
    omega
  · intro h
    apply BitVec.eq_of_toInt_eq
    rw [e]
    omega

/-! ### Examples -/

/-- A machine with an array of bytes at 4096, the stack at 65536, and the arguments of `writeByte(p, 3, -2)`. -/
def hlpMach : BMach Unit where
  reg := fun | .rdi => 4096 | .rsi => (Val.int 3).enc | .rdx => (-2 : BitVec 64) | .rsp => 65536 | .rbp => 65600 | _ => 7
  byte := fun x => x.setWidth 8
  flags := none
  ext := ()

example : hlpMach.outside 4099 := by unfold BMach.outside; decide

/-- the byte is written and its neighbours stay -/
example : (hrun (fun _ => 0) (hlpMach.push 77) (inFrame (writeBody 1))).map (fun r => (r.1, r.2.byte 4099, r.2.byte 4100, r.2.reg .rsp))
    = some (77, 254, 4, 65536) := by decide

/-- and read with its sign -/
example : (hrun (fun _ => 0) (({ hlpMach with byte := store8 hlpMach.byte 4099 254 } : BMach Unit).push 77) (inFrame (readBody 1))).map
    (fun r => (r.1, r.2.reg .rax, r.2.reg .rbp)) = some (77, -2, 65600) := by decide

/-- `readInt(p, 3)`: the bytes from 4120 on, the lowest first -/
example : (hrun (fun _ => 0) (hlpMach.push 77) (inFrame (readBody 8))).map (fun r => r.2.reg .rax) = some 0x1f1e1d1c1b1a1918 := by decide

/-- A store with one cell, for `writeInt(4096, 3, 9)` on the machine of words. -/
def hlpStore : Store Unit := ⟨fun a => if a = 4120 then some (.int 5) else none, ()⟩

def hlpWords : Mach Unit where
  reg := fun | .rdi => 4096 | .rsi => (Val.int 3).enc | .rdx => (Val.int 9).enc | .rsp => 65536 | .rbp => 65600 | _ => 7
  mem := fun x => if x = 4120 then (Val.int 5).enc else 0
  flags := none
  ext := ()

def hlpAfter : Store Unit := ⟨fun a => if a = 4120 then some (.int 9) else if a = 4120 then some (.int 5) else none, ()⟩

def hlpProg : Prog Unit where
  fns := []
  alloc := "claralloc"
  ioob := "indexOutOfBounds"
  ext := HelperSpec
  rt := fun _ _ _ _ _ => False
  str := fun _ => 0
  fnAddr := fun _ => 0
  extNeed := fun _ => 2

def hlpImage : Image Unit where
  code := []
  opt := false
  base := 0
  isize := fun _ => 1
  str := fun _ => 0
  cfun := fun f => WordHelper (fun | .imm i => BitVec.ofInt 64 i | _ => 0) f
  rt := fun _ _ _ => False

theorem hlpRel : Rel 60000 70000 hlpStore hlpWords := by
  refine ⟨?_, ?_, ?_, rfl⟩
  · intro a v h
    simp only [hlpStore, hlpWords] at h ⊢
    split at h
    · cases h; rename_i e; simp [e]
    · cases h
  · intro a v h
    simp only [hlpStore] at h
    split at h
    · rename_i e; subst e; decide
    · cases h
  · intro a v h
    simp only [hlpStore] at h
    split at h
    · rename_i e; subst e; decide
    · cases h

example : ∃ m', WordHelper (fun | .imm i => BitVec.ofInt 64 i | _ => 0) "writeInt" hlpWords m' ∧ Rel 60000 70000 hlpAfter m' := by
  have h := C72_ext (P := hlpProg) (I := hlpImage) (f := "writeInt") (lim := 60000) (top := 70000) (fun _ _ _ _ h => h)
    (by show WordHelper _ _ = WordHelper _ _; congr 1; funext a; cases a <;> rfl) rfl (fun _ _ h => h) (Nat.le_refl 2)
    [some 4096, some (Val.int 3).enc, some (Val.int 9).enc] hlpStore 4120 hlpAfter hlpWords
    (.write 4096 3 (.int 9) hlpStore hlpAfter rfl) (by unfold Mach.aligned; decide) (by decide) (by decide)
    (by
      intro j r x h1 h2
      match j with
      | 0 => cases h1; cases h2; rfl
      | 1 => cases h1; cases h2; rfl
      | 2 => cases h1; cases h2; rfl
      | j + 3 => simp at h1)
    hlpRel
  obtain ⟨m', hm⟩ := h.2.2.1
  exact ⟨m', hm, (h.2.2.2 m' hm).2.1⟩

end Clara.Props
