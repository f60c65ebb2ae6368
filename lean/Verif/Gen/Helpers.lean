import Verif.Gen.Bytes
import Verif.Gen.Word
import Verif.Gen.Frame
/-
The functions that `codegen` writes in assembler itself (`codegen.go` 124-147, 325-377), on the machine with a memory of
bytes and, those that touch words only, on the machine of `Gen/Machine.lean`.
-/
namespace Clara.Gen
variable {σ : Type}

/-- The instructions of these functions: those of `Ins` and two that move a byte (`asm.go` 246-247). -/
inductive HIns
  | ins (i : Ins)
  | movsbq (a : MemOp) (d : Reg)
  | movb (s : Reg) (a : MemOp)
  deriving DecidableEq, Repr

/-- `genFnEntry` with no temporaries, a body, and `genFnExit` without a jump over the root map (`codegen.go` 393-418). -/
def inFrame (body : List HIns) : List HIns := .ins (.enter 0) :: (body ++ [.ins .leave, .ins .ret])

/-- `untagAs(asm, Integer, rsi)` (`codegen.go` 871-873). -/
def untagIdx : HIns := .ins (.sar (.imm 1) .rsi)

/-- `genRead` (`codegen.go` 325-334). -/
def readBody (scale : Nat) : List HIns :=
  [untagIdx, if scale = 1 then .movsbq { base := .rdi, idx := some .rsi, scale := scale } .rax
    else .ins (.mov (.mem { base := .rdi, idx := some .rsi, scale := scale }) (.reg .rax))]

/-- `genWrite` (`codegen.go` 336-348). -/
def writeBody (scale : Nat) : List HIns :=
  [untagIdx, .ins (.lea { base := .rdi, idx := some .rsi, scale := scale } .rax),
    if scale = 1 then .movb .rdx { base := .rax } else .ins (.mov (.reg .rdx) (.mem { base := .rax }))]

/-- `genUnsafe` (`codegen.go` 358-363). -/
def unsafeBody : List HIns := [untagIdx, .ins (.lea { base := .rdi, idx := some .rsi } .rax)]

/-- `genToTaggedInt` (`codegen.go` 365-370). -/
def toTaggedBody : List HIns := [.ins (.lea { base := .rdi, disp := 1, idx := some .rdi } .rax)]

/-- `genToUntaggedInt` (`codegen.go` 372-378). -/
def toUntaggedBody : List HIns := [.ins (.sar (.imm 1) .rdi), .ins (.mov (.reg .rdi) (.reg .rax))]

/-- `genFramePointerAccess` (`codegen.go` 350-356). -/
def framePointerCode : List HIns := [.ins (.mov (.reg .rbp) (.reg .rax)), .ins .ret]

/-- The helpers by name (`codegen.go` 124-142). -/
def helperCode (f : String) : Option (List HIns) :=
  if f = "readByte" then some (inFrame (readBody 1))
  else if f = "readInt" then some (inFrame (readBody 8))
  else if f = "writeByte" then some (inFrame (writeBody 1))
  else if f = "writeInt" then some (inFrame (writeBody 8))
  else if f = "getFramePointer" then some framePointerCode
  else if f = "unsafe" then some (inFrame unsafeBody)
  else if f = "toTaggedInt" then some (inFrame toTaggedBody)
  else if f = "toUntaggedInt" then some (inFrame toUntaggedBody)
  else none

/-! ### Bytes -/

def hexec (abs : Abs → Word) (b : BMach σ) : HIns → Option (BMach σ)
  | .ins i => bexec abs b i
  | .movsbq a d => some (b.set d ((b.byte (b.ea a)).signExtend 64))
  | .movb s a => some { b with byte := store8 b.byte (b.ea a) ((b.reg s).setWidth 8) }

/-- Running a function up to its `ret`: where it returns to and the state then. -/
def hrun (abs : Abs → Word) : BMach σ → List HIns → Option (Word × BMach σ)
  | _, [] => none
  | b, i :: is =>
    if i = .ins .ret then some (b.load (b.reg .rsp), b.set .rsp (b.reg .rsp + 8))
    else (hexec abs b i).bind (fun b' => hrun abs b' is)

def hbody (abs : Abs → Word) : BMach σ → List HIns → Option (BMach σ)
  | b, [] => some b
  | b, i :: is => (hexec abs b i).bind (fun b' => hbody abs b' is)

/-- A byte outside of the two words below the stack pointer. -/
def BMach.outside (b : BMach σ) (x : Word) : Prop := 16 ≤ (x - (b.reg .rsp - 16)).toNat

theorem hbody_ret {abs : Abs → Word} {b : BMach σ} {is : List HIns} (h : HIns.ins .ret ∉ is) (js : List HIns) :
    hrun abs b (is ++ js) = (hbody abs b is).bind (fun b' => hrun abs b' js) := by
  induction is generalizing b with
  | nil => rfl
  | cons i is ih =>
    simp only [List.mem_cons, not_or] at h
    rw [List.cons_append, hrun, if_neg (Ne.symm h.1), hbody]
    cases hexec abs b i with
    | none => rfl
    | some b' => exact ih h.2

/-- After `enter`. -/
def BMach.entered (b : BMach σ) (ra : Word) : BMach σ :=
  let m1 := (b.push ra).push (b.reg .rbp)
  (m1.set .rbp (m1.reg .rsp)).set .rsp (m1.reg .rsp - BitVec.ofNat 64 0)

theorem sub16 (w : Word) : w - 8 - 8 = w - 16 := by
  rw [BitVec.sub_sub]; rfl

theorem BMach.push_rsp (b : BMach σ) (w : Word) : (b.push w).reg .rsp = b.reg .rsp - 8 := by simp [BMach.push, BMach.set, BMach.store]

theorem BMach.push_reg (b : BMach σ) (w : Word) {r : Reg} (h : r ≠ .rsp) : (b.push w).reg r = b.reg r := by
  simp [BMach.push, BMach.set, BMach.store, h]

theorem BMach.push_byte (b : BMach σ) (w : Word) : (b.push w).byte = store64 b.byte (b.reg .rsp - 8) w := rfl

theorem entered_rbp (b : BMach σ) (ra : Word) : (b.entered ra).reg .rbp = b.reg .rsp - 16 := by
  simp [BMach.entered, BMach.set, BMach.push_rsp]; exact sub16 _

theorem entered_rsp (b : BMach σ) (ra : Word) : (b.entered ra).reg .rsp = b.reg .rsp - 16 := by
  simp [BMach.entered, BMach.set, BMach.push_rsp]; exact sub16 _

theorem entered_reg (b : BMach σ) (ra : Word) {r : Reg} (h : r ≠ .rsp) (h' : r ≠ .rbp) : (b.entered ra).reg r = b.reg r := by
  simp [BMach.entered, BMach.set, h, h', BMach.push_reg]

theorem entered_byte (b : BMach σ) (ra : Word) :
    (b.entered ra).byte = store64 (store64 b.byte (b.reg .rsp - 8) ra) (b.reg .rsp - 16) (b.reg .rbp) := by
  show ((b.push ra).push (b.reg .rbp)).byte = _
  rw [BMach.push_byte, BMach.push_rsp, BMach.push_byte, sub16]

theorem entered_ext (b : BMach σ) (ra : Word) : (b.entered ra).ext = b.ext := rfl

theorem entered_outside (b : BMach σ) (ra : Word) {x : Word} (h : b.outside x) : (b.entered ra).byte x = b.byte x := by
  unfold BMach.outside at h
  have e : (x - (b.reg .rsp - 16)).toNat = ((x - (b.reg .rsp - 8)) + 8).toNat := by
    congr 1
    rw [show (16 : Word) = 8 + 8 from rfl]
    generalize b.reg .rsp = s
    simp only [BitVec.sub_eq_add_neg, BitVec.neg_add, BitVec.neg_neg]
    ac_rfl
  have h8 : 8 ≤ (x - (b.reg .rsp - 8)).toNat := by
    rw [e] at h
    rw [BitVec.toNat_add] at h
    have : (8 : Word).toNat = 8 := rfl
    have := (x - (b.reg .rsp - 8)).isLt
    omega
  rw [entered_byte, store64, if_neg (by omega), store64, if_neg (by omega)]

theorem entered_old (b : BMach σ) (ra : Word) : load64 (b.entered ra).byte (b.reg .rsp - 16) = b.reg .rbp := by
  rw [entered_byte, load_store]

theorem entered_ret (b : BMach σ) (ra : Word) : load64 (b.entered ra).byte (b.reg .rsp - 8) = ra := by
  rw [entered_byte, load_store_of, load_store]
  intro k hk
  have e : b.reg .rsp - 8 + BitVec.ofNat 64 k - (b.reg .rsp - 16) = BitVec.ofNat 64 (k + 8) := by
    rw [show (16 : Word) = 8 + 8 from rfl, BitVec.ofNat_add]
    generalize b.reg .rsp = s
    simp only [BitVec.sub_eq_add_neg, BitVec.neg_add, BitVec.neg_neg]
    rw [show s + -8 + BitVec.ofNat 64 k + (-s + (8 + 8)) = (s + -s) + (-8 + 8) + (BitVec.ofNat 64 k + 8) by ac_rfl]
    rw [← BitVec.sub_eq_add_neg, BitVec.sub_self, show ((-8 : Word) + 8) = 0 from by decide]
    simp
  rw [e, BitVec.toNat_ofNat]
  omega

/-- A function with a frame: what the body does, and then back to the caller. -/
theorem frame_run {abs : Abs → Word} {b e : BMach σ} {ra : Word} {body : List HIns} (hr : HIns.ins .ret ∉ body)
    (hb : hbody abs (b.entered ra) body = some e) (hbp : e.reg .rbp = b.reg .rsp - 16)
    (hin : ∀ x, ¬ b.outside x → e.byte x = (b.entered ra).byte x) :
    hrun abs (b.push ra) (inFrame body) =
      some (ra, { e with reg := fun r => if r = .rsp then b.reg .rsp else if r = .rbp then b.reg .rbp else e.reg r }) := by
  have l1 : load64 e.byte (b.reg .rsp - 16) = b.reg .rbp := by
    rw [← entered_old b ra]
    apply load_congr
    intro k hk
    apply hin
    unfold BMach.outside
    rw [BitVec.add_comm, BitVec.add_sub_cancel, ofNat_small hk]
    omega
  have l2 : load64 e.byte (b.reg .rsp - 16 + 8) = ra := by
    have e8 : b.reg .rsp - 16 + 8 = b.reg .rsp - 8 := by
      rw [← sub16, BitVec.sub_add_cancel]
    rw [e8, ← entered_ret b ra]
    apply load_congr
    intro k hk
    apply hin
    unfold BMach.outside
    rw [← e8, BitVec.add_assoc, BitVec.add_comm (b.reg .rsp - 16), BitVec.add_sub_cancel, BitVec.toNat_add, ofNat_small hk]
    have : (8 : Word).toNat = 8 := rfl
    omega
  have e0 : hrun abs (b.push ra) (inFrame body) = hrun abs (b.entered ra) (body ++ [.ins .leave, .ins .ret]) := by
    rw [inFrame, hrun, if_neg (by simp)]
    show ((some _).bind _) = _
    rw [Option.bind_some]
    congr 1
  rw [e0, hbody_ret hr, hb, Option.bind_some, hrun, if_neg (by simp)]
  simp only [hexec, bexec, Option.bind_some]
  rw [hrun, if_pos rfl]
  simp only [BMach.load, BMach.set, if_pos, hbp, l1, reduceCtorEq, if_false]
  have e16 : b.reg .rsp - 16 + 8 + 8 = b.reg .rsp := by
    rw [← sub16, BitVec.sub_add_cancel, BitVec.sub_add_cancel]
  simp only [l2, e16]
  congr 2
  congr 1
  funext r
  cases r <;> simp

/-! ### Words -/

def hwexec (abs : Abs → Word) (m : Mach σ) : HIns → Option (Mach σ)
  | .ins i => exec abs m i
  | _ => none

def hwrun (abs : Abs → Word) : Mach σ → List HIns → Option (Word × Mach σ)
  | _, [] => none
  | m, i :: is =>
    if i = .ins .ret then some (m.mem (m.reg .rsp), m.set .rsp (m.reg .rsp + 8))
    else (hwexec abs m i).bind (fun m' => hwrun abs m' is)

/-- The addresses of the words that a function reads or writes. -/
def htouches (abs : Abs → Word) : Mach σ → List HIns → List Word
  | _, [] => []
  | m, .ins i :: is =>
    i.touches m ++ (if i = .ret then [] else match exec abs m i with | some m' => htouches abs m' is | none => [])
  | _, _ :: _ => []

/-- On words and on bytes the functions do the same. -/
theorem words_run {abs : Abs → Word} {m : Mach σ} {b : BMach σ} {is : List HIns} (h : Words m b)
    (ha : ∀ a ∈ htouches abs m is, a.toNat % 8 = 0) {ra : Word} {m' : Mach σ} (hm : hwrun abs m is = some (ra, m')) :
    ∃ b', hrun abs b is = some (ra, b') ∧ Words m' b' := by
  induction is generalizing m b with
  | nil => cases hm
  | cons i is ih =>
    rw [hwrun] at hm
    split at hm
    · rename_i hi
      subst hi
      cases hm
      rw [hrun, if_pos rfl]
      refine ⟨_, ?_, h.set .rsp (m.reg .rsp + 8)⟩
      have := h.mem (m.reg .rsp) (ha _ (by simp [htouches, Ins.touches]))
      simp only [BMach.load, h.reg, this]
    · rename_i hi
      cases i with
      | ins i =>
        have hne : i ≠ .ret := fun e => hi (by rw [e])
        simp only [hwexec] at hm
        cases e : exec abs m i with
        | none => rw [e] at hm; cases hm
        | some m1 =>
          rw [e, Option.bind_some] at hm
          simp only [htouches, List.mem_append, if_neg hne, e] at ha
          obtain ⟨b1, hb1, hw1⟩ := (words_exec h (fun a hh => ha a (.inl hh))).1 m1 e
          obtain ⟨b', hb', hw'⟩ := ih hw1 (fun a hh => ha a (.inr hh)) hm
          refine ⟨b', ?_, hw'⟩
          rw [hrun, if_neg hi]
          show (bexec abs b i).bind _ = _
          rw [hb1]
          exact hb'
      | movsbq a d => cases hm
      | movb s a => cases hm

end Clara.Gen
