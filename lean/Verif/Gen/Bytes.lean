import Verif.Gen.Machine
/-
The machine with a memory of bytes.  The machine of `Gen/Machine.lean` has a memory of words; here it is shown that the two
agree as long as the addresses of the words are multiples of eight.
-/
namespace Clara.Gen
variable {σ : Type}

abbrev Bytes := Word → BitVec 8

/-- The word at an address, the lowest byte first. -/
def load64 (b : Bytes) (a : Word) : Word :=
  (b (a + 7) ++ b (a + 6) ++ b (a + 5) ++ b (a + 4) ++ b (a + 3) ++ b (a + 2) ++ b (a + 1) ++ b a : BitVec 64)

def store64 (b : Bytes) (a w : Word) : Bytes := fun x => if (x - a).toNat < 8 then w.extractLsb' (8 * (x - a).toNat) 8 else b x

def store8 (b : Bytes) (a : Word) (w : BitVec 8) : Bytes := fun x => if x = a then w else b x

theorem load64_bit (b : Bytes) (a : Word) {k j : Nat} (hk : k < 8) (hj : j < 8) :
    (load64 b a).getLsbD (8 * k + j) = (b (a + BitVec.ofNat 64 k)).getLsbD j := by
  unfold load64
  match k, hk with
  | 0, _ => simp only [BitVec.getLsbD_append]; simp [hj]
  | 1, _ => simp only [BitVec.getLsbD_append]; rw [if_neg (by omega), if_pos (by omega)]; congr 1; omega
  | 2, _ => simp only [BitVec.getLsbD_append]; rw [if_neg (by omega), if_neg (by omega), if_pos (by omega)]; congr 1; omega
  | 3, _ => simp only [BitVec.getLsbD_append]; rw [if_neg (by omega), if_neg (by omega), if_neg (by omega), if_pos (by omega)]; congr 1; omega
  | 4, _ =>
    simp only [BitVec.getLsbD_append]
    rw [if_neg (by omega), if_neg (by omega), if_neg (by omega), if_neg (by omega), if_pos (by omega)]; congr 1; omega
  | 5, _ =>
    simp only [BitVec.getLsbD_append]
    rw [if_neg (by omega), if_neg (by omega), if_neg (by omega), if_neg (by omega), if_neg (by omega), if_pos (by omega)]; congr 1; omega
  | 6, _ =>
    simp only [BitVec.getLsbD_append]
    rw [if_neg (by omega), if_neg (by omega), if_neg (by omega), if_neg (by omega), if_neg (by omega), if_neg (by omega), if_pos (by omega)]
    congr 1; omega
  | 7, _ =>
    simp only [BitVec.getLsbD_append]
    rw [if_neg (by omega), if_neg (by omega), if_neg (by omega), if_neg (by omega), if_neg (by omega), if_neg (by omega), if_neg (by omega)]
    congr 1; omega

theorem word_ext {v w : Word} (h : ∀ k j : Nat, k < 8 → j < 8 → v.getLsbD (8 * k + j) = w.getLsbD (8 * k + j)) : v = w := by
  apply BitVec.eq_of_getLsbD_eq
  intro i hi
  have := h (i / 8) (i % 8) (by omega) (by omega)
  rwa [Nat.div_add_mod] at this

theorem ofNat_small {k : Nat} (h : k < 8) : (BitVec.ofNat 64 k).toNat = k := by
  rw [BitVec.toNat_ofNat, Nat.mod_eq_of_lt (by omega)]

theorem load_congr {b b' : Bytes} {a : Word} (h : ∀ k : Nat, k < 8 → b' (a + BitVec.ofNat 64 k) = b (a + BitVec.ofNat 64 k)) :
    load64 b' a = load64 b a := by
  apply word_ext
  intro k j hk hj
  rw [load64_bit _ _ hk hj, load64_bit _ _ hk hj, h k hk]

/-- What was stored is read back. -/
theorem load_store (b : Bytes) (a w : Word) : load64 (store64 b a w) a = w := by
  apply word_ext
  intro k j hk hj
  have e : (a + BitVec.ofNat 64 k - a).toNat = k := by
    rw [BitVec.add_comm, BitVec.add_sub_cancel, ofNat_small hk]
  rw [load64_bit _ _ hk hj, store64]
  simp only [e, if_pos hk, BitVec.getLsbD_extractLsb', hj, decide_true, Bool.true_and]

/-- Words that do not overlap. -/
theorem load_store_of {b : Bytes} {a a' w : Word} (h : ∀ k : Nat, k < 8 → 8 ≤ (a' + BitVec.ofNat 64 k - a).toNat) :
    load64 (store64 b a w) a' = load64 b a' := by
  apply load_congr
  intro k hk
  have := h k hk
  rw [store64, if_neg (by omega)]

theorem aligned_apart {a a' : Word} (h : a.toNat % 8 = 0) (h' : a'.toNat % 8 = 0) (hne : a' ≠ a) {k : Nat} (hk : k < 8) :
    8 ≤ (a' + BitVec.ofNat 64 k - a).toNat := by
  have hne' : a'.toNat ≠ a.toNat := fun h => hne (BitVec.eq_of_toNat_eq h)
  have := a.isLt
  have := a'.isLt
  rw [BitVec.toNat_sub, BitVec.toNat_add, ofNat_small hk]
  omega

/-! ### The machine -/

structure BMach (σ : Type) where
  reg : Reg → Word
  byte : Bytes
  flags : Option (Word × Word)
  ext : σ

namespace BMach

def set (m : BMach σ) (r : Reg) (w : Word) : BMach σ := { m with reg := fun r' => if r' = r then w else m.reg r' }

def store (m : BMach σ) (a w : Word) : BMach σ := { m with byte := store64 m.byte a w }

def load (m : BMach σ) (a : Word) : Word := load64 m.byte a

def ea (m : BMach σ) (a : MemOp) : Word :=
  m.reg a.base + (match a.idx with | none => 0 | some r => m.reg r * BitVec.ofNat 64 a.scale) + BitVec.ofInt 64 a.disp

def get (m : BMach σ) : Opd → Word
  | .imm i => BitVec.ofInt 64 i
  | .reg r => m.reg r
  | .mem a => m.load (m.ea a)

def put (m : BMach σ) : Opd → Word → BMach σ
  | .imm _, _ => m
  | .reg r, w => m.set r w
  | .mem a, w => m.store (m.ea a) w

def push (m : BMach σ) (w : Word) : BMach σ := (m.set .rsp (m.reg .rsp - 8)).store (m.reg .rsp - 8) w

def noFlags (m : BMach σ) : BMach σ := { m with flags := none }

def cnt (m : BMach σ) : Cnt → Nat
  | .imm n => n
  | .cl => (m.reg .rcx).toNat % 64

end BMach

/-- The instructions of `exec`. -/
def bexec (abs : Abs → Word) (m : BMach σ) : Ins → Option (BMach σ)
  | .mov s d => some (m.put d (m.get s))
  | .movabs s d => some (m.set d (match s with | .imm i => BitVec.ofInt 64 i | s => abs s))
  | .push s => some (m.push (m.get s))
  | .pop d => some ((m.set .rsp (m.reg .rsp + 8)).set d (m.load (m.reg .rsp)))
  | .lea a d => some (m.set d (m.ea a))
  | .alu o s d => some ((m.set d (o.eval (m.reg d) (m.get s))).noFlags)
  | .not d => some (m.set d (~~~ m.reg d))
  | .neg d => some ((m.set d (- m.reg d)).noFlags)
  | .shl c d => some ((m.set d (m.reg d <<< m.cnt c)).noFlags)
  | .sar c d => some ((m.set d ((m.reg d).sshiftRight (m.cnt c))).noFlags)
  | .cmp s d => some { m with flags := some (m.reg d, m.get s) }
  | .set c =>
    match m.flags with
    | none => none
    | some f => some (m.set .rax ((m.reg .rax &&& ~~~ 0xFF) ||| (if c.holds f then 1 else 0)))
  | .cqo => some (m.set .rdx (if (m.reg .rax).msb then BitVec.allOnes 64 else 0))
  | .idiv s =>
    if m.reg .rdx = (if (m.reg .rax).msb then BitVec.allOnes 64 else 0) ∧ m.reg s ≠ 0 ∧
        ¬ (m.reg .rax = BitVec.intMin 64 ∧ m.reg s = BitVec.allOnes 64) then
      some (((m.set .rax ((m.reg .rax).sdiv (m.reg s))).set .rdx ((m.reg .rax).srem (m.reg s))).noFlags)
    else none
  | .enter n =>
    let m1 := m.push (m.reg .rbp)
    some ((m1.set .rbp (m1.reg .rsp)).set .rsp (m1.reg .rsp - BitVec.ofNat 64 n))
  | .leave =>
    let m1 := m.set .rsp (m.reg .rbp)
    some ((m1.set .rsp (m1.reg .rsp + 8)).set .rbp (m1.load (m1.reg .rsp)))
  | _ => none

/-! ### Agreement -/

/-- The words of `m` are the words at multiples of eight in `b`. -/
structure Words (m : Mach σ) (b : BMach σ) : Prop where
  reg : b.reg = m.reg
  flags : b.flags = m.flags
  ext : b.ext = m.ext
  mem : ∀ a : Word, a.toNat % 8 = 0 → load64 b.byte a = m.mem a

def Opd.touches (m : Mach σ) : Opd → List Word
  | .mem a => [m.ea a]
  | _ => []

/-- The addresses of the words that an instruction reads or writes. -/
def Ins.touches (m : Mach σ) : Ins → List Word
  | .mov s d => s.touches m ++ d.touches m
  | .push s => s.touches m ++ [m.reg .rsp - 8]
  | .pop _ | .ret => [m.reg .rsp]
  | .alu _ s _ | .cmp s _ => s.touches m
  | .enter _ | .call _ | .callReg _ => [m.reg .rsp - 8]
  | .callMem a => [m.ea a, m.reg .rsp - 8]
  | .leave => [m.reg .rbp]
  | _ => []

section
variable {m : Mach σ} {b : BMach σ}

theorem Words.set (h : Words m b) (r : Reg) (w : Word) : Words (m.set r w) (b.set r w) :=
  ⟨by simp only [BMach.set, Mach.set, h.reg], h.flags, h.ext, h.mem⟩

theorem Words.noFlags (h : Words m b) : Words m.noFlags b.noFlags := ⟨h.reg, rfl, h.ext, h.mem⟩

theorem Words.store (h : Words m b) {a : Word} (ha : a.toNat % 8 = 0) (w : Word) : Words (m.store a w) (b.store a w) := by
  refine ⟨h.reg, h.flags, h.ext, ?_⟩
  intro x hx
  simp only [BMach.store, Mach.store]
  by_cases he : x = a
  · subst he; rw [if_pos rfl]; exact load_store _ _ _
  · rw [if_neg he, load_store_of (fun k hk => aligned_apart ha hx he hk)]; exact h.mem x hx

theorem Words.ea (h : Words m b) (a : MemOp) : b.ea a = m.ea a := by
  unfold BMach.ea Mach.ea
  rw [h.reg]
  cases a.idx <;> rfl

theorem Words.get (h : Words m b) (s : Opd) (ha : ∀ a ∈ s.touches m, a.toNat % 8 = 0) : b.get s = m.get s := by
  cases s with
  | imm i => rfl
  | reg r => simp only [BMach.get, Mach.get, h.reg]
  | mem a =>
    simp only [BMach.get, Mach.get, BMach.load, h.ea]
    exact h.mem _ (ha _ (by simp [Opd.touches]))

theorem Words.put (h : Words m b) (d : Opd) (ha : ∀ a ∈ d.touches m, a.toNat % 8 = 0) (w : Word) : Words (m.put d w) (b.put d w) := by
  cases d with
  | imm i => exact h
  | reg r => exact h.set r w
  | mem a =>
    simp only [BMach.put, Mach.put, h.ea]
    exact h.store (ha _ (by simp [Opd.touches])) w

theorem Words.push (h : Words m b) (ha : (m.reg .rsp - 8).toNat % 8 = 0) (w : Word) : Words (m.push w) (b.push w) := by
  simp only [BMach.push, Mach.push, h.reg]
  exact (h.set _ _).store ha w

theorem Words.cnt (h : Words m b) (c : Cnt) : b.cnt c = c.val m := by
  cases c with
  | imm n => rfl
  | cl => simp only [BMach.cnt, Cnt.val, h.reg]

/-- Both machines do the same. -/
theorem words_exec {abs : Abs → Word} {i : Ins} (h : Words m b) (ha : ∀ a ∈ i.touches m, a.toNat % 8 = 0) :
    (∀ m', exec abs m i = some m' → ∃ b', bexec abs b i = some b' ∧ Words m' b') ∧
    (∀ b', bexec abs b i = some b' → ∃ m', exec abs m i = some m' ∧ Words m' b') := by
  have both : ∀ {m' : Mach σ} {b' : BMach σ}, exec abs m i = some m' → bexec abs b i = some b' → Words m' b' →
      (∀ m', exec abs m i = some m' → ∃ b', bexec abs b i = some b' ∧ Words m' b') ∧
      (∀ b', bexec abs b i = some b' → ∃ m', exec abs m i = some m' ∧ Words m' b') := by
    intro m' b' h1 h2 h3
    refine ⟨fun m'' hm => ?_, fun b'' hb => ?_⟩
    · rw [h1] at hm; cases hm; exact ⟨b', h2, h3⟩
    · rw [h2] at hb; cases hb; exact ⟨m', h1, h3⟩
  have none : exec abs m i = none → bexec abs b i = none →
      (∀ m', exec abs m i = some m' → ∃ b', bexec abs b i = some b' ∧ Words m' b') ∧
      (∀ b', bexec abs b i = some b' → ∃ m', exec abs m i = some m' ∧ Words m' b') := by
    intro h1 h2
    refine ⟨fun m'' hm => ?_, fun b'' hb => ?_⟩
    · rw [h1] at hm; cases hm
    · rw [h2] at hb; cases hb
  have hr : ∀ r, b.reg r = m.reg r := fun r => by rw [h.reg]
  cases i with
  | mov s d =>
    simp only [Ins.touches, List.mem_append] at ha
    refine both rfl rfl ?_
    rw [h.get s (fun a hh => ha a (.inl hh))]
    exact h.put d (fun a hh => ha a (.inr hh)) _
  | movabs s d => exact both rfl rfl (h.set _ _)
  | push s =>
    simp only [Ins.touches, List.mem_append, List.mem_singleton] at ha
    refine both rfl rfl ?_
    rw [h.get s (fun a hh => ha a (.inl hh))]
    exact h.push (ha _ (.inr rfl)) _
  | pop d =>
    simp only [Ins.touches, List.mem_singleton] at ha
    refine both rfl rfl ?_
    simp only [BMach.load, hr]
    rw [h.mem _ (ha _ rfl)]
    exact (h.set _ _).set _ _
  | lea a d => refine both rfl rfl ?_; rw [h.ea]; exact h.set _ _
  | alu o s d =>
    refine both rfl rfl ?_
    rw [h.get s ha, hr]
    exact (h.set _ _).noFlags
  | not d => refine both rfl rfl ?_; rw [hr]; exact h.set _ _
  | neg d => refine both rfl rfl ?_; rw [hr]; exact (h.set _ _).noFlags
  | shl c d => refine both rfl rfl ?_; rw [hr, h.cnt]; exact (h.set _ _).noFlags
  | sar c d => refine both rfl rfl ?_; rw [hr, h.cnt]; exact (h.set _ _).noFlags
  | cmp s d =>
    refine both rfl rfl ?_
    rw [h.get s ha, hr]
    exact ⟨h.reg, rfl, h.ext, h.mem⟩
  | set c =>
    have hf := h.flags
    cases e : m.flags with
    | none => exact none (by simp only [exec, e]) (by simp only [bexec, hf, e])
    | some f =>
      refine both (by simp only [exec, e]; rfl) (by simp only [bexec, hf, e]; rfl) ?_
      rw [hr]
      exact h.set _ _
  | cqo => refine both rfl rfl ?_; rw [hr]; exact h.set _ _
  | idiv s =>
    by_cases hc : m.reg .rdx = (if (m.reg .rax).msb then BitVec.allOnes 64 else 0) ∧ m.reg s ≠ 0 ∧
        ¬ (m.reg .rax = BitVec.intMin 64 ∧ m.reg s = BitVec.allOnes 64)
    · refine both (by rw [exec, if_pos hc]) (by rw [bexec, hr, hr, hr, if_pos hc]) ?_
      exact ((h.set _ _).set _ _).noFlags
    · exact none (by rw [exec, if_neg hc]) (by rw [bexec, hr, hr, hr, if_neg hc])
  | enter n =>
    simp only [Ins.touches, List.mem_singleton] at ha
    refine both rfl rfl ?_
    have h1 := h.push (ha _ rfl) (m.reg .rbp)
    rw [hr .rbp, h1.reg]
    exact (h1.set _ _).set _ _
  | leave =>
    simp only [Ins.touches, List.mem_singleton] at ha
    refine both rfl rfl ?_
    have h1 := h.set .rsp (m.reg .rbp)
    have e : ((b.set .rsp (b.reg .rbp)).load ((b.set .rsp (b.reg .rbp)).reg .rsp)) = (m.set .rsp (m.reg .rbp)).mem ((m.set .rsp (m.reg .rbp)).reg .rsp) := by
      rw [hr]
      show load64 b.byte (m.reg .rbp) = m.mem (m.reg .rbp)
      exact h.mem _ (ha _ rfl)
    rw [e, hr, h1.reg]
    exact (h1.set _ _).set _ _
  | jmp _ | jcc _ _ | jmpReg _ | call _ | callReg _ | callMem _ | ret => exact none rfl rfl

/-- One step inside the program; calls of functions outside of the code are not steps here. -/
inductive BStep (I : Image σ) : Nat × BMach σ → Nat × BMach σ → Prop
  | straight {p b i b'} : I.code[p]? = some (.ins i) → i.straight = true → bexec I.abs b i = some b' → BStep I (p, b) (p + 1, b')
  | label {p b l} : I.code[p]? = some (.label l) → BStep I (p, b) (p + 1, b)
  | jmp {p b l q} : I.code[p]? = some (.ins (.jmp l)) → I.find l = some q → BStep I (p, b) (q, b)
  | taken {p b c l f q} : I.code[p]? = some (.ins (.jcc c l)) → b.flags = some f → c.holds f = true → I.find l = some q →
      BStep I (p, b) (q, b)
  | fall {p b c l f} : I.code[p]? = some (.ins (.jcc c l)) → b.flags = some f → c.holds f = false → BStep I (p, b) (p + 1, b)
  | jmpReg {p b r q} : I.code[p]? = some (.ins (.jmpReg r)) → I.pos (b.reg r) = some q → BStep I (p, b) (q, b)
  | ret {p b q} : I.code[p]? = some (.ins .ret) → I.pos (b.load (b.reg .rsp)) = some q → BStep I (p, b) (q, b.set .rsp (b.reg .rsp + 8))
  | call {p b f q} : I.code[p]? = some (.ins (.call f)) → (b.reg .rsp).toNat % 16 = 0 → I.find (.fn f) = some q →
      BStep I (p, b) (q, b.push (I.addr (p + 1)))
  | callReg {p b r q} : I.code[p]? = some (.ins (.callReg r)) → (b.reg .rsp).toNat % 16 = 0 → I.pos (b.reg r) = some q →
      BStep I (p, b) (q, b.push (I.addr (p + 1)))
  | callMem {p b a q} : I.code[p]? = some (.ins (.callMem a)) → (b.reg .rsp).toNat % 16 = 0 → I.pos (b.load (b.ea a)) = some q →
      BStep I (p, b) (q, b.push (I.addr (p + 1)))

/-- A call of a function outside of the code. -/
def Image.leaves (I : Image σ) (p : Nat) : Prop := ∃ f, I.code[p]? = some (.ins (.call f)) ∧ I.find (.fn f) = none

/-- All words that the instruction at `p` touches are at multiples of eight. -/
def Image.even (I : Image σ) (p : Nat) (m : Mach σ) : Prop :=
  ∀ i, I.code[p]? = some (.ins i) → ∀ a ∈ i.touches m, a.toNat % 8 = 0

theorem words_step {I : Image σ} {p : Nat} (h : Words m b) (he : I.even p m) (hl : ¬ I.leaves p) :
    (∀ q m', Step I (p, m) (q, m') → ∃ b', BStep I (p, b) (q, b') ∧ Words m' b') ∧
    (∀ q b', BStep I (p, b) (q, b') → ∃ m', Step I (p, m) (q, m') ∧ Words m' b') := by
  have hr : ∀ r, b.reg r = m.reg r := fun r => by rw [h.reg]
  constructor
  · intro q m' hs
    cases hs with
    | straight hc hi hx =>
      obtain ⟨b', h1, h2⟩ := (words_exec h (he _ hc)).1 _ hx
      exact ⟨b', .straight hc hi h1, h2⟩
    | label hc => exact ⟨b, .label hc, h⟩
    | jmp hc hf => exact ⟨b, .jmp hc hf, h⟩
    | taken hc hf hh hq => exact ⟨b, .taken hc (by rw [h.flags]; exact hf) hh hq, h⟩
    | fall hc hf hh => exact ⟨b, .fall hc (by rw [h.flags]; exact hf) hh, h⟩
    | jmpReg hc hq => exact ⟨b, .jmpReg hc (by rw [hr]; exact hq), h⟩
    | ret hc hq =>
      have := h.mem _ (he _ hc (m.reg .rsp) (by simp [Ins.touches]))
      refine ⟨_, .ret hc (by rw [BMach.load, hr, this]; exact hq), ?_⟩
      rw [hr]; exact h.set _ _
    | call hc ha hq => exact ⟨_, .call hc (by rw [hr]; exact ha) hq, h.push (he _ hc _ (by simp [Ins.touches])) _⟩
    | callC hc ha hn => exact absurd ⟨_, hc, hn⟩ hl
    | callRt hc ha hn => exact absurd ⟨_, hc, hn⟩ hl
    | callReg hc ha hq =>
      exact ⟨_, .callReg hc (by rw [hr]; exact ha) (by rw [hr]; exact hq), h.push (he _ hc _ (by simp [Ins.touches])) _⟩
    | callMem hc ha hq =>
      rename_i a
      have := h.mem _ (he _ hc (m.ea a) (by simp [Ins.touches]))
      exact ⟨_, .callMem hc (by rw [hr]; exact ha) (by rw [BMach.load, h.ea, this]; exact hq),
        h.push (he _ hc _ (by simp [Ins.touches])) _⟩
  · intro q b' hs
    cases hs with
    | straight hc hi hx =>
      obtain ⟨m', h1, h2⟩ := (words_exec h (he _ hc)).2 _ hx
      exact ⟨m', .straight hc hi h1, h2⟩
    | label hc => exact ⟨m, .label hc, h⟩
    | jmp hc hf => exact ⟨m, .jmp hc hf, h⟩
    | taken hc hf hh hq => exact ⟨m, .taken hc (by rw [← h.flags]; exact hf) hh hq, h⟩
    | fall hc hf hh => exact ⟨m, .fall hc (by rw [← h.flags]; exact hf) hh, h⟩
    | jmpReg hc hq => exact ⟨m, .jmpReg hc (by rw [← hr]; exact hq), h⟩
    | ret hc hq =>
      have := h.mem _ (he _ hc (m.reg .rsp) (by simp [Ins.touches]))
      refine ⟨_, .ret hc (by rw [← this]; rw [BMach.load, hr] at hq; exact hq), ?_⟩
      rw [hr]; exact h.set _ _
    | call hc ha hq =>
      exact ⟨_, .call hc (by rw [hr] at ha; exact ha) hq, h.push (he _ hc _ (by simp [Ins.touches])) _⟩
    | callReg hc ha hq =>
      exact ⟨_, .callReg hc (by rw [hr] at ha; exact ha) (by rw [← hr]; exact hq), h.push (he _ hc _ (by simp [Ins.touches])) _⟩
    | callMem hc ha hq =>
      rename_i a
      have := h.mem _ (he _ hc (m.ea a) (by simp [Ins.touches]))
      exact ⟨_, .callMem hc (by rw [hr] at ha; exact ha) (by rw [← this]; rw [BMach.load, h.ea] at hq; exact hq),
        h.push (he _ hc _ (by simp [Ins.touches])) _⟩

end
end Clara.Gen
