import Verif.Gen.Top
/-
Specification of integer and boolean expressions over mathematical integers, independent of bit
vectors, tags and the semantics of `Sem.lean`.
-/
namespace Clara.Gen
variable {σ : Type}

/-- The number in `[-2^62, 2^62)` that is congruent to `z` modulo `2^63`. -/
def wrap (z : Int) : Int := (z + 2 ^ 62) % 2 ^ 63 - 2 ^ 62

/-- Bit `i` of the two's complement representation of `z`. -/
def bit (z : Int) (i : Nat) : Bool := (z / 2 ^ i) % 2 == 1

inductive ZOp
  | add | sub | mul | div | and | or | xor | shl | shr
  deriving DecidableEq, Repr

/-- Meaning of the operators on integers.  Shift counts are taken modulo 64. -/
def ZOp.den : ZOp → Int → Int → Int → Prop
  | .add, x, y, z => z = wrap (x + y)
  | .sub, x, y, z => z = wrap (x - y)
  | .mul, x, y, z => z = wrap (x * y)
  | .div, x, y, z => y ≠ 0 ∧ z = wrap (x.tdiv y)
  | .and, x, y, z => wrap z = z ∧ ∀ i, bit z i = (bit x i && bit y i)
  | .or, x, y, z => wrap z = z ∧ ∀ i, bit z i = (bit x i || bit y i)
  | .xor, x, y, z => wrap z = z ∧ ∀ i, bit z i = (bit x i ^^ bit y i)
  | .shl, x, y, z => z = wrap (x * 2 ^ (y % 64).toNat)
  | .shr, x, y, z => z = x / 2 ^ (y % 64).toNat

inductive ZCmp
  | gt | ge | lt | le | eq
  deriving DecidableEq, Repr

def ZCmp.den : ZCmp → Int → Int → Bool
  | .gt, x, y => decide (x > y)
  | .ge, x, y => decide (x ≥ y)
  | .lt, x, y => decide (x < y)
  | .le, x, y => decide (x ≤ y)
  | .eq, x, y => decide (x = y)

mutual
/-- Integer expressions over integer variables. -/
inductive ZE
  | lit (z : Int)
  | var (x : Nat)
  | bin (o : ZOp) (a b : ZE)
  | neg (a : ZE)
  | not (a : ZE)
  | ite (c : BE) (a b : ZE)
/-- Boolean expressions over integer and boolean variables. -/
inductive BE
  | lit (b : Bool)
  | var (x : Nat)
  | cmp (o : ZCmp) (a b : ZE)
  | and (a b : BE)
  | or (a b : BE)
  | not (a : BE)
end

mutual
/-- The expression has this value, a number in `[-2^62, 2^62)`.  `and` and `or` need the values of both
operands. -/
inductive ZE.Val (ρ : Nat → Int) (β : Nat → Bool) : ZE → Int → Prop
  | lit (z) : ZE.Val ρ β (.lit z) (wrap z)
  | var (x) : ZE.Val ρ β (.var x) (ρ x)
  | bin {o a b x y z} : ZE.Val ρ β a x → ZE.Val ρ β b y → o.den x y z → ZE.Val ρ β (.bin o a b) z
  | neg {a x} : ZE.Val ρ β a x → ZE.Val ρ β (.neg a) (wrap (-x))
  | not {a x} : ZE.Val ρ β a x → ZE.Val ρ β (.not a) (-x - 1)
  | iteT {c a b x} : BE.Val ρ β c true → ZE.Val ρ β a x → ZE.Val ρ β (.ite c a b) x
  | iteF {c a b x} : BE.Val ρ β c false → ZE.Val ρ β b x → ZE.Val ρ β (.ite c a b) x
inductive BE.Val (ρ : Nat → Int) (β : Nat → Bool) : BE → Bool → Prop
  | lit (b) : BE.Val ρ β (.lit b) b
  | var (x) : BE.Val ρ β (.var x) (β x)
  | cmp {o a b x y} : ZE.Val ρ β a x → ZE.Val ρ β b y → BE.Val ρ β (.cmp o a b) (o.den x y)
  | and {a b x y} : BE.Val ρ β a x → BE.Val ρ β b y → BE.Val ρ β (.and a b) (x && y)
  | or {a b x y} : BE.Val ρ β a x → BE.Val ρ β b y → BE.Val ρ β (.or a b) (x || y)
  | not {a x} : BE.Val ρ β a x → BE.Val ρ β (.not a) (!x)
end

def tInt : TyR := { kind := .integer }
def tBool : TyR := { kind := .boolean }

def ZOp.op : ZOp → BinOp
  | .add => .add | .sub => .sub | .mul => .mul | .div => .div
  | .and => .band | .or => .bor | .xor => .bxor | .shl => .bleft | .shr => .bright

def ZCmp.op : ZCmp → BinOp
  | .gt => .gt | .ge => .ge | .lt => .lt | .le => .le | .eq => .eq

mutual
/-- The syntax tree the generator sees.  Integer variables are even, boolean variables odd symbols. -/
def ZE.tree : ZE → Expr
  | .lit z => .int z
  | .var x => .var (2 * x) tInt
  | .bin o a b => .bin o.op tInt a.tree b.tree
  | .neg a => .un .neg tInt a.tree
  | .not a => .un .bnot tInt a.tree
  | .ite c a b => .tern tInt c.tree a.tree b.tree
def BE.tree : BE → Expr
  | .lit b => .bool b
  | .var x => .var (2 * x + 1) tBool
  | .cmp o a b => .bin o.op tBool a.tree b.tree
  | .and a b => .bin .and tBool a.tree b.tree
  | .or a b => .bin .or tBool a.tree b.tree
  | .not a => .un .not tBool a.tree
end

/-- The variables hold the values of `ρ` and `β`. -/
def Holds (ρ : Nat → Int) (β : Nat → Bool) (env : Env) (vars : List Nat) : Prop :=
  (∀ x, 2 * x ∈ vars → (∃ n : BitVec 63, env (2 * x) = some (.int n) ∧ n.toInt = ρ x)) ∧
  (∀ x, 2 * x + 1 ∈ vars → env (2 * x + 1) = some (.bool (β x)))

/-- A 63-bit number with its integer value. -/
theorem wrap_range (z : Int) : -2 ^ 62 ≤ wrap z ∧ wrap z < 2 ^ 62 := by
  unfold wrap; omega

theorem wrap_id {z : Int} (h1 : -2 ^ 62 ≤ z) (h2 : z < 2 ^ 62) : wrap z = z := by
  unfold wrap; omega

theorem toInt_ofInt63 (z : Int) : (BitVec.ofInt 63 z).toInt = wrap z := by
  rw [BitVec.toInt_ofInt]
  unfold wrap
  rw [Int.bmod_def]
  split <;> omega

theorem wrap_toInt (n : BitVec 63) : wrap n.toInt = n.toInt :=
  wrap_id (toInt_bound n).1 (toInt_bound n).2

theorem toInt_parity {w : Nat} (n : BitVec (w + 1)) : (n.toInt % 2 == 1) = n.getLsbD 0 := by
  have h1 : n.toInt % 2 = (n.toNat : Int) % 2 := by
    rw [BitVec.toInt_eq_toNat_cond]
    split
    · rfl
    · have : ((2 ^ (w + 1) : Nat) : Int) = 2 * 2 ^ w := by
        rw [Nat.pow_succ]; push_cast; omega
      omega
  have h2 : n.getLsbD 0 = (n.toNat % 2 == 1) := by
    rw [BitVec.getLsbD, Nat.testBit_zero]
    rcases Nat.mod_two_eq_zero_or_one n.toNat with h | h <;> simp [h]
  rw [h1, h2]
  rcases Nat.mod_two_eq_zero_or_one n.toNat with h | h
  · have : (n.toNat : Int) % 2 = 0 := by omega
    simp [h, this]
  · have : (n.toNat : Int) % 2 = 1 := by omega
    simp [h, this]

theorem bit_toInt (n : BitVec 63) (i : Nat) :
    bit n.toInt i = if i < 63 then n.getLsbD i else n.msb := by
  have h := BitVec.toInt_sshiftRight (x := n) (n := i)
  have h2 : n.toInt / 2 ^ i = (n.sshiftRight i).toInt := by
    rw [h, Int.shiftRight_eq_div_pow]
    norm_cast
  rw [bit, h2, toInt_parity, BitVec.getLsbD_sshiftRight]
  simp

theorem eq_of_bits {a : BitVec 63} {z : Int} (hz : wrap z = z)
    (h : ∀ i, i < 63 → bit z i = a.getLsbD i) : a.toInt = z := by
  have : a = BitVec.ofInt 63 z := by
    apply BitVec.eq_of_getLsbD_eq
    intro i hi
    rw [← h i hi]
    have := bit_toInt (BitVec.ofInt 63 z) i
    rw [toInt_ofInt63, hz, if_pos hi] at this
    exact this
  rw [this, toInt_ofInt63, hz]

theorem bit_lsb (a : BitVec 63) {i : Nat} (h : i < 63) : bit a.toInt i = a.getLsbD i := by
  rw [bit_toInt, if_pos h]

/-- The operators on 63-bit words compute the operators on numbers. -/
theorem ZOp.eval_den {o : ZOp} {a b : BitVec 63} {z : Int} (h : o.den a.toInt b.toInt z) :
    ∃ c : BitVec 63, c.toInt = z ∧ o.op.eval (.int a) (.int b) = some (.int c) := by
  have hmod : (b.toInt % 64).toNat = b.toNat % 64 := by
    rw [BitVec.toInt_eq_toNat_cond]
    split <;> omega
  cases o with
  | add =>
    refine ⟨a + b, ?_, rfl⟩
    rw [h, ← toInt_ofInt63, BitVec.ofInt_add, BitVec.ofInt_toInt, BitVec.ofInt_toInt]
  | sub =>
    refine ⟨a - b, ?_, rfl⟩
    rw [h, ← toInt_ofInt63, Int.sub_eq_add_neg, BitVec.ofInt_add, BitVec.ofInt_neg,
      BitVec.ofInt_toInt, BitVec.ofInt_toInt, BitVec.sub_eq_add_neg]
  | mul =>
    refine ⟨a * b, ?_, rfl⟩
    rw [h, ← toInt_ofInt63, BitVec.ofInt_mul, BitVec.ofInt_toInt, BitVec.ofInt_toInt]
  | div =>
    obtain ⟨h0, h⟩ := h
    refine ⟨a.sdiv b, ?_, ?_⟩
    · rw [h, ← toInt_ofInt63, BitVec.toInt_sdiv, BitVec.toInt_ofInt]
    · have : b ≠ 0 := by rintro rfl; exact h0 rfl
      show (if b = 0 then none else some (Val.int (a.sdiv b))) = _
      rw [if_neg this]
  | and =>
    refine ⟨a &&& b, eq_of_bits h.1 ?_, rfl⟩
    intro i hi
    rw [h.2, bit_lsb a hi, bit_lsb b hi, BitVec.getLsbD_and]
  | or =>
    refine ⟨a ||| b, eq_of_bits h.1 ?_, rfl⟩
    intro i hi
    rw [h.2, bit_lsb a hi, bit_lsb b hi, BitVec.getLsbD_or]
  | xor =>
    refine ⟨a ^^^ b, eq_of_bits h.1 ?_, rfl⟩
    intro i hi
    rw [h.2, bit_lsb a hi, bit_lsb b hi, BitVec.getLsbD_xor]
  | shl =>
    refine ⟨a <<< (b.toNat % 64), ?_, rfl⟩
    rw [h, hmod, ← toInt_ofInt63, BitVec.ofInt_mul, BitVec.ofInt_toInt, BitVec.shiftLeft_eq_mul_twoPow]
    congr 2
    apply BitVec.eq_of_toNat_eq
    rw [BitVec.toNat_twoPow]
    have : (2 : Int) ^ (b.toNat % 64) = ((2 ^ (b.toNat % 64) : Nat) : Int) := by norm_cast
    rw [this, BitVec.ofInt_natCast, BitVec.toNat_ofNat]
  | shr =>
    refine ⟨a.sshiftRight (b.toNat % 64), ?_, rfl⟩
    rw [h, hmod, BitVec.toInt_sshiftRight, Int.shiftRight_eq_div_pow]
    norm_cast

theorem ZCmp.eval_den {o : ZCmp} {a b : BitVec 63} :
    o.op.eval (.int a) (.int b) = some (.bool (o.den a.toInt b.toInt)) := by
  cases o
  case eq =>
    show some (Val.bool (decide (a = b))) = some (Val.bool (decide (a.toInt = b.toInt)))
    rw [decide_eq_decide.2 BitVec.toInt_inj.symm]
  all_goals rfl

theorem Holds.left {ρ : Nat → Int} {β : Nat → Bool} {env : Env} {a b : List Nat}
    (h : Holds ρ β env (a ++ b)) : Holds ρ β env a :=
  ⟨fun x hx => h.1 x (by simp [hx]), fun x hx => h.2 x (by simp [hx])⟩

theorem Holds.right {ρ : Nat → Int} {β : Nat → Bool} {env : Env} {a b : List Nat}
    (h : Holds ρ β env (a ++ b)) : Holds ρ β env b :=
  ⟨fun x hx => h.1 x (by simp [hx]), fun x hx => h.2 x (by simp [hx])⟩

mutual
theorem ZE.big {P : Prog σ} {d : Nat} {ρ : Nat → Int} {β : Nat → Bool} {env : Env} {S : Store σ}
    {e : ZE} {z : Int} (h : ZE.Val ρ β e z) (hv : Holds ρ β env e.tree.vars) :
    ∃ n : BitVec 63, n.toInt = z ∧ Big P d (.expr env S e.tree (some (.int n)) S) := by
  cases h with
  | lit z => exact ⟨_, toInt_ofInt63 z, by simpa only [ZE.tree] using Big.int⟩
  | var x =>
    obtain ⟨n, h1, h2⟩ := hv.1 x (by simp [ZE.tree, Expr.vars])
    exact ⟨n, h2, by simpa only [ZE.tree] using Big.var h1⟩
  | bin h1 h2 h3 =>
    simp only [ZE.tree, Expr.vars] at hv
    obtain ⟨n1, rfl, b1⟩ := ZE.big (P := P) (d := d) (S := S) h1 hv.left
    obtain ⟨n2, rfl, b2⟩ := ZE.big (P := P) (d := d) (S := S) h2 hv.right
    obtain ⟨c, hc, he⟩ := ZOp.eval_den h3
    exact ⟨c, hc, by simpa only [ZE.tree] using Big.bin b1 b2 he⟩
  | neg h1 =>
    simp only [ZE.tree, Expr.vars] at hv
    obtain ⟨n1, rfl, b1⟩ := ZE.big (P := P) (d := d) (S := S) h1 hv
    refine ⟨-n1, ?_, by simpa only [ZE.tree] using Big.un b1 rfl⟩
    rw [← toInt_ofInt63, BitVec.ofInt_neg, BitVec.ofInt_toInt]
  | not h1 =>
    simp only [ZE.tree, Expr.vars] at hv
    obtain ⟨n1, rfl, b1⟩ := ZE.big (P := P) (d := d) (S := S) h1 hv
    refine ⟨~~~ n1, ?_, by simpa only [ZE.tree] using Big.un b1 rfl⟩
    rw [BitVec.toInt_not, Int.bmod_def]
    have h1 := toInt_bound n1
    have h2 := BitVec.toInt_eq_toNat_cond n1
    have h3 := n1.isLt
    split at h2 <;> omega
  | iteT hc h1 =>
    simp only [ZE.tree, Expr.vars] at hv
    have bc := BE.big (P := P) (d := d) (S := S) hc hv.left
    obtain ⟨n1, e1, b1⟩ := ZE.big (P := P) (d := d) (S := S) h1 hv.right.left
    exact ⟨n1, e1, by simpa only [ZE.tree] using Big.ternT bc b1⟩
  | iteF hc h1 =>
    simp only [ZE.tree, Expr.vars] at hv
    have bc := BE.big (P := P) (d := d) (S := S) hc hv.left
    obtain ⟨n1, e1, b1⟩ := ZE.big (P := P) (d := d) (S := S) h1 hv.right.right
    exact ⟨n1, e1, by simpa only [ZE.tree] using Big.ternF bc b1⟩

theorem BE.big {P : Prog σ} {d : Nat} {ρ : Nat → Int} {β : Nat → Bool} {env : Env} {S : Store σ}
    {e : BE} {b : Bool} (h : BE.Val ρ β e b) (hv : Holds ρ β env e.tree.vars) :
    Big P d (.expr env S e.tree (some (.bool b)) S) := by
  cases h with
  | lit b => simpa only [BE.tree] using Big.bool
  | var x => simpa only [BE.tree] using Big.var (hv.2 x (by simp [BE.tree, Expr.vars]))
  | cmp h1 h2 =>
    simp only [BE.tree, Expr.vars] at hv
    obtain ⟨n1, rfl, b1⟩ := ZE.big (P := P) (d := d) (S := S) h1 hv.left
    obtain ⟨n2, rfl, b2⟩ := ZE.big (P := P) (d := d) (S := S) h2 hv.right
    simpa only [BE.tree] using Big.bin b1 b2 ZCmp.eval_den
  | and h1 h2 =>
    simp only [BE.tree, Expr.vars] at hv
    simpa only [BE.tree] using Big.bin (BE.big h1 hv.left) (BE.big h2 hv.right) rfl
  | or h1 h2 =>
    simp only [BE.tree, Expr.vars] at hv
    simpa only [BE.tree] using Big.bin (BE.big h1 hv.left) (BE.big h2 hv.right) rfl
  | not h1 =>
    simp only [BE.tree, Expr.vars] at hv
    simpa only [BE.tree] using Big.un (BE.big h1 hv) rfl
end

/-- The tagged representation of a number. -/
theorem enc_tag (n : BitVec 63) : (Val.int n).enc = BitVec.ofInt 64 (2 * n.toInt + 1) := by
  have h := tagged_word n.toNat
  rw [BitVec.ofNat_toNat, BitVec.setWidth_eq] at h
  rw [← h]
  apply BitVec.eq_of_toNat_eq
  rw [BitVec.toNat_ofInt, BitVec.toNat_ofInt, BitVec.toInt_eq_toNat_cond]
  split <;> omega

/-! ### Values of expressions are unique -/

theorem bits_ext {y z : Int} (hy : wrap y = y) (hz : wrap z = z) (h : ∀ i, bit y i = bit z i) : y = z := by
  have h1 : (BitVec.ofInt 63 y).toInt = z := by
    apply eq_of_bits hz
    intro i hi
    rw [← h i, ← bit_lsb _ hi, toInt_ofInt63, hy]
  rw [toInt_ofInt63, hy] at h1
  exact h1

theorem ZOp.den_unique {o : ZOp} {x y z z' : Int} (h : o.den x y z) (h' : o.den x y z') : z = z' := by
  cases o <;> simp only [ZOp.den] at h h'
  case div => rw [h.2, h'.2]
  case and => exact bits_ext h.1 h'.1 (fun i => by rw [h.2, h'.2])
  case or => exact bits_ext h.1 h'.1 (fun i => by rw [h.2, h'.2])
  case xor => exact bits_ext h.1 h'.1 (fun i => by rw [h.2, h'.2])
  all_goals rw [h, h']

mutual
theorem ZE.val_unique {ρ : Nat → Int} {β : Nat → Bool} {e : ZE} {y z : Int} (h1 : ZE.Val ρ β e y)
    (h2 : ZE.Val ρ β e z) : y = z := by
  cases h1 with
  | lit => cases h2; rfl
  | var => cases h2; rfl
  | bin a b c =>
    cases h2 with
    | bin a' b' c' =>
      cases ZE.val_unique a a'; cases ZE.val_unique b b'
      exact ZOp.den_unique c c'
  | neg a => cases h2 with | neg a' => rw [ZE.val_unique a a']
  | not a => cases h2 with | not a' => rw [ZE.val_unique a a']
  | iteT c a =>
    cases h2 with
    | iteT c' a' => exact ZE.val_unique a a'
    | iteF c' a' => cases BE.val_unique c c'
  | iteF c a =>
    cases h2 with
    | iteT c' a' => cases BE.val_unique c c'
    | iteF c' a' => exact ZE.val_unique a a'
theorem BE.val_unique {ρ : Nat → Int} {β : Nat → Bool} {e : BE} {y z : Bool} (h1 : BE.Val ρ β e y)
    (h2 : BE.Val ρ β e z) : y = z := by
  cases h1 with
  | lit => cases h2; rfl
  | var => cases h2; rfl
  | cmp a b => cases h2 with | cmp a' b' => rw [ZE.val_unique a a', ZE.val_unique b b']
  | and a b => cases h2 with | and a' b' => rw [BE.val_unique a a', BE.val_unique b b']
  | or a b => cases h2 with | or a' b' => rw [BE.val_unique a a', BE.val_unique b b']
  | not a => cases h2 with | not a' => rw [BE.val_unique a a']
end

theorem wrap_iff {z : Int} : wrap z = z ↔ -2 ^ 62 ≤ z ∧ z < 2 ^ 62 := by
  unfold wrap; omega

theorem shr_range {x : Int} (h : -2 ^ 62 ≤ x ∧ x < 2 ^ 62) (k : Nat) :
    -2 ^ 62 ≤ x / 2 ^ k ∧ x / 2 ^ k < 2 ^ 62 := by
  have hp : (0 : Int) < 2 ^ k := Int.pow_pos (by decide)
  have h1 : (1 : Int) ≤ 2 ^ k := hp
  constructor
  · rw [Int.le_ediv_iff_mul_le hp]
    have : (2 : Int) ^ 62 * 1 ≤ 2 ^ 62 * 2 ^ k := Int.mul_le_mul_of_nonneg_left h1 (by decide)
    have e : (-2 ^ 62 : Int) * 2 ^ k = -(2 ^ 62 * 2 ^ k) := by rw [Int.neg_mul]
    rw [e]
    omega
  · rw [Int.ediv_lt_iff_lt_mul hp]
    have : (2 : Int) ^ 62 * 1 ≤ 2 ^ 62 * 2 ^ k := Int.mul_le_mul_of_nonneg_left h1 (by decide)
    omega

theorem ZE.val_range {ρ : Nat → Int} {β : Nat → Bool} (hρ : ∀ x, wrap (ρ x) = ρ x) {e : ZE} {z : Int}
    (h : ZE.Val ρ β e z) : -2 ^ 62 ≤ z ∧ z < 2 ^ 62 := by
  cases h with
  | lit z => exact wrap_range z
  | var x => exact wrap_iff.1 (hρ x)
  | @bin o a b x y z h1 h2 h3 =>
    cases o <;> simp only [ZOp.den] at h3
    case div => rw [h3.2]; exact wrap_range _
    case and => exact wrap_iff.1 h3.1
    case or => exact wrap_iff.1 h3.1
    case xor => exact wrap_iff.1 h3.1
    case shr => rw [h3]; exact shr_range (ZE.val_range hρ h1) _
    all_goals rw [h3]; exact wrap_range _
  | neg a => exact wrap_range _
  | not a => have := ZE.val_range hρ a; omega
  | iteT c a => exact ZE.val_range hρ a
  | iteF c a => exact ZE.val_range hρ a

mutual
def ZE.noDiv : ZE → Bool
  | .lit _ | .var _ => true
  | .bin o a b => decide (o ≠ .div) && (a.noDiv && b.noDiv)
  | .neg a | .not a => a.noDiv
  | .ite c a b => c.noDiv && (a.noDiv && b.noDiv)
def BE.noDiv : BE → Bool
  | .lit _ | .var _ => true
  | .cmp _ a b => a.noDiv && b.noDiv
  | .and a b | .or a b => a.noDiv && b.noDiv
  | .not a => a.noDiv
end

theorem ZOp.den_exists {o : ZOp} {x y : Int} (hx : wrap x = x) (hy : wrap y = y) (h : o ≠ .div ∨ y ≠ 0) :
    ∃ z, o.den x y z := by
  have ex : (BitVec.ofInt 63 x).toInt = x := by rw [toInt_ofInt63, hx]
  have ey : (BitVec.ofInt 63 y).toInt = y := by rw [toInt_ofInt63, hy]
  cases o
  case div => exact ⟨_, h.resolve_left (fun h => h rfl), rfl⟩
  case and =>
    refine ⟨(BitVec.ofInt 63 x &&& BitVec.ofInt 63 y).toInt, wrap_toInt _, fun i => ?_⟩
    rw [← ex, ← ey, bit_toInt, bit_toInt, bit_toInt, ex, ey]
    split <;> simp
  case or =>
    refine ⟨(BitVec.ofInt 63 x ||| BitVec.ofInt 63 y).toInt, wrap_toInt _, fun i => ?_⟩
    rw [← ex, ← ey, bit_toInt, bit_toInt, bit_toInt, ex, ey]
    split <;> simp
  case xor =>
    refine ⟨(BitVec.ofInt 63 x ^^^ BitVec.ofInt 63 y).toInt, wrap_toInt _, fun i => ?_⟩
    rw [← ex, ← ey, bit_toInt, bit_toInt, bit_toInt, ex, ey]
    split <;> simp
  all_goals exact ⟨_, rfl⟩

mutual
theorem ZE.val_exists {ρ : Nat → Int} {β : Nat → Bool} (hρ : ∀ x, wrap (ρ x) = ρ x) (e : ZE)
    (h : e.noDiv = true) : ∃ z, ZE.Val ρ β e z := by
  cases e with
  | lit z => exact ⟨_, .lit z⟩
  | var x => exact ⟨_, .var x⟩
  | bin o a b =>
    simp only [ZE.noDiv, Bool.and_eq_true, decide_eq_true_eq] at h
    obtain ⟨x, hx⟩ := ZE.val_exists (β := β) hρ a h.2.1
    obtain ⟨y, hy⟩ := ZE.val_exists (β := β) hρ b h.2.2
    obtain ⟨z, hz⟩ := ZOp.den_exists (wrap_iff.2 (ZE.val_range hρ hx)) (wrap_iff.2 (ZE.val_range hρ hy)) (.inl h.1)
    exact ⟨z, .bin hx hy hz⟩
  | neg a => obtain ⟨x, hx⟩ := ZE.val_exists (β := β) hρ a h; exact ⟨_, .neg hx⟩
  | not a => obtain ⟨x, hx⟩ := ZE.val_exists (β := β) hρ a h; exact ⟨_, .not hx⟩
  | ite c a b =>
    simp only [ZE.noDiv, Bool.and_eq_true] at h
    obtain ⟨t, ht⟩ := BE.val_exists (β := β) hρ c h.1
    cases t with
    | true => obtain ⟨x, hx⟩ := ZE.val_exists (β := β) hρ a h.2.1; exact ⟨_, .iteT ht hx⟩
    | false => obtain ⟨x, hx⟩ := ZE.val_exists (β := β) hρ b h.2.2; exact ⟨_, .iteF ht hx⟩
theorem BE.val_exists {ρ : Nat → Int} {β : Nat → Bool} (hρ : ∀ x, wrap (ρ x) = ρ x) (e : BE)
    (h : e.noDiv = true) : ∃ z, BE.Val ρ β e z := by
  cases e with
  | lit z => exact ⟨_, .lit z⟩
  | var x => exact ⟨_, .var x⟩
  | cmp o a b =>
    simp only [BE.noDiv, Bool.and_eq_true] at h
    obtain ⟨x, hx⟩ := ZE.val_exists (β := β) hρ a h.1
    obtain ⟨y, hy⟩ := ZE.val_exists (β := β) hρ b h.2
    exact ⟨_, .cmp hx hy⟩
  | and a b =>
    simp only [BE.noDiv, Bool.and_eq_true] at h
    obtain ⟨x, hx⟩ := BE.val_exists (β := β) hρ a h.1
    obtain ⟨y, hy⟩ := BE.val_exists (β := β) hρ b h.2
    exact ⟨_, .and hx hy⟩
  | or a b =>
    simp only [BE.noDiv, Bool.and_eq_true] at h
    obtain ⟨x, hx⟩ := BE.val_exists (β := β) hρ a h.1
    obtain ⟨y, hy⟩ := BE.val_exists (β := β) hρ b h.2
    exact ⟨_, .or hx hy⟩
  | not a => obtain ⟨x, hx⟩ := BE.val_exists (β := β) hρ a h; exact ⟨_, .not hx⟩
end

theorem Reaches.mono {I : Image σ} {G G' : Cfg σ → Prop} {c : Cfg σ} (h : Reaches I G c)
    (hg : ∀ c, G c → G' c) : Reaches I G' c := by
  induction h with
  | now h => exact .now (hg _ h)
  | step h1 _ ih => exact .step h1 ih

end Clara.Gen
