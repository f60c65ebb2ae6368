import Verif.Sema.Literal
import Verif.Gen.Sem
set_option linter.unusedVariables false
/-
Property C27: integer literals mean their value.  "`int` - a signed, 63-bit integer defined using decimal
or hexadecimal notation" (`docs/index.md` 59).
-/
namespace Clara.Props
open Clara.Parse Clara.Lex Clara.Sema.Lit

/-! ### Specification -/

/-- The digits `0-9`, `a-f`, `A-F`. -/
inductive Digit : UInt8 → Nat → Prop
  | dec (d : Nat) : d < 10 → Digit (UInt8.ofNat (48 + d)) d
  | lower (d : Nat) : d < 6 → Digit (UInt8.ofNat (97 + d)) (10 + d)
  | upper (d : Nat) : d < 6 → Digit (UInt8.ofNat (65 + d)) (10 + d)

/-- The digits write the number in the base. -/
inductive Numeral (base : Nat) : Bytes → Nat → Prop
  | nil : Numeral base [] 0
  | snoc {ds n c d} : Numeral base ds n → Digit c d → d < base → Numeral base (ds ++ [c]) (n * base + d)

/-- The text of a literal denotes the number: decimal or hexadecimal notation. -/
def Spells (s : Bytes) (k : Nat) : Prop :=
  (s ≠ [] ∧ Numeral 10 s k) ∨ ∃ ds, s = 48 :: 120 :: ds ∧ ds ≠ [] ∧ Numeral 16 ds k

/-- A literal, or one with a minus sign, that denotes the number. -/
inductive Literal : Node → Int → Prop
  | pos {tok k} : tok.kind = .integer → Spells tok.val k → Literal (nd .lit tok) k
  | neg {t tok k} : tok.kind = .integer → Spells tok.val k → Literal (nd .neg t (left := some (nd .lit tok))) (-k)

/-- The code generated for the node evaluates to the number, and does nothing else. -/
def Evaluates (n : Node) (k : Int) : Prop :=
  ∃ e, genLit n = some e ∧ ∀ (σ : Type) (P : Gen.Prog σ) (d : Nat) (ρ : Gen.Env) (S : Gen.Store σ) (w : Option Gen.Val) (S' : Gen.Store σ),
    Gen.Big P d (.expr ρ S e w S') ↔ S' = S ∧ ∃ v : BitVec 63, w = some (.int v) ∧ v.toInt = k

/-- The claim. -/
def C27_claim : Prop := ∀ n k, Literal n k → (fold n).2 = [] → Evaluates (fold n).1 k

/-! ### Lemmas -/

theorem digit_of {c : UInt8} {d : Nat} (h : Digit c d) : digit c = some d := by
  cases h with
  | dec d hd => revert d; decide
  | lower d hd => revert d; decide
  | upper d hd => revert d; decide

theorem run_append {base : Nat} : ∀ (a b : Bytes) (n : Nat), run base n (a ++ b) = (run base n a).bind (fun m => run base m b)
  | [], b, n => rfl
  | c :: a, b, n => by
    simp only [List.cons_append, run]
    cases digit c with
    | none => rfl
    | some d =>
      simp only
      split
      · exact run_append a b _
      · rfl

theorem numeral_run {base : Nat} {ds : Bytes} {k : Nat} (h : Numeral base ds k) : run base 0 ds = some k := by
  induction h with
  | nil => rfl
  | snoc h1 h2 h3 ih =>
    rw [run_append, ih]
    simp [run, digit_of h2, h3]

theorem numeral_all {base : Nat} {ds : Bytes} {k : Nat} (h : Numeral base ds k) : ∀ c ∈ ds, ∃ d, d < base ∧ Digit c d := by
  induction h with
  | nil => simp
  | snoc h1 h2 h3 ih =>
    intro c hc
    rcases List.mem_append.mp hc with hc | hc
    · exact ih c hc
    · rw [List.mem_singleton.mp hc]
      exact ⟨_, h3, h2⟩

theorem digit_dec {c : UInt8} {d : Nat} (h : Digit c d) (hd : d < 10) : 48 ≤ c ∧ c ≤ 57 := by
  cases h with
  | dec d hd => revert d; decide
  | lower d _ => omega
  | upper d _ => omega

/-- Decimal without a leading zero, or the literal `0`, or hexadecimal. -/
def Plain (s : Bytes) : Prop := s.head? ≠ some 48 ∨ s = [48] ∨ ∃ ds, s = 48 :: 120 :: ds

theorem parseUint_spells {s : Bytes} {k : Nat} (h : Spells s k) (hp : Plain s) :
    parseUint s = if k < 2 ^ 64 then .ok k else .error .range := by
  rcases h with ⟨hne, h⟩ | ⟨ds, rfl, hne, h⟩
  · have hr := numeral_run h
    cases s with
    | nil => exact absurd rfl hne
    | cons c cs =>
      rcases hp with hp | hp | ⟨ds, hp⟩
      · have hc : c ≠ 48 := by simpa using hp
        unfold parseUint
        split
        · rename_i heq; cases heq
        · rename_i heq; cases heq; exact absurd rfl hc
        · rename_i heq; cases heq; exact absurd rfl hc
        · exact uintLoop_run (by omega) (by omega) _ _ _ (by omega) hr
      · cases hp
        have : k = 0 := by
          have h0 : run 10 0 [48] = some 0 := by decide
          rw [h0] at hr
          cases hr
          rfl
        subst this
        rfl
      · cases hp
        obtain ⟨d, hd, h2⟩ := numeral_all h 120 (by simp)
        exact absurd (digit_dec h2 hd).2 (by decide)
  · cases ds with
    | nil => exact absurd rfl hne
    | cons c cs =>
      have : parseUint (48 :: 120 :: c :: cs) = uintLoop 16 0 (c :: cs) := by
        simp only [parseUint]
        rw [if_neg (by decide), if_neg (by decide), if_pos (by decide)]
      rw [this]
      exact uintLoop_run (by omega) (by omega) _ _ _ (by omega) (numeral_run h)

theorem spells_cons {s : Bytes} {k : Nat} (h : Spells s k) : ∃ c cs, s = c :: cs ∧ c ≠ 43 ∧ c ≠ 45 := by
  rcases h with ⟨hne, h⟩ | ⟨ds, rfl, hne, h⟩
  · cases s with
    | nil => exact absurd rfl hne
    | cons c cs =>
      obtain ⟨d, hd, h2⟩ := numeral_all h c (by simp)
      refine ⟨c, cs, rfl, ?_, ?_⟩
      · rintro rfl; exact absurd (digit_dec h2 hd).1 (by decide)
      · rintro rfl; exact absurd (digit_dec h2 hd).1 (by decide)
  · exact ⟨48, _, rfl, by decide, by decide⟩

theorem parseInt_digits {s : Bytes} {k : Nat} (h : Spells s k) : parseInt s = signed false (parseUint s) := by
  obtain ⟨c, cs, rfl, h1, h2⟩ := spells_cons h
  unfold parseInt
  split
  · rename_i heq; cases heq
  · rename_i heq; cases heq; exact absurd rfl h1
  · rename_i heq; cases heq; exact absurd rfl h2
  · rfl

theorem parseInt_pos {s : Bytes} {k : Nat} (h : Spells s k) (hp : Plain s) :
    parseInt s = if k < 2 ^ 63 then some (k : Int) else none := by
  rw [parseInt_digits h, parseUint_spells h hp]
  by_cases h1 : k < 2 ^ 64
  · rw [if_pos h1]
    by_cases h2 : k < 2 ^ 63
    · simp [signed, h2]
    · simp [signed, h2, Nat.le_of_not_lt h2]
  · rw [if_neg h1, if_neg (by omega)]
    rfl

theorem parseInt_neg {s : Bytes} {k : Nat} (h : Spells s k) (hp : Plain s) :
    parseInt (45 :: s) = if k ≤ 2 ^ 63 then some (-k : Int) else none := by
  have : parseInt (45 :: s) = signed true (parseUint s) := rfl
  rw [this, parseUint_spells h hp]
  by_cases h1 : k < 2 ^ 64
  · rw [if_pos h1]
    by_cases h2 : k ≤ 2 ^ 63
    · have : ¬ 2 ^ 63 < k := by omega
      simp [signed, h2, this]
    · simp [signed, h2, Nat.lt_of_not_le h2]
  · rw [if_neg h1, if_neg (by omega)]
    rfl

theorem fold_lit (tok : Token) : fold (nd .lit tok) = (nd .lit tok, check .lit tok) := by
  simp [nd, fold, walk, negLit]

theorem fold_neg (t tok : Token) (hk : tok.kind = .integer) : fold (nd .neg t (left := some (nd .lit tok))) =
    (nd .lit { tok with val := 45 :: tok.val }, check .lit { tok with val := 45 :: tok.val }) := by
  simp [nd, fold, negLit, hk]

theorem check_nil {tok : Token} (hk : tok.kind = .integer) : check .lit tok = [] ↔ parseInt tok.val ≠ none := by
  simp [check, hk]

theorem evaluates_iff {tok : Token} {i k : Int} (hi : parseInt tok.val = some i) :
    Evaluates (nd .lit tok) k ↔ (BitVec.ofInt 63 i).toInt = k := by
  constructor
  · rintro ⟨e, he, h⟩
    simp only [genLit, nd, hi, Option.map_some, Option.some.injEq] at he
    subst he
    obtain ⟨-, v, hv, h2⟩ := (h Unit ⟨[], "", "", fun _ => 0, fun _ => 0, fun _ _ _ _ _ => False, fun _ _ _ _ _ => False, fun _ => 0⟩ 0
      (fun _ => none) ⟨fun _ => none, ()⟩ _ _).mp .int
    cases hv
    exact h2
  · intro hk
    refine ⟨.int i, by simp [genLit, nd, hi], fun σ P d ρ S w S' => ⟨fun h => ?_, ?_⟩⟩
    · cases h
      exact ⟨rfl, _, rfl, hk⟩
    · rintro ⟨rfl, v, rfl, hv⟩
      have : v = BitVec.ofInt 63 i := BitVec.eq_of_toInt_eq (by rw [hv, hk])
      rw [this]
      exact .int

theorem ofInt63_iff {i : Int} : (BitVec.ofInt 63 i).toInt = i ↔ -2 ^ 62 ≤ i ∧ i < 2 ^ 62 := by
  rw [BitVec.toInt_ofInt]
  constructor
  · intro h
    rw [← h]
    exact ⟨by rw [Int.bmod_def]; split <;> omega, by rw [Int.bmod_def]; split <;> omega⟩
  · intro h
    exact Int.bmod_eq_of_le (by omega) (by omega)

/-! ### C27 -/

/-- **C27**, the part that holds: a literal without a leading zero, or in hexadecimal notation, is
accepted and evaluates to the number it denotes, if this is a 63-bit integer. -/
theorem C27_partial {n : Node} {k : Int} (h : Literal n k)
    (hp : ∀ tok, n = nd .lit tok ∨ (∃ t, n = nd .neg t (left := some (nd .lit tok))) → Plain tok.val)
    (hk : -2 ^ 62 ≤ k ∧ k < 2 ^ 62) : (fold n).2 = [] ∧ Evaluates (fold n).1 k := by
  cases h with
  | pos hkind hs =>
    rename_i tok k
    have hpl := hp tok (.inl rfl)
    have hi := parseInt_pos hs hpl
    rw [if_pos (by omega)] at hi
    rw [fold_lit]
    exact ⟨(check_nil hkind).mpr (by simp [hi]), (evaluates_iff hi).mpr (ofInt63_iff.mpr hk)⟩
  | neg hkind hs =>
    rename_i t tok k
    have hpl := hp tok (.inr ⟨_, rfl⟩)
    have h2 := parseInt_neg hs hpl
    rw [if_pos (by omega)] at h2
    rw [fold_neg _ _ hkind]
    exact ⟨(check_nil (tok := { tok with val := 45 :: tok.val }) hkind).mpr (by simp [h2]),
      (evaluates_iff (tok := { tok with val := 45 :: tok.val }) h2).mpr (ofInt63_iff.mpr hk)⟩

/-- **C27**, where it holds: such a literal is accepted exactly when its number is a 64-bit integer, and when
accepted it evaluates to its number exactly when this is a 63-bit integer. -/
theorem C27_partial_iff {n : Node} {k : Int} (h : Literal n k)
    (hp : ∀ tok, n = nd .lit tok ∨ (∃ t, n = nd .neg t (left := some (nd .lit tok))) → Plain tok.val) :
    ((fold n).2 = [] ↔ -2 ^ 63 ≤ k ∧ k < 2 ^ 63) ∧ ((fold n).2 = [] → (Evaluates (fold n).1 k ↔ -2 ^ 62 ≤ k ∧ k < 2 ^ 62)) := by
  cases h with
  | pos hkind hs =>
    rename_i tok k
    have hi := parseInt_pos hs (hp tok (.inl rfl))
    rw [fold_lit]
    simp only [check_nil hkind, hi]
    by_cases hlt : k < 2 ^ 63
    · rw [if_pos hlt] at hi ⊢
      refine ⟨by simp; omega, fun _ => ?_⟩
      rw [evaluates_iff hi, ofInt63_iff]
    · rw [if_neg hlt]
      exact ⟨by simp; omega, fun h => absurd rfl h⟩
  | neg hkind hs =>
    rename_i t tok k
    have hpl := hp tok (.inr ⟨_, rfl⟩)
    have h2 := parseInt_neg hs hpl
    rw [fold_neg _ _ hkind]
    simp only [check_nil (tok := { tok with val := 45 :: tok.val }) hkind, h2]
    by_cases hlt : k ≤ 2 ^ 63
    · rw [if_pos hlt] at h2 ⊢
      refine ⟨by simp; omega, fun _ => ?_⟩
      rw [evaluates_iff (tok := { tok with val := 45 :: tok.val }) h2, ofInt63_iff]
    · rw [if_neg hlt]
      exact ⟨by simp; omega, fun h => absurd rfl h⟩

/-- 2^62 in decimal. -/
def litBig : Bytes := [52, 54, 49, 49, 54, 56, 54, 48, 49, 56, 52, 50, 55, 51, 56, 55, 57, 48, 52]

theorem numeral_of : ∀ (ds : List Nat) (n : Nat) (s : Bytes) (base : Nat), base ≤ 10 → Numeral base s n → (∀ d ∈ ds, d < base) →
    Numeral base (s ++ ds.map (fun d => UInt8.ofNat (48 + d))) (ds.foldl (fun n d => n * base + d) n)
  | [], n, s, base, hb, h, hd => by simpa using h
  | d :: ds, n, s, base, hb, h, hd => by
    have h1 := hd d (List.mem_cons_self ..)
    have := numeral_of ds _ _ base hb (h.snoc (.dec d (by omega)) h1) (fun x hx => hd x (List.mem_cons_of_mem _ hx))
    simpa using this

theorem litBig_spells : Spells litBig (2 ^ 62) :=
  .inl ⟨by decide, numeral_of [4, 6, 1, 1, 6, 8, 6, 0, 1, 8, 4, 2, 7, 3, 8, 7, 9, 0, 4] 0 [] 10 (by omega) .nil (by decide)⟩

/-- **C27 is violated**: the literal 4611686018427387904 = 2^62 is accepted, and evaluates to -2^62. -/
theorem C27_violated : ¬ C27_claim := by
  intro h
  have hl : Literal (nd .lit ⟨.integer, litBig, 0, 0⟩) ((2 ^ 62 : Nat) : Int) := .pos rfl litBig_spells
  have hp := C27_partial_iff hl (fun tok ht => by
    rcases ht with ht | ⟨t, ht⟩
    · cases ht; exact .inl (by decide)
    · cases ht)
  have h1 := hp.1.mpr (by decide)
  have := (hp.2 h1).mp (h _ _ hl h1)
  omega

/-- **C27 is violated**: the literal `010` is accepted, and evaluates to 8. -/
theorem C27_violated_octal : ¬ C27_claim := by
  intro h
  have hl : Literal (nd .lit ⟨.integer, [48, 49, 48], 0, 0⟩) ((10 : Nat) : Int) :=
    .pos rfl (.inl ⟨by decide, numeral_of [0, 1, 0] 0 [] 10 (by omega) .nil (by decide)⟩)
  have hi : parseInt (Token.val ⟨.integer, [48, 49, 48], 0, 0⟩) = some 8 := by decide +kernel
  have h1 : (fold (nd .lit ⟨.integer, [48, 49, 48], 0, 0⟩)).2 = [] := by
    rw [fold_lit]
    exact (check_nil rfl).mpr (by rw [hi]; simp)
  have h2 := h _ _ hl h1
  rw [fold_lit, evaluates_iff hi] at h2
  exact absurd h2 (by decide)

/-- An example where it holds: `-0xFF`. -/
theorem C27_example : Literal (nd .neg ⟨.neg, [45], 0, 0⟩ (left := some (nd .lit ⟨.integer, [48, 120, 70, 70], 0, 0⟩))) (-(255 : Nat)) ∧
    (fold (nd .neg ⟨.neg, [45], 0, 0⟩ (left := some (nd .lit ⟨.integer, [48, 120, 70, 70], 0, 0⟩)))).2 = [] ∧
    Evaluates (fold (nd .neg ⟨.neg, [45], 0, 0⟩ (left := some (nd .lit ⟨.integer, [48, 120, 70, 70], 0, 0⟩)))).1 (-255) := by
  have hl : Literal (nd .neg ⟨.neg, [45], 0, 0⟩ (left := some (nd .lit ⟨.integer, [48, 120, 70, 70], 0, 0⟩))) (-(255 : Nat)) :=
    .neg rfl (.inr ⟨[70, 70], rfl, by decide, (Numeral.nil.snoc (.upper 5 (by omega)) (by omega)).snoc (.upper 5 (by omega)) (by omega)⟩)
  refine ⟨hl, C27_partial hl (fun tok ht => ?_) (by decide)⟩
  rcases ht with ht | ⟨t, ht⟩
  · cases ht
  · cases ht
    exact .inr (.inr ⟨_, rfl⟩)

/-! ### Every literal of an accepted program can be read by code generation -/

/-- The fields of a node in which expressions can be, after the grammar of `parse.go`: of functions also the type
parameters and types, of structs and enums the members. -/
def holds : Op → Fld → Bool
  | .lit, _ | .error, _ => false
  | .blockFnDcl, _ | .exprFnDcl, _ | .externFnDcl, _ | .consFnDcl, _ | .funcType, _ => true
  | .typeList, f => f == .params
  | .structDcl, f | .enumDcl, f | .else_, f => f == .stmts
  | .case_, f => f == .params || f == .stmts
  | .funcCall, f => f != .right
  | .if_, f | .elseif, f | .for_, f => f != .params
  | .while_, f | .match_, f | .ternary, f | .arrayLit, f => f == .left || f == .stmts
  | .ret, f | .not, f | .neg, f | .bnot, f | .identifier, f | .namedType, f | .arrayType, f => f == .left
  | _, f => f == .left || f == .right

theorem holds_walk (op : Op) (f : Fld) (h : holds op f = true) : f ∈ walk op := by
  revert h
  cases op <;> cases f <;> decide

mutual
/-- All nodes in which expressions can be have the property. -/
def Every (p : Node → Prop) : Node → Prop
  | .mk op tok a l r ss ps => p (.mk op tok a l r ss ps) ∧ (holds op .left = true → EveryO p l) ∧ (holds op .right = true → EveryO p r) ∧
      (holds op .stmts = true → EveryL p ss) ∧ (holds op .params = true → EveryL p ps)
def EveryO (p : Node → Prop) : Option Node → Prop
  | none => True
  | some n => Every p n
def EveryL (p : Node → Prop) : List Node → Prop
  | [] => True
  | n :: ns => Every p n ∧ EveryL p ns
end

/-- The node is not an integer literal that panics in code generation. -/
def Readable (n : Node) : Prop := ∀ tok a l r ss ps, n = .mk .lit tok a l r ss ps → tok.kind = .integer → genLit n ≠ none

mutual
theorem fold_every : ∀ n : Node, (fold n).2 = [] → Every Readable (fold n).1
  | .mk op tok a l r ss ps, h => by
    have key : ∀ (tok : Token) a l r ss ps, check op tok = [] → Readable (.mk op tok a l r ss ps) := by
      rintro tok a l r ss ps hn tok' a' l' r' ss' ps' heq hk hg
      cases heq
      simp only [check, hk, true_and] at hn
      simp only [genLit, Option.map_eq_none_iff] at hg
      simp [hg] at hn
    simp only [fold] at h ⊢
    cases hn : negLit op l with
    | some t =>
      simp only [hn] at h ⊢
      simp only [Every]
      refine ⟨?_, by simp [holds]⟩
      rintro tok' a' l' r' ss' ps' heq hk hg
      cases heq
      simp only [check, hk, true_and] at h
      simp only [genLit, Option.map_eq_none_iff] at hg
      simp [hg] at h
    | none =>
      simp only [hn, List.append_eq_nil_iff, List.flatMap_eq_nil_iff] at h ⊢
      obtain ⟨h2, h1⟩ := h
      simp only [Every]
      refine ⟨key _ _ _ _ _ _ h2, fun hm => ?_, fun hm => ?_, fun hm => ?_, fun hm => ?_⟩
      · have hm := holds_walk _ _ hm
        have := h1 _ hm
        simp only [if_pos hm] at this ⊢
        exact foldO_every l this
      · have hm := holds_walk _ _ hm
        have := h1 _ hm
        simp only [if_pos hm] at this ⊢
        exact foldO_every r this
      · have hm := holds_walk _ _ hm
        have := h1 _ hm
        simp only [if_pos hm] at this ⊢
        exact foldL_every ss this
      · have hm := holds_walk _ _ hm
        have := h1 _ hm
        simp only [if_pos hm] at this ⊢
        exact foldL_every ps this
theorem foldO_every : ∀ n : Option Node, (foldO n).2 = [] → EveryO Readable (foldO n).1
  | none, _ => trivial
  | some n, h => fold_every n h
theorem foldL_every : ∀ ns : List Node, (foldL ns).2 = [] → EveryL Readable (foldL ns).1
  | [], _ => trivial
  | n :: ns, h => by
    simp only [foldL, List.append_eq_nil_iff] at h
    exact ⟨fold_every n h.1, foldL_every ns h.2⟩
end

/-- **C27**: no integer literal of a program without errors makes code generation panic. -/
theorem C27_no_panic (n : Node) (h : (fold n).2 = []) : Every Readable (fold n).1 := fold_every n h

/-- The node and its children except that of a minus sign keep their kind and their text. -/
def head : Node → Op × Token
  | .mk op tok _ _ _ _ _ => (op, tok)

/-- **C27**: nothing but a minus sign before an integer literal is folded. -/
theorem C27_only (op : Op) (tok : Token) (a : Attrs) (l r : Option Node) (ss ps : List Node)
    (h : ∀ t al ll lr ls lp, op = .neg → l = some (.mk .lit t al ll lr ls lp) → t.kind ≠ .integer) :
    head (fold (.mk op tok a l r ss ps)).1 = (op, tok) := by
  have hn : negLit op l = none := by
    unfold negLit
    split
    · rename_i t al ll lr ls lp
      rw [if_neg (h _ _ _ _ _ _ rfl rfl)]
    · rfl
  simp only [fold, hn, head]

end Clara.Props
