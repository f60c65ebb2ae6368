import Verif.Sema.ShowTypes
/-
**C97.**  The output of `-types`.
-/
namespace Clara.Props
open Clara.Show Clara.Format
open Clara.Gen (itoa)

/-! ### Specification -/

/-- At least `n` characters, the text first. -/
def Column (n : Nat) (t out : List Char) : Prop := ∃ k, out = t ++ List.replicate k ' ' ∧ (k = 0 ∨ out.length = n) ∧ n ≤ out.length

/-- The line: a place, an operation with a text, a type, in their colours and columns. -/
def InfoLine (place op text typ out : List Char) : Prop :=
  ∃ a b, Column 60 place a ∧ Column 30 (op ++ '(' :: (text ++ [')'])) b ∧
    out = "⚫ \x1b[33m".toList ++ (a ++ ("\x1b[0m \x1b[31m".toList ++ (b ++ ("\x1b[0m ⇨ \x1b[32m".toList ++ (typ ++ "\x1b[0m\n".toList)))))

/-- The place of a token; nodes made by the compiler have no file. -/
def placeText (n : Show.Node) : List Char :=
  if n.tok.file = [] then "<AST defined>".toList else n.tok.file ++ ':' :: (itoa n.tok.line ++ ':' :: itoa n.tok.pos)

/-- The text of the token: literals as they are, others between quotes. -/
def tokenText (n : Show.Node) : List Char := if n.lit then n.tok.val else '"' :: (n.tok.val ++ ['"'])

def typeText (n : Show.Node) : List Char :=
  match n.typ with
  | some t => t
  | none => "<EMPTY>".toList

/-- Each node is shown with its place, its text and its type. -/
def C97_claim : Prop := ∀ n : Show.Node, InfoLine (placeText n) (nodeTypes n.op) (tokenText n) (typeText n) (printTypeInfo n)

/-! ### Proofs -/

theorem column_padTo (n : Nat) (t : List Char) : Column n t (Gen.padTo n t) := by
  refine ⟨n - t.length, rfl, ?_, ?_⟩
  · unfold Gen.padTo
    rw [List.length_append, List.length_replicate]
    omega
  · unfold Gen.padTo
    rw [List.length_append, List.length_replicate]
    omega

theorem sprintf_info (a b c d e f g h i : List Char) :
    sprintf debugTypeInfoFormat [a, b, c, d, e, f, g, h, i] =
      "⚫ ".toList ++ (a ++ (Gen.padTo 60 b ++ (c ++ (' ' :: (d ++ (Gen.padTo 30 e ++ (f ++ (" ⇨ ".toList ++ (g ++ (h ++ (i ++ ['\n'])))))))))))  := by
  show '⚫' :: ' ' :: ((List.replicate (0 - _) ' ' ++ a) ++ (Gen.padTo 60 b ++ ((List.replicate (0 - _) ' ' ++ c) ++ (' ' ::
    ((List.replicate (0 - _) ' ' ++ d) ++ (Gen.padTo 30 e ++ ((List.replicate (0 - _) ' ' ++ f) ++ (' ' :: '⇨' :: ' ' ::
    ((List.replicate (0 - _) ' ' ++ g) ++ ((List.replicate (0 - _) ' ' ++ h) ++ ((List.replicate (0 - _) ' ' ++ i) ++ ['\n']))))))))))) = _
  simp

theorem sprintf_call (a b : List Char) : sprintf "%s(%s)".toList [a, b] = a ++ '(' :: (b ++ [')']) := by
  show (List.replicate (0 - _) ' ' ++ a) ++ ('(' :: ((List.replicate (0 - _) ' ' ++ b) ++ [')'])) = _
  simp

theorem location_place (n : Show.Node) : location n = placeText n := by
  unfold location placeText
  split
  · rfl
  · show n.tok.file ++ (':' :: (itoa n.tok.line ++ (':' :: (itoa n.tok.pos ++ [])))) = _
    simp

theorem escaped_plain {s : List Char} (h : '%' ∉ s) : escaped s = s := by
  unfold escaped
  induction s with
  | nil => rfl
  | cons c s ih =>
    rw [List.mem_cons, not_or] at h
    rw [List.flatMap_cons, if_neg (fun e => h.1 e.symm), ih h.2]
    rfl

theorem info_line (n : Show.Node) : InfoLine (placeText n) (nodeTypes n.op) (symbolName n) (typeText n) (printTypeInfo n) := by
  refine ⟨_, _, column_padTo 60 _, column_padTo 30 _, ?_⟩
  unfold printTypeInfo
  rw [sprintf_info, sprintf_call, location_place]
  have : n.typ.getD "<EMPTY>".toList = typeText n := by unfold typeText; cases n.typ <;> rfl
  rw [this]
  simp [colYellow, colRed, colGreen, colOff]

/-- Texts without `%` are shown as they are. -/
theorem C97_partial (n : Show.Node) (h : '%' ∉ n.tok.val) : InfoLine (placeText n) (nodeTypes n.op) (tokenText n) (typeText n) (printTypeInfo n) := by
  have := info_line n
  have e : symbolName n = tokenText n := by
    unfold symbolName tokenText
    rw [escaped_plain h]
    rfl
  rwa [e] at this

/-- In general the text has each `%` twice; the rest of the line is right. -/
theorem C97_doubled (n : Show.Node) :
    InfoLine (placeText n) (nodeTypes n.op) (tokenText { n with tok := { n.tok with val := n.tok.val.flatMap (fun c => if c = '%' then "%%".toList else [c]) } })
      (typeText n) (printTypeInfo n) := info_line n

/-- The literal `"%"`. -/
def percentLit : Show.Node := ⟨⟨"a.clara".toList, 1, 2, "\"%\"".toList⟩, .parsed .lit, some "string".toList⟩

example : printTypeInfo percentLit = ("⚫ \x1b[33ma.clara:1:2".toList ++ List.replicate 49 ' ') ++
    ("\x1b[0m \x1b[31mLiteral(\"%%\")".toList ++ List.replicate 17 ' ') ++ "\x1b[0m ⇨ \x1b[32mstring\x1b[0m\n".toList := by decide +kernel

theorem column_det {n : Nat} {t a b : List Char} (ha : Column n t a) (hb : Column n t b) : a = b := by
  obtain ⟨k, rfl, h1, h2⟩ := ha
  obtain ⟨l, rfl, h3, h4⟩ := hb
  simp only [List.length_append, List.length_replicate] at h1 h2 h3 h4
  have : k = l := by omega
  rw [this]

/-- There is one line for a node. -/
theorem C97_unique {p o x t a b : List Char} (ha : InfoLine p o x t a) (hb : InfoLine p o x t b) : a = b := by
  obtain ⟨a1, a2, h1, h2, rfl⟩ := ha
  obtain ⟨b1, b2, h3, h4, rfl⟩ := hb
  rw [column_det h1 h3, column_det h2 h4]

theorem C97_violated : ¬ C97_claim := by
  intro h
  have h1 := h percentLit
  have h3 : InfoLine (placeText percentLit) (nodeTypes percentLit.op) (tokenText percentLit) (typeText percentLit)
      ("⚫ \x1b[33m".toList ++ (Gen.padTo 60 (placeText percentLit) ++ ("\x1b[0m \x1b[31m".toList ++ (Gen.padTo 30 (nodeTypes percentLit.op ++ '(' :: (tokenText percentLit ++ [')']))
        ++ ("\x1b[0m ⇨ \x1b[32m".toList ++ (typeText percentLit ++ "\x1b[0m\n".toList)))))) :=
    ⟨_, _, column_padTo _ _, column_padTo _ _, rfl⟩
  exact absurd (C97_unique h1 h3) (by decide +kernel)

/-! ### Names of operations -/

/-- The operations. -/
def everyOp : List AnyOp := [.block, .root] ++ ([.blockFnDcl, .exprFnDcl, .externFnDcl, .consFnDcl, .funcCall, .typeList, .lit, .add, .sub, .mul, .div, .eq, .not,
  .neg, .dot, .and, .bnot, .band, .bor, .bxor, .bleft, .bright, .identifier, .namedType, .funcType, .array, .arrayType, .ret, .if_, .while_, .das, .as_, .elseif,
  .else_, .gt, .gte, .lt, .lte, .or, .error, .structDcl, .enumDcl, .match_, .case_, .ternary, .range, .for_, .arrayLit] : List Parse.Op).map .parsed

theorem everyOp_mem (o : AnyOp) : o ∈ everyOp := by
  cases o with
  | parsed p => cases p <;> decide +kernel
  | block => decide +kernel
  | root => decide +kernel

theorem everyOp_names : ∀ o ∈ everyOp, nodeTypes o ≠ [] ∧ ∀ o' ∈ everyOp, nodeTypes o = nodeTypes o' → o = o' := by decide +kernel

/-- Every operation has a name, and no two have the same. -/
theorem C97_ops (o : AnyOp) : nodeTypes o ≠ [] ∧ ∀ o', nodeTypes o = nodeTypes o' → o = o' :=
  ⟨(everyOp_names o (everyOp_mem o)).1, fun o' => (everyOp_names o (everyOp_mem o)).2 o' (everyOp_mem o')⟩

end Clara.Props
