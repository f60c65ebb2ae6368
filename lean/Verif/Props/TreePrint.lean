import Verif.Parse.Print
/-
Property C89: the tree that is shown.

The reader knows nothing of the printer: it counts columns of five characters in front of a branch.
-/
namespace Clara.Props
open Clara.Parse

/-! ### Specification -/

/-- Trees of texts. -/
inductive TT
  | node (text : Line) (kids : List TT)

mutual
/-- The tree below a node: its parameters, its left and right operand, its statements. -/
def shownTree (text : Node → Line) : Node → TT
  | .mk op tok a l r ss ps => .node (text (.mk op tok a l r ss ps)) (shownL text ps ++ (shownO text l ++ (shownO text r ++ shownL text ss)))
def shownO (text : Node → Line) : Option Node → List TT
  | none => []
  | some n => [shownTree text n]
def shownL (text : Node → Line) : List Node → List TT
  | [] => []
  | n :: ns => shownTree text n :: shownL text ns
end

/-- The number of columns before a branch, what kind of branch it is, and the text behind it. -/
def columns : Line → Option (Nat × Bool × Line)
  | '│' :: ' ' :: ' ' :: ' ' :: ' ' :: r => (columns r).map (fun x => (x.1 + 1, x.2))
  | ' ' :: ' ' :: ' ' :: ' ' :: ' ' :: r => (columns r).map (fun x => (x.1 + 1, x.2))
  | '├' :: '─' :: '─' :: ' ' :: r => some (0, false, r)
  | '└' :: '─' :: '─' :: ' ' :: r => some (0, true, r)
  | _ => none

/-- A line: a colour and four blanks, then the columns. -/
def readRow (l : Line) : Option (Nat × Bool × Line) := if l.take 9 = yellow ++ "    ".toList then columns (l.drop 9) else none

mutual
/-- A tree as a list of texts with their depths. -/
def outline (d : Nat) : TT → List (Nat × Line)
  | .node t ks => (d, t) :: outlines (d + 1) ks
def outlines (d : Nat) : List TT → List (Nat × Line)
  | [] => []
  | t :: ts => outline d t ++ outlines d ts
end

mutual
/-- The same, with the last of the children marked. -/
def marked (d : Nat) (last : Bool) : TT → List (Nat × Bool × Line)
  | .node t ks => (d, last, t) :: markeds (d + 1) ks
def markeds (d : Nat) : List TT → List (Nat × Bool × Line)
  | [] => []
  | [t] => marked d true t
  | t :: u :: ts => marked d false t ++ markeds d (u :: ts)
end

/-- The claim: the lines are those of the tree, with `└──` at the last child of each node and `├──` at the others. -/
def C89_claim : Prop := ∀ (root : Line) (text : Node → Line) (f : Node → Bool) (ds : List Node),
  (printTree root text f ds).map readRow = (marked 0 true (.node root (shownL text (ds.filter f)))).map some

/-! ### Violations -/

def prTok : Lex.Token := { kind := .identifier, val := [102], pos := 1, line := 1 }

/-- `fn f(x: int) = x`, say: a parameter and an operand. -/
def prFn : Node := nd .exprFnDcl prTok (params := [nd .identifier prTok]) (stmts := [nd .identifier prTok])

/-- The last parameter is shown as the last child, though statements follow. -/
theorem C89_violated : ¬ C89_claim := by
  intro h
  have := h [] (fun _ => []) (fun _ => true) [prFn]
  revert this
  decide

/-- With a filter there may be no last child at all: the first of two declarations alone is shown as if another one followed. -/
theorem C89_violated_filter : ¬ C89_claim := by
  intro h
  have := h [] (fun _ => []) (fun n => match n with | .mk op _ _ _ _ _ _ => op == .structDcl) [nd .structDcl prTok, nd .enumDcl prTok]
  revert this
  decide

/-! ### The tree can be read -/

/-- The texts in front of a line at a depth. -/
inductive Pfx : Nat → Line → Prop
  | zero : Pfx 0 []
  | succ {d : Nat} {p : Line} (b : Bool) : Pfx d p → Pfx (d + 1) (p ++ (if b then "     ".toList else "│    ".toList))

theorem columns_pfx {d : Nat} {p : Line} (h : Pfx d p) : ∀ r, columns (p ++ r) = (columns r).map (fun x => (x.1 + d, x.2)) := by
  induction h with
  | zero => intro r; cases h : columns r <;> simp [h]
  | succ b _ ih =>
    intro r
    rw [List.append_assoc, ih]
    have e : columns ((if b then "     ".toList else "│    ".toList) ++ r) = (columns r).map (fun x => (x.1 + 1, x.2)) := by
      cases b <;> rfl
    rw [e, Option.map_map]
    congr 1
    funext x
    simp only [Function.comp, Prod.mk.injEq, and_true]
    omega

/-- Where the columns begin. -/
def At (d : Nat) (pfx : Line) : Prop := ∃ p, pfx = "    ".toList ++ p ∧ Pfx d p

theorem At.below {d : Nat} {pfx : Line} (h : At d pfx) (b : Bool) : At (d + 1) (below pfx b) := by
  obtain ⟨p, rfl, hp⟩ := h
  exact ⟨_, by rw [Parse.below, List.append_assoc], hp.succ b⟩

theorem readRow_line {d : Nat} {pfx : Line} (h : At d pfx) (b : Bool) (t : Line) : readRow (rowLine pfx b t) = some (d, b, t) := by
  obtain ⟨p, rfl, hp⟩ := h
  have e1 : (rowLine ("    ".toList ++ p) b t).take 9 = yellow ++ "    ".toList := rfl
  have e2 : (rowLine ("    ".toList ++ p) b t).drop 9 = p ++ ((if b then "└── ".toList else "├── ".toList) ++ t) := rfl
  rw [readRow, if_pos e1, e2, columns_pfx hp]
  cases b <;> simp [columns]

/-- Depth and text of a line. -/
def place (l : Line) : Option (Nat × Line) := (readRow l).map (fun x => (x.1, x.2.2))

theorem place_line {d : Nat} {pfx : Line} (h : At d pfx) (b : Bool) (t : Line) : place (rowLine pfx b t) = some (d, t) := by
  rw [place, readRow_line h]; rfl

theorem outlines_append (d : Nat) (a b : List TT) : outlines d (a ++ b) = outlines d a ++ outlines d b := by
  induction a with
  | nil => rfl
  | cons x a ih => simp [outlines, ih]

mutual
theorem rows_outline (text : Node → Line) {d : Nat} {pfx : Line} (h : At d pfx) (b : Bool) :
    ∀ n, (rows text pfx b n).map place = (outline d (shownTree text n)).map some
  | .mk op tok a l r ss ps => by
    have hb := h.below b
    simp only [rows, shownTree, outline, outlines_append, List.map_cons, List.map_append, place_line h, rowsL_outline text hb ps,
      rowsL_outline text hb ss, rowsO_outline text hb false l, rowsO_outline text hb true r]
theorem rowsO_outline (text : Node → Line) {d : Nat} {pfx : Line} (h : At d pfx) (b : Bool) :
    ∀ o, (rowsO text pfx b o).map place = (outlines d (shownO text o)).map some
  | none => rfl
  | some n => by simp [rowsO, shownO, outlines, rows_outline text h b n]
theorem rowsL_outline (text : Node → Line) {d : Nat} {pfx : Line} (h : At d pfx) :
    ∀ ns, (rowsL text pfx ns).map place = (outlines d (shownL text ns)).map some
  | [] => rfl
  | [n] => by simp [rowsL, shownL, outlines, rows_outline text h true n]
  | n :: m :: ns => by
    have := rowsL_outline text h (m :: ns)
    simp only [rowsL, shownL, outlines, List.map_append, rows_outline text h false n] at this ⊢
    rw [this]
end

theorem rowsF_outline (text : Node → Line) (f : Node → Bool) {d : Nat} {pfx : Line} (h : At d pfx) :
    ∀ ns, (rowsF text f pfx ns).map place = (outlines d (shownL text (ns.filter f))).map some
  | [] => rfl
  | [n] => by
    rw [rowsF, List.filter_cons]
    split
    · simp [shownL, outlines, rows_outline text h true n]
    · rfl
  | n :: m :: ns => by
    have ih := rowsF_outline text f h (m :: ns)
    rw [rowsF, List.filter_cons, List.map_append, ih]
    split
    · simp [shownL, outlines, rows_outline text h false n]
    · rfl

/-- **C89**, without the marks of last children: there is one line for each node, in the order of the tree, and as many columns in front of
it as it has ancestors. -/
theorem C89_partial (root : Line) (text : Node → Line) (f : Node → Bool) (ds : List Node) :
    (printTree root text f ds).map place = (outline 0 (.node root (shownL text (ds.filter f)))).map some := by
  have h : At 0 "    ".toList := ⟨[], by simp, .zero⟩
  rw [printTree, List.map_cons, place_line h, rowsF_outline text f (h.below true)]
  rfl

mutual
theorem outline_inj (t u : TT) (d : Nat) (r s : List (Nat × Line)) (hr : ∀ x, r.head? = some x → x.1 ≤ d)
    (hs : ∀ x, s.head? = some x → x.1 ≤ d) (h : outline d t ++ r = outline d u ++ s) : t = u ∧ r = s := by
  match t, u with
  | .node a ks, .node b ls =>
    simp only [outline, List.cons_append, List.cons.injEq, Prod.mk.injEq, true_and] at h
    obtain ⟨rfl, h⟩ := h
    have := outlines_inj ks ls (d + 1) r s (fun x hx => Nat.lt_succ_of_le (hr x hx)) (fun x hx => Nat.lt_succ_of_le (hs x hx)) h
    exact ⟨by rw [this.1], this.2⟩
theorem outlines_inj (ts us : List TT) (d : Nat) (r s : List (Nat × Line)) (hr : ∀ x, r.head? = some x → x.1 < d)
    (hs : ∀ x, s.head? = some x → x.1 < d) (h : outlines d ts ++ r = outlines d us ++ s) : ts = us ∧ r = s := by
  match ts, us with
  | [], [] => exact ⟨rfl, h⟩
  | [], .node b ls :: us =>
    simp only [outlines, outline, List.nil_append, List.cons_append] at h
    have := hr _ (by rw [h]; rfl)
    exact absurd this (Nat.lt_irrefl _)
  | .node b ls :: ts, [] =>
    simp only [outlines, outline, List.nil_append, List.cons_append] at h
    have := hs _ (by rw [← h]; rfl)
    exact absurd this (Nat.lt_irrefl _)
  | t :: ts, u :: us =>
    simp only [outlines, List.append_assoc] at h
    have hd : ∀ (ts : List TT) (r : List (Nat × Line)), (∀ x, r.head? = some x → x.1 < d) →
        ∀ x, (outlines d ts ++ r).head? = some x → x.1 ≤ d := by
      intro ts r hr x hx
      cases ts with
      | nil => exact Nat.le_of_lt (hr x hx)
      | cons t ts =>
        cases t
        simp only [outlines, outline, List.cons_append, List.head?_cons, Option.some.injEq] at hx
        rw [← hx]
        exact Nat.le_refl d
    obtain ⟨h1, h2⟩ := outline_inj t u d _ _ (hd ts r hr) (hd us s hs) h
    obtain ⟨h3, h4⟩ := outlines_inj ts us d r s hr hs h2
    exact ⟨by rw [h1, h3], h4⟩
end

/-- Different trees are shown differently. -/
theorem C89_trees_partial (root : Line) (text : Node → Line) (f : Node → Bool) (ds es : List Node)
    (h : printTree root text f ds = printTree root text f es) : shownL text (ds.filter f) = shownL text (es.filter f) := by
  have h1 := C89_partial root text f ds
  rw [h, C89_partial root text f es] at h1
  have h2 := (List.map_inj_right (fun _ _ e => Option.some.inj e)).1 h1
  have h3 := (outline_inj (.node root (shownL text (es.filter f))) (.node root (shownL text (ds.filter f))) 0 [] [] (by simp) (by simp)
    (by simpa using h2)).1
  injection h3 with _ h4
  exact h4.symm

mutual
/-- Trees whose children are parameters only, or operands only with the last one on the right, or statements that may follow a left
operand. -/
def OneKind : Node → Prop
  | .mk _ _ _ l r ss ps => (ps = [] ∨ l = none ∧ r = none ∧ ss = []) ∧ (r = none ∨ ss = []) ∧ (l = none ∨ r ≠ none ∨ ss ≠ []) ∧
    OneKindO l ∧ OneKindO r ∧ OneKindL ss ∧ OneKindL ps
def OneKindO : Option Node → Prop
  | none => True
  | some n => OneKind n
def OneKindL : List Node → Prop
  | [] => True
  | n :: ns => OneKind n ∧ OneKindL ns
end

theorem markeds_cons (d : Nat) (t : TT) : ∀ ts : List TT, ts ≠ [] → markeds d (t :: ts) = marked d false t ++ markeds d ts
  | [], h => absurd rfl h
  | _ :: _, _ => rfl

mutual
theorem rows_marked (text : Node → Line) {d : Nat} {pfx : Line} (h : At d pfx) (b : Bool) :
    ∀ n, OneKind n → (rows text pfx b n).map readRow = (marked d b (shownTree text n)).map some
  | .mk op tok a l r ss ps, hn => by
    have hb := h.below b
    obtain ⟨h1, h2, h3, hl, hr, hss, hps⟩ := hn
    have is := rowsL_marked text hb ss hss
    have ip := rowsL_marked text hb ps hps
    have irt := rowsO_marked text hb true r hr
    have ilf := rowsO_marked text hb false l hl
    simp only [rows, shownTree, marked, List.map_cons, List.map_append, readRow_line h, List.cons.injEq, true_and]
    rcases h1 with rfl | ⟨rfl, rfl, rfl⟩
    · rcases h2 with rfl | rfl
      · cases l with
        | none => simpa [rowsL, rowsO, shownL, shownO] using is
        | some x =>
          have hne : ss ≠ [] := by simpa using h3
          have hne' : shownL text ss ≠ [] := by
            cases ss with
            | nil => exact absurd rfl hne
            | cons y ys => simp [shownL]
          simp only [shownL, shownO, List.nil_append, List.cons_append, markeds_cons _ _ _ hne', List.map_append, rowsL, List.map_nil, rowsO, is]
          rw [rows_marked text hb false x hl]
      · cases r with
        | none =>
          have : l = none := by simpa using h3
          subst this
          rfl
        | some y =>
          cases l with
          | none => simpa [rowsL, rowsO, shownL, shownO, markeds] using irt
          | some x =>
            have i1 := rows_marked text hb true y hr
            have i2 := rows_marked text hb false x hl
            simp [rowsL, rowsO, shownL, shownO, markeds, i1, i2]
    · simpa [rowsL, rowsO, shownL, shownO] using ip
theorem rowsO_marked (text : Node → Line) {d : Nat} {pfx : Line} (h : At d pfx) (b : Bool) :
    ∀ o, OneKindO o → (rowsO text pfx b o).map readRow = ((shownO text o).flatMap (marked d b)).map some
  | none, _ => rfl
  | some n, hn => by simp [rowsO, shownO, rows_marked text h b n hn]
theorem rowsL_marked (text : Node → Line) {d : Nat} {pfx : Line} (h : At d pfx) :
    ∀ ns, OneKindL ns → (rowsL text pfx ns).map readRow = (markeds d (shownL text ns)).map some
  | [], _ => rfl
  | [n], hn => by simp [rowsL, shownL, markeds, rows_marked text h true n hn.1]
  | n :: m :: ns, hn => by
    have := rowsL_marked text h (m :: ns) hn.2
    simp only [rowsL, shownL, markeds, List.map_append, rows_marked text h false n hn.1] at this ⊢
    rw [this]
end

theorem rowsF_all (text : Node → Line) (pfx : Line) : ∀ ns, rowsF text (fun _ => true) pfx ns = rowsL text pfx ns
  | [] => rfl
  | [_] => rfl
  | n :: m :: ns => by simp [rowsF, rowsL, rowsF_all text pfx (m :: ns)]

/-- **C89** with the marks of last children, without a filter, for trees whose nodes have one kind of children each. -/
theorem C89_marks_partial (root : Line) (text : Node → Line) (ds : List Node) (hds : OneKindL ds) :
    (printTree root text (fun _ => true) ds).map readRow = (marked 0 true (.node root (shownL text ds))).map some := by
  have h : At 0 "    ".toList := ⟨[], by simp, .zero⟩
  rw [printTree, List.map_cons, readRow_line h, rowsF_all, rowsL_marked text (h.below true) ds hds]
  rfl

/-! ### Examples -/

/-- A sum of sums in two statements. -/
example : OneKindL [nd .blockFnDcl prTok (stmts := [nd .add prTok (left := some (nd .add prTok (left := some (nd .lit prTok)) (right := some (nd .lit prTok))))
    (right := some (nd .lit prTok)), nd .identifier prTok])] := by
  simp [OneKindL, OneKind, OneKindO, nd]

/-- The lines of a program with one function. -/
example : (printTree "ROOT".toList (fun n => match n with | .mk op _ _ _ _ _ _ => if op = .exprFnDcl then "f".toList else "x".toList) (fun _ => true)
    [prFn]).map (fun l => String.ofList (l.drop 5)) =
    ["    └── ROOT", "         └── f", "              └── x", "              └── x"] := by decide

/-- Lines that nobody writes. -/
example : readRow "tree".toList = none ∧ place (yellow ++ "    │    ├── x".toList) = some (1, "x".toList) := by decide

end Clara.Props
