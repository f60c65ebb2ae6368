import Verif.Parse.Sound
import Verif.Parse.Show
set_option linter.unusedVariables false
/-
Properties C08-C12: the parser.

The grammar (`Verif/Parse/Grammar.lean`) describes programs as concrete syntax trees: `toks` are
the tokens of a construct, `node` is the tree it stands for, `Wf` says which tokens stand where and
what may follow.  It does not mention the parser.
-/
namespace Clara.Props
open Clara.Parse
open Clara.Lex (Kind Token Bytes)

/-- A token with nothing but its kind, for examples. -/
def tk (k : Kind) : Token := ⟨k, [], 0, 0⟩

/-! ### C08 The parser terminates on every token stream -/

/-- What `Parse` returns on any nonempty token list. -/
theorem parse_spec (ts : List Token) (h : ts ≠ []) :
    ∃ r s, parseBody { rest := ts } = some (r, s) ∧ parse ts = some (.done s.errs s.root) ∧
      (∀ e ∈ s.errs, e.tok ∈ ts ∧ e.want.text ≠ []) ∧ (s.discard = true → s.errs ≠ []) ∧
      (Wr ts → s.errs = [] → FileG { rest := ts } s true ∨ FileG { rest := ts } s false) := by
  obtain ⟨r, s, h1, h2, h3, h4, h5⟩ := parseBody_spec (s := { rest := ts }) h
  refine ⟨r, s, h1, ?_, ?_, h3.disc (by simp), ?_⟩
  · unfold parse
    rw [show (parseBody.run { rest := ts } : Option (Except Stop Unit × PS)) = _ from h1]
    cases r with
    | ok a => rfl
    | error e =>
      cases e with
      | eof => rfl
      | crash => exact absurd rfl h2
  · obtain ⟨new, e1, e2⟩ := h3.errs
    simp only [List.nil_append] at e1
    rw [e1]
    exact e2
  · intro hw he
    obtain ⟨k1, k2⟩ := h5 ⟨rfl, rfl, hw⟩ he
    cases r with
    | ok a => exact (k1 a rfl).2.elim
    | error e => exact k2 ⟨e, rfl⟩

/-- Every method of the parser, error recovery included, returns on every nonempty token list, and
`Parse` ends without a runtime error: no index outside the list, no call of a missing function. -/
theorem C08_terminates (ts : List Token) (h : ts ≠ []) :
    ∃ errs root, parse ts = some (.done errs root) := by
  obtain ⟨r, s, -, h2, -⟩ := parse_spec ts h
  exact ⟨_, _, h2⟩

/-- Tokens that are no program at all: `} ) « EOF`. -/
example : ∃ errs root, parse [tk .rbrace, tk .rparen, tk .lgmet, tk .eof] = some (.done errs root) :=
  C08_terminates _ (by simp)

/-- The list must not be empty: `Kind` would index outside it.  The lexer always delivers `EOF`. -/
theorem C08_empty : parse [] = some .crash := by
  unfold parse parseBody
  rw [topLoop]
  rfl

/-! ### C12 Syntax errors are located in the source -/

/-- Every error is reported at a token of the input. -/
theorem C12_located (ts : List Token) (h : ts ≠ []) (errs : List SynErr) (root : List Node)
    (hp : parse ts = some (.done errs root)) : ∀ e ∈ errs, e.tok ∈ ts := by
  obtain ⟨r, s, -, h2, h3, -⟩ := parse_spec ts h
  rw [h2, Option.some.injEq, Outcome.done.injEq] at hp
  rw [← hp.1]
  exact fun e he => (h3 e he).1

/-- When the parser ends in recovery, there are errors. -/
theorem C12_recovery (ts : List Token) (h : ts ≠ []) {r : Except Stop Unit} {s : PS}
    (hr : parseBody { rest := ts } = some (r, s)) (hd : s.discard = true) : s.errs ≠ [] := by
  obtain ⟨r', s', h1, -, -, h4, -⟩ := parse_spec ts h
  rw [h1, Option.some.injEq, Prod.mk.injEq] at hr
  rw [← hr.2] at hd ⊢
  exact h4 hd

/-! ### C09 A program accepted without errors was read to its end -/

/-- The full claim: no errors only for programs of the grammar, and the trees are theirs. -/
def C09_claim : Prop := ∀ (ts : List Token) (root : List Node), Wr ts →
  parse ts = some (.done [] root) →
    ∃ (ds : List CD) (e : Token), ts = fileToks ds ++ [e] ∧ e.kind = .eof ∧ FileWf ds .eof ∧ root = ds.map CD.node

/-- `fn f() =` and then the end. -/
def cutToks : List Token := [tk .fn, tk .identifier, tk .lparen, tk .rparen, tk .as, tk .eof]

theorem stops_cut : Stops parseBody { rest := cutToks } .eof (st [] [] [tk .eof]) := by
  unfold parseBody
  refine .now ?_
  rw [topLoop]
  refine .later runs_is (.later (s1 := st [] [] cutToks) (a := {}) rfl (.now ?_))
  unfold topDecl
  refine .later runs_kind (.now ?_)
  unfold parseFn
  refine .later (runs_need rfl (by simp)) (.later (runs_need rfl (by simp)) ?_)
  rw [fnRest]
  refine .later (a := none) rfl (.later (a := [])
    (parseParameters_runs .nil trivial (lp := tk .lparen) (rp := tk .rparen) rfl rfl) (.later (a := none) rfl (.later runs_kind
      (.later (runs_next (by simp)) (.now ?_)))))
  rw [parseExpr]
  exact .now rfl

/-- The claim fails: the panic at the end of the input is swallowed without an error, the function
is dropped and `fn f() =` is accepted as an empty program. -/
theorem C09_violated : ¬ C09_claim := by
  intro h
  have hp : parse cutToks = some (.done [] []) := by
    unfold parse
    rw [show (parseBody.run { rest := cutToks } : Option (Except Stop Unit × PS)) = _ from stops_cut]
    rfl
  obtain ⟨ds, e, h1, h2, h3, h4⟩ := h cutToks [] ⟨[tk .fn, tk .identifier, tk .lparen, tk .rparen, tk .as],
    tk .eof, rfl, rfl, by decide⟩ hp
  cases ds with
  | cons d ds => simp at h4
  | nil =>
    have := congrArg List.length h1
    simp [cutToks, fileToks] at this

/-- Without errors, the input is a sequence of declarations of the grammar, the trees are theirs,
and then either nothing follows or the input breaks off right behind a token that needs an
expression (`=`, `:=`, an operator, `(`, `,`, `while`, ...).  Missing: in the second case the
remaining tokens are dropped without an error. -/
theorem C09_partial (ts : List Token) (root : List Node) (hw : Wr ts) (hp : parse ts = some (.done [] root)) :
    ∃ (ds : List CD) (rest : List Token), ts = fileToks ds ++ rest ∧ FileWf ds (headKind rest .eof) ∧
      root = ds.map CD.node ∧
      ((∃ e, rest = [e] ∧ e.kind = .eof) ∨
        ∃ pre t e, rest = pre ++ [t, e] ∧ e.kind = .eof ∧ wantsExpr t.kind = true) := by
  have hne : ts ≠ [] := by
    obtain ⟨b, e, rfl, -⟩ := hw
    simp
  obtain ⟨r, s, -, h2, -, -, h5⟩ := parse_spec ts hne
  rw [h2, Option.some.injEq, Outcome.done.injEq] at hp
  obtain ⟨he, hr⟩ := hp
  rcases h5 hw he with ⟨ds, d1, rest, d2, d3, d4⟩ | ⟨ds, d1, rest, d2, d3, d4⟩
  · refine ⟨ds, rest, d2, d3, by rw [← hr, d1]; rfl, .inl ?_⟩
    simpa using d4
  · refine ⟨ds, rest, d2, d3, by rw [← hr, d1]; rfl, .inr ?_⟩
    obtain ⟨pre, t, e, e1, e2⟩ : Silent rest := by simpa using d4
    refine ⟨pre, t, e, e1, ?_, e2⟩
    simp only at d2
    rw [d2, e1, show fileToks ds ++ (pre ++ [t, e]) = (fileToks ds ++ pre ++ [t]) ++ [e] by simp] at hw
    exact (Wr.suffix hw (by simp)).single

/-- Exactly the programs of the grammar are accepted without errors, as long as the last token
before `EOF` does not ask for an expression. -/
theorem C09_partial_iff (body : List Token) (e : Token) (he : e.kind = .eof) (hb : ∀ t ∈ body, t.kind ≠ .eof)
    (hl : ∀ t, body.getLast? = some t → wantsExpr t.kind = false) (root : List Node) :
    parse (body ++ [e]) = some (.done [] root) ↔
      ∃ ds : List CD, body = fileToks ds ∧ FileWf ds .eof ∧ root = ds.map CD.node := by
  constructor
  · intro hp
    obtain ⟨ds, rest, h1, h2, h3, h4⟩ := C09_partial _ root ⟨body, e, rfl, he, hb⟩ hp
    rcases h4 with ⟨e', rfl, he'⟩ | ⟨pre, t, e', rfl, -, ht⟩
    · obtain ⟨h5, h6⟩ := List.append_inj' h1 rfl
      exact ⟨ds, h5, by simpa [headKind, he'] using h2, h3⟩
    · rw [show fileToks ds ++ (pre ++ [t, e']) = (fileToks ds ++ pre ++ [t]) ++ [e'] by simp] at h1
      obtain ⟨h5, h6⟩ := List.append_inj' h1 rfl
      rw [hl t (by rw [h5]; simp)] at ht
      cases ht
  · rintro ⟨ds, rfl, h2, rfl⟩
    exact parse_file ds h2 he

/-- Tokens that are no program and do not break off are reported. -/
theorem C12_reported (body : List Token) (e : Token) (he : e.kind = .eof) (hb : ∀ t ∈ body, t.kind ≠ .eof)
    (hl : ∀ t, body.getLast? = some t → wantsExpr t.kind = false)
    (hn : ¬ ∃ ds : List CD, body = fileToks ds ∧ FileWf ds .eof) :
    ∃ err errs root, parse (body ++ [e]) = some (.done (err :: errs) root) ∧ err.tok ∈ body ++ [e] := by
  obtain ⟨errs, root, h⟩ := C08_terminates (body ++ [e]) (by simp)
  cases errs with
  | nil =>
    obtain ⟨ds, h1, h2, -⟩ := (C09_partial_iff body e he hb hl root).mp h
    exact absurd ⟨ds, h1, h2⟩ hn
  | cons err errs => exact ⟨err, errs, root, h, C12_located _ (by simp) _ _ h err (by simp)⟩

/-- `}` alone is reported. -/
theorem rbrace_reported : ∃ err errs root, parse ([tk .rbrace] ++ [tk .eof]) = some (.done (err :: errs) root) ∧
    err.tok ∈ [tk .rbrace] ++ [tk .eof] := by
  refine C12_reported [tk .rbrace] (tk .eof) rfl (by simp [tk]) ?_ ?_
  · intro t ht
    simp only [List.getLast?_singleton, Option.some.injEq] at ht
    rw [← ht]
    rfl
  · rintro ⟨ds, h1, h2⟩
    cases ds with
    | nil => simp [fileToks] at h1
    | cons d ds =>
      have hk : headKind (fileToks (d :: ds)) .eof = .rbrace := by rw [← h1]; rfl
      simp only [FileWf] at h2
      have h3 := h2.1
      have ha : ∀ (a : CAttr) (k : Kind) (r : List Token) (t : Token), a.Wf → t.kind = k → k ≠ .rbrace →
          headKind (a.toks ++ t :: r) .eof ≠ .rbrace := by
        intro a k r t hw hk hne
        cases a with
        | none => simpa [CAttr.toks, headKind, hk] using hne
        | some h lb ids rb => simp [CAttr.toks, headKind, hw.1]
      cases d <;> simp only [CD.Wf] at h3 <;>
        simp only [fileToks, List.flatMap_cons, CD.toks, List.append_assoc, List.cons_append] at hk <;>
        exact ha _ _ _ _ h3.1 h3.2.1 (by decide) hk

/-- `fn main() { return }` is a program. -/
example : parse ([tk .fn, tk .identifier, tk .lparen, tk .rparen, tk .lbrace, tk .ret, tk .rbrace] ++ [tk .eof]) =
    some (.done [] [nd .blockFnDcl (tk .identifier) (stmts := [nd .ret (tk .ret)])]) := by
  refine (C09_partial_iff _ _ rfl (by decide) ?_ _).mpr
    ⟨[.fnB .none (tk .fn) (tk .identifier) ⟨.none, tk .lparen, .nil, tk .rparen, .none⟩ (tk .lbrace)
      (.cons (.ret0 (tk .ret)) .nil) (tk .rbrace)], rfl, ?_, rfl⟩
  · intro t ht
    simp only [List.getLast?_cons_cons, List.getLast?_singleton, Option.some.injEq] at ht
    rw [← ht]
    rfl
  · simp [FileWf, CD.Wf, CAttr.Wf, CSig.Wf, CTps.Wf, CParams.Wf, CRet.Wf, CSs.Wf, CS.Wf, tk, CSs.toks, headKind,
      startsStmtExpr, startsType]

/-! ### C10 Operator precedence and associativity -/

/-- The levels of prefix operators in the operator table: all three bind tighter than `*`. -/
def tableLevel : Kind → Nat
  | .not | .bnot | .min => 11
  | _ => 0

/-- The whole file `fn f() = e`. -/
def exprFile (e : List Token) : List Token :=
  [tk .fn, tk .identifier, tk .lparen, tk .rparen, tk .as] ++ e ++ [tk .eof]

/-- The full claim: a tree written with parentheses only where the table and left associativity ask
for them is read as that tree. -/
def C10_claim : Prop := ∀ (P : Punct) (t : ET), t.Valid →
  parse (exprFile (t.write P tableLevel).toks) =
    some (.done [] [nd .exprFnDcl (tk .identifier) (stmts := [t.node])])

/-- The punctuation of the examples. -/
def punct : Punct := ⟨tk .lparen, tk .rparen, tk .rbrack, tk .colon, tk .comma, rfl, rfl, rfl, rfl, rfl⟩

theorem parse_exprFile (c : CE) (h : c.Wf) :
    parse (exprFile c.toks) = some (.done [] [nd .exprFnDcl (tk .identifier) (stmts := [c.node])]) := by
  have := parse_file (e := tk .eof) [.fnE .none (tk .fn) (tk .identifier) ⟨.none, tk .lparen, .nil, tk .rparen, .none⟩
    (tk .as) c] (by
      simp [FileWf, CD.Wf, CAttr.Wf, CSig.Wf, CTps.Wf, CParams.Wf, CRet.Wf, fileToks, headKind, tk, startsType, binds, h]) rfl
  simpa [fileToks, CD.toks, CAttr.toks, CSig.toks, CTps.toks, CParams.toks, CRet.toks, exprFile, CD.node, CSig.node,
    CAttr.attrs, CParams.nodes, CRet.node, CTps.node] using this

/-- The claim fails for unary minus, which is read with the level of subtraction: `-a * b`, the
product of `-a` and `b`, is read as the negation of `a * b`. -/
theorem C10_violated : ¬ C10_claim := by
  intro h
  have h1 := h punct (.bin (tk .mul) (.un (tk .min) (.ident (tk .identifier))) (.ident (tk .identifier)))
    (by simp [ET.Valid, isBinary, isUnary, tk])
  have h2 := parse_exprFile (.un (tk .min) (.bin (.ident (tk .identifier)) (tk .mul) (.ident (tk .identifier))))
    (by simp [CE.Wf, isBinary, tk, binds1, binds, CE.edge, CE.top])
  have h3 : (ET.write punct tableLevel
      (.bin (tk .mul) (.un (tk .min) (.ident (tk .identifier))) (.ident (tk .identifier)))).toks =
      (CE.un (tk .min) (.bin (.ident (tk .identifier)) (tk .mul) (.ident (tk .identifier)))).toks := by
    simp [ET.write, Out.wrap, tableLevel, tk, binds, CE.toks]
  rw [h3, h2] at h1
  simp [CE.node, ET.node, nd, binOp, unOp, tk] at h1

/-- Trees over all operators are read back when unary minus is written with the level it is read
with: like subtraction (9) instead of like `not` and `~` (11).  Everything else is as in the table:
binary operators associate to the left, the last operand of `?:` to the right. -/
theorem C10_partial (P : Punct) (t : ET) (h : t.Valid) :
    parse (exprFile (t.write P binds1).toks) =
      some (.done [] [nd .exprFnDcl (tk .identifier) (stmts := [t.node])]) := by
  obtain ⟨c, hc⟩ := write_ok P t h
  rw [← hc.toks, ← hc.node]
  exact parse_exprFile c hc.wf

/-- Inside any program: `parseExpr` reads the written tree whatever follows it, as long as that is
no operator. -/
theorem C10_partial_method (P : Punct) (t : ET) (h : t.Valid) (u : Token) (r : List Token) (hu : binds u.kind = 0)
    (es : List SynErr) (rt : List Node) :
    parseExpr 0 ⟨(t.write P binds1).toks ++ u :: r, es, false, rt⟩ = some (.ok t.node, ⟨u :: r, es, false, rt⟩) := by
  obtain ⟨c, hc⟩ := write_ok P t h
  rw [← hc.toks, ← hc.node]
  exact parseExpr_full c hc.wf hu

/-- The written text is as short as any text of the grammar for this tree, so no parentheses are
written that could be left out. -/
theorem C10_minimal (P : Punct) (t : ET) (h : t.Valid) (c : CE) (hc : c.Wf) (hn : c.node = t.node) :
    (t.write P binds1).toks.length ≤ c.toks.length :=
  (write_short P c t h hc hn).len

/-- With unary minus taken like the others the claim holds for trees without unary minus; this is
the table of the language. -/
theorem C10_partial_table (k : Kind) (hk : k ≠ .min) : binds1 k = tableLevel k := by
  cases k <;> first | rfl | exact absurd rfl hk

/-- `a - (b - c) * d`: parentheses where needed, and only there. -/
example : (ET.write punct binds1 (.bin (tk .min) (.ident (tk .identifier))
    (.bin (tk .mul) (.bin (tk .min) (.ident (tk .identifier)) (.ident (tk .identifier))) (.ident (tk .identifier))))).toks =
    [tk .identifier, tk .min, tk .lparen, tk .identifier, tk .min, tk .identifier, tk .rparen, tk .mul, tk .identifier] := by
  simp [ET.write, Out.wrap, binds, tk, punct]

/-! ### C11 Statements and declarations round trip -/

/-- The full claim: declarations that are each fine on their own can be written one after the
other, and statements too. -/
def C11_claim : Prop :=
  (∀ ds : List CD, (∀ d ∈ ds, d.Wf .eof) →
    parse (fileToks ds ++ [tk .eof]) = some (.done [] (ds.map CD.node))) ∧
  (∀ ss : List CS, (∀ s ∈ ss, s.Wf .rbrace) →
    parse ([tk .fn, tk .identifier, tk .lparen, tk .rparen, tk .lbrace] ++ ss.flatMap CS.toks ++ [tk .rbrace, tk .eof]) =
      some (.done [] [nd .blockFnDcl (tk .identifier) (stmts := ss.map CS.node)]))

def CSs.ofList : List CS → CSs
  | [] => .nil
  | s :: r => .cons s (ofList r)

theorem ofList_toks (ss : List CS) : (CSs.ofList ss).toks = ss.flatMap CS.toks := by
  induction ss with
  | nil => rfl
  | cons s r ih => simp [CSs.ofList, CSs.toks, ih]

theorem ofList_nodes (ss : List CS) : (CSs.ofList ss).nodes = ss.map CS.node := by
  induction ss with
  | nil => rfl
  | cons s r ih => simp [CSs.ofList, CSs.nodes, ih]

/-- The statements `ss` in a function. -/
theorem parse_block (ss : CSs) (h : ss.Wf .rbrace) :
    parse ([tk .fn, tk .identifier, tk .lparen, tk .rparen, tk .lbrace] ++ ss.toks ++ [tk .rbrace, tk .eof]) =
      some (.done [] [nd .blockFnDcl (tk .identifier) (stmts := ss.nodes)]) := by
  have := parse_file (e := tk .eof) [.fnB .none (tk .fn) (tk .identifier) ⟨.none, tk .lparen, .nil, tk .rparen, .none⟩
    (tk .lbrace) ss (tk .rbrace)] (by
      simp [FileWf, CD.Wf, CAttr.Wf, CSig.Wf, CTps.Wf, CParams.Wf, CRet.Wf, tk, startsType, h]) rfl
  simpa [fileToks, CD.toks, CAttr.toks, CSig.toks, CTps.toks, CParams.toks, CRet.toks, CD.node, CSig.node,
    CAttr.attrs, CParams.nodes, CRet.node, CTps.node] using this

/-- The claim fails for statements, as nothing separates them: `return` and then `f` is read as
`return f`. -/
theorem C11_violated : ¬ C11_claim := by
  rintro ⟨-, h⟩
  have h1 := h [.ret0 (tk .ret), .expr (.ident (tk .identifier))] (by
    simp [CS.Wf, CE.Wf, tk, startsStmtExpr, CE.toks, headKind, binds])
  have h2 := parse_block (.cons (.ret1 (tk .ret) (.ident (tk .identifier))) .nil) (by
    simp [CSs.Wf, CS.Wf, CE.Wf, tk, startsStmtExpr, CE.toks, CSs.toks, headKind, binds])
  simp only [CSs.toks, CS.toks, CE.toks, List.append_nil] at h2
  simp only [List.flatMap_cons, List.flatMap_nil, CS.toks, CE.toks, List.append_nil, List.singleton_append] at h1
  rw [h2] at h1
  simp [nd, CSs.nodes, CS.node, CE.node] at h1

/-- It fails for two expression statements too: `f` and then `(g)` is read as the call `f(g)`. -/
theorem C11_violated_call : ¬ C11_claim := by
  rintro ⟨-, h⟩
  have h1 := h [.expr (.ident (tk .identifier)), .expr (.paren (tk .lparen) (.ident (tk .identifier)) (tk .rparen))] (by
    simp [CS.Wf, CE.Wf, tk, startsStmtExpr, CE.toks, headKind, binds])
  have h2 := parse_block (.cons (.expr (.call (.ident (tk .identifier)) (tk .lparen) (.one (.ident (tk .identifier))) (tk .rparen))) .nil) (by
    simp [CSs.Wf, CS.Wf, CE.Wf, CEs.Wf, CEs.toks, CE.edge, tk, startsStmtExpr, CE.toks, CSs.toks, headKind, binds])
  simp only [CSs.toks, CS.toks, CE.toks, CEs.toks, List.append_nil, List.singleton_append] at h2
  simp only [List.flatMap_cons, List.flatMap_nil, CS.toks, CE.toks, List.append_nil, List.singleton_append] at h1
  rw [h2] at h1
  simp [nd, CSs.nodes, CS.node, CE.node] at h1

/-- It fails for declarations: behind an external function without a result, `fn g()` is read as a
type, the type of the result. -/
theorem C11_violated_decl : ¬ C11_claim := by
  rintro ⟨h, -⟩
  have h1 := h [.fnX .none (tk .fn) (tk .identifier) ⟨.none, tk .lparen, .nil, tk .rparen, .none⟩,
      .fnX .none (tk .fn) (tk .identifier) ⟨.none, tk .lparen, .nil, tk .rparen, .none⟩] (by
    simp [CD.Wf, CAttr.Wf, CSig.Wf, CTps.Wf, CParams.Wf, CRet.Wf, tk, startsType])
  obtain ⟨ds, d1, d2, d3⟩ := (C09_partial_iff _ (tk .eof) rfl (by decide) (by
    intro t ht
    simp [fileToks, CD.toks, CAttr.toks, CSig.toks, CTps.toks, CParams.toks, CRet.toks] at ht
    rw [← ht]
    rfl) _).mp h1
  match ds, d1, d2, d3 with
  | [], _, _, d3 => simp at d3
  | [x], _, _, d3 => simp at d3
  | _ :: _ :: _ :: _, _, _, d3 => simp at d3
  | [x, y], d1, d2, d3 =>
    simp only [List.map_cons, List.map_nil, List.cons.injEq, and_true] at d3
    have hx : ∀ d : CD, CD.node (.fnX .none (tk .fn) (tk .identifier) ⟨.none, tk .lparen, .nil, tk .rparen, .none⟩) =
        d.node → ∃ a f i lp rp, d = .fnX a f i ⟨.none, lp, .nil, rp, .none⟩ := by
      intro d hd
      cases d with
      | fnX a f i g =>
        obtain ⟨tps, lp, ps, rp, ret⟩ := g
        simp only [CD.node, CSig.node, nd, Node.mk.injEq, CParams.nodes, CRet.node, CTps.node] at hd
        obtain ⟨-, -, -, h1, h2, -, h3⟩ := hd
        cases tps with
        | some => simp at h2
        | none =>
          cases ret with
          | some => simp at h1
          | none =>
            cases ps with
            | nil => exact ⟨_, _, _, _, _, rfl⟩
            | _ => simp [CParams.nodes] at h3
      | _ => simp [CD.node, CSig.node, nd] at hd
    obtain ⟨a, f, i, lp, rp, rfl⟩ := hx x d3.1
    obtain ⟨a', f', i', lp', rp', rfl⟩ := hx y d3.2
    cases a' with
    | some h lb ids rb =>
      have := congrArg List.length d1
      simp [fileToks, CD.toks, CAttr.toks, CSig.toks, CTps.toks, CParams.toks, CRet.toks] at this
      omega
    | none =>
      simp [FileWf, CD.Wf, CSig.Wf, CRet.Wf, fileToks, CD.toks, CAttr.toks, headKind, startsType] at d2
      grind

/-- Every program of the grammar, with any constructs nested to any depth, is read without errors
and gives its trees.  Missing: sequences where one construct swallows the beginning of the next
because nothing separates them; the grammar excludes exactly these by the kind of the next token. -/
theorem C11_partial (ds : List CD) (e : Token) (hw : FileWf ds .eof) (he : e.kind = .eof) :
    parse (fileToks ds ++ [e]) = some (.done [] (ds.map CD.node)) :=
  parse_file ds hw he

/-- The same for the statements of a function, in the terms of the claim. -/
theorem C11_partial_block (ss : List CS) (h : (CSs.ofList ss).Wf .rbrace) :
    parse ([tk .fn, tk .identifier, tk .lparen, tk .rparen, tk .lbrace] ++ ss.flatMap CS.toks ++ [tk .rbrace, tk .eof]) =
      some (.done [] [nd .blockFnDcl (tk .identifier) (stmts := ss.map CS.node)]) := by
  rw [← ofList_toks, ← ofList_nodes]
  exact parse_block _ h

/-- `while a { f(a) } return a` -/
example : parse ([tk .fn, tk .identifier, tk .lparen, tk .rparen, tk .lbrace] ++
      [tk .while_, tk .identifier, tk .lbrace, tk .identifier, tk .lparen, tk .identifier, tk .rparen, tk .rbrace,
        tk .ret, tk .identifier] ++ [tk .rbrace, tk .eof]) =
    some (.done [] [nd .blockFnDcl (tk .identifier) (stmts :=
      [nd .while_ (tk .while_) (left := some (nd .identifier (tk .identifier)))
        (stmts := [nd .funcCall (tk .lparen) (left := some (nd .identifier (tk .identifier)))
          (stmts := [nd .identifier (tk .identifier)])]),
        nd .ret (tk .ret) (left := some (nd .identifier (tk .identifier)))])]) :=
  C11_partial_block [.while_ (tk .while_) (.ident (tk .identifier)) (tk .lbrace)
      (.cons (.expr (.call (.ident (tk .identifier)) (tk .lparen) (.one (.ident (tk .identifier))) (tk .rparen))) .nil)
      (tk .rbrace), .ret1 (tk .ret) (.ident (tk .identifier))] (by
    simp [CSs.ofList, CSs.Wf, CS.Wf, CE.Wf, CEs.Wf, CEs.toks, CE.edge, tk, startsStmtExpr, CE.toks, CSs.toks, headKind, binds])

end Clara.Props
