import Verif.Parse.Model
set_option linter.unusedVariables false

/-!
# The grammar of Clara

The specification of the parser: concrete syntax trees with every token in them, the tokens they
spell (`toks`), the syntax tree they stand for (`node`) and which of them belong to the language
(`Wf`).  `Wf` says of which kind each token is, how operators may be nested without parentheses and
what may follow what, as the language has no separators between statements, fields or declarations.

Two numbers describe the operators of an expression.  `top` is the weakest operator that is not
inside parentheses and not in the operand of a prefix operator.  `edge` is the strongest operator
that could follow the expression without being taken into its last operand.
-/

namespace Clara.Parse

open Clara.Lex (Kind Token Bytes)

/-! ## Types -/

mutual
/-- Types: a name, a name with type arguments, `[]T`, `fn(…)`, `fn(…) T`. -/
inductive CTy where
  | named (t : Token)
  | gen (t lg : Token) (ts : CTys) (rg : Token)
  | arr (lb rb : Token) (e : CTy)
  | fn0 (f lp : Token) (ts : CTys) (rp : Token)
  | fn1 (f lp : Token) (ts : CTys) (rp : Token) (r : CTy)
/-- Types separated by commas. -/
inductive CTys where
  | nil
  | one (t : CTy)
  | more (t : CTy) (c : Token) (r : CTys)
end

/-- At least one. -/
def CTys.Ne : CTys → Prop
  | .nil => False
  | _ => True

mutual
/-- The tokens of a type. -/
def CTy.toks : CTy → List Token
  | .named t => [t]
  | .gen t lg ts rg => t :: lg :: (ts.toks ++ [rg])
  | .arr lb rb e => lb :: rb :: e.toks
  | .fn0 f lp ts rp => f :: lp :: (ts.toks ++ [rp])
  | .fn1 f lp ts rp r => f :: lp :: (ts.toks ++ rp :: r.toks)
/-- The tokens of a list of types. -/
def CTys.toks : CTys → List Token
  | .nil => []
  | .one t => t.toks
  | .more t c r => t.toks ++ c :: r.toks
end

mutual
/-- The tree of a type. -/
def CTy.node : CTy → Node
  | .named t => nd .namedType t
  | .gen t lg ts _ => nd .namedType t (left := some (nd .typeList lg (params := ts.nodes)))
  | .arr lb _ e => nd .arrayType lb (left := some e.node)
  | .fn0 f _ ts _ => nd .funcType f (stmts := ts.nodes)
  | .fn1 f _ ts _ r => nd .funcType f (stmts := ts.nodes) (left := some r.node)
/-- The trees of a list of types. -/
def CTys.nodes : CTys → List Node
  | .nil => []
  | .one t => [t.node]
  | .more t _ r => t.node :: r.nodes
end

/-- The first token of a type is one of these. -/
def startsType (k : Kind) : Bool := k == .fn || k == .identifier || k == .lbrack

/-- A token of kind `k` after the type is not read as part of it. -/
def CTy.ends : CTy → Kind → Prop
  | .named _, k => k ≠ .lgmet
  | .gen .., _ => True
  | .arr _ _ e, k => e.ends k
  | .fn0 .., k => startsType k = false
  | .fn1 _ _ _ _ r, k => r.ends k

mutual
/-- The types of the language. -/
def CTy.Wf : CTy → Prop
  | .named t => t.kind = .identifier
  | .gen t lg ts rg => t.kind = .identifier ∧ lg.kind = .lgmet ∧ ts.Wf .rgmet ∧ rg.kind = .rgmet
  | .arr lb rb e => lb.kind = .lbrack ∧ rb.kind = .rbrack ∧ e.Wf
  | .fn0 f lp ts rp => f.kind = .fn ∧ lp.kind = .lparen ∧ ts.Wf .rparen ∧ rp.kind = .rparen
  | .fn1 f lp ts rp r =>
    f.kind = .fn ∧ lp.kind = .lparen ∧ ts.Wf .rparen ∧ rp.kind = .rparen ∧ r.Wf
/-- Lists of types of the language, closed by a token of kind `k`. -/
def CTys.Wf : CTys → Kind → Prop
  | .nil, _ => True
  | .one t, k => t.Wf ∧ t.ends k
  | .more t c r, k => t.Wf ∧ t.ends .comma ∧ c.kind = .comma ∧ r.Ne ∧ r.Wf k
end

/-! ## Parameters and names -/

/-- `x: T`. -/
structure CParam where
  name : Token
  colon : Token
  ty : CTy

def CParam.toks (p : CParam) : List Token := p.name :: p.colon :: p.ty.toks
def CParam.node (p : CParam) : Node := nd .identifier p.name (left := some p.ty.node)
/-- A parameter or field followed by a token of kind `k`. -/
def CParam.Wf (p : CParam) (k : Kind) : Prop :=
  p.name.kind = .identifier ∧ p.colon.kind = .colon ∧ p.ty.Wf ∧ p.ty.ends k

/-- Parameters separated by commas. -/
inductive CParams where
  | nil
  | one (p : CParam)
  | more (p : CParam) (c : Token) (r : CParams)

def CParams.Ne : CParams → Prop
  | .nil => False
  | _ => True
def CParams.toks : CParams → List Token
  | .nil => []
  | .one p => p.toks
  | .more p c r => p.toks ++ c :: r.toks
def CParams.nodes : CParams → List Node
  | .nil => []
  | .one p => [p.node]
  | .more p _ r => p.node :: r.nodes
def CParams.Wf : CParams → Prop
  | .nil => True
  | .one p => p.Wf .rparen
  | .more p c r => p.Wf .comma ∧ c.kind = .comma ∧ r.Ne ∧ r.Wf

/-- Names separated by commas. -/
inductive CIds where
  | nil
  | one (t : Token)
  | more (t c : Token) (r : CIds)

def CIds.Ne : CIds → Prop
  | .nil => False
  | _ => True
def CIds.toks : CIds → List Token
  | .nil => []
  | .one t => [t]
  | .more t c r => t :: c :: r.toks
def CIds.nodes : CIds → List Node
  | .nil => []
  | .one t => [nd .identifier t]
  | .more t _ r => nd .identifier t :: r.nodes
def CIds.Wf : CIds → Prop
  | .nil => True
  | .one t => t.kind = .identifier
  | .more t c r => t.kind = .identifier ∧ c.kind = .comma ∧ r.Ne ∧ r.Wf

/-- `«T, U»` after the name of a function or type. -/
inductive CTps where
  | none
  | some (lg : Token) (ts : CTys) (rg : Token)

def CTps.toks : CTps → List Token
  | .none => []
  | .some lg ts rg => lg :: (ts.toks ++ [rg])
def CTps.node : CTps → Option Node
  | .none => Option.none
  | .some lg ts _ => Option.some (nd .typeList lg (params := ts.nodes))
def CTps.nodes : CTps → List Node
  | .none => []
  | .some _ ts _ => ts.nodes
def CTps.Wf : CTps → Prop
  | .none => True
  | .some lg ts rg => lg.kind = .lgmet ∧ ts.Wf .rgmet ∧ rg.kind = .rgmet

/-- The return type. -/
inductive CRet where
  | none
  | some (t : CTy)

def CRet.toks : CRet → List Token
  | .none => []
  | .some t => t.toks
def CRet.node : CRet → Option Node
  | .none => Option.none
  | .some t => Option.some t.node
/-- A return type followed by a token of kind `k`. -/
def CRet.Wf : CRet → Kind → Prop
  | .none, k => startsType k = false
  | .some t, k => t.Wf ∧ t.ends k

/-- The head of a function: type parameters, parameters, return type. -/
structure CSig where
  tps : CTps
  lp : Token
  ps : CParams
  rp : Token
  ret : CRet

def CSig.toks (g : CSig) : List Token := g.tps.toks ++ g.lp :: (g.ps.toks ++ g.rp :: g.ret.toks)
/-- A head followed by a token of kind `k`. -/
def CSig.Wf (g : CSig) (k : Kind) : Prop :=
  g.tps.Wf ∧ g.lp.kind = .lparen ∧ g.ps.Wf ∧ g.rp.kind = .rparen ∧ g.ret.Wf k
/-- A function node. -/
def CSig.node (g : CSig) (op : Op) (attrs : Attrs) (id : Token) (ss : List Node) : Node :=
  nd op id (attrs := attrs) (params := g.ps.nodes) (left := g.ret.node) (right := g.tps.node) (stmts := ss)

/-! ## Expressions and statements -/

mutual
/-- Expressions. -/
inductive CE where
  | ident (t : Token)
  | lit (t : Token)
  | paren (lp : Token) (e : CE) (rp : Token)
  | un (t : Token) (e : CE)
  | bin (l : CE) (t : Token) (r : CE)
  | tern (c : CE) (q : Token) (a : CE) (co : Token) (b : CE)
  | call (f : CE) (lp : Token) (as : CEs) (rp : Token)
  | tcall (f : CE) (lg : Token) (ts : CTys) (rg lp : Token) (as : CEs) (rp : Token)
  | index (a : CE) (lb : Token) (i : CE) (rb : Token)
  | arr (lb : Token) (es : CEs) (rb : Token)
  | typ (t lp : Token) (ty : CTy) (rp : Token)
  | lamB (f : Token) (g : CSig) (lb : Token) (ss : CSs) (rb : Token)
  | lamE (f : Token) (g : CSig) (a : Token) (e : CE)
/-- Expressions separated by commas. -/
inductive CEs where
  | nil
  | one (e : CE)
  | more (e : CE) (c : Token) (r : CEs)
/-- Statements. -/
inductive CS where
  | ret0 (t : Token)
  | ret1 (t : Token) (e : CE)
  | while_ (t : Token) (e : CE) (lb : Token) (ss : CSs) (rb : Token)
  | for_ (t x i : Token) (e : CE) (lb : Token) (ss : CSs) (rb : Token)
  | forR (t x i : Token) (e : CE) (d : Token) (e' : CE) (lb : Token) (ss : CSs) (rb : Token)
  | if_ (t : Token) (e : CE) (lb : Token) (ss : CSs) (rb : Token) (r : CIf)
  | expr (e : CE)
  | asg (e : CE) (t : Token) (v : CE)
  | das (e : CE) (t : Token) (v : CE)
  | match_ (t : Token) (e : CE) (lb : Token) (cs : CCs) (rb : Token)
/-- Statements one after the other. -/
inductive CSs where
  | nil
  | cons (s : CS) (r : CSs)
/-- The `elseif` and `else` parts of an `if`. -/
inductive CIf where
  | nil
  | elif (t : Token) (e : CE) (lb : Token) (ss : CSs) (rb : Token) (r : CIf)
  | els (t : Token) (lb : Token) (ss : CSs) (rb : Token)
/-- The cases of a `match`. -/
inductive CCs where
  | nil
  | cons (c id lp : Token) (ids : CIds) (rp co : Token) (ss : CSs) (r : CCs)
end

def CEs.Ne : CEs → Prop
  | .nil => False
  | _ => True

mutual
def CE.toks : CE → List Token
  | .ident t => [t]
  | .lit t => [t]
  | .paren lp e rp => lp :: (e.toks ++ [rp])
  | .un t e => t :: e.toks
  | .bin l t r => l.toks ++ t :: r.toks
  | .tern c q a co b => c.toks ++ q :: (a.toks ++ co :: b.toks)
  | .call f lp as rp => f.toks ++ lp :: (as.toks ++ [rp])
  | .tcall f lg ts rg lp as rp => f.toks ++ lg :: (ts.toks ++ rg :: lp :: (as.toks ++ [rp]))
  | .index a lb i rb => a.toks ++ lb :: (i.toks ++ [rb])
  | .arr lb es rb => lb :: (es.toks ++ [rb])
  | .typ t lp ty rp => t :: lp :: (ty.toks ++ [rp])
  | .lamB f g lb ss rb => f :: (g.toks ++ lb :: (ss.toks ++ [rb]))
  | .lamE f g a e => f :: (g.toks ++ a :: e.toks)
def CEs.toks : CEs → List Token
  | .nil => []
  | .one e => e.toks
  | .more e c r => e.toks ++ c :: r.toks
def CS.toks : CS → List Token
  | .ret0 t => [t]
  | .ret1 t e => t :: e.toks
  | .while_ t e lb ss rb => t :: (e.toks ++ lb :: (ss.toks ++ [rb]))
  | .for_ t x i e lb ss rb => t :: x :: i :: (e.toks ++ lb :: (ss.toks ++ [rb]))
  | .forR t x i e d e' lb ss rb => t :: x :: i :: (e.toks ++ d :: (e'.toks ++ lb :: (ss.toks ++ [rb])))
  | .if_ t e lb ss rb r => t :: (e.toks ++ lb :: (ss.toks ++ rb :: r.toks))
  | .expr e => e.toks
  | .asg e t v => e.toks ++ t :: v.toks
  | .das e t v => e.toks ++ t :: v.toks
  | .match_ t e lb cs rb => t :: (e.toks ++ lb :: (cs.toks ++ [rb]))
def CSs.toks : CSs → List Token
  | .nil => []
  | .cons s r => s.toks ++ r.toks
def CIf.toks : CIf → List Token
  | .nil => []
  | .elif t e lb ss rb r => t :: (e.toks ++ lb :: (ss.toks ++ rb :: r.toks))
  | .els t lb ss rb => t :: lb :: (ss.toks ++ [rb])
def CCs.toks : CCs → List Token
  | .nil => []
  | .cons c id lp ids rp co ss r => c :: id :: lp :: (ids.toks ++ rp :: co :: (ss.toks ++ r.toks))
end

/-- The node of each operator between two operands. -/
def binOp : Kind → Op
  | .plus => .add
  | .min => .sub
  | .mul => .mul
  | .div => .div
  | .dot => .dot
  | .eq => .eq
  | .gt => .gt
  | .gte => .gte
  | .lt => .lt
  | .lte => .lte
  | .and => .and
  | .or => .or
  | .band => .band
  | .bor => .bor
  | .bxor => .bxor
  | .bleft => .bleft
  | .bright => .bright
  | _ => .error

/-- The node of each prefix operator. -/
def unOp : Kind → Op
  | .min => .neg
  | .not => .not
  | .bnot => .bnot
  | _ => .error

mutual
def CE.node : CE → Node
  | .ident t => nd .identifier t
  | .lit t => nd .lit t
  | .paren _ e _ => e.node
  | .un t e => nd (unOp t.kind) t (left := some e.node)
  | .bin l t r => nd (binOp t.kind) t (left := some l.node) (right := some r.node)
  | .tern c q a _ b => nd .ternary q (left := some c.node) (stmts := [a.node, b.node])
  | .call f lp as _ => nd .funcCall lp (left := some f.node) (stmts := as.nodes)
  | .tcall f lg ts _ _ as _ =>
    nd .funcCall lg (left := some f.node) (stmts := as.nodes) (params := ts.nodes)
  | .index a lb i _ => nd .array lb (left := some a.node) (right := some i.node)
  | .arr lb es _ => nd .arrayLit lb (stmts := es.nodes)
  | .typ _ _ ty _ => ty.node
  | .lamB f g _ ss _ => g.node .blockFnDcl {} f ss.nodes
  | .lamE f g _ e => g.node .exprFnDcl {} f [e.node]
def CEs.nodes : CEs → List Node
  | .nil => []
  | .one e => [e.node]
  | .more e _ r => e.node :: r.nodes
def CS.node : CS → Node
  | .ret0 t => nd .ret t
  | .ret1 t e => nd .ret t (left := some e.node)
  | .while_ t e _ ss _ => nd .while_ t (left := some e.node) (stmts := ss.nodes)
  | .for_ t x _ e _ ss _ =>
    nd .for_ t (left := some (nd .identifier x)) (right := some e.node) (stmts := ss.nodes)
  | .forR t x _ e d e' _ ss _ =>
    nd .for_ t (left := some (nd .identifier x))
      (right := some (nd .range d (left := some e.node) (right := some e'.node))) (stmts := ss.nodes)
  | .if_ t e _ ss _ r => nd .if_ t (left := some e.node) (right := r.node) (stmts := ss.nodes)
  | .expr e => e.node
  | .asg e t v => nd .as_ t (left := some e.node) (right := some v.node)
  | .das e t v => nd .das t (left := some e.node) (right := some v.node)
  | .match_ t e _ cs _ => nd .match_ t (left := some e.node) (stmts := cs.nodes)
def CSs.nodes : CSs → List Node
  | .nil => []
  | .cons s r => s.node :: r.nodes
def CIf.node : CIf → Option Node
  | .nil => none
  | .elif t e _ ss _ r => some (nd .elseif t (left := some e.node) (right := r.node) (stmts := ss.nodes))
  | .els t _ ss _ => some (nd .else_ t (stmts := ss.nodes))
def CCs.nodes : CCs → List Node
  | .nil => []
  | .cons _ id _ ids _ _ ss r => nd .case_ id (params := ids.nodes) (stmts := ss.nodes) :: r.nodes
end

/-! ### Operators -/

/-- How tightly the operators between two operands and after an operand bind; 0 for every other
token. -/
def binds : Kind → Nat
  | .lparen | .lgmet => 13
  | .dot | .lbrack => 12
  | .mul | .div => 10
  | .plus | .min => 9
  | .bleft | .bright => 8
  | .gt | .gte | .lt | .lte => 7
  | .eq => 6
  | .band => 5
  | .bxor => 4
  | .bor => 3
  | .and => 2
  | .or | .question => 1
  | _ => 0

/-- Operators between two operands. -/
def isBinary : Kind → Bool
  | .dot | .mul | .div | .plus | .min | .bleft | .bright | .gt | .gte | .lt | .lte | .eq
  | .band | .bxor | .bor | .and | .or => true
  | _ => false

/-- How tightly a prefix operator binds: `not` and `~` more than arithmetic, `-` like subtraction.
0: not a prefix operator. -/
def binds1 : Kind → Nat
  | .not | .bnot => 11
  | .min => 9
  | _ => 0

def isLit : Kind → Bool
  | .integer | .string | .true_ | .false_ => true
  | _ => false

/-- The weakest operator of an expression outside parentheses and operands of prefix operators. -/
def CE.top : CE → Nat
  | .bin l t _ => min (binds t.kind) l.top
  | .tern c .. => min 1 c.top
  | .call f .. => min 13 f.top
  | .tcall f .. => min 13 f.top
  | .index a .. => min 12 a.top
  | _ => 14

/-- The strongest operator that is not taken into the last operand when it follows. -/
def CE.edge : CE → Nat
  | .un t e => min (binds1 t.kind) e.edge
  | .bin _ t r => min (binds t.kind) r.edge
  | .tern .. => 0
  | .lamE .. => 0
  | _ => 14

/-- The kind of the first token, `k` if there is none. -/
def headKind : List Token → Kind → Kind
  | [], k => k
  | t :: _, _ => t.kind

/-- The tokens an expression statement can begin with. -/
def startsStmtExpr : Kind → Bool
  | .integer | .string | .identifier | .true_ | .false_ | .not | .lparen | .fn | .min | .lbrack => true
  | _ => false

mutual
/-- The expressions of the language. -/
def CE.Wf : CE → Prop
  | .ident t => t.kind = .identifier
  | .lit t => isLit t.kind = true
  | .paren lp e rp => lp.kind = .lparen ∧ e.Wf ∧ rp.kind = .rparen
  | .un t e => binds1 t.kind ≠ 0 ∧ e.Wf ∧ binds1 t.kind < e.top
  | .bin l t r =>
    l.Wf ∧ isBinary t.kind = true ∧ r.Wf ∧ binds t.kind ≤ l.edge ∧ binds t.kind < r.top
  | .tern c q a co b =>
    c.Wf ∧ 1 ≤ c.edge ∧ q.kind = .question ∧ a.Wf ∧ co.kind = .colon ∧ b.Wf
  | .call f lp as rp =>
    f.Wf ∧ 13 ≤ f.edge ∧ lp.kind = .lparen ∧ as.Wf ∧ rp.kind = .rparen
  | .tcall f lg ts rg lp as rp =>
    f.Wf ∧ 13 ≤ f.edge ∧ lg.kind = .lgmet ∧ ts.Wf .rgmet ∧ rg.kind = .rgmet ∧
      lp.kind = .lparen ∧ as.Wf ∧ rp.kind = .rparen
  | .index a lb i rb =>
    a.Wf ∧ 12 ≤ a.edge ∧ lb.kind = .lbrack ∧ i.Wf ∧ rb.kind = .rbrack
  | .arr lb es rb => lb.kind = .lbrack ∧ es.Wf ∧ rb.kind = .rbrack
  | .typ t lp ty rp =>
    t.kind = .type ∧ lp.kind = .lparen ∧ ty.Wf ∧ ty.ends .rparen ∧ rp.kind = .rparen
  | .lamB f g lb ss rb =>
    f.kind = .fn ∧ g.Wf .lbrace ∧ lb.kind = .lbrace ∧ ss.Wf .rbrace ∧ rb.kind = .rbrace
  | .lamE f g a e => f.kind = .fn ∧ g.Wf .as ∧ a.kind = .as ∧ e.Wf
def CEs.Wf : CEs → Prop
  | .nil => True
  | .one e => e.Wf
  | .more e c r => e.Wf ∧ c.kind = .comma ∧ r.Ne ∧ r.Wf
/-- The statements of the language, followed by a token of kind `k`. -/
def CS.Wf : CS → Kind → Prop
  | .ret0 t, k => t.kind = .ret ∧ startsStmtExpr k = false
  | .ret1 t e, k =>
    t.kind = .ret ∧ e.Wf ∧ startsStmtExpr (headKind e.toks k) = true ∧ binds k = 0
  | .while_ t e lb ss rb, _ =>
    t.kind = .while_ ∧ e.Wf ∧ lb.kind = .lbrace ∧ ss.Wf .rbrace ∧ rb.kind = .rbrace
  | .for_ t x i e lb ss rb, _ =>
    t.kind = .for_ ∧ x.kind = .identifier ∧ i.kind = .in_ ∧ e.Wf ∧
      lb.kind = .lbrace ∧ ss.Wf .rbrace ∧ rb.kind = .rbrace
  | .forR t x i e d e' lb ss rb, _ =>
    t.kind = .for_ ∧ x.kind = .identifier ∧ i.kind = .in_ ∧ e.Wf ∧ d.kind = .dotdot ∧ e'.Wf ∧
      lb.kind = .lbrace ∧ ss.Wf .rbrace ∧ rb.kind = .rbrace
  | .if_ t e lb ss rb r, k =>
    t.kind = .if_ ∧ e.Wf ∧ lb.kind = .lbrace ∧ ss.Wf .rbrace ∧ rb.kind = .rbrace ∧ r.Wf k
  | .expr e, k =>
    e.Wf ∧ startsStmtExpr (headKind e.toks k) = true ∧ binds k = 0 ∧ k ≠ .as ∧ k ≠ .das
  | .asg e t v, k =>
    e.Wf ∧ startsStmtExpr (headKind e.toks k) = true ∧ t.kind = .as ∧ v.Wf ∧ binds k = 0
  | .das e t v, k =>
    e.Wf ∧ startsStmtExpr (headKind e.toks k) = true ∧ t.kind = .das ∧ v.Wf ∧ binds k = 0
  | .match_ t e lb cs rb, _ =>
    t.kind = .match_ ∧ e.Wf ∧ lb.kind = .lbrace ∧ cs.Wf ∧ rb.kind = .rbrace
/-- Statements followed by a token of kind `k`. -/
def CSs.Wf : CSs → Kind → Prop
  | .nil, _ => True
  | .cons s r, k => s.Wf (headKind r.toks k) ∧ r.Wf k
def CIf.Wf : CIf → Kind → Prop
  | .nil, k => k ≠ .elseif ∧ k ≠ .else_
  | .elif t e lb ss rb r, k =>
    t.kind = .elseif ∧ e.Wf ∧ lb.kind = .lbrace ∧ ss.Wf .rbrace ∧ rb.kind = .rbrace ∧ r.Wf k
  | .els t lb ss rb, _ =>
    t.kind = .else_ ∧ lb.kind = .lbrace ∧ ss.Wf .rbrace ∧ rb.kind = .rbrace
/-- Cases up to the closing brace. -/
def CCs.Wf : CCs → Prop
  | .nil => True
  | .cons c id lp ids rp co ss r =>
    c.kind = .case ∧ id.kind = .identifier ∧ lp.kind = .lparen ∧ ids.Wf ∧ rp.kind = .rparen ∧
      co.kind = .colon ∧ ss.Wf (headKind r.toks .rbrace) ∧ r.Wf
end

/-! ## Declarations -/

/-- `#[a, b]`. -/
inductive CAttr where
  | none
  | some (h lb : Token) (ids : CIds) (rb : Token)

def CAttr.toks : CAttr → List Token
  | .none => []
  | .some h lb ids rb => h :: lb :: (ids.toks ++ [rb])
/-- At least one name. -/
def CAttr.Wf : CAttr → Prop
  | .none => True
  | .some h lb ids rb =>
    h.kind = .hash ∧ lb.kind = .lbrack ∧ ids.Ne ∧ ids.Wf ∧ rb.kind = .rbrack
/-- The names of a list. -/
def CIds.tokens : CIds → List Token
  | .nil => []
  | .one t => [t]
  | .more t _ r => t :: r.tokens
/-- The attribute of functions that return through C. -/
def extRetName : Bytes := ['E', 'x', 't', 'R', 'e', 't'].map (fun c => c.toNat.toUInt8)
/-- The attribute of functions that get untagged values. -/
def rawValuesName : Bytes := ['R', 'a', 'w', 'V', 'a', 'l', 'u', 'e', 's'].map (fun c => c.toNat.toUInt8)
/-- Which of the two attributes are named. -/
def CAttr.attrs : CAttr → Attrs
  | .none => {}
  | .some _ _ ids _ =>
    { extRet := ids.tokens.any (fun t => t.val == extRetName)
      rawValues := ids.tokens.any (fun t => t.val == rawValuesName) }

/-- Fields one after the other. -/
inductive CFields where
  | nil
  | cons (p : CParam) (r : CFields)

def CFields.toks : CFields → List Token
  | .nil => []
  | .cons p r => p.toks ++ r.toks
def CFields.nodes : CFields → List Node
  | .nil => []
  | .cons p r => p.node :: r.nodes
def CFields.Wf : CFields → Prop
  | .nil => True
  | .cons p r => p.Wf (headKind r.toks .rbrace) ∧ r.Wf

/-- Constructors of an enum. -/
inductive CCons where
  | nil
  | cons (t lp : Token) (ps : CParams) (rp : Token) (r : CCons)

def CCons.toks : CCons → List Token
  | .nil => []
  | .cons t lp ps rp r => t :: lp :: (ps.toks ++ rp :: r.toks)
def CCons.nodes (id : Token) : CCons → List Node
  | .nil => []
  | .cons t _ ps _ r =>
    nd .consFnDcl t (params := ps.nodes) (left := some (nd .namedType id)) :: r.nodes id
def CCons.Wf : CCons → Prop
  | .nil => True
  | .cons t lp ps rp r =>
    t.kind = .identifier ∧ lp.kind = .lparen ∧ ps.Wf ∧ rp.kind = .rparen ∧ r.Wf

/-- Declarations. -/
inductive CD where
  | fnB (a : CAttr) (f id : Token) (g : CSig) (lb : Token) (ss : CSs) (rb : Token)
  | fnE (a : CAttr) (f id : Token) (g : CSig) (eq : Token) (e : CE)
  | fnX (a : CAttr) (f id : Token) (g : CSig)
  | struct (a : CAttr) (t id : Token) (tps : CTps) (lb : Token) (fs : CFields) (rb : Token)
  | enum (a : CAttr) (t id : Token) (tps : CTps) (lb : Token) (cs : CCons) (rb : Token)

def CD.toks : CD → List Token
  | .fnB a f id g lb ss rb => a.toks ++ f :: id :: (g.toks ++ lb :: (ss.toks ++ [rb]))
  | .fnE a f id g eq e => a.toks ++ f :: id :: (g.toks ++ eq :: e.toks)
  | .fnX a f id g => a.toks ++ f :: id :: g.toks
  | .struct a t id tps lb fs rb => a.toks ++ t :: id :: (tps.toks ++ lb :: (fs.toks ++ [rb]))
  | .enum a t id tps lb cs rb => a.toks ++ t :: id :: (tps.toks ++ lb :: (cs.toks ++ [rb]))
def CD.node : CD → Node
  | .fnB a f id g lb ss rb => g.node .blockFnDcl a.attrs id ss.nodes
  | .fnE a f id g eq e => g.node .exprFnDcl a.attrs id [e.node]
  | .fnX a f id g => g.node .externFnDcl a.attrs id []
  | .struct a t id tps lb fs rb =>
    nd .structDcl id (attrs := a.attrs) (params := tps.nodes) (stmts := fs.nodes)
  | .enum a t id tps lb cs rb =>
    nd .enumDcl id (attrs := a.attrs) (params := tps.nodes) (stmts := cs.nodes id)
/-- The declarations of the language, followed by a token of kind `k`. -/
def CD.Wf : CD → Kind → Prop
  | .fnB a f id g lb ss rb, _ =>
    a.Wf ∧ f.kind = .fn ∧ id.kind = .identifier ∧ g.Wf .lbrace ∧
      lb.kind = .lbrace ∧ ss.Wf .rbrace ∧ rb.kind = .rbrace
  | .fnE a f id g eq e, k =>
    a.Wf ∧ f.kind = .fn ∧ id.kind = .identifier ∧ g.Wf .as ∧ eq.kind = .as ∧ e.Wf ∧ binds k = 0
  | .fnX a f id g, k =>
    a.Wf ∧ f.kind = .fn ∧ id.kind = .identifier ∧ g.Wf k ∧ k ≠ .lbrace ∧ k ≠ .as
  | .struct a t id tps lb fs rb, _ =>
    a.Wf ∧ t.kind = .struct ∧ id.kind = .identifier ∧ tps.Wf ∧
      lb.kind = .lbrace ∧ fs.Wf ∧ rb.kind = .rbrace
  | .enum a t id tps lb cs rb, _ =>
    a.Wf ∧ t.kind = .enum ∧ id.kind = .identifier ∧ tps.Wf ∧
      lb.kind = .lbrace ∧ cs.Wf ∧ rb.kind = .rbrace

/-- A source file. -/
def fileToks (ds : List CD) : List Token := ds.flatMap CD.toks
/-- Declarations followed by a token of kind `k`. -/
def FileWf : List CD → Kind → Prop
  | [], _ => True
  | d :: r, k => d.Wf (headKind (fileToks r) k) ∧ FileWf r k

end Clara.Parse
