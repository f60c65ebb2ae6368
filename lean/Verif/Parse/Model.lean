import Verif.Lex.Model
set_option linter.unusedVariables false

/-!
# The parser (`parse.go`)

Every function of `parse.go` in the order of the file.  The parser is a set of mutually recursive
methods over a token list, a position, a list of errors and a flag.  They are written here as
partial functions (`none` = the method never returns), so that termination is something to prove.

* The position is kept as the list `rest` of the tokens from `p.pos` on.  `p.pos+1 >= len(p.tokens)`
  is "`rest` has at most one element" and `p.tokens[p.pos]` is the head of `rest`.
* A panic is `Stop`: `eof` is `panic(errUnexpectedEof)`, `crash` is a runtime error (index outside the
  token list, call of a nil function).  The state survives a panic, as the fields of `p` do.
* An error keeps the token and what was expected; the text of the message is not modelled.
* The children of the root are part of the state, as `root` outlives a panic.
* Go's stack is taken to be unlimited.
-/

namespace Clara.Parse

open Clara.Lex (Kind Token Bytes)

/-- Kinds of node the parser makes (`ast.go` 360-411). -/
inductive Op where
  | blockFnDcl | exprFnDcl | externFnDcl | consFnDcl | funcCall | typeList | lit
  | add | sub | mul | div | eq | not | neg | dot | and | bnot | band | bor | bxor | bleft | bright
  | identifier | namedType | funcType | array | arrayType | ret | if_ | while_ | das | as_
  | elseif | else_ | gt | gte | lt | lte | or | error | structDcl | enumDcl | match_ | case_
  | ternary | range | for_ | arrayLit
  deriving DecidableEq, Repr, Inhabited

/-- `attributes` (`parse.go` 25-36): the two bits. -/
structure Attrs where
  extRet : Bool := false
  rawValues : Bool := false
  deriving DecidableEq, Repr, Inhabited

/-- `attributes.Add` (`parse.go` 38-47). -/
def Attrs.add (a : Attrs) (name : Bytes) : Attrs :=
  if name = [69, 120, 116, 82, 101, 116] /- ExtRet -/ then { a with extRet := true }
  else if name = [82, 97, 119, 86, 97, 108, 117, 101, 115] /- RawValues -/ then { a with rawValues := true }
  else a

/-- `Node` (`ast.go` 14-25) as the parser fills it; symbols and types come later. -/
inductive Node where
  | mk (op : Op) (tok : Token) (attrs : Attrs) (left right : Option Node) (stmts params : List Node)
  deriving Inhabited

/-- A node literal. -/
def nd (op : Op) (tok : Token) (left : Option Node := none) (right : Option Node := none)
    (stmts : List Node := []) (params : List Node := []) (attrs : Attrs := {}) : Node :=
  .mk op tok attrs left right stmts params

/-- What a syntax error says was expected. -/
inductive Want where
  | kind (k : Kind) | top | body | stmt | expr | type
  deriving DecidableEq, Repr

/-- A syntax error: the token it is reported at (file, line and column are fields of the token). -/
structure SynErr where
  tok : Token
  want : Want
  deriving DecidableEq, Repr

/-- `Parser` (`parse.go` 12-17) and the children of the root. -/
structure PS where
  rest : List Token
  errs : List SynErr := []
  discard : Bool := false
  root : List Node := []

/-- Panics. -/
inductive Stop where
  | eof | crash
  deriving DecidableEq, Repr

/-- A method of the parser. -/
abbrev P := ExceptT Stop (StateT PS Option)

/-- `Kind` (`parse.go` 560-562). -/
def kind : P Kind := do
  match (← get).rest with
  | t :: _ => return t.kind
  | [] => throw .crash

/-- `next` (`parse.go` 573-581). -/
def next : P Token := do
  match (← get).rest with
  | t :: u :: r => modify (fun s => { s with rest := u :: r }); return t
  | _ => throw .eof

/-- `syntaxError` (`parse.go` 583-598). -/
def syntaxError (w : Want) : P Unit := do
  let s ← get
  if s.discard then return ()
  else match s.rest with
    | t :: _ => set ({ s with discard := true, errs := s.errs ++ [⟨t, w⟩] } : PS)
    | [] => throw .crash

/-- `is` (`parse.go` 551-558) with one kind. -/
def is (k : Kind) : P Bool := do
  return (← kind) == k

/-- `match` (`parse.go` 564-571). -/
def accept (k : Kind) : P Bool := do
  if ← is k then
    let _ ← next
    modify (fun s => { s with discard := false })
    return true
  else return false

/-- `need` (`parse.go` 533-540). -/
def need (k : Kind) : P Token := do
  if ← is k then
    modify (fun s => { s with discard := false })
    next
  else
    syntaxError (.kind k)
    let _ ← next
    need k
partial_fixpoint

/-- `Kind.IsExprStart` (`lex.go` 100-107). -/
def isExprStart : Kind → Bool
  | .integer | .string | .identifier | .true_ | .false_ | .not | .lparen | .fn | .min | .lbrack => true
  | _ => false

/-- `Kind.Precedence` (`lex.go` 109-142). -/
def prec : Kind → Nat
  | .lparen | .lgmet => 13
  | .dot | .lbrack => 12
  | .not | .neg | .bnot => 11
  | .mul | .div => 10
  | .plus | .min => 9
  | .bleft | .bright => 8
  | .gt | .gte | .lt | .lte => 7
  | .eq => 6
  | .band => 5
  | .bxor => 4
  | .bor => 3
  | .and => 2
  | .or | .question => 1
  | _ => 0

/-- `Kind.Associativity() == Right` (`lex.go` 151-162). -/
def isRightAssoc : Kind → Bool
  | .not | .bnot => true
  | _ => false

/-- `infixKindToOp` (`parse.go` 371-389); a missing key gives 0, which is `opBlockFnDcl`. -/
def infixOp : Kind → Op
  | .plus => .add | .min => .sub | .mul => .mul | .div => .div
  | .bleft => .bleft | .bright => .bright | .band => .band | .bor => .bor | .bxor => .bxor
  | .gt => .gt | .gte => .gte | .lt => .lt | .lte => .lte | .eq => .eq
  | .dot => .dot | .or => .or | .and => .and
  | _ => .blockFnDcl

/-- `prefixKindToOp` (`parse.go` 365-370). -/
def prefixOp : Kind → Op
  | .not => .not | .bnot => .bnot | .min => .neg
  | _ => .blockFnDcl

/-- The functions in `infixParsers` (`parse.go` 391, 406-422). -/
inductive Infix where
  | call | tcall | array | ternary | binary
  deriving DecidableEq, Repr

/-- `infixParsers`. -/
def infixOf : Kind → Option Infix
  | .lparen => some .call
  | .lgmet => some .tcall
  | .lbrack => some .array
  | .question => some .ternary
  | .dot | .plus | .min | .mul | .div | .bleft | .bright | .band | .bor | .bxor
  | .gt | .gte | .lt | .lte | .eq | .or | .and => some .binary
  | _ => none

/-- The functions in `prefixParsers` (`parse.go` 392-404, 415-428). -/
inductive Prefix where
  | ident | group | lit | func | type | arrayLit | op
  deriving DecidableEq, Repr

/-- `prefixParsers`. -/
def prefixOf : Kind → Option Prefix
  | .identifier => some .ident
  | .lparen => some .group
  | .integer | .string | .true_ | .false_ => some .lit
  | .fn => some .func
  | .type => some .type
  | .lbrack => some .arrayLit
  | .not | .bnot | .min => some .op
  | _ => none

/-- `nextPrecedence` (`parse.go` 440-445). -/
def nextPrec (k : Kind) : Nat :=
  match infixOf k with
  | none => 0
  | some _ => prec k

/-! ## Types, parameters, names -/

mutual

/-- `parseType` (`parse.go` 495-527). -/
def parseType : P Node := do
  match ← kind with
  | .fn =>
    let t ← next
    let _ ← need .lparen
    let types ← optTypes .rparen
    let _ ← need .rparen
    if (← is .fn) || (← is .identifier) || (← is .lbrack) then
      return nd .funcType t (stmts := types) (left := some (← parseType))
    else
      return nd .funcType t (stmts := types)
  | .lbrack =>
    let t ← next
    let _ ← need .rbrack
    return nd .arrayType t (left := some (← parseType))
  | .identifier =>
    let t ← next
    if ← is .lgmet then
      let start ← need .lgmet
      let types ← optTypes .rgmet
      let _ ← need .rgmet
      return nd .namedType t (left := some (nd .typeList start (params := types)))
    else
      return nd .namedType t
  | _ =>
    syntaxError .type
    return nd .error (← next)
partial_fixpoint

/-- The loop `for ok := true; ok; ok = p.match(lex.Comma)` over types (`parse.go` 318-320, 460-462,
502-504). -/
def commaTypes : P (List Node) := do
  let t ← parseType
  if ← accept .comma then return t :: (← commaTypes)
  else return [t]
partial_fixpoint

/-- `if p.isNot(k) { … }` around the loop. -/
def optTypes (k : Kind) : P (List Node) := do
  if !(← is k) then commaTypes else return []
partial_fixpoint

end

/-- `parseTypeList` (`parse.go` 457-466). -/
def parseTypeList : P (List Node × Token) := do
  let start ← need .lgmet
  let types ← optTypes .rgmet
  let _ ← need .rgmet
  return (types, start)

/-- `parseParameter` (`parse.go` 489-493). -/
def parseParameter : P Node := do
  let name ← need .identifier
  let _ ← need .colon
  return nd .identifier name (left := some (← parseType))

/-- The loop of `parseParenList` (`parse.go` 481-483) over parameters. -/
def commaParams : P (List Node) := do
  let t ← parseParameter
  if ← accept .comma then return t :: (← commaParams)
  else return [t]
partial_fixpoint

/-- `if p.isNot(lex.RParen) { … }` around the loop. -/
def optParams : P (List Node) := do
  if !(← is .rparen) then commaParams else return []

/-- `parseParameters` (`parse.go` 474-487). -/
def parseParameters : P (List Node) := do
  let _ ← need .lparen
  let xs ← optParams
  let _ ← need .rparen
  return xs

/-- `parseIdentifier` (`parse.go` 273-275). -/
def parseIdentifier : P Node := do
  return nd .identifier (← need .identifier)

/-- The loop of `parseParenList` over names. -/
def commaIdents : P (List Node) := do
  let t ← parseIdentifier
  if ← accept .comma then return t :: (← commaIdents)
  else return [t]
partial_fixpoint

/-- `if p.isNot(lex.RParen) { … }` around the loop. -/
def optIdents : P (List Node) := do
  if !(← is .rparen) then commaIdents else return []

/-- `parseIdentifiers` (`parse.go` 468-472, 478-487). -/
def parseIdentifiers : P (List Node) := do
  let _ ← need .lparen
  let xs ← optIdents
  let _ ← need .rparen
  return xs

/-- The type parameters of a function (`parse.go` 136-140). -/
def fnTypeList : P (Option Node) := do
  if (← kind) == .lgmet then
    let (types, start) ← parseTypeList
    return some (nd .typeList start (params := types))
  else return none

/-- The return type of a function (`parse.go` 143-145). -/
def fnRet : P (Option Node) := do
  if (← is .fn) || (← is .lbrack) || (← is .identifier) then return some (← parseType)
  else return none

/-! ## Expressions, functions, statements -/

mutual

/-- `parseExpr` (`parse.go` 430-453). -/
def parseExpr (p : Nat) : P Node := do
  let t ← next
  match prefixOf t.kind with
  | none =>
    syntaxError .expr
    return nd .error (← next)
  | some f =>
    let left ← parsePrefix f t
    exprLoop p left
partial_fixpoint

/-- The loop of `parseExpr` (`parse.go` 448-451). -/
def exprLoop (p : Nat) (left : Node) : P Node := do
  if p < nextPrec (← kind) then
    let t ← next
    match infixOf t.kind with
    | none => throw .crash
    | some f =>
      let left ← parseInfix f left t
      exprLoop p left
  else return left
partial_fixpoint

/-- The functions of `prefixParsers` (`parse.go` 300-302, 329-363). -/
def parsePrefix (f : Prefix) (t : Token) : P Node := do
  match f with
  | .ident => return nd .identifier t
  | .lit => return nd .lit t
  | .group =>
    let e ← parseExpr 0
    let _ ← need .rparen
    return e
  | .op => return nd (prefixOp t.kind) t (left := some (← parseExpr (prec t.kind)))
  | .type =>
    let _ ← need .lparen
    let n ← parseType
    let _ ← need .rparen
    return n
  | .arrayLit =>
    let args ← optExprs .rbrack
    let _ ← need .rbrack
    return nd .arrayLit t (stmts := args)
  | .func => fnRest {} t true
partial_fixpoint

/-- The functions of `infixParsers` (`parse.go` 280-298, 304-327). -/
def parseInfix (f : Infix) (left : Node) (t : Token) : P Node := do
  match f with
  | .binary =>
    let p := prec t.kind
    let p := if isRightAssoc t.kind then p - 1 else p
    return nd (infixOp t.kind) t (left := some left) (right := some (← parseExpr p))
  | .ternary =>
    let a ← parseExpr 0
    let _ ← need .colon
    let b ← parseExpr (prec t.kind - 1)
    return nd .ternary t (left := some left) (stmts := [a, b])
  | .array =>
    let i ← parseExpr 0
    let _ ← need .rbrack
    return nd .array t (left := some left) (right := some i)
  | .call =>
    let args ← optExprs .rparen
    let _ ← need .rparen
    return nd .funcCall t (left := some left) (stmts := args)
  | .tcall =>
    let types ← optTypes .rgmet
    let _ ← need .rgmet
    let _ ← need .lparen
    let args ← optExprs .rparen
    let _ ← need .rparen
    return nd .funcCall t (left := some left) (stmts := args) (params := types)
partial_fixpoint

/-- The argument loops of `parseCall` and `parseArrayLiteral` (`parse.go` 307-309, 357-359). -/
def commaExprs : P (List Node) := do
  let e ← parseExpr 0
  if ← accept .comma then return e :: (← commaExprs)
  else return [e]
partial_fixpoint

/-- `if p.isNot(k) { … }` around the loop. -/
def optExprs (k : Kind) : P (List Node) := do
  if !(← is k) then commaExprs else return []
partial_fixpoint

/-- `parseFn` (`parse.go` 132-163) after the name was read. -/
def fnRest (attrs : Attrs) (id : Token) (isAnon : Bool) : P Node := do
  let tl ← fnTypeList
  let params ← parseParameters
  let ret ← fnRet
  match ← kind with
  | .lbrace =>
    let ss ← parseBlock
    return nd .blockFnDcl id (attrs := attrs) (params := params) (left := ret) (right := tl) (stmts := ss)
  | .as =>
    let _ ← next
    let e ← parseExpr 0
    return nd .exprFnDcl id (attrs := attrs) (params := params) (left := ret) (right := tl) (stmts := [e])
  | _ =>
    if isAnon then
      syntaxError .body
      let _ ← next
      return nd .blockFnDcl id (attrs := attrs) (params := params) (left := ret) (right := tl)
    else
      return nd .externFnDcl id (attrs := attrs) (params := params) (left := ret) (right := tl)
partial_fixpoint

/-- `parseBlock` (`parse.go` 165-172). -/
def parseBlock : P (List Node) := do
  let _ ← need .lbrace
  let ss ← blockLoop
  let _ ← need .rbrace
  return ss
partial_fixpoint

/-- The loop of `parseBlock`. -/
def blockLoop : P (List Node) := do
  if !(← is .rbrace) then
    let s ← parseStatement
    return s :: (← blockLoop)
  else return []
partial_fixpoint

/-- `parseStatement` (`parse.go` 174-207) with `parseReturn`, `parseWhile`, `parseFor`, `parseIf`,
`parseMatch`, `parseAssignment`, `parseDeclarationAssignment` (`parse.go` 209-271). -/
def parseStatement : P Node := do
  let k ← kind
  if k = .ret then
    let t ← need .ret
    if isExprStart (← kind) then return nd .ret t (left := some (← parseExpr 0))
    else return nd .ret t
  else if k = .while_ then
    let t ← need .while_
    let e ← parseExpr 0
    let ss ← parseBlock
    return nd .while_ t (left := some e) (stmts := ss)
  else if k = .for_ then
    let t ← need .for_
    let v ← parseIdentifier
    let _ ← need .in_
    let r ← parseExpr 0
    let r ← forRange r
    let ss ← parseBlock
    return nd .for_ t (left := some v) (right := some r) (stmts := ss)
  else if k = .if_ then
    let t ← need .if_
    let e ← parseExpr 0
    let ss ← parseBlock
    let r ← ifChain
    return nd .if_ t (left := some e) (right := r) (stmts := ss)
  else if isExprStart k then
    let e ← parseExpr 0
    match ← kind with
    | .as =>
      let t ← need .as
      return nd .as_ t (left := some e) (right := some (← parseExpr 0))
    | .das =>
      let t ← need .das
      return nd .das t (left := some e) (right := some (← parseExpr 0))
    | _ => return e
  else if k = .match_ then
    let t ← need .match_
    let e ← parseExpr 0
    let _ ← need .lbrace
    let cs ← caseLoop
    let _ ← need .rbrace
    return nd .match_ t (left := some e) (stmts := cs)
  else
    syntaxError .stmt
    return nd .error (← next)
partial_fixpoint

/-- The range of `parseFor` (`parse.go` 226-228). -/
def forRange (r : Node) : P Node := do
  if ← is .dotdot then
    let d ← next
    let e ← parseExpr 0
    return nd .range d (left := some r) (right := some e)
  else return r
partial_fixpoint

/-- The loop of `parseIf` and its `else` (`parse.go` 234-240): the value of `cur.right`. -/
def ifChain : P (Option Node) := do
  if ← is .elseif then
    let t ← need .elseif
    let e ← parseExpr 0
    let ss ← parseBlock
    let r ← ifChain
    return some (nd .elseif t (left := some e) (right := r) (stmts := ss))
  else if ← is .else_ then
    let t ← need .else_
    let ss ← parseBlock
    return some (nd .else_ t (stmts := ss))
  else return none
partial_fixpoint

/-- The loop over the cases of `parseMatch` (`parse.go` 251-260). -/
def caseLoop : P (List Node) := do
  if !(← is .rbrace) then
    let _ ← need .case
    let id ← need .identifier
    let ps ← parseIdentifiers
    let _ ← need .colon
    let ss ← caseStmts
    return nd .case_ id (params := ps) (stmts := ss) :: (← caseLoop)
  else return []
partial_fixpoint

/-- The statements of a case (`parse.go` 256-258). -/
def caseStmts : P (List Node) := do
  if !(← is .case) && !(← is .rbrace) then
    let s ← parseStatement
    return s :: (← caseStmts)
  else return []
partial_fixpoint

end

/-! ## Declarations -/

/-- The loop of `parseAttributes` (`parse.go` 91-93). -/
def attrLoop (a : Attrs) : P Attrs := do
  let t ← need .identifier
  let a := a.add t.val
  if ← accept .comma then attrLoop a else return a
partial_fixpoint

/-- `if p.isNot(lex.LBrack) { … }` around the loop. -/
def optAttrs : P Attrs := do
  if !(← is .lbrack) then attrLoop {} else return {}

/-- `parseAttributes` (`parse.go` 84-97). -/
def parseAttributes : P Attrs := do
  if !(← is .hash) then return {}
  else
    let _ ← need .hash
    let _ ← need .lbrack
    let a ← optAttrs
    let _ ← need .rbrack
    return a

/-- The type parameters of an enum or struct (`parse.go` 103-106, 120-123). -/
def typeParams : P (List Node) := do
  if ← is .lgmet then return (← parseTypeList).1 else return []

/-- The loop of `parseEnum` (`parse.go` 108-112). -/
def enumLoop (id : Token) : P (List Node) := do
  if !(← is .rbrace) then
    let t ← need .identifier
    let ps ← parseParameters
    return nd .consFnDcl t (params := ps) (left := some (nd .namedType id)) :: (← enumLoop id)
  else return []
partial_fixpoint

/-- `parseEnum` (`parse.go` 99-115). -/
def parseEnum (attrs : Attrs) : P Node := do
  let _ ← need .enum
  let id ← need .identifier
  let tys ← typeParams
  let _ ← need .lbrace
  let ss ← enumLoop id
  let _ ← need .rbrace
  return nd .enumDcl id (attrs := attrs) (params := tys) (stmts := ss)

/-- The loop of `parseStruct` (`parse.go` 125-127). -/
def fieldLoop : P (List Node) := do
  if !(← is .rbrace) then
    let f ← parseParameter
    return f :: (← fieldLoop)
  else return []
partial_fixpoint

/-- `parseStruct` (`parse.go` 117-130). -/
def parseStruct (attrs : Attrs) : P Node := do
  let _ ← need .struct
  let id ← need .identifier
  let tys ← typeParams
  let _ ← need .lbrace
  let ss ← fieldLoop
  let _ ← need .rbrace
  return nd .structDcl id (attrs := attrs) (params := tys) (stmts := ss)

/-- `parseFn` (`parse.go` 132-163) of a declaration: `need(Fn)`, `need(Identifier)`, the rest. -/
def parseFn (attrs : Attrs) : P Node := do
  let _ ← need .fn
  let id ← need .identifier
  fnRest attrs id false

/-- `root.Add` (`ast.go` 27-30). -/
def addRoot (n : Node) : P Unit := modify (fun s => { s with root := s.root ++ [n] })

/-- The `switch` of `Parse` (`parse.go` 63-78). -/
def topDecl (attr : Attrs) : P Unit := do
  match ← kind with
  | .fn => addRoot (← parseFn attr)
  | .struct => addRoot (← parseStruct attr)
  | .enum => addRoot (← parseEnum attr)
  | _ =>
    syntaxError .top
    let _ ← next

/-- The loop of `Parse` (`parse.go` 61-79). -/
def topLoop : P Unit := do
  if !(← is .eof) then
    let attr ← parseAttributes
    topDecl attr
    topLoop
  else return ()
partial_fixpoint

/-- The body of `Parse` (`parse.go` 60-81). -/
def parseBody : P Unit := do
  topLoop
  let _ ← need .eof

/-- What `Parse` leaves behind: the errors returned and the children added to the root; `crash` is
a panic that is not `errUnexpectedEof` and so leaves `Parse`. -/
inductive Outcome where
  | done (errs : List SynErr) (root : List Node)
  | crash

/-- `Parse` with the deferred `onUnexpectedEof` (`parse.go` 49-82, 600-607): a panic with
`errUnexpectedEof` returns the errors collected so far.  `none`: `Parse` does not return. -/
def parse (tokens : List Token) : Option Outcome :=
  match (parseBody.run { rest := tokens } : Option (Except Stop Unit × PS)) with
  | none => none
  | some (.ok _, s) => some (.done s.errs s.root)
  | some (.error .eof, s) => some (.done s.errs s.root)
  | some (.error .crash, _) => some .crash

end Clara.Parse
