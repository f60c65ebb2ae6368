import Verif.Sema.Messages
import Verif.Gen.Format
import Verif.Parse.Model
/-
The output of `-types`: `printTypeInfo` (`typecheck.go` 919-940).
-/
namespace Clara.Show
open Clara.Gen (Txt itoa)
open Clara.Msg (Tok sprintfA)
open Clara.Format (sprintf)

/-- `console.Yellow`, `Red`, `Green`, `Disable` (`console/consts.go` 4-7). -/
def colYellow : Txt := "\x1b[33m".toList
def colRed : Txt := "\x1b[31m".toList
def colGreen : Txt := "\x1b[32m".toList
def colOff : Txt := "\x1b[0m".toList

/-- `debugTypeInfoFormat` (`semantic.go` 48). -/
def debugTypeInfoFormat : Txt := "⚫ %s%-60s%s %s%-30s%s ⇨ %s%s%s\n".toList

/-- `strings.Replace(s, "%", "%%", -1)`. -/
def escaped (s : Txt) : Txt := s.flatMap (fun c => if c = '%' then ['%', '%'] else [c])

/-- The operations of nodes (`ast.go` 360-411): those of the parser, `opBlock` and `opRoot`. -/
inductive AnyOp
  | parsed (op : Parse.Op)
  | block
  | root
  deriving DecidableEq, Repr

/-- `nodeTypes` (`ast.go` 413-464). -/
def nodeTypes : AnyOp → Txt
  | .parsed .blockFnDcl => "Block Fn Decl".toList
  | .parsed .exprFnDcl => "Expr Fn Decl".toList
  | .parsed .externFnDcl => "Extern Fn Decl".toList
  | .parsed .consFnDcl => "Cons Fn Decl".toList
  | .parsed .funcCall => "Func Call".toList
  | .parsed .typeList => "«TypeList»".toList
  | .parsed .lit => "Literal".toList
  | .parsed .add => "Binary Op [Add]".toList
  | .parsed .sub => "Binary Op [Min]".toList
  | .parsed .mul => "Binary Op [Mul]".toList
  | .parsed .div => "Binary Op [Div]".toList
  | .parsed .eq => "Equality [eq]".toList
  | .parsed .not => "Bool Negation [not]".toList
  | .parsed .neg => "Numeric Negation [not]".toList
  | .parsed .dot => "Dot Select".toList
  | .parsed .and => "Logical [and]".toList
  | .parsed .bnot => "Bitwise Op [~]".toList
  | .parsed .band => "Bitwise Op [&]".toList
  | .parsed .bor => "Bitwise Op [|]".toList
  | .parsed .bxor => "Bitwise Op [^]".toList
  | .parsed .bleft => "Bitwise Op [<<]".toList
  | .parsed .bright => "Bitwise Op [>>]".toList
  | .parsed .identifier => "Identifier".toList
  | .parsed .namedType => "Named Type".toList
  | .parsed .funcType => "Func Type".toList
  | .parsed .array => "Array Access".toList
  | .parsed .arrayType => "Array Type".toList
  | .parsed .ret => "Return Expr".toList
  | .parsed .if_ => "If Stmt".toList
  | .parsed .while_ => "While".toList
  | .parsed .das => "Decl & Assign Stmt".toList
  | .parsed .as_ => "Assign Stmt".toList
  | .parsed .elseif => "ElseIf Stmt".toList
  | .parsed .else_ => "Else Stmt".toList
  | .parsed .gt => "Comparison Op [>]".toList
  | .parsed .gte => "Comparison Op [>=]".toList
  | .parsed .lt => "Comparison Op [<]".toList
  | .parsed .lte => "Comparison Op [<=]".toList
  | .parsed .or => "Logical [or]".toList
  | .parsed .error => "(error)".toList
  | .parsed .structDcl => "Struct".toList
  | .parsed .enumDcl => "Enum".toList
  | .parsed .match_ => "Match".toList
  | .parsed .case_ => "Case".toList
  | .parsed .ternary => "Ternary Op [?:]".toList
  | .parsed .range => "Range".toList
  | .parsed .for_ => "For".toList
  | .parsed .arrayLit => "Array Literal".toList
  | .block => "Block".toList
  | .root => "<none>".toList

/-- What `printTypeInfo` needs of a node: its token, its operation, the text of its type. -/
structure Node where
  tok : Tok
  op : AnyOp
  typ : Option Txt

/-- `n.op == opLit`. -/
def Node.lit (n : Node) : Bool := n.op == .parsed .lit

/-- `location` (`typecheck.go` 926-929). -/
def location (n : Node) : Txt :=
  if n.tok.file = [] then "<AST defined>".toList
  else sprintfA "%v:%d:%d".toList [.str n.tok.file, .int n.tok.line, .int n.tok.pos]

/-- `symbolName` (`typecheck.go` 930-933). -/
def symbolName (n : Node) : Txt :=
  let s := escaped n.tok.val
  if n.lit then s else ['"'] ++ (s ++ ['"'])

/-- `printTypeInfo` (`typecheck.go` 919-940). -/
def printTypeInfo (n : Node) : Txt :=
  sprintf debugTypeInfoFormat
    [colYellow, location n, colOff, colRed, sprintf "%s(%s)".toList [nodeTypes n.op, symbolName n], colOff, colGreen, n.typ.getD "<EMPTY>".toList, colOff]

end Clara.Show
