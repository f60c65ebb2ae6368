import Verif.Parse.Model
/-
What a syntax error says was expected.
-/
namespace Clara.Parse
open Clara.Lex (Kind)

/-- `KindValues` (`lex.go` 185-241); there is no entry for comments, `?` and `or`. -/
def kindValue : Kind → Option String
  | .lbrace => "{"
  | .rbrace => "}"
  | .lparen => "("
  | .rparen => ")"
  | .lbrack => "["
  | .lgmet => "«"
  | .rbrack => "]"
  | .rgmet => "»"
  | .identifier => "<identifier>"
  | .string => "<string lit>"
  | .integer => "<integer lit>"
  | .fn => "fn"
  | .ret => "return"
  | .if_ => "if"
  | .elseif => "elseif"
  | .else_ => "else"
  | .gt => ">"
  | .gte => ">="
  | .lt => "<"
  | .lte => "<="
  | .band => "&"
  | .bor => "|"
  | .bxor => "^"
  | .bleft => "<<"
  | .bright => ">>"
  | .bnot => "~"
  | .mul => "*"
  | .plus => "+"
  | .div => "/"
  | .min => "- (binary)"
  | .neg => "- (unary)"
  | .true_ => "true"
  | .false_ => "false"
  | .not => "not"
  | .and => "and"
  | .eq => "=="
  | .das => ":="
  | .as => "="
  | .comma => ","
  | .colon => ":"
  | .dot => "."
  | .dotdot => ".."
  | .hash => "#"
  | .space => "<space>"
  | .eol => "<EOL>"
  | .eof => "<EOF>"
  | .struct => "struct"
  | .while_ => "while"
  | .for_ => "for"
  | .in_ => "in"
  | .enum => "enum"
  | .match_ => "match"
  | .case => "case"
  | .type => "type"
  | .err => "<error>"
  | .comment | .question | .or => none

/-- An entry of the map, the empty text if there is none. -/
def kindText (k : Kind) : List Char := ((kindValue k).getD "").toList

/-- The argument of `syntaxError` (`parse.go` 74-75, 158, 204, 436, 524, 535). -/
def Want.text : Want → List Char
  | .kind k => kindText k
  | .top => kindText .fn ++ (" or ".toList ++ (kindText .struct ++ (" or ".toList ++ kindText .enum)))
  | .body => kindText .lbrace ++ (" or ".toList ++ kindText .as)
  | .stmt => "<statement>".toList
  | .expr => "<expression>".toList
  | .type => "<type>".toList

end Clara.Parse
