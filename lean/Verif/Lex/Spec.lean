import Verif.Lex.Runes
/-
Specification of the lexical grammar of Clara, independent of the lexer's control flow.
-/
namespace Clara.Lex.Spec
open Clara.Lex (Kind Uni Token Bytes runes StrBody)

/-- Text as code points. -/
def chars (s : String) : List Nat := s.toList.map Char.toNat

/-- The reserved words. -/
def reserved : List (String × Kind) :=
  [ ("fn", .fn), ("return", .ret), ("if", .if_), ("elseif", .elseif), ("else", .else_),
    ("true", .true_), ("false", .false_), ("not", .not), ("and", .and), ("or", .or),
    ("struct", .struct), ("while", .while_), ("for", .for_), ("in", .in_), ("enum", .enum),
    ("match", .match_), ("case", .case), ("type", .type) ]

/-- Operators and punctuation. -/
def symbols : List (String × Kind) :=
  [ ("(", .lparen), (")", .rparen), ("{", .lbrace), ("}", .rbrace), ("[", .lbrack), ("]", .rbrack),
    ("«", .lgmet), ("»", .rgmet), ("#", .hash), ("?", .question), (",", .comma), (":", .colon),
    (":=", .das), ("+", .plus), ("-", .min), ("*", .mul), ("/", .div), ("~", .bnot), ("^", .bxor),
    ("|", .bor), ("&", .band), (">", .gt), (">>", .bright), (">=", .gte), ("<", .lt),
    ("<<", .bleft), ("<=", .lte), (".", .dot), ("..", .dotdot), ("=", .as), ("==", .eq) ]

def Letter (u : Uni) (r : Nat) : Prop := r = '_'.toNat ∨ u.isLetter r = true
def Digit (u : Uni) (r : Nat) : Prop := u.isDigit r = true
def HexDigit (u : Uni) (r : Nat) : Prop := Digit u r ∨ r ∈ chars "abcdefABCDEF"

/-- `LexR u k rs`: the rune sequence `rs` is a token of kind `k`. -/
def LexR (u : Uni) (k : Kind) (rs : List Nat) : Prop :=
  match k with
  | .space => rs ≠ [] ∧ ∀ r ∈ rs, r = ' '.toNat
  | .eol => rs = [13] ∨ rs = [10]
  | .comment => ∃ body, rs = chars "//" ++ body ∧ ∀ r ∈ body, r ≠ 10 ∧ r ≠ 13
  | .string => ∃ body, rs = '"'.toNat :: (body ++ ['"'.toNat]) ∧ StrBody body
  | .integer =>
      (∃ d ds, rs = d :: ds ∧ '0'.toNat ≤ d ∧ d ≤ '9'.toNat ∧ ∀ x ∈ ds, Digit u x) ∨
      (∃ ds, rs = chars "0x" ++ ds ∧ ds ≠ [] ∧ ∀ x ∈ ds, HexDigit u x)
  | .identifier =>
      (∃ a as, rs = a :: as ∧ Letter u a ∧ ∀ x ∈ as, Letter u x ∨ Digit u x) ∧
      ∀ w ∈ reserved, rs ≠ chars w.1
  | .err | .eof | .neg => False
  | k => ∃ w ∈ reserved ++ symbols, w.2 = k ∧ rs = chars w.1

/-- The byte text `v` is a token of kind `k`. -/
def Lexeme (u : Uni) (k : Kind) (v : Bytes) : Prop := LexR u k (runes v)

/-- The runes that must not follow a token of kind `k` and text `rs` because they would extend
it to a longer token. -/
def Extends (u : Uni) (k : Kind) (rs : List Nat) (r : Nat) : Prop :=
  match k with
  | .space => r = ' '.toNat
  | .comment => r ≠ 10 ∧ r ≠ 13
  | .integer => if rs.take 2 = chars "0x" then HexDigit u r else Digit u r
  | .identifier => Letter u r ∨ Digit u r
  | .colon => r = '='.toNat
  | .as => r = '='.toNat
  | .dot => r = '.'.toNat
  | .div => r = '/'.toNat
  | .gt => r = '>'.toNat ∨ r = '='.toNat
  | .lt => r = '<'.toNat ∨ r = '='.toNat
  | k => k ∈ reserved.map Prod.snd ∧ (Letter u r ∨ Digit u r)

end Clara.Lex.Spec
