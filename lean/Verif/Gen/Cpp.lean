import Verif.Gen.Gas
/-
The C preprocessor on the lines of an assembly file without directives ("The C Preprocessor", sections "Tokenization",
"Macros", "Standard Predefined Macros" and "System-specific Predefined Macros").  Nothing here is about the compiler.

The file of the compiler is named `.S` (`main.go` 138), and `gcc` (`main.go` 165) runs the preprocessor on such files.
-/
namespace Clara.Cpp
open Clara.Gas (Txt blank)

/-- Characters of identifiers and numbers; `$` is none of them in assembly files. -/
def wordChar (c : Char) : Bool := c.isAlphanum || c == '_' || decide (128 ≤ c.toNat)

/-- Where the preprocessor is in a line. -/
inductive Mode
  | gap
  /-- in an identifier, with its characters backwards -/
  | ident (acc : Txt)
  /-- in a number; whether its last character is one that a sign may follow -/
  | num (e : Bool)
  /-- in a string; whether the last character was a backslash -/
  | str (esc : Bool)
  deriving DecidableEq, Repr

/-- A macro is replaced, other identifiers are copied. -/
def ident (M : Txt → Option Txt) (w : Txt) : Txt :=
  match M w with
  | some r => r
  | none => w

/-- The beginning of a token: what is copied and where the preprocessor is then.  Character constants, comments and a division sign
are left out. -/
def start (c : Char) : Option (Txt × Mode) :=
  if c = '"' then some ([c], .str false)
  else if c = '\'' ∨ c = '/' then none
  else if c.isDigit then some ([c], .num false)
  else if wordChar c then some ([], .ident [c])
  else some ([c], .gap)

def expChar (c : Char) : Bool := c == 'e' || c == 'E' || c == 'p' || c == 'P'

/-- The next character. -/
def next (M : Txt → Option Txt) : Mode → Char → Option (Txt × Mode)
  | .gap, c => start c
  | .ident acc, c =>
    if wordChar c then some ([], .ident (c :: acc))
    else (start c).map (fun x => (ident M acc.reverse ++ x.1, x.2))
  | .num e, c =>
    if wordChar c ∨ c = '.' then some ([c], .num (expChar c))
    else if e ∧ (c = '+' ∨ c = '-') then some ([c], .num false)
    else start c
  | .str true, c => some ([c], .str false)
  | .str false, c => some ([c], if c = '"' then .gap else .str (c = '\\'))

/-- The end of a line. -/
def finish (M : Txt → Option Txt) : Mode → Option Txt
  | .ident acc => some (ident M acc.reverse)
  | .str _ => none
  | _ => some []

def scan (M : Txt → Option Txt) : Mode → Txt → Option Txt
  | m, [] => finish M m
  | m, c :: cs =>
    match next M m c with
    | some x => (scan M x.2 cs).map (fun r => x.1 ++ r)
    | none => none

/-- A line after the preprocessor; `none` is what is not modelled.  Blanks are kept as they are, and what a macro stands for is not
looked at again. -/
def cppLine (M : Txt → Option Txt) (t : Txt) : Option Txt :=
  if (t.dropWhile blank).head? = some '#' then none else scan M .gap t

end Clara.Cpp
