import Verif.Gen.Text
/-
The texts of the errors of the compiler: `semanticError`, `semanticError2` (`semantic.go` 665-675) with the places they are called from, and
`syntaxError` (`parse.go` 583-598).

A type is given by the text of its `String` method (`symtab.go` 203-241).  `fmt.Sprintf` is modelled for directives without flags, widths, precisions
and argument indexes.  The two messages of the lexer that have argument indexes (`lex.go` 417, 499) are left out; the others have no arguments.
-/
namespace Clara.Msg
open Clara.Gen (Txt itoa)

/-- A value given to `Sprintf`. -/
inductive Arg
  | str (t : Txt)
  | int (i : Int)
  | typ (t : Txt)

/-- The text of a value for `%v`. -/
def Arg.text : Arg → Txt
  | .str t => t
  | .int i => itoa i
  | .typ t => t

/-- The name of the type in Go, as `Sprintf` writes it. -/
def Arg.goType : Arg → Txt
  | .str _ => "string".toList
  | .int _ => "int".toList
  | .typ _ => "*main.Type".toList

/-- A value with the name of its type (`badVerb` and the end of `doPrintf` of the Go library). -/
def Arg.shown (a : Arg) : Txt := a.goType ++ '=' :: a.text

/-- The directive with the verb `c`; types have a method for `%s` and `%v`. -/
def directive (c : Char) : Option Arg → Txt
  | none => "%!".toList ++ c :: "(MISSING)".toList
  | some a =>
    let bad := "%!".toList ++ c :: '(' :: (a.shown ++ [')'])
    if c = 'v' then a.text
    else if c = 'd' then
      match a with
      | .int i => itoa i
      | _ => bad
    else if c = 's' then
      match a with
      | .int _ => bad
      | _ => a.text
    else bad

/-- The arguments left at the end of the format. -/
def extras : List Arg → Txt
  | [] => []
  | a :: as => "%!(EXTRA ".toList ++ (a.shown ++ (as.flatMap (fun b => ", ".toList ++ b.shown) ++ [')']))

/-- `fmt.Sprintf(format, args...)`. -/
def sprintfA : Txt → List Arg → Txt
  | [], as => extras as
  | [c], as => if c = '%' then "%!(NOVERB)".toList else c :: extras as
  | c :: d :: t, as =>
    if c = '%' then if d = '%' then '%' :: sprintfA t as else directive d as.head? ++ sprintfA t as.tail
    else c :: sprintfA (d :: t) as

/-- The messages of `semantic.go` 16-43 and `parse.go` 10. -/
inductive Id
  | redeclared | unknownType | unknownVar | ambiguousVar | structNamingLower | constructorOverride | notStruct | structHasNoField
  | invalidDotSelection | invalidOperatorType | mismatchedTypes | invalidNumberArgs | invalidNumberTypeArgs | resolveFunction
  | overloadResolution | nonIntegerIndex | unexpectedAssign | notAddressableAssign | notWritableAssign | missingReturn
  | integerOverflow | unknownEnumCase | matchNotExhaustive | notAnEnumCase | tooManyArgs | typeParameterNotKnown
  | emptyArrayLiteral | noTypeParameters
  | syntaxErr
  deriving DecidableEq, Repr

/-- Their formats (`semantic.go` 16-43, `parse.go` 10). -/
def Id.format : Id → Txt
  | .redeclared => "%v:%d:%d: error, '%v' redeclared".toList
  | .unknownType => "%v:%d:%d: error, unknown type '%v'".toList
  | .unknownVar => "%v:%d:%d: error, no declaration for identifier '%v' found".toList
  | .ambiguousVar => "%v:%d:%d: error, multiple identifiers for '%v' found:\n\t* %v".toList
  | .structNamingLower => "%v:%d:%d: error, struct names must start with a lowercase letter, '%v'".toList
  | .constructorOverride => "%v:%d:%d: error, function name '%v' is reserved for struct constructor".toList
  | .notStruct => "%v:%d:%d: error, '%v' is not a struct".toList
  | .structHasNoField => "%v:%d:%d: error, field '%v' is not defined in struct '%v'".toList
  | .invalidDotSelection => "%v:%d:%d: error '%v', expected field or function call".toList
  | .invalidOperatorType => "%v:%d:%d: type '%v' invalid for operator '%v'".toList
  | .mismatchedTypes => "%v:%d:%d: mismatched types, got '%v', wanted '%v'".toList
  | .invalidNumberArgs => "%v:%d:%d: invalid number of arguments, got '%v', wanted '%v'".toList
  | .invalidNumberTypeArgs => "%v:%d:%d: invalid number of type arguments, got '%v', wanted '%v'".toList
  | .resolveFunction => "%v:%d:%d: Cannot resolve function '%v'".toList
  | .overloadResolution => "%v:%d:%d: Cannot resolve function '%v' from possible candidates:\n%v".toList
  | .nonIntegerIndex => "%v:%d:%d: error, found type '%v', array index must be integer".toList
  | .unexpectedAssign => "%v:%d:%d: error, left hand side of assignment must be identifier".toList
  | .notAddressableAssign => "%v:%d:%d: error, left hand side of assignment is not addressable".toList
  | .notWritableAssign => "%v:%d:%d: error, cannot assign value to readonly field '%v'".toList
  | .missingReturn => "%v:%d:%d: error, missing return for function '%v'".toList
  | .integerOverflow => "%v:%d:%d: error, constant '%v' overflow integer type".toList
  | .unknownEnumCase => "%v:%d:%d: error, unknown case '%v' for enum '%v'".toList
  | .matchNotExhaustive => "%v:%d:%d: error, match over enum '%v' is not exhaustive".toList
  | .notAnEnumCase => "%v:%d:%d: error, '%v' is not an enum case".toList
  | .tooManyArgs => "%v:%d:%d: error, '%v' exceeds maximum argument count of '%v'".toList
  | .typeParameterNotKnown => "%v:%d:%d: error, type parameter(s) '%v' of return type '%v' not known, explicit function call type parameters required".toList
  | .emptyArrayLiteral => "%v:%d:%d: error, empty array literal not allowed ... yet!".toList
  | .noTypeParameters => "%v:%d:%d: error, type '%v' does not declare type parameters".toList
  | .syntaxErr => "%v:%d:%d: syntax error, Unexpected '%v', expected: '%v'".toList

/-- What a message needs of a token (`lex.go` 243-249). -/
structure Tok where
  file : Txt
  line : Int
  pos : Int
  val : Txt

/-- `semanticError` (`semantic.go` 665-669). -/
def semanticError (m : Id) (t : Tok) (vals : List Arg) : Txt :=
  sprintfA m.format ([.str t.file, .int t.line, .int t.pos, .str t.val] ++ vals)

/-- `semanticError2` (`semantic.go` 671-675). -/
def semanticError2 (m : Id) (t : Tok) (vals : List Arg) : Txt :=
  sprintfA m.format ([.str t.file, .int t.line, .int t.pos] ++ vals)

/-- The text of `syntaxError` (`parse.go` 591-596). -/
def syntaxText (t : Tok) (expected : Txt) : Txt :=
  sprintfA Id.syntaxErr.format [.str t.file, .int t.line, .int t.pos, .str t.val, .str expected]

/-- The static type of an argument. -/
inductive AKind
  | str | int | typ
  deriving DecidableEq, Repr

def Arg.kind : Arg → AKind
  | .str _ => .str
  | .int _ => .int
  | .typ _ => .typ

inductive File
  | semantic | typecheck
  deriving DecidableEq, Repr

/-- A call of `semanticError` (`val`) or `semanticError2`: where it is, its message, the types of the values after the token. -/
structure Call where
  file : File
  line : Nat
  msg : Id
  val : Bool
  vals : List AKind
  deriving DecidableEq, Repr

/-- The calls, in the order of the source (`semantic.go` 94-640, `typecheck.go` 28-909). -/
def calls : List Call := [
    ⟨.semantic, 94, .redeclared, true, []⟩,
    ⟨.semantic, 110, .redeclared, true, []⟩,
    ⟨.semantic, 133, .redeclared, true, []⟩,
    ⟨.semantic, 158, .tooManyArgs, false, [.str, .int]⟩,
    ⟨.semantic, 189, .redeclared, true, []⟩,
    ⟨.semantic, 252, .unknownType, true, []⟩,
    ⟨.semantic, 269, .noTypeParameters, false, [.str]⟩,
    ⟨.semantic, 273, .invalidNumberTypeArgs, false, [.int, .int]⟩,
    ⟨.semantic, 287, .noTypeParameters, false, [.str]⟩,
    ⟨.semantic, 291, .invalidNumberTypeArgs, false, [.int, .int]⟩,
    ⟨.semantic, 303, .noTypeParameters, false, [.str]⟩,
    ⟨.semantic, 347, .redeclared, true, []⟩,
    ⟨.semantic, 361, .redeclared, true, []⟩,
    ⟨.semantic, 378, .redeclared, true, []⟩,
    ⟨.semantic, 395, .missingReturn, true, []⟩,
    ⟨.semantic, 406, .unknownType, true, []⟩,
    ⟨.semantic, 463, .integerOverflow, true, []⟩,
    ⟨.semantic, 625, .structNamingLower, true, []⟩,
    ⟨.semantic, 640, .constructorOverride, true, []⟩,
    ⟨.typecheck, 28, .mismatchedTypes, false, [.typ, .typ]⟩,
    ⟨.typecheck, 52, .mismatchedTypes, false, [.typ, .typ]⟩,
    ⟨.typecheck, 95, .mismatchedTypes, false, [.typ, .typ]⟩,
    ⟨.typecheck, 110, .invalidOperatorType, false, [.typ, .str]⟩,
    ⟨.typecheck, 115, .invalidOperatorType, false, [.typ, .str]⟩,
    ⟨.typecheck, 120, .mismatchedTypes, false, [.typ, .typ]⟩,
    ⟨.typecheck, 139, .mismatchedTypes, false, [.typ, .typ]⟩,
    ⟨.typecheck, 152, .mismatchedTypes, false, [.typ, .typ]⟩,
    ⟨.typecheck, 192, .mismatchedTypes, false, [.typ, .typ]⟩,
    ⟨.typecheck, 223, .mismatchedTypes, false, [.typ, .typ]⟩,
    ⟨.typecheck, 292, .notStruct, true, []⟩,
    ⟨.typecheck, 299, .structHasNoField, true, [.str]⟩,
    ⟨.typecheck, 310, .invalidDotSelection, true, []⟩,
    ⟨.typecheck, 326, .nonIntegerIndex, false, [.typ]⟩,
    ⟨.typecheck, 331, .mismatchedTypes, false, [.typ, .str]⟩,
    ⟨.typecheck, 346, .unexpectedAssign, false, []⟩,
    ⟨.typecheck, 352, .redeclared, true, []⟩,
    ⟨.typecheck, 373, .notAddressableAssign, false, []⟩,
    ⟨.typecheck, 379, .notWritableAssign, false, [.str]⟩,
    ⟨.typecheck, 385, .mismatchedTypes, false, [.typ, .typ]⟩,
    ⟨.typecheck, 409, .mismatchedTypes, false, [.typ, .str]⟩,
    ⟨.typecheck, 439, .unknownEnumCase, false, [.str, .typ]⟩,
    ⟨.typecheck, 446, .redeclared, false, [.str]⟩,
    ⟨.typecheck, 458, .matchNotExhaustive, false, [.typ]⟩,
    ⟨.typecheck, 481, .notAnEnumCase, true, []⟩,
    ⟨.typecheck, 490, .invalidNumberArgs, false, [.int, .int]⟩,
    ⟨.typecheck, 502, .redeclared, true, []⟩,
    ⟨.typecheck, 523, .mismatchedTypes, false, [.typ, .typ]⟩,
    ⟨.typecheck, 534, .mismatchedTypes, false, [.typ, .typ]⟩,
    ⟨.typecheck, 542, .emptyArrayLiteral, true, []⟩,
    ⟨.typecheck, 550, .mismatchedTypes, false, [.typ, .typ]⟩,
    ⟨.typecheck, 574, .mismatchedTypes, false, [.typ, .str]⟩,
    ⟨.typecheck, 595, .tooManyArgs, false, [.str, .int]⟩,
    ⟨.typecheck, 609, .resolveFunction, true, []⟩,
    ⟨.typecheck, 655, .invalidNumberArgs, false, [.int, .int]⟩,
    ⟨.typecheck, 685, .overloadResolution, false, [.str, .str]⟩,
    ⟨.typecheck, 712, .mismatchedTypes, false, [.typ, .str]⟩,
    ⟨.typecheck, 716, .invalidNumberArgs, false, [.int, .int]⟩,
    ⟨.typecheck, 720, .invalidNumberTypeArgs, false, [.int, .int]⟩,
    ⟨.typecheck, 746, .overloadResolution, false, [.typ, .str]⟩,
    ⟨.typecheck, 752, .mismatchedTypes, false, [.typ, .typ]⟩,
    ⟨.typecheck, 781, .overloadResolution, false, [.typ, .str]⟩,
    ⟨.typecheck, 787, .mismatchedTypes, false, [.typ, .typ]⟩,
    ⟨.typecheck, 798, .typeParameterNotKnown, false, [.str, .str]⟩,
    ⟨.typecheck, 902, .unknownVar, true, []⟩,
    ⟨.typecheck, 909, .ambiguousVar, false, [.str, .str]⟩
  ]

/-- The text of the error of a call. -/
def Call.text (c : Call) (t : Tok) (vals : List Arg) : Txt :=
  if c.val then semanticError c.msg t vals else semanticError2 c.msg t vals

/-- The error of an element of an array literal (`typecheck.go` 549-551): `first` is the type it is compared with. -/
def elemError (t : Tok) (_first elem : Txt) : Txt := semanticError2 .mismatchedTypes t [.typ elem, .typ "int".toList]

/-- The line printed for an error (`main.go` 51). -/
def reported (e : Txt) : Txt := sprintfA " - %v\n".toList [.str e]

end Clara.Msg
