import Verif.Lib.Files
/-
Printing (`install/lib/core.clara` 33-43, `runtime.clara` 82-103).

`printf` is the function of the C library; the part of its formats that the Clara library uses is modelled.  It is declared with
raw values (`main.go` 218-220): ints are passed as 64-bit numbers, strings as the address of their first byte.  The output is the state of the
operating system; writing never fails.
-/
namespace Clara.Lib

/-- An argument as `printf` finds it in its register. -/
inductive CArg
  | num (w : BitVec 64)
  /-- the address of the first byte of the object -/
  | str (r : Nat)

/-- A conversion: `%`, the flag `0`, the width, `l` or `ll`, a letter. -/
structure CSpec where
  zero : Bool := false
  width : Nat := 0
  long : Bool := false
  conv : UInt8
  deriving DecidableEq, Repr

/-- Pieces of a format. -/
inductive Piece
  | byte (b : UInt8)
  | conv (s : CSpec)
  deriving DecidableEq, Repr

/-- The number that starts here. -/
def takeWidth : Str → Nat → Nat × Str
  | [], n => (n, [])
  | b :: s, n => if 48 ≤ b.toNat ∧ b.toNat ≤ 57 then takeWidth s (10 * n + (b.toNat - 48)) else (n, b :: s)

/-- The rest of a conversion. -/
def parseSpec (s : Str) : Option (CSpec × Str) :=
  let w := takeWidth s 0
  let l : Bool × Str := match w.2 with
    | 108 :: 108 :: t => (true, t)
    | 108 :: t => (true, t)
    | t => (false, t)
  match l.2 with
  | [] => none
  | c :: t => some ({ zero := s.head? = some 48, width := w.1, long := l.1, conv := c }, t)

/-- The pieces of a format; the number bounds its length. -/
def parseFmt : Nat → Str → Option (List Piece)
  | _, [] => some []
  | 0, _ => none
  | n + 1, b :: s =>
    if b = 37 then
      match s with
      | 37 :: t => (parseFmt n t).map (.byte 37 :: ·)
      | _ => match parseSpec s with
        | none => none
        | some (sp, t) => (parseFmt n t).map (.conv sp :: ·)
    else (parseFmt n s).map (.byte b :: ·)

/-- Digits in a base, lower case. -/
def cDigits (base n : Nat) : Str := (Nat.toDigits base n).map (fun c => UInt8.ofNat c.toNat)

/-- Padding to the width. -/
def cPad (s : CSpec) (sign digits : Str) : Str :=
  let n := s.width - (sign.length + digits.length)
  if s.zero then sign ++ List.replicate n 48 ++ digits else List.replicate n 32 ++ sign ++ digits

/-- The number that a conversion takes from a register: an `int` of 32 bits or a `long long`. -/
def CSpec.signed (s : CSpec) (w : BitVec 64) : Int := if s.long then w.toInt else (w.setWidth 32).toInt
def CSpec.unsigned (s : CSpec) (w : BitVec 64) : Nat := if s.long then w.toNat else (w.setWidth 32).toNat

/-- The text of one argument; an argument of another type is undefined in C. -/
def convert (s : CSpec) (a : CArg) : M Str :=
  match a with
  | .str r => if s.conv = 115 then do return cPad s [] (← cString r) else err .wild
  | .num w =>
    if s.conv = 100 ∨ s.conv = 105 then
      return cPad s (if s.signed w < 0 then [45] else []) (cDigits 10 (s.signed w).natAbs)
    else if s.conv = 120 then return cPad s [] (cDigits 16 (s.unsigned w))
    else err .wild

/-- The text of a format with its arguments. -/
def formatAll : List Piece → List CArg → M Str
  | [], _ => return []
  | .byte b :: ps, as => do return b :: (← formatAll ps as)
  | .conv _ :: _, [] => err .wild
  | .conv s :: ps, a :: as => do
    let t ← convert s a
    return t ++ (← formatAll ps as)

/-- `printf`. -/
def printf (fmt : Nat) (as : List CArg) : FM Str Unit := do
  let f ← onHeap (cString fmt)
  match parseFmt f.length f with
  | none => onHeap (err .wild)
  | some ps =>
    let t ← onHeap (formatAll ps as)
    onOs (fun out => (out ++ t, ()))

/-- A call with a literal as format. -/
def printLit (s : String) (as : List CArg) : FM Str Unit := do printf (← onHeap (lit (chars s))) as

/-- An int as raw value (`codegen.go` 598-606). -/
def rawInt (z : Int) : CArg := .num (BitVec.ofInt 64 z)

/-- `print` and `println` of strings (`core.clara` 33-34). -/
def printStr (s : Nat) : FM Str Unit := printLit "%s" [.str s]
def printlnStr (s : Nat) : FM Str Unit := printLit "%s\n" [.str s]
/-- `print` and `println` of ints (`core.clara` 35-36). -/
def printInt (i : Int) : FM Str Unit := printLit "%lli" [rawInt i]
def printlnInt (i : Int) : FM Str Unit := printLit "%lli\n" [rawInt i]
/-- `toString` of a bool (`core.clara` 43). -/
def boolToString (b : Bool) : M Nat := if b then lit (chars "true") else lit (chars "false")
/-- `println` of a bool (`core.clara` 37). -/
def printlnBool (b : Bool) : FM Str Unit := do printlnStr (← onHeap (boolToString b))
/-- `printHex` and `printHexPadded` (`core.clara` 40-41). -/
def printHex (i : Int) : FM Str Unit := printLit "0x%llx\n" [rawInt i]
def printHexPadded (i : Int) : FM Str Unit := printLit "0x%016llx\n" [rawInt i]

/-- The line of minus signs in the messages. -/
def panicRule : String := "// -----------------------------------------------------------------------------\n"

/-- `panic` (`runtime.clara` 82-87) up to `exit`; the value is the exit status. -/
def panicText (cause : Nat) : FM Str Int := do
  printLit ("\n" ++ panicRule) []
  printLit "// Panic: %s\n" [.str cause]
  printLit panicRule []
  return 1

/-- `assert` (`runtime.clara` 89-93); the value is the exit status if the program ends here. -/
def assertText (cond : Bool) (msg : Nat) : FM Str (Option Int) :=
  if cond then return none else do return some (← panicText msg)

/-- `indexOutOfBounds` (`runtime.clara` 96-103) up to `exit`. -/
def indexText (index length : Int) : FM Str Int := do
  printLit ("\n" ++ panicRule) []
  printLit "// Panic: index out of bounds! index = %d, array.length = %d\n" [rawInt index, rawInt length]
  printLit panicRule []
  printLit "\nBacktrace:\nTODO!\n\n" []
  return 1

end Clara.Lib
