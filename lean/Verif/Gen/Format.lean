import Verif.Gen.CodeFile
/-
`fmt.Sprintf` of Go for strings, and the functions of the writer that use it (`asm.go` 357-382, 413-459).

Flags other than `-`, precisions, `*` and argument indexes are not covered (a `0` before the width is taken as a digit); the formats of the
writer have none.
-/
namespace Clara.Format
open Clara.Gen (Txt padTo)

/-- The arguments that are left over. -/
def extraText : List Txt → Txt
  | [] => []
  | a :: as => "string=".toList ++ (a ++ (as.flatMap (fun b => ", string=".toList ++ b)))

/-- A directive with the verb `c` for its argument. -/
def verbText (minus : Bool) (width : Nat) (c : Char) : Option Txt → Txt
  | none => "%!".toList ++ (c :: "(MISSING)".toList)
  | some a =>
    if c = 's' ∨ c = 'v' then if minus then padTo width a else List.replicate (width - a.length) ' ' ++ a
    else "%!".toList ++ (c :: ("(string=".toList ++ (a ++ [')'])))

/-- The end of the format. -/
def endText : List Txt → Txt
  | [] => []
  | a :: as => "%!(EXTRA ".toList ++ (extraText (a :: as) ++ [')'])

/-- `Sprintf`; the first argument is what has been read of a directive: whether there is a `-`, and the width. -/
def fmtLoop (st : Option (Bool × Nat)) (t : Txt) (as : List Txt) : Txt :=
  match t with
  | [] =>
    match st with
    | none => endText as
    | some _ => "%!(NOVERB)".toList
  | c :: t =>
    match st with
    | none => if c = '%' then fmtLoop (some (false, 0)) t as else c :: fmtLoop none t as
    | some p =>
      if c = '-' then fmtLoop (some (true, p.2)) t as
      else if c.isDigit then fmtLoop (some (p.1, 10 * p.2 + (c.toNat - 48))) t as
      else if c = '%' then '%' :: fmtLoop none t as
      else verbText p.1 p.2 c as.head? ++ fmtLoop none t as.tail

/-- `fmt.Sprintf(format, args...)`. -/
def sprintf (format : Txt) (args : List Txt) : Txt := fmtLoop none format args

/-- `write` (`asm.go` 357-363). -/
def wWrite (format : Txt) (args : List Txt) : Txt := sprintf format args

/-- `tab` (`asm.go` 376-378): the text is a format twice. -/
def wTab (ts : List Txt) : Txt := wWrite (sprintf ("   ".toList ++ (Data.joinWith "   ".toList ts ++ ['\n'])) []) []

/-- `spacer` (`asm.go` 380-382). -/
def wSpacer : Txt := wWrite (sprintf "\n%s\n\n".toList [List.replicate 120 ';']) []

/-- `label` (`asm.go` 437-439). -/
def wLabel (s : Txt) : Txt := wWrite (sprintf "%s:\n".toList [s]) []

/-- `raw` (`asm.go` 441-443). -/
def wRaw (s : Txt) : Txt := wWrite (sprintf "%v\n".toList [s]) []

/-- The last line of `ins` (`asm.go` 445-451). -/
def wIns (name ops : Txt) : Txt := wWrite "   %-8s%-50s\n".toList [name, ops]

/-- The text of a literal in `flush` (`asm.go` 426). -/
def wAscii (t : Txt) : Txt := wWrite "   .ascii \"%v\\0\"\n".toList [t]

end Clara.Format
