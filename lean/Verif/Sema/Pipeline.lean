import Verif.Lex.Channel
import Verif.Sema.FromNode
set_option linter.unusedVariables false
/-
The phases of `Compile` (`main.go` 67-170) up to type checking, on what the lexer hands over for each file.

* Errors are not collected here: that there are errors is enough to stop (C59 has the sequence of phases with errors).
* In the Go code declarations are processed before `foldConstants` changes the literals (`main.go` 90-106).  The order
  does not matter here: `declare` does not look at literals.
* Numbers `k` and `n` bound the depth of substitution (`Verif/Sema/Declare.lean`) and of type checking
  (`Verif/Sema/Check.lean`); what needs more is `.open_`.
-/
namespace Clara.Sema.Pipe
open Clara.Lex Clara.Parse
open Clara.Sema.Lit (foldL)
open Clara.Sema.Front (toDcls)
open Clara.Sema.Dcl (Dcl Tab Item declare)
open Clara.Sema.Chk (Fn chkProg)

/-- How it ends: with a panic, not at all within the bounds, in a way that the model does not follow
(`Stop.partialType`), with errors, with a result. -/
inductive Out (α : Type)
  | crash
  | open_
  | uncovered
  | errors
  | done (a : α)

/-- `lexAndParse` (`main.go` 165-194) after the tokens have been received. -/
def readFile : Handed → Out (List Node)
  | .error _ => .errors
  | .tokens ts =>
    match parse ts with
    | none => .open_
    | some .crash => .crash
    | some (.done [] root) => .done root
    | some (.done _ _) => .errors

/-- The loop over the files (`main.go` 79-89): all of them are read, and the nodes are put into one tree. -/
def readAll : List Handed → Out (List Node)
  | [] => .done []
  | h :: hs =>
    match readFile h with
    | .crash => .crash
    | .open_ => .open_
    | .uncovered => .uncovered
    | .errors =>
      match readAll hs with
      | .done _ => .errors
      | r => r
    | .done a =>
      match readAll hs with
      | .done b => .done (a ++ b)
      | r => r

/-- The phases behind (`main.go` 92-116): declarations, literals, type checking. -/
def analyse (k n : Nat) (root : List Node) : Out (Tab × List Item × List Fn) :=
  let r := foldL root
  match toDcls 0 r.1 with
  | none => .crash
  | some ds =>
    match declare k ds with
    | .error .panic => .crash
    | .error .fuel => .open_
    | .ok (_, _, _ :: _) => .errors
    | .ok (T, items, []) =>
      if r.2 ≠ [] then .errors
      else
        match chkProg T.decls n T.scope (T.items items) with
        | .error .panic => .crash
        | .error .fuel => .open_
        | .error .partialType => .uncovered
        | .ok (_, _ :: _) => .errors
        | .ok (fs, []) => .done (T, items, fs)

def front (k n : Nat) (hs : List Handed) : Out (Tab × List Item × List Fn) :=
  match readAll hs with
  | .crash => .crash
  | .open_ => .open_
  | .uncovered => .uncovered
  | .errors => .errors
  | .done root => analyse k n root

end Clara.Sema.Pipe
