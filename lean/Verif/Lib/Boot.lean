import Verif.Gen.Helpers
/-
The start of a process: `main` of `install/init/bootstrap.c` and `genAsmEntrypoint` (`codegen.go` 380-385).

`getopt_long` is that of GNU libc for the options of this program, without `POSIXLY_CORRECT` in the environment: it takes
the arguments that begin with `-` in order, and moves those that do not behind them.  Its messages on the error stream are only
counted.
-/
namespace Clara.Boot
open Clara.Gen

abbrev Arg := List UInt8

/-- The argument `--`. -/
def dashes : Arg := [45, 45]

/-- An argument that `getopt_long` takes for options: `-` and something behind it. -/
def isOption : Arg → Bool
  | 45 :: _ :: _ => true
  | _ => false

/-- `gc.debug` (`bootstrap.c` 15). -/
def longName : Arg := [103, 99, 46, 100, 101, 98, 117, 103]

/-- What `getopt_long` returns: the letter of an option, `?` after a message, or -1. -/
inductive Res
  | letter (c : UInt8)
  | bad
  | finish
  deriving DecidableEq, Repr

/-- The state of `getopt_long`: what lies at the beginning of `argv` for good, the arguments moved behind it, those not looked at,
and the letters left of the current argument. -/
structure Getopt where
  before : List Arg
  skipped : List Arg := []
  rest : List Arg
  chars : Arg := []
  deriving DecidableEq, Repr

def Getopt.argv (g : Getopt) : List Arg := g.before ++ (g.skipped ++ g.rest)

/-- One letter: only `g` is an option (`bootstrap.c` 25). -/
def letterOf (c : UInt8) : Res := if c = 103 then .letter c else .bad

/-- A long option is found by any beginning of its name, and takes no value (`bootstrap.c` 15). -/
def longOf (t : Arg) : Res := if t.isPrefixOf longName then .letter 103 else .bad

/-- A call of `getopt_long(argc, argv, "g", options, &index)` (`bootstrap.c` 25). -/
def getopt (g : Getopt) : Res × Getopt :=
  match g.chars with
  | c :: cs => (letterOf c, { g with chars := cs })
  | [] =>
    let skipped := g.skipped ++ g.rest.takeWhile (fun x => !isOption x)
    match g.rest.dropWhile (fun x => !isOption x) with
    | [] => (.finish, { before := g.before, skipped := skipped, rest := [] })
    | x :: r =>
      if x = dashes then (.finish, { before := g.before ++ [x], skipped := skipped, rest := r })
      else
        match x with
        | 45 :: 45 :: t => (longOf t, { before := g.before ++ [x], skipped := skipped, rest := r })
        | _ :: c :: cs => (letterOf c, { before := g.before ++ [x], skipped := skipped, rest := r, chars := cs })
        | _ => (.finish, { before := g.before, skipped := skipped, rest := x :: r })

/-- `main` of the C code up to the call of the program (`bootstrap.c` 19-40). -/
structure Main where
  debugGc : Bool := false
  messages : Nat := 0
  argv : List Arg
  deriving DecidableEq, Repr

/-- The loop (`bootstrap.c` 21-40). -/
def optionLoop (g : Getopt) (debugGc : Bool) (messages : Nat) : Option Main :=
  match getopt g with
  | (.finish, g') => some { debugGc := debugGc, messages := messages, argv := g'.argv }
  | (.letter c, g') => optionLoop g' (if c = 103 then true else debugGc) messages
  | (.bad, g') => optionLoop g' debugGc (messages + 1)
partial_fixpoint

/-- A process with these arguments. -/
def bootMain (prog : Arg) (args : List Arg) : Option Main := optionLoop { before := [prog], rest := args } false 0

/-! ### The entry in assembly -/

/-- `genAsmEntrypoint` (`codegen.go` 380-385): `f` is the label of `entrypoint`. -/
def entryCode (f : String) : List HIns :=
  inFrame [.ins (.shl (.imm 1) .rdi), .ins (.alu .or (.imm 1) .rdi), .ins (.call f)]

/-- Running code up to its `ret`, when `callee f ra b b'` says what a call does: `b` is the state after the return address `ra`
was pushed, `b'` that after the return. -/
inductive HRuns {σ : Type} (abs : Abs → Word) (callee : String → Word → BMach σ → BMach σ → Prop) :
    BMach σ → List HIns → Word → BMach σ → Prop
  | ret {b is} : HRuns abs callee b (.ins .ret :: is) (b.load (b.reg .rsp)) (b.set .rsp (b.reg .rsp + 8))
  | call {b f is ra b1 w b2} : callee f ra (b.push ra) b1 → HRuns abs callee b1 is w b2 → HRuns abs callee b (.ins (.call f) :: is) w b2
  | ins {b i is b1 w b2} : hexec abs b i = some b1 → HRuns abs callee b1 is w b2 → HRuns abs callee b (i :: is) w b2

end Clara.Boot
