import Verif.Sema.MeaningEnd
import Verif.Sema.MeaningSteady
import Verif.Props.Lower
import Verif.Props.Codegen
import Verif.Props.NoCrash
set_option linter.unusedVariables false
/-
Property C68: compiled programs compute what they say.

The meaning of a checked program is given by `XBig` (`Verif/Sema/Meaning.lean`), which follows the tree of the program:
variables are found by name, blocks have scopes, `for` takes its bounds or its array once, `match` takes the case of the
constructor.  What is claimed of the code is what the machine does (`Verif/Gen`), after the rewriting of the tree
(`Verif/Sema/ToGen.lean`, `Verif/Sema/Lower.lean`) and the code generator.

The full claim is `C68_claim`; it is false (`C68_violated`), because of loops over decreasing ranges.  `C68_partial` and
`C68_partial_runs` are about the runs with the ranges for which C25 holds, in which the ends of ranges and the arrays of loops
have the same values each time round (`Loops.again`).  This is so in all runs of programs with steady loops
(`C68_partial_steady`): the end of a range is a number or a variable that the loop does not assign, and so is the array of a
loop; in function literals such variables are not captured.
-/
namespace Clara.Props
open Clara.Sema.Chk Clara.Types
open Clara.Sema (docRange codeRange Lib SBig SProg codeOpts lowP lowF)
open Clara.Gen (Val Store Word Prog Big FnDef Image Ctx Called Returned Reaches Ev Mach)

variable {σ : Type}

/-- The values that loops take (C25), and the range is one for which C25 holds: it does not decrease, or it ends at
a number written `0` and does not start below it. -/
def saneRange (zero : Bool) (a b : BitVec 63) (vs : List (BitVec 63)) : Prop :=
  docRange zero a b vs ∧ if zero then b = 0 ∧ 0 ≤ a.toInt else a.toInt ≤ b.toInt

theorem sane_code (z : Bool) (a b : BitVec 63) (vs : List (BitVec 63)) (h : saneRange z a b vs) : codeRange z a b vs := by
  obtain ⟨h1, h2⟩ := h
  refine ((C25_partial_iff z a b (fun hz => ?_)).mpr ?_ vs).mpr h1
  · rw [hz] at h2; exact h2.1
  · cases z
    · simpa using h2
    · simp only [if_true] at h2 ⊢
      exact h2.2

/-- A program and what is around it: the functions of `X` are declared, its function literals are those of the program, the
library is there, and the functions made of the program have different names. -/
structure mnFits (T : TrLib) (D : Decls) (fs : List (Top × Fn)) (fds : List FnDef) (X : XProg σ) : Prop where
  made : trProg T D fs = .ok fds
  asm : X.asm = T.asm
  fns : ∀ fid p f, (fid, p, f) ∈ X.fns → (p, f) ∈ fs ∧ p.kind ≠ .external ∧ ∀ x s, s.fid = fid → T.asm x s = p.name
  lib : XLibOk T X fs
  lits : LitsOk T X fs
  names : (fds.map (·.name)).Nodup
  members : ∀ n, (D.members n).length < 2 ^ 63

/-- Loops as they should be: the values that C25 says, the bounds and the array evaluated once. -/
def docLoops : Loops := ⟨docRange, false⟩

/-- Such loops, over ranges for which C25 holds, whose bounds and arrays have the same values each time round. -/
def saneLoops : Loops := ⟨saneRange, true⟩

/-- The claim: what a call of a function computes, the code generated for the function computes. -/
def C68_claim : Prop :=
  ∀ (σ : Type) (T : TrLib) (D : Decls) (fs : List (Top × Fn)) (fds : List FnDef) (X : XProg σ), mnFits T D fs fds X →
  ∀ (p : Top) (f : Fn) (vs : List (Option Val)) (S S' : Store σ) (v : Option Val), (p, f) ∈ fs → XBig docLoops D X (.fn p f vs S v S') →
  ∃ fd ∈ fds, fd.name = p.name ∧ ∃ d, Big { X.base with fns := fds } d (.fn fd vs S v S')

/-- **C68**, the part of it that holds.  Missing: runs in which the end of a range or the array of a loop changes, or the
variable of a range is assigned (C25 and C26 are violated there), ranges for which C25 is violated, programs with two equal
function literals, and the literals and operators that `ToGen` leaves out. -/
theorem C68_partial {T : TrLib} {D : Decls} {fs : List (Top × Fn)} {fds : List FnDef} {X : XProg σ} (h : mnFits T D fs fds X)
    {p : Top} {f : Fn} (hp : (p, f) ∈ fs)
    {vs : List (Option Val)} {S S' : Store σ} {v : Option Val} (hr : XBig saneLoops D X (.fn p f vs S v S')) :
    ∃ fd ∈ fds, fd.name = p.name ∧ (p.skip = false → fd.skip = false) ∧ ∃ d, Big { X.base with fns := fds } d (.fn fd vs S v S') :=
  compiled_says h.made ⟨h.asm, h.fns⟩ h.lib h.lits h.names h.members sane_code rfl hp hr

/-- **C68** on the machine: a call of the function, with enough stack, returns with the result that the program says, and
with the heap that it says. -/
theorem C68_partial_runs {T : TrLib} {D : Decls} {fs : List (Top × Fn)} {fds : List FnDef} {X : XProg σ} (h : mnFits T D fs fds X)
    {p : Top} {f : Fn} (hp : (p, f) ∈ fs) (hk : p.skip = false)
    {vs : List (Option Val)} {S S' : Store σ} {v : Option Val} (hr : XBig saneLoops D X (.fn p f vs S v S'))
    {I : Image σ} {C : List Ev} {lim top : Nat} (hI : Ctx { X.base with fns := fds } I C lim top) :
    ∃ fd ∈ fds, fd.name = p.name ∧ ∃ d, ∀ (pc q : Nat) (m : Mach σ), Called I lim top fd vs S d pc q m →
      Reaches I (Returned lim top m q v S') (pc, m) := by
  obtain ⟨fd, hfd, hn, hsk, d, hb⟩ := C68_partial h hp hr
  exact ⟨fd, hfd, hn, d, fun pc q m hc => C34_function hI hfd (hsk hk) hb hc⟩

/-- **C68** for programs with steady loops: here every run, over ranges for which C25 holds, is one that the code does. -/
theorem C68_partial_steady {T : TrLib} {D : Decls} {fs : List (Top × Fn)} {fds : List FnDef} {X : XProg σ} (h : mnFits T D fs fds X)
    (hs : ∀ fid p f, (fid, p, f) ∈ X.fns → SteadyFn f) (hl : ∀ t k, (t, k) ∈ X.lits → SteadyLit t) {p : Top} {f : Fn} (hp : (p, f) ∈ fs) (hf : SteadyFn f)
    {vs : List (Option Val)} {S S' : Store σ} {v : Option Val} (hr : XBig ⟨saneRange, false⟩ D X (.fn p f vs S v S')) :
    ∃ fd ∈ fds, fd.name = p.name ∧ (p.skip = false → fd.skip = false) ∧ ∃ d, Big { X.base with fns := fds } d (.fn fd vs S v S') := by
  refine C68_partial h hp (steady_again (fun t k ht => ?_) hs hl hr hf)
  have := h.lits.typed t (List.fst_mem_of_mem_zipIdx (h.lits.lits t k ht))
  cases t <;> first | rfl | exact this.elim

/-! ### A program

```
enum Opt { some(v int) none() }
fn area(o Opt) int {
  x := 0
  match o {
    case some(v):
      for i in 0 .. v { x = x + i }
      return x
    case none():
      return 7
  }
  return 9
}
fn main() int { return area(some(4)) }
```
-/

def mnTI : Ty := .prim .int
def mnOpt : Ty := .enum "Opt" []
def mnA (t : Ty) : Ann := ⟨some t, none⟩
def mnVar (x : String) (t : Ty) : X := .ident x ⟨some t, some [stackSym (some t)]⟩
def mnNum (i : Int) : X := .lit (.int i (i == 0)) (mnA mnTI)
/-- The functions with the numbers of their symbols. -/
def mnSym (fid : Nat) (k : FnKind) (us : List Ty) (u : Ty) : Alt := { ty := some (.fn { kind := k } us u), isGlobal := true, fid := fid }
def mnFun (x : String) (s : Alt) : X := .ident x ⟨s.ty, some [s]⟩

def mnUnsafe : Alt := mnSym 10 .external [] mnTI
def mnSome : Alt := mnSym 2 .normal [mnTI] mnOpt

def mnArea : Fn := ⟨[], mnTI, .block [
  .das (mnVar "x" mnTI) (mnNum 0),
  .match_ (mnVar "o" mnOpt) [
    .mk "some" (some mnSome) [("v", mnA mnTI)] [
      .for_ "i" (mnA mnTI) (.bin .range (mnNum 0) (mnVar "v" mnTI) (mnA mnTI)) [
        .asg (mnVar "x" mnTI) (.bin .add (mnVar "x" mnTI) (mnVar "i" mnTI) (mnA mnTI))],
      .ret (mnVar "x" mnTI)],
    .mk "none" (some (mnSym 3 .normal [] mnOpt)) [] [.ret (mnNum 7)]],
  .ret (mnNum 9)]⟩

def mnMain : Fn := ⟨[], mnTI, .block [
  .ret (.call (mnFun "area" (mnSym 1 .normal [mnOpt] mnTI)) [] [.call (mnFun "some" mnSome) [] [mnNum 4] (mnA mnOpt)] (mnA mnTI))]⟩

def mnAsEnum : Fn := ⟨[], mnTI, .expr (.call (mnFun "unsafe" mnUnsafe) []
  [mnVar "e" mnOpt, mnNum 0, .ty (.named "int" false []) (mnA mnTI)] (mnA mnTI))⟩

def mnDecls : Decls := ⟨fun _ => none, fun n => if n = "Opt" then [2, 3] else []⟩

def mnFs : List (Nat × Top × Fn) := [
  (0, { name := "asEnum", params := [("e", mnOpt)] }, mnAsEnum),
  (1, { name := "area", params := [("o", mnOpt)] }, mnArea),
  (2, { name := "some", params := [("v", mnTI)], kind := .cons (some 0) "some" 1 }, ⟨[], mnOpt, .none_⟩),
  (3, { name := "none", params := [], kind := .cons (some 1) "none" 2 }, ⟨[], mnOpt, .none_⟩),
  (4, { name := "main", params := [] }, mnMain)]

/-- Functions have the names above in the assembly. -/
def mnLib : TrLib := { ncLib with asm := fun x s => if s.fid < 5 then ["asEnum", "area", "some", "none", "main"].getD s.fid x else x }

/-- Memory is always allocated at the address 64; `unsafe` adds 0. -/
def mnBase : Prog Unit where
  fns := []
  alloc := "alloc"
  ioob := "ioob"
  str _ := 0
  fnAddr _ := 0
  ext f ws S w S' := f = "unsafe" ∧ ∃ a, ws = [some a, some 1, none] ∧ w = a ∧ S' = S
  rt f vs S v S' := f = "alloc" ∧ v = some (.ptr 64) ∧ S' = { S with heap := fun a => if a = 64 ∨ a = 72 then some (.int 0) else S.heap a }
  extNeed _ := 0

def mnX : XProg Unit :=
  { fns := mnFs, asm := mnLib.asm, base := mnBase, anonFn := mnLib.anonFn, clFn := mnLib.clFn, desc := mnLib.desc, envId := mnLib.envId,
    clId := mnLib.clId, isClosure := 11, arrayNoInit := 12, setElement := 13 }

def mnFds : List FnDef := match trProg mnLib mnDecls (mnFs.map (·.2)) with | .ok fds => fds | .error _ => []

theorem mn_fits : mnFits mnLib mnDecls (mnFs.map (·.2)) mnFds mnX where
  made := rfl
  asm := rfl
  fns := by
    intro fid p f h
    refine ⟨List.mem_map.mpr ⟨_, h, rfl⟩, ?_⟩
    simp only [mnX, mnFs, List.mem_cons, List.not_mem_nil, or_false] at h
    rcases h with h | h | h | h | h <;> cases h <;> exact ⟨(by intro h; cases h), fun x s hs => by simp [mnLib, hs]⟩
  lib := by
    refine ⟨rfl, ⟨{ name := "asEnum", params := [("e", mnOpt)] }, mnAsEnum, "unsafe", mnUnsafe, List.mem_cons_self, rfl, ?_, ?_⟩, ?_, ?_, ?_, ?_⟩
    · exact .mk rfl rfl rfl rfl rfl rfl rfl rfl rfl rfl
    · intro a S w S'
      constructor
      · rintro ⟨-, b, h1, h2, h3⟩
        simp only [List.cons.injEq, Option.some.injEq, and_true] at h1
        exact ⟨h2.trans h1.symm, h3⟩
      · rintro ⟨rfl, rfl⟩
        exact ⟨rfl, _, rfl, rfl, rfl⟩
    · rintro vs S v S' ⟨h, -⟩
      exact absurd h (by decide)
    all_goals (intro p f h; simp [mnX, mnFs] at h)
  lits := ⟨(by intro t k h; cases h), (by intro t h; cases h), List.Pairwise.nil, rfl, rfl, rfl, rfl, rfl⟩
  names := by decide
  members := by
    intro n
    simp only [mnDecls]
    split <;> decide

theorem mn_steady : ∀ fid p f, (fid, p, f) ∈ mnX.fns → SteadyFn f := by
  intro fid p f h
  simp only [mnX, mnFs, List.mem_cons, List.not_mem_nil, or_false] at h
  rcases h with h | h | h | h | h <;> cases h
  · trivial
  · simp [SteadyFn, mnArea, SteadyB, SteadyS, SteadyCs, SteadyEnd, assignB, assignS, mnVar, stackSym]
  · trivial
  · trivial
  · simp [SteadyFn, mnMain, SteadyB, SteadyS]

def mnStart : Store Unit := ⟨fun _ => none, ()⟩
/-- The object of `some(4)`. -/
def mnEnd : Store Unit := ⟨fun a => if a = 72 then some (.int 4) else if a = 64 then some (.int 0) else if a = 64 ∨ a = 72 then some (.int 0) else none, ()⟩

/-- The variables in the first case of `area`. -/
def mnVars (k : BitVec 63) : Vars := [("v", .val (some (.int 4))), ("x", .val (some (.int k))), ("o", .val (some (.ptr 64)))]

def mnBody : List S := [.asg (mnVar "x" mnTI) (.bin .add (mnVar "x" mnTI) (mnVar "i" mnTI) (mnA mnTI))]

theorem mn_step {i k : BitVec 63} {vs : List (BitVec 63)} {k' : BitVec 63}
    (h : XBig ⟨saneRange, false⟩ mnDecls mnX (.range (mnVars (k + i)) mnEnd "i" (mnVar "v" mnTI) 4 vs mnBody .norm (mnVars k') mnEnd)) :
    XBig ⟨saneRange, false⟩ mnDecls mnX (.range (mnVars k) mnEnd "i" (mnVar "v" mnTI) 4 (i :: vs) mnBody .norm (mnVars k') mnEnd) :=
  .rangeCons nofun (.cons (.asgVar (v := .int (k + i)) (x := "x") (.bin (v := .int k) (w := .int i) (.var rfl rfl) (.var rfl rfl) rfl)
    (.locVar (w := some (.int k)) rfl rfl)) .nil) nofun h

/-- The call of `main` returns 0 + 1 + 2 + 3. -/
theorem mn_main : XBig ⟨saneRange, false⟩ mnDecls mnX (.fn { name := "main", params := [] } mnMain [] mnStart (some (.int 6)) mnEnd) := by
  have loop : XBig ⟨saneRange, false⟩ mnDecls mnX (.range (mnVars 0) mnEnd "i" (mnVar "v" mnTI) 4 [0, 1, 2, 3] mnBody .norm (mnVars 6) mnEnd) :=
    mn_step (mn_step (mn_step (mn_step (.rangeNil nofun))))
  refine .fnRet rfl rfl rfl (.consR (.ret (.call (s := mnSym 1 .normal [mnOpt] mnTI) rfl rfl (by decide)
    (.argsCons (.call (s := mnSome) rfl rfl (by decide) (.argsCons .int .argsNil) (.tail _ (.tail _ (.head _))) rfl
      (.fnCons (vals := [.int 4]) (S2 := mnEnd) rfl rfl ⟨rfl, rfl, rfl⟩ ?_)) .argsNil) (.tail _ (.head _)) rfl ?_)))
  · rfl
  · refine .fnRet rfl rfl rfl (.cons (.das .int) (.consR (.match_ (pre := []) (vals := [.int 4]) rfl (.var rfl rfl) rfl (by simp) rfl rfl rfl ?_
      (.cons (.forR (vs := [0, 1, 2, 3]) (.int (z := true)) (.var rfl rfl) nofun ?_ loop) (.consR (.ret (.var rfl rfl)))))))
    · intro i v h
      cases i with
      | zero => cases h; rfl
      | succ i => cases h
    · exact ⟨by unfold docRange; decide, by decide⟩

/-- What `C68_partial_steady` says about it. -/
example : ∃ fd ∈ mnFds, fd.name = "main" ∧ ∃ d, Big { mnBase with fns := mnFds } d (.fn fd [] mnStart (some (.int 6)) mnEnd) := by
  obtain ⟨fd, h1, h2, -, h3⟩ := C68_partial_steady mn_fits mn_steady (by intro t k h; cases h) (p := { name := "main", params := [] }) (f := mnMain)
    (by simp [mnFs]) (mn_steady 4 _ _ (.tail _ (.tail _ (.tail _ (.tail _ (.head _)))))) mn_main
  exact ⟨fd, h1, h2, h3⟩

/-! ### A program with a closure and an array

```
fn adder(n int) fn(int) int { return fn(x int) int = n + x }
fn two() int {
  f := adder(3)
  a := [f(4)]
  return a[0]
}
```
`isClosure` and `arrayNoInit` are external functions here, in the library they are not. -/

def mnTF : Ty := .fn {} [mnTI] mnTI
def mnTA : Ty := .array mnTI
def mnTB : Ty := .prim .bool

def mnLiteral : X := .fnE ⟨[], [("x", .named "int" false [])], some (.named "int" false [])⟩ none
  (.bin .add (mnVar "n" mnTI) (mnVar "x" mnTI) (mnA mnTI)) (mnA mnTF)

def mnAdder : Fn := ⟨[], mnTF, .block [.ret mnLiteral]⟩

def mnTwo : Fn := ⟨[], mnTI, .block [
  .das (mnVar "f" mnTF) (.call (mnFun "adder" (mnSym 1 .normal [mnTI] mnTF)) [] [mnNum 3] (mnA mnTF)),
  .das (mnVar "a" mnTA) (.arr [.call (mnVar "f" mnTF) [] [mnNum 4] (mnA mnTI)] (mnA mnTA)),
  .ret (.index (mnVar "a" mnTA) (mnNum 0) (mnA mnTI))]⟩

def mnIsCl : Fn := ⟨[], mnTB, .expr (.call (mnFun "test" (mnSym 11 .external [.prim .pointer] mnTB)) [] [mnVar "p" (.prim .pointer)] (mnA mnTB))⟩

def mnNoInit : Fn := ⟨[], mnTA, .expr (.call (mnFun "new" (mnSym 12 .external [mnTI] mnTA)) [] [mnVar "n" mnTI] (mnA mnTA))⟩

def mnSet : Fn := ⟨[], mnTA, .block [
  .asg (.index (mnVar "a" mnTA) (mnVar "i" mnTI) (mnA mnTI)) (mnVar "x" mnTI), .ret (mnVar "a" mnTA)]⟩

def mnFs3 : List (Nat × Top × Fn) := [
  (0, { name := "asEnum", params := [("e", mnOpt)] }, mnAsEnum),
  (1, { name := "adder", params := [("n", mnTI)] }, mnAdder),
  (2, { name := "two", params := [] }, mnTwo),
  (3, { name := "isClosure", params := [("p", .prim .pointer)] }, mnIsCl),
  (4, { name := "arrayNoInit", params := [("n", mnTI)] }, mnNoInit),
  (5, { name := "setElement", params := [("a", mnTA), ("i", mnTI), ("x", mnTI)] }, mnSet)]

/-- `invokeDynamic`, which is not rewritten. -/
def mnDynamic : Top × Fn :=
  ({ name := "invokeDynamic", params := [], kind := .dynamic "isClosure" "unsafe" }, ⟨[], .prim .nothing, .none_⟩)

def mnLib3 : TrLib := { ncLib with
  asm := fun x s => if s.fid < 6 then ["asEnum", "adder", "two", "isClosure", "arrayNoInit", "setElement"].getD s.fid x else x
  anonFn := fun _ => "anonfn"
  clFn := fun _ => "clfn"
  envCons := fun _ => "env"
  clCons := fun _ => "cl" }

/-- The next object is at the address in the state; it has two words.  What is not at the address of a function is a closure. -/
def mnBase3 : Prog Nat where
  fns := []
  alloc := "alloc"
  ioob := "ioob"
  str _ := 0
  fnAddr f := if f = "adder" then 8 else 16
  ext f ws S w S' := (f = "unsafe" ∧ ∃ a, ws = [some a, some 1, none] ∧ w = a ∧ S' = S) ∨
    (f = "test" ∧ ∃ a, ws = [some a] ∧ w = (Val.bool (decide (64 ≤ a))).enc ∧ S' = S) ∨
    (f = "new" ∧ ws = [some (Val.int 1).enc] ∧ w = BitVec.ofNat 64 S.ext ∧
      S' = ⟨fun a => if a = BitVec.ofNat 64 S.ext then some (.int 1) else if a = BitVec.ofNat 64 S.ext + 8 then some (.int 0) else S.heap a, S.ext + 16⟩)
  rt f vs S v S' := f = "alloc" ∧ v = some (.ptr (BitVec.ofNat 64 S.ext)) ∧
    S' = ⟨fun a => if a = BitVec.ofNat 64 S.ext ∨ a = BitVec.ofNat 64 S.ext + 8 then some (.int 0) else S.heap a, S.ext + 16⟩
  extNeed _ := 0

def mnX3 : XProg Nat :=
  { fns := mnFs3, asm := mnLib3.asm, base := mnBase3, lits := [(mnLiteral, 1)], anonFn := mnLib3.anonFn, clFn := mnLib3.clFn, desc := mnLib3.desc,
    envId := mnLib3.envId, clId := mnLib3.clId, isClosure := 3, arrayNoInit := 4, setElement := 5 }

def mnAll3 : List (Top × Fn) := mnFs3.map (·.2) ++ [mnDynamic]

def mnFds3 : List FnDef := match trProg mnLib3 mnDecls mnAll3 with | .ok fds => fds | .error _ => []

theorem mn_made3 : trProg mnLib3 mnDecls mnAll3 = .ok mnFds3 := by
  have h : (match trProg mnLib3 mnDecls mnAll3 with | .ok _ => true | .error _ => false) = true := by decide +kernel
  unfold mnFds3
  cases e : trProg mnLib3 mnDecls mnAll3 with
  | ok fds => rfl
  | error b => rw [e] at h; cases h

theorem mn_fits3 : mnFits mnLib3 mnDecls mnAll3 mnFds3 mnX3 where
  made := mn_made3
  asm := rfl
  fns := by
    intro fid p f h
    refine ⟨List.mem_append_left _ (List.mem_map.mpr ⟨_, h, rfl⟩), ?_⟩
    simp only [mnX3, mnFs3, List.mem_cons, List.not_mem_nil, or_false] at h
    rcases h with h | h | h | h | h | h <;> cases h <;> exact ⟨(by intro h; cases h), fun x s hs => by simp [mnLib3, hs]⟩
  lib := by
    refine ⟨rfl, ⟨{ name := "asEnum", params := [("e", mnOpt)] }, mnAsEnum, "unsafe", mnUnsafe, List.mem_cons_self, rfl, ?_, ?_⟩, ?_, ?_, ?_, ?_⟩
    · exact .mk rfl rfl rfl rfl rfl rfl rfl rfl rfl rfl
    · intro a S w S'
      constructor
      · rintro (⟨-, b, h1, h2, h3⟩ | ⟨h, -⟩ | ⟨h, -⟩)
        · simp only [List.cons.injEq, Option.some.injEq, and_true] at h1
          exact ⟨h2.trans h1.symm, h3⟩
        · exact absurd h (by decide)
        · exact absurd h (by decide)
      · rintro ⟨rfl, rfl⟩
        exact .inl ⟨rfl, _, rfl, rfl, rfl⟩
    · rintro vs S v S' ⟨h, -⟩
      exact absurd h (by decide)
    · intro p f h
      simp [mnX3, mnFs3] at h
      obtain ⟨rfl, rfl⟩ := h
      exact ⟨mnDynamic.1, mnDynamic.2, "unsafe", List.mem_append_right _ (List.mem_cons_self), rfl, rfl, fun a S => .inl ⟨rfl, _, rfl, rfl, rfl⟩⟩
    · intro p f h
      simp [mnX3, mnFs3] at h
      obtain ⟨rfl, rfl⟩ := h
      rfl
    · intro p f h
      simp [mnX3, mnFs3] at h
      obtain ⟨rfl, rfl⟩ := h
      rfl
  lits := by
    have e : litsOf mnAll3 = [mnLiteral] := rfl
    refine ⟨?_, ?_, ?_, rfl, rfl, rfl, rfl, rfl⟩
    · intro t k h
      rw [e]
      exact h
    · intro t h
      rw [e, List.mem_singleton] at h
      subst h
      intro d ts r h
      cases h
      rfl
    · rw [e]
      simp
  names := by decide +kernel
  members := mn_fits.members

def mnStart3 : Store Nat := ⟨fun _ => none, 64⟩

/-- The heap after the objects of the closure, and then the array, have been made. -/
def mnCl : Store Nat := ⟨fun a => if a = 88 then some (.ptr 64) else if a = 80 then some (.ptr 16) else if a = 80 ∨ a = 88 then some (.int 0)
  else if a = 64 then some (.int 3) else if a = 64 ∨ a = 72 then some (.int 0) else none, 96⟩
def mnNew : Store Nat := ⟨fun a => if a = 96 then some (.int 1) else if a = 96 + 8 then some (.int 0) else mnCl.heap a, 112⟩
def mnEnd3 : Store Nat := ⟨fun a => if a = 96 + 8 + 8 * BitVec.ofInt 64 0 then some (.int 7) else mnNew.heap a, 112⟩

theorem mn_two : XBig saneLoops mnDecls mnX3 (.fn { name := "two", params := [] } mnTwo [] mnStart3 (some (.int 7)) mnEnd3) := by
  have add : XBig saneLoops mnDecls mnX3 (.fn { name := "adder", params := [("n", mnTI)] } mnAdder [some (.int 3)] mnStart3 (some (.ptr 80)) mnCl) := by
    refine .fnRet rfl rfl rfl (.consR (.ret (.closure (k := 1) (vals := [.int 3]) (a := 64) (.head _) ?_ rfl ⟨rfl, rfl, rfl⟩ rfl ⟨rfl, rfl, rfl⟩ ?_)))
    · intro h; cases h
    · rfl
  have call : XBig saneLoops mnDecls mnX3 (.value 80 [some (.int 4)] mnNew (some (.int 7)) mnNew) := by
    refine .valCl (e := mnLiteral) (k := 1) (a := 64) (.tail _ (.tail _ (.tail _ (.head _)))) rfl ?_ (.head _) ?_ rfl rfl ?_
    · refine .fnExpr rfl rfl rfl (.callExt (w := (Val.bool true).enc) rfl rfl rfl (.argsCons (.var rfl rfl) .argsNil) (.inr (.inl ⟨rfl, 80, rfl, rfl, rfl⟩)) ?_)
      intro x hx; cases hx; rfl
    · intro h; cases h
    · exact .litExpr rfl rfl (.bin (v := .int 3) (w := .int 4) (.var rfl rfl) (.var rfl rfl) rfl)
  refine .fnRet rfl rfl rfl (.cons (.das (.call (s := mnSym 1 .normal [mnTI] mnTF) rfl rfl (by decide) (.argsCons .int .argsNil) (.tail _ (.head _)) rfl add))
    (.cons (.das (.arr (v := some (.ptr 96)) (.tail _ (.tail _ (.tail _ (.tail _ (.head _))))) rfl ?_
      (.fillCons (.callVal (p := 80) ?_ ?_ (.var rfl rfl) (.argsCons .int .argsNil) (by decide) call) (.tail _ (.tail _ (.tail _ (.tail _ (.tail _ (.head _)))))) rfl
        (.fnRet rfl rfl rfl (.cons (.asgMem (.var rfl rfl) (.locIndex (n := 0) (len := 1) (.var rfl rfl) (.var rfl rfl) rfl (by decide) (by decide)) ?_)
          (.consR (.ret (.var rfl rfl))))) .fillNil)))
      (.consR (.ret (.index (n := 0) (len := 1) (.var rfl rfl) .int rfl (by decide) (by decide) rfl)))))
  · refine .fnExpr rfl rfl rfl (.callExt (w := 96) rfl rfl rfl (.argsCons (.var rfl rfl) .argsNil) (.inr (.inr ⟨rfl, rfl, rfl, rfl⟩)) ?_)
    intro x hx; cases hx; rfl
  · intro x t s r h; cases h; rfl
  · intro h; cases h
  · rfl

/-- What `C68_partial` says about it. -/
example : ∃ fd ∈ mnFds3, fd.name = "two" ∧ ∃ d, Big { mnBase3 with fns := mnFds3 } d (.fn fd [] mnStart3 (some (.int 7)) mnEnd3) := by
  obtain ⟨fd, h1, h2, -, h3⟩ := C68_partial mn_fits3
    (p := { name := "two", params := [] }) (f := mnTwo) (by simp [mnAll3, mnFs3]) mn_two
  exact ⟨fd, h1, h2, h3⟩

/-! ### A program with loops that are not steady

`fn sum(a []int) int { x := 0  for i in 0 .. a.length { x = x + a[i] }  for v in a { x = x + v }  return x }`, with the array `[5, 7]`:
the end of the range is in memory. -/


def mnAdd (e : X) : List S := [.asg (mnVar "x" mnTI) (.bin .add (mnVar "x" mnTI) e (mnA mnTI))]
def mnLen : X := .dot (mnVar "a" mnTA) (.ident "length" (mnA mnTI)) (mnA mnTI)
def mnAt : X := .index (mnVar "a" mnTA) (mnVar "i" mnTI) (mnA mnTI)

def mnSum : Fn := ⟨[], mnTI, .block [
  .das (mnVar "x" mnTI) (mnNum 0),
  .for_ "i" (mnA mnTI) (.bin .range (mnNum 0) mnLen (mnA mnTI)) (mnAdd mnAt),
  .for_ "v" (mnA mnTI) (mnVar "a" mnTA) (mnAdd (mnVar "v" mnTI)),
  .ret (mnVar "x" mnTI)]⟩

def mnX2 : XProg Unit := { mnX with fns := [] }

def mnFs4 : List (Nat × Top × Fn) := [
  (0, { name := "asEnum", params := [("e", mnOpt)] }, mnAsEnum),
  (1, { name := "sum", params := [("a", mnTA)] }, mnSum)]

def mnFds4 : List FnDef := match trProg mnLib mnDecls (mnFs4.map (·.2)) with | .ok fds => fds | .error _ => []

theorem mn_fits4 : mnFits mnLib mnDecls (mnFs4.map (·.2)) mnFds4 mnX2 where
  made := rfl
  asm := rfl
  fns := by intro fid p f h; cases h
  lib := by
    refine ⟨rfl, ⟨{ name := "asEnum", params := [("e", mnOpt)] }, mnAsEnum, "unsafe", mnUnsafe, List.mem_cons_self, rfl, ?_, ?_⟩, mn_fits.lib.rt, ?_, ?_, ?_⟩
    · exact .mk rfl rfl rfl rfl rfl rfl rfl rfl rfl rfl
    · intro a S w S'
      constructor
      · rintro ⟨-, b, h1, h2, h3⟩
        simp only [List.cons.injEq, Option.some.injEq, and_true] at h1
        exact ⟨h2.trans h1.symm, h3⟩
      · rintro ⟨rfl, rfl⟩
        exact ⟨rfl, _, rfl, rfl, rfl⟩
    all_goals (intro p f h; cases h)
  lits := ⟨(by intro t k h; cases h), (by intro t h; cases h), List.Pairwise.nil, rfl, rfl, rfl, rfl, rfl⟩
  names := by decide
  members := mn_fits.members

def mnArr : Store Unit := ⟨fun a => if a = 64 then some (.int 2) else if a = 72 then some (.int 5) else if a = 80 then some (.int 7) else none, ()⟩

def mnVars4 (k : BitVec 63) : Vars := [("x", .val (some (.int k))), ("a", .val (some (.ptr 64)))]

theorem mn_len4 (k : BitVec 63) : XBig saneLoops mnDecls mnX2 (.expr (mnVars4 k) mnArr mnLen (some (.int 2)) mnArr) :=
  .length (.inl ⟨_, rfl⟩) (.var rfl rfl) rfl

theorem mn_add4 {e : X} {k v : BitVec 63} (x : String) (c : Cell) (hx : x = "i" ∨ x = "v")
    (h : XBig saneLoops mnDecls mnX2 (.expr ((x, c) :: mnVars4 k) mnArr e (some (.int v)) mnArr)) :
    XBig saneLoops mnDecls mnX2 (.stmts ((x, c) :: mnVars4 k) mnArr (mnAdd e) .norm ((x, c) :: mnVars4 (k + v)) mnArr) := by
  rcases hx with rfl | rfl <;>
  exact .cons (.asgVar (v := .int (k + v)) (x := "x") (.bin (v := .int k) (w := .int v) (.var rfl rfl) h rfl) (.locVar (w := some (.int k)) rfl rfl)) .nil

theorem mn_range4 {i k v : BitVec 63} {vs : List (BitVec 63)} {k' : BitVec 63} (h0 : 0 ≤ i.toInt) (h1 : i.toInt < 2)
    (hv : mnArr.heap (64 + 8 + 8 * BitVec.ofInt 64 i.toInt) = some (.int v))
    (h : XBig saneLoops mnDecls mnX2 (.range (mnVars4 (k + v)) mnArr "i" mnLen 2 vs (mnAdd mnAt) .norm (mnVars4 k') mnArr)) :
    XBig saneLoops mnDecls mnX2 (.range (mnVars4 k) mnArr "i" mnLen 2 (i :: vs) (mnAdd mnAt) .norm (mnVars4 k') mnArr) :=
  .rangeCons (fun _ => mn_len4 k) (mn_add4 "i" _ (.inl rfl) (.index (p := 64) (n := i) (len := 2) (.var rfl rfl) (.var rfl rfl) rfl h0 h1 hv)) (fun _ => rfl) h

theorem mn_elems4 {i : Nat} {k v k' : BitVec 63} (h1 : (i : Int) < 2) (hv : mnArr.heap (64 + 8 + 8 * BitVec.ofInt 64 i) = some (.int v))
    (h : XBig saneLoops mnDecls mnX2 (.elems (mnVars4 (k + v)) mnArr "v" (mnVar "a" mnTA) 64 (i + 1) (mnAdd (mnVar "v" mnTI)) .norm (mnVars4 k') mnArr)) :
    XBig saneLoops mnDecls mnX2 (.elems (mnVars4 k) mnArr "v" (mnVar "a" mnTA) 64 i (mnAdd (mnVar "v" mnTI)) .norm (mnVars4 k') mnArr) :=
  .elemsCons (len := 2) (fun _ _ => .var rfl rfl) rfl h1 hv (mn_add4 "v" _ (.inr rfl) (.var rfl rfl)) h

theorem mn_sum : XBig saneLoops mnDecls mnX2 (.fn { name := "sum", params := [("a", mnTA)] } mnSum [some (.ptr 64)] mnArr (some (.int 24)) mnArr) := by
  have loop : XBig saneLoops mnDecls mnX2 (.range (mnVars4 0) mnArr "i" mnLen 2 [0, 1] (mnAdd mnAt) .norm (mnVars4 12) mnArr) :=
    mn_range4 (v := 5) (by decide) (by decide) rfl (mn_range4 (v := 7) (by decide) (by decide) rfl (.rangeNil fun _ => mn_len4 _))
  have loop' : XBig saneLoops mnDecls mnX2 (.elems (mnVars4 12) mnArr "v" (mnVar "a" mnTA) 64 0 (mnAdd (mnVar "v" mnTI)) .norm (mnVars4 24) mnArr) :=
    mn_elems4 (v := 5) (by decide) rfl (mn_elems4 (v := 7) (by decide) rfl (.elemsEnd (len := 2) (fun _ _ => .var rfl rfl) rfl (by decide)))
  refine .fnRet rfl rfl rfl (.cons (.das .int) (.cons (.forR (vs := [0, 1]) (.int (z := true)) (mn_len4 0) (fun _ => rfl) ?_ loop)
    (.cons (.forA rfl (.var rfl rfl) (fun _ _ => rfl) loop') (.consR (.ret (.var rfl rfl))))))
  exact ⟨by unfold docRange; decide, by decide⟩

/-- What `C68_partial` says about it. -/
example : ∃ fd ∈ mnFds4, fd.name = "sum" ∧ ∃ d, Big { mnBase with fns := mnFds4 } d (.fn fd [some (.ptr 64)] mnArr (some (.int 24)) mnArr) := by
  obtain ⟨fd, h1, h2, -, h3⟩ := C68_partial mn_fits4 (p := { name := "sum", params := [("a", mnTA)] }) (f := mnSum) (by simp [mnFs4]) mn_sum
  exact ⟨fd, h1, h2, h3⟩

/-! ### A program with a decreasing range

`fn down() int { for i in 3 .. 1 { return i } return 0 }` should return 2, and returns 0. -/

def mnDown : Fn := ⟨[], mnTI, .block [
  .for_ "i" (mnA mnTI) (.bin .range (mnNum 3) (mnNum 1) (mnA mnTI)) [.ret (mnVar "i" mnTI)], .ret (mnNum 0)]⟩

def mnFs2 : List (Nat × Top × Fn) := [
  (0, { name := "asEnum", params := [("e", mnOpt)] }, mnAsEnum),
  (1, { name := "down", params := [] }, mnDown)]

/-- The body of the function made of `down`. -/
def mnDownBody : Clara.Gen.Stmts :=
  .cons (.block (.cons (.asg true (.var 1 ⟨.integer, 0⟩) (.int 3)) (.cons
    (.loop (.bin .lt ⟨.boolean, 0⟩ (.var 1 ⟨.integer, 0⟩) (.int 1))
      (.cons (.ret (some (.var 1 ⟨.integer, 0⟩)))
        (.cons (.asg false (.var 1 ⟨.integer, 0⟩) (.bin .add ⟨.integer, 0⟩ (.var 1 ⟨.integer, 0⟩) (.int 1))) .nil))) .nil)))
    (.cons (.ret (some (.int 0))) .nil)

def mnFds2 : List FnDef := [
  { name := "asEnum", params := [(0, ⟨.enum, 0⟩)],
    body := .expr (.callFn "unsafe" { ext := true, ret := ⟨.integer, 0⟩ } [.var 0 ⟨.enum, 0⟩, .int 0, .typ ⟨.integer, 0⟩]) },
  { name := "down", params := [], body := .block mnDownBody }]

theorem mn_fits2 : mnFits mnLib mnDecls (mnFs2.map (·.2)) mnFds2 mnX2 where
  made := rfl
  asm := rfl
  fns := by intro fid p f h; cases h
  lib := by
    refine ⟨rfl, ⟨{ name := "asEnum", params := [("e", mnOpt)] }, mnAsEnum, "unsafe", mnUnsafe, List.mem_cons_self, rfl, ?_, ?_⟩, mn_fits.lib.rt, ?_, ?_, ?_⟩
    · exact .mk rfl rfl rfl rfl rfl rfl rfl rfl rfl rfl
    · intro a S w S'
      constructor
      · rintro ⟨-, b, h1, h2, h3⟩
        simp only [List.cons.injEq, Option.some.injEq, and_true] at h1
        exact ⟨h2.trans h1.symm, h3⟩
      · rintro ⟨rfl, rfl⟩
        exact ⟨rfl, _, rfl, rfl, rfl⟩
    all_goals (intro p f h; cases h)
  lits := ⟨(by intro t k h; cases h), (by intro t h; cases h), List.Pairwise.nil, rfl, rfl, rfl, rfl, rfl⟩
  names := by decide
  members := mn_fits.members

/-- The program says 2. -/
theorem mn_down : XBig docLoops mnDecls mnX2 (.fn { name := "down", params := [] } mnDown [] mnStart (some (.int 2)) mnStart) :=
  .fnRet rfl rfl rfl (.consR (.forR (vs := [2, 1]) (.int (i := 3)) (.int (i := 1)) nofun (by unfold docLoops docRange; decide)
    (.rangeRet nofun (.consR (.ret (.var rfl rfl))))))

theorem mn_cond {P : Prog Unit} {ρ : Clara.Gen.Env} {S S' : Store Unit} {d : Nat}
    (h : Big P d (.expr (ρ.upd 1 (.int (BitVec.ofInt 63 3))) S (.bin .lt ⟨.boolean, 0⟩ (.var 1 ⟨.integer, 0⟩) (.int 1)) (some (.bool true)) S')) : False := by
  cases h with
  | bin h1 h2 h3 =>
    cases h2
    cases h1 with
    | var h1 =>
      rw [show ρ.upd 1 (.int (BitVec.ofInt 63 3)) 1 = some (.int (BitVec.ofInt 63 3)) from rfl] at h1
      cases h1
      exact absurd h3 (by decide)

/-- The code does not. -/
theorem mn_down_code {fd : FnDef} (hfd : fd ∈ mnFds2) (hn : fd.name = "down") {d : Nat} {S' : Store Unit}
    (h : Big { mnBase with fns := mnFds2 } d (.fn fd [] mnStart (some (.int 2)) S')) : False := by
  simp only [mnFds2, List.mem_cons, List.not_mem_nil, or_false] at hfd
  rcases hfd with rfl | rfl
  · exact absurd hn (by decide)
  · generalize hv : ([] : List (Option Val)) = vs at h
    cases h with
    | fnExpr hb => cases hb
    | fnDyn => cases hv
    | fnRet hb _ h =>
      cases hb
      cases h with
      | cons h1 h2 =>
        -- the last statement returns 0
        cases h2 with
        | cons h2 => cases h2
        | consR h2 =>
          cases h2 with
          | retE h2 => cases h2
      | consR h =>
        cases h with
        | block h =>
          cases h with
          | consR h => cases h
          | cons h1 h2 =>
            cases h1 with
            | asgMem _ hl => cases hl
            | asgVar hi hl =>
              cases hl
              cases hi
              cases h2 with
              | cons _ h2 => cases h2
              | consR h2 =>
                cases h2 with
                | loopT hc => exact mn_cond hc
                | loopR hc => exact mn_cond hc

/-- **C68 is violated** in full. -/
theorem C68_violated : ¬ C68_claim := by
  intro h
  obtain ⟨fd, h1, h2, d, h3⟩ := h Unit _ _ _ _ _ mn_fits2 { name := "down", params := [] } mnDown [] mnStart mnStart _ (by simp [mnFs2]) mn_down
  exact mn_down_code h1 h2 h3

end Clara.Props
