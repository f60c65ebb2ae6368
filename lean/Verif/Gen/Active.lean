import Verif.Gen.Walk
/-
Executions of a loaded program together with the calls that have not returned yet, and the walk over the stack with
which the collector starts (`gc.clara` 11-39, `runtime.clara` 1-12).
-/
namespace Clara.Gen
variable {σ : Type}

/-- Stack that an instruction needs, in bytes. -/
def Ins.room : Ins → Nat
  | .push _ | .call _ | .callReg _ | .callMem _ => 8
  | .alu .sub (.imm 8) .rsp => 8
  | .enter n => n + 8
  | _ => 0

/-- What the program is trusted with in the step from `(p, m)`: there is enough stack left, and a store through a pointer
does not hit the stack at or above the frame pointer. -/
structure Tidy (I : Image σ) (top p : Nat) (m : Mach σ) : Prop where
  room : ∀ i, I.code[p]? = some (.ins i) → i.room ≤ (m.reg .rsp).toNat
  store : ∀ s a, I.code[p]? = some (.ins (.mov s (.mem a))) → a.base ≠ .rbp →
    ¬ ((m.reg .rbp).toNat ≤ (m.ea a).toNat ∧ (m.ea a).toNat < top)

def Ins.isReturn : Ins → Bool
  | .jmpReg _ | .ret => true
  | _ => false

/-- `Active I top c0 c s`: there is an execution from `c0` to `c`, and `s` are the configurations at the calls in it that
have not returned, the innermost first.  Bounds errors end the program, so nothing is said about what follows them. -/
inductive Active (I : Image σ) (top : Nat) (c0 : Cfg σ) : Cfg σ → List (Cfg σ) → Prop
  | start : Active I top c0 c0 []
  /-- an instruction that is no call and no return -/
  | next {p p' m m' s} : Active I top c0 (p, m) s → Step I (p, m) (p', m') → I.code[p]? ≠ some (.label .ioob) →
      (∀ i, I.code[p]? = some (.ins i) → i.isCall = false ∧ i.isReturn = false) → Tidy I top p m → Active I top c0 (p', m') s
  /-- a call of a function of the program -/
  | call {p p' m m' s i g} : Active I top c0 (p, m) s → Step I (p, m) (p', m') → I.code[p]? = some (.ins i) → i.isCall = true →
      (∀ f, i = .call f → I.find (.fn f) ≠ none) → I.code[p']? = some (.label (.fn g)) → Tidy I top p m →
      Active I top c0 (p', m') ((p, m) :: s)
  /-- a return to the last call -/
  | ret {p p' m m' x s i} : Active I top c0 (p, m) (x :: s) → Step I (p, m) (p', m') → I.code[p]? = some (.ins i) → i.isReturn = true →
      Active I top c0 (p', m') s
  /-- a call of a C function, or of a function whose code is elsewhere and which returns behind the root map -/
  | ext {p p' m m' s f} : Active I top c0 (p, m) s → Step I (p, m) (p', m') → I.code[p]? = some (.ins (.call f)) →
      I.find (.fn f) = none → Kept top m m' →
      (p' = p + 2 → (∃ r, I.code[p + 1]? = some (.data r)) ∧ ∀ g, I.code[p + 2]? ≠ some (.label (.fn g))) →
      Active I top c0 (p', m') s

/-- `fp.map.roots`: the word after the call to which the function returns is the address of the list of roots, of which
the model keeps the list (`Item.data`). -/
def rootsAt (I : Image σ) (a : Word) : Option (List Nat) :=
  match I.pos a with
  | some p =>
    match I.code[p]? with
    | some (.data r) => some r
    | _ => none
  | none => none

/-- The loop of `gcMark` over the frames (`gc.clara` 14-31): `fp.next` is at offset 0 of the frame and `fp.map`, the return
address, at offset 8 (`runtime.clara` 2-5).  The result has the frames in the order of the visits, each with the roots
that are looked up in it; `none`: no root map, or not at the base within the given number of steps. -/
def walkFrames (I : Image σ) (mem : Word → Word) (base : Word) : Nat → Word → Option (List (Word × List Nat))
  | 0, fp => if fp = base then some [] else none
  | n + 1, fp =>
    if fp = base then some []
    else
      match rootsAt I (mem (fp + 8)), walkFrames I mem base n (mem fp) with
      | some r, some l => some ((mem fp, r) :: l)
      | _, _ => none

/-- The words handed to `gcMarkPointer` for the frames: `fp.slot(off).deref` (`runtime.clara` 7, `gc.clara` 24-26, 40-42). -/
def frameRoots (mem : Word → Word) (l : List (Word × List Nat)) : List Word :=
  l.flatMap (fun f => f.2.map (fun r => mem (f.1 - BitVec.ofNat 64 (8 * r))))

end Clara.Gen
