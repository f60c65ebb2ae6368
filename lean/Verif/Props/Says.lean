import Verif.Sema.SaysOk
import Verif.Props.CheckTerm
import Verif.Props.Compiler
/-
C67: type checking keeps the program.

Type checking rewrites the syntax tree in place: it stores types and symbols in it, `l.f(..)` becomes `f(l, ..)` or
`(l.f)(..)`, and `l.f[i]` becomes `(l.f)[i]`.  C59 says that the trees it leaves are well typed; here it is shown that
they are the trees it was given, with or without errors.  The specification is `X.Says` (`Verif/Sema/Says.lean`): one
rule for each kind of node that keeps it, and rules for the three ways to read a dot.
-/
namespace Clara.Props
open Clara Clara.Types Clara.Sema.Chk Clara.Sema.Pipe

/-- **C67**: whatever type checking reports, the functions are the ones given, with types and symbols filled in. -/
theorem C67 {D : Decls} {n : Nat} {root : Scope} : ∀ {fs fs' : List Fn} {es : List Err}, chkProg D n root fs = .ok (fs', es) →
    All₂ (fun f f' => f'.ret = f.ret ∧ FnBody.Says D f.body f'.body) fs fs'
  | [], fs', es, h => by
    cases h
    exact .nil
  | f :: fs, fs', es, h => by
    unfold chkProg at h
    split at h
    · cases h
    · rename_i h1
      split at h
      · cases h
      · rename_i h2
        cases h
        exact .cons (chkFn_says h1) (C67 h2)

/-- **C67**, from the source text: the functions handed to code generation are the declared ones. -/
theorem C67_text {k n : Nat} {hs : List Clara.Lex.Handed} {T : Clara.Sema.Dcl.Tab} {items : List Clara.Sema.Dcl.Item} {fs : List Fn}
    (h : front k n hs = .done (T, items, fs)) :
    All₂ (fun f f' => f'.ret = f.ret ∧ FnBody.Says T.decls f.body f'.body) (T.items items) fs := by
  unfold front at h
  split at h <;> try cases h
  unfold analyse at h
  simp only at h
  split at h
  · cases h
  · split at h
    · cases h
    · cases h
    · cases h
    · split at h
      · cases h
      · split at h <;> try cases h
        rename_i h1
        exact C67 h1

/-! ### What the specification rules out -/

/-- Operands are not swapped, calls keep their arguments, statements do not disappear. -/
example (D : Decls) : ¬ X.Says D (.bin .sub (ckId "x") (ckId "y") {}) (.bin .sub (ckId "y") (ckId "x") {}) ∧
    ¬ X.Says D (.call (ckId "f") [] [ckId "x"] {}) (.call (ckId "f") [] [] {}) ∧
    ¬ FnBody.Says D (.block [.ret0]) (.block []) := by
  refine ⟨fun h => ?_, fun h => ?_, fun h => ?_⟩
  · cases h with
    | bin h _ =>
      have : ∀ {x y a b}, X.Says D (.ident x a) (.ident y b) → x = y := by
        intro x y a b h
        cases h
        rfl
      exact absurd (this h) (by decide)
  · cases h with
    | call _ h => cases h
  · cases h with
    | block h => cases h

/-- With a field `f`, the call `s.f()` does not become a call of a function `f`. -/
example (D : Decls) (a b : Ann) (h : HasField D (.ident "s" a) "f") :
    ¬ X.Says D (.dot (ckId "s") (.call (ckId "f") [] [] {}) {}) (.call (ckId "f") [] [.ident "s" a] b) := by
  intro h'
  cases h' with
  | method _ h1 _ _ =>
    rcases h1 with h1 | ⟨x, c, h1, h2⟩
    · exact h1 h
    · cases h1
      simp at h2
  | fieldCall _ _ h => cases h

/-- `s.a[2.f()].f(1).f()` (`ctG`) is checked; the tree with three rewritten dots says the same. -/
example : ∃ f', chkProg ctDecls 8 ckRoot [ctG] = .ok ([f'], []) ∧ FnBody.Says ctDecls ctG.body f'.body ∧ f'.body ≠ ctG.body := by
  have h : ∃ f', chkProg ctDecls 8 ckRoot [ctG] = .ok ([f'], []) ∧ f'.body ≠ ctG.body := ⟨_, rfl, by intro h; cases h⟩
  obtain ⟨f', h, h'⟩ := h
  refine ⟨f', h, ?_, h'⟩
  cases C67 h with
  | cons h _ => exact h.2

end Clara.Props
