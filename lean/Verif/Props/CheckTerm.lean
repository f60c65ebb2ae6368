import Verif.Sema.CheckTerm
import Verif.Props.Check
/-
C63: type checking terminates.

`chkProg D n root fs` (`Verif/Sema/Check.lean`) is the type checker with at most `n` nested calls of `typeCheck`;
`.error .fuel` stands for a run that needs more.  `typeCheck` is not a recursion over the syntax tree: `l.f(..)`
becomes `f(l, ..)` or `(l.f)(..)` and `l.f[i]` becomes `(l.f)[i]`, and the new tree is checked.  Substitution of types is structural here; that it need not end on the type
graphs of the Go code is C19.
-/
namespace Clara.Props
open Clara.Types Clara.Sema.Chk

/-- **C63**: for every program there is a depth that suffices, and with any larger one the outcome is the same. -/
theorem C63 (D : Decls) (root : Scope) (fs : List Fn) :
    ∃ m r, r ≠ .error .fuel ∧ ∀ n, m ≤ n → chkProg D n root fs = r := by
  have hb : ∃ m, ∀ f ∈ fs, f.body.w < m := by
    induction fs with
    | nil => exact ⟨0, fun f hf => by cases hf⟩
    | cons f fs ih =>
      obtain ⟨m, h⟩ := ih
      refine ⟨f.body.w + m + 1, fun g hg => ?_⟩
      rcases List.mem_cons.1 hg with rfl | hg
      · omega
      · have := h g hg; omega
  obtain ⟨m, hm⟩ := hb
  refine ⟨m, chkProg D m root fs, chkProg_tm D m root fs hm, fun n hn => ?_⟩
  rcases chkProg_more D root fs hn with h | h
  · exact absurd h (chkProg_tm D m root fs hm)
  · exact h.symm

/-- **C63**, one outcome: two runs that end, end in the same way. -/
theorem C63_unique {D : Decls} {root : Scope} {fs : List Fn} {n m : Nat} (hn : chkProg D n root fs ≠ .error .fuel)
    (hm : chkProg D m root fs ≠ .error .fuel) : chkProg D n root fs = chkProg D m root fs := by
  rcases Nat.le_total n m with h | h
  · rcases chkProg_more D root fs h with h | h
    · exact absurd h hn
    · exact h
  · rcases chkProg_more D root fs h with h | h
    · exact absurd h hm
    · exact h.symm

/-- **C63**, one expression: any depth above the weight of the tree (`X.w`) suffices. -/
theorem C63_depth (D : Decls) (Γ : Env) (x : X) {n : Nat} (h : x.w < n) : chkX D n Γ x ≠ .error .fuel := by
  intro he
  have := (chk_tm D n).1 Γ x
  rw [he] at this
  exact this h rfl

/-- A struct `S` with a field `f` that is a function and a field `a` that is an array of functions. -/
def ctDecls : Decls := ⟨fun n => if n = "S" then some ⟨[], [("f", .fn {} [ckInt] ckInt), ("a", .array (.struct "S" []))]⟩ else none, fun _ => []⟩

/-- `fn g(s S) int { return s.a[2.f()].f(1).f() }`: trees are rewritten three times. -/
def ctG : Fn := ⟨[("s", [plainSym (some (.struct "S" []))])], ckInt, .block [
  .ret (.dot (.dot (.dot (ckId "s") (.index (ckId "a") (.dot (.lit (.int 2 false) {}) (.call (ckId "f") [] [] {}) {}) {}) {})
    (.call (ckId "f") [] [.lit (.int 1 false) {}] {}) {}) (.call (ckId "f") [] [] {}) {})]⟩

/-- It is accepted; five levels are too few, eight are enough. -/
example : (∃ f', chkProg ctDecls 8 ckRoot [ctG] = .ok ([f'], [])) ∧ chkProg ctDecls 5 ckRoot [ctG] = .error .fuel :=
  ⟨⟨_, rfl⟩, rfl⟩

end Clara.Props
