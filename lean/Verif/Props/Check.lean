import Verif.Sema.CheckStmt
import Verif.Sema.Compile
set_option linter.unusedVariables false
/-
C59: errors stop compilation.  C62: only values are used as values.

The phases of `Compile` are in `Verif/Sema/Compile.lean`, the type checker in `Verif/Sema/Check.lean`, and
the typing rules in `Verif/Sema/Typing.lean` (`X.wt`, `S.wt`, `Fn.wt`), which do not refer to the checker.
-/
namespace Clara.Props
open Clara.Types Clara.Sema.Chk
open Clara.Sema.Compile (Phases Ev compile files files_errs)

/-! ### Phases -/

/-- The phases that come before the output. -/
def ckAll {E : Type} (fs : List String) (tr : List (Ev E)) : Prop :=
  (∀ f ∈ fs, ∃ x, Ev.parse f x ∈ tr) ∧ (∃ x, Ev.topLevel x ∈ tr) ∧ (∃ x, Ev.constructors x ∈ tr) ∧ (∃ x, Ev.fold x ∈ tr) ∧
    (∃ x, Ev.typeCheck x ∈ tr) ∧ (∃ x, Ev.codegen x ∈ tr) ∧ ∃ x, Ev.link x ∈ tr

/-- **C59**, the phases: there is an output exactly when no error is returned, and then every phase has run
and none of them has reported anything; an error of a phase before code generation means that no assembly is
written and `gcc` does not run. -/
theorem C59_compile {σ E : Type} (P : Phases σ E) (fs : List String) (s : σ) {tr : List (Ev E)} {out : Bool} {es : List E}
    (h : compile P fs s = (tr, out, es)) :
    (out = true ↔ es = []) ∧ (out = true → ckAll fs tr ∧ ∀ ev ∈ tr, ev.errs = []) ∧ (∀ e ∈ es, ∃ ev ∈ tr, e ∈ ev.errs) ∧
    (∀ ev ∈ tr, (∀ x, ev ≠ .create x ∧ ev ≠ .codegen x ∧ ev ≠ .link x) → ev.errs ≠ [] →
      ∀ x, Ev.create x ∉ tr ∧ Ev.codegen x ∉ tr ∧ Ev.link x ∉ tr) := by
  unfold compile at h
  rcases hf : files P fs [] s with ⟨tr0, es0, s0, o⟩
  obtain ⟨i1, i2, ⟨x, i3, i4, i5⟩, i6⟩ := files_errs P fs _ _ _ _ _ _ hf
  have no : ∀ x, Ev.create x ∉ tr0 ∧ Ev.codegen x ∉ tr0 ∧ Ev.link x ∉ tr0 := by
    intro x
    refine ⟨?_, ?_, ?_⟩ <;> intro hm <;> rcases i6 _ hm with ⟨_, _, h⟩ | ⟨_, _, h⟩ <;> cases h
  simp only [List.nil_append] at i3
  subst i3
  rw [hf] at h
  cases o with
  | some e =>
    simp only [Prod.mk.injEq] at h
    obtain ⟨rfl, rfl, rfl⟩ := h
    refine ⟨by simp, by simp, ?_, fun _ _ _ _ => no⟩
    intro e' he
    simp only [List.mem_singleton] at he
    subst he
    exact i1 _ rfl
  | none =>
    simp only at h
    split at h
    · rename_i hne
      simp only [Prod.mk.injEq] at h
      obtain ⟨rfl, rfl, rfl⟩ := h
      exact ⟨by simpa using hne, by simp, i4, fun _ _ _ _ => no⟩
    · rename_i hne
      simp only [ne_eq, Classical.not_not] at hne
      subst hne
      simp only [List.nil_append] at h
      have i5 := i5 rfl rfl
      have i2 := i2 rfl
      split at h
      · rename_i hne
        simp only [Prod.mk.injEq] at h
        obtain ⟨rfl, rfl, rfl⟩ := h
        refine ⟨by simpa using hne, by simp, fun e he => ⟨.topLevel _, by simp, he⟩, fun _ _ _ _ x => ?_⟩
        simpa using no x
      · rename_i e1
        simp only [ne_eq, Classical.not_not] at e1
        rw [e1] at h
        simp only [List.nil_append] at h
        split at h
        · rename_i hne
          simp only [Prod.mk.injEq] at h
          obtain ⟨rfl, rfl, rfl⟩ := h
          refine ⟨by simpa using hne, by simp, fun e he => ?_, fun _ _ _ _ x => ?_⟩
          · rcases List.mem_append.1 he with he | he
            · exact ⟨.constructors _, by simp, he⟩
            · exact ⟨.fold _, by simp, he⟩
          · simpa using no x
        · rename_i e2
          simp only [ne_eq, Classical.not_not, List.append_eq_nil_iff] at e2
          rw [e2.1, e2.2] at h
          simp only [List.nil_append] at h
          split at h
          · rename_i hne
            simp only [Prod.mk.injEq] at h
            obtain ⟨rfl, rfl, rfl⟩ := h
            refine ⟨by simpa using hne, by simp, fun e he => ⟨.typeCheck _, by simp, he⟩, fun _ _ _ _ x => ?_⟩
            simpa using no x
          · rename_i e3
            simp only [ne_eq, Classical.not_not] at e3
            rw [e3] at h
            have last : ∀ (l : List (Ev E)) (ev : Ev E), (∀ v ∈ l, (∃ x, v = .create x) ∨ (∃ x, v = .codegen x) ∨ ∃ x, v = .link x) →
                ev ∈ tr0 ++ [.topLevel []] ++ [.constructors [], .fold []] ++ [.typeCheck []] ++ l →
                (∀ x, ev ≠ .create x ∧ ev ≠ .codegen x ∧ ev ≠ .link x) → ev.errs ≠ [] → False := by
              intro l ev hl hm hn he
              simp only [List.append_assoc, List.mem_append, List.mem_cons, List.not_mem_nil, or_false] at hm
              rcases hm with hm | rfl | (rfl | rfl) | rfl | hm
              · exact he (i5 ev hm)
              · exact he rfl
              · exact he rfl
              · exact he rfl
              · exact he rfl
              · rcases hl ev hm with ⟨x, rfl⟩ | ⟨x, rfl⟩ | ⟨x, rfl⟩
                · exact (hn x).1 rfl
                · exact (hn x).2.1 rfl
                · exact (hn x).2.2 rfl
            split at h
            · simp only [Prod.mk.injEq] at h
              obtain ⟨rfl, rfl, rfl⟩ := h
              refine ⟨by simp, by simp, fun e he => ⟨.create _, by simp, he⟩, fun ev hm hn he => (last _ ev (by simp) hm hn he).elim⟩
            · split at h
              · simp only [Prod.mk.injEq] at h
                obtain ⟨rfl, rfl, rfl⟩ := h
                refine ⟨by simp, by simp, fun e he => ⟨.codegen _, by simp, he⟩, fun ev hm hn he => ?_⟩
                rw [List.append_assoc _ [Ev.create []]] at hm
                exact (last _ ev (by simp) hm hn he).elim
              · split at h
                · simp only [Prod.mk.injEq] at h
                  obtain ⟨rfl, rfl, rfl⟩ := h
                  refine ⟨by simp, by simp, fun e he => ⟨.link _, by simp, he⟩, fun ev hm hn he => ?_⟩
                  rw [List.append_assoc _ [Ev.codegen []], List.append_assoc _ [Ev.create []]] at hm
                  exact (last _ ev (by simp) hm hn he).elim
                · simp only [Prod.mk.injEq] at h
                  obtain ⟨rfl, rfl, rfl⟩ := h
                  refine ⟨by simp, fun _ => ⟨⟨fun f hf => ?_, ⟨[], by simp⟩, ⟨[], by simp⟩, ⟨[], by simp⟩, ⟨[], by simp⟩, ⟨[], by simp⟩, ⟨[], by simp⟩⟩, ?_⟩, by simp, fun ev hm hn he => ?_⟩
                  · obtain ⟨x, hx⟩ := i2 f hf
                    exact ⟨x, by simp [hx]⟩
                  · intro ev hm
                    simp only [List.append_assoc, List.mem_append, List.mem_cons, List.not_mem_nil, or_false] at hm
                    rcases hm with hm | rfl | (rfl | rfl) | rfl | rfl | rfl | rfl
                    · exact i5 ev hm
                    all_goals rfl
                  · rw [List.append_assoc _ [Ev.codegen []], List.append_assoc _ [Ev.create []]] at hm
                    exact (last _ ev (by simp) hm hn he).elim

/-! ### Type checking -/

/-- All symbols in the tables of the function and of the root have types, as they have after
`processTopLevelTypes`. -/
def ckTyped (root : Scope) (f : Fn) : Prop := Good [f.own, root]

/-- **C59** as claimed for type checking: a program without errors is well typed (by the wider rules, see C62),
whatever constructs its parts are in. -/
def C59_claim : Prop := ∀ (D : Decls) (n : Nat) (root : Scope) (fs fs' : List Fn), (∀ f ∈ fs, ckTyped root f ∧ f.body.raw) →
  chkProg D n root fs = .ok (fs', []) → All₂ (fun f f' => f'.wt true D root f.own ∧ f'.ret = f.ret) fs fs'

/-- **C59**, the part of it that holds: for programs in which no function literal is in an operand of `?:` or
an element of an array literal, and in `l.f(..)` and `l.f[..]` the receiver `l` has no function literal
(and no call inside `?:` and array literals) unless no struct has a field `f` (`quiet`). -/
theorem C59_partial {D : Decls} {n : Nat} {root : Scope} {fs fs' : List Fn}
    (hp : ∀ f ∈ fs, ckTyped root f ∧ f.body.raw ∧ f.body.quiet D) (h : chkProg D n root fs = .ok (fs', [])) :
    All₂ (fun f f' => f'.wt true D root f.own ∧ f'.ret = f.ret) fs fs' := sound_prog hp h

/-- `[fn() { return 1 }]` -/
def ckSwallow : X := .arr [.fnB ⟨[], [], none⟩ none [.ret (.lit (.int 1 false) {})] {}] {}

def ckNoDecls : Decls := ⟨fun _ => none, fun _ => []⟩

/-- The error in an element of an array literal is dropped. -/
theorem C59_violated : ¬ C59_claim := by
  intro h
  have := h ckNoDecls 9 [] [⟨[], .prim .nothing, .block [.expr ckSwallow]⟩]
    [⟨[], .prim .nothing, .block [.expr (.arr [.fnB ⟨[], [], none⟩ (some ⟨({}, [], .prim .nothing), []⟩) [.ret (.lit (.int 1 false) ⟨some (.prim .int), none⟩)]
      ⟨some (.fn {} [] (.prim .nothing)), none⟩] ⟨some (.array (.fn {} [] (.prim .nothing))), none⟩)]⟩] (by
      intro f hf
      simp only [List.mem_singleton] at hf
      subst hf
      refine ⟨?_, ?_⟩
      · exact good_scope (by simp) (good_scope (by simp) (by intro _ h; simp at h))
      · simp [FnBody.raw, rawB, S.raw, ckSwallow, X.raw, rawL]) rfl
  cases this with
  | cons h1 _ =>
    simp only [Fn.wt, wtB, S.wt, X.wt, wtL] at h1
    obtain ⟨⟨⟨⟨⟨d, ts, r, h2, h3, h4, h5, _⟩, _⟩, _⟩, _⟩, _⟩ := h1
    simp only [Option.some.injEq, Ty.fn.injEq] at h2
    obtain ⟨_, _, rfl⟩ := h2
    obtain ⟨_, t, h6, h7⟩ := h5
    simp only [X.typ, X.ann, Option.some.injEq] at h6
    subst h6
    simp [Same, Ty.canon] at h7

/-- `true ? fn() { return 1 } : fn() { }` -/
def ckTern : X := .tern (.lit (.bool true) {}) (.fnB ⟨[], [], none⟩ none [.ret (.lit (.int 1 false) {})] {}) (.fnB ⟨[], [], none⟩ none [] {}) {}

/-- The same for the operands of `?:`: the error is dropped, though the literal alone is rejected. -/
theorem C59_violated_ternary : (∃ x', chkX ckNoDecls 9 [[]] ckTern = .ok (x', [])) ∧
    ∃ x', chkX ckNoDecls 9 [[]] (.fnB ⟨[], [], none⟩ none [.ret (.lit (.int 1 false) {})] {}) = .ok (x', [.mismatch]) :=
  ⟨⟨_, rfl⟩, ⟨_, rfl⟩⟩

/-! ### An accepted program -/

def ckInt : Ty := .prim .int

/-- The types `int` and `string`, and `f(int) int`. -/
def ckRoot : Scope :=
  [("int", [{ ty := some ckInt, isType := true }]), ("string", [{ ty := some (.prim .string), isType := true }]),
   ("f", [{ ty := some (.fn {} [ckInt] ckInt), isGlobal := true }])]

def ckId (x : String) : X := .ident x {}

/-- `fn g(a []int) int { x := f(a.length) + 1  if x < 3 { return x }  h := fn(y int) int { return y + x }  return 2.f() + h(x) }` -/
def ckG : Fn := ⟨[("a", [plainSym (some (.array ckInt))])], ckInt, .block [
  .das (ckId "x") (.bin .add (.call (ckId "f") [] [.dot (ckId "a") (ckId "length") {}] {}) (.lit (.int 1 false) {}) {}),
  .ifs (.cond (.cmp .lt (ckId "x") (.lit (.int 3 false) {}) {}) [.ret (ckId "x")] .done),
  .das (ckId "h") (.fnB ⟨[], [("y", .named "int" false [])], some (.named "int" false [])⟩ none [.ret (.bin .add (ckId "y") (ckId "x") {})] {}),
  .ret (.bin .add (.dot (.lit (.int 2 false) {}) (.call (ckId "f") [] [] {}) {}) (.call (ckId "h") [] [ckId "x"] {}) {})]⟩

example : ∃ f', chkProg ckNoDecls 9 ckRoot [ckG] = .ok ([f'], []) := ⟨_, rfl⟩

example : ∀ f ∈ [ckG], ckTyped ckRoot f ∧ f.body.raw ∧ f.body.quiet ckNoDecls := by
  intro f hf
  simp only [List.mem_singleton] at hf
  subst hf
  refine ⟨good_scope ?_ (good_scope ?_ (by intro _ h; simp at h)), ?_, ?_⟩
  · simp [ckG, plainSym]
  · simp [ckRoot]
  · simp [ckG, FnBody.raw, rawB, S.raw, X.raw, rawL, Ch.raw, ckId]
  · simp [ckG, FnBody.quiet, quietB, S.quiet, X.quiet, quietL, Ch.quiet, ckId, Twice, X.plain]

/-! ### Values -/

/-- **C62** as claimed: an accepted program is well typed by the strict rules (`odd = false`). -/
def C62_claim : Prop := ∀ (D : Decls) (n : Nat) (root : Scope) (fs fs' : List Fn),
  (∀ f ∈ fs, ckTyped root f ∧ f.body.raw ∧ f.body.quiet D) →
  chkProg D n root fs = .ok (fs', []) → All₂ (fun f f' => f'.wt false D root f.own) fs fs'

/-- **C62**, the part of it that holds: accepted programs are well typed by the rules that let names of types
and written types be values, anything named `printf` or `debug` be called, a call that returns a function be
taken for the struct that this function returns, and functions and results of calls be assigned to. -/
theorem C62_partial {D : Decls} {n : Nat} {root : Scope} {fs fs' : List Fn}
    (hp : ∀ f ∈ fs, ckTyped root f ∧ f.body.raw ∧ f.body.quiet D) (h : chkProg D n root fs = .ok (fs', [])) :
    All₂ (fun f f' => f'.wt true D root f.own) fs fs' := by
  have := C59_partial hp h
  clear h hp
  induction this with
  | nil => exact .nil
  | cons h _ ih => exact .cons h.1 ih

/-- A function with one statement. -/
def ckOne (own : Scope) (s : S) : Fn := ⟨own, .prim .nothing, .block [s]⟩

theorem ckOne_ok {D : Decls} {root own : Scope} {s : S} (h1 : Good [own, root]) (h2 : s.raw) (h3 : s.quiet D) :
    ∀ f ∈ [ckOne own s], ckTyped root f ∧ f.body.raw ∧ f.body.quiet D := by
  intro f hf
  simp only [List.mem_singleton] at hf
  subst hf
  exact ⟨h1, ⟨h2, trivial⟩, ⟨h3, trivial⟩⟩

/-- The symbol of a type. -/
def ckTypeSym (t : Ty) : Sym := [{ ty := some t, isType := true }]

/-- `x := int` is accepted, and the type is the value of `x`. -/
theorem C62_violated : ¬ C62_claim := by
  intro h
  have := h ckNoDecls 9 ckRoot [ckOne [] (.das (ckId "x") (ckId "int"))]
    [⟨[("x", [stackSym (some ckInt)])], .prim .nothing, .block [.das (.ident "x" ⟨some ckInt, some [stackSym (some ckInt)]⟩)
      (.ident "int" ⟨some ckInt, some (ckTypeSym ckInt)⟩)]⟩]
    (ckOne_ok (good_scope (by simp) (good_scope (by simp [ckRoot]) (by intro _ h; simp at h)))
      (by simp [S.raw, X.raw, ckId]) (by simp [S.quiet, X.quiet, ckId])) rfl
  cases this with
  | cons h1 _ =>
    simp only [Fn.wt, wtB, S.wt, X.wt] at h1
    obtain ⟨⟨⟨s, t, _, h3, _, _, h4, _⟩, _⟩, _⟩ := h1
    obtain ⟨a, r, h5, h6⟩ := h4 trivial
    simp only [Option.some.injEq] at h3
    rw [← h3] at h5
    simp only [ckTypeSym, List.cons.injEq] at h5
    rw [← h5.1] at h6
    cases h6

/-- `printf(1)` is accepted where `printf` is a variable of type `int`. -/
theorem C62_violated_printf : ∃ (root own : Scope) (s s' : S), Good [own, root] ∧ s.raw ∧ s.quiet ckNoDecls ∧
    chkProg ckNoDecls 9 root [ckOne own s] = .ok ([ckOne own s'], []) ∧ ¬ (ckOne own s').wt false ckNoDecls root own := by
  refine ⟨[], [("printf", [plainSym (some ckInt)])], .expr (.call (ckId "printf") [] [.lit (.int 1 false) {}] {}),
    .expr (.call (.ident "printf" ⟨some ckInt, some [plainSym (some ckInt)]⟩) [] [.lit (.int 1 false) ⟨some ckInt, none⟩] ⟨some (.prim .nothing), none⟩),
    good_scope (by simp [plainSym]) (good_scope (by simp) (by intro _ h; simp at h)), ?_, ?_, rfl, ?_⟩
  · simp [S.raw, X.raw, rawL, ckId]
  · simp [S.quiet, X.quiet, quietL, ckId]
  · intro h
    simp only [ckOne, Fn.wt, wtB, S.wt, X.wt] at h
    obtain ⟨⟨_, _, _, _, h2⟩, _⟩ := h
    simp only [X.name, X.ann, true_or, if_true] at h2
    obtain ⟨_, s, _, h3, h4⟩ := h2
    obtain ⟨d, ps, r, ⟨a, rs, rfl, h5⟩, _⟩ := h4 trivial
    simp only [Option.some.injEq, List.cons.injEq] at h3
    rw [← h3.1] at h5
    simp [plainSym, ckInt] at h5

/-- A struct `S` with a field `x` of type `int`. -/
def ckDecls : Decls := ⟨fun n => if n = "S" then some ⟨[], [("x", ckInt)]⟩ else none, fun _ => []⟩

/-- `g().x` is accepted where `g` returns a function that returns a struct. -/
theorem C62_violated_result : ∃ (root own : Scope) (s s' : S), Good [own, root] ∧ s.raw ∧ s.quiet ckDecls ∧
    chkProg ckDecls 9 root [ckOne own s] = .ok ([ckOne own s'], []) ∧ ¬ (ckOne own s').wt false ckDecls root own := by
  let r : Ty := .fn {} [] (.struct "S" [])
  let g : Sym := [{ ty := some (.fn {} [] r), isGlobal := true }]
  refine ⟨[("g", g)], [], .expr (.dot (.call (ckId "g") [] [] {}) (ckId "x") {}),
    .expr (.dot (.call (.ident "g" ⟨some (.fn {} [] r), some g⟩) [] [] ⟨some r, none⟩) (.ident "x" ⟨some ckInt, some [plainSym (some ckInt)]⟩) ⟨some ckInt, none⟩),
    good_scope (by simp) (good_scope (by simp [g]) (by intro _ h; simp at h)), ?_, ?_, rfl, ?_⟩
  · simp [S.raw, X.raw, rawL, ckId]
  · simp [S.quiet, X.quiet, quietL, ckId, Twice]
  · intro h
    simp only [ckOne, Fn.wt, wtB, S.wt] at h
    have h := h.1
    rw [X.wt] at h
    obtain ⟨_, t, x, b, u, h1, h2, h3, _⟩ := h
    simp only [X.typ, X.ann, Option.some.injEq, r] at h1
    subst h1
    cases h3 with
    | result h _ _ => cases h

/-- `f = f` is accepted where `f` is a declared function. -/
theorem C62_violated_assign : ∃ (root own : Scope) (s s' : S), Good [own, root] ∧ s.raw ∧ s.quiet ckNoDecls ∧
    chkProg ckNoDecls 9 root [ckOne own s] = .ok ([ckOne own s'], []) ∧ ¬ (ckOne own s').wt false ckNoDecls root own := by
  let t : Ty := .fn {} [] (.prim .nothing)
  let f : Sym := [{ ty := some t, isGlobal := true }]
  refine ⟨[("f", f)], [], .asg (ckId "f") (ckId "f"), .asg (.ident "f" ⟨some t, some f⟩) (.ident "f" ⟨some t, some f⟩),
    good_scope (by simp) (good_scope (by simp [f]) (by intro _ h; simp at h)), ?_, ?_, rfl, ?_⟩
  · simp [S.raw, X.raw, ckId]
  · simp [S.quiet, X.quiet, ckId]
  · intro h
    simp only [ckOne, Fn.wt, wtB, S.wt] at h
    obtain ⟨⟨_, _, _, h⟩, _⟩ := h
    obtain ⟨s, a, rs, h1, rfl, h2⟩ := h trivial
    simp only [Option.some.injEq, f, List.cons.injEq] at h1
    rw [← h1.1] at h2
    cases h2

end Clara.Props
