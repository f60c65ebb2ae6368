import Verif.Sema.ToGenSafe
import Verif.Props.Check
set_option linter.unusedVariables false
set_option linter.unusedSimpArgs false
/-
C60: a program that the type checker accepts does not crash the code generator.

`trProg` (`Verif/Sema/ToGen.lean`) takes the checked functions to the functions for which code is generated,
`Clara.Gen.genProg` (`Verif/Gen/Emit.lean`) generates the code; a Go panic is `.error .panic` in the former and
`Ev.panic` in the latter.  `.error .outside` stands for programs that are not covered.
-/
namespace Clara.Props
open Clara.Types Clara.Sema.Chk
open Clara.Gen (FnDef genProg)

/-- The scope of the declared function has its parameters. -/
def ncDeclares (p : Top) (f : Fn) : Prop :=
  f.own = p.params.map (fun q => (q.1, [plainSym (some q.2)])) ∧ (p.params.map (·.1)).Nodup

/-- An accepted program: the declarations `ps` with the bodies `fs`, and the checked functions `fs'`. -/
structure ncAccepted (D : Decls) (root : Scope) (ps : List Top) (fs fs' : List Fn) : Prop where
  fine : ∀ f ∈ fs, ckTyped root f ∧ f.body.raw ∧ f.body.quiet D
  declares : All₂ ncDeclares ps fs
  accepted : ∃ n, chkProg D n root fs = .ok (fs', [])

/-- Code generation does not panic, neither before nor while code is emitted. -/
def ncSafe (T : TrLib) (D : Decls) (alloc ioob : String) (fs : List (Top × Fn)) : Prop :=
  trProg T D fs ≠ .error .panic ∧ ∀ fds, trProg T D fs = .ok fds → Clara.Gen.Ev.panic ∉ genProg alloc ioob fds

/-- **C60** as claimed. -/
def C60_claim : Prop := ∀ (T : TrLib) (D : Decls) (alloc ioob : String) (root : Scope) (ps : List Top) (fs fs' : List Fn),
  ncAccepted D root ps fs fs' → ncSafe T D alloc ioob (ps.zip fs')

/-- **C60**, the part of it that holds, for all declarations `ps`: for programs in which `..` stands in `for` only, only
integers are compared, calls of function values have at most five arguments, and what is called `printf` or `debug` is a
function (`sane`), and for which no function - declared or made for a function literal - has more than six
parameters or more than 4096 variables. -/
theorem C60_partial_any {T : TrLib} {D : Decls} {root : Scope} {ps : List Top} {fs fs' : List Fn} (alloc ioob : String)
    (hf : ∀ f ∈ fs, ckTyped root f ∧ f.body.raw ∧ f.body.quiet D) (ha : ∃ n, chkProg D n root fs = .ok (fs', [])) (hs : ∀ f ∈ fs', f.body.sane) :
    trProg T D (ps.zip fs') ≠ .error .panic ∧
    ∀ fds, trProg T D (ps.zip fs') = .ok fds → (∀ fd ∈ fds, fd.params.length ≤ 6 ∧ fd.syms.length ≤ 4096) →
      Clara.Gen.Ev.panic ∉ genProg alloc ioob fds := by
  obtain ⟨n, hc⟩ := ha
  have hw := C59_partial hf hc
  have hw' : ∀ f ∈ fs', ∃ own, f.wt true D root own := by
    clear hs hc hf
    induction hw with
    | nil => intro f hf; cases hf
    | cons h _ ih =>
      intro f hf
      rcases List.mem_cons.1 hf with rfl | hf
      · exact ⟨_, h.1⟩
      · exact ih f hf
  have hz : ∀ p ∈ ps.zip fs', (∃ own, p.2.wt true D root own) ∧ p.2.body.sane := fun p hp =>
    have := (List.of_mem_zip hp).2
    ⟨hw' _ this, hs _ this⟩
  exact ⟨trProg_np T D hz, fun fds ht hl =>
    Clara.Gen.genProg_np alloc ioob fds (trProg_safe T D hz ht (fun fd hfd => (hl fd hfd).1) (fun fd hfd => (hl fd hfd).2))⟩

/-- **C60**, the part of it that holds, for the claim above. -/
theorem C60_partial {T : TrLib} {D : Decls} {root : Scope} {ps : List Top} {fs fs' : List Fn} (alloc ioob : String)
    (h : ncAccepted D root ps fs fs') (hs : ∀ f ∈ fs', f.body.sane) :
    trProg T D (ps.zip fs') ≠ .error .panic ∧
    ∀ fds, trProg T D (ps.zip fs') = .ok fds → (∀ fd ∈ fds, fd.params.length ≤ 6 ∧ fd.syms.length ≤ 4096) →
      Clara.Gen.Ev.panic ∉ genProg alloc ioob fds :=
  C60_partial_any alloc ioob h.fine h.accepted hs

/-! ### A program that meets the conditions -/

/-- Names as in the Go code, and one type number for all types. -/
def ncLib : TrLib where
  ids _ := 0
  asm x _ := x
  invokeDynamic := "invokeDynamic"
  setElement := "setElement"
  arrayNoInit := "arrayNoInit"
  anonFn k := "$anonfn$" ++ toString k
  clFn k := "$clfn$" ++ toString k
  envCons k := "$env$" ++ toString k
  clCons k := "$cl$" ++ toString k
  desc k := "closure"
  envId k := 2 * k
  clId k := 2 * k + 1
  low := ⟨"asEnum", { ret := ⟨.struct, 0⟩ }, ⟨.array, 0⟩⟩

/-- The parameter of `ckG`. -/
def ncTop : Top := { name := "g", params := [("a", .array ckInt)] }

/-- A name, checked. -/
def ncId (x : String) (t : Ty) (s : Sym) : X := .ident x ⟨some t, some s⟩

def ncNum (i : Int) : X := .lit (.int i false) ⟨some ckInt, none⟩

/-- The variable `x`, a parameter `a`, the function `f`. -/
def ncV (x : String) (t : Ty) : X := ncId x t [stackSym (some t)]
def ncP (x : String) (t : Ty) : X := ncId x t [plainSym (some t)]
def ncF (x : String) (t : Ty) : X := ncId x t [{ ty := some t, isGlobal := true }]

def ncI : Ann := ⟨some ckInt, none⟩

/-- `ckG` with the types and symbols that the checker puts into it. -/
def ncG : Fn :=
  let fi : Ty := .fn {} [ckInt] ckInt
  ⟨[("h", [stackSym (some fi)]), ("x", [stackSym (some ckInt)]), ("a", [plainSym (some (.array ckInt))])], ckInt, .block [
    .das (ncV "x" ckInt) (.bin .add (.call (ncF "f" fi) [] [.dot (ncP "a" (.array ckInt)) (ncP "length" ckInt) ncI] ncI) (ncNum 1) ncI),
    .ifs (.cond (.cmp .lt (ncV "x" ckInt) (ncNum 3) ⟨some (.prim .bool), none⟩) [.ret (ncV "x" ckInt)] .done),
    .das (ncV "h" fi) (.fnB ⟨[], [("y", .named "int" false [])], some (.named "int" false [])⟩ (some ⟨({}, [ckInt], ckInt), [("y", [plainSym (some ckInt)])]⟩)
      [.ret (.bin .add (ncP "y" ckInt) (ncV "x" ckInt) ncI)] ⟨some fi, none⟩),
    .ret (.bin .add (.call (ncF "f" fi) [] [ncNum 2] ncI) (.call (ncV "h" fi) [] [ncV "x" ckInt] ncI) ncI)]⟩

theorem ncG_accepted : ncAccepted ckNoDecls ckRoot [ncTop] [ckG] [ncG] where
  fine := by
    intro f hf
    simp only [List.mem_singleton] at hf
    subst hf
    refine ⟨good_scope ?_ (good_scope ?_ (by intro _ h; simp at h)), ?_, ?_⟩
    · simp [ckG, plainSym]
    · simp [ckRoot]
    · simp [ckG, FnBody.raw, rawB, S.raw, X.raw, rawL, Ch.raw, ckId]
    · simp [ckG, FnBody.quiet, quietB, S.quiet, X.quiet, quietL, Ch.quiet, ckId, Twice, X.plain]
  declares := .cons ⟨rfl, by decide⟩ .nil
  accepted := ⟨9, rfl⟩

example : ∀ f ∈ [ncG], f.body.sane := by
  intro f hf
  simp only [List.mem_singleton] at hf
  subst hf
  simp [ncG, FnBody.sane, saneB, S.sane, Ch.sane, X.sane, saneL, ncF, ncId, ncNum, ncV, ncP, X.typ, X.ann, ckInt, X.name]

/-- Four functions are generated for it: `g`, and the function literal with the constructors of its closure. -/
example : ∃ a b c d, trProg ncLib ckNoDecls ([ncTop].zip [ncG]) = .ok [a, b, c, d] ∧ a.name = "g" ∧ d.params.length = 2 ∧
    ∀ fd ∈ [a, b, c, d], fd.params.length ≤ 6 ∧ fd.syms.length ≤ 4096 :=
  ⟨_, _, _, _, rfl, rfl, rfl, by decide⟩

/-! ### Programs that panic -/

/-- Code generation panics. -/
inductive ncPanics (T : TrLib) (D : Decls) (alloc ioob : String) (fs : List (Top × Fn)) : Prop
  | early : trProg T D fs = .error .panic → ncPanics T D alloc ioob fs
  | late {fds} : trProg T D fs = .ok fds → Clara.Gen.Ev.panic ∈ genProg alloc ioob fds → ncPanics T D alloc ioob fs

theorem ncPanics_not {T : TrLib} {D : Decls} {alloc ioob : String} {fs : List (Top × Fn)} (h : ncPanics T D alloc ioob fs) :
    ¬ ncSafe T D alloc ioob fs := by
  intro hs
  cases h with
  | early h => exact hs.1 h
  | late h h' => exact hs.2 _ h h'

theorem ncGenParams : ∀ (ps : List (Nat × Clara.Gen.TyR)) (i : Nat) (gc : Clara.Gen.GcS), 6 < i + ps.length → ps ≠ [] →
    Clara.Gen.Ev.panic ∈ (Clara.Gen.genParams ps i gc).1
  | [], _, _, _, h => absurd rfl h
  | p :: ps, i, gc, h, _ => by
    simp only [Clara.Gen.genParams]
    by_cases hp : ps = []
    · subst hp
      simp only [List.length_singleton] at h
      have : Clara.Gen.argRegs[i]? = none := List.getElem?_eq_none (by simp only [Clara.Gen.argRegs, List.length_cons, List.length_nil]; omega)
      rw [this]
      exact List.mem_cons_self ..
    · exact List.mem_cons_of_mem _ (ncGenParams ps (i + 1) _ (by simp only [List.length_cons] at h; omega) hp)

/-- A function with more than six parameters always makes the generator panic. -/
theorem C60_params (alloc ioob : String) {fds : List FnDef} {fd : FnDef} (h : fd ∈ fds) (h6 : 6 < fd.params.length) :
    Clara.Gen.Ev.panic ∈ genProg alloc ioob fds := by
  have key : ∀ (fds : List FnDef) (l : Nat), fd ∈ fds → Clara.Gen.Ev.panic ∈ Clara.Gen.genFuncs alloc fds l := by
    intro fds
    induction fds with
    | nil => intro _ h; cases h
    | cons fd' fds ih =>
      intro l h
      simp only [Clara.Gen.genFuncs, List.mem_append]
      rcases List.mem_cons.1 h with rfl | h
      · left
        have := ncGenParams fd.params 0 {} (by omega) (by intro h0; rw [h0] at h6; simp at h6)
        simp [Clara.Gen.genFunc, this]
      · exact .inr (ih _ h)
  simp only [genProg, List.mem_append]
  exact .inl (key _ _ h)

/-- The declared function `f` with these parameters and statements. -/
def ncFn (ps : List (String × Ty)) (ss : List S) : Fn := ⟨ps.map (fun q => (q.1, [plainSym (some q.2)])), .prim .nothing, .block ss⟩

/-- An accepted program of one function `f` for which code generation panics. -/
def ncBad (root : Scope) (ps : List (String × Ty)) (ss : List S) : Prop :=
  ∃ f', ncAccepted ckNoDecls root [{ name := "f", params := ps }] [ncFn ps ss] [f'] ∧
    ¬ ncSafe ncLib ckNoDecls "alloc" "ioob" ([{ name := "f", params := ps }].zip [f'])

theorem ncBad_of {root : Scope} {ps : List (String × Ty)} {ss : List S} {f' : Fn} (h1 : Good [[], root]) (h2 : (ps.map (·.1)).Nodup)
    (h3 : rawB ss) (h4 : quietB ckNoDecls ss) (h5 : chkProg ckNoDecls 30 root [ncFn ps ss] = .ok ([f'], []))
    (h6 : ncPanics ncLib ckNoDecls "alloc" "ioob" ([{ name := "f", params := ps }].zip [f'])) : ncBad root ps ss := by
  refine ⟨f', ⟨?_, .cons ⟨rfl, h2⟩ .nil, 30, h5⟩, ncPanics_not h6⟩
  intro f hf
  simp only [List.mem_singleton] at hf
  subst hf
  refine ⟨good_scope ?_ (fun sc hsc => h1 sc (List.mem_cons_of_mem _ hsc)), h3, h4⟩
  intro p hp
  simp only [ncFn, List.mem_map] at hp
  obtain ⟨q, _, rfl⟩ := hp
  exact ⟨_, _, rfl, rfl⟩

/-- `x := 1..3`: nothing takes `..` away outside `for`. -/
def ncRange : List S := [.das (ckId "x") (.bin .range (.lit (.int 1 false) {}) (.lit (.int 3 false) {}) {})]

/-- `s == "a"` -/
def ncStrings : List S := [.expr (.cmp .eq (ckId "s") (.lit (.string "a") {}) {})]

/-- `true == false` -/
def ncBools : List S := [.expr (.cmp .eq (.lit (.bool true) {}) (.lit (.bool false) {}) {})]

/-- Parameters of type `int`. -/
def ncInts (xs : List String) : List (String × Ty) := xs.map fun x => (x, ckInt)

/-- `h(1, 1, 1, 1, 1, 1)`, where `h` is a parameter: `invokeDynamic` gets seven arguments. -/
def ncSix : List S := [.expr (.call (ckId "h") [] (List.replicate 6 (.lit (.int 1 false) {})) {})]

def ncSixFn : Ty := .fn {} (List.replicate 6 ckInt) (.prim .nothing)

/-- `a := 1 … g := 1`, then `fn() int { return a + b + c + d + e + f + g }`: the environment has seven fields. -/
def ncSeven : List S :=
  (["a", "b", "c", "d", "e", "f", "g"].map fun x => .das (ckId x) (.lit (.int 1 false) {})) ++
  [.expr (.fnB ⟨[], [], some (.named "int" false [])⟩ none
    [.ret (["b", "c", "d", "e", "f", "g"].foldl (fun l x => .bin .add l (ckId x) {}) (ckId "a"))] {})]

/-- Code for the function `f` with one statement that is an expression which panics. -/
theorem ncExpr {ps : List (Nat × Clara.Gen.TyR)} {e : Clara.Gen.Expr} (h : ∀ slot g, Clara.Gen.Ev.panic ∈ (Clara.Gen.genExpr slot e false g).1) :
    Clara.Gen.Ev.panic ∈ genProg "alloc" "ioob" [{ name := "f", params := ps, body := .block (.cons (.expr e) .nil), retNothing := true }] := by
  simp [genProg, Clara.Gen.genFuncs, Clara.Gen.genFunc, Clara.Gen.genStmts, Clara.Gen.genStmtsGo, Clara.Gen.genStmt, h]

theorem C60_violated_range : ncBad [] [] ncRange :=
  ncBad_of (good_scope (by simp) (good_scope (by simp) (by intro _ h; simp at h))) (by decide) (by simp [ncRange, rawB, S.raw, X.raw, ckId])
    (by simp [ncRange, quietB, S.quiet, X.quiet, ckId]) rfl (.early rfl)

theorem C60_violated_strings : ncBad [] [("s", .prim .string)] ncStrings :=
  ncBad_of (good_scope (by simp) (good_scope (by simp) (by intro _ h; simp at h))) (by decide) (by simp [ncStrings, rawB, S.raw, X.raw, ckId])
    (by simp [ncStrings, quietB, S.quiet, X.quiet, ckId]) rfl
    (.late (fds := [{ name := "f", params := [(0, ⟨.string, 0⟩)], body := .block (.cons (.expr (.bin .eq ⟨.boolean, 0⟩ (.var 0 ⟨.string, 0⟩) (.str "a"))) .nil), retNothing := true }])
      rfl (ncExpr fun slot g => by simp [Clara.Gen.genExpr, Clara.Gen.untagAs, Clara.Gen.Expr.ty]))

theorem C60_violated_bools : ncBad [] [] ncBools :=
  ncBad_of (good_scope (by simp) (good_scope (by simp) (by intro _ h; simp at h))) (by decide) (by simp [ncBools, rawB, S.raw, X.raw, ckId])
    (by simp [ncBools, quietB, S.quiet, X.quiet, ckId]) rfl
    (.late (fds := [{ name := "f", params := [], body := .block (.cons (.expr (.bin .eq ⟨.boolean, 0⟩ (.bool true) (.bool false))) .nil), retNothing := true }])
      rfl (ncExpr fun slot g => by simp [Clara.Gen.genExpr, Clara.Gen.untagAs, Clara.Gen.Expr.ty]))

/-- A function with seven parameters. -/
theorem C60_violated_params : ncBad [] (ncInts ["a", "b", "c", "d", "e", "f", "g"]) [] :=
  ncBad_of (good_scope (by simp) (good_scope (by simp) (by intro _ h; simp at h))) (by decide) (by simp [rawB])
    (by simp [quietB]) rfl (.late rfl (C60_params _ _ (List.mem_cons_self ..) (by decide)))

theorem C60_violated_six : ncBad [] [("h", ncSixFn)] ncSix :=
  ncBad_of (good_scope (by simp) (good_scope (by simp) (by intro _ h; simp at h))) (by decide) (by simp [ncSix, rawB, S.raw, X.raw, ckId, rawL, List.replicate])
    (by simp [ncSix, quietB, S.quiet, X.quiet, ckId, quietL, List.replicate]) rfl
    (.late (fds := [{ name := "f", params := [(0, ⟨.function, 0⟩)],
                      body := .block (.cons (.expr (.callFn "invokeDynamic" { ret := ⟨.nothing, 0⟩ } (.var 0 ⟨.function, 0⟩ :: List.replicate 6 (.int 1)))) .nil),
                      retNothing := true }])
      rfl (ncExpr fun slot g => by simp [Clara.Gen.genExpr, Clara.Gen.genArgs, Clara.Gen.argRegs, List.replicate]))

theorem C60_violated_captured : ncBad ckRoot [] ncSeven :=
  ncBad_of (good_scope (by simp) (good_scope (by simp [ckRoot]) (by intro _ h; simp at h))) (by decide)
    (by simp [ncSeven, rawB, S.raw, X.raw, ckId, rawL])
    (by simp [ncSeven, quietB, S.quiet, X.quiet, ckId, quietL]) rfl
    (.late rfl (C60_params _ _ (List.mem_cons_of_mem _ (List.mem_cons_self ..)) (by decide)))

theorem C60_violated : ¬ C60_claim := by
  intro h
  obtain ⟨f', h1, h2⟩ := C60_violated_strings
  exact h2 (h _ _ _ _ _ _ _ _ h1)

end Clara.Props
