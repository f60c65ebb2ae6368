import Verif.Props.NoCrash
set_option linter.unusedVariables false
set_option linter.unusedSimpArgs false
/-
C60, continued: functions with more than 4096 variables.  `displace` (`asm.go` 208-213) panics for offsets below -32768.
-/
namespace Clara.Props
open Clara.Types Clara.Sema Clara.Sema.Chk
open Clara.Gen (FnDef genProg)

/-- `x`, `xx`, `xxx`, … -/
def ncName (i : Nat) : String := String.ofList (List.replicate (i + 1) 'x')

theorem ncName_inj {i j : Nat} (h : ncName i = ncName j) : i = j := by
  have := congrArg (fun s : String => s.toList.length) h
  simpa [ncName] using this

/-- `x := 1  xx := 1  xxx := 1 …`: `n` declarations from the `k`th name on. -/
def ncMany (k : Nat) : Nat → List S
  | 0 => []
  | n + 1 => .das (ckId (ncName k)) (.lit (.int 1 false) {}) :: ncMany (k + 1) n

/-- The same, checked. -/
def ncManyT (k : Nat) : Nat → List S
  | 0 => []
  | n + 1 => .das (.ident (ncName k) ⟨some ckInt, some [stackSym (some ckInt)]⟩) (.lit (.int 1 false) ⟨some ckInt, none⟩) :: ncManyT (k + 1) n

theorem ncLookup {k : Nat} : ∀ {sc : Scope}, (∀ p ∈ sc, ∃ j, j < k ∧ p.1 = ncName j) → sc.lookup (ncName k) = none
  | [], _ => rfl
  | (x, s) :: sc, h => by
    obtain ⟨j, hj, hx⟩ := h (x, s) (List.mem_cons_self ..)
    have hne : (ncName k == x) = false := by
      rw [beq_eq_false_iff_ne]
      intro e
      have := ncName_inj (e.trans hx)
      omega
    rw [List.lookup_cons, hne]
    exact ncLookup (fun p hp => h p (List.mem_cons_of_mem _ hp))

theorem ncMany_chk (root : Scope) : ∀ (n k : Nat) (sc : Scope), (∀ p ∈ sc, ∃ j, j < k ∧ p.1 = ncName j) →
    ∃ sc', chkB ckNoDecls (n + 1) [sc, root] (.prim .nothing) (ncMany k n) = .ok (ncManyT k n, [], [sc', root])
  | 0, k, sc, _ => ⟨sc, by simp [ncMany, ncManyT, chkB]⟩
  | n + 1, k, sc, h => by
    obtain ⟨sc', hc⟩ := ncMany_chk root n (k + 1) ((ncName k, [stackSym (some ckInt)]) :: sc) (by
      intro p hp
      rcases List.mem_cons.1 hp with rfl | hp
      · exact ⟨k, by omega, rfl⟩
      · obtain ⟨j, hj, e⟩ := h p hp
        exact ⟨j, by omega, e⟩)
    refine ⟨sc', ?_⟩
    have hl := ncLookup h
    simp only [ckInt] at hc
    simp [ncMany, ncManyT, chkB, chkX, stepS, stepX, litTy, X.typ, X.ann, ckId, define, hl, hc, ckInt]

/-- The assignments of the translated function. -/
def ncAsg (k : Nat) : Nat → SSs
  | 0 => .nil
  | n + 1 => .cons (.asg true (.var k (ncLib.ty ckInt)) (.int 1)) (ncAsg (k + 1) n)

theorem ncMany_tr : ∀ (n k : Nat) (ρ : Names') (st : TrSt),
    trB ncLib ckNoDecls ρ (ncManyT k n) st = .ok (ncAsg st.n n, { st with n := st.n + n })
  | 0, k, ρ, st => by simp [ncManyT, ncAsg, trB]
  | n + 1, k, ρ, st => by
    have ih := ncMany_tr n (k + 1) ((ncName k, st.n) :: ρ) { st with n := st.n + 1 }
    simp only [ncManyT, trB, trS, trX, ncAsg]
    simp only [bind, Except.bind, pure, Except.pure, trLit, ih]
    rw [Nat.add_assoc, Nat.add_comm 1 n]

/-- The assignments for which code is generated. -/
def ncGen (k : Nat) : Nat → Clara.Gen.Stmts
  | 0 => .nil
  | n + 1 => .cons (.asg true (.var k (ncLib.ty ckInt)) (.int 1)) (ncGen (k + 1) n)

theorem ncMany_low (L : Lib) : ∀ (n k N : Nat), (lowL L (ncAsg k n) N).1 = ncGen k n
  | 0, _, _ => rfl
  | n + 1, k, N => by simp [ncAsg, ncGen, lowL, lowS, ncMany_low L n (k + 1) N]

theorem ncGen_vars : ∀ n k, (ncGen k n).vars = List.range' k n
  | 0, _ => rfl
  | n + 1, k => by simp [ncGen, Clara.Gen.Stmts.vars, Clara.Gen.Stmt.vars, Clara.Gen.Expr.vars, ncGen_vars n (k + 1), List.range'_succ]

theorem ncGen_panics (slot : Nat → Nat) (skip : Bool) : ∀ (n k : Nat) (g : Clara.Gen.GS), (∃ j, k ≤ j ∧ j < k + n ∧ 4096 < slot j) →
    Clara.Gen.Ev.panic ∈ (Clara.Gen.genStmtsGo slot skip (ncGen k n) g).1
  | 0, _, _, h => by obtain ⟨j, h1, h2, _⟩ := h; omega
  | n + 1, k, g, h => by
    obtain ⟨j, h1, h2, h3⟩ := h
    simp only [ncGen, Clara.Gen.genStmtsGo, List.mem_append]
    by_cases hj : j = k
    · subst hj
      left
      have : Clara.Gen.slotOk (slot j) = false := by simp [Clara.Gen.slotOk]; omega
      simp [Clara.Gen.genStmt, Clara.Gen.genExpr, Clara.Gen.slotIns, this]
    · exact .inr (ncGen_panics slot skip n (k + 1) _ ⟨j, by omega, by omega, h3⟩)

theorem addNew_range : ∀ (n k : Nat) (acc : List Nat), (∀ x ∈ acc, x < k) → Clara.Gen.addNew acc (List.range' k n) = acc ++ List.range' k n
  | 0, _, _, _ => by simp [Clara.Gen.addNew]
  | n + 1, k, acc, h => by
    have hk : k ∉ acc := fun hm => Nat.lt_irrefl _ (h k hm)
    rw [List.range'_succ, Clara.Gen.addNew, if_neg hk, addNew_range n (k + 1) (acc ++ [k]) (by
      intro x hx
      rcases List.mem_append.1 hx with hx | hx
      · exact Nat.lt_succ_of_lt (h x hx)
      · simp only [List.mem_singleton] at hx
        omega)]
    simp

theorem ncMany_raw : ∀ n k, rawB (ncMany k n)
  | 0, _ => by simp [ncMany, rawB]
  | n + 1, k => by simp [ncMany, rawB, S.raw, X.raw, ckId, ncMany_raw n (k + 1)]

theorem ncMany_quiet : ∀ n k, quietB ckNoDecls (ncMany k n)
  | 0, _ => by simp [ncMany, quietB]
  | n + 1, k => by simp [ncMany, quietB, S.quiet, X.quiet, ckId, ncMany_quiet n (k + 1)]

/-- Every function with more than 4096 declarations `x := 1 …` is accepted and makes the generator panic; with 4096 it does not
(`C60_partial`). -/
theorem C60_violated_slots (n : Nat) (h : 4096 < n) : ncBad [] [] (ncMany 0 n) := by
  obtain ⟨sc, hc⟩ := ncMany_chk [] n 0 [] (by intro p hp; cases hp)
  refine ⟨⟨sc, .prim .nothing, .block (ncManyT 0 n)⟩, ⟨?_, .cons ⟨rfl, by simp⟩ .nil, n + 1, ?_⟩, ncPanics_not ?_⟩
  · intro f hf
    simp only [List.mem_singleton] at hf
    subst hf
    exact ⟨good_scope (by simp [ncFn]) (good_scope (by simp) (by intro _ h; simp at h)), ncMany_raw n 0, ncMany_quiet n 0⟩
  · simp [chkProg, chkFn, ncFn, hc]
  · have ht := ncMany_tr n 0 (bindParams [] 0) ⟨0, 0, []⟩
    refine .late (fds := [{ name := "f", params := [], body := .block (ncGen 0 n), retNothing := true }]) ?_ ?_
    · simp only [List.zip_cons_cons, List.zip_nil_right, trProg, trFns, trFn, List.map_nil, List.length_nil, Nat.add_zero, ht]
      simp [bind, Except.bind, pure, Except.pure, lowF, lowB, ncMany_low, typedParams, kindOf]
    · have hp := ncGen_panics (FnDef.slot { name := "f", params := [], body := .block (ncGen 0 n), retNothing := true }) false n 0
        { lbl := 0, sp := FnDef.frame { name := "f", params := [], body := .block (ncGen 0 n), retNothing := true },
          gc := (({} : Clara.Gen.GcS)).openScope } ⟨n - 1, by omega, by omega, by
            have hs : FnDef.syms { name := "f", params := [], body := .block (ncGen 0 n), retNothing := true } = List.range' 0 n := by
              simp [FnDef.syms, Clara.Gen.Body.vars, ncGen_vars, addNew_range n 0 [] (by simp)]
            rw [FnDef.slot, hs]
            have : (List.range' 0 n)[n - 1]'(by simp; omega) = n - 1 := by simp
            have hi := (List.nodup_range' (s := 0) (n := n)).idxOf_getElem (n - 1) (by simp; omega)
            rw [this] at hi
            omega⟩
      simp only [genProg, Clara.Gen.genFuncs, Clara.Gen.genFunc, Clara.Gen.genParams, Clara.Gen.genStmts, List.mem_append, List.mem_cons]
      simp [hp]

/-- The first function of the kind. -/
example : ncBad [] [] (ncMany 0 4097) := C60_violated_slots 4097 (by omega)

example : ncMany 0 2 = [.das (ckId "x") (.lit (.int 1 false) {}), .das (ckId "xx") (.lit (.int 1 false) {})] := rfl

end Clara.Props
