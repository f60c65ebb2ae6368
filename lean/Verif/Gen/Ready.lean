import Verif.Gen.Bounds
/-
The state at a call instruction.
-/
namespace Clara.Gen
variable {σ : Type} {P : Prog σ} {I : Image σ} {C : List Ev} {lim top d : Nat} {ρ : Env} {S S1 : Store σ}

/-- The machine is about to call `f`, with an aligned stack, the words `ws` in the argument registers and
the heap and world of `S`. -/
structure AtCall (I : Image σ) (lim top : Nat) (f : String) (ws : List (Option Word)) (S : Store σ)
    (c : Cfg σ) : Prop where
  code : I.code[c.1]? = some (.ins (.call f))
  align : c.2.aligned
  args : ∀ (j : Nat) (r : Reg) (x : Word), ws[j]? = some (some x) → argRegs[j]? = some r → c.2.reg r = x
  rel : Rel lim top S c.2

/-- The code for a call, up to the call instruction. -/
theorem call_ready (X : Ctx P I C lim top) {f : String} {fi : FnInfo} {args : List Expr}
    {vs : List (Option Val)} (hargs : Big P d (.args ρ S args vs S1)) {fd : FnDef} {g : GS} {m : Mach σ}
    (hv : varsL args ⊆ fd.syms) (hok : okL 0 args = true)
    (hpre : Pre lim top fd ρ S g m (6 + (1 + useL args) + d)) {b : Bool} {pre : List Ev}
    (hp : pre ++ (genExpr fd.slot (.callFn f fi args) b g).1 <+: C) :
    Run I (AtCall I lim top f (argWs fi args vs) S1) pre m := by
  obtain ⟨-, hargs⟩ := sim X hargs
  simp only [genExpr, finishCall_eq] at hp
  by_cases hk : 6 < g.top.length
  · refine Exe.panic (Q := fun _ => True) X.nopanic (c := (spill g).1) (spill_panic hk) _ pre
      (prefix_left hp) ?_
    obtain ⟨t, ht⟩ := hp
    exact absurd (by rw [← ht]; simp [spill_panic hk]) X.nopanic
  let z := (genArgs fd.slot fi args 0 (spill g).2).2.popd false
  let mid : List Ev := (spill g).1 ++ ((genArgs fd.slot fi args 0 (spill g).2).1 ++
    ((if fi.variadic then [.ins (.mov (.imm 0) rax)] else []) ++
     (if z.sp % 2 = 0 then [] else [.ins (.alu .sub (.imm 8) .rsp)])))
  have hp2 : pre ++ mid ++ [.ins (.call f)] <+: C := by
    refine List.IsPrefix.trans ?_ hp
    exact ⟨_, by simp only [mid, List.append_assoc, List.cons_append, List.nil_append, if_false,
      Bool.false_eq_true]; rfl⟩
  have hsp := spill_state g
  have key : Exe I C mid m (fun m' => m'.aligned ∧ Rel lim top S1 m' ∧
      ∀ (j : Nat) (r : Reg) (x : Word), (argWs fi args vs)[j]? = some (some x) → argRegs[j]? = some r →
        m'.reg r = x) := by
    refine (exe_spill (u := 1 + useL args + d) X (hpre.less (by omega))).append ?_
    rintro m1 ⟨hpre1, hs⟩
    refine (hargs fd fi (spill g).2 m1 [] g.reg hsp.2.1 hv hok (hpre1.less (by omega))).append ?_
    rintro m2 ⟨hp2, hx2⟩
    have hpre2 := hpre1.kept hp2.kept hp2.rel
    have hb2 := hpre2.bud
    have hsp2' := hpre2.sp
    have hal2 := hpre2.al
    obtain ⟨hspz, -⟩ := genArgs_state fd.slot fi args 0 (spill g).2 hsp.2.1
    suffices h0 : ∀ m0 : Mach σ, Mod [.rax] m2 m0 →
        Exe I C (if z.sp % 2 = 0 then [] else [.ins (.alu .sub (.imm 8) .rsp)]) m0 (fun m' => m'.aligned ∧
          Rel lim top S1 m' ∧ ∀ (j : Nat) (r : Reg) (x : Word), (argWs fi args vs)[j]? = some (some x) →
            argRegs[j]? = some r → m'.reg r = x) by
      split
      · exact Exe.ins X.loaded rfl (h0 _ (mod_set _ _ _))
      · exact h0 m2 (Mod.refl _ _)
    intro m0 hm0
    have hz : z.sp = (spill g).2.sp := hspz
    have e1 : m0.reg .rsp = m2.reg .rsp := hm0.reg _ (by simp)
    have hregs : ∀ (j : Nat) (r : Reg) (x : Word), (argWs fi args vs)[j]? = some (some x) →
        argRegs[j]? = some r → m0.reg r = x := by
      intro j r x hj hr
      rw [hm0.reg r (by simp [(argReg_ne hr).1])]
      exact hx2 j r x hj (by simpa using hr)
    split
    · refine Exe.nil ⟨?_, hp2.rel.congr hm0.mem hm0.ext, hregs⟩
      rw [hz] at *
      show (m0.reg .rsp).toNat % 16 = 0
      rw [e1]
      omega
    · refine Exe.ins X.loaded rfl (Exe.nil ⟨?_, hp2.rel.congr hm0.mem hm0.ext, ?_⟩)
      · show (m0.reg .rsp - 8).toNat % 16 = 0
        rw [toNat_sub8 (by rw [e1]; omega), e1]
        rw [hz] at *
        omega
      · intro j r x hj hr
        rw [← hregs j r x hj hr]
        simp [Mach.set, Mach.noFlags, (argReg_ne hr).2.2.1]
  refine key _ pre ((List.prefix_append _ _).trans hp2) ?_
  rintro m' ⟨q1, q2, q3⟩
  obtain ⟨c1, c2, c3⟩ := code_ctl X.loaded hp2 rfl rfl
  exact flush_pend c1 (.now ⟨c2, q1, q3, q2⟩)

end Clara.Gen
