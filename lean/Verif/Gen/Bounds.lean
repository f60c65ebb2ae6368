import Verif.Gen.Top
/-
Array accesses outside the bounds.
-/
namespace Clara.Gen
variable {σ : Type} {P : Prog σ} {I : Image σ} {C : List Ev} {lim top d : Nat}

/-- The machine is about to call the function `f`, with an aligned stack, the given first two arguments
and the heap and world of `S`. -/
structure Calling (I : Image σ) (lim top : Nat) (f : String) (a b : Word) (S : Store σ) (c : Cfg σ) :
    Prop where
  code : I.code[c.1]? = some (.ins (.call f))
  align : c.2.aligned
  rdi : c.2.reg .rdi = a
  rsi : c.2.reg .rsi = b
  rel : Rel lim top S c.2

theorem and16 (w : Word) : (w &&& BitVec.ofInt 64 (-16)).toNat % 16 = 0 := by
  have h : ∀ i : Nat, i < 4 → (w &&& BitVec.ofInt 64 (-16)).getLsbD i = false := by
    intro i hi
    rw [BitVec.getLsbD_and]
    have : (BitVec.ofInt 64 (-16)).getLsbD i = false := by
      match i, hi with
      | 0, _ => rfl
      | 1, _ => rfl
      | 2, _ => rfl
      | 3, _ => rfl
    rw [this, Bool.and_false]
  have h0 := h 0 (by omega)
  have h1 := h 1 (by omega)
  have h2 := h 2 (by omega)
  have h3 := h 3 (by omega)
  simp only [BitVec.getLsbD, Nat.testBit, Nat.shiftRight_eq_div_pow, Nat.one_and_eq_mod_two] at h0 h1 h2 h3
  simp only [bne_eq_false_iff_eq] at h0 h1 h2 h3
  omega

/-- The trampoline passes index and length on. -/
theorem run_ioob (X : Ctx P I C lim top) {m : Mach σ} {p : Word} {n len : BitVec 63} {S : Store σ} {q : Nat}
    (hq : I.find .ioob = some q) (hrel : Rel lim top S m) (hlen : S.heap p = some (.int len))
    (h1 : m.reg .rax = p) (h2 : m.reg .rbx = n.signExtend 64) :
    Reaches I (Calling I lim top P.ioob (Val.int n).enc (Val.int len).enc S) (q, m) := by
  let pre := genFuncs P.alloc P.fns 0 ++ [.flush]
  let body : List Ev := [.ins (.alu .and (.imm (-16)) .rsp), .ins (.mov rbx (.reg .rdi)),
    .ins (.shl (.imm 1) .rdi), .ins (.alu .or (.imm 1) .rdi), .ins (.mov (.mem { base := .rax }) (.reg .rsi))]
  have hC : pre ++ [.label .ioob] ++ (body ++ [.ins (.call P.ioob), .flush]) = C := by
    rw [X.code, genProg, genIoob]; simp [pre, body, tagAs]
  refine reaches_label X.loaded (pre := pre) (List.IsPrefix.trans ⟨_, hC⟩ (List.prefix_refl _)) hq ?_
  have key : Exe I C body m (fun m' => m'.aligned ∧ m'.reg .rdi = (Val.int n).enc ∧
      m'.reg .rsi = (Val.int len).enc ∧ Rel lim top S m') := by
    refine Exe.ins X.loaded rfl ?_
    refine Exe.mov X.loaded ?_
    intro w
    refine Exe.ins X.loaded rfl (Exe.ins X.loaded rfl (Exe.ins X.loaded rfl (Exe.nil ?_)))
    refine ⟨?_, ?_, ?_, ?_⟩
    · simp only [Mach.aligned, Mach.set, Mach.put, Mach.noFlags, reduceCtorEq, if_true, if_false, Alu.eval,
        Mach.get]
      exact and16 _
    · simp only [Mach.set, Mach.put, Mach.noFlags, reduceCtorEq, if_true, if_false, Alu.eval, Mach.get,
        Cnt.val, h2]
      have := tag_word (n.signExtend 64)
      rw [setWidth_sext] at this
      exact this
    · simp only [Mach.set, Mach.put, Mach.noFlags, reduceCtorEq, if_true, if_false, Mach.get, Mach.ea, h1]
      have hz : p + 0 + BitVec.ofInt 64 0 = p := by
        rw [show (0 : Word) = 0#64 from rfl, BitVec.add_zero]; exact BitVec.add_zero p
      rw [hz]
      exact hrel.heap _ _ hlen
    · exact hrel.congr rfl rfl
  refine key _ (pre ++ [.label .ioob]) ?_ ?_
  · exact ⟨[.ins (.call P.ioob), .flush], by rw [← hC]; simp⟩
  · rintro m' ⟨ha, hd, hs, hr⟩
    have hp : pre ++ [.label .ioob] ++ body ++ [.ins (.call P.ioob)] <+: C := ⟨[.flush], by rw [← hC]; simp⟩
    obtain ⟨c1, c2, c3⟩ := code_ctl X.loaded hp rfl rfl
    exact flush_pend c1 (.now ⟨c2, ha, hd, hs, hr⟩)

/-- An index outside the array leads to the panic function, for reads and for writes. -/
theorem index_panics (X : Ctx P I C lim top) {ρ : Env} {S S1 S2 : Store σ} {t : TyR} {a i : Expr} {p : Word}
    {n len : BitVec 63}
    (h1 : Big P d (.expr ρ S a (some (.ptr p)) S1)) (h2 : Big P d (.expr ρ S1 i (some (.int n)) S2))
    (hlen : S2.heap p = some (.int len)) (h0 : 0 ≤ len.toInt) (ho : n.toInt < 0 ∨ len.toInt ≤ n.toInt)
    {fd : FnDef} {g : GS} {m : Mach σ} {b : Bool} (hv : a.vars ++ i.vars ⊆ fd.syms)
    (hok : (a.ok g.top.length && i.ok g.top.length) = true)
    (hpre : Pre lim top fd ρ S g m (max a.use (1 + i.use) + d)) {pre : List Ev}
    (hp : pre ++ (genExpr fd.slot (.index t a i) b g).1 <+: C) :
    Run I (Calling I lim top P.ioob (Val.int n).enc (Val.int len).enc S2) pre m := by
  simp only [genExpr] at hp
  let hd : List Ev := (genExpr fd.slot a false g).1 ++ (.ins (.push rax) ::
      ((genExpr fd.slot i false (genExpr fd.slot a false g).2.inc).1 ++ (untagAs i.ty.kind .rax ++
      (.ins (.mov rax rbx) :: .ins (.mov (.mem { base := .rsp }) rax) ::
       .ins (.mov (.mem { base := .rax }) rax) :: (untagAs .integer .rax ++
       (.ins (.cmp rax .rbx) :: .ins (.pop .rax) :: []))))))
  have hp2 : pre ++ hd ++ [.ins (.jcc .ae .ioob)] <+: C := by
    refine List.IsPrefix.trans ?_ hp
    exact ⟨_, by simp only [hd, List.append_assoc, List.cons_append, List.nil_append]; rfl⟩
  have hx := exe_index X (rest := []) (sim X h1) (sim X h2) hlen hv hok hpre
    (Q := fun m' => Rel lim top S2 m' ∧ m'.reg .rax = p ∧ m'.reg .rbx = n.signExtend 64 ∧
      m'.flags = some (n.signExtend 64, len.signExtend 64))
    (fun m' q1 q2 q3 q4 => Exe.nil ⟨q1.rel, q2, q3, q4⟩)
  refine hx _ pre ((List.prefix_append _ _).trans hp2) ?_
  rintro m' ⟨q1, q2, q3, q4⟩
  obtain ⟨pre', hl⟩ := ioob_label X
  refine Run.jcc_taken X.loaded hp2 q4 ?_ (find_label X.loaded hl)
    (run_ioob X (find_label X.loaded hl) q1 hlen q2 q3)
  rw [ae_word h0]
  rcases ho with h | h
  · simp [show ¬ (0 ≤ n.toInt) by omega]
  · simp [show ¬ (n.toInt < len.toInt) by omega]

end Clara.Gen
