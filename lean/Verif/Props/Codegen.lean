import Verif.Gen.Ready
import Verif.Gen.Transfer
import Verif.Gen.Walk
import Verif.Gen.Compute
/-
Properties of the generated code: expressions, statements, stack, optimiser (C29-C35).

The hypotheses shared by the theorems: `Ctx P I C lim top` says that the image `I` is the assembly output for
the program `P` (with the optimiser if `I.opt`, without it otherwise), loaded at any address, with runtime
functions that do what `P.rt` and `P.ext` say; `Called` is a state at the entry of a function.
-/
namespace Clara.Props
open Clara.Gen

variable {σ : Type} {P : Prog σ} {I : Image σ} {C : List Ev} {lim top d : Nat}

/-! ### A program for the examples

    fn f(x: int, b: bool) int = b ? (x / 3) - 5 : (x << 2) ^ 7
    fn g(n: int) int { s := 0; while n > 0 { if n > 5 { s = s + n } else { s = s - 1 } n = n - 1 } return s }
-/

def exF : ZE :=
  .ite (.var 1) (.bin .sub (.bin .div (.var 0) (.lit 3)) (.lit 5)) (.bin .xor (.bin .shl (.var 0) (.lit 2)) (.lit 7))

def exB : BE := .and (.cmp .lt (.var 0) (.lit 10)) (.not (.cmp .eq (.var 0) (.lit 3)))

def exG : Stmts :=
  .cons (.asg true (.var 1 tInt) (.int 0)) <|
  .cons (.loop (.bin .gt tBool (.var 0 tInt) (.int 0))
    (.cons (.ifs (.cond (.bin .gt tBool (.var 0 tInt) (.int 5))
        (.cons (.asg false (.var 1 tInt) (.bin .add tInt (.var 1 tInt) (.var 0 tInt))) .nil)
        (.els (.cons (.asg false (.var 1 tInt) (.bin .sub tInt (.var 1 tInt) (.int 1))) .nil))))
      (.cons (.asg false (.var 0 tInt) (.bin .sub tInt (.var 0 tInt) (.int 1))) .nil))) <|
  .cons (.ret (some (.var 1 tInt))) .nil

def exFns : List FnDef :=
  [{ name := "clara_f.int.bool", params := [(0, tInt), (3, tBool)], body := .expr exF.tree },
   { name := "clara_b.int", params := [(0, tInt)], body := .expr exB.tree }]

theorem exCtx (opt : Bool) : Ctx (bumpProg opt "alloc" "ioob" exFns (fun _ => 0) 0)
    (bumpImage opt "alloc" "ioob" exFns (fun _ => 0)) (genProg "alloc" "ioob" exFns) 0 (2 ^ 60) :=
  bump_ctx _ (by decide) (by decide) (by decide) (by decide) (by decide) (by decide)

/-! ### C29 -/

/-- **C29.** A function whose body is an integer expression returns the tagged value of the expression, for
all argument values and from every state; the value is that of arithmetic on numbers, wrapped to 63 bits. -/
theorem C29_result (X : Ctx P I C lim top) {fd : FnDef} (hfd : fd ∈ P.fns) (hs : fd.skip = false) {e : ZE}
    (hb : fd.body = .expr e.tree) {vs : List (Option Val)} (hl : vs.length = fd.params.length)
    {ρ : Nat → Int} {β : Nat → Bool} (hv : Holds ρ β (bindParams fd.params vs) e.tree.vars) {z : Int}
    (h : ZE.Val ρ β e z) {S : Store σ} {p q : Nat} {m : Mach σ} (hc : Called I lim top fd vs S 0 p q m) :
    Reaches I (fun c => c.1 = q ∧ c.2.reg .rax = BitVec.ofInt 64 (2 * z + 1)) (p, m) := by
  obtain ⟨n, rfl, hbig⟩ := ZE.big (P := P) (d := 0) (S := S) h hv
  have := run_fn X hfd hs (Big.fnExpr hb hl hbig) hc
  exact this.mono (fun c hc => ⟨hc.pc, by rw [← enc_tag]; exact hc.rax _ rfl⟩)

/-- The same wherever the expression occurs, with any number of argument registers in use. -/
theorem C29_in_place (X : Ctx P I C lim top) {ρ : Nat → Int} {β : Nat → Bool} {e : ZE} {z : Int}
    (h : ZE.Val ρ β e z) {env : Env} {S : Store σ} {fd : FnDef} {g : GS} {m : Mach σ}
    (hv : Holds ρ β env e.tree.vars) (hs : e.tree.vars ⊆ fd.syms) (hpre : Pre lim top fd env S g m e.tree.use) :
    Exe I C (genExpr fd.slot e.tree false g).1 m (fun m' => m'.reg .rax = BitVec.ofInt 64 (2 * z + 1) ∧
      Kept top m m' ∧ Rel lim top S m') :=
  ZE.exe X h hv hs hpre

/-- An expression has at most one value, and it is in the range of 63-bit numbers. -/
theorem C29_value_unique {ρ : Nat → Int} {β : Nat → Bool} (hρ : ∀ x, wrap (ρ x) = ρ x) {e : ZE} {y z : Int}
    (h1 : ZE.Val ρ β e y) (h2 : ZE.Val ρ β e z) : y = z ∧ -2 ^ 62 ≤ z ∧ z < 2 ^ 62 :=
  ⟨ZE.val_unique h1 h2, ZE.val_range hρ h2⟩

/-- Every expression without division has a value. -/
theorem C29_value_exists (ρ : Nat → Int) (β : Nat → Bool) (hρ : ∀ x, wrap (ρ x) = ρ x) (e : ZE)
    (h : e.noDiv = true) : ∃ z, ZE.Val ρ β e z :=
  ZE.val_exists hρ e h

/-- `f(-7, true) = -7`: truncating division. -/
example : ZE.Val (fun _ => -7) (fun _ => true) exF (-7) :=
  .iteT (.var 1) (.bin (.bin (.var 0) (.lit 3) ⟨by decide, rfl⟩) (.lit 5) rfl)

example (opt : Bool) : ∃ p q m, Reaches (bumpImage opt "alloc" "ioob" exFns (fun _ => 0))
    (fun c => c.1 = q ∧ c.2.reg .rax = BitVec.ofInt 64 (2 * (-7) + 1)) (p, m) := by
  have X := exCtx opt
  obtain ⟨p, q, m, hc⟩ := bump_called (d := 0) X (List.mem_cons_self)
    [.int (BitVec.ofInt 63 (-7)), .bool true] (by decide) 0
  refine ⟨p, q, m, C29_result X List.mem_cons_self rfl (e := exF) rfl (by rfl) (ρ := fun _ => -7)
    (β := fun _ => true) ?_ ?_ hc⟩
  · constructor
    · intro x hx
      have : x = 0 := by simp [exF, ZE.tree, BE.tree, Expr.vars] at hx; omega
      subst this
      exact ⟨BitVec.ofInt 63 (-7), rfl, by decide⟩
    · intro x hx
      have : x = 1 := by simp [exF, ZE.tree, BE.tree, Expr.vars] at hx; omega
      subst this
      rfl
  · exact .iteT (.var 1) (.bin (.bin (.var 0) (.lit 3) ⟨by decide, rfl⟩) (.lit 5) rfl)

/-! ### C30 -/

/-- **C30.** A function whose body is a boolean expression over comparisons returns 1 or 0 according to the
order of the integers and the connectives; both operands of `and` and `or` must have values. -/
theorem C30_result (X : Ctx P I C lim top) {fd : FnDef} (hfd : fd ∈ P.fns) (hs : fd.skip = false) {e : BE}
    (hb : fd.body = .expr e.tree) {vs : List (Option Val)} (hl : vs.length = fd.params.length)
    {ρ : Nat → Int} {β : Nat → Bool} (hv : Holds ρ β (bindParams fd.params vs) e.tree.vars) {z : Bool}
    (h : BE.Val ρ β e z) {S : Store σ} {p q : Nat} {m : Mach σ} (hc : Called I lim top fd vs S 0 p q m) :
    Reaches I (fun c => c.1 = q ∧ c.2.reg .rax = if z then 1 else 0) (p, m) := by
  have := run_fn X hfd hs (Big.fnExpr hb hl (BE.big (P := P) (d := 0) (S := S) h hv)) hc
  exact this.mono (fun c hc => ⟨hc.pc, hc.rax _ rfl⟩)

theorem C30_in_place (X : Ctx P I C lim top) {ρ : Nat → Int} {β : Nat → Bool} {e : BE} {z : Bool}
    (h : BE.Val ρ β e z) {env : Env} {S : Store σ} {fd : FnDef} {g : GS} {m : Mach σ}
    (hv : Holds ρ β env e.tree.vars) (hs : e.tree.vars ⊆ fd.syms) (hpre : Pre lim top fd env S g m e.tree.use) :
    Exe I C (genExpr fd.slot e.tree false g).1 m (fun m' => m'.reg .rax = (if z then 1 else 0) ∧
      Kept top m m' ∧ Rel lim top S m') :=
  BE.exe X h hv hs hpre

theorem C30_value_unique {ρ : Nat → Int} {β : Nat → Bool} {e : BE} {y z : Bool}
    (h1 : BE.Val ρ β e y) (h2 : BE.Val ρ β e z) : y = z :=
  BE.val_unique h1 h2

/-- Both operands are evaluated: with a division by zero on the right, `and` has no value, even if the left
operand is false. -/
theorem C30_both_operands {ρ : Nat → Int} {β : Nat → Bool} {a b : BE} {z : Bool}
    (h : BE.Val ρ β (.and a b) z ∨ BE.Val ρ β (.or a b) z) :
    (∃ x, BE.Val ρ β a x) ∧ ∃ y, BE.Val ρ β b y := by
  rcases h with h | h <;> cases h <;> exact ⟨⟨_, by assumption⟩, ⟨_, by assumption⟩⟩

example (opt : Bool) : ∃ p q m, Reaches (bumpImage opt "alloc" "ioob" exFns (fun _ => 0))
    (fun c => c.1 = q ∧ c.2.reg .rax = 1) (p, m) := by
  have X := exCtx opt
  obtain ⟨p, q, m, hc⟩ := bump_called (d := 0) X (List.mem_cons_of_mem _ List.mem_cons_self)
    [.int (BitVec.ofInt 63 (-2))] (by decide) 0
  refine ⟨p, q, m, C30_result X (List.mem_cons_of_mem _ List.mem_cons_self) rfl (e := exB) rfl (by rfl)
    (ρ := fun _ => -2) (β := fun _ => true) (z := true) ?_ ?_ hc⟩
  · constructor
    · intro x hx
      have : x = 0 := by simp [exB, ZE.tree, BE.tree, Expr.vars] at hx; omega
      subst this
      exact ⟨BitVec.ofInt 63 (-2), rfl, by decide⟩
    · intro x hx
      simp [exB, ZE.tree, BE.tree, Expr.vars] at hx
  · exact .and (.cmp (.var 0) (.lit 10)) (.not (.cmp (.var 0) (.lit 3)))

/-! ### C31 -/

/-- At `p` lies an array with the elements `xs`: its length and then its elements. -/
structure IsArray (S : Store σ) (p : Word) (xs : List Val) : Prop where
  len : S.heap p = some (.int (BitVec.ofNat 63 xs.length))
  elem : ∀ (i : Nat) (x : Val), xs[i]? = some x → S.heap (p + 8 + BitVec.ofNat 64 (8 * i)) = some x
  small : xs.length < 2 ^ 60

theorem IsArray.toInt {S : Store σ} {p : Word} {xs : List Val} (h : IsArray S p xs) :
    (BitVec.ofNat 63 xs.length).toInt = xs.length := by
  have := h.small
  rw [BitVec.toInt_eq_toNat_of_lt (by rw [BitVec.toNat_ofNat]; omega), BitVec.toNat_ofNat]
  omega

theorem elem_addr {n : BitVec 63} (h : 0 ≤ n.toInt) (p : Word) :
    p + 8 + 8 * BitVec.ofInt 64 n.toInt = p + 8 + BitVec.ofNat 64 (8 * n.toInt.toNat) := by
  congr 1
  apply BitVec.eq_of_toNat_eq
  obtain ⟨k, hk⟩ := Int.eq_ofNat_of_zero_le h
  rw [hk, BitVec.toNat_mul, BitVec.ofInt_natCast]
  simp only [BitVec.toNat_ofNat, Int.toNat_natCast]
  rw [show BitVec.toNat (8 : Word) = 8 from rfl]
  omega

theorem elem_addr_inj {p : Word} {i j : Nat} (hi : i < 2 ^ 60) (hj : j < 2 ^ 60)
    (h : p + 8 + BitVec.ofNat 64 (8 * i) = p + 8 + BitVec.ofNat 64 (8 * j)) : i = j := by
  have h := (BitVec.add_right_inj _).1 h
  have := congrArg BitVec.toNat h
  rw [BitVec.toNat_ofNat, BitVec.toNat_ofNat] at this
  omega

theorem elem_addr_len {p : Word} {i : Nat} (hi : i < 2 ^ 60) :
    p ≠ p + 8 + BitVec.ofNat 64 (8 * i) := by
  intro h
  have := congrArg BitVec.toNat h
  simp only [BitVec.toNat_add, BitVec.toNat_ofNat] at this
  rw [show BitVec.toNat (8 : Word) = 8 from rfl] at this
  have := p.isLt
  omega

/-- **C31.** Reading element `i` with `0 ≤ i < length` gives that element and leaves the heap as it is. -/
theorem C31_read (X : Ctx P I C lim top) {ρ : Env} {S S1 S2 : Store σ} {t : TyR} {a i : Expr} {p : Word}
    {n : BitVec 63} {xs : List Val} {x : Val}
    (h1 : Big P d (.expr ρ S a (some (.ptr p)) S1)) (h2 : Big P d (.expr ρ S1 i (some (.int n)) S2))
    (hA : IsArray S2 p xs) (h0 : 0 ≤ n.toInt) (hx : xs[n.toInt.toNat]? = some x)
    {fd : FnDef} {g : GS} {m : Mach σ} (hv : a.vars ++ i.vars ⊆ fd.syms)
    (hok : (a.ok g.top.length && i.ok g.top.length) = true)
    (hpre : Pre lim top fd ρ S g m (max a.use (1 + i.use) + d)) :
    Exe I C (genExpr fd.slot (.index t a i) false g).1 m (fun m' => m'.reg .rax = x.enc ∧
      Kept top m m' ∧ Rel lim top S2 m') := by
  have hl : n.toInt < (BitVec.ofNat 63 xs.length).toInt := by
    rw [hA.toInt]
    have := (List.getElem?_eq_some_iff.1 hx).1
    omega
  have hb : Big P d (.expr ρ S (.index t a i) (some x) S2) :=
    .index h1 h2 hA.len h0 hl (by rw [elem_addr h0]; exact hA.elem _ _ hx)
  exact (sim X hb fd g m hv hok hpre).mono (fun m' hm => ⟨hm.2 _ rfl, hm.1.kept, hm.1.rel⟩)

/-- Reading with any other index calls the panic function with the index and the length; the heap is as
before. -/
theorem C31_read_out (X : Ctx P I C lim top) {ρ : Env} {S S1 S2 : Store σ} {t : TyR} {a i : Expr} {p : Word}
    {n : BitVec 63} {xs : List Val}
    (h1 : Big P d (.expr ρ S a (some (.ptr p)) S1)) (h2 : Big P d (.expr ρ S1 i (some (.int n)) S2))
    (hA : IsArray S2 p xs) (ho : n.toInt < 0 ∨ xs.length ≤ n.toInt)
    {fd : FnDef} {g : GS} {m : Mach σ} {b : Bool} (hv : a.vars ++ i.vars ⊆ fd.syms)
    (hok : (a.ok g.top.length && i.ok g.top.length) = true)
    (hpre : Pre lim top fd ρ S g m (max a.use (1 + i.use) + d)) {pre : List Ev}
    (hp : pre ++ (genExpr fd.slot (.index t a i) b g).1 <+: C) :
    Run I (Calling I lim top P.ioob (Val.int n).enc (Val.int (BitVec.ofNat 63 xs.length)).enc S2) pre m :=
  index_panics X h1 h2 hA.len (by rw [hA.toInt]; omega) (by rw [hA.toInt]; exact ho) hv hok hpre hp

/-- Assigning to element `i` with `0 ≤ i < length` changes that element and no other cell of the heap. -/
theorem C31_write (X : Ctx P I C lim top) {ρ : Env} {S S0 S1 S2 : Store σ} {t : TyR} {a i r : Expr} {p : Word}
    {n : BitVec 63} {xs : List Val} {v : Val} {dc : Bool}
    (hr : Big P d (.expr ρ S r (some v) S0)) (h1 : Big P d (.expr ρ S0 a (some (.ptr p)) S1))
    (h2 : Big P d (.expr ρ S1 i (some (.int n)) S2)) (hA : IsArray S2 p xs) (h0 : 0 ≤ n.toInt)
    (hl : n.toInt < xs.length) {fd : FnDef} {g : GS} {m : Mach σ} (hsk : fd.skip = false) (ht : g.top = [])
    (hv : (Stmt.asg dc (.index t a i) r).vars ⊆ fd.syms) (hok : (Stmt.asg dc (.index t a i) r).ok = true)
    (hpre : Pre lim top fd ρ S g m ((Stmt.asg dc (.index t a i) r).use + d)) {pre : List Ev} {q : Nat}
    {G : Cfg σ → Prop} (hp : pre ++ (genStmt fd.slot false (.asg dc (.index t a i) r) g).1 <+: C)
    (hq : I.pos (m.mem (m.reg .rbp + 8) + 8) = some q) :
    ∃ S3 : Store σ, IsArray S3 p (xs.set n.toInt.toNat v) ∧
      (∀ b, b ≠ p + 8 + BitVec.ofNat 64 (8 * n.toInt.toNat) → S3.heap b = S2.heap b) ∧ S3.ext = S2.ext ∧
      ((∀ m', SPost lim top fd ρ S3 g ((Stmt.asg dc (.index t a i) r).use + d) m m' →
        Run I G (pre ++ (genStmt fd.slot false (.asg dc (.index t a i) r) g).1) m') → Run I G pre m) := by
  have hlt : n.toInt.toNat < xs.length := by omega
  have hold := hA.elem _ _ (List.getElem?_eq_getElem hlt)
  have hsm := hA.small
  let ad : Word := p + 8 + BitVec.ofNat 64 (8 * n.toInt.toNat)
  let S3 : Store σ := { S2 with heap := fun b => if b = ad then some v else S2.heap b }
  have hw : S2.write ad v = some S3 := by
    unfold Store.write
    rw [show S2.heap ad = some xs[n.toInt.toNat] from hold]
  refine ⟨S3, ⟨?_, ?_, by simpa using hsm⟩, fun b hb => if_neg hb, rfl, ?_⟩
  · show (if p = ad then some v else S2.heap p) = _
    rw [if_neg (elem_addr_len (by omega)), List.length_set]
    exact hA.len
  · intro j x hj
    show (if _ = ad then some v else S2.heap _) = _
    by_cases hji : j = n.toInt.toNat
    · subst hji
      rw [if_pos rfl]
      rw [List.getElem?_set_self hlt] at hj
      exact hj
    · rw [List.getElem?_set_ne (Ne.symm hji)] at hj
      have := (List.getElem?_eq_some_iff.1 hj).1
      rw [if_neg (fun h => hji (elem_addr_inj (by omega) (by omega) h))]
      exact hA.elem _ _ hj
  · intro hn
    have hloc : Big P d (.loc ρ S0 (.index t a i) (.mem ad) S2) := by
      have := Big.locIndex (t := t) h1 h2 hA.len h0 (by rw [hA.toInt]; exact hl)
      rwa [elem_addr h0] at this
    have := sim X (Big.asgMem (dc := dc) hr hloc hw) fd g m _ hsk ht hv hok (Nat.le_refl _) hpre G pre q hp hq
      (fun _ => hn) (fun v h => by cases h)
    simpa [Stmt.head] using this

/-- Assigning with any other index calls the panic function; the heap is as it was after the right-hand side. -/
theorem C31_write_out (X : Ctx P I C lim top) {ρ : Env} {S S0 S1 S2 : Store σ} {t : TyR} {a i r : Expr}
    {p : Word} {n : BitVec 63} {xs : List Val} {v : Val} {dc : Bool}
    (hr : Big P d (.expr ρ S r (some v) S0)) (h1 : Big P d (.expr ρ S0 a (some (.ptr p)) S1))
    (h2 : Big P d (.expr ρ S1 i (some (.int n)) S2)) (hA : IsArray S2 p xs)
    (ho : n.toInt < 0 ∨ xs.length ≤ n.toInt) {fd : FnDef} {g : GS} {m : Mach σ} (ht : g.top = [])
    (hv : (Stmt.asg dc (.index t a i) r).vars ⊆ fd.syms) (hok : (Stmt.asg dc (.index t a i) r).ok = true)
    (hpre : Pre lim top fd ρ S g m ((Stmt.asg dc (.index t a i) r).use + d)) {pre : List Ev}
    (hp : pre ++ (genStmt fd.slot false (.asg dc (.index t a i) r) g).1 <+: C) :
    Run I (Calling I lim top P.ioob (Val.int n).enc (Val.int (BitVec.ofNat 63 xs.length)).enc S2) pre m := by
  rw [genStmt.eq_def] at hp
  simp only [Stmt.vars, Expr.vars, List.append_subset] at hv
  simp only [Stmt.ok, Expr.ok, Bool.and_eq_true] at hok
  simp only [Stmt.use, Expr.use] at hpre
  have hR := sim X hr fd g m hv.2 (by rw [ht]; exact hok.2) (hpre.less (by omega))
  let c1 := (genExpr fd.slot r false g).1
  let g1 := (genExpr fd.slot r false g).2.inc
  have key : Exe I C (c1 ++ [.ins (.push rax)]) m (fun m' =>
      Pre lim top fd ρ S0 g1 m' (max a.use (1 + i.use) + d)) := by
    refine hR.append ?_
    rintro m1 ⟨hp1, hx1⟩
    have hpre1 := hpre.kept hp1.kept hp1.rel
    refine Exe.push X.loaded ?_
    intro w
    refine Exe.nil ?_
    exact ((hpre1.less (u' := 1 + (max a.use (1 + i.use) + d)) (by omega)).push (r := .rax)
      (by simp) (by simp) w (m1.reg .rax)).spEq (by simp only [g1, GS.inc, genExpr_sp])
  have hg0 : g1.top = [] := (genExpr_top (g := g)).trans ht
  refine key _ pre ?_ ?_
  · refine List.IsPrefix.trans ?_ hp
    exact ⟨(genExpr fd.slot (.index t a i) true g1).1 ++ [.ins (.pop .rbx), .ins (.mov rbx (.mem { base := .rax }))],
      by simp only [c1, g1, List.append_assoc, List.cons_append, List.nil_append]⟩
  · intro m' hm'
    refine C31_read_out X h1 h2 hA ho (t := t) (b := true) ?_ ?_ hm' (pre := pre ++ (c1 ++ [.ins (.push rax)])) ?_
    · simp only [List.append_subset]; exact hv.1
    · rw [hg0, Bool.and_eq_true]; exact hok.1
    · refine List.IsPrefix.trans ?_ hp
      exact ⟨[.ins (.pop .rbx), .ins (.mov rbx (.mem { base := .rax }))],
        by simp only [c1, g1, List.append_assoc, List.cons_append, List.nil_append]⟩

/-! Example: `fn h(a: []int, i: int) int = a[i]` and `fn w(a: []int, i: int, x: int) { a[i] = x }`. -/

def tArr : TyR := { kind := .array }

def arrFns : List FnDef :=
  [{ name := "clara_h", params := [(0, tArr), (1, tInt)],
     body := .expr (.index tInt (.var 0 tArr) (.var 1 tInt)) },
   { name := "clara_w", params := [(0, tArr), (1, tInt), (2, tInt)], retNothing := true,
     body := .block (.cons (.asg false (.index tInt (.var 0 tArr) (.var 1 tInt)) (.var 2 tInt)) .nil) }]

abbrev arrImage (opt : Bool) : Image Word := bumpImage opt "alloc" "ioob" arrFns (fun _ => 0)

theorem arrCtx (opt : Bool) : Ctx (bumpProg opt "alloc" "ioob" arrFns (fun _ => 0) 65536)
    (arrImage opt) (genProg "alloc" "ioob" arrFns) 65536 (2 ^ 60) :=
  bump_ctx' _ (by decide) (by decide) (by decide) (by decide) (by decide) (by decide)

/-- An array with three elements at address 4096. -/
def arrStore : Store Word where
  heap a := if a = 4096 then some (.int 3) else if a = 4104 then some (.int 10)
    else if a = 4112 then some (.int 20) else if a = 4120 then some (.int 30) else none
  ext := 8192

theorem arrIs : IsArray arrStore 4096 [.int 10, .int 20, .int 30] := by
  refine ⟨rfl, ?_, by decide⟩
  intro i x hx
  match i, hx with
  | 0, hx => cases hx; rfl
  | 1, hx => cases hx; rfl
  | 2, hx => cases hx; rfl

theorem arrOk : ∀ a v, arrStore.heap a = some v → (a.toNat < 65536 ∨ 2 ^ 60 ≤ a.toNat) ∧ a.toNat % 8 = 0 := by
  intro a v h
  simp only [arrStore] at h
  split at h
  · subst_vars; decide
  split at h
  · subst_vars; decide
  split at h
  · subst_vars; decide
  split at h
  · subst_vars; decide
  · cases h

/-- `h(a, -1)` with an array of three elements. -/
example (opt : Bool) : ∃ p m, Reaches (arrImage opt)
    (Calling (arrImage opt) 65536 (2 ^ 60) "ioob" (Val.int (-1)).enc (Val.int 3).enc arrStore) (p, m) := by
  have X := arrCtx opt
  obtain ⟨p, q, m, hc⟩ := bump_called_heap (d := 0) X (List.mem_cons_self) [.ptr 4096, .int (-1)] (by decide)
    arrStore arrOk
  refine ⟨p, m, enter_expr X List.mem_cons_self rfl hc ?_⟩
  intro pre g m1 hp ht hok hv hpre
  exact C31_read_out X (.var rfl) (.var rfl) arrIs (.inl (by decide)) hv (by rw [ht]; exact hok) hpre hp

/-- `h(a, 2)` reads 30. -/
example (opt : Bool) : ∃ p m, Reaches (arrImage opt)
    (fun c => ∃ pre m', m'.reg .rax = (Val.int 30).enc ∧ At (arrImage opt) pre m' c) (p, m) := by
  have X := arrCtx opt
  obtain ⟨p, q, m, hc⟩ := bump_called_heap (d := 0) X (List.mem_cons_self) [.ptr 4096, .int 2] (by decide)
    arrStore arrOk
  refine ⟨p, m, enter_expr X List.mem_cons_self rfl hc ?_⟩
  intro pre g m1 hp ht hok hv hpre
  refine C31_read X (t := tInt) (.var rfl) (.var rfl) arrIs (by decide) (x := .int 30) (by decide) hv
    (by rw [ht]; exact hok) hpre _ pre hp ?_
  rintro m' ⟨h, -⟩ c hc
  exact .now ⟨_, m', h, hc⟩

/-- `w(a, 1, 7)` makes the array `[10, 7, 30]`. -/
example (opt : Bool) : ∃ p q m S, IsArray S 4096 [.int 10, .int 7, .int 30] ∧
    Reaches (arrImage opt) (Returned 65536 (2 ^ 60) m q none S) (p, m) := by
  have X := arrCtx opt
  have hmem : arrFns[1] ∈ arrFns := List.mem_cons_of_mem _ List.mem_cons_self
  obtain ⟨p, q, m, hc⟩ := bump_called_heap (d := 0) X hmem [.ptr 4096, .int 1, .int 7] (by decide)
    arrStore arrOk
  refine ⟨p, q, m, _, ?_, run_fn X hmem rfl (.fnEnd rfl rfl rfl (.cons (.asgMem (.var rfl)
    (.locIndex (.var rfl) (.var rfl) arrIs.len (by decide) (by decide)) rfl) .nil)) hc⟩
  refine ⟨rfl, ?_, by decide⟩
  intro i x hx
  match i, hx with
  | 0, hx => cases hx; rfl
  | 1, hx => cases hx; rfl
  | 2, hx => cases hx; rfl

/-- `w(a, 3, 7)` panics. -/
example (opt : Bool) : ∃ p m, Reaches (arrImage opt)
    (Calling (arrImage opt) 65536 (2 ^ 60) "ioob" (Val.int 3).enc (Val.int 3).enc arrStore) (p, m) := by
  have X := arrCtx opt
  have hmem : arrFns[1] ∈ arrFns := List.mem_cons_of_mem _ List.mem_cons_self
  obtain ⟨p, q, m, hc⟩ := bump_called_heap (d := 0) X hmem [.ptr 4096, .int 3, .int 7] (by decide)
    arrStore arrOk
  refine ⟨p, m, enter_stmt X hmem rfl rfl hc ?_⟩
  intro pre g m1 hp ht hok hv hpre _
  exact C31_write_out X (.var rfl) (.var rfl) (.var rfl) arrIs (.inr (by decide)) ht hv hok hpre hp

/-! ### C32 -/

/-- **C32.** For every expression, from every state in a frame of `g.sp` words: every path through the code keeps
the stack pointer at or below its start and every stack word above it unchanged, and a path to the end restores
the stack and frame pointers.  `Walk` lets conditional jumps go either way, and calls change anything
below the stack pointer.  No condition on the arguments of calls. -/
theorem C32_expr (slot : Nat → Nat) (e : Expr) (b : Bool) (g : GS)
    (hv : ∀ x ∈ e.vars, 1 ≤ slot x ∧ slot x ≤ g.sp) (hp : Ev.panic ∉ (genExpr slot e b g).1)
    {abs : Abs → Word} {m m' : Mach σ} {i : Nat}
    (hs : m.reg .rsp = m.reg .rbp - BitVec.ofInt 64 (8 * g.sp))
    (hroom : 8 * ((genExpr slot e b g).1.length + 1) ≤ (m.reg .rsp).toNat)
    (hw : Walk abs top (genExpr slot e b g).1 (0, m) (i, m')) :
    (∀ a : Word, (m.reg .rsp).toNat ≤ a.toNat → a.toNat < top → m'.mem a = m.mem a) ∧
    (m'.reg .rsp).toNat ≤ (m.reg .rsp).toNat ∧ m'.reg .rbp = m.reg .rbp ∧
    (i = (genExpr slot e b g).1.length → m'.reg .rsp = m.reg .rsp) := by
  have hb := balanced_expr slot e b g hv hp
  have ht := tame_expr slot e b g
  have h0 : AtDepth (m.reg .rbp) (depthAt g.sp (genExpr slot e b g).1 g.sp 0) m := by
    rw [hb.start]; exact ⟨hs, fun _ => rfl⟩
  have h1 := hb.walk hw h0
  have hi : i ≤ (genExpr slot e b g).1.length := hb.walk_le hw (Nat.zero_le _)
  refine ⟨fun a h2 h3 => (hb.stack ht hw (Nat.zero_le _) h0 hs hroom h2 h3).1, ?_, ?_, ?_⟩
  · exact hb.rsp_le ht hi h1 hs hroom
  · exact h1.2 (by have := hb.floor ht i hi; simp only; omega)
  · rintro rfl
    rw [h1.1, hb.stop, hs]

/-- Statements that end normally also restore the stack and frame pointers. -/
theorem C32_stmts (slot : Nat → Nat) (skip : Bool) (ss : Stmts) (g : GS)
    (hv : ∀ x ∈ ss.vars, 1 ≤ slot x ∧ slot x ≤ g.sp) (hp : Ev.panic ∉ (genStmts slot skip ss g).1)
    {abs : Abs → Word} {m m' : Mach σ} (hs : m.reg .rsp = m.reg .rbp - BitVec.ofInt 64 (8 * g.sp))
    (hw : Walk abs top (genStmts slot skip ss g).1 (0, m) ((genStmts slot skip ss g).1.length, m')) :
    m'.reg .rsp = m.reg .rsp ∧ m'.reg .rbp = m.reg .rbp := by
  have hb := balanced_stmts slot skip ss g hv hp
  have h1 := hb.walk (B := m.reg .rbp) hw (by rw [hb.start]; exact ⟨hs, fun _ => rfl⟩)
  rw [hb.stop] at h1
  exact ⟨h1.1.trans hs.symm, h1.2 (Int.natCast_nonneg _)⟩

/-- Runs of whole programs: an expression that has a value leaves the stack pointer, the frame pointer and all
stack words above the stack pointer as they were, in the optimised code too. -/
theorem C32_run (X : Ctx P I C lim top) {env : Env} {S S' : Store σ} {e : Expr} {v : Option Val}
    (h : Big P d (.expr env S e v S')) {fd : FnDef} {g : GS} {m : Mach σ} (hs : e.vars ⊆ fd.syms)
    (hok : e.ok g.top.length = true) (hpre : Pre lim top fd env S g m (e.use + d)) :
    Exe I C (genExpr fd.slot e false g).1 m (fun m' => m'.reg .rsp = m.reg .rsp ∧ m'.reg .rbp = m.reg .rbp ∧
      ∀ a : Word, (m.reg .rsp).toNat ≤ a.toNat → a.toNat < top → m'.mem a = m.mem a) := by
  intro G pre hp hk
  exact sim X h fd g m hs hok hpre G pre hp
    (fun m' hm => hk m' ⟨hm.1.kept.rsp, hm.1.kept.rbp, hm.1.kept.stk⟩)

/-- `f(1, x / 2)` with two variables in the frame: there is a path to the end of the code. -/
def exCall : Expr := .callFn "clara_f.int.int" { ret := tInt } [.int 1, .bin .div tInt (.var 0 tInt) (.int 2)]

def exMach (rsp rbp : Word) : Mach Unit :=
  { reg := fun r => match r with | .rsp => rsp | .rbp => rbp | _ => 0, mem := fun _ => 9, flags := none, ext := () }

example : Ev.panic ∉ (genExpr (fun _ => 1) exCall false { sp := 1 }).1 ∧
    (exMach 4088 4096).reg .rsp = (exMach 4088 4096).reg .rbp - BitVec.ofInt 64 (8 * (1 : Nat)) ∧
    8 * ((genExpr (fun _ => 1) exCall false { sp := 1 }).1.length + 1) ≤ ((exMach 4088 4096).reg .rsp).toNat := by
  decide

example : ∃ m' : Mach Unit, Walk (fun _ => 0) 8192 (genExpr (fun _ => 1) exCall false { sp := 1 }).1
    (0, exMach 4088 4096) ((genExpr (fun _ => 1) exCall false { sp := 1 }).1.length, m') := by
  have hs : ∀ {i : Nat} {m m' : Mach Unit} {x : Ins} {c : List Ev}, c[i]? = some (.ins x) → x.straight = true →
      exec (fun _ => 0) m x = some m' → (∃ y, Walk (fun _ => 0) 8192 c (i + 1, m') (c.length, y)) →
      ∃ y, Walk (fun _ => 0) 8192 c (i, m) (c.length, y) := fun h1 h2 h3 ⟨y, h⟩ => ⟨y, .straight h1 h2 h3 h⟩
  have hc : ∀ {i : Nat} {m : Mach Unit} {x : Ins} {c : List Ev}, c[i]? = some (.ins x) → x.isCall = true →
      (∃ y, Walk (fun _ => 0) 8192 c (i + 1, m) (c.length, y)) →
      ∃ y, Walk (fun _ => 0) 8192 c (i, m) (c.length, y) :=
    fun h1 h2 ⟨y, h⟩ => ⟨y, .call h1 h2 ⟨rfl, rfl, fun _ _ _ => rfl⟩ h⟩
  have hk : ∀ {i : Nat} {m : Mach Unit} {r : List Nat} {c : List Ev}, c[i]? = some (.data r) →
      (∃ y, Walk (fun _ => 0) 8192 c (i + 1, m) (c.length, y)) →
      ∃ y, Walk (fun _ => 0) 8192 c (i, m) (c.length, y) :=
    fun h1 ⟨y, h⟩ => ⟨y, .skip h1 (by intro x h; cases h) h⟩
  iterate 22 first | refine hs rfl rfl rfl ?_ | refine hc rfl rfl ?_ | refine hk rfl ?_
  exact ⟨_, .here⟩

/-! ### C33 -/

/-- **C33.** In every function, along every path of an activation from its `enter` instruction, the stack is
aligned at every call instruction; at the entry of the function the return address has just been pushed. -/
theorem C33_activation (alloc : String) (fd : FnDef) (lbl : Nat) (hp : Ev.panic ∉ (genFunc alloc fd lbl).1)
    {abs : Abs → Word} {m0 m m' : Mach σ} {i : Nat} {x : Ins} (h0 : (m0.reg .rsp).toNat % 16 = 8)
    (he : exec abs m0 (.enter (fd.frame * 8)) = some m) (hw : Walk abs top (fd.inner alloc lbl) (0, m) (i, m'))
    (hx : (fd.inner alloc lbl)[i]? = some (.ins x)) (hc : x.isCall = true) : (m'.reg .rsp).toNat % 16 = 0 := by
  have hb := balanced_func alloc fd lbl hp
  have hm : AtDepth (m0.reg .rsp - 8) fd.frame m := by
    simp only [exec, Option.some.injEq] at he
    subst he
    refine ⟨?_, fun _ => rfl⟩
    show m0.reg .rsp - 8 - BitVec.ofNat 64 (fd.frame * 8) = _
    rw [Nat.mul_comm]
    rfl
  have h1 := hb.walk hw (by rw [hb.start]; exact hm)
  have h2 := isCall_depth hc (hb.step _ _ hx)
  refine h1.aligned ?_ h2.2.2
  rw [BitVec.toNat_sub_of_le (by rw [BitVec.le_def]; show 8 ≤ _; omega)]
  show ((m0.reg .rsp).toNat - 8) % 16 = 0
  omega

/-- Paths of an execution on which `G` has not held before the last state. -/
inductive Runs (I : Image σ) (G : Cfg σ → Prop) : Cfg σ → Cfg σ → Prop
  | here {c} : Runs I G c c
  | step {c c' c''} : ¬ G c → Step I c c' → Runs I G c' c'' → Runs I G c c''

theorem Reaches.runs {G : Cfg σ → Prop} {c c' : Cfg σ} (h : Reaches I G c) (hr : Runs I G c c') :
    Reaches I G c' := by
  induction hr with
  | here => exact h
  | step hg hs _ ih =>
    cases h with
    | now h => exact absurd h hg
    | step _ h => exact ih (h _ hs)

/-- In the image of a program: from the call of a function that returns until it has returned, at every
call instruction, those of the functions it calls included, the stack is aligned. -/
theorem C33_run (X : Ctx P I C lim top) {fd : FnDef} (hfd : fd ∈ P.fns) (hs : fd.skip = false)
    {vs : List (Option Val)} {S S' : Store σ} {v : Option Val} (h : Big P d (.fn fd vs S v S')) {p q : Nat}
    {m : Mach σ} (hc : Called I lim top fd vs S d p q m) {k : Nat} {m' : Mach σ} {x : Ins}
    (hr : Runs I (Returned lim top m q v S') (p, m) (k, m')) (hn : ¬ Returned lim top m q v S' (k, m'))
    (hk : I.code[k]? = some (.ins x)) (hx : x.isCall = true) : (m'.reg .rsp).toNat % 16 = 0 := by
  cases Reaches.runs (run_fn X hfd hs h hc) hr with
  | now h => exact absurd h hn
  | step h _ =>
    obtain ⟨c, hc⟩ := h
    cases hc with
    | call _ h | callC _ h | callRt _ h | callReg _ h | callMem _ h => exact h
    | straight h1 h2 => rw [hk] at h1; cases h1; cases x <;> simp [Ins.isCall, Ins.straight] at hx h2
    | label h1 => rw [hk] at h1; cases h1
    | jmp h1 | taken h1 | fall h1 | jmpReg h1 | ret h1 => rw [hk] at h1; cases h1; simp [Ins.isCall] at hx

/-! ### C34 -/

/-- **C34.** If the source semantics (`Big`: evaluation of expressions, the effect of declarations,
assignments, `if` chains, `while` and `return` on variables and heap) says that a call of a function ends with a
result, then the generated code, called with the argument values, returns to its caller with that
result and that heap, with the stack as it was. -/
theorem C34_function (X : Ctx P I C lim top) {fd : FnDef} (hfd : fd ∈ P.fns) (hs : fd.skip = false)
    {vs : List (Option Val)} {S S' : Store σ} {v : Option Val} (h : Big P d (.fn fd vs S v S')) {p q : Nat}
    {m : Mach σ} (hc : Called I lim top fd vs S d p q m) : Reaches I (Returned lim top m q v S') (p, m) :=
  run_fn X hfd hs h hc

/-- Any statement list in its place: it ends at its end with the variables and the heap of the semantics, or it
returns from the function. -/
theorem C34_in_place (X : Ctx P I C lim top) {env env' : Env} {S S' : Store σ} {ss : Stmts} {o : Out}
    (h : Big P d (.stmts env S ss o env' S')) {fd : FnDef} {g : GS} {m : Mach σ} {u : Nat}
    (hs : fd.skip = false) (ht : g.top = []) (hv : ss.vars ⊆ fd.syms) (hok : ss.ok = true)
    (hu : ss.use + d ≤ u) (hpre : Pre lim top fd env S g m u) :
    ExeS I C lim top fd g u (genStmtsGo fd.slot false ss g).1 m o env' S' :=
  sim X h fd g m u hs ht hv hok hu hpre

/-! `g(1)` and `g(6)` of the program above. -/

def gFns : List FnDef := [{ name := "clara_g.int", params := [(0, tInt)], body := .block exG }]

theorem gCtx (opt : Bool) : Ctx (bumpProg opt "alloc" "ioob" gFns (fun _ => 0) 0)
    (bumpImage opt "alloc" "ioob" gFns (fun _ => 0)) (genProg "alloc" "ioob" gFns) 0 (2 ^ 60) :=
  bump_ctx' _ (by decide) (by decide) (by decide) (by decide) (by decide) (by decide)

local macro "iter%" t:term : term => `(.loopT (.bin (.var rfl) .int rfl)
  (.cons (.ifs (.chF (.bin (.var rfl) .int rfl) (.chElse (.cons (.asgVar (.bin (.var rfl) .int rfl) .locVar) .nil))))
    (.cons (.asgVar (.bin (.var rfl) .int rfl) .locVar) .nil)) $t)

theorem gBig (P : Prog σ) (S : Store σ) : ∃ v, Big P 0 (.fn gFns[0] [some (.int 6)] S v S) ∧ v = some (.int 1) :=
  ⟨_, .fnRet (fd := gFns[0]) (ss := exG) rfl rfl (.cons (.asgVar .int .locVar) (.cons
    (.loopT (.bin (.var rfl) .int rfl) (.cons (.ifs (.chT (.bin (.var rfl) .int rfl)
      (.cons (.asgVar (.bin (.var rfl) (.var rfl) rfl) .locVar) .nil)))
      (.cons (.asgVar (.bin (.var rfl) .int rfl) .locVar) .nil))
    (iter% (iter% (iter% (iter% (iter% (.loopF (.bin (.var rfl) .int rfl))))))))
    (.consR (.retE (.var rfl))))), by decide⟩

/-- `g(6) = 6 - 5`. -/
example (opt : Bool) : ∃ p q m, Reaches (bumpImage opt "alloc" "ioob" gFns (fun _ => 0))
    (Returned 0 (2 ^ 60) m q (some (.int 1)) ⟨fun _ => none, 0⟩) (p, m) := by
  have X := gCtx opt
  obtain ⟨p, q, m, hc⟩ := bump_called (d := 0) X (List.mem_cons_self) [.int 6] (by decide) 0
  obtain ⟨v, hv, rfl⟩ := gBig (bumpProg opt "alloc" "ioob" gFns (fun _ => 0) 0) ⟨fun _ => none, 0⟩
  exact ⟨p, q, m, C34_function X List.mem_cons_self rfl hv hc⟩

/-! ### C35 -/

/-- **C35.** (First-order programs.)  `I` is the image written through the optimiser and `I'` the image written
without it.  A call that ends according to the source semantics returns in both, with the same result and
the same heap.  Missing from the full claim: functions used as values (their addresses differ between the
images), and argument lists for which the generated code is wrong with and without the optimiser (C37). -/
theorem C35_same_result_partial {I' : Image σ} (X : Ctx P I C lim top)
    (X' : Ctx { P with fnAddr := I'.fnAddr } I' C lim top) (_ : I.opt = true) (_ : I'.opt = false)
    (hfo : ∀ fd ∈ P.fns, fd.body.fo = true) {fd : FnDef} (hfd : fd ∈ P.fns) (hs : fd.skip = false)
    {vs : List (Option Val)} {S S' : Store σ} {v : Option Val} (h : Big P d (.fn fd vs S v S')) {p q p' q' : Nat}
    {m m' : Mach σ} (hc : Called I lim top fd vs S d p q m) (hc' : Called I' lim top fd vs S d p' q' m') :
    Reaches I (Returned lim top m q v S') (p, m) ∧ Reaches I' (Returned lim top m' q' v S') (p', m') :=
  ⟨run_fn X hfd hs h hc, run_fn X' (fd := fd) hfd hs (h.readdr I'.fnAddr hfo (hfo fd hfd)) hc'⟩

example : ∃ p q m p' q' m',
    Reaches (bumpImage true "alloc" "ioob" gFns (fun _ => 0))
      (Returned 0 (2 ^ 60) m q (some (.int 1)) ⟨fun _ => none, 0⟩) (p, m) ∧
    Reaches (bumpImage false "alloc" "ioob" gFns (fun _ => 0))
      (Returned 0 (2 ^ 60) m' q' (some (.int 1)) ⟨fun _ => none, 0⟩) (p', m') := by
  obtain ⟨p, q, m, hc⟩ := bump_called (d := 0) (gCtx true) (List.mem_cons_self) [.int 6] (by decide) 0
  obtain ⟨p', q', m', hc'⟩ := bump_called (d := 0) (gCtx false) (List.mem_cons_self) [.int 6] (by decide) 0
  obtain ⟨v, hv, rfl⟩ := gBig (bumpProg true "alloc" "ioob" gFns (fun _ => 0) 0) ⟨fun _ => none, 0⟩
  exact ⟨p, q, m, p', q', m', C35_same_result_partial (gCtx true) (gCtx false) rfl rfl (by decide)
    List.mem_cons_self rfl hv hc hc'⟩

/-- The two images differ: the code of `fn h(x: int) int = k(x)` loads `x` into the argument register directly. -/
def hFns : List FnDef :=
  [{ name := "clara_h.int", params := [(0, tInt)], body := .expr (.callFn "clara_k.int" { ret := tInt } [.var 0 tInt]) },
   { name := "clara_k.int", params := [(0, tInt)], body := .expr (.var 0 tInt) }]

example : (bumpImage true "alloc" "ioob" hFns (fun _ => 0)).code.length + 1 =
    (bumpImage false "alloc" "ioob" hFns (fun _ => 0)).code.length := by decide +kernel

end Clara.Props
