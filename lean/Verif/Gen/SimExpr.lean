import Verif.Gen.Frame
/-
Correctness of the code for expressions, one lemma for each construct.
-/
namespace Clara.Gen
variable {σ : Type}

/-- After the evaluation of an expression with `k` argument registers in use. -/
structure Post (lim top : Nat) (k : Nat) (m m' : Mach σ) (S' : Store σ) : Prop where
  kept : Kept top m m'
  regs : ∀ i r, i < k → argRegs[i]? = some r → m'.reg r = m.reg r
  rel : Rel lim top S' m'

theorem argReg_ne {i : Nat} {r : Reg} (h : argRegs[i]? = some r) :
    r ≠ .rax ∧ r ≠ .rbx ∧ r ≠ .rsp ∧ r ≠ .rbp := by
  have := List.mem_of_getElem? h
  simp only [argRegs, List.mem_cons, List.not_mem_nil, or_false] at this
  rcases this with rfl | rfl | rfl | rfl | rfl | rfl <;> simp

theorem argReg_inj {i j : Nat} {r : Reg} (h : argRegs[i]? = some r) (h' : argRegs[j]? = some r) :
    i = j := by
  have hi : i < argRegs.length := (List.getElem?_eq_some_iff.mp h).1
  exact (List.getElem?_inj hi (by decide)).mp (h.trans h'.symm)

section
variable {P : Prog σ} {I : Image σ} {C : List Ev} {lim top : Nat}

theorem Post.mod {k : Nat} {rs : List Reg} {m m1 m2 : Mach σ} {S : Store σ}
    (h : Post lim top k m m1 S) (hm : Mod rs m1 m2) (h1 : .rsp ∉ rs) (h2 : .rbp ∉ rs)
    (h3 : ∀ i r, i < k → argRegs[i]? = some r → r ∉ rs) : Post lim top k m m2 S :=
  ⟨h.kept.trans (hm.kept h1 h2),
    fun i r hi hr => (hm.reg r (h3 i r hi hr)).trans (h.regs i r hi hr),
    h.rel.congr hm.mem hm.ext⟩

theorem Post.rax {k : Nat} {m m1 m2 : Mach σ} {S : Store σ}
    (h : Post lim top k m m1 S) (hm : Mod [.rax] m1 m2) : Post lim top k m m2 S :=
  h.mod hm (by simp) (by simp) (fun i r _ hr => by simp [(argReg_ne hr).1])

/-- A piece of code that only computes on `rax`. -/
def OnRax (I : Image σ) (C : List Ev) (t : List Ev) (f : Word → Word) : Prop :=
  ∀ (c : List Ev) (m : Mach σ) (Q : Mach σ → Prop),
    (∀ m', Mod [.rax] m m' → m'.reg .rax = f (m.reg .rax) → Exe I C c m' Q) → Exe I C (t ++ c) m Q

theorem OnRax.nil : OnRax I C ([] : List Ev) id := fun _ m _ h => h m (Mod.refl _ _) rfl

theorem OnRax.untag (X : Ctx P I C lim top) (t : TK) :
    OnRax I C (untagAs t .rax) (·.sshiftRight 1) :=
  fun _ _ _ h => Exe.untag X (fun _ m' h1 h2 => h m' h1 h2)

/-- Evaluation of two operands: the first is saved on the stack while the second is evaluated. -/
theorem exe_two (X : Ctx P I C lim top) {fd : FnDef} {ρ : Env} {S S1 S2 : Store σ} {g g2 : GS} {k u : Nat}
    {m : Mach σ} {A B : Word} {rd : Reg} {cl cr t1 t2 rest : List Ev} {f1 f2 : Word → Word}
    {Q : Mach σ → Prop}
    (hpre : Pre lim top fd ρ S g m (1 + u)) (hg2 : g2.sp = g.sp + 1)
    (hl : Exe I C cl m (fun m' => Post lim top k m m' S1 ∧ m'.reg .rax = A))
    (hr : ∀ m2, Pre lim top fd ρ S1 g2 m2 u →
      Exe I C cr m2 (fun m' => Post lim top k m2 m' S2 ∧ m'.reg .rax = B))
    (ht1 : OnRax I C t1 f1) (ht2 : OnRax I C t2 f2)
    (hrd : rd = .rbx ∨ rd = .rcx)
    (hrest : ∀ m', Kept top m m' → Rel lim top S2 m' → m'.reg .rax = f1 A → m'.reg rd = f2 B →
      (∀ i r, i < k → argRegs[i]? = some r → r ≠ rd → m'.reg r = m.reg r) → Exe I C rest m' Q) :
    Exe I C (cl ++ (t1 ++ (.ins (.push rax) :: (cr ++ (t2 ++ (.ins (.mov rax (.reg rd)) ::
      .ins (.pop .rax) :: rest)))))) m Q := by
  refine hl.append ?_
  rintro m1 ⟨hp1, ha⟩
  refine ht1 _ _ _ ?_
  intro m2 hm2 ha2
  have hp2 := hp1.rax hm2
  have hpre2 := hpre.kept hp2.kept hp2.rel
  refine Exe.push X.loaded ?_
  intro w
  have hpre3 := (hpre2.push (r := .rax) (by simp) (by simp) w (m2.reg .rax)).spEq (g' := g2)
    (by rw [hg2]; rfl)
  refine (hr _ hpre3).append ?_
  rintro m4 ⟨hp4, hb⟩
  refine ht2 _ _ _ ?_
  intro m5 hm5 hb5
  have hp5 := hp4.rax hm5
  have hb2 := hpre2.bud
  have hh2 := hpre2.hi
  have hs2 := hpre2.sp
  obtain ⟨q1, q2, q3, q4⟩ := hp5.kept.pushed (by simp) (by simp) (by omega) (by omega)
  refine Exe.mov X.loaded ?_
  intro w'
  refine Exe.ins X.loaded rfl ?_
  have hrd2 : rd ≠ .rsp ∧ rd ≠ .rbp ∧ rd ≠ .rax := by rcases hrd with rfl | rfl <;> simp
  have hr2 := hp2.kept.rsp
  apply hrest
  · refine ⟨?_, ?_, ?_⟩
    · simp [Mach.set, Mach.put, hrd2.1.symm, q1, hr2]
      exact sub8_add8 _
    · simp [Mach.set, Mach.put, hrd2.2.1.symm, q3, hp2.kept.rbp]
    · intro a h1 h2
      show m5.mem a = _
      rw [q4 a (by rw [hr2]; exact h1) h2, hp2.kept.stk a h1 h2]
  · exact hp5.rel.congr rfl rfl
  · simp only [Mach.set, Mach.put, if_true]
    simp only [hrd2.1.symm, if_false, reduceCtorEq]
    rw [q2, ha2, ha]
  · simp [Mach.set, Mach.put, hrd2.1, hrd2.2.2, hb5, hb]
  · intro i r hi hr hrd'
    obtain ⟨n1, n2, n3, n4⟩ := argReg_ne hr
    simp only [Mach.set, Mach.put, n1, n3, hrd', if_false]
    rw [hp5.regs i r hi hr]
    simp only [Mach.push, Mach.set, Mach.store, n1, n3, if_false]
    exact hp2.regs i r hi hr

/-! ### What is proved about each kind of judgement -/

/-- Words passed for arguments. -/
def argW (fi : FnInfo) (t : TK) (v : Val) : Word := if fi.ext then rawArg fi t v else v.enc

def argWs (fi : FnInfo) : List Expr → List (Option Val) → List (Option Word)
  | e :: es, v :: vs => v.map (argW fi e.ty.kind) :: argWs fi es vs
  | _, _ => []

theorem argWs_ext {fi : FnInfo} (h : fi.ext = true) (es : List Expr) (vs : List (Option Val)) :
    argWs fi es vs = extArgs fi es vs := by
  induction es generalizing vs with
  | nil => cases vs <;> rfl
  | cons e es ih =>
    cases vs with
    | nil => rfl
    | cons v vs =>
      simp only [argWs, extArgs, ih]
      congr 2
      funext x; simp [argW, h]

def LocIs (fd : FnDef) (m : Mach σ) (w : Word) : Loc → Prop
  | .var x => x ∈ fd.syms ∧ w = slotA m (fd.slot x)
  | .mem a => w = a

/-- State after a return from the frame of `m`. -/
structure Ret (lim top : Nat) (m m' : Mach σ) (v : Option Val) (S' : Store σ) : Prop where
  rsp : m'.reg .rsp = m.reg .rbp + 16
  rbp : m'.reg .rbp = m.mem (m.reg .rbp)
  stk : ∀ a : Word, (m.reg .rbp).toNat + 16 ≤ a.toNat → a.toNat < top → m'.mem a = m.mem a
  rel : Rel lim top S' m'
  rax : ∀ x, v = some x → m'.reg .rax = x.enc

/-- State after a statement of the body. -/
structure SPost (lim top : Nat) (fd : FnDef) (ρ' : Env) (S' : Store σ) (g : GS) (u : Nat)
    (m m' : Mach σ) : Prop where
  rbp : m'.reg .rbp = m.reg .rbp
  stk : ∀ a : Word, (m.reg .rbp).toNat ≤ a.toNat → a.toNat < top → m'.mem a = m.mem a
  pre : Pre lim top fd ρ' S' g m' u

/-- Execution of the code of a statement: it ends normally, or it returns. -/
def ExeS (I : Image σ) (C : List Ev) (lim top : Nat) (fd : FnDef) (g : GS) (u : Nat) (code : List Ev)
    (m : Mach σ) (o : Out) (ρ' : Env) (S' : Store σ) : Prop :=
  ∀ G pre q, pre ++ code <+: C →
    I.pos (m.mem (m.reg .rbp + 8) + 8) = some q →
    (o = .norm → ∀ m', SPost lim top fd ρ' S' g u m m' → Run I G (pre ++ code) m') →
    (∀ v, o = .ret v → ∀ m', Ret lim top m m' v S' → Reaches I G (q, m')) →
    Run I G pre m

/-- The part of the code of a statement before the point that its own code jumps to. -/
def Stmt.head (g : GS) : Stmt → List Ev
  | .loop _ _ => [.flush, .flush, .label (.loc "while_start" (g.lbl + 1))]
  | _ => []

/-- The simulation statement. -/
def Sim (P : Prog σ) (I : Image σ) (C : List Ev) (lim top : Nat) (d : Nat) : Jd σ → Prop
  | .expr ρ S e v S' => ∀ (fd : FnDef) (g : GS) (m : Mach σ),
      e.vars ⊆ fd.syms → e.ok g.top.length = true → Pre lim top fd ρ S g m (e.use + d) →
      Exe I C (genExpr fd.slot e false g).1 m (fun m' => Post lim top g.top.length m m' S' ∧
        ∀ x, v = some x → m'.reg .rax = x.enc)
  | .args ρ S es vs S' => vs.length = es.length ∧ ∀ (fd : FnDef) (fi : FnInfo) (g : GS) (m : Mach σ) (hd : List TyR)
      (tl : List (List TyR)), g.reg = hd :: tl →
      varsL es ⊆ fd.syms → okL hd.length es = true → Pre lim top fd ρ S g m (useL es + d) →
      Exe I C (genArgs fd.slot fi es hd.length g).1 m (fun m' => Post lim top hd.length m m' S' ∧
        ∀ (j : Nat) (r : Reg) (x : Word), (argWs fi es vs)[j]? = some (some x) → argRegs[hd.length + j]? = some r →
          m'.reg r = x)
  | .loc ρ S e l S' => ∀ (fd : FnDef) (g : GS) (m : Mach σ),
      e.vars ⊆ fd.syms → e.ok g.top.length = true → Pre lim top fd ρ S g m (e.use + d) →
      Exe I C (genExpr fd.slot e true g).1 m (fun m' => Post lim top g.top.length m m' S' ∧
        LocIs fd m' (m'.reg .rax) l)
  | .stmt ρ S s o ρ' S' => ∀ (fd : FnDef) (g : GS) (m : Mach σ) (u : Nat), fd.skip = false → g.top = [] →
      s.vars ⊆ fd.syms → s.ok = true → s.use + d ≤ u → Pre lim top fd ρ S g m u →
      ∀ G pre q, pre ++ (genStmt fd.slot false s g).1 <+: C →
        I.pos (m.mem (m.reg .rbp + 8) + 8) = some q →
        (o = .norm → ∀ m', SPost lim top fd ρ' S' g u m m' →
          Run I G (pre ++ (genStmt fd.slot false s g).1) m') →
        (∀ v, o = .ret v → ∀ m', Ret lim top m m' v S' → Reaches I G (q, m')) →
        Run I G (pre ++ s.head g) m
  | .stmts ρ S ss o ρ' S' => ∀ (fd : FnDef) (g : GS) (m : Mach σ) (u : Nat), fd.skip = false → g.top = [] →
      ss.vars ⊆ fd.syms → ss.ok = true → ss.use + d ≤ u → Pre lim top fd ρ S g m u →
      ExeS I C lim top fd g u (genStmtsGo fd.slot false ss g).1 m o ρ' S'
  | .chain ρ S c o ρ' S' => ∀ (fd : FnDef) (g : GS) (m : Mach σ) (u : Nat) (exit : Label),
      fd.skip = false → g.top = [] →
      c.vars ⊆ fd.syms → c.ok = true → c.use + d ≤ u → Pre lim top fd ρ S g m u →
      ∀ G pre q pre', pre ++ (genChain fd.slot false exit c g).1 <+: C →
        pre' ++ [.label exit] <+: C →
        I.pos (m.mem (m.reg .rbp + 8) + 8) = some q →
        (o = .norm → ∀ m', SPost lim top fd ρ' S' g u m m' →
          Run I G (pre ++ (genChain fd.slot false exit c g).1) m' ∧ Run I G (pre' ++ [.label exit]) m') →
        (∀ v, o = .ret v → ∀ m', Ret lim top m m' v S' → Reaches I G (q, m')) →
        Run I G pre m
  | .fn fd vs S v S' => ∀ (m : Mach σ) (p q : Nat) (G : Cfg σ → Prop), fd ∈ P.fns → fd.skip = false →
      I.find (.fn fd.name) = some p → I.pos (m.mem (m.reg .rsp) + 8) = some q →
      (m.reg .rsp).toNat % 16 = 8 → lim + 8 * (fd.cost + d) ≤ (m.reg .rsp).toNat + 8 →
      (m.reg .rsp).toNat + 8 ≤ top →
      (∀ (j : Nat) (r : Reg) (x : Val), vs[j]? = some (some x) → argRegs[j]? = some r → m.reg r = x.enc) →
      Rel lim top S m →
      (∀ m', m'.reg .rsp = m.reg .rsp + 8 → m'.reg .rbp = m.reg .rbp →
        (∀ a : Word, (m.reg .rsp).toNat + 8 ≤ a.toNat → a.toNat < top → m'.mem a = m.mem a) →
        Rel lim top S' m' → (∀ x, v = some x → m'.reg .rax = x.enc) → Reaches I G (q, m')) →
      Reaches I G (p, m)


/-! ### Leaves -/

variable {d : Nat} {ρ : Env} {S S1 S2 : Store σ}

theorem Post.refl {k : Nat} {m m' : Mach σ} (hr : Rel lim top S m) (hm : Mod [.rax] m m') :
    Post lim top k m m' S :=
  Post.rax ⟨Kept.refl m, fun _ _ _ _ => rfl, hr⟩ hm

theorem Exe.tag_end (X : Ctx P I C lim top) {t : TK} {r : Reg} {v : Mach σ} {Q : Mach σ → Prop}
    (h : t = .integer → ∀ v', Mod [r] v v' → v'.reg r = (Val.int ((v.reg r).setWidth 63)).enc → Q v') :
    Exe I C (tagAs t r) v Q := by
  rw [← List.append_nil (tagAs t r)]
  exact Exe.tag X (fun ht v' h1 h2 => Exe.nil (h ht v' h1 h2))

theorem mod_set (m : Mach σ) (r : Reg) (w : Word) : Mod [r] m (m.set r w) :=
  ⟨fun r' hr => by simp only [List.mem_singleton] at hr; simp [Mach.set, hr], rfl, rfl⟩

theorem mod_setF (m : Mach σ) (r : Reg) (w : Word) : Mod [r] m (m.set r w).noFlags :=
  ⟨fun r' hr => by simp only [List.mem_singleton] at hr; simp [Mach.set, Mach.noFlags, hr], rfl, rfl⟩

theorem set_reg_self (m : Mach σ) (r : Reg) (w : Word) : (m.set r w).reg r = w := by simp [Mach.set]

theorem sim_int (X : Ctx P I C lim top) (i : Int) :
    Sim P I C lim top d (.expr ρ S (.int i) (some (.int (BitVec.ofInt 63 i))) S) := by
  intro fd g m _ _ hpre
  simp only [genExpr]
  have key : ∀ m' : Mach σ, Mod [.rax] m m' → m'.reg .rax = BitVec.ofInt 64 i →
      Exe I C (tagAs .integer .rax) m' (fun m' => Post lim top g.top.length m m' S ∧
        ∀ x, some (Val.int (BitVec.ofInt 63 i)) = some x → m'.reg .rax = x.enc) := by
    intro m' hm hx
    refine Exe.tag_end X ?_
    intro _ m2 h1 h2
    refine ⟨Post.refl hpre.rel (hm.trans h1), ?_⟩
    rintro x ⟨⟩
    rw [h2, hx, ← tag_word, lit_word]
  split
  · exact Exe.ins X.loaded rfl (key _ (mod_set _ _ _) (set_reg_self _ _ _))
  · exact Exe.ins X.loaded rfl (key _ (mod_set _ _ _) (set_reg_self _ _ _))

theorem sim_bool (X : Ctx P I C lim top) (b : Bool) :
    Sim P I C lim top d (.expr ρ S (.bool b) (some (.bool b)) S) := by
  intro fd g m _ _ hpre
  simp only [genExpr]
  refine Exe.ins X.loaded rfl (Exe.nil ⟨Post.refl hpre.rel (mod_set _ _ _), ?_⟩)
  rintro x ⟨⟩
  refine (set_reg_self _ _ _).trans ?_
  cases b <;> rfl

theorem sim_str (X : Ctx P I C lim top) (s : String) :
    Sim P I C lim top d (.expr ρ S (.str s) (some (.ptr (P.str s))) S) := by
  intro fd g m _ _ hpre
  simp only [genExpr]
  refine Exe.flush X.loaded (Exe.ins X.loaded rfl (Exe.nil ⟨Post.refl hpre.rel (mod_set _ _ _), ?_⟩))
  rintro x ⟨⟩
  exact (set_reg_self _ _ _).trans (X.str s)

theorem sim_typ (t : TyR) : Sim P I C lim top d (.expr ρ S (.typ t) none S) := by
  intro fd g m _ _ hpre
  simp only [genExpr]
  exact Exe.nil ⟨Post.refl hpre.rel (Mod.refl _ _), by simp⟩

theorem sim_fnRef (X : Ctx P I C lim top) (f : String) (t : TyR) :
    Sim P I C lim top d (.expr ρ S (.fnRef f false t) (some (.ptr (P.fnAddr f))) S) := by
  intro fd g m _ _ hpre
  simp only [genExpr]
  refine Exe.ins X.loaded rfl (Exe.nil ⟨Post.refl hpre.rel (mod_set _ _ _), ?_⟩)
  rintro x ⟨⟩
  exact (set_reg_self _ _ _).trans (X.addr f)

theorem Exe.slotIns (X : Ctx P I C lim top) {s : Nat} {i : Ins} {c : List Ev} {v : Mach σ}
    {Q : Mach σ → Prop} (h : Exe I C (.ins i :: c) v Q) : Exe I C (slotIns s i :: c) v Q := by
  unfold Clara.Gen.slotIns
  split
  · exact h
  · exact Exe.panic X.nopanic (by simp)

theorem sim_var (X : Ctx P I C lim top) {x : Nat} {t : TyR} {v : Val} (h : ρ x = some v) :
    Sim P I C lim top d (.expr ρ S (.var x t) (some v) S) := by
  intro fd g m _ _ hpre
  simp only [genExpr]
  refine Exe.slotIns X ?_
  refine Exe.ins X.loaded rfl (Exe.nil ⟨Post.refl hpre.rel (mod_set _ _ _), ?_⟩)
  rintro w ⟨⟩
  refine (set_reg_self _ _ _).trans ?_
  simp only [Mach.get, ea_slot]
  exact (hpre.env x v h).2

theorem sim_locVar (X : Ctx P I C lim top) {x : Nat} {t : TyR} :
    Sim P I C lim top d (.loc ρ S (.var x t) (.var x) S) := by
  intro fd g m hv _ hpre
  simp only [genExpr]
  refine Exe.slotIns X ?_
  refine Exe.ins X.loaded rfl (Exe.nil ⟨Post.refl hpre.rel (mod_set _ _ _), ?_, ?_⟩)
  · exact hv (by simp [Expr.vars])
  · refine (set_reg_self _ _ _).trans ?_
    rw [ea_slot]; rfl

/-! ### Operators -/

theorem Post.two {k : Nat} {m m' : Mach σ} {rd : Reg} (hk : Kept top m m') (hr : Rel lim top S m')
    (hregs : ∀ i r, i < k → argRegs[i]? = some r → r ≠ rd → m'.reg r = m.reg r)
    (hne : ∀ i r, i < k → argRegs[i]? = some r → r ≠ rd) : Post lim top k m m' S :=
  ⟨hk, fun i r hi h => hregs i r hi h (hne i r hi h), hr⟩

theorem ne_rbx {k : Nat} : ∀ i r, i < k → argRegs[i]? = some r → r ≠ Reg.rbx :=
  fun _ _ _ h => (argReg_ne h).2.1

theorem ne_rcx {k : Nat} (hk : k ≤ 3) : ∀ i r, i < k → argRegs[i]? = some r → r ≠ Reg.rcx := by
  rintro i r hi h rfl
  have := argReg_inj h (j := 3) rfl
  omega

theorem ne_rdx {k : Nat} (hk : k ≤ 2) : ∀ i r, i < k → argRegs[i]? = some r → r ≠ Reg.rdx := by
  rintro i r hi h rfl
  have := argReg_inj h (j := 2) rfl
  omega

theorem top_of_same {g g' : GS} (h : Same g g') : g'.top = g.top := by
  simp only [GS.top, h.2]

theorem genExpr_top {slot : Nat → Nat} {e : Expr} {b : Bool} {g : GS} :
    (genExpr slot e b g).2.top = g.top := top_of_same (genExpr_state slot e b g)

theorem genExpr_sp {slot : Nat → Nat} {e : Expr} {b : Bool} {g : GS} :
    (genExpr slot e b g).2.sp = g.sp := (genExpr_state slot e b g).1

theorem eval_some {v : Val} {m' : Mach σ} (h : m'.reg .rax = v.enc) :
    ∀ x, some v = some x → m'.reg .rax = x.enc := by
  rintro x ⟨⟩; exact h

theorem sim_bin (X : Ctx P I C lim top) {o : BinOp} {t : TyR} {l r : Expr} {a b c : Val}
    (h1 : Sim P I C lim top d (.expr ρ S l (some a) S1))
    (h2 : Sim P I C lim top d (.expr ρ S1 r (some b) S2)) (he : o.eval a b = some c) :
    Sim P I C lim top d (.expr ρ S (.bin o t l r) (some c) S2) := by
  intro fd g m hv hok hpre
  simp only [Expr.vars, List.append_subset] at hv
  simp only [Expr.ok, Bool.and_eq_true] at hok
  simp only [Expr.use] at hpre
  have hl := h1 fd g m hv.1 hok.1.1 (hpre.less (by omega))
  have hr : ∀ m2, Pre lim top fd ρ S1 (genExpr fd.slot l false g).2.inc m2 (r.use + d) →
      Exe I C (genExpr fd.slot r false (genExpr fd.slot l false g).2.inc).1 m2
        (fun m' => Post lim top g.top.length m2 m' S2 ∧ m'.reg .rax = b.enc) := by
    intro m2 hp2
    have ht : (genExpr fd.slot l false g).2.inc.top = g.top := genExpr_top
    have := h2 fd _ m2 hv.2 (by rw [ht]; exact hok.1.2) hp2
    rw [ht] at this
    exact this.mono (fun m' hm' => ⟨hm'.1, hm'.2 _ rfl⟩)
  have hl' := hl.mono (fun m' hm' => And.intro hm'.1 (hm'.2 _ rfl))
  have hpre' : Pre lim top fd ρ S g m (1 + (r.use + d)) := hpre.less (by omega)
  have hg : (genExpr fd.slot l false g).2.inc.sp = g.sp + 1 := by
    simp only [GS.inc, genExpr_sp]
  have hint : ∀ (al : Alu) (t : TK) {x y z : BitVec 63}, a = .int x → b = .int y → c = .int z →
      (al.eval (x.signExtend 64) (y.signExtend 64)).setWidth 63 = z →
      Exe I C ((genExpr fd.slot l false g).1 ++ (untagAs l.ty.kind .rax ++ (.ins (.push rax) ::
        ((genExpr fd.slot r false (genExpr fd.slot l false g).2.inc).1 ++ (untagAs r.ty.kind .rax ++
        (.ins (.mov rax rbx) :: .ins (.pop .rax) :: .ins (.alu al rbx .rax) :: tagAs t .rax)))))) m
        (fun m' => Post lim top g.top.length m m' S2 ∧ ∀ x, some c = some x → m'.reg .rax = x.enc) := by
    intro al t x y z ha hb hc hw
    subst ha hb hc
    refine exe_two X hpre' hg hl' hr (OnRax.untag X _) (OnRax.untag X _) (Or.inl rfl) ?_
    intro m5 k1 k2 k3 k4 k5
    refine Exe.ins X.loaded rfl (Exe.tag_end X ?_)
    intro _ m6 hm6 hx6
    refine ⟨((Post.two k1 k2 k5 ne_rbx).rax (mod_setF _ _ _)).rax hm6, eval_some ?_⟩
    rw [hx6, ← hw]
    simp only [Mach.noFlags, set_reg_self, Mach.get, rbx, k3, k4, untag_word]
  have hcmp : ∀ {x y : BitVec 63} {z : Bool}, a = .int x → b = .int y → c = .bool z →
      Exe I C ((genExpr fd.slot l false g).1 ++ (untagAs l.ty.kind .rax ++ (.ins (.push rax) ::
        ((genExpr fd.slot r false (genExpr fd.slot l false g).2.inc).1 ++ (untagAs r.ty.kind .rax ++
        [.ins (.mov rax rbx), .ins (.pop .rax), .ins (.cmp rbx .rax), .ins (.set o.cond),
         .ins (.alu .and (.imm 1) .rax)]))))) m
        (fun m' => Post lim top g.top.length m m' S2 ∧ ∀ x, some c = some x → m'.reg .rax = x.enc) := by
    intro x y z ha hb hc
    subst ha hb hc
    refine exe_two X hpre' hg hl' hr (OnRax.untag X _) (OnRax.untag X _) (Or.inl rfl) ?_
    intro m5 k1 k2 k3 k4 k5
    refine Exe.ins X.loaded rfl (Exe.ins X.loaded rfl (Exe.ins X.loaded rfl (Exe.nil ?_)))
    refine ⟨(Post.two k1 k2 k5 ne_rbx).rax ⟨?_, rfl, rfl⟩, eval_some ?_⟩
    · intro r' hr'
      simp only [List.mem_singleton] at hr'
      simp [Mach.set, Mach.noFlags, hr']
    · simp only [Mach.noFlags, set_reg_self, Mach.get, rbx, k3, k4, untag_word, cond_word he, Alu.eval]
      exact set_word _ _
  have hbool : ∀ {x y z : Bool}, a = .bool x → b = .bool y → c = .bool z →
      o.alu.eval (Val.bool x).enc (Val.bool y).enc = (Val.bool z).enc →
      Exe I C ((genExpr fd.slot l false g).1 ++ (.ins (.push rax) ::
        ((genExpr fd.slot r false (genExpr fd.slot l false g).2.inc).1 ++
        [.ins (.mov rax rbx), .ins (.pop .rax), .ins (.alu o.alu rbx .rax)]))) m
        (fun m' => Post lim top g.top.length m m' S2 ∧ ∀ x, some c = some x → m'.reg .rax = x.enc) := by
    intro x y z ha hb hc hw
    subst ha hb hc
    refine exe_two X hpre' hg hl' hr OnRax.nil OnRax.nil (Or.inl rfl) ?_
    intro m5 k1 k2 k3 k4 k5
    refine Exe.ins X.loaded rfl (Exe.nil ?_)
    refine ⟨(Post.two k1 k2 k5 ne_rbx).rax (mod_setF _ _ _), eval_some ?_⟩
    simp only [Mach.noFlags, set_reg_self, Mach.get, rbx, k3, k4, id]
    exact hw
  have hshift : ∀ (left : Bool) {x y : BitVec 63}, g.top.length ≤ 3 → a = .int x → b = .int y →
      c = .int (if left then x <<< (y.toNat % 64) else x.sshiftRight (y.toNat % 64)) →
      Exe I C ((genExpr fd.slot l false g).1 ++ (untagAs l.ty.kind .rax ++ (.ins (.push rax) ::
        ((genExpr fd.slot r false (genExpr fd.slot l false g).2.inc).1 ++ (untagAs r.ty.kind .rax ++
        (.ins (.mov rax (.reg .rcx)) :: .ins (.pop .rax) ::
         .ins (if left then .shl .cl .rax else .sar .cl .rax) :: tagAs t.kind .rax)))))) m
        (fun m' => Post lim top g.top.length m m' S2 ∧ ∀ x, some c = some x → m'.reg .rax = x.enc) := by
    intro left x y hk ha hb hc
    subst ha hb hc
    refine exe_two X hpre' hg hl' hr (OnRax.untag X _) (OnRax.untag X _) (Or.inr rfl) ?_
    intro m5 k1 k2 k3 k4 k5
    have hcnt : (m5.reg .rcx).toNat % 64 = y.toNat % 64 := by rw [k4, untag_word, count_word]
    cases left with
    | true =>
      refine Exe.ins X.loaded rfl (Exe.tag_end X ?_)
      intro _ m6 hm6 hx6
      refine ⟨((Post.two k1 k2 k5 (ne_rcx hk)).rax (mod_setF _ _ _)).rax hm6, eval_some ?_⟩
      rw [hx6]
      simp only [Mach.noFlags, set_reg_self, Cnt.val, hcnt, k3, untag_word, shl_word, if_true]
    | false =>
      refine Exe.ins X.loaded rfl (Exe.tag_end X ?_)
      intro _ m6 hm6 hx6
      refine ⟨((Post.two k1 k2 k5 (ne_rcx hk)).rax (mod_setF _ _ _)).rax hm6, eval_some ?_⟩
      rw [hx6]
      simp only [Mach.noFlags, set_reg_self, Cnt.val, hcnt, k3, untag_word, sar_word,
        Bool.false_eq_true, if_false]
  cases o with
  | add =>
    cases a <;> cases b <;> simp [BinOp.eval] at he
    simp only [genExpr]
    exact hint .add _ rfl rfl he.symm (add_word _ _)
  | sub =>
    cases a <;> cases b <;> simp [BinOp.eval] at he
    simp only [genExpr]
    exact hint .sub _ rfl rfl he.symm (sub_word _ _)
  | mul =>
    cases a <;> cases b <;> simp [BinOp.eval] at he
    simp only [genExpr]
    exact hint .imul _ rfl rfl he.symm (mul_word _ _)
  | bor =>
    cases a <;> cases b <;> simp [BinOp.eval] at he
    simp only [genExpr]
    exact hint .or _ rfl rfl he.symm (or_word _ _)
  | band =>
    cases a <;> cases b <;> simp [BinOp.eval] at he
    simp only [genExpr]
    exact hint .and _ rfl rfl he.symm (and_word _ _)
  | bxor =>
    cases a <;> cases b <;> simp [BinOp.eval] at he
    simp only [genExpr]
    exact hint .xor _ rfl rfl he.symm (xor_word _ _)
  | gt | ge | lt | le | eq =>
    cases a <;> cases b <;> simp only [BinOp.eval, reduceCtorEq] at he
    simp only [genExpr]
    exact hcmp rfl rfl (Option.some.inj he).symm
  | or =>
    cases a <;> cases b <;> simp [BinOp.eval] at he
    simp only [genExpr]
    exact hbool rfl rfl he.symm (or_bool _ _)
  | and =>
    cases a <;> cases b <;> simp [BinOp.eval] at he
    simp only [genExpr]
    exact hbool rfl rfl he.symm (and_bool _ _)
  | bleft =>
    cases a <;> cases b <;> simp [BinOp.eval] at he
    simp only [genExpr]
    exact hshift true (by simpa using hok.2) rfl rfl he.symm
  | bright =>
    cases a <;> cases b <;> simp [BinOp.eval] at he
    simp only [genExpr]
    exact hshift false (by simpa using hok.2) rfl rfl he.symm
  | div =>
    cases a with
    | bool _ => simp [BinOp.eval] at he
    | ptr _ => simp [BinOp.eval] at he
    | int x =>
    cases b with
    | bool _ => simp [BinOp.eval] at he
    | ptr _ => simp [BinOp.eval] at he
    | int y =>
    simp only [BinOp.eval] at he
    split at he
    · simp at he
    rename_i hy
    have he' := (Option.some.inj he).symm
    subst he'
    simp only [genExpr]
    have hk : g.top.length ≤ 2 := by simpa using hok.2
    refine exe_two X hpre' hg hl' hr (OnRax.untag X _) (OnRax.untag X _) (Or.inl rfl) ?_
    intro m5 k1 k2 k3 k4 k5
    rw [untag_word] at k3 k4
    refine Exe.ins X.loaded rfl ?_
    refine Exe.ins X.loaded (v' := ?_) ?_ (Exe.tag_end X ?_)
    rotate_left 1
    · simp only [exec]
      rw [if_pos]
      refine ⟨?_, ?_, ?_⟩
      · simp [Mach.set]
      · simp only [Mach.set, reduceCtorEq, if_false]
        rw [k4]; exact sext_ne_zero hy
      · rintro ⟨h, -⟩
        simp only [Mach.set, reduceCtorEq, if_false] at h
        rw [k3] at h
        exact sext_ne_intMin _ h
    · intro _ m6 hm6 hx6
      have hP := Post.two (lim := lim) k1 k2 k5 ne_rbx
      refine ⟨hP.mod (rs := [.rax, .rdx]) ⟨?_, hm6.mem, hm6.ext⟩ (by simp) (by simp) ?_, eval_some ?_⟩
      · intro r' hr'
        simp only [List.mem_cons, List.not_mem_nil, or_false, not_or] at hr'
        rw [hm6.reg r' (by simp [hr'])]
        simp [Mach.set, Mach.noFlags, hr']
      · intro i r' hi hr'
        simp [(argReg_ne hr').1, ne_rdx hk i r' hi hr']
      · rw [hx6]
        simp only [Mach.set, Mach.noFlags, reduceCtorEq, if_false, if_true]
        rw [k3, k4, div_word]

end
end Clara.Gen
