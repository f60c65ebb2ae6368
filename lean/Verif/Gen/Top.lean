import Verif.Gen.SimAll
/-
The simulation theorem for whole calls, and a way to build images: a runtime whose allocator hands out
consecutive addresses.  The latter is used to show that the hypotheses of the theorems can be met.
-/
namespace Clara.Gen
variable {σ : Type}

/-! ### Calls of functions -/

/-- The machine is at the first instruction of `fd`, called with the arguments `vs` from a place where
execution continues at `q`; there is stack for the function and for `d` more words. -/
structure Called (I : Image σ) (lim top : Nat) (fd : FnDef) (vs : List (Option Val)) (S : Store σ)
    (d p q : Nat) (m : Mach σ) : Prop where
  entry : I.find (.fn fd.name) = some p
  back : I.pos (m.mem (m.reg .rsp) + 8) = some q
  align : (m.reg .rsp).toNat % 16 = 8
  stack : lim + 8 * (fd.cost + d) ≤ (m.reg .rsp).toNat + 8
  below : (m.reg .rsp).toNat + 8 ≤ top
  args : ∀ (j : Nat) (r : Reg) (x : Val), vs[j]? = some (some x) → argRegs[j]? = some r →
    m.reg r = x.enc
  rel : Rel lim top S m

/-- The call that started in `m` has returned to `q` with result `v` and store `S'`. -/
structure Returned (lim top : Nat) (m : Mach σ) (q : Nat) (v : Option Val) (S' : Store σ) (c : Cfg σ) :
    Prop where
  pc : c.1 = q
  rsp : c.2.reg .rsp = m.reg .rsp + 8
  rbp : c.2.reg .rbp = m.reg .rbp
  stk : ∀ a : Word, (m.reg .rsp).toNat + 8 ≤ a.toNat → a.toNat < top → c.2.mem a = m.mem a
  rel : Rel lim top S' c.2
  rax : ∀ x, v = some x → c.2.reg .rax = x.enc

theorem run_fn {P : Prog σ} {I : Image σ} {C : List Ev} {lim top d : Nat} (X : Ctx P I C lim top)
    {fd : FnDef} (hfd : fd ∈ P.fns) (hs : fd.skip = false) {vs : List (Option Val)} {S S' : Store σ}
    {v : Option Val} (h : Big P d (.fn fd vs S v S')) {p q : Nat} {m : Mach σ}
    (hc : Called I lim top fd vs S d p q m) :
    Reaches I (Returned lim top m q v S') (p, m) := by
  refine sim X h m p q _ hfd hs hc.entry hc.back hc.align hc.stack hc.below hc.args hc.rel ?_
  intro m' h1 h2 h3 h4 h5
  exact Reaches.now ⟨rfl, h1, h2, h3, h4, h5⟩

/-- The body of a function whose body is an expression starts in a state that satisfies `Pre`. -/
theorem enter_expr {P : Prog σ} {I : Image σ} {C : List Ev} {lim top d : Nat} (X : Ctx P I C lim top)
    {fd : FnDef} (hfd : fd ∈ P.fns) {e : Expr} (hb : fd.body = .expr e) {vs : List (Option Val)} {S : Store σ}
    {p q : Nat} {m : Mach σ} (hc : Called I lim top fd vs S d p q m) {G : Cfg σ → Prop}
    (hk : ∀ pre g m1, pre ++ (genExpr fd.slot e false g).1 <+: C → g.top = [] → e.ok 0 = true →
      e.vars ⊆ fd.syms → Pre lim top fd (bindParams fd.params vs) S g m1 (e.use + d) → Run I G pre m1) :
    Reaches I G (p, m) := by
  refine fn_enter X hfd hc.entry hc.back hc.align hc.stack hc.below hc.args hc.rel ?_
  intro pre l m1 hp h6 hpre hval hlen hra hret
  simp only [hb] at hp
  rw [hb] at hpre
  have hok := (X.ok fd hfd).1
  rw [hb] at hok
  refine hk pre _ m1 ?_ rfl hok (vars_expr hb) hpre
  refine List.IsPrefix.trans ?_ hp
  rw [genReturn]
  exact ⟨_, List.append_assoc _ _ _⟩

/-- The same for a body that starts with a statement. -/
theorem enter_stmt {P : Prog σ} {I : Image σ} {C : List Ev} {lim top d : Nat} (X : Ctx P I C lim top)
    {fd : FnDef} (hfd : fd ∈ P.fns) (hs : fd.skip = false) {s : Stmt} {ss : Stmts}
    (hb : fd.body = .block (.cons s ss)) {vs : List (Option Val)} {S : Store σ}
    {p q : Nat} {m : Mach σ} (hc : Called I lim top fd vs S d p q m) {G : Cfg σ → Prop}
    (hk : ∀ pre g m1, pre ++ (genStmt fd.slot false s g).1 <+: C → g.top = [] → s.ok = true →
      s.vars ⊆ fd.syms → Pre lim top fd (bindParams fd.params vs) S g m1 (s.use + d) →
      I.pos (m1.mem (m1.reg .rbp + 8) + 8) = some q → Run I G pre m1) :
    Reaches I G (p, m) := by
  refine fn_enter X hfd hc.entry hc.back hc.align hc.stack hc.below hc.args hc.rel ?_
  intro pre l m1 hp h6 hpre hval hlen hra hret
  simp only [hb] at hp
  rw [hb] at hpre
  have hok := (X.ok fd hfd).1
  rw [hb] at hok
  simp only [Body.ok, Stmts.ok, Bool.and_eq_true] at hok
  have hv := vars_block hb
  simp only [Stmts.vars, List.append_subset] at hv
  refine hk pre { lbl := l, sp := fd.frame, gc := (genParams fd.params 0 {}).2.openScope } m1 ?_ rfl hok.1 hv.1 ?_ hra
  · refine List.IsPrefix.trans ?_ hp
    rw [genStmts, hs]
    simp only [genStmtsGo]
    exact ⟨_, by simp only [List.append_assoc]; rfl⟩
  · refine (hpre.less (u' := s.use + d) ?_).spEq rfl
    simp only [Body.use, Stmts.use]; omega

/-! ### The code without the optimiser -/

theorem st_false (c : List Ev) (h : Ev.panic ∉ c) (s : PS) :
    (c.foldl (PS.feed false) s).write.out = s.write.out ++ plain c := by
  induction c generalizing s with
  | nil => simp [plain]
  | cons e c ih =>
    simp only [List.mem_cons, not_or] at h
    rw [List.foldl_cons, ih h.2]
    have hm : ∀ (p i : Ins), merge false p i = none := by
      intro p i
      cases p with
      | mov x y =>
        cases y <;> cases i <;> try rfl
        · rename_i r a b; cases a <;> simp [merge]
        · rename_i r a; cases a <;> simp [merge]
      | _ => rfl
    cases e with
    | ins i =>
      have hb : s.pend.bind (merge false · i) = none := by
        cases s.pend with
        | none => rfl
        | some p => exact hm p i
      simp only [PS.feed, hb]
      simp [PS.write, plain]
    | label l =>
      simp only [PS.feed, plain]
      rw [PS.write_out (s := { s.write with out := _ })]
      rcases s with ⟨u, _ | p⟩ <;> simp [PS.write]
    | data r =>
      simp only [PS.feed, plain]
      rw [PS.write_out (s := { s.write with out := _ })]
      rcases s with ⟨u, _ | p⟩ <;> simp [PS.write]
    | flush => simp [PS.feed, plain, PS.write_write]
    | panic => exact absurd rfl h.1

theorem peepWith_false (c : List Ev) (h : Ev.panic ∉ c) : peepWith false c = plain c := by
  rw [peepWith, st_false c h]; rfl

/-! ### A runtime with a bump allocator -/

/-- Cells `[a, a + 8 n)`. -/
def InBlock (a : Word) (n : Nat) (b : Word) : Prop :=
  a.toNat ≤ b.toNat ∧ b.toNat < a.toNat + 8 * n ∧ b.toNat % 8 = 0

instance (a : Word) (n : Nat) (b : Word) : Decidable (InBlock a n b) := by
  unfold InBlock; infer_instance

/-- The world is the address of the next free word. -/
def bumpRt (alloc : String) (lim : Nat) (f : String) (vs : List (Option Val)) (S : Store Word)
    (v : Option Val) (S' : Store Word) : Prop :=
  f = alloc ∧ ∃ (n : Nat) (rest : List (Option Val)),
    vs = some (.int (BitVec.ofNat 63 (8 * n))) :: rest ∧ n < 2 ^ 50 ∧
    S.ext.toNat % 8 = 0 ∧ S.ext.toNat + 8 * n ≤ lim ∧ v = some (.ptr S.ext) ∧
    S' = { heap := fun a => if InBlock S.ext n a then some (.bool false) else S.heap a,
           ext := S.ext + BitVec.ofNat 64 (8 * n) }

def bumpCode (alloc : String) (f : String) (m m' : Mach Word) : Prop :=
  f = alloc ∧ m' = { m.set .rax m.ext with
    mem := fun a => if InBlock m.ext ((m.reg .rdi).toNat / 16) a then 0 else m.mem a,
    ext := m.ext + BitVec.ofNat 64 (8 * ((m.reg .rdi).toNat / 16)) }

/-- Instructions take four bytes each; string literals have arbitrary addresses. -/
def bumpImage (opt : Bool) (alloc ioob : String) (fns : List FnDef) (str : String → Word) : Image Word where
  code := peepWith opt (genProg alloc ioob fns)
  opt := opt
  base := 4096
  isize := fun _ => 4
  str := str
  cfun := fun _ _ _ => False
  rt := bumpCode alloc

def bumpProg (opt : Bool) (alloc ioob : String) (fns : List FnDef) (str : String → Word) (lim : Nat) :
    Prog Word where
  fns := fns
  alloc := alloc
  ioob := ioob
  str := str
  fnAddr := (bumpImage opt alloc ioob fns str).fnAddr
  ext := fun _ _ _ _ _ => False
  rt := bumpRt alloc lim
  extNeed := fun _ => 0

theorem bump_size (opt : Bool) (alloc ioob : String) (fns : List FnDef) (str : String → Word) (p : Nat) :
    (bumpImage opt alloc ioob fns str).offset p ≤ 8 * p := by
  rw [Image.offset]
  have : ∀ l : List Item, (l.map (bumpImage opt alloc ioob fns str).size).sum ≤ 8 * l.length := by
    intro l
    induction l with
    | nil => simp
    | cons x l ih =>
      have : (bumpImage opt alloc ioob fns str).size x ≤ 8 := by
        cases x <;> simp [Image.size, bumpImage]
      simp only [List.map_cons, List.sum_cons, List.length_cons]
      omega
  have h := this ((bumpImage opt alloc ioob fns str).code.take p)
  rw [List.length_take] at h
  omega

theorem feed_len (o : Bool) (s : PS) (e : Ev) :
    (s.feed o e).write.out.length ≤ s.write.out.length + 1 := by
  rcases s with ⟨u, _ | p⟩
  · cases e <;> simp [PS.feed, PS.write]
  · cases e with
    | ins i =>
      simp only [PS.feed, Option.bind_some]
      cases merge o p i <;> simp [PS.write]
    | _ => simp [PS.feed, PS.write]

theorem peepWith_len (o : Bool) (c : List Ev) : (peepWith o c).length ≤ c.length := by
  suffices ∀ (c : List Ev) (s : PS), (c.foldl (PS.feed o) s).write.out.length ≤ s.write.out.length + c.length by
    simpa [peepWith, PS.write] using this c {}
  intro c
  induction c with
  | nil => intro s; simp
  | cons e c ih =>
    intro s
    have h1 := ih (s.feed o e)
    have h2 := feed_len o s e
    simp only [List.foldl_cons, List.length_cons]
    omega

theorem label_of_find {I : Image σ} {l : Label} {p : Nat} (h : I.find l = some p) :
    l ∈ itemLabels I.code := by
  rw [Image.find, List.findIdx?_eq_some_iff_getElem] at h
  obtain ⟨h1, h2, -⟩ := h
  rw [itemLabels, List.mem_filterMap]
  refine ⟨_, List.getElem_mem h1, ?_⟩
  rw [beq_iff_eq] at h2
  rw [h2]; rfl

theorem bump_ctx {opt : Bool} {alloc ioob : String} {fns : List FnDef} (str : String → Word)
    {lim top : Nat} (hn : (fns.map (·.name)).Nodup) (ha : Label.fn alloc ∉ labels (genProg alloc ioob fns))
    (hp : Ev.panic ∉ genProg alloc ioob fns)
    (hlen : (genProg alloc ioob fns).length < 2 ^ 50) (htop : top ≤ 2 ^ 64)
    (hok : ∀ fd ∈ fns, fd.body.ok = true ∧ (fd.params.map (·.1)).Nodup) :
    Ctx (bumpProg opt alloc ioob fns str lim) (bumpImage opt alloc ioob fns str)
      (genProg alloc ioob fns) lim top where
  loaded := by
    refine ⟨rfl, ⟨fun _ => by simp [bumpImage], ?_⟩, genProg_labels _ _ _ hn⟩
    have h1 := bump_size opt alloc ioob fns str (bumpImage opt alloc ioob fns str).code.length
    have h2 := peepWith_len opt (genProg alloc ioob fns)
    have h3 : (bumpImage opt alloc ioob fns str).base.toNat = 4096 := rfl
    have h4 : (bumpImage opt alloc ioob fns str).code.length ≤ (genProg alloc ioob fns).length := h2
    omega
  code := rfl
  nopanic := hp
  str := fun _ => rfl
  addr := fun _ => rfl
  htop := htop
  ok := hok
  ext := by intro f ws S w S' m h; exact h.elim
  rt := by
    intro f vs S v S' m h hal hst htp hargs hrel
    obtain ⟨rfl, n, rest, rfl, hn50, hal8, hlim, rfl, rfl⟩ := h
    have hext := hrel.ext
    have hrdi : (m.reg .rdi).toNat / 16 = n := by
      rw [hargs 0 .rdi _ rfl rfl]
      have h1 := tagged_word (8 * n)
      rw [← h1, BitVec.toNat_ofInt]
      omega
    refine ⟨?_, fun _ h => h, ⟨_, rfl, rfl⟩, ?_⟩
    · cases hf : (bumpImage opt f ioob fns str).find (.fn f) with
      | none => rfl
      | some p =>
        have := label_of_find hf
        rw [show (bumpImage opt f ioob fns str).code = peepWith opt (genProg f ioob fns) from rfl,
          itemLabels_peep] at this
        exact absurd this ha
    · rintro m' ⟨-, rfl⟩
      rw [hrdi]
      refine ⟨⟨rfl, rfl, ?_⟩, ⟨?_, ?_, ?_, ?_⟩, ?_⟩
      · intro a h1 h2
        refine if_neg ?_
        rintro ⟨h3, h4, -⟩
        rw [hext] at h4
        omega
      · intro a v hv
        simp only at hv ⊢
        rw [hext]
        split at hv
        · cases hv; rename_i hb; rw [if_pos hb]; rfl
        · rename_i hb; rw [if_neg hb]; exact hrel.heap a v hv
      · intro a v hv
        simp only at hv
        split at hv
        · rename_i hb; obtain ⟨h1, h2, -⟩ := hb; omega
        · exact hrel.away a v hv
      · intro a v hv
        simp only at hv
        split at hv
        · rename_i hb; exact hb.2.2
        · exact hrel.word a v hv
      · simp only [hext]
      · rintro x ⟨⟩
        simp [Mach.set, Val.enc, hext]

/-- There are states in which a function is called with given arguments and a given heap. -/
theorem bump_called_heap {opt : Bool} {alloc ioob : String} {fns : List FnDef} {str : String → Word}
    {lim d : Nat} {fd : FnDef}
    (X : Ctx (bumpProg opt alloc ioob fns str lim) (bumpImage opt alloc ioob fns str)
      (genProg alloc ioob fns) lim (2 ^ 60)) (hfd : fd ∈ fns)
    (vs : List Val) (hst : lim + 8 * (fd.cost + d) ≤ 2 ^ 60) (S : Store Word)
    (hS : ∀ a v, S.heap a = some v → (a.toNat < lim ∨ 2 ^ 60 ≤ a.toNat) ∧ a.toNat % 8 = 0) :
    ∃ p q m, Called (bumpImage opt alloc ioob fns str) lim (2 ^ 60) fd (vs.map some) S d p q m := by
  obtain ⟨p, h1, h2⟩ := fn_pos X hfd
  let rg : Reg → Word := fun r =>
    if r = .rsp then BitVec.ofNat 64 (2 ^ 60 - 8) else (vs.getD (argRegs.idxOf r) (.bool false)).enc
  let ra := (bumpImage opt alloc ioob fns str).fnAddr fd.name - 8
  let mm : Word → Word := fun a => match S.heap a with | some v => v.enc | none => ra
  refine ⟨p, p, { reg := rg, mem := mm, flags := none, ext := S.ext }, ?_⟩
  have hr : (BitVec.ofNat 64 (2 ^ 60 - 8)).toNat = 2 ^ 60 - 8 := by decide
  have hc2 : 2 ≤ fd.cost := by unfold FnDef.cost; omega
  refine ⟨h1, ?_, ?_, ?_, ?_, ?_, ⟨?_, ?_, ?_, rfl⟩⟩
  · have hm : mm (rg .rsp) = ra := by
      simp only [mm]
      split
      · rename_i v hv
        have := (hS _ _ hv).1
        simp only [rg, if_true, hr] at this
        omega
      · rfl
    show (bumpImage opt alloc ioob fns str).pos (mm (rg .rsp) + 8) = some p
    rw [hm]
    simp only [ra]
    rw [sub8_add8]; exact h2
  · simp only [rg, if_true, hr]
  · simp only [rg, if_true, hr]
    omega
  · simp only [rg, if_true, hr]
    omega
  · intro j r x hj hr
    have hne := (argReg_ne hr).2.2.1
    simp only [rg, hne, if_false]
    have hij : argRegs.idxOf r = j := by
      obtain ⟨hl, rfl⟩ := List.getElem?_eq_some_iff.1 hr
      exact List.Nodup.idxOf_getElem (by decide) j hl
    rw [List.getElem?_map, Option.map_eq_some_iff] at hj
    obtain ⟨y, hy, hy2⟩ := hj
    cases hy2
    rw [hij, List.getD_eq_getElem?_getD, hy]
    rfl
  · intro a v hv; simp only [mm, hv]
  · intro a v hv; have := (hS a v hv).1; omega
  · intro a v hv; exact (hS a v hv).2

/-- There are states in which a function is called with given arguments. -/
theorem bump_called {opt : Bool} {alloc ioob : String} {fns : List FnDef} {str : String → Word}
    {lim d : Nat} {fd : FnDef}
    (X : Ctx (bumpProg opt alloc ioob fns str lim) (bumpImage opt alloc ioob fns str)
      (genProg alloc ioob fns) lim (2 ^ 60)) (hfd : fd ∈ fns)
    (vs : List Val) (hst : lim + 8 * (fd.cost + d) ≤ 2 ^ 60) (w : Word) :
    ∃ p q m, Called (bumpImage opt alloc ioob fns str) lim (2 ^ 60) fd (vs.map some)
      { heap := fun _ => none, ext := w } d p q m :=
  bump_called_heap X hfd vs hst _ (by intro a v hv; cases hv)

end Clara.Gen
