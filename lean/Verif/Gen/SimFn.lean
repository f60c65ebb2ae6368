import Verif.Gen.SimStmt
/-
Correctness of the code for functions.
-/
namespace Clara.Gen
variable {σ : Type} {P : Prog σ} {I : Image σ} {C : List Ev} {lim top : Nat}
  {d : Nat} {ρ ρ1 ρ2 : Env} {S S1 S2 S3 : Store σ}

/-! ### Parameters -/

theorem genParams_panic (ps : List (Nat × TyR)) (i : Nat) (gc : GcS) (h : ps ≠ [])
    (hl : 6 < i + ps.length) : Ev.panic ∈ (genParams ps i gc).1 := by
  induction ps generalizing i gc with
  | nil => exact absurd rfl h
  | cons p ps ih =>
    obtain ⟨x, t⟩ := p
    simp only [List.length_cons] at hl
    simp only [genParams, List.mem_cons]
    by_cases hps : ps = []
    · subst hps
      have hi : 6 ≤ i := by simp at hl; omega
      have : argRegs[i]? = none := List.getElem?_eq_none hi
      rw [this]
      exact .inl rfl
    · exact .inr (ih (i + 1) _ hps (by omega))

/-- The parameters from number `i` on are in their slots. -/
structure Stored (m m' : Mach σ) (i n : Nat) : Prop where
  rsp : m'.reg .rsp = m.reg .rsp
  rbp : m'.reg .rbp = m.reg .rbp
  ext : m'.ext = m.ext
  val : ∀ j r, i ≤ j → j < i + n → argRegs[j]? = some r → m'.mem (slotA m (j + 1)) = m.reg r
  oth : ∀ a, (∀ j, i ≤ j → j < i + n → a ≠ slotA m (j + 1)) → m'.mem a = m.mem a

theorem exe_params (X : Ctx P I C lim top) (ps : List (Nat × TyR)) : ∀ (i : Nat) (gc : GcS) (m : Mach σ),
    8 * (i + ps.length) ≤ (m.reg .rbp).toNat →
    Exe I C (genParams ps i gc).1 m (fun m' => Stored m m' i ps.length) := by
  induction ps with
  | nil =>
    intro i gc m _
    exact Exe.nil ⟨rfl, rfl, rfl, by intro j r h1 h2; simp at h2; omega, fun _ _ => rfl⟩
  | cons p ps ih =>
    intro i gc m hb
    obtain ⟨x, t⟩ := p
    simp only [List.length_cons] at hb
    simp only [genParams]
    cases hr : argRegs[i]? with
    | none => exact Exe.panic X.nopanic (by simp)
    | some r =>
      simp only [slotIns]
      split
      · refine Exe.mov X.loaded ?_
        intro w
        obtain ⟨n1, n2, n3, n4⟩ := argReg_ne hr
        have erb : ((m.set r w).put (.mem (slotOp (i + 1))) (m.reg r)).reg .rbp = m.reg .rbp := by
          simp [Mach.put, Mach.store, Mach.set, Ne.symm n4]
        have eea : (m.set r w).ea (slotOp (i + 1)) = slotA m (i + 1) := by
          rw [ea_slot]; simp [slotA, Mach.set, Ne.symm n4]
        refine (ih (i + 1) _ _ (by rw [erb]; omega)).mono ?_
        intro m' hm
        have hsl : ∀ s, slotA ((m.set r w).put (.mem (slotOp (i + 1))) (m.reg r)) s = slotA m s := by
          intro s; simp only [slotA, erb]
        have hmem : ∀ a, ((m.set r w).put (.mem (slotOp (i + 1))) (m.reg r)).mem a =
            if a = slotA m (i + 1) then m.reg r else m.mem a := by
          intro a
          simp only [Mach.put, Mach.store, eea]
          rfl
        have hne : ∀ j, i + 1 ≤ j → j < i + 1 + ps.length → slotA m (i + 1) ≠ slotA m (j + 1) := by
          intro j h1 h2 he
          have e1 := toNat_slotA (m := m) (s := i + 1) (by omega)
          have e2 := toNat_slotA (m := m) (s := j + 1) (by omega)
          rw [he, e2] at e1
          omega
        refine ⟨?_, by rw [hm.rbp, erb], hm.ext, ?_, ?_⟩
        · rw [hm.rsp]; simp [Mach.put, Mach.store, Mach.set, Ne.symm n3]
        · intro j r' h1 h2 hr'
          by_cases hj : j = i
          · subst hj
            rw [hr] at hr'
            cases hr'
            rw [hm.oth, hmem, if_pos rfl]
            intro j' h3 h4
            rw [hsl]
            exact hne j' h3 (by omega)
          · have h3 : i + 1 ≤ j := by omega
            have := hm.val j r' h3 (by simp only [List.length_cons] at h2; omega) hr'
            rw [hsl] at this
            rw [this]
            have hrr : r' ≠ r := by
              rintro rfl
              exact hj (argReg_inj hr' hr)
            simp [Mach.put, Mach.store, Mach.set, hrr]
        · intro a ha
          rw [hm.oth, hmem, if_neg (ha i (Nat.le_refl _) (by simp))]
          intro j h1 h2
          rw [hsl]
          exact ha j (by omega) (by simp only [List.length_cons]; omega)
      · exact Exe.panic X.nopanic (by simp)

theorem addNew_prefix (acc l : List Nat) : ∃ t, addNew acc l = acc ++ t := by
  induction l generalizing acc with
  | nil => exact ⟨[], by simp [addNew]⟩
  | cons x l ih =>
    simp only [addNew]
    split
    · exact ih acc
    · obtain ⟨t, ht⟩ := ih (acc ++ [x])
      exact ⟨x :: t, by simp [ht]⟩

theorem addNew_mem (acc l : List Nat) : ∀ x ∈ l, x ∈ addNew acc l := by
  induction l generalizing acc with
  | nil => simp
  | cons y l ih =>
    intro x hx
    simp only [addNew]
    rcases List.mem_cons.mp hx with rfl | hx
    · split
      · rename_i h
        obtain ⟨t, ht⟩ := addNew_prefix acc l
        rw [ht]; simp [h]
      · obtain ⟨t, ht⟩ := addNew_prefix (acc ++ [x]) l
        rw [ht]; simp
    · split
      · exact ih _ x hx
      · exact ih _ x hx

theorem bindParams_some {ps : List (Nat × TyR)} {vs : List (Option Val)} {x : Nat} {w : Val}
    (h : bindParams ps vs x = some w) :
    ∃ j, j < ps.length ∧ (ps.map (·.1)).idxOf x = j ∧ vs[j]? = some (some w) := by
  induction ps generalizing vs with
  | nil => simp [bindParams] at h
  | cons p ps ih =>
    obtain ⟨y, t⟩ := p
    cases vs with
    | nil => simp [bindParams] at h
    | cons v vs =>
      simp only [bindParams] at h
      split at h
      · rename_i e
        subst e
        exact ⟨0, by simp, by simp, by simp [h]⟩
      · rename_i e
        obtain ⟨j, h1, h2, h3⟩ := ih h
        refine ⟨j + 1, by simpa using h1, ?_, by simpa using h3⟩
        simp only [List.map_cons, List.idxOf_cons, beq_false_of_ne (Ne.symm e), cond_false, h2]

/-- Position and state at the start of the body of a function. -/
theorem fn_enter (X : Ctx P I C lim top) {fd : FnDef} {vs : List (Option Val)} {m : Mach σ} {p q : Nat}
    {G : Cfg σ → Prop} (hfd : fd ∈ P.fns) (hf : I.find (.fn fd.name) = some p)
    (hq : I.pos (m.mem (m.reg .rsp) + 8) = some q)
    (hal : (m.reg .rsp).toNat % 16 = 8) (hbud : lim + 8 * (fd.cost + d) ≤ (m.reg .rsp).toNat + 8)
    (htop : (m.reg .rsp).toNat + 8 ≤ top)
    (hregs : ∀ (j : Nat) (r : Reg) (x : Val), vs[j]? = some (some x) → argRegs[j]? = some r → m.reg r = x.enc)
    (hrel : Rel lim top S m)
    (hk : ∀ pre l m1,
      pre ++ (match fd.body with
        | .cons tag desc id => genCons P.alloc fd.params.length tag desc id
            { lbl := l, sp := fd.frame, gc := (genParams fd.params 0 {}).2 }
        | .block ss =>
          (genStmts fd.slot fd.skip ss { lbl := l, sp := fd.frame, gc := (genParams fd.params 0 {}).2 }).1 ++
            (if fd.retNothing && !ss.retLast then genFnExit fd.skip else [])
        | .expr e =>
          (genReturn fd.slot fd.skip (some e)
            { lbl := l, sp := fd.frame, gc := (genParams fd.params 0 {}).2 }).1) <+: C →
      fd.params.length ≤ 6 →
      Pre lim top fd (bindParams fd.params vs) S
        { lbl := l, sp := fd.frame, gc := (genParams fd.params 0 {}).2 } m1 (fd.body.use + d) →
      (∀ (j : Nat) (x : Val), j < fd.params.length → vs[j]? = some (some x) →
        m1.mem (slotA m1 (j + 1)) = x.enc) →
      fd.params.length ≤ fd.frame →
      I.pos (m1.mem (m1.reg .rbp + 8) + 8) = some q →
      (∀ m' v S', Ret lim top m1 m' v S' →
        m'.reg .rsp = m.reg .rsp + 8 ∧ m'.reg .rbp = m.reg .rbp ∧
        (∀ a : Word, (m.reg .rsp).toNat + 8 ≤ a.toNat → a.toNat < top → m'.mem a = m.mem a)) →
      Run I G pre m1) :
    Reaches I G (p, m) := by
  obtain ⟨pre, l, hp⟩ := fn_found X hfd
  simp only [genFunc] at hp
  have hnd := (X.ok fd hfd).2
  have hlen : fd.params.length ≤ fd.frame := by
    obtain ⟨t, ht⟩ := addNew_prefix (fd.params.map (·.1)) fd.body.vars
    simp only [FnDef.frame, FnDef.syms, ht, List.length_append, List.length_map]
    omega
  refine reaches_label (pre := pre ++ [.flush, .data []]) X.loaded (by pfx hp) hf ?_
  refine Run.straight (i := .enter (fd.frame * 8)) X.loaded (by pfx hp) rfl rfl rfl ?_
  simp only [FnDef.cost] at hbud
  have hlt := (m.reg .rsp).isLt
  have e1 := toNat_sub8 (a := m.reg .rsp) (by omega)
  have e2 : (m.reg .rsp - 8 - BitVec.ofNat 64 (fd.frame * 8)).toNat = (m.reg .rsp).toNat - 8 - fd.frame * 8 := by
    rw [toNat_sub_of_le (by omega), e1]
  generalize hm0 : (((m.push (m.reg .rbp)).set .rbp ((m.push (m.reg .rbp)).reg .rsp)).set .rsp
    ((m.push (m.reg .rbp)).reg .rsp - BitVec.ofNat 64 (fd.frame * 8))) = m0
  have f1 : m0.reg .rbp = m.reg .rsp - 8 := by
    rw [← hm0]; simp [Mach.set, Mach.push, Mach.store]
  have f2 : m0.reg .rsp = m.reg .rsp - 8 - BitVec.ofNat 64 (fd.frame * 8) := by
    rw [← hm0]; simp [Mach.set, Mach.push, Mach.store]
  have f3 : ∀ r, r ≠ .rsp → r ≠ .rbp → m0.reg r = m.reg r := by
    intro r h1 h2; rw [← hm0]; simp [Mach.set, Mach.push, Mach.store, h1, h2]
  have f4 : ∀ a, a ≠ m.reg .rsp - 8 → m0.mem a = m.mem a := by
    intro a ha; rw [← hm0]; simp only [Mach.set, Mach.push, Mach.store]; rw [if_neg ha]
  have f5 : m0.mem (m.reg .rsp - 8) = m.reg .rbp := by
    rw [← hm0]; simp [Mach.set, Mach.push, Mach.store]
  have f6 : m0.ext = m.ext := by rw [← hm0]; rfl
  by_cases h6 : 6 < fd.params.length
  · have : Ev.panic ∈ (genParams fd.params 0 {}).1 := genParams_panic _ _ _ (by rintro h; simp [h] at h6) (by omega)
    exact absurd (by obtain ⟨t, ht⟩ := hp; rw [← ht]; simp [this]) X.nopanic
  have hP := exe_params X fd.params 0 {} m0 (by rw [f1, e1]; omega)
  refine hP G _ (by pfx hp) ?_
  intro m1 hm1
  have hsl : ∀ s, slotA m1 s = slotA m0 s := by intro s; simp only [slotA, hm1.rbp]
  have hval : ∀ (j : Nat) (x : Val), j < fd.params.length → vs[j]? = some (some x) →
      m1.mem (slotA m1 (j + 1)) = x.enc := by
    intro j x hj hx
    have hr : j < argRegs.length := by simp [argRegs]; omega
    have hr' : argRegs[j]? = some argRegs[j] := List.getElem?_eq_getElem hr
    obtain ⟨n1, n2, n3, n4⟩ := argReg_ne hr'
    rw [hsl, hm1.val j _ (by omega) (by omega) hr', f3 _ n3 n4]
    exact hregs j _ x hx hr'
  have hoth : ∀ a : Word, ¬ ((m.reg .rsp).toNat - 8 - 8 * fd.params.length ≤ a.toNat ∧
      a.toNat < (m.reg .rsp).toNat - 8) → m1.mem a = m0.mem a := by
    intro a ha
    apply hm1.oth
    rintro j - h2 rfl
    rw [toNat_slotA (by rw [f1, e1]; omega), f1, e1] at ha
    omega
  have hmem : ∀ a : Word, (m.reg .rsp).toNat ≤ a.toNat → m1.mem a = m.mem a := by
    intro a ha
    rw [hoth a (by omega), f4]
    rintro rfl
    omega
  refine hk (pre ++ [.flush, .data [], .label (.fn fd.name), .ins (.enter (fd.frame * 8))] ++
    (genParams fd.params 0 {}).1) l m1 ?_ (by omega) ?_ hval hlen ?_ ?_ |> fun h => by simpa using h
  · cases hb : fd.body with
    | block ss =>
      simp only [hb] at hp ⊢
      refine List.IsPrefix.trans ⟨[.flush], ?_⟩ hp
      simp
    | expr e =>
      simp only [hb] at hp ⊢
      refine List.IsPrefix.trans ⟨[.flush], ?_⟩ hp
      simp
    | cons tag desc id =>
      simp only [hb] at hp ⊢
      refine List.IsPrefix.trans ⟨[.flush], ?_⟩ hp
      simp
  · refine ⟨?_, ?_, Nat.le_refl _, ?_, ?_, ?_, ?_⟩
    · rw [hm1.rsp, hm1.rbp, f1, f2, e1, e2]; show _ + 8 * fd.frame = _; omega
    · rw [hm1.rbp, f1, e1]; omega
    · rw [hm1.rsp, f2, e2]; omega
    · rw [hm1.rbp, f1, e1]; omega
    · intro x w hx
      obtain ⟨j, h1, h2, h3⟩ := bindParams_some hx
      obtain ⟨t, ht⟩ := addNew_prefix (fd.params.map (·.1)) fd.body.vars
      have hxm : x ∈ fd.params.map (·.1) := by
        rw [← List.idxOf_lt_length_iff, h2, List.length_map]; exact h1
      have hs : fd.slot x = j + 1 := by
        simp only [FnDef.slot, FnDef.syms, ht]
        rw [List.idxOf_append, if_pos hxm, h2]
      refine ⟨?_, ?_⟩
      · simp only [FnDef.syms, ht, List.mem_append]; exact .inl hxm
      · rw [hs]; exact hval j w h1 h3
    · refine hrel.stack ?_ (by rw [hm1.ext, f6])
      intro a ha
      rw [hoth a (by omega), f4]
      rintro rfl
      omega
  · rw [hm1.rbp, f1, sub8_add8, hmem _ (Nat.le_refl _)]
    exact hq
  · intro m' v S' hr
    refine ⟨?_, ?_, ?_⟩
    · rw [hr.rsp, hm1.rbp, f1, show (16 : Word) = 8 + 8 from rfl, ← BitVec.add_assoc, sub8_add8]
    · rw [hr.rbp, hm1.rbp, f1, hoth _ (by omega), f5]
    · intro a h1 h2
      rw [hr.stk a (by rw [hm1.rbp, f1, e1]; omega) h2, hmem a (by omega)]

/-! ### Constructors -/

theorem exe_fields (X : Ctx P I C lim top) (vals : List Val) : ∀ (i off : Nat) (S S' : Store σ) (a : Word)
    (m : Mach σ), m.reg .rax = a → S.writeAll (a + BitVec.ofNat 64 off) vals = some S' →
    Rel lim top S m →
    (∀ j x, vals[j]? = some x → m.mem (slotA m (i + j + 1)) = x.enc) →
    (∀ j, j < vals.length → lim ≤ (slotA m (i + j + 1)).toNat ∧ (slotA m (i + j + 1)).toNat < top) →
    Exe I C (genFields vals.length i off) m (fun m' => Rel lim top S' m' ∧ m'.reg .rax = a ∧
      m'.reg .rbp = m.reg .rbp ∧ (∀ x : Word, lim ≤ x.toNat → x.toNat < top → m'.mem x = m.mem x)) := by
  induction vals with
  | nil =>
    intro i off S S' a m ha hw hrel _ _
    cases hw
    exact Exe.nil ⟨hrel, ha, rfl, fun _ _ _ => rfl⟩
  | cons v vals ih =>
    intro i off S S' a m ha hw hrel hval hin
    simp only [Store.writeAll] at hw
    cases hw1 : S.write (a + BitVec.ofNat 64 off) v with
    | none => rw [hw1] at hw; cases hw
    | some S1 =>
      rw [hw1] at hw
      simp only [Option.bind_some] at hw
      simp only [List.length_cons, genFields]
      refine Exe.ins X.loaded rfl (Exe.mov X.loaded ?_)
      intro w
      have hv0 : m.mem (slotA m (i + 1)) = v.enc := hval 0 v rfl
      generalize hm1 : ((Mach.put m (.reg .rbx) (m.get (.mem (slotOp (i + 1))))).set .rbx w).put
        (.mem { base := .rax, disp := off })
        ((Mach.put m (.reg .rbx) (m.get (.mem (slotOp (i + 1))))).reg .rbx) = m1
      have g1 : m1.reg .rax = a := by rw [← hm1]; simp [Mach.put, Mach.set, Mach.store, ha]
      have g2 : m1.reg .rbp = m.reg .rbp := by rw [← hm1]; simp [Mach.put, Mach.set, Mach.store]
      have g3 : m1.ext = m.ext := by rw [← hm1]; rfl
      have g4 : m1.mem = (m.store (a + BitVec.ofNat 64 off) v.enc).mem := by
        rw [← hm1]
        have e : m.get (.mem (slotOp (i + 1))) = v.enc := by
          simp only [Mach.get, ea_slot, hv0]
        have e2 : (((m.put (.reg .rbx) (m.get (.mem (slotOp (i + 1))))).set .rbx w).ea
            { base := .rax, disp := off }) = a + BitVec.ofNat 64 off := by
          simp only [Mach.ea, Mach.put, Mach.set, reduceCtorEq, if_false, ha, BitVec.ofInt_natCast]
          congr 1
          exact BitVec.add_zero a
        have e3 : (m.put (.reg .rbx) (m.get (.mem (slotOp (i + 1))))).reg .rbx = v.enc := by
          rw [e]; simp [Mach.put, Mach.set]
        rw [e3]
        generalize hmm : ((m.put (.reg .rbx) (m.get (.mem (slotOp (i + 1))))).set .rbx w) = mm at e2 ⊢
        have e4 : mm.mem = m.mem := by rw [← hmm]; rfl
        funext x
        simp only [Mach.put, Mach.store, e2, e4]
      obtain ⟨r1, r2⟩ := hrel.write hw1 g3 g4
      have hsl : ∀ s, slotA m1 s = slotA m s := by intro s; simp only [slotA, g2]
      show Exe I C _ (((Mach.put m (.reg .rbx) (m.get (.mem (slotOp (i + 1))))).set .rbx w).put
        (.mem { base := .rax, disp := off })
        ((Mach.put m (.reg .rbx) (m.get (.mem (slotOp (i + 1))))).reg .rbx)) _
      rw [hm1]
      refine (ih (i + 1) (off + 8) S1 S' a m1 g1 ?_ r1 ?_ ?_).mono ?_
      · rw [BitVec.ofNat_add, ← BitVec.add_assoc]
        exact hw
      · intro j x hx
        have hj : j < vals.length := (List.getElem?_eq_some_iff.mp hx).1
        have e : i + 1 + j + 1 = i + (j + 1) + 1 := by omega
        obtain ⟨h1, h2⟩ := hin (j + 1) (by simpa using hj)
        rw [hsl, e, r2 _ h1 h2]
        exact hval (j + 1) x (by simpa using hx)
      · intro j hj
        have e : i + 1 + j + 1 = i + (j + 1) + 1 := by omega
        rw [hsl, e]
        exact hin (j + 1) (by simpa using hj)
      · rintro m' ⟨k1, k2, k3, k4⟩
        refine ⟨k1, k2, by rw [k3, g2], ?_⟩
        intro x h1 h2
        rw [k4 x h1 h2, r2 x h1 h2]

theorem sim_fnCons (X : Ctx P I C lim top) {fd : FnDef} {tag : Option Nat} {desc : String} {id : Nat}
    {vals : List Val} {a : Word} (hb : fd.body = .cons tag desc id)
    (hl : vals.length = fd.params.length)
    (hrt : P.rt P.alloc [some (.int (BitVec.ofNat 63 (8 * vals.length + if tag.isSome then 8 else 0))),
        some (.ptr (P.str desc)), some (.int (BitVec.ofNat 63 id))] S (some (.ptr a)) S1)
    (hd : P.extNeed P.alloc ≤ d)
    (hw : S1.writeAll a ((tag.map (fun t => Val.int (BitVec.ofNat 63 t))).toList ++ vals) = some S2) :
    Sim P I C lim top d (.fn fd (vals.map some) S (some (.ptr a)) S2) := by
  intro m p q G hfd hsk hf hq hal hbud htop hregs hrel hk
  refine fn_enter X hfd hf hq hal hbud htop hregs hrel ?_
  intro pre l m1 hp h6 hpre hval hlen hra hret
  simp only [hb] at hp
  simp only [hb, Body.use, Nat.zero_add] at hpre
  simp only [genCons] at hp
  refine Run.straight (i := .mov (tagged (8 * fd.params.length + if tag.isSome then 8 else 0)) (.reg .rdi))
    X.loaded (by pfx hp) rfl rfl rfl ?_
  refine Run.flush X.loaded (by pfx hp) ?_
  refine Run.straight (i := .movabs (.str desc) .rsi) X.loaded (by pfx hp) rfl rfl rfl ?_
  refine Run.straight (i := .movabs (.imm (2 * (id : Int) + 1)) .rdx) X.loaded (by pfx hp) rfl rfl rfl ?_
  generalize hm2 : (((m1.put (.reg .rdi) _).set .rsi _).set .rdx _ : Mach σ) = m2
  have g1 : m2.reg .rdi = (Val.int (BitVec.ofNat 63 (8 * vals.length + if tag.isSome then 8 else 0))).enc := by
    rw [← hm2, ← tagged_word, hl]
    simp [Mach.put, Mach.set, tagged, Mach.get]
  have g2 : m2.reg .rsi = P.str desc := by
    rw [← hm2, ← X.str]
    simp [Mach.put, Mach.set, Image.abs]
  have g3 : m2.reg .rdx = (Val.int (BitVec.ofNat 63 id)).enc := by
    rw [← hm2, ← tagged_word]
    simp [Mach.put, Mach.set]
  have g4 : m2.reg .rsp = m1.reg .rsp := by rw [← hm2]; simp [Mach.put, Mach.set]
  have g5 : m2.reg .rbp = m1.reg .rbp := by rw [← hm2]; simp [Mach.put, Mach.set]
  have g6 : m2.mem = m1.mem := by rw [← hm2]; rfl
  have g7 : m2.ext = m1.ext := by rw [← hm2]; rfl
  have hsp := hpre.sp
  have hpal := hpre.al
  have hpb := hpre.bud
  have hhi := hpre.hi
  have heven : fd.frame % 2 = 0 := by simp only [FnDef.frame]; omega
  have ha2 : m2.aligned := by
    unfold Mach.aligned
    rw [g4]
    simp only at hsp
    omega
  obtain ⟨j1, j2, j3, j4⟩ := X.rt P.alloc _ S _ S1 m2 hrt ha2 (by rw [g4]; omega)
    (by rw [g4]; simp only at hsp; omega) (by
      intro j r x hj hr
      match j, hj with
      | 0, hj => cases hj; cases hr; exact g1
      | 1, hj => cases hj; cases hr; exact g2
      | 2, hj => cases hj; cases hr; exact g3
      | n + 3, hj => simp at hj) (hpre.rel.congr g6 g7)
  refine Run.callRt (f := P.alloc) (r := ((genParams fd.params 0 {}).2.roots.map (fun r => r.1 / 8)))
    X.loaded (by simp only [gcMap] at hp; pfx hp) ha2 j1 j2 j3 ?_
  intro m3 hm3
  obtain ⟨k1, k2, k3⟩ := j4 m3 hm3
  have kx : m3.reg .rax = a := k3 _ rfl
  have k0 : Kept top m1 m3 := ⟨by rw [k1.rsp, g4], by rw [k1.rbp, g5], fun x h1 h2 => by
    rw [k1.stk x (by rw [g4]; exact h1) h2, g6]⟩
  have hpre3 := hpre.kept k0 k2
  have hsl : ∀ s, slotA m3 s = slotA m1 s := by intro s; simp only [slotA, k0.rbp]
  have hin : ∀ j, j < vals.length → lim ≤ (slotA m3 (j + 1)).toNat ∧
      (m1.reg .rsp).toNat ≤ (slotA m3 (j + 1)).toNat ∧ (slotA m3 (j + 1)).toNat < top := by
    intro j hj
    rw [hsl, toNat_slotA (by simp only at hsp; omega)]
    simp only at hsp
    omega
  have hv3 : ∀ j x, vals[j]? = some x → m3.mem (slotA m3 (j + 1)) = x.enc := by
    intro j x hx
    have hj : j < vals.length := (List.getElem?_eq_some_iff.mp hx).1
    obtain ⟨i1, i2, i3⟩ := hin j hj
    rw [hsl] at i2 i3
    rw [hsl, k0.stk _ i2 i3]
    exact hval j x (by omega) (by simp [List.getElem?_map, hx])
  have hfin : ∀ (pre' : List Ev) (m' : Mach σ), pre' ++ genFnExit false <+: C → Rel lim top S2 m' →
      m'.reg .rax = a → m'.reg .rbp = m1.reg .rbp →
      (∀ x : Word, (m1.reg .rbp).toNat ≤ x.toNat → x.toNat < top → m'.mem x = m1.mem x) →
      Run I G pre' m' := by
    intro pre' m' hp' hr' hx' hbp' hst'
    have hlow : Low top m1 m' := ⟨hbp', hst'⟩
    refine run_exit X (v := some (.ptr a)) hp' (by rw [hlow.ra hhi X.htop]; exact hra) hr'
      (by rintro x ⟨⟩; exact hx') ?_
    intro m'' hr''
    obtain ⟨t1, t2, t3⟩ := hret m'' _ _ (hr''.low hlow hhi)
    exact hk m'' t1 t2 t3 hr''.rel hr''.rax
  have hrb : (m1.reg .rsp).toNat ≤ (m1.reg .rbp).toNat := hpre.rspLe
  cases tag with
  | none =>
    simp only [Option.map_none, Option.toList_none, List.nil_append] at hw
    simp only at hp
    have hF := exe_fields X vals 0 0 S1 S2 a m3 kx (by rw [show BitVec.ofNat 64 0 = 0#64 from rfl, BitVec.add_zero]; exact hw) k2
      (by intro j x hx; rw [Nat.zero_add]; exact hv3 j x hx)
      (by intro j hj; rw [Nat.zero_add]; exact ⟨(hin j hj).1, (hin j hj).2.2⟩)
    rw [hl] at hF
    refine hF G _ (by simp only [gcMap] at hp; pfx hp) ?_
    rintro m4 ⟨f1, f2, f3, f4⟩
    refine hfin _ m4 (by simpa [gcMap] using hp) f1 f2 (by rw [f3, k0.rbp]) ?_
    intro x h1 h2
    rw [f4 x (by omega) h2, k0.stk x (by omega) h2]
  | some t =>
    simp only [Option.map_some, Option.toList_some, List.cons_append, List.nil_append, Store.writeAll] at hw
    simp only at hp
    cases hw1 : S1.write a (.int (BitVec.ofNat 63 t)) with
    | none => rw [hw1] at hw; cases hw
    | some S1' =>
      rw [hw1] at hw
      simp only [Option.bind_some] at hw
      refine Run.straight (i := .mov (tagged t) (.mem { base := .rax })) X.loaded
        (by simp only [gcMap] at hp; pfx hp) rfl rfl rfl ?_
      generalize hm4 : m3.put (.mem { base := .rax }) (m3.get (tagged t)) = m4
      have hmem4 : m4.mem = (m3.store a (Val.int (BitVec.ofNat 63 t)).enc).mem := by
        rw [← hm4, ← tagged_word]
        have : m3.ea { base := .rax } = a := by
          simp only [Mach.ea, kx]
          rw [show (0 : Word) = 0#64 from rfl, BitVec.add_zero]
          exact BitVec.add_zero a
        simp only [Mach.put, this, tagged, Mach.get]
      have hreg4 : m4.reg = m3.reg := by rw [← hm4]; rfl
      obtain ⟨w1, w2⟩ := k2.write (m' := m4) hw1 (by rw [← hm4]; rfl) hmem4
      have hsl4 : ∀ s, slotA m4 s = slotA m3 s := by intro s; simp only [slotA, hreg4]
      have hF := exe_fields X vals 0 8 S1' S2 a m4 (by rw [hreg4]; exact kx) hw w1
        (by
          intro j x hx
          have hj : j < vals.length := (List.getElem?_eq_some_iff.mp hx).1
          rw [Nat.zero_add, hsl4, w2 _ (hin j hj).1 (hin j hj).2.2]
          exact hv3 j x hx)
        (by intro j hj; rw [Nat.zero_add, hsl4]; exact ⟨(hin j hj).1, (hin j hj).2.2⟩)
      rw [hl] at hF
      refine hF G _ (by simp only [gcMap] at hp; pfx hp) ?_
      rintro m5 ⟨f1, f2, f3, f4⟩
      refine hfin _ m5 (by simpa [gcMap] using hp) f1 f2 (by rw [f3, hreg4, k0.rbp]) ?_
      intro x h1 h2
      rw [f4 x (by omega) h2, w2 x (by omega) h2, k0.stk x (by omega) h2]

/-! ### Functions with a body -/

theorem vars_block {fd : FnDef} {ss : Stmts} (hb : fd.body = .block ss) : ss.vars ⊆ fd.syms := by
  intro x hx
  exact addNew_mem _ _ x (by rw [hb]; exact hx)

theorem vars_expr {fd : FnDef} {e : Expr} (hb : fd.body = .expr e) : e.vars ⊆ fd.syms := by
  intro x hx
  exact addNew_mem _ _ x (by rw [hb]; exact hx)

theorem sim_fnRet (X : Ctx P I C lim top) {fd : FnDef} {vs : List (Option Val)} {ss : Stmts}
    {v : Option Val} (hb : fd.body = .block ss)
    (h : Sim P I C lim top d (.stmts (bindParams fd.params vs) S ss (.ret v) ρ1 S1)) :
    Sim P I C lim top d (.fn fd vs S v S1) := by
  intro m p q G hfd hsk hf hq hal hbud htop hregs hrel hk
  refine fn_enter X hfd hf hq hal hbud htop hregs hrel ?_
  intro pre l m1 hp h6 hpre hval hlen hra hret
  simp only [hb] at hp
  rw [hsk] at hp
  rw [hb] at hpre
  have hok := (X.ok fd hfd).1
  rw [hb] at hok
  refine exeS_scope h hsk rfl (vars_block hb) hok (Nat.le_refl _) hpre G pre q (prefix_left hp) hra
    (by intro e; cases e) ?_
  rintro v' ⟨⟩ m' hm'
  obtain ⟨t1, t2, t3⟩ := hret m' _ _ hm'
  exact hk m' t1 t2 t3 hm'.rel hm'.rax

theorem sim_fnEnd (X : Ctx P I C lim top) {fd : FnDef} {vs : List (Option Val)} {ss : Stmts}
    (hb : fd.body = .block ss) (hn : fd.retNothing = true) (hl : ss.retLast = false)
    (h : Sim P I C lim top d (.stmts (bindParams fd.params vs) S ss .norm ρ1 S1)) :
    Sim P I C lim top d (.fn fd vs S none S1) := by
  intro m p q G hfd hsk hf hq hal hbud htop hregs hrel hk
  refine fn_enter X hfd hf hq hal hbud htop hregs hrel ?_
  intro pre l m1 hp h6 hpre hval hlen hra hret
  simp only [hb] at hp
  rw [hsk] at hp
  rw [hb] at hpre
  have hok := (X.ok fd hfd).1
  rw [hb] at hok
  refine exeS_scope h hsk rfl (vars_block hb) hok (Nat.le_refl _) hpre G pre q (prefix_left hp) hra
    ?_ (by intro v e; cases e)
  intro _ m2 hm2
  simp only [hn, hl, Bool.not_false, Bool.and_self, if_true] at hp
  refine run_exit X (v := none) (by simpa using hp) (by rw [hm2.low.ra hpre.hi X.htop]; exact hra)
    hm2.pre.rel (by simp) ?_
  intro m' hm'
  obtain ⟨t1, t2, t3⟩ := hret m' _ _ (hm'.low hm2.low hpre.hi)
  exact hk m' t1 t2 t3 hm'.rel hm'.rax

theorem sim_fnExpr (X : Ctx P I C lim top) {fd : FnDef} {vs : List (Option Val)} {e : Expr}
    {v : Option Val} (hb : fd.body = .expr e)
    (h : Sim P I C lim top d (.expr (bindParams fd.params vs) S e v S1)) :
    Sim P I C lim top d (.fn fd vs S v S1) := by
  intro m p q G hfd hsk hf hq hal hbud htop hregs hrel hk
  refine fn_enter X hfd hf hq hal hbud htop hregs hrel ?_
  intro pre l m1 hp h6 hpre hval hlen hra hret
  simp only [hb] at hp
  rw [hsk] at hp
  rw [hb] at hpre
  have hok := (X.ok fd hfd).1
  rw [hb] at hok
  have := sim_retE X h fd _ m1 _ hsk rfl (vars_expr hb) hok (Nat.le_refl _) hpre G pre q
    (by simpa [genStmt] using hp) hra (by intro e; cases e) (by
      rintro v' ⟨⟩ m' hm'
      obtain ⟨t1, t2, t3⟩ := hret m' _ _ hm'
      exact hk m' t1 t2 t3 hm'.rel hm'.rax)
  simpa [Stmt.head] using this

/-- A statement list that ends with `return` does not end normally. -/
theorem retLast_norm {ss : Stmts} (h : ss.retLast = true) (hb : Big P d (.stmts ρ S ss .norm ρ1 S1)) :
    False := by
  generalize hJ : Jd.stmts ρ S ss .norm ρ1 S1 = J at hb
  induction hb generalizing ρ S ss ρ1 S1 with
  | nil => cases hJ; cases h
  | @cons d ρ S s ss ρ1 S1 o ρ2 S2 h1 h2 _ ih =>
    cases hJ
    cases ss with
    | nil =>
      cases s with
      | ret e => cases h1
      | _ => cases h
    | cons s' ss' =>
      cases s with
      | ret e => cases h1
      | _ => exact ih (by simpa [Stmts.retLast] using h) rfl
  | _ => cases hJ

/-! ### The main theorem -/

end Clara.Gen
