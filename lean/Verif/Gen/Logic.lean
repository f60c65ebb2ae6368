import Verif.Gen.Peep
/-
Rules for reasoning about optimised code.  A configuration whose optimiser state holds a pending
`movq` is described by the machine state that results from executing it.
-/
namespace Clara.Gen
variable {σ : Type}

/-! ### Steps -/

section Steps
variable {I : Image σ} {G : Cfg σ → Prop} {p : Nat} {m : Mach σ}

theorem Reaches.straight {i : Ins} {m' : Mach σ} (hc : I.code[p]? = some (.ins i))
    (hs : i.straight = true) (he : exec I.abs m i = some m') (h : Reaches I G (p + 1, m')) :
    Reaches I G (p, m) := by
  refine .step ⟨_, .straight hc hs he⟩ ?_
  intro c' hst
  cases hst with
  | straight hc' _ he' =>
    rw [hc] at hc'; cases hc'; rw [he] at he'; cases he'; exact h
  | label hc' => rw [hc] at hc'; cases hc'
  | jmp hc' | taken hc' | fall hc' | jmpReg hc' | ret hc' | call hc' | callC hc' | callRt hc'
  | callReg hc' | callMem hc' => rw [hc] at hc'; cases hc'; simp [Ins.straight] at hs

theorem Reaches.label {l : Label} (hc : I.code[p]? = some (.label l))
    (h : Reaches I G (p + 1, m)) : Reaches I G (p, m) := by
  refine .step ⟨_, .label hc⟩ ?_
  intro c' hst
  cases hst with
  | label hc' => exact h
  | straight hc' | jmp hc' | taken hc' | fall hc' | jmpReg hc' | ret hc' | call hc' | callC hc'
  | callRt hc' | callReg hc' | callMem hc' => rw [hc] at hc'; cases hc'

theorem Reaches.jmp {l : Label} {q : Nat} (hc : I.code[p]? = some (.ins (.jmp l)))
    (hq : I.find l = some q) (h : Reaches I G (q, m)) : Reaches I G (p, m) := by
  refine .step ⟨_, .jmp hc hq⟩ ?_
  intro c' hst
  cases hst with
  | jmp hc' hq' => rw [hc] at hc'; cases hc'; rw [hq] at hq'; cases hq'; exact h
  | straight hc' hs => rw [hc] at hc'; cases hc'; cases hs
  | label hc' | taken hc' | fall hc' | jmpReg hc' | ret hc' | call hc' | callC hc'
  | callRt hc' | callReg hc' | callMem hc' => rw [hc] at hc'; cases hc'

theorem Reaches.jcc {l : Label} {c : Cond} {f : Word × Word} {q : Nat}
    (hc : I.code[p]? = some (.ins (.jcc c l)))
    (hf : m.flags = some f) (hq : I.find l = some q)
    (ht : c.holds f = true → Reaches I G (q, m))
    (hn : c.holds f = false → Reaches I G (p + 1, m)) : Reaches I G (p, m) := by
  refine .step ?_ ?_
  · cases h : c.holds f with
    | true => exact ⟨_, .taken hc hf h hq⟩
    | false => exact ⟨_, .fall hc hf h⟩
  intro c' hst
  cases hst with
  | taken hc' hf' h' hq' =>
    rw [hc] at hc'; cases hc'; rw [hf] at hf'; cases hf'; rw [hq] at hq'; cases hq'; exact ht h'
  | fall hc' hf' h' => rw [hc] at hc'; cases hc'; rw [hf] at hf'; cases hf'; exact hn h'
  | straight hc' hs => rw [hc] at hc'; cases hc'; cases hs
  | jmp hc' | label hc' | jmpReg hc' | ret hc' | call hc' | callC hc'
  | callRt hc' | callReg hc' | callMem hc' => rw [hc] at hc'; cases hc'

theorem Reaches.jmpReg {r : Reg} {q : Nat} (hc : I.code[p]? = some (.ins (.jmpReg r)))
    (hq : I.pos (m.reg r) = some q) (h : Reaches I G (q, m)) : Reaches I G (p, m) := by
  refine .step ⟨_, .jmpReg hc hq⟩ ?_
  intro c' hst
  cases hst with
  | jmpReg hc' hq' => rw [hc] at hc'; cases hc'; rw [hq] at hq'; cases hq'; exact h
  | straight hc' hs => rw [hc] at hc'; cases hc'; cases hs
  | label hc' | taken hc' | fall hc' | jmp hc' | ret hc' | call hc' | callC hc'
  | callRt hc' | callReg hc' | callMem hc' => rw [hc] at hc'; cases hc'

theorem Reaches.ret {q : Nat} (hc : I.code[p]? = some (.ins .ret))
    (hq : I.pos (m.mem (m.reg .rsp)) = some q)
    (h : Reaches I G (q, m.set .rsp (m.reg .rsp + 8))) : Reaches I G (p, m) := by
  refine .step ⟨_, .ret hc hq⟩ ?_
  intro c' hst
  cases hst with
  | ret hc' hq' => rw [hq] at hq'; cases hq'; exact h
  | straight hc' hs => rw [hc] at hc'; cases hc'; cases hs
  | label hc' | taken hc' | fall hc' | jmp hc' | jmpReg hc' | call hc' | callC hc'
  | callRt hc' | callReg hc' | callMem hc' => rw [hc] at hc'; cases hc'

theorem Reaches.call {f : String} {q : Nat} (hc : I.code[p]? = some (.ins (.call f)))
    (ha : m.aligned) (hq : I.find (.fn f) = some q)
    (h : Reaches I G (q, m.push (I.addr (p + 1)))) : Reaches I G (p, m) := by
  refine .step ⟨_, .call hc ha hq⟩ ?_
  intro c' hst
  cases hst with
  | call hc' _ hq' => rw [hc] at hc'; cases hc'; rw [hq] at hq'; cases hq'; exact h
  | callC hc' _ hq' | callRt hc' _ hq' => rw [hc] at hc'; cases hc'; rw [hq] at hq'; cases hq'
  | straight hc' hs => rw [hc] at hc'; cases hc'; cases hs
  | label hc' | taken hc' | fall hc' | jmp hc' | jmpReg hc' | ret hc' | callReg hc'
  | callMem hc' => rw [hc] at hc'; cases hc'

theorem Reaches.callC {f : String} (hc : I.code[p]? = some (.ins (.call f)))
    (ha : m.aligned) (hq : I.find (.fn f) = none) (hrt : ∀ m', ¬ I.rt f m m')
    (hex : ∃ m', I.cfun f m m')
    (h : ∀ m', I.cfun f m m' → Reaches I G (p + 1, m')) : Reaches I G (p, m) := by
  obtain ⟨m0, h0⟩ := hex
  refine .step ⟨_, .callC hc ha hq h0⟩ ?_
  intro c' hst
  cases hst with
  | callC hc' _ _ hm => rw [hc] at hc'; cases hc'; exact h _ hm
  | callRt hc' _ _ hm => rw [hc] at hc'; cases hc'; exact absurd hm (hrt _)
  | call hc' _ hq' => rw [hc] at hc'; cases hc'; rw [hq] at hq'; cases hq'
  | straight hc' hs => rw [hc] at hc'; cases hc'; cases hs
  | label hc' | taken hc' | fall hc' | jmp hc' | jmpReg hc' | ret hc' | callReg hc'
  | callMem hc' => rw [hc] at hc'; cases hc'

theorem Reaches.callRt {f : String} (hc : I.code[p]? = some (.ins (.call f)))
    (ha : m.aligned) (hq : I.find (.fn f) = none) (hcf : ∀ m', ¬ I.cfun f m m')
    (hex : ∃ m', I.rt f m m')
    (h : ∀ m', I.rt f m m' → Reaches I G (p + 2, m')) : Reaches I G (p, m) := by
  obtain ⟨m0, h0⟩ := hex
  refine .step ⟨_, .callRt hc ha hq h0⟩ ?_
  intro c' hst
  cases hst with
  | callRt hc' _ _ hm => rw [hc] at hc'; cases hc'; exact h _ hm
  | callC hc' _ _ hm => rw [hc] at hc'; cases hc'; exact absurd hm (hcf _)
  | call hc' _ hq' => rw [hc] at hc'; cases hc'; rw [hq] at hq'; cases hq'
  | straight hc' hs => rw [hc] at hc'; cases hc'; cases hs
  | label hc' | taken hc' | fall hc' | jmp hc' | jmpReg hc' | ret hc' | callReg hc'
  | callMem hc' => rw [hc] at hc'; cases hc'

theorem Reaches.callReg {r : Reg} {q : Nat} (hc : I.code[p]? = some (.ins (.callReg r)))
    (ha : m.aligned) (hq : I.pos (m.reg r) = some q)
    (h : Reaches I G (q, m.push (I.addr (p + 1)))) : Reaches I G (p, m) := by
  refine .step ⟨_, .callReg hc ha hq⟩ ?_
  intro c' hst
  cases hst with
  | callReg hc' _ hq' => rw [hc] at hc'; cases hc'; rw [hq] at hq'; cases hq'; exact h
  | straight hc' hs => rw [hc] at hc'; cases hc'; cases hs
  | label hc' | taken hc' | fall hc' | jmp hc' | jmpReg hc' | ret hc' | call hc' | callC hc'
  | callRt hc' | callMem hc' => rw [hc] at hc'; cases hc'

theorem Reaches.callMem {a : MemOp} {q : Nat} (hc : I.code[p]? = some (.ins (.callMem a)))
    (ha : m.aligned) (hq : I.pos (m.mem (m.ea a)) = some q)
    (h : Reaches I G (q, m.push (I.addr (p + 1)))) : Reaches I G (p, m) := by
  refine .step ⟨_, .callMem hc ha hq⟩ ?_
  intro c' hst
  cases hst with
  | callMem hc' _ hq' => rw [hc] at hc'; cases hc'; rw [hq] at hq'; cases hq'; exact h
  | straight hc' hs => rw [hc] at hc'; cases hc'; cases hs
  | label hc' | taken hc' | fall hc' | jmp hc' | jmpReg hc' | ret hc' | call hc' | callC hc'
  | callRt hc' | callReg hc' => rw [hc] at hc'; cases hc'

end Steps

/-! ### Positions and addresses -/

namespace Image
variable {I : Image σ}

theorem offset_succ {p : Nat} {x : Item} (h : I.code[p]? = some x) :
    I.offset (p + 1) = I.offset p + I.size x := by
  have hlt : p < I.code.length := by
    rcases Nat.lt_or_ge p I.code.length with h' | h'
    · exact h'
    · rw [List.getElem?_eq_none h'] at h; cases h
  have : I.code.take (p + 1) = I.code.take p ++ [x] := by
    rw [List.take_add_one, h]; rfl
  simp [offset, this]

theorem offset_mono {p q : Nat} (h : p ≤ q) : I.offset p ≤ I.offset q := by
  induction h with
  | refl => exact Nat.le_refl _
  | @step q _ ih =>
    refine Nat.le_trans ih ?_
    cases hx : I.code[q]? with
    | some x => rw [offset_succ hx]; omega
    | none =>
      have : I.code.length ≤ q := List.getElem?_eq_none_iff.1 hx
      simp only [offset]
      rw [List.take_of_length_le this, List.take_of_length_le (by omega)]
      omega

theorem toNat_addr (hf : I.Fits) {p : Nat} (hp : p ≤ I.code.length) :
    (I.addr p).toNat = I.base.toNat + I.offset p := by
  have h1 := offset_mono (I := I) hp
  have h2 := hf.2
  have h3 := I.base.isLt
  simp only [addr, BitVec.toNat_add, BitVec.toNat_ofNat]
  omega

/-- A position that does not follow a label is found by its address. -/
theorem pos_addr (hf : I.Fits) {p : Nat} {x : Item} (hx : I.code[p]? = some x)
    (hl : ∀ l, x ≠ .label l) : I.pos (I.addr (p + 1)) = some (p + 1) := by
  have hlt : p < I.code.length := by
    rcases Nat.lt_or_ge p I.code.length with h' | h'
    · exact h'
    · rw [List.getElem?_eq_none h'] at hx; cases hx
  have hpos : 0 < I.size x := by
    cases x with
    | ins i => exact hf.1 i
    | label l => exact absurd rfl (hl l)
    | data r => exact Nat.zero_lt_succ _
  rw [pos, List.find?_eq_some_iff_getElem]
  refine ⟨by simp, p + 1, by simpa using hlt, by simp, ?_⟩
  intro j hj
  simp only [List.getElem_range, Bool.not_eq_true', beq_eq_false_iff_ne, ne_eq]
  intro he
  have he := congrArg BitVec.toNat he
  rw [toNat_addr hf (by omega), toNat_addr hf (by omega), offset_succ hx] at he
  have := offset_mono (I := I) (p := j) (q := p) (by omega)
  omega

/-- The position after the data word that follows a call. -/
theorem pos_ret (hf : I.Fits) {p : Nat} {r : List Nat} (hx : I.code[p]? = some (.data r)) :
    I.pos (I.addr p + 8) = some (p + 1) := by
  rw [← pos_addr hf hx (by simp)]
  congr 1
  simp only [addr, offset_succ hx, size]
  rw [BitVec.ofNat_add, ← BitVec.add_assoc]; rfl

end Image

/-! ### Virtual states -/

/-- The configuration is at the point of the optimised code that corresponds to the end of `pre`, and
executing the pending `movq` gives `v`. -/
def At (I : Image σ) (pre : List Ev) (v : Mach σ) (c : Cfg σ) : Prop :=
  c.1 = (st I.opt pre).out.length ∧
    match (st I.opt pre).pend with
    | none => c.2 = v
    | some p => exec I.abs c.2 p = some v

def Run (I : Image σ) (G : Cfg σ → Prop) (pre : List Ev) (v : Mach σ) : Prop :=
  ∀ c, At I pre v c → Reaches I G c

/-- The image is the optimised code of `C`. -/
structure Loaded (I : Image σ) (C : List Ev) : Prop where
  code : I.code = peepWith I.opt C
  fits : I.Fits
  nodup : (labels C).Nodup

section Rules
variable {I : Image σ} {C pre : List Ev} {G : Cfg σ → Prop} {v : Mach σ}

theorem prefix_get {l c : List Item} (h : l <+: c) {k : Nat} (hk : k < l.length) :
    c[k]? = l[k]? := by
  obtain ⟨t, rfl⟩ := h
  rw [List.getElem?_append_left hk]

theorem prefix_get_snoc {l c : List Item} {x : Item} (h : l ++ [x] <+: c) : c[l.length]? = some x := by
  rw [prefix_get h (by simp)]; simp

theorem mov_straight {p : Ins} (h : p.isMov = true) : p.straight = true := by
  cases p <;> simp_all [Ins.isMov, Ins.straight]

/-- Execute the pending instruction. -/
theorem flush_pend (hw : (st I.opt pre).write.out <+: I.code)
    (h : Reaches I G ((st I.opt pre).write.out.length, v)) : Run I G pre v := by
  intro ⟨p, m⟩ ⟨hp, hm⟩
  simp only at hp hm
  subst hp
  cases hpd : (st I.opt pre).pend with
  | none =>
    rw [hpd] at hm
    rw [PS.write_out, hpd] at h
    simp only at hm
    subst hm
    simpa using h
  | some q =>
    rw [hpd] at hm
    rw [PS.write_out, hpd] at h hw
    simp only at hm
    refine Reaches.straight (prefix_get_snoc hw) (mov_straight (st_pend hpd)) hm ?_
    simpa using h

/-- At a point with no pending instruction. -/
theorem Run.reaches (h : Run I G pre v) (hn : (st I.opt pre).pend = none) :
    Reaches I G ((st I.opt pre).out.length, v) := h _ ⟨rfl, by rw [hn]⟩

/-- `i` does not merge with a preceding `movq`. -/
def Ins.plainSrc : Ins → Bool
  | .mov (.reg _) _ => false
  | .push (.reg _) => false
  | _ => true

theorem merge_plainSrc {o : Bool} {p i : Ins} (h : i.plainSrc = true) : merge o p i = none := by
  cases p with
  | mov x y =>
    cases y with
    | reg r =>
      cases i with
      | mov a b => cases a <;> simp_all [merge, Ins.plainSrc]
      | push a => cases a <;> simp_all [merge, Ins.plainSrc]
      | _ => simp [merge]
    | _ => simp [merge]
  | _ => simp [merge]

/-- One more instruction that is not merged. -/
theorem st_ins_of_none {i : Ins} (h : (st I.opt pre).pend.bind (merge I.opt · i) = none) :
    st I.opt (pre ++ [.ins i]) = PS.norm { out := (st I.opt pre).write.out, pend := some i } := by
  rw [st_snoc]
  simp only [PS.feed, h]

theorem norm_mov {o : List Item} {i : Ins} (h : i.isMov = true) :
    PS.norm { out := o, pend := some i } = { out := o, pend := some i } := by
  simp [PS.norm, h]

theorem norm_nomov {o : List Item} {i : Ins} (h : i.isMov = false) :
    PS.norm { out := o, pend := some i } = { out := o ++ [.ins i], pend := none } := by
  simp [PS.norm, h, PS.write]

theorem write_prefix_of_feed {e : Ev} (hL : Loaded I C) (hp : pre ++ [e] <+: C)
    (hm : ∀ i, e = .ins i → (st I.opt pre).pend.bind (merge I.opt · i) = none) (hpa : e ≠ .panic) :
    (st I.opt pre).write.out <+: I.code := by
  rw [hL.code]
  refine List.IsPrefix.trans ?_ (st_prefix_peep hp)
  cases e with
  | ins i =>
    rw [st_ins_of_none (hm i rfl)]
    exact PS.norm_out_prefix { out := (st I.opt pre).write.out, pend := some i }
  | label l => rw [st_label]; exact List.prefix_append _ _
  | data r => rw [st_data]; exact List.prefix_append _ _
  | flush => rw [st_flush]; exact List.prefix_refl _
  | panic => exact absurd rfl hpa

theorem Run.ins_sep {i : Ins} {v' : Mach σ} (hL : Loaded I C) (hp : pre ++ [.ins i] <+: C)
    (hm : (st I.opt pre).pend.bind (merge I.opt · i) = none) (hs : i.straight = true)
    (he : exec I.abs v i = some v') (h : Run I G (pre ++ [.ins i]) v') : Run I G pre v := by
  refine flush_pend (write_prefix_of_feed hL hp (by rintro _ ⟨⟩; exact hm) (by simp)) ?_
  cases hi : i.isMov with
  | true =>
    refine h _ ⟨?_, ?_⟩
    · rw [st_ins_of_none hm, norm_mov hi]
    · rw [st_ins_of_none hm, norm_mov hi]; exact he
  | false =>
    have hst := st_ins_of_none (I := I) (pre := pre) hm
    rw [norm_nomov hi] at hst
    have hpre : (st I.opt pre).write.out ++ [.ins i] <+: I.code := by
      have := st_prefix_peep (o := I.opt) hp
      rw [hst] at this
      rw [hL.code]; exact this
    refine Reaches.straight (prefix_get_snoc hpre) hs he ?_
    have := h.reaches (by rw [hst])
    rw [hst] at this
    simpa using this

/-- Instructions whose source is not a register. -/
theorem Run.straight {i : Ins} {v' : Mach σ} (hL : Loaded I C) (hp : pre ++ [.ins i] <+: C)
    (hpl : i.plainSrc = true) (hs : i.straight = true)
    (he : exec I.abs v i = some v') (h : Run I G (pre ++ [.ins i]) v') : Run I G pre v := by
  refine Run.ins_sep hL hp ?_ hs he h
  cases (st I.opt pre).pend with
  | none => rfl
  | some p => exact merge_plainSrc hpl

theorem Mach.set_set (m : Mach σ) (r : Reg) (a b : Word) : (m.set r a).set r b = m.set r b := by
  simp only [Mach.set]; congr 1; funext r'; split <;> simp_all

theorem Mach.set_self (m : Mach σ) (r : Reg) : m.set r (m.reg r) = m := by
  rcases m with ⟨g, _, _, _⟩
  simp only [Mach.set, Mach.mk.injEq, and_true]
  funext r'; split <;> simp_all

theorem Mach.set_reg (m : Mach σ) (r : Reg) (a : Word) : (m.set r a).reg r = a := by
  simp [Mach.set]

/-- `movq %r, y`: after it the contents of `r` are unknown, because the optimiser may have dropped the
instruction that loaded `r`. -/
theorem Run.mov_reg {r : Reg} {y : Opd} (hL : Loaded I C)
    (hp : pre ++ [.ins (.mov (.reg r) y)] <+: C)
    (h : ∀ w, Run I G (pre ++ [.ins (.mov (.reg r) y)]) ((v.set r w).put y (v.reg r))) :
    Run I G pre v := by
  cases hm : (st I.opt pre).pend.bind (merge I.opt · (.mov (.reg r) y)) with
  | none =>
    refine Run.ins_sep hL hp hm rfl rfl ?_
    have := h (v.reg r)
    rw [Mach.set_self] at this
    exact this
  | some q =>
    obtain ⟨p, hpd, hq⟩ := Option.bind_eq_some_iff.1 hm
    have hst := st_ins_merge hpd hq
    intro ⟨k, m⟩ ⟨hk, hv⟩
    rw [hpd] at hv
    simp only at hk hv
    cases p with
    | mov x d =>
      cases d with
      | reg r0 =>
        simp only [merge] at hq
        split at hq
        · rename_i hr
          cases hq
          obtain ⟨_, rfl, _⟩ := hr
          simp only [exec, Mach.put, Option.some.injEq] at hv
          subst hv
          have := h (m.reg r0)
          rw [Mach.set_set, Mach.set_self, Mach.set_reg] at this
          refine this _ ⟨?_, ?_⟩
          · rw [hst, norm_mov rfl]; exact hk
          · rw [hst, norm_mov rfl]; rfl
        · cases hq
      | _ => simp [merge] at hq
    | _ => simp [merge] at hq

/-- `pushq %r`: as for `movq`. -/
theorem Run.push_reg {r : Reg} (hL : Loaded I C)
    (hp : pre ++ [.ins (.push (.reg r))] <+: C)
    (h : ∀ w, Run I G (pre ++ [.ins (.push (.reg r))]) ((v.set r w).push (v.reg r))) :
    Run I G pre v := by
  cases hm : (st I.opt pre).pend.bind (merge I.opt · (.push (.reg r))) with
  | none =>
    refine Run.ins_sep hL hp hm rfl rfl ?_
    have := h (v.reg r)
    rw [Mach.set_self] at this
    exact this
  | some q =>
    obtain ⟨p, hpd, hq⟩ := Option.bind_eq_some_iff.1 hm
    have hst := st_ins_merge hpd hq
    intro ⟨k, m⟩ ⟨hk, hv⟩
    rw [hpd] at hv
    simp only at hk hv
    cases p with
    | mov x d =>
      cases d with
      | reg r0 =>
        simp only [merge] at hq
        split at hq
        · rename_i hr
          cases hq
          obtain ⟨_, rfl⟩ := hr
          simp only [exec, Mach.put, Option.some.injEq] at hv
          subst hv
          have h := h (m.reg r0)
          rw [Mach.set_set, Mach.set_self, Mach.set_reg] at h
          rw [norm_nomov rfl] at hst
          have hpre := st_prefix_peep (o := I.opt) hp
          rw [hst, ← hL.code] at hpre
          subst hk
          refine Reaches.straight (prefix_get_snoc hpre) rfl rfl ?_
          have := h.reaches (by rw [hst])
          rw [hst] at this
          simpa using this
        · cases hq
      | _ => simp [merge] at hq
    | _ => simp [merge] at hq

theorem Run.flush (hL : Loaded I C) (hp : pre ++ [.flush] <+: C)
    (h : Run I G (pre ++ [.flush]) v) : Run I G pre v := by
  refine flush_pend (write_prefix_of_feed hL hp (by rintro _ ⟨⟩) (by simp)) ?_
  have := h.reaches (by rw [st_flush])
  rwa [st_flush] at this

theorem Run.label {l : Label} (hL : Loaded I C) (hp : pre ++ [.label l] <+: C)
    (h : Run I G (pre ++ [.label l]) v) : Run I G pre v := by
  refine flush_pend (write_prefix_of_feed hL hp (by rintro _ ⟨⟩) (by simp)) ?_
  have hpre := st_prefix_peep (o := I.opt) hp
  rw [st_label, ← hL.code] at hpre
  refine Reaches.label (prefix_get_snoc hpre) ?_
  have := h.reaches (by rw [st_label])
  rw [st_label] at this
  simpa using this

/-! Labels are found where they were put. -/

theorem find_label {l : Label} (hL : Loaded I C) (hp : pre ++ [.label l] <+: C) :
    I.find l = some (st I.opt pre).write.out.length := by
  have hpre := st_prefix_peep (o := I.opt) hp
  rw [st_label, ← hL.code] at hpre
  obtain ⟨t, ht⟩ := hpre
  simp only at ht
  have hnd : (itemLabels I.code).Nodup := by rw [hL.code, itemLabels_peep]; exact hL.nodup
  rw [← ht] at hnd
  simp only [itemLabels, List.filterMap_append, List.filterMap_cons, Item.isLabel,
    List.filterMap_nil] at hnd
  rw [Image.find, ← ht, List.findIdx?_eq_some_iff_getElem]
  refine ⟨by simp, by simp, ?_⟩
  intro j hj
  rw [List.getElem_append_left (by simp; omega), List.getElem_append_left hj]
  intro hc
  have hmem : l ∈ List.filterMap Item.isLabel (st I.opt pre).write.out := by
    rw [List.mem_filterMap]
    refine ⟨_, List.getElem_mem hj, ?_⟩
    rw [beq_iff_eq] at hc
    rw [hc]; rfl
  rw [List.append_assoc, List.nodup_append] at hnd
  exact hnd.2.2 l hmem l (by simp) rfl

theorem reaches_label {l : Label} {q : Nat} (hL : Loaded I C) (hp : pre ++ [.label l] <+: C)
    (hq : I.find l = some q) (h : Run I G (pre ++ [.label l]) v) : Reaches I G (q, v) := by
  rw [find_label hL hp] at hq
  cases hq
  have hpre := st_prefix_peep (o := I.opt) hp
  rw [st_label, ← hL.code] at hpre
  refine Reaches.label (prefix_get_snoc hpre) ?_
  have := h.reaches (by rw [st_label])
  rw [st_label] at this
  simpa using this

theorem code_ctl {i : Ins} (hL : Loaded I C) (hp : pre ++ [.ins i] <+: C)
    (hpl : i.plainSrc = true) (hi : i.isMov = false) :
    (st I.opt pre).write.out <+: I.code ∧ I.code[(st I.opt pre).write.out.length]? = some (.ins i) ∧
    st I.opt (pre ++ [.ins i]) = { out := (st I.opt pre).write.out ++ [.ins i], pend := none } := by
  have hm : (st I.opt pre).pend.bind (merge I.opt · i) = none := by
    cases (st I.opt pre).pend with
    | none => rfl
    | some p => exact merge_plainSrc hpl
  have hst := st_ins_of_none (I := I) (pre := pre) hm
  rw [norm_nomov hi] at hst
  have hpre := st_prefix_peep (o := I.opt) hp
  rw [hst, ← hL.code] at hpre
  exact ⟨(List.prefix_append _ _).trans hpre, prefix_get_snoc hpre, hst⟩

theorem Run.jmp {l : Label} {pre' : List Ev} (hL : Loaded I C) (hp : pre ++ [.ins (.jmp l)] <+: C)
    (hp' : pre' ++ [.label l] <+: C) (h : Run I G (pre' ++ [.label l]) v) : Run I G pre v := by
  obtain ⟨h1, h2, h3⟩ := code_ctl hL hp rfl rfl
  exact flush_pend h1 (Reaches.jmp h2 (find_label hL hp')
    (reaches_label hL hp' (find_label hL hp') h))

theorem Run.jcc {l : Label} {c : Cond} {f : Word × Word} {pre' : List Ev} (hL : Loaded I C)
    (hp : pre ++ [.ins (.jcc c l)] <+: C) (hf : v.flags = some f)
    (hp' : pre' ++ [.label l] <+: C)
    (ht : c.holds f = true → Run I G (pre' ++ [.label l]) v)
    (hn : c.holds f = false → Run I G (pre ++ [.ins (.jcc c l)]) v) : Run I G pre v := by
  obtain ⟨h1, h2, h3⟩ := code_ctl hL hp rfl rfl
  refine flush_pend h1 (Reaches.jcc h2 hf (find_label hL hp') ?_ ?_)
  · intro h; exact reaches_label hL hp' (find_label hL hp') (ht h)
  · intro h
    have := (hn h).reaches (by rw [h3])
    rw [h3] at this
    simpa using this

/-- A jump that is known to be taken, to any label of the image. -/
theorem Run.jcc_taken {l : Label} {c : Cond} {f : Word × Word} {q : Nat} (hL : Loaded I C)
    (hp : pre ++ [.ins (.jcc c l)] <+: C) (hf : v.flags = some f) (hc : c.holds f = true)
    (hq : I.find l = some q) (h : Reaches I G (q, v)) : Run I G pre v := by
  obtain ⟨h1, h2, h3⟩ := code_ctl hL hp rfl rfl
  refine flush_pend h1 (Reaches.jcc h2 hf hq (fun _ => h) ?_)
  intro h'; rw [hc] at h'; cases h'

/-- A jump that is known not to be taken. -/
theorem Run.jcc_fall {l : Label} {c : Cond} {f : Word × Word} {q : Nat} (hL : Loaded I C)
    (hp : pre ++ [.ins (.jcc c l)] <+: C) (hf : v.flags = some f) (hc : c.holds f = false)
    (hq : I.find l = some q)
    (h : Run I G (pre ++ [.ins (.jcc c l)]) v) : Run I G pre v := by
  obtain ⟨h1, h2, h3⟩ := code_ctl hL hp rfl rfl
  refine flush_pend h1 (Reaches.jcc h2 hf hq ?_ ?_)
  · intro h'; rw [hc] at h'; cases h'
  · intro _
    have := h.reaches (by rw [h3])
    rw [h3] at this
    simpa using this

theorem Run.jmpReg {r : Reg} {q : Nat} (hL : Loaded I C) (hp : pre ++ [.ins (.jmpReg r)] <+: C)
    (hq : I.pos (v.reg r) = some q) (h : Reaches I G (q, v)) : Run I G pre v := by
  obtain ⟨h1, h2, h3⟩ := code_ctl hL hp rfl rfl
  exact flush_pend h1 (Reaches.jmpReg h2 hq h)

theorem Run.ret {q : Nat} (hL : Loaded I C) (hp : pre ++ [.ins .ret] <+: C)
    (hq : I.pos (v.mem (v.reg .rsp)) = some q)
    (h : Reaches I G (q, v.set .rsp (v.reg .rsp + 8))) : Run I G pre v := by
  obtain ⟨h1, h2, h3⟩ := code_ctl hL hp rfl rfl
  exact flush_pend h1 (Reaches.ret h2 hq h)

/-- Where a Clara call returns to. -/
def retPos (I : Image σ) (pre : List Ev) (i : Ins) (r : List Nat) : Nat :=
  (st I.opt (pre ++ [.ins i, .data r])).out.length

theorem retPos_eq {i : Ins} {r : List Nat} (hL : Loaded I C)
    (hp : pre ++ [.ins i, .data r] <+: C) (hpl : i.plainSrc = true) (hi : i.isMov = false) :
    retPos I pre i r = (st I.opt pre).write.out.length + 2 ∧
    I.pos (I.addr ((st I.opt pre).write.out.length + 1) + 8) = some (retPos I pre i r) := by
  have hp1 : pre ++ [.ins i] <+: C := by
    refine List.IsPrefix.trans ?_ hp
    exact ⟨[.data r], by simp⟩
  obtain ⟨h1, h2, h3⟩ := code_ctl hL hp1 hpl hi
  have hp2 : (pre ++ [.ins i]) ++ [.data r] <+: C := by simpa using hp
  have hst := st_data (o := I.opt) (pre ++ [.ins i]) r
  rw [h3] at hst
  have hst' := hst
  rw [List.append_assoc] at hst'
  simp only [List.cons_append, List.nil_append] at hst'
  have hpre := st_prefix_peep (o := I.opt) hp2
  rw [hst, ← hL.code] at hpre
  have hd := prefix_get_snoc hpre
  have hlen : retPos I pre i r = (st I.opt pre).write.out.length + 2 := by
    rw [retPos, hst']; simp [PS.write]
  refine ⟨hlen, ?_⟩
  rw [hlen]
  simp only [PS.write, List.length_append, List.length_cons, List.length_nil] at hd
  exact Image.pos_ret hL.fits hd

theorem Run.atRet {i : Ins} {r : List Nat} (h : Run I G (pre ++ [.ins i, .data r]) v) :
    Reaches I G (retPos I pre i r, v) := by
  have hn : (st I.opt (pre ++ [.ins i, .data r])).pend = none := by
    rw [show pre ++ [Ev.ins i, Ev.data r] = (pre ++ [.ins i]) ++ [.data r] by simp, st_data]
  exact h.reaches hn

/-- Call of a Clara function of the program. -/
theorem Run.call {f : String} {r : List Nat} {q : Nat} (hL : Loaded I C)
    (hp : pre ++ [.ins (.call f), .data r] <+: C) (ha : v.aligned) (hq : I.find (.fn f) = some q)
    (h : ∀ ra, I.pos (ra + 8) = some (retPos I pre (.call f) r) → Reaches I G (q, v.push ra)) :
    Run I G pre v := by
  have hp1 : pre ++ [.ins (.call f)] <+: C := List.IsPrefix.trans ⟨[.data r], by simp⟩ hp
  obtain ⟨h1, h2, h3⟩ := code_ctl hL hp1 rfl rfl
  exact flush_pend h1 (Reaches.call h2 ha hq (h _ (retPos_eq hL hp rfl rfl).2))

theorem Run.callReg {s : Reg} {r : List Nat} {q : Nat} (hL : Loaded I C)
    (hp : pre ++ [.ins (.callReg s), .data r] <+: C) (ha : v.aligned)
    (hq : I.pos (v.reg s) = some q)
    (h : ∀ ra, I.pos (ra + 8) = some (retPos I pre (.callReg s) r) → Reaches I G (q, v.push ra)) :
    Run I G pre v := by
  have hp1 : pre ++ [.ins (.callReg s)] <+: C := List.IsPrefix.trans ⟨[.data r], by simp⟩ hp
  obtain ⟨h1, h2, h3⟩ := code_ctl hL hp1 rfl rfl
  exact flush_pend h1 (Reaches.callReg h2 ha hq (h _ (retPos_eq hL hp rfl rfl).2))

theorem Run.callMem {a : MemOp} {r : List Nat} {q : Nat} (hL : Loaded I C)
    (hp : pre ++ [.ins (.callMem a), .data r] <+: C) (ha : v.aligned)
    (hq : I.pos (v.mem (v.ea a)) = some q)
    (h : ∀ ra, I.pos (ra + 8) = some (retPos I pre (.callMem a) r) → Reaches I G (q, v.push ra)) :
    Run I G pre v := by
  have hp1 : pre ++ [.ins (.callMem a)] <+: C := List.IsPrefix.trans ⟨[.data r], by simp⟩ hp
  obtain ⟨h1, h2, h3⟩ := code_ctl hL hp1 rfl rfl
  exact flush_pend h1 (Reaches.callMem h2 ha hq (h _ (retPos_eq hL hp rfl rfl).2))

/-- Call of a C function. -/
theorem Run.callC {f : String} (hL : Loaded I C)
    (hp : pre ++ [.ins (.call f)] <+: C) (ha : v.aligned) (hq : I.find (.fn f) = none)
    (hrt : ∀ m', ¬ I.rt f v m') (hex : ∃ m', I.cfun f v m')
    (h : ∀ m', I.cfun f v m' → Run I G (pre ++ [.ins (.call f)]) m') : Run I G pre v := by
  obtain ⟨h1, h2, h3⟩ := code_ctl hL hp rfl rfl
  refine flush_pend h1 (Reaches.callC h2 ha hq hrt hex ?_)
  intro m' hm
  have := (h m' hm).reaches (by rw [h3])
  rw [h3] at this
  simpa using this

/-- Call of a Clara function of the runtime. -/
theorem Run.callRt {f : String} {r : List Nat} (hL : Loaded I C)
    (hp : pre ++ [.ins (.call f), .data r] <+: C) (ha : v.aligned) (hq : I.find (.fn f) = none)
    (hcf : ∀ m', ¬ I.cfun f v m') (hex : ∃ m', I.rt f v m')
    (h : ∀ m', I.rt f v m' → Run I G (pre ++ [.ins (.call f), .data r]) m') : Run I G pre v := by
  have hp1 : pre ++ [.ins (.call f)] <+: C := List.IsPrefix.trans ⟨[.data r], by simp⟩ hp
  obtain ⟨h1, h2, h3⟩ := code_ctl hL hp1 rfl rfl
  refine flush_pend h1 (Reaches.callRt h2 ha hq hcf hex ?_)
  intro m' hm
  have := (h m' hm).atRet
  rw [(retPos_eq hL hp rfl rfl).1] at this
  exact this

/-- A function label that follows a data word is found by its address. -/
theorem pos_fnAddr {f : String} {r : List Nat} (hL : Loaded I C)
    (hp : pre ++ [.data r, .label (.fn f)] <+: C) :
    ∃ q, I.find (.fn f) = some q ∧ I.pos (I.fnAddr f) = some q := by
  have hp2 : (pre ++ [.data r]) ++ [.label (.fn f)] <+: C := by simpa using hp
  have hf := find_label hL hp2
  refine ⟨_, hf, ?_⟩
  rw [Image.fnAddr, hf]
  have hst := st_data (o := I.opt) pre r
  rw [hst]
  have hp1 : pre ++ [.data r] <+: C := List.IsPrefix.trans ⟨[.label (.fn f)], by simp⟩ hp
  have hpre := st_prefix_peep (o := I.opt) hp1
  rw [hst, ← hL.code] at hpre
  have hd := prefix_get_snoc hpre
  have := Image.pos_addr hL.fits hd (by simp)
  simpa [PS.write] using this

end Rules
end Clara.Gen
