import Verif.Gen.Logic
import Verif.Gen.Shape
import Verif.Gen.Word
/-
The relation between source states and machine states, and rules for sequences of instructions.
-/
namespace Clara.Gen
variable {σ : Type}

/-! ### Which programs the correctness theorem covers -/

mutual
/-- `k` argument registers are in use.  `idiv` and the shifts overwrite `rdx` and `rcx` without saving
them, and the code for calls of computed functions does not work while registers are in use. -/
def Expr.ok : Nat → Expr → Bool
  | _, .int _ | _, .bool _ | _, .str _ | _, .typ _ | _, .fnRef _ _ _ | _, .var _ _ => true
  | k, .bin o _ l r =>
    l.ok k && r.ok k &&
    (match o with | .div => decide (k ≤ 2) | .bleft | .bright => decide (k ≤ 3) | _ => true)
  | k, .un _ _ e => e.ok k
  | k, .tern _ c a b => c.ok k && (a.ok k && b.ok k)
  | k, .arrLit _ e => e.ok k
  | _, .callFn _ _ args => okL 0 args
  | _, .callVar _ _ args => okL 0 args
  | k, .callExpr e _ args => decide (k = 0) && (e.ok 0 && okL 0 args)
  | k, .dot _ e _ => e.ok k
  | k, .index _ a i => a.ok k && i.ok k
def okL : Nat → List Expr → Bool
  | _, [] => true
  | i, e :: es => e.ok i && okL (i + 1) es
end

mutual
def Stmt.ok : Stmt → Bool
  | .ret (some e) => e.ok 0
  | .ret none => true
  | .ifs c => c.ok
  | .asg _ l r => l.ok 0 && r.ok 0
  | .loop c b => c.ok 0 && b.ok
  | .block b => b.ok
  | .expr e => e.ok 0
def Chain.ok : Chain → Bool
  | .done => true
  | .els b => b.ok
  | .cond c b n => c.ok 0 && (b.ok && n.ok)
def Stmts.ok : Stmts → Bool
  | .nil => true
  | .cons s ss => s.ok && ss.ok
end

def Body.ok : Body → Bool
  | .block ss => ss.ok
  | .expr e => e.ok 0
  | .cons _ _ _ => true

/-! ### States -/

/-- Heap cells hold the representation of their values, are aligned and lie outside the stack region
`[lim, top)`; the state of the world is the same. -/
structure Rel (lim top : Nat) (S : Store σ) (m : Mach σ) : Prop where
  heap : ∀ a v, S.heap a = some v → m.mem a = v.enc
  away : ∀ a v, S.heap a = some v → ¬ (lim ≤ a.toNat ∧ a.toNat < top)
  word : ∀ a v, S.heap a = some v → a.toNat % 8 = 0
  ext : m.ext = S.ext

/-- The stack from the stack pointer up is untouched, and so is the frame pointer. -/
structure Kept (top : Nat) (m m' : Mach σ) : Prop where
  rsp : m'.reg .rsp = m.reg .rsp
  rbp : m'.reg .rbp = m.reg .rbp
  stk : ∀ a : Word, (m.reg .rsp).toNat ≤ a.toNat → a.toNat < top → m'.mem a = m.mem a

/-- Everything about a program and its image that the correctness proof needs.  `ext` and `rt` say
that C functions and runtime functions do what the semantics of the source says, keep to the calling
convention and need no more stack than stated. -/
structure Ctx (P : Prog σ) (I : Image σ) (C : List Ev) (lim top : Nat) : Prop where
  loaded : Loaded I C
  code : C = genProg P.alloc P.ioob P.fns
  nopanic : Ev.panic ∉ C
  str : ∀ s, I.str s = P.str s
  addr : ∀ f, I.fnAddr f = P.fnAddr f
  htop : top ≤ 2 ^ 64
  ok : ∀ fd ∈ P.fns, fd.body.ok = true ∧ (fd.params.map (·.1)).Nodup
  ext : ∀ f ws S w S' m, P.ext f ws S w S' → m.aligned →
    lim + 8 * P.extNeed f ≤ (m.reg .rsp).toNat → (m.reg .rsp).toNat < top →
    (∀ (j : Nat) (r : Reg) (x : Word), ws[j]? = some (some x) → argRegs[j]? = some r → m.reg r = x) →
    Rel lim top S m →
    I.find (.fn f) = none ∧ (∀ m', ¬ I.rt f m m') ∧ (∃ m', I.cfun f m m') ∧
    ∀ m', I.cfun f m m' → Kept top m m' ∧ Rel lim top S' m' ∧ m'.reg .rax = w
  rt : ∀ f vs S v S' m, P.rt f vs S v S' → m.aligned →
    lim + 8 * P.extNeed f ≤ (m.reg .rsp).toNat → (m.reg .rsp).toNat < top →
    (∀ (j : Nat) (r : Reg) (x : Val), vs[j]? = some (some x) → argRegs[j]? = some r → m.reg r = x.enc) →
    Rel lim top S m →
    I.find (.fn f) = none ∧ (∀ m', ¬ I.cfun f m m') ∧ (∃ m', I.rt f m m') ∧
    ∀ m', I.rt f m m' → Kept top m m' ∧ Rel lim top S' m' ∧ (∀ x, v = some x → m'.reg .rax = x.enc)

section
variable {lim top : Nat}

theorem Rel.congr {S : Store σ} {m m' : Mach σ} (h : Rel lim top S m) (hm : m'.mem = m.mem)
    (he : m'.ext = m.ext) : Rel lim top S m' :=
  ⟨by rw [hm]; exact h.heap, h.away, h.word, by rw [he]; exact h.ext⟩

/-- A change inside the stack region does not disturb the heap. -/
theorem Rel.stack {S : Store σ} {m m' : Mach σ} (h : Rel lim top S m)
    (hm : ∀ a : Word, ¬ (lim ≤ a.toNat ∧ a.toNat < top) → m'.mem a = m.mem a)
    (he : m'.ext = m.ext) : Rel lim top S m' :=
  ⟨fun a v hv => by rw [hm a (h.away a v hv)]; exact h.heap a v hv, h.away, h.word,
    by rw [he]; exact h.ext⟩

/-- Writing an allocated cell. -/
theorem Rel.write {S S' : Store σ} {m m' : Mach σ} {a : Word} {v : Val} (h : Rel lim top S m)
    (hw : S.write a v = some S') (he : m'.ext = m.ext) (hm : m'.mem = (m.store a v.enc).mem) :
    Rel lim top S' m' ∧ ∀ x : Word, lim ≤ x.toNat → x.toNat < top → m'.mem x = m.mem x := by
  unfold Store.write at hw
  split at hw
  · cases hw
  · rename_i old hold
    cases hw
    refine ⟨⟨?_, ?_, ?_, by rw [he]; exact h.ext⟩, ?_⟩
    · intro b w hb
      rw [hm]
      simp only [Mach.store] at hb ⊢
      split at hb
      · rename_i e; subst e; cases hb; simp
      · rename_i e; simp only [e, if_false]; exact h.heap b w hb
    · intro b w hb
      simp only at hb
      split at hb
      · rename_i e; subst e; exact h.away _ _ hold
      · exact h.away b w hb
    · intro b w hb
      simp only at hb
      split at hb
      · rename_i e; subst e; exact h.word _ _ hold
      · exact h.word b w hb
    · intro x h1 h2
      rw [hm]
      simp only [Mach.store]
      rw [if_neg]
      rintro rfl
      exact h.away _ _ hold ⟨h1, h2⟩

theorem Kept.refl (m : Mach σ) : Kept top m m := ⟨rfl, rfl, fun _ _ _ => rfl⟩

theorem Kept.trans {a b c : Mach σ} (h : Kept top a b) (h' : Kept top b c) : Kept top a c :=
  ⟨h'.rsp.trans h.rsp, h'.rbp.trans h.rbp, fun x h1 h2 => by
    rw [h'.stk x (by rw [h.rsp]; exact h1) h2, h.stk x h1 h2]⟩

/-! ### Addresses of stack slots -/

def slotA (m : Mach σ) (s : Nat) : Word := m.reg .rbp - BitVec.ofNat 64 (8 * s)

theorem ea_slot (m : Mach σ) (s : Nat) : m.ea (slotOp s) = slotA m s := by
  simp only [Mach.ea, slotOp, slotA]
  rw [show (0 : Word) = 0#64 from rfl, BitVec.add_zero, BitVec.ofInt_neg, BitVec.ofInt_natCast, ← BitVec.sub_eq_add_neg]

theorem toNat_sub_of_le {a : Word} {n : Nat} (h : n ≤ a.toNat) :
    (a - BitVec.ofNat 64 n).toNat = a.toNat - n := by
  have := a.isLt
  rw [BitVec.toNat_sub, BitVec.toNat_ofNat]
  rw [Nat.mod_eq_of_lt (by omega : n < 2 ^ 64)]
  omega

theorem toNat_slotA {m : Mach σ} {s : Nat} (h : 8 * s ≤ (m.reg .rbp).toNat) :
    (slotA m s).toNat = (m.reg .rbp).toNat - 8 * s := toNat_sub_of_le h

theorem toNat_sub8 {a : Word} (h : 8 ≤ a.toNat) : (a - 8).toNat = a.toNat - 8 :=
  toNat_sub_of_le (n := 8) h

theorem sub8_add8 (a : Word) : a - 8 + 8 = a := by
  rw [BitVec.sub_add_cancel]

theorem idxOf_inj {l : List Nat} {x y : Nat} (hx : x ∈ l) (h : l.idxOf x = l.idxOf y) : x = y := by
  have h1 := List.getElem_idxOf (List.idxOf_lt_length_of_mem hx)
  have hy : l.idxOf y < l.length := by rw [← h]; exact List.idxOf_lt_length_of_mem hx
  have h2 := List.getElem_idxOf hy
  rw [← h1, ← h2]
  congr 1

theorem slot_inj {fd : FnDef} {x y : Nat} (hx : x ∈ fd.syms) (h : fd.slot x = fd.slot y) : x = y :=
  idxOf_inj hx (by simp only [FnDef.slot] at h; omega)

theorem slot_le {fd : FnDef} {x : Nat} (hx : x ∈ fd.syms) : fd.slot x ≤ fd.frame := by
  have := List.idxOf_lt_length_of_mem hx
  simp only [FnDef.slot, FnDef.frame]
  omega

theorem slot_pos {fd : FnDef} {x : Nat} : 1 ≤ fd.slot x := by
  simp only [FnDef.slot]; omega

/-! ### Preconditions -/

/-- The machine state during the execution of the body of `fd`, at a point where the generator has
state `g`; `u` words of stack are available. -/
structure Pre (lim top : Nat) (fd : FnDef) (ρ : Env) (S : Store σ) (g : GS) (m : Mach σ) (u : Nat) :
    Prop where
  sp : (m.reg .rsp).toNat + 8 * g.sp = (m.reg .rbp).toNat
  al : (m.reg .rbp).toNat % 16 = 0
  fr : fd.frame ≤ g.sp
  bud : lim + 8 * u ≤ (m.reg .rsp).toNat
  hi : (m.reg .rbp).toNat + 16 ≤ top
  env : ∀ x w, ρ x = some w → x ∈ fd.syms ∧ m.mem (slotA m (fd.slot x)) = w.enc
  rel : Rel lim top S m

theorem Pre.less {fd : FnDef} {ρ : Env} {S : Store σ} {g : GS} {m : Mach σ} {u u' : Nat}
    (h : Pre lim top fd ρ S g m u) (hu : u' ≤ u) : Pre lim top fd ρ S g m u' :=
  ⟨h.sp, h.al, h.fr, by have := h.bud; omega, h.hi, h.env, h.rel⟩

theorem Pre.same {fd : FnDef} {ρ : Env} {S : Store σ} {g g' : GS} {m : Mach σ} {u : Nat}
    (h : Pre lim top fd ρ S g m u) (hg : Same g g') : Pre lim top fd ρ S g' m u :=
  ⟨by rw [hg.1]; exact h.sp, h.al, by rw [hg.1]; exact h.fr, h.bud, h.hi, h.env, h.rel⟩

theorem Pre.spEq {fd : FnDef} {ρ : Env} {S : Store σ} {g g' : GS} {m : Mach σ} {u : Nat}
    (h : Pre lim top fd ρ S g m u) (hg : g'.sp = g.sp) : Pre lim top fd ρ S g' m u :=
  ⟨by rw [hg]; exact h.sp, h.al, by rw [hg]; exact h.fr, h.bud, h.hi, h.env, h.rel⟩

theorem Pre.slot_in {fd : FnDef} {ρ : Env} {S : Store σ} {g : GS} {m : Mach σ} {u : Nat}
    (h : Pre lim top fd ρ S g m u) {x : Nat} (hx : x ∈ fd.syms) :
    (slotA m (fd.slot x)).toNat + 8 * fd.slot x = (m.reg .rbp).toNat ∧
    (m.reg .rsp).toNat ≤ (slotA m (fd.slot x)).toNat := by
  have h1 := slot_le hx
  have h2 := h.fr
  have h3 := h.sp
  rw [toNat_slotA (by omega)]
  omega

theorem Pre.kept {fd : FnDef} {ρ : Env} {S S' : Store σ} {g : GS} {m m' : Mach σ} {u : Nat}
    (h : Pre lim top fd ρ S g m u) (hk : Kept top m m') (hr : Rel lim top S' m') :
    Pre lim top fd ρ S' g m' u := by
  refine ⟨by rw [hk.rsp, hk.rbp]; exact h.sp, by rw [hk.rbp]; exact h.al, h.fr,
    by rw [hk.rsp]; exact h.bud, by rw [hk.rbp]; exact h.hi, ?_, hr⟩
  intro x w hx
  obtain ⟨h1, h2⟩ := h.env x w hx
  refine ⟨h1, ?_⟩
  have hs : slotA m' (fd.slot x) = slotA m (fd.slot x) := by simp only [slotA, hk.rbp]
  obtain ⟨h3, h4⟩ := h.slot_in h1
  have := h.hi
  rw [hs, hk.stk _ h4 (by omega), h2]

/-- After saving a word on the stack. -/
theorem Pre.push {fd : FnDef} {ρ : Env} {S : Store σ} {g : GS} {m : Mach σ} {u : Nat} {r : Reg}
    (h : Pre lim top fd ρ S g m (1 + u)) (h1 : r ≠ .rsp) (h2 : r ≠ .rbp) (w x : Word) :
    Pre lim top fd ρ S g.inc ((m.set r w).push x) u := by
  have hb := h.bud
  have hsp := h.sp
  have hal := h.al
  have hhi := h.hi
  have e1 : ((m.set r w).push x).reg .rsp = m.reg .rsp - 8 := by
    simp [Mach.push, Mach.set, Mach.store, Ne.symm h1]
  have e2 : ((m.set r w).push x).reg .rbp = m.reg .rbp := by
    simp [Mach.push, Mach.set, Mach.store, Ne.symm h2]
  have e3 : ∀ a, a ≠ m.reg .rsp - 8 → ((m.set r w).push x).mem a = m.mem a := by
    intro a ha
    simp only [Mach.push, Mach.set, Mach.store, Ne.symm h1, if_false]
    rw [if_neg ha]
  have en := toNat_sub8 (a := m.reg .rsp) (by omega)
  refine ⟨?_, by rw [e2]; exact h.al, ?_, ?_, by rw [e2]; exact h.hi, ?_, ?_⟩
  · rw [e1, e2, en]; simp only [GS.inc]; omega
  · have := h.fr; simp only [GS.inc]; omega
  · rw [e1, en]; omega
  · intro y v hy
    obtain ⟨h3, h4⟩ := h.env y v hy
    refine ⟨h3, ?_⟩
    have hs : slotA ((m.set r w).push x) (fd.slot y) = slotA m (fd.slot y) := by simp only [slotA, e2]
    obtain ⟨h5, h6⟩ := h.slot_in h3
    rw [hs, e3, h4]
    intro he
    rw [he, en] at h6
    omega
  · refine h.rel.stack ?_ ?_
    · intro a ha
      apply e3
      rintro rfl
      rw [en] at ha
      omega
    · rfl

/-- After evaluating something above a saved word. -/
theorem Kept.pushed {m m' : Mach σ} {r : Reg} {w x : Word} (h1 : r ≠ .rsp) (h2 : r ≠ .rbp)
    (hb : 8 ≤ (m.reg .rsp).toNat) (ht : (m.reg .rsp).toNat ≤ top)
    (h : Kept top ((m.set r w).push x) m') :
    m'.reg .rsp = m.reg .rsp - 8 ∧ m'.mem (m'.reg .rsp) = x ∧ m'.reg .rbp = m.reg .rbp ∧
    (∀ a : Word, (m.reg .rsp).toNat ≤ a.toNat → a.toNat < top → m'.mem a = m.mem a) := by
  have e1 : ((m.set r w).push x).reg .rsp = m.reg .rsp - 8 := by
    simp [Mach.push, Mach.set, Mach.store, Ne.symm h1]
  have e2 : ((m.set r w).push x).reg .rbp = m.reg .rbp := by
    simp [Mach.push, Mach.set, Mach.store, Ne.symm h2]
  have en := toNat_sub8 (a := m.reg .rsp) hb
  refine ⟨h.rsp.trans e1, ?_, h.rbp.trans e2, ?_⟩
  · rw [h.stk _ (by rw [h.rsp]; exact Nat.le_refl _) (by rw [h.rsp, e1, en]; omega), h.rsp, e1]
    simp [Mach.push, Mach.set, Mach.store, Ne.symm h1]
  · intro a ha hat
    rw [h.stk a (by rw [e1, en]; omega) hat]
    simp only [Mach.push, Mach.set, Mach.store, Ne.symm h1, if_false]
    rw [if_neg]
    rintro rfl
    rw [en] at ha
    omega

end

/-! ### Sequences of instructions -/

/-- Executing `code` from `v` ends in a state that satisfies `Q`. -/
def Exe (I : Image σ) (C : List Ev) (code : List Ev) (v : Mach σ) (Q : Mach σ → Prop) : Prop :=
  ∀ G pre, pre ++ code <+: C → (∀ v', Q v' → Run I G (pre ++ code) v') → Run I G pre v

section
variable {I : Image σ} {C c c' : List Ev} {v v' : Mach σ} {Q Q' : Mach σ → Prop}

theorem Exe.nil (h : Q v) : Exe I C [] v Q := by
  intro G pre _ hk
  have := hk v h
  simpa using this

theorem Exe.mono (h : Exe I C c v Q) (hq : ∀ v', Q v' → Q' v') : Exe I C c v Q' :=
  fun G pre hp hk => h G pre hp (fun v' hv => hk v' (hq v' hv))

theorem prefix_left {a b C : List Ev} {pre : List Ev} (h : pre ++ (a ++ b) <+: C) :
    pre ++ a <+: C := by
  refine List.IsPrefix.trans ?_ h
  exact ⟨b, by simp⟩

theorem Exe.append (h : Exe I C c v Q) (h' : ∀ v', Q v' → Exe I C c' v' Q') :
    Exe I C (c ++ c') v Q' := by
  intro G pre hp hk
  refine h G pre (prefix_left hp) ?_
  intro v1 hv1
  refine h' v1 hv1 G (pre ++ c) (by simpa using hp) ?_
  intro v2 hv2
  simpa using hk v2 hv2

theorem Exe.ins {i : Ins} (hL : Loaded I C) (he : exec I.abs v i = some v')
    (h : Exe I C c v' Q) (hpl : i.plainSrc = true := by rfl) (hs : i.straight = true := by rfl) :
    Exe I C (.ins i :: c) v Q := by
  intro G pre hp hk
  refine Run.straight hL (prefix_left (a := [.ins i]) (b := c) hp) hpl hs he ?_
  exact h G _ (by simpa using hp) (by simpa using hk)

theorem Exe.mov {r : Reg} {y : Opd} (hL : Loaded I C)
    (h : ∀ w, Exe I C c ((v.set r w).put y (v.reg r)) Q) :
    Exe I C (.ins (.mov (.reg r) y) :: c) v Q := by
  intro G pre hp hk
  refine Run.mov_reg hL (prefix_left (a := [_]) (b := c) hp) ?_
  intro w
  exact h w G _ (by simpa using hp) (by simpa using hk)

theorem Exe.push {r : Reg} (hL : Loaded I C)
    (h : ∀ w, Exe I C c ((v.set r w).push (v.reg r)) Q) :
    Exe I C (.ins (.push (.reg r)) :: c) v Q := by
  intro G pre hp hk
  refine Run.push_reg hL (prefix_left (a := [_]) (b := c) hp) ?_
  intro w
  exact h w G _ (by simpa using hp) (by simpa using hk)

theorem Exe.flush (hL : Loaded I C) (h : Exe I C c v Q) : Exe I C (.flush :: c) v Q := by
  intro G pre hp hk
  refine Run.flush hL (prefix_left (a := [_]) (b := c) hp) ?_
  exact h G _ (by simpa using hp) (by simpa using hk)

theorem Exe.label {l : Label} (hL : Loaded I C) (h : Exe I C c v Q) :
    Exe I C (.label l :: c) v Q := by
  intro G pre hp hk
  refine Run.label hL (prefix_left (a := [_]) (b := c) hp) ?_
  exact h G _ (by simpa using hp) (by simpa using hk)

/-- Code with a panic is not part of the program. -/
theorem Exe.panic (hn : Ev.panic ∉ C) (h : Ev.panic ∈ c) : Exe I C c v Q := by
  intro G pre hp hk
  obtain ⟨t, ht⟩ := hp
  exact absurd (by rw [← ht]; simp [h]) hn

end

/-- Only the given registers (and the flags) differ. -/
structure Mod (rs : List Reg) (v v' : Mach σ) : Prop where
  reg : ∀ r, r ∉ rs → v'.reg r = v.reg r
  mem : v'.mem = v.mem
  ext : v'.ext = v.ext

theorem Mod.refl (rs : List Reg) (v : Mach σ) : Mod rs v v := ⟨fun _ _ => rfl, rfl, rfl⟩

theorem Mod.trans {rs : List Reg} {a b c : Mach σ} (h : Mod rs a b) (h' : Mod rs b c) : Mod rs a c :=
  ⟨fun r hr => (h'.reg r hr).trans (h.reg r hr), h'.mem.trans h.mem, h'.ext.trans h.ext⟩

theorem Mod.kept {rs : List Reg} {v v' : Mach σ} {top : Nat} (h : Mod rs v v') (h1 : .rsp ∉ rs)
    (h2 : .rbp ∉ rs) : Kept top v v' :=
  ⟨h.reg _ h1, h.reg _ h2, fun _ _ _ => by rw [h.mem]⟩

section
variable {P : Prog σ} {I : Image σ} {C : List Ev} {lim top : Nat} {c : List Ev} {v : Mach σ}
  {Q : Mach σ → Prop}

/-- Untagging a register. -/
theorem Exe.untag (X : Ctx P I C lim top) {t : TK} {r : Reg}
    (h : t = .integer → ∀ v', Mod [r] v v' → v'.reg r = (v.reg r).sshiftRight 1 → Exe I C c v' Q) :
    Exe I C (untagAs t r ++ c) v Q := by
  unfold untagAs
  split
  · rename_i ht
    simp only [List.cons_append, List.nil_append]
    refine Exe.ins X.loaded rfl ?_
    refine h ht _ ⟨?_, rfl, rfl⟩ ?_
    · intro r' hr'
      simp only [List.mem_singleton] at hr'
      simp [Mach.noFlags, Mach.set, hr']
    · simp [Mach.noFlags, Mach.set, Cnt.val]
  · exact Exe.panic X.nopanic (by simp)

/-- Tagging a register. -/
theorem Exe.tag (X : Ctx P I C lim top) {t : TK} {r : Reg}
    (h : t = .integer → ∀ v', Mod [r] v v' → v'.reg r = (Val.int ((v.reg r).setWidth 63)).enc →
      Exe I C c v' Q) :
    Exe I C (tagAs t r ++ c) v Q := by
  unfold tagAs
  split
  · rename_i ht
    simp only [List.cons_append, List.nil_append]
    refine Exe.ins X.loaded rfl ?_
    refine Exe.ins X.loaded rfl ?_
    refine h ht _ ⟨?_, rfl, rfl⟩ ?_
    · intro r' hr'
      simp only [List.mem_singleton] at hr'
      simp [Mach.noFlags, Mach.set, hr']
    · rw [← tag_word]
      simp [Mach.noFlags, Mach.set, Cnt.val, Alu.eval, Mach.get]
  · exact Exe.panic X.nopanic (by simp)

end
end Clara.Gen
