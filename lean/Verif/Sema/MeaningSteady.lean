import Verif.Sema.MeaningOk
set_option linter.unusedVariables false
/-
Programs with steady loops (C68): in their runs the ends of ranges and the arrays of loops always have the same values, so
a run of such a program is one that `again` of `Loops` asks for.
-/
namespace Clara.Sema.Chk
open Clara.Types Clara.Sema
open Clara.Gen (Val Store Out Word)

/-! ### Steady loops -/

mutual
/-- The names that are assigned in the statement. -/
def assignS : S → List String
  | .asg (.ident x _) _ => [x]
  | .loop _ ss => assignB ss
  | .for_ _ _ _ ss => assignB ss
  | .ifs c => assignCh c
  | .match_ _ cs => assignCs cs
  | _ => []
def assignCh : Ch → List String
  | .done => []
  | .els ss => assignB ss
  | .cond _ ss n => assignB ss ++ assignCh n
def assignB : List S → List String
  | [] => []
  | s :: ss => assignS s ++ assignB ss
def assignCs : List Case → List String
  | [] => []
  | .mk _ _ _ ss :: cs => assignB ss ++ assignCs cs
end

/-- The end of a range is a number, or a variable that is not among those assigned. -/
def SteadyEnd (as : List String) : X → Prop
  | .lit (.int _ _) _ => True
  | .ident x ⟨_, some (s :: _)⟩ => s.isGlobal = false ∧ x ∉ as
  | _ => False

/-- The array of a loop is an array literal, or a variable that is not among those assigned. -/
def SteadyArr (as : List String) : X → Prop
  | .arr _ _ => True
  | .ident x ⟨_, some (s :: _)⟩ => s.isGlobal = false ∧ x ∉ as
  | _ => False

mutual
/-- Range loops do not assign their variable or the end of the range, array loops do not assign the array; and neither
the end nor the array is one of the variables `cn`, which are not in the frame. -/
def SteadyS (cn : List String) : S → Prop
  | .loop _ ss => SteadyB cn ss
  | .for_ x _ (.bin .range _ hi _) ss => x ∉ assignB ss ∧ SteadyEnd (cn ++ assignB ss) hi ∧ SteadyB cn ss
  | .for_ x _ e ss => SteadyArr (cn ++ assignB ss) e ∧ SteadyB cn ss
  | .ifs c => SteadyCh cn c
  | .match_ _ cs => SteadyCs cn cs
  | _ => True
def SteadyCh (cn : List String) : Ch → Prop
  | .done => True
  | .els ss => SteadyB cn ss
  | .cond _ ss n => SteadyB cn ss ∧ SteadyCh cn n
def SteadyB (cn : List String) : List S → Prop
  | [] => True
  | s :: ss => SteadyS cn s ∧ SteadyB cn ss
def SteadyCs (cn : List String) : List Case → Prop
  | [] => True
  | .mk _ _ _ ss :: cs => SteadyB cn ss ∧ SteadyCs cn cs
end

def SteadyFn (f : Fn) : Prop :=
  match f.body with
  | .block ss => SteadyB [] ss
  | _ => True

/-- The loops of a function literal do not end at captured variables. -/
def SteadyLit : X → Prop
  | .fnB h _ ss _ => SteadyB (firsts (without (h.params.map (·.1)) (freeB ss))) ss
  | _ => True

theorem steady_for {x : String} {a : Ann} {e : X} {ss : List S} {cn : List String} (he : ∀ lo hi c, e ≠ .bin .range lo hi c)
    (h : SteadyS cn (.for_ x a e ss)) : SteadyArr (cn ++ assignB ss) e ∧ SteadyB cn ss := by
  cases e with
  | bin op lo hi c =>
    cases op with
    | range => exact absurd rfl (he lo hi c)
    | _ => exact h
  | _ => exact h

variable {σ : Type}

/-! ### What a run does not change -/

/-- The same variables, and those that are not among `as` have what they had. -/
def KeepsV (as : List String) (γ γ' : Vars) : Prop :=
  All₂ (fun p q => p.1 = q.1 ∧ (p.1 ∉ as → p = q) ∧ ∀ a, q.2 = .ref a → p.2 = .ref a) γ γ'

theorem KeepsV.refl (as : List String) : ∀ γ : Vars, KeepsV as γ γ
  | [] => .nil
  | p :: γ => .cons ⟨rfl, fun _ => rfl, fun _ h => h⟩ (KeepsV.refl as γ)

theorem KeepsV.mono {as bs : List String} {γ γ' : Vars} (h : KeepsV as γ γ') (hs : ∀ x ∈ as, x ∈ bs) : KeepsV bs γ γ' :=
  all₂_imp h (fun p q k => ⟨k.1, fun hn => k.2.1 (fun hc => hn (hs _ hc)), k.2.2⟩)

theorem KeepsV.trans {as : List String} {γ γ1 γ2 : Vars} (h : KeepsV as γ γ1) (h' : KeepsV as γ1 γ2) : KeepsV as γ γ2 := by
  unfold KeepsV at *
  induction h generalizing γ2 with
  | nil => exact h'
  | cons k _ ih =>
    cases h' with
    | cons k' h' => exact .cons ⟨k.1.trans k'.1, fun hn => (k.2.1 hn).trans (k'.2.1 (k.1 ▸ hn)), fun a e => k.2.2 a (k'.2.2 a e)⟩ (ih h')

theorem KeepsV.set (x : String) (v : Val) : ∀ γ : Vars, (∃ w, γ.lookup x = some (.val w)) → KeepsV [x] γ (Vars.set γ x v)
  | [], _ => .nil
  | (y, c) :: γ, h => by
    simp only [Vars.set]
    split
    · rename_i e
      subst e
      refine .cons ⟨rfl, fun hn => absurd List.mem_cons_self hn, fun a e => ?_⟩ (KeepsV.refl _ _)
      cases e
    · rename_i e
      refine .cons ⟨rfl, fun _ => rfl, fun _ h => h⟩ (KeepsV.set x v γ ?_)
      obtain ⟨w, h⟩ := h
      simp only [List.lookup] at h
      split at h
      · rename_i k; exact absurd (by simpa using k) (Ne.symm e)
      · exact ⟨w, h⟩

theorem KeepsV.lookup {as : List String} {γ γ' : Vars} (h : KeepsV as γ γ') {x : String} (hx : x ∉ as) : γ'.lookup x = γ.lookup x := by
  unfold KeepsV at h
  induction h with
  | nil => rfl
  | @cons p q _ _ k _ ih =>
    obtain ⟨y, c⟩ := p
    obtain ⟨y', c'⟩ := q
    obtain ⟨k1, k2, -⟩ := k
    simp only at k1
    subst k1
    simp only [List.lookup]
    split
    · rename_i e
      have e : x = y := by simpa using e
      subst e
      have := k2 hx
      cases this
      rfl
    · exact ih

theorem KeepsV.split {as : List String} {a b γ' : Vars} (h : KeepsV as (a ++ b) γ') : ∃ a' b', γ' = a' ++ b' ∧ KeepsV as a a' ∧ KeepsV as b b' := by
  induction a generalizing γ' with
  | nil => exact ⟨[], γ', rfl, .nil, h⟩
  | cons p a ih =>
    cases h with
    | cons k h =>
      obtain ⟨a', b', rfl, h1, h2⟩ := ih h
      exact ⟨_ :: a', b', rfl, .cons k h1, h2⟩

/-- All have values. -/
def PlainV (γ : Vars) : Prop := ∀ q ∈ γ, ∀ a, q.2 ≠ .ref a

theorem PlainV.keeps {as : List String} {γ γ' : Vars} (h : PlainV γ) (k : KeepsV as γ γ') : PlainV γ' := by
  intro q hq a e
  obtain ⟨p, hp, h1, h2, h3⟩ := all₂_right k q hq
  exact h p hp a (h3 a e)

/-- New variables, and the old ones as `KeepsV` says. -/
def Frm (as : List String) (γ γ1 : Vars) : Prop := ∃ pre γ', γ1 = pre ++ γ' ∧ PlainV pre ∧ KeepsV as γ γ'

theorem KeepsV.frm {as : List String} {γ γ1 : Vars} (h : KeepsV as γ γ1) : Frm as γ γ1 := ⟨[], γ1, rfl, nofun, h⟩

theorem Frm.mono {as bs : List String} {γ γ' : Vars} (h : Frm as γ γ') (hs : ∀ x ∈ as, x ∈ bs) : Frm bs γ γ' := by
  obtain ⟨pre, γ1, h1, h2, h3⟩ := h
  exact ⟨pre, γ1, h1, h2, h3.mono hs⟩

theorem Frm.trans {as : List String} {γ γ1 γ2 : Vars} (h : Frm as γ γ1) (h' : Frm as γ1 γ2) : Frm as γ γ2 := by
  obtain ⟨pre, γ', rfl, h2, h3⟩ := h
  obtain ⟨pre', γ'', rfl, h5, h6⟩ := h'
  obtain ⟨a, b, rfl, k1, k2⟩ := h6.split
  refine ⟨pre' ++ a, b, by simp, ?_, h3.trans k2⟩
  intro q hq
  rcases List.mem_append.mp hq with hq | hq
  · exact h5 q hq
  · exact h2.keeps k1 q hq

theorem leave_eq {pre γ γ' : Vars} (h : γ'.length = γ.length) : Vars.leave γ (pre ++ γ') = γ' := by
  simp [Vars.leave, h]

/-- The old variables after a block with the new variables `a`. -/
theorem Frm.leave {as : List String} {a γ γ1 : Vars} (h : Frm as (a ++ γ) γ1) : KeepsV as γ (Vars.leave γ γ1) := by
  obtain ⟨pre, γ', rfl, h2, h3⟩ := h
  obtain ⟨a', b', rfl, k1, k2⟩ := h3.split
  rw [← List.append_assoc, leave_eq (All₂.length k2).symm]
  exact k2

/-- A new variable that is not assigned has its value at the end. -/
theorem Frm.top {as : List String} {x : String} {c : Cell} {γ γ1 : Vars} (h : Frm as ((x, c) :: γ) γ1) (hx : x ∉ as) :
    Vars.leave ((x, c) :: γ) γ1 = (x, c) :: Vars.leave γ γ1 := by
  obtain ⟨pre, γ', rfl, h2, h3⟩ := h
  cases h3 with
  | @cons p q _ b' k k2 =>
    have := k.2.1 hx
    subst this
    have hl := All₂.length k2
    rw [leave_eq (by simp [hl]), List.append_cons, leave_eq hl.symm]

def XFrame : XJd σ → Prop
  | .stmt γ _ s _ γ' _ => Frm (assignS s) γ γ'
  | .stmts γ _ ss _ γ' _ => Frm (assignB ss) γ γ'
  | .chain γ _ c _ γ' _ => KeepsV (assignCh c) γ γ'
  | .range γ _ _ _ _ _ ss _ γ' _ => KeepsV (assignB ss) γ γ'
  | .elems γ _ _ _ _ _ ss _ γ' _ => KeepsV (assignB ss) γ γ'
  | .loc γ _ e (.var x) _ => (∃ a, e = .ident x a) ∧ ∃ w, γ.lookup x = some (.val w)
  | _ => True

theorem caseFor_assign {fid : Nat} {xs : List String} {ss : List S} : ∀ {cs : List Case}, caseFor fid cs = some (xs, ss) → ∀ y ∈ assignB ss, y ∈ assignCs cs
  | [], h => by simp [caseFor] at h
  | .mk _ sym vars ss' :: cs, h => by
    simp only [caseFor] at h
    intro y hy
    simp only [assignCs, List.mem_append]
    split at h
    · cases h; exact .inl hy
    · exact .inr (caseFor_assign h y hy)

theorem XBig.frame {R : Loops} {D : Decls} {P : XProg σ} {j : XJd σ} (h : XBig R D P j) : XFrame j := by
  induction h with
  | int => trivial
  | bool => trivial
  | str => trivial
  | typ => trivial
  | var => trivial
  | fnRef => trivial
  | anon => trivial
  | closure => trivial
  | bin => trivial
  | cmp => trivial
  | un => trivial
  | ternT => trivial
  | ternF => trivial
  | call => trivial
  | callRt => trivial
  | callExt => trivial
  | callLit => trivial
  | callVal => trivial
  | valFn => trivial
  | valLit => trivial
  | valCl => trivial
  | arr => trivial
  | fillNil => trivial
  | fillCons => trivial
  | dot => trivial
  | length => trivial
  | index => trivial
  | argsNil => trivial
  | argsCons => trivial
  | litRet => trivial
  | litEnd => trivial
  | litExpr => trivial
  | fnRet => trivial
  | fnEnd => trivial
  | fnExpr => trivial
  | fnCons => trivial
  | locVar h0 h1 => exact ⟨⟨_, rfl⟩, _, h1⟩
  | locRef => trivial
  | locDot => trivial
  | locIndex => trivial
  | expr => exact (KeepsV.refl _ _).frm
  | ret0 => exact (KeepsV.refl _ _).frm
  | ret => exact (KeepsV.refl _ _).frm
  | @das γ S x b r v S1 _ _ =>
    refine ⟨[(x, .val (some v))], γ, rfl, ?_, .refl _ _⟩
    intro q hq a e
    rw [List.mem_singleton.mp hq] at e
    cases e
  | asgVar _ _ _ ih =>
    obtain ⟨⟨a, rfl⟩, hw⟩ := ih
    exact (KeepsV.set _ _ _ hw).frm
  | asgMem => exact (KeepsV.refl _ _).frm
  | ifs _ ih => exact KeepsV.frm ih
  | loopF => exact (KeepsV.refl _ _).frm
  | loopT _ _ _ _ ih1 ih2 => exact (Frm.leave (a := []) ih1).frm.trans ih2
  | loopR _ _ _ ih => exact (Frm.leave (a := []) ih).frm
  | forR _ _ _ _ _ _ _ ih => exact KeepsV.frm ih
  | rangeNil => exact .refl _ _
  | rangeCons _ _ _ _ _ ih1 ih2 => exact (Frm.leave (a := [_]) ih1).trans ih2
  | rangeRet _ _ _ ih1 => exact Frm.leave (a := [_]) ih1
  | forA _ _ _ _ _ ih => exact KeepsV.frm ih
  | elemsEnd => exact .refl _ _
  | elemsCons _ _ _ _ _ _ _ ih1 ih2 => exact (Frm.leave (a := [_]) ih1).trans ih2
  | elemsRet _ _ _ _ _ _ ih1 => exact Frm.leave (a := [_]) ih1
  | match_ _ _ _ _ _ hc _ _ _ _ ih => exact ((Frm.leave ih).mono (caseFor_assign hc)).frm
  | chDone => exact .refl _ _
  | chElse _ ih => exact Frm.leave (a := []) ih
  | chT _ _ _ ih => exact (Frm.leave (a := []) ih).mono (fun _ h => List.mem_append_left _ h)
  | chF _ _ _ ih => exact KeepsV.mono ih (fun _ h => List.mem_append_right _ h)
  | nil => exact (KeepsV.refl _ _).frm
  | cons _ _ ih1 ih2 => exact (Frm.mono ih1 (fun _ h => List.mem_append_left _ h)).trans (Frm.mono ih2 (fun _ h => List.mem_append_right _ h))
  | consR _ ih1 => exact Frm.mono ih1 (fun _ h => List.mem_append_left _ h)

/-! ### Runs of steady programs -/

/-- Variables that are not among `cn` have values. -/
def ValsBut (cn : List String) (γ : Vars) : Prop := ∀ q ∈ γ, ∀ a, q.2 = .ref a → q.1 ∈ cn

theorem ValsBut.app {cn : List String} {a γ : Vars} (h : ValsBut cn γ) (ha : PlainV a) : ValsBut cn (a ++ γ) := by
  intro q hq b e
  rcases List.mem_append.mp hq with hq | hq
  · exact absurd e (ha q hq b)
  · exact h q hq b e

theorem ValsBut.push {cn : List String} {γ : Vars} {x : String} {v : Option Val} (h : ValsBut cn γ) : ValsBut cn ((x, .val v) :: γ) := by
  refine h.app (a := [_]) ?_
  intro q hq b e
  rw [List.mem_singleton.mp hq] at e
  cases e

theorem ValsBut.keeps {cn as : List String} {γ γ' : Vars} (h : ValsBut cn γ) (k : KeepsV as γ γ') : ValsBut cn γ' := by
  intro q hq a e
  obtain ⟨p, hp, h1, h2, h3⟩ := all₂_right k q hq
  rw [← h1]
  exact h p hp a (h3 a e)

theorem ValsBut.frm {cn as : List String} {γ γ' : Vars} (h : ValsBut cn γ) (k : Frm as γ γ') : ValsBut cn γ' := by
  obtain ⟨pre, γ'', rfl, h2, h3⟩ := k
  exact (h.keeps h3).app h2

theorem plain_bind (xs : List String) (vs : List (Option Val)) : PlainV (Vars.bind xs vs) := by
  intro q hq a e
  simp only [Vars.bind, List.mem_reverse] at hq
  have := (List.of_mem_zip hq).2
  obtain ⟨v, -, hv⟩ := List.mem_map.mp this
  rw [← hv] at e
  cases e

theorem valsBut_at (xs : List String) (a : Word) : ValsBut xs (Vars.at xs a) := by
  intro q hq b e
  simp only [Vars.at, List.mem_map] at hq
  obtain ⟨r, hr, rfl⟩ := hq
  exact List.fst_mem_of_mem_zipIdx hr

/-- The end of a range, or the array of a loop, is a number or a variable with the value, not among those assigned. -/
def Held (as : List String) (γ : Vars) : X → Val → Prop
  | .lit (.int i _) _, v => v = .int (BitVec.ofInt 63 i)
  | .ident x ⟨_, some (s :: _)⟩, v => s.isGlobal = false ∧ γ.lookup x = some (.val (some v)) ∧ x ∉ as
  | _, _ => False

theorem Held.run {as : List String} {γ : Vars} {e : X} {v : Val} (h : Held as γ e v) {R : Loops} {D : Decls} {P : XProg σ} (S : Store σ) :
    XBig R D P (.expr γ S e (some v) S) := by
  unfold Held at h
  split at h
  · subst h; exact .int
  · exact .var h.1 (by simp [Vars.value, h.2.1])
  · exact h.elim

theorem Held.keeps {as : List String} {γ γ' : Vars} {e : X} {v : Val} (h : Held as γ e v) (k : KeepsV as γ γ') : Held as γ' e v := by
  unfold Held at h ⊢
  split at h
  · exact h
  · exact ⟨h.1, by rw [k.lookup h.2.2]; exact h.2.1, h.2.2⟩
  · exact h.elim

theorem lookup_vals {cn : List String} {γ : Vars} (h : ValsBut cn γ) {x : String} (hx : x ∉ cn) {c : Cell} (hl : γ.lookup x = some c) : ∃ v, c = .val v := by
  cases c with
  | val v => exact ⟨v, rfl⟩
  | ref a =>
    exfalso
    induction γ with
    | nil => cases hl
    | cons q γ ih =>
      obtain ⟨y, c'⟩ := q
      simp only [List.lookup] at hl
      split at hl
      · rename_i e
        have e : x = y := by simpa using e
        cases hl
        exact hx (e ▸ h (y, .ref a) List.mem_cons_self a rfl)
      · exact ih (fun q hq => h q (List.mem_cons_of_mem _ hq)) hl

/-- The value of a variable outside `cn`. -/
theorem held_var {R : Loops} {D : Decls} {P : XProg σ} (hT : ∀ t k, (t, k) ∈ P.lits → isLit t = true) {cn as : List String} {γ : Vars} {S S' : Store σ}
    {x : String} {t : Option Ty} {s : Alt} {r : Sym} {v : Val} (hv : ValsBut cn γ) (hg : s.isGlobal = false) (hx : x ∉ cn ++ as)
    (h : XBig R D P (.expr γ S (.ident x ⟨t, some (s :: r)⟩) (some v) S')) : S' = S ∧ Held as γ (.ident x ⟨t, some (s :: r)⟩) v := by
  simp only [List.mem_append, not_or] at hx
  cases h with
  | var h1 h2 =>
    refine ⟨rfl, hg, ?_, hx.2⟩
    simp only [Vars.value] at h2
    split at h2
    · rename_i w hl; rw [hl, h2]
    · rename_i a hl
      obtain ⟨w, hw⟩ := lookup_vals hv hx.1 hl
      cases hw
    · cases h2
  | fnRef h1 => rw [hg] at h1; cases h1
  | anon h1 => exact absurd (hT _ _ h1) (by simp [isLit])
  | closure h1 => exact absurd (hT _ _ h1) (by simp [isLit])

theorem held_end {R : Loops} {D : Decls} {P : XProg σ} (hT : ∀ t k, (t, k) ∈ P.lits → isLit t = true) {cn as : List String} {γ : Vars} {S S' : Store σ}
    {e : X} {v : Val} (hv : ValsBut cn γ) (hs : SteadyEnd (cn ++ as) e) (h : XBig R D P (.expr γ S e (some v) S')) : S' = S ∧ Held as γ e v := by
  unfold SteadyEnd at hs
  split at hs
  · cases h with
    | int => exact ⟨rfl, rfl⟩
    | anon h1 => exact absurd (hT _ _ h1) (by simp [isLit])
    | closure h1 => exact absurd (hT _ _ h1) (by simp [isLit])
  · exact held_var hT hv hs.1 hs.2 h
  · exact hs.elim

theorem held_arr {R : Loops} {D : Decls} {P : XProg σ} (hT : ∀ t k, (t, k) ∈ P.lits → isLit t = true) {cn as : List String} {γ : Vars} {S S' : Store σ}
    {e : X} {v : Val} (hv : ValsBut cn γ) (hs : SteadyArr (cn ++ as) e) (hn : isArr e = false) (h : XBig R D P (.expr γ S e (some v) S')) : S' = S ∧ Held as γ e v := by
  unfold SteadyArr at hs
  split at hs
  · cases hn
  · exact held_var hT hv hs.1 hs.2 h
  · exact hs.elim

theorem caseFor_steady {cn : List String} {fid : Nat} {xs : List String} {ss : List S} : ∀ {cs : List Case}, caseFor fid cs = some (xs, ss) → SteadyCs cn cs → SteadyB cn ss
  | [], h, _ => by simp [caseFor] at h
  | .mk _ sym vars ss' :: cs, h, hs => by
    simp only [caseFor] at h
    split at h
    · cases h; exact hs.1
    · exact caseFor_steady h hs.2

/-- What a run of a steady program says about `again`. -/
def XAgain (R : Loops) (D : Decls) (P : XProg σ) : XJd σ → Prop
  | .stmt γ S s o γ' S' => ∀ cn, SteadyS cn s → ValsBut cn γ → XBig R D P (.stmt γ S s o γ' S')
  | .stmts γ S ss o γ' S' => ∀ cn, SteadyB cn ss → ValsBut cn γ → XBig R D P (.stmts γ S ss o γ' S')
  | .chain γ S c o γ' S' => ∀ cn, SteadyCh cn c → ValsBut cn γ → XBig R D P (.chain γ S c o γ' S')
  | .range γ S x hi n vs ss o γ' S' => ∀ cn, SteadyB cn ss → ValsBut cn γ → x ∉ assignB ss → Held (assignB ss) γ hi (.int n) →
      XBig R D P (.range γ S x hi n vs ss o γ' S')
  | .elems γ S x e p i ss o γ' S' => ∀ cn, SteadyB cn ss → ValsBut cn γ → (isArr e = false → Held (assignB ss) γ e (.ptr p)) →
      XBig R D P (.elems γ S x e p i ss o γ' S')
  | .lit e γ vs S v S' => SteadyLit e → ValsBut (captured e) γ → XBig R D P (.lit e γ vs S v S')
  | .fn p f vs S v S' => SteadyFn f → XBig R D P (.fn p f vs S v S')
  | j => XBig R D P j

theorem steady_again {r : Bool → BitVec 63 → BitVec 63 → List (BitVec 63) → Prop} {D : Decls} {P : XProg σ}
    (hT : ∀ t k, (t, k) ∈ P.lits → isLit t = true) (hs : ∀ fid p f, (fid, p, f) ∈ P.fns → SteadyFn f) (hl : ∀ t k, (t, k) ∈ P.lits → SteadyLit t)
    {j : XJd σ} (h : XBig ⟨r, false⟩ D P j) : XAgain ⟨r, true⟩ D P j := by
  induction h with
  | int => exact .int
  | bool => exact .bool
  | str => exact .str
  | typ => exact .typ
  | var h0 h1 => exact .var h0 h1
  | fnRef h0 h1 h2 => exact .fnRef h0 h1 h2
  | anon h0 h1 => exact .anon h0 h1
  | closure h0 h1 h2 h3 h4 h5 h6 => exact .closure h0 h1 h2 h3 h4 h5 h6
  | bin h0 h1 h2 ih0 ih1 => exact .bin ih0 ih1 h2
  | cmp h0 h1 h2 ih0 ih1 => exact .cmp ih0 ih1 h2
  | un h0 h1 ih0 => exact .un ih0 h1
  | ternT h0 h1 ih0 ih1 => exact .ternT ih0 ih1
  | ternF h0 h1 ih0 ih1 => exact .ternF ih0 ih1
  | call h0 h1 h2 h3 h4 h5 h6 ih3 ih6 => exact .call h0 h1 h2 ih3 h4 h5 (ih6 (hs _ _ _ h4))
  | callRt h0 h1 h2 h3 h4 ih3 => exact .callRt h0 h1 h2 ih3 h4
  | callExt h0 h1 h2 h3 h4 h5 ih3 => exact .callExt h0 h1 h2 ih3 h4 h5
  | callVal h0 h1 h2 h3 h4 h5 ih2 ih3 ih5 => exact .callVal h0 h1 ih2 ih3 h4 ih5
  | valFn h0 h1 h2 h3 h4 h5 h6 ih2 ih6 => exact .valFn h0 h1 (ih2 (hs _ _ _ h0)) h3 h4 h5 (ih6 (hs _ _ _ h3))
  | arr h0 h1 h2 h3 ih2 ih3 => exact .arr h0 h1 (ih2 (hs _ _ _ h0)) ih3
  | fillNil => exact .fillNil
  | fillCons h0 h1 h2 h3 h4 ih0 ih3 ih4 => exact .fillCons ih0 h1 h2 (ih3 (hs _ _ _ h1)) ih4
  | dot h0 h1 h2 h3 h4 h5 ih4 => exact .dot h0 h1 h2 h3 ih4 h5
  | length h0 h1 h2 ih1 => exact .length h0 ih1 h2
  | index h0 h1 h2 h3 h4 h5 ih0 ih1 => exact .index ih0 ih1 h2 h3 h4 h5
  | argsNil => exact .argsNil
  | argsCons h0 h1 ih0 ih1 => exact .argsCons ih0 ih1
  | locVar h0 h1 => exact .locVar h0 h1
  | locRef h0 h1 => exact .locRef h0 h1
  | locDot h0 h1 h2 h3 h4 ih4 => exact .locDot h0 h1 h2 h3 ih4
  | locIndex h0 h1 h2 h3 h4 ih0 ih1 => exact .locIndex ih0 ih1 h2 h3 h4
  | callLit h0 h1 _ h3 ih2 ih3 => exact .callLit h0 h1 ih2 (ih3 (hl _ _ h0) nofun)
  | valLit h0 h1 _ h3 h4 h5 _ ih2 ih6 => exact .valLit h0 h1 (ih2 (hs _ _ _ h0)) h3 h4 h5 (ih6 (hl _ _ h3) nofun)
  | valCl h0 h1 _ h3 h4 h5 h6 _ ih2 ih7 => exact .valCl h0 h1 (ih2 (hs _ _ _ h0)) h3 h4 h5 h6 (ih7 (hl _ _ h3) (valsBut_at _ _))
  | expr _ ih => exact fun cn _ _ => .expr ih
  | ret0 => exact fun cn _ _ => .ret0
  | ret _ ih => exact fun cn _ _ => .ret ih
  | das _ ih => exact fun cn _ _ => .das ih
  | asgVar _ _ ih1 ih2 => exact fun cn _ _ => .asgVar ih1 ih2
  | asgMem _ _ h ih1 ih2 => exact fun cn _ _ => .asgMem ih1 ih2 h
  | ifs _ ih => exact fun cn k v => .ifs (ih cn k v)
  | loopF _ ih => exact fun cn _ _ => .loopF ih
  | loopT _ h1 _ ih1 ih2 ih3 => exact fun cn k v => .loopT ih1 (ih2 cn k v) (ih3 cn k (v.keeps (Frm.leave (a := []) h1.frame)))
  | loopR _ _ ih1 ih2 => exact fun cn k v => .loopR ih1 (ih2 cn k v)
  | forR _ h2 _ hr _ ih1 ih2 ih3 =>
    intro cn k v
    obtain ⟨e, hh⟩ := held_end hT v k.2.1 h2
    exact .forR ih1 ih2 (fun _ => e) hr (ih3 cn k.2.2 v k.1 hh)
  | rangeNil => exact fun cn k v hx hh => .rangeNil (fun _ => hh.run _)
  | rangeCons _ h1 _ _ _ ih1 ih2 =>
    intro cn k v hx hh
    have kp := Frm.leave (a := [_]) h1.frame
    exact .rangeCons (fun _ => hh.run _) (ih1 cn k v.push) (fun _ => Frm.top h1.frame hx) (ih2 cn k (v.keeps kp) hx (hh.keeps kp))
  | rangeRet _ _ _ ih1 => exact fun cn k v hx hh => .rangeRet (fun _ => hh.run _) (ih1 cn k v.push)
  | forA ht h1 _ _ ih1 ih2 =>
    intro cn k v
    have k := steady_for (by
      rintro lo hi c rfl
      cases h1 with
      | bin _ _ hv => rename_i v _ w; cases v <;> cases w <;> cases hv
      | anon hl' _ => exact absurd (hT _ _ hl') (by simp [isLit])
      | closure hl' _ _ _ _ _ _ => exact absurd (hT _ _ hl') (by simp [isLit])) k
    exact .forA ht ih1 (fun _ hn => (held_arr hT v k.1 hn h1).1) (ih2 cn k.2 v (fun hn => (held_arr hT v k.1 hn h1).2))
  | elemsEnd _ h1 h2 => exact fun cn k v hh => .elemsEnd (fun _ hn => (hh hn).run _) h1 h2
  | elemsCons _ h1 h2 h3 h4 _ _ ih1 ih2 =>
    intro cn k v hh
    have kp := Frm.leave (a := [_]) h4.frame
    exact .elemsCons (fun _ hn => (hh hn).run _) h1 h2 h3 (ih1 cn k v.push) (ih2 cn k (v.keeps kp) (fun hn => (hh hn).keeps kp))
  | elemsRet _ h1 h2 h3 _ _ ih1 => exact fun cn k v hh => .elemsRet (fun _ hn => (hh hn).run _) h1 h2 h3 (ih1 cn k v.push)
  | match_ h0 _ h2 h3 h4 h5 h6 h7 _ ih1 ih8 =>
    exact fun cn k v => .match_ h0 ih1 h2 h3 h4 h5 h6 h7 (ih8 cn (caseFor_steady h5 k) (v.app (plain_bind _ _)))
  | chDone => exact fun cn k v => .chDone
  | chElse _ ih => exact fun cn k v => .chElse (ih cn k v)
  | chT _ _ ih1 ih2 => exact fun cn k v => .chT ih1 (ih2 cn k.1 v)
  | chF _ _ ih1 ih2 => exact fun cn k v => .chF ih1 (ih2 cn k.2 v)
  | nil => exact fun cn k v => .nil
  | cons h1 _ ih1 ih2 => exact fun cn k v => .cons (ih1 cn k.1 v) (ih2 cn k.2 (v.frm h1.frame))
  | consR _ ih => exact fun cn k v => .consR (ih cn k.1 v)
  | litRet h0 h1 _ ih => exact fun k v => .litRet h0 h1 (ih _ k (v.app (plain_bind _ _)))
  | litEnd h0 h1 _ ih => exact fun k v => .litEnd h0 h1 (ih _ k (v.app (plain_bind _ _)))
  | litExpr h0 h1 _ ih => exact fun k v => .litExpr h0 h1 ih
  | fnRet h0 h1 h2 _ ih =>
    intro k
    simp only [SteadyFn, h1] at k
    exact .fnRet h0 h1 h2 (ih _ k (fun q hq a e => absurd e (plain_bind _ _ q hq a)))
  | fnEnd h0 h1 h2 h3 _ ih =>
    intro k
    simp only [SteadyFn, h1] at k
    exact .fnEnd h0 h1 h2 h3 (ih _ k (fun q hq a e => absurd e (plain_bind _ _ q hq a)))
  | fnExpr h0 h1 h2 _ ih => exact fun k => .fnExpr h0 h1 h2 ih
  | fnCons h0 h1 h2 h3 => exact fun k => .fnCons h0 h1 h2 h3

end Clara.Sema.Chk
