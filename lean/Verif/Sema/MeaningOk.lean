import Verif.Sema.Meaning
import Verif.Sema.Lits
import Verif.Sema.ToGenSafe
import Verif.Sema.Forward
import Verif.Util
set_option linter.unusedVariables false
set_option linter.unusedSimpArgs false
/-
The trees for the code generator mean what the checked trees mean: a run of the checked program is a run of the program
made of it.
-/
namespace Clara.Sema.Chk
open Clara.Types
open Clara (All₂ all₂_cons)
open Clara.Gen (TK TyR Expr varsL Val Store Out Word rawArg extRes extArgs)
open Clara.Sema (SS SCh SSs SCs SBody SFn Lib SProg SIsDyn SBig againOpts codeRange fields bindVars)

variable {σ : Type}

/-! ### Variables and their numbers -/

/-- Where captured variables are: the captured numbers `cs` are the words of the object at `env`, which is the value of the
variable `m` of type `t`; `out` are the names outside of the literal, `vars` the captured names. -/
structure Cap where
  cs : List Nat
  m : Nat
  t : TyR
  out : Names'
  vars : Vars
  env : Word

def Cap.Base (K : Cap) (ρ : Gen.Env) : Prop :=
  ∀ x c, K.vars.lookup x = some c → ∃ n, K.out.lookup x = some n ∧ n ∈ K.cs ∧ c = .ref (K.env + BitVec.ofNat 64 (8 * K.cs.idxOf n)) ∧
    ρ K.m = some (.ptr K.env)

/-- The number has the value of the name, which is not captured. -/
def Same (K : Cap) (ρ : Gen.Env) (q : String × Nat) (g : String × Cell) : Prop := q.1 = g.1 ∧ q.2 ∉ K.cs ∧ g.2 = .val (ρ q.2)

/-- The numbers have the values of the names. -/
def Match (K : Cap) (ρn : Names') (γ : Vars) (ρ : Gen.Env) : Prop :=
  ∃ a b, ρn = a ++ K.out ∧ γ = b ++ K.vars ∧ All₂ (Same K ρ) a b ∧ K.Base ρ

theorem same_other {K : Cap} {ρ ρ' : Gen.Env} {a : Names'} {b : Vars} (h : All₂ (Same K ρ) a b) (hq : ∀ q ∈ a, ρ' q.2 = ρ q.2) : All₂ (Same K ρ') a b := by
  induction h with
  | nil => exact .nil
  | cons h1 _ ih =>
    refine .cons ⟨h1.1, h1.2.1, ?_⟩ (ih (fun q h => hq q (List.mem_cons_of_mem _ h)))
    rw [hq _ List.mem_cons_self]
    exact h1.2.2

theorem Cap.Base.other {K : Cap} {ρ ρ' : Gen.Env} (h : K.Base ρ) (hm : ρ' K.m = ρ K.m) : K.Base ρ' := by
  intro x c hx
  obtain ⟨n, h1, h2, h3, h4⟩ := h x c hx
  exact ⟨n, h1, h2, h3, hm.trans h4⟩

theorem Match.other {K : Cap} {ρn : Names'} {γ : Vars} {ρ ρ' : Gen.Env} (h : Match K ρn γ ρ) (hq : ∀ q ∈ ρn, ρ' q.2 = ρ q.2)
    (hm : ρ' K.m = ρ K.m) : Match K ρn γ ρ' := by
  obtain ⟨a, b, rfl, rfl, h1, h2⟩ := h
  exact ⟨a, b, rfl, rfl, same_other h1 (fun q hq' => hq q (List.mem_append_left _ hq')), h2.other hm⟩

theorem upd_same (ρ : Gen.Env) (x : Nat) (v : Val) : ρ.upd x v x = some v := by simp [Gen.Env.upd]
theorem upd_other {ρ : Gen.Env} {x y : Nat} {v : Val} (h : y ≠ x) : ρ.upd x v y = ρ y := by simp [Gen.Env.upd, h]

theorem Match.push {K : Cap} {ρn : Names'} {γ : Vars} {ρ : Gen.Env} {n : Nat} {x : String} {v : Val} (h : Match K ρn γ ρ) (hb : Below ρn n)
    (hc : n ∉ K.cs) (hm : n ≠ K.m) : Match K ((x, n) :: ρn) ((x, .val (some v)) :: γ) (ρ.upd n v) := by
  obtain ⟨a, b, rfl, rfl, h1, h2⟩ := h.other (ρ' := ρ.upd n v) (fun q hq => upd_other (Nat.ne_of_lt (hb.2 q hq))) (upd_other (Ne.symm hm))
  exact ⟨(x, n) :: a, (x, .val (some v)) :: b, rfl, rfl, .cons ⟨rfl, hc, by simp only [upd_same]⟩ h1, h2⟩

theorem vars_lookup_app {a b : Vars} {x : String} : (a ++ b).lookup x = (a.lookup x).or (b.lookup x) := by
  induction a with
  | nil => rfl
  | cons q a ih =>
    obtain ⟨y, m⟩ := q
    simp only [List.cons_append, List.lookup]
    split
    · rfl
    · exact ih

theorem same_lookup {K : Cap} {ρ : Gen.Env} {a : Names'} {b : Vars} (h : All₂ (Same K ρ) a b) (x : String) :
    (a.lookup x = none ∧ b.lookup x = none) ∨ ∃ n, a.lookup x = some n ∧ b.lookup x = some (.val (ρ n)) ∧ n ∉ K.cs := by
  induction h with
  | nil => exact .inl ⟨rfl, rfl⟩
  | @cons q g as bs h1 _ ih =>
    obtain ⟨y, n⟩ := q
    obtain ⟨z, w⟩ := g
    obtain ⟨h1, h2, h3⟩ := h1
    simp only at h1 h2 h3
    subst h1 h3
    simp only [List.lookup]
    split
    · exact .inr ⟨n, rfl, rfl, h2⟩
    · exact ih

/-- Where a name is. -/
theorem Match.lookup {K : Cap} {ρn : Names'} {γ : Vars} {ρ : Gen.Env} {x : String} {c : Cell} (h : Match K ρn γ ρ) (hl : γ.lookup x = some c) :
    ∃ n, ρn.lookup x = some n ∧ ((n ∉ K.cs ∧ c = .val (ρ n)) ∨
      (n ∈ K.cs ∧ c = .ref (K.env + BitVec.ofNat 64 (8 * K.cs.idxOf n)) ∧ ρ K.m = some (.ptr K.env))) := by
  obtain ⟨a, b, rfl, rfl, h1, h2⟩ := h
  rw [vars_lookup_app] at hl
  rw [lookup_app]
  rcases same_lookup h1 x with ⟨e1, e2⟩ | ⟨n, e1, e2, e3⟩
  · rw [e2] at hl
    rw [e1]
    obtain ⟨n, k1, k2, k3, k4⟩ := h2 x c hl
    exact ⟨n, k1, .inr ⟨k2, k3, k4⟩⟩
  · rw [e2] at hl
    cases hl
    rw [e1]
    exact ⟨n, rfl, .inl ⟨e3, rfl⟩⟩

theorem same_set {K : Cap} {ρ : Gen.Env} {a : Names'} {b : Vars} {x : String} {n : Nat} {v : Val} (h : All₂ (Same K ρ) a b)
    (hp : (a.map (·.2)).Pairwise (· > ·)) (hl : a.lookup x = some n) : All₂ (Same K (ρ.upd n v)) a (Vars.set b x v) := by
  induction h with
  | nil => cases hl
  | @cons q g as bs h1 hr ih =>
    obtain ⟨y, m⟩ := q
    obtain ⟨z, w⟩ := g
    obtain ⟨h1, h2, h3⟩ := h1
    simp only at h1 h2 h3
    subst h1
    simp only [List.map_cons, List.pairwise_cons] at hp
    simp only [List.lookup] at hl
    simp only [Vars.set]
    split at hl
    · rename_i he
      cases hl
      have he : x = y := by simpa using he
      subst he
      rw [if_pos rfl]
      refine .cons ⟨rfl, h2, by simp only [upd_same]⟩ (same_other hr ?_)
      intro q hq
      exact upd_other (Nat.ne_of_lt (hp.1 q.2 (List.mem_map_of_mem hq)))
    · rename_i he
      have he : y ≠ x := by
        intro h
        subst h
        simp at he
      rw [if_neg he]
      refine .cons ⟨rfl, h2, ?_⟩ (ih hp.2 hl)
      simp only
      rw [upd_other, h3]
      exact Nat.ne_of_gt (hp.1 n (lookup_num hl))

theorem set_app {a b : Vars} {x : String} {v : Val} {c : Cell} (h : a.lookup x = some c) : Vars.set (a ++ b) x v = Vars.set a x v ++ b := by
  induction a with
  | nil => cases h
  | cons q a ih =>
    obtain ⟨y, m⟩ := q
    simp only [List.lookup] at h
    simp only [List.cons_append, Vars.set]
    split at h
    · rename_i he
      have he : x = y := by simpa using he
      subst he
      simp
    · rename_i he
      have he : y ≠ x := by rintro rfl; simp at he
      rw [if_neg he, if_neg he, ih h]
      rfl

theorem Match.set {K : Cap} {ρn : Names'} {γ : Vars} {ρ : Gen.Env} {x : String} {n : Nat} {v : Val} {w : Option Val} (h : Match K ρn γ ρ)
    (hp : (ρn.map (·.2)).Pairwise (· > ·)) (hl : ρn.lookup x = some n) (hg : γ.lookup x = some (.val w)) (hm : n ≠ K.m) :
    Match K ρn (Vars.set γ x v) (ρ.upd n v) := by
  obtain ⟨a, b, rfl, rfl, h1, h2⟩ := h
  rw [vars_lookup_app] at hg
  rw [lookup_app] at hl
  rcases same_lookup h1 x with ⟨e1, e2⟩ | ⟨k, e1, e2, e3⟩
  · rw [e2] at hg
    obtain ⟨k, -, -, k3, -⟩ := h2 x _ hg
    cases k3
  · rw [e1] at hl
    cases hl
    rw [List.map_append, List.pairwise_append] at hp
    refine ⟨a, Vars.set b x v, rfl, set_app e2, same_set h1 hp.1 e1, h2.other (upd_other (Ne.symm hm))⟩

theorem all₂_drop {α β : Type} {R : α → β → Prop} : ∀ {as : List α} {bs : List β} (n : Nat), All₂ R as bs → All₂ R (as.drop n) (bs.drop n)
  | _, _, 0, h => h
  | _, _, n + 1, .nil => .nil
  | _, _, n + 1, .cons _ h => all₂_drop n h

theorem Match.leave {K : Cap} {pre ρn : Names'} {γ γ1 : Vars} {ρ ρ0 : Gen.Env} (h : Match K (pre ++ ρn) γ1 ρ) (h0 : Match K ρn γ ρ0) :
    Match K ρn (Vars.leave γ γ1) ρ := by
  obtain ⟨a0, b0, rfl, rfl, k1, -⟩ := h0
  obtain ⟨a, b, e, rfl, h1, h2⟩ := h
  rw [← List.append_assoc] at e
  have e := List.append_cancel_right e
  subst e
  have l0 := All₂.length k1
  have l1 := All₂.length h1
  simp only [List.length_append] at l1
  have h' := all₂_drop pre.length h1
  rw [List.drop_left] at h'
  refine ⟨a0, b.drop pre.length, rfl, ?_, h', h2⟩
  rw [Vars.leave, List.length_append, List.length_append, show b.length + K.vars.length - (b0.length + K.vars.length) = pre.length by omega]
  rw [List.drop_append_of_le_length (by omega)]

/-- Names bound to values, with numbers that have these values. -/
theorem same_bind {K : Cap} {names : List String} {n : Nat} {vs : List (Option Val)} {ρ : Gen.Env} (hl : vs.length = names.length)
    (hc : ∀ i < names.length, n + i ∉ K.cs) (h : ∀ i v, vs[i]? = some v → ρ (n + i) = v) : All₂ (Same K ρ) (bindParams names n) (Vars.bind names vs) := by
  refine all₂_reverse ?_
  induction names generalizing n vs with
  | nil => exact .nil
  | cons x xs ih =>
    cases vs with
    | nil => simp at hl
    | cons v vs =>
      simp only [List.zipIdx_cons, List.map_cons, List.zip_cons_cons]
      refine .cons ⟨rfl, hc 0 (by simp), by simp only; rw [← h 0 v rfl, Nat.add_zero]⟩ (ih (by simpa using hl) ?_ ?_)
      · intro i hi
        rw [Nat.add_assoc, Nat.add_comm 1 i]
        exact hc (i + 1) (by simpa using hi)
      · intro i w hw
        rw [Nat.add_assoc, Nat.add_comm 1 i]
        exact h (i + 1) w hw

theorem Match.bind {K : Cap} {names : List String} {n : Nat} {vs : List (Option Val)} {ρn : Names'} {γ : Vars} {ρ : Gen.Env} (m : Match K ρn γ ρ)
    (hl : vs.length = names.length) (hc : ∀ i < names.length, n + i ∉ K.cs) (h : ∀ i v, vs[i]? = some v → ρ (n + i) = v) :
    Match K (bindParams names n ++ ρn) (Vars.bind names vs ++ γ) ρ := by
  obtain ⟨a, b, rfl, rfl, h1, h2⟩ := m
  exact ⟨bindParams names n ++ a, Vars.bind names vs ++ b, by simp, by simp, all₂_append (same_bind hl hc h) h1, h2⟩

theorem typedParams_cons (T : TrLib) (t : Ty) (ts : List Ty) (n : Nat) : typedParams T (t :: ts) n = (n, T.ty t) :: typedParams T ts (n + 1) := by
  simp [typedParams, List.zipIdx_cons]

theorem typedParams_length (T : TrLib) (ts : List Ty) (n : Nat) : (typedParams T ts n).length = ts.length := by
  simp [typedParams]

theorem bindParams_val (T : TrLib) : ∀ (ts : List Ty) (n : Nat) (vs : List (Option Val)), vs.length = ts.length → ∀ i v, vs[i]? = some v →
    Gen.bindParams (typedParams T ts n) vs (n + i) = v
  | [], n, vs, hl, i, v, h => by
    have : vs = [] := by simpa using hl
    subst this
    simp at h
  | t :: ts, n, [], hl, i, v, h => by simp at hl
  | t :: ts, n, w :: vs, hl, i, v, h => by
    rw [typedParams_cons]
    simp only [Gen.bindParams]
    cases i with
    | zero =>
      simp only [List.getElem?_cons_zero, Option.some.injEq] at h
      simp [h]
    | succ i =>
      rw [if_neg (by omega)]
      have := bindParams_val T ts (n + 1) vs (by simpa using hl) i v (by simpa using h)
      rw [show n + (i + 1) = n + 1 + i by omega]
      exact this

theorem bindVars_old (T : TrLib) : ∀ (ts : List Ty) (n : Nat) (vs : List Val) (ρ : Gen.Env) (y : Nat), y < n →
    bindVars (typedParams T ts n) vs ρ y = ρ y
  | [], n, vs, ρ, y, h => rfl
  | t :: ts, n, [], ρ, y, h => rfl
  | t :: ts, n, v :: vs, ρ, y, h => by
    rw [typedParams_cons]
    simp only [bindVars]
    rw [bindVars_old T ts (n + 1) vs _ y (by omega), upd_other (by omega)]

theorem bindVars_new (T : TrLib) : ∀ (ts : List Ty) (n : Nat) (vs : List Val) (ρ : Gen.Env), vs.length = ts.length → ∀ i v, vs[i]? = some v →
    bindVars (typedParams T ts n) vs ρ (n + i) = some v
  | [], n, vs, ρ, hl, i, v, h => by
    have : vs = [] := by simpa using hl
    subst this
    simp at h
  | t :: ts, n, [], ρ, hl, i, v, h => by simp at hl
  | t :: ts, n, w :: vs, ρ, hl, i, v, h => by
    rw [typedParams_cons]
    simp only [bindVars]
    cases i with
    | zero =>
      simp only [List.getElem?_cons_zero, Option.some.injEq] at h
      subst h
      rw [bindVars_old T ts (n + 1) vs _ _ (by omega)]
      exact upd_same _ _ _
    | succ i =>
      rw [show n + (i + 1) = n + 1 + i by omega]
      exact bindVars_new T ts (n + 1) vs _ (by simpa using hl) i v (by simpa using h)

theorem fields_of {S : Store σ} {p : Word} : ∀ (vals : List Val) (k : Nat),
    (∀ i v, vals[i]? = some v → S.heap (p + BitVec.ofNat 64 (8 * (i + k))) = some v) → fields S p k vals
  | [], k, h => trivial
  | v :: vs, k, h => by
    refine ⟨by simpa using h 0 v rfl, fields_of vs (k + 1) ?_⟩
    intro i w hw
    have := h (i + 1) w (by simpa using hw)
    rw [show i + (k + 1) = i + 1 + k by omega]
    exact this

/-! ### Operators, fields, arguments -/

theorem bin_eval {op : BinOp} {o : Gen.BinOp} {v w c : Val} (ho : trBin op = some o) (h : op.val v w = some c) : o.eval v w = some c := by
  cases op <;> cases ho <;> cases v <;> cases w <;> first | exact h | cases h

theorem cmp_eval {op : CmpOp} {v w c : Val} (h : op.val v w = some c) : (trCmp op).eval v w = some c := by
  cases op <;> cases v <;> cases w <;> simp only [CmpOp.val, trCmp, Gen.BinOp.eval, reduceCtorEq] at h ⊢ <;> rw [← h]
  rename_i a b
  simp only [Option.some.injEq, Val.bool.injEq, BitVec.toInt_inj]

theorem un_eval {op : UnOp} {v c : Val} (h : op.val v = some c) : (trUn op).eval v = some c := by
  cases op <;> cases v <;> first | exact h | cases h

theorem fieldOff_struct {D : Decls} {n : String} {us : List Ty} {d : StructD} {pre post : List (String × Ty)} {x : String} {t : Ty}
    (hd : D.structs n = some d) (hf : d.fields = pre ++ (x, t) :: post) (hx : x ∉ pre.map (·.1)) :
    fieldOff D (.struct n us) x = some (8 * pre.length) := by
  have : (pre.map (·.1) ++ x :: post.map (·.1)).idxOf x = pre.length := by
    rw [List.idxOf_append, if_neg hx]
    simp
  simp [fieldOff, hd, hf, this]

theorem fieldOff_length {D : Decls} {t : Ty} {x : String} (h : (∃ u, t = .array u) ∨ t = .prim .string) : fieldOff D t x = some 0 := by
  rcases h with ⟨u, rfl⟩ | rfl <;> rfl

theorem hoist_kind {T : TrLib} {n : Nat} {ps : List (Nat × TyR)} {b : SBody} {d : FnData} {ts : List Ty} {r r' : Ty} {st st' : TrSt} {e : Expr}
    (h : hoist T n ps b (.fn d ts r) r' st = .ok (e, st')) : e.ty.kind = .function ∨ e.ty.kind = .struct := by
  simp only [hoist] at h
  split at h
  · split at h
    · cases h; exact .inl rfl
    · cases h; exact .inr rfl
  · cases h

/-- The same word is handed to an external function. -/
theorem rawArg_kind {T : TrLib} {D : Decls} {ρn : Names'} {x : X} {st st' : TrSt} {e : Expr} (h : trX T D ρn x st = .ok (e, st'))
    (fi : Gen.FnInfo) (v : Val) : rawArg fi e.ty.kind v = rawArg fi x.kind v := by
  have key : e.ty.kind = x.kind ∨ ((e.ty.kind = .function ∨ e.ty.kind = .struct) ∧ x.kind = .function) := by
    cases x with
    | lit k a => cases h; cases k <;> exact .inl rfl
    | ident x a =>
      rw [trX] at h
      obtain ⟨e1, h1, h⟩ := ok_bind h
      cases h
      simp only [trIdent] at h1
      split at h1
      · rename_i s r t hs ht
        have hk : (X.ident x a).kind = kindOf t := by simp [X.kind, X.typ, X.ann, ht]
        split at h1
        · cases h1
        · split at h1
          · split at h1
            · cases h1; exact .inl hk.symm
            · cases h1
          · split at h1
            · cases h1; exact .inl hk.symm
            · cases h1
      · cases h1
    | call f ts args a =>
      have inv : ∀ (f : Expr) (u : Ty) (as : List Expr), (trInvoke T f u as).ty = T.ty u := by
        intro f u as; cases f <;> rfl
      rcases callForm f with ⟨x, t, s, r, rfl⟩ | hf
      · rw [trX_callI] at h
        obtain ⟨⟨as, st1⟩, h1, h⟩ := ok_bind h
        simp only at h
        split at h
        · cases h
        · rename_i u hu
          have hk : (X.call (.ident x ⟨t, some (s :: r)⟩) ts args a).kind = kindOf u := by simp [X.kind, X.typ, X.ann, hu]
          split at h
          · obtain ⟨e1, h2, h⟩ := ok_bind h
            cases h
            simp only [trCall] at h2
            split at h2
            · cases h2; exact .inl hk.symm
            · cases h2
          · obtain ⟨e1, h2, h⟩ := ok_bind h
            cases h
            rw [inv]
            exact .inl hk.symm
      · rw [trX_callF hf] at h
        obtain ⟨⟨e1, st1⟩, h1, h⟩ := ok_bind h
        obtain ⟨⟨as, st2⟩, h2, h⟩ := ok_bind h
        simp only at h
        split at h
        · cases h
        · rename_i u hu
          have hk : (X.call f ts args a).kind = kindOf u := by simp [X.kind, X.typ, X.ann, hu]
          cases h
          rw [inv]
          exact .inl hk.symm
    | bin op l r a =>
      simp only [trX] at h
      split at h
      · cases h
      · obtain ⟨⟨e1, st1⟩, h1, h⟩ := ok_bind h
        obtain ⟨⟨e2, st2⟩, h2, h⟩ := ok_bind h
        simp only at h
        split at h
        · cases h
        · rename_i u hu
          cases h
          exact .inl (by simp [X.kind, X.typ, X.ann, hu, Expr.ty, TrLib.ty])
    | cmp op l r a =>
      simp only [trX] at h
      obtain ⟨⟨e1, st1⟩, h1, h⟩ := ok_bind h
      obtain ⟨⟨e2, st2⟩, h2, h⟩ := ok_bind h
      simp only at h
      split at h
      · cases h
      · rename_i u hu
        cases h
        exact .inl (by simp [X.kind, X.typ, X.ann, hu, Expr.ty, TrLib.ty])
    | un op l a =>
      simp only [trX] at h
      obtain ⟨⟨e1, st1⟩, h1, h⟩ := ok_bind h
      simp only at h
      split at h
      · cases h
      · rename_i u hu
        cases h
        exact .inl (by simp [X.kind, X.typ, X.ann, hu, Expr.ty, TrLib.ty])
    | tern c x y a =>
      simp only [trX] at h
      obtain ⟨⟨e1, st1⟩, h1, h⟩ := ok_bind h
      obtain ⟨⟨e2, st2⟩, h2, h⟩ := ok_bind h
      obtain ⟨⟨e3, st3⟩, h3, h⟩ := ok_bind h
      simp only at h
      split at h
      · cases h
      · rename_i u hu
        cases h
        exact .inl (by simp [X.kind, X.typ, X.ann, hu, Expr.ty, TrLib.ty])
    | arr es a =>
      simp only [trX] at h
      obtain ⟨⟨e1, st1⟩, h1, h⟩ := ok_bind h
      simp only at h
      split at h
      · cases h
      · rename_i u hu
        cases h
        exact .inl (by simp [X.kind, X.typ, X.ann, hu, Expr.ty, TrLib.ty])
    | index l r a =>
      simp only [trX] at h
      obtain ⟨⟨e1, st1⟩, h1, h⟩ := ok_bind h
      obtain ⟨⟨e2, st2⟩, h2, h⟩ := ok_bind h
      simp only at h
      split at h
      · cases h
      · rename_i u hu
        cases h
        exact .inl (by simp [X.kind, X.typ, X.ann, hu, Expr.ty, TrLib.ty])
    | dot l r a =>
      simp only [trX] at h
      obtain ⟨⟨e1, st1⟩, h1, h⟩ := ok_bind h
      simp only at h
      split at h
      · rename_i u _ ht
        split at h
        · cases h
        · cases h
          exact .inl (by simp [X.kind, X.typ, X.ann, *, Expr.ty, TrLib.ty])
      · cases h
    | ty t a =>
      simp only [trX] at h
      split at h
      · cases h
      · rename_i u hu
        cases h
        exact .inl (by simp [X.kind, X.typ, X.ann, hu, Expr.ty, TrLib.ty])
    | fnB hd i ss a =>
      simp only [trX] at h
      split at h
      · rename_i d ts r hu
        obtain ⟨⟨b, st1⟩, h1, h⟩ := ok_bind h
        exact .inr ⟨hoist_kind h, by simp [X.kind, X.typ, X.ann, hu, kindOf]⟩
      · cases h
    | fnE hd i x a =>
      simp only [trX] at h
      split at h
      · rename_i d ts r hu
        obtain ⟨⟨b, st1⟩, h1, h⟩ := ok_bind h
        exact .inr ⟨hoist_kind h, by simp [X.kind, X.typ, X.ann, hu, kindOf]⟩
      · cases h
  rcases key with h | ⟨h | h, h'⟩
  · rw [h]
  · rw [h, h']
  · rw [h, h']; rfl

theorem rawArg_raw {fi fi' : Gen.FnInfo} (h : fi.raw = fi'.raw) : rawArg fi = rawArg fi' := by
  funext t v
  simp only [rawArg, h]

theorem extArgs_words {T : TrLib} {D : Decls} {ρn : Names'} {fi fi' : Gen.FnInfo} (hr : fi.raw = fi'.raw) :
    ∀ (xs : List X) (st st' : TrSt) (es : List Expr) (vs : List (Option Val)), trL T D ρn xs st = .ok (es, st') →
      extArgs fi es vs = extWords fi' xs vs
  | [], st, st', es, vs, h => by
    simp only [trL] at h
    cases h
    simp [extArgs, extWords]
  | x :: xs, st, st', es, vs, h => by
    simp only [trL] at h
    obtain ⟨⟨e1, st1⟩, h1, h⟩ := ok_bind h
    obtain ⟨⟨es2, st2⟩, h2, h⟩ := ok_bind h
    cases h
    cases vs with
    | nil => simp [extArgs, extWords]
    | cons v vs =>
      simp only [extArgs, extWords]
      rw [extArgs_words hr xs _ _ _ vs h2]
      congr 1
      cases v with
      | none => rfl
      | some v =>
        simp only [Option.map_some, Option.some.injEq]
        rw [rawArg_kind h1, rawArg_raw hr]

/-! ### Cases -/

theorem find_case {T : TrLib} {D : Decls} {A : List X} (hA : ∀ t ∈ A, LitTyped t) {ρn : Names'} {pre post : List Nat} {fid : Nat} (hf : fid ∉ pre)
    (hl : (pre ++ fid :: post).length < 2 ^ 63) : ∀ (cs : List Case) (st : TrSt) (b : SCs) (st' : TrSt) (xs : List String) (ss : List S),
    Below ρn st.n → Num A st.k (litsCs cs) → trCs T D ρn (pre ++ fid :: post) cs st = .ok (b, st') → caseFor fid cs = some (xs, ss) →
    ∃ (ts : List Ty) (st1 : TrSt) (b1 : SSs) (st2 : TrSt), b.find (BitVec.ofNat 63 pre.length) = some (typedParams T ts st1.n, b1) ∧ st.n ≤ st1.n ∧ ts.length = xs.length ∧
      Num A st1.k (litsB ss) ∧ st2.n ≤ st'.n ∧
      trB T D (bindParams xs st1.n ++ ρn) ss { st1 with n := st1.n + ts.length } = .ok (b1, st2)
  | [], st, b, st', xs, ss, hb, hN, h, hc => by cases hc
  | .mk x sym vs body :: cs, st, b, st', xs, ss, hb, hN, h, hc => by
    simp only [trCs] at h
    simp only [litsCs] at hN
    split at h
    · rename_i s ts hts
      obtain ⟨⟨b1, st1⟩, h1, h⟩ := ok_bind h
      obtain ⟨⟨b2, st2⟩, h2, h⟩ := ok_bind h
      cases h
      have hts' := varTypes_length _ _ hts
      have t1 := trB_tx hA T D body (bindParams (vs.map (·.1)) st.n ++ ρn) { st with n := st.n + ts.length } b1 st1 (hb.bind (by simp [hts'])) hN.left h1
      have e1 := t1.n
      have e2 := t1.k
      simp only at e1 e2
      have hb1 : Below ρn st1.n := hb.le (by omega)
      have hN1 : Num A st1.k (litsCs cs) := by rw [e2]; exact hN.right
      simp only [caseFor, Option.map_some, Option.some.injEq] at hc
      have hi : ∀ i : Nat, i ≤ (pre ++ fid :: post).length → (BitVec.ofNat 63 pre.length = BitVec.ofInt 63 (i : Int) ↔ i = pre.length) := by
        intro i hi
        have hp : pre.length < (pre ++ fid :: post).length := by simp
        constructor
        · intro e
          have := congrArg BitVec.toNat e
          simp only [BitVec.toNat_ofNat, BitVec.ofInt_natCast] at this
          omega
        · intro e
          rw [e, BitVec.ofInt_natCast]
      simp only [SCs.find]
      by_cases he : s.fid = fid
      · rw [if_pos he] at hc
        cases hc
        have : (pre ++ fid :: post).idxOf s.fid = pre.length := by
          rw [he, List.idxOf_append, if_neg hf]
          simp
        rw [if_pos ((hi _ (by rw [this]; simp)).mpr this)]
        exact ⟨ts, st, b1, st1, rfl, Nat.le_refl _, by simpa using hts', hN.left, (trCs_tx hA T D cs ρn _ st1 b2 _ hb1 hN1 h2).n, h1⟩
      · rw [if_neg he] at hc
        have : (pre ++ fid :: post).idxOf s.fid ≠ pre.length := by
          intro e
          have hlt : (pre ++ fid :: post).idxOf s.fid < (pre ++ fid :: post).length := by rw [e]; simp
          have h1 := List.getElem_idxOf hlt
          rw [List.getElem_append_right (by omega)] at h1
          simp only [e, Nat.sub_self, List.getElem_cons_zero] at h1
          exact he h1.symm
        rw [if_neg (fun e => this ((hi _ List.idxOf_le_length).mp e))]
        obtain ⟨ts', st1', b1', st2', f1, f2, f3, f4, f5, f6⟩ := find_case hA hf hl cs _ _ _ xs ss hb1 hN1 h2 hc
        exact ⟨ts', st1', b1', st2', f1, by omega, f3, f4, f5, f6⟩
    · cases h

theorem find_cap (cs : List Nat) (m : Nat) (t : TyR) (i : BitVec 63) : ∀ (b : SCs), (capCs cs m t b).find i = (b.find i).map (fun q => (q.1, capB cs m t q.2))
  | .nil => rfl
  | .cons tag vs b n => by
    simp only [capCs, SCs.find]
    split
    · rfl
    · exact find_cap cs m t i n

/-! ### Captured variables in expressions -/

mutual
theorem capX_nil (m : Nat) (t : TyR) : ∀ (e : Expr), capX [] m t e = e
  | .var x u => by simp [capX]
  | .int _ => rfl
  | .bool _ => rfl
  | .str _ => rfl
  | .typ _ => rfl
  | .fnRef _ _ _ => rfl
  | .bin _ _ l r => by simp [capX, capX_nil m t l, capX_nil m t r]
  | .un _ _ e => by simp [capX, capX_nil m t e]
  | .tern _ c x y => by simp [capX, capX_nil m t c, capX_nil m t x, capX_nil m t y]
  | .arrLit _ e => by simp [capX, capX_nil m t e]
  | .callFn _ _ as => by simp [capX, capL_nil m t as]
  | .callVar _ _ as => by simp [capX, capL_nil m t as]
  | .callExpr e _ as => by simp [capX, capX_nil m t e, capL_nil m t as]
  | .dot _ e _ => by simp [capX, capX_nil m t e]
  | .index _ a i => by simp [capX, capX_nil m t a, capX_nil m t i]
theorem capL_nil (m : Nat) (t : TyR) : ∀ (es : List Expr), capL [] m t es = es
  | [] => rfl
  | e :: es => by simp [capL, capX_nil m t e, capL_nil m t es]
end

mutual
theorem capS_nil (m : Nat) (t : TyR) : ∀ (s : SS), capS [] m t s = s
  | .ret none => rfl
  | .ret (some e) => by simp [capS, capX_nil]
  | .ifs c => by simp [capS, capCh_nil m t c]
  | .asg _ l r => by simp [capS, capX_nil]
  | .loop c b => by simp [capS, capX_nil, capB_nil m t b]
  | .expr e => by simp [capS, capX_nil]
  | .forR _ lo hi _ b => by simp [capS, capX_nil, capB_nil m t b]
  | .forA _ _ a b => by simp [capS, capX_nil, capB_nil m t b]
  | .match_ e cs => by simp [capS, capX_nil, capCs_nil m t cs]
theorem capCh_nil (m : Nat) (t : TyR) : ∀ (c : SCh), capCh [] m t c = c
  | .done => rfl
  | .els b => by simp [capCh, capB_nil m t b]
  | .cond c b n => by simp [capCh, capX_nil, capB_nil m t b, capCh_nil m t n]
theorem capB_nil (m : Nat) (t : TyR) : ∀ (b : SSs), capB [] m t b = b
  | .nil => rfl
  | .cons s ss => by simp [capB, capS_nil m t s, capB_nil m t ss]
theorem capCs_nil (m : Nat) (t : TyR) : ∀ (c : SCs), capCs [] m t c = c
  | .nil => rfl
  | .cons _ _ b n => by simp [capCs, capB_nil m t b, capCs_nil m t n]
end

theorem capX_elems {T : TrLib} {t' : TyR} (cs : List Nat) (m : Nat) (t : TyR) : ∀ (es : List Expr) (x : Expr) (i : Nat),
    capX cs m t (trElems T t' x i es) = trElems T t' (capX cs m t x) i (capL cs m t es)
  | [], x, i => rfl
  | e :: es, x, i => by
    simp only [trElems, capL]
    rw [capX_elems cs m t es]
    rfl

theorem extArgs_cap (fi : Gen.FnInfo) (cs : List Nat) (m : Nat) (t : TyR) : ∀ (es : List Expr) (vs : List (Option Val)),
    extArgs fi (capL cs m t es) vs = extArgs fi es vs
  | [], vs => by cases vs <;> rfl
  | e :: es, [] => rfl
  | e :: es, v :: vs => by simp only [capL, extArgs, capX_ty, extArgs_cap fi cs m t es vs]

/-! ### Literals -/

/-- The functions that are made of a literal. -/
def litFns (T : TrLib) (n m k : Nat) (ps : List (Nat × TyR)) (b : SBody) (u r : Ty) : List SFn :=
  if (caps n (foundL (exprsBody b))).isEmpty then [anonBody T k ps b r]
  else [envFn T k (caps n (foundL (exprsBody b))), clObj T k u, clBody T k m (caps n (foundL (exprsBody b))) ps b r]

/-- The functions that are made of a literal are there. -/
def LitIn (T : TrLib) (D : Decls) (A : List X) (fns : List SFn) (k : Nat) : X → Prop
  | .fnB h _ ss a => ∃ (d : FnData) (ts : List Ty) (r : Ty) (ρ : Names') (st : TrSt) (b : SSs) (st1 : TrSt), a.typ = some (.fn d ts r) ∧ Below ρ st.n ∧ Num A st.k (litsB ss) ∧
      trB T D (bindParams (h.params.map (·.1)) st.n ++ ρ) ss { st with n := st.n + ts.length } = .ok (b, st1) ∧
      ∀ f ∈ litFns T st.n st1.n k (typedParams T ts st.n) (.block b) (.fn d ts r) r, f ∈ fns
  | .fnE h _ e a => ∃ (d : FnData) (ts : List Ty) (r : Ty) (ρ : Names') (st : TrSt) (b : Expr) (st1 : TrSt), a.typ = some (.fn d ts r) ∧ Below ρ st.n ∧ Num A st.k (litsX e) ∧
      trX T D (bindParams (h.params.map (·.1)) st.n ++ ρ) e { st with n := st.n + ts.length } = .ok (b, st1) ∧
      ∀ f ∈ litFns T st.n st1.n k (typedParams T ts st.n) (.expr b) (.fn d ts r) r, f ∈ fns
  | _ => False

/-- The constructors for a literal with captured variables. -/
theorem LitIn.objects {T : TrLib} {D : Decls} {A : List X} (hA : ∀ t ∈ A, LitTyped t) {fns : List SFn} {t : X} {k : Nat} (ht : LitTyped t)
    (h : LitIn T D A fns k t) (hc : captured t ≠ []) :
    ∃ cs u, cs.length = (captured t).length ∧ envFn T k cs ∈ fns ∧ clObj T k u ∈ fns := by
  have key : ∀ (cs : List (Nat × TyR)) (ρ : Names'), Named ρ (captured t) cs → cs ≠ [] ∧ cs.length = (captured t).length := by
    intro cs ρ hn
    have := All₂.length hn
    refine ⟨?_, this.symm⟩
    rintro rfl
    simp at this
    exact hc this
  cases t with
  | fnB hd i ss a =>
    obtain ⟨d, ts, r, ρ, st, b, st1, hty, hb, hN, h1, hf⟩ := h
    · have t1 := (trB_tx hA T D ss (bindParams (hd.params.map (·.1)) st.n ++ ρ) { st with n := st.n + ts.length } b st1 (hb.bind (by simp [ht d ts r hty])) hN h1).leaveP hb
      obtain ⟨k1, k2⟩ := key _ _ (Named.captured hb t1.names)
      simp only [litFns, exprsBody] at hf
      simp only [List.isEmpty_iff, if_neg k1] at hf
      exact ⟨_, .fn d ts r, k2, hf _ (by simp), hf _ (by simp)⟩
  | fnE hd i x a =>
    obtain ⟨d, ts, r, ρ, st, b, st1, hty, hb, hN, h1, hf⟩ := h
    · have t1 := (trX_tx hA T D x (bindParams (hd.params.map (·.1)) st.n ++ ρ) { st with n := st.n + ts.length } b st1 (hb.bind (by simp [ht d ts r hty])) hN h1).leaveP hb
      obtain ⟨k1, k2⟩ := key _ _ (Named.captured hb t1.names)
      simp only [litFns, exprsBody, foundL, List.append_nil] at hf
      simp only [List.isEmpty_iff, if_neg k1] at hf
      exact ⟨_, .fn d ts r, k2, hf _ (by simp), hf _ (by simp)⟩
  | _ => exact h.elim

theorem at_lookup {en : Word} {ρ : Names'} : ∀ (xs : List String) (cs : List (Nat × TyR)) (i : Nat) (x : String) (c : Cell), Named ρ xs cs →
    (xs.zipIdx i |>.map fun q => (q.1, Cell.ref (en + BitVec.ofNat 64 (8 * q.2)))).lookup x = some c → (cs.map (·.1)).Nodup →
    ∃ n, ρ.lookup x = some n ∧ n ∈ cs.map (·.1) ∧ c = .ref (en + BitVec.ofNat 64 (8 * (i + (cs.map (·.1)).idxOf n)))
  | [], cs, i, x, c, hn, h, hd => by simp at h
  | y :: ys, [], i, x, c, hn, h, hd => by cases hn
  | y :: ys, (n, t) :: cs, i, x, c, .cons h1 hn, h, hd => by
    simp only [List.zipIdx_cons, List.map_cons, List.lookup] at h
    simp only at h1
    split at h
    · rename_i he
      have he : x = y := by simpa using he
      subst he
      cases h
      exact ⟨n, h1, by simp, by simp⟩
    · simp only [List.map_cons, List.nodup_cons] at hd
      obtain ⟨m, k1, k2, k3⟩ := at_lookup ys cs (i + 1) x c hn h hd.2
      refine ⟨m, k1, List.mem_cons_of_mem _ k2, ?_⟩
      have : n ≠ m := by rintro rfl; exact hd.1 k2
      rw [k3, List.map_cons, List.idxOf_cons, show (n == m) = false by simpa using this, cond_false, show i + 1 + (cs.map (·.1)).idxOf m = i + ((cs.map (·.1)).idxOf m + 1) by omega]

/-! ### The simulation -/

/-- The names have their values, and the literals of the tree their numbers. -/
structure At (A : List X) (K : Cap) (ρn : Names') (γ : Vars) (ρ : Gen.Env) (st : TrSt) (l : List X) : Prop where
  m : Match K ρn γ ρ
  b : Below ρn st.n
  k : Num A st.k l

theorem At.left {A : List X} {K : Cap} {ρn : Names'} {γ : Vars} {ρ : Gen.Env} {st : TrSt} {l l' : List X} (h : At A K ρn γ ρ st (l ++ l')) :
    At A K ρn γ ρ st l := ⟨h.m, h.b, h.k.left⟩

theorem At.x {A : List X} (hA : ∀ t ∈ A, LitTyped t) {T : TrLib} {D : Decls} {K : Cap} {ρn : Names'} {γ : Vars} {ρ : Gen.Env} {st st1 : TrSt} {e : X}
    {e' : Expr} {l : List X} (h : At A K ρn γ ρ st (litsX e ++ l)) (h1 : trX T D ρn e st = .ok (e', st1)) : At A K ρn γ ρ st1 l := by
  have t := trX_tx hA T D e ρn st e' st1 h.b h.k.left h1
  exact ⟨h.m, h.b.le t.n, by rw [t.k]; exact h.k.right⟩

theorem At.ss {A : List X} (hA : ∀ t ∈ A, LitTyped t) {T : TrLib} {D : Decls} {K : Cap} {ρn : Names'} {γ : Vars} {ρ : Gen.Env} {st st1 : TrSt} {ss : List S}
    {b : SSs} {l : List X} (h : At A K ρn γ ρ st (litsB ss ++ l)) (h1 : trB T D ρn ss st = .ok (b, st1)) : At A K ρn γ ρ st1 l := by
  have t := trB_tx hA T D ss ρn st b st1 h.b h.k.left h1
  exact ⟨h.m, h.b.le t.n, by rw [t.k]; exact h.k.right⟩

theorem At.with {A : List X} {K : Cap} {ρn : Names'} {γ γ' : Vars} {ρ ρ' : Gen.Env} {st : TrSt} {l : List X} (h : At A K ρn γ ρ st l)
    (m : Match K ρn γ' ρ') : At A K ρn γ' ρ' st l := ⟨m, h.b, h.k⟩

/-- The captured variables are outside, the environment is a variable after all others. -/
def Room (K : Cap) (n n' : Nat) : Prop := (∀ c ∈ K.cs, c < n) ∧ n' ≤ K.m

theorem Room.sub {K : Cap} {n n' m m' : Nat} (h : Room K n n') (h1 : n ≤ m) (h2 : m' ≤ n') : Room K m m' :=
  ⟨fun c hc => Nat.lt_of_lt_of_le (h.1 c hc) h1, Nat.le_trans h2 h.2⟩

theorem Room.out {K : Cap} {n n' m : Nat} (h : Room K n n') (h1 : n ≤ m) : m ∉ K.cs := fun hc => Nat.lt_irrefl _ (Nat.lt_of_lt_of_le (h.1 m hc) h1)

theorem Room.ne {K : Cap} {n n' m : Nat} (h : Room K n n') (h1 : m < n') : m ≠ K.m := Nat.ne_of_lt (Nat.lt_of_lt_of_le h1 h.2)

/-- The value of the innermost variable. -/
theorem Match.top {K : Cap} {ρn : Names'} {γ : Vars} {ρ : Gen.Env} {x : String} {n : Nat} {v : Option Val}
    (h : Match K ((x, n) :: ρn) ((x, .val v) :: γ) ρ) (hn : n ∉ K.cs) : ρ n = v := by
  obtain ⟨m, h1, ⟨h2, h3⟩ | ⟨h2, h3, h4⟩⟩ := h.lookup (x := x) (c := .val v) (by simp [List.lookup])
  · simp only [List.lookup, beq_self_eq_true] at h1
    cases h1
    cases h3
    rfl
  · cases h3

/-- Only array literals become array literals. -/
theorem notArr {T : TrLib} {D : Decls} {ρ : Names'} {e : X} {e' : Expr} {st st' : TrSt} {cs : List Nat} {m : Nat} {t : TyR}
    (h : trX T D ρ e st = .ok (e', st')) (hl : litArr (capX cs m t e') = false) : isArr e = false := by
  cases e with
  | arr es a =>
    simp only [trX] at h
    obtain ⟨⟨es', st1⟩, h1, h⟩ := ok_bind h
    simp only at h
    split at h
    · cases h
    · cases h
      simp [capX, litArr] at hl
  | _ => rfl

/-- What a run of the checked program says about the program made of it. -/
def Sim (T : TrLib) (D : Decls) (A : List X) (X : XProg σ) (P : SProg σ) : XJd σ → Prop
  | .expr γ S e v S' => ∀ K ρn ρ st e' st', At A K ρn γ ρ st (litsX e) → trX T D ρn e st = .ok (e', st') →
      SBig againOpts P (.expr ρ S (capX K.cs K.m K.t e') v S')
  | .args γ S es vs S' => ∀ K ρn ρ st es' st', At A K ρn γ ρ st (litsL es) → trL T D ρn es st = .ok (es', st') →
      SBig againOpts P (.args ρ S (capL K.cs K.m K.t es') vs S')
  | .loc γ S e l S' => ∀ K ρn ρ st e' st', At A K ρn γ ρ st (litsX e) → trX T D ρn e st = .ok (e', st') →
      match l with
      | .var x => ∃ n w, ρn.lookup x = some n ∧ γ.lookup x = some (.val w) ∧ SBig againOpts P (.loc ρ S (capX K.cs K.m K.t e') (.var n) S')
      | .mem a => SBig againOpts P (.loc ρ S (capX K.cs K.m K.t e') (.mem a) S')
  | .stmt γ S s o γ' S' => ∀ K ρn ρ st s' ρn' st', At A K ρn γ ρ st (litsS s) → trS T D ρn s st = .ok (s', ρn', st') → Room K st.n st'.n →
      ∃ ρ', SBig againOpts P (.stmt ρ S (capS K.cs K.m K.t s') o ρ' S') ∧ Match K ρn' γ' ρ'
  | .stmts γ S ss o γ' S' => ∀ K ρn ρ st b st', At A K ρn γ ρ st (litsB ss) → trB T D ρn ss st = .ok (b, st') → Room K st.n st'.n →
      ∃ ρ' pre, SBig againOpts P (.stmts ρ S (capB K.cs K.m K.t b) o ρ' S') ∧ Match K (pre ++ ρn) γ' ρ'
  | .chain γ S c o γ' S' => ∀ K ρn ρ st b st', At A K ρn γ ρ st (litsCh c) → trCh T D ρn c st = .ok (b, st') → Room K st.n st'.n →
      ∃ ρ', SBig againOpts P (.chain ρ S (capCh K.cs K.m K.t b) o ρ' S') ∧ Match K ρn γ' ρ'
  | .range γ S x hi k vs ss o γ' S' => ∀ K ρn ρ n st0 e st1 st b st', Match K ρn γ ρ → Below ρn n → Num A st.k (litsB ss) → n < st.n →
      At A K ρn γ ρ st0 (litsX hi) → trX T D ρn hi st0 = .ok (e, st1) →
      trB T D ((x, n) :: ρn) ss st = .ok (b, st') → Room K n st'.n →
      ∃ ρ', SBig againOpts P (.range ρ S n (capX K.cs K.m K.t e) k vs (capB K.cs K.m K.t b) o ρ' S') ∧ Match K ρn γ' ρ'
  | .elems γ S x ar p i ss o γ' S' => ∀ K ρn ρ n st0 e st1 st b st', Match K ρn γ ρ → Below ρn n → Num A st.k (litsB ss) → n < st.n →
      At A K ρn γ ρ st0 (litsX ar) → trX T D ρn ar st0 = .ok (e, st1) →
      trB T D ((x, n) :: ρn) ss st = .ok (b, st') → Room K n st'.n →
      ∃ ρ', SBig againOpts P (.elems ρ S n (capX K.cs K.m K.t e) p i (capB K.cs K.m K.t b) o ρ' S') ∧ Match K ρn γ' ρ'
  | .fill γ S v i es w S' => ∀ K ρn ρ st es' st' t y S0, At A K ρn γ ρ st (litsL es) → trL T D ρn es st = .ok (es', st') →
      SBig againOpts P (.expr ρ S0 y v S) → SBig againOpts P (.expr ρ S0 (trElems T t y i (capL K.cs K.m K.t es')) w S')
  | .value p vs S v S' => vs.length ≤ 5 → ∃ fd ∈ P.fns, fd.name = T.invokeDynamic ∧ fd.skip = false ∧ SBig againOpts P (.fn fd (some (.ptr p) :: vs) S v S')
  | .lit e γ vs S v S' => ∀ k, (e, k) ∈ X.lits →
      (captured e = [] → γ = [] → ∃ fd ∈ P.fns, fd.name = T.anonFn k ∧ fd.skip = false ∧ SBig againOpts P (.fn fd vs S v S')) ∧
      (captured e ≠ [] → ∀ en, γ = Vars.at (captured e) en → ∃ fd ∈ P.fns, fd.name = T.clFn k ∧ fd.skip = false ∧
        SBig againOpts P (.fn fd (some (.ptr en) :: vs) S v S'))
  | .fn p f vs S v S' => ∀ st fd st', Num A st.k (litsFn p f) → trFn T D p f st = .ok ([fd], st') → SBig againOpts P (.fn fd vs S v S')

/-- The functions of the program are among those made of the checked program. -/
structure Made (T : TrLib) (D : Decls) (A : List X) (X : XProg σ) (P : SProg σ) : Prop where
  base : P.base = X.base
  asm : X.asm = T.asm
  members : ∀ n, (D.members n).length < 2 ^ 63
  fns : ∀ fid p f, (fid, p, f) ∈ X.fns → (∀ x s, s.fid = fid → T.asm x s = p.name) ∧
    ∃ st fd st', Num A st.k (litsFn p f) ∧ trFn T D p f st = .ok ([fd], st') ∧ fd ∈ P.fns
  typed : ∀ t ∈ A, LitTyped t
  nodup : A.Nodup
  lits : ∀ t k, (t, k) ∈ X.lits → (t, k) ∈ A.zipIdx 1 ∧ LitIn T D A P.fns k t
  anonFn : X.anonFn = T.anonFn
  clFn : X.clFn = T.clFn
  desc : X.desc = T.desc
  envId : X.envId = T.envId
  clId : X.clId = T.clId
  dyn : ∀ p f, (X.isClosure, p, f) ∈ X.fns → ∃ isCl uns n, dynFn T T.invokeDynamic isCl uns n ∈ P.fns ∧ p.name = isCl ∧
    ∀ q S, P.base.ext uns [some q, some 1, none] S q S
  arr : ∀ p f, (X.arrayNoInit, p, f) ∈ X.fns → p.name = T.arrayNoInit
  set : ∀ p f, (X.setElement, p, f) ∈ X.fns → p.name = T.setElement

theorem trFn_name {T : TrLib} {D : Decls} {p : Top} {f : Fn} {st st' : TrSt} {fd : SFn} (h : trFn T D p f st = .ok ([fd], st'))
    (hs : p.skip = false) : fd.name = p.name ∧ fd.skip = false := by
  simp only [trFn] at h
  split at h
  · cases h
  · cases h; exact ⟨rfl, rfl⟩
  · cases h; exact ⟨rfl, rfl⟩
  · obtain ⟨⟨b, st1⟩, h1, h⟩ := ok_bind h
    cases h; exact ⟨rfl, hs⟩
  · obtain ⟨⟨b, st1⟩, h1, h⟩ := ok_bind h
    cases h; exact ⟨rfl, hs⟩
  · cases h

/-! ### Variables and literals -/

theorem var_sim {P : SProg σ} {K : Cap} {ρn : Names'} {γ : Vars} {ρ : Gen.Env} {S : Store σ} {x : String} {n : Nat} {u : TyR} {v : Val} (m : Match K ρn γ ρ)
    (hn : ρn.lookup x = some n) (hv : γ.value S x = some v) : SBig againOpts P (.expr ρ S (capX K.cs K.m K.t (.var n u)) (some v) S) := by
  simp only [Vars.value] at hv
  split at hv
  · rename_i w hl
    obtain ⟨n', h1, ⟨h2, h3⟩ | ⟨h2, h3, h4⟩⟩ := m.lookup hl
    · rw [hn] at h1
      cases h1
      cases h3
      rw [capX, if_neg h2]
      exact .var hv
    · cases h3
  · rename_i a hl
    obtain ⟨n', h1, ⟨h2, h3⟩ | ⟨h2, h3, h4⟩⟩ := m.lookup hl
    · cases h3
    · rw [hn] at h1
      cases h1
      cases h3
      rw [capX, if_pos h2]
      exact .dot (.var h4) hv
  · cases hv

theorem vars_sim {P : SProg σ} {K : Cap} {ρn : Names'} {γ : Vars} {ρ : Gen.Env} {S : Store σ} (m : Match K ρn γ ρ) : ∀ (xs : List String) (cs : List (Nat × TyR))
    (vals : List Val), Named ρn xs cs → xs.map (γ.value S) = vals.map some →
    SBig againOpts P (.args ρ S (capL K.cs K.m K.t (cs.map fun p => .var p.1 p.2)) (vals.map some) S)
  | [], [], vals, hn, hv => by
    have : vals = [] := by simpa using hv.symm
    subst this
    exact .argsNil
  | x :: xs, (n, u) :: cs, [], hn, hv => by simp at hv
  | x :: xs, (n, u) :: cs, v :: vals, .cons h1 hn, hv => by
    simp only [List.map_cons, List.cons.injEq] at hv
    exact .argsCons (var_sim m h1 hv.1) (vars_sim m xs cs vals hn hv.2)

/-- Only functions by name and literals without captured variables become references to functions. -/
theorem callee_notRef {T : TrLib} {D : Decls} {A : List X} (hA : ∀ t ∈ A, LitTyped t) {f : X} {ρn : Names'} {st st' : TrSt} {e : Expr}
    (hg : ∀ x t s r, f = .ident x ⟨t, some (s :: r)⟩ → s.isGlobal = false) (hc : isLit f = true → captured f ≠ []) (hb : Below ρn st.n)
    (hN : Num A st.k (litsX f)) (h : trX T D ρn f st = .ok (e, st')) : notRef e := by
  have lit : isLit f = true → f ∈ A → notRef e := by
    intro hl hf
    obtain ⟨cs, u, nm, ⟨rfl, -⟩ | ⟨-, rfl, -⟩⟩ := lit_inv hA (hA f hf) hb hN h
    · have := All₂.length nm
      simp at this
      exact (hc hl this).elim
    · trivial
  cases f with
  | lit k a => cases h; cases k <;> trivial
  | ident x a =>
    rw [trX] at h
    obtain ⟨e1, h1, h⟩ := ok_bind h
    cases h
    obtain ⟨t, sy⟩ := a
    simp only [trIdent] at h1
    split at h1
    · rename_i _ _ s r t'
      rw [hg x _ _ _ rfl] at h1
      simp only [Bool.false_eq_true, if_false] at h1
      split at h1
      · cases h1
      · split at h1
        · cases h1; trivial
        · cases h1
    · cases h1
  | call f ts args a =>
    rcases callForm f with ⟨x, t, s, r, rfl⟩ | hf
    · rw [trX_callI] at h
      obtain ⟨⟨as, st1⟩, h1, h⟩ := ok_bind h
      simp only at h
      split at h
      · cases h
      · split at h
        · obtain ⟨e1, h2, h⟩ := ok_bind h
          cases h
          simp only [trCall] at h2
          split at h2
          · cases h2; trivial
          · cases h2
        · obtain ⟨e1, h2, h⟩ := ok_bind h
          cases h
          cases e1 <;> trivial
    · rw [trX_callF hf] at h
      obtain ⟨⟨e1, st1⟩, h1, h⟩ := ok_bind h
      obtain ⟨⟨as, st2⟩, h2, h⟩ := ok_bind h
      simp only at h
      split at h
      · cases h
      · cases h
        cases e1 <;> trivial
  | bin o l r a =>
    simp only [trX] at h
    split at h
    · cases h
    · obtain ⟨⟨e1, st1⟩, h1, h⟩ := ok_bind h
      obtain ⟨⟨e2, st2⟩, h2, h⟩ := ok_bind h
      simp only at h
      split at h
      · cases h
      · cases h; trivial
  | cmp o l r a =>
    simp only [trX] at h
    obtain ⟨⟨e1, st1⟩, h1, h⟩ := ok_bind h
    obtain ⟨⟨e2, st2⟩, h2, h⟩ := ok_bind h
    simp only at h
    split at h
    · cases h
    · cases h; trivial
  | un o x a =>
    simp only [trX] at h
    obtain ⟨⟨e1, st1⟩, h1, h⟩ := ok_bind h
    simp only at h
    split at h
    · cases h
    · cases h; trivial
  | tern c x y a =>
    simp only [trX] at h
    obtain ⟨⟨e1, st1⟩, h1, h⟩ := ok_bind h
    obtain ⟨⟨e2, st2⟩, h2, h⟩ := ok_bind h
    obtain ⟨⟨e3, st3⟩, h3, h⟩ := ok_bind h
    simp only at h
    split at h
    · cases h
    · cases h; trivial
  | arr es a =>
    simp only [trX] at h
    obtain ⟨⟨e1, st1⟩, h1, h⟩ := ok_bind h
    simp only at h
    split at h
    · cases h
    · cases h; trivial
  | index l r a =>
    simp only [trX] at h
    obtain ⟨⟨e1, st1⟩, h1, h⟩ := ok_bind h
    obtain ⟨⟨e2, st2⟩, h2, h⟩ := ok_bind h
    simp only at h
    split at h
    · cases h
    · cases h; trivial
  | dot l r a =>
    simp only [trX] at h
    obtain ⟨⟨e1, st1⟩, h1, h⟩ := ok_bind h
    simp only at h
    split at h
    · split at h
      · cases h
      · cases h; trivial
    · cases h
  | ty t a =>
    simp only [trX] at h
    split at h
    · cases h
    · cases h; trivial
  | fnB hd i ss a =>
    exact lit rfl (List.mem_of_getElem? (hN.right (l := litsB ss) 0 _ rfl))
  | fnE hd i x a =>
    exact lit rfl (List.mem_of_getElem? (hN.right (l := litsX x) 0 _ rfl))

theorem cap_invoke {T : TrLib} {e : Expr} {u : Ty} {as : List Expr} {cs : List Nat} {m : Nat} {t : TyR} (h : notRef e) :
    capX cs m t (trInvoke T e u as) = .callFn T.invokeDynamic { ret := T.ty u } (capX cs m t e :: capL cs m t as) := by
  cases e <;> first | exact h.elim | rfl

theorem dyn_is (T : TrLib) (name isCl uns : String) (n : Nat) : SIsDyn (dynFn T name isCl uns n) isCl uns (dynT T) n :=
  ⟨rfl, rfl, rfl, rfl, rfl, rfl⟩

/-- `invokeDynamic` calls the function that the value stands for. -/
theorem dyn_sim {T : TrLib} {D : Decls} {A : List X} {X : XProg σ} {P : SProg σ} (M : Made T D A X P) {pc : Top} {fc : Fn} {b : Bool} {p : Word} {S S' : Store σ}
    {vs vs' : List (Option Val)} {v : Option Val} {fd : SFn} (hp : (X.isClosure, pc, fc) ∈ X.fns) (hs : pc.skip = false)
    (ht : Sim T D A X P (.fn pc fc [some (.ptr p)] S (some (.bool b)) S)) (hl : vs.length ≤ 5) (hd : Gen.Denotes P.base S b fd.name vs p vs')
    (hf : fd ∈ P.fns) (hk : fd.skip = false) (hr : SBig againOpts P (.fn fd vs' S v S')) :
    ∃ fd0 ∈ P.fns, fd0.name = T.invokeDynamic ∧ fd0.skip = false ∧ SBig againOpts P (.fn fd0 (some (.ptr p) :: vs) S v S') := by
  obtain ⟨isCl, uns, n, h1, h2, h3⟩ := M.dyn _ _ hp
  obtain ⟨-, st, fc', st', hN, h4, h5⟩ := M.fns _ _ _ hp
  obtain ⟨e1, e2⟩ := trFn_name h4 hs
  have hv : Gen.bindParams (dynFn T T.invokeDynamic isCl uns n).params (some (.ptr p) :: vs) n = some (.ptr p) := by
    simp [dynFn, Gen.bindParams]
  refine ⟨_, h1, rfl, rfl, .fnDyn (dyn_is T _ isCl uns n) hd ?_ ?_ hf hk hl hr⟩
  · exact .callFn rfl (.argsCons (.var hv) .argsNil) h5 (e1.trans h2) e2 (ht _ _ _ hN h4)
  · cases b
    · exact .callExt rfl (.argsCons (.var hv) (.argsCons .int (.argsCons .typ .argsNil))) (w := p) (h3 p S) (by
        simp [dynT, extRes, Val.enc])
    · exact .callExt rfl (.argsCons (.var hv) (.argsCons .int (.argsCons .typ .argsNil))) (w := p) (h3 p S) (by
        simp [dynT, extRes, Val.enc])

theorem trL_length {T : TrLib} {D : Decls} {ρ : Names'} : ∀ {es : List X} {st : TrSt} {es' : List Expr} {st' : TrSt}, trL T D ρ es st = .ok (es', st') → es'.length = es.length
  | [], st, es', st', h => by cases h; rfl
  | e :: es, st, es', st', h => by
    simp only [trL] at h
    obtain ⟨⟨e1, st1⟩, h1, h⟩ := ok_bind h
    obtain ⟨⟨e2, st2⟩, h2, h⟩ := ok_bind h
    cases h
    simp [trL_length h2]

theorem bindVars_out (T : TrLib) : ∀ (ts : List Ty) (n : Nat) (vs : List Val) (ρ : Gen.Env) (y : Nat), n + ts.length ≤ y →
    bindVars (typedParams T ts n) vs ρ y = ρ y
  | [], n, vs, ρ, y, h => rfl
  | t :: ts, n, [], ρ, y, h => rfl
  | t :: ts, n, v :: vs, ρ, y, h => by
    rw [typedParams_cons]
    simp only [bindVars]
    simp only [List.length_cons] at h
    rw [bindVars_out T ts (n + 1) vs _ y (by omega), upd_other (by omega)]

theorem base0 {m : Nat} {t : TyR} {out : Names'} {ρ : Gen.Env} : Cap.Base ⟨[], m, t, out, [], 0⟩ ρ := fun x c h => by cases h

/-- The variables at the beginning of a function. -/
theorem match_params {T : TrLib} {m : Nat} {t : TyR} {ρ0 : Names'} {xs : List String} {ts : List Ty} {n : Nat} {vs : List (Option Val)} (hl : vs.length = xs.length)
    (ht : ts.length = xs.length) :
    Match ⟨[], m, t, ρ0, [], 0⟩ (bindParams xs n ++ ρ0) (Vars.bind xs vs) (Gen.bindParams (typedParams T ts n) vs) := by
  have := Match.bind (names := xs) (n := n) (vs := vs) (K := ⟨[], m, t, ρ0, [], 0⟩) (ρn := ρ0) (γ := []) (ρ := Gen.bindParams (typedParams T ts n) vs)
    ⟨[], [], rfl, rfl, .nil, base0⟩ hl (fun i hi h => by cases h) (bindParams_val T ts n vs (by omega))
  rwa [List.append_nil] at this

theorem bindParams_skip {ps : List (Nat × TyR)} {x : Nat} {t : TyR} {v : Option Val} {vs : List (Option Val)} {y : Nat} (h : y ≠ x) :
    Gen.bindParams ((x, t) :: ps) (v :: vs) y = Gen.bindParams ps vs y := by simp [Gen.bindParams, h]

/-- The variables at the beginning of the function of a closure. -/
theorem match_captured {T : TrLib} {m : Nat} {te : TyR} {ρ0 : Names'} {xs ys : List String} {ts : List Ty} {n : Nat} {vs : List (Option Val)} {en : Word}
    {cs : List (Nat × TyR)} (hl : vs.length = xs.length) (ht : ts.length = xs.length) (hn : Named ρ0 ys cs) (hd : (cs.map (·.1)).Nodup)
    (hc : ∀ c ∈ cs.map (·.1), c < n) (hm : n + xs.length ≤ m) :
    Match ⟨cs.map (·.1), m, te, ρ0, Vars.at ys en, en⟩ (bindParams xs n ++ ρ0) (Vars.bind xs vs ++ Vars.at ys en)
      (Gen.bindParams ((m, te) :: typedParams T ts n) (some (.ptr en) :: vs)) := by
  refine Match.bind (ρn := ρ0) (γ := Vars.at ys en) ⟨[], [], rfl, rfl, .nil, ?_⟩ hl (fun i hi h => ?_) (fun i v hv => ?_)
  · intro x c hx
    obtain ⟨k, k1, k2, k3⟩ := at_lookup ys cs 0 x c hn hx hd
    exact ⟨k, k1, k2, by simpa using k3, by simp [Gen.bindParams]⟩
  · have := hc _ h
    omega
  · have hi : i < xs.length := by
      rw [← hl]
      exact (List.getElem?_eq_some_iff.mp hv).1
    rw [bindParams_skip (by omega)]
    exact bindParams_val T ts n vs (by omega) i v hv

/-- The function of a literal with a block. -/
theorem lit_simB {T : TrLib} {D : Decls} {A : List X} {X : XProg σ} {P : SProg σ} (M : Made T D A X P) {hd : Head} {i : Option FnInfo} {ss : List S} {d : FnData} {ts : List Ty}
    {r : Ty} {y : Option Sym} {γ : Vars} {vs : List (Option Val)} {S S' : Store σ} {v : Option Val} {z : Out}
    (hz : z = .ret v ∨ (z = .norm ∧ v = none ∧ r = .prim .nothing)) (hts : ts.length = hd.params.length) (hl : vs.length = hd.params.length)
    (ih : ∀ K ρn ρ st b st', At A K ρn (Vars.bind (hd.params.map (·.1)) vs ++ γ) ρ st (litsB ss) → trB T D ρn ss st = .ok (b, st') → Room K st.n st'.n →
      ∃ ρ', SBig againOpts P (.stmts ρ S (capB K.cs K.m K.t b) z ρ' S')) :
    Sim T D A X P (.lit (.fnB hd i ss ⟨some (.fn d ts r), y⟩) γ vs S v S') := by
  have hA := M.typed
  intro k hk
  obtain ⟨hz0, d', ts', r', ρ0, st, b, st1, hty, hb, hN, h1, hf⟩ := M.lits _ _ hk
  cases hty
  have hbp : Below (bindParams (hd.params.map (·.1)) st.n ++ ρ0) (st.n + ts.length) := hb.bind (by simp [hts])
  have t0 := trB_tx hA T D ss (bindParams (hd.params.map (·.1)) st.n ++ ρ0) { st with n := st.n + ts.length } b st1 hbp hN h1
  have hn := t0.n
  simp only at hn
  have nm := Named.captured hb (t0.leaveP hb).names
  have run : ∀ (fd : SFn) (bb : SSs) (us : List (Option Val)), fd.body = .block bb → us.length = fd.params.length → fd.retNothing = (kindOf r == .nothing) →
      (∃ ρ', SBig againOpts P (.stmts (Gen.bindParams fd.params us) S bb z ρ' S')) → SBig againOpts P (.fn fd us S v S') := by
    rintro fd bb us e1 e2 e3 ⟨ρ', hs⟩
    rcases hz with rfl | ⟨rfl, rfl, rfl⟩
    · exact .fnRet e1 e2 hs
    · exact .fnEnd e1 e2 (by rw [e3]; rfl) hs
  refine ⟨?_, ?_⟩
  · intro hc hγ
    subst hγ
    have hcs : caps st.n (foundL (exprsB b)) = [] := by
      have := All₂.length nm
      simp only [captured] at hc
      rw [hc] at this
      exact List.length_eq_zero_iff.mp this.symm
    simp only [litFns, exprsBody, hcs, List.isEmpty_nil, if_true] at hf
    refine ⟨_, hf _ (List.mem_singleton.mpr rfl), rfl, rfl, run _ b _ rfl (by simp [anonBody, typedParams_length, hl, hts]) rfl ?_⟩
    obtain ⟨ρ', hs⟩ := ih ⟨[], st1.n, ⟨.nothing, 0⟩, ρ0, [], 0⟩ _ _ { st with n := st.n + ts.length } _ _
      ⟨by rw [List.append_nil]; exact match_params (T := T) (n := st.n) (ts := ts) (by simpa using hl) (by simpa using hts), hbp, hN⟩ h1 ⟨by simp, Nat.le_refl _⟩
    rw [capB_nil] at hs
    exact ⟨ρ', hs⟩
  · intro hc en hγ
    subst hγ
    have hcs : caps st.n (foundL (exprsB b)) ≠ [] := by
      intro e
      have := All₂.length nm
      rw [e] at this
      exact hc (List.length_eq_zero_iff.mp this)
    simp only [litFns, exprsBody, List.isEmpty_iff, if_neg hcs] at hf
    refine ⟨_, hf (clBody T k st1.n (caps st.n (foundL (exprsB b))) (typedParams T ts st.n) (.block b) r) (by simp), rfl, rfl,
      run _ (capB ((caps st.n (foundL (exprsB b))).map (·.1)) st1.n ⟨.struct, T.envId k⟩ b) _ rfl (by simp [clBody, typedParams_length, hl, hts]) rfl ?_⟩
    have hlt : ∀ c ∈ (caps st.n (foundL (exprsB b))).map (·.1), c < st.n := by
      intro c hc
      obtain ⟨q, hq, rfl⟩ := List.mem_map.mp hc
      exact caps_lt q hq
    exact ih ⟨(caps st.n (foundL (exprsB b))).map (·.1), st1.n, ⟨.struct, T.envId k⟩, ρ0, Vars.at (captured (.fnB hd i ss ⟨some (.fn d ts r), y⟩)) en, en⟩ _ _ { st with n := st.n + ts.length } _ _
      ⟨match_captured (T := T) (n := st.n) (ts := ts) (by simpa using hl) (by simpa using hts) nm (caps_nodup _ _) hlt (by simp only [List.length_map]; omega), hbp, hN⟩ h1
      ⟨fun c hc => Nat.lt_of_lt_of_le (hlt c hc) (Nat.le_add_right _ _), Nat.le_refl _⟩

/-- The function of a literal with an expression. -/
theorem lit_simE {T : TrLib} {D : Decls} {A : List X} {X : XProg σ} {P : SProg σ} (M : Made T D A X P) {hd : Head} {i : Option FnInfo} {e : Chk.X} {d : FnData} {ts : List Ty}
    {r : Ty} {y : Option Sym} {γ : Vars} {vs : List (Option Val)} {S S' : Store σ} {v : Option Val} (hts : ts.length = hd.params.length) (hl : vs.length = hd.params.length)
    (ih : Sim T D A X P (.expr (Vars.bind (hd.params.map (·.1)) vs ++ γ) S e v S')) :
    Sim T D A X P (.lit (.fnE hd i e ⟨some (.fn d ts r), y⟩) γ vs S v S') := by
  have hA := M.typed
  intro k hk
  obtain ⟨hz0, d', ts', r', ρ0, st, b, st1, hty, hb, hN, h1, hf⟩ := M.lits _ _ hk
  cases hty
  have hbp : Below (bindParams (hd.params.map (·.1)) st.n ++ ρ0) (st.n + ts.length) := hb.bind (by simp [hts])
  have t0 := trX_tx hA T D e (bindParams (hd.params.map (·.1)) st.n ++ ρ0) { st with n := st.n + ts.length } b st1 hbp hN h1
  have hn := t0.n
  simp only at hn
  have nm := Named.captured hb (t0.leaveP hb).names
  refine ⟨?_, ?_⟩
  · intro hc hγ
    subst hγ
    have hcs : caps st.n (found b) = [] := by
      have := All₂.length nm
      simp only [captured] at hc
      rw [hc] at this
      exact List.length_eq_zero_iff.mp this.symm
    simp only [litFns, exprsBody, foundL, List.append_nil, hcs, List.isEmpty_nil, if_true] at hf
    refine ⟨_, hf _ (List.mem_singleton.mpr rfl), rfl, rfl, .fnExpr rfl (by simp [anonBody, typedParams_length, hl, hts]) ?_⟩
    have hs := ih ⟨[], st1.n, ⟨.nothing, 0⟩, ρ0, [], 0⟩ _ _ { st with n := st.n + ts.length } _ _
      ⟨by rw [List.append_nil]; exact match_params (T := T) (n := st.n) (ts := ts) (by simpa using hl) (by simpa using hts), hbp, hN⟩ h1
    rw [capX_nil] at hs
    exact hs
  · intro hc en hγ
    subst hγ
    have hcs : caps st.n (found b) ≠ [] := by
      intro e
      have := All₂.length nm
      rw [e] at this
      exact hc (List.length_eq_zero_iff.mp this)
    simp only [litFns, exprsBody, foundL, List.append_nil, List.isEmpty_iff, if_neg hcs] at hf
    refine ⟨_, hf (clBody T k st1.n (caps st.n (found b)) (typedParams T ts st.n) (.expr b) r) (by simp), rfl, rfl, .fnExpr rfl (by simp [clBody, typedParams_length, hl, hts]) ?_⟩
    have hlt : ∀ c ∈ (caps st.n (found b)).map (·.1), c < st.n := by
      intro c hc
      obtain ⟨q, hq, rfl⟩ := List.mem_map.mp hc
      exact caps_lt q hq
    exact ih ⟨(caps st.n (found b)).map (·.1), st1.n, ⟨.struct, T.envId k⟩, ρ0, Vars.at (captured (.fnE hd i e ⟨some (.fn d ts r), y⟩)) en, en⟩ _ _ { st with n := st.n + ts.length } _ _
      ⟨match_captured (T := T) (n := st.n) (ts := ts) (by simpa using hl) (by simpa using hts) nm (caps_nodup _ _) hlt (by simp only [List.length_map]; omega), hbp, hN⟩ h1

set_option maxHeartbeats 2000000 in
theorem sim {T : TrLib} {D : Decls} {A : List X} {X : XProg σ} {P : SProg σ} {R : Loops}
    (hR : ∀ z a b vs, R.range z a b vs → codeRange z a b vs) (hG : R.again = true) (M : Made T D A X P) {j : XJd σ} (h : XBig R D X j) : Sim T D A X P j := by
  have hA := M.typed
  induction h with
  | int => intro K ρn ρ st e' st' H h; cases h; exact .int
  | bool => intro K ρn ρ st e' st' H h; cases h; exact .bool
  | str => intro K ρn ρ st e' st' H h; cases h; rw [← M.base]; exact .str
  | typ =>
    intro K ρn ρ st e' st' H h
    simp only [trX] at h
    split at h
    · cases h
    · cases h; exact .typ
  | var hg hv =>
    intro K ρn ρ st e' st' H h
    rw [trX] at h
    obtain ⟨e1, h1, h⟩ := ok_bind h
    cases h
    simp only [trIdent] at h1
    split at h1
    · rename_i ht hs
      cases hs
      rw [hg] at h1
      simp only [Bool.false_eq_true, if_false] at h1
      split at h1
      · cases h1
      · split at h1
        · rename_i n hn
          cases h1
          exact var_sim H.m hn hv
        · cases h1
    · cases h1
  | fnRef hg ht hk =>
    intro K ρn ρ st e' st' H h
    rw [trX] at h
    obtain ⟨e1, h1, h⟩ := ok_bind h
    cases h
    simp only [trIdent] at h1
    split at h1
    · rename_i hy hs
      cases hs
      rw [hg, ht] at h1
      split at h1
      · cases h1
      · cases h1
        rw [show (_ == FnKind.external) = false by simpa using hk, capX, ← M.base, M.asm]
        exact .fnRef
    · cases h1
  | @anon γ S e k hl hc =>
    intro K ρn ρ st e' st' H h
    have hz := (M.lits _ _ hl).1
    have hk := lit_number hA M.nodup hz H.b H.k h
    obtain ⟨cs, u, nm, ⟨rfl, rfl⟩ | ⟨h1, -⟩⟩ := lit_inv hA (hA e (List.fst_mem_of_mem_zipIdx hz)) H.b H.k h
    · rw [hk, capX, ← M.base, M.anonFn]
      exact .fnRef
    · have := All₂.length nm
      rw [hc] at this
      exact (h1 (List.length_eq_zero_iff.mp this.symm)).elim
  | @closure γ S e k a S1 S2 c S3 S4 vals hl hc hv hr1 hw1 hr2 hw2 =>
    intro K ρn ρ st e' st' H h
    obtain ⟨hz, hin⟩ := M.lits _ _ hl
    have hT := hA e (List.fst_mem_of_mem_zipIdx hz)
    have hk := lit_number hA M.nodup hz H.b H.k h
    obtain ⟨cs, u, nm, ⟨rfl, rfl⟩ | ⟨h1, rfl, -⟩⟩ := lit_inv hA hT H.b H.k h
    · have := All₂.length nm
      exact (hc (List.length_eq_zero_iff.mp this)).elim
    · obtain ⟨cs', u', l1, m1, m2⟩ := hin.objects hA hT hc
      have l2 : vals.length = (captured e).length := by
        have := congrArg List.length hv
        simpa using this.symm
      rw [hk]
      simp only [clExpr, capX, capL]
      rw [← M.base, M.desc, M.envId] at hr1
      rw [← M.base, M.desc, M.clId] at hr2
      rw [← M.base, M.clFn] at hw2
      refine .callFn rfl (.argsCons .fnRef (.argsCons (.callFn rfl (vars_sim H.m _ _ _ nm hv) m1 rfl rfl (.fnCons rfl (by rw [l2]; exact l1.symm) ?_ hw1)) .argsNil))
        m2 rfl rfl (.fnCons (vals := [.ptr (P.base.fnAddr (T.clFn k)), .ptr a]) rfl rfl ?_ hw2)
      · simpa using hr1
      · simpa using hr2
  | bin _ _ hv ih1 ih2 =>
    intro K ρn ρ st e' st' H h
    simp only [litsX] at H
    simp only [trX] at h
    split at h
    · cases h
    · rename_i o ho
      obtain ⟨⟨e1, st1⟩, h1, h⟩ := ok_bind h
      obtain ⟨⟨e2, st2⟩, h2, h⟩ := ok_bind h
      simp only at h
      split at h
      · cases h
      · cases h
        exact .bin (ih1 _ _ _ _ _ _ H.left h1) (ih2 _ _ _ _ _ _ (H.x hA h1) h2) (bin_eval ho hv)
  | cmp _ _ hv ih1 ih2 =>
    intro K ρn ρ st e' st' H h
    simp only [litsX] at H
    simp only [trX] at h
    obtain ⟨⟨e1, st1⟩, h1, h⟩ := ok_bind h
    obtain ⟨⟨e2, st2⟩, h2, h⟩ := ok_bind h
    simp only at h
    split at h
    · cases h
    · cases h
      exact .bin (ih1 _ _ _ _ _ _ H.left h1) (ih2 _ _ _ _ _ _ (H.x hA h1) h2) (cmp_eval hv)
  | un _ hv ih1 =>
    intro K ρn ρ st e' st' H h
    simp only [litsX] at H
    simp only [trX] at h
    obtain ⟨⟨e1, st1⟩, h1, h⟩ := ok_bind h
    simp only at h
    split at h
    · cases h
    · cases h
      exact .un (ih1 _ _ _ _ _ _ H h1) (un_eval hv)
  | ternT _ _ ih1 ih2 =>
    intro K ρn ρ st e' st' H h
    simp only [litsX] at H
    simp only [trX] at h
    obtain ⟨⟨e1, st1⟩, h1, h⟩ := ok_bind h
    obtain ⟨⟨e2, st2⟩, h2, h⟩ := ok_bind h
    obtain ⟨⟨e3, st3⟩, h3, h⟩ := ok_bind h
    simp only at h
    split at h
    · cases h
    · cases h
      exact .ternT (ih1 _ _ _ _ _ _ H.left h1) (ih2 _ _ _ _ _ _ (H.x hA h1).left h2)
  | ternF _ _ ih1 ih2 =>
    intro K ρn ρ st e' st' H h
    simp only [litsX] at H
    simp only [trX] at h
    obtain ⟨⟨e1, st1⟩, h1, h⟩ := ok_bind h
    obtain ⟨⟨e2, st2⟩, h2, h⟩ := ok_bind h
    obtain ⟨⟨e3, st3⟩, h3, h⟩ := ok_bind h
    simp only at h
    split at h
    · cases h
    · cases h
      exact .ternF (ih1 _ _ _ _ _ _ H.left h1) (ih2 _ _ _ _ _ _ ((H.x hA h1).x hA h2) h3)
  | call hg ht hk _ hm hs _ ih1 ih2 =>
    intro K ρn ρ st e' st' H h
    simp only [litsX, List.nil_append] at H
    rw [trX_callI] at h
    obtain ⟨⟨as, st1⟩, h1, h⟩ := ok_bind h
    simp only [hg, if_true] at h
    split at h
    · cases h
    · obtain ⟨e1, h2, h⟩ := ok_bind h
      cases h
      simp only [trCall, ht] at h2
      cases h2
      obtain ⟨hn, st2, fd, st3, hN, hf, hfd⟩ := M.fns _ _ _ hm
      obtain ⟨n1, n2⟩ := trFn_name hf hs
      rw [capX]
      refine .callFn ?_ (ih1 _ _ _ _ _ _ H h1) hfd (n1.trans (hn _ _ rfl).symm) n2 (ih2 _ _ _ hN hf)
      simpa using hk
  | callRt hg ht hk _ hr ih1 =>
    intro K ρn ρ st e' st' H h
    simp only [litsX, List.nil_append] at H
    rw [trX_callI] at h
    obtain ⟨⟨as, st1⟩, h1, h⟩ := ok_bind h
    simp only [hg, if_true] at h
    split at h
    · cases h
    · obtain ⟨e1, h2, h⟩ := ok_bind h
      cases h
      simp only [trCall, ht] at h2
      cases h2
      rw [capX]
      refine .callRt (by simpa using hk) (ih1 _ _ _ _ _ _ H h1) ?_
      rw [M.base, ← M.asm]
      exact hr
  | @callExt γ S x t s r ts args d us u u' sym vs S1 w v S2 hg ht hk _ he hr ih1 =>
    intro K ρn ρ st e' st' H h
    simp only [litsX, List.nil_append] at H
    rw [trX_callI] at h
    obtain ⟨⟨as, st1⟩, h1, h⟩ := ok_bind h
    simp only [hg, if_true] at h
    obtain ⟨e1, h2, h⟩ := ok_bind h
    cases h
    simp only [trCall, ht] at h2
    cases h2
    rw [capX]
    refine .callExt (by simpa using hk) (ih1 _ _ _ _ _ _ H h1) (w := w) ?_ hr
    rw [M.base, ← M.asm, extArgs_cap, extArgs_words (fi := { ext := d.kind == .external, raw := d.raw, variadic := d.variadic, ret := T.ty u' }) (fi' := { ext := true, raw := d.raw, ret := ⟨kindOf u', 0⟩ }) rfl _ _ _ _ _ h1]
    exact he
  | @callLit γ S e k ts args a vs S1 v S2 hl hc _ _ ih1 ih2 =>
    intro K ρn ρ st e' st' H h
    simp only [litsX] at H
    have hz := (M.lits _ _ hl).1
    have hT := hA e (List.fst_mem_of_mem_zipIdx hz)
    rw [trX_callF (by rintro x t s r rfl; exact hT.elim)] at h
    obtain ⟨⟨e1, st1⟩, h1, h⟩ := ok_bind h
    obtain ⟨⟨as, st2⟩, h2, h⟩ := ok_bind h
    have hk := lit_number hA M.nodup hz H.b H.k.left h1
    simp only at h
    split at h
    · cases h
    · cases h
      obtain ⟨cs, u, nm, ⟨rfl, rfl⟩ | ⟨h3, -⟩⟩ := lit_inv hA hT H.b H.k.left h1
      · obtain ⟨fd, f1, f2, f3, f4⟩ := (ih2 k hl).1 hc rfl
        simp only [trInvoke, capX, hk]
        exact .callFn rfl (ih1 _ _ _ _ _ _ (H.x hA h1) h2) f1 f2 f3 f4
      · have := All₂.length nm
        rw [hc] at this
        exact (h3 (List.length_eq_zero_iff.mp this.symm)).elim
  | @callVal γ S f ts args a p S1 vs S2 v S3 hg hc _ _ hl _ ih1 ih2 ih3 =>
    intro K ρn ρ st e' st' H h
    simp only [litsX] at H
    obtain ⟨fd, f1, f2, f3, f4⟩ := ih3 hl
    rcases callForm f with ⟨x, t, s, r, rfl⟩ | hf
    · rw [trX_callI] at h
      obtain ⟨⟨as, st1⟩, h1, h⟩ := ok_bind h
      simp only [hg x t s r rfl, Bool.false_eq_true, if_false] at h
      split at h
      · cases h
      · obtain ⟨e1, h2, h⟩ := ok_bind h
        cases h
        have h3 : trX T D ρn (.ident x ⟨t, some (s :: r)⟩) st = .ok (e1, st) := by rw [trX, h2]; rfl
        rw [cap_invoke (callee_notRef hA hg hc H.b H.k.left h3)]
        exact .callFn rfl (.argsCons (ih1 _ _ _ _ _ _ H.left h3) (ih2 _ _ _ _ _ _ (H.x hA h3) h1)) f1 f2 f3 f4
    · rw [trX_callF hf] at h
      obtain ⟨⟨e1, st1⟩, h1, h⟩ := ok_bind h
      obtain ⟨⟨as, st2⟩, h2, h⟩ := ok_bind h
      simp only at h
      split at h
      · cases h
      · cases h
        rw [cap_invoke (callee_notRef hA hg hc H.b H.k.left h1)]
        exact .callFn rfl (.argsCons (ih1 _ _ _ _ _ _ H.left h1) (ih2 _ _ _ _ _ _ (H.x hA h1) h2)) f1 f2 f3 f4
  | @valFn p vs S v S' pc fc fid q g hp hs _ hq hqs hpe _ ih1 ih2 =>
    intro hl
    obtain ⟨-, st, fd, st', hN, h4, h5⟩ := M.fns _ _ _ hq
    obtain ⟨e1, e2⟩ := trFn_name h4 hqs
    subst hpe
    rw [← M.base, ← e1]
    rw [← M.base, ← e1] at ih1
    exact dyn_sim M hp hs ih1 hl .fn h5 e2 (ih2 _ _ _ hN h4)
  | @valLit p vs S v S' pc fc e k hp hs _ hlit hc hpe _ ih1 ih2 =>
    intro hl
    obtain ⟨fd, f1, f2, f3, f4⟩ := (ih2 k hlit).1 hc rfl
    subst hpe
    rw [← M.base, M.anonFn, ← f2]
    rw [← M.base, M.anonFn, ← f2] at ih1
    exact dyn_sim M hp hs ih1 hl .fn f1 f3 f4
  | @valCl p vs S v S' pc fc e k a hp hs _ hlit hc hh1 hh2 _ ih1 ih2 =>
    intro hl
    obtain ⟨fd, f1, f2, f3, f4⟩ := (ih2 k hlit).2 hc a rfl
    rw [← M.base, M.clFn, ← f2] at hh1
    exact dyn_sim M hp hs ih1 hl (.closure hh1 hh2) f1 f3 f4
  | @arr γ S es a p f v S1 w S2 hp hs _ _ ih1 ih2 =>
    intro K ρn ρ st e' st' H h
    simp only [litsX] at H
    simp only [trX] at h
    obtain ⟨⟨es', st1⟩, h1, h⟩ := ok_bind h
    simp only at h
    split at h
    · cases h
    · cases h
      obtain ⟨-, st2, fd, st3, hN, h4, h5⟩ := M.fns _ _ _ hp
      obtain ⟨e1, e2⟩ := trFn_name h4 hs
      simp only [capX, trArr]
      rw [capX_elems]
      refine .arrLit (ih2 _ _ _ _ _ _ _ _ S H h1 (.callFn rfl (.argsCons .int .argsNil) h5 (e1.trans (M.arr _ _ hp)) e2 ?_))
      rw [trL_length h1]
      exact ih1 _ _ _ hN h4
  | fillNil =>
    intro K ρn ρ st es' st' t y S0 H h hy
    simp only [trL] at h
    cases h
    exact hy
  | @fillCons γ S v i e es w S1 p f v' S2 u S3 _ hp hs _ _ ih1 ih2 ih3 =>
    intro K ρn ρ st es' st' t y S0 H h hy
    simp only [litsL] at H
    simp only [trL] at h
    obtain ⟨⟨e1, st1⟩, h1, h⟩ := ok_bind h
    obtain ⟨⟨e2, st2⟩, h2, h⟩ := ok_bind h
    cases h
    obtain ⟨-, st3, fd, st4, hN, h4, h5⟩ := M.fns _ _ _ hp
    obtain ⟨n1, n2⟩ := trFn_name h4 hs
    simp only [capL, trElems]
    exact ih3 _ _ _ _ _ _ _ _ _ (H.x hA h1) h2 (.callFn rfl (.argsCons hy (.argsCons .int (.argsCons (ih1 _ _ _ _ _ _ H.left h1) .argsNil))) h5
      (n1.trans (M.set _ _ hp)) n2 (ih2 _ _ _ hN h4))
  | dot hl hd hf hx _ hv ih =>
    intro K ρn ρ st e' st' H h
    simp only [litsX] at H
    simp only [trX, hl] at h
    obtain ⟨⟨e1, st1⟩, h1, h⟩ := ok_bind h
    simp only at h
    split at h
    · rename_i t y b u h2 h3 h4
      cases h2; cases h3
      rw [fieldOff_struct hd hf hx] at h
      cases h
      exact .dot (ih _ _ _ _ _ _ H h1) hv
    · cases h
  | length hl _ hv ih =>
    intro K ρn ρ st e' st' H h
    simp only [litsX] at H
    simp only [trX] at h
    obtain ⟨⟨e1, st1⟩, h1, h⟩ := ok_bind h
    simp only at h
    split at h
    · rename_i t y b u h2 h3 h4
      cases h3
      rw [fieldOff_length (by
        rcases hl with ⟨t', hl⟩ | hl
        · rw [hl] at h2; cases h2; exact .inl ⟨_, rfl⟩
        · rw [hl] at h2; cases h2; exact .inr rfl)] at h
      cases h
      exact .dot (ih _ _ _ _ _ _ H h1) (by simpa using hv)
    · cases h
  | index _ _ hl h0 hn hv ih1 ih2 =>
    intro K ρn ρ st e' st' H h
    simp only [litsX] at H
    simp only [trX] at h
    obtain ⟨⟨e1, st1⟩, h1, h⟩ := ok_bind h
    obtain ⟨⟨e2, st2⟩, h2, h⟩ := ok_bind h
    simp only at h
    split at h
    · cases h
    · cases h
      exact .index (ih1 _ _ _ _ _ _ H.left h1) (ih2 _ _ _ _ _ _ (H.x hA h1) h2) hl h0 hn hv
  | argsNil =>
    intro K ρn ρ st e' st' H h
    simp only [trL] at h
    cases h
    exact .argsNil
  | argsCons _ _ ih1 ih2 =>
    intro K ρn ρ st e' st' H h
    simp only [litsL] at H
    simp only [trL] at h
    obtain ⟨⟨e1, st1⟩, h1, h⟩ := ok_bind h
    obtain ⟨⟨e2, st2⟩, h2, h⟩ := ok_bind h
    cases h
    exact .argsCons (ih1 _ _ _ _ _ _ H.left h1) (ih2 _ _ _ _ _ _ (H.x hA h1) h2)
  | locVar hg hl =>
    intro K ρn ρ st e' st' H h
    rw [trX] at h
    obtain ⟨e1, h1, h⟩ := ok_bind h
    cases h
    simp only [trIdent] at h1
    split at h1
    · rename_i ht hs
      cases hs
      rw [hg] at h1
      simp only [Bool.false_eq_true, if_false] at h1
      split at h1
      · cases h1
      · split at h1
        · rename_i n hn
          cases h1
          obtain ⟨n', e1, ⟨e2, e3⟩ | ⟨-, e3, -⟩⟩ := H.m.lookup hl
          · rw [hn] at e1
            cases e1
            rw [capX, if_neg e2]
            exact ⟨n, _, hn, hl, .locVar⟩
          · cases e3
        · cases h1
    · cases h1
  | locRef hg hl =>
    intro K ρn ρ st e' st' H h
    rw [trX] at h
    obtain ⟨e1, h1, h⟩ := ok_bind h
    cases h
    simp only [trIdent] at h1
    split at h1
    · rename_i ht hs
      cases hs
      rw [hg] at h1
      simp only [Bool.false_eq_true, if_false] at h1
      split at h1
      · cases h1
      · split at h1
        · rename_i n hn
          cases h1
          obtain ⟨n', e1, ⟨-, e3⟩ | ⟨e2, e3, e4⟩⟩ := H.m.lookup hl
          · cases e3
          · rw [hn] at e1
            cases e1
            cases e3
            rw [capX, if_pos e2]
            exact .locDot (.var e4)
        · cases h1
    · cases h1
  | locDot hl hd hf hx _ ih =>
    intro K ρn ρ st e' st' H h
    simp only [litsX] at H
    simp only [trX, hl] at h
    obtain ⟨⟨e1, st1⟩, h1, h⟩ := ok_bind h
    simp only at h
    split at h
    · rename_i t y b u h2 h3 h4
      cases h2; cases h3
      rw [fieldOff_struct hd hf hx] at h
      cases h
      exact .locDot (ih _ _ _ _ _ _ H h1)
    · cases h
  | locIndex _ _ hl h0 hn ih1 ih2 =>
    intro K ρn ρ st e' st' H h
    simp only [litsX] at H
    simp only [trX] at h
    obtain ⟨⟨e1, st1⟩, h1, h⟩ := ok_bind h
    obtain ⟨⟨e2, st2⟩, h2, h⟩ := ok_bind h
    simp only at h
    split at h
    · cases h
    · cases h
      exact .locIndex (ih1 _ _ _ _ _ _ H.left h1) (ih2 _ _ _ _ _ _ (H.x hA h1) h2) hl h0 hn
  | expr _ ih =>
    intro K ρn ρ st s' ρn' st' H h F
    simp only [litsS] at H
    simp only [trS] at h
    obtain ⟨⟨e1, st1⟩, h1, h⟩ := ok_bind h
    cases h
    exact ⟨ρ, .expr (ih _ _ _ _ _ _ H h1), H.m⟩
  | ret0 =>
    intro K ρn ρ st s' ρn' st' H h F
    simp only [trS] at h
    cases h
    exact ⟨ρ, .retN, H.m⟩
  | ret _ ih =>
    intro K ρn ρ st s' ρn' st' H h F
    simp only [litsS] at H
    simp only [trS] at h
    obtain ⟨⟨e1, st1⟩, h1, h⟩ := ok_bind h
    cases h
    exact ⟨ρ, .retE (ih _ _ _ _ _ _ H h1), H.m⟩
  | @das γ S x b r v S1 _ ih =>
    intro K ρn ρ st s' ρn' st' H h F
    simp only [litsS] at H
    obtain ⟨t | t, sym⟩ := b
    · simp only [trS] at h
      obtain ⟨⟨e1, st1⟩, h1, h⟩ := ok_bind h
      cases h
    simp only [trS] at h
    obtain ⟨⟨e1, st1⟩, h1, h⟩ := ok_bind h
    cases h
    have n1 := (trX_vars _ _ _ _ _ _ _ h1).1
    simp only [capS, capX]
    rw [if_neg (F.out n1)]
    exact ⟨_, .asgVar (ih _ _ _ _ _ _ H h1) .locVar, H.m.push (H.b.le n1) (F.out n1) (F.ne (Nat.lt_succ_self _))⟩
  | asgVar _ _ ih1 ih2 =>
    intro K ρn ρ st s' ρn' st' H h F
    simp only [litsS] at H
    simp only [trS] at h
    obtain ⟨⟨e1, st1⟩, h1, h⟩ := ok_bind h
    obtain ⟨⟨e2, st2⟩, h2, h⟩ := ok_bind h
    cases h
    have n1 := (trX_vars _ _ _ _ _ _ _ h1).1
    have n2 := (trX_vars _ _ _ _ _ _ _ h2).1
    obtain ⟨n, w, hn, hw, hl⟩ := ih2 _ _ _ _ _ _ H.left h1
    exact ⟨_, .asgVar (ih1 _ _ _ _ _ _ (H.x hA h1) h2) hl, H.m.set H.b.1 hn hw (F.ne (by have := H.b.lt hn; simp only at *; omega))⟩
  | asgMem _ _ hw ih1 ih2 =>
    intro K ρn ρ st s' ρn' st' H h F
    simp only [litsS] at H
    simp only [trS] at h
    obtain ⟨⟨e1, st1⟩, h1, h⟩ := ok_bind h
    obtain ⟨⟨e2, st2⟩, h2, h⟩ := ok_bind h
    cases h
    exact ⟨ρ, .asgMem (ih1 _ _ _ _ _ _ (H.x hA h1) h2) (ih2 _ _ _ _ _ _ H.left h1) hw, H.m⟩
  | ifs _ ih =>
    intro K ρn ρ st s' ρn' st' H h F
    simp only [litsS] at H
    simp only [trS] at h
    obtain ⟨⟨e1, st1⟩, h1, h⟩ := ok_bind h
    cases h
    obtain ⟨ρ', r, m'⟩ := ih _ _ _ _ _ _ H h1 F
    exact ⟨ρ', .ifs r, m'⟩
  | loopF _ ih =>
    intro K ρn ρ st s' ρn' st' H h F
    simp only [litsS] at H
    simp only [trS] at h
    obtain ⟨⟨e1, st1⟩, h1, h⟩ := ok_bind h
    obtain ⟨⟨b, st2⟩, h2, h⟩ := ok_bind h
    cases h
    exact ⟨ρ, .loopF (ih _ _ _ _ _ _ H.left h1), H.m⟩
  | loopT _ _ _ ih1 ih2 ih3 =>
    intro K ρn ρ st s' ρn' st' H h F
    have h0 := h
    have H0 := H
    simp only [litsS] at H
    simp only [trS] at h
    obtain ⟨⟨e1, st1⟩, h1, h⟩ := ok_bind h
    obtain ⟨⟨b, st2⟩, h2, h⟩ := ok_bind h
    cases h
    have n1 := (trX_vars _ _ _ _ _ _ _ h1).1
    obtain ⟨ρ1, pre, r2, m2⟩ := ih2 _ _ _ _ _ _ (H.x hA h1) h2 (F.sub n1 (Nat.le_refl _))
    obtain ⟨ρ2, r3, m3⟩ := ih3 _ _ _ _ _ _ _ (H0.with (m2.leave H.m)) h0 F
    exact ⟨ρ2, .loopT (ih1 _ _ _ _ _ _ H.left h1) r2 r3, m3⟩
  | loopR _ _ ih1 ih2 =>
    intro K ρn ρ st s' ρn' st' H h F
    simp only [litsS] at H
    simp only [trS] at h
    obtain ⟨⟨e1, st1⟩, h1, h⟩ := ok_bind h
    obtain ⟨⟨b, st2⟩, h2, h⟩ := ok_bind h
    cases h
    have n1 := (trX_vars _ _ _ _ _ _ _ h1).1
    obtain ⟨ρ1, pre, r2, m2⟩ := ih2 _ _ _ _ _ _ (H.x hA h1) h2 (F.sub n1 (Nat.le_refl _))
    exact ⟨ρ1, .loopR (ih1 _ _ _ _ _ _ H.left h1) r2, m2.leave H.m⟩
  | forR _ _ hc hr _ ih1 ih2 ih3 =>
    intro K ρn ρ st s' ρn' st' H h F
    simp only [litsS, litsX, List.append_assoc] at H
    simp only [trS] at h
    obtain ⟨⟨e1, st1⟩, h1, h⟩ := ok_bind h
    obtain ⟨⟨e2, st2⟩, h2, h⟩ := ok_bind h
    obtain ⟨⟨b, st3⟩, h3, h⟩ := ok_bind h
    cases h
    have n1 := (trX_vars _ _ _ _ _ _ _ h1).1
    have n2 := (trX_vars _ _ _ _ _ _ _ h2).1
    have H2 := (H.x hA h1).x hA h2
    obtain ⟨ρ1, r3, m3⟩ := ih3 _ _ _ _ _ _ _ { st2 with n := st2.n + 1 } _ _ H.m H2.b H2.k (Nat.lt_succ_self _) (H.x hA h1).left h2 h3 (F.sub (Nat.le_trans n1 n2) (Nat.le_refl _))
    exact ⟨ρ1, .forR (ih1 _ _ _ _ _ _ H.left h1) (ih2 _ _ _ _ _ _ (H.x hA h1).left h2) (fun _ => hc hG) (hR _ _ _ _ hr) r3, m3⟩
  | rangeNil _ ih0 =>
    intro K ρn ρ n st0 e st1 st b st' m hb hN hn H h0 h F
    exact ⟨ρ, .rangeNil (fun _ => ih0 hG _ _ _ _ _ _ H h0), m⟩
  | @rangeCons γ S x hi k v vs ss γ1 S1 o γ2 S2 _ _ hc _ ih0 ih1 ih2 =>
    intro K ρn ρ n st0 e st1 st b st' m hb hN hn H h0 h F
    have n1 := (trB_vars _ _ _ _ _ _ _ h).1
    have mp := m.push (x := x) (v := .int v) hb (F.out (Nat.le_refl _)) (F.ne (by omega))
    obtain ⟨ρ1, pre, r1, m1⟩ := ih1 _ _ _ _ _ _ ⟨mp, hb.push hn, hN⟩ h (F.sub (Nat.le_of_lt hn) (Nat.le_refl _))
    have hx := m1.leave mp
    rw [hc hG] at hx
    rw [List.append_cons] at m1
    obtain ⟨ρ2, r2, m2⟩ := ih2 _ _ _ _ _ _ _ _ _ _ (m1.leave m) hb hN hn (H.with (m1.leave m)) h0 h F
    exact ⟨ρ2, .rangeCons (fun _ => ih0 hG _ _ _ _ _ _ H h0) r1 (fun _ => hx.top (F.out (Nat.le_refl _))) r2, m2⟩
  | rangeRet _ _ ih0 ih1 =>
    intro K ρn ρ n st0 e st1 st b st' m hb hN hn H h0 h F
    have n1 := (trB_vars _ _ _ _ _ _ _ h).1
    obtain ⟨ρ1, pre, r1, m1⟩ := ih1 _ _ _ _ _ _ ⟨m.push hb (F.out (Nat.le_refl _)) (F.ne (by omega)), hb.push hn, hN⟩ h (F.sub (Nat.le_of_lt hn) (Nat.le_refl _))
    rw [List.append_cons] at m1
    exact ⟨ρ1, .rangeRet (fun _ => ih0 hG _ _ _ _ _ _ H h0) r1, m1.leave m⟩
  | forA ht he hc _ ih1 ih2 =>
    intro K ρn ρ st s' ρn' st' H h F
    rw [trS_for (by
      rintro lo hi c rfl
      cases he with
      | bin _ _ hv => rename_i v _ w; cases v <;> cases w <;> cases hv
      | anon hl _ => exact (hA _ (List.fst_mem_of_mem_zipIdx (M.lits _ _ hl).1)).elim
      | closure hl _ _ _ _ _ _ => exact (hA _ (List.fst_mem_of_mem_zipIdx (M.lits _ _ hl).1)).elim)] at h
    simp only [litsS] at H
    obtain ⟨⟨e1, st1⟩, h1, h⟩ := ok_bind h
    simp only [ht] at h
    obtain ⟨⟨b, st2⟩, h2, h⟩ := ok_bind h
    cases h
    have n1 := (trX_vars _ _ _ _ _ _ _ h1).1
    have H2 := H.x hA h1
    obtain ⟨ρ1, r2, m2⟩ := ih2 _ _ _ _ _ _ _ { st1 with n := st1.n + 1 } _ _ H.m H2.b H2.k (Nat.lt_succ_self _) H.left h1 h2 (F.sub n1 (Nat.le_refl _))
    exact ⟨ρ1, .forA (ih1 _ _ _ _ _ _ H.left h1) (fun _ hl => hc hG (notArr h1 hl)) r2, m2⟩
  | elemsEnd _ h1 h2 ih0 =>
    intro K ρn ρ n st0 e st1 st b st' m hb hN hn H h0 h F
    exact ⟨ρ, .elemsEnd (fun _ hl => ih0 hG (notArr h0 hl) _ _ _ _ _ _ H h0) h1 h2, m⟩
  | elemsCons _ hl hi hv _ _ ih0 ih1 ih2 =>
    intro K ρn ρ n st0 e st1 st b st' m hb hN hn H h0 h F
    have n1 := (trB_vars _ _ _ _ _ _ _ h).1
    obtain ⟨ρ1, pre, r1, m1⟩ := ih1 _ _ _ _ _ _ ⟨m.push hb (F.out (Nat.le_refl _)) (F.ne (by omega)), hb.push hn, hN⟩ h (F.sub (Nat.le_of_lt hn) (Nat.le_refl _))
    rw [List.append_cons] at m1
    obtain ⟨ρ2, r2, m2⟩ := ih2 _ _ _ _ _ _ _ _ _ _ (m1.leave m) hb hN hn (H.with (m1.leave m)) h0 h F
    exact ⟨ρ2, .elemsCons (fun _ hl => ih0 hG (notArr h0 hl) _ _ _ _ _ _ H h0) hl hi hv r1 r2, m2⟩
  | elemsRet _ hl hi hv _ ih0 ih1 =>
    intro K ρn ρ n st0 e st1 st b st' m hb hN hn H h0 h F
    have n1 := (trB_vars _ _ _ _ _ _ _ h).1
    obtain ⟨ρ1, pre, r1, m1⟩ := ih1 _ _ _ _ _ _ ⟨m.push hb (F.out (Nat.le_refl _)) (F.ne (by omega)), hb.push hn, hN⟩ h (F.sub (Nat.le_of_lt hn) (Nat.le_refl _))
    rw [List.append_cons] at m1
    exact ⟨ρ1, .elemsRet (fun _ hl => ih0 hG (notArr h0 hl) _ _ _ _ _ _ H h0) hl hi hv r1, m1.leave m⟩
  | @match_ γ S e cs n us p S1 pre fid post xs ss vals o γ1 S' ht _ hm hf hh hc hl hv _ ih1 ih2 =>
    intro K ρn ρ st s' ρn' st' H h F
    simp only [litsS] at H
    simp only [trS, ht] at h
    obtain ⟨⟨e1, st1⟩, h1, h⟩ := ok_bind h
    simp only at h
    obtain ⟨⟨cs', st2⟩, h2, h⟩ := ok_bind h
    cases h
    have hlen := M.members
    have H2 := H.x hA h1
    rw [hm] at h2
    obtain ⟨ts, st3, b, st4, f1, f2, f3, f4, f5, f6⟩ := find_case hA hf (by rw [← hm]; exact hlen _) _ _ _ _ _ _ H2.b H2.k h2 hc
    have n1 := (trX_vars _ _ _ _ _ _ _ h1).1
    have n4 := (trB_vars _ _ _ _ _ _ _ f6).1
    simp only at n4
    have hb3 := H2.b.le f2
    have mb := Match.bind (names := xs) (n := st3.n) (vs := vals.map some) (H.m.other (ρ' := bindVars (typedParams T ts st3.n) vals ρ) (fun q hq => bindVars_old T ts st3.n _ ρ _ (hb3.2 q hq))
        (bindVars_out T ts st3.n _ ρ _ (by have := F.2; simp only at this; omega))) (by simpa using hl) (fun i hi => F.out (by omega)) (fun i v hi => by
        rw [List.getElem?_map] at hi
        obtain ⟨w, hw, rfl⟩ := Option.map_eq_some_iff.mp hi
        exact bindVars_new T ts st3.n _ ρ (by rw [hl, f3]) i w hw)
    obtain ⟨ρ1, pre, r2, m2⟩ := ih2 _ _ _ { st3 with n := st3.n + ts.length } _ _ ⟨mb, hb3.bind (by simp [f3]), f4⟩ f6 (F.sub (by simp only; omega) f5)
    refine ⟨ρ1, .match_ (ih1 _ _ _ _ _ _ H.left h1) hh (by rw [find_cap, f1]; rfl) (by rw [typedParams_length, hl, f3]) (fields_of _ _ hv) r2, ?_⟩
    rw [← List.append_assoc] at m2
    exact m2.leave H.m
  | chDone =>
    intro K ρn ρ st b st' H h F
    simp only [trCh] at h
    cases h
    exact ⟨ρ, .chDone, H.m⟩
  | chElse _ ih =>
    intro K ρn ρ st b st' H h F
    simp only [litsCh] at H
    simp only [trCh] at h
    obtain ⟨⟨b1, st1⟩, h1, h⟩ := ok_bind h
    cases h
    obtain ⟨ρ1, pre, r, m1⟩ := ih _ _ _ _ _ _ H h1 F
    exact ⟨ρ1, .chElse r, m1.leave H.m⟩
  | chT _ _ ih1 ih2 =>
    intro K ρn ρ st b st' H h F
    simp only [litsCh] at H
    simp only [trCh] at h
    obtain ⟨⟨e1, st1⟩, h1, h⟩ := ok_bind h
    obtain ⟨⟨b1, st2⟩, h2, h⟩ := ok_bind h
    obtain ⟨⟨b2, st3⟩, h3, h⟩ := ok_bind h
    cases h
    have n1 := (trX_vars _ _ _ _ _ _ _ h1).1
    have n3 := (trCh_vars _ _ _ _ _ _ _ h3).1
    obtain ⟨ρ1, pre, r, m1⟩ := ih2 _ _ _ _ _ _ (H.x hA h1).left h2 (F.sub n1 n3)
    exact ⟨ρ1, .chT (ih1 _ _ _ _ _ _ H.left h1) r, m1.leave H.m⟩
  | chF _ _ ih1 ih2 =>
    intro K ρn ρ st b st' H h F
    simp only [litsCh] at H
    simp only [trCh] at h
    obtain ⟨⟨e1, st1⟩, h1, h⟩ := ok_bind h
    obtain ⟨⟨b1, st2⟩, h2, h⟩ := ok_bind h
    obtain ⟨⟨b2, st3⟩, h3, h⟩ := ok_bind h
    cases h
    have n1 := (trX_vars _ _ _ _ _ _ _ h1).1
    have n2 := (trB_vars _ _ _ _ _ _ _ h2).1
    obtain ⟨ρ1, r, m1⟩ := ih2 _ _ _ _ _ _ ((H.x hA h1).ss hA h2) h3 (F.sub (Nat.le_trans n1 n2) (Nat.le_refl _))
    exact ⟨ρ1, .chF (ih1 _ _ _ _ _ _ H.left h1) r, m1⟩
  | nil =>
    intro K ρn ρ st b st' H h F
    simp only [trB] at h
    cases h
    exact ⟨ρ, [], .nil, H.m⟩
  | cons _ _ ih1 ih2 =>
    intro K ρn ρ st b st' H h F
    simp only [litsB] at H
    simp only [trB] at h
    obtain ⟨⟨s1, ρn1, st1⟩, h1, h⟩ := ok_bind h
    obtain ⟨⟨b2, st2⟩, h2, h⟩ := ok_bind h
    cases h
    obtain ⟨n1, more, -⟩ := trS_vars _ _ _ _ _ _ _ _ h1
    have n2 := (trB_vars _ _ _ _ _ _ _ h2).1
    have k1 := (trS_tx hA T D _ _ _ _ _ _ H.b H.k.left h1).k
    obtain ⟨ρ1, r1, m1⟩ := ih1 _ _ _ _ _ _ _ H.left h1 (F.sub (Nat.le_refl _) n2)
    obtain ⟨ρ2, pre, r2, m2⟩ := ih2 _ _ _ _ _ _ ⟨m1, H.b.more more n1, by rw [k1]; exact H.k.right⟩ h2 (F.sub n1 (Nat.le_refl _))
    rcases more with rfl | ⟨x, hx, rfl⟩
    · exact ⟨ρ2, pre, .cons r1 r2, m2⟩
    · exact ⟨ρ2, pre ++ [(x, st1.n - 1)], .cons r1 r2, by rw [← List.append_cons]; exact m2⟩
  | consR _ ih1 =>
    intro K ρn ρ st b st' H h F
    simp only [litsB] at H
    simp only [trB] at h
    obtain ⟨⟨s1, ρn1, st1⟩, h1, h⟩ := ok_bind h
    obtain ⟨⟨b2, st2⟩, h2, h⟩ := ok_bind h
    cases h
    obtain ⟨n1, more, -⟩ := trS_vars _ _ _ _ _ _ _ _ h1
    have n2 := (trB_vars _ _ _ _ _ _ _ h2).1
    obtain ⟨ρ1, r1, m1⟩ := ih1 _ _ _ _ _ _ _ H.left h1 (F.sub (Nat.le_refl _) n2)
    rcases more with rfl | ⟨x, hx, rfl⟩
    · exact ⟨ρ1, [], .consR r1, m1⟩
    · exact ⟨ρ1, [(x, st1.n - 1)], .consR r1, m1⟩
  | @litRet hd i ss d ts r y γ vs S v γ' S' hts hl _ ih =>
    exact lit_simB M (.inl rfl) hts hl (fun K ρn ρ st b st' H h F => by
      obtain ⟨ρ1, pre, r, m1⟩ := ih K ρn ρ st b st' H h F
      exact ⟨ρ1, r⟩)
  | @litEnd hd i ss d ts y γ vs S γ' S' hts hl _ ih =>
    exact lit_simB M (.inr ⟨rfl, rfl, rfl⟩) hts hl (fun K ρn ρ st b st' H h F => by
      obtain ⟨ρ1, pre, r, m1⟩ := ih K ρn ρ st b st' H h F
      exact ⟨ρ1, r⟩)
  | @litExpr hd i e d ts r y γ vs S v S' hts hl _ ih => exact lit_simE M hts hl ih
  | @fnRet p f vs S ss v γ' S' hk hbd hl _ ih =>
    intro st fd st' hN h
    simp only [litsFn, hk, hbd] at hN
    simp only [trFn, hk, hbd] at h
    obtain ⟨⟨b, st1⟩, h1, h⟩ := ok_bind h
    cases h
    have m0 := match_params (T := T) (m := st1.n) (t := ⟨.nothing, 0⟩) (ρ0 := []) (xs := p.params.map (·.1)) (ts := p.params.map (·.2)) (n := st.n) (vs := vs) (by simpa using hl) (by simp)
    rw [List.append_nil] at m0
    obtain ⟨ρ1, pre, r, m1⟩ := ih _ _ _ { st with n := st.n + p.params.length } _ _ ⟨m0, by simpa using Below.nil.bind (names := p.params.map (·.1)) (m := st.n + p.params.length) (by simp), hN⟩ h1
      ⟨by simp, Nat.le_refl _⟩
    rw [capB_nil] at r
    exact .fnRet rfl (by simp [typedParams_length, hl]) r
  | @fnEnd p f vs S ss γ' S' hk hbd hl hn _ ih =>
    intro st fd st' hN h
    simp only [litsFn, hk, hbd] at hN
    simp only [trFn, hk, hbd] at h
    obtain ⟨⟨b, st1⟩, h1, h⟩ := ok_bind h
    cases h
    have m0 := match_params (T := T) (m := st1.n) (t := ⟨.nothing, 0⟩) (ρ0 := []) (xs := p.params.map (·.1)) (ts := p.params.map (·.2)) (n := st.n) (vs := vs) (by simpa using hl) (by simp)
    rw [List.append_nil] at m0
    obtain ⟨ρ1, pre, r, m1⟩ := ih _ _ _ { st with n := st.n + p.params.length } _ _ ⟨m0, by simpa using Below.nil.bind (names := p.params.map (·.1)) (m := st.n + p.params.length) (by simp), hN⟩ h1
      ⟨by simp, Nat.le_refl _⟩
    rw [capB_nil] at r
    exact .fnEnd rfl (by simp [typedParams_length, hl]) (by simp [hn, kindOf]) r
  | @fnExpr p f vs S e v S' hk hbd hl _ ih =>
    intro st fd st' hN h
    simp only [litsFn, hk, hbd] at hN
    simp only [trFn, hk, hbd] at h
    obtain ⟨⟨b, st1⟩, h1, h⟩ := ok_bind h
    cases h
    have m0 := match_params (T := T) (m := st1.n) (t := ⟨.nothing, 0⟩) (ρ0 := []) (xs := p.params.map (·.1)) (ts := p.params.map (·.2)) (n := st.n) (vs := vs) (by simpa using hl) (by simp)
    rw [List.append_nil] at m0
    have r := ih _ _ _ { st with n := st.n + p.params.length } _ _ ⟨m0, by simpa using Below.nil.bind (names := p.params.map (·.1)) (m := st.n + p.params.length) (by simp), hN⟩ h1
    rw [capX_nil] at r
    exact .fnExpr rfl (by simp [typedParams_length, hl]) r
  | fnCons hk hl ha hw =>
    intro st fd st' hN h
    simp only [trFn, hk] at h
    cases h
    refine .fnCons rfl (by simp [typedParams_length, hl]) ?_ hw
    rw [M.base]
    exact ha

end Clara.Sema.Chk
