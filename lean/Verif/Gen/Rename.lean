import Verif.Gen.Spec
/-
The meaning of a program does not depend on the addresses at which its functions are placed, function values included.
-/
namespace Clara.Gen
variable {σ : Type}

/-! ### Values that differ in the addresses of functions only -/

/-- The words are the addresses of the same function, or the same word that is no address of a function. -/
def WordR (P P' : Prog σ) (w w' : Word) : Prop :=
  (∃ fd ∈ P.fns, w = P.fnAddr fd.name ∧ w' = P'.fnAddr fd.name) ∨ (w = w' ∧ ∀ fd ∈ P.fns, P.fnAddr fd.name ≠ w)

def ValR (P P' : Prog σ) : Val → Val → Prop
  | .ptr w, .ptr w' => WordR P P' w w'
  | v, v' => v = v'

def OptR (P P' : Prog σ) : Option Val → Option Val → Prop
  | some v, some v' => ValR P P' v v'
  | none, none => True
  | _, _ => False

def ValsR (P P' : Prog σ) : List (Option Val) → List (Option Val) → Prop
  | v :: vs, v' :: vs' => OptR P P' v v' ∧ ValsR P P' vs vs'
  | [], [] => True
  | _, _ => False

/-- Corresponding lists of values. -/
inductive AllR (P P' : Prog σ) : List Val → List Val → Prop
  | nil : AllR P P' [] []
  | cons {v v' vs vs'} : ValR P P' v v' → AllR P P' vs vs' → AllR P P' (v :: vs) (v' :: vs')

def EnvR (P P' : Prog σ) (ρ ρ' : Env) : Prop := ∀ x, OptR P P' (ρ x) (ρ' x)

/-- The cells are the same, with corresponding values; the code and the `K` bytes behind the beginning of a function are no cells. -/
structure StoreR (K : Nat) (P P' : Prog σ) (S S' : Store σ) : Prop where
  heap : ∀ a, OptR P P' (S.heap a) (S'.heap a)
  ext : S'.ext = S.ext
  apart : ∀ fd ∈ P.fns, ∀ o ≤ K, S.heap (P.fnAddr fd.name + BitVec.ofNat 64 o) = none

def OutR (P P' : Prog σ) : Out → Out → Prop
  | .norm, .norm => True
  | .ret v, .ret v' => OptR P P' v v'
  | _, _ => False

/-- The same program with its functions at other addresses. -/
structure Renamed (K : Nat) (P P' : Prog σ) : Prop where
  fns : P'.fns = P.fns
  alloc : P'.alloc = P.alloc
  str : ∀ s, P'.str s = P.str s
  need : ∀ f, P'.extNeed f = P.extNeed f
  /-- literals are no functions -/
  lits : ∀ s, ∀ fd ∈ P.fns, P.fnAddr fd.name ≠ P.str s
  /-- different functions have different addresses -/
  inj : ∀ fd ∈ P.fns, ∀ fd' ∈ P.fns, P.fnAddr fd.name = P.fnAddr fd'.name → fd.name = fd'.name
  /-- other names have the same address -/
  other : ∀ f, (∀ fd ∈ P.fns, fd.name ≠ f) → P'.fnAddr f = P.fnAddr f ∧ ∀ fd ∈ P.fns, P.fnAddr fd.name ≠ P.fnAddr f
  /-- the runtime and external functions do the same with corresponding values -/
  rt : ∀ f vs S v S1, P.rt f vs S v S1 → ∀ vs' S', ValsR P P' vs vs' → StoreR K P P' S S' →
    ∃ v' S1', P'.rt f vs' S' v' S1' ∧ OptR P P' v v' ∧ StoreR K P P' S1 S1'
  extern : ∀ f fi args vs S w v S1, P.ext f (extArgs fi args vs) S w S1 → extRes fi w v → ∀ vs' S', ValsR P P' vs vs' →
    StoreR K P P' S S' → ∃ w' v' S1', P'.ext f (extArgs fi args vs') S' w' S1' ∧ extRes fi w' v' ∧ OptR P P' v v' ∧ StoreR K P P' S1 S1'

mutual
/-- Fields are at most `K` bytes into their object. -/
def Expr.near (K : Nat) : Expr → Bool
  | .int _ | .bool _ | .str _ | .typ _ | .fnRef _ _ _ | .var _ _ => true
  | .bin _ _ l r => l.near K && r.near K
  | .un _ _ e => e.near K
  | .tern _ c x y => c.near K && (x.near K && y.near K)
  | .arrLit _ e => e.near K
  | .callFn _ _ args => nearL K args
  | .callVar _ _ args => nearL K args
  | .callExpr e _ args => e.near K && nearL K args
  | .dot _ e off => decide (off ≤ K) && e.near K
  | .index _ a i => a.near K && i.near K
def nearL (K : Nat) : List Expr → Bool
  | [] => true
  | e :: es => e.near K && nearL K es
end

mutual
def Stmt.near (K : Nat) : Stmt → Bool
  | .ret (some e) => e.near K
  | .ret none => true
  | .ifs c => c.near K
  | .asg _ l r => l.near K && r.near K
  | .loop c b => c.near K && b.near K
  | .block b => b.near K
  | .expr e => e.near K
def Chain.near (K : Nat) : Chain → Bool
  | .done => true
  | .els b => b.near K
  | .cond c b n => c.near K && (b.near K && n.near K)
def Stmts.near (K : Nat) : Stmts → Bool
  | .nil => true
  | .cons s ss => s.near K && ss.near K
end

def Body.near (K : Nat) : Body → Bool
  | .block ss => ss.near K
  | .expr e => e.near K
  | .cons _ _ _ => true

/-! ### The relations -/

section
variable {K : Nat} {P P' : Prog σ}

theorem WordR.fun {w a b : Word} (R : Renamed K P P') (h : WordR P P' w a) (h' : WordR P P' w b) : a = b := by
  rcases h with ⟨fd, h1, h2, h3⟩ | ⟨h1, h2⟩
  · rcases h' with ⟨fd', h1', h2', h3'⟩ | ⟨h1', h2'⟩
    · rw [h3, h3', R.inj fd h1 fd' h1' (h2 ▸ h2')]
    · exact absurd h2.symm (h2' fd h1)
  · rcases h' with ⟨fd', h1', h2', h3'⟩ | ⟨h1', h2'⟩
    · exact absurd h2'.symm (h2 fd' h1')
    · rw [← h1, ← h1']

theorem ValR.fun {v a b : Val} (R : Renamed K P P') (h : ValR P P' v a) (h' : ValR P P' v b) : a = b := by
  cases v <;> cases a <;> cases b <;> simp only [ValR, reduceCtorEq] at h h' <;> try (rw [← h, ← h'])
  rw [WordR.fun R h h']

theorem OptR.fun {v a b : Option Val} (R : Renamed K P P') (h : OptR P P' v a) (h' : OptR P P' v b) : a = b := by
  cases v <;> cases a <;> cases b <;> simp only [OptR] at h h' <;> try rfl
  rw [ValR.fun R h h']

theorem StoreR.fun {S A B : Store σ} (R : Renamed K P P') (h : StoreR K P P' S A) (h' : StoreR K P P' S B) : A = B := by
  have h1 : A.heap = B.heap := funext (fun a => OptR.fun R (h.heap a) (h'.heap a))
  have h2 : A.ext = B.ext := by rw [h.ext, h'.ext]
  cases A; cases B
  cases h1; cases h2
  rfl

theorem ValR.int {n : BitVec 63} {v : Val} (h : ValR P P' (.int n) v) : v = .int n := by
  cases v <;> simp_all [ValR]

theorem ValR.bool {b : Bool} {v : Val} (h : ValR P P' (.bool b) v) : v = .bool b := by
  cases v <;> simp_all [ValR]

theorem ValR.ptr {w : Word} {v : Val} (h : ValR P P' (.ptr w) v) : ∃ w', v = .ptr w' ∧ WordR P P' w w' := by
  cases v <;> simp_all [ValR]

theorem OptR.some' {v : Val} {o : Option Val} (h : OptR P P' (some v) o) : ∃ v', o = some v' ∧ ValR P P' v v' := by
  cases o with
  | none => exact h.elim
  | some v' => exact ⟨v', rfl, h⟩

theorem OptR.none' {o : Option Val} (h : OptR P P' none o) : o = none := by
  cases o with
  | none => rfl
  | some v' => exact h.elim

theorem WordR.fn (R : Renamed K P P') {fd : FnDef} (hfd : fd ∈ P.fns) {w : Word} (h : WordR P P' (P.fnAddr fd.name) w) : w = P'.fnAddr fd.name :=
  WordR.fun R h (.inl ⟨fd, hfd, rfl, rfl⟩)

/-- The address of any name. -/
theorem WordR.name (R : Renamed K P P') (f : String) : WordR P P' (P.fnAddr f) (P'.fnAddr f) := by
  by_cases h : ∃ fd ∈ P.fns, fd.name = f
  · obtain ⟨fd, h, rfl⟩ := h
    exact .inl ⟨fd, h, rfl, rfl⟩
  · have := R.other f (fun fd hfd e => h ⟨fd, hfd, e⟩)
    exact .inr ⟨this.1.symm, this.2⟩

/-- An object is at the same place. -/
theorem StoreR.deref {S S' : Store σ} (h : StoreR K P P' S S') {p p' : Word} (hp : WordR P P' p p') {o : Nat} (ho : o ≤ K) {v : Val}
    (hv : S.heap (p + BitVec.ofNat 64 o) = some v) : p' = p := by
  rcases hp with ⟨fd, h1, rfl, -⟩ | ⟨rfl, -⟩
  · rw [h.apart fd h1 o ho] at hv
    cases hv
  · rfl

theorem StoreR.deref0 {S S' : Store σ} (h : StoreR K P P' S S') {p p' : Word} (hp : WordR P P' p p') {v : Val} (hv : S.heap p = some v) : p' = p :=
  h.deref hp (Nat.zero_le K) (by simpa using hv)

theorem StoreR.read {S S' : Store σ} (h : StoreR K P P' S S') {a : Word} {v : Val} (hv : S.heap a = some v) :
    ∃ v', S'.heap a = some v' ∧ ValR P P' v v' := by
  have := h.heap a
  rw [hv] at this
  exact this.some'

theorem StoreR.write {S S' S1 : Store σ} (h : StoreR K P P' S S') {a : Word} {v v' : Val} (hv : ValR P P' v v') (hw : S.write a v = some S1) :
    ∃ S1', S'.write a v' = some S1' ∧ StoreR K P P' S1 S1' := by
  unfold Store.write at hw
  split at hw
  · cases hw
  · rename_i x hx
    cases hw
    obtain ⟨x', hx', -⟩ := h.read hx
    refine ⟨{ S' with heap := fun b => if b = a then some v' else S'.heap b }, by rw [Store.write, hx'], ?_, h.ext, ?_⟩
    · intro b
      dsimp only
      split
      · exact hv
      · exact h.heap b
    · intro fd hfd o ho
      dsimp only
      split
      · rename_i e
        have := h.apart fd hfd o ho
        rw [e, hx] at this
        cases this
      · exact h.apart fd hfd o ho

theorem StoreR.writeAll {vs : List Val} : ∀ {vs' : List Val} {S S' S1 : Store σ} {a : Word}, StoreR K P P' S S' →
    AllR P P' vs vs' → S.writeAll a vs = some S1 → ∃ S1', S'.writeAll a vs' = some S1' ∧ StoreR K P P' S1 S1' := by
  induction vs with
  | nil =>
    intro vs' S S' S1 a h hv hw
    cases hv
    cases hw
    exact ⟨S', rfl, h⟩
  | cons v vs ih =>
    intro vs' S S' S1 a h hv hw
    cases hv with
    | cons h1 h2 =>
      rw [Store.writeAll] at hw
      obtain ⟨S2, hw1, hw2⟩ := Option.bind_eq_some_iff.1 hw
      obtain ⟨S2', e, hS2⟩ := h.write h1 hw1
      obtain ⟨S1', e', hS1⟩ := ih hS2 h2 hw2
      exact ⟨S1', by rw [Store.writeAll, e]; exact e', hS1⟩

theorem EnvR.upd {ρ ρ' : Env} (h : EnvR P P' ρ ρ') (x : Nat) {v v' : Val} (hv : ValR P P' v v') : EnvR P P' (ρ.upd x v) (ρ'.upd x v') := by
  intro y
  unfold Env.upd
  split
  · exact hv
  · exact h y

theorem EnvR.bind (ps : List (Nat × TyR)) : ∀ {vs vs' : List (Option Val)}, ValsR P P' vs vs' → EnvR P P' (bindParams ps vs) (bindParams ps vs') := by
  induction ps with
  | nil => intro vs vs' _ x; simp only [bindParams]; exact trivial
  | cons p ps ih =>
    intro vs vs' h x
    cases vs <;> cases vs' <;> simp only [ValsR] at h
    · simp only [bindParams]; exact trivial
    · simp only [bindParams]
      split
      · exact h.1
      · exact ih h.2 x

theorem ValsR.length {vs : List (Option Val)} : ∀ {vs' : List (Option Val)}, ValsR P P' vs vs' → vs'.length = vs.length := by
  induction vs with
  | nil => intro vs' h; cases vs' <;> simp_all [ValsR]
  | cons v vs ih =>
    intro vs' h
    cases vs' with
    | nil => exact h.elim
    | cons v' vs' => rw [List.length_cons, List.length_cons, ih h.2]

theorem AllR.length {vs vs' : List Val} (h : AllR P P' vs vs') : vs'.length = vs.length := by
  induction h with
  | nil => rfl
  | cons _ _ ih => rw [List.length_cons, List.length_cons, ih]

theorem ValsR.vals {vals : List Val} : ∀ {vs' : List (Option Val)}, ValsR P P' (vals.map some) vs' →
    ∃ vals', vs' = vals'.map some ∧ AllR P P' vals vals' := by
  induction vals with
  | nil =>
    intro vs' h
    cases vs' with
    | nil => exact ⟨[], rfl, .nil⟩
    | cons v' vs' => exact h.elim
  | cons v vals ih =>
    intro vs' h
    cases vs' with
    | nil => exact h.elim
    | cons v' vs' =>
      obtain ⟨w, rfl, hw⟩ := OptR.some' h.1
      obtain ⟨ws, rfl, hws⟩ := ih h.2
      exact ⟨w :: ws, rfl, .cons hw hws⟩

/-- Operators are about integers and booleans. -/
theorem eval_ren {o : BinOp} {a b c a' b' : Val} (h : o.eval a b = some c) (ha : ValR P P' a a') (hb : ValR P P' b b') :
    o.eval a' b' = some c ∧ ValR P P' c c := by
  have hc : ValR P P' c c := by
    cases c with
    | int n => rfl
    | bool n => rfl
    | ptr w =>
      exfalso
      cases o <;> cases a <;> cases b <;> simp [BinOp.eval] at h
  cases a with
  | int n =>
    cases b with
    | int k => rw [ha.int, hb.int]; exact ⟨h, hc⟩
    | bool k => rw [ha.int, hb.bool]; exact ⟨h, hc⟩
    | ptr w => cases o <;> simp [BinOp.eval] at h
  | bool n =>
    cases b with
    | int k => rw [ha.bool, hb.int]; exact ⟨h, hc⟩
    | bool k => rw [ha.bool, hb.bool]; exact ⟨h, hc⟩
    | ptr w => cases o <;> simp [BinOp.eval] at h
  | ptr w => cases o <;> cases b <;> simp [BinOp.eval] at h

theorem uneval_ren {o : UnOp} {a c a' : Val} (h : o.eval a = some c) (ha : ValR P P' a a') : o.eval a' = some c ∧ ValR P P' c c := by
  have hc : ValR P P' c c := by
    cases c with
    | int n => rfl
    | bool n => rfl
    | ptr w =>
      exfalso
      cases o <;> cases a <;> simp [UnOp.eval] at h
  cases a with
  | int n => rw [ha.int]; exact ⟨h, hc⟩
  | bool n => rw [ha.bool]; exact ⟨h, hc⟩
  | ptr w => cases o <;> simp [UnOp.eval] at h

end

/-! ### Derivations -/

/-- What corresponds to a judgement. -/
def RenJ (K : Nat) (P P' : Prog σ) (d : Nat) : Jd σ → Prop
  | .expr ρ S e v S1 => e.near K = true → ∀ ρ' S', EnvR P P' ρ ρ' → StoreR K P P' S S' →
      ∃ v' S1', Big P' d (.expr ρ' S' e v' S1') ∧ OptR P P' v v' ∧ StoreR K P P' S1 S1'
  | .args ρ S es vs S1 => nearL K es = true → ∀ ρ' S', EnvR P P' ρ ρ' → StoreR K P P' S S' →
      ∃ vs' S1', Big P' d (.args ρ' S' es vs' S1') ∧ ValsR P P' vs vs' ∧ StoreR K P P' S1 S1'
  | .loc ρ S e l S1 => e.near K = true → ∀ ρ' S', EnvR P P' ρ ρ' → StoreR K P P' S S' →
      ∃ l' S1', Big P' d (.loc ρ' S' e l' S1') ∧ StoreR K P P' S1 S1' ∧
        (∀ x, l = .var x → l' = .var x) ∧ ∀ a, l = .mem a → ∀ v, S1.heap a = some v → l' = .mem a
  | .stmt ρ S s o ρ1 S1 => s.near K = true → ∀ ρ' S', EnvR P P' ρ ρ' → StoreR K P P' S S' →
      ∃ o' ρ1' S1', Big P' d (.stmt ρ' S' s o' ρ1' S1') ∧ OutR P P' o o' ∧ EnvR P P' ρ1 ρ1' ∧ StoreR K P P' S1 S1'
  | .stmts ρ S s o ρ1 S1 => s.near K = true → ∀ ρ' S', EnvR P P' ρ ρ' → StoreR K P P' S S' →
      ∃ o' ρ1' S1', Big P' d (.stmts ρ' S' s o' ρ1' S1') ∧ OutR P P' o o' ∧ EnvR P P' ρ1 ρ1' ∧ StoreR K P P' S1 S1'
  | .chain ρ S s o ρ1 S1 => s.near K = true → ∀ ρ' S', EnvR P P' ρ ρ' → StoreR K P P' S S' →
      ∃ o' ρ1' S1', Big P' d (.chain ρ' S' s o' ρ1' S1') ∧ OutR P P' o o' ∧ EnvR P P' ρ1 ρ1' ∧ StoreR K P P' S1 S1'
  | .fn fd vs S v S1 => fd.body.near K = true → ∀ vs' S', ValsR P P' vs vs' → StoreR K P P' S S' →
      ∃ v' S1', Big P' d (.fn fd vs' S' v' S1') ∧ OptR P P' v v' ∧ StoreR K P P' S1 S1'

theorem OutR.norm' {P P' : Prog σ} {o : Out} (h : OutR P P' .norm o) : o = .norm := by cases o <;> simp_all [OutR]

theorem OutR.ret' {P P' : Prog σ} {v : Option Val} {o : Out} (h : OutR P P' (.ret v) o) : ∃ v', o = .ret v' ∧ OptR P P' v v' := by
  cases o with
  | norm => exact h.elim
  | ret v' => exact ⟨v', rfl, h⟩

/-- The addresses of functions do not matter, up to the values that are such addresses. -/
theorem Big.rename {K : Nat} {P P' : Prog σ} (R : Renamed K P P') (hN : ∀ fd ∈ P.fns, fd.body.near K = true) {d : Nat} {J : Jd σ}
    (h : Big P d J) : RenJ K P P' d J := by
  induction h with
  | int => exact fun _ ρ' S' _ hS => ⟨_, S', .int, rfl, hS⟩
  | bool => exact fun _ ρ' S' _ hS => ⟨_, S', .bool, rfl, hS⟩
  | @str d ρ S s =>
    intro _ ρ' S' _ hS
    refine ⟨_, S', .str, ?_, hS⟩
    rw [R.str]
    exact .inr ⟨rfl, R.lits s⟩
  | typ => exact fun _ ρ' S' _ hS => ⟨_, S', .typ, trivial, hS⟩
  | @var d ρ S x t v h =>
    intro _ ρ' S' hρ hS
    have := hρ x
    rw [h] at this
    obtain ⟨v', e, hv⟩ := this.some'
    exact ⟨_, S', .var e, hv, hS⟩
  | @fnRef d ρ S f t => exact fun _ ρ' S' _ hS => ⟨_, S', .fnRef, WordR.name R f, hS⟩
  | bin _ _ he ih1 ih2 =>
    intro hn ρ' S' hρ hS
    simp only [Expr.near, Bool.and_eq_true] at hn
    obtain ⟨v1, S1', b1, r1, s1⟩ := ih1 hn.1 ρ' S' hρ hS
    obtain ⟨a', rfl, r1⟩ := r1.some'
    obtain ⟨v2, S2', b2, r2, s2⟩ := ih2 hn.2 ρ' S1' hρ s1
    obtain ⟨b', rfl, r2⟩ := r2.some'
    obtain ⟨e, hc⟩ := eval_ren he r1 r2
    exact ⟨_, S2', .bin b1 b2 e, hc, s2⟩
  | un _ he ih =>
    intro hn ρ' S' hρ hS
    simp only [Expr.near] at hn
    obtain ⟨v1, S1', b1, r1, s1⟩ := ih hn ρ' S' hρ hS
    obtain ⟨a', rfl, r1⟩ := r1.some'
    obtain ⟨e, hc⟩ := uneval_ren he r1
    exact ⟨_, S1', .un b1 e, hc, s1⟩
  | ternT _ _ ih1 ih2 =>
    intro hn ρ' S' hρ hS
    simp only [Expr.near, Bool.and_eq_true] at hn
    obtain ⟨v1, S1', b1, r1, s1⟩ := ih1 hn.1 ρ' S' hρ hS
    obtain ⟨a', rfl, hv⟩ := r1.some'
    obtain rfl := ValR.bool (P := P) (P' := P') hv
    obtain ⟨v2, S2', b2, r2, s2⟩ := ih2 hn.2.1 ρ' S1' hρ s1
    exact ⟨_, S2', .ternT b1 b2, r2, s2⟩
  | ternF _ _ ih1 ih2 =>
    intro hn ρ' S' hρ hS
    simp only [Expr.near, Bool.and_eq_true] at hn
    obtain ⟨v1, S1', b1, r1, s1⟩ := ih1 hn.1 ρ' S' hρ hS
    obtain ⟨a', rfl, hv⟩ := r1.some'
    obtain rfl := ValR.bool (P := P) (P' := P') hv
    obtain ⟨v2, S2', b2, r2, s2⟩ := ih2 hn.2.2 ρ' S1' hρ s1
    exact ⟨_, S2', .ternF b1 b2, r2, s2⟩
  | arrLit _ ih =>
    intro hn ρ' S' hρ hS
    simp only [Expr.near] at hn
    obtain ⟨v1, S1', b1, r1, s1⟩ := ih hn ρ' S' hρ hS
    exact ⟨_, S1', .arrLit b1, r1, s1⟩
  | callFn hx _ hfd hname hsk _ hd ih1 ih2 =>
    intro hn ρ' S' hρ hS
    simp only [Expr.near] at hn
    obtain ⟨vs', S1', b1, r1, s1⟩ := ih1 hn ρ' S' hρ hS
    obtain ⟨v', S2', b2, r2, s2⟩ := ih2 (hN _ hfd) vs' S1' r1 s1
    exact ⟨v', S2', .callFn hx b1 (R.fns ▸ hfd) hname hsk b2 hd, r2, s2⟩
  | callRt hx _ hrt hd ih =>
    intro hn ρ' S' hρ hS
    simp only [Expr.near] at hn
    obtain ⟨vs', S1', b1, r1, s1⟩ := ih hn ρ' S' hρ hS
    obtain ⟨v', S2', b2, r2, s2⟩ := R.rt _ _ _ _ _ hrt vs' S1' r1 s1
    exact ⟨v', S2', .callRt hx b1 b2 (by rw [R.need]; exact hd), r2, s2⟩
  | callExt hx _ he hr hd ih =>
    intro hn ρ' S' hρ hS
    simp only [Expr.near] at hn
    obtain ⟨vs', S1', b1, r1, s1⟩ := ih hn ρ' S' hρ hS
    obtain ⟨w', v', S2', b2, hr', r2, s2⟩ := R.extern _ _ _ _ _ _ _ _ he hr vs' S1' r1 s1
    exact ⟨v', S2', .callExt hx b1 b2 hr' (by rw [R.need]; exact hd), r2, s2⟩
  | @callVar d d' ρ S x fi args vs S1 fd v S2 hx hv _ hfd hsk _ hd ih1 ih2 =>
    intro hn ρ' S' hρ hS
    simp only [Expr.near] at hn
    have := hρ x
    rw [hv] at this
    obtain ⟨w, e, hw⟩ := this.some'
    obtain ⟨w, rfl, hw⟩ := hw.ptr
    obtain ⟨vs', S1', b1, r1, s1⟩ := ih1 hn ρ' S' hρ hS
    obtain ⟨v', S2', b2, r2, s2⟩ := ih2 (hN _ hfd) vs' S1' r1 s1
    exact ⟨v', S2', .callVar hx (by rw [e, WordR.fn R hfd hw]) b1 (R.fns ▸ hfd) hsk b2 hd, r2, s2⟩
  | @callExpr d d' ρ S e fi args vs S0 S1 fd v S2 hx _ _ hfd hsk _ hd ih0 ih1 ih2 =>
    intro hn ρ' S' hρ hS
    simp only [Expr.near, Bool.and_eq_true] at hn
    obtain ⟨w, S0', b0, r0, s0⟩ := ih0 hn.1 ρ' S' hρ hS
    obtain ⟨w, rfl, hw⟩ := r0.some'
    obtain ⟨w, rfl, hw⟩ := hw.ptr
    obtain ⟨vs', S1', b1, r1, s1⟩ := ih1 hn.2 ρ' S0' hρ s0
    obtain ⟨v', S2', b2, r2, s2⟩ := ih2 (hN _ hfd) vs' S1' r1 s1
    exact ⟨v', S2', .callExpr hx (WordR.fn R hfd hw ▸ b0) b1 (R.fns ▸ hfd) hsk b2 hd, r2, s2⟩
  | @dot d ρ S t e off p S1 v _ hh ih =>
    intro hn ρ' S' hρ hS
    simp only [Expr.near, Bool.and_eq_true, decide_eq_true_eq] at hn
    obtain ⟨w, S1', b1, r1, s1⟩ := ih hn.2 ρ' S' hρ hS
    obtain ⟨w, rfl, hw⟩ := r1.some'
    obtain ⟨w, rfl, hw⟩ := hw.ptr
    obtain rfl := s1.deref hw hn.1 hh
    obtain ⟨v', hv', r⟩ := s1.read hh
    exact ⟨_, S1', .dot b1 hv', r, s1⟩
  | @index d ρ S t a i p n len S1 S2 v _ _ h1 h2 h3 h4 ih1 ih2 =>
    intro hn ρ' S' hρ hS
    simp only [Expr.near, Bool.and_eq_true] at hn
    obtain ⟨w, S1', b1, r1, s1⟩ := ih1 hn.1 ρ' S' hρ hS
    obtain ⟨w, rfl, hw⟩ := r1.some'
    obtain ⟨w, rfl, hw⟩ := hw.ptr
    obtain ⟨k, S2', b2, r2, s2⟩ := ih2 hn.2 ρ' S1' hρ s1
    obtain ⟨k, rfl, hk⟩ := r2.some'
    obtain rfl := hk.int
    obtain rfl := s2.deref0 hw h1
    obtain ⟨l', hl', rl⟩ := s2.read h1
    obtain rfl := rl.int
    obtain ⟨v', hv', r⟩ := s2.read h4
    exact ⟨_, S2', .index b1 b2 hl' h2 h3 hv', r, s2⟩
  | argsNil => exact fun _ ρ' S' _ hS => ⟨[], S', .argsNil, trivial, hS⟩
  | argsCons _ _ ih1 ih2 =>
    intro hn ρ' S' hρ hS
    simp only [nearL, Bool.and_eq_true] at hn
    obtain ⟨v', S1', b1, r1, s1⟩ := ih1 hn.1 ρ' S' hρ hS
    obtain ⟨vs', S2', b2, r2, s2⟩ := ih2 hn.2 ρ' S1' hρ s1
    exact ⟨v' :: vs', S2', .argsCons b1 b2, ⟨r1, r2⟩, s2⟩
  | locVar => exact fun _ ρ' S' _ hS => ⟨_, S', .locVar, hS, (fun x h => h), (fun a h => by cases h)⟩
  | @locDot d ρ S t e off p S1 _ ih =>
    intro hn ρ' S' hρ hS
    simp only [Expr.near, Bool.and_eq_true, decide_eq_true_eq] at hn
    obtain ⟨w, S1', b1, r1, s1⟩ := ih hn.2 ρ' S' hρ hS
    obtain ⟨w, rfl, hw⟩ := r1.some'
    obtain ⟨w, rfl, hw⟩ := hw.ptr
    refine ⟨_, S1', .locDot b1, s1, (fun x h => by cases h), ?_⟩
    intro a h v hv
    cases h
    rw [s1.deref hw hn.1 hv]
  | @locIndex d ρ S t a i p n len S1 S2 _ _ h1 h2 h3 ih1 ih2 =>
    intro hn ρ' S' hρ hS
    simp only [Expr.near, Bool.and_eq_true] at hn
    obtain ⟨w, S1', b1, r1, s1⟩ := ih1 hn.1 ρ' S' hρ hS
    obtain ⟨w, rfl, hw⟩ := r1.some'
    obtain ⟨w, rfl, hw⟩ := hw.ptr
    obtain ⟨k, S2', b2, r2, s2⟩ := ih2 hn.2 ρ' S1' hρ s1
    obtain ⟨k, rfl, hk⟩ := r2.some'
    obtain rfl := hk.int
    obtain rfl := s2.deref0 hw h1
    obtain ⟨l', hl', rl⟩ := s2.read h1
    obtain rfl := rl.int
    exact ⟨_, S2', .locIndex b1 b2 hl' h2 h3, s2, (fun x h => by cases h), (fun a h v hv => by cases h; rfl)⟩
  | retE _ ih =>
    intro hn ρ' S' hρ hS
    simp only [Stmt.near] at hn
    obtain ⟨v', S1', b1, r1, s1⟩ := ih hn ρ' S' hρ hS
    exact ⟨_, ρ', S1', .retE b1, r1, hρ, s1⟩
  | retN => exact fun _ ρ' S' hρ hS => ⟨_, ρ', S', .retN, trivial, hρ, hS⟩
  | ifs _ ih =>
    intro hn ρ' S' hρ hS
    simp only [Stmt.near] at hn
    obtain ⟨o', ρ1', S1', b1, r⟩ := ih hn ρ' S' hρ hS
    exact ⟨o', ρ1', S1', .ifs b1, r⟩
  | asgVar _ _ ih1 ih2 =>
    intro hn ρ' S' hρ hS
    simp only [Stmt.near, Bool.and_eq_true] at hn
    obtain ⟨v', S1', b1, r1, s1⟩ := ih1 hn.2 ρ' S' hρ hS
    obtain ⟨v', rfl, hv⟩ := r1.some'
    obtain ⟨l', S2', b2, s2, hl, -⟩ := ih2 hn.1 ρ' S1' hρ s1
    obtain rfl := hl _ rfl
    exact ⟨_, _, S2', .asgVar b1 b2, trivial, hρ.upd _ hv, s2⟩
  | @asgMem d ρ S dc l r v a S1 S2 S3 _ _ hw ih1 ih2 =>
    intro hn ρ' S' hρ hS
    simp only [Stmt.near, Bool.and_eq_true] at hn
    obtain ⟨v', S1', b1, r1, s1⟩ := ih1 hn.2 ρ' S' hρ hS
    obtain ⟨v', rfl, hv⟩ := r1.some'
    obtain ⟨l', S2', b2, s2, -, hl⟩ := ih2 hn.1 ρ' S1' hρ s1
    obtain ⟨x, hx⟩ : ∃ x, S2.heap a = some x := by
      unfold Store.write at hw
      split at hw
      · cases hw
      · rename_i x hx
        exact ⟨x, hx⟩
    obtain rfl := hl _ rfl x hx
    obtain ⟨S3', hw', s3⟩ := s2.write hv hw
    exact ⟨_, _, S3', .asgMem b1 b2 hw', trivial, hρ, s3⟩
  | loopF _ ih =>
    intro hn ρ' S' hρ hS
    simp only [Stmt.near, Bool.and_eq_true] at hn
    obtain ⟨v', S1', b1, r1, s1⟩ := ih hn.1 ρ' S' hρ hS
    obtain ⟨v', rfl, hv⟩ := r1.some'
    exact ⟨_, ρ', S1', .loopF (by rw [hv.bool] at b1; exact b1), trivial, hρ, s1⟩
  | loopT _ _ _ ih1 ih2 ih3 =>
    intro hn ρ' S' hρ hS
    have hn' := hn
    simp only [Stmt.near, Bool.and_eq_true] at hn
    obtain ⟨v', S1', b1, r1, s1⟩ := ih1 hn.1 ρ' S' hρ hS
    obtain ⟨v', rfl, hv⟩ := r1.some'
    obtain ⟨o', ρ1', S2', b2, r2, e2, s2⟩ := ih2 hn.2 ρ' S1' hρ s1
    obtain rfl := r2.norm'
    obtain ⟨o', ρ2', S3', b3, r3, e3, s3⟩ := ih3 hn' ρ1' S2' e2 s2
    exact ⟨o', ρ2', S3', .loopT (by rw [hv.bool] at b1; exact b1) b2 b3, r3, e3, s3⟩
  | loopR _ _ ih1 ih2 =>
    intro hn ρ' S' hρ hS
    simp only [Stmt.near, Bool.and_eq_true] at hn
    obtain ⟨v', S1', b1, r1, s1⟩ := ih1 hn.1 ρ' S' hρ hS
    obtain ⟨v', rfl, hv⟩ := r1.some'
    obtain ⟨o', ρ1', S2', b2, r2, e2, s2⟩ := ih2 hn.2 ρ' S1' hρ s1
    obtain ⟨w, rfl, hw⟩ := r2.ret'
    exact ⟨_, ρ1', S2', .loopR (by rw [hv.bool] at b1; exact b1) b2, hw, e2, s2⟩
  | block _ ih =>
    intro hn ρ' S' hρ hS
    simp only [Stmt.near] at hn
    obtain ⟨o', ρ1', S1', b1, r⟩ := ih hn ρ' S' hρ hS
    exact ⟨o', ρ1', S1', .block b1, r⟩
  | expr _ ih =>
    intro hn ρ' S' hρ hS
    simp only [Stmt.near] at hn
    obtain ⟨v', S1', b1, r1, s1⟩ := ih hn ρ' S' hρ hS
    exact ⟨_, ρ', S1', .expr b1, trivial, hρ, s1⟩
  | chDone => exact fun _ ρ' S' hρ hS => ⟨_, ρ', S', .chDone, trivial, hρ, hS⟩
  | chElse _ ih =>
    intro hn ρ' S' hρ hS
    simp only [Chain.near] at hn
    obtain ⟨o', ρ1', S1', b1, r⟩ := ih hn ρ' S' hρ hS
    exact ⟨o', ρ1', S1', .chElse b1, r⟩
  | chT _ _ ih1 ih2 =>
    intro hn ρ' S' hρ hS
    simp only [Chain.near, Bool.and_eq_true] at hn
    obtain ⟨v', S1', b1, r1, s1⟩ := ih1 hn.1 ρ' S' hρ hS
    obtain ⟨v', rfl, hv⟩ := r1.some'
    obtain ⟨o', ρ1', S2', b2, r⟩ := ih2 hn.2.1 ρ' S1' hρ s1
    exact ⟨o', ρ1', S2', .chT (by rw [hv.bool] at b1; exact b1) b2, r⟩
  | chF _ _ ih1 ih2 =>
    intro hn ρ' S' hρ hS
    simp only [Chain.near, Bool.and_eq_true] at hn
    obtain ⟨v', S1', b1, r1, s1⟩ := ih1 hn.1 ρ' S' hρ hS
    obtain ⟨v', rfl, hv⟩ := r1.some'
    obtain ⟨o', ρ1', S2', b2, r⟩ := ih2 hn.2.2 ρ' S1' hρ s1
    exact ⟨o', ρ1', S2', .chF (by rw [hv.bool] at b1; exact b1) b2, r⟩
  | nil => exact fun _ ρ' S' hρ hS => ⟨_, ρ', S', .nil, trivial, hρ, hS⟩
  | cons _ _ ih1 ih2 =>
    intro hn ρ' S' hρ hS
    simp only [Stmts.near, Bool.and_eq_true] at hn
    obtain ⟨o', ρ1', S1', b1, r1, e1, s1⟩ := ih1 hn.1 ρ' S' hρ hS
    obtain rfl := r1.norm'
    obtain ⟨o', ρ2', S2', b2, r⟩ := ih2 hn.2 ρ1' S1' e1 s1
    exact ⟨o', ρ2', S2', .cons b1 b2, r⟩
  | consR _ ih =>
    intro hn ρ' S' hρ hS
    simp only [Stmts.near, Bool.and_eq_true] at hn
    obtain ⟨o', ρ1', S1', b1, r1, e1, s1⟩ := ih hn.1 ρ' S' hρ hS
    obtain ⟨w, rfl, hw⟩ := r1.ret'
    exact ⟨_, ρ1', S1', .consR b1, hw, e1, s1⟩
  | fnRet hb hl _ ih =>
    intro hn vs' S' hv hS
    simp only [hb, Body.near] at hn
    obtain ⟨o', ρ1', S1', b1, r1, e1, s1⟩ := ih hn _ S' (EnvR.bind _ hv) hS
    obtain ⟨w, rfl, hw⟩ := r1.ret'
    exact ⟨w, S1', .fnRet hb (by rw [hv.length]; exact hl) b1, hw, s1⟩
  | fnEnd hb hl hr _ ih =>
    intro hn vs' S' hv hS
    simp only [hb, Body.near] at hn
    obtain ⟨o', ρ1', S1', b1, r1, e1, s1⟩ := ih hn _ S' (EnvR.bind _ hv) hS
    obtain rfl := r1.norm'
    exact ⟨none, S1', .fnEnd hb (by rw [hv.length]; exact hl) hr b1, trivial, s1⟩
  | fnExpr hb hl _ ih =>
    intro hn vs' S' hv hS
    simp only [hb, Body.near] at hn
    obtain ⟨w, S1', b1, r1, s1⟩ := ih hn _ S' (EnvR.bind _ hv) hS
    exact ⟨w, S1', .fnExpr hb (by rw [hv.length]; exact hl) b1, r1, s1⟩
  | @fnCons d fd S tag desc id vals a S1 S2 hb hl hrt hd hw =>
    intro hn vs' S' hv hS
    obtain ⟨vals', rfl, hvals⟩ := hv.vals
    have hlen : vals'.length = vals.length := hvals.length
    obtain ⟨w, S1', b1, r1, s1⟩ := R.rt _ _ _ _ _ hrt
      [some (.int (BitVec.ofNat 63 (8 * vals.length + if tag.isSome then 8 else 0))), some (.ptr (P'.str desc)), some (.int (BitVec.ofNat 63 id))]
      S' ⟨rfl, by rw [R.str]; exact .inr ⟨rfl, R.lits desc⟩, rfl, trivial⟩ hS
    obtain ⟨w, rfl, hw'⟩ := r1.some'
    obtain ⟨a', rfl, ha⟩ := hw'.ptr
    have hall : AllR P P' ((tag.map (fun t => Val.int (BitVec.ofNat 63 t))).toList ++ vals)
        ((tag.map (fun t => Val.int (BitVec.ofNat 63 t))).toList ++ vals') := by
      cases tag with
      | none => exact hvals
      | some t => exact .cons rfl hvals
    have key : ∃ S2', S1'.writeAll a' ((tag.map (fun t => Val.int (BitVec.ofNat 63 t))).toList ++ vals') = some S2' ∧ StoreR K P P' S2 S2' := by
      cases hL : (tag.map (fun t => Val.int (BitVec.ofNat 63 t))).toList ++ vals with
      | nil =>
        rw [hL] at hall hw
        cases hw
        generalize (tag.map (fun t => Val.int (BitVec.ofNat 63 t))).toList ++ vals' = L' at *
        cases hall
        exact ⟨S1', rfl, s1⟩
      | cons x xs =>
        have hcell : ∃ y, S1.heap a = some y := by
          rw [hL, Store.writeAll] at hw
          obtain ⟨Q, hq, -⟩ := Option.bind_eq_some_iff.1 hw
          unfold Store.write at hq
          split at hq
          · cases hq
          · rename_i y hy
            exact ⟨y, hy⟩
        obtain ⟨y, hy⟩ := hcell
        obtain rfl := s1.deref0 ha hy
        exact s1.writeAll hall hw
    obtain ⟨S2', hw2, s2⟩ := key
    refine ⟨some (.ptr a'), S2', ?_, ha, s2⟩
    refine .fnCons hb (by rw [hlen]; exact hl) ?_ (by rw [R.need, R.alloc]; exact hd) hw2
    rw [R.alloc, hlen]
    exact b1
  | @fnDyn d d' fd0 isCl uns T n b p vs vs' fd v S S1 hD hden _ _ hfd hsk hlen _ hd ih1 ih2 ih3 =>
    intro hn vs2 S' hv hS
    cases vs2 with
    | nil => exact hv.elim
    | cons p' vs2 =>
      obtain ⟨w, rfl, hw⟩ := OptR.some' hv.1
      obtain ⟨p', rfl, hp⟩ := hw.ptr
      have henv : EnvR P P' (bindParams fd0.params (some (.ptr p) :: vs)) (bindParams fd0.params (some (.ptr p') :: vs2)) := EnvR.bind _ ⟨hp, hv.2⟩
      obtain ⟨t, S2', b1, r1, s1⟩ := ih1 (by simp [DynT.test, Expr.near, nearL]) _ S' henv hS
      obtain ⟨t, rfl, ht⟩ := r1.some'
      obtain rfl := StoreR.fun R s1 hS
      obtain ⟨q, S3', b2, r2, s2⟩ := ih2 (by cases b <;> simp [DynT.castIf, DynT.cast, Expr.near, nearL]) _ S2' henv hS
      obtain ⟨q, rfl, hq⟩ := r2.some'
      obtain ⟨q, rfl, hq⟩ := hq.ptr
      obtain rfl := StoreR.fun R s2 hS
      obtain rfl := WordR.fun R hq hp
      have key : ∃ vs3, Denotes P' S3' b fd.name vs2 q vs3 ∧ ValsR P P' vs' vs3 := by
        cases hden with
        | fn => exact ⟨vs2, WordR.fn R hfd hp ▸ .fn, hv.2⟩
        | closure h1 h2 =>
          obtain rfl := hS.deref0 hp h1
          obtain ⟨x, hx, rx⟩ := hS.read h1
          obtain ⟨x, rfl, rx⟩ := rx.ptr
          obtain ⟨y, hy, ry⟩ := hS.read h2
          obtain ⟨y, rfl, ry⟩ := ry.ptr
          exact ⟨_, .closure (WordR.fn R hfd rx ▸ hx) hy, ry, hv.2⟩
      obtain ⟨vs3, hden', hvs3⟩ := key
      obtain ⟨v', S1', b3, r3, s3⟩ := ih3 (hN _ hfd) vs3 S3' hvs3 hS
      refine ⟨v', S1', .fnDyn hD hden' (ht.bool ▸ b1) b2 (R.fns ▸ hfd) hsk ?_ b3 hd, r3, s3⟩
      rw [ValsR.length hv.2]
      exact hlen

end Clara.Gen
