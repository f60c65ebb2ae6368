import Verif.Sema.Backward
set_option linter.unusedVariables false
/-
In a fine program the ends of ranges and the arrays of loops keep their values.
-/
namespace Clara.Sema
open Clara.Gen

variable {σ : Type} {O : Opts} {P : SProg σ} {N : Nat}

/-- Variables that are not assigned keep their values. -/
def SJd.frame : SJd σ → Prop
  | .loc _ _ e (.var x) _ => lhs e = [x]
  | .stmt ρ _ s _ ρ' _ => ∀ y, y ∉ s.writes → ρ' y = ρ y
  | .stmts ρ _ s _ ρ' _ => ∀ y, y ∉ s.writes → ρ' y = ρ y
  | .chain ρ _ s _ ρ' _ => ∀ y, y ∉ s.writes → ρ' y = ρ y
  | .range ρ _ x _ _ _ b _ ρ' _ => ∀ y, y ≠ x → y ∉ b.writes → ρ' y = ρ y
  | .elems ρ _ x _ _ _ b _ ρ' _ => ∀ y, y ≠ x → y ∉ b.writes → ρ' y = ρ y
  | _ => True

theorem find_writes {k : BitVec 63} {vars : List (Nat × TyR)} {b : SSs} : ∀ {cs : SCs}, cs.find k = some (vars, b) →
    ∀ y ∈ vars.map (·.1) ++ b.writes, y ∈ cs.writes
  | .nil, h => by cases h
  | .cons tag vs b' next, h => by
    intro y hy
    simp only [SCs.find] at h
    simp only [SCs.writes, List.mem_append]
    split at h
    · cases h
      exact (List.mem_append.mp hy).imp id .inl
    · exact .inr (.inr (find_writes h y hy))

theorem SBig.frame {j : SJd σ} (h : SBig O P j) : SJd.frame j := by
  induction h with
  | asgVar _ _ i1 i2 =>
    intro y hy
    simp only [SJd.frame] at i2
    simp only [SS.writes, i2, List.mem_singleton] at hy
    simp [Env.upd, hy]
  | loopT _ _ _ i1 i2 i3 => exact fun y hy => (i3 y hy).trans (i2 y hy)
  | cons _ _ i1 i2 =>
    intro y hy
    simp only [SSs.writes, List.mem_append, not_or] at hy
    exact (i2 y hy.2).trans (i1 y hy.1)
  | consR _ i1 =>
    intro y hy
    simp only [SSs.writes, List.mem_append, not_or] at hy
    exact i1 y hy.1
  | chT _ _ i1 i2 =>
    intro y hy
    simp only [SCh.writes, List.mem_append, not_or] at hy
    exact i2 y hy.1
  | chF _ _ i1 i2 =>
    intro y hy
    simp only [SCh.writes, List.mem_append, not_or] at hy
    exact i2 y hy.2
  | ifs _ i | loopR _ _ _ i | chElse _ i => exact i
  | forR _ _ _ _ _ _ _ i | forA _ _ _ _ i =>
    intro y hy
    simp only [SS.writes, List.mem_cons, not_or] at hy
    exact i y hy.1 hy.2
  | rangeCons _ _ _ _ _ i1 i2 => exact fun y h1 h2 => (i2 y h1 h2).trans ((i1 y h2).trans (upd_ne h1))
  | elemsCons _ _ _ _ _ _ _ i1 i2 => exact fun y h1 h2 => (i2 y h1 h2).trans ((i1 y h2).trans (upd_ne h1))
  | rangeRet _ _ _ i => exact fun y h1 h2 => (i y h2).trans (upd_ne h1)
  | elemsRet _ _ _ _ _ _ i => exact fun y h1 h2 => (i y h2).trans (upd_ne h1)
  | match_ _ _ hf _ _ _ _ i =>
    intro y hy
    have hw := find_writes hf y
    rw [List.mem_append] at hw
    exact (i y (fun h => hy (hw (.inr h)))).trans (bindVars_ne _ _ _ (fun h => hy (hw (.inl h))))
  | locVar => rfl
  | rangeNil | elemsEnd => exact fun _ _ _ => rfl
  | _ => first | trivial | exact fun _ _ => rfl

theorem find_fine {A : Nat → Prop} {k : BitVec 63} {vars : List (Nat × TyR)} {b : SSs} : ∀ {cs : SCs}, cs.find k = some (vars, b) →
    cs.Fine N A → b.Fine N (fun y => A y ∨ y ∈ vars.map (·.1))
  | .nil, h, _ => by cases h
  | .cons tag vs b' next, h, hf => by
    simp only [SCs.find] at h
    split at h
    · cases h; exact hf.2.1
    · exact find_fine h hf.2.2

/-- What is shown of a run. -/
def Again (N : Nat) (P : SProg σ) : SJd σ → Prop
  | .stmt ρ S s o ρ1 S1 => ∀ A : Nat → Prop, s.Fine N A → SBig againOpts P (.stmt ρ S s o ρ1 S1)
  | .stmts ρ S s o ρ1 S1 => ∀ A : Nat → Prop, s.Fine N A → SBig againOpts P (.stmts ρ S s o ρ1 S1)
  | .chain ρ S s o ρ1 S1 => ∀ A : Nat → Prop, s.Fine N A → SBig againOpts P (.chain ρ S s o ρ1 S1)
  | .range ρ S x hi e vs b o ρ1 S1 => ∀ A : Nat → Prop, x ∉ hi.vars → x ∉ b.writes → StableEnd b.writes hi → b.Fine N (fun y => A y ∨ y = x) →
      EndVal ρ e hi → SBig againOpts P (.range ρ S x hi e vs b o ρ1 S1)
  | .elems ρ S x arr p i b o ρ1 S1 => ∀ A : Nat → Prop, x ∉ arr.vars → StableArr b.writes arr → b.Fine N (fun y => A y ∨ y = x) →
      (∀ h th, arr = .var h th → ρ h = some (.ptr p)) → SBig againOpts P (.elems ρ S x arr p i b o ρ1 S1)
  | .fn fd vs S v S' => fd ∈ P.fns → SBig againOpts P (.fn fd vs S v S')
  | j => SBig againOpts P j

theorem stableArr_run {ρ : Env} {S : Store σ} {arr : Expr} {p : Word} {w : List Nat} (hs : StableArr w arr)
    (h : ∀ h th, arr = .var h th → ρ h = some (.ptr p)) (hl : litArr arr = false) : SBig againOpts P (.expr ρ S arr (some (.ptr p)) S) := by
  cases arr <;> simp only [StableArr] at hs
  · exact .var (h _ _ rfl)
  · cases hl

/-- **Fine programs have only such runs.** -/
theorem fine_again (hF : ∀ fd ∈ P.fns, fd.Fine N) {j : SJd σ} (h : SBig codeOpts P j) : Again N P j := by
  induction h with
  | int => exact .int
  | bool => exact .bool
  | str => exact .str
  | typ => exact .typ
  | fnRef => exact .fnRef
  | var h => exact .var h
  | bin _ _ h i1 i2 => exact .bin i1 i2 h
  | un _ h i => exact .un i h
  | ternT _ _ i1 i2 => exact .ternT i1 i2
  | ternF _ _ i1 i2 => exact .ternF i1 i2
  | arrLit _ i => exact .arrLit i
  | callFn h1 _ h3 h4 h5 _ i1 i2 => exact .callFn h1 i1 h3 h4 h5 (i2 h3)
  | callRt h1 _ h3 i1 => exact .callRt h1 i1 h3
  | callExt h1 _ h3 h4 i1 => exact .callExt h1 i1 h3 h4
  | callVar h1 h2 _ h4 h5 _ i1 i2 => exact .callVar h1 h2 i1 h4 h5 (i2 h4)
  | callExpr h1 _ _ h4 h5 _ i0 i1 i2 => exact .callExpr h1 i0 i1 h4 h5 (i2 h4)
  | dot _ h i => exact .dot i h
  | index _ _ h3 h4 h5 h6 i1 i2 => exact .index i1 i2 h3 h4 h5 h6
  | argsNil => exact .argsNil
  | argsCons _ _ i1 i2 => exact .argsCons i1 i2
  | locVar => exact .locVar
  | locDot _ i => exact .locDot i
  | locIndex _ _ h3 h4 h5 i1 i2 => exact .locIndex i1 i2 h3 h4 h5
  | retE _ i => exact fun A hf => .retE i
  | retN => exact fun A hf => .retN
  | ifs _ i => exact fun A hf => .ifs (i A hf)
  | asgVar _ _ i1 i2 => exact fun A hf => .asgVar i1 i2
  | asgMem _ _ h i1 i2 => exact fun A hf => .asgMem i1 i2 h
  | loopF _ i => exact fun A hf => .loopF i
  | loopT _ _ _ i1 i2 i3 => exact fun A hf => .loopT i1 (i2 A hf.2) (i3 A hf)
  | loopR _ _ i1 i2 => exact fun A hf => .loopR i1 (i2 A hf.2)
  | expr _ i => exact fun A hf => .expr i
  | @forR ρ S x lo hi zero b a k S1 S2 vs o ρ1 S' h1 h2 hs h3 h4 i1 i2 i3 =>
    intro A hf
    obtain ⟨f1, f2, f3, f4, f5, f6, f7, f8⟩ := hf
    obtain ⟨he, rfl⟩ := end_value f6 h2
    exact .forR i1 i2 (fun _ => rfl) h3 (i3 A (fun hc => f3 (f2 x hc)) f5 f6 f8 he)
  | rangeNil => exact fun A h1 h2 h3 h4 h5 => .rangeNil (fun _ => endVal_srun h5)
  | @rangeCons ρ S x hi e v vs b ρ1 S1 o ρ2 S2 _ r1 hx r2 i0 i1 i2 =>
    intro A h1 h2 h3 h4 h5
    have hw := SBig.frame r1
    refine .rangeCons (fun _ => endVal_srun h5) (i1 _ h4) (fun _ => (hw x h2).trans upd_eq) (i2 A h1 h2 h3 h4 ?_)
    exact endVal_frame h5 (fun y hy => (hw y (stable_not h3 y hy)).trans (upd_ne (fun e => h1 (e ▸ hy))))
  | rangeRet _ _ i0 i1 => exact fun A h1 h2 h3 h4 h5 => .rangeRet (fun _ => endVal_srun h5) (i1 _ h4)
  | @forA ρ S x t arr b p S1 o ρ1 S' h1 hs h2 i1 i2 =>
    intro A hf
    obtain ⟨f1, f2, f3, f4, f5⟩ := hf
    have hv : (∀ h th, arr = .var h th → ρ h = some (.ptr p)) ∧ (litArr arr = false → S1 = S) := by
      cases arr <;> simp only [StableArr] at f4
      · cases h1
        rename_i hv
        exact ⟨(by rintro h th e; cases e; exact hv), fun _ => rfl⟩
      · exact ⟨(by rintro h th e; cases e), fun h => by cases h⟩
    exact .forA i1 (fun _ => hv.2) (i2 A (fun hc => f2 (f1 x hc)) f4 f5 hv.1)
  | elemsEnd _ h1 h2 i0 => exact fun A k1 k2 k3 k4 => .elemsEnd (fun _ => stableArr_run k2 k4) h1 h2
  | @elemsCons ρ S x arr p i b len v ρ1 S1 o ρ2 S2 _ r1 r2 r3 r4 r5 i0 i1 i2 =>
    intro A k1 k2 k3 k4
    have hw := SBig.frame r4
    refine .elemsCons (fun _ => stableArr_run k2 k4) r1 r2 r3 (i1 _ k3) (i2 A k1 k2 k3 ?_)
    rintro h th rfl
    rw [hw h k2, upd_ne (fun e => k1 (by simp [Expr.vars, e]))]
    exact k4 h th rfl
  | elemsRet _ r1 r2 r3 _ i0 i1 => exact fun A k1 k2 k3 k4 => .elemsRet (fun _ => stableArr_run k2 k4) r1 r2 r3 (i1 _ k3)
  | match_ _ h2 h3 h4 h5 _ i1 i2 => exact fun A hf => .match_ i1 h2 h3 h4 h5 (i2 _ (find_fine h3 hf.2))
  | matchPass h0 _ h2 h3 i1 => exact fun A hf => .matchPass rfl i1 h2 h3
  | matchNil h0 _ i1 => exact fun A hf => .matchNil rfl i1
  | chDone => exact fun A hf => .chDone
  | chElse _ i => exact fun A hf => .chElse (i A hf)
  | chT _ _ i1 i2 => exact fun A hf => .chT i1 (i2 A hf.2.1)
  | chF _ _ i1 i2 => exact fun A hf => .chF i1 (i2 A hf.2.2)
  | nil => exact fun A hf => .nil
  | cons _ _ i1 i2 => exact fun A hf => .cons (i1 A hf.1) (i2 A hf.2)
  | consR _ i => exact fun A hf => .consR (i A hf.1)
  | fnRet h1 h2 h3 i1 =>
    intro hm
    have hf := hF _ hm
    simp only [SFn.Fine, h1] at hf
    obtain ⟨A, hA, hf⟩ := hf
    exact .fnRet h1 h2 (i1 A hf)
  | fnEnd h1 h2 h3 h4 i1 =>
    intro hm
    have hf := hF _ hm
    simp only [SFn.Fine, h1] at hf
    obtain ⟨A, hA, hf⟩ := hf
    exact .fnEnd h1 h2 h3 (i1 A hf)
  | fnExpr h1 h2 h3 i1 => exact fun _ => .fnExpr h1 h2 i1
  | fnCons h1 h2 h3 h4 => exact fun _ => .fnCons h1 h2 h3 h4
  | fnDyn h1 h2 _ _ h4 h5 h6 _ i2 i3 i1 => exact fun _ => .fnDyn h1 h2 i2 i3 h4 h5 h6 (i1 h4)

/-- ... so that lowering keeps the meaning of statements of fine programs. -/
theorem fine_forward {L : Lib} (hL : LibOk L P) (hF : ∀ fd ∈ P.fns, fd.Fine N) {ρ ρ1 : Env} {S S1 : Store σ} {s : SS} {o : Out}
    (h : SBig codeOpts P (.stmt ρ S s o ρ1 S1)) (n : Nat) (A : Nat → Prop) (ρ' : Env) (hn : N ≤ n) (hA : ∀ y, A y → y < N) (ha : Agree A ρ ρ')
    (hf : s.Fine N A) : ∃ d ρ1', Big (lowP L N P) d (.stmt ρ' S (lowS L s n).1 o ρ1' S1) ∧ Agree A ρ1 ρ1' :=
  forward hL (fun fd hm => (hF fd hm).mild) (fine_again hF h A hf) n A ρ' hn hA ha hf.mild

theorem fine_forward_fn {L : Lib} (hL : LibOk L P) (hF : ∀ fd ∈ P.fns, fd.Fine N) {fd : SFn} (hm : fd ∈ P.fns) {vs : List (Option Val)} {S S' : Store σ} {v : Option Val}
    (h : SBig codeOpts P (.fn fd vs S v S')) : ∃ d, Big (lowP L N P) d (.fn (lowF L N fd) vs S v S') :=
  forward hL (fun fd hm => (hF fd hm).mild) (fine_again hF h hm) hm

end Clara.Sema
