import Verif.Sema.Check
set_option linter.unusedVariables false
set_option linter.unusedSimpArgs false
/-
The type checker terminates: the recursion depth is bounded by a weight of the tree, although trees are rewritten
on the way and rewritten trees are checked again.
-/
namespace Clara.Sema.Chk
open Clara.Types

mutual
/-- The weight of an expression; the right side of a dot counts twice. -/
def X.w : X → Nat
  | .lit _ _ | .ident _ _ | .ty _ _ => 0
  | .call f _ args _ => 1 + f.w + wL args
  | .bin _ l r _ => 1 + l.w + r.w
  | .cmp _ l r _ => 1 + l.w + r.w
  | .un _ e _ => 1 + e.w
  | .tern c x y _ => 1 + c.w + x.w + y.w
  | .arr es _ => 1 + wL es
  | .index l r _ => 1 + l.w + r.w
  | .dot l r _ => 1 + l.w + 2 * r.w
  | .fnB _ _ ss _ => 1 + wB ss
  | .fnE _ _ e _ => 1 + e.w
def wL : List X → Nat
  | [] => 0
  | x :: xs => x.w + wL xs
def S.w : S → Nat
  | .expr x => 1 + x.w
  | .loop c ss => 1 + c.w + wB ss
  | .for_ _ _ e ss => 1 + e.w + wB ss
  | .ifs c => 1 + c.w
  | .ret0 => 1
  | .ret e => 1 + e.w
  | .das l r => 1 + l.w + r.w
  | .asg l r => 1 + l.w + r.w
  | .match_ e cs => 1 + e.w + wC cs
def Ch.w : Ch → Nat
  | .done => 0
  | .els ss => wB ss
  | .cond c ss n => 1 + c.w + wB ss + n.w
def wB : List S → Nat
  | [] => 0
  | s :: ss => 1 + s.w + wB ss
def wC : List Case → Nat
  | [] => 0
  | .mk _ _ _ ss :: cs => wB ss + wC cs
end

def Case.w : Case → Nat
  | .mk _ _ _ ss => wB ss

theorem wC_cons (c : Case) (cs : List Case) : wC (c :: cs) = c.w + wC cs := by
  cases c; rfl

/-- Under the condition `T` the checker does not run out of fuel, and a result is not heavier than `b`. -/
def Tm {α : Type} (T : Prop) (P : α → Prop) : Except Stop α → Prop
  | .error s => T → s ≠ .fuel
  | .ok a => P a

theorem setCallee_w (f : X) (s : Option Sym) : (setCallee f s).w = f.w := by
  cases f <;> rfl

theorem setArgs_w : ∀ (xs : List X) (gs : List Arg), wL (setArgs xs gs) = wL xs
  | [], _ => by unfold setArgs; rfl
  | x :: xs, [] => rfl
  | x :: xs, g :: gs => by
    have : (x.setArg g).w = x.w := by cases x <;> rfl
    simp [setArgs, wL, setArgs_w xs gs, this]

variable {n : Nat}

theorem chkArgs_tm {chk : X → R X} (hc : ∀ x, Tm (x.w < n) (fun r => r.1.w ≤ x.w) (chk x)) (Γ : Env) : ∀ (xs : List X),
    Tm (wL xs < n) (fun r => wL r.1 ≤ wL xs) (chkArgs chk Γ xs)
  | [] => Nat.le_refl _
  | x :: xs => by
    have ih := chkArgs_tm hc Γ xs
    unfold chkArgs
    split
    · cases h : chkArgs chk Γ xs with
      | error s => rw [h] at ih; exact fun hl => ih (by simp only [wL] at hl; omega)
      | ok r => rw [h] at ih; simp only [Tm, wL] at ih ⊢; omega
    · rename_i ht
      clear ht
      have hx : Tm (x.w < n) (fun r : X × List Err => r.1.w ≤ x.w)
          (match x with | .ident n a => let r := chkIdent Γ true n a; .ok (.ident n r.1, r.2) | x => chk x : R X) := by
        split
        · exact Nat.le_refl _
        · exact hc _
      split
      · rename_i s h
        have hx : Tm (x.w < n) (fun r : X × List Err => r.1.w ≤ x.w) (.error s) := by rw [← h]; exact hx
        exact fun hl => hx (by simp only [wL] at hl; omega)
      · rename_i x' es h
        have hx : Tm (x.w < n) (fun r : X × List Err => r.1.w ≤ x.w) (.ok (x', es)) := by rw [← h]; exact hx
        split
        · simp only [Tm, wL] at hx ⊢; omega
        · cases h : chkArgs chk Γ xs with
          | error s => rw [h] at ih; exact fun hl => ih (by simp only [wL] at hl; omega)
          | ok r => rw [h] at ih; simp only [Tm, wL] at ih hx ⊢; omega

theorem chkApply_tm (Γ : Env) (f : X) (ts : List TyN) (tys : List Ty) (args : List X) (a : Ann) (es : List Err) (T : Prop) :
    Tm T (fun r => r.1.w ≤ 1 + f.w + wL args) (chkApply Γ f ts tys args a es) := by
  unfold chkApply
  repeat' split
  all_goals first
    | exact fun _ h => by cases h
    | (simp only [Tm, X.w, setCallee_w, setArgs_w]; omega)

theorem chkCall_tm {chk : X → R X} (hc : ∀ x, Tm (x.w < n) (fun r => r.1.w ≤ x.w) (chk x)) (Γ : Env) (f : X) (ts : List TyN)
    (args : List X) (a : Ann) : Tm ((X.call f ts args a).w ≤ n) (fun r => r.1.w ≤ (X.call f ts args a).w) (chkCall chk Γ f ts args a) := by
  unfold chkCall
  split
  · exact Nat.le_refl _
  · have hf : Tm (f.w < n) (fun r : X × List Err => r.1.w ≤ f.w) (chkCallee chk Γ f) := by
      unfold chkCallee
      split
      · exact Nat.le_refl _
      · exact hc _
      · exact hc _
      · exact hc _
      · exact hc _
      · exact Nat.le_refl _
    have ha := chkArgs_tm hc Γ args
    cases h : chkCallee chk Γ f with
    | error s => rw [h] at hf; exact fun hl => hf (by simp only [X.w] at hl; omega)
    | ok r =>
      obtain ⟨f', es⟩ := r
      rw [h] at hf
      simp only [Tm] at hf
      simp only
      split
      · simp only [Tm, X.w]; omega
      · cases typeArgs Γ ts with
        | error es' => simp only [Tm, X.w]; omega
        | ok tys =>
          simp only
          cases h : chkArgs chk Γ args with
          | error s => rw [h] at ha; exact fun hl => ha (by simp only [X.w] at hl; omega)
          | ok r =>
            obtain ⟨args', es', b⟩ := r
            rw [h] at ha
            simp only [Tm] at ha
            cases b with
            | false => simp only [Tm, X.w]; omega
            | true =>
              have := chkApply_tm Γ f' ts tys args' a (es ++ es') ((X.call f ts args a).w ≤ n)
              simp only
              cases h : chkApply Γ f' ts tys args' a (es ++ es') with
              | error s => rw [h] at this; exact this
              | ok r => rw [h] at this; simp only [Tm, X.w] at this ⊢; omega

theorem chkElems_tm {chk : X → R X} (hc : ∀ x, Tm (x.w < n) (fun r => r.1.w ≤ x.w) (chk x)) : ∀ (xs : List X) (t : Option Ty),
    Tm (wL xs < n) (fun r => wL r.1 ≤ wL xs) (chkElems chk t xs)
  | [], _ => Nat.le_refl _
  | x :: xs, t => by
    have hx := hc x
    unfold chkElems
    cases h : chk x with
    | error s => rw [h] at hx; exact fun hl => hx (by simp only [wL] at hl; omega)
    | ok r =>
      obtain ⟨x', es⟩ := r
      rw [h] at hx
      simp only [Tm] at hx
      simp only
      split
      · simp only [Tm, wL]; omega
      · rename_i t' _
        split
        · simp only [Tm, wL]; omega
        · have ih := chkElems_tm hc xs (some (t.getD t'))
          cases h : chkElems chk (some (t.getD t')) xs with
          | error s => rw [h] at ih; exact fun hl => ih (by simp only [wL] at hl; omega)
          | ok r => rw [h] at ih; simp only [Tm, wL] at ih ⊢; omega

theorem chkField_w (D : Decls) (l : X) (t : Ty) (x : String) (b a : Ann) : (chkField D l t x b a).1.w = (X.dot l (.ident x b) a).w := by
  unfold chkField
  simp only
  repeat' split
  all_goals rfl

theorem signature_tm (Γ : Env) (h : Head) (term : Bool) : ∀ s, signature Γ h term = .error s → s ≠ .fuel := by
  intro s hs
  unfold signature at hs
  dsimp only at hs
  repeat' split at hs
  all_goals (cases hs; try (intro h; cases h))

theorem info_tm (Γ : Env) (h : Head) (term : Bool) (info : Option FnInfo) :
    ∀ s, (match info with | some i => .ok (.ok i) | none => signature Γ h term : Except Stop (Except Err FnInfo)) = .error s → s ≠ .fuel := by
  intro s
  cases info with
  | some i => intro h; cases h
  | none => exact signature_tm Γ h term s

theorem stepX_tm {D : Decls} {chk : Env → X → R X} {body : Env → Ty → List S → Except Stop (List S × List Err × Env)}
    (hc : ∀ Γ x, Tm (x.w < n) (fun r => r.1.w ≤ x.w) (chk Γ x)) (hb : ∀ Γ t ss, Tm (wB ss ≤ n) (fun r => wB r.1 ≤ wB ss) (body Γ t ss))
    (Γ : Env) (e : X) : Tm (e.w ≤ n) (fun r => r.1.w ≤ e.w) (stepX D chk body Γ e) := by
  cases e with
  | lit k a => exact Nat.le_refl _
  | ident x a => exact Nat.le_refl _
  | call f ts args a => exact chkCall_tm (hc Γ) Γ f ts args a
  | ty t a => exact Nat.le_refl _
  | bin op l r a =>
    have h1 := hc Γ l
    have h2 := hc Γ r
    unfold stepX
    simp only
    cases h : chk Γ l with
    | error s => rw [h] at h1; exact fun hl => h1 (by simp only [X.w] at hl; omega)
    | ok r1 =>
      rw [h] at h1
      simp only
      cases h' : chk Γ r with
      | error s => rw [h'] at h2; exact fun hl => h2 (by simp only [X.w] at hl; omega)
      | ok r2 =>
        rw [h'] at h2
        simp only [Tm] at h1 h2
        simp only
        repeat' split
        all_goals (simp only [Tm, X.w]; omega)
  | cmp op l r a =>
    have h1 := hc Γ l
    have h2 := hc Γ r
    unfold stepX
    simp only
    cases h : chk Γ l with
    | error s => rw [h] at h1; exact fun hl => h1 (by simp only [X.w] at hl; omega)
    | ok r1 =>
      rw [h] at h1
      simp only
      cases h' : chk Γ r with
      | error s => rw [h'] at h2; exact fun hl => h2 (by simp only [X.w] at hl; omega)
      | ok r2 =>
        rw [h'] at h2
        simp only [Tm] at h1 h2
        simp only
        repeat' split
        all_goals (simp only [Tm, X.w]; omega)
  | index l r a =>
    have h1 := hc Γ l
    have h2 := hc Γ r
    unfold stepX
    simp only
    cases h : chk Γ l with
    | error s => rw [h] at h1; exact fun hl => h1 (by simp only [X.w] at hl; omega)
    | ok r1 =>
      rw [h] at h1
      simp only
      cases h' : chk Γ r with
      | error s => rw [h'] at h2; exact fun hl => h2 (by simp only [X.w] at hl; omega)
      | ok r2 =>
        rw [h'] at h2
        simp only [Tm] at h1 h2
        simp only
        repeat' split
        all_goals (simp only [Tm, X.w]; omega)
  | un op l a =>
    have h1 := hc Γ l
    unfold stepX
    simp only
    cases h : chk Γ l with
    | error s => rw [h] at h1; exact fun hl => h1 (by simp only [X.w] at hl; omega)
    | ok r1 =>
      rw [h] at h1
      simp only [Tm] at h1
      simp only
      repeat' split
      all_goals (simp only [Tm, X.w]; omega)
  | tern c x y a =>
    have h1 := hc Γ c
    have h2 := hc Γ x
    have h3 := hc Γ y
    unfold stepX
    simp only
    cases h : chk Γ c with
    | error s => rw [h] at h1; exact fun hl => h1 (by simp only [X.w] at hl; omega)
    | ok r1 =>
      rw [h] at h1
      simp only [Tm] at h1
      simp only
      split
      · simp only [Tm, X.w]; omega
      · split
        · simp only [Tm, X.w]; omega
        · cases h : chk Γ x with
          | error s => rw [h] at h2; exact fun hl => h2 (by simp only [X.w] at hl; omega)
          | ok r2 =>
            rw [h] at h2
            simp only [Tm] at h2
            simp only
            split
            · simp only [Tm, X.w]; omega
            · cases h : chk Γ y with
              | error s => rw [h] at h3; exact fun hl => h3 (by simp only [X.w] at hl; omega)
              | ok r3 =>
                rw [h] at h3
                simp only [Tm] at h3
                simp only
                repeat' split
                all_goals (simp only [Tm, X.w]; omega)
  | arr es a =>
    have h1 := chkElems_tm (hc Γ) es none
    unfold stepX
    simp only
    split
    · exact Nat.le_refl _
    · cases h : chkElems (chk Γ) none es with
      | error s => rw [h] at h1; exact fun hl => h1 (by simp only [X.w] at hl; omega)
      | ok r1 =>
        obtain ⟨xs, es', b⟩ := r1
        rw [h] at h1
        simp only [Tm] at h1
        cases b <;> (simp only [Tm, X.w]; omega)
  | dot l r a =>
    have h1 := hc Γ l
    unfold stepX
    simp only
    cases h : chk Γ l with
    | error s => rw [h] at h1; exact fun hl => h1 (by simp only [X.w] at hl; omega)
    | ok r1 =>
      obtain ⟨l', es⟩ := r1
      rw [h] at h1
      simp only [Tm] at h1
      simp only
      split
      · simp only [Tm, X.w]; omega
      · rename_i t _
        split
        · rename_i f ts args b
          have key : ∀ nd : X, nd.w < (X.dot l (.call f ts args b) a).w →
              Tm ((X.dot l (.call f ts args b) a).w ≤ n) (fun r : X × List Err => r.1.w ≤ (X.dot l (.call f ts args b) a).w)
              (match chk Γ nd with | .error s => .error s | .ok (n, es') => .ok (n, es ++ es')) := by
            intro nd hw
            have h2 := hc Γ nd
            cases h : chk Γ nd with
            | error s => rw [h] at h2; exact fun hl => h2 (by omega)
            | ok r2 => rw [h] at h2; simp only [Tm] at h2 ⊢; omega
          apply key
          repeat' split
          all_goals (simp only [X.w, wL]; omega)
        · rename_i f i b
          have hw : (X.index (.dot l' f {}) i a).w < (X.dot l (.index f i b) a).w := by
            simp only [X.w]; omega
          have h2 := hc Γ (.index (.dot l' f {}) i a)
          cases h : chk Γ (.index (.dot l' f {}) i a) with
          | error s => rw [h] at h2; exact fun hl => h2 (by omega)
          | ok r2 => rw [h] at h2; simp only [Tm] at h2 ⊢; omega
        · rename_i x b
          simp only [Tm, chkField_w, X.w]; omega
        · simp only [Tm, X.w]; omega
  | fnB h info ss a =>
    unfold stepX
    simp only
    split
    · rename_i s hs
      exact fun _ => info_tm Γ h _ info s hs
    · exact Nat.le_refl _
    · rename_i i hs
      have h1 := hb (i.own :: Γ) i.ty.2.2 ss
      split
      · rename_i s h2; rw [h2] at h1; exact fun hl => h1 (by simp only [X.w] at hl; omega)
      · exact fun _ h => by cases h
      · rename_i h2; rw [h2] at h1; simp only [Tm, X.w] at h1 ⊢; omega
  | fnE h info e a =>
    unfold stepX
    simp only
    split
    · rename_i s hs
      exact fun _ => info_tm Γ h _ info s hs
    · exact Nat.le_refl _
    · rename_i i hs
      have h1 := hc (i.own :: Γ) e
      split
      · rename_i s h2; rw [h2] at h1; exact fun hl => h1 (by simp only [X.w] at hl; omega)
      · rename_i h2; rw [h2] at h1; simp only [Tm, X.w] at h1 ⊢; omega

theorem chkCase_tm {body : Env → List S → Except Stop (List S × List Err × Env)}
    (hb : ∀ Γ ss, Tm (wB ss ≤ n) (fun r => wB r.1 ≤ wB ss) (body Γ ss)) (Γ : Env) (bd : Bound) (c : Case) :
    Tm (c.w ≤ n) (fun r => r.1.w ≤ c.w) (chkCase body Γ bd c) := by
  obtain ⟨x, sym, vs, ss⟩ := c
  simp only [chkCase]
  split
  · exact Nat.le_refl _
  · exact fun _ h => by cases h
  · split
    · exact fun _ h => by cases h
    · split
      · exact Nat.le_refl _
      · split
        · exact Nat.le_refl _
        · rename_i ps _ _ _ _
          have h1 := hb (chkVars ([] :: Γ) vs (ps.map (Ty.subst bd))).2.2 ss
          split
          · rename_i h2; rw [h2] at h1; exact h1
          · rename_i h2; rw [h2] at h1; exact h1
    · exact Nat.le_refl _

theorem chkCases_tm {body : Env → List S → Except Stop (List S × List Err × Env)}
    (hb : ∀ Γ ss, Tm (wB ss ≤ n) (fun r => wB r.1 ≤ wB ss) (body Γ ss)) (Γ : Env) (bd : Bound) : ∀ (cs : List Case),
    Tm (wC cs ≤ n) (fun r => wC r.1 ≤ wC cs) (chkCases body Γ bd cs)
  | [] => Nat.le_refl _
  | c :: cs => by
    have h1 := chkCase_tm hb Γ bd c
    have h2 := chkCases_tm hb Γ bd cs
    unfold chkCases
    cases h : chkCase body Γ bd c with
    | error s => rw [h] at h1; exact fun hl => h1 (by rw [wC_cons] at hl; omega)
    | ok r =>
      rw [h] at h1
      simp only
      cases h : chkCases body Γ bd cs with
      | error s => rw [h] at h2; exact fun hl => h2 (by rw [wC_cons] at hl; omega)
      | ok r => rw [h] at h2; simp only [Tm, wC_cons] at h1 h2 ⊢; omega

theorem chkCh_tm {chk : X → R X} {body : Env → List S → Except Stop (List S × List Err × Env)}
    (hc : ∀ x, Tm (x.w < n) (fun r => r.1.w ≤ x.w) (chk x))
    (hb : ∀ Γ ss, Tm (wB ss ≤ n) (fun r => wB r.1 ≤ wB ss) (body Γ ss)) (Γ : Env) : ∀ (c : Ch),
    Tm (c.w ≤ n) (fun r => r.1.w ≤ c.w) (chkCh chk body Γ c)
  | .done => Nat.le_refl _
  | .els ss => by
    have h1 := hb ([] :: Γ) ss
    unfold chkCh
    split
    · rename_i h2; rw [h2] at h1; exact h1
    · rename_i h2; rw [h2] at h1; exact h1
  | .cond c ss next => by
    have h1 := hc c
    have h2 := hb ([] :: Γ) ss
    have h3 := chkCh_tm hc hb Γ next
    unfold chkCh
    cases h : chk c with
    | error s => rw [h] at h1; exact fun hl => h1 (by simp only [Ch.w] at hl; omega)
    | ok r1 =>
      rw [h] at h1
      simp only [Tm] at h1
      simp only
      split
      · simp only [Tm, Ch.w]; omega
      · split
        · simp only [Tm, Ch.w]; omega
        · split
          · rename_i h; rw [h] at h2; exact fun hl => h2 (by simp only [Ch.w] at hl; omega)
          · rename_i h
            rw [h] at h2
            cases h : chkCh chk body Γ next with
            | error s => rw [h] at h3; exact fun hl => h3 (by simp only [Ch.w] at hl; omega)
            | ok r => rw [h] at h3; simp only [Tm, Ch.w] at h2 h3 ⊢; omega

theorem enumBound_tm (Γ : Env) (m : String) (ts : List Ty) : ∀ s, enumBound Γ m ts = .error s → s ≠ .fuel := by
  intro s
  unfold enumBound
  repeat' split
  all_goals (intro h; cases h; try (intro h; cases h))

theorem stepS_tm {D : Decls} {chk : Env → X → R X} {body : Env → List S → Except Stop (List S × List Err × Env)}
    (hc : ∀ Γ x, Tm (x.w < n) (fun r => r.1.w ≤ x.w) (chk Γ x)) (hb : ∀ Γ ss, Tm (wB ss ≤ n) (fun r => wB r.1 ≤ wB ss) (body Γ ss))
    (Γ : Env) (ret : Ty) (s : S) : Tm (s.w ≤ n) (fun r => r.1.w ≤ s.w) (stepS D chk body Γ ret s) := by
  cases s with
  | expr x =>
    have h1 := hc Γ x
    unfold stepS
    simp only
    cases h : chk Γ x with
    | error s => rw [h] at h1; exact fun hl => h1 (by simp only [S.w] at hl; omega)
    | ok r1 => rw [h] at h1; simp only [Tm, S.w] at h1 ⊢; omega
  | loop c ss =>
    have h1 := hc Γ c
    have h2 := hb ([] :: Γ) ss
    unfold stepS
    simp only
    cases h : chk Γ c with
    | error s => rw [h] at h1; exact fun hl => h1 (by simp only [S.w] at hl; omega)
    | ok r1 =>
      rw [h] at h1
      simp only [Tm] at h1
      simp only
      split
      · simp only [Tm, S.w]; omega
      · split
        · simp only [Tm, S.w]; omega
        · split
          · rename_i h; rw [h] at h2; exact fun hl => h2 (by simp only [S.w] at hl; omega)
          · rename_i h; rw [h] at h2; simp only [Tm, S.w] at h2 ⊢; omega
  | for_ x a e ss =>
    have h1 := hc Γ e
    unfold stepS
    simp only
    cases h : chk Γ e with
    | error s => rw [h] at h1; exact fun hl => h1 (by simp only [S.w] at hl; omega)
    | ok r1 =>
      obtain ⟨e', es⟩ := r1
      rw [h] at h1
      simp only [Tm] at h1
      simp only
      split
      · simp only [Tm, S.w]; omega
      · rename_i t _
        have h2 := hb ([(x, [stackSym (loopTy t e').1])] :: Γ) ss
        split
        · rename_i h; rw [h] at h2; exact fun hl => h2 (by simp only [S.w] at hl; omega)
        · rename_i h; rw [h] at h2; simp only [Tm, S.w] at h2 ⊢; omega
  | ifs c =>
    have h1 := chkCh_tm (hc Γ) hb Γ c
    unfold stepS
    simp only
    cases h : chkCh (chk Γ) body Γ c with
    | error s => rw [h] at h1; exact fun hl => h1 (by simp only [S.w] at hl; omega)
    | ok r1 => rw [h] at h1; simp only [Tm, S.w] at h1 ⊢; omega
  | ret0 => exact Nat.le_refl _
  | ret e =>
    have h1 := hc Γ e
    unfold stepS
    simp only
    cases h : chk Γ e with
    | error s => rw [h] at h1; exact fun hl => h1 (by simp only [S.w] at hl; omega)
    | ok r1 =>
      rw [h] at h1
      simp only [Tm] at h1
      simp only
      split <;> (simp only [Tm, S.w]; omega)
  | das l r =>
    have h1 := hc Γ r
    unfold stepS
    simp only
    cases h : chk Γ r with
    | error s => rw [h] at h1; exact fun hl => h1 (by simp only [S.w] at hl; omega)
    | ok r1 =>
      rw [h] at h1
      simp only [Tm] at h1
      simp only
      repeat' split
      all_goals (simp only [Tm, S.w, X.w]; omega)
  | asg l r =>
    have h1 := hc Γ r
    have h2 := hc Γ l
    unfold stepS
    simp only
    cases h : chk Γ r with
    | error s => rw [h] at h1; exact fun hl => h1 (by simp only [S.w] at hl; omega)
    | ok r1 =>
      rw [h] at h1
      simp only [Tm] at h1
      simp only
      cases h : chk Γ l with
      | error s => rw [h] at h2; exact fun hl => h2 (by simp only [S.w] at hl; omega)
      | ok r2 =>
        rw [h] at h2
        simp only [Tm] at h2
        simp only
        repeat' split
        all_goals (simp only [Tm, S.w]; omega)
  | match_ e cs =>
    have h1 := hc Γ e
    unfold stepS
    simp only
    cases h : chk Γ e with
    | error s => rw [h] at h1; exact fun hl => h1 (by simp only [S.w] at hl; omega)
    | ok r1 =>
      rw [h] at h1
      simp only [Tm] at h1
      simp only
      split
      · simp only [Tm, S.w]; omega
      · rename_i m ts _
        cases hb' : enumBound Γ m ts with
        | error s => exact fun _ => enumBound_tm Γ m ts s hb'
        | ok bd =>
          have h2 := chkCases_tm hb Γ bd cs
          simp only
          cases h : chkCases body Γ bd cs with
          | error s => rw [h] at h2; exact fun hl => h2 (by simp only [S.w] at hl; omega)
          | ok r =>
            rw [h] at h2
            simp only [Tm] at h2
            simp only
            split <;> (simp only [Tm, S.w]; omega)
      · simp only [Tm, S.w]; omega

theorem chk_tm (D : Decls) : ∀ (n : Nat), (∀ Γ x, Tm (x.w < n) (fun r => r.1.w ≤ x.w) (chkX D n Γ x)) ∧
    ∀ Γ t ss, Tm (wB ss ≤ n) (fun r => wB r.1 ≤ wB ss) (chkB D n Γ t ss)
  | 0 => by
    refine ⟨fun Γ x => fun h => by omega, fun Γ t ss => ?_⟩
    cases ss with
    | nil => simp [chkB, Tm]
    | cons s ss => simp only [chkB]; intro h; simp only [wB] at h; omega
  | n + 1 => by
    obtain ⟨hx, hb⟩ := chk_tm D n
    refine ⟨fun Γ x => ?_, fun Γ t ss => ?_⟩
    · have := stepX_tm (D := D) hx hb Γ x
      simp only [chkX]
      cases h : stepX D (chkX D n) (chkB D n) Γ x with
      | error s => rw [h] at this; exact fun hl => this (by omega)
      | ok r => rw [h] at this; exact this
    · cases ss with
      | nil => simp [chkB, Tm]
      | cons s ss =>
        have h1 := stepS_tm (D := D) hx (fun Γ ss => hb Γ t ss) Γ t s
        simp only [chkB]
        cases h : stepS D (chkX D n) (fun Γ ss => chkB D n Γ t ss) Γ t s with
        | error s => rw [h] at h1; exact fun hl => h1 (by simp only [wB] at hl; omega)
        | ok r =>
          obtain ⟨s', es, Γ'⟩ := r
          rw [h] at h1
          have h2 := hb Γ' t ss
          simp only
          cases h : chkB D n Γ' t ss with
          | error s => rw [h] at h2; exact fun hl => h2 (by simp only [wB] at hl; omega)
          | ok r => rw [h] at h2; simp only [Tm, wB] at h1 h2 ⊢; omega

/-! ### More fuel gives the same result -/

def Le {α : Type} (r r' : Except Stop α) : Prop := r = .error .fuel ∨ r = r'

theorem Le.refl {α : Type} (r : Except Stop α) : Le r r := .inr rfl

/-- One round of `chkArgs`, with the results it uses. -/
def argStep (xs : List X) (r : R X) (q : Except Stop (List X × List Err × Bool)) : Except Stop (List X × List Err × Bool) :=
  match r with
  | .error s => .error s
  | .ok (x', es) =>
    if x'.typ.isNone then .ok (x' :: xs, es, false)
    else match q with
      | .error s => .error s
      | .ok (xs', es', b) => .ok (x' :: xs', es ++ es', b)

theorem argStep_mono {xs : List X} {r r' : R X} {q q' : Except Stop (List X × List Err × Bool)} (hr : Le r r') (hq : Le q q') :
    Le (argStep xs r q) (argStep xs r' q') := by
  unfold argStep
  rcases hr with h | h
  · exact .inl (by rw [h])
  rw [← h]
  cases r with
  | error s => exact .refl _
  | ok v =>
    simp only
    split
    · exact .refl _
    · rcases hq with h | h
      · exact .inl (by rw [h])
      · rw [← h]; exact .refl _

theorem chkArgs_mono {chk chk' : X → R X} (hc : ∀ x, Le (chk x) (chk' x)) (Γ : Env) : ∀ (xs : List X),
    Le (chkArgs chk Γ xs) (chkArgs chk' Γ xs)
  | [] => .refl _
  | x :: xs => by
    have ih := chkArgs_mono hc Γ xs
    unfold chkArgs
    split
    · rcases ih with h | h
      · exact .inl (by simp only [h])
      · rw [← h]; exact .refl _
    · rename_i ht
      clear ht
      cases x with
      | ident n a => 
        exact argStep_mono (xs := xs) (.refl (.ok (.ident n (chkIdent Γ true n a).1, (chkIdent Γ true n a).2))) ih
      | _ => exact argStep_mono (xs := xs) (hc _) ih

theorem chkCall_mono {chk chk' : X → R X} (hc : ∀ x, Le (chk x) (chk' x)) (Γ : Env) (f : X) (ts : List TyN)
    (args : List X) (a : Ann) : Le (chkCall chk Γ f ts args a) (chkCall chk' Γ f ts args a) := by
  unfold chkCall
  split
  · exact .refl _
  · have hf : Le (chkCallee chk Γ f) (chkCallee chk' Γ f) := by
      unfold chkCallee
      cases f with
      | fnB => exact hc _
      | dot => exact hc _
      | call => exact hc _
      | index => exact hc _
      | _ => exact .refl _
    rcases hf with h | h
    · exact .inl (by simp only [h])
    rw [← h]
    cases chkCallee chk Γ f with
    | error s => exact .refl _
    | ok r =>
      simp only
      split
      · exact .refl _
      · cases typeArgs Γ ts with
        | error es' => exact .refl _
        | ok tys =>
          simp only
          rcases chkArgs_mono hc Γ args with h | h
          · exact .inl (by simp only [h])
          · rw [← h]; exact .refl _

theorem chkElems_mono {chk chk' : X → R X} (hc : ∀ x, Le (chk x) (chk' x)) : ∀ (xs : List X) (t : Option Ty),
    Le (chkElems chk t xs) (chkElems chk' t xs)
  | [], _ => .refl _
  | x :: xs, t => by
    unfold chkElems
    rcases hc x with h | h
    · exact .inl (by simp only [h])
    rw [← h]
    cases chk x with
    | error s => exact .refl _
    | ok r =>
      simp only
      split
      · exact .refl _
      · rename_i t' _
        split
        · exact .refl _
        · rcases chkElems_mono hc xs (some (t.getD t')) with h | h
          · exact .inl (by simp only [h])
          · rw [← h]; exact .refl _

theorem stepX_mono {D : Decls} {chk chk' : Env → X → R X} {body body' : Env → Ty → List S → Except Stop (List S × List Err × Env)}
    (hc : ∀ Γ x, Le (chk Γ x) (chk' Γ x)) (hb : ∀ Γ t ss, Le (body Γ t ss) (body' Γ t ss))
    (Γ : Env) (e : X) : Le (stepX D chk body Γ e) (stepX D chk' body' Γ e) := by
  cases e with
  | lit k a => exact .refl _
  | ident x a => exact .refl _
  | call f ts args a => exact chkCall_mono (hc Γ) Γ f ts args a
  | ty t a => exact .refl _
  | bin op l r a =>
    unfold stepX
    simp only
    rcases hc Γ l with h | h
    · exact .inl (by simp only [h])
    rw [← h]
    clear h
    cases chk Γ l with
    | error s => exact .refl _
    | ok r' =>
      simp only
      rcases hc Γ r with h | h
      · exact .inl (by simp only [h])
      rw [← h]
      clear h
      cases chk Γ r with
      | error s => exact .refl _
      | ok r' =>
        simp only
        exact .refl _
  | cmp op l r a =>
    unfold stepX
    simp only
    rcases hc Γ l with h | h
    · exact .inl (by simp only [h])
    rw [← h]
    clear h
    cases chk Γ l with
    | error s => exact .refl _
    | ok r' =>
      simp only
      rcases hc Γ r with h | h
      · exact .inl (by simp only [h])
      rw [← h]
      clear h
      cases chk Γ r with
      | error s => exact .refl _
      | ok r' =>
        simp only
        exact .refl _
  | index l r a =>
    unfold stepX
    simp only
    rcases hc Γ l with h | h
    · exact .inl (by simp only [h])
    rw [← h]
    clear h
    cases chk Γ l with
    | error s => exact .refl _
    | ok r' =>
      simp only
      rcases hc Γ r with h | h
      · exact .inl (by simp only [h])
      rw [← h]
      clear h
      cases chk Γ r with
      | error s => exact .refl _
      | ok r' =>
        simp only
        exact .refl _
  | un op l a =>
    unfold stepX
    simp only
    rcases hc Γ l with h | h
    · exact .inl (by simp only [h])
    rw [← h]
    clear h
    cases chk Γ l with
    | error s => exact .refl _
    | ok r' =>
      simp only
      exact .refl _
  | tern c x y a =>
    unfold stepX
    simp only
    rcases hc Γ c with h | h
    · exact .inl (by simp only [h])
    rw [← h]
    cases chk Γ c with
    | error s => exact .refl _
    | ok r =>
      simp only
      split
      · exact .refl _
      · split
        · exact .refl _
        · rcases hc Γ x with h | h
          · exact .inl (by simp only [h])
          rw [← h]
          cases chk Γ x with
          | error s => exact .refl _
          | ok r =>
            simp only
            split
            · exact .refl _
            · rcases hc Γ y with h | h
              · exact .inl (by simp only [h])
              rw [← h]
              exact .refl _
  | arr es a =>
    unfold stepX
    simp only
    split
    · exact .refl _
    · rcases chkElems_mono (hc Γ) es none with h | h
      · exact .inl (by simp only [h])
      rw [← h]
      exact .refl _
  | dot l r a =>
    unfold stepX
    simp only
    rcases hc Γ l with h | h
    · exact .inl (by simp only [h])
    rw [← h]
    cases chk Γ l with
    | error s => exact .refl _
    | ok r' =>
      simp only
      split
      · exact .refl _
      · split
        · rcases hc Γ _ with h | h
          · exact .inl (by rw [h])
          · rw [← h]; exact .refl _
        · rcases hc Γ _ with h | h
          · exact .inl (by rw [h])
          · rw [← h]; exact .refl _
        · exact .refl _
        · exact .refl _
  | fnB h info ss a =>
    unfold stepX
    simp only
    split
    · exact .refl _
    · exact .refl _
    · rename_i i hs
      rcases hb (i.own :: Γ) i.ty.2.2 ss with h | h
      · exact .inl (by simp only [h])
      · rw [← h]; exact .refl _
  | fnE h info e a =>
    unfold stepX
    simp only
    split
    · exact .refl _
    · exact .refl _
    · rename_i i hs
      rcases hc (i.own :: Γ) e with h | h
      · exact .inl (by simp only [h])
      · rw [← h]; exact .refl _

theorem chkCases_mono {body body' : Env → List S → Except Stop (List S × List Err × Env)}
    (hb : ∀ Γ ss, Le (body Γ ss) (body' Γ ss)) (Γ : Env) (bd : Bound) : ∀ (cs : List Case),
    Le (chkCases body Γ bd cs) (chkCases body' Γ bd cs)
  | [] => .refl _
  | .mk x sym vs ss :: cs => by
    have hcase : Le (chkCase body Γ bd (.mk x sym vs ss)) (chkCase body' Γ bd (.mk x sym vs ss)) := by
      simp only [chkCase]
      split
      · exact .refl _
      · exact .refl _
      · split
        · exact .refl _
        · split
          · exact .refl _
          · split
            · exact .refl _
            · rename_i ps _ _ _ _
              rcases hb (chkVars ([] :: Γ) vs (ps.map (Ty.subst bd))).2.2 ss with h | h
              · exact .inl (by simp only [h])
              · rw [← h]; exact .refl _
        · exact .refl _
    unfold chkCases
    rcases hcase with h | h
    · exact .inl (by simp only [h])
    rw [← h]
    cases chkCase body Γ bd (.mk x sym vs ss) with
    | error s => exact .refl _
    | ok r =>
      simp only
      rcases chkCases_mono hb Γ bd cs with h | h
      · exact .inl (by simp only [h])
      · rw [← h]; exact .refl _

theorem chkCh_mono {chk chk' : X → R X} {body body' : Env → List S → Except Stop (List S × List Err × Env)}
    (hc : ∀ x, Le (chk x) (chk' x)) (hb : ∀ Γ ss, Le (body Γ ss) (body' Γ ss)) (Γ : Env) : ∀ (c : Ch),
    Le (chkCh chk body Γ c) (chkCh chk' body' Γ c)
  | .done => .refl _
  | .els ss => by
    unfold chkCh
    rcases hb ([] :: Γ) ss with h | h
    · exact .inl (by simp only [h])
    · rw [← h]; exact .refl _
  | .cond c ss next => by
    unfold chkCh
    rcases hc c with h | h
    · exact .inl (by simp only [h])
    rw [← h]
    cases chk c with
    | error s => exact .refl _
    | ok r1 =>
      simp only
      split
      · exact .refl _
      · split
        · exact .refl _
        · rcases hb ([] :: Γ) ss with h | h
          · exact .inl (by simp only [h])
          rw [← h]
          cases body ([] :: Γ) ss with
          | error s => exact .refl _
          | ok r =>
            simp only
            rcases chkCh_mono hc hb Γ next with h | h
            · exact .inl (by simp only [h])
            · rw [← h]; exact .refl _

theorem stepS_mono {D : Decls} {chk chk' : Env → X → R X} {body body' : Env → List S → Except Stop (List S × List Err × Env)}
    (hc : ∀ Γ x, Le (chk Γ x) (chk' Γ x)) (hb : ∀ Γ ss, Le (body Γ ss) (body' Γ ss))
    (Γ : Env) (ret : Ty) (s : S) : Le (stepS D chk body Γ ret s) (stepS D chk' body' Γ ret s) := by
  cases s with
  | expr x =>
    unfold stepS
    simp only
    rcases hc Γ x with h | h
    · exact .inl (by simp only [h])
    · rw [← h]; exact .refl _
  | loop c ss =>
    unfold stepS
    simp only
    rcases hc Γ c with h | h
    · exact .inl (by simp only [h])
    rw [← h]
    cases chk Γ c with
    | error s => exact .refl _
    | ok r =>
      simp only
      split
      · exact .refl _
      · split
        · exact .refl _
        · rcases hb ([] :: Γ) ss with h | h
          · exact .inl (by simp only [h])
          · rw [← h]; exact .refl _
  | for_ x a e ss =>
    unfold stepS
    simp only
    rcases hc Γ e with h | h
    · exact .inl (by simp only [h])
    rw [← h]
    cases chk Γ e with
    | error s => exact .refl _
    | ok r =>
      simp only
      split
      · exact .refl _
      · rcases hb _ ss with h | h
        · exact .inl (by rw [h])
        · rw [← h]; exact .refl _
  | ifs c =>
    unfold stepS
    simp only
    rcases chkCh_mono (hc Γ) hb Γ c with h | h
    · exact .inl (by simp only [h])
    · rw [← h]; exact .refl _
  | ret0 => exact .refl _
  | ret e =>
    unfold stepS
    simp only
    rcases hc Γ e with h | h
    · exact .inl (by simp only [h])
    · rw [← h]; exact .refl _
  | das l r =>
    unfold stepS
    simp only
    rcases hc Γ r with h | h
    · exact .inl (by simp only [h])
    · rw [← h]; exact .refl _
  | asg l r =>
    unfold stepS
    simp only
    rcases hc Γ r with h | h
    · exact .inl (by simp only [h])
    rw [← h]
    cases chk Γ r with
    | error s => exact .refl _
    | ok r =>
      simp only
      rcases hc Γ l with h | h
      · exact .inl (by simp only [h])
      · rw [← h]; exact .refl _
  | match_ e cs =>
    unfold stepS
    simp only
    rcases hc Γ e with h | h
    · exact .inl (by simp only [h])
    rw [← h]
    cases chk Γ e with
    | error s => exact .refl _
    | ok r =>
      simp only
      split
      · exact .refl _
      · rename_i m ts _
        cases enumBound Γ m ts with
        | error s => exact .refl _
        | ok bd =>
          simp only
          rcases chkCases_mono hb Γ bd cs with h | h
          · exact .inl (by simp only [h])
          · rw [← h]; exact .refl _
      · exact .refl _

theorem chk_mono (D : Decls) : ∀ (n : Nat), (∀ Γ x, Le (chkX D n Γ x) (chkX D (n + 1) Γ x)) ∧
    ∀ Γ t ss, Le (chkB D n Γ t ss) (chkB D (n + 1) Γ t ss)
  | 0 => by
    refine ⟨fun Γ x => .inl rfl, fun Γ t ss => ?_⟩
    cases ss with
    | nil => exact .inr (by simp [chkB])
    | cons s ss => exact .inl (by simp [chkB])
  | n + 1 => by
    obtain ⟨hx, hb⟩ := chk_mono D n
    refine ⟨fun Γ x => ?_, fun Γ t ss => ?_⟩
    · simp only [chkX]
      exact stepX_mono hx hb Γ x
    · cases ss with
      | nil => exact .inr (by simp [chkB])
      | cons s ss =>
        rw [chkB, chkB]
        rcases stepS_mono (D := D) hx (fun Γ ss => hb Γ t ss) Γ t s with h | h
        · exact .inl (by simp only [h])
        rw [← h]
        cases stepS D (chkX D n) (fun Γ ss => chkB D n Γ t ss) Γ t s with
        | error s => exact .refl _
        | ok r =>
          simp only
          rcases hb r.2.2 t ss with h | h
          · exact .inl (by simp only [h])
          · rw [← h]; exact .refl _

/-! ### Programs -/

def FnBody.w : FnBody → Nat
  | .none_ => 0
  | .block ss => wB ss
  | .expr e => e.w

theorem chkFn_mono (D : Decls) (n : Nat) (root : Scope) (f : Fn) : Le (chkFn D n root f) (chkFn D (n + 1) root f) := by
  unfold chkFn
  split
  · exact .refl _
  · rename_i ss _
    rcases (chk_mono D n).2 [f.own, root] f.ret ss with h | h
    · exact .inl (by simp only [h])
    · rw [← h]; exact .refl _
  · rename_i e _
    rcases (chk_mono D n).1 [f.own, root] e with h | h
    · exact .inl (by simp only [h])
    · rw [← h]; exact .refl _

theorem chkFn_tm (D : Decls) (n : Nat) (root : Scope) (f : Fn) (h : f.body.w < n) : chkFn D n root f ≠ .error .fuel := by
  unfold chkFn
  split
  · intro h; cases h
  · rename_i ss hb
    have := (chk_tm D n).2 [f.own, root] f.ret ss
    split
    · rename_i h'
      rw [h'] at this
      intro he; cases he
      exact this (by rw [hb] at h; exact Nat.le_of_lt h) rfl
    · intro h; cases h
  · rename_i e hb
    have := (chk_tm D n).1 [f.own, root] e
    split
    · rename_i h'
      rw [h'] at this
      intro he; cases he
      exact this (by rw [hb] at h; exact h) rfl
    · intro h; cases h

theorem chkProg_tm (D : Decls) (n : Nat) (root : Scope) : ∀ (fs : List Fn), (∀ f ∈ fs, f.body.w < n) → chkProg D n root fs ≠ .error .fuel
  | [], _ => by intro h; cases h
  | f :: fs, h => by
    have h1 := chkFn_tm D n root f (h f (by simp))
    have h2 := chkProg_tm D n root fs (fun g hg => h g (by simp [hg]))
    unfold chkProg
    split
    · rename_i h'; intro he; cases he; exact h1 h'
    · split
      · rename_i h'; intro he; cases he; exact h2 h'
      · intro h; cases h

theorem chkProg_mono (D : Decls) (n : Nat) (root : Scope) : ∀ (fs : List Fn), Le (chkProg D n root fs) (chkProg D (n + 1) root fs)
  | [] => .refl _
  | f :: fs => by
    unfold chkProg
    rcases chkFn_mono D n root f with h | h
    · exact .inl (by simp only [h])
    rw [← h]
    cases chkFn D n root f with
    | error s => exact .refl _
    | ok r =>
      simp only
      rcases chkProg_mono D n root fs with h | h
      · exact .inl (by simp only [h])
      · rw [← h]; exact .refl _

theorem chkProg_more (D : Decls) (root : Scope) (fs : List Fn) {n m : Nat} (h : n ≤ m) : Le (chkProg D n root fs) (chkProg D m root fs) := by
  induction h with
  | refl => exact .refl _
  | step h ih =>
    rcases ih with ih | ih
    · exact .inl ih
    · rw [ih]; exact chkProg_mono D _ root fs

end Clara.Sema.Chk
