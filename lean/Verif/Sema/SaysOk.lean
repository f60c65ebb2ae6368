import Verif.Sema.CheckLemmas
import Verif.Sema.Says
set_option linter.unusedVariables false
/-
Type checking fills in types and symbols and changes nothing else (C67).
-/
namespace Clara.Sema.Chk
open Clara.Types

variable {D : Decls}

/-! ### Nothing changed -/

mutual
theorem X.Says.rfl : ∀ (e : X), X.Says D e e
  | .lit _ _ => .lit
  | .ident _ _ => .ident
  | .call f _ args _ => .call (X.Says.rfl f) (saysL_rfl args)
  | .bin _ l r _ => .bin (X.Says.rfl l) (X.Says.rfl r)
  | .cmp _ l r _ => .cmp (X.Says.rfl l) (X.Says.rfl r)
  | .un _ e _ => .un (X.Says.rfl e)
  | .tern c x y _ => .tern (X.Says.rfl c) (X.Says.rfl x) (X.Says.rfl y)
  | .arr es _ => .arr (saysL_rfl es)
  | .index l r _ => .index (X.Says.rfl l) (X.Says.rfl r)
  | .dot l _ _ => .dotOpen (X.Says.rfl l)
  | .ty _ _ => .ty
  | .fnB _ _ ss _ => .fnB (saysB_rfl ss)
  | .fnE _ _ e _ => .fnE (X.Says.rfl e)
theorem saysL_rfl : ∀ (es : List X), SaysL D es es
  | [] => .nil
  | e :: es => .cons (X.Says.rfl e) (saysL_rfl es)
theorem S.Says.rfl : ∀ (s : S), S.Says D s s
  | .expr e => .expr (X.Says.rfl e)
  | .loop c ss => .loop (X.Says.rfl c) (saysB_rfl ss)
  | .for_ _ _ e ss => .for_ (X.Says.rfl e) (saysB_rfl ss)
  | .ifs c => .ifs (Ch.Says.rfl c)
  | .ret0 => .ret0
  | .ret e => .ret (X.Says.rfl e)
  | .das l r => .das (X.Says.rfl l) (X.Says.rfl r)
  | .asg l r => .asg (X.Says.rfl l) (X.Says.rfl r)
  | .match_ e cs => .match_ (X.Says.rfl e) (saysC_rfl cs)
theorem Ch.Says.rfl : ∀ (c : Ch), Ch.Says D c c
  | .done => .done
  | .els ss => .els (saysB_rfl ss)
  | .cond c ss n => .cond (X.Says.rfl c) (saysB_rfl ss) (Ch.Says.rfl n)
theorem saysB_rfl : ∀ (ss : List S), SaysB D ss ss
  | [] => .nil
  | s :: ss => .cons (S.Says.rfl s) (saysB_rfl ss)
theorem saysC_rfl : ∀ (cs : List Case), SaysC D cs cs
  | [] => .nil
  | .mk _ _ _ ss :: cs => .cons (by rfl) (saysB_rfl ss) (saysC_rfl cs)
end

/-! ### Annotations changed after checking -/

theorem X.Says.reIdent {e : X} {x : String} {a : Ann} (h : X.Says D e (.ident x a)) (b : Ann) : X.Says D e (.ident x b) := by
  cases h with
  | ident => exact .ident
  | fieldIndex _ h => cases h

theorem X.Says.setArg {e e' : X} (h : X.Says D e e') (g : Arg) : X.Says D e (e'.setArg g) := by
  cases e' <;> first | exact h | exact h.reIdent _

theorem SaysL.setArgs : ∀ {es es' : List X}, SaysL D es es' → ∀ gs, SaysL D es (setArgs es' gs)
  | _, _, .nil, gs => by simpa [Chk.setArgs] using SaysL.nil
  | _, _, .cons h hs, [] => by simpa [Chk.setArgs] using SaysL.cons h hs
  | _, _, .cons h hs, g :: gs => .cons (h.setArg g) (SaysL.setArgs hs gs)

theorem X.Says.setCallee {e e' : X} (h : X.Says D e e') (s : Option Sym) : X.Says D e (setCallee e' s) := by
  cases e' <;> first | exact h | exact h.reIdent _

/-! ### Calls -/

/-- An identifier with one symbol, and its type. -/
def Plain (x : X) : Prop := ∀ y a s, x = .ident y a → a.sym = some s → a.typ = Sym.ty s ∧ s.length ≤ 1

/-- What has a type already keeps it. -/
def Kept (D : Decls) (x x' : X) : Prop := x.typ ≠ none → (∀ e, X.Says D e x → X.Says D e x') ∧ (Plain x → x'.typ = x.typ)

theorem kept_rfl (x : X) : Kept D x x := fun _ => ⟨fun _ h => h, fun _ => rfl⟩

theorem kept_setArg {x : X} {g g' : Arg} (hg : x.arg = some g) (hn : Narrowed g g') : Kept D x (x.setArg g') := by
  refine fun ht => ⟨fun e h => h.setArg g', fun hp => ?_⟩
  cases x with
  | ident y a =>
    rcases hn with rfl | ⟨pre, r, h1, h2⟩
    · simp only [X.arg] at hg
      split at hg
      · rename_i t s h3 h4
        obtain ⟨ts, _, rfl⟩ := Option.map_eq_some_iff.1 hg
        simpa [X.setArg, X.typ, X.ann] using h3.symm
      · rename_i t h3 h4
        cases hg
        simpa [X.setArg, X.typ, X.ann] using h3.symm
      · cases hg
    · simp only [X.arg] at hg
      split at hg
      · rename_i t s h3 h4
        obtain ⟨ts, h5, rfl⟩ := Option.map_eq_some_iff.1 hg
        obtain ⟨h6, h7⟩ := hp y a s rfl h4
        have h8 := allSome_length h5
        have h9 := allSome_map h5
        simp only [List.length_map] at h8
        simp only at h1
        rw [h2] at h1
        cases s with
        | nil => simp at h8; subst h8; simp at h1
        | cons b s =>
          cases s with
          | cons _ _ => simp at h7
          | nil =>
            simp only [List.length_cons, List.length_nil] at h8
            rw [h1] at h8
            have : pre = [] ∧ r = [] := by
              simp only [List.length_append, List.length_cons] at h8
              constructor <;> apply List.eq_nil_of_length_eq_zero <;> omega
            obtain ⟨rfl, rfl⟩ := this
            simp only [List.nil_append] at h1
            rw [h1] at h9
            simp only [List.map_cons, List.map_nil, List.cons.injEq, and_true] at h9
            simp only [X.setArg, X.typ, X.ann, h6, Sym.ty]
            simpa using h9.symm
      · cases hg
        cases pre <;> simp [h2] at h1
      · cases hg
  | _ => rfl

theorem keepL_setArgs : ∀ {xs : List X} {gs gs' : List Arg}, allArgs xs = some gs → All₂ Narrowed gs gs' → All₂ (Kept D) xs (setArgs xs gs')
  | [], gs, gs', h, hn => by
    simp only [allArgs, Option.some.injEq] at h
    subst h
    cases hn
    exact .nil
  | x :: xs, gs, gs', h, hn => by
    simp only [allArgs] at h
    split at h
    · rename_i g gs0 h1 h2
      cases h
      cases hn with
      | cons h3 h4 => exact .cons (kept_setArg h1 h3) (keepL_setArgs h2 h4)
    · cases h

/-- Arguments after checking. -/
def KeptL (D : Decls) (xs xs' : List X) : Prop := All₂ (Kept D) xs xs'

theorem keptL_rfl (xs : List X) : KeptL D xs xs := all₂_refl kept_rfl xs

/-- The result of checking expressions: they say the same, arguments that have types keep them, and identifiers get
one symbol. -/
structure Keeps (D : Decls) (chk : X → R X) : Prop where
  says : ∀ e e' es, chk e = .ok (e', es) → X.Says D e e'
  call : ∀ f ts args a e' es, chk (.call f ts args a) = .ok (e', es) →
    ∃ f' args' a', e' = .call f' ts args' a' ∧ X.Says D f f' ∧ SaysL D args args' ∧ KeptL D args args'
  plain : ∀ e e' es, chk e = .ok (e', es) → Plain e' ∨ Given e

variable {chk : X → R X}

theorem chkArgs_says (hc : Keeps D chk) (Γ : Env) : ∀ (xs xs' : List X) (es : List Err) (b : Bool),
    chkArgs chk Γ xs = .ok (xs', es, b) → SaysL D xs xs' ∧ All₂ (fun x x' => x.typ ≠ none → x' = x) xs xs'
  | [], xs', es, b, h => by
    simp only [chkArgs, Except.ok.injEq, Prod.mk.injEq] at h
    rw [← h.1]
    exact ⟨.nil, .nil⟩
  | x :: xs, xs', es, b, h => by
    unfold chkArgs at h
    split at h
    · split at h
      · cases h
      · rename_i ys es' b' hy
        cases h
        obtain ⟨h1, h2⟩ := chkArgs_says hc Γ xs _ _ _ hy
        exact ⟨.cons (.rfl x) h1, .cons (fun _ => rfl) h2⟩
    · rename_i hx0
      simp only [Bool.not_eq_true, Option.isSome_eq_false_iff, Option.isNone_iff_eq_none] at hx0
      split at h
      · cases h
      · rename_i x' es1 hx
        have h1 : X.Says D x x' := by
          split at hx
          · cases hx
            exact .ident
          · exact hc.says _ _ _ hx
        split at h
        · cases h
          exact ⟨.cons h1 (saysL_rfl xs), .cons (fun h => absurd hx0 h) (all₂_refl (fun _ _ => rfl) xs)⟩
        · split at h
          · cases h
          · rename_i ys es' b' hy
            cases h
            obtain ⟨h2, h3⟩ := chkArgs_says hc Γ xs _ _ _ hy
            exact ⟨.cons h1 h2, .cons (fun h => absurd hx0 h) h3⟩

theorem chkCallee_says (hc : Keeps D chk) (Γ : Env) {f f' : X} {es : List Err} (h : chkCallee chk Γ f = .ok (f', es)) :
    X.Says D f f' := by
  unfold chkCallee at h
  split at h
  · cases h
    exact .ident
  all_goals first | exact hc.says _ _ _ h | (cases h; exact .rfl _)

theorem keptL_step {xs ys zs : List X} (h1 : All₂ (fun x x' => x.typ ≠ none → x' = x) xs ys) (h2 : KeptL D ys zs) : KeptL D xs zs := by
  induction h1 generalizing zs with
  | nil => exact h2
  | cons h _ ih =>
    cases h2 with
    | cons h3 h4 =>
      refine .cons (fun ht => ?_) (ih h4)
      have := h ht
      subst this
      exact h3 ht

theorem chkApply_says (Γ : Env) {f g e' : X} {ts : List TyN} {tys : List Ty} {args xs : List X} {a : Ann} {es es' : List Err} (hf : X.Says D g f)
    (ha : SaysL D xs args) (h : chkApply Γ f ts tys args a es = .ok (e', es')) :
    ∃ f' args' a', e' = .call f' ts args' a' ∧ X.Says D g f' ∧ SaysL D xs args' ∧ KeptL D args args' := by
  unfold chkApply at h
  split at h
  · cases h
    exact ⟨_, _, _, rfl, hf.setCallee _, ha, keptL_rfl _⟩
  · split at h
    · split at h
      · cases h
      · split at h
        · split at h
          · cases h
            exact ⟨_, _, _, rfl, hf.setCallee _, ha, keptL_rfl _⟩
          · cases h
            exact ⟨_, _, _, rfl, hf, ha, keptL_rfl _⟩
        · cases h
    · split at h
      · rename_i hg _
        split at h
        · split at h
          · rename_i hm
            cases h
            refine ⟨_, _, _, rfl, hf, ha.setArgs _, keepL_setArgs hg ?_⟩
            have := congrArg Prod.snd hm
            simp only at this
            rw [← this]
            exact matchCall_narrow _ _ _
          · cases h
            exact ⟨_, _, _, rfl, hf, ha, keptL_rfl _⟩
        · split at h
          · cases h
          · split at h
            · rename_i hm
              cases h
              exact ⟨_, _, _, rfl, hf.setCallee _, ha.setArgs _, keepL_setArgs hg (matchSym_spec hm).1⟩
            · cases h
              exact ⟨_, _, _, rfl, hf, ha, keptL_rfl _⟩
      · cases h

theorem chkCall_says (hc : Keeps D chk) (Γ : Env) {f e' : X} {ts : List TyN} {args : List X} {a : Ann} {es : List Err}
    (h : chkCall chk Γ f ts args a = .ok (e', es)) :
    ∃ f' args' a', e' = .call f' ts args' a' ∧ X.Says D f f' ∧ SaysL D args args' ∧ KeptL D args args' := by
  unfold chkCall at h
  split at h
  · cases h
    exact ⟨_, _, _, rfl, .rfl _, saysL_rfl _, keptL_rfl _⟩
  · split at h
    · cases h
    · rename_i f' es1 hf
      have h1 := chkCallee_says hc Γ hf
      split at h
      · cases h
        exact ⟨_, _, _, rfl, h1, saysL_rfl _, keptL_rfl _⟩
      · split at h
        · cases h
          exact ⟨_, _, _, rfl, h1, saysL_rfl _, keptL_rfl _⟩
        · split at h
          · cases h
          · rename_i ha
            cases h
            obtain ⟨h2, h3⟩ := chkArgs_says hc Γ _ _ _ _ ha
            exact ⟨_, _, _, rfl, h1, h2, keptL_step h3 (keptL_rfl _)⟩
          · rename_i ha
            obtain ⟨h2, h3⟩ := chkArgs_says hc Γ _ _ _ _ ha
            obtain ⟨f', args', a', h4, h5, h6, h7⟩ := chkApply_says Γ h1 h2 h
            exact ⟨f', args', a', h4, h5, h6, keptL_step h3 h7⟩

/-! ### Expressions -/

theorem chkElems_says (hc : Keeps D chk) : ∀ (xs : List X) (t0 : Option Ty) (xs' : List X) (es : List Err) (b : Bool),
    chkElems chk t0 xs = .ok (xs', es, b) → SaysL D xs xs'
  | [], t0, xs', es, b, h => by
    simp only [chkElems, Except.ok.injEq, Prod.mk.injEq] at h
    rw [← h.1]
    exact .nil
  | x :: xs, t0, xs', es, b, h => by
    unfold chkElems at h
    split at h
    · cases h
    · rename_i x' es1 hx
      replace h1 := hc.says _ _ _ hx
      split at h
      · cases h
        exact .cons h1 (saysL_rfl xs)
      · split at h
        · cases h
          exact .cons h1 (saysL_rfl xs)
        · split at h
          · cases h
          · rename_i hy
            cases h
            exact .cons h1 (chkElems_says hc xs _ _ _ _ hy)

theorem field_has {n : String} {us : List Ty} {x : String} {l : X} (ht : l.typ = some (.struct n us)) : (D.field n us x).isSome = true ↔ HasField D l x := by
  unfold HasField Decls.field
  constructor
  · intro h
    split at h
    · cases h
    · rename_i d hd
      refine ⟨n, us, d, ht, hd, ?_⟩
      cases hl : d.fields.lookup x with
      | none => simp [hl] at h
      | some t => exact List.mem_map.2 ⟨_, lookup_mem hl, rfl⟩
  · rintro ⟨n', us', d, h1, h2, h3⟩
    rw [ht] at h1
    cases h1
    simp only [h2, Option.isSome_map]
    obtain ⟨⟨y, t⟩, hp, rfl⟩ := List.mem_map.1 h3
    cases hl : d.fields.lookup y with
    | some t => rfl
    | none => simpa using (List.lookup_eq_none_iff.1 hl) _ hp

theorem stepX_says {chk : Env → X → R X} {body : Env → Ty → List S → Except Stop (List S × List Err × Env)} (hc : ∀ Γ, Keeps D (chk Γ))
    (hb : ∀ Γ r ss ss' es Γ', body Γ r ss = .ok (ss', es, Γ') → SaysB D ss ss') (Γ : Env) (e e' : X) (es : List Err)
    (h : stepX D chk body Γ e = .ok (e', es)) : X.Says D e e' := by
  unfold stepX at h
  split at h
  · cases h; exact .lit
  · cases h; exact .ident
  · obtain ⟨f', args', a', rfl, h1, h2, _⟩ := chkCall_says (hc Γ) Γ h
    exact .call h1 h2
  · -- bin
    split at h
    · cases h
    · rename_i l' es1 h1
      split at h
      · cases h
      · rename_i r' es2 h2
        replace h1 := (hc _).says _ _ _ h1
        replace h2 := (hc _).says _ _ _ h2
        split at h
        · split at h
          · cases h; exact .bin h1 h2
          · split at h <;> cases h <;> exact .bin h1 h2
        · cases h; exact .bin h1 h2
  · -- cmp
    split at h
    · cases h
    · rename_i l' es1 h1
      split at h
      · cases h
      · rename_i r' es2 h2
        replace h1 := (hc _).says _ _ _ h1
        replace h2 := (hc _).says _ _ _ h2
        split at h
        · split at h <;> cases h <;> exact .cmp h1 h2
        · cases h; exact .cmp h1 h2
  · -- un
    split at h
    · cases h
    · rename_i l' es1 h1
      replace h1 := (hc _).says _ _ _ h1
      split at h
      · cases h; exact .un h1
      · split at h <;> cases h <;> exact .un h1
  · -- tern
    split at h
    · cases h
    · rename_i c' es1 h1
      replace h1 := (hc _).says _ _ _ h1
      split at h
      · cases h; exact .tern h1 (.rfl _) (.rfl _)
      · split at h
        · cases h; exact .tern h1 (.rfl _) (.rfl _)
        · split at h
          · cases h
          · rename_i x' es2 h2
            replace h2 := (hc _).says _ _ _ h2
            split at h
            · cases h; exact .tern h1 h2 (.rfl _)
            · split at h
              · cases h
              · rename_i y' es3 h3
                replace h3 := (hc _).says _ _ _ h3
                split at h
                · cases h; exact .tern h1 h2 h3
                · split at h <;> cases h <;> exact .tern h1 h2 h3
  · -- arr
    split at h
    · cases h; exact .rfl _
    · split at h
      · cases h
      · rename_i h1
        cases h
        exact .arr (chkElems_says (hc Γ) _ _ _ _ _ h1)
      · rename_i h1
        cases h
        exact .arr (chkElems_says (hc Γ) _ _ _ _ _ h1)
  · -- index
    split at h
    · cases h
    · rename_i l' es1 h1
      split at h
      · cases h
      · rename_i r' es2 h2
        replace h1 := (hc _).says _ _ _ h1
        replace h2 := (hc _).says _ _ _ h2
        split at h
        · split at h
          · cases h; exact .index h1 h2
          · split at h <;> cases h <;> exact .index h1 h2
        · cases h; exact .index h1 h2
  · -- dot
    rename_i l r a
    split at h
    · cases h
    · rename_i l' es1 h1
      have hpl := (hc _).plain _ _ _ h1
      replace h1 := (hc _).says _ _ _ h1
      split at h
      · cases h; exact .dotOpen h1
      · rename_i t ht
        split at h
        · -- call
          rename_i f ts args b
          simp only at h
          split at h
          · cases h
          · rename_i n' es' hn
            cases h
            have meth : ∀ {m es}, chk Γ (.call f ts (l' :: args) a) = .ok (m, es) → ¬ HasField D l' f.name →
                X.Says D (.dot l (.call f ts args b) a) m := by
              intro m es hm hf
              obtain ⟨f', args', a', rfl, h2, h3, h4⟩ := (hc _).call _ _ _ _ _ _ hm
              cases h4 with
              | cons h5 h6 =>
                cases h3 with
                | cons h7 h8 =>
                  obtain ⟨h9, h10⟩ := h5 (by rw [ht]; simp)
                  refine .method (h9 _ h1) ?_ h2 h8
                  rcases hpl with hp | hg
                  · refine .inl ?_
                    rintro ⟨n, us, d, h11, h12⟩
                    exact hf ⟨n, us, d, by rw [← h11, h10 hp], h12⟩
                  · exact .inr hg
            split at hn
            · rename_i n us
              split at hn
              · rename_i hf
                obtain ⟨f', args', a', rfl, h2, h3, h4⟩ := (hc _).call _ _ _ _ _ _ hn
                exact .fieldCall h1 h2 h3
              · rename_i hf
                exact meth hn (fun hh => hf ((field_has ht).2 hh))
            · rename_i hno
              refine meth hn ?_
              rintro ⟨n, us, d, h2, _⟩
              rw [ht] at h2
              exact hno _ _ (Option.some.inj h2)
        · split at h
          · cases h
          · rename_i n' es' hn
            cases h
            exact .fieldIndex h1 ((hc _).says _ _ _ hn)
        · rename_i x b
          cases h
          unfold chkField
          simp only
          split
          · exact .dot h1
          · split
            · exact .dot h1
            · split
              · split <;> exact .dot h1
              · split <;> exact .dot h1
              · exact .dot h1
        · cases h; exact .dotOpen h1
  · -- ty
    cases h; exact .ty
  · -- fnB
    split at h
    · cases h
    · cases h; exact .rfl _
    · split at h
      · cases h
      · cases h
      · rename_i h1
        cases h
        exact .fnB (hb _ _ _ _ _ _ h1)
  · -- fnE
    split at h
    · cases h
    · cases h; exact .rfl _
    · split at h
      · cases h
      · rename_i h1
        cases h
        exact .fnE ((hc _).says _ _ _ h1)

theorem stepX_keeps {chk : Env → X → R X} {body : Env → Ty → List S → Except Stop (List S × List Err × Env)} (hc : ∀ Γ, Keeps D (chk Γ))
    (hb : ∀ Γ r ss ss' es Γ', body Γ r ss = .ok (ss', es, Γ') → SaysB D ss ss') (Γ : Env) : Keeps D (stepX D chk body Γ) where
  says := stepX_says hc hb Γ
  call := fun f ts args a e' es h => chkCall_says (hc Γ) Γ h
  plain := by
    intro e e' es h
    by_cases he : ∃ x a, e' = .ident x a
    · obtain ⟨x, a, rfl⟩ := he
      have h1 := stepX_says hc hb Γ _ _ _ h
      cases h1 with
      | fieldIndex _ h => cases h
      | ident =>
        rename_i a0
        simp only [stepX, chkIdent, Except.ok.injEq, Prod.mk.injEq, X.ident.injEq, true_and] at h
        split at h
        · rename_i s hs
          exact .inr ⟨_, _, rfl, .inr (by simp [hs])⟩
        · rename_i hs
          split at h
          · obtain ⟨rfl, _⟩ := h
            left
            intro y a s hy ha
            cases hy
            rw [hs] at ha
            cases ha
          · rename_i s hl
            split at h
            · obtain ⟨rfl, _⟩ := h
              left
              intro y a s hy ha
              cases hy
              rw [hs] at ha
              cases ha
            · rename_i hn
              obtain ⟨rfl, _⟩ := h
              left
              intro y a s hy ha
              cases hy
              cases ha
              refine ⟨rfl, ?_⟩
              simp at hn
              omega
    · exact .inl fun y a s hy _ => absurd ⟨y, a, hy⟩ he

/-! ### Statements -/

theorem chkVars_names : ∀ (Γ : Env) (vs : List (String × Ann)) (ts : List Ty), (chkVars Γ vs ts).1.map (·.1) = vs.map (·.1)
  | Γ, [], ts => by simp [chkVars]
  | Γ, v :: vs, [] => by simp [chkVars]
  | Γ, (x, a) :: vs, t :: ts => by
    unfold chkVars
    split
    · simp [chkVars_names Γ vs ts]
    · rename_i Γ' _
      simp [chkVars_names Γ' vs ts]

theorem chkCase_says {body : Env → List S → Except Stop (List S × List Err × Env)} (hb : ∀ Γ ss ss' es Γ', body Γ ss = .ok (ss', es, Γ') → SaysB D ss ss')
    (Γ : Env) (bound : Bound) {c c' : Case} {es : List Err} (h : chkCase body Γ bound c = .ok (c', es)) {cs cs' : List Case} (hs : SaysC D cs cs') :
    SaysC D (c :: cs) (c' :: cs') := by
  obtain ⟨x, sym, vs, ss⟩ := c
  simp only [chkCase] at h
  split at h
  · cases h; exact .cons rfl (saysB_rfl _) hs
  · cases h
  · split at h
    · cases h
    · split at h
      · cases h; exact .cons rfl (saysB_rfl _) hs
      · split at h
        · cases h; exact .cons rfl (saysB_rfl _) hs
        · split at h
          · cases h
          · rename_i h1
            cases h
            exact .cons (chkVars_names _ _ _) (hb _ _ _ _ _ h1) hs
    · cases h; exact .cons rfl (saysB_rfl _) hs

theorem chkCases_says {body : Env → List S → Except Stop (List S × List Err × Env)} (hb : ∀ Γ ss ss' es Γ', body Γ ss = .ok (ss', es, Γ') → SaysB D ss ss')
    (Γ : Env) (bound : Bound) : ∀ (cs cs' : List Case) (es : List Err), chkCases body Γ bound cs = .ok (cs', es) → SaysC D cs cs'
  | [], cs', es, h => by
    cases h
    exact .nil
  | c :: cs, cs', es, h => by
    unfold chkCases at h
    split at h
    · cases h
    · rename_i h1
      split at h
      · cases h
      · rename_i h2
        cases h
        exact chkCase_says hb Γ bound h1 (chkCases_says hb Γ bound cs _ _ h2)

theorem chkCh_says {body : Env → List S → Except Stop (List S × List Err × Env)} (hc : Keeps D chk)
    (hb : ∀ Γ ss ss' es Γ', body Γ ss = .ok (ss', es, Γ') → SaysB D ss ss') (Γ : Env) : ∀ (c c' : Ch) (es : List Err),
    chkCh chk body Γ c = .ok (c', es) → Ch.Says D c c'
  | .done, c', es, h => by
    cases h
    exact .done
  | .els ss, c', es, h => by
    unfold chkCh at h
    split at h
    · cases h
    · rename_i h1
      cases h
      exact .els (hb _ _ _ _ _ h1)
  | .cond c ss n, c', es, h => by
    unfold chkCh at h
    split at h
    · cases h
    · rename_i h1
      replace h1 := hc.says _ _ _ h1
      split at h
      · cases h; exact .cond h1 (saysB_rfl _) (.rfl _)
      · split at h
        · cases h; exact .cond h1 (saysB_rfl _) (.rfl _)
        · split at h
          · cases h
          · rename_i h2
            split at h
            · cases h
            · rename_i h3
              cases h
              exact .cond h1 (hb _ _ _ _ _ h2) (chkCh_says hc hb Γ n _ _ h3)

theorem stepS_says {chk : Env → X → R X} {body : Env → List S → Except Stop (List S × List Err × Env)} (hc : ∀ Γ, Keeps D (chk Γ))
    (hb : ∀ Γ ss ss' es Γ', body Γ ss = .ok (ss', es, Γ') → SaysB D ss ss') (Γ : Env) (ret : Ty) {s s' : S} {es : List Err} {Γ' : Env}
    (h : stepS D chk body Γ ret s = .ok (s', es, Γ')) : S.Says D s s' := by
  unfold stepS at h
  split at h
  · split at h
    · cases h
    · rename_i h1
      cases h
      exact .expr ((hc _).says _ _ _ h1)
  · split at h
    · cases h
    · rename_i h1
      replace h1 := (hc _).says _ _ _ h1
      split at h
      · cases h; exact .loop h1 (saysB_rfl _)
      · split at h
        · cases h; exact .loop h1 (saysB_rfl _)
        · split at h
          · cases h
          · rename_i h2
            cases h
            exact .loop h1 (hb _ _ _ _ _ h2)
  · split at h
    · cases h
    · rename_i h1
      replace h1 := (hc _).says _ _ _ h1
      split at h
      · cases h; exact .for_ h1 (saysB_rfl _)
      · simp only at h
        split at h
        · cases h
        · rename_i h2
          cases h
          exact .for_ h1 (hb _ _ _ _ _ h2)
  · split at h
    · cases h
    · rename_i h1
      cases h
      exact .ifs (chkCh_says (hc Γ) hb Γ _ _ _ h1)
  · cases h; exact .ret0
  · split at h
    · cases h
    · rename_i h1
      replace h1 := (hc _).says _ _ _ h1
      split at h <;> cases h <;> exact .ret h1
  · split at h
    · cases h
    · rename_i h1
      replace h1 := (hc _).says _ _ _ h1
      split at h
      · cases h; exact .das (.rfl _) h1
      · split at h
        · split at h
          · cases h; exact .das (.rfl _) h1
          · cases h; exact .das .ident h1
        · cases h; exact .das (.rfl _) h1
  · split at h
    · cases h
    · rename_i h1
      replace h1 := (hc _).says _ _ _ h1
      split at h
      · cases h
      · rename_i h2
        replace h2 := (hc _).says _ _ _ h2
        split at h
        · split at h
          · cases h; exact .asg h2 h1
          · split at h
            · cases h; exact .asg h2 h1
            · split at h <;> cases h <;> exact .asg h2 h1
        · cases h; exact .asg h2 h1
  · split at h
    · cases h
    · rename_i h1
      replace h1 := (hc _).says _ _ _ h1
      split at h
      · cases h; exact .match_ h1 (saysC_rfl _)
      · split at h
        · cases h
        · split at h
          · cases h
          · rename_i h2
            have h2 := chkCases_says hb Γ _ _ _ _ h2
            simp only at h
            split at h <;> cases h <;> exact .match_ h1 h2
      · cases h; exact .match_ h1 (saysC_rfl _)

/-! ### Programs -/

theorem chk_says (D : Decls) : ∀ n : Nat, (∀ Γ, Keeps D (chkX D n Γ)) ∧
    ∀ Γ r ss ss' es Γ', chkB D n Γ r ss = .ok (ss', es, Γ') → SaysB D ss ss'
  | 0 => by
    refine ⟨fun Γ => ⟨fun _ _ _ h => (by cases h), fun _ _ _ _ _ _ h => (by cases h), fun _ _ _ h => (by cases h)⟩, fun Γ r ss ss' es Γ' h => ?_⟩
    cases ss with
    | nil => cases h; exact .nil
    | cons s ss => cases h
  | n + 1 => by
    obtain ⟨h1, h2⟩ := chk_says D n
    refine ⟨fun Γ => stepX_keeps h1 h2 Γ, fun Γ r ss ss' es Γ' h => ?_⟩
    cases ss with
    | nil => cases h; exact .nil
    | cons s ss =>
      unfold chkB at h
      split at h
      · cases h
      · rename_i h3
        split at h
        · cases h
        · rename_i h4
          cases h
          exact .cons (stepS_says h1 (fun Γ => h2 Γ r) Γ r h3) (h2 _ _ _ _ _ _ h4)

theorem chkFn_says {n : Nat} {root : Scope} {f f' : Fn} {es : List Err} (h : chkFn D n root f = .ok (f', es)) :
    f'.ret = f.ret ∧ FnBody.Says D f.body f'.body := by
  unfold chkFn at h
  split at h
  · rename_i hb
    cases h
    exact ⟨rfl, by rw [hb]; exact .none_⟩
  · rename_i hb
    split at h
    · cases h
    · rename_i h1
      cases h
      exact ⟨rfl, by rw [hb]; exact .block ((chk_says D n).2 _ _ _ _ _ _ h1)⟩
  · rename_i hb
    split at h
    · cases h
    · rename_i h1
      cases h
      exact ⟨rfl, by rw [hb]; exact .expr (((chk_says D n).1 _).says _ _ _ h1)⟩

end Clara.Sema.Chk
