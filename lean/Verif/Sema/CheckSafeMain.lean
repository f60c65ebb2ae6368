import Verif.Sema.CheckSafe
set_option linter.unusedVariables false
set_option linter.unusedSimpArgs false
/-
The induction over the checker: nothing but missing fuel stops it.
-/
namespace Clara.Sema.Chk
open Clara.Types

/-- Only missing fuel stops, and a result satisfies `P`. -/
def Sf {α : Type} (P : α → Prop) : Except Stop α → Prop
  | .error s => s = .fuel
  | .ok a => P a

theorem Sf.mono {α : Type} {P Q : α → Prop} {r : Except Stop α} (h : Sf P r) (hq : ∀ a, P a → Q a) : Sf Q r := by
  cases r with
  | error s => exact h
  | ok a => exact hq a h

variable {root : Scope} {C : String → Prop} {D : Decls}

/-! ### Environments -/

theorem envOk_cons {sc : Scope} {Γ : Env} (h : LocOk root C sc) (hΓ : EnvOk root C Γ) : EnvOk root C (sc :: Γ) := by
  obtain ⟨ls, rfl, _, hl⟩ := hΓ
  refine ⟨sc :: ls, rfl, by simp, ?_⟩
  intro sc' hs
  rcases List.mem_cons.1 hs with rfl | hs
  · exact h
  · exact hl sc' hs

theorem locOk_nil : LocOk root C [] := by
  intro x s h; cases h

theorem envOk_new {Γ : Env} (hΓ : EnvOk root C Γ) : EnvOk root C ([] :: Γ) := envOk_cons locOk_nil hΓ

theorem locOk_cons {sc : Scope} {x : String} {s : Sym} (h : LocalOk root C x s) (hs : LocOk root C sc) : LocOk root C ((x, s) :: sc) := by
  intro y t hy
  rw [List.lookup_cons] at hy
  split at hy
  · rename_i he
    have : y = x := by simpa using he
    cases hy; subst this; exact h
  · exact hs y t hy

theorem envOk_define {Γ Γ' : Env} {x : String} {s : Sym} (h : LocalOk root C x s) (hΓ : EnvOk root C Γ) (hd : define Γ x s = some Γ') :
    EnvOk root C Γ' := by
  obtain ⟨_, rfl⟩ := define_some hd
  obtain ⟨ls, rfl, hne, hl⟩ := hΓ
  cases ls with
  | nil => exact absurd rfl hne
  | cons sc ls =>
    refine ⟨((x, s) :: sc) :: ls, rfl, by simp, ?_⟩
    intro sc' hs
    rcases List.mem_cons.1 hs with rfl | hs
    · exact locOk_cons h (hl sc (by simp))
    · exact hl sc' (by simp [hs])

theorem localOk_stack {x : String} {t : Ty} (hx : x ≠ "unsafe") (ht : okTy root t) : LocalOk root C x [stackSym (some t)] := by
  refine ⟨by simp, ⟨?_, .inl (by simp)⟩, ?_, hx, ?_⟩
  · intro a ha u hu; simp at ha; subst ha; cases hu; exact ht
  · intro _ a ha; simp at ha; subst ha; simp [stackSym]
  · intro a ha hat; simp at ha; subst ha; cases hat

theorem localOk_loop {x : String} {o : Option Ty} (hx : x ≠ "unsafe") (hc : ¬ C x) (ht : ∀ t, o = some t → okTy root t) :
    LocalOk root C x [stackSym o] := by
  refine ⟨by simp, ⟨?_, .inl (by simp)⟩, fun h => absurd h hc, hx, ?_⟩
  · intro a ha u hu; simp at ha; subst ha; exact ht u hu
  · intro a ha hat; simp at ha; subst ha; cases hat

theorem envOk_head {sc : Scope} {Γ : Env} (h : EnvOk root C (sc :: Γ)) : LocOk root C sc := by
  obtain ⟨ls, he, hne, hl⟩ := h
  cases ls with
  | nil => exact absurd rfl hne
  | cons sc' ls =>
    simp only [List.cons_append, List.cons.injEq] at he
    rw [he.1]; exact hl sc' (by simp)

theorem envOk_ne {Γ : Env} (h : EnvOk root C Γ) : Γ ≠ [] := by
  obtain ⟨ls, rfl, hne, _⟩ := h
  simp

/-! ### Identifiers and arguments -/

theorem symOk_full {s : Sym} (h : SymOk root s) (ht : Sym.ty s ≠ none) : ∀ b ∈ s, b.ty ≠ none := by
  rcases h.2 with h1 | h1
  · intro b hb
    cases s with
    | nil => cases hb
    | cons a s =>
      cases s with
      | nil =>
        simp at hb
        subst hb
        simpa [Sym.ty] using ht
      | cons _ _ => simp at h1
  · exact h1

theorem symOk_ty {s : Sym} (h : SymOk root s) {t : Ty} (ht : Sym.ty s = some t) : okTy root t := by
  cases s with
  | nil => cases ht
  | cons a s => exact h.1 a (by simp) t (by simpa [Sym.ty] using ht)

theorem chkIdent_safe (hr : RootOk root D) {Γ : Env} (hΓ : EnvOk root C Γ) {x : String} {a : Ann} {p : Place} (hp : p ≠ .field)
    (h : IdOk root p x a) (amb : Bool) : IdOk root .arg x (chkIdent Γ amb x a).1 := by
  unfold chkIdent
  cases hs : a.sym with
  | some s =>
    have h1 := h.ann.2 s hs
    refine ⟨⟨fun t ht => symOk_ty h1 ht, fun s' hs' => ?_⟩, fun _ hx _ => h.hunsafe hp hx (.inl (by rw [hs]; simp)), fun _ ht s' hs' => ?_⟩
    · cases hs'; exact h1
    · cases hs'; exact symOk_full h1 ht
  | none =>
    have same : IdOk root .arg x a := ⟨h.ann, fun _ hx hn => h.hunsafe hp hx hn, fun _ _ s' hs' => by rw [hs] at hs'; cases hs'⟩
    simp only
    cases hl : lookup Γ x with
    | none => exact same
    | some s =>
      simp only
      split
      · exact same
      · obtain ⟨_, h1, _, h3⟩ := envOk_lookup hr hΓ hl
        refine ⟨⟨fun t ht => symOk_ty h1 ht, fun s' hs' => ?_⟩, fun _ hx _ => ?_, fun _ ht s' hs' => ?_⟩
        · cases hs'; exact h1
        · have h3 := h3 hx
          subst hx
          rw [h3]; simp
        · cases hs'; exact symOk_full h1 ht

theorem nice_callee {x : X} (h : x.nice root C .arg) : x.nice root C .callee := by
  cases x
  case ident =>
    simp only [X.nice] at h ⊢
    exact ⟨h.ann, fun _ => h.hunsafe (by simp), fun h => by cases h⟩
  all_goals (simp only [X.nice] at h ⊢; exact h)

theorem allSome_of : ∀ {s : Sym}, (∀ b ∈ s, b.ty ≠ none) → ∃ ts, allSome (s.map Alt.ty) = some ts
  | [], _ => ⟨[], rfl⟩
  | a :: s, h => by
    obtain ⟨ts, hts⟩ := allSome_of (s := s) (fun b hb => h b (by simp [hb]))
    cases ha : a.ty with
    | none => exact absurd ha (h a (by simp))
    | some t => exact ⟨t :: ts, by simp [ha, allSome, hts]⟩

theorem allSome_okTys {s : Sym} (hs : SymOk root s) {ts : List Ty} (h : allSome (s.map Alt.ty) = some ts) : okTys root ts := by
  rw [okTys_iff]
  intro t ht
  have h1 := allSome_map h
  have : some t ∈ s.map Alt.ty := by rw [h1]; exact List.mem_map_of_mem ht
  obtain ⟨a, ha, hat⟩ := List.mem_map.1 this
  exact hs.1 a ha t hat

theorem nice_arg {x : X} (h : x.nice root C .arg) (ht : x.typ ≠ none) : ∃ g, x.arg = some g ∧ okArg root g := by
  have gen : ∀ t, x.typ = some t → okArg root ⟨t, []⟩ := fun t ht => ⟨nice_typ h ht, by simp [okTys]⟩
  obtain ⟨t, ht⟩ := Option.ne_none_iff_exists'.1 ht
  cases x
  case ident n a _ =>
    simp only [X.nice] at h
    have hta : a.typ = some t := ht
    simp only [X.arg, hta]
    cases hs : a.sym with
    | none => exact ⟨_, rfl, gen t ht⟩
    | some s =>
      obtain ⟨ts, hts⟩ := allSome_of (h.full rfl (by rw [hta]; simp) s hs)
      exact ⟨⟨t, ts⟩, by simp [hts], h.ann.1 t hta, allSome_okTys (h.ann.2 s hs) hts⟩
  all_goals exact ⟨⟨t, []⟩, by simp [X.arg, ht], gen t ht⟩

theorem nice_setArg {x : X} (h : x.nice root C .arg) {g g' : Arg} (hg : x.arg = some g) (hok : okArg root g) (hn : Narrowed g g') :
    (x.setArg g').nice root C .arg := by
  cases x
  case ident n a =>
    simp only [X.nice] at h
    simp only [X.arg] at hg
    simp only [X.setArg, X.nice]
    have hok' := okArg_narrow hn hok
    split at hg
    · rename_i t s ht hs
      simp only [Option.map_eq_some_iff] at hg
      obtain ⟨ts, hts, rfl⟩ := hg
      have hfull := h.full rfl (by rw [ht]; simp) s hs
      have hsok := h.ann.2 s hs
      refine ⟨⟨fun u hu => by cases hu; exact hok'.1, fun s' hs' => ?_⟩, fun hp hx _ => h.hunsafe hp hx (.inr (by rw [ht]; simp)), fun _ _ s' hs' => ?_⟩
      · rw [hs] at hs'
        simp only [Option.map_some, Option.some.injEq] at hs'
        subst hs'
        exact ⟨fun b hb => hsok.1 b (List.mem_of_mem_drop hb), .inr (fun b hb => hfull b (List.mem_of_mem_drop hb))⟩
      · rw [hs] at hs'
        simp only [Option.map_some, Option.some.injEq] at hs'
        subst hs'
        exact fun b hb => hfull b (List.mem_of_mem_drop hb)
    · rename_i t ht hs
      refine ⟨⟨fun u hu => by cases hu; exact hok'.1, fun s' hs' => ?_⟩, fun hp hx hne => h.hunsafe hp hx (.inr (by rw [ht]; simp)), fun _ _ s' hs' => ?_⟩
      · rw [hs] at hs'; cases hs'
      · rw [hs] at hs'; cases hs'
    · cases hg
  all_goals exact h

theorem nice_allArgs : ∀ {xs : List X}, niceL root C xs → (∀ x ∈ xs, x.typ ≠ none) → ∃ gs, allArgs xs = some gs ∧ ∀ g ∈ gs, okArg root g
  | [], _, _ => ⟨[], rfl, by simp⟩
  | x :: xs, h, ht => by
    simp only [niceL] at h
    obtain ⟨g, h1, h2⟩ := nice_arg h.1 (ht x (by simp))
    obtain ⟨gs, h3, h4⟩ := nice_allArgs h.2 (fun y hy => ht y (by simp [hy]))
    refine ⟨g :: gs, by simp [allArgs, h1, h3], ?_⟩
    intro y hy
    rcases List.mem_cons.1 hy with rfl | hy
    · exact h2
    · exact h4 y hy

theorem nice_setArgs : ∀ {xs : List X} {gs gs' : List Arg}, niceL root C xs → allArgs xs = some gs → (∀ g ∈ gs, okArg root g) →
    All₂ Narrowed gs gs' → niceL root C (setArgs xs gs')
  | [], gs, gs', h, _, _, _ => by unfold setArgs; simp [niceL]
  | x :: xs, gs, gs', h, ha, hok, hn => by
    simp only [niceL] at h
    simp only [allArgs] at ha
    split at ha
    · rename_i g gs1 h1 h2
      cases ha
      cases hn with
      | cons hn1 hn2 =>
        simp only [setArgs, niceL]
        exact ⟨nice_setArg h.1 h1 (hok g (by simp)) hn1, nice_setArgs h.2 h2 (fun g hg => hok g (by simp [hg])) hn2⟩
    · cases ha

theorem chkArgs_sf (hr : RootOk root D) {chk : X → R X} (hc : ∀ x, x.nice root C .arg → Sf (fun r => r.1.nice root C .arg) (chk x))
    {Γ : Env} (hΓ : EnvOk root C Γ) : ∀ {xs : List X}, niceL root C xs →
    Sf (fun r => niceL root C r.1 ∧ (r.2.2 = true → ∀ x ∈ r.1, x.typ ≠ none)) (chkArgs chk Γ xs)
  | [], _ => by simp [chkArgs, Sf, niceL]
  | x :: xs, h => by
    simp only [niceL] at h
    have ih := chkArgs_sf hr hc hΓ h.2
    unfold chkArgs
    split
    · rename_i ht
      cases hq : chkArgs chk Γ xs with
      | error s => rw [hq] at ih; exact ih
      | ok r =>
        rw [hq] at ih
        simp only [Sf, niceL] at ih ⊢
        refine ⟨⟨h.1, ih.1⟩, fun hb y hy => ?_⟩
        rcases List.mem_cons.1 hy with rfl | hy
        · intro h0; rw [h0] at ht; cases ht
        · exact ih.2 hb y hy
    · rename_i ht
      clear ht
      have h2 := h.2
      have h1 := h.1
      clear h
      have hx0 : ∀ y : X, y.nice root C .arg → Sf (fun r : X × List Err => r.1.nice root C .arg)
          (match y with | .ident n a => let r := chkIdent Γ true n a; .ok (.ident n r.1, r.2) | x => chk x : R X) := by
        intro y hy
        cases y
        case ident n a =>
          simp only [Sf, X.nice]
          exact chkIdent_safe hr hΓ (p := .arg) (by simp) (by simpa only [X.nice] using hy) true
        all_goals exact hc _ hy
      have hx := hx0 x h1
      split
      · rename_i s hs
        have hx : Sf (fun r : X × List Err => r.1.nice root C .arg) (.error s) := by rw [← hs]; exact hx
        exact hx
      · rename_i x' es hs
        have hx : Sf (fun r : X × List Err => r.1.nice root C .arg) (.ok (x', es)) := by rw [← hs]; exact hx
        split
        · simp only [Sf, niceL] at hx ⊢
          exact ⟨⟨hx, h2⟩, by simp⟩
        · rename_i hty
          cases hq : chkArgs chk Γ xs with
          | error s => rw [hq] at ih; exact ih
          | ok r =>
            rw [hq] at ih
            simp only [Sf, niceL] at ih hx ⊢
            refine ⟨⟨hx, ih.1⟩, fun hb y hy => ?_⟩
            rcases List.mem_cons.1 hy with rfl | hy
            · intro h0; rw [h0] at hty; simp at hty
            · exact ih.2 hb y hy

/-! ### Calls -/

theorem nice_setCallee {f : X} (h : f.nice root C .callee) {o : Option Sym} (hs : ∀ s, o = some s → SymOk root s)
    (hu : f.name = "unsafe" → root.lookup "unsafe" ≠ none) : (setCallee f o).nice root C .callee := by
  cases f
  case ident x a =>
    simp only [setCallee, X.nice] at h ⊢
    exact ⟨⟨h.ann.1, hs⟩, fun _ hx _ => hu hx, fun h => by cases h⟩
  all_goals exact h

theorem nice_unsafe {f : X} (h : f.nice root C .arg) (ht : f.typ ≠ none) (hn : f.name = "unsafe") : root.lookup "unsafe" ≠ none := by
  cases f
  case ident x a =>
    simp only [X.nice] at h
    exact h.hunsafe (by simp) hn (.inr ht)
  all_goals simp [X.name] at hn

theorem calleeSym_ok {f : X} (h : f.nice root C .arg) (ht : f.typ ≠ none) {s : Sym} (hs : calleeSym f = some s) :
    SymOk root s ∧ ∀ b ∈ s, b.ty ≠ none := by
  unfold calleeSym at hs
  split at hs
  · simp only [X.nice] at h
    exact ⟨h.ann.2 s hs, h.full rfl ht s hs⟩
  · rename_i i _ _
    simp only [X.nice] at h
    have hi := h.2.1 i rfl
    cases hs
    refine ⟨⟨?_, .inl (by simp)⟩, ?_⟩
    · intro a ha t hat
      simp at ha; subst ha; cases hat
      simp only [okTy]; exact ⟨hi.params, hi.ret⟩
    · intro a ha; simp at ha; subst ha; simp [plainSym]
  · cases hs

theorem symOk_drop {s : Sym} (h : SymOk root s) (hf : ∀ b ∈ s, b.ty ≠ none) (k : Nat) : SymOk root (s.drop k) :=
  ⟨fun b hb => h.1 b (List.mem_of_mem_drop hb), .inr fun b hb => hf b (List.mem_of_mem_drop hb)⟩

theorem matchSym_okTy : ∀ {fs tys : List Ty} {gs : List Arg} {k : Nat} {ret : Ty} {gs' : List Arg},
    matchSym fs tys gs = some (k, ret, gs') → okTys root fs → okTys root tys → (∀ g ∈ gs, okArg root g) → okTy root ret
  | [], tys, gs, k, ret, gs', h, _, _, _ => by simp [matchSym] at h
  | f :: fs, tys, gs, k, ret, gs', h, hf, ht, hg => by
    simp only [okTys] at hf
    have hn := matchCall_narrow f tys gs
    simp only [matchSym] at h
    split at h
    · rename_i ret1 args' hm
      simp only [Option.some.injEq, Prod.mk.injEq] at h
      obtain ⟨rfl, rfl, rfl⟩ := h
      exact matchCall_okTy hm hf.1 ht hg
    · rename_i e args' hm
      rw [hm] at hn
      simp only [Option.map_eq_some_iff] at h
      obtain ⟨⟨k', r'⟩, h1, h2⟩ := h
      simp only [Prod.mk.injEq] at h2
      obtain ⟨rfl, rfl⟩ := h2
      exact matchSym_okTy h1 hf.2 ht (okArgs_narrow hn hg)

theorem niceL_mem {xs : List X} (h : niceL root C xs) : ∀ x ∈ xs, x.nice root C .arg := by
  induction xs with
  | nil => simp
  | cons y xs ih =>
    simp only [niceL] at h
    intro x hx
    rcases List.mem_cons.1 hx with rfl | hx
    · exact h.1
    · exact ih h.2 x hx

theorem chkApply_sf (hr : RootOk root D) {Γ : Env} (hΓ : EnvOk root C Γ) {f : X} (hf : f.nice root C .arg) (hft : f.typ ≠ none)
    (ts : List TyN) {tys : List Ty} (htys : okTys root tys) {args : List X} (ha : niceL root C args) (hat : ∀ x ∈ args, x.typ ≠ none)
    {a : Ann} (hann : AnnOk root a) (es : List Err) : Sf (fun r => r.1.nice root C .arg) (chkApply Γ f ts tys args a es) := by
  have hun := nice_unsafe hf hft
  unfold chkApply
  split
  · rename_i hn
    simp only [Sf, X.nice]
    exact ⟨nice_setCallee (nice_callee hf) (fun s hs => (envOk_lookup hr hΓ hs).2.1) hun, ha, hann.typ (by simp [okTy])⟩
  · split
    · rename_i hn
      obtain ⟨s, hs⟩ := Option.ne_none_iff_exists'.1 (hun hn)
      obtain ⟨d, ps, r, hty⟩ := hr.hunsafe s hs
      have hl := envOk_unsafe hΓ hs
      rw [hn, hl]
      simp only [hty]
      split
      · rename_i x1 x2 x3
        simp only [Sf, X.nice]
        refine ⟨nice_setCallee (nice_callee hf) (fun s' hs' => ?_) hun, ha, ?_, hann.2⟩
        · cases hs'; exact (envOk_lookup hr hΓ hl).2.1
        · intro t ht
          exact nice_typ (niceL_mem ha x3 (by simp)) ht
      · simp only [Sf, X.nice]
        exact ⟨nice_callee hf, ha, hann⟩
    · rename_i hn1 hn
      obtain ⟨gs, hgs, hgok⟩ := nice_allArgs ha hat
      obtain ⟨t, ht⟩ := Option.ne_none_iff_exists'.1 hft
      rw [hgs, ht]
      simp only
      split
      · split
        · rename_i ret gs' hm
          have hnar := matchCall_narrow t tys gs
          rw [hm] at hnar
          simp only [Sf, X.nice]
          exact ⟨nice_callee hf, nice_setArgs ha hgs hgok hnar, hann.typ (matchCall_okTy hm (nice_typ hf ht) htys hgok)⟩
        · simp only [Sf, X.nice]
          exact ⟨nice_callee hf, ha, hann⟩
      · rename_i s hs
        obtain ⟨h1, h2⟩ := calleeSym_ok hf hft hs
        obtain ⟨fs, hfs⟩ := allSome_of h2
        rw [hfs]
        simp only
        split
        · rename_i k ret gs' hm
          simp only [Sf, X.nice]
          refine ⟨nice_setCallee (nice_callee hf) (fun s' hs' => ?_) hun, nice_setArgs ha hgs hgok (matchSym_spec hm).1,
            hann.typ (matchSym_okTy hm (allSome_okTys h1 hfs) htys hgok)⟩
          cases hs'; exact symOk_drop h1 h2 k
        · simp only [Sf, X.nice]
          exact ⟨nice_callee hf, ha, hann⟩

theorem chkCall_sf (hr : RootOk root D) {chk : X → R X} (hc : ∀ x, x.nice root C .arg → Sf (fun r => r.1.nice root C .arg) (chk x))
    {Γ : Env} (hΓ : EnvOk root C Γ) {f : X} {ts : List TyN} {args : List X} {a : Ann} (h : (X.call f ts args a).nice root C .arg) :
    Sf (fun r => r.1.nice root C .arg) (chkCall chk Γ f ts args a) := by
  have h0 := h
  simp only [X.nice] at h
  unfold chkCall
  split
  · exact h0
  · have hf : Sf (fun r : X × List Err => r.1.nice root C .arg) (chkCallee chk Γ f) := by
      unfold chkCallee
      cases f
      case ident x b =>
        simp only [Sf, X.nice] at h ⊢
        exact chkIdent_safe hr hΓ (p := .callee) (by simp) h.1 true
      case fnB => exact hc _ (by simpa only [X.nice] using h.1)
      case dot => exact hc _ (by simpa only [X.nice] using h.1)
      case call => exact hc _ (by simpa only [X.nice] using h.1)
      case index => exact hc _ (by simpa only [X.nice] using h.1)
      all_goals (simp only [Sf, X.nice] at h ⊢; exact h.1)
    have hargs := chkArgs_sf hr hc hΓ h.2.1
    cases hq : chkCallee chk Γ f with
    | error s => rw [hq] at hf; exact hf
    | ok r =>
      obtain ⟨f', es⟩ := r
      rw [hq] at hf
      simp only [Sf] at hf
      simp only
      split
      · simp only [Sf, X.nice]
        exact ⟨nice_callee hf, h.2⟩
      · rename_i hft
        cases hta : typeArgs Γ ts with
        | error es' => simp only [Sf, X.nice]; exact ⟨nice_callee hf, h.2⟩
        | ok tys =>
          simp only
          cases hq : chkArgs chk Γ args with
          | error s => rw [hq] at hargs; exact hargs
          | ok r =>
            obtain ⟨args', es', b⟩ := r
            rw [hq] at hargs
            simp only [Sf] at hargs
            cases b with
            | false => simp only [Sf, X.nice]; exact ⟨nice_callee hf, hargs.1, h.2.2⟩
            | true =>
              exact chkApply_sf hr hΓ hf (by intro h0; rw [h0] at hft; simp at hft) ts (typeArgs_okTy (envOk_tenv hr hΓ) hta)
                hargs.1 (hargs.2 rfl) h.2.2 _

theorem chkElems_sf {chk : X → R X} (hc : ∀ x, x.nice root C .arg → Sf (fun r => r.1.nice root C .arg) (chk x)) :
    ∀ {xs : List X} (t : Option Ty), niceL root C xs → Sf (fun r => niceL root C r.1) (chkElems chk t xs)
  | [], _, _ => by simp [chkElems, Sf, niceL]
  | x :: xs, t, h => by
    simp only [niceL] at h
    have hx := hc x h.1
    unfold chkElems
    cases hq : chk x with
    | error s => rw [hq] at hx; exact hx
    | ok r =>
      obtain ⟨x', es⟩ := r
      rw [hq] at hx
      simp only [Sf] at hx
      simp only
      split
      · simp only [Sf, niceL]; exact ⟨hx, h.2⟩
      · rename_i t' _
        split
        · simp only [Sf, niceL]; exact ⟨hx, h.2⟩
        · have ih := chkElems_sf hc (some (t.getD t')) h.2
          cases hq : chkElems chk (some (t.getD t')) xs with
          | error s => rw [hq] at ih; exact ih
          | ok r => rw [hq] at ih; simp only [Sf, niceL] at ih ⊢; exact ⟨hx, ih⟩

theorem field_okTy (hr : RootOk root D) {n : String} {ts : List Ty} (hts : okTys root ts) {x : String} {t : Ty} (h : D.field n ts x = some t) :
    okTy root t := by
  unfold Decls.field at h
  split at h
  · cases h
  · rename_i d hd
    simp only [Option.map_eq_some_iff] at h
    obtain ⟨u, hu, rfl⟩ := h
    refine okTy_subst ?_ u (hr.fields n d hd (x, u) (lookup_mem hu))
    intro e he
    exact okTys_iff.1 hts _ (List.of_mem_zip he).2

theorem chkField_sf (hr : RootOk root D) {l : X} (hl : l.nice root C .arg) {t : Ty} (ht : okTy root t) {x : String} {b a : Ann}
    (hb : (X.ident x b).nice root C .field) (ha : AnnOk root a) : (chkField D l t x b a).1.nice root C .arg := by
  have hbad : (X.dot l (.ident x b) a).nice root C .arg := by
    simp only [X.nice] at hb ⊢
    exact ⟨hl, hb, ha⟩
  have hsel : ∀ t, okTy root t → (X.dot l (.ident x ⟨some t, some [plainSym (some t)]⟩) ⟨some t, a.sym⟩).nice root C .arg := by
    intro t ht
    simp only [X.nice]
    refine ⟨hl, ⟨⟨fun u hu => by cases hu; exact ht, fun s hs => ?_⟩, fun h => absurd rfl h, fun h => by cases h⟩, ha.typ ht⟩
    cases hs
    refine ⟨fun c hc u hu => ?_, .inl (by simp)⟩
    simp at hc; subst hc; cases hu; exact ht
  have hin : ∀ n ts, okTys root ts → (match D.field n ts x with
      | none => ((X.dot l (.ident x b) a, [Err.noField]) : X × List Err)
      | some t => (.dot l (.ident x ⟨some t, some [plainSym (some t)]⟩) ⟨some t, a.sym⟩, [])).1.nice root C .arg := by
    intro n ts hts
    split
    · exact hbad
    · rename_i t hf; exact hsel t (field_okTy hr hts hf)
  unfold chkField
  simp only
  split
  · exact hsel _ (by simp [okTy])
  · split
    · exact hsel _ (by simp [okTy])
    · split
      · simp only [okTy] at ht; exact hin _ _ ht
      · simp only [okTy] at ht; exact hin _ _ ht.2
      · exact hbad

theorem info_safe (hr : RootOk root D) {Γ : Env} (hΓ : EnvOk root C Γ) {hd : Head} (hh : hd.tame (ArityAt root)) (b : Bool) (info : Option FnInfo) :
    (∀ i, info = some i → InfoOk root C i) →
    (∃ e, (match info with | some i => .ok (.ok i) | none => signature Γ hd b : Except Stop (Except Err FnInfo)) = .ok (.error e)) ∨
    ∃ i, (match info with | some i => .ok (.ok i) | none => signature Γ hd b : Except Stop (Except Err FnInfo)) = .ok (.ok i) ∧ InfoOk root C i := by
  intro hi
  cases info with
  | none => exact signature_safe hr hΓ hh _
  | some i => exact .inr ⟨i, rfl, hi i rfl⟩

theorem stepX_sf (hr : RootOk root D) {chk : Env → X → R X} {body : Env → Ty → List S → Except Stop (List S × List Err × Env)}
    (hc : ∀ Γ x, EnvOk root C Γ → x.nice root C .arg → Sf (fun r => r.1.nice root C .arg) (chk Γ x))
    (hb : ∀ Γ t ss, EnvOk root C Γ → niceB root C ss → Sf (fun r => niceB root C r.1 ∧ EnvOk root C r.2.2) (body Γ t ss))
    {Γ : Env} (hΓ : EnvOk root C Γ) {e : X} (h : e.nice root C .arg) : Sf (fun r => r.1.nice root C .arg) (stepX D chk body Γ e) := by
  cases e with
  | lit k a =>
    simp only [X.nice] at h
    refine h.typ ?_
    cases k <;> simp [litTy, okTy]
  | ident x a =>
    simp only [X.nice] at h
    exact chkIdent_safe hr hΓ (by simp) h false
  | call f ts args a => exact chkCall_sf hr (fun x hx => hc Γ x hΓ hx) hΓ h
  | ty t a =>
    simp only [X.nice] at h
    unfold stepX
    simp only
    exact ⟨fun u hu => instTy_okTy (envOk_tenv hr hΓ) t [] u hu, h.2⟩
  | bin op l r a =>
    simp only [X.nice] at h
    have h1 := hc Γ l hΓ h.1
    have h2 := hc Γ r hΓ h.2.1
    unfold stepX
    simp only
    cases hq : chk Γ l with
    | error s => rw [hq] at h1; exact h1
    | ok r1 =>
      rw [hq] at h1
      simp only
      cases hq' : chk Γ r with
      | error s => rw [hq'] at h2; exact h2
      | ok r2 =>
        rw [hq'] at h2
        simp only [Sf] at h1 h2
        simp only
        repeat' split
        all_goals first
          | exact ⟨h1, h2, h.2.2⟩
          | exact ⟨h1, h2, h.2.2.typ (by simp [okTy])⟩
  | cmp op l r a =>
    simp only [X.nice] at h
    have h1 := hc Γ l hΓ h.1
    have h2 := hc Γ r hΓ h.2.1
    unfold stepX
    simp only
    cases hq : chk Γ l with
    | error s => rw [hq] at h1; exact h1
    | ok r1 =>
      rw [hq] at h1
      simp only
      cases hq' : chk Γ r with
      | error s => rw [hq'] at h2; exact h2
      | ok r2 =>
        rw [hq'] at h2
        simp only [Sf] at h1 h2
        simp only
        repeat' split
        all_goals first
          | exact ⟨h1, h2, h.2.2⟩
          | exact ⟨h1, h2, h.2.2.typ (by simp [okTy])⟩
  | index l r a =>
    simp only [X.nice] at h
    have h1 := hc Γ l hΓ h.1
    have h2 := hc Γ r hΓ h.2.1
    unfold stepX
    simp only
    cases hq : chk Γ l with
    | error s => rw [hq] at h1; exact h1
    | ok r1 =>
      rw [hq] at h1
      simp only
      cases hq' : chk Γ r with
      | error s => rw [hq'] at h2; exact h2
      | ok r2 =>
        rw [hq'] at h2
        simp only [Sf] at h1 h2
        simp only
        split
        · rename_i t u ht hu
          split
          · exact ⟨h1, h2, h.2.2⟩
          · split
            · have := nice_typ h1 ht
              simp only [okTy] at this
              exact ⟨h1, h2, h.2.2.typ this⟩
            · exact ⟨h1, h2, h.2.2⟩
        · exact ⟨h1, h2, h.2.2⟩
  | un op l a =>
    simp only [X.nice] at h
    have h1 := hc Γ l hΓ h.1
    unfold stepX
    simp only
    cases hq : chk Γ l with
    | error s => rw [hq] at h1; exact h1
    | ok r1 =>
      rw [hq] at h1
      simp only [Sf] at h1
      simp only
      repeat' split
      all_goals first
        | exact ⟨h1, h.2⟩
        | exact ⟨h1, h.2.typ (by simp [okTy])⟩
  | tern c x y a =>
    simp only [X.nice] at h
    have h1 := hc Γ c hΓ h.1
    have h2 := hc Γ x hΓ h.2.1
    have h3 := hc Γ y hΓ h.2.2.1
    have h4 := h.2.2.2
    unfold stepX
    simp only
    cases hq : chk Γ c with
    | error s => rw [hq] at h1; exact h1
    | ok r1 =>
      rw [hq] at h1
      simp only [Sf] at h1
      simp only
      split
      · exact ⟨h1, h.2⟩
      · split
        · exact ⟨h1, h.2⟩
        · cases hq : chk Γ x with
          | error s => rw [hq] at h2; exact h2
          | ok r2 =>
            rw [hq] at h2
            simp only [Sf] at h2
            simp only
            split
            · exact ⟨h1, h2, h.2.2⟩
            · rename_i tx htx
              cases hq : chk Γ y with
              | error s => rw [hq] at h3; exact h3
              | ok r3 =>
                rw [hq] at h3
                simp only [Sf] at h3
                simp only
                repeat' split
                all_goals first
                  | exact ⟨h1, h2, h3, h4⟩
                  | exact ⟨h1, h2, h3, h4.typ (nice_typ h2 htx)⟩
  | arr es a =>
    have h0 := h
    simp only [X.nice] at h
    have h1 := chkElems_sf (fun x hx => hc Γ x hΓ hx) none h.1
    unfold stepX
    simp only
    split
    · exact h0
    · cases hq : chkElems (chk Γ) none es with
      | error s => rw [hq] at h1; exact h1
      | ok r1 =>
        obtain ⟨xs, es', b⟩ := r1
        rw [hq] at h1
        simp only [Sf] at h1
        cases b with
        | false => exact ⟨h1, h.2⟩
        | true =>
          refine ⟨h1, ⟨fun t ht => ?_, h.2.2⟩⟩
          simp only [Option.map_eq_some_iff] at ht
          obtain ⟨u, hu, rfl⟩ := ht
          cases xs with
          | nil => simp at hu
          | cons x xs =>
            simp only [niceL] at h1
            simp only [okTy]
            exact nice_typ h1.1 (by simpa using hu)
  | dot l r a =>
    simp only [X.nice] at h
    obtain ⟨hl, hri, ha⟩ := h
    have h1 := hc Γ l hΓ hl
    unfold stepX
    simp only
    cases hq : chk Γ l with
    | error s => rw [hq] at h1; exact h1
    | ok r1 =>
      obtain ⟨l', es⟩ := r1
      rw [hq] at h1
      simp only [Sf] at h1
      simp only
      split
      · exact ⟨h1, hri, ha⟩
      · rename_i t ht
        split
        · rename_i f ts args b
          simp only [X.nice] at hri
          have key : ∀ nd : X, nd.nice root C .arg → Sf (fun r : X × List Err => r.1.nice root C .arg)
              (match chk Γ nd with | .error s => .error s | .ok (n, es') => .ok (n, es ++ es')) := by
            intro nd hn
            have h2 := hc Γ nd hΓ hn
            cases hq : chk Γ nd with
            | error s => rw [hq] at h2; exact h2
            | ok r2 => rw [hq] at h2; exact h2
          have hcall : (X.call f ts (l' :: args) a).nice root C .arg := by
            simp only [X.nice, niceL]
            exact ⟨hri.1, ⟨h1, hri.2.1⟩, ha⟩
          apply key
          split
          · split
            · simp only [X.nice]
              exact ⟨⟨h1, nice_field hri.1, ⟨fun t ht => (by cases ht), fun s hs => (by cases hs)⟩⟩, hri.2.1, ha⟩
            · exact hcall
          · exact hcall
        · rename_i f i b
          simp only [X.nice] at hri
          have hn : (X.index (.dot l' f {}) i a).nice root C .arg := by
            simp only [X.nice]
            exact ⟨⟨h1, nice_field hri.1, ⟨fun t ht => (by cases ht), fun s hs => (by cases hs)⟩⟩, hri.2.1, ha⟩
          have h2 := hc Γ _ hΓ hn
          cases hq : chk Γ (.index (.dot l' f {}) i a) with
          | error s => rw [hq] at h2; exact h2
          | ok r2 => rw [hq] at h2; exact h2
        · rename_i x b
          exact chkField_sf hr h1 (nice_typ h1 ht) hri ha
        · exact ⟨h1, hri, ha⟩
  | fnB hd info ss a =>
    have h0 := h
    simp only [X.nice] at h
    obtain ⟨hh, hi, hss, ha⟩ := h
    have hsig := info_safe hr hΓ hh (bodyTerm ss) info hi
    unfold stepX
    simp only
    split
    · rename_i s hs
      rcases hsig with ⟨e, he⟩ | ⟨i, he, hio⟩
      · have := hs.symm.trans he; cases this
      · have := hs.symm.trans he; cases this
    · exact h0
    · rename_i i hs
      have hio : InfoOk root C i := by
        rcases hsig with ⟨e, he⟩ | ⟨j, he, hio⟩
        · have := hs.symm.trans he; cases this
        · have := hs.symm.trans he; cases this; exact hio
      have h1 := hb (i.own :: Γ) i.ty.2.2 ss (envOk_cons hio.own hΓ) hss
      split
      · rename_i s h2; rw [h2] at h1; exact h1
      · rename_i h2; rw [h2] at h1; exact absurd rfl (envOk_ne h1.2)
      · rename_i own' _ h2
        rw [h2] at h1
        refine ⟨hh, fun j hj => ?_, h1.1, ha.typ (by simp only [okTy]; exact ⟨hio.params, hio.ret⟩)⟩
        cases hj
        exact ⟨hio.params, hio.ret, envOk_head h1.2⟩
  | fnE hd info e a =>
    have h0 := h
    simp only [X.nice] at h
    obtain ⟨hh, hi, hss, ha⟩ := h
    have hsig := info_safe hr hΓ hh true info hi
    unfold stepX
    simp only
    split
    · rename_i s hs
      rcases hsig with ⟨e, he⟩ | ⟨i, he, hio⟩
      · have := hs.symm.trans he; cases this
      · have := hs.symm.trans he; cases this
    · exact h0
    · rename_i i hs
      have hio : InfoOk root C i := by
        rcases hsig with ⟨e, he⟩ | ⟨j, he, hio⟩
        · have := hs.symm.trans he; cases this
        · have := hs.symm.trans he; cases this; exact hio
      have h1 := hc (i.own :: Γ) e (envOk_cons hio.own hΓ) hss
      split
      · rename_i s h2; rw [h2] at h1; exact h1
      · rename_i h2
        rw [h2] at h1
        refine ⟨hh, fun j hj => ?_, h1, ha.typ (by simp only [okTy]; exact ⟨hio.params, hio.ret⟩)⟩
        cases hj
        exact hio

/-! ### Statements -/

theorem chkVars_sf : ∀ {vs : List (String × Ann)} {ts : List Ty} {Γ : Env}, EnvOk root C Γ → (∀ v ∈ vs, v.1 ≠ "unsafe") → okTys root ts →
    EnvOk root C (chkVars Γ vs ts).2.2 ∧ ∀ v ∈ (chkVars Γ vs ts).1, v.1 ≠ "unsafe"
  | [], ts, Γ, hΓ, hv, ht => by simp [chkVars, hΓ]
  | (x, a) :: vs, [], Γ, hΓ, hv, ht => by simp only [chkVars]; exact ⟨hΓ, hv⟩
  | (x, a) :: vs, t :: ts, Γ, hΓ, hv, ht => by
    simp only [okTys] at ht
    have hx : x ≠ "unsafe" := hv (x, a) (by simp)
    have hv' : ∀ v ∈ vs, v.1 ≠ "unsafe" := fun v hm => hv v (by simp [hm])
    simp only [chkVars]
    split
    · obtain ⟨h1, h2⟩ := chkVars_sf hΓ hv' ht.2
      refine ⟨h1, ?_⟩
      intro v hm
      rcases List.mem_cons.1 hm with rfl | hm
      · exact hx
      · exact h2 v hm
    · rename_i Γ' hd
      obtain ⟨h1, h2⟩ := chkVars_sf (envOk_define (localOk_stack hx ht.1) hΓ hd) hv' ht.2
      refine ⟨h1, ?_⟩
      intro v hm
      rcases List.mem_cons.1 hm with rfl | hm
      · exact hx
      · exact h2 v hm

theorem okTys_map_subst {b : Bound} (hb : boundOk root b) {ps : List Ty} (h : okTys root ps) : okTys root (ps.map (Ty.subst b)) := by
  rw [okTys_iff] at h ⊢
  intro t ht
  obtain ⟨u, hu, rfl⟩ := List.mem_map.1 ht
  exact okTy_subst hb u (h u hu)

theorem chkCase_sf (hr : RootOk root D) {body : Env → List S → Except Stop (List S × List Err × Env)}
    (hb : ∀ Γ ss, EnvOk root C Γ → niceB root C ss → Sf (fun r => niceB root C r.1 ∧ EnvOk root C r.2.2) (body Γ ss))
    {Γ : Env} (hΓ : EnvOk root C Γ) {bd : Bound} (hbd : boundOk root bd) {c : Case} (h : c.nice root C) :
    Sf (fun r => r.1.nice root C) (chkCase body Γ bd c) := by
  obtain ⟨x, sym, vs, ss⟩ := c
  simp only [Case.nice] at h
  obtain ⟨hx, hv, hss⟩ := h
  simp only [chkCase]
  split
  · exact ⟨hx, hv, hss⟩
  · rename_i hl
    exact absurd rfl (envOk_lookup hr hΓ hl).1
  · rename_i s r hl
    obtain ⟨_, h1, h2, _⟩ := envOk_lookup hr hΓ hl
    split
    · rename_i ht
      exact absurd ht (h2 hx s (by simp))
    · rename_i d ps ret ht
      have h3 := h1.1 s (by simp) _ ht
      simp only [okTy] at h3
      split
      · exact ⟨hx, hv, hss⟩
      · split
        · exact ⟨hx, hv, hss⟩
        · obtain ⟨h4, h5⟩ := chkVars_sf (envOk_new hΓ) hv (okTys_map_subst hbd h3.1)
          have h6 := hb _ ss h4 hss
          split
          · rename_i hq; rw [hq] at h6; exact h6
          · rename_i hq; rw [hq] at h6; exact ⟨hx, h5, h6.1⟩
    · exact ⟨hx, hv, hss⟩

theorem chkCases_sf (hr : RootOk root D) {body : Env → List S → Except Stop (List S × List Err × Env)}
    (hb : ∀ Γ ss, EnvOk root C Γ → niceB root C ss → Sf (fun r => niceB root C r.1 ∧ EnvOk root C r.2.2) (body Γ ss))
    {Γ : Env} (hΓ : EnvOk root C Γ) {bd : Bound} (hbd : boundOk root bd) : ∀ {cs : List Case}, niceC root C cs →
    Sf (fun r => niceC root C r.1) (chkCases body Γ bd cs)
  | [], _ => by simp [chkCases, Sf, niceC]
  | c :: cs, h => by
    simp only [niceC] at h
    have h1 := chkCase_sf hr hb hΓ hbd h.1
    have h2 := chkCases_sf hr hb hΓ hbd h.2
    unfold chkCases
    cases hq : chkCase body Γ bd c with
    | error s => rw [hq] at h1; exact h1
    | ok r =>
      rw [hq] at h1
      simp only
      cases hq : chkCases body Γ bd cs with
      | error s => rw [hq] at h2; exact h2
      | ok r => rw [hq] at h2; exact ⟨h1, h2⟩

theorem chkCh_sf {chk : X → R X} {body : Env → List S → Except Stop (List S × List Err × Env)}
    (hc : ∀ x, x.nice root C .arg → Sf (fun r => r.1.nice root C .arg) (chk x))
    (hb : ∀ Γ ss, EnvOk root C Γ → niceB root C ss → Sf (fun r => niceB root C r.1 ∧ EnvOk root C r.2.2) (body Γ ss))
    {Γ : Env} (hΓ : EnvOk root C Γ) : ∀ {c : Ch}, c.nice root C → Sf (fun r => r.1.nice root C) (chkCh chk body Γ c)
  | .done, h => by simp [chkCh, Sf, Ch.nice]
  | .els ss, h => by
    simp only [Ch.nice] at h
    have h1 := hb ([] :: Γ) ss (envOk_new hΓ) h
    unfold chkCh
    split
    · rename_i h2; rw [h2] at h1; exact h1
    · rename_i h2; rw [h2] at h1; exact h1.1
  | .cond c ss next, h => by
    simp only [Ch.nice] at h
    have h1 := hc c h.1
    have h2 := hb ([] :: Γ) ss (envOk_new hΓ) h.2.1
    have h3 := chkCh_sf hc hb hΓ h.2.2
    unfold chkCh
    cases hq : chk c with
    | error s => rw [hq] at h1; exact h1
    | ok r1 =>
      rw [hq] at h1
      simp only [Sf] at h1
      simp only
      split
      · exact ⟨h1, h.2⟩
      · split
        · exact ⟨h1, h.2⟩
        · split
          · rename_i hq; rw [hq] at h2; exact h2
          · rename_i hq
            rw [hq] at h2
            cases hq : chkCh chk body Γ next with
            | error s => rw [hq] at h3; exact h3
            | ok r => rw [hq] at h3; exact ⟨h1, h2.1, h3⟩

theorem paramIds_map (ks : List Nat) : paramIds (ks.map .param) = some ks := by
  induction ks with
  | nil => rfl
  | cons k ks ih => simp [paramIds, ih]

theorem enumBound_sf {Γ : Env} (hΓ : TEnvOk root Γ) {m : String} {ts : List Ty} (h : okTy root (.enum m ts)) :
    Sf (boundOk root) (enumBound Γ m ts) := by
  simp only [okTy] at h
  unfold enumBound
  split
  · intro e he; cases he
  · rename_i hne
    have hne : ts ≠ [] := by simpa using hne
    have h1 := h.1 hne
    obtain ⟨n, ha⟩ := h1.arity (by simpa using hne)
    obtain ⟨s, r, hs, hl⟩ := hΓ.root m n ha
    obtain ⟨s', r', m', ks, hs', _, hty, hlen⟩ := h1
    rw [hs] at hs'
    cases hs'
    rw [hl]
    simp only [Option.bind_some, hty, paramIds_map]
    rw [if_neg (by omega)]
    intro e he
    exact okTys_iff.1 h.2 _ (List.of_mem_zip he).2

theorem stepS_sf (hr : RootOk root D) {chk : Env → X → R X} {body : Env → List S → Except Stop (List S × List Err × Env)}
    (hc : ∀ Γ x, EnvOk root C Γ → x.nice root C .arg → Sf (fun r => r.1.nice root C .arg) (chk Γ x))
    (hb : ∀ Γ ss, EnvOk root C Γ → niceB root C ss → Sf (fun r => niceB root C r.1 ∧ EnvOk root C r.2.2) (body Γ ss))
    {Γ : Env} (hΓ : EnvOk root C Γ) (ret : Ty) {s : S} (h : s.nice root C) :
    Sf (fun r => r.1.nice root C ∧ EnvOk root C r.2.2) (stepS D chk body Γ ret s) := by
  cases s with
  | expr x =>
    simp only [S.nice] at h
    have h1 := hc Γ x hΓ h
    unfold stepS
    simp only
    cases hq : chk Γ x with
    | error s => rw [hq] at h1; exact h1
    | ok r1 => rw [hq] at h1; exact ⟨h1, hΓ⟩
  | loop c ss =>
    simp only [S.nice] at h
    have h1 := hc Γ c hΓ h.1
    have h2 := hb ([] :: Γ) ss (envOk_new hΓ) h.2
    unfold stepS
    simp only
    cases hq : chk Γ c with
    | error s => rw [hq] at h1; exact h1
    | ok r1 =>
      rw [hq] at h1
      simp only [Sf] at h1
      simp only
      split
      · exact ⟨⟨h1, h.2⟩, hΓ⟩
      · split
        · exact ⟨⟨h1, h.2⟩, hΓ⟩
        · split
          · rename_i hq; rw [hq] at h2; exact h2
          · rename_i hq; rw [hq] at h2; exact ⟨⟨h1, h2.1⟩, hΓ⟩
  | for_ x a e ss =>
    simp only [S.nice] at h
    obtain ⟨hx, hC, he, hss⟩ := h
    have h1 := hc Γ e hΓ he
    unfold stepS
    simp only
    cases hq : chk Γ e with
    | error s => rw [hq] at h1; exact h1
    | ok r1 =>
      obtain ⟨e', es⟩ := r1
      rw [hq] at h1
      simp only [Sf] at h1
      simp only
      split
      · exact ⟨⟨hx, hC, h1, hss⟩, hΓ⟩
      · rename_i t ht
        have hty := nice_typ h1 ht
        have hloc : LocOk root C [(x, [stackSym (loopTy t e').1])] := by
          refine locOk_cons (localOk_loop hx hC ?_) locOk_nil
          intro u hu
          unfold loopTy at hu
          split at hu
          · cases hu; simpa only [okTy] using hty
          · cases hu; exact hty
          · cases hu
        have h2 := hb _ ss (envOk_cons hloc hΓ) hss
        split
        · rename_i hq; rw [hq] at h2; exact h2
        · rename_i hq; rw [hq] at h2; exact ⟨⟨hx, hC, h1, h2.1⟩, hΓ⟩
  | ifs c =>
    simp only [S.nice] at h
    have h1 := chkCh_sf (fun x hx => hc Γ x hΓ hx) hb hΓ h
    unfold stepS
    simp only
    cases hq : chkCh (chk Γ) body Γ c with
    | error s => rw [hq] at h1; exact h1
    | ok r1 => rw [hq] at h1; exact ⟨h1, hΓ⟩
  | ret0 => exact ⟨trivial, hΓ⟩
  | ret e =>
    simp only [S.nice] at h
    have h1 := hc Γ e hΓ h
    unfold stepS
    simp only
    cases hq : chk Γ e with
    | error s => rw [hq] at h1; exact h1
    | ok r1 =>
      rw [hq] at h1
      simp only
      split <;> exact ⟨h1, hΓ⟩
  | das l r =>
    simp only [S.nice] at h
    have h1 := hc Γ r hΓ h.2
    unfold stepS
    simp only
    cases hq : chk Γ r with
    | error s => rw [hq] at h1; exact h1
    | ok r1 =>
      rw [hq] at h1
      simp only [Sf] at h1
      simp only
      split
      · exact ⟨⟨h.1, h1⟩, hΓ⟩
      · rename_i t ht
        split
        · rename_i x a
          have hx := h.1 x a rfl
          split
          · exact ⟨⟨h.1, h1⟩, hΓ⟩
          · rename_i Γ' hd
            refine ⟨⟨fun y b hy => ?_, h1⟩, envOk_define (localOk_stack hx (nice_typ h1 ht)) hΓ hd⟩
            cases hy; exact hx
        · exact ⟨⟨h.1, h1⟩, hΓ⟩
  | asg l r =>
    simp only [S.nice] at h
    have h1 := hc Γ r hΓ h.2
    have h2 := hc Γ l hΓ h.1
    unfold stepS
    simp only
    cases hq : chk Γ r with
    | error s => rw [hq] at h1; exact h1
    | ok r1 =>
      rw [hq] at h1
      simp only [Sf] at h1
      simp only
      cases hq : chk Γ l with
      | error s => rw [hq] at h2; exact h2
      | ok r2 =>
        rw [hq] at h2
        simp only [Sf] at h2
        simp only
        repeat' split
        all_goals exact ⟨⟨h2, h1⟩, hΓ⟩
  | match_ e cs =>
    simp only [S.nice] at h
    have h1 := hc Γ e hΓ h.1
    unfold stepS
    simp only
    cases hq : chk Γ e with
    | error s => rw [hq] at h1; exact h1
    | ok r1 =>
      rw [hq] at h1
      simp only [Sf] at h1
      simp only
      split
      · exact ⟨⟨h1, h.2⟩, hΓ⟩
      · rename_i m ts ht
        have hbd := enumBound_sf (envOk_tenv hr hΓ) (nice_typ h1 ht)
        cases hb' : enumBound Γ m ts with
        | error s => rw [hb'] at hbd; exact hbd
        | ok bd =>
          rw [hb'] at hbd
          have h2 := chkCases_sf hr hb hΓ hbd h.2
          simp only
          cases hq : chkCases body Γ bd cs with
          | error s => rw [hq] at h2; exact h2
          | ok r =>
            rw [hq] at h2
            simp only
            split <;> exact ⟨⟨h1, h2⟩, hΓ⟩
      · exact ⟨⟨h1, h.2⟩, hΓ⟩

theorem chk_sf (hr : RootOk root D) : ∀ (n : Nat),
    (∀ Γ x, EnvOk root C Γ → x.nice root C .arg → Sf (fun r => r.1.nice root C .arg) (chkX D n Γ x)) ∧
    ∀ Γ t ss, EnvOk root C Γ → niceB root C ss → Sf (fun r => niceB root C r.1 ∧ EnvOk root C r.2.2) (chkB D n Γ t ss)
  | 0 => by
    refine ⟨fun Γ x _ _ => rfl, fun Γ t ss hΓ h => ?_⟩
    cases ss with
    | nil => simp [chkB, Sf, niceB, hΓ]
    | cons s ss => simp only [chkB]; rfl
  | n + 1 => by
    obtain ⟨hx, hb⟩ := chk_sf hr n
    refine ⟨fun Γ x hΓ h => stepX_sf hr hx hb hΓ h, fun Γ t ss hΓ h => ?_⟩
    cases ss with
    | nil => simp [chkB, Sf, niceB, hΓ]
    | cons s ss =>
      simp only [niceB] at h
      have h1 := stepS_sf hr hx (fun Γ ss => hb Γ t ss) hΓ t h.1
      simp only [chkB]
      cases hq : stepS D (chkX D n) (fun Γ ss => chkB D n Γ t ss) Γ t s with
      | error s => rw [hq] at h1; exact h1
      | ok r =>
        obtain ⟨s', es, Γ'⟩ := r
        rw [hq] at h1
        have h2 := hb Γ' t ss h1.2 h.2
        simp only
        cases hq : chkB D n Γ' t ss with
        | error s => rw [hq] at h2; exact h2
        | ok r => rw [hq] at h2; exact ⟨⟨h1.1, h2.1⟩, h2.2⟩

/-! ### Programs -/

/-- A function before it is checked. -/
structure Fn.nice (root : Scope) (C : String → Prop) (f : Fn) : Prop where
  own : f.body ≠ .none_ → LocOk root C f.own
  block : ∀ ss, f.body = .block ss → niceB root C ss
  expr : ∀ e, f.body = .expr e → e.nice root C .arg

theorem chkProg_sf (hr : RootOk root D) (n : Nat) : ∀ {fs : List Fn}, (∀ f ∈ fs, f.nice root C) → Sf (fun _ => True) (chkProg D n root fs)
  | [], _ => trivial
  | f :: fs, h => by
    have hf := h f (by simp)
    have henv : f.body ≠ .none_ → EnvOk root C [f.own, root] := fun hb => ⟨[f.own], rfl, by simp, fun sc hs => by simp at hs; subst hs; exact hf.own hb⟩
    have h1 : Sf (fun _ => True) (chkFn D n root f) := by
      unfold chkFn
      split
      · trivial
      · rename_i ss hss
        have := (chk_sf (C := C) hr n).2 _ f.ret ss (henv (by simp [hss])) (hf.block ss hss)
        cases hq : chkB D n [f.own, root] f.ret ss with
        | error s => rw [hq] at this; exact this
        | ok r => trivial
      · rename_i e he
        have := (chk_sf (C := C) hr n).1 _ e (henv (by simp [he])) (hf.expr e he)
        cases hq : chkX D n [f.own, root] e with
        | error s => rw [hq] at this; exact this
        | ok r => trivial
    have h2 := chkProg_sf hr n (fs := fs) (fun g hg => h g (by simp [hg]))
    unfold chkProg
    cases hq : chkFn D n root f with
    | error s => rw [hq] at h1; exact h1
    | ok r =>
      simp only
      cases hq : chkProg D n root fs with
      | error s => rw [hq] at h2; exact h2
      | ok r => trivial

end Clara.Sema.Chk
