import Verif.Sema.CheckLemmas
import Verif.Sema.Tame
set_option linter.unusedVariables false
set_option linter.unusedSimpArgs false
/-
The type checker does not panic on tame bodies: what the checker stores in trees and scopes keeps the properties that
its unchecked accesses need.
-/
namespace Clara.Sema.Chk
open Clara.Types

/-- `x` is a generic type of the global table, with `n` type parameters. -/
def ArityAt (root : Scope) (x : String) (n : Nat) : Prop :=
  n ≠ 0 ∧ ∃ s r m ps, root.lookup x = some (s :: r) ∧ s.isType = true ∧ ps.length = n ∧
    (s.ty = some (.struct m ps) ∨ s.ty = some (.enum m ps))

/-- `x` is an enum of the global table, with at least `n` type parameters. -/
def EnumAt (root : Scope) (x : String) (n : Nat) : Prop :=
  ∃ s r m, ∃ ks : List Nat, root.lookup x = some (s :: r) ∧ s.isType = true ∧ s.ty = some (.enum m (ks.map .param)) ∧ n ≤ ks.length

theorem EnumAt.arity {root : Scope} {x : String} {n : Nat} (h : EnumAt root x n) (hn : n ≠ 0) : ∃ m, ArityAt root x m := by
  obtain ⟨s, r, m, ks, h1, h2, h3, h4⟩ := h
  exact ⟨ks.length, by omega, s, r, m, ks.map .param, h1, h2, by simp, .inr h3⟩

mutual
/-- The generic enums in a type are enums of the global table. -/
def okTy (root : Scope) : Ty → Prop
  | .prim _ => True
  | .param _ => True
  | .array t => okTy root t
  | .struct _ ts => okTys root ts
  | .enum n ts => (ts ≠ [] → EnumAt root n ts.length) ∧ okTys root ts
  | .fn _ ps r => okTys root ps ∧ okTy root r
def okTys (root : Scope) : List Ty → Prop
  | [] => True
  | t :: ts => okTy root t ∧ okTys root ts
end

variable {root : Scope}

theorem okTys_iff {ts : List Ty} : okTys root ts ↔ ∀ t ∈ ts, okTy root t := by
  induction ts with
  | nil => simp [okTys]
  | cons t ts ih => simp [okTys, ih]

theorem substAll_len (b : Bound) : ∀ ts : List Ty, (substAll b ts).length = ts.length
  | [] => rfl
  | t :: ts => by simp [substAll, substAll_len b ts]

/-- All bindings are fine. -/
def boundOk (root : Scope) (b : Bound) : Prop := ∀ e ∈ b, okTy root e.2

theorem boundOk_get {b : Bound} (hb : boundOk root b) {k : Nat} {t : Ty} (h : b.get k = some t) : okTy root t := by
  unfold Bound.get at h
  induction b with
  | nil => cases h
  | cons e b ih =>
    obtain ⟨j, u⟩ := e
    rw [List.lookup_cons] at h
    split at h
    · cases h; exact hb (j, _) (by simp)
    · exact ih (fun e he => hb e (by simp [he])) h

mutual
theorem okTy_subst {b : Bound} (hb : boundOk root b) : ∀ (t : Ty), okTy root t → okTy root (t.subst b)
  | .prim p, h => by simp [Ty.subst, okTy]
  | .param k, h => by
    simp only [Ty.subst]
    cases hg : b.get k with
    | none => simp [okTy]
    | some u => exact boundOk_get hb hg
  | .array t, h => by
    simp only [Ty.subst]
    split
    · exact h
    · simp only [okTy] at h ⊢; exact okTy_subst hb t h
  | .struct n ts, h => by
    simp only [Ty.subst]
    split
    · exact h
    · simp only [okTy] at h ⊢; exact okTys_subst hb ts h
  | .enum n ts, h => by
    simp only [Ty.subst]
    split
    · exact h
    · simp only [okTy] at h ⊢
      refine ⟨fun hne => ?_, okTys_subst hb ts h.2⟩
      rw [substAll_len]
      refine h.1 (fun h0 => hne ?_)
      rw [h0]; rfl
  | .fn d ps r, h => by
    simp only [Ty.subst]
    split
    · exact h
    · simp only [okTy] at h ⊢; exact ⟨okTys_subst hb ps h.1, okTy_subst hb r h.2⟩
theorem okTys_subst {b : Bound} (hb : boundOk root b) : ∀ (ts : List Ty), okTys root ts → okTys root (substAll b ts)
  | [], h => by simp [substAll, okTys]
  | t :: ts, h => by
    simp only [substAll, okTys] at h ⊢
    exact ⟨okTy_subst hb t h.1, okTys_subst hb ts h.2⟩
end

mutual
theorem boundOk_poly : ∀ (t x : Ty) (b : Bound), okTy root t → boundOk root b → boundOk root (t.poly x b).2
  | t, .param k, b, ht, hb => by
    unfold Ty.poly
    split
    · intro e he
      rcases List.mem_cons.1 he with rfl | he
      · exact ht
      · exact hb e he
    · exact hb
  | .struct n ts, .struct m xs, b, ht, hb => by
    unfold Ty.poly
    simp only
    split
    · exact boundOk_polyAll ts xs b (by simpa only [okTy] using ht) hb
    · exact hb
  | .enum n ts, .enum m xs, b, ht, hb => by
    unfold Ty.poly
    simp only
    split
    · simp only [okTy] at ht; exact boundOk_polyAll ts xs b ht.2 hb
    · exact hb
  | .array t, .array x, b, ht, hb => by
    unfold Ty.poly
    simp only
    exact boundOk_poly t x b (by simpa only [okTy] using ht) hb
  | .fn d ts t, .fn e xs x, b, ht, hb => by
    unfold Ty.poly
    simp only
    simp only [okTy] at ht
    have h1 := boundOk_polyAll ts xs b ht.1 hb
    split
    · split
      · exact boundOk_poly t x _ ht.2 h1
      · exact h1
    · exact hb
  | .prim p, .prim q, b, ht, hb => by simpa [Ty.poly] using hb
  | .prim p, .array _, b, ht, hb => by simpa [Ty.poly] using hb
  | .prim p, .struct _ _, b, ht, hb => by simpa [Ty.poly] using hb
  | .prim p, .enum _ _, b, ht, hb => by simpa [Ty.poly] using hb
  | .prim p, .fn _ _ _, b, ht, hb => by simpa [Ty.poly] using hb
  | .param p, .prim q, b, ht, hb => by simpa [Ty.poly] using hb
  | .param p, .array _, b, ht, hb => by simpa [Ty.poly] using hb
  | .param p, .struct _ _, b, ht, hb => by simpa [Ty.poly] using hb
  | .param p, .enum _ _, b, ht, hb => by simpa [Ty.poly] using hb
  | .param p, .fn _ _ _, b, ht, hb => by simpa [Ty.poly] using hb
  | .array p, .prim q, b, ht, hb => by simpa [Ty.poly] using hb
  | .array p, .struct _ _, b, ht, hb => by simpa [Ty.poly] using hb
  | .array p, .enum _ _, b, ht, hb => by simpa [Ty.poly] using hb
  | .array p, .fn _ _ _, b, ht, hb => by simpa [Ty.poly] using hb
  | .struct _ _, .prim q, b, ht, hb => by simpa [Ty.poly] using hb
  | .struct _ _, .array _, b, ht, hb => by simpa [Ty.poly] using hb
  | .struct _ _, .enum _ _, b, ht, hb => by simpa [Ty.poly] using hb
  | .struct _ _, .fn _ _ _, b, ht, hb => by simpa [Ty.poly] using hb
  | .enum _ _, .prim q, b, ht, hb => by simpa [Ty.poly] using hb
  | .enum _ _, .array _, b, ht, hb => by simpa [Ty.poly] using hb
  | .enum _ _, .struct _ _, b, ht, hb => by simpa [Ty.poly] using hb
  | .enum _ _, .fn _ _ _, b, ht, hb => by simpa [Ty.poly] using hb
  | .fn _ _ _, .prim q, b, ht, hb => by simpa [Ty.poly] using hb
  | .fn _ _ _, .array _, b, ht, hb => by simpa [Ty.poly] using hb
  | .fn _ _ _, .struct _ _, b, ht, hb => by simpa [Ty.poly] using hb
  | .fn _ _ _, .enum _ _, b, ht, hb => by simpa [Ty.poly] using hb
theorem boundOk_polyAll : ∀ (ts xs : List Ty) (b : Bound), okTys root ts → boundOk root b → boundOk root (polyAll ts xs b).2
  | [], xs, b, ht, hb => by simpa [polyAll] using hb
  | t :: ts, [], b, ht, hb => by simpa [polyAll] using hb
  | t :: ts, x :: xs, b, ht, hb => by
    simp only [okTys] at ht
    simp only [polyAll]
    have h1 := boundOk_poly t x b ht.1 hb
    split
    · exact boundOk_polyAll ts xs _ ht.2 h1
    · exact h1
end

/-- The types of an argument are fine. -/
def okArg (root : Scope) (g : Arg) : Prop := okTy root g.typ ∧ okTys root g.chain

theorem okArg_narrow {g g' : Arg} (h : Narrowed g g') (hg : okArg root g) : okArg root g' := by
  rcases h with rfl | ⟨pre, r, h1, h2⟩
  · exact hg
  · have h3 : okTys root g'.chain := by
      rw [okTys_iff]
      intro t ht
      exact okTys_iff.1 hg.2 t (by rw [h1]; simp [ht])
    refine ⟨?_, h3⟩
    rw [h2] at h3
    simp only [okTys] at h3
    exact h3.1

theorem okArgs_narrow {gs gs' : List Arg} (h : All₂ Narrowed gs gs') (hg : ∀ g ∈ gs, okArg root g) : ∀ g ∈ gs', okArg root g := by
  induction h with
  | nil => simp
  | cons h _ ih =>
    intro g hm
    rcases List.mem_cons.1 hm with rfl | hm
    · exact okArg_narrow h (hg _ (by simp))
    · exact ih (fun g hg' => hg g (by simp [hg'])) g hm

theorem boundOk_polyPick {p : Ty} : ∀ (c : List Ty) (b : Bound), okTys root c → boundOk root b → boundOk root (polyPick p c b).2
  | [], b, hc, hb => by simpa [polyPick] using hb
  | s :: c, b, hc, hb => by
    simp only [okTys] at hc
    simp only [polyPick]
    have h1 := boundOk_poly s p b hc.1 hb
    split
    · exact h1
    · exact boundOk_polyPick c _ hc.2 h1

theorem boundOk_polyCheck : ∀ (as : List Arg) (ps : List Ty) (b : Bound), (∀ g ∈ as, okArg root g) → boundOk root b →
    boundOk root (polyCheck as ps b).2.2
  | [], ps, b, ha, hb => by simpa [polyCheck] using hb
  | a :: as, [], b, ha, hb => by simpa [polyCheck] using hb
  | a :: as, p :: ps, b, ha, hb => by
    have h0 := ha a (by simp)
    have h1 : ∀ g ∈ as, okArg root g := fun g hg => ha g (by simp [hg])
    simp only [polyCheck]
    split
    · have h2 := boundOk_polyPick (p := p) a.chain b h0.2 hb
      split
      · rename_i h; rw [h] at h2; exact boundOk_polyCheck as ps _ h1 h2
      · rename_i h; rw [h] at h2; exact h2
    · have h2 := boundOk_poly a.typ p b h0.1 hb
      split
      · exact boundOk_polyCheck as ps _ h1 h2
      · exact h2

theorem matchCall_okTy {f : Ty} {tys : List Ty} {gs gs' : List Arg} {ret : Ty} (h : matchCall f tys gs = (.ok ret, gs'))
    (hf : okTy root f) (ht : okTys root tys) (hg : ∀ g ∈ gs, okArg root g) : okTy root ret := by
  cases f with
  | fn d ps r =>
    simp only [okTy] at hf
    simp only [matchCall] at h
    split at h
    · simp at h
    · split at h
      · simp at h
      · split at h
        · split at h
          · simp at h; rw [← h.1]; exact hf.2
          · simp at h
        · split at h
          · split at h
            · simp at h
            · simp at h
              rw [← h.1]
              refine okTy_subst ?_ r hf.2
              refine boundOk_polyCheck gs ps _ hg ?_
              intro e he
              exact okTys_iff.1 ht _ (List.of_mem_zip he).2
          · simp at h
  | _ => simp [matchCall] at h

/-! ### Symbols, trees, scopes -/

/-- The types of a symbol are fine, and an overloaded symbol has all its types. -/
def SymOk (root : Scope) (s : Sym) : Prop :=
  (∀ a ∈ s, ∀ t, a.ty = some t → okTy root t) ∧ (s.length ≤ 1 ∨ ∀ a ∈ s, a.ty ≠ none)

def AnnOk (root : Scope) (a : Ann) : Prop := (∀ t, a.typ = some t → okTy root t) ∧ ∀ s, a.sym = some s → SymOk root s

/-- Where an identifier stands: checked without overloads, called, right of a dot. -/
inductive Place
  | arg | callee | field

/-- What is stored in an identifier. -/
structure IdOk (root : Scope) (p : Place) (x : String) (a : Ann) : Prop where
  ann : AnnOk root a
  hunsafe : p ≠ .field → x = "unsafe" → a.sym ≠ none ∨ a.typ ≠ none → root.lookup "unsafe" ≠ none
  full : p = .arg → a.typ ≠ none → ∀ s, a.sym = some s → ∀ b ∈ s, b.ty ≠ none

/-- What a scope inside a function holds. -/
structure LocalOk (root : Scope) (C : String → Prop) (x : String) (s : Sym) : Prop where
  ne : s ≠ []
  sym : SymOk root s
  full : C x → ∀ a ∈ s, a.ty ≠ none
  name : x ≠ "unsafe"
  type : ∀ a ∈ s, a.isType = true → a.ty ≠ none ∧ ∀ n, ¬ ArityAt root x n

def LocOk (root : Scope) (C : String → Prop) (sc : Scope) : Prop := ∀ x s, sc.lookup x = some s → LocalOk root C x s

structure InfoOk (root : Scope) (C : String → Prop) (i : FnInfo) : Prop where
  params : okTys root i.ty.2.1
  ret : okTy root i.ty.2.2
  own : LocOk root C i.own

mutual
def X.nice (root : Scope) (C : String → Prop) (p : Place) : X → Prop
  | .lit _ a => AnnOk root a
  | .ident x a => IdOk root p x a
  | .call f _ args a => f.nice root C .callee ∧ niceL root C args ∧ AnnOk root a
  | .bin _ l r a => l.nice root C .arg ∧ r.nice root C .arg ∧ AnnOk root a
  | .cmp _ l r a => l.nice root C .arg ∧ r.nice root C .arg ∧ AnnOk root a
  | .un _ e a => e.nice root C .arg ∧ AnnOk root a
  | .tern c x y a => c.nice root C .arg ∧ x.nice root C .arg ∧ y.nice root C .arg ∧ AnnOk root a
  | .arr es a => niceL root C es ∧ AnnOk root a
  | .index l r a => l.nice root C .arg ∧ r.nice root C .arg ∧ AnnOk root a
  | .dot l r a => l.nice root C .arg ∧ r.nice root C .field ∧ AnnOk root a
  | .ty _ a => AnnOk root a
  | .fnB h info ss a => h.tame (ArityAt root) ∧ (∀ i, info = some i → InfoOk root C i) ∧ niceB root C ss ∧ AnnOk root a
  | .fnE h info e a => h.tame (ArityAt root) ∧ (∀ i, info = some i → InfoOk root C i) ∧ e.nice root C .arg ∧ AnnOk root a
def niceL (root : Scope) (C : String → Prop) : List X → Prop
  | [] => True
  | x :: xs => x.nice root C .arg ∧ niceL root C xs
def S.nice (root : Scope) (C : String → Prop) : S → Prop
  | .expr x => x.nice root C .arg
  | .loop c ss => c.nice root C .arg ∧ niceB root C ss
  | .for_ x _ e ss => x ≠ "unsafe" ∧ ¬ C x ∧ e.nice root C .arg ∧ niceB root C ss
  | .ifs c => c.nice root C
  | .ret0 => True
  | .ret e => e.nice root C .arg
  | .das l r => (∀ x a, l = .ident x a → x ≠ "unsafe") ∧ r.nice root C .arg
  | .asg l r => l.nice root C .arg ∧ r.nice root C .arg
  | .match_ e cs => e.nice root C .arg ∧ niceC root C cs
def Ch.nice (root : Scope) (C : String → Prop) : Ch → Prop
  | .done => True
  | .els ss => niceB root C ss
  | .cond c ss n => c.nice root C .arg ∧ niceB root C ss ∧ n.nice root C
def niceB (root : Scope) (C : String → Prop) : List S → Prop
  | [] => True
  | s :: ss => s.nice root C ∧ niceB root C ss
def niceC (root : Scope) (C : String → Prop) : List Case → Prop
  | [] => True
  | c :: cs => c.nice root C ∧ niceC root C cs
def Case.nice (root : Scope) (C : String → Prop) : Case → Prop
  | .mk x _ vs ss => C x ∧ (∀ v ∈ vs, v.1 ≠ "unsafe") ∧ niceB root C ss
end

/-- The global table. -/
structure RootOk (root : Scope) (D : Decls) : Prop where
  syms : ∀ x s, root.lookup x = some s → s ≠ [] ∧ ∀ a ∈ s, ∃ t, a.ty = some t ∧ okTy root t
  hunsafe : ∀ s, root.lookup "unsafe" = some s → ∃ d ps r, Sym.ty s = some (.fn d ps r)
  fields : ∀ n d, D.structs n = some d → ∀ p ∈ d.fields, okTy root p.2

def EnvOk (root : Scope) (C : String → Prop) (Γ : Env) : Prop :=
  ∃ ls, Γ = ls ++ [root] ∧ ls ≠ [] ∧ ∀ sc ∈ ls, LocOk root C sc

variable {C : String → Prop} {D : Decls}

theorem AnnOk.typ {a : Ann} (h : AnnOk root a) {t : Ty} (ht : okTy root t) : AnnOk root ⟨some t, a.sym⟩ :=
  ⟨fun u hu => by cases hu; exact ht, h.2⟩

theorem nice_ann {x : X} {p : Place} (h : x.nice root C p) : AnnOk root x.ann := by
  cases x <;> simp only [X.nice] at h <;> simp only [X.ann]
  case ident => exact h.ann
  case lit => exact h
  case ty => exact h
  case call => exact h.2.2
  case bin => exact h.2.2
  case cmp => exact h.2.2
  case un => exact h.2
  case tern => exact h.2.2.2
  case arr => exact h.2
  case index => exact h.2.2
  case dot => exact h.2.2
  case fnB => exact h.2.2.2
  case fnE => exact h.2.2.2

theorem nice_typ {x : X} {p : Place} (h : x.nice root C p) {t : Ty} (ht : x.typ = some t) : okTy root t :=
  (nice_ann h).1 t ht

theorem nice_field {x : X} {p : Place} (h : x.nice root C p) : x.nice root C .field := by
  cases x
  case ident =>
    simp only [X.nice] at h ⊢
    exact ⟨h.ann, fun h => absurd rfl h, fun h => by cases h⟩
  all_goals (simp only [X.nice] at h ⊢; exact h)

theorem envOk_lookup (hr : RootOk root D) {Γ : Env} (h : EnvOk root C Γ) {x : String} {s : Sym} (hl : lookup Γ x = some s) :
    s ≠ [] ∧ SymOk root s ∧ (C x → ∀ a ∈ s, a.ty ≠ none) ∧ (x = "unsafe" → root.lookup x = some s) := by
  obtain ⟨ls, rfl, -, hloc⟩ := h
  induction ls with
  | nil =>
    simp only [List.nil_append, lookup] at hl
    have hs : root.lookup x = some s := by
      cases hx : root.lookup x with
      | none => rw [hx] at hl; cases hl
      | some s' => rw [hx] at hl; exact hl
    obtain ⟨h1, h2⟩ := hr.syms x s hs
    have h3 : ∀ a ∈ s, a.ty ≠ none := fun a ha => by obtain ⟨t, ht, _⟩ := h2 a ha; rw [ht]; simp
    refine ⟨h1, ⟨?_, .inr h3⟩, fun _ => h3, fun _ => hs⟩
    intro a ha t ht
    obtain ⟨u, hu, hok⟩ := h2 a ha
    rw [hu] at ht; cases ht; exact hok
  | cons sc ls ih =>
    simp only [List.cons_append, lookup] at hl
    cases hx : sc.lookup x with
    | none => rw [hx] at hl; exact ih hl (fun sc hs => hloc sc (by simp [hs]))
    | some s' =>
      rw [hx] at hl
      cases hl
      have := hloc sc (by simp) x s hx
      exact ⟨this.ne, this.sym, this.full, fun h => absurd h this.name⟩

theorem envOk_unsafe {Γ : Env} (h : EnvOk root C Γ) {s : Sym} (hs : root.lookup "unsafe" = some s) : lookup Γ "unsafe" = some s := by
  obtain ⟨ls, rfl, -, hloc⟩ := h
  induction ls with
  | nil => simp [lookup, hs]
  | cons sc ls ih =>
    simp only [List.cons_append, lookup]
    cases hx : sc.lookup "unsafe" with
    | none => exact ih (fun sc hs => hloc sc (by simp [hs]))
    | some s' => exact absurd rfl (hloc sc (by simp) _ s' hx).name

/-- What looking up types gives. -/
structure TEnvOk (root : Scope) (Γ : Env) : Prop where
  ty : ∀ x s, lookupType Γ x = some s → ∃ t, s.ty = some t ∧ okTy root t
  root : ∀ x n, ArityAt root x n → ∃ s r, root.lookup x = some (s :: r) ∧ lookupType Γ x = some s

/-- A scope whose types do not hide generic types of the root. -/
def TScopeOk (root : Scope) (sc : Scope) : Prop := ∀ x s r, sc.lookup x = some (s :: r) → s.isType = true →
  (∃ t, s.ty = some t ∧ okTy root t) ∧ ∀ n, ¬ ArityAt root x n

theorem tenv_cons {sc : Scope} {Γ : Env} (hs : TScopeOk root sc) (h : TEnvOk root Γ) : TEnvOk root (sc :: Γ) := by
  refine ⟨fun x s hl => ?_, fun x n ha => ?_⟩
  · simp only [lookupType] at hl
    split at hl
    · rename_i s' r hx
      split at hl
      · rename_i ht
        cases hl
        exact (hs x _ r hx ht).1
      · exact h.ty x s hl
    · exact h.ty x s hl
  · obtain ⟨s, r, h1, h2⟩ := h.root x n ha
    refine ⟨s, r, h1, ?_⟩
    simp only [lookupType]
    split
    · rename_i s' r' hx
      split
      · rename_i ht
        exact absurd ha ((hs x _ r' hx ht).2 n)
      · exact h2
    · exact h2

theorem locOk_tscope {sc : Scope} (h : LocOk root C sc) : TScopeOk root sc := by
  intro x s r hx ht
  have h1 := h x _ hx
  have h2 := h1.type s (by simp) ht
  cases hty : s.ty with
  | none => exact absurd hty h2.1
  | some t => exact ⟨⟨t, rfl, h1.sym.1 s (by simp) t hty⟩, h2.2⟩

theorem envOk_tenv (hr : RootOk root D) {Γ : Env} (h : EnvOk root C Γ) : TEnvOk root Γ := by
  obtain ⟨ls, rfl, -, hloc⟩ := h
  induction ls with
  | nil =>
    refine ⟨fun x s hl => ?_, fun x n ha => ?_⟩
    · simp only [List.nil_append, lookupType] at hl
      split at hl
      · rename_i s' r hx
        split at hl
        · cases hl
          exact (hr.syms x _ hx).2 _ (by simp)
        · cases hl
      · cases hl
    · obtain ⟨_, s, r, m, ps, h1, h2, h3, h4⟩ := ha
      exact ⟨s, r, h1, by simp [lookupType, h1, h2]⟩
  | cons sc ls ih =>
    exact tenv_cons (locOk_tscope (hloc sc (by simp))) (ih (fun sc hs => hloc sc (by simp [hs])))

/-! ### Written types -/

theorem instArgs_some {mk : List Ty → Ty} {n : Nat} {r : List (Option Ty) × List Err} {u : Ty} {es : List Err}
    (h : instArgs mk n r = (some u, es)) : n ≠ 0 ∧ n = r.1.length ∧ ∃ us, allSome r.1 = some us ∧ u = mk us := by
  unfold instArgs at h
  split at h
  · simp at h
  · split at h
    · simp at h
    · split at h
      · simp at h
      · rename_i h1 h2 h3
        simp only [Prod.mk.injEq, Option.map_eq_some_iff] at h
        obtain ⟨⟨us, hu, rfl⟩, _⟩ := h
        exact ⟨h1, by simpa using h2, us, hu, rfl⟩

theorem allSome_cons {o : Option Ty} {os : List (Option Ty)} {us : List Ty} (h : allSome (o :: os) = some us) :
    ∃ u vs, o = some u ∧ allSome os = some vs ∧ us = u :: vs := by
  cases o with
  | none => simp [allSome] at h
  | some u =>
    simp only [allSome, Option.map_eq_some_iff] at h
    obtain ⟨vs, hv, rfl⟩ := h
    exact ⟨u, vs, rfl, hv, rfl⟩

theorem instTys_len (Γ : Env) : ∀ (es : List Err) (l : List TyN), (instTys Γ es l).1.length = l.length := by
  intro es l
  induction l generalizing es with
  | nil => rfl
  | cons t l ih => simp [instTys, ih]

mutual
theorem instTy_okTy {Γ : Env} (hΓ : TEnvOk root Γ) : ∀ (t : TyN) (es : List Err) (u : Ty), (instTy Γ es t).1 = some u → okTy root u
  | .named x g args, es, u, h => by
    simp only [instTy] at h
    split at h
    · simp at h
    · rename_i s hs
      obtain ⟨ty, hty, hok⟩ := hΓ.ty x s hs
      cases g with
      | false => simp at h; rw [hty] at h; cases h; exact hok
      | true =>
        simp only [Bool.not_true, Bool.false_eq_true, if_false] at h
        have ih := instTys_okTy hΓ args es
        split at h
        · rename_i n ps hsp
          generalize hq : instArgs (.struct n) ps.length (instTys Γ es args) = q at h
          obtain ⟨q1, q2⟩ := q
          simp only at h
          subst h
          obtain ⟨_, _, us, h1, rfl⟩ := instArgs_some hq
          simp only [okTy]
          exact ih us h1
        · rename_i n ps hsp
          generalize hq : instArgs (.enum n) ps.length (instTys Γ es args) = q at h
          obtain ⟨q1, q2⟩ := q
          simp only at h
          subst h
          obtain ⟨h0, hl, us, h1, rfl⟩ := instArgs_some hq
          simp only [okTy]
          rw [hty] at hsp
          cases hsp
          simp only [okTy] at hok
          refine ⟨fun _ => ?_, ih us h1⟩
          have h2 := hok.1 (fun hn => h0 (by rw [hn]; rfl))
          rw [allSome_length h1, ← hl]; exact h2
        · simp at h
  | .array t, es, u, h => by
    simp only [instTy] at h
    split at h
    · simp at h
    · simp only [Option.map_eq_some_iff] at h
      obtain ⟨v, hv, rfl⟩ := h
      simp only [okTy]
      exact instTy_okTy hΓ t es v hv
  | .func ps, es, u, h => by
    simp only [instTy] at h
    split at h
    · simp at h
    · simp only [Option.map_eq_some_iff] at h
      obtain ⟨v, hv, rfl⟩ := h
      simp only [okTy, and_true]
      exact instTys_okTy hΓ ps es v hv
  | .funcR ps t, es, u, h => by
    simp only [instTy] at h
    split at h
    · simp at h
    · simp only at h
      split at h
      · rename_i ts v hts hv
        cases h
        simp only [okTy]
        exact ⟨instTys_okTy hΓ ps es ts hts, instTy_okTy hΓ t _ v hv⟩
      · cases h
theorem instTys_okTy {Γ : Env} (hΓ : TEnvOk root Γ) : ∀ (ts : List TyN) (es : List Err) (us : List Ty),
    allSome (instTys Γ es ts).1 = some us → okTys root us
  | [], es, us, h => by simp only [instTys, allSome, Option.some.injEq] at h; subst h; simp [okTys]
  | t :: ts, es, us, h => by
    simp only [instTys] at h
    obtain ⟨u, vs, h1, h2, rfl⟩ := allSome_cons h
    simp only [okTys]
    exact ⟨instTy_okTy hΓ t es u h1, instTys_okTy hΓ ts _ vs h2⟩
end

mutual
theorem instTy_applies {Γ : Env} (hΓ : TEnvOk root Γ) : ∀ (t : TyN), knownTy Γ t = true → t.applies (ArityAt root) →
    ∃ u, instTy Γ [] t = (some u, [])
  | .named x false args, hk, ha => by
    simp only [knownTy, Bool.and_eq_true] at hk
    obtain ⟨s, hs⟩ := Option.isSome_iff_exists.1 hk.1
    obtain ⟨t, ht, _⟩ := hΓ.ty x s hs
    exact ⟨t, by simp [instTy, hs, ht]⟩
  | .named x true args, hk, ha => by
    simp only [knownTy, Bool.and_eq_true, Bool.not_true, Bool.false_or] at hk
    simp only [TyN.applies] at ha
    obtain ⟨s, r, h1, h2⟩ := hΓ.root x _ ha.1
    obtain ⟨hne, s', r', m, ps, h3, h4, h5, h6⟩ := ha.1
    rw [h1] at h3
    cases h3
    obtain ⟨us, hus, hlen⟩ := instTys_applies hΓ args hk.2 ha.2
    have hlen' : (instTys Γ [] args).1.length = args.length := instTys_len Γ [] args
    have hal : allSome (instTys Γ [] args).1 = some us := by rw [hus]; exact hlen
    have he : (instTys Γ [] args).2 = [] := by rw [hus]
    have hps : ps.length ≠ 0 := by rw [h5]; exact hne
    have h5' : ps.length = (instTys Γ [] args).1.length := by rw [hlen', h5]
    rcases h6 with h6 | h6
    · refine ⟨.struct m us, ?_⟩
      simp only [instTy, h2, h6, Bool.not_true, Bool.false_eq_true, if_false]
      unfold instArgs
      rw [if_neg hps, if_neg (by simpa using h5'), if_neg (by simp [he]), hal, he]; rfl
    · refine ⟨.enum m us, ?_⟩
      simp only [instTy, h2, h6, Bool.not_true, Bool.false_eq_true, if_false]
      unfold instArgs
      rw [if_neg hps, if_neg (by simpa using h5'), if_neg (by simp [he]), hal, he]; rfl
  | .array t, hk, ha => by
    simp only [knownTy] at hk
    simp only [TyN.applies] at ha
    obtain ⟨u, hu⟩ := instTy_applies hΓ t hk ha
    exact ⟨.array u, by simp [instTy, hu]⟩
  | .func ps, hk, ha => by
    simp only [knownTy] at hk
    simp only [TyN.applies] at ha
    obtain ⟨us, hu, hal⟩ := instTys_applies hΓ ps hk ha
    exact ⟨.fn {} us (.prim .nothing), by simp [instTy, hu, hal]⟩
  | .funcR ps t, hk, ha => by
    simp only [knownTy, Bool.and_eq_true] at hk
    simp only [TyN.applies] at ha
    obtain ⟨us, hu, hal⟩ := instTys_applies hΓ ps hk.1 ha.1
    obtain ⟨u, hu'⟩ := instTy_applies hΓ t hk.2 ha.2
    exact ⟨.fn {} us u, by simp [instTy, hu, hal, hu']⟩
theorem instTys_applies {Γ : Env} (hΓ : TEnvOk root Γ) : ∀ (ts : List TyN), knownTys Γ ts = true → appliesAll (ArityAt root) ts →
    ∃ us, instTys Γ [] ts = (us.map some, []) ∧ allSome (us.map some) = some us
  | [], hk, ha => ⟨[], by simp [instTys], rfl⟩
  | t :: ts, hk, ha => by
    simp only [knownTys, Bool.and_eq_true] at hk
    simp only [appliesAll] at ha
    obtain ⟨u, hu⟩ := instTy_applies hΓ t hk.1 ha.1
    obtain ⟨us, hus, hal⟩ := instTys_applies hΓ ts hk.2 ha.2
    exact ⟨u :: us, by simp [instTys, hu, hus], by simp [allSome, hal]⟩
end

theorem typeArgs_okTy {Γ : Env} (hΓ : TEnvOk root Γ) : ∀ {ts : List TyN} {tys : List Ty}, typeArgs Γ ts = .ok tys → okTys root tys
  | [], tys, h => by simp only [typeArgs, Except.ok.injEq] at h; subst h; simp [okTys]
  | t :: ts, tys, h => by
    simp only [typeArgs] at h
    split at h
    · rename_i u hu
      cases hr : typeArgs Γ ts with
      | error e => rw [hr] at h; cases h
      | ok us =>
        rw [hr] at h
        cases h
        simp only [okTys]
        exact ⟨instTy_okTy hΓ t [] u (by rw [hu]), typeArgs_okTy hΓ hr⟩
    · cases h

/-! ### Signatures -/

mutual
theorem knownTy_congr {Γ Γ' : Env} (h : ∀ x, lookupType Γ x = lookupType Γ' x) : ∀ t : TyN, knownTy Γ t = knownTy Γ' t
  | .named x g args => by simp only [knownTy, h x, knownTys_congr h args]
  | .array t => by simp only [knownTy, knownTy_congr h t]
  | .func ps => by simp only [knownTy, knownTys_congr h ps]
  | .funcR ps t => by simp only [knownTy, knownTys_congr h ps, knownTy_congr h t]
theorem knownTys_congr {Γ Γ' : Env} (h : ∀ x, lookupType Γ x = lookupType Γ' x) : ∀ ts : List TyN, knownTys Γ ts = knownTys Γ' ts
  | [] => rfl
  | t :: ts => by simp only [knownTys, knownTy_congr h t, knownTys_congr h ts]
end

theorem define_types {Γ Γ' : Env} {x : String} {a : Alt} (h : define Γ x [a] = some Γ') (ha : a.isType = false) (y : String) :
    lookupType Γ' y = lookupType Γ y := by
  cases Γ with
  | nil =>
    simp only [define, Option.some.injEq] at h
    subst h
    simp only [lookupType, List.lookup_cons, List.lookup_nil]
    split
    · rename_i s r he
      split at he
      · cases he; rw [ha]; rfl
      · cases he
    · rfl
  | cons sc Γ =>
    simp only [define] at h
    split at h
    · cases h
    · rename_i hl
      cases h
      simp only [lookupType]
      rw [List.lookup_cons]
      by_cases hy : y = x
      · subst hy
        simp [hl, ha]
      · rw [beq_false_of_ne hy]

theorem defParams_known : ∀ {ps : List (String × TyN)} {Γ Γ' : Env}, defParams Γ ps = .ok Γ' →
    (∀ x, lookupType Γ' x = lookupType Γ x) ∧ knownTys Γ (ps.map (·.2)) = true
  | [], Γ, Γ', h => by simp only [defParams, Except.ok.injEq] at h; subst h; simp [knownTys]
  | (x, t) :: ps, Γ, Γ', h => by
    simp only [defParams] at h
    split at h
    · cases h
    · rename_i hk
      split at h
      · cases h
      · rename_i Γ1 hd
        have h1 := define_types hd rfl
        obtain ⟨h2, h3⟩ := defParams_known h
        refine ⟨fun y => (h2 y).trans (h1 y), ?_⟩
        simp only [List.map_cons, knownTys, Bool.and_eq_true]
        exact ⟨by simpa using hk, by rw [knownTys_congr (fun y => (h1 y).symm)]; exact h3⟩

theorem ite_ite' {p q : Bool} {e e' : Err} {Γ Γ' : Env} (h : (if p then .error e else if q then .error e' else .ok Γ' : Except Err Env) = .ok Γ) :
    p = false ∧ Γ = Γ' := by
  cases p <;> cases q <;> simp_all

theorem sigScope_known {Γ Γ' : Env} {h : Head} {b : Bool} (hs : sigScope Γ h b = .ok Γ') :
    knownTys Γ' (h.params.map (·.2)) = true ∧ ∀ t, h.ret = some t → knownTy Γ' t = true := by
  unfold sigScope at hs
  split at hs
  · cases hs
  · rename_i Γ1 h1
    split at hs
    · cases hs
    · rename_i Γ2 h2
      obtain ⟨h3, h4⟩ := defParams_known h2
      obtain ⟨hk, rfl⟩ := ite_ite' hs
      refine ⟨by rw [knownTys_congr h3]; exact h4, ?_⟩
      intro t ht
      rw [ht] at hk
      simpa using hk

theorem lookup_map_mem {α β : Type} {l : List α} {f : α → String × β} {x : String} {s : β} (h : (l.map f).lookup x = some s) :
    ∃ p ∈ l, f p = (x, s) := by
  have := lookup_mem h
  obtain ⟨p, hp, he⟩ := List.mem_map.1 this
  exact ⟨p, hp, he⟩

theorem okTy_param (k : Nat) : okTy root (.param k) := by simp [okTy]

/-- The scope of a head while its types are looked up. -/
theorem sigScope_tscope {h : Head} (ht : h.tame (ArityAt root)) :
    TScopeOk root (h.params.reverse.map (fun p => (p.1, [plainSym none])) ++ h.tps.reverse.map (fun p => (p.1, [tparamSym p.2]))) := by
  intro x s r hx hty
  rw [lookup_append] at hx
  cases hp : (h.params.reverse.map (fun p => (p.1, ([plainSym none] : Sym)))).lookup x with
  | some v =>
    rw [hp] at hx
    obtain ⟨p, _, he⟩ := lookup_map_mem hp
    simp only [Option.some_or, Option.some.injEq] at hx
    subst hx
    simp only [Prod.mk.injEq, List.cons.injEq] at he
    rw [← he.2.1] at hty
    cases hty
  | none =>
    rw [hp] at hx
    simp only [Option.none_or] at hx
    obtain ⟨p, hm, he⟩ := lookup_map_mem hx
    simp only [Prod.mk.injEq, List.cons.injEq] at he
    obtain ⟨rfl, rfl, rfl⟩ := he
    exact ⟨⟨.param p.2, rfl, okTy_param _⟩, (ht.tps p (by simpa using hm)).2⟩

theorem litScope_locOk {h : Head} {ts : List Ty} (ht : h.tame (ArityAt root)) (hts : okTys root ts) : LocOk root C (litScope h ts) := by
  intro x s hx
  unfold litScope at hx
  rw [lookup_append] at hx
  cases hp : (((h.params.map (·.1)).zip ts).reverse.map (fun p => (p.1, ([plainSym (some p.2)] : Sym)))).lookup x with
  | some v =>
    rw [hp] at hx
    simp only [Option.some_or, Option.some.injEq] at hx
    subst hx
    obtain ⟨p, hm, he⟩ := lookup_map_mem hp
    simp only [Prod.mk.injEq] at he
    obtain ⟨rfl, rfl⟩ := he
    have hz := List.of_mem_zip (List.mem_reverse.1 hm)
    obtain ⟨q, hq, hq1⟩ := List.mem_map.1 hz.1
    have hok := okTys_iff.1 hts _ hz.2
    refine ⟨by simp, ⟨?_, .inl (by simp)⟩, ?_, ?_, ?_⟩
    · intro a ha t hat
      simp at ha; subst ha
      cases hat; exact hok
    · intro _ a ha; simp at ha; subst ha; simp [plainSym]
    · rw [← hq1]; exact (ht.params q hq).1
    · intro a ha hat; simp at ha; subst ha; cases hat
  | none =>
    rw [hp] at hx
    simp only [Option.none_or] at hx
    obtain ⟨p, hm, he⟩ := lookup_map_mem hx
    simp only [Prod.mk.injEq] at he
    obtain ⟨rfl, rfl⟩ := he
    have h1 := ht.tps p (by simpa using hm)
    refine ⟨by simp, ⟨?_, .inl (by simp)⟩, ?_, h1.1, ?_⟩
    · intro a ha t hat
      simp at ha; subst ha
      cases hat; exact okTy_param _
    · intro _ a ha; simp at ha; subst ha; simp [tparamSym]
    · intro a ha hat; simp at ha; subst ha; exact ⟨by simp [tparamSym], h1.2⟩

theorem appliesAll_iff {ar : String → Nat → Prop} {ts : List TyN} : appliesAll ar ts ↔ ∀ t ∈ ts, t.applies ar := by
  induction ts with
  | nil => simp [appliesAll]
  | cons t ts ih => simp [appliesAll, ih]

theorem signature_safe (hr : RootOk root D) {Γ : Env} (hΓ : EnvOk root C Γ) {h : Head} (ht : h.tame (ArityAt root)) (b : Bool) :
    (∃ e, signature Γ h b = .ok (.error e)) ∨ ∃ i, signature Γ h b = .ok (.ok i) ∧ InfoOk root C i := by
  cases hs : sigScope Γ h b with
  | error e => exact .inl ⟨e, by simp [signature, hs]⟩
  | ok Γ' =>
    right
    obtain ⟨sc, rfl, hsc, hn⟩ := sigScope_ok hs
    obtain ⟨hk1, hk2⟩ := sigScope_known hs
    have hte : TEnvOk root (sc :: Γ) := by
      refine tenv_cons ?_ (envOk_tenv hr hΓ)
      rw [hsc]; exact sigScope_tscope ht
    obtain ⟨ts, h1, h2⟩ := instTys_applies hte _ hk1 (appliesAll_iff.2 (by
      intro t hm
      obtain ⟨p, hp, rfl⟩ := List.mem_map.1 hm
      exact (ht.params p hp).2))
    have hts : okTys root ts := instTys_okTy hte _ [] ts (by rw [h1]; exact h2)
    have key : ∀ i, signature Γ h b = .ok (.ok i) → i.ty.2.1 = ts → okTy root i.ty.2.2 → InfoOk root C i := by
      intro i hi he hret
      obtain ⟨d, ts', r, h3, h4, h5⟩ := signature_ok hi
      rw [h3] at he
      simp only at he
      subst he
      exact ⟨by rw [h3]; exact hts, hret, by rw [h4]; exact litScope_locOk ht hts⟩
    cases hret : h.ret with
    | none =>
      have hsig : signature Γ h b = .ok (.ok ⟨({ tps := h.tps.map (·.2) }, ts, .prim .nothing), setTypes sc ((h.params.map (·.1)).zip ts)⟩) := by
        simp only [signature, hs, h1, h2, hret]
      exact ⟨_, hsig, key _ hsig rfl (by simp [okTy])⟩
    | some t =>
      obtain ⟨u, hu⟩ := instTy_applies hte t (hk2 t hret) (ht.ret t hret)
      have hsig : signature Γ h b = .ok (.ok ⟨({ tps := h.tps.map (·.2) }, ts, u), setTypes sc ((h.params.map (·.1)).zip ts)⟩) := by
        simp only [signature, hs, h1, h2, hret, hu]
      exact ⟨_, hsig, key _ hsig rfl (instTy_okTy hte t [] u (by rw [hu]))⟩

end Clara.Sema.Chk
