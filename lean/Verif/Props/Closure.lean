import Verif.Sema.Captures
import Verif.Props.Lower
set_option linter.unusedVariables false
/-
C28: closures capture exactly the variables they use.

The trees, and the conversion of function literals (`conv`), are in `Verif/Sema/Closure.lean`; the
variables a tree mentions (`fv`), its literals (`lits`), checked functions (`Checked`) and what an access
to the environment stands for (`restore`) are in the first part of `Verif/Sema/Captures.lean`.
-/
namespace Clara.Props
open Clara.Gen Clara.Sema Clara.Sema.Closure

/-- The hoisted function `h` is right for the literal `p`: the fields of the environment are the
variables that the literal mentions and does not declare, each once; and the body, with the field
number `i` of the environment read as the `i`th of these variables, is that of the literal (after the
conversion of the literals inside). -/
structure Captured (name : Nat → String) (ord : List Nat → List Nat) (p : Scope × List T) (h : Hoisted) : Prop where
  own : h.own = p.1
  caps : ∀ x, x ∈ h.caps ↔ x ∈ fvL p.2 ∧ p.1 x = false
  once : h.caps.Nodup
  body : restoreL h.caps h.body = (convL name ord p.2).1
  closed : ∀ x ∈ fvL h.body, p.1 x = true

/-- Variables that a literal mentions and does not declare are found by their name from the place of the
literal, so different ones have different names. -/
def Named (name : Nat → String) (t : T) : Prop :=
  ∀ p ∈ lits t, ∀ x ∈ fvL p.2, ∀ y ∈ fvL p.2, p.1 x = false → p.1 y = false → name x = name y → x = y

/-- **C28** as claimed: all function literals of a checked function, with any order of the iteration over
the map of captured variables. -/
def C28_claim : Prop := ∀ (name : Nat → String) (ord : List Nat → List Nat) (t : T), (∀ xs, (ord xs).Perm xs) →
  Checked t → Named name t → List.Forall₂ (Captured name ord) (lits t) (conv name ord t).2

/-- **C28**, the part of it that holds: for functions in which `a[i]` with an identifier `a` has no variable in
`i` (`IndexPlain`) and only fields of variables are accessed (`DotPlain`). -/
theorem C28_partial {name : Nat → String} {ord : List Nat → List Nat} {t : T} (hord : ∀ xs, (ord xs).Perm xs)
    (hc : Checked t) (hn : Named name t) (hi : IndexPlain t) (hd : DotPlain t) :
    List.Forall₂ (Captured name ord) (lits t) (conv name ord t).2 := by
  have h := conv_lits name ord t
  rw [List.forall₂_iff_get] at h ⊢
  refine ⟨h.1, fun i h1 h2 => ?_⟩
  obtain ⟨e1, e2, e3⟩ := h.2 i h1 h2
  have hp : (lits t).get ⟨i, h1⟩ ∈ lits t := List.get_mem ..
  generalize (lits t).get ⟨i, h1⟩ = p at *
  generalize (conv name ord t).2.get ⟨i, h2⟩ = hh at *
  have hq := lits_part t p hp
  have hcaps : ∀ x, x ∈ hh.caps ↔ x ∈ fvL p.2 ∧ p.1 x = false := by
    intro x
    rw [e2]
    exact ⟨caps_sound hord (hq.dot hd), fun h => caps_full hord (hq.index hi) (hq.ws hc.ws) h.1 h.2⟩
  refine ⟨e1, hcaps, ?_, ?_, ?_⟩
  · rw [e2]
    exact (hord _).nodup_iff.mpr (identify_nodup _ _)
  · rw [e3]
    refine restoreL_rewrite ?_ _ (cleanL_conv _ (hq.dot hd) ?_)
    · intro x hx y hy
      have hx := (hcaps x).mp hx
      have hy := (hcaps y).mp hy
      exact hn p hp x hx.1 y hy.1 hx.2 hy.2
    · intro f hf hm
      obtain ⟨o, ho, h⟩ := hc.owned hp ((hcaps f).mp hm).1
      rw [hc.flds f (hq.flds f hf) o ho] at h
      cases h
  · intro x hx
    rw [e3] at hx
    obtain ⟨h1, h2⟩ := fvL_rewrite name hh.caps _ x hx
    rw [fvL_conv hord _ (hq.index hi) (hq.dot hd) (hq.ws hc.ws).1] at h1
    cases ho : p.1 x with
    | true => rfl
    | false => exact absurd ((hcaps x).mpr ⟨h1, ho⟩) h2

/-- **C28**, with all field accesses: every variable that a literal mentions is captured, if `a[i]` with an
identifier `a` has no variable in `i`. -/
theorem C28_partial_all {name : Nat → String} {ord : List Nat → List Nat} {t : T} (hord : ∀ xs, (ord xs).Perm xs)
    (hc : Checked t) (hi : IndexPlain t) :
    List.Forall₂ (fun p h => ∀ x ∈ fvL p.2, p.1 x = false → x ∈ h.caps) (lits t) (conv name ord t).2 := by
  have h := conv_lits name ord t
  rw [List.forall₂_iff_get] at h ⊢
  refine ⟨h.1, fun i h1 h2 x hx ho => ?_⟩
  obtain ⟨e1, e2, e3⟩ := h.2 i h1 h2
  have hq := lits_part t _ (List.get_mem (lits t) ⟨i, h1⟩)
  rw [e2]
  exact caps_full hord (hq.index hi) (hq.ws hc.ws) hx ho

/-! ### What the environment holds

The environment is made by a struct constructor with the captured variables as arguments, in order
(`closures.go` 43-46; `Verif/Sema/Closure.lean`, `conv`), and an identifier `x` in the body becomes an
access to the field number `slot x` of the environment. -/

section
variable {σ : Type} {O : Opts} {P : SProg σ}

theorem args_vars {ρ : Env} {ty : Nat → TyR} : ∀ (xs : List Nat) (S S' : Store σ) (vs : List (Option Val)),
    SBig O P (.args ρ S (xs.map (fun x => .var x (ty x))) vs S') → S' = S ∧ vs = xs.map ρ
  | [], S, S', vs, h => by
    cases h
    exact ⟨rfl, rfl⟩
  | x :: xs, S, S', vs, h => by
    cases h with
    | argsCons h1 h2 =>
      cases h1 with
      | var h1 =>
        obtain ⟨e1, e2⟩ := args_vars xs _ _ _ h2
        exact ⟨e1, by rw [e2, List.map_cons, h1]⟩

theorem fields_get {S : Store σ} {a : Word} : ∀ (vs : List Val) (k i : Nat) (v : Val), fields S a k vs → vs[i]? = some v →
    S.heap (a + BitVec.ofNat 64 (8 * (k + i))) = some v
  | [], k, i, v, _, h => by simp at h
  | u :: vs, k, 0, v, hf, h => by
    simp only [List.getElem?_cons_zero, Option.some.injEq] at h
    subst h
    exact hf.1
  | u :: vs, k, i + 1, v, hf, h => by
    have := fields_get vs (k + 1) i v hf.2 (by simpa using h)
    rwa [show k + 1 + i = k + (i + 1) by omega] at this

/-- **C28**, values: let the constructor of the environment be called with the captured variables as arguments.
Then, wherever the body runs with this environment, and as long as the environment is not
written, what an identifier of a captured variable was rewritten to has the value that the variable had
at the call, and no other. -/
theorem C28_value {fd : SFn} {desc : String} {id : Nat} {f : String} {fi : FnInfo} (hb : fd.body = .cons none desc id)
    (hext : fi.ext = false) (hrt : ∀ vs S v S', ¬ P.base.rt f vs S v S') (hone : ∀ g ∈ P.fns, g.name = f → g = fd)
    {name : Nat → String} {caps : List Nat} {ty : Nat → TyR} (hlen : fd.params.length < 2 ^ 59)
    (hn : ∀ x ∈ caps, ∀ y ∈ caps, name x = name y → x = y) {ρ : Env} {S S' : Store σ} {env : Option Val}
    (h : SBig O P (.expr ρ S (.callFn f fi (caps.map (fun x => .var x (ty x)))) env S')) :
    ∃ a, env = some (.ptr a) ∧ ∀ (ρ' : Env) (S1 : Store σ) (e : Nat) (te t : TyR), ρ' e = env →
      (∀ i < caps.length, S1.heap (a + BitVec.ofNat 64 (8 * i)) = S'.heap (a + BitVec.ofNat 64 (8 * i))) →
      ∀ x ∈ caps, ∀ w S2, SBig O P (.expr ρ' S1 (.dot t (.var e te) (8 * slot name caps x)) w S2) ↔ w = ρ x ∧ S2 = S1 := by
  cases h with
  | callRt _ _ h => exact absurd h (hrt _ _ _ _)
  | callExt h => rw [hext] at h; cases h
  | callFn _ ha hm hf _ h =>
    obtain ⟨rfl, rfl⟩ := args_vars caps _ _ _ ha
    have := hone _ hm hf
    subst this
    generalize hvs : caps.map ρ = vs at h
    cases h with
    | fnRet h1 => rw [hb] at h1; cases h1
    | fnEnd h1 => rw [hb] at h1; cases h1
    | fnExpr h1 => rw [hb] at h1; cases h1
    | fnDyn hD => have := hD.body; rw [hb] at this; cases this
    | fnCons h1 h2 h3 h4 =>
      rename_i tag desc' id' vals a S1
      rw [hb] at h1
      cases h1
      have h5 := writeAll_fields vals S1 S' a 0 (by omega) (by simpa using h4)
      refine ⟨a, rfl, fun ρ' S2 e te t he hsame x hx w S3 => ?_⟩
      have hs := slot_get hn hx
      have hlt : slot name caps x < caps.length := (List.getElem?_eq_some_iff.mp hs).1
      have hv : (caps.map ρ)[slot name caps x]? = some (ρ x) := by rw [List.getElem?_map, hs]; rfl
      rw [hvs, List.getElem?_map] at hv
      cases hu : vals[slot name caps x]? with
      | none => rw [hu] at hv; cases hv
      | some u =>
        rw [hu] at hv
        have hu' : some u = ρ x := by simpa using hv
        have hh := fields_get vals 0 _ u h5.1 hu
        rw [Nat.zero_add, ← hsame _ hlt] at hh
        constructor
        · intro h
          cases h with
          | dot h1 h2 =>
            cases h1 with
            | var h1 =>
              rw [he] at h1
              cases h1
              rw [hh] at h2
              exact ⟨by rw [← h2, hu'], rfl⟩
        · rintro ⟨rfl, rfl⟩
          rw [← hu']
          exact .dot (.var he) hh
end

/-! ### Examples -/

/-- Names. -/
def clName (x : Nat) : String := String.ofList (List.replicate x 'a')

theorem clName_inj {x y : Nat} (h : clName x = clName y) : x = y := by
  have := congrArg List.length (String.ofList_injective h)
  simpa using this

def clOwn (xs : List Nat) : Scope := fun x => xs.contains x

/-- `fn(x0, x1, x2) { fn(x3) { x3; x0.f10; fn(x4) { x4; x1; x3 }; if … { x5; x2[…] } } }` -/
def clT : T := .scope (clOwn [0, 1, 2]) [.lit (clOwn [3]) [.id 3, .dot (.id 0) 10,
  .lit (clOwn [4]) [.id 4, .id 1, .id 3], .scope (clOwn [5]) [.id 5, .index (.id 2) .glob]]]

/-- An example: the outer literal captures `x0`, `x1` (for the inner one) and `x2`, the inner one `x1` and `x3`. -/
theorem C28_example : List.Forall₂ (Captured clName id) (lits clT) (conv clName id clT).2 ∧
    (conv clName id clT).2.map (·.caps) = [[1, 3], [0, 1, 2]] := by
  refine ⟨C28_partial (fun _ => .refl _) ⟨?_, ?_, ?_⟩ (fun _ _ _ _ _ _ _ _ h => clName_inj h) ?_ ?_, ?_⟩
  · decide
  · simp [clT, every, everyL, Apart, clOwn]
  · simp [clT, every, everyL, flds, fldsL, clOwn]
  · simp [clT, IndexPlain, IndexPlainL, fv]
  · simp [clT, DotPlain, DotPlainL]
  · decide

def clEnvFn : SFn := { name := "env.1", params := [(0, ⟨.integer, 0⟩), (1, ⟨.integer, 0⟩)], body := .cons none "env.1" 9 }

def clP : SProg Nat :=
  { fns := [clEnvFn],
    base :=
      { fns := [], alloc := "claralloc", ioob := "ioob", str := fun _ => 0, fnAddr := fun _ => 0,
        ext := fun _ _ _ _ _ => False,
        rt := fun f _ S v S' => f = "claralloc" ∧ v = some (.ptr 64) ∧
          S' = { S with heap := fun w => if w = 64 ∨ w = 72 then some (.int 0) else S.heap w },
        extNeed := fun _ => 0 } }

/-- An example for the values: the variables 1 and 3 with the values 5 and 7 are captured; the variable 3 is read from the
environment. -/
theorem C28_value_example : ∃ S' : Store Nat, ∃ env,
    SBig codeOpts clP (.expr (fun x => if x = 1 then some (.int 5) else some (.int 7)) ⟨fun _ => none, 0⟩
      (.callFn "env.1" { ret := ⟨.struct, 0⟩ } ([1, 3].map (fun x => .var x ⟨.integer, 0⟩))) env S') ∧
    SBig codeOpts clP (.expr (fun _ => env) S' (.dot ⟨.integer, 0⟩ (.var 0 ⟨.struct, 0⟩) (8 * slot clName [1, 3] 3)) (some (.int 7)) S') := by
  have h : SBig codeOpts clP (.expr (fun x => if x = 1 then some (.int 5) else some (.int 7)) ⟨fun _ => none, 0⟩
      (.callFn "env.1" { ret := ⟨.struct, 0⟩ } ([1, 3].map (fun x => .var x ⟨.integer, 0⟩))) (some (.ptr 64))
      ⟨fun w => if w = 72 then some (.int 7) else if w = 64 then some (.int 5) else if w = 64 ∨ w = 72 then some (.int 0) else none, 0⟩) :=
    .callFn rfl (.argsCons (.var rfl) (.argsCons (.var rfl) .argsNil)) (List.mem_singleton_self _) rfl rfl
      (.fnCons (vals := [.int 5, .int 7]) (desc := "env.1") (id := 9) (tag := none) rfl rfl ⟨rfl, rfl, rfl⟩ rfl)
  refine ⟨_, _, h, ?_⟩
  obtain ⟨a, ha, h2⟩ := C28_value (name := clName) (fd := clEnvFn) rfl rfl (by rintro vs S v S' ⟨h, -⟩; simp at h)
    (fun g hg _ => List.mem_singleton.mp hg) (by decide) (fun _ _ _ _ h => clName_inj h) h
  exact (h2 (fun _ => some (.ptr 64)) _ 0 ⟨.struct, 0⟩ ⟨.integer, 0⟩ rfl (fun _ _ => rfl) 3 (by decide) _ _).mpr ⟨rfl, rfl⟩

/-- `fn(a, i) { fn() { a[i] } }` -/
def clIndex : T := .scope (clOwn [0, 1]) [.lit (clOwn []) [.index (.id 0) (.id 1)]]

/-- **C28** is false in the code: `fn() { a[i] }` does not capture `i` (`closures.go` 164-168), whatever the order
of the map; the body still mentions `i`, which is not a variable of the hoisted function. -/
theorem C28_violated : ¬ C28_claim := by
  intro h
  have := h clName id clIndex (fun _ => .refl _)
    ⟨by decide, by simp [clIndex, every, everyL, Apart, clOwn], by simp [clIndex, every, everyL, flds, fldsL]⟩
    (fun _ _ _ _ _ _ _ _ h => clName_inj h)
  have e1 : lits clIndex = [(clOwn [], [.index (.id 0) (.id 1)])] := rfl
  have e2 : (conv clName id clIndex).2 = [⟨clOwn [], rewriteL clName [0] [.index (.id 0) (.id 1)], [0]⟩] := rfl
  rw [e1, e2] at this
  cases this with
  | cons h1 _ => exact absurd ((h1.caps 1).mpr ⟨by decide, rfl⟩) (by decide)

/-- `fn(a) { fn() { a.f10.f11 } }` -/
def clField : T := .scope (clOwn [0]) [.lit (clOwn []) [.dot (.dot (.id 0) 10) 11]]

/-- **C28** is false in the code also for `fn() { a.b.c }`: the field `c` is captured as if it was a variable. -/
theorem C28_violated_field : ¬ C28_claim := by
  intro h
  have := h clName id clField (fun _ => .refl _)
    ⟨by decide, by simp [clField, every, everyL, Apart, clOwn], by simp [clField, every, everyL, flds, fldsL, clOwn]⟩
    (fun _ _ _ _ _ _ _ _ h => clName_inj h)
  have e1 : lits clField = [(clOwn [], [.dot (.dot (.id 0) 10) 11])] := rfl
  have e2 : (conv clName id clField).2 = [⟨clOwn [], rewriteL clName [0, 11] [.dot (.dot (.id 0) 10) 11], [0, 11]⟩] := rfl
  rw [e1, e2] at this
  cases this with
  | cons h1 _ => exact absurd ((h1.caps 11).mp (by decide)).1 (by decide)

/-- `fn(a, c) { fn() { a.b.c; c } }`, with the variable `c` the symbol 1 and the field `c` the symbol 11. -/
def clClash : T := .scope (clOwn [0, 1]) [.lit (clOwn []) [.dot (.dot (.id 0) 10) 11, .id 1]]

def clSame (x : Nat) : String := if x = 11 then clName 1 else clName x

/-- **C28** is false in the code also for values: in `fn() { a.b.c; c }` both the field `c` and the variable `c` are captured,
and as fields of the environment are found by name, the identifiers of both become the same field of
the environment: in any order of the map, one of the two does not get its own. -/
theorem C28_violated_name {ord : List Nat → List Nat} (hord : ∀ xs, (ord xs).Perm xs) :
    Checked clClash ∧ Named clSame clClash ∧
    ∃ h, (conv clSame ord clClash).2 = [h] ∧ 1 ∈ h.caps ∧ 11 ∈ h.caps ∧ slot clSame h.caps 1 = slot clSame h.caps 11 := by
  refine ⟨⟨by decide, by simp [clClash, every, everyL, Apart, clOwn], by simp [clClash, every, everyL, flds, fldsL, clOwn]⟩, ?_, ?_⟩
  · intro p hp x hx y hy _ _ hn
    have e1 : lits clClash = [(clOwn [], [.dot (.dot (.id 0) 10) 11, .id 1])] := rfl
    rw [e1, List.mem_singleton] at hp
    subst hp
    simp only [fvL, fv, List.append_nil, List.mem_append, List.mem_singleton] at hx hy
    have hx' : x ≠ 11 := by omega
    have hy' : y ≠ 11 := by omega
    rw [clSame, clSame, if_neg hx', if_neg hy'] at hn
    exact clName_inj hn
  · have e : identify (clOwn []) [.dot (.dot (.id 0) 10) 11, .id 1] = [0, 11, 1] := by decide
    have hp := hord [0, 11, 1]
    have hne : ord [0, 11, 1] ≠ [] := by
      intro h
      rw [h] at hp
      exact absurd hp.length_eq (by decide)
    refine ⟨⟨clOwn [], rewriteL clSame (ord [0, 11, 1]) [.dot (.dot (.id 0) 10) 11, .id 1], ord [0, 11, 1]⟩, ?_, hp.mem_iff.mpr (by decide),
      hp.mem_iff.mpr (by decide), ?_⟩
    · simp only [clClash, conv, convL, e, if_neg hne, List.append_nil, List.nil_append]
    · simp [slot, clSame]

end Clara.Props
