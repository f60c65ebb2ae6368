import Verif.Sema.DeclareMeans
import Verif.Props.Check
set_option linter.unusedVariables false
/-
C64: copies of generic structs have the declared fields.
C65: declarations mean what is written.

`declare k ds` (`Verif/Sema/Declare.lean`) is `processTopLevelTypes` and `generateStructConstructor`; `k` bounds the
depth of declared structs inside of each other that `substituteType` follows.  `substituteType` copies a struct with
its fields, at the moment it is called; `t.right T` (`Verif/Sema/DeclareSpec.lean`) says that every copy inside of `t`
has the fields of the declaration with its type arguments.
-/
namespace Clara.Props
open Clara.Types Clara.Sema.Dcl
open Clara.Sema.Chk (TyN Head FnBody assign)

/-- **C64**, for the types of declarations: every copy has the fields of the declared struct. -/
def C64_claim : Prop :=
  ∀ k ds T items, Identified ds → declare k ds = .ok (T, items, []) → T.right

/-- **C64**, for the types that type checking makes of them. -/
def C64_claim_subst : Prop :=
  ∀ k ds T items, Identified ds → declare k ds = .ok (T, items, []) →
    ∀ b j t u, t.right T → (∀ e ∈ b, e.2.right T) → T.subst b j t = .ok u → u.right T

def dcTy (x : String) : TyN := .named x false []
def dcOf (x : String) (ts : List TyN) : TyN := .named x true ts

/-- `fn f(x: b«int») { }`, `struct c«T» { z: T }`, `struct b«T» { y: c«T» }`. -/
def dcEarly : List Dcl := [
  .fn ⟨"f", ⟨[], [("x", dcOf "b" [dcTy "int"])], none⟩, .block [], false⟩,
  .struct "c" [("T", 0)] [("z", dcTy "T")],
  .struct "b" [("T", 1)] [("y", dcOf "c" [dcTy "T"])]]

/-- **C64**, violated by the order of declarations: `x.y` has type `c«T»`, where `T` is the type parameter of `c`,
because `b«int»` is made before the fields of `b` are. -/
theorem C64_violated_order : ¬ C64_claim := by
  intro h
  have hd : ∃ T items, declare 5 dcEarly = .ok (T, items, []) ∧
      T.structs.lookup "b" = some ⟨[("T", 1)], [("y", some (.inst "c" [.param 1] ["z"] [.param 1]))]⟩ ∧
      (T.fns[2]?).map FRec.params = some [("x", some (.inst "b" [.prim .int] ["y"] [.inst "c" [.param 0] ["z"] [.param 0]]))] ∧
      T.arity "c" = [0] :=
    ⟨_, _, rfl, rfl, rfl, rfl⟩
  obtain ⟨T, items, hd, hb, hp, ha⟩ := hd
  have hr := h 5 dcEarly T items (by intro d hd; simp [dcEarly] at hd; rcases hd with rfl | rfl | rfl <;> simp [Dcl.tps]) hd
  cases hf : T.fns[2]? with
  | none => rw [hf] at hp; cases hp
  | some f =>
    rw [hf] at hp
    simp only [Option.map_some, Option.some.injEq] at hp
    have := hr.params f (List.mem_of_getElem? hf) _ (by rw [hp]; exact List.mem_cons_self) _ rfl
    simp only [RTy.right] at this
    obtain ⟨_, _, S, hS, _, _, h1⟩ := this
    rw [hb] at hS
    cases hS
    simp [SRec.with, RTy.ty, tyAll, Ty.inst, instAll, assign, ha] at h1

/-- `enum e«T» { A(x: b«T») }`, `struct b«V» { y: e }`. -/
def dcBare : List Dcl := [
  .enum "e" [("T", 0)] [("A", [("x", dcOf "b" [dcTy "T"])])],
  .struct "b" [("V", 1)] [("y", dcTy "e")]]

/-- **C64**, violated by type parameters that leak: `e` without type arguments is accepted and means `e«T»`, where
`T` is the type parameter of `e`.  The parameter of `A` has type `b«T»`; with `int` for `T` its field has type
`e«int»`. -/
theorem C64_violated_bare : ¬ C64_claim_subst := by
  intro h
  have hd : ∃ T items, declare 5 dcBare = .ok (T, items, []) ∧
      T.structs.lookup "b" = some ⟨[("V", 1)], [("y", some (.enum "e" [.param 0]))]⟩ ∧
      (T.fns[2]?).map FRec.params = some [("x", some (.inst "b" [.param 0] ["y"] [.enum "e" [.param 0]]))] ∧
      T.subst [(0, .prim .int)] 1 (.inst "b" [.param 0] ["y"] [.enum "e" [.param 0]]) =
        .ok (.inst "b" [.prim .int] ["y"] [.enum "e" [.prim .int]]) :=
    ⟨_, _, rfl, rfl, rfl, rfl⟩
  obtain ⟨T, items, hd, hb, _, hs⟩ := hd
  have := h 5 dcBare T items (by intro d hd; simp [dcBare] at hd; rcases hd with rfl | rfl <;> simp [Dcl.tps]) hd
    _ _ _ _ (by
      simp only [RTy.right, rightAll, and_true, true_and]
      exact ⟨_, hb, rfl, rfl, by simp [SRec.with, RTy.ty, tyAll, Ty.inst, instAll, assign, List.lookup]⟩)
    (by intro e he; simp only [List.mem_singleton] at he; subst he; simp [RTy.right]) hs
  simp only [RTy.right] at this
  obtain ⟨_, _, S, hS, _, _, h1⟩ := this
  rw [hb] at hS
  cases hS
  simp [SRec.with, RTy.ty, tyAll, Ty.inst, instAll, assign, List.lookup] at h1

/-- **C64**, partial: if structs are declared before they are given type arguments (`Ordered`) and generic ones have type
arguments in the fields of structs (`Saturated`), every copy has the fields of the declared struct. -/
theorem C64_partial {k : Nat} {ds : List Dcl} {T : Tab} {items : List Item} (hi : Identified ds) (hs : Saturated ds) (ho : Ordered ds)
    (h : declare k ds = .ok (T, items, [])) : T.right := by
  obtain ⟨T1, T2, F, R⟩ := declare_run hi h
  exact (structConses_right R.conses (R.right hs ho)).1

/-- **C64**, partial: type checking keeps it so, and the new type is the old one with the type arguments. -/
theorem C64_partial_subst {k : Nat} {ds : List Dcl} {T : Tab} {items : List Item} (hi : Identified ds) (hs : Saturated ds) (ho : Ordered ds)
    (h : declare k ds = .ok (T, items, [])) {b : List (Nat × RTy)} {j : Nat} {t u : RTy} (ht : t.right T) (hb : ∀ e ∈ b, e.2.right T)
    (hu : T.subst b j t = .ok u) : u.right T ∧ u.ty T.arity = (t.ty T.arity).inst (sub T.arity b) := by
  obtain ⟨T1, T2, F, R⟩ := declare_run hi h
  have hr := structConses_right R.conses (R.right hs ho)
  have hF : Sealed T := by
    have ha : T.arity = F.arity := by funext n; simp only [Tab.arity, hr.2]
    intro n S hS
    rw [hr.2] at hS
    rw [ha]
    exact R.sealed hs n S hS
  refine ⟨subst_right hF (P := fun _ => True) ⟨rfl, fun _ _ => rfl, fun n S _ hS p hp t ht => ⟨hr.1.structs n S hS p hp t ht, fun _ _ => trivial⟩⟩ hb ht
    (fun _ _ => trivial) hu, subst_ty hu⟩

theorem field_inst {ar : String → List Nat} {σ : Nat → Ty} {x : String} {u : RTy} : ∀ {fs : List (String × Option RTy)} {us : List RTy},
    (fs.map fun p => p.2.map fun t => (t.ty ar).inst σ) = (tyAll ar us).map some → ((fs.map (·.1)).zip us).lookup x = some u →
    ∃ t, (fs.filterMap fun p => p.2.map fun t => (p.1, t.ty ar)).lookup x = some t ∧ u.ty ar = t.inst σ
  | [], us, _, h => by simp at h
  | (y, o) :: fs, [], h, _ => by simp [tyAll] at h
  | (y, o) :: fs, v :: us, h, hl => by
    simp only [List.map_cons, tyAll, List.cons.injEq, Option.map_eq_some_iff] at h
    obtain ⟨⟨t, rfl, h1⟩, h2⟩ := h
    simp only [List.map_cons, List.zip_cons_cons, lookup_cons'] at hl
    simp only [List.filterMap_cons, Option.map_some, lookup_cons']
    by_cases hx : x = y
    · simp only [hx, if_true, Option.some.injEq] at hl ⊢
      subst hl
      exact ⟨_, rfl, h1.symm⟩
    · simp only [hx, if_false] at hl ⊢
      exact field_inst h2 hl

/-- **C64**, the fields: the field of a right copy has the type that the typing rules (`Verif/Sema/Typing.lean`) give it. -/
theorem C64_field {T : Tab} {n : String} {ts us : List RTy} {xs : List String} (h : (RTy.inst n ts xs us).right T) {x : String} {u : RTy}
    (hu : (xs.zip us).lookup x = some u) : Clara.Sema.Chk.FieldOf T.decls n (tyAll T.arity ts) x (u.ty T.arity) := by
  simp only [RTy.right] at h
  obtain ⟨_, _, S, hS, _, rfl, h1⟩ := h
  obtain ⟨t, h2, h3⟩ := field_inst h1 hu
  refine ⟨⟨S.tps.map (·.2), S.fields.filterMap fun p => p.2.map fun t => (p.1, t.ty T.arity)⟩, t, by simp only [Tab.decls, hS, Option.map_some], h2, ?_⟩
  rw [h3]
  rfl

/-- `struct c«T» { z: T }`, `struct b«T» { y: c«T», w: d }`, `fn f(x: b«int») c«d» { .. }`, `struct d { v: int }`. -/
def dcGood : List Dcl := [
  .struct "c" [("T", 0)] [("z", dcTy "T")],
  .struct "b" [("T", 1)] [("y", dcOf "c" [dcTy "T"]), ("w", dcTy "d")],
  .fn ⟨"f", ⟨[], [("x", dcOf "b" [dcTy "int"])], some (dcOf "c" [dcTy "d"])⟩, .none_, false⟩,
  .struct "d" [] [("v", dcTy "int")]]

/-- It is accepted, the parameter has type `b«int»` with a field of type `c«int»`, and the theorems apply. -/
example : Identified dcGood ∧ Saturated dcGood ∧ Ordered dcGood ∧ ∃ T items, declare 5 dcGood = .ok (T, items, []) ∧
    (T.fns[2]?).map FRec.params = some [("x", some (.inst "b" [.prim .int] ["y", "w"] [.inst "c" [.prim .int] ["z"] [.prim .int], .inst "d" [] ["v"] [.prim .int]]))] := by
  refine ⟨?_, ?_, ?_, _, _, rfl, rfl⟩
  · intro d hd
    simp only [dcGood, List.mem_cons, List.not_mem_nil, or_false] at hd
    rcases hd with rfl | rfl | rfl | rfl <;> simp [Dcl.tps]
  · intro n tps fs hm p hp y hy
    simp only [dcGood, List.mem_cons, List.not_mem_nil, or_false, Dcl.struct.injEq, reduceCtorEq, false_or] at hm
    rcases hm with ⟨rfl, rfl, rfl⟩ | ⟨rfl, rfl, rfl⟩ | ⟨rfl, rfl, rfl⟩
    all_goals
      simp only [List.mem_cons, List.not_mem_nil, or_false] at hp
      rcases hp with rfl | rfl <;> simp_all [bare, bareAll, dcTy, dcOf, dcGood, Dcl.generic]
  · have hdecl : ∀ n tps fs, Dcl.struct n tps fs ∈ dcGood →
        (n = "c" ∧ bareAll (fs.map (·.2)) = ["T"] ∧ appliedAll (fs.map (·.2)) = []) ∨
        (n = "b" ∧ tps = [("T", 1)] ∧ fs = [("y", dcOf "c" [dcTy "T"]), ("w", dcTy "d")]) ∨
        (n = "d" ∧ bareAll (fs.map (·.2)) = ["int"] ∧ appliedAll (fs.map (·.2)) = []) := by
      intro n tps fs hm
      simp only [dcGood, List.mem_cons, List.not_mem_nil, or_false, Dcl.struct.injEq, reduceCtorEq, false_or] at hm
      rcases hm with ⟨rfl, rfl, rfl⟩ | ⟨rfl, rfl, rfl⟩ | ⟨rfl, rfl, rfl⟩ <;>
        simp [bare, bareAll, applied, appliedAll, dcTy]
    have hno : ∀ pre x, x ≠ "c" → x ≠ "b" → x ≠ "d" → Ready dcGood pre x := by
      intro pre x h1 h2 h3
      refine .mk (fun tps fs hm => ?_) (fun tps fs hm => ?_) <;> rcases hdecl x tps fs hm with h | h | h <;> simp_all
    have hc : ∀ pre, Ready dcGood pre "c" := by
      intro pre
      refine .mk (fun tps fs hm => ?_) (fun tps fs hm => ?_) <;> rcases hdecl _ tps fs hm with ⟨h, h1, h2⟩ | ⟨h, _⟩ | ⟨h, _⟩
      any_goals (first | exact absurd h (by decide) | fail)
      · exact .inr h2
      · rw [h1, h2]
        simpa using hno pre "T" (by decide) (by decide) (by decide)
    have hdd : ∀ pre, Ready dcGood pre "d" := by
      intro pre
      refine .mk (fun tps fs hm => ?_) (fun tps fs hm => ?_) <;> rcases hdecl _ tps fs hm with ⟨h, _⟩ | ⟨h, _⟩ | ⟨h, h1, h2⟩
      any_goals (first | exact absurd h (by decide) | fail)
      · exact .inr h2
      · rw [h1, h2]
        simpa using hno pre "int" (by decide) (by decide) (by decide)
    have hb : ∀ pre, Dcl.struct "b" [("T", 1)] [("y", dcOf "c" [dcTy "T"]), ("w", dcTy "d")] ∈ pre → Ready dcGood pre "b" := by
      intro pre hp
      refine .mk (fun tps fs hm => ?_) (fun tps fs hm => ?_) <;> rcases hdecl _ tps fs hm with ⟨h, _⟩ | ⟨h, rfl, rfl⟩ | ⟨h, _⟩
      any_goals (first | exact absurd h (by decide) | fail)
      · exact .inl hp
      · intro y hy
        simp only [bare, bareAll, applied, appliedAll, dcTy, dcOf, List.map_cons, List.map_nil, List.append_nil, List.nil_append, List.cons_append, List.mem_cons,
          List.not_mem_nil, or_false] at hy
        rcases hy with rfl | rfl | rfl
        · exact hno pre _ (by decide) (by decide) (by decide)
        · exact hdd pre
        · exact hc pre
    intro pre d post hd x hx
    rcases pre with _ | ⟨p, _ | ⟨q, _ | ⟨r, _ | ⟨s, pre⟩⟩⟩⟩ <;>
      simp only [dcGood, List.nil_append, List.cons_append, List.cons.injEq, List.nil_eq, List.append_eq_nil_iff, reduceCtorEq, and_false] at hd
    · obtain ⟨rfl, _⟩ := hd
      simp [Dcl.applied, appliedAll, applied, dcTy] at hx
    · obtain ⟨_, rfl, _⟩ := hd
      simp only [Dcl.applied, appliedAll, applied, dcTy, dcOf, List.map_cons, List.map_nil, List.append_nil, List.mem_cons, List.not_mem_nil, or_false] at hx
      subst hx
      exact hc _
    · obtain ⟨_, rfl, rfl, _⟩ := hd
      simp only [Dcl.applied, appliedAll, applied, dcTy, dcOf, List.map_cons, List.map_nil, List.append_nil, Option.toList, List.cons_append, List.nil_append, List.mem_cons, List.not_mem_nil,
        or_false] at hx
      rcases hx with rfl | rfl
      · exact hb _ (by simp)
      · exact hc _
    · obtain ⟨_, _, _, rfl, _⟩ := hd
      simp [Dcl.applied, appliedAll, applied, dcTy] at hx

/-! ### C65 -/

/-- **C65**: if the declarations are accepted, the tables that type checking uses are the ones that the declarations describe
(`Verif/Sema/DeclareRules.lean`), and so are the functions that it checks. -/
theorem C65 {k : Nat} {ds : List Dcl} {T : Tab} {items : List Item} (hi : Identified ds) (h : declare k ds = .ok (T, items, [])) :
    ∃ ts us, Declared ds T.decls T.scope (T.items items) ts us := by
  obtain ⟨T1, T2, F, R⟩ := declare_run hi h
  exact R.all

theorem fnAlts_typed {x : String} : ∀ {l : List (String × Ty)} {id : Nat}, ∀ a ∈ fnAlts x id l, ∃ t, a.ty = some t
  | [], id, a, h => by simp [fnAlts] at h
  | (y, t) :: l, id, a, h => by
    simp only [fnAlts] at h
    split at h
    · rcases List.mem_cons.1 h with rfl | h
      · exact ⟨t, rfl⟩
      · exact fnAlts_typed a h
    · exact fnAlts_typed a h

/-- **C65**, all symbols have types, which is what C59, C60 and C62 ask for. -/
theorem C65_typed {k : Nat} {ds : List Dcl} {T : Tab} {items : List Item} (hi : Identified ds) (h : declare k ds = .ok (T, items, [])) :
    ∀ g ∈ T.items items, ckTyped T.scope g := by
  obtain ⟨ts, us, hd⟩ := C65 hi h
  intro g hg
  obtain ⟨s, _, hs⟩ := all₂_mem hd.bodies g hg
  obtain ⟨vs, _, ho⟩ := hs.types
  unfold ckTyped
  rw [ho]
  refine Clara.Sema.Chk.good_scope (fun e he => ?_) (Clara.Sema.Chk.good_cons (fun x sy hx => ?_) (by intro _ hm; cases hm))
  · rcases List.mem_append.1 he with he | he
    · obtain ⟨p, _, rfl⟩ := List.mem_map.1 he
      exact ⟨_, _, rfl, rfl⟩
    · obtain ⟨p, _, rfl⟩ := List.mem_map.1 he
      exact ⟨_, _, rfl, rfl⟩
  · have hty : ∀ a ∈ typeAlts ds x ++ fnAlts x 0 (builtinFns ++ ts ++ us), ∃ t, a.ty = some t := by
      intro a ha
      rcases List.mem_append.1 ha with ha | ha
      · unfold typeAlts at ha
        rcases List.mem_append.1 ha with ha | ha <;> obtain ⟨p, _, rfl⟩ := List.mem_map.1 ha <;> exact ⟨_, rfl⟩
      · exact fnAlts_typed a ha
    rw [hd.lookup x] at hx
    split at hx
    · cases hx
    · rename_i a as hl
      cases hx
      rw [hl] at hty
      exact ⟨by simp, hty⟩

/-- **C65** with C59: a program whose declarations and functions are accepted is well typed (in its own tables), if its
functions are as C59 needs them. -/
theorem C65_checked {k n : Nat} {ds : List Dcl} {T : Tab} {items : List Item} {fs' : List Clara.Sema.Chk.Fn} (hi : Identified ds) (h : declare k ds = .ok (T, items, []))
    (hq : ∀ f ∈ T.items items, f.body.raw ∧ f.body.quiet T.decls) (hc : Clara.Sema.Chk.chkProg T.decls n T.scope (T.items items) = .ok (fs', [])) :
    All₂ (fun f f' => f'.wt true T.decls T.scope f.own ∧ f'.ret = f.ret) (T.items items) fs' :=
  C59_partial (fun f hf => ⟨C65_typed hi h f hf, hq f hf⟩) hc

open Clara.Sema.Chk in
/-- `enum opt«T» { Some(v: T) None() }`, `struct pair«A, B» { a: A b: B }`,
`fn fst«A, B»(p: pair«A, B») A { return p.a }`, `fn main() int { o := Some("x") return Pair(1, o).fst() }`. -/
def dcProg : List Dcl := [
  .enum "opt" [("T", 0)] [("Some", [("v", dcTy "T")]), ("None", [])],
  .struct "pair" [("A", 1), ("B", 2)] [("a", dcTy "A"), ("b", dcTy "B")],
  .fn ⟨"fst", ⟨[("A", 3), ("B", 4)], [("p", dcOf "pair" [dcTy "A", dcTy "B"])], some (dcTy "A")⟩, .block [.ret (.dot (ckId "p") (ckId "a") {})], false⟩,
  .fn ⟨"main", ⟨[], [], some (dcTy "int")⟩, .block [
    .das (ckId "o") (.call (ckId "Some") [] [.lit (.string "x") {}] {}),
    .ret (.dot (.call (ckId "Pair") [] [.lit (.int 1 false) {}, ckId "o"] {}) (.call (ckId "fst") [] [] {}) {})], false⟩]

/-- It is accepted by both phases; `fst` has two type parameters, `Pair` makes a `pair«A, B»`, and the members of `opt` are
the functions 2 and 3. -/
example : Identified dcProg ∧ ∃ T items fs', declare 5 dcProg = .ok (T, items, []) ∧
    Clara.Sema.Chk.chkProg T.decls 9 T.scope (T.items items) = .ok (fs', []) ∧ T.decls.members "opt" = [2, 3] ∧
    T.scope.lookup "fst" = some [{ ty := some (.fn { tps := [3, 4] } [.struct "pair" [.param 3, .param 4]] (.param 3)), isGlobal := true, fid := 4 }] ∧
    T.scope.lookup "Pair" = some [{ ty := some (.fn { kind := .structCons, tps := [1, 2] } [.param 1, .param 2] (.struct "pair" [.param 1, .param 2])), isGlobal := true, fid := 6 }] := by
  refine ⟨?_, _, _, _, rfl, rfl, rfl, rfl, rfl⟩
  intro d hd
  simp only [dcProg, List.mem_cons, List.not_mem_nil, or_false] at hd
  rcases hd with rfl | rfl | rfl | rfl <;> simp [Dcl.tps]

end Clara.Props
