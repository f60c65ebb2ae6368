import Verif.Gen.RootStmts
/-
C40: the root map of a call lists the pointer variables in scope.
C44: intermediate values held across calls.

`fd.sites` are the calls of the function with the variables in scope and the intermediate values at each of
them, read off the syntax tree (`Gen/Sites.lean`); `maps` collects the root maps from the code, the first one
being the header of the function object; `stackWalk` follows the pushes and pops of the code.
-/
namespace Clara.Props
open Clara.Gen

theorem all2_length {α β : Type} {R : α → β → Prop} {a : List α} {b : List β} (h : All2 R a b) : a.length = b.length := by
  induction h with
  | nil => rfl
  | cons _ _ ih => simp [ih]

theorem all2_get {α β : Type} {R : α → β → Prop} {a : List α} {b : List β} (h : All2 R a b) {i : Nat} {x : α} {y : β}
    (hx : a[i]? = some x) (hy : b[i]? = some y) : R x y := by
  induction h generalizing i with
  | nil => simp at hx
  | cons r _ ih =>
    cases i with
    | zero => simp only [List.getElem?_cons_zero, Option.some.injEq] at hx hy; rw [← hx, ← hy]; exact r
    | succ i => exact ih hx hy

theorem rootedFrom_mem {k : Nat} {ts : List Temp} {p : Nat × TyR} :
    p ∈ rootedFrom k ts ↔ ∃ j i : Nat, ts[j]? = some (.arg i p.2) ∧ p.2.kind.isPointer = true ∧ p.1 = 8 * (k + j) := by
  induction ts generalizing k with
  | nil => simp [rootedFrom]
  | cons t ts ih =>
    have step : p ∈ rootedFrom (k + 1) ts ↔ ∃ j i : Nat, (t :: ts)[j + 1]? = some (.arg i p.2) ∧ p.2.kind.isPointer = true ∧ p.1 = 8 * (k + (j + 1)) := by
      rw [ih]
      simp only [List.getElem?_cons_succ, show ∀ j, k + 1 + j = k + (j + 1) from fun j => by omega]
    cases t with
    | arg i t =>
      simp only [rootedFrom, List.mem_append, step]
      constructor
      · rintro (h | ⟨j, i, h⟩)
        · split at h
          · rename_i hk
            rw [List.mem_singleton] at h
            exact ⟨0, i, by rw [h]; rfl, by rw [h]; exact hk, by rw [h]; rfl⟩
          · cases h
        · exact ⟨j + 1, i, h⟩
      · rintro ⟨j, i', h1, h2, h3⟩
        cases j with
        | zero =>
          simp only [List.getElem?_cons_zero, Option.some.injEq, Temp.arg.injEq] at h1
          left
          rw [h1.2, if_pos h2, List.mem_singleton]
          exact Prod.ext h3 rfl
        | succ j => exact .inr ⟨j, i', h1, h2, h3⟩
    | _ =>
      simp only [rootedFrom, step]
      constructor
      · rintro ⟨j, i, h⟩; exact ⟨j + 1, i, h⟩
      · rintro ⟨j, i, h1, h2⟩
        cases j with
        | zero => simp at h1
        | succ j => exact ⟨j, i, h1, h2⟩

theorem maps_func (alloc : String) (fd : FnDef) (lbl : Nat) : maps (genFunc alloc fd lbl).1 = [] :: maps (fd.inner alloc lbl) := by
  rw [genFunc_inner]; rfl

theorem inner_panic {alloc : String} {fd : FnDef} {lbl : Nat} (h : Ev.panic ∉ (genFunc alloc fd lbl).1) : Ev.panic ∉ fd.inner alloc lbl := by
  rw [genFunc_inner] at h
  simp only [List.mem_cons, not_or] at h
  exact h.2.2.2.2

theorem slot_inj {fd : FnDef} {x y : Nat} (hx : x ∈ fd.syms) (h : fd.slot x = fd.slot y) : x = y := by
  simp only [FnDef.slot, Nat.add_right_cancel_iff] at h
  have hx' := List.idxOf_lt_length_of_mem hx
  have h1 : fd.syms[fd.syms.idxOf x]? = some x := by rw [List.getElem?_eq_getElem hx', List.getElem_idxOf]
  have hy' : fd.syms.idxOf y < fd.syms.length := by rw [← h]; exact hx'
  have h2 : fd.syms[fd.syms.idxOf y]? = some y := by rw [List.getElem?_eq_getElem hy', List.getElem_idxOf]
  rw [h, h2] at h1
  exact (Option.some.inj h1).symm

/-! ### C40 -/

/-- The map contains the slot of every pointer variable in scope. -/
def HasLive (fd : FnDef) (s : Site) (m : List Nat) : Prop :=
  ∀ x t, (x, t) ∈ s.vars → t.kind.isPointer = true → fd.slot x ∈ m

/-- The map contains no slot of a variable of the function that is not in scope. -/
def NoEnded (fd : FnDef) (s : Site) (m : List Nat) : Prop :=
  ∀ x ∈ fd.syms, (∀ t, (x, t) ∉ s.vars) → fd.slot x ∉ m

/-- The code of the function has one root map for each call, and `R` holds for each call and its map. -/
def EachMap (alloc : String) (fd : FnDef) (lbl : Nat) (R : Site → List Nat → Prop) : Prop :=
  ∃ ms, maps (genFunc alloc fd lbl).1 = [] :: ms ∧ ms.length = fd.sites.length ∧
    ∀ (i : Nat) (s : Site) (m : List Nat), fd.sites[i]? = some s → ms[i]? = some m → R s m

/-- C40 as claimed. -/
def C40_claim : Prop := ∀ (alloc : String) (fd : FnDef) (lbl : Nat), Ev.panic ∉ (genFunc alloc fd lbl).1 → fd.body.direct = true →
  (fd.params.map (·.1)).Nodup → EachMap alloc fd lbl (fun s m => HasLive fd s m ∧ NoEnded fd s m)

theorem each_of_st {P : List (Nat × TyR) → List (Nat × TyR) → Prop} {alloc : String} {fd : FnDef} {lbl : Nat}
    (h : StCalls P fd.frame (fd.inner alloc lbl) fd.sites) (hp : Ev.panic ∉ (genFunc alloc fd lbl).1) {R : Site → List Nat → Prop}
    (hR : ∀ s m, MapOk P fd.frame s m → R s m) : EachMap alloc fd lbl R := by
  obtain ⟨h1, -⟩ := h (inner_panic hp)
  exact ⟨_, maps_func alloc fd lbl, (all2_length h1).symm, fun i s m hs hm => hR s m (all2_get h1 hs hm)⟩

/-- **C40, first half.**  Every pointer variable in scope is in the map of every call. -/
theorem C40_live_partial (alloc : String) (fd : FnDef) (lbl : Nat) (hp : Ev.panic ∉ (genFunc alloc fd lbl).1) (hd : fd.body.direct = true)
    (hnd : (fd.params.map (·.1)).Nodup) : EachMap alloc fd lbl (HasLive fd) := by
  refine each_of_st (fn_covers alloc lbl hd hnd) hp ?_
  rintro s m ⟨V, hV, rfl⟩ x t hx hk
  have := hV (x, t) hx hk
  refine List.mem_map.2 ⟨_, List.mem_append_left _ this, ?_⟩
  simp only; omega

/-- **C40 for tidy bodies.**  If no inner block declares a pointer variable before a block of its own, no map contains a
variable whose scope has ended. -/
theorem C40_ended_partial (alloc : String) (fd : FnDef) (lbl : Nat) (hp : Ev.panic ∉ (genFunc alloc fd lbl).1) (hd : fd.body.direct = true)
    (hnd : (fd.params.map (·.1)).Nodup) (hn : fd.body.neat = true) :
    EachMap alloc fd lbl (fun s m => HasLive fd s m ∧ NoEnded fd s m) := by
  refine each_of_st (fn_exact alloc lbl hd hnd hn) hp ?_
  rintro s m ⟨V, hV, rfl⟩
  refine ⟨?_, ?_⟩
  · intro x t hx hk
    refine List.mem_map.2 ⟨_, List.mem_append_left _ (hV.covers (x, t) hx hk), ?_⟩
    simp only; omega
  · intro x hx hno hm
    obtain ⟨p, hp, he⟩ := List.mem_map.1 hm
    rw [List.mem_append] at hp
    rcases hp with hp | hp
    · rw [hV] at hp
      obtain ⟨q, hq, rfl⟩ := List.mem_map.1 hp
      have : fd.slot q.1 = fd.slot x := by simp only at he; omega
      have := slot_inj hx this.symm
      exact hno q.2 (by rw [this]; exact (List.mem_filter.1 hq).1)
    · obtain ⟨j, i, -, -, h3⟩ := rootedFrom_mem.1 hp
      have hle : fd.slot x ≤ fd.frame := by
        have := List.idxOf_lt_length_of_mem hx
        simp only [FnDef.slot, FnDef.frame]
        omega
      omega

def rtStr : TyR := ⟨.string, 1⟩
def rtBool : TyR := ⟨.boolean, 2⟩

/-- `fn f(b: bool) { if b { y := "s"; if b { } } ; g() }`. -/
def staleFn : FnDef where
  name := "f"
  params := [(0, rtBool)]
  body := .block (.cons (.ifs (.cond (.var 0 rtBool)
      (.cons (.asg true (.var 1 rtStr) (.str "s")) (.cons (.ifs (.cond (.var 0 rtBool) .nil .done)) .nil)) .done))
    (.cons (.expr (.callFn "g" { ret := ⟨.nothing, 0⟩ } [])) .nil))
  retNothing := true

theorem staleFn_fine : Ev.panic ∉ (genFunc "alloc" staleFn 0).1 := by
  simp only [genFunc, staleFn, genStmts, genStmtsGo, genStmt, genChain]; decide +kernel

/-- The map of the call of `g` has the slot of `y`, whose scope has ended, and which was not even written if `b` is false. -/
theorem staleFn_maps : staleFn.sites = [⟨[(0, rtBool)], []⟩] ∧ maps (genFunc "alloc" staleFn 0).1 = [[], [2]] ∧ staleFn.slot 1 = 2 := by
  refine ⟨by decide +kernel, ?_, by decide +kernel⟩
  simp only [genFunc, staleFn, genStmts, genStmtsGo, genStmt, genChain]; decide +kernel

/-- **C40 fails.** -/
theorem C40_violated : ¬ C40_claim := by
  intro h
  obtain ⟨ms, h1, -, h3⟩ := h "alloc" staleFn 0 staleFn_fine (by decide) (by decide)
  obtain ⟨e1, e2, e3⟩ := staleFn_maps
  rw [e2] at h1
  cases h1
  refine (h3 0 _ _ (by rw [e1]; rfl) rfl).2 1 (by decide) ?_ (by rw [e3]; simp)
  intro t ht
  simp at ht

/-- `fn f(a: string, b: bool) { x := "s"; if b { y := a; g(x, g(y, a)) } ; g(a, x) }`. -/
def tidyFn : FnDef where
  name := "f"
  params := [(0, rtStr), (1, rtBool)]
  body := .block (.cons (.asg true (.var 2 rtStr) (.str "s")) (.cons (.ifs (.cond (.var 1 rtBool)
      (.cons (.asg true (.var 3 rtStr) (.var 0 rtStr))
        (.cons (.expr (.callFn "g" { ret := rtStr } [.var 2 rtStr, .callFn "g" { ret := rtStr } [.var 3 rtStr, .var 0 rtStr]])) .nil)) .done))
    (.cons (.expr (.callFn "g" { ret := rtStr } [.var 0 rtStr, .var 2 rtStr])) .nil)))
  retNothing := true

theorem tidyFn_fine : Ev.panic ∉ (genFunc "alloc" tidyFn 0).1 := by
  simp only [genFunc, tidyFn, genStmts, genStmtsGo, genStmt, genChain]; decide +kernel

example : EachMap "alloc" tidyFn 0 (fun s m => HasLive tidyFn s m ∧ NoEnded tidyFn s m) :=
  C40_ended_partial "alloc" tidyFn 0 tidyFn_fine (by decide) (by decide) (by decide)

example : tidyFn.sites = [⟨[(0, rtStr), (1, rtBool), (2, rtStr), (3, rtStr)], [.arg 0 rtStr]⟩, ⟨[(0, rtStr), (1, rtBool), (2, rtStr), (3, rtStr)], []⟩,
    ⟨[(0, rtStr), (1, rtBool), (2, rtStr)], []⟩] ∧
    maps (genFunc "alloc" tidyFn 0).1 = [[], [1, 3, 4, 5], [1, 3, 4], [1, 3]] := by
  refine ⟨by decide +kernel, ?_⟩
  simp only [genFunc, tidyFn, genStmts, genStmtsGo, genStmt, genChain]; decide +kernel

/-! ### C44 -/

/-- Each call with its map and with what is on the stack below the frame. -/
def EachCall (alloc : String) (fd : FnDef) (lbl : Nat) (R : Site → List Nat → List (Option Opd) → Prop) : Prop :=
  ∃ ms st, maps (genFunc alloc fd lbl).1 = [] :: ms ∧ stackWalk (fd.inner alloc lbl) [] = (st, []) ∧
    ms.length = fd.sites.length ∧ st.length = fd.sites.length ∧
    ∀ (i : Nat) (s : Site) (m : List Nat) (r : List (Option Opd)), fd.sites[i]? = some s → ms[i]? = some m → st[i]? = some r → R s m r

/-- The `j`-th intermediate value is the `j`-th word below the frame; that word is in the map if the value is a pointer. -/
def HeldRooted (fd : FnDef) (which : Temp → Prop) (s : Site) (m : List Nat) (r : List (Option Opd)) : Prop :=
  ∀ (j : Nat) (t : Temp), s.temps[j]? = some t → which t → t.ty.kind.isPointer = true → r[j]? = some t.opd ∧ fd.frame + j + 1 ∈ m

/-- C44 as claimed: all kinds of intermediate values. -/
def C44_claim : Prop := ∀ (alloc : String) (fd : FnDef) (lbl : Nat), Ev.panic ∉ (genFunc alloc fd lbl).1 → fd.body.direct = true →
  (fd.params.map (·.1)).Nodup → EachCall alloc fd lbl (HeldRooted fd (fun _ => True))

/-- **C44 for call arguments.**  The intermediate values of every call are on the stack in the order of `fd.sites`, and the
argument registers saved during the evaluation of a later argument are in its map. -/
theorem C44_args_partial (alloc : String) (fd : FnDef) (lbl : Nat) (hp : Ev.panic ∉ (genFunc alloc fd lbl).1) (hd : fd.body.direct = true)
    (hnd : (fd.params.map (·.1)).Nodup) :
    EachCall alloc fd lbl (fun s m r => s.temps.map Temp.opd <+: r ∧ HeldRooted fd (fun t => ∃ i ty, t = .arg i ty) s m r) := by
  obtain ⟨h1, st, h2, h3⟩ := fn_covers alloc lbl hd hnd (inner_panic hp)
  refine ⟨_, st, maps_func alloc fd lbl, h2, (all2_length h1).symm, (all2_length h3).symm, ?_⟩
  intro i s m r hs hm hr
  obtain ⟨V, -, rfl⟩ := all2_get h1 hs hm
  have hpre := all2_get h3 hs hr
  refine ⟨hpre, ?_⟩
  rintro j _ ht ⟨k, ty, rfl⟩ hk
  refine ⟨?_, ?_⟩
  · obtain ⟨u, hu⟩ := hpre
    have : (s.temps.map Temp.opd)[j]? = some (Temp.opd (.arg k ty)) := by rw [List.getElem?_map, ht]; rfl
    rw [← hu]
    have hlt := (List.getElem?_eq_some_iff.1 this).1
    rw [List.getElem?_append_left hlt, this]
  · refine List.mem_map.2 ⟨(8 * (fd.frame + 1 + j), ty), List.mem_append_right _ (rootedFrom_mem.2 ⟨j, k, ht, hk, rfl⟩), ?_⟩
    simp only; omega

example : EachCall "alloc" tidyFn 0 (fun s m r => s.temps.map Temp.opd <+: r ∧ HeldRooted tidyFn (fun t => ∃ i ty, t = .arg i ty) s m r) :=
  C44_args_partial "alloc" tidyFn 0 tidyFn_fine (by decide) (by decide)

def rtArr : TyR := ⟨.array, 3⟩

/-- `fn f() int { return make()[next()] }`: the array is only on the stack while `next` runs. -/
def baseFn : FnDef where
  name := "f"
  params := []
  body := .block (.cons (.ret (some (.index ⟨.integer, 0⟩ (.callFn "make" { ret := rtArr } []) (.callFn "next" { ret := ⟨.integer, 0⟩ } [])))) .nil)

theorem baseFn_fine : Ev.panic ∉ (genFunc "alloc" baseFn 0).1 := by
  simp only [genFunc, baseFn, genStmts, genStmtsGo, genStmt]; decide +kernel

/-- `fn f(a: []string) { a[next()] = name() }`: the new string is only on the stack while `next` runs. -/
def valueFn : FnDef where
  name := "f"
  params := [(0, rtArr)]
  body := .block (.cons (.asg false (.index rtStr (.var 0 rtArr) (.callFn "next" { ret := ⟨.integer, 0⟩ } [])) (.callFn "name" { ret := rtStr } [])) .nil)
  retNothing := true

theorem valueFn_fine : Ev.panic ∉ (genFunc "alloc" valueFn 0).1 := by
  simp only [genFunc, valueFn, genStmts, genStmtsGo, genStmt]; decide +kernel

theorem baseFn_sites : baseFn.sites = [⟨[], []⟩, ⟨[], [.base rtArr]⟩] ∧ maps (genFunc "alloc" baseFn 0).1 = [[], [], []] ∧ baseFn.frame = 0 := by
  refine ⟨by decide +kernel, ?_, by decide +kernel⟩
  simp only [genFunc, baseFn, genStmts, genStmtsGo, genStmt]; decide +kernel

theorem valueFn_sites : valueFn.sites = [⟨[(0, rtArr)], []⟩, ⟨[(0, rtArr)], [.value rtStr, .base rtArr]⟩] ∧
    maps (genFunc "alloc" valueFn 0).1 = [[], [1], [1]] ∧ valueFn.frame = 2 := by
  refine ⟨by decide +kernel, ?_, by decide +kernel⟩
  simp only [genFunc, valueFn, genStmts, genStmtsGo, genStmt]; decide +kernel

/-- **C44 fails** for the array of an index expression … -/
theorem C44_violated_base : ¬ C44_claim := by
  intro h
  obtain ⟨ms, st, h1, h2, -, h4, h5⟩ := h "alloc" baseFn 0 baseFn_fine (by decide) (by decide)
  obtain ⟨e1, e2, e3⟩ := baseFn_sites
  rw [e2] at h1
  cases h1
  rw [e1] at h4
  obtain ⟨r, hr⟩ : ∃ r, st[1]? = some r := ⟨st[1]'(by rw [h4]; decide), by rw [List.getElem?_eq_getElem]⟩
  have := (h5 1 _ _ r (by rw [e1]; rfl) rfl hr 0 (.base rtArr) rfl trivial rfl).2
  simp at this

/-- … and for the right hand side of an assignment: the string is in no map and in no variable. -/
theorem C44_violated_value : ¬ C44_claim := by
  intro h
  obtain ⟨ms, st, h1, h2, -, h4, h5⟩ := h "alloc" valueFn 0 valueFn_fine (by decide) (by decide)
  obtain ⟨e1, e2, e3⟩ := valueFn_sites
  rw [e2] at h1
  cases h1
  rw [e1] at h4
  obtain ⟨r, hr⟩ : ∃ r, st[1]? = some r := ⟨st[1]'(by rw [h4]; decide), by rw [List.getElem?_eq_getElem]⟩
  have := (h5 1 _ _ r (by rw [e1]; rfl) rfl hr 0 (.value rtStr) rfl trivial rfl).2
  rw [e3] at this
  simp at this

end Clara.Props
