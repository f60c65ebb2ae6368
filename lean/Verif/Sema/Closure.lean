import Verif.Sema.Source
set_option linter.unusedVariables false
/-
Function literals: `rewriteAnonFnAndClosures`, `clIdentifyFreeVars`, `clRewriteFreeVars` and
`freeVarChecker` (`closures.go`).

A symbol is a number (its address); `name` is its name.  Of a type checked tree only this is kept: the
symbols of identifiers, field accesses, array accesses, the nodes that open a scope with the symbols
that the scope owns, function literals with the symbols of their function scope, and the children of
other nodes in the order in which `Walk` visits them.  Identifiers of globals, which `isFree` rejects
(`closures.go` 186-188), are `glob`; literals are nodes without children.
-/
namespace Clara.Sema.Closure

/-- Which symbols a scope owns (`SymTab.Owns`, `symtab.go` 507-510). -/
abbrev Scope := Nat → Bool

/-- Trees. -/
inductive T
  | glob
  | id (x : Nat)
  | dot (l : T) (f : Nat)
  | index (l r : T)
  | scope (own : Scope) (kids : List T)
  | node (kids : List T)
  | lit (own : Scope) (kids : List T)

/-- `freeVarChecker` (`closures.go` 137-142): of a node on the stack only its scope is kept; both stacks have
the top first. -/
structure FC where
  stack : List (Option Scope)
  scopes : List Scope
  free : List Nat

/-- `isFree` (`closures.go` 185-195). -/
def FC.isFree (c : FC) (x : Nat) : Bool := !c.scopes.any (· x)

/-- `fc.free[s] = true`, if it is free. -/
def FC.mark (c : FC) (x : Nat) : FC :=
  if c.isFree x && !c.free.contains x then { c with free := c.free ++ [x] } else c

def FC.push (c : FC) (o : Option Scope) : FC := { c with stack := o :: c.stack }

/-- `exitNode` (`closures.go` 176-183).  (An empty stack would be a panic.) -/
def FC.exit (c : FC) : FC :=
  match c.stack with
  | [] => c
  | none :: st => { c with stack := st }
  | some _ :: st => { c with stack := st, scopes := c.scopes.tail }

/-- `IdentityFreeVars` on an identifier. -/
def visitId (x : Nat) (c : FC) : FC := ((c.push none).mark x).exit

mutual
/-- `WalkPreOrder` with `IdentityFreeVars` (`closures.go` 151-174, `walk.go` 17-104).  When it returns false the
children are not visited and there is no call for the exit of the node (`walk.go` 17-19), so the node
stays on the stack. -/
def visit : T → FC → FC
  | .glob, c => (c.push none).exit
  | .id x, c => visitId x c
  | .dot (.id x) _, c => (c.push none).mark x                          -- `closures.go` 164-168
  | .dot .glob _, c => c.push none
  | .dot l f, c => (visitId f (visit l (c.push none))).exit
  | .index (.id x) _, c => (c.push none).mark x
  | .index .glob _, c => c.push none
  | .index l r, c => (visit r (visit l (c.push none))).exit
  | .scope own kids, c =>
    let c := c.push (some own)
    (visitL kids { c with scopes := own :: c.scopes }).exit
  | .node kids, c => (visitL kids (c.push none)).exit
  | .lit _ _, c => c.push none                                          -- `closures.go` 170-171
def visitL : List T → FC → FC
  | [], c => c
  | t :: ts, c => visitL ts (visit t c)
end

/-- `clIdentifyFreeVars` (`closures.go` 99-107), before the loop over the map. -/
def identify (own : Scope) (kids : List T) : List Nat :=
  ((visitL kids ⟨[none], [own], []⟩).exit).free

/-- A hoisted function: what its scope owns, its body, the fields of its environment. -/
structure Hoisted where
  own : Scope
  body : List T
  caps : List Nat

/-- The position of the field of the environment that an identifier becomes: `GetField` finds it by name
(`closures.go` 124, `symtab.go`). -/
def slot (name : Nat → String) (caps : List Nat) (x : Nat) : Nat := caps.findIdx (fun y => name y == name x)

mutual
/-- `clRewriteFreeVars` (`closures.go` 109-135): an identifier of a captured symbol becomes an access to a
field of the environment; here the field is its position.  The field of a field access is an identifier
too. -/
def rewrite (name : Nat → String) (caps : List Nat) : T → T
  | .glob => .glob
  | .id x => if x ∈ caps then .dot .glob (slot name caps x) else .id x
  | .dot l f => if f ∈ caps then .node [rewrite name caps l, .dot .glob (slot name caps f)] else .dot (rewrite name caps l) f
  | .index l r => .index (rewrite name caps l) (rewrite name caps r)
  | .scope own kids => .scope own (rewriteL name caps kids)
  | .node kids => .node (rewriteL name caps kids)
  | .lit own kids => .lit own (rewriteL name caps kids)
def rewriteL (name : Nat → String) (caps : List Nat) : List T → List T
  | [] => []
  | t :: ts => rewrite name caps t :: rewriteL name caps ts
end

mutual
/-- `rewriteAnonFnAndClosures` under `WalkPostOrder` (`closures.go` 10-82, `main.go` 119-124): the tree
without function literals, and the hoisted functions.  `ord` is the order of the iteration over the map
of the captured symbols. -/
def conv (name : Nat → String) (ord : List Nat → List Nat) : T → T × List Hoisted
  | .glob => (.glob, [])
  | .id x => (.id x, [])
  | .dot l f => let a := conv name ord l; (.dot a.1 f, a.2)
  | .index l r => let a := conv name ord l; let b := conv name ord r; (.index a.1 b.1, a.2 ++ b.2)
  | .scope own kids => let a := convL name ord kids; (.scope own a.1, a.2)
  | .node kids => let a := convL name ord kids; (.node a.1, a.2)
  | .lit own kids =>
    let a := convL name ord kids
    let caps := ord (identify own a.1)
    if caps = [] then (.glob, a.2 ++ [⟨own, a.1, []⟩])
    else (.node [.glob, .glob, .node (.glob :: caps.map .id)], a.2 ++ [⟨own, rewriteL name caps a.1, caps⟩])
def convL (name : Nat → String) (ord : List Nat → List Nat) : List T → List T × List Hoisted
  | [] => ([], [])
  | t :: ts => let a := conv name ord t; let b := convL name ord ts; (a.1 :: b.1, a.2 ++ b.2)
end

/-! ### What the walk finds -/

mutual
/-- The symbols that the walk finds when it does not know any scope but those of the nodes it is in. -/
def found : T → List Nat
  | .glob => []
  | .id x => [x]
  | .dot (.id x) _ => [x]
  | .dot .glob _ => []
  | .dot l f => found l ++ [f]
  | .index (.id x) _ => [x]
  | .index .glob _ => []
  | .index l r => found l ++ found r
  | .scope own kids => (foundL kids).filter (!own ·)
  | .node kids => foundL kids
  | .lit _ _ => []
def foundL : List T → List Nat
  | [] => []
  | t :: ts => found t ++ foundL ts
end

mutual
/-- The scopes opened in a tree, without those in function literals. -/
def scopes : T → List Scope
  | .glob | .id _ | .lit _ _ => []
  | .dot l _ => scopes l
  | .index l r => scopes l ++ scopes r
  | .scope own kids => own :: scopesL kids
  | .node kids => scopesL kids
def scopesL : List T → List Scope
  | [] => []
  | t :: ts => scopes t ++ scopesL ts
end

/-- The scopes of the nodes of the stack. -/
def opened (st : List (Option Scope)) : List Scope := st.filterMap id

/-- The scopes are those of the stack, and that of the function. -/
def FC.Ok (own : Scope) (c : FC) : Prop := c.scopes = opened c.stack ++ [own] ∧ c.free.Nodup

/-- The state `c'` after a visit that starts with `c`: `inner` are the scopes and `fs` the symbols
found. -/
structure Later (own : Scope) (inner : List Scope) (fs : List Nat) (c c' : FC) : Prop where
  ok : c'.Ok own
  stack : ∃ up, c'.stack = up ++ c.stack ∧ ∀ o ∈ opened up, o ∈ inner
  old : ∀ x ∈ c.free, x ∈ c'.free
  sound : ∀ x ∈ c'.free, x ∈ c.free ∨ (x ∈ fs ∧ c.isFree x = true)
  full : ∀ x ∈ fs, c.isFree x = true → (∀ o ∈ inner, o x = false) → x ∈ c'.free

theorem opened_append (a b : List (Option Scope)) : opened (a ++ b) = opened a ++ opened b := by
  simp [opened]

theorem ok_push {own : Scope} {c : FC} (h : c.Ok own) : (c.push none).Ok own := by
  simpa [FC.Ok, FC.push, opened] using h

theorem ok_exit {own : Scope} {c : FC} (h : c.Ok own) : c.exit.Ok own := by
  obtain ⟨h1, h2⟩ := h
  unfold FC.exit
  split
  · exact ⟨h1, h2⟩
  · rename_i st hs
    exact ⟨by rw [hs] at h1; simpa [opened] using h1, h2⟩
  · rename_i o st hs
    exact ⟨by rw [hs] at h1; simp [h1, opened], h2⟩

theorem isFree_iff {c : FC} {x : Nat} : c.isFree x = true ↔ ∀ o ∈ c.scopes, o x = false := by
  simp [FC.isFree]

theorem exit_free (c : FC) : c.exit.free = c.free := by
  unfold FC.exit
  split <;> rfl

theorem mark_stack (c : FC) (x : Nat) : (c.mark x).stack = c.stack ∧ (c.mark x).scopes = c.scopes := by
  unfold FC.mark
  split <;> exact ⟨rfl, rfl⟩

theorem mark_free (c : FC) (x y : Nat) : y ∈ (c.mark x).free ↔ y ∈ c.free ∨ (y = x ∧ c.isFree x = true) := by
  unfold FC.mark
  split
  · rename_i h
    simp only [Bool.and_eq_true] at h
    simp [h.1]
  · rename_i h
    constructor
    · exact .inl
    · rintro (h1 | ⟨rfl, h2⟩)
      · exact h1
      · simpa [h2] using h

theorem mark_nodup {c : FC} {x : Nat} (h : c.free.Nodup) : (c.mark x).free.Nodup := by
  unfold FC.mark
  split
  · rename_i h1
    simp only [Bool.and_eq_true, Bool.not_eq_true', List.contains_eq_mem, decide_eq_false_iff_not] at h1
    rw [List.nodup_append]
    refine ⟨h, by simp, fun a ha b hb => ?_⟩
    rw [List.mem_singleton.mp hb]
    rintro rfl
    exact h1.2 ha
  · exact h

theorem isFree_push (c : FC) (x : Nat) : (c.push none).isFree x = c.isFree x := rfl

/-- An identifier that is not left. -/
theorem later_mark {own : Scope} {c : FC} (h : c.Ok own) (x : Nat) : Later own [] [x] c ((c.push none).mark x) where
  ok := by
    obtain ⟨h1, h2⟩ := ok_push h
    exact ⟨by rw [(mark_stack _ x).1, (mark_stack _ x).2]; exact h1, mark_nodup h2⟩
  stack := ⟨[none], by rw [(mark_stack _ x).1]; rfl, by simp [opened]⟩
  old := fun y hy => (mark_free _ x y).mpr (.inl hy)
  sound := fun y hy => by
    rcases (mark_free _ x y).mp hy with h | ⟨rfl, h⟩
    · exact .inl h
    · exact .inr ⟨by simp, h⟩
  full := fun y hy hf _ => by
    rw [List.mem_singleton.mp hy] at hf ⊢
    exact (mark_free _ x x).mpr (.inr ⟨rfl, hf⟩)

theorem Later.exit {own : Scope} {inner : List Scope} {fs : List Nat} {c c1 : FC} {o : Option Scope} (h : Later own inner fs c c1)
    (hs : ∃ up, c1.stack = up ++ (o :: c.stack) ∧ ∀ s ∈ opened up, s ∈ inner) (ho : ∀ s, o = some s → s ∈ inner) :
    Later own inner fs c c1.exit where
  ok := ok_exit h.ok
  stack := by
    obtain ⟨up, h1, h2⟩ := hs
    refine ⟨(up ++ [o]).tail, ?_, ?_⟩
    · unfold FC.exit
      cases up with
      | nil => cases o <;> simp_all
      | cons a up => cases a <;> simp_all
    · intro s hm
      have : s ∈ opened (up ++ [o]) := by
        simp only [opened, List.mem_filterMap, id_eq] at hm ⊢
        obtain ⟨a, ha, h⟩ := hm
        exact ⟨a, List.mem_of_mem_tail ha, h⟩
      rw [opened_append, List.mem_append] at this
      rcases this with h | h
      · exact h2 s h
      · simp only [opened, List.mem_filterMap, List.mem_singleton, id_eq] at h
        obtain ⟨a, rfl, h⟩ := h
        exact ho s h
  old := fun x hx => by rw [exit_free]; exact h.old x hx
  sound := fun x hx => by rw [exit_free] at hx; exact h.sound x hx
  full := fun x hx h1 h2 => by rw [exit_free]; exact h.full x hx h1 h2

theorem later_id {own : Scope} {c : FC} (h : c.Ok own) (x : Nat) : Later own [] [x] c (visitId x c) := by
  refine (later_mark h x).exit (o := none) ⟨[], ?_, by simp [opened]⟩ (by simp)
  rw [(mark_stack _ x).1]
  rfl

/-- Two visits one after the other. -/
theorem Later.trans {own : Scope} {i1 i2 : List Scope} {f1 f2 : List Nat} {c c1 c2 : FC} (hc : c.Ok own) (h1 : Later own i1 f1 c c1)
    (h2 : Later own i2 f2 c1 c2) : Later own (i1 ++ i2) (f1 ++ f2) c c2 := by
  obtain ⟨u1, hs1, ho1⟩ := h1.stack
  obtain ⟨u2, hs2, ho2⟩ := h2.stack
  have hsc : c1.scopes = opened u1 ++ c.scopes := by rw [h1.ok.1, hs1, opened_append, List.append_assoc, ← hc.1]
  have hfree : ∀ x, c1.isFree x = true → c.isFree x = true := by
    intro x hx
    rw [isFree_iff] at hx ⊢
    exact fun o ho => hx o (by rw [hsc]; exact List.mem_append_right _ ho)
  refine ⟨h2.ok, ⟨u2 ++ u1, by rw [hs2, hs1, List.append_assoc], ?_⟩, fun x hx => h2.old x (h1.old x hx), ?_, ?_⟩
  · intro o ho
    rw [opened_append, List.mem_append] at ho
    rcases ho with h | h
    · exact List.mem_append_right _ (ho2 o h)
    · exact List.mem_append_left _ (ho1 o h)
  · intro x hx
    rcases h2.sound x hx with h | ⟨h, h'⟩
    · rcases h1.sound x h with h | ⟨h, h'⟩
      · exact .inl h
      · exact .inr ⟨List.mem_append_left _ h, h'⟩
    · exact .inr ⟨List.mem_append_right _ h, hfree x h'⟩
  · intro x hx hf hi
    rcases List.mem_append.mp hx with h | h
    · exact h2.old x (h1.full x h hf (fun o ho => hi o (List.mem_append_left _ ho)))
    · refine h2.full x h ?_ (fun o ho => hi o (List.mem_append_right _ ho))
      rw [isFree_iff] at hf ⊢
      intro o ho
      rw [hsc, List.mem_append] at ho
      rcases ho with ho | ho
      · exact hi o (List.mem_append_left _ (ho1 o ho))
      · exact hf o ho

/-- A node without a scope: its children are visited, and it is left. -/
theorem Later.node {own : Scope} {inner : List Scope} {fs : List Nat} {c c1 : FC} (h : Later own inner fs (c.push none) c1) :
    Later own inner fs c c1.exit := by
  refine Later.exit (o := none) (c := c) ⟨h.ok, ?_, h.old, h.sound, h.full⟩ h.stack (by simp)
  obtain ⟨up, h1, h2⟩ := h.stack
  refine ⟨up ++ [none], by rw [h1]; simp [FC.push], fun o ho => h2 o ?_⟩
  simpa [opened_append, opened] using ho

mutual
theorem visit_later {own : Scope} : ∀ (t : T) (c : FC), c.Ok own → Later own (scopes t) (found t) c (visit t c)
  | .glob, c, h => by
    simp only [visit, scopes, found]
    exact Later.node ⟨ok_push h, ⟨[], rfl, by simp [opened]⟩, fun _ hx => hx, fun _ hx => .inl hx, fun _ hx => by simp at hx⟩
  | .id x, c, h => by
    simp only [visit, scopes, found]
    exact later_id h x
  | .lit o ks, c, h => by
    simp only [visit, scopes, found]
    exact ⟨ok_push h, ⟨[none], rfl, by simp [opened]⟩, fun _ hx => hx, fun _ hx => .inl hx, fun _ hx => by simp at hx⟩
  | .dot l f, c, h => by
    by_cases hx : (∃ x, l = .id x) ∨ l = .glob
    · rcases hx with ⟨x, rfl⟩ | rfl
      rotate_left
      · simp only [visit, scopes, found]
        exact ⟨ok_push h, ⟨[none], rfl, by simp [opened]⟩, fun _ hx => hx, fun _ hx => .inl hx, fun _ hx => by simp at hx⟩
      simp only [visit, scopes, found]
      exact later_mark h x
    · have e1 : visit (.dot l f) c = (visitId f (visit l (c.push none))).exit := by
        cases l <;> first | rfl | exact absurd (.inl ⟨_, rfl⟩) hx | exact absurd (.inr rfl) hx
      have e2 : found (.dot l f) = found l ++ [f] := by
        cases l <;> first | rfl | exact absurd (.inl ⟨_, rfl⟩) hx | exact absurd (.inr rfl) hx
      rw [e1, e2, scopes]
      have h1 := visit_later l (c.push none) (ok_push h)
      have := (h1.trans (ok_push h) (later_id h1.ok f)).node
      simpa using this
  | .index l r, c, h => by
    by_cases hx : (∃ x, l = .id x) ∨ l = .glob
    · rcases hx with ⟨x, rfl⟩ | rfl
      rotate_left
      · simp only [visit, scopes, found]
        exact ⟨ok_push h, ⟨[none], rfl, by simp [opened]⟩, fun _ hx => hx, fun _ hx => .inl hx, fun _ hx => by simp at hx⟩
      simp only [visit, scopes, found]
      have := later_mark h x
      exact ⟨this.ok, by obtain ⟨up, h1, h2⟩ := this.stack; exact ⟨up, h1, fun o ho => absurd (h2 o ho) (by simp)⟩, this.old, this.sound,
        fun y hy hf _ => this.full y hy hf (by simp)⟩
    · have e1 : visit (.index l r) c = (visit r (visit l (c.push none))).exit := by
        cases l <;> first | rfl | exact absurd (.inl ⟨_, rfl⟩) hx | exact absurd (.inr rfl) hx
      have e2 : found (.index l r) = found l ++ found r := by
        cases l <;> first | rfl | exact absurd (.inl ⟨_, rfl⟩) hx | exact absurd (.inr rfl) hx
      rw [e1, e2, scopes]
      have h1 := visit_later l (c.push none) (ok_push h)
      exact (h1.trans (ok_push h) (visit_later r _ h1.ok)).node
  | .node ks, c, h => by
    simp only [visit, scopes, found]
    exact (visitL_later ks _ (ok_push h)).node
  | .scope o ks, c, h => by
    simp only [visit, scopes, found]
    have hok : FC.Ok own { c.push (some o) with scopes := o :: c.scopes } := ⟨by simp [FC.push, opened, h.1], h.2⟩
    have h1 := visitL_later ks _ hok
    obtain ⟨up, hs, ho⟩ := h1.stack
    refine Later.exit (o := some o) ⟨h1.ok, ?_, h1.old, ?_, ?_⟩ ⟨up, hs, fun s hm => List.mem_cons_of_mem _ (ho s hm)⟩ (by simp)
    · refine ⟨up ++ [some o], by rw [FC.push] at *; rw [hs]; simp [FC.push], fun s hm => ?_⟩
      rw [opened_append, List.mem_append] at hm
      rcases hm with hm | hm
      · exact List.mem_cons_of_mem _ (ho s hm)
      · simp only [opened, List.filterMap_cons, id_eq, List.filterMap_nil, List.mem_singleton] at hm
        rw [hm]
        exact List.mem_cons_self ..
    · intro x hx
      rcases h1.sound x hx with h | ⟨h, hf⟩
      · exact .inl h
      · rw [isFree_iff] at hf
        refine .inr ⟨List.mem_filter.mpr ⟨h, by simp [hf o (List.mem_cons_self ..)]⟩, ?_⟩
        rw [isFree_iff]
        exact fun s hs => hf s (List.mem_cons_of_mem _ hs)
    · intro x hx hf hi
      refine h1.full x (List.mem_filter.mp hx).1 ?_ (fun s hs => hi s (List.mem_cons_of_mem _ hs))
      rw [isFree_iff] at hf ⊢
      intro s hs
      rcases List.mem_cons.mp hs with rfl | hs
      · exact hi _ (List.mem_cons_self ..)
      · exact hf s hs
theorem visitL_later {own : Scope} : ∀ (ts : List T) (c : FC), c.Ok own → Later own (scopesL ts) (foundL ts) c (visitL ts c)
  | [], c, h => by
    simp only [visitL, scopesL, foundL]
    exact ⟨h, ⟨[], rfl, by simp [opened]⟩, fun _ hx => hx, fun _ hx => .inl hx, fun _ hx => by simp at hx⟩
  | t :: ts, c, h => by
    simp only [visitL, scopesL, foundL]
    have h1 := visit_later t c h
    exact h1.trans h (visitL_later ts _ h1.ok)
end

/-- What `clIdentifyFreeVars` finds. -/
theorem identify_sound {own : Scope} {ks : List T} {x : Nat} (hx : x ∈ identify own ks) : x ∈ foundL ks ∧ own x = false := by
  have h := visitL_later (own := own) ks ⟨[none], [own], []⟩ ⟨by simp [opened], by simp⟩
  rw [identify, exit_free] at hx
  rcases h.sound x hx with h | ⟨h, hf⟩
  · simp at h
  · exact ⟨h, by simpa [FC.isFree] using hf⟩

theorem identify_full {own : Scope} {ks : List T} {x : Nat} (hx : x ∈ foundL ks) (ho : own x = false)
    (hs : ∀ o ∈ scopesL ks, o x = false) : x ∈ identify own ks := by
  have h := visitL_later (own := own) ks ⟨[none], [own], []⟩ ⟨by simp [opened], by simp⟩
  rw [identify, exit_free]
  exact h.full x hx (by simp [FC.isFree, ho]) hs

theorem identify_nodup (own : Scope) (ks : List T) : (identify own ks).Nodup := by
  rw [identify, exit_free]
  exact (visitL_later (own := own) ks ⟨[none], [own], []⟩ ⟨by simp [opened], by simp⟩).ok.2

end Clara.Sema.Closure
