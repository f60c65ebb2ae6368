import Verif.Types.AsmName
import Verif.Types.Graph
import Verif.Types.SymTab
/-
Properties C19-C21: type instantiation, assembler names, scoping.
-/
namespace Clara.Props
open Clara.Types

/-! ### C19 Type instantiation terminates -/

/-- The full claim: for every type graph, instantiation needs only finitely many steps. -/
def C19_claim : Prop := ∀ (G : Graph) (bound : List (Nat × Nat)) (p : Nat),
  ∃ fuel, (substG G bound fuel p).isSome

/-- Type graph of `struct node«T» { next: node«T» }` while its field is being instantiated:
0 is `node`, 1 is `T`. -/
def nodeGraph : Graph := fun p => if p = 0 then .struct [1] [0] else .param

/-- The claim fails for recursive structs: the recursion never ends, whatever depth is allowed. -/
theorem C19_violated : ¬ C19_claim := by
  intro h
  obtain ⟨fuel, hf⟩ := h nodeGraph [(1, 1)] 0
  have : ∀ n, ¬ (substG nodeGraph [(1, 1)] n 0).isSome := by
    intro n
    induction n with
    | zero => simp [substG]
    | succ n ih =>
      rw [substG_isSome _ _ (by simp)]
      intro h
      exact ih (h 0 (by simp [nodeGraph, children]))
  exact this fuel hf

/-- Instantiation with at least one binding terminates exactly for types that are not part of
themselves (all chains of parts are finite). Missing: recursive structs, where it does not
terminate. -/
theorem C19_terminates_partial (G : Graph) (bound : List (Nat × Nat)) (hb : bound ≠ []) (p : Nat) :
    (∃ fuel, (substG G bound fuel p).isSome) ↔ Acc (Part G) p :=
  substG_acc G bound hb p

/-- Without bindings it always terminates. -/
theorem C19_no_binding (G : Graph) (p : Nat) : (substG G [] 1 p).isSome := by
  simp [substG]

/-- A recursive enum is fine, because its members are not visited: `enum list«T» { ... }` (0) with
type parameter 1. -/
example : ∃ fuel, (substG (fun p => if p = 0 then .enum [1] else .param) [(1, 2)] fuel 0).isSome := by
  rw [C19_terminates_partial _ _ (by simp)]
  refine ⟨0, fun q hq => ?_⟩
  have : q = 1 := by simpa [Part, children] using hq
  subst this
  exact ⟨1, fun q hq => by simp [Part, children] at hq⟩

/-! ### C20 Distinct functions get distinct assembler symbols -/

/-- The full claim: functions accepted by the duplicate check have different symbols. -/
def C20_claim : Prop := ∀ (pname : Nat → String) (fs : List FnDecl), accepted pname fs →
  (∀ f ∈ fs, f.kind = .normal) → (fs.map (fun f => fnAsm f.kind f.name f.params)).Nodup

/-- The claim fails: `fn f«A»(x: A)` and `fn f«B»(x: B)` are accepted and both become `clara_f.T`. -/
theorem C20_violated : ¬ C20_claim := by
  intro h
  have := h (fun k => if k = 0 then "A" else "B") [⟨.normal, "f", [.param 0]⟩, ⟨.normal, "f", [.param 1]⟩]
    (by unfold accepted; decide) (by simp)
  revert this
  decide

/-- It also fails without type parameters: `fn main()` and `fn main(x: int)`. -/
theorem C20_violated_main : ¬ C20_claim := by
  intro h
  have := h (fun _ => "") [⟨.normal, "main", []⟩, ⟨.normal, "main", [.prim .int]⟩]
    (by unfold accepted; decide) (by simp)
  revert this
  decide

mutual
/-- No type parameters, and user types have identifiers other than `array` and `fn` as names. -/
def Concrete : Ty → Prop
  | .prim _ => True
  | .param _ => False
  | .array t => Concrete t
  | .struct n ts => goodName n.toList ∧ n ≠ "array" ∧ n ≠ "fn" ∧ ConcreteAll ts
  | .enum n ts => goodName n.toList ∧ n ≠ "array" ∧ n ≠ "fn" ∧ ConcreteAll ts
  | .fn _ ps _ => ConcreteAll ps
def ConcreteAll : List Ty → Prop
  | [] => True
  | t :: ts => Concrete t ∧ ConcreteAll ts
end

theorem prim_good (p : Prim) : goodName p.kindName := by
  refine ⟨by cases p <;> decide, ?_⟩
  have : ∀ c ∈ p.kindName, c ≠ '.' ∧ c ≠ '$' := by cases p <;> decide
  rintro c hc (h | h)
  · exact (this c hc).1 h
  · exact (this c hc).2 h

theorem lit_good : goodName "array".toList ∧ goodName "fn".toList := by
  have h : (∀ c ∈ "array".toList, c ≠ '.' ∧ c ≠ '$') ∧ (∀ c ∈ "fn".toList, c ≠ '.' ∧ c ≠ '$') := by
    decide
  refine ⟨⟨by decide, ?_⟩, ⟨by decide, ?_⟩⟩
  · rintro c hc (e | e)
    · exact (h.1 c hc).1 e
    · exact (h.1 c hc).2 e
  · rintro c hc (e | e)
    · exact (h.2 c hc).1 e
    · exact (h.2 c hc).2 e

mutual
theorem concrete_good (t : Ty) (h : Concrete t) : t.rose.good := by
  match t with
  | .prim p => exact ⟨prim_good p, trivial⟩
  | .param _ => exact h.elim
  | .array t => exact ⟨lit_good.1, concrete_good t h, trivial⟩
  | .struct n ts => exact ⟨h.1, concreteAll_good ts h.2.2.2⟩
  | .enum n ts => exact ⟨h.1, concreteAll_good ts h.2.2.2⟩
  | .fn _ ps _ => exact ⟨lit_good.2, concreteAll_good ps h⟩
theorem concreteAll_good (ts : List Ty) (h : ConcreteAll ts) : goodAll (roseAll ts) := by
  match ts with
  | [] => trivial
  | t :: ts => exact ⟨concrete_good t h.1, concreteAll_good ts h.2⟩
end

theorem prim_ne (p : Prim) : p.kindName ≠ "array".toList ∧ p.kindName ≠ "fn".toList := by
  cases p <;> decide

theorem str_eq {a b : String} (h : a.toList = b.toList) : a = b := String.toList_inj.1 h

mutual
/-- Types with the same tree of names are declared with the same spelling. -/
theorem rose_key (pname : Nat → String) (t u : Ty) (ht : Concrete t) (hu : Concrete u)
    (h : t.rose = u.rose) : t.key pname = u.key pname := by
  match t, u with
  | .param _, _ => exact ht.elim
  | _, .param _ => exact hu.elim
  | .prim p, .prim q =>
    simp only [Ty.rose, Rose.node.injEq, and_true] at h
    simp only [Ty.key, h]
  | .array t, .array u =>
    simp only [Ty.rose, Rose.node.injEq, List.cons.injEq, and_true, true_and] at h
    simp only [Ty.key, rose_key pname t u ht hu h]
  | .fn _ ps _, .fn _ qs _ =>
    simp only [Ty.rose, Rose.node.injEq, true_and] at h
    simp only [Ty.key, roseAll_key pname ps qs ht hu h]
  | .struct n ts, .struct m us | .struct n ts, .enum m us | .enum n ts, .struct m us
  | .enum n ts, .enum m us =>
    simp only [Ty.rose, Rose.node.injEq] at h
    have he : ts.isEmpty = us.isEmpty := by
      rw [← roseAll_isEmpty ts, ← roseAll_isEmpty us, h.2]
    simp only [Ty.key, roseAll_key pname ts us ht.2.2.2 hu.2.2.2 h.2, h.1, he]
  | .prim p, .array _ =>
    simp only [Ty.rose, Rose.node.injEq] at h; exact absurd h.1 (prim_ne p).1
  | .array _, .prim p =>
    simp only [Ty.rose, Rose.node.injEq] at h; exact absurd h.1.symm (prim_ne p).1
  | .prim p, .fn .. =>
    simp only [Ty.rose, Rose.node.injEq] at h; exact absurd h.1 (prim_ne p).2
  | .fn .., .prim p =>
    simp only [Ty.rose, Rose.node.injEq] at h; exact absurd h.1.symm (prim_ne p).2
  | .prim p, .struct m us | .prim p, .enum m us =>
    simp only [Ty.rose, Rose.node.injEq] at h
    have he : us.isEmpty = true := by rw [← roseAll_isEmpty us, ← h.2]; rfl
    simp only [Ty.key, he, if_true, h.1]
  | .struct m us, .prim p | .enum m us, .prim p =>
    simp only [Ty.rose, Rose.node.injEq] at h
    have he : us.isEmpty = true := by rw [← roseAll_isEmpty us, h.2]; rfl
    simp only [Ty.key, he, if_true, h.1]
  | .array _, .fn .. => simp [Ty.rose] at h
  | .fn .., .array _ => simp [Ty.rose] at h
  | .array _, .struct m us | .array _, .enum m us =>
    simp only [Ty.rose, Rose.node.injEq] at h; exact absurd (str_eq h.1).symm hu.2.1
  | .struct m us, .array _ | .enum m us, .array _ =>
    simp only [Ty.rose, Rose.node.injEq] at h; exact absurd (str_eq h.1) ht.2.1
  | .fn .., .struct m us | .fn .., .enum m us =>
    simp only [Ty.rose, Rose.node.injEq] at h; exact absurd (str_eq h.1).symm hu.2.2.1
  | .struct m us, .fn .. | .enum m us, .fn .. =>
    simp only [Ty.rose, Rose.node.injEq] at h; exact absurd (str_eq h.1) ht.2.2.1
theorem roseAll_key (pname : Nat → String) (ts us : List Ty) (ht : ConcreteAll ts)
    (hu : ConcreteAll us) (h : roseAll ts = roseAll us) : keyAll pname ts = keyAll pname us := by
  match ts, us with
  | [], [] => rfl
  | [], _ :: _ => simp [roseAll] at h
  | _ :: _, [] => simp [roseAll] at h
  | t :: ts, u :: us =>
    simp only [roseAll, List.cons.injEq] at h
    simp only [keyAll, rose_key pname t u ht.1 hu.1 h.1, roseAll_key pname ts us ht.2 hu.2 h.2]
end

/-- Equal symbols mean equal names and equally spelled parameter types. -/
theorem fnAsm_inj (pname : Nat → String) {n m : String} {ps qs : List Ty}
    (hn : goodName n.toList ∧ n ≠ "main") (hm : goodName m.toList ∧ m ≠ "main")
    (hp : ConcreteAll ps) (hq : ConcreteAll qs)
    (h : fnAsm .normal n ps = fnAsm .normal m qs) : fnKey pname n ps = fnKey pname m qs := by
  unfold fnAsm at h
  simp only [reduceCtorEq, if_false, if_neg hn.2, if_neg hm.2] at h
  simp only [List.append_assoc, List.append_cancel_left_eq, asmAll_enc] at h
  have hf : ∀ (xs : List Rose) c, ((encAll xs).flatMap (fun s => '.' :: s)).head? = some c → isSep c := by
    intro xs c hc
    cases xs with
    | nil => simp [encAll] at hc
    | cons x xs => simp [encAll] at hc; exact .inl hc.symm
  obtain ⟨h1, h2⟩ := name_split hn.1.2 hm.1.2 (hf _) (hf _) h
  have h3 := seq_inj _ _ (concreteAll_good ps hp) (concreteAll_good qs hq) h2
  unfold fnKey
  rw [h1, roseAll_key pname ps qs hp hq h3]

/-- The claim holds for functions other than `main` whose parameter types are concrete. Missing:
generic functions, overloads of `main`, externals and constructors, where symbols can coincide. -/
theorem C20_distinct_partial (pname : Nat → String) (fs : List FnDecl) (ha : accepted pname fs)
    (hg : ∀ f ∈ fs, f.kind = .normal ∧ goodName f.name.toList ∧ f.name ≠ "main" ∧ ConcreteAll f.params) :
    (fs.map (fun f => fnAsm f.kind f.name f.params)).Nodup := by
  unfold accepted at ha
  induction fs with
  | nil => simp
  | cons f fs ih =>
    simp only [List.map_cons, List.nodup_cons, List.mem_map, not_exists, not_and] at ha ⊢
    refine ⟨?_, ih ha.2 (fun g hgm => hg g (by simp [hgm]))⟩
    intro g hgm he
    obtain ⟨k1, k2, k3, k4⟩ := hg f (by simp)
    obtain ⟨j1, j2, j3, j4⟩ := hg g (by simp [hgm])
    rw [k1, j1] at he
    exact ha.1 g hgm (fnAsm_inj pname ⟨j2, j3⟩ ⟨k2, k3⟩ j4 k4 he)

/-- Overloads `f(list«int», []string)` and `f(fn(int) ...)`. -/
example : Concrete (.struct "list" [.prim .int]) ∧ Concrete (.array (.prim .string)) ∧
    Concrete (.fn {} [.prim .int] (.param 3)) := by
  have : ∀ c ∈ "list".toList, ¬ (c = '.' ∨ c = '$') := by decide
  exact ⟨⟨⟨by decide, this⟩, by decide, by decide, trivial, trivial⟩, trivial, trivial, trivial⟩

/-! ### C21 Lexical scoping -/

open Clara.SymTab in
/-- `Resolve` finds the declaration in the innermost enclosing scope that has one. -/
theorem C21_resolve (h : List Op) (hv : Valid 1 h) (i : Nat) (name : String) (s : Sym) :
    (run h).resolve i name = some s ↔ Means h i name s := resolve_iff hv i name s

open Clara.SymTab in
/-- A declaration in scope `j` changes neither other names nor what scopes outside `j` see. -/
theorem C21_outer_unchanged (h : List Op) (hv : Valid 1 h) (i j : Nat) (name : String) (s : Sym)
    (hj : Valid 1 (h ++ [.define j s])) (hno : s.name ≠ name ∨ ¬ Encloses h j i) :
    (run (h ++ [.define j s])).resolve i name = (run h).resolve i name := by
  have key : ∀ s', (run (h ++ [.define j s])).resolve i name = some s' ↔
      (run h).resolve i name = some s' := by
    intro s'
    rw [resolve_iff hj, resolve_iff hv, means_define hno]
  cases e : (run h).resolve i name with
  | some s' => exact (key s').2 e
  | none =>
    cases e' : (run (h ++ [.define j s])).resolve i name with
    | none => rfl
    | some s' => rw [(key s').1 e'] at e; cases e

open Clara.SymTab in
/-- A second declaration of a name in one scope is reported with the first one and changes
nothing; a first declaration is not reported. -/
theorem C21_redeclare (h : List Op) (hv : Valid 1 h) (i : Nat) (s : Sym) :
    match firstDef h i s.name with
    | some old => (run h).define i s = (run h, old, true)
    | none => ((run h).define i s).2 = (s, false) := by
  unfold Tabs.define
  rw [own_run_init h hv]
  cases firstDef h i s.name <;> rfl

open Clara.SymTab in
/-- Whatever happens later, a declaration stays in force in its scope. -/
theorem C21_kept (h h' : List Op) (hv : Valid 1 (h ++ h')) (i : Nat) (name : String) (s : Sym)
    (hs : firstDef h i name = some s) : (run (h ++ h')).resolve i name = some s := by
  rw [resolve_iff hv]
  exact .here (by rw [firstDef_append, hs]; rfl)

open Clara.SymTab in
/-- `x` declared globally and again in a nested scope: shadowed inside, unchanged outside. -/
example : let h : List Op := [.define 0 ⟨"x", 7, false⟩, .child 0, .child 1, .define 2 ⟨"x", 8, false⟩]
    Valid 1 h ∧ (run h).resolve 2 "x" = some ⟨"x", 8, false⟩ ∧
      (run h).resolve 1 "x" = some ⟨"x", 7, false⟩ ∧ ¬ Encloses h 2 1 := by
  refine ⟨by simp [Valid], by decide, by decide, ?_⟩
  intro h
  cases h with
  | step hp h =>
    simp [parents] at hp
    subst hp
    cases h with
    | step hp h => simp [parents] at hp

end Clara.Props
