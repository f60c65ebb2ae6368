/-
Model of symbol tables: `symtab.go` 487-547. Tables are kept in creation order; a table is named by
its index. A symbol is its name and an identity. Simplification: symbols are never renamed after
being defined (`closures.go` 33 renames a symbol that is not looked up any more).
-/
namespace Clara.SymTab

structure Sym where
  name : String
  id : Nat
  isType : Bool := false
  deriving DecidableEq, Repr

/-- `SymTab` (`symtab.go` 487-491) without `children`. -/
structure Table where
  parent : Option Nat
  symbols : List (String × Sym)

/-- All tables created so far. -/
abbrev Tabs := List Table

/-- `NewSymtab` (`symtab.go` 495-497). -/
def init : Tabs := [⟨none, []⟩]

/-- `st.symbols[name]`. -/
def Tabs.own (ts : Tabs) (i : Nat) (name : String) : Option Sym :=
  match ts[i]? with
  | some t => t.symbols.lookup name
  | none => none

/-- `Define` (`symtab.go` 499-505): the symbol now stored under the name and whether it was there
before. -/
def Tabs.define (ts : Tabs) (i : Nat) (s : Sym) : Tabs × Sym × Bool :=
  match ts.own i s.name with
  | some old => (ts, old, true)
  | none => (ts.modify i (fun t => { t with symbols := (s.name, s) :: t.symbols }), s, false)

/-- `Child` (`symtab.go` 542-547): the new table is the last one. -/
def Tabs.child (ts : Tabs) (i : Nat) : Tabs := ts ++ [⟨some i, []⟩]

/-- `Resolve` (`symtab.go` 512-518); `fuel` bounds the walk up the parents. -/
def Tabs.resolveN (ts : Tabs) (name : String) : Nat → Nat → Option Sym
  | 0, _ => none
  | fuel + 1, i =>
    match ts.own i name with
    | some s => some s
    | none =>
      match (ts[i]?).bind Table.parent with
      | some p => ts.resolveN name fuel p
      | none => none

/-- Parents are created before their children, so a walk visits at most `i + 1` tables. -/
def Tabs.resolve (ts : Tabs) (i : Nat) (name : String) : Option Sym := ts.resolveN name (i + 1) i

/-- `ResolveAll` (`symtab.go` 520-528). -/
def Tabs.resolveAllN (ts : Tabs) (name : String) (pred : Sym → Bool) : Nat → Nat → Option Sym
  | 0, _ => none
  | fuel + 1, i =>
    match (ts.own i name).filter pred with
    | some s => some s
    | none =>
      match (ts[i]?).bind Table.parent with
      | some p => ts.resolveAllN name pred fuel p
      | none => none

def Tabs.resolveAll (ts : Tabs) (i : Nat) (name : String) (pred : Sym → Bool) : Option Sym :=
  ts.resolveAllN name pred (i + 1) i

/-- What the compiler does with symbol tables. -/
inductive Op
  | define (i : Nat) (s : Sym)
  | child (i : Nat)

def Op.run (ts : Tabs) : Op → Tabs
  | .define i s => (ts.define i s).1
  | .child i => ts.child i

def run (h : List Op) : Tabs := h.foldl Op.run init

/-- Operations only use tables that exist. -/
def Valid : Nat → List Op → Prop
  | _, [] => True
  | n, .define i _ :: h => i < n ∧ Valid n h
  | n, .child i :: h => i < n ∧ Valid (n + 1) h

/-! Specification in terms of the history only. -/

/-- The first declaration of `name` in scope `i`. -/
def firstDef (h : List Op) (i : Nat) (name : String) : Option Sym :=
  h.findSome? fun
    | .define j s => if j = i ∧ s.name = name then some s else none
    | .child _ => none

/-- The enclosing scopes of the scopes in creation order. -/
def parents (h : List Op) : List (Option Nat) :=
  none :: h.filterMap fun
    | .child i => some (some i)
    | .define .. => none

/-- `name` used in scope `i` means the declaration `s`: the one in the innermost enclosing scope that
declares the name. -/
inductive Means (h : List Op) : Nat → String → Sym → Prop
  | here {i name s} : firstDef h i name = some s → Means h i name s
  | outer {i p name s} : firstDef h i name = none → (parents h)[i]? = some (some p) →
      Means h p name s → Means h i name s

/-- Scope `j` is scope `i` or encloses it. -/
inductive Encloses (h : List Op) (j : Nat) : Nat → Prop
  | refl : Encloses h j j
  | step {i p} : (parents h)[i]? = some (some p) → Encloses h j p → Encloses h j i

/-! Lemmas. -/

theorem own_define (ts : Tabs) (j : Nat) (s : Sym) (i : Nat) (name : String) (hj : j < ts.length) :
    (ts.define j s).1.own i name =
      (ts.own i name).or (if j = i ∧ s.name = name then some s else none) := by
  unfold Tabs.define
  cases ho : ts.own j s.name with
  | some old =>
    simp only
    by_cases h : j = i ∧ s.name = name
    · obtain ⟨rfl, rfl⟩ := h; simp [ho]
    · simp [h]
  | none =>
    simp only
    unfold Tabs.own at ho ⊢
    rw [List.getElem?_modify]
    by_cases hji : j = i
    · subst hji
      rw [List.getElem?_eq_getElem hj] at ho ⊢
      simp only [if_true, Option.map_eq_map, Option.map_some, true_and] at ho ⊢
      rw [List.lookup_cons]
      by_cases hn : s.name = name
      · subst hn
        simp [ho]
      · have : (name == s.name) = false := beq_false_of_ne (Ne.symm hn)
        simp [this, hn]
    · cases ts[i]? <;> simp [hji]

theorem parent_define (ts : Tabs) (j : Nat) (s : Sym) :
    (ts.define j s).1.map Table.parent = ts.map Table.parent := by
  unfold Tabs.define
  cases ts.own j s.name with
  | some _ => rfl
  | none =>
    simp only
    apply List.ext_getElem?
    intro i
    simp only [List.getElem?_map, List.getElem?_modify]
    by_cases h : j = i
    · cases ts[i]? <;> simp [h]
    · cases ts[i]? <;> simp [h]

theorem own_child (ts : Tabs) (j i : Nat) (name : String) :
    (ts.child j).own i name = ts.own i name := by
  unfold Tabs.child Tabs.own
  by_cases h : i < ts.length
  · rw [List.getElem?_append_left h]
  · rw [List.getElem?_append_right (by omega), List.getElem?_eq_none (l := ts) (by omega)]
    cases hk : i - ts.length with
    | zero => simp
    | succ k => simp

theorem length_define (ts : Tabs) (j : Nat) (s : Sym) : (ts.define j s).1.length = ts.length := by
  have := congrArg List.length (parent_define ts j s)
  simpa using this

theorem own_run (ts : Tabs) (h : List Op) (hv : Valid ts.length h) (i : Nat) (name : String) :
    Tabs.own (h.foldl Op.run ts) i name = (ts.own i name).or (firstDef h i name) := by
  induction h generalizing ts with
  | nil => simp [firstDef]
  | cons o h ih =>
    cases o with
    | define j s =>
      simp only [List.foldl_cons, Op.run]
      rw [ih _ (by rw [length_define]; exact hv.2), own_define ts j s i name hv.1]
      simp only [firstDef, List.findSome?_cons]
      split
      · cases ts.own i name <;> simp
      · simp
    | child j =>
      simp only [List.foldl_cons, Op.run]
      rw [ih _ (by simpa [Tabs.child] using hv.2), own_child]
      rfl

theorem parents_run (ts : Tabs) (h : List Op) :
    (h.foldl Op.run ts).map Table.parent = ts.map Table.parent ++ h.filterMap (fun
      | .child i => some (some i)
      | .define .. => none) := by
  induction h generalizing ts with
  | nil => simp
  | cons o h ih =>
    cases o with
    | define j s =>
      simp only [List.foldl_cons, Op.run]
      rw [ih, parent_define]
      rfl
    | child j =>
      simp only [List.foldl_cons, Op.run]
      rw [ih]
      simp [Tabs.child]

theorem own_run_init (h : List Op) (hv : Valid 1 h) (i : Nat) (name : String) :
    (run h).own i name = firstDef h i name := by
  unfold run
  rw [own_run init h hv]
  have : init.own i name = none := by
    unfold Tabs.own init
    cases i <;> simp
  simp [this]

theorem parent_run_init (h : List Op) (i : Nat) :
    ((run h)[i]?).bind Table.parent = ((parents h)[i]?).bind id := by
  have hp : (run h).map Table.parent = parents h := parents_run init h
  rw [← hp, List.getElem?_map]
  cases (run h)[i]? <;> simp

theorem valid_parent {n : Nat} {h : List Op} (hv : Valid n h) (i p : Nat)
    (hi : (h.filterMap (fun
      | .child i => some (some i)
      | .define .. => none))[i]? = some (some p)) : p < n + i := by
  induction h generalizing n i with
  | nil => simp at hi
  | cons o h ih =>
    cases o with
    | define j s => exact ih hv.2 i hi
    | child j =>
      simp only [List.filterMap_cons] at hi
      cases i with
      | zero => simp at hi; have := hv.1; omega
      | succ i =>
        have := ih hv.2 i (by simpa using hi)
        omega

/-- Parents come before their children. -/
theorem parents_lt {h : List Op} (hv : Valid 1 h) {i p : Nat}
    (hi : (parents h)[i]? = some (some p)) : p < i := by
  unfold parents at hi
  cases i with
  | zero => simp at hi
  | succ i =>
    have := valid_parent hv i p (by simpa using hi)
    omega

theorem resolveN_iff {h : List Op} (hv : Valid 1 h) (name : String) (s : Sym) (n i : Nat) (hn : i < n) :
    (run h).resolveN name n i = some s ↔ Means h i name s := by
  induction n generalizing i with
  | zero => omega
  | succ n ih =>
    simp only [Tabs.resolveN, own_run_init h hv, parent_run_init]
    cases hd : firstDef h i name with
    | some s' =>
      simp only [Option.some.injEq]
      constructor
      · rintro rfl; exact .here hd
      · intro hm
        cases hm with
        | here h1 => rw [hd] at h1; exact Option.some.inj h1
        | outer h1 => rw [hd] at h1; cases h1
    | none =>
      simp only
      cases hp : ((parents h)[i]?).bind id with
      | none =>
        simp only [reduceCtorEq, false_iff]
        intro hm
        cases hm with
        | here h1 => rw [hd] at h1; cases h1
        | outer _ h2 => rw [h2] at hp; simp at hp
      | some p =>
        have hp' : (parents h)[i]? = some (some p) := by
          cases hq : (parents h)[i]? with
          | none => rw [hq] at hp; simp at hp
          | some o => rw [hq] at hp; simp at hp; rw [hp]
        have hlt := parents_lt hv hp'
        simp only
        rw [ih p (by omega)]
        constructor
        · intro hm; exact .outer hd hp' hm
        · intro hm
          cases hm with
          | here h1 => rw [hd] at h1; cases h1
          | outer _ h2 h3 => rw [hp'] at h2; cases h2; exact h3

theorem resolve_iff {h : List Op} (hv : Valid 1 h) (i : Nat) (name : String) (s : Sym) :
    (run h).resolve i name = some s ↔ Means h i name s :=
  resolveN_iff hv name s (i + 1) i (by omega)

theorem firstDef_append (h h' : List Op) (i : Nat) (name : String) :
    firstDef (h ++ h') i name = (firstDef h i name).or (firstDef h' i name) := by
  unfold firstDef; rw [List.findSome?_append]

theorem parents_append_define (h : List Op) (j : Nat) (s : Sym) :
    parents (h ++ [.define j s]) = parents h := by
  simp [parents, List.filterMap_append]

theorem parents_append (h h' : List Op) {i : Nat} {o : Option Nat} (hi : (parents h)[i]? = some o) :
    (parents (h ++ h'))[i]? = some o := by
  unfold parents at hi ⊢
  rw [List.filterMap_append, ← List.cons_append, List.getElem?_append_left]
  · exact hi
  · exact (List.getElem?_eq_some_iff.1 hi).1

theorem means_define {h : List Op} {j : Nat} {s' : Sym} {i : Nat} {name : String} {s : Sym}
    (hno : s'.name ≠ name ∨ ¬ Encloses h j i) :
    Means (h ++ [.define j s']) i name s ↔ Means h i name s := by
  have hd : ∀ i, (s'.name ≠ name ∨ ¬ Encloses h j i) →
      firstDef (h ++ [.define j s']) i name = firstDef h i name := by
    intro i hno
    rw [firstDef_append]
    have : firstDef [.define j s'] i name = none := by
      simp only [firstDef, List.findSome?_cons, List.findSome?_nil]
      have : ¬ (j = i ∧ s'.name = name) := by
        rintro ⟨rfl, e⟩
        rcases hno with h | h
        · exact h e
        · exact h .refl
      simp [this]
    simp [this]
  have up : ∀ {i p}, (parents h)[i]? = some (some p) → (s'.name ≠ name ∨ ¬ Encloses h j i) →
      (s'.name ≠ name ∨ ¬ Encloses h j p) := by
    intro i p hp hno
    rcases hno with h | h
    · exact .inl h
    · exact .inr (fun he => h (.step hp he))
  constructor
  · intro hm
    revert hno
    induction hm with
    | here h1 => intro hno; rw [hd _ hno] at h1; exact .here h1
    | outer h1 h2 _ ih =>
      intro hno
      rw [hd _ hno] at h1
      rw [parents_append_define] at h2
      exact .outer h1 h2 (ih hd up (up h2 hno))
  · intro hm
    revert hno
    induction hm with
    | here h1 => intro hno; rw [← hd _ hno] at h1; exact .here h1
    | outer h1 h2 _ ih =>
      intro hno
      rw [← hd _ hno] at h1
      exact .outer h1 (by rw [parents_append_define]; exact h2) (ih hd up (up h2 hno))

theorem valid_append {n : Nat} {h h' : List Op} : Valid n (h ++ h') → Valid n h := by
  induction h generalizing n with
  | nil => intro _; trivial
  | cons o h ih =>
    cases o with
    | define j s => rintro ⟨h1, h2⟩; exact ⟨h1, ih h2⟩
    | child j => rintro ⟨h1, h2⟩; exact ⟨h1, ih h2⟩

end Clara.SymTab
