import Verif.Sema.Source
/-
The declaration of enums and the checks of `match`: `processTopLevelTypes` for `opEnumDcl`
(`semantic.go` 143-171), `HasMember` (`symtab.go` 310-317), `typeCheck` for `opMatch`
(`typecheck.go` 400-460), `typeCheckCase` (`typecheck.go` 477-515).

Function types are compared by address: an address is a number, and a heap tells what is there.
The symbol table is a function from names.  The errors of the expression and of the statements of
the cases are given.  Errors are kept by kind; the text is not modelled.
-/
namespace Clara.Sema.Match

/-- What is recorded of the type of a constructor: `EnumConsFunc.Tag` and the number of parameters. -/
structure Cons where
  tag : Nat
  params : Nat
  deriving DecidableEq, Repr

/-- Function types in memory. -/
structure Mem where
  next : Nat
  heap : Nat → Option Cons

def Mem.new (m : Mem) (c : Cons) : Mem := ⟨m.next + 1, fun a => if a = m.next then some c else m.heap a⟩

/-- The constructors of an enum, given their numbers of parameters, from the tag `i` on
(`semantic.go` 147-168); the result has `EnumType.Members`.  (A constructor with more than five
parameters is an error, 157-160; see `tooMany`.) -/
def declare (m : Mem) (i : Nat) : List Nat → List Nat × Mem
  | [] => ([], m)
  | k :: ks =>
    let r := declare (m.new ⟨i, k⟩) (i + 1) ks
    (m.next :: r.1, r.2)

/-- `semantic.go` 157. -/
def tooMany (ks : List Nat) : Bool := ks.any (fun k => decide (k > 5))

/-- A symbol: it has the type of the enum constructor at the address, or some other type. -/
inductive Sym
  | cons (a : Nat)
  | other
  deriving DecidableEq, Repr

inductive Err
  | notACase | argCount | redeclared | body | unknownCase | repeated | notExhaustive
  deriving DecidableEq, Repr

/-- A case: the constructor, the variables, the number of errors in its statements. -/
structure Case where
  name : String
  vars : List String
  body : Nat

/-- The variables of a case that repeat one before (`typecheck.go` 499-507). -/
def redeclares (seen : List String) : List String → List Err
  | [] => []
  | x :: xs => if x ∈ seen then .redeclared :: redeclares seen xs else redeclares (x :: seen) xs

/-- `typeCheckCase` (`typecheck.go` 477-515): the symbol given to the case, and the errors. -/
def checkCase (M : Mem) (resolve : String → Option Sym) (c : Case) : Option Nat × List Err :=
  match resolve c.name with
  | some (.cons a) =>
    match M.heap a with
    | some k =>
      if k.params ≠ c.vars.length then (some a, [.argCount])
      else (some a, redeclares [] c.vars ++ List.replicate c.body .body)
    | none => (none, [.notACase])
  | _ => (none, [.notACase])

/-- The second loop over the cases (`typecheck.go` 431-449): `seen` is the map `cases`. -/
def checkCons (members : List Nat) : List Nat → List (Option Nat) → List Err
  | _, [] => []
  | seen, none :: cs => checkCons members seen cs
  | seen, some a :: cs =>
    if a ∉ members then .unknownCase :: checkCons members seen cs
    else if a ∈ seen then .repeated :: checkCons members seen cs
    else checkCons members (a :: seen) cs

/-- `typeCheck` for `opMatch` on an expression of the enum (`typecheck.go` 400-460). -/
def checkMatch (M : Mem) (members : List Nat) (resolve : String → Option Sym) (cases : List Case) : List Err :=
  let rs := cases.map (checkCase M resolve)
  let errs := rs.flatMap (·.2) ++ checkCons members [] (rs.map (·.1))
  if errs ≠ [] then errs
  else if cases.length ≠ members.length then [.notExhaustive]
  else []

/-! ### Lemmas -/

theorem declare_next (ks : List Nat) : ∀ (m : Mem) (i : Nat), m.next ≤ (declare m i ks).2.next ∧
    ∀ a, a < m.next → (declare m i ks).2.heap a = m.heap a := by
  induction ks with
  | nil => exact fun m i => ⟨Nat.le_refl _, fun _ _ => rfl⟩
  | cons k ks ih =>
    intro m i
    have := ih (m.new ⟨i, k⟩) (i + 1)
    simp only [Mem.new] at this
    refine ⟨by simp only [declare, Mem.new]; omega, fun a ha => ?_⟩
    simp only [declare, Mem.new]
    rw [this.2 a (by omega), if_neg (by omega)]

theorem declare_members (ks : List Nat) : ∀ (m : Mem) (i : Nat), (declare m i ks).1 = List.range' m.next ks.length := by
  induction ks with
  | nil => exact fun m i => rfl
  | cons k ks ih =>
    intro m i
    simp only [declare, ih, Mem.new, List.length_cons, List.range'_succ]

theorem declare_heap (ks : List Nat) : ∀ (m : Mem) (i j : Nat) (k : Nat), ks[j]? = some k →
    (declare m i ks).2.heap (m.next + j) = some ⟨i + j, k⟩ := by
  induction ks with
  | nil => intro m i j k h; simp at h
  | cons k0 ks ih =>
    intro m i j k h
    cases j with
    | zero =>
      simp only [List.getElem?_cons_zero, Option.some.injEq] at h
      subst h
      simp only [declare, Nat.add_zero]
      rw [(declare_next ks _ _).2 _ (by simp [Mem.new])]
      simp [Mem.new]
    | succ j =>
      have := ih (m.new ⟨i, k0⟩) (i + 1) j k (by simpa using h)
      simp only [Mem.new] at this
      simp only [declare, Mem.new]
      rw [show m.next + (j + 1) = m.next + 1 + j from by omega, this]
      simp only [Option.some.injEq, Cons.mk.injEq, and_true]
      omega

theorem redeclares_iff : ∀ (xs seen : List String), redeclares seen xs = [] ↔ (∀ x ∈ xs, x ∉ seen) ∧ xs.Nodup
  | [], seen => by simp [redeclares]
  | x :: xs, seen => by
    simp only [redeclares]
    by_cases h : x ∈ seen
    · simp [h]
    · have := redeclares_iff xs (x :: seen)
      simp only [h, if_false, this, List.mem_cons, not_or, List.nodup_cons, forall_eq_or_imp, true_and, not_false_eq_true]
      constructor
      · rintro ⟨h1, h2⟩
        exact ⟨fun b hb => (h1 b hb).2, fun hc => (h1 x hc).1 rfl, h2⟩
      · rintro ⟨h1, h2, h3⟩
        exact ⟨fun b hb => ⟨fun e => h2 (e ▸ hb), h1 b hb⟩, h3⟩

theorem redeclares_nil (xs : List String) : redeclares [] xs = [] ↔ xs.Nodup := by
  rw [redeclares_iff]
  simp

/-- A case without errors. -/
theorem checkCase_nil {M : Mem} {resolve : String → Option Sym} {c : Case} : (checkCase M resolve c).2 = [] ↔
    ∃ a k, resolve c.name = some (.cons a) ∧ M.heap a = some k ∧ k.params = c.vars.length ∧ c.vars.Nodup ∧ c.body = 0 := by
  unfold checkCase
  constructor
  · intro h
    split at h
    · rename_i a ha
      split at h
      · rename_i k hk
        split at h
        · simp at h
        · rename_i hp
          simp only [List.append_eq_nil_iff, redeclares_nil] at h
          refine ⟨a, k, ha, hk, by omega, h.1, ?_⟩
          simpa using h.2
      · simp at h
    · simp at h
  · rintro ⟨a, k, h1, h2, h3, h4, h5⟩
    simp only [h1, h2, h3, ne_eq, not_true, if_false, h5, List.replicate_zero, List.append_nil]
    exact (redeclares_nil _).mpr h4

theorem checkCase_sym {M : Mem} {resolve : String → Option Sym} {c : Case} {a : Nat} {k : Cons}
    (h : resolve c.name = some (.cons a)) (h' : M.heap a = some k) : (checkCase M resolve c).1 = some a := by
  unfold checkCase
  simp only [h, h']
  split <;> rfl

/-- The second loop without errors. -/
theorem checkCons_nil (members : List Nat) : ∀ (as : List Nat) (seen : List Nat),
    checkCons members seen (as.map some) = [] ↔ (∀ a ∈ as, a ∈ members ∧ a ∉ seen) ∧ as.Nodup
  | [], seen => by simp [checkCons]
  | a :: as, seen => by
    simp only [List.map_cons, checkCons]
    by_cases hm : a ∈ members
    · by_cases hs : a ∈ seen
      · simp [hm, hs]
      · have := checkCons_nil members as (a :: seen)
        simp only [hm, hs, not_true, if_false, this, List.mem_cons, not_or, List.nodup_cons, forall_eq_or_imp, true_and, not_false_eq_true]
        constructor
        · rintro ⟨h1, h2⟩
          exact ⟨fun b hb => ⟨(h1 b hb).1, (h1 b hb).2.2⟩, fun hc => (h1 a hc).2.1 rfl, h2⟩
        · rintro ⟨h1, h2, h3⟩
          exact ⟨fun b hb => ⟨(h1 b hb).1, fun e => h2 (e ▸ hb), (h1 b hb).2⟩, h3⟩
    · simp [hm]

/-- **When a `match` is accepted**: the cases are correct one by one, they are constructors of the
enum, no two are the same, and there are as many as the enum has. -/
theorem checkMatch_nil {M : Mem} {members : List Nat} {resolve : String → Option Sym} {cases : List Case} :
    checkMatch M members resolve cases = [] ↔
    (∀ c ∈ cases, (checkCase M resolve c).2 = []) ∧
    ∃ as : List Nat, cases.map (fun c => resolve c.name) = as.map (fun a => some (.cons a)) ∧ (∀ a ∈ as, a ∈ members) ∧ as.Nodup ∧
      as.length = members.length := by
  have key : (∀ c ∈ cases, (checkCase M resolve c).2 = []) → ∃ as : List Nat,
      cases.map (fun c => resolve c.name) = as.map (fun a => some (.cons a)) ∧
      (cases.map (checkCase M resolve)).map (·.1) = as.map some := by
    intro h
    induction cases with
    | nil => exact ⟨[], rfl, rfl⟩
    | cons c cs ih =>
      obtain ⟨as, h1, h2⟩ := ih (fun c hc => h c (List.mem_cons_of_mem _ hc))
      obtain ⟨a, k, h3, h4, -⟩ := checkCase_nil.mp (h c (List.mem_cons_self ..))
      exact ⟨a :: as, by simp [h1, h3], by simp only [List.map_cons, h2, checkCase_sym h3 h4]⟩
  have inj : ∀ {as bs : List Nat}, as.map (fun a => some (Sym.cons a)) = bs.map (fun a => some (Sym.cons a)) → as = bs := by
    intro as bs h
    exact (List.map_inj_right (fun a b hab => by simpa using hab)).mp h
  constructor
  · intro h
    unfold checkMatch at h
    simp only at h
    split at h
    · rename_i hne
      exact absurd h hne
    · rename_i hne
      simp only [ne_eq, Decidable.not_not, List.append_eq_nil_iff] at hne
      split at h
      · cases h
      · rename_i hlen
        have h1 : ∀ c ∈ cases, (checkCase M resolve c).2 = [] := by
          intro c hc
          exact List.flatMap_eq_nil_iff.mp hne.1 _ (List.mem_map_of_mem hc)
        obtain ⟨as, ha, hb⟩ := key h1
        rw [hb, checkCons_nil] at hne
        refine ⟨h1, as, ha, fun a h => (hne.2.1 a h).1, hne.2.2, ?_⟩
        have := congrArg List.length ha
        simp only [List.length_map] at this
        omega
  · rintro ⟨h1, as, ha, hm, hn, hl⟩
    obtain ⟨as', ha', hb⟩ := key h1
    have := inj (ha.symm.trans ha')
    subst this
    have e1 : (cases.map (checkCase M resolve)).flatMap (·.2) = [] := by
      rw [List.flatMap_eq_nil_iff]
      intro r hr
      obtain ⟨c, hc, rfl⟩ := List.mem_map.mp hr
      exact h1 c hc
    have e2 : checkCons members [] ((cases.map (checkCase M resolve)).map (·.1)) = [] := by
      rw [hb, checkCons_nil]
      exact ⟨fun a h => ⟨hm a h, by simp⟩, hn⟩
    have e3 : cases.length = members.length := by
      have := congrArg List.length ha
      simp only [List.length_map] at this
      omega
    unfold checkMatch
    simp only [e1, e2, e3, List.append_nil, ne_eq, not_true, if_false]

end Clara.Sema.Match
