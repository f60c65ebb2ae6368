import Verif.Lib.Functional
/-
Properties of the library enums and lists (C47, C48).
-/
namespace Clara.Props
open Clara.Lib

universe u
variable {T R E : Type u} {m : Type u → Type u} [Monad m] [LawfulMonad m]

/-! ### C47 -/

/-- The elements of a list value, first one first. -/
def elems : LList T → List T
  | .element v l => v :: elems l
  | .empty => []

/-- The option values of the specification. -/
def asOpt : Option T → Opt T
  | some v => .some v
  | none => .none

theorem elems_inj {a b : LList T} (h : elems a = elems b) : a = b := by
  induction a generalizing b with
  | empty => cases b with
    | empty => rfl
    | element => cases h
  | element v l ih => cases b with
    | empty => cases h
    | element w k => simp only [elems, List.cons.injEq] at h; rw [h.1, ih h.2]

theorem toListLoop_spec (a : List T) (n : Nat) (hn : n ≤ a.length) (l : LList T) :
    ∃ r, toListLoop a n l = some r ∧ elems r = a.take n ++ elems l := by
  induction n generalizing l with
  | zero => exact ⟨l, rfl, by simp⟩
  | succ n ih =>
    have h : a[n]? = some a[n] := List.getElem?_eq_getElem (by omega)
    obtain ⟨r, h1, h2⟩ := ih (by omega) (.element a[n] l)
    refine ⟨r, ?_, ?_⟩
    · simp only [toListLoop, h]; exact h1
    · rw [h2, elems, List.take_add_one (l := a), h, List.append_assoc]; rfl

/-- **C47, `toList`.** It never panics, and the list has the elements of the array in order. -/
theorem C47_toList (a : List T) : ∃ r, toList a = some r ∧ elems r = a := by
  obtain ⟨r, h1, h2⟩ := toListLoop_spec a a.length (Nat.le_refl _) .empty
  exact ⟨r, h1, by simpa [elems] using h2⟩

/-- `append` puts the value in front. -/
theorem C47_append (l : LList T) (v : T) : elems (l.append v) = [v] ++ elems l := rfl

theorem reverseLoop_spec (l new : LList T) : elems (l.reverseLoop new) = (elems l).reverse ++ elems new := by
  induction l generalizing new with
  | empty => rfl
  | element v l ih => rw [LList.reverseLoop, ih]; simp [elems]

theorem C47_reverse (l : LList T) : elems l.reverse = (elems l).reverse := by
  rw [LList.reverse, reverseLoop_spec]; simp [elems]

/-- `map` calls the function on the elements in order. -/
theorem C47_map (l : LList T) (f : T → m R) : elems <$> l.map f = (elems l).mapM f := by
  induction l with
  | empty => simp [LList.map, elems]
  | element v l ih =>
    simp only [LList.map, elems, List.mapM_cons, ← ih, map_eq_pure_bind, bind_assoc, pure_bind]

omit [LawfulMonad m] in
theorem C47_foreach (l : LList T) (f : T → m PUnit) : l.foreach f = (elems l).forM f := by
  induction l with
  | empty => rfl
  | element v l ih => rw [LList.foreach, ih]; rfl

omit [LawfulMonad m] in
theorem C47_reduce (l : LList T) (acc : T) (f : T → T → m T) : l.reduce f acc = (elems l).foldlM f acc := by
  induction l generalizing acc with
  | empty => rfl
  | element v l ih => simp only [LList.reduce, elems, List.foldlM_cons, ih]

/-- The specification of `find`: the function is called on the elements in order until it answers true. -/
def findSpec (p : T → m (ULift Bool)) : List T → m (ULift (Option T))
  | [] => pure ⟨none⟩
  | x :: xs => do if (← p x).down then pure ⟨some x⟩ else findSpec p xs

theorem C47_find (l : LList T) (p : T → m (ULift Bool)) :
    l.find p = (fun o => asOpt o.down) <$> findSpec p (elems l) := by
  induction l with
  | empty => simp [LList.find, elems, findSpec, asOpt]
  | element v l ih =>
    simp only [LList.find, elems, findSpec, map_eq_pure_bind, bind_assoc]
    congr; funext b
    split
    · simp [asOpt]
    · rw [ih, map_eq_pure_bind]

/-- For a function without effects: the first element for which it is true. -/
theorem C47_find_pure (l : LList T) (p : T → Bool) :
    (l.find (m := Id) (fun x => ⟨p x⟩)).run = asOpt ((elems l).find? p) := by
  induction l with
  | empty => rfl
  | element v l ih =>
    simp only [LList.find, elems, List.find?_cons]
    cases p v
    · exact ih
    · rfl

/-- The answers of the function on all elements. -/
def answers (p : T → m (ULift Bool)) : List T → m (List (T × ULift Bool))
  | [] => pure []
  | x :: xs => do
    let b ← p x
    let r ← answers p xs
    pure ((x, b) :: r)

theorem removeLoop_some (p : T → m (ULift Bool)) (l new : LList T) (w : T) :
    (fun r => (elems r.1, r.2)) <$> l.removeLoop p new (.some w) =
      (fun a => ((a.map (·.1)).reverse ++ elems new, Opt.some w)) <$> answers p (elems l) := by
  induction l generalizing new with
  | empty => simp [LList.removeLoop, elems, answers]
  | element v l ih =>
    simp only [LList.removeLoop, Opt.isNone, Bool.and_false, elems, answers, map_bind, Bool.false_eq_true, if_false]
    congr; funext b
    rw [ih]
    simp [elems]

theorem removeLoop_none (p : T → m (ULift Bool)) (l new : LList T) :
    (fun r => (elems r.1, r.2)) <$> l.removeLoop p new .none =
      (fun a => (((a.eraseP (·.2.down)).map (·.1)).reverse ++ elems new,
        asOpt ((a.find? (·.2.down)).map (·.1)))) <$> answers p (elems l) := by
  induction l generalizing new with
  | empty => simp [LList.removeLoop, elems, answers, asOpt]
  | element v l ih =>
    simp only [LList.removeLoop, Opt.isNone, Bool.and_true, elems, answers, map_bind]
    congr; funext b
    rcases b with ⟨_ | _⟩
    · simp only [Bool.false_eq_true, if_false]
      rw [ih]
      simp [elems]
    · simp only [if_true]
      rw [removeLoop_some]
      simp [asOpt]

/-- `remove` calls the function on every element in order, takes out the first element for which it answered
true and returns that element. -/
theorem C47_remove (l : LList T) (p : T → m (ULift Bool)) :
    (fun r => (elems r.1, r.2)) <$> l.remove p =
      (fun a => ((a.eraseP (·.2.down)).map (·.1), asOpt ((a.find? (·.2.down)).map (·.1)))) <$>
        answers p (elems l) := by
  have h := congrArg (fun x => (fun r : List T × Opt T => (r.1.reverse, r.2)) <$> x) (removeLoop_none p l .empty)
  simp only [Functor.map_map] at h
  simp only [LList.remove, map_bind, map_pure, C47_reverse]
  rw [← map_eq_pure_bind, h]
  simp [elems]

/-- Removing the first even number of 3, 4, 6, with a log of the calls. -/
example :
    let l : LList Nat := .element 3 (.element 4 (.element 6 .empty))
    (l.remove (m := StateM (List Nat)) (fun x => do modify (· ++ [x]); return ⟨x % 2 == 0⟩)).run [] =
      ((.element 3 (.element 6 .empty), .some 4), [3, 4, 6]) := rfl

example : toList [5, 7] = some (.element 5 (.element 7 .empty)) := rfl

/-! ### C48 -/

/-- The mathematical option and sum of which the enums are copies. -/
def ofOpt : Opt T → Option T
  | .some v => some v
  | .none => none

theorem C48_isNone (o : Opt T) : o.isNone = true ↔ ofOpt o = none := by
  cases o <;> simp [Opt.isNone, ofOpt]

theorem C48_isSome (o : Opt T) : o.isSome = true ↔ ∃ v, ofOpt o = some v := by
  cases o <;> simp [Opt.isSome, Opt.isNone, ofOpt]

theorem C48_orElse (o : Opt T) (x : T) : o.orElse x = (ofOpt o).getD x := by
  cases o <;> rfl

/-- Calling a function on what is present: once on the value, or not at all. -/
def onValue (o : Option T) (f : T → m R) : m (ULift (Option R)) :=
  match o with
  | some v => do let r ← f v; pure ⟨some r⟩
  | none => pure ⟨none⟩

/-- `map`, `filter` and `peek` call the function exactly if there is a value, once, on that value. -/
theorem C48_map (o : Opt T) (f : T → m R) :
    o.map f = (fun r => asOpt r.down) <$> onValue (ofOpt o) f := by
  cases o <;> simp [Opt.map, onValue, ofOpt, asOpt]

theorem C48_filter (o : Opt T) (f : T → m (ULift Bool)) :
    o.filter f = (fun r => if r.down = some ⟨true⟩ then o else .none) <$> onValue (ofOpt o) f := by
  cases o with
  | none => simp [Opt.filter, onValue, ofOpt]
  | some v =>
    simp only [Opt.filter, onValue, ofOpt, map_eq_pure_bind, bind_assoc, pure_bind]
    congr; funext b
    rcases b with ⟨_ | _⟩ <;> simp

theorem C48_peek (o : Opt T) (f : T → m PUnit) : o.peek f = (fun _ => o) <$> onValue (ofOpt o) f := by
  cases o <;> simp [Opt.peek, onValue, ofOpt]

/-- Functor laws, for functions with effects. -/
theorem C48_map_id (o : Opt T) : o.map (m := m) pure = pure o := by
  cases o <;> simp [Opt.map]

theorem C48_map_comp {Q : Type u} (o : Opt T) (f : T → m R) (g : R → m Q) :
    (do let r ← o.map f; r.map g) = o.map (fun v => do let r ← f v; g r) := by
  cases o <;> simp [Opt.map]

/-- The sum type. -/
def ofRes : Result T E → Except E T
  | .ok v => .ok v
  | .err e => .error e

theorem ofRes_inj {a b : Result T E} (h : ofRes a = ofRes b) : a = b := by
  cases a <;> cases b <;> simp [ofRes] at h <;> simp [h]

/-- `then` continues with the value of an `Ok`, calling the function once, and passes errors on. -/
theorem C48_then (r : Result T E) (f : T → m (Result R E)) :
    ofRes <$> r.then f = match ofRes r with
      | .ok v => ofRes <$> f v
      | .error e => pure (.error e) := by
  cases r <;> simp [Result.then, ofRes]

theorem C48_result_map (r : Result T E) (f : T → m R) :
    ofRes <$> r.map f = match ofRes r with
      | .ok v => Except.ok <$> f v
      | .error e => pure (.error e) := by
  cases r <;> simp [Result.map, ofRes]

omit [LawfulMonad m] in
theorem C48_then_ok (v : T) (f : T → m (Result R E)) : (Result.ok v).then f = f v := rfl

omit [LawfulMonad m] in
theorem C48_then_right (r : Result T E) : r.then (m := m) (fun v => pure (.ok v)) = pure r := by
  cases r <;> rfl

theorem C48_then_assoc {Q : Type u} (r : Result T E) (f : T → m (Result R E)) (g : R → m (Result Q E)) :
    (do let x ← r.then f; x.then g) = r.then (fun v => do let x ← f v; x.then g) := by
  cases r <;> simp [Result.then]

theorem C48_result_map_id (r : Result T E) : r.map (m := m) pure = pure r := by
  cases r <;> simp [Result.map]

theorem C48_result_map_comp {Q : Type u} (r : Result T E) (f : T → m R) (g : R → m Q) :
    (do let x ← r.map f; x.map g) = r.map (fun v => do let x ← f v; g x) := by
  cases r <;> simp [Result.map]

/-- `peek` on a result: the function is called exactly on the value of an `Ok`; an error it returns replaces the
value. -/
theorem C48_result_peek (r : Result T E) (f : T → m (Opt E)) :
    r.peek f = r.then (fun v => (fun e => match ofOpt e with | some e => .err e | none => .ok v) <$> f v) := by
  cases r with
  | err e => rfl
  | ok v =>
    simp only [Result.peek, Result.then, map_eq_pure_bind]
    congr; funext e
    cases e <;> rfl

/-- A value that is present, with a log of the calls. -/
example : ((Opt.some 4).map (m := StateM (List Nat)) (fun x => do modify (· ++ [x]); return x + 1)).run [] =
    (.some 5, [4]) := rfl
example : ((Result.ok 4 : Result Nat String).peek (m := Id) (fun x => Opt.some s!"bad {x}")) = .err "bad 4" := rfl

end Clara.Props
