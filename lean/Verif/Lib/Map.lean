import Verif.Lib.Functional
import Verif.Lib.Strings
/-
The library hash map (`install/lib/map.clara`).

One map object, its entries and its bucket arrays.  Entries and arrays are objects that are changed in place, so they
are named by references; lists are values (`Verif.Lib.Functional`).  The hasher and the matcher are functions without
effects.  Allocation succeeds.
-/
namespace Clara.Lib

/-- The map object (`map.clara` 1-7), the entry objects and the arrays. -/
structure MapSt (K V : Type) where
  ents : List (K × V)
  arrs : List (List (LList Nat))
  buckets : Nat
  size : Int
  threshold : Int

section
variable {K V : Type}

abbrev MM (K V : Type) (α : Type) := StateT (MapSt K V) (Except Err) α

def MM.err {α : Type} (e : Err) : MM K V α := fun _ => .error e

/-- The entry `e`. -/
def ent (e : Nat) : MM K V (K × V) := fun s =>
  match s.ents[e]? with
  | some x => .ok (x, s)
  | none => .error .wild

/-- `Entry(key, value)`. -/
def newEnt (k : K) (v : V) : MM K V Nat := fun s => .ok (s.ents.length, { s with ents := s.ents ++ [(k, v)] })

/-- `e.value = value`. -/
def setValue (e : Nat) (v : V) : MM K V Unit := do
  let x ← ent e
  modify fun s => { s with ents := s.ents.set e (x.1, v) }

def arr (a : Nat) : MM K V (List (LList Nat)) := fun s =>
  match s.arrs[a]? with
  | some x => .ok (x, s)
  | none => .error .wild

/-- `a.length`. -/
def arrLen (a : Nat) : MM K V Int := do return (← arr a).length

/-- `a[i]`, with the bounds check. -/
def arrGet (a : Nat) (i : Int) : MM K V (LList Nat) := do
  let x ← arr a
  if i < 0 then MM.err .panic
  match x[i.toNat]? with
  | some b => return b
  | none => MM.err .panic

/-- `a[i] = b`, with the bounds check. -/
def arrSet (a : Nat) (i : Int) (b : LList Nat) : MM K V Unit := do
  let x ← arr a
  if i < 0 then MM.err .panic
  if i.toNat < x.length then modify fun s => { s with arrs := s.arrs.set a (x.set i.toNat b) }
  else MM.err .panic

/-- `createBuckets` (`map.clara` 85). -/
def createBuckets (size : Int) : MM K V Nat := fun s =>
  if size < 0 then .error .wild
  else .ok (s.arrs.length, { s with arrs := s.arrs ++ [List.replicate size.toNat .empty] })

/-- `threshold` (`map.clara` 83). -/
def threshold (size : Int) : Int := wrap (size - size / 4)

/-- `mod` (`core.clara` 27). -/
def mapMod (i m : Int) : MM K V Int :=
  if m = 0 then MM.err .wild else return wrap (i - wrap (wrap (i.tdiv m) * m))

/-- `NewHashMap` (`map.clara` 16-18). -/
def newHashMap : MapSt K V :=
  { ents := [], arrs := [List.replicate 16 .empty], buckets := 0, size := 0, threshold := threshold 16 }

variable (hasher : K → Int) (matcher : K → K → Bool)

/-- `indexFor` (`map.clara` 68). -/
def indexFor (key : K) : MM K V Int := do
  let s ← get
  mapMod (hasher key) (← arrLen s.buckets)

/-- `either«entry, int»` (`functional.clara`). -/
inductive Either (A B : Type)
  | left (a : A)
  | right (b : B)

/-- `search` (`map.clara` 49-55). -/
def search (key : K) : MM K V (Either Nat Int) := do
  let idx ← indexFor hasher key
  let b ← arrGet (← get).buckets idx
  let o ← b.find fun e => do return ⟨matcher (← ent e).1 key⟩
  let o' ← o.map fun e => pure (Either.left e)
  return o'.orElse (.right idx)

/-- The closure of `resize` (`map.clara` 73-76). -/
def rehash (new : Nat) (e : Nat) : MM K V PUnit := do
  let slot ← mapMod (hasher (← ent e).1) (← arrLen new)
  let b ← arrGet new slot
  arrSet new slot (b.append e)

/-- The loop of `resize` over `m.buckets` (`map.clara` 72-77): the `n` buckets from index `i` on.  The array and the
field are read again in each turn; neither is changed by the loop. -/
def resizeLoop (new : Nat) : Nat → Nat → MM K V Unit
  | 0, _ => return ()
  | n + 1, i => do
    let b ← arrGet (← get).buckets i
    b.foreach (rehash hasher new)
    resizeLoop new n (i + 1)

/-- `resize` (`map.clara` 70-80). -/
def resize : MM K V Unit := do
  let new ← createBuckets (ishl (← arrLen (← get).buckets) 1)
  resizeLoop hasher new (← arrLen (← get).buckets).toNat 0
  let len ← arrLen new
  modify fun s => { s with threshold := threshold len }
  modify fun s => { s with buckets := new }

/-- `put` (`map.clara` 20-34). -/
def put (key : K) (value : V) : MM K V (Opt V) := do
  match ← search hasher matcher key with
  | .left e =>
    let old := (← ent e).2
    setValue e value
    return .some old
  | .right idx =>
    let b ← arrGet (← get).buckets idx
    let e ← newEnt key value
    arrSet (← get).buckets idx (b.append e)
    modify fun s => { s with size := wrap (s.size + 1) }
    if (← get).size > (← get).threshold then resize hasher
    return .none

/-- `get` (`map.clara` 36-41). -/
def mapGet (key : K) : MM K V (Opt V) := do
  match ← search hasher matcher key with
  | .left e => return .some (← ent e).2
  | .right _ => return .none

/-- `contains` (`map.clara` 43). -/
def contains (key : K) : MM K V Bool := do return (← mapGet hasher matcher key).isSome

/-- `remove` (`map.clara` 57-64). -/
def mapRemove (key : K) : MM K V (Opt V) := do
  let x ← indexFor hasher key
  let b ← arrGet (← get).buckets x
  let r ← b.remove fun e => do return ⟨matcher (← ent e).1 key⟩
  arrSet (← get).buckets x r.1
  let o ← r.2.peek fun _ => modify fun s => { s with size := wrap (s.size - 1) }
  o.map fun e => do return (← ent e).2

/-- `orElse` (`map.clara` 66). -/
def mapOrElse (key : K) (other : V) : MM K V V := do return (← mapGet hasher matcher key).orElse other

end

end Clara.Lib
