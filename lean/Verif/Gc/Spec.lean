import Verif.Gc.Collect
/-
What the collector should do: the objects that an object points to, reachability, and well-formed heaps.
-/
namespace Clara.Gc

/-- The object `x` has the pointer `w` in a field or element that its type describes. -/
inductive Points (table : List TypeInfo) (x : Block) (w : Word) : Prop
  | field (id : Nat) (roots : List Int) (r : Nat) (ht : typeId x.header = id) (hi : table[id]? = some (.struct roots))
      (hr : (r : Int) ∈ roots) (hw : x.body[r]? = some w)
  | elem (id : Nat) (len : Word) (i : Nat) (ht : typeId x.header = id) (hi : table[id]? = some (.array true))
      (hl : x.body[0]? = some len) (hlt : (i : Int) < intOf len) (hw : x.body[i + 1]? = some w)

/-- The object has a type of the table and is large enough for it. -/
structure Shaped (table : List TypeInfo) (x : Block) : Prop where
  id : ∃ (id : Nat) (t : TypeInfo), typeId x.header = id ∧ table[id]? = some t ∧
    (isReadOnly x.header = false →
      match t with
      | .struct roots => ∀ r ∈ roots, 0 ≤ r ∧ r < x.body.length
      | .array true => ∃ len, x.body[0]? = some len ∧ intOf len + 1 ≤ x.body.length
      | .function => False
      | _ => True)

/-- Reachable from the words `ws`: the address of the block. -/
inductive Reach (table : List TypeInfo) (h : Heap) (ws : List Word) : Word → Prop
  | root {w : Word} (hw : w ∈ ws) (hr : isReal w = true) : Reach table h ws (w - 16)
  | step {b w : Word} {x : Block} (hb : Reach table h ws b) (hx : h.block b = some x) (ro : isReadOnly x.header = false)
      (hp : Points table x w) (hr : isReal w = true) : Reach table h ws (w - 16)

/-- The list of blocks that starts at `a` is `l` and ends before `z`. -/
def Chain (h : Heap) (a : Word) (l : List Word) (z : Word) : Prop :=
  match l with
  | [] => a = z
  | b :: l => a = b ∧ ∃ x, h.block b = some x ∧ Chain h x.next l z

/-- A heap whose allocated blocks are `addrs`. -/
structure WF (table : List TypeInfo) (h : Heap) (addrs : List Word) : Prop where
  nodup : addrs.Nodup
  alloc : ∀ b, b ∈ addrs ↔ ∃ x, h.block b = some x ∧ isReadOnly x.header = false
  valid : ∀ b ∈ addrs, isValidBlock b = true
  shaped : ∀ {b x}, h.block b = some x → Shaped table x
  closed : ∀ {b x w}, h.block b = some x → isReadOnly x.header = false → Points table x w → isReal w = true →
    ∃ y, h.block (w - 16) = some y
  unmarked : ∀ {b x}, h.block b = some x → isMarked x.header = false
  chain : Chain h h.blocks addrs 0

/-- The words in the root slots of the frames and the pointer to the runtime structure. -/
def rootWords (own : Frame) (stack : List Frame) (runtime : Word) : List Word :=
  let callers := own :: stack
  (callers.zip stack).flatMap (fun p => p.1.callRoots.map p.2.slot) ++ [runtime]

end Clara.Gc
