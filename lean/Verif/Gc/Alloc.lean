import Verif.Gc.Spec
/-
Allocation: `claralloc` (`install/lib/mem.clara` 9-28), the functions of `install/lib/arrays.clara` and
`install/lib/bytes.clara` that make arrays, and constructors (`codegen.go` 433-466).

`calloc` is a function of the heap and the number of bytes that are asked for.  Descriptions are left out.  The words of
an object are those that lie in the block as a whole; the last bytes of a block whose size is no multiple of eight are
not described.
-/
namespace Clara.Gc

/-- `calloc(n, 1)` (libc), with 0 for a failure. -/
abbrev Calloc := Heap → Nat → Word

/-- The number of bytes that `calloc` receives (`mem.clara` 17): ints wrap at 63 bits, `#[RawValues]` takes the tag off,
and C reads the word as a `size_t`. -/
def request (size : BitVec 63) : Nat := ((size + 16#63).signExtend 64).toNat

/-- The memory behind a block that `calloc` returned: zeros, if there is room for the two words of the block. -/
def cleared (b : Word) (n : Nat) : GM Unit :=
  if n < 16 then err .wild else setBlock b { next := 0, header := 0, body := List.replicate ((n - 16) / 8) 0 }

/-- The part of `claralloc` after the collection and the check of the size (`mem.clara` 17-27). -/
def link (calloc : Calloc) (size : BitVec 63) (id : Int) : GM Word := do
  let b := calloc (← get) (request size)
  if !isValidBlock b then err .panic
  cleared b (request size)
  let x ← block b
  setBlock b { x with header := newHeader id }
  let x ← block b
  setBlock b { x with next := (← get).blocks }
  modify fun h => { h with blocks := b }
  return b + 16

/-- `claralloc` (`mem.clara` 9-28). -/
def claralloc (calloc : Calloc) (table : List TypeInfo) (own : Frame) (stack : List Frame) (runtime : Word) (size : BitVec 63)
    (id : Int) : GM Word := do
  gc table own stack runtime
  if size == 0#63 then err .panic
  link calloc size id

/-- The store of a word at an offset of the object at `p`. -/
def setWord (p : Word) (off : Int) (w : Word) : GM Unit := do
  let x ← block (p - 16)
  if off < 0 then err .wild
  if off.toNat < x.body.length then setBlock (p - 16) { x with body := x.body.set off.toNat w }
  else err .wild

/-- An int as a word of the program (`codegen.go`, `tag`). -/
def tagged (n : BitVec 63) : Word := (n.setWidth 64 <<< 1) ||| 1

/-- `array(length, init, description, tag)` up to the call of `init` (`arrays.clara` 29-33), as for `intArray` and array
literals (`arrays.clara` 26, 39). -/
def newArray (calloc : Calloc) (table : List TypeInfo) (own : Frame) (stack : List Frame) (runtime : Word) (length : BitVec 63)
    (id : Int) : GM Word := do
  let p ← claralloc calloc table own stack runtime (length * 8 + 8) id
  setWord p 0 (tagged length)
  return p

/-- The loop of `initWith` (`arrays.clara` 44-46).  The range was taken from the length word at the start; the index is
checked by the loop itself. -/
def fillLoop (p w : Word) (i len : Int) : GM Unit := do
  if i < len then
    setWord p (1 + i) w
    fillLoop p w (i + 1) len
  else return ()
partial_fixpoint

/-- `array(length, default)` and `stringArray` (`arrays.clara` 23, 38, 42-48). -/
def filledArray (calloc : Calloc) (table : List TypeInfo) (own : Frame) (stack : List Frame) (runtime : Word) (length : BitVec 63)
    (id : Int) (default : Word) : GM Word := do
  let p ← newArray calloc table own stack runtime length id
  fillLoop p default 0 (intOf (← word p 0))
  return p

/-- `Bytes` (`bytes.clara` 1-5). -/
def newBytesBlock (calloc : Calloc) (table : List TypeInfo) (own : Frame) (stack : List Frame) (runtime : Word) (length : BitVec 63) :
    GM Word := do
  let p ← claralloc calloc table own stack runtime (length + 8) 1
  setWord p 0 (tagged length)
  return p

/-- The stores of a constructor (`codegen.go` 456-463). -/
def setFields (p : Word) (k : Nat) : List Word → GM Unit
  | [] => return ()
  | w :: ws => do
    setWord p k w
    setFields p (k + 1) ws

/-- A constructor (`codegen.go` 433-466): eight bytes for every word, the tag of an enum among them. -/
def construct (calloc : Calloc) (table : List TypeInfo) (own : Frame) (stack : List Frame) (runtime : Word) (id : Int)
    (words : List Word) : GM Word := do
  let p ← claralloc calloc table own stack runtime (BitVec.ofNat 63 (8 * words.length)) id
  setFields p 0 words
  return p

/-! ### What is asked for -/

/-- What libc says of `calloc`: it fails, or the block is aligned, lies in the lower half of the address space but not in
the first page, and overlaps no other block. -/
def CallocOk (calloc : Calloc) : Prop := ∀ h n, calloc h n = 0 ∨
  ((calloc h n).toNat % 16 = 0 ∧ 4096 ≤ (calloc h n).toNat ∧ (calloc h n).toNat + n ≤ 2 ^ 47 ∧
    ∀ b x, h.block b = some x → b ≠ calloc h n ∧
      ((calloc h n).toNat + n ≤ b.toNat ∨ b.toNat + (16 + 8 * x.body.length) ≤ (calloc h n).toNat))

/-- No two blocks overlap. -/
def Apart (h : Heap) : Prop := ∀ b c x y, h.block b = some x → h.block c = some y → b ≠ c →
  b.toNat + (16 + 8 * x.body.length) ≤ c.toNat ∨ c.toNat + (16 + 8 * y.body.length) ≤ b.toNat

/-- The word is no pointer, or points to an object. -/
def Live (h : Heap) (w : Word) : Prop := isReal w = true → ∃ x, h.block (w - 16) = some x

/-- The run ends with an error. -/
def Fails {α : Type} (x : GM α) (h : Heap) (e : Err) : Prop := x h = some (.error e)

/-- An object of `n` words with this type can be allocated. -/
def Fits (table : List TypeInfo) (id : Int) (n : Nat) : Prop :=
  0 ≤ id ∧ id < 2 ^ 15 ∧ ∃ t, table[id.toNat]? = some t ∧
    match t with
    | .struct roots => ∀ r ∈ roots, 0 ≤ r ∧ r < n
    | .array true => 1 ≤ n
    | .function => False
    | _ => True

/-- What a collection with the root words `ws` leaves of the heap: of the allocated blocks `addrs` just the reachable ones,
with their contents, and everything that was not allocated. -/
structure Collected (table : List TypeInfo) (h : Heap) (addrs ws : List Word) (h1 : Heap) (kept : List Word) : Prop where
  iff : ∀ b, b ∈ kept ↔ b ∈ addrs ∧ Reach table h ws b
  same : ∀ b ∈ kept, ∀ x, h.block b = some x → ∃ n, h1.block b = some { x with next := n }
  freed : ∀ b ∈ addrs, b ∉ kept → h1.block b = none
  other : ∀ b, b ∉ addrs → h1.block b = h.block b

/-- The word `k` of the object may be assigned: it is not the length of an array. -/
def Assignable (table : List TypeInfo) (x : Block) (k : Nat) : Prop :=
  k < x.body.length ∧ (table[(typeId x.header).toNat]? = some (.array true) → k ≠ 0)

/-- What a program does with objects.  `held` has the words that the program can still use: across an allocation these are
the words in the root slots of the stack. -/
inductive Step (calloc : Calloc) (table : List TypeInfo) : Heap × List Word → Heap × List Word → Prop
  | number {h held w} (hw : isReal w = false) : Step calloc table (h, held) (h, w :: held)
  | static {h held w x} (hx : h.block (w - 16) = some x) (ro : isReadOnly x.header = true) :
      Step calloc table (h, held) (h, w :: held)
  | drop {h held held'} (hs : ∀ w ∈ held', w ∈ held) : Step calloc table (h, held) (h, held')
  | load {h held p x w} (hp : p ∈ held) (hr : isReal p = true) (hx : h.block (p - 16) = some x)
      (ro : isReadOnly x.header = false) (hw : Points table x w) : Step calloc table (h, held) (h, w :: held)
  | store {h held p x k w h'} (hp : p ∈ held) (hr : isReal p = true) (hx : h.block (p - 16) = some x)
      (ro : isReadOnly x.header = false) (hk : Assignable table x k) (hw : w ∈ held)
      (e : setWord p (k : Int) w h = some (.ok ((), h'))) : Step calloc table (h, held) (h', held)
  | object {h held own stack runtime id words p h'} (hroots : ∀ w ∈ rootWords own stack runtime, w ∈ held)
      (hw : ∀ w ∈ words, isReal w = true → w ∈ rootWords own stack runtime) (fit : Fits table id words.length)
      (ht : ∃ roots, table[id.toNat]? = some (.struct roots)) (small : words.length < 2 ^ 58)
      (e : construct calloc table own stack runtime id words h = some (.ok (p, h'))) :
      Step calloc table (h, held) (h', p :: rootWords own stack runtime)
  | array {h held own stack runtime length id p h'} (hroots : ∀ w ∈ rootWords own stack runtime, w ∈ held)
      (fit : Fits table id 1) (ht : table[id.toNat]? = some (.array true) ∨ table[id.toNat]? = some (.array false))
      (hl : -2 ^ 59 ≤ length.toInt ∧ length.toInt < 2 ^ 59) (hn : length.toInt ≠ -3 ∧ length.toInt ≠ -2)
      (e : newArray calloc table own stack runtime length id h = some (.ok (p, h'))) :
      Step calloc table (h, held) (h', p :: rootWords own stack runtime)
  | bytes {h held own stack runtime length p h'} (hroots : ∀ w ∈ rootWords own stack runtime, w ∈ held)
      (ht : table[1]? = some .bytes) (hl : 0 ≤ length.toInt)
      (e : newBytesBlock calloc table own stack runtime length h = some (.ok (p, h'))) :
      Step calloc table (h, held) (h', p :: rootWords own stack runtime)

/-- Several steps. -/
inductive Steps (calloc : Calloc) (table : List TypeInfo) : Heap × List Word → Heap × List Word → Prop
  | refl {s} : Steps calloc table s s
  | tail {s t u} (a : Steps calloc table s t) (b : Step calloc table t u) : Steps calloc table s u

end Clara.Gc
