import Verif.Util
/-
The garbage collector (`install/lib/gc.clara`), allocation (`install/lib/mem.clara`) and the variables of
`install/init/runtime.c` 11-38.

Memory is a partial map from the addresses of blocks to blocks: the word `next`, the header, and the words of the
object behind them.  A read outside of a block, or of a block that was freed, is `wild`.  Ints are 63 bits wide and the
header is one (`Gen` proves what the operations on ints do).  The stack is a list of frames.  The calls of `debug` print
and are left out.  The depth of recursion is not limited.
-/
namespace Clara.Gc

abbrev Word := BitVec 64

inductive Err
  | panic
  | wild
  deriving DecidableEq, Repr

/-- `struct block` (`mem.clara` 3-7) and the object. -/
structure Block where
  next : Word
  header : BitVec 63
  body : List Word
  deriving DecidableEq, Repr

structure Heap where
  block : Word → Option Block
  blocks : Word

/-- `enum typeInfo` (`gc.clara` 123-129), without names. -/
inductive TypeInfo
  | struct (roots : List Int)
  | string
  | array (elemIsPointer : Bool)
  | function
  | bytes
  deriving DecidableEq, Repr

abbrev GM (α : Type) := StateT Heap (ExceptT Err Option) α

def err {α : Type} (e : Err) : GM α := fun _ => some (.error e)

/-- The block at an address. -/
def block (b : Word) : GM Block := fun h =>
  match h.block b with
  | some x => some (.ok (x, h))
  | none => some (.error .wild)

def setBlock (b : Word) (x : Block) : GM Unit := fun h =>
  some (.ok ((), { h with block := fun a => if a = b then some x else h.block a }))

/-- The int that a word stands for. -/
def intOf (w : Word) : Int := (w.sshiftRight 1).toInt

/-- `toTaggedInt` (`codegen.go` 365-370). -/
def toTaggedInt (p : Word) : BitVec 63 := p.setWidth 63

/-- `isReal` (`gc.clara` 115-118). -/
def isReal (p : Word) : Bool :=
  let i := toTaggedInt p
  (i &&& 0x7#63 == 0#63) && decide (i.toInt > 1024)

/-- `isValidBlock` (`mem.clara` 37): the pointer is read as an int. -/
def isValidBlock (b : Word) : Bool := !(intOf b == 0)

/-- `isMarked` (`gc.clara` 160). -/
def isMarked (header : BitVec 63) : Bool := (header &&& 0x1#63) == 0x1#63

/-- `isReadOnly` (`gc.clara` 161). -/
def isReadOnly (header : BitVec 63) : Bool := (header &&& 0x2#63) == 0x2#63

/-- `typeId` (`gc.clara` 162).  `<<` binds tighter than `&` and `>>` keeps the sign. -/
def typeId (header : BitVec 63) : Int := ((header &&& (0xFFFF#63 <<< 47)).sshiftRight 47).toInt

/-- `setMark` (`gc.clara` 146-151). -/
def setMark (b : Word) : GM Unit := do
  if isMarked (← block b).header then err .panic
  let x ← block b
  setBlock b { x with header := x.header ||| 0x1#63 }

/-- `clearMark` (`gc.clara` 153-158). -/
def clearMark (b : Word) : GM Unit := do
  if !isMarked (← block b).header then err .panic
  let x ← block b
  setBlock b { x with header := x.header &&& ~~~0x1#63 }

/-- The header of a new block (`mem.clara` 21). -/
def newHeader (id : Int) : BitVec 63 := BitVec.ofInt 63 id <<< 47

/-- `readOnlyGcHeader` (`gc.go` 12-14), an int of the program (`asm.go` 388, 424). -/
def readOnlyGcHeader (id : Int) : BitVec 63 := (BitVec.ofInt 64 id <<< 47 ||| 2#64).setWidth 63

/-- The word at an offset of the object at `p`: `p.inc(off * 8).deref`. -/
def word (p : Word) (off : Int) : GM Word := do
  let x ← block (p - 16)
  if off < 0 then err .wild
  match x.body[off.toNat]? with
  | some w => return w
  | none => err .wild

/-- `typeInfoTable()[id]` with the check of the index. -/
def typeInfo (table : List TypeInfo) (id : Int) : GM TypeInfo :=
  if id < 0 then err .panic
  else match table[id.toNat]? with
    | some t => return t
    | none => err .panic

mutual
/-- `gcMarkPointer` (`gc.clara` 43-79). -/
def markPointer (table : List TypeInfo) (p : Word) : GM Unit := do
  if !isReal p then return ()
  let info ← typeInfo table (typeId (← block (p - 16)).header)
  if isReadOnly (← block (p - 16)).header then return ()
  if isMarked (← block (p - 16)).header then return ()
  setMark (p - 16)
  match info with
  | .struct roots => markRoots table p roots
  | .string => return ()
  | .bytes => return ()
  | .array elemIsPointer =>
    if elemIsPointer then markElems table p 0 (intOf (← word p 0)) else return ()
  | .function => err .panic
partial_fixpoint

/-- The loop over the roots (`gc.clara` 64-66). -/
def markRoots (table : List TypeInfo) (p : Word) (roots : List Int) : GM Unit := do
  match roots with
  | [] => return ()
  | r :: rs =>
    markPointer table (← word p r)
    markRoots table p rs
partial_fixpoint

/-- The loop over the elements (`gc.clara` 74-76). -/
def markElems (table : List TypeInfo) (p : Word) (i len : Int) : GM Unit := do
  if i < len then
    markPointer table (← word p (1 + i))
    markElems table p (i + 1) len
  else return ()
partial_fixpoint
end

/-- A stack frame: the offsets of the roots in the frame of the caller (`fp.map.roots`, found at the return address),
and the slots of this frame. -/
structure Frame where
  callRoots : List Int
  slot : Int → Word

/-- The loop over the roots of a frame (`gc.clara` 24-26). -/
def markSlots (table : List TypeInfo) (f : Frame) : List Int → GM Unit
  | [] => return ()
  | r :: rs => do
    markPointer table (f.slot r)
    markSlots table f rs

/-- The loop over the frames (`gc.clara` 21-29); the list has the callers of the frame from which `roots` were taken,
up to the stack base. -/
def markFrames (table : List TypeInfo) (roots : List Int) : List Frame → GM Unit
  | [] => return ()
  | f :: fs => do
    markSlots table f roots
    markFrames table f.callRoots fs

/-- `gcMark` (`gc.clara` 11-37).  `own` is the frame of `gcMark`, `stack` has the frames of its callers and `runtime`
is the pointer that `getRuntime` returns. -/
def gcMark (table : List TypeInfo) (own : Frame) (stack : List Frame) (runtime : Word) : GM Unit := do
  markFrames table own.callRoots stack
  markPointer table runtime

/-- The list skips the block `b` (`gc.clara` 101-105). -/
def unlink (b prev : Word) : GM Unit := do
  if isValidBlock prev then
    let next := (← block b).next
    let x ← block prev
    setBlock prev { x with next := next }
  else
    let next := (← block b).next
    modify fun h => { h with blocks := next }

/-- The loop of `gcSweep` (`gc.clara` 94-111). -/
def sweepLoop (b prev : Word) : GM Unit := do
  if isValidBlock b then
    if isMarked (← block b).header then
      clearMark b
      let next := (← block b).next
      sweepLoop next b
    else
      unlink b prev
      let next := (← block b).next
      modify fun h => { h with block := fun a => if a = b then none else h.block a }
      sweepLoop next prev
  else return ()
partial_fixpoint

/-- `gcSweep` (`gc.clara` 90-112). -/
def gcSweep : GM Unit := do sweepLoop (← get).blocks 0

/-- `gc` (`gc.clara` 1-7). -/
def gc (table : List TypeInfo) (own : Frame) (stack : List Frame) (runtime : Word) : GM Unit := do
  gcMark table own stack runtime
  gcSweep

end Clara.Gc
