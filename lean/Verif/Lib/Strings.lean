/-
Byte arrays, strings, byte buffers and the functions that use them (`install/lib/bytes.clara`, `arrays.clara`,
`strings.clara`, `hash.clara`, `core.clara`, `runtime.clara`).

A byte array or string is an object with a length word and data bytes.  `asBytes`, `asString`, `toBytes` and
`toBytesHeader` are reinterpretations of the same object and do nothing here.  The heap is a list of objects, a
reference is a position in it; allocation adds an object and always succeeds for a length that is not negative
(memory is not exhausted).  Collection is not part of this model.  Integers are `Int` in the 63-bit range, and each
operation wraps.  A program ends with a value, with a panic, with an access to memory outside of the object
(`wild`), or not at all (`none`).
-/
namespace Clara.Lib

inductive Err
  | panic
  | wild
  deriving DecidableEq, Repr

structure Obj where
  len : Int
  data : List UInt8
  deriving DecidableEq, Repr

/-- `struct byteBuffer` (`strings.clara` 65-68). -/
structure Buf where
  data : Nat
  size : Int
  deriving DecidableEq, Repr

structure Heap where
  objs : List Obj := []
  bufs : List Buf := []
  deriving DecidableEq, Repr

abbrev M (α : Type) := StateT Heap (ExceptT Err Option) α

/-- The int with the same low 63 bits. -/
def wrap (z : Int) : Int := (z + 2 ^ 62) % 2 ^ 63 - 2 ^ 62

/-- Bit operations on ints. -/
def iand (a b : Int) : Int := (BitVec.ofInt 63 a &&& BitVec.ofInt 63 b).toInt
def ixor (a b : Int) : Int := (BitVec.ofInt 63 a ^^^ BitVec.ofInt 63 b).toInt
/-- `a << n` for `0 ≤ n < 64`. -/
def ishl (a : Int) (n : Nat) : Int := wrap (a * 2 ^ n)

def err {α : Type} (e : Err) : M α := fun _ => some (.error e)

def obj (r : Nat) : M Obj := fun h =>
  match h.objs[r]? with
  | some o => some (.ok (o, h))
  | none => some (.error .wild)

def buf (r : Nat) : M Buf := fun h =>
  match h.bufs[r]? with
  | some o => some (.ok (o, h))
  | none => some (.error .wild)

def setBuf (r : Nat) (b : Buf) : M Unit := fun h => some (.ok ((), { h with bufs := h.bufs.set r b }))

def setObj (r : Nat) (o : Obj) : M Unit := fun h => some (.ok ((), { h with objs := h.objs.set r o }))

/-- `assert` and `panic` (`runtime.clara` 82-93). -/
def assert (b : Bool) : M Unit := if b then pure () else err .panic

/-- `Bytes` (`bytes.clara` 1-5).  `calloc` clears the memory.  For a negative length the block is too small for
the length word, or `calloc` fails. -/
def newBytes (n : Int) : M Nat := fun h =>
  if n < 0 then some (.error .wild)
  else some (.ok (h.objs.length, { h with objs := h.objs ++ [{ len := n, data := List.replicate n.toNat 0 }] }))

/-- `length` (`bytes.clara` 7) and the field `length` of strings. -/
def length (b : Nat) : M Int := do return (← obj b).len

/-- The value of a byte as `movsbq` loads it (`codegen.go` 325-334). -/
def signed (b : UInt8) : Int := if b.toNat < 128 then b.toNat else (b.toNat : Int) - 256

/-- The byte that `movb` stores (`codegen.go` 336-347). -/
def lowByte (v : Int) : UInt8 := UInt8.ofNat (v % 256).toNat

/-- `get` (`bytes.clara` 9-12) and `byte` (`strings.clara` 2-5). -/
def getByte (b : Nat) (idx : Int) : M Int := do
  assert (idx < (← length b))
  let o ← obj b
  if idx < 0 then err .wild
  match o.data[idx.toNat]? with
  | some x => return signed x
  | none => err .wild

/-- `set` (`bytes.clara` 14-17). -/
def setByte (b : Nat) (idx : Int) (val : Int) : M Unit := do
  assert (idx < (← length b))
  let o ← obj b
  if idx < 0 then err .wild
  if idx.toNat < o.data.length then setObj b { o with data := o.data.set idx.toNat (lowByte val) }
  else err .wild

/-- The assignment to the length word (`strings.clara` 133, 155). -/
def setLen (b : Nat) (n : Int) : M Unit := do
  let o ← obj b
  setObj b { o with len := n }

/-- A string literal of the program. -/
def lit (s : List UInt8) : M Nat := fun h =>
  some (.ok (h.objs.length, { h with objs := h.objs ++ [{ len := s.length, data := s ++ [0] }] }))

/-- The loop of `Equals` (`strings.clara` 13-17). -/
def equalsLoop (s1 s2 : Nat) (i : Int) : M Bool := do
  if i < (← length s1) then
    if (← getByte s1 i) ≠ (← getByte s2 i) then return false
    equalsLoop s1 s2 (wrap (i + 1))
  else return true
partial_fixpoint

/-- `Equals` (`strings.clara` 8-19). -/
def equals (s1 s2 : Nat) : M Bool := do
  if (← length s1) ≠ (← length s2) then return false
  equalsLoop s1 s2 0

/-- `matchRun` (`strings.clara` 43-53). -/
def matchRun (s sub : Nat) (i pos : Int) : M Bool := do
  if pos < (← length s) ∧ i < (← length sub) then
    if (← getByte s pos) ≠ (← getByte sub i) then return false
    matchRun s sub (wrap (i + 1)) (wrap (pos + 1))
  else return i == (← length sub)
partial_fixpoint

/-- The loop of `IndexOf` (`strings.clara` 55-60).  Both operands of `and` are evaluated. -/
def indexLoop (s sub : Nat) (pos : Int) : M Int := do
  if pos < (← length s) then
    let a ← getByte s pos
    let b ← getByte sub 0
    let r ← matchRun s sub 1 (wrap (pos + 1))
    if a = b ∧ r = true then return pos
    indexLoop s sub (wrap (pos + 1))
  else return -1
partial_fixpoint

/-- `IndexOf` (`strings.clara` 31-61). -/
def indexOf (s sub : Nat) (start : Int) : M Int := do
  if (← length sub) = 0 then return 0
  if (← length s) = 0 then return -1
  if wrap ((← length sub) + start) > (← length s) then return -1
  indexLoop s sub start

/-- `copyArray` (`arrays.clara` 3-9). -/
def copyArray (src : Nat) (srcPos : Int) (dest : Nat) (destPos : Int) : M Unit := do
  if (← length src) = srcPos ∨ (← length dest) = destPos then return ()
  setByte dest destPos (← getByte src srcPos)
  copyArray src (wrap (srcPos + 1)) dest (wrap (destPos + 1))
partial_fixpoint

/-- `copyString` (`strings.clara` 141-147). -/
def copyString (src : Nat) (srcPos : Int) (dest : Nat) (destPos : Int) : M Unit := do
  if srcPos < (← length src) ∧ destPos < (← length dest) then
    setByte dest destPos (← getByte src srcPos)
    copyString src (wrap (srcPos + 1)) dest (wrap (destPos + 1))
  else return ()
partial_fixpoint

/-- `toString` with position and length (`strings.clara` 153-158). -/
def toStr (b : Nat) (pos len : Int) : M Nat := do
  let s ← newBytes (wrap (len + 1))
  setLen s len
  copyArray b pos s 0
  return s

/-- `Substring` (`strings.clara` 23). -/
def substring (s : Nat) (start stop : Int) : M Nat := toStr s start (wrap (stop - start))

/-- `append` of strings (`strings.clara` 130-137). -/
def append (s1 s2 : Nat) : M Nat := do
  let len := wrap ((← length s1) + (← length s2))
  let buf ← newBytes (wrap (len + 1))
  setLen buf len
  copyString s1 0 buf 0
  copyString s2 0 buf (← length s1)
  return buf

/-! ### Byte buffers -/

/-- `NewByteBuffer` (`strings.clara` 72). -/
def newByteBuffer (cap : Int) : M Nat := do
  let d ← newBytes cap
  fun h => some (.ok (h.bufs.length, { h with bufs := h.bufs ++ [{ data := d, size := 0 }] }))

/-- The loop of `grow` (`strings.clara` 120-122). -/
def growLoop (newSize required : Int) : M Int := do
  if newSize < required then growLoop (wrap (newSize * 2)) required else return newSize
partial_fixpoint

/-- `grow` (`strings.clara` 118-126). -/
def grow (b : Nat) (required : Int) : M Unit := do
  let newSize ← growLoop (wrap ((← length (← buf b).data) * 2)) required
  let data ← newBytes newSize
  copyArray (← buf b).data 0 data 0
  setBuf b { (← buf b) with data := data }

/-- `append` of a string (`strings.clara` 80-88). -/
def bufAppend (b : Nat) (s : Nat) : M Nat := do
  let newSize := wrap ((← buf b).size + (← length s))
  if newSize > (← length (← buf b).data) then grow b newSize
  copyString s 0 (← buf b).data (← buf b).size
  setBuf b { (← buf b) with size := newSize }
  return b

/-- `append` of a byte (`strings.clara` 107-114). -/
def bufAppendByte (b : Nat) (v : Int) : M Unit := do
  let newSize := wrap ((← buf b).size + 1)
  if newSize > (← length (← buf b).data) then grow b newSize
  setByte (← buf b).data (← buf b).size v
  setBuf b { (← buf b) with size := newSize }

/-- `reset` (`strings.clara` 75). -/
def bufReset (b : Nat) : M Unit := do setBuf b { (← buf b) with size := 0 }

/-- `toString` of a buffer (`strings.clara` 76, 152). -/
def bufToString (b : Nat) : M Nat := do toStr (← buf b).data 0 (← buf b).size

/-- `substring` of a buffer (`strings.clara` 92-103). -/
def bufSubstring (b : Nat) (pos len : Int) : M Nat := do
  if pos < 0 ∨ len < 0 then err .panic
  if wrap (pos + len) > (← buf b).size then err .panic
  if len = 0 then return ← lit []
  toStr (← buf b).data pos len

/-! ### Hashing and printing -/

/-- The loop of `fnv1a` (`hash.clara` 8-11). -/
def fnvLoop (s : Nat) (i hash : Int) : M Int := do
  if i < (← length s) then
    let hash := ixor hash (iand (← getByte s i) 0xff)
    let hash := iand (wrap (hash * 0x01000193)) 0xffffffff
    fnvLoop s (wrap (i + 1)) hash
  else return hash
partial_fixpoint

/-- `fnv1a` (`hash.clara` 6-13). -/
def fnv1a (s : Nat) : M Int := fnvLoop s 0 0x811c9dc5

/-- `/` on ints: truncating, wrapped; division by zero stops the program. -/
def idiv (a b : Int) : M Int := if b = 0 then err .wild else pure (wrap (a.tdiv b))

/-- `mod` (`core.clara` 27). -/
def imod (i m : Int) : M Int := do return wrap (i - wrap ((← idiv i m) * m))

/-- The loop of `toString` (`core.clara` 55-60). -/
def digitsLoop (digits out : Nat) (val n x : Int) : M Int := do
  if ¬ n = 0 then
    let quotient ← idiv n 10
    let d := if val < 0 then wrap (wrap (10 * quotient) - n) else wrap (n - wrap (10 * quotient))
    setByte out x (← getByte digits d)
    digitsLoop digits out val quotient (wrap (x - 1))
  else return x
partial_fixpoint

def chars (s : String) : List UInt8 := s.toUTF8.toList

/-- `toString` of an int (`core.clara` 44-66). -/
def intToString (val : Int) : M Nat := do
  if val = 0 then return ← lit (chars "0")
  let digits ← lit (chars "0123456789")
  let out ← newBytes 20
  let x ← digitsLoop digits out val val (wrap ((← length out) - 1))
  let x ← if val < 0 then do
      setByte out x 0x2d
      pure (wrap (x - 1))
    else pure x
  toStr out (wrap (x + 1)) (wrap (wrap ((← length out) - 1) - x))

/-- The loop of `toBinary` (`core.clara` 9-19): `j` counts down from 62 (`semantic.go` 497-501). -/
def binaryLoop (b digits sep : Nat) (i : Int) : Nat → M Unit
  | 0 => return ()
  | j + 1 => do
    let mask := ishl 1 j
    let n : Int := if iand i mask = mask then 1 else 0
    bufAppendByte b (← getByte digits n)
    let r ← imod j 8
    if (j : Int) > 0 ∧ r = 0 then
      let _ ← bufAppend b sep
    binaryLoop b digits sep i j

/-- `toBinary` (`core.clara` 5-21). -/
def toBinary (i : Int) : M Nat := do
  let b ← newByteBuffer 77
  let digits ← lit (chars "01")
  let sep ← lit (chars "·")
  binaryLoop b digits sep i 63
  bufToString b

end Clara.Lib
