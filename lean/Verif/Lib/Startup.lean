import Verif.Lib.Strings
import Verif.Lib.Map
import Verif.Lib.NumberProof
/-
The arguments and the environment of the process (`install/lib/runtime.clara` 31-78).

The memory that the kernel prepares is a total map from addresses to bytes that the program never changes.  `deref`
reads eight bytes (`typecheck.go` 276-281), so it also reads up to seven bytes behind the zero that ends a string; no
read faults here.  The array of arguments has one owner and is a list.  The map of the environment has the bytes of
the strings as keys and values: `fnv1a` and `Equals` only depend on the bytes (`fnv1a_ends`, `equals_ends`).
-/
namespace Clara.Lib

/-- The memory outside of the heap. -/
abbrev Ext := BitVec 64 → UInt8

abbrev Str := List UInt8

/-- `deref` of a pointer (`typecheck.go` 276-281): eight bytes, the lowest first. -/
def deref (x : Ext) (p : BitVec 64) : BitVec 64 :=
  BitVec.ofNat 64 ((x p).toNat + 2 ^ 8 * (x (p + 1)).toNat + 2 ^ 16 * (x (p + 2)).toNat + 2 ^ 24 * (x (p + 3)).toNat +
    2 ^ 32 * (x (p + 4)).toNat + 2 ^ 40 * (x (p + 5)).toNat + 2 ^ 48 * (x (p + 6)).toNat + 2 ^ 56 * (x (p + 7)).toNat)

/-- `inc` (`gc.clara` 120, `codegen.go` 358-363). -/
def inc (p : BitVec 64) (off : Int) : BitVec 64 := p + BitVec.ofInt 64 off

/-- `toTaggedInt` (`codegen.go` 365-370): the tag takes the place of the highest bit. -/
def toTaggedInt (p : BitVec 64) : Int := wrap p.toInt

/-- `isNull` (`gc.clara` 114). -/
def isNull (p : BitVec 64) : Bool := toTaggedInt p == 0

/-- The loop of `parseCString` (`runtime.clara` 42-51). -/
def cstringLoop (x : Ext) (b : Nat) (arg : BitVec 64) (off : Int) : M Nat := do
  let v := iand (toTaggedInt (deref x (inc arg off))) 0xFF
  if v = 0 then return b
  bufAppendByte b v
  cstringLoop x b arg (wrap (off + 1))
partial_fixpoint

/-- `parseCString` (`runtime.clara` 41-53). -/
def parseCString (x : Ext) (b : Nat) (arg : BitVec 64) : M Nat := cstringLoop x b arg 0

/-- The loop of `parseArgs` (`runtime.clara` 34-37); `j` is the number of rounds left. -/
def argsLoop (x : Ext) (argv : BitVec 64) (b : Nat) (args : List Nat) (i : Int) : Nat → M (List Nat)
  | 0 => return args
  | j + 1 => do
    let b' ← parseCString x b (deref x (inc argv (wrap (i * 8))))
    let s ← bufToString b'
    if ¬ (0 ≤ i ∧ i < args.length) then err .panic
    let args := args.set i.toNat s
    bufReset b
    argsLoop x argv b args (wrap (i + 1)) j

/-- `parseArgs` (`runtime.clara` 31-39).  The loop runs from 0 to `argc`. -/
def parseArgs (x : Ext) (argc : Int) (argv : BitVec 64) : M (List Nat) := do
  let e ← lit []
  if argc < 0 then err .wild
  let args := List.replicate argc.toNat e
  let b ← newByteBuffer 16
  argsLoop x argv b args 0 argc.toNat

/-- The bytes of a string. -/
def content (r : Nat) : M Str := do
  let o ← obj r
  return o.data.take o.len.toNat

/-- `fnv1a` as a function of the bytes. -/
def fnvOf (s : Str) : Int := (s.foldl fnvStep 0x811c9dc5#32).toNat

/-- `env.put` in `parseEnv`, with `fnv1a` and `Equals` (`runtime.clara` 56, 68, 71). -/
def envPut (m : MapSt Str Str) (k v : Nat) : M (MapSt Str Str) := do
  let k ← content k
  let v ← content v
  match put fnvOf (fun a b => a == b) k v m with
  | .ok (_, m') => return m'
  | .error e => err e

/-- One round of the loop of `parseEnv` (`runtime.clara` 65-73). -/
def envRound (x : Ext) (b : Nat) (m : MapSt Str Str) (entry : BitVec 64) : M (MapSt Str Str) := do
  let b' ← parseCString x b entry
  let s ← bufToString b'
  let eq ← lit [0x3D]
  let i ← indexOf s eq 0
  let m ← if i = -1 then do
      let e ← lit []
      envPut m s e
    else do
      let k ← bufSubstring b 0 i
      let v ← bufSubstring b (wrap (i + 1)) (wrap (wrap ((← buf b).size - i) - 1))
      envPut m k v
  bufReset b
  return m

/-- The loop of `parseEnv` (`runtime.clara` 62-76). -/
def envLoop (x : Ext) (b : Nat) (m : MapSt Str Str) (idx : BitVec 64) : M (MapSt Str Str) := do
  let entry := deref x idx
  if isNull entry then return m
  let m ← envRound x b m entry
  envLoop x b m (inc idx 8)
partial_fixpoint

/-- `parseEnv` (`runtime.clara` 55-78). -/
def parseEnv (x : Ext) (envp : BitVec 64) : M (MapSt Str Str) := do
  let b ← newByteBuffer 16
  envLoop x b newHashMap envp

end Clara.Lib
