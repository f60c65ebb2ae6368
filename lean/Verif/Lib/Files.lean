import Verif.Lib.Functional
import Verif.Lib.Startup
/-
Files, errors and the time (`install/lib/io.clara`, `fs.clara`, `err.clara`, `time.clara`).

The functions of the C library are those of an arbitrary operating system `Os` with a state `σ`.  They are declared
`#[RawValues]`: ints are passed as 64-bit numbers, strings and byte arrays as the address of their first byte, and an
int result is tagged (`codegen.go` 598-606, 636-638).  `struct file` and `struct error` are never changed after their construction and are
values here, and so are the enums.  Allocations do not change `errno`.
-/
namespace Clara.Lib

/-- The functions of the C library that the files use. -/
structure Os (σ : Type) where
  /-- `open(path, flags)`: the word in `rax`. -/
  openC : σ → Str → Int → σ × BitVec 64
  /-- `lseek(fd, offset, whence)`. -/
  lseek : σ → Int → Int → Int → σ × BitVec 64
  /-- `read(fd, buf, count)`: the result and the bytes written from the start of the buffer on. -/
  read : σ → Int → BitVec 64 → σ × BitVec 64 × Str
  /-- `errnum` (`runtime.c` 62). -/
  errnum : σ → BitVec 64
  /-- `gettimeofday`: the two words stored. -/
  now : σ → σ × BitVec 64 × BitVec 64

/-- Programs with a heap and an operating system. -/
abbrev FM (σ : Type) (α : Type) := StateT (Heap × σ) (ExceptT Err Option) α

variable {σ : Type}

/-- A program without calls of the operating system. -/
def onHeap {α : Type} (x : M α) : FM σ α := fun c =>
  match x c.1 with
  | none => none
  | some (.error e) => some (.error e)
  | some (.ok (a, h)) => some (.ok (a, (h, c.2)))

/-- A call of the operating system. -/
def onOs {α : Type} (f : σ → σ × α) : FM σ α := fun c => some (.ok ((f c.2).2, (c.1, (f c.2).1)))

/-- `struct file` (`fs.clara` 1-4). -/
structure File where
  fd : Int
  path : Nat
  deriving DecidableEq, Repr

/-- `struct error` (`err.clara` 1-4). -/
structure Error where
  msg : Opt Nat
  err : Int
  deriving DecidableEq, Repr

/-- The bytes that a C function finds at the address of the first byte. -/
def cString (r : Nat) : M Str := do
  let o ← obj r
  if (0 : UInt8) ∈ o.data then return o.data.takeWhile (· ≠ 0) else err .wild

/-- `open` of the C library (`fs.clara` 31-32). -/
def cOpen (os : Os σ) (path : Nat) (flags : Int) : FM σ Int := do
  let p ← onHeap (cString path)
  let w ← onOs (fun s => os.openC s p flags)
  return toTaggedInt w

/-- `lseek` (`io.clara` 29-30). -/
def cLseek (os : Os σ) (fd off mode : Int) : FM σ Int := do
  let w ← onOs (fun s => os.lseek s fd off mode)
  return toTaggedInt w

/-- The bytes that `read` writes; bytes behind the end of the object are in other objects. -/
def putBytes (b : Nat) (xs : Str) : M Unit := do
  let o ← obj b
  if xs.length ≤ o.data.length then setObj b { o with data := xs ++ o.data.drop xs.length } else err .wild

/-- `read` of the C library (`io.clara` 21-22).  The size is taken as a number without sign. -/
def cRead (os : Os σ) (fd : Int) (b : Nat) (size : Int) : FM σ Int := do
  let r ← onOs (fun s => os.read s fd (BitVec.ofInt 64 size))
  onHeap (putBytes b r.2)
  return toTaggedInt r.1

/-- `errnum` (`err.clara` 93-94). -/
def errnum (os : Os σ) : FM σ Int := onOs (fun s => (s, toTaggedInt (os.errnum s)))

/-- `ioErr` with a text (`io.clara` 4). -/
def ioErr {T : Type} (os : Os σ) (msg : Nat) : FM σ (Result T Error) := do
  return .err { msg := .some msg, err := ← errnum os }

/-- `seek` (`io.clara` 6-9). -/
def seek (os : Os σ) (f : File) (off mode : Int) : FM σ (Result Int Error) := do
  let pos ← cLseek os f.fd off mode
  if pos = -1 then ioErr os f.path else return .ok pos

/-- `read` (`io.clara` 11-16).  After an error of the C function the code reads the field `path` of `file`, which is the name of the
struct and not the parameter `f`.  The type checker accepts it and the generator loads the `Addr` of the symbol, 0
(`codegen.go` 778-779), so that the word at address 8 is read. -/
def readFile (os : Os σ) (f : File) (b : Nat) (size : Int) : FM σ (Opt Error) := do
  if size > (← onHeap (length b)) then
    return .some { msg := .some (← onHeap (lit (chars "buffer is too small for requested read size"))), err := -1 }
  if (← cRead os f.fd b size) = -1 then onHeap (err .wild) else return .none

/-- `open` (`fs.clara` 6-10). -/
def openFile (os : Os σ) (path : Nat) : FM σ (Result File Error) := do
  let fd ← cOpen os path 0
  if fd = -1 ∨ fd = 4294967295 then ioErr os path else return .ok { fd := fd, path := path }

/-- `size` (`fs.clara` 19-25). -/
def fileSize (os : Os σ) (f : File) : FM σ (Result Int Error) := do
  let r1 ← seek os f 0 1
  let r2 ← r1.then (fun cur => do
    let r ← seek os f 0 2
    r.map (fun size => (pure (cur, size) : FM σ (Int × Int))))
  r2.then (fun curSize => do
    let r ← seek os f curSize.1 0
    r.map (fun _ => (pure curSize.2 : FM σ Int)))

/-- `readAll` (`fs.clara` 12-17); `toString` of a byte array is `toString(b, 0, b.length())` (`strings.clara` 151-152). -/
def readAll (os : Os σ) (f : File) : FM σ (Result Nat Error) := do
  let r1 ← fileSize os f
  let r2 ← r1.map (fun n => onHeap (newBytes n))
  let r3 ← r2.peek (fun b => do readFile os f b (← onHeap (length b)))
  r3.map (fun b => onHeap (do toStr b 0 (← length b)))

/-! ### Errors -/

/-- The texts in `describe` (`err.clara` 16-83). -/
def errTexts : List (Int × String) :=
  [(1, "Operation not permitted"),
   (2, "No such file or directory"),
   (3, "No such process"),
   (4, "Interrupted system call"),
   (5, "I/O error"),
   (6, "No such device or address"),
   (7, "Argument list too long"),
   (8, "Exec format error"),
   (9, "Bad file descriptor"),
   (10, "No child processes"),
   (11, "Try again"),
   (12, "Out of memory"),
   (13, "Permission denied"),
   (14, "Bad address"),
   (15, "Block device required"),
   (16, "Device or resource busy"),
   (17, "File exists"),
   (18, "Cross-device link"),
   (19, "No such device"),
   (20, "Not a directory"),
   (21, "Is a directory"),
   (22, "Invalid argument"),
   (23, "File table overflow"),
   (24, "Too many open files"),
   (25, "Not a typewriter"),
   (26, "Text file busy"),
   (27, "File too large"),
   (28, "No space left on device"),
   (29, "Illegal seek"),
   (30, "Read-only file system"),
   (31, "Too many links"),
   (32, "Broken pipe"),
   (33, "Math argument out of domain of func"),
   (34, "Math result not representable")]

/-- `describe` of a code (`err.clara` 13-87): the first number that is equal. -/
def describeCode (e : Int) : M Nat := do
  match errTexts.find? (fun p => p.1 = e) with
  | some p => lit (chars p.2)
  | none => append (← lit (chars "Unknown error code: ")) (← intToString e)

/-- `describe` of an error (`err.clara` 6-11). -/
def describe (e : Error) : M Nat := do
  let b ← newByteBuffer 16
  let b ← bufAppend b (← describeCode e.err)
  let o ← e.msg.map (fun s => (do append (← lit (chars ":\n - ")) s : M Nat))
  let b ← bufAppend b (o.orElse (← lit []))
  bufToString b

/-! ### Time -/

/-- `struct time` (`time.clara` 5-8). -/
structure Time where
  sec : Int
  usec : Int
  deriving DecidableEq, Repr

/-- `Now` (`time.clara` 10-18).  `gettimeofday` stores two words without a tag over the fields of the new object; `tag` of what is loaded from
there is `toTaggedInt` of the word (`runtime.clara` 136). -/
def timeNow (os : Os σ) : FM σ Time := do
  let r ← onOs os.now
  return { sec := toTaggedInt r.1, usec := toTaggedInt r.2 }

/-- `toMicros`, `toMillis` and `toSecs` (`time.clara` 19-21). -/
def Time.toMicros (t : Time) : Int := wrap (wrap (t.sec * 1000000) + t.usec)
def Time.toMillis (t : Time) : M Int := idiv t.toMicros 1000
def Time.toSecs (t : Time) : M Int := idiv t.toMicros 1000000

end Clara.Lib
