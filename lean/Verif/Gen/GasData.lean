import Verif.Gen.Gas
import Verif.Lex.Model
/-
How the GNU assembler reads the lines that are not instructions, and what it makes of them (its manual, sections "Statements",
"Labels", "Expressions" and the directives `.8byte`, `.ascii`, `.align`, `.data`, `.text`, `.globl`, `.type`).  Nothing here is
about the compiler.
-/
namespace Clara.Gas
open Clara.Lex (Bytes)

abbrev W64 := BitVec 64

/-! ### Statements -/

/-- A number, or a symbol with an addend. -/
inductive DExpr
  | num (i : Int)
  | sym (s : Txt) (n : Int)
  deriving DecidableEq, Repr

inductive DStmt
  /-- nothing, or a directive that makes no bytes -/
  | none
  | label (s : Txt)
  | quads (es : List DExpr)
  | align (n : Nat)
  | sect (data : Bool)
  /-- bytes that are known already: instructions, text -/
  | bytes (bs : Bytes)
  deriving DecidableEq, Repr

def dexpr (t : Txt) : Option DExpr :=
  match immediate t with
  | some (.imm i) => some (.num i)
  | some (.addr s n) => some (.sym s n)
  | _ => Option.none

/-- The operands of a directive: parts between commas, none if there is nothing. -/
def dargs (t : Txt) : List Txt := if t = [] then [] else (split 0 t).map trim

/-- A directive with its operands. -/
def directive (m : Txt) (a : List Txt) : Option DStmt :=
  if m = ".8byte".toList then (a.mapM dexpr).map .quads
  else if m = ".align".toList then (match a with | [n] => (natural n).map .align | _ => Option.none)
  else if m = ".data".toList then (if a = [] then some (.sect true) else Option.none)
  else if m = ".text".toList then (if a = [] then some (.sect false) else Option.none)
  else if m = ".globl".toList ∨ m = ".type".toList then some .none
  else Option.none

/-- One statement. -/
def dstmt (t : Txt) : Option DStmt :=
  let s := trim t
  if s = [] then some .none
  else if s.getLast? = some ':' then (if isSym s.dropLast then some (.label s.dropLast) else Option.none)
  else directive (s.takeWhile (fun c => !blank c)) (dargs (trim (s.dropWhile (fun c => !blank c))))

/-- Statements end at a line feed or at a semicolon. -/
def semis : Txt → List Txt
  | [] => [[]]
  | c :: cs =>
    if c = ';' then [] :: semis cs
    else
      match semis cs with
      | [] => [[c]]
      | x :: xs => (c :: x) :: xs

/-! ### Strings

A file is read as characters of one byte each. -/

def byteOf (c : Char) : UInt8 := UInt8.ofNat c.toNat

def octal (c : Char) : Option Nat := if '0' ≤ c ∧ c ≤ '7' then some (c.toNat - 48) else Option.none

/-- The digits of an octal escape, at most `n`: its value and what follows. -/
def octals : Nat → Nat → Txt → Nat × Txt
  | 0, v, t => (v, t)
  | _ + 1, v, [] => (v, [])
  | n + 1, v, c :: t =>
    match octal c with
    | some d => octals n (8 * v + d) t
    | Option.none => (v, c :: t)

/-- What follows a backslash: the byte and the rest.  Hexadecimal escapes are left out. -/
def escape : Txt → Option (UInt8 × Txt)
  | [] => Option.none
  | c :: t =>
    if c = 'b' then some (8, t)
    else if c = 'f' then some (12, t)
    else if c = 'n' then some (10, t)
    else if c = 'r' then some (13, t)
    else if c = 't' then some (9, t)
    else if c = '\\' ∨ c = '"' then some (byteOf c, t)
    else if (octal c).isSome then some (UInt8.ofNat (octals 3 0 (c :: t)).1, (octals 3 0 (c :: t)).2)
    else Option.none

/-- The bytes of a string after its first quote, and what follows it; the number bounds the length of the text. -/
def gstr : Nat → Txt → Option (Bytes × Txt)
  | 0, _ => Option.none
  | _ + 1, [] => Option.none
  | n + 1, c :: t =>
    if c = '"' then some ([], t)
    else if c = '\n' then Option.none
    else if c = '\\' then
      match escape t with
      | some (b, r) => (gstr n r).map (fun x => (b :: x.1, x.2))
      | Option.none => Option.none
    else (gstr n t).map (fun x => (byteOf c :: x.1, x.2))

/-- A line with the directive `.ascii` and one string. -/
def asciiLine (t : Txt) : Option DStmt :=
  let s := trimL t
  if s.takeWhile (fun c => !blank c) = ".ascii".toList then
    match trimL (s.dropWhile (fun c => !blank c)) with
    | '"' :: r =>
      match gstr (r.length + 1) r with
      | some (bs, e) => if trim e = [] then some (.bytes bs) else Option.none
      | Option.none => Option.none
    | _ => Option.none
  else Option.none

/-- The statements of a line.  No other directive has strings. -/
def dline (t : Txt) : Option (List DStmt) :=
  match (semis t).mapM dstmt with
  | some ss => some ss
  | Option.none => (asciiLine t).map (fun s => [s])

/-- The statements of lines. -/
def dlines : List Txt → Option (List DStmt)
  | [] => some []
  | l :: ls =>
    match dline l, dlines ls with
    | some a, some b => some (a ++ b)
    | _, _ => Option.none

/-! ### Sections -/

/-- The statements of a section (`true` for data), if the current one is `cur`. -/
def inSect (sec : Bool) : Bool → List DStmt → List DStmt
  | _, [] => []
  | _, .sect d :: ss => inSect sec d ss
  | cur, s :: ss => if cur = sec then s :: inSect sec cur ss else inSect sec cur ss

/-- Where the bytes of a statement end that begin at `pos`. -/
def after (pos : Nat) : DStmt → Nat
  | .quads es => pos + 8 * es.length
  | .align n => if n = 0 then pos else (pos + n - 1) / n * n
  | .bytes bs => pos + bs.length
  | _ => pos

def afters (pos : Nat) (ss : List DStmt) : Nat := ss.foldl after pos

/-- The place of a label. -/
def labelAt (l : Txt) : Nat → List DStmt → Option Nat
  | _, [] => Option.none
  | pos, .label s :: ss => if s = l then some pos else labelAt l pos ss
  | pos, s :: ss => labelAt l (after pos s) ss

/-- The labels of statements. -/
def labelsOf : List DStmt → List Txt
  | [] => []
  | .label s :: ss => s :: labelsOf ss
  | _ :: ss => labelsOf ss

/-- The bytes of a word, the lowest first. -/
def le (w : W64) : Bytes := (List.range 8).map (fun i => UInt8.ofNat (w.toNat / 256 ^ i))

def dval (sym : Txt → W64) : DExpr → W64
  | .num i => BitVec.ofInt 64 i
  | .sym s n => sym s + BitVec.ofInt 64 n

/-- The bytes of a statement at `pos`. -/
def emit (sym : Txt → W64) (pos : Nat) : DStmt → Bytes
  | .quads es => es.flatMap (fun e => le (dval sym e))
  | .align n => List.replicate (after pos (.align n) - pos) 0
  | .bytes bs => bs
  | _ => []

def emits (sym : Txt → W64) : Nat → List DStmt → Bytes
  | _, [] => []
  | pos, s :: ss => emit sym pos s ++ emits sym (after pos s) ss

/-- The value of symbols if the statements of the section are placed at `base`; `ext` has those of other places. -/
def symbols (base : Nat) (ext : Txt → W64) (ss : List DStmt) (l : Txt) : W64 :=
  match labelAt l 0 ss with
  | some n => BitVec.ofNat 64 (base + n)
  | Option.none => ext l

/-! ### Memory -/

/-- A section in memory. -/
structure Section where
  base : Nat
  bytes : Bytes

/-- The section of statements at `base`. -/
def assemble (base : Nat) (ext : Txt → W64) (ss : List DStmt) : Section :=
  ⟨base, emits (symbols base ext ss) 0 ss⟩

/-- The number that bytes stand for, the lowest first. -/
def fromLe : Bytes → Nat
  | [] => 0
  | b :: bs => b.toNat + 256 * fromLe bs

/-- The byte at an address. -/
def Section.byte (m : Section) (a : W64) : Option UInt8 := if m.base ≤ a.toNat then m.bytes[a.toNat - m.base]? else Option.none

/-- The word at an address. -/
def Section.word (m : Section) (a : W64) : Option W64 :=
  match (List.range 8).mapM (fun i => m.byte (a + BitVec.ofNat 64 i)) with
  | some bs => some (BitVec.ofNat 64 (fromLe bs))
  | Option.none => Option.none

end Clara.Gas
