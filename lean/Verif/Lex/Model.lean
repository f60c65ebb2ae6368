/-
Model of the lexer, `/repo/lex/lex.go`.

The input is a Go string, i.e. an arbitrary sequence of bytes; `utf8.DecodeRuneInString`
is modelled bit for bit.  `unicode.IsLetter` and `unicode.IsDigit` are left abstract (`Uni`).
-/

namespace Clara.Lex

/-- Kinds of token (`lex.go` 12-98).  The numeric values are irrelevant except for the comparison
`key[word] > keyword`, which is true exactly for the reserved words. -/
inductive Kind
  | err | rbrace | lbrace | rparen | lparen | rbrack | lbrack | comma | colon | dot | hash
  | question | comment | identifier | string | integer | neg | plus | mul | div | min
  | lgmet | rgmet | band | bor | bnot | bxor | bleft | bright | gt | gte | lt | lte | eq
  | space | eol | eof | das | as | dotdot
  | fn | ret | if_ | elseif | else_ | true_ | false_ | not | and | or | struct | while_ | for_
  | in_ | enum | match_ | case | type
  deriving DecidableEq, Repr, Inhabited

/-- Byte strings (Go `string`). -/
abbrev Bytes := List UInt8

/-- The two Unicode tables the lexer consults (`unicode.IsLetter`, `unicode.IsDigit`;
`lex.go` 568-574). They are external to the repository and left abstract. -/
structure Uni where
  isLetter : Nat → Bool
  isDigit : Nat → Bool

/-- `utf8.RuneError`. -/
def runeError : Nat := 0xFFFD

/-- Is `b` a continuation byte (`locb..hicb` of Go's `utf8` package)? -/
def isCont (b : UInt8) : Bool := 0x80 ≤ b.toNat && b.toNat ≤ 0xBF

/-- `utf8.DecodeRuneInString` on a non-empty string: rune and width.  This follows Go's
implementation: table `first` gives the size and the range of the second byte. -/
def decode1 (b0 : UInt8) (t : Bytes) : Nat × Nat :=
  let n0 := b0.toNat
  if n0 < 0x80 then (n0, 1)
  else if n0 < 0xC2 then (runeError, 1)
  else if n0 < 0xE0 then
    match t with
    | b1 :: _ => if isCont b1 then ((n0 % 32) * 64 + b1.toNat % 64, 2) else (runeError, 1)
    | [] => (runeError, 1)
  else if n0 < 0xF0 then
    match t with
    | b1 :: b2 :: _ =>
      let lo := if n0 = 0xE0 then 0xA0 else 0x80
      let hi := if n0 = 0xED then 0x9F else 0xBF
      if (lo ≤ b1.toNat && b1.toNat ≤ hi) && isCont b2 then
        ((n0 % 16) * 4096 + (b1.toNat % 64) * 64 + b2.toNat % 64, 3)
      else (runeError, 1)
    | _ => (runeError, 1)
  else if n0 < 0xF5 then
    match t with
    | b1 :: b2 :: b3 :: _ =>
      let lo := if n0 = 0xF0 then 0x90 else 0x80
      let hi := if n0 = 0xF4 then 0x8F else 0xBF
      if ((lo ≤ b1.toNat && b1.toNat ≤ hi) && isCont b2) && isCont b3 then
        ((n0 % 8) * 262144 + (b1.toNat % 64) * 4096 + (b2.toNat % 64) * 64 + b3.toNat % 64, 4)
      else (runeError, 1)
    | _ => (runeError, 1)
  else (runeError, 1)

/-- `utf8.DecodeRuneInString`; `none` when the string is empty (the lexer then reports its own
`eof` constant, `lex.go` 528-531). -/
def decode : Bytes → Option (Nat × Nat)
  | [] => none
  | b :: t => some (decode1 b t)

theorem decode1_width (b : UInt8) (t : Bytes) :
    1 ≤ (decode1 b t).2 ∧ (decode1 b t).2 ≤ t.length + 1 := by
  unfold decode1
  grind

theorem decode_width {bs : Bytes} {r w : Nat} (h : decode bs = some (r, w)) :
    1 ≤ w ∧ w ≤ bs.length := by
  cases bs with
  | nil => simp [decode] at h
  | cons b t =>
    have := decode1_width b t
    simp only [decode, Option.some.injEq] at h
    rw [h] at this
    simpa using this

/-- Scanner state (`lex.go` 277-292): `pre = input[:start]`, `cur = input[start:pos]`,
`rest = input[pos:]`.  `width` is only a scratch field of `peek`. -/
structure LS where
  pre : Bytes
  cur : Bytes
  rest : Bytes
  deriving DecidableEq, Repr

/-- `peek` (`lex.go` 521-525); `none` is the `eof` rune. -/
def LS.peek (s : LS) : Option Nat := (decode s.rest).map Prod.fst

/-- `next` (`lex.go` 527-536), the advance part; the rune returned is `peek`. -/
def LS.next (s : LS) : LS :=
  match decode s.rest with
  | none => s
  | some (_, w) => { s with cur := s.cur ++ s.rest.take w, rest := s.rest.drop w }

theorem LS.next_lt {s : LS} {r : Nat} (h : s.peek = some r) :
    s.next.rest.length < s.rest.length := by
  unfold LS.peek at h
  unfold LS.next
  cases hd : decode s.rest with
  | none => simp [hd] at h
  | some rw =>
    obtain ⟨r', w⟩ := rw
    have := decode_width hd
    simp only [List.length_drop]
    omega

/-- Tokens (`lex.go` 243-249).  `val` is the text of the token; error tokens carry a formatted
message in the code, which is not modelled (their `val` is empty here). -/
structure Token where
  kind : Kind
  val : Bytes
  pos : Nat
  line : Nat
  deriving DecidableEq, Repr, Inhabited

/-- `utf8.RuneCountInString`. -/
def runeCount (bs : Bytes) : Nat :=
  match h : decode bs with
  | none => 0
  | some (_, w) =>
    have := decode_width h
    1 + runeCount (bs.drop w)
  termination_by bs.length
  decreasing_by simp only [List.length_drop]; omega

/-- `input[lineIndex:start]` of `linePos` (`lex.go` 548-554): from the last newline (inclusive),
or from the beginning if there is none. -/
def fromLastNewline (bs : Bytes) : Bytes :=
  match bs with
  | [] => []
  | b :: t => if t.contains 10 then fromLastNewline t else b :: t

/-- `linePos` (`lex.go` 548-554) applied to `input[:start]`. -/
def linePos (pre : Bytes) : Nat := runeCount (fromLastNewline pre)

/-- `lineNumber` (`lex.go` 556-558): `pre = input[:start]`. -/
def lineNumber (pre : Bytes) : Nat := 1 + pre.count 10

/-- `isAlphabetic`, `isNumeric`, `isAlphaNumeric`, `isHexadecimal`, `isEndOfLine`, `isEscape`
(`lex.go` 564-588). -/
def isAlphabetic (u : Uni) (r : Nat) : Bool := r == '_'.toNat || u.isLetter r
def isNumeric (u : Uni) (r : Nat) : Bool := u.isDigit r
def isAlphaNumeric (u : Uni) (r : Nat) : Bool := isAlphabetic u r || isNumeric u r
def isHexadecimal (u : Uni) (r : Nat) : Bool :=
  isNumeric u r || r == 'a'.toNat || r == 'b'.toNat || r == 'c'.toNat || r == 'd'.toNat
    || r == 'e'.toNat || r == 'f'.toNat || r == 'A'.toNat || r == 'B'.toNat || r == 'C'.toNat
    || r == 'D'.toNat || r == 'E'.toNat || r == 'F'.toNat
def isEndOfLine (r : Nat) : Bool := r == 13 || r == 10
def isEscape (r : Nat) : Bool := r == 'r'.toNat || r == 'n'.toNat || r == 92 || r == 34

/-- ASCII text as bytes (the spelling of reserved words and operators). -/
def ascii (s : String) : Bytes := s.toList.map (fun c => c.toNat.toUInt8)

/-- The reserved words (`lex.go` 164-183). -/
def key : List (Bytes × Kind) :=
  [ (ascii "fn", .fn), (ascii "return", .ret), (ascii "if", .if_), (ascii "elseif", .elseif),
    (ascii "else", .else_), (ascii "true", .true_), (ascii "false", .false_), (ascii "not", .not),
    (ascii "and", .and), (ascii "or", .or), (ascii "struct", .struct), (ascii "while", .while_),
    (ascii "for", .for_), (ascii "in", .in_), (ascii "enum", .enum), (ascii "match", .match_),
    (ascii "case", .case), (ascii "type", .type) ]

/-- `key[word] > keyword ? key[word] : Identifier` (`lex.go` 502-508). -/
def wordKind (w : Bytes) : Kind := (key.lookup w).getD .identifier

/-- `emit` (`lex.go` 538-541): the token sent and the state afterwards. -/
def LS.emit (s : LS) (k : Kind) : Token × Option LS :=
  ({ kind := k, val := s.cur, pos := linePos s.pre, line := lineNumber s.pre },
   some { pre := s.pre ++ s.cur, cur := [], rest := s.rest })

/-- `errorf` (`lex.go` 543-546): send an error token and stop.  The column is that of `pos`. -/
def LS.errorf (s : LS) : Token × Option LS :=
  ({ kind := .err, val := [], pos := linePos (s.pre ++ s.cur), line := lineNumber s.pre }, none)

/-- `for l.peek() != eof && p(l.peek()) { l.next() }` (the loops of `lex.go` 423-508). -/
def LS.scan (p : Nat → Bool) (s : LS) : LS :=
  match h : s.peek with
  | none => s
  | some r => if p r then
      have := LS.next_lt h
      LS.scan p s.next
    else s
  termination_by s.rest.length

/-- The loop of `lexString` (`lex.go` 433-446).  `none` is "unknown escape sequence", in which
case the error position is that of the state given. -/
def LS.scanString (s : LS) : LS × Bool :=
  match h : s.peek with
  | none => (s, true)
  | some r =>
    have := LS.next_lt h
    if r = 34 then (s, true)
    else if r = 92 then
      match h' : s.next.peek with
      | none => (s.next, false)
      | some r' =>
        have := LS.next_lt h'
        if isEscape r' then LS.scanString s.next.next else (s.next, false)
    else LS.scanString s.next
  termination_by s.rest.length

/-- `lexString` (`lex.go` 432-454). -/
def lexString (s : LS) : Token × Option LS :=
  match s.scanString with
  | (s', false) => s'.errorf
  | (s', true) => if s'.peek = some 34 then s'.next.emit .string else s'.next.errorf

/-- `lexComment` (`lex.go` 423-429). -/
def lexComment (s : LS) : Token × Option LS :=
  (s.scan (fun r => !isEndOfLine r)).emit .comment

/-- `lexInteger` (`lex.go` 457-463). -/
def lexInteger (p : Nat → Bool) (s : LS) : Token × Option LS := (s.scan p).emit .integer

/-- `lexHexOrDecInteger` (`lex.go` 465-476). -/
def lexHexOrDecInteger (u : Uni) (s : LS) : Token × Option LS :=
  if s.peek = some 'x'.toNat then
    match s.next.peek with
    | some r => if isHexadecimal u r then lexInteger (isHexadecimal u) s.next else s.next.errorf
    | none => s.next.errorf
  else lexInteger (isNumeric u) s

/-- `lexSpace` (`lex.go` 483-489). -/
def lexSpace (s : LS) : Token × Option LS := (s.scan (· == 32)).emit .space

/-- `atTerminator` (`lex.go` 513-519); `none` is `eof`. -/
def atTerminator : Option Nat → Bool
  | none => true
  | some r => r == '('.toNat || r == ' '.toNat || r == ':'.toNat || r == ','.toNat
      || r == ')'.toNat || r == 13 || r == 10 || r == '.'.toNat || r == '+'.toNat
      || r == '-'.toNat || r == '*'.toNat || r == '/'.toNat || r == '>'.toNat || r == '<'.toNat
      || r == '['.toNat || r == ']'.toNat || r == 0xAB || r == 0xBB

/-- `lexIdentifier` (`lex.go` 492-511). -/
def lexIdentifier (u : Uni) (s : LS) : Token × Option LS :=
  let s' := s.scan (isAlphaNumeric u)
  if atTerminator s'.peek then s'.emit (wordKind s'.cur) else s'.errorf

/-- `if l.peek() == c { l.next(); l.emit(k) } else { ... }`. -/
def LS.two (s : LS) (c : Nat) (k : Kind) (other : Token × Option LS) : Token × Option LS :=
  if s.peek = some c then s.next.emit k else other

/-- One iteration of `lexText` together with the state function it returns to
(`lex.go` 313-420).  Every iteration delivers exactly one token. -/
def lexOne (u : Uni) (s0 : LS) : Token × Option LS :=
  match s0.peek with
  | none => ((s0.emit .eof).1, none)
  | some r =>
    let s := s0.next
    if r = ' '.toNat then lexSpace s
    else if r = '('.toNat then s.emit .lparen
    else if r = ')'.toNat then s.emit .rparen
    else if r = '{'.toNat then s.emit .lbrace
    else if r = '}'.toNat then s.emit .rbrace
    else if r = '['.toNat then s.emit .lbrack
    else if r = ']'.toNat then s.emit .rbrack
    else if r = 0xAB then s.emit .lgmet
    else if r = 0xBB then s.emit .rgmet
    else if r = '#'.toNat then s.emit .hash
    else if r = '?'.toNat then s.emit .question
    else if r = ','.toNat then s.emit .comma
    else if r = ':'.toNat then s.two '='.toNat .das (s.emit .colon)
    else if r = '+'.toNat then s.emit .plus
    else if r = '-'.toNat then s.emit .min
    else if r = '*'.toNat then s.emit .mul
    else if r = '~'.toNat then s.emit .bnot
    else if r = '^'.toNat then s.emit .bxor
    else if r = '|'.toNat then s.emit .bor
    else if r = '&'.toNat then s.emit .band
    else if r = '>'.toNat then s.two '>'.toNat .bright (s.two '='.toNat .gte (s.emit .gt))
    else if r = '<'.toNat then s.two '<'.toNat .bleft (s.two '='.toNat .lte (s.emit .lt))
    else if r = '.'.toNat then s.two '.'.toNat .dotdot (s.emit .dot)
    else if r = 34 then lexString s
    else if r = '='.toNat then s.two '='.toNat .eq (s.emit .as)
    else if r = '/'.toNat then
      if s.peek = some '/'.toNat then lexComment s.next else s.emit .div
    else if r = '0'.toNat then lexHexOrDecInteger u s
    else if '1'.toNat ≤ r ∧ r ≤ '9'.toNat then lexInteger (isNumeric u) s
    else if isAlphabetic u r then lexIdentifier u s
    else if isEndOfLine r then s.emit .eol
    else s.errorf

end Clara.Lex
