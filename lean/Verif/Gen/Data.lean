import Verif.Gen.Text
import Verif.Gen.TypeTable
import Verif.Gen.Strings
/-
The lines of the assembly file that are not instructions (`asm.go` 345-475, `codegen.go` 190-203, 211-318, 387-392), on Linux.

A line is given without its line feed.  `write` passes its text twice through `fmt.Sprintf`; none of these lines has a `%`
(`Gen/Format.lean`, C95).  The names of types (`Type.AsmName`) and the labels of their descriptions are parameters.
-/
namespace Clara.Data
open Clara.Gen Clara.Tbl
open Clara.Lex (Bytes)

/-- Texts with something between them, as `strings.Join`. -/
def joinWith (sep : Txt) : List Txt → Txt
  | [] => []
  | [t] => t
  | t :: ts => t ++ (sep ++ joinWith sep ts)

/-- `tab` (`asm.go` 372-374). -/
def tab (ts : List Txt) : Txt := "   ".toList ++ joinWith "   ".toList ts

/-- `spacer` (`asm.go` 376-378). -/
def spacer : List Txt := [[], List.replicate 120 ';', []]

/-- `label` (`asm.go` 436-438). -/
def label (s : Txt) : Txt := s ++ [':']

/-- `(i << 1) + 1` for an `int` of Go. -/
def goTag (i : Int) : Int := ((BitVec.ofInt 64 i <<< 1) + 1#64).toInt

/-- `taggedInt` (`asm.go` 473-475). -/
def taggedInt (i : Int) : Txt := tab [".8byte".toList, itoa (goTag i)]

/-- `addr` (`asm.go` 361-370) of an operand printed as `t`, which `symOp` does with a `$` in front. -/
def addrSym (t : Txt) : Txt := tab [".8byte".toList, ('$' :: t).tail]
def addrLabel (t : Txt) : Txt := tab [".8byte".toList, t]

/-- `gcMap` (`asm.go` 461-471). -/
def gcMap (name : Txt) (offs : List Int) : List Txt :=
  [label name, taggedInt offs.length, tab [".8byte".toList, joinWith [','] (offs.map (fun o => itoa (goTag o)))]] ++ spacer

/-- `roSymbol` (`asm.go` 454-459). -/
def roSymbol (name : Txt) (body : List Txt) : List Txt := [taggedInt 2, label name] ++ body

/-- `readOnlyGcHeader` (`gc.go` 12-14) as an `int` of Go. -/
def roHeader (id : Int) : Int := (BitVec.ofInt 64 id <<< 47 ||| 2#64).toInt

/-- `fnStart` (`asm.go` 380-396). -/
def fnStart (name : Txt) : List Txt :=
  [tab [".text".toList], tab [".align".toList, "8".toList], taggedInt (roHeader 5), tab [".globl".toList, name],
    tab [".type".toList, name ++ ", @function".toList], label name]

/-- The lines of `flush` for a literal before its text (`asm.go` 411-424). -/
def litStart (lc : Txt) (len : Nat) : List Txt :=
  [tab [".align".toList, "8".toList], label lc, taggedInt (roHeader 4), taggedInt len]

/-- Bytes as text: the file is a sequence of bytes. -/
def charsOf (bs : Clara.Lex.Bytes) : Txt := bs.map (fun b => Char.ofNat b.toNat)

/-- The text of a literal (`asm.go` 426). -/
def asciiText (text : Clara.Lex.Bytes) : Txt := "   .ascii \"".toList ++ (charsOf text ++ "\\0\"".toList)

/-- The label of a literal (`asm.go` 407). -/
def litLabel (n : Nat) : Txt := ".LC".toList ++ dec n

/-- `flush` (`asm.go` 413-429) on what `flushLits` gives. -/
def flushLines (out : List Emitted) : List Txt :=
  tab [".data".toList] :: out.flatMap (fun e => litStart (litLabel e.label) e.len ++ [asciiText e.text])

def noGcLabel : Txt := "_noGc".toList

/-- `genNoGc` (`codegen.go` 387-392). -/
def genNoGc : List Txt := [tab [".data".toList], label noGcLabel, taggedInt 0, tab [".text".toList]]

/-- The maps at the end of a function (`codegen.go` 193-202), in the order in which Go goes through them; `off` is in bytes. -/
def fnMaps (maps : List (Txt × List Nat)) : List Txt :=
  spacer ++ (tab [".data".toList] :: maps.flatMap (fun m => gcMap m.1 (m.2.map (fun o => ((o / 8 : Nat) : Int)))))

def structLabel (n : Txt) : Txt := "struct_".toList ++ n
def enumLabel (n : Txt) (tag : Nat) : Txt := "enum_".toList ++ (n ++ ("_tag_".toList ++ dec tag))

/-- The root maps of the types (`codegen.go` 214-275): the lines and the labels; `none` is a panic. -/
def rootLines (types : List TypeD) (nm : Nat → Txt) : List Nat → Nat → Option Nat → Option (List Txt × List Txt)
  | [], _, _ => some ([], [])
  | t :: ts, tag, et =>
    match types[t]? with
    | some (.struct fs) =>
      let off := fieldOffs fs
      if off.length = 0 then (rootLines types nm ts tag et).map (fun r => (r.1, noGcLabel :: r.2))
      else (rootLines types nm ts 0 et).map (fun r => (gcMap (structLabel (nm t)) off ++ r.1, structLabel (nm t) :: r.2))
    | some (.enum ms) =>
      let tag := if et = some t then tag else 0
      match ms[tag]? with
      | some m =>
        if m.tag = tag then
          let off := memberOffs 0 m.params
          if off.length = 0 then (rootLines types nm ts (tag + 1) (some t)).map (fun r => (r.1, noGcLabel :: r.2))
          else (rootLines types nm ts (tag + 1) (some t)).map (fun r =>
            (gcMap (enumLabel (nm t) tag) off ++ r.1, enumLabel (nm t) tag :: r.2))
        else none
      | none => none
    | some _ => (rootLines types nm ts 0 et).map (fun r => (r.1, noGcLabel :: r.2))
    | none => none

/-- The words of an entry (`codegen.go` 282-308); `lc` is the label of the text of the type. -/
def infoBody (lc : Txt) (root : Txt) : TypeD → List Txt
  | .struct _ | .enum _ => [taggedInt 0, addrLabel (lc ++ "+8".toList), addrLabel root]
  | .string => [taggedInt 1]
  | .array e => [taggedInt 2, addrLabel (lc ++ "+8".toList), tab [".8byte".toList, if e.isPointer then "0x1".toList else "0x0".toList]]
  | .function => [taggedInt 3]
  | .bytes => [taggedInt 4]

def infoLabel (i : Nat) : Txt := "typeInfo_".toList ++ dec i

/-- The entries (`codegen.go` 277-310). -/
def infoLines (types : List TypeD) (lc : Nat → Txt) : Nat → List Nat → List Txt → Option (List Txt)
  | i, t :: ts, r :: rs =>
    match types[t]? with
    | some d => (infoLines types lc (i + 1) ts rs).map (roSymbol (infoLabel i) (infoBody (lc i) r d) ++ ·)
    | none => none
  | _, _, _ => some []

/-- The array of the entries (`codegen.go` 312-318). -/
def infoArray (n : Nat) : List Txt :=
  roSymbol "typeInfoArray".toList (taggedInt n :: (List.range n).map (fun i => addrSym (infoLabel i)))

/-- The data of `genTypeInfoTable` (`codegen.go` 211-318). -/
def tableLines (types : List TypeD) (nm lc : Nat → Txt) (gt : List Nat) : Option (List Txt) :=
  match rootLines types nm gt 0 none with
  | some r => (infoLines types lc 0 gt r.2).map (fun is => ".data".toList :: (r.1 ++ (is ++ infoArray gt.length)))
  | none => none

end Clara.Data
