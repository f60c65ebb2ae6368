import Verif.Gen.Data
import Verif.Gen.GasData
import Verif.Gen.TextProg
import Verif.Gen.DataProof
/-
The code of a program as lines of the assembly file, with the words and root maps that are among them.
-/
namespace Clara.Data
open Clara.Gen hiding Txt
open Clara.Gas

/-! ### The writer -/

/-- What the generator tells the writer: the beginning of a function (`fnStart`), the beginning of the trampoline, an instruction,
a label, or the address of the map of a call (`asm.addr`, `codegen.go` 445, 642). -/
inductive CItem
  | start (f : String)
  | ioob
  | ins (i : Ins)
  | label (l : Label)
  | word (roots : List Nat)
  deriving DecidableEq, Repr

/-- The calls behind the items of the program.  The header of a function is the word before its label (`Gen/Emit.lean`). -/
def parts : List Item → List CItem
  | .data [] :: .label (.fn f) :: r => .start f :: parts r
  | .label .ioob :: r => .ioob :: parts r
  | .ins i :: r => .ins i :: parts r
  | .label l :: r => .label l :: parts r
  | .data rs :: r => .word rs :: parts r
  | [] => []

/-- The name of a root map (`codegen.go` 56-65). -/
def mapName (k : Nat) : Txt := ".SM".toList ++ dec k

/-- The end of a function (`codegen.go` 191-202); `ord` is the order in which Go goes through the map `gcMaps`. -/
def endMaps (ord : List (Txt × List Nat) → List (Txt × List Nat)) : Option (List (Txt × List Nat)) → List Txt
  | none => []
  | some l => fnMaps (ord l)

/-- The lines.  The number is `fn.id`, which is never reset (`codegen.go` 40-48); `ms` are the maps of the function at hand, `none`
outside of functions.  Items have the offsets in words (`Gen.gcMap`), the roots of Go have them in bytes.  The assembly helpers (`codegen.go` 121-142) are in `Props/HelperLines.lean`, the whole file in `Props/WholeText.lean`. -/
def codeLines (S : Spell) (ord : List (Txt × List Nat) → List (Txt × List Nat)) :
    Nat → Option (List (Txt × List Nat)) → List CItem → List Txt
  | _, ms, [] => endMaps ord ms
  | k, ms, .start f :: cs => endMaps ord ms ++ (fnStart f.toList ++ codeLines S ord k (some []) cs)
  | k, ms, .ioob :: cs => endMaps ord ms ++ (tab [".text".toList] :: label "ioob".toList :: codeLines S ord k none cs)
  | k, ms, .ins i :: cs => insText S (.ins i) :: codeLines S ord k ms cs
  | k, ms, .label l :: cs => label l.text :: codeLines S ord k ms cs
  | k, ms, .word [] :: cs => addrLabel noGcLabel :: codeLines S ord k ms cs
  | k, ms, .word (r :: rs) :: cs =>
    addrLabel (mapName k) :: codeLines S ord (k + 1) (some (ms.getD [] ++ [(mapName k, (r :: rs).map (8 * ·))])) cs

/-! ### The assembler -/

/-- Statements with instructions among them. -/
inductive Stm
  | d (s : DStmt)
  | i (h : HIns)
  deriving DecidableEq, Repr

/-- The first word of a line. -/
def word1 (t : Txt) : Txt := (trimL (t.takeWhile (· ≠ '\n'))).takeWhile (fun c => !blank c)

/-- A line is an instruction if its first word is a mnemonic. -/
def rline (Y : Symbols) (t : Txt) : Option (List Stm) :=
  if (opcode (word1 t)).isSome then (line Y t).map (fun h => [.i h]) else (dline t).map (List.map .d)

def rlines (Y : Symbols) : List Txt → Option (List Stm)
  | [] => some []
  | l :: ls =>
    match rline Y l, rlines Y ls with
    | some a, some b => some (a ++ b)
    | _, _ => none

/-- The statements of the text section; the flag says whether the current section is that of the data. -/
def codeOf : Bool → List Stm → List Stm
  | _, [] => []
  | _, .d (.sect b) :: ss => codeOf b ss
  | false, s :: ss => s :: codeOf false ss
  | true, _ :: ss => codeOf true ss

/-- The statements as C82 has them, if instructions are encoded by `enc`. -/
def asData (enc : HIns → Clara.Lex.Bytes) : Stm → DStmt
  | .d s => s
  | .i h => .bytes (enc h)

/-! ### What is in the text section -/

inductive Got
  | ins (h : HIns)
  | label (s : Txt)
  | align (n : Nat)
  | num (i : Int)
  /-- the address of a map, and what the collector reads there -/
  | map (offs : List Int)
  deriving DecidableEq, Repr

/-- `mp` is what the collector reads at a symbol. -/
def see (mp : Txt → Option (List Int)) : Stm → Option (List Got)
  | .i h => some [.ins h]
  | .d .none => some []
  | .d (.label s) => some [.label s]
  | .d (.align n) => some [.align n]
  | .d (.quads [.num i]) => some [.num i]
  | .d (.quads [.sym s 0]) => (mp s).map (fun r => [.map r])
  | .d _ => none

def sees (mp : Txt → Option (List Int)) : List Stm → Option (List Got)
  | [] => some []
  | s :: ss =>
    match see mp s, sees mp ss with
    | some a, some b => some (a ++ b)
    | _, _ => none

end Clara.Data
