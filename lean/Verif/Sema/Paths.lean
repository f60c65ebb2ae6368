/-
The files of a compilation (`main.go` 32-45, 79-81, 135-164), on Linux: names are texts, `/` separates.

Simplification: the functions of `path/filepath` are written on the parts between slashes; the bytes of a name are taken as characters.
-/
namespace Clara.Path

abbrev Txt := List Char

/-- `strings.Split(p, "/")`. -/
def parts : Txt → List Txt
  | [] => [[]]
  | c :: cs =>
    if c = '/' then [] :: parts cs
    else
      match parts cs with
      | [] => [[c]]
      | x :: xs => (c :: x) :: xs

/-- `strings.Join(ps, "/")`. -/
def slashed : List Txt → Txt
  | [] => []
  | [p] => p
  | p :: ps => p ++ '/' :: slashed ps

/-- `filepath.Base`: trailing slashes are removed, then it is what follows the last slash. -/
def base (p : Txt) : Txt :=
  if p = [] then ['.']
  else
    let q := ((p.reverse.dropWhile (· == '/')).takeWhile (· != '/')).reverse
    if q = [] then ['/'] else q

/-- `filepath.Ext`: from the last dot of the last part on. -/
def ext (p : Txt) : Txt :=
  let r := p.reverse.takeWhile (· != '/')
  if '.' ∈ r then ((r.takeWhile (· != '.')) ++ ['.']).reverse else []

/-- `strings.TrimSuffix`. -/
def trimSuffix (p s : Txt) : Txt := if s.isSuffixOf p then p.take (p.length - s.length) else p

/-- One part in `filepath.Clean`; `st` are the parts kept, the last one first. -/
def cleanStep (rooted : Bool) (st : List Txt) (c : Txt) : List Txt :=
  if c = [] ∨ c = ['.'] then st
  else if c = ['.', '.'] then
    match st with
    | [] => if rooted then [] else [c]
    | x :: t => if x = ['.', '.'] then c :: st else t
  else c :: st

def isRooted (p : Txt) : Bool := p.head? == some '/'

/-- `filepath.Clean`. -/
def clean (p : Txt) : Txt :=
  let q := (if isRooted p then ['/'] else []) ++ slashed ((parts p).foldl (cleanStep (isRooted p)) []).reverse
  if q = [] then ['.'] else q

/-- `filepath.Join` of two. -/
def join2 (a b : Txt) : Txt :=
  if a = [] then (if b = [] then [] else clean b) else clean (a ++ '/' :: b)

/-- `progName` (`main.go` 136-137). -/
def progName (prog : Txt) : Txt := trimSuffix (base prog) (ext (base prog))

/-- `asmPath` (`main.go` 138); `tmp` is `os.TempDir()`. -/
def asmPath (tmp prog : Txt) : Txt := tmp ++ '/' :: (progName prog ++ ['.', 'S'])

/-- `outputPath` (`main.go` 154). -/
def outputPath (out prog : Txt) : Txt := join2 out (progName prog)

/-- `glob` of the two patterns (`main.go` 42-43): what is in a directory and ends in `.clara`, or in `.c`. -/
def libFiles (dir sfx : Txt) (entries : List Txt) : List Txt := (entries.filter (fun e => sfx.isSuffixOf e)).map (fun e => dir ++ '/' :: e)

end Clara.Path
