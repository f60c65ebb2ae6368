import Verif.Parse.Model
/-
`printTree` (`ast.go` 466-529): the tree that `-ast` shows.

* What is written of a node behind its place in the tree (colours, the text of its token, its kind and its symbol) is a parameter.
* The root has no token and no fields but its statements.
* The writer takes everything.
-/
namespace Clara.Parse

abbrev Line := List Char

/-- `console.Yellow` (`console/consts.go` 5). -/
def yellow : Line := "\x1b[33m".toList

/-- The line of a node (`ast.go` 472-497). -/
def rowLine (pfx : Line) (tail : Bool) (text : Line) : Line :=
  yellow ++ (pfx ++ ((if tail then "└── ".toList else "├── ".toList) ++ text))

/-- What is put before the lines below (`ast.go` 499-502). -/
def below (pfx : Line) (tail : Bool) : Line := pfx ++ (if tail then "     ".toList else "│    ".toList)

mutual
/-- `printTreeImpl` with a filter that lets everything pass (`ast.go` 472-511). -/
def rows (text : Node → Line) (pfx : Line) (tail : Bool) : Node → List Line
  | .mk op tok a l r ss ps =>
    rowLine pfx tail (text (.mk op tok a l r ss ps)) ::
      (rowsL text (below pfx tail) ps ++ (rowsO text (below pfx tail) false l ++ (rowsO text (below pfx tail) true r ++
        rowsL text (below pfx tail) ss)))
/-- nil is not shown (`ast.go` 479-481). -/
def rowsO (text : Node → Line) (pfx : Line) (tail : Bool) : Option Node → List Line
  | none => []
  | some n => rows text pfx tail n
/-- `printNodeListImpl` (`ast.go` 513-529). -/
def rowsL (text : Node → Line) (pfx : Line) : List Node → List Line
  | [] => []
  | [n] => rows text pfx true n
  | n :: m :: ns => rows text pfx false n ++ rowsL text pfx (m :: ns)
end

/-- `printNodeListImpl` with the filter, for the declarations. -/
def rowsF (text : Node → Line) (f : Node → Bool) (pfx : Line) : List Node → List Line
  | [] => []
  | [n] => if f n then rows text pfx true n else []
  | n :: m :: ns => (if f n then rows text pfx false n else []) ++ rowsF text f pfx (m :: ns)

/-- `printTree` (`ast.go` 466-470) without its first and last line. -/
def printTree (root : Line) (text : Node → Line) (f : Node → Bool) (ds : List Node) : List Line :=
  rowLine "    ".toList true root :: rowsF text f (below "    ".toList true) ds

end Clara.Parse
