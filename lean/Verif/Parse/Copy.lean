/-
Copies of trees (`ast.go` 324-358).  Here nodes are objects of Go: a node has an address, and what it says about other nodes are
their addresses, so a tree may have nodes in common with another one.
-/
namespace Clara.Copy

/-- `Node` (`ast.go` 14-25).  `data` is everything that is copied as it is: token, operator, symbol, type and symbol table. -/
structure Obj (D : Type) where
  attrs : Nat := 0
  data : D
  left : Option Nat := none
  right : Option Nat := none
  params : List (Option Nat) := []
  stmts : List (Option Nat) := []

/-- The nodes that have been made; the address of a node is its place. -/
abbrev Nodes (D : Type) := List (Obj D)

variable {D : Type}

/-- Assignment to fields of a node. -/
def upd (h : Nodes D) (x : Nat) (f : Obj D → Obj D) : Nodes D := h.modify x f

mutual
/-- `copyNode` (`ast.go` 328-358).  No result: an address of no node, or no end. -/
def copyNode (n : Nat) (h : Nodes D) : Option (Nat × Nodes D) := do
  let g ← h[n]?
  let x := h.length
  let (l, h1) ← copyOpt g.left (h ++ [{ data := g.data }])
  let h1 := upd h1 x (fun o => { o with left := l })
  let g1 ← h1[n]?
  let (r, h2) ← copyOpt g1.right h1
  let h2 := upd h2 x (fun o => { o with right := r })
  let g2 ← h2[n]?
  let (ps, h3) ← copyNodes g2.params h2
  let h3 := upd h3 x (fun o => { o with params := ps })
  let g3 ← h3[n]?
  let (ss, h4) ← copyNodes g3.stmts h3
  return (x, upd h4 x (fun o => { o with stmts := ss }))
partial_fixpoint

/-- `if n.left != nil { x.left = copyNode(n.left) }`. -/
def copyOpt (n : Option Nat) (h : Nodes D) : Option (Option Nat × Nodes D) :=
  match n with
  | none => some (none, h)
  | some n => do
    let (y, h) ← copyNode n h
    return (some y, h)
partial_fixpoint

/-- The loops over parameters and statements: nil is left out. -/
def copyNodes (ns : List (Option Nat)) (h : Nodes D) : Option (List (Option Nat) × Nodes D) :=
  match ns with
  | [] => some ([], h)
  | none :: ns => copyNodes ns h
  | some n :: ns => do
    let (y, h) ← copyNode n h
    let (ys, h) ← copyNodes ns h
    return (some y :: ys, h)
partial_fixpoint
end

end Clara.Copy
