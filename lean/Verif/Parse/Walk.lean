import Verif.Parse.Grammar
import Verif.Sema.Literal
set_option linter.unusedSimpArgs false
/-
`Walk`, `WalkPreOrder` and `WalkPostOrder` (`walk.go` 5-121) on the trees of the parser, and the shape of these trees.

* The function that is called does not change the tree; `Sema/Literal.lean` has the one that does so under way.
* The root (`opRoot`, `walk.go` 37-40) is not a node here: it is the list of its statements.
-/
namespace Clara.Parse
open Clara.Lex (Kind Token)
open Clara.Sema.Lit (Fld walk)

/-- Is the field tested for nil before it is visited (`walk.go` 23-24, 32-33, 48-49, 83-84, 98-99, 113-114)? -/
def tested : Op → Fld → Bool
  | .blockFnDcl, _ | .exprFnDcl, _ | .externFnDcl, _ | .consFnDcl, _ | .funcType, _ => true
  | .funcCall, .left => true
  | .if_, .right | .elseif, .right => true
  | .identifier, .left | .ret, .left | .namedType, .left => true
  | .arrayLit, .left => true
  | _, _ => false

/-- A call of the function: for a node, or for nil at its end (`walk.go` 17, 116). -/
inductive Call
  | enter (n : Node)
  | exit

/-- One after the other; `none` is the crash on a nil pointer. -/
def inRow {α : Type} : List (Option (List α)) → Option (List α)
  | [] => some []
  | none :: _ => none
  | some x :: r => (inRow r).map (x ++ ·)

/-- What is in a field. -/
def field {α : Type} (l r s p : α) : Fld → α
  | .left => l
  | .right => r
  | .stmts => s
  | .params => p

mutual
/-- The calls of `WalkPreOrder` (`walk.go` 5-7, 16-121); `f` says whether the children are visited. -/
def pre (f : Node → Bool) : Node → Option (List Call)
  | .mk op tok a l r ss ps =>
    if f (.mk op tok a l r ss ps) then
      (inRow ((walk op).map (field (preO f (tested op .left) l) (preO f (tested op .right) r) (preL f ss) (preL f ps)))).map
        (fun cs => .enter (.mk op tok a l r ss ps) :: (cs ++ [.exit]))
    else some [.enter (.mk op tok a l r ss ps)]
/-- A field that may be nil. -/
def preO (f : Node → Bool) (t : Bool) : Option Node → Option (List Call)
  | none => if t then some [] else none
  | some n => pre f n
/-- The nodes of a list. -/
def preL (f : Node → Bool) : List Node → Option (List Call)
  | [] => some []
  | n :: ns => inRow [pre f n, preL f ns]
end

mutual
/-- The calls of `WalkPostOrder` (`walk.go` 9-14, 16-121). -/
def post : Node → Option (List Node)
  | .mk op tok a l r ss ps =>
    (inRow ((walk op).map (field (postO (tested op .left) l) (postO (tested op .right) r) (postL ss) (postL ps)))).map
      (· ++ [.mk op tok a l r ss ps])
def postO (t : Bool) : Option Node → Option (List Node)
  | none => if t then some [] else none
  | some n => post n
def postL : List Node → Option (List Node)
  | [] => some []
  | n :: ns => inRow [post n, postL ns]
end

/-! ### Trees as the parser makes them -/

/-- A field with one node: there if it is visited without a test, not there if it is not visited. -/
def okO (op : Op) (x : Fld) (o : Option Node) : Bool :=
  if x ∈ walk op then tested op x || o.isSome else o.isNone

/-- A field with a list: empty if it is not visited, apart from the type parameters of structures and enumerations. -/
def okL (op : Op) (x : Fld) (ns : List Node) : Bool :=
  x ∈ walk op || ns.isEmpty || (x == .params && (op == .structDcl || op == .enumDcl))

mutual
def shaped : Node → Bool
  | .mk op _ _ l r ss ps =>
    (okO op .left l && (okO op .right r && (okL op .stmts ss && okL op .params ps))) &&
      (shapedO l && (shapedO r && (shapedL ss && (op == .structDcl || (op == .enumDcl || shapedL ps)))))
def shapedO : Option Node → Bool
  | none => true
  | some n => shaped n
def shapedL : List Node → Bool
  | [] => true
  | n :: ns => shaped n && shapedL ns
end

theorem shapedL_append (a b : List Node) : shapedL (a ++ b) = (shapedL a && shapedL b) := by
  induction a with
  | nil => simp [shapedL]
  | cons x a ih => simp [shapedL, ih, Bool.and_assoc]

mutual
theorem CTy.shaped : (t : CTy) → Parse.shaped t.node = true
  | .named t => by simp [CTy.node, nd, Parse.shaped, okO, okL, walk, shapedO, shapedL, tested]
  | .gen t lg ts _ => by simp [CTy.node, nd, Parse.shaped, okO, okL, walk, shapedO, shapedL, tested, CTys.shaped ts]
  | .arr lb _ e => by simp [CTy.node, nd, Parse.shaped, okO, okL, walk, shapedO, shapedL, tested, CTy.shaped e]
  | .fn0 f _ ts _ => by simp [CTy.node, nd, Parse.shaped, okO, okL, walk, shapedO, shapedL, tested, CTys.shaped ts]
  | .fn1 f _ ts _ r => by simp [CTy.node, nd, Parse.shaped, okO, okL, walk, shapedO, shapedL, tested, CTys.shaped ts, CTy.shaped r]
theorem CTys.shaped : (ts : CTys) → shapedL ts.nodes = true
  | .nil => by simp [CTys.nodes, shapedL]
  | .one t => by simp [CTys.nodes, shapedL, CTy.shaped t]
  | .more t _ r => by simp [CTys.nodes, shapedL, CTy.shaped t, CTys.shaped r]
end

theorem CParam.shaped (p : CParam) : Parse.shaped p.node = true := by
  simp [CParam.node, nd, Parse.shaped, okO, okL, walk, shapedO, shapedL, tested, CTy.shaped]

theorem CParams.shaped : (ps : CParams) → shapedL ps.nodes = true
  | .nil => by simp [CParams.nodes, shapedL]
  | .one t => by simp [CParams.nodes, shapedL, CParam.shaped t]
  | .more t _ r => by simp [CParams.nodes, shapedL, CParam.shaped t, CParams.shaped r]

theorem CIds.shaped : (ps : CIds) → shapedL ps.nodes = true
  | .nil => by simp [CIds.nodes, shapedL]
  | .one t => by simp [CIds.nodes, shapedL, nd, Parse.shaped, okO, okL, walk, shapedO, tested]
  | .more t _ r => by simp [CIds.nodes, shapedL, nd, Parse.shaped, okO, okL, walk, shapedO, tested, CIds.shaped r]

theorem CTps.shaped : (ps : CTps) → shapedO ps.node = true
  | .none => by simp [CTps.node, shapedO]
  | .some _ ts _ => by simp [CTps.node, shapedL, nd, Parse.shaped, okO, okL, walk, shapedO, CTys.shaped]

theorem CRet.shaped : (r : CRet) → shapedO r.node = true
  | .none => by simp [CRet.node, shapedO]
  | .some t => by simp [CRet.node, shapedO, CTy.shaped]

/-- Functions. -/
theorem CSig.shaped (g : CSig) {op : Op} (hop : op = .blockFnDcl ∨ op = .exprFnDcl ∨ op = .externFnDcl) (a : Attrs) (id : Token)
    {ss : List Node} (h : shapedL ss = true) : Parse.shaped (g.node op a id ss) = true := by
  rcases hop with rfl | rfl | rfl <;>
    simp [CSig.node, nd, Parse.shaped, okO, okL, walk, tested, CTps.shaped, CRet.shaped, CParams.shaped, h]

theorem un_shaped {t : Token} (h : binds1 t.kind ≠ 0) {n : Node} (hn : shaped n = true) : shaped (nd (unOp t.kind) t (left := some n)) = true := by
  revert h
  cases t.kind <;> simp [binds1] <;> simp [unOp, nd, shaped, okO, okL, walk, tested, shapedO, shapedL, hn]

theorem bin_shaped {t : Token} (h : isBinary t.kind = true) {n m : Node} (hn : shaped n = true) (hm : shaped m = true) :
    shaped (nd (binOp t.kind) t (left := some n) (right := some m)) = true := by
  revert h
  cases t.kind <;> simp [isBinary] <;> simp [binOp, nd, shaped, okO, okL, walk, tested, shapedO, shapedL, hn, hm]

mutual
theorem CE.shaped : (e : CE) → e.Wf → Parse.shaped e.node = true
  | .ident t, _ => by simp [CE.node, nd, Parse.shaped, okO, okL, walk, shapedO, shapedL, tested]
  | .lit t, _ => by simp [CE.node, nd, Parse.shaped, okO, okL, walk, shapedO, shapedL]
  | .paren _ e _, h => by rw [CE.node]; rw [CE.Wf] at h; exact CE.shaped e h.2.1
  | .un t e, h => by rw [CE.node]; rw [CE.Wf] at h; exact un_shaped h.1 (CE.shaped e h.2.1)
  | .bin l t r, h => by rw [CE.node]; rw [CE.Wf] at h; exact bin_shaped h.2.1 (CE.shaped l h.1) (CE.shaped r h.2.2.1)
  | .tern c q a _ b, h => by
    rw [CE.Wf] at h
    simp [CE.node, nd, Parse.shaped, okO, okL, walk, shapedO, shapedL, CE.shaped c h.1, CE.shaped a h.2.2.2.1, CE.shaped b h.2.2.2.2.2]
  | .call f lp as _, h => by
    rw [CE.Wf] at h
    simp [CE.node, nd, Parse.shaped, okO, okL, walk, shapedO, shapedL, CE.shaped f h.1, CEs.shaped as h.2.2.2.1]
  | .tcall f lg ts _ _ as _, h => by
    rw [CE.Wf] at h
    simp [CE.node, nd, Parse.shaped, okO, okL, walk, shapedO, CE.shaped f h.1, CEs.shaped as h.2.2.2.2.2.2.1, CTys.shaped ts]
  | .index a lb i _, h => by
    rw [CE.Wf] at h
    simp [CE.node, nd, Parse.shaped, okO, okL, walk, shapedO, shapedL, CE.shaped a h.1, CE.shaped i h.2.2.2.1]
  | .arr lb es _, h => by
    rw [CE.Wf] at h
    simp [CE.node, nd, Parse.shaped, okO, okL, walk, shapedO, shapedL, tested, CEs.shaped es h.2.1]
  | .typ _ _ ty _, _ => by rw [CE.node]; exact CTy.shaped ty
  | .lamB f g _ ss _, h => by
    rw [CE.node]; rw [CE.Wf] at h; exact CSig.shaped g (.inl rfl) _ _ (CSs.shaped ss _ h.2.2.2.1)
  | .lamE f g _ e, h => by
    rw [CE.node]; rw [CE.Wf] at h; exact CSig.shaped g (.inr (.inl rfl)) _ _ (by simp [shapedL, CE.shaped e h.2.2.2])
theorem CEs.shaped : (es : CEs) → es.Wf → shapedL es.nodes = true
  | .nil, _ => by simp [CEs.nodes, shapedL]
  | .one e, h => by rw [CEs.Wf] at h; simp [CEs.nodes, shapedL, CE.shaped e h]
  | .more e _ r, h => by rw [CEs.Wf] at h; simp [CEs.nodes, shapedL, CE.shaped e h.1, CEs.shaped r h.2.2.2]
theorem CS.shaped : (s : CS) → (k : Kind) → s.Wf k → Parse.shaped s.node = true
  | .ret0 t, _, _ => by simp [CS.node, nd, Parse.shaped, okO, okL, walk, shapedO, shapedL, tested]
  | .ret1 t e, _, h => by
    rw [CS.Wf] at h
    simp [CS.node, nd, Parse.shaped, okO, okL, walk, shapedO, shapedL, tested, CE.shaped e h.2.1]
  | .while_ t e _ ss _, _, h => by
    rw [CS.Wf] at h
    simp [CS.node, nd, Parse.shaped, okO, okL, walk, shapedO, shapedL, CE.shaped e h.2.1, CSs.shaped ss _ h.2.2.2.1]
  | .for_ t x _ e _ ss _, _, h => by
    rw [CS.Wf] at h
    simp [CS.node, nd, Parse.shaped, okO, okL, walk, shapedO, shapedL, tested, CE.shaped e h.2.2.2.1, CSs.shaped ss _ h.2.2.2.2.2.1]
  | .forR t x _ e d e' _ ss _, _, h => by
    rw [CS.Wf] at h
    simp [CS.node, nd, Parse.shaped, okO, okL, walk, shapedO, shapedL, tested, CE.shaped e h.2.2.2.1, CE.shaped e' h.2.2.2.2.2.1,
      CSs.shaped ss _ h.2.2.2.2.2.2.2.1]
  | .if_ t e _ ss _ r, k, h => by
    rw [CS.Wf] at h
    simp [CS.node, nd, Parse.shaped, okO, okL, walk, shapedO, shapedL, tested, CE.shaped e h.2.1, CSs.shaped ss _ h.2.2.2.1,
      CIf.shaped r k h.2.2.2.2.2]
  | .expr e, _, h => by rw [CS.node]; rw [CS.Wf] at h; exact CE.shaped e h.1
  | .asg e t v, _, h => by
    rw [CS.Wf] at h
    simp [CS.node, nd, Parse.shaped, okO, okL, walk, shapedO, shapedL, CE.shaped e h.1, CE.shaped v h.2.2.2.1]
  | .das e t v, _, h => by
    rw [CS.Wf] at h
    simp [CS.node, nd, Parse.shaped, okO, okL, walk, shapedO, shapedL, CE.shaped e h.1, CE.shaped v h.2.2.2.1]
  | .match_ t e _ cs _, _, h => by
    rw [CS.Wf] at h
    simp [CS.node, nd, Parse.shaped, okO, okL, walk, shapedO, shapedL, CE.shaped e h.2.1, CCs.shaped cs h.2.2.2.1]
theorem CSs.shaped : (ss : CSs) → (k : Kind) → ss.Wf k → shapedL ss.nodes = true
  | .nil, _, _ => by simp [CSs.nodes, shapedL]
  | .cons s r, k, h => by rw [CSs.Wf] at h; simp [CSs.nodes, shapedL, CS.shaped s _ h.1, CSs.shaped r k h.2]
theorem CIf.shaped : (r : CIf) → (k : Kind) → r.Wf k → shapedO r.node = true
  | .nil, _, _ => by simp [CIf.node, shapedO]
  | .elif t e _ ss _ r, k, h => by
    rw [CIf.Wf] at h
    simp [CIf.node, nd, Parse.shaped, okO, okL, walk, shapedO, shapedL, tested, CE.shaped e h.2.1, CSs.shaped ss _ h.2.2.2.1,
      CIf.shaped r k h.2.2.2.2.2]
  | .els t _ ss _, _, h => by
    rw [CIf.Wf] at h
    simp [CIf.node, nd, Parse.shaped, okO, okL, walk, shapedO, shapedL, CSs.shaped ss _ h.2.2.1]
theorem CCs.shaped : (cs : CCs) → cs.Wf → shapedL cs.nodes = true
  | .nil, _ => by simp [CCs.nodes, shapedL]
  | .cons _ id _ ids _ _ ss r, h => by
    rw [CCs.Wf] at h
    simp [CCs.nodes, nd, Parse.shaped, okO, okL, walk, shapedO, shapedL, CIds.shaped ids, CSs.shaped ss _ h.2.2.2.2.2.2.1,
      CCs.shaped r h.2.2.2.2.2.2.2]
end

theorem CFields.shaped : (fs : CFields) → shapedL fs.nodes = true
  | .nil => by simp [CFields.nodes, shapedL]
  | .cons p r => by simp [CFields.nodes, shapedL, CParam.shaped, CFields.shaped r]

theorem CCons.shaped (id : Token) : (cs : CCons) → shapedL (cs.nodes id) = true
  | .nil => by simp [CCons.nodes, shapedL]
  | .cons t _ ps _ r => by
    simp [CCons.nodes, shapedL, nd, Parse.shaped, okO, okL, walk, shapedO, tested, CParams.shaped, CCons.shaped id r]

theorem CD.shaped : (d : CD) → (k : Kind) → d.Wf k → Parse.shaped d.node = true
  | .fnB a f id g lb ss rb, _, h => by
    rw [CD.node]; rw [CD.Wf] at h; exact CSig.shaped g (.inl rfl) _ _ (CSs.shaped ss _ h.2.2.2.2.2.1)
  | .fnE a f id g eq e, _, h => by
    rw [CD.node]; rw [CD.Wf] at h; exact CSig.shaped g (.inr (.inl rfl)) _ _ (by simp [shapedL, CE.shaped e h.2.2.2.2.2.1])
  | .fnX a f id g, _, _ => by rw [CD.node]; exact CSig.shaped g (.inr (.inr rfl)) _ _ (by simp [shapedL])
  | .struct a t id tps lb fs rb, _, _ => by
    simp [CD.node, nd, Parse.shaped, okO, okL, walk, shapedO, CFields.shaped]
  | .enum a t id tps lb cs rb, _, _ => by
    simp [CD.node, nd, Parse.shaped, okO, okL, walk, shapedO, CCons.shaped]

theorem file_shaped : (ds : List CD) → (k : Kind) → FileWf ds k → shapedL (ds.map CD.node) = true
  | [], _, _ => by simp [shapedL]
  | d :: r, k, h => by rw [FileWf] at h; simp [shapedL, CD.shaped d _ h.1, file_shaped r k h.2]

end Clara.Parse
