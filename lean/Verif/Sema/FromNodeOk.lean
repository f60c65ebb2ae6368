import Verif.Sema.FromNode
import Verif.Sema.CheckStmt
import Verif.Parse.Grammar
import Verif.Sema.DeclareSpec
set_option linter.unusedVariables false
set_option linter.unusedSimpArgs false
/-
The phases after the parser have a case for every node of a program of the grammar, and what they get has not been
checked before.
-/
namespace Clara.Sema.Front
open Clara.Parse Clara.Lex
open Clara.Sema.Chk (X S Ch Case TyN Head LitK rawL rawB rawC)
open Clara.Sema.Dcl (Dcl FnDcl Identified)
open Clara.Sema.Lit (fold foldO foldL walk negLit)

/-- The node as `foldConstants` leaves it. -/
def fd (n : Node) : Node := (fold n).1
def fds (ns : List Node) : List Node := (foldL ns).1
def fdo (n : Option Node) : Option Node := (foldO n).1

theorem fds_nil : fds [] = [] := rfl
theorem fds_cons (n : Node) (ns : List Node) : fds (n :: ns) = fd n :: fds ns := rfl
theorem fdo_none : fdo none = none := rfl
theorem fdo_some (n : Node) : fdo (some n) = some (fd n) := rfl

/-- Folding leaves a node alone, apart from its children, unless it is a negated literal. -/
theorem fd_nd {op : Op} {t : Token} {l r : Option Node} {ss ps : List Node} {a : Attrs} (h : negLit op l = none) :
    fd (nd op t l r ss ps a) = .mk op t a (if .left ∈ walk op then fdo l else l) (if .right ∈ walk op then fdo r else r)
      (if .stmts ∈ walk op then fds ss else ss) (if .params ∈ walk op then fds ps else ps) := by
  simp only [fd, nd, fold, h]
  split <;> split <;> split <;> split <;> rfl

theorem fd_neg {op : Op} {t t' : Token} {l : Option Node} (h : negLit op l = some t') : fd (nd op t l) = nd .lit t' := by
  simp only [fd, nd, fold, h]

/-- `fd` on a node whose kind is known. -/
macro "fold_node" : tactic => `(tactic| (
  simp only [fd_nd (op := .namedType) rfl, fd_nd (op := .typeList) rfl, fd_nd (op := .arrayType) rfl, fd_nd (op := .funcType) rfl, fd_nd (op := .identifier) rfl,
    fd_nd (op := .lit) rfl, fd_nd (op := .ternary) rfl, fd_nd (op := .funcCall) rfl, fd_nd (op := .array) rfl, fd_nd (op := .arrayLit) rfl,
    fd_nd (op := .blockFnDcl) rfl, fd_nd (op := .exprFnDcl) rfl, fd_nd (op := .externFnDcl) rfl, fd_nd (op := .consFnDcl) rfl, fd_nd (op := .ret) rfl, fd_nd (op := .while_) rfl,
    fd_nd (op := .for_) rfl, fd_nd (op := .range) rfl, fd_nd (op := .if_) rfl, fd_nd (op := .elseif) rfl, fd_nd (op := .else_) rfl, fd_nd (op := .as_) rfl,
    fd_nd (op := .das) rfl, fd_nd (op := .match_) rfl, fd_nd (op := .case_) rfl, fd_nd (op := .structDcl) rfl, fd_nd (op := .enumDcl) rfl,
    walk, List.mem_cons, List.mem_singleton, if_true, reduceCtorEq, or_false, or_true, false_or, if_false, List.not_mem_nil, fdo_none, fdo_some, fds_nil, fds_cons]))

mutual
theorem toTy_ok : ∀ (c : CTy), ∃ t, toTy (fd c.node) = some t
  | .named t => ⟨_, rfl⟩
  | .gen t lg ts rg => by
    obtain ⟨us, h⟩ := toTys_ok ts
    exact ⟨.named (text t.val) true us, by rw [CTy.node]; fold_node; simp [toTy, h]⟩
  | .arr lb rb e => by
    obtain ⟨u, h⟩ := toTy_ok e
    exact ⟨.array u, by rw [CTy.node]; fold_node; simp [toTy, h]⟩
  | .fn0 f lp ts rp => by
    obtain ⟨us, h⟩ := toTys_ok ts
    exact ⟨.func us, by rw [CTy.node]; fold_node; simp [toTy, h]⟩
  | .fn1 f lp ts rp r => by
    obtain ⟨us, h⟩ := toTys_ok ts
    obtain ⟨u, h'⟩ := toTy_ok r
    exact ⟨.funcR us u, by rw [CTy.node]; fold_node; simp [toTy, h, h']⟩
theorem toTys_ok : ∀ (c : CTys), ∃ ts, toTys (fds c.nodes) = some ts
  | .nil => ⟨_, rfl⟩
  | .one t => by
    obtain ⟨u, h⟩ := toTy_ok t
    exact ⟨[u], by simp [CTys.nodes, fds_cons, fds_nil, toTys, h]⟩
  | .more t c r => by
    obtain ⟨u, h⟩ := toTy_ok t
    obtain ⟨us, h'⟩ := toTys_ok r
    exact ⟨u :: us, by simp [CTys.nodes, fds_cons, fds_nil, toTys, h, h']⟩
end

theorem toParam_ok (p : CParam) (ns : List Node) {ps : List (String × TyN)} (h : toParams (fds ns) = some ps) :
    ∃ t, toParams (fds (p.node :: ns)) = some ((text p.name.val, t) :: ps) := by
  obtain ⟨t, ht⟩ := toTy_ok p.ty
  exact ⟨t, by rw [CParam.node]; fold_node; simp [toParams, ht, h]⟩

theorem toParams_ok : ∀ (c : CParams), ∃ ps, toParams (fds c.nodes) = some ps
  | .nil => ⟨_, rfl⟩
  | .one p => by obtain ⟨t, h⟩ := toParam_ok p [] rfl; exact ⟨_, h⟩
  | .more p _ r => by
    obtain ⟨ps, h⟩ := toParams_ok r
    obtain ⟨t, h⟩ := toParam_ok p _ h
    exact ⟨_, h⟩

theorem toFields_ok : ∀ (c : CFields), ∃ ps, toParams (fds c.nodes) = some ps
  | .nil => ⟨_, rfl⟩
  | .cons p r => by
    obtain ⟨ps, h⟩ := toFields_ok r
    obtain ⟨t, h⟩ := toParam_ok p _ h
    exact ⟨_, h⟩

theorem toHead_ok (k : Nat) (g : CSig) : ∃ h, toHead k (fds g.ps.nodes) (fdo g.ret.node) (fdo g.tps.node) = some h := by
  obtain ⟨ps, h⟩ := toParams_ok g.ps
  cases hr : g.ret with
  | none => exact ⟨_, by simp [toHead, h, CRet.node, fdo_none, fdo_some]; rfl⟩
  | some t =>
    obtain ⟨u, hu⟩ := toTy_ok t
    exact ⟨_, by simp [toHead, h, CRet.node, fdo_none, fdo_some, hu]; rfl⟩

theorem asX_some {r : Option (S × Nat)} {x : X} {k : Nat} (h : r = some (.expr x, k)) : asX r = some (x, k) := by rw [h]; rfl

theorem toLit_ok {t : Token} (h : isLit t.kind = true) : ∃ v, toLit t = some v := by
  unfold isLit at h
  unfold toLit
  split at h <;> simp_all

theorem opX_raw {o : OpX} {l r : X} (hl : l.raw) (hr : r.raw) : (o.mk l r).raw := by
  cases o <;> simp [OpX.mk, X.raw, hl, hr]

theorem binOp_ok {k : Kind} (h : isBinary k = true) : ∃ o, opX (binOp k) = some o ∧ (walk (binOp k) = [.left, .right]) ∧
    ∀ l, negLit (binOp k) l = none := by
  unfold isBinary at h
  split at h <;> first | exact absurd h (by decide) | exact ⟨_, rfl, rfl, fun l => rfl⟩

/-- `toS` on an operator with two operands. -/
theorem toS_bin {op : Op} {o : OpX} {t : Token} {a : Attrs} {l r : Node} {ss ps : List Node} {k k1 k2 : Nat} {x y : X} (ho : opX op = some o)
    (hl : asX (toS k l) = some (x, k1)) (hr : asX (toS k1 r) = some (y, k2)) :
    toS k (.mk op t a (some l) (some r) ss ps) = some (.expr (o.mk x y), k2) := by
  cases op <;> simp [opX] at ho <;> subst ho <;> simp [toS, opX, hl, hr]

mutual
theorem toX_ok : ∀ (c : CE), c.Wf → ∀ k, ∃ x k', toS k (fd c.node) = some (.expr x, k') ∧ x.raw
  | .ident t, h, k => ⟨_, _, rfl, rfl⟩
  | .lit t, h, k => by
    obtain ⟨v, hv⟩ := toLit_ok h
    exact ⟨.lit v {}, k, by rw [CE.node]; fold_node; simp [toS, hv], rfl⟩
  | .paren _ e _, h, k => toX_ok e h.2.1 k
  | .un t e, h, k => by
    obtain ⟨h1, h2, h3⟩ := h
    obtain ⟨x, k', hx, hr⟩ := toX_ok e h2 k
    cases hn : negLit (unOp t.kind) (some e.node) with
    | some t' =>
      have ht : ∃ v, toLit t' = some v := by
        unfold negLit at hn
        split at hn
        · rename_i u _ _ _ _ _ _ _
          split at hn
          · rename_i hk
            cases hn
            exact toLit_ok (by show isLit u.kind = true; rw [hk]; rfl)
          · cases hn
        · cases hn
      obtain ⟨v, hv⟩ := ht
      exact ⟨.lit v {}, k, by rw [CE.node, fd_neg hn]; simp [nd, toS, hv], rfl⟩
    | none =>
      have : ∃ o, opU (unOp t.kind) = some o ∧ walk (unOp t.kind) = [.left] ∧ opX (unOp t.kind) = none := by
        unfold binds1 at h1
        split at h1
        · rename_i hk; rw [hk]; exact ⟨_, rfl, rfl, rfl⟩
        · rename_i hk; rw [hk]; exact ⟨_, rfl, rfl, rfl⟩
        · rename_i hk; rw [hk]; exact ⟨_, rfl, rfl, rfl⟩
        · exact absurd rfl h1
      obtain ⟨o, ho, hw, _⟩ := this
      refine ⟨.un o x {}, k', ?_, hr, rfl⟩
      rw [CE.node, fd_nd hn, hw]
      simp only [List.mem_singleton, if_true, reduceCtorEq, if_false, fdo_some, fdo_none, fds_nil]
      generalize unOp t.kind = op at ho
      cases op <;> simp [opU] at ho <;> subst ho <;> simp [toS, opX, opU, asX_some hx]
  | .bin l t r, h, k => by
    obtain ⟨h1, h2, h3, _⟩ := h
    obtain ⟨x, k1, hx, rx⟩ := toX_ok l h1 k
    obtain ⟨y, k2, hy, ry⟩ := toX_ok r h3 k1
    obtain ⟨o, ho, hw, hn⟩ := binOp_ok h2
    refine ⟨o.mk x y, k2, ?_, opX_raw rx ry⟩
    rw [CE.node, fd_nd (hn _), hw]
    simp only [List.mem_cons, List.mem_singleton, if_true, reduceCtorEq, or_false, or_true, if_false, fdo_some, fdo_none, fds_nil, List.not_mem_nil]
    exact toS_bin ho (asX_some hx) (asX_some hy)
  | .tern c q a co b, h, k => by
    obtain ⟨h1, _, _, h2, _, h3⟩ := h
    obtain ⟨x, k1, hx, rx⟩ := toX_ok c h1 k
    obtain ⟨y, k2, hy, ry⟩ := toX_ok a h2 k1
    obtain ⟨z, k3, hz, rz⟩ := toX_ok b h3 k2
    refine ⟨.tern x y z {}, k3, ?_, rx, ry, rz, rfl⟩
    rw [CE.node]
    fold_node
    simp [fds_cons, fds_nil, toS, asX_some hx, asX_some hy, asX_some hz]
  | .call f lp as rp, h, k => by
    obtain ⟨h1, _, _, h2, _⟩ := h
    obtain ⟨x, k1, hx, rx⟩ := toX_ok f h1 k
    obtain ⟨xs, k2, hxs, rxs⟩ := toXs_ok as h2 k1
    refine ⟨.call x [] xs {}, k2, ?_, rx, rxs, rfl⟩
    rw [CE.node]
    fold_node
    simp [toS, toTys, fds_cons, fds_nil, asX_some hx, hxs]
  | .tcall f lg ts rg lp as rp, h, k => by
    obtain ⟨h1, _, _, _, _, _, h2, _⟩ := h
    obtain ⟨x, k1, hx, rx⟩ := toX_ok f h1 k
    obtain ⟨xs, k2, hxs, rxs⟩ := toXs_ok as h2 k1
    obtain ⟨us, hus⟩ := toTys_ok ts
    refine ⟨.call x us xs {}, k2, ?_, rx, rxs, rfl⟩
    rw [CE.node]
    fold_node
    simp [toS, hus, asX_some hx, hxs]
  | .index a lb i rb, h, k => by
    obtain ⟨h1, _, _, h2, _⟩ := h
    obtain ⟨x, k1, hx, rx⟩ := toX_ok a h1 k
    obtain ⟨y, k2, hy, ry⟩ := toX_ok i h2 k1
    refine ⟨.index x y {}, k2, ?_, rx, ry, rfl⟩
    rw [CE.node]
    fold_node
    exact toS_bin (o := .index) rfl (asX_some hx) (asX_some hy)
  | .arr lb es rb, h, k => by
    obtain ⟨xs, k2, hxs, rxs⟩ := toXs_ok es h.2.1 k
    refine ⟨.arr xs {}, k2, ?_, rxs, rfl⟩
    rw [CE.node]
    fold_node
    simp [toS, hxs]
  | .typ t lp ty rp, h, k => by
    obtain ⟨u, hu⟩ := toTy_ok ty
    refine ⟨.ty u {}, k, ?_, rfl⟩
    rw [CE.node]
    rcases hn : fd ty.node with ⟨op, t, a, l, r, ss, ps⟩
    rw [hn] at hu
    cases op <;> first | (simp [toTy] at hu; done) | simp [toS, hu]
  | .lamB f g lb ss rb, h, k => by
    obtain ⟨_, _, _, h1, _⟩ := h
    obtain ⟨hd, hh⟩ := toHead_ok k g
    obtain ⟨b, k2, hb, rb⟩ := toB_ok ss _ h1 (k + hd.tps.length)
    refine ⟨.fnB hd none b {}, k2, ?_, rfl, rb, rfl⟩
    rw [CE.node, CSig.node]
    fold_node
    simp [toS, hh, hb]
  | .lamE f g a e, h, k => by
    obtain ⟨_, _, _, h1⟩ := h
    obtain ⟨hd, hh⟩ := toHead_ok k g
    obtain ⟨x, k2, hb, rb⟩ := toX_ok e h1 (k + hd.tps.length)
    refine ⟨.fnE hd none x {}, k2, ?_, rfl, rb, rfl⟩
    rw [CE.node, CSig.node]
    fold_node
    simp [toS, hh, fds_cons, fds_nil, asX_some hb]
theorem toXs_ok : ∀ (c : CEs), c.Wf → ∀ k, ∃ xs k', toXs k (fds c.nodes) = some (xs, k') ∧ rawL xs
  | .nil, h, k => ⟨[], k, rfl, trivial⟩
  | .one e, h, k => by
    obtain ⟨x, k1, hx, rx⟩ := toX_ok e h k
    exact ⟨[x], k1, by simp [CEs.nodes, fds_cons, fds_nil, toXs, asX_some hx], rx, trivial⟩
  | .more e c r, h, k => by
    obtain ⟨h1, _, _, h2⟩ := h
    obtain ⟨x, k1, hx, rx⟩ := toX_ok e h1 k
    obtain ⟨xs, k2, hxs, rxs⟩ := toXs_ok r h2 k1
    exact ⟨x :: xs, k2, by simp [CEs.nodes, fds_cons, fds_nil, toXs, asX_some hx, hxs], rx, rxs⟩
theorem toS_ok : ∀ (c : CS) (q : Kind), c.Wf q → ∀ k, ∃ s k', toS k (fd c.node) = some (s, k') ∧ s.raw
  | .ret0 t, q, h, k => ⟨.ret0, k, rfl, trivial⟩
  | .ret1 t e, q, h, k => by
    obtain ⟨_, h1, _⟩ := h
    obtain ⟨x, k1, hx, rx⟩ := toX_ok e h1 k
    refine ⟨.ret x, k1, ?_, rx⟩
    rw [CS.node]
    fold_node
    simp [toS, asX_some hx]
  | .while_ t e lb ss rb, q, h, k => by
    obtain ⟨_, h1, _, h2, _⟩ := h
    obtain ⟨x, k1, hx, rx⟩ := toX_ok e h1 k
    obtain ⟨b, k2, hb, rb⟩ := toB_ok ss _ h2 k1
    refine ⟨.loop x b, k2, ?_, rx, rb⟩
    rw [CS.node]
    fold_node
    simp [toS, asX_some hx, hb]
  | .for_ t x i e lb ss rb, q, h, k => by
    obtain ⟨_, _, _, h1, _, h2, _⟩ := h
    obtain ⟨x', k1, hx, rx⟩ := toX_ok e h1 k
    obtain ⟨b, k2, hb, rb⟩ := toB_ok ss _ h2 k1
    refine ⟨.for_ (text x.val) {} x' b, k2, ?_, rx, rb, rfl⟩
    rw [CS.node]
    fold_node
    simp [toS, asX_some hx, hb, Node.tok]
  | .forR t x i e d e' lb ss rb, q, h, k => by
    obtain ⟨_, _, _, h1, _, h1', _, h2, _⟩ := h
    obtain ⟨x', k1, hx, rx⟩ := toX_ok e h1 k
    obtain ⟨y', k2, hy, ry⟩ := toX_ok e' h1' k1
    obtain ⟨b, k3, hb, rb⟩ := toB_ok ss _ h2 k2
    refine ⟨.for_ (text x.val) {} (.bin .range x' y' {}) b, k3, ?_, ⟨rx, ry, rfl⟩, rb, rfl⟩
    have hr : toS k (fd (nd .range d (left := some e.node) (right := some e'.node))) = some (.expr (.bin .range x' y' {}), k2) := by
      fold_node
      exact toS_bin (o := .bin .range) rfl (asX_some hx) (asX_some hy)
    rw [CS.node]
    have e1 : fd (nd .for_ t (left := some (nd .identifier x)) (right := some (nd .range d (left := some e.node) (right := some e'.node))) (stmts := ss.nodes)) =
        .mk .for_ t {} (some (nd .identifier x)) (some (fd (nd .range d (left := some e.node) (right := some e'.node)))) (fds ss.nodes) [] := by
      rw [fd_nd (op := .for_) rfl]; rfl
    rw [e1]
    simp only [toS, asX_some hr, hb, Option.map_some]
    rfl
  | .if_ t e lb ss rb r, q, h, k => by
    obtain ⟨_, h1, _, h2, _, h3⟩ := h
    obtain ⟨x, k1, hx, rx⟩ := toX_ok e h1 k
    obtain ⟨b, k2, hb, rb⟩ := toB_ok ss _ h2 k1
    obtain ⟨c, k3, hc, rc⟩ := toCh_ok r _ h3 k2
    refine ⟨.ifs (.cond x b c), k3, ?_, rx, rb, rc⟩
    rw [CS.node]
    fold_node
    simp [toS, asX_some hx, hb, hc]
  | .expr e, q, h, k => by
    obtain ⟨x, k1, hx, rx⟩ := toX_ok e h.1 k
    exact ⟨_, k1, hx, rx⟩
  | .asg e t v, q, h, k => by
    obtain ⟨h1, _, _, h2, _⟩ := h
    obtain ⟨x, k1, hx, rx⟩ := toX_ok e h1 k
    obtain ⟨y, k2, hy, ry⟩ := toX_ok v h2 k1
    refine ⟨.asg x y, k2, ?_, rx, ry⟩
    rw [CS.node]
    fold_node
    simp [toS, asX_some hx, asX_some hy]
  | .das e t v, q, h, k => by
    obtain ⟨h1, _, _, h2, _⟩ := h
    obtain ⟨x, k1, hx, rx⟩ := toX_ok e h1 k
    obtain ⟨y, k2, hy, ry⟩ := toX_ok v h2 k1
    refine ⟨.das x y, k2, ?_, rx, ry⟩
    rw [CS.node]
    fold_node
    simp [toS, asX_some hx, asX_some hy]
  | .match_ t e lb cs rb, q, h, k => by
    obtain ⟨_, h1, _, h2, _⟩ := h
    obtain ⟨x, k1, hx, rx⟩ := toX_ok e h1 k
    obtain ⟨ys, k2, hy, ry⟩ := toCs_ok cs h2 k1
    refine ⟨.match_ x ys, k2, ?_, rx, ry⟩
    rw [CS.node]
    fold_node
    simp [toS, asX_some hx, hy]
theorem toB_ok : ∀ (c : CSs) (q : Kind), c.Wf q → ∀ k, ∃ b k', toB k (fds c.nodes) = some (b, k') ∧ rawB b
  | .nil, q, h, k => ⟨[], k, rfl, trivial⟩
  | .cons s r, q, h, k => by
    obtain ⟨h1, h2⟩ := h
    obtain ⟨x, k1, hx, rx⟩ := toS_ok s _ h1 k
    obtain ⟨b, k2, hb, rb⟩ := toB_ok r _ h2 k1
    exact ⟨x :: b, k2, by simp [CSs.nodes, fds_cons, fds_nil, toB, hx, hb], rx, rb⟩
theorem toCh_ok : ∀ (c : CIf) (q : Kind), c.Wf q → ∀ k, ∃ x k', toCh k (fdo c.node) = some (x, k') ∧ x.raw
  | .nil, q, h, k => ⟨.done, k, rfl, trivial⟩
  | .elif t e lb ss rb r, q, h, k => by
    obtain ⟨_, h1, _, h2, _, h3⟩ := h
    obtain ⟨x, k1, hx, rx⟩ := toX_ok e h1 k
    obtain ⟨b, k2, hb, rb⟩ := toB_ok ss _ h2 k1
    obtain ⟨c, k3, hc, rc⟩ := toCh_ok r _ h3 k2
    refine ⟨.cond x b c, k3, ?_, rx, rb, rc⟩
    simp only [CIf.node, fdo_some]
    fold_node
    simp [toCh, asX_some hx, hb, hc]
  | .els t lb ss rb, q, h, k => by
    obtain ⟨_, _, h2, _⟩ := h
    obtain ⟨b, k2, hb, rb⟩ := toB_ok ss _ h2 k
    refine ⟨.els b, k2, ?_, rb⟩
    simp only [CIf.node, fdo_some]
    fold_node
    simp [toCh, hb]
theorem toCs_ok : ∀ (c : CCs), c.Wf → ∀ k, ∃ cs k', toCs k (fds c.nodes) = some (cs, k') ∧ rawC cs
  | .nil, h, k => ⟨[], k, rfl, trivial⟩
  | .cons c id lp ids rp co ss r, h, k => by
    obtain ⟨_, _, _, _, _, _, h1, h2⟩ := h
    obtain ⟨b, k1, hb, rb⟩ := toB_ok ss _ h1 k
    obtain ⟨cs, k2, hcs, rcs⟩ := toCs_ok r h2 k1
    refine ⟨.mk (text id.val) none (toVars (fds ids.nodes)) b :: cs, k2, ?_, ⟨rfl, rb⟩, rcs⟩
    simp only [CCs.nodes]
    fold_node
    simp [toCs, hb, hcs]
end

/-! ### Declarations -/

theorem toTps_nodup (k : Nat) (ns : List Node) : ((toTps k ns).map (·.2)).Nodup := by
  unfold toTps
  rw [List.zipIdx_map_snd]
  exact List.nodup_range'

theorem toHead_nodup {k : Nat} {ps : List Node} {l r : Option Node} {h : Head} (hh : toHead k ps l r = some h) : (h.tps.map (·.2)).Nodup := by
  unfold toHead at hh
  split at hh
  · cases hh
  · have hn : ∀ r : Option Node, (List.map (·.2) (match r with | none => [] | some n => toTps k (Node.params n) : List (String × Nat))).Nodup := by
      intro r
      cases r with
      | none => simp
      | some n => exact toTps_nodup k _
    simp only at hh
    split at hh
    · cases hh; exact hn r
    · rename_i t
      cases ht : toTy t with
      | none => rw [ht] at hh; cases hh
      | some u => rw [ht] at hh; cases hh; exact hn r

theorem toConses_ok (id : Token) : ∀ (c : CCons), ∃ cs, toConses (fds (c.nodes id)) = some cs
  | .nil => ⟨[], rfl⟩
  | .cons t lp ps rp r => by
    obtain ⟨cs, h⟩ := toConses_ok id r
    obtain ⟨us, hu⟩ := toParams_ok ps
    refine ⟨(text t.val, us) :: cs, ?_⟩
    simp only [CCons.nodes]
    fold_node
    simp [toConses, hu, h]

/-- The body of a declared function is as the parser leaves it. -/
def rawDcl : Dcl → Prop
  | .fn f => f.body.raw
  | _ => True

theorem toDcl_ok (c : CD) (q : Kind) (h : c.Wf q) (k : Nat) : ∃ d k', toDcl k (fd c.node) = some (d, k') ∧ rawDcl d ∧ (d.tps.map (·.2)).Nodup := by
  cases c with
  | fnB a f id g lb ss rb =>
    obtain ⟨_, _, _, _, _, h1, _⟩ := h
    obtain ⟨hd, hh⟩ := toHead_ok k g
    obtain ⟨b, k2, hb, rb⟩ := toB_ok ss _ h1 (k + hd.tps.length)
    refine ⟨.fn ⟨text id.val, hd, .block b, a.attrs.rawValues⟩, k2, ?_, rb, toHead_nodup hh⟩
    rw [CD.node, CSig.node]
    fold_node
    simp [toDcl, hh, hb]
  | fnE a f id g eq e =>
    obtain ⟨_, _, _, _, _, h1, _⟩ := h
    obtain ⟨hd, hh⟩ := toHead_ok k g
    obtain ⟨x, k2, hb, rb⟩ := toX_ok e h1 (k + hd.tps.length)
    refine ⟨.fn ⟨text id.val, hd, .expr x, a.attrs.rawValues⟩, k2, ?_, rb, toHead_nodup hh⟩
    rw [CD.node, CSig.node]
    fold_node
    simp [toDcl, hh, asX_some hb]
  | fnX a f id g =>
    obtain ⟨hd, hh⟩ := toHead_ok k g
    refine ⟨.fn ⟨text id.val, hd, .none_, a.attrs.rawValues⟩, k + hd.tps.length, ?_, trivial, toHead_nodup hh⟩
    rw [CD.node, CSig.node]
    fold_node
    simp [toDcl, hh]
  | struct a t id tps lb fs rb =>
    obtain ⟨us, hu⟩ := toFields_ok fs
    refine ⟨.struct (text id.val) (toTps k tps.nodes) us, k + tps.nodes.length, ?_, trivial, toTps_nodup _ _⟩
    rw [CD.node]
    fold_node
    simp [toDcl, hu]
  | enum a t id tps lb cs rb =>
    obtain ⟨us, hu⟩ := toConses_ok id cs
    refine ⟨.enum (text id.val) (toTps k tps.nodes) us, k + tps.nodes.length, ?_, trivial, toTps_nodup _ _⟩
    rw [CD.node]
    fold_node
    simp [toDcl, hu]

theorem toDcls_ok : ∀ (cs : List CD) (q : Kind), FileWf cs q → ∀ k, ∃ ds, toDcls k (fds (cs.map CD.node)) = some ds ∧ (∀ d ∈ ds, rawDcl d) ∧ Identified ds
  | [], q, h, k => ⟨[], rfl, by simp, by intro d hd; cases hd⟩
  | c :: cs, q, h, k => by
    obtain ⟨d, k1, h1, h2, h3⟩ := toDcl_ok c _ h.1 k
    obtain ⟨ds, h4, h5, h6⟩ := toDcls_ok cs q h.2 k1
    refine ⟨d :: ds, by simp [fds_cons, toDcls, h1, h4], ?_, ?_⟩
    · intro d' hd'
      rcases List.mem_cons.1 hd' with rfl | hd'
      · exact h2
      · exact h5 d' hd'
    · intro d' hd'
      rcases List.mem_cons.1 hd' with rfl | hd'
      · exact h3
      · exact h6 d' hd'

end Clara.Sema.Front
