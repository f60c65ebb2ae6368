import Verif.Parse.Complete
set_option linter.unusedVariables false
set_option linter.unusedSimpArgs false

/-!
# Writing expression trees with as few parentheses as possible

The trees, their nodes and the printer say nothing of the parser.  The printer keeps, beside the
tokens, the weakest operator outside parentheses and how strong an operator may follow without
being drawn into the last operand.
-/

namespace Clara.Parse

open Clara.Lex (Kind Token Bytes)

mutual
/-- Expression trees over identifiers, literals, unary and binary operators (field access is the
binary operator `.`), ternaries, calls, indexing and array literals.  The token is the operator, the
opening parenthesis or the opening bracket. -/
inductive ET where
  | ident (t : Token)
  | lit (t : Token)
  | un (t : Token) (e : ET)
  | bin (t : Token) (l r : ET)
  | tern (t : Token) (c a b : ET)
  | call (t : Token) (f : ET) (as : ETs)
  | index (t : Token) (a i : ET)
  | arr (t : Token) (es : ETs)
/-- Lists of trees. -/
inductive ETs where
  | nil
  | cons (e : ET) (r : ETs)
end

/-- The unary operators. -/
def isUnary : Kind → Bool
  | .not | .bnot | .min => true
  | _ => false

mutual
/-- The tokens fit the trees. -/
def ET.Valid : ET → Prop
  | .ident t => t.kind = .identifier
  | .lit t => isLit t.kind = true
  | .un t e => isUnary t.kind = true ∧ e.Valid
  | .bin t l r => isBinary t.kind = true ∧ l.Valid ∧ r.Valid
  | .tern t c a b => t.kind = .question ∧ c.Valid ∧ a.Valid ∧ b.Valid
  | .call t f as => t.kind = .lparen ∧ f.Valid ∧ as.Valid
  | .index t a i => t.kind = .lbrack ∧ a.Valid ∧ i.Valid
  | .arr t es => t.kind = .lbrack ∧ es.Valid
def ETs.Valid : ETs → Prop
  | .nil => True
  | .cons e r => e.Valid ∧ r.Valid
end

mutual
/-- The node a tree stands for. -/
def ET.node : ET → Node
  | .ident t => nd .identifier t
  | .lit t => nd .lit t
  | .un t e => nd (unOp t.kind) t (left := some e.node)
  | .bin t l r => nd (binOp t.kind) t (left := some l.node) (right := some r.node)
  | .tern t c a b => nd .ternary t (left := some c.node) (stmts := [a.node, b.node])
  | .call t f as => nd .funcCall t (left := some f.node) (stmts := as.nodes)
  | .index t a i => nd .array t (left := some a.node) (right := some i.node)
  | .arr t es => nd .arrayLit t (stmts := es.nodes)
def ETs.nodes : ETs → List Node
  | .nil => []
  | .cons e r => e.node :: r.nodes
end

/-- Tokens to write trees with. -/
structure Punct where
  lp : Token
  rp : Token
  rb : Token
  co : Token
  cm : Token
  hlp : lp.kind = .lparen
  hrp : rp.kind = .rparen
  hrb : rb.kind = .rbrack
  hco : co.kind = .colon
  hcm : cm.kind = .comma

/-- Written text with the weakest operator outside parentheses (14: none) and the strongest operator
that may follow. -/
structure Out where
  toks : List Token
  weak : Nat
  tail : Nat

/-- Put parentheses around the text unless it is fine. -/
def Out.wrap (P : Punct) (fine : Bool) (o : Out) : Out :=
  if fine then o else ⟨P.lp :: (o.toks ++ [P.rp]), 14, 14⟩

mutual
/-- Write a tree; `u` is the level of unary operators. -/
def ET.write (P : Punct) (u : Kind → Nat) : ET → Out
  | .ident t => ⟨[t], 14, 14⟩
  | .lit t => ⟨[t], 14, 14⟩
  | .un t e =>
    let o := (e.write P u)
    let o := o.wrap P (decide (u t.kind < o.weak))
    ⟨t :: o.toks, 14, min (u t.kind) o.tail⟩
  | .bin t l r =>
    let ol := l.write P u
    let ol := ol.wrap P (decide (binds t.kind ≤ ol.tail))
    let or := r.write P u
    let or := or.wrap P (decide (binds t.kind < or.weak))
    ⟨ol.toks ++ t :: or.toks, min (binds t.kind) ol.weak, min (binds t.kind) or.tail⟩
  | .tern t c a b =>
    let oc := c.write P u
    let oc := oc.wrap P (decide (1 ≤ oc.tail))
    ⟨oc.toks ++ t :: ((a.write P u).toks ++ P.co :: (b.write P u).toks), min 1 oc.weak, 0⟩
  | .call t f as =>
    let of := f.write P u
    let of := of.wrap P (decide (13 ≤ of.tail))
    ⟨of.toks ++ t :: (as.write P u ++ [P.rp]), min 13 of.weak, 14⟩
  | .index t a i =>
    let oa := a.write P u
    let oa := oa.wrap P (decide (12 ≤ oa.tail))
    ⟨oa.toks ++ t :: ((i.write P u).toks ++ [P.rb]), min 12 oa.weak, 14⟩
  | .arr t es => ⟨t :: (es.write P u ++ [P.rb]), 14, 14⟩
/-- Trees separated by commas. -/
def ETs.write (P : Punct) (u : Kind → Nat) : ETs → List Token
  | .nil => []
  | .cons e .nil => (e.write P u).toks
  | .cons e r => (e.write P u).toks ++ P.cm :: r.write P u
end

theorem ETs.write_cons2 (P : Punct) (u : Kind → Nat) (e e' : ET) (r : ETs) :
    ETs.write P u (.cons e (.cons e' r)) = (e.write P u).toks ++ P.cm :: ETs.write P u (.cons e' r) := by
  exact ETs.write.eq_3 P u e (.cons e' r) (fun h => by cases h)

/-! ## What is written is in the grammar -/

/-- `Out` as a concrete syntax tree. -/
def CE.out (c : CE) : Out := ⟨c.toks, c.top, c.edge⟩

theorem binds_lt (k : Kind) : binds k < 14 := by
  cases k <;> simp [binds]

theorem binds1_lt (k : Kind) : binds1 k < 14 := by
  cases k <;> simp [binds1]

theorem CE.top_le (c : CE) : c.top ≤ 14 := by
  cases c <;> simp only [CE.top] <;> try omega
  rename_i t _
  have := binds_lt t.kind
  omega

theorem CE.edge_le (c : CE) : c.edge ≤ 14 := by
  cases c <;> simp only [CE.edge] <;> try omega
  · rename_i t _
    have := binds1_lt t.kind
    omega
  · rename_i t _
    have := binds_lt t.kind
    omega

/-- The syntax tree `c` writes the tree `t`. -/
structure Writes (c : CE) (n : Node) (o : Out) : Prop where
  wf : c.Wf
  node : c.node = n
  out : c.out = o

theorem Writes.wrap {c : CE} {n : Node} {o : Out} (h : Writes c n o) (P : Punct) (f : Bool) :
    ∃ c', Writes c' n (o.wrap P f) := by
  cases f with
  | true => exact ⟨c, h⟩
  | false =>
    refine ⟨.paren P.lp c P.rp, ?_, ?_, ?_⟩
    · simp only [CE.Wf]
      exact ⟨P.hlp, h.wf, P.hrp⟩
    · simp only [CE.node, h.node]
    · have := h.out
      simp only [CE.out] at this
      simp [CE.out, Out.wrap, CE.toks, CE.top, CE.edge, ← this]

theorem Out.wrap_weak {P : Punct} {o : Out} {k : Nat} (hk : k < 14) :
    k < (o.wrap P (decide (k < o.weak))).weak := by
  unfold Out.wrap
  split
  · rename_i h
    simpa using h
  · exact hk

theorem Out.wrap_tail {P : Punct} {o : Out} {k : Nat} (hk : k ≤ 14) :
    k ≤ (o.wrap P (decide (k ≤ o.tail))).tail := by
  unfold Out.wrap
  split
  · rename_i h
    simpa using h
  · exact hk

theorem unary_binds1 {k : Kind} (h : isUnary k = true) : binds1 k ≠ 0 ∧ binds1 k < 14 := by
  cases k <;> simp_all [isUnary, binds1]

theorem Writes.top {c : CE} {n : Node} {o : Out} (h : Writes c n o) : c.top = o.weak := by
  rw [← h.out]; rfl
theorem Writes.edge {c : CE} {n : Node} {o : Out} (h : Writes c n o) : c.edge = o.tail := by
  rw [← h.out]; rfl
theorem Writes.toks {c : CE} {n : Node} {o : Out} (h : Writes c n o) : c.toks = o.toks := by
  rw [← h.out]; rfl

mutual
theorem write_ok (P : Punct) : ∀ (t : ET), t.Valid → ∃ c, Writes c t.node (t.write P binds1)
  | .ident t, h => ⟨.ident t, by simp only [ET.Valid] at h; simpa only [CE.Wf] using h, rfl, rfl⟩
  | .lit t, h => ⟨.lit t, by simp only [ET.Valid] at h; simpa only [CE.Wf] using h, rfl, rfl⟩
  | .un t e, h => by
    simp only [ET.Valid] at h
    obtain ⟨c, hc⟩ := write_ok P e h.2
    obtain ⟨c, hc⟩ := hc.wrap P (decide (binds1 t.kind < (e.write P binds1).weak))
    have hu := unary_binds1 h.1
    refine ⟨.un t c, ?_, ?_, ?_⟩
    · simp only [CE.Wf]
      refine ⟨hu.1, hc.wf, ?_⟩
      rw [hc.top]
      exact Out.wrap_weak hu.2
    · simp only [CE.node, hc.node, ET.node]
    · simp only [CE.out, CE.toks, CE.top, CE.edge, ET.write, hc.toks, hc.edge]
  | .bin t l r, h => by
    simp only [ET.Valid] at h
    obtain ⟨c, hc⟩ := write_ok P l h.2.1
    obtain ⟨c, hc⟩ := hc.wrap P (decide (binds t.kind ≤ (l.write P binds1).tail))
    obtain ⟨d, hd⟩ := write_ok P r h.2.2
    obtain ⟨d, hd⟩ := hd.wrap P (decide (binds t.kind < (r.write P binds1).weak))
    have hu := binds_lt t.kind
    refine ⟨.bin c t d, ?_, ?_, ?_⟩
    · simp only [CE.Wf]
      refine ⟨hc.wf, h.1, hd.wf, ?_, ?_⟩
      · rw [hc.edge]
        exact Out.wrap_tail (by omega)
      · rw [hd.top]
        exact Out.wrap_weak hu
    · simp only [CE.node, hc.node, hd.node, ET.node]
    · simp only [CE.out, CE.toks, CE.top, CE.edge, ET.write, hc.toks, hc.top, hd.toks, hd.edge]
  | .tern t c a b, h => by
    simp only [ET.Valid] at h
    obtain ⟨cc, hc⟩ := write_ok P c h.2.1
    obtain ⟨cc, hc⟩ := hc.wrap P (decide (1 ≤ (c.write P binds1).tail))
    obtain ⟨ca, ha⟩ := write_ok P a h.2.2.1
    obtain ⟨cb, hb⟩ := write_ok P b h.2.2.2
    refine ⟨.tern cc t ca P.co cb, ?_, ?_, ?_⟩
    · simp only [CE.Wf]
      refine ⟨hc.wf, ?_, h.1, ha.wf, P.hco, hb.wf⟩
      rw [hc.edge]
      exact Out.wrap_tail (by omega)
    · simp only [CE.node, hc.node, ha.node, hb.node, ET.node]
    · simp only [CE.out, CE.toks, CE.top, CE.edge, ET.write, hc.toks, hc.top, ha.toks, hb.toks]
  | .call t f as, h => by
    simp only [ET.Valid] at h
    obtain ⟨c, hc⟩ := write_ok P f h.2.1
    obtain ⟨c, hc⟩ := hc.wrap P (decide (13 ≤ (f.write P binds1).tail))
    obtain ⟨d, d1, d2, d3, d4⟩ := writes_ok P as h.2.2
    refine ⟨.call c t d P.rp, ?_, ?_, ?_⟩
    · simp only [CE.Wf]
      refine ⟨hc.wf, ?_, h.1, d1, P.hrp⟩
      rw [hc.edge]
      exact Out.wrap_tail (by omega)
    · simp only [CE.node, hc.node, d2, ET.node]
    · simp only [CE.out, CE.toks, CE.top, CE.edge, ET.write, hc.toks, hc.top, d3]
  | .index t a i, h => by
    simp only [ET.Valid] at h
    obtain ⟨c, hc⟩ := write_ok P a h.2.1
    obtain ⟨c, hc⟩ := hc.wrap P (decide (12 ≤ (a.write P binds1).tail))
    obtain ⟨d, hd⟩ := write_ok P i h.2.2
    refine ⟨.index c t d P.rb, ?_, ?_, ?_⟩
    · simp only [CE.Wf]
      refine ⟨hc.wf, ?_, h.1, hd.wf, P.hrb⟩
      rw [hc.edge]
      exact Out.wrap_tail (by omega)
    · simp only [CE.node, hc.node, hd.node, ET.node]
    · simp only [CE.out, CE.toks, CE.top, CE.edge, ET.write, hc.toks, hc.top, hd.toks]
  | .arr t es, h => by
    simp only [ET.Valid] at h
    obtain ⟨d, d1, d2, d3, d4⟩ := writes_ok P es h.2
    refine ⟨.arr t d P.rb, ?_, ?_, ?_⟩
    · simp only [CE.Wf]
      exact ⟨h.1, d1, P.hrb⟩
    · simp only [CE.node, d2, ET.node]
    · simp only [CE.out, CE.toks, CE.top, CE.edge, ET.write, d3]
theorem writes_ok (P : Punct) : ∀ (t : ETs), t.Valid →
    ∃ c : CEs, c.Wf ∧ c.nodes = t.nodes ∧ c.toks = t.write P binds1 ∧ (t ≠ .nil → c.Ne)
  | .nil, _ => ⟨.nil, by simp only [CEs.Wf], rfl, rfl, fun h => absurd rfl h⟩
  | .cons e .nil, h => by
    simp only [ETs.Valid] at h
    obtain ⟨c, hc⟩ := write_ok P e h.1
    refine ⟨.one c, ?_, ?_, ?_, fun _ => trivial⟩
    · simp only [CEs.Wf]
      exact hc.wf
    · simp only [CEs.nodes, hc.node, ETs.nodes]
    · simp only [CEs.toks, hc.toks, ETs.write]
  | .cons e (.cons e' r), h => by
    have h' := h
    simp only [ETs.Valid] at h'
    obtain ⟨c, hc⟩ := write_ok P e h'.1
    obtain ⟨d, d1, d2, d3, d4⟩ := writes_ok P (.cons e' r) (by simp only [ETs.Valid]; exact h'.2)
    refine ⟨.more c P.cm d, ?_, ?_, ?_, fun _ => trivial⟩
    · simp only [CEs.Wf]
      exact ⟨hc.wf, P.hcm, d4 (by simp), d1⟩
    · simp only [CEs.nodes, hc.node, d2, ETs.nodes]
    · simp only [CEs.toks, hc.toks, d3]
      exact (ETs.write_cons2 P binds1 e e' r).symm
end

/-! ## Nothing shorter is in the grammar -/

/-- `o` is at least two tokens shorter than `c` wherever `c` has more freedom. -/
structure Short (o : Out) (c : CE) : Prop where
  len : o.toks.length ≤ c.toks.length
  top : o.weak < c.top → o.toks.length + 2 ≤ c.toks.length
  edge : o.tail < c.edge → o.toks.length + 2 ≤ c.toks.length

theorem Short.wrap_edge {o : Out} {c : CE} (h : Short o c) (P : Punct) {k : Nat} (hk : k ≤ c.edge) :
    Short (o.wrap P (decide (k ≤ o.tail))) c := by
  unfold Out.wrap
  split
  · exact h
  · rename_i hf
    have hf : ¬ k ≤ o.tail := by simpa using hf
    have := h.edge (by omega)
    have h1 := c.edge_le
    have h2 := c.top_le
    exact ⟨by simp; omega, fun h => by simp at h; omega, fun h => by simp at h; omega⟩

theorem Short.wrap_top {o : Out} {c : CE} (h : Short o c) (P : Punct) {k : Nat} (hk : k < c.top) :
    Short (o.wrap P (decide (k < o.weak))) c := by
  unfold Out.wrap
  split
  · exact h
  · rename_i hf
    have hf : ¬ k < o.weak := by simpa using hf
    have := h.top (by omega)
    have h1 := c.edge_le
    have h2 := c.top_le
    exact ⟨by simp; omega, fun h => by simp at h; omega, fun h => by simp at h; omega⟩

theorem Short.paren {o : Out} {c : CE} {lp rp : Token} (h : o.toks.length ≤ c.toks.length) :
    Short o (.paren lp c rp) := by
  have : (CE.paren lp c rp).toks.length = c.toks.length + 2 := by simp [CE.toks]
  exact ⟨by omega, fun _ => by omega, fun _ => by omega⟩

/-- The kind of a node. -/
def Node.op : Node → Op
  | .mk o .. => o

/-- Kinds of node by the construct that makes them. -/
def opClass : Op → Nat
  | .identifier => 1
  | .lit => 2
  | .not | .bnot | .neg => 3
  | .add | .sub | .mul | .div | .bleft | .bright | .band | .bor | .bxor
  | .gt | .gte | .lt | .lte | .eq | .dot | .or | .and => 4
  | .ternary => 5
  | .funcCall => 6
  | .array => 7
  | .arrayLit => 8
  | .namedType | .arrayType | .funcType => 9
  | .blockFnDcl | .exprFnDcl => 10
  | _ => 0

def CE.cls : CE → Nat
  | .ident _ => 1 | .lit _ => 2 | .paren _ e _ => e.cls | .un .. => 3 | .bin .. => 4 | .tern .. => 5
  | .call .. => 6 | .tcall .. => 6 | .index .. => 7 | .arr .. => 8 | .typ .. => 9
  | .lamB .. => 10 | .lamE .. => 10

def ET.cls : ET → Nat
  | .ident _ => 1 | .lit _ => 2 | .un .. => 3 | .bin .. => 4 | .tern .. => 5
  | .call .. => 6 | .index .. => 7 | .arr .. => 8

theorem binary_class {k : Kind} (h : isBinary k = true) : opClass (binOp k) = 4 := by
  cases k <;> simp_all [isBinary, binOp, opClass]

theorem unary_class {k : Kind} (h : binds1 k ≠ 0) : opClass (unOp k) = 3 := by
  cases k <;> simp_all [binds1, unOp, opClass]

theorem CE.cls_eq : ∀ (c : CE), c.Wf → opClass c.node.op = c.cls
  | .ident _, _ => rfl
  | .lit _, _ => rfl
  | .paren _ e _, h => by
    simp only [CE.Wf] at h
    simp only [CE.node, CE.cls]
    exact e.cls_eq h.2.1
  | .un t e, h => by
    simp only [CE.Wf] at h
    simp only [CE.node, CE.cls, nd, Node.op]
    exact unary_class h.1
  | .bin l t r, h => by
    simp only [CE.Wf] at h
    simp only [CE.node, CE.cls, nd, Node.op]
    exact binary_class h.2.1
  | .tern .., _ => rfl
  | .call .., _ => rfl
  | .tcall .., _ => rfl
  | .index .., _ => rfl
  | .arr .., _ => rfl
  | .typ _ _ ty _, _ => by
    simp only [CE.node, CE.cls]
    cases ty <;> rfl
  | .lamB .., _ => rfl
  | .lamE .., _ => rfl

theorem ET.cls_eq (t : ET) (h : t.Valid) : opClass t.node.op = t.cls := by
  cases t with
  | un t e =>
    simp only [ET.Valid] at h
    exact unary_class (unary_binds1 h.1).1
  | bin t l r =>
    simp only [ET.Valid] at h
    exact binary_class h.1
  | _ => rfl

mutual
theorem write_short (P : Punct) : ∀ (c : CE) (t : ET), t.Valid → c.Wf → c.node = t.node →
    Short (t.write P binds1) c
  | .ident t, t', hv, hw, hn => by
    have hc := (CE.cls_eq _ hw).symm.trans ((congrArg (opClass ∘ Node.op) hn).trans (t'.cls_eq hv))
    cases t' <;> simp only [CE.cls, ET.cls] at hc <;> try cases hc
    exact ⟨by simp [ET.write, CE.toks], fun h => by simp [ET.write, CE.top] at h,
      fun h => by simp [ET.write, CE.edge] at h⟩
  | .lit t, t', hv, hw, hn => by
    have hc := (CE.cls_eq _ hw).symm.trans ((congrArg (opClass ∘ Node.op) hn).trans (t'.cls_eq hv))
    cases t' <;> simp only [CE.cls, ET.cls] at hc <;> try cases hc
    exact ⟨by simp [ET.write, CE.toks], fun h => by simp [ET.write, CE.top] at h,
      fun h => by simp [ET.write, CE.edge] at h⟩
  | .paren lp c rp, t', hv, hw, hn => by
    simp only [CE.Wf] at hw
    simp only [CE.node] at hn
    exact Short.paren (write_short P c t' hv hw.2.1 hn).len
  | .un t c, t', hv, hw, hn => by
    have hc := (CE.cls_eq _ hw).symm.trans ((congrArg (opClass ∘ Node.op) hn).trans (t'.cls_eq hv))
    cases t' <;> simp only [CE.cls, ET.cls] at hc <;> try cases hc
    rename_i t' e
    simp only [CE.node, ET.node, nd, Node.mk.injEq, Option.some.injEq, and_true, true_and] at hn
    obtain ⟨-, rfl, hn⟩ := hn
    simp only [CE.Wf] at hw
    simp only [ET.Valid] at hv
    have ih := (write_short P c e hv.2 hw.2.1 hn).wrap_top P hw.2.2
    refine ⟨?_, ?_, ?_⟩
    · have := ih.len
      simp only [ET.write, CE.toks, List.length_cons]
      omega
    · intro h
      simp [ET.write, CE.top] at h
    · intro h
      simp only [ET.write, CE.edge] at h
      have := ih.edge (by omega)
      simp only [ET.write, CE.toks, List.length_cons]
      omega
  | .bin cl t cr, t', hv, hw, hn => by
    have hc := (CE.cls_eq _ hw).symm.trans ((congrArg (opClass ∘ Node.op) hn).trans (t'.cls_eq hv))
    cases t' <;> simp only [CE.cls, ET.cls] at hc <;> try cases hc
    rename_i t' l r
    simp only [CE.node, ET.node, nd, Node.mk.injEq, Option.some.injEq, and_true, true_and] at hn
    obtain ⟨-, rfl, hl, hr⟩ := hn
    simp only [CE.Wf] at hw
    simp only [ET.Valid] at hv
    have il := (write_short P cl l hv.2.1 hw.1 hl).wrap_edge P hw.2.2.2.1
    have ir := (write_short P cr r hv.2.2 hw.2.2.1 hr).wrap_top P hw.2.2.2.2
    have h1 := il.len
    have h2 := ir.len
    refine ⟨?_, ?_, ?_⟩
    · simp only [ET.write, CE.toks, List.length_cons, List.length_append]
      omega
    · intro h
      simp only [ET.write, CE.top] at h
      have := il.top (by omega)
      simp only [ET.write, CE.toks, List.length_cons, List.length_append]
      omega
    · intro h
      simp only [ET.write, CE.edge] at h
      have := ir.edge (by omega)
      simp only [ET.write, CE.toks, List.length_cons, List.length_append]
      omega
  | .tern cc t ca co cb, t', hv, hw, hn => by
    have hc := (CE.cls_eq _ hw).symm.trans ((congrArg (opClass ∘ Node.op) hn).trans (t'.cls_eq hv))
    cases t' <;> simp only [CE.cls, ET.cls] at hc <;> try cases hc
    rename_i t' c a b
    simp only [CE.node, ET.node, nd, Node.mk.injEq, Option.some.injEq, and_true, true_and, List.cons.injEq] at hn
    obtain ⟨rfl, hc, ha, hb⟩ := hn
    simp only [CE.Wf] at hw
    simp only [ET.Valid] at hv
    have il := (write_short P cc c hv.2.1 hw.1 hc).wrap_edge P hw.2.1
    have h1 := il.len
    have h2 := (write_short P ca a hv.2.2.1 hw.2.2.2.1 ha).len
    have h3 := (write_short P cb b hv.2.2.2 hw.2.2.2.2.2 hb).len
    refine ⟨?_, ?_, ?_⟩
    · simp only [ET.write, CE.toks, List.length_cons, List.length_append]
      omega
    · intro h
      simp only [ET.write, CE.top] at h
      have := il.top (by omega)
      simp only [ET.write, CE.toks, List.length_cons, List.length_append]
      omega
    · intro h
      simp [ET.write, CE.edge] at h
  | .call cf t cs rp, t', hv, hw, hn => by
    have hc := (CE.cls_eq _ hw).symm.trans ((congrArg (opClass ∘ Node.op) hn).trans (t'.cls_eq hv))
    cases t' <;> simp only [CE.cls, ET.cls] at hc <;> try cases hc
    rename_i t' f as
    simp only [CE.node, ET.node, nd, Node.mk.injEq, Option.some.injEq, and_true, true_and] at hn
    obtain ⟨rfl, hl, hr⟩ := hn
    simp only [CE.Wf] at hw
    simp only [ET.Valid] at hv
    have il := (write_short P cf f hv.2.1 hw.1 hl).wrap_edge P hw.2.1
    have h1 := il.len
    have h2 := writes_short P cs as hv.2.2 hw.2.2.2.1 hr
    refine ⟨?_, ?_, ?_⟩
    · simp only [ET.write, CE.toks, List.length_cons, List.length_append, List.length_nil]
      omega
    · intro h
      simp only [ET.write, CE.top] at h
      have := il.top (by omega)
      simp only [ET.write, CE.toks, List.length_cons, List.length_append, List.length_nil]
      omega
    · intro h
      simp [ET.write, CE.edge] at h
  | .tcall cf t ts rg lp cs rp, t', hv, hw, hn => by
    have hc := (CE.cls_eq _ hw).symm.trans ((congrArg (opClass ∘ Node.op) hn).trans (t'.cls_eq hv))
    cases t' <;> simp only [CE.cls, ET.cls] at hc <;> try cases hc
    rename_i t' f as
    simp only [CE.node, ET.node, nd, Node.mk.injEq, Option.some.injEq, and_true, true_and] at hn
    obtain ⟨rfl, -⟩ := hn
    simp only [CE.Wf] at hw
    simp only [ET.Valid] at hv
    have h1 := hw.2.2.1
    rw [hv.1] at h1
    cases h1
  | .index ca t ci rb, t', hv, hw, hn => by
    have hc := (CE.cls_eq _ hw).symm.trans ((congrArg (opClass ∘ Node.op) hn).trans (t'.cls_eq hv))
    cases t' <;> simp only [CE.cls, ET.cls] at hc <;> try cases hc
    rename_i t' f as
    simp only [CE.node, ET.node, nd, Node.mk.injEq, Option.some.injEq, and_true, true_and] at hn
    obtain ⟨rfl, hl, hr⟩ := hn
    simp only [CE.Wf] at hw
    simp only [ET.Valid] at hv
    have il := (write_short P ca f hv.2.1 hw.1 hl).wrap_edge P hw.2.1
    have h1 := il.len
    have h2 := (write_short P ci as hv.2.2 hw.2.2.2.1 hr).len
    refine ⟨?_, ?_, ?_⟩
    · simp only [ET.write, CE.toks, List.length_cons, List.length_append, List.length_nil]
      omega
    · intro h
      simp only [ET.write, CE.top] at h
      have := il.top (by omega)
      simp only [ET.write, CE.toks, List.length_cons, List.length_append, List.length_nil]
      omega
    · intro h
      simp [ET.write, CE.edge] at h
  | .arr t cs rb, t', hv, hw, hn => by
    have hc := (CE.cls_eq _ hw).symm.trans ((congrArg (opClass ∘ Node.op) hn).trans (t'.cls_eq hv))
    cases t' <;> simp only [CE.cls, ET.cls] at hc <;> try cases hc
    rename_i t' as
    simp only [CE.node, ET.node, nd, Node.mk.injEq, Option.some.injEq, and_true, true_and] at hn
    obtain ⟨rfl, hr⟩ := hn
    simp only [CE.Wf] at hw
    simp only [ET.Valid] at hv
    have h2 := writes_short P cs as hv.2 hw.2.1 hr
    refine ⟨?_, ?_, ?_⟩
    · simp only [ET.write, CE.toks, List.length_cons, List.length_append, List.length_nil]
      omega
    · intro h
      simp [ET.write, CE.top] at h
    · intro h
      simp [ET.write, CE.edge] at h
  | .typ t lp ty rp, t', hv, hw, hn => by
    have hc := (CE.cls_eq _ hw).symm.trans ((congrArg (opClass ∘ Node.op) hn).trans (t'.cls_eq hv))
    cases t' <;> simp only [CE.cls, ET.cls] at hc <;> cases hc
  | .lamB f g lb ss rb, t', hv, hw, hn => by
    have hc := (CE.cls_eq _ hw).symm.trans ((congrArg (opClass ∘ Node.op) hn).trans (t'.cls_eq hv))
    cases t' <;> simp only [CE.cls, ET.cls] at hc <;> cases hc
  | .lamE f g a e, t', hv, hw, hn => by
    have hc := (CE.cls_eq _ hw).symm.trans ((congrArg (opClass ∘ Node.op) hn).trans (t'.cls_eq hv))
    cases t' <;> simp only [CE.cls, ET.cls] at hc <;> cases hc
theorem writes_short (P : Punct) : ∀ (c : CEs) (t : ETs), t.Valid → c.Wf → c.nodes = t.nodes →
    (t.write P binds1).length ≤ c.toks.length
  | .nil, t, hv, hw, hn => by
    cases t with
    | nil => simp [ETs.write]
    | cons e r => simp [CEs.nodes, ETs.nodes] at hn
  | .one c, t, hv, hw, hn => by
    cases t with
    | nil => simp [CEs.nodes, ETs.nodes] at hn
    | cons e r =>
      simp only [CEs.nodes, ETs.nodes, List.cons.injEq] at hn
      simp only [CEs.Wf] at hw
      simp only [ETs.Valid] at hv
      have h1 := (write_short P c e hv.1 hw hn.1).len
      cases r with
      | nil => simpa [ETs.write, CEs.toks] using h1
      | cons => simp [ETs.nodes] at hn
  | .more c cm cs, t, hv, hw, hn => by
    cases t with
    | nil => simp [CEs.nodes, ETs.nodes] at hn
    | cons e r =>
      simp only [CEs.nodes, ETs.nodes, List.cons.injEq] at hn
      simp only [CEs.Wf] at hw
      simp only [ETs.Valid] at hv
      have h1 := (write_short P c e hv.1 hw.1 hn.1).len
      have h2 := writes_short P cs r hv.2 hw.2.2.2 hn.2
      cases r with
      | nil =>
        simp only [ETs.write, CEs.toks, List.length_append, List.length_cons]
        omega
      | cons e' r =>
        have h3 : ETs.write P binds1 (.cons e (.cons e' r)) =
            (e.write P binds1).toks ++ P.cm :: ETs.write P binds1 (.cons e' r) := by
          exact ETs.write_cons2 P binds1 e e' r
        rw [h3]
        simp only [CEs.toks, List.length_append, List.length_cons]
        omega
end

end Clara.Parse
