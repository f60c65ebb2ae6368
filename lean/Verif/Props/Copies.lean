import Verif.Parse.Copy
/-
C91: copies of trees.
-/
namespace Clara.Props
open Clara.Copy
variable {D : Type}

/-! ### Specification -/

inductive Role | left | right | param | stmt
  deriving DecidableEq, Repr

/-- Trees: what a node says and its children, with what they are for it. -/
inductive CTree (D : Type)
  | node (data : D) (roles : List Role) (kids : List (CTree D))

mutual
def CTree.size : CTree D → Nat
  | .node _ _ ts => 1 + CTree.sizes ts
def CTree.sizes : List (CTree D) → Nat
  | [] => 0
  | t :: ts => t.size + CTree.sizes ts
end

/-- The children of a node, nil left out. -/
def objKids (o : Obj D) : List Nat := o.left.toList ++ (o.right.toList ++ (o.params.filterMap id ++ o.stmts.filterMap id))

def objRoles (o : Obj D) : List Role :=
  List.replicate o.left.toList.length .left ++ (List.replicate o.right.toList.length .right ++
    (List.replicate (o.params.filterMap id).length .param ++ List.replicate (o.stmts.filterMap id).length .stmt))

mutual
/-- At address `n` there is the tree; its nodes are at the addresses `ids`, parents first. -/
inductive TreeAt (h : Nodes D) : Nat → CTree D → List Nat → Prop
  | mk {n : Nat} {o : Obj D} {ts : List (CTree D)} {ids : List Nat} (ho : h[n]? = some o) (hk : TreesAt h (objKids o) ts ids) :
      TreeAt h n (.node o.data (objRoles o) ts) (n :: ids)
inductive TreesAt (h : Nodes D) : List Nat → List (CTree D) → List Nat → Prop
  | nil : TreesAt h [] [] []
  | cons {n : Nat} {t : CTree D} {a : List Nat} {ns : List Nat} {ts : List (CTree D)} {b : List Nat} (h1 : TreeAt h n t a) (h2 : TreesAt h ns ts b) :
      TreesAt h (n :: ns) (t :: ts) (a ++ b)
end

/-- As `copyNode` leaves nodes: without attributes, and no nil among parameters and statements. -/
def Bare (o : Obj D) : Prop := o.attrs = 0 ∧ none ∉ o.params ∧ none ∉ o.stmts

/-! ### Lemmas -/

mutual
theorem TreeAt.congr {h h' : Nodes D} {n : Nat} {t : CTree D} {ids : List Nat} (ht : TreeAt h n t ids) (he : ∀ k ∈ ids, h'[k]? = h[k]?) :
    TreeAt h' n t ids := by
  cases ht with
  | mk ho hk =>
    exact .mk (by rw [he _ List.mem_cons_self]; exact ho) (TreesAt.congr hk (fun k hk => he k (List.mem_cons_of_mem _ hk)))
theorem TreesAt.congr {h h' : Nodes D} {ns : List Nat} {ts : List (CTree D)} {ids : List Nat} (ht : TreesAt h ns ts ids) (he : ∀ k ∈ ids, h'[k]? = h[k]?) :
    TreesAt h' ns ts ids := by
  cases ht with
  | nil => exact .nil
  | cons h1 h2 =>
    exact .cons (TreeAt.congr h1 (fun k hk => he k (List.mem_append_left _ hk))) (TreesAt.congr h2 (fun k hk => he k (List.mem_append_right _ hk)))
end

mutual
theorem TreeAt.lt {h : Nodes D} {n : Nat} {t : CTree D} {ids : List Nat} (ht : TreeAt h n t ids) : ∀ k ∈ ids, k < h.length := by
  cases ht with
  | mk ho hk =>
    intro k hk'
    rcases List.mem_cons.1 hk' with rfl | hk'
    · exact (List.getElem?_eq_some_iff.1 ho).1
    · exact TreesAt.lt hk k hk'
theorem TreesAt.lt {h : Nodes D} {ns : List Nat} {ts : List (CTree D)} {ids : List Nat} (ht : TreesAt h ns ts ids) : ∀ k ∈ ids, k < h.length := by
  cases ht with
  | nil => intro k hk; cases hk
  | cons h1 h2 =>
    intro k hk
    rcases List.mem_append.1 hk with hk | hk
    · exact TreeAt.lt h1 k hk
    · exact TreesAt.lt h2 k hk
end

theorem sizes_append (a b : List (CTree D)) : CTree.sizes (a ++ b) = CTree.sizes a + CTree.sizes b := by
  induction a with
  | nil => simp [CTree.sizes]
  | cons t a ih => simp only [List.cons_append, CTree.sizes, ih]; omega

theorem TreesAt.append {h : Nodes D} {a b : List Nat} {ta tb : List (CTree D)} {ia ib : List Nat} (h1 : TreesAt h a ta ia) (h2 : TreesAt h b tb ib) :
    TreesAt h (a ++ b) (ta ++ tb) (ia ++ ib) := by
  induction a generalizing ta ia with
  | nil => cases h1; exact h2
  | cons n a ih =>
    cases h1 with
    | cons k1 k2 => rw [List.append_assoc]; exact .cons k1 (ih k2)

theorem TreesAt.split {h : Nodes D} {a b : List Nat} {ts : List (CTree D)} {ids : List Nat} (ht : TreesAt h (a ++ b) ts ids) :
    ∃ ta tb ia ib, ts = ta ++ tb ∧ ids = ia ++ ib ∧ TreesAt h a ta ia ∧ TreesAt h b tb ib := by
  induction a generalizing ts ids with
  | nil => exact ⟨[], ts, [], ids, rfl, rfl, .nil, ht⟩
  | cons n a ih =>
    cases ht with
    | cons k1 k2 =>
      obtain ⟨ta, tb, ia, ib, rfl, rfl, j1, j2⟩ := ih k2
      exact ⟨_ :: ta, tb, _ ++ ia, ib, rfl, by rw [List.append_assoc], .cons k1 j1, j2⟩

/-- What making copies of the trees `ts` does: `ks` are the copies. -/
structure Made (h h' : Nodes D) (ks : List Nat) (ts : List (CTree D)) : Prop where
  old : ∀ k < h.length, h'[k]? = h[k]?
  len : h'.length = h.length + CTree.sizes ts
  trees : TreesAt h' ks ts (List.range' h.length (CTree.sizes ts))
  bare : ∀ k o, h.length ≤ k → h'[k]? = some o → Bare o

theorem Made.none (h : Nodes D) : Made h h [] [] where
  old := fun _ _ => rfl
  len := rfl
  trees := .nil
  bare := fun k o hk ho => absurd (List.getElem?_eq_some_iff.1 ho).1 (by omega)

theorem Made.trans {h h' h'' : Nodes D} {ks ls : List Nat} {ts us : List (CTree D)} (a : Made h h' ks ts) (b : Made h' h'' ls us) :
    Made h h'' (ks ++ ls) (ts ++ us) where
  old := fun k hk => by rw [b.old k (by have := a.len; omega), a.old k hk]
  len := by rw [b.len, a.len, sizes_append]; omega
  trees := by
    rw [sizes_append, ← List.range'_append_1]
    refine .append (a.trees.congr fun k hk => b.old k ?_) ?_
    · have := List.mem_range'_1.1 hk; have := a.len; omega
    · have := b.trees; rw [a.len] at this; exact this
  bare := by
    intro k o hk ho
    by_cases hk' : k < h'.length
    · rw [b.old k hk'] at ho; exact a.bare k o hk ho
    · exact b.bare k o (by omega) ho

/-- `copyNode` does what it should for the trees up to a size. -/
def CopyTo (D : Type) (m : Nat) : Prop := ∀ (t : CTree D), t.size ≤ m → ∀ (h : Nodes D) n ids, TreeAt h n t ids →
  ∃ h', copyNode n h = some (h.length, h') ∧ Made h h' [h.length] [t]

theorem copyOpt_made {m : Nat} (ih : CopyTo D m) {o : Option Nat} {h : Nodes D} {ts : List (CTree D)} {ids : List Nat} (ht : TreesAt h o.toList ts ids)
    (hm : CTree.sizes ts ≤ m) : ∃ l h', copyOpt o h = some (l, h') ∧ Made h h' l.toList ts ∧ l.toList.length = o.toList.length := by
  cases o with
  | none => cases ht; exact ⟨none, h, by rw [copyOpt], .none h, rfl⟩
  | some n =>
    cases ht with
    | cons h1 h2 =>
      cases h2
      obtain ⟨h', e, hmade⟩ := ih _ (by simpa [CTree.sizes] using hm) h n _ h1
      exact ⟨some h.length, h', by rw [copyOpt, e]; rfl, hmade, rfl⟩

theorem copyNodes_made {m : Nat} (ih : CopyTo D m) {l : List (Option Nat)} {h : Nodes D} {ts : List (CTree D)} {ids : List Nat}
    (ht : TreesAt h (l.filterMap id) ts ids) (hm : CTree.sizes ts ≤ m) :
    ∃ ys h', copyNodes l h = some (ys, h') ∧ Made h h' (ys.filterMap id) ts ∧ (ys.filterMap id).length = (l.filterMap id).length ∧ none ∉ ys := by
  induction l generalizing h ts ids with
  | nil => cases ht; exact ⟨[], h, by rw [copyNodes], .none h, rfl, by simp⟩
  | cons o l ihl =>
    cases o with
    | none =>
      obtain ⟨ys, h', e, h1, h2, h3⟩ := ihl ht hm
      exact ⟨ys, h', by rw [copyNodes, e], h1, h2, h3⟩
    | some n =>
      rw [show (some n :: l).filterMap id = n :: l.filterMap id from rfl] at ht ⊢
      cases ht with
      | @cons _ t a _ ts b h1 h2 =>
        simp only [CTree.sizes] at hm
        obtain ⟨h', e, k⟩ := ih _ (by omega) h n _ h1
        obtain ⟨ys, h'', e', k1, k2, k3⟩ := ihl (h2.congr fun i hi => k.old i (h2.lt i hi)) (by omega)
        refine ⟨some h.length :: ys, h'', by rw [copyNodes, e]; simp only [Option.bind_eq_bind, Option.bind_some, e']; rfl, ?_, ?_, ?_⟩
        · exact k.trans k1
        · rw [show (some h.length :: ys).filterMap id = h.length :: ys.filterMap id from rfl, List.length_cons, List.length_cons, k2]
        · simp [k3]

/-- While `copyNode` works: `x` is the new node, `ks` its children so far. -/
structure Part (h : Nodes D) (c : Nodes D) (ks : List Nat) (ts : List (CTree D)) (o : Obj D) : Prop where
  old : ∀ k < h.length, c[k]? = h[k]?
  self : c[h.length]? = some o
  len : c.length = h.length + 1 + CTree.sizes ts
  trees : TreesAt c ks ts (List.range' (h.length + 1) (CTree.sizes ts))
  bare : ∀ k o, h.length < k → c[k]? = some o → Bare o

theorem Part.step {h c c' : Nodes D} {ks ls : List Nat} {ts us : List (CTree D)} {o : Obj D} (p : Part h c ks ts o) (m : Made c c' ls us)
    (f : Obj D → Obj D) : Part h (upd c' h.length f) (ks ++ ls) (ts ++ us) (f o) := by
  have hl := p.len
  have hl' := m.len
  have hne : ∀ k, k ≠ h.length → (upd c' h.length f)[k]? = c'[k]? := fun k hk => by
    rw [upd, List.getElem?_modify]; simp [show ¬ List.length h = k from fun e => hk e.symm]
  refine ⟨?_, ?_, ?_, ?_, ?_⟩
  · intro k hk; rw [hne k (by omega), m.old k (by omega), p.old k hk]
  · rw [upd, List.getElem?_modify, m.old _ (by omega), p.self]; simp
  · rw [upd, List.length_modify, sizes_append]; omega
  · rw [sizes_append, ← List.range'_append_1]
    refine .append (p.trees.congr fun k hk => ?_) ?_
    · have := List.mem_range'_1.1 hk
      rw [hne k (by omega), m.old k (by omega)]
    · have := m.trees.congr (h' := upd c' h.length f) (fun k hk => hne k (by have := List.mem_range'_1.1 hk; omega))
      rw [hl] at this
      exact this
  · intro k g hk hg
    rw [hne k (by omega)] at hg
    by_cases hk' : k < c.length
    · rw [m.old k hk'] at hg; exact p.bare k g hk hg
    · exact m.bare k g (by omega) hg

theorem copyTo (m : Nat) : CopyTo D m := by
  induction m with
  | zero => intro t ht; cases t; simp [CTree.size] at ht
  | succ m ih =>
    intro t ht h n ids hat
    cases hat with
    | @mk _ g ts ids ho hk =>
      simp only [CTree.size] at ht
      obtain ⟨tl, ts1, il, i1, rfl, rfl, kl, k1⟩ := hk.split
      obtain ⟨tr, ts2, ir, i2, rfl, rfl, kr, k2⟩ := k1.split
      obtain ⟨tp, tss, ip, is, rfl, rfl, kp, ks⟩ := k2.split
      simp only [sizes_append] at ht
      have hn := (List.getElem?_eq_some_iff.1 ho).1
      have tr' : ∀ {c : Nodes D} {ks' ts' o'} (_ : Part h c ks' ts' o') {ns us is}, TreesAt h ns us is → TreesAt c ns us is :=
        fun p _ _ _ hx => hx.congr fun i hi => p.old i (hx.lt i hi)
      have p0 : Part h (h ++ [({ data := g.data } : Obj D)]) [] [] { data := g.data } :=
        ⟨fun k hk => List.getElem?_append_left hk, by simp, by simp [CTree.sizes], .nil, fun k o hk hh => by
          have := (List.getElem?_eq_some_iff.1 hh).1; simp at this; omega⟩
      obtain ⟨l, c1, e1, m1, n1⟩ := copyOpt_made ih (tr' p0 kl) (by omega)
      have p1 := p0.step m1 (fun o => { o with left := l })
      obtain ⟨r, c2, e2, m2, n2⟩ := copyOpt_made ih (tr' p1 kr) (by omega)
      have p2 := p1.step m2 (fun o => { o with right := r })
      obtain ⟨ps, c3, e3, m3, n3, q3⟩ := copyNodes_made ih (tr' p2 kp) (by omega)
      have p3 := p2.step m3 (fun o => { o with params := ps })
      obtain ⟨ss, c4, e4, m4, n4, q4⟩ := copyNodes_made ih (tr' p3 ks) (by omega)
      have p4 := p3.step m4 (fun o => { o with stmts := ss })
      refine ⟨upd c4 h.length (fun o => { o with stmts := ss }), ?_, ?_⟩
      · rw [copyNode]
        simp only [ho, Option.bind_eq_bind, Option.bind_some, e1, p1.old n hn, e2, p2.old n hn, e3, p3.old n hn, e4]
        rfl
      · refine ⟨p4.old, ?_, ?_, ?_⟩
        · rw [p4.len]; simp only [CTree.sizes, CTree.size, sizes_append, List.nil_append]; omega
        · have hr : objRoles g = objRoles ({ data := g.data, left := l, right := r, params := ps, stmts := ss } : Obj D) := by
            simp only [objRoles, n1, n2, n3, n4]
          have ht' := p4.trees
          simp only [List.nil_append, List.append_assoc] at ht'
          have := TreeAt.mk p4.self (ids := List.range' (h.length + 1) (CTree.sizes (tl ++ (tr ++ (tp ++ tss)))))
            (ts := tl ++ (tr ++ (tp ++ tss))) ht'
          rw [← hr] at this
          have := TreesAt.cons this .nil
          simp only [CTree.sizes, CTree.size, Nat.add_zero, Nat.add_comm 1, List.range'_succ] at this ⊢
          rw [List.append_nil] at this
          exact this
        · intro k o hk hh
          rcases Nat.lt_or_eq_of_le hk with hk | rfl
          · exact p4.bare k o hk hh
          · rw [p4.self] at hh
            cases hh
            exact ⟨rfl, q3, q4⟩

/-! ### C91 -/

/-- **C91.**  The copy of a tree is the same tree, of new nodes only, each of them once (also if the tree that is copied has a node in
two places); the nodes that were there are as before.  The attributes of the nodes are not copied. -/
theorem C91_copy {h : Nodes D} {n : Nat} {t : CTree D} {ids : List Nat} (ht : TreeAt h n t ids) :
    ∃ h', copyNode n h = some (h.length, h') ∧ TreeAt h' h.length t (List.range' h.length t.size) ∧ h'.length = h.length + t.size ∧
      (∀ k < h.length, h'[k]? = h[k]?) ∧ ∀ k o, h.length ≤ k → h'[k]? = some o → Bare o := by
  obtain ⟨h', e, m⟩ := copyTo t.size t (Nat.le_refl _) h n ids ht
  refine ⟨h', e, ?_, by simpa [CTree.sizes] using m.len, m.old, m.bare⟩
  have := m.trees
  simp only [CTree.sizes, Nat.add_zero] at this
  generalize List.range' h.length t.size = r at this
  cases this with
  | cons h1 h2 => cases h2; rw [List.append_nil]; exact h1

/-- **C91, afterwards.**  Whatever is done to the nodes that were there before leaves the copy as it is, and what is done to the nodes of
the copy leaves the tree as it is. -/
theorem C91_separate {h : Nodes D} {n x : Nat} {t : CTree D} {ids : List Nat} (ht : TreeAt h n t ids) {h' : Nodes D}
    (hc : copyNode n h = some (x, h')) (h'' : Nodes D) :
    ((∀ k, h.length ≤ k → h''[k]? = h'[k]?) → ∃ new, TreeAt h'' x t new ∧ ∀ k ∈ new, k ∉ ids) ∧
    ((∀ k, k < h.length → h''[k]? = h'[k]?) → TreeAt h'' n t ids) := by
  obtain ⟨g, e, h1, -, h2, -⟩ := C91_copy ht
  rw [e] at hc
  cases hc
  constructor
  · intro hs
    refine ⟨_, h1.congr fun k hk => hs k (List.mem_range'_1.1 hk).1, fun k hk hi => ?_⟩
    have := ht.lt k hi
    have := (List.mem_range'_1.1 hk).1
    omega
  · intro hs
    exact ht.congr fun k hk => by rw [hs k (ht.lt k hk), h2 k (ht.lt k hk)]

/-- `a + a` with one node for both operands, and a call with a nil argument; attributes on the call. -/
def cpNodes : Nodes String :=
  [{ data := "a" }, { data := "+", left := some 0, right := some 0 }, { data := "f", attrs := 3, left := some 1, stmts := [none, some 0, some 1] }]

def cpSum : CTree String := .node "+" [.left, .right] [.node "a" [] [], .node "a" [] []]
def cpTree : CTree String := .node "f" [.left, .stmt, .stmt] [cpSum, .node "a" [] [], cpSum]

theorem cpAt : TreeAt cpNodes 2 cpTree [2, 1, 0, 0, 0, 1, 0, 0] := by
  have ha : TreeAt cpNodes 0 (.node "a" [] []) [0] := .mk (o := { data := "a" }) rfl .nil
  have hp : TreeAt cpNodes 1 cpSum [1, 0, 0] := .mk (o := { data := "+", left := some 0, right := some 0 }) rfl (.cons ha (.cons ha .nil))
  exact .mk (o := { data := "f", attrs := 3, left := some 1, stmts := [none, some 0, some 1] }) rfl (.cons hp (.cons ha (.cons hp .nil)))

example : ∃ h', copyNode 2 cpNodes = some (3, h') ∧ TreeAt h' 3 cpTree [3, 4, 5, 6, 7, 8, 9, 10] := by
  obtain ⟨h', e, h1, -⟩ := C91_copy cpAt
  exact ⟨h', e, h1⟩

end Clara.Props
