import Verif.Parse.Walk
import Verif.Props.Parse
/-
Property C86: walks over the tree.

The specification knows about the fields of nodes and nothing of the order in which a walk goes through them.
-/
namespace Clara.Props
open Clara.Parse
open Clara.Lex (Kind Token Bytes)
open Clara.Sema.Lit (Fld walk)

/-! ### What there is to visit -/

/-- The type parameters in the head of a structure or enumeration are not part of a walk. -/
def heads : Op → List (α × β) → List (α × β)
  | .structDcl, _ | .enumDcl, _ => []
  | _, ps => ps

mutual
/-- Every node below (and including) a node, with its ancestors up to the given ones, the nearest first.  Below a node that `f` refuses there is
nothing. -/
def occ (f : Node → Bool) (up : List Node) : Node → List (List Node × Node)
  | .mk op tok a l r ss ps => (up, .mk op tok a l r ss ps) ::
    if f (.mk op tok a l r ss ps) then
      occO f (.mk op tok a l r ss ps :: up) l ++ (occO f (.mk op tok a l r ss ps :: up) r ++
        (occL f (.mk op tok a l r ss ps :: up) ss ++ heads op (occL f (.mk op tok a l r ss ps :: up) ps)))
    else []
def occO (f : Node → Bool) (up : List Node) : Option Node → List (List Node × Node)
  | none => []
  | some n => occ f up n
def occL (f : Node → Bool) (up : List Node) : List Node → List (List Node × Node)
  | [] => []
  | n :: ns => occ f up n ++ occL f up ns
end

/-- What a function learns that keeps the nodes that are not at their end on a stack: with each node the stack.  `none`: an end without a
beginning, or a node without an end. -/
def replay (f : Node → Bool) : List Node → List Call → Option (List (List Node × Node))
  | [], [] => some []
  | _ :: _, [] => none
  | st, .enter n :: cs => (replay f (if f n then n :: st else st) cs).map ((st, n) :: ·)
  | [], .exit :: _ => none
  | _ :: st, .exit :: cs => replay f st cs

/-! ### Lemmas -/

theorem walk_perm {α : Type} (op : Op) (l r s p : List α) (hl : Fld.left ∉ walk op → l = []) (hr : Fld.right ∉ walk op → r = [])
    (hs : Fld.stmts ∉ walk op → s = []) (hp : Fld.params ∉ walk op → p = []) :
    ((walk op).flatMap (field l r s p)).Perm (l ++ (r ++ (s ++ p))) := by
  classical
  rw [List.perm_iff_count]
  intro a
  cases op <;> simp [walk] at hl hr hs hp <;> simp [walk, field, List.count_append, *] <;> omega

/-- Going through calls one after the other. -/
def Reads (f : Node → Bool) (st : List Node) (cs : List Call) (vs : List (List Node × Node)) : Prop :=
  ∀ rest, replay f st (cs ++ rest) = (replay f st rest).map (vs ++ ·)

theorem Reads.nil {f : Node → Bool} {st : List Node} : Reads f st [] [] := by
  intro rest
  rw [List.nil_append]
  cases h : replay f st rest <;> simp

theorem Reads.append {f : Node → Bool} {st : List Node} {a b : List Call} {x y : List (List Node × Node)} (h : Reads f st a x)
    (h' : Reads f st b y) : Reads f st (a ++ b) (x ++ y) := by
  intro rest
  rw [List.append_assoc, h, h']
  cases replay f st rest <;> simp

theorem Reads.node {f : Node → Bool} {st : List Node} {n : Node} (hn : f n = true) {a : List Call} {x : List (List Node × Node)}
    (h : Reads f (n :: st) a x) : Reads f st (.enter n :: (a ++ [.exit])) ((st, n) :: x) := by
  intro rest
  have e : replay f st ((Call.enter n :: (a ++ [.exit])) ++ rest) = (replay f (n :: st) (a ++ (.exit :: rest))).map ((st, n) :: ·) := by
    rw [List.cons_append, List.append_assoc]
    cases st <;> simp [replay, hn]
  rw [e, h]
  cases st <;> simp only [replay] <;> cases replay f _ rest <;> simp

theorem Reads.refused {f : Node → Bool} {st : List Node} {n : Node} (hn : f n = false) : Reads f st [.enter n] [(st, n)] := by
  intro rest
  cases st <;> simp [replay, hn]

/-- The walk of a part of a tree, for any stack. -/
def Walks (f : Node → Bool) (c : Option (List Call)) (o : List Node → List (List Node × Node)) : Prop :=
  ∃ cs, c = some cs ∧ ∀ st, ∃ vs, Reads f st cs vs ∧ vs.Perm (o st)

theorem Walks.none_ok {f : Node → Bool} : Walks f (some []) (fun _ => []) := ⟨[], rfl, fun _ => ⟨[], .nil, .refl _⟩⟩

theorem Walks.row {f : Node → Bool} {R : Fld → Option (List Call)} {o : Fld → List Node → List (List Node × Node)} :
    ∀ (w : List Fld), (∀ x ∈ w, Walks f (R x) (o x)) → Walks f (inRow (w.map R)) (fun st => w.flatMap (fun x => o x st)) := by
  intro w
  induction w with
  | nil => intro _; exact Walks.none_ok
  | cons x w ih =>
    intro h
    obtain ⟨c, hc, hv⟩ := h x (by simp)
    obtain ⟨c', hc', hv'⟩ := ih (fun y hy => h y (by simp [hy]))
    refine ⟨c ++ c', by rw [List.map_cons, hc, inRow, hc']; rfl, fun st => ?_⟩
    obtain ⟨vs, h1, h2⟩ := hv st
    obtain ⟨vs', h1', h2'⟩ := hv' st
    exact ⟨vs ++ vs', h1.append h1', by simp only [List.flatMap_cons]; exact h2.append h2'⟩

theorem heads_nil (op : Op) : heads op ([] : List (α × β)) = [] := by
  unfold heads; split <;> rfl

mutual
theorem pre_walks (f : Node → Bool) : (n : Node) → shaped n = true → Walks f (pre f n) (fun st => occ f st n)
  | .mk op tok a l r ss ps, h => by
    simp only [shaped, Bool.and_eq_true, Bool.or_eq_true, beq_iff_eq] at h
    obtain ⟨⟨hl, hr, hs, hp⟩, hl', hr', hs', hp'⟩ := h
    rw [pre]
    cases hf : f (.mk op tok a l r ss ps) with
    | false =>
      refine ⟨_, rfl, fun st => ⟨_, Reads.refused hf, ?_⟩⟩
      simp [occ, hf]
    | true =>
      have hw := Walks.row (f := f) (R := field (preO f (tested op .left) l) (preO f (tested op .right) r) (preL f ss) (preL f ps))
        (o := fun x st => field (occO f st l) (occO f st r) (occL f st ss) (heads op (occL f st ps)) x) (walk op) (by
          intro x hx
          cases x with
          | left =>
            refine preO_walks f _ l hl' ?_
            simpa [okO, hx] using hl
          | right =>
            refine preO_walks f _ r hr' ?_
            simpa [okO, hx] using hr
          | stmts => exact preL_walks f ss hs'
          | params =>
            have e : ∀ v : List (List Node × Node), heads op v = v := by
              intro v
              cases op <;> simp [walk] at hx <;> rfl
            have hps : shapedL ps = true := by
              rcases hp' with rfl | rfl | hp'
              · simp [walk] at hx
              · simp [walk] at hx
              · exact hp'
            simp only [field, e]
            exact preL_walks f ps hps)
      obtain ⟨cs, e, hv⟩ := hw
      refine ⟨_, by rw [if_pos rfl, e]; rfl, fun st => ?_⟩
      obtain ⟨vs, h1, h2⟩ := hv (.mk op tok a l r ss ps :: st)
      refine ⟨_, Reads.node hf h1, ?_⟩
      simp only [occ, hf, if_true]
      refine .cons _ (h2.trans (walk_perm op _ _ _ _ ?_ ?_ ?_ ?_))
      · intro hx
        have : l = none := by simpa [okO, hx] using hl
        rw [this]; rfl
      · intro hx
        have : r = none := by simpa [okO, hx] using hr
        rw [this]; rfl
      · intro hx
        have : ss = [] := by simpa [okL, hx] using hs
        rw [this]; rfl
      · intro hx
        simp only [okL, hx, decide_false, Bool.false_or, Bool.or_eq_true, Bool.and_eq_true, beq_iff_eq, List.isEmpty_iff] at hp
        rcases hp with rfl | ⟨-, rfl | rfl⟩
        · exact heads_nil op
        · rfl
        · rfl
theorem preO_walks (f : Node → Bool) (t : Bool) : (o : Option Node) → shapedO o = true → (t = true ∨ o.isSome = true) →
    Walks f (preO f t o) (fun st => occO f st o)
  | none, _, h => by
    have : t = true := by simpa using h
    rw [preO, if_pos this]
    exact Walks.none_ok
  | some n, h, _ => pre_walks f n h
theorem preL_walks (f : Node → Bool) : (ns : List Node) → shapedL ns = true → Walks f (preL f ns) (fun st => occL f st ns)
  | [], _ => Walks.none_ok
  | n :: ns, h => by
    simp only [shapedL, Bool.and_eq_true] at h
    obtain ⟨c, hc, hv⟩ := pre_walks f n h.1
    obtain ⟨c', hc', hv'⟩ := preL_walks f ns h.2
    refine ⟨c ++ (c' ++ []), by rw [preL, hc, hc']; rfl, fun st => ?_⟩
    obtain ⟨vs, h1, h2⟩ := hv st
    obtain ⟨vs', h1', h2'⟩ := hv' st
    exact ⟨vs ++ vs', by rw [List.append_nil]; exact h1.append h1', by simp only [occL]; exact h2.append h2'⟩
end

/-! ### C86 -/

/-- The trees of a program that the parser accepts (also one of those it should not accept, C09). -/
theorem accepted_shaped {ts : List Token} {root : List Node} (hw : Wr ts) (hp : parse ts = some (.done [] root)) : shapedL root = true := by
  obtain ⟨ds, rest, -, h2, h3, -⟩ := C09_partial ts root hw hp
  rw [h3]
  exact file_shaped ds _ h2

/-- **C86.** `WalkPreOrder` over the tree of a program without syntax errors, for any function `f`: it does not crash; a function that keeps the
nodes it has entered on a stack is told the end of exactly these, in the right order, and sees every node that is not below a refused
one exactly once (the numbers in the two lists agree), each time with its ancestors on the stack.  Not visited are the type parameters in the
heads of structures and enumerations. -/
theorem C86_pre {ts : List Token} {root : List Node} (hw : Wr ts) (hp : parse ts = some (.done [] root)) (f : Node → Bool) :
    ∃ cs vs, preL f root = some cs ∧ replay f [] cs = some vs ∧ vs.Perm (occL f [] root) := by
  obtain ⟨cs, h1, h2⟩ := preL_walks f root (accepted_shaped hw hp)
  obtain ⟨vs, h3, h4⟩ := h2 []
  refine ⟨cs, vs, h1, ?_, h4⟩
  have := h3 []
  rw [List.append_nil] at this
  rw [this]
  simp [replay]

mutual
/-- Every node of a tree. -/
def everyNode : Node → List Node
  | .mk op tok a l r ss ps => .mk op tok a l r ss ps :: (everyO l ++ (everyO r ++ (everyL ss ++
      (if op = .structDcl ∨ op = .enumDcl then [] else everyL ps))))
def everyO : Option Node → List Node
  | none => []
  | some n => everyNode n
def everyL : List Node → List Node
  | [] => []
  | n :: ns => everyNode n ++ everyL ns
end

/-- A list of calls of `WalkPostOrder` that is as it should be: every node once, and the calls for the nodes below a node come without
interruption before that for the node. -/
inductive Upwards : List Node → List Node → Prop
  | nil : Upwards [] []
  /-- the calls for one tree of several -/
  | tree {op tok a l r ss ps below cs ns ms} : Upwards below cs →
      below.Perm (l.toList ++ (r.toList ++ (ss ++ if op = .structDcl ∨ op = .enumDcl then [] else ps))) → Upwards ns ms →
      Upwards (.mk op tok a l r ss ps :: ns) (cs ++ .mk op tok a l r ss ps :: ms)

theorem Upwards.append {a b c d : List Node} (h : Upwards a b) (h' : Upwards c d) : Upwards (a ++ c) (b ++ d) := by
  induction h with
  | nil => exact h'
  | tree h1 h2 _ _ ih => rw [List.cons_append, List.append_assoc, List.cons_append]; exact .tree h1 h2 ih

/-- The calls for some fields. -/
def Rises (c : Option (List Node)) (ns : List Node) : Prop := ∃ cs, c = some cs ∧ Upwards ns cs

theorem Rises.row {R : Fld → Option (List Node)} {o : Fld → List Node} :
    ∀ (w : List Fld), (∀ x ∈ w, Rises (R x) (o x)) → Rises (inRow (w.map R)) (w.flatMap o) := by
  intro w
  induction w with
  | nil => intro _; exact ⟨[], rfl, .nil⟩
  | cons x w ih =>
    intro h
    obtain ⟨c, hc, hv⟩ := h x (by simp)
    obtain ⟨c', hc', hv'⟩ := ih (fun y hy => h y (by simp [hy]))
    exact ⟨c ++ c', by rw [List.map_cons, hc, inRow, hc']; rfl, by rw [List.flatMap_cons]; exact hv.append hv'⟩

mutual
theorem post_rises : (n : Node) → shaped n = true → Rises (post n) [n]
  | .mk op tok a l r ss ps, h => by
    simp only [shaped, Bool.and_eq_true, Bool.or_eq_true, beq_iff_eq] at h
    obtain ⟨⟨hl, hr, hs, hp⟩, hl', hr', hs', hp'⟩ := h
    have hw := Rises.row (R := field (postO (tested op .left) l) (postO (tested op .right) r) (postL ss) (postL ps))
      (o := field l.toList r.toList ss (if op = .structDcl ∨ op = .enumDcl then [] else ps)) (walk op) (by
        intro x hx
        cases x with
        | left =>
          refine postO_rises _ l hl' ?_
          simpa [okO, hx] using hl
        | right =>
          refine postO_rises _ r hr' ?_
          simpa [okO, hx] using hr
        | stmts => exact postL_rises ss hs'
        | params =>
          have e : ¬ (op = .structDcl ∨ op = .enumDcl) := by
            rintro (rfl | rfl) <;> simp [walk] at hx
          have hps : shapedL ps = true := by
            rcases hp' with h | h | hp'
            · exact absurd (.inl h) e
            · exact absurd (.inr h) e
            · exact hp'
          simp only [field, if_neg e]
          exact postL_rises ps hps)
    obtain ⟨cs, e, hv⟩ := hw
    refine ⟨_, by rw [post, e]; rfl, Upwards.tree hv (walk_perm op _ _ _ _ ?_ ?_ ?_ ?_) .nil⟩
    · intro hx
      have : l = none := by simpa [okO, hx] using hl
      rw [this]; rfl
    · intro hx
      have : r = none := by simpa [okO, hx] using hr
      rw [this]; rfl
    · intro hx
      simpa [okL, hx] using hs
    · intro hx
      simp only [okL, hx, decide_false, Bool.false_or, Bool.or_eq_true, Bool.and_eq_true, beq_iff_eq, List.isEmpty_iff] at hp
      rcases hp with rfl | ⟨-, h⟩
      · exact ite_self _
      · exact if_pos h
theorem postO_rises (t : Bool) : (o : Option Node) → shapedO o = true → (t = true ∨ o.isSome = true) → Rises (postO t o) o.toList
  | none, _, h => by
    have : t = true := by simpa using h
    rw [postO, if_pos this]
    exact ⟨[], rfl, .nil⟩
  | some n, h, _ => post_rises n h
theorem postL_rises : (ns : List Node) → shapedL ns = true → Rises (postL ns) ns
  | [], _ => ⟨[], rfl, .nil⟩
  | n :: ns, h => by
    simp only [shapedL, Bool.and_eq_true] at h
    obtain ⟨c, hc, hv⟩ := post_rises n h.1
    obtain ⟨c', hc', hv'⟩ := postL_rises ns h.2
    exact ⟨c ++ (c' ++ []), by rw [postL, hc, hc']; rfl, by rw [List.append_nil]; exact hv.append hv'⟩
end

theorem everyL_append (a b : List Node) : everyL (a ++ b) = everyL a ++ everyL b := by
  induction a with
  | nil => rfl
  | cons x a ih => rw [List.cons_append, everyL, everyL, ih, List.append_assoc]

theorem everyL_perm {a b : List Node} (h : a.Perm b) : (everyL a).Perm (everyL b) := by
  induction h with
  | nil => exact .refl _
  | cons x _ ih => rw [everyL, everyL]; exact ih.append_left _
  | swap x y l =>
    simp only [everyL]
    rw [← List.append_assoc, ← List.append_assoc]
    exact List.perm_append_comm.append_right _
  | trans _ _ h1 h2 => exact h1.trans h2

theorem everyL_toList (o : Option Node) : everyL o.toList = everyO o := by
  cases o with
  | none => rfl
  | some n => simp [everyL, everyO]

/-- Every node once. -/
theorem Upwards.every {ns cs : List Node} (h : Upwards ns cs) : cs.Perm (everyL ns) := by
  induction h with
  | nil => exact .refl _
  | @tree op tok a l r ss ps below cs ns ms _ hb _ ih1 ih2 =>
    have h1 := ih1.trans (everyL_perm hb)
    rw [everyL_append, everyL_append, everyL_append, everyL_toList, everyL_toList] at h1
    have e : everyL (if op = .structDcl ∨ op = .enumDcl then [] else ps) = if op = .structDcl ∨ op = .enumDcl then [] else everyL ps := by
      split <;> rfl
    rw [e] at h1
    rw [everyL, everyNode, List.cons_append]
    exact List.perm_middle.trans (.cons _ (h1.append ih2))

/-- `WalkPostOrder` over the tree of a program without syntax errors: it does not crash, every node is visited once, and all that is below a
node right before it. -/
theorem C86_post {ts : List Token} {root : List Node} (hw : Wr ts) (hp : parse ts = some (.done [] root)) :
    ∃ cs, postL root = some cs ∧ Upwards root cs ∧ cs.Perm (everyL root) := by
  obtain ⟨cs, h1, h2⟩ := postL_rises root (accepted_shaped hw hp)
  exact ⟨cs, h1, h2, h2.every⟩

/-! ### `while a { f(a) } return a` and a structure with a type parameter -/

/-- `a`. -/
def wA : Node := nd .identifier (tk .identifier)
/-- `f(a)`. -/
def wCall : Node := nd .funcCall (tk .lparen) (left := some wA) (stmts := [wA])
def wWhile : Node := nd .while_ (tk .while_) (left := some wA) (stmts := [wCall])
def wRet : Node := nd .ret (tk .ret) (left := some wA)
def wFn : Node := nd .blockFnDcl (tk .identifier) (stmts := [wWhile, wRet])

theorem w_parse : parse ([tk .fn, tk .identifier, tk .lparen, tk .rparen, tk .lbrace] ++
      [tk .while_, tk .identifier, tk .lbrace, tk .identifier, tk .lparen, tk .identifier, tk .rparen, tk .rbrace,
        tk .ret, tk .identifier] ++ [tk .rbrace, tk .eof]) = some (.done [] [wFn]) :=
  C11_partial_block [.while_ (tk .while_) (.ident (tk .identifier)) (tk .lbrace)
      (.cons (.expr (.call (.ident (tk .identifier)) (tk .lparen) (.one (.ident (tk .identifier))) (tk .rparen))) .nil) (tk .rbrace),
    .ret1 (tk .ret) (.ident (tk .identifier))] (by
    simp [CSs.ofList, CSs.Wf, CS.Wf, CE.Wf, CEs.Wf, CE.edge, CSs.toks, CS.toks, CE.toks, tk, startsStmtExpr, headKind, binds])

/-- The calls, with a function that does not look into calls of functions. -/
example : preL (fun n => match n with | .mk op .. => op ≠ .funcCall) [wFn] =
    some [.enter wFn, .enter wWhile, .enter wA, .exit, .enter wCall, .exit, .enter wRet, .enter wA, .exit, .exit, .exit] := by
  simp [wFn, wWhile, wRet, wCall, wA, nd, preL, pre, preO, inRow, walk, field, tested]

example : postL [wFn] = some [wA, wA, wA, wCall, wWhile, wA, wRet, wFn] := by
  simp [wFn, wWhile, wRet, wCall, wA, nd, postL, post, postO, inRow, walk, field, tested]

/-- The program meets the hypotheses. -/
example : ∃ cs, postL [wFn] = some cs ∧ Upwards [wFn] cs ∧ cs.Perm (everyL [wFn]) :=
  C86_post ⟨[tk .fn, tk .identifier, tk .lparen, tk .rparen, tk .lbrace] ++
      [tk .while_, tk .identifier, tk .lbrace, tk .identifier, tk .lparen, tk .identifier, tk .rparen, tk .rbrace,
        tk .ret, tk .identifier] ++ [tk .rbrace], tk .eof, rfl, rfl, by decide⟩ w_parse

/-- Of `struct a«T» {}` only the declaration is visited, -/
example : postL [nd .structDcl (tk .identifier) (params := [nd .namedType (tk .identifier)])] =
    some [nd .structDcl (tk .identifier) (params := [nd .namedType (tk .identifier)])] := by
  simp [nd, postL, post, postO, inRow, walk, field]

/-- and a `while` without its condition would be a crash (the parser makes no such tree). -/
example : postL [nd .while_ (tk .while_)] = none := by
  simp [nd, postL, post, postO, inRow, walk, field, tested]

end Clara.Props
