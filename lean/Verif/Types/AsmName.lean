import Verif.Types.Model
/-
Model of assembler names (`symtab.go` 241-279, 341-357) and of the duplicate-declaration check
(`ast.go` 170-212, used in `semantic.go` 131-134). Strings are lists of characters.
-/
namespace Clara.Types

abbrev Str := List Char

def Prim.kindName : Prim → Str
  | .bool => "bool".toList
  | .string => "string".toList
  | .nothing => "nothing".toList
  | .pointer => "pointer".toList
  | .int => "int".toList
  | .bytes => "bytes".toList

/-- `strings.Join(_, sep)`. -/
def join (sep : Str) : List Str → Str
  | [] => []
  | [x] => x
  | x :: y :: r => x ++ sep ++ join sep (y :: r)

mutual
/-- `(t *Type) AsmName` (`symtab.go` 241-279). -/
def Ty.asm : Ty → Str
  | .array e => "array$".toList ++ e.asm ++ ['$']
  | .struct n ts => if ts.isEmpty then n.toList else n.toList ++ ['$'] ++ join ['.'] (asmAll ts) ++ ['$']
  | .enum n ts => if ts.isEmpty then n.toList else n.toList ++ ['$'] ++ join ['.'] (asmAll ts) ++ ['$']
  | .fn _ ps _ => if ps.isEmpty then "fn".toList else "fn".toList ++ ['$'] ++ join ['.'] (asmAll ps) ++ ['$']
  | .param _ => ['T']
  | .prim p => p.kindName
def asmAll : List Ty → List Str
  | [] => []
  | t :: ts => t.asm :: asmAll ts
end

/-- `(ft *FunctionType) AsmName` (`symtab.go` 341-357). -/
def fnAsm (kind : FnKind) (name : String) (params : List Ty) : Str :=
  if kind = .external then name.toList
  else if name = "main" then "clara_".toList ++ "main".toList
  else "clara_".toList ++ name.toList ++ (asmAll params).flatMap (fun s => '.' :: s)

mutual
/-- `typeName` of a type (`ast.go` 186-208), `pname` being the declared names of type parameters.
Simplification: read off the type instead of the syntax it was declared with; both spell the same
names. -/
def Ty.key (pname : Nat → String) : Ty → Str
  | .array e => "[]".toList ++ e.key pname
  | .fn _ ps _ => "fn(".toList ++ join ", ".toList (keyAll pname ps) ++ [')']
  | .struct n ts => if ts.isEmpty then n.toList else n.toList ++ ['«'] ++ join ", ".toList (keyAll pname ts) ++ ['»']
  | .enum n ts => if ts.isEmpty then n.toList else n.toList ++ ['«'] ++ join ", ".toList (keyAll pname ts) ++ ['»']
  | .param k => (pname k).toList
  | .prim p => p.kindName
def keyAll (pname : Nat → String) : List Ty → List Str
  | [] => []
  | t :: ts => t.key pname :: keyAll pname ts
end

/-- `typeName` of a function declaration (`ast.go` 175-184). -/
def fnKey (pname : Nat → String) (name : String) (params : List Ty) : Str :=
  name.toList ++ ['('] ++ join ", ".toList (keyAll pname params) ++ [')']

/-- A declared function. -/
structure FnDecl where
  kind : FnKind
  name : String
  params : List Ty

/-- No two functions are declared with the same `typeName` (`semantic.go` 131-134). -/
def accepted (pname : Nat → String) (fs : List FnDecl) : Prop :=
  (fs.map (fun f => fnKey pname f.name f.params)).Nodup

/-! ### Names as trees -/

/-- A name with arguments. -/
inductive Rose
  | node (name : Str) (args : List Rose)

mutual
def Rose.enc : Rose → Str
  | .node n as => if as.isEmpty then n else n ++ '$' :: (join ['.'] (encAll as) ++ ['$'])
def encAll : List Rose → List Str
  | [] => []
  | r :: rs => r.enc :: encAll rs
end

mutual
def Ty.rose : Ty → Rose
  | .array e => .node "array".toList [e.rose]
  | .struct n ts => .node n.toList (roseAll ts)
  | .enum n ts => .node n.toList (roseAll ts)
  | .fn _ ps _ => .node "fn".toList (roseAll ps)
  | .param _ => .node ['T'] []
  | .prim p => .node p.kindName []
def roseAll : List Ty → List Rose
  | [] => []
  | t :: ts => t.rose :: roseAll ts
end

theorem roseAll_isEmpty (ts : List Ty) : (roseAll ts).isEmpty = ts.isEmpty := by
  cases ts <;> rfl

theorem named_enc (n : Str) (ts : List Ty) (h : asmAll ts = encAll (roseAll ts)) :
    (if ts.isEmpty then n else n ++ ['$'] ++ join ['.'] (asmAll ts) ++ ['$']) =
      (Rose.node n (roseAll ts)).enc := by
  rw [Rose.enc, roseAll_isEmpty, h]
  split
  · rfl
  · simp only [List.append_assoc, List.cons_append, List.nil_append]

mutual
theorem asm_enc (t : Ty) : t.asm = t.rose.enc := by
  match t with
  | .array e =>
    have h1 : Ty.asm (.array e) = "array$".toList ++ e.asm ++ ['$'] := rfl
    have h2 : (Ty.array e).rose.enc = "array".toList ++ '$' :: (e.rose.enc ++ ['$']) := rfl
    have he : "array$".toList = "array".toList ++ ['$'] := rfl
    rw [h1, h2, he, asm_enc e, List.append_assoc, List.append_assoc]
    rfl
  | .struct n ts =>
    exact named_enc _ ts (asmAll_enc ts)
  | .enum n ts =>
    exact named_enc _ ts (asmAll_enc ts)
  | .fn _ ps _ =>
    exact named_enc _ ps (asmAll_enc ps)
  | .param _ => rfl
  | .prim p => rfl
theorem asmAll_enc (ts : List Ty) : asmAll ts = encAll (roseAll ts) := by
  match ts with
  | [] => rfl
  | t :: ts => simp only [asmAll, roseAll, encAll, asm_enc t, asmAll_enc ts]
end

/-- The two separators. -/
def isSep (c : Char) : Prop := c = '.' ∨ c = '$'

/-- A non-empty name without separators. -/
def goodName (n : Str) : Prop := n ≠ [] ∧ ∀ c ∈ n, ¬ isSep c

mutual
def Rose.good : Rose → Prop
  | .node n as => goodName n ∧ goodAll as
def goodAll : List Rose → Prop
  | [] => True
  | r :: rs => r.good ∧ goodAll rs
end

/-- What may follow an encoded name: nothing, `.`, or a closing `$` (one that is not followed by a
name). -/
def follow (r : Str) : Prop :=
  r = [] ∨ r.head? = some '.' ∨
    (r.head? = some '$' ∧ ∀ c, r.tail.head? = some c → isSep c)

theorem follow_head {r : Str} (h : follow r) : ∀ c, r.head? = some c → isSep c := by
  intro c hc
  rcases h with h | h | ⟨h, _⟩
  · subst h; cases hc
  · rw [h] at hc; cases hc; exact .inl rfl
  · rw [h] at hc; cases hc; exact .inr rfl

theorem follow_close {r : Str} (h : follow r) : follow (['$'] ++ r) :=
  .inr (.inr ⟨rfl, follow_head h⟩)

theorem follow_open {r : Str} {c : Char} (h : follow ('$' :: r)) (hc : r.head? = some c) : isSep c := by
  rcases h with h | h | ⟨_, h⟩
  · cases h
  · simp only [List.head?_cons, Option.some.injEq] at h; exact absurd h (by decide)
  · exact h c hc

/-- A name is delimited by the first separator. -/
theorem name_split {n m r r' : Str} (hn : ∀ c ∈ n, ¬ isSep c) (hm : ∀ c ∈ m, ¬ isSep c)
    (hr : ∀ c, r.head? = some c → isSep c) (hr' : ∀ c, r'.head? = some c → isSep c)
    (h : n ++ r = m ++ r') : n = m ∧ r = r' := by
  induction n generalizing m with
  | nil =>
    cases m with
    | nil => exact ⟨rfl, h⟩
    | cons d m =>
      simp only [List.nil_append, List.cons_append] at h
      exact absurd (hr d (by rw [h]; rfl)) (hm d (by simp))
  | cons c n ih =>
    cases m with
    | nil =>
      simp only [List.nil_append, List.cons_append] at h
      exact absurd (hr' c (by rw [← h]; rfl)) (hn c (by simp))
    | cons d m =>
      simp only [List.cons_append, List.cons.injEq] at h
      obtain ⟨h1, h2⟩ := ih (fun c hc => hn c (by simp [hc])) (fun c hc => hm c (by simp [hc])) h.2
      exact ⟨by rw [h.1, h1], h2⟩

theorem enc_head {t : Rose} (hg : t.good) (r : Str) :
    ∃ c, (t.enc ++ r).head? = some c ∧ ¬ isSep c := by
  cases t with
  | node n as =>
    obtain ⟨⟨h1, h2⟩, _⟩ := hg
    cases n with
    | nil => exact absurd rfl h1
    | cons c n =>
      refine ⟨c, ?_, h2 c (by simp)⟩
      simp only [Rose.enc]
      split <;> rfl

/-- `join` followed by something, as a function of the list. -/
def joinTail (rs : List Rose) (r : Str) : Str :=
  match rs with
  | [] => r
  | x :: xs => '.' :: (x.enc ++ joinTail xs r)

theorem join_enc (x : Rose) (xs : List Rose) (r : Str) :
    join ['.'] (encAll (x :: xs)) ++ r = x.enc ++ joinTail xs r := by
  induction xs generalizing x with
  | nil => simp [encAll, join, joinTail]
  | cons y ys ih =>
    have := ih y
    simp only [encAll, join, joinTail, List.append_assoc] at this ⊢
    rw [this]
    rfl

theorem follow_joinTail {xs : List Rose} {r : Str} (hr : follow r) : follow (joinTail xs r) := by
  cases xs with
  | nil => exact hr
  | cons => exact .inr (.inl rfl)

mutual
/-- Encoded names are uniquely readable. -/
theorem enc_inj (t u : Rose) (ht : t.good) (hu : u.good) (r r' : Str) (hr : follow r)
    (hr' : follow r') (h : t.enc ++ r = u.enc ++ r') : t = u ∧ r = r' := by
  match t, u with
  | .node n as, .node m bs =>
    obtain ⟨⟨_, hn⟩, has⟩ := ht
    obtain ⟨⟨_, hm⟩, hbs⟩ := hu
    simp only [Rose.enc] at h
    cases as with
    | nil =>
      cases bs with
      | nil =>
        simp only [List.isEmpty_nil, if_true] at h
        obtain ⟨h1, h2⟩ := name_split hn hm (follow_head hr) (follow_head hr') h
        exact ⟨by rw [h1], h2⟩
      | cons b bs =>
        exfalso
        simp only [List.isEmpty_nil, List.isEmpty_cons, if_true, Bool.false_eq_true, if_false,
          List.append_assoc, List.cons_append] at h
        obtain ⟨_, h2⟩ := name_split hn hm (follow_head hr) (by
          intro c hc; simp only [List.head?_cons, Option.some.injEq] at hc; exact .inr hc.symm) h
        rw [join_enc] at h2
        obtain ⟨c, hc1, hc2⟩ := enc_head hbs.1 (joinTail bs (['$'] ++ r'))
        rw [h2] at hr
        exact hc2 (follow_open hr hc1)
    | cons a as =>
      cases bs with
      | nil =>
        exfalso
        simp only [List.isEmpty_nil, List.isEmpty_cons, if_true, Bool.false_eq_true, if_false,
          List.append_assoc, List.cons_append] at h
        obtain ⟨_, h2⟩ := name_split hn hm (by
          intro c hc; simp only [List.head?_cons, Option.some.injEq] at hc; exact .inr hc.symm)
          (follow_head hr') h
        rw [join_enc] at h2
        obtain ⟨c, hc1, hc2⟩ := enc_head has.1 (joinTail as (['$'] ++ r))
        rw [← h2] at hr'
        exact hc2 (follow_open hr' hc1)
      | cons b bs =>
        simp only [List.isEmpty_cons, Bool.false_eq_true, if_false,
          List.append_assoc, List.cons_append] at h
        obtain ⟨h1, h2⟩ := name_split hn hm (by
          intro c hc; simp only [List.head?_cons, Option.some.injEq] at hc; exact .inr hc.symm) (by
          intro c hc; simp only [List.head?_cons, Option.some.injEq] at hc; exact .inr hc.symm) h
        simp only [List.cons.injEq, true_and] at h2
        rw [join_enc, join_enc] at h2
        obtain ⟨h3, h4⟩ := enc_inj a b has.1 hbs.1 _ _ (follow_joinTail (follow_close hr))
          (follow_joinTail (follow_close hr')) h2
        obtain ⟨h5, h6⟩ := tail_inj as bs has.2 hbs.2 r r' hr hr' h4
        exact ⟨by rw [h1, h3, h5], h6⟩
theorem tail_inj (as bs : List Rose) (has : goodAll as) (hbs : goodAll bs) (r r' : Str)
    (hr : follow r) (hr' : follow r')
    (h : joinTail as (['$'] ++ r) = joinTail bs (['$'] ++ r')) : as = bs ∧ r = r' := by
  match as, bs with
  | [], [] => exact ⟨rfl, (List.cons.inj h).2⟩
  | [], b :: bs => exact absurd (Option.some.inj (congrArg List.head? h)) (by decide : '$' ≠ '.')
  | a :: as, [] => exact absurd (Option.some.inj (congrArg List.head? h)) (by decide : '.' ≠ '$')
  | a :: as, b :: bs =>
    simp only [joinTail, List.cons.injEq, true_and] at h
    obtain ⟨h3, h4⟩ := enc_inj a b has.1 hbs.1 _ _ (follow_joinTail (follow_close hr))
      (follow_joinTail (follow_close hr')) h
    obtain ⟨h5, h6⟩ := tail_inj as bs has.2 hbs.2 r r' hr hr' h4
    exact ⟨by rw [h3, h5], h6⟩
end

/-- The same for a sequence of names, each preceded by `.`. -/
theorem seq_inj (as bs : List Rose) (has : goodAll as) (hbs : goodAll bs)
    (h : (encAll as).flatMap (fun s => '.' :: s) = (encAll bs).flatMap (fun s => '.' :: s)) :
    as = bs := by
  induction as generalizing bs with
  | nil =>
    cases bs with
    | nil => rfl
    | cons b bs => simp [encAll] at h
  | cons a as ih =>
    cases bs with
    | nil => simp [encAll] at h
    | cons b bs =>
      simp only [encAll, List.flatMap_cons, List.cons_append, List.cons.injEq, true_and] at h
      have hf : ∀ xs : List Rose, follow ((encAll xs).flatMap (fun s => '.' :: s)) := by
        intro xs; cases xs with
        | nil => exact .inl rfl
        | cons => exact .inr (.inl rfl)
      obtain ⟨h1, h2⟩ := enc_inj a b has.1 hbs.1 _ _ (hf as) (hf bs) h
      rw [h1, ih bs has.2 hbs.2 h2]

end Clara.Types
