import Verif.Gen.TypeTableProof
/-
C45: the type table of the collector describes the objects that the constructors build.
-/
namespace Clara.Props
open Clara.Gen
open Clara.Tbl

/-- Copies of a memory operand to another one through `rbx`, in the code of a function. -/
def copies : List Ev → List (MemOp × MemOp)
  | e :: c =>
    (match e, c with
      | .ins (.mov (.mem a) (.reg .rbx)), .ins (.mov (.reg .rbx) (.mem b)) :: _ => [(a, b)]
      | _, _ => []) ++ copies c
  | [] => []

/-- The code stores the parameter `k` (saved in stack slot `k + 1`) in word `off` of the new object. -/
def StoresAt (code : List Ev) (k : Nat) (off : Int) : Prop :=
  ((slotOp (k + 1), { base := .rax, disp := 8 * off }) : MemOp × MemOp) ∈ copies code

def isLoad : Ev → Bool
  | .ins (.mov (.mem _) (.reg .rbx)) => true
  | _ => false

theorem copies_cons {e : Ev} {c : List Ev} (h : isLoad e = false) : copies (e :: c) = copies c := by
  simp only [copies]
  split
  · simp [isLoad] at h
  · rfl

theorem copies_append {a c : List Ev} (h : ∀ e ∈ a, isLoad e = false) : copies (a ++ c) = copies c := by
  induction a with
  | nil => rfl
  | cons e a ih =>
    rw [List.cons_append, copies_cons (h e List.mem_cons_self), ih (fun e he => h e (List.mem_cons_of_mem _ he))]

theorem genParams_load (ps : List (Nat × TyR)) (i : Nat) (gc : GcS) : ∀ e ∈ (genParams ps i gc).1, isLoad e = false := by
  induction ps generalizing i gc with
  | nil => simp [genParams]
  | cons p ps ih =>
    intro e he
    simp only [genParams, List.mem_cons] at he
    rcases he with rfl | he
    · split
      · unfold slotIns; split <;> rfl
      · rfl
    · exact ih _ _ e he

/-- The pairs copied by the field stores. -/
def pairs : Nat → Nat → Nat → List (MemOp × MemOp)
  | 0, _, _ => []
  | n + 1, i, off => (slotOp (i + 1), { base := .rax, disp := off }) :: pairs n (i + 1) (off + 8)

theorem copies_fields (n i off : Nat) (c : List Ev) : copies (genFields n i off ++ c) = pairs n i off ++ copies c := by
  induction n generalizing i off with
  | zero => rfl
  | succ n ih =>
    simp only [genFields, List.cons_append, copies, pairs]
    rw [ih]
    rfl

theorem mem_pairs {n i off k : Nat} {o : Int} :
    ((slotOp (k + 1), { base := .rax, disp := 8 * o }) : MemOp × MemOp) ∈ pairs n i off ↔
      ∃ j, j < n ∧ k = i + j ∧ 8 * o = ((off + 8 * j : Nat) : Int) := by
  induction n generalizing i off with
  | zero => simp [pairs]
  | succ n ih =>
    rw [pairs, List.mem_cons, ih]
    simp only [Prod.mk.injEq, slotOp, MemOp.mk.injEq, true_and]
    constructor
    · rintro (⟨h1, h2⟩ | ⟨j, h1, h2, h3⟩)
      · exact ⟨0, by omega, by omega, by omega⟩
      · exact ⟨j + 1, by omega, by omega, by omega⟩
    · rintro ⟨j, h1, h2, h3⟩
      cases j with
      | zero => left; omega
      | succ j => exact .inr ⟨j, by omega, by omega, by omega⟩

theorem stores_cons (alloc : String) (fd : FnDef) (lbl : Nat) {tag : Option Nat} {desc : String} {id : Nat} (hb : fd.body = .cons tag desc id)
    (k : Nat) (off : Int) : StoresAt (genFunc alloc fd lbl).1 k off ↔ k < fd.params.length ∧ off = k + if tag.isSome then 1 else 0 := by
  have hex : copies (genFnExit false ++ [.flush]) = [] := rfl
  simp only [StoresAt, genFunc, hb]
  rw [copies_cons rfl, copies_cons rfl, copies_cons rfl, copies_cons rfl, copies_append (genParams_load _ _ _)]
  simp only [genCons, List.cons_append, List.append_assoc]
  rw [copies_cons rfl, copies_cons rfl, copies_cons rfl, copies_cons rfl, copies_cons rfl, copies_cons rfl]
  cases tag with
  | none =>
    simp only [copies_fields, hex, List.append_nil, mem_pairs, Option.isSome_none]
    constructor
    · rintro ⟨j, h1, h2, h3⟩; constructor
      · omega
      · simp only [Bool.false_eq_true, if_false]; omega
    · rintro ⟨h1, h2⟩
      simp only [Bool.false_eq_true, if_false] at h2
      exact ⟨k, h1, by omega, by omega⟩
  | some t =>
    simp only [List.cons_append]
    rw [copies_cons rfl]
    simp only [copies_fields, hex, List.append_nil, mem_pairs, Option.isSome_some, if_true]
    constructor
    · rintro ⟨j, h1, h2, h3⟩; constructor <;> omega
    · rintro ⟨h1, h2⟩
      exact ⟨k, h1, by omega, by omega⟩

theorem mem_fieldOffs (ps : List TK) (x : Nat) (off : Int) :
    off ∈ fieldOffs (mkFields x ps) ↔ ∃ k t, ps[k]? = some t ∧ t.isPointer = true ∧ off = ((x + k : Nat) : Int) := by
  induction ps generalizing x with
  | nil => simp [fieldOffs, mkFields]
  | cons p ps ih =>
    have h1 : off ∈ fieldOffs (mkFields x (p :: ps)) ↔ (p.isPointer = true ∧ off = (x : Int)) ∨ off ∈ fieldOffs (mkFields (x + 1) ps) := by
      simp only [fieldOffs, mkFields, List.filter_cons]
      split
      · rename_i h
        simp only [List.map_cons, List.mem_cons, Nat.mul_div_cancel x (by omega : 0 < 8), h, true_and]
      · rename_i h
        simp only [h, Bool.false_eq_true, false_and, false_or]
    rw [h1, ih]
    constructor
    · rintro (⟨h1, h2⟩ | ⟨k, t, h1, h2, h3⟩)
      · exact ⟨0, p, rfl, h1, by omega⟩
      · exact ⟨k + 1, t, h1, h2, by omega⟩
    · rintro ⟨k, t, h1, h2, h3⟩
      cases k with
      | zero =>
        simp only [List.getElem?_cons_zero, Option.some.injEq] at h1
        subst h1
        exact .inl ⟨h2, by omega⟩
      | succ k => exact .inr ⟨k, t, h1, h2, by omega⟩

theorem mem_memberOffs (ps : List TK) (x : Nat) (off : Int) :
    off ∈ memberOffs x ps ↔ ∃ k t, ps[k]? = some t ∧ t.isPointer = true ∧ off = ((x + k + 1 : Nat) : Int) := by
  induction ps generalizing x with
  | nil => simp [memberOffs]
  | cons p ps ih =>
    have h1 : off ∈ memberOffs x (p :: ps) ↔ (p.isPointer = true ∧ off = ((x + 1 : Nat) : Int)) ∨ off ∈ memberOffs (x + 1) ps := by
      simp only [memberOffs]
      split
      · rename_i h; simp only [List.mem_cons, h, true_and]
      · rename_i h; simp only [h, false_and, false_or, Bool.false_eq_true]
    rw [h1, ih]
    constructor
    · rintro (⟨h1, h2⟩ | ⟨k, t, h1, h2, h3⟩)
      · exact ⟨0, p, rfl, h1, by omega⟩
      · exact ⟨k + 1, t, h1, h2, by omega⟩
    · rintro ⟨k, t, h1, h2, h3⟩
      cases k with
      | zero =>
        simp only [List.getElem?_cons_zero, Option.some.injEq] at h1
        subst h1
        exact .inl ⟨h2, by omega⟩
      | succ k => exact .inr ⟨k, t, h1, h2, by omega⟩

theorem mem_entry (t : Nat) (tag : Option Nat) (ps : List TK) (off : Int) :
    off ∈ entry (t, tag, ps) ↔ ∃ (k : Nat) (ty : TK), ps[k]? = some ty ∧ ty.isPointer = true ∧ off = k + if tag.isSome then 1 else 0 := by
  cases tag with
  | none => simp [entry, mem_fieldOffs]
  | some n => simp [entry, mem_memberOffs]

theorem con_get {ds : List Decl} {ls : List Local} {c : Con} (hc : c ∈ constructors ds ls) :
    ∃ i, (constructors ds ls)[i]? = some c ∧ c.id = 8 + i := by
  obtain ⟨i, hi⟩ := List.getElem?_of_mem hc
  exact ⟨i, hi, (assignIds_spec _ _).2.2 i c hi⟩

/-- **C45.**  The table of every program exists (its construction does not panic); for every constructor, with the code `fd` of
its function, the entry at its type id lists exactly the words in which the code stores a parameter of pointer type. -/
theorem C45_layout (ds : List Decl) (ls : List Local) : ∃ table, typeTable ds ls = some table ∧
    ∀ c ∈ constructors ds ls, ∃ offs, table[c.id]? = some (.struct offs) ∧
      ∀ (alloc desc : String) (fd : FnDef) (lbl : Nat), fd.params.map (·.2.kind) = c.params → fd.body = .cons c.tag desc c.id →
        ∀ off : Int, off ∈ offs ↔ ∃ (k : Nat) (t : TK), c.params[k]? = some t ∧ t.isPointer = true ∧ StoresAt (genFunc alloc fd lbl).1 k off := by
  refine ⟨_, typeTable_eq ds ls, ?_⟩
  intro c hc
  obtain ⟨i, hi, hid⟩ := con_get hc
  refine ⟨entry (c.ret, c.tag, c.params), ?_, ?_⟩
  · rw [hid, List.getElem?_append_right (by simp [builtinInfos])]
    simp [builtinInfos, hi]
  · intro alloc desc fd lbl hps hb off
    rw [mem_entry]
    refine exists_congr fun k => exists_congr fun t => and_congr_right fun h1 => and_congr_right fun _ => ?_
    rw [stores_cons alloc fd lbl hb]
    have : k < fd.params.length := by
      have := (List.getElem?_eq_some_iff.1 h1).1
      rw [← hps, List.length_map] at this
      exact this
    simp only [this, true_and]

/-- Every declared struct has a constructor, every member of a declared enum has one with its position as tag, and type ids are
not shared. -/
theorem C45_all (ds : List Decl) (ls : List Local) :
    (∀ fs, Decl.struct fs ∈ ds → ∃ c ∈ constructors ds ls, c.tag = none ∧ c.params = fs) ∧
    (∀ ms j ps, Decl.enum ms ∈ ds → ms[j]? = some ps → ∃ c ∈ constructors ds ls, c.tag = some j ∧ c.params = ps) ∧
    ((constructors ds ls).map (·.id)).Nodup := by
  obtain ⟨gs, ss, R⟩ := lowered_ready ds ls
  have hm := (assignIds_spec (lowered ds ls).root (addBuiltins (lowered ds ls).types).2).2.1
  rw [R.con] at hm
  have back : ∀ x : CK, x ∈ gs.flatMap (fun g => group g.1 0 g.2) ++ ss → ∃ c ∈ constructors ds ls, c.tag = x.2.1 ∧ c.params = x.2.2 := by
    intro x hx
    rw [← hm] at hx
    obtain ⟨c, hc, rfl⟩ := List.mem_map.1 hx
    exact ⟨c, hc, rfl, rfl⟩
  refine ⟨?_, ?_, ?_⟩
  · intro fs hf
    obtain ⟨t, ht⟩ := R.allStructs fs hf
    exact back (t, none, fs) (List.mem_append_right _ ht)
  · intro ms j ps hms hj
    obtain ⟨t, ht⟩ := R.allEnums ms hms
    have := group_mem (t := t) (i := 0) hj
    rw [Nat.zero_add] at this
    exact back (t, some j, ps) (List.mem_append_left _ (List.mem_flatMap.2 ⟨_, ht, this⟩))
  · rw [List.Nodup, List.pairwise_map, List.pairwise_iff_getElem]
    intro i j hi hj hij
    have e1 := (assignIds_spec _ _).2.2 i _ (List.getElem?_eq_getElem hi)
    have e2 := (assignIds_spec _ _).2.2 j _ (List.getElem?_eq_getElem hj)
    change (constructors ds ls)[i].id = _ at e1
    change (constructors ds ls)[j].id = _ at e2
    omega

/-- The entries used by the library without a constructor: `bytes`, `[]int`, `[]string`, strings, functions and other arrays
(`arrays.clara` 29-49, `strings.clara`, `asm.go` 388, 424). -/
theorem C45_builtins (ds : List Decl) (ls : List Local) : ∃ table, typeTable ds ls = some table ∧
    table[1]? = some .bytes ∧ table[2]? = some (.array false) ∧ table[3]? = some (.array true) ∧ table[4]? = some .string ∧
    table[5]? = some .function ∧ table[6]? = some .bytes ∧ table[7]? = some (.array true) :=
  ⟨_, typeTable_eq ds ls, rfl, rfl, rfl, rfl, rfl, rfl, rfl⟩

/-- `struct p { x: int  s: string }`, `enum e { A(), B(n: int, s: string), C(f: fn()) }`, `struct q { x: int }`, `enum f { D(x: bytes) }`
and a closure over a string and an int. -/
def tblDecls : List Decl :=
  [.struct [.integer, .string], .func, .enum [[], [.integer, .string], [.function]], .struct [.integer], .enum [[.bytes]]]

example : typeTable tblDecls [.anon, .closure [.string, .integer]] = some (builtinInfos ++
    [.struct [], .struct [2], .struct [1], .struct [1], .struct [1], .struct [], .struct [0], .struct [0, 1]]) := by decide +kernel

example : constructors tblDecls [.anon, .closure [.string, .integer]] =
    [⟨6, some 0, [], 8⟩, ⟨6, some 1, [.integer, .string], 9⟩, ⟨6, some 2, [.function], 10⟩, ⟨8, some 0, [.bytes], 11⟩,
     ⟨5, none, [.integer, .string], 12⟩, ⟨7, none, [.integer], 13⟩, ⟨9, none, [.string, .integer], 14⟩,
     ⟨10, none, [.function, .struct], 15⟩] := by decide +kernel

end Clara.Props
