import Verif.Sema.DeclareThird
set_option linter.unusedVariables false
/-
The phases of declaring together.
-/
namespace Clara.Sema.Dcl
open Clara Clara.Types
open Clara.Sema.Chk (TyN Err Head FnBody assign Env FindsType MeansAll)

/-! ### The nodes for the third loop -/

theorem nodes_append : ∀ (a b : List Dcl) (id : Nat), nodes id (a ++ b) =
    ((nodes id a).1 ++ (nodes (id + (a.flatMap Dcl.entries).length) b).1, (nodes id a).2 ++ (nodes (id + (a.flatMap Dcl.entries).length) b).2)
  | [], b, id => by simp [nodes]
  | .struct n tps fs :: a, b, id => by
    simp only [List.cons_append, nodes, nodes_append a b id, List.flatMap_cons, Dcl.entries, List.nil_append]
  | .enum n tps cs :: a, b, id => by
    simp only [List.cons_append, nodes, nodes_append a b, List.flatMap_cons, Dcl.entries, List.length_append, List.length_map]
    rw [Nat.add_assoc, List.append_assoc]
  | .fn f :: a, b, id => by
    simp only [List.cons_append, nodes, nodes_append a b, List.flatMap_cons, Dcl.entries, List.length_append, List.length_cons, List.length_nil]
    rw [Nat.add_assoc, Nat.add_comm 1, Nat.zero_add]

/-- The declared structs with their fields. -/
theorem nodes_struct {n : String} {fs : List (String × TyN)} : ∀ {ds : List Dcl} {id : Nat}, Node.struct n fs ∈ (nodes id ds).1 ↔ ∃ tps, Dcl.struct n tps fs ∈ ds
  | [], id => by simp [nodes]
  | .struct m tps gs :: ds, id => by
    simp only [nodes, List.mem_cons, nodes_struct (ds := ds)]
    constructor
    · rintro (h | ⟨t, h⟩)
      · cases h; exact ⟨tps, .inl rfl⟩
      · exact ⟨t, .inr h⟩
    · rintro ⟨t, h | h⟩
      · cases h; exact .inl rfl
      · exact .inr ⟨t, h⟩
  | .enum m tps cs :: ds, id => by simp [nodes, nodes_struct (ds := ds)]
  | .fn f :: ds, id => by simp [nodes, nodes_struct (ds := ds)]

theorem structNames_fns : ∀ is : List Item, structNames (is.map .fn) = []
  | [] => rfl
  | i :: is => by simp [structNames, structNames_fns is]

theorem itemIds_fns : ∀ is : List Item, itemIds (is.map .fn) = is.map (·.id)
  | [] => rfl
  | i :: is => by simp [itemIds, itemIds_fns is]

theorem nodes_names : ∀ (ds : List Dcl) (id : Nat), structNames (nodes id ds).1 = (ds.filterMap Dcl.structEntry).map (·.1)
  | [], id => rfl
  | .struct n tps fs :: ds, id => by simp [nodes, structNames, List.filterMap_cons, Dcl.structEntry, nodes_names ds]
  | .enum n tps cs :: ds, id => by simp [nodes, List.filterMap_cons, Dcl.structEntry, nodes_names ds]
  | .fn f :: ds, id => by simp [nodes, structNames, List.filterMap_cons, Dcl.structEntry, nodes_names ds]

theorem consItems_ids (n : String) : ∀ (cs : List (String × List (String × TyN))) (id : Nat), (consItems n id cs).map (·.id) = List.range' id cs.length
  | [], id => rfl
  | (c, ps) :: cs, id => by simp [consItems, consItems_ids n cs, List.range'_succ]

theorem nodes_ids : ∀ (ds : List Dcl) (id : Nat), (itemIds (nodes id ds).1 ++ (nodes id ds).2.map (·.id)).Nodup ∧
    ∀ j ∈ itemIds (nodes id ds).1 ++ (nodes id ds).2.map (·.id), id ≤ j ∧ j < id + (ds.flatMap Dcl.entries).length
  | [], id => by simp [nodes, itemIds]
  | .struct n tps fs :: ds, id => by
    have := nodes_ids ds id
    simpa [nodes, itemIds, Dcl.entries] using this
  | .enum n tps cs :: ds, id => by
    obtain ⟨h1, h2⟩ := nodes_ids ds (id + cs.length)
    simp only [nodes, List.map_append, consItems_ids, List.flatMap_cons, Dcl.entries, List.length_append, List.length_map]
    simp only [List.mem_append, List.nodup_append] at h1 h2 ⊢
    refine ⟨⟨h1.1, ⟨List.nodup_range', h1.2.1, fun a ha b hb => ?_⟩, fun a ha b hb => ?_⟩, fun j hj => ?_⟩
    · have := h2 b (.inr hb)
      rw [List.mem_range'_1] at ha
      omega
    · rcases hb with hb | hb
      · have := h2 a (.inl ha)
        rw [List.mem_range'_1] at hb
        omega
      · exact h1.2.2 a ha b hb
    · rcases hj with hj | hj | hj
      · have := h2 j (.inl hj); omega
      · rw [List.mem_range'_1] at hj; omega
      · have := h2 j (.inr hj); omega
  | .fn f :: ds, id => by
    obtain ⟨h1, h2⟩ := nodes_ids ds (id + 1)
    simp only [nodes, itemIds, List.flatMap_cons, Dcl.entries, List.length_append, List.length_cons, List.length_nil, List.cons_append, List.nodup_cons]
    refine ⟨⟨fun hm => ?_, h1⟩, fun j hj => ?_⟩
    · have := h2 _ hm; omega
    · rcases List.mem_cons.1 hj with rfl | hj
      · omega
      · have := h2 j hj; omega

/-! ### Everything about a successful run -/

def allNodes (ds : List Dcl) : List Node := (nodes 2 ds).1 ++ (nodes 2 ds).2.map .fn

/-- The tables after the first two loops. -/
structure Loops (ds : List Dcl) (T1 T2 : Tab) : Prop where
  first : FirstOk Tab.std T1 ds
  second : SecondOk T1 T2 ds
  known : Known T1 ds
  empty : ∀ n S, T1.structs.lookup n = some S → S.fields = []
  emptyE : ∀ n E, T1.enums.lookup n = some E → E.members = []
  names : ((ds.filterMap Dcl.typeEntry).map (·.1)).Nodup
  wf : Wf T2
  fits : Fits T2 (allNodes ds)
  structs : (structNames (allNodes ds)).Nodup
  ids : (itemIds (allNodes ds)).Nodup

/-- The tables between the loops. -/
structure Run (k : Nat) (ds : List Dcl) (T1 T2 F T : Tab) (items : List Item) : Prop extends Loops ds T1 T2 where
  third : third k T2 (allNodes ds) = .ok (F, [])
  conses : structConses F ds = .ok (T, [])
  items : items = ((nodes 2 ds).1.filterMap fun n => match n with | .fn i => some i | .struct _ _ => none) ++ (nodes 2 ds).2

theorem names_structs {ds : List Dcl} (h : ((ds.filterMap Dcl.typeEntry).map (·.1)).Nodup) :
    ((ds.filterMap Dcl.structEntry).map (·.1)).Nodup ∧ ((ds.filterMap Dcl.enumEntry).map (·.1)).Nodup := by
  induction ds with
  | nil => simp
  | cons d ds ih =>
    cases d with
    | struct n tps fs =>
      simp only [List.filterMap_cons, Dcl.typeEntry, Dcl.structEntry, Dcl.enumEntry, List.map_cons, List.nodup_cons] at h ⊢
      refine ⟨⟨fun hm => ?_, (ih h.2).1⟩, (ih h.2).2⟩
      obtain ⟨e, he, rfl⟩ := List.mem_map.1 hm
      obtain ⟨d, hd, he⟩ := List.mem_filterMap.1 he
      cases d <;> simp [Dcl.structEntry] at he
      subst he
      exact h.1 (struct_entry hd)
    | enum n tps cs =>
      simp only [List.filterMap_cons, Dcl.typeEntry, Dcl.structEntry, Dcl.enumEntry, List.map_cons, List.nodup_cons] at h ⊢
      refine ⟨(ih h.2).1, ⟨fun hm => ?_, (ih h.2).2⟩⟩
      obtain ⟨e, he, rfl⟩ := List.mem_map.1 hm
      obtain ⟨d, hd, he⟩ := List.mem_filterMap.1 he
      cases d <;> simp [Dcl.enumEntry] at he
      subst he
      exact h.1 (enum_entry hd)
    | fn f =>
      simp only [List.filterMap_cons, Dcl.typeEntry, Dcl.structEntry, Dcl.enumEntry] at h ⊢
      exact ih h

theorem loops_ok {ds : List Dcl} (hi : Identified ds) (h1 : (loop first Tab.std ds).2 = []) (h2 : (loop second (loop first Tab.std ds).1 ds).2 = []) :
    Loops ds (loop first Tab.std ds).1 (loop second (loop first Tab.std ds).1 ds).1 := by
  have f1 := first_ok (Prod.ext (x := loop first Tab.std ds) rfl h1)
  have hroot := f1.distinct (by decide)
  have hnames : ((ds.filterMap Dcl.typeEntry).map (·.1)).Nodup := by
    rw [f1.root, List.map_append, List.nodup_append] at hroot
    exact hroot.2.1
  obtain ⟨hsn, hen⟩ := names_structs hnames
  have hs1 : ∀ n tps fs, Dcl.struct n tps fs ∈ ds → (loop first Tab.std ds).1.structs.lookup n = some ⟨tps, []⟩ := by
    intro n tps fs hm
    rw [f1.structs]
    exact lookup_of_mem (by simpa [Tab.std] using hsn) (List.mem_append_right _ (List.mem_filterMap.2 ⟨_, hm, rfl⟩))
  have he1 : ∀ n tps cs, Dcl.enum n tps cs ∈ ds → (loop first Tab.std ds).1.enums.lookup n = some ⟨tps, []⟩ := by
    intro n tps fs hm
    rw [f1.enums]
    exact lookup_of_mem (by simpa [Tab.std] using hen) (List.mem_append_right _ (List.mem_filterMap.2 ⟨_, hm, rfl⟩))
  have hk : Known (loop first Tab.std ds).1 ds :=
    ⟨fun n tps fs hm => ⟨[], hs1 n tps fs hm⟩, fun n tps cs hm => ⟨[], he1 n tps cs hm⟩⟩
  have f2 := second_ok hk hnames (Prod.ext (x := loop second _ ds) rfl h2)
  have hempty : ∀ n S, (loop first Tab.std ds).1.structs.lookup n = some S → S.fields = [] := by
    intro n S hS
    rw [f1.structs] at hS
    have := lookup_mem' hS
    simp only [Tab.std, List.nil_append] at this
    obtain ⟨d, hd, he⟩ := List.mem_filterMap.1 this
    cases d <;> simp [Dcl.structEntry] at he
    rw [← he.2]
  have hemptyE : ∀ n E, (loop first Tab.std ds).1.enums.lookup n = some E → E.members = [] := by
    intro n S hS
    rw [f1.enums] at hS
    have := lookup_mem' hS
    simp only [Tab.std, List.nil_append] at this
    obtain ⟨d, hd, he⟩ := List.mem_filterMap.1 this
    cases d <;> simp [Dcl.enumEntry] at he
    rw [← he.2]
  have hwf : Wf (loop second (loop first Tab.std ds).1 ds).1 := by
    intro x t r hx
    have ht : (loop second (loop first Tab.std ds).1 ds).1.type? [] x = some t := by simp [Tab.type?, hx]
    rw [f2.step.types] at ht
    simp only [Tab.type?, List.lookup_nil] at ht
    split at ht
    · rename_i t' r' hl
      cases ht
      rw [f1.root] at hl
      rcases List.mem_append.1 (lookup_mem' hl) with hm | hm
      · left
        simp only [Tab.std, List.mem_cons, List.not_mem_nil, or_false, Prod.mk.injEq, List.cons.injEq, RSym.type.injEq, reduceCtorEq, false_and, and_false] at hm
        rcases hm with h | h | h | h | h | h <;> exact ⟨_, h.2.1⟩
      · obtain ⟨d, hd, he⟩ := List.mem_filterMap.1 hm
        cases d with
        | struct n tps fs =>
          simp only [Dcl.typeEntry, Option.some.injEq, Prod.mk.injEq, List.cons.injEq, RSym.type.injEq] at he
          obtain ⟨rfl, rfl, _⟩ := he
          refine .inr (.inl ⟨rfl, ?_⟩)
          obtain ⟨h5, _⟩ := f2.structs _ _ _ _ hd (hs1 _ _ _ hd)
          exact ⟨_, h5, hi _ hd⟩
        | enum n tps cs =>
          simp only [Dcl.typeEntry, Option.some.injEq, Prod.mk.injEq, List.cons.injEq, RSym.type.injEq] at he
          obtain ⟨rfl, rfl, _⟩ := he
          obtain ⟨pre, post, hsp⟩ := List.append_of_mem hd
          obtain ⟨h5, _⟩ := f2.enums pre _ _ _ post _ hsp (he1 _ _ _ hd)
          exact .inr (.inr ⟨_, h5, hi _ hd, rfl⟩)
        | fn f => simp [Dcl.typeEntry] at he
    · cases ht
  refine ⟨f1, f2, hk, hempty, hemptyE, hnames, hwf, ?_, ?_, ?_⟩
  · intro n fs hm
    have hm' : Node.struct n fs ∈ (nodes 2 ds).1 := by
      rcases List.mem_append.1 hm with hm | hm
      · exact hm
      · obtain ⟨_, _, h⟩ := List.mem_map.1 hm
        cases h
    obtain ⟨tps, hd⟩ := nodes_struct.1 hm'
    obtain ⟨h5, h6, _⟩ := f2.structs _ _ _ _ hd (hs1 _ _ _ hd)
    exact ⟨_, _, h5, by simp [Function.comp_def], h6⟩
  · unfold allNodes
    rw [structNames_append, structNames_fns, List.append_nil, nodes_names]
    exact hsn
  · unfold allNodes
    rw [itemIds_append, itemIds_fns]
    exact (nodes_ids ds 2).1

theorem declare_run {k : Nat} {ds : List Dcl} {T : Tab} {items : List Item} (hi : Identified ds) (h : declare k ds = .ok (T, items, [])) :
    ∃ T1 T2 F, Run k ds T1 T2 F T items := by
  unfold declare at h
  simp only at h
  split at h
  · rename_i hne
    simp only [Except.ok.injEq, Prod.mk.injEq] at h
    exact absurd h.2.2 hne
  · rename_i h1
    simp only [ne_eq, Classical.not_not] at h1
    split at h
    · rename_i hne
      simp only [Except.ok.injEq, Prod.mk.injEq] at h
      exact absurd h.2.2 hne
    · rename_i h2
      simp only [ne_eq, Classical.not_not] at h2
      split at h
      · cases h
      · rename_i F es h3
        split at h
        · rename_i hne
          simp only [Except.ok.injEq, Prod.mk.injEq] at h
          exact absurd h.2.2 hne
        · rename_i he
          simp only [ne_eq, Classical.not_not] at he
          subst he
          split at h
          · cases h
          · rename_i T' es' h4
            simp only [Except.ok.injEq, Prod.mk.injEq] at h
            obtain ⟨rfl, rfl, rfl⟩ := h
            exact ⟨_, _, F, loops_ok hi h1 h2, h3, h4, rfl⟩

end Clara.Sema.Dcl
