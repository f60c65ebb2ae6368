import Verif.Sema.DeclareRules
import Verif.Sema.DeclareOrder
set_option linter.unusedVariables false
set_option linter.unusedSectionVars false
/-
The tables after the declarations are the ones of `Verif/Sema/DeclareRules.lean`.
-/
namespace Clara.Sema.Dcl
open Clara.Types
open Clara.Sema.Chk (TyN Err Head FnBody Alt Sym Scope Env Decls Fn MeansAll FindsType plainSym tparamSym)

/-! ### Names -/

def ne {α : Type} : List α → Option (List α)
  | [] => none
  | a :: as => some (a :: as)

theorem ne_map {α β : Type} (f : α → β) (l : List α) : (ne l).map (List.map f) = ne (l.map f) := by cases l <;> simp [ne]

theorem join_ne (a b : List RSym) : joinSyms (ne a) b = ne (a ++ b) := by cases a <;> cases b <;> simp [joinSyms, ne]

theorem lookup_single {β : Type} {l : List (String × β)} (h : (l.map (·.1)).Nodup) (x : String) :
    (l.map fun p => (p.1, [p.2])).lookup x = ne ((l.filter (·.1 = x)).map (·.2)) := by
  induction l with
  | nil => simp [ne]
  | cons e l ih =>
    obtain ⟨y, b⟩ := e
    simp only [List.map_cons, List.nodup_cons] at h
    simp only [List.map_cons, lookup_cons', ih h.2, List.filter_cons]
    by_cases hx : x = y
    · subst hx
      have : l.filter (fun p => decide (p.1 = x)) = [] := by
        rw [List.filter_eq_nil_iff]
        intro p hp hpx
        simp only [decide_eq_true_eq] at hpx
        exact h.1 (hpx ▸ List.mem_map_of_mem hp)
      simp [this, ne]
    · simp [hx, Ne.symm hx]

/-- The functions of the name. -/
def fnSyms (x : String) (id : Nat) : List String → List RSym
  | [] => []
  | y :: ys => if y = x then .fn id :: fnSyms x (id + 1) ys else fnSyms x (id + 1) ys

theorem idsOf_fnSyms (x : String) : ∀ (es : List Entry) (id : Nat), idsOf x id es = fnSyms x id (es.map (·.name))
  | [], id => rfl
  | e :: es, id => by simp only [idsOf, List.map_cons, fnSyms, idsOf_fnSyms x es]

theorem fnSyms_append (x : String) : ∀ (a b : List String) (id : Nat), fnSyms x id (a ++ b) = fnSyms x id a ++ fnSyms x (id + a.length) b
  | [], b, id => by simp [fnSyms]
  | y :: a, b, id => by
    simp only [List.cons_append, fnSyms, fnSyms_append x a b, List.length_cons]
    rw [show id + 1 + a.length = id + (a.length + 1) by omega]
    split <;> simp

theorem fnSyms_nil {x : String} : ∀ {a : List String} {id : Nat}, x ∉ a → fnSyms x id a = []
  | [], id, _ => rfl
  | y :: a, id, h => by
    simp only [List.mem_cons, not_or] at h
    simp only [fnSyms, fnSyms_nil h.2, Ne.symm h.1, if_false]

theorem fnSyms_ne {x : String} : ∀ {a : List String} {id : Nat}, x ∈ a → fnSyms x id a ≠ []
  | y :: a, id, h => by
    simp only [fnSyms]
    split
    · simp
    · rename_i hy
      rcases List.mem_cons.1 h with rfl | h
      · exact absurd rfl hy
      · exact fnSyms_ne h

/-- The types of functions. -/
theorem fnSyms_alts {T : Tab} {x : String} : ∀ {fs : List (String × Ty)} {id : Nat},
    (∀ (j : Nat) (c : String × Ty), fs[j]? = some c → (T.fns[id + j]?).bind T.fnTy = some c.2) → (fnSyms x id (fs.map (·.1))).map T.alt = fnAlts x id fs
  | [], id, _ => rfl
  | (y, t) :: fs, id, h => by
    have ih := fnSyms_alts (T := T) (x := x) (fs := fs) (id := id + 1) (fun j c hc => by
      have := h (j + 1) c (by simpa using hc)
      rwa [show id + (j + 1) = id + 1 + j by omega] at this)
    have h0 := h 0 (y, t) (by simp)
    simp only [List.map_cons, fnSyms, fnAlts]
    split
    · simp only [List.map_cons, ih, List.cons.injEq, and_true, Tab.alt]
      simp only [Nat.add_zero] at h0
      rw [h0]
    · exact ih

/-! ### Constructors of structs -/

def rootOf (id : Nat) : List String → List (String × List RSym)
  | [] => []
  | c :: cs => (c, [.fn id]) :: rootOf (id + 1) cs

theorem rootOf_lookup {x : String} : ∀ {cs : List String} {id : Nat}, cs.Nodup → (rootOf id cs).lookup x = ne (fnSyms x id cs)
  | [], id, _ => rfl
  | c :: cs, id, h => by
    simp only [List.nodup_cons] at h
    simp only [rootOf, lookup_cons', fnSyms, rootOf_lookup h.2]
    by_cases hx : x = c
    · subst hx
      simp [fnSyms_nil h.1, ne]
    · simp [hx, Ne.symm hx]

/-- The function type of the constructor. -/
def consRec (n : String) (S : SRec) : FRec := ⟨{ kind := .structCons, tps := S.tps.map (·.2) }, [], [], S.fields, some (.decl n)⟩

structure ConsesOk (T T' : Tab) (ds : List Dcl) (cs : List (String × FRec)) : Prop where
  root : T'.root = T.root ++ rootOf T.fns.length (cs.map (·.1))
  fns : T'.fns = T.fns ++ cs.map (·.2)
  structs : T'.structs = T.structs
  enums : T'.enums = T.enums
  each : All₂ (fun s c => consName s.1 = some c.1 ∧ ∃ S, T.structs.lookup s.1 = some S ∧ c.2 = consRec s.1 S) (ds.filterMap Dcl.struct?) cs
  names : (cs.map (·.1)).Nodup
  fresh : ∀ c ∈ cs, T.root.lookup c.1 = none

theorem conses_shape {T T' : Tab} : ∀ {ds : List Dcl}, structConses T ds = .ok (T', []) → ∃ cs, ConsesOk T T' ds cs := by
  intro ds
  induction ds generalizing T with
  | nil =>
    intro h
    simp only [structConses, Except.ok.injEq, Prod.mk.injEq, and_true] at h
    subst h
    exact ⟨[], by simp [rootOf], by simp, rfl, rfl, .nil, by simp, by simp⟩
  | cons d ds ih =>
    intro h
    cases d with
    | struct n tps fs =>
      simp only [structConses] at h
      split at h
      · cases h
      · rename_i T1 es h1
        split at h
        · cases h
        · rename_i T2 es' h2
          simp only [Except.ok.injEq, Prod.mk.injEq, List.append_eq_nil_iff] at h
          obtain ⟨rfl, rfl, rfl⟩ := h
          obtain ⟨c, S, hc, hl, hS, rfl⟩ := structCons_ok h1
          obtain ⟨cs, k⟩ := ih h2
          have kroot := k.root
          have kfns := k.fns
          have kfresh := k.fresh
          simp only [List.length_append, List.length_cons, List.length_nil, Nat.zero_add] at kroot kfns kfresh
          refine ⟨(c, consRec n S) :: cs, ?_, ?_, k.structs, k.enums, ?_, ?_, ?_⟩
          · rw [kroot]
            simp [rootOf]
          · rw [kfns]
            simp [consRec]
          · simp only [List.filterMap_cons, Dcl.struct?]
            exact .cons ⟨hc, S, hS, rfl⟩ k.each
          · simp only [List.map_cons, List.nodup_cons]
            refine ⟨fun hm => ?_, k.names⟩
            obtain ⟨c', hc', rfl⟩ := List.mem_map.1 hm
            have := kfresh c' hc'
            rw [lookup_append', hl] at this
            simp [lookup_cons'] at this
          · intro c' hc'
            rcases List.mem_cons.1 hc' with rfl | hc'
            · exact hl
            · have := kfresh c' hc'
              rw [lookup_append'] at this
              cases hr : T.root.lookup c'.1 with
              | none => rfl
              | some s => rw [hr] at this; simp at this
    | enum n tps cs =>
      obtain ⟨cs, k⟩ := ih (by simpa only [structConses] using h)
      exact ⟨cs, k.root, k.fns, k.structs, k.enums, by simpa [List.filterMap_cons, Dcl.struct?] using k.each, k.names, k.fresh⟩
    | fn f =>
      obtain ⟨cs, k⟩ := ih (by simpa only [structConses] using h)
      exact ⟨cs, k.root, k.fns, k.structs, k.enums, by simpa [List.filterMap_cons, Dcl.struct?] using k.each, k.names, k.fresh⟩

/-! ### The root table -/

/-- The types of the name. -/
def typeSyms (ds : List Dcl) (x : String) : List RSym :=
  (builtinTypes.filter (·.1 = x)).map (fun p => .type (.prim p.2)) ++
  ((ds.filterMap Dcl.typeEntry).filter (·.1 = x)).flatMap (·.2)

def typePair : Dcl → Option (String × RSym)
  | .struct n _ _ => some (n, .type (.decl n))
  | .enum n tps _ => some (n, .type (.enum n (tps.map fun p => .param p.2)))
  | .fn _ => none

theorem typeEntry_pair (ds : List Dcl) : ds.filterMap Dcl.typeEntry = (ds.filterMap typePair).map fun p => (p.1, [p.2]) := by
  induction ds with
  | nil => rfl
  | cons d ds ih => cases d <;> simp [List.filterMap_cons, Dcl.typeEntry, typePair, ih]

section
variable {ds : List Dcl} {T1 T2 : Tab} (R : Loops ds T1 T2)
include R

theorem Loops.first_names : (T1.root.map (·.1)).Nodup := R.first.distinct (by decide)

theorem Loops.first_lookup (x : String) : T1.root.lookup x = ne (typeSyms ds x ++ fnSyms x 0 ["debug", "printf"]) := by
  let m : List (String × RSym) := [("string", .type (.prim .string)), ("int", .type (.prim .int)), ("bool", .type (.prim .bool)),
    ("pointer", .type (.prim .pointer)), ("nothing", .type (.prim .nothing)), ("bytes", .type (.prim .bytes)), ("debug", .fn 0), ("printf", .fn 1)]
  have hroot : T1.root = (m ++ ds.filterMap typePair).map fun p => (p.1, [p.2]) := by
    rw [R.first.root, typeEntry_pair, List.map_append]
    rfl
  have hn := R.first_names
  rw [hroot, List.map_map] at hn
  have hn' : ((m ++ ds.filterMap typePair).map (·.1)).Nodup := hn
  rw [hroot, lookup_single hn', List.filter_append, List.map_append]
  have htail : ((ds.filterMap Dcl.typeEntry).filter (·.1 = x)).flatMap (·.2) = ((ds.filterMap typePair).filter (·.1 = x)).map (·.2) := by
    rw [typeEntry_pair]
    induction ds.filterMap typePair with
    | nil => rfl
    | cons p l ih =>
      simp only [List.map_cons, List.filter_cons]
      split <;> simp_all
  have hm : (m.filter (·.1 = x)).map (·.2) = (builtinTypes.filter (·.1 = x)).map (fun p => RSym.type (.prim p.2)) ++ fnSyms x 0 ["debug", "printf"] := by
    have : m = builtinTypes.map (fun p => (p.1, .type (.prim p.2))) ++ [("debug", .fn 0), ("printf", .fn 1)] := rfl
    rw [this, List.filter_append, List.map_append, List.filter_map, List.map_map]
    congr 1
    simp only [fnSyms, List.filter_cons, List.filter_nil]
    by_cases h1 : "debug" = x <;> by_cases h2 : "printf" = x <;> simp_all
  unfold typeSyms
  rw [hm, htail, List.append_assoc, List.append_assoc]
  congr 2
  by_cases hx : x ∈ ["debug", "printf"]
  · have : (ds.filterMap typePair).filter (·.1 = x) = [] := by
      rw [List.filter_eq_nil_iff]
      intro p hp hpx
      simp only [decide_eq_true_eq] at hpx
      rw [List.map_append, List.nodup_append] at hn'
      refine hn'.2.2 x ?_ x (hpx ▸ List.mem_map_of_mem hp) rfl
      simp only [List.mem_cons, List.not_mem_nil, or_false] at hx
      rcases hx with rfl | rfl <;> simp [m]
    simp [this]
  · simp [fnSyms_nil hx]

end

section
variable {k : Nat} {ds : List Dcl} {T1 T2 F T : Tab} {items : List Item} (R : Run k ds T1 T2 F T items)
include R

/-- The names of the declared functions. -/
theorem Run.lookup {cs : List (String × FRec)} (hc : ConsesOk F T ds cs) (x : String) :
    T.root.lookup x = ne (typeSyms ds x ++ fnSyms x 0 (["debug", "printf"] ++ (ds.flatMap Dcl.entries).map (·.name) ++ cs.map (·.1))) := by
  have h2 : F.root.lookup x = ne (typeSyms ds x ++ fnSyms x 0 (["debug", "printf"] ++ (ds.flatMap Dcl.entries).map (·.name))) := by
    rw [R.later.1.root, R.second.step.root, R.first_lookup, join_ne, idsOf_fnSyms, R.first.fns, fnSyms_append, List.append_assoc]
    rfl
  have hl : F.fns.length = (["debug", "printf"] ++ (ds.flatMap Dcl.entries).map (·.name)).length := by
    obtain ⟨rs, h3, h4⟩ := R.second.step.fns
    rw [R.later.1.length, h3, List.length_append, R.first.fns, ← h4.length]
    simp [Tab.std]
    omega
  rw [hc.root, lookup_append', h2, rootOf_lookup hc.names, hl, fnSyms_append x _ (cs.map (·.1)), ← List.append_assoc, Nat.zero_add]
  by_cases hx : x ∈ cs.map (·.1)
  · obtain ⟨c, hcm, rfl⟩ := List.mem_map.1 hx
    have := hc.fresh c hcm
    rw [h2] at this
    cases hq : typeSyms ds c.1 ++ fnSyms c.1 0 (["debug", "printf"] ++ (ds.flatMap Dcl.entries).map (·.name)) with
    | nil => simp [ne]
    | cons a as => rw [hq] at this; simp [ne] at this
  · rw [fnSyms_nil hx, List.append_nil]
    cases typeSyms ds x ++ fnSyms x 0 (["debug", "printf"] ++ (ds.flatMap Dcl.entries).map (·.name)) <;> simp [ne]

end

/-! ### Functions -/

def Sig.entry (s : Sig) : Entry := ⟨s.name, s.data, s.outer, s.head, noReturn s.body⟩

theorem entries_sigs (d : Dcl) : d.entries = d.sigs.map Sig.entry := by
  cases d with
  | struct n tps fs => rfl
  | enum n tps cs => simp [Dcl.entries, Dcl.sigs, Sig.entry, consEntry, noReturn, Function.comp_def]
  | fn f =>
    simp only [Dcl.entries, Dcl.sigs, Sig.entry, FnDcl.data, List.map_cons, List.map_nil]
    cases f.body <;> rfl

theorem all_entries (ds : List Dcl) : ds.flatMap Dcl.entries = (ds.flatMap Dcl.sigs).map Sig.entry := by
  induction ds with
  | nil => rfl
  | cons d ds ih => simp [entries_sigs, ih]

/-- The item of a function. -/
structure ItemOf (id : Nat) (s : Sig) (i : Item) : Prop where
  id : i.id = id
  params : i.params = s.head.params.map (·.2)
  ret : i.ret = s.head.ret
  body : i.body = s.body

theorem consItems_get (n : String) (tps : List (String × Nat)) : ∀ (cs : List (String × List (String × TyN))) (id : Nat),
    All₂ (fun (p : Nat × Sig) i => ItemOf p.1 p.2 i) ((List.range' id cs.length).zip ((Dcl.enum n tps cs).sigs)) (consItems n id cs)
  | [], id => .nil
  | (c, ps) :: cs, id => by
    have := consItems_get n tps cs (id + 1)
    simp only [List.length_cons, List.range'_succ, Dcl.sigs, List.map_cons, List.zip_cons_cons, consItems]
    exact .cons ⟨rfl, rfl, rfl, rfl⟩ this

def numbered (id : Nat) : List Sig → List (Nat × Sig)
  | [] => []
  | s :: ss => (id, s) :: numbered (id + 1) ss

theorem numbered_append : ∀ (a b : List Sig) (id : Nat), numbered id (a ++ b) = numbered id a ++ numbered (id + a.length) b
  | [], b, id => by simp [numbered]
  | s :: a, b, id => by
    simp only [List.cons_append, numbered, numbered_append a b, List.length_cons]
    rw [show id + 1 + a.length = id + (a.length + 1) by omega]

theorem numbered_get : ∀ {ss : List Sig} {id j : Nat} {s : Sig}, ss[j]? = some s → (id + j, s) ∈ numbered id ss
  | s :: ss, id, 0, t, h => by
    simp only [List.getElem?_cons_zero, Option.some.injEq] at h
    simp [numbered, h]
  | s :: ss, id, j + 1, t, h => by
    simp only [List.getElem?_cons_succ] at h
    have := numbered_get (id := id + 1) h
    simp only [numbered, List.mem_cons]
    right
    rwa [show id + (j + 1) = id + 1 + j by omega]

theorem numbered_mem : ∀ {ss : List Sig} {id : Nat} {p : Nat × Sig}, p ∈ numbered id ss → ∃ j, p.1 = id + j ∧ ss[j]? = some p.2
  | s :: ss, id, p, h => by
    simp only [numbered, List.mem_cons] at h
    rcases h with rfl | h
    · exact ⟨0, by simp⟩
    · obtain ⟨j, h1, h2⟩ := numbered_mem h
      exact ⟨j + 1, by omega, by simpa using h2⟩

theorem consItems_numbered (n : String) (tps : List (String × Nat)) (cs : List (String × List (String × TyN))) (id : Nat) :
    All₂ (fun (p : Nat × Sig) i => ItemOf p.1 p.2 i) (numbered id ((Dcl.enum n tps cs).sigs)) (consItems n id cs) := by
  induction cs generalizing id with
  | nil => exact .nil
  | cons c cs ih =>
    obtain ⟨c, ps⟩ := c
    exact .cons ⟨rfl, rfl, rfl, rfl⟩ (ih (id + 1))

def Node.item? : Node → Option Item
  | .fn i => some i
  | .struct _ _ => none

theorem cons_isCons {n : String} {tps : List (String × Nat)} {cs : List (String × List (String × TyN))} {id : Nat} :
    (numbered id (Dcl.enum n tps cs).sigs).filter (fun p => p.2.isCons) = numbered id (Dcl.enum n tps cs).sigs ∧
    (numbered id (Dcl.enum n tps cs).sigs).filter (fun p => !p.2.isCons) = [] := by
  have : ∀ p ∈ numbered id (Dcl.enum n tps cs).sigs, p.2.isCons = true := by
    intro p hp
    obtain ⟨j, _, h⟩ := numbered_mem hp
    have := List.mem_of_getElem? h
    simp only [Dcl.sigs, List.mem_map] at this
    obtain ⟨c, _, hc⟩ := this
    rw [← hc]
    rfl
  constructor
  · rw [List.filter_eq_self]
    exact this
  · rw [List.filter_eq_nil_iff]
    intro p hp
    simp [this p hp]

theorem fn_isCons (f : FnDcl) (id : Nat) : (numbered id (Dcl.fn f).sigs).filter (fun p => p.2.isCons) = [] ∧
    (numbered id (Dcl.fn f).sigs).filter (fun p => !p.2.isCons) = numbered id (Dcl.fn f).sigs := by
  have : ∀ p ∈ numbered id (Dcl.fn f).sigs, p.2.isCons = false := by
    intro p hp
    simp only [Dcl.sigs, numbered, List.mem_singleton] at hp
    subst hp
    simp only [Sig.isCons]
    cases f.body <;> rfl
  constructor
  · rw [List.filter_eq_nil_iff]
    intro p hp
    simp [this p hp]
  · rw [List.filter_eq_self]
    intro p hp
    simp [this p hp]

theorem sigs_length (d : Dcl) : d.sigs.length = d.entries.length := by rw [entries_sigs]; simp

theorem nodes_items : ∀ (ds : List Dcl) (id : Nat),
    All₂ (fun (p : Nat × Sig) i => ItemOf p.1 p.2 i) ((numbered id (ds.flatMap Dcl.sigs)).filter (fun p => !p.2.isCons)) ((nodes id ds).1.filterMap Node.item?) ∧
    All₂ (fun (p : Nat × Sig) i => ItemOf p.1 p.2 i) ((numbered id (ds.flatMap Dcl.sigs)).filter (fun p => p.2.isCons)) (nodes id ds).2
  | [], id => ⟨.nil, .nil⟩
  | .struct n tps fs :: ds, id => by
    have := nodes_items ds id
    simpa [nodes, Dcl.sigs, List.filterMap_cons, Node.item?] using this
  | .enum n tps cs :: ds, id => by
    obtain ⟨h1, h2⟩ := nodes_items ds (id + cs.length)
    have hl : (Dcl.enum n tps cs).sigs.length = cs.length := by simp [Dcl.sigs]
    simp only [nodes, List.flatMap_cons, numbered_append, List.filter_append, cons_isCons.1, cons_isCons.2, hl, List.nil_append]
    exact ⟨h1, all₂_append (consItems_numbered n tps cs id) h2⟩
  | .fn f :: ds, id => by
    obtain ⟨h1, h2⟩ := nodes_items ds (id + 1)
    have hl : (Dcl.fn f).sigs.length = 1 := by simp [Dcl.sigs]
    simp only [nodes, List.flatMap_cons, numbered_append, List.filter_append, (fn_isCons f _).1, (fn_isCons f _).2, hl, List.nil_append, List.filterMap_cons, Node.item?]
    exact ⟨.cons ⟨rfl, rfl, rfl, rfl⟩ h1, h2⟩

theorem all₂_mem_left {α β : Type} {R : α → β → Prop} {as : List α} {bs : List β} (h : All₂ R as bs) : ∀ a ∈ as, ∃ b ∈ bs, R a b := by
  induction h with
  | nil => simp
  | cons h _ ih =>
    intro b hb
    rcases List.mem_cons.1 hb with rfl | hb
    · exact ⟨_, by simp, h⟩
    · obtain ⟨a, h1, h2⟩ := ih b hb
      exact ⟨a, by simp [h1], h2⟩

theorem item_mem {ds : List Dcl} {j : Nat} {s : Sig} (h : (ds.flatMap Dcl.sigs)[j]? = some s) : ∃ i, Node.fn i ∈ allNodes ds ∧ ItemOf (2 + j) s i := by
  have hm := numbered_get (id := 2) h
  obtain ⟨h1, h2⟩ := nodes_items ds 2
  unfold allNodes
  cases hc : s.isCons with
  | true =>
    obtain ⟨i, hi, hio⟩ := all₂_mem_left h2 (2 + j, s) (List.mem_filter.2 ⟨hm, hc⟩)
    exact ⟨i, List.mem_append_right _ (List.mem_map_of_mem hi), hio⟩
  | false =>
    obtain ⟨i, hi, hio⟩ := all₂_mem_left h1 (2 + j, s) (List.mem_filter.2 ⟨hm, by simp [hc]⟩)
    obtain ⟨nd, hnd, hne⟩ := List.mem_filterMap.1 hi
    cases nd with
    | struct n fs => simp [Node.item?] at hne
    | fn i' =>
      simp only [Node.item?, Option.some.injEq] at hne
      subst hne
      exact ⟨i', List.mem_append_left _ hnd, hio⟩

theorem params_shape {T : Tab} {tys : List (String × Nat)} : ∀ {ps : List (String × TyN)} {names : List String} {qs : List (String × Option RTy)},
    T.params tys names ps = .ok qs → qs.map (·.1) = ps.map (·.1) ∧ (names.Nodup → (names ++ ps.map (·.1)).Nodup)
  | [], names, qs, h => by
    simp only [Tab.params, Except.ok.injEq] at h
    subst h
    simp
  | (x, t) :: ps, names, qs, h => by
    simp only [Tab.params] at h
    split at h
    · cases h
    · rename_i u hu
      split at h
      · cases h
      · rename_i hx
        cases hq : T.params tys (x :: names) ps with
        | error e => rw [hq] at h; simp [Except.map] at h
        | ok rs =>
          rw [hq] at h
          simp only [Except.map, Except.ok.injEq] at h
          subst h
          obtain ⟨h1, h2⟩ := params_shape hq
          refine ⟨by simp [h1], fun hn => ?_⟩
          have := h2 (List.nodup_cons.2 ⟨hx, hn⟩)
          simp only [List.cons_append, List.nodup_cons, List.mem_append, not_or, List.map_cons] at this ⊢
          rw [List.nodup_append] at this ⊢
          refine ⟨hn, List.nodup_cons.2 ⟨this.1.2, this.2.2.1⟩, fun a ha b hb => ?_⟩
          rcases List.mem_cons.1 hb with rfl | hb
          · exact fun he => hx (he ▸ ha)
          · exact this.2.2.2 a ha b hb

structure SigFacts (data : FnData) (outer : List (String × Nat)) (h : Head) (r : FRec) : Prop where
  tps : r.tps = h.tps
  tys : r.tys = h.tps ++ outer
  data : r.data = { data with tps := outer.map (·.2) ++ h.tps.map (·.2) }
  names : r.params.map (·.1) = h.params.map (·.1)
  distinct : (h.tps.map (·.1) ++ h.params.map (·.1)).Nodup
  ret : h.ret = none → r.ret = some (.prim .nothing)

theorem sig_facts {T : Tab} {data : FnData} {outer : List (String × Nat)} {h : Head} {nr : Bool} {r : FRec}
    (hs : T.signature data outer h nr = .ok r) : SigFacts data outer h r := by
  unfold Tab.signature at hs
  split at hs
  · cases hs
  · rename_i hd
    simp only at hs
    split at hs
    · cases hs
    · rename_i ps hp
      split at hs
      · cases hs
      · rename_i u hu
        have hr : r = ⟨{ data with tps := outer.map (·.2) ++ h.tps.map (·.2) }, h.tps, h.tps ++ outer, ps, some u⟩ := by
          repeat' split at hs
          all_goals first
            | (simp only [Except.ok.injEq] at hs; exact hs.symm)
            | cases hs
        subst hr
        obtain ⟨h1, h2⟩ := params_shape hp
        refine ⟨rfl, rfl, rfl, h1, h2 (Classical.not_not.1 hd), fun hn => ?_⟩
        rw [hn] at hu
        simp only [Tab.ret, Except.ok.injEq] at hu
        rw [← hu]

theorem setTypes_zip : ∀ {ps : List (String × Option RTy)} {us : List RTy}, ps.length = us.length → setTypes ps (us.map some) = (ps.map (·.1)).zip (us.map some)
  | [], [], _ => rfl
  | (x, _) :: ps, u :: us, h => by
    simp only [List.length_cons, Nat.add_right_cancel_iff] at h
    simp only [List.map_cons, setTypes, List.zip_cons_cons, setTypes_zip h]
  | [], _ :: _, h => by simp at h
  | _ :: _, [], h => by simp at h

theorem meansAll_length {Γ : Env} : ∀ {ts : List TyN} {us : List Ty}, MeansAll Γ ts us → ts.length = us.length
  | [], us, h => by simp only [MeansAll] at h; subst h; rfl
  | t :: ts, us, h => by
    simp only [MeansAll] at h
    obtain ⟨u, us, rfl, _, h⟩ := h
    simp [meansAll_length h]

theorem allSome_zip : ∀ {xs : List String} {us : List RTy}, xs.length = us.length → allSome (((xs.zip (us.map some))).map (·.2)) = some us
  | [], [], _ => rfl
  | x :: xs, u :: us, h => by
    simp only [List.length_cons, Nat.add_right_cancel_iff] at h
    simp only [List.map_cons, List.zip_cons_cons, allSome, allSome_zip h, Option.map_some]
  | [], _ :: _, h => by simp at h
  | _ :: _, [], h => by simp at h

/-- A function after the third loop. -/
structure FnOk (sc : Scope) (ar : String → List Nat) (s : Sig) (f : FRec) (us : List RTy) (r : RTy) : Prop where
  tps : f.tps = s.head.tps
  data : f.data = { s.data with tps := s.outer.map (·.2) ++ s.head.tps.map (·.2) }
  params : f.params = (s.head.params.map (·.1)).zip (us.map some)
  length : us.length = s.head.params.length
  ret : f.ret = some r
  types : s.Types sc (tyAll ar us) (r.ty ar)
  names : (s.head.tps.map (·.1) ++ s.head.params.map (·.1)).Nodup

section
variable {k : Nat} {ds : List Dcl} {T1 T2 F T : Tab} {items : List Item} (R : Run k ds T1 T2 F T items)
include R

theorem Run.arity {cs : List (String × FRec)} (hc : ConsesOk F T ds cs) : T.arity = F.arity := by
  funext n
  simp only [Tab.arity, hc.structs]

/-- The names of types. -/
theorem Run.shows {cs : List (String × FRec)} (hc : ConsesOk F T ds cs) {M : Tab} (h : Later M F) (tys : List (String × Nat)) :
    Shows M tys [tpScope tys, T.scope] := by
  intro x t hx
  rw [← h.types tys x] at hx
  rw [← h.arity, ← R.arity hc]
  have : T.type? tys x = some t := by
    unfold Tab.type? at hx ⊢
    split
    · rename_i j hj
      rw [hj] at hx
      exact hx
    · rename_i hj
      rw [hj] at hx
      simp only at hx
      rw [hc.root, lookup_append']
      split at hx
      · rename_i u r hu
        cases hx
        rw [hu]
        rfl
      · cases hx
  exact shows_plain T tys x t this

theorem Run.fn_ok {cs : List (String × FRec)} (hc : ConsesOk F T ds cs) {j : Nat} {s : Sig} (h : (ds.flatMap Dcl.sigs)[j]? = some s) :
    ∃ f us r, F.fns[2 + j]? = some f ∧ FnOk T.scope T.arity s f us r := by
  obtain ⟨i, hi, hio⟩ := item_mem h
  obtain ⟨a, b, hab⟩ := List.append_of_mem hi
  obtain ⟨M, h1, h2, h3, f, f', h4, h5, h6⟩ := third_fn R.wf (hab ▸ R.fits) (hab ▸ R.structs) (hab ▸ R.ids) (hab ▸ R.third)
  rw [hio.id] at h4 h5
  have hsig : SigFacts s.data s.outer s.head f := by
    obtain ⟨rs, h7, h8⟩ := R.second.step.fns
    rw [h7, R.first.fns] at h4
    have h9 : rs[j]? = some f := by
      rw [show 2 + j = Tab.std.fns.length + j by rfl, List.getElem?_append_right (by omega)] at h4
      simpa using h4
    rw [all_entries] at h8
    have h10 : ((ds.flatMap Dcl.sigs).map Sig.entry)[j]? = some s.entry := by simp [h]
    have hlt := (List.getElem?_eq_some_iff.1 h10)
    have hlt' := (List.getElem?_eq_some_iff.1 h9)
    have := h8.get hlt.1 hlt'.1
    rw [hlt.2, hlt'.2] at this
    exact sig_facts this
  have hshow : Shows M f.tys [tpScope (s.head.tps ++ s.outer), T.scope] := by
    rw [hsig.tys]
    exact R.shows hc h3 _
  have har : M.arity = T.arity := by rw [R.arity hc, h3.arity]
  obtain ⟨us, h7, h8⟩ := h6.params
  have h9 := (h8 _ hshow).means
  rw [hio.params, har] at h9
  have hlen : us.length = s.head.params.length := by
    have := meansAll_length h9
    simpa [tyAll_map] using this.symm
  have hparams : f'.params = (s.head.params.map (·.1)).zip (us.map some) := by
    rw [h7, setTypes_zip, hsig.names]
    have := congrArg List.length hsig.names
    simp only [List.length_map] at this
    omega
  have hret : ∃ r, f'.ret = some r ∧ retMeans [tpScope (s.head.tps ++ s.outer), T.scope] s.head.ret (r.ty T.arity) := by
    have := h6.ret
    rw [hio.ret] at this
    cases hr : s.head.ret with
    | none =>
      rw [hr] at this
      exact ⟨.prim .nothing, this.trans (hsig.ret hr), rfl⟩
    | some t =>
      rw [hr] at this
      obtain ⟨r, h10, h11⟩ := this
      exact ⟨r, h10, har ▸ (h11 _ hshow).means⟩
  obtain ⟨r, hr1, hr2⟩ := hret
  exact ⟨f', us, r, h5, h6.tps.trans hsig.tps, h6.data.trans hsig.data, hparams, hlen, hr1, ⟨h9, hr2⟩, hsig.distinct⟩

end

/-! ### Everything together -/

theorem collect {α β : Type} : ∀ {ss : List α} {P : Nat → α → β → Prop}, (∀ (j : Nat) s, ss[j]? = some s → ∃ b, P j s b) →
    ∃ bs : List β, bs.length = ss.length ∧ ∀ (j : Nat) s b, ss[j]? = some s → bs[j]? = some b → P j s b
  | [], P, _ => ⟨[], rfl, by simp⟩
  | s :: ss, P, h => by
    obtain ⟨b, hb⟩ := h 0 s (by simp)
    obtain ⟨bs, h1, h2⟩ := collect (ss := ss) (P := fun j => P (j + 1)) (fun j t ht => h (j + 1) t (by simpa using ht))
    refine ⟨b :: bs, by simp [h1], fun j t c ht hc => ?_⟩
    cases j with
    | zero =>
      simp only [List.getElem?_cons_zero, Option.some.injEq] at ht hc
      subst ht hc
      exact hb
    | succ j => exact h2 j t c (by simpa using ht) (by simpa using hc)

theorem all₂_of_get {α β : Type} {R : α → β → Prop} : ∀ {as : List α} {bs : List β}, bs.length = as.length →
    (∀ (j : Nat) a b, as[j]? = some a → bs[j]? = some b → R a b) → All₂ R as bs
  | [], [], _, _ => .nil
  | a :: as, b :: bs, h, hr => by
    refine .cons (hr 0 a b (by simp) (by simp)) (all₂_of_get (by simpa using h) fun j x y hx hy => hr (j + 1) x y (by simpa using hx) (by simpa using hy))
  | [], _ :: _, h, _ => by simp at h
  | _ :: _, [], h, _ => by simp at h

theorem all₂_at {α β : Type} {R : α → β → Prop} {as : List α} {bs : List β} (h : All₂ R as bs) {j : Nat} {a : α} {b : β} (ha : as[j]? = some a) (hb : bs[j]? = some b) : R a b := by
  obtain ⟨h1, h2⟩ := List.getElem?_eq_some_iff.1 ha
  obtain ⟨h3, h4⟩ := List.getElem?_eq_some_iff.1 hb
  have := h.get h1 h3
  rwa [h2, h4] at this

theorem typeAlts_eq {T : Tab} {x : String} : ∀ {ds : List Dcl}, (∀ n tps fs, Dcl.struct n tps fs ∈ ds → T.arity n = tps.map (·.2)) →
    (((ds.filterMap Dcl.typeEntry).filter (·.1 = x)).flatMap (·.2)).map T.alt =
      ((ds.filterMap Dcl.type?).filter (·.1 = x)).map fun p => { ty := some p.2, isType := true, isGlobal := true }
  | [], _ => rfl
  | d :: ds, h => by
    have ih := typeAlts_eq (T := T) (x := x) (ds := ds) (fun n tps fs hm => h n tps fs (by simp [hm]))
    cases d with
    | fn f => simpa only [List.filterMap_cons, Dcl.typeEntry, Dcl.type?] using ih
    | struct n tps fs =>
      simp only [List.filterMap_cons, Dcl.typeEntry, Dcl.type?, List.filter_cons]
      split
      · simp only [List.flatMap_cons, List.cons_append, List.nil_append, List.map_cons, ih, Tab.alt, RTy.ty, h n tps fs (by simp), tpTys, List.map_map]
        rfl
      · exact ih
    | enum n tps fs =>
      simp only [List.filterMap_cons, Dcl.typeEntry, Dcl.type?, List.filter_cons]
      split
      · simp only [List.flatMap_cons, List.cons_append, List.nil_append, List.map_cons, ih, Tab.alt, RTy.ty, tyAll_map, tpTys, List.map_map]
        rfl
      · exact ih

theorem zip_decl {ar : String → List Nat} : ∀ {xs : List String} {us : List RTy},
    ((xs.zip (us.map some)).filterMap fun p => p.2.map fun t => (p.1, t.ty ar)) = xs.zip (tyAll ar us)
  | [], us => by simp
  | x :: xs, [] => by simp [tyAll]
  | x :: xs, u :: us => by simp [tyAll, List.filterMap_cons, zip_decl]

theorem zip_own {ar : String → List Nat} : ∀ {xs : List String} {us : List RTy},
    ((xs.zip (us.map some)).map fun p => (p.1, [plainSym (p.2.map (RTy.ty ar))])) = (xs.zip (tyAll ar us)).map fun p => (p.1, [plainSym (some p.2)])
  | [], us => by simp
  | x :: xs, [] => by simp [tyAll]
  | x :: xs, u :: us => by simp [tyAll, zip_own]

theorem numbered_filter (p : Sig → Bool) : ∀ (ss : List Sig) (id : Nat), ((numbered id ss).filter (fun q => p q.2)).map (·.2) = ss.filter p
  | [], id => rfl
  | s :: ss, id => by
    simp only [numbered, List.filter_cons]
    split <;> simp [numbered_filter p ss]

theorem all₂_map_left {α β γ : Type} {R : β → γ → Prop} {f : α → β} {as : List α} {cs : List γ} (h : All₂ (fun a c => R (f a) c) as cs) : All₂ R (as.map f) cs := by
  induction h with
  | nil => exact .nil
  | cons h _ ih => exact .cons h ih

theorem consName_capital {n c : String} (h : consName n = some c) : Capital n c := by
  unfold consName at h
  split at h
  · cases h
  · rename_i a as hn
    refine ⟨a, as, hn, fun ha => ?_⟩
    simp only [if_pos ha] at h
    split at h
    · rename_i hl
      cases h
      exact ⟨hl, by simp⟩
    · cases h

section
variable {k : Nat} {ds : List Dcl} {T1 T2 F T : Tab} {items : List Item} (R : Run k ds T1 T2 F T items)
include R

theorem Run.arity_of {cs : List (String × FRec)} (hc : ConsesOk F T ds cs) {n : String} {tps : List (String × Nat)} {fs : List (String × TyN)} (h : Dcl.struct n tps fs ∈ ds) :
    T.arity n = tps.map (·.2) := by
  obtain ⟨pre, post, he⟩ := List.append_of_mem h
  obtain ⟨M, _, _, _, us, h3, _⟩ := R.struct_done he
  simp [Tab.arity, hc.structs, h3]

theorem Run.struct_means {cs : List (String × FRec)} (hc : ConsesOk F T ds cs) {n : String} {tps : List (String × Nat)} {fs : List (String × TyN)} (h : Dcl.struct n tps fs ∈ ds) :
    ∃ us : List RTy, F.structs.lookup n = some ⟨tps, (fs.map (·.1)).zip (us.map some)⟩ ∧ us.length = fs.length ∧
      MeansAll [tpScope tps, T.scope] (fs.map (·.2)) (tyAll T.arity us) := by
  obtain ⟨pre, post, he⟩ := List.append_of_mem h
  obtain ⟨M, _, h1, h2, us, h3, h4⟩ := R.struct_done he
  refine ⟨us, h3, h4.length.symm, ?_⟩
  have hshow := R.shows hc R.later.1 tps
  have har : M.arity = T.arity := by rw [R.arity hc, h2.arity]
  clear h3 he h
  induction h4 with
  | nil => simp [MeansAll, tyAll]
  | cons hd _ ih =>
    obtain ⟨M', hn, _, hm⟩ := hd
    simp only [List.map_cons, tyAll, MeansAll]
    refine ⟨_, _, rfl, ?_, ih⟩
    have := (hm _ hshow).means
    rwa [hn.toLater.arity, har] at this

theorem Run.cons_ok {cs : List (String × FRec)} (hc : ConsesOk F T ds cs) {n : String} {tps : List (String × Nat)} {fs : List (String × TyN)} (h : Dcl.struct n tps fs ∈ ds)
    {c : String × FRec} (h1 : consName n = some c.1) (h2 : ∃ S, F.structs.lookup n = some S ∧ c.2 = consRec n S) :
    ∃ t, T.fnTy c.2 = some t ∧ StructOk T.decls T.scope n tps fs (c.1, t) := by
  obtain ⟨us, h3, h4, h5⟩ := R.struct_means hc h
  obtain ⟨S, hS, h6⟩ := h2
  rw [h3] at hS
  cases hS
  refine ⟨.fn { kind := .structCons, tps := tps.map (·.2) } (tyAll T.arity us) (.struct n (tpTys tps)), ?_, ?_⟩
  · rw [h6]
    simp only [Tab.fnTy, consRec]
    rw [allSome_zip (by simp [h4])]
    simp only [RTy.ty, R.arity_of hc h, tpTys, List.map_map]
    rfl
  · obtain ⟨us', hu⟩ := R.known.structs n tps fs h
    have := R.empty n _ hu
    simp only at this
    subst this
    obtain ⟨_, h7, h8⟩ := R.second.structs n tps fs [] h hu
    refine ⟨⟨h7, fun p hp => (h8 p hp).1⟩, consName_capital h1, tyAll T.arity us, h5, ?_, rfl⟩
    simp only [Tab.decls, hc.structs, h3, Option.map_some, zip_decl]

theorem Run.builtin : F.fns[0]? = Tab.std.fns[0]? ∧ F.fns[1]? = Tab.std.fns[1]? := by
  have key : ∀ id, id < 2 → F.fns[id]? = Tab.std.fns[id]? := by
    intro id hid
    have hni : id ∉ itemIds (allNodes ds) := by
      intro hm
      unfold allNodes at hm
      rw [itemIds_append, itemIds_fns] at hm
      have := (nodes_ids ds 2).2 id hm
      omega
    rw [R.later.2.2 id hni]
    obtain ⟨rs, h3, h4⟩ := R.second.step.fns
    rw [h3, R.first.fns, List.getElem?_append_left (by simpa [Tab.std] using hid)]
  exact ⟨key 0 (by omega), key 1 (by omega)⟩

theorem Run.fns_length : F.fns.length = 2 + (ds.flatMap Dcl.sigs).length := by
  obtain ⟨rs, h3, h4⟩ := R.second.step.fns
  rw [R.later.1.length, h3, List.length_append, R.first.fns, ← h4.length, all_entries]
  simp [Tab.std]

theorem Run.taken {x : String} (h : T1.root.lookup x = none) :
    x ∉ (builtinTypes.map (·.1)) ++ (builtinFns.map (·.1)) ++ (ds.filterMap Dcl.type?).map (·.1) := by
  rw [lookup_none, R.first.root] at h
  have : (ds.filterMap Dcl.typeEntry).map (·.1) = (ds.filterMap Dcl.type?).map (·.1) := by
    clear h R
    induction ds with
    | nil => rfl
    | cons d ds ih => cases d <;> simp [List.filterMap_cons, Dcl.typeEntry, Dcl.type?, ih]
  rw [List.map_append, this] at h
  exact h

theorem Run.types_nodup : ((builtinTypes.map (·.1)) ++ (builtinFns.map (·.1)) ++ (ds.filterMap Dcl.type?).map (·.1)).Nodup := by
  have h := R.first_names
  rw [R.first.root] at h
  have : (ds.filterMap Dcl.typeEntry).map (·.1) = (ds.filterMap Dcl.type?).map (·.1) := by
    clear h R
    induction ds with
    | nil => rfl
    | cons d ds ih => cases d <;> simp [List.filterMap_cons, Dcl.typeEntry, Dcl.type?, ih]
  rw [List.map_append, this] at h
  exact h

theorem Run.items_ok {cs : List (String × FRec)} (hc : ConsesOk F T ds cs) {ps : List (Nat × Sig)} {is : List Item}
    (hp : ∀ p ∈ ps, p ∈ numbered 2 (ds.flatMap Dcl.sigs)) (h : All₂ (fun (p : Nat × Sig) i => ItemOf p.1 p.2 i) ps is) :
    All₂ (BodyOk T.scope) (ps.map (·.2)) (T.items is) := by
  induction h with
  | nil => exact .nil
  | @cons p i ps is hi _ ih =>
    obtain ⟨j, h1, h2⟩ := numbered_mem (hp p (by simp))
    obtain ⟨f, us, r, h3, h4⟩ := R.fn_ok hc h2
    have h5 : T.fns[i.id]? = some f := by
      rw [hi.id, h1, hc.fns, List.getElem?_append_left (by rw [R.fns_length]; have := (List.getElem?_eq_some_iff.1 h2).1; omega), h3]
    simp only [List.map_cons, Tab.items, h5]
    refine .cons ⟨⟨tyAll T.arity us, ?_, ?_⟩, hi.body⟩ (ih fun q hq => hp q (by simp [hq]))
    · simp only [h4.ret, Option.map_some, Option.getD_some]
      exact h4.types
    · simp only [Tab.own, h4.params, h4.tps, zip_own, tpScope]

theorem Run.all : ∃ ts us, Declared ds T.decls T.scope (T.items items) ts us := by
  obtain ⟨cs, hc⟩ := conses_shape R.conses
  obtain ⟨ts, ht1, ht2⟩ := collect (ss := ds.flatMap Dcl.sigs) (β := String × Ty)
    (P := fun j s c => c.1 = s.name ∧ (F.fns[2 + j]?).bind T.fnTy = some c.2 ∧ SigOk T.scope s c) (by
      intro j s hs
      obtain ⟨f, us, r, h1, h2⟩ := R.fn_ok hc hs
      refine ⟨(s.name, .fn f.data (tyAll T.arity us) (r.ty T.arity)), rfl, ?_, rfl, ⟨_, _, h2.types, by rw [h2.data]⟩, h2.names⟩
      rw [h1]
      simp only [Option.bind_some, Tab.fnTy, h2.params, h2.ret]
      rw [allSome_zip (by simp [h2.length])])
  obtain ⟨us, hu1, hu2⟩ := collect (ss := cs) (β := String × Ty)
    (P := fun j c u => u.1 = c.1 ∧ T.fnTy c.2 = some u.2 ∧ ∀ s, (ds.filterMap Dcl.struct?)[j]? = some s → StructOk T.decls T.scope s.1 s.2.1 s.2.2 u) (by
      intro j c hcj
      have hlt := (List.getElem?_eq_some_iff.1 hcj).1
      rw [← hc.each.length] at hlt
      have hsj := List.getElem?_eq_getElem hlt
      obtain ⟨h1, h2⟩ := all₂_at hc.each hsj hcj
      obtain ⟨d, hd, hds⟩ := List.mem_filterMap.1 (List.mem_of_getElem? hsj)
      cases d with
      | struct n tps fs =>
        simp only [Dcl.struct?, Option.some.injEq] at hds
        rw [← hds] at h1 h2 hsj
        obtain ⟨t, h3, h4⟩ := R.cons_ok hc hd h1 h2
        refine ⟨(c.1, t), rfl, h3, fun s hs => ?_⟩
        rw [hsj] at hs
        cases hs
        exact h4
      | enum n tps cs => simp [Dcl.struct?] at hds
      | fn f => simp [Dcl.struct?] at hds)
  have hnames : ts.map (·.1) = (ds.flatMap Dcl.sigs).map (·.name) := by
    apply List.ext_getElem?
    intro j
    simp only [List.getElem?_map]
    cases hs : (ds.flatMap Dcl.sigs)[j]? with
    | none =>
      rw [List.getElem?_eq_none_iff] at hs
      rw [List.getElem?_eq_none_iff.2 (by omega)]
      rfl
    | some s =>
      have hlt := (List.getElem?_eq_some_iff.1 hs).1
      have hb := List.getElem?_eq_getElem (l := ts) (i := j) (by omega)
      rw [hb]
      simp [(ht2 j s _ hs hb).1]
  have hcnames : us.map (·.1) = cs.map (·.1) := by
    apply List.ext_getElem?
    intro j
    simp only [List.getElem?_map]
    cases hs : cs[j]? with
    | none =>
      rw [List.getElem?_eq_none_iff] at hs
      rw [List.getElem?_eq_none_iff.2 (by omega)]
      rfl
    | some s =>
      have hlt := (List.getElem?_eq_some_iff.1 hs).1
      have hb := List.getElem?_eq_getElem (l := us) (i := j) (by omega)
      rw [hb]
      simp [(hu2 j s _ hs hb).1]
  have hentries : (ds.flatMap Dcl.entries).map (·.name) = (ds.flatMap Dcl.sigs).map (·.name) := by
    rw [all_entries, List.map_map]
    rfl
  refine ⟨ts, us, ?_, ?_, ?_, ?_, ?_, ?_, ?_, R.types_nodup, ?_, ?_, ?_⟩
  · intro x
    rw [scope_lookup, R.lookup hc x, ne_map, List.map_append]
    have h1 : (typeSyms ds x).map T.alt = typeAlts ds x := by
      unfold typeSyms typeAlts
      rw [List.map_append, typeAlts_eq (fun n tps fs hm => R.arity_of hc hm), List.map_map]
      rfl
    have h2 : ["debug", "printf"] ++ (ds.flatMap Dcl.entries).map (·.name) ++ cs.map (·.1) = (builtinFns ++ ts ++ us).map (·.1) := by
      rw [List.map_append, List.map_append, hnames, hcnames, hentries]
      rfl
    rw [h1, h2, fnSyms_alts]
    · generalize typeAlts ds x ++ fnAlts x 0 (builtinFns ++ ts ++ us) = l
      cases l <;> rfl
    · intro j c hj
      rw [Nat.zero_add]
      rcases Nat.lt_or_ge j (builtinFns ++ ts).length with hlt | hge
      · rw [List.getElem?_append_left hlt] at hj
        have hlen : (builtinFns ++ ts).length = 2 + ts.length := by simp [builtinFns]; omega
        have hF : T.fns[j]? = F.fns[j]? := by
          rw [hc.fns, List.getElem?_append_left (by rw [R.fns_length]; omega)]
        rw [hF]
        rcases Nat.lt_or_ge j 2 with h | h
        · have hb := R.builtin
          rw [List.getElem?_append_left (by simpa [builtinFns] using h)] at hj
          rcases (by omega : j = 0 ∨ j = 1) with rfl | rfl
          · rw [hb.1]
            cases hj
            rfl
          · rw [hb.2]
            cases hj
            rfl
        · obtain ⟨i, rfl⟩ := Nat.exists_eq_add_of_le h
          rw [List.getElem?_append_right (by simp [builtinFns])] at hj
          have hj' : ts[i]? = some c := by simpa [builtinFns] using hj
          have hlt' := (List.getElem?_eq_some_iff.1 hj').1
          exact (ht2 i _ _ (List.getElem?_eq_getElem (by omega)) hj').2.1
      · rw [List.getElem?_append_right hge] at hj
        have hlen : (builtinFns ++ ts).length = F.fns.length := by rw [R.fns_length, List.length_append, ht1]; rfl
        rw [hlen] at hj hge
        rw [hc.fns, List.getElem?_append_right hge, List.getElem?_map]
        have hlt' := (List.getElem?_eq_some_iff.1 hj).1
        have hcj := List.getElem?_eq_getElem (l := cs) (i := j - F.fns.length) (by omega)
        rw [hcj]
        exact (hu2 _ _ _ hcj hj).2.1
  · exact all₂_of_get ht1 (fun j s c hs hcj => (ht2 j s c hs hcj).2.2)
  · refine all₂_of_get (by rw [hu1, hc.each.length]) (fun j s u hs hu => ?_)
    have hlt := (List.getElem?_eq_some_iff.1 hu).1
    exact (hu2 j _ u (List.getElem?_eq_getElem (by omega)) hu).2.2 s hs
  · intro n hn
    have : F.structs.lookup n = none := by
      cases h : F.structs.lookup n with
      | none => rfl
      | some S =>
        obtain ⟨tps, fs, hm⟩ := R.declared h
        exact absurd hm (hn tps fs)
    simp [Tab.decls, hc.structs, this]
  · intro pre n tps cs' post he
    obtain ⟨ms, hms⟩ := R.known.enums n tps cs' (by rw [he]; simp)
    have := R.emptyE n _ hms
    simp only at this
    subst this
    obtain ⟨h1, h2⟩ := R.second.enums pre n tps cs' post [] he hms
    refine ⟨?_, h2⟩
    simp only [Tab.decls, hc.enums, R.later.1.enums, h1, Option.map_some, Option.getD_some, List.nil_append, R.first.fns, all_entries, List.length_map]
    rfl
  · intro n hn
    have : T2.enums.lookup n = none := by
      cases h : T2.enums.lookup n with
      | none => rfl
      | some S =>
        obtain ⟨tps, fs, hm, _⟩ := R.second_enum h
        exact absurd hm (hn tps fs)
    simp [Tab.decls, hc.enums, R.later.1.enums, this]
  · obtain ⟨h1, h2⟩ := nodes_items ds 2
    have hitems : items = (nodes 2 ds).1.filterMap Node.item? ++ (nodes 2 ds).2 := by
      rw [R.items]
      rfl
    rw [hitems, ← numbered_filter (fun s => !s.isCons) _ 2, ← numbered_filter (fun s => s.isCons) _ 2, ← List.map_append]
    refine R.items_ok hc (fun p hp => ?_) (all₂_append h1 h2)
    rcases List.mem_append.1 hp with hp | hp <;> exact (List.mem_filter.1 hp).1
  · intro pre s post he hs
    have hf := R.second.step.fresh (pre.map Sig.entry) s.entry (post.map Sig.entry) (by rw [all_entries, he]; simp) (by
      simp only [Sig.entry]
      simp only [Sig.isCons] at hs
      split at hs <;> first | assumption | cases hs)
    rw [List.mem_append, not_or]
    refine ⟨R.taken hf.1, fun hm => ?_⟩
    obtain ⟨s', hs', hn⟩ := List.mem_map.1 hm
    exact hf.2 s'.entry (List.mem_map_of_mem hs') hn
  · rw [hcnames]
    refine ⟨hc.names, fun c hcm => ?_⟩
    have hcm' : c.1 ∈ cs.map (·.1) := hcnames ▸ List.mem_map_of_mem hcm
    obtain ⟨c', hc', hce⟩ := List.mem_map.1 hcm'
    have hfr := hc.fresh c' hc'
    rw [hce, R.later.1.root, R.second.step.root] at hfr
    obtain ⟨h1, h2⟩ := joinSyms_none hfr
    rw [List.mem_append, not_or]
    refine ⟨R.taken h1, fun hm => ?_⟩
    rw [idsOf_fnSyms, hentries] at h2
    exact fnSyms_ne hm h2
  · intro pre f mid g post he hn hp
    have hk := R.first.keysDistinct (by simp [Tab.std])
    rw [R.first.keys, he] at hk
    simp only [List.filterMap_append, List.filterMap_cons, Dcl.key] at hk
    have : fnName f = fnName g := by
      simp only [fnName, hn]
      have hm : ∀ l : List (String × TyN), l.map (fun p => typeName p.2) = (l.map (·.2)).map typeName := fun l => by simp
      rw [hm, hm, hp]
    rw [this] at hk
    simp only [List.nodup_append, List.nodup_cons, List.mem_append, List.mem_cons] at hk
    simp at hk

end

end Clara.Sema.Dcl
