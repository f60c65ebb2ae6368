import Verif.Gen.TypeTable
/-
The constructors of a program come in groups, one for each enum in the order of its tags, then those of structs; the type
table has the offsets of the pointer parameters of each of them.
-/
namespace Clara.Tbl
open Clara.Gen (TK)

/-- A constructor function: the type it returns, its tag, its parameters. -/
abbrev CK := Nat × Option Nat × List TK

def Node.con : Node → Option CK
  | .cons t tag ps => some (t, tag, ps)
  | _ => none

def Node.ref : Node → Option Nat
  | .structDcl t _ | .enumDcl t _ => some t
  | _ => none

def Node.enum : Node → Option (Nat × List (List TK))
  | .enumDcl t ms => some (t, ms)
  | _ => none

def Node.struct : Node → Option CK
  | .structDcl t fs => some (t, none, fs)
  | _ => none

@[simp] theorem con_cons (t : Nat) (tag : Option Nat) (ps : List TK) : (Node.cons t tag ps).con = some (t, tag, ps) := rfl
@[simp] theorem con_structDcl (t : Nat) (fs : List TK) : (Node.structDcl t fs).con = none := rfl
@[simp] theorem con_enumDcl (t : Nat) (ms : List (List TK)) : (Node.enumDcl t ms).con = none := rfl
@[simp] theorem con_fn : (Node.fn).con = none := rfl
@[simp] theorem ref_cons (t : Nat) (tag : Option Nat) (ps : List TK) : (Node.cons t tag ps).ref = none := rfl
@[simp] theorem ref_structDcl (t : Nat) (fs : List TK) : (Node.structDcl t fs).ref = some t := rfl
@[simp] theorem ref_enumDcl (t : Nat) (ms : List (List TK)) : (Node.enumDcl t ms).ref = some t := rfl
@[simp] theorem ref_fn : (Node.fn).ref = none := rfl
@[simp] theorem enum_cons (t : Nat) (tag : Option Nat) (ps : List TK) : (Node.cons t tag ps).enum = none := rfl
@[simp] theorem enum_structDcl (t : Nat) (fs : List TK) : (Node.structDcl t fs).enum = none := rfl
@[simp] theorem enum_enumDcl (t : Nat) (ms : List (List TK)) : (Node.enumDcl t ms).enum = some (t, ms) := rfl
@[simp] theorem enum_fn : (Node.fn).enum = none := rfl
@[simp] theorem struct_cons (t : Nat) (tag : Option Nat) (ps : List TK) : (Node.cons t tag ps).struct = none := rfl
@[simp] theorem struct_structDcl (t : Nat) (fs : List TK) : (Node.structDcl t fs).struct = some (t, none, fs) := rfl
@[simp] theorem struct_enumDcl (t : Nat) (ms : List (List TK)) : (Node.enumDcl t ms).struct = none := rfl
@[simp] theorem struct_fn : (Node.fn).struct = none := rfl

attribute [local simp] List.filterMap_cons

/-- The constructors of an enum from the tag `i`. -/
def group (t : Nat) (i : Nat) : List (List TK) → List CK
  | [] => []
  | ps :: ms => (t, some i, ps) :: group t (i + 1) ms

theorem mkConses_con (t : Nat) (i : Nat) (ms : List (List TK)) : (mkConses t i ms).filterMap Node.con = group t i ms := by
  induction ms generalizing i with
  | nil => rfl
  | cons ps ms ih => simp [mkConses, group, ih]

theorem mkConses_ref (t : Nat) (i : Nat) (ms : List (List TK)) : (mkConses t i ms).filterMap Node.ref = [] := by
  induction ms generalizing i with
  | nil => rfl
  | cons ps ms ih => simp only [mkConses, List.filterMap_cons, ref_cons, ih]

theorem mkConses_struct (t : Nat) (i : Nat) (ms : List (List TK)) : (mkConses t i ms).filterMap Node.struct = [] := by
  induction ms generalizing i with
  | nil => rfl
  | cons ps ms ih => simp only [mkConses, List.filterMap_cons, struct_cons, ih]

theorem group_mem {t : Nat} {i : Nat} {ms : List (List TK)} {j : Nat} {ps : List TK} (h : ms[j]? = some ps) :
    (t, some (i + j), ps) ∈ group t i ms := by
  induction ms generalizing i j with
  | nil => simp at h
  | cons qs ms ih =>
    cases j with
    | zero => simp only [List.getElem?_cons_zero, Option.some.injEq] at h; subst h; exact List.mem_cons_self
    | succ j =>
      have := ih (i := i + 1) h
      rw [show i + 1 + j = i + (j + 1) by omega] at this
      exact List.mem_cons_of_mem _ this

theorem mkMembers_get {i : Nat} {ms : List (List TK)} {j : Nat} : (mkMembers i ms)[j]? = (ms[j]?).map (fun ps => ⟨i + j, ps⟩) := by
  induction ms generalizing i j with
  | nil => simp [mkMembers]
  | cons qs ms ih =>
    cases j with
    | zero => simp [mkMembers]
    | succ j => simp only [mkMembers, List.getElem?_cons_succ, ih, show i + 1 + j = i + (j + 1) by omega]

/-! ### The passes -/

structure Declared (n : Nat) (p : Prog) : Prop where
  nodup : (p.root.filterMap Node.ref).Nodup
  range : ∀ t ∈ p.root.filterMap Node.ref, n ≤ t ∧ t < p.types.length
  nocon : p.root.filterMap Node.con = []

theorem declare_spec (ds : List Decl) (p : Prog) {n : Nat} (hn : n ≤ p.types.length) (h : Declared n p) :
    Declared n (declare ds p) ∧ p.types <+: (declare ds p).types ∧ (∀ x ∈ p.root, x ∈ (declare ds p).root) ∧
    (∀ ms, Decl.enum ms ∈ ds → ∃ t, Node.enumDcl t ms ∈ (declare ds p).root) ∧
    (∀ fs, Decl.struct fs ∈ ds → ∃ t, Node.structDcl t fs ∈ (declare ds p).root) := by
  induction ds generalizing p with
  | nil => exact ⟨h, List.prefix_refl _, fun _ h => h, by simp, by simp⟩
  | cons d ds ih =>
    have new : ∀ (td : TypeD) (nd : Node), nd.ref = some p.types.length → nd.con = none →
        Declared n { types := p.types ++ [td], root := p.root ++ [nd] } := by
      intro td nd hr hc
      refine ⟨?_, ?_, ?_⟩
      · simp only [List.filterMap_append, List.filterMap_cons, hr, List.filterMap_nil]
        refine List.nodup_append.2 ⟨h.nodup, by simp, ?_⟩
        intro a ha b hb
        rw [List.mem_singleton] at hb
        have := (h.range a ha).2
        omega
      · intro t ht
        simp only [List.filterMap_append, List.filterMap_cons, hr, List.filterMap_nil, List.mem_append, List.mem_singleton] at ht
        simp only [List.length_append, List.length_singleton]
        rcases ht with ht | rfl
        · exact ⟨(h.range t ht).1, by have := (h.range t ht).2; omega⟩
        · exact ⟨hn, by omega⟩
      · simp [h.nocon, hc]
    cases d with
    | func =>
      obtain ⟨a1, a2, a3, a4, a5⟩ := ih { p with root := p.root ++ [.fn] } hn
        ⟨by simpa  using h.nodup, by simpa  using h.range, by simp [h.nocon]⟩
      refine ⟨a1, a2, fun x hx => a3 x (List.mem_append_left _ hx), ?_, ?_⟩
      · intro ms hm; rcases List.mem_cons.1 hm with hm | hm; · cases hm
        exact a4 ms hm
      · intro ms hm; rcases List.mem_cons.1 hm with hm | hm; · cases hm
        exact a5 ms hm
    | struct fs =>
      obtain ⟨a1, a2, a3, a4, a5⟩ := ih { types := p.types ++ [.struct []], root := p.root ++ [.structDcl p.types.length fs] }
        (by simp only [List.length_append]; omega) (new _ _ rfl rfl)
      refine ⟨a1, (List.prefix_append _ _).trans a2, fun x hx => a3 x (List.mem_append_left _ hx), ?_, ?_⟩
      · intro ms hm; rcases List.mem_cons.1 hm with hm | hm; · cases hm
        exact a4 ms hm
      · intro ms hm; rcases List.mem_cons.1 hm with hm | hm
        · cases hm; exact ⟨_, a3 _ (List.mem_append_right _ List.mem_cons_self)⟩
        exact a5 ms hm
    | enum ms' =>
      obtain ⟨a1, a2, a3, a4, a5⟩ := ih { types := p.types ++ [.enum []], root := p.root ++ [.enumDcl p.types.length ms'] }
        (by simp only [List.length_append]; omega) (new _ _ rfl rfl)
      refine ⟨a1, (List.prefix_append _ _).trans a2, fun x hx => a3 x (List.mem_append_left _ hx), ?_, ?_⟩
      · intro ms hm; rcases List.mem_cons.1 hm with hm | hm
        · cases hm; exact ⟨_, a3 _ (List.mem_append_right _ List.mem_cons_self)⟩
        exact a4 ms hm
      · intro ms hm; rcases List.mem_cons.1 hm with hm | hm; · cases hm
        exact a5 ms hm

theorem process_types (ns : List Node) (p : Prog) (hnd : (ns.filterMap Node.ref).Nodup)
    (hr : ∀ t ∈ ns.filterMap Node.ref, t < p.types.length) :
    (process ns p).types.length = p.types.length ∧
    (∀ t, t ∉ ns.filterMap Node.ref → (process ns p).types[t]? = p.types[t]?) ∧
    (∀ t fs, Node.structDcl t fs ∈ ns → (process ns p).types[t]? = some (.struct (mkFields 0 fs))) ∧
    (∀ t ms, Node.enumDcl t ms ∈ ns → (process ns p).types[t]? = some (.enum (mkMembers 0 ms))) := by
  induction ns generalizing p with
  | nil => simp [process]
  | cons n ns ih =>
    have step : ∀ (t : Nat) (td : TypeD) (r : List Node), n.ref = some t →
        process (n :: ns) p = process ns { types := p.types.set t td, root := r } →
        (∀ t' fs, n = .structDcl t' fs → td = .struct (mkFields 0 fs) ∧ t' = t) →
        (∀ t' ms, n = .enumDcl t' ms → td = .enum (mkMembers 0 ms) ∧ t' = t) →
        (process (n :: ns) p).types.length = p.types.length ∧
        (∀ t, t ∉ (n :: ns).filterMap Node.ref → (process (n :: ns) p).types[t]? = p.types[t]?) ∧
        (∀ t fs, Node.structDcl t fs ∈ n :: ns → (process (n :: ns) p).types[t]? = some (.struct (mkFields 0 fs))) ∧
        (∀ t ms, Node.enumDcl t ms ∈ n :: ns → (process (n :: ns) p).types[t]? = some (.enum (mkMembers 0 ms))) := by
      intro t td r h1 h2 h3 h4
      rw [h2]
      simp only [List.filterMap_cons, h1, List.nodup_cons, List.mem_cons, forall_eq_or_imp] at hnd hr
      obtain ⟨b1, b2, b3, b4⟩ := ih { types := p.types.set t td, root := r } hnd.2 (by simpa using hr.2)
      simp only [List.length_set] at b1
      have e : (process ns { types := p.types.set t td, root := r }).types[t]? = some td := by
        rw [b2 t hnd.1]
        simp only [List.getElem?_set_self hr.1]
      refine ⟨b1, ?_, ?_, ?_⟩
      · intro t' ht'
        simp only [List.filterMap_cons, h1, List.mem_cons, not_or] at ht'
        rw [b2 t' ht'.2]
        exact List.getElem?_set_ne (fun h => ht'.1 h.symm)
      · intro t' fs hm
        rcases List.mem_cons.1 hm with hm | hm
        · obtain ⟨rfl, rfl⟩ := h3 t' fs hm.symm; exact e
        · exact b3 t' fs hm
      · intro t' ms hm
        rcases List.mem_cons.1 hm with hm | hm
        · obtain ⟨rfl, rfl⟩ := h4 t' ms hm.symm; exact e
        · exact b4 t' ms hm
    have skip : n.ref = none → process (n :: ns) p = process ns p →
        (process (n :: ns) p).types.length = p.types.length ∧
        (∀ t, t ∉ (n :: ns).filterMap Node.ref → (process (n :: ns) p).types[t]? = p.types[t]?) ∧
        (∀ t fs, Node.structDcl t fs ∈ n :: ns → (process (n :: ns) p).types[t]? = some (.struct (mkFields 0 fs))) ∧
        (∀ t ms, Node.enumDcl t ms ∈ n :: ns → (process (n :: ns) p).types[t]? = some (.enum (mkMembers 0 ms))) := by
      intro h1 h2
      rw [h2]
      simp only [List.filterMap_cons, h1] at hnd hr
      obtain ⟨b1, b2, b3, b4⟩ := ih p hnd hr
      refine ⟨b1, ?_, ?_, ?_⟩
      · simpa only [List.filterMap_cons, h1] using b2
      · intro t' fs hm
        rcases List.mem_cons.1 hm with hm | hm
        · rw [← hm] at h1; cases h1
        · exact b3 t' fs hm
      · intro t' fs hm
        rcases List.mem_cons.1 hm with hm | hm
        · rw [← hm] at h1; cases h1
        · exact b4 t' fs hm
    cases n with
    | structDcl t fs => exact step t _ _ rfl rfl (by rintro _ _ h; cases h; exact ⟨rfl, rfl⟩) (by rintro _ _ h; cases h)
    | enumDcl t ms => exact step t _ _ rfl rfl (by rintro _ _ h; cases h) (by rintro _ _ h; cases h; exact ⟨rfl, rfl⟩)
    | fn => exact skip rfl rfl
    | cons t tag ps => exact skip rfl rfl

theorem process_root (ns : List Node) (p : Prog) :
    (process ns p).root.filterMap Node.con = p.root.filterMap Node.con ++ (ns.filterMap Node.enum).flatMap (fun g => group g.1 0 g.2) ∧
    (process ns p).root.filterMap Node.struct = p.root.filterMap Node.struct := by
  induction ns generalizing p with
  | nil => simp [process]
  | cons n ns ih =>
    cases n with
    | enumDcl t ms =>
      simp only [process]
      obtain ⟨a, b⟩ := ih { types := p.types.set t (.enum (mkMembers 0 ms)), root := p.root ++ mkConses t 0 ms }
      rw [a, b]
      simp [mkConses_con, mkConses_struct]
    | structDcl t fs => simpa [process] using ih _
    | fn => simpa [process] using ih p
    | cons t tag ps => simpa [process] using ih p

theorem structConses_spec (ns : List Node) (p : Prog) :
    (structConses ns p).types = p.types ∧
    (structConses ns p).root.filterMap Node.con = p.root.filterMap Node.con ++ ns.filterMap Node.struct := by
  induction ns generalizing p with
  | nil => simp [structConses]
  | cons n ns ih =>
    cases n with
    | structDcl t fs =>
      simp only [structConses]
      obtain ⟨a, b⟩ := ih { p with root := p.root ++ [.cons t none fs] }
      rw [a, b]
      simp 
    | enumDcl t ms => simpa [structConses] using ih p
    | fn => simpa [structConses] using ih p
    | cons t tag ps => simpa [structConses] using ih p

/-- A constructor of a struct type of the store. -/
def IsStruct (types : List TypeD) (c : CK) : Prop := c.2.1 = none ∧ types[c.1]? = some (.struct (mkFields 0 c.2.2))

theorem prefix_get {a b : List TypeD} (h : a <+: b) {i : Nat} {x : TypeD} (hx : a[i]? = some x) : b[i]? = some x := by
  obtain ⟨c, rfl⟩ := h
  rw [List.getElem?_append_left (List.getElem?_eq_some_iff.1 hx).1, hx]

theorem IsStruct.mono {a b : List TypeD} (h : a <+: b) {c : CK} (hc : IsStruct a c) : IsStruct b c := ⟨hc.1, prefix_get h hc.2⟩

theorem generateStruct_spec (fs : List TK) (p : Prog) :
    p.types <+: (generateStruct fs p).types ∧
    ∃ c, IsStruct (generateStruct fs p).types c ∧ c.1 = p.types.length ∧ (generateStruct fs p).types.length = p.types.length + 1 ∧
      (generateStruct fs p).root.filterMap Node.con = p.root.filterMap Node.con ++ [c] := by
  refine ⟨List.prefix_append _ _, (p.types.length, none, fs), ⟨rfl, ?_⟩, rfl, by simp [generateStruct], ?_⟩
  · simp [generateStruct]
  · simp [generateStruct]

theorem hoist_spec (ls : List Local) (p : Prog) :
    p.types <+: (hoist ls p).types ∧
    ∃ ss : List CK, (∀ c ∈ ss, IsStruct (hoist ls p).types c) ∧ (∀ c ∈ ss, p.types.length ≤ c.1) ∧ (ss.map (·.1)).Nodup ∧
      (hoist ls p).root.filterMap Node.con = p.root.filterMap Node.con ++ ss := by
  induction ls generalizing p with
  | nil => exact ⟨List.prefix_refl _, [], by simp, by simp, by simp, by simp [hoist]⟩
  | cons l ls ih =>
    cases l with
    | anon =>
      obtain ⟨a, ss, b, b2, b3, c⟩ := ih { p with root := p.root ++ [.fn] }
      exact ⟨a, ss, b, b2, b3, by simpa [hoist] using c⟩
    | closure free =>
      simp only [hoist]
      obtain ⟨a1, c1, i1, n1, l1, r1⟩ := generateStruct_spec free p
      obtain ⟨a2, c2, i2, n2, l2, r2⟩ := generateStruct_spec [.function, .struct] (generateStruct free p)
      obtain ⟨a, ss, b, b2, b3, c⟩ := ih
        ⟨(generateStruct [.function, .struct] (generateStruct free p)).types,
          (generateStruct [.function, .struct] (generateStruct free p)).root ++ [.fn]⟩
      have b2 : ∀ c ∈ ss, (generateStruct [.function, .struct] (generateStruct free p)).types.length ≤ c.1 := b2
      refine ⟨a1.trans (a2.trans a), c1 :: c2 :: ss, ?_, ?_, ?_, ?_⟩
      · intro c hc
        rcases List.mem_cons.1 hc with rfl | hc
        · exact i1.mono (a2.trans a)
        rcases List.mem_cons.1 hc with rfl | hc
        · exact i2.mono a
        · exact b c hc
      · intro c hc
        rcases List.mem_cons.1 hc with rfl | hc
        · omega
        rcases List.mem_cons.1 hc with rfl | hc
        · omega
        · have := b2 c hc; omega
      · simp only [List.map_cons, List.nodup_cons, List.mem_cons, List.mem_map, not_or, not_exists, not_and]
        exact ⟨⟨by omega, fun x hx e => by have := b2 x hx; omega⟩, fun x hx e => by have := b2 x hx; omega, b3⟩
      · rw [c]; simp [r2, r1]

/-- What the generator gets. -/
structure Ready (ds : List Decl) (p : Prog) (gs : List (Nat × List (List TK))) (ss : List CK) : Prop where
  con : p.root.filterMap Node.con = gs.flatMap (fun g => group g.1 0 g.2) ++ ss
  nodup : (gs.map (·.1)).Nodup
  snodup : (ss.map (·.1)).Nodup
  enums : ∀ g ∈ gs, p.types[g.1]? = some (.enum (mkMembers 0 g.2))
  structs : ∀ c ∈ ss, IsStruct p.types c
  std : stdTypes <+: p.types
  allEnums : ∀ ms, Decl.enum ms ∈ ds → ∃ t, (t, ms) ∈ gs
  allStructs : ∀ fs, Decl.struct fs ∈ ds → ∃ t, (t, none, fs) ∈ ss

theorem enum_sub_ref (ns : List Node) : ((ns.filterMap Node.enum).map (·.1)).Sublist (ns.filterMap Node.ref) := by
  induction ns with
  | nil => simp
  | cons n ns ih =>
    cases n with
    | enumDcl t ms => simpa  using ih
    | structDcl t fs => simp only [List.filterMap_cons]; exact ih.cons _
    | fn => simpa  using ih
    | cons t tag ps => simpa  using ih

theorem struct_sub_ref (ns : List Node) : ((ns.filterMap Node.struct).map (·.1)).Sublist (ns.filterMap Node.ref) := by
  induction ns with
  | nil => simp
  | cons n ns ih =>
    cases n with
    | structDcl t ms => simpa using ih
    | enumDcl t fs => simp only [List.filterMap_cons]; exact ih.cons _
    | fn => simpa using ih
    | cons t tag ps => simpa using ih

theorem lowered_ready (ds : List Decl) (ls : List Local) : ∃ gs ss, Ready ds (lowered ds ls) gs ss := by
  obtain ⟨a1, a2, -, a4, a5⟩ := declare_spec ds { types := stdTypes, root := [] } (n := 5) (by decide) ⟨by simp, by simp, rfl⟩
  generalize hp : declare ds { types := stdTypes, root := [] } = p at *
  have hb := process_types p.root p a1.nodup (fun t ht => (a1.range t ht).2)
  have hc := process_root p.root p
  generalize hq : process p.root p = q at *
  have hd := structConses_spec q.root q
  generalize hs : structConses q.root q = s at *
  obtain ⟨h1, ss, h2, h4, h5, h3⟩ := hoist_spec ls s
  have hl : lowered ds ls = hoist ls s := by simp only [lowered, hp, hq, hs]
  rw [hl]
  obtain ⟨b1, b2, b3, b4⟩ := hb
  have std : stdTypes <+: q.types := by
    obtain ⟨r, hr⟩ := a2
    refine List.prefix_iff_eq_take.2 ?_
    apply List.ext_getElem?
    intro i
    by_cases hi : i < 5
    · rw [List.getElem?_take_of_lt (by simpa [stdTypes] using hi), b2 i (fun hm => by have := (a1.range i hm).1; omega)]
      have : i < stdTypes.length := by simpa [stdTypes] using hi
      rw [← hr]
      exact (List.getElem?_append_left this).symm
    · rw [List.getElem?_eq_none (by simp only [stdTypes, List.length_cons, List.length_nil]; omega),
        List.getElem?_eq_none (by simp only [List.length_take, stdTypes, List.length_cons, List.length_nil]; omega)]
  refine ⟨p.root.filterMap Node.enum, q.root.filterMap Node.struct ++ ss, ?_, ?_, ?_, ?_, ?_, ?_, ?_, ?_⟩
  · rw [h3, hd.2, hc.1, a1.nocon, List.nil_append, List.append_assoc]
  · exact (enum_sub_ref p.root).nodup a1.nodup
  · rw [List.map_append]
    refine List.nodup_append.2 ⟨by rw [hc.2]; exact (struct_sub_ref p.root).nodup a1.nodup, h5, ?_⟩
    rintro a ha b hbm rfl
    rw [hc.2] at ha
    have h6 := (a1.range a ((struct_sub_ref p.root).subset ha)).2
    obtain ⟨c, hcm, rfl⟩ := List.mem_map.1 hbm
    have h7 := h4 c hcm
    rw [hd.1] at h7
    omega
  · rintro ⟨t, ms⟩ hg
    obtain ⟨n, hn, he⟩ := List.mem_filterMap.1 hg
    cases n <;> simp only [enum_cons, enum_fn, enum_structDcl, enum_enumDcl, Option.some.injEq, Prod.mk.injEq, reduceCtorEq] at he
    obtain ⟨rfl, rfl⟩ := he
    exact prefix_get h1 (by rw [hd.1]; exact b4 _ _ hn)
  · intro c hcm
    rcases List.mem_append.1 hcm with hcm | hcm
    · rw [hc.2] at hcm
      obtain ⟨n, hn, he⟩ := List.mem_filterMap.1 hcm
      cases n <;> simp only [struct_cons, struct_fn, struct_structDcl, struct_enumDcl, Option.some.injEq, reduceCtorEq] at he
      subst he
      exact ⟨rfl, prefix_get h1 (by rw [hd.1]; exact b3 _ _ hn)⟩
    · exact h2 c hcm
  · exact std.trans (by rw [← hd.1]; exact h1)
  · intro ms hm
    obtain ⟨t, ht⟩ := a4 ms hm
    exact ⟨t, List.mem_filterMap.2 ⟨_, ht, rfl⟩⟩
  · intro fs hf
    obtain ⟨t, ht⟩ := a5 fs hf
    refine ⟨t, List.mem_append_left _ ?_⟩
    rw [hc.2]
    exact List.mem_filterMap.2 ⟨_, ht, rfl⟩

/-! ### Type ids -/

theorem assignIds_spec (ns : List Node) (gt : List Nat) :
    (assignIds ns gt).2 = gt ++ (ns.filterMap Node.con).map (·.1) ∧
    (assignIds ns gt).1.map (fun c => ((c.ret, c.tag, c.params) : CK)) = ns.filterMap Node.con ∧
    ∀ (i : Nat) (c : Con), (assignIds ns gt).1[i]? = some c → c.id = gt.length + i := by
  induction ns generalizing gt with
  | nil => simp [assignIds]
  | cons n ns ih =>
    cases n with
    | cons t tag ps =>
      obtain ⟨a, b, c⟩ := ih (gt ++ [t])
      refine ⟨by simp [assignIds, a], by simp [assignIds, b], ?_⟩
      intro i x hx
      cases i with
      | zero => simp only [assignIds, List.getElem?_cons_zero, Option.some.injEq] at hx; rw [← hx]; rfl
      | succ i =>
        have := c i x (by simpa [assignIds] using hx)
        simp only [List.length_append, List.length_singleton] at this
        omega
    | fn => simpa [assignIds] using ih gt
    | structDcl t fs => simpa [assignIds] using ih gt
    | enumDcl t fs => simpa [assignIds] using ih gt

/-! ### The table -/

/-- The offsets expected for a constructor. -/
def entry (c : CK) : List Int :=
  match c.2.1 with
  | none => fieldOffs (mkFields 0 c.2.2)
  | some _ => memberOffs 0 c.2.2

theorem rootMaps_structs {types : List TypeD} {ss : List CK} (h : ∀ c ∈ ss, IsStruct types c) (tag : Nat) (et : Option Nat) :
    rootMaps types (ss.map (·.1)) tag et = some (ss.map entry) := by
  induction ss generalizing tag et with
  | nil => rfl
  | cons c ss ih =>
    obtain ⟨h1, h2⟩ := h c List.mem_cons_self
    have ih := fun tag et => ih (fun c hc => h c (List.mem_cons_of_mem _ hc)) tag et
    have he : entry c = fieldOffs (mkFields 0 c.2.2) := by simp only [entry, h1]
    simp only [List.map_cons, rootMaps, h2, ih, Option.map_some, he]
    split
    · rename_i hz
      rw [List.length_eq_zero_iff.1 hz]
    · rfl

theorem rootMaps_group {types : List TypeD} {t : Nat} {all : List (List TK)} (ht : types[t]? = some (.enum (mkMembers 0 all)))
    (ms pre : List (List TK)) (rest : List Nat) (hall : all = pre ++ ms) :
    rootMaps types ((group t pre.length ms).map (·.1) ++ rest) pre.length (some t) =
      (rootMaps types rest (pre.length + ms.length) (some t)).map ((group t pre.length ms).map entry ++ ·) := by
  induction ms generalizing pre with
  | nil => simp [group]
  | cons ps ms ih =>
    have := ih (pre ++ [ps]) (by rw [hall]; simp)
    simp only [List.length_append, List.length_singleton] at this
    have hm : (mkMembers 0 all)[pre.length]? = some ⟨pre.length, ps⟩ := by
      rw [mkMembers_get, hall, List.getElem?_append_right (Nat.le_refl _)]
      simp
    simp only [group, List.map_cons, List.cons_append, rootMaps, ht, if_true, hm, this, List.length_cons]
    rw [show pre.length + 1 + ms.length = pre.length + (ms.length + 1) by omega, Option.map_map]
    rfl

theorem rootMaps_enums {types : List TypeD} {gs : List (Nat × List (List TK))} (hnd : (gs.map (·.1)).Nodup)
    (h : ∀ g ∈ gs, types[g.1]? = some (.enum (mkMembers 0 g.2))) (rest : List Nat) (tag : Nat) (et : Option Nat)
    (het : ∀ t, et = some t → t ∉ gs.map (·.1)) :
    ∃ tag' et', rootMaps types ((gs.flatMap (fun g => group g.1 0 g.2)).map (·.1) ++ rest) tag et =
      (rootMaps types rest tag' et').map ((gs.flatMap (fun g => group g.1 0 g.2)).map entry ++ ·) := by
  induction gs generalizing tag et with
  | nil => exact ⟨tag, et, by simp⟩
  | cons g gs ih =>
    obtain ⟨t, ms⟩ := g
    simp only [List.map_cons, List.nodup_cons] at hnd
    have ht := h _ List.mem_cons_self
    have ih := fun tag et het => ih hnd.2 (fun g hg => h g (List.mem_cons_of_mem _ hg)) tag et het
    have hne : et ≠ some t := fun e => het t e (by simp)
    cases ms with
    | nil =>
      obtain ⟨tag', et', e⟩ := ih tag et (fun t' e hm => het t' e (by simp only [List.map_cons]; exact List.mem_cons_of_mem _ hm))
      exact ⟨tag', et', by simpa [group] using e⟩
    | cons ps ms =>
      have hg := rootMaps_group ht (ps :: ms) [] ((gs.flatMap (fun g => group g.1 0 g.2)).map (·.1) ++ rest) rfl
      obtain ⟨tag', et', e⟩ := ih (0 + (ps :: ms).length) (some t) (fun t' e hm => by cases e; exact hnd.1 hm)
      refine ⟨tag', et', ?_⟩
      simp only [List.length_nil] at hg
      rw [e, Option.map_map] at hg
      have first : ∀ r, rootMaps types ((group t 0 (ps :: ms)).map (·.1) ++ r) tag et =
          rootMaps types ((group t 0 (ps :: ms)).map (·.1) ++ r) 0 (some t) := by
        intro r
        simp only [group, List.map_cons, List.cons_append, rootMaps, ht, if_neg hne, if_true]
      simp only [List.flatMap_cons, List.map_append, List.append_assoc]
      rw [first, hg]
      congr 1

theorem infos_append {types : List TypeD} {ts ts' : List Nat} {rs rs' : List (List Int)} {a : List Gc.TypeInfo}
    (h : infos types ts rs = some a) (hl : ts.length = rs.length) :
    infos types (ts ++ ts') (rs ++ rs') = (infos types ts' rs').map (a ++ ·) := by
  induction ts generalizing rs a with
  | nil =>
    cases rs with
    | nil => simp only [infos, Option.some.injEq] at h; subst h; simp
    | cons _ _ => simp at hl
  | cons t ts ih =>
    cases rs with
    | nil => simp at hl
    | cons r rs =>
      simp only [infos, List.cons_append] at h ⊢
      split at h
      · rename_i d hd
        simp only [Option.map_eq_some_iff] at h
        obtain ⟨b, hb, rfl⟩ := h
        rw [ih hb (by simpa using hl), Option.map_map]
        rfl
      · cases h

theorem infos_cons {types : List TypeD} {cs : List CK}
    (h : ∀ c ∈ cs, (∃ fs, types[c.1]? = some (.struct fs)) ∨ ∃ ms, types[c.1]? = some (.enum ms)) :
    infos types (cs.map (·.1)) (cs.map entry) = some (cs.map (fun c => .struct (entry c))) := by
  induction cs with
  | nil => rfl
  | cons c cs ih =>
    have ih := ih (fun c hc => h c (List.mem_cons_of_mem _ hc))
    rcases h c List.mem_cons_self with ⟨fs, hc⟩ | ⟨fs, hc⟩ <;>
      simp only [List.map_cons, infos, hc, ih, Option.map_some, info]

/-- The first entries of the table (`gc.go` 84-120). -/
def builtinInfos : List Gc.TypeInfo :=
  [.struct [], .bytes, .array false, .array true, .string, .function, .bytes, .array true]

theorem mem_group {t : Nat} {i : Nat} {ms : List (List TK)} {c : CK} (h : c ∈ group t i ms) : c.1 = t := by
  induction ms generalizing i with
  | nil => cases h
  | cons ps ms ih =>
    rcases List.mem_cons.1 h with rfl | h
    · rfl
    · exact ih h

/-- The table of a program. -/
theorem typeTable_eq (ds : List Decl) (ls : List Local) :
    typeTable ds ls = some (builtinInfos ++ (constructors ds ls).map (fun c => .struct (entry (c.ret, c.tag, c.params)))) := by
  obtain ⟨gs, ss, R⟩ := lowered_ready ds ls
  generalize hp : lowered ds ls = p at R
  simp only [typeTable, constructors, hp]
  obtain ⟨a1, a2, -⟩ := assignIds_spec p.root (addBuiltins p.types).2
  have hT : p.types <+: (addBuiltins p.types).1 := List.prefix_append _ _
  have hcons : (assignIds p.root (addBuiltins p.types).2).1.map (fun c => Gc.TypeInfo.struct (entry (c.ret, c.tag, c.params))) =
      (p.root.filterMap Node.con).map (fun c => .struct (entry c)) := by rw [← a2, List.map_map]; rfl
  rw [hcons, a1, R.con]
  have st : ∀ {i : Nat} {x : TypeD}, stdTypes[i]? = some x → (addBuiltins p.types).1[i]? = some x :=
    fun h => prefix_get (R.std.trans hT) h
  have e0 := st (i := 0) rfl
  have e1 := st (i := 1) rfl
  have e2 := st (i := 2) rfl
  have e3 := st (i := 3) rfl
  have e4 := st (i := 4) rfl
  have e5 : (addBuiltins p.types).1[p.types.length]? = some (.struct []) := by simp [addBuiltins]
  have e6 : (addBuiltins p.types).1[p.types.length + 1]? = some .function := by simp [addBuiltins]
  have hb : (addBuiltins p.types).2 = [p.types.length, 0, 1, 2, 3, p.types.length + 1, 0, 4] := rfl
  rw [hb]
  generalize (addBuiltins p.types).1 = T at *
  have hR : ∀ rest, rootMaps T ([p.types.length, 0, 1, 2, 3, p.types.length + 1, 0, 4] ++ rest) 0 none =
      (rootMaps T rest 0 none).map (List.replicate 8 [] ++ ·) := by
    intro rest
    simp only [List.cons_append, List.nil_append, rootMaps, e0, e1, e2, e3, e4, e5, e6, fieldOffs, List.filter_nil, List.map_nil,
      List.length_nil, if_true, Option.map_map]
    rfl
  obtain ⟨tag, et, hE⟩ := rootMaps_enums (types := T) R.nodup (fun g hg => prefix_get hT (R.enums g hg)) (ss.map (·.1)) 0 none (by simp)
  rw [rootMaps_structs (fun c hc => (R.structs c hc).mono hT) tag et] at hE
  simp only [typeInfoTable, List.map_append]
  rw [hR, hE]
  simp only [Option.map_some, ← List.map_append]
  have hI : infos T [p.types.length, 0, 1, 2, 3, p.types.length + 1, 0, 4] (List.replicate 8 []) = some builtinInfos := by
    simp only [List.replicate, infos, e0, e1, e2, e3, e4, e5, e6, Option.map_some, info]
    rfl
  rw [infos_append hI rfl, infos_cons]
  · rfl
  · intro c hc
    rcases List.mem_append.1 hc with hc | hc
    · obtain ⟨g, hg, hc⟩ := List.mem_flatMap.1 hc
      exact .inr ⟨_, by rw [mem_group hc]; exact prefix_get hT (R.enums g hg)⟩
    · exact .inl ⟨_, ((R.structs c hc).mono hT).2⟩

end Clara.Tbl
