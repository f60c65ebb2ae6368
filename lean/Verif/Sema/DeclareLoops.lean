import Verif.Sema.DeclareInst
import Verif.Util
set_option linter.unusedVariables false
/-
The first and the second loop over the declarations.
-/
namespace Clara.Sema.Dcl
open Clara Clara.Types
open Clara.Sema.Chk (TyN Err Head FnBody assign Env FindsType MeansAll bodyTerm)

/-! ### Lookup -/

theorem lookup_cons' {β : Type} (y : String) (t : β) (l : List (String × β)) (x : String) :
    ((y, t) :: l).lookup x = if x = y then some t else l.lookup x := by
  rw [List.lookup_cons]
  by_cases h : x = y
  · subst h; simp
  · simp [beq_eq_false_iff_ne.2 h, h]

theorem lookup_append' {β : Type} (a b : List (String × β)) (x : String) : (a ++ b).lookup x = (a.lookup x).or (b.lookup x) := by
  induction a with
  | nil => simp
  | cons e a ih =>
    obtain ⟨y, t⟩ := e
    simp only [List.cons_append, lookup_cons', ih]
    split <;> simp

theorem lookup_none {β : Type} {l : List (String × β)} {x : String} : l.lookup x = none ↔ x ∉ l.map (·.1) := by
  induction l with
  | nil => simp
  | cons e l ih =>
    obtain ⟨y, t⟩ := e
    simp only [lookup_cons', List.map_cons, List.mem_cons, not_or]
    by_cases h : x = y
    · subst h; simp
    · simp [ih, h]

theorem lookup_of_mem {β : Type} {l : List (String × β)} {x : String} {v : β} (hn : (l.map (·.1)).Nodup) (h : (x, v) ∈ l) : l.lookup x = some v := by
  induction l with
  | nil => cases h
  | cons e l ih =>
    obtain ⟨y, t⟩ := e
    simp only [List.map_cons, List.nodup_cons] at hn
    rw [lookup_cons']
    rcases List.mem_cons.1 h with h | h
    · cases h; simp
    · have : x ≠ y := fun he => hn.1 (he ▸ List.mem_map_of_mem (f := (·.1)) h)
      rw [if_neg this]
      exact ih hn.2 h

/-- The value of a name is changed. -/
theorem lookup_update {β : Type} (l : List (String × β)) (n : String) (g : β → β) (x : String) :
    (l.map fun e => if e.1 = n then (n, g e.2) else e).lookup x = if x = n then (l.lookup x).map g else l.lookup x := by
  induction l with
  | nil => simp
  | cons e l ih =>
    obtain ⟨y, t⟩ := e
    simp only [List.map_cons]
    by_cases hy : y = n
    · subst hy
      simp only [if_true, lookup_cons', ih]
      by_cases hx : x = y <;> simp [hx]
    · simp only [if_neg hy, lookup_cons', ih]
      by_cases hx : x = y
      · subst hx; simp [hy]
      · simp [hx]

theorem names_update {β : Type} (l : List (String × β)) (n : String) (g : β → β) :
    (l.map fun e => if e.1 = n then (n, g e.2) else e).map (·.1) = l.map (·.1) := by
  rw [List.map_map]
  apply List.map_congr_left
  intro e _
  simp only [Function.comp_apply]
  split <;> simp_all

/-! ### The first loop -/

def Dcl.typeEntry : Dcl → Option (String × List RSym)
  | .struct n _ _ => some (n, [.type (.decl n)])
  | .enum n tps _ => some (n, [.type (.enum n (tps.map fun p => .param p.2))])
  | .fn _ => none
def Dcl.structEntry : Dcl → Option (String × SRec)
  | .struct n tps _ => some (n, ⟨tps, []⟩)
  | _ => none
def Dcl.enumEntry : Dcl → Option (String × ERec)
  | .enum n tps _ => some (n, ⟨tps, []⟩)
  | _ => none
def Dcl.key : Dcl → Option String
  | .fn f => some (fnName f)
  | _ => none
def Dcl.isFn : Dcl → Bool
  | .fn _ => true
  | _ => false

theorem typeParams_ok : ∀ {tps seen r : List (String × Nat)}, typeParams seen tps = (r, []) →
    r = tps ∧ (tps.map (·.1)).Nodup ∧ ∀ p ∈ tps, p.1 ∉ seen.map (·.1)
  | [], seen, r, h => by
    simp only [typeParams, Prod.mk.injEq] at h
    obtain ⟨rfl, _⟩ := h
    simp
  | (x, k) :: tps, seen, r, h => by
    simp only [typeParams] at h
    split at h
    · simp at h
    · rename_i hs
      simp only [Prod.mk.injEq] at h
      obtain ⟨rfl, h⟩ := h
      obtain ⟨h1, h2, h3⟩ := typeParams_ok (Prod.ext (x := typeParams ((x, k) :: seen) tps) rfl h)
      have hx : x ∉ seen.map (·.1) := lookup_none.1 (Option.not_isSome_iff_eq_none.1 hs)
      refine ⟨congrArg _ h1, ?_, ?_⟩
      · simp only [List.map_cons, List.nodup_cons]
        refine ⟨fun hm => ?_, h2⟩
        obtain ⟨p, hp, rfl⟩ := List.mem_map.1 hm
        exact h3 p hp (by simp)
      · intro p hp
        rcases List.mem_cons.1 hp with rfl | hp
        · exact hx
        · have := h3 p hp
          simp only [List.map_cons, List.mem_cons, not_or] at this
          exact this.2

structure FirstOk (T T' : Tab) (ds : List Dcl) : Prop where
  root : T'.root = T.root ++ ds.filterMap Dcl.typeEntry
  structs : T'.structs = T.structs ++ ds.filterMap Dcl.structEntry
  enums : T'.enums = T.enums ++ ds.filterMap Dcl.enumEntry
  fns : T'.fns = T.fns
  keys : T'.keys = T.keys ++ ds.filterMap Dcl.key
  distinct : (T.root.map (·.1)).Nodup → (T'.root.map (·.1)).Nodup
  keysDistinct : T.keys.Nodup → T'.keys.Nodup
  tps : ∀ d ∈ ds, d.isFn = false → (d.tps.map (·.1)).Nodup

theorem nodup_snoc {α : Type} {l : List α} {a : α} (h : l.Nodup) (ha : a ∉ l) : (l ++ [a]).Nodup := by
  rw [List.nodup_append]
  exact ⟨h, by simp, fun x hx y hy => by simp at hy; subst hy; exact fun he => ha (he ▸ hx)⟩

theorem first_ok : ∀ {ds : List Dcl} {T T' : Tab}, loop first T ds = (T', []) → FirstOk T T' ds
  | [], T, T', h => by
    simp only [loop, Prod.mk.injEq, and_true] at h
    subst h
    exact ⟨by simp, by simp, by simp, rfl, by simp, id, id, by simp⟩
  | d :: ds, T, T', h => by
    simp only [loop, Prod.mk.injEq, List.append_eq_nil_iff] at h
    obtain ⟨h0, h1, h2⟩ := h
    have ih := first_ok (Prod.ext (x := loop first (first T d).1 ds) h0 h2)
    cases d with
    | struct n tps fs =>
      have hp : (typeParams [] tps).2 = [] ∧ T.root.lookup n = none := by
        simp only [first] at h1
        split at h1
        · simp at h1
        · rename_i hs
          exact ⟨h1, Option.not_isSome_iff_eq_none.1 hs⟩
      obtain ⟨hp, hl⟩ := hp
      obtain ⟨h4, h5, _⟩ := typeParams_ok (Prod.ext (x := typeParams [] tps) rfl hp)
      simp only [first, hl, Option.isSome_none, Bool.false_eq_true, if_false, h4] at ih
      refine ⟨?_, ?_, ?_, ih.fns, ?_, ?_, ?_, ?_⟩
      · simpa [List.filterMap_cons, Dcl.typeEntry] using ih.root
      · simpa [List.filterMap_cons, Dcl.structEntry] using ih.structs
      · simpa [List.filterMap_cons, Dcl.enumEntry] using ih.enums
      · simpa [List.filterMap_cons, Dcl.key] using ih.keys
      · intro hn
        refine ih.distinct ?_
        rw [List.map_append]
        exact nodup_snoc hn (lookup_none.1 hl)
      · exact ih.keysDistinct
      · intro d hd hf
        rcases List.mem_cons.1 hd with rfl | hd
        · exact h5
        · exact ih.tps d hd hf
    | enum n tps cs =>
      have hp : (typeParams [] tps).2 = [] ∧ T.root.lookup n = none := by
        simp only [first] at h1
        split at h1
        · simp at h1
        · rename_i hs
          exact ⟨h1, Option.not_isSome_iff_eq_none.1 hs⟩
      obtain ⟨hp, hl⟩ := hp
      obtain ⟨h4, h5, _⟩ := typeParams_ok (Prod.ext (x := typeParams [] tps) rfl hp)
      simp only [first, hl, Option.isSome_none, Bool.false_eq_true, if_false, h4] at ih
      refine ⟨?_, ?_, ?_, ih.fns, ?_, ?_, ?_, ?_⟩
      · simpa [List.filterMap_cons, Dcl.typeEntry] using ih.root
      · simpa [List.filterMap_cons, Dcl.structEntry] using ih.structs
      · simpa [List.filterMap_cons, Dcl.enumEntry] using ih.enums
      · simpa [List.filterMap_cons, Dcl.key] using ih.keys
      · intro hn
        refine ih.distinct ?_
        rw [List.map_append]
        exact nodup_snoc hn (lookup_none.1 hl)
      · exact ih.keysDistinct
      · intro d hd hf
        rcases List.mem_cons.1 hd with rfl | hd
        · exact h5
        · exact ih.tps d hd hf
    | fn f =>
      have hp : fnName f ∉ T.keys := by
        simp only [first] at h1
        split at h1
        · simp at h1
        · assumption
      simp only [first, if_neg hp] at ih
      refine ⟨?_, ?_, ?_, ih.fns, ?_, ih.distinct, ?_, ?_⟩
      · simpa [List.filterMap_cons, Dcl.typeEntry] using ih.root
      · simpa [List.filterMap_cons, Dcl.structEntry] using ih.structs
      · simpa [List.filterMap_cons, Dcl.enumEntry] using ih.enums
      · simpa [List.filterMap_cons, Dcl.key] using ih.keys
      · exact fun hk => ih.keysDistinct (nodup_snoc hk hp)
      · intro d hd hf
        rcases List.mem_cons.1 hd with rfl | hd
        · cases hf
        · exact ih.tps d hd hf

/-! ### The second loop -/

/-- A function to be declared. -/
structure Entry where
  name : String
  data : FnData
  outer : List (String × Nat)
  head : Head
  noRet : Bool

def consEntry (n : String) (tps : List (String × Nat)) (c : String × List (String × TyN)) : Entry :=
  ⟨c.1, { kind := .enumCons }, tps, ⟨[], c.2, some (.named n false [])⟩, false⟩

def Dcl.entries : Dcl → List Entry
  | .struct _ _ _ => []
  | .enum n tps cs => cs.map (consEntry n tps)
  | .fn f => [⟨f.name, f.data, [], f.head, noReturn f.body⟩]

def joinSyms : Option (List RSym) → List RSym → Option (List RSym)
  | o, [] => o
  | o, a :: l => some (o.getD [] ++ a :: l)

/-- The functions of the name. -/
def idsOf (x : String) (id : Nat) : List Entry → List RSym
  | [] => []
  | e :: es => if e.name = x then .fn id :: idsOf x (id + 1) es else idsOf x (id + 1) es

theorem idsOf_append (x : String) : ∀ (es fs : List Entry) (id : Nat), idsOf x id (es ++ fs) = idsOf x id es ++ idsOf x (id + es.length) fs
  | [], fs, id => by simp [idsOf]
  | e :: es, fs, id => by
    simp only [List.cons_append, idsOf, idsOf_append x es fs (id + 1), List.length_cons]
    rw [show id + 1 + es.length = id + (es.length + 1) by omega]
    split <;> simp

theorem joinSyms_append (o : Option (List RSym)) (a b : List RSym) : joinSyms (joinSyms o a) b = joinSyms o (a ++ b) := by
  cases a <;> cases b <;> simp [joinSyms]

def SameTypes (T T' : Tab) : Prop := ∀ tys x, T'.type? tys x = T.type? tys x

mutual
theorem create_congr {T T' : Tab} (h : SameTypes T T') (tys : List (String × Nat)) : ∀ t : TyN, T'.create tys t = T.create tys t
  | .named x g as => by simp only [Tab.create, h tys x, creates_congr h tys as]
  | .array e => by simp only [Tab.create, create_congr h tys e]
  | .func ps => by simp only [Tab.create, creates_congr h tys ps]
  | .funcR ps r => by simp only [Tab.create, creates_congr h tys ps, create_congr h tys r]
theorem creates_congr {T T' : Tab} (h : SameTypes T T') (tys : List (String × Nat)) : ∀ ts : List TyN, T'.creates tys ts = T.creates tys ts
  | [] => rfl
  | t :: ts => by simp only [Tab.creates, create_congr h tys t, creates_congr h tys ts]
end

theorem params_congr {T T' : Tab} (h : SameTypes T T') (tys : List (String × Nat)) : ∀ (ps : List (String × TyN)) (names : List String),
    T'.params tys names ps = T.params tys names ps
  | [], _ => rfl
  | (x, t) :: ps, names => by simp only [Tab.params, create_congr h tys t, params_congr h tys ps]

theorem signature_congr {T T' : Tab} (h : SameTypes T T') (data : FnData) (outer : List (String × Nat)) (hd : Head) (nr : Bool) :
    T'.signature data outer hd nr = T.signature data outer hd nr := by
  have hr : ∀ tys o, T'.ret tys o = T.ret tys o := by
    intro tys o
    cases o with
    | none => rfl
    | some t => simp only [Tab.ret, create_congr h]
  simp only [Tab.signature, params_congr h, hr]

/-- The functions `es` have been declared. -/
structure Step (T T' : Tab) (es : List Entry) : Prop where
  types : SameTypes T T'
  root : ∀ x, T'.root.lookup x = joinSyms (T.root.lookup x) (idsOf x T.fns.length es)
  fns : ∃ rs, T'.fns = T.fns ++ rs ∧ All₂ (fun e r => T.signature e.data e.outer e.head e.noRet = .ok r) es rs
  fresh : ∀ pre e post, es = pre ++ e :: post → e.data.kind = .enumCons → T.root.lookup e.name = none ∧ ∀ e' ∈ pre, e'.name ≠ e.name

theorem all₂_append {α β : Type} {R : α → β → Prop} {a a' : List α} {b b' : List β} (h : All₂ R a b) (h' : All₂ R a' b') : All₂ R (a ++ a') (b ++ b') := by
  induction h with
  | nil => exact h'
  | cons h _ ih => exact .cons h ih

theorem all₂_imp {α β : Type} {R Q : α → β → Prop} (hi : ∀ a b, R a b → Q a b) {a : List α} {b : List β} (h : All₂ R a b) : All₂ Q a b := by
  induction h with
  | nil => exact .nil
  | cons h _ ih => exact .cons (hi _ _ h) ih

theorem Step.refl (T : Tab) : Step T T [] :=
  ⟨fun _ _ => rfl, fun _ => rfl, ⟨[], by simp, .nil⟩, fun pre e post h => by simp at h⟩

theorem joinSyms_none {o : Option (List RSym)} {l : List RSym} (h : joinSyms o l = none) : o = none ∧ l = [] := by
  cases l <;> simp_all [joinSyms]

theorem idsOf_nil {x : String} : ∀ {es : List Entry} {id : Nat}, idsOf x id es = [] → ∀ e ∈ es, e.name ≠ x
  | [], _, _, e, he => by cases he
  | e :: es, id, h, e', he => by
    simp only [idsOf] at h
    split at h
    · simp at h
    · rename_i hn
      rcases List.mem_cons.1 he with rfl | he
      · exact hn
      · exact idsOf_nil h e' he

theorem Step.trans {T T' T'' : Tab} {es fs : List Entry} (h : Step T T' es) (h' : Step T' T'' fs) : Step T T'' (es ++ fs) := by
  obtain ⟨rs, h1, h2⟩ := h.fns
  obtain ⟨qs, h3, h4⟩ := h'.fns
  refine ⟨fun tys x => (h'.types tys x).trans (h.types tys x), fun x => ?_, ⟨rs ++ qs, by rw [h3, h1, List.append_assoc], ?_⟩, ?_⟩
  · rw [h'.root, h.root, joinSyms_append, idsOf_append, h1, List.length_append, h2.length]
  · exact all₂_append h2 (all₂_imp (fun e r he => by rw [← signature_congr h.types]; exact he) h4)
  · intro pre e post he hk
    rcases List.append_eq_append_iff.1 he with ⟨l, h5, h6⟩ | ⟨l, h5, h6⟩
    · obtain ⟨h7, h8⟩ := h'.fresh l e post h6 hk
      rw [h.root] at h7
      obtain ⟨h9, h10⟩ := joinSyms_none h7
      refine ⟨h9, fun e' he' => ?_⟩
      rw [h5] at he'
      rcases List.mem_append.1 he' with he' | he'
      · exact idsOf_nil h10 e' he'
      · exact h8 e' he'
    · cases l with
      | nil =>
        simp only [List.nil_append] at h6
        obtain ⟨h7, h8⟩ := h'.fresh [] e post h6.symm hk
        rw [h.root] at h7
        obtain ⟨h9, h10⟩ := joinSyms_none h7
        refine ⟨h9, fun e' he' => idsOf_nil h10 e' (by rw [h5]; simpa using he')⟩
      | cons a l =>
        simp only [List.cons_append, List.cons.injEq] at h6
        obtain ⟨rfl, _⟩ := h6
        exact h.fresh pre e l h5 hk

theorem Step.of_structs {T T' T'' : Tab} {es : List Entry} (h : Step T T' es) (hr : T''.root = T'.root) (hf : T''.fns = T'.fns) : Step T T'' es :=
  ⟨fun tys x => by rw [← h.types]; simp only [Tab.type?, hr], fun x => by rw [hr]; exact h.root x, by rw [hf]; exact h.fns, h.fresh⟩

theorem define_ok {T : Tab} {x : String} {ov : Bool} {root : List (String × List RSym)} (h : T.define x ov = some root) :
    (∀ y, root.lookup y = joinSyms (T.root.lookup y) (if x = y then [.fn T.fns.length] else [])) ∧ (ov = false → T.root.lookup x = none) := by
  unfold Tab.define at h
  split at h
  · rename_i hl
    cases h
    refine ⟨fun y => ?_, fun _ => hl⟩
    rw [lookup_append']
    by_cases hy : x = y
    · subst hy; simp [hl, joinSyms]
    · simp [hy, joinSyms, lookup_cons', Ne.symm hy]
  · rename_i s hl
    split at h
    · rename_i ho
      cases h
      refine ⟨fun y => ?_, fun hf => by simp [hf] at ho⟩
      rw [lookup_update T.root x (fun l => l ++ [RSym.fn T.fns.length]) y]
      by_cases hy : x = y
      · subst hy; simp [hl, joinSyms]
      · simp [hy, Ne.symm hy, joinSyms]
    · cases h

theorem process_ok {T T' : Tab} {x : String} {data : FnData} {outer : List (String × Nat)} {h : Head} {nr ov : Bool}
    (hp : T.process x data outer h nr ov = (T', none)) (ho : data.kind = .enumCons → ov = false) :
    Step T T' [⟨x, data, outer, h, nr⟩] ∧ T'.structs = T.structs ∧ T'.enums = T.enums ∧ T'.fns.length = T.fns.length + 1 := by
  unfold Tab.process at hp
  split at hp
  · cases hp
  · rename_i root hd
    obtain ⟨h1, h2⟩ := define_ok hd
    simp only at hp
    split at hp
    · cases hp
    · rename_i r hr
      simp only [Prod.mk.injEq, and_true] at hp
      subst hp
      have hst : SameTypes T { T with root := root } := by
        intro tys y
        simp only [Tab.type?]
        split
        · rfl
        · rw [h1 y]
          by_cases hy : x = y
          · rw [if_pos hy]
            cases hl : T.root.lookup y with
            | none => simp [joinSyms]
            | some s =>
              cases s with
              | nil => simp [joinSyms]
              | cons a s => cases a <;> simp [joinSyms]
          · simp [hy, joinSyms]
      refine ⟨⟨hst, fun y => ?_, ⟨[r], rfl, .cons ?_ .nil⟩, ?_⟩, rfl, rfl, by simp⟩
      · simp only [idsOf]
        rw [h1 y]
      · rw [← signature_congr hst]; exact hr
      · intro pre e post he hk
        cases pre with
        | nil =>
          simp only [List.nil_append, List.cons.injEq] at he
          obtain ⟨rfl, _⟩ := he
          exact ⟨h2 (ho hk), by simp⟩
        | cons a pre => simp at he

theorem conses_ok {n : String} {tps : List (String × Nat)} : ∀ {cs : List (String × List (String × TyN))} {T T' : Tab}, conses n tps T cs = (T', []) →
    Step T T' (cs.map (consEntry n tps)) ∧ T'.structs = T.structs ∧ (∀ c ∈ cs, c.2.length ≤ 5) ∧
    ∀ m, T'.enums.lookup m = if m = n then (T.enums.lookup m).map fun E => { E with members := E.members ++ List.range' T.fns.length cs.length } else T.enums.lookup m
  | [], T, T', h => by
    simp only [conses, Prod.mk.injEq, and_true] at h
    subst h
    refine ⟨Step.refl T, rfl, by simp, fun m => ?_⟩
    simp
  | (c, ps) :: cs, T, T', h => by
    simp only [conses] at h
    split at h
    · simp at h
    · rename_i T1 hp
      obtain ⟨h1, h2, h3, h4⟩ := process_ok hp (fun _ => rfl)
      split at h
      · simp at h
      · rename_i hl
        obtain ⟨h5, h6, h7, h8⟩ := conses_ok h
        refine ⟨?_, h6.trans h2, ?_, fun m => ?_⟩
        · exact (h1.of_structs (T'' := { T1 with enums := T1.enums.map fun e => if e.1 = n then (n, { e.2 with members := e.2.members ++ [T.fns.length] }) else e }) rfl rfl).trans h5
        · intro c' hc
          rcases List.mem_cons.1 hc with rfl | hc
          · simpa using hl
          · exact h7 c' hc
        · rw [h8 m]
          simp only
          rw [lookup_update T1.enums n (fun E => { E with members := E.members ++ [T.fns.length] }) m, h3, h4]
          by_cases hm : m = n
          · simp only [hm, if_true, Option.map_map]
            congr 1
            funext E
            simp [List.range'_succ]
          · simp [hm]

theorem fields_ok {n : String} {tps : List (String × Nat)} : ∀ {fs : List (String × TyN)} {T T' : Tab} {names : List String}, fields n tps T names fs = (T', []) →
    T'.root = T.root ∧ T'.fns = T.fns ∧ T'.enums = T.enums ∧ T'.keys = T.keys ∧ (fs.map (·.1)).Nodup ∧ (∀ p ∈ fs, p.1 ∉ names ∧ (T.create tps p.2).isSome) ∧
    ∀ m, T'.structs.lookup m = if m = n then (T.structs.lookup m).map fun S => { S with fields := S.fields ++ fs.map fun p => (p.1, T.create tps p.2) } else T.structs.lookup m
  | [], T, T', names, h => by
    simp only [fields, Prod.mk.injEq, and_true] at h
    subst h
    refine ⟨rfl, rfl, rfl, rfl, by simp, by simp, fun m => ?_⟩
    simp
  | (x, t) :: fs, T, T', names, h => by
    simp only [fields] at h
    split at h
    · simp at h
    · rename_i u hu
      split at h
      · simp at h
      · rename_i hx
        obtain ⟨h1, h2, h3, h4, h5, h6, h7⟩ := fields_ok h
        have hc : ∀ t, Tab.create { T with structs := T.structs.map fun e => if e.1 = n then (n, { e.2 with fields := e.2.fields ++ [(x, some u)] }) else e } tps t = T.create tps t := by
          refine create_congr ?_ tps
          intro tys y
          rfl
        refine ⟨h1, h2, h3, h4, ?_, ?_, fun m => ?_⟩
        · simp only [List.map_cons, List.nodup_cons]
          refine ⟨fun hm => ?_, h5⟩
          obtain ⟨p, hp, rfl⟩ := List.mem_map.1 hm
          exact (h6 p hp).1 (by simp)
        · intro p hp
          rcases List.mem_cons.1 hp with rfl | hp
          · exact ⟨hx, by simp [hu]⟩
          · obtain ⟨h8, h9⟩ := h6 p hp
            rw [hc] at h9
            simp only [List.mem_cons, not_or] at h8
            exact ⟨h8.2, h9⟩
        · rw [h7 m]
          simp only
          rw [lookup_update T.structs n (fun S => { S with fields := S.fields ++ [(x, some u)] }) m]
          by_cases hm : m = n
          · simp only [hm, if_true, Option.map_map, hc]
            congr 1
            funext S
            simp [hu]
          · simp [hm]

theorem struct_entry {ds : List Dcl} {n : String} {tps : List (String × Nat)} {fs : List (String × TyN)} (h : Dcl.struct n tps fs ∈ ds) :
    n ∈ (ds.filterMap Dcl.typeEntry).map (·.1) := by
  refine List.mem_map.2 ⟨(n, [.type (.decl n)]), List.mem_filterMap.2 ⟨_, h, rfl⟩, rfl⟩

theorem enum_entry {ds : List Dcl} {n : String} {tps : List (String × Nat)} {cs : List (String × List (String × TyN))} (h : Dcl.enum n tps cs ∈ ds) :
    n ∈ (ds.filterMap Dcl.typeEntry).map (·.1) := by
  refine List.mem_map.2 ⟨(n, [.type (.enum n (tps.map fun p => .param p.2))]), List.mem_filterMap.2 ⟨_, h, rfl⟩, rfl⟩

/-- The type parameters of the declared structs and enums are in the table. -/
structure Known (T : Tab) (ds : List Dcl) : Prop where
  structs : ∀ n tps fs, Dcl.struct n tps fs ∈ ds → ∃ us, T.structs.lookup n = some ⟨tps, us⟩
  enums : ∀ n tps cs, Dcl.enum n tps cs ∈ ds → ∃ ms, T.enums.lookup n = some ⟨tps, ms⟩

structure SecondOk (T T' : Tab) (ds : List Dcl) : Prop where
  step : Step T T' (ds.flatMap Dcl.entries)
  others : ∀ m, (∀ tps fs, Dcl.struct m tps fs ∉ ds) → T'.structs.lookup m = T.structs.lookup m
  otherEnums : ∀ m, (∀ tps cs, Dcl.enum m tps cs ∉ ds) → T'.enums.lookup m = T.enums.lookup m
  structs : ∀ n tps fs us, Dcl.struct n tps fs ∈ ds → T.structs.lookup n = some ⟨tps, us⟩ →
    T'.structs.lookup n = some ⟨tps, us ++ fs.map fun p => (p.1, T.create tps p.2)⟩ ∧ (fs.map (·.1)).Nodup ∧
      ∀ p ∈ fs, p.1 ∉ tps.map (·.1) ∧ (T.create tps p.2).isSome
  enums : ∀ pre n tps cs post ms, ds = pre ++ .enum n tps cs :: post → T.enums.lookup n = some ⟨tps, ms⟩ →
    T'.enums.lookup n = some ⟨tps, ms ++ List.range' (T.fns.length + (pre.flatMap Dcl.entries).length) cs.length⟩ ∧ ∀ c ∈ cs, c.2.length ≤ 5

theorem second_ok : ∀ {ds : List Dcl} {T T' : Tab}, Known T ds → ((ds.filterMap Dcl.typeEntry).map (·.1)).Nodup → loop second T ds = (T', []) → SecondOk T T' ds
  | [], T, T', _, _, h => by
    simp only [loop, Prod.mk.injEq, and_true] at h
    subst h
    exact ⟨Step.refl T, fun _ _ => rfl, fun _ _ => rfl, by simp, fun pre n tps cs post ms h => by simp at h⟩
  | d :: ds, T, T', hk, hn, h => by
    simp only [loop, Prod.mk.injEq, List.append_eq_nil_iff] at h
    obtain ⟨h0, h1, h2⟩ := h
    cases d with
    | struct n tps fs =>
      obtain ⟨us, hS⟩ := hk.structs n tps fs (by simp)
      simp only [second, hS, Option.map_some, Option.getD_some] at h0 h1 h2
      rcases hf : fields n tps T (tps.map (·.1)) fs with ⟨T1, es⟩
      rw [hf] at h0 h1 h2
      simp only at h0 h1 h2
      subst h1
      obtain ⟨f1, f2, f3, f4, f5, f6, f7⟩ := fields_ok hf
      simp only [List.filterMap_cons, Dcl.typeEntry, List.map_cons, List.nodup_cons] at hn
      have hk' : Known T1 ds := by
        refine ⟨fun m tps' fs' hm => ?_, fun m tps' cs hm => ?_⟩
        · obtain ⟨us', hu⟩ := hk.structs m tps' fs' (List.mem_cons_of_mem _ hm)
          rw [f7 m]
          by_cases hmn : m = n
          · subst hmn
            exact absurd (struct_entry hm) hn.1
          · simp [hmn, hu]
        · rw [f3]
          exact hk.enums m tps' cs (List.mem_cons_of_mem _ hm)
      have ih := second_ok hk' hn.2 (Prod.ext (x := loop second T1 ds) h0 h2)
      have hst : SameTypes T T1 := fun tys x => by simp only [Tab.type?, f1]
      refine ⟨?_, ?_, ?_, ?_, ?_⟩
      · have := ((Step.refl T).of_structs (T'' := T1) f1 f2).trans ih.step
        simpa [Dcl.entries] using this
      · intro m hm
        rw [ih.others m (fun tps' fs' hc => hm tps' fs' (List.mem_cons_of_mem _ hc)), f7 m, if_neg]
        intro hmn
        exact hm tps fs (by simp [hmn])
      · intro m hm
        rw [ih.otherEnums m (fun tps' fs' hc => hm tps' fs' (List.mem_cons_of_mem _ hc)), f3]
      · intro m tps' fs' us' hm hu
        rcases List.mem_cons.1 hm with hm | hm
        · cases hm
          rw [hS] at hu
          cases hu
          refine ⟨?_, f5, f6⟩
          rw [ih.others n (fun tps' fs' hc => absurd (struct_entry hc) hn.1), f7 n, if_pos rfl, hS]
          rfl
        · have hmn : m ≠ n := fun he => hn.1 (he ▸ struct_entry hm)
          have := ih.structs m tps' fs' us' hm (by rw [f7 m, if_neg hmn]; exact hu)
          simpa only [create_congr hst] using this
      · intro pre m tps' cs post ms he hE
        cases pre with
        | nil => simp at he
        | cons a pre =>
          simp only [List.cons_append, List.cons.injEq] at he
          obtain ⟨rfl, he⟩ := he
          have := ih.enums pre m tps' cs post ms he (by rw [f3]; exact hE)
          simpa [Dcl.entries, f2] using this
    | enum n tps cs =>
      obtain ⟨us, hS⟩ := hk.enums n tps cs (by simp)
      simp only [second, hS, Option.map_some, Option.getD_some] at h0 h1 h2
      rcases hf : conses n tps T cs with ⟨T1, es⟩
      rw [hf] at h0 h1 h2
      simp only at h0 h1 h2
      subst h1
      obtain ⟨f1, f2, f3, f4⟩ := conses_ok hf
      have hlen : T1.fns.length = T.fns.length + cs.length := by
        obtain ⟨rs, h5, h6⟩ := f1.fns
        have := h6.length
        simp only [List.length_map] at this
        rw [h5, List.length_append, ← this]
      simp only [List.filterMap_cons, Dcl.typeEntry, List.map_cons, List.nodup_cons] at hn
      have hk' : Known T1 ds := by
        refine ⟨fun m tps' fs' hm => ?_, fun m tps' cs' hm => ?_⟩
        · rw [f2]
          exact hk.structs m tps' fs' (List.mem_cons_of_mem _ hm)
        · obtain ⟨us', hu⟩ := hk.enums m tps' cs' (List.mem_cons_of_mem _ hm)
          rw [f4 m]
          by_cases hmn : m = n
          · subst hmn
            exact absurd (enum_entry hm) hn.1
          · simp [hmn, hu]
      have ih := second_ok hk' hn.2 (Prod.ext (x := loop second T1 ds) h0 h2)
      refine ⟨?_, ?_, ?_, ?_, ?_⟩
      · have := f1.trans ih.step
        simpa [Dcl.entries] using this
      · intro m hm
        rw [ih.others m (fun tps' fs' hc => hm tps' fs' (List.mem_cons_of_mem _ hc)), f2]
      · intro m hm
        rw [ih.otherEnums m (fun tps' fs' hc => hm tps' fs' (List.mem_cons_of_mem _ hc)), f4 m, if_neg]
        intro hmn
        exact hm tps cs (by simp [hmn])
      · intro m tps' fs' us' hm hu
        rcases List.mem_cons.1 hm with hm | hm
        · cases hm
        · have := ih.structs m tps' fs' us' hm (by rw [f2]; exact hu)
          simpa only [create_congr f1.types] using this
      · intro pre m tps' cs' post ms he hE
        cases pre with
        | nil =>
          simp only [List.nil_append, List.cons.injEq, Dcl.enum.injEq] at he
          obtain ⟨⟨rfl, rfl, rfl⟩, rfl⟩ := he
          refine ⟨?_, f3⟩
          rw [ih.otherEnums n (fun tps' fs' hc => absurd (enum_entry hc) hn.1), f4 n, if_pos rfl, hE]
          simp
        | cons a pre =>
          simp only [List.cons_append, List.cons.injEq] at he
          obtain ⟨rfl, he⟩ := he
          have hm : Dcl.enum m tps' cs' ∈ ds := by rw [he]; simp
          have hmn : m ≠ n := fun hc => hn.1 (hc ▸ enum_entry hm)
          have := ih.enums pre m tps' cs' post ms he (by rw [f4 m, if_neg hmn]; exact hE)
          rw [hlen] at this
          simpa [Dcl.entries, Nat.add_assoc] using this
    | fn f =>
      simp only [second] at h0 h1 h2
      rcases hf : T.process f.name f.data [] f.head (noReturn f.body) true with ⟨T1, o⟩
      rw [hf] at h0 h1 h2
      cases o with
      | some e => simp at h1
      | none =>
        simp only at h0 h1 h2
        have hkind : f.data.kind = .enumCons → true = false := by
          unfold FnDcl.data
          simp only
          split <;> simp
        obtain ⟨f1, f2, f3, f4⟩ := process_ok hf hkind
        simp only [List.filterMap_cons, Dcl.typeEntry] at hn
        have hk' : Known T1 ds := by
          refine ⟨fun m tps' fs' hm => ?_, fun m tps' cs' hm => ?_⟩
          · rw [f2]
            exact hk.structs m tps' fs' (List.mem_cons_of_mem _ hm)
          · rw [f3]
            exact hk.enums m tps' cs' (List.mem_cons_of_mem _ hm)
        have ih := second_ok hk' hn (Prod.ext (x := loop second T1 ds) h0 h2)
        refine ⟨?_, ?_, ?_, ?_, ?_⟩
        · have := f1.trans ih.step
          simpa [Dcl.entries] using this
        · intro m hm
          rw [ih.others m (fun tps' fs' hc => hm tps' fs' (List.mem_cons_of_mem _ hc)), f2]
        · intro m hm
          rw [ih.otherEnums m (fun tps' fs' hc => hm tps' fs' (List.mem_cons_of_mem _ hc)), f3]
        · intro m tps' fs' us' hm hu
          rcases List.mem_cons.1 hm with hm | hm
          · cases hm
          · have := ih.structs m tps' fs' us' hm (by rw [f2]; exact hu)
            simpa only [create_congr f1.types] using this
        · intro pre m tps' cs' post ms he hE
          cases pre with
          | nil => simp at he
          | cons a pre =>
            simp only [List.cons_append, List.cons.injEq] at he
            obtain ⟨rfl, he⟩ := he
            have := ih.enums pre m tps' cs' post ms he (by rw [f3]; exact hE)
            rw [f4] at this
            simp only [List.flatMap_cons, Dcl.entries, List.length_append, List.length_cons, List.length_nil, Nat.zero_add, ← Nat.add_assoc]
            exact this

end Clara.Sema.Dcl
