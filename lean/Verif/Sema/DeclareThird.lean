import Verif.Sema.DeclareLoops
set_option linter.unusedVariables false
/-
The third loop over the declarations.
-/
namespace Clara.Sema.Dcl
open Clara Clara.Types
open Clara.Sema.Chk (TyN Err Head FnBody assign Env FindsType MeansAll)

/-- The table has the same names, types and type parameters. -/
structure Later (T T' : Tab) : Prop where
  root : T'.root = T.root
  enums : T'.enums = T.enums
  tps : ∀ n, (T'.structs.lookup n).map SRec.tps = (T.structs.lookup n).map SRec.tps
  length : T'.fns.length = T.fns.length

theorem Later.refl (T : Tab) : Later T T := ⟨rfl, rfl, fun _ => rfl, rfl⟩
theorem Later.trans {A B C : Tab} (h : Later A B) (h' : Later B C) : Later A C :=
  ⟨h'.root.trans h.root, h'.enums.trans h.enums, fun n => (h'.tps n).trans (h.tps n), h'.length.trans h.length⟩

theorem Later.arity {T T' : Tab} (h : Later T T') : T'.arity = T.arity := by
  funext n
  have := h.tps n
  unfold Tab.arity
  cases h1 : T'.structs.lookup n with
  | none =>
    cases h2 : T.structs.lookup n with
    | none => rfl
    | some S => simp [h1, h2] at this
  | some S =>
    cases h2 : T.structs.lookup n with
    | none => simp [h1, h2] at this
    | some S' =>
      simp only [h1, h2, Option.map_some, Option.some.injEq] at this
      simp [this]

theorem Later.types {T T' : Tab} (h : Later T T') : SameTypes T T' := fun tys x => by simp only [Tab.type?, h.root]

theorem Later.wf {T T' : Tab} (h : Later T T') (hT : Wf T) : Wf T' := by
  intro x t r hx
  rw [h.root] at hx
  rcases hT x t r hx with h1 | ⟨h1, S, h2, h3⟩ | h1
  · exact .inl h1
  · refine .inr (.inl ⟨h1, ?_⟩)
    have := h.tps x
    rw [h2] at this
    obtain ⟨S', h4, h5⟩ := Option.map_eq_some_iff.1 this
    exact ⟨S', h4, by rw [h5]; exact h3⟩
  · rw [h.enums]
    exact .inr (.inr h1)

theorem Later.shows {T T' : Tab} (h : Later T T') {tys : List (String × Nat)} {Γ : Env} (hs : Shows T tys Γ) : Shows T' tys Γ := by
  intro x t hx
  rw [h.types] at hx
  rw [h.arity]
  exact hs x t hx

/-- The tables differ in the fields of `n` only. -/
structure Near (n : String) (T T' : Tab) : Prop extends Later T T' where
  fns : T'.fns = T.fns
  others : ∀ m, m ≠ n → T'.structs.lookup m = T.structs.lookup m

theorem Near.refl (n : String) (T : Tab) : Near n T T := ⟨Later.refl T, rfl, fun _ _ => rfl⟩
theorem Near.trans {n : String} {A B C : Tab} (h : Near n A B) (h' : Near n B C) : Near n A C :=
  ⟨h.toLater.trans h'.toLater, h'.fns.trans h.fns, fun m hm => (h'.others m hm).trans (h.others m hm)⟩

theorem setField_near (T : Tab) (n x : String) (t : Option RTy) : Near n T (T.setField n x t) := by
  refine ⟨⟨rfl, rfl, fun m => ?_, rfl⟩, rfl, fun m hm => ?_⟩
  · simp only [Tab.setField]
    rw [lookup_update T.structs n (fun S => { S with fields := S.fields.map fun p => if p.1 = x then (x, t) else p }) m]
    split
    · simp [Function.comp_def]
    · rfl
  · simp only [Tab.setField]
    rw [lookup_update T.structs n (fun S => { S with fields := S.fields.map fun p => if p.1 = x then (x, t) else p }) m, if_neg hm]

theorem setField_fields {T : Tab} {n x : String} {t c : Option RTy} {tps : List (String × Nat)} {done cs : List (String × Option RTy)}
    (hS : T.structs.lookup n = some ⟨tps, done ++ (x, c) :: cs⟩) (hn : ((done ++ (x, c) :: cs).map (·.1)).Nodup) :
    (T.setField n x t).structs.lookup n = some ⟨tps, (done ++ [(x, t)]) ++ cs⟩ := by
  simp only [Tab.setField]
  rw [lookup_update T.structs n (fun S => { S with fields := S.fields.map fun p => if p.1 = x then (x, t) else p }) n, if_pos rfl, hS]
  simp only [Option.map_some, Option.some.injEq, SRec.mk.injEq, true_and]
  simp only [List.map_append, List.map_cons, List.nodup_append, List.nodup_cons, if_true] at hn ⊢
  have key : ∀ l : List (String × Option RTy), x ∉ l.map (·.1) → l.map (fun p => if p.1 = x then (x, t) else p) = l := by
    intro l hl
    conv => rhs; rw [← List.map_id l]
    apply List.map_congr_left
    intro p hp
    rw [if_neg]
    · rfl
    · intro he
      exact hl (he ▸ List.mem_map_of_mem (f := (·.1)) hp)
  have hx : x ∉ done.map (·.1) := fun hm => hn.2.2 x hm x List.mem_cons_self rfl
  rw [key done hx, key cs hn.2.1.1]
  simp

/-- There is an environment in which the names mean what they mean in the table. -/
def plainEnv (T : Tab) (tys : List (String × Nat)) : Env :=
  [tys.map fun p => (p.1, [Chk.tparamSym p.2]), T.scope]

theorem lookup_map {α β : Type} (f : α → β) (l : List (String × α)) (x : String) :
    (l.map fun e => (e.1, f e.2)).lookup x = (l.lookup x).map f := by
  induction l with
  | nil => rfl
  | cons e l ih =>
    obtain ⟨y, a⟩ := e
    simp only [List.map_cons, lookup_cons', ih]
    split <;> simp

theorem scope_lookup (T : Tab) (x : String) : T.scope.lookup x = (T.root.lookup x).map (List.map T.alt) := by
  unfold Tab.scope
  exact lookup_map (List.map T.alt) T.root x

theorem shows_plain (T : Tab) (tys : List (String × Nat)) : Shows T tys (plainEnv T tys) := by
  intro x t hx
  unfold Tab.type? at hx
  unfold plainEnv
  split at hx
  · rename_i k hk
    cases hx
    refine ⟨Chk.tparamSym k, .here (r := []) ?_ rfl, rfl⟩
    rw [lookup_map (fun k => [Chk.tparamSym k]) tys x, hk]
    rfl
  · rename_i hk
    split at hx
    · rename_i u r hu
      cases hx
      refine ⟨T.alt (.type t), .outer (fun a r h => ?_) (.here (r := r.map T.alt) ?_ rfl), rfl⟩
      · rw [lookup_map (fun k => [Chk.tparamSym k]) tys x, hk] at h
        simp at h
      · rw [scope_lookup, hu]
        rfl
    · cases hx

theorem made_all {T : Tab} (hT : Wf T) {k : Nat} {tys : List (String × Nat)} {t : TyN} {es : List Err} {o : Option RTy} (h : T.inst k tys es t = .ok (o, [])) :
    es = [] ∧ ∃ u, o = some u ∧ ∀ Γ, Shows T tys Γ → Made T Γ t u := by
  obtain ⟨h1, u, h2, _⟩ := inst_made hT (shows_plain T tys) t es o h
  refine ⟨h1, u, h2, fun Γ hΓ => ?_⟩
  obtain ⟨_, v, h3, h4⟩ := inst_made hT hΓ t es o h
  rw [h2] at h3
  cases h3
  exact h4

theorem mades_all {T : Tab} (hT : Wf T) {k : Nat} {tys : List (String × Nat)} {ts : List TyN} {es : List Err} {os : List (Option RTy)} (h : T.insts k tys es ts = .ok (os, [])) :
    es = [] ∧ ∃ us, os = us.map some ∧ ∀ Γ, Shows T tys Γ → MadeAll T Γ ts us := by
  obtain ⟨h1, us, h2, _⟩ := insts_made hT (shows_plain T tys) ts es os h
  refine ⟨h1, us, h2, fun Γ hΓ => ?_⟩
  obtain ⟨_, vs, h3, h4⟩ := insts_made hT hΓ ts es os h
  rw [h2] at h3
  have : us = vs := by
    have := congrArg (List.filterMap id) h3
    simpa [List.filterMap_map] using this
  subst this
  exact h4

theorem instFields_ok {k : Nat} {n : String} {tys tps : List (String × Nat)} : ∀ {fs : List (String × TyN)} {T T' : Tab} {es : List Err}
    {done cs : List (String × Option RTy)}, Wf T → Tab.instFields k n tys T es fs = .ok (T', []) →
    T.structs.lookup n = some ⟨tps, done ++ cs⟩ → cs.map (·.1) = fs.map (·.1) → ((done ++ cs).map (·.1)).Nodup →
    es = [] ∧ Near n T T' ∧ ∃ us : List RTy, T'.structs.lookup n = some ⟨tps, done ++ (fs.map (·.1)).zip (us.map some)⟩ ∧
      All₂ (fun p u => ∃ M, Near n T M ∧ M.inst k tys [] p.2 = .ok (some u, []) ∧ ∀ Γ, Shows T tys Γ → Made M Γ p.2 u) fs us
  | [], T, T', es, done, cs, hT, h, hS, hc, hn => by
    simp only [Tab.instFields, Except.ok.injEq, Prod.mk.injEq] at h
    obtain ⟨rfl, rfl⟩ := h
    simp only [List.map_nil, List.map_eq_nil_iff] at hc
    subst hc
    exact ⟨rfl, Near.refl n T, [], by simpa using hS, .nil⟩
  | (x, t) :: fs, T, T', es, done, cs, hT, h, hS, hc, hn => by
    simp only [Tab.instFields] at h
    split at h
    · cases h
    · rename_i o es' hi
      cases cs with
      | nil => simp at hc
      | cons c cs =>
        obtain ⟨y, c⟩ := c
        simp only [List.map_cons, List.cons.injEq] at hc
        obtain ⟨rfl, hc⟩ := hc
        have hnear := setField_near T n y o
        have hf := setField_fields (t := o) hS hn
        obtain ⟨rfl, h2, us, h3, h4⟩ := instFields_ok (hnear.wf hT) h hf hc (by simpa using hn)
        obtain ⟨rfl, u, rfl, hm⟩ := made_all hT hi
        refine ⟨rfl, hnear.trans h2, u :: us, by simpa using h3, .cons ⟨T, Near.refl n T, hi, hm⟩ ?_⟩
        exact all₂_imp (fun p u ⟨M, h5, h6, h7⟩ => ⟨M, hnear.trans h5, h6, fun Γ hΓ => h7 Γ (hnear.shows hΓ)⟩) h4

/-- What a function is after its types have been made. -/
structure FnDone (T : Tab) (k : Nat) (i : Item) (f f' : FRec) : Prop where
  tps : f'.tps = f.tps
  tys : f'.tys = f.tys
  data : f'.data = f.data
  params : ∃ us, f'.params = setTypes f.params (us.map some) ∧ ∀ Γ, Shows T f.tys Γ → MadeAll T Γ i.params us
  ret : match i.ret with
    | none => f'.ret = f.ret
    | some t => ∃ u, f'.ret = some u ∧ ∀ Γ, Shows T f.tys Γ → Made T Γ t u

theorem instFn_ok {k : Nat} {T T' : Tab} {i : Item} (hT : Wf T) (h : T.instFn k i = .ok (T', [])) :
    T'.structs = T.structs ∧ Later T T' ∧ (∀ id, id ≠ i.id → T'.fns[id]? = T.fns[id]?) ∧
      ∃ f f', T.fns[i.id]? = some f ∧ T'.fns[i.id]? = some f' ∧ FnDone T k i f f' := by
  unfold Tab.instFn at h
  split at h
  · cases h
  · rename_i f hf
    have hlt : i.id < T.fns.length := (List.getElem?_eq_some_iff.1 hf).1
    split at h
    · cases h
    · rename_i ts es hi
      split at h
      · rename_i hr
        simp only [Except.ok.injEq, Prod.mk.injEq] at h
        obtain ⟨rfl, rfl⟩ := h
        obtain ⟨_, us, rfl, hm⟩ := mades_all hT hi
        refine ⟨rfl, ⟨rfl, rfl, fun _ => rfl, by simp⟩, fun id hne => by simp [List.getElem?_set_ne hne.symm], f, _, hf, List.getElem?_set_self hlt, ?_⟩
        exact ⟨rfl, rfl, rfl, ⟨us, rfl, hm⟩, by rw [hr]⟩
      · rename_i r hr
        split at h
        · cases h
        · rename_i o es' hri
          simp only [Except.ok.injEq, Prod.mk.injEq] at h
          obtain ⟨rfl, rfl⟩ := h
          obtain ⟨rfl, u, rfl, hm'⟩ := made_all hT hri
          obtain ⟨_, us, rfl, hm⟩ := mades_all hT hi
          refine ⟨rfl, ⟨rfl, rfl, fun _ => rfl, by simp⟩, fun id hne => by simp [List.getElem?_set_ne hne.symm], f, _, hf, List.getElem?_set_self hlt, ?_⟩
          exact ⟨rfl, rfl, rfl, ⟨us, rfl, hm⟩, by rw [hr]; exact ⟨u, rfl, hm'⟩⟩

/-! ### The whole loop -/

theorem third_append {k : Nat} : ∀ {a b : List Node} {T F : Tab}, third k T (a ++ b) = .ok (F, []) →
    ∃ M, third k T a = .ok (M, []) ∧ third k M b = .ok (F, [])
  | [], b, T, F, h => ⟨T, rfl, h⟩
  | n :: a, b, T, F, h => by
    simp only [List.cons_append, third] at h ⊢
    split at h
    · cases h
    · rename_i T1 es hn
      split at h
      · cases h
      · rename_i T2 es' h2
        simp only [Except.ok.injEq, Prod.mk.injEq, List.append_eq_nil_iff] at h
        obtain ⟨rfl, rfl, rfl⟩ := h
        obtain ⟨M, h3, h4⟩ := third_append h2
        exact ⟨M, by rw [h3]; rfl, h4⟩

theorem third_cons {k : Nat} {n : Node} {b : List Node} {T F : Tab} (h : third k T (n :: b) = .ok (F, [])) :
    ∃ M, T.instNode k n = .ok (M, []) ∧ third k M b = .ok (F, []) := by
  simp only [third] at h
  split at h
  · cases h
  · rename_i T1 es hn
    split at h
    · cases h
    · rename_i T2 es' h2
      simp only [Except.ok.injEq, Prod.mk.injEq, List.append_eq_nil_iff] at h
      obtain ⟨rfl, rfl, rfl⟩ := h
      exact ⟨T1, hn, h2⟩

/-- The nodes are the ones of the structs in the table. -/
def Fits (T : Tab) (ns : List Node) : Prop :=
  ∀ n fs, Node.struct n fs ∈ ns → ∃ tps cs, T.structs.lookup n = some ⟨tps, cs⟩ ∧ cs.map (·.1) = fs.map (·.1) ∧ (fs.map (·.1)).Nodup

/-- Some errors or nothing come of a node. -/
theorem instNode_struct {k : Nat} {T T' : Tab} {n : String} {fs : List (String × TyN)} {tps : List (String × Nat)} {cs : List (String × Option RTy)}
    (hT : Wf T) (hS : T.structs.lookup n = some ⟨tps, cs⟩) (hc : cs.map (·.1) = fs.map (·.1)) (hn : (fs.map (·.1)).Nodup)
    (h : T.instNode k (.struct n fs) = .ok (T', [])) :
    Near n T T' ∧ ∃ us : List RTy, T'.structs.lookup n = some ⟨tps, (fs.map (·.1)).zip (us.map some)⟩ ∧
      All₂ (fun p u => ∃ M, Near n T M ∧ M.inst k tps [] p.2 = .ok (some u, []) ∧ ∀ Γ, Shows T tps Γ → Made M Γ p.2 u) fs us := by
  simp only [Tab.instNode, hS, Option.map_some, Option.getD_some] at h
  obtain ⟨_, h1, us, h2, h3⟩ := instFields_ok (done := []) hT h hS hc (by simpa [hc] using hn)
  exact ⟨h1, us, by simpa using h2, h3⟩

def structNames : List Node → List String
  | [] => []
  | .struct n _ :: ns => n :: structNames ns
  | .fn _ :: ns => structNames ns

def itemIds : List Node → List Nat
  | [] => []
  | .struct _ _ :: ns => itemIds ns
  | .fn i :: ns => i.id :: itemIds ns

theorem structNames_append : ∀ a b, structNames (a ++ b) = structNames a ++ structNames b
  | [], b => rfl
  | .struct n _ :: a, b => by simp [structNames, structNames_append a b]
  | .fn _ :: a, b => by simp [structNames, structNames_append a b]

theorem itemIds_append : ∀ a b, itemIds (a ++ b) = itemIds a ++ itemIds b
  | [], b => rfl
  | .struct n _ :: a, b => by simp [itemIds, itemIds_append a b]
  | .fn _ :: a, b => by simp [itemIds, itemIds_append a b]

theorem mem_structNames {n : String} {fs : List (String × TyN)} : ∀ {ns : List Node}, Node.struct n fs ∈ ns → n ∈ structNames ns
  | [], h => by cases h
  | .struct m _ :: ns, h => by
    rcases List.mem_cons.1 h with h | h
    · cases h; simp [structNames]
    · simp [structNames, mem_structNames h]
  | .fn _ :: ns, h => by
    rcases List.mem_cons.1 h with h | h
    · cases h
    · simp [structNames, mem_structNames h]

/-- What the loop leaves as it is. -/
theorem third_later {k : Nat} : ∀ {ns : List Node} {T F : Tab}, Wf T → Fits T ns → (structNames ns).Nodup → third k T ns = .ok (F, []) →
    Later T F ∧ (∀ n, n ∉ structNames ns → F.structs.lookup n = T.structs.lookup n) ∧ ∀ id, id ∉ itemIds ns → F.fns[id]? = T.fns[id]?
  | [], T, F, _, _, _, h => by
    simp only [third, Except.ok.injEq, Prod.mk.injEq, and_true] at h
    subst h
    exact ⟨Later.refl T, fun _ _ => rfl, fun _ _ => rfl⟩
  | .struct n fs :: ns, T, F, hT, hf, hn, h => by
    obtain ⟨M, h1, h2⟩ := third_cons h
    obtain ⟨tps, cs, hS, hc, hd⟩ := hf n fs (by simp)
    obtain ⟨h3, us, h4, _⟩ := instNode_struct hT hS hc hd h1
    simp only [structNames, List.nodup_cons] at hn
    have hf' : Fits M ns := by
      intro m fs' hm
      have : m ≠ n := fun he => hn.1 (he ▸ mem_structNames hm)
      rw [h3.others m this]
      exact hf m fs' (List.mem_cons_of_mem _ hm)
    obtain ⟨h5, h6, h7⟩ := third_later (h3.wf hT) hf' hn.2 h2
    refine ⟨h3.toLater.trans h5, fun m hm => ?_, fun id hid => ?_⟩
    · simp only [structNames, List.mem_cons, not_or] at hm
      rw [h6 m hm.2, h3.others m hm.1]
    · rw [h7 id (by simpa [itemIds] using hid), h3.fns]
  | .fn i :: ns, T, F, hT, hf, hn, h => by
    obtain ⟨M, h1, h2⟩ := third_cons h
    obtain ⟨h3, h4, h5, _⟩ := instFn_ok hT h1
    have hf' : Fits M ns := by
      intro m fs' hm
      rw [h3]
      exact hf m fs' (List.mem_cons_of_mem _ hm)
    obtain ⟨h6, h7, h8⟩ := third_later (h4.wf hT) hf' hn h2
    refine ⟨h4.trans h6, fun m hm => ?_, fun id hid => ?_⟩
    · rw [h7 m (by simpa [structNames] using hm), h3]
    · simp only [itemIds, List.mem_cons, not_or] at hid
      rw [h8 id hid.2, h5 id hid.1]

theorem fits_sub {T : Tab} {ns ms : List Node} (h : Fits T ns) (hs : ∀ x ∈ ms, x ∈ ns) : Fits T ms := fun n fs hm => h n fs (hs _ hm)

/-- The table when the loop comes to a node. -/
theorem third_at {k : Nat} {pre post : List Node} {x : Node} {T F : Tab} (hT : Wf T) (hf : Fits T (pre ++ x :: post))
    (hn : (structNames (pre ++ x :: post)).Nodup) (h : third k T (pre ++ x :: post) = .ok (F, [])) :
    ∃ M M', third k T pre = .ok (M, []) ∧ M.instNode k x = .ok (M', []) ∧ third k M' post = .ok (F, []) ∧
      Later T M ∧ Later M M' ∧ Later M' F ∧
      (∀ n, n ∉ structNames pre → M.structs.lookup n = T.structs.lookup n) ∧
      (∀ n, n ∉ structNames post → F.structs.lookup n = M'.structs.lookup n) ∧
      (∀ id, id ∉ itemIds pre → M.fns[id]? = T.fns[id]?) ∧
      (∀ id, id ∉ itemIds post → F.fns[id]? = M'.fns[id]?) := by
  obtain ⟨M, h1, h2⟩ := third_append h
  obtain ⟨M', h3, h4⟩ := third_cons h2
  rw [structNames_append, List.nodup_append] at hn
  have hpost : (structNames post).Nodup := by
    have := hn.2.1
    cases x <;> simp [structNames] at this
    · exact this.2
    · exact this
  obtain ⟨h5, h6, h7⟩ := third_later hT (fits_sub hf (by intro y hy; simp [hy])) hn.1 h1
  have hfx : Fits M (x :: post) := by
    intro n fs hm
    have hns : n ∉ structNames pre := fun hc => hn.2.2 n hc n (mem_structNames hm) rfl
    rw [h6 n hns]
    exact hf n fs (List.mem_append_right _ hm)
  obtain ⟨hMM, h8, _⟩ := third_later (ns := [x]) (k := k) (F := M') (h5.wf hT) (fits_sub hfx (by simp)) (by cases x <;> simp [structNames])
    (by simp only [third, h3]; rfl)
  have hfp : Fits M' post := by
    intro n fs hm
    rw [h8 n]
    · exact hfx n fs (List.mem_cons_of_mem _ hm)
    · have := hn.2.1
      cases x with
      | struct y gs =>
        simp only [structNames, List.nodup_cons, List.mem_singleton] at this ⊢
        exact fun he => this.1 (he ▸ mem_structNames hm)
      | fn i => simp [structNames]
  obtain ⟨h9, h10, h11⟩ := third_later ((h5.trans hMM).wf hT) hfp hpost h4
  exact ⟨M, M', h1, h3, h4, h5, hMM, h9, h6, h10, h7, h11⟩

/-- The fields of a struct afterwards. -/
theorem third_struct {k : Nat} {pre post : List Node} {n : String} {fs : List (String × TyN)} {T F : Tab} (hT : Wf T) (hf : Fits T (pre ++ .struct n fs :: post))
    (hn : (structNames (pre ++ .struct n fs :: post)).Nodup) (h : third k T (pre ++ .struct n fs :: post) = .ok (F, []))
    {tps : List (String × Nat)} {cs : List (String × Option RTy)} (hS : T.structs.lookup n = some ⟨tps, cs⟩) :
    ∃ M, third k T pre = .ok (M, []) ∧ Later T M ∧ Later M F ∧ ∃ us : List RTy, F.structs.lookup n = some ⟨tps, (fs.map (·.1)).zip (us.map some)⟩ ∧
      All₂ (fun p u => ∃ M', Near n M M' ∧ M'.inst k tps [] p.2 = .ok (some u, []) ∧ ∀ Γ, Shows T tps Γ → Made M' Γ p.2 u) fs us := by
  obtain ⟨M, M', h1, h2, h3, h4, h5, h6, h7, h8, h9, h10⟩ := third_at hT hf hn h
  obtain ⟨tps', cs', hS', hc, hd⟩ := hf n fs (by simp)
  rw [hS] at hS'
  cases hS'
  rw [structNames_append, List.nodup_append] at hn
  have hpre : n ∉ structNames pre := fun hc => hn.2.2 n hc n (by simp [structNames]) rfl
  have hpost : n ∉ structNames post := by
    have := hn.2.1
    simp only [structNames, List.nodup_cons] at this
    exact this.1
  obtain ⟨h11, us, h12, h13⟩ := instNode_struct (h4.wf hT) ((h7 n hpre).trans hS) hc hd h2
  refine ⟨M, h1, h4, h5.trans h6, us, (h8 n hpost).trans h12, ?_⟩
  exact all₂_imp (fun p u ⟨M', a, b, c⟩ => ⟨M', a, b, fun Γ hΓ => c Γ (h4.shows hΓ)⟩) h13

/-- A function afterwards. -/
theorem third_fn {k : Nat} {pre post : List Node} {i : Item} {T F : Tab} (hT : Wf T) (hf : Fits T (pre ++ .fn i :: post))
    (hn : (structNames (pre ++ .fn i :: post)).Nodup) (hi : (itemIds (pre ++ .fn i :: post)).Nodup) (h : third k T (pre ++ .fn i :: post) = .ok (F, [])) :
    ∃ M, third k T pre = .ok (M, []) ∧ Later T M ∧ Later M F ∧ ∃ f f', T.fns[i.id]? = some f ∧ F.fns[i.id]? = some f' ∧ FnDone M k i f f' := by
  obtain ⟨M, M', h1, h2, h3, h4, h5, h6, h7, h8, h9, h10⟩ := third_at hT hf hn h
  rw [itemIds_append, List.nodup_append] at hi
  have hpre : i.id ∉ itemIds pre := fun hc => hi.2.2 _ hc _ (by simp [itemIds]) rfl
  have hpost : i.id ∉ itemIds post := by
    have := hi.2.1
    simp only [itemIds, List.nodup_cons] at this
    exact this.1
  obtain ⟨_, _, _, f, f', h11, h12, h13⟩ := instFn_ok (h4.wf hT) h2
  exact ⟨M, h1, h4, h5.trans h6, f, f', (h9 _ hpre) ▸ h11, (h10 _ hpost).trans h12, h13⟩

end Clara.Sema.Dcl
