import Verif.Gc.Header
import Verif.Gc.Spec
/-
The mark phase.
-/
namespace Clara.Gc

variable {α β : Type} {h h1 h2 h' : Heap}

/-- The run ends with a value. -/
def Ends {α : Type} (x : GM α) (h : Heap) (a : α) (h' : Heap) : Prop := x h = some (.ok (a, h'))

theorem Ends.bind {x : GM α} {f : α → GM β} {a : α} {b : β} (hx : Ends x h a h1) (hf : Ends (f a) h1 b h2) :
    Ends (x >>= f) h b h2 := by
  unfold Ends at *
  show (StateT.bind x f) h = _
  unfold StateT.bind
  rw [hx]
  exact hf

theorem Ends.pure (a : α) (h : Heap) : Ends (Pure.pure a) h a h := rfl

theorem Ends.block {b : Word} {x : Block} (hx : h.block b = some x) : Ends (block b) h x h := by
  unfold Ends Gc.block; rw [hx]

theorem Ends.word {p : Word} {r : Nat} {x : Block} {w : Word} (hx : h.block (p - 16) = some x) (hw : x.body[r]? = some w) :
    Ends (word p r) h w h := by
  refine (Ends.block hx).bind ?_
  rw [if_neg (by omega)]
  simp only [Int.toNat_natCast, hw]
  exact Ends.pure _ _

def Heap.set (h : Heap) (b : Word) (x : Block) : Heap := { h with block := fun a => if a = b then some x else h.block a }

theorem set_same (h : Heap) (b : Word) (x : Block) : (h.set b x).block b = some x := by simp [Heap.set]
theorem set_ne (h : Heap) {a b : Word} (x : Block) (ha : a ≠ b) : (h.set b x).block a = h.block a := by simp [Heap.set, ha]

theorem Ends.setMark {b : Word} {x : Block} (hx : h.block b = some x) (hm : isMarked x.header = false) :
    Ends (setMark b) h () (h.set b { x with header := x.header ||| 0x1#63 }) := by
  refine (Ends.block hx).bind ?_
  rw [hm]
  exact (Ends.block hx).bind rfl

theorem Ends.typeInfo {table : List TypeInfo} {id : Nat} {t : TypeInfo} (ht : table[id]? = some t) :
    Ends (typeInfo table id) h t h := by
  unfold Gc.typeInfo
  rw [if_neg (by omega)]
  simp only [Int.toNat_natCast, ht]
  exact Ends.pure _ _

/-! ### Marking -/

section
variable {table : List TypeInfo} {h0 : Heap} {addrs : List Word}

/-- The block at `b` is marked. -/
def Marked (h : Heap) (b : Word) : Prop := ∃ x, h.block b = some x ∧ isMarked x.header = true

/-- `h` is `h0` with some of the allocated blocks marked. -/
structure Over (h0 h : Heap) : Prop where
  blocks : h.blocks = h0.blocks
  same : ∀ b, h.block b = h0.block b ∨
    ∃ x, h0.block b = some x ∧ isReadOnly x.header = false ∧ h.block b = some { x with header := x.header ||| 0x1#63 }

theorem Over.refl : Over h h := ⟨rfl, fun _ => .inl rfl⟩

theorem Over.get (o : Over h0 h) {b : Word} {x : Block} (hx : h0.block b = some x) :
    ∃ y, h.block b = some y ∧ y.body = x.body ∧ y.next = x.next ∧ typeId y.header = typeId x.header ∧
      isReadOnly y.header = isReadOnly x.header ∧ (y = x ∨ (y = { x with header := x.header ||| 0x1#63 } ∧ isReadOnly x.header = false)) := by
  rcases o.same b with e | ⟨x', e1, e2, e3⟩
  · exact ⟨x, by rw [e, hx], rfl, rfl, rfl, rfl, .inl rfl⟩
  · rw [hx] at e1
    cases e1
    exact ⟨_, e3, rfl, rfl, typeId_set _, isReadOnly_set _, .inr ⟨rfl, e2⟩⟩

theorem Over.mark (o : Over h0 h) {b : Word} {x y : Block} (hx : h0.block b = some x) (hro : isReadOnly x.header = false)
    (hy : h.block b = some y) (hyx : y = x) : Over h0 (h.set b { y with header := y.header ||| 0x1#63 }) := by
  subst hyx
  refine ⟨o.blocks, fun a => ?_⟩
  by_cases ha : a = b
  · subst ha
    exact .inr ⟨y, hx, hro, set_same _ _ _⟩
  · rcases o.same a with e | ⟨x', e1, e2, e3⟩
    · exact .inl (by rw [set_ne _ _ ha, e])
    · exact .inr ⟨x', e1, e2, by rw [set_ne _ _ ha, e3]⟩

/-- Either read-only or marked. -/
def Covered (h0 h : Heap) (b : Word) : Prop := (∃ x, h0.block b = some x ∧ isReadOnly x.header = true) ∨ Marked h b

/-- `h'` is what visiting the words `ws` in `h` should give. -/
structure Visit (table : List TypeInfo) (h0 h : Heap) (ws : List Word) (h' : Heap) : Prop where
  over : Over h0 h'
  mono : ∀ b, Marked h b → Marked h' b
  done : ∀ w ∈ ws, isReal w = true → Covered h0 h' (w - 16)
  new : ∀ b, Marked h' b → ¬ Marked h b → Reach table h0 ws b ∧
    ∀ x w, h0.block b = some x → Points table x w → isReal w = true → Covered h0 h' (w - 16)

theorem Covered.mono {b : Word} (hm : ∀ b, Marked h b → Marked h' b) (c : Covered h0 h b) : Covered h0 h' b :=
  c.imp id (hm b)

theorem Reach.mono {ws ws' : List Word} (hs : ∀ w ∈ ws, w ∈ ws') {b : Word} (r : Reach table h0 ws b) : Reach table h0 ws' b := by
  induction r with
  | root hw hr => exact .root (hs _ hw) hr
  | step _ hx ro hp hr ih => exact .step ih hx ro hp hr

theorem Visit.nil (o : Over h0 h) : Visit table h0 h [] h :=
  ⟨o, fun _ m => m, fun _ h => by (cases h), fun _ m n => absurd m n⟩

theorem Visit.append {ws ws' : List Word} (a : Visit table h0 h ws h1) (b : Visit table h0 h1 ws' h2) :
    Visit table h0 h (ws ++ ws') h2 := by
  refine ⟨b.over, fun c m => b.mono c (a.mono c m), fun w hw hr => ?_, fun c m n => ?_⟩
  · rcases List.mem_append.1 hw with e | e
    · exact (a.done w e hr).mono b.mono
    · exact b.done w e hr
  · by_cases m1 : Marked h1 c
    · obtain ⟨r, k⟩ := a.new c m1 n
      exact ⟨r.mono (fun _ h => List.mem_append.2 (.inl h)), fun x w hx hp hr => (k x w hx hp hr).mono b.mono⟩
    · obtain ⟨r, k⟩ := b.new c m m1
      exact ⟨r.mono (fun _ h => List.mem_append.2 (.inr h)), k⟩

/-- A word that is no pointer, or points to a block. -/
def Fine (h0 : Heap) (w : Word) : Prop := isReal w = true → ∃ x, h0.block (w - 16) = some x

/-- The blocks that are not marked. -/
def unmarked (h : Heap) (b : Word) : Bool :=
  match h.block b with
  | some x => !isMarked x.header
  | none => true

theorem unmarked_iff {b : Word} : unmarked h b = true ↔ ¬ Marked h b := by
  unfold unmarked Marked
  cases h.block b with
  | none => simp
  | some x => simp

theorem count_mono (hm : ∀ b, Marked h b → Marked h' b) (l : List Word) : l.countP (unmarked h') ≤ l.countP (unmarked h) := by
  apply List.countP_mono_left
  intro b _ hb
  rw [unmarked_iff] at *
  exact fun m => hb (hm b m)

theorem count_lt (hm : ∀ b, Marked h b → Marked h' b) {l : List Word} {b : Word} (hb : b ∈ l) (h1 : ¬ Marked h b) (h2 : Marked h' b) :
    l.countP (unmarked h') < l.countP (unmarked h) := by
  obtain ⟨l1, l2, rfl⟩ := List.append_of_mem hb
  have e1 : unmarked h b = true := unmarked_iff.2 h1
  have e2 : unmarked h' b = false := by
    rw [← Bool.not_eq_true, unmarked_iff]; exact fun h => h h2
  have c1 := count_mono hm l1
  have c2 := count_mono hm l2
  rw [List.countP_append, List.countP_append, List.countP_cons, List.countP_cons, e1, e2]
  simp
  omega

/-- The claim about one pointer when at most `n` blocks are not marked. -/
def Good (table : List TypeInfo) (h0 : Heap) (addrs : List Word) (n : Nat) : Prop :=
  ∀ h p, Over h0 h → addrs.countP (unmarked h) ≤ n → Fine h0 p →
    ∃ h', Ends (markPointer table p) h () h' ∧ Visit table h0 h [p] h'

theorem markRoots_ends {n : Nat} (g : Good table h0 addrs n) {p : Word} {x : Block} (hx : h0.block (p - 16) = some x) (roots : List Int)
    (hr : ∀ r ∈ roots, 0 ≤ r ∧ r < x.body.length) (hf : ∀ (r : Nat) w, (r : Int) ∈ roots → x.body[r]? = some w → Fine h0 w)
    (o : Over h0 h) (hc : addrs.countP (unmarked h) ≤ n) :
    ∃ h' ws, Ends (markRoots table p roots) h () h' ∧ Visit table h0 h ws h' ∧
      (∀ (r : Nat) w, (r : Int) ∈ roots → x.body[r]? = some w → w ∈ ws) ∧
      (∀ w ∈ ws, ∃ r : Nat, (r : Int) ∈ roots ∧ x.body[r]? = some w) := by
  induction roots generalizing h with
  | nil =>
    refine ⟨h, [], ?_, .nil o, fun r w h => by (cases h), fun w h => by cases h⟩
    rw [markRoots]
    exact Ends.pure _ _
  | cons r rs ih =>
    obtain ⟨r0, r1⟩ := hr r (by simp)
    obtain ⟨k, rfl⟩ := Int.eq_ofNat_of_zero_le r0
    have hw : x.body[k]? = some x.body[k] := List.getElem?_eq_getElem (by omega)
    obtain ⟨y, hy, hbody, -⟩ := o.get hx
    obtain ⟨h1, a1, a2⟩ := g h x.body[k] o hc (hf k _ (by simp) hw)
    obtain ⟨h2, ws, b1, b2, b3, b4⟩ := ih (fun r hr' => hr r (by simp [hr'])) (fun r w hr' => hf r w (by simp [hr'])) a2.over
      (Nat.le_trans (count_mono a2.mono _) hc)
    refine ⟨h2, [x.body[k]] ++ ws, ?_, a2.append b2, fun r w hr' hw' => ?_, fun w hw' => ?_⟩
    · rw [markRoots]
      exact Ends.bind (Ends.word hy (by rw [hbody]; exact hw)) (a1.bind b1)
    · rcases List.mem_cons.1 hr' with e | e
      · rw [show r = k by exact_mod_cast e] at hw'
        rw [hw] at hw'
        cases hw'
        simp
      · exact List.mem_append.2 (.inr (b3 r w e hw'))
    · rcases List.mem_append.1 hw' with e | e
      · rw [List.mem_singleton.1 e]
        exact ⟨k, by simp, hw⟩
      · obtain ⟨r, e1, e2⟩ := b4 w e
        exact ⟨r, by simp [e1], e2⟩

theorem markElems_ends {n : Nat} (g : Good table h0 addrs n) {p : Word} {x : Block} (hx : h0.block (p - 16) = some x) (len : Int)
    (hl : len + 1 ≤ x.body.length) (hf : ∀ (i : Nat) w, (i : Int) < len → x.body[i + 1]? = some w → Fine h0 w) (k i : Nat)
    (hk : len ≤ i + k) (o : Over h0 h) (hc : addrs.countP (unmarked h) ≤ n) :
    ∃ h' ws, Ends (markElems table p i len) h () h' ∧ Visit table h0 h ws h' ∧
      (∀ (j : Nat) w, i ≤ j → (j : Int) < len → x.body[j + 1]? = some w → w ∈ ws) ∧
      (∀ w ∈ ws, ∃ j : Nat, (j : Int) < len ∧ x.body[j + 1]? = some w) := by
  induction k generalizing h i with
  | zero =>
    refine ⟨h, [], ?_, .nil o, fun r w h => by (omega), fun w h => by cases h⟩
    rw [markElems, if_neg (by omega)]
    exact Ends.pure _ _
  | succ k ih =>
    by_cases hlt : (i : Int) < len
    · have hw : x.body[i + 1]? = some x.body[i + 1] := List.getElem?_eq_getElem (by omega)
      obtain ⟨y, hy, hbody, -⟩ := o.get hx
      obtain ⟨h1, a1, a2⟩ := g h x.body[i + 1] o hc (hf i _ hlt hw)
      obtain ⟨h2, ws, b1, b2, b3, b4⟩ := ih (i + 1) (by omega) a2.over (Nat.le_trans (count_mono a2.mono _) hc)
      refine ⟨h2, [x.body[i + 1]] ++ ws, ?_, a2.append b2, fun j w h1 h2 hw' => ?_, fun w hw' => ?_⟩
      · rw [markElems, if_pos hlt, show (1 + (i : Int)) = ((i + 1 : Nat) : Int) by omega, show ((i : Int) + 1) = ((i + 1 : Nat) : Int) by omega]
        exact Ends.bind (Ends.word hy (by rw [hbody]; exact hw)) (a1.bind b1)
      · by_cases hj : j = i
        · subst hj
          rw [hw] at hw'
          cases hw'
          simp
        · exact List.mem_append.2 (.inr (b3 j w (by omega) h2 hw'))
      · rcases List.mem_append.1 hw' with e | e
        · rw [List.mem_singleton.1 e]
          exact ⟨i, hlt, hw⟩
        · exact b4 w e
    · refine ⟨h, [], ?_, .nil o, fun r w h => by (omega), fun w h => by cases h⟩
      rw [markElems, if_neg hlt]
      exact Ends.pure _ _

theorem markPointer_good (wf : WF table h0 addrs) (n : Nat) : Good table h0 addrs n := by
  induction n using Nat.strongRecOn with
  | ind n ih =>
    intro h p o hc fine
    by_cases hreal : isReal p = true
    · obtain ⟨x, hx⟩ := fine hreal
      obtain ⟨y, hy, hbody, hnext, htid, hro, hcases⟩ := o.get hx
      obtain ⟨id, t, t1, t2, t3⟩ := (wf.shaped hx).id
      have pre : ∀ {h'}, Ends (do
          if isReadOnly (← block (p - 16)).header then return ()
          if isMarked (← block (p - 16)).header then return ()
          setMark (p - 16)
          match t with
          | .struct roots => markRoots table p roots
          | .string => return ()
          | .bytes => return ()
          | .array elemIsPointer =>
            if elemIsPointer then markElems table p 0 (intOf (← word p 0)) else return ()
          | .function => err .panic) h () h' → Ends (markPointer table p) h () h' := by
        intro h' hh
        rw [markPointer, hreal]
        refine (Ends.block hy).bind (Ends.bind ?_ hh)
        rw [htid, t1]
        exact Ends.typeInfo t2
      cases hro' : isReadOnly x.header with
      | true =>
        refine ⟨h, pre ?_, o, fun _ m => m, fun w hw _ => ?_, fun _ m n => absurd m n⟩
        · refine (Ends.block hy).bind ?_
          rw [hro, hro']
          exact Ends.pure _ _
        · rw [List.mem_singleton.1 hw]
          exact .inl ⟨x, hx, hro'⟩
      | false =>
        cases hm : isMarked y.header with
        | true =>
          refine ⟨h, pre ?_, o, fun _ m => m, fun w hw _ => ?_, fun _ m n => absurd m n⟩
          · refine (Ends.block hy).bind ?_
            rw [hro, hro']
            refine (Ends.block hy).bind ?_
            rw [hm]
            exact Ends.pure _ _
          · rw [List.mem_singleton.1 hw]
            exact .inr ⟨y, hy, hm⟩
        | false =>
          have hyx : y = x := by
            rcases hcases with e | ⟨e, -⟩
            · exact e
            · rw [e, isMarked_set] at hm; cases hm
          subst hyx
          let y' : Block := { y with header := y.header ||| 0x1#63 }
          let h1 := h.set (p - 16) y'
          have o1 : Over h0 h1 := o.mark hx hro' hy rfl
          have m1 : Marked h1 (p - 16) := ⟨y', set_same _ _ _, isMarked_set _⟩
          have mono1 : ∀ b, Marked h b → Marked h1 b := by
            rintro b ⟨z, z1, z2⟩
            by_cases hb : b = p - 16
            · subst hb; exact m1
            · exact ⟨z, (set_ne _ _ hb).trans z1, z2⟩
          have nm : ¬ Marked h (p - 16) := by
            rintro ⟨z, z1, z2⟩; rw [hy] at z1; cases z1; rw [hm] at z2; cases z2
          have only : ∀ b, Marked h1 b → ¬ Marked h b → b = p - 16 := by
            rintro b ⟨z, z1, z2⟩ nb
            by_cases hb : b = p - 16
            · exact hb
            · exact absurd ⟨z, (set_ne _ _ hb).symm.trans z1, z2⟩ nb
          have hmem : (p - 16) ∈ addrs := (wf.alloc _).2 ⟨y, hx, hro'⟩
          have hlt : addrs.countP (unmarked h1) < n := Nat.lt_of_lt_of_le (count_lt mono1 hmem nm m1) hc
          have step : ∀ {h'}, Ends (match t with
              | .struct roots => markRoots table p roots
              | .string => return ()
              | .bytes => return ()
              | .array elemIsPointer => do
                if elemIsPointer then markElems table p 0 (intOf (← word p 0)) else return ()
              | .function => err .panic) h1 () h' → Ends (markPointer table p) h () h' := by
            intro h' hh
            refine pre ((Ends.block hy).bind ?_)
            rw [hro']
            refine (Ends.block hy).bind ?_
            rw [hm]
            exact (Ends.setMark hy hm).bind hh
          -- the children, in whatever way they are enumerated
          have fin : ∀ {h' : Heap} {ws : List Word}, Visit table h0 h1 ws h' → (∀ w, Points table y w → w ∈ ws) →
              (∀ w ∈ ws, Points table y w) → Visit table h0 h [p] h' := by
            intro h' ws v hall hsome
            refine ⟨v.over, fun b m => v.mono b (mono1 b m), fun w hw _ => ?_, fun b m n => ?_⟩
            · rw [List.mem_singleton.1 hw]
              exact .inr (v.mono _ m1)
            · by_cases mb : Marked h1 b
              · have hb := only b mb n
                subst hb
                refine ⟨.root (by simp) hreal, fun x w hx' hp hr => ?_⟩
                rw [hx] at hx'
                cases hx'
                exact v.done w (hall w hp) hr
              · obtain ⟨r, k⟩ := v.new b m mb
                refine ⟨?_, k⟩
                have lift : ∀ {b}, Reach table h0 ws b → Reach table h0 [p] b := by
                  intro b r
                  induction r with
                  | root hw hr => exact .step (.root (by simp) hreal) hx hro' (hsome _ hw) hr
                  | step _ hx ro hp hr ih => exact .step ih hx ro hp hr
                exact lift r
          have hfine : ∀ w, Points table y w → Fine h0 w := fun w hp hr => wf.closed hx hro' hp hr
          have none_points : ∀ {w}, (∀ roots, t ≠ .struct roots) → t ≠ .array true → ¬ Points table y w := by
            intro w n1 n2 hp
            cases hp with
            | field id' roots r ht hi hr hw =>
              rw [t1] at ht
              have : id = id' := by exact_mod_cast ht
              subst this
              rw [t2] at hi
              cases hi
              exact n1 _ rfl
            | elem id' len i ht hi hl hlt hw =>
              rw [t1] at ht
              have : id = id' := by exact_mod_cast ht
              subst this
              rw [t2] at hi
              cases hi
              exact n2 rfl
          cases t with
          | struct roots =>
            obtain ⟨h2, ws, a1, a2, a3, a4⟩ := markRoots_ends (ih _ hlt) hx roots (t3 hro')
              (fun r w hr hw => hfine w (.field id roots r t1 t2 hr hw)) o1 (Nat.le_refl _)
            refine ⟨h2, step a1, fin a2 (fun w hp => ?_) (fun w hw => ?_)⟩
            · cases hp with
              | field id' roots' r ht hi hr hw =>
                rw [t1] at ht
                have : id = id' := by exact_mod_cast ht
                subst this
                rw [t2] at hi
                cases hi
                exact a3 r w hr hw
              | elem id' len i ht hi hl hlt hw =>
                rw [t1] at ht
                have : id = id' := by exact_mod_cast ht
                subst this
                rw [t2] at hi
                cases hi
            · obtain ⟨r, r1, r2⟩ := a4 w hw
              exact .field id roots r t1 t2 r1 r2
          | string => exact ⟨h1, step (Ends.pure _ _), fin (.nil o1) (fun w hp => absurd hp (none_points (by simp) (by simp))) (by simp)⟩
          | bytes => exact ⟨h1, step (Ends.pure _ _), fin (.nil o1) (fun w hp => absurd hp (none_points (by simp) (by simp))) (by simp)⟩
          | function => exact (t3 hro').elim
          | array e =>
            cases e with
            | false => exact ⟨h1, step (Ends.pure _ _), fin (.nil o1) (fun w hp => absurd hp (none_points (by simp) (by simp))) (by simp)⟩
            | true =>
              obtain ⟨len, l1, l2⟩ := t3 hro'
              obtain ⟨h2, ws, a1, a2, a3, a4⟩ := markElems_ends (ih _ hlt) hx (intOf len) l2
                (fun i w hi hw => hfine w (.elem id len i t1 t2 l1 hi hw)) (intOf len).toNat 0 (by omega) o1 (Nat.le_refl _)
              refine ⟨h2, step ?_, fin a2 (fun w hp => ?_) (fun w hw => ?_)⟩
              · refine Ends.bind (Ends.word (r := 0) (x := y') (set_same _ _ _) l1) ?_
                exact a1
              · cases hp with
                | field id' roots' r ht hi hr hw =>
                  rw [t1] at ht
                  have : id = id' := by exact_mod_cast ht
                  subst this
                  rw [t2] at hi
                  cases hi
                | elem id' len' i ht hi hl hlt' hw =>
                  rw [l1] at hl
                  cases hl
                  exact a3 i w (by omega) hlt' hw
              · obtain ⟨j, j1, j2⟩ := a4 w hw
                exact .elem id len j t1 t2 l1 j1 j2
    · refine ⟨h, ?_, o, fun _ m => m, fun w hw hr => ?_, fun _ m n => absurd m n⟩
      · rw [markPointer]
        simp only [Bool.not_eq_true] at hreal
        rw [hreal]
        exact Ends.pure _ _
      · rw [List.mem_singleton.1 hw] at hr
        exact absurd hr hreal

end

end Clara.Gc
