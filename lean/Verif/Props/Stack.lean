import Verif.Gen.Frames
import Verif.Gen.SiteVars
import Verif.Gen.Compute
import Verif.Props.Roots
import Verif.Props.Gc
/-
C70: the collector's walk over the stack.
C71: the variables of the calls that have not returned.

`Active I top c0 c s` (`Gen/Active.lean`) is an execution from `c0` to `c` together with the configurations `s` at the calls
that have not returned; `walkFrames` follows the chain of frames as `gcMark` does.
-/
namespace Clara.Props
open Clara.Gen
variable {σ : Type} {I : Image σ} {alloc ioob : String} {fds : List FnDef} {top p0 : Nat} {m0 : Mach σ}

/-- A program and the entry of one of its functions.  External functions do not have the name of a function of the program,
and are not called through values (`clean`). -/
structure Entered (I : Image σ) (alloc ioob : String) (fds : List FnDef) (top p0 : Nat) (m0 : Mach σ) : Prop where
  loaded : Loaded I (genProg alloc ioob fds)
  fine : Ev.panic ∉ genProg alloc ioob fds
  clean : ∀ fd ∈ fds, fd.body.clean (fds.map (·.name)) = true
  entry : ∃ f, I.code[p0]? = some (.label (.fn f))
  room : 8 ≤ (m0.reg .rsp).toNat
  top : (m0.reg .rsp).toNat + 8 ≤ top

theorem Entered.links (E : Entered I alloc ioob fds top p0 m0) {p : Nat} {m : Mach σ} {s : List (Cfg σ)} (h : Active I top (p0, m0) (p, m) s) {i : Ins}
    (hi : I.code[p]? = some (.ins i)) (hc : i.isCall = true) : Links I alloc fds top (m0.reg .rsp - 8) m.mem (m.reg .rbp) s := by
  obtain ⟨f, hf⟩ := E.entry
  exact (h.inv E.loaded E.fine E.clean hf E.room E.top).atCall hi hc

/-- **C70.**  At every call of every execution the walk from the frame pointer ends at the frame of the function that was
entered first, after one step for each call that has not returned.  It visits the frames of these calls, the innermost
first, and has for each the root map that lies behind its call; and the words of the frames are those at the calls. -/
theorem C70_walk (E : Entered I alloc ioob fds top p0 m0) {p : Nat} {m : Mach σ} {s : List (Cfg σ)} (h : Active I top (p0, m0) (p, m) s) {i : Ins}
    (hi : I.code[p]? = some (.ins i)) (hc : i.isCall = true) :
    ∃ l, (∀ n, s.length ≤ n → walkFrames I m.mem (m0.reg .rsp - 8) n (m.reg .rbp) = some l) ∧ l.length = s.length ∧
      ∀ (k : Nat) (q : Nat) (mq : Mach σ), s[k]? = some (q, mq) → ∃ r, l[k]? = some (mq.reg .rbp, r) ∧ I.code[q + 1]? = some (.data r) ∧
        ∀ a : Word, (mq.reg .rsp).toNat ≤ a.toNat → a.toNat < top → m.mem a = mq.mem a := by
  have hl := E.links h hi hc
  refine ⟨_, fun n hn => hl.walk E.loaded.fits hn, by simp, ?_⟩
  intro k q mq hk
  obtain ⟨⟨fd, lbl, h, j, i, r, hs⟩, hm⟩ := hl.all (List.mem_of_getElem? hk)
  refine ⟨r, ?_, hs.code.2, hm⟩
  rw [List.getElem?_map, hk]
  simp only [Option.map_some, rootsAt_call E.loaded.fits hs, Option.getD_some]

/-! ### Variables -/

def isMap : Item → Bool
  | .data _ => true
  | _ => false

/-- The call at position `q` is in the code of `fd` and is the call `site` of its source: between the label of the function,
which is the last one before `q`, and the root map of the call there are as many root maps as there are calls before
`site`. -/
structure SiteAt (I : Image σ) (fds : List FnDef) (q : Nat) (fd : FnDef) (site : Site) : Prop where
  mem : fd ∈ fds
  site : ∃ e, I.code[e]? = some (.label (.fn fd.name)) ∧ e ≤ q ∧ (∀ i g, e < i → i ≤ q → I.code[i]? ≠ some (.label (.fn g))) ∧
    fd.sites[((I.code.take (q + 1)).drop e).countP isMap]? = some site

theorem maps_get {c : List Item} {j : Nat} {r : List Nat} (h : c[j]? = some (.data r)) :
    (maps (c.map Item.ev))[(c.take j).countP isMap]? = some r := by
  induction c generalizing j with
  | nil => simp at h
  | cons x c ih =>
    cases j with
    | zero => cases h; rfl
    | succ j =>
      have := ih (j := j) h
      cases x with
      | data y =>
        rw [List.take_succ_cons, List.countP_cons_of_pos rfl]
        exact this
      | _ =>
        rw [List.take_succ_cons, List.countP_cons_of_neg (by simp [isMap])]
        exact this

theorem code_slice {fd : FnDef} {lbl h j : Nat} (hp : Placed I alloc fd lbl h) (hj : j < (fd.items I.opt alloc lbl).length) :
    (I.code.take (h + 3 + j + 1)).drop (h + 1) =
      .label (.fn fd.name) :: .ins (.enter (fd.frame * 8)) :: (fd.items I.opt alloc lbl).take (j + 1) := by
  apply List.ext_getElem?
  intro k
  rw [List.getElem?_drop]
  match k with
  | 0 => rw [List.getElem?_take_of_lt (by omega), Nat.add_zero, hp.label]; rfl
  | 1 => rw [List.getElem?_take_of_lt (by omega)]; exact hp.enter
  | k + 2 =>
    simp only [List.getElem?_cons_succ]
    by_cases hk : k < j + 1
    · rw [List.getElem?_take_of_lt (by omega), List.getElem?_take_of_lt hk]
      have h1 := List.getElem?_eq_getElem (show k < (fd.items I.opt alloc lbl).length by omega)
      rw [h1, ← hp.body _ _ h1]
      congr 1
      omega
    · rw [List.getElem?_eq_none (by rw [List.length_take]; omega), List.getElem?_eq_none (by rw [List.length_take]; omega)]

/-- **C71, variables.**  Every pointer variable in scope at a call that has not returned is looked up by the collector, and
the word found is the word that the variable had at the call. -/
theorem C71_variables_partial (E : Entered I alloc ioob fds top p0 m0) (hd : ∀ fd ∈ fds, fd.body.direct = true)
    (hnd : ∀ fd ∈ fds, (fd.params.map (·.1)).Nodup) {p : Nat} {m : Mach σ} {s : List (Cfg σ)} (h : Active I top (p0, m0) (p, m) s) {i : Ins}
    (hi : I.code[p]? = some (.ins i)) (hc : i.isCall = true) :
    ∃ l, walkFrames I m.mem (m0.reg .rsp - 8) s.length (m.reg .rbp) = some l ∧
      ∀ q mq, (q, mq) ∈ s → ∃ fd site, SiteAt I fds q fd site ∧
        ∀ x t, (x, t) ∈ site.vars → t.kind.isPointer = true →
          mq.mem (mq.reg .rbp - BitVec.ofNat 64 (8 * fd.slot x)) ∈ frameRoots m.mem l := by
  have hl := E.links h hi hc
  refine ⟨_, hl.walk E.loaded.fits (Nat.le_refl _), ?_⟩
  intro q mq hq
  obtain ⟨⟨fd, lbl, h', j, i, r, hs⟩, hm⟩ := hl.all hq
  have hpos : q = h' + 3 + j := hs.pos
  have hlt := (List.getElem?_eq_some_iff.1 hs.map).1
  have hk := maps_get hs.map
  rw [FnDef.items, maps_peepL] at hk
  obtain ⟨ms, e1, e2, e3⟩ := C40_live_partial alloc fd lbl hs.placed.fine (hd fd hs.mem) (hnd fd hs.mem)
  rw [maps_func] at e1
  cases e1
  have hlen := (List.getElem?_eq_some_iff.1 hk).1
  rw [e2] at hlen
  obtain ⟨site, hsite⟩ : ∃ site, fd.sites[_]? = some site := ⟨_, List.getElem?_eq_getElem hlen⟩
  refine ⟨fd, site, ⟨hs.mem, h' + 1, hs.placed.label, by omega, ?_, ?_⟩, ?_⟩
  · intro k g h1 h2 h3
    by_cases hk2 : k = h' + 2
    · rw [hk2, hs.placed.enter] at h3; cases h3
    · obtain ⟨n, rfl⟩ : ∃ n, k = h' + 3 + n := ⟨k - (h' + 3), by omega⟩
      rcases hs.placed.get (by omega) h3 with h4 | ⟨h4, -⟩
      · have h5 := label_mem (ev_get h4)
        rw [labels_items] at h5
        obtain ⟨_, _, h6⟩ := inner_local h5
        cases h6
      · omega
  · rw [hpos, code_slice hs.placed (by omega), List.countP_cons_of_neg (by simp [isMap]), List.countP_cons_of_neg (by simp [isMap])]
    exact hsite
  · intro x t hx ht
    have hr := e3 _ _ _ hsite hk x t hx ht
    have hsl : fd.slot x ≤ fd.frame := slot_le (sites_syms (List.mem_of_getElem? hsite) hx)
    have hlow := hs.low
    have hroom : 8 * fd.dep I.opt alloc lbl j ≤ ((mq.reg .rbp).toNat : Int) := hs.room
    have hrsp : ((mq.reg .rsp).toNat : Int) = (mq.reg .rbp).toNat - 8 * fd.dep I.opt alloc lbl j := atDepth_toNat hs.at' (by omega) hroom
    have ha := sub_toNat (w := mq.reg .rbp) (n := 8 * fd.slot x) (by omega)
    have hle : (mq.reg .rbp).toNat < top := by
      have hb : (m0.reg .rsp - 8).toNat = (m0.reg .rsp).toNat - 8 := sub_toNat (n := 8) E.room
      have := hl.frame_le hq
      have := E.top
      have := E.room
      simp only at *
      omega
    rw [frameRoots, List.mem_flatMap]
    refine ⟨_, List.mem_map.2 ⟨_, hq, rfl⟩, ?_⟩
    simp only [rootsAt_call E.loaded.fits hs, Option.getD_some]
    exact List.mem_map.2 ⟨fd.slot x, hr, hm _ (by simp only; omega) (by omega)⟩

/-! ### With the collector -/

/-- The frames of the walk as `gcMark` sees them: it takes the roots of a frame before it goes on to the frame. -/
def gcFrames (mem : Word → Word) : List (Word × List Nat) → List Gc.Frame
  | [] => []
  | f :: l => { callRoots := (l.head?.map (·.2)).getD [] |>.map Int.ofNat, slot := fun o => mem (f.1 - BitVec.ofInt 64 (8 * o)) } :: gcFrames mem l

/-- The frame of `gcMark` itself; its slots are not looked at. -/
def gcOwn (l : List (Word × List Nat)) : Gc.Frame where
  callRoots := (l.head?.map (·.2)).getD [] |>.map Int.ofNat
  slot := fun _ => 0

theorem rootWords_walk (mem : Word → Word) (l : List (Word × List Nat)) (w : Word) :
    Gc.rootWords (gcOwn l) (gcFrames mem l) w = frameRoots mem l ++ [w] := by
  have key : ∀ (l : List (Word × List Nat)) (o : Gc.Frame), o.callRoots = ((l.head?.map (·.2)).getD [] |>.map Int.ofNat) →
      ((o :: gcFrames mem l).zip (gcFrames mem l)).flatMap (fun p => p.1.callRoots.map p.2.slot) = frameRoots mem l := by
    intro l
    induction l with
    | nil => intro o _; rfl
    | cons f l ih =>
      intro o ho
      rw [gcFrames, List.zip_cons_cons, List.flatMap_cons]
      rw [ih _ rfl]
      simp only [frameRoots, List.flatMap_cons]
      congr 1
      rw [ho]
      simp only [List.head?_cons, Option.map_some, Option.getD_some, List.map_map]
      apply List.map_congr_left
      intro r _
      simp only [Function.comp]
      congr 2
  simp only [Gc.rootWords]
  rw [key l _ rfl]

/-- **C71, survival.**  What a pointer variable in scope at a call that has not returned points to survives a collection
with its contents, and so does what is reachable from there. -/
theorem C71_survives_partial (E : Entered I alloc ioob fds top p0 m0) (hd : ∀ fd ∈ fds, fd.body.direct = true)
    (hnd : ∀ fd ∈ fds, (fd.params.map (·.1)).Nodup) {p : Nat} {m : Mach σ} {s : List (Cfg σ)} (h : Active I top (p0, m0) (p, m) s) {i : Ins}
    (hi : I.code[p]? = some (.ins i)) (hc : i.isCall = true)
    {table : List Gc.TypeInfo} {hp : Gc.Heap} {addrs : List Word} (wf : Gc.WF table hp addrs) (runtime : Word) :
    ∃ l, walkFrames I m.mem (m0.reg .rsp - 8) s.length (m.reg .rbp) = some l ∧
      ((∀ w ∈ frameRoots m.mem l ++ [runtime], Gc.isReal w = true → ∃ x, hp.block (w - 16) = some x) →
        ∃ hp', Gc.Ends (Gc.gc table (gcOwn l) (gcFrames m.mem l) runtime) hp () hp' ∧
          ∀ q mq, (q, mq) ∈ s → ∃ fd site, SiteAt I fds q fd site ∧ ∀ x t, (x, t) ∈ site.vars → t.kind.isPointer = true →
            ∀ b, Gc.Reach table hp [mq.mem (mq.reg .rbp - BitVec.ofNat 64 (8 * fd.slot x))] b → b ∈ addrs →
              ∀ y, hp.block b = some y → ∃ n, hp'.block b = some { y with next := n }) := by
  obtain ⟨l, h1, h2⟩ := C71_variables_partial E hd hnd h hi hc
  refine ⟨l, h1, fun hroots => ?_⟩
  rw [← rootWords_walk] at hroots
  obtain ⟨hp', kept, g1, -, g3, g4, -, -⟩ := C41 wf (gcOwn l) (gcFrames m.mem l) runtime hroots
  refine ⟨hp', g1, fun q mq hq => ?_⟩
  obtain ⟨fd, site, k1, k2⟩ := h2 q mq hq
  refine ⟨fd, site, k1, fun x t hx ht b hb hab y hy => ?_⟩
  refine g4 b ((g3 b).2 ⟨hab, ?_⟩) y hy
  rw [rootWords_walk]
  have := k2 x t hx ht
  clear hab hy
  induction hb with
  | root hw hr =>
    rw [List.mem_singleton] at hw
    subst hw
    exact .root (List.mem_append_left _ this) hr
  | step _ hx ro hp hr ih => exact .step ih hx ro hp hr

/-! ### Example -/

def rtInt : TyR := ⟨.integer, 0⟩

/-- `fn a(x: string, n: int) int = b()`, `fn b() int = c()`, `fn c() int = 5`. -/
def stkFns : List FnDef :=
  [{ name := "a", params := [(0, rtStr), (1, rtInt)], body := .expr (.callFn "b" { ret := rtInt } []) },
   { name := "b", params := [], body := .expr (.callFn "c" { ret := rtInt } []) },
   { name := "c", params := [], body := .expr (.int 5) }]

abbrev stkImage (opt : Bool) : Image Word := bumpImage opt "alloc" "ioob" stkFns (fun _ => 0)

/-- `a` is entered with a string at address 16384. -/
def stkMach : Mach Word where
  reg := fun r => if r = .rsp then 65544 else if r = .rdi then 16384 else 0
  mem := fun _ => 0
  flags := none
  ext := 0

theorem stkEntered (opt : Bool) : Entered (stkImage opt) "alloc" "ioob" stkFns (2 ^ 60) 1 stkMach where
  loaded := (bump_ctx' (lim := 65536) (top := 2 ^ 60) _ (by decide) (by decide) (by decide) (by decide) (by decide) (by decide)).loaded
  fine := by decide +kernel
  clean := by decide +kernel
  entry := ⟨"a", by cases opt <;> decide +kernel⟩
  room := by decide
  top := by decide

/-- Computes executions without jumps and returns. -/
def actStep (I : Image σ) (top : Nat) (x : Nat × Mach σ × List (Cfg σ)) : Option (Nat × Mach σ × List (Cfg σ)) :=
  match I.code[x.1]? with
  | some (.label l) => if l = .ioob then none else some (x.1 + 1, x.2)
  | some (.ins i) =>
    if i.room ≤ (x.2.1.reg .rsp).toNat then
      match i with
      | .call f =>
        if (x.2.1.reg .rsp).toNat % 16 = 0 then (I.find (.fn f)).map (fun q => (q, x.2.1.push (I.addr (x.1 + 1)), (x.1, x.2.1) :: x.2.2)) else none
      | .mov s (.mem a) => if a.base = .rbp then (exec I.abs x.2.1 (.mov s (.mem a))).map (fun m => (x.1 + 1, m, x.2.2)) else none
      | .enter n => (exec I.abs x.2.1 (.enter n)).map (fun m => (x.1 + 1, m, x.2.2))
      | _ => none
    else none
  | _ => none

theorem actStep_active {c0 : Cfg σ} {x y : Nat × Mach σ × List (Cfg σ)} (h : Active I top c0 (x.1, x.2.1) x.2.2) (hs : actStep I top x = some y) :
    Active I top c0 (y.1, y.2.1) y.2.2 := by
  obtain ⟨p, m, s⟩ := x
  unfold actStep at hs
  simp only at hs
  split at hs
  · rename_i l hl
    split at hs
    · cases hs
    · rename_i hne
      cases hs
      refine .next h (.label hl) (by rw [hl]; simpa using hne) (by rw [hl]; simp) ⟨by rw [hl]; simp, by rw [hl]; simp⟩
  · rename_i i hi
    split at hs
    · rename_i hr
      split at hs
      · rename_i f
        split at hs
        · rename_i ha
          cases hf : I.find (.fn f) with
          | none => rw [hf] at hs; cases hs
          | some q =>
            rw [hf] at hs
            cases hs
            refine .call h (.call hi ha hf) hi rfl (by rintro _ ⟨⟩; rw [hf]; simp) (find_label_at hf) ⟨?_, ?_⟩
            · intro i' hi'; rw [hi] at hi'; cases hi'; exact hr
            · intro s a hi'; rw [hi] at hi'; cases hi'
        · cases hs
      · rename_i s' a
        split at hs
        · rename_i hb
          cases hs
          refine .next h (.straight hi rfl rfl) (by rw [hi]; simp) (by rw [hi]; rintro _ ⟨⟩; exact ⟨rfl, rfl⟩) ⟨?_, ?_⟩
          · intro i' hi'; rw [hi] at hi'; cases hi'; exact hr
          · intro s'' a' hi' hne; rw [hi] at hi'; cases hi'; exact absurd hb hne
        · cases hs
      · cases hs
        refine .next h (.straight hi rfl rfl) (by rw [hi]; simp) (by rw [hi]; rintro _ ⟨⟩; exact ⟨rfl, rfl⟩) ⟨?_, ?_⟩
        · intro i' hi'; rw [hi] at hi'; cases hi'; exact hr
        · intro s'' a' hi' hne; rw [hi] at hi'; cases hi'
      · cases hs
    · cases hs
  · cases hs

def actRun (I : Image σ) (top : Nat) : Nat → Nat × Mach σ × List (Cfg σ) → Option (Nat × Mach σ × List (Cfg σ))
  | 0, x => some x
  | n + 1, x => (actStep I top x).bind (actRun I top n)

theorem actRun_active {c0 : Cfg σ} {n : Nat} {x y : Nat × Mach σ × List (Cfg σ)} (h : Active I top c0 (x.1, x.2.1) x.2.2)
    (hs : actRun I top n x = some y) : Active I top c0 (y.1, y.2.1) y.2.2 := by
  induction n generalizing x with
  | zero => cases hs; exact h
  | succ n ih =>
    simp only [actRun] at hs
    cases hx : actStep I top x with
    | none => rw [hx] at hs; cases hs
    | some z => rw [hx] at hs; exact ih (actStep_active h hx) hs

/-- Up to the call of `c`. -/
def stkRun (opt : Bool) := actRun (stkImage opt) (2 ^ 60) 7 (1, stkMach, [])

theorem stkRun_call (opt : Bool) : (stkRun opt).map (fun y => ((stkImage opt).code[y.1]?, y.2.2.map (·.1))) = some (some (.ins (.call "c")), [5]) := by
  cases opt <;> decide +kernel

theorem stkRun_walk (opt : Bool) : (stkRun opt).bind (fun y => walkFrames (stkImage opt) y.2.1.mem 65536 1 (y.2.1.reg .rbp)) = some [(65536, [1])] := by
  cases opt <;> decide +kernel

theorem stkRun_roots (opt : Bool) : (stkRun opt).map (fun y => frameRoots y.2.1.mem [(65536, [1])]) = some [16384] := by
  cases opt <;> decide +kernel

/-- The call of `b` has not returned; the walk visits the frame of `a` and finds the string. -/
example (opt : Bool) : ∃ p m q mq, Active (stkImage opt) (2 ^ 60) (1, stkMach) (p, m) [(q, mq)] ∧ (stkImage opt).code[p]? = some (.ins (.call "c")) ∧
    walkFrames (stkImage opt) m.mem (stkMach.reg .rsp - 8) 1 (m.reg .rbp) = some [(mq.reg .rbp, [1])] ∧
    frameRoots m.mem [(mq.reg .rbp, [1])] = [16384] := by
  have h := stkRun_call opt
  have h4 := stkRun_walk opt
  have h5 := stkRun_roots opt
  cases hr : stkRun opt with
  | none => rw [hr] at h; cases h
  | some y =>
    obtain ⟨p, m, s⟩ := y
    rw [hr] at h h4 h5
    rw [stkRun] at hr
    have ha := actRun_active (c0 := (1, stkMach)) Active.start hr
    simp only [Option.map_some, Option.bind_some, Option.some.injEq, Prod.mk.injEq] at h h4 h5
    obtain ⟨h1, h2⟩ := h
    match s, h2 with
    | [(q, mq)], h2 =>
      obtain ⟨l, w1, w2, w3⟩ := C70_walk (stkEntered opt) ha h1 rfl
      have hb : stkMach.reg .rsp - 8 = 65536 := rfl
      have hw : walkFrames (stkImage opt) m.mem (stkMach.reg .rsp - 8) 1 (m.reg .rbp) = some [(65536, [1])] := by rw [hb]; exact h4
      obtain ⟨r, e1, -⟩ := w3 0 q mq rfl
      rw [w1 1 (Nat.le_refl _)] at hw
      cases hw
      simp only [List.getElem?_cons_zero, Option.some.injEq, Prod.mk.injEq] at e1
      refine ⟨p, m, q, mq, ha, h1, ?_, ?_⟩
      · rw [w1 1 (Nat.le_refl _), ← e1.1]
      · rw [← e1.1]
        exact h5

example (opt : Bool) {p : Nat} {m : Mach Word} {s : List (Cfg Word)} (h : Active (stkImage opt) (2 ^ 60) (1, stkMach) (p, m) s) {i : Ins}
    (hi : (stkImage opt).code[p]? = some (.ins i)) (hc : i.isCall = true) :=
  C71_variables_partial (stkEntered opt) (by decide) (by decide) h hi hc

example : stkFns[0].sites = [⟨[(0, rtStr), (1, rtInt)], []⟩] ∧ rtStr.kind.isPointer = true ∧ stkFns[0].slot 0 = 1 := by decide +kernel

end Clara.Props
