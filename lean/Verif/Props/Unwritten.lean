import Verif.Props.RootWords
/-
C93: a collection does not fail on account of the program.

C90 has the words that waiting arguments show to the collector.  Here nothing waits at any call.
-/
namespace Clara.Props
open Clara.Gen
variable {σ : Type} {I : Image σ} {alloc ioob : String} {fds : List FnDef} {top p0 : Nat} {m0 : Mach σ}

/-- **The claim.**  In a program in which nothing waits on the stack at any call, when the allocator is called, the pointer variables in scope
at the pending calls hold nothing or addresses of objects and the heap is in order, then a collection ends. -/
def C93_claim : Prop :=
  ∀ (I : Image Word) (alloc ioob : String) (fds : List FnDef) (top p0 : Nat) (m0 : Mach Word), Entered I alloc ioob fds top p0 m0 →
    (∀ fd ∈ fds, fd.body.direct = true) → (∀ fd ∈ fds, (fd.params.map (·.1)).Nodup) → (∀ fd ∈ fds, ∀ site ∈ fd.sites, site.temps = []) →
    ∀ p m s, Active I top (p0, m0) (p, m) s → I.code[p]? = some (.ins (.call alloc)) →
    ∀ table hp addrs runtime, Gc.WF table hp addrs → HeapIs hp m → NoneOrObject hp runtime → (∀ w, VarWord I fds s w → NoneOrObject hp w) →
    ∀ l, walkFrames I m.mem (m0.reg .rsp - 8) s.length (m.reg .rbp) = some l →
      ∃ hp', Gc.Ends (Gc.gc table (gcOwn l) (gcFrames m.mem l) runtime) hp () hp'

/-! ### What holds -/

/-- **C93 for functions with exact root maps.**
What is missing: functions in which an inner block declares a pointer variable before a block of its own, see `C93_violated`. -/
theorem C93_partial (E : Entered I alloc ioob fds top p0 m0) (hd : ∀ fd ∈ fds, fd.body.direct = true) (hnd : ∀ fd ∈ fds, (fd.params.map (·.1)).Nodup)
    (ht : ∀ fd ∈ fds, ∀ site ∈ fd.sites, site.temps = []) (hn : ∀ fd ∈ fds, fd.body.neat = true) {p : Nat} {m : Mach σ} {s : List (Cfg σ)}
    (h : Active I top (p0, m0) (p, m) s) (hi : I.code[p]? = some (.ins (.call alloc))) {table : List Gc.TypeInfo} {hp : Gc.Heap} {addrs : List Word}
    {runtime : Word} (wf : Gc.WF table hp addrs) (hr : NoneOrObject hp runtime) (hv : ∀ w, VarWord I fds s w → NoneOrObject hp w)
    {l : List (Word × List Nat)} (hl : walkFrames I m.mem (m0.reg .rsp - 8) s.length (m.reg .rbp) = some l) :
    ∃ hp', Gc.Ends (Gc.gc table (gcOwn l) (gcFrames m.mem l) runtime) hp () hp' := by
  obtain ⟨l', h1, -, hp', h2, -⟩ := C90_partial E hd hn hnd h hi rfl wf hr hv (by
    rintro w ⟨q, mq, fd, site, j, i, t, -, ⟨hm, _, _, _, _, hs⟩, hj, -⟩
    rw [ht fd hm site (List.mem_of_getElem? hs)] at hj
    cases hj)
  rw [hl] at h1
  cases h1
  exact ⟨hp', h2⟩

/-! ### What does not hold -/

/-- `fn main() { junk()  f(false) }`, `fn junk() { g() }`, `fn g() {}`, `fn f(c: bool) { if c { t := Box(5)  if c {} }  next() }`,
`fn next() { Box(6) }`. -/
def uwFns : List FnDef :=
  [{ name := "main", params := [], retNothing := true,
     body := .block (.cons (.expr (.callFn "junk" { ret := rtNone } [])) (.cons (.expr (.callFn "f" { ret := rtNone } [.bool false])) .nil)) },
   { name := "junk", params := [], retNothing := true, body := .block (.cons (.expr (.callFn "g" { ret := rtNone } [])) .nil) },
   { name := "g", params := [], retNothing := true, body := .block .nil },
   { name := "f", params := [(0, rtBool)], retNothing := true,
     body := .block (.cons (.ifs (.cond (.var 0 rtBool)
         (.cons (.asg true (.var 1 rtBox) (.callFn "Box" { ret := rtBox } [.int 5])) (.cons (.ifs (.cond (.var 0 rtBool) .nil .done)) .nil)) .done))
       (.cons (.expr (.callFn "next" { ret := rtNone } [])) .nil)) },
   { name := "next", params := [], retNothing := true, body := .block (.cons (.expr (.callFn "Box" { ret := rtBox } [.int 6])) .nil) },
   { name := "Box", params := [(0, rtInt)], body := .cons none "box" 0 }]

/-- The image, with code that the kernel can compute. -/
def uwImage : Image Word where
  code := peepWith false (cProg "alloc" "ioob" uwFns)
  opt := false
  base := 4096
  isize := fun _ => 4
  str := fun _ => 0
  cfun := fun _ _ _ => False
  rt := bumpCode "alloc"

theorem uwImage_eq : uwImage = bumpImage false "alloc" "ioob" uwFns (fun _ => 0) := by
  rw [uwImage, bumpImage, cProg_eq]

/-- `main` is entered; the stack below is all zero.  There is one object, the string "abcd" at address 32768. -/
def uwMach : Mach Word where
  reg := fun r => if r = .rsp then 65544 else 0
  mem := fun a => if a = 32768 then 9 else if a = 32776 then 0x64636261 else 0
  flags := none
  ext := 40960

theorem uwEntered : Entered uwImage "alloc" "ioob" uwFns (2 ^ 60) 1 uwMach := by
  have X : Ctx _ (bumpImage false "alloc" "ioob" uwFns (fun _ => 0)) _ 65536 (2 ^ 60) :=
    bump_ctx' _ (by decide +kernel) (by decide +kernel) (by decide +kernel) (by decide +kernel) (by decide +kernel) (by decide +kernel)
  rw [← uwImage_eq] at X
  exact ⟨X.loaded, X.nopanic, by decide +kernel, ⟨"main", by decide +kernel⟩, by decide, by decide⟩

/-- Up to the call of the allocator in `Box`, called by `next`, called by `f`. -/
def uwRun := actRun' uwImage (2 ^ 60) (bumpFn "alloc") 41 (1, uwMach, [])

theorem uwRun_pos : uwRun.map (·.1) = some 81 := by decide +kernel
theorem uwRun_code : uwImage.code[81]? = some (.ins (.call "alloc")) := by decide +kernel
theorem uwRun_len : uwRun.map (fun y => y.2.2.length) = some 3 := by decide +kernel
theorem uwRun_walk : uwRun.bind (fun y => walkFrames uwImage y.2.1.mem 65536 3 (y.2.1.reg .rbp)) = some [(65488, []), (65520, [2]), (65536, [])] := by
  decide +kernel
theorem uwRun_words : uwRun.map (fun y => [y.2.1.mem 32768, y.2.1.mem 32776, y.2.1.mem 65504]) = some [9, 0x64636261, 65520] := by decide +kernel

theorem uwFn (f : String) (m m' : Mach Word) (h : bumpFn "alloc" f m = some m') : uwImage.rt f m m' ∧ Kept (2 ^ 60) m m' := by
  rw [uwImage_eq]
  exact bumpFn_ok f m m' h

theorem uwActive (p : Nat) (m : Mach Word) (s : List (Cfg Word)) (h : uwRun = some (p, m, s)) :
    Active uwImage (2 ^ 60) (1, uwMach) (p, m) s := by
  rw [uwRun] at h
  exact actRun'_active uwFn (c0 := (1, uwMach)) Active.start h

theorem uwFacts' (im : Image Word) (y : Option (Nat × Mach Word × List (Cfg Word)))
    (ha : ∀ p m s, y = some (p, m, s) → Active im (2 ^ 60) (1, uwMach) (p, m) s)
    (e1 : y.map (·.1) = some 81) (e2 : y.map (fun y => y.2.2.length) = some 3)
    (e3 : y.bind (fun y => walkFrames im y.2.1.mem 65536 3 (y.2.1.reg .rbp)) = some [(65488, []), (65520, [2]), (65536, [])])
    (e5 : y.map (fun y => [y.2.1.mem 32768, y.2.1.mem 32776, y.2.1.mem 65504]) = some [9, 0x64636261, 65520]) :
    ∃ m s, Active im (2 ^ 60) (1, uwMach) (81, m) s ∧ s.length = 3 ∧
    walkFrames im m.mem 65536 3 (m.reg .rbp) = some [(65488, []), (65520, [2]), (65536, [])] ∧
    [m.mem 32768, m.mem 32776, m.mem 65504] = [9, 0x64636261, 65520] := by
  cases y with
  | none => cases e1
  | some y =>
    obtain ⟨p, m, s⟩ := y
    simp only [Option.map_some, Option.bind_some, Option.some.injEq] at e1 e2 e3 e5
    subst e1
    exact ⟨m, s, ha _ _ _ rfl, e2, e3, e5⟩

/-- A word that is not the address of an object. -/
theorem markPointer_wild {table : List Gc.TypeInfo} {p : Word} {h : Gc.Heap} (hr : Gc.isReal p = true) (hb : h.block (p - 16) = none) :
    Gc.markPointer table p h = some (.error .wild) := by
  rw [Gc.markPointer]
  simp only [hr, Bool.not_true, Bool.false_eq_true, if_false]
  show (StateT.bind (Gc.block (p - 16)) _) h = _
  simp only [StateT.bind, Gc.block, hb]
  rfl

/-- The collection in this execution: `gcMarkPointer` takes a word of the stack for an object. -/
theorem uw_wild {mem : Word → Word} {table : List Gc.TypeInfo} {hp : Gc.Heap} {runtime : Word} (hm : mem 65504 = 65520) (hb : hp.block 65504 = none) :
    Gc.gc table (gcOwn [(65488, []), (65520, [2]), (65536, [])]) (gcFrames mem [(65488, []), (65520, [2]), (65536, [])]) runtime hp =
      some (.error .wild) := by
  have h1 : Gc.isReal 65520 = true := by rw [Gc.isReal_iff]; decide
  have hw : Gc.markPointer table (mem ((65520 : Word) - BitVec.ofInt 64 (8 * 2))) hp = some (.error .wild) := by
    rw [show (65520 : Word) - BitVec.ofInt 64 (8 * 2) = 65504 from by decide, hm]
    exact markPointer_wild h1 (by rw [show (65520 : Word) - 16 = 65504 from by decide]; exact hb)
  simp only [Gc.gc, Gc.gcMark, gcOwn, gcFrames, Gc.markFrames, Gc.markSlots, List.head?_cons, Option.map_some, Option.getD_some, List.map_nil, List.map_cons,
    bind_assoc, pure_bind, List.head?_nil, Option.map_none, Option.getD_none]
  show (StateT.bind (Gc.markPointer table (mem ((65520 : Word) - BitVec.ofInt 64 (8 * 2)))) _) hp = _
  simp only [StateT.bind, hw]
  rfl

theorem uw_vars : ∀ fd ∈ uwFns, ∀ site ∈ fd.sites, ∀ p ∈ site.vars, p.2.kind.isPointer = false := by decide

theorem uwVars {s : List (Cfg Word)} {w : Word} (h : VarWord uwImage uwFns s w) : False := by
  obtain ⟨q, mq, fd, site, x, t, -, ⟨hm, _, _, _, _, hs⟩, hx, ht, -⟩ := h
  rw [uw_vars fd hm site (List.mem_of_getElem? hs) _ hx] at ht
  cases ht

/-- **C93 fails.**  The scope of `t` is not closed after the block (C40), so the map of the call of `next` has its slot.  The block is not
entered and the slot never written; it has a word that the calls of `junk` and `g` have left there, a saved `rbp`. -/
theorem C93_violated : ¬ C93_claim := by
  intro claim
  obtain ⟨m, s, ha, e2, e3, e5⟩ := uwFacts' uwImage uwRun uwActive uwRun_pos uwRun_len uwRun_walk uwRun_words
  simp only [List.cons.injEq, and_true] at e5
  have hr0 : Gc.isReal 0 = false := by
    have : ¬ Gc.isReal 0 = true := by rw [Gc.isReal_iff]; decide
    simpa using this
  obtain ⟨hp', h⟩ := claim uwImage "alloc" "ioob" uwFns (2 ^ 60) 1 uwMach uwEntered (by decide) (by decide) (by decide) 81 m s ha uwRun_code
    rwTable rwHeap [32752] 0 rwWF (rwHeapIs (by rw [e5.1, e5.2.1])) (fun h => by rw [hr0] at h; cases h) (fun w hw => (uwVars hw).elim)
    [(65488, []), (65520, [2]), (65536, [])] (by rw [e2, show uwMach.reg .rsp - 8 = 65536 from by decide +kernel]; exact e3)
  rw [Gc.Ends, uw_wild e5.2.2 (by decide +kernel)] at h
  cases h

/-! ### A case of C93_partial -/

/-- `fn f(s: string) { next() }`, `fn next() { Box(6) }`. -/
def uoFns : List FnDef :=
  [{ name := "f", params := [(0, rtStr)], retNothing := true, body := .block (.cons (.expr (.callFn "next" { ret := rtNone } [])) .nil) },
   { name := "next", params := [], retNothing := true, body := .block (.cons (.expr (.callFn "Box" { ret := rtBox } [.int 6])) .nil) },
   { name := "Box", params := [(0, rtInt)], body := .cons none "box" 0 }]

def uoImage : Image Word := { rwImage with code := peepWith false (cProg "alloc" "ioob" uoFns) }

theorem uoImage_eq : uoImage = bumpImage false "alloc" "ioob" uoFns (fun _ => 0) := by
  rw [uoImage, rwImage, bumpImage, cProg_eq]

theorem uoEntered : Entered uoImage "alloc" "ioob" uoFns (2 ^ 60) 1 rwMach := by
  have X : Ctx _ (bumpImage false "alloc" "ioob" uoFns (fun _ => 0)) _ 65536 (2 ^ 60) :=
    bump_ctx' _ (by decide) (by decide) (by decide) (by decide) (by decide) (by decide)
  rw [← uoImage_eq] at X
  exact ⟨X.loaded, X.nopanic, by decide +kernel, ⟨"f", by decide +kernel⟩, by decide, by decide⟩

def uoRun := actRun' uoImage (2 ^ 60) (bumpFn "alloc") 17 (1, rwMach, [])

theorem uoFacts' (im : Image Word) (y : Option (Nat × Mach Word × List (Cfg Word)))
    (ha : ∀ p m s, y = some (p, m, s) → Active im (2 ^ 60) (1, rwMach) (p, m) s)
    (e1 : y.map (·.1) = some 30)
    (e2 : y.map (fun y => y.2.2.map (fun c => (c.1, c.2.reg .rbp, c.2.mem 65528))) = some [(17, 65504, 32768), (4, 65536, 32768)])
    (e3 : y.bind (fun y => walkFrames im y.2.1.mem 65536 2 (y.2.1.reg .rbp)) = some [(65504, []), (65536, [1])]) :
    ∃ m s, Active im (2 ^ 60) (1, rwMach) (30, m) s ∧
    s.map (fun c => (c.1, c.2.reg .rbp, c.2.mem 65528)) = [(17, 65504, 32768), (4, 65536, 32768)] ∧
    walkFrames im m.mem 65536 2 (m.reg .rbp) = some [(65504, []), (65536, [1])] := by
  cases y with
  | none => cases e1
  | some y =>
    obtain ⟨p, m, s⟩ := y
    simp only [Option.map_some, Option.bind_some, Option.some.injEq] at e1 e2 e3
    subst e1
    exact ⟨m, s, ha _ _ _ rfl, e2, e3⟩

theorem uoFacts : ∃ m s, Active uoImage (2 ^ 60) (1, rwMach) (30, m) s ∧
    s.map (fun c => (c.1, c.2.reg .rbp, c.2.mem 65528)) = [(17, 65504, 32768), (4, 65536, 32768)] ∧
    walkFrames uoImage m.mem 65536 2 (m.reg .rbp) = some [(65504, []), (65536, [1])] := by
  refine uoFacts' uoImage uoRun ?_ (by decide +kernel) (by decide +kernel) (by decide +kernel)
  intro p m s h
  rw [uoRun] at h
  exact actRun'_active (by rw [uoImage_eq]; exact bumpFn_ok) (c0 := (1, rwMach)) Active.start h

theorem uoSite {fd : FnDef} {site : Site} (h : SiteAt uoImage uoFns 17 fd site) : site.vars = [] := by
  obtain ⟨h1, h2⟩ := siteAt_label (e := 11) (f := "next") (by decide +kernel) (by decide) (by decide +kernel) h
  have hm := h.mem
  rw [show uoFns = [uoFns[0], uoFns[1], uoFns[2]] from rfl] at hm
  simp only [List.mem_cons, List.not_mem_nil, or_false] at hm
  rcases hm with rfl | rfl | rfl
  · exact absurd h1 (by decide)
  · have : ∀ s ∈ (uoFns[1]).sites, s.vars = [] := by decide
    exact this _ (List.mem_of_getElem? h2)
  · exact absurd h1 (by decide)

theorem uo_vars : ∀ fd ∈ uoFns, ∀ site ∈ fd.sites, ∀ p ∈ site.vars, p.2.kind.isPointer = true → fd.slot p.1 = 1 := by decide

example : ∃ (m : Mach Word) (s : List (Cfg Word)) (hp' : Gc.Heap), Active uoImage (2 ^ 60) (1, rwMach) (30, m) s ∧
    Gc.Ends (Gc.gc rwTable (gcOwn [(65504, []), (65536, [1])]) (gcFrames m.mem [(65504, []), (65536, [1])]) 0) rwHeap () hp' := by
  obtain ⟨m, s, ha, e2, e3⟩ := uoFacts
  have hlen : s.length = 2 := by have := congrArg List.length e2; simpa using this
  obtain ⟨hp', h⟩ := C93_partial uoEntered (by decide) (by decide) (by decide) (by decide) ha (by decide +kernel) rwWF (runtime := 0)
    (by intro h; rw [Gc.isReal_iff] at h; exact absurd h (by decide))
    (by
      rintro w ⟨q, mq, fd, site, x, t, h1, h2, h3, h4, rfl⟩ -
      have := List.mem_map_of_mem (f := fun c : Cfg Word => (c.1, c.2.reg .rbp, c.2.mem 65528)) h1
      rw [e2] at this
      simp only [List.mem_cons, Prod.mk.injEq, List.not_mem_nil, or_false] at this
      rcases this with ⟨rfl, k1, k2⟩ | ⟨rfl, k1, k2⟩
      · rw [uoSite h2] at h3; cases h3
      · have hs : fd.slot x = 1 := by
          obtain ⟨hm, _, _, _, _, hs⟩ := h2
          exact uo_vars fd hm site (List.mem_of_getElem? hs) _ h3 h4
        rw [hs, k1, show (65536 : Word) - BitVec.ofNat 64 (8 * 1) = 65528 from by decide, k2]
        exact ⟨_, rfl⟩)
    (l := [(65504, []), (65536, [1])]) (by rw [hlen, show rwMach.reg .rsp - 8 = 65536 from by decide +kernel]; exact e3)
  exact ⟨m, s, hp', ha, h⟩

end Clara.Props
