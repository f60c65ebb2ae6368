import Verif.Props.Freed
/-
C90: the words that the collector is shown.

C70 and C71 say which frames it visits and that the variables in scope are among the words it finds there.  Here: which other
words there are, and what is wrong with one kind of them.
-/
namespace Clara.Props
open Clara.Gen
variable {σ : Type} {I : Image σ} {alloc ioob : String} {fds : List FnDef} {top p0 : Nat} {m0 : Mach σ}

/-! ### Specification -/

/-- The words of the pointer variables in scope at the pending calls. -/
def VarWord (I : Image σ) (fds : List FnDef) (s : List (Cfg σ)) (w : Word) : Prop :=
  ∃ q mq fd site x t, (q, mq) ∈ s ∧ SiteAt I fds q fd site ∧ (x, t) ∈ site.vars ∧ t.kind.isPointer = true ∧
    w = mq.mem (mq.reg .rbp - BitVec.ofNat 64 (8 * fd.slot x))

/-- The words of the pointer arguments that wait, at the pending calls, for a later argument of theirs, as they are in memory now:
the `j`th intermediate value is the `j`th word below the frame. -/
def WaitWord (I : Image σ) (fds : List FnDef) (mem : Word → Word) (s : List (Cfg σ)) (w : Word) : Prop :=
  ∃ q mq fd site j i t, (q, mq) ∈ s ∧ SiteAt I fds q fd site ∧ site.temps[j]? = some (.arg i t) ∧ t.kind.isPointer = true ∧
    w = mem (mq.reg .rbp - BitVec.ofNat 64 (8 * (fd.frame + 1 + j)))

/-- Nothing, or the address of an object. -/
def NoneOrObject (hp : Gc.Heap) (w : Word) : Prop := Gc.isReal w = true → ∃ x, hp.block (w - 16) = some x

mutual
/-- All arguments of calls are variables, numbers, truth values or calls that give no pointers. -/
def plainE : Expr → Bool
  | .int _ | .bool _ | .str _ | .typ _ | .fnRef _ _ _ | .var _ _ => true
  | .bin _ _ l r => plainE l && plainE r
  | .un _ _ e => plainE e
  | .tern _ c x y => plainE c && (plainE x && plainE y)
  | .arrLit _ e => plainE e
  | .callFn _ _ args => plainAs args
  | .callVar _ _ args => plainAs args
  | .callExpr e _ args => plainE e && plainAs args
  | .dot _ e _ => plainE e
  | .index _ a i => plainE a && plainE i
def plainAs : List Expr → Bool
  | [] => true
  | e :: es => plainE e && ((match e with | .var _ _ | .int _ | .bool _ => true | .callFn _ fi _ => !fi.ret.kind.isPointer | _ => false) && plainAs es)
end

mutual
def plainS : Stmt → Bool
  | .ret (some e) => plainE e
  | .ret none => true
  | .ifs c => plainC c
  | .asg _ l r => plainE l && plainE r
  | .loop c b => plainE c && plainSs b
  | .block b => plainSs b
  | .expr e => plainE e
def plainC : Chain → Bool
  | .done => true
  | .els b => plainSs b
  | .cond c b n => plainE c && (plainSs b && plainC n)
def plainSs : Stmts → Bool
  | .nil => true
  | .cons s ss => plainS s && plainSs ss
end

def plainBody : Body → Bool
  | .block ss => plainSs ss
  | .expr e => plainE e
  | .cons _ _ _ => true

/-- **The claim**, for functions whose arguments are variables and for which C40 holds: if the variables hold addresses of
objects, so do all words that the collector is shown. -/
def C90_claim : Prop :=
  ∀ (I : Image Word) (alloc ioob : String) (fds : List FnDef) (top p0 : Nat) (m0 : Mach Word), Entered I alloc ioob fds top p0 m0 →
    (∀ fd ∈ fds, fd.body.direct = true ∧ fd.body.neat = true ∧ plainBody fd.body = true ∧ (fd.params.map (·.1)).Nodup) →
    ∀ p m s i, Active I top (p0, m0) (p, m) s → I.code[p]? = some (.ins i) → i.isCall = true →
    ∀ l, walkFrames I m.mem (m0.reg .rsp - 8) s.length (m.reg .rbp) = some l →
    ∀ table hp addrs, Gc.WF table hp addrs → HeapIs hp m →
      (∀ w, VarWord I fds s w → NoneOrObject hp w) → ∀ w ∈ frameRoots m.mem l, NoneOrObject hp w

/-! ### What holds -/

/-- **C90, the words** (of functions whose root maps are exact, C40).  Every word that the collector is shown is that of a pointer variable in scope or of a pointer argument that
waits. -/
theorem C90_words_partial (E : Entered I alloc ioob fds top p0 m0) (hd : ∀ fd ∈ fds, fd.body.direct = true) (hn : ∀ fd ∈ fds, fd.body.neat = true)
    (hnd : ∀ fd ∈ fds, (fd.params.map (·.1)).Nodup) {p : Nat} {m : Mach σ} {s : List (Cfg σ)} (h : Active I top (p0, m0) (p, m) s) {i : Ins}
    (hi : I.code[p]? = some (.ins i)) (hc : i.isCall = true) {l : List (Word × List Nat)}
    (hw : walkFrames I m.mem (m0.reg .rsp - 8) s.length (m.reg .rbp) = some l) :
    ∀ w ∈ frameRoots m.mem l, VarWord I fds s w ∨ WaitWord I fds m.mem s w := by
  have hl := E.links h hi hc
  rw [hl.walk E.loaded.fits (Nat.le_refl _)] at hw
  cases hw
  intro w hw
  rw [frameRoots, List.mem_flatMap] at hw
  obtain ⟨fr, hfr, hw⟩ := hw
  obtain ⟨⟨q, mq⟩, hq, rfl⟩ := List.mem_map.1 hfr
  obtain ⟨⟨fd, lbl, h', j, i, r, hs⟩, hm⟩ := hl.all hq
  simp only [rootsAt_call E.loaded.fits hs, Option.getD_some] at hw
  obtain ⟨o, ho, rfl⟩ := List.mem_map.1 hw
  have hpos : q = h' + 3 + j := hs.pos
  have hlt := (List.getElem?_eq_some_iff.1 hs.map).1
  have hk := maps_get hs.map
  rw [FnDef.items, maps_peepL] at hk
  obtain ⟨e1, R, hR, e3⟩ := fn_exact alloc lbl (hd fd hs.mem) (hnd fd hs.mem) (hn fd hs.mem) (inner_panic hs.placed.fine)
  have hlen := (List.getElem?_eq_some_iff.1 hk).1
  rw [← all2_length e1] at hlen
  obtain ⟨site, hsite⟩ : ∃ site, fd.sites[_]? = some site := ⟨_, List.getElem?_eq_getElem hlen⟩
  obtain ⟨V, hV, rfl⟩ := all2_get e1 hsite hk
  have hat : SiteAt I fds q fd site := by
    refine ⟨hs.mem, h' + 1, hs.placed.label, by omega, ?_, ?_⟩
    · intro k g h1 h2 h3
      by_cases hk2 : k = h' + 2
      · rw [hk2, hs.placed.enter] at h3; cases h3
      · obtain ⟨n, rfl⟩ : ∃ n, k = h' + 3 + n := ⟨k - (h' + 3), by omega⟩
        rcases hs.placed.get (by omega) h3 with h4 | ⟨h4, -⟩
        · have h5 := label_mem (ev_get h4)
          rw [labels_items] at h5
          obtain ⟨_, _, h6⟩ := inner_local h5
          cases h6
        · omega
    · rw [hpos, code_slice hs.placed (by omega), List.countP_cons_of_neg (by simp [isMap]), List.countP_cons_of_neg (by simp [isMap])]
      exact hsite
  have hlow := hs.low
  have hroom : 8 * fd.dep I.opt alloc lbl j ≤ ((mq.reg .rbp).toNat : Int) := hs.room
  have hrsp : ((mq.reg .rsp).toNat : Int) = (mq.reg .rbp).toNat - 8 * fd.dep I.opt alloc lbl j := atDepth_toNat hs.at' (by omega) hroom
  have hle : (mq.reg .rbp).toNat < top := by
    have hb : (m0.reg .rsp - 8).toNat = (m0.reg .rsp).toNat - 8 := sub_toNat (n := 8) E.room
    have := hl.frame_le hq
    have := E.top
    have := E.room
    simp only at *
    omega
  obtain ⟨pr, hpr, rfl⟩ := List.mem_map.1 ho
  rcases List.mem_append.1 hpr with hpr | hpr
  · left
    rw [hV] at hpr
    obtain ⟨⟨x, t⟩, hx, rfl⟩ := List.mem_map.1 hpr
    obtain ⟨hx, ht⟩ := List.mem_filter.1 hx
    refine ⟨q, mq, fd, site, x, t, hq, hat, hx, ht, ?_⟩
    have hsl : fd.slot x ≤ fd.frame := slot_le (sites_syms (List.mem_of_getElem? hsite) hx)
    have ha := sub_toNat (w := mq.reg .rbp) (n := 8 * fd.slot x) (by omega)
    simp only [Nat.mul_div_cancel_left _ (show 0 < 8 by decide)]
    exact hm _ (by simp only; omega) (by omega)
  · right
    obtain ⟨k, i', h1, h2, h3⟩ := rootedFrom_mem.1 hpr
    refine ⟨q, mq, fd, site, k, i', pr.2, hq, hat, h1, h2, ?_⟩
    rw [h3, Nat.mul_div_cancel_left _ (show 0 < 8 by decide)]

/-- **C90, partial.**  If the pointer variables in scope and the pointer arguments that wait hold addresses of objects, then all words
that the collector is shown do; the collection ends, and what is reachable from the variables survives it. -/
theorem C90_partial (E : Entered I alloc ioob fds top p0 m0) (hd : ∀ fd ∈ fds, fd.body.direct = true) (hn : ∀ fd ∈ fds, fd.body.neat = true)
    (hnd : ∀ fd ∈ fds, (fd.params.map (·.1)).Nodup) {p : Nat} {m : Mach σ} {s : List (Cfg σ)} (h : Active I top (p0, m0) (p, m) s) {i : Ins}
    (hi : I.code[p]? = some (.ins i)) (hc : i.isCall = true) {table : List Gc.TypeInfo} {hp : Gc.Heap} {addrs : List Word}
    (wf : Gc.WF table hp addrs) {runtime : Word} (hr : NoneOrObject hp runtime) (hv : ∀ w, VarWord I fds s w → NoneOrObject hp w)
    (ha : ∀ w, WaitWord I fds m.mem s w → NoneOrObject hp w) :
    ∃ l, walkFrames I m.mem (m0.reg .rsp - 8) s.length (m.reg .rbp) = some l ∧ (∀ w ∈ frameRoots m.mem l, NoneOrObject hp w) ∧
      ∃ hp', Gc.Ends (Gc.gc table (gcOwn l) (gcFrames m.mem l) runtime) hp () hp' ∧
        ∀ q mq, (q, mq) ∈ s → ∃ fd site, SiteAt I fds q fd site ∧ ∀ x t, (x, t) ∈ site.vars → t.kind.isPointer = true →
          ∀ b, Gc.Reach table hp [mq.mem (mq.reg .rbp - BitVec.ofNat 64 (8 * fd.slot x))] b → b ∈ addrs →
            ∀ y, hp.block b = some y → ∃ n, hp'.block b = some { y with next := n } := by
  obtain ⟨l, h1, h2⟩ := C71_survives_partial E hd hnd h hi hc wf runtime
  have hroots : ∀ w ∈ frameRoots m.mem l, NoneOrObject hp w := fun w hw =>
    (C90_words_partial E hd hn hnd h hi hc h1 w hw).elim (hv w) (ha w)
  refine ⟨l, h1, hroots, h2 ?_⟩
  intro w hw
  rcases List.mem_append.1 hw with hw | hw
  · exact hroots w hw
  · rw [List.mem_singleton.1 hw]; exact hr

/-! ### What does not hold -/

/-- `fn f(s: string) { printf(s, next()) }`, `fn next() int { Box(6) return 0 }`; `printf` is external, variadic and takes raw values
(`main.go` 218-219). -/
def rwFns : List FnDef :=
  [{ name := "f", params := [(0, rtStr)], retNothing := true,
     body := .block (.cons (.expr (.callFn "printf" { ext := true, raw := true, variadic := true, ret := ⟨.nothing, 0⟩ } [.var 0 rtStr, .callFn "next" { ret := rtInt } []])) .nil) },
   { name := "next", params := [], body := .block (.cons (.expr (.callFn "Box" { ret := rtBox } [.int 6])) (.cons (.ret (some (.int 0))) .nil)) },
   { name := "Box", params := [(0, rtInt)], body := .cons none "box" 0 }]

/-- The image, with code that the kernel can compute. -/
def rwImage : Image Word where
  code := peepWith false (cProg "alloc" "ioob" rwFns)
  opt := false
  base := 4096
  isize := fun _ => 4
  str := fun _ => 0
  cfun := fun _ _ _ => False
  rt := bumpCode "alloc"

theorem rwImage_eq : rwImage = bumpImage false "alloc" "ioob" rwFns (fun _ => 0) := by
  rw [rwImage, bumpImage, cProg_eq]

/-- `f` is entered with the string "abcd" at address 32768. -/
def rwMach : Mach Word where
  reg := fun r => if r = .rsp then 65544 else if r = .rdi then 32768 else 0
  mem := fun a => if a = 32768 then 9 else if a = 32776 then 0x64636261 else 0
  flags := none
  ext := 40960

theorem rwEntered : Entered rwImage "alloc" "ioob" rwFns (2 ^ 60) 1 rwMach := by
  have X : Ctx _ (bumpImage false "alloc" "ioob" rwFns (fun _ => 0)) _ 65536 (2 ^ 60) :=
    bump_ctx' _ (by decide) (by decide) (by decide) (by decide) (by decide) (by decide)
  rw [← rwImage_eq] at X
  exact ⟨X.loaded, X.nopanic, by decide +kernel, ⟨"f", by decide +kernel⟩, by decide, by decide⟩

/-- Up to the call of the allocator in `Box`, called by `next`. -/
def rwRun := actRun' rwImage (2 ^ 60) (bumpFn "alloc") 22 (1, rwMach, [])

theorem rwRun_pos : rwRun.map (·.1) = some 44 := by decide +kernel
theorem rwRun_code : rwImage.code[44]? = some (.ins (.call "alloc")) := by decide +kernel
theorem rwRun_calls : rwRun.map (fun y => y.2.2.map (fun c => (c.1, c.2.reg .rbp, c.2.mem 65528))) = some [(28, 65488, 32768), (9, 65536, 32768)] := by
  decide +kernel
theorem rwRun_walk : rwRun.bind (fun y => walkFrames rwImage y.2.1.mem 65536 2 (y.2.1.reg .rbp)) = some [(65488, []), (65536, [1, 3])] := by
  decide +kernel
theorem rwRun_roots : rwRun.map (fun y => frameRoots y.2.1.mem [(65488, []), (65536, [1, 3])]) = some [32768, 32776] := by decide +kernel
theorem rwRun_words : rwRun.map (fun y => [y.2.1.mem 32768, y.2.1.mem 32776]) = some [9, 0x64636261] := by decide +kernel

theorem rwFn (f : String) (m m' : Mach Word) (h : bumpFn "alloc" f m = some m') : rwImage.rt f m m' ∧ Kept (2 ^ 60) m m' := by
  rw [rwImage_eq]
  exact bumpFn_ok f m m' h

theorem rwActive (p : Nat) (m : Mach Word) (s : List (Cfg Word)) (h : rwRun = some (p, m, s)) :
    Active rwImage (2 ^ 60) (1, rwMach) (p, m) s := by
  rw [rwRun] at h
  exact actRun'_active rwFn (c0 := (1, rwMach)) Active.start h

theorem rwFacts' (im : Image Word) (y : Option (Nat × Mach Word × List (Cfg Word)))
    (ha : ∀ p m s, y = some (p, m, s) → Active im (2 ^ 60) (1, rwMach) (p, m) s)
    (e1 : y.map (·.1) = some 44)
    (e2 : y.map (fun y => y.2.2.map (fun c => (c.1, c.2.reg .rbp, c.2.mem 65528))) = some [(28, 65488, 32768), (9, 65536, 32768)])
    (e3 : y.bind (fun y => walkFrames im y.2.1.mem 65536 2 (y.2.1.reg .rbp)) = some [(65488, []), (65536, [1, 3])])
    (e4 : y.map (fun y => frameRoots y.2.1.mem [(65488, []), (65536, [1, 3])]) = some [32768, 32776])
    (e5 : y.map (fun y => [y.2.1.mem 32768, y.2.1.mem 32776]) = some [9, 0x64636261]) :
    ∃ m s, Active im (2 ^ 60) (1, rwMach) (44, m) s ∧
    s.map (fun c => (c.1, c.2.reg .rbp, c.2.mem 65528)) = [(28, 65488, 32768), (9, 65536, 32768)] ∧
    walkFrames im m.mem 65536 2 (m.reg .rbp) = some [(65488, []), (65536, [1, 3])] ∧
    frameRoots m.mem [(65488, []), (65536, [1, 3])] = [32768, 32776] ∧ [m.mem 32768, m.mem 32776] = [9, 0x64636261] := by
  cases y with
  | none => cases e1
  | some y =>
    obtain ⟨p, m, s⟩ := y
    simp only [Option.map_some, Option.bind_some, Option.some.injEq] at e1 e2 e3 e4 e5
    subst e1
    exact ⟨m, s, ha _ _ _ rfl, e2, e3, e4, e5⟩

/-- The execution up to the call of the allocator. -/
theorem rwFacts : ∃ m s, Active rwImage (2 ^ 60) (1, rwMach) (44, m) s ∧
    s.map (fun c => (c.1, c.2.reg .rbp, c.2.mem 65528)) = [(28, 65488, 32768), (9, 65536, 32768)] ∧
    walkFrames rwImage m.mem 65536 2 (m.reg .rbp) = some [(65488, []), (65536, [1, 3])] ∧
    frameRoots m.mem [(65488, []), (65536, [1, 3])] = [32768, 32776] ∧ [m.mem 32768, m.mem 32776] = [9, 0x64636261] :=
  rwFacts' rwImage rwRun rwActive rwRun_pos rwRun_calls rwRun_walk rwRun_roots rwRun_words

def rwTable : List Gc.TypeInfo := [.struct [], .string]

/-- The string. -/
def rwHeap : Gc.Heap where
  block := fun b => if b = 32752 then some ⟨0, Gc.newHeader 1, [9, 0x64636261]⟩ else none
  blocks := 32752

theorem rwHeap_cases {b : Word} {x : Gc.Block} (h : rwHeap.block b = some x) : b = 32752 ∧ x = ⟨0, Gc.newHeader 1, [9, 0x64636261]⟩ := by
  simp only [rwHeap] at h
  split at h
  · rename_i e; cases h; exact ⟨e, rfl⟩
  · cases h

theorem rwHeap_points {b : Word} {x : Gc.Block} (h : rwHeap.block b = some x) {w : Word} (hp : Gc.Points rwTable x w) : False := by
  obtain ⟨-, rfl⟩ := rwHeap_cases h
  have ht : Gc.typeId (Gc.newHeader 1) = 1 := by decide +kernel
  cases hp with
  | field id roots r ht' hi =>
    rw [ht] at ht'
    have : id = 1 := by omega
    subst this
    cases hi
  | elem id len i ht' hi =>
    rw [ht] at ht'
    have : id = 1 := by omega
    subst this
    cases hi

theorem rwWF : Gc.WF rwTable rwHeap [32752] where
  nodup := by decide +kernel
  alloc := by
    intro b
    constructor
    · intro hb
      rw [List.mem_singleton] at hb
      subst hb
      exact ⟨_, rfl, by decide +kernel⟩
    · rintro ⟨x, hx, -⟩
      obtain ⟨rfl, -⟩ := rwHeap_cases hx
      decide
  valid := by
    intro b hb
    rw [List.mem_singleton] at hb
    subst hb
    exact valid_of (by decide) (by decide)
  shaped := by
    intro b x hx
    obtain ⟨rfl, rfl⟩ := rwHeap_cases hx
    exact ⟨1, .string, by decide +kernel, rfl, fun _ => trivial⟩
  closed := by
    intro b x w hx _ hp _
    exact (rwHeap_points hx hp).elim
  unmarked := by
    intro b x hx
    obtain ⟨-, rfl⟩ := rwHeap_cases hx
    decide
  chain := ⟨rfl, _, rfl, rfl⟩

theorem rwHeapIs {m : Mach Word} (h : [m.mem 32768, m.mem 32776] = [9, 0x64636261]) : HeapIs rwHeap m := by
  intro b x hx i w hw
  simp only [List.cons.injEq, and_true] at h
  obtain ⟨rfl, rfl⟩ := rwHeap_cases hx
  match i, hw with
  | 0, hw =>
    cases hw
    rw [show (32752 : Word) + 16 + BitVec.ofNat 64 (8 * 0) = 32768 from by decide]
    exact h.1
  | 1, hw =>
    cases hw
    rw [show (32752 : Word) + 16 + BitVec.ofNat 64 (8 * 1) = 32776 from by decide]
    exact h.2

/-- The function whose code a position is in is the one whose label is the last before. -/
theorem siteAt_label {q e : Nat} {f : String} (he : I.code[e]? = some (.label (.fn f))) (hq : e ≤ q)
    (hno : ((I.code.take (q + 1)).drop (e + 1)).all (fun x => match x with | .label (.fn _) => false | _ => true) = true) {fd : FnDef} {site : Site}
    (h : SiteAt I fds q fd site) : fd.name = f ∧ fd.sites[((I.code.take (q + 1)).drop e).countP isMap]? = some site := by
  obtain ⟨-, e', h1, h2, h3, h4⟩ := h
  have : e' = e := by
    rcases Nat.lt_trichotomy e' e with h | h | h
    · exact absurd he (h3 e f h hq)
    · exact h
    · have h5 : ((I.code.take (q + 1)).drop (e + 1))[e' - (e + 1)]? = some (.label (.fn fd.name)) := by
        rw [List.getElem?_drop, show e + 1 + (e' - (e + 1)) = e' by omega, List.getElem?_take_of_lt (by omega)]
        exact h1
      have := List.all_eq_true.1 hno _ (List.mem_of_getElem? h5)
      cases this
  subst this
  rw [he] at h1
  cases h1
  exact ⟨rfl, h4⟩

theorem rwSite9 {fd : FnDef} {site : Site} (h : SiteAt rwImage rwFns 9 fd site) : site.vars = [(0, rtStr)] ∧ fd.slot 0 = 1 := by
  obtain ⟨h1, h2⟩ := siteAt_label (e := 1) (f := "f") (by decide +kernel) (by decide) (by decide +kernel) h
  rw [show ((rwImage.code.take (9 + 1)).drop 1).countP isMap = 0 from by decide +kernel] at h2
  have hm := h.mem
  rw [show rwFns = [rwFns[0], rwFns[1], rwFns[2]] from rfl] at hm
  simp only [List.mem_cons, List.not_mem_nil, or_false] at hm
  rcases hm with rfl | rfl | rfl
  · rw [show (rwFns[0]).sites[0]? = some ⟨[(0, rtStr)], [.arg 0 rtStr]⟩ from by decide +kernel] at h2
    cases h2
    exact ⟨rfl, by decide +kernel⟩
  · exact absurd h1 (by decide)
  · exact absurd h1 (by decide)

theorem rwSite28 {fd : FnDef} {site : Site} (h : SiteAt rwImage rwFns 28 fd site) : site.vars = [] := by
  obtain ⟨h1, h2⟩ := siteAt_label (e := 22) (f := "next") (by decide +kernel) (by decide) (by decide +kernel) h
  rw [show ((rwImage.code.take (28 + 1)).drop 22).countP isMap = 0 from by decide +kernel] at h2
  have hm := h.mem
  rw [show rwFns = [rwFns[0], rwFns[1], rwFns[2]] from rfl] at hm
  simp only [List.mem_cons, List.not_mem_nil, or_false] at hm
  rcases hm with rfl | rfl | rfl
  · exact absurd h1 (by decide)
  · rw [show (rwFns[1]).sites[0]? = some ⟨[], []⟩ from by decide +kernel] at h2
    cases h2
    rfl
  · exact absurd h1 (by decide)

theorem rw_real : Gc.isReal 32776 = true := by rw [Gc.isReal_iff]; decide

/-- The only pointer variable in scope is `s` of `f`. -/
theorem rwVars {s : List (Cfg Word)} (hs : s.map (fun c => (c.1, c.2.reg .rbp, c.2.mem 65528)) = [(28, 65488, 32768), (9, 65536, 32768)]) {w : Word}
    (h : VarWord rwImage rwFns s w) : w = 32768 := by
  obtain ⟨q, mq, fd, site, x, t, hq, hat, hx, -, rfl⟩ := h
  have := List.mem_map_of_mem (f := fun c : Cfg Word => (c.1, c.2.reg .rbp, c.2.mem 65528)) hq
  rw [hs] at this
  simp only [List.mem_cons, Prod.mk.injEq, List.not_mem_nil, or_false] at this
  rcases this with ⟨rfl, h2, h3⟩ | ⟨rfl, h2, h3⟩
  · rw [rwSite28 hat] at hx; cases hx
  · obtain ⟨k1, k2⟩ := rwSite9 hat
    rw [k1, List.mem_singleton] at hx
    cases hx
    rw [k2, h2]
    exact h3

/-- **C90 fails.**  `printf(s, next())`, or any external function with `#[RawValues]`: the address in `rdi` is moved behind the length of the
string when it has been put there, before the next argument is evaluated; there it is pushed as a pointer that the collector is to
see.  The collection in `next` is shown an address that is not that of an object. -/
theorem C90_violated : ¬ C90_claim := by
  intro claim
  obtain ⟨m, s, ha, e2, e3, e4, e5⟩ := rwFacts
  have hlen : s.length = 2 := by have := congrArg List.length e2; simpa using this
  obtain ⟨x, hx⟩ := claim rwImage "alloc" "ioob" rwFns (2 ^ 60) 1 rwMach rwEntered (by decide) 44 m s _ ha rwRun_code rfl
    [(65488, []), (65536, [1, 3])] (by rw [hlen, show rwMach.reg .rsp - 8 = 65536 from by decide +kernel]; exact e3)
    rwTable rwHeap [32752] rwWF (rwHeapIs e5) (fun w hw _ => by rw [rwVars e2 hw]; exact ⟨_, rfl⟩) 32776 (by rw [e4]; simp) rw_real
  cases (rwHeap_cases hx).1

/-- What `gcMarkPointer` and `setMark` do to memory for an address that is shown to them, before the match on the type
(`gc.clara` 43-63, 146-151): the word before the object is taken for the header, an int. -/
def markWord (mem : Word → Word) (p : Word) : Word → Word :=
  let header := ((mem (p - 8)).sshiftRight 1).setWidth 63
  if Gc.isReal p = false || Gc.isReadOnly header || Gc.isMarked header then mem
  else fun a => if a = p - 8 then ((header ||| 1#63).setWidth 64 <<< 1) ||| 1 else mem a

/-- **What it does.**  In this execution the length of the string `s` is 4 when the collector is called; marking one of the words that
it is shown makes it 5. -/
theorem C90_violated_length : ∃ m s, Active rwImage (2 ^ 60) (1, rwMach) (44, m) s ∧ rwImage.code[44]? = some (.ins (.call "alloc")) ∧
    ∃ l, walkFrames rwImage m.mem (rwMach.reg .rsp - 8) s.length (m.reg .rbp) = some l ∧
      ∃ w ∈ frameRoots m.mem l, Gc.intOf (m.mem 32768) = 4 ∧ Gc.intOf (markWord m.mem w 32768) = 5 := by
  obtain ⟨m, s, ha, e2, e3, e4, e5⟩ := rwFacts
  have hlen : s.length = 2 := by have := congrArg List.length e2; simpa using this
  refine ⟨m, s, ha, rwRun_code, [(65488, []), (65536, [1, 3])],
    by rw [hlen, show rwMach.reg .rsp - 8 = 65536 from by decide +kernel]; exact e3, 32776, by rw [e4]; simp, ?_⟩
  simp only [List.cons.injEq, and_true] at e5
  refine ⟨by rw [e5.1]; decide +kernel, ?_⟩
  simp only [markWord, rw_real, show (32776 : Word) - 8 = 32768 from by decide, e5.1]
  rw [if_neg (by decide +kernel), if_pos rfl]
  decide +kernel

/-! ### A case of C90_partial: the same program with a function that takes Clara's values -/

def okFns : List FnDef :=
  [{ name := "f", params := [(0, rtStr)], retNothing := true,
     body := .block (.cons (.expr (.callFn "ext" { ext := true, raw := false, ret := ⟨.nothing, 0⟩ } [.var 0 rtStr, .callFn "next" { ret := rtInt } []])) .nil) },
   { name := "next", params := [], body := .block (.cons (.expr (.callFn "Box" { ret := rtBox } [.int 6])) (.cons (.ret (some (.int 0))) .nil)) },
   { name := "Box", params := [(0, rtInt)], body := .cons none "box" 0 }]

def okImage : Image Word := { rwImage with code := peepWith false (cProg "alloc" "ioob" okFns) }

theorem okImage_eq : okImage = bumpImage false "alloc" "ioob" okFns (fun _ => 0) := by
  rw [okImage, rwImage, bumpImage, cProg_eq]

theorem okEntered : Entered okImage "alloc" "ioob" okFns (2 ^ 60) 1 rwMach := by
  have X : Ctx _ (bumpImage false "alloc" "ioob" okFns (fun _ => 0)) _ 65536 (2 ^ 60) :=
    bump_ctx' _ (by decide) (by decide) (by decide) (by decide) (by decide) (by decide)
  rw [← okImage_eq] at X
  exact ⟨X.loaded, X.nopanic, by decide +kernel, ⟨"f", by decide +kernel⟩, by decide, by decide⟩

def okRun := actRun' okImage (2 ^ 60) (bumpFn "alloc") 21 (1, rwMach, [])

theorem okFacts' (im : Image Word) (y : Option (Nat × Mach Word × List (Cfg Word)))
    (ha : ∀ p m s, y = some (p, m, s) → Active im (2 ^ 60) (1, rwMach) (p, m) s)
    (e1 : y.map (·.1) = some 41)
    (e2 : y.map (fun y => y.2.2.map (fun c => (c.1, c.2.reg .rbp, c.2.mem 65528))) = some [(25, 65488, 32768), (8, 65536, 32768)])
    (e3 : y.map (fun y => y.2.1.mem 65512) = some 32768) :
    ∃ m s, Active im (2 ^ 60) (1, rwMach) (41, m) s ∧
    s.map (fun c => (c.1, c.2.reg .rbp, c.2.mem 65528)) = [(25, 65488, 32768), (8, 65536, 32768)] ∧ m.mem 65512 = 32768 := by
  cases y with
  | none => cases e1
  | some y =>
    obtain ⟨p, m, s⟩ := y
    simp only [Option.map_some, Option.some.injEq] at e1 e2 e3
    subst e1
    exact ⟨m, s, ha _ _ _ rfl, e2, e3⟩

theorem okFacts : ∃ m s, Active okImage (2 ^ 60) (1, rwMach) (41, m) s ∧
    s.map (fun c => (c.1, c.2.reg .rbp, c.2.mem 65528)) = [(25, 65488, 32768), (8, 65536, 32768)] ∧ m.mem 65512 = 32768 := by
  refine okFacts' okImage okRun ?_ (by decide +kernel) (by decide +kernel) (by decide +kernel)
  intro p m s h
  rw [okRun] at h
  exact actRun'_active (by rw [okImage_eq]; exact bumpFn_ok) (c0 := (1, rwMach)) Active.start h

theorem okSite8 {fd : FnDef} {site : Site} (h : SiteAt okImage okFns 8 fd site) :
    site = ⟨[(0, rtStr)], [.arg 0 rtStr]⟩ ∧ fd.slot 0 = 1 ∧ fd.frame = 2 := by
  obtain ⟨h1, h2⟩ := siteAt_label (e := 1) (f := "f") (by decide +kernel) (by decide) (by decide +kernel) h
  rw [show ((okImage.code.take (8 + 1)).drop 1).countP isMap = 0 from by decide +kernel] at h2
  have hm := h.mem
  rw [show okFns = [okFns[0], okFns[1], okFns[2]] from rfl] at hm
  simp only [List.mem_cons, List.not_mem_nil, or_false] at hm
  rcases hm with rfl | rfl | rfl
  · rw [show (okFns[0]).sites[0]? = some ⟨[(0, rtStr)], [.arg 0 rtStr]⟩ from by decide +kernel] at h2
    cases h2
    exact ⟨rfl, by decide +kernel, by decide +kernel⟩
  · exact absurd h1 (by decide)
  · exact absurd h1 (by decide)

theorem okSite25 {fd : FnDef} {site : Site} (h : SiteAt okImage okFns 25 fd site) : site = ⟨[], []⟩ := by
  obtain ⟨h1, h2⟩ := siteAt_label (e := 19) (f := "next") (by decide +kernel) (by decide) (by decide +kernel) h
  rw [show ((okImage.code.take (25 + 1)).drop 19).countP isMap = 0 from by decide +kernel] at h2
  have hm := h.mem
  rw [show okFns = [okFns[0], okFns[1], okFns[2]] from rfl] at hm
  simp only [List.mem_cons, List.not_mem_nil, or_false] at hm
  rcases hm with rfl | rfl | rfl
  · exact absurd h1 (by decide)
  · rw [show (okFns[1]).sites[0]? = some ⟨[], []⟩ from by decide +kernel] at h2
    cases h2
    rfl
  · exact absurd h1 (by decide)

example : ∃ (m : Mach Word) (s : List (Cfg Word)) (l : List (Word × List Nat)) (hp' : Gc.Heap), Active okImage (2 ^ 60) (1, rwMach) (41, m) s ∧ s.length = 2 ∧
    walkFrames okImage m.mem (rwMach.reg .rsp - 8) s.length (m.reg .rbp) = some l ∧
    Gc.Ends (Gc.gc rwTable (gcOwn l) (gcFrames m.mem l) 0) rwHeap () hp' := by
  obtain ⟨m, s, ha, e2, e3⟩ := okFacts
  have hlen : s.length = 2 := by have := congrArg List.length e2; simpa using this
  have hq : ∀ {q mq}, (q, mq) ∈ s → (q = 25 ∧ mq.reg .rbp = 65488 ∧ mq.mem 65528 = 32768) ∨ (q = 8 ∧ mq.reg .rbp = 65536 ∧ mq.mem 65528 = 32768) := by
    intro q mq hq
    have := List.mem_map_of_mem (f := fun c : Cfg Word => (c.1, c.2.reg .rbp, c.2.mem 65528)) hq
    rw [e2] at this
    simpa only [List.mem_cons, Prod.mk.injEq, List.not_mem_nil, or_false] using this
  obtain ⟨l, h1, -, hp', h2, -⟩ := C90_partial okEntered (by decide) (by decide) (by decide) ha (i := .call "alloc") (by decide +kernel) rfl rwWF
    (runtime := 0) (by intro h; rw [Gc.isReal_iff] at h; exact absurd h (by decide))
    (by
      rintro w ⟨q, mq, fd, site, x, t, h1, h2, h3, -, rfl⟩ -
      rcases hq h1 with ⟨rfl, k1, k2⟩ | ⟨rfl, k1, k2⟩
      · rw [okSite25 h2] at h3; cases h3
      · obtain ⟨rfl, j2, -⟩ := okSite8 h2
        rw [List.mem_singleton] at h3
        cases h3
        rw [j2, k1, show (65536 : Word) - BitVec.ofNat 64 (8 * 1) = 65528 from by decide, k2]
        exact ⟨_, rfl⟩)
    (by
      rintro w ⟨q, mq, fd, site, j, i, t, h1, h2, h3, -, rfl⟩ -
      rcases hq h1 with ⟨rfl, k1, k2⟩ | ⟨rfl, k1, k2⟩
      · rw [okSite25 h2] at h3; cases h3
      · obtain ⟨rfl, -, j2⟩ := okSite8 h2
        match j, h3 with
        | 0, _ =>
          rw [j2, k1, show (65536 : Word) - BitVec.ofNat 64 (8 * (2 + 1 + 0)) = 65512 from by decide, e3]
          exact ⟨_, rfl⟩)
  exact ⟨m, s, l, hp', ha, hlen, h1, h2⟩

end Clara.Props
