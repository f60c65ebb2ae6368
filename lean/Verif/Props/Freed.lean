import Verif.Props.Stack
/-
C73: objects that a program goes on to use.

C44 shows that the value of an assignment is in no root map while the left side is evaluated.  Here this is followed through
one execution: the collection frees the object, and the program then stores its address.
-/
namespace Clara.Props
open Clara.Gen
variable {σ : Type} {I : Image σ} {alloc ioob : String} {fds : List FnDef} {top p0 : Nat} {m0 : Mach σ}

/-- Executions without calls. -/
inductive Quiet (I : Image σ) : Cfg σ → Cfg σ → Prop
  | refl {c} : Quiet I c c
  | step {c p m p' m'} : Quiet I c (p, m) → Step I (p, m) (p', m') → (∀ i, I.code[p]? = some (.ins i) → i.isCall = false) →
      Quiet I c (p', m')

/-- The words of the objects are those in the memory of the machine. -/
def HeapIs (hp : Gc.Heap) (m : Mach σ) : Prop :=
  ∀ b x, hp.block b = some x → ∀ (i : Nat) (w : Word), x.body[i]? = some w → m.mem (b + 16 + BitVec.ofNat 64 (8 * i)) = w

/-- **The claim of C73.**  When the allocator is called and a collection runs, the addresses of objects that the program goes on
to store into objects (before its next call, and other than the new object) are addresses of objects that are still
there. -/
def C73_claim : Prop :=
  ∀ (I : Image Word) (alloc ioob : String) (fds : List FnDef) (top p0 : Nat) (m0 : Mach Word), Entered I alloc ioob fds top p0 m0 →
    (∀ fd ∈ fds, fd.body.direct = true) → (∀ fd ∈ fds, (fd.params.map (·.1)).Nodup) →
    ∀ p m s, Active I top (p0, m0) (p, m) s → I.code[p]? = some (.ins (.call alloc)) →
    ∀ l, walkFrames I m.mem (m0.reg .rsp - 8) s.length (m.reg .rbp) = some l →
    ∀ table hp addrs runtime, Gc.WF table hp addrs → HeapIs hp m →
      (∀ w ∈ frameRoots m.mem l ++ [runtime], Gc.isReal w = true → ∃ x, hp.block (w - 16) = some x) →
    ∀ hp', Gc.Ends (Gc.gc table (gcOwn l) (gcFrames m.mem l) runtime) hp () hp' →
    ∀ m1, Step I (p, m) (p + 2, m1) → ∀ q mq r a, Quiet I (p + 2, m1) (q, mq) → I.code[q]? = some (.ins (.mov (.reg r) (.mem a))) →
      a.base ≠ .rbp → mq.reg r ≠ m1.reg .rax → ∀ b ∈ addrs, mq.reg r = b + 16 → ∃ x, hp'.block b = some x

/-! ### Computing executions -/

def storeOk (top : Nat) (m : Mach σ) : Ins → Bool
  | .mov _ (.mem a) => decide (a.base = .rbp ∨ ¬ ((m.reg .rbp).toNat ≤ (m.ea a).toNat ∧ (m.ea a).toNat < top))
  | _ => true

/-- A step that is no call; the last component tells returns. -/
def quietStep (I : Image σ) (c : Cfg σ) : Option (Cfg σ × Bool) :=
  match I.code[c.1]? with
  | some (.label l) => if l = .ioob then none else some ((c.1 + 1, c.2), false)
  | some (.ins (.jmp l)) => (I.find l).map (fun q => ((q, c.2), false))
  | some (.ins (.jcc k l)) =>
    match c.2.flags with
    | some f => if k.holds f then (I.find l).map (fun q => ((q, c.2), false)) else some ((c.1 + 1, c.2), false)
    | none => none
  | some (.ins (.jmpReg r)) => (I.pos (c.2.reg r)).map (fun q => ((q, c.2), true))
  | some (.ins i) => if i.straight then (exec I.abs c.2 i).map (fun m => ((c.1 + 1, m), false)) else none
  | _ => none

theorem quietStep_step {c c' : Cfg σ} {b : Bool} (h : quietStep I c = some (c', b)) :
    Step I c c' ∧ I.code[c.1]? ≠ some (.label .ioob) ∧
      (∀ i, I.code[c.1]? = some (.ins i) → i.isCall = false ∧ i.isReturn = b) ∧
      (b = true → ∃ i, I.code[c.1]? = some (.ins i)) := by
  obtain ⟨p, m⟩ := c
  unfold quietStep at h
  simp only at h ⊢
  split at h
  · rename_i l hl
    split at h
    · cases h
    · rename_i hne
      cases h
      refine ⟨.label hl, by rw [hl]; simpa using hne, by rw [hl]; simp, by simp⟩
  · rename_i l hl
    cases hf : I.find l with
    | none => rw [hf] at h; cases h
    | some q =>
      rw [hf] at h; cases h
      exact ⟨.jmp hl hf, by rw [hl]; simp, by rw [hl]; rintro _ ⟨⟩; exact ⟨rfl, rfl⟩, by simp⟩
  · rename_i k l hl
    cases hg : m.flags with
    | none => rw [hg] at h; cases h
    | some f =>
      rw [hg] at h
      simp only at h
      split at h
      · rename_i hk
        cases hf : I.find l with
        | none => rw [hf] at h; cases h
        | some q =>
          rw [hf] at h; cases h
          exact ⟨.taken hl hg hk hf, by rw [hl]; simp, by rw [hl]; rintro _ ⟨⟩; exact ⟨rfl, rfl⟩, by simp⟩
      · rename_i hk
        cases h
        exact ⟨.fall hl hg (by simpa using hk), by rw [hl]; simp, by rw [hl]; rintro _ ⟨⟩; exact ⟨rfl, rfl⟩, by simp⟩
  · rename_i r hl
    cases hf : I.pos (m.reg r) with
    | none => rw [hf] at h; cases h
    | some q =>
      rw [hf] at h; cases h
      exact ⟨.jmpReg hl hf, by rw [hl]; simp, by rw [hl]; rintro _ ⟨⟩; exact ⟨rfl, rfl⟩, fun _ => ⟨_, hl⟩⟩
  · rename_i i _ _ _ hl
    split at h
    · rename_i hs
      cases hx : exec I.abs m i with
      | none => rw [hx] at h; cases h
      | some m' =>
        rw [hx] at h; cases h
        refine ⟨.straight hl hs hx, by rw [hl]; simp, ?_, by simp⟩
        rw [hl]
        rintro _ ⟨⟩
        cases i <;> first | exact ⟨rfl, rfl⟩ | cases hs
    · cases h
  · cases h

def quietRun (I : Image σ) : Nat → Cfg σ → Option (Cfg σ)
  | 0, c => some c
  | n + 1, c => (quietStep I c).bind (fun r => quietRun I n r.1)

theorem quietRun_quiet {c0 c c' : Cfg σ} {n : Nat} (h : Quiet I c0 c) (hr : quietRun I n c = some c') : Quiet I c0 c' := by
  induction n generalizing c with
  | zero => cases hr; exact h
  | succ n ih =>
    rw [quietRun] at hr
    cases hs : quietStep I c with
    | none => rw [hs] at hr; cases hr
    | some r =>
      rw [hs] at hr
      obtain ⟨h1, -, h2, -⟩ := quietStep_step (c := c) (c' := r.1) (b := r.2) hs
      obtain ⟨p, m⟩ := c
      exact ih (.step h h1 (fun i hi => (h2 i hi).1)) hr

/-- All steps, with the calls that have not returned; `ef` computes functions of the runtime. -/
def actStep' (I : Image σ) (top : Nat) (ef : String → Mach σ → Option (Mach σ)) (x : Nat × Mach σ × List (Cfg σ)) :
    Option (Nat × Mach σ × List (Cfg σ)) :=
  match I.code[x.1]? with
  | some (.ins (.call f)) =>
    if 8 ≤ (x.2.1.reg .rsp).toNat ∧ (x.2.1.reg .rsp).toNat % 16 = 0 then
      match I.find (.fn f) with
      | some q => some (q, x.2.1.push (I.addr (x.1 + 1)), (x.1, x.2.1) :: x.2.2)
      | none =>
        match I.code[x.1 + 1]?, I.code[x.1 + 2]? with
        | some (.data _), some (.ins _) => (ef f x.2.1).map (fun m' => (x.1 + 2, m', x.2.2))
        | _, _ => none
    else none
  | some (.ins i) =>
    if i.room ≤ (x.2.1.reg .rsp).toNat ∧ storeOk top x.2.1 i = true then
      match quietStep I (x.1, x.2.1) with
      | some (c, true) =>
        match x.2.2 with
        | _ :: s => some (c.1, c.2, s)
        | [] => none
      | some (c, false) => some (c.1, c.2, x.2.2)
      | none => none
    else none
  | _ => (quietStep I (x.1, x.2.1)).map (fun c => (c.1.1, c.1.2, x.2.2))

theorem actStep'_active {ef : String → Mach σ → Option (Mach σ)} (hef : ∀ f m m', ef f m = some m' → I.rt f m m' ∧ Kept top m m') {c0 : Cfg σ}
    {x y : Nat × Mach σ × List (Cfg σ)} (h : Active I top c0 (x.1, x.2.1) x.2.2) (hs : actStep' I top ef x = some y) :
    Active I top c0 (y.1, y.2.1) y.2.2 := by
  obtain ⟨p, m, s⟩ := x
  unfold actStep' at hs
  simp only at hs h ⊢
  split at hs
  · rename_i f hi
    split at hs
    · rename_i ha
      split at hs
      · rename_i q hf
        cases hs
        refine .call h (.call hi ha.2 hf) hi rfl (by rintro _ ⟨⟩; rw [hf]; simp) (find_label_at hf) ⟨?_, ?_⟩
        · intro i' hi'; rw [hi] at hi'; cases hi'; exact ha.1
        · intro s a hi'; rw [hi] at hi'; cases hi'
      · rename_i hf
        split at hs
        · rename_i r i h1 h2
          cases he : ef f m with
          | none => rw [he] at hs; cases hs
          | some m' =>
            rw [he] at hs; cases hs
            exact .ext h (.callRt hi ha.2 hf (hef _ _ _ he).1) hi hf (hef _ _ _ he).2 (fun _ => ⟨⟨_, h1⟩, by rw [h2]; simp⟩)
        · cases hs
    · cases hs
  · rename_i i hne hi
    split at hs
    · rename_i hr
      have ht : Tidy I top p m := by
        refine ⟨?_, ?_⟩
        · intro i' hi'; rw [hi] at hi'; cases hi'; exact hr.1
        · intro s' a hi' hb
          rw [hi] at hi'; cases hi'
          have := hr.2
          simp only [storeOk, decide_eq_true_eq] at this
          exact this.resolve_left hb
      split at hs
      · rename_i c hq
        obtain ⟨h1, h2, h3, h4⟩ := quietStep_step hq
        split at hs
        · rename_i x0 s' 
          cases hs
          exact .ret h h1 hi (h3 i hi).2
        · cases hs
      · rename_i c hq
        obtain ⟨h1, h2, h3, h4⟩ := quietStep_step hq
        cases hs
        exact .next h h1 h2 h3 ht
      · cases hs
    · cases hs
  · rename_i h1 h2
    cases hq : quietStep I (p, m) with
    | none => rw [hq] at hs; cases hs
    | some c =>
      rw [hq] at hs; cases hs
      obtain ⟨k1, k2, k3, k4⟩ := quietStep_step (b := c.2) hq
      refine .next h k1 k2 (fun i hi => absurd hi (h2 i)) ⟨fun i hi => absurd hi (h2 i), fun s a hi => absurd hi (h2 _)⟩

def actRun' (I : Image σ) (top : Nat) (ef : String → Mach σ → Option (Mach σ)) :
    Nat → Nat × Mach σ × List (Cfg σ) → Option (Nat × Mach σ × List (Cfg σ))
  | 0, x => some x
  | n + 1, x => (actStep' I top ef x).bind (actRun' I top ef n)

theorem actRun'_active {ef : String → Mach σ → Option (Mach σ)} (hef : ∀ f m m', ef f m = some m' → I.rt f m m' ∧ Kept top m m') {c0 : Cfg σ}
    {n : Nat} {x y : Nat × Mach σ × List (Cfg σ)} (h : Active I top c0 (x.1, x.2.1) x.2.2) (hs : actRun' I top ef n x = some y) :
    Active I top c0 (y.1, y.2.1) y.2.2 := by
  induction n generalizing x with
  | zero => cases hs; exact h
  | succ n ih =>
    rw [actRun'] at hs
    cases hx : actStep' I top ef x with
    | none => rw [hx] at hs; cases hs
    | some z => rw [hx] at hs; exact ih (actStep'_active hef h hx) hs

/-- The allocator of `bumpImage`, when what it hands out lies below the stack. -/
def bumpFn (alloc f : String) (m : Mach Word) : Option (Mach Word) :=
  if f = alloc ∧ m.ext.toNat + 8 * ((m.reg .rdi).toNat / 16) ≤ (m.reg .rsp).toNat then
    some { m.set .rax m.ext with
      mem := fun a => if InBlock m.ext ((m.reg .rdi).toNat / 16) a then 0 else m.mem a,
      ext := m.ext + BitVec.ofNat 64 (8 * ((m.reg .rdi).toNat / 16)) }
  else none

theorem bumpFn_ok {alloc : String} {opt : Bool} {fns : List FnDef} {str : String → Word} (f : String) (m m' : Mach Word)
    (h : bumpFn alloc f m = some m') : (bumpImage opt alloc ioob fns str).rt f m m' ∧ Kept top m m' := by
  unfold bumpFn at h
  split at h
  · rename_i hc
    cases h
    refine ⟨⟨hc.1, rfl⟩, rfl, rfl, ?_⟩
    intro a h1 h2
    have : ¬ InBlock m.ext ((m.reg .rdi).toNat / 16) a := by
      rintro ⟨k1, k2, -⟩
      omega
    simp only [if_neg this]
  · cases h

/-! ### The program -/

def rtBox : TyR := ⟨.struct, 0⟩
def rtBoxes : TyR := ⟨.array, 1⟩
def rtNone : TyR := ⟨.nothing, 0⟩

/-- `struct box { n: int }`, `fn f(a: []box) { a[next()] = Box(5) }`, `fn next() int { Box(6) return 0 }`. -/
def frFns : List FnDef :=
  [{ name := "f", params := [(0, rtBoxes)], retNothing := true,
     body := .block (.cons (.asg false (.index rtBox (.var 0 rtBoxes) (.callFn "next" { ret := rtInt } [])) (.callFn "Box" { ret := rtBox } [.int 5])) .nil) },
   { name := "next", params := [], body := .block (.cons (.expr (.callFn "Box" { ret := rtBox } [.int 6])) (.cons (.ret (some (.int 0))) .nil)) },
   { name := "Box", params := [(0, rtInt)], body := .cons none "box" 0 }]

/-- The image, with code that the kernel can compute. -/
def frImage : Image Word where
  code := peepWith false (cProg "alloc" "ioob" frFns)
  opt := false
  base := 4096
  isize := fun _ => 4
  str := fun _ => 0
  cfun := fun _ _ _ => False
  rt := bumpCode "alloc"

theorem frImage_eq : frImage = bumpImage false "alloc" "ioob" frFns (fun _ => 0) := by
  rw [frImage, bumpImage, cProg_eq]

/-- `f` is entered with an array of one element at address 32768; new objects are at 40960 and after. -/
def frMach : Mach Word where
  reg := fun r => if r = .rsp then 65544 else if r = .rdi then 32768 else 0
  mem := fun a => if a = 32768 then 3 else 0
  flags := none
  ext := 40960

theorem frEntered : Entered frImage "alloc" "ioob" frFns (2 ^ 60) 1 frMach := by
  have X : Ctx _ (bumpImage false "alloc" "ioob" frFns (fun _ => 0)) _ 65536 (2 ^ 60) :=
    bump_ctx' _ (by decide) (by decide) (by decide) (by decide) (by decide) (by decide)
  rw [← frImage_eq] at X
  exact ⟨X.loaded, X.nopanic, by decide +kernel, ⟨"f", by decide +kernel⟩, by decide, by decide⟩

/-- Up to the second call of the allocator, made by `Box` for `next`. -/
def frRun := actRun' frImage (2 ^ 60) (bumpFn "alloc") 38 (1, frMach, [])

theorem frRun_pos : frRun.map (·.1) = some 53 := by decide +kernel
theorem frRun_code : frImage.code[53]? = some (.ins (.call "alloc")) := by decide +kernel
theorem frRun_len : frRun.map (fun y => y.2.2.length) = some 2 := by decide +kernel
theorem frRun_walk : frRun.bind (fun y => walkFrames frImage y.2.1.mem 65536 2 (y.2.1.reg .rbp)) = some [(65488, []), (65536, [1])] := by decide +kernel
theorem frRun_roots : frRun.map (fun y => frameRoots y.2.1.mem [(65488, []), (65536, [1])]) = some [32768] := by decide +kernel
theorem frRun_words : frRun.map (fun y => [y.2.1.mem 32768, y.2.1.mem 32776, y.2.1.mem 40960]) = some [3, 0, 11] := by decide +kernel
theorem frRun_data : frImage.code[54]? = some (.data []) := by decide +kernel
theorem frRun_find : frImage.find (.fn "alloc") = none := by decide +kernel
theorem frRun_aligned : frRun.map (fun y => (y.2.1.reg .rsp).toNat % 16) = some 0 := by decide +kernel

/-- From there to the assignment. -/
def frLater := (frRun.bind (fun y => bumpFn "alloc" "alloc" y.2.1)).bind (fun m1 => quietRun frImage 23 (55, m1))

theorem frLater_pos : frLater.map (·.1) = some 25 := by decide +kernel
theorem frLater_code : frImage.code[25]? = some (.ins (.mov (.reg .rbx) (.mem { base := .rax }))) := by decide +kernel
theorem frLater_val : frLater.map (fun c => c.2.reg .rbx) = some 40960 := by decide +kernel
theorem frLater_new : (frRun.bind (fun y => bumpFn "alloc" "alloc" y.2.1)).map (fun m1 => m1.reg .rax) = some 40968 := by decide +kernel

/-! ### The heap -/

def frTable : List Gc.TypeInfo := [.struct [], .array true]

/-- The array and the first box. -/
def frHeap : Gc.Heap where
  block := fun b =>
    if b = 32752 then some ⟨40944, Gc.newHeader 1, [3, 0]⟩
    else if b = 40944 then some ⟨0, Gc.newHeader 0, [11]⟩
    else none
  blocks := 32752

theorem frHeap_cases {b : Word} {x : Gc.Block} (h : frHeap.block b = some x) :
    (b = 32752 ∧ x = ⟨40944, Gc.newHeader 1, [3, 0]⟩) ∨ (b = 40944 ∧ x = ⟨0, Gc.newHeader 0, [11]⟩) := by
  simp only [frHeap] at h
  split at h
  · rename_i e; cases h; exact .inl ⟨e, rfl⟩
  · split at h
    · rename_i e; cases h; exact .inr ⟨e, rfl⟩
    · cases h

/-- There is no pointer in any of the objects. -/
theorem frHeap_points {b : Word} {x : Gc.Block} (h : frHeap.block b = some x) {w : Word} (hp : Gc.Points frTable x w) : Gc.isReal w = false := by
  have h0 : Gc.isReal 0 = false := by
    have : ¬ Gc.isReal 0 = true := by rw [Gc.isReal_iff]; decide
    simpa using this
  rcases frHeap_cases h with ⟨-, rfl⟩ | ⟨-, rfl⟩
  · have ht : Gc.typeId (Gc.newHeader 1) = 1 := by decide +kernel
    cases hp with
    | field id roots r ht' hi =>
      rw [ht] at ht'
      have : id = 1 := by omega
      subst this
      cases hi
    | elem id len i ht' hi hl hlt hw =>
      cases hl
      have hn : Gc.intOf 3 = 1 := by decide +kernel
      rw [hn] at hlt
      have : i = 0 := by omega
      subst this
      cases hw
      exact h0
  · have ht : Gc.typeId (Gc.newHeader 0) = 0 := by decide +kernel
    cases hp with
    | field id roots r ht' hi hr =>
      rw [ht] at ht'
      have : id = 0 := by omega
      subst this
      cases hi
      cases hr
    | elem id len i ht' hi =>
      rw [ht] at ht'
      have : id = 0 := by omega
      subst this
      cases hi

theorem frWF : Gc.WF frTable frHeap [32752, 40944] where
  nodup := by decide +kernel
  alloc := by
    intro b
    constructor
    · intro hb
      simp only [List.mem_cons, List.not_mem_nil, or_false] at hb
      rcases hb with rfl | rfl
      · exact ⟨_, rfl, by decide +kernel⟩
      · exact ⟨_, rfl, by decide +kernel⟩
    · rintro ⟨x, hx, -⟩
      rcases frHeap_cases hx with ⟨rfl, -⟩ | ⟨rfl, -⟩ <;> decide
  valid := by
    intro b hb
    simp only [List.mem_cons, List.not_mem_nil, or_false] at hb
    rcases hb with rfl | rfl <;> exact valid_of (by decide) (by decide)
  shaped := by
    intro b x hx
    rcases frHeap_cases hx with ⟨rfl, rfl⟩ | ⟨rfl, rfl⟩
    · exact ⟨1, .array true, by decide +kernel, rfl, fun _ => ⟨3, rfl, by decide +kernel⟩⟩
    · exact ⟨0, .struct [], by decide +kernel, rfl, fun _ => by simp⟩
  closed := by
    intro b x w hx _ hp hr
    rw [frHeap_points hx hp] at hr
    cases hr
  unmarked := by
    intro b x hx
    rcases frHeap_cases hx with ⟨-, rfl⟩ | ⟨-, rfl⟩ <;> decide
  chain := ⟨rfl, _, rfl, rfl, _, rfl, rfl⟩

theorem fst_some {α β : Type} {r : Option (α × β)} {a : α} (h : r.map (·.1) = some a) : ∃ b, r = some (a, b) := by
  cases r with
  | none => cases h
  | some x => cases h; exact ⟨_, rfl⟩

theorem frFacts' (im : Image Word) (n : Nat) (y : Option (Nat × Mach Word × List (Cfg Word))) (z : Option (Cfg Word))
    (hef : ∀ f m m', bumpFn "alloc" f m = some m' → im.rt f m m' ∧ Kept (2 ^ 60) m m')
    (ha : ∀ p m s, y = some (p, m, s) → Active im (2 ^ 60) (1, frMach) (p, m) s)
    (hz : z = (y.bind (fun y => bumpFn "alloc" "alloc" y.2.1)).bind (fun m1 => quietRun im n (55, m1)))
    (e1 : y.map (·.1) = some 53) (e2 : y.map (fun y => y.2.2.length) = some 2)
    (e3 : y.bind (fun y => walkFrames im y.2.1.mem 65536 2 (y.2.1.reg .rbp)) = some [(65488, []), (65536, [1])])
    (e4 : y.map (fun y => frameRoots y.2.1.mem [(65488, []), (65536, [1])]) = some [32768])
    (e5 : y.map (fun y => [y.2.1.mem 32768, y.2.1.mem 32776, y.2.1.mem 40960]) = some [3, 0, 11])
    (e6 : y.map (fun y => (y.2.1.reg .rsp).toNat % 16) = some 0) (e7 : z.map (·.1) = some 25)
    (e8 : z.map (fun c => c.2.reg .rbx) = some 40960)
    (e9 : (y.bind (fun y => bumpFn "alloc" "alloc" y.2.1)).map (fun m1 => m1.reg .rax) = some 40968) :
    ∃ m s m1 mq, Active im (2 ^ 60) (1, frMach) (53, m) s ∧ s.length = 2 ∧
    walkFrames im m.mem 65536 2 (m.reg .rbp) = some [(65488, []), (65536, [1])] ∧
    frameRoots m.mem [(65488, []), (65536, [1])] = [32768] ∧ [m.mem 32768, m.mem 32776, m.mem 40960] = [3, 0, 11] ∧
    (m.reg .rsp).toNat % 16 = 0 ∧ im.rt "alloc" m m1 ∧ Quiet im (55, m1) (25, mq) ∧ mq.reg .rbx = 40960 ∧ m1.reg .rax = 40968 := by
  cases y with
  | none => cases e1
  | some y =>
    obtain ⟨p, m, s⟩ := y
    simp only [Option.map_some, Option.bind_some, Option.some.injEq] at e1 e2 e3 e4 e5 e6 e9 hz
    subst e1
    cases hm1 : bumpFn "alloc" "alloc" m with
    | none => rw [hm1] at e9; cases e9
    | some m1 =>
      rw [hm1] at e9 hz
      simp only [Option.map_some, Option.bind_some, Option.some.injEq] at e9 hz
      obtain ⟨mq, hq⟩ := fst_some e7
      rw [hq] at e8 hz
      simp only [Option.map_some, Option.some.injEq] at e8
      exact ⟨m, s, m1, mq, ha _ _ _ rfl, e2, e3, e4, e5, e6, (hef _ _ _ hm1).1, quietRun_quiet .refl hz.symm, e8, e9⟩

theorem frFn (f : String) (m m' : Mach Word) (h : bumpFn "alloc" f m = some m') : frImage.rt f m m' ∧ Kept (2 ^ 60) m m' := by
  rw [frImage_eq]
  exact bumpFn_ok f m m' h

theorem frActive (p : Nat) (m : Mach Word) (s : List (Cfg Word)) (h : frRun = some (p, m, s)) :
    Active frImage (2 ^ 60) (1, frMach) (p, m) s := by
  rw [frRun] at h
  exact actRun'_active frFn (c0 := (1, frMach)) Active.start h

/-- The execution up to the assignment. -/
theorem frFacts : ∃ m s m1 mq, Active frImage (2 ^ 60) (1, frMach) (53, m) s ∧ s.length = 2 ∧
    walkFrames frImage m.mem 65536 2 (m.reg .rbp) = some [(65488, []), (65536, [1])] ∧
    frameRoots m.mem [(65488, []), (65536, [1])] = [32768] ∧ [m.mem 32768, m.mem 32776, m.mem 40960] = [3, 0, 11] ∧
    (m.reg .rsp).toNat % 16 = 0 ∧ frImage.rt "alloc" m m1 ∧ Quiet frImage (55, m1) (25, mq) ∧ mq.reg .rbx = 40960 ∧ m1.reg .rax = 40968 := by
  exact frFacts' frImage 23 frRun frLater frFn frActive (by rw [frLater]) frRun_pos frRun_len frRun_walk frRun_roots frRun_words
    frRun_aligned frLater_pos frLater_val frLater_new

/-- **C73 fails.**  `a[next()] = Box(5)`: the collection in `next` frees the box, and its address is stored in the array. -/
theorem C73_violated : ¬ C73_claim := by
  intro claim
  obtain ⟨m, s, m1, mq, ha, e2, e3, e4, e5, e6, hrt, hq, e8, e9⟩ := frFacts
  have hr0 : Gc.isReal 0 = false := by
    have : ¬ Gc.isReal 0 = true := by rw [Gc.isReal_iff]; decide
    simpa using this
  have hwalk : walkFrames frImage m.mem (frMach.reg .rsp - 8) s.length (m.reg .rbp) = some [(65488, []), (65536, [1])] := by
    rw [e2, show frMach.reg .rsp - 8 = 65536 from by decide +kernel]; exact e3
  have hroots : ∀ w ∈ frameRoots m.mem [(65488, []), (65536, [1])] ++ [0], Gc.isReal w = true → ∃ x, frHeap.block (w - 16) = some x := by
    intro w hw hr
    rw [e4] at hw
    simp only [List.cons_append, List.nil_append, List.mem_cons, List.not_mem_nil, or_false] at hw
    rcases hw with rfl | rfl
    · exact ⟨_, rfl⟩
    · rw [hr0] at hr; cases hr
  have hroots' := hroots
  rw [← rootWords_walk] at hroots'
  obtain ⟨hp', kept, g1, -, g3, -, g5, -⟩ := C41 frWF (gcOwn _) (gcFrames m.mem _) 0 hroots'
  have hnot : (40944 : Word) ∉ kept := by
    rw [g3]
    rintro ⟨-, hreach⟩
    rw [rootWords_walk, e4] at hreach
    have : ∀ b, Gc.Reach frTable frHeap ([32768] ++ [0]) b → b = 32752 := by
      intro b hb
      induction hb with
      | root hw hr =>
        simp only [List.cons_append, List.nil_append, List.mem_cons, List.not_mem_nil, or_false] at hw
        rcases hw with rfl | rfl
        · rfl
        · rw [hr0] at hr; cases hr
      | step _ hx _ hp hr =>
        rw [frHeap_points hx hp] at hr; cases hr
    exact absurd (this _ hreach) (by decide)
  have hheap : HeapIs frHeap m := by
    intro b x hx i w hw
    simp only [List.cons.injEq, and_true] at e5
    obtain ⟨e51, e52, e53⟩ := e5
    rcases frHeap_cases hx with ⟨rfl, rfl⟩ | ⟨rfl, rfl⟩
    · match i, hw with
      | 0, hw =>
        cases hw
        rw [show (32752 : Word) + 16 + BitVec.ofNat 64 (8 * 0) = 32768 from by decide]
        exact e51
      | 1, hw =>
        cases hw
        rw [show (32752 : Word) + 16 + BitVec.ofNat 64 (8 * 1) = 32776 from by decide]
        exact e52
    · match i, hw with
      | 0, hw =>
        cases hw
        rw [show (40944 : Word) + 16 + BitVec.ofNat 64 (8 * 0) = 40960 from by decide]
        exact e53
  obtain ⟨x, hx⟩ := claim frImage "alloc" "ioob" frFns (2 ^ 60) 1 frMach frEntered (by decide) (by decide) 53 m s ha frRun_code _ hwalk
    frTable frHeap [32752, 40944] 0 frWF hheap hroots hp' g1 m1 (.callRt frRun_code e6 frRun_find hrt) 25 mq .rbx { base := .rax }
    hq frLater_code (by decide) (by rw [e8, e9]; decide) 40944 (by decide) (by rw [e8]; decide)
  rw [g5 _ (by decide) hnot] at hx
  cases hx

/-- **C73, for what variables hold.**  As in the claim, and the stored address is that of an object reachable from a pointer
variable in scope at a call that has not returned (as `Box(5)` is not: it is on the stack only).  The object is still
there, with its words.
What is missing: objects that only the working stack of a pending call holds; see `C73_violated`. -/
theorem C73_partial (E : Entered I alloc ioob fds top p0 m0) (hd : ∀ fd ∈ fds, fd.body.direct = true)
    (hnd : ∀ fd ∈ fds, (fd.params.map (·.1)).Nodup) {p : Nat} {m : Mach σ} {s : List (Cfg σ)} (h : Active I top (p0, m0) (p, m) s)
    (hi : I.code[p]? = some (.ins (.call alloc))) {l : List (Word × List Nat)}
    (hl : walkFrames I m.mem (m0.reg .rsp - 8) s.length (m.reg .rbp) = some l)
    {table : List Gc.TypeInfo} {hp : Gc.Heap} {addrs : List Word} {runtime : Word} (wf : Gc.WF table hp addrs)
    (hroots : ∀ w ∈ frameRoots m.mem l ++ [runtime], Gc.isReal w = true → ∃ x, hp.block (w - 16) = some x) {hp' : Gc.Heap}
    (hgc : Gc.Ends (Gc.gc table (gcOwn l) (gcFrames m.mem l) runtime) hp () hp') :
    ∀ q mq, (q, mq) ∈ s → ∃ fd site, SiteAt I fds q fd site ∧ ∀ x t, (x, t) ∈ site.vars → t.kind.isPointer = true →
      ∀ b ∈ addrs, Gc.Reach table hp [mq.mem (mq.reg .rbp - BitVec.ofNat 64 (8 * fd.slot x))] b →
        ∃ y n, hp.block b = some y ∧ hp'.block b = some { y with next := n } := by
  obtain ⟨l', h1, h2⟩ := C71_survives_partial E hd hnd h hi rfl wf runtime
  rw [hl] at h1
  cases h1
  obtain ⟨hp2, g1, g2⟩ := h2 hroots
  have : hp2 = hp' := by
    unfold Gc.Ends at g1 hgc
    rw [g1] at hgc
    cases hgc
    rfl
  subst this
  intro q mq hq
  obtain ⟨fd, site, k1, k2⟩ := g2 q mq hq
  refine ⟨fd, site, k1, fun x t hx ht b hb hr => ?_⟩
  obtain ⟨y, hy, -⟩ := (wf.alloc b).1 hb
  obtain ⟨n, hn⟩ := k2 x t hx ht b hr hb y hy
  exact ⟨y, n, hy, hn⟩

end Clara.Props
