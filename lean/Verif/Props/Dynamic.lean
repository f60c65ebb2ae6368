import Verif.Props.Codegen
import Verif.Props.Gc
import Verif.Gen.SimAll
/-
C69: calls of function values.

The compiler replaces the call `f(a, …)` of a value by `invokeDynamic(f, a, …)` (`closures.go` 84-97).  `invokeDynamic`,
`isClosure` (`install/lib/runtime.clara` 117-132), `inc` and `toRawInt` (`install/lib/gc.clara` 113, 120) are Clara functions
of the program; what they do here follows from the code generated for them.  `unsafe` (`codegen.go` 358-363) is written
in assembler and only assumed: it adds an offset to an address.
-/
namespace Clara.Props
open Clara.Gen

variable {σ : Type} {P : Prog σ} {I : Image σ} {C : List Ev} {lim top d : Nat}

/-- The library functions as they come out of the front end: `invokeDynamic` is `fd0`, `isClosure` is `fC`, `inc` is `fI`,
`toRawInt` is `fR`. -/
structure dyLib (P : Prog σ) (uns : String) (fd0 fC fI fR : FnDef) (T : DynT) (n : Nat) : Prop where
  dyn : IsDyn fd0 fC.name uns T n
  mem : fd0 ∈ P.fns ∧ fC ∈ P.fns ∧ fI ∈ P.fns ∧ fR ∈ P.fns
  skip : fC.skip = false ∧ fI.skip = false ∧ fR.skip = false
  fiC : T.fiC.ext = false
  fiU : T.fiU1.ext = true ∧ T.fiU1.raw = false ∧ T.fiU2.ext = true ∧ T.fiU2.raw = false
  /-- `header := p.inc(-8).deref.toRawInt(); return (header & 0x2) == 0x0` -/
  isClosure : ∃ (x h : Nat) (t ti tb : TyR) (fiI fiR : FnInfo), x ≠ h ∧ fiI.ext = false ∧ fiR.ext = false ∧ fC.params = [(x, t)] ∧
    fC.body = .block (.cons (.asg true (.var h ti) (.callFn fR.name fiR [.dot t (.callFn fI.name fiI [.var x t, .int (-8)]) 0]))
      (.cons (.ret (some (.bin .eq tb (.bin .band ti (.var h ti) (.int 2)) (.int 0)))) .nil))
  /-- `unsafe(p, off, type(pointer))` -/
  inc : ∃ (x y : Nat) (t ti : TyR) (fi : FnInfo), x ≠ y ∧ fi.ext = true ∧ fi.raw = false ∧ fI.params = [(x, t), (y, ti)] ∧
    fI.body = .expr (.callFn uns fi [.var x t, .var y ti, .typ t])
  /-- `unsafe(p, 0, type(int))` -/
  toRawInt : ∃ (x : Nat) (t ti : TyR) (fi : FnInfo), fi.ext = true ∧ fi.raw = false ∧ fR.params = [(x, t)] ∧
    fR.body = .expr (.callFn uns fi [.var x t, .int 0, .typ ti])
  /-- `unsafe` adds its second argument to the first and changes nothing -/
  add : ∀ (a : Word) (k : BitVec 63) (S : Store σ), P.ext uns [some a, some (Val.int k).enc, none] S (a + k.signExtend 64) S

/-- Words of stack that finding out about the value takes. -/
def dyNeed (P : Prog σ) (uns : String) (fC fI fR : FnDef) : Nat := P.extNeed uns + fI.cost + fR.cost + fC.cost

theorem dyUns {uns : String} {fd0 fC fI fR : FnDef} {T : DynT} {n : Nat} (L : dyLib P uns fd0 fC fI fR T n) {ρ : Env}
    {S : Store σ} {e1 e2 : Expr} {t : TyR} {fi : FnInfo} {v r : Val} {k : BitVec 63} (h1 : Big P d (.expr ρ S e1 (some v) S))
    (h2 : Big P d (.expr ρ S e2 (some (.int k)) S)) (hx : fi.ext = true) (hr : fi.raw = false)
    (he : r.enc = v.enc + k.signExtend 64) (hd : P.extNeed uns ≤ d) :
    Big P d (.expr ρ S (.callFn uns fi [e1, e2, .typ t]) (some r) S) := by
  refine .callExt hx (.argsCons h1 (.argsCons h2 (.argsCons .typ .argsNil))) (w := r.enc) ?_ ?_ hd
  · have := L.add v.enc k S
    rw [he]
    simpa [extArgs, rawArg, hr] using this
  · unfold extRes
    rw [hr]
    intro x hx; cases hx; rfl

/-- `isClosure` reads the word before the object. -/
theorem dyTest {uns : String} {fd0 fC fI fR : FnDef} {T : DynT} {n : Nat} (L : dyLib P uns fd0 fC fI fR T n) {ρ : Env}
    {S : Store σ} {p : Word} {h : BitVec 63} (hp : S.heap (p - 8) = some (.int h)) (hρ : ρ n = some (.ptr p))
    (hd : dyNeed P uns fC fI fR ≤ d) :
    Big P d (.expr ρ S (T.test fC.name n) (some (.bool (!Clara.Gc.isReadOnly h))) S) := by
  unfold dyNeed at hd
  obtain ⟨x, hh, t, ti, tb, fiI, fiR, hne, e1, e2, hps, hbody⟩ := L.isClosure
  obtain ⟨y, z, t', ti', fi', hne', e3, e4, hps', hbody'⟩ := L.inc
  obtain ⟨w, t'', ti'', fi'', e5, e6, hps'', hbody''⟩ := L.toRawInt
  have hi : Big P (d - fC.cost) (.expr (bindParams fC.params [some (.ptr p)]) S (.callFn fI.name fiI [.var x t, .int (-8)])
      (some (.ptr (p - 8))) S) := by
    refine .callFn (d' := P.extNeed uns) e1 (.argsCons (.var ?_) (.argsCons .int .argsNil)) L.mem.2.2.1 rfl L.skip.2.1
      (v := some (.ptr (p - 8))) (vs := [some (.ptr p), some (.int (-8))]) (.fnExpr hbody' (by rw [hps']; rfl)
        (dyUns L (k := -8) (v := .ptr p) (.var ?_) (.var ?_) e3 e4 ?_ (Nat.le_refl _))) (by omega)
    · rw [hps]; simp [bindParams]
    · rw [hps']; simp [bindParams]
    · rw [hps']; simp [bindParams, Ne.symm hne']
    · show p - 8 = p + BitVec.signExtend 64 (-8)
      rw [show BitVec.signExtend 64 (-8 : BitVec 63) = -8 by decide]; exact BitVec.sub_eq_add_neg _ _
  have hr : Big P (d - fC.cost) (.expr (bindParams fC.params [some (.ptr p)]) S
      (.callFn fR.name fiR [.dot t (.callFn fI.name fiI [.var x t, .int (-8)]) 0]) (some (.int h)) S) := by
    refine .callFn (d' := P.extNeed uns) e2 (.argsCons (.dot hi (v := .int h) (by simpa using hp)) .argsNil) L.mem.2.2.2 rfl
      L.skip.2.2 (.fnExpr hbody'' (by rw [hps'']; rfl) (dyUns L (k := 0) (v := .int h) (.var ?_) .int e5 e6 ?_ (Nat.le_refl _)))
      (by omega)
    · rw [hps'']; simp [bindParams]
    · simp
  refine .callFn (d' := d - fC.cost) L.fiC (.argsCons (.var hρ) .argsNil) L.mem.2.1 rfl L.skip.1
    (.fnRet hbody (by rw [hps]; rfl) (.cons (.asgVar hr .locVar) (.consR (.retE (.bin (.bin (.var (v := .int h) ?_) .int rfl)
      .int ?_))))) (by omega)
  · simp [Env.upd]
  · have : (h &&& BitVec.ofInt 63 2 = BitVec.ofInt 63 0) ↔ ¬ Clara.Gc.isReadOnly h = true := by
      rw [Clara.Gc.isReadOnly_bit, show BitVec.ofInt 63 2 = BitVec.twoPow 63 1 by decide, BitVec.and_twoPow]
      cases h.getLsbD 1 <;> decide
    show some (Val.bool (decide (h &&& BitVec.ofInt 63 2 = BitVec.ofInt 63 0))) = _
    refine congrArg (some ∘ Val.bool) ?_
    cases hr : Clara.Gc.isReadOnly h
    · exact decide_eq_true (this.2 (by rw [hr]; simp))
    · exact decide_eq_false (fun h' => this.1 h' hr)

theorem dyCast {uns : String} {fd0 fC fI fR : FnDef} {T : DynT} {n : Nat} (L : dyLib P uns fd0 fC fI fR T n) {ρ : Env}
    {S : Store σ} {p : Word} (b : Bool) (hρ : ρ n = some (.ptr p)) (hd : P.extNeed uns ≤ d) :
    Big P d (.expr ρ S (T.castIf uns b n) (some (.ptr p)) S) := by
  unfold DynT.castIf DynT.cast
  cases b
  · exact dyUns L (k := 0) (v := .ptr p) (.var hρ) .int L.fiU.2.2.1 L.fiU.2.2.2 (by simp) hd
  · exact dyUns L (k := 0) (v := .ptr p) (.var hρ) .int L.fiU.1 L.fiU.2.1 (by simp) hd

/-- The value `p` is a function: the address of the code of `fd`, which stands behind a read-only header (`asm.go` 388), or
an object of the heap, with the header that `claralloc` gave it, perhaps marked, and the address of the code of `fd` and an
environment in it.  `vs'` is what `fd` gets when the value is applied to `vs`. -/
inductive dyValue (P : Prog σ) (S : Store σ) (p : Word) (vs : List (Option Val)) : FnDef → List (Option Val) → Prop
  | function {fd} : p = P.fnAddr fd.name → S.heap (p - 8) = some (.int (Clara.Gc.readOnlyGcHeader 5)) → dyValue P S p vs fd vs
  | closure {fd id h e} : h = Clara.Gc.newHeader id ∨ h = (Clara.Gc.newHeader id ||| 1#63) → S.heap (p - 8) = some (.int h) →
      S.heap p = some (.ptr (P.fnAddr fd.name)) → S.heap (p + 8) = some (.ptr e) → dyValue P S p vs fd (some (.ptr e) :: vs)

/-- `invokeDynamic` as an evaluation. -/
theorem dyFn {uns : String} {fd0 fC fI fR : FnDef} {T : DynT} {n : Nat} (L : dyLib P uns fd0 fC fI fR T n) {S S1 : Store σ}
    {p : Word} {vs vs' : List (Option Val)} {fd : FnDef} (hv : dyValue P S p vs fd vs') (hfd : fd ∈ P.fns)
    (hs : fd.skip = false) (h5 : vs.length ≤ 5) {d' : Nat} {v : Option Val} (hb : Big P d' (.fn fd vs' S v S1))
    (hd : d' + fd.cost ≤ d) (hd' : dyNeed P uns fC fI fR ≤ d) : Big P d (.fn fd0 (some (.ptr p) :: vs) S v S1) := by
  have hn : bindParams fd0.params (some (.ptr p) :: vs) n = some (.ptr p) := by
    rw [L.dyn.params]; simp [bindParams]
  have hu : P.extNeed uns ≤ d := by unfold dyNeed at hd'; omega
  cases hv with
  | function he hh =>
    have ht := dyTest L hh hn hd'
    rw [show Clara.Gc.isReadOnly (Clara.Gc.readOnlyGcHeader 5) = true by decide] at ht
    subst he
    exact .fnDyn L.dyn .fn ht (dyCast L false hn hu) hfd hs h5 hb hd
  | @closure id h e hid hh h1 h2 =>
    have ht := dyTest L hh hn hd'
    have hro : Clara.Gc.isReadOnly h = false := by
      have h0 : Clara.Gc.isReadOnly (Clara.Gc.newHeader id) = false := by
        rw [Clara.Gc.isReadOnly_bit, Clara.Gc.newHeader, BitVec.getLsbD_shiftLeft]; simp
      rcases hid with rfl | rfl
      · exact h0
      · rw [Clara.Gc.isReadOnly_set]; exact h0
    rw [hro] at ht
    exact .fnDyn L.dyn (.closure h1 h2) ht (dyCast L true hn hu) hfd hs h5 hb hd

/-! ### C69 -/

/-- **C69.** The code of `invokeDynamic`, called with a function value and at most five arguments, returns what the function
that the value stands for returns for these arguments, a closure with its environment in front of them, and leaves the
memory as that function does. -/
theorem C69_value (X : Ctx P I C lim top) {uns : String} {fd0 fC fI fR : FnDef} {T : DynT} {n : Nat}
    (L : dyLib P uns fd0 fC fI fR T n) {S S1 : Store σ} {w : Word} {vs vs' : List (Option Val)} {fd : FnDef}
    (hv : dyValue P S w vs fd vs') (hfd : fd ∈ P.fns) (hs : fd.skip = false) (h5 : vs.length ≤ 5) {d' : Nat}
    {v : Option Val} (hb : Big P d' (.fn fd vs' S v S1)) (hd : d' + fd.cost ≤ d) (hd' : dyNeed P uns fC fI fR ≤ d)
    {p q : Nat} {m : Mach σ} (hc : Called I lim top fd0 (some (.ptr w) :: vs) S d p q m) :
    Reaches I (Returned lim top m q v S1) (p, m) :=
  run_fn X L.mem.1 L.dyn.skip (dyFn L hv hfd hs h5 hb hd hd') hc

/-- **C69**, at the call: the expression `invokeDynamic(f, a, …)`, wherever it stands, has the value that the function has for
the arguments.  The budget of stack is the one of `invokeDynamic` and of the function. -/
theorem C69_call {uns : String} {fd0 fC fI fR : FnDef} {T : DynT} {n : Nat}
    (L : dyLib P uns fd0 fC fI fR T n) {ρ : Env} {S S1 S2 : Store σ} {f : Expr} {es : List Expr} {w : Word}
    {vs vs' : List (Option Val)} {fi : FnInfo} (hfi : fi.ext = false)
    (ha : Big P d (.args ρ S (f :: es) (some (.ptr w) :: vs) S1)) {fd : FnDef} (hv : dyValue P S1 w vs fd vs')
    (hfd : fd ∈ P.fns) (hs : fd.skip = false) (h5 : es.length ≤ 5) {d' : Nat} {v : Option Val}
    (hb : Big P d' (.fn fd vs' S1 v S2)) (hd : d' + fd.cost + fd0.cost ≤ d) (hd' : dyNeed P uns fC fI fR + fd0.cost ≤ d) :
    Big P d (.expr ρ S (.callFn fd0.name fi (f :: es)) v S2) := by
  have hl : ∀ {es : List Expr} {vs : List (Option Val)} {S S1 : Store σ}, Big P d (.args ρ S es vs S1) → vs.length = es.length := by
    intro es
    induction es with
    | nil => intro vs S S1 h; cases h; rfl
    | cons e es ih => intro vs S S1 h; cases h with | argsCons _ h => simp [ih h]
  have := hl ha
  simp only [List.length_cons] at this
  exact .callFn (d' := d - fd0.cost) hfi ha L.mem.1 rfl L.dyn.skip (dyFn L hv hfd hs (by omega) hb (by omega) (by omega)) (by omega)

/-! The library, `fn add(a: int, b: int) int = a + b` and the function of a closure that adds what it captured:
`add` applied to 3 and 4 through its address, and the closure with 10 in its environment applied to 5. -/

def dyInt : TyR := ⟨.integer, 0⟩
def dyPtr : TyR := ⟨.pointer, 0⟩
def dyT : DynT := {}
def dyU : FnInfo := { ext := true, ret := dyPtr }

def dyAdd : FnDef := { name := "add", params := [(0, dyInt), (1, dyInt)], body := .expr (.bin .add dyInt (.var 0 dyInt) (.var 1 dyInt)) }

def dyCap : FnDef :=
  { name := "clFn_0", params := [(0, ⟨.struct, 0⟩), (1, dyInt)],
    body := .expr (.bin .add dyInt (.dot dyInt (.var 0 ⟨.struct, 0⟩) 0) (.var 1 dyInt)) }

def dyInvoke : FnDef :=
  { name := "invokeDynamic", retNothing := true,
    params := [(0, dyPtr), (1, dyInt), (2, dyInt), (3, dyInt), (4, dyInt), (5, dyInt)],
    body := .block (.cons (.ifs (.cond (dyT.test "isClosure" 0) (dyT.yes "unsafe" 0) (.els (dyT.no "unsafe" 0)))) .nil) }

def dyIsClosure : FnDef :=
  { name := "isClosure", params := [(0, dyPtr)],
    body := .block (.cons (.asg true (.var 1 dyInt) (.callFn "toRawInt" { ret := dyInt }
        [.dot dyPtr (.callFn "inc" { ret := dyPtr } [.var 0 dyPtr, .int (-8)]) 0]))
      (.cons (.ret (some (.bin .eq ⟨.boolean, 0⟩ (.bin .band dyInt (.var 1 dyInt) (.int 2)) (.int 0)))) .nil)) }

def dyInc : FnDef :=
  { name := "inc", params := [(0, dyPtr), (1, dyInt)], body := .expr (.callFn "unsafe" dyU [.var 0 dyPtr, .var 1 dyInt, .typ dyPtr]) }

def dyToRawInt : FnDef :=
  { name := "toRawInt", params := [(0, dyPtr)], body := .expr (.callFn "unsafe" dyU [.var 0 dyPtr, .int 0, .typ dyInt]) }

def dyFns : List FnDef := [dyAdd, dyCap, dyInvoke, dyIsClosure, dyInc, dyToRawInt]

/-- `unsafe`, as a relation between words. -/
def dyExt (f : String) (ws : List (Option Word)) (S : Store Word) (w : Word) (S' : Store Word) : Prop :=
  f = "unsafe" ∧ ∃ (a : Word) (k : BitVec 63), ws = [some a, some (Val.int k).enc, none] ∧ w = a + k.signExtend 64 ∧ S' = S

/-- `unsafe`, as machine code (`codegen.go` 358-363). -/
def dyCode (f : String) (m m' : Mach Word) : Prop :=
  f = "unsafe" ∧ m' = m.set .rax (m.reg .rdi + (m.reg .rsi).sshiftRight 1)

def dyProg (opt : Bool) : Prog Word := { bumpProg opt "alloc" "ioob" dyFns (fun _ => 0) (2 ^ 20) with ext := dyExt }
def dyImage (opt : Bool) : Image Word := { bumpImage opt "alloc" "ioob" dyFns (fun _ => 0) with cfun := dyCode }

theorem dyBase (opt : Bool) : Ctx (bumpProg opt "alloc" "ioob" dyFns (fun _ => 0) (2 ^ 20))
    (bumpImage opt "alloc" "ioob" dyFns (fun _ => 0)) (genProg "alloc" "ioob" dyFns) (2 ^ 20) (2 ^ 60) :=
  bump_ctx' _ (by decide) (by decide) (by decide +kernel) (by decide +kernel) (by decide) (by decide)

theorem dyCtx (opt : Bool) : Ctx (dyProg opt) (dyImage opt) (genProg "alloc" "ioob" dyFns) (2 ^ 20) (2 ^ 60) := by
  have X := dyBase opt
  refine ⟨⟨X.loaded.code, X.loaded.fits, X.loaded.nodup⟩, rfl, X.nopanic, fun _ => rfl, fun _ => rfl, X.htop, X.ok, ?_, ?_⟩
  · rintro f ws S w S' m ⟨rfl, a, k, rfl, rfl, rfl⟩ hal hst htp hargs hrel
    refine ⟨?_, fun _ h => absurd h.1 (by decide), ⟨_, rfl, rfl⟩, ?_⟩
    · cases hf : (dyImage opt).find (.fn "unsafe") with
      | none => rfl
      | some p =>
        have := label_of_find hf
        rw [show (dyImage opt).code = peepWith opt (genProg "alloc" "ioob" dyFns) from rfl, itemLabels_peep] at this
        rcases genProg_label this with h | ⟨fd, h1, h2⟩ | ⟨s, n, h, -⟩
        · exact absurd h (by decide)
        · injection h2 with h2
          exact absurd h2 ((by decide : ∀ fd ∈ dyFns, "unsafe" ≠ fd.name) fd h1)
        · cases h
    · rintro m' ⟨-, rfl⟩
      refine ⟨⟨rfl, rfl, fun _ _ _ => rfl⟩, hrel.congr rfl rfl, ?_⟩
      rw [hargs 0 .rdi _ rfl rfl, hargs 1 .rsi _ rfl rfl, untag_word]
      rfl
  · intro f vs S v S' m h hal hst htp hargs hrel
    obtain ⟨h1, h2, h3, h4⟩ := X.rt f vs S v S' m h hal hst htp hargs hrel
    refine ⟨h1, ?_, h3, h4⟩
    rintro m' ⟨rfl, -⟩
    exact absurd h.1 (by decide)

theorem dyLibOk (opt : Bool) : dyLib (dyProg opt) "unsafe" dyInvoke dyIsClosure dyInc dyToRawInt dyT 0 where
  dyn := ⟨rfl, rfl, rfl, rfl, rfl, rfl⟩
  mem := ⟨by simp [dyProg, bumpProg, dyFns], by simp [dyProg, bumpProg, dyFns], by simp [dyProg, bumpProg, dyFns], by simp [dyProg, bumpProg, dyFns]⟩
  skip := ⟨rfl, rfl, rfl⟩
  fiC := rfl
  fiU := ⟨rfl, rfl, rfl, rfl⟩
  isClosure := ⟨0, 1, _, _, _, _, _, by decide, rfl, rfl, rfl, rfl⟩
  inc := ⟨0, 1, _, _, _, by decide, rfl, rfl, rfl, rfl⟩
  toRawInt := ⟨0, _, _, _, rfl, rfl, rfl, rfl⟩
  add := fun a k S => ⟨rfl, a, k, rfl, rfl, rfl⟩

theorem dyCalled (opt : Bool) (vs : List Val) (S : Store Word)
    (hS : ∀ a v, S.heap a = some v → a.toNat < 2 ^ 20 ∧ a.toNat % 8 = 0) :
    ∃ p q m, Called (dyImage opt) (2 ^ 20) (2 ^ 60) dyInvoke (vs.map some) S 1000 p q m := by
  obtain ⟨p, q, m, hc⟩ := bump_called_heap (d := 1000) (dyBase opt) (fd := dyInvoke) (by simp [dyFns]) vs (by decide) S
    (fun a v h => ⟨.inl (hS a v h).1, (hS a v h).2⟩)
  exact ⟨p, q, m, hc.1, hc.2, hc.3, hc.4, hc.5, hc.6, hc.7⟩

/-- `add` begins after its header, at the start of the image. -/
theorem dyAddr (opt : Bool) : (dyProg opt).fnAddr "add" = 4104 := by
  show (bumpImage opt "alloc" "ioob" dyFns (fun _ => 0)).fnAddr "add" = 4104
  unfold Image.fnAddr Image.find Image.addr Image.offset
  rw [show (bumpImage opt "alloc" "ioob" dyFns (fun _ => 0)).code = peepWith opt (cProg "alloc" "ioob" dyFns) by rw [cProg_eq]; rfl]
  revert opt
  decide +kernel

/-- `f(3, 4)`, where `f` is `add`. -/
example (opt : Bool) : ∃ p q m, Reaches (dyImage opt) (Returned (2 ^ 20) (2 ^ 60) m q (some (.int 7))
    ⟨fun a => if a = 4096 then some (.int (Clara.Gc.readOnlyGcHeader 5)) else none, 0⟩) (p, m) := by
  let S : Store Word := ⟨fun a => if a = 4096 then some (.int (Clara.Gc.readOnlyGcHeader 5)) else none, 0⟩
  obtain ⟨p, q, m, hc⟩ := dyCalled opt [.ptr 4104, .int 3, .int 4] S (by
    intro a v h; simp only [S] at h; split at h
    · rename_i e; subst e; decide
    · cases h)
  refine ⟨p, q, m, C69_value (dyCtx opt) (dyLibOk opt) (fd := dyAdd) (.function (dyAddr opt).symm rfl)
    (by simp [dyProg, bumpProg, dyFns]) rfl (by decide) (d' := 0) (.fnExpr rfl rfl (.bin (.var rfl) (.var rfl) rfl)) (by decide) ?_ hc⟩
  show 0 + _ + _ + _ ≤ 1000
  decide

/-- `g(5)`, where `g` is a closure with 10 in its environment; the header of the closure is marked. -/
example (opt : Bool) : ∃ (S : Store Word) (p q : Nat) (m : Mach Word), S.heap 0x3008 = some (.int 10) ∧
    Reaches (dyImage opt) (Returned (2 ^ 20) (2 ^ 60) m q (some (.int 15)) S) (p, m) := by
  let S : Store Word := ⟨fun a =>
    if a = 0x1FF8 then some (.int (Clara.Gc.newHeader 6 ||| 1#63)) else if a = 0x2000 then some (.ptr ((dyProg opt).fnAddr "clFn_0"))
    else if a = 0x2008 then some (.ptr 0x3008) else if a = 0x3008 then some (.int 10) else none, 0⟩
  obtain ⟨p, q, m, hc⟩ := dyCalled opt [.ptr 0x2000, .int 5] S (by
    intro a v h; simp only [S] at h
    split at h
    · rename_i e; subst e; decide
    split at h
    · rename_i e; subst e; decide
    split at h
    · rename_i e; subst e; decide
    split at h
    · rename_i e; subst e; decide
    cases h)
  refine ⟨S, p, q, m, rfl, C69_value (dyCtx opt) (dyLibOk opt) (fd := dyCap) (.closure (id := 6) (e := 0x3008) (.inr rfl) rfl rfl rfl)
    (by simp [dyProg, bumpProg, dyFns]) rfl (by decide) (d' := 0)
    (.fnExpr rfl rfl (.bin (.dot (.var rfl) (v := .int 10) rfl) (.var rfl) rfl)) (by decide) ?_ hc⟩
  show 0 + _ + _ + _ ≤ 1000
  decide

end Clara.Props
