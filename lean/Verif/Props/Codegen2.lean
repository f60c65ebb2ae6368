import Verif.Props.Names
import Verif.Props.Codegen
import Verif.Props.Lexer
import Verif.Util
import Verif.Gen.Labels
import Verif.Gen.Strings
/-
Properties of the generated code: labels, calls, constructors, string literals (C36-C39).
-/
namespace Clara.Props
open Clara.Gen Clara.Types
open Clara.Lex (Bytes runes)

variable {σ : Type} {P : Prog σ} {I : Image σ} {C : List Ev} {lim top d : Nat}

/-! ### C36 -/

/-- The full claim: whatever the bodies of a set of accepted functions, the labels of the assembly file have
different texts. -/
def C36_claim : Prop := ∀ (pname : Nat → String) (fs : List FnDecl) (fds : List FnDef) (alloc ioob : String) (nl nt : Nat),
  accepted pname fs → (∀ f ∈ fs, f.kind = .normal) →
  fds.map (·.name.toList) = fs.map (fun f => fnAsm f.kind f.name f.params) →
  ((allSyms alloc ioob fds nl nt).map Sym.text).Nodup

theorem helper_text (s : String) : (Sym.text ∘ Sym.code) (.fn s) = (Sym.helper s).text := rfl

/-- It fails: `fn asm_entrypoint() {}` gets the label of a helper function of the compiler. -/
theorem C36_violated_helper : ¬ C36_claim := by
  intro h
  let f : FnDef := { name := "clara_asm_entrypoint", params := [], body := .block .nil, retNothing := true }
  have := h (fun _ => "") [⟨.normal, "asm_entrypoint", []⟩] [f] "a" "i" 0 0
    (by unfold accepted; decide) (by simp) (by decide)
  have hl : Label.fn "clara_asm_entrypoint" ∈ labels (genProg "a" "i" [f]) := by
    rw [← cProg_eq]; decide
  rw [allSyms, List.map_append, List.nodup_append] at this
  have hh : "clara_asm_entrypoint" ∈ helperNames := by decide
  refine this.2.2 (Sym.helper "clara_asm_entrypoint").text ?_ (Sym.helper "clara_asm_entrypoint").text ?_ rfl
  · rw [List.map_map, List.mem_map]
    exact ⟨_, hl, helper_text _⟩
  · exact List.mem_map_of_mem (List.mem_append_left _ (List.mem_map_of_mem hh))

/-- It also fails for `fn f«A»(x: A)` and `fn f«B»(x: B)` (see `C20_violated`). -/
theorem C36_violated_generic : ¬ C36_claim := by
  intro h
  let f : FnDef := { name := "clara_f.T", params := [(0, tInt)], body := .block .nil, retNothing := true }
  have := h (fun k => if k = 0 then "A" else "B") [⟨.normal, "f", [.param 0]⟩, ⟨.normal, "f", [.param 1]⟩]
    [f, f] "a" "i" 0 0 (by unfold accepted; decide) (by simp) (by decide)
  rw [allSyms, List.map_append, List.nodup_append] at this
  have h1 := this.1
  rw [← cProg_eq] at h1
  revert h1
  decide

/-- The claim holds whenever the function names differ and are not the name of the helper.  Missing: names of
anonymous functions, which are random.  The root maps `struct_…` and `enum_…` of types are added in
`C36_types_partial`. -/
theorem C36_unique_partial (alloc ioob : String) (fds : List FnDef) (nl nt : Nat)
    (hn : (fds.map (·.name)).Nodup)
    (hf : ∀ fd ∈ fds, (∃ s : List Char, fd.name.toList = "clara_".toList ++ s) ∧ fd.name ≠ "clara_asm_entrypoint") :
    ((allSyms alloc ioob fds nl nt).map Sym.text).Nodup :=
  allSyms_nodup alloc ioob fds nl nt hn hf

/-- In source terms: accepted functions other than `main` and `asm_entrypoint`, with concrete parameter types. -/
theorem C36_source_partial (pname : Nat → String) (fs : List FnDecl) (fds : List FnDef) (alloc ioob : String)
    (nl nt : Nat) (ha : accepted pname fs)
    (hg : ∀ f ∈ fs, f.kind = .normal ∧ goodName f.name.toList ∧ f.name ≠ "main" ∧ ConcreteAll f.params)
    (he : ∀ f ∈ fs, f.params = [] → f.name ≠ "asm_entrypoint")
    (hs : fds.map (·.name.toList) = fs.map (fun f => fnAsm f.kind f.name f.params)) :
    ((allSyms alloc ioob fds nl nt).map Sym.text).Nodup := by
  have hd := C20_distinct_partial pname fs ha hg
  rw [← hs] at hd
  refine C36_unique_partial alloc ioob fds nl nt ?_ ?_
  · have : fds.map (·.name.toList) = (fds.map (·.name)).map String.toList := by rw [List.map_map]; rfl
    rw [this] at hd
    exact hd.of_map
  · intro fd hfd
    have hm : fd.name.toList ∈ fs.map (fun f => fnAsm f.kind f.name f.params) := by
      rw [← hs]; exact List.mem_map.2 ⟨fd, hfd, rfl⟩
    obtain ⟨f, hf, e⟩ := List.mem_map.1 hm
    obtain ⟨k1, k2, k3, k4⟩ := hg f hf
    have e2 : fd.name.toList = "clara_".toList ++ (f.name.toList ++ (asmAll f.params).flatMap (fun s => '.' :: s)) := by
      rw [← e, k1, fnAsm, if_neg (by decide), if_neg k3, List.append_assoc]
    refine ⟨⟨_, e2⟩, ?_⟩
    intro hbad
    have hne := he f hf
    rw [hbad, helper_asm] at e2
    have e3 := List.append_cancel_left e2
    cases hp : asmAll f.params with
    | nil =>
      rw [hp, List.flatMap_nil, List.append_nil] at e3
      have hpar : f.params = [] := by
        cases hq : f.params with
        | nil => rfl
        | cons t ts => rw [hq] at hp; simp [asmAll] at hp
      exact hne hpar (String.toList_inj.1 e3.symm)
    | cons s ss =>
      rw [hp] at e3
      have : '.' ∈ "asm_entrypoint".toList := by rw [e3]; simp
      exact absurd this (by decide)

/-- Two overloads of `f` with loops and conditions, and a third function. -/
example : ((allSyms "clara_alloc" "clara_ioob" [{ name := "clara_f.int", params := [(0, tInt)], body := .block exG },
      { name := "clara_f.int.bool", params := [(0, tInt), (3, tBool)], body := .expr exF.tree },
      { name := "clara_g", params := [], body := .block exG }] 4 9).map Sym.text).Nodup :=
  C36_source_partial (fun _ => "") [⟨.normal, "f", [.prim .int]⟩, ⟨.normal, "f", [.prim .int, .prim .bool]⟩,
    ⟨.normal, "g", []⟩] _ _ _ _ _ (by unfold accepted; decide)
    (by
      intro f hf
      simp only [List.mem_cons, List.not_mem_nil, or_false] at hf
      have hg : goodName "f".toList ∧ goodName "g".toList := by
        refine ⟨⟨by decide, ?_⟩, ⟨by decide, ?_⟩⟩ <;>
          · intro c hc hs
            have : c ≠ '.' ∧ c ≠ '$' := by
              clear hs; revert c; decide
            rcases hs with h | h
            · exact this.1 h
            · exact this.2 h
      rcases hf with rfl | rfl | rfl
      · exact ⟨rfl, hg.1, by decide, trivial, trivial⟩
      · exact ⟨rfl, hg.1, by decide, trivial, trivial, trivial⟩
      · exact ⟨rfl, hg.2, by decide, trivial⟩)
    (by decide) (by decide)

/-! ### C37 -/

/-- Arguments that are evaluated while earlier argument registers hold values must not use these registers
outside calls: no division with three or more registers in use, no shift with four or more (`okL`), and no
call through a computed function while registers are in use.  Then each value reaches the callee in its
register: `argWs` gives the words of the values in order.  Nested calls are allowed anywhere.  Missing: the
excluded arguments, for which the claim fails. -/
theorem C37_ready_partial (X : Ctx P I C lim top) {env : Env} {S S1 : Store σ} {f : String} {fi : FnInfo}
    {args : List Expr} {vs : List (Option Val)} (hargs : Big P d (.args env S args vs S1)) {fd : FnDef} {g : GS}
    {m : Mach σ} (hv : varsL args ⊆ fd.syms) (hok : okL 0 args = true)
    (hpre : Pre lim top fd env S g m (6 + (1 + useL args) + d)) {b : Bool} {pre : List Ev}
    (hp : pre ++ (genExpr fd.slot (.callFn f fi args) b g).1 <+: C) :
    Run I (AtCall I lim top f (argWs fi args vs) S1) pre m :=
  call_ready X hargs hv hok hpre hp

/-- `fn k(a: int, b: int, c: int, d: int) int = c` and `fn g() int = k(1, 2, 3, 10 / 2)`. -/
def clobArgs : List Expr := [.int 1, .int 2, .int 3, .bin .div tInt (.int 10) (.int 2)]

def clobFns : List FnDef :=
  [{ name := "clara_k.int.int.int.int", params := [(0, tInt), (1, tInt), (2, tInt), (3, tInt)], body := .expr (.var 2 tInt) },
   { name := "clara_g", params := [], body := .expr (.callFn "clara_k.int.int.int.int" { ret := tInt } clobArgs) }]

abbrev clobImage : Image Word := bumpImage true "alloc" "ioob" clobFns (fun _ => 0)

/-- Straight code from position `p`, executed for `n` instructions. -/
def runS (I : Image σ) : Nat → Nat → Mach σ → Option (Mach σ)
  | 0, _, m => some m
  | n + 1, p, m =>
    match I.code[p]? with
    | some (.ins i) => if i.straight then (exec I.abs m i).bind (runS I n (p + 1)) else none
    | some (.label _) => runS I n (p + 1) m
    | _ => none

theorem runS_reaches {G : Cfg σ → Prop} {n p : Nat} {m m' : Mach σ} (h : runS I n p m = some m')
    (hk : Reaches I G (p + n, m')) : Reaches I G (p, m) := by
  induction n generalizing p m with
  | zero => simp only [runS, Option.some.injEq] at h; subst h; exact hk
  | succ n ih =>
    simp only [runS] at h
    have e : p + (n + 1) = p + 1 + n := by omega
    rw [e] at hk
    split at h
    · rename_i i hi
      split at h
      · rename_i hs
        cases hx : exec I.abs m i with
        | none => rw [hx] at h; cases h
        | some m1 => rw [hx] at h; exact .straight hi hs hx (ih h hk)
      · cases h
    · rename_i l hl
      exact .label hl (ih h hk)
    · cases h

/-- A state at the entry of `g`. -/
def clobMach : Mach Word where
  reg := fun r => if r = .rsp then BitVec.ofNat 64 (2 ^ 60 - 8) else 0
  mem := fun _ => clobImage.fnAddr "clara_g" - 8
  flags := none
  ext := 0

theorem clobCalled : Called clobImage 0 (2 ^ 60) clobFns[1] [] ⟨fun _ => none, 0⟩ 0 13 13 clobMach where
  entry := by decide +kernel
  back := by decide +kernel
  align := by decide
  stack := by decide
  below := by decide
  args := by intro j r x h; simp at h
  rel := ⟨fun _ _ h => (nomatch h), fun _ _ h => (nomatch h), fun _ _ h => (nomatch h), rfl⟩

/-- **C37 fails.**  The arguments of `k(1, 2, 3, 10 / 2)` evaluate to 1, 2, 3, 5, but from a state in which `g` is
called the machine reaches the call of `k` with something else than 3 in the register of the third argument,
because the division has overwritten it. -/
theorem C37_violated :
    Big (bumpProg true "alloc" "ioob" clobFns (fun _ => 0) 0) 0 (.args (bindParams clobFns[1].params [])
      ⟨fun _ => none, 0⟩ clobArgs [some (.int 1), some (.int 2), some (.int 3), some (.int 5)] ⟨fun _ => none, 0⟩) ∧
    ∃ p q m, Called clobImage 0 (2 ^ 60) clobFns[1] [] ⟨fun _ => none, 0⟩ 0 p q m ∧
      Reaches clobImage (fun c => clobImage.code[c.1]? = some (.ins (.call "clara_k.int.int.int.int")) ∧
        argRegs[2]? = some .rdx ∧ c.2.reg .rdx ≠ (Val.int 3).enc) (p, m) := by
  refine ⟨.argsCons .int (.argsCons .int (.argsCons .int (.argsCons (.bin .int .int rfl) .argsNil))),
    13, 13, clobMach, clobCalled, ?_⟩
  have h : ((runS clobImage 30 13 clobMach).map (fun m => m.reg .rdx)) = some 0 := by decide +kernel
  cases hr : runS clobImage 30 13 clobMach with
  | none => rw [hr] at h; cases h
  | some m' =>
    rw [hr] at h
    refine runS_reaches hr (.now ⟨(by decide +kernel :
      clobImage.code[43]? = some (.ins (.call "clara_k.int.int.int.int"))), rfl, ?_⟩)
    simp only [Option.map_some, Option.some.injEq] at h
    show m'.reg .rdx ≠ _
    rw [h]
    decide

/-- `k(1, k(4, 5, 6, 7), 10 / 2, 3)` is covered: the nested call saves and restores the first argument. -/
def nestArgs : List Expr :=
  [.int 1, .callFn "clara_k.int.int.int.int" { ret := tInt } [.int 4, .int 5, .int 6, .int 7],
   .bin .div tInt (.int 10) (.int 2), .int 3]

def nestFns : List FnDef :=
  [clobFns[0],
   { name := "clara_g", params := [], body := .expr (.callFn "clara_k.int.int.int.int" { ret := tInt } nestArgs) }]

example : okL 0 nestArgs = true ∧ okL 0 clobArgs = false := by decide

theorem nestCtx (opt : Bool) : Ctx (bumpProg opt "alloc" "ioob" nestFns (fun _ => 0) 0)
    (bumpImage opt "alloc" "ioob" nestFns (fun _ => 0)) (genProg "alloc" "ioob" nestFns) 0 (2 ^ 60) :=
  bump_ctx' _ (by decide) (by decide) (by decide) (by decide) (by decide) (by decide)

example (opt : Bool) : ∃ p m, Reaches (bumpImage opt "alloc" "ioob" nestFns (fun _ => 0))
    (AtCall (bumpImage opt "alloc" "ioob" nestFns (fun _ => 0)) 0 (2 ^ 60) "clara_k.int.int.int.int"
      [some (Val.int 1).enc, some (Val.int 6).enc, some (Val.int 5).enc, some (Val.int 3).enc]
      ⟨fun _ => none, 0⟩) (p, m) := by
  have X := nestCtx opt
  have hmem : nestFns[1] ∈ nestFns := List.mem_cons_of_mem _ List.mem_cons_self
  obtain ⟨p, q, m, hc⟩ := bump_called (d := 100) X hmem [] (by decide) 0
  refine ⟨p, m, enter_expr X hmem rfl hc ?_⟩
  intro pre g m1 hp ht hok hv hpre
  exact C37_ready_partial (d := 100) X (args := nestArgs) (fi := { ret := tInt })
    (vs := [some (.int 1), some (.int 6), some (.int 5), some (.int 3)])
    (.argsCons .int (.argsCons (.callFn (fd := nestFns[0]) (d' := 0) rfl
        (.argsCons .int (.argsCons .int (.argsCons .int (.argsCons .int .argsNil))))
        List.mem_cons_self rfl rfl (.fnExpr rfl rfl (.var rfl)) (by decide))
      (.argsCons (.bin .int .int rfl) (.argsCons .int .argsNil)))) hv (by decide) hpre hp

/-! ### C38 -/

/-- Offset of field `i`: fields are words in order (`semantic.go` 185, `ast.go` 302, `typecheck.go` 831); the
fields of an enum value come after its tag (`lib/enums.clara` 3-11). -/
def fieldOff : Option Nat → Nat → Nat
  | none, i => 8 * i
  | some _, i => 8 * (i + 1)

/-- An object at `p` whose fields have the values `vs`, one word each.  Values of enums have a tag word first. -/
structure IsObject (S : Store σ) (p : Word) (tag : Option Nat) (vs : List Val) : Prop where
  tagw : ∀ t, tag = some t → S.heap p = some (.int (BitVec.ofNat 63 t))
  field : ∀ (i : Nat) (v : Val), vs[i]? = some v → S.heap (p + BitVec.ofNat 64 (fieldOff tag i)) = some v
  small : 8 * vs.length + 8 < 2 ^ 64

theorem write_ne {S S' : Store σ} {a b : Word} {v : Val} (h : S.write a v = some S') (hb : b ≠ a) :
    S'.heap b = S.heap b := by
  unfold Store.write at h
  split at h
  · cases h
  · cases h; exact if_neg hb

theorem write_eq {S S' : Store σ} {a : Word} {v : Val} (h : S.write a v = some S') :
    S'.heap a = some v ∧ S'.ext = S.ext := by
  unfold Store.write at h
  split at h
  · cases h
  · cases h; exact ⟨if_pos rfl, rfl⟩

theorem word_inj {p : Word} {a b : Nat} (ha : a < 2 ^ 64) (hb : b < 2 ^ 64)
    (h : p + BitVec.ofNat 64 a = p + BitVec.ofNat 64 b) : a = b := by
  have := (BitVec.add_right_inj _).1 h
  have := congrArg BitVec.toNat this
  simp only [BitVec.toNat_ofNat] at this
  omega

theorem writeAll_spec {S S' : Store σ} {a : Word} {vs : List Val} (h : S.writeAll a vs = some S')
    (hl : 8 * vs.length < 2 ^ 64) :
    (∀ (i : Nat) (v : Val), vs[i]? = some v → S'.heap (a + BitVec.ofNat 64 (8 * i)) = some v) ∧
    (∀ b, (∀ i, i < vs.length → b ≠ a + BitVec.ofNat 64 (8 * i)) → S'.heap b = S.heap b) ∧ S'.ext = S.ext := by
  induction vs generalizing S a with
  | nil => simp only [Store.writeAll, Option.some.injEq] at h; subst h; exact ⟨by simp, fun _ _ => rfl, rfl⟩
  | cons v vs ih =>
    simp only [Store.writeAll] at h
    cases hw : S.write a v with
    | none => rw [hw] at h; cases h
    | some S1 =>
      rw [hw] at h
      simp only [List.length_cons] at hl
      obtain ⟨h1, h2, h3⟩ := ih (S := S1) h (by omega)
      have hshift : ∀ i : Nat, a + 8 + BitVec.ofNat 64 (8 * i) = a + BitVec.ofNat 64 (8 * (i + 1)) := by
        intro i
        rw [Nat.mul_add, Nat.add_comm, BitVec.ofNat_add, ← BitVec.add_assoc]
        rfl
      obtain ⟨e1, e2⟩ := write_eq hw
      have h0 : a + BitVec.ofNat 64 (8 * 0) = a := by
        rw [Nat.mul_zero]; exact BitVec.add_zero a
      refine ⟨?_, ?_, h3.trans e2⟩
      · intro i w hi
        cases i with
        | zero =>
          simp only [List.getElem?_cons_zero, Option.some.injEq] at hi
          subst hi
          rw [h0, h2 a ?_, e1]
          intro i hi he
          rw [hshift, ← h0] at he
          have : 8 * 0 = 8 * (i + 1) := word_inj (p := a) (by omega) (by omega) (by rw [h0] at he ⊢; exact he)
          omega
        | succ i =>
          simp only [List.getElem?_cons_succ] at hi
          rw [← hshift]
          exact h1 i w hi
      · intro b hb
        rw [h2 b (fun i hi => by rw [hshift]; exact hb (i + 1) (by simpa using hi))]
        refine write_ne hw ?_
        have := hb 0 (by simp)
        rwa [h0] at this

theorem writeAll_exists {S : Store σ} {a : Word} {vs : List Val}
    (h : ∀ i, i < vs.length → S.heap (a + BitVec.ofNat 64 (8 * i)) ≠ none) : ∃ S', S.writeAll a vs = some S' := by
  induction vs generalizing S a with
  | nil => exact ⟨S, rfl⟩
  | cons v vs ih =>
    have h0 := h 0 (by simp)
    rw [Nat.mul_zero, show a + BitVec.ofNat 64 0 = a from BitVec.add_zero a] at h0
    cases hs : S.heap a with
    | none => exact absurd hs h0
    | some x =>
      have hw : S.write a v = some { S with heap := fun b => if b = a then some v else S.heap b } := by
        unfold Store.write; rw [hs]
      simp only [Store.writeAll, hw, Option.bind_some]
      apply ih
      intro i hi
      have := h (i + 1) (by simpa using hi)
      rw [Nat.mul_add, Nat.add_comm, BitVec.ofNat_add, ← BitVec.add_assoc] at this
      simp only
      split
      · simp
      · exact this

/-- **C38.** A call of a constructor with the values `vs`, when the allocator returns a block of enough words at
`p`, returns `p`, and `p` is then an object with the fields `vs`; nothing else has changed. -/
theorem C38_construct (X : Ctx P I C lim top) {fd : FnDef} (hfd : fd ∈ P.fns) (hs : fd.skip = false)
    {tag : Option Nat} {desc : String} {id : Nat} (hb : fd.body = .cons tag desc id) {vs : List Val}
    (hl : vs.length = fd.params.length) (hsm : 8 * vs.length + 8 < 2 ^ 64) {S S1 : Store σ} {a : Word}
    (halloc : P.rt P.alloc [some (.int (BitVec.ofNat 63 (8 * vs.length + if tag.isSome then 8 else 0))),
        some (.ptr (P.str desc)), some (.int (BitVec.ofNat 63 id))] S (some (.ptr a)) S1)
    (hblock : ∀ i, i < vs.length + (if tag.isSome then 1 else 0) → S1.heap (a + BitVec.ofNat 64 (8 * i)) ≠ none)
    (hneed : P.extNeed P.alloc ≤ d) {p q : Nat} {m : Mach σ} (hc : Called I lim top fd (vs.map some) S d p q m) :
    ∃ S2, IsObject S2 a tag vs ∧ S2.ext = S1.ext ∧
      (∀ b, (∀ i, i < vs.length + (if tag.isSome then 1 else 0) → b ≠ a + BitVec.ofNat 64 (8 * i)) →
        S2.heap b = S1.heap b) ∧
      Reaches I (Returned lim top m q (some (.ptr a)) S2) (p, m) := by
  have hlen : ((tag.map (fun t => Val.int (BitVec.ofNat 63 t))).toList ++ vs).length =
      vs.length + (if tag.isSome then 1 else 0) := by
    cases tag <;> simp
  obtain ⟨S2, hw⟩ := writeAll_exists (S := S1) (a := a)
    (vs := (tag.map (fun t => Val.int (BitVec.ofNat 63 t))).toList ++ vs) (by rw [hlen]; exact hblock)
  obtain ⟨h1, h2, h3⟩ := writeAll_spec hw (by rw [hlen]; split <;> omega)
  refine ⟨S2, ⟨?_, ?_, hsm⟩, h3, ?_, run_fn X hfd hs (.fnCons hb hl halloc hneed hw) hc⟩
  · rintro t rfl
    have := h1 0 _ rfl
    rwa [Nat.mul_zero, show a + BitVec.ofNat 64 0 = a from BitVec.add_zero a] at this
  · intro i v hi
    cases tag with
    | none => exact h1 i v hi
    | some t => exact h1 (i + 1) v hi
  · intro b hb
    exact h2 b (by rw [hlen]; exact hb)

/-- Reading field `i` of an object yields the value of the field. -/
theorem C38_read (X : Ctx P I C lim top) {env : Env} {S S1 : Store σ} {t : TyR} {e : Expr} {p : Word}
    {tag : Option Nat} {vs : List Val} {i : Nat} {v : Val} (h : Big P d (.expr env S e (some (.ptr p)) S1))
    (ho : IsObject S1 p tag vs) (hi : vs[i]? = some v) {fd : FnDef} {g : GS} {m : Mach σ}
    (hv : e.vars ⊆ fd.syms) (hok : e.ok g.top.length = true)
    (hpre : Pre lim top fd env S g m ((Expr.dot t e (fieldOff tag i)).use + d)) :
    Exe I C (genExpr fd.slot (.dot t e (fieldOff tag i)) false g).1 m (fun m' => m'.reg .rax = v.enc ∧
      Kept top m m' ∧ Rel lim top S1 m') := by
  intro G pre hp hk
  exact sim X (Big.dot (t := t) h (ho.field i v hi)) fd g m hv hok hpre G pre hp
    (fun m' hm => hk m' ⟨hm.2 v rfl, hm.1.kept, hm.1.rel⟩)

/-- Assigning field `i` of an object changes that field and no other cell of the heap. -/
theorem C38_assign (X : Ctx P I C lim top) {env : Env} {S S0 S1 : Store σ} {t : TyR} {e r : Expr} {p : Word}
    {tag : Option Nat} {vs : List Val} {i : Nat} {v : Val} {dc : Bool}
    (hr : Big P d (.expr env S r (some v) S0)) (h1 : Big P d (.expr env S0 e (some (.ptr p)) S1))
    (ho : IsObject S1 p tag vs) (hi : i < vs.length) {fd : FnDef} {g : GS} {m : Mach σ} (hsk : fd.skip = false)
    (ht : g.top = []) (hv : (Stmt.asg dc (.dot t e (fieldOff tag i)) r).vars ⊆ fd.syms)
    (hok : (Stmt.asg dc (.dot t e (fieldOff tag i)) r).ok = true)
    (hpre : Pre lim top fd env S g m ((Stmt.asg dc (.dot t e (fieldOff tag i)) r).use + d)) {pre : List Ev} {q : Nat}
    {G : Cfg σ → Prop} (hp : pre ++ (genStmt fd.slot false (.asg dc (.dot t e (fieldOff tag i)) r) g).1 <+: C)
    (hq : I.pos (m.mem (m.reg .rbp + 8) + 8) = some q) :
    ∃ S2 : Store σ, IsObject S2 p tag (vs.set i v) ∧
      (∀ b, b ≠ p + BitVec.ofNat 64 (fieldOff tag i) → S2.heap b = S1.heap b) ∧ S2.ext = S1.ext ∧
      ((∀ m', SPost lim top fd env S2 g ((Stmt.asg dc (.dot t e (fieldOff tag i)) r).use + d) m m' →
        Run I G (pre ++ (genStmt fd.slot false (.asg dc (.dot t e (fieldOff tag i)) r) g).1) m') → Run I G pre m) := by
  let ad : Word := p + BitVec.ofNat 64 (fieldOff tag i)
  let S2 : Store σ := { S1 with heap := fun b => if b = ad then some v else S1.heap b }
  have hsm := ho.small
  have hw : S1.write ad v = some S2 := by
    unfold Store.write
    rw [show S1.heap ad = some vs[i] from ho.field i _ (List.getElem?_eq_getElem hi)]
  refine ⟨S2, ⟨?_, ?_, by simpa using hsm⟩, fun b hb => if_neg hb, rfl, ?_⟩
  · rintro t rfl
    show (if p = ad then some v else S1.heap p) = _
    rw [if_neg ?_]
    · exact ho.tagw t rfl
    · intro h
      have h0 : p + BitVec.ofNat 64 0 = p + BitVec.ofNat 64 (fieldOff (some t) i) :=
        (BitVec.add_zero p).trans h
      have := word_inj (by omega) (by simp only [fieldOff]; omega) h0
      simp only [fieldOff] at this
      omega
  · intro j x hj
    show (if _ = ad then some v else S1.heap _) = _
    by_cases hji : j = i
    · subst hji
      rw [if_pos rfl]
      rwa [List.getElem?_set_self hi] at hj
    · rw [List.getElem?_set_ne (Ne.symm hji)] at hj
      have := (List.getElem?_eq_some_iff.1 hj).1
      rw [if_neg ?_]
      · exact ho.field _ _ hj
      · intro h
        have := word_inj (by cases tag <;> simp only [fieldOff] <;> omega)
          (by cases tag <;> simp only [fieldOff] <;> omega) h
        cases tag <;> simp only [fieldOff] at this <;> omega
  · intro hn
    have := sim X (Big.asgMem (dc := dc) hr (.locDot (t := t) h1) hw) fd g m _ hsk ht hv hok (Nat.le_refl _) hpre
      G pre q hp hq (fun _ => hn) (fun v h => by cases h)
    simpa [Stmt.head] using this

/-! `struct point { x: int y: bool }` and `enum { ... Case(p: bool) }` (the third case). -/

def tStr : TyR := { kind := .struct }

def objFns : List FnDef :=
  [{ name := "clara_Point.int.bool", params := [(0, tInt), (3, tBool)], body := .cons none "point" 12 },
   { name := "clara_Case.bool", params := [(0, tBool)], body := .cons (some 2) "case" 13 },
   { name := "clara_set.point", params := [(0, tStr)],
     body := .block (.cons (.asg false (.dot tBool (.var 0 tStr) 8) (.bool true)) .nil), retNothing := true }]

abbrev objImage (opt : Bool) : Image Word := bumpImage opt "alloc" "ioob" objFns (fun _ => 0)

theorem objCtx (opt : Bool) : Ctx (bumpProg opt "alloc" "ioob" objFns (fun _ => 0) 65536) (objImage opt)
    (genProg "alloc" "ioob" objFns) 65536 (2 ^ 60) :=
  bump_ctx' _ (by decide) (by decide) (by decide) (by decide) (by decide) (by decide)

/-- `Point(7, false)` with the next free word at 4096. -/
example (opt : Bool) : ∃ p q m S, IsObject S 4096 none [.int 7, .bool false] ∧
    Reaches (objImage opt) (Returned 65536 (2 ^ 60) m q (some (.ptr 4096)) S) (p, m) := by
  have X := objCtx opt
  obtain ⟨p, q, m, hc⟩ := bump_called (d := 0) X (List.mem_cons_self) [.int 7, .bool false] (by decide) 4096
  obtain ⟨S, h1, -, -, h2⟩ := C38_construct X List.mem_cons_self rfl (tag := none) rfl (vs := [.int 7, .bool false]) rfl
    (by decide) (a := 4096) ⟨rfl, 2, _, rfl, by decide, by decide, by decide, rfl, rfl⟩ (by decide) (Nat.le_refl 0) hc
  exact ⟨p, q, m, S, h1, h2⟩

/-- `Case(true)`. -/
example (opt : Bool) : ∃ p q m S, IsObject S 4096 (some 2) [.bool true] ∧
    Reaches (objImage opt) (Returned 65536 (2 ^ 60) m q (some (.ptr 4096)) S) (p, m) := by
  have X := objCtx opt
  have hmem : objFns[1] ∈ objFns := List.mem_cons_of_mem _ List.mem_cons_self
  obtain ⟨p, q, m, hc⟩ := bump_called (d := 0) X hmem [.bool true] (by decide) 4096
  obtain ⟨S, h1, -, -, h2⟩ := C38_construct X hmem rfl (tag := some 2) rfl (vs := [.bool true]) rfl
    (by decide) (a := 4096) ⟨rfl, 2, _, rfl, by decide, by decide, by decide, rfl, rfl⟩ (by decide) (Nat.le_refl 0) hc
  exact ⟨p, q, m, S, h1, h2⟩

def objStore : Store Word :=
  { heap := fun a => if a = 4096 then some (.int 7) else if a = 4104 then some (.bool false) else none, ext := 8192 }

/-- `p.y = true`. -/
example (opt : Bool) : ∃ p q m S, IsObject S 4096 none [.int 7, .bool true] ∧
    Reaches (objImage opt) (Returned 65536 (2 ^ 60) m q none S) (p, m) := by
  have X := objCtx opt
  have hmem : objFns[2] ∈ objFns := List.mem_cons_of_mem _ (List.mem_cons_of_mem _ List.mem_cons_self)
  obtain ⟨p, q, m, hc⟩ := bump_called_heap (d := 0) X hmem [.ptr 4096] (by decide) objStore (by
    intro a v h
    simp only [objStore] at h
    split at h
    · subst_vars; decide
    split at h
    · subst_vars; decide
    · cases h)
  have hr := run_fn X hmem rfl (.fnEnd rfl rfl rfl (.cons (.asgMem .bool (.locDot (.var rfl)) rfl) .nil)) hc
  refine ⟨p, q, m, _, ?_, hr⟩
  refine ⟨(by intro t h; cases h), ?_, by decide⟩
  intro i x hx
  match i, hx with
  | 0, hx => cases hx; rfl
  | 1, hx => cases hx; rfl

/-! ### C39 -/

/-- The whole claim: for every sequence of accepted literals, everything is emitted, and the length word of each
literal counts the bytes of its data. -/
def C39_claim : Prop :=
  ∀ ss : List Bytes, (∀ s ∈ ss, ∃ u, Lex.Spec.Lexeme u .string s) →
    ∀ order, order.Perm (stringLits {} ss).2.table →
      ∃ out, flushLits order = some out ∧ ∀ e ∈ out, e.len = (gasBytes e.text).length

/-- **C39, labels.** Two uses of literals have the same label exactly if the literals are the same. -/
theorem C39_labels (ss : List Bytes) {i j : Nat} {s t : Bytes} {m n : Nat} (hi : ss[i]? = some s)
    (hj : ss[j]? = some t) (hm : (stringLits {} ss).1[i]? = some m) (hn : (stringLits {} ss).1[j]? = some n) :
    s = t ↔ m = n := by
  obtain ⟨h, -, -, -, h5⟩ := stringLits_ok Lits.Ok.start ss
  exact entry_inj h.keys h.labs (h5 i s m hi hm) (h5 j t n hj hn)

theorem C39_labels_total (ss : List Bytes) : (stringLits {} ss).1.length = ss.length :=
  (stringLits_ok Lits.Ok.start ss).2.1

theorem mapM_emit {l : List (Bytes × Nat)} (h : ∀ x ∈ l, unquote x.1 ≠ none) :
    ∃ out, flushLits l = some out ∧ out.map (·.label) = l.map (·.2) ∧
      All₂ (fun x (e : Emitted) => unquote x.1 = some (gasBytes ((x.1.drop 1).dropLast)) →
        e.text = (x.1.drop 1).dropLast ∧ e.len = (gasBytes e.text).length) l out := by
  induction l with
  | nil => exact ⟨[], rfl, rfl, .nil⟩
  | cons x l ih =>
    obtain ⟨out, h1, h2, h3⟩ := ih (fun y hy => h y (List.mem_cons_of_mem _ hy))
    have hx := h x List.mem_cons_self
    cases hu : unquote x.1 with
    | none => exact absurd hu hx
    | some raw =>
      have he : emitLit x = some { label := x.2, len := raw.length, text := (x.1.drop 1).dropLast } := by
        rw [emitLit, hu]; rfl
      refine ⟨{ label := x.2, len := raw.length, text := (x.1.drop 1).dropLast } :: out, ?_, by simp [h2], ?_⟩
      · rw [flushLits] at h1
        rw [flushLits, List.mapM_cons, he, h1]
        rfl
      · refine .cons ?_ h3
        intro h
        rw [hu] at h
        cases h
        exact ⟨rfl, rfl⟩

/-- The proved part of **C39**, for literals that are valid UTF-8 and have no raw line feed: whatever the order of
the map, all literals are emitted; the labels emitted are those handed out, each once; and the datum of the label
handed out for a literal has its text and the number of bytes of its value as its length. -/
theorem C39_emit_partial (ss : List Bytes)
    (hs : ∀ s ∈ ss, (∃ u, Lex.Spec.Lexeme u .string s) ∧ validUtf8 s = true ∧ 10 ∉ s)
    {order : List (Bytes × Nat)} (ho : order.Perm (stringLits {} ss).2.table) :
    ∃ out, flushLits order = some out ∧ (out.map (·.label)).Nodup ∧
      (∀ e ∈ out, e.label ∈ (stringLits {} ss).1) ∧
      ∀ (i : Nat) (s : Bytes) (n : Nat), ss[i]? = some s → (stringLits {} ss).1[i]? = some n →
        ∃ e ∈ out, e.label = n ∧ e.text = (s.drop 1).dropLast ∧ e.len = (gasBytes e.text).length := by
  obtain ⟨h, hlen, -, h4, h5⟩ := stringLits_ok Lits.Ok.start ss
  have hin : ∀ x ∈ order, x.1 ∈ ss := by
    intro x hx
    rcases h4 x (ho.mem_iff.1 hx) with h | h
    · cases h
    · exact h
  have hun : ∀ x ∈ order, unquote x.1 = some (gasBytes ((x.1.drop 1).dropLast)) := by
    intro x hx
    obtain ⟨⟨u, hu⟩, hv, hn⟩ := hs _ (hin x hx)
    exact unquote_val hu hv hn
  obtain ⟨out, o1, o2, o3⟩ := mapM_emit (l := order) (fun x hx => by rw [hun x hx]; simp)
  refine ⟨out, o1, ?_, ?_, ?_⟩
  · rw [o2]
    exact (ho.map _).nodup_iff.2 h.labs
  · intro e he
    have : e.label ∈ order.map (·.2) := by rw [← o2]; exact List.mem_map_of_mem he
    obtain ⟨x, hx, hxe⟩ := List.mem_map.1 this
    obtain ⟨i, hi, hie⟩ := List.getElem_of_mem (hin x hx)
    have hi' : i < (stringLits {} ss).1.length := by rw [hlen]; exact hi
    have := h5 i x.1 _ (by rw [List.getElem?_eq_getElem hi, hie]) (List.getElem?_eq_getElem hi')
    have hx' : (x.1, x.2) ∈ (stringLits {} ss).2.table := ho.mem_iff.1 hx
    rw [← hxe, (entry_inj h.keys h.labs hx' this).1 rfl]
    exact List.getElem_mem hi'
  · intro i s n hi hn
    have hmem := ho.mem_iff.2 (h5 i s n hi hn)
    obtain ⟨k, hk, hke⟩ := List.getElem_of_mem hmem
    have hk' : k < out.length := by
      have := congrArg List.length o2
      simp only [List.length_map] at this
      omega
    have hA := (o3.get hk hk') (hun _ (List.getElem_mem hk))
    rw [hke] at hA
    refine ⟨out[k], List.getElem_mem hk', ?_, hA.1, hA.2⟩
    have : (out.map (·.label))[k]? = (order.map (·.2))[k]? := by rw [o2]
    rw [List.getElem?_map, List.getElem?_map, List.getElem?_eq_getElem hk, List.getElem?_eq_getElem hk', hke] at this
    simpa using this

/-- `"a⏎"`. -/
def nlLit : Bytes := [34, 97, 10, 34]
/-- `"\xff"` as a raw byte. -/
def badLit : Bytes := [34, 255, 34]

theorem runes_nl : runes nlLit = [34, 97, 10, 34] := by decide +kernel
theorem runes_bad : runes badLit = [34, 65533, 34] := by decide +kernel

theorem nl_lexeme (u : Lex.Uni) : Lex.Spec.Lexeme u .string nlLit := by
  unfold Lex.Spec.Lexeme
  rw [runes_nl]
  exact ⟨[97, 10], rfl, .plain (by decide) (by decide) (.plain (by decide) (by decide) .nil)⟩

theorem bad_lexeme (u : Lex.Uni) : Lex.Spec.Lexeme u .string badLit := by
  unfold Lex.Spec.Lexeme
  rw [runes_bad]
  exact ⟨[65533], rfl, .plain (by decide) (by decide) .nil⟩

/-- A literal with a raw line feed is accepted, and `flush` panics on it. -/
theorem C39_violated_newline : ¬ C39_claim := by
  intro h
  obtain ⟨out, ho, -⟩ := h [nlLit] (by simpa using ⟨asciiUni, nl_lexeme _⟩) [(nlLit, 0)] (.refl _)
  revert ho
  have : flushLits [(nlLit, 0)] = none := by decide +kernel
  rw [this]
  simp

/-- A literal with a byte that is not UTF-8 is accepted, and its length word is 3 for one byte of data. -/
theorem C39_violated_utf8 : ¬ C39_claim := by
  intro h
  obtain ⟨out, ho, h2⟩ := h [badLit] (by simpa using ⟨asciiUni, bad_lexeme _⟩) [(badLit, 0)] (.refl _)
  have : flushLits [(badLit, 0)] = some [{ label := 0, len := 3, text := [255] }] := by decide +kernel
  rw [this] at ho
  cases ho
  exact absurd (h2 _ List.mem_cons_self) (by decide +kernel)

/-- The literals `"a\n"`, `"b"`, `"a\n"`: two labels, and the escape is one byte of data. -/
example : (stringLits {} [[34, 97, 92, 110, 34], [34, 98, 34], [34, 97, 92, 110, 34]]).1 = [0, 1, 0] ∧
    flushLits (stringLits {} [[34, 97, 92, 110, 34], [34, 98, 34], [34, 97, 92, 110, 34]]).2.table =
      some [{ label := 0, len := 2, text := [97, 92, 110] }, { label := 1, len := 1, text := [98] }] ∧
    ∀ s ∈ [[34, 97, 92, 110, 34], [34, 98, 34], [34, 97, 92, 110, 34]],
      (∃ u, Lex.Spec.Lexeme u .string s) ∧ validUtf8 s = true ∧ (10 : UInt8) ∉ s := by
  refine ⟨by decide +kernel, by decide +kernel, ?_⟩
  have h1 : Lex.Spec.Lexeme asciiUni .string [34, 97, 92, 110, 34] := by
    unfold Lex.Spec.Lexeme
    rw [show runes [34, 97, 92, 110, 34] = [34, 97, 92, 110, 34] by decide +kernel]
    exact ⟨[97, 92, 110], rfl, .plain (by decide) (by decide) (.esc (by decide) .nil)⟩
  have h2 : Lex.Spec.Lexeme asciiUni .string [34, 98, 34] := by
    unfold Lex.Spec.Lexeme
    rw [show runes [34, 98, 34] = [34, 98, 34] by decide +kernel]
    exact ⟨[98], rfl, .plain (by decide) (by decide) .nil⟩
  intro s hs
  rcases List.mem_cons.1 hs with rfl | hs
  · exact ⟨⟨_, h1⟩, by decide +kernel, by decide⟩
  rcases List.mem_cons.1 hs with rfl | hs
  · exact ⟨⟨_, h2⟩, by decide +kernel, by decide⟩
  rcases List.mem_cons.1 hs with rfl | hs
  · exact ⟨⟨_, h1⟩, by decide +kernel, by decide⟩
  · cases hs

end Clara.Props
