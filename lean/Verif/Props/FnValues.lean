import Verif.Gen.Rename
import Verif.Gen.Frames
import Verif.Props.Codegen
/-
Property C35 for programs with function values.
-/
namespace Clara.Props
open Clara.Gen

variable {σ : Type} {P : Prog σ} {I I' : Image σ} {C : List Ev} {lim top : Nat}

/-- The runtime and external functions do the same whatever the addresses of the functions of the program are: given corresponding values
and stores they return corresponding values and stores.  No literal is at the address of a function. -/
structure Blind (K : Nat) (P P' : Prog σ) : Prop where
  lits : ∀ s, ∀ fd ∈ P.fns, P.fnAddr fd.name ≠ P.str s
  rt : ∀ f vs S v S1, P.rt f vs S v S1 → ∀ vs' S', ValsR P P' vs vs' → StoreR K P P' S S' →
    ∃ v' S1', P'.rt f vs' S' v' S1' ∧ OptR P P' v v' ∧ StoreR K P P' S1 S1'
  extern : ∀ f fi args vs S w v S1, P.ext f (extArgs fi args vs) S w S1 → extRes fi w v → ∀ vs' S', ValsR P P' vs vs' →
    StoreR K P P' S S' → ∃ w' v' S1', P'.ext f (extArgs fi args vs') S' w' S1' ∧ extRes fi w' v' ∧ OptR P P' v v' ∧ StoreR K P P' S1 S1'

/-- A name that no function of the program has is at no address. -/
theorem fnAddr_other (X : Ctx P I C lim top) {f : String} (h : ∀ fd ∈ P.fns, fd.name ≠ f) : I.fnAddr f = 0 := by
  rw [Image.fnAddr]
  cases hf : I.find (.fn f) with
  | none => rfl
  | some p =>
    exfalso
    have := label_of_find hf
    rw [X.loaded.code, itemLabels_peep, X.code] at this
    rcases genProg_label this with e | ⟨fd, h1, h2⟩ | ⟨s, n, e, -⟩
    · cases e
    · injection h2 with h2
      exact h fd h1 h2.symm
    · cases e

/-- Functions are behind the beginning of the code. -/
theorem fnAddr_base (X : Ctx P I C lim top) {fd : FnDef} (h : fd ∈ P.fns) : I.base.toNat ≤ (P.fnAddr fd.name).toNat := by
  obtain ⟨p, h1, -⟩ := fn_pos X h
  rw [← X.addr, Image.fnAddr, h1]
  have h2 : I.offset p ≤ I.offset I.code.length := by
    rw [Image.find, List.findIdx?_eq_some_iff_getElem] at h1
    obtain ⟨hlt, -⟩ := h1
    exact Image.offset_mono (by omega)
  have h3 := X.loaded.fits.2
  simp only [Image.addr, BitVec.toNat_add, BitVec.toNat_ofNat]
  omega

/-- Different functions are at different addresses. -/
theorem fnAddr_inj (X : Ctx P I C lim top) {fd fd' : FnDef} (h : fd ∈ P.fns) (h' : fd' ∈ P.fns) (e : P.fnAddr fd.name = P.fnAddr fd'.name) :
    fd.name = fd'.name := by
  obtain ⟨p, h1, h2⟩ := fn_pos X h
  obtain ⟨p', h1', h2'⟩ := fn_pos X h'
  rw [e, h2'] at h2
  cases h2
  have a := find_label_at h1
  rw [find_label_at h1'] at a
  injection a with a
  injection a with a
  injection a with a
  exact a.symm

theorem renamed_images {K : Nat} (X : Ctx P I C lim top) (X' : Ctx { P with fnAddr := I'.fnAddr } I' C lim top) (hb : I.base ≠ 0)
    (B : Blind K P { P with fnAddr := I'.fnAddr }) : Renamed K P { P with fnAddr := I'.fnAddr } where
  fns := rfl
  alloc := rfl
  str := fun _ => rfl
  need := fun _ => rfl
  lits := B.lits
  inj := fun fd h fd' h' => fnAddr_inj X h h'
  other := by
    intro f hf
    have h1 : P.fnAddr f = 0 := by rw [← X.addr]; exact fnAddr_other X hf
    refine ⟨by rw [h1]; exact fnAddr_other X' hf, ?_⟩
    intro fd hfd e
    have h2 := fnAddr_base X hfd
    rw [e, h1] at h2
    exact hb (by
      apply BitVec.eq_of_toNat_eq
      have : (0 : Word).toNat = 0 := rfl
      omega)
  rt := B.rt
  extern := B.extern

theorem word_fn {K : Nat} {g : String → Word} (R : Renamed K P { P with fnAddr := g }) {fd : FnDef} (hfd : fd ∈ P.fns) {f : String}
    (hf : fd.name = f) {w : Word} (h : WordR P { P with fnAddr := g } (P.fnAddr f) w) : w = g f := by
  subst hf
  exact WordR.fn R hfd h

/-- **C35** (with function values).  `I` is the image written through the optimiser and `I'` the image written without it; functions are at
different addresses in them.  A call that ends according to the source semantics returns in both, with the same result and the same heap,
where a function in the one is the same function in the other.  Missing from the full claim: a runtime that tells addresses of code apart
(`Blind`), fields so far into an object that they reach over the code (`near`), and argument lists for which the generated code is wrong with
and without the optimiser (C37). -/
theorem C35_values_partial {K : Nat} (X : Ctx P I C lim top) (X' : Ctx { P with fnAddr := I'.fnAddr } I' C lim top) (_ : I.opt = true)
    (_ : I'.opt = false) (hb : I.base ≠ 0) (B : Blind K P { P with fnAddr := I'.fnAddr }) (hn : ∀ fd ∈ P.fns, fd.body.near K = true)
    {fd : FnDef} (hfd : fd ∈ P.fns) (hs : fd.skip = false) {vs vs' : List (Option Val)} {S S' S1 : Store σ} {v : Option Val} {d : Nat}
    (h : Big P d (.fn fd vs S v S1)) (hvs : ValsR P { P with fnAddr := I'.fnAddr } vs vs') (hS : StoreR K P { P with fnAddr := I'.fnAddr } S S')
    {p q p' q' : Nat} {m m' : Mach σ} (hc : Called I lim top fd vs S d p q m) (hc' : Called I' lim top fd vs' S' d p' q' m') :
    ∃ v' S1', OptR P { P with fnAddr := I'.fnAddr } v v' ∧ StoreR K P { P with fnAddr := I'.fnAddr } S1 S1' ∧
      Reaches I (Returned lim top m q v S1) (p, m) ∧ Reaches I' (Returned lim top m' q' v' S1') (p', m') := by
  obtain ⟨v', S1', h', r, s⟩ := Big.rename (renamed_images X X' hb B) hn h (hn fd hfd) vs' S' hvs hS
  exact ⟨v', S1', r, s, run_fn X hfd hs h hc, run_fn X' (fd := fd) hfd hs h' hc'⟩

/-! ### A runtime with a bump allocator, below the code -/

theorem bump_fnAddr {opt : Bool} {alloc ioob : String} {fns : List FnDef} {str : String → Word} {lim top : Nat}
    (X : Ctx (bumpProg opt alloc ioob fns str lim) (bumpImage opt alloc ioob fns str) (genProg alloc ioob fns) lim top)
    (hlen : (cProg alloc ioob fns).length < 2 ^ 50) {fd : FnDef} (h : fd ∈ fns) :
    4096 ≤ ((bumpProg opt alloc ioob fns str lim).fnAddr fd.name).toNat ∧ ((bumpProg opt alloc ioob fns str lim).fnAddr fd.name).toNat < 2 ^ 54 := by
  refine ⟨fnAddr_base X h, ?_⟩
  obtain ⟨p, h1, -⟩ := fn_pos X h
  rw [cProg_eq] at hlen
  have h2 : p ≤ (bumpImage opt alloc ioob fns str).code.length := by
    rw [Image.find, List.findIdx?_eq_some_iff_getElem] at h1
    obtain ⟨hlt, -⟩ := h1
    omega
  have h3 := peepWith_len opt (genProg alloc ioob fns)
  have h4 : (bumpImage opt alloc ioob fns str).code.length ≤ (genProg alloc ioob fns).length := h3
  have h5 := bump_size opt alloc ioob fns str p
  have h6 : (bumpImage opt alloc ioob fns str).base.toNat = 4096 := rfl
  rw [← X.addr, Image.fnAddr, h1]
  simp only [Image.addr, BitVec.toNat_add, BitVec.toNat_ofNat]
  omega

theorem bump_blind {K : Nat} {alloc ioob : String} {fns : List FnDef} {str : String → Word} {lim top : Nat}
    (X : Ctx (bumpProg true alloc ioob fns str lim) (bumpImage true alloc ioob fns str) (genProg alloc ioob fns) lim top)
    (hlen : (cProg alloc ioob fns).length < 2 ^ 50) (hlim : lim < 4096) (hK : K < 2 ^ 60) (hstr : ∀ s, (str s).toNat < 4096) :
    Blind K (bumpProg true alloc ioob fns str lim) (bumpProg false alloc ioob fns str lim) where
  lits := by
    intro s fd h e
    have h1 := (bump_fnAddr X hlen h).1
    have h2 := hstr s
    rw [e] at h1
    exact absurd (show ((bumpProg true alloc ioob fns str lim).str s).toNat < 4096 from h2) (by omega)
  rt := by
    rintro f vs S v S1 ⟨hf, n, rest, rfl, h50, h8, hl, rfl, rfl⟩ vs' S' hv hS
    cases vs' with
    | nil => exact hv.elim
    | cons x vs' =>
      obtain ⟨x, rfl, hx⟩ := OptR.some' hv.1
      obtain rfl := ValR.int hx
      refine ⟨_, _, ⟨hf, n, vs', rfl, h50, by rw [hS.ext]; exact h8, by rw [hS.ext]; exact hl, rfl, rfl⟩, ?_, ?_⟩
      · rw [hS.ext]
        refine .inr ⟨rfl, fun fd h e => ?_⟩
        have h1 := (bump_fnAddr X hlen h).1
        rw [e] at h1
        omega
      · refine ⟨fun a => ?_, by rw [hS.ext], fun fd h o ho => ?_⟩
        · dsimp only
          rw [hS.ext]
          split
          · exact rfl
          · exact hS.heap a
        · dsimp only
          rw [if_neg]
          · exact hS.apart fd h o ho
          · rintro ⟨-, h2, -⟩
            have h1 := bump_fnAddr X hlen h
            rw [BitVec.toNat_add, BitVec.toNat_ofNat] at h2
            omega
  extern := by intro f fi args vs S w v S1 h; exact h.elim

/-! ### A function in an object -/

/-- `fn h(x: int) int = k(x)`, `fn k(x: int) int = x`, `fn pick() fn(int) int = k`, `fn ap(f: fn(int) int, y: int) int = f(y)`,
`struct Box { f: fn(int) int }` and `fn m() int = ap(Box(pick()).f, 3)`. -/
def vFns : List FnDef := hFns ++
  [{ name := "clara_pick", params := [], body := .expr (.fnRef "clara_k.int" false ⟨.function, 0⟩) },
   { name := "clara_ap", params := [(0, ⟨.function, 0⟩), (1, tInt)], body := .expr (.callVar 0 { ret := tInt } [.var 1 tInt]) },
   { name := "clara_Box", params := [(0, ⟨.function, 0⟩)], body := .cons none "Box" 7 },
   { name := "clara_m", params := [], body := .expr (.callFn "clara_ap" { ret := tInt }
      [.dot ⟨.function, 0⟩ (.callFn "clara_Box" { ret := ⟨.struct, 0⟩ } [.callFn "clara_pick" { ret := ⟨.function, 0⟩ } []]) 0, .int 3]) }]

theorem vCtx (opt : Bool) : Ctx (bumpProg opt "alloc" "ioob" vFns (fun _ => 0) 2048)
    (bumpImage opt "alloc" "ioob" vFns (fun _ => 0)) (genProg "alloc" "ioob" vFns) 2048 (2 ^ 60) :=
  bump_ctx' _ (by decide) (by decide) (by decide) (by decide) (by decide) (by decide)

theorem v_blind : Blind 0 (bumpProg true "alloc" "ioob" vFns (fun _ => 0) 2048) (bumpProg false "alloc" "ioob" vFns (fun _ => 0) 2048) :=
  bump_blind (vCtx true) (by decide) (by decide) (by decide) (fun _ => by decide)

theorem vBig (opt : Bool) : ∃ S, Big (bumpProg opt "alloc" "ioob" vFns (fun _ => 0) 2048) 100
    (.fn vFns[5] [] { heap := fun _ => none, ext := 8 } (some (.int 3)) S) ∧
      S.heap 8 = some (.ptr ((bumpProg opt "alloc" "ioob" vFns (fun _ => 0) 2048).fnAddr "clara_k.int")) := by
  have m4 : vFns[4] ∈ (bumpProg opt "alloc" "ioob" vFns (fun _ => 0) 2048).fns := List.getElem_mem _
  have m3 : vFns[3] ∈ (bumpProg opt "alloc" "ioob" vFns (fun _ => 0) 2048).fns := List.getElem_mem _
  have m2 : vFns[2] ∈ (bumpProg opt "alloc" "ioob" vFns (fun _ => 0) 2048).fns := List.getElem_mem _
  have m1 : vFns[1] ∈ (bumpProg opt "alloc" "ioob" vFns (fun _ => 0) 2048).fns := List.getElem_mem _
  generalize hw : (bumpProg opt "alloc" "ioob" vFns (fun _ => 0) 2048).fnAddr "clara_k.int" = w
  refine ⟨_, .fnExpr rfl rfl (.callFn (d' := 50) (fd := vFns[3]) rfl
    (.argsCons (.dot (v := .ptr w) (.callFn (d' := 50) (fd := vFns[4]) rfl
      (.argsCons (.callFn (d' := 0) (fd := vFns[2]) rfl .argsNil m2 rfl rfl (.fnExpr rfl rfl .fnRef) (by decide)) .argsNil) m4 rfl rfl
      (.fnCons (tag := none) (desc := "Box") (id := 7) (vals := [.ptr _]) rfl rfl
        ⟨rfl, 1, _, rfl, by decide, by decide, by decide, rfl, rfl⟩ (Nat.zero_le _) rfl) (by decide)) ?_) (.argsCons .int .argsNil))
    m3 rfl rfl (.fnExpr rfl rfl (.callVar (d' := 0) (fd := vFns[1]) rfl ?_ (.argsCons (.var rfl) .argsNil) m1 rfl (.fnExpr rfl rfl (.var rfl)) (by decide)))
    (by decide)), ?_⟩
  · rw [← hw]; rfl
  · rw [← hw]; rfl
  · rw [← hw]; rfl

/-- The addresses differ, -/
example : (bumpImage true "alloc" "ioob" vFns (fun _ => 0)).fnAddr "clara_k.int" ≠ (bumpImage false "alloc" "ioob" vFns (fun _ => 0)).fnAddr "clara_k.int" := by
  decide +kernel

/-- but `m()` is 3 in both images and leaves `k` in the object. -/
example : ∃ p q m S p' q' m' S',
    Reaches (bumpImage true "alloc" "ioob" vFns (fun _ => 0)) (Returned 2048 (2 ^ 60) m q (some (.int 3)) S) (p, m) ∧
    Reaches (bumpImage false "alloc" "ioob" vFns (fun _ => 0)) (Returned 2048 (2 ^ 60) m' q' (some (.int 3)) S') (p', m') ∧
    S.heap 8 = some (.ptr ((bumpProg true "alloc" "ioob" vFns (fun _ => 0) 2048).fnAddr "clara_k.int")) ∧
    S'.heap 8 = some (.ptr ((bumpImage false "alloc" "ioob" vFns (fun _ => 0)).fnAddr "clara_k.int")) := by
  have m5 : vFns[5] ∈ vFns := List.getElem_mem _
  have m1 : vFns[1] ∈ vFns := List.getElem_mem _
  obtain ⟨p, q, m, hc⟩ := bump_called (d := 100) (vCtx true) m5 [] (by decide) 8
  obtain ⟨p', q', m', hc'⟩ := bump_called (d := 100) (vCtx false) m5 [] (by decide) 8
  have hS : StoreR 0 (bumpProg true "alloc" "ioob" vFns (fun _ => 0) 2048) (bumpProg false "alloc" "ioob" vFns (fun _ => 0) 2048)
      ⟨fun _ => none, 8⟩ ⟨fun _ => none, 8⟩ := ⟨fun _ => trivial, rfl, fun _ _ _ _ => rfl⟩
  obtain ⟨S, hb, h8⟩ := vBig true
  obtain ⟨v', S1', r, s, h1, h2⟩ := C35_values_partial (K := 0) (vs := []) (vs' := []) (vCtx true) (vCtx false) rfl rfl (by decide) v_blind
    (by decide) m5 rfl hb trivial hS hc hc'
  obtain ⟨v', rfl, hv⟩ := OptR.some' r
  obtain rfl := ValR.int hv
  obtain ⟨x, hx, rx⟩ := s.read h8
  obtain ⟨w, rfl, hw⟩ := rx.ptr
  have e := word_fn (renamed_images (vCtx true) (vCtx false) (by decide) v_blind) m1 rfl hw
  rw [e] at hx
  exact ⟨p, q, m, S, p', q', m', S1', h1, h2, h8, hx⟩

end Clara.Props
