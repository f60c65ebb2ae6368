import Verif.Lib.Boot
import Verif.Props.Startup
/-
C83: the start of a process.
-/
namespace Clara.Props
open Clara.Boot Clara.Gen

/-! ### Specification -/

/-- The arguments in which options are looked for: those before the first `--`. -/
def lookedAt (args : List Arg) : List Arg := args.takeWhile (fun x => x != dashes)

/-- The first `--` and what follows it. -/
def leftAlone (args : List Arg) : List Arg := args.dropWhile (fun x => x != dashes)

/-- The name of the long option. -/
def optionName : Arg := "gc.debug".toList.map (fun c => UInt8.ofNat c.toNat)

/-- The option asks for messages of the collector: a beginning of `--gc.debug`, or a `g` after a single dash. -/
def asksDebug : Arg → Bool
  | 45 :: 45 :: t => t.isPrefixOf optionName
  | _ :: cs => cs.contains 103
  | [] => false

/-- The number of unknown options in an argument. -/
def unknowns : Arg → Nat
  | 45 :: 45 :: t => if t.isPrefixOf optionName then 0 else 1
  | _ :: cs => cs.countP (fun c => c != 103)
  | [] => 0

/-- The claim: the arguments of the program are those of the command line. -/
def C83_claim : Prop := ∀ prog args, ∃ m, bootMain prog args = some m ∧ m.argv = prog :: args

/-- The claim that options of the program are no business of the runtime. -/
def C83_claim_silent : Prop := ∀ prog args, ∃ m, bootMain prog args = some m ∧ m.messages = 0

/-! ### Lemmas -/

theorem loop_chars (b s r : List Arg) (cs : Arg) (d : Bool) (n : Nat) :
    optionLoop { before := b, skipped := s, rest := r, chars := cs } d n =
      optionLoop { before := b, skipped := s, rest := r } (d || cs.contains 103) (n + cs.countP (fun c => c != 103)) := by
  induction cs generalizing d n with
  | nil => simp
  | cons c cs ih =>
    rw [optionLoop]
    simp only [getopt, letterOf]
    by_cases h : c = 103
    · subst h
      simp only [if_true]
      rw [ih]
      simp
    · simp only [if_neg h]
      rw [ih]
      have h1 : (c :: cs).contains 103 = cs.contains 103 := by
        simp [List.contains_cons, Ne.symm h]
      have h2 : (c :: cs).countP (fun c => c != 103) = cs.countP (fun c => c != 103) + 1 := by simp [h]
      rw [h1, h2, show n + 1 + cs.countP (fun c => c != 103) = n + (cs.countP (fun c => c != 103) + 1) by omega]

theorem getopt_skip {x : Arg} (h : isOption x = false) (b s r : List Arg) :
    getopt { before := b, skipped := s, rest := x :: r } = getopt { before := b, skipped := s ++ [x], rest := r } := by
  simp only [getopt, List.takeWhile_cons, List.dropWhile_cons, h, Bool.not_false, if_true, List.append_assoc, List.singleton_append]

theorem loop_skip {x : Arg} (h : isOption x = false) (b s r : List Arg) (d : Bool) (n : Nat) :
    optionLoop { before := b, skipped := s, rest := x :: r } d n = optionLoop { before := b, skipped := s ++ [x], rest := r } d n := by
  rw [optionLoop, getopt_skip h]
  conv => rhs; rw [optionLoop]

theorem longName_eq : longName = optionName := by decide

theorem loop_long (t : Arg) (ht : 45 :: 45 :: t ≠ dashes) (b s r : List Arg) (d : Bool) (n : Nat) :
    optionLoop { before := b, skipped := s, rest := (45 :: 45 :: t) :: r } d n =
      optionLoop { before := b ++ [45 :: 45 :: t], skipped := s, rest := r } (d || asksDebug (45 :: 45 :: t))
        (n + unknowns (45 :: 45 :: t)) := by
  have h : isOption (45 :: 45 :: t) = true := rfl
  have e : getopt { before := b, skipped := s, rest := (45 :: 45 :: t) :: r } =
      (longOf t, { before := b ++ [45 :: 45 :: t], skipped := s, rest := r }) := by
    simp only [getopt, List.takeWhile_cons, List.dropWhile_cons, h, Bool.not_true, Bool.false_eq_true, if_false, List.append_nil, if_neg ht]
  rw [optionLoop, e]
  simp only [longOf, asksDebug, unknowns, ← longName_eq]
  by_cases ht : t.isPrefixOf longName = true
  · simp [ht]
  · simp [ht]

theorem loop_short (c : UInt8) (cs : Arg) (hc : c ≠ 45) (b s r : List Arg) (d : Bool) (n : Nat) :
    optionLoop { before := b, skipped := s, rest := (45 :: c :: cs) :: r } d n =
      optionLoop { before := b ++ [45 :: c :: cs], skipped := s, rest := r } (d || asksDebug (45 :: c :: cs))
        (n + unknowns (45 :: c :: cs)) := by
  have h : isOption (45 :: c :: cs) = true := rfl
  have hx : 45 :: c :: cs ≠ dashes := by
    intro h
    injection h with _ h
    injection h with h _
    exact hc h
  have e : getopt { before := b, skipped := s, rest := (45 :: c :: cs) :: r } =
      (letterOf c, { before := b ++ [45 :: c :: cs], skipped := s, rest := r, chars := cs }) := by
    simp only [getopt, List.takeWhile_cons, List.dropWhile_cons, h, Bool.not_true, Bool.false_eq_true, if_false, List.append_nil, if_neg hx]
    split
    · rename_i h; injection h with _ h; injection h with h _; exact absurd h hc
    · rename_i h; injection h with h1 h; injection h with h2 h; rw [h2, h]
    · rename_i h1 h2; exact absurd rfl (h2 _ _ _)
  have e1 : asksDebug (45 :: c :: cs) = (c :: cs).contains 103 := by
    unfold asksDebug
    split
    · rename_i h; injection h with _ h; injection h with h _; exact absurd h hc
    · rename_i h; injection h with _ h; rw [h]
    · rename_i h; cases h
  have e2 : unknowns (45 :: c :: cs) = (c :: cs).countP (fun c => c != 103) := by
    unfold unknowns
    split
    · rename_i h; injection h with _ h; injection h with h _; exact absurd h hc
    · rename_i h; injection h with _ h; rw [h]
    · rename_i h; cases h
  rw [e1, e2]
  have := loop_chars (b ++ [45 :: c :: cs]) s r (c :: cs) d n
  rw [optionLoop] at this
  simp only [getopt] at this
  rw [← this, optionLoop, e]

theorem loop_option {x : Arg} (h : isOption x = true) (hx : x ≠ dashes) (b s r : List Arg) (d : Bool) (n : Nat) :
    optionLoop { before := b, skipped := s, rest := x :: r } d n =
      optionLoop { before := b ++ [x], skipped := s, rest := r } (d || asksDebug x) (n + unknowns x) := by
  unfold isOption at h
  split at h
  · rename_i c cs
    by_cases hc : c = 45
    · subst hc
      exact loop_long _ hx b s r d n
    · exact loop_short _ _ hc b s r d n
  · cases h

theorem loop_all (args b s : List Arg) (d : Bool) (n : Nat) :
    optionLoop { before := b, skipped := s, rest := args } d n = some
      { debugGc := d || ((lookedAt args).filter isOption).any asksDebug
        messages := n + (((lookedAt args).filter isOption).map unknowns).sum
        argv := b ++ ((lookedAt args).filter isOption ++ ((leftAlone args).take 1 ++
          (s ++ ((lookedAt args).filter (fun x => !isOption x) ++ (leftAlone args).drop 1)))) } := by
  induction args generalizing b s d n with
  | nil =>
    rw [optionLoop]
    simp [getopt, Getopt.argv, lookedAt, leftAlone]
  | cons x args ih =>
    by_cases hx : x = dashes
    · subst hx
      rw [optionLoop]
      have hd : isOption dashes = true := rfl
      have e : getopt { before := b, skipped := s, rest := dashes :: args } =
          (.finish, { before := b ++ [dashes], skipped := s, rest := args }) := by
        simp only [getopt, List.takeWhile_cons, List.dropWhile_cons, hd, Bool.not_true, Bool.false_eq_true, if_false, List.append_nil, if_true]
      rw [e]
      simp [Getopt.argv, lookedAt, leftAlone]
    · have e1 : lookedAt (x :: args) = x :: lookedAt args := by simp [lookedAt, hx]
      have e2 : leftAlone (x :: args) = leftAlone args := by simp [leftAlone, hx]
      rw [e1, e2]
      cases h : isOption x with
      | true =>
        rw [loop_option h hx, ih]
        simp [h, Bool.or_assoc, Nat.add_assoc]
      | false =>
        rw [loop_skip h, ih]
        simp [h]

/-! ### C83 -/

/-- **C83, the command line.**  The loop over the options ends; the program gets its name, the options, the first `--`, the other
arguments before it and everything behind it, each part in the order of the command line; debugging is on if some option
asks for it; every unknown option is complained about. -/
theorem C83_argv (prog : Arg) (args : List Arg) : ∃ m, bootMain prog args = some m ∧
    m.argv = prog :: ((lookedAt args).filter isOption ++ ((leftAlone args).take 1 ++
      ((lookedAt args).filter (fun x => !isOption x) ++ (leftAlone args).drop 1))) ∧
    (m.debugGc = true ↔ ∃ x ∈ lookedAt args, isOption x = true ∧ asksDebug x = true) ∧
    m.messages = (((lookedAt args).filter isOption).map unknowns).sum := by
  refine ⟨_, loop_all args [prog] [] false 0, rfl, ?_, by simp⟩
  simp

/-- No argument is lost or added. -/
theorem C83_perm (prog : Arg) (args : List Arg) : ∃ m, bootMain prog args = some m ∧ m.argv.Perm (prog :: args) := by
  obtain ⟨m, h1, h2, -⟩ := C83_argv prog args
  refine ⟨m, h1, ?_⟩
  rw [h2]
  refine List.Perm.cons _ ?_
  have e : args = lookedAt args ++ leftAlone args := (List.takeWhile_append_dropWhile).symm
  have p := List.filter_append_perm isOption (lookedAt args)
  have q := List.take_append_drop 1 (leftAlone args)
  generalize lookedAt args = a at *
  generalize leftAlone args = z at *
  rw [e]
  conv => rhs; rw [← q]
  rw [← List.append_assoc, ← List.append_assoc, ← List.append_assoc]
  refine List.Perm.append_right _ ?_
  rw [List.append_assoc]
  refine (List.Perm.append_left _ List.perm_append_comm).trans ?_
  rw [← List.append_assoc]
  exact List.Perm.append_right _ p

/-- `prog a -g` gets its arguments in another order. -/
theorem C83_violated : ¬ C83_claim := by
  intro h
  obtain ⟨m, h1, h2⟩ := h [112] [[97], [45, 103]]
  obtain ⟨m', h1', h2', -⟩ := C83_argv [112] [[97], [45, 103]]
  rw [h1'] at h1
  cases h1
  rw [h2'] at h2
  revert h2
  decide

/-- `prog -v` is an error message of the runtime. -/
theorem C83_violated_silent : ¬ C83_claim_silent := by
  intro h
  obtain ⟨m, h1, h2⟩ := h [112] [[45, 118]]
  obtain ⟨m', h1', -, -, h2'⟩ := C83_argv [112] [[45, 118]]
  rw [h1'] at h1
  cases h1
  rw [h2'] at h2
  revert h2
  decide

/-- The proved part of **C83**: the arguments are those of the command line exactly if the options come first, and there is no `--`
behind other arguments. -/
theorem C83_partial (prog : Arg) (args : List Arg) : ∃ m, bootMain prog args = some m ∧ (m.argv = prog :: args ↔
    ∃ os ns, lookedAt args = os ++ ns ∧ (∀ x ∈ os, isOption x = true) ∧ (∀ x ∈ ns, isOption x = false) ∧
      (ns = [] ∨ dashes ∉ args)) := by
  obtain ⟨m, h1, h2, -⟩ := C83_argv prog args
  refine ⟨m, h1, ?_⟩
  rw [h2]
  have e : args = lookedAt args ++ leftAlone args := (List.takeWhile_append_dropWhile).symm
  have hno : dashes ∉ lookedAt args := by
    intro hm
    have := List.all_takeWhile (p := fun x => x != dashes) (l := args)
    rw [List.all_eq_true] at this
    have := this _ hm
    simp at this
  have hz : leftAlone args = [] ∨ ∃ r, leftAlone args = dashes :: r := by
    cases hl : leftAlone args with
    | nil => exact .inl rfl
    | cons y r =>
      have := List.head?_dropWhile_not (fun x => x != dashes) args
      rw [show args.dropWhile (fun x => x != dashes) = y :: r from hl] at this
      simp at this
      exact .inr ⟨r, by rw [this]⟩
  have hd : dashes ∈ args ↔ leftAlone args ≠ [] := by
    rcases hz with h | ⟨r, h⟩
    · rw [h] at e
      rw [List.append_nil] at e
      rw [h]
      constructor
      · intro hm; rw [e] at hm; exact absurd hm hno
      · intro hn; exact absurd rfl hn
    · rw [h]
      constructor
      · intro _; simp
      · intro _; rw [e, h]; simp
  rw [hd]
  constructor
  · intro h
    have h := (List.cons.inj h).2
    rw [e] at h
    rw [← e] at h
    refine ⟨(lookedAt args).filter isOption, (lookedAt args).filter (fun x => !isOption x), ?_, ?_, ?_, ?_⟩
    · rcases hz with hz | ⟨r, hz⟩
      · rw [hz] at h e
        simp only [List.take_nil, List.drop_nil, List.append_nil, List.nil_append] at h e
        rw [h]; exact e.symm
      · rw [hz] at h e
        have h' : ((lookedAt args).filter isOption ++ dashes :: (lookedAt args).filter (fun x => !isOption x)) ++ r =
            (lookedAt args ++ [dashes]) ++ r := by
          have e' : lookedAt args ++ dashes :: r = args := e.symm
          simpa using h.trans e'.symm
        have h3 := List.append_cancel_right h'
        have hn : (lookedAt args).filter (fun x => !isOption x) = [] := by
          rcases List.eq_nil_or_concat ((lookedAt args).filter (fun x => !isOption x)) with hn | ⟨l, y, hn⟩
          · exact hn
          · rw [hn] at h3
            have h4 := congrArg List.getLast? h3
            simp only [List.concat_eq_append, ← List.cons_append, ← List.append_assoc, List.getLast?_append, List.getLast?_singleton,
              Option.some_or, Option.some.injEq] at h4
            have : y ∈ lookedAt args := (List.mem_filter.1 (by rw [hn]; simp : y ∈ (lookedAt args).filter (fun x => !isOption x))).1
            rw [h4] at this
            exact absurd this hno
        rw [hn] at h3 ⊢
        rw [List.append_nil]
        exact (List.append_cancel_right h3).symm
    · intro x hx; exact (List.mem_filter.1 hx).2
    · intro x hx; simpa using (List.mem_filter.1 hx).2
    · rcases hz with hz | ⟨r, hz⟩
      · exact .inr (by rw [hz]; simp)
      · rw [hz] at h e
        refine .inl ?_
        have h' : ((lookedAt args).filter isOption ++ dashes :: (lookedAt args).filter (fun x => !isOption x)) ++ r =
            (lookedAt args ++ [dashes]) ++ r := by
          have e' : lookedAt args ++ dashes :: r = args := e.symm
          simpa using h.trans e'.symm
        have h3 := List.append_cancel_right h'
        rcases List.eq_nil_or_concat ((lookedAt args).filter (fun x => !isOption x)) with hn | ⟨l, y, hn⟩
        · exact hn
        · rw [hn] at h3
          have h4 := congrArg List.getLast? h3
          simp only [List.concat_eq_append, ← List.cons_append, ← List.append_assoc, List.getLast?_append, List.getLast?_singleton,
            Option.some_or, Option.some.injEq] at h4
          have : y ∈ lookedAt args := (List.mem_filter.1 (by rw [hn]; simp : y ∈ (lookedAt args).filter (fun x => !isOption x))).1
          rw [h4] at this
          exact absurd this hno
  · rintro ⟨os, ns, h, ho, hn, hc⟩
    have f1 : (lookedAt args).filter isOption = os := by
      rw [h, List.filter_append, List.filter_eq_self.2 ho, List.filter_eq_nil_iff.2 (fun x hx => by simp [hn x hx]), List.append_nil]
    have f2 : (lookedAt args).filter (fun x => !isOption x) = ns := by
      rw [h, List.filter_append, List.filter_eq_nil_iff.2 (fun x hx => by simp [ho x hx]), List.filter_eq_self.2 (fun x hx => by simp [hn x hx]),
        List.nil_append]
    rw [f1, f2]
    congr 1
    conv => rhs; rw [e, h]
    rcases hc with rfl | hc
    · simp only [List.append_nil, List.nil_append, List.take_append_drop]
    · have hc : leftAlone args = [] := by simpa using hc
      rw [hc]; simp

/-- **C83, the program.**  With `C58`: the list of arguments that the program sees.  The vector of pointers at `argv` holds what
`bootMain` leaves. -/
theorem C83_args (prog : Arg) (args : List Arg) (x : Clara.Lib.Ext) (h : Clara.Lib.Heap) (argv : BitVec 64) (m : Main)
    (hm : bootMain prog args = some m) (hv : Vector x argv m.argv) (hl : ∀ s ∈ prog :: args, s.length ≤ 2 ^ 59)
    (hn : args.length + 1 < 2 ^ 31) :
    ∃ refs h', Clara.Lib.Ends (Clara.Lib.parseArgs x (args.length + 1 : Nat) argv) h refs h' ∧ Strings h' refs m.argv ∧
      m.argv.Perm (prog :: args) := by
  obtain ⟨m', h1, h2⟩ := C83_perm prog args
  rw [hm] at h1
  cases h1
  have hlen : m.argv.length = args.length + 1 := by rw [h2.length_eq]; rfl
  obtain ⟨refs, h', a, b⟩ := C58_args h hv (fun s hs => hl s (h2.mem_iff.1 hs)) (by rw [hlen]; omega)
  rw [hlen] at a
  exact ⟨refs, h', a, b, h2⟩

/-! ### The entry in assembly -/

variable {σ : Type}

/-- The state in which `entrypoint` is called: a number and two pointers as arguments, the stack as the ABI wants it. -/
structure EntryCall (b s : BMach σ) (argc : Nat) (ra : Word) : Prop where
  argc : s.reg .rdi = (Val.int (BitVec.ofNat 63 argc)).enc
  argv : s.reg .rsi = b.reg .rsi
  envp : s.reg .rdx = b.reg .rdx
  stack : s.reg .rsp = b.reg .rsp - 24
  ret : s.load (s.reg .rsp) = ra
  ext : s.ext = b.ext

/-- What a function of the program does with the machine of its caller: it returns behind the call, with the frame pointer of the
caller, and leaves the memory of the caller alone. -/
structure Returns (s e : BMach σ) : Prop where
  rsp : e.reg .rsp = s.reg .rsp + 8
  rbp : e.reg .rbp = s.reg .rbp
  mem : ∀ j, j < 16 → e.byte (s.reg .rsp + 8 + BitVec.ofNat 64 j) = s.byte (s.reg .rsp + 8 + BitVec.ofNat 64 j)

/-- The state at the call. -/
def atCall (b : BMach σ) (ra ra' : Word) : BMach σ :=
  let e := b.entered ra
  let e1 := (e.set .rdi (e.reg .rdi <<< 1)).noFlags
  let e2 := (e1.set .rdi (e1.reg .rdi ||| BitVec.ofInt 64 1)).noFlags
  e2.push ra'

theorem atCall_ok (b : BMach σ) (ra ra' : Word) {argc : Nat} (h : b.reg .rdi = BitVec.ofNat 64 argc) :
    EntryCall b (atCall b ra ra') argc ra' where
  argc := by
    simp only [atCall]
    rw [BMach.push_reg _ _ (by decide)]
    simp only [BMach.set, BMach.noFlags, if_true, entered_reg b ra (r := .rdi) (by decide) (by decide), h]
    have := tag_word (BitVec.ofNat 64 argc)
    rw [show BitVec.setWidth 63 (BitVec.ofNat 64 argc) = BitVec.ofNat 63 argc by
      apply BitVec.eq_of_toNat_eq; simp] at this
    exact this
  argv := by
    simp only [atCall]
    rw [BMach.push_reg _ _ (by decide)]
    simp [BMach.set, BMach.noFlags, entered_reg]
  envp := by
    simp only [atCall]
    rw [BMach.push_reg _ _ (by decide)]
    simp [BMach.set, BMach.noFlags, entered_reg]
  stack := by
    simp only [atCall]
    rw [BMach.push_rsp]
    simp only [BMach.set, BMach.noFlags, reduceCtorEq, if_false, entered_rsp]
    rw [BitVec.sub_sub]; rfl
  ret := by
    simp only [atCall]
    show load64 _ _ = _
    rw [BMach.push_byte, BMach.push_rsp, load_store]
  ext := rfl

/-- **C83, the entry.**  Every run of the code of `clara_asm_entrypoint` calls `entrypoint` once, with the number of arguments as a
number of the program and both pointers; when that returns, it returns to the C code with the stack and the frame pointer of
the C code. -/
theorem C83_entry (abs : Abs → Word) (callee : String → Word → BMach σ → BMach σ → Prop) (f : String) (b b' : BMach σ) (ra w : Word)
    (argc : Nat) (ha : b.reg .rdi = BitVec.ofNat 64 argc) (hc : ∀ g ra' s e, callee g ra' s e → Returns s e)
    (hr : HRuns abs callee (b.push ra) (entryCode f) w b') :
    ∃ ra' s e, callee f ra' s e ∧ EntryCall b s argc ra' ∧ w = ra ∧ b'.reg .rsp = b.reg .rsp ∧ b'.reg .rbp = b.reg .rbp ∧
      b'.byte = e.byte ∧ ∀ r, r ≠ .rsp → r ≠ .rbp → b'.reg r = e.reg r := by
  unfold entryCode inFrame at hr
  cases hr with
  | ins h1 hr =>
  simp only [hexec, bexec, Option.some.injEq] at h1
  cases hr with
  | ins h2 hr =>
  cases hr with
  | ins h3 hr =>
  cases hr with
  | ins h4 hr => simp [hexec, bexec] at h4
  | call h4 hr =>
  rename_i b1 b2 b3 ra' e
  simp only [hexec, bexec, Option.some.injEq] at h2 h3
  have hs : b3.push ra' = atCall b ra ra' := by
    rw [← h3, ← h2, ← h1]
    rfl
  rw [hs] at h4
  have hret := hc _ _ _ _ h4
  have hE := atCall_ok b ra ra' ha
  refine ⟨ra', _, e, h4, hE, ?_⟩
  cases hr with
  | ins h5 hr =>
  simp only [hexec, bexec, Option.some.injEq] at h5
  cases hr with
  | ins h6 hr => simp [hexec, bexec] at h6
  | ret =>
  have hbp : e.reg .rbp = b.reg .rsp - 16 := by
    rw [hret.rbp]
    simp only [atCall]
    rw [BMach.push_reg _ _ (by decide)]
    simp only [BMach.set, BMach.noFlags, reduceCtorEq, if_false, entered_rbp]
  have h16 : (atCall b ra ra').reg .rsp + 8 = b.reg .rsp - 16 := by
    rw [hE.stack]
    rw [show (24 : Word) = 16 + 8 from rfl, ← BitVec.sub_sub, BitVec.sub_add_cancel]
  have hbyte : ∀ j, j < 16 → e.byte (b.reg .rsp - 16 + BitVec.ofNat 64 j) = (b.entered ra).byte (b.reg .rsp - 16 + BitVec.ofNat 64 j) := by
    intro j hj
    have := hret.mem j hj
    rw [h16] at this
    rw [this]
    simp only [atCall]
    rw [BMach.push_byte]
    simp only [BMach.set, BMach.noFlags, reduceCtorEq, if_false, entered_rsp]
    rw [store64, if_neg]
    have : b.reg .rsp - 16 + BitVec.ofNat 64 j - (b.reg .rsp - 16 - 8) = BitVec.ofNat 64 (j + 8) := by
      rw [BitVec.ofNat_add]
      generalize b.reg .rsp - 16 = t
      simp only [BitVec.sub_eq_add_neg, BitVec.neg_add, BitVec.neg_neg]
      rw [show t + BitVec.ofNat 64 j + (-t + 8) = (t + -t) + (BitVec.ofNat 64 j + 8) by ac_rfl]
      rw [← BitVec.sub_eq_add_neg, BitVec.sub_self]
      simp
    rw [this, BitVec.toNat_ofNat]
    omega
  have l1 : load64 e.byte (b.reg .rsp - 16) = b.reg .rbp := by
    rw [← entered_old b ra]
    apply load_congr
    intro k hk
    exact hbyte k (by omega)
  have l2 : load64 e.byte (b.reg .rsp - 16 + 8) = ra := by
    have e8 : b.reg .rsp - 16 + 8 = b.reg .rsp - 8 := by
      rw [← sub16, BitVec.sub_add_cancel]
    rw [e8, ← entered_ret b ra]
    apply load_congr
    intro k hk
    have := hbyte (8 + k) (by omega)
    rw [BitVec.ofNat_add, ← BitVec.add_assoc] at this
    rw [← e8]
    exact this
  have e16 : b.reg .rsp - 16 + 8 + 8 = b.reg .rsp := by
    rw [← sub16, BitVec.sub_add_cancel, BitVec.sub_add_cancel]
  rw [← h5]
  simp only [BMach.load, BMach.set, if_true, hbp, l1, l2, e16, reduceCtorEq, if_false]
  refine ⟨trivial, trivial, trivial, trivial, ?_⟩
  intro r h1 h2
  simp [h1, h2]

/-- The stack at the call is a multiple of 16, as the ABI asks, if it is at the call of `clara_asm_entrypoint`. -/
theorem C83_aligned (b s : BMach σ) (argc : Nat) (ra : Word) (h : EntryCall b s argc ra) (ha : (b.reg .rsp).toNat % 16 = 0) :
    (s.reg .rsp + 8).toNat % 16 = 0 := by
  rw [h.stack]
  have : b.reg .rsp - 24 + 8 = b.reg .rsp - 16 := by
    rw [show (24 : Word) = 16 + 8 from rfl, ← BitVec.sub_sub, BitVec.sub_add_cancel]
  rw [this, BitVec.toNat_sub]
  have : (16 : Word).toNat = 16 := rfl
  have := (b.reg .rsp).isLt
  omega

/-! ### Examples -/

/-- `prog a -g --gc.d b -- -g`: the options first. -/
example : (bootMain [112] [[97], [45, 103], [45, 45, 103, 99, 46, 100], [98], [45, 45], [45, 103]]).map (·.argv) =
    some [[112], [45, 103], [45, 45, 103, 99, 46, 100], [45, 45], [97], [98], [45, 103]] := by
  obtain ⟨m, h1, h2, -⟩ := C83_argv [112] [[97], [45, 103], [45, 45, 103, 99, 46, 100], [98], [45, 45], [45, 103]]
  rw [h1, Option.map_some, h2]
  decide

/-- The arguments `-gx -- a -v` are left as they are. -/
example : ∃ m, bootMain [112] [[45, 103, 120], [45, 45], [97], [45, 118]] = some m ∧
    m.argv = [[112], [45, 103, 120], [45, 45], [97], [45, 118]] := by
  obtain ⟨m, h1, h2⟩ := C83_partial [112] [[45, 103, 120], [45, 45], [97], [45, 118]]
  exact ⟨m, h1, h2.2 ⟨[[45, 103, 120]], [], by decide, by decide, by decide, .inl rfl⟩⟩

/-- A run of the entry: the program returns at once. -/
example (b : BMach σ) (ra : Word) : ∃ w b', HRuns (fun _ => 0)
    (fun _ ra' s e => s.load (s.reg .rsp) = ra' ∧ e = s.set .rsp (s.reg .rsp + 8)) (b.push ra) (entryCode "clara_entrypoint") w b' := by
  refine ⟨_, _, .ins rfl (.ins rfl (.ins rfl (.call (ra := 77) ⟨?_, rfl⟩ (.ins rfl .ret))))⟩
  · show load64 _ _ = _
    exact load_store _ _ _

end Clara.Props
