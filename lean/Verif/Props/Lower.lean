import Verif.Sema.Terminate
import Verif.Sema.Match
import Verif.Sema.Stable
set_option linter.unusedVariables false
/-
Properties C22 to C26: functions return, `match` is exhaustive and runs the right case, `for` loops
visit the values they should.

The meaning of source statements is `SBig` (`Verif/Sema/Source.lean`), that of the lowered statements,
which code is generated for, is `Big` (`Verif/Gen/Sem.lean`; C34 is about the code generated from it).
-/
namespace Clara.Props
open Clara.Gen Clara.Sema

/-! ### A program for the examples: the library function `asEnum`, and two functions that count how
often they are called: `next` returns the array at address 64, and `count` returns 0 -/

def lxUnsafe : FnInfo := { ext := true, ret := ⟨.struct, 0⟩ }

def lxAsEnum : SFn :=
  { name := "asEnum", params := [(0, ⟨.pointer, 0⟩)],
    body := .expr (.callFn "unsafe" lxUnsafe [.var 0 ⟨.pointer, 0⟩, .int 0, .typ ⟨.struct, 0⟩]) }

def lxP : SProg Nat :=
  { fns := [lxAsEnum],
    base :=
      { fns := [], alloc := "claralloc", ioob := "ioob", str := fun _ => 0, fnAddr := fun _ => 0,
        ext := fun f vs S w S' => f = "unsafe" ∧ vs = [some w, some 1, none] ∧ S' = S,
        rt := fun f vs S v S' => S' = { S with ext := S.ext + 1 } ∧
          (f = "next" ∧ v = some (.ptr 64) ∨ f = "count" ∧ v = some (.int 0)),
        extNeed := fun _ => 0 } }

def lxL : Lib := ⟨"asEnum", { ret := ⟨.struct, 0⟩ }, ⟨.array, 0⟩⟩

theorem lxLibOk : LibOk lxL lxP where
  info := rfl
  asEnum := by
    refine ⟨lxAsEnum, "unsafe", lxUnsafe, 0, ⟨.pointer, 0⟩, ⟨.struct, 0⟩, List.mem_singleton_self _, rfl, rfl, rfl, rfl, rfl, rfl, ?_, ?_⟩
    · intro fd' h _
      exact List.mem_singleton.mp h
    · intro a S w S'
      constructor
      · rintro ⟨-, h, rfl⟩
        simp only [List.cons.injEq, Option.some.injEq, and_true] at h
        exact ⟨h.symm, rfl⟩
      · rintro ⟨rfl, rfl⟩
        exact ⟨rfl, rfl, rfl⟩
  rt := by
    rintro vs S v S' ⟨-, ⟨h, -⟩ | ⟨h, -⟩⟩ <;> exact absurd h (by decide)

theorem lxFine (N : Nat) : ∀ fd ∈ lxP.fns, fd.Fine N := by
  intro fd h
  rw [List.mem_singleton.mp h]
  trivial

/-! ### C22: a function with a result always returns -/

/-- **C22.** The body of a function that passes the check for a missing return does not run off its
end, whatever the ranges of loops are, when every `match` has a case for its value (which is C23). -/
theorem C22 {σ : Type} (O : Opts) (P : SProg σ) (hO : O.pass = false) (fd : SFn) (ss : SSs) (hb : fd.body = .block ss)
    (hr : fd.returns = true) (hn : fd.retNothing = false) {ρ ρ' : Env} {S S' : Store σ} {o : Out}
    (h : SBig O P (.stmts ρ S ss o ρ' S')) : ∃ v, o = .ret v := by
  have ht : ss.term = true := by simpa [SFn.returns, hb, hn] using hr
  rcases ends h ht with h | h
  · exact h
  · rw [h.1] at hO
    cases hO

/-- **C22** for the statements that code is generated for: the lowered body runs off its end only when
one of its `match` statements was reached with a value whose tag has no case. -/
theorem C22_lowered {σ : Type} {L : Lib} {P : SProg σ} {N : Nat} (hL : LibOk L P) (hF : ∀ fd ∈ P.fns, fd.Fine N)
    (fd : SFn) (ss : SSs) (hb : fd.body = .block ss) (hfine : fd.Fine N) (hr : fd.returns = true) (hn : fd.retNothing = false)
    {d : Nat} {ρ ρ' : Env} {S S' : Store σ} {o : Out} (h : Big (lowP L N P) d (.stmts ρ S (lowL L ss N).1 o ρ' S')) :
    (∃ v, o = .ret v) ∨ ∃ e cs, (e, cs) ∈ ss.matches ∧ ∃ ρ1 S1 v S2 n, SBig codeOpts P (.expr ρ1 S1 e (some v) S2) ∧
      S2.heap v.enc = some (.int n) ∧ cs.find n = none := by
  have ht : ss.term = true := by simpa [SFn.returns, hb, hn] using hr
  simp only [SFn.Fine, hb] at hfine
  obtain ⟨A, hA, hf⟩ := hfine
  obtain ⟨ρ1, s1, -⟩ := back_l hL ss N A ρ ρ S o ρ' S' (Nat.le_refl _) hA (fun _ _ => rfl) hf (backward hL hF h)
  rcases ends s1 ht with h | h
  · exact .inl h
  · exact .inr h.2

/-- An example: both branches return; and a loop with a return in it is not accepted. -/
def lxRet : SSs := .cons (.ifs (.cond (.bool true) (.cons (.ret (some (.int 1))) .nil) (.els (.cons (.ret (some (.int 2))) .nil)))) .nil

theorem C22_example : SFn.returns { name := "f", params := [], body := .block lxRet } = true ∧
    SFn.returns { name := "f", params := [], body := .block (.cons (.loop (.bool true) lxRet) .nil) } = false ∧
    SBig ⟨codeRange, false, false⟩ lxP (.stmts (fun _ => none) ⟨fun _ => none, 0⟩ lxRet (.ret (some (.int (BitVec.ofInt 63 1)))) (fun _ => none)
      ⟨fun _ => none, 0⟩) :=
  ⟨by decide, by decide, .consR (.ifs (.chT .bool (.consR (.retE .int))))⟩

/-! ### C23: an accepted match is exhaustive and unambiguous -/

open Clara.Sema.Match

/-- The case names the constructor with the tag. -/
def Names (M : Mem) (resolve : String → Option Sym) (c : Case) (t : Nat) : Prop :=
  ∃ a k, resolve c.name = some (.cons a) ∧ M.heap a = some k ∧ k.tag = t

/-- **C23.** For an enum with any constructors (`ks` has their numbers of parameters) and any `match`
that is accepted: each constructor is named by exactly one case, which has a variable for each of its
parameters; and each case names a constructor of the enum. -/
theorem C23 (M0 M : Mem) (ks : List Nat) (hM : ∀ a ∈ (declare M0 0 ks).1, M.heap a = (declare M0 0 ks).2.heap a)
    (resolve : String → Option Sym) (cases : List Case) (h : checkMatch M (declare M0 0 ks).1 resolve cases = []) :
    (∀ (t k : Nat), ks[t]? = some k → ∃ (i : Nat) (c : Case), cases[i]? = some c ∧ Names M resolve c t ∧ c.vars.length = k ∧
      ∀ (j : Nat) (c' : Case), cases[j]? = some c' → Names M resolve c' t → j = i) ∧
    (∀ c ∈ cases, ∃ t, t < ks.length ∧ Names M resolve c t) := by
  obtain ⟨h1, as, ha, hm, hn, hl⟩ := checkMatch_nil.mp h
  have hmem := declare_members ks M0 0
  have hheap : ∀ (t k : Nat), ks[t]? = some k → M.heap (M0.next + t) = some ⟨t, k⟩ := by
    intro t k hk
    have hlt : t < ks.length := (List.getElem?_eq_some_iff.mp hk).1
    rw [hM _ (by rw [hmem]; simp only [List.mem_range'_1]; omega), declare_heap ks M0 0 t k hk]
    simp
  -- the cases are a permutation of the constructors
  have hsub : ∀ a, a ∈ (declare M0 0 ks).1 → a ∈ as := by
    intro a hin
    refine Classical.byContradiction (fun hc => ?_)
    have hlt : (a :: as).length ≤ (declare M0 0 ks).1.length := by
      refine List.Nodup.length_le_of_subset ?_ ?_
      · exact List.nodup_cons.mpr ⟨hc, hn⟩
      · intro x hx
        rcases List.mem_cons.mp hx with rfl | hx
        · exact hin
        · exact hm x hx
    simp only [List.length_cons] at hlt
    omega
  have hres : ∀ (i a : Nat), as[i]? = some a → ∃ c, cases[i]? = some c ∧ resolve c.name = some (.cons a) := by
    intro i a hi
    have h2 : (cases.map (fun c => resolve c.name))[i]? = (as.map (fun a => some (Sym.cons a)))[i]? := by rw [ha]
    simp only [List.getElem?_map, hi, Option.map_some] at h2
    cases hc : cases[i]? with
    | none => simp [hc] at h2
    | some c => exact ⟨c, rfl, by simpa [hc] using h2⟩
  have hres' : ∀ (i : Nat) c, cases[i]? = some c → ∃ a, as[i]? = some a ∧ resolve c.name = some (.cons a) := by
    intro i c hi
    have h2 : (cases.map (fun c => resolve c.name))[i]? = (as.map (fun a => some (Sym.cons a)))[i]? := by rw [ha]
    simp only [List.getElem?_map, hi, Option.map_some] at h2
    cases hc : as[i]? with
    | none => simp [hc] at h2
    | some a => exact ⟨a, rfl, by simpa [hc] using h2⟩
  constructor
  · intro t k hk
    have hlt : t < ks.length := (List.getElem?_eq_some_iff.mp hk).1
    have hin : M0.next + t ∈ as := hsub _ (by rw [hmem]; simp only [List.mem_range'_1]; omega)
    obtain ⟨i, hi⟩ := List.mem_iff_getElem?.mp hin
    obtain ⟨c, hc, hr⟩ := hres i _ hi
    refine ⟨i, c, hc, ⟨_, _, hr, hheap t k hk, rfl⟩, ?_, ?_⟩
    · obtain ⟨a, k', h2, h3, h4, -⟩ := checkCase_nil.mp (h1 c (List.mem_of_getElem? hc))
      rw [hr] at h2
      cases h2
      rw [hheap t k hk] at h3
      cases h3
      exact h4.symm
    · rintro j c' hj ⟨a', k', h2, h3, h4⟩
      obtain ⟨a2, ha2, h5⟩ := hres' j c' hj
      rw [h2] at h5
      cases h5
      have ha' : a' ∈ (declare M0 0 ks).1 := hm a' (List.mem_of_getElem? ha2)
      rw [hmem] at ha'
      simp only [List.mem_range'_1] at ha'
      obtain ⟨k2, hk2⟩ : ∃ k2, ks[a' - M0.next]? = some k2 := ⟨_, List.getElem?_eq_getElem (by omega)⟩
      have h6 := hheap _ _ hk2
      rw [show M0.next + (a' - M0.next) = a' from by omega, h3] at h6
      cases h6
      have : a' = M0.next + t := by simp only at h4; omega
      subst this
      have hij : as[j]? = as[i]? := by rw [ha2, hi]
      exact (List.getElem?_inj (List.getElem?_eq_some_iff.mp ha2).1 hn).mp hij
  · intro c hc
    obtain ⟨i, hi⟩ := List.mem_iff_getElem?.mp hc
    obtain ⟨a, ha2, hr⟩ := hres' i c hi
    have ha' : a ∈ (declare M0 0 ks).1 := hm a (List.mem_of_getElem? ha2)
    rw [hmem] at ha'
    simp only [List.mem_range'_1] at ha'
    obtain ⟨k2, hk2⟩ : ∃ k2, ks[a - M0.next]? = some k2 := ⟨_, List.getElem?_eq_getElem (by omega)⟩
    have h6 := hheap _ _ hk2
    rw [show M0.next + (a - M0.next) = a from by omega] at h6
    exact ⟨a - M0.next, by omega, a, _, hr, h6, rfl⟩

/-- The cases of a statement have the tags that the checked cases name. -/
def SameTags (M : Mem) (resolve : String → Option Sym) : SCs → List Case → Prop
  | .nil, [] => True
  | .cons tag _ _ n, c :: cs => Names M resolve c tag ∧ SameTags M resolve n cs
  | _, _ => False

/-- **C23** at run time: every value of the enum has a case in an accepted `match`. -/
theorem C23_handled (M0 M : Mem) (ks : List Nat) (hM : ∀ a ∈ (declare M0 0 ks).1, M.heap a = (declare M0 0 ks).2.heap a)
    (resolve : String → Option Sym) (cases : List Case) (h : checkMatch M (declare M0 0 ks).1 resolve cases = [])
    (cs : SCs) (hcs : SameTags M resolve cs cases) (t : Nat) (ht : t < ks.length) :
    ∃ vars b, cs.find (BitVec.ofInt 63 t) = some (vars, b) := by
  obtain ⟨i, c, hi, hc, -⟩ := (C23 M0 M ks hM resolve cases h).1 t _ (List.getElem?_eq_getElem ht)
  clear h
  induction cases generalizing cs i with
  | nil => simp at hi
  | cons c0 rest ih =>
    cases cs with
    | nil => exact absurd hcs (by simp [SameTags])
    | cons tag vars b n =>
      simp only [SCs.find]
      split
      · exact ⟨_, _, rfl⟩
      · rename_i hne
        cases i with
        | zero =>
          simp only [List.getElem?_cons_zero, Option.some.injEq] at hi
          subst hi
          obtain ⟨a, k, h1, h2, h3⟩ := hc
          obtain ⟨a', k', h1', h2', h3'⟩ := hcs.1
          rw [h1] at h1'
          cases h1'
          rw [h2] at h2'
          cases h2'
          rw [← h3, ← h3'] at hne
          exact absurd rfl hne
        | succ i => exact ih n hcs.2 i (by simpa using hi)

/-- Examples: two constructors.  Accepted; one missing; one twice. -/
def lxResolve (n : String) : Option Sym :=
  if n = "Some" then some (.cons 10) else if n = "None" then some (.cons 11) else none

theorem C23_example :
    checkMatch (declare ⟨10, fun _ => none⟩ 0 [1, 0]).2 (declare ⟨10, fun _ => none⟩ 0 [1, 0]).1 lxResolve
      [⟨"None", [], 0⟩, ⟨"Some", ["x"], 0⟩] = [] ∧
    checkMatch (declare ⟨10, fun _ => none⟩ 0 [1, 0]).2 (declare ⟨10, fun _ => none⟩ 0 [1, 0]).1 lxResolve
      [⟨"Some", ["x"], 0⟩] = [.notExhaustive] ∧
    checkMatch (declare ⟨10, fun _ => none⟩ 0 [1, 0]).2 (declare ⟨10, fun _ => none⟩ 0 [1, 0]).1 lxResolve
      [⟨"Some", ["x"], 0⟩, ⟨"Some", ["x"], 0⟩] = [.repeated] := by
  decide +kernel

/-! ### C24: match runs the case of the value -/

section
variable {σ : Type} {L : Lib} {P : SProg σ} {N : Nat}

/-- **C24.** The lowered `match` does exactly this: it evaluates the expression once; if the tag of the
object has a case, it runs the body of that case with its variables bound to the arguments in the
object, and its outcome is that of the body; without a case nothing happens. -/
theorem C24 (hL : LibOk L P) (hF : ∀ fd ∈ P.fns, fd.Fine N) {n : Nat} {A : Nat → Prop} {ρ ρ' : Env} {S : Store σ} {e : Expr} {cs : SCs}
    {o : Out} {S1 : Store σ} (hn : N ≤ n) (hA : ∀ y, A y → y < N) (ha : Agree A ρ ρ') (hf : (SS.match_ e cs).Fine N A) :
    (∃ d ρ1', Big (lowP L N P) d (.stmt ρ' S (lowS L (.match_ e cs) n).1 o ρ1' S1)) ↔
    ∃ v S0, SBig codeOpts P (.expr ρ S e (some v) S0) ∧
      ((∃ k vars b vals ρ1, S0.heap v.enc = some (.int k) ∧ cs.find k = some (vars, b) ∧ vals.length = vars.length ∧
          fields S0 v.enc 1 vals ∧ SBig codeOpts P (.stmts (bindVars vars vals ρ) S0 b o ρ1 S1)) ∨
       ((cs = .nil ∨ ∃ k, S0.heap v.enc = some (.int k) ∧ cs.find k = none) ∧ o = .norm ∧ S1 = S0)) := by
  constructor
  · rintro ⟨d, ρ1', h⟩
    obtain ⟨ρ1, s1, -⟩ := back_s hL _ n A ρ ρ' S o ρ1' S1 hn hA ha hf (backward hL hF h)
    cases s1 with
    | match_ h1 h2 h3 h4 h5 h6 => exact ⟨_, _, h1, .inl ⟨_, _, _, _, _, h2, h3, h4, h5, h6⟩⟩
    | matchPass _ h1 h2 h3 => exact ⟨_, _, h1, .inr ⟨.inr ⟨_, h2, h3⟩, rfl, rfl⟩⟩
    | matchNil _ h1 => exact ⟨_, _, h1, .inr ⟨.inl rfl, rfl, rfl⟩⟩
  · rintro ⟨v, S0, h1, ⟨k, vars, b, vals, ρ1, h2, h3, h4, h5, h6⟩ | ⟨h2 | ⟨k, h2, h3⟩, rfl, rfl⟩⟩
    · obtain ⟨d, ρ1', h, -⟩ := fine_forward hL hF (.match_ h1 h2 h3 h4 h5 h6) n A ρ' hn hA ha hf
      exact ⟨d, ρ1', h⟩
    · subst h2
      obtain ⟨d, ρ1', h, -⟩ := fine_forward hL hF (.matchNil rfl h1) n A ρ' hn hA ha hf
      exact ⟨d, ρ1', h⟩
    · obtain ⟨d, ρ1', h, -⟩ := fine_forward hL hF (.matchPass rfl h1 h2 h3) n A ρ' hn hA ha hf
      exact ⟨d, ρ1', h⟩

/-- **C24** for the program around it: what a function does is what its lowered form does.  (The
statements after a `match` are run in an environment that is the same on all variables in scope; the
variables of the cases and the new variables are not in scope there.) -/
theorem C24_program (hL : LibOk L P) (hF : ∀ fd ∈ P.fns, fd.Fine N) (fd : SFn) (hfd : fd ∈ P.fns) (vs : List (Option Val))
    (S : Store σ) (v : Option Val) (S' : Store σ) :
    (∃ d, Big (lowP L N P) d (.fn (lowF L N fd) vs S v S')) ↔ SBig codeOpts P (.fn fd vs S v S') :=
  ⟨fun ⟨d, h⟩ => backward hL hF h fd hfd rfl, fine_forward_fn hL hF hfd⟩

theorem writeAll_fields : ∀ (vals : List Val) (S S' : Store σ) (a : Word) (i : Nat), i + vals.length < 2 ^ 60 →
    S.writeAll (a + BitVec.ofNat 64 (8 * i)) vals = some S' →
    fields S' a i vals ∧ ∀ j, j < i → S'.heap (a + BitVec.ofNat 64 (8 * j)) = S.heap (a + BitVec.ofNat 64 (8 * j))
  | [], S, S', a, i, _, h => by
    simp only [Store.writeAll, Option.some.injEq] at h
    subst h
    exact ⟨trivial, fun _ _ => rfl⟩
  | v :: vs, S, S', a, i, hlt, h => by
    simp only [Store.writeAll, Option.bind_eq_some_iff] at h
    obtain ⟨S1, h1, h2⟩ := h
    rw [show a + BitVec.ofNat 64 (8 * i) + 8 = a + BitVec.ofNat 64 (8 * (i + 1)) from by
      rw [BitVec.add_assoc]; congr 1; apply BitVec.eq_of_toNat_eq; simp; omega] at h2
    simp only [List.length_cons] at hlt
    obtain ⟨h3, h4⟩ := writeAll_fields vs S1 S' a (i + 1) (by omega) h2
    simp only [Store.write] at h1
    split at h1
    · cases h1
    · simp only [Option.some.injEq] at h1
      subst h1
      refine ⟨⟨?_, h3⟩, fun j hj => ?_⟩
      · rw [h4 i (by omega)]
        simp
      · rw [h4 j (by omega)]
        simp only
        rw [if_neg]
        intro he
        have := congrArg BitVec.toNat ((BitVec.add_right_inj a).mp he)
        simp at this
        omega

/-- **C24**, objects: an object made by the constructor with the tag `t` has this tag, and the
arguments of the call are its fields; so a `match` on it runs the case for `t` with these. -/
theorem C24_object {O : Opts} {fd : SFn} {t : Nat} {desc : String} {id : Nat} (hb : fd.body = .cons (some t) desc id)
    (hlen : fd.params.length < 2 ^ 59) {vals : List Val} {S S' : Store σ} {w : Option Val}
    (h : SBig O P (.fn fd (vals.map some) S w S')) :
    ∃ a, w = some (.ptr a) ∧ S'.heap a = some (.int (BitVec.ofInt 63 t)) ∧ fields S' a 1 vals := by
  generalize hvs : vals.map some = vs at h
  cases h with
  | fnRet h1 => rw [hb] at h1; cases h1
  | fnEnd h1 => rw [hb] at h1; cases h1
  | fnExpr h1 => rw [hb] at h1; cases h1
  | fnDyn hD => have := hD.body; rw [hb] at this; cases this
  | fnCons h1 h2 h3 h4 =>
    rename_i tag desc' id' vals' a S1
    have : vals' = vals := by
      have := (List.map_inj_right (f := @some Val) (fun a b hab => by simpa using hab)).mp hvs
      exact this.symm
    subst this
    rw [hb] at h1
    cases h1
    have h5 := writeAll_fields (Val.int (BitVec.ofNat 63 t) :: vals') S1 S' a 0 (by simp only [List.length_cons]; omega)
      (by simpa using h4)
    refine ⟨a, rfl, ?_, h5.1.2⟩
    have := h5.1.1
    simpa using this
end

/-- An example: a `match` on an object with the tag 1 and the argument 7. -/
def lxMatch : SS := .match_ (.var 0 ⟨.enum, 0⟩)
  (.cons 0 [] (.cons (.ret (some (.int 0))) .nil) (.cons 1 [(1, ⟨.integer, 0⟩)] (.cons (.ret (some (.var 1 ⟨.integer, 0⟩))) .nil) .nil))

def lxHeap (w : Word) : Option Val := if w = 32 then some (.int 1) else if w = 40 then some (.int 7) else none

theorem C24_example : ∃ d ρ1', Big (lowP lxL 2 lxP) d (.stmt (fun x => if x = 0 then some (.ptr 32) else none) ⟨lxHeap, 0⟩
    (lowS lxL lxMatch 2).1 (.ret (some (.int 7))) ρ1' ⟨lxHeap, 0⟩) := by
  refine (C24 (A := fun y => y = 0) lxLibOk (lxFine 2) (Nat.le_refl _) (fun y hy => by subst hy; decide) (fun _ _ => rfl)
    (by simp [SS.Fine, SCs.Fine, SSs.Fine, Scoped, Expr.vars])).mpr ?_
  refine ⟨.ptr 32, _, .var rfl, .inl ⟨1, _, _, [.int 7], _, ?_, rfl, rfl, ?_, .consR (.retE (.var rfl))⟩⟩
  · simp [Val.enc, lxHeap]
  · simp [fields, Val.enc, lxHeap]

/-! ### C25: range for loops visit the documented values -/

/-- What a range loop should do: the bounds are evaluated, and the body is run for the values of the
documented range (the body itself having the meaning that the compiler gives it). -/
def RangeLoop {σ : Type} (P : SProg σ) (range : Bool → BitVec 63 → BitVec 63 → List (BitVec 63) → Prop) (x : Nat) (lo hi : Expr)
    (zero : Bool) (b : SSs) (ρ : Env) (S : Store σ) (o : Out) (S' : Store σ) : Prop :=
  ∃ a e S0 S1 vs ρ1, SBig codeOpts P (.expr ρ S lo (some (.int a)) S0) ∧ SBig codeOpts P (.expr ρ S0 hi (some (.int e)) S1) ∧
    range zero a e vs ∧ SBig codeOpts P (.range ρ S1 x hi e vs b o ρ1 S')

/-- The claim: the lowered loop does this. The expressions use the variables in scope (`A`), the variable of
the loop is a new one, not assigned in the body, and `zero` is set for the end written `0`. -/
def C25_claim : Prop :=
  ∀ (σ : Type) (L : Lib) (P : SProg σ) (N n : Nat) (A : Nat → Prop) (ρ ρ' : Env) (S : Store σ) (x : Nat) (lo hi : Expr) (zero : Bool)
    (b : SSs) (o : Out) (S' : Store σ), LibOk L P → (∀ fd ∈ P.fns, fd.Fine N) → N ≤ n → (∀ y, A y → y < N) → Agree A ρ ρ' →
    Scoped A lo → Scoped A hi → ¬ A x → x < N → x ∉ b.writes → (zero = true → hi = .int 0) → b.Fine N (fun y => A y ∨ y = x) →
    ((∃ d ρ1', Big (lowP L N P) d (.stmt ρ' S (lowS L (.forR x lo hi zero b) n).1 o ρ1' S')) ↔
      RangeLoop P docRange x lo hi zero b ρ S o S')

/-- What the lowered loop does. -/
theorem C25_code {σ : Type} {L : Lib} {P : SProg σ} {N n : Nat} {A : Nat → Prop} {ρ ρ' : Env} {S : Store σ} {x : Nat} {lo hi : Expr}
    {zero : Bool} {b : SSs} {o : Out} {S' : Store σ} (hL : LibOk L P) (hF : ∀ fd ∈ P.fns, fd.Fine N) (hn : N ≤ n)
    (hA : ∀ y, A y → y < N) (ha : Agree A ρ ρ') (hf : (SS.forR x lo hi zero b).Fine N A) :
    (∃ d ρ1', Big (lowP L N P) d (.stmt ρ' S (lowS L (.forR x lo hi zero b) n).1 o ρ1' S')) ↔
      RangeLoop P codeRange x lo hi zero b ρ S o S' := by
  constructor
  · rintro ⟨d, ρ1', h⟩
    obtain ⟨ρ1, s1, -⟩ := back_s hL _ n A ρ ρ' S o ρ1' S' hn hA ha hf (backward hL hF h)
    cases s1 with
    | forR h1 h2 _ h3 h4 => exact ⟨_, _, _, _, _, _, h1, h2, h3, h4⟩
  · rintro ⟨a, e, S0, S1, vs, ρ1, h1, h2, h3, h4⟩
    obtain ⟨d, ρ1', h, -⟩ := fine_forward hL hF (.forR h1 h2 nofun h3 h4) n A ρ' hn hA ha hf
    exact ⟨d, ρ1', h⟩

/-- **C25**, where the ranges agree: the range of the lowered loop is the documented one exactly when
the start is not above the end, and for an end written `0` when the start is not negative. -/
theorem C25_partial_iff (zero : Bool) (a e : BitVec 63) (he : zero = true → e = 0) :
    (∀ vs, codeRange zero a e vs ↔ docRange zero a e vs) ↔ (if zero then 0 ≤ a.toInt else a.toInt ≤ e.toInt) := by
  cases zero with
  | false =>
    simp only [Bool.false_eq_true, if_false]
    constructor
    · intro h
      refine Classical.byContradiction (fun hc => ?_)
      have h1 : codeRange false a e [] := by
        simp only [codeRange, Steps, going, Bool.false_eq_true, if_false]
        exact decide_eq_false (by omega)
      have h2 := (h []).mp h1
      simp only [docRange, if_neg hc, List.map_nil] at h2
      have := congrArg List.length h2
      simp only [List.length_nil, List.length_map, List.length_range] at this
      omega
    · intro h vs
      simp only [docRange, if_pos h]
      exact steps_up e _ a rfl vs
  | true =>
    have he := he rfl
    subst he
    have h0 : (0 : BitVec 63).toInt = 0 := by decide
    have h01 : ((0 : BitVec 63) + BitVec.ofInt 63 (-1)).toInt = -1 := by decide
    have hlo : - 2 ^ 62 ≤ a.toInt := BitVec.le_toInt a
    simp only [if_true]
    constructor
    · intro h
      refine Classical.byContradiction (fun hc => ?_)
      by_cases hmin : a.toInt = - 2 ^ 62
      · -- the start minus one wraps around
        have ha : a = BitVec.ofInt 63 (- 2 ^ 62) := by
          apply BitVec.eq_of_toInt_eq
          rw [hmin]
          decide
        obtain ⟨vs, hvs⟩ := steps_exist true 0 (fun _ => by rw [h0]; decide) (a + BitVec.ofInt 63 (-1))
        have h1 := (h vs).mp hvs
        rw [docRange, if_pos (by rw [h0]; omega)] at h1
        cases vs with
        | nil =>
          have := congrArg List.length h1
          simp only [List.map_nil, List.length_nil, List.length_map, List.length_range, h0] at this
          omega
        | cons w ws =>
          have hw : w = a + BitVec.ofInt 63 (-1) := hvs.2.1
          have h2 := congrArg (·.head?) h1
          simp only [List.map_cons, List.head?_cons, h0] at h2
          rw [show (0 - a.toInt).toNat = (0 - a.toInt).toNat - 1 + 1 from by omega, List.range_succ_eq_map] at h2
          simp only [List.map_cons, List.head?_cons, Option.some.injEq] at h2
          rw [hw, ha] at h2
          exact absurd h2 (by decide)
      · have h1 : codeRange true a 0 [] := by
          have hp : (a + BitVec.ofInt 63 (-1)).toInt = a.toInt - 1 :=
            toInt_pred (e := BitVec.ofInt 63 (- 2 ^ 62)) (by
              rw [show (BitVec.ofInt 63 (- 2 ^ 62)).toInt = - 2 ^ 62 from by decide]; omega)
          simp only [codeRange, Steps, going, if_true]
          exact decide_eq_false (by rw [h0, hp]; omega)
        have h2 := (h []).mp h1
        rw [docRange, if_pos (by rw [h0]; omega)] at h2
        have := congrArg List.length h2
        simp only [List.map_nil, List.length_nil, List.length_map, List.length_range, h0] at this
        omega
    · intro h vs
      by_cases hz : a.toInt = 0
      · have ha : a = 0 := BitVec.eq_of_toInt_eq (by rw [hz, h0])
        subst ha
        simp only [docRange, h0, Int.le_refl, if_true, codeRange]
        rw [steps_down 0 (by rw [h0]; decide) 0 _ (by rw [h01, h0]; decide) vs]
        simp
      · have hp : (a + BitVec.ofInt 63 (-1)).toInt = a.toInt - 1 := toInt_pred (e := 0) (by rw [h0]; omega)
        simp only [docRange, codeRange, if_true]
        rw [if_neg (by rw [h0]; omega), steps_down 0 (by rw [h0]; decide) _ _ rfl vs, hp, h0]
        rw [show a.toInt - 1 + 1 - 0 = a.toInt - 0 from by omega]

/-- **C25**, the part that holds: an increasing range, and a range down to a literal `0` from a start
that is not negative.  (The end is a literal or a variable that the loop does not assign; other ends
are evaluated again before every iteration.) -/
theorem C25_partial {σ : Type} {L : Lib} {P : SProg σ} {N n : Nat} {A : Nat → Prop} {ρ ρ' : Env} {S : Store σ} {x : Nat} {lo hi : Expr}
    {zero : Bool} {b : SSs} {o : Out} {S' : Store σ} (hL : LibOk L P) (hF : ∀ fd ∈ P.fns, fd.Fine N) (hn : N ≤ n)
    (hA : ∀ y, A y → y < N) (ha : Agree A ρ ρ') (hf : (SS.forR x lo hi zero b).Fine N A)
    (hr : ∀ a e S0 S1, SBig codeOpts P (.expr ρ S lo (some (.int a)) S0) → SBig codeOpts P (.expr ρ S0 hi (some (.int e)) S1) →
      if zero then 0 ≤ a.toInt else a.toInt ≤ e.toInt) :
    (∃ d ρ1', Big (lowP L N P) d (.stmt ρ' S (lowS L (.forR x lo hi zero b) n).1 o ρ1' S')) ↔
      RangeLoop P docRange x lo hi zero b ρ S o S' := by
  rw [C25_code hL hF hn hA ha hf]
  have hz : ∀ {e : BitVec 63} {S0 S1 : Store σ}, SBig codeOpts P (.expr ρ S0 hi (some (.int e)) S1) → zero = true → e = 0 := by
    intro e S0 S1 h hz
    have := hf.2.2.2.2.2.2.1 hz
    subst this
    cases h
    rfl
  constructor
  · rintro ⟨a, e, S0, S1, vs, ρ1, h1, h2, h3, h4⟩
    exact ⟨a, e, S0, S1, vs, ρ1, h1, h2, ((C25_partial_iff zero a e (hz h2)).mpr (hr a e S0 S1 h1 h2) vs).mp h3, h4⟩
  · rintro ⟨a, e, S0, S1, vs, ρ1, h1, h2, h3, h4⟩
    exact ⟨a, e, S0, S1, vs, ρ1, h1, h2, ((C25_partial_iff zero a e (hz h2)).mpr (hr a e S0 S1 h1 h2) vs).mpr h3, h4⟩

/-- **C25**, other ends: when the end has the same value each time it is evaluated, evaluating it changes nothing, and
the body does not change the variable (`againOpts`), the lowered loop does what it should, for the same ranges. -/
theorem C25_runs_partial {σ : Type} {L : Lib} {P : SProg σ} {N n : Nat} {A : Nat → Prop} {ρ ρ' ρ1 : Env} {S S0 : Store σ} {x : Nat} {lo hi : Expr}
    {zero : Bool} {b : SSs} {o : Out} {S' : Store σ} {a e : BitVec 63} {vs : List (BitVec 63)} (hL : LibOk L P) (hF : ∀ fd ∈ P.fns, fd.Mild N) (hn : N ≤ n)
    (hA : ∀ y, A y → y < N) (ha : Agree A ρ ρ') (hf : (SS.forR x lo hi zero b).Mild N A)
    (hlo : SBig againOpts P (.expr ρ S lo (some (.int a)) S0)) (hhi : SBig againOpts P (.expr ρ S0 hi (some (.int e)) S0))
    (hr : if zero then e = 0 ∧ 0 ≤ a.toInt else a.toInt ≤ e.toInt) (hd : docRange zero a e vs)
    (hb : SBig againOpts P (.range ρ S0 x hi e vs b o ρ1 S')) :
    ∃ d ρ1', Big (lowP L N P) d (.stmt ρ' S (lowS L (.forR x lo hi zero b) n).1 o ρ1' S') := by
  have hc : codeRange zero a e vs := by
    cases zero
    · exact ((C25_partial_iff false a e nofun).mpr hr vs).mpr hd
    · exact ((C25_partial_iff true a e (fun _ => hr.1)).mpr hr.2 vs).mpr hd
  obtain ⟨d, ρ1', h, -⟩ := forward hL hF (.forR hlo hhi (fun _ => rfl) hc hb) n A ρ' hn hA ha hf
  exact ⟨d, ρ1', h⟩

def lxEnv : Env := fun _ => none
def lxStore : Store Nat := ⟨fun _ => none, 0⟩
def lxBody : SSs := .cons (.ret (some (.var 0 ⟨.integer, 0⟩))) .nil

theorem lxForFine (lo hi : Int) (zero : Bool) (hz : zero = true → hi = 0) : (SS.forR 0 (.int lo) (.int hi) zero lxBody).Fine 1 (fun _ => False) := by
  simp only [SS.Fine, lxBody, SSs.Fine, Scoped, Expr.vars, StableEnd, SSs.writes, SS.writes, List.append_nil]
  refine ⟨by simp, by simp, not_false, by omega, by simp, trivial, fun h => by rw [hz h], ?_, trivial⟩
  intro y hy
  simp at hy
  exact .inr hy

/-- An example where it holds: `for i in 3 .. 0 { return i }` returns 2. -/
theorem C25_example : ∃ d ρ1', Big (lowP lxL 1 lxP) d (.stmt lxEnv lxStore (lowS lxL (.forR 0 (.int 3) (.int 0) true lxBody) 1).1
    (.ret (some (.int 2))) ρ1' lxStore) := by
  refine (C25_partial (ρ := lxEnv) lxLibOk (lxFine 1) (Nat.le_refl _) (fun _ h => h.elim) (fun _ h => h.elim)
    (lxForFine 3 0 true (fun _ => rfl)) ?_).mpr ?_
  · intro a e S0 S1 h1 h2
    cases h1
    exact (by decide : 0 ≤ (BitVec.ofInt 63 3).toInt)
  · exact ⟨_, _, _, _, [2, 1, 0], _, .int, .int, by unfold docRange; decide, .rangeRet nofun (.consR (.retE (.var rfl)))⟩

theorem lxForClaim (h : C25_claim) (lo hi : Int) (zero : Bool) (hz : zero = true → hi = 0) (o : Out) (S' : Store Nat) :
    RangeLoop lxP codeRange 0 (.int lo) (.int hi) zero lxBody lxEnv lxStore o S' ↔
    RangeLoop lxP docRange 0 (.int lo) (.int hi) zero lxBody lxEnv lxStore o S' := by
  have hf := lxForFine lo hi zero hz
  rw [← C25_code (ρ := lxEnv) (ρ' := lxEnv) lxLibOk (lxFine 1) (Nat.le_refl _) (fun _ h => h.elim) (fun _ _ => rfl) hf]
  obtain ⟨h1, h2, h3, h4, h5, h6, h7, h8⟩ := hf
  exact h Nat lxL lxP 1 1 (fun _ => False) lxEnv lxEnv lxStore 0 (.int lo) (.int hi) zero lxBody o S'
    lxLibOk (lxFine 1) (Nat.le_refl _) (fun _ h => h.elim) (fun _ h => h.elim) h1 h2 h3 h4 h5 h7 h8

/-- An example: `for i in 0 .. a.length { a[i] = i }`, the array having the length 1. -/
def lxAt64 (v : Val) (w : Word) : Option Val := if w = 72 then some v else if w = 64 then some (.int 1) else none

example : ∃ d ρ1', Big (lowP lxL 2 lxP) d (.stmt (fun y => if y = 1 then some (.ptr 64) else none) ⟨lxAt64 (.int 7), 0⟩
    (lowS lxL (.forR 0 (.int 0) (.dot tInt (.var 1 ⟨.array, 0⟩) 0) false
      (.cons (.asg false (.index tInt (.var 1 ⟨.array, 0⟩) (.var 0 tInt)) (.var 0 tInt)) .nil)) 2).1 .norm ρ1' ⟨lxAt64 (.int 0), 0⟩) := by
  refine C25_runs_partial (A := fun y => y = 1) (vs := [0]) (e := 1) (ρ := fun y => if y = 1 then some (.ptr 64) else none)
    (ρ1 := Env.upd (fun y => if y = 1 then some (.ptr 64) else none) 0 (.int 0)) lxLibOk (fun fd hm => (lxFine 2 fd hm).mild)
    (Nat.le_refl _) (fun y hy => by subst hy; decide)
    (fun _ _ => rfl) (by simp [SS.Mild, SSs.Mild, Scoped, Expr.vars]) .int (.dot (.var rfl) (by simp [lxAt64])) (by decide) (by unfold docRange; decide) ?_
  refine .rangeCons (fun _ => .dot (.var rfl) (by simp [lxAt64])) (.cons (.asgMem (.var rfl) (.locIndex (n := 0) (len := 1) (.var rfl) (.var rfl)
    (by simp [lxAt64]) (by decide) (by decide)) ?_) .nil) (fun _ => rfl) (.rangeNil (fun _ => .dot (.var rfl) (by simp [lxAt64])))
  simp [Store.write, lxAt64]
  funext w
  simp only [lxAt64]; split <;> simp_all

/-- **C25 is violated** by decreasing ranges: `for i in 5 .. 2 { return i }` should return 4, and runs off
the end of the loop. -/
theorem C25_violated : ¬ C25_claim := by
  intro h
  obtain ⟨a, e, S0, S1, vs, ρ1, h1, h2, h3, h4⟩ := (lxForClaim h 5 2 false (fun h => by cases h) (.ret (some (.int 4))) lxStore).mpr
    ⟨_, _, _, _, [4, 3, 2], _, .int, .int, by unfold docRange; decide, .rangeRet nofun (.consR (.retE (.var rfl)))⟩
  cases h1
  cases h2
  cases vs with
  | nil => cases h4
  | cons v vs => exact absurd h3.1 (by decide)

/-- **C25 is violated** by ranges that end at a literal `0` and start below it: `for i in -3 .. 0 { return i }`
should return -3, and runs off the end of the loop. -/
theorem C25_violated_negative : ¬ C25_claim := by
  intro h
  obtain ⟨a, e, S0, S1, vs, ρ1, h1, h2, h3, h4⟩ := (lxForClaim h (-3) 0 true (fun _ => rfl) (.ret (some (.int (BitVec.ofInt 63 (-3))))) lxStore).mpr
    ⟨_, _, _, _, [BitVec.ofInt 63 (-3), BitVec.ofInt 63 (-2), BitVec.ofInt 63 (-1)], _, .int, .int, by unfold docRange; decide,
      .rangeRet nofun (.consR (.retE (.var rfl)))⟩
  cases h1
  cases h2
  cases vs with
  | nil => cases h4
  | cons v vs => exact absurd h3.1 (by decide)

def lxCall (f : String) (t : TyR) : Expr := .callFn f { ret := t } []

/-- What a call of one of the two functions does. -/
theorem exCall_run {f : String} {t : TyR} {ρ : Env} {S S' : Store Nat} {v : Option Val} (hf : f ≠ "asEnum") :
    SBig codeOpts lxP (.expr ρ S (lxCall f t) v S') ↔
    S' = { S with ext := S.ext + 1 } ∧ (f = "next" ∧ v = some (.ptr 64) ∨ f = "count" ∧ v = some (.int 0)) := by
  constructor
  · intro h
    cases h with
    | callFn h1 h2 h3 h4 => 
      rw [List.mem_singleton.mp h3] at h4
      exact absurd h4.symm hf
    | callRt h1 h2 h3 =>
      cases h2
      exact h3
    | callExt h1 => cases h1
  · intro h
    exact .callRt rfl .argsNil h

/-- A loop whose condition calls one of the functions calls it once or, if the condition is true first,
at least twice. -/
theorem lxLoop {C : Env → Store Nat → Bool → Store Nat → Prop} {B : Env → Store Nat → Out → Env → Store Nat → Prop}
    (hC : ∀ ρ S b S', C ρ S b S' → S'.ext = S.ext + 1) (hB : ∀ ρ S o ρ' S', B ρ S o ρ' S' → o = .norm ∧ S.ext ≤ S'.ext)
    {ρ ρ' : Env} {S S' : Store Nat} {o : Out} (h : LoopRun C B ρ S o ρ' S') :
    S.ext + 1 ≤ S'.ext ∧ (S'.ext < S.ext + 2 → ∃ S1, C ρ S false S1) := by
  induction h with
  | done h => exact ⟨by rw [hC _ _ _ _ h]; exact Nat.le_refl _, fun _ => ⟨_, h⟩⟩
  | again h1 h2 h3 ih =>
    have := hC _ _ _ _ h1
    have := (hB _ _ _ _ _ h2).2
    exact ⟨by omega, by omega⟩
  | ret h1 h2 => cases (hB _ _ _ _ _ h2).1

/-- **C25 is violated** by ends that are not literals or variables: with `for i in -1 .. count() { }` the
end is evaluated twice. -/
theorem C25_violated_end : ¬ C25_claim := by
  intro h
  obtain ⟨d, ρ1', h⟩ := (h Nat lxL lxP 1 1 (fun _ => False) lxEnv lxEnv lxStore 0 (.int (-1)) (lxCall "count" tInt) false .nil .norm
    ⟨fun _ => none, 1⟩ lxLibOk (lxFine 1) (Nat.le_refl _) (fun _ h => h.elim) (fun _ h => h.elim) (fun _ h => by simp [Expr.vars] at h)
    (fun _ h => by simp [lxCall, Expr.vars, varsL] at h) not_false (by decide) (by simp [SSs.writes]) (fun h => by cases h) trivial).mpr
    ⟨_, _, _, _, [BitVec.ofInt 63 (-1)], _, .int, (exCall_run (by decide)).mpr ⟨rfl, .inr ⟨rfl, rfl⟩⟩, by unfold docRange; decide,
      .rangeCons nofun .nil nofun (.rangeNil nofun)⟩
  have h : RunS codeOpts lxP _ _ _ _ _ _ := backward lxLibOk (lxFine 1) h
  simp only [lowS, lowL, Bool.false_eq_true, if_false, RunS, Stmts.app] at h
  obtain ⟨v, h, -⟩ | ⟨ρ1, S1, ⟨-, w, S2, he, ⟨y, hl, rfl⟩ | ⟨a, S3, hl, -⟩⟩, h⟩ := h
  · cases h
  · cases hl
    cases he
    have hc : ∀ (ρ : Env) (S : Store Nat) b S', condRun codeOpts lxP (.bin .lt tBool (.var 0 tInt) (lxCall "count" tInt)) ρ S b S' →
        S'.ext = S.ext + 1 ∧ ∃ k : BitVec 63, ρ 0 = some (.int k) ∧ b = decide (k.toInt < (0 : BitVec 63).toInt) := by
      intro ρ S b S' h
      cases h with
      | bin h1 h2 h3 =>
        obtain ⟨rfl, h5⟩ := (exCall_run (by decide)).mp h2
        rcases h5 with ⟨h5, -⟩ | ⟨-, h5⟩
        · exact absurd h5 (by decide)
        · cases h1 with
          | var h1 =>
            cases h5
            rename_i l
            cases l <;> simp only [BinOp.eval, reduceCtorEq, Option.some.injEq, Val.bool.injEq] at h3
            exact ⟨rfl, _, h1, h3.symm⟩
    obtain ⟨S1, h1⟩ := (lxLoop (fun ρ S b S' h => (hc ρ S b S' h).1) (fun ρ S o ρ' S' h => by
      obtain ⟨k, h1, rfl, h2, rfl⟩ := inc_inv (one_inv h)
      exact ⟨rfl, Nat.le_refl _⟩) (one_inv h)).2 (by decide)
    obtain ⟨-, k, h2, h3⟩ := hc _ _ _ _ h1
    rw [upd_eq] at h2
    cases h2
    exact absurd h3 (by decide)
  · cases hl

/-! ### C26: array for loops visit every element once -/

/-- What a loop over an array should do: the array is evaluated once, and then the body is run for each
element, from the first to the last (the rules `elems…` of `SBig`). -/
def ArrayLoop {σ : Type} (P : SProg σ) (x : Nat) (arr : Expr) (b : SSs) (ρ : Env) (S : Store σ) (o : Out) (S' : Store σ) : Prop :=
  ∃ p S1 ρ1, SBig codeOpts P (.expr ρ S arr (some (.ptr p)) S1) ∧ SBig codeOpts P (.elems ρ S1 x arr p 0 b o ρ1 S')

/-- The claim: the lowered loop does this. -/
def C26_claim : Prop :=
  ∀ (σ : Type) (L : Lib) (P : SProg σ) (N n : Nat) (A : Nat → Prop) (ρ ρ' : Env) (S : Store σ) (x : Nat) (t : TyR) (arr : Expr)
    (b : SSs) (o : Out) (S' : Store σ), LibOk L P → (∀ fd ∈ P.fns, fd.Fine N) → N ≤ n → (∀ y, A y → y < N) → Agree A ρ ρ' →
    Scoped A arr → ¬ A x → x < N → b.Fine N (fun y => A y ∨ y = x) →
    ((∃ d ρ1', Big (lowP L N P) d (.stmt ρ' S (lowS L (.forA x t arr b) n).1 o ρ1' S')) ↔ ArrayLoop P x arr b ρ S o S')

/-- **C26**, the part that holds: when the array is a literal, or a variable that the loop does not
assign. -/
theorem C26_partial {σ : Type} {L : Lib} {P : SProg σ} {N n : Nat} {A : Nat → Prop} {ρ ρ' : Env} {S : Store σ} {x : Nat} {t : TyR}
    {arr : Expr} {b : SSs} {o : Out} {S' : Store σ} (hL : LibOk L P) (hF : ∀ fd ∈ P.fns, fd.Fine N) (hn : N ≤ n)
    (hA : ∀ y, A y → y < N) (ha : Agree A ρ ρ') (h1 : Scoped A arr) (h2 : ¬ A x) (h3 : x < N) (h4 : b.Fine N (fun y => A y ∨ y = x))
    (hs : (∃ t e, arr = .arrLit t e) ∨ ∃ y t, arr = .var y t ∧ y ∉ b.writes) :
    (∃ d ρ1', Big (lowP L N P) d (.stmt ρ' S (lowS L (.forA x t arr b) n).1 o ρ1' S')) ↔ ArrayLoop P x arr b ρ S o S' := by
  have hf : (SS.forA x t arr b).Fine N A := by
    refine ⟨h1, h2, h3, ?_, h4⟩
    rcases hs with ⟨t, e, rfl⟩ | ⟨y, t, rfl, hy⟩
    · trivial
    · exact hy
  constructor
  · rintro ⟨d, ρ1', h⟩
    obtain ⟨ρ1, s1, -⟩ := back_s hL _ n A ρ ρ' S o ρ1' S' hn hA ha hf (backward hL hF h)
    cases s1 with
    | forA h1 _ h2 => exact ⟨_, _, _, h1, h2⟩
  · rintro ⟨p, S1, ρ1, h1, h2⟩
    obtain ⟨d, ρ1', h, -⟩ := fine_forward hL hF (.forA h1 nofun h2) n A ρ' hn hA ha hf
    exact ⟨d, ρ1', h⟩

def lxArr (w : Word) : Option Val := if w = 64 then some (.int 1) else if w = 72 then some (.int 5) else none

/-- An example where it holds: an array with the element 5. -/
theorem C26_example : ∃ d ρ1', Big (lowP lxL 2 lxP) d (.stmt (fun y => if y = 1 then some (.ptr 64) else none) ⟨lxArr, 0⟩
    (lowS lxL (.forA 0 ⟨.integer, 0⟩ (.var 1 ⟨.array, 0⟩) lxBody) 2).1 (.ret (some (.int 5))) ρ1' ⟨lxArr, 0⟩) := by
  refine (C26_partial (A := fun y => y = 1) lxLibOk (lxFine 2) (Nat.le_refl _) (fun y hy => by subst hy; decide) (fun _ _ => rfl)
    (by simp [Scoped, Expr.vars]) (by decide) (by decide) (by simp [lxBody, SSs.Fine, SS.Fine, Scoped, Expr.vars])
    (.inr ⟨_, _, rfl, by simp [lxBody, SSs.writes, SS.writes]⟩)).mpr ?_
  refine ⟨64, _, _, .var rfl, .elemsRet nofun (len := 1) (v := .int 5) (by simp [lxArr]) (by decide) (by simp [lxArr]) (.consR (.retE (.var rfl)))⟩

/-- **C26**, other arrays: when the array has the same value each time it is evaluated, and evaluating it changes
nothing (`againOpts`), the lowered loop does what it should. -/
theorem C26_runs_partial {σ : Type} {L : Lib} {P : SProg σ} {N n : Nat} {A : Nat → Prop} {ρ ρ' ρ1 : Env} {S : Store σ} {x : Nat} {t : TyR}
    {arr : Expr} {b : SSs} {o : Out} {S' : Store σ} {p : Word} (hL : LibOk L P) (hF : ∀ fd ∈ P.fns, fd.Mild N) (hn : N ≤ n)
    (hA : ∀ y, A y → y < N) (ha : Agree A ρ ρ') (h1 : Scoped A arr) (h2 : ¬ A x) (h3 : x < N) (h4 : b.Mild N (fun y => A y ∨ y = x))
    (he : SBig againOpts P (.expr ρ S arr (some (.ptr p)) S)) (hr : SBig againOpts P (.elems ρ S x arr p 0 b o ρ1 S')) :
    ∃ d ρ1', Big (lowP L N P) d (.stmt ρ' S (lowS L (.forA x t arr b) n).1 o ρ1' S') := by
  obtain ⟨d, ρ1', h, -⟩ := forward hL hF (.forA (t := t) he (fun _ _ => rfl) hr) n A ρ' hn hA ha ⟨h1, h2, h3, h4⟩
  exact ⟨d, ρ1', h⟩

/-- An example: the array is the first field of the object at address 8. -/
def lxObj (w : Word) : Option Val := if w = 8 then some (.ptr 64) else lxArr w

example : ∃ d ρ1', Big (lowP lxL 2 lxP) d (.stmt (fun y => if y = 1 then some (.ptr 8) else none) ⟨lxObj, 0⟩
    (lowS lxL (.forA 0 ⟨.integer, 0⟩ (.dot ⟨.array, 0⟩ (.var 1 ⟨.struct, 0⟩) 0) lxBody) 2).1 (.ret (some (.int 5))) ρ1' ⟨lxObj, 0⟩) := by
  have he : SBig againOpts lxP (.expr (fun y => if y = 1 then some (.ptr 8) else none) ⟨lxObj, 0⟩ (.dot ⟨.array, 0⟩ (.var 1 ⟨.struct, 0⟩) 0)
      (some (.ptr 64)) ⟨lxObj, 0⟩) := .dot (.var rfl) (by simp [lxObj])
  exact C26_runs_partial (A := fun y => y = 1) lxLibOk (fun fd hm => (lxFine 2 fd hm).mild) (Nat.le_refl _) (fun y hy => by subst hy; decide)
    (fun _ _ => rfl) (by simp [Scoped, Expr.vars]) (by decide) (by decide) (by simp [lxBody, SSs.Mild, SS.Mild, Scoped, Expr.vars]) he
    (.elemsRet (fun _ _ => he) (len := 1) (v := .int 5) (by simp [lxObj, lxArr]) (by decide) (by simp [lxObj, lxArr]) (.consR (.retE (.var rfl))))

/-- **C26 is violated** by other expressions: with `for x in next() { }` over an array of length 1 the
function `next` should be called once, and is called three times. -/
theorem C26_violated : ¬ C26_claim := by
  intro h
  obtain ⟨d, ρ1', h⟩ := (h Nat lxL lxP 1 1 (fun _ => False) lxEnv lxEnv ⟨lxArr, 0⟩ 0 ⟨.integer, 0⟩ (lxCall "next" ⟨.array, 0⟩) .nil .norm
    ⟨lxArr, 1⟩ lxLibOk (lxFine 1) (Nat.le_refl _) (fun _ h => h.elim) (fun _ h => h.elim) (fun _ h => by simp [lxCall, Expr.vars, varsL] at h)
    not_false (by decide) trivial).mpr
    ⟨64, _, _, (exCall_run (by decide)).mpr ⟨rfl, .inl ⟨rfl, rfl⟩⟩,
      .elemsCons nofun (len := 1) (v := .int 5) (by simp [lxArr]) (by decide) (by simp [lxArr]) .nil
        (.elemsEnd nofun (len := 1) (by simp [lxArr]) (by decide))⟩
  have h : RunS codeOpts lxP _ _ _ _ _ _ := backward lxLibOk (lxFine 1) h
  simp only [lowS, lowL, loopArray, lxCall, RunS, Stmts.app] at h
  obtain ⟨v, h, -⟩ | ⟨ρ1, S1, ⟨-, w, S2, he, ⟨y, hl, rfl⟩ | ⟨a, S3, hl, -⟩⟩, h⟩ := h
  · cases h
  · cases hl
    cases he
    have hc : ∀ (ρ : Env) (S : Store Nat) b S',
        condRun codeOpts lxP (.bin .lt tBool (.var 1 tInt) (.dot tInt (lxCall "next" ⟨.array, 0⟩) 0)) ρ S b S' →
        S'.ext = S.ext + 1 ∧ ∃ k n : BitVec 63, ρ 1 = some (.int k) ∧ S.heap 64 = some (.int n) ∧ b = decide (k.toInt < n.toInt) := by
      intro ρ S b S' h
      cases h with
      | bin h1 h2 h3 =>
        cases h2 with
        | dot h2 h4 =>
          obtain ⟨rfl, h5⟩ := (exCall_run (by decide)).mp h2
          rcases h5 with ⟨-, h5⟩ | ⟨h5, -⟩
          · cases h1 with
            | var h1 =>
              cases h5
              rename_i l r
              cases l <;> cases r <;> simp only [BinOp.eval, reduceCtorEq, Option.some.injEq, Val.bool.injEq] at h3
              exact ⟨rfl, _, _, h1, by simpa using h4, h3.symm⟩
          · exact absurd h5 (by decide)
    obtain ⟨S1, h1⟩ := (lxLoop (fun ρ S b S' h => (hc ρ S b S' h).1) (fun ρ S o ρ' S' h => by
      obtain ⟨v, rfl, h⟩ | ⟨ρ1, S1, ⟨-, w, S2, he, ⟨y, hl, rfl⟩ | ⟨a, S3, hl, -⟩⟩, h⟩ := h
      · cases h.1
      · cases hl
        obtain ⟨k, h1, rfl, h2, rfl⟩ := inc_inv (one_inv h)
        refine ⟨rfl, ?_⟩
        cases he with
        | index h1 h2 =>
          obtain ⟨rfl, -⟩ := (exCall_run (by decide)).mp h1
          cases h2
          exact Nat.le_succ _
      · cases hl) (one_inv h)).2 (by decide)
    obtain ⟨-, k, n, h2, h4, h3⟩ := hc _ _ _ _ h1
    rw [upd_eq] at h2
    cases h2
    have : n = 1 := by simpa [lxArr] using h4.symm
    subst this
    exact absurd h3 (by decide)
  · cases hl

end Clara.Props
