import Verif.Sema.MeaningFine
import Verif.Sema.Forward
set_option linter.unusedVariables false
/-
From the meaning of checked programs (`Verif/Sema/Meaning.lean`) to the functions for which code is generated (C68).
-/
namespace Clara.Sema.Chk
open Clara.Types Clara.Sema
open Clara.Gen (Expr TyR Prog Big Jd FnDef Val Store Word)

variable {σ : Type}

/-! ### More functions -/

theorem big_more {P Q : Prog σ} (h0 : Q = { P with fns := Q.fns }) (hs : ∀ fd ∈ P.fns, fd ∈ Q.fns) {d : Nat} {j : Jd σ} (h : Big P d j) : Big Q d j := by
  rw [h0]
  induction h with
  | callFn h1 _ h3 h4 h5 _ h7 ih1 ih2 => exact .callFn h1 ih1 (hs _ h3) h4 h5 ih2 h7
  | callVar h1 h2 _ h4 h5 _ h7 ih1 ih2 => exact .callVar h1 h2 ih1 (hs _ h4) h5 ih2 h7
  | callExpr h1 _ _ h4 h5 _ h7 ih0 ih1 ih2 => exact .callExpr h1 ih0 ih1 (hs _ h4) h5 ih2 h7
  | callRt h1 _ h3 h4 ih => exact .callRt h1 ih h3 h4
  | callExt h1 _ h3 h4 h5 ih => exact .callExt h1 ih h3 h4 h5
  | fnCons h1 h2 h3 h4 h5 => exact .fnCons h1 h2 h3 h4 h5
  | fnDyn h1 h2 _ _ h6 h7 h8 _ h10 i1 i2 ih => exact .fnDyn h1 h2.more i1 i2 (hs _ h6) h7 h8 ih h10
  | int => exact .int
  | bool => exact .bool
  | str => exact .str
  | typ => exact .typ
  | fnRef => exact .fnRef
  | var h => exact .var h
  | bin _ _ h i1 i2 => exact .bin i1 i2 h
  | un _ h i => exact .un i h
  | ternT _ _ i1 i2 => exact .ternT i1 i2
  | ternF _ _ i1 i2 => exact .ternF i1 i2
  | arrLit _ i => exact .arrLit i
  | dot _ h i => exact .dot i h
  | index _ _ a b c e i1 i2 => exact .index i1 i2 a b c e
  | argsNil => exact .argsNil
  | argsCons _ _ i1 i2 => exact .argsCons i1 i2
  | locVar => exact .locVar
  | locDot _ i => exact .locDot i
  | locIndex _ _ a b c i1 i2 => exact .locIndex i1 i2 a b c
  | retE _ i => exact .retE i
  | retN => exact .retN
  | ifs _ i => exact .ifs i
  | asgVar _ _ i1 i2 => exact .asgVar i1 i2
  | asgMem _ _ h i1 i2 => exact .asgMem i1 i2 h
  | loopF _ i => exact .loopF i
  | loopT _ _ _ i1 i2 i3 => exact .loopT i1 i2 i3
  | loopR _ _ i1 i2 => exact .loopR i1 i2
  | block _ i => exact .block i
  | expr _ i => exact .expr i
  | chDone => exact .chDone
  | chElse _ i => exact .chElse i
  | chT _ _ i1 i2 => exact .chT i1 i2
  | chF _ _ i1 i2 => exact .chF i1 i2
  | nil => exact .nil
  | cons _ _ i1 i2 => exact .cons i1 i2
  | consR _ i => exact .consR i
  | fnRet h1 h2 _ i => exact .fnRet h1 h2 i
  | fnEnd h1 h2 h3 _ i => exact .fnEnd h1 h2 h3 i
  | fnExpr h1 h2 _ i => exact .fnExpr h1 h2 i

/-! ### The functions of a program -/

theorem trFn_tx {A : List X} (hA : ∀ t ∈ A, LitTyped t) {T : TrLib} {D : Decls} {p : Top} {f : Fn} {st st' : TrSt} {a : List SFn}
    (hN : Num A st.k (litsFn p f)) (h : trFn T D p f st = .ok (a, st')) : Tx T D A [] [] (litsFn p f) st st' [] := by
  have hb : Below (bindParams (p.params.map (·.1)) st.n) (st.n + p.params.length) := by
    simpa using Below.nil.bind (names := p.params.map (·.1)) (n := st.n) (m := st.n + p.params.length) (by simp)
  simp only [trFn] at h
  split at h
  · rename_i hk
    simp only [litsFn, hk]
    cases h
    exact .nil
  · rename_i hk
    simp only [litsFn, hk]
    cases h
    exact ⟨Nat.le_add_right _ _, rfl, fun _ h => h, .nil, fun j t h => by cases h⟩
  · rename_i hk
    simp only [litsFn, hk]
    cases h
    exact ⟨Nat.le_add_right _ _, rfl, fun _ h => h, .nil, fun j t h => by cases h⟩
  · rename_i ss hk hbd
    simp only [litsFn, hk, hbd] at hN ⊢
    obtain ⟨⟨b, st1⟩, h1, h⟩ := ok_bind h
    cases h
    have t := trB_tx hA T D ss _ { st with n := st.n + p.params.length } _ _ hb hN h1
    exact ⟨Nat.le_trans (Nat.le_add_right _ _) t.n, t.k, t.out, .nil, t.made⟩
  · rename_i e hk hbd
    simp only [litsFn, hk, hbd] at hN ⊢
    obtain ⟨⟨b, st1⟩, h1, h⟩ := ok_bind h
    cases h
    have t := trX_tx hA T D e _ { st with n := st.n + p.params.length } _ _ hb hN h1
    exact ⟨Nat.le_trans (Nat.le_add_right _ _) t.n, t.k, t.out, .nil, t.made⟩
  · cases h

theorem trFns_tx {A : List X} (hA : ∀ t ∈ A, LitTyped t) {T : TrLib} {D : Decls} : ∀ {fs : List (Top × Fn)} {st st' : TrSt} {a : List SFn},
    Num A st.k (litsOf fs) → trFns T D fs st = .ok (a, st') → Tx T D A [] [] (litsOf fs) st st' []
  | [], st, st', a, hN, h => by cases h; exact .nil
  | (p, f) :: fs, st, st', a, hN, h => by
    simp only [trFns] at h
    obtain ⟨⟨a1, st1⟩, h1, h⟩ := ok_bind h
    obtain ⟨⟨a2, st2⟩, h2, h⟩ := ok_bind h
    cases h
    rw [show litsOf ((p, f) :: fs) = litsFn p f ++ litsOf fs from rfl] at hN ⊢
    have t1 := trFn_tx hA hN.left h1
    have t2 := trFns_tx hA (st := st1) (by rw [t1.k]; exact hN.right) h2
    exact t1.app .nil t2

theorem trFns_mem {A : List X} (hA : ∀ t ∈ A, LitTyped t) {T : TrLib} {D : Decls} {p : Top} {f : Fn} : ∀ {fs : List (Top × Fn)} {st st' : TrSt} {a : List SFn},
    Num A st.k (litsOf fs) → trFns T D fs st = .ok (a, st') → (p, f) ∈ fs →
    ∃ st0 a0 st1, Num A st0.k (litsFn p f) ∧ trFn T D p f st0 = .ok (a0, st1) ∧ (∀ fd ∈ a0, fd ∈ a) ∧ st1.n ≤ st'.n
  | [], st, st', a, hN, h, hm => by cases hm
  | q :: fs, st, st', a, hN, h, hm => by
    simp only [trFns] at h
    obtain ⟨⟨a1, st1⟩, h1, h⟩ := ok_bind h
    obtain ⟨⟨a2, st2⟩, h2, h⟩ := ok_bind h
    cases h
    rw [show litsOf (q :: fs) = litsFn q.1 q.2 ++ litsOf fs from rfl] at hN
    have t1 := trFn_tx hA hN.left h1
    have hN2 : Num A st1.k (litsOf fs) := by rw [t1.k]; exact hN.right
    rcases List.mem_cons.mp hm with rfl | hm
    · exact ⟨_, _, _, hN.left, h1, fun fd hfd => List.mem_append_left _ hfd, (trFns_tx hA hN2 h2).n⟩
    · obtain ⟨st0, a0, st3, k0, k1, k2, k3⟩ := trFns_mem hA hN2 h2 hm
      exact ⟨st0, a0, st3, k0, k1, fun fd hfd => List.mem_append_right _ (k2 fd hfd), k3⟩

theorem trFn_one {T : TrLib} {D : Decls} {p : Top} {f : Fn} {st st' : TrSt} {a : List SFn} (h : trFn T D p f st = .ok (a, st'))
    (hk : p.kind ≠ .external) : ∃ fd, a = [fd] ∧ fd.name = p.name := by
  simp only [trFn] at h
  split at h
  · rename_i hk'; exact absurd hk' hk
  · cases h; exact ⟨_, rfl, rfl⟩
  · cases h; exact ⟨_, rfl, rfl⟩
  · obtain ⟨⟨b, st1⟩, h1, h⟩ := ok_bind h
    cases h; exact ⟨_, rfl, rfl⟩
  · obtain ⟨⟨b, st1⟩, h1, h⟩ := ok_bind h
    cases h; exact ⟨_, rfl, rfl⟩
  · cases h

/-! ### The program around it -/

/-- The function `asEnum` of `enums.clara` 13: `unsafe(x, 0, …)` for its parameter `x`.  `u`, `s`: the external function. -/
inductive IsAsEnum : Top → Fn → String → Alt → Prop
  | mk {p : Top} {f : Fn} {x u : String} {tx : Ty} {t : Option Ty} {s : Alt} {r : Sym} {ts : List TyN} {s1 : Alt} {r1 : Sym}
      {z : Bool} {a : Ann} {tn : TyN} {te : Ty} {sy sy' : Option Sym} {tr : Ty} {d : FnData} {us : List Ty} {w : Ty} :
      p.kind = .normal → p.skip = false → p.params = [(x, tx)] →
      f.body = .expr (.call (.ident u ⟨t, some (s :: r)⟩) ts
        [.ident x ⟨some tx, some (s1 :: r1)⟩, .lit (.int 0 z) a, .ty tn ⟨some te, sy⟩] ⟨some tr, sy'⟩) →
      s.isGlobal = true → s.ty = some (.fn d us w) → d.kind = .external → d.raw = false → s1.isGlobal = false → s1.isType = false →
      IsAsEnum p f u s

/-- The library: `match` uses the function `asEnum`; the external function `unsafe` that it calls adds the offset, here
`0`, to a pointer (`codegen.go` 358-363).  When `isClosure` is there, so is `invokeDynamic`, which uses it; and the library
functions for array literals have the names under which they are called. -/
structure XLibOk (T : TrLib) (X : XProg σ) (fs : List (Top × Fn)) : Prop where
  info : T.low.asEnumInfo.ext = false
  asEnum : ∃ p f u s, (p, f) ∈ fs ∧ p.name = T.low.asEnum ∧ IsAsEnum p f u s ∧
    ∀ a S w S', X.base.ext (T.asm u s) [some a, some 1, none] S w S' ↔ (w = a ∧ S' = S)
  rt : ∀ vs S v S', ¬ X.base.rt T.low.asEnum vs S v S'
  dyn : ∀ p f, (X.isClosure, p, f) ∈ X.fns → ∃ q g uns, (q, g) ∈ fs ∧ q.name = T.invokeDynamic ∧ q.kind = .dynamic p.name uns ∧
    ∀ a S, X.base.ext uns [some a, some 1, none] S a S
  arr : ∀ p f, (X.arrayNoInit, p, f) ∈ X.fns → p.name = T.arrayNoInit
  set : ∀ p f, (X.setElement, p, f) ∈ X.fns → p.name = T.setElement

/-- The function literals of `X` are those of `fs` with their numbers; all function literals of `fs` are different, and have a
type for each parameter; and what is made of them has the same names. -/
structure LitsOk (T : TrLib) (X : XProg σ) (fs : List (Top × Fn)) : Prop where
  lits : ∀ t k, (t, k) ∈ X.lits → (t, k) ∈ (litsOf fs).zipIdx 1
  typed : ∀ t ∈ litsOf fs, LitTyped t
  nodup : (litsOf fs).Nodup
  anonFn : X.anonFn = T.anonFn
  clFn : X.clFn = T.clFn
  desc : X.desc = T.desc
  envId : X.envId = T.envId
  clId : X.clId = T.clId

/-- The functions of `X` are among the declared functions `fs`; and calls of a function go to its name in the assembly. -/
structure Listed (T : TrLib) (X : XProg σ) (fs : List (Top × Fn)) : Prop where
  asm : X.asm = T.asm
  fns : ∀ fid p f, (fid, p, f) ∈ X.fns → (p, f) ∈ fs ∧ p.kind ≠ .external ∧ ∀ x s, s.fid = fid → T.asm x s = p.name

theorem asEnum_tr {T : TrLib} {D : Decls} {p : Top} {f : Fn} {u : String} {s : Alt} (hi : IsAsEnum p f u s) {st st' : TrSt} {a : List SFn}
    (h : trFn T D p f st = .ok (a, st')) : ∃ fd ui q tp te, a = [fd] ∧ fd.name = p.name ∧ fd.skip = false ∧ fd.params = [(q, tp)] ∧
      fd.body = .expr (.callFn (T.asm u s) ui [.var q tp, .int 0, .typ te]) ∧ ui.ext = true ∧ ui.raw = false := by
  obtain ⟨hk, hsk, hpar, hbd, hg, ht, hx, hraw, hg1, ht1⟩ := hi
  simp only [trFn, hk, hbd] at h
  obtain ⟨⟨b, st1⟩, h1, h⟩ := ok_bind h
  cases h
  rw [trX_callI] at h1
  obtain ⟨⟨as, st2⟩, h2, h1⟩ := ok_bind h1
  simp only [hg, if_true] at h1
  obtain ⟨e1, h3, h1⟩ := ok_bind h1
  simp only [trCall, ht] at h3
  cases h3
  cases h1
  simp only [trL, trX, trIdent, ht1, hg1, hpar, List.map_cons, List.map_nil, bindParams, List.zipIdx_cons, List.zipIdx_nil,
    List.reverse_cons, List.reverse_nil, List.nil_append, List.lookup_cons, beq_self_eq_true] at h2
  cases h2
  refine ⟨_, _, st.n, _, _, rfl, rfl, hsk, ?_, rfl, by simpa using hx, hraw⟩
  simp [typedParams, hpar]

theorem inj_names {α β : Type} {g : α → β} : ∀ {l : List α}, (l.map g).Nodup → ∀ {a b}, a ∈ l → b ∈ l → g a = g b → a = b
  | [], _, a, b, ha, _, _ => by cases ha
  | c :: l, hn, a, b, ha, hb, e => by
    simp only [List.map_cons, List.nodup_cons, List.mem_map, not_exists, not_and] at hn
    rcases List.mem_cons.mp ha with rfl | ha' <;> rcases List.mem_cons.mp hb with rfl | hb'
    · rfl
    · exact absurd e.symm (hn.1 b hb')
    · exact absurd e (hn.1 a ha')
    · exact inj_names hn.2 ha' hb' e

/-- **The functions made of a program do what the program says.** -/
theorem compiled_says {T : TrLib} {D : Decls} {fs : List (Top × Fn)} {fds : List FnDef} (h : trProg T D fs = .ok fds)
    {X : XProg σ} (hX : Listed T X fs) (hL : XLibOk T X fs) (hT : LitsOk T X fs) (hN : (fds.map (·.name)).Nodup) (hD : ∀ n, (D.members n).length < 2 ^ 63)
    {R : Loops} (hR : ∀ z a b vs, R.range z a b vs → codeRange z a b vs) (hG : R.again = true)
    {p : Top} {f : Fn} (hp : (p, f) ∈ fs) {vs : List (Option Val)} {S S' : Store σ} {v : Option Val}
    (hr : XBig R D X (.fn p f vs S v S')) :
    ∃ fd ∈ fds, fd.name = p.name ∧ (p.skip = false → fd.skip = false) ∧ ∃ d, Big { X.base with fns := fds } d (.fn fd vs S v S') := by
  classical
  simp only [trProg] at h
  obtain ⟨⟨a, st⟩, h1, h⟩ := ok_bind h
  cases h
  simp only at h1 hN ⊢
  have hN' : ((a ++ st.out).map (·.name)).Nodup := by
    have e : ((a ++ st.out).map (lowF T.low st.n)).map (·.name) = (a ++ st.out).map (·.name) := by
      rw [List.map_map]; rfl
    rw [← e]; exact hN
  -- the functions for which lowering keeps the meaning
  let P0 : SProg σ := ⟨(a ++ st.out).filter (fun fd => decide (fd.Mild st.n)), X.base⟩
  have mem0 : ∀ fd, fd ∈ P0.fns ↔ fd ∈ a ++ st.out ∧ fd.Mild st.n := by
    intro fd
    simp only [P0, List.mem_filter, decide_eq_true_eq]
  have kind_of : ∀ {p f vs S v S'}, XBig R D X (.fn p f vs S v S') → p.kind ≠ .external := by
    intro p f vs S v S' h
    cases h <;> simp [*]
  have hA := hT.typed
  have hN0 : Num (litsOf fs) 0 (litsOf fs) := fun j t h => by rw [Nat.zero_add]; exact h
  have tx := trFns_tx hA (st := ⟨0, 0, []⟩) hN0 h1
  have made : ∀ {p f}, (p, f) ∈ fs → p.kind ≠ .external →
      ∃ st0 fd st1, Num (litsOf fs) st0.k (litsFn p f) ∧ trFn T D p f st0 = .ok ([fd], st1) ∧ fd ∈ P0.fns := by
    intro p f hm hk
    obtain ⟨st0, a0, st1, k0, k1, k2, k3⟩ := trFns_mem hA (st := ⟨0, 0, []⟩) hN0 h1 hm
    obtain ⟨fd, rfl, -⟩ := trFn_one k1 hk
    exact ⟨st0, fd, st1, k0, k1, (mem0 fd).mpr ⟨List.mem_append_left _ (k2 fd List.mem_cons_self), trFn_mild k1 k3⟩⟩
  have L0 : LibOk T.low P0 := by
    refine ⟨hL.info, ?_, hL.rt⟩
    obtain ⟨p', f', u, s, hm, hn, hi, he⟩ := hL.asEnum
    obtain ⟨st0, a0, st1, k0, k1, k2, k3⟩ := trFns_mem hA (st := ⟨0, 0, []⟩) hN0 h1 hm
    obtain ⟨fd, ui, q, tp, te, rfl, e1, e2, e3, e4, e5, e6⟩ := asEnum_tr hi k1
    have hfd := k2 fd List.mem_cons_self
    refine ⟨fd, _, ui, q, tp, te, (mem0 fd).mpr ⟨List.mem_append_left _ hfd, by simp [SFn.Mild, e4]⟩, e1.trans hn, e2, e3, e4, e5, e6, ?_, he⟩
    intro fd' hfd' hn'
    exact inj_names hN' ((mem0 fd').mp hfd').1 (List.mem_append_left _ hfd) (hn'.trans (e1.trans hn).symm)
  have M : Made T D (litsOf fs) X P0 := by
    refine ⟨rfl, hX.asm, hD, ?_, hA, hT.nodup, ?_, hT.anonFn, hT.clFn, hT.desc, hT.envId, hT.clId, ?_, hL.arr, hL.set⟩
    · intro fid p f hm
      obtain ⟨k1, k0, k3⟩ := hX.fns _ _ _ hm
      exact ⟨k3, made k1 k0⟩
    · intro t k ht
      have hk := hT.lits t k ht
      refine ⟨hk, ?_⟩
      have hm := List.mem_zipIdx hk
      have ha : (litsOf fs)[k - 1]? = some t := by
        rw [List.getElem?_eq_some_iff]
        exact ⟨by omega, hm.2.2.symm⟩
      have hmade := tx.made _ _ ha
      simp only [Nat.zero_add] at hmade
      rw [show k - 1 + 1 = k by omega] at hmade
      exact lit_in hA (hA t (List.mem_of_getElem? ha)) hmade (fun f hf hmild => (mem0 f).mpr ⟨List.mem_append_right _ hf, hmild⟩)
    · intro p f hm
      obtain ⟨q, g, uns, hq, hn, hk, he⟩ := hL.dyn p f hm
      obtain ⟨st0, a0, st1, k0, k1, k2, k3⟩ := trFns_mem hA (st := ⟨0, 0, []⟩) hN0 h1 hq
      simp only [trFn, hk] at k1
      cases k1
      rw [hn] at k2
      exact ⟨p.name, uns, st0.n, (mem0 _).mpr ⟨List.mem_append_left _ (k2 _ List.mem_cons_self), dynFn_mild k3⟩, rfl, he⟩
  obtain ⟨st0, fd, st1, k0, k1, k2⟩ := made hp (kind_of hr)
  obtain ⟨d, hb⟩ := forward L0 (fun fd hfd => ((mem0 fd).mp hfd).2) (sim hR hG M hr _ _ _ k0 k1) k2
  refine ⟨lowF T.low st.n fd, List.mem_map_of_mem ((mem0 fd).mp k2).1, ?_, ?_, d, big_more (P := lowP T.low st.n P0) rfl ?_ hb⟩
  · obtain ⟨fd', e, hn⟩ := trFn_one k1 (kind_of hr)
    cases e
    exact hn
  · intro hsk
    exact (trFn_name k1 hsk).2
  · intro fd hfd
    obtain ⟨fd', hfd', rfl⟩ := List.mem_map.mp hfd
    exact List.mem_map_of_mem ((mem0 fd').mp hfd').1

end Clara.Sema.Chk
