import Verif.Parse.Grammar
set_option linter.unusedVariables false
set_option linter.unusedSimpArgs false

/-! # The parser reads every sentence of the grammar -/

namespace Clara.Parse

open Clara.Lex (Kind Token Bytes)

/-- `x` returns `a` from state `s`, leaving `s'`. -/
def Runs {α : Type} (x : P α) (s : PS) (a : α) (s' : PS) : Prop := x s = some (.ok a, s')

/-- A state outside recovery. -/
def st (es : List SynErr) (rt : List Node) (r : List Token) : PS := ⟨r, es, false, rt⟩

section
variable {α β : Type} {es : List SynErr} {rt : List Node}

theorem Runs.bind {x : P α} {f : α → P β} {s s1 s2 : PS} {a : α} {b : β}
    (h1 : Runs x s a s1) (h2 : Runs (f a) s1 b s2) : Runs (x >>= f) s b s2 := by
  show (x >>= f) s = _
  have : (x >>= f) s = (f a) s1 := by
    show ((x s) >>= _ : Option _) = _
    rw [show x s = _ from h1]
    rfl
  rw [this]
  exact h2

theorem Runs.pure {a : α} {s : PS} : Runs (Pure.pure a : P α) s a s := rfl

theorem runs_kind {t : Token} {r : List Token} :
    Runs kind (st es rt (t :: r)) t.kind (st es rt (t :: r)) := rfl

theorem runs_is {t : Token} {r : List Token} {k : Kind} :
    Runs (is k) (st es rt (t :: r)) (t.kind == k) (st es rt (t :: r)) := rfl

theorem runs_next {t : Token} {r : List Token} (hr : r ≠ []) :
    Runs next (st es rt (t :: r)) t (st es rt r) := by
  cases r with
  | nil => exact absurd rfl hr
  | cons u r => rfl

theorem runs_modify {f : PS → PS} {s : PS} : Runs (modify f : P Unit) s () (f s) := rfl

theorem runs_need {t : Token} {r : List Token} {k : Kind} (hk : t.kind = k) (hr : r ≠ []) :
    Runs (need k) (st es rt (t :: r)) t (st es rt r) := by
  subst hk
  unfold need
  refine .bind runs_is ?_
  rw [beq_self_eq_true]
  exact .bind runs_modify (runs_next hr)

theorem runs_accept {t : Token} {r : List Token} {k : Kind} (hk : t.kind = k) (hr : r ≠ []) :
    Runs (accept k) (st es rt (t :: r)) true (st es rt r) := by
  subst hk
  unfold accept
  refine .bind runs_is ?_
  rw [beq_self_eq_true]
  exact .bind (runs_next hr) (.bind runs_modify .pure)

theorem runs_reject {t : Token} {r : List Token} {k : Kind} (hk : t.kind ≠ k) :
    Runs (accept k) (st es rt (t :: r)) false (st es rt (t :: r)) := by
  unfold accept
  refine .bind runs_is ?_
  rw [beq_false_of_ne hk]
  exact .pure

/-- A conditional whose condition was tested. -/
theorem Runs.ite_true {x y : P α} {s s' : PS} {a : α} (h : Runs x s a s') :
    Runs (if true = true then x else y) s a s' := h
theorem Runs.ite_false {x y : P α} {s s' : PS} {a : α} (h : Runs y s a s') :
    Runs (if false = true then x else y) s a s' := h

end

/-! ## Types -/

theorem app_ne {α : Type} {x r : List α} (hr : r ≠ []) : x ++ r ≠ [] := by
  simp [hr]

theorem CTy.toks_ne (t : CTy) : t.toks ≠ [] := by
  cases t <;> simp [CTy.toks]

theorem CTy.head (t : CTy) (h : t.Wf) (k : Kind) :
    startsType (headKind t.toks k) = true := by
  cases t <;> simp only [CTy.Wf] at h <;> simp only [CTy.toks, headKind, startsType] <;>
    simp [h]

theorem CTys.head_ne (ts : CTys) (k : Kind) (hne : ts.Ne) (h : ts.Wf k) (k' : Kind) :
    startsType (headKind ts.toks k') = true := by
  cases ts with
  | nil => exact absurd hne id
  | one t =>
    simp only [CTys.Wf] at h
    simpa [CTys.toks] using t.head h.1 k'
  | more t c r =>
    simp only [CTys.Wf] at h
    have := t.head h.1 k'
    simp only [CTys.toks]
    have hne := t.toks_ne
    generalize t.toks = l at this hne
    cases l with
    | nil => exact absurd rfl hne
    | cons u l => simpa [headKind] using this

theorem headKind_app {x : List Token} (hx : x ≠ []) (y : List Token) (k k' : Kind) :
    headKind (x ++ y) k = headKind x k' := by
  cases x with
  | nil => exact absurd rfl hx
  | cons u l => rfl

theorem eq_cons_headKind {x : List Token} (hx : x ≠ []) (k : Kind) :
    ∃ t r, x = t :: r ∧ t.kind = headKind x k := by
  cases x with
  | nil => exact absurd rfl hx
  | cons u l => exact ⟨u, l, rfl, rfl⟩

theorem optTypes_of_comma {es : List SynErr} {rt : List Node} {x : List Token} {k : Kind}
    (hx : startsType (headKind x .eof) = true) (hk : startsType k = false) {y : List Token}
    {n : List Node} {s' : PS} (h : Runs commaTypes (st es rt (x ++ y)) n s') :
    Runs (optTypes k) (st es rt (x ++ y)) n s' := by
  cases x with
  | nil => simp [headKind, startsType] at hx
  | cons v x =>
    rw [optTypes]
    refine .bind runs_is ?_
    have : (v.kind == k) = false := by
      apply beq_false_of_ne
      intro he
      simp [headKind, he, hk] at hx
    rw [this]
    exact h

mutual

theorem parseType_runs {es : List SynErr} {rt : List Node} (t : CTy) (h : t.Wf) {u : Token}
    {r : List Token} (hu : t.ends u.kind) :
    Runs parseType (st es rt (t.toks ++ u :: r)) t.node (st es rt (u :: r)) := by
  match t with
  | .named n =>
    simp only [CTy.Wf] at h
    simp only [CTy.ends] at hu
    simp only [CTy.toks, CTy.node, List.cons_append, List.nil_append]
    rw [parseType]
    refine .bind runs_kind ?_
    rw [h]
    refine .bind (runs_next (by simp)) (.bind runs_is ?_)
    rw [beq_false_of_ne hu]
    exact .pure
  | .gen n lg ts rg =>
    simp only [CTy.Wf] at h
    obtain ⟨h1, h2, h3, h4⟩ := h
    simp only [CTy.toks, CTy.node, List.cons_append, List.nil_append, List.append_assoc]
    rw [parseType]
    refine .bind runs_kind ?_
    rw [h1]
    refine .bind (runs_next (by simp)) (.bind runs_is ?_)
    rw [h2]
    refine .ite_true (.bind (runs_need h2 (by simp)) ?_)
    refine .bind (s1 := st es rt (rg :: u :: r)) (a := ts.nodes) ?_
      (.bind (runs_need h4 (by simp)) .pure)
    exact optTypes_runs ts h3 h4 (by decide) (by decide)
  | .arr lb rb e =>
    simp only [CTy.Wf] at h
    simp only [CTy.ends] at hu
    obtain ⟨h1, h2, h3⟩ := h
    simp only [CTy.toks, CTy.node, List.cons_append, List.nil_append, List.append_assoc]
    rw [parseType]
    refine .bind runs_kind ?_
    rw [h1]
    refine .bind (runs_next (by simp)) (.bind (runs_need h2 (by simp)) ?_)
    exact .bind (parseType_runs e h3 hu) .pure
  | .fn0 f lp ts rp =>
    simp only [CTy.Wf] at h
    simp only [CTy.ends, startsType, Bool.or_eq_false_iff] at hu
    obtain ⟨h1, h2, h3, h4⟩ := h
    obtain ⟨⟨hu1, hu2⟩, hu3⟩ := hu
    simp only [CTy.toks, CTy.node, List.cons_append, List.nil_append, List.append_assoc]
    rw [parseType]
    refine .bind runs_kind ?_
    rw [h1]
    refine .bind (runs_next (by simp)) (.bind (runs_need h2 (by simp)) ?_)
    refine .bind (s1 := st es rt (rp :: u :: r)) (a := ts.nodes) (optTypes_runs ts h3 h4 (by decide) (by decide)) ?_
    refine .bind (runs_need h4 (by simp)) (.bind runs_is (.bind runs_is (.bind runs_is ?_)))
    rw [hu1, hu2, hu3]
    exact .pure
  | .fn1 f lp ts rp q =>
    simp only [CTy.Wf] at h
    simp only [CTy.ends] at hu
    obtain ⟨h1, h2, h3, h4, h5⟩ := h
    have hh := q.head h5 .eof
    simp only [CTy.toks, CTy.node, List.cons_append, List.nil_append, List.append_assoc]
    rw [parseType]
    refine .bind runs_kind ?_
    rw [h1]
    refine .bind (runs_next (by simp)) (.bind (runs_need h2 (by simp)) ?_)
    refine .bind (s1 := st es rt (rp :: (q.toks ++ u :: r))) (a := ts.nodes) (optTypes_runs ts h3 h4 (by decide) (by decide)) ?_
    refine .bind (runs_need h4 (by simp)) ?_
    obtain ⟨v, w, hv, hvk⟩ := eq_cons_headKind (x := q.toks ++ u :: r) (by simp) .eof
    rw [headKind_app q.toks_ne _ _ .eof] at hvk
    have ih := parseType_runs (es := es) (rt := rt) q h5 (r := r) hu
    rw [hv] at ih ⊢
    refine .bind runs_is (.bind runs_is (.bind runs_is ?_))
    rw [hvk]
    simp only [startsType] at hh
    rw [hh]
    exact .ite_true (.bind ih .pure)

theorem commaTypes_runs {es : List SynErr} {rt : List Node} (ts : CTys) {k : Kind} (h : ts.Wf k)
    (hne : ts.Ne) {u : Token} {r : List Token} (hu : u.kind = k) (hk : k ≠ .comma) :
    Runs commaTypes (st es rt (ts.toks ++ u :: r)) ts.nodes (st es rt (u :: r)) := by
  match ts with
  | .nil => exact absurd hne id
  | .one t =>
    simp only [CTys.Wf] at h
    simp only [CTys.toks, CTys.nodes]
    rw [commaTypes]
    refine .bind (parseType_runs t h.1 (hu ▸ h.2)) (.bind (runs_reject (hu ▸ hk)) .pure)
  | .more t c q =>
    simp only [CTys.Wf] at h
    obtain ⟨h1, h2, h3, h4, h5⟩ := h
    simp only [CTys.toks, CTys.nodes, List.append_assoc, List.cons_append]
    rw [commaTypes]
    refine .bind (parseType_runs t h1 (h3 ▸ h2)) (.bind (runs_accept h3 (by simp)) ?_)
    exact .ite_true (.bind (commaTypes_runs q h5 h4 hu hk) .pure)

theorem optTypes_runs {es : List SynErr} {rt : List Node} (ts : CTys) {k : Kind} (h : ts.Wf k)
    {u : Token} {r : List Token} (hu : u.kind = k) (hk : k ≠ .comma) (hs : startsType k = false) :
    Runs (optTypes k) (st es rt (ts.toks ++ u :: r)) ts.nodes (st es rt (u :: r)) := by
  match ts with
  | .nil =>
    simp only [CTys.toks, CTys.nodes, List.nil_append]
    rw [optTypes]
    refine .bind runs_is ?_
    rw [hu, beq_self_eq_true]
    exact .pure
  | .one t =>
    exact optTypes_of_comma (CTys.head_ne (.one t) k trivial h .eof) hs
      (commaTypes_runs (.one t) h trivial hu hk)
  | .more t c q =>
    exact optTypes_of_comma (CTys.head_ne (.more t c q) k trivial h .eof) hs
      (commaTypes_runs (.more t c q) h trivial hu hk)

end

/-! ## Parameters, names, heads of functions -/

section
variable {es : List SynErr} {rt : List Node}

theorem parseTypeList_runs {lg rg u : Token} {ts : CTys} {r : List Token} (h1 : lg.kind = .lgmet)
    (h2 : ts.Wf .rgmet) (h3 : rg.kind = .rgmet) :
    Runs parseTypeList (st es rt (lg :: (ts.toks ++ rg :: u :: r))) (ts.nodes, lg)
      (st es rt (u :: r)) := by
  unfold parseTypeList
  refine .bind (runs_need h1 (by simp)) (.bind (optTypes_runs ts h2 h3 (by decide) (by decide)) ?_)
  exact .bind (runs_need h3 (by simp)) .pure

theorem parseParameter_runs (p : CParam) {u : Token} {r : List Token} (h : p.Wf u.kind) :
    Runs parseParameter (st es rt (p.toks ++ u :: r)) p.node (st es rt (u :: r)) := by
  obtain ⟨h1, h2, h3, h4⟩ := h
  unfold parseParameter
  refine .bind (runs_need h1 (by simp)) (.bind (runs_need h2 (by simp)) ?_)
  exact .bind (parseType_runs p.ty h3 h4) .pure

theorem commaParams_runs (ps : CParams) (hw : ps.Wf) (hne : ps.Ne) {u : Token} {r : List Token}
    (hu : u.kind = .rparen) :
    Runs commaParams (st es rt (ps.toks ++ u :: r)) ps.nodes (st es rt (u :: r)) := by
  induction ps with
  | nil => exact absurd hne id
  | one p =>
    simp only [CParams.Wf] at hw
    rw [← hu] at hw
    simp only [CParams.toks, CParams.nodes]
    rw [commaParams]
    exact .bind (parseParameter_runs p hw) (.bind (runs_reject (by simp [hu])) .pure)
  | more p c q ih =>
    simp only [CParams.Wf] at hw
    obtain ⟨h1, h2, h3, h4⟩ := hw
    simp only [CParams.toks, CParams.nodes, List.append_assoc, List.cons_append]
    rw [commaParams]
    rw [← h2] at h1
    refine .bind (parseParameter_runs p h1) (.bind (runs_accept h2 (by simp)) ?_)
    exact .ite_true (.bind (ih h4 h3) .pure)

theorem CParams.head (ps : CParams) (hw : ps.Wf) (hne : ps.Ne) (k : Kind) :
    ∃ t r, ps.toks = t :: r ∧ t.kind = .identifier := by
  cases ps with
  | nil => exact absurd hne id
  | one p => exact ⟨p.name, _, rfl, hw.1⟩
  | more p c q => exact ⟨p.name, _, rfl, hw.1.1⟩

theorem parseParameters_runs (ps : CParams) (hw : ps.Wf) {lp rp u : Token} {r : List Token}
    (h1 : lp.kind = .lparen) (h2 : rp.kind = .rparen) :
    Runs parseParameters (st es rt (lp :: (ps.toks ++ rp :: u :: r))) ps.nodes (st es rt (u :: r)) := by
  unfold parseParameters
  refine .bind (runs_need h1 (by simp)) (.bind (s1 := st es rt (rp :: u :: r)) (a := ps.nodes) ?_
    (.bind (runs_need h2 (by simp)) .pure))
  unfold optParams
  by_cases hne : ps.Ne
  · obtain ⟨t, q, ht, hk⟩ := ps.head hw hne .eof
    have h := commaParams_runs (es := es) (rt := rt) ps hw hne (r := u :: r) h2
    rw [ht] at h ⊢
    refine .bind runs_is ?_
    rw [hk]
    exact h
  · cases ps with
    | nil =>
      refine .bind runs_is ?_
      rw [h2]
      exact .pure
    | one p => exact absurd trivial hne
    | more p c q => exact absurd trivial hne

theorem commaIdents_runs (ps : CIds) (hw : ps.Wf) (hne : ps.Ne) {u : Token} {r : List Token}
    (hu : u.kind = .rparen) :
    Runs commaIdents (st es rt (ps.toks ++ u :: r)) ps.nodes (st es rt (u :: r)) := by
  induction ps with
  | nil => exact absurd hne id
  | one p =>
    simp only [CIds.Wf] at hw
    simp only [CIds.toks, CIds.nodes, List.cons_append, List.nil_append]
    rw [commaIdents]
    exact .bind (.bind (runs_need hw (by simp)) .pure) (.bind (runs_reject (by simp [hu])) .pure)
  | more p c q ih =>
    simp only [CIds.Wf] at hw
    obtain ⟨h1, h2, h3, h4⟩ := hw
    simp only [CIds.toks, CIds.nodes, List.append_assoc, List.cons_append]
    rw [commaIdents]
    refine .bind (.bind (runs_need h1 (by simp)) .pure) (.bind (runs_accept h2 (by simp)) ?_)
    exact .ite_true (.bind (ih h4 h3) .pure)

theorem CIds.head (ps : CIds) (hw : ps.Wf) (hne : ps.Ne) :
    ∃ t r, ps.toks = t :: r ∧ t.kind = .identifier := by
  cases ps with
  | nil => exact absurd hne id
  | one p => exact ⟨p, _, rfl, hw⟩
  | more p c q => exact ⟨p, _, rfl, hw.1⟩

theorem parseIdentifiers_runs (ps : CIds) (hw : ps.Wf) {lp rp u : Token} {r : List Token}
    (h1 : lp.kind = .lparen) (h2 : rp.kind = .rparen) :
    Runs parseIdentifiers (st es rt (lp :: (ps.toks ++ rp :: u :: r))) ps.nodes (st es rt (u :: r)) := by
  unfold parseIdentifiers
  refine .bind (runs_need h1 (by simp)) (.bind (s1 := st es rt (rp :: u :: r)) (a := ps.nodes) ?_
    (.bind (runs_need h2 (by simp)) .pure))
  unfold optIdents
  by_cases hne : ps.Ne
  · obtain ⟨t, q, ht, hk⟩ := ps.head hw hne
    have h := commaIdents_runs (es := es) (rt := rt) ps hw hne (r := u :: r) h2
    rw [ht] at h ⊢
    refine .bind runs_is ?_
    rw [hk]
    exact h
  · cases ps with
    | nil =>
      refine .bind runs_is ?_
      rw [h2]
      exact .pure
    | one p => exact absurd trivial hne
    | more p c q => exact absurd trivial hne

theorem fnTypeList_runs (tps : CTps) (hw : tps.Wf) {u : Token} {r : List Token} (hu : u.kind ≠ .lgmet) :
    Runs fnTypeList (st es rt (tps.toks ++ u :: r)) tps.node (st es rt (u :: r)) := by
  unfold fnTypeList
  cases tps with
  | none =>
    refine .bind runs_kind ?_
    rw [beq_false_of_ne hu]
    exact .pure
  | some lg ts rg =>
    obtain ⟨h1, h2, h3⟩ := hw
    simp only [CTps.toks, CTps.node, List.cons_append, List.append_assoc, List.nil_append]
    refine .bind runs_kind ?_
    rw [h1]
    exact .bind (parseTypeList_runs h1 h2 h3) .pure

theorem typeParams_runs (tps : CTps) (hw : tps.Wf) {u : Token} {r : List Token} (hu : u.kind ≠ .lgmet) :
    Runs typeParams (st es rt (tps.toks ++ u :: r)) tps.nodes (st es rt (u :: r)) := by
  unfold typeParams
  cases tps with
  | none =>
    refine .bind runs_is ?_
    rw [beq_false_of_ne hu]
    exact .pure
  | some lg ts rg =>
    obtain ⟨h1, h2, h3⟩ := hw
    simp only [CTps.toks, CTps.nodes, List.cons_append, List.append_assoc, List.nil_append]
    refine .bind runs_is ?_
    rw [h1]
    exact .bind (parseTypeList_runs h1 h2 h3) .pure

theorem fnRet_runs (q : CRet) {u : Token} {r : List Token} (hw : q.Wf u.kind) :
    Runs fnRet (st es rt (q.toks ++ u :: r)) q.node (st es rt (u :: r)) := by
  unfold fnRet
  cases q with
  | none =>
    simp only [CRet.Wf, startsType, Bool.or_eq_false_iff] at hw
    refine .bind runs_is (.bind runs_is (.bind runs_is ?_))
    rw [hw.1.1, hw.1.2, hw.2]
    exact .pure
  | some t =>
    obtain ⟨h1, h2⟩ := hw
    have hh := t.head h1 .eof
    obtain ⟨v, w, hv, hvk⟩ := eq_cons_headKind (x := t.toks ++ u :: r) (by simp) .eof
    rw [headKind_app t.toks_ne _ _ .eof] at hvk
    have ih := parseType_runs (es := es) (rt := rt) t h1 (r := r) h2
    simp only [CRet.toks, CRet.node]
    rw [hv] at ih ⊢
    refine .bind runs_is (.bind runs_is (.bind runs_is ?_))
    rw [hvk]
    simp only [startsType] at hh
    rw [Bool.or_assoc, Bool.or_comm (_ == Kind.lbrack), ← Bool.or_assoc, hh]
    exact .ite_true (.bind ih .pure)

/-- The head of a function, then whatever `parseFn` does next. -/
theorem sig_runs {β : Type} (g : CSig) {u : Token} {r : List Token} (hw : g.Wf u.kind)
    {f : Option Node → List Node → Option Node → P β} {b : β} {s' : PS}
    (h : Runs (f g.tps.node g.ps.nodes g.ret.node) (st es rt (u :: r)) b s') :
    Runs (do
      let tl ← fnTypeList
      let params ← parseParameters
      let ret ← fnRet
      f tl params ret) (st es rt (g.toks ++ u :: r)) b s' := by
  obtain ⟨h1, h2, h3, h4, h5⟩ := hw
  simp only [CSig.toks, List.append_assoc, List.cons_append]
  refine .bind (fnTypeList_runs g.tps h1 (by simp [h2])) ?_
  obtain ⟨v, w, hv, -⟩ := eq_cons_headKind (x := g.ret.toks ++ u :: r) (by simp) .eof
  have hr := fnRet_runs (es := es) (rt := rt) g.ret (r := r) h5
  rw [hv] at hr ⊢
  exact .bind (parseParameters_runs g.ps h3 h2 h4) (.bind hr h)

end

/-! ## Expressions and statements -/

theorem nextPrec_binds (k : Kind) : nextPrec k = binds k := by
  cases k <;> rfl

theorem isExprStart_starts (k : Kind) : isExprStart k = startsStmtExpr k := by
  cases k <;> rfl

theorem CE.toks_ne (e : CE) : e.toks ≠ [] := by
  cases e <;> simp [CE.toks]

/-- The first token of an expression begins an operand. -/
theorem CE.head (e : CE) (h : e.Wf) (k : Kind) : ∃ f, prefixOf (headKind e.toks k) = some f := by
  match e with
  | .ident t => simp only [CE.Wf] at h; exact ⟨.ident, by simp [CE.toks, headKind, h, prefixOf]⟩
  | .lit t =>
    simp only [CE.Wf] at h
    simp only [CE.toks, headKind]
    generalize t.kind = k at h
    cases k <;> simp [isLit] at h <;> exact ⟨_, rfl⟩
  | .paren lp e rp => simp only [CE.Wf] at h; exact ⟨.group, by simp [CE.toks, headKind, h, prefixOf]⟩
  | .un t e =>
    simp only [CE.Wf] at h
    simp only [CE.toks, headKind]
    replace h := h.1
    generalize t.kind = k at h
    cases k <;> simp [binds1] at h <;> exact ⟨_, rfl⟩
  | .bin l t r =>
    simp only [CE.Wf] at h
    simp only [CE.toks]
    rw [headKind_app l.toks_ne _ _ k]
    exact l.head h.1 k
  | .tern c q a co b =>
    simp only [CE.Wf] at h
    simp only [CE.toks]
    rw [headKind_app c.toks_ne _ _ k]
    exact c.head h.1 k
  | .call f lp as rp =>
    simp only [CE.Wf] at h
    simp only [CE.toks]
    rw [headKind_app f.toks_ne _ _ k]
    exact f.head h.1 k
  | .tcall f lg ts rg lp as rp =>
    simp only [CE.Wf] at h
    simp only [CE.toks]
    rw [headKind_app f.toks_ne _ _ k]
    exact f.head h.1 k
  | .index a lb i rb =>
    simp only [CE.Wf] at h
    simp only [CE.toks]
    rw [headKind_app a.toks_ne _ _ k]
    exact a.head h.1 k
  | .arr lb es rb => simp only [CE.Wf] at h; exact ⟨.arrayLit, by simp [CE.toks, headKind, h, prefixOf]⟩
  | .typ t lp ty rp => simp only [CE.Wf] at h; exact ⟨.type, by simp [CE.toks, headKind, h, prefixOf]⟩
  | .lamB f g lb ss rb => simp only [CE.Wf] at h; exact ⟨.func, by simp [CE.toks, headKind, h, prefixOf]⟩
  | .lamE f g a e => simp only [CE.Wf] at h; exact ⟨.func, by simp [CE.toks, headKind, h, prefixOf]⟩

theorem binds_pos_of_binary {k : Kind} (h : isBinary k = true) : 0 < binds k := by
  cases k <;> simp_all [isBinary, binds]

theorem CE.top_pos (e : CE) (h : e.Wf) : 0 < e.top := by
  match e with
  | .bin l t r =>
    simp only [CE.Wf] at h
    have := l.top_pos h.1
    have := binds_pos_of_binary h.2.1
    simp only [CE.top]
    omega
  | .tern c q a co b =>
    simp only [CE.Wf] at h
    have := c.top_pos h.1
    simp only [CE.top]
    omega
  | .call f lp as rp =>
    simp only [CE.Wf] at h
    have := f.top_pos h.1
    simp only [CE.top]
    omega
  | .tcall f lg ts rg lp as rp =>
    simp only [CE.Wf] at h
    have := f.top_pos h.1
    simp only [CE.top]
    omega
  | .index a lb i rb =>
    simp only [CE.Wf] at h
    have := a.top_pos h.1
    simp only [CE.top]
    omega
  | .ident _ | .lit _ | .paren .. | .un .. | .arr .. | .typ .. | .lamB .. | .lamE .. =>
    simp [CE.top]

section
variable {es : List SynErr} {rt : List Node}

theorem exprLoop_stop {p : Nat} {n : Node} {u : Token} {r : List Token} (h : binds u.kind ≤ p) :
    Runs (exprLoop p n) (st es rt (u :: r)) n (st es rt (u :: r)) := by
  rw [exprLoop]
  refine .bind runs_kind ?_
  rw [nextPrec_binds, if_neg (by omega)]
  exact .pure

theorem exprLoop_step {p : Nat} {n n' b : Node} {f : Infix} {u : Token} {r : List Token} {s1 s2 : PS}
    (h : p < binds u.kind) (hf : infixOf u.kind = some f) (hr : r ≠ [])
    (h1 : Runs (parseInfix f n u) (st es rt r) n' s1) (h2 : Runs (exprLoop p n') s1 b s2) :
    Runs (exprLoop p n) (st es rt (u :: r)) b s2 := by
  rw [exprLoop]
  refine .bind runs_kind ?_
  rw [nextPrec_binds, if_pos h]
  refine .bind (runs_next hr) ?_
  rw [hf]
  exact .bind h1 h2

/-- An expression that begins with the operand `n`. -/
theorem parseExpr_prefix {p : Nat} {n b : Node} {f : Prefix} {u : Token} {r : List Token} {s1 s2 : PS}
    (hf : prefixOf u.kind = some f) (hr : r ≠ [])
    (h1 : Runs (parsePrefix f u) (st es rt r) n s1) (h2 : Runs (exprLoop p n) s1 b s2) :
    Runs (parseExpr p) (st es rt (u :: r)) b s2 := by
  rw [parseExpr]
  refine .bind (runs_next hr) ?_
  rw [hf]
  exact .bind h1 h2

theorem optExprs_of_comma {x : List Token} {k : Kind} (hx : ∃ f, prefixOf (headKind x .eof) = some f)
    (hk : prefixOf k = none) {y : List Token}
    {n : List Node} {s' : PS} (h : Runs commaExprs (st es rt (x ++ y)) n s') :
    Runs (optExprs k) (st es rt (x ++ y)) n s' := by
  obtain ⟨f, hx⟩ := hx
  cases x with
  | nil => simp [headKind, prefixOf] at hx
  | cons v x =>
    rw [optExprs]
    refine .bind runs_is ?_
    have : (v.kind == k) = false := by
      apply beq_false_of_ne
      intro he
      simp [headKind, he, hk] at hx
    rw [this]
    exact h

theorem CEs.head (xs : CEs) (h : xs.Wf) (hne : xs.Ne) : ∃ f, prefixOf (headKind xs.toks .eof) = some f := by
  cases xs with
  | nil => exact absurd hne id
  | one e => simp only [CEs.Wf] at h; exact e.head h _
  | more e c r =>
    simp only [CEs.Wf] at h
    simp only [CEs.toks]
    rw [headKind_app e.toks_ne _ _ .eof]
    exact e.head h.1 _

end

theorem binary_infix {k : Kind} (h : isBinary k = true) : infixOf k = some .binary := by
  cases k <;> simp_all [isBinary, infixOf]

theorem binary_prec {k : Kind} (h : isBinary k = true) :
    (if isRightAssoc k = true then prec k - 1 else prec k) = binds k := by
  cases k <;> simp_all [isBinary, isRightAssoc, prec, binds]

theorem binary_op {k : Kind} (h : isBinary k = true) : infixOp k = binOp k := by
  cases k <;> simp_all [isBinary, infixOp, binOp]

theorem unary_op {k : Kind} (h : binds1 k ≠ 0) : prefixOp k = unOp k := by
  cases k <;> simp_all [binds1, prefixOp, unOp]

theorem unary_prefix {k : Kind} (h : binds1 k ≠ 0) : prefixOf k = some .op := by
  cases k <;> simp_all [binds1, prefixOf]

theorem unary_prec {k : Kind} (h : binds1 k ≠ 0) : prec k = binds1 k := by
  cases k <;> simp_all [binds1, prec]

theorem lit_prefix {k : Kind} (h : isLit k = true) : prefixOf k = some .lit := by
  cases k <;> simp_all [isLit, prefixOf]

theorem starts_ne {k : Kind} (h : startsStmtExpr k = true) :
    k ≠ .ret ∧ k ≠ .while_ ∧ k ≠ .for_ ∧ k ≠ .if_ ∧ k ≠ .case ∧ k ≠ .rbrace := by
  cases k <;> simp_all [startsStmtExpr]

/-- The first token of a statement closes no block or case. -/
theorem CS.head (s : CS) {k : Kind} (h : s.Wf k) {r : List Token} :
    ∃ y z, s.toks ++ r = y :: z ∧ y.kind ≠ .case ∧ y.kind ≠ .rbrace := by
  cases s with
  | expr e | asg e _ _ | das e _ _ =>
    simp only [CS.Wf] at h
    obtain ⟨y, z, hy, hk⟩ := eq_cons_headKind e.toks_ne k
    refine ⟨y, _, by simp only [CS.toks, hy, List.cons_append, List.append_assoc]; rfl, ?_⟩
    have := starts_ne h.2.1
    rw [hk]
    exact ⟨this.2.2.2.2.1, this.2.2.2.2.2⟩
  | _ =>
    simp only [CS.Wf] at h
    exact ⟨_, _, rfl, by simp [h], by simp [h]⟩

theorem CCs.head (cs : CCs) (h : cs.Wf) :
    headKind cs.toks .rbrace = .rbrace ∨ headKind cs.toks .rbrace = .case := by
  cases cs with
  | nil => exact .inl rfl
  | cons c id lp ids rp co ss q =>
    simp only [CCs.Wf] at h
    exact .inr h.1

theorem parseStatement_expr {es : List SynErr} {rt : List Node} {v : Token} {w : List Token} {n : Node} {s' : PS}
    (h : startsStmtExpr v.kind = true)
    (hx : Runs (do
      let e ← parseExpr 0
      match ← kind with
      | .as =>
        let t ← need .as
        return nd .as_ t (left := some e) (right := some (← parseExpr 0))
      | .das =>
        let t ← need .das
        return nd .das t (left := some e) (right := some (← parseExpr 0))
      | _ => return e) (st es rt (v :: w)) n s') :
    Runs parseStatement (st es rt (v :: w)) n s' := by
  rw [parseStatement]
  refine .bind runs_kind ?_
  have := starts_ne h
  rw [if_neg this.1, if_neg this.2.1, if_neg this.2.2.1, if_neg this.2.2.2.1,
    isExprStart_starts, if_pos h]
  exact hx

mutual

/-- Reading an expression brings the parser to the loop of `parseExpr` with that expression in
hand. -/
theorem parseExpr_runs {es : List SynErr} {rt : List Node} (e : CE) (h : e.Wf) {p : Nat} (hp : p < e.top)
    {u : Token} {r : List Token} (hu : binds u.kind ≤ e.edge) {b : Node} {s2 : PS}
    (hl : Runs (exprLoop p e.node) (st es rt (u :: r)) b s2) :
    Runs (parseExpr p) (st es rt (e.toks ++ u :: r)) b s2 := by
  match e with
  | .ident t =>
    simp only [CE.Wf] at h
    exact parseExpr_prefix (f := .ident) (by rw [h]; rfl) (by simp) (by rw [parsePrefix]; exact .pure) hl
  | .lit t =>
    simp only [CE.Wf] at h
    exact parseExpr_prefix (lit_prefix h) (by simp) (by rw [parsePrefix]; exact .pure) hl
  | .paren lp e rp =>
    simp only [CE.Wf] at h
    obtain ⟨h1, h2, h3⟩ := h
    simp only [CE.toks, List.cons_append, List.append_assoc, List.nil_append]
    simp only [CE.node] at hl
    refine parseExpr_prefix (f := .group) (by rw [h1]; rfl) (by simp) ?_ hl
    rw [parsePrefix]
    refine .bind (parseExpr_full e h2 (by rw [h3]; rfl)) ?_
    exact .bind (runs_need h3 (by simp)) .pure
  | .un t e =>
    simp only [CE.Wf] at h
    obtain ⟨h1, h2, h3⟩ := h
    simp only [CE.edge] at hu
    simp only [CE.toks, List.cons_append]
    simp only [CE.node] at hl
    refine parseExpr_prefix (unary_prefix h1) (by simp) ?_ hl
    rw [parsePrefix, unary_prec h1, unary_op h1]
    refine .bind (parseExpr_runs e h2 h3 (by omega) (exprLoop_stop (by omega))) .pure
  | .bin l t q =>
    simp only [CE.Wf] at h
    obtain ⟨h1, h2, h3, h4, h5⟩ := h
    simp only [CE.edge] at hu
    simp only [CE.top] at hp
    simp only [CE.toks, List.cons_append, List.append_assoc]
    simp only [CE.node] at hl
    refine parseExpr_runs l h1 (by omega) h4 ?_
    refine exprLoop_step (by omega) (binary_infix h2) (by simp) ?_ hl
    rw [parseInfix]
    simp only [binary_prec h2, binary_op h2]
    refine .bind (parseExpr_runs q h3 h5 (by omega) (exprLoop_stop (by omega))) .pure
  | .tern c q a co d =>
    simp only [CE.Wf] at h
    obtain ⟨h1, h2, h3, h4, h5, h6⟩ := h
    simp only [CE.edge] at hu
    simp only [CE.top] at hp
    simp only [CE.toks, List.cons_append, List.append_assoc]
    simp only [CE.node] at hl
    refine parseExpr_runs c h1 (by omega) (by rw [h3]; exact h2) ?_
    refine exprLoop_step (f := .ternary) (by rw [h3]; simp only [binds]; omega) (by rw [h3]; rfl) (by simp) ?_ hl
    rw [parseInfix]
    refine .bind (parseExpr_full a h4 (by rw [h5]; rfl)) (.bind (runs_need h5 (by simp)) ?_)
    rw [h3]
    refine .bind (parseExpr_full d h6 (by omega)) .pure
  | .call f lp as rp =>
    simp only [CE.Wf] at h
    obtain ⟨h1, h2, h3, h4, h5⟩ := h
    simp only [CE.top] at hp
    simp only [CE.toks, List.cons_append, List.append_assoc, List.nil_append]
    simp only [CE.node] at hl
    refine parseExpr_runs f h1 (by omega) (by rw [h3]; exact h2) ?_
    refine exprLoop_step (f := .call) (by rw [h3]; simp only [binds]; omega) (by rw [h3]; rfl) (by simp) ?_ hl
    rw [parseInfix]
    exact .bind (optExprs_runs as h4 (by rw [h5]; rfl) h5 ⟨by decide, by decide⟩) (.bind (runs_need h5 (by simp)) .pure)
  | .tcall f lg ts rg lp as rp =>
    simp only [CE.Wf] at h
    obtain ⟨h1, h2, h3, h4, h5, h6, h7, h8⟩ := h
    simp only [CE.top] at hp
    simp only [CE.toks, List.cons_append, List.append_assoc, List.nil_append]
    simp only [CE.node] at hl
    refine parseExpr_runs f h1 (by omega) (by rw [h3]; exact h2) ?_
    refine exprLoop_step (f := .tcall) (by rw [h3]; simp only [binds]; omega) (by rw [h3]; rfl) (by simp) ?_ hl
    rw [parseInfix]
    refine .bind (optTypes_runs ts h4 h5 (by decide) (by decide)) (.bind (runs_need h5 (by simp))
      (.bind (runs_need h6 (by simp)) ?_))
    exact .bind (optExprs_runs as h7 (by rw [h8]; rfl) h8 ⟨by decide, by decide⟩) (.bind (runs_need h8 (by simp)) .pure)
  | .index a lb i rb =>
    simp only [CE.Wf] at h
    obtain ⟨h1, h2, h3, h4, h5⟩ := h
    simp only [CE.top] at hp
    simp only [CE.toks, List.cons_append, List.append_assoc, List.nil_append]
    simp only [CE.node] at hl
    refine parseExpr_runs a h1 (by omega) (by rw [h3]; exact h2) ?_
    refine exprLoop_step (f := .array) (by rw [h3]; simp only [binds]; omega) (by rw [h3]; rfl) (by simp) ?_ hl
    rw [parseInfix]
    exact .bind (parseExpr_full i h4 (by rw [h5]; rfl)) (.bind (runs_need h5 (by simp)) .pure)
  | .arr lb xs rb =>
    simp only [CE.Wf] at h
    obtain ⟨h1, h2, h3⟩ := h
    simp only [CE.toks, List.cons_append, List.append_assoc, List.nil_append]
    simp only [CE.node] at hl
    refine parseExpr_prefix (f := .arrayLit) (by rw [h1]; rfl) (by simp) ?_ hl
    rw [parsePrefix]
    exact .bind (optExprs_runs xs h2 (by rw [h3]; rfl) h3 ⟨by decide, by decide⟩) (.bind (runs_need h3 (by simp)) .pure)
  | .typ t lp ty rp =>
    simp only [CE.Wf] at h
    obtain ⟨h1, h2, h3, h4, h5⟩ := h
    simp only [CE.toks, List.cons_append, List.append_assoc, List.nil_append]
    simp only [CE.node] at hl
    refine parseExpr_prefix (f := .type) (by rw [h1]; rfl) (by simp) ?_ hl
    rw [parsePrefix]
    refine .bind (runs_need h2 (by simp)) (.bind (parseType_runs ty h3 (h5 ▸ h4)) ?_)
    exact .bind (runs_need h5 (by simp)) .pure
  | .lamB f g lb ss rb =>
    simp only [CE.Wf] at h
    obtain ⟨h1, h2, h3, h4, h5⟩ := h
    simp only [CE.toks, List.cons_append, List.append_assoc, List.nil_append]
    simp only [CE.node] at hl
    refine parseExpr_prefix (f := .func) (by rw [h1]; rfl) (by simp) ?_ hl
    rw [parsePrefix, fnRest]
    refine sig_runs g (h3 ▸ h2) (.bind runs_kind ?_)
    rw [h3]
    exact .bind (parseBlock_runs ss h4 h3 h5) .pure
  | .lamE f g a e =>
    simp only [CE.Wf] at h
    obtain ⟨h1, h2, h3, h4⟩ := h
    simp only [CE.edge] at hu
    simp only [CE.toks, List.cons_append, List.append_assoc, List.nil_append]
    simp only [CE.node] at hl
    refine parseExpr_prefix (f := .func) (by rw [h1]; rfl) (by simp) ?_ hl
    rw [parsePrefix, fnRest]
    refine sig_runs g (h3 ▸ h2) (.bind runs_kind ?_)
    rw [h3]
    exact .bind (runs_next (by simp)) (.bind (parseExpr_full e h4 (by omega)) .pure)
termination_by (sizeOf e, 0)

/-- A whole expression. -/
theorem parseExpr_full {es : List SynErr} {rt : List Node} (e : CE) (h : e.Wf)
    {u : Token} {r : List Token} (hu : binds u.kind = 0) :
    Runs (parseExpr 0) (st es rt (e.toks ++ u :: r)) e.node (st es rt (u :: r)) :=
  parseExpr_runs e h (e.top_pos h) (by omega) (exprLoop_stop (by omega))
termination_by (sizeOf e, 1)

theorem commaExprs_runs {es : List SynErr} {rt : List Node} (xs : CEs) (h : xs.Wf) (hne : xs.Ne)
    {u : Token} {r : List Token} (hu : binds u.kind = 0) (hk : u.kind ≠ .comma) :
    Runs commaExprs (st es rt (xs.toks ++ u :: r)) xs.nodes (st es rt (u :: r)) := by
  match xs with
  | .nil => exact absurd hne id
  | .one e =>
    simp only [CEs.Wf] at h
    simp only [CEs.toks, CEs.nodes]
    rw [commaExprs]
    exact .bind (parseExpr_full e h hu) (.bind (runs_reject hk) .pure)
  | .more e c q =>
    simp only [CEs.Wf] at h
    obtain ⟨h1, h2, h3, h4⟩ := h
    simp only [CEs.toks, CEs.nodes, List.append_assoc, List.cons_append]
    rw [commaExprs]
    refine .bind (parseExpr_full e h1 (by rw [h2]; rfl)) (.bind (runs_accept h2 (by simp)) ?_)
    exact .ite_true (.bind (commaExprs_runs q h4 h3 hu hk) .pure)
termination_by (sizeOf xs, 2)

theorem optExprs_runs {es : List SynErr} {rt : List Node} (xs : CEs) (h : xs.Wf)
    {u : Token} {r : List Token} (hu : binds u.kind = 0) {k : Kind} (hk : u.kind = k)
    (hc : prefixOf k = none ∧ k ≠ .comma) :
    Runs (optExprs k) (st es rt (xs.toks ++ u :: r)) xs.nodes (st es rt (u :: r)) := by
  by_cases hne : xs.Ne
  · exact optExprs_of_comma (xs.head h hne) hc.1 (commaExprs_runs xs h hne hu (hk ▸ hc.2))
  · cases xs with
    | nil =>
      rw [optExprs]
      refine .bind runs_is ?_
      rw [hk, beq_self_eq_true]
      exact .pure
    | one p => exact absurd trivial hne
    | more p c q => exact absurd trivial hne
termination_by (sizeOf xs, 3)

theorem parseBlock_runs {es : List SynErr} {rt : List Node} (ss : CSs) (h : ss.Wf .rbrace)
    {lb rb u : Token} {r : List Token} (h1 : lb.kind = .lbrace) (h2 : rb.kind = .rbrace) :
    Runs parseBlock (st es rt (lb :: (ss.toks ++ rb :: u :: r))) ss.nodes (st es rt (u :: r)) := by
  rw [parseBlock]
  refine .bind (runs_need h1 (by simp)) (.bind (blockLoop_runs ss h h2) ?_)
  exact .bind (runs_need h2 (by simp)) .pure
termination_by (sizeOf ss, 3)

theorem blockLoop_runs {es : List SynErr} {rt : List Node} (ss : CSs) (h : ss.Wf .rbrace)
    {rb : Token} {r : List Token} (h2 : rb.kind = .rbrace) :
    Runs blockLoop (st es rt (ss.toks ++ rb :: r)) ss.nodes (st es rt (rb :: r)) := by
  match ss with
  | .nil =>
    rw [blockLoop]
    refine .bind runs_is ?_
    rw [h2]
    exact .pure
  | .cons s q =>
    simp only [CSs.Wf] at h
    obtain ⟨h1, h3⟩ := h
    simp only [CSs.toks, CSs.nodes, List.append_assoc]
    obtain ⟨v, w, hv, hvk⟩ := eq_cons_headKind (x := q.toks ++ rb :: r) (by simp) .eof
    have hh : headKind (q.toks ++ rb :: r) .eof = headKind q.toks .rbrace := by
      cases q.toks with
      | nil => exact h2
      | cons => rfl
    rw [hh] at hvk
    have ih := parseStatement_runs (es := es) (rt := rt) s (u := v) (r := w) (hvk ▸ h1)
    have ih2 := blockLoop_runs (es := es) (rt := rt) q h3 (r := r) h2
    obtain ⟨y, z, hy, hyk⟩ := s.head h1
    rw [hv] at ih2 ⊢
    rw [hy] at ih ⊢
    rw [blockLoop]
    refine .bind runs_is ?_
    rw [beq_false_of_ne hyk.2]
    exact .bind ih (.bind ih2 .pure)
termination_by (sizeOf ss, 2)

theorem caseStmts_runs {es : List SynErr} {rt : List Node} (ss : CSs) {k : Kind} (h : ss.Wf k)
    {u : Token} {r : List Token} (hk : u.kind = k) (h2 : k = .rbrace ∨ k = .case) :
    Runs caseStmts (st es rt (ss.toks ++ u :: r)) ss.nodes (st es rt (u :: r)) := by
  match ss with
  | .nil =>
    rw [caseStmts]
    refine .bind runs_is (.bind runs_is ?_)
    rw [hk]
    rcases h2 with rfl | rfl <;> exact .pure
  | .cons s q =>
    simp only [CSs.Wf] at h
    obtain ⟨h1, h3⟩ := h
    simp only [CSs.toks, CSs.nodes, List.append_assoc]
    obtain ⟨v, w, hv, hvk⟩ := eq_cons_headKind (x := q.toks ++ u :: r) (by simp) .eof
    have hh : headKind (q.toks ++ u :: r) .eof = headKind q.toks k := by
      cases q.toks with
      | nil => exact hk
      | cons => rfl
    rw [hh] at hvk
    have ih := parseStatement_runs (es := es) (rt := rt) s (u := v) (r := w) (hvk ▸ h1)
    have ih2 := caseStmts_runs (es := es) (rt := rt) q h3 (r := r) hk h2
    obtain ⟨y, z, hy, hyk⟩ := s.head h1
    rw [hv] at ih2 ⊢
    rw [hy] at ih ⊢
    rw [caseStmts]
    refine .bind runs_is (.bind runs_is ?_)
    rw [beq_false_of_ne hyk.2, beq_false_of_ne hyk.1]
    exact .bind ih (.bind ih2 .pure)
termination_by (sizeOf ss, 2)

theorem parseStatement_runs {es : List SynErr} {rt : List Node} (s : CS) {u : Token} {r : List Token}
    (h : s.Wf u.kind) :
    Runs parseStatement (st es rt (s.toks ++ u :: r)) s.node (st es rt (u :: r)) := by
  match s with
  | .ret0 t =>
    simp only [CS.Wf] at h
    obtain ⟨h1, h2⟩ := h
    simp only [CS.toks, CS.node, List.cons_append, List.nil_append]
    rw [parseStatement]
    refine .bind runs_kind ?_
    rw [h1, if_pos rfl]
    refine .bind (runs_need h1 (by simp)) (.bind runs_kind ?_)
    rw [isExprStart_starts, h2]
    exact .pure
  | .ret1 t e =>
    simp only [CS.Wf] at h
    obtain ⟨h1, h2, h3, h4⟩ := h
    simp only [CS.toks, CS.node, List.cons_append, List.nil_append]
    rw [parseStatement]
    refine .bind runs_kind ?_
    rw [h1, if_pos rfl]
    refine .bind (runs_need h1 (by simp)) ?_
    have ih := parseExpr_full (es := es) (rt := rt) e h2 (r := r) h4
    obtain ⟨v, w, hv, hvk⟩ := eq_cons_headKind (x := e.toks ++ u :: r) (by simp) u.kind
    rw [headKind_app e.toks_ne _ _ u.kind] at hvk
    rw [hv] at ih ⊢
    refine .bind runs_kind ?_
    rw [isExprStart_starts, hvk, h3]
    exact .ite_true (.bind ih .pure)
  | .while_ t e lb ss rb =>
    simp only [CS.Wf] at h
    obtain ⟨h1, h2, h3, h4, h5⟩ := h
    simp only [CS.toks, CS.node, List.cons_append, List.append_assoc, List.nil_append]
    rw [parseStatement]
    refine .bind runs_kind ?_
    rw [h1, if_neg (by decide), if_pos rfl]
    refine .bind (runs_need h1 (by simp)) (.bind (parseExpr_full e h2 (by rw [h3]; rfl)) ?_)
    exact .bind (parseBlock_runs ss h4 h3 h5) .pure
  | .for_ t x i e lb ss rb =>
    simp only [CS.Wf] at h
    obtain ⟨h1, h2, h3, h4, h5, h6, h7⟩ := h
    simp only [CS.toks, CS.node, List.cons_append, List.append_assoc, List.nil_append]
    rw [parseStatement]
    refine .bind runs_kind ?_
    rw [h1, if_neg (by decide), if_neg (by decide), if_pos rfl]
    refine .bind (runs_need h1 (by simp)) (.bind (.bind (runs_need h2 (by simp)) .pure)
      (.bind (runs_need h3 (by simp)) (.bind (parseExpr_full e h4 (by rw [h5]; rfl)) ?_)))
    refine .bind (a := e.node) (s1 := st es rt (lb :: (ss.toks ++ rb :: u :: r))) ?_ ?_
    · rw [forRange]
      refine .bind runs_is ?_
      rw [h5]
      exact .pure
    · exact .bind (parseBlock_runs ss h6 h5 h7) .pure
  | .forR t x i e d e' lb ss rb =>
    simp only [CS.Wf] at h
    obtain ⟨h1, h2, h3, h4, h5, h6, h7, h8, h9⟩ := h
    simp only [CS.toks, CS.node, List.cons_append, List.append_assoc, List.nil_append]
    rw [parseStatement]
    refine .bind runs_kind ?_
    rw [h1, if_neg (by decide), if_neg (by decide), if_pos rfl]
    refine .bind (runs_need h1 (by simp)) (.bind (.bind (runs_need h2 (by simp)) .pure)
      (.bind (runs_need h3 (by simp)) (.bind (parseExpr_full e h4 (by rw [h5]; rfl)) ?_)))
    refine .bind (a := nd .range d (left := some e.node) (right := some e'.node))
      (s1 := st es rt (lb :: (ss.toks ++ rb :: u :: r))) ?_ ?_
    · rw [forRange]
      refine .bind runs_is ?_
      rw [h5]
      exact .bind (runs_next (by simp)) (.bind (parseExpr_full e' h6 (by rw [h7]; rfl)) .pure)
    · exact .bind (parseBlock_runs ss h8 h7 h9) .pure
  | .if_ t e lb ss rb q =>
    simp only [CS.Wf] at h
    obtain ⟨h1, h2, h3, h4, h5, h6⟩ := h
    simp only [CS.toks, CS.node, List.cons_append, List.append_assoc, List.nil_append]
    rw [parseStatement]
    refine .bind runs_kind ?_
    rw [h1, if_neg (by decide), if_neg (by decide), if_neg (by decide), if_pos rfl]
    refine .bind (runs_need h1 (by simp)) (.bind (parseExpr_full e h2 (by rw [h3]; rfl)) ?_)
    have ih := ifChain_runs (es := es) (rt := rt) q (r := r) h6
    obtain ⟨v, w, hv, -⟩ := eq_cons_headKind (x := q.toks ++ u :: r) (by simp) .eof
    rw [hv] at ih ⊢
    exact .bind (parseBlock_runs ss h4 h3 h5) (.bind ih .pure)
  | .expr e =>
    simp only [CS.Wf] at h
    obtain ⟨h1, h2, h3, h4, h5⟩ := h
    simp only [CS.toks, CS.node]
    have ih := parseExpr_full (es := es) (rt := rt) e h1 (r := r) h3
    obtain ⟨v, w, hv, hvk⟩ := eq_cons_headKind (x := e.toks ++ u :: r) (by simp) u.kind
    rw [headKind_app e.toks_ne _ _ u.kind] at hvk
    rw [← hvk] at h2
    rw [hv] at ih ⊢
    refine parseStatement_expr h2 (.bind ih (.bind runs_kind ?_))
    split
    · rename_i hh; exact absurd hh h4
    · rename_i hh; exact absurd hh h5
    · exact .pure
  | .asg e t x =>
    simp only [CS.Wf] at h
    obtain ⟨h1, h2, h3, h4, h5⟩ := h
    simp only [CS.toks, CS.node, List.append_assoc, List.cons_append]
    have ih := parseExpr_full (es := es) (rt := rt) e h1 (u := t) (r := x.toks ++ u :: r) (by rw [h3]; rfl)
    obtain ⟨v, w, hv, hvk⟩ := eq_cons_headKind (x := e.toks ++ t :: (x.toks ++ u :: r)) (by simp) u.kind
    rw [headKind_app e.toks_ne _ _ u.kind] at hvk
    rw [← hvk] at h2
    rw [hv] at ih ⊢
    refine parseStatement_expr h2 (.bind ih (.bind runs_kind ?_))
    rw [h3]
    exact .bind (runs_need h3 (by simp)) (.bind (parseExpr_full x h4 h5) .pure)
  | .das e t x =>
    simp only [CS.Wf] at h
    obtain ⟨h1, h2, h3, h4, h5⟩ := h
    simp only [CS.toks, CS.node, List.append_assoc, List.cons_append]
    have ih := parseExpr_full (es := es) (rt := rt) e h1 (u := t) (r := x.toks ++ u :: r) (by rw [h3]; rfl)
    obtain ⟨v, w, hv, hvk⟩ := eq_cons_headKind (x := e.toks ++ t :: (x.toks ++ u :: r)) (by simp) u.kind
    rw [headKind_app e.toks_ne _ _ u.kind] at hvk
    rw [← hvk] at h2
    rw [hv] at ih ⊢
    refine parseStatement_expr h2 (.bind ih (.bind runs_kind ?_))
    rw [h3]
    exact .bind (runs_need h3 (by simp)) (.bind (parseExpr_full x h4 h5) .pure)
  | .match_ t e lb cs rb =>
    simp only [CS.Wf] at h
    obtain ⟨h1, h2, h3, h4, h5⟩ := h
    simp only [CS.toks, CS.node, List.cons_append, List.append_assoc, List.nil_append]
    rw [parseStatement]
    refine .bind runs_kind ?_
    rw [h1, if_neg (by decide), if_neg (by decide), if_neg (by decide), if_neg (by decide),
      if_neg (by decide), if_pos rfl]
    refine .bind (runs_need h1 (by simp)) (.bind (parseExpr_full e h2 (by rw [h3]; rfl)) ?_)
    refine .bind (runs_need h3 (by simp)) (.bind (caseLoop_runs cs h4 h5) ?_)
    exact .bind (runs_need h5 (by simp)) .pure
termination_by (sizeOf s, 2)

theorem ifChain_runs {es : List SynErr} {rt : List Node} (q : CIf) {u : Token} {r : List Token}
    (h : q.Wf u.kind) :
    Runs ifChain (st es rt (q.toks ++ u :: r)) q.node (st es rt (u :: r)) := by
  match q with
  | .nil =>
    simp only [CIf.Wf] at h
    simp only [CIf.toks, CIf.node, List.nil_append]
    rw [ifChain]
    refine .bind runs_is ?_
    rw [beq_false_of_ne h.1]
    refine .ite_false (.bind runs_is ?_)
    rw [beq_false_of_ne h.2]
    exact .pure
  | .elif t e lb ss rb q =>
    simp only [CIf.Wf] at h
    obtain ⟨h1, h2, h3, h4, h5, h6⟩ := h
    simp only [CIf.toks, CIf.node, List.cons_append, List.append_assoc, List.nil_append]
    rw [ifChain]
    refine .bind runs_is ?_
    rw [h1]
    refine .ite_true (.bind (runs_need h1 (by simp)) (.bind (parseExpr_full e h2 (by rw [h3]; rfl)) ?_))
    have ih := ifChain_runs (es := es) (rt := rt) q (r := r) h6
    obtain ⟨v, w, hv, -⟩ := eq_cons_headKind (x := q.toks ++ u :: r) (by simp) .eof
    rw [hv] at ih ⊢
    exact .bind (parseBlock_runs ss h4 h3 h5) (.bind ih .pure)
  | .els t lb ss rb =>
    simp only [CIf.Wf] at h
    obtain ⟨h1, h2, h3, h4⟩ := h
    simp only [CIf.toks, CIf.node, List.cons_append, List.append_assoc, List.nil_append]
    rw [ifChain]
    refine .bind runs_is ?_
    rw [h1]
    refine .ite_false (.bind runs_is ?_)
    rw [h1]
    refine .ite_true (.bind (runs_need h1 (by simp)) ?_)
    exact .bind (parseBlock_runs ss h3 h2 h4) .pure
termination_by (sizeOf q, 2)

theorem caseLoop_runs {es : List SynErr} {rt : List Node} (cs : CCs) (h : cs.Wf)
    {rb : Token} {r : List Token} (h2 : rb.kind = .rbrace) :
    Runs caseLoop (st es rt (cs.toks ++ rb :: r)) cs.nodes (st es rt (rb :: r)) := by
  match cs with
  | .nil =>
    rw [caseLoop]
    refine .bind runs_is ?_
    rw [h2]
    exact .pure
  | .cons c id lp ids rp co ss q =>
    simp only [CCs.Wf] at h
    obtain ⟨h3, h4, h5, h6, h7, h8, h9, h10⟩ := h
    simp only [CCs.toks, CCs.nodes, List.cons_append, List.append_assoc]
    rw [caseLoop]
    refine .bind runs_is ?_
    rw [h3]
    refine .ite_true (.bind (runs_need h3 (by simp)) (.bind (runs_need h4 (by simp)) ?_))
    have ih := caseLoop_runs (es := es) (rt := rt) q h10 (r := r) h2
    obtain ⟨v, w, hv, hvk⟩ := eq_cons_headKind (x := q.toks ++ rb :: r) (by simp) .eof
    have hh : headKind (q.toks ++ rb :: r) .eof = headKind q.toks .rbrace := by
      cases q.toks with
      | nil => exact h2
      | cons => rfl
    rw [hh] at hvk
    rw [hv] at ih ⊢
    refine .bind (parseIdentifiers_runs ids h6 h5 h7) (.bind (runs_need h8 (by simp)) ?_)
    exact .bind (caseStmts_runs ss h9 hvk (q.head h10)) (.bind ih .pure)
termination_by (sizeOf cs, 2)

end

/-! ## Declarations -/

section
variable {es : List SynErr} {rt : List Node}

theorem attrLoop_runs (ids : CIds) (hw : ids.Wf) (hne : ids.Ne) {a : Attrs} {u : Token} {r : List Token}
    (hu : u.kind = .rbrack) :
    Runs (attrLoop a) (st es rt (ids.toks ++ u :: r))
      (ids.tokens.foldl (fun a t => a.add t.val) a) (st es rt (u :: r)) := by
  induction ids generalizing a with
  | nil => exact absurd hne id
  | one p =>
    simp only [CIds.Wf] at hw
    simp only [CIds.toks, CIds.tokens, List.cons_append, List.nil_append]
    rw [attrLoop]
    exact .bind (runs_need hw (by simp)) (.bind (runs_reject (by simp [hu])) .pure)
  | more p c q ih =>
    simp only [CIds.Wf] at hw
    obtain ⟨h1, h2, h3, h4⟩ := hw
    simp only [CIds.toks, CIds.tokens, List.append_assoc, List.cons_append]
    rw [attrLoop]
    refine .bind (runs_need h1 (by simp)) (.bind (runs_accept h2 (by simp)) ?_)
    exact .ite_true (ih h4 h3)

theorem extRetName_eq : extRetName = [69, 120, 116, 82, 101, 116] := by decide
theorem rawValuesName_eq : rawValuesName = [82, 97, 119, 86, 97, 108, 117, 101, 115] := by decide

theorem attrs_ne : extRetName ≠ rawValuesName := by rw [extRetName_eq, rawValuesName_eq]; decide

theorem attrs_add_def (a : Attrs) (v : Bytes) : a.add v =
    if v = extRetName then { a with extRet := true }
    else if v = rawValuesName then { a with rawValues := true }
    else a := by
  rw [extRetName_eq, rawValuesName_eq]
  rfl

theorem foldl_attrs (l : List Token) (a : Attrs) :
    l.foldl (fun a t => a.add t.val) a =
      { extRet := a.extRet || l.any (fun t => t.val == extRetName)
        rawValues := a.rawValues || l.any (fun t => t.val == rawValuesName) } := by
  induction l generalizing a with
  | nil => simp
  | cons t l ih =>
    simp only [List.foldl_cons, List.any_cons]
    rw [ih]
    rw [attrs_add_def]
    by_cases h1 : t.val = extRetName
    · simp [h1, beq_false_of_ne attrs_ne]
    · by_cases h2 : t.val = rawValuesName
      · simp [h2, Ne.symm attrs_ne, beq_false_of_ne (Ne.symm attrs_ne)]
      · simp [h1, h2, beq_false_of_ne h1, beq_false_of_ne h2]

theorem parseAttributes_runs (a : CAttr) (hw : a.Wf) {u : Token} {r : List Token} (hu : u.kind ≠ .hash) :
    Runs parseAttributes (st es rt (a.toks ++ u :: r)) a.attrs (st es rt (u :: r)) := by
  unfold parseAttributes
  cases a with
  | none =>
    simp only [CAttr.toks, CAttr.attrs, List.nil_append]
    refine .bind runs_is ?_
    rw [beq_false_of_ne hu]
    exact .pure
  | some h lb ids rb =>
    obtain ⟨h1, h2, h3, h4, h5⟩ := hw
    simp only [CAttr.toks, CAttr.attrs, List.cons_append, List.append_assoc, List.nil_append]
    refine .bind runs_is ?_
    rw [h1]
    refine .ite_false (.bind (runs_need h1 (by simp)) (.bind (runs_need h2 (by simp)) ?_))
    refine .bind (s1 := st es rt (rb :: u :: r)) (a := CAttr.attrs (.some h lb ids rb)) ?_
      (.bind (runs_need h5 (by simp)) .pure)
    unfold optAttrs
    have ih := attrLoop_runs (es := es) (rt := rt) ids h4 h3 (a := {}) (r := u :: r) h5
    rw [foldl_attrs] at ih
    obtain ⟨t, q, ht, hk⟩ := ids.head h4 h3
    rw [ht] at ih ⊢
    refine .bind runs_is ?_
    rw [hk]
    simpa [CAttr.attrs] using ih

theorem fieldLoop_runs (fs : CFields) (hw : fs.Wf) {rb : Token} {r : List Token} (h2 : rb.kind = .rbrace) :
    Runs fieldLoop (st es rt (fs.toks ++ rb :: r)) fs.nodes (st es rt (rb :: r)) := by
  induction fs with
  | nil =>
    rw [fieldLoop]
    refine .bind runs_is ?_
    rw [h2]
    exact .pure
  | cons p q ih =>
    simp only [CFields.Wf] at hw
    obtain ⟨h1, h3⟩ := hw
    simp only [CFields.toks, CFields.nodes, List.append_assoc]
    obtain ⟨v, w, hv, hvk⟩ := eq_cons_headKind (x := q.toks ++ rb :: r) (by simp) .eof
    have hh : headKind (q.toks ++ rb :: r) .eof = headKind q.toks .rbrace := by
      cases q.toks with
      | nil => exact h2
      | cons => rfl
    rw [hh] at hvk
    rw [← hvk] at h1
    have ih2 := ih h3
    rw [hv] at ih2 ⊢
    rw [fieldLoop]
    refine .bind runs_is ?_
    rw [show (p.name.kind == Kind.rbrace) = false by simp [h1.1]]
    exact .bind (parseParameter_runs p h1) (.bind ih2 .pure)

theorem enumLoop_runs (id : Token) (cs : CCons) (hw : cs.Wf) {rb : Token} {r : List Token}
    (h2 : rb.kind = .rbrace) :
    Runs (enumLoop id) (st es rt (cs.toks ++ rb :: r)) (cs.nodes id) (st es rt (rb :: r)) := by
  induction cs with
  | nil =>
    rw [enumLoop]
    refine .bind runs_is ?_
    rw [h2]
    exact .pure
  | cons t lp ps rp q ih =>
    simp only [CCons.Wf] at hw
    obtain ⟨h1, h3, h4, h5, h6⟩ := hw
    simp only [CCons.toks, CCons.nodes, List.append_assoc, List.cons_append]
    obtain ⟨v, w, hv, hvk⟩ := eq_cons_headKind (x := q.toks ++ rb :: r) (by simp) .eof
    have ih2 := ih h6
    rw [hv] at ih2 ⊢
    rw [enumLoop]
    refine .bind runs_is ?_
    rw [h1]
    refine .ite_true (.bind (runs_need h1 (by simp)) ?_)
    exact .bind (parseParameters_runs ps h4 h3 h5) (.bind ih2 .pure)

theorem runs_addRoot {n : Node} {r : List Token} :
    Runs (addRoot n) (st es rt r) () (st es (rt ++ [n]) r) := rfl

/-- A declaration: its attributes, then the rest of it. -/
theorem decl_runs (d : CD) {u : Token} {r : List Token} (hw : d.Wf u.kind) :
    Runs (do
      let attr ← parseAttributes
      topDecl attr) (st es rt (d.toks ++ u :: r)) () (st es (rt ++ [d.node]) (u :: r)) := by
  cases d with
  | fnB a f id g lb ss rb =>
    obtain ⟨h1, h2, h3, h4, h5, h6, h7⟩ := hw
    simp only [CD.toks, CD.node, List.cons_append, List.append_assoc, List.nil_append]
    refine .bind (parseAttributes_runs a h1 (by simp [h2])) ?_
    unfold topDecl
    refine .bind runs_kind ?_
    rw [h2]
    refine .bind ?_ runs_addRoot
    unfold parseFn
    refine .bind (runs_need h2 (by simp)) (.bind (runs_need h3 (by simp)) ?_)
    rw [fnRest]
    refine sig_runs g (h5 ▸ h4) (.bind runs_kind ?_)
    rw [h5]
    exact .bind (parseBlock_runs ss h6 h5 h7) .pure
  | fnE a f id g eq e =>
    obtain ⟨h1, h2, h3, h4, h5, h6, h7⟩ := hw
    simp only [CD.toks, CD.node, List.cons_append, List.append_assoc, List.nil_append]
    refine .bind (parseAttributes_runs a h1 (by simp [h2])) ?_
    unfold topDecl
    refine .bind runs_kind ?_
    rw [h2]
    refine .bind ?_ runs_addRoot
    unfold parseFn
    refine .bind (runs_need h2 (by simp)) (.bind (runs_need h3 (by simp)) ?_)
    rw [fnRest]
    refine sig_runs g (h5 ▸ h4) (.bind runs_kind ?_)
    rw [h5]
    exact .bind (runs_next (by simp)) (.bind (parseExpr_full e h6 h7) .pure)
  | fnX a f id g =>
    obtain ⟨h1, h2, h3, h4, h5, h6⟩ := hw
    simp only [CD.toks, CD.node, List.cons_append, List.append_assoc, List.nil_append]
    refine .bind (parseAttributes_runs a h1 (by simp [h2])) ?_
    unfold topDecl
    refine .bind runs_kind ?_
    rw [h2]
    refine .bind ?_ runs_addRoot
    unfold parseFn
    refine .bind (runs_need h2 (by simp)) (.bind (runs_need h3 (by simp)) ?_)
    rw [fnRest]
    refine sig_runs g h4 (.bind runs_kind ?_)
    split
    · rename_i hh; exact absurd hh h5
    · rename_i hh; exact absurd hh h6
    · exact .pure
  | struct a t id tps lb fs rb =>
    obtain ⟨h1, h2, h3, h4, h5, h6, h7⟩ := hw
    simp only [CD.toks, CD.node, List.cons_append, List.append_assoc, List.nil_append]
    refine .bind (parseAttributes_runs a h1 (by simp [h2])) ?_
    unfold topDecl
    refine .bind runs_kind ?_
    rw [h2]
    refine .bind ?_ runs_addRoot
    unfold parseStruct
    refine .bind (runs_need h2 (by simp)) (.bind (runs_need h3 (by simp)) ?_)
    refine .bind (typeParams_runs tps h4 (by simp [h5])) (.bind (runs_need h5 (by simp)) ?_)
    exact .bind (fieldLoop_runs fs h6 h7) (.bind (runs_need h7 (by simp)) .pure)
  | enum a t id tps lb cs rb =>
    obtain ⟨h1, h2, h3, h4, h5, h6, h7⟩ := hw
    simp only [CD.toks, CD.node, List.cons_append, List.append_assoc, List.nil_append]
    refine .bind (parseAttributes_runs a h1 (by simp [h2])) ?_
    unfold topDecl
    refine .bind runs_kind ?_
    rw [h2]
    refine .bind ?_ runs_addRoot
    unfold parseEnum
    refine .bind (runs_need h2 (by simp)) (.bind (runs_need h3 (by simp)) ?_)
    refine .bind (typeParams_runs tps h4 (by simp [h5])) (.bind (runs_need h5 (by simp)) ?_)
    exact .bind (enumLoop_runs id cs h6 h7) (.bind (runs_need h7 (by simp)) .pure)

theorem CD.head (d : CD) {k : Kind} (h : d.Wf k) {r : List Token} :
    ∃ y z, d.toks ++ r = y :: z ∧ y.kind ≠ .eof := by
  cases d with
  | fnB a | fnE a | fnX a | struct a | enum a =>
    simp only [CD.Wf] at h
    obtain ⟨ha, hk, -⟩ := h
    cases a with
    | none => exact ⟨_, _, rfl, by simp [hk]⟩
    | some h lb ids rb => exact ⟨_, _, rfl, by simp [ha.1]⟩

theorem Runs.unbind {α β : Type} {x : P α} {f : α → P β} {s s2 : PS} {b : β} (h : Runs (x >>= f) s b s2) :
    ∃ a s1, Runs x s a s1 ∧ Runs (f a) s1 b s2 := by
  have h' : ((x s) >>= fun p => (match p with
      | (.ok a, s1) => f a s1
      | (.error e, s1) => some (.error e, s1) : Option (Except Stop β × PS))) = some (.ok b, s2) := by
    rw [← show (x >>= f) s = some (.ok b, s2) from h]
    show _ = ((x s) >>= _ : Option _)
    congr 1
    funext p
    obtain ⟨p, q⟩ := p
    cases p <;> rfl
  cases hx : x s with
  | none => rw [hx] at h'; cases h'
  | some p =>
    rw [hx] at h'
    obtain ⟨p, q⟩ := p
    cases p with
    | error e => simp at h'
    | ok a => exact ⟨a, q, hx, h'⟩

theorem topLoop_runs (ds : List CD) {u : Token} {r : List Token} (hw : FileWf ds u.kind) (hu : u.kind = .eof) :
    Runs topLoop (st es rt (fileToks ds ++ u :: r)) () (st es (rt ++ ds.map CD.node) (u :: r)) := by
  induction ds generalizing rt with
  | nil =>
    simp only [fileToks, List.flatMap_nil, List.nil_append, List.map_nil, List.append_nil]
    rw [topLoop]
    refine .bind runs_is ?_
    rw [hu]
    exact .pure
  | cons d q ih =>
    simp only [FileWf] at hw
    obtain ⟨h1, h2⟩ := hw
    simp only [fileToks, List.flatMap_cons, List.append_assoc, List.map_cons]
    obtain ⟨v, w, hv, hvk⟩ := eq_cons_headKind (x := fileToks q ++ u :: r) (by simp) .eof
    have hh : headKind (fileToks q ++ u :: r) .eof = headKind (fileToks q) u.kind := by
      cases fileToks q with
      | nil => rfl
      | cons => rfl
    rw [hh] at hvk
    rw [← hvk] at h1
    have ih2 := ih (rt := rt ++ [d.node]) h2
    have hd := decl_runs (es := es) (rt := rt) d (r := w) h1
    obtain ⟨y, z, hy, hyk⟩ := d.head h1 (r := v :: w)
    simp only [fileToks] at hv ih2
    rw [hv] at ih2 ⊢
    rw [hy] at hd ⊢
    rw [topLoop]
    refine .bind runs_is ?_
    rw [beq_false_of_ne hyk]
    obtain ⟨a, s1, ha, hd⟩ := hd.unbind
    simp only [List.append_assoc, List.cons_append, List.nil_append] at ih2
    exact .ite_true (.bind ha (.bind hd ih2))

end

/-- `x` panics from state `s`. -/
def Stops {α : Type} (x : P α) (s : PS) (e : Stop) (s' : PS) : Prop := x s = some (.error e, s')

theorem Stops.now {α β : Type} {x : P α} {f : α → P β} {s s1 : PS} {e : Stop} (h : Stops x s e s1) :
    Stops (x >>= f) s e s1 := by
  show ((x s) >>= _ : Option _) = _
  rw [show x s = _ from h]
  rfl

theorem Stops.later {α β : Type} {x : P α} {f : α → P β} {s s1 s2 : PS} {e : Stop} {a : α}
    (h : Runs x s a s1) (h2 : Stops (f a) s1 e s2) : Stops (x >>= f) s e s2 := by
  show ((x s) >>= _ : Option _) = _
  rw [show x s = _ from h]
  exact h2

theorem stops_need_eof {es : List SynErr} {rt : List Node} {e : Token} (he : e.kind = .eof) :
    Stops (need .eof) (st es rt [e]) .eof (st es rt [e]) := by
  rw [need]
  refine .later runs_is ?_
  rw [he]
  exact .later runs_modify rfl

/-- A file of the grammar is read without errors and gives its trees. -/
theorem parse_file (ds : List CD) {e : Token} (hw : FileWf ds .eof) (he : e.kind = .eof) :
    parse (fileToks ds ++ [e]) = some (.done [] (ds.map CD.node)) := by
  have h := topLoop_runs (es := []) (rt := []) ds (r := []) (he ▸ hw) he
  have hb : Stops parseBody { rest := fileToks ds ++ [e] } .eof (st [] (ds.map CD.node) [e]) :=
    .later h (.now (stops_need_eof he))
  unfold parse
  rw [show (parseBody.run { rest := fileToks ds ++ [e] } : Option (Except Stop Unit × PS)) = _ from hb]
  rfl

end Clara.Parse
