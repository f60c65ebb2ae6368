import Verif.Parse.Spec
set_option linter.unusedVariables false
set_option linter.unusedSimpArgs false

/-! # What the parser reads without errors belongs to the grammar -/

namespace Clara.Parse

open Clara.Lex (Kind Token Bytes)

/-! ## Types -/

/-- A type was read. -/
def TyG (s : PS) (n : Node) (s' : PS) : Prop :=
  ∃ c : CTy, c.Wf ∧ c.node = n ∧ s.rest = c.toks ++ s'.rest ∧ c.ends (headKind s'.rest .eof)

/-- A non-empty list of types was read. -/
def TysG (s : PS) (n : List Node) (s' : PS) : Prop :=
  ∃ c : CTys, c.Ne ∧ c.nodes = n ∧ s.rest = c.toks ++ s'.rest ∧ c.Wf (headKind s'.rest .eof)

/-- A list of types was read. -/
def OptTysG (s : PS) (n : List Node) (s' : PS) : Prop :=
  ∃ c : CTys, c.nodes = n ∧ s.rest = c.toks ++ s'.rest ∧ c.Wf (headKind s'.rest .eof)

theorem optTypes_spec {s : PS} {k : Kind} (hs : s.rest ≠ [])
    (h : Spec false 1 commaTypes s (TysG s) (fun _ => False)) :
    Spec false 0 (optTypes k) s (OptTysG s) (fun _ => False) := by
  obtain ⟨t, r, ht⟩ := rest_cons hs
  rw [optTypes]
  refine Spec.is ht ?_
  split
  · exact h.mono (Nat.zero_le _) (fun _ a s' _ _ ⟨c, h1, h2, h3, h4⟩ => ⟨c, h2, h3, h4⟩) (fun _ _ h => h)
  · exact Spec.pure hs (fun _ => ⟨.nil, rfl, rfl, by simp [CTys.Wf]⟩)

theorem types_spec (n : Nat) :
    (∀ s : PS, s.rest ≠ [] → s.rest.length ≤ n →
      Spec false 1 parseType s (TyG s) (fun _ => False)) ∧
    (∀ s : PS, s.rest ≠ [] → s.rest.length ≤ n →
      Spec false 1 commaTypes s (TysG s) (fun _ => False)) := by
  induction n with
  | zero => exact ⟨fun s h1 h2 => absurd (List.length_pos_iff.mpr h1) (by omega),
      fun s h1 h2 => absurd (List.length_pos_iff.mpr h1) (by omega)⟩
  | succ n ih =>
    obtain ⟨ih1, ih2⟩ := ih
    have hT : ∀ s : PS, s.rest ≠ [] → s.rest.length ≤ n + 1 →
        Spec false 1 parseType s (TyG s) (fun _ => False) := by
      intro s hs hn
      obtain ⟨t, r, ht⟩ := rest_cons hs
      rw [parseType]
      refine Spec.kind ht ?_
      split
      · rename_i hk
        refine Spec.next ht (by simp [hk]) (by omega) ?_
        intro s1 x1 e1
        have l1 : s1.rest.length + 1 ≤ s.rest.length := by simp [ht, e1]
        replace e1 := e1.symm
        refine Spec.need x1.ne (by decide) (by omega) ?_
        intro lp s2 x2 l2
        refine Spec.seq (optTypes_spec x2.ne (ih2 s2 x2.ne (by omega))) (by omega) (fun _ _ h => h.elim) ?_
        intro ts s3 x3 l3
        refine Spec.need x3.ne (by decide) (by omega) ?_
        intro rp s4 x4 l4
        obtain ⟨u, r', hu⟩ := rest_cons x4.ne
        refine Spec.is hu (Spec.is hu (Spec.is hu ?_))
        split
        · refine Spec.seq (ih1 s4 x4.ne (by omega)) (by omega) (fun _ _ h => h.elim) ?_
          intro q s5 x5 l5
          refine Spec.pure x5.ne ?_
          rintro _ ⟨c, c1, c2, c3, c4⟩ ⟨k4, e4⟩ ⟨cs, d1, d2, d3⟩ ⟨k2, e2⟩
          refine ⟨.fn1 t lp cs rp c, ?_, ?_, ?_, c4⟩
          · rw [e4] at d3
            simp only [CTy.Wf]
            exact ⟨hk, k2, by simpa [headKind, k4] using d3, k4, c1⟩
          · simp only [CTy.node, c2, d1]
          · rw [ht, e1, e2, d2, e4, c3]
            simp [CTy.toks]
        · rename_i hn
          refine Spec.pure x4.ne ?_
          rintro _ ⟨k4, e4⟩ ⟨cs, d1, d2, d3⟩ ⟨k2, e2⟩
          refine ⟨.fn0 t lp cs rp, ?_, ?_, ?_, ?_⟩
          · rw [e4] at d3
            simp only [CTy.Wf]
            exact ⟨hk, k2, by simpa [headKind, k4] using d3, k4⟩
          · simp only [CTy.node, d1]
          · rw [ht, e1, e2, d2, e4]
            simp [CTy.toks]
          · rw [hu]
            simp only [CTy.ends, headKind, startsType]
            exact Bool.eq_false_iff.mpr hn
      · rename_i hk
        refine Spec.next ht (by simp [hk]) (by omega) ?_
        intro s1 x1 e1
        have l1 : s1.rest.length + 1 ≤ s.rest.length := by simp [ht, e1]
        replace e1 := e1.symm
        refine Spec.need x1.ne (by decide) (by omega) ?_
        intro rb s2 x2 l2
        refine Spec.seq (ih1 s2 x2.ne (by omega)) (by omega) (fun _ _ h => h.elim) ?_
        intro q s3 x3 l3
        refine Spec.pure x3.ne ?_
        rintro _ ⟨c, c1, c2, c3, c4⟩ ⟨k2, e2⟩
        refine ⟨.arr t rb c, ?_, ?_, ?_, c4⟩
        · simp only [CTy.Wf]
          exact ⟨hk, k2, c1⟩
        · simp only [CTy.node, c2]
        · rw [ht, e1, e2, c3]
          simp [CTy.toks]
      · rename_i hk
        refine Spec.next ht (by simp [hk]) (by omega) ?_
        intro s1 x1 e1
        have l1 : s1.rest.length + 1 ≤ s.rest.length := by simp [ht, e1]
        replace e1 := e1.symm
        obtain ⟨u, r', hu⟩ := rest_cons x1.ne
        refine Spec.is hu ?_
        split
        · refine Spec.need x1.ne (by decide) (by omega) ?_
          intro lg s2 x2 l2
          refine Spec.seq (optTypes_spec x2.ne (ih2 s2 x2.ne (by omega))) (by omega) (fun _ _ h => h.elim) ?_
          intro ts s3 x3 l3
          refine Spec.need x3.ne (by decide) (by omega) ?_
          intro rg s4 x4 l4
          refine Spec.pure x4.ne ?_
          rintro _ ⟨k4, e4⟩ ⟨cs, d1, d2, d3⟩ ⟨k2, e2⟩
          refine ⟨.gen t lg cs rg, ?_, ?_, ?_, trivial⟩
          · rw [e4] at d3
            simp only [CTy.Wf]
            exact ⟨hk, k2, by simpa [headKind, k4] using d3, k4⟩
          · simp only [CTy.node, d1]
          · rw [ht, e1, e2, d2, e4]
            simp [CTy.toks]
        · rename_i hn
          refine Spec.pure x1.ne ?_
          intro _
          refine ⟨.named t, by simp only [CTy.Wf]; exact hk, rfl, by rw [ht, e1]; rfl, ?_⟩
          rw [hu]
          simp only [CTy.ends, headKind]
          simpa using hn
      · refine Spec.syntaxError hs ?_
        intro s1 x1
        exact Spec.skip x1.ne (fun u s2 x2 => Spec.pure x2.ne (fun _ => trivial))
    refine ⟨hT, ?_⟩
    intro s hs hn
    rw [commaTypes]
    refine Spec.seq (hT s hs hn) (by omega) (fun _ _ h => h) ?_
    intro q s1 x1 l1
    refine Spec.seq (spec_accept (by decide) x1.ne) (by omega) (fun _ _ h => h.elim) ?_
    intro b s2 x2 l2
    split
    · rename_i hb
      refine Spec.seq (ih2 s2 x2.ne (by omega)) (by omega) (fun _ _ h => h.elim) ?_
      intro qs s3 x3 l3
      refine Spec.pure x3.ne ?_
      rintro _ ⟨cs, c1, c2, c3, c4⟩ hacc ⟨c, d1, d2, d3, d4⟩
      rcases hacc with ⟨-, co, h1, h2⟩ | ⟨h1, -⟩
      · refine ⟨.more c co cs, trivial, ?_, ?_, ?_⟩
        · simp only [CTys.nodes, c2, d2]
        · rw [d3, h2, c3]
          simp [CTys.toks]
        · simp only [CTys.Wf]
          refine ⟨d1, ?_, h1, c1, c4⟩
          rw [h2] at d4
          simpa [headKind, h1] using d4
      · rw [hb] at h1; cases h1
    · rename_i hb
      refine Spec.pure x2.ne ?_
      rintro _ hacc ⟨c, d1, d2, d3, d4⟩
      rcases hacc with ⟨h1, -⟩ | ⟨-, h1, h2⟩
      · exact absurd h1 hb
      · refine ⟨.one c, trivial, ?_, ?_, ?_⟩
        · simp only [CTys.nodes, d2]
        · rw [d3, h1]
          rfl
        · simp only [CTys.Wf]
          rw [h1]
          exact ⟨d1, d4⟩

theorem parseType_spec {s : PS} (hs : s.rest ≠ []) :
    Spec false 1 parseType s (TyG s) (fun _ => False) :=
  (types_spec _).1 s hs (Nat.le_refl _)

theorem commaTypes_spec {s : PS} (hs : s.rest ≠ []) :
    Spec false 1 commaTypes s (TysG s) (fun _ => False) :=
  (types_spec _).2 s hs (Nat.le_refl _)

/-! ## Parameters, names, heads of functions -/

theorem parseTypeList_spec {s : PS} (hs : s.rest ≠ []) :
    Spec false 1 parseTypeList s (fun p s' => ∃ (ts : CTys) (rg : Token), ts.nodes = p.1 ∧ p.2.kind = .lgmet ∧
      ts.Wf .rgmet ∧ rg.kind = .rgmet ∧ s.rest = p.2 :: (ts.toks ++ rg :: s'.rest)) (fun _ => False) := by
  unfold parseTypeList
  refine Spec.need hs (by decide) (by omega) ?_
  intro lg s1 x1 l1
  refine Spec.seq (optTypes_spec x1.ne (commaTypes_spec x1.ne)) (by omega) (fun _ _ h => h.elim) ?_
  intro ts s2 x2 l2
  refine Spec.need x2.ne (by decide) (by omega) ?_
  intro rg s3 x3 l3
  refine Spec.pure x3.ne ?_
  rintro _ ⟨k3, e3⟩ ⟨cs, d1, d2, d3⟩ ⟨k1, e1⟩
  refine ⟨cs, rg, d1, k1, ?_, k3, ?_⟩
  · rw [e3] at d3
    simpa [headKind, k3] using d3
  · rw [e1, d2, e3]

/-- A parameter was read. -/
def ParG (s : PS) (n : Node) (s' : PS) : Prop :=
  ∃ c : CParam, c.Wf (headKind s'.rest .eof) ∧ c.node = n ∧ s.rest = c.toks ++ s'.rest

theorem parseParameter_spec {s : PS} (hs : s.rest ≠ []) :
    Spec false 1 parseParameter s (ParG s) (fun _ => False) := by
  unfold parseParameter
  refine Spec.need hs (by decide) (by omega) ?_
  intro nm s1 x1 l1
  refine Spec.need x1.ne (by decide) (by omega) ?_
  intro co s2 x2 l2
  refine Spec.seq (parseType_spec x2.ne) (by omega) (fun _ _ h => h.elim) ?_
  intro q s3 x3 l3
  refine Spec.pure x3.ne ?_
  rintro _ ⟨c, c1, c2, c3, c4⟩ ⟨k2, e2⟩ ⟨k1, e1⟩
  exact ⟨⟨nm, co, c⟩, ⟨k1, k2, c1, c4⟩, by simp only [CParam.node, c2], by rw [e1, e2, c3]; rfl⟩

theorem commaParams_spec {s : PS} (hs : s.rest ≠ []) :
    Spec false 1 commaParams s (fun ns s' => ∃ c : CParams, c.Ne ∧ c.nodes = ns ∧ s.rest = c.toks ++ s'.rest ∧
      (headKind s'.rest .eof = .rparen → c.Wf)) (fun _ => False) := by
  obtain ⟨n, hn⟩ : ∃ n, s.rest.length ≤ n := ⟨_, Nat.le_refl _⟩
  induction n generalizing s with
  | zero => exact absurd (List.length_pos_iff.mpr hs) (by omega)
  | succ n ih =>
    rw [commaParams]
    refine Spec.seq (parseParameter_spec hs) (by omega) (fun _ _ h => h) ?_
    intro q s1 x1 l1
    refine Spec.seq (spec_accept (by decide) x1.ne) (by omega) (fun _ _ h => h.elim) ?_
    intro b s2 x2 l2
    split
    · rename_i hb
      refine Spec.seq (ih x2.ne (by omega)) (by omega) (fun _ _ h => h.elim) ?_
      intro qs s3 x3 l3
      refine Spec.pure x3.ne ?_
      rintro _ ⟨cs, c1, c2, c3, c4⟩ hacc ⟨c, d1, d2, d3⟩
      rcases hacc with ⟨-, co, h1, h2⟩ | ⟨h1, -⟩
      · refine ⟨.more c co cs, trivial, ?_, ?_, ?_⟩
        · simp only [CParams.nodes, c2, d2]
        · rw [d3, h2, c3]
          simp [CParams.toks]
        · intro hr
          simp only [CParams.Wf]
          refine ⟨?_, h1, c1, c4 hr⟩
          rw [h2] at d1
          simpa [headKind, h1] using d1
      · rw [hb] at h1; cases h1
    · rename_i hb
      refine Spec.pure x2.ne ?_
      rintro _ hacc ⟨c, d1, d2, d3⟩
      rcases hacc with ⟨h1, -⟩ | ⟨-, h1, h2⟩
      · exact absurd h1 hb
      · refine ⟨.one c, trivial, ?_, ?_, ?_⟩
        · simp only [CParams.nodes, d2]
        · rw [d3, h1]
          rfl
        · intro hr
          simp only [CParams.Wf]
          rw [← hr, h1]
          exact d1

theorem parseParameters_spec {s : PS} (hs : s.rest ≠ []) :
    Spec false 1 parseParameters s (fun ns s' => ∃ (lp : Token) (c : CParams) (rp : Token), lp.kind = .lparen ∧ c.Wf ∧
      rp.kind = .rparen ∧ c.nodes = ns ∧ s.rest = lp :: (c.toks ++ rp :: s'.rest)) (fun _ => False) := by
  unfold parseParameters
  refine Spec.need hs (by decide) (by omega) ?_
  intro lp s1 x1 l1
  refine Spec.seq (c1 := 0) (G1 := fun ns s' => ∃ c : CParams, c.nodes = ns ∧ s1.rest = c.toks ++ s'.rest ∧
      (headKind s'.rest .eof = .rparen → c.Wf)) (E1 := fun _ => False) ?_ (by omega) (fun _ _ h => h.elim) ?_
  · obtain ⟨u, r', hu⟩ := rest_cons x1.ne
    unfold optParams
    refine Spec.is hu ?_
    split
    · exact (commaParams_spec x1.ne).mono (by omega) (fun _ a s' _ _ ⟨c, h1, h2⟩ => ⟨c, h2⟩) (fun _ _ h => h)
    · exact Spec.pure x1.ne (fun _ => ⟨.nil, rfl, rfl, fun _ => trivial⟩)
  · intro ns s2 x2 l2
    refine Spec.need x2.ne (by decide) (by omega) ?_
    intro rp s3 x3 l3
    refine Spec.pure x3.ne ?_
    rintro _ ⟨k3, e3⟩ ⟨c, c1, c2, c3⟩ ⟨k1, e1⟩
    exact ⟨lp, c, rp, k1, c3 (by rw [e3]; exact k3), k3, c1, by rw [e1, c2, e3]⟩

theorem parseIdentifier_spec {s : PS} (hs : s.rest ≠ []) :
    Spec false 1 parseIdentifier s (fun n s' => ∃ t, t.kind = .identifier ∧ n = nd .identifier t ∧
      s.rest = t :: s'.rest) (fun _ => False) := by
  unfold parseIdentifier
  refine Spec.need hs (by decide) (by omega) ?_
  intro nm s1 x1 l1
  refine Spec.pure x1.ne ?_
  rintro _ ⟨k1, e1⟩
  exact ⟨nm, k1, rfl, e1⟩

theorem commaIdents_spec {s : PS} (hs : s.rest ≠ []) :
    Spec false 1 commaIdents s (fun ns s' => ∃ c : CIds, c.Ne ∧ c.nodes = ns ∧ s.rest = c.toks ++ s'.rest ∧ c.Wf)
      (fun _ => False) := by
  obtain ⟨n, hn⟩ : ∃ n, s.rest.length ≤ n := ⟨_, Nat.le_refl _⟩
  induction n generalizing s with
  | zero => exact absurd (List.length_pos_iff.mpr hs) (by omega)
  | succ n ih =>
    rw [commaIdents]
    refine Spec.seq (parseIdentifier_spec hs) (by omega) (fun _ _ h => h) ?_
    intro q s1 x1 l1
    refine Spec.seq (spec_accept (by decide) x1.ne) (by omega) (fun _ _ h => h.elim) ?_
    intro b s2 x2 l2
    split
    · rename_i hb
      refine Spec.seq (ih x2.ne (by omega)) (by omega) (fun _ _ h => h.elim) ?_
      intro qs s3 x3 l3
      refine Spec.pure x3.ne ?_
      rintro _ ⟨cs, c1, c2, c3, c4⟩ hacc ⟨t, d1, d2, d3⟩
      rcases hacc with ⟨-, co, h1, h2⟩ | ⟨h1, -⟩
      · refine ⟨.more t co cs, trivial, ?_, ?_, d1, h1, c1, c4⟩
        · simp only [CIds.nodes, c2, d2]
        · rw [d3, h2, c3]
          simp [CIds.toks]
      · rw [hb] at h1; cases h1
    · rename_i hb
      refine Spec.pure x2.ne ?_
      rintro _ hacc ⟨t, d1, d2, d3⟩
      rcases hacc with ⟨h1, -⟩ | ⟨-, h1, h2⟩
      · exact absurd h1 hb
      · exact ⟨.one t, trivial, by simp only [CIds.nodes, d2], by rw [d3, h1]; rfl, d1⟩

theorem parseIdentifiers_spec {s : PS} (hs : s.rest ≠ []) :
    Spec false 1 parseIdentifiers s (fun ns s' => ∃ (lp : Token) (c : CIds) (rp : Token), lp.kind = .lparen ∧ c.Wf ∧
      rp.kind = .rparen ∧ c.nodes = ns ∧ s.rest = lp :: (c.toks ++ rp :: s'.rest)) (fun _ => False) := by
  unfold parseIdentifiers
  refine Spec.need hs (by decide) (by omega) ?_
  intro lp s1 x1 l1
  refine Spec.seq (c1 := 0) (G1 := fun ns s' => ∃ c : CIds, c.nodes = ns ∧ s1.rest = c.toks ++ s'.rest ∧
      c.Wf) (E1 := fun _ => False) ?_ (by omega) (fun _ _ h => h.elim) ?_
  · obtain ⟨u, r', hu⟩ := rest_cons x1.ne
    unfold optIdents
    refine Spec.is hu ?_
    split
    · exact (commaIdents_spec x1.ne).mono (by omega) (fun _ a s' _ _ ⟨c, h1, h2⟩ => ⟨c, h2⟩) (fun _ _ h => h)
    · exact Spec.pure x1.ne (fun _ => ⟨.nil, rfl, rfl, trivial⟩)
  · intro ns s2 x2 l2
    refine Spec.need x2.ne (by decide) (by omega) ?_
    intro rp s3 x3 l3
    refine Spec.pure x3.ne ?_
    rintro _ ⟨k3, e3⟩ ⟨c, c1, c2, c3⟩ ⟨k1, e1⟩
    exact ⟨lp, c, rp, k1, c3, k3, c1, by rw [e1, c2, e3]⟩

theorem fnTypeList_spec {s : PS} (hs : s.rest ≠ []) :
    Spec false 0 fnTypeList s (fun n s' => ∃ c : CTps, c.Wf ∧ c.node = n ∧ s.rest = c.toks ++ s'.rest)
      (fun _ => False) := by
  obtain ⟨u, r', hu⟩ := rest_cons hs
  unfold fnTypeList
  refine Spec.kind hu ?_
  split
  · refine Spec.seq (parseTypeList_spec hs) (by omega) (fun _ _ h => h.elim) ?_
    intro p s1 x1 l1
    refine Spec.pure x1.ne ?_
    rintro _ ⟨ts, rg, h1, h2, h3, h4, h5⟩
    exact ⟨.some p.2 ts rg, ⟨h2, h3, h4⟩, by simp only [CTps.node, h1], by rw [h5]; simp [CTps.toks]⟩
  · exact Spec.pure hs (fun _ => ⟨.none, trivial, rfl, rfl⟩)

theorem typeParams_spec {s : PS} (hs : s.rest ≠ []) :
    Spec false 0 typeParams s (fun n s' => ∃ c : CTps, c.Wf ∧ c.nodes = n ∧ s.rest = c.toks ++ s'.rest)
      (fun _ => False) := by
  obtain ⟨u, r', hu⟩ := rest_cons hs
  unfold typeParams
  refine Spec.is hu ?_
  split
  · refine Spec.seq (parseTypeList_spec hs) (by omega) (fun _ _ h => h.elim) ?_
    intro p s1 x1 l1
    refine Spec.pure x1.ne ?_
    rintro _ ⟨ts, rg, h1, h2, h3, h4, h5⟩
    exact ⟨.some p.2 ts rg, ⟨h2, h3, h4⟩, by simp only [CTps.nodes, h1], by rw [h5]; simp [CTps.toks]⟩
  · exact Spec.pure hs (fun _ => ⟨.none, trivial, rfl, rfl⟩)

theorem fnRet_spec {s : PS} (hs : s.rest ≠ []) :
    Spec false 0 fnRet s (fun n s' => ∃ c : CRet, c.Wf (headKind s'.rest .eof) ∧ c.node = n ∧
      s.rest = c.toks ++ s'.rest) (fun _ => False) := by
  obtain ⟨u, r', hu⟩ := rest_cons hs
  unfold fnRet
  refine Spec.is hu (Spec.is hu (Spec.is hu ?_))
  split
  · refine Spec.seq (parseType_spec hs) (by omega) (fun _ _ h => h.elim) ?_
    intro q s1 x1 l1
    refine Spec.pure x1.ne ?_
    rintro _ ⟨c, c1, c2, c3, c4⟩
    exact ⟨.some c, ⟨c1, c4⟩, by simp only [CRet.node, c2], c3⟩
  · rename_i hn
    refine Spec.pure hs (fun _ => ⟨.none, ?_, rfl, rfl⟩)
    rw [hu]
    simp only [CRet.Wf, headKind, startsType]
    rw [Bool.or_assoc, Bool.or_comm (_ == Kind.identifier), ← Bool.or_assoc]
    exact Bool.eq_false_iff.mpr hn

/-- The head of a function was read. -/
def SigG (s : PS) (tl : Option Node) (ps : List Node) (ret : Option Node) (s' : PS) : Prop :=
  ∃ g : CSig, g.Wf (headKind s'.rest .eof) ∧ g.tps.node = tl ∧ g.ps.nodes = ps ∧ g.ret.node = ret ∧
    s.rest = g.toks ++ s'.rest

theorem sig_spec {β : Type} {s : PS} (hs : s.rest ≠ []) {f : Option Node → List Node → Option Node → P β}
    {G : β → PS → Prop} {E : PS → Prop}
    (hf : ∀ tl ps ret s1, Ext false s s1 → s1.rest.length + 1 ≤ s.rest.length →
      Spec false 0 (f tl ps ret) s1 (fun b s2 => SigG s tl ps ret s1 → G b s2)
        (fun s2 => SigG s tl ps ret s1 → E s2)) :
    Spec false 1 (do
      let tl ← fnTypeList
      let params ← parseParameters
      let ret ← fnRet
      f tl params ret) s G E := by
  refine Spec.bind (c1 := 0) (c2 := 1) (fnTypeList_spec hs) ?_ (fun _ _ h => h.elim) (by omega)
  intro tl s1 x1 l1
  refine Spec.seq (parseParameters_spec x1.ne) (by omega) (fun _ _ h => h.elim) ?_
  intro ps s2 x2 l2
  refine Spec.seq (fnRet_spec x2.ne) (by omega) (fun _ _ h => h.elim) ?_
  intro ret s3 x3 l3
  refine (hf tl ps ret s3 ((x1.trans x2).trans x3) (by omega)).mono (by omega) ?_ ?_
  · rintro _ b s4 _ _ h ⟨q, q1, q2, q3⟩ ⟨lp, c, rp, c1, c2, c3, c4, c5⟩ ⟨tps, t1, t2, t3⟩
    exact h ⟨⟨tps, lp, c, rp, q⟩, ⟨t1, c1, c2, c3, q1⟩, t2, c4, q2, by
      rw [t3, c5, q3]; simp [CSig.toks]⟩
  · rintro _ s4 h ⟨q, q1, q2, q3⟩ ⟨lp, c, rp, c1, c2, c3, c4, c5⟩ ⟨tps, t1, t2, t3⟩
    exact h ⟨⟨tps, lp, c, rp, q⟩, ⟨t1, c1, c2, c3, q1⟩, t2, c4, q2, by
      rw [t3, c5, q3]; simp [CSig.toks]⟩

/-! ## Expressions and statements -/

/-- Tokens after which the parser reads an expression. -/
def wantsExpr : Kind → Bool
  | .as | .das | .while_ | .if_ | .elseif | .in_ | .dotdot | .match_ | .lparen | .lbrack | .comma | .colon
  | .question | .dot | .plus | .min | .mul | .div | .bleft | .bright | .band | .bor | .bxor
  | .gt | .gte | .lt | .lte | .eq | .or | .and | .not | .bnot => true
  | _ => false

/-- The input breaks off where an expression should follow. -/
def Silent (ts : List Token) : Prop :=
  ∃ pre t e, ts = pre ++ [t, e] ∧ wantsExpr t.kind = true

/-- Nothing but `EOF` is left, or the input breaks off later. -/
def Broken (ts : List Token) : Prop := (∃ e, ts = [e]) ∨ Silent ts

theorem Silent.app {x y : List Token} (h : Silent y) : Silent (x ++ y) := by
  obtain ⟨p, t, e, h1, h2⟩ := h
  exact ⟨x ++ p, t, e, by rw [h1]; simp, h2⟩

theorem Silent.cons {t : Token} {y : List Token} (h : Silent y) : Silent (t :: y) :=
  Silent.app (x := [t]) h

theorem Broken.cons {t : Token} {y : List Token} (h : Broken y) (ht : wantsExpr t.kind = true) :
    Silent (t :: y) := by
  rcases h with ⟨e, rfl⟩ | h
  · exact ⟨[], t, e, rfl, ht⟩
  · exact h.cons

/-- The kind of the next token. -/
def PS.hk (s : PS) : Kind := headKind s.rest .eof

theorem hk_cons {s : PS} {t : Token} {r : List Token} (h : s.rest = t :: r) : s.hk = t.kind := by
  unfold PS.hk
  rw [h]
  rfl

theorem hk_app {s : PS} {x y : List Token} (h : s.rest = x ++ y) (k : Kind) (hy : headKind y .eof = k) :
    s.hk = headKind x k := by
  unfold PS.hk
  rw [h]
  cases x with
  | nil => exact hy
  | cons => rfl

/-- An expression was read by `parseExpr p`. -/
def ExG (p : Nat) (s : PS) (n : Node) (s' : PS) : Prop :=
  ∃ c : CE, c.Wf ∧ c.node = n ∧ s.rest = c.toks ++ s'.rest ∧ p < c.top ∧
    binds s'.hk ≤ p ∧ binds s'.hk ≤ c.edge

/-- The loop of `parseExpr` extended an expression. -/
def LoopG (p : Nat) (left : Node) (s : PS) (n : Node) (s' : PS) : Prop :=
  ∀ c : CE, c.Wf → c.node = left → p < c.top → binds s.hk ≤ c.edge →
    ∃ c' : CE, c'.Wf ∧ c'.node = n ∧ c.toks ++ s.rest = c'.toks ++ s'.rest ∧ p < c'.top ∧
      binds s'.hk ≤ p ∧ binds s'.hk ≤ c'.edge

/-- An operand was read after its first token `t`. -/
def PreG (t : Token) (s : PS) (n : Node) (s' : PS) : Prop :=
  ∃ c : CE, c.Wf ∧ c.node = n ∧ t :: s.rest = c.toks ++ s'.rest ∧ c.top = 14 ∧ binds s'.hk ≤ c.edge

/-- An operator was applied after its token `t`. -/
def InfG (left : Node) (t : Token) (s : PS) (n : Node) (s' : PS) : Prop :=
  ∀ c : CE, c.Wf → c.node = left → binds t.kind ≤ c.edge →
    ∃ c' : CE, c'.Wf ∧ c'.node = n ∧ c.toks ++ t :: s.rest = c'.toks ++ s'.rest ∧
      c'.top = min (binds t.kind) c.top ∧ binds s'.hk ≤ c'.edge

/-- Expressions separated by commas were read. -/
def ExsG (s : PS) (n : List Node) (s' : PS) : Prop :=
  ∃ c : CEs, c.Ne ∧ c.Wf ∧ c.nodes = n ∧ s.rest = c.toks ++ s'.rest

/-- The rest of a function after its name was read. -/
def FnG (attrs : Attrs) (id : Token) (anon : Bool) (s : PS) (n : Node) (s' : PS) : Prop :=
  (∃ (g : CSig) (lb : Token) (ss : CSs) (rb : Token), g.Wf .lbrace ∧ lb.kind = .lbrace ∧ ss.Wf .rbrace ∧ rb.kind = .rbrace ∧
    n = g.node .blockFnDcl attrs id ss.nodes ∧ s.rest = g.toks ++ lb :: (ss.toks ++ rb :: s'.rest)) ∨
  (∃ (g : CSig) (a : Token) (e : CE), g.Wf .as ∧ a.kind = .as ∧ e.Wf ∧
    n = g.node .exprFnDcl attrs id [e.node] ∧ s.rest = g.toks ++ a :: (e.toks ++ s'.rest) ∧ binds s'.hk = 0) ∨
  (anon = false ∧ ∃ g : CSig, g.Wf s'.hk ∧ s'.hk ≠ .lbrace ∧ s'.hk ≠ .as ∧
    n = g.node .externFnDcl attrs id [] ∧ s.rest = g.toks ++ s'.rest)

/-- A block was read. -/
def BlkG (s : PS) (n : List Node) (s' : PS) : Prop :=
  ∃ (lb : Token) (ss : CSs) (rb : Token), lb.kind = .lbrace ∧ ss.Wf .rbrace ∧ rb.kind = .rbrace ∧ ss.nodes = n ∧
    s.rest = lb :: (ss.toks ++ rb :: s'.rest)

/-- Statements were read. -/
def SsG (s : PS) (n : List Node) (s' : PS) : Prop :=
  ∃ ss : CSs, ss.Wf s'.hk ∧ ss.nodes = n ∧ s.rest = ss.toks ++ s'.rest

/-- A statement was read. -/
def StG (s : PS) (n : Node) (s' : PS) : Prop :=
  ∃ c : CS, c.Wf s'.hk ∧ c.node = n ∧ s.rest = c.toks ++ s'.rest

/-- Every method about expressions and statements does what it should on at most `n` tokens. -/
structure AllSpec (n : Nat) : Prop where
  expr : ∀ p (s : PS), p < 14 → s.rest ≠ [] → s.rest.length ≤ n →
    Spec false 1 (parseExpr p) s (ExG p s) (fun _ => Broken s.rest)
  loop : ∀ p left (s : PS), p < 14 → s.rest ≠ [] → s.rest.length ≤ n →
    Spec false 0 (exprLoop p left) s (LoopG p left s) (fun _ => Silent s.rest)
  pre : ∀ f t (s : PS), s.rest ≠ [] → s.rest.length ≤ n → prefixOf t.kind = some f →
    Spec false 0 (parsePrefix f t) s (PreG t s) (fun _ => Silent (t :: s.rest))
  inf : ∀ f left t (s : PS), s.rest ≠ [] → s.rest.length ≤ n → infixOf t.kind = some f →
    Spec false 0 (parseInfix f left t) s (InfG left t s) (fun _ => Silent (t :: s.rest))
  exprs : ∀ (s : PS), s.rest ≠ [] → s.rest.length ≤ n →
    Spec false 1 commaExprs s (ExsG s) (fun _ => Broken s.rest)
  fn : ∀ attrs id anon (s : PS), s.rest ≠ [] → s.rest.length ≤ n →
    Spec false 1 (fnRest attrs id anon) s (FnG attrs id anon s) (fun _ => Silent s.rest)
  block : ∀ (s : PS), s.rest ≠ [] → s.rest.length ≤ n →
    Spec false 1 parseBlock s (BlkG s) (fun _ => Silent s.rest)
  blockLoop : ∀ (s : PS), s.rest ≠ [] → s.rest.length ≤ n →
    Spec false 0 blockLoop s (fun n s' => SsG s n s' ∧ s'.hk = .rbrace) (fun _ => Silent s.rest)
  stmt : ∀ (s : PS), s.rest ≠ [] → s.rest.length ≤ n →
    Spec false 1 parseStatement s (StG s) (fun _ => Silent s.rest)
  ifChain : ∀ (s : PS), s.rest ≠ [] → s.rest.length ≤ n →
    Spec false 0 ifChain s (fun n s' => ∃ c : CIf, c.Wf s'.hk ∧ c.node = n ∧ s.rest = c.toks ++ s'.rest)
      (fun _ => Silent s.rest)
  caseLoop : ∀ (s : PS), s.rest ≠ [] → s.rest.length ≤ n →
    Spec false 0 caseLoop s (fun n s' => ∃ c : CCs, c.Wf ∧ c.nodes = n ∧ s.rest = c.toks ++ s'.rest ∧ s'.hk = .rbrace)
      (fun _ => Silent s.rest)
  caseStmts : ∀ (s : PS), s.rest ≠ [] → s.rest.length ≤ n →
    Spec false 0 caseStmts s (fun n s' => SsG s n s' ∧ (s'.hk = .rbrace ∨ s'.hk = .case)) (fun _ => Silent s.rest)

theorem binds_le (k : Kind) : binds k ≤ 13 := by
  cases k <;> simp [binds]

theorem infix_of_binds {k : Kind} {p : Nat} (h : p < nextPrec k) : ∃ f, infixOf k = some f := by
  cases k <;> simp [nextPrec, infixOf] at h ⊢

theorem binary_of_infix {k : Kind} (h : infixOf k = some .binary) : isBinary k = true := by
  cases k <;> simp_all [infixOf, isBinary]

theorem binary_wants {k : Kind} (h : isBinary k = true) : wantsExpr k = true := by
  cases k <;> simp_all [wantsExpr, isBinary]

theorem unary_of_prefix {k : Kind} (h : prefixOf k = some .op) : binds1 k ≠ 0 ∧ wantsExpr k = true := by
  cases k <;> simp_all [prefixOf, binds1, wantsExpr]

theorem kind_of_call {k : Kind} (h : infixOf k = some .call) : k = .lparen := by
  cases k <;> simp_all [infixOf]
theorem kind_of_tcall {k : Kind} (h : infixOf k = some .tcall) : k = .lgmet := by
  cases k <;> simp_all [infixOf]
theorem kind_of_array {k : Kind} (h : infixOf k = some .array) : k = .lbrack := by
  cases k <;> simp_all [infixOf]
theorem kind_of_ternary {k : Kind} (h : infixOf k = some .ternary) : k = .question := by
  cases k <;> simp_all [infixOf]
theorem kind_of_ident {k : Kind} (h : prefixOf k = some .ident) : k = .identifier := by
  cases k <;> simp_all [prefixOf]
theorem kind_of_group {k : Kind} (h : prefixOf k = some .group) : k = .lparen := by
  cases k <;> simp_all [prefixOf]
theorem kind_of_func {k : Kind} (h : prefixOf k = some .func) : k = .fn := by
  cases k <;> simp_all [prefixOf]
theorem kind_of_type {k : Kind} (h : prefixOf k = some .type) : k = .type := by
  cases k <;> simp_all [prefixOf]
theorem kind_of_arrayLit {k : Kind} (h : prefixOf k = some .arrayLit) : k = .lbrack := by
  cases k <;> simp_all [prefixOf]
theorem isLit_of_prefix {k : Kind} (h : prefixOf k = some .lit) : isLit k = true := by
  cases k <;> simp_all [prefixOf, isLit]

theorem prefix_ne_eof {k : Kind} {f : Prefix} (h : prefixOf k = some f) : k ≠ .eof := by
  rintro rfl
  cases h

theorem prec_lt (k : Kind) : prec k < 14 := by
  cases k <;> simp [prec]

section
variable {n : Nat} (ih : AllSpec n)
include ih

theorem expr_step : ∀ p (s : PS), p < 14 → s.rest ≠ [] → s.rest.length ≤ n + 1 →
    Spec false 1 (parseExpr p) s (ExG p s) (fun _ => Broken s.rest) := by
  intro p s hp hs hn
  obtain ⟨t, r, ht⟩ := rest_cons hs
  rw [parseExpr]
  refine Spec.next0 ht (by omega) (fun _ hr => .inl ⟨t, by rw [ht, hr]⟩) ?_
  intro s1 x1 e1
  have l1 : s1.rest.length + 1 ≤ s.rest.length := by simp [ht, e1]
  split
  · refine Spec.syntaxError x1.ne ?_
    intro s2 x2
    exact (Spec.skip x2.ne (fun u s3 x3 => Spec.pure x3.ne (fun _ => trivial))).mono (by omega)
      (fun _ _ _ _ _ h => h) (fun _ _ h => h)
  · rename_i f hf
    refine Spec.seq (ih.pre f t s1 x1.ne (by omega) hf) (by omega) ?_ ?_
    · intro _ _ h
      refine .inr ?_
      rw [ht, ← e1]
      exact h
    · intro left s2 x2 l2
      refine (ih.loop p left s2 hp x2.ne (by omega)).mono (by omega) ?_ ?_
      · rintro _ a s3 x3 _ hl ⟨c, c1, c2, c3, c4, c5⟩
        obtain ⟨c', d1, d2, d3, d4, d5, d6⟩ := hl c c1 c2 (by omega) c5
        exact ⟨c', d1, d2, by rw [ht, ← e1, c3, d3], d4, d5, d6⟩
      · rintro _ s3 h ⟨c, c1, c2, c3, c4, c5⟩
        refine .inr ?_
        rw [ht, ← e1, c3]
        exact h.app

theorem loop_step : ∀ p left (s : PS), p < 14 → s.rest ≠ [] → s.rest.length ≤ n + 1 →
    Spec false 0 (exprLoop p left) s (LoopG p left s) (fun _ => Silent s.rest) := by
  intro p left s hp hs hn
  obtain ⟨t, r, ht⟩ := rest_cons hs
  rw [exprLoop]
  refine Spec.kind ht ?_
  split
  · rename_i hlt
    obtain ⟨f, hf⟩ := infix_of_binds hlt
    refine Spec.next ht (by rintro h; rw [h] at hf; cases hf) (by omega) ?_
    intro s1 x1 e1
    have l1 : s1.rest.length + 1 ≤ s.rest.length := by simp [ht, e1]
    rw [hf]
    refine Spec.seq (ih.inf f left t s1 x1.ne (by omega) hf) (by omega) ?_ ?_
    · intro _ _ h
      rw [ht, ← e1]
      exact h
    · intro left' s2 x2 l2
      rw [nextPrec_binds] at hlt
      refine (ih.loop p left' s2 hp x2.ne (by omega)).mono (by omega) ?_ ?_
      · intro _ a s3 x3 _ hl hi c c1 c2 c3 c4
        rw [hk_cons ht] at c4
        obtain ⟨c', d1, d2, d3, d4, d5⟩ := hi c c1 c2 c4
        obtain ⟨c'', g1, g2, g3, g4, g5, g6⟩ := hl c' d1 d2 (by omega) d5
        exact ⟨c'', g1, g2, by rw [ht, ← e1, d3, g3], g4, g5, g6⟩
      · intro _ s3 h _
        obtain ⟨pre, hpre⟩ := x2.suffix
        rw [ht, ← e1, hpre]
        exact (h.app).cons
  · rename_i hge
    rw [nextPrec_binds] at hge
    refine Spec.pure hs ?_
    intro _ c c1 c2 c3 c4
    refine ⟨c, c1, c2, rfl, c3, ?_, c4⟩
    rw [hk_cons ht]
    omega

theorem exprs_step (hE : ∀ p (s : PS), p < 14 → s.rest ≠ [] → s.rest.length ≤ n + 1 →
    Spec false 1 (parseExpr p) s (ExG p s) (fun _ => Broken s.rest)) :
    ∀ (s : PS), s.rest ≠ [] → s.rest.length ≤ n + 1 →
    Spec false 1 commaExprs s (ExsG s) (fun _ => Broken s.rest) := by
  intro s hs hn
  rw [commaExprs]
  refine Spec.seq (hE 0 s (by omega) hs hn) (by omega) (fun _ _ h => h) ?_
  intro q s1 x1 l1
  refine Spec.seq (spec_accept (by decide) x1.ne) (by omega) (fun _ _ h => h.elim) ?_
  intro b s2 x2 l2
  split
  · rename_i hb
    refine Spec.seq (ih.exprs s2 x2.ne (by omega)) (by omega) ?_ ?_
    · rintro _ s3 h hacc ⟨c, d1, d2, d3, d4⟩
      rcases hacc with ⟨-, co, h1, h2⟩ | ⟨h1, -⟩
      · refine .inr ?_
        rw [d3, h2]
        exact (h.cons (by rw [h1]; rfl)).app
      · rw [hb] at h1; cases h1
    · intro qs s3 x3 l3
      refine Spec.pure x3.ne ?_
      rintro _ ⟨cs, c1, c2, c3, c4⟩ hacc ⟨c, d1, d2, d3, d4⟩
      rcases hacc with ⟨-, co, h1, h2⟩ | ⟨h1, -⟩
      · refine ⟨.more c co cs, trivial, ?_, ?_, ?_⟩
        · simp only [CEs.Wf]
          exact ⟨d1, h1, c1, c2⟩
        · simp only [CEs.nodes, c3, d2]
        · rw [d3, h2, c4]
          simp [CEs.toks]
      · rw [hb] at h1; cases h1
  · rename_i hb
    refine Spec.pure x2.ne ?_
    rintro _ hacc ⟨c, d1, d2, d3, d4⟩
    rcases hacc with ⟨h1, -⟩ | ⟨-, h1, h2⟩
    · exact absurd h1 hb
    · refine ⟨.one c, trivial, ?_, ?_, ?_⟩
      · simp only [CEs.Wf]
        exact d1
      · simp only [CEs.nodes, d2]
      · rw [d3, h1]
        rfl

end

theorem optExprs_spec {s : PS} {k : Kind} (hs : s.rest ≠ [])
    (h : Spec false 1 commaExprs s (ExsG s) (fun _ => Broken s.rest)) :
    Spec false 0 (optExprs k) s (fun n s' => ∃ c : CEs, c.Wf ∧ c.nodes = n ∧ s.rest = c.toks ++ s'.rest)
      (fun _ => Broken s.rest) := by
  obtain ⟨t, r, ht⟩ := rest_cons hs
  rw [optExprs]
  refine Spec.is ht ?_
  split
  · exact h.mono (Nat.zero_le _) (fun _ a s' _ _ ⟨c, h1, h2, h3, h4⟩ => ⟨c, h2, h3, h4⟩) (fun _ _ h => h)
  · exact Spec.pure hs (fun _ => ⟨.nil, by simp [CEs.Wf], rfl, rfl⟩)

section
variable {n : Nat} (ih : AllSpec n)
  (hE : ∀ p (s : PS), p < 14 → s.rest ≠ [] → s.rest.length ≤ n + 1 →
    Spec false 1 (parseExpr p) s (ExG p s) (fun _ => Broken s.rest))
  (hEs : ∀ (s : PS), s.rest ≠ [] → s.rest.length ≤ n + 1 →
    Spec false 1 commaExprs s (ExsG s) (fun _ => Broken s.rest))
include hE

theorem inf_step
  (hEs : ∀ (s : PS), s.rest ≠ [] → s.rest.length ≤ n + 1 →
    Spec false 1 commaExprs s (ExsG s) (fun _ => Broken s.rest)) : ∀ f left t (s : PS), s.rest ≠ [] → s.rest.length ≤ n + 1 → infixOf t.kind = some f →
    Spec false 0 (parseInfix f left t) s (InfG left t s) (fun _ => Silent (t :: s.rest)) := by
  intro f left t s hs hn hf
  rw [parseInfix.eq_def]
  cases f with
  | binary =>
    have hb := binary_of_infix hf
    simp only [binary_prec hb]
    refine Spec.seq (hE _ s (by have := binds_le t.kind; omega) hs hn) (by omega)
      (fun _ _ h => h.cons (binary_wants hb)) ?_
    intro q s1 x1 l1
    refine Spec.pure x1.ne ?_
    rintro _ ⟨e, e1, e2, e3, e4, e5, e6⟩ c c1 c2 c3
    refine ⟨.bin c t e, ?_, ?_, ?_, rfl, ?_⟩
    · simp only [CE.Wf]
      exact ⟨c1, hb, e1, c3, e4⟩
    · simp only [CE.node, c2, e2, binary_op hb]
    · rw [e3]
      simp [CE.toks]
    · simp only [CE.edge]
      omega
  | ternary =>
    have hq := kind_of_ternary hf
    refine Spec.seq (hE 0 s (by omega) hs hn) (by omega) (fun _ _ h => h.cons (by rw [hq]; rfl)) ?_
    intro a s1 x1 l1
    refine Spec.need x1.ne (by decide) (by omega) ?_
    intro co s2 x2 l2
    rw [hq]
    refine Spec.seq (hE 0 s2 (by omega) x2.ne (by omega)) (by omega) ?_ ?_
    · rintro _ _ h ⟨k2, e2⟩ ⟨a, a1, a2, a3, a4⟩
      rw [a3, e2]
      exact ((h.cons (by rw [k2]; rfl)).app).cons
    · intro b s3 x3 l3
      refine Spec.pure x3.ne ?_
      rintro _ ⟨b, b1, b2, b3, b4, b5, b6⟩ ⟨k2, e2⟩ ⟨a, a1, a2, a3, a4⟩ c c1 c2 c3
      refine ⟨.tern c t a co b, ?_, ?_, ?_, ?_, ?_⟩
      · simp only [CE.Wf]
        rw [hq] at c3
        exact ⟨c1, c3, hq, a1, k2, b1⟩
      · simp only [CE.node, c2, a2, b2]
      · rw [a3, e2, b3]
        simp [CE.toks]
      · rw [hq]
        rfl
      · simp only [CE.edge]
        exact b5
  | array =>
    have hq := kind_of_array hf
    refine Spec.seq (hE 0 s (by omega) hs hn) (by omega) (fun _ _ h => h.cons (by rw [hq]; rfl)) ?_
    intro a s1 x1 l1
    refine Spec.need x1.ne (by decide) (by omega) ?_
    intro rb s2 x2 l2
    refine Spec.pure x2.ne ?_
    rintro _ ⟨k2, e2⟩ ⟨i, a1, a2, a3, a4⟩ c c1 c2 c3
    refine ⟨.index c t i rb, ?_, ?_, ?_, ?_, ?_⟩
    · simp only [CE.Wf]
      rw [hq] at c3
      exact ⟨c1, c3, hq, a1, k2⟩
    · simp only [CE.node, c2, a2]
    · rw [a3, e2]
      simp [CE.toks]
    · rw [hq]
      rfl
    · have := binds_le s2.hk
      simp only [CE.edge]
      omega
  | call =>
    have hq := kind_of_call hf
    refine Spec.seq (optExprs_spec hs (hEs s hs hn)) (by omega) (fun _ _ h => h.cons (by rw [hq]; rfl)) ?_
    intro a s1 x1 l1
    refine Spec.need x1.ne (by decide) (by omega) ?_
    intro rp s2 x2 l2
    refine Spec.pure x2.ne ?_
    rintro _ ⟨k2, e2⟩ ⟨i, a1, a2, a3⟩ c c1 c2 c3
    refine ⟨.call c t i rp, ?_, ?_, ?_, ?_, ?_⟩
    · simp only [CE.Wf]
      rw [hq] at c3
      exact ⟨c1, c3, hq, a1, k2⟩
    · simp only [CE.node, c2, a2]
    · rw [a3, e2]
      simp [CE.toks]
    · rw [hq]
      rfl
    · have := binds_le s2.hk
      simp only [CE.edge]
      omega
  | tcall =>
    have hq := kind_of_tcall hf
    refine Spec.seq (optTypes_spec hs (commaTypes_spec hs)) (by omega) (fun _ _ h => h.elim) ?_
    intro ts s1 x1 l1
    refine Spec.need x1.ne (by decide) (by omega) ?_
    intro rg s2 x2 l2
    refine Spec.need x2.ne (by decide) (by omega) ?_
    intro lp s3 x3 l3
    refine Spec.seq (optExprs_spec x3.ne (hEs s3 x3.ne (by omega))) (by omega) ?_ ?_
    · rintro _ _ h ⟨k3, e3⟩ ⟨k2, e2⟩ ⟨ts, t1, t2, t3⟩
      rw [t2, e2, e3]
      exact (((h.cons (by rw [k3]; rfl)).cons).app).cons
    · intro a s4 x4 l4
      refine Spec.need x4.ne (by decide) (by omega) ?_
      intro rp s5 x5 l5
      refine Spec.pure x5.ne ?_
      rintro _ ⟨k5, e5⟩ ⟨i, a1, a2, a3⟩ ⟨k3, e3⟩ ⟨k2, e2⟩ ⟨ts, t1, t2, t3⟩ c c1 c2 c3
      refine ⟨.tcall c t ts rg lp i rp, ?_, ?_, ?_, ?_, ?_⟩
      · simp only [CE.Wf]
        rw [hq] at c3
        rw [e2] at t3
        exact ⟨c1, c3, hq, by simpa [headKind, k2] using t3, k2, k3, a1, k5⟩
      · simp only [CE.node, c2, a2, t1]
      · rw [t2, e2, e3, a3, e5]
        simp [CE.toks]
      · rw [hq]
        rfl
      · have := binds_le s5.hk
        simp only [CE.edge]
        omega

theorem pre_step
  (hEs : ∀ (s : PS), s.rest ≠ [] → s.rest.length ≤ n + 1 →
    Spec false 1 commaExprs s (ExsG s) (fun _ => Broken s.rest))
  (hF : ∀ attrs id anon (s : PS), s.rest ≠ [] → s.rest.length ≤ n + 1 →
    Spec false 1 (fnRest attrs id anon) s (FnG attrs id anon s) (fun _ => Silent s.rest)) :
    ∀ f t (s : PS), s.rest ≠ [] → s.rest.length ≤ n + 1 → prefixOf t.kind = some f →
    Spec false 0 (parsePrefix f t) s (PreG t s) (fun _ => Silent (t :: s.rest)) := by
  intro f t s hs hn hf
  rw [parsePrefix.eq_def]
  cases f with
  | ident =>
    refine Spec.pure hs ?_
    intro _
    refine ⟨.ident t, by simp only [CE.Wf]; exact kind_of_ident hf, rfl, rfl, rfl, ?_⟩
    have := binds_le s.hk
    simp only [CE.edge]
    omega
  | lit =>
    refine Spec.pure hs ?_
    intro _
    refine ⟨.lit t, by simp only [CE.Wf]; exact isLit_of_prefix hf, rfl, rfl, rfl, ?_⟩
    have := binds_le s.hk
    simp only [CE.edge]
    omega
  | group =>
    have hq := kind_of_group hf
    refine Spec.seq (hE 0 s (by omega) hs hn) (by omega) (fun _ _ h => h.cons (by rw [hq]; rfl)) ?_
    intro a s1 x1 l1
    refine Spec.need x1.ne (by decide) (by omega) ?_
    intro rp s2 x2 l2
    refine Spec.pure x2.ne ?_
    rintro _ ⟨k2, e2⟩ ⟨i, a1, a2, a3, a4⟩
    refine ⟨.paren t i rp, ?_, ?_, ?_, rfl, ?_⟩
    · simp only [CE.Wf]
      exact ⟨hq, a1, k2⟩
    · simp only [CE.node, a2]
    · rw [a3, e2]
      simp [CE.toks]
    · have := binds_le s2.hk
      simp only [CE.edge]
      omega
  | op =>
    have hq := unary_of_prefix hf
    refine Spec.seq (hE _ s (prec_lt _) hs hn) (by omega) (fun _ _ h => h.cons hq.2) ?_
    intro a s1 x1 l1
    refine Spec.pure x1.ne ?_
    rintro _ ⟨i, a1, a2, a3, a4, a5, a6⟩
    rw [unary_prec hq.1] at a4 a5
    refine ⟨.un t i, ?_, ?_, ?_, rfl, ?_⟩
    · simp only [CE.Wf]
      exact ⟨hq.1, a1, a4⟩
    · simp only [CE.node, a2, unary_op hq.1]
    · rw [a3]
      simp [CE.toks]
    · simp only [CE.edge]
      omega
  | type =>
    have hq := kind_of_type hf
    refine Spec.need hs (by decide) (by omega) ?_
    intro lp s1 x1 l1
    refine Spec.seq (parseType_spec x1.ne) (by omega) (fun _ _ h => h.elim) ?_
    intro ty s2 x2 l2
    refine Spec.need x2.ne (by decide) (by omega) ?_
    intro rp s3 x3 l3
    refine Spec.pure x3.ne ?_
    rintro _ ⟨k3, e3⟩ ⟨c, c1, c2, c3, c4⟩ ⟨k1, e1⟩
    refine ⟨.typ t lp c rp, ?_, ?_, ?_, rfl, ?_⟩
    · simp only [CE.Wf]
      rw [e3] at c4
      exact ⟨hq, k1, c1, by simpa [headKind, k3] using c4, k3⟩
    · simp only [CE.node, c2]
    · rw [e1, c3, e3]
      simp [CE.toks]
    · have := binds_le s3.hk
      simp only [CE.edge]
      omega
  | arrayLit =>
    have hq := kind_of_arrayLit hf
    refine Spec.seq (optExprs_spec hs (hEs s hs hn)) (by omega) (fun _ _ h => h.cons (by rw [hq]; rfl)) ?_
    intro a s1 x1 l1
    refine Spec.need x1.ne (by decide) (by omega) ?_
    intro rb s2 x2 l2
    refine Spec.pure x2.ne ?_
    rintro _ ⟨k2, e2⟩ ⟨i, a1, a2, a3⟩
    refine ⟨.arr t i rb, ?_, ?_, ?_, rfl, ?_⟩
    · simp only [CE.Wf]
      exact ⟨hq, a1, k2⟩
    · simp only [CE.node, a2]
    · rw [a3, e2]
      simp [CE.toks]
    · have := binds_le s2.hk
      simp only [CE.edge]
      omega
  | func =>
    have hq := kind_of_func hf
    refine (hF {} t true s hs hn).mono (by omega) ?_ (fun _ _ h => h.cons)
    rintro _ a s1 x1 _ (⟨g, lb, ss, rb, h1, h2, h3, h4, h5, h6⟩ | ⟨g, a, e, h1, h2, h3, h4, h5, h6⟩ | ⟨h, -⟩)
    · refine ⟨.lamB t g lb ss rb, ?_, ?_, ?_, rfl, ?_⟩
      · simp only [CE.Wf]
        exact ⟨hq, h1, h2, h3, h4⟩
      · simp only [CE.node, h5]
      · rw [h6]
        simp [CE.toks]
      · have := binds_le s1.hk
        simp only [CE.edge]
        omega
    · refine ⟨.lamE t g a e, ?_, ?_, ?_, rfl, ?_⟩
      · simp only [CE.Wf]
        exact ⟨hq, h1, h2, h3⟩
      · simp only [CE.node, h4]
      · rw [h5]
        simp [CE.toks]
      · simp only [CE.edge]
        omega
    · cases h

end


theorem hk_eq {s : PS} : headKind s.rest .eof = s.hk := rfl

theorem headKind_any {ts : List Token} {k k' : Kind} (h : ts ≠ []) : headKind ts k = headKind ts k' := by
  cases ts with
  | nil => exact absurd rfl h
  | cons => rfl

theorem binds_zero {k : Kind} (h : binds k ≤ 0) : binds k = 0 := Nat.le_zero.mp h

section
variable {n : Nat} (ih : AllSpec n)
include ih

theorem fn_step : ∀ attrs id anon (s : PS), s.rest ≠ [] → s.rest.length ≤ n + 1 →
    Spec false 1 (fnRest attrs id anon) s (FnG attrs id anon s) (fun _ => Silent s.rest) := by
  intro attrs id anon s hs hn
  rw [fnRest]
  refine sig_spec hs ?_
  intro tl ps ret s1 x1 l1
  obtain ⟨t, r, ht⟩ := rest_cons x1.ne
  refine Spec.kind ht ?_
  split
  · rename_i hk
    refine Spec.seq (ih.block s1 x1.ne (by omega)) (by omega) ?_ ?_
    · rintro _ _ h ⟨g, g1, g2, g3, g4, g5⟩
      rw [g5]
      exact h.app
    · intro ss s2 x2 l2
      refine Spec.pure x2.ne ?_
      rintro _ ⟨lb, ss, rb, b1, b2, b3, b4, b5⟩ ⟨g, g1, g2, g3, g4, g5⟩
      refine .inl ⟨g, lb, ss, rb, ?_, b1, b2, b3, ?_, ?_⟩
      · rw [b5] at g1
        rw [← b1]
        exact g1
      · rw [CSig.node, g2, g3, g4, b4]
      · rw [g5, b5]
  · rename_i hk
    refine Spec.next ht (by rw [hk]; decide) (by omega) ?_
    intro s2 x2 e2
    have l2 : s2.rest.length + 1 ≤ s1.rest.length := by simp [ht, e2]
    refine Spec.seq (ih.expr 0 s2 (by omega) x2.ne (by omega)) (by omega) ?_ ?_
    · rintro _ _ h ⟨g, g1, g2, g3, g4, g5⟩
      rw [g5, ht, ← e2]
      exact (h.cons (by rw [hk]; rfl)).app
    · intro q s3 x3 l3
      refine Spec.pure x3.ne ?_
      rintro _ ⟨e, e1, e4, e3, -, e5, e6⟩ ⟨g, g1, g2, g3, g4, g5⟩
      refine .inr (.inl ⟨g, t, e, ?_, hk, e1, ?_, ?_, binds_zero e5⟩)
      · rw [ht] at g1
        rw [← hk]
        exact g1
      · rw [CSig.node, g2, g3, g4, e4]
      · rw [g5, ht, ← e2, e3]
  · rename_i h1 h2
    cases anon with
    | true =>
      refine Spec.syntaxError x1.ne ?_
      intro s2 x2
      exact (Spec.skip x2.ne (fun u s3 x3 => Spec.pure x3.ne (fun _ => trivial))).mono (by omega)
        (fun _ _ _ _ _ h => h) (fun _ _ h => h)
    | false =>
      refine Spec.pure x1.ne ?_
      rintro _ ⟨g, g1, g2, g3, g4, g5⟩
      refine .inr (.inr ⟨rfl, g, g1, ?_, ?_, ?_, g5⟩)
      · rw [hk_cons ht]; exact h1
      · rw [hk_cons ht]; exact h2
      · rw [CSig.node, g2, g3, g4]

theorem block_step : ∀ (s : PS), s.rest ≠ [] → s.rest.length ≤ n + 1 →
    Spec false 1 parseBlock s (BlkG s) (fun _ => Silent s.rest) := by
  intro s hs hn
  rw [parseBlock]
  refine Spec.need hs (by decide) (by omega) ?_
  intro lb s1 x1 l1
  refine Spec.seq (ih.blockLoop s1 x1.ne (by omega)) (by omega) ?_ ?_
  · rintro _ _ h ⟨k1, e1⟩
    rw [e1]
    exact h.cons
  · intro ss s2 x2 l2
    refine Spec.need x2.ne (by decide) (by omega) ?_
    intro rb s3 x3 l3
    refine Spec.pure x3.ne ?_
    rintro _ ⟨k3, e3⟩ ⟨⟨ss, c1, c2, c3⟩, h⟩ ⟨k1, e1⟩
    exact ⟨lb, ss, rb, k1, h ▸ c1, k3, c2, by rw [e1, c3, e3]⟩

theorem blockLoop_step (hS : ∀ (s : PS), s.rest ≠ [] → s.rest.length ≤ n + 1 →
      Spec false 1 parseStatement s (StG s) (fun _ => Silent s.rest)) :
    ∀ (s : PS), s.rest ≠ [] → s.rest.length ≤ n + 1 →
    Spec false 0 blockLoop s (fun n s' => SsG s n s' ∧ s'.hk = .rbrace) (fun _ => Silent s.rest) := by
  intro s hs hn
  obtain ⟨t, r, ht⟩ := rest_cons hs
  rw [blockLoop]
  refine Spec.is ht ?_
  split
  · refine Spec.seq (hS s hs hn) (by omega) (fun _ _ h => h) ?_
    intro q s1 x1 l1
    refine Spec.seq (ih.blockLoop s1 x1.ne (by omega)) (by omega) ?_ ?_
    · rintro _ _ h ⟨c, c1, c2, c3⟩
      rw [c3]
      exact h.app
    · intro qs s2 x2 l2
      refine Spec.pure x2.ne ?_
      rintro _ ⟨⟨ss, d1, d2, d3⟩, h⟩ ⟨c, c1, c2, c3⟩
      refine ⟨⟨.cons c ss, ?_, ?_, ?_⟩, h⟩
      · simp only [CSs.Wf]
        exact ⟨hk_app d3 s2.hk rfl ▸ c1, d1⟩
      · simp only [CSs.nodes, c2, d2]
      · rw [c3, d3]
        simp [CSs.toks]
  · rename_i hk
    refine Spec.pure hs ?_
    intro _
    refine ⟨⟨.nil, by simp [CSs.Wf], rfl, rfl⟩, ?_⟩
    rw [hk_cons ht]
    simpa using hk

theorem caseStmts_step (hS : ∀ (s : PS), s.rest ≠ [] → s.rest.length ≤ n + 1 →
      Spec false 1 parseStatement s (StG s) (fun _ => Silent s.rest)) :
    ∀ (s : PS), s.rest ≠ [] → s.rest.length ≤ n + 1 →
    Spec false 0 caseStmts s (fun n s' => SsG s n s' ∧ (s'.hk = .rbrace ∨ s'.hk = .case)) (fun _ => Silent s.rest) := by
  intro s hs hn
  obtain ⟨t, r, ht⟩ := rest_cons hs
  rw [caseStmts]
  refine Spec.is ht ?_
  refine Spec.is ht ?_
  split
  · refine Spec.seq (hS s hs hn) (by omega) (fun _ _ h => h) ?_
    intro q s1 x1 l1
    refine Spec.seq (ih.caseStmts s1 x1.ne (by omega)) (by omega) ?_ ?_
    · rintro _ _ h ⟨c, c1, c2, c3⟩
      rw [c3]
      exact h.app
    · intro qs s2 x2 l2
      refine Spec.pure x2.ne ?_
      rintro _ ⟨⟨ss, d1, d2, d3⟩, h⟩ ⟨c, c1, c2, c3⟩
      refine ⟨⟨.cons c ss, ?_, ?_, ?_⟩, h⟩
      · simp only [CSs.Wf]
        exact ⟨hk_app d3 s2.hk rfl ▸ c1, d1⟩
      · simp only [CSs.nodes, c2, d2]
      · rw [c3, d3]
        simp [CSs.toks]
  · rename_i hk
    refine Spec.pure hs ?_
    intro _
    refine ⟨⟨.nil, by simp [CSs.Wf], rfl, rfl⟩, ?_⟩
    rw [hk_cons ht]
    simp only [Bool.and_eq_true, Bool.not_eq_true', beq_eq_false_iff_ne, not_and, Decidable.not_not] at hk
    by_cases h : t.kind = .case
    · exact .inr h
    · exact .inl (hk h)

theorem caseLoop_step : ∀ (s : PS), s.rest ≠ [] → s.rest.length ≤ n + 1 →
    Spec false 0 caseLoop s (fun n s' => ∃ c : CCs, c.Wf ∧ c.nodes = n ∧ s.rest = c.toks ++ s'.rest ∧ s'.hk = .rbrace)
      (fun _ => Silent s.rest) := by
  intro s hs hn
  obtain ⟨t, r, ht⟩ := rest_cons hs
  rw [caseLoop]
  refine Spec.is ht ?_
  split
  · refine Spec.need hs (by decide) (by omega) ?_
    intro c s1 x1 l1
    refine Spec.need x1.ne (by decide) (by omega) ?_
    intro id s2 x2 l2
    refine Spec.seq (parseIdentifiers_spec x2.ne) (by omega) (fun _ _ h => h.elim) ?_
    intro ids s3 x3 l3
    refine Spec.need x3.ne (by decide) (by omega) ?_
    intro co s4 x4 l4
    refine Spec.seq (ih.caseStmts s4 x4.ne (by omega)) (by omega) ?_ ?_
    · rintro _ _ h ⟨k4, e4⟩ ⟨lp, is, rp, i1, i2, i3, i4, i5⟩ ⟨k2, e2⟩ ⟨k1, e1⟩
      rw [e1, e2, i5, e4]
      exact (((h.cons.cons.app).cons).cons).cons
    · intro ss s5 x5 l5
      refine Spec.seq (ih.caseLoop s5 x5.ne (by omega)) (by omega) ?_ ?_
      · rintro _ _ h ⟨⟨ss, d1, d2, d3⟩, d4⟩ ⟨k4, e4⟩ ⟨lp, is, rp, i1, i2, i3, i4, i5⟩ ⟨k2, e2⟩ ⟨k1, e1⟩
        rw [e1, e2, i5, e4, d3]
        exact (((((h.app).cons).cons.app).cons).cons).cons
      · intro cs s6 x6 l6
        refine Spec.pure x6.ne ?_
        rintro _ ⟨cs, f1, f2, f3, f4⟩ ⟨⟨ss, d1, d2, d3⟩, d4⟩ ⟨k4, e4⟩ ⟨lp, is, rp, i1, i2, i3, i4, i5⟩ ⟨k2, e2⟩ ⟨k1, e1⟩
        refine ⟨.cons c id lp is rp co ss cs, ?_, ?_, ?_, f4⟩
        · simp only [CCs.Wf]
          exact ⟨k1, k2, i1, i2, i3, k4, hk_app f3 .rbrace f4 ▸ d1, f1⟩
        · simp only [CCs.nodes, i4, d2, f2]
        · rw [e1, e2, i5, e4, d3, f3]
          simp [CCs.toks]
  · rename_i hk
    refine Spec.pure hs ?_
    intro _
    refine ⟨.nil, by simp [CCs.Wf], rfl, rfl, ?_⟩
    rw [hk_cons ht]
    simpa using hk

theorem ifChain_step : ∀ (s : PS), s.rest ≠ [] → s.rest.length ≤ n + 1 →
    Spec false 0 ifChain s (fun n s' => ∃ c : CIf, c.Wf s'.hk ∧ c.node = n ∧ s.rest = c.toks ++ s'.rest)
      (fun _ => Silent s.rest) := by
  intro s hs hn
  obtain ⟨t, r, ht⟩ := rest_cons hs
  rw [ifChain]
  refine Spec.is ht ?_
  split
  · refine Spec.need hs (by decide) (by omega) ?_
    intro c s1 x1 l1
    refine Spec.seq (ih.expr 0 s1 (by omega) x1.ne (by omega)) (by omega) ?_ ?_
    · rintro _ _ h ⟨k1, e1⟩
      rw [e1]
      exact h.cons (by rw [k1]; rfl)
    · intro q s2 x2 l2
      refine Spec.seq (ih.block s2 x2.ne (by omega)) (by omega) ?_ ?_
      · rintro _ _ h ⟨e, -, -, e3, -⟩ ⟨k1, e1⟩
        rw [e1, e3]
        exact h.app.cons
      · intro ss s3 x3 l3
        refine Spec.seq (ih.ifChain s3 x3.ne (by omega)) (by omega) ?_ ?_
        · rintro _ _ h ⟨lb, ss, rb, b1, b2, b3, b4, b5⟩ ⟨e, -, -, e3, -⟩ ⟨k1, e1⟩
          rw [e1, e3, b5]
          exact h.cons.app.cons.app.cons
        · intro rr s4 x4 l4
          refine Spec.pure x4.ne ?_
          rintro _ ⟨i, i1, i2, i3⟩ ⟨lb, ss, rb, b1, b2, b3, b4, b5⟩ ⟨e, f1, f2, f3, -⟩ ⟨k1, e1⟩
          refine ⟨.elif c e lb ss rb i, ?_, ?_, ?_⟩
          · simp only [CIf.Wf]
            exact ⟨k1, f1, b1, b2, b3, i1⟩
          · simp only [CIf.node, f2, b4, i2]
          · rw [e1, f3, b5, i3]
            simp [CIf.toks]
  · rename_i h1
    refine Spec.is ht ?_
    split
    · refine Spec.need hs (by decide) (by omega) ?_
      intro c s1 x1 l1
      refine Spec.seq (ih.block s1 x1.ne (by omega)) (by omega) ?_ ?_
      · rintro _ _ h ⟨k1, e1⟩
        rw [e1]
        exact h.cons
      · intro ss s3 x3 l3
        refine Spec.pure x3.ne ?_
        rintro _ ⟨lb, ss, rb, b1, b2, b3, b4, b5⟩ ⟨k1, e1⟩
        refine ⟨.els c lb ss rb, ?_, ?_, ?_⟩
        · simp only [CIf.Wf]
          exact ⟨k1, b1, b2, b3⟩
        · simp only [CIf.node, b4]
        · rw [e1, b5]
          simp [CIf.toks]
    · rename_i h2
      refine Spec.pure hs ?_
      intro _
      refine ⟨.nil, ?_, rfl, rfl⟩
      simp only [CIf.Wf, hk_cons ht]
      exact ⟨by simpa using h1, by simpa using h2⟩

theorem forRange_spec {s : PS} {q : Node} (hs : s.rest ≠ []) (hn : s.rest.length ≤ n) :
    Spec false 0 (forRange q) s (fun q' s' => (q' = q ∧ s'.rest = s.rest ∧ s.hk ≠ .dotdot) ∨
      ∃ (d : Token) (e : CE), d.kind = .dotdot ∧ e.Wf ∧ s.rest = d :: (e.toks ++ s'.rest) ∧
        q' = nd .range d (left := some q) (right := some e.node)) (fun _ => Silent s.rest) := by
  obtain ⟨t, r, ht⟩ := rest_cons hs
  rw [forRange]
  refine Spec.is ht ?_
  split
  · rename_i hk
    have hk : t.kind = .dotdot := by simpa using hk
    refine Spec.next ht (by rw [hk]; decide) (by omega) ?_
    intro s2 x2 e2
    have l2 : s2.rest.length + 1 ≤ s.rest.length := by simp [ht, e2]
    refine Spec.seq (ih.expr 0 s2 (by omega) x2.ne (by omega)) (by omega) ?_ ?_
    · rintro _ _ h
      rw [ht, ← e2]
      exact h.cons (by rw [hk]; rfl)
    · intro q s3 x3 l3
      refine Spec.pure x3.ne ?_
      rintro _ ⟨e, f1, f2, f3, -⟩
      exact .inr ⟨t, e, hk, f1, by rw [ht, ← e2, f3], by rw [f2]⟩
  · rename_i hk
    refine Spec.pure hs (fun _ => .inl ⟨rfl, rfl, ?_⟩)
    rw [hk_cons ht]
    simpa using hk

theorem stmt_step (hE : ∀ p (s : PS), p < 14 → s.rest ≠ [] → s.rest.length ≤ n + 1 →
    Spec false 1 (parseExpr p) s (ExG p s) (fun _ => Broken s.rest)) :
    ∀ (s : PS), s.rest ≠ [] → s.rest.length ≤ n + 1 →
    Spec false 1 parseStatement s (StG s) (fun _ => Silent s.rest) := by
  intro s hs hn
  obtain ⟨t, r, ht⟩ := rest_cons hs
  rw [parseStatement]
  refine Spec.kind ht ?_
  split
  · refine Spec.need hs (by decide) (by omega) ?_
    intro c s1 x1 l1
    obtain ⟨t1, r1, ht1⟩ := rest_cons x1.ne
    refine Spec.kind ht1 ?_
    split
    · rename_i hst
      refine Spec.seq (ih.expr 0 s1 (by omega) x1.ne (by omega)) (by omega) ?_ ?_
      · rintro hcl _ h ⟨k1, e1⟩
        rcases h with ⟨e, he⟩ | h
        · have := hcl.wr
          rw [he] at this
          rw [ht1, List.cons.injEq] at he
          rw [he.1, this.single] at hst
          cases hst
        · rw [e1]
          exact h.cons
      · intro q s2 x2 l2
        refine Spec.pure x2.ne ?_
        rintro _ ⟨e, f1, f2, f3, -, f5, -⟩ ⟨k1, e1⟩
        refine ⟨.ret1 c e, ?_, ?_, ?_⟩
        · simp only [CS.Wf]
          refine ⟨k1, f1, ?_, binds_zero f5⟩
          rw [← hk_app f3 s2.hk rfl, hk_cons ht1, ← isExprStart_starts]
          exact hst
        · simp only [CS.node, f2]
        · rw [e1, f3]
          simp [CS.toks]
    · rename_i hst
      refine Spec.pure x1.ne ?_
      rintro _ ⟨k1, e1⟩
      refine ⟨.ret0 c, ?_, rfl, by rw [e1]; rfl⟩
      simp only [CS.Wf]
      refine ⟨k1, ?_⟩
      rw [hk_cons ht1, ← isExprStart_starts]
      exact Bool.eq_false_iff.mpr hst
  split
  · refine Spec.need hs (by decide) (by omega) ?_
    intro c s1 x1 l1
    refine Spec.seq (ih.expr 0 s1 (by omega) x1.ne (by omega)) (by omega) ?_ ?_
    · rintro _ _ h ⟨k1, e1⟩
      rw [e1]
      exact h.cons (by rw [k1]; rfl)
    · intro q s2 x2 l2
      refine Spec.seq (ih.block s2 x2.ne (by omega)) (by omega) ?_ ?_
      · rintro _ _ h ⟨e, -, -, e3, -⟩ ⟨k1, e1⟩
        rw [e1, e3]
        exact h.app.cons
      · intro ss s3 x3 l3
        refine Spec.pure x3.ne ?_
        rintro _ ⟨lb, ss, rb, b1, b2, b3, b4, b5⟩ ⟨e, f1, f2, f3, -⟩ ⟨k1, e1⟩
        refine ⟨.while_ c e lb ss rb, ?_, ?_, ?_⟩
        · simp only [CS.Wf]
          exact ⟨k1, f1, b1, b2, b3⟩
        · simp only [CS.node, f2, b4]
        · rw [e1, f3, b5]
          simp [CS.toks]
  split
  · refine Spec.need hs (by decide) (by omega) ?_
    intro c s1 x1 l1
    refine Spec.seq (parseIdentifier_spec x1.ne) (by omega) (fun _ _ h => h.elim) ?_
    intro v s2 x2 l2
    refine Spec.need x2.ne (by decide) (by omega) ?_
    intro i s3 x3 l3
    refine Spec.seq (ih.expr 0 s3 (by omega) x3.ne (by omega)) (by omega) ?_ ?_
    · rintro _ _ h ⟨k3, e3⟩ ⟨v, k2, v2, e2⟩ ⟨k1, e1⟩
      rw [e1, e2, e3]
      exact (h.cons (by rw [k3]; rfl)).cons.cons
    · intro q s4 x4 l4
      refine Spec.seq (forRange_spec ih x4.ne (by omega)) (by omega) ?_ ?_
      · rintro _ _ h ⟨e, -, -, e4, -⟩ ⟨k3, e3⟩ ⟨v, k2, v2, e2⟩ ⟨k1, e1⟩
        rw [e1, e2, e3, e4]
        exact h.app.cons.cons.cons
      · intro q' s5 x5 l5
        refine Spec.seq (ih.block s5 x5.ne (by omega)) (by omega) ?_ ?_
        · rintro _ _ h hr ⟨e, -, -, e4, -⟩ ⟨k3, e3⟩ ⟨v, k2, v2, e2⟩ ⟨k1, e1⟩
          obtain ⟨pre, hpre⟩ := (((x1.trans x2).trans x3).trans x4).trans x5 |>.suffix
          rw [hpre]
          exact h.app
        · intro ss s6 x6 l6
          refine Spec.pure x6.ne ?_
          rintro _ ⟨lb, ss, rb, b1, b2, b3, b4, b5⟩ hr ⟨e, f1, f2, f3, -⟩ ⟨k3, e3⟩ ⟨v, k2, v2, e2⟩ ⟨k1, e1⟩
          rcases hr with ⟨rfl, h2, h3⟩ | ⟨d, e', d1, d2, d3, d4⟩
          · refine ⟨.for_ c v i e lb ss rb, ?_, ?_, ?_⟩
            · simp only [CS.Wf]
              exact ⟨k1, k2, k3, f1, b1, b2, b3⟩
            · simp only [CS.node, f2, b4, v2]
            · rw [e1, e2, e3, f3, ← h2, b5]
              simp [CS.toks]
          · refine ⟨.forR c v i e d e' lb ss rb, ?_, ?_, ?_⟩
            · simp only [CS.Wf]
              exact ⟨k1, k2, k3, f1, d1, d2, b1, b2, b3⟩
            · simp only [CS.node, f2, b4, v2, d4]
            · rw [e1, e2, e3, f3, d3, b5]
              simp [CS.toks]
  split
  · refine Spec.need hs (by decide) (by omega) ?_
    intro c s1 x1 l1
    refine Spec.seq (ih.expr 0 s1 (by omega) x1.ne (by omega)) (by omega) ?_ ?_
    · rintro _ _ h ⟨k1, e1⟩
      rw [e1]
      exact h.cons (by rw [k1]; rfl)
    · intro q s2 x2 l2
      refine Spec.seq (ih.block s2 x2.ne (by omega)) (by omega) ?_ ?_
      · rintro _ _ h ⟨e, -, -, e3, -⟩ ⟨k1, e1⟩
        rw [e1, e3]
        exact h.app.cons
      · intro ss s3 x3 l3
        refine Spec.seq (ih.ifChain s3 x3.ne (by omega)) (by omega) ?_ ?_
        · rintro _ _ h ⟨lb, ss, rb, b1, b2, b3, b4, b5⟩ ⟨e, -, -, e3, -⟩ ⟨k1, e1⟩
          rw [e1, e3, b5]
          exact h.cons.app.cons.app.cons
        · intro rr s4 x4 l4
          refine Spec.pure x4.ne ?_
          rintro _ ⟨i, i1, i2, i3⟩ ⟨lb, ss, rb, b1, b2, b3, b4, b5⟩ ⟨e, f1, f2, f3, -⟩ ⟨k1, e1⟩
          refine ⟨.if_ c e lb ss rb i, ?_, ?_, ?_⟩
          · simp only [CS.Wf]
            exact ⟨k1, f1, b1, b2, b3, i1⟩
          · simp only [CS.node, f2, b4, i2]
          · rw [e1, f3, b5, i3]
            simp [CS.toks]
  split
  · rename_i hst
    have hsx : ∀ (e : CE) (s1 : PS), s.rest = e.toks ++ s1.rest → ∀ k, headKind s1.rest .eof = k →
        startsStmtExpr (headKind e.toks k) = true := by
      intro e s1 h k hk
      rw [← hk_app h k hk, hk_cons ht, ← isExprStart_starts]
      exact hst
    refine Spec.seq (hE 0 s (by omega) hs hn) (by omega) ?_ ?_
    · rintro hcl _ (⟨e, he⟩ | h)
      · have := hcl.wr
        rw [he] at this
        rw [ht, List.cons.injEq] at he
        rw [he.1, this.single] at hst
        cases hst
      · exact h
    · intro q s1 x1 l1
      obtain ⟨t1, r1, ht1⟩ := rest_cons x1.ne
      refine Spec.kind ht1 ?_
      split
      · refine Spec.need x1.ne (by decide) (by omega) ?_
        intro c s2 x2 l2
        refine Spec.seq (ih.expr 0 s2 (by omega) x2.ne (by omega)) (by omega) ?_ ?_
        · rintro _ _ h ⟨k2, e2⟩ ⟨e, -, -, e3, -⟩
          rw [e3, e2]
          exact (h.cons (by rw [k2]; rfl)).app
        · intro q' s3 x3 l3
          refine Spec.pure x3.ne ?_
          rintro _ ⟨v, v1, v2, v3, -, v5, -⟩ ⟨k2, e2⟩ ⟨e, f1, f2, f3, -⟩
          refine ⟨.asg e c v, ?_, ?_, ?_⟩
          · simp only [CS.Wf]
            refine ⟨f1, ?_, k2, v1, binds_zero v5⟩
            rw [headKind_any e.toks_ne]
            exact hsx e s1 f3 _ rfl
          · simp only [CS.node, f2, v2]
          · rw [f3, e2, v3]
            simp [CS.toks]
      · refine Spec.need x1.ne (by decide) (by omega) ?_
        intro c s2 x2 l2
        refine Spec.seq (ih.expr 0 s2 (by omega) x2.ne (by omega)) (by omega) ?_ ?_
        · rintro _ _ h ⟨k2, e2⟩ ⟨e, -, -, e3, -⟩
          rw [e3, e2]
          exact (h.cons (by rw [k2]; rfl)).app
        · intro q' s3 x3 l3
          refine Spec.pure x3.ne ?_
          rintro _ ⟨v, v1, v2, v3, -, v5, -⟩ ⟨k2, e2⟩ ⟨e, f1, f2, f3, -⟩
          refine ⟨.das e c v, ?_, ?_, ?_⟩
          · simp only [CS.Wf]
            refine ⟨f1, ?_, k2, v1, binds_zero v5⟩
            rw [headKind_any e.toks_ne]
            exact hsx e s1 f3 _ rfl
          · simp only [CS.node, f2, v2]
          · rw [f3, e2, v3]
            simp [CS.toks]
      · rename_i h1 h2
        refine Spec.pure x1.ne ?_
        rintro _ ⟨e, f1, f2, f3, -, f5, -⟩
        refine ⟨.expr e, ?_, f2, f3⟩
        simp only [CS.Wf]
        exact ⟨f1, hsx e s1 f3 _ rfl, binds_zero f5, by rw [hk_cons ht1]; exact h1, by rw [hk_cons ht1]; exact h2⟩
  split
  · refine Spec.need hs (by decide) (by omega) ?_
    intro c s1 x1 l1
    refine Spec.seq (ih.expr 0 s1 (by omega) x1.ne (by omega)) (by omega) ?_ ?_
    · rintro _ _ h ⟨k1, e1⟩
      rw [e1]
      exact h.cons (by rw [k1]; rfl)
    · intro q s2 x2 l2
      refine Spec.need x2.ne (by decide) (by omega) ?_
      intro lb s3 x3 l3
      refine Spec.seq (ih.caseLoop s3 x3.ne (by omega)) (by omega) ?_ ?_
      · rintro _ _ h ⟨k3, e3⟩ ⟨e, f1, f2, f3, -⟩ ⟨k1, e1⟩
        rw [e1, f3, e3]
        exact h.cons.app.cons
      · intro cs s4 x4 l4
        refine Spec.need x4.ne (by decide) (by omega) ?_
        intro rb s5 x5 l5
        refine Spec.pure x5.ne ?_
        rintro _ ⟨k5, e5⟩ ⟨cs, c1, c2, c3, c4⟩ ⟨k3, e3⟩ ⟨e, f1, f2, f3, -⟩ ⟨k1, e1⟩
        refine ⟨.match_ c e lb cs rb, ?_, ?_, ?_⟩
        · simp only [CS.Wf]
          exact ⟨k1, f1, k3, c1, k5⟩
        · simp only [CS.node, f2, c2]
        · rw [e1, f3, e3, c3, e5]
          simp [CS.toks]
  · refine Spec.syntaxError hs ?_
    intro s2 x2
    exact Spec.skip x2.ne (fun u s3 x3 => Spec.pure x3.ne (fun _ => trivial))

end


theorem allSpec (n : Nat) : AllSpec n := by
  induction n with
  | zero =>
    have h0 : ∀ s : PS, s.rest ≠ [] → s.rest.length ≤ 0 → False := by
      intro s h1 h2
      have := List.length_pos_iff.mpr h1
      omega
    exact ⟨fun p s _ h1 h2 => (h0 s h1 h2).elim, fun p l s _ h1 h2 => (h0 s h1 h2).elim,
      fun f t s h1 h2 => (h0 s h1 h2).elim, fun f l t s h1 h2 => (h0 s h1 h2).elim,
      fun s h1 h2 => (h0 s h1 h2).elim, fun a i n s h1 h2 => (h0 s h1 h2).elim,
      fun s h1 h2 => (h0 s h1 h2).elim, fun s h1 h2 => (h0 s h1 h2).elim,
      fun s h1 h2 => (h0 s h1 h2).elim, fun s h1 h2 => (h0 s h1 h2).elim,
      fun s h1 h2 => (h0 s h1 h2).elim, fun s h1 h2 => (h0 s h1 h2).elim⟩
  | succ n ih =>
    have hE := expr_step ih
    have hEs := exprs_step ih hE
    have hF := fn_step ih
    have hS := stmt_step ih hE
    exact ⟨hE, loop_step ih, pre_step hE hEs hF, inf_step hE hEs, hEs, hF, block_step ih,
      blockLoop_step ih hS, hS, ifChain_step ih, caseLoop_step ih, caseStmts_step ih hS⟩

/-- The rest of a function on any tokens. -/
theorem fnRest_spec {attrs : Attrs} {id : Token} {anon : Bool} {s : PS} (hs : s.rest ≠ []) :
    Spec false 1 (fnRest attrs id anon) s (FnG attrs id anon s) (fun _ => Silent s.rest) :=
  (allSpec _).fn attrs id anon s hs (Nat.le_refl _)

/-! ## Declarations -/

theorem attrs_add (a : Attrs) (v : Bytes) :
    a.add v = { extRet := a.extRet || v == extRetName, rawValues := a.rawValues || v == rawValuesName } := by
  have hne : ¬ extRetName = rawValuesName := attrs_ne
  rw [attrs_add_def]
  by_cases h1 : v = extRetName
  · subst h1
    simp [hne]
  · by_cases h2 : v = rawValuesName
    · subst h2
      simp [h1]
    · rw [if_neg h1, if_neg h2, beq_false_of_ne h1, beq_false_of_ne h2, Bool.or_false, Bool.or_false]

theorem attrLoop_spec {a : Attrs} {s : PS} (hs : s.rest ≠ []) :
    Spec false 1 (attrLoop a) s (fun a' s' => ∃ c : CIds, c.Ne ∧ c.Wf ∧ s.rest = c.toks ++ s'.rest ∧
      a' = { extRet := a.extRet || c.tokens.any (fun t => t.val == extRetName)
             rawValues := a.rawValues || c.tokens.any (fun t => t.val == rawValuesName) }) (fun _ => False) := by
  obtain ⟨n, hn⟩ : ∃ n, s.rest.length ≤ n := ⟨_, Nat.le_refl _⟩
  induction n generalizing s a with
  | zero =>
    have := List.length_pos_iff.mpr hs
    omega
  | succ n ih =>
    rw [attrLoop]
    refine Spec.need hs (by decide) (by omega) ?_
    intro t s1 x1 l1
    refine Spec.seq (spec_accept (by decide) x1.ne) (by omega) (fun _ _ h => h.elim) ?_
    intro b s2 x2 l2
    split
    · rename_i hb
      refine (ih x2.ne (by omega)).mono (by omega) ?_ (fun _ _ h => h.elim)
      rintro _ a' s3 _ _ ⟨c, c1, c2, c3, c4⟩ hacc ⟨k1, e1⟩
      rcases hacc with ⟨-, co, h1, h2⟩ | ⟨h1, -⟩
      · refine ⟨.more t co c, trivial, ⟨k1, h1, c1, c2⟩, by rw [e1, h2, c3]; rfl, ?_⟩
        rw [c4, attrs_add]
        simp [CIds.tokens, Bool.or_assoc]
      · rw [hb] at h1; cases h1
    · rename_i hb
      refine Spec.pure x2.ne ?_
      rintro _ hacc ⟨k1, e1⟩
      rcases hacc with ⟨h1, -⟩ | ⟨-, h1, h2⟩
      · exact absurd h1 hb
      · refine ⟨.one t, trivial, k1, by rw [e1, h1]; rfl, ?_⟩
        rw [attrs_add]
        simp [CIds.tokens]

/-- Attributes were read. -/
def AttrG (s : PS) (a : Attrs) (s' : PS) : Prop :=
  ∃ c : CAttr, c.Wf ∧ c.attrs = a ∧ s.rest = c.toks ++ s'.rest

theorem parseAttributes_spec {s : PS} (hs : s.rest ≠ []) :
    Spec false 0 parseAttributes s (AttrG s) (fun _ => False) := by
  obtain ⟨t, r, ht⟩ := rest_cons hs
  rw [parseAttributes]
  refine Spec.is ht ?_
  split
  · exact Spec.pure hs (fun _ => ⟨.none, trivial, rfl, rfl⟩)
  · refine Spec.need hs (by decide) (by omega) ?_
    intro h s1 x1 l1
    refine Spec.need x1.ne (by decide) (by omega) ?_
    intro lb s2 x2 l2
    rw [optAttrs]
    obtain ⟨t2, r2, ht2⟩ := rest_cons x2.ne
    have : Spec false 0 (do if (!(← is .lbrack)) = true then attrLoop {} else Pure.pure {}) s2
        (fun a s' => (∃ c : CIds, c.Ne ∧ c.Wf ∧ s2.rest = c.toks ++ s'.rest ∧
            a = { extRet := c.tokens.any (fun t => t.val == extRetName)
                  rawValues := c.tokens.any (fun t => t.val == rawValuesName) }) ∨ s'.hk = .lbrack) (fun _ => False) := by
      refine Spec.is ht2 ?_
      split
      · refine (attrLoop_spec x2.ne).mono (by omega) ?_ (fun _ _ h => h)
        rintro _ a s' _ _ ⟨c, c1, c2, c3, c4⟩
        exact .inl ⟨c, c1, c2, c3, by simpa using c4⟩
      · rename_i hk
        refine Spec.pure x2.ne (fun _ => .inr ?_)
        rw [hk_cons ht2]
        simpa using hk
    refine Spec.seq this (by omega) (fun _ _ h => h.elim) ?_
    intro a s3 x3 l3
    refine Spec.need x3.ne (by decide) (by omega) ?_
    intro rb s4 x4 l4
    refine Spec.pure x4.ne ?_
    rintro _ ⟨k4, e4⟩ h3 ⟨k2, e2⟩ ⟨k1, e1⟩
    rcases h3 with ⟨c, c1, c2, c3, c4⟩ | h3
    · refine ⟨.some h lb c rb, ⟨k1, k2, c1, c2, k4⟩, by rw [c4]; rfl, ?_⟩
      rw [e1, e2, c3, e4]
      simp [CAttr.toks]
    · rw [hk_cons e4, k4] at h3
      cases h3

theorem fieldLoop_spec {s : PS} (hs : s.rest ≠ []) :
    Spec false 0 fieldLoop s (fun n s' => ∃ c : CFields, c.Wf ∧ c.nodes = n ∧ s.rest = c.toks ++ s'.rest ∧ s'.hk = .rbrace)
      (fun _ => False) := by
  obtain ⟨n, hn⟩ : ∃ n, s.rest.length ≤ n := ⟨_, Nat.le_refl _⟩
  induction n generalizing s with
  | zero =>
    have := List.length_pos_iff.mpr hs
    omega
  | succ n ih =>
    obtain ⟨t, r, ht⟩ := rest_cons hs
    rw [fieldLoop]
    refine Spec.is ht ?_
    split
    · refine Spec.seq (parseParameter_spec hs) (by omega) (fun _ _ h => h.elim) ?_
      intro q s1 x1 l1
      refine Spec.seq (ih x1.ne (by omega)) (by omega) (fun _ _ h => h.elim) ?_
      intro qs s2 x2 l2
      refine Spec.pure x2.ne ?_
      rintro _ ⟨c, c1, c2, c3, c4⟩ ⟨p, p1, p2, p3⟩
      refine ⟨.cons p c, ⟨?_, c1⟩, ?_, ?_, c4⟩
      · rw [← hk_app c3 .rbrace c4]
        exact p1
      · simp only [CFields.nodes, c2, p2]
      · rw [p3, c3]
        simp [CFields.toks]
    · rename_i hk
      refine Spec.pure hs (fun _ => ⟨.nil, trivial, rfl, rfl, ?_⟩)
      rw [hk_cons ht]
      simpa using hk

theorem enumLoop_spec {id : Token} {s : PS} (hs : s.rest ≠ []) :
    Spec false 0 (enumLoop id) s (fun n s' => ∃ c : CCons, c.Wf ∧ c.nodes id = n ∧ s.rest = c.toks ++ s'.rest ∧ s'.hk = .rbrace)
      (fun _ => False) := by
  obtain ⟨n, hn⟩ : ∃ n, s.rest.length ≤ n := ⟨_, Nat.le_refl _⟩
  induction n generalizing s with
  | zero =>
    have := List.length_pos_iff.mpr hs
    omega
  | succ n ih =>
    obtain ⟨t, r, ht⟩ := rest_cons hs
    rw [enumLoop]
    refine Spec.is ht ?_
    split
    · refine Spec.need hs (by decide) (by omega) ?_
      intro t s1 x1 l1
      refine Spec.seq (parseParameters_spec x1.ne) (by omega) (fun _ _ h => h.elim) ?_
      intro q s2 x2 l2
      refine Spec.seq (ih x2.ne (by omega)) (by omega) (fun _ _ h => h.elim) ?_
      intro qs s3 x3 l3
      refine Spec.pure x3.ne ?_
      rintro _ ⟨c, c1, c2, c3, c4⟩ ⟨lp, p, rp, p1, p2, p3, p4, p5⟩ ⟨k1, e1⟩
      refine ⟨.cons t lp p rp c, ⟨k1, p1, p2, p3, c1⟩, ?_, ?_, c4⟩
      · simp only [CCons.nodes, c2, p4]
      · rw [e1, p5, c3]
        simp [CCons.toks]
    · rename_i hk
      refine Spec.pure hs (fun _ => ⟨.nil, trivial, rfl, rfl, ?_⟩)
      rw [hk_cons ht]
      simpa using hk

/-- A declaration was read after the attributes `a`. -/
def DeclG (s : PS) (attrs : Attrs) (n : Node) (s' : PS) : Prop :=
  ∀ a : CAttr, a.Wf → a.attrs = attrs →
    ∃ d : CD, d.Wf s'.hk ∧ d.node = n ∧ a.toks ++ s.rest = d.toks ++ s'.rest

theorem parseStruct_spec {attrs : Attrs} {s : PS} (hs : s.rest ≠ []) :
    Spec false 1 (parseStruct attrs) s (DeclG s attrs) (fun _ => False) := by
  rw [parseStruct]
  refine Spec.need hs (by decide) (by omega) ?_
  intro t s1 x1 l1
  refine Spec.need x1.ne (by decide) (by omega) ?_
  intro id s2 x2 l2
  refine Spec.seq (typeParams_spec x2.ne) (by omega) (fun _ _ h => h.elim) ?_
  intro tys s3 x3 l3
  refine Spec.need x3.ne (by decide) (by omega) ?_
  intro lb s4 x4 l4
  refine Spec.seq (fieldLoop_spec x4.ne) (by omega) (fun _ _ h => h.elim) ?_
  intro fs s5 x5 l5
  refine Spec.need x5.ne (by decide) (by omega) ?_
  intro rb s6 x6 l6
  refine Spec.pure x6.ne ?_
  rintro _ ⟨k6, e6⟩ ⟨fs, f1, f2, f3, f4⟩ ⟨k4, e4⟩ ⟨tp, t1, t2, t3⟩ ⟨k2, e2⟩ ⟨k1, e1⟩ a a1 a2
  refine ⟨.struct a t id tp lb fs rb, ⟨a1, k1, k2, t1, k4, f1, k6⟩, ?_, ?_⟩
  · simp only [CD.node, a2, t2, f2]
  · rw [e1, e2, t3, e4, f3, e6]
    simp [CD.toks]

theorem parseEnum_spec {attrs : Attrs} {s : PS} (hs : s.rest ≠ []) :
    Spec false 1 (parseEnum attrs) s (DeclG s attrs) (fun _ => False) := by
  rw [parseEnum]
  refine Spec.need hs (by decide) (by omega) ?_
  intro t s1 x1 l1
  refine Spec.need x1.ne (by decide) (by omega) ?_
  intro id s2 x2 l2
  refine Spec.seq (typeParams_spec x2.ne) (by omega) (fun _ _ h => h.elim) ?_
  intro tys s3 x3 l3
  refine Spec.need x3.ne (by decide) (by omega) ?_
  intro lb s4 x4 l4
  refine Spec.seq (enumLoop_spec x4.ne) (by omega) (fun _ _ h => h.elim) ?_
  intro fs s5 x5 l5
  refine Spec.need x5.ne (by decide) (by omega) ?_
  intro rb s6 x6 l6
  refine Spec.pure x6.ne ?_
  rintro _ ⟨k6, e6⟩ ⟨fs, f1, f2, f3, f4⟩ ⟨k4, e4⟩ ⟨tp, t1, t2, t3⟩ ⟨k2, e2⟩ ⟨k1, e1⟩ a a1 a2
  refine ⟨.enum a t id tp lb fs rb, ⟨a1, k1, k2, t1, k4, f1, k6⟩, ?_, ?_⟩
  · simp only [CD.node, a2, t2, f2]
  · rw [e1, e2, t3, e4, f3, e6]
    simp [CD.toks]

theorem parseFn_spec {attrs : Attrs} {s : PS} (hs : s.rest ≠ []) :
    Spec false 1 (parseFn attrs) s (DeclG s attrs) (fun _ => Silent s.rest) := by
  rw [parseFn]
  refine Spec.need hs (by decide) (by omega) ?_
  intro f s1 x1 l1
  refine Spec.need x1.ne (by decide) (by omega) ?_
  intro id s2 x2 l2
  refine (fnRest_spec x2.ne).mono (by omega) ?_ ?_
  · rintro _ q s3 x3 _ h ⟨k2, e2⟩ ⟨k1, e1⟩ a a1 a2
    rcases h with ⟨g, lb, ss, rb, h1, h2, h3, h4, h5, h6⟩ | ⟨g, eq, e, h1, h2, h3, h4, h5, h6⟩ | ⟨-, g, h1, h2, h3, h4, h5⟩
    · refine ⟨.fnB a f id g lb ss rb, ⟨a1, k1, k2, h1, h2, h3, h4⟩, ?_, ?_⟩
      · simp only [CD.node, a2, h5]
      · rw [e1, e2, h6]
        simp [CD.toks]
    · refine ⟨.fnE a f id g eq e, ⟨a1, k1, k2, h1, h2, h3, h6⟩, ?_, ?_⟩
      · simp only [CD.node, a2, h4]
      · rw [e1, e2, h5]
        simp [CD.toks]
    · refine ⟨.fnX a f id g, ⟨a1, k1, k2, h1, h2, h3⟩, ?_, ?_⟩
      · simp only [CD.node, a2, h4]
      · rw [e1, e2, h5]
        simp [CD.toks]
  · rintro _ _ h ⟨k2, e2⟩ ⟨k1, e1⟩
    rw [e1, e2]
    exact h.cons.cons

theorem addRoot_spec {q : Node} {s : PS} (hs : s.rest ≠ []) :
    Spec true 0 (addRoot q) s (fun _ s' => s'.rest = s.rest ∧ s'.root = s.root ++ [q]) (fun _ => False) :=
  ⟨.ok (), { s with root := s.root ++ [q] }, rfl, by simp,
    ⟨⟨[], rfl⟩, hs, ⟨[], by simp, by simp⟩, fun h => h, fun h => by simp at h⟩, by simp,
    fun hcl he => ⟨fun _ _ => ⟨hcl.disc, rfl, rfl⟩, fun ⟨e, h⟩ => by cases h⟩⟩

/-- One declaration was read and added to the root. -/
def TopG (s : PS) (attrs : Attrs) (s' : PS) : Prop :=
  ∀ a : CAttr, a.Wf → a.attrs = attrs →
    ∃ d : CD, d.Wf s'.hk ∧ a.toks ++ s.rest = d.toks ++ s'.rest ∧ s'.root = s.root ++ [d.node]

/-- `Spec` with what the run leaves of the root when it breaks off. -/
theorem decl_add {x : P Node} {attrs : Attrs} {s : PS} {E : PS → Prop}
    (h : Spec false 1 x s (DeclG s attrs) E) (hE : ∀ s', E s' → Silent s.rest) (hs : s.rest ≠ []) :
    Spec true 1 (x >>= addRoot) s (fun _ s' => TopG s attrs s') (fun s' => Silent s.rest ∧ s'.root = s.root) := by
  obtain ⟨r, s1, h1, h2, h3, h4, h5⟩ := h
  have h' : Spec true 1 x s (fun q s' => DeclG s attrs q s' ∧ s'.root = s.root)
      (fun s' => Silent s.rest ∧ s'.root = s.root) :=
    ⟨r, s1, h1, h2, h3.weaken, h4, fun hcl he => ⟨fun a ha => ⟨((h5 hcl he).1 a ha).1,
      ((h5 hcl he).1 a ha).2, h3.root rfl⟩, fun hx => ⟨hE _ ((h5 hcl he).2 hx), h3.root rfl⟩⟩⟩
  refine Spec.seq h' (by omega) (fun _ _ h => h) ?_
  intro q s2 x2 l2
  refine (addRoot_spec x2.ne).mono (Nat.le_refl _) ?_ (fun _ _ h => h.elim)
  rintro _ _ s3 x3 _ ⟨e3, r3⟩ ⟨hd, hr⟩ a a1 a2
  obtain ⟨d, d1, d2, d3⟩ := hd a a1 a2
  refine ⟨d, ?_, by rw [d3, e3], by rw [r3, hr, d2]⟩
  unfold PS.hk at d1 ⊢
  rw [e3]
  exact d1

theorem topDecl_spec {attrs : Attrs} {s : PS} (hs : s.rest ≠ []) :
    Spec true 1 (topDecl attrs) s (fun _ s' => TopG s attrs s') (fun s' => Silent s.rest ∧ s'.root = s.root) := by
  obtain ⟨t, r, ht⟩ := rest_cons hs
  rw [topDecl]
  refine Spec.kind ht ?_
  split
  · exact decl_add (parseFn_spec hs) (fun _ h => h) hs
  · exact decl_add (parseStruct_spec hs) (fun _ h => h.elim) hs
  · exact decl_add (parseEnum_spec hs) (fun _ h => h.elim) hs
  · refine Spec.syntaxError hs ?_
    intro s2 x2
    exact Spec.skip x2.ne (fun u s3 x3 => Spec.pure x3.ne (fun _ => trivial))

/-- What `Parse` did with a file without errors: it read the declarations `ds`, and either nothing
is left or the input breaks off. -/
def FileG (s s' : PS) (whole : Bool) : Prop :=
  ∃ ds : List CD, s'.root = s.root ++ ds.map CD.node ∧ ∃ rest, s.rest = fileToks ds ++ rest ∧
    FileWf ds (headKind rest .eof) ∧ (if whole then ∃ e, rest = [e] ∧ e.kind = .eof else Silent rest)

theorem topLoop_spec {s : PS} (hs : s.rest ≠ []) :
    Spec true 0 topLoop s (fun _ s' => FileG s s' true) (fun s' => FileG s s' false) := by
  obtain ⟨n, hn⟩ : ∃ n, s.rest.length ≤ n := ⟨_, Nat.le_refl _⟩
  induction n generalizing s with
  | zero =>
    have := List.length_pos_iff.mpr hs
    omega
  | succ n ih =>
    obtain ⟨t, r, ht⟩ := rest_cons hs
    rw [topLoop]
    refine Spec.is ht ?_
    split
    · have hat : Spec true 0 parseAttributes s (fun a s' => AttrG s a s' ∧ s'.root = s.root) (fun _ => False) := by
        obtain ⟨r, s1, h1, h2, h3, h4, h5⟩ := parseAttributes_spec hs
        exact ⟨r, s1, h1, h2, h3.weaken, h4, fun hcl he => ⟨fun a ha => ⟨((h5 hcl he).1 a ha).1,
          ((h5 hcl he).1 a ha).2, h3.root rfl⟩, (h5 hcl he).2⟩⟩
      refine Spec.seq hat (by omega) (fun _ _ h => h.elim) ?_
      intro at_ s1 x1 l1
      refine Spec.seq (topDecl_spec x1.ne) (by omega) ?_ ?_
      · rintro _ s2 ⟨h, hr⟩ ⟨⟨a, a1, a2, a3⟩, ra⟩
        refine ⟨[], by rw [hr, ra]; simp, s.rest, rfl, trivial, ?_⟩
        simp only [Bool.false_eq_true, if_false]
        rw [a3]
        exact h.app
      · intro _ s2 x2 l2
        refine (ih x2.ne (by omega)).mono (Nat.le_refl _) ?_ ?_
        · rintro _ _ s3 _ _ ⟨ds, r3, rest, e3, w3, h3⟩ hd ⟨⟨a, a1, a2, a3⟩, ra⟩
          obtain ⟨d, d1, d2, d3⟩ := hd a a1 a2
          refine ⟨d :: ds, by rw [r3, d3, ra]; simp, rest, by rw [a3, d2, e3]; simp [fileToks], ⟨?_, w3⟩, h3⟩
          rw [← hk_app e3 _ rfl]
          exact d1
        · rintro _ s3 ⟨ds, r3, rest, e3, w3, h3⟩ hd ⟨⟨a, a1, a2, a3⟩, ra⟩
          obtain ⟨d, d1, d2, d3⟩ := hd a a1 a2
          refine ⟨d :: ds, by rw [r3, d3, ra]; simp, rest, by rw [a3, d2, e3]; simp [fileToks], ⟨?_, w3⟩, h3⟩
          rw [← hk_app e3 _ rfl]
          exact d1
    · rename_i hk
      have hk : t.kind = .eof := by simpa using hk
      refine Spec.pure hs ?_
      intro hcl
      refine ⟨[], by simp, s.rest, rfl, trivial, ?_⟩
      simp only [if_true]
      have := hcl.wr
      rw [ht] at this ⊢
      rw [this.eof hk]
      exact ⟨t, rfl, hk⟩

/-- `Parse` always ends with the panic of `next` at `EOF`. -/
theorem parseBody_spec {s : PS} (hs : s.rest ≠ []) :
    Spec true 0 parseBody s (fun _ s' => False) (fun s' => FileG s s' true ∨ FileG s s' false) := by
  rw [parseBody]
  refine Spec.seq (topLoop_spec hs) (by omega) (fun _ _ h => .inr h) ?_
  intro _ s1 x1 l1
  have hnd : Spec true 1 (need .eof) s1 (fun _ _ => False) (fun s' => s'.root = s1.root) := by
    obtain ⟨r, s2, h1, h2, h3, h4, h5⟩ := spec_need (tp := false) (k := .eof) x1.ne
    refine ⟨r, s2, h1, h2, h3.weaken, h4, fun hcl he => ⟨fun a ha => ⟨((h5 hcl he).1 a ha).1, ?_⟩, fun hx => h3.root rfl⟩⟩
    obtain ⟨k, e⟩ := ((h5 hcl he).1 a ha).2
    have := hcl.wr
    rw [e] at this
    exact h3.ne (this.eof k)
  refine Spec.seq hnd (by omega) ?_ ?_
  · rintro _ s2 hr ⟨ds, r3, rest, e3, w3, h3⟩
    simp only [if_true] at h3
    exact .inl ⟨ds, hr.trans r3, rest, e3, w3, h3⟩
  · intro _ s2 x2 l2
    refine Spec.pure x2.ne (fun _ h => h.elim)

end Clara.Parse
