import Verif.Lex.Eval
import Verif.Sema.Pipeline
import Verif.Sema.SafeBridge
import Verif.Sema.FromNodeOk
import Verif.Props.Front
import Verif.Props.Declare
import Verif.Props.CheckTerm
import Verif.Props.NoCrash
set_option linter.unusedVariables false
/-
C66: no source text crashes the compiler.

`front k n hs` (`Verif/Sema/Pipeline.lean`) is `Compile` up to type checking, on what the lexer hands over for each file;
`k` and `n` bound the depth of substitution and of type checking.
-/
namespace Clara.Props
open Clara.Lex Clara.Parse Clara.Sema.Pipe
open Clara.Sema.Dcl (Dcl Tab Item declare TameDcls Layered Identified)
open Clara.Sema.Lit (foldL)
open Clara.Sema.Front (toDcls toDcl fds fd rawDcl)

/-- The lexer, under some schedule, hands this over for the text. -/
def cmHands (u : Uni) (input : Bytes) (h : Handed) : Prop := ∃ s, Sys.Reach u input s ∧ s.cons = .done h

/-- It ends, with errors or with a result. -/
def cmEnds {α : Type} (r : Out α) : Prop := r = .errors ∨ ∃ a, r = .done a

/-- **C66** as claimed: whatever the files are, compilation ends, with errors or with a result, once the bounds are large
enough. -/
def C66_claim : Prop := ∀ (u : Uni), u.Ok → ∀ (files : List Bytes) (hs : List Handed), All₂ (cmHands u) files hs →
  ∃ m, ∀ k n, m ≤ k → m ≤ n → cmEnds (front k n hs)

/-! ### Reading -/

/-- A node that the grammar has a declaration for. -/
def cmNode (n : Node) : Prop := ∃ (c : CD) (q : Kind), c.Wf q ∧ n = c.node

theorem cmFile : ∀ (ds : List CD) (q : Kind), FileWf ds q → ∀ n ∈ ds.map CD.node, cmNode n
  | [], q, h, n, hn => by cases hn
  | d :: ds, q, h, n, hn => by
    rcases List.mem_cons.1 hn with rfl | hn
    · exact ⟨d, _, h.1, rfl⟩
    · exact cmFile ds q h.2 n hn

theorem readFile_ok {u : Uni} {input : Bytes} {h : Handed} (hh : cmHands u input h) :
    readFile h = .errors ∨ ∃ root, readFile h = .done root ∧ ∀ n ∈ root, cmNode n := by
  obtain ⟨s, h1, h2⟩ := hh
  cases h with
  | error t => exact .inl rfl
  | tokens ts =>
    obtain ⟨errs, root, hp, _⟩ := C08_source u input s h1 ts h2
    cases errs with
    | cons e es => exact .inl (by simp [readFile, hp])
    | nil =>
      obtain ⟨ds, rest, _, hw, rfl, _⟩ := C09_partial ts root (handed_wr u input s h1 ts h2).1 hp
      exact .inr ⟨_, by simp [readFile, hp], cmFile ds _ hw⟩

theorem readAll_ok {u : Uni} {files : List Bytes} {hs : List Handed} (h : All₂ (cmHands u) files hs) :
    readAll hs = .errors ∨ ∃ root, readAll hs = .done root ∧ ∀ n ∈ root, cmNode n := by
  induction h with
  | nil => exact .inr ⟨[], rfl, by simp⟩
  | cons hh _ ih =>
    unfold readAll
    rcases readFile_ok hh with h1 | ⟨a, h1, ha⟩ <;> rcases ih with h2 | ⟨b, h2, hb⟩ <;> rw [h1, h2] <;> simp only
    · exact .inl trivial
    · exact .inl trivial
    · exact .inl trivial
    · refine .inr ⟨_, rfl, fun n hn => ?_⟩
      rcases List.mem_append.1 hn with hn | hn
      · exact ha n hn
      · exact hb n hn

theorem nodes_dcls : ∀ (root : List Node), (∀ n ∈ root, cmNode n) → ∀ k,
    ∃ ds, toDcls k (fds root) = some ds ∧ (∀ d ∈ ds, rawDcl d) ∧ Identified ds
  | [], h, k => ⟨[], rfl, by simp, by intro d hd; cases hd⟩
  | n :: root, h, k => by
    obtain ⟨c, q, hw, rfl⟩ := h n (by simp)
    obtain ⟨d, k1, h1, h2, h3⟩ := Clara.Sema.Front.toDcl_ok c q hw k
    obtain ⟨ds, h4, h5, h6⟩ := nodes_dcls root (fun m hm => h m (by simp [hm])) k1
    refine ⟨d :: ds, by simp [Clara.Sema.Front.fds_cons, toDcls, h1, h4], ?_, ?_⟩
    · intro d' hd'
      rcases List.mem_cons.1 hd' with rfl | hd'
      · exact h2
      · exact h5 d' hd'
    · intro d' hd'
      rcases List.mem_cons.1 hd' with rfl | hd'
      · exact h3
      · exact h6 d' hd'

/-- What the files declare; `none`: there are errors before it is known. -/
def cmDeclares (hs : List Handed) (ds : List Dcl) : Prop := ∃ root, readAll hs = .done root ∧ toDcls 0 (fds root) = some ds

/-- **C66**, reading: lexing and parsing end on all files, with errors or with declarations as the following phases need
them; no node lacks what these look at. -/
theorem C66_reads {u : Uni} {files : List Bytes} {hs : List Handed} (h : All₂ (cmHands u) files hs) :
    (∀ k n, front k n hs = .errors) ∨ ∃ ds, cmDeclares hs ds ∧ (∀ d ∈ ds, rawDcl d) ∧ Identified ds := by
  rcases readAll_ok h with h1 | ⟨root, h1, h2⟩
  · exact .inl fun k n => by simp [front, h1]
  · obtain ⟨ds, h3, h4, h5⟩ := nodes_dcls root h2 0
    exact .inr ⟨ds, ⟨root, h1, h3⟩, h4, h5⟩

/-! ### Tame programs -/

theorem analyse_tame {root : List Node} {ds : List Dcl} {case : String → Prop} (hd : toDcls 0 (fds root) = some ds)
    (hr : ∀ d ∈ ds, rawDcl d) (hi : Identified ds) (ht : TameDcls ds case) (k n : Nat) :
    cmEnds (analyse k n root) ∨ analyse k n root = .open_ ∧
      ((∀ rank, ¬ (Layered rank ds ∧ ∀ x tps fs, Dcl.struct x tps fs ∈ ds → rank x < k)) ∨ n = 0 ∨ ∃ f, Dcl.fn f ∈ ds ∧ n ≤ f.body.w) := by
  have hd' : toDcls 0 (foldL root).1 = some ds := hd
  unfold analyse
  simp only [hd']
  cases hq : declare k ds with
  | error s =>
    have h1 : ∀ rank, s = .fuel ∧ ¬ (Layered rank ds ∧ ∀ x tps fs, Dcl.struct x tps fs ∈ ds → rank x < k) := fun rank => by
      have := Clara.Sema.Dcl.declare_okd (k := k) (rank := rank) hi ht
      rw [hq] at this
      exact this
    obtain ⟨rfl, _⟩ := h1 (fun _ => 0)
    exact .inr ⟨rfl, .inl fun rank => (h1 rank).2⟩
  | ok r =>
    obtain ⟨T, items, es⟩ := r
    cases es with
    | cons e es => exact .inl (.inl rfl)
    | nil =>
      simp only
      split
      · exact .inl (.inl rfl)
      · obtain ⟨ts, us, hD⟩ := C65 hi hq
        have hs := Clara.Sema.Chk.chkProg_sf (hD.root_ok ht) n (hD.nice ht (fun f hf => hr _ hf))
        cases hc : Clara.Sema.Chk.chkProg T.decls n T.scope (T.items items) with
        | ok r =>
          obtain ⟨fs, es⟩ := r
          cases es with
          | nil => exact .inl (.inr ⟨_, rfl⟩)
          | cons e es => exact .inl (.inl rfl)
        | error s =>
          rw [hc] at hs
          cases hs
          refine .inr ⟨rfl, .inr ?_⟩
          apply Classical.byContradiction
          intro hno
          refine Clara.Sema.Chk.chkProg_tm T.decls n T.scope (T.items items) (fun g hg => ?_) hc
          obtain ⟨s, hs, hb⟩ := Clara.Sema.Dcl.all₂_mem hD.bodies g hg
          have hs' : s ∈ ds.flatMap Dcl.sigs := by
            rcases List.mem_append.1 hs with hs | hs <;> exact (List.mem_filter.1 hs).1
          obtain ⟨d, hd, hs⟩ := List.mem_flatMap.1 hs'
          have hn0 : 0 < n := by
            apply Classical.byContradiction
            intro h0
            exact hno (.inl (by omega))
          cases d with
          | struct x tps fs => simp [Dcl.sigs] at hs
          | enum x tps cs =>
            simp only [Dcl.sigs] at hs
            obtain ⟨c, hc, rfl⟩ := List.mem_map.1 hs
            rw [hb.body]
            exact hn0
          | fn f =>
            simp only [Dcl.sigs, List.mem_singleton] at hs
            subst hs
            rw [hb.body]
            simp only
            apply Classical.byContradiction
            intro h0
            exact hno (.inr ⟨f, hd, by omega⟩)

theorem cmDeclares_unique {hs : List Handed} {ds ds' : List Dcl} (h : cmDeclares hs ds) (h' : cmDeclares hs ds') : ds' = ds := by
  obtain ⟨root, h1, h2⟩ := h
  obtain ⟨root', h3, h4⟩ := h'
  rw [h1] at h3
  cases h3
  rw [h2] at h4
  cases h4
  rfl

/-- **C66**, the part of it that holds, panics: if the declarations are tame (`Verif/Sema/DeclareTame.lean`), compilation
ends, unless the bounds are too small for it. -/
theorem C66_partial_panic {u : Uni} {files : List Bytes} {hs : List Handed} (h : All₂ (cmHands u) files hs)
    (ht : ∀ ds, cmDeclares hs ds → ∃ case, TameDcls ds case) (k n : Nat) : cmEnds (front k n hs) ∨ front k n hs = .open_ := by
  rcases C66_reads h with h1 | ⟨ds, ⟨root, h1, h2⟩, h3, h4⟩
  · exact .inl (.inl (h1 k n))
  · obtain ⟨case, ht⟩ := ht ds ⟨root, h1, h2⟩
    have := analyse_tame h2 h3 h4 ht k n
    simp only [front, h1]
    rcases this with h5 | ⟨h5, _⟩
    · exact .inl h5
    · exact .inr h5

/-- **C66**, the part of it that holds: if the declarations are tame and no struct is inside of itself, compilation ends. -/
theorem C66_partial {u : Uni} {files : List Bytes} {hs : List Handed} (h : All₂ (cmHands u) files hs)
    (ht : ∀ ds, cmDeclares hs ds → ∃ case rank, TameDcls ds case ∧ Layered rank ds) :
    ∃ m, ∀ k n, m ≤ k → m ≤ n → cmEnds (front k n hs) := by
  rcases C66_reads h with h1 | ⟨ds, ⟨root, h1, h2⟩, h3, h4⟩
  · exact ⟨0, fun k n _ _ => .inl (h1 k n)⟩
  · obtain ⟨case, rank, ht, hl⟩ := ht ds ⟨root, h1, h2⟩
    have hm : ∀ (l : List Dcl), ∃ m, 0 < m ∧ ∀ d ∈ l, (∀ x tps fs, d = Dcl.struct x tps fs → rank x < m) ∧ ∀ f, d = Dcl.fn f → f.body.w < m := by
      intro l
      induction l with
      | nil => exact ⟨1, by omega, by simp⟩
      | cons d l ih =>
        obtain ⟨m, hm0, hm⟩ := ih
        have hd : ∃ e, (∀ x tps fs, d = Dcl.struct x tps fs → rank x < e) ∧ ∀ f, d = Dcl.fn f → f.body.w < e := by
          cases d with
          | struct x tps fs => exact ⟨rank x + 1, by intro _ _ _ h; cases h; omega, by intro _ h; cases h⟩
          | enum x tps cs => exact ⟨0, (by intro _ _ _ h; cases h), (by intro _ h; cases h)⟩
          | fn f => exact ⟨f.body.w + 1, (by intro _ _ _ h; cases h), (by intro _ h; cases h; omega)⟩
        obtain ⟨e, he1, he2⟩ := hd
        refine ⟨m + e, by omega, fun d' hd' => ?_⟩
        rcases List.mem_cons.1 hd' with rfl | hd'
        · exact ⟨fun x tps fs h => by have := he1 x tps fs h; omega, fun f h => by have := he2 f h; omega⟩
        · have := hm d' hd'
          exact ⟨fun x tps fs h => by have := this.1 x tps fs h; omega, fun f h => by have := this.2 f h; omega⟩
    obtain ⟨m, hm0, hm⟩ := hm ds
    refine ⟨m, fun k n hk hn => ?_⟩
    simp only [front, h1]
    rcases analyse_tame h2 h3 h4 ht k n with h5 | ⟨_, h5 | h5 | ⟨f, hf, h5⟩⟩
    · exact h5
    · exact absurd ⟨hl, fun x tps fs hx => by have := (hm _ hx).1 x tps fs rfl; omega⟩ (h5 rank)
    · omega
    · have := (hm _ hf).2 f rfl
      omega

/-- **C66**, code generation: when the phases up to type checking have a result, code generation does not panic, for programs
as in C60. -/
theorem C66_partial_code {u : Uni} {files : List Bytes} {hs : List Handed} (h : All₂ (cmHands u) files hs) {k n : Nat}
    {T : Tab} {items : List Item} {fs : List Clara.Sema.Chk.Fn} (hf : front k n hs = .done (T, items, fs))
    (hq : ∀ f ∈ T.items items, f.body.quiet T.decls) (hs' : ∀ f ∈ fs, f.body.sane)
    (L : Clara.Sema.Chk.TrLib) (ps : List Clara.Sema.Chk.Top) (alloc ioob : String) :
    Clara.Sema.Chk.trProg L T.decls (ps.zip fs) ≠ .error .panic ∧
    ∀ fds, Clara.Sema.Chk.trProg L T.decls (ps.zip fs) = .ok fds → (∀ fd ∈ fds, fd.params.length ≤ 6 ∧ fd.syms.length ≤ 4096) →
      Clara.Gen.Ev.panic ∉ Clara.Gen.genProg alloc ioob fds := by
  rcases C66_reads h with h1 | ⟨ds, ⟨root, h1, h2⟩, h3, h4⟩
  · rw [h1] at hf
    cases hf
  · simp only [front, h1] at hf
    have h2' : toDcls 0 (foldL root).1 = some ds := h2
    unfold analyse at hf
    simp only [h2'] at hf
    split at hf
    · cases hf
    · cases hf
    · cases hf
    · rename_i T' items' hd
      split at hf
      · cases hf
      · split at hf
        · cases hf
        · cases hf
        · cases hf
        · cases hf
        · rename_i fs' hc
          cases hf
          obtain ⟨ts, us, hD⟩ := C65 h4 hd
          refine C60_partial_any alloc ioob (fun f hf => ⟨C65_typed h4 hd f hf, ?_, hq f hf⟩) ⟨n, hc⟩ hs'
          obtain ⟨s, hs, hb⟩ := Clara.Sema.Dcl.all₂_mem hD.bodies f hf
          have hs' : s ∈ ds.flatMap Dcl.sigs := by
            rcases List.mem_append.1 hs with hs | hs <;> exact (List.mem_filter.1 hs).1
          obtain ⟨d, hd, hs⟩ := List.mem_flatMap.1 hs'
          cases d with
          | struct x tps fs => simp [Dcl.sigs] at hs
          | enum x tps cs =>
            simp only [Dcl.sigs] at hs
            obtain ⟨c, hc, rfl⟩ := List.mem_map.1 hs
            rw [hb.body]
            trivial
          | fn f =>
            simp only [Dcl.sigs, List.mem_singleton] at hs
            subst hs
            rw [hb.body]
            exact h3 _ hd

/-! ### Running the lexer and the parser on a text -/

/-- The lexer hands something over. -/
theorem cmHands_exists (u : Uni) (input : Bytes) : cmHands u input (expected (lex u input)) := by
  have key : ∀ (m : Nat) (s : Sys), s.measure ≤ m → Sys.Reach u input s → ∃ s' r, Sys.Reach u input s' ∧ s'.cons = .done r := by
    intro m
    induction m with
    | zero =>
      intro s hm hr
      rcases C06_progress u input s hr with ⟨s', hs⟩ | ⟨_, r, h⟩
      · have := measure_step hs; omega
      · exact ⟨s, r, hr, h⟩
    | succ m ih =>
      intro s hm hr
      rcases C06_progress u input s hr with ⟨s', hs⟩ | ⟨_, r, h⟩
      · have := measure_step hs
        exact ih s' (by omega) (.step hr hs)
      · exact ⟨s, r, hr, h⟩
  obtain ⟨s, r, h1, h2⟩ := key _ (Sys.init input) (Nat.le_refl _) .init
  have := C06_result u input s h1 r h2
  subst this
  exact ⟨s, h1, h2⟩

/-- A text with these tokens, which are these declarations. -/
structure cmText (src : Bytes) (cs : List CD) (ds : List Dcl) where
  e : Token
  eof : e.kind = .eof
  lexes : ∃ n, (lexN asciiUni n ⟨[], [], src⟩).map expected = some (.tokens (fileToks cs ++ [e]))
  wf : FileWf cs .eof
  dcls : toDcls 0 (fds (cs.map CD.node)) = some ds

theorem cmText.hands {src : Bytes} {cs : List CD} {ds : List Dcl} (t : cmText src cs ds) :
    All₂ (cmHands asciiUni) [src] [.tokens (fileToks cs ++ [t.e])] := by
  obtain ⟨n, h⟩ := t.lexes
  rw [Option.map_eq_some_iff] at h
  obtain ⟨ts, h1, h2⟩ := h
  have := cmHands_exists asciiUni src
  rw [show lex asciiUni src = ts from lexN_eq h1, h2] at this
  exact .cons this .nil

theorem cmText.reads {src : Bytes} {cs : List CD} {ds : List Dcl} (t : cmText src cs ds) :
    readAll [.tokens (fileToks cs ++ [t.e])] = .done (cs.map CD.node) := by
  simp [readAll, readFile, parse_file cs t.wf t.eof]

theorem cmText.declares {src : Bytes} {cs : List CD} {ds : List Dcl} (t : cmText src cs ds) :
    cmDeclares [.tokens (fileToks cs ++ [t.e])] ds := ⟨_, t.reads, t.dcls⟩

theorem cmText.front {src : Bytes} {cs : List CD} {ds : List Dcl} (t : cmText src cs ds) (k n : Nat) :
    front k n [.tokens (fileToks cs ++ [t.e])] = analyse k n (cs.map CD.node) := by
  simp only [Clara.Sema.Pipe.front, t.reads]

/-! ### Texts for which it does not end well -/

/-- A token in the first line. -/
def cmTk (k : Kind) (v : String) (p : Nat) : Token := ⟨k, ascii v, p, 1⟩

/-- `enum Foo { A() } struct foo { }`. -/
def cmClash : List CD := [
  .enum .none (cmTk .enum "enum" 0) (cmTk .identifier "Foo" 5) .none (cmTk .lbrace "{" 9)
    (.cons (cmTk .identifier "A" 11) (cmTk .lparen "(" 12) .nil (cmTk .rparen ")" 13) .nil) (cmTk .rbrace "}" 15),
  .struct .none (cmTk .struct "struct" 17) (cmTk .identifier "foo" 24) .none (cmTk .lbrace "{" 28) .nil (cmTk .rbrace "}" 30)]

def cmClashText : cmText (ascii "enum Foo { A() } struct foo { }") cmClash [.enum "Foo" [] [("A", [])], .struct "foo" [] []] where
  e := cmTk .eof "" 31
  eof := rfl
  lexes := ⟨30, by decide +kernel⟩
  wf := by simp [cmClash, FileWf, CD.Wf, CAttr.Wf, CTps.Wf, CCons.Wf, CParams.Wf, CFields.Wf, cmTk]
  dcls := rfl

def cmLg (p : Nat) : Token := ⟨.lgmet, [0xC2, 0xAB], p, 1⟩
def cmRg (p : Nat) : Token := ⟨.rgmet, [0xC2, 0xBB], p, 1⟩
def cmId (v : String) (p : Nat) : Token := cmTk .identifier v p

/-- **C66**, violated by a panic in the processing of declarations: the constructor of `foo` would be called `Foo`, which is
a type. -/
theorem C66_violated_clash : ¬ C66_claim := by
  intro h
  obtain ⟨m, h⟩ := h asciiUni asciiUni_ok _ _ cmClashText.hands
  have h1 := h m m (Nat.le_refl _) (Nat.le_refl _)
  rw [cmClashText.front] at h1
  have h2 : analyse m m (cmClash.map CD.node) = .crash := rfl
  rw [h2] at h1
  rcases h1 with h1 | ⟨a, h1⟩ <;> cases h1

/-- `fn f(unsafe: int) { unsafe() }`. -/
def cmUnsafe : List CD := [
  .fnB .none (cmTk .fn "fn" 0) (cmId "f" 3) ⟨.none, cmTk .lparen "(" 4, .one ⟨cmId "unsafe" 5, cmTk .colon ":" 11, .named (cmId "int" 13)⟩, cmTk .rparen ")" 16, .none⟩
    (cmTk .lbrace "{" 18) (.cons (.expr (.call (.ident (cmId "unsafe" 20)) (cmTk .lparen "(" 26) .nil (cmTk .rparen ")" 27))) .nil) (cmTk .rbrace "}" 29)]

open Clara.Sema.Chk in
def cmUnsafeText : cmText (ascii "fn f(unsafe: int) { unsafe() }") cmUnsafe
    [.fn ⟨"f", ⟨[], [("unsafe", dcTy "int")], none⟩, .block [.expr (.call (ckId "unsafe") [] [] {})], false⟩] where
  e := cmTk .eof "" 30
  eof := rfl
  lexes := ⟨30, by decide +kernel⟩
  wf := by
    simp [cmUnsafe, FileWf, CD.Wf, CAttr.Wf, CTps.Wf, CParams.Wf, CParam.Wf, CTy.Wf, CTy.ends, CSig.Wf, CRet.Wf, CSs.Wf, CS.Wf, CE.Wf, CE.edge, CEs.Wf, headKind, CSs.toks, CE.toks,
      startsStmtExpr, startsType, binds, cmTk, cmId]
  dcls := rfl

/-- **C66**, violated by a panic in type checking: a call of `unsafe` is a call of a function. -/
theorem C66_violated_unsafe : ¬ C66_claim := by
  intro h
  obtain ⟨m, h⟩ := h asciiUni asciiUni_ok _ _ cmUnsafeText.hands
  have h1 := h (m + 5) (m + 5) (by omega) (by omega)
  rw [cmUnsafeText.front] at h1
  have h2 : analyse (m + 5) (m + 5) (cmUnsafe.map CD.node) = .crash := rfl
  rw [h2] at h1
  rcases h1 with h1 | ⟨a, h1⟩ <;> cases h1

/-- `struct a«T» { b: a«T» }`. -/
def cmInside : List CD := [
  .struct .none (cmTk .struct "struct" 0) (cmId "a" 7) (.some (cmLg 8) (.one (.named (cmId "T" 9))) (cmRg 10)) (cmTk .lbrace "{" 12)
    (.cons ⟨cmId "b" 14, cmTk .colon ":" 15, .gen (cmId "a" 17) (cmLg 18) (.one (.named (cmId "T" 19))) (cmRg 20)⟩ .nil) (cmTk .rbrace "}" 22)]

def cmInsideText : cmText (ascii "struct a" ++ [0xC2, 0xAB] ++ ascii "T" ++ [0xC2, 0xBB] ++ ascii " { b: a" ++ [0xC2, 0xAB] ++ ascii "T" ++ [0xC2, 0xBB] ++ ascii " }")
    cmInside [.struct "a" [("T", 0)] [("b", dcOf "a" [dcTy "T"])]] where
  e := cmTk .eof "" 23
  eof := rfl
  lexes := ⟨30, by decide +kernel⟩
  wf := by
    simp [cmInside, FileWf, CD.Wf, CAttr.Wf, CTps.Wf, CTys.Wf, CFields.Wf, CParam.Wf, CTy.Wf, CTy.ends, cmTk, cmId, cmLg, cmRg]
  dcls := rfl

/-- The field of `a` is an `a`. -/
theorem cmInside_subst (T : Tab) (h : T.structs.lookup "a" = some ⟨[("T", 0)], [("b", some (.decl "a"))]⟩) (b : List (Nat × Clara.Sema.Dcl.RTy)) :
    ∀ k, T.subst b k (.decl "a") = .error .fuel
  | 0 => rfl
  | k + 1 => by
    have ih := cmInside_subst T h b k
    simp only [Tab.subst, Clara.Sema.Dcl.substWith, h, Clara.Sema.Dcl.allFields, Except.map, List.map_cons, List.map_nil, Clara.Sema.Dcl.substsWith, List.mapM_cons,
      List.mapM_nil, ih]
    rfl

theorem cmInside_declare (k : Nat) : declare k [.struct "a" [("T", 0)] [("b", dcOf "a" [dcTy "T"])]] = .error .fuel := by
  let T := (Clara.Sema.Dcl.loop Clara.Sema.Dcl.second (Clara.Sema.Dcl.loop Clara.Sema.Dcl.first Tab.std [.struct "a" [("T", 0)] [("b", dcOf "a" [dcTy "T"])]]).1
    [.struct "a" [("T", 0)] [("b", dcOf "a" [dcTy "T"])]]).1
  have h1 : T.inst k [("T", 0)] [] (dcOf "a" [dcTy "T"]) = .error .fuel := by
    show (T.subst [(0, .param 0)] k (.decl "a")).map _ = _
    rw [cmInside_subst T rfl]
    rfl
  have h2 : T.instNode k (.struct "a" [("b", dcOf "a" [dcTy "T"])]) = .error .fuel := by
    show Tab.instFields k "a" [("T", 0)] T [] [("b", dcOf "a" [dcTy "T"])] = _
    simp only [Tab.instFields, h1]
  have h3 : Clara.Sema.Dcl.third k T [.struct "a" [("b", dcOf "a" [dcTy "T"])]] = .error .fuel := by
    simp only [Clara.Sema.Dcl.third, h2]
  unfold declare
  simp only
  rw [if_neg (fun h => h rfl), if_neg (fun h => h rfl)]
  split
  · rename_i s hs
    cases hs.symm.trans h3
    rfl
  · rename_i hs
    cases hs.symm.trans h3

/-- **C66**, violated by a struct inside of itself: there is no bound within which `a«T»` is made. -/
theorem C66_violated_inside : ¬ C66_claim := by
  intro h
  obtain ⟨m, h⟩ := h asciiUni asciiUni_ok _ _ cmInsideText.hands
  have h1 := h m m (Nat.le_refl _) (Nat.le_refl _)
  rw [cmInsideText.front] at h1
  have h2 : analyse m m (cmInside.map CD.node) = .open_ := by
    unfold analyse
    simp only
    rw [show toDcls 0 (foldL (cmInside.map CD.node)).1 = _ from cmInsideText.dcls]
    simp only [cmInside_declare]
  rw [h2] at h1
  rcases h1 with h1 | ⟨a, h1⟩ <;> cases h1

/-! ### A text that meets the conditions -/

/-- `enum opt«T» { Some(v: T) None() } fn get(o: opt«int») int { match o { case Some(x): return x case None(): return 0 } }`. -/
def cmGood : List CD := [
  .enum .none (cmTk .enum "enum" 0) (cmId "opt" 5) (.some (cmLg 8) (.one (.named (cmId "T" 9))) (cmRg 10)) (cmTk .lbrace "{" 12)
    (.cons (cmId "Some" 14) (cmTk .lparen "(" 18) (.one ⟨cmId "v" 19, cmTk .colon ":" 20, .named (cmId "T" 22)⟩) (cmTk .rparen ")" 23)
      (.cons (cmId "None" 25) (cmTk .lparen "(" 29) .nil (cmTk .rparen ")" 30) .nil)) (cmTk .rbrace "}" 32),
  .fnB .none (cmTk .fn "fn" 34) (cmId "get" 37)
    ⟨.none, cmTk .lparen "(" 40, .one ⟨cmId "o" 41, cmTk .colon ":" 42, .gen (cmId "opt" 44) (cmLg 47) (.one (.named (cmId "int" 48))) (cmRg 51)⟩, cmTk .rparen ")" 52,
      .some (.named (cmId "int" 54))⟩
    (cmTk .lbrace "{" 58)
    (.cons (.match_ (cmTk .match_ "match" 60) (.ident (cmId "o" 66)) (cmTk .lbrace "{" 68)
      (.cons (cmTk .case "case" 70) (cmId "Some" 75) (cmTk .lparen "(" 79) (.one (cmId "x" 80)) (cmTk .rparen ")" 81) (cmTk .colon ":" 82)
        (.cons (.ret1 (cmTk .ret "return" 84) (.ident (cmId "x" 91))) .nil)
      (.cons (cmTk .case "case" 93) (cmId "None" 98) (cmTk .lparen "(" 102) .nil (cmTk .rparen ")" 103) (cmTk .colon ":" 104)
        (.cons (.ret1 (cmTk .ret "return" 106) (.lit (cmTk .integer "0" 113))) .nil) .nil)) (cmTk .rbrace "}" 115)) .nil)
    (cmTk .rbrace "}" 117)]

def cmGoodSrc : Bytes := ascii "enum opt" ++ [0xC2, 0xAB] ++ ascii "T" ++ [0xC2, 0xBB] ++ ascii " { Some(v: T) None() } fn get(o: opt" ++ [0xC2, 0xAB] ++ ascii "int" ++ [0xC2, 0xBB] ++
  ascii ") int { match o { case Some(x): return x case None(): return 0 } }"

open Clara.Sema.Chk in
def cmGoodDcls : List Dcl := [
  .enum "opt" [("T", 0)] [("Some", [("v", dcTy "T")]), ("None", [])],
  .fn ⟨"get", ⟨[], [("o", dcOf "opt" [dcTy "int"])], some (dcTy "int")⟩, .block [
    .match_ (ckId "o") [.mk "Some" none [("x", {})] [.ret (ckId "x")], .mk "None" none [] [.ret (.lit (.int 0 true) {})]]], false⟩]

def cmGoodText : cmText cmGoodSrc cmGood cmGoodDcls where
  e := cmTk .eof "" 118
  eof := rfl
  lexes := ⟨90, by decide +kernel⟩
  wf := by
    simp [cmGood, FileWf, CD.Wf, CAttr.Wf, CTps.Wf, CTys.Wf, CCons.Wf, CParams.Wf, CParam.Wf, CTy.Wf, CTy.ends, CSig.Wf, CRet.Wf, CSs.Wf, CS.Wf, CCs.Wf, CIds.Wf, CE.Wf, isLit, headKind, CSs.toks,
      CE.toks, CCs.toks, startsStmtExpr, binds, cmTk, cmId, cmLg, cmRg]
  dcls := rfl

theorem cmGood_tame : ∃ case rank, TameDcls cmGoodDcls case ∧ Layered rank cmGoodDcls := by
  refine ⟨fun x => x = "Some" ∨ x = "None", fun _ => 0, ⟨?_, ?_, ?_, ?_⟩, ?_⟩
  · intro n tps fs h; simp [cmGoodDcls] at h
  · intro n tps cs h
    simp only [cmGoodDcls, List.mem_cons, Dcl.enum.injEq, reduceCtorEq, List.not_mem_nil, or_false] at h
    obtain ⟨rfl, rfl, rfl⟩ := h
    refine ⟨by decide, ?_, ?_⟩
    · intro p hp k hk
      simp only [List.mem_singleton] at hp
      subst hp
      obtain ⟨d, hd, hk⟩ := hk
      simp only [cmGoodDcls, List.mem_cons, List.not_mem_nil, or_false] at hd
      rcases hd with rfl | rfl <;> simp [Dcl.arityOf] at hk
    · simp [Clara.Sema.Chk.TyN.applies, dcTy]
  · intro n tps fs h; simp [cmGoodDcls] at h
  · intro f h
    simp only [cmGoodDcls, List.mem_cons, Dcl.fn.injEq, reduceCtorEq, List.not_mem_nil, or_false, false_or] at h
    subst h
    refine ⟨⟨by simp, ?_, ?_⟩, ?_⟩
    · intro p hp
      simp only [List.mem_singleton] at hp
      subst hp
      refine ⟨by decide, ?_⟩
      simp only [dcOf, dcTy, Clara.Sema.Chk.TyN.applies, Clara.Sema.Chk.appliesAll, and_true]
      exact ⟨_, List.mem_cons_self, by simp [Dcl.arityOf]⟩
    · intro t ht; cases ht; trivial
    · simp [Clara.Sema.Chk.FnBody.tame, Clara.Sema.Chk.tameB, Clara.Sema.Chk.S.tame, Clara.Sema.Chk.tameC, Clara.Sema.Chk.Case.tame, Clara.Sema.Chk.X.tame, ckId]
  · intro n tps fs h; simp [cmGoodDcls] at h

/-- It is tame, no struct is inside of itself, and it is accepted. -/
example : (∃ m, ∀ k n, m ≤ k → m ≤ n → cmEnds (front k n [.tokens (fileToks cmGood ++ [cmGoodText.e])])) ∧
    ∃ r, front 5 9 [.tokens (fileToks cmGood ++ [cmGoodText.e])] = .done r := by
  refine ⟨C66_partial cmGoodText.hands (fun ds hd => ?_), ?_⟩
  · rw [cmDeclares_unique cmGoodText.declares hd]
    exact cmGood_tame
  · rw [cmGoodText.front]
    exact ⟨_, rfl⟩

/-- `fn add(a: int, b: int) int { return a + b }`. -/
def cmAdd : List CD := [
  .fnB .none (cmTk .fn "fn" 0) (cmId "add" 3)
    ⟨.none, cmTk .lparen "(" 6, .more ⟨cmId "a" 7, cmTk .colon ":" 8, .named (cmId "int" 10)⟩ (cmTk .comma "," 13) (.one ⟨cmId "b" 15, cmTk .colon ":" 16, .named (cmId "int" 18)⟩),
      cmTk .rparen ")" 21, .some (.named (cmId "int" 23))⟩
    (cmTk .lbrace "{" 27)
    (.cons (.ret1 (cmTk .ret "return" 29) (.bin (.ident (cmId "a" 36)) (cmTk .plus "+" 38) (.ident (cmId "b" 40)))) .nil)
    (cmTk .rbrace "}" 42)]

open Clara.Sema.Chk in
def cmAddDcls : List Dcl := [
  .fn ⟨"add", ⟨[], [("a", dcTy "int"), ("b", dcTy "int")], some (dcTy "int")⟩, .block [.ret (.bin .add (ckId "a") (ckId "b") {})], false⟩]

def cmAddText : cmText (ascii "fn add(a: int, b: int) int { return a + b }") cmAdd cmAddDcls where
  e := cmTk .eof "" 43
  eof := rfl
  lexes := ⟨60, by decide +kernel⟩
  wf := by
    simp [cmAdd, FileWf, CD.Wf, CAttr.Wf, CTps.Wf, CParams.Wf, CParam.Wf, CTy.Wf, CTy.ends, CSig.Wf, CRet.Wf, CSs.Wf, CS.Wf, CE.Wf, headKind, CSs.toks,
      CE.toks, startsStmtExpr, binds, isBinary, CE.edge, CE.top, CParams.Ne, cmTk, cmId]
  dcls := rfl

open Clara.Sema.Chk in
/-- What is behind type checking is as `C66_partial_code` needs it. -/
example : ∃ T items fs, front 5 9 [.tokens (fileToks cmAdd ++ [cmAddText.e])] = .done (T, items, fs) ∧
    (∀ f ∈ T.items items, f.body.quiet T.decls) ∧ ∀ f ∈ fs, f.body.sane := by
  rw [cmAddText.front]
  refine ⟨_, _, _, rfl, ?_, ?_⟩
  · refine List.forall_mem_cons.2 ⟨?_, fun f hf => (nomatch hf)⟩
    exact ⟨⟨trivial, trivial⟩, trivial⟩
  · refine List.forall_mem_cons.2 ⟨?_, fun f hf => (nomatch hf)⟩
    exact ⟨⟨nofun, trivial, trivial⟩, trivial⟩

end Clara.Props
