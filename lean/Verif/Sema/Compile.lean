set_option linter.unusedVariables false
/-
The sequence of phases of `Compile` (`main.go` 67-170).

A phase is any function on the state `σ` (the tree and the symbol table) that also returns errors; the
phases themselves are modelled elsewhere. Printing, and the file system apart from whether an operation
fails, are left out.
-/
namespace Clara.Sema.Compile

/-- The phases of `Compile`; `E` are errors. -/
structure Phases (σ E : Type) where
  /-- `ioutil.ReadFile` (line 82). -/
  read : String → Except E String
  /-- `lexAndParse` (lines 86, 172-201). -/
  parse : String → σ → List E × σ
  /-- `processTopLevelTypes` (line 93). -/
  topLevel : σ → List E × σ
  /-- `generateStructConstructors` on all nodes (line 99). -/
  constructors : σ → List E × σ
  /-- `foldConstants` on all nodes (lines 100-106). -/
  fold : σ → List E × σ
  /-- `typeCheck` (line 113). -/
  typeCheck : σ → List E × σ
  /-- The rewrites after type checking (lines 119-126), which report nothing. -/
  rewrite : σ → σ
  /-- `os.Create` (line 141). -/
  create : Option E
  /-- `codegen` (line 148). -/
  codegen : σ → Option E
  /-- `gcc` (line 165). -/
  link : Option E

/-- What has happened: a phase ran and reported these errors. -/
inductive Ev (E : Type)
  | read (file : String) (es : List E)
  | parse (file : String) (es : List E)
  | topLevel (es : List E)
  | constructors (es : List E)
  | fold (es : List E)
  | typeCheck (es : List E)
  | create (es : List E)
  | codegen (es : List E)
  | link (es : List E)

def Ev.errs {E : Type} : Ev E → List E
  | .read _ es | .parse _ es | .topLevel es | .constructors es | .fold es | .typeCheck es | .create es | .codegen es | .link es => es

/-- The loop over the files (`main.go` 81-87); it stops only when a file cannot be read.  `es` are the errors
so far, the last component is the error of `ReadFile`. -/
def files {σ E : Type} (P : Phases σ E) : List String → List E → σ → List (Ev E) × List E × σ × Option E
  | [], es, s => ([], es, s, none)
  | f :: fs, es, s =>
    match P.read f with
    | .error e => ([.read f [e]], es, s, some e)
    | .ok code =>
      let r := P.parse code s
      let q := files P fs (es ++ r.1) r.2
      (.read f [] :: .parse f r.1 :: q.1, q.2)

/-- `Compile` (`main.go` 67-170): what happened, whether an output was produced, and the errors returned. -/
def compile {σ E : Type} (P : Phases σ E) (fs : List String) (s : σ) : List (Ev E) × Bool × List E :=
  match files P fs [] s with
  | (tr, _, _, some e) => (tr, false, [e])
  | (tr, es, s, none) =>
    if es ≠ [] then (tr, false, es)
    else
      let r := P.topLevel s
      let es := es ++ r.1
      let tr := tr ++ [.topLevel r.1]
      if es ≠ [] then (tr, false, es)
      else
        let c := P.constructors r.2
        let d := P.fold c.2
        let es := es ++ c.1 ++ d.1
        let tr := tr ++ [.constructors c.1, .fold d.1]
        if es ≠ [] then (tr, false, es)
        else
          let t := P.typeCheck d.2
          let es := es ++ t.1
          let tr := tr ++ [.typeCheck t.1]
          if es ≠ [] then (tr, false, es)
          else
            let s := P.rewrite t.2
            match P.create with
            | some e => (tr ++ [.create [e]], false, [e])
            | none =>
              let tr := tr ++ [.create []]
              match P.codegen s with
              | some e => (tr ++ [.codegen [e]], false, [e])
              | none =>
                let tr := tr ++ [.codegen []]
                match P.link with
                | some e => (tr ++ [.link [e]], false, [e])
                | none => (tr ++ [.link []], true, [])

/-- What the loop over the files does. -/
structure FilesOk {E : Type} (fs : List String) (es es' : List E) (tr : List (Ev E)) (o : Option E) : Prop where
  stop : ∀ e, o = some e → ∃ ev ∈ tr, e ∈ ev.errs
  all : o = none → ∀ f ∈ fs, ∃ x, Ev.parse f x ∈ tr
  kept : ∃ x, es' = es ++ x ∧ (∀ e ∈ x, ∃ ev ∈ tr, e ∈ ev.errs) ∧ (x = [] → o = none → ∀ ev ∈ tr, ev.errs = [])
  kinds : ∀ ev ∈ tr, (∃ f x, ev = .read f x) ∨ ∃ f x, ev = .parse f x

theorem files_errs {σ E : Type} (P : Phases σ E) : ∀ (fs : List String) (es es' : List E) (s s' : σ) (tr : List (Ev E)) (o : Option E),
    files P fs es s = (tr, es', s', o) → FilesOk fs es es' tr o
  | [], es, es', s, s', tr, o, h => by
    simp only [files, Prod.mk.injEq] at h
    obtain ⟨rfl, rfl, rfl, rfl⟩ := h
    exact ⟨by simp, by simp, ⟨[], by simp⟩, by simp⟩
  | f :: fs, es, es', s, s', tr, o, h => by
    simp only [files] at h
    split at h
    · rename_i e _
      simp only [Prod.mk.injEq] at h
      obtain ⟨rfl, rfl, rfl, rfl⟩ := h
      exact ⟨fun e' he => ⟨_, List.mem_singleton.2 rfl, by simp at he; simp [Ev.errs, he]⟩, by simp, ⟨[], by simp⟩, by simp⟩
    · rename_i code _
      rcases hq : files P fs (es ++ (P.parse code s).1) (P.parse code s).2 with ⟨tr1, es1, s1, o1⟩
      rw [hq] at h
      simp only [Prod.mk.injEq] at h
      obtain ⟨rfl, rfl, rfl, rfl⟩ := h
      obtain ⟨i1, i2, ⟨x, i3, i4, i5⟩, i6⟩ := files_errs P fs _ _ _ _ _ _ hq
      refine ⟨?_, ?_, ⟨(P.parse code s).1 ++ x, by rw [i3, List.append_assoc], ?_, ?_⟩, ?_⟩
      · intro e he
        obtain ⟨ev, h1, h2⟩ := i1 e he
        exact ⟨ev, by simp [h1], h2⟩
      · intro ho g hg
        rcases List.mem_cons.1 hg with rfl | hg
        · exact ⟨(P.parse code s).1, by simp⟩
        · obtain ⟨x, hx⟩ := i2 ho g hg
          exact ⟨x, by simp [hx]⟩
      · intro e he
        rcases List.mem_append.1 he with he | he
        · exact ⟨.parse f (P.parse code s).1, by simp, he⟩
        · obtain ⟨ev, h1, h2⟩ := i4 e he
          exact ⟨ev, by simp [h1], h2⟩
      · intro he ho ev hev
        rw [List.append_eq_nil_iff] at he
        simp only [List.mem_cons] at hev
        rcases hev with rfl | rfl | hev
        · rfl
        · exact he.1
        · exact i5 he.2 ho ev hev
      · intro ev hev
        simp only [List.mem_cons] at hev
        rcases hev with rfl | rfl | hev
        · exact .inl ⟨_, _, rfl⟩
        · exact .inr ⟨_, _, rfl⟩
        · exact i6 ev hev

end Clara.Sema.Compile
