import Verif.Sema.Messages
import Verif.Sema.Check
import Verif.Props.Parse
/-
**C96.**  Messages with all their values.
-/
namespace Clara.Props
open Clara.Msg
open Clara.Gen (itoa)

/-! ### Specification -/

/-- `out` is the format with its directives, in order, replaced by the texts of the values, none left over on either side. -/
inductive FilledIn : List Char → List Arg → List Char → Prop
  | done : FilledIn [] [] []
  | char {c : Char} {f out : List Char} {as : List Arg} (hc : c ≠ '%') (h : FilledIn f as out) : FilledIn (c :: f) as (c :: out)
  | dir {v : Char} {f out : List Char} {a : Arg} {as : List Arg} (hv : v = 'v' ∨ v = 'd') (h : FilledIn f as out) :
      FilledIn ('%' :: v :: f) (a :: as) (a.text ++ out)

/-- The values of a call: the place of the token, the text of the token if the message is to show it, and the rest. -/
def callValues (c : Call) (t : Tok) (vals : List Arg) : List Arg :=
  .str t.file :: .int t.line :: .int t.pos :: ((if c.val then [.str t.val] else []) ++ vals)

/-- The message of the call is complete, whatever the token and the values. -/
def CompleteMessage (c : Call) : Prop :=
  ∀ (t : Tok) (vals : List Arg), vals.map Arg.kind = c.vals → FilledIn c.msg.format (callValues c t vals) (c.text t vals)

/-- The claim for all calls. -/
def C96_claim : Prop := ∀ c ∈ calls, CompleteMessage c

/-- The message for an element of an array literal names the type that was wanted, that of the first element. -/
def C96_elem_claim : Prop :=
  ∀ (t : Tok) (first elem : List Char), elemError t first elem = semanticError2 .mismatchedTypes t [.typ elem, .typ first]

/-! ### Formats that fit -/

/-- The directives of the format are `%v`, or `%d` for an `int`, one for each of the types. -/
def fitsFmt : List Char → List AKind → Bool
  | [], ks => ks.isEmpty
  | [c], ks => c != '%' && ks.isEmpty
  | c :: d :: t, ks =>
    if c = '%' then
      match ks with
      | [] => false
      | k :: ks => (d == 'v' || (d == 'd' && k == .int)) && fitsFmt t ks
    else fitsFmt (d :: t) ks

theorem fits_filled : ∀ (f : List Char) (as : List Arg), fitsFmt f (as.map Arg.kind) = true → FilledIn f as (sprintfA f as)
  | [], as, h => by
    cases as with
    | nil => exact .done
    | cons a as => simp [fitsFmt] at h
  | [c], as, h => by
    cases as with
    | nil =>
      simp [fitsFmt] at h
      rw [sprintfA, if_neg h]
      exact .char h .done
    | cons a as => simp [fitsFmt] at h
  | c :: d :: t, as, h => by
    by_cases hc : c = '%'
    · subst hc
      cases as with
      | nil => simp [fitsFmt] at h
      | cons a as =>
        simp only [fitsFmt, if_true, List.map_cons, Bool.and_eq_true, Bool.or_eq_true, beq_iff_eq] at h
        have hd : d ≠ '%' := by rcases h.1 with rfl | ⟨rfl, -⟩ <;> decide
        have e : sprintfA ('%' :: d :: t) (a :: as) = a.text ++ sprintfA t as := by
          rw [sprintfA, if_pos rfl, if_neg hd]
          show directive d (some a) ++ sprintfA t as = _
          congr 1
          rcases h.1 with rfl | ⟨rfl, hk⟩
          · rfl
          · cases a with
            | int i => rfl
            | str s => cases hk
            | typ s => cases hk
        rw [e]
        exact .dir (h.1.imp id And.left) (fits_filled t as h.2)
    · simp only [fitsFmt, if_neg hc] at h
      rw [sprintfA, if_neg hc]
      exact .char hc (fits_filled (d :: t) as h)

/-- The types of all values of a call. -/
def Call.kinds (c : Call) : List AKind := [.str, .int, .int] ++ ((if c.val then [.str] else []) ++ c.vals)

theorem fits_complete {c : Call} (h : fitsFmt c.msg.format (Call.kinds c) = true) : CompleteMessage c := by
  intro t vals hv
  have e : c.text t vals = sprintfA c.msg.format (callValues c t vals) := by
    unfold Call.text callValues semanticError semanticError2
    cases c.val <;> rfl
  rw [e]
  apply fits_filled
  have : (callValues c t vals).map Arg.kind = Call.kinds c := by
    unfold callValues Call.kinds
    rw [← hv]
    cases c.val <;> rfl
  rw [this]; exact h

theorem calls_fit : ∀ c ∈ calls, c.msg ≠ .emptyArrayLiteral → fitsFmt c.msg.format (Call.kinds c) = true := by decide +kernel

/-! ### The property -/

/-- Every call but that for an empty array literal. -/
theorem C96_partial : ∀ c ∈ calls, c.msg ≠ .emptyArrayLiteral → CompleteMessage c := fun c hc hm => fits_complete (calls_fit c hc hm)

/-- The message of the parser. -/
theorem C96_syntax (t : Tok) (expected : List Char) :
    FilledIn Id.syntaxErr.format [.str t.file, .int t.line, .int t.pos, .str t.val, .str expected] (syntaxText t expected) := by
  apply fits_filled
  show fitsFmt Id.syntaxErr.format [.str, .int, .int, .str, .str] = true
  decide +kernel

/-- The syntax errors of a file say what was expected: the text is never empty, although not all kinds of tokens have one. -/
theorem C96_expected (ts : List Lex.Token) (h : ts ≠ []) (errs : List Parse.SynErr) (root : List Parse.Node)
    (hp : Parse.parse ts = some (.done errs root)) : ∀ e ∈ errs, e.want.text ≠ [] := by
  obtain ⟨r, s, -, h2, h3, -⟩ := parse_spec ts h
  rw [h2, Option.some.injEq, Parse.Outcome.done.injEq] at hp
  rw [← hp.1]
  exact fun e he => (h3 e he).2

/-- There is such an error for `} EOF`. -/
example : ∃ err errs root, Parse.parse ([tk .rbrace] ++ [tk .eof]) = some (.done (err :: errs) root) ∧ err.want.text ≠ [] := by
  obtain ⟨err, errs, root, h, -⟩ := rbrace_reported
  exact ⟨err, errs, root, h, C96_expected _ (by simp) _ _ h err (by simp)⟩

/-- Three kinds have no text, so that an error that expected them would say nothing. -/
theorem C96_unnamed (k : Lex.Kind) : Parse.kindText k = [] ↔ k = .comment ∨ k = .question ∨ k = .or := by cases k <;> decide

/-- The kinds of tokens. -/
def everyKind : List Lex.Kind := [.err, .rbrace, .lbrace, .rparen, .lparen, .rbrack, .lbrack, .comma, .colon, .dot, .hash, .question, .comment,
  .identifier, .string, .integer, .neg, .plus, .mul, .div, .min, .lgmet, .rgmet, .band, .bor, .bnot, .bxor, .bleft, .bright, .gt, .gte, .lt, .lte,
  .eq, .space, .eol, .eof, .das, .as, .dotdot, .fn, .ret, .if_, .elseif, .else_, .true_, .false_, .not, .and, .or, .struct, .while_, .for_, .in_,
  .enum, .match_, .case, .type]

theorem everyKind_mem (k : Lex.Kind) : k ∈ everyKind := by cases k <;> decide

theorem everyKind_texts : ∀ k ∈ everyKind, ∀ l ∈ everyKind, Parse.kindText k ≠ [] → Parse.kindText k = Parse.kindText l → k = l := by decide +kernel

/-- Kinds with the same text are the same. -/
theorem C96_kinds {k l : Lex.Kind} (hk : Parse.kindText k ≠ []) (h : Parse.kindText k = Parse.kindText l) : k = l :=
  everyKind_texts k (everyKind_mem k) l (everyKind_mem l) hk h

/-- A message filled in is determined by the format and the values. -/
theorem C96_unique {f : List Char} {as : List Arg} {o o' : List Char} (h : FilledIn f as o) (h' : FilledIn f as o') : o = o' := by
  induction h generalizing o' with
  | done => cases h'; rfl
  | char hc h ih =>
    cases h' with
    | char _ h' => rw [ih h']
    | dir _ _ => exact absurd rfl hc
  | dir hv h ih =>
    cases h' with
    | char hc _ => exact absurd rfl hc
    | dir _ h' => rw [ih h']

theorem filled_noPercent {f : List Char} {as : List Arg} {o : List Char} (h : FilledIn f as o) (ha : ∀ a ∈ as, '%' ∉ a.text) : '%' ∉ o := by
  induction h with
  | done => simp
  | char hc h ih => simp only [List.mem_cons, not_or]; exact ⟨fun e => hc e.symm, ih ha⟩
  | dir hv h ih =>
    rw [List.mem_append, not_or]
    exact ⟨ha _ (by simp), ih (fun a h => ha a (by simp [h]))⟩

theorem loc_filled {f : List Char} {a b c : Arg} {as : List Arg} {o : List Char}
    (h : FilledIn ("%v:%d:%d:".toList ++ f) (a :: b :: c :: as) o) :
    ∃ o', o = a.text ++ ':' :: (b.text ++ ':' :: (c.text ++ ':' :: o')) ∧ FilledIn f as o' := by
  change FilledIn ('%' :: 'v' :: ':' :: '%' :: 'd' :: ':' :: '%' :: 'd' :: ':' :: f) _ _ at h
  cases h with
  | char hc _ => exact absurd rfl hc
  | dir _ h =>
  cases h with
  | char _ h =>
  cases h with
  | char hc _ => exact absurd rfl hc
  | dir _ h =>
  cases h with
  | char _ h =>
  cases h with
  | char hc _ => exact absurd rfl hc
  | dir _ h =>
  cases h with
  | char _ h => exact ⟨_, rfl, h⟩

theorem format_loc (m : Id) : m.format = "%v:%d:%d:".toList ++ m.format.drop 9 := by cases m <;> decide +kernel

/-- The messages begin with the file, the line and the column of the token. -/
theorem C96_place {c : Call} (hc : c ∈ calls) (hm : c.msg ≠ .emptyArrayLiteral) (t : Tok) {vals : List Arg} (hv : vals.map Arg.kind = c.vals) :
    ∃ rest, c.text t vals = t.file ++ ':' :: (itoa t.line ++ ':' :: (itoa t.pos ++ ':' :: rest)) := by
  have h := C96_partial c hc hm t vals hv
  rw [format_loc] at h
  obtain ⟨r, e, -⟩ := loc_filled h
  exact ⟨r, e⟩

/-- There are no complaints of `Sprintf` in them: no `%` that is not in a value. -/
theorem C96_clean {c : Call} (hc : c ∈ calls) (hm : c.msg ≠ .emptyArrayLiteral) (t : Tok) {vals : List Arg} (hv : vals.map Arg.kind = c.vals)
    (ha : ∀ a ∈ callValues c t vals, '%' ∉ a.text) : '%' ∉ c.text t vals := filled_noPercent (C96_partial c hc hm t vals hv) ha

/-- An error is printed with its text as it is. -/
theorem C96_reported (e : List Char) : reported e = " - ".toList ++ (e ++ ['\n']) := rfl

/-! ### The empty array literal -/

/-- The format has no place for the text of the token, which is given to it. -/
theorem C96_empty (t : Tok) :
    semanticError .emptyArrayLiteral t [] =
      semanticError2 .emptyArrayLiteral t [] ++ ("%!(EXTRA string=".toList ++ (t.val ++ [')'])) := by
  show t.file ++ ':' :: (itoa t.line ++ ':' :: (itoa t.pos ++ (": error, empty array literal not allowed ... yet!".toList ++
      ("%!(EXTRA ".toList ++ (("string".toList ++ '=' :: t.val) ++ [')']))))) =
    (t.file ++ ':' :: (itoa t.line ++ ':' :: (itoa t.pos ++ (": error, empty array literal not allowed ... yet!".toList ++ [])))) ++ _
  simp

theorem C96_violated : ¬ C96_claim := by
  intro h
  have := filled_noPercent (h ⟨.typecheck, 542, .emptyArrayLiteral, true, []⟩ (by decide +kernel) ⟨"a.clara".toList, 3, 7, ['[']⟩ [] rfl)
    (by decide +kernel)
  exact absurd this (by decide +kernel)

/-- The call is reached: the checker rejects every empty array literal with that message. -/
theorem C96_reached (D : Sema.Chk.Decls) (n : Nat) (Γ : Sema.Chk.Env) (a : Sema.Chk.Ann) :
    Sema.Chk.chkX D (n + 1) Γ (.arr [] a) = .ok (.arr [] a, [.emptyArray]) := rfl

/-- In `["a", 1]` the `1` is rejected for not being an `int`. -/
theorem C96_violated_elem : ¬ C96_elem_claim := by
  intro h
  have := h ⟨"a.clara".toList, 3, 7, ['1']⟩ "string".toList "int".toList
  exact absurd this (by decide +kernel)

example : elemError ⟨"a.clara".toList, 3, 7, ['1']⟩ "string".toList "int".toList =
    "a.clara:3:7: mismatched types, got 'int', wanted 'int'".toList := by decide +kernel

/-- Array literals of integers have the right message. -/
theorem C96_elem_partial (t : Tok) (elem : List Char) :
    elemError t "int".toList elem = semanticError2 .mismatchedTypes t [.typ elem, .typ "int".toList] := rfl

/-! ### A concrete case -/

example : (⟨.typecheck, 299, .structHasNoField, true, [.str]⟩ : Call) ∈ calls := by decide +kernel

example : Call.text ⟨.typecheck, 299, .structHasNoField, true, [.str]⟩ ⟨"a.clara".toList, 3, 7, "x".toList⟩ [.str "point".toList] =
    "a.clara:3:7: error, field 'x' is not defined in struct 'point'".toList := by decide +kernel

end Clara.Props
