import Verif.Sema.Paths
/-
C85: the files that a compilation writes.
-/
namespace Clara.Props
open Clara.Path

/-! ### Specification: which file a name stands for -/

/-- A directory or file is the list of the names from it up to the root; there are no links.  One part of a name, seen from `d`. -/
def stepFile (d : List Path.Txt) (c : Path.Txt) : List Path.Txt :=
  if c = [] ∨ c = ['.'] then d else if c = ['.', '.'] then d.tail else c :: d

/-- The file that a name stands for in the directory `cwd`. -/
def fileOf (cwd : List Path.Txt) (p : Path.Txt) : List Path.Txt := (parts p).foldl stepFile (if p.head? = some '/' then [] else cwd)

/-- A name of a file in a directory. -/
def Name (c : Path.Txt) : Prop := '/' ∉ c ∧ c ≠ [] ∧ c ≠ ['.'] ∧ c ≠ ['.', '.']

instance (c : Path.Txt) : Decidable (Name c) := inferInstanceAs (Decidable (_ ∧ _))

/-- A program that can be read: the entry `n` of some directory. -/
def IsFile (p n : Path.Txt) : Prop := Name n ∧ (p = n ∨ ∃ d : Path.Txt, p = d ++ '/' :: n)

/-- The directory of such a program. -/
def dirOf (cwd : List Path.Txt) (p : Path.Txt) : List Path.Txt := (fileOf cwd p).tail

/-- The claim: a compilation writes its two files, and these are none of the files that it reads. -/
def C85_claim : Prop :=
  ∀ (cwd : List Path.Txt) (tmp out prog n : Path.Txt) (libs : List Path.Txt), IsFile prog n →
    ∀ i ∈ prog :: libs, fileOf cwd (outputPath out prog) ≠ fileOf cwd i ∧ fileOf cwd (asmPath tmp prog) ≠ fileOf cwd i

/-- The claim that the output is in its directory. -/
def C85_claim_dir : Prop :=
  ∀ (cwd : List Path.Txt) (out prog n : Path.Txt), IsFile prog n → dirOf cwd (outputPath out prog) = fileOf cwd out

/-- The claim that compilations of different programs can run side by side. -/
def C85_claim_shared : Prop :=
  ∀ (cwd : List Path.Txt) (tmp prog prog' n n' : Path.Txt), IsFile prog n → IsFile prog' n' → fileOf cwd prog ≠ fileOf cwd prog' →
    fileOf cwd (asmPath tmp prog) ≠ fileOf cwd (asmPath tmp prog')

/-! ### Parts -/

theorem parts_ne (p : Path.Txt) : parts p ≠ [] := by
  cases p with
  | nil => simp [parts]
  | cons c cs =>
    rw [parts]
    split
    · simp
    · split <;> simp

theorem parts_append (a b : Path.Txt) : parts (a ++ '/' :: b) = parts a ++ parts b := by
  induction a with
  | nil => simp [parts]
  | cons c a ih =>
    rw [List.cons_append, parts, parts]
    split
    · rw [ih]; rfl
    · rw [ih]
      cases h : parts a with
      | nil => exact absurd h (parts_ne a)
      | cons x xs => rfl

theorem parts_one {n : Path.Txt} (h : '/' ∉ n) : parts n = [n] := by
  induction n with
  | nil => rfl
  | cons c n ih =>
    simp only [List.mem_cons, not_or] at h
    rw [parts, if_neg (fun e => h.1 e.symm), ih h.2]

theorem parts_noslash (p : Path.Txt) : ∀ c ∈ parts p, '/' ∉ c := by
  induction p with
  | nil => simp [parts]
  | cons x p ih =>
    rw [parts]
    split
    · intro c hc
      rcases List.mem_cons.1 hc with rfl | hc
      · simp
      · exact ih c hc
    · rename_i hx
      cases h : parts p with
      | nil => exact absurd h (parts_ne p)
      | cons y ys =>
        intro c hc
        rw [h] at ih
        rcases List.mem_cons.1 hc with rfl | hc
        · have := ih y (by simp)
          simp only [List.mem_cons, not_or]
          exact ⟨fun e => hx e.symm, this⟩
        · exact ih c (by simp [hc])

theorem parts_slashed {ps : List Path.Txt} (h : ∀ c ∈ ps, '/' ∉ c) (hne : ps ≠ []) : parts (slashed ps) = ps := by
  induction ps with
  | nil => exact absurd rfl hne
  | cons c ps ih =>
    cases ps with
    | nil => exact parts_one (h c (by simp))
    | cons d ds =>
      show parts (c ++ '/' :: slashed (d :: ds)) = _
      rw [parts_append, parts_one (h c (by simp)), ih (fun x hx => h x (by simp [hx])) (by simp)]
      rfl

theorem head_append (a b : Path.Txt) (h : a ≠ []) : (a ++ b).head? = a.head? := by
  cases a with
  | nil => exact absurd rfl h
  | cons c a => rfl

theorem fileOf_append (cwd : List Path.Txt) {a : Path.Txt} (b : Path.Txt) (h : a ≠ []) :
    fileOf cwd (a ++ '/' :: b) = (parts b).foldl stepFile (fileOf cwd a) := by
  rw [fileOf, fileOf, parts_append, List.foldl_append, head_append _ _ h]

theorem step_name {c : Path.Txt} (h : Name c) (d : List Path.Txt) : stepFile d c = c :: d := by
  obtain ⟨-, h1, h2, h3⟩ := h
  rw [stepFile, if_neg (by simp [h1, h2]), if_neg h3]

theorem file_name (cwd : List Path.Txt) {n : Path.Txt} (h : Name n) : fileOf cwd n = n :: cwd := by
  have hh : n.head? ≠ some '/' := by
    intro e
    cases n with
    | nil => cases e
    | cons c n =>
      cases e
      exact h.1 (by simp)
  rw [fileOf, if_neg hh, parts_one h.1]
  exact step_name h cwd

theorem file_in (cwd : List Path.Txt) (d : Path.Txt) {n : Path.Txt} (h : Name n) : ∃ t, fileOf cwd (d ++ '/' :: n) = n :: t ∧
    (d ≠ [] → t = fileOf cwd d) := by
  by_cases hd : d = []
  · subst hd
    refine ⟨[], ?_, fun h => absurd rfl h⟩
    show (parts ('/' :: n)).foldl stepFile _ = _
    have : parts ('/' :: n) = [] :: parts n := by simp [parts]
    rw [this, parts_one h.1]
    show stepFile (stepFile [] []) n = _
    exact step_name h []
  · rw [fileOf_append cwd _ hd, parts_one h.1]
    exact ⟨_, step_name h _, fun _ => rfl⟩

theorem file_prog (cwd : List Path.Txt) {p n : Path.Txt} (h : IsFile p n) : fileOf cwd p = n :: dirOf cwd p := by
  obtain ⟨hn, rfl | ⟨d, rfl⟩⟩ := h
  · rw [dirOf, file_name cwd hn]; rfl
  · obtain ⟨t, ht, -⟩ := file_in cwd d hn
    rw [dirOf, ht]; rfl

/-! ### `Clean` -/

theorem cleanStep_ok {rooted : Bool} {st : List Path.Txt} (h : ∀ x ∈ st, '/' ∉ x ∧ x ≠ [] ∧ (x = ['.', '.'] → rooted = false)) {c : Path.Txt} (hc : '/' ∉ c)
    (start : List Path.Txt) (hr : rooted = true → start = []) (hst : ∀ x ∈ st, x ≠ ['.']) :
    (∀ x ∈ cleanStep rooted st c, '/' ∉ x ∧ x ≠ [] ∧ (x = ['.', '.'] → rooted = false)) ∧ (∀ x ∈ cleanStep rooted st c, x ≠ ['.']) ∧
    (cleanStep rooted st c).reverse.foldl stepFile start = stepFile (st.reverse.foldl stepFile start) c := by
  unfold cleanStep
  split
  · rename_i h1
    exact ⟨h, hst, by rw [stepFile, if_pos h1]⟩
  · rename_i h1
    split
    · rename_i h2
      subst h2
      cases st with
      | nil =>
        cases rooted with
        | true =>
          rw [hr rfl]
          exact ⟨by simp, by simp, rfl⟩
        | false => exact ⟨by simp [hc], by simp, rfl⟩
      | cons x t =>
        have hx := h x (by simp)
        have hx1 := hst x (by simp)
        dsimp only
        split
        · rename_i e
          refine ⟨?_, ?_, ?_⟩
          · intro y hy
            rcases List.mem_cons.1 hy with rfl | hy
            · exact ⟨hc, by simp, fun _ => hx.2.2 e⟩
            · exact h y hy
          · intro y hy
            rcases List.mem_cons.1 hy with rfl | hy
            · simp
            · exact hst y hy
          · rw [List.reverse_cons, List.foldl_append]; rfl
        · rename_i e
          refine ⟨fun y hy => h y (by simp [hy]), fun y hy => hst y (by simp [hy]), ?_⟩
          rw [List.reverse_cons, List.foldl_append]
          show _ = stepFile (stepFile _ x) _
          rw [step_name ⟨hx.1, hx.2.1, hx1, e⟩]
          rfl
    · rename_i h2
      refine ⟨?_, ?_, ?_⟩
      · intro y hy
        rcases List.mem_cons.1 hy with rfl | hy
        · exact ⟨hc, fun e => h1 (.inl e), fun e => absurd e h2⟩
        · exact h y hy
      · intro y hy
        rcases List.mem_cons.1 hy with rfl | hy
        · exact fun e => h1 (.inr e)
        · exact hst y hy
      · rw [List.reverse_cons, List.foldl_append]; rfl

theorem cleanFold_ok {rooted : Bool} (start : List Path.Txt) (hr : rooted = true → start = []) (cs : List Path.Txt) (hcs : ∀ c ∈ cs, '/' ∉ c) :
    ∀ st : List Path.Txt, (∀ x ∈ st, '/' ∉ x ∧ x ≠ [] ∧ (x = ['.', '.'] → rooted = false)) → (∀ x ∈ st, x ≠ ['.']) →
      (∀ x ∈ cs.foldl (cleanStep rooted) st, '/' ∉ x ∧ x ≠ []) ∧
      (cs.foldl (cleanStep rooted) st).reverse.foldl stepFile start = cs.foldl stepFile (st.reverse.foldl stepFile start) := by
  induction cs with
  | nil => exact fun st h _ => ⟨fun x hx => ⟨(h x hx).1, (h x hx).2.1⟩, rfl⟩
  | cons c cs ih =>
    intro st h h'
    obtain ⟨h1, h2, h3⟩ := cleanStep_ok h (hcs c (by simp)) start hr h'
    rw [List.foldl_cons, List.foldl_cons, ← h3]
    exact ih (fun c hc => hcs c (by simp [hc])) _ h1 h2

/-- **C85, names.**  `filepath.Clean` gives another name of the same file. -/
theorem C85_clean (cwd : List Path.Txt) (p : Path.Txt) : fileOf cwd (clean p) = fileOf cwd p := by
  obtain ⟨h1, h2⟩ := cleanFold_ok (rooted := isRooted p) (if p.head? = some '/' then [] else cwd)
    (by intro h; rw [if_pos (by simpa [isRooted] using h)]) (parts p) (parts_noslash p) [] (by simp) (by simp)
  rw [List.reverse_nil, List.foldl_nil] at h2
  rw [show fileOf cwd p = (parts p).foldl stepFile (if p.head? = some '/' then [] else cwd) from rfl, ← h2]
  unfold clean
  generalize (parts p).foldl (cleanStep (isRooted p)) [] = st at *
  by_cases hr : isRooted p = true
  · have hp : p.head? = some '/' := by simpa [isRooted] using hr
    simp only [hr, if_true, hp, List.cons_append, List.nil_append, reduceCtorEq, if_false]
    rw [fileOf, if_pos (show ('/' :: slashed st.reverse).head? = some '/' from rfl)]
    have e : parts ('/' :: slashed st.reverse) = [] :: parts (slashed st.reverse) := by simp [parts]
    rw [e, List.foldl_cons, show stepFile [] [] = [] from rfl]
    by_cases hs : st = []
    · subst hs; rfl
    · rw [parts_slashed (fun c hc => (h1 c (by simpa using hc)).1) (by simpa using hs)]
  · have hp : p.head? ≠ some '/' := by simpa [isRooted] using hr
    simp only [hr, hp, if_false, List.nil_append, Bool.false_eq_true]
    by_cases hs : st = []
    · subst hs; rfl
    · have hne : slashed st.reverse ≠ [] ∧ (slashed st.reverse).head? ≠ some '/' := by
        have hr : ∀ x ∈ st.reverse, '/' ∉ x ∧ x ≠ [] := fun x hx => h1 x (by simpa using hx)
        cases hrev : st.reverse with
        | nil => exact absurd (List.reverse_eq_nil_iff.1 hrev) hs
        | cons x t =>
          rw [hrev] at hr
          obtain ⟨hx1, hx2⟩ := hr x (by simp)
          cases x with
          | nil => exact absurd rfl hx2
          | cons a x =>
            cases t <;> simp only [slashed, List.cons_append, List.head?_cons, ne_eq, reduceCtorEq, not_false_eq_true, true_and, Option.some.injEq] <;>
              (rintro rfl; exact hx1 (by simp))
      rw [if_neg hne.1, fileOf, if_neg hne.2, parts_slashed (fun c hc => (h1 c (by simpa using hc)).1) (by simpa using hs)]

/-! ### The name of the program -/

theorem takeWhile_id {q : Char → Bool} {l : Path.Txt} (h : ∀ c ∈ l, q c = true) : l.takeWhile q = l := by
  induction l with
  | nil => rfl
  | cons c l ih => rw [List.takeWhile_cons_of_pos (h c (by simp)), ih (fun x hx => h x (by simp [hx]))]

theorem noslash_rev {n : Path.Txt} (h : '/' ∉ n) : ∀ c ∈ n.reverse, (c != '/') = true := by
  intro c hc
  simp only [bne_iff_ne, ne_eq]
  rintro rfl
  exact h (by simpa using hc)

theorem base_file {p n : Path.Txt} (h : IsFile p n) : base p = n := by
  obtain ⟨⟨hn, hne, -⟩, hp⟩ := h
  have key : ∀ r : Path.Txt, (((n.reverse ++ r).dropWhile (· == '/')) = n.reverse ++ r) := by
    intro r
    cases hr : n.reverse with
    | nil => exact absurd (List.reverse_eq_nil_iff.1 hr) hne
    | cons c t =>
      have : c ≠ '/' := by
        rintro rfl
        have : '/' ∈ n.reverse := by rw [hr]; simp
        exact hn (by simpa using this)
      rw [List.cons_append, List.dropWhile_cons_of_neg (by simpa using this)]
  have all := noslash_rev hn
  unfold base
  rcases hp with rfl | ⟨d, rfl⟩
  · have := key []
    rw [List.append_nil] at this
    rw [if_neg hne]
    simp only [this, takeWhile_id all, List.reverse_reverse, if_neg hne]
  · have e : (d ++ '/' :: n).reverse = n.reverse ++ ('/' :: d.reverse) := by simp
    rw [if_neg (by simp)]
    simp only [e, key, List.takeWhile_append_of_pos all]
    simp [hne]

/-- A name without a dot has no extension; otherwise it is what follows the last dot, with it. -/
theorem ext_none {n : Path.Txt} (h : '/' ∉ n) (hd : '.' ∉ n) : ext n = [] := by
  unfold ext
  simp only [takeWhile_id (noslash_rev h)]
  rw [if_neg (by simpa using hd)]

theorem ext_last {s t : Path.Txt} (h : '/' ∉ s ++ '.' :: t) (hd : '.' ∉ t) : ext (s ++ '.' :: t) = '.' :: t := by
  unfold ext
  simp only [takeWhile_id (noslash_rev h)]
  have e : (s ++ '.' :: t).reverse = t.reverse ++ ('.' :: s.reverse) := by simp
  have ht : ∀ c ∈ t.reverse, (c != '.') = true := by
    intro c hc
    simp only [bne_iff_ne, ne_eq]
    rintro rfl
    exact hd (by simpa using hc)
  rw [e, if_pos (by simp), List.takeWhile_append_of_pos ht]
  simp

theorem trim_append (a b : Path.Txt) : trimSuffix (a ++ b) b = a := by
  rw [trimSuffix, if_pos (by simp)]
  simp

theorem name_none {p n : Path.Txt} (h : IsFile p n) (hd : '.' ∉ n) : progName p = n := by
  rw [progName, base_file h, ext_none h.1.1 hd]
  simp [trimSuffix]

theorem name_last {p s t : Path.Txt} (h : IsFile p (s ++ '.' :: t)) (hd : '.' ∉ t) : progName p = s := by
  rw [progName, base_file h, ext_last h.1.1 hd, trim_append]

theorem out_file (cwd : List Path.Txt) (out : Path.Txt) {m : Path.Txt} (h : Name m) : fileOf cwd (join2 out m) = m :: fileOf cwd out := by
  unfold join2
  split
  · rename_i e
    subst e
    rw [if_neg h.2.1, C85_clean, file_name cwd h]
    rfl
  · rename_i e
    rw [C85_clean, fileOf_append cwd _ e, parts_one h.1]
    exact step_name h _

theorem name_dot {s t : Path.Txt} (h : '/' ∉ s) (ht : '/' ∉ t) (ht' : t ≠ [] ∧ t ≠ ['.']) : Name (s ++ '.' :: t) := by
  refine ⟨by simp [h, ht], by simp, ?_, ?_⟩
  · intro e
    cases s with
    | nil => simp at e; exact ht'.1 e
    | cons c s => cases s <;> simp at e
  · intro e
    cases s with
    | nil => simp at e; exact ht'.2 e
    | cons c s =>
      cases s with
      | nil => simp at e; exact ht'.1 e.2
      | cons d s => cases s <;> simp at e

theorem asm_file (cwd : List Path.Txt) {tmp p : Path.Txt} (ht : tmp ≠ []) (h : '/' ∉ progName p) :
    fileOf cwd (asmPath tmp p) = (progName p ++ ['.', 'S']) :: fileOf cwd tmp := by
  have hn : Name (progName p ++ ['.', 'S']) := name_dot h (by decide) (by decide)
  rw [asmPath, fileOf_append cwd _ ht, parts_one hn.1]
  exact step_name hn _

/-! ### C85 -/

/-- `clara -prog hello`: the program is written over its source. -/
theorem C85_violated : ¬ C85_claim := by
  intro h
  have := (h [] "/tmp".toList ".".toList "hello".toList "hello".toList [] ⟨by decide, .inl rfl⟩ "hello".toList (by simp)).1
  revert this
  decide

/-- `-prog /tmp/a.S`: the source is removed before the assembly is written. -/
theorem C85_violated_asm : ∃ tmp prog n : Path.Txt, IsFile prog n ∧ ∀ cwd, fileOf cwd (asmPath tmp prog) = fileOf cwd prog :=
  ⟨"/tmp".toList, "/tmp/a.S".toList, "a.S".toList, ⟨by decide, .inr ⟨"/tmp".toList, rfl⟩⟩, fun _ => rfl⟩

/-- `-prog map.clara.clara -out lib`: a file of the library is overwritten. -/
theorem C85_violated_lib : ∃ out prog n lib : Path.Txt, IsFile prog n ∧ (∃ s, n = s ++ ".clara".toList) ∧
    lib ∈ libFiles "lib".toList ".clara".toList ["map.clara".toList] ∧ ∀ cwd, fileOf cwd (outputPath out prog) = fileOf cwd lib :=
  ⟨"lib".toList, "map.clara.clara".toList, "map.clara.clara".toList, "lib/map.clara".toList, ⟨by decide, .inl rfl⟩,
    ⟨"map.clara".toList, rfl⟩, by decide, fun _ => rfl⟩

/-- `-prog a/.clara -out bin`: the output is the directory itself. -/
theorem C85_violated_dir : ¬ C85_claim_dir := by
  intro h
  have := h [] "bin".toList "a/.clara".toList ".clara".toList ⟨by decide, .inr ⟨"a".toList, rfl⟩⟩
  revert this
  decide

/-- `a/x.clara` and `b/x.clara` have the same assembly file. -/
theorem C85_violated_shared : ¬ C85_claim_shared := by
  intro h
  have := h [] "/tmp".toList "a/x.clara".toList "b/x.clara".toList "x.clara".toList "x.clara".toList
    ⟨by decide, .inr ⟨"a".toList, rfl⟩⟩ ⟨by decide, .inr ⟨"b".toList, rfl⟩⟩ (by decide)
  revert this
  decide

/-- **C85, a name without a dot.**  The source is overwritten exactly if the output goes to its directory. -/
theorem C85_plain (cwd : List Path.Txt) (tmp out prog n : Path.Txt) (h : IsFile prog n) (hd : '.' ∉ n) (ht : tmp ≠ []) :
    fileOf cwd (outputPath out prog) = n :: fileOf cwd out ∧
    (fileOf cwd (outputPath out prog) = fileOf cwd prog ↔ fileOf cwd out = dirOf cwd prog) ∧
    fileOf cwd (asmPath tmp prog) ≠ fileOf cwd prog := by
  have e := name_none h hd
  have h1 : fileOf cwd (outputPath out prog) = n :: fileOf cwd out := by rw [outputPath, e]; exact out_file cwd out h.1
  refine ⟨h1, ?_, ?_⟩
  · rw [h1, file_prog cwd h]; simp
  · rw [asm_file cwd ht (by rw [e]; exact h.1.1), file_prog cwd h, e]
    simp

/-- **C85, other names.**  The source is not overwritten by the output; the assembly is written over it exactly if it ends in `.S` and is
in the temporary directory. -/
theorem C85_dotted (cwd : List Path.Txt) (tmp out prog s t : Path.Txt) (h : IsFile prog (s ++ '.' :: t)) (hd : '.' ∉ t) (hs : Name s) (ht : tmp ≠ []) :
    fileOf cwd (outputPath out prog) = s :: fileOf cwd out ∧ fileOf cwd (outputPath out prog) ≠ fileOf cwd prog ∧
    fileOf cwd (asmPath tmp prog) = (s ++ ['.', 'S']) :: fileOf cwd tmp ∧
    (fileOf cwd (asmPath tmp prog) = fileOf cwd prog ↔ t = ['S'] ∧ fileOf cwd tmp = dirOf cwd prog) := by
  have e := name_last h hd
  have h1 : fileOf cwd (outputPath out prog) = s :: fileOf cwd out := by rw [outputPath, e]; exact out_file cwd out hs
  have h2 : fileOf cwd (asmPath tmp prog) = (s ++ ['.', 'S']) :: fileOf cwd tmp := by
    rw [asm_file cwd ht (by rw [e]; exact hs.1), e]
  refine ⟨h1, ?_, h2, ?_⟩
  · rw [h1, file_prog cwd h]; simp
  · rw [h2, file_prog cwd h]
    simp [eq_comm]

/-- The proved part of **C85**: for a program `s.clara` whose name has no other dot, both files are where they should be, differ, and are
neither the source nor a file of the library. -/
theorem C85_partial (cwd : List Path.Txt) (tmp out prog s ldir cdir : Path.Txt) (les ces : List Path.Txt)
    (h : IsFile prog (s ++ ".clara".toList)) (hs : '.' ∉ s) (hne : s ≠ []) (ht : tmp ≠ [])
    (hl : ∀ e ∈ les ++ ces, Name e) :
    fileOf cwd (outputPath out prog) = s :: fileOf cwd out ∧ fileOf cwd (asmPath tmp prog) = (s ++ ".S".toList) :: fileOf cwd tmp ∧
    fileOf cwd (outputPath out prog) ≠ fileOf cwd (asmPath tmp prog) ∧
    ∀ i ∈ prog :: (libFiles ldir ".clara".toList les ++ libFiles cdir ".c".toList ces),
      fileOf cwd (outputPath out prog) ≠ fileOf cwd i ∧ fileOf cwd (asmPath tmp prog) ≠ fileOf cwd i := by
  have hn : Name s := by
    refine ⟨fun e => h.1.1 (by simp [e]), hne, ?_, ?_⟩ <;> (rintro rfl; exact hs (by simp))
  obtain ⟨h1, h2, h3, h4⟩ := C85_dotted cwd tmp out prog s "clara".toList h (by decide) hn ht
  refine ⟨h1, h3, ?_, ?_⟩
  · rw [h1, h3]; simp
  intro i hi
  rcases List.mem_cons.1 hi with rfl | hi
  · exact ⟨h2, fun e => absurd (h4.1 e).1 (by decide)⟩
  have lib : ∀ (dir sfx : Path.Txt) (es : List Path.Txt), (∀ e ∈ es, Name e) → '.' ∈ sfx → (∀ u v : Path.Txt, u ++ sfx ≠ v ++ ".S".toList) →
      i ∈ libFiles dir sfx es → fileOf cwd (outputPath out prog) ≠ fileOf cwd i ∧ fileOf cwd (asmPath tmp prog) ≠ fileOf cwd i := by
    intro dir sfx es hes hdot hS hi
    obtain ⟨e, he, rfl⟩ := List.mem_map.1 hi
    obtain ⟨he, hsfx⟩ := List.mem_filter.1 he
    obtain ⟨u, rfl⟩ := List.isSuffixOf_iff_suffix.1 hsfx
    obtain ⟨q, hq, -⟩ := file_in cwd dir (hes _ he)
    rw [h1, h3, hq]
    refine ⟨fun e => ?_, fun e => ?_⟩
    · injection e with e
      exact hs (by rw [e]; simp [hdot])
    · injection e with e
      exact hS _ _ e.symm
  have last : ∀ (a b : Path.Txt) (x y : Char), x ≠ y → ∀ u v : Path.Txt, u ++ (a ++ [x]) ≠ v ++ (b ++ [y]) := by
    intro a b x y hxy u v e
    rw [← List.append_assoc, ← List.append_assoc] at e
    have := (List.append_inj' e rfl).2
    exact hxy (by simpa using this)
  rcases List.mem_append.1 hi with hi | hi
  · exact lib _ _ _ (fun e he => hl e (by simp [he])) (by decide) (last ".clar".toList ".".toList 'a' 'S' (by decide)) hi
  · exact lib _ _ _ (fun e he => hl e (by simp [he])) (by decide) (last ".".toList ".".toList 'c' 'S' (by decide)) hi

/-! ### Examples -/

/-- Names of the same file, and names of others. -/
example : fileOf ["u".toList, "home".toList] "a/../b//./x".toList = ["x".toList, "b".toList, "u".toList, "home".toList] ∧
    clean "a/../b//./x".toList = "b/x".toList ∧ clean "/../x/".toList = "/x".toList ∧ clean "../../x".toList = "../../x".toList ∧
    clean "a/..".toList = ".".toList ∧ clean [] = ".".toList := by decide

example : outputPath "bin/".toList "src/my.prog.clara".toList = "bin/my.prog".toList ∧
    asmPath "/tmp".toList "src/fib.clara".toList = "/tmp/fib.S".toList ∧ base "a/b//".toList = "b".toList ∧ base "//".toList = "/".toList ∧
    ext "a.b/c".toList = [] ∧ ext "a/b.c.d".toList = ".d".toList := by decide

/-- The hypotheses of `C85_partial`. -/
example : IsFile "src/fib.clara".toList ("fib".toList ++ ".clara".toList) ∧ '.' ∉ "fib".toList ∧
    ∀ e ∈ ["map.clara".toList, "list.clara".toList] ++ ["runtime.c".toList], Name e :=
  ⟨⟨by decide, .inr ⟨"src".toList, rfl⟩⟩, by decide, by decide⟩

end Clara.Props
