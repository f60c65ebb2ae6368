import Verif.Gen.Shape
import Mathlib.Data.List.Nodup
/-
The text of the labels in the assembly output.
-/
namespace Clara.Gen

/-- Names of the helper functions and tables that `codegen` adds to every program (`codegen.go` 124-150,
`genNoGc` 388-392, `typeInfoArray` 311, `typeInfoTable` 320). -/
def helperNames : List String :=
  ["readByte", "readInt", "writeByte", "writeInt", "getFramePointer", "unsafe", "toTaggedInt",
   "toUntaggedInt", "clara_asm_entrypoint", "_noGc", "typeInfoTable", "typeInfoArray"]

/-- The labels of an assembly file.  The root maps of struct and enum types (`struct_…`, `enum_…`, `codegen.go` 239, 271)
are in `Gen/DataLabels.lean`. -/
inductive Sym
  | code (l : Label)
  | helper (s : String)
  /-- string literals, `asm.go` 407 -/
  | lit (n : Nat)
  /-- root maps of frames, `codegen.go` 62 -/
  | map (n : Nat)
  /-- type descriptions, `codegen.go` 282 -/
  | info (n : Nat)
  deriving DecidableEq

/-- `%v` of an `int` that is not negative. -/
def dec (n : Nat) : List Char := Nat.toDigits 10 n

/-- Text of a label of the code (`newLabel`, `asm.go` 431-435; functions; `codegen.go` 424). -/
def Label.text : Label → List Char
  | .loc s n => s.toList ++ '_' :: dec n
  | .fn f => f.toList
  | .ioob => "ioob".toList

def Sym.text : Sym → List Char
  | .code l => l.text
  | .helper s => s.toList
  | .lit n => ".LC".toList ++ dec n
  | .map n => ".SM".toList ++ dec n
  | .info n => "typeInfo_".toList ++ dec n

/-- Number of calls of `NewGcMap` with a root: the number of root maps written. -/
def mapCount (c : List Ev) : Nat :=
  c.countP (fun e => match e with | .data (_ :: _) => true | _ => false)

/-- All labels of the file for a program with `nl` different string literals and `nt` types. -/
def allSyms (alloc ioob : String) (fds : List FnDef) (nl nt : Nat) : List Sym :=
  (labels (genProg alloc ioob fds)).map .code ++ (helperNames.map .helper ++
    ((List.range nl).map .lit ++ ((List.range (mapCount (genProg alloc ioob fds))).map .map ++
      (List.range nt).map .info)))

theorem dec_inj {a b : Nat} (h : dec a = dec b) : a = b := by
  have h1 := Nat.ofDigitChars_ten_toDigits (n := a)
  have h2 := Nat.ofDigitChars_ten_toDigits (n := b)
  rw [← h1, ← h2]
  exact congrArg (fun l => Nat.ofDigitChars 10 l 0) h

/-- Members of the list of labels. -/
def Sym.Ok (f : String → Prop) : Sym → Prop
  | .code (.loc s _) => s ∈ stems
  | .code (.fn g) => f g
  | .helper s => s ∈ helperNames
  | _ => True

/-- A beginning of the text that tells the kinds of labels apart, and the rest of the text. -/
def Sym.split : Sym → String × List Char
  | .code (.loc s n) => (s ++ "_", dec n)
  | .code (.fn g) => ("clara_", g.toList.drop 6)
  | .code .ioob => ("ioob", [])
  | .helper s => if s = "clara_asm_entrypoint" then ("clara_", "asm_entrypoint".toList) else (s, [])
  | .lit n => (".LC", dec n)
  | .map n => (".SM", dec n)
  | .info n => ("typeInfo_", dec n)

def heads : List String :=
  ["clara_", "ioob", ".LC", ".SM", "typeInfo_"] ++ stems.map (· ++ "_") ++
    helperNames.filter (· ≠ "clara_asm_entrypoint")

theorem heads_apart : ∀ p ∈ heads, ∀ q ∈ heads, p.toList <+: q.toList → p = q := by decide

section
variable {f : String → Prop}

theorem Sym.split_head {a : Sym} (ha : a.Ok f) : a.split.1 ∈ heads := by
  cases a with
  | code l =>
    cases l with
    | loc s n =>
      exact List.mem_append_left _ (List.mem_append_right _ (List.mem_map_of_mem ha))
    | fn g => exact (by decide : "clara_" ∈ heads)
    | ioob => decide
  | helper s =>
    simp only [Sym.split]
    split
    · decide
    · rename_i h
      refine List.mem_append_right _ ?_
      rw [List.mem_filter]
      exact ⟨ha, by simpa using h⟩
  | lit n => exact (by decide : ".LC" ∈ heads)
  | map n => exact (by decide : ".SM" ∈ heads)
  | info n => exact (by decide : "typeInfo_" ∈ heads)

theorem text_loc (s : String) (l : List Char) : s.toList ++ '_' :: l = (s ++ "_").toList ++ l := by
  rw [String.toList_append]
  simp

theorem text_fn {g : String} {s : List Char} (hs : g.toList = "clara_".toList ++ s) :
    g.toList = "clara_".toList ++ g.toList.drop 6 := by
  rw [hs, List.drop_left' (by decide : "clara_".toList.length = 6)]

theorem helper_asm : "clara_asm_entrypoint".toList = "clara_".toList ++ "asm_entrypoint".toList := by
  decide

theorem Sym.split_text (hf : ∀ g, f g → ∃ s : List Char, g.toList = "clara_".toList ++ s) {a : Sym}
    (ha : a.Ok f) : a.text = a.split.1.toList ++ a.split.2 := by
  cases a with
  | code l =>
    cases l with
    | loc s n =>
      exact text_loc s (dec n)
    | fn g =>
      obtain ⟨s, hs⟩ := hf g ha
      exact text_fn hs
    | ioob => exact (List.append_nil _).symm
  | helper s =>
    by_cases h : s = "clara_asm_entrypoint"
    · have e : (Sym.helper s).split = ("clara_", "asm_entrypoint".toList) := if_pos h
      rw [e]
      exact (congrArg String.toList h).trans helper_asm
    · have e : (Sym.helper s).split = (s, []) := if_neg h
      rw [e]
      exact (List.append_nil _).symm
  | lit n => rfl
  | map n => rfl
  | info n => rfl

theorem Sym.split_inj (hf : ∀ g, f g → ∃ s : List Char, g.toList = "clara_".toList ++ s)
    (he : ¬ f "clara_asm_entrypoint") {a b : Sym} (ha : a.Ok f) (hb : b.Ok f) (h : a.split = b.split) :
    a = b := by
  have t1 : ∀ s ∈ stems, ∀ s' ∈ stems, s ++ "_" = s' ++ "_" → s = s' := by decide
  have t2 : ∀ s ∈ stems, s ++ "_" ∉ ["clara_", "ioob", ".LC", ".SM", "typeInfo_"] ∧ s ++ "_" ∉ helperNames := by
    decide
  have t3 : ∀ s ∈ helperNames, s ∉ ["clara_", "ioob", ".LC", ".SM", "typeInfo_"] := by decide
  have hh : ∀ s, s ∈ helperNames → (Sym.helper s).split.1 = "clara_" ∨ (Sym.helper s).split.1 ∈ helperNames := by
    intro s hs
    simp only [Sym.split]
    split
    · exact .inl rfl
    · exact .inr hs
  have h1 := congrArg Prod.fst h
  have h2 := congrArg Prod.snd h
  have loc : ∀ {s : String} {n : Nat} {c : Sym}, s ∈ stems → c.Ok f → s ++ "_" = c.split.1 →
      dec n = c.split.2 → Sym.code (.loc s n) = c := by
    intro s n c hs hc e1 e2
    obtain ⟨q1, q2⟩ := t2 s hs
    cases c with
    | code l =>
      cases l with
      | loc s' n' => rw [t1 s hs s' hc e1, dec_inj e2]
      | fn g => exact absurd (by rw [e1]; simp [Sym.split]) q1
      | ioob => exact absurd (by rw [e1]; simp [Sym.split]) q1
    | helper s' =>
      rcases hh s' hc with e | e
      · exact absurd (by rw [e1, e]; simp) q1
      · rw [e1] at q2; exact absurd e q2
    | lit n => exact absurd (by rw [e1]; simp [Sym.split]) q1
    | map n => exact absurd (by rw [e1]; simp [Sym.split]) q1
    | info n => exact absurd (by rw [e1]; simp [Sym.split]) q1
  have fnh : ∀ {g s : String}, f g → s ∈ helperNames → "clara_" = (Sym.helper s).split.1 →
      g.toList.drop 6 = (Sym.helper s).split.2 → False := by
    intro g s hg hs e1 e2
    simp only [Sym.split] at e1 e2
    split at e1
    · rename_i h
      rw [if_pos h] at e2
      obtain ⟨t, ht⟩ := hf g hg
      have : g = "clara_asm_entrypoint" := by
        apply String.toList_inj.1
        rw [ht] at e2 ⊢
        have : t = "asm_entrypoint".toList := by
          rwa [List.drop_left' (by decide : "clara_".toList.length = 6)] at e2
        rw [this]
        decide
      exact he (this ▸ hg)
    · have e1' : "clara_" = s := e1
      have := t3 s hs
      rw [← e1'] at this
      simp at this
  have hlp : ∀ {s p : String}, s ∈ helperNames → p ∈ ["ioob", ".LC", ".SM", "typeInfo_"] →
      p = (Sym.helper s).split.1 → False := by
    intro s p hs hp e
    have hp' : p ≠ "clara_" := by rintro rfl; revert hp; decide
    rcases hh s hs with e' | e'
    · exact hp' (e.trans e')
    · rw [← e] at e'
      refine t3 p e' ?_
      exact List.mem_cons_of_mem _ hp
  cases a with
  | code l =>
    cases l with
    | loc s n => exact loc ha hb h1 h2
    | fn g =>
      cases b with
      | code l =>
        cases l with
        | loc s n => exact (loc hb ha h1.symm h2.symm).symm
        | fn g' =>
          obtain ⟨t, ht⟩ := hf g ha
          obtain ⟨t', ht'⟩ := hf g' hb
          have : g = g' := by
            apply String.toList_inj.1
            simp only [Sym.split] at h2
            rw [ht, ht'] at h2 ⊢
            have h2' : t = t' := by
              rwa [List.drop_left' (by decide : "clara_".toList.length = 6),
                List.drop_left' (by decide : "clara_".toList.length = 6)] at h2
            rw [h2']
          rw [this]
        | ioob => simp [Sym.split] at h1
      | helper s => exact (fnh ha hb h1 h2).elim
      | lit n => simp [Sym.split] at h1
      | map n => simp [Sym.split] at h1
      | info n => simp [Sym.split] at h1
    | ioob =>
      cases b with
      | code l =>
        cases l with
        | loc s n => exact (loc hb ha h1.symm h2.symm).symm
        | fn g' => simp [Sym.split] at h1
        | ioob => rfl
      | helper s => exact (hlp hb (by simp [Sym.split]) h1).elim
      | lit n => simp [Sym.split] at h1
      | map n => simp [Sym.split] at h1
      | info n => simp [Sym.split] at h1
  | helper s =>
    cases b with
    | code l =>
      cases l with
      | loc s n => exact (loc hb ha h1.symm h2.symm).symm
      | fn g' => exact (fnh hb ha h1.symm h2.symm).elim
      | ioob => exact (hlp ha (by simp [Sym.split]) h1.symm).elim
    | helper s' =>
      simp only [Sym.split] at h1 h2
      split at h1
      · rename_i e
        split at h1
        · rename_i e'; rw [e, e']
        · exact absurd h1.symm (fun h => t3 s' hb (by have h' : s' = "clara_" := h; simp [h']))
      · split at h1
        · exact absurd h1 (fun h => t3 s ha (by have h' : s = "clara_" := h; simp [h']))
        · have h' : s = s' := h1
          rw [h']
    | lit n => exact (hlp ha (by simp [Sym.split]) h1.symm).elim
    | map n => exact (hlp ha (by simp [Sym.split]) h1.symm).elim
    | info n => exact (hlp ha (by simp [Sym.split]) h1.symm).elim
  | lit n =>
    cases b with
    | code l =>
      cases l with
      | loc s n => exact (loc hb ha h1.symm h2.symm).symm
      | fn g' => simp [Sym.split] at h1
      | ioob => simp [Sym.split] at h1
    | helper s => exact (hlp hb (by simp [Sym.split]) h1).elim
    | lit n' => rw [dec_inj h2]
    | map n => simp [Sym.split] at h1
    | info n => simp [Sym.split] at h1
  | map n =>
    cases b with
    | code l =>
      cases l with
      | loc s n => exact (loc hb ha h1.symm h2.symm).symm
      | fn g' => simp [Sym.split] at h1
      | ioob => simp [Sym.split] at h1
    | helper s => exact (hlp hb (by simp [Sym.split]) h1).elim
    | map n' => rw [dec_inj h2]
    | lit n => simp [Sym.split] at h1
    | info n => simp [Sym.split] at h1
  | info n =>
    cases b with
    | code l =>
      cases l with
      | loc s n => exact (loc hb ha h1.symm h2.symm).symm
      | fn g' => simp [Sym.split] at h1
      | ioob => simp [Sym.split] at h1
    | helper s => exact (hlp hb (by simp [Sym.split]) h1).elim
    | info n' => rw [dec_inj h2]
    | lit n => simp [Sym.split] at h1
    | map n => simp [Sym.split] at h1

/-- Labels with the same text are the same. -/
theorem Sym.text_inj (hf : ∀ g, f g → ∃ s : List Char, g.toList = "clara_".toList ++ s)
    (he : ¬ f "clara_asm_entrypoint") {a b : Sym} (ha : a.Ok f) (hb : b.Ok f) (h : a.text = b.text) :
    a = b := by
  rw [split_text hf ha, split_text hf hb] at h
  have h1 : a.split.1 = b.split.1 := by
    rcases List.prefix_or_prefix_of_prefix (l₃ := b.split.1.toList ++ b.split.2) ⟨_, h⟩ ⟨_, rfl⟩ with hp | hp
    · exact heads_apart _ (split_head ha) _ (split_head hb) hp
    · exact (heads_apart _ (split_head hb) _ (split_head ha) hp).symm
  rw [h1] at h
  exact split_inj hf he ha hb (Prod.ext h1 (List.append_cancel_left h))

end

theorem allSyms_ok {alloc ioob : String} {fds : List FnDef} {nl nt : Nat} {x : Sym} (hx : x ∈ allSyms alloc ioob fds nl nt) :
    x.Ok (fun g => ∃ fd ∈ fds, g = fd.name) := by
  simp only [allSyms, List.mem_append, List.mem_map] at hx
  rcases hx with ⟨l, hl, rfl⟩ | ⟨s, hs, rfl⟩ | ⟨n, _, rfl⟩ | ⟨n, _, rfl⟩ | ⟨n, _, rfl⟩
  · rcases genProg_label hl with rfl | ⟨fd, h1, rfl⟩ | ⟨s, n, rfl, h⟩
    · trivial
    · exact ⟨fd, h1, rfl⟩
    · exact h
  · exact hs
  · trivial
  · trivial
  · trivial

/-- All labels of a program have different texts. -/
theorem allSyms_nodup (alloc ioob : String) (fds : List FnDef) (nl nt : Nat)
    (hn : (fds.map (·.name)).Nodup)
    (hf : ∀ fd ∈ fds, (∃ s : List Char, fd.name.toList = "clara_".toList ++ s) ∧ fd.name ≠ "clara_asm_entrypoint") :
    ((allSyms alloc ioob fds nl nt).map Sym.text).Nodup := by
  let f : String → Prop := fun g => ∃ fd ∈ fds, g = fd.name
  have hok : ∀ x ∈ allSyms alloc ioob fds nl nt, x.Ok f := fun x hx => allSyms_ok hx
  have hnd : (allSyms alloc ioob fds nl nt).Nodup := by
    have m1 : (helperNames.map Sym.helper).Nodup := by decide
    have mr : ∀ (n : Nat) (g : Nat → Sym), (∀ a b, g a = g b → a = b) → ((List.range n).map g).Nodup :=
      fun n g hg => List.Nodup.map (fun a b h => hg a b h) List.nodup_range
    have m0 : ((labels (genProg alloc ioob fds)).map Sym.code).Nodup :=
      List.Nodup.map (fun a b h => by injection h) (genProg_labels alloc ioob fds hn)
    simp only [allSyms]
    refine List.nodup_append.2 ⟨m0, List.nodup_append.2 ⟨m1, List.nodup_append.2
      ⟨mr _ _ (by intro a b h; injection h), List.nodup_append.2
        ⟨mr _ _ (by intro a b h; injection h), mr _ _ (by intro a b h; injection h), ?_⟩, ?_⟩, ?_⟩, ?_⟩
    all_goals
      intro a ha b hb e
      subst e
      simp only [List.mem_append, List.mem_map] at ha hb
    · obtain ⟨_, _, rfl⟩ := ha; obtain ⟨_, _, h⟩ := hb; cases h
    · obtain ⟨_, _, rfl⟩ := ha; rcases hb with ⟨_, _, h⟩ | ⟨_, _, h⟩ <;> cases h
    · obtain ⟨_, _, rfl⟩ := ha; rcases hb with ⟨_, _, h⟩ | ⟨_, _, h⟩ | ⟨_, _, h⟩ <;> cases h
    · obtain ⟨_, _, rfl⟩ := ha
      rcases hb with ⟨_, _, h⟩ | ⟨_, _, h⟩ | ⟨_, _, h⟩ | ⟨_, _, h⟩ <;> cases h
  refine List.Nodup.map_on ?_ hnd
  intro x hx y hy h
  refine Sym.text_inj (f := f) ?_ ?_ (hok x hx) (hok y hy) h
  · rintro g ⟨fd, h1, rfl⟩; exact (hf fd h1).1
  · rintro ⟨fd, h1, h2⟩; exact (hf fd h1).2 h2.symm

end Clara.Gen
