import Verif.Gen.DataLabels
import Verif.Props.Codegen2
/-
C36: the labels of the whole assembly file, with those of the type table.
-/
namespace Clara.Props
open Clara.Gen hiding Txt
open Clara.Tbl Clara.Gas Clara.Data
open Clara.Types (Ty)

/-- The names of the types for which a program has constructors: structs and enums with different names, in which there is no
`$`. -/
structure TypeNames (ds : List Decl) (ls : List Local) (ty : Nat → Ty) : Prop where
  named : ∀ c ∈ constructors ds ls, ∃ n, typeHead (ty c.ret) = some n ∧ '$' ∉ n
  apart : ∀ c ∈ constructors ds ls, ∀ d ∈ constructors ds ls, typeHead (ty c.ret) = typeHead (ty d.ret) → c.ret = d.ret

theorem con_mem {ds : List Decl} {ls : List Local} {c : CK} (h : c ∈ (lowered ds ls).root.filterMap Node.con) :
    ∃ d ∈ constructors ds ls, d.ret = c.1 := by
  obtain ⟨-, a2, -⟩ := assignIds_spec (lowered ds ls).root (addBuiltins (lowered ds ls).types).2
  rw [← a2] at h
  obtain ⟨d, hd, rfl⟩ := List.mem_map.1 h
  exact ⟨d, hd, rfl⟩

/-- **C36, the type table.**  The lines of the type table of any program are read by the assembler, and its labels (maps of
structs and enum members, entries, the array) are different, and different from all labels of the code, of the helper functions,
of the literals and of the maps of frames.  Missing: names of functions may coincide (`C36_violated_helper`,
`C36_violated_generic`). -/
theorem C36_types_partial (alloc ioob : String) (fds : List FnDef) (nl : Nat) (hn : (fds.map (·.name)).Nodup)
    (hf : ∀ fd ∈ fds, (∃ s : List Char, fd.name.toList = "clara_".toList ++ s) ∧ fd.name ≠ "clara_asm_entrypoint")
    (ds : List Decl) (ls : List Local) (ty : Nat → Ty) (lc : Nat → Txt) (hty : TypeNames ds ls ty)
    (hs : ∀ t, ∀ ch ∈ (ty t).asm, symChar ch = true) (hlc : ∀ i, isSym (lc i) = true) :
    ∃ out ss, tableLines (addBuiltins (lowered ds ls).types).1 (fun t => (ty t).asm) lc
        (assignIds (lowered ds ls).root (addBuiltins (lowered ds ls).types).2).2 = some out ∧ dlines out = some ss ∧
      (((allSyms alloc ioob fds nl 0).filter (· ≠ .helper "typeInfoArray")).map Sym.text ++ labelsOf ss).Nodup := by
  have hT := typeTable_eq ds ls
  have hL := program_labels (fun t => (ty t).asm) ds ls
  simp only [typeTable] at hT
  obtain ⟨gs, ss, R⟩ := lowered_ready ds ls
  have hkeys := Ready_keys R
  have hmem := fun c => con_mem (ds := ds) (ls := ls) (c := c)
  generalize (addBuiltins (lowered ds ls).types).1 = types at *
  generalize (assignIds (lowered ds ls).root (addBuiltins (lowered ds ls).types).2).2 = gt at *
  generalize hcon : (lowered ds ls).root.filterMap Node.con = con at *
  have hout : ∃ out, tableLines types (fun t => (ty t).asm) lc gt = some out := by
    unfold typeInfoTable at hT
    split at hT
    next ms hms =>
      obtain ⟨rl, labs, S, r1, r2, r3⟩ := rootLines_ok (nm := fun t => (ty t).asm) hs hms
      have hlabs : ∀ l ∈ labs, isSym l = true := by
        intro l hl
        obtain ⟨i, hi⟩ := List.getElem?_of_mem hl
        have : i < ms.length := by rw [← r3.length]; exact (List.getElem?_eq_some_iff.1 hi).1
        exact (r3.each i l ms[i] hi (List.getElem?_eq_getElem this)).1
      obtain ⟨il, S2, i1, i2, i3⟩ := infoLines_ok (lc := lc) hlc r3.length hlabs hT 0
      exact ⟨_, by rw [tableLines, r1]; simp only [i1, Option.map_some]; rfl⟩
    next => cases hT
  obtain ⟨out, hout⟩ := hout
  obtain ⟨rl, labs, S, h1, h2, h3⟩ := tableLines_labels (nm := fun t => (ty t).asm) hs hlc hout
  refine ⟨out, S, hout, h2, ?_⟩
  rw [rootLabels, h1, Option.map_some, Option.some.injEq] at hL
  simp only at hL
  have hinj : ∀ c ∈ con, ∀ d ∈ con, (ty c.1).asm = (ty d.1).asm → c.1 = d.1 := by
    intro c hc d hd e
    obtain ⟨c', hc', e1⟩ := hmem c hc
    obtain ⟨d', hd', e2⟩ := hmem d hd
    obtain ⟨n, a1, a2⟩ := hty.named c' hc'
    obtain ⟨m, b1, b2⟩ := hty.named d' hd'
    rw [← e1, ← e2] at e ⊢
    refine hty.apart c' hc' d' hd' ?_
    rw [a1, b1, asm_head_inj a1 b1 a2 b2 e]
  have hlabs : labs.filter (· != noGcLabel) = (con.map (conLabel (fun t => (ty t).asm))).filter (· != noGcLabel) := by
    rw [hL, List.filter_append]
    simp
  rw [h3, hlabs]
  have htl := conLabels_nodup (nm := fun t => (ty t).asm) hkeys hinj
  -- the labels that are symbols
  let f : String → Prop := fun g => ∃ fd ∈ fds, g = fd.name
  have hf1 : ∀ g, f g → ∃ s : List Char, g.toList = "clara_".toList ++ s := by rintro g ⟨fd, h1, rfl⟩; exact (hf fd h1).1
  have hf2 : ¬ f "clara_asm_entrypoint" := by rintro ⟨fd, h1, h2⟩; exact (hf fd h1).2 h2.symm
  let Y : List Sym := (allSyms alloc ioob fds nl 0).filter (· ≠ .helper "typeInfoArray") ++
    ((List.range gt.length).map Sym.info ++ [.helper "typeInfoArray"])
  have hYok : ∀ x ∈ Y, x.Ok f := by
    intro x hx
    rcases List.mem_append.1 hx with hx | hx
    · exact allSyms_ok (List.mem_filter.1 hx).1
    rcases List.mem_append.1 hx with hx | hx
    · obtain ⟨i, -, rfl⟩ := List.mem_map.1 hx
      trivial
    · rw [List.mem_singleton.1 hx]
      show "typeInfoArray" ∈ helperNames
      decide
  have hYnd : Y.Nodup := by
    refine List.nodup_append.2 ⟨List.Nodup.filter _ (List.Nodup.of_map _ (allSyms_nodup alloc ioob fds nl 0 hn hf)),
      List.nodup_append.2 ⟨List.Nodup.map (fun a b h => by injection h) List.nodup_range, by simp, ?_⟩, ?_⟩
    · rintro a ha b hb rfl
      obtain ⟨i, -, rfl⟩ := List.mem_map.1 ha
      simp at hb
    · rintro a ha b hb rfl
      obtain ⟨ha, hne⟩ := List.mem_filter.1 ha
      rcases List.mem_append.1 hb with hb | hb
      · obtain ⟨i, -, rfl⟩ := List.mem_map.1 hb
        simp [allSyms] at ha
      · rw [List.mem_singleton.1 hb] at hne
        simp at hne
  have hYt : (Y.map Sym.text).Nodup :=
    List.Nodup.map_on (fun x hx y hy h => Sym.text_inj hf1 hf2 (hYok x hx) (hYok y hy) h) hYnd
  have hperm : (((allSyms alloc ioob fds nl 0).filter (· ≠ .helper "typeInfoArray")).map Sym.text ++
      ((con.map (conLabel (fun t => (ty t).asm))).filter (· != noGcLabel) ++
        ((List.range gt.length).map infoLabel ++ ["typeInfoArray".toList]))).Perm
      ((con.map (conLabel (fun t => (ty t).asm))).filter (· != noGcLabel) ++ Y.map Sym.text) := by
    have e : Y.map Sym.text = ((allSyms alloc ioob fds nl 0).filter (· ≠ .helper "typeInfoArray")).map Sym.text ++
        ((List.range gt.length).map infoLabel ++ ["typeInfoArray".toList]) := by
      simp only [Y, List.map_append, List.map_map]
      rfl
    rw [e]
    exact List.perm_append_comm_assoc _ _ _
  refine hperm.nodup_iff.2 (List.nodup_append.2 ⟨htl, hYt, ?_⟩)
  rintro a ha b hb rfl
  obtain ⟨ha, hne⟩ := List.mem_filter.1 ha
  obtain ⟨c, -, rfl⟩ := List.mem_map.1 ha
  obtain ⟨y, hy, e⟩ := List.mem_map.1 hb
  exact text_ne_conLabel hf1 (hYok y hy) (by simpa using hne) e

/-! ### An example -/

/-- A generic struct, an enum, and the environment and the value of a closure. -/
def labelDecls : List Decl := [.struct [.integer, .string], .enum [[.string], [], [.string, .integer]]]
def labelLocals : List Local := [.closure [.string]]

def labelTypes : Nat → Ty
  | 5 => .struct "Pair" [.param 0]
  | 6 => .enum "Opt_tag" []
  | 7 => .struct "env.1" []
  | _ => .struct "cl.1" []

theorem labelTypes_ok : TypeNames labelDecls labelLocals labelTypes where
  named := by
    have h : ∀ c ∈ constructors labelDecls labelLocals, (typeHead (labelTypes c.ret)).all (fun n => !n.contains '$') = true ∧
        (typeHead (labelTypes c.ret)).isSome = true := by decide +kernel
    intro c hc
    obtain ⟨h1, h2⟩ := h c hc
    obtain ⟨n, hn⟩ := Option.isSome_iff_exists.1 h2
    rw [hn] at h1
    exact ⟨n, hn, by simpa using h1⟩
  apart := by decide +kernel

example : (constructors labelDecls labelLocals).map (·.ret) = [6, 6, 6, 5, 7, 8] := by decide +kernel

theorem labelTypes_sym : ∀ t, ∀ ch ∈ (labelTypes t).asm, symChar ch = true := by
  have h : ∀ u ∈ [Ty.struct "Pair" [.param 0], .enum "Opt_tag" [], .struct "env.1" [], .struct "cl.1" []],
      u.asm.all symChar = true := by decide +kernel
  intro t
  have : labelTypes t ∈ [Ty.struct "Pair" [.param 0], .enum "Opt_tag" [], .struct "env.1" [], .struct "cl.1" []] := by
    unfold labelTypes
    split <;> simp
  exact List.all_eq_true.1 (h _ this)

/-- The labels of the table of this program. -/
example : (match tableLines (addBuiltins (lowered labelDecls labelLocals).types).1 (fun t => (labelTypes t).asm) (fun i => ".LC".toList ++ dec i)
      (assignIds (lowered labelDecls labelLocals).root (addBuiltins (lowered labelDecls labelLocals).types).2).2 with
    | some out => (dlines out).map (fun ss => (labelsOf ss).take 5)
    | none => none) =
    some ["enum_Opt_tag_tag_0".toList, "enum_Opt_tag_tag_2".toList, "struct_Pair$T$".toList, "struct_env.1".toList,
      "struct_cl.1".toList] := by decide +kernel

end Clara.Props
