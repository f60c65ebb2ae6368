import Verif.Props.HelperLines
import Verif.Props.Helpers
import Verif.Props.Data
/-
The function `typeInfoTable`, which is written after its table (part of **C82**, **C88** and **C95**).
-/
namespace Clara.Props
open Clara.Gen hiding Txt
open Clara.Tbl Clara.Gas Clara.Data Clara.Format
open Clara.Gc (TypeInfo)
variable {σ : Type}

/-- `typeInfoTable()` (`codegen.go` 319-323); the operand is the `symOp` of `roSymbol` (`asm.go` 453-458). -/
def tableFnCode : List HIns := inFrame [.ins (.movabs (.fn "typeInfoArray") .rax)]

/-- A call of the function comes back with the address of the array in `rax`; all other registers, the world and all bytes but the two
words of its frame are as before. -/
theorem table_call (abs : Abs → Word) (b : BMach σ) (ra : Word) :
    ∃ b', hrun abs (b.push ra) tableFnCode = some (ra, b') ∧ b'.reg .rax = abs (.fn "typeInfoArray") ∧
      (∀ r, r ≠ .rax → b'.reg r = b.reg r) ∧ b'.ext = b.ext ∧ ∀ x, b.outside x → b'.byte x = b.byte x := by
  refine ⟨_, frame_run (e := (b.entered ra).set .rax (abs (.fn "typeInfoArray"))) (by decide) rfl ?_ (fun x _ => rfl), ?_, ?_, rfl, ?_⟩
  · simp [BMach.set, entered_rbp]
  · simp [BMach.set]
  · intro r h1
    by_cases h4 : r = .rsp
    · subst h4; simp
    · by_cases h5 : r = .rbp
      · subst h5; simp
      · simp only [if_neg h4, if_neg h5, BMach.set, if_neg h1]
        exact entered_reg b ra h4 h5
  · intro x hx; exact entered_outside b ra hx

/-- **C82, function.**  In any file that has the data of the table, a call of `typeInfoTable` gives the address at which the collector
reads the table `T` of the types of the program, if the linker puts the address of the symbol into the instruction. -/
theorem C82_call (types : List TypeD) (gt : List Nat) (nm lc : Nat → Gas.Txt) (T : List TypeInfo) (hT : typeInfoTable types gt = some T)
    (hnm : ∀ t, ∀ c ∈ nm t, symChar c = true) (hlc : ∀ i, isSym (lc i) = true) (hs : SmallTable T) :
    ∃ ns ls ss, dlines genNoGc = some ns ∧ tableLines types nm lc gt = some ls ∧ dlines ls = some ss ∧
      ∀ pre mid post base ext file, file = pre ++ (ns ++ (mid ++ (ss ++ post))) → DataOk base ext file →
        ∀ abs : Abs → Word, abs (.fn "typeInfoArray") = dataAddr base ext file "typeInfoArray".toList → ∀ (b : BMach σ) (ra : Word),
          ∃ b', hrun abs (b.push ra) tableFnCode = some (ra, b') ∧ readTable (dataAt base ext file) (b'.reg .rax) = some T := by
  obtain ⟨ns, ls, ss, h1, h2, h3, h4⟩ := C82_table types gt nm lc T hT hnm hlc hs
  refine ⟨ns, ls, ss, h1, h2, h3, ?_⟩
  intro pre mid post base ext file hf ok abs ha b ra
  obtain ⟨b', g1, g2, _⟩ := table_call abs b ra
  exact ⟨b', g1, by rw [g2, ha]; exact (h4 pre mid post base ext file hf ok).1⟩

/-- The lines of the function are read as its code, if `typeInfoArray` is not the label of a literal. -/
theorem tableFn_read {S : Spell} (hS : Numbers S) (Y : Symbols) (hY : Y.text "typeInfoArray".toList = none) :
    ∃ st, rlines Y (helperLines S "typeInfoTable" tableFnCode) = some st ∧
      ∀ mp b r g, sees mp (codeOf false r) = some g →
        sees mp (codeOf b (st ++ r)) = some (shownHelper "typeInfoTable" tableFnCode ++ g) := by
  refine lines_read hS Y (by decide +kernel) ?_
  intro i hi
  simp only [tableFnCode, inFrame, List.cons_append, List.nil_append, List.mem_cons, List.not_mem_nil, or_false] at hi
  rcases hi with rfl | rfl | rfl | rfl
  · exact ⟨by decide, trivial⟩
  · exact ⟨by decide, by decide +kernel, hY⟩
  · exact ⟨by decide, trivial⟩
  · exact ⟨by decide, trivial⟩

/-- The same for the symbols of a file: labels of literals begin with `.LC`. -/
theorem C88_tableFn {S : Spell} (hS : Numbers S) (c : List Ev) (lits : List String) :
    ∃ st, rlines (fileSymbols c lits) (helperLines S "typeInfoTable" tableFnCode) = some st ∧
      ∀ mp b r g, sees mp (codeOf false r) = some g →
        sees mp (codeOf b (st ++ r)) = some (shownHelper "typeInfoTable" tableFnCode ++ g) := by
  refine tableFn_read hS _ (List.find?_eq_none.2 ?_)
  intro s _ h
  have := eq_of_beq h
  cases congrArg List.head? this

/-- The lines are written as they are. -/
theorem C95_tableFn (S : Spell) :
    ∀ l ∈ helperLines S "typeInfoTable" tableFnCode,
      (∃ i ∈ tableFnCode, l = wIns i.mnem.toList (joinOps ((i.ops S).map POp.print))) ∨ WrittenAsIs l :=
  lines_pct S (by decide +kernel) _

/-- A call: the address comes back, the stack pointer is as before. -/
example (b : BMach σ) : ∃ b', hrun (fun _ => 0x4000) (b.push 0x1234) tableFnCode = some (0x1234, b') ∧ b'.reg .rax = 0x4000 ∧
    b'.reg .rsp = b.reg .rsp := by
  obtain ⟨b', h1, h2, h3, _⟩ := table_call (fun _ => 0x4000) b 0x1234
  exact ⟨b', h1, h2, h3 _ (by decide)⟩

end Clara.Props
