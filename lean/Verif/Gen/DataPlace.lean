import Verif.Gen.GasData
/-
Where the assembler places statements, and what is read there.
-/
namespace Clara.Gas
open Clara.Lex (Bytes)

theorem after_ge (pos : Nat) (s : DStmt) : pos ≤ after pos s := by
  cases s <;> simp only [after] <;> try omega
  split
  · omega
  · rename_i n hn
    have := Nat.div_add_mod (pos + n - 1) n
    have h2 := Nat.mod_lt (pos + n - 1) (Nat.pos_of_ne_zero hn)
    rw [Nat.mul_comm] at this
    omega

theorem le_length (w : W64) : (le w).length = 8 := by simp [le]

theorem flat_length (ws : List W64) : (ws.flatMap le).length = 8 * ws.length := by
  induction ws with
  | nil => rfl
  | cons w ws ih => simp [le_length, ih]; omega

theorem quads_flat (sym : Txt → W64) (es : List DExpr) : es.flatMap (fun e => le (dval sym e)) = (es.map (dval sym)).flatMap le := by
  induction es with
  | nil => rfl
  | cons e es ih => simp [ih]

theorem emit_length (sym : Txt → W64) (pos : Nat) (s : DStmt) : pos + (emit sym pos s).length = after pos s := by
  have := after_ge pos s
  cases s with
  | quads es => rw [emit, quads_flat, flat_length, List.length_map, after]
  | align n => simp only [emit, List.length_replicate]; omega
  | _ => simp [emit, after]

theorem afters_cons (pos : Nat) (s : DStmt) (ss : List DStmt) : afters pos (s :: ss) = afters (after pos s) ss := rfl

theorem afters_append (pos : Nat) (a b : List DStmt) : afters pos (a ++ b) = afters (afters pos a) b := by
  simp [afters, List.foldl_append]

theorem emits_length (sym : Txt → W64) (pos : Nat) (ss : List DStmt) : pos + (emits sym pos ss).length = afters pos ss := by
  induction ss generalizing pos with
  | nil => rfl
  | cons s ss ih =>
    rw [emits, List.length_append, afters_cons, ← ih, ← emit_length sym pos s]
    omega

theorem emits_append (sym : Txt → W64) (pos : Nat) (a b : List DStmt) :
    emits sym pos (a ++ b) = emits sym pos a ++ emits sym (afters pos a) b := by
  induction a generalizing pos with
  | nil => rfl
  | cons s a ih => rw [List.cons_append, emits, emits, ih, afters_cons, List.append_assoc]

theorem labelsOf_append (a b : List DStmt) : labelsOf (a ++ b) = labelsOf a ++ labelsOf b := by
  induction a with
  | nil => rfl
  | cons s a ih => cases s <;> simp [labelsOf, ih]

theorem labelAt_append {l : Txt} {a : List DStmt} (h : l ∉ labelsOf a) (pos : Nat) (b : List DStmt) :
    labelAt l pos (a ++ b) = labelAt l (afters pos a) b := by
  induction a generalizing pos with
  | nil => rfl
  | cons s a ih =>
    rw [List.cons_append, afters_cons]
    cases s with
    | label x =>
      simp only [labelsOf, List.mem_cons, not_or] at h
      rw [labelAt, if_neg (fun e => h.1 e.symm), ih h.2]
      rfl
    | _ => rw [labelAt]; exact ih h _; simp

/-- A label is where its statement is. -/
theorem labelAt_here {l : Txt} {a b : List DStmt} (h : (labelsOf (a ++ .label l :: b)).Nodup) (pos : Nat) :
    labelAt l pos (a ++ .label l :: b) = some (afters pos a) := by
  rw [labelsOf_append] at h
  have : l ∉ labelsOf a := by
    intro hl
    exact (List.nodup_append.1 h).2.2 l hl l (by simp [labelsOf]) rfl
  rw [labelAt_append this, labelAt, if_pos rfl]

/-! ### Words -/

theorem le_eq (w : W64) : le w = [UInt8.ofNat (w.toNat / 256 ^ 0), UInt8.ofNat (w.toNat / 256 ^ 1), UInt8.ofNat (w.toNat / 256 ^ 2),
    UInt8.ofNat (w.toNat / 256 ^ 3), UInt8.ofNat (w.toNat / 256 ^ 4), UInt8.ofNat (w.toNat / 256 ^ 5), UInt8.ofNat (w.toNat / 256 ^ 6),
    UInt8.ofNat (w.toNat / 256 ^ 7)] := rfl

theorem from_le (w : W64) : BitVec.ofNat 64 (fromLe (le w)) = w := by
  apply BitVec.eq_of_toNat_eq
  rw [le_eq]
  simp only [fromLe, UInt8.toNat_ofNat', BitVec.toNat_ofNat]
  have := w.isLt
  omega

theorem mapM_some {α β : Type} {f : α → Option β} {g : α → β} {l : List α} (h : ∀ x ∈ l, f x = some (g x)) : l.mapM f = some (l.map g) := by
  induction l with
  | nil => rfl
  | cons x l ih =>
    rw [List.mapM_cons, h x (by simp), ih (fun y hy => h y (List.mem_cons_of_mem _ hy))]
    rfl

theorem byte_at {m : Section} {X Y : Bytes} {b : UInt8} (hb : m.bytes = X ++ b :: Y) (hf : m.base + m.bytes.length ≤ 2 ^ 64) {n : Nat}
    (hn : n = m.base + X.length) : m.byte (BitVec.ofNat 64 n) = some b := by
  have hl : m.bytes.length = X.length + (Y.length + 1) := by rw [hb]; simp
  have e : (BitVec.ofNat 64 n).toNat = n := by
    rw [BitVec.toNat_ofNat]
    exact Nat.mod_eq_of_lt (by omega)
  rw [Section.byte, e, if_pos (by omega), hb, hn]
  simp

theorem word_at {m : Section} {X Y : Bytes} {w : W64} (hb : m.bytes = X ++ (le w ++ Y)) (hf : m.base + m.bytes.length ≤ 2 ^ 64) {n : Nat}
    (hn : n = m.base + X.length) : m.word (BitVec.ofNat 64 n) = some w := by
  have key : ∀ i ∈ List.range 8, m.byte (BitVec.ofNat 64 n + BitVec.ofNat 64 i) = some (UInt8.ofNat (w.toNat / 256 ^ i)) := by
    intro i hi
    have hi8 : i < (le w).length := by rw [le_length]; simpa using hi
    have hg : (le w)[i] = UInt8.ofNat (w.toNat / 256 ^ i) := by simp [le]
    rw [← BitVec.ofNat_add]
    refine byte_at (X := X ++ (le w).take i) (Y := (le w).drop (i + 1) ++ Y) ?_ hf ?_
    · rw [← hg, hb]
      have : le w = (le w).take i ++ (le w)[i] :: (le w).drop (i + 1) := by simp
      conv => lhs; rw [this]
      simp only [List.append_assoc, List.cons_append]
    · rw [List.length_append, List.length_take, hn]
      omega
  rw [Section.word, mapM_some key]
  exact congrArg some (from_le w)

/-- Words at an address. -/
def Holds (m : Section) (n : Nat) (ws : List W64) : Prop := ∀ i w, ws[i]? = some w → m.word (BitVec.ofNat 64 (n + 8 * i)) = some w

theorem holds_of {m : Section} {X Y : Bytes} {ws : List W64} (hb : m.bytes = X ++ (ws.flatMap le ++ Y))
    (hf : m.base + m.bytes.length ≤ 2 ^ 64) : Holds m (m.base + X.length) ws := by
  intro i w hw
  obtain ⟨hi, hg⟩ := List.getElem?_eq_some_iff.1 hw
  have e : ws = ws.take i ++ w :: ws.drop (i + 1) := by rw [← hg]; simp
  refine word_at (X := X ++ (ws.take i).flatMap le) (Y := (ws.drop (i + 1)).flatMap le ++ Y) ?_ hf ?_
  · rw [hb]
    conv => lhs; rw [e]
    simp only [List.flatMap_append, List.flatMap_cons, List.append_assoc]
  · rw [List.length_append, flat_length, List.length_take]
    omega

/-! ### Statements that are words only -/

/-- Labels, words, and statements without bytes. -/
def plainStmt : DStmt → Bool
  | .none | .label _ | .quads _ => true
  | _ => false

/-- The words of statements. -/
def wordsOf (sym : Txt → W64) : List DStmt → List W64
  | [] => []
  | .quads es :: ss => es.map (dval sym) ++ wordsOf sym ss
  | _ :: ss => wordsOf sym ss

theorem wordsOf_append (sym : Txt → W64) (a b : List DStmt) : wordsOf sym (a ++ b) = wordsOf sym a ++ wordsOf sym b := by
  induction a with
  | nil => rfl
  | cons s a ih => cases s <;> simp [wordsOf, ih]

theorem plain_emits (sym : Txt → W64) {ss : List DStmt} (h : ∀ s ∈ ss, plainStmt s = true) (pos : Nat) :
    emits sym pos ss = (wordsOf sym ss).flatMap le ∧ afters pos ss = pos + 8 * (wordsOf sym ss).length := by
  induction ss generalizing pos with
  | nil => exact ⟨rfl, rfl⟩
  | cons s ss ih =>
    have hs := h s (by simp)
    have ih := ih (fun x hx => h x (List.mem_cons_of_mem _ hx))
    cases s with
    | quads es =>
      refine ⟨?_, ?_⟩
      · rw [emits, (ih _).1, emit, quads_flat, wordsOf, List.flatMap_append]
      · rw [afters_cons, (ih _).2, after, wordsOf, List.length_append, List.length_map]
        omega
    | none | label => exact ih pos
    | _ => cases hs

theorem holds_plain {D P Q R : List DStmt} (hD : D = P ++ (Q ++ R)) (hQ : ∀ s ∈ Q, plainStmt s = true) (base : Nat) (ext : Txt → W64)
    (hf : base + (assemble base ext D).bytes.length ≤ 2 ^ 64) :
    Holds (assemble base ext D) (base + afters 0 P) (wordsOf (symbols base ext D) Q) := by
  have hb : (assemble base ext D).bytes = emits (symbols base ext D) 0 P ++ ((wordsOf (symbols base ext D) Q).flatMap le ++
      emits (symbols base ext D) (afters (afters 0 P) Q) R) := by
    rw [← (plain_emits _ hQ (afters 0 P)).1, ← emits_append, ← emits_append, ← hD]
    rfl
  have := holds_of hb hf
  have e := emits_length (symbols base ext D) 0 P
  rw [Nat.zero_add] at e
  rwa [e] at this

theorem symbol_here {D P R : List DStmt} {l : Txt} (hD : D = P ++ .label l :: R) (hn : (labelsOf D).Nodup) (base : Nat) (ext : Txt → W64) :
    symbols base ext D l = BitVec.ofNat 64 (base + afters 0 P) := by
  subst hD
  rw [symbols, labelAt_here hn]

/-! ### Sections -/

/-- The section that is current after statements. -/
def lastSect : Bool → List DStmt → Bool
  | cur, [] => cur
  | _, .sect d :: ss => lastSect d ss
  | cur, _ :: ss => lastSect cur ss

theorem inSect_append (sec cur : Bool) (a b : List DStmt) : inSect sec cur (a ++ b) = inSect sec cur a ++ inSect sec (lastSect cur a) b := by
  induction a generalizing cur with
  | nil => rfl
  | cons s a ih =>
    cases s <;> simp only [List.cons_append, inSect, lastSect, ih]
    all_goals split <;> simp

theorem inSect_plain {ss : List DStmt} (h : ∀ s ∈ ss, plainStmt s = true) (sec : Bool) : inSect sec sec ss = ss := by
  induction ss with
  | nil => rfl
  | cons s ss ih =>
    have hs := h s (by simp)
    have ih := ih (fun x hx => h x (List.mem_cons_of_mem _ hx))
    cases s <;> simp_all [inSect, plainStmt]

end Clara.Gas
