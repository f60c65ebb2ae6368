import Verif.Gen.Balance
import Verif.Gen.Walk
import Verif.Gen.Sites
/-
The peephole optimiser as a function on lists, and what it keeps of the code: the stack depths, what follows calls and
`leave`, and the root maps.
-/
namespace Clara.Gen

def Item.ev : Item → Ev
  | .ins i => .ins i
  | .label l => .label l
  | .data r => .data r

/-- The file written for `c` when `p` is cached (`peep.go` 15-70). -/
def peepL (o : Bool) : Option Ins → List Ev → List Item
  | p, [] => p.toList.map .ins
  | p, .ins i :: c =>
    match p.bind (merge o · i) with
    | some q => peepL o (some q) c
    | none => p.toList.map .ins ++ peepL o (some i) c
  | p, .label l :: c => p.toList.map .ins ++ .label l :: peepL o none c
  | p, .data r :: c => p.toList.map .ins ++ .data r :: peepL o none c
  | p, .flush :: c => p.toList.map .ins ++ peepL o none c
  | p, .panic :: c => peepL o p c

theorem peepL_feed (o : Bool) (c : List Ev) (s : PS) : (c.foldl (PS.feed o) s).write.out = s.out ++ peepL o s.pend c := by
  induction c generalizing s with
  | nil => rw [List.foldl_nil, PS.write_out]; rfl
  | cons e c ih =>
    rw [List.foldl_cons, ih]
    cases e with
    | ins i =>
      simp only [PS.feed, peepL]
      cases h : s.pend.bind (merge o · i) with
      | some q => rfl
      | none => simp only [PS.write_out, List.append_assoc]
    | label l => simp [PS.feed, peepL, PS.write_out]; rcases s with ⟨u, _ | p⟩ <;> rfl
    | data l => simp [PS.feed, peepL, PS.write_out]; rcases s with ⟨u, _ | p⟩ <;> rfl
    | flush => simp [PS.feed, peepL, PS.write_out]; rcases s with ⟨u, _ | p⟩ <;> rfl
    | panic => rfl

theorem peepWith_eq (o : Bool) (c : List Ev) : peepWith o c = peepL o none c := by
  rw [peepWith, peepL_feed]; rfl

theorem peepL_flush (o : Bool) (p : Option Ins) (a b : List Ev) : peepL o p (a ++ .flush :: b) = peepL o p a ++ peepL o none b := by
  induction a generalizing p with
  | nil => rfl
  | cons e a ih =>
    cases e with
    | ins i =>
      simp only [List.cons_append, peepL]
      split <;> simp [ih]
    | _ => simp [peepL, ih]

/-- Only a cached `movq` makes a difference. -/
theorem peepL_pend {o : Bool} {i : Ins} (hi : i.isMov = false) (c : List Ev) : peepL o (some i) c = .ins i :: peepL o none c := by
  induction c with
  | nil => rfl
  | cons e c ih =>
    cases e with
    | ins j =>
      have : merge o i j = none := by
        cases h : merge o i j with
        | none => rfl
        | some q => rw [merge_isMov h] at hi; cases hi
      simp [peepL, this]
    | panic => simpa only [peepL] using ih
    | _ => rfl

/-! ### Depths -/

theorem merge_depth {o : Bool} {F d d1 d2 : Int} {p i q : Ins} (hm : merge o p i = some q) (h1 : p.depth F d = some d1)
    (h2 : i.depth F d1 = some d2) : d1 = d ∧ q.depth F d = some d2 := by
  unfold merge at hm
  split at hm
  · split at hm <;> cases hm
    rename_i hc
    simp only [Ins.depth] at h1 h2 ⊢
    split at h1 <;> cases h1
    split at h2 <;> cases h2
    rename_i a b
    rw [Bool.and_eq_true] at a b
    exact ⟨rfl, by rw [if_pos (by rw [a.1, b.2]; rfl)]⟩
  · split at hm <;> cases hm
    simp only [Ins.depth] at h1 h2 ⊢
    split at h1 <;> cases h1
    split at h2 <;> cases h2
    rename_i a b
    rw [Bool.and_eq_true] at a
    exact ⟨rfl, by rw [if_pos ⟨b.1, a.1⟩]⟩
  · cases hm

theorem merge_uses {o : Bool} {d : Int} {p i q : Ins} (hm : merge o p i = some q) :
    (Ev.ins p).uses d = [] ∧ (Ev.ins i).uses d = [] ∧ (Ev.ins q).uses d = [] := by
  unfold merge at hm
  split at hm
  · split at hm <;> cases hm; exact ⟨rfl, rfl, rfl⟩
  · split at hm <;> cases hm; exact ⟨rfl, rfl, rfl⟩
  · cases hm

theorem track_cons {F : Int} {e : Ev} {c : List Ev} {d : Int} {t : Tr} (h : track F (e :: c) d = some t) :
    ∃ d' t', e.depth F d = some d' ∧ track F c d' = some t' ∧ t = ⟨t'.stop, e.uses d ++ t'.uses, e.defs d ++ t'.defs⟩ := by
  simp only [track] at h
  cases hx : e.depth F d with
  | none => rw [hx] at h; cases h
  | some k =>
    rw [hx] at h
    simp only at h
    cases ht : track F c k with
    | none => rw [ht] at h; cases h
    | some t' => rw [ht] at h; cases h; exact ⟨k, t', rfl, ht, rfl⟩

theorem track_mk {F : Int} {e : Ev} {c : List Ev} {d d' : Int} {t : Tr} (hx : e.depth F d = some d') (ht : track F c d' = some t) :
    track F (e :: c) d = some ⟨t.stop, e.uses d ++ t.uses, e.defs d ++ t.defs⟩ := by
  simp only [track, hx, ht]

theorem track_peepL {o : Bool} {F : Int} {c : List Ev} {p : Option Ins} {d : Int} {t : Tr}
    (h : track F (p.toList.map .ins ++ c) d = some t) : track F ((peepL o p c).map Item.ev) d = some t := by
  have pre : ∀ {p : Option Ins} {c : List Ev} {r : List Item} {d : Int} {t : Tr}, track F (p.toList.map .ins ++ c) d = some t →
      (∀ d t, track F c d = some t → track F (r.map Item.ev) d = some t) →
      track F ((p.toList.map Item.ins ++ r).map Item.ev) d = some t := by
    intro p c r d t h k
    cases p with
    | none => exact k _ _ h
    | some q =>
      obtain ⟨d', t', h1, h2, rfl⟩ := track_cons h
      exact track_mk h1 (k _ _ h2)
  induction c generalizing p d t with
  | nil =>
    cases p with
    | none => exact h
    | some q => exact h
  | cons e c ih =>
    cases e with
    | ins i =>
      simp only [peepL]
      cases hm : p.bind (merge o · i) with
      | some q =>
        cases p with
        | none => cases hm
        | some p =>
          simp only [Option.bind_some] at hm
          obtain ⟨d1, t1, h1, h2, rfl⟩ := track_cons h
          obtain ⟨d2, t2, h3, h4, rfl⟩ := track_cons h2
          obtain ⟨rfl, h5⟩ := merge_depth hm h1 h3
          obtain ⟨u1, u2, u3⟩ := merge_uses (d := d1) hm
          refine ih (p := some q) ?_
          have := track_mk (e := .ins q) h5 h4
          simp only [u1, u2, u3, List.nil_append] at this ⊢
          exact this
      | none => exact pre h (fun d t ht => ih (p := some i) ht)
    | label l => exact pre (r := .label l :: peepL o none c) h (fun d t ht => by
        obtain ⟨d', t', h1, h2, rfl⟩ := track_cons ht
        exact track_mk (e := .label l) h1 (ih (p := none) h2))
    | data l => exact pre (r := .data l :: peepL o none c) h (fun d t ht => by
        obtain ⟨d', t', h1, h2, rfl⟩ := track_cons ht
        exact track_mk (e := .data l) h1 (ih (p := none) h2))
    | flush => exact pre h (fun d t ht => by
        obtain ⟨d', t', h1, h2, rfl⟩ := track_cons ht
        cases h1
        exact ih (p := none) h2)
    | panic =>
      obtain ⟨t1, t2, -, h2, -⟩ := track_split h
      obtain ⟨d', t', h1, -⟩ := track_cons h2
      cases h1

/-! ### What follows calls and `leave` -/

def followed : List Ev → Bool
  | .data _ :: _ => true
  | _ => false

def tailOk : List Ev → Bool
  | .ins (.pop .rbx) :: .ins (.alu .add (.imm 8) .rbx) :: .ins (.jmpReg .rbx) :: _ => true
  | .ins .ret :: _ => true
  | _ => false

/-- `leave` is followed by the rest of the exit of a function; a call is followed by a root map unless it calls a
function that is not one of `names`. -/
def Ins.next (names : List String) (c : List Ev) : Ins → Bool
  | .leave => tailOk c
  | .call f => followed c || decide (f ∉ names)
  | .callReg _ | .callMem _ => followed c
  | _ => true

def shaped (names : List String) : List Ev → Bool
  | [] => true
  | .ins i :: c => i.next names c && shaped names c
  | _ :: c => shaped names c

theorem followed_append {c : List Ev} (b : List Ev) (h : followed c = true) : followed (c ++ b) = true := by
  unfold followed at h
  split at h
  · rfl
  · cases h

theorem tailOk_append {c : List Ev} (b : List Ev) (h : tailOk c = true) : tailOk (c ++ b) = true := by
  unfold tailOk at h
  split at h
  · rfl
  · rfl
  · cases h

theorem next_append {names : List String} {c : List Ev} (b : List Ev) {i : Ins} (h : i.next names c = true) :
    i.next names (c ++ b) = true := by
  cases i <;> simp only [Ins.next] at h ⊢
  · rw [Bool.or_eq_true] at h ⊢
    exact h.imp (followed_append b) id
  · exact followed_append b h
  · exact followed_append b h
  · exact tailOk_append b h

theorem shaped_append {names : List String} {a b : List Ev} (ha : shaped names a = true) (hb : shaped names b = true) :
    shaped names (a ++ b) = true := by
  induction a with
  | nil => exact hb
  | cons e a ih =>
    cases e with
    | ins i =>
      simp only [shaped, List.cons_append, Bool.and_eq_true] at ha ⊢
      exact ⟨next_append b ha.1, ih ha.2⟩
    | _ => exact ih ha

theorem next_peepL {o : Bool} {names : List String} {c : List Ev} {i : Ins} (h : i.next names c = true) :
    i.next names ((peepL o none c).map Item.ev) = true := by
  have hf : followed c = true → followed ((peepL o none c).map Item.ev) = true := by
    intro h
    unfold followed at h
    split at h
    · rfl
    · cases h
  cases i <;> simp only [Ins.next] at h ⊢
  · rw [Bool.or_eq_true] at h ⊢
    exact h.imp hf id
  · exact hf h
  · exact hf h
  · unfold tailOk at h
    split at h
    · simp only [peepL, Option.bind_none, Option.toList_none, List.map_nil, List.nil_append, Option.bind_some, merge, Option.toList_some,
        List.map_cons, List.cons_append]
      rw [peepL_pend rfl]
      rfl
    · simp only [peepL, Option.bind_none, Option.toList_none, List.map_nil, List.nil_append]
      rw [peepL_pend rfl]
      rfl
    · cases h

theorem next_mov {names : List String} {c : List Ev} {i : Ins} (h : i.isMov = true) : i.next names c = true := by
  cases i <;> simp_all [Ins.isMov, Ins.next]

theorem merge_next {o : Bool} {p i q : Ins} (hm : merge o p i = some q) (names : List String) (c : List Ev) : q.next names c = true := by
  unfold merge at hm
  split at hm
  · split at hm <;> cases hm; rfl
  · split at hm <;> cases hm; rfl
  · cases hm

theorem shaped_peepL {o : Bool} {names : List String} {c : List Ev} {p : Option Ins} (hp : ∀ q, p = some q → q.isMov = true)
    (h : shaped names c = true) : shaped names ((peepL o p c).map Item.ev) = true := by
  have pre : ∀ {p : Option Ins} {r : List Item}, (∀ q, p = some q → q.isMov = true) → shaped names (r.map Item.ev) = true →
      shaped names ((p.toList.map Item.ins ++ r).map Item.ev) = true := by
    intro p r hp hr
    cases p with
    | none => exact hr
    | some q =>
      simp only [Option.toList_some, List.map_cons, List.map_nil, List.cons_append, List.nil_append, Item.ev, shaped,
        next_mov (hp q rfl), Bool.true_and]
      exact hr
  induction c generalizing p with
  | nil =>
    have := pre (r := []) hp rfl
    rw [List.append_nil] at this
    exact this
  | cons e c ih =>
    have one : ∀ i : Ins, i.next names c = true → shaped names c = true → shaped names ((peepL o (some i) c).map Item.ev) = true := by
      intro i hi hc
      cases hm : i.isMov with
      | true => exact ih (fun q hq => by cases hq; exact hm) hc
      | false =>
        rw [peepL_pend hm]
        simp only [List.map_cons, Item.ev, shaped, next_peepL hi, Bool.true_and]
        exact ih (by intro q hq; cases hq) hc
    cases e with
    | ins i =>
      simp only [shaped, Bool.and_eq_true] at h
      simp only [peepL]
      cases hm : p.bind (merge o · i) with
      | some q =>
        cases p with
        | none => cases hm
        | some p => exact one q (merge_next hm _ _) h.2
      | none => exact pre hp (one i h.1 h.2)
    | label l => exact pre hp (ih (p := none) (by intro q hq; cases hq) h)
    | data l => exact pre hp (ih (p := none) (by intro q hq; cases hq) h)
    | flush => exact pre hp (ih (p := none) (by intro q hq; cases hq) h)
    | panic => exact ih hp h

theorem shaped_at {names : List String} {c : List Ev} (h : shaped names c = true) {j : Nat} {i : Ins} (hj : c[j]? = some (.ins i)) :
    i.next names (c.drop (j + 1)) = true := by
  induction c generalizing j with
  | nil => simp at hj
  | cons e c ih =>
    cases j with
    | zero =>
      simp only [List.getElem?_cons_zero, Option.some.injEq] at hj
      subst hj
      simp only [shaped, Bool.and_eq_true] at h
      exact h.1
    | succ j =>
      refine ih ?_ hj
      cases e with
      | ins i => simp only [shaped, Bool.and_eq_true] at h; exact h.2
      | _ => exact h

/-! ### Root maps -/

theorem maps_append' (a b : List Ev) : maps (a ++ b) = maps a ++ maps b := by simp [maps]

theorem maps_peepL (o : Bool) (p : Option Ins) (c : List Ev) : maps ((peepL o p c).map Item.ev) = maps c := by
  have pre : ∀ (p : Option Ins) (r : List Item), maps ((p.toList.map Item.ins ++ r).map Item.ev) = maps (r.map Item.ev) := by
    intro p r; cases p <;> rfl
  induction c generalizing p with
  | nil =>
    have := pre p []
    rw [List.append_nil] at this
    exact this
  | cons e c ih =>
    cases e with
    | ins i =>
      simp only [peepL]
      split
      · rw [ih]; rfl
      · rw [pre, ih]; rfl
    | label l => simp only [peepL]; rw [pre]; exact ih none
    | data l =>
      simp only [peepL]; rw [pre]
      show l :: maps _ = l :: maps c
      rw [ih]
    | flush => simp only [peepL]; rw [pre]; exact ih none
    | panic => exact ih p

/-! ### Which calls are external -/

mutual
/-- External functions have names other than `names`, and no external function is called as a value. -/
def Expr.clean (names : List String) : Expr → Bool
  | .int _ | .bool _ | .str _ | .typ _ | .fnRef _ _ _ | .var _ _ => true
  | .bin _ _ l r => l.clean names && r.clean names
  | .un _ _ e => e.clean names
  | .tern _ c x y => c.clean names && (x.clean names && y.clean names)
  | .arrLit _ e => e.clean names
  | .callFn f fi args => (!fi.ext || decide (f ∉ names)) && cleanL names args
  | .callVar _ fi args => !fi.ext && cleanL names args
  | .callExpr e fi args => !fi.ext && (e.clean names && cleanL names args)
  | .dot _ e _ => e.clean names
  | .index _ a i => a.clean names && i.clean names
def cleanL (names : List String) : List Expr → Bool
  | [] => true
  | e :: es => e.clean names && cleanL names es
end

mutual
def Stmt.clean (names : List String) : Stmt → Bool
  | .ret (some e) => e.clean names
  | .ret none => true
  | .ifs c => c.clean names
  | .asg _ l r => l.clean names && r.clean names
  | .loop c b => c.clean names && b.clean names
  | .block b => b.clean names
  | .expr e => e.clean names
def Chain.clean (names : List String) : Chain → Bool
  | .done => true
  | .els b => b.clean names
  | .cond c b n => c.clean names && (b.clean names && n.clean names)
def Stmts.clean (names : List String) : Stmts → Bool
  | .nil => true
  | .cons s ss => s.clean names && ss.clean names
end

def Body.clean (names : List String) : Body → Bool
  | .block ss => ss.clean names
  | .expr e => e.clean names
  | .cons _ _ _ => true

/-- Neither a call nor `leave`. -/
def Ev.idle : Ev → Bool
  | .ins (.call _) | .ins (.callReg _) | .ins (.callMem _) | .ins .leave => false
  | _ => true

theorem shaped_idle {names : List String} {c : List Ev} (h : ∀ x ∈ c, x.idle = true) : shaped names c = true := by
  induction c with
  | nil => rfl
  | cons e c ih =>
    have h1 := h e (by simp)
    have h2 := ih (fun x hx => h x (by simp [hx]))
    cases e with
    | ins i =>
      simp only [shaped, h2, Bool.and_true]
      cases i <;> first | rfl | cases h1
    | _ => exact h2

theorem shaped_cons {names : List String} {e : Ev} {c : List Ev} (he : e.idle = true) (hc : shaped names c = true) :
    shaped names (e :: c) = true := shaped_append (a := [e]) (shaped_idle (by simpa using he)) hc

theorem shaped_tag {names : List String} (t : TK) (r : Reg) : shaped names (tagAs t r) = true := by
  unfold tagAs; split <;> rfl

theorem shaped_untag {names : List String} (t : TK) (r : Reg) : shaped names (untagAs t r) = true := by
  unfold untagAs; split <;> rfl

theorem shaped_raw {names : List String} (fi : FnInfo) (t : TK) (r : Reg) : shaped names (rawConv fi t r) = true := by
  unfold rawConv
  split
  · split
    · rfl
    · rfl
    · rfl
    · exact shaped_untag _ _
    · rfl
  · rfl

theorem idle_spillAux (ts : List TyR) (i : Nat) (g : GS) : ∀ x ∈ (spillAux ts i g).1, x.idle = true := by
  induction ts generalizing i g with
  | nil => simp [spillAux]
  | cons t ts ih =>
    intro x hx
    simp only [spillAux, List.mem_append, List.mem_singleton] at hx
    rcases hx with hx | rfl
    · exact ih _ _ x hx
    · split <;> rfl

theorem shaped_spill {names : List String} (g : GS) : shaped names (spill g).1 = true := by
  unfold spill
  split
  · rfl
  · exact shaped_idle (idle_spillAux _ _ _)

theorem idle_restoreAux (ts : List TyR) (i : Nat) (g : GS) : ∀ x ∈ (restoreAux ts i g).1, x.idle = true := by
  induction ts generalizing i g with
  | nil => simp [restoreAux]
  | cons t ts ih =>
    have he : (match argRegs[i]? with | some r => Ev.ins (.pop r) | none => .panic).idle = true := by split <;> rfl
    intro x hx
    simp only [restoreAux] at hx
    split at hx
    · simp only [List.mem_cons] at hx
      rcases hx with rfl | rfl | hx
      · exact he
      · rfl
      · exact ih _ _ x hx
    · simp only [List.mem_cons] at hx
      rcases hx with rfl | hx
      · exact he
      · exact ih _ _ x hx

theorem shaped_restore {names : List String} (g : GS) : shaped names (restoreRegs g).1 = true := by
  unfold restoreRegs
  split
  · exact shaped_idle (idle_restoreAux _ _ _)
  · rfl

theorem shaped_finish {names : List String} (fi : FnInfo) (t : Ins) (ind : Bool) (g : GS)
    (ht : ∀ c, (fi.ext = false → followed c = true) → t.next names c = true) : shaped names (finishCall fi t ind g).1 = true := by
  unfold finishCall
  simp only
  generalize (if ind = true then g.dec else g) = g1
  refine shaped_append (by split <;> rfl) (shaped_append (by split <;> rfl) (shaped_append (by split <;> rfl) ?_))
  simp only [shaped, Bool.and_eq_true]
  refine ⟨ht _ ?_, shaped_append (by split; exact shaped_tag _ _; rfl) (shaped_append (by split <;> rfl)
    (shaped_append (by split <;> rfl) (shaped_restore _)))⟩
  intro he
  simp [he, gcMap, followed]

variable {slot : Nat → Nat} {names : List String}

mutual
theorem shaped_expr (e : Expr) (b : Bool) (g : GS) (h : e.clean names = true) : shaped names (genExpr slot e b g).1 = true := by
  match e with
  | .int i =>
    simp only [genExpr]
    refine shaped_cons ?_ (shaped_tag _ _)
    split <;> rfl
  | .bool v => rfl
  | .str s => rfl
  | .typ t => rfl
  | .var x t =>
    simp only [genExpr, slotIns]
    split
    · cases b <;> rfl
    · rfl
  | .fnRef f ext t => cases ext <;> rfl
  | .bin o t l r =>
    simp only [Expr.clean, Bool.and_eq_true] at h
    have h1 := shaped_expr l false g h.1
    have h2 := shaped_expr r false (genExpr slot l false g).2.inc h.2
    cases o <;> simp only [genExpr]
    all_goals
      repeat' first
        | exact h1
        | exact h2
        | exact shaped_tag _ _
        | exact shaped_untag _ _
        | rfl
        | refine shaped_append ?_ ?_
        | refine shaped_cons rfl ?_
  | .un o t e =>
    simp only [Expr.clean] at h
    have h1 := shaped_expr e false g h
    cases o <;> simp only [genExpr]
    · exact shaped_append h1 rfl
    · refine shaped_append h1 (shaped_cons rfl ?_)
      split <;> rfl
    · exact shaped_append h1 (shaped_append (shaped_untag _ _) (shaped_cons rfl (shaped_tag _ _)))
  | .tern t c x y =>
    simp only [Expr.clean, Bool.and_eq_true] at h
    simp only [genExpr]
    exact shaped_append (shaped_expr c false g h.1) (shaped_cons rfl (shaped_cons rfl (shaped_cons rfl (shaped_cons rfl
      (shaped_append (shaped_expr x false _ h.2.1) (shaped_cons rfl (shaped_cons rfl (shaped_append (shaped_expr y false _ h.2.2) rfl))))))))
  | .arrLit t e =>
    simp only [Expr.clean] at h
    simp only [genExpr]; exact shaped_expr e false g h
  | .callFn f fi args =>
    simp only [Expr.clean, Bool.and_eq_true, Bool.or_eq_true, Bool.not_eq_true'] at h
    simp only [genExpr]
    refine shaped_append (shaped_spill _) (shaped_append (shaped_args fi args 0 _ h.2) (shaped_finish _ _ _ _ ?_))
    intro c hc
    simp only [Ins.next, Bool.or_eq_true]
    exact h.1.imp hc id
  | .callVar x fi args =>
    simp only [Expr.clean, Bool.and_eq_true, Bool.not_eq_true'] at h
    simp only [genExpr]
    refine shaped_append (shaped_spill _) (shaped_append (shaped_args fi args 0 _ h.2) ?_)
    split
    · exact shaped_finish _ _ _ _ (fun c hc => hc h.1)
    · rfl
  | .callExpr e fi args =>
    simp only [Expr.clean, Bool.and_eq_true, Bool.not_eq_true'] at h
    simp only [genExpr]
    exact shaped_append (shaped_expr e false g h.2.1) (shaped_cons rfl (shaped_append (shaped_spill _)
      (shaped_append (shaped_args fi args 0 _ h.2.2) (shaped_finish _ _ _ _ (fun c hc => hc h.1)))))
  | .dot t e off =>
    simp only [Expr.clean] at h
    simp only [genExpr]
    exact shaped_append (shaped_expr e false g h) (by cases b <;> rfl)
  | .index t a i =>
    simp only [Expr.clean, Bool.and_eq_true] at h
    simp only [genExpr]
    refine shaped_append (shaped_expr a false g h.1) (shaped_cons rfl (shaped_append (shaped_expr i false _ h.2)
      (shaped_append (shaped_untag _ _) (shaped_cons rfl (shaped_cons rfl (shaped_cons rfl (shaped_append (shaped_untag _ _) ?_)))))))
    cases b <;> rfl
theorem shaped_args (fi : FnInfo) (es : List Expr) (i : Nat) (g : GS) (h : cleanL names es = true) :
    shaped names (genArgs slot fi es i g).1 = true := by
  match es with
  | [] => rfl
  | e :: es =>
    simp only [cleanL, Bool.and_eq_true] at h
    simp only [genArgs]
    refine shaped_append (shaped_expr e false g h.1) (shaped_append ?_ (shaped_args fi es (i + 1) _ h.2))
    split
    · exact shaped_cons rfl (shaped_raw _ _ _)
    · rfl
end

theorem shaped_exit (skip : Bool) : shaped names (genFnExit skip) = true := by cases skip <;> rfl

theorem shaped_return (skip : Bool) (e : Option Expr) (g : GS) (h : ∀ x, e = some x → x.clean names = true) :
    shaped names (genReturn slot skip e g).1 = true := by
  cases e with
  | none => exact shaped_exit _
  | some e => exact shaped_append (shaped_expr e false g (h e rfl)) (shaped_exit _)

mutual
theorem shaped_stmt (skip : Bool) (s : Stmt) (g : GS) (h : s.clean names = true) : shaped names (genStmt slot skip s g).1 = true := by
  match s with
  | .ret (some e) => simp only [genStmt]; exact shaped_return skip (some e) g (fun x hx => by cases hx; exact h)
  | .ret none => simp only [genStmt]; exact shaped_exit _
  | .ifs c => simp only [genStmt]; exact shaped_cons rfl (shaped_append (shaped_chain skip _ c _ h) rfl)
  | .asg d l r =>
    simp only [Stmt.clean, Bool.and_eq_true] at h
    unfold genStmt
    exact shaped_append (shaped_expr r false g h.2) (shaped_cons rfl (shaped_append (shaped_expr l true _ h.1) rfl))
  | .loop c b =>
    simp only [Stmt.clean, Bool.and_eq_true] at h
    simp only [genStmt]
    exact shaped_cons rfl (shaped_cons rfl (shaped_cons rfl (shaped_append (shaped_expr c false _ h.1) (shaped_cons rfl (shaped_cons rfl
      (shaped_append (shaped_stmts skip b _ h.2) rfl))))))
  | .block b => simp only [genStmt]; exact shaped_stmts skip b g h
  | .expr e => simp only [genStmt]; exact shaped_expr e false g h
theorem shaped_chain (skip : Bool) (exit : Label) (c : Chain) (g : GS) (h : c.clean names = true) :
    shaped names (genChain slot skip exit c g).1 = true := by
  match c with
  | .done => simp only [genChain]; rfl
  | .els b => simp only [genChain]; exact shaped_stmts skip b g h
  | .cond c b n =>
    simp only [Chain.clean, Bool.and_eq_true] at h
    simp only [genChain]
    exact shaped_append (shaped_expr c false g h.1) (shaped_cons rfl (shaped_cons rfl (shaped_cons rfl
      (shaped_append (shaped_stmts skip b _ h.2.1) (shaped_cons rfl (shaped_cons rfl (shaped_chain skip exit n _ h.2.2)))))))
theorem shaped_stmts (skip : Bool) (ss : Stmts) (g : GS) (h : ss.clean names = true) : shaped names (genStmts slot skip ss g).1 = true := by
  simp only [genStmts]
  exact shaped_stmtsGo skip ss _ h
theorem shaped_stmtsGo (skip : Bool) (ss : Stmts) (g : GS) (h : ss.clean names = true) : shaped names (genStmtsGo slot skip ss g).1 = true := by
  match ss with
  | .nil => simp only [genStmtsGo]; rfl
  | .cons s ss =>
    simp only [Stmts.clean, Bool.and_eq_true] at h
    simp only [genStmtsGo]
    exact shaped_append (shaped_stmt skip s g h.1) (shaped_stmtsGo skip ss _ h.2)
end

theorem idle_params (ps : List (Nat × TyR)) (i : Nat) (gc : GcS) : ∀ x ∈ (genParams ps i gc).1, x.idle = true := by
  induction ps generalizing i gc with
  | nil => simp [genParams]
  | cons p ps ih =>
    intro x hx
    simp only [genParams, List.mem_cons] at hx
    rcases hx with rfl | hx
    · split
      · unfold slotIns; split <;> rfl
      · rfl
    · exact ih _ _ x hx

theorem idle_fields (n i off : Nat) : ∀ x ∈ genFields n i off, x.idle = true := by
  induction n generalizing i off with
  | zero => simp [genFields]
  | succ n ih =>
    intro x hx
    simp only [genFields, List.mem_cons] at hx
    rcases hx with rfl | rfl | hx
    · rfl
    · rfl
    · exact ih _ _ x hx

theorem shaped_func (alloc : String) (fd : FnDef) (lbl : Nat) (h : fd.body.clean names = true) :
    shaped names (fd.inner alloc lbl) = true := by
  unfold FnDef.inner genFunc
  simp only [List.drop_succ_cons, List.drop_zero]
  refine shaped_append (shaped_idle (idle_params _ _ _)) (shaped_append ?_ rfl)
  revert h
  cases fd.body with
  | cons tag desc id =>
    intro _
    show shaped names (genCons alloc fd.params.length tag desc id _) = true
    unfold genCons
    refine shaped_cons rfl (shaped_cons rfl (shaped_cons rfl (shaped_cons rfl ?_)))
    refine Bool.and_eq_true_iff.2 ⟨rfl, ?_⟩
    refine shaped_cons rfl (shaped_append ?_ (shaped_exit _))
    split
    · exact shaped_cons rfl (shaped_idle (idle_fields _ _ _))
    · exact shaped_idle (idle_fields _ _ _)
  | block ss =>
    intro h
    refine shaped_append (shaped_stmts _ _ _ h) ?_
    split
    · exact shaped_exit _
    · rfl
  | expr e =>
    intro h
    exact shaped_return _ _ _ (fun x hx => by cases hx; exact h)

end Clara.Gen
