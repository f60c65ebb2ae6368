import Verif.Sema.Back
/-
`isTerminating` (`ast.go` 69-128) on statements before lowering, and the check for a missing return
(`semantic.go` 393-396).
-/
namespace Clara.Sema
open Clara.Gen

mutual
/-- One statement. -/
def SS.term : SS → Bool
  | .ret _ => true
  | .match_ _ .nil => false                                        -- `ast.go` 85-87
  | .match_ _ (.cons tag vars b next) => SCs.term (.cons tag vars b next)   -- 88-93
  | .ifs c => c.term                                               -- 95-117
  | .asg _ _ _ | .loop _ _ | .expr _ | .forR _ _ _ _ _ | .forA _ _ _ _ => false
/-- All branches, the last of which has to be an `else`. -/
def SCh.term : SCh → Bool
  | .done => false
  | .els b => b.term
  | .cond _ b n => b.term && n.term
/-- The last of the statements. -/
def SSs.term : SSs → Bool
  | .nil => false
  | .cons s .nil => s.term
  | .cons _ (.cons s ss) => SSs.term (.cons s ss)
/-- All cases. -/
def SCs.term : SCs → Bool
  | .nil => true
  | .cons _ _ b n => b.term && n.term
end

/-- The function passes the check for a missing return (`semantic.go` 393-396). -/
def SFn.returns (f : SFn) : Bool :=
  match f.body with
  | .block ss => f.retNothing || ss.term
  | _ => true

mutual
/-- The `match` statements in a statement. -/
def SS.matches : SS → List (Expr × SCs)
  | .ret _ | .asg _ _ _ | .expr _ => []
  | .loop _ b | .forR _ _ _ _ b | .forA _ _ _ b => b.matches
  | .ifs c => c.matches
  | .match_ e cs => (e, cs) :: cs.matches
def SCh.matches : SCh → List (Expr × SCs)
  | .done => []
  | .els b => b.matches
  | .cond _ b n => b.matches ++ n.matches
def SSs.matches : SSs → List (Expr × SCs)
  | .nil => []
  | .cons s ss => s.matches ++ ss.matches
def SCs.matches : SCs → List (Expr × SCs)
  | .nil => []
  | .cons _ _ b n => b.matches ++ n.matches
end

variable {σ : Type} {P : SProg σ} {O : Opts}

/-- One of the `match` statements was reached with a value whose tag has no case. -/
def Passed (O : Opts) (P : SProg σ) (ms : List (Expr × SCs)) : Prop :=
  O.pass = true ∧ ∃ e cs, (e, cs) ∈ ms ∧ ∃ ρ S v S' n, SBig O P (.expr ρ S e (some v) S') ∧ S'.heap v.enc = some (.int n) ∧ cs.find n = none

theorem Passed.mono {ms ms' : List (Expr × SCs)} (h : Passed O P ms) (hs : ∀ m ∈ ms, m ∈ ms') : Passed O P ms' := by
  obtain ⟨h0, e, cs, hm, h⟩ := h
  exact ⟨h0, e, cs, hs _ hm, h⟩

theorem find_term {n : BitVec 63} {vars : List (Nat × TyR)} {b : SSs} : ∀ cs : SCs, cs.term = true → cs.find n = some (vars, b) →
    b.term = true ∧ ∀ m ∈ b.matches, m ∈ cs.matches
  | .nil, _, h => by simp [SCs.find] at h
  | .cons tag vs b' nx, ht, h => by
    simp only [SCs.term, Bool.and_eq_true] at ht
    simp only [SCs.find] at h
    split at h
    · simp only [Option.some.injEq, Prod.mk.injEq] at h
      obtain ⟨rfl, rfl⟩ := h
      exact ⟨ht.1, fun m hm => by simp [SCs.matches, hm]⟩
    · obtain ⟨h1, h2⟩ := find_term nx ht.2 h
      exact ⟨h1, fun m hm => by simp [SCs.matches, h2 m hm]⟩

/-- What is shown of runs. -/
def Ends (O : Opts) (P : SProg σ) : SJd σ → Prop
  | .stmt _ _ s o _ _ => s.term = true → (∃ v, o = .ret v) ∨ Passed O P s.matches
  | .stmts _ _ s o _ _ => s.term = true → (∃ v, o = .ret v) ∨ Passed O P s.matches
  | .chain _ _ s o _ _ => s.term = true → (∃ v, o = .ret v) ∨ Passed O P s.matches
  | _ => True

theorem ends {j : SJd σ} (h : SBig O P j) : Ends O P j := by
  induction h with
  | retE _ _ => exact fun _ => .inl ⟨_, rfl⟩
  | retN => exact fun _ => .inl ⟨_, rfl⟩
  | ifs _ i => exact fun ht => i ht
  | asgVar | asgMem | loopF | loopT | expr | forR | forA => exact fun ht => by simp [SS.term] at ht
  | loopR => exact fun ht => by simp [SS.term] at ht
  | @match_ ρ S e cs v S1 n vars b vals o ρ1 S' h1 h2 h3 h4 h5 h6 i1 i2 =>
    intro ht
    cases cs with
    | nil => simp [SS.term] at ht
    | cons tag vs b' nx =>
      rw [SS.term] at ht
      obtain ⟨h7, h8⟩ := find_term _ ht h3
      rcases i2 h7 with h | h
      · exact .inl h
      · exact .inr (h.mono (fun m hm => by simp [SS.matches, h8 m hm]))
  | @matchPass ρ S e cs v S1 n h0 h1 h2 h3 i1 =>
    exact fun ht => .inr ⟨h0, e, cs, by simp [SS.matches], ρ, S, v, S1, n, h1, h2, h3⟩
  | matchNil => exact fun ht => by simp [SS.term] at ht
  | chDone => exact fun ht => by simp [SCh.term] at ht
  | chElse _ i => exact fun ht => i ht
  | chT _ _ _ i =>
    intro ht
    simp only [SCh.term, Bool.and_eq_true] at ht
    exact (i ht.1).imp id (fun h => h.mono (fun m hm => by simp [SCh.matches, hm]))
  | chF _ _ _ i =>
    intro ht
    simp only [SCh.term, Bool.and_eq_true] at ht
    exact (i ht.2).imp id (fun h => h.mono (fun m hm => by simp [SCh.matches, hm]))
  | nil => exact fun ht => by simp [SSs.term] at ht
  | @cons ρ S s ss ρ1 S1 o ρ2 S2 h1 h2 i1 i2 =>
    intro ht
    cases ss with
    | nil =>
      rw [SSs.term] at ht
      cases h2
      rcases i1 ht with ⟨v, h⟩ | h
      · cases h
      · exact .inr (h.mono (fun m hm => by simp [SSs.matches, hm]))
    | cons s' ss' =>
      rw [SSs.term] at ht
      rcases i2 ht with h | h
      · exact .inl h
      · refine .inr (h.mono (fun m hm => ?_))
        rw [SSs.matches]
        exact List.mem_append_right _ hm
  | consR _ i => exact fun _ => .inl ⟨_, rfl⟩
  | _ => trivial

end Clara.Sema
