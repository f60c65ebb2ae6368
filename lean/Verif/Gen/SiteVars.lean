import Verif.Gen.Sites
import Verif.Gen.NoPanic
/-
The variables in scope at a call are variables of the function.
-/
namespace Clara.Gen

theorem siteAt_vars {sc : List (Nat × TyR)} {l : List (List Temp)} {s : Site} (h : s ∈ siteAt sc l) : s.vars = sc := by
  obtain ⟨ts, -, rfl⟩ := List.mem_map.1 h; rfl

mutual
theorem sitesS_vars (sc : List (Nat × TyR)) (st : Stmt) {s : Site} (h : s ∈ sitesS sc st) {x : Nat × TyR} (hx : x ∈ s.vars) :
    x ∈ sc ∨ x.1 ∈ st.vars := by
  match st with
  | .ret (some e) => rw [sitesS] at h; rw [siteAt_vars h] at hx; exact .inl hx
  | .ret none => simp [sitesS] at h
  | .ifs c => rw [sitesS] at h; exact sitesC_vars sc c h hx
  | .asg _ l r =>
    rw [sitesS, List.mem_append] at h
    rcases h with h | h <;> (rw [siteAt_vars h] at hx; exact .inl hx)
  | .loop c b =>
    rw [sitesS, List.mem_append] at h
    rcases h with h | h
    · rw [siteAt_vars h] at hx; exact .inl hx
    · exact (sitesB_vars sc b h hx).imp id (fun h => by simp [Stmt.vars, h])
  | .block b => rw [sitesS] at h; exact sitesB_vars sc b h hx
  | .expr e => rw [sitesS] at h; rw [siteAt_vars h] at hx; exact .inl hx
theorem sitesC_vars (sc : List (Nat × TyR)) (c : Chain) {s : Site} (h : s ∈ sitesC sc c) {x : Nat × TyR} (hx : x ∈ s.vars) :
    x ∈ sc ∨ x.1 ∈ c.vars := by
  match c with
  | .done => simp [sitesC] at h
  | .els b => rw [sitesC] at h; exact sitesB_vars sc b h hx
  | .cond e b n =>
    rw [sitesC, List.mem_append, List.mem_append] at h
    rcases h with h | h | h
    · rw [siteAt_vars h] at hx; exact .inl hx
    · exact (sitesB_vars sc b h hx).imp id (fun h => by simp [Chain.vars, h])
    · exact (sitesC_vars sc n h hx).imp id (fun h => by simp [Chain.vars, h])
theorem sitesB_vars (sc : List (Nat × TyR)) (ss : Stmts) {s : Site} (h : s ∈ sitesB sc ss) {x : Nat × TyR} (hx : x ∈ s.vars) :
    x ∈ sc ∨ x.1 ∈ ss.vars := by
  match ss with
  | .nil => simp [sitesB] at h
  | .cons st ss =>
    rw [sitesB, List.mem_append] at h
    rcases h with h | h
    · exact (sitesS_vars sc st h hx).imp id (fun h => by simp [Stmts.vars, h])
    · rcases sitesB_vars (st.scope sc) ss h hx with h | h
      · unfold Stmt.scope at h
        split at h
        · rw [List.mem_append, List.mem_singleton] at h
          rcases h with h | rfl
          · exact .inl h
          · right; simp [Stmts.vars, Stmt.vars, Expr.vars]
        · exact .inl h
      · right; simp [Stmts.vars, h]
end

theorem sites_syms {fd : FnDef} {s : Site} (h : s ∈ fd.sites) {x : Nat × TyR} (hx : x ∈ s.vars) : x.1 ∈ fd.syms := by
  have key : x ∈ fd.params ∨ x.1 ∈ fd.body.vars := by
    unfold FnDef.sites at h
    split at h
    · rename_i ss hb; rw [hb]; exact sitesB_vars _ _ h hx
    · rw [siteAt_vars h] at hx; exact .inl hx
    · rw [List.mem_singleton] at h; subst h; exact .inl hx
  exact addNew_np _ _ _ (key.imp (fun h => List.mem_map.2 ⟨x, h, rfl⟩) id)

end Clara.Gen
