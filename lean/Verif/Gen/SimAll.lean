import Verif.Gen.Dyn
/-
The main theorem about generated code.
-/
namespace Clara.Gen
variable {σ : Type} {P : Prog σ} {I : Image σ} {C : List Ev} {lim top : Nat}
  {d : Nat} {ρ ρ1 ρ2 : Env} {S S1 S2 S3 : Store σ}

/-- Whatever the semantics derives, the code does. -/
theorem sim (X : Ctx P I C lim top) {J : Jd σ} (h : Big P d J) : Sim P I C lim top d J := by
  induction h with
  | int => exact sim_int X _
  | bool => exact sim_bool X _
  | str => exact sim_str X _
  | typ => exact sim_typ _
  | var h => exact sim_var X h
  | fnRef => exact sim_fnRef X _ _
  | bin _ _ he ih1 ih2 => exact sim_bin X ih1 ih2 he
  | un _ he ih => exact sim_un X ih he
  | ternT _ _ ih1 ih2 => exact sim_tern X ih1 (fun _ => ih2) (by simp)
  | ternF _ _ ih1 ih2 => exact sim_tern X ih1 (by simp) (fun _ => ih2)
  | arrLit _ ih => exact sim_arrLit ih
  | callFn hx _ hfd hn hsk _ hd ih1 ih2 => subst hn; exact sim_callFn X hx ih1 hfd hsk ih2 hd
  | callRt hx _ hrt hd ih => exact sim_callRt X hx ih hrt hd
  | callExt hx _ he hr hd ih => exact sim_callExt X hx ih he hr hd
  | callVar hx hρ _ hfd hsk _ hd ih1 ih2 => exact sim_callVar X hx hρ ih1 hfd hsk ih2 hd
  | callExpr hx _ _ hfd hsk _ hd ih0 ih1 ih2 => exact sim_callExpr X hx ih0 ih1 hfd hsk ih2 hd
  | dot _ hh ih => exact sim_dot X ih hh
  | index _ _ h1 h2 h3 h4 ih1 ih2 => exact sim_index X ih1 ih2 h1 h2 h3 h4
  | argsNil => exact sim_argsNil
  | argsCons _ _ ih1 ih2 => exact sim_argsCons X ih1 ih2
  | locVar => exact sim_locVar X
  | locDot _ ih => exact sim_locDot X ih
  | locIndex _ _ h1 h2 h3 ih1 ih2 => exact sim_locIndex X ih1 ih2 h1 h2 h3
  | retE _ ih => exact sim_retE X ih
  | retN => exact sim_retN X
  | ifs _ ih => exact sim_ifs X ih
  | asgVar _ _ ih1 ih2 => exact sim_asgVar X ih1 ih2
  | asgMem _ _ hw ih1 ih2 => exact sim_asgMem X ih1 ih2 hw
  | loopF _ ih => exact sim_loopF X ih
  | loopT _ _ _ ih1 ih2 ih3 => exact sim_loopT X ih1 ih2 (.inl ⟨rfl, ih3⟩)
  | loopR _ _ ih1 ih2 => exact sim_loopT X ih1 ih2 (.inr ⟨_, rfl, rfl, rfl⟩)
  | block _ ih => exact sim_block ih
  | expr _ ih => exact sim_exprS ih
  | chDone => exact sim_chDone
  | chElse _ ih => exact sim_chElse ih
  | chT _ _ ih1 ih2 => exact sim_chT X ih1 ih2
  | chF _ _ ih1 ih2 => exact sim_chF X ih1 ih2
  | nil => exact sim_nil
  | cons _ _ ih1 ih2 => exact sim_cons X ih1 ih2
  | consR _ ih => exact sim_consR X ih
  | fnRet hb _ _ ih => exact sim_fnRet X hb ih
  | fnEnd hb _ hn hs ih =>
    refine sim_fnEnd X hb hn ?_ ih
    cases hl : Stmts.retLast _ with
    | false => rfl
    | true => exact (retLast_norm hl hs).elim
  | fnExpr hb _ _ ih => exact sim_fnExpr X hb ih
  | fnCons hb hl hrt hd hw => exact sim_fnCons X hb hl hrt hd hw
  | fnDyn h1 h2 _ _ h6 h7 h8 _ h9 i1 i2 ih => exact sim_dyn X h1 h2 i1 i2 h6 h7 h8 ih h9

end Clara.Gen
