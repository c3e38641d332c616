/-
Non-vacuity of C89, C90: the hypotheses hold for a two-stage QP over the reals, in all formulations.
-/
import Verif.MehForm
import Verif.KktEx

namespace Hpipm
open Finset

/-- arguments: cold start, predictor-corrector, complementarity tolerance `tol`; `abs` formulation, `cond`itional correction -/
noncomputable def exMehArg (abs cond : ℤ) (reg tol : ℝ) : IpmArg ℝ where
  r := fun f => match f with
    | .mu0 => 25
    | .lam_min => 1
    | .t_min => 1
    | .reg_prim => reg
    | .res_m_max => tol
    | _ => 0
  i := fun f => match f with
    | .iter_max => 5
    | .t_lam_min => 2
    | .comp_dual_sol_eq => 1
    | .pred_corr => 1
    | .cond_pred_corr => cond
    | .abs_form => abs
    | _ => 0

noncomputable def exMehEnv (sqr : Bool) (abs cond : ℤ) (reg tol : ℝ) : Env ℝ where
  sq := Real.sqrt
  fuel := 0
  qp := exKQp
  arg := exMehArg abs cond reg tol
  sqr := sqr
  lqf := 0
  statMax := 5
  lq := fun _ _ _ _ => none
  factOnly := fun _ _ st => st

theorem exMeh_keeps (sqr : Bool) (abs cond : ℤ) (reg tol : ℝ) : (exMehEnv sqr abs cond reg tol).Keeps :=
  ⟨fun _ _ _ _ _ h => (nomatch h), fun _ _ _ => MKeep.refl _ _⟩

theorem exMeh_init (sqr : Bool) (abs cond : ℤ) (reg tol : ℝ) : InitOk (exMehEnv sqr abs cond reg tol) := by
  left
  show (0 : ℤ) < 2 ∧ (0 : ℝ) < 25 ∧ 0 < Real.sqrt 25 ∧ Real.sqrt 25 * Real.sqrt 25 = 25
  exact ⟨by decide, by norm_num, Real.sqrt_pos.mpr (by norm_num), Real.mul_self_sqrt (by norm_num)⟩

theorem exMeh_hyp (sqr : Bool) (abs cond : ℤ) {reg : ℝ} (hreg : 0 < reg) (tol : ℝ) : MHyp (exMehEnv sqr abs cond reg tol) where
  hsq := fun x hx => Real.mul_self_sqrt hx.le
  wf := exKQp_wf
  hN := le_refl 1
  unsh := exKQp_unshared
  m01 := fun _ _ _ _ => Or.inr rfl
  cvx := strictlyConvex_of_convex exKQp exKQp_convex _ _ hreg (fun _ _ _ _ => hreg)
  dual := by show (1 : ℤ) ≠ 0; decide
  lqf := rfl
  clip := rfl
  lmin := by show (0 : ℝ) < 1; norm_num
  tmin := by show (0 : ℝ) < 1; norm_num
  itp := rfl
  itc := le_refl (0 : ℤ)

theorem exMeh_on : onCount exKQp ≠ 0 := by
  unfold onCount
  simp only [exKQp, if_true, Finset.sum_const, smul_eq_mul, mul_one, card_range]
  decide

/-- a workspace of the right sizes -/
def ExSized (s : Ipm ℝ) : Prop := s.core.nv = stOff (nvt exRDim) 2 ∧ s.core.ne = stOff (net exRDim) 1 ∧ s.core.nc = stOff (nct exRDim) 2

/-- C89 is not vacuous: for either formulation, either form of the factorisation and any contents of the workspace the solve is a
Mehrotra run of at least one iteration -/
example (sqr : Bool) (abs cond : ℤ) (sol : Sol ℝ) (s : Ipm ℝ) (hs : ExSized s) :
    ∃ o, ipmSolve (exMehEnv sqr abs cond 1 (-1)) 5 sol s = some o ∧ 1 ≤ o.iter ∧
      MehSolve Real.sqrt exKQp (exMehArg abs cond 1 (-1)) sol o.iter o.status (solOf exRDim o.s.core) := by
  obtain ⟨o, ho, hm⟩ := ipm_mehrotra (exMehEnv sqr abs cond 1 (-1)) (exMeh_hyp sqr abs cond one_pos (-1)) (exMeh_keeps _ _ _ _ _)
    (exMeh_init _ _ _ _ _) 5 (le_refl _) sol s ⟨hs.1, hs.2.1, hs.2.2⟩ exMeh_on
  refine ⟨o, ho, ?_, hm⟩
  obtain ⟨z, ap, ad, ⟨-, p0, d0⟩, -, hend, -⟩ := hm
  by_contra hc
  have h0 : o.iter = 0 := by omega
  rw [h0] at hend
  rcases hend with h | h
  · have : (5 : ℤ) ≤ 0 := h
    omega
  · rw [p0, d0] at h
    refine h ⟨?_, ?_, fun _ => Or.inr (Or.inr (Or.inr (Or.inl (Or.inl ?_)))), fun _ => lt_of_lt_of_le ?_ (abs_nonneg _)⟩
    · show (0 : ℝ) < 1; norm_num
    · show (0 : ℝ) < 1; norm_num
    · show (-1 : ℝ) < 0; norm_num
    · show (-1 : ℝ) < 0; norm_num

/-- C90 is not vacuous: the square root form with one workspace and the classical form with another -/
example (abs cond : ℤ) (tol : ℝ) (sol sol' : Sol ℝ) (s s' : Ipm ℝ) (hs : ExSized s) (hs' : ExSized s') :
    ∃ o o', ipmSolve (exMehEnv false abs cond 1 tol) 5 sol s = some o ∧ ipmSolve (exMehEnv true abs cond 1 tol) 5 sol' s' = some o' ∧
      o.iter = o'.iter ∧ o.status = o'.status ∧ SolEq exRDim (solOf exRDim o.s.core) (solOf exRDim o'.s.core) :=
  ipm_history_independent (exMehEnv false abs cond 1 tol) (exMehEnv true abs cond 1 tol) rfl rfl rfl (exMeh_hyp false abs cond one_pos tol) rfl
    (exMeh_keeps _ _ _ _ _) (exMeh_keeps _ _ _ _ _) (exMeh_init _ _ _ _ _) 5 5 (le_refl _) (le_refl _) sol sol' (Or.inl rfl) s s'
    ⟨hs.1, hs.2.1, hs.2.2⟩ ⟨hs'.1, hs'.2.1, hs'.2.2⟩ exMeh_on

example : SameButForm (exMehArg 0 1 0 1) (exMehArg 1 1 0 1) :=
  ⟨fun _ => rfl, fun f hf => by cases f <;> first | rfl | exact absurd rfl hf⟩

/-- such workspaces exist -/
example (s : Ipm ℝ) : ∃ c : Core ℝ, ExSized { s with core := c } :=
  ⟨{ s.core with
      nv := stOff (nvt exRDim) 2
      ne := stOff (net exRDim) 1
      nc := stOff (nct exRDim) 2 }, rfl, rfl, rfl⟩

end Hpipm
