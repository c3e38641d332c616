/-
A concrete problem meeting the hypotheses of the KKT theorems (C25, C28): a two-stage QP over the reals with a
dynamics equation, a box bound and a soft general constraint, at the iterate with all multipliers and slacks one.
-/
import Verif.KktSolve
import Mathlib.Analysis.Real.Sqrt

namespace Hpipm
open Finset

/-- the example QP of `ResProps`, over the reals -/
noncomputable def exKQp : OcpQp ℝ where
  dim := exRDim
  BAbt := fun _ _ _ => 1
  RSQrq := fun _ i j => if i = 0 ∧ j = 0 then 1 else 0
  DCt := fun _ _ _ => 1
  b := fun _ _ => 1
  rqz := fun _ _ => 0
  d := fun k j => if k = 0 then -5 else if j = 0 then 1 else if j = 1 then -10 else 0
  d_mask := fun _ _ => 1
  m := fun _ _ => 0
  Z := fun _ _ => 1
  idxb := fun _ _ => 0
  idxs_rev := fun k _ => if k = 1 then 0 else -1
  idxe := fun _ _ => 0
  diag_H_flag := fun _ => 0

noncomputable def exKSt : KktSt ℝ where
  BAbt := exKQp.BAbt
  RSQrq := exKQp.RSQrq
  L := fun _ _ _ => 0
  P := fun _ _ _ => 0
  Ls := fun _ _ => 0
  AL0 := fun _ _ => 0
  AL1 := fun _ _ => 0
  l := fun _ _ => 0
  Pb := fun _ _ => 0
  Zs := fun _ _ => 0
  tmpN := fun _ => 0
  t0 := fun _ => 0
  t1 := fun _ => 0
  t2 := fun _ => 0
  t3 := fun _ => 0
  ux := fun _ _ => 0
  pi := fun _ _ => 0
  lam := fun _ _ => 0
  t := fun _ _ => 0

noncomputable def exKSol : Sol ℝ where
  ux := fun _ _ => 0
  pi := fun _ _ => 0
  lam := fun _ _ => 1
  t := fun _ _ => 1

noncomputable def exKCore : Core ℝ := coreMk (stOff (nct exRDim) 2) (fun _ => 1) (fun _ => 1) (fun _ => 0) (fun _ => 0) 1 2

noncomputable def exKRes : Res ℝ where
  res_g := fun _ _ => 0
  res_b := fun _ _ => 0
  res_d := fun _ _ => 0
  res_m := fun _ _ => 0
  obj := 0
  dual_gap := 0
  res_mu := 0
  res_mu_sum := 0

noncomputable def exKWs : ResWs ℝ where
  tmp0 := fun _ => 0
  tmp1 := fun _ => 0
  tmp_lam_mask := fun _ => 0
  valid_nc_mask := false
  mask_constr := false
  nc_mask_inv := 0

theorem exK_sqrt : ∀ x : ℝ, 0 < x → Real.sqrt x * Real.sqrt x = x := fun x hx => Real.mul_self_sqrt hx.le

theorem exKQp_wf : exKQp.WF := by
  constructor
  · intro k j hk hj
    have : k = 0 ∨ k = 1 := by have : exKQp.dim.N = 1 := rfl; omega
    rcases this with rfl | rfl
    · exact (by decide : 0 < 1 + 0)
    · simp [exKQp, exRDim] at hj
  · intro k j hk hj
    have : k = 0 ∨ k = 1 := by have : exKQp.dim.N = 1 := rfl; omega
    rcases this with rfl | rfl
    · left; rfl
    · right; exact ⟨le_refl _, (by decide : 0 < 1)⟩

theorem exKQp_unshared : Unshared exKQp := by
  intro k j j' hk hj hj' _ _
  have : k = 0 ∨ k = 1 := by have : exKQp.dim.N = 1 := rfl; omega
  rcases this with rfl | rfl
  · have : exKQp.dim.nb 0 + exKQp.dim.ng 0 = 1 := rfl
    omega
  · have : exKQp.dim.nb 1 + exKQp.dim.ng 1 = 1 := rfl
    omega

theorem exKQp_convex : (view exKQp).Convex := by
  intro p
  rw [UserQp.quad]
  apply sum_nonneg
  intro k hk
  have : k = 0 ∨ k = 1 := by have := mem_range.mp hk; have : (view exKQp).N = 1 := rfl; omega
  have R0 : (view exKQp).R 0 0 0 = 1 := by
    rw [view_R _ _ 0 0 (by decide) (by decide)]; simp [exKQp]
  rcases this with rfl | rfl
  · have h1 : (view exKQp).nu 0 = 1 := rfl
    have h2 : (view exKQp).nx 0 = 0 := rfl
    have h3 : (view exKQp).ns 0 = 0 := rfl
    simp only [UserQp.stageQuad, h1, h2, h3, sum_range_one, range_zero, sum_empty, UserQp.sym, R0, le_refl, if_true]
    nlinarith [mul_self_nonneg (p.u 0 0)]
  · have h1 : (view exKQp).nu 1 = 0 := rfl
    have h2 : (view exKQp).nx 1 = 1 := rfl
    have h3 : (view exKQp).ns 1 = 1 := rfl
    have h4 : (view exKQp).Q 1 0 0 = 1 := by
      rw [view_Q _ _ 0 0 (by decide) (by decide)]; simp [exKQp, exRDim]
    have h5 : (view exKQp).Zl 1 0 = 1 := by rw [view_Zl _ _ 0 (by decide)]; simp [exKQp]
    have h6 : (view exKQp).Zu 1 0 = 1 := by rw [view_Zu _ _ 0 (by decide)]; simp [exKQp]
    simp only [UserQp.stageQuad, h1, h2, h3, sum_range_one, range_zero, sum_empty, UserQp.sym, h4, h5, h6, le_refl, if_true]
    nlinarith [mul_self_nonneg (p.x 1 0), mul_self_nonneg (p.sl 1 0), mul_self_nonneg (p.su 1 0)]


theorem exK_core : CoreOf exKQp exKSol exKCore := ⟨rfl, fun _ _ _ _ => rfl, fun _ _ _ _ => rfl, fun _ _ _ _ => one_ne_zero⟩

theorem exK_int : Interior exKQp exKSol := fun _ _ _ _ => ⟨zero_le_one, zero_lt_one⟩

theorem exK_strict : StrictlyConvex exKQp (fun _ _ => 1) 1 :=
  strictlyConvex_of_convex exKQp exKQp_convex _ 1 one_pos (fun _ _ _ _ => one_pos)

/-- C25: all hypotheses of `factSolve_total` and `factSolve_full_step` hold here, for both algorithms: the routine
returns, and the returned step zeroes the dynamics and constraint residuals of the problem -/
example (sqr : Bool) : ∃ out, factSolveKktStep Real.sqrt 0 (stepQp exKQp (resCompute exKQp exKSol exKRes exKWs)) true sqr 1 0
      exKCore exKSt = some out ∧
    let r' := resCompute exKQp (exKSol.add (stepOf out.st)) exKRes exKWs
    r'.res_b 0 0 = 0 ∧ r'.res_d 0 0 = 0 ∧ r'.res_d 1 3 = 0 ∧
    r'.res_g 1 2 = -1 * (stepOf out.st).ux 1 2 ∧ r'.res_m 1 0 = 1 * ((stepOf out.st).lam 1 0 * (stepOf out.st).t 1 0) := by
  obtain ⟨out, h, hn, -⟩ := factSolve_total Real.sqrt exK_sqrt 0 (stepQp exKQp (resCompute exKQp exKSol exKRes exKWs))
    exKQp_wf (le_refl 1) exKSol exK_int true sqr 1 0 exK_strict exKCore ⟨exK_core.nc, exK_core.lam, exK_core.t, exK_core.pos⟩
    (by decide) exKSt (fun _ _ _ _ _ _ => rfl) (fun _ _ _ _ _ _ => rfl)
  refine ⟨out, h, ?_⟩
  obtain ⟨h1, h2, h3, h4⟩ := factSolve_full_step Real.sqrt exK_sqrt 0 exKQp exKQp_wf (le_refl 1) exKQp_unshared
    (fun _ _ _ _ => Or.inr rfl) exKSol (fun _ _ _ _ h => absurd h one_ne_zero) sqr 1 0 exKCore exK_core (by decide) exKSt
    (fun _ _ _ _ _ _ => rfl) (fun _ _ _ _ _ _ => rfl)
    (fun k i hk hi => (slackCurv_pos exK_strict exKSol exK_int k i hk hi).ne') exKRes exKRes exKWs exKWs
    (fun h => nomatch h) (fun h => nomatch h) out h hn
  exact ⟨h2 0 0 (by decide) (by decide), h3 0 0 (by decide) (by decide), h3 1 3 (by decide) (by decide),
    h1 1 2 (by decide) (by decide), h4 1 0 (by decide) (by decide)⟩

/-- C28: two Newton steps of this problem agree -/
example (s s' : Sol ℝ) (h : NewtonStep exKQp exKSol (fun _ _ => 1) 1 s) (h' : NewtonStep exKQp exKSol (fun _ _ => 1) 1 s') :
    s.ux 0 0 = s'.ux 0 0 :=
  (newton_unique exKQp exKQp_wf exKSol exK_int _ 1 exK_strict s s' h h').1 0 0 (by decide) (by decide)

/-- C27: the hypotheses of `resolve_agrees` hold here, for a new right-hand side and both algorithms -/
example (sqr sqr' : Bool) : ∃ out out', factSolveKktStep Real.sqrt 0 exKQp true sqr 1 0 exKCore exKSt = some out ∧
    factSolveKktStep Real.sqrt 0 (withRhs exKQp (fun _ _ => 3) (fun _ _ => 7) exKQp.d exKQp.m) true sqr' 1 0 exKCore exKSt = some out' ∧
    (stepOf (solveKktStep (withRhs exKQp (fun _ _ => 3) (fun _ _ => 7) exKQp.d exKQp.m) true out.sqr false out.core out.st).2).ux 1 0
      = (stepOf out'.st).ux 1 0 := by
  obtain ⟨out, out', h, h', h1, -⟩ := resolve_agrees Real.sqrt exK_sqrt 0 0 exKQp exKQp_wf (le_refl 1) exKQp_unshared exKSol exK_int
    true sqr sqr' 1 0 0 exK_strict exKCore exKCore exK_core (by decide) exK_core (by decide) exKSt exKSt
    (fun _ _ _ _ _ _ => rfl) (fun _ _ _ _ _ _ => rfl) (fun _ _ _ _ _ _ => rfl) (fun _ _ _ _ _ _ => rfl)
    (fun _ _ => 3) (fun _ _ => 7) exKQp.d exKQp.m false (fun h => nomatch h)
  exact ⟨out, out', h, h', h1 1 0 (by decide) (by decide)⟩

end Hpipm
