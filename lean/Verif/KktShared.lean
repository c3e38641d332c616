/-
C26, the boundary of the claim: when one slack softens two constraints the elimination of the slacks drops their coupling
and the computed step is not the Newton step.
-/
import Verif.KktSolve

namespace Hpipm
open Finset

def exSDim : QpDim where
  N := 1
  nx := fun k => if k = 1 then 1 else 0
  nu := fun k => if k = 0 then 1 else 0
  nb := fun _ => 0
  nbx := fun _ => 0
  nbu := fun _ => 0
  ng := fun k => if k = 1 then 2 else 0
  ns := fun k => if k = 1 then 1 else 0
  nbxe := fun _ => 0
  nbue := fun _ => 0
  nge := fun _ => 0

/-- two general constraints of stage 1 share its only slack -/
def exSQp : OcpQp ℚ where
  dim := exSDim
  BAbt := fun _ _ _ => 1
  RSQrq := fun k i j => if i = 0 ∧ j = 0 then (if k = 0 then 5 else 1) else 0
  DCt := fun _ _ _ => 1
  b := fun _ _ => 1
  rqz := fun _ _ => 0
  d := fun _ _ => 0
  d_mask := fun _ _ => 1
  m := fun _ _ => 0
  Z := fun _ _ => 1
  idxb := fun _ _ => 0
  idxs_rev := fun k _ => if k = 1 then 0 else -1
  idxe := fun _ _ => 0
  diag_H_flag := fun _ => 0

def exSSt : KktSt ℚ where
  BAbt := exSQp.BAbt
  RSQrq := exSQp.RSQrq
  L := fun _ _ _ => 0
  P := fun _ _ _ => 0
  Ls := fun _ _ => 0
  AL0 := fun _ _ => 0
  AL1 := fun _ _ => 0
  l := fun _ _ => 0
  Pb := fun _ _ => 0
  Zs := fun _ _ => 0
  tmpN := fun _ => 0
  t0 := fun _ => 0
  t1 := fun _ => 0
  t2 := fun _ => 0
  t3 := fun _ => 0
  ux := fun _ _ => 0
  pi := fun _ _ => 0
  lam := fun _ _ => 0
  t := fun _ _ => 0

def exSSol : Sol ℚ where
  ux := fun _ _ => 0
  pi := fun _ _ => 0
  lam := fun _ _ => 1
  t := fun _ _ => 1

def exSCore : Core ℚ := coreMk (stOff (nct exSDim) 2) (fun _ => 1) (fun _ => 1) (fun _ => 0) (fun _ => 0) 1 2

/-- the square root used is exact at the pivots met, 4 and 9 -/
def exSOut (sqr : Bool) := factSolveKktStep (fun x : ℚ => if x = 9 then 3 else if x = 4 then 2 else x) 0 exSQp true sqr 0 0 exSCore exSSt

theorem exS_wf : exSQp.WF := by
  constructor
  · intro k j hk hj
    exact absurd hj (Nat.not_lt_zero _)
  · intro k j hk hj
    have : k = 0 ∨ k = 1 := by have : exSQp.dim.N = 1 := rfl; omega
    rcases this with rfl | rfl
    · left; rfl
    · right; exact ⟨le_refl _, (by decide : 0 < 1)⟩

theorem exS_core : CoreOf exSQp exSSol exSCore := ⟨rfl, fun _ _ _ _ => rfl, fun _ _ _ _ => rfl, fun _ _ _ _ => one_ne_zero⟩

/-- C26: all hypotheses of `factSolve_newton` hold except that a slack is shared; the routine returns without
raising the regularisation, with exact pivots, and its step violates stationarity -/
theorem shared_slack_not_newton (sqr : Bool) :
    exSQp.WF ∧ CoreOf exSQp exSSol exSCore ∧ exSCore.t_lam_min ≠ 1 ∧ ROk exSQp exSSt ∧ BOk exSQp exSSt ∧
    (∀ k i, k ≤ exSQp.dim.N → i < 2 * exSQp.dim.ns k → slackCurv exSQp 0 exSSol k i ≠ 0) ∧ ¬ Unshared exSQp ∧
    ∃ out, exSOut sqr = some out ∧ out.npd_reg_hess = false ∧ out.preg = 0 ∧
      ¬ NewtonStep exSQp exSSol (drOf exSQp out.sqr 0 out.preg) 0 (stepOf out.st) := by
  refine ⟨exS_wf, exS_core, by decide, fun _ _ _ _ _ _ => rfl, fun _ _ _ _ _ _ => rfl, ?_, ?_, ?_⟩
  · have : ∀ k, k ≤ 1 → ∀ i, i < 2 * exSQp.dim.ns k → slackCurv exSQp 0 exSSol k i ≠ 0 := by decide +kernel
    exact fun k i hk hi => this k hk i hi
  · intro h
    have := h 1 0 1 (by decide) (by decide) (by decide) (by decide) rfl
    omega
  · have hk : (exSOut sqr).map (fun o => (o.npd_reg_hess, o.preg, o.sqr, vG exSQp (stepOf o.st) ((stepOf o.st).lam 1) 1 0)) =
        some (false, 0, sqr, -5 / 9) := by cases sqr <;> decide +kernel
    cases ho : exSOut sqr with
    | none => rw [ho] at hk; cases hk
    | some out =>
      rw [ho] at hk
      simp only [Option.map_some, Option.some.injEq, Prod.mk.injEq] at hk
      refine ⟨out, rfl, hk.1, hk.2.1, fun h => ?_⟩
      have hg := h.g 1 0 (by decide) (by decide)
      rw [hk.2.2.2, hk.2.1] at hg
      have hz : drOf exSQp out.sqr 0 (0 : ℚ) 1 0 = 0 := by
        cases out.sqr
        · simp [drOf, drCl]
        · rfl
      rw [hz] at hg
      norm_num at hg

end Hpipm
