/-
C106: condensing of the solution of a QCQP, COND_QCQP_COND_SOL, cond/x_cond_qcqp.c:891-946, against COND_QCQP_EXPAND_SOL.
-/
import Verif.CondQcExp
import Verif.CondSolEx

namespace Hpipm
open Finset
set_option linter.unusedSectionVars false

section
variable {K : Type*} [Field K] [LinearOrder K] [IsStrictOrderedRing K]

/-- COND_QCQP_COND_SOL, x_cond_qcqp.c:891-946: COND_SOL for the aliased QP, whose general constraints are the linear and the quadratic ones
(`ocp_qp->dim->qp_dim`) -/
def condQcSol (Q : Qcqp K) (arg : CondArg) (sol : Sol K) (ds : DSol K) : DSol K := condSolFwd Q.inner arg sol ds

/-- C106: without soft constraints, expanding the condensed solution of a QCQP gives back every trajectory that satisfies the dynamics, the multipliers
and slacks of the boxes, general and quadratic constraints, and (last stage not condensed) the last equality multiplier -/
theorem condQcSol_round (Q : Qcqp K) (arg : CondArg) (ws : CondWs K) (Dt : ℕ → Mat K) (tx : Vec K) (sol sol0 : Sol K) (ds : DSol K) (N : ℕ)
    (htop : condTop Q.base.dim.N arg = some N) (hp : arg.comp_prim_sol % 2 ≠ 0) (he : arg.comp_dual_sol_eq % 2 ≠ 0) (hi : arg.comp_dual_sol_ineq % 2 ≠ 0)
    (hns : ∀ k, k ≤ N → Q.base.dim.ns k = 0)
    (hd : ∀ k i, k < N → i < Q.base.dim.nx (k + 1) → dynRes Q.base sol.ux k i = 0) :
    let out := (condQcExp Q arg ws Dt tx (condQcSol Q arg sol ds) sol0).2
    (∀ k, k ≤ N →
      (∀ j, j < Q.base.dim.nu k + Q.base.dim.nx k → out.ux k j = sol.ux k j) ∧
      ∀ j, j < 2 * Q.base.dim.nb k + 2 * (Q.base.dim.ng k + Q.nq k) → out.lam k j = sol.lam k j ∧ out.t k j = sol.t k j) ∧
    (arg.cond_last_stage = false → ∀ i, i < Q.base.dim.nx Q.base.dim.N → out.pi (Q.base.dim.N - 1) i = sol.pi (Q.base.dim.N - 1) i) := by
  intro out
  have R := condSol_round_of { Q.inner with DCt := (loop (Q.base.dim.N + 1) (condQcLin Q out.ux) (Dt, tx)).1 } arg sol sol0 out ds N htop
    (fun h => hp (by rw [h]; rfl)) (fun h => he (by rw [h]; rfl)) (fun h => hi (by rw [h]; rfl)) hns hd
    (condQcExp_val Q arg ws Dt tx (condQcSol Q arg sol ds) sol0 N htop hp he hi)
  exact ⟨fun k hk => ⟨fun j hj => R.ux k j hk hj, fun j hj => ⟨R.lam k j hk hj, R.t k j hk hj⟩⟩, R.last⟩

end

/-- a QCQP on the dynamics `x1 = u0 + 1` with one quadratic constraint per stage -/
def exQsQ : Qcqp ℚ := { exCq 0 1 0 0 3 1 with base := exCfQp, nq := fun _ => 1 }

/-- the hypotheses of `condQcSol_round` are met; positions 1 and 3 of `lam` belong to the quadratic constraint -/
example (ws : CondWs ℚ) (Dt : ℕ → Mat ℚ) (tx : Vec ℚ) (sol0 : Sol ℚ) (ds : DSol ℚ) :
    let out := (condQcExp exQsQ exQeArg ws Dt tx (condQcSol exQsQ exQeArg exCfsSol ds) sol0).2
    out.ux 1 0 = 3 ∧ out.lam 0 1 = 11 ∧ out.lam 1 3 = 17 ∧ out.t 1 1 = 35 := by
  intro out
  obtain ⟨h1, -⟩ := condQcSol_round exQsQ exQeArg ws Dt tx exCfsSol sol0 ds 1 rfl (by decide) (by decide) (by decide) (fun _ _ => rfl) (by
    intro k i hk hi
    obtain rfl : k = 0 := by omega
    have : i < 1 := hi
    obtain rfl : i = 0 := by omega
    decide +kernel)
  refine ⟨((h1 1 (by decide)).1 0 (by decide)).trans ?_, (((h1 0 (by decide)).2 1 (by decide)).1).trans ?_,
    (((h1 1 (by decide)).2 3 (by decide)).1).trans ?_, (((h1 1 (by decide)).2 1 (by decide)).2).trans ?_⟩ <;> decide +kernel

end Hpipm
