/-
C104: concrete problems for the round trip COND_SOL, EXPAND_SOL.
-/
import Verif.CondSol

namespace Hpipm

/-- a trajectory of `exCfQp` (`x1 = u0 + 1`): `u0 = 2`, `x0 = 5`, `x1 = 3`, multipliers and slacks all different -/
def exCfsSol : Sol ℚ where
  ux := fun k j => if k = 0 then (if j = 0 then 2 else 5) else 3
  pi := fun _ _ => 7
  lam := fun k j => 10 + 4 * k + j
  t := fun k j => 30 + 4 * k + j

def exCfsZero : Sol ℚ := ⟨fun _ _ => 0, fun _ _ => 0, fun _ _ => 0, fun _ _ => 0⟩
def exCfsD : DSol ℚ := ⟨fun _ => 0, fun _ => 0, fun _ => 0, fun _ => 0⟩

/-- the hypotheses of `condSol_round` are met -/
example : CsRound exCfQp 1 true exCfsSol (expandSol exCfQp exCfArg exCfWs (condSolFwd exCfQp exCfArg exCfsSol exCfsD) exCfsZero).2 :=
  condSol_round exCfQp exCfArg exCfWs exCfsSol exCfsZero exCfsD 1 rfl (by decide) (by decide) (by decide) (fun _ _ => rfl) (by
    intro k i hk hi
    obtain rfl : k = 0 := by omega
    have : i < 1 := hi
    obtain rfl : i = 0 := by omega
    decide +kernel)

/-- the condensed solution is not trivial: inputs, first state, multipliers of the input box and of the state box -/
example : (condSolFwd exCfQp exCfArg exCfsSol exCfsD).v 0 = 2 ∧ (condSolFwd exCfQp exCfArg exCfsSol exCfsD).v 1 = 5
    ∧ (condSolFwd exCfQp exCfArg exCfsSol exCfsD).lam 0 = 10 ∧ (condSolFwd exCfQp exCfArg exCfsSol exCfsD).lam 1 = 14
    ∧ (condSolFwd exCfQp exCfArg exCfsSol exCfsD).lam 2 = 11 ∧ (condSolFwd exCfQp exCfArg exCfsSol exCfsD).lam 3 = 15 := by decide +kernel

/-- soft input box at stage 0, soft general constraint at stage 1 -/
def exCfsDim : QpDim where
  N := 1
  nx := fun _ => 1
  nu := fun k => if k = 0 then 1 else 0
  nb := fun k => if k = 0 then 1 else 0
  nbx := fun _ => 0
  nbu := fun k => if k = 0 then 1 else 0
  ng := fun k => if k = 0 then 0 else 1
  ns := fun _ => 1

def exCfsQp : OcpQp ℚ := { exCfQp with
  dim := exCfsDim
  DCt := fun _ _ _ => 1
  idxs_rev := fun _ _ => 0 }

/-- `exCfsSol` with different slacks at the two stages: lower 10, upper 11 at stage 0; lower 20, upper 21 at stage 1 -/
def exCfsSoft : Sol ℚ := { exCfsSol with
  ux := fun k j => if k = 0 then (if j = 0 then 2 else if j = 1 then 5 else 8 + j) else (if j = 0 then 3 else 19 + j) }

/-- C104, the limit: with soft constraints of both kinds condensing and expanding exchanges the slacks of the two stages, although the trajectory satisfies
the dynamics (COND_SOL numbers all soft boxes first, EXPAND_SOL and the condensed problem number stage by stage) -/
theorem condSol_soft_swapped :
    dynRes exCfsQp exCfsSoft.ux 0 0 = 0 ∧
    (exCfsSoft.ux 0 2, exCfsSoft.ux 0 3, exCfsSoft.ux 1 1, exCfsSoft.ux 1 2) = (10, 11, 20, 21) ∧
    (let s := (expandSol exCfsQp exCfArg exCfWs (condSolFwd exCfsQp exCfArg exCfsSoft exCfsD) exCfsZero).2
     (s.ux 0 2, s.ux 0 3, s.ux 1 1, s.ux 1 2) = (20, 21, 10, 11)) := by decide +kernel

/-- C104, a problem with a single stage: the round trip keeps the slacks too -/
theorem condSol_one_soft {K : Type*} [Field K] [LinearOrder K] [IsStrictOrderedRing K] (qp : OcpQp K) (arg : CondArg) (ws : CondWs K) (sol sol0 : Sol K)
    (ds : DSol K) (hN : qp.dim.N = 0) (hc : arg.cond_last_stage = true) (hp : arg.comp_prim_sol ≠ 0) (hi : arg.comp_dual_sol_ineq ≠ 0) (j : ℕ) :
    (j < nvt qp.dim 0 → (expandSol qp arg ws (condSolFwd qp arg sol ds) sol0).2.ux 0 j = sol.ux 0 j) ∧
    (j < nct qp.dim 0 → (expandSol qp arg ws (condSolFwd qp arg sol ds) sol0).2.lam 0 j = sol.lam 0 j ∧
      (expandSol qp arg ws (condSolFwd qp arg sol ds) sol0).2.t 0 j = sol.t 0 j) := by
  have h0 : (if arg.cond_last_stage = false then qp.dim.N - 1 else qp.dim.N) = 0 ∧ arg.cond_last_stage = true := by
    rw [hc, hN]; exact ⟨rfl, rfl⟩
  unfold expandSol condSolFwd nvt nct
  dsimp only
  rw [if_pos h0, if_pos h0]
  dsimp only
  rw [if_pos hp, if_pos hp, if_pos hi, if_pos hi, if_pos hi, if_pos hi, upd_same, upd_same, upd_same]
  refine ⟨fun h => ?_, fun h => ⟨?_, ?_⟩⟩ <;>
  · rw [vcp_in (by omega) (by omega), vcp_in (by omega) (by omega)]; congr 1; omega

/-- the request flags: nothing requested, nothing written -/
theorem condSol_none {K : Type*} [Field K] (qp : OcpQp K) (arg : CondArg) (sol : Sol K) (ds : DSol K)
    (hp : arg.comp_prim_sol = 0) (he : arg.comp_dual_sol_eq = 0) (hi : arg.comp_dual_sol_ineq = 0) : condSolFwd qp arg sol ds = ds := by
  unfold condSolFwd
  simp only [hp, he, hi, ne_eq, not_true_eq_false, if_false, if_true, ite_self]

end Hpipm
