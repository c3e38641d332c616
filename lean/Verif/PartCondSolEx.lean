/-
C105: a concrete problem for the round trip PART_COND_QP_COND_SOL, PART_COND_QP_EXPAND_SOL.
-/
import Verif.PartCondSol
import Verif.CondSolEx

namespace Hpipm

/-- two blocks: stage 0, stage 1 -/
def exPsArgs : ℕ → CondArg := fun ii => if ii = 1 then exCfArg else { exCfArg with cond_last_stage := false }
def exPsBs : ℕ → ℕ := fun ii => if ii = 0 then 1 else 0

theorem exPs_ok : PeOk exPsArgs exPsBs 1 := by
  refine ⟨fun ii h => ?_, fun ii h => ?_, rfl, fun ii h => ?_, fun ii h => ?_, fun ii h => ?_⟩
  · obtain rfl : ii = 0 := by omega
    exact Nat.zero_lt_one
  · obtain rfl : ii = 0 := by omega
    rfl
  all_goals
    rcases (show ii = 0 ∨ ii = 1 by omega) with rfl | rfl <;> decide

/-- the hypotheses of `partCondSol_round` are met; the stage multipliers and slacks of the solution are all different -/
example (ws : ℕ → CondWs ℚ) (sol0 sol2 : Sol ℚ) :
    let out := (partCondExpand exCfQp 1 (partCondSol exCfQp 1 exCfsSol sol2 exPsArgs exPsBs) sol0 exPsArgs ws exPsBs).sol
    out.ux 0 0 = 2 ∧ out.ux 0 1 = 5 ∧ out.ux 1 0 = 3 ∧ out.lam 1 1 = 15 ∧ out.pi 0 0 = 7 := by
  intro out
  obtain ⟨h1, h2⟩ := partCondSol_round exCfQp 1 exCfsSol sol0 sol2 exPsArgs ws exPsBs exPs_ok rfl (fun _ _ => rfl) (by
    intro k i hk hi
    have hk : k < 1 := hk
    obtain rfl : k = 0 := by omega
    have : i < 1 := hi
    obtain rfl : i = 0 := by omega
    decide +kernel)
  refine ⟨((h1 0 (by decide)).1 0 (by decide)).trans ?_, ((h1 0 (by decide)).1 1 (by decide)).trans ?_, ((h1 1 (by decide)).1 0 (by decide)).trans ?_,
    ((h1 1 (by decide)).2.1 1 (by decide)).trans ?_, (h2 0 (by decide) 0 (by decide)).trans ?_⟩ <;> decide +kernel

end Hpipm
