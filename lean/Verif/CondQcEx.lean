/-
C101: instances and counterexamples for the condensing of quadratic constraints.
-/
import Verif.CondQcUser
import Verif.CondFullEx

namespace Hpipm
open Finset
set_option linter.unusedSectionVars false

/-- two stages with one input and one state each; `n0`, `n1` quadratic constraints; `g0` linear general constraints in stage 0 -/
def exCqDim (g0 : ℕ) : QpDim where
  N := 1
  nx := fun _ => 1
  nu := fun _ => 1
  nb := fun _ => 0
  nbx := fun _ => 0
  nbu := fun _ => 0
  ng := fun k => if k = 0 then g0 else 0
  ns := fun _ => 0

/-- `x1 = u0 + x0 + b`; constraint `j` of stage `k`: `1/2 (2 u^2 + 2 S u x + (4+k+j) x^2) + lin (u + x) ≤ 10`; the upper triangles are not zero -/
def exCq (n0 n1 g0 : ℕ) (lin S b : ℚ) : Qcqp ℚ where
  base :=
    { dim := exCqDim g0
      BAbt := fun _ _ _ => 1
      RSQrq := fun _ r c => if r = c then 1 else 0
      DCt := fun _ _ c => if c < g0 then 1 else lin
      b := fun _ _ => b
      rqz := fun _ _ => 0
      d := fun _ _ => -10
      d_mask := fun _ _ => 1
      m := fun _ _ => 0
      Z := fun _ _ => 1
      idxb := fun _ _ => 0
      idxs_rev := fun _ _ => -1
      idxe := fun _ _ => 0
      diag_H_flag := fun _ => 0 }
  nq := fun k => if k = 0 then n0 else if k = 1 then n1 else 0
  Hq := fun k j r c => if r = 0 ∧ c = 0 then 2 else if r = 1 ∧ c = 0 then S else if r = 1 ∧ c = 1 then 4 + k + j else 9

def exCqNz : ℕ → ℕ → ℕ := fun _ _ => 7
def exCqTgt : CondTgt ℚ := ⟨fun _ _ => 7, fun _ => 7, fun _ _ => 7, fun _ => 7, fun _ _ => 7, fun _ => 7, fun _ => 7, fun _ => 7, fun _ => 7, fun _ => 7, fun _ => -1⟩
def exCqSt (H : ℕ → ℕ → Mat ℚ) : QcSt ℚ := ⟨H, fun _ _ _ => 7, fun _ => 7, fun _ _ => 7, fun _ => 7, fun _ _ _ => 7, fun _ => 7, fun _ => 7, false⟩

/-- the condensed problem -/
def exCqRun (Q : Qcqp ℚ) : QcSt ℚ := (condQcqpCond id Q exCqNz exCfArg exCfWs exCqTgt (exCqSt Q.Hq)).2.2
/-- condensed variables `u1 = 1, u0 = 2, x0 = 3` -/
def exCqV : Vec ℚ := fun i => i + 1

theorem exCq_flags (Q : Qcqp ℚ) (k j nu nx : ℕ) : QcFlags (Q.Hq k j) nu nx (exCqNz k j) :=
  ⟨fun h => absurd (show 7 % 2 = 1 by decide) h, fun h => absurd (show 7 / 2 % 2 = 1 by decide) h, fun h => absurd (show 7 / 4 % 2 = 1 by decide) h⟩

/-- the hypotheses of `condQc_value` hold, with `S` and the affine term present: the missing term is not zero -/
example : ∃ rho : ℚ, ∀ v : Vec ℚ, (qview (exCq 0 1 0 0 3 1)).form (ptOf (exCq 0 1 0 0 3 1).inner.dim (stageOf (exCq 0 1 0 0 3 1).inner 1 v)) 1 0
    = condQcForm (exCqDim 0) 1 (condQc (exCq 0 1 0 0 3 1) exCqNz (condBabt (exCq 0 1 0 0 3 1).inner exCfArg exCfWs exCqTgt).1.Gamma
        (condBabt (exCq 0 1 0 0 3 1).inner exCfArg exCfWs exCqTgt).1.Gammab 1 (exCqSt (exCq 0 1 0 0 3 1).Hq)) (later (exCq 0 1 0 0 3 1).nq 1 1 + 0) v + rho
      + ∑ i ∈ range 1, (∑ l ∈ range 1, (qview (exCq 0 1 0 0 3 1)).Sq 1 0 i l * roll (exCq 0 1 0 0 3 1).inner 1 (fun _ => 0) 1 l) * v (later (fun _ => 1) 1 1 + i) :=
  (condQc_value (exCq 0 1 0 0 3 1) exCqNz exCfArg exCfWs exCqTgt 1 1 0 (exCqSt (exCq 0 1 0 0 3 1).Hq) (by decide) (by decide) (by decide) (by decide) rfl
    (exCq_flags _ _ _ _ _)).imp fun _ h => h.2.2
example : (qview (exCq 0 1 0 0 3 1)).Sq 1 0 0 0 * roll (exCq 0 1 0 0 3 1).inner 1 (fun _ => 0) 1 0 = 3 := by decide +kernel

/-- the hypotheses of `condQcqp_exact` hold (no linear part, `S` present, no affine term) -/
theorem exCq_exact (v : Vec ℚ) :
    (qview (exCq 1 2 0 0 3 0)).uq 1 1 - (qview (exCq 1 2 0 0 3 0)).qvalue (ptOf (exCq 1 2 0 0 3 0).inner.dim (stageOf (exCq 1 2 0 0 3 0).inner 1 v)) 1 1
      = - (exCqRun (exCq 1 2 0 0 3 0)).d2 4 - condQcForm (exCq 1 2 0 0 3 0).base.dim 1 (exCqRun (exCq 1 2 0 0 3 0)) 1 v := by
  have h := condQcqp_exact id (exCq 1 2 0 0 3 0) exCqNz exCfArg (fun h => absurd rfl h) exCfWs exCqTgt 1 1 1 (exCqSt (exCq 1 2 0 0 3 0).Hq) rfl (Or.inl rfl)
    ⟨fun k j _ h => absurd h (Nat.not_lt_zero _), fun _ _ _ _ => Or.inl rfl⟩ (fun _ _ _ _ _ => rfl)
    (fun _ _ => ⟨rfl, fun j h => absurd h (Nat.not_lt_zero _)⟩) (by decide) (by decide) (by decide) (exCq_flags _ _ _ _ _)
    (fun _ _ => rfl) (fun _ _ => rfl) (by decide +kernel) (by decide +kernel) v
  exact h

/-- and the values are not trivial -/
example : (qview (exCq 1 2 0 0 3 0)).qvalue (ptOf (exCq 1 2 0 0 3 0).inner.dim (stageOf (exCq 1 2 0 0 3 0).inner 1 exCqV)) 1 1 = 91 := by decide +kernel

/-! ### what goes wrong -/

/-- the linear part of a quadratic constraint is lost: at `v` the user's constraint is violated by more than the condensed one -/
theorem condQcqp_loses_linear :
    (qview (exCq 0 1 0 1 0 0)).uq 1 0 - (qview (exCq 0 1 0 1 0 0)).qvalue (ptOf (exCq 0 1 0 1 0 0).inner.dim (stageOf (exCq 0 1 0 1 0 0).inner 1 exCqV)) 1 0
      ≠ - (exCqRun (exCq 0 1 0 1 0 0)).d2 1 - condQcForm (exCq 0 1 0 1 0 0).base.dim 1 (exCqRun (exCq 0 1 0 1 0 0)) 0 exCqV := by
  decide +kernel

/-- the product of `S` and the affine term is lost -/
theorem condQcqp_loses_cross :
    (qview (exCq 0 1 0 0 3 1)).uq 1 0 - (qview (exCq 0 1 0 0 3 1)).qvalue (ptOf (exCq 0 1 0 0 3 1).inner.dim (stageOf (exCq 0 1 0 0 3 1).inner 1 exCqV)) 1 0
      ≠ - (exCqRun (exCq 0 1 0 0 3 1)).d2 1 - condQcForm (exCq 0 1 0 0 3 1).base.dim 1 (exCqRun (exCq 0 1 0 0 3 1)) 0 exCqV := by
  decide +kernel

/-- two constraints in stage 0 and one in stage 1: the first constraint of stage 0 is given the Hessian of the one of stage 1 -/
theorem condQcqp_first_wrong :
    (qview (exCq 2 1 0 0 0 0)).uq 0 0 - (qview (exCq 2 1 0 0 0 0)).qvalue (ptOf (exCq 2 1 0 0 0 0).inner.dim (stageOf (exCq 2 1 0 0 0 0).inner 1 exCqV)) 0 0
      ≠ - (exCqRun (exCq 2 1 0 0 0 0)).d2 4 - condQcForm (exCq 2 1 0 0 0 0).base.dim 1 (exCqRun (exCq 2 1 0 0 0 0)) 1 exCqV ∧
    qcPick (exCq 2 1 0 0 0 0) 0 = some ((exCq 2 1 0 0 0 0).Hq 1 0) ∧ (exCqRun (exCq 2 1 0 0 0 0)).ub = false :=
  ⟨by decide +kernel, rfl, by decide +kernel⟩

/-- one constraint, in stage 0: the Hessian is read past the array -/
theorem condQcqp_first_ub : (exCqRun (exCq 1 0 0 0 0 0)).ub = true := by decide +kernel

/-- a linear general constraint in stage 0: the quadratic constraint of stage 1 is corrected in the place of another constraint -/
theorem condQcqp_misplaced :
    conPos (exCq 0 1 1 0 0 1).inner 1 1 0 ≠ qcNbc (exCq 0 1 1 0 0 1).base.dim 1 + qcNgc (exCq 0 1 1 0 0 1).base.dim 1 + (later (exCq 0 1 1 0 0 1).nq 1 1 + 0) ∧
    (qview (exCq 0 1 1 0 0 1)).uq 1 0 - (qview (exCq 0 1 1 0 0 1)).qvalue (ptOf (exCq 0 1 1 0 0 1).inner.dim (stageOf (exCq 0 1 1 0 0 1).inner 1 exCqV)) 1 0
      ≠ - (exCqRun (exCq 0 1 1 0 0 1)).d2 3 - condQcForm (exCq 0 1 1 0 0 1).base.dim 1 (exCqRun (exCq 0 1 1 0 0 1)) 0 exCqV := by
  refine ⟨?_, ?_⟩ <;> decide +kernel

/-- without quadratic constraints in stage 0 no Hessian is read outside the array -/
example : (exCqRun (exCq 0 1 0 0 3 1)).ub = false := by decide +kernel
example : condQc (exCq 0 1 0 1 3 1) exCqNz (fun _ _ _ => 1) (fun _ _ => 1) 1 { exCqSt (exCq 0 1 0 1 3 1).Hq with
      Ct2 := fun i c => if i < 3 ∧ c = 0 then 5 else 7 }
    = condQc (exCq 0 1 0 1 3 1) exCqNz (fun _ _ _ => 1) (fun _ _ => 1) 1 (exCqSt (exCq 0 1 0 1 3 1).Hq) :=
  condQc_drops_linear _ _ _ _ _ (exCqSt (exCq 0 1 0 1 3 1).Hq) _ (by decide) fun i c h => by
    have e1 : qcNgc (exCq 0 1 0 1 3 1).base.dim 1 = 0 := rfl
    have e2 : qcNqc (exCq 0 1 0 1 3 1).nq 1 = 1 := rfl
    have e3 : qcNvc (exCq 0 1 0 1 3 1).base.dim 1 = 3 := rfl
    rw [e1, e2, e3] at h
    exact if_neg (by omega)
example (G : ℕ → Mat ℚ) (g : ℕ → Vec ℚ) : (condQc (exCq 1 0 0 0 0 0) exCqNz G g 1 (exCqSt (exCq 1 0 0 0 0 0).Hq)).ub = true :=
  condQc_only_first_ub _ _ _ _ _ _ (by decide) (by decide) rfl fun l h1 h2 => by
    have : l = 1 := by have : l ≤ 1 := h2; omega
    subst this; rfl
example : (condQc (exCq 1 1 0 0 3 1) exCqNz (fun _ _ _ => 1) (fun _ _ => 1) 1 (exCqSt (exCq 1 1 0 0 3 1).Hq)).Hq 1 0 1 0 = 3 :=
  condQc_keeps _ _ _ _ _ _ rfl 1 0 1 0 (by decide)

end Hpipm
