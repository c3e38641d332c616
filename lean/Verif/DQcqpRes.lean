/-
C99: the residuals of the dense QCQP are its KKT residuals, in the user's terms (DQcqpSpec.lean).
-/
import Verif.DQcqp

namespace Hpipm
open Finset
set_option linter.unusedSectionVars false

section
variable {K : Type*} [Field K] [LinearOrder K] [IsStrictOrderedRing K]

/-! ### the single stage OCP QCQP with the same objective and inequalities (proof device) -/

/-- the single stage QCQP -/
def oqv (Q : DQcqp K) : Qcqp K := ⟨ov Q.base, fun _ => Q.nq, fun _ => Q.Hq⟩

/-- the workspace of the single stage QCQP -/
def oqws (w : DQresWs K) : QresWs K := ⟨w.ws, w.nv0, w.nv1, w.use_q_fun, w.use_q_adj, fun _ => w.q_fun, fun _ => w.q_adj⟩

variable (Q : DQcqp K)

theorem oqv_inner : (oqv Q).inner = ov Q.inner := rfl
theorem oqv_wf (h : Q.WF) : (oqv Q).WF := ov_wf Q.inner h

/-- either the cached values of the quadratic constraints are not used, or they are those of the point: `q_fun` the values and
`q_adj` the sum over the constraints of multiplier times `Hq v` -/
def DCacheCond (Q : DQcqp K) (sol : DqSol K) (w : DQresWs K) : Prop := CacheCond (oqv Q) (osol sol) (oqws w)

/-- residuals of the single stage QCQP -/
abbrev oqresOf (Q : DQcqp K) (sol : DqSol K) (res : DRes K) (w : DQresWs K) : Res K :=
  qresCompute (oqv Q) (osol sol) (ores res) (oqws w)

theorem dqres_ov (sol : DqSol K) (res : DRes K) (w : DQresWs K) :
    dqresCompute Q sol res w =
    { res_g := if Q.base.dim.ne > 0 then gemv_t Q.base.dim.ne Q.base.dim.nv (-1) Q.base.A 0 0 sol.pi 0 1
        ((oqresOf Q sol res w).res_g 0) 0 ((oqresOf Q sol res w).res_g 0) 0 else (oqresOf Q sol res w).res_g 0
      res_b := if Q.base.dim.ne > 0 then gemv_n Q.base.dim.ne Q.base.dim.nv (-1) Q.base.A 0 0 sol.v 0 1 Q.base.b 0 res.res_b 0
        else res.res_b
      res_d := (oqresOf Q sol res w).res_d 0
      res_m := (oqresOf Q sol res w).res_m 0
      obj := (oqresOf Q sol res w).obj
      dual_gap := if Q.base.dim.ne > 0 then (oqresOf Q sol res w).dual_gap - dot Q.base.dim.ne Q.base.b 0 sol.pi 0
        else (oqresOf Q sol res w).dual_gap
      res_mu := (oqresOf Q sol res w).res_mu
      res_mu_sum := (oqresOf Q sol res w).res_mu_sum } := by
  have e : oqresOf Q sol res w = { (qresStage (oqv Q) (osol sol) (maskSel (oqv Q).inner w.ws).1 0
    { res := { ores res with
        obj := 0
        dual_gap := 0 }
      ws := oqws w
      mu := 0 }).res with
    res_mu := (qresStage (oqv Q) (osol sol) (maskSel (oqv Q).inner w.ws).1 0
    { res := { ores res with
        obj := 0
        dual_gap := 0 }
      ws := oqws w
      mu := 0 }).mu * (maskSel (oqv Q).inner w.ws).2
    res_mu_sum := (qresStage (oqv Q) (osol sol) (maskSel (oqv Q).inner w.ws).1 0
    { res := { ores res with
        obj := 0
        dual_gap := 0 }
      ws := oqws w
      mu := 0 }).mu } := rfl
  rw [e]
  refine DRes.ext rfl rfl rfl rfl rfl ?_ ?_ ?_
  · refine congrArg (fun x => if Q.base.dim.ne > 0 then x - dot Q.base.dim.ne Q.base.b 0 sol.pi 0 else x) ?_
    refine congrArg₂ (fun a b : K => a - b) ?_ rfl
    refine congrArg₂ (fun a b : K => if decide (Q.base.dim.ns > 0) = true then a + b else a) ?_ rfl
    refine congrArg₂ (fun a b : K => if decide (Q.nq > 0) = true then a else b) ?_ rfl
    refine congrArg₂ (fun a b : K => if (w.use_q_fun && w.use_q_adj) = true then a else b) ?_ ?_
    · rfl
    · rfl
  · exact congrArg (· * _) (zero_add _).symm
  · exact (zero_add _).symm

end
end Hpipm
