/-
C99: the residuals of the dense QCQP are its KKT residuals, in the user's terms (DQcqpSpec.lean).
-/
import Verif.DQcqpRes

namespace Hpipm
open Finset
set_option linter.unusedSectionVars false

section
variable {K : Type*} [Field K] [LinearOrder K] [IsStrictOrderedRing K]
variable (Q : DQcqp K)

/-! ### the user's problem and that of the single stage QCQP -/

theorem dqobjective (v : Vec K) : (dqview Q).base.objective (dptOf Q.inner.dim v) =
    (qview (oqv Q)).base.objective (ptOf (oqv Q).inner.dim (fun _ => v)) := oobjective Q.inner v

theorem dqquad (v : Vec K) : (dqview Q).base.quad (dptOf Q.inner.dim v) =
    (qview (oqv Q)).base.quad (ptOf (oqv Q).inner.dim (fun _ => v)) := oquad Q.inner v

theorem dqform (v : Vec K) (j : ℕ) : (dqview Q).form (dptOf Q.inner.dim v) j =
    (qview (oqv Q)).form (ptOf (oqv Q).inner.dim (fun _ => v)) 0 j := by
  simp only [UserQcqp.form]
  have e0 : (qview (oqv Q)).base.nx 0 = 0 := rfl
  rw [e0]
  simp only [range_zero, sum_empty, sum_const_zero, mul_zero, add_zero]
  rfl

theorem dqqvalue (v : Vec K) (j : ℕ) : (dqview Q).qvalue (dptOf Q.inner.dim v) j =
    (qview (oqv Q)).qvalue (ptOf (oqv Q).inner.dim (fun _ => v)) 0 j := by
  simp only [UserQcqp.qvalue, DUserQcqp.qvalue]
  rw [dqform]
  have e0 : (qview (oqv Q)).base.nx 0 = 0 := rfl
  rw [e0]
  simp only [range_zero, sum_empty, add_zero]
  rfl

theorem dqqslack (v : Vec K) (j : ℕ) : (dqview Q).qslack (dptOf Q.inner.dim v) j =
    (qview (oqv Q)).qslack (ptOf (oqv Q).inner.dim (fun _ => v)) 0 j := rfl

theorem dqcurv (sol : DqSol K) (v : Vec K) : (dqview Q).curvature (dmultOf Q.inner.dim sol) (dptOf Q.inner.dim v) =
    (qview (oqv Q)).curvature (multOf (oqv Q).inner.dim (osol sol)) (ptOf (oqv Q).inner.dim (fun _ => v)) := by
  simp only [UserQcqp.curvature, DUserQcqp.curvature]
  have eN : (qview (oqv Q)).base.N = 0 := rfl
  rw [eN]
  simp only [Nat.zero_add, range_one, sum_singleton]
  refine sum_congr rfl fun j _ => ?_
  rw [dqform]; rfl

theorem dqvalue (hwf : Q.WF) (v : Vec K) (j : ℕ) (hj : j < Q.base.dim.nb + Q.base.dim.ng) :
    (dqview Q).base.value (dptOf Q.inner.dim v) j = (qview (oqv Q)).base.value (ptOf (oqv Q).inner.dim (fun _ => v)) 0 j := by
  have hj' : j < Q.inner.dim.nb + Q.inner.dim.ng := by
    show j < Q.base.dim.nb + (Q.base.dim.ng + Q.nq); omega
  exact (dvalue_packed Q.inner hwf v j hj').trans (value_packed (ov Q.inner) 0 (fun _ => v) j hj').symm

theorem dqbase_lagr (hwf : Q.WF) (sol : DqSol K) (v : Vec K) :
    (dqview Q).base.lagrangian (dptOf Q.inner.dim v) (dmultOf Q.inner.dim sol) =
    (qview (oqv Q)).base.lagrangian (ptOf (oqv Q).inner.dim (fun _ => v)) (multOf (oqv Q).inner.dim (osol sol))
    + ∑ i ∈ range Q.base.dim.ne, sol.pi i * ((dqview Q).base.b i - (dqview Q).base.Av v i) := by
  unfold DUser.lagrangian UserQp.lagrangian
  rw [dqobjective]
  have e0 : (qview (oqv Q)).base.N = 0 := rfl
  rw [e0]
  simp only [range_zero, sum_empty, add_zero, zero_add, range_one, sum_singleton]
  have e1 : ∑ j ∈ range ((dqview Q).base.nb + (dqview Q).base.ng), (dqview Q).base.lowerMask j * (dmultOf Q.inner.dim sol).lo j *
        ((dqview Q).base.lower j - (dqview Q).base.value (dptOf Q.inner.dim v) j - (dqview Q).base.slackLo (dptOf Q.inner.dim v) j) =
      ∑ j ∈ range ((qview (oqv Q)).base.nb 0 + (qview (oqv Q)).base.ng 0), (qview (oqv Q)).base.lowerMask 0 j
        * (multOf (oqv Q).inner.dim (osol sol)).lo 0 j *
        ((qview (oqv Q)).base.lower 0 j - (qview (oqv Q)).base.value (ptOf (oqv Q).inner.dim (fun _ => v)) 0 j
          - (qview (oqv Q)).base.slackLo (ptOf (oqv Q).inner.dim (fun _ => v)) 0 j) := by
    apply sum_congr rfl
    intro j hj
    rw [dqvalue Q hwf v j (mem_range.mp hj)]; rfl
  have e2 : ∑ j ∈ range ((dqview Q).base.nb + (dqview Q).base.ng), (dqview Q).base.upperMask j * (dmultOf Q.inner.dim sol).up j *
        ((dqview Q).base.value (dptOf Q.inner.dim v) j - (dqview Q).base.upper j - (dqview Q).base.slackUp (dptOf Q.inner.dim v) j) =
      ∑ j ∈ range ((qview (oqv Q)).base.nb 0 + (qview (oqv Q)).base.ng 0), (qview (oqv Q)).base.upperMask 0 j
        * (multOf (oqv Q).inner.dim (osol sol)).up 0 j *
        ((qview (oqv Q)).base.value (ptOf (oqv Q).inner.dim (fun _ => v)) 0 j - (qview (oqv Q)).base.upper 0 j
          - (qview (oqv Q)).base.slackUp (ptOf (oqv Q).inner.dim (fun _ => v)) 0 j) := by
    apply sum_congr rfl
    intro j hj
    rw [dqvalue Q hwf v j (mem_range.mp hj)]; rfl
  have e3 : ∑ i ∈ range (dqview Q).base.ns, (dqview Q).base.llsMask i * (dmultOf Q.inner.dim sol).ls i *
        ((dqview Q).base.lls i - (dptOf Q.inner.dim v).sl i) =
      ∑ i ∈ range ((qview (oqv Q)).base.ns 0), (qview (oqv Q)).base.llsMask 0 i * (multOf (oqv Q).inner.dim (osol sol)).ls 0 i *
        ((qview (oqv Q)).base.lls 0 i - (ptOf (oqv Q).inner.dim (fun _ => v)).sl 0 i) := rfl
  have e4 : ∑ i ∈ range (dqview Q).base.ns, (dqview Q).base.lusMask i * (dmultOf Q.inner.dim sol).us i *
        ((dqview Q).base.lus i - (dptOf Q.inner.dim v).su i) =
      ∑ i ∈ range ((qview (oqv Q)).base.ns 0), (qview (oqv Q)).base.lusMask 0 i * (multOf (oqv Q).inner.dim (osol sol)).us 0 i *
        ((qview (oqv Q)).base.lus 0 i - (ptOf (oqv Q).inner.dim (fun _ => v)).su 0 i) := rfl
  rw [e1, e2, e3, e4]
  have e5 : (dqview Q).base.ne = Q.base.dim.ne := rfl
  have e6 : (dptOf Q.inner.dim v).v = v := rfl
  have e7 : (dmultOf Q.inner.dim sol).pi = sol.pi := rfl
  rw [e5, e6, e7]
  ring

theorem dqlagr (hwf : Q.WF) (sol : DqSol K) (v : Vec K) :
    (dqview Q).lagrangian (dptOf Q.inner.dim v) (dmultOf Q.inner.dim sol) =
    (qview (oqv Q)).lagrangian (ptOf (oqv Q).inner.dim (fun _ => v)) (multOf (oqv Q).inner.dim (osol sol))
    + ∑ i ∈ range Q.base.dim.ne, sol.pi i * ((dqview Q).base.b i - (dqview Q).base.Av v i) := by
  unfold DUserQcqp.lagrangian UserQcqp.lagrangian
  rw [dqbase_lagr Q hwf]
  have e0 : (qview (oqv Q)).base.N = 0 := rfl
  rw [e0]
  simp only [zero_add, range_one, sum_singleton]
  have e1 : ∑ j ∈ range (dqview Q).nq, (dqview Q).uqMask j
        * (dmultOf Q.inner.dim sol).up ((dqview Q).base.nb + (dqview Q).base.ng + j) *
        ((dqview Q).qvalue (dptOf Q.inner.dim v) j - (dqview Q).uq j - (dqview Q).qslack (dptOf Q.inner.dim v) j) =
      ∑ j ∈ range ((qview (oqv Q)).nq 0), (qview (oqv Q)).uqMask 0 j
        * (multOf (oqv Q).inner.dim (osol sol)).up 0 ((qview (oqv Q)).base.nb 0 + (qview (oqv Q)).base.ng 0 + j) *
        ((qview (oqv Q)).qvalue (ptOf (oqv Q).inner.dim (fun _ => v)) 0 j - (qview (oqv Q)).uq 0 j
          - (qview (oqv Q)).qslack (ptOf (oqv Q).inner.dim (fun _ => v)) 0 j) := by
    apply sum_congr rfl
    intro j _
    rw [dqqvalue]; rfl
  rw [e1]; ring

theorem dqg_eq (sol : DqSol K) (res : DRes K) (w : DQresWs K) (i : ℕ) :
    (dqresCompute Q sol res w).res_g i = (oqresOf Q sol res w).res_g 0 i - atp Q.inner sol.pi i := by
  rw [dqres_ov]; exact gemvA_t Q.inner sol.pi _ i

theorem dqg_pair (sol : DqSol K) (res : DRes K) (w : DQresWs K) (h : Vec K) :
    ∑ i ∈ range (Q.base.dim.nv + 2 * Q.base.dim.ns), (dqresCompute Q sol res w).res_g i * h i =
    (∑ i ∈ range (Q.base.dim.nv + 2 * Q.base.dim.ns), (oqresOf Q sol res w).res_g 0 i * h i)
    - ∑ i ∈ range Q.base.dim.ne, sol.pi i * (dqview Q).base.Av h i := by
  have e : ∀ i ∈ range Q.base.dim.ne, sol.pi i * (dqview Q).base.Av h i = sol.pi i * ∑ j ∈ range Q.inner.dim.nv, Q.inner.A i j * h j :=
    fun i hi => congrArg (sol.pi i * ·) (dview_Av Q.inner h i (mem_range.mp hi))
  have ha := atp_pair Q.inner sol.pi h
  rw [sum_congr rfl e]
  refine Eq.trans ?_ (congrArg (fun x => _ - x) ha)
  show _ = _ - ∑ i ∈ range (Q.base.dim.nv + 2 * Q.base.dim.ns), atp Q.inner sol.pi i * h i
  rw [← sum_sub_distrib]
  exact sum_congr rfl fun i _ => by rw [dqg_eq]; ring

theorem oqsum0 (f : ℕ → K) : ∑ k ∈ range ((oqv Q).base.dim.N + 1), f k = f 0 := by
  show ∑ k ∈ range (0 + 1), f k = f 0
  simp

/-- **C99 (stationarity).**  The returned `res_g` is the gradient of the Lagrangian of the dense QCQP: along every direction `h` of
variables and slacks the Lagrangian changes by `⟨res_g, h⟩` plus the second order terms of the objective and of the quadratic
constraints. -/
theorem dqres_stationarity (hwf : Q.WF) (sol : DqSol K) (res : DRes K) (w : DQresWs K) (hws : DWsOk w.ws Q.inner)
    (hc : DCacheCond Q sol w) (h : Vec K) :
    (dqview Q).lagrangian (dptOf Q.inner.dim (fun i => sol.v i + h i)) (dmultOf Q.inner.dim sol) =
    (dqview Q).lagrangian (dptOf Q.inner.dim sol.v) (dmultOf Q.inner.dim sol)
      + (∑ i ∈ range (Q.base.dim.nv + 2 * Q.base.dim.ns), (dqresCompute Q sol res w).res_g i * h i)
      + (dqview Q).base.quad (dptOf Q.inner.dim h)
      + (dqview Q).curvature (dmultOf Q.inner.dim sol) (dptOf Q.inner.dim h) := by
  have hs := qres_stationarity (oqv Q) (oqv_wf Q hwf) (osol sol) (ores res) (oqws w) (ov_ws Q.inner w.ws hws) hc (fun _ => h)
  rw [oqsum0] at hs
  rw [dqlagr Q hwf, dqlagr Q hwf, dqquad, dqcurv, dqg_pair]
  have ea : ∀ i, (dqview Q).base.Av (fun i => sol.v i + h i) i = (dqview Q).base.Av sol.v i + (dqview Q).base.Av h i := by
    intro i; simp only [DUser.Av, mul_add, sum_add_distrib]
  simp only [ea]
  have hs' : (qview (oqv Q)).lagrangian (ptOf (oqv Q).inner.dim (fun _ i => sol.v i + h i)) (multOf (oqv Q).inner.dim (osol sol)) =
      (qview (oqv Q)).lagrangian (ptOf (oqv Q).inner.dim (fun _ => sol.v)) (multOf (oqv Q).inner.dim (osol sol))
      + (∑ i ∈ range (Q.base.dim.nv + 2 * Q.base.dim.ns), (oqresOf Q sol res w).res_g 0 i * h i)
      + (qview (oqv Q)).base.quad (ptOf (oqv Q).inner.dim (fun _ => h))
      + (qview (oqv Q)).curvature (multOf (oqv Q).inner.dim (osol sol)) (ptOf (oqv Q).inner.dim (fun _ => h)) := hs
  rw [hs']
  simp only [mul_add, mul_sub, sum_add_distrib, sum_sub_distrib]
  ring

/-- **C99 (equalities).** -/
theorem dqres_equalities (sol : DqSol K) (res : DRes K) (w : DQresWs K) (i : ℕ) (hi : i < Q.base.dim.ne) :
    (dqresCompute Q sol res w).res_b i = (dqview Q).base.b i - (dqview Q).base.Av sol.v i := by
  have e1 : (dqview Q).base.b i = Q.base.b i := dview_b Q.inner i hi
  have e2 : (dqview Q).base.Av sol.v i = _ := dview_Av Q.inner sol.v i hi
  rw [e1, e2, dqres_ov]
  exact gemvA_n Q.inner sol.v res.res_b i hi

/-- **C99 (inequalities).**  The returned defects of present constraints are `lower - value - slack + t`,
`value - upper - slack + t`, for the quadratic constraints `value - upper - slack + t`, and for the slack variables
`bound - slack + t`; masked constraints report zero. -/
theorem dqres_inequalities (hwf : Q.WF) (sol : DqSol K) (res : DRes K) (w : DQresWs K) (hws : DWsOk w.ws Q.inner)
    (hc : DCacheCond Q sol w) :
    let P := dqview Q
    let p := dptOf Q.inner.dim sol.v
    let r := (dqresCompute Q sol res w).res_d
    let m := Q.base.dim.nb + Q.base.dim.ng
    let n := Q.base.dim.nb + (Q.base.dim.ng + Q.nq)
    (∀ j, j < m → r j = P.base.lowerMask j * (P.base.lower j - P.base.value p j - P.base.slackLo p j + sol.t j)) ∧
    (∀ j, j < m → r (n + j) = P.base.upperMask j * (P.base.value p j - P.base.upper j - P.base.slackUp p j + sol.t (n + j))) ∧
    (∀ j, j < Q.nq → r (n + m + j) = P.uqMask j * (P.qvalue p j - P.uq j - P.qslack p j + sol.t (n + m + j))) ∧
    (∀ s, s < Q.base.dim.ns → r (2 * n + s) = P.base.llsMask s * (P.base.lls s - p.sl s + sol.t (2 * n + s))) ∧
    (∀ s, s < Q.base.dim.ns → r (2 * n + Q.base.dim.ns + s) =
      P.base.lusMask s * (P.base.lus s - p.su s + sol.t (2 * n + Q.base.dim.ns + s))) := by
  have h := qres_inequalities (oqv Q) (oqv_wf Q hwf) (osol sol) (ores res) (oqws w) (ov_ws Q.inner w.ws hws) hc 0 (Nat.zero_le _)
  intro P p r m n
  have hr : r = (oqresOf Q sol res w).res_d 0 := by
    show (dqresCompute Q sol res w).res_d = _
    rw [dqres_ov]
  refine ⟨fun j hj => ?_, fun j hj => ?_, fun j hj => ?_, fun s hs => ?_, fun s hs => ?_⟩
  · rw [hr, dqvalue Q hwf sol.v j hj]; exact h.1 j hj
  · rw [hr, dqvalue Q hwf sol.v j hj]; exact h.2.1 j hj
  · rw [hr]
    show _ = P.uqMask j * ((dqview Q).qvalue (dptOf Q.inner.dim sol.v) j - P.uq j - P.qslack p j + sol.t (n + m + j))
    rw [dqqvalue]; exact h.2.2.1 j hj
  · rw [hr]; exact h.2.2.2.1 s hs
  · rw [hr]; exact h.2.2.2.2 s hs

/-- **C99 (complementarity).**  `res_m = lam*t - m` for present constraints, zero for masked ones; the lower sides of the quadratic
constraints, which do not exist in the problem, are left out. -/
theorem dqres_complementarity (hwf : Q.WF) (hm : DMask01 Q.inner) (sol : DqSol K) (res : DRes K) (w : DQresWs K)
    (hws : DWsOk w.ws Q.inner) (hc : DCacheCond Q sol w) (j : ℕ)
    (hj : j < 2 * Q.base.dim.nb + 2 * (Q.base.dim.ng + Q.nq) + 2 * Q.base.dim.ns)
    (hq : ¬ (Q.base.dim.nb + Q.base.dim.ng ≤ j ∧ j < Q.base.dim.nb + (Q.base.dim.ng + Q.nq))) :
    (dqresCompute Q sol res w).res_m j = if Q.base.d_mask j = 0 then 0 else sol.lam j * sol.t j - Q.base.m j := by
  rw [dqres_ov]
  exact qres_complementarity (oqv Q) (oqv_wf Q hwf) (ov_mask Q.inner hm) (osol sol) (ores res) (oqws w) (ov_ws Q.inner w.ws hws) hc 0 j
    (Nat.zero_le _) hj hq

/-- **C99 (objective).**  The reported objective is that of the problem. -/
theorem dqres_objective (hwf : Q.WF) (sol : DqSol K) (res : DRes K) (w : DQresWs K) (hws : DWsOk w.ws Q.inner)
    (hc : DCacheCond Q sol w) :
    (dqresCompute Q sol res w).obj = (dqview Q).base.objective (dptOf Q.inner.dim sol.v) := by
  rw [dqobjective, dqres_ov]
  exact qres_objective (oqv Q) (oqv_wf Q hwf) (osol sol) (ores res) (oqws w) (ov_ws Q.inner w.ws hws) hc

/-- the multipliers that enter the residuals: masked, and without the lower sides of the quadratic constraints -/
def dqlam (Q : DQcqp K) (sol : DqSol K) (j : ℕ) : K :=
  if Q.base.dim.nb + Q.base.dim.ng ≤ j ∧ j < Q.base.dim.nb + (Q.base.dim.ng + Q.nq) then 0 else Q.base.d_mask j * sol.lam j

theorem dqgap_eq (sol : DqSol K) (res : DRes K) (w : DQresWs K) :
    (dqresCompute Q sol res w).dual_gap = (oqresOf Q sol res w).dual_gap - ∑ i ∈ range Q.base.dim.ne, (dqview Q).base.b i * sol.pi i := by
  have e : ∑ i ∈ range Q.base.dim.ne, (dqview Q).base.b i * sol.pi i = ∑ i ∈ range Q.base.dim.ne, Q.base.b i * sol.pi i :=
    sum_congr rfl fun i hi => congrArg (· * sol.pi i) (dview_b Q.inner i (mem_range.mp hi))
  rw [e, dqres_ov]
  dsimp only
  split_ifs with hn
  · simp [dot]
  · have : Q.base.dim.ne = 0 := by omega
    rw [this]; simp

/-- **C99 (duality gap identity).**  The reported gap is the sum of slack times multiplier over the present constraints plus terms
that vanish with the residuals. -/
theorem dqres_dual_gap (hwf : Q.WF) (hm : DMask01 Q.inner) (sol : DqSol K) (res : DRes K) (w : DQresWs K)
    (hws : DWsOk w.ws Q.inner) (hc : DCacheCond Q sol w) :
    let r := dqresCompute Q sol res w
    let nc := 2 * Q.base.dim.nb + 2 * (Q.base.dim.ng + Q.nq) + 2 * Q.base.dim.ns
    r.dual_gap = (∑ i ∈ range (Q.base.dim.nv + 2 * Q.base.dim.ns), r.res_g i * sol.v i)
      - (∑ i ∈ range Q.base.dim.ne, sol.pi i * r.res_b i)
      - (∑ j ∈ range nc, dqlam Q sol j * r.res_d j)
      + ∑ j ∈ range nc, dqlam Q sol j * sol.t j := by
  intro r nc
  have hg := qres_dual_gap (oqv Q) (oqv_wf Q hwf) (ov_mask Q.inner hm) (osol sol) (ores res) (oqws w) (ov_ws Q.inner w.ws hws) hc
  have hg' : (oqresOf Q sol res w).dual_gap = pairV (ov Q.inner).dim (oqresOf Q sol res w).res_g (fun _ => sol.v)
      - pairE (ov Q.inner).dim (fun _ _ => 0) (oqresOf Q sol res w).res_b
      - pairC (ov Q.inner).dim (fun _ => dqlam Q sol) (oqresOf Q sol res w).res_d
      + pairC (ov Q.inner).dim (fun _ => dqlam Q sol) (fun _ => sol.t) := hg
  rw [opairV, opairE, opairC, opairC, sub_zero] at hg'
  show (dqresCompute Q sol res w).dual_gap = (∑ i ∈ range (Q.base.dim.nv + 2 * Q.base.dim.ns), (dqresCompute Q sol res w).res_g i * sol.v i)
    - _ - _ + _
  rw [dqgap_eq, dqg_pair, hg']
  have e1 : ∑ i ∈ range Q.base.dim.ne, sol.pi i * r.res_b i =
      (∑ i ∈ range Q.base.dim.ne, (dqview Q).base.b i * sol.pi i) - ∑ i ∈ range Q.base.dim.ne, sol.pi i * (dqview Q).base.Av sol.v i := by
    rw [← sum_sub_distrib]
    exact sum_congr rfl fun i hi => by
      rw [show r.res_b i = _ from dqres_equalities Q sol res w i (mem_range.mp hi)]; ring
  have e2 : r.res_d = (oqresOf Q sol res w).res_d 0 := by
    show (dqresCompute Q sol res w).res_d = _
    rw [dqres_ov]
  rw [e1, e2]
  show (∑ i ∈ range (Q.base.dim.nv + 2 * Q.base.dim.ns), (oqresOf Q sol res w).res_g 0 i * sol.v i)
    - (∑ j ∈ range nc, dqlam Q sol j * (oqresOf Q sol res w).res_d 0 j) + (∑ j ∈ range nc, dqlam Q sol j * sol.t j) - _ = _
  ring

/-- **C99 (complementarity sum).**  `res_mu_sum` is the sum of slack times multiplier over the constraints that exist and `res_mu`
that sum divided by the number of mask entries equal to one. -/
theorem dqres_mu (hwf : Q.WF) (sol : DqSol K) (res : DRes K) (w : DQresWs K) (hv : w.ws.valid_nc_mask = false)
    (hc : DCacheCond Q sol w) :
    let r := dqresCompute Q sol res w
    let nc := 2 * Q.base.dim.nb + 2 * (Q.base.dim.ng + Q.nq) + 2 * Q.base.dim.ns
    r.res_mu_sum = (∑ j ∈ range nc, dqlam Q sol j * sol.t j) ∧
    r.res_mu = r.res_mu_sum * ((∑ j ∈ range nc, if Q.base.d_mask j = 1 then 1 else 0 : ℕ) : K)⁻¹ := by
  intro r nc
  have h := qres_mu (oqv Q) (oqv_wf Q hwf) (osol sol) (ores res) (oqws w) hv hc
  have hr : r.res_mu_sum = (oqresOf Q sol res w).res_mu_sum ∧ r.res_mu = (oqresOf Q sol res w).res_mu := by
    show (dqresCompute Q sol res w).res_mu_sum = _ ∧ (dqresCompute Q sol res w).res_mu = _
    rw [dqres_ov]; exact ⟨rfl, rfl⟩
  have e : (∑ k ∈ range ((oqv Q).base.dim.N + 1), ∑ j ∈ range (nct (oqv Q).inner.dim k), if (oqv Q).base.d_mask k j = 1 then 1 else 0 : ℕ)
      = ∑ j ∈ range nc, if Q.base.d_mask j = 1 then 1 else 0 := by
    show (∑ k ∈ range (0 + 1), ∑ j ∈ range (nct (oqv Q).inner.dim k), if (oqv Q).base.d_mask k j = 1 then 1 else 0 : ℕ) = _
    simp only [Nat.zero_add, range_one, sum_singleton]
    rfl
  rw [hr.1, hr.2]
  refine ⟨?_, ?_⟩
  · have h1 := h.1
    rw [oqsum0] at h1
    exact h1
  · rw [← e]; exact h.2

/-! ### bounds on the optimal value -/

theorem dqlagr_gap (hwf : Q.WF) (sol : DqSol K) (res : DRes K) (w : DQresWs K) (hws : DWsOk w.ws Q.inner)
    (hc : DCacheCond Q sol w) :
    (dqview Q).lagrangian (dptOf Q.inner.dim sol.v) (dmultOf Q.inner.dim sol) =
    (dqresCompute Q sol res w).obj - (dqresCompute Q sol res w).dual_gap
      + ∑ i ∈ range (Q.base.dim.nv + 2 * Q.base.dim.ns), (dqresCompute Q sol res w).res_g i * sol.v i := by
  have h := qlagr_gap (oqv Q) (oqv_wf Q hwf) (osol sol) (ores res) (oqws w) (ov_ws Q.inner w.ws hws) hc
  have h' : (qview (oqv Q)).lagrangian (ptOf (oqv Q).inner.dim (fun _ => sol.v)) (multOf (oqv Q).inner.dim (osol sol)) =
      (oqresOf Q sol res w).obj - (oqresOf Q sol res w).dual_gap
      + pairV (ov Q.inner).dim (oqresOf Q sol res w).res_g (fun _ => sol.v) := h
  rw [opairV] at h'
  have eo : (dqresCompute Q sol res w).obj = (oqresOf Q sol res w).obj := by rw [dqres_ov]
  rw [dqlagr Q hwf, h', dqgap_eq, dqg_pair, eo]
  have c1 : ∑ i ∈ range Q.base.dim.ne, (dqview Q).base.b i * sol.pi i = ∑ i ∈ range Q.base.dim.ne, sol.pi i * (dqview Q).base.b i :=
    sum_congr rfl (fun i _ => by ring)
  rw [c1]
  simp only [mul_sub, sum_sub_distrib]
  show (oqresOf Q sol res w).obj - (oqresOf Q sol res w).dual_gap
    + (∑ i ∈ range (Q.base.dim.nv + 2 * Q.base.dim.ns), (oqresOf Q sol res w).res_g 0 i * sol.v i) + _ = _
  ring

theorem dqpack_feasible (hwf : Q.WF) (p : DPt K) (hf : (dqview Q).Feasible p) :
    (dqview Q).Feasible (dptOf Q.inner.dim (dpackPt Q.inner.dim p)) ∧
    (dqview Q).base.objective (dptOf Q.inner.dim (dpackPt Q.inner.dim p)) = (dqview Q).base.objective p := by
  have hv : ∀ i, i < Q.base.dim.nv → (dptOf Q.inner.dim (dpackPt Q.inner.dim p)).v i = p.v i := fun i hi =>
    if_pos (show i < Q.inner.dim.nv from hi)
  have hsl : ∀ i, i < Q.base.dim.ns → (dptOf Q.inner.dim (dpackPt Q.inner.dim p)).sl i = p.sl i := fun i hi => by
    have hi' : i < Q.inner.dim.ns := hi
    simp only [dptOf, dpackPt]; rw [if_neg (by omega), if_pos (by omega)]; congr 1; omega
  have hsu : ∀ i, i < Q.base.dim.ns → (dptOf Q.inner.dim (dpackPt Q.inner.dim p)).su i = p.su i := fun i hi => by
    have hi' : i < Q.inner.dim.ns := hi
    simp only [dptOf, dpackPt]; rw [if_neg (by omega), if_neg (by omega)]; congr 1; omega
  set q := dptOf Q.inner.dim (dpackPt Q.inner.dim p) with hq
  have hval : ∀ j, j < Q.base.dim.nb + Q.base.dim.ng → (dqview Q).base.value q j = (dqview Q).base.value p j := by
    intro j hj
    simp only [DUser.value]
    by_cases hb : j < (dqview Q).base.nb
    · rw [if_pos hb, if_pos hb]; exact hv _ (hwf.idxb j hb)
    · rw [if_neg hb, if_neg hb]
      exact sum_congr rfl (fun i hi => by rw [hv i (mem_range.mp hi)])
  have hsoft : ∀ j s, j < Q.base.dim.nb + (Q.base.dim.ng + Q.nq) →
      (if Q.base.idxs_rev j = -1 then none else some (Q.base.idxs_rev j).toNat) = some s → s < Q.base.dim.ns := by
    intro j s hj hs
    by_cases h1 : Q.base.idxs_rev j = -1
    · rw [if_pos h1] at hs; cases hs
    · rw [if_neg h1] at hs
      have := Option.some.inj hs
      rcases hwf.soft j hj with h2 | h2
      · exact absurd h2 h1
      · have h3 : (Q.base.idxs_rev j).toNat < Q.base.dim.ns := h2.2
        omega
  have hslo : ∀ j, j < Q.base.dim.nb + Q.base.dim.ng → (dqview Q).base.slackLo q j = (dqview Q).base.slackLo p j := by
    intro j hj
    simp only [DUser.slackLo]
    cases hs : (dqview Q).base.soft j with
    | none => rfl
    | some s => exact hsl s (hsoft j s (by omega) hs)
  have hsup : ∀ j, j < Q.base.dim.nb + Q.base.dim.ng → (dqview Q).base.slackUp q j = (dqview Q).base.slackUp p j := by
    intro j hj
    simp only [DUser.slackUp]
    cases hs : (dqview Q).base.soft j with
    | none => rfl
    | some s => exact hsu s (hsoft j s (by omega) hs)
  have hqs : ∀ j, j < Q.nq → (dqview Q).qslack q j = (dqview Q).qslack p j := by
    intro j hj
    simp only [DUserQcqp.qslack]
    cases hs : (dqview Q).softq j with
    | none => rfl
    | some s => exact hsu s (hsoft (Q.base.dim.nb + Q.base.dim.ng + j) s (by omega) hs)
  have hqv : ∀ j, (dqview Q).qvalue q j = (dqview Q).qvalue p j := by
    intro j
    simp only [DUserQcqp.qvalue, DUserQcqp.form]
    have a1 : ∀ i ∈ range (dqview Q).base.nv, q.v i = p.v i := fun i hi => hv i (mem_range.mp hi)
    congr 1
    · congr 1
      exact sum_congr rfl (fun i hi => sum_congr rfl (fun l hl => by rw [a1 i hi, a1 l hl]))
    · exact sum_congr rfl (fun i hi => by rw [a1 i hi])
  refine ⟨⟨⟨fun i hi => ?_, fun j hj hm => ?_, fun j hj hm => ?_, fun i hi hm => ?_, fun i hi hm => ?_⟩, fun j hj hm => ?_⟩, ?_⟩
  · rw [← hf.base.eq i hi]
    simp only [DUser.Av]
    exact sum_congr rfl (fun j hj => by rw [hv j (mem_range.mp hj)])
  · rw [hval j hj, hslo j hj]; exact hf.base.lo j hj hm
  · rw [hval j hj, hsup j hj]; exact hf.base.up j hj hm
  · rw [hsl i hi]; exact hf.base.ls i hi hm
  · rw [hsu i hi]; exact hf.base.us i hi hm
  · rw [hqv j, hqs j hj]; exact hf.quad j hj hm
  · simp only [DUser.objective, DUser.quad, DUser.lin]
    have a1 : ∀ i ∈ range (dqview Q).base.nv, q.v i = p.v i := fun i hi => hv i (mem_range.mp hi)
    have a2 : ∀ i ∈ range (dqview Q).base.ns, q.sl i = p.sl i := fun i hi => hsl i (mem_range.mp hi)
    have a3 : ∀ i ∈ range (dqview Q).base.ns, q.su i = p.su i := fun i hi => hsu i (mem_range.mp hi)
    congr 1
    · congr 1
      · congr 1
        · congr 1
          exact sum_congr rfl (fun i hi => sum_congr rfl (fun j hj => by rw [a1 i hi, a1 j hj]))
        · congr 1
          exact sum_congr rfl (fun i hi => by rw [a2 i hi])
      · congr 1
        exact sum_congr rfl (fun i hi => by rw [a3 i hi])
    · congr 1
      · congr 1
        · exact sum_congr rfl (fun i hi => by rw [a1 i hi])
        · exact sum_congr rfl (fun i hi => by rw [a2 i hi])
      · exact sum_congr rfl (fun i hi => by rw [a3 i hi])

/-- on feasible points the Lagrangian does not exceed the objective -/
theorem dqlagrangian_le (P : DUserQcqp K) (p : DPt K) (w : DMult K) (hf : P.Feasible p)
    (h1 : ∀ j, j < P.base.nb + P.base.ng → 0 ≤ P.base.lowerMask j * w.lo j)
    (h2 : ∀ j, j < P.base.nb + P.base.ng → 0 ≤ P.base.upperMask j * w.up j)
    (h3 : ∀ i, i < P.base.ns → 0 ≤ P.base.llsMask i * w.ls i)
    (h4 : ∀ i, i < P.base.ns → 0 ≤ P.base.lusMask i * w.us i)
    (h5 : ∀ j, j < P.nq → 0 ≤ P.uqMask j * w.up (P.base.nb + P.base.ng + j)) :
    P.lagrangian p w ≤ P.base.objective p := by
  have hb := dlagrangian_le P.base p w hf.base h1 h2 h3 h4
  have hq : ∑ j ∈ range P.nq, P.uqMask j * w.up (P.base.nb + P.base.ng + j) * (P.qvalue p j - P.uq j - P.qslack p j) ≤ 0 := by
    apply sum_nonpos
    intro j hj
    have hj := mem_range.mp hj
    by_cases hm : P.uqMask j = 0
    · rw [hm]; simp
    · exact mul_nonpos_of_nonneg_of_nonpos (h5 j hj) (by linarith [hf.quad j hj hm])
  unfold DUserQcqp.lagrangian
  linarith

theorem dqview_masks (j : ℕ) :
    (j < Q.base.dim.nb + Q.base.dim.ng → (dqview Q).base.lowerMask j = Q.base.d_mask j ∧
      (dqview Q).base.upperMask j = Q.base.d_mask (Q.base.dim.nb + (Q.base.dim.ng + Q.nq) + j)) ∧
    (j < Q.base.dim.ns → (dqview Q).base.llsMask j = Q.base.d_mask (2 * (Q.base.dim.nb + (Q.base.dim.ng + Q.nq)) + j) ∧
      (dqview Q).base.lusMask j = Q.base.d_mask (2 * (Q.base.dim.nb + (Q.base.dim.ng + Q.nq)) + Q.base.dim.ns + j)) :=
  ⟨fun hj => (dview_masks Q.inner j).1 (show j < Q.base.dim.nb + (Q.base.dim.ng + Q.nq) by omega),
    fun hj => (dview_masks Q.inner j).2 hj⟩

/-- **C99 (gap bound).**  For a convex QCQP, a point that satisfies the equality constraints and has nonnegative multipliers of the
present constraints bounds the optimal value from below: objective minus gap, corrected by the stationarity residual, does not exceed
the objective of any feasible point. -/
theorem dqres_gap_approx (hwf : Q.WF) (hm : DMask01 Q.inner) (hcv : (dqview Q).Convex) (sol : DqSol K)
    (res : DRes K) (w : DQresWs K) (hws : DWsOk w.ws Q.inner) (hc : DCacheCond Q sol w)
    (hb : ∀ i, i < Q.base.dim.ne → (dqresCompute Q sol res w).res_b i = 0)
    (hl : ∀ j, j < 2 * Q.base.dim.nb + 2 * (Q.base.dim.ng + Q.nq) + 2 * Q.base.dim.ns → Q.base.d_mask j ≠ 0 → 0 ≤ sol.lam j)
    (p : DPt K) (hf : (dqview Q).Feasible p) :
    (dqresCompute Q sol res w).obj - (dqresCompute Q sol res w).dual_gap
      + (∑ i ∈ range (Q.base.dim.nv + 2 * Q.base.dim.ns), (dqresCompute Q sol res w).res_g i * dpackPt Q.inner.dim p i)
      ≤ (dqview Q).base.objective p := by
  obtain ⟨hf', ho⟩ := dqpack_feasible Q hwf p hf
  rw [← ho]
  set v := dpackPt Q.inner.dim p with hv
  have hst := dqres_stationarity Q hwf sol res w hws hc (fun i => v i - sol.v i)
  have e0 : (fun i => sol.v i + (v i - sol.v i)) = v := by funext i; ring
  rw [e0] at hst
  have hq := hcv.base (dptOf Q.inner.dim (fun i => v i - sol.v i)) (by
    intro i hi
    have h1 : (dqview Q).base.Av v i = (dqview Q).base.b i := hf'.base.eq i hi
    have h2 := dqres_equalities Q sol res w i hi
    rw [hb i hi] at h2
    have : (dqview Q).base.Av (dptOf Q.inner.dim (fun i => v i - sol.v i)).v i = (dqview Q).base.Av v i - (dqview Q).base.Av sol.v i := by
      simp only [DUser.Av, dptOf, mul_sub, sum_sub_distrib]
    rw [this]; linear_combination h1 - h2)
  have hlm : ∀ j, j < 2 * Q.base.dim.nb + 2 * (Q.base.dim.ng + Q.nq) + 2 * Q.base.dim.ns → 0 ≤ Q.base.d_mask j * sol.lam j := by
    intro j hj
    have hmj : Q.base.d_mask j = 0 ∨ Q.base.d_mask j = 1 := hm j hj
    rcases hmj with h | h
    · simp [h]
    · rw [h, one_mul]; exact hl j hj (by rw [h]; exact one_ne_zero)
  have h5 : ∀ j, j < (dqview Q).nq → 0 ≤ (dqview Q).uqMask j
      * (dmultOf Q.inner.dim sol).up ((dqview Q).base.nb + (dqview Q).base.ng + j) := by
    intro j hj
    have hj' : j < Q.nq := hj
    have hz := hlm (2 * Q.base.dim.nb + 2 * Q.base.dim.ng + Q.nq + j) (by omega)
    have ei : Q.base.dim.nb + (Q.base.dim.ng + Q.nq) + (Q.base.dim.nb + Q.base.dim.ng + j)
      = 2 * Q.base.dim.nb + 2 * Q.base.dim.ng + Q.nq + j := by ring
    show 0 ≤ Q.base.d_mask (2 * Q.base.dim.nb + 2 * Q.base.dim.ng + Q.nq + j)
      * sol.lam (Q.base.dim.nb + (Q.base.dim.ng + Q.nq) + (Q.base.dim.nb + Q.base.dim.ng + j))
    rw [ei]; exact hz
  have hcurv : 0 ≤ (dqview Q).curvature (dmultOf Q.inner.dim sol) (dptOf Q.inner.dim (fun i => v i - sol.v i)) := by
    refine sum_nonneg fun j hj => ?_
    have hj := mem_range.mp hj
    by_cases hmz : (dqview Q).uqMask j = 0
    · rw [hmz]; simp
    · exact mul_nonneg (h5 j hj) (hcv.quad j hj hmz _)
  have hle : (dqview Q).lagrangian (dptOf Q.inner.dim v) (dmultOf Q.inner.dim sol) ≤ (dqview Q).base.objective (dptOf Q.inner.dim v) := by
    have e1 : (dqview Q).base.nb = Q.base.dim.nb := rfl
    have e2 : (dqview Q).base.ng = Q.base.dim.ng := rfl
    have e3 : (dqview Q).base.ns = Q.base.dim.ns := rfl
    apply dqlagrangian_le _ _ _ hf' _ _ _ _ h5
    · intro j hj
      rw [((dqview_masks Q j).1 hj).1]; exact hlm j (by omega)
    · intro j hj
      rw [((dqview_masks Q j).1 hj).2]; exact hlm _ (by omega)
    · intro j hj
      rw [((dqview_masks Q j).2 hj).1]; exact hlm _ (by omega)
    · intro j hj
      rw [((dqview_masks Q j).2 hj).2]; exact hlm _ (by omega)
  have hL := dqlagr_gap Q hwf sol res w hws hc
  simp only [mul_sub, sum_sub_distrib] at hst
  linarith

/-- **C99 (optimality).**  For a convex QCQP a point whose residuals at the constraints that exist are all zero (targets `m` zero), with
nonnegative multipliers and slacks of the present constraints, is a global optimum. -/
theorem dqres_zero_optimal (hwf : Q.WF) (hm : DMask01 Q.inner) (hcv : (dqview Q).Convex) (sol : DqSol K)
    (res : DRes K) (w : DQresWs K) (hws : DWsOk w.ws Q.inner) (hc : DCacheCond Q sol w)
    (hg : ∀ i, i < Q.base.dim.nv + 2 * Q.base.dim.ns → (dqresCompute Q sol res w).res_g i = 0)
    (hb : ∀ i, i < Q.base.dim.ne → (dqresCompute Q sol res w).res_b i = 0)
    (hd : ∀ j, j < 2 * Q.base.dim.nb + 2 * (Q.base.dim.ng + Q.nq) + 2 * Q.base.dim.ns →
      ¬ (Q.base.dim.nb + Q.base.dim.ng ≤ j ∧ j < Q.base.dim.nb + (Q.base.dim.ng + Q.nq)) →
      (dqresCompute Q sol res w).res_d j = 0 ∧ (dqresCompute Q sol res w).res_m j = 0 ∧ Q.base.m j = 0)
    (hl : ∀ j, j < 2 * Q.base.dim.nb + 2 * (Q.base.dim.ng + Q.nq) + 2 * Q.base.dim.ns → Q.base.d_mask j ≠ 0 →
      0 ≤ sol.lam j ∧ 0 ≤ sol.t j) :
    (dqview Q).IsOptimal (dptOf Q.inner.dim sol.v) := by
  have hin := dqres_inequalities Q hwf sol res w hws hc
  dsimp only at hin
  have e1 : (dqview Q).base.nb = Q.base.dim.nb := rfl
  have e2 : (dqview Q).base.ng = Q.base.dim.ng := rfl
  have e3 : (dqview Q).base.ns = Q.base.dim.ns := rfl
  have e4 : (dqview Q).nq = Q.nq := rfl
  refine ⟨⟨⟨fun i hi => ?_, fun j hj hmj => ?_, fun j hj hmj => ?_, fun s hs hms => ?_, fun s hs hms => ?_⟩, fun j hj hmj => ?_⟩,
    fun p hp => ?_⟩
  · have h := dqres_equalities Q sol res w i hi
    rw [hb i hi] at h
    exact (sub_eq_zero.mp h.symm).symm
  · rw [e1, e2] at hj
    have h := hin.1 j hj
    rw [(hd j (by omega) (by omega)).1] at h
    have h' := (mul_eq_zero.mp h.symm).resolve_left hmj
    rw [((dqview_masks Q j).1 hj).1] at hmj
    linarith [(hl j (by omega) hmj).2]
  · rw [e1, e2] at hj
    have h := hin.2.1 j hj
    rw [(hd _ (by omega) (by omega)).1] at h
    have h' := (mul_eq_zero.mp h.symm).resolve_left hmj
    rw [((dqview_masks Q j).1 hj).2] at hmj
    linarith [(hl _ (by omega) hmj).2]
  · rw [e3] at hs
    have h := hin.2.2.2.1 s hs
    rw [(hd _ (by omega) (by omega)).1] at h
    have h' := (mul_eq_zero.mp h.symm).resolve_left hms
    rw [((dqview_masks Q s).2 hs).1] at hms
    linarith [(hl _ (by omega) hms).2]
  · rw [e3] at hs
    have h := hin.2.2.2.2 s hs
    rw [(hd _ (by omega) (by omega)).1] at h
    have h' := (mul_eq_zero.mp h.symm).resolve_left hms
    rw [((dqview_masks Q s).2 hs).2] at hms
    linarith [(hl _ (by omega) hms).2]
  · rw [e4] at hj
    have h := hin.2.2.1 j hj
    rw [(hd _ (by omega) (by omega)).1] at h
    have h' := (mul_eq_zero.mp h.symm).resolve_left hmj
    have ei : Q.base.dim.nb + (Q.base.dim.ng + Q.nq) + (Q.base.dim.nb + Q.base.dim.ng) + j
      = 2 * Q.base.dim.nb + 2 * Q.base.dim.ng + Q.nq + j := by ring
    rw [ei] at h'
    have e : (dqview Q).uqMask j = Q.base.d_mask (2 * Q.base.dim.nb + 2 * Q.base.dim.ng + Q.nq + j) := rfl
    rw [e] at hmj
    linarith [(hl _ (by omega) hmj).2]
  · have hb' := dqres_gap_approx Q hwf hm hcv sol res w hws hc hb (fun j hj h => (hl j hj h).1) p hp
    have ez : (∑ i ∈ range (Q.base.dim.nv + 2 * Q.base.dim.ns), (dqresCompute Q sol res w).res_g i * dpackPt Q.inner.dim p i) = 0 :=
      sum_eq_zero fun i hi => by rw [hg i (mem_range.mp hi), zero_mul]
    have hgap : (dqresCompute Q sol res w).dual_gap = 0 := by
      rw [dqres_dual_gap Q hwf hm sol res w hws hc]
      have z1 : ∑ i ∈ range (Q.base.dim.nv + 2 * Q.base.dim.ns), (dqresCompute Q sol res w).res_g i * sol.v i = 0 :=
        sum_eq_zero fun i hi => by rw [hg i (mem_range.mp hi), zero_mul]
      have z2 : ∑ i ∈ range Q.base.dim.ne, sol.pi i * (dqresCompute Q sol res w).res_b i = 0 :=
        sum_eq_zero fun i hi => by rw [hb i (mem_range.mp hi), mul_zero]
      have z3 : ∑ j ∈ range (2 * Q.base.dim.nb + 2 * (Q.base.dim.ng + Q.nq) + 2 * Q.base.dim.ns),
          dqlam Q sol j * (dqresCompute Q sol res w).res_d j = 0 := by
        apply sum_eq_zero; intro j hj
        simp only [dqlam]
        split_ifs with hlo
        · rw [zero_mul]
        · rw [(hd j (mem_range.mp hj) hlo).1, mul_zero]
      have z4 : ∑ j ∈ range (2 * Q.base.dim.nb + 2 * (Q.base.dim.ng + Q.nq) + 2 * Q.base.dim.ns), dqlam Q sol j * sol.t j = 0 := by
        apply sum_eq_zero; intro j hj
        have hj' := mem_range.mp hj
        simp only [dqlam]
        split_ifs with hlo
        · rw [zero_mul]
        · have h := dqres_complementarity Q hwf hm sol res w hws hc j hj' hlo
          rw [(hd j hj' hlo).2.1, (hd j hj' hlo).2.2] at h
          by_cases h0 : Q.base.d_mask j = 0
          · rw [h0]; simp
          · rw [if_neg h0, sub_zero] at h
            rw [mul_assoc, ← h, mul_zero]
      rw [z1, z2, z3, z4]; ring
    rw [ez, add_zero, hgap, sub_zero, dqres_objective Q hwf sol res w hws hc] at hb'
    exact hb'

/-- **C99 (caching).**  The residuals computed from cached values of the quadratic constraints are those computed from scratch, if the
caches belong to the point. -/
theorem dqres_cached (hwf : Q.WF) (sol : DqSol K) (res res' : DRes K) (w w' : DQresWs K)
    (hws : DWsOk w.ws Q.inner) (hws' : DWsOk w'.ws Q.inner)
    (hf : ∀ j, j < Q.nq → w.q_fun j = (dqview Q).qvalue (dptOf Q.inner.dim sol.v) j)
    (ha : ∀ i, i < Q.base.dim.nv → w.q_adj i = ∑ j ∈ range Q.nq, (dqview Q).uqMask j
      * sol.lam (2 * Q.base.dim.nb + 2 * Q.base.dim.ng + Q.nq + j)
      * ((∑ l ∈ range Q.base.dim.nv, (dqview Q).hess j i l * sol.v l) + (dqview Q).gq j i))
    (hu : w'.use_q_fun = false ∨ w'.use_q_adj = false) :
    let r := dqresCompute Q sol res w
    let r' := dqresCompute Q sol res' w'
    (∀ i, i < Q.base.dim.nv + 2 * Q.base.dim.ns → r.res_g i = r'.res_g i) ∧
    (∀ i, i < Q.base.dim.ne → r.res_b i = r'.res_b i) ∧
    (∀ j, j < 2 * Q.base.dim.nb + 2 * (Q.base.dim.ng + Q.nq) + 2 * Q.base.dim.ns → r.res_d j = r'.res_d j ∧ r.res_m j = r'.res_m j) ∧
    r.obj = r'.obj ∧ r.dual_gap = r'.dual_gap ∧ r.res_mu_sum = r'.res_mu_sum := by
  intro r r'
  have hco : CacheOk (oqv Q) (osol sol) (oqws w) := by
    refine ⟨fun k j _ hj => ?_, fun k i _ hi => ?_⟩
    · show w.q_fun j = _
      rw [hf j hj, dqqvalue, qvalue_packed]; rfl
    · show w.q_adj i = _
      rw [ha i hi]
      refine sum_congr rfl fun j _ => ?_
      show _ * _ * (_ + _) = _ * _ * (hqMul (oqv Q) 0 j sol.v i + _)
      congr 2
      simp only [hqMul, symL, Nat.zero_add, DUserQcqp.hess]
      rfl
  have h := qres_cached (oqv Q) (oqv_wf Q hwf) (osol sol) (ores res) (ores res') (oqws w) (oqws w') (ov_ws Q.inner w.ws hws)
    (ov_ws Q.inner w'.ws hws') hco hu
  have h0 := h.1 0 (Nat.zero_le _)
  have hr : r = _ := dqres_ov Q sol res w
  have hr' : r' = _ := dqres_ov Q sol res' w'
  refine ⟨fun i hi => ?_, fun i hi => ?_, fun j hj => ?_, ?_, ?_, ?_⟩
  · show (dqresCompute Q sol res w).res_g i = (dqresCompute Q sol res' w').res_g i
    rw [dqg_eq, dqg_eq, h0.1 i hi]
  · show (dqresCompute Q sol res w).res_b i = (dqresCompute Q sol res' w').res_b i
    rw [dqres_equalities Q sol res w i hi, dqres_equalities Q sol res' w' i hi]
  · rw [hr, hr']; exact h0.2.2 j hj
  · rw [hr, hr']; exact h.2.1
  · show (dqresCompute Q sol res w).dual_gap = (dqresCompute Q sol res' w').dual_gap
    rw [dqgap_eq, dqgap_eq, h.2.2.1]
  · rw [hr, hr']; exact h.2.2.2

end
end Hpipm
