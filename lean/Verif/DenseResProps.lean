/-
Property C69: the residual routines of the dense QP against the specification in DenseSpec.lean.
-/
import Verif.DenseView

namespace Hpipm
open Finset
set_option linter.unusedSectionVars false

section
variable {K : Type*} [Field K] [LinearOrder K] [IsStrictOrderedRing K]
variable (qp : DenseQp K)

theorem osum0 (f : ℕ → K) : ∑ k ∈ range ((ov qp).dim.N + 1), f k = f 0 := by
  show ∑ k ∈ range (0 + 1), f k = f 0
  simp

theorem opairV (a h : ℕ → Vec K) : pairV (ov qp).dim a h = ∑ i ∈ range (qp.dim.nv + 2 * qp.dim.ns), a 0 i * h 0 i :=
  osum0 qp _
theorem opairC (a h : ℕ → Vec K) : pairC (ov qp).dim a h = ∑ j ∈ range qp.dim.nct, a 0 j * h 0 j := osum0 qp _
theorem opairE (a h : ℕ → Vec K) : pairE (ov qp).dim a h = 0 := by
  show ∑ k ∈ range 0, _ = _
  simp

theorem opt_dpt (v : Vec K) : ∀ P : Pt K → Prop,
    (∀ p : Pt K, p.u = (fun _ => v) → p.sl = (fun _ i => v (qp.dim.nv + i)) →
      p.su = (fun _ i => v (qp.dim.nv + qp.dim.ns + i)) → P p) → P (opt (dptOf qp.dim v)) :=
  fun _ h => h _ rfl rfl rfl

/-- the states of the single stage QP do not exist: a point may be replaced by the packed one -/
theorem opt_agree (v : Vec K) : Agree (view (ov qp)) (opt (dptOf qp.dim v)) (ptOf (ov qp).dim (fun _ => v)) :=
  ⟨fun _ _ _ => rfl, fun _ i hi => absurd hi (Nat.not_lt_zero i), fun _ _ _ => rfl, fun _ _ _ => rfl⟩

theorem oobjective (v : Vec K) : (dview qp).objective (dptOf qp.dim v) =
    (view (ov qp)).objective (ptOf (ov qp).dim (fun _ => v)) := by
  rw [ov_objective]; exact objective_congr _ _ _ (opt_agree qp v)

theorem oquad (v : Vec K) : (dview qp).quad (dptOf qp.dim v) =
    (view (ov qp)).quad (ptOf (ov qp).dim (fun _ => v)) := by
  rw [ov_quad]
  have h := opt_agree qp v
  show ∑ k ∈ range (0 + 1), _ = ∑ k ∈ range (0 + 1), _
  simp only [Nat.zero_add, range_one, sum_singleton, UserQp.stageQuad]
  have e0 : (view (ov qp)).nx 0 = 0 := rfl
  rw [e0]
  simp only [range_zero, sum_empty, sum_const_zero]
  rfl

/-- value of a constraint in packed form -/
theorem dvalue_packed (hwf : qp.WF) (v : Vec K) (j : ℕ) (hj : j < qp.dim.nb + qp.dim.ng) :
    (dview qp).value (dptOf qp.dim v) j = cval (ov qp) 0 v j := by
  rw [ov_value qp _ j hwf hj, ← value_packed (ov qp) 0 (fun _ => v) j hj]
  unfold UserQp.value
  have e0 : (view (ov qp)).nx 0 = 0 := rfl
  rw [e0]
  by_cases h : j < (view (ov qp)).nb 0
  · have h2 : (view (ov qp)).idxb 0 j < (view (ov qp)).nu 0 := hwf.idxb j h
    rw [if_pos h, if_pos h, if_pos h2, if_pos h2]
    rfl
  · rw [if_neg h, if_neg h]
    simp only [range_zero, sum_empty]
    rfl

/-- the Lagrangian in packed form -/
theorem dlagr_packed (hwf : qp.WF) (sol : DqSol K) (v : Vec K) :
    (dview qp).lagrangian (dptOf qp.dim v) (dmultOf qp.dim sol) =
    1 / 2 * (∑ i ∈ range (qp.dim.nv + 2 * qp.dim.ns), hessMul (ov qp) (fun _ => v) 0 i * v i)
    + (∑ i ∈ range (qp.dim.nv + 2 * qp.dim.ns), qp.gz i * v i)
    + (∑ j ∈ range qp.dim.nct, lamM (ov qp) (osol sol) 0 j * (qp.d j + linD (ov qp) (fun _ => v) 0 j))
    + ∑ i ∈ range qp.dim.ne, sol.pi i * (qp.b i - ∑ j ∈ range qp.dim.nv, qp.A i j * v j) := by
  rw [ov_lagrangian qp hwf]
  have e : (view (ov qp)).lagrangian (opt (dptOf qp.dim v)) ⟨fun _ _ => 0, fun _ => (dmultOf qp.dim sol).lo,
      fun _ => (dmultOf qp.dim sol).up, fun _ => (dmultOf qp.dim sol).ls, fun _ => (dmultOf qp.dim sol).us⟩ =
      (view (ov qp)).lagrangian (ptOf (ov qp).dim (fun _ => v)) (multOf (ov qp).dim (osol sol)) := by
    unfold UserQp.lagrangian
    rw [objective_congr _ _ _ (opt_agree qp v)]
    have e0 : (view (ov qp)).N = 0 := rfl
    rw [e0]
    simp only [range_zero, sum_empty, add_zero, zero_add, range_one, sum_singleton]
    have ev : ∀ j, j < qp.dim.nb + qp.dim.ng → (view (ov qp)).value (opt (dptOf qp.dim v)) 0 j =
        (view (ov qp)).value (ptOf (ov qp).dim (fun _ => v)) 0 j := by
      intro j hj
      rw [← ov_value qp _ j hwf hj, dvalue_packed qp hwf v j hj, value_packed (ov qp) 0 _ j hj]
    congr 1
    congr 1
    · congr 1
      · congr 1
        · exact sum_congr rfl (fun j hj => by rw [ev j (mem_range.mp hj)]; rfl)
        · exact sum_congr rfl (fun j hj => by rw [ev j (mem_range.mp hj)]; rfl)
  rw [e, lagr_packed, opairV, opairV, opairE, opairC, add_zero]
  congr 1
  apply sum_congr rfl
  intro i hi
  have hi := mem_range.mp hi
  rw [dview_b qp i hi, dview_Av qp _ i hi]
  rfl

theorem atp_pair (pi v : Vec K) : ∑ i ∈ range (qp.dim.nv + 2 * qp.dim.ns), atp qp pi i * v i =
    ∑ i ∈ range qp.dim.ne, pi i * ∑ j ∈ range qp.dim.nv, qp.A i j * v j := by
  rw [sum_range_add]
  have z : ∑ x ∈ range (2 * qp.dim.ns), atp qp pi (qp.dim.nv + x) * v (qp.dim.nv + x) = 0 := by
    apply sum_eq_zero; intro x _
    rw [atp, if_neg (by omega), zero_mul]
  rw [z, add_zero]
  have e : ∀ i ∈ range qp.dim.nv, atp qp pi i * v i = ∑ j ∈ range qp.dim.ne, pi j * (qp.A j i * v i) := by
    intro i hi
    rw [atp, if_pos (mem_range.mp hi), sum_mul]
    exact sum_congr rfl (fun j _ => by ring)
  rw [sum_congr rfl e, sum_comm]
  exact sum_congr rfl (fun i _ => by rw [mul_sum])

/-- pairing of the packed gradient with a direction -/
theorem dg_pair (hwf : qp.WF) (sol : DqSol K) (res : DRes K) (ws : ResWs K) (hws : DWsOk ws qp) (h : Vec K) :
    ∑ i ∈ range (qp.dim.nv + 2 * qp.dim.ns), (dresCompute qp sol res ws).res_g i * h i =
    (∑ i ∈ range (qp.dim.nv + 2 * qp.dim.ns), (hessMul (ov qp) (fun _ => sol.v) 0 i + qp.gz i) * h i)
    + (∑ j ∈ range qp.dim.nct, lamM (ov qp) (osol sol) 0 j * linD (ov qp) (fun _ => h) 0 j)
    - ∑ i ∈ range qp.dim.ne, sol.pi i * ∑ j ∈ range qp.dim.nv, qp.A i j * h j := by
  have hr := dresCompute_val qp hwf sol res ws hws
  have e : ∑ i ∈ range (qp.dim.nv + 2 * qp.dim.ns), (dresCompute qp sol res ws).res_g i * h i =
      (∑ i ∈ range (qp.dim.nv + 2 * qp.dim.ns), vG (ov qp) (osol sol) (lamM (ov qp) (osol sol) 0) 0 i * h i)
      - ∑ i ∈ range (qp.dim.nv + 2 * qp.dim.ns), atp qp sol.pi i * h i := by
    rw [← sum_sub_distrib]
    exact sum_congr rfl (fun i hi => by rw [hr.g i (mem_range.mp hi)]; ring)
  rw [e, atp_pair]
  congr 1
  have hp := vG_pair (ov qp) (ov_wf qp hwf) (osol sol) (lamM (ov qp) (osol sol)) (fun _ => h)
  rw [opairV, opairV, opairE, opairC, add_zero] at hp
  exact hp

/-- **C69 (stationarity).**  The returned `res_g` is the gradient of the Lagrangian of the dense QP: along
every direction `h` of variables and slacks the Lagrangian changes by `⟨res_g, h⟩` plus the quadratic cost
of `h`. -/
theorem dres_stationarity (hwf : qp.WF) (sol : DqSol K) (res : DRes K) (ws : ResWs K) (hws : DWsOk ws qp)
    (h : Vec K) :
    (dview qp).lagrangian (dptOf qp.dim (fun i => sol.v i + h i)) (dmultOf qp.dim sol) =
    (dview qp).lagrangian (dptOf qp.dim sol.v) (dmultOf qp.dim sol)
      + (∑ i ∈ range (qp.dim.nv + 2 * qp.dim.ns), (dresCompute qp sol res ws).res_g i * h i)
      + (dview qp).quad (dptOf qp.dim h) := by
  rw [dg_pair qp hwf sol res ws hws h, dlagr_packed qp hwf, dlagr_packed qp hwf, oquad, quad_pair, opairV]
  have hs := hess_symm (ov qp) (fun _ => sol.v) (fun _ => h)
  rw [opairV, opairV] at hs
  have a1 : ∀ i, hessMul (ov qp) (fun _ i => sol.v i + h i) 0 i =
      hessMul (ov qp) (fun _ => sol.v) 0 i + hessMul (ov qp) (fun _ => h) 0 i := fun i =>
    hessMul_add (ov qp) (fun _ => sol.v) (fun _ => h) 0 i
  have a2 : ∀ j, linD (ov qp) (fun _ i => sol.v i + h i) 0 j =
      linD (ov qp) (fun _ => sol.v) 0 j + linD (ov qp) (fun _ => h) 0 j := fun j =>
    linD_add (ov qp) (fun _ => sol.v) (fun _ => h) 0 j
  simp only [a1, a2, mul_add, add_mul, mul_sub, sum_add_distrib, sum_sub_distrib]
  linear_combination -(1 / 2 : K) * hs

/-- **C69 (equalities).** -/
theorem dres_equalities (hwf : qp.WF) (sol : DqSol K) (res : DRes K) (ws : ResWs K) (hws : DWsOk ws qp)
    (i : ℕ) (hi : i < qp.dim.ne) :
    (dresCompute qp sol res ws).res_b i = (dview qp).b i - (dview qp).Av sol.v i := by
  rw [(dresCompute_val qp hwf sol res ws hws).b i hi, dview_b qp i hi, dview_Av qp _ i hi]

/-- **C69 (inequalities).**  The returned defects of present constraints are `lower - value - slack + t`,
`value - upper - slack + t` and, for the slack variables, `bound - slack + t`; masked constraints report
zero. -/
theorem dres_inequalities (hwf : qp.WF) (sol : DqSol K) (res : DRes K) (ws : ResWs K) (hws : DWsOk ws qp) :
    let P := dview qp
    let p := dptOf qp.dim sol.v
    let r := (dresCompute qp sol res ws).res_d
    let n := qp.dim.nb + qp.dim.ng
    (∀ j, j < n → r j = P.lowerMask j * (P.lower j - P.value p j - P.slackLo p j + sol.t j)) ∧
    (∀ j, j < n → r (n + j) = P.upperMask j * (P.value p j - P.upper j - P.slackUp p j + sol.t (n + j))) ∧
    (∀ s, s < qp.dim.ns → r (2 * n + s) = P.llsMask s * (P.lls s - p.sl s + sol.t (2 * n + s))) ∧
    (∀ s, s < qp.dim.ns → r (2 * n + qp.dim.ns + s) =
      P.lusMask s * (P.lus s - p.su s + sol.t (2 * n + qp.dim.ns + s))) := by
  have h := res_inequalities (ov qp) (ov_wf qp hwf) (osol sol) (ores res) ws (ov_ws qp ws hws) 0 (Nat.zero_le _)
  have hv : ∀ j, j < qp.dim.nb + qp.dim.ng → (dview qp).value (dptOf qp.dim sol.v) j =
      (view (ov qp)).value (ptOf (ov qp).dim (osol sol).ux) 0 j := by
    intro j hj
    rw [dvalue_packed qp hwf _ j hj, value_packed (ov qp) 0 _ j hj]; rfl
  intro P p r n
  have hr : r = (resCompute (ov qp) (osol sol) (ores res) ws).res_d 0 := by
    show (dresCompute qp sol res ws).res_d = _
    rw [dres_ov]
  refine ⟨fun j hj => ?_, fun j hj => ?_, fun s hs => ?_, fun s hs => ?_⟩
  · rw [hr]; show _ = P.lowerMask j * (P.lower j - P.value p j - P.slackLo p j + sol.t j)
    rw [hv j hj]; exact h.1 j hj
  · rw [hr]; show _ = P.upperMask j * (P.value p j - P.upper j - P.slackUp p j + sol.t (n + j))
    rw [hv j hj]; exact h.2.1 j hj
  · rw [hr]; exact h.2.2.1 s hs
  · rw [hr]; exact h.2.2.2 s hs

/-- **C69 (complementarity).**  `res_m = lam*t - m` for present constraints, zero for masked ones. -/
theorem dres_complementarity (hwf : qp.WF) (hm : DMask01 qp) (sol : DqSol K) (res : DRes K) (ws : ResWs K)
    (hws : DWsOk ws qp) (j : ℕ) (hj : j < 2 * qp.dim.nb + 2 * qp.dim.ng + 2 * qp.dim.ns) :
    (dresCompute qp sol res ws).res_m j = if qp.d_mask j = 0 then 0 else sol.lam j * sol.t j - qp.m j := by
  rw [dres_ov]
  exact res_complementarity (ov qp) (ov_wf qp hwf) (ov_mask qp hm) (osol sol) (ores res) ws (ov_ws qp ws hws) 0 j
    (Nat.zero_le _) hj

/-- **C69 (objective).**  The reported objective is the objective of the QP. -/
theorem dres_objective (hwf : qp.WF) (sol : DqSol K) (res : DRes K) (ws : ResWs K) (hws : DWsOk ws qp) :
    (dresCompute qp sol res ws).obj = (dview qp).objective (dptOf qp.dim sol.v) := by
  rw [oobjective, dres_ov]
  exact res_objective (ov qp) (ov_wf qp hwf) (osol sol) (ores res) ws (ov_ws qp ws hws)

/-- **C69 (complementarity measure).**  The mean absolute complementarity residual over the present
constraints, zero if there is none. -/
theorem dres_mu_mean (hwf : qp.WF) (sol : DqSol K) (res : DRes K) (ws : ResWs K)
    (hv : ws.valid_nc_mask = false) :
    let r := dresCompute qp sol res ws
    let total := ∑ j ∈ range qp.dim.nct, |r.res_m j|
    let count := ∑ j ∈ range qp.dim.nct, if qp.d_mask j = 1 then 1 else 0
    r.res_mu_sum = total ∧ r.res_mu = total / (count : ℕ) := by
  intro r total count
  have h := res_mu_mean (ov qp) (ov_wf qp hwf) (osol sol) (ores res) ws hv
  have e : (∑ k ∈ range ((ov qp).dim.N + 1), ∑ j ∈ range (nct (ov qp).dim k), if (ov qp).d_mask k j = 1 then 1 else 0)
      = count := by
    show (∑ k ∈ range (0 + 1), ∑ j ∈ range (nct (ov qp).dim k), if (ov qp).d_mask k j = 1 then 1 else 0) = count
    simp only [Nat.zero_add, range_one, sum_singleton]
    rfl
  simp only [osum0] at h
  rw [e] at h
  have hr : r.res_m = (resCompute (ov qp) (osol sol) (ores res) ws).res_m 0 ∧
      r.res_mu_sum = (resCompute (ov qp) (osol sol) (ores res) ws).res_mu_sum ∧
      r.res_mu = (resCompute (ov qp) (osol sol) (ores res) ws).res_mu := by
    show (dresCompute qp sol res ws).res_m = _ ∧ (dresCompute qp sol res ws).res_mu_sum = _ ∧
      (dresCompute qp sol res ws).res_mu = _
    rw [dres_ov]
    exact ⟨rfl, rfl, rfl⟩
  refine ⟨?_, ?_⟩
  · rw [hr.2.1, h.1]; show _ = ∑ j ∈ range qp.dim.nct, |r.res_m j|; rw [hr.1]; rfl
  · rw [hr.2.2, h.2]; show _ = (∑ j ∈ range qp.dim.nct, |r.res_m j|) / _; rw [hr.1]; rfl

/-- **C69 (duality gap identity).**  The reported gap is the sum of slack times multiplier over the present
constraints plus terms that vanish with the residuals. -/
theorem dres_dual_gap (hwf : qp.WF) (sol : DqSol K) (res : DRes K) (ws : ResWs K) (hws : DWsOk ws qp) :
    let r := dresCompute qp sol res ws
    r.dual_gap = (∑ i ∈ range (qp.dim.nv + 2 * qp.dim.ns), r.res_g i * sol.v i)
      - (∑ i ∈ range qp.dim.ne, sol.pi i * r.res_b i)
      - (∑ j ∈ range qp.dim.nct, sol.lam j * r.res_d j)
      + ∑ j ∈ range qp.dim.nct, qp.d_mask j * sol.lam j * sol.t j := by
  intro r
  have hr := dresCompute_val qp hwf sol res ws hws
  show (dresCompute qp sol res ws).dual_gap = _
  rw [hr.gap, dg_pair qp hwf sol res ws hws]
  have hg := gap_packed (ov qp) (osol sol)
  rw [osum0, opairV, opairC, opairE, sub_zero] at hg
  rw [hg]
  have e1 : ∑ i ∈ range qp.dim.ne, sol.pi i * r.res_b i =
      (∑ i ∈ range qp.dim.ne, qp.b i * sol.pi i) - ∑ i ∈ range qp.dim.ne, sol.pi i * ∑ j ∈ range qp.dim.nv, qp.A i j * sol.v j := by
    rw [← sum_sub_distrib]
    exact sum_congr rfl (fun i hi => by rw [show r.res_b i = _ from hr.b i (mem_range.mp hi)]; ring)
  have e2 : ∑ j ∈ range qp.dim.nct, sol.lam j * r.res_d j =
      (∑ j ∈ range qp.dim.nct, lamM (ov qp) (osol sol) 0 j * qp.d j)
      + (∑ j ∈ range qp.dim.nct, lamM (ov qp) (osol sol) 0 j * linD (ov qp) (fun _ => sol.v) 0 j)
      + ∑ j ∈ range qp.dim.nct, qp.d_mask j * sol.lam j * sol.t j := by
    rw [← sum_add_distrib, ← sum_add_distrib]
    apply sum_congr rfl
    intro j hj
    rw [show r.res_d j = _ from hr.d j (mem_range.mp hj), vD_lin]
    show sol.lam j * (qp.d_mask j * (qp.d j + sol.t j + linD (ov qp) (fun _ => sol.v) 0 j)) =
      qp.d_mask j * sol.lam j * qp.d j + qp.d_mask j * sol.lam j * linD (ov qp) (fun _ => sol.v) 0 j + _
    ring
  rw [e1, e2]
  show (∑ i ∈ range (qp.dim.nv + 2 * qp.dim.ns), (hessMul (ov qp) (fun _ => sol.v) 0 i + qp.gz i) * sol.v i)
    - (∑ j ∈ range qp.dim.nct, lamM (ov qp) (osol sol) 0 j * qp.d j) - _ = _
  ring

/-- a point given by arbitrary components, in the layout of the solver -/
def dpackPt (D : DDim) (p : DPt K) : Vec K := fun i =>
  if i < D.nv then p.v i
  else if i < D.nv + D.ns then p.sl (i - D.nv)
  else p.su (i - (D.nv + D.ns))

theorem dpack_feasible (hwf : qp.WF) (p : DPt K) (hf : (dview qp).Feasible p) :
    (dview qp).Feasible (dptOf qp.dim (dpackPt qp.dim p)) ∧
    (dview qp).objective (dptOf qp.dim (dpackPt qp.dim p)) = (dview qp).objective p := by
  have hv : ∀ i, i < qp.dim.nv → (dptOf qp.dim (dpackPt qp.dim p)).v i = p.v i := fun i hi => by
    simp only [dptOf, dpackPt]; rw [if_pos hi]
  have hsl : ∀ i, i < qp.dim.ns → (dptOf qp.dim (dpackPt qp.dim p)).sl i = p.sl i := fun i hi => by
    simp only [dptOf, dpackPt]; rw [if_neg (by omega), if_pos (by omega)]; congr 1; omega
  have hsu : ∀ i, i < qp.dim.ns → (dptOf qp.dim (dpackPt qp.dim p)).su i = p.su i := fun i hi => by
    simp only [dptOf, dpackPt]; rw [if_neg (by omega), if_neg (by omega)]; congr 1; omega
  set q := dptOf qp.dim (dpackPt qp.dim p) with hq
  have hval : ∀ j, j < qp.dim.nb + qp.dim.ng → (dview qp).value q j = (dview qp).value p j := by
    intro j hj
    simp only [DUser.value]
    by_cases hb : j < (dview qp).nb
    · rw [if_pos hb, if_pos hb]; exact hv _ (hwf.idxb j hb)
    · rw [if_neg hb, if_neg hb]
      exact sum_congr rfl (fun i hi => by rw [hv i (mem_range.mp hi)])
  have hsoft : ∀ j s, j < qp.dim.nb + qp.dim.ng → (dview qp).soft j = some s → s < qp.dim.ns := by
    intro j s hj hs
    simp only [dview] at hs
    by_cases h1 : qp.idxs_rev j = -1
    · rw [if_pos h1] at hs; cases hs
    · rw [if_neg h1] at hs
      have := Option.some.inj hs
      rcases hwf.soft j hj with h2 | h2
      · exact absurd h2 h1
      · omega
  have hslo : ∀ j, j < qp.dim.nb + qp.dim.ng → (dview qp).slackLo q j = (dview qp).slackLo p j := by
    intro j hj
    simp only [DUser.slackLo]
    cases hs : (dview qp).soft j with
    | none => rfl
    | some s => exact hsl s (hsoft j s hj hs)
  have hsup : ∀ j, j < qp.dim.nb + qp.dim.ng → (dview qp).slackUp q j = (dview qp).slackUp p j := by
    intro j hj
    simp only [DUser.slackUp]
    cases hs : (dview qp).soft j with
    | none => rfl
    | some s => exact hsu s (hsoft j s hj hs)
  refine ⟨⟨fun i hi => ?_, fun j hj hm => ?_, fun j hj hm => ?_, fun i hi hm => ?_, fun i hi hm => ?_⟩, ?_⟩
  · rw [← hf.eq i hi]
    simp only [DUser.Av]
    exact sum_congr rfl (fun j hj => by rw [hv j (mem_range.mp hj)])
  · rw [hval j hj, hslo j hj]; exact hf.lo j hj hm
  · rw [hval j hj, hsup j hj]; exact hf.up j hj hm
  · rw [hsl i hi]; exact hf.ls i hi hm
  · rw [hsu i hi]; exact hf.us i hi hm
  · simp only [DUser.objective, DUser.quad, DUser.lin]
    have a1 : ∀ i ∈ range (dview qp).nv, q.v i = p.v i := fun i hi => hv i (mem_range.mp hi)
    have a2 : ∀ i ∈ range (dview qp).ns, q.sl i = p.sl i := fun i hi => hsl i (mem_range.mp hi)
    have a3 : ∀ i ∈ range (dview qp).ns, q.su i = p.su i := fun i hi => hsu i (mem_range.mp hi)
    congr 1
    · congr 1
      · congr 1
        · congr 1
          exact sum_congr rfl (fun i hi => sum_congr rfl (fun j hj => by rw [a1 i hi, a1 j hj]))
        · congr 1
          exact sum_congr rfl (fun i hi => by rw [a2 i hi])
      · congr 1
        exact sum_congr rfl (fun i hi => by rw [a3 i hi])
    · congr 1
      · congr 1
        · exact sum_congr rfl (fun i hi => by rw [a1 i hi])
        · exact sum_congr rfl (fun i hi => by rw [a2 i hi])
      · exact sum_congr rfl (fun i hi => by rw [a3 i hi])

/-- masks of the user's view -/
theorem dview_masks (j : ℕ) : 
    (j < qp.dim.nb + qp.dim.ng → (dview qp).lowerMask j = qp.d_mask j ∧
      (dview qp).upperMask j = qp.d_mask (qp.dim.nb + qp.dim.ng + j)) ∧
    (j < qp.dim.ns → (dview qp).llsMask j = qp.d_mask (2 * (qp.dim.nb + qp.dim.ng) + j) ∧
      (dview qp).lusMask j = qp.d_mask (2 * (qp.dim.nb + qp.dim.ng) + qp.dim.ns + j)) :=
  ⟨fun hj => ⟨view_lowerMask (ov qp) 0 j hj, view_upperMask (ov qp) 0 j hj⟩,
    fun hj => ⟨view_llsMask (ov qp) 0 j hj, view_lusMask (ov qp) 0 j hj⟩⟩

/-- on feasible points the Lagrangian does not exceed the objective -/
theorem dlagrangian_le (P : DUser K) (p : DPt K) (w : DMult K) (hf : P.Feasible p)
    (h1 : ∀ j, j < P.nb + P.ng → 0 ≤ P.lowerMask j * w.lo j)
    (h2 : ∀ j, j < P.nb + P.ng → 0 ≤ P.upperMask j * w.up j)
    (h3 : ∀ i, i < P.ns → 0 ≤ P.llsMask i * w.ls i)
    (h4 : ∀ i, i < P.ns → 0 ≤ P.lusMask i * w.us i) :
    P.lagrangian p w ≤ P.objective p := by
  unfold DUser.lagrangian
  have e0 : ∑ i ∈ range P.ne, w.pi i * (P.b i - P.Av p.v i) = 0 := by
    apply sum_eq_zero; intro i hi
    rw [hf.eq i (mem_range.mp hi), sub_self, mul_zero]
  rw [e0, add_zero]
  have key : ∀ (m l g : K), 0 ≤ m * l → (m ≠ 0 → g ≤ 0) → m * l * g ≤ 0 := by
    intro m l g hml hg
    by_cases hm : m = 0
    · rw [hm]; simp
    · exact mul_nonpos_of_nonneg_of_nonpos hml (hg hm)
  have : ((∑ j ∈ range (P.nb + P.ng), P.lowerMask j * w.lo j * (P.lower j - P.value p j - P.slackLo p j))
    + (∑ j ∈ range (P.nb + P.ng), P.upperMask j * w.up j * (P.value p j - P.upper j - P.slackUp p j))
    + (∑ i ∈ range P.ns, P.llsMask i * w.ls i * (P.lls i - p.sl i))
    + (∑ i ∈ range P.ns, P.lusMask i * w.us i * (P.lus i - p.su i))) ≤ 0 := by
    refine add_nonpos (add_nonpos (add_nonpos ?_ ?_) ?_) ?_
    · apply sum_nonpos; intro j hj; have hj := mem_range.mp hj
      exact key _ _ _ (h1 j hj) (fun hm => by linarith [hf.lo j hj hm])
    · apply sum_nonpos; intro j hj; have hj := mem_range.mp hj
      exact key _ _ _ (h2 j hj) (fun hm => by linarith [hf.up j hj hm])
    · apply sum_nonpos; intro j hj; have hj := mem_range.mp hj
      exact key _ _ _ (h3 j hj) (fun hm => by linarith [hf.ls j hj hm])
    · apply sum_nonpos; intro j hj; have hj := mem_range.mp hj
      exact key _ _ _ (h4 j hj) (fun hm => by linarith [hf.us j hj hm])
  linarith

/-- **C69 (gap bound).**  If the objective is convex along the directions allowed by the equality
constraints, the stationarity and equality residuals are zero and the multipliers of the present
constraints are nonnegative, then the objective of every feasible point is at least the reported objective
minus the reported duality gap. -/
theorem dres_gap_bound (hwf : qp.WF) (hm : DMask01 qp) (hc : (dview qp).Convex) (sol : DqSol K)
    (res : DRes K) (ws : ResWs K) (hws : DWsOk ws qp)
    (hg : ∀ i, i < qp.dim.nv + 2 * qp.dim.ns → (dresCompute qp sol res ws).res_g i = 0)
    (hb : ∀ i, i < qp.dim.ne → (dresCompute qp sol res ws).res_b i = 0)
    (hl : ∀ j, j < 2 * qp.dim.nb + 2 * qp.dim.ng + 2 * qp.dim.ns → qp.d_mask j ≠ 0 → 0 ≤ sol.lam j)
    (p : DPt K) (hf : (dview qp).Feasible p) :
    (dresCompute qp sol res ws).obj - (dresCompute qp sol res ws).dual_gap ≤ (dview qp).objective p := by
  obtain ⟨hf', ho⟩ := dpack_feasible qp hwf p hf
  rw [← ho]
  set v := dpackPt qp.dim p with hv
  have hst := dres_stationarity qp hwf sol res ws hws (fun i => v i - sol.v i)
  have e0 : (fun i => sol.v i + (v i - sol.v i)) = v := by funext i; ring
  rw [e0] at hst
  have ez : (∑ i ∈ range (qp.dim.nv + 2 * qp.dim.ns), (dresCompute qp sol res ws).res_g i * (v i - sol.v i)) = 0 := by
    apply sum_eq_zero; intro i hi
    rw [hg i (mem_range.mp hi), zero_mul]
  rw [ez, add_zero] at hst
  have hq := hc (dptOf qp.dim (fun i => v i - sol.v i)) (by
    intro i hi
    have h1 : (dview qp).Av v i = (dview qp).b i := hf'.eq i hi
    have h2 := dres_equalities qp hwf sol res ws hws i hi
    rw [hb i hi] at h2
    have : (dview qp).Av (dptOf qp.dim (fun i => v i - sol.v i)).v i = (dview qp).Av v i - (dview qp).Av sol.v i := by
      simp only [DUser.Av, dptOf, mul_sub, sum_sub_distrib]
    rw [this]; linear_combination h1 - h2)
  have hlm : ∀ j, j < 2 * qp.dim.nb + 2 * qp.dim.ng + 2 * qp.dim.ns → 0 ≤ qp.d_mask j * sol.lam j := by
    intro j hj
    rcases hm j hj with h | h
    · simp [h]
    · rw [h, one_mul]; exact hl j hj (by rw [h]; exact one_ne_zero)
  have hle : (dview qp).lagrangian (dptOf qp.dim v) (dmultOf qp.dim sol) ≤ (dview qp).objective (dptOf qp.dim v) := by
    have e1 : (dview qp).nb = qp.dim.nb := rfl
    have e2 : (dview qp).ng = qp.dim.ng := rfl
    have e3 : (dview qp).ns = qp.dim.ns := rfl
    apply dlagrangian_le _ _ _ hf'
    · intro j hj
      rw [((dview_masks qp j).1 hj).1]; exact hlm j (by omega)
    · intro j hj
      rw [((dview_masks qp j).1 hj).2]; exact hlm _ (by omega)
    · intro j hj
      rw [((dview_masks qp j).2 hj).1]; exact hlm _ (by omega)
    · intro j hj
      rw [((dview_masks qp j).2 hj).2]; exact hlm _ (by omega)
  have hL : (dview qp).lagrangian (dptOf qp.dim sol.v) (dmultOf qp.dim sol) =
      (dresCompute qp sol res ws).obj - (dresCompute qp sol res ws).dual_gap := by
    have hr := dresCompute_val qp hwf sol res ws hws
    have hz : ∑ i ∈ range (qp.dim.nv + 2 * qp.dim.ns), (dresCompute qp sol res ws).res_g i * sol.v i = 0 := by
      apply sum_eq_zero; intro i hi
      rw [hg i (mem_range.mp hi), zero_mul]
    rw [dg_pair qp hwf sol res ws hws] at hz
    rw [dres_objective qp hwf sol res ws hws, oobjective, obj_pair, hr.gap]
    have hgp := gap_packed (ov qp) (osol sol)
    rw [osum0, opairV, opairC, opairE, sub_zero] at hgp
    rw [hgp, dlagr_packed qp hwf, opairV, opairV]
    simp only [mul_add, mul_sub, sum_add_distrib, sum_sub_distrib, add_mul] at hz ⊢
    have c1 : ∑ i ∈ range qp.dim.ne, qp.b i * sol.pi i = ∑ i ∈ range qp.dim.ne, sol.pi i * qp.b i :=
      sum_congr rfl (fun i _ => by ring)
    rw [c1]
    have c2 : (osol sol).ux = fun _ => sol.v := rfl
    have c3 : (ov qp).rqz 0 = qp.gz := rfl
    have c4 : (ov qp).d 0 = qp.d := rfl
    rw [c2]
    simp only [c3, c4]
    linear_combination hz
  rw [← hL]
  linarith

/-- **C69 (certificate).**  A point with zero residuals (targets `m` zero) and nonnegative multipliers and
slacks of the present constraints is a global optimum, if the objective is convex along the directions
allowed by the equality constraints. -/
theorem dres_zero_optimal (hwf : qp.WF) (hm : DMask01 qp) (hc : (dview qp).Convex) (sol : DqSol K)
    (res : DRes K) (ws : ResWs K) (hws : DWsOk ws qp)
    (hg : ∀ i, i < qp.dim.nv + 2 * qp.dim.ns → (dresCompute qp sol res ws).res_g i = 0)
    (hb : ∀ i, i < qp.dim.ne → (dresCompute qp sol res ws).res_b i = 0)
    (hd : ∀ j, j < 2 * qp.dim.nb + 2 * qp.dim.ng + 2 * qp.dim.ns → (dresCompute qp sol res ws).res_d j = 0)
    (hcm : ∀ j, j < 2 * qp.dim.nb + 2 * qp.dim.ng + 2 * qp.dim.ns →
      (dresCompute qp sol res ws).res_m j = 0 ∧ qp.m j = 0)
    (hl : ∀ j, j < 2 * qp.dim.nb + 2 * qp.dim.ng + 2 * qp.dim.ns →
      qp.d_mask j ≠ 0 → 0 ≤ sol.lam j ∧ 0 ≤ sol.t j) :
    (dview qp).IsOptimal (dptOf qp.dim sol.v) := by
  have e1 : (dview qp).nb = qp.dim.nb := rfl
  have e2 : (dview qp).ng = qp.dim.ng := rfl
  have e3 : (dview qp).ns = qp.dim.ns := rfl
  have hin := dres_inequalities qp hwf sol res ws hws
  refine ⟨⟨fun i hi => ?_, fun j hj hmj => ?_, fun j hj hmj => ?_, fun s hs hms => ?_,
    fun s hs hms => ?_⟩, fun p hp => ?_⟩
  · have h := dres_equalities qp hwf sol res ws hws i hi
    rw [hb i hi] at h
    exact (sub_eq_zero.mp h.symm).symm
  · rw [e1, e2] at hj
    have h := hin.1 j hj
    rw [hd j (by omega)] at h
    have h' := (mul_eq_zero.mp h.symm).resolve_left hmj
    rw [((dview_masks qp j).1 hj).1] at hmj
    linarith [(hl j (by omega) hmj).2]
  · rw [e1, e2] at hj
    have h := hin.2.1 j hj
    rw [hd _ (by omega)] at h
    have h' := (mul_eq_zero.mp h.symm).resolve_left hmj
    rw [((dview_masks qp j).1 hj).2] at hmj
    linarith [(hl _ (by omega) hmj).2]
  · rw [e3] at hs
    have h := hin.2.2.1 s hs
    rw [hd _ (by omega)] at h
    have h' := (mul_eq_zero.mp h.symm).resolve_left hms
    rw [((dview_masks qp s).2 hs).1] at hms
    linarith [(hl _ (by omega) hms).2]
  · rw [e3] at hs
    have h := hin.2.2.2 s hs
    rw [hd _ (by omega)] at h
    have h' := (mul_eq_zero.mp h.symm).resolve_left hms
    rw [((dview_masks qp s).2 hs).2] at hms
    linarith [(hl _ (by omega) hms).2]
  · have hb' := dres_gap_bound qp hwf hm hc sol res ws hws hg hb (fun j hj h => (hl j hj h).1) p hp
    have hgap : (dresCompute qp sol res ws).dual_gap = 0 := by
      rw [dres_dual_gap qp hwf sol res ws hws]
      have z1 : ∑ i ∈ range (qp.dim.nv + 2 * qp.dim.ns), (dresCompute qp sol res ws).res_g i * sol.v i = 0 :=
        sum_eq_zero (fun i hi => by rw [hg i (mem_range.mp hi), zero_mul])
      have z2 : ∑ i ∈ range qp.dim.ne, sol.pi i * (dresCompute qp sol res ws).res_b i = 0 :=
        sum_eq_zero (fun i hi => by rw [hb i (mem_range.mp hi), mul_zero])
      have z3 : ∑ j ∈ range qp.dim.nct, sol.lam j * (dresCompute qp sol res ws).res_d j = 0 :=
        sum_eq_zero (fun i hi => by rw [hd i (mem_range.mp hi), mul_zero])
      have z4 : ∑ j ∈ range qp.dim.nct, qp.d_mask j * sol.lam j * sol.t j = 0 := by
        apply sum_eq_zero; intro j hj
        have hj' := mem_range.mp hj
        have h := dres_complementarity qp hwf hm sol res ws hws j hj'
        rw [(hcm j hj').1, (hcm j hj').2] at h
        rcases hm j hj' with h0 | h0
        · rw [h0]; simp
        · rw [h0] at h ⊢
          simp only [one_ne_zero, if_false, sub_zero] at h
          rw [one_mul]; exact h.symm
      rw [z1, z2, z3, z4]; ring
    rw [hgap, sub_zero, dres_objective qp hwf sol res ws hws] at hb'
    exact hb'

/-- **C69 (norms).**  The four reported norms bound every component of the corresponding residual and are
attained (or zero). -/
theorem dres_norms (D : DDim) (r : DRes K) :
    let n := dresInfNorm D r
    ((∀ i, i < D.nv + 2 * D.ns → |r.res_g i| ≤ n.1) ∧ (n.1 = 0 ∨ ∃ i, i < D.nv + 2 * D.ns ∧ n.1 = |r.res_g i|)) ∧
    ((∀ i, i < D.ne → |r.res_b i| ≤ n.2.1) ∧ (n.2.1 = 0 ∨ ∃ i, i < D.ne ∧ n.2.1 = |r.res_b i|)) ∧
    ((∀ j, j < D.nct → |r.res_d j| ≤ n.2.2.1) ∧ (n.2.2.1 = 0 ∨ ∃ j, j < D.nct ∧ n.2.2.1 = |r.res_d j|)) ∧
    ((∀ j, j < D.nct → |r.res_m j| ≤ n.2.2.2) ∧ (n.2.2.2 = 0 ∨ ∃ j, j < D.nct ∧ n.2.2.2 = |r.res_m j|)) := by
  have key : ∀ (n : ℕ) (x : Vec K), (∀ i, i < n → |x i| ≤ vecnrmInf n x 0) ∧
      (vecnrmInf n x 0 = 0 ∨ ∃ i, i < n ∧ vecnrmInf n x 0 = |x i|) := by
    intro n x
    have h := vecnrmInf_spec n x 0
    simp only [Nat.zero_add] at h
    exact ⟨h.1, h.2.1⟩
  exact ⟨key _ _, key _ _, key _ _, key _ _⟩

/-! ### the Newton system -/

/-- the Newton system at a point: the QP with the residuals of that point as right-hand side (the vectors
of `qp_step`, x_dense_qp_ipm.c:1176-1190) -/
def dstepQp (qp : DenseQp K) (r : DRes K) : DenseQp K :=
  { qp with
    gz := r.res_g
    b := r.res_b
    d := r.res_d
    m := r.res_m }

/-- the point after a full step -/
def DqSol.add (s d : DqSol K) : DqSol K where
  v := fun i => s.v i + d.v i
  pi := fun i => s.pi i + d.pi i
  lam := fun i => s.lam i + d.lam i
  t := fun i => s.t i + d.t i

/-- the QP without the linear cost term -/
def zeroG (q : OcpQp K) : OcpQp K := { q with rqz := fun _ _ => 0 }

theorem vG_const (q : OcpQp K) (s : Sol K) (lm : Vec K) (k i : ℕ) :
    vG q s lm k i = vG (zeroG q) s lm k i + q.rqz k i := by
  have e : vG (zeroG q) s lm k i =
      if i < q.dim.nu k + q.dim.nx k then
        hmul q k (s.ux k) i + 0
          - (if 0 < k ∧ q.dim.nu k ≤ i then s.pi (k - 1) (i - q.dim.nu k) else 0)
          + cvalT q k (fun j => lm (q.dim.nb k + q.dim.ng k + j) - lm j) i
          + (if k < q.dim.N then ∑ j ∈ range (q.dim.nx (k + 1)), q.BAbt k i j * s.pi k j else 0)
      else
        q.Z k (i - (q.dim.nu k + q.dim.nx k)) * s.ux k i + 0
          - lm (2 * (q.dim.nb k + q.dim.ng k) + (i - (q.dim.nu k + q.dim.nx k)))
          - (if i - (q.dim.nu k + q.dim.nx k) < q.dim.ns k then slkT q k lm (i - (q.dim.nu k + q.dim.nx k))
            else slkT q k (fun j => lm (q.dim.nb k + q.dim.ng k + j)) (i - (q.dim.nu k + q.dim.nx k) - q.dim.ns k)) :=
    rfl
  rw [e]
  simp only [vG]
  by_cases h : i < q.dim.nu k + q.dim.nx k
  · rw [if_pos h, if_pos h]; ring
  · rw [if_neg h, if_neg h]; ring

/-- **C69 (Newton residual).**  Let `r` be the residuals at a point and `l` the residuals of the linearised
system for a step.  After the full step the stationarity, equality and inequality residuals are those of the
linear system, and the complementarity residual differs by the second order term `dlam*dt`. -/
theorem dresLin_full_step (hwf : qp.WF) (hm : DMask01 qp) (sol step : DqSol K)
    (res res1 res2 : DRes K) (ws ws1 ws2 : ResWs K) (hws : DWsOk ws qp) (hws1 : DWsOk ws1 qp)
    (hws2 : DWsOk ws2 qp) :
    let r := dresCompute qp sol res ws
    let l := dresComputeLin (dstepQp qp r) sol step res1 ws1
    let r' := dresCompute qp (sol.add step) res2 ws2
    (∀ i, i < qp.dim.nv + 2 * qp.dim.ns → r'.res_g i = l.res_g i) ∧
    (∀ i, i < qp.dim.ne → r'.res_b i = l.res_b i) ∧
    (∀ j, j < 2 * qp.dim.nb + 2 * qp.dim.ng + 2 * qp.dim.ns → r'.res_d j = l.res_d j) ∧
    (∀ j, j < 2 * qp.dim.nb + 2 * qp.dim.ng + 2 * qp.dim.ns →
      r'.res_m j = l.res_m j + qp.d_mask j * (step.lam j * step.t j)) := by
  intro r l r'
  have hr := dresCompute_val qp hwf sol res ws hws
  have hl := dresComputeLin_val (dstepQp qp r) ⟨hwf.idxb, hwf.soft⟩ sol step res1 ws1 hws1
  have hr' := dresCompute_val qp hwf (sol.add step) res2 ws2 hws2
  have hadd : osol (sol.add step) = (osol sol).add (osol step) := by
    simp only [osol, DqSol.add, Sol.add]; congr 1; funext k i; ring
  refine ⟨fun i hi => ?_, fun i hi => ?_, fun j hj => ?_, fun j hj => ?_⟩
  · rw [show r'.res_g i = _ from hr'.g i hi, show l.res_g i = _ from hl.g i hi]
    have e : lamM (ov qp) (osol (sol.add step)) 0 =
        fun j => lamM (ov qp) (osol sol) 0 j + lamM (ov (dstepQp qp r)) (osol step) 0 j := by
      funext j
      show qp.d_mask j * (sol.lam j + step.lam j) = qp.d_mask j * sol.lam j + qp.d_mask j * step.lam j
      ring
    rw [e, hadd]
    -- the gradient at the old point without the equality part
    set rr : Res K := { ores r with res_g := fun _ i => vG (ov qp) (osol sol) (lamM (ov qp) (osol sol) 0) 0 i }
    have h := vG_step (ov qp) (osol sol) (osol step) (lamM (ov qp) (osol sol) 0)
      (lamM (ov (dstepQp qp r)) (osol step) 0) rr 0 i hi rfl
    rw [h]
    have ha : atp qp (sol.add step).pi i = atp qp sol.pi i + atp qp step.pi i := by
      unfold atp
      split_ifs
      · rw [← sum_add_distrib]; exact sum_congr rfl (fun j _ => by simp only [DqSol.add]; ring)
      · ring
    have ha2 : atp (dstepQp qp r) step.pi i = atp qp step.pi i := rfl
    rw [ha, ha2]
    -- both gradients differ only in the constant term
    have hc : vG (ov (dstepQp qp r)) (osol step) (lamM (ov (dstepQp qp r)) (osol step) 0) 0 i =
        vG (stepQp (ov qp) rr) (osol step) (lamM (ov (dstepQp qp r)) (osol step) 0) 0 i - atp qp sol.pi i := by
      have hgi : r.res_g i = rr.res_g 0 i - atp qp sol.pi i := hr.g i hi
      rw [vG_const (ov (dstepQp qp r)), vG_const (stepQp (ov qp) rr)]
      have c0 : (ov (dstepQp qp r)).rqz 0 i = r.res_g i := rfl
      have c1 : (stepQp (ov qp) rr).rqz 0 i = rr.res_g 0 i := rfl
      have c2 : vG (zeroG (ov (dstepQp qp r))) (osol step) (lamM (ov (dstepQp qp r)) (osol step) 0) 0 i =
          vG (zeroG (stepQp (ov qp) rr)) (osol step) (lamM (ov (dstepQp qp r)) (osol step) 0) 0 i := rfl
      rw [c0, c1, hgi, c2]; ring
    rw [hc]; ring
  · rw [show r'.res_b i = _ from hr'.b i hi, show l.res_b i = _ from hl.b i hi]
    show qp.b i - ∑ j ∈ range qp.dim.nv, qp.A i j * (sol.v j + step.v j) =
      r.res_b i - ∑ j ∈ range qp.dim.nv, qp.A i j * step.v j
    rw [show r.res_b i = _ from hr.b i hi]
    simp only [mul_add, sum_add_distrib]; ring
  · rw [show r'.res_d j = _ from hr'.d j hj, show l.res_d j = _ from hl.d j hj, vD_lin, vD_lin]
    have e2 : linD (ov qp) (osol (sol.add step)).ux 0 j =
        linD (ov qp) (osol sol).ux 0 j + linD (ov qp) (osol step).ux 0 j := by
      rw [hadd]; exact linD_add (ov qp) _ _ 0 j
    rw [e2]
    show qp.d_mask j * (qp.d j + (sol.t j + step.t j) + _) =
      qp.d_mask j * (r.res_d j + step.t j + linD (ov qp) (osol step).ux 0 j)
    rw [show r.res_d j = _ from hr.d j hj, vD_lin]
    show _ = qp.d_mask j * (qp.d_mask j * (qp.d j + sol.t j + linD (ov qp) (osol sol).ux 0 j) + _ + _)
    rcases hm j hj with h | h <;> rw [h] <;> ring
  · rw [show r'.res_m j = _ from hr'.m j hj, show l.res_m j = _ from hl.m j hj]
    show qp.d_mask j * (qp.d_mask j * (sol.lam j + step.lam j) * (sol.t j + step.t j) - qp.m j) =
      qp.d_mask j * (r.res_m j + sol.lam j * step.t j + step.lam j * sol.t j) + qp.d_mask j * (step.lam j * step.t j)
    rw [show r.res_m j = _ from hr.m j hj]
    show _ = qp.d_mask j * (qp.d_mask j * (qp.d_mask j * sol.lam j * sol.t j - qp.m j) + _ + _) + _
    rcases hm j hj with h | h <;> rw [h] <;> ring

/-- **C69 (masked constraints).**  Two QPs and points that differ only in the bound, target, multiplier and
slack values of masked-out constraints have the same residuals, objective, duality gap and complementarity
measure. -/
theorem dres_masked (hwf : qp.WF) (sol sol' : DqSol K) (res : DRes K) (ws : ResWs K)
    (hws : DWsOk ws qp) (d' m' : Vec K) (hux : sol'.v = sol.v) (hpi : sol'.pi = sol.pi)
    (hd : ∀ j, j < qp.dim.nct → qp.d_mask j ≠ 0 →
      d' j = qp.d j ∧ m' j = qp.m j ∧ sol'.lam j = sol.lam j ∧ sol'.t j = sol.t j) :
    let qp' : DenseQp K := { qp with d := d', m := m' }
    let r := dresCompute qp sol res ws
    let r' := dresCompute qp' sol' res ws
    (∀ i, i < qp.dim.nv + 2 * qp.dim.ns → r'.res_g i = r.res_g i) ∧
    (∀ i, i < qp.dim.ne → r'.res_b i = r.res_b i) ∧
    (∀ j, j < qp.dim.nct → r'.res_d j = r.res_d j ∧ r'.res_m j = r.res_m j ∧
      (qp.d_mask j = 0 → r.res_d j = 0 ∧ r.res_m j = 0)) ∧
    r'.obj = r.obj ∧ r'.dual_gap = r.dual_gap ∧ r'.res_mu = r.res_mu ∧ r'.res_mu_sum = r.res_mu_sum := by
  intro qp' r r'
  obtain ⟨h1, _, h3, h4, h5, h6, h7⟩ := res_masked (ov qp) (ov qp') (ov_wf qp hwf) (osol sol) (osol sol') (ores res) ws
    (ov_ws qp ws hws) (fun _ => d') (fun _ => m') rfl (by simp only [osol, hux]) rfl
    (fun _ j _ hj hmj => hd j hj hmj)
  have er : r = _ := dres_ov qp sol res ws
  have er' : r' = _ := dres_ov qp' sol' res ws
  rw [er, er']
  refine ⟨fun i hi => ?_, fun i hi => ?_, fun j hj => h3 0 j (Nat.zero_le _) hj, h4, ?_, h6, h7⟩
  · dsimp only
    rw [hpi]
    refine Eq.trans (gemvA_t qp' sol.pi ((oresOf qp' sol' res ws).res_g 0) i) ?_
    refine Eq.trans ?_ (gemvA_t qp sol.pi ((oresOf qp sol res ws).res_g 0) i).symm
    have ea : atp qp' sol.pi i = atp qp sol.pi i := rfl
    rw [ea, show (oresOf qp' sol' res ws).res_g 0 i = _ from h1 0 i (Nat.zero_le _) hi]
  · dsimp only
    rw [hux]
  · dsimp only
    rw [hpi]
    have e : (oresOf qp' sol' res ws).dual_gap = (oresOf qp sol res ws).dual_gap := h5
    rw [e]

end

/-! ### a concrete QP meeting the hypotheses

`min 1/2 v0^2 - 1/2 v1^2 + 1/2 v0 + 1/2 sl^2 + su` subject to `v1 = 2`, `1 <= v0 <= 10`, soft
`4 <= v0 + v1 <= 100`, slacks nonnegative.  The Hessian is indefinite but convex on the null space of the
equality constraint; the optimum is `v = (1, 2)`, `sl = 1`. -/
section Concrete

def exDRQp : DenseQp ℚ where
  dim := ⟨2, 1, 1, 1, 1⟩
  Hv := fun i j => if i = 0 ∧ j = 0 then 1 else if i = 1 ∧ j = 1 then -1 else if i = 1 ∧ j = 0 then 0 else 99
  A := fun _ j => if j = 1 then 1 else 0
  Ct := fun _ _ => 1
  gz := fun i => if i = 0 then 1 / 2 else if i = 3 then 1 else 0
  b := fun _ => 2
  d := fun i => if i = 0 then 1 else if i = 1 then 4 else if i = 2 then -10 else if i = 3 then -100 else 0
  d_mask := fun _ => 1
  m := fun _ => 0
  Z := fun _ => 1
  idxb := fun _ => 0
  idxs_rev := fun j => if j = 1 then 0 else -1

def exDRSol : DqSol ℚ where
  v := fun i => if i = 1 then 2 else if i = 3 then 0 else 1
  pi := fun _ => -3
  lam := fun i => if i = 0 then 1 / 2 else if i = 1 ∨ i = 5 then 1 else 0
  t := fun i => if i = 2 then 9 else if i = 3 then 97 else if i = 4 then 1 else 0

def exDRes : DRes ℚ := ⟨fun _ => 7, fun _ => 7, fun _ => 7, fun _ => 7, 7, 7, 7, 7⟩

theorem exDRQp_wf : exDRQp.WF := ⟨by decide, by decide⟩
theorem exDRQp_mask : DMask01 exDRQp := fun _ _ => Or.inr rfl
theorem exDRWs_ok : DWsOk exWs exDRQp := by intro h; cases h

theorem exDRQp_convex : (dview exDRQp).Convex := by
  intro p hp
  have h := hp 0 (by decide)
  rw [dview_Av exDRQp _ 0 (by decide)] at h
  have e : ∑ j ∈ range exDRQp.dim.nv, exDRQp.A 0 j * p.v j = p.v 1 := by
    show ∑ j ∈ range 2, exDRQp.A 0 j * p.v j = p.v 1
    simp [exDRQp]
  rw [e] at h
  have hh : ∀ i j, i < 2 → j < 2 → (dview exDRQp).hess i j = if i = j then (if i = 0 then 1 else -1) else 0 := by
    intro i j hi hj
    interval_cases i <;> interval_cases j <;> decide +kernel
  have hz : (dview exDRQp).Zl 0 = 1 ∧ (dview exDRQp).Zu 0 = 1 := by decide +kernel
  unfold DUser.quad
  have e1 : (dview exDRQp).nv = 2 := rfl
  have e2 : (dview exDRQp).ns = 1 := rfl
  rw [e1, e2]
  simp only [sum_range_succ, range_zero, sum_empty, zero_add]
  rw [hh 0 0 (by omega) (by omega), hh 0 1 (by omega) (by omega), hh 1 0 (by omega) (by omega),
    hh 1 1 (by omega) (by omega), hz.1, hz.2, h]
  simp
  nlinarith [mul_self_nonneg (p.v 0), mul_self_nonneg (p.sl 0), mul_self_nonneg (p.su 0)]

theorem exDRes_zero : (∀ i, i < 4 → (dresCompute exDRQp exDRSol exDRes exWs).res_g i = 0) ∧
    (∀ i, i < 1 → (dresCompute exDRQp exDRSol exDRes exWs).res_b i = 0) ∧
    (∀ j, j < 6 → (dresCompute exDRQp exDRSol exDRes exWs).res_d j = 0) ∧
    (∀ j, j < 6 → (dresCompute exDRQp exDRSol exDRes exWs).res_m j = 0) := by
  decide +kernel

/-- C69: all hypotheses of the optimality certificate are met -/
example : (dview exDRQp).IsOptimal (dptOf exDRQp.dim exDRSol.v) :=
  dres_zero_optimal exDRQp exDRQp_wf exDRQp_mask exDRQp_convex exDRSol exDRes exWs exDRWs_ok
    exDRes_zero.1 exDRes_zero.2.1 exDRes_zero.2.2.1 (fun j hj => ⟨exDRes_zero.2.2.2 j hj, rfl⟩)
    (fun j hj _ => by
      have h6 : j < 6 := hj
      interval_cases j <;> decide +kernel)

/-- C69: the Hessian of the example is indefinite, so convexity off the null space would fail -/
example : (dview exDRQp).quad ⟨fun i => if i = 1 then 1 else 0, fun _ => 0, fun _ => 0⟩ < 0 := by decide +kernel

/-- C69: residuals away from the solution are not zero -/
example : (dresCompute exDRQp { exDRSol with v := fun _ => 0 } exDRes exWs).res_d 1 = 4 ∧
    (dresCompute exDRQp { exDRSol with v := fun _ => 0 } exDRes exWs).res_b 0 = 2 ∧
    (dresCompute exDRQp { exDRSol with v := fun _ => 0 } exDRes exWs).res_g 1 = 2 := by decide +kernel

end Concrete
end Hpipm
