/-
C76: what the result of the dense solver means for the caller's optimisation problem: near feasibility, near stationarity,
complementarity, suboptimality bound, and the reported objective.
-/
import Verif.DenseIpmPos

namespace Hpipm
open Finset
set_option linter.unusedSectionVars false

section
variable {K : Type*} [Field K] [LinearOrder K] [IsStrictOrderedRing K]

/-- sum of the absolute values of all components of a point -/
def DUser.absSum (P : DUser K) (p : DPt K) : K :=
  (∑ i ∈ range P.nv, |p.v i|) + (∑ i ∈ range P.ns, |p.sl i|) + ∑ i ∈ range P.ns, |p.su i|

theorem dabsSum_packed (qp : DenseQp K) (v : Vec K) :
    ∑ i ∈ range (qp.dim.nv + 2 * qp.dim.ns), |v i| = (dview qp).absSum (dptOf qp.dim v) := by
  rw [two_mul, ← add_assoc, sum_range_add, sum_range_add]
  rfl

theorem dabsSum_pack (qp : DenseQp K) (p : DPt K) :
    (dview qp).absSum (dptOf qp.dim (dpackPt qp.dim p)) = (dview qp).absSum p := by
  unfold DUser.absSum
  have e1 : ∀ i, i < qp.dim.nv → (dptOf qp.dim (dpackPt qp.dim p)).v i = p.v i := fun i hi => by
    simp only [dptOf, dpackPt]; rw [if_pos hi]
  have e2 : ∀ i, i < qp.dim.ns → (dptOf qp.dim (dpackPt qp.dim p)).sl i = p.sl i := fun i hi => by
    simp only [dptOf, dpackPt]; rw [if_neg (by omega), if_pos (by omega)]; congr 1; omega
  have e3 : ∀ i, i < qp.dim.ns → (dptOf qp.dim (dpackPt qp.dim p)).su i = p.su i := fun i hi => by
    simp only [dptOf, dpackPt]; rw [if_neg (by omega), if_neg (by omega)]; congr 1; omega
  congr 1
  · congr 1
    · exact sum_congr rfl fun i hi => by rw [e1 i (mem_range.mp hi)]
    · exact sum_congr rfl fun i hi => by rw [e2 i (mem_range.mp hi)]
  · exact sum_congr rfl fun i hi => by rw [e3 i (mem_range.mp hi)]

variable (qp : DenseQp K)

/-- the objective computed by DENSE_QP_COMPUTE_OBJ is the objective of the QP -/
theorem denseObj_eq (v : Vec K) : denseObj qp v = (dview qp).objective (dptOf qp.dim v) := by
  rw [oobjective, obj_pair, opairV, opairV]
  unfold denseObj
  dsimp only
  unfold dot
  rw [sum_range_add, sum_range_add]
  have a1 : ∑ i ∈ range qp.dim.nv, symv_l qp.dim.nv (1 / 2) qp.Hv 0 0 v 0 1 qp.gz 0 (fun _ => 0) 0 (0 + i) * v (0 + i) =
      ∑ i ∈ range qp.dim.nv, (1 / 2 * (hessMul (ov qp) (fun _ => v) 0 i * v i) + qp.gz i * v i) := by
    refine sum_congr rfl fun i hi => ?_
    have hi := mem_range.mp hi
    unfold symv_l hessMul hmul
    have e : (ov qp).dim.nu 0 + (ov qp).dim.nx 0 = qp.dim.nv := rfl
    rw [if_pos (by omega), e, if_pos hi]
    simp only [Nat.zero_add, Nat.sub_zero]
    have e2 : (ov qp).RSQrq 0 = qp.Hv := rfl
    rw [e2]
    ring
  have a2 : ∑ i ∈ range (2 * qp.dim.ns), gemv_diag (2 * qp.dim.ns) (1 / 2) qp.Z 0 v qp.dim.nv 1 qp.gz qp.dim.nv (fun _ => 0) 0 (0 + i)
        * v (qp.dim.nv + i) =
      ∑ i ∈ range (2 * qp.dim.ns), (1 / 2 * (hessMul (ov qp) (fun _ => v) 0 (qp.dim.nv + i) * v (qp.dim.nv + i)) +
        qp.gz (qp.dim.nv + i) * v (qp.dim.nv + i)) := by
    refine sum_congr rfl fun i hi => ?_
    have hi := mem_range.mp hi
    unfold gemv_diag hessMul
    have e : (ov qp).dim.nu 0 + (ov qp).dim.nx 0 = qp.dim.nv := rfl
    rw [if_pos (by omega), e, if_neg (by omega)]
    simp only [Nat.zero_add, Nat.sub_zero, Nat.add_sub_cancel_left]
    have e2 : (ov qp).Z 0 = qp.Z := rfl
    rw [e2]
    ring
  rw [a1, a2, sum_add_distrib, sum_add_distrib, ← mul_sum, ← mul_sum]
  have e : (ov qp).rqz 0 = qp.gz := rfl
  rw [e]
  ring

/-- the Lagrangian at the returned point: objective minus gap plus what the stationarity residual contributes -/
theorem dres_lagrangian (hwf : qp.WF) (sol : DqSol K) (res : DRes K) (ws : ResWs K) (hws : DWsOk ws qp) :
    (dview qp).lagrangian (dptOf qp.dim sol.v) (dmultOf qp.dim sol) =
      (dresCompute qp sol res ws).obj - (dresCompute qp sol res ws).dual_gap +
        ∑ i ∈ range (qp.dim.nv + 2 * qp.dim.ns), (dresCompute qp sol res ws).res_g i * sol.v i := by
  have hr := dresCompute_val qp hwf sol res ws hws
  rw [dg_pair qp hwf sol res ws hws, dres_objective qp hwf sol res ws hws, oobjective, obj_pair, hr.gap]
  have hgp := gap_packed (ov qp) (osol sol)
  rw [osum0, opairV, opairC, opairE, sub_zero] at hgp
  rw [hgp, dlagr_packed qp hwf, opairV, opairV]
  simp only [mul_add, mul_sub, sum_add_distrib, sum_sub_distrib, add_mul]
  have c1 : ∑ i ∈ range qp.dim.ne, qp.b i * sol.pi i = ∑ i ∈ range qp.dim.ne, sol.pi i * qp.b i :=
    sum_congr rfl (fun i _ => by ring)
  rw [c1]
  have c2 : (osol sol).ux = fun _ => sol.v := rfl
  have c3 : (ov qp).rqz 0 = qp.gz := rfl
  have c4 : (ov qp).d 0 = qp.d := rfl
  rw [c2]
  simp only [c3, c4]
  ring

/-- **C76 (approximate gap bound).**  For a convex objective and nonnegative multipliers of the present constraints, no point
that satisfies the constraints has an objective below `objective - gap + sum res_g*p`: with nonzero residuals, feasibility of
the returned point is not needed. -/
theorem dres_gap_approx (hwf : qp.WF) (hm : DMask01 qp) (hc : ∀ h : DPt K, 0 ≤ (dview qp).quad h) (sol : DqSol K)
    (res : DRes K) (ws : ResWs K) (hws : DWsOk ws qp)
    (hl : ∀ j, j < qp.dim.nct → qp.d_mask j ≠ 0 → 0 ≤ sol.lam j)
    (p : DPt K) (hf : (dview qp).Feasible p) :
    (dresCompute qp sol res ws).obj - (dresCompute qp sol res ws).dual_gap +
      (∑ i ∈ range (qp.dim.nv + 2 * qp.dim.ns), (dresCompute qp sol res ws).res_g i * dpackPt qp.dim p i) ≤
      (dview qp).objective p := by
  obtain ⟨hf', ho⟩ := dpack_feasible qp hwf p hf
  rw [← ho]
  set v := dpackPt qp.dim p with hv
  have hst := dres_stationarity qp hwf sol res ws hws (fun i => v i - sol.v i)
  have e0 : (fun i => sol.v i + (v i - sol.v i)) = v := by funext i; ring
  rw [e0, dres_lagrangian qp hwf sol res ws hws] at hst
  have hq := hc (dptOf qp.dim (fun i => v i - sol.v i))
  have hlm : ∀ j, j < 2 * qp.dim.nb + 2 * qp.dim.ng + 2 * qp.dim.ns → 0 ≤ qp.d_mask j * sol.lam j := by
    intro j hj
    rcases hm j hj with h | h
    · simp [h]
    · rw [h, one_mul]; exact hl j hj (by rw [h]; exact one_ne_zero)
  have hle : (dview qp).lagrangian (dptOf qp.dim v) (dmultOf qp.dim sol) ≤ (dview qp).objective (dptOf qp.dim v) := by
    have e1 : (dview qp).nb = qp.dim.nb := rfl
    have e2 : (dview qp).ng = qp.dim.ng := rfl
    have e3 : (dview qp).ns = qp.dim.ns := rfl
    apply dlagrangian_le _ _ _ hf'
    · intro j hj
      rw [((dview_masks qp j).1 hj).1]; exact hlm j (by omega)
    · intro j hj
      rw [((dview_masks qp j).1 hj).2]; exact hlm _ (by omega)
    · intro j hj
      rw [((dview_masks qp j).2 hj).1]; exact hlm _ (by omega)
    · intro j hj
      rw [((dview_masks qp j).2 hj).2]; exact hlm _ (by omega)
  simp only [mul_sub, sum_sub_distrib] at hst
  linarith

theorem abs_pair_le (n : ℕ) (a h : Vec K) (c : K) (ha : ∀ i, i < n → |a i| ≤ c) :
    |∑ i ∈ range n, a i * h i| ≤ c * ∑ i ∈ range n, |h i| := by
  refine (abs_sum_le_sum_abs _ _).trans ?_
  rw [mul_sum]
  refine sum_le_sum fun i hi => ?_
  rw [abs_mul]
  exact mul_le_mul_of_nonneg_right (ha i (mem_range.mp hi)) (abs_nonneg _)

end

section
variable {K : Type*} [Field K] [LinearOrder K] [IsStrictOrderedRing K] (E : DEnv K)

/-- the situation after a successful solve in the relative formulation, with clipping -/
structure DSolved (lf : ℕ) (sol : DqSol K) (s : DIpm K) (o : DSolveOut K) : Prop where
  wf : E.qp.WF
  mask : DMask01 E.qp
  nc : s.core.nc = E.qp.dim.nct
  act : dncMask E.qp s.core.nc ≠ 0
  rel : E.arg.i .abs_form = 0
  iter : 0 ≤ E.arg.i .iter_max
  init : DInitOk E
  clip : E.arg.i .t_lam_min = 2
  lam_min : 0 < E.arg.r .lam_min
  t_min : 0 < E.arg.r .t_min
  ran : dipmSolve E lf sol s = some o
  ok : o.status = .SUCCESS

/-- a residual workspace that recomputes its flags -/
def dfreshWs : ResWs K := ⟨fun _ => 0, fun _ => 0, fun _ => 0, false, false, 0⟩
def dfreshRes : DRes K := ⟨fun _ => 0, fun _ => 0, fun _ => 0, fun _ => 0, 0, 0, 0, 0⟩

theorem dfreshWs_ok (qp : DenseQp K) : DWsOk (dfreshWs : ResWs K) qp := fun h => by cases h

variable {E} {lf : ℕ} {sol : DqSol K} {s : DIpm K} {o : DSolveOut K}

/-- **C76 (near feasibility).**  A returned success satisfies the equalities up to `res_b_max` and every present inequality up
to `res_d_max`. -/
theorem dipm_success_feasible (h : DSolved E lf sol s o) :
    let P := dview E.qp
    let p := dptOf E.qp.dim o.s.core.v
    let eb := E.arg.r .res_b_max
    let ed := E.arg.r .res_d_max
    (∀ i, i < P.ne → |P.Av p.v i - P.b i| ≤ eb) ∧
    (∀ j, j < P.nb + P.ng → P.lowerMask j ≠ 0 → P.lower j ≤ P.value p j + P.slackLo p j + ed) ∧
    (∀ j, j < P.nb + P.ng → P.upperMask j ≠ 0 → P.value p j ≤ P.upper j + P.slackUp p j + ed) ∧
    (∀ i, i < P.ns → P.llsMask i ≠ 0 → P.lls i ≤ p.sl i + ed) ∧
    (∀ i, i < P.ns → P.lusMask i ≠ 0 → P.lus i ≤ p.su i + ed) := by
  intro P p eb ed
  obtain ⟨-, hb, hd, -, -, -⟩ := dipm_success E h.wf h.mask lf sol s o h.nc h.act h.rel h.iter h.ran h.ok dfreshRes dfreshWs
    (dfreshWs_ok _)
  have hin := dipm_solution_inside E h.mask h.init h.clip h.lam_min h.t_min lf sol s o h.nc h.act h.ran
  have hq := dres_inequalities E.qp h.wf (dsolOf o.s.core) dfreshRes dfreshWs (dfreshWs_ok _)
  simp only at hq
  obtain ⟨q1, q2, q3, q4⟩ := hq
  have e1 : P.nb = E.qp.dim.nb := rfl
  have e2 : P.ng = E.qp.dim.ng := rfl
  have e3 : P.ns = E.qp.dim.ns := rfl
  have en : E.qp.dim.nct = 2 * E.qp.dim.nb + 2 * E.qp.dim.ng + 2 * E.qp.dim.ns := rfl
  have hone : ∀ j, j < E.qp.dim.nct → E.qp.d_mask j ≠ 0 → E.qp.d_mask j = 1 := fun j hj hn => (h.mask j hj).resolve_left hn
  refine ⟨fun i hi => ?_, fun j hj hm => ?_, fun j hj hm => ?_, fun i hi hm => ?_, fun i hi hm => ?_⟩
  · have := hb i hi
    rw [dres_equalities E.qp h.wf _ _ _ (dfreshWs_ok _) i hi, abs_sub_comm] at this
    exact this
  · have hj' : j < E.qp.dim.nct := by omega
    have := hd j hj'
    have hmm := ((dview_masks E.qp j).1 hj).1
    rw [q1 j (by omega), hmm, hone j hj' (by rw [← hmm]; exact hm), one_mul] at this
    have ht : 0 < o.s.core.t j := (hin j hj').1
    have hle : P.lower j - P.value p j - P.slackLo p j + o.s.core.t j ≤ ed := le_trans (le_abs_self _) this
    linarith
  · have hj' : E.qp.dim.nb + E.qp.dim.ng + j < E.qp.dim.nct := by omega
    have := hd _ hj'
    have hmm := ((dview_masks E.qp j).1 hj).2
    rw [q2 j (by omega), hmm, hone _ hj' (by rw [← hmm]; exact hm), one_mul] at this
    have ht : 0 < o.s.core.t (E.qp.dim.nb + E.qp.dim.ng + j) := (hin _ hj').1
    have hle : P.value p j - P.upper j - P.slackUp p j + o.s.core.t (E.qp.dim.nb + E.qp.dim.ng + j) ≤ ed := le_trans (le_abs_self _) this
    linarith
  · have hj' : 2 * (E.qp.dim.nb + E.qp.dim.ng) + i < E.qp.dim.nct := by omega
    have := hd _ hj'
    have hmm := ((dview_masks E.qp i).2 hi).1
    rw [q3 i (by omega), hmm, hone _ hj' (by rw [← hmm]; exact hm), one_mul] at this
    have ht : 0 < o.s.core.t (2 * (E.qp.dim.nb + E.qp.dim.ng) + i) := (hin _ hj').1
    have hle : P.lls i - p.sl i + o.s.core.t (2 * (E.qp.dim.nb + E.qp.dim.ng) + i) ≤ ed := le_trans (le_abs_self _) this
    linarith
  · have hj' : 2 * (E.qp.dim.nb + E.qp.dim.ng) + E.qp.dim.ns + i < E.qp.dim.nct := by omega
    have := hd _ hj'
    have hmm := ((dview_masks E.qp i).2 hi).2
    rw [q4 i (by omega), hmm, hone _ hj' (by rw [← hmm]; exact hm), one_mul] at this
    have ht : 0 < o.s.core.t (2 * (E.qp.dim.nb + E.qp.dim.ng) + E.qp.dim.ns + i) := (hin _ hj').1
    have hle : P.lus i - p.su i + o.s.core.t (2 * (E.qp.dim.nb + E.qp.dim.ng) + E.qp.dim.ns + i) ≤ ed := le_trans (le_abs_self _) this
    linarith

/-- **C76 (near stationarity).**  Along every direction the Lagrangian at the returned multipliers has first order change at most
`res_g_max` times the sum of the absolute values of the direction. -/
theorem dipm_success_stationary (h : DSolved E lf sol s o) (x : Vec K) :
    let P := dview E.qp
    let D := E.qp.dim
    let w := dmultOf D (dsolOf o.s.core)
    |P.lagrangian (dptOf D (fun i => o.s.core.v i + x i)) w - P.lagrangian (dptOf D o.s.core.v) w - P.quad (dptOf D x)| ≤
      E.arg.r .res_g_max * P.absSum (dptOf D x) := by
  intro P D w
  obtain ⟨hg, -, -, -, -, -⟩ := dipm_success E h.wf h.mask lf sol s o h.nc h.act h.rel h.iter h.ran h.ok dfreshRes dfreshWs
    (dfreshWs_ok _)
  have hst := dres_stationarity E.qp h.wf (dsolOf o.s.core) dfreshRes dfreshWs (dfreshWs_ok _) x
  have e : P.lagrangian (dptOf D (fun i => o.s.core.v i + x i)) w - P.lagrangian (dptOf D o.s.core.v) w - P.quad (dptOf D x) =
      ∑ i ∈ range (D.nv + 2 * D.ns), (dresCompute E.qp (dsolOf o.s.core) dfreshRes dfreshWs).res_g i * x i := by
    have e1 : P.lagrangian (dptOf D (fun i => o.s.core.v i + x i)) w = _ := hst
    have e2 : P.lagrangian (dptOf D o.s.core.v) w = P.lagrangian (dptOf D (dsolOf o.s.core).v) w := rfl
    rw [e1, e2]
    ring
  rw [e]
  refine (abs_pair_le _ _ _ _ hg).trans (le_of_eq ?_)
  rw [dabsSum_packed]

/-- **C76 (complementarity).**  For every present constraint the product of multiplier and slack is within `res_m_max` of its
target `m + tau_min`; the multiplier of a masked constraint is zero. -/
theorem dipm_success_complementary (h : DSolved E lf sol s o) (j : ℕ) (hj : j < E.qp.dim.nct) :
    (E.qp.d_mask j ≠ 0 → |o.s.core.lam j * o.s.core.t j - E.qp.m j - E.arg.r .tau_min| ≤ E.arg.r .res_m_max ∧
      0 < o.s.core.lam j ∧ 0 < o.s.core.t j) ∧
    (E.qp.d_mask j = 0 → o.s.core.lam j = 0) := by
  obtain ⟨-, -, -, hm, -, -⟩ := dipm_success E h.wf h.mask lf sol s o h.nc h.act h.rel h.iter h.ran h.ok dfreshRes dfreshWs
    (dfreshWs_ok _)
  have hin := dipm_solution_inside E h.mask h.init h.clip h.lam_min h.t_min lf sol s o h.nc h.act h.ran j hj
  refine ⟨fun hn => ?_, fun h0 => hin.2.2 h0⟩
  have h1 : E.qp.d_mask j = 1 := (h.mask j hj).resolve_left hn
  have := hm j hj
  rw [dres_complementarity E.qp h.wf h.mask _ _ _ (dfreshWs_ok _) j hj, if_neg hn, h1, mul_one] at this
  exact ⟨this, hin.2.1 h1, hin.1⟩

/-- **C76 (suboptimality).**  If the objective is convex, no feasible point `p` is better than the returned one by more than the
tolerance on the duality gap plus `res_g_max` times the sum of the absolute values of `p`. -/
theorem dipm_success_subopt (h : DSolved E lf sol s o) (hc : ∀ x : DPt K, 0 ≤ (dview E.qp).quad x) (p : DPt K)
    (hp : (dview E.qp).Feasible p) :
    (dview E.qp).objective (dptOf E.qp.dim o.s.core.v) - E.arg.r .dual_gap_max - E.arg.r .res_g_max * (dview E.qp).absSum p ≤
      (dview E.qp).objective p := by
  obtain ⟨hg, -, -, -, hgap, -⟩ := dipm_success E h.wf h.mask lf sol s o h.nc h.act h.rel h.iter h.ran h.ok dfreshRes dfreshWs
    (dfreshWs_ok _)
  have hin := dipm_solution_inside E h.mask h.init h.clip h.lam_min h.t_min lf sol s o h.nc h.act h.ran
  have hb := dres_gap_approx E.qp h.wf h.mask hc (dsolOf o.s.core) dfreshRes dfreshWs (dfreshWs_ok _) (fun j hj hn =>
    ((hin j hj).2.1 ((h.mask j hj).resolve_left hn)).le) p hp
  rw [dres_objective E.qp h.wf _ _ _ (dfreshWs_ok _)] at hb
  have hs := abs_pair_le _ _ (dpackPt E.qp.dim p) _ hg
  rw [dabsSum_packed, dabsSum_pack] at hs
  have := neg_le_of_abs_le hs
  have e : (dview E.qp).objective (dptOf E.qp.dim (dsolOf o.s.core).v) = (dview E.qp).objective (dptOf E.qp.dim o.s.core.v) := rfl
  linarith

end
end Hpipm
