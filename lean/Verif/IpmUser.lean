/-
C77: what success of the OCP solver means for the caller's optimisation problem: near feasibility, near stationarity,
complementarity and a suboptimality bound, in terms of the caller's matrices, bounds and masks.
-/
import Verif.DenseIpmUser
import Verif.IpmPos

namespace Hpipm
open Finset
set_option linter.unusedSectionVars false

section
variable {K : Type*} [Field K] [LinearOrder K] [IsStrictOrderedRing K]

/-- sum of the absolute values of all components of a point of an OCP QP -/
def UserQp.absSum (P : UserQp K) (p : Pt K) : K :=
  ∑ k ∈ range (P.N + 1), ((∑ i ∈ range (P.nu k), |p.u k i|) + (∑ i ∈ range (P.nx k), |p.x k i|) +
    (∑ i ∈ range (P.ns k), |p.sl k i|) + ∑ i ∈ range (P.ns k), |p.su k i|)

theorem absSum_packed (qp : OcpQp K) (v : ℕ → Vec K) :
    ∑ k ∈ range (qp.dim.N + 1), ∑ i ∈ range (qp.dim.nu k + qp.dim.nx k + 2 * qp.dim.ns k), |v k i| =
      (view qp).absSum (ptOf qp.dim v) := by
  refine sum_congr rfl fun k _ => ?_
  rw [two_mul, ← add_assoc, sum_range_add, sum_range_add, sum_range_add]
  rfl

theorem absSum_congr (P : UserQp K) (p p' : Pt K) (h : Agree P p p') : P.absSum p = P.absSum p' := by
  refine sum_congr rfl fun k _ => ?_
  congr 1
  · congr 1
    · congr 1
      · exact sum_congr rfl fun i hi => by rw [h.u k i (mem_range.mp hi)]
      · exact sum_congr rfl fun i hi => by rw [h.x k i (mem_range.mp hi)]
    · exact sum_congr rfl fun i hi => by rw [h.sl k i (mem_range.mp hi)]
  · exact sum_congr rfl fun i hi => by rw [h.su k i (mem_range.mp hi)]

/-- pairing of a stage-wise vector bounded by `c` with a point -/
theorem abs_pairs_le (N : ℕ) (n : ℕ → ℕ) (a h : ℕ → Vec K) (c : K) (ha : ∀ k i, k ≤ N → i < n k → |a k i| ≤ c) :
    |∑ k ∈ range (N + 1), ∑ i ∈ range (n k), a k i * h k i| ≤ c * ∑ k ∈ range (N + 1), ∑ i ∈ range (n k), |h k i| := by
  refine (abs_sum_le_sum_abs _ _).trans ?_
  rw [mul_sum]
  refine sum_le_sum fun k hk => ?_
  exact abs_pair_le _ _ _ _ fun i hi => ha k i (by have := mem_range.mp hk; omega) hi

variable (qp : OcpQp K)

/-- the Lagrangian at the point: objective minus gap plus what the stationarity residual contributes -/
theorem res_lagrangian (hwf : qp.WF) (sol : Sol K) (res : Res K) (ws : ResWs K) (hws : ws.Ok qp) :
    (view qp).lagrangian (ptOf qp.dim sol.ux) (multOf qp.dim sol) =
      (resCompute qp sol res ws).obj - (resCompute qp sol res ws).dual_gap +
        ∑ k ∈ range (qp.dim.N + 1), ∑ i ∈ range (qp.dim.nu k + qp.dim.nx k + 2 * qp.dim.ns k),
          (resCompute qp sol res ws).res_g k i * sol.ux k i := by
  obtain ⟨h1, _, h3, _⟩ := resCompute_val qp hwf sol res ws hws
  have hg : (∑ k ∈ range (qp.dim.N + 1), ∑ i ∈ range (qp.dim.nu k + qp.dim.nx k + 2 * qp.dim.ns k),
          (resCompute qp sol res ws).res_g k i * sol.ux k i) =
      pairV qp.dim (fun k i => vG qp sol (lamM qp sol k) k i) sol.ux := by
    simp only [pairV]
    apply sum_congr rfl; intro k hk; apply sum_congr rfl; intro i hi
    rw [(h1 k (by have := mem_range.mp hk; omega)).1.g i (mem_range.mp hi)]
  rw [hg, res_objective qp hwf sol res ws hws, h3, gap_packed, lagr_packed, obj_pair, vG_pair qp hwf sol (lamM qp sol) sol.ux]
  rw [pairE_add_right, pairC_add_right]
  ring

/-- **C77 (approximate gap bound).**  For a convex objective and nonnegative multipliers of the present constraints, no point
that satisfies the constraints has an objective below `objective - gap + sum res_g*p`, whatever the residuals of the point at
which they were computed. -/
theorem res_gap_approx (hwf : qp.WF) (hm : Mask01 qp) (hc : (view qp).Convex) (sol : Sol K)
    (res : Res K) (ws : ResWs K) (hws : ws.Ok qp)
    (hl : ∀ k j, k ≤ qp.dim.N → j < 2 * qp.dim.nb k + 2 * qp.dim.ng k + 2 * qp.dim.ns k →
      qp.d_mask k j ≠ 0 → 0 ≤ sol.lam k j)
    (p : Pt K) (hf : (view qp).Feasible p) :
    (resCompute qp sol res ws).obj - (resCompute qp sol res ws).dual_gap +
      (∑ k ∈ range (qp.dim.N + 1), ∑ i ∈ range (qp.dim.nu k + qp.dim.nx k + 2 * qp.dim.ns k),
        (resCompute qp sol res ws).res_g k i * packPt qp.dim p k i) ≤ (view qp).objective p := by
  set v := packPt qp.dim p with hv
  have hag := packPt_agree qp p
  rw [← objective_congr _ _ _ hag]
  have hf' := feasible_congr qp hwf _ _ hag hf
  have hst := res_stationarity qp hwf sol res ws hws (fun k i => v k i - sol.ux k i)
  have e0 : (fun k i => sol.ux k i + (v k i - sol.ux k i)) = v := by funext k i; ring
  rw [e0, res_lagrangian qp hwf sol res ws hws] at hst
  have hq := hc (ptOf qp.dim (fun k i => v k i - sol.ux k i))
  have hlm : ∀ k j, k ≤ qp.dim.N → j < 2 * qp.dim.nb k + 2 * qp.dim.ng k + 2 * qp.dim.ns k →
      0 ≤ qp.d_mask k j * sol.lam k j := by
    intro k j hk hj
    rcases hm k j hk hj with h | h
    · simp [h]
    · rw [h, one_mul]; exact hl k j hk hj (by rw [h]; exact one_ne_zero)
  have hle : (view qp).lagrangian (ptOf qp.dim v) (multOf qp.dim sol) ≤ (view qp).objective (ptOf qp.dim v) := by
    have e1 : (view qp).nb = qp.dim.nb := rfl
    have e2 : (view qp).ng = qp.dim.ng := rfl
    have e3 : (view qp).ns = qp.dim.ns := rfl
    have e4 : (view qp).N = qp.dim.N := rfl
    apply lagrangian_le _ _ _ hf'
    · intro k j hk hj
      rw [e1, e2] at hj
      rw [view_lowerMask qp k j hj]; exact hlm k j hk (by omega)
    · intro k j hk hj
      rw [e1, e2] at hj
      rw [view_upperMask qp k j hj]; exact hlm k _ hk (by omega)
    · intro k j hk hj
      rw [e3] at hj
      rw [view_llsMask qp k j hj]; exact hlm k _ hk (by omega)
    · intro k j hk hj
      rw [e3] at hj
      rw [view_lusMask qp k j hj]; exact hlm k _ hk (by omega)
  simp only [mul_sub, sum_sub_distrib] at hst
  linarith

end

section
variable {K : Type*} [Field K] [LinearOrder K] [IsStrictOrderedRing K] (E : Env K)

/-- the situation after a successful solve in the relative formulation, with clipping -/
structure Solved (lf : ℕ) (sol : Sol K) (s : Ipm K) (o : SolveOut K) : Prop where
  keeps : E.Keeps
  wf : E.qp.WF
  mask : Mask01 E.qp
  nc : s.core.nc = stOff (nct E.qp.dim) (E.qp.dim.N + 1)
  act : ncMask E.qp s.core.nc ≠ 0
  rel : E.arg.i .abs_form = 0
  iter : 0 ≤ E.arg.i .iter_max
  init : InitOk E
  clip : E.arg.i .t_lam_min = 2
  lam_min : 0 < E.arg.r .lam_min
  t_min : 0 < E.arg.r .t_min
  ran : ipmSolve E lf sol s = some o
  ok : o.status = .SUCCESS

/-- a residual workspace that recomputes its flags, and a residual object -/
def freshWs : ResWs K := ⟨fun _ => 0, fun _ => 0, fun _ => 0, false, false, 0⟩
def freshRes : Res K :=
  { res_g := fun _ _ => 0
    res_b := fun _ _ => 0
    res_d := fun _ _ => 0
    res_m := fun _ _ => 0
    obj := 0
    dual_gap := 0
    res_mu := 0
    res_mu_sum := 0 }

theorem freshWs_ok (qp : OcpQp K) : (freshWs : ResWs K).Ok qp := fun h => by cases h

variable {E} {lf : ℕ} {sol : Sol K} {s : Ipm K} {o : SolveOut K}

/-- **C77 (near feasibility).**  A returned success satisfies the dynamics up to `res_b_max` and every present inequality up
to `res_d_max`, at every stage. -/
theorem ipm_success_feasible (h : Solved E lf sol s o) :
    let P := view E.qp
    let p := ptOf E.qp.dim (solOf E.qp.dim o.s.core).ux
    let eb := E.arg.r .res_b_max
    let ed := E.arg.r .res_d_max
    (∀ k i, k < P.N → i < P.nx (k + 1) → |P.dynDefect p k i| ≤ eb) ∧
    (∀ k j, k ≤ P.N → j < P.nb k + P.ng k → P.lowerMask k j ≠ 0 → P.lower k j ≤ P.value p k j + P.slackLo p k j + ed) ∧
    (∀ k j, k ≤ P.N → j < P.nb k + P.ng k → P.upperMask k j ≠ 0 → P.value p k j ≤ P.upper k j + P.slackUp p k j + ed) ∧
    (∀ k i, k ≤ P.N → i < P.ns k → P.llsMask k i ≠ 0 → P.lls k i ≤ p.sl k i + ed) ∧
    (∀ k i, k ≤ P.N → i < P.ns k → P.lusMask k i ≠ 0 → P.lus k i ≤ p.su k i + ed) := by
  intro P p eb ed
  obtain ⟨-, hb, hd, -, -, -⟩ := ipm_success E h.keeps h.wf h.mask lf sol s o h.nc h.act h.rel h.iter h.ran h.ok freshRes freshWs
    (freshWs_ok _)
  have hin := ipm_solution_inside E h.mask h.init h.clip h.lam_min h.t_min lf sol s o h.nc h.act h.ran
  have hq := fun k hk => res_inequalities E.qp h.wf (solOf E.qp.dim o.s.core) freshRes freshWs (freshWs_ok _) k hk
  simp only at hq
  have hone : ∀ k j, k ≤ E.qp.dim.N → j < 2 * E.qp.dim.nb k + 2 * E.qp.dim.ng k + 2 * E.qp.dim.ns k → E.qp.d_mask k j ≠ 0 →
      E.qp.d_mask k j = 1 := fun k j hk hj hn => (h.mask k j hk hj).resolve_left hn
  refine ⟨fun k i hk hi => ?_, fun k j hk hj hm => ?_, fun k j hk hj hm => ?_, fun k i hk hi hm => ?_, fun k i hk hi hm => ?_⟩
  · have := hb k i hk hi
    rw [res_dynamics E.qp h.wf _ _ _ (freshWs_ok _) k i hk hi] at this
    exact this
  all_goals
    obtain ⟨q1, q2, q3, q4⟩ := hq k hk
    have e1 : P.nb = E.qp.dim.nb := rfl
    have e2 : P.ng = E.qp.dim.ng := rfl
    have e3 : P.ns = E.qp.dim.ns := rfl
  · rw [e1, e2] at hj
    have hj' : j < 2 * E.qp.dim.nb k + 2 * E.qp.dim.ng k + 2 * E.qp.dim.ns k := by omega
    have := hd k j hk hj'
    have hmm := view_lowerMask E.qp k j hj
    rw [q1 j hj, hmm, hone k j hk hj' (by rw [← hmm]; exact hm), one_mul] at this
    have ht := (hin k j hk hj').1
    have hle : P.lower k j - P.value p k j - P.slackLo p k j + (solOf E.qp.dim o.s.core).t k j ≤ ed := le_trans (le_abs_self _) this
    linarith
  · rw [e1, e2] at hj
    have hj' : E.qp.dim.nb k + E.qp.dim.ng k + j < 2 * E.qp.dim.nb k + 2 * E.qp.dim.ng k + 2 * E.qp.dim.ns k := by omega
    have := hd k _ hk hj'
    have hmm := view_upperMask E.qp k j hj
    rw [q2 j hj, hmm, hone k _ hk hj' (by rw [← hmm]; exact hm), one_mul] at this
    have ht := (hin k _ hk hj').1
    have hle : P.value p k j - P.upper k j - P.slackUp p k j +
      (solOf E.qp.dim o.s.core).t k (E.qp.dim.nb k + E.qp.dim.ng k + j) ≤ ed := le_trans (le_abs_self _) this
    linarith
  · rw [e3] at hi
    have hj' : 2 * (E.qp.dim.nb k + E.qp.dim.ng k) + i < 2 * E.qp.dim.nb k + 2 * E.qp.dim.ng k + 2 * E.qp.dim.ns k := by omega
    have := hd k _ hk hj'
    have hmm := view_llsMask E.qp k i hi
    rw [q3 i hi, hmm, hone k _ hk hj' (by rw [← hmm]; exact hm), one_mul] at this
    have ht := (hin k _ hk hj').1
    have hle : P.lls k i - p.sl k i + (solOf E.qp.dim o.s.core).t k (2 * (E.qp.dim.nb k + E.qp.dim.ng k) + i) ≤ ed :=
      le_trans (le_abs_self _) this
    linarith
  · rw [e3] at hi
    have hj' : 2 * (E.qp.dim.nb k + E.qp.dim.ng k) + E.qp.dim.ns k + i <
      2 * E.qp.dim.nb k + 2 * E.qp.dim.ng k + 2 * E.qp.dim.ns k := by omega
    have := hd k _ hk hj'
    have hmm := view_lusMask E.qp k i hi
    rw [q4 i hi, hmm, hone k _ hk hj' (by rw [← hmm]; exact hm), one_mul] at this
    have ht := (hin k _ hk hj').1
    have hle : P.lus k i - p.su k i + (solOf E.qp.dim o.s.core).t k (2 * (E.qp.dim.nb k + E.qp.dim.ng k) + E.qp.dim.ns k + i) ≤ ed :=
      le_trans (le_abs_self _) this
    linarith

/-- **C77 (near stationarity).**  Along every direction of inputs, states and slacks the Lagrangian at the returned multipliers
has first order change at most `res_g_max` times the sum of the absolute values of the direction. -/
theorem ipm_success_stationary (h : Solved E lf sol s o) (x : ℕ → Vec K) :
    let P := view E.qp
    let D := E.qp.dim
    let z := solOf D o.s.core
    |P.lagrangian (ptOf D (fun k i => z.ux k i + x k i)) (multOf D z) - P.lagrangian (ptOf D z.ux) (multOf D z) - P.quad (ptOf D x)| ≤
      E.arg.r .res_g_max * P.absSum (ptOf D x) := by
  intro P D z
  obtain ⟨hg, -, -, -, -, -⟩ := ipm_success E h.keeps h.wf h.mask lf sol s o h.nc h.act h.rel h.iter h.ran h.ok freshRes freshWs
    (freshWs_ok _)
  have hst := res_stationarity E.qp h.wf z freshRes freshWs (freshWs_ok _) x
  have e : P.lagrangian (ptOf D (fun k i => z.ux k i + x k i)) (multOf D z) - P.lagrangian (ptOf D z.ux) (multOf D z) - P.quad (ptOf D x) =
      ∑ k ∈ range (D.N + 1), ∑ i ∈ range (D.nu k + D.nx k + 2 * D.ns k), (resCompute E.qp z freshRes freshWs).res_g k i * x k i := by
    have e1 : P.lagrangian (ptOf D (fun k i => z.ux k i + x k i)) (multOf D z) = _ := hst
    rw [e1]
    ring
  rw [e]
  refine (abs_pairs_le _ _ _ _ _ hg).trans (le_of_eq ?_)
  rw [absSum_packed]

/-- **C77 (complementarity).**  For every present constraint the product of multiplier and slack is within `res_m_max` of its
target `m + tau_min`, and both are positive; the multiplier of a masked constraint is zero. -/
theorem ipm_success_complementary (h : Solved E lf sol s o) (k j : ℕ) (hk : k ≤ E.qp.dim.N)
    (hj : j < 2 * E.qp.dim.nb k + 2 * E.qp.dim.ng k + 2 * E.qp.dim.ns k) :
    let z := solOf E.qp.dim o.s.core
    (E.qp.d_mask k j ≠ 0 → |z.lam k j * z.t k j - E.qp.m k j - E.arg.r .tau_min| ≤ E.arg.r .res_m_max ∧
      0 < z.lam k j ∧ 0 < z.t k j) ∧
    (E.qp.d_mask k j = 0 → z.lam k j = 0) := by
  intro z
  obtain ⟨-, -, -, hm, -, -⟩ := ipm_success E h.keeps h.wf h.mask lf sol s o h.nc h.act h.rel h.iter h.ran h.ok freshRes freshWs
    (freshWs_ok _)
  have hin := ipm_solution_inside E h.mask h.init h.clip h.lam_min h.t_min lf sol s o h.nc h.act h.ran k j hk hj
  refine ⟨fun hn => ?_, fun h0 => hin.2.2 h0⟩
  have h1 : E.qp.d_mask k j = 1 := (h.mask k j hk hj).resolve_left hn
  have := hm k j hk hj
  rw [res_complementarity E.qp h.wf h.mask _ _ _ (freshWs_ok _) k j hk hj, if_neg hn, h1, mul_one] at this
  exact ⟨this, hin.2.1 h1, hin.1⟩

/-- **C77 (suboptimality).**  If the objective is convex, no feasible point `p` is better than the returned one by more than the
tolerance on the duality gap plus `res_g_max` times the sum of the absolute values of `p`. -/
theorem ipm_success_subopt (h : Solved E lf sol s o) (hc : (view E.qp).Convex) (p : Pt K) (hp : (view E.qp).Feasible p) :
    (view E.qp).objective (ptOf E.qp.dim (solOf E.qp.dim o.s.core).ux) - E.arg.r .dual_gap_max -
      E.arg.r .res_g_max * (view E.qp).absSum p ≤ (view E.qp).objective p := by
  obtain ⟨hg, -, -, -, hgap, -⟩ := ipm_success E h.keeps h.wf h.mask lf sol s o h.nc h.act h.rel h.iter h.ran h.ok freshRes freshWs
    (freshWs_ok _)
  have hin := ipm_solution_inside E h.mask h.init h.clip h.lam_min h.t_min lf sol s o h.nc h.act h.ran
  have hb := res_gap_approx E.qp h.wf h.mask hc (solOf E.qp.dim o.s.core) freshRes freshWs (freshWs_ok _) (fun k j hk hj hn =>
    ((hin k j hk hj).2.1 ((h.mask k j hk hj).resolve_left hn)).le) p hp
  rw [res_objective E.qp h.wf _ _ _ (freshWs_ok _)] at hb
  have hs := abs_pairs_le _ _ _ (packPt E.qp.dim p) _ hg
  rw [absSum_packed, absSum_congr _ _ _ (packPt_agree E.qp p)] at hs
  have := neg_le_of_abs_le hs
  linarith

end

/-! The hypotheses are met by the run `exS_run` -/

theorem exS_solved : ∃ o, Solved exIpEnv 5 exIpSol exIpIpm o := by
  obtain ⟨o, h, -, hs⟩ := exS_out
  exact ⟨o, exIpEnv_keeps, exIpQp_wf, exIpQp_mask, by decide +kernel, by decide +kernel, rfl, by decide,
    Or.inl ⟨by decide, by decide +kernel, by decide +kernel, by decide +kernel⟩, rfl, by decide +kernel, by decide +kernel, h, hs⟩

/-- near feasibility on the run: the first dynamics equation -/
example : ∃ o, ipmSolve exIpEnv 5 exIpSol exIpIpm = some o ∧
    |(view exIpQp).dynDefect (ptOf exIpDim (solOf exIpDim o.s.core).ux) 0 0| ≤ 1 / 10 := by
  obtain ⟨o, h⟩ := exS_solved
  exact ⟨o, h.ran, (ipm_success_feasible h).1 0 0 (by decide) (by decide)⟩

/-- complementarity on the run -/
example : ∃ o, ipmSolve exIpEnv 5 exIpSol exIpIpm = some o ∧ 0 < (solOf exIpDim o.s.core).lam 0 0 := by
  obtain ⟨o, h⟩ := exS_solved
  exact ⟨o, h.ran, ((ipm_success_complementary h 0 0 (by decide) (by decide)).1 (by decide +kernel)).2.1⟩

theorem exIpQp_convex : (view exIpQp).Convex := by
  intro p
  have h : (view exIpQp).quad p = 1 / 2 * (p.u 0 0 * p.u 0 0) + 1 / 2 * (p.x 1 0 * p.x 1 0) := by
    have h0 : (view exIpQp).N = 1 := rfl
    have h1 : (view exIpQp).nu 0 = 1 ∧ (view exIpQp).nx 0 = 0 ∧ (view exIpQp).ns 0 = 0 := ⟨rfl, rfl, rfl⟩
    have h2 : (view exIpQp).nu 1 = 0 ∧ (view exIpQp).nx 1 = 1 ∧ (view exIpQp).ns 1 = 0 := ⟨rfl, rfl, rfl⟩
    have h3 : (view exIpQp).R 0 0 0 = 1 := by decide +kernel
    have h4 : (view exIpQp).Q 1 0 0 = 1 := by decide +kernel
    simp only [UserQp.quad, UserQp.stageQuad, h0, sum_range_succ, h1.1, h1.2.1, h1.2.2, h2.1, h2.2.1, h2.2.2, range_zero, sum_empty,
      UserQp.sym, h3, h4, le_refl, if_true]
    ring
  rw [h]
  have := mul_self_nonneg (p.u 0 0)
  have := mul_self_nonneg (p.x 1 0)
  linarith

/-- suboptimality and stationarity on the run: the convex objective has curvature 1 in the input and in the state -/
example : ∃ o, ipmSolve exIpEnv 5 exIpSol exIpIpm = some o ∧ ∀ p, (view exIpQp).Feasible p →
    (view exIpQp).objective (ptOf exIpDim (solOf exIpDim o.s.core).ux) - 20 - 1 / 10 * (view exIpQp).absSum p ≤
      (view exIpQp).objective p := by
  obtain ⟨o, h⟩ := exS_solved
  exact ⟨o, h.ran, fun p hp => ipm_success_subopt h exIpQp_convex p hp⟩
end Hpipm
