/-
Properties C09, C19-C23, C35: the residual routines against the specification in KktSpec.lean.
-/
import Verif.View
import Verif.Adjoint

namespace Hpipm
open Finset
set_option linter.unusedSectionVars false

section
variable {K : Type*} [Field K] [LinearOrder K] [IsStrictOrderedRing K]

/-- the workspace flags, when declared valid, are those of the current masks (they are set by the
solver before its first use of the residual routine, x_ocp_qp_ipm.c:2947-2966) -/
def ResWs.Ok (ws : ResWs K) (qp : OcpQp K) : Prop := ws.valid_nc_mask = true → MaskOk qp ws.mask_constr

/-- masks are zero or one -/
def Mask01 (qp : OcpQp K) : Prop :=
  ∀ k j, k ≤ qp.dim.N → j < nct qp.dim k → qp.d_mask k j = 0 ∨ qp.d_mask k j = 1

theorem countMask_val (D : QpDim) (dm : ℕ → Vec K) :
    ((countMask D dm).2 = false → ∀ k j, k ≤ D.N → j < nct D k → dm k j = 1) ∧
    (countMask D dm).1 = ∑ k ∈ range (D.N + 1), ∑ j ∈ range (nct D k), if dm k j = 1 then 1 else 0 := by
  unfold countMask
  have inner : ∀ (ii n : ℕ) (s : ℕ × Bool),
      ((loop n (fun jj s => if dm ii jj = 1 then (s.1 + 1, s.2) else (s.1, true)) s).2 = false →
        s.2 = false ∧ ∀ j, j < n → dm ii j = 1) ∧
      (loop n (fun jj s => if dm ii jj = 1 then (s.1 + 1, s.2) else (s.1, true)) s).1 =
        s.1 + ∑ j ∈ range n, if dm ii j = 1 then 1 else 0 := by
    intro ii n s
    refine loop_inv (fun n x => (x.2 = false → s.2 = false ∧ ∀ j, j < n → dm ii j = 1) ∧
      x.1 = s.1 + ∑ j ∈ range n, if dm ii j = 1 then 1 else 0) n _ s ?_ ?_
    · refine ⟨fun h => ⟨h, fun j hj => by omega⟩, by simp⟩
    · intro i x _ ⟨h1, h2⟩
      by_cases hd : dm ii i = 1
      · simp only [hd, if_true]
        refine ⟨fun h => ⟨(h1 h).1, fun j hj => ?_⟩, ?_⟩
        · by_cases hji : j = i
          · rw [hji, hd]
          · exact (h1 h).2 j (by omega)
        · rw [h2, sum_range_succ, if_pos hd, add_assoc]
      · simp only [hd, if_false]
        refine ⟨fun h => by simp at h, ?_⟩
        rw [h2, sum_range_succ, if_neg hd, add_zero]
  have := loop_inv (fun n (x : ℕ × Bool) => (x.2 = false → ∀ k j, k < n → j < nct D k → dm k j = 1) ∧
      x.1 = ∑ k ∈ range n, ∑ j ∈ range (nct D k), if dm k j = 1 then 1 else 0) (D.N + 1)
      (fun ii s => loop (nct D ii) (fun jj s => if dm ii jj = 1 then (s.1 + 1, s.2) else (s.1, true)) s)
      (0, false) ?_ ?_
  · refine ⟨fun h k j hk hj => this.1 h k j (by omega) hj, this.2⟩
  · exact ⟨fun _ k j hk => by omega, by simp⟩
  · intro i x _ ⟨h1, h2⟩
    obtain ⟨a, b⟩ := inner i (nct D i) x
    refine ⟨fun h k j hk hj => ?_, ?_⟩
    · by_cases hki : k = i
      · subst hki; exact (a h).2 j hj
      · exact h1 (a h).1 k j (by omega) hj
    · rw [b, h2, sum_range_succ]

theorem maskSel_ok (qp : OcpQp K) (ws : ResWs K) (h : ws.Ok qp) : MaskOk qp (maskSel qp ws).1 := by
  unfold maskSel
  by_cases hv : ws.valid_nc_mask = true
  · rw [if_pos hv]; exact h hv
  · rw [if_neg hv]
    simp only [MaskOk]
    by_cases hc : (countMask qp.dim qp.d_mask).2 = true
    · exact Or.inl hc
    · exact Or.inr ((countMask_val qp.dim qp.d_mask).1 (by simpa using hc))

/-- all closed forms of OCP_QP_RES_COMPUTE -/
theorem resCompute_val (qp : OcpQp K) (hwf : qp.WF) (sol : Sol K) (res : Res K) (ws : ResWs K) (hws : ws.Ok qp) :
    (∀ k, k ≤ qp.dim.N → StageOk qp sol k (resCompute qp sol res ws) ∧
      ∀ j, j < nct qp.dim k → (resCompute qp sol res ws).res_m k j = vM qp sol k j) ∧
    (resCompute qp sol res ws).obj = ∑ k ∈ range (qp.dim.N + 1), vObj qp sol k ∧
    (resCompute qp sol res ws).dual_gap = ∑ k ∈ range (qp.dim.N + 1), vGap qp sol k ∧
    (resCompute qp sol res ws).res_mu_sum =
      ∑ k ∈ range (qp.dim.N + 1), ∑ j ∈ range (nct qp.dim k), |vM qp sol k j| ∧
    (resCompute qp sol res ws).res_mu = (resCompute qp sol res ws).res_mu_sum * (maskSel qp ws).2 := by
  obtain ⟨h1, h2, h3, h4⟩ := resLoop_ok qp hwf sol (maskSel qp ws).1 (maskSel_ok qp ws hws)
    { res := { res with
        obj := 0
        dual_gap := 0 }
      ws := ws
      mu := 0 } (qp.dim.N + 1) (le_refl _)
  simp only [zero_add] at h2 h3 h4
  refine ⟨fun k hk => ⟨⟨?_, ?_, ?_⟩, ?_⟩, h2, h3, h4, rfl⟩
  · exact (h1 k (by omega)).1.g
  · exact (h1 k (by omega)).1.b
  · exact (h1 k (by omega)).1.d
  · exact (h1 k (by omega)).2

/-! ### the Lagrangian in packed form -/

theorem obj_packed (qp : OcpQp K) (sol : Sol K) : (view qp).objective (ptOf qp.dim sol.ux) =
    ∑ k ∈ range (qp.dim.N + 1), vObj qp sol k := by
  simp only [UserQp.objective]
  exact (sum_congr rfl (fun k _ => (vObj_packed qp k sol).symm))

theorem hess_stage (qp : OcpQp K) (v w : ℕ → Vec K) (k : ℕ) :
    ∑ i ∈ range (nvt qp.dim k), hessMul qp v k i * w k i =
    (∑ i ∈ range (qp.dim.nu k + qp.dim.nx k), hmul qp k (v k) i * w k i)
    + ∑ s ∈ range (2 * qp.dim.ns k), qp.Z k s * v k (qp.dim.nu k + qp.dim.nx k + s) *
        w k (qp.dim.nu k + qp.dim.nx k + s) := by
  simp only [nvt]
  rw [sum_range_add _ (qp.dim.nu k + qp.dim.nx k)]
  congr 1
  · exact sum_congr rfl (fun i hi => by rw [hessMul, if_pos (mem_range.mp hi)])
  · apply sum_congr rfl
    intro s _
    have hnn : ¬ (qp.dim.nu k + qp.dim.nx k + s < qp.dim.nu k + qp.dim.nx k) := by omega
    simp only [hessMul, if_neg hnn, show qp.dim.nu k + qp.dim.nx k + s - (qp.dim.nu k + qp.dim.nx k) = s by omega]

theorem quad_pair (qp : OcpQp K) (v : ℕ → Vec K) :
    (view qp).quad (ptOf qp.dim v) = 1 / 2 * pairV qp.dim (hessMul qp v) v := by
  simp only [UserQp.quad, pairV]
  rw [mul_sum]
  apply sum_congr rfl
  intro k _
  rw [stageQuad_packed, hess_stage]; ring

theorem obj_pair (qp : OcpQp K) (v : ℕ → Vec K) :
    (view qp).objective (ptOf qp.dim v) = 1 / 2 * pairV qp.dim (hessMul qp v) v + pairV qp.dim qp.rqz v := by
  simp only [UserQp.objective, pairV]
  rw [mul_sum, ← sum_add_distrib]
  apply sum_congr rfl
  intro k _
  rw [stageQuad_packed, stageLin_packed, hess_stage]
  simp only [nvt]
  rw [sum_range_add _ (qp.dim.nu k + qp.dim.nx k)]
  ring

theorem lagr_packed (qp : OcpQp K) (sol : Sol K) (v : ℕ → Vec K) :
    (view qp).lagrangian (ptOf qp.dim v) (multOf qp.dim sol) =
    1 / 2 * pairV qp.dim (hessMul qp v) v + pairV qp.dim qp.rqz v
    + pairE qp.dim sol.pi (fun k i => qp.b k i + linB qp v k i)
    + pairC qp.dim (lamM qp sol) (fun k j => qp.d k j + linD qp v k j) := by
  unfold UserQp.lagrangian
  rw [obj_pair]
  congr 1
  · congr 1
    apply sum_congr rfl
    intro k _
    apply sum_congr rfl
    intro i hi
    have h := dyn_packed qp k ⟨v, sol.pi, sol.lam, sol.t⟩ i (mem_range.mp hi)
    simp only at h
    rw [h, vB_lin]
    rfl
  · simp only [pairC]
    apply sum_congr rfl
    intro k _
    have e : nct qp.dim k = 2 * (qp.dim.nb k + qp.dim.ng k) + 2 * qp.dim.ns k := by unfold nct; ring
    rw [e, sum3, ← add_assoc]
    have e1 : (view qp).nb = qp.dim.nb := rfl
    have e2 : (view qp).ng = qp.dim.ng := rfl
    have e3 : (view qp).ns = qp.dim.ns := rfl
    rw [e1, e2, e3]
    congr 1
    · congr 1
      · congr 1
        · apply sum_congr rfl
          intro j hj
          have hj := mem_range.mp hj
          rw [view_lowerMask qp k j hj, view_lower qp k j hj, value_packed qp k v j hj, slackLo_packed]
          simp only [lamM, linD, multOf, if_pos hj]; ring
        · apply sum_congr rfl
          intro j hj
          have hj := mem_range.mp hj
          rw [view_upperMask qp k j hj, view_upper qp k j hj, value_packed qp k v j hj, slackUp_packed]
          have h1 : ¬ (qp.dim.nb k + qp.dim.ng k + j < qp.dim.nb k + qp.dim.ng k) := by omega
          have h2 : qp.dim.nb k + qp.dim.ng k + j < 2 * (qp.dim.nb k + qp.dim.ng k) := by omega
          simp only [lamM, linD, multOf, if_neg h1, if_pos h2,
            show qp.dim.nb k + qp.dim.ng k + j - (qp.dim.nb k + qp.dim.ng k) = j by omega]; ring
      · apply sum_congr rfl
        intro s hs
        have hs := mem_range.mp hs
        rw [view_llsMask qp k s hs, view_lls qp k s hs]
        have h1 : ¬ (2 * (qp.dim.nb k + qp.dim.ng k) + s < qp.dim.nb k + qp.dim.ng k) := by omega
        have h2 : ¬ (2 * (qp.dim.nb k + qp.dim.ng k) + s < 2 * (qp.dim.nb k + qp.dim.ng k)) := by omega
        simp only [lamM, linD, multOf, ptOf, if_neg h1, if_neg h2,
          show 2 * (qp.dim.nb k + qp.dim.ng k) + s - 2 * (qp.dim.nb k + qp.dim.ng k) = s by omega]
        ring
    · apply sum_congr rfl
      intro s hs
      have hs := mem_range.mp hs
      rw [view_lusMask qp k s hs, view_lus qp k s hs, add_assoc]
      have h1 : ¬ (2 * (qp.dim.nb k + qp.dim.ng k) + (qp.dim.ns k + s) < qp.dim.nb k + qp.dim.ng k) := by omega
      have h2 : ¬ (2 * (qp.dim.nb k + qp.dim.ng k) + (qp.dim.ns k + s) < 2 * (qp.dim.nb k + qp.dim.ng k)) := by omega
      simp only [lamM, linD, multOf, ptOf, if_neg h1, if_neg h2, add_assoc,
        show 2 * (qp.dim.nb k + qp.dim.ng k) + (qp.dim.ns k + s) - 2 * (qp.dim.nb k + qp.dim.ng k) = qp.dim.ns k + s by omega]
      ring

/-! ### C19, C09: residuals are the KKT residuals -/

/-- **C19 (stationarity).**  The returned `res_g` is the gradient of the Lagrangian: the Lagrangian of
the QP (masked multipliers of the point) changes along every direction `h` of inputs, states and slacks
by `⟨res_g, h⟩` plus the quadratic cost of `h`. -/
theorem res_stationarity (qp : OcpQp K) (hwf : qp.WF) (sol : Sol K) (res : Res K) (ws : ResWs K)
    (hws : ws.Ok qp) (h : ℕ → Vec K) :
    (view qp).lagrangian (ptOf qp.dim (fun k i => sol.ux k i + h k i)) (multOf qp.dim sol) =
    (view qp).lagrangian (ptOf qp.dim sol.ux) (multOf qp.dim sol)
      + (∑ k ∈ range (qp.dim.N + 1), ∑ i ∈ range (qp.dim.nu k + qp.dim.nx k + 2 * qp.dim.ns k),
          (resCompute qp sol res ws).res_g k i * h k i)
      + (view qp).quad (ptOf qp.dim h) := by
  have hg : (∑ k ∈ range (qp.dim.N + 1), ∑ i ∈ range (qp.dim.nu k + qp.dim.nx k + 2 * qp.dim.ns k),
          (resCompute qp sol res ws).res_g k i * h k i) =
      pairV qp.dim (fun k i => vG qp sol (lamM qp sol k) k i) h := by
    simp only [pairV]
    apply sum_congr rfl; intro k hk; apply sum_congr rfl; intro i hi
    rw [((resCompute_val qp hwf sol res ws hws).1 k (by have := mem_range.mp hk; omega)).1.g i (mem_range.mp hi)]
  rw [hg, lagr_packed, lagr_packed, quad_pair, vG_pair qp hwf sol (lamM qp sol) h]
  have e1 : (hessMul qp fun k i => sol.ux k i + h k i) = fun k i => hessMul qp sol.ux k i + hessMul qp h k i := by
    funext k i; rw [hessMul_add]
  rw [e1]
  simp only [linB_add, linD_add]
  rw [pairV_add_right, pairV_add_right, pairV_add_left, pairV_add_left, pairV_add_left, hess_symm qp h sol.ux]
  have e2 : pairE qp.dim sol.pi (fun k i => qp.b k i + (linB qp sol.ux k i + linB qp h k i)) =
      pairE qp.dim sol.pi (fun k i => qp.b k i + linB qp sol.ux k i) + pairE qp.dim sol.pi (linB qp h) := by
    rw [← pairE_add_right]; congr 1; funext k i; ring
  have e3 : pairC qp.dim (lamM qp sol) (fun k j => qp.d k j + (linD qp sol.ux k j + linD qp h k j)) =
      pairC qp.dim (lamM qp sol) (fun k j => qp.d k j + linD qp sol.ux k j) + pairC qp.dim (lamM qp sol) (linD qp h) := by
    rw [← pairC_add_right]; congr 1; funext k i; ring
  rw [e2, e3]
  ring

/-- **C19 (dynamics).** -/
theorem res_dynamics (qp : OcpQp K) (hwf : qp.WF) (sol : Sol K) (res : Res K) (ws : ResWs K)
    (hws : ws.Ok qp) (k i : ℕ) (hk : k < qp.dim.N) (hi : i < qp.dim.nx (k + 1)) :
    (resCompute qp sol res ws).res_b k i = (view qp).dynDefect (ptOf qp.dim sol.ux) k i := by
  rw [((resCompute_val qp hwf sol res ws hws).1 k (by omega)).1.b hk i hi, dyn_packed qp k sol i hi]

/-- **C19, C09 (inequalities).**  With the user's bounds (upper bounds are stored negated), the returned
defects of non-masked constraints are `lower - value - slack + t`, `value - upper - slack + t` and, for the
slack variables, `bound - slack + t`; masked constraints report zero. -/
theorem res_inequalities (qp : OcpQp K) (hwf : qp.WF) (sol : Sol K) (res : Res K) (ws : ResWs K)
    (hws : ws.Ok qp) (k : ℕ) (hk : k ≤ qp.dim.N) :
    let P := view qp
    let p := ptOf qp.dim sol.ux
    let r := (resCompute qp sol res ws).res_d k
    let n := qp.dim.nb k + qp.dim.ng k
    (∀ j, j < n → r j = P.lowerMask k j * (P.lower k j - P.value p k j - P.slackLo p k j + sol.t k j)) ∧
    (∀ j, j < n → r (n + j) = P.upperMask k j * (P.value p k j - P.upper k j - P.slackUp p k j + sol.t k (n + j))) ∧
    (∀ s, s < qp.dim.ns k → r (2 * n + s) = P.llsMask k s * (P.lls k s - p.sl k s + sol.t k (2 * n + s))) ∧
    (∀ s, s < qp.dim.ns k → r (2 * n + qp.dim.ns k + s) =
      P.lusMask k s * (P.lus k s - p.su k s + sol.t k (2 * n + qp.dim.ns k + s))) := by
  have hd := ((resCompute_val qp hwf sol res ws hws).1 k hk).1.d
  unfold nct at hd
  refine ⟨fun j hj => ?_, fun j hj => ?_, fun s hs => ?_, fun s hs => ?_⟩
  · rw [hd j (by omega), view_lowerMask qp k j hj, view_lower qp k j hj, value_packed qp k _ j hj, slackLo_packed]
    simp only [vD]; rw [if_pos hj]; ring
  · rw [hd _ (by omega), view_upperMask qp k j hj, view_upper qp k j hj, value_packed qp k _ j hj, slackUp_packed]
    simp only [vD]
    rw [if_neg (by omega), if_pos (by omega), show qp.dim.nb k + qp.dim.ng k + j - (qp.dim.nb k + qp.dim.ng k) = j by omega]
    ring
  · rw [hd _ (by omega), view_llsMask qp k s hs, view_lls qp k s hs]
    simp only [vD, ptOf]
    rw [if_neg (by omega), if_neg (by omega),
      show 2 * (qp.dim.nb k + qp.dim.ng k) + s - 2 * (qp.dim.nb k + qp.dim.ng k) = s by omega]
    ring
  · rw [hd _ (by omega), view_lusMask qp k s hs, view_lus qp k s hs]
    simp only [vD, ptOf]
    rw [if_neg (by omega), if_neg (by omega),
      show 2 * (qp.dim.nb k + qp.dim.ng k) + qp.dim.ns k + s - 2 * (qp.dim.nb k + qp.dim.ng k) = qp.dim.ns k + s by omega]
    ring_nf

/-- **C19 (complementarity).**  `res_m = lam*t - m` for present constraints, zero for masked ones. -/
theorem res_complementarity (qp : OcpQp K) (hwf : qp.WF) (hm : Mask01 qp) (sol : Sol K) (res : Res K) (ws : ResWs K)
    (hws : ws.Ok qp) (k j : ℕ) (hk : k ≤ qp.dim.N) (hj : j < 2 * qp.dim.nb k + 2 * qp.dim.ng k + 2 * qp.dim.ns k) :
    (resCompute qp sol res ws).res_m k j =
      if qp.d_mask k j = 0 then 0 else sol.lam k j * sol.t k j - qp.m k j := by
  rw [((resCompute_val qp hwf sol res ws hws).1 k hk).2 j hj]
  simp only [vM, lamM]
  rcases hm k j hk hj with h | h
  · simp [h]
  · simp [h]

/-- the objective value reported with the residuals is the objective of the QP -/
theorem res_objective (qp : OcpQp K) (hwf : qp.WF) (sol : Sol K) (res : Res K) (ws : ResWs K) (hws : ws.Ok qp) :
    (resCompute qp sol res ws).obj = (view qp).objective (ptOf qp.dim sol.ux) := by
  rw [(resCompute_val qp hwf sol res ws hws).2.1, obj_packed]

/-- the complementarity measure is the mean absolute complementarity residual over the constraints that
are present (zero if there is none) -/
theorem res_mu_mean (qp : OcpQp K) (hwf : qp.WF) (sol : Sol K) (res : Res K) (ws : ResWs K)
    (hv : ws.valid_nc_mask = false) :
    let r := resCompute qp sol res ws
    let total := ∑ k ∈ range (qp.dim.N + 1), ∑ j ∈ range (nct qp.dim k), |r.res_m k j|
    let count := ∑ k ∈ range (qp.dim.N + 1), ∑ j ∈ range (nct qp.dim k), if qp.d_mask k j = 1 then 1 else 0
    r.res_mu_sum = total ∧ r.res_mu = total / (count : ℕ) := by
  have hws : ws.Ok qp := by intro h; rw [hv] at h; cases h
  obtain ⟨h1, _, _, h4, h5⟩ := resCompute_val qp hwf sol res ws hws
  have e : (resCompute qp sol res ws).res_mu_sum = ∑ k ∈ range (qp.dim.N + 1), ∑ j ∈ range (nct qp.dim k),
      |(resCompute qp sol res ws).res_m k j| := by
    rw [h4]
    apply sum_congr rfl; intro k hk; apply sum_congr rfl; intro j hj
    rw [(h1 k (by have := mem_range.mp hk; omega)).2 j (mem_range.mp hj)]
  refine ⟨e, ?_⟩
  rw [h5, e, div_eq_mul_inv]
  congr 1
  simp only [maskSel, hv, Bool.false_eq_true, if_false]
  rw [(countMask_val qp.dim qp.d_mask).2]
  split_ifs with hc
  · rw [one_div]
  · have : (∑ k ∈ range (qp.dim.N + 1), ∑ j ∈ range (nct qp.dim k), if qp.d_mask k j = 1 then 1 else 0) = 0 := by omega
    rw [this]; simp

/-! ### C21, C20: duality gap and optimality -/

theorem gap_packed (qp : OcpQp K) (sol : Sol K) :
    ∑ k ∈ range (qp.dim.N + 1), vGap qp sol k =
    pairV qp.dim (fun k i => hessMul qp sol.ux k i + qp.rqz k i) sol.ux
      - pairC qp.dim (lamM qp sol) qp.d - pairE qp.dim sol.pi qp.b := by
  simp only [pairV, pairC, pairE]
  have e : ∀ k, vGap qp sol k = (∑ i ∈ range (nvt qp.dim k), (hessMul qp sol.ux k i + qp.rqz k i) * sol.ux k i)
      - (∑ j ∈ range (nct qp.dim k), lamM qp sol k j * qp.d k j)
      - (if k < qp.dim.N then ∑ j ∈ range (qp.dim.nx (k + 1)), sol.pi k j * qp.b k j else 0) := by
    intro k
    simp only [vGap]
    have a1 : (∑ i ∈ range (nvt qp.dim k), (hessMul qp sol.ux k i + qp.rqz k i) * sol.ux k i) =
      (∑ i ∈ range (qp.dim.nu k + qp.dim.nx k), (hmul qp k (sol.ux k) i + qp.rqz k i) * sol.ux k i)
      + (∑ s ∈ range (2 * qp.dim.ns k),
        (qp.Z k s * sol.ux k (qp.dim.nu k + qp.dim.nx k + s) + qp.rqz k (qp.dim.nu k + qp.dim.nx k + s))
          * sol.ux k (qp.dim.nu k + qp.dim.nx k + s)) := by
      simp only [add_mul, sum_add_distrib]
      rw [hess_stage]
      simp only [nvt]
      rw [sum_range_add _ (qp.dim.nu k + qp.dim.nx k)]
      ring
    rw [a1]
    congr 1
    · congr 1
      exact sum_congr rfl (fun j _ => by ring)
    · split_ifs
      · exact sum_congr rfl (fun j _ => by ring)
      · rfl
  rw [sum_congr rfl (fun k _ => e k), sum_sub_distrib, sum_sub_distrib]
  congr 1
  rw [sum_range_succ, if_neg (lt_irrefl _), add_zero]
  exact sum_congr rfl (fun k hk => by rw [if_pos (mem_range.mp hk)])

/-- **C21 (identity).**  The reported duality gap equals the sum of slack times multiplier over the
present constraints plus terms that vanish with the residuals. -/
theorem res_dual_gap (qp : OcpQp K) (hwf : qp.WF) (hm : Mask01 qp) (sol : Sol K) (res : Res K) (ws : ResWs K)
    (hws : ws.Ok qp) :
    let r := resCompute qp sol res ws
    r.dual_gap = pairV qp.dim r.res_g sol.ux - pairE qp.dim sol.pi r.res_b
      - pairC qp.dim sol.lam r.res_d + pairC qp.dim (fun k j => qp.d_mask k j * sol.lam k j) sol.t := by
  intro r
  obtain ⟨h1, _, h3, _⟩ := resCompute_val qp hwf sol res ws hws
  have e1 : pairV qp.dim r.res_g sol.ux = pairV qp.dim (fun k i => vG qp sol (lamM qp sol k) k i) sol.ux :=
    pairV_congr _ _ _ _ _ (fun k i hk hi => by rw [(h1 k hk).1.g i hi])
  have e2 : pairE qp.dim sol.pi r.res_b = pairE qp.dim sol.pi (fun k i => qp.b k i + linB qp sol.ux k i) :=
    pairE_congr _ _ _ _ _ (fun k i hk hi => by rw [(h1 k (by omega)).1.b hk i hi, vB_lin])
  have e3 : pairC qp.dim sol.lam r.res_d =
      pairC qp.dim (lamM qp sol) (fun k j => qp.d k j + linD qp sol.ux k j + sol.t k j) :=
    pairC_congr _ _ _ _ _ (fun k j hk hj => by rw [(h1 k hk).1.d j hj, vD_lin, lamM]; ring)
  rw [h3, gap_packed, e1, e2, e3, vG_pair qp hwf sol (lamM qp sol) sol.ux, pairE_add_right, pairC_add_right,
    pairC_add_right]
  have e4 : pairC qp.dim (lamM qp sol) sol.t = pairC qp.dim (fun k j => qp.d_mask k j * sol.lam k j) sol.t := rfl
  rw [← e4]
  ring

/-- a point given by arbitrary components, in the layout of the solver -/
def packPt (D : QpDim) (p : Pt K) : ℕ → Vec K := fun k i =>
  if i < D.nu k then p.u k i
  else if i < D.nu k + D.nx k then p.x k (i - D.nu k)
  else if i < D.nu k + D.nx k + D.ns k then p.sl k (i - (D.nu k + D.nx k))
  else p.su k (i - (D.nu k + D.nx k + D.ns k))

/-- two points agree on all stages and components that exist -/
structure Agree (P : UserQp K) (p p' : Pt K) : Prop where
  u : ∀ k i, i < P.nu k → p.u k i = p'.u k i
  x : ∀ k i, i < P.nx k → p.x k i = p'.x k i
  sl : ∀ k i, i < P.ns k → p.sl k i = p'.sl k i
  su : ∀ k i, i < P.ns k → p.su k i = p'.su k i

theorem packPt_agree (qp : OcpQp K) (p : Pt K) : Agree (view qp) (ptOf qp.dim (packPt qp.dim p)) p := by
  have e1 : (view qp).nu = qp.dim.nu := rfl
  have e2 : (view qp).nx = qp.dim.nx := rfl
  have e3 : (view qp).ns = qp.dim.ns := rfl
  refine ⟨fun k i hi => ?_, fun k i hi => ?_, fun k i hi => ?_, fun k i hi => ?_⟩
  · rw [e1] at hi
    simp only [ptOf, packPt]; rw [if_pos hi]
  · rw [e2] at hi
    simp only [ptOf, packPt]; rw [if_neg (by omega), if_pos (by omega)]; congr 1; omega
  · rw [e3] at hi
    simp only [ptOf, packPt]; rw [if_neg (by omega), if_neg (by omega), if_pos (by omega)]; congr 1; omega
  · rw [e3] at hi
    simp only [ptOf, packPt]; rw [if_neg (by omega), if_neg (by omega), if_neg (by omega)]; congr 1; omega

theorem objective_congr (P : UserQp K) (p p' : Pt K) (h : Agree P p p') : P.objective p = P.objective p' := by
  simp only [UserQp.objective]
  apply sum_congr rfl
  intro k _
  simp only [UserQp.stageQuad, UserQp.stageLin]
  have a1 : ∀ i ∈ range (P.nu k), p.u k i = p'.u k i := fun i hi => h.u k i (mem_range.mp hi)
  have a2 : ∀ i ∈ range (P.nx k), p.x k i = p'.x k i := fun i hi => h.x k i (mem_range.mp hi)
  have a3 : ∀ i ∈ range (P.ns k), p.sl k i = p'.sl k i := fun i hi => h.sl k i (mem_range.mp hi)
  have a4 : ∀ i ∈ range (P.ns k), p.su k i = p'.su k i := fun i hi => h.su k i (mem_range.mp hi)
  congr 1
  · congr 1
    · congr 1
      · congr 1
        · congr 1
          · congr 1
            exact sum_congr rfl (fun i hi => sum_congr rfl (fun j hj => by rw [a1 i hi, a1 j hj]))
          · exact sum_congr rfl (fun i hi => sum_congr rfl (fun j hj => by rw [a1 i hi, a2 j hj]))
        · congr 1
          exact sum_congr rfl (fun i hi => sum_congr rfl (fun j hj => by rw [a2 i hi, a2 j hj]))
      · congr 1
        exact sum_congr rfl (fun i hi => by rw [a3 i hi])
    · congr 1
      exact sum_congr rfl (fun i hi => by rw [a4 i hi])
  · congr 1
    · congr 1
      · congr 1
        · exact sum_congr rfl (fun i hi => by rw [a1 i hi])
        · exact sum_congr rfl (fun i hi => by rw [a2 i hi])
      · exact sum_congr rfl (fun i hi => by rw [a3 i hi])
    · exact sum_congr rfl (fun i hi => by rw [a4 i hi])

theorem feasible_congr (qp : OcpQp K) (hwf : qp.WF) (p p' : Pt K) (h : Agree (view qp) p p')
    (hf : (view qp).Feasible p') : (view qp).Feasible p := by
  have hval : ∀ k j, k ≤ qp.dim.N → j < qp.dim.nb k + qp.dim.ng k → (view qp).value p k j = (view qp).value p' k j := by
    intro k j hk hj
    simp only [UserQp.value]
    by_cases hb : j < (view qp).nb k
    · rw [if_pos hb, if_pos hb]
      have := hwf.1 k j hk hb
      have e : (view qp).idxb k j = qp.idxb k j := rfl
      have e1 : (view qp).nu k = qp.dim.nu k := rfl
      have e2 : (view qp).nx k = qp.dim.nx k := rfl
      by_cases hu : (view qp).idxb k j < (view qp).nu k
      · rw [if_pos hu, if_pos hu, h.u k _ hu]
      · rw [if_neg hu, if_neg hu, h.x k _ (by omega)]
    · rw [if_neg hb, if_neg hb]
      congr 1
      · exact sum_congr rfl (fun i hi => by rw [h.x k i (mem_range.mp hi)])
      · exact sum_congr rfl (fun i hi => by rw [h.u k i (mem_range.mp hi)])
  have hsoft : ∀ k j s, k ≤ qp.dim.N → j < qp.dim.nb k + qp.dim.ng k → (view qp).soft k j = some s → s < qp.dim.ns k := by
    intro k j s hk hj hs
    simp only [view] at hs
    by_cases h1 : qp.idxs_rev k j = -1
    · rw [if_pos h1] at hs; cases hs
    · rw [if_neg h1] at hs
      have := Option.some.inj hs
      rcases hwf.2 k j hk hj with h2 | h2
      · exact absurd h2 h1
      · omega
  have hslo : ∀ k j, k ≤ qp.dim.N → j < qp.dim.nb k + qp.dim.ng k → (view qp).slackLo p k j = (view qp).slackLo p' k j := by
    intro k j hk hj
    simp only [UserQp.slackLo]
    cases hs : (view qp).soft k j with
    | none => rfl
    | some s => exact h.sl k s (hsoft k j s hk hj hs)
  have hsup : ∀ k j, k ≤ qp.dim.N → j < qp.dim.nb k + qp.dim.ng k → (view qp).slackUp p k j = (view qp).slackUp p' k j := by
    intro k j hk hj
    simp only [UserQp.slackUp]
    cases hs : (view qp).soft k j with
    | none => rfl
    | some s => exact h.su k s (hsoft k j s hk hj hs)
  refine ⟨fun k i hk hi => ?_, fun k j hk hj hm => ?_, fun k j hk hj hm => ?_, fun k i hk hi hm => ?_, fun k i hk hi hm => ?_⟩
  · rw [← hf.dyn k i hk hi]
    simp only [UserQp.dynDefect]
    rw [h.x (k + 1) i hi]
    congr 2
    congr 1
    · exact sum_congr rfl (fun j hj => by rw [h.x k j (mem_range.mp hj)])
    · exact sum_congr rfl (fun j hj => by rw [h.u k j (mem_range.mp hj)])
  · rw [hval k j hk hj, hslo k j hk hj]; exact hf.lo k j hk hj hm
  · rw [hval k j hk hj, hsup k j hk hj]; exact hf.up k j hk hj hm
  · rw [h.sl k i hi]; exact hf.ls k i hk hi hm
  · rw [h.su k i hi]; exact hf.us k i hk hi hm

/-- on feasible points the Lagrangian does not exceed the objective -/
theorem lagrangian_le (P : UserQp K) (p : Pt K) (w : Mult K) (hf : P.Feasible p)
    (h1 : ∀ k j, k ≤ P.N → j < P.nb k + P.ng k → 0 ≤ P.lowerMask k j * w.lo k j)
    (h2 : ∀ k j, k ≤ P.N → j < P.nb k + P.ng k → 0 ≤ P.upperMask k j * w.up k j)
    (h3 : ∀ k i, k ≤ P.N → i < P.ns k → 0 ≤ P.llsMask k i * w.ls k i)
    (h4 : ∀ k i, k ≤ P.N → i < P.ns k → 0 ≤ P.lusMask k i * w.us k i) :
    P.lagrangian p w ≤ P.objective p := by
  unfold UserQp.lagrangian
  have e0 : ∑ k ∈ range P.N, ∑ i ∈ range (P.nx (k + 1)), w.pi k i * P.dynDefect p k i = 0 := by
    apply sum_eq_zero; intro k hk; apply sum_eq_zero; intro i hi
    rw [hf.dyn k i (mem_range.mp hk) (mem_range.mp hi), mul_zero]
  rw [e0, add_zero]
  have key : ∀ (m l g : K), 0 ≤ m * l → (m ≠ 0 → g ≤ 0) → m * l * g ≤ 0 := by
    intro m l g hml hg
    by_cases hm : m = 0
    · rw [hm]; simp
    · exact mul_nonpos_of_nonneg_of_nonpos hml (hg hm)
  have : ∑ k ∈ range (P.N + 1),
     ((∑ j ∈ range (P.nb k + P.ng k), P.lowerMask k j * w.lo k j * (P.lower k j - P.value p k j - P.slackLo p k j))
    + (∑ j ∈ range (P.nb k + P.ng k), P.upperMask k j * w.up k j * (P.value p k j - P.upper k j - P.slackUp p k j))
    + (∑ i ∈ range (P.ns k), P.llsMask k i * w.ls k i * (P.lls k i - p.sl k i))
    + (∑ i ∈ range (P.ns k), P.lusMask k i * w.us k i * (P.lus k i - p.su k i))) ≤ 0 := by
    apply sum_nonpos
    intro k hk
    have hk : k ≤ P.N := by have := mem_range.mp hk; omega
    refine add_nonpos (add_nonpos (add_nonpos ?_ ?_) ?_) ?_
    · apply sum_nonpos; intro j hj; have hj := mem_range.mp hj
      exact key _ _ _ (h1 k j hk hj) (fun hm => by linarith [hf.lo k j hk hj hm])
    · apply sum_nonpos; intro j hj; have hj := mem_range.mp hj
      exact key _ _ _ (h2 k j hk hj) (fun hm => by linarith [hf.up k j hk hj hm])
    · apply sum_nonpos; intro j hj; have hj := mem_range.mp hj
      exact key _ _ _ (h3 k j hk hj) (fun hm => by linarith [hf.ls k j hk hj hm])
    · apply sum_nonpos; intro j hj; have hj := mem_range.mp hj
      exact key _ _ _ (h4 k j hk hj) (fun hm => by linarith [hf.us k j hk hj hm])
  linarith

/-- **C21 (bound).**  For a convex QP and a point with zero stationarity residual and nonnegative
multipliers of the present constraints, the objective minus the reported duality gap is a lower bound
of the objective over all feasible points: the objective of a feasible iterate is within the gap of
the optimum. -/
theorem res_gap_bound (qp : OcpQp K) (hwf : qp.WF) (hm : Mask01 qp) (hc : (view qp).Convex) (sol : Sol K)
    (res : Res K) (ws : ResWs K) (hws : ws.Ok qp)
    (hg : ∀ k i, k ≤ qp.dim.N → i < qp.dim.nu k + qp.dim.nx k + 2 * qp.dim.ns k →
      (resCompute qp sol res ws).res_g k i = 0)
    (hl : ∀ k j, k ≤ qp.dim.N → j < 2 * qp.dim.nb k + 2 * qp.dim.ng k + 2 * qp.dim.ns k →
      qp.d_mask k j ≠ 0 → 0 ≤ sol.lam k j)
    (p : Pt K) (hf : (view qp).Feasible p) :
    (resCompute qp sol res ws).obj - (resCompute qp sol res ws).dual_gap ≤ (view qp).objective p := by
  set v := packPt qp.dim p with hv
  have hag := packPt_agree qp p
  rw [← objective_congr _ _ _ hag]
  have hf' := feasible_congr qp hwf _ _ hag hf
  have hst := res_stationarity qp hwf sol res ws hws (fun k i => v k i - sol.ux k i)
  have e0 : (fun k i => sol.ux k i + (v k i - sol.ux k i)) = v := by funext k i; ring
  rw [e0] at hst
  have ez : (∑ k ∈ range (qp.dim.N + 1), ∑ i ∈ range (qp.dim.nu k + qp.dim.nx k + 2 * qp.dim.ns k),
          (resCompute qp sol res ws).res_g k i * (v k i - sol.ux k i)) = 0 := by
    apply sum_eq_zero; intro k hk; apply sum_eq_zero; intro i hi
    rw [hg k i (by have := mem_range.mp hk; omega) (mem_range.mp hi), zero_mul]
  rw [ez, add_zero] at hst
  have hq := hc (ptOf qp.dim (fun k i => v k i - sol.ux k i))
  have hlm : ∀ k j, k ≤ qp.dim.N → j < 2 * qp.dim.nb k + 2 * qp.dim.ng k + 2 * qp.dim.ns k →
      0 ≤ qp.d_mask k j * sol.lam k j := by
    intro k j hk hj
    rcases hm k j hk hj with h | h
    · simp [h]
    · rw [h, one_mul]; exact hl k j hk hj (by rw [h]; exact one_ne_zero)
  have hle : (view qp).lagrangian (ptOf qp.dim v) (multOf qp.dim sol) ≤ (view qp).objective (ptOf qp.dim v) := by
    have e1 : (view qp).nb = qp.dim.nb := rfl
    have e2 : (view qp).ng = qp.dim.ng := rfl
    have e3 : (view qp).ns = qp.dim.ns := rfl
    have e4 : (view qp).N = qp.dim.N := rfl
    apply lagrangian_le _ _ _ hf'
    · intro k j hk hj
      rw [e1, e2] at hj
      rw [view_lowerMask qp k j hj]; exact hlm k j hk (by omega)
    · intro k j hk hj
      rw [e1, e2] at hj
      rw [view_upperMask qp k j hj]; exact hlm k _ hk (by omega)
    · intro k j hk hj
      rw [e3] at hj
      rw [view_llsMask qp k j hj]; exact hlm k _ hk (by omega)
    · intro k j hk hj
      rw [e3] at hj
      rw [view_lusMask qp k j hj]; exact hlm k _ hk (by omega)
  have hL : (view qp).lagrangian (ptOf qp.dim sol.ux) (multOf qp.dim sol) =
      (resCompute qp sol res ws).obj - (resCompute qp sol res ws).dual_gap := by
    obtain ⟨h1, _, h3, _⟩ := resCompute_val qp hwf sol res ws hws
    rw [res_objective qp hwf sol res ws hws, h3, gap_packed, lagr_packed, obj_pair]
    have hz : pairV qp.dim (fun k i => vG qp sol (lamM qp sol k) k i) sol.ux = 0 := by
      apply sum_eq_zero; intro k hk; apply sum_eq_zero; intro i hi
      have hk' : k ≤ qp.dim.N := by have := mem_range.mp hk; omega
      show vG qp sol (lamM qp sol k) k i * sol.ux k i = 0
      rw [← (h1 k hk').1.g i (mem_range.mp hi), hg k i hk' (mem_range.mp hi), zero_mul]
    rw [vG_pair qp hwf sol (lamM qp sol) sol.ux] at hz
    rw [pairE_add_right, pairC_add_right]
    linear_combination hz
  rw [← hL]
  linarith

/-- **C20.**  For a convex QP a point whose residuals are all zero (complementarity targets `m` zero),
with nonnegative multipliers and slacks of the present constraints, is a global optimum. -/
theorem res_zero_optimal (qp : OcpQp K) (hwf : qp.WF) (hm : Mask01 qp) (hc : (view qp).Convex) (sol : Sol K)
    (res : Res K) (ws : ResWs K) (hws : ws.Ok qp)
    (hg : ∀ k i, k ≤ qp.dim.N → i < qp.dim.nu k + qp.dim.nx k + 2 * qp.dim.ns k →
      (resCompute qp sol res ws).res_g k i = 0)
    (hb : ∀ k i, k < qp.dim.N → i < qp.dim.nx (k + 1) → (resCompute qp sol res ws).res_b k i = 0)
    (hd : ∀ k j, k ≤ qp.dim.N → j < 2 * qp.dim.nb k + 2 * qp.dim.ng k + 2 * qp.dim.ns k →
      (resCompute qp sol res ws).res_d k j = 0)
    (hcm : ∀ k j, k ≤ qp.dim.N → j < 2 * qp.dim.nb k + 2 * qp.dim.ng k + 2 * qp.dim.ns k →
      (resCompute qp sol res ws).res_m k j = 0 ∧ qp.m k j = 0)
    (hl : ∀ k j, k ≤ qp.dim.N → j < 2 * qp.dim.nb k + 2 * qp.dim.ng k + 2 * qp.dim.ns k →
      qp.d_mask k j ≠ 0 → 0 ≤ sol.lam k j ∧ 0 ≤ sol.t k j) :
    (view qp).IsOptimal (ptOf qp.dim sol.ux) := by
  have e1 : (view qp).nb = qp.dim.nb := rfl
  have e2 : (view qp).ng = qp.dim.ng := rfl
  have e3 : (view qp).ns = qp.dim.ns := rfl
  refine ⟨⟨fun k i hk hi => ?_, fun k j hk hj hmj => ?_, fun k j hk hj hmj => ?_, fun k s hk hs hms => ?_,
    fun k s hk hs hms => ?_⟩, fun p hp => ?_⟩
  · rw [← res_dynamics qp hwf sol res ws hws k i hk hi]; exact hb k i hk hi
  · rw [e1, e2] at hj
    have h := (res_inequalities qp hwf sol res ws hws k hk).1 j hj
    rw [hd k j hk (by omega)] at h
    have h' := (mul_eq_zero.mp h.symm).resolve_left hmj
    rw [view_lowerMask qp k j hj] at hmj
    linarith [(hl k j hk (by omega) hmj).2]
  · rw [e1, e2] at hj
    have h := (res_inequalities qp hwf sol res ws hws k hk).2.1 j hj
    rw [hd k _ hk (by omega)] at h
    have h' := (mul_eq_zero.mp h.symm).resolve_left hmj
    rw [view_upperMask qp k j hj] at hmj
    linarith [(hl k _ hk (by omega) hmj).2]
  · rw [e3] at hs
    have h := (res_inequalities qp hwf sol res ws hws k hk).2.2.1 s hs
    rw [hd k _ hk (by omega)] at h
    have h' := (mul_eq_zero.mp h.symm).resolve_left hms
    rw [view_llsMask qp k s hs] at hms
    linarith [(hl k _ hk (by omega) hms).2]
  · rw [e3] at hs
    have h := (res_inequalities qp hwf sol res ws hws k hk).2.2.2 s hs
    rw [hd k _ hk (by omega)] at h
    have h' := (mul_eq_zero.mp h.symm).resolve_left hms
    rw [view_lusMask qp k s hs] at hms
    linarith [(hl k _ hk (by omega) hms).2]
  · have hb' := res_gap_bound qp hwf hm hc sol res ws hws hg (fun k j hk hj h => (hl k j hk hj h).1) p hp
    have hgap : (resCompute qp sol res ws).dual_gap = 0 := by
      rw [res_dual_gap qp hwf hm sol res ws hws]
      have z1 : pairV qp.dim (resCompute qp sol res ws).res_g sol.ux = 0 := by
        apply sum_eq_zero; intro k hk; apply sum_eq_zero; intro i hi
        rw [hg k i (by have := mem_range.mp hk; omega) (mem_range.mp hi), zero_mul]
      have z2 : pairE qp.dim sol.pi (resCompute qp sol res ws).res_b = 0 := by
        apply sum_eq_zero; intro k hk; apply sum_eq_zero; intro i hi
        rw [hb k i (mem_range.mp hk) (mem_range.mp hi), mul_zero]
      have z3 : pairC qp.dim sol.lam (resCompute qp sol res ws).res_d = 0 := by
        apply sum_eq_zero; intro k hk; apply sum_eq_zero; intro i hi
        rw [hd k i (by have := mem_range.mp hk; omega) (mem_range.mp hi), mul_zero]
      have z4 : pairC qp.dim (fun k j => qp.d_mask k j * sol.lam k j) sol.t = 0 := by
        apply sum_eq_zero; intro k hk; apply sum_eq_zero; intro j hj
        have hk' : k ≤ qp.dim.N := by have := mem_range.mp hk; omega
        have hj' := mem_range.mp hj
        have h := res_complementarity qp hwf hm sol res ws hws k j hk' hj'
        rw [(hcm k j hk' hj').1, (hcm k j hk' hj').2] at h
        show qp.d_mask k j * sol.lam k j * sol.t k j = 0
        rcases hm k j hk' hj' with h0 | h0
        · rw [h0]; simp
        · rw [h0] at h ⊢
          simp only [one_ne_zero, if_false, sub_zero] at h
          rw [one_mul]; exact h.symm
      rw [z1, z2, z3, z4]; ring
    rw [hgap, sub_zero, res_objective qp hwf sol res ws hws] at hb'
    exact hb'

/-! ### C22: residual norms -/

theorem vecnrmInf_spec (n : ℕ) (x : Vec K) (xi : ℕ) :
    (∀ i, i < n → |x (xi + i)| ≤ vecnrmInf n x xi) ∧
    (vecnrmInf n x xi = 0 ∨ ∃ i, i < n ∧ vecnrmInf n x xi = |x (xi + i)|) ∧ 0 ≤ vecnrmInf n x xi := by
  induction n with
  | zero => exact ⟨fun i hi => by omega, Or.inl rfl, le_refl _⟩
  | succ n ih =>
    obtain ⟨h1, h2, h3⟩ := ih
    have e : vecnrmInf (n + 1) x xi = max (vecnrmInf n x xi) |x (xi + n)| := rfl
    rw [e]
    refine ⟨fun i hi => ?_, ?_, le_max_of_le_left h3⟩
    · by_cases hin : i = n
      · subst hin; exact le_max_right _ _
      · exact le_max_of_le_left (h1 i (by omega))
    · rcases le_total (vecnrmInf n x xi) |x (xi + n)| with h | h
      · right; exact ⟨n, by omega, max_eq_right h⟩
      · rw [max_eq_left h]
        rcases h2 with h2 | ⟨i, hi, h2⟩
        · exact Or.inl h2
        · exact Or.inr ⟨i, by omega, h2⟩

theorem stOff_mono (len : ℕ → ℕ) {a b : ℕ} (h : a ≤ b) : stOff len a ≤ stOff len b := by
  induction h with
  | refl => exact le_refl _
  | step _ ih => exact le_trans ih (Nat.le_add_right _ _)

theorem stFlat_at (len : ℕ → ℕ) (f : ℕ → Vec K) (n k i : ℕ) (hk : k < n) (hi : i < len k) :
    stFlat len f n (stOff len k + i) = f k i := by
  induction n with
  | zero => omega
  | succ n ih =>
    simp only [stFlat]
    by_cases hkn : k = n
    · subst hkn; rw [if_neg (by omega)]; congr 1; omega
    · have h1 : stOff len (k + 1) ≤ stOff len n := stOff_mono len (by omega)
      simp only [stOff] at h1
      rw [if_pos (by omega)]; exact ih (by omega)

theorem stFlat_inv (len : ℕ → ℕ) (n p : ℕ) (hp : p < stOff len n) :
    ∃ k i, k < n ∧ i < len k ∧ p = stOff len k + i := by
  induction n with
  | zero => simp [stOff] at hp
  | succ n ih =>
    by_cases h : p < stOff len n
    · obtain ⟨k, i, hk, hi, e⟩ := ih h
      exact ⟨k, i, by omega, hi, e⟩
    · simp only [stOff] at hp
      exact ⟨n, p - stOff len n, by omega, by omega, by omega⟩

/-- the norm of a stage-concatenated vector -/
theorem normFlat (len : ℕ → ℕ) (f : ℕ → Vec K) (n : ℕ) :
    let r := vecnrmInf (stOff len n) (stFlat len f n) 0
    (∀ k i, k < n → i < len k → |f k i| ≤ r) ∧ (r = 0 ∨ ∃ k i, k < n ∧ i < len k ∧ r = |f k i|) := by
  intro r
  obtain ⟨h1, h2, _⟩ := vecnrmInf_spec (stOff len n) (stFlat len f n) 0
  refine ⟨fun k i hk hi => ?_, ?_⟩
  · have hlt : stOff len k + i < stOff len n := by
      have := stOff_mono len (show k + 1 ≤ n from hk)
      simp only [stOff] at this; omega
    have := h1 _ hlt
    rw [zero_add, stFlat_at len f n k i hk hi] at this
    exact this
  · rcases h2 with h2 | ⟨p, hp, h2⟩
    · exact Or.inl h2
    · obtain ⟨k, i, hk, hi, e⟩ := stFlat_inv len n p hp
      refine Or.inr ⟨k, i, hk, hi, ?_⟩
      rw [zero_add, e, stFlat_at len f n k i hk hi] at h2
      exact h2

theorem loop_sum_off (len : ℕ → ℕ) (n : ℕ) : loop n (fun ii s => s + len ii) 0 = stOff len n := by
  induction n with
  | zero => rfl
  | succ n ih => rw [loop_succ, ih]; rfl

/-- the norms, over the flattened residual vectors -/
theorem resInfNorm_eq (D : QpDim) (res : Res K) :
    resInfNorm D res = (vecnrmInf (stOff (nvt D) (D.N + 1)) (stFlat (nvt D) res.res_g (D.N + 1)) 0,
   vecnrmInf (stOff (fun k => D.nx (k + 1)) D.N) (stFlat (fun k => D.nx (k + 1)) res.res_b D.N) 0,
   vecnrmInf (stOff (nct D) (D.N + 1)) (stFlat (nct D) res.res_d (D.N + 1)) 0,
   vecnrmInf (stOff (nct D) (D.N + 1)) (stFlat (nct D) res.res_m (D.N + 1)) 0) := by
  have a1 := loop_sum_off (nvt D) D.N
  have a2 := loop_sum_off (nct D) D.N
  have a3 := loop_sum_off (fun k => D.nx (k + 1)) D.N
  simp only [nvt, nct] at a1 a2 a3
  simp only [resInfNorm, a1, a2, a3]
  rfl

/-- **C22.**  Each of the four reported norms bounds every component of its residual group, over all
stages, and is attained by one of them unless it is zero. -/
theorem res_norms (D : QpDim) (res : Res K) :
    let r := resInfNorm D res
    ((∀ k i, k ≤ D.N → i < D.nu k + D.nx k + 2 * D.ns k → |res.res_g k i| ≤ r.1) ∧
      (r.1 = 0 ∨ ∃ k i, k ≤ D.N ∧ i < D.nu k + D.nx k + 2 * D.ns k ∧ r.1 = |res.res_g k i|)) ∧
    ((∀ k i, k < D.N → i < D.nx (k + 1) → |res.res_b k i| ≤ r.2.1) ∧
      (r.2.1 = 0 ∨ ∃ k i, k < D.N ∧ i < D.nx (k + 1) ∧ r.2.1 = |res.res_b k i|)) ∧
    ((∀ k i, k ≤ D.N → i < 2 * D.nb k + 2 * D.ng k + 2 * D.ns k → |res.res_d k i| ≤ r.2.2.1) ∧
      (r.2.2.1 = 0 ∨ ∃ k i, k ≤ D.N ∧ i < 2 * D.nb k + 2 * D.ng k + 2 * D.ns k ∧ r.2.2.1 = |res.res_d k i|)) ∧
    ((∀ k i, k ≤ D.N → i < 2 * D.nb k + 2 * D.ng k + 2 * D.ns k → |res.res_m k i| ≤ r.2.2.2) ∧
      (r.2.2.2 = 0 ∨ ∃ k i, k ≤ D.N ∧ i < 2 * D.nb k + 2 * D.ng k + 2 * D.ns k ∧ r.2.2.2 = |res.res_m k i|)) := by
  rw [resInfNorm_eq]
  have conv : ∀ (len : ℕ → ℕ) (f : ℕ → Vec K), 
    let r := vecnrmInf (stOff len (D.N + 1)) (stFlat len f (D.N + 1)) 0
    (∀ k i, k ≤ D.N → i < len k → |f k i| ≤ r) ∧ (r = 0 ∨ ∃ k i, k ≤ D.N ∧ i < len k ∧ r = |f k i|) := by
    intro len f r
    obtain ⟨a, b⟩ := normFlat len f (D.N + 1)
    refine ⟨fun k i hk hi => a k i (by omega) hi, ?_⟩
    rcases b with b | ⟨k, i, hk, hi, e⟩
    · exact Or.inl b
    · exact Or.inr ⟨k, i, by omega, hi, e⟩
  exact ⟨conv (nvt D) res.res_g, normFlat (fun k => D.nx (k + 1)) res.res_b D.N, conv (nct D) res.res_d,
    conv (nct D) res.res_m⟩

/-! ### C23: residual of the Newton system -/

theorem resComputeLin_val (qp : OcpQp K) (hwf : qp.WF) (sol step : Sol K) (res : Res K) (ws : ResWs K)
    (hws : ws.Ok qp) (k : ℕ) (hk : k ≤ qp.dim.N) :
    StageOk qp step k (resComputeLin qp sol step res ws) ∧
      ∀ j, j < nct qp.dim k → (resComputeLin qp sol step res ws).res_m k j = vML qp sol step k j :=
  resLinLoop_ok qp hwf sol step (maskSel qp ws).1 (maskSel_ok qp ws hws) _ (qp.dim.N + 1) (le_refl _) k (by omega)

/-- the Newton system at a point: the QP with the residuals of that point as right-hand side
(the vectors rqz, b, d, m of the `qp_step` object of the solver, x_ocp_qp_ipm.c:1180-1212) -/
def stepQp (qp : OcpQp K) (r : Res K) : OcpQp K :=
  { qp with
    rqz := r.res_g
    b := r.res_b
    d := r.res_d
    m := r.res_m }

/-- the point after a full step -/
def Sol.add (s d : Sol K) : Sol K where
  ux := fun k i => s.ux k i + d.ux k i
  pi := fun k i => s.pi k i + d.pi k i
  lam := fun k i => s.lam k i + d.lam k i
  t := fun k i => s.t k i + d.t k i

theorem cvalT_add (qp : OcpQp K) (k : ℕ) (v w : Vec K) (j : ℕ) :
    cvalT qp k (fun i => v i + w i) j = cvalT qp k v j + cvalT qp k w j := by
  simp only [cvalT, mul_add, sum_add_distrib]
  have : ∀ i, (if qp.idxb k i = j then v i + w i else 0) = (if qp.idxb k i = j then v i else 0) + (if qp.idxb k i = j then w i else 0) := by
    intro i; split_ifs <;> simp
  simp only [this, sum_add_distrib]; ring
theorem slkT_add (qp : OcpQp K) (k : ℕ) (v w : Vec K) (s : ℕ) :
    slkT qp k (fun i => v i + w i) s = slkT qp k v s + slkT qp k w s := by
  simp only [slkT]
  rw [← sum_add_distrib]
  apply sum_congr rfl; intro j _; split_ifs <;> simp

/-- the gradient at the new point is the gradient at the old one plus the linear residual of the step -/
theorem vG_step (qp : OcpQp K) (sol step : Sol K) (lm dlm : Vec K) (r : Res K) (k i : ℕ) (hi : i < nvt qp.dim k)
    (hr : r.res_g k i = vG qp sol lm k i) :
    vG qp (sol.add step) (fun j => lm j + dlm j) k i = vG (stepQp qp r) step dlm k i := by
  simp only [vG] at hr ⊢
  simp only [stepQp] 
  have e : ∀ v, hmul (stepQp qp r) k v i = hmul qp k v i := fun v => rfl
  simp only [stepQp] at e
  have e2 : ∀ v, cvalT (stepQp qp r) k v i = cvalT qp k v i := fun v => rfl
  simp only [stepQp] at e2
  have e3 : ∀ v s, slkT (stepQp qp r) k v s = slkT qp k v s := fun v s => rfl
  simp only [stepQp] at e3
  simp only [e, e2, e3, hr]
  have c1 : (fun j => lm (qp.dim.nb k + qp.dim.ng k + j) + dlm (qp.dim.nb k + qp.dim.ng k + j) - (lm j + dlm j)) =
      fun j => (lm (qp.dim.nb k + qp.dim.ng k + j) - lm j) + (dlm (qp.dim.nb k + qp.dim.ng k + j) - dlm j) := by
    funext j; ring
  have s1 : (∑ j ∈ range (qp.dim.nx (k + 1)), qp.BAbt k i j * (sol.pi k j + step.pi k j)) =
      (∑ j ∈ range (qp.dim.nx (k + 1)), qp.BAbt k i j * sol.pi k j)
      + ∑ j ∈ range (qp.dim.nx (k + 1)), qp.BAbt k i j * step.pi k j := by
    rw [← sum_add_distrib]; exact sum_congr rfl (fun j _ => by ring)
  simp only [Sol.add, c1, hmul_add, cvalT_add, slkT_add, s1]
  by_cases hi1 : i < qp.dim.nu k + qp.dim.nx k
  · simp only [if_pos hi1]
    by_cases h2 : 0 < k ∧ qp.dim.nu k ≤ i <;> by_cases h3 : k < qp.dim.N <;>
      simp only [h2, h3, and_self, if_true, if_false] <;> ring
  · simp only [if_neg hi1]
    by_cases h2 : i - (qp.dim.nu k + qp.dim.nx k) < qp.dim.ns k <;>
      simp only [h2, if_true, if_false] <;> ring

/-- **C23.**  Let `r` be the residuals at a point and let the step solve the Newton system exactly (the
linear residual routine, applied to the QP with `r` as right-hand side, returns zero).  Then after the full
step the stationarity, dynamics and inequality residuals are zero and the complementarity residual of every
present constraint is the second order term `dlam*dt`. -/
theorem resLin_zero_full_step (qp : OcpQp K) (hwf : qp.WF) (hm : Mask01 qp) (sol step : Sol K)
    (res res1 res2 : Res K) (ws ws1 ws2 : ResWs K) (hws : ws.Ok qp) (hws1 : ws1.Ok qp) (hws2 : ws2.Ok qp) :
    let r := resCompute qp sol res ws
    let l := resComputeLin (stepQp qp r) sol step res1 ws1
    let r' := resCompute qp (sol.add step) res2 ws2
    (∀ k i, k ≤ qp.dim.N → i < qp.dim.nu k + qp.dim.nx k + 2 * qp.dim.ns k → r'.res_g k i = l.res_g k i) ∧
    (∀ k i, k < qp.dim.N → i < qp.dim.nx (k + 1) → r'.res_b k i = l.res_b k i) ∧
    (∀ k j, k ≤ qp.dim.N → j < 2 * qp.dim.nb k + 2 * qp.dim.ng k + 2 * qp.dim.ns k → r'.res_d k j = l.res_d k j) ∧
    (∀ k j, k ≤ qp.dim.N → j < 2 * qp.dim.nb k + 2 * qp.dim.ng k + 2 * qp.dim.ns k → 
      r'.res_m k j = l.res_m k j + qp.d_mask k j * (step.lam k j * step.t k j)) := by
  intro r l r'
  have hwf' : (stepQp qp r).WF := hwf
  have hws1' : ws1.Ok (stepQp qp r) := hws1
  have hr := (resCompute_val qp hwf sol res ws hws).1
  have hl := resComputeLin_val (stepQp qp r) hwf' sol step res1 ws1 hws1'
  have hr' := (resCompute_val qp hwf (sol.add step) res2 ws2 hws2).1
  refine ⟨fun k i hk hi => ?_, fun k i hk hi => ?_, fun k j hk hj => ?_, fun k j hk hj => ?_⟩
  · have h1 := (hl k hk).1.g i hi
    have h2 := (hr' k hk).1.g i hi
    have h3 := (hr k hk).1.g i hi
    rw [h2, h1]
    have e : lamM qp (sol.add step) k = fun j => lamM qp sol k j + lamM (stepQp qp r) step k j := by
      funext j; simp only [lamM, Sol.add, stepQp]; ring
    rw [e]
    exact vG_step qp sol step (lamM qp sol k) (lamM (stepQp qp r) step k) r k i hi h3
  · have h1 := (hl k (le_of_lt hk)).1.b hk i hi
    have h2 := (hr' k (le_of_lt hk)).1.b hk i hi
    have h3 := (hr k (le_of_lt hk)).1.b hk i hi
    rw [h2, h1, vB_lin, vB_lin]
    simp only [Sol.add]
    rw [linB_add]
    have e1 : (stepQp qp r).b k i = r.res_b k i := rfl
    have e2 : linB (stepQp qp r) step.ux k i = linB qp step.ux k i := rfl
    rw [e1, e2, h3, vB_lin]; ring
  · have h1 := (hl k hk).1.d j hj
    have h2 := (hr' k hk).1.d j hj
    have h3 := (hr k hk).1.d j hj
    rw [h2, h1, vD_lin, vD_lin]
    simp only [Sol.add]
    rw [linD_add]
    have e1 : (stepQp qp r).d k j = r.res_d k j := rfl
    have e2 : linD (stepQp qp r) step.ux k j = linD qp step.ux k j := rfl
    have e3 : (stepQp qp r).d_mask k j = qp.d_mask k j := rfl
    rw [e1, e2, e3, h3, vD_lin]
    rcases hm k j hk hj with h | h <;> rw [h] <;> ring
  · have h1 := (hl k hk).2 j hj
    have h2 := (hr' k hk).2 j hj
    have h3 := (hr k hk).2 j hj
    rw [h2, h1]
    simp only [vM, vML, lamM, Sol.add] at h3 ⊢
    have e1 : (stepQp qp r).m k j = r.res_m k j := rfl
    have e3 : (stepQp qp r).d_mask k j = qp.d_mask k j := rfl
    rw [e1, e3, h3]
    rcases hm k j hk hj with h | h <;> rw [h] <;> ring

/-! ### C35: masked constraints -/

/-- **C35.**  Two QPs and points that differ only in the bound, target, multiplier and slack values of
masked-out constraints have the same residuals, objective, duality gap and complementarity measure;
and the residuals of masked-out constraints are zero. -/
theorem res_masked (qp qp' : OcpQp K) (hwf : qp.WF) (sol sol' : Sol K) (res : Res K) (ws : ResWs K)
    (hws : ws.Ok qp) (d' m' : ℕ → Vec K)
    (hqp : qp' = { qp with
      d := d'
      m := m' })
    (hux : sol'.ux = sol.ux) (hpi : sol'.pi = sol.pi)
    (hd : ∀ k j, k ≤ qp.dim.N → j < nct qp.dim k → qp.d_mask k j ≠ 0 →
      d' k j = qp.d k j ∧ m' k j = qp.m k j ∧ sol'.lam k j = sol.lam k j ∧ sol'.t k j = sol.t k j) :
    let r := resCompute qp sol res ws
    let r' := resCompute qp' sol' res ws
    (∀ k i, k ≤ qp.dim.N → i < qp.dim.nu k + qp.dim.nx k + 2 * qp.dim.ns k → r'.res_g k i = r.res_g k i) ∧
    (∀ k i, k < qp.dim.N → i < qp.dim.nx (k + 1) → r'.res_b k i = r.res_b k i) ∧
    (∀ k j, k ≤ qp.dim.N → j < 2 * qp.dim.nb k + 2 * qp.dim.ng k + 2 * qp.dim.ns k →
      r'.res_d k j = r.res_d k j ∧ r'.res_m k j = r.res_m k j ∧
      (qp.d_mask k j = 0 → r.res_d k j = 0 ∧ r.res_m k j = 0)) ∧
    r'.obj = r.obj ∧ r'.dual_gap = r.dual_gap ∧ r'.res_mu = r.res_mu ∧ r'.res_mu_sum = r.res_mu_sum := by
  intro r r'
  subst hqp
  have hr := resCompute_val qp hwf sol res ws hws
  have hr' := resCompute_val (qp := { qp with
      d := d'
      m := m' }) hwf sol' res ws hws
  set qp' : OcpQp K := { qp with
      d := d'
      m := m' } with hqp'
  have hlm : ∀ k j, k ≤ qp.dim.N → j < nct qp.dim k → lamM qp' sol' k j = lamM qp sol k j := by
    intro k j hk hj
    simp only [lamM, hqp']
    by_cases h : qp.d_mask k j = 0
    · rw [h]; ring
    · rw [(hd k j hk hj h).2.2.1]
  have hG : ∀ k i, k ≤ qp.dim.N → i < nvt qp.dim k →
      vG qp' sol' (lamM qp' sol' k) k i = vG qp sol (lamM qp sol k) k i := by
    intro k i hk hi
    rw [← vG_congr qp sol _ _ k i (fun j hj => hlm k j hk hj) hi]
    simp only [vG, hux, hpi]
    rfl
  have hD : ∀ k j, k ≤ qp.dim.N → j < nct qp.dim k → qp.d_mask k j * vD qp' sol' k j = qp.d_mask k j * vD qp sol k j := by
    intro k j hk hj
    by_cases h : qp.d_mask k j = 0
    · rw [h]; ring
    · rw [vD_lin, vD_lin, hux, (hd k j hk hj h).2.2.2]
      have e : qp'.d k j = qp.d k j := (hd k j hk hj h).1
      have e2 : linD qp' sol.ux k j = linD qp sol.ux k j := rfl
      rw [e, e2]
  have hM : ∀ k j, k ≤ qp.dim.N → j < nct qp.dim k → vM qp' sol' k j = vM qp sol k j := by
    intro k j hk hj
    simp only [vM]
    rw [hlm k j hk hj]
    have e3 : qp'.d_mask k j = qp.d_mask k j := rfl
    rw [e3]
    by_cases h : qp.d_mask k j = 0
    · rw [h]; ring
    · rw [(hd k j hk hj h).2.2.2]
      have e : qp'.m k j = qp.m k j := (hd k j hk hj h).2.1
      rw [e]
  have hsum : r'.res_mu_sum = r.res_mu_sum := by
    rw [hr'.2.2.2.1, hr.2.2.2.1]
    apply sum_congr rfl; intro k hk; apply sum_congr rfl; intro j hj
    rw [hM k j (by have := mem_range.mp hk; have : qp'.dim.N = qp.dim.N := rfl; omega) (mem_range.mp hj)]
  refine ⟨fun k i hk hi => ?_, fun k i hk hi => ?_, fun k j hk hj => ⟨?_, ?_, fun h0 => ⟨?_, ?_⟩⟩, ?_, ?_, ?_, hsum⟩
  · exact ((hr'.1 k hk).1.g i hi).trans ((hG k i hk hi).trans ((hr.1 k hk).1.g i hi).symm)
  · refine ((hr'.1 k (le_of_lt hk)).1.b hk i hi).trans (Eq.trans ?_ ((hr.1 k (le_of_lt hk)).1.b hk i hi).symm)
    simp only [vB, hux]; rfl
  · exact ((hr'.1 k hk).1.d j hj).trans ((hD k j hk hj).trans ((hr.1 k hk).1.d j hj).symm)
  · exact ((hr'.1 k hk).2 j hj).trans ((hM k j hk hj).trans ((hr.1 k hk).2 j hj).symm)
  · rw [(hr.1 k hk).1.d j hj, h0, zero_mul]
  · rw [(hr.1 k hk).2 j hj]; simp only [vM, h0, zero_mul]
  · rw [hr'.2.1, hr.2.1]
    apply sum_congr rfl; intro k _; simp only [vObj, hux]; rfl
  · rw [hr'.2.2.1, hr.2.2.1, gap_packed, gap_packed]
    congr 1
    · congr 1
      · rw [hux]; rfl
      · apply pairC_congr
        intro k j hk hj
        rw [hlm k j hk hj]
        by_cases h : qp.d_mask k j = 0
        · simp only [lamM, h]; ring
        · have e : qp'.d k j = qp.d k j := (hd k j hk hj h).1
          rw [e]
    · rw [hpi]
  · rw [hr'.2.2.2.2, hr.2.2.2.2, hsum]; rfl

end

/-! ### a concrete QP meeting the hypotheses

`min 1/2 u^2 + 1/2 x1^2 + 1/2 sl^2 + 1/2 su^2`, `x1 = u + 1`, `-5 <= u <= 5`, soft `1 <= x1 <= 10`,
slacks nonnegative.  The optimum is `u = -1/3`, `x1 = 2/3`, `sl = 1/3`, with multiplier `1/3` for the
violated lower side. -/
section Concrete

def exRDim : QpDim where
  N := 1
  nx := fun k => if k = 1 then 1 else 0
  nu := fun k => if k = 0 then 1 else 0
  nb := fun k => if k = 0 then 1 else 0
  nbx := fun _ => 0
  nbu := fun k => if k = 0 then 1 else 0
  ng := fun k => if k = 1 then 1 else 0
  ns := fun k => if k = 1 then 1 else 0
  nbxe := fun _ => 0
  nbue := fun _ => 0
  nge := fun _ => 0

def exRQp : OcpQp ℚ where
  dim := exRDim
  BAbt := fun _ _ _ => 1
  RSQrq := fun _ i j => if i = 0 ∧ j = 0 then 1 else 0
  DCt := fun _ _ _ => 1
  b := fun _ _ => 1
  rqz := fun _ _ => 0
  d := fun k j => if k = 0 then -5 else if j = 0 then 1 else if j = 1 then -10 else 0
  d_mask := fun _ _ => 1
  m := fun _ _ => 0
  Z := fun _ _ => 1
  idxb := fun _ _ => 0
  idxs_rev := fun k _ => if k = 1 then 0 else -1
  idxe := fun _ _ => 0
  diag_H_flag := fun _ => 0

def exRSol : Sol ℚ where
  ux := fun k i => if k = 0 then -1 / 3 else if i = 0 then 2 / 3 else if i = 1 then 1 / 3 else 0
  pi := fun _ _ => 1 / 3
  lam := fun k j => if k = 1 ∧ j = 0 then 1 / 3 else 0
  t := fun k j => if k = 0 then (if j = 0 then 14 / 3 else 16 / 3)
    else if j = 1 then 28 / 3 else if j = 2 then 1 / 3 else 0

def exRes : Res ℚ where
  res_g := fun _ _ => 7
  res_b := fun _ _ => 7
  res_d := fun _ _ => 7
  res_m := fun _ _ => 7
  obj := 7
  dual_gap := 7
  res_mu := 7
  res_mu_sum := 7

def exWs : ResWs ℚ where
  tmp0 := fun _ => 7
  tmp1 := fun _ => 7
  tmp_lam_mask := fun _ => 7
  valid_nc_mask := false
  mask_constr := false
  nc_mask_inv := 7

theorem exRQp_wf : exRQp.WF := by
  constructor
  · intro k j hk hj
    have : k = 0 ∨ k = 1 := by have : exRQp.dim.N = 1 := rfl; omega
    rcases this with rfl | rfl
    · exact (by decide : 0 < 1 + 0)
    · simp [exRQp, exRDim] at hj
  · intro k j hk hj
    have : k = 0 ∨ k = 1 := by have : exRQp.dim.N = 1 := rfl; omega
    rcases this with rfl | rfl
    · left; rfl
    · right; exact ⟨le_refl _, (by decide : 0 < 1)⟩

theorem exRQp_mask : Mask01 exRQp := fun _ _ _ _ => Or.inr rfl

theorem exWs_ok : exWs.Ok exRQp := by intro h; cases h

theorem exRQp_convex : (view exRQp).Convex := by
  intro p
  rw [UserQp.quad]
  apply sum_nonneg
  intro k hk
  have : k = 0 ∨ k = 1 := by have := mem_range.mp hk; have : (view exRQp).N = 1 := rfl; omega
  rcases this with rfl | rfl
  · have h1 : (view exRQp).nu 0 = 1 := rfl
    have h2 : (view exRQp).nx 0 = 0 := rfl
    have h3 : (view exRQp).ns 0 = 0 := rfl
    have h4 : (view exRQp).R 0 0 0 = 1 := by decide +kernel
    simp only [UserQp.stageQuad, h1, h2, h3, sum_range_one, range_zero, sum_empty, UserQp.sym, h4, le_refl, if_true]
    nlinarith [mul_self_nonneg (p.u 0 0)]
  · have h1 : (view exRQp).nu 1 = 0 := rfl
    have h2 : (view exRQp).nx 1 = 1 := rfl
    have h3 : (view exRQp).ns 1 = 1 := rfl
    have h4 : (view exRQp).Q 1 0 0 = 1 := by decide +kernel
    have h5 : (view exRQp).Zl 1 0 = 1 := by decide +kernel
    have h6 : (view exRQp).Zu 1 0 = 1 := by decide +kernel
    simp only [UserQp.stageQuad, h1, h2, h3, sum_range_one, range_zero, sum_empty, UserQp.sym, h4, h5, h6, le_refl, if_true]
    nlinarith [mul_self_nonneg (p.x 1 0), mul_self_nonneg (p.sl 1 0), mul_self_nonneg (p.su 1 0)]

theorem exRes_zero : (∀ k, k ≤ exRQp.dim.N → ∀ i, i < exRQp.dim.nu k + exRQp.dim.nx k + 2 * exRQp.dim.ns k →
      (resCompute exRQp exRSol exRes exWs).res_g k i = 0) ∧
    (∀ k, k < exRQp.dim.N → ∀ i, i < exRQp.dim.nx (k + 1) → (resCompute exRQp exRSol exRes exWs).res_b k i = 0) ∧
    (∀ k, k ≤ exRQp.dim.N → ∀ j, j < 2 * exRQp.dim.nb k + 2 * exRQp.dim.ng k + 2 * exRQp.dim.ns k →
      (resCompute exRQp exRSol exRes exWs).res_d k j = 0 ∧ (resCompute exRQp exRSol exRes exWs).res_m k j = 0 ∧
      0 ≤ exRSol.lam k j ∧ 0 ≤ exRSol.t k j) := by decide +kernel

/-- C20, C21, C19: all hypotheses hold for this QP and point, which is therefore its optimum -/
example : (view exRQp).IsOptimal (ptOf exRQp.dim exRSol.ux) :=
  res_zero_optimal exRQp exRQp_wf exRQp_mask exRQp_convex exRSol exRes exWs exWs_ok
    (fun k i hk hi => exRes_zero.1 k hk i hi) (fun k i hk hi => exRes_zero.2.1 k hk i hi)
    (fun k j hk hj => (exRes_zero.2.2 k hk j hj).1) (fun k j hk hj => ⟨(exRes_zero.2.2 k hk j hj).2.1, rfl⟩)
    (fun k j hk hj _ => (exRes_zero.2.2 k hk j hj).2.2)

/-- C21 with a positive gap: multiplier of the lower bound of the input raised to 1 and compensated in
the gradient by the upper one -/
example : (resCompute exRQp { exRSol with
      lam := fun k j => if k = 0 then 1 else exRSol.lam k j } exRes exWs).dual_gap = 10 := by decide +kernel

/-- C22: the norms of a nonzero residual -/
example : (resInfNorm exRDim (resCompute exRQp { exRSol with
      ux := fun _ _ => 0 } exRes exWs)).2.1 = 1 := by decide +kernel

/-- C23: a nonzero step which solves the Newton system, from the point with the input moved by one -/
def exFrom : Sol ℚ :=
  { exRSol with
    ux := fun k i => exRSol.ux k i + if k = 0 then 1 else 0
    t := fun k j => exRSol.t k j + if k = 0 then 1 else 0 }
def exStep : Sol ℚ where
  ux := fun k _ => if k = 0 then -1 else 0
  pi := fun _ _ => 0
  lam := fun _ _ => 0
  t := fun k _ => if k = 0 then -1 else 0
example : let r := resCompute exRQp exFrom exRes exWs
    r.res_g 0 0 = 1 ∧
    let l := resComputeLin (stepQp exRQp r) exFrom exStep exRes exWs
    (∀ k, k ≤ exRQp.dim.N → ∀ i, i < exRQp.dim.nu k + exRQp.dim.nx k + 2 * exRQp.dim.ns k → l.res_g k i = 0) ∧
    (∀ k, k ≤ exRQp.dim.N → ∀ j, j < 2 * exRQp.dim.nb k + 2 * exRQp.dim.ng k + 2 * exRQp.dim.ns k →
      l.res_d k j = 0 ∧ l.res_m k j = 0) := by decide +kernel

/-- C35: with the upper sides masked, garbage in their bounds and slacks does not change the residuals;
without the mask it does -/
example : (resCompute { exRQp with
      d_mask := fun _ j => if j = 1 then 0 else 1
      d := fun k j => if j = 1 then 1000 else exRQp.d k j } exRSol exRes exWs).res_d 1 1 = 0 ∧
    (resCompute { exRQp with
      d := fun k j => if j = 1 then 1000 else exRQp.d k j } exRSol exRes exWs).res_d 1 1 ≠ 0 := by decide +kernel

end Concrete
end Hpipm
