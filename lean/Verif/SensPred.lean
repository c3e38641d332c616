/-
C63: what OCP_QP_IPM_PREDICT returns.
-/
import Verif.SensProps
import Verif.Move

namespace Hpipm
open Finset
set_option linter.unusedSectionVars false

section
variable {K : Type*} [Field K] [LinearOrder K] [IsStrictOrderedRing K]

theorem newton_same {qp : OcpQp K} {z z' : Sol K} {dr : ℕ → ℕ → K} {reg : K} {s : Sol K} (h : NewtonStep qp z dr reg s)
    (hz : SameIn qp.dim z' z) : NewtonStep qp z' dr reg s :=
  ⟨h.g, h.gs, h.b, h.d, fun k j hk hj => by rw [hz.lam k j hk hj, hz.t k j hk hj]; exact h.m k j hk hj⟩

/-- the saved iterate is loaded back into the solution object -/
theorem predict_loads {qp : OcpQp K} {sol : Sol K} {dr : ℕ → ℕ → K} {reg : K} {w : RicWs K} (h : FactAt qp sol dr reg w) (a : SensArg K) :
    SameIn qp.dim (solOf qp.dim (predLoad a w.core)) sol := by
  refine ⟨fun k i hk hi => ?_, fun k i hk hi => ?_, fun k j hk hj => ?_, fun k j hk hj => ?_⟩
  · show veccp w.core.nv w.core.v_bkp 0 w.core.v 0 (stOff (nvt qp.dim) k + i) = _
    have := stOff_lt (len := nvt qp.dim) hk hi
    rw [veccp, if_pos (by rw [h.nv]; omega)]
    simpa using h.v k i hk hi
  · show veccp w.core.ne w.core.pi_bkp 0 w.core.pi 0 (stOff (net qp.dim) k + i) = _
    have h1 := stOff_mono (net qp.dim) (show k + 1 ≤ qp.dim.N by omega)
    have e : stOff (net qp.dim) (k + 1) = stOff (net qp.dim) k + net qp.dim k := rfl
    have hi' : i < net qp.dim k := hi
    rw [veccp, if_pos (by rw [h.ne]; omega)]
    simpa using h.pi k i hk hi
  · show veccp w.core.nc w.core.lam_bkp 0 w.core.lam 0 (stOff (nct qp.dim) k + j) = _
    have := stOff_lt (len := nct qp.dim) hk hj
    rw [veccp, if_pos (by rw [h.nc]; omega)]
    simpa using h.lam k j hk hj
  · show veccp w.core.nc w.core.t_bkp 0 w.core.t 0 (stOff (nct qp.dim) k + j) = _
    have := stOff_lt (len := nct qp.dim) hk hj
    rw [veccp, if_pos (by rw [h.nc]; omega)]
    simpa using h.t k j hk hj

/-- the predicted point is the saved iterate moved along a Newton step for the residuals of the new problem, with the step lengths left
in the core workspace by the last solve; and the workspace can be used again for the next prediction -/
theorem predict_moves (qp : OcpQp K) (hwf : qp.WF) (hN : 1 ≤ qp.dim.N) (hu : Unshared qp) (sol : Sol K) (dr : ℕ → ℕ → K) (reg : K)
    (w : RicWs K) (h : FactAt qp sol dr reg w) (a : SensArg K) (ha : a.comp_dual_sol_eq = true) (ht : a.t_lam_min ≠ 2)
    (hden : ∀ k i, k ≤ qp.dim.N → i < 2 * qp.dim.ns k → slackCurv qp reg sol k i ≠ 0) (compRes : Bool) (res : Res K) (rws : ResWs K) :
    let z0 := solOf qp.dim (predLoad a w.core)
    let r := resCompute qp z0 res rws
    let p := predictDelta qp a compRes res rws w
    ∃ step, NewtonStep (withRhs qp r.res_g r.res_b r.res_d r.res_m) z0 dr reg step ∧
      SameIn qp.dim p.sol (z0.move step (shortStep w.core).1 (shortStep w.core).2) ∧ FactAt qp sol dr reg p.w ∧
      (compRes = true → p.res = resCompute qp p.sol r rws) := by
  intro z0 r p
  set c := predLoad a w.core with hc
  have hl := predict_loads h a
  have hcf : CoreFac (withRhs qp r.res_g r.res_b r.res_d r.res_m) sol c := by
    have := h.core a
    exact ⟨⟨this.of.nc, this.of.lam, this.of.t, this.of.pos⟩, this.ti, this.G⟩
  have hF : Factored (withRhs qp r.res_g r.res_b r.res_d r.res_m) dr reg (stView qp.dim c.Gamma) w.sqr w.st :=
    ⟨h.fac.ba, ⟨h.fac.fac.hsym, h.fac.fac.fac⟩, h.fac.zs⟩
  obtain ⟨n1, n2, -⟩ := solve_newton (withRhs qp r.res_g r.res_b r.res_d r.res_m) hwf hN hu sol dr reg w.sqr false c hcf w.st hF
    (fun h => nomatch h) hden
  obtain ⟨gm, hcg, -⟩ := computeGamma_fields (stFlat (nct qp.dim) r.res_d (qp.dim.N + 1)) (stFlat (nct qp.dim) r.res_m (qp.dim.N + 1)) c
  set q := solveKktStep (withRhs qp r.res_g r.res_b r.res_d r.res_m) true w.sqr false c w.st with hq
  have hr1 : q.1 = { c with gamma := gm } := by
    rw [hq]; unfold solveKktStep
    exact hcg
  let c' : Core K := { q.1 with
    res_m := stFlat (nct qp.dim) r.res_m (qp.dim.N + 1)
    dv := stFlat (nvt qp.dim) q.2.ux (qp.dim.N + 1)
    dpi := stFlat (net qp.dim) q.2.pi qp.dim.N
    dlam := stFlat (nct qp.dim) q.2.lam (qp.dim.N + 1)
    dt := stFlat (nct qp.dim) q.2.t (qp.dim.N + 1) }
  have hp : p = ⟨solOf qp.dim (updateVar c'), (if compRes then predRes qp (updateVar c') (solOf qp.dim (updateVar c')) r rws else predRes qp c z0 res rws).1,
      (if compRes then predRes qp (updateVar c') (solOf qp.dim (updateVar c')) r rws else predRes qp c z0 res rws).2,
      { w with
        st := q.2
        core := updateVar c'
        ricP := true }⟩ := by
    show predictDelta qp a compRes res rws w = _
    unfold predictDelta
    rw [ha]
    rfl
  have hcv : c'.nv = stOff (nvt qp.dim) (qp.dim.N + 1) ∧ c'.ne = stOff (net qp.dim) qp.dim.N ∧ c'.nc = stOff (nct qp.dim) (qp.dim.N + 1) ∧
      c'.v = c.v ∧ c'.pi = c.pi ∧ c'.lam = c.lam ∧ c'.t = c.t ∧ c'.t_lam_min = a.t_lam_min ∧ shortStep c' = shortStep w.core ∧
      c'.t_inv = w.core.t_inv ∧ c'.Gamma = w.core.Gamma := by
    have e : c' = { q.1 with
      res_m := stFlat (nct qp.dim) r.res_m (qp.dim.N + 1)
      dv := stFlat (nvt qp.dim) q.2.ux (qp.dim.N + 1)
      dpi := stFlat (net qp.dim) q.2.pi qp.dim.N
      dlam := stFlat (nct qp.dim) q.2.lam (qp.dim.N + 1)
      dt := stFlat (nct qp.dim) q.2.t (qp.dim.N + 1) } := rfl
    rw [hr1] at e
    rw [e]
    exact ⟨h.nv, h.ne, h.nc, rfl, rfl, rfl, rfl, rfl, rfl, rfl, rfl⟩
  obtain ⟨d1, d2, d3, d4, d5, d6, d7, d8, d9, d10, d11⟩ := hcv
  obtain ⟨u1, u2, u3, u4, u5, u6, u7, -⟩ := updateVar_val c'
  obtain ⟨f1, f2, f3, f4, f5⟩ := updateVar_frame c'
  have hns : ¬ (c'.t_lam_min = 2) := by rw [d8]; exact ht
  refine ⟨stepOf q.2, newton_same n1 hl, ?_, ?_, ?_⟩
  · rw [hp]
    refine ⟨fun k i hk hi => ?_, fun k i hk hi => ?_, fun k j hk hj => ?_, fun k j hk hj => ?_⟩
    · show (updateVar c').v (stOff (nvt qp.dim) k + i) = c.v (stOff (nvt qp.dim) k + i) + (shortStep w.core).1 * q.2.ux k i
      rw [u1, if_pos (by rw [d1]; exact stOff_lt hk hi), d4, d9]
      congr 2
      exact stFlat_at _ _ _ _ _ (by omega) hi
    · show (updateVar c').pi (stOff (net qp.dim) k + i) = c.pi (stOff (net qp.dim) k + i) + (shortStep w.core).2 * q.2.pi k i
      have h1 := stOff_mono (net qp.dim) (show k + 1 ≤ qp.dim.N by omega)
      have e : stOff (net qp.dim) (k + 1) = stOff (net qp.dim) k + net qp.dim k := rfl
      have hi' : i < net qp.dim k := hi
      rw [u2, if_pos (by rw [d2]; omega), d5, d9]
      congr 2
      exact stFlat_at _ _ _ _ _ (by omega) hi'
    · show (updateVar c').lam (stOff (nct qp.dim) k + j) = c.lam (stOff (nct qp.dim) k + j) + (shortStep w.core).2 * q.2.lam k j
      rw [u3, if_pos (by rw [d3]; exact stOff_lt hk hj), if_neg (fun hh => hns hh.1), d6, d9]
      congr 2
      exact stFlat_at _ _ _ _ _ (by omega) hj
    · show (updateVar c').t (stOff (nct qp.dim) k + j) = c.t (stOff (nct qp.dim) k + j) + (shortStep w.core).1 * q.2.t k j
      rw [u4, if_pos (by rw [d3]; exact stOff_lt hk hj), if_neg (fun hh => hns hh.1), d7, d9]
      congr 2
      exact stFlat_at _ _ _ _ _ (by omega) hj
  · rw [hp]
    refine ⟨by show (updateVar c').nv = _; rw [f1, d1], by show (updateVar c').ne = _; rw [f2, d2], by show (updateVar c').nc = _; rw [f3, d3],
      fun k i hk hi => ?_, fun k i hk hi => ?_, fun k j hk hj => ?_, fun k j hk hj => ?_, h.pos, ?_, ?_, ?_⟩
    · show (updateVar c').v_bkp _ = _
      rw [u5 _ (by rw [d1]; exact stOff_lt hk hi), d4]
      exact hl.ux k i hk hi
    · show (updateVar c').pi_bkp _ = _
      have h1 := stOff_mono (net qp.dim) (show k + 1 ≤ qp.dim.N by omega)
      have e : stOff (net qp.dim) (k + 1) = stOff (net qp.dim) k + net qp.dim k := rfl
      have hi' : i < net qp.dim k := hi
      rw [u6 _ (by rw [d2]; omega), d5]
      exact hl.pi k i hk hi
    · show (updateVar c').lam_bkp _ = _
      rw [(u7 _ (by rw [d3]; exact stOff_lt hk hj)).1, d6]
      exact hl.lam k j hk hj
    · show (updateVar c').t_bkp _ = _
      rw [(u7 _ (by rw [d3]; exact stOff_lt hk hj)).2, d7]
      exact hl.t k j hk hj
    · show ∀ k j, k ≤ qp.dim.N → j < nct qp.dim k → (updateVar c').t_inv _ = _
      rw [f4, d10]; exact h.ti
    · show ∀ k j, k ≤ qp.dim.N → j < nct qp.dim k → stView qp.dim (updateVar c').Gamma k j = _
      rw [f5, d11]; exact h.G
    · show Factored qp dr reg (stView qp.dim (updateVar c').Gamma) w.sqr q.2
      rw [f5, d11]
      have e : q.1.Gamma = w.core.Gamma := by rw [hr1]; rfl
      rw [← e]
      exact ⟨n2.ba, ⟨n2.fac.hsym, n2.fac.fac⟩, n2.zs⟩
  · intro hr
    rw [hp, hr]
    rfl

/-- the norms reported are those of the residuals reported -/
theorem predRes_norms (qp : OcpQp K) (c : Core K) (sol : Sol K) (res : Res K) (rws : ResWs K)
    (h1 : c.nv = stOff (nvt qp.dim) (qp.dim.N + 1)) (h2 : c.ne = stOff (net qp.dim) qp.dim.N) (h3 : c.nc = stOff (nct qp.dim) (qp.dim.N + 1)) :
    (predRes qp c sol res rws).2 = resInfNorm qp.dim (predRes qp c sol res rws).1 := by
  rw [resInfNorm_eq]
  unfold predRes
  rw [h1, h2, h3]
  rfl

/-- **C63**, reported norms: with and without the residuals of the new point the four norms belong to the residuals returned, which are those of
the returned point or of the point the prediction starts from -/
theorem predict_norms (qp : OcpQp K) (hwf : qp.WF) (hN : 1 ≤ qp.dim.N) (hu : Unshared qp) (sol : Sol K) (dr : ℕ → ℕ → K) (reg : K)
    (w : RicWs K) (h : FactAt qp sol dr reg w) (a : SensArg K) (ha : a.comp_dual_sol_eq = true) (ht : a.t_lam_min ≠ 2)
    (hden : ∀ k i, k ≤ qp.dim.N → i < 2 * qp.dim.ns k → slackCurv qp reg sol k i ≠ 0) (compRes : Bool) (res : Res K) (rws : ResWs K) :
    let p := predictDelta qp a compRes res rws w
    p.rmax = resInfNorm qp.dim p.res := by
  intro p
  obtain ⟨-, -, -, hf, -⟩ := predict_moves qp hwf hN hu sol dr reg w h a ha ht hden compRes res rws
  have hf : FactAt qp sol dr reg p.w := hf
  have e : p.res = (if compRes then predRes qp p.w.core (solOf qp.dim p.w.core) (predRes qp (predLoad a w.core) (solOf qp.dim (predLoad a w.core)) res rws).1 rws
        else predRes qp (predLoad a w.core) (solOf qp.dim (predLoad a w.core)) res rws).1 ∧
      p.rmax = (if compRes then predRes qp p.w.core (solOf qp.dim p.w.core) (predRes qp (predLoad a w.core) (solOf qp.dim (predLoad a w.core)) res rws).1 rws
        else predRes qp (predLoad a w.core) (solOf qp.dim (predLoad a w.core)) res rws).2 := ⟨rfl, rfl⟩
  rw [e.1, e.2]
  cases compRes
  · exact predRes_norms qp _ _ _ _ h.nv h.ne h.nc
  · exact predRes_norms qp _ _ _ _ hf.nv hf.ne hf.nc

/-- **C63.**  Prediction from the saved iterate `sol` for the new problem `qp` (same matrices, other vectors), with the step lengths
`(ap, ad)` left in the workspace by the last solve: the dynamics and the inequality residuals of the predicted point are `1 - ap` times those of
the saved iterate in the new problem -/
theorem predict_residuals (qp : OcpQp K) (hwf : qp.WF) (hN : 1 ≤ qp.dim.N) (hu : Unshared qp) (hm : Mask01 qp) (sol : Sol K) (dr : ℕ → ℕ → K)
    (reg : K) (w : RicWs K) (h : FactAt qp sol dr reg w) (a : SensArg K) (ha : a.comp_dual_sol_eq = true) (ht : a.t_lam_min ≠ 2)
    (hden : ∀ k i, k ≤ qp.dim.N → i < 2 * qp.dim.ns k → slackCurv qp reg sol k i ≠ 0)
    (hl0 : ∀ k j, k ≤ qp.dim.N → j < nct qp.dim k → qp.d_mask k j = 0 → sol.lam k j = 0)
    (compRes : Bool) (res res0 res1 : Res K) (rws ws0 ws1 : ResWs K) (hws : rws.Ok qp) (hws0 : ws0.Ok qp) (hws1 : ws1.Ok qp) :
    let p := predictDelta qp a compRes res rws w
    let r0 := resCompute qp sol res0 ws0
    let r1 := resCompute qp p.sol res1 ws1
    let ap := (shortStep w.core).1
    (∀ k i, k < qp.dim.N → i < qp.dim.nx (k + 1) → r1.res_b k i = (1 - ap) * r0.res_b k i) ∧
    (∀ k j, k ≤ qp.dim.N → j < 2 * qp.dim.nb k + 2 * qp.dim.ng k + 2 * qp.dim.ns k → r1.res_d k j = (1 - ap) * r0.res_d k j) ∧
    ((shortStep w.core).2 = ap → ∀ k i, k ≤ qp.dim.N → i < qp.dim.nu k + qp.dim.nx k + 2 * qp.dim.ns k → reg = 0 → (∀ k i, dr k i = 0) →
      r1.res_g k i = (1 - ap) * r0.res_g k i) ∧
    (compRes = true → ∀ k i, k < qp.dim.N → i < qp.dim.nx (k + 1) → p.res.res_b k i = r1.res_b k i) := by
  intro p r0 r1 ap
  obtain ⟨step, h1, h2, h3, h4⟩ := predict_moves qp hwf hN hu sol dr reg w h a ha ht hden compRes res rws
  have hl := predict_loads h a
  obtain ⟨s1, s2, s3, s4⟩ := res_same qp hwf hl res res0 rws ws0 hws hws0
  have hz : ∀ k j, k ≤ qp.dim.N → j < nct qp.dim k → qp.d_mask k j = 0 →
      (solOf qp.dim (predLoad a w.core)).lam k j = 0 ∧ (resCompute qp (solOf qp.dim (predLoad a w.core)) res rws).res_m k j = 0 := by
    intro k j hk hj h0
    refine ⟨by rw [hl.lam k j hk hj]; exact hl0 k j hk hj h0, ?_⟩
    rw [((resCompute_val qp hwf _ res rws hws).1 k hk).2 j hj, vM, h0, zero_mul]
  obtain ⟨g1, g2, g3, -⟩ := newton_move qp hwf hm (solOf qp.dim (predLoad a w.core)) p.sol step dr reg _ _ res res1 rws ws1 hws hws1 _ hz
    (fun k j hk hj => by rw [hl.t k j hk hj]; exact h.pos k j hk hj) h1 h2
  refine ⟨fun k i hk hi => ?_, fun k j hk hj => ?_, fun hab k i hk hi hr hd => ?_, fun hc k i hk hi => ?_⟩
  · rw [g2 k i hk hi, s2 k i hk hi]
  · rw [g3 k j hk hj, s3 k j hk hj]
  · rw [g1 k i hk hi, s1 k i hk hi, hab]
    have : shiftOf qp dr reg k i = 0 := by unfold shiftOf; split_ifs; exacts [hd k i, hr]
    rw [this]; ring
  · rw [h4 hc]
    exact (res_same qp hwf (SameIn.refl _ p.sol) _ res1 rws ws1 hws hws1).2.1 k i hk hi

/-- **C63.**  In absolute form the predicted point satisfies dynamics and inequalities of the new problem exactly, is stationary up to the
regularisation, and satisfies `lam0 t + lam t0 + m = 0` where `lam0`, `t0` are multipliers and slacks of the saved iterate -/
theorem predict_abs (qp : OcpQp K) (hwf : qp.WF) (hN : 1 ≤ qp.dim.N) (hu : Unshared qp) (hm : Mask01 qp) (sol : Sol K) (dr : ℕ → ℕ → K)
    (reg : K) (w : RicWs K) (h : FactAt qp sol dr reg w) (a : SensArg K) (ha : a.comp_dual_sol_eq = true)
    (hden : ∀ k i, k ≤ qp.dim.N → i < 2 * qp.dim.ns k → slackCurv qp reg sol k i ≠ 0) (hmo : MaskedOut qp sol)
    (exit : Bool) (res res1 : Res K) (rws ws1 : ResWs K) (rmax : K × K × K × K) (hws1 : ws1.Ok qp) :
    let p := predictAbs qp a exit res rws rmax w
    let r1 := resCompute qp p.sol res1 ws1
    (∀ k i, k ≤ qp.dim.N → i < qp.dim.nu k + qp.dim.nx k + 2 * qp.dim.ns k → r1.res_g k i = - (shiftOf qp dr reg k i * p.sol.ux k i)) ∧
    (∀ k i, k < qp.dim.N → i < qp.dim.nx (k + 1) → r1.res_b k i = 0) ∧
    (∀ k j, k ≤ qp.dim.N → j < 2 * qp.dim.nb k + 2 * qp.dim.ng k + 2 * qp.dim.ns k → r1.res_d k j = 0) ∧
    (∀ k j, k ≤ qp.dim.N → j < 2 * qp.dim.nb k + 2 * qp.dim.ng k + 2 * qp.dim.ns k →
      qp.m k j + sol.lam k j * p.sol.t k j + p.sol.lam k j * sol.t k j = 0) ∧
    FactAt qp sol dr reg p.w := by
  intro p r1
  obtain ⟨n1, n2, -⟩ := solveInto_newton qp hwf hN hu sol dr reg w h a (predLoad a w.core) (Or.inr rfl) hden qp.rqz qp.b qp.d qp.m
    (solOf qp.dim (predLoad a w.core))
  have hp : p.sol = (solveInto qp true (predLoad a w.core) (solOf qp.dim (predLoad a w.core)) w).1 ∧
      p.w = (solveInto qp true (predLoad a w.core) (solOf qp.dim (predLoad a w.core)) w).2 := by
    show (predictAbs qp a exit res rws rmax w).sol = _ ∧ (predictAbs qp a exit res rws rmax w).w = _
    unfold predictAbs
    rw [ha]
    cases exit <;> exact ⟨rfl, rfl⟩
  have n1 : NewtonStep qp sol dr reg p.sol := by rw [hp.1]; exact n1
  have hlin := vG_split qp p.sol
  have v := (resCompute_val qp hwf p.sol res1 ws1 hws1).1
  have hlam : ∀ k j, k ≤ qp.dim.N → j < nct qp.dim k → lamM qp p.sol k j = p.sol.lam k j := by
    intro k j hk hj
    rcases hm k j hk hj with h0 | h1
    · have h3 := n1.m k j hk hj
      obtain ⟨e1, e2⟩ := hmo k j hk hj h0
      rw [e1, e2, zero_mul, zero_add, zero_add] at h3
      rw [lamM, h0, zero_mul]
      exact ((mul_eq_zero.mp h3).resolve_right (h.pos k j hk hj)).symm
    · rw [lamM, h1, one_mul]
  refine ⟨fun k i hk hi => ?_, fun k i hk hi => ?_, fun k j hk hj => ?_, fun k j hk hj => n1.m k j hk hj, ?_⟩
  · rw [(v k hk).1.g i hi, vG_congr qp p.sol _ (p.sol.lam k) k i (fun j hj => hlam k j hk hj) hi]
    unfold shiftOf
    by_cases hi1 : i < qp.dim.nu k + qp.dim.nx k
    · rw [if_pos hi1, n1.g k i hk hi1]; ring
    · rw [if_neg hi1]
      have e2 := n1.gs k (i - (qp.dim.nu k + qp.dim.nx k)) hk (by omega)
      rw [show qp.dim.nu k + qp.dim.nx k + (i - (qp.dim.nu k + qp.dim.nx k)) = i by omega] at e2
      rw [e2]; ring
  · rw [(v k (le_of_lt hk)).1.b hk i hi, n1.b k i hk hi]
  · rw [(v k hk).1.d j hj, n1.d k j hk hj, mul_zero]
  · rw [hp.2]; exact n2

/-- **C63**, absolute form: if residuals are requested, residuals and norms are those of the returned point; otherwise both are left as they were -/
theorem predict_abs_norms (qp : OcpQp K) (hwf : qp.WF) (hN : 1 ≤ qp.dim.N) (hu : Unshared qp) (hm : Mask01 qp) (sol : Sol K) (dr : ℕ → ℕ → K)
    (reg : K) (w : RicWs K) (h : FactAt qp sol dr reg w) (a : SensArg K) (ha : a.comp_dual_sol_eq = true)
    (hden : ∀ k i, k ≤ qp.dim.N → i < 2 * qp.dim.ns k → slackCurv qp reg sol k i ≠ 0) (hmo : MaskedOut qp sol)
    (exit : Bool) (res : Res K) (rws : ResWs K) (rmax : K × K × K × K) (hws : rws.Ok qp) :
    let p := predictAbs qp a exit res rws rmax w
    (exit = true → p.res = resCompute qp p.sol res rws ∧ p.rmax = resInfNorm qp.dim p.res) ∧ (exit = false → p.res = res ∧ p.rmax = rmax) := by
  intro p
  obtain ⟨-, -, -, -, hf⟩ := predict_abs qp hwf hN hu hm sol dr reg w h a ha hden hmo exit res res rws rws rmax hws
  have hf : FactAt qp sol dr reg p.w := hf
  constructor
  · rintro rfl
    have e : p.res = (predRes qp p.w.core p.sol res rws).1 ∧ p.rmax = (predRes qp p.w.core p.sol res rws).2 := ⟨rfl, rfl⟩
    refine ⟨e.1, ?_⟩
    rw [e.1, e.2]
    exact predRes_norms qp _ _ _ _ hf.nv hf.ne hf.nc
  · rintro rfl
    exact ⟨rfl, rfl⟩

/-- finding 36: with the absolute formulation the predicted point is never in the interior: if the saved iterate has positive
multipliers and slacks and the complementarity target is non-negative then no constraint of the predicted point has both a positive
multiplier and a positive slack -/
theorem predict_abs_not_inside (qp : OcpQp K) (hwf : qp.WF) (hN : 1 ≤ qp.dim.N) (hu : Unshared qp) (sol : Sol K) (dr : ℕ → ℕ → K)
    (reg : K) (w : RicWs K) (h : FactAt qp sol dr reg w) (a : SensArg K) (ha : a.comp_dual_sol_eq = true)
    (hden : ∀ k i, k ≤ qp.dim.N → i < 2 * qp.dim.ns k → slackCurv qp reg sol k i ≠ 0)
    (exit : Bool) (res : Res K) (rws : ResWs K) (rmax : K × K × K × K) (k j : ℕ) (hk : k ≤ qp.dim.N)
    (hj : j < 2 * qp.dim.nb k + 2 * qp.dim.ng k + 2 * qp.dim.ns k) (hl : 0 < sol.lam k j) (ht : 0 < sol.t k j) (hm : 0 ≤ qp.m k j) :
    ¬ (0 < (predictAbs qp a exit res rws rmax w).sol.lam k j ∧ 0 < (predictAbs qp a exit res rws rmax w).sol.t k j) := by
  obtain ⟨n1, -⟩ := solveInto_newton qp hwf hN hu sol dr reg w h a (predLoad a w.core) (Or.inr rfl) hden qp.rqz qp.b qp.d qp.m
    (solOf qp.dim (predLoad a w.core))
  have hp : (predictAbs qp a exit res rws rmax w).sol = (solveInto qp true (predLoad a w.core) (solOf qp.dim (predLoad a w.core)) w).1 := by
    unfold predictAbs
    rw [ha]
    cases exit <;> rfl
  have n1 : NewtonStep qp sol dr reg (predictAbs qp a exit res rws rmax w).sol := by rw [hp]; exact n1
  have h3 := n1.m k j hk hj
  rintro ⟨h1, h2⟩
  have p1 := mul_pos hl h2
  have p2 := mul_pos h1 ht
  linarith

end
end Hpipm
