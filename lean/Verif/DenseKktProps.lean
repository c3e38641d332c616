/-
Properties of the KKT solver of the dense QP (C70): the step computed by the factorise-and-solve routine solves
the linearised KKT system, for every factorisation method; a full step is a Newton step on the residuals; a
stored factorisation can be reused for other right-hand sides.
-/
import Verif.DenseKktStep
import Verif.DenseResProps

namespace Hpipm
open Finset
set_option linter.unusedSectionVars false

section
variable {K : Type*} [Field K] [LinearOrder K] [IsStrictOrderedRing K]
variable (sq : K → K) (lq : ℕ → ℕ → Mat K → Mat K × Mat K) (qp : DenseQp K) (arg : DArg K)

/-- what the factorise-and-solve routine leaves behind -/
structure DFactOk (sol : DqSol K) (pl dl : K) (o : DKktOut K) : Prop where
  /-- the step solves the linearised KKT system up to the regularisation -/
  step : DNewtonStep qp sol arg.reg_prim (dErrG sq qp arg o.reg.preg o.st.A_Q o.core.Gamma o.st.v)
    (dErrB sq qp arg o.reg.dreg o.st.AL o.st.pi) (dstepOf o.st)
  fac : DFac sq qp arg o.reg.preg o.reg.dreg o.core.Gamma o.st
  core : DCoreStep qp sol o.core
  cache : DCache qp arg.alg o.st
  /-- without a breakdown the regularisation is that of the options -/
  npd : o.npd_reg_hess = false → o.reg.preg = arg.reg_prim ∧ o.reg.dreg = arg.reg_dual ∧
    o.preg_last = pl ∧ o.dreg_last = dl

theorem dErrG_congr (preg : K) (Q : Mat K) (G v v' : Vec K) (h : ∀ i, i < qp.dim.nv → v i = v' i) (i : ℕ)
    (hi : i < qp.dim.nv) : dErrG sq qp arg preg Q G v i = dErrG sq qp arg preg Q G v' i := by
  unfold dErrG
  have e : nullProj qp Q v i = nullProj qp Q v' i := by
    unfold nullProj
    refine sum_congr rfl (fun a _ => ?_)
    congr 1
    exact sum_congr rfl (fun j hj => by rw [h j (mem_range.mp hj)])
  rw [e, h i hi]

theorem dfactSolve_ok (hsq : ∀ x, 0 < x → sq x * sq x = x) (fuel : ℕ) (hwf : qp.WF) (hu : DUnshared qp)
    (hlq : DLqHyp lq qp arg.alg) (sol : DqSol K) (hden : ∀ i, i < 2 * qp.dim.ns → dslackCurv qp arg.reg_prim sol i ≠ 0)
    (pl dl : K) (c : Core K) (hc : DCoreOf qp sol c) (ht : c.t_lam_min ≠ 1) (st : DKkt K)
    (hca : DCache qp arg.alg st) (o : DKktOut K) (h : dfactSolve sq lq fuel qp arg pl dl c st = some o) :
    DFactOk sq qp arg sol pl dl o := by
  unfold dfactSolve at h
  have hcs := dcoreStep qp sol c hc ht
  dsimp only at h
  set c' := (if qp.dim.nb + qp.dim.ng + qp.dim.ns > 0 then computeGammaGamma qp.d qp.m c else c) with hc'
  rcases hm : dkktMain sq lq qp arg pl dl c'.Gamma c'.gamma fuel ⟨arg.reg_prim, false, arg.reg_dual, false⟩ st with _ | ⟨r, s⟩
  · rw [hm] at h; cases h
  · rw [hm] at h
    simp only [Option.some.injEq] at h
    subst h
    obtain ⟨k1, k2, k3, k4, k5⟩ := dkktMain_ok sq lq qp arg hsq hwf hlq pl dl _ _ fuel _ st hca r s hm
    obtain ⟨n1, n2, n3⟩ := dtail_newton qp hwf hu sol c' hcs arg.reg_prim _ _ s k3 hden
    have hsm := dkktTail_same qp c' s
    refine ⟨⟨fun i hi => ?_, n1.gs, fun i hi => ?_, n1.d, n1.m⟩, k2.same hsm, hcs, k1.same hsm, fun hn => ?_⟩
    · rw [n1.g i hi]
      dsimp only
      rw [hsm.A_Q, dErrG_congr sq qp arg r.preg s.A_Q c'.Gamma _ _ n2 i hi]
    · rw [n1.b i hi]
      dsimp only
      rw [hsm.AL, n3]
    · simp only [Bool.or_eq_false_iff] at hn
      dsimp only
      rw [hn.1, hn.2]
      exact ⟨(k4 hn.1).2, (k5 hn.2).2, by simp, by simp⟩

/-- **C70.**  Whenever the factorise-and-solve routine of the dense QP returns, the step it has written solves the
linearised KKT system of the QP at the current iterate, up to the regularisation: in exact arithmetic, for every
method (null space, Schur complement, each with or without scaling, with or without equality constraints).  If no
pivot broke down and the regularisation parameters are zero, the system is solved exactly. -/
theorem dfactSolve_newton (hsq : ∀ x, 0 < x → sq x * sq x = x) (fuel : ℕ) (hwf : qp.WF) (hu : DUnshared qp)
    (hlq : DLqHyp lq qp arg.alg) (sol : DqSol K) (hden : ∀ i, i < 2 * qp.dim.ns → dslackCurv qp arg.reg_prim sol i ≠ 0)
    (pl dl : K) (c : Core K) (hc : DCoreOf qp sol c) (ht : c.t_lam_min ≠ 1) (st : DKkt K)
    (hca : DCache qp arg.alg st) (o : DKktOut K) (h : dfactSolve sq lq fuel qp arg pl dl c st = some o) :
    DNewtonStep qp sol arg.reg_prim (dErrG sq qp arg o.reg.preg o.st.A_Q o.core.Gamma o.st.v)
      (dErrB sq qp arg o.reg.dreg o.st.AL o.st.pi) (dstepOf o.st) ∧
    (o.npd_reg_hess = false → arg.reg_prim = 0 → arg.reg_dual = 0 →
      DNewtonStep qp sol 0 (fun _ => 0) (fun _ => 0) (dstepOf o.st)) := by
  have hF := dfactSolve_ok sq lq qp arg hsq fuel hwf hu hlq sol hden pl dl c hc ht st hca o h
  refine ⟨hF.step, fun hn h1 h2 => ?_⟩
  obtain ⟨e1, e2, _, _⟩ := hF.npd hn
  have hs := hF.step
  rw [e1, e2, h1, h2] at hs
  refine ⟨fun i hi => ?_, fun i hi => hs.gs i hi, fun i hi => ?_, hs.d, hs.m⟩
  · rw [hs.g i hi]
    unfold dErrG sclErr
    split_ifs <;> simp [h1]
  · rw [hs.b i hi]
    unfold dErrB sclErr
    split_ifs <;> simp

/-- the slack Hessian of the result is positive when penalties, regularisation, multipliers are nonnegative -/
theorem dslackCurv_pos (reg : K) (sol : DqSol K) (hint : ∀ j, j < qp.dim.nct → 0 ≤ sol.lam j ∧ 0 < sol.t j) (i : ℕ)
    (hi : i < 2 * qp.dim.ns) (hz : 0 < qp.Z i + reg ∨ (0 ≤ qp.Z i + reg ∧ 0 < sol.lam (2 * (qp.dim.nb + qp.dim.ng) + i))) :
    0 < dslackCurv qp reg sol i := by
  unfold dslackCurv
  dsimp only
  have hq : ∀ j, j < qp.dim.nct → 0 ≤ sol.lam j / sol.t j := fun j hj => div_nonneg (hint j hj).1 (le_of_lt (hint j hj).2)
  have s1 : 0 ≤ ∑ j ∈ range (qp.dim.nb + qp.dim.ng),
      (if qp.idxs_rev j ≠ -1 ∧ i = (qp.idxs_rev j).toNat then sol.lam j / sol.t j else 0) := by
    refine sum_nonneg (fun j hj => ?_)
    split_ifs
    · exact hq j (by have := mem_range.mp hj; unfold DDim.nct; omega)
    · exact le_refl _
  have s2 : 0 ≤ ∑ j ∈ range (qp.dim.nb + qp.dim.ng), (if qp.idxs_rev j ≠ -1 ∧ i = qp.dim.ns + (qp.idxs_rev j).toNat
        then sol.lam (qp.dim.nb + qp.dim.ng + j) / sol.t (qp.dim.nb + qp.dim.ng + j) else 0) := by
    refine sum_nonneg (fun j hj => ?_)
    split_ifs
    · exact hq _ (by have := mem_range.mp hj; unfold DDim.nct; omega)
    · exact le_refl _
  have hl : 2 * (qp.dim.nb + qp.dim.ng) + i < qp.dim.nct := by unfold DDim.nct; omega
  have s3 := hq _ hl
  rcases hz with hz | ⟨hz, hp⟩
  · linarith
  · have := div_pos hp (hint _ hl).2
    linarith

/-- a Newton step makes the linearised residuals those of the regularisation -/
theorem dnewton_resLin (hwf : qp.WF) (hm : DMask01 qp) (sol : DqSol K)
    (hmo : ∀ j, j < qp.dim.nct → qp.d_mask j = 0 → qp.m j = 0 ∧ sol.lam j = 0)
    (hpos : ∀ j, j < qp.dim.nct → sol.t j ≠ 0) (reg : K) (eg eb : Vec K) (s : DqSol K)
    (h : DNewtonStep qp sol reg eg eb s) (res : DRes K) (ws : ResWs K) (hws : DWsOk ws qp) :
    let l := dresComputeLin qp sol s res ws
    (∀ i, i < qp.dim.nv → l.res_g i = - eg i) ∧
    (∀ i, i < 2 * qp.dim.ns → l.res_g (qp.dim.nv + i) = - reg * s.v (qp.dim.nv + i)) ∧
    (∀ i, i < qp.dim.ne → l.res_b i = eb i) ∧
    (∀ j, j < qp.dim.nct → l.res_d j = 0 ∧ l.res_m j = 0) := by
  intro l
  have hv := dresComputeLin_val qp hwf sol s res ws hws
  have hlam : ∀ j, j < qp.dim.nct → lamM (ov qp) (osol s) 0 j = s.lam j := by
    intro j hj
    show qp.d_mask j * s.lam j = s.lam j
    rcases hm j hj with h0 | h1
    · have h3 := h.m j hj
      obtain ⟨e1, e2⟩ := hmo j hj h0
      rw [e1, e2, zero_mul, zero_add, zero_add] at h3
      rw [h0, zero_mul]
      exact ((mul_eq_zero.mp h3).resolve_right (hpos j hj)).symm
    · rw [h1, one_mul]
  refine ⟨fun i hi => ?_, fun i hi => ?_, fun i hi => ?_, fun j hj => ⟨?_, ?_⟩⟩
  · rw [show l.res_g i = _ from hv.g i (by omega), ← h.g i hi,
      vG_congr (ov qp) (osol s) _ s.lam 0 i (fun j hj => hlam j hj) (by show i < qp.dim.nv + 0 + 2 * qp.dim.ns; omega)]
    unfold atp
    rw [if_pos hi]
  · rw [show l.res_g (qp.dim.nv + i) = _ from hv.g _ (by omega), ← h.gs i hi,
      vG_congr (ov qp) (osol s) _ s.lam 0 _ (fun j hj => hlam j hj) (by show qp.dim.nv + i < qp.dim.nv + 0 + 2 * qp.dim.ns; omega)]
    unfold atp
    rw [if_neg (by omega)]; ring
  · rw [show l.res_b i = _ from hv.b i hi, h.b i hi]
  · rw [show l.res_d j = _ from hv.d j hj, h.d j hj, mul_zero]
  · rw [show l.res_m j = _ from hv.m j hj]
    have := h.m j hj
    show qp.d_mask j * (qp.m j + sol.lam j * s.t j + s.lam j * sol.t j) = 0
    rcases hm j hj with h0 | h1
    · rw [h0, zero_mul]
    · rw [h1, one_mul]; linear_combination this

/-- **C70 (full step).**  Newton's method on the KKT conditions of the dense QP: compute the residuals of an iterate
with nonzero slacks, let the factorise-and-solve routine compute a step for them, take the full step.  At the new point
the inequality residuals are zero, the complementarity residual is the second order term, the equality and stationarity
residuals are those of the regularisation: all zero if no pivot broke down and the regularisation is zero. -/
theorem dfactSolve_full_step (hsq : ∀ x, 0 < x → sq x * sq x = x) (fuel : ℕ) (hwf : qp.WF) (hm : DMask01 qp)
    (hu : DUnshared qp) (hlq : DLqHyp lq qp arg.alg) (sol : DqSol K)
    (hml : ∀ j, j < qp.dim.nct → qp.d_mask j = 0 → sol.lam j = 0)
    (hden : ∀ i, i < 2 * qp.dim.ns → dslackCurv qp arg.reg_prim sol i ≠ 0)
    (pl dl : K) (c : Core K) (hc : DCoreOf qp sol c) (ht : c.t_lam_min ≠ 1) (st : DKkt K)
    (hca : DCache qp arg.alg st) (res res2 : DRes K) (ws ws2 : ResWs K) (hws : DWsOk ws qp) (hws2 : DWsOk ws2 qp)
    (o : DKktOut K) :
    let r := dresCompute qp sol res ws
    dfactSolve sq lq fuel (dstepQp qp r) arg pl dl c st = some o →
    let r' := dresCompute qp (sol.add (dstepOf o.st)) res2 ws2
    (∀ i, i < qp.dim.nv → r'.res_g i = - dErrG sq qp arg o.reg.preg o.st.A_Q o.core.Gamma o.st.v i) ∧
    (∀ i, i < 2 * qp.dim.ns → r'.res_g (qp.dim.nv + i) = - arg.reg_prim * o.st.v (qp.dim.nv + i)) ∧
    (∀ i, i < qp.dim.ne → r'.res_b i = dErrB sq qp arg o.reg.dreg o.st.AL o.st.pi i) ∧
    (∀ j, j < qp.dim.nct → r'.res_d j = 0 ∧ r'.res_m j = qp.d_mask j * (o.st.lam j * o.st.t j)) ∧
    (o.npd_reg_hess = false → arg.reg_prim = 0 → arg.reg_dual = 0 →
      (∀ i, i < qp.dim.nv + 2 * qp.dim.ns → r'.res_g i = 0) ∧ ∀ i, i < qp.dim.ne → r'.res_b i = 0) := by
  intro r h r'
  have hr := dresCompute_val qp hwf sol res ws hws
  have hwf' : (dstepQp qp r).WF := ⟨hwf.idxb, hwf.soft⟩
  have hmo : ∀ j, j < (dstepQp qp r).dim.nct → (dstepQp qp r).d_mask j = 0 → (dstepQp qp r).m j = 0 ∧ sol.lam j = 0 := by
    intro j hj h0
    refine ⟨?_, hml j hj h0⟩
    show r.res_m j = 0
    rw [show r.res_m j = _ from hr.m j hj]
    have h0' : qp.d_mask j = 0 := h0
    show qp.d_mask j * _ = 0
    rw [h0', zero_mul]
  have hc' : DCoreOf (dstepQp qp r) sol c := ⟨hc.nc, hc.lam, hc.t, hc.pos⟩
  have hN := dfactSolve_newton sq lq (dstepQp qp r) arg hsq fuel hwf' hu hlq sol hden pl dl c hc' ht st hca o h
  have hl := dnewton_resLin (dstepQp qp r) hwf' hm sol hmo hc.pos arg.reg_prim _ _ _ hN.1 res ws hws
  have hf := dresLin_full_step qp hwf hm sol (dstepOf o.st) res res res2 ws ws ws2 hws hws hws2
  simp only [] at hl hf
  refine ⟨fun i hi => (hf.1 i (by omega)).trans (hl.1 i hi), fun i hi => (hf.1 _ (by omega)).trans (hl.2.1 i hi),
    fun i hi => (hf.2.1 i hi).trans (hl.2.2.1 i hi), fun j hj => ⟨(hf.2.2.1 j hj).trans (hl.2.2.2 j hj).1, ?_⟩, fun hn h1 h2 => ?_⟩
  · refine (hf.2.2.2 j hj).trans ?_
    have e := (hl.2.2.2 j hj).2
    rw [show (dresComputeLin (dstepQp qp (dresCompute qp sol res ws)) sol (dstepOf o.st) res ws).res_m j = 0 from e, zero_add]
    rfl
  · have hN2 := hN.2 hn h1 h2
    have hl2 := dnewton_resLin (dstepQp qp r) hwf' hm sol hmo hc.pos 0 _ _ _ hN2 res ws hws
    simp only [] at hl2
    refine ⟨fun i hi => (hf.1 i hi).trans ?_, fun i hi => (hf.2.1 i hi).trans (hl2.2.2.1 i hi)⟩
    by_cases hi1 : i < qp.dim.nv
    · exact (hl2.1 i hi1).trans neg_zero
    · have := hl2.2.1 (i - qp.dim.nv) (by show _ < 2 * qp.dim.ns; omega)
      have e : (dstepQp qp r).dim.nv + (i - qp.dim.nv) = i := by
        show qp.dim.nv + (i - qp.dim.nv) = i
        omega
      rw [e] at this
      exact this.trans (by ring)

/-- **C70 (re-solve).**  After the factorise-and-solve routine has returned for a QP, the solve routine computes, for a
QP with the same matrices and any gradient, equality and inequality right-hand sides, a step that solves the linearised
KKT system with the same regularisation; the stored factorisation survives, so this can be repeated. -/
theorem dsolve_newton (hwf : qp.WF) (hu : DUnshared qp) (hlq : DLqHyp lq qp arg.alg) (sol : DqSol K)
    (hden : ∀ i, i < 2 * qp.dim.ns → dslackCurv qp arg.reg_prim sol i ≠ 0) (preg dreg : K) (c : Core K)
    (hco : DCoreOf qp sol c) (hti : ∀ j, j < qp.dim.nct → c.t_inv j = 1 / sol.t j)
    (hG : ∀ j, j < qp.dim.nct → c.Gamma j = 1 / sol.t j * sol.lam j) (st : DKkt K)
    (hF : DFac sq qp arg preg dreg c.Gamma st) :
    let r := dsolveKkt qp arg.alg arg.scale c st
    DNewtonStep qp sol arg.reg_prim (dErrG sq qp arg preg r.2.A_Q r.1.Gamma r.2.v)
      (dErrB sq qp arg dreg r.2.AL r.2.pi) (dstepOf r.2) ∧
    DFac sq qp arg preg dreg r.1.Gamma r.2 ∧ DCoreStep qp sol r.1 := by
  intro r
  obtain ⟨gm, hcg, hgm⟩ := computeGamma_fields qp.d qp.m c
  have key : ∃ gm', (if qp.dim.nb + qp.dim.ng + qp.dim.ns > 0 then computeGamma qp.d qp.m c else c) = { c with gamma := gm' } ∧
      ∀ j, j < qp.dim.nct → gm' j = 1 / sol.t j * (qp.m j - sol.lam j * qp.d j) := by
    by_cases h : qp.dim.nb + qp.dim.ng + qp.dim.ns > 0
    · refine ⟨gm, by rw [if_pos h, hcg], fun j hj => ?_⟩
      rw [hgm j (by rw [hco.nc]; exact hj), hti j hj, hco.lam j hj]
    · exact ⟨c.gamma, by rw [if_neg h], fun j hj => by unfold DDim.nct at hj; omega⟩
  obtain ⟨gm', hc1, hc2⟩ := key
  have hcs : DCoreStep qp sol { c with gamma := gm' } := ⟨⟨hco.nc, hco.lam, hco.t, hco.pos⟩, hti, hG, hc2⟩
  have er : r = ({ c with gamma := gm' }, dkktTail qp { c with gamma := gm' } (dSubst qp arg.alg arg.scale (dRhs qp c.Gamma gm' st))) := by
    show dsolveKkt qp arg.alg arg.scale c st = _
    unfold dsolveKkt
    simp only [hc1]
  obtain ⟨lv, v, t1, t2, t3, hrh, h1, h2⟩ := dRhs_val qp hwf arg.reg_prim c.Gamma gm' st hF.1
  set w : DKkt K := { st with
          lv := lv
          v := v
          t1 := t1
          t2 := t2
          t3 := t3 } with hw
  have hsw : DSame st w := ⟨rfl, rfl, rfl, rfl, rfl, rfl, rfl, rfl, rfl, rfl, rfl, rfl⟩
  obtain ⟨k1, k2⟩ := dSubst_ok sq lq qp arg hlq preg dreg c.Gamma gm' w (hF.same hsw) h2 h1
  rw [hrh] at er
  set s := dSubst qp arg.alg arg.scale w with hs
  obtain ⟨n1, n2, n3⟩ := dtail_newton qp hwf hu sol _ hcs arg.reg_prim _ _ s k2 hden
  have hsm := dkktTail_same qp { c with gamma := gm' } s
  rw [er]
  refine ⟨⟨fun i hi => ?_, n1.gs, fun i hi => ?_, n1.d, n1.m⟩, ((hF.same hsw).same k1).same hsm, hcs⟩
  · rw [n1.g i hi]
    dsimp only
    rw [hsm.A_Q, dErrG_congr sq qp arg preg s.A_Q c.Gamma _ _ n2 i hi]
  · rw [n1.b i hi]
    dsimp only
    rw [hsm.AL, n3]

/-- the factorisation does not depend on gradient and right-hand sides -/
theorem DFac.rhs {sq : K → K} {qp : DenseQp K} {arg : DArg K} {preg dreg : K} {G : Vec K} {st : DKkt K} (gz b d m : Vec K)
    (h : DFac sq qp arg preg dreg G st) : DFac sq { qp with gz := gz, b := b, d := d, m := m } arg preg dreg G st := by
  unfold DFac at h ⊢
  refine ⟨h.1, ?_⟩
  have h := h.2
  dsimp only at h ⊢
  split_ifs at h ⊢
  · exact ⟨h.lq, h.Zt, h.H, h.ZtH, h.W⟩
  · exact ⟨⟨h.H.nonneg, h.H.sv, h.H.H⟩, h.AL, h.se, h.E⟩
  · exact ⟨h.H, h.AL, h.E⟩
  · exact ⟨h.nonneg, h.sv, h.H⟩
  · exact h

/-- **C70 (factorise once, solve many).**  The two routines chained: factorise-and-solve for `qp`, then re-solve for the
QP `qp'` with the same matrices and other gradient, right-hand sides and targets. -/
theorem dfact_then_solve (hsq : ∀ x, 0 < x → sq x * sq x = x) (fuel : ℕ) (hwf : qp.WF) (hu : DUnshared qp)
    (hlq : DLqHyp lq qp arg.alg) (sol : DqSol K) (hden : ∀ i, i < 2 * qp.dim.ns → dslackCurv qp arg.reg_prim sol i ≠ 0)
    (pl dl : K) (c : Core K) (hc : DCoreOf qp sol c) (ht : c.t_lam_min ≠ 1) (st : DKkt K)
    (hca : DCache qp arg.alg st) (o : DKktOut K) (h : dfactSolve sq lq fuel qp arg pl dl c st = some o)
    (gz' b' d' m' : Vec K) :
    let qp' : DenseQp K := { qp with gz := gz', b := b', d := d', m := m' }
    let r := dsolveKkt qp' arg.alg arg.scale o.core o.st
    DNewtonStep qp' sol arg.reg_prim (dErrG sq qp arg o.reg.preg r.2.A_Q r.1.Gamma r.2.v)
      (dErrB sq qp arg o.reg.dreg r.2.AL r.2.pi) (dstepOf r.2) ∧
    DFac sq qp arg o.reg.preg o.reg.dreg r.1.Gamma r.2 ∧
    (o.npd_reg_hess = false → arg.reg_prim = 0 → arg.reg_dual = 0 →
      DNewtonStep qp' sol 0 (fun _ => 0) (fun _ => 0) (dstepOf r.2)) := by
  intro qp' r
  have hF := dfactSolve_ok sq lq qp arg hsq fuel hwf hu hlq sol hden pl dl c hc ht st hca o h
  have hR := dsolve_newton sq lq qp' arg ⟨hwf.idxb, hwf.soft⟩ hu hlq sol hden o.reg.preg o.reg.dreg o.core
    ⟨hF.core.of.nc, hF.core.of.lam, hF.core.of.t, hF.core.of.pos⟩ hF.core.ti hF.core.G o.st (hF.fac.rhs gz' b' d' m')
  refine ⟨hR.1, hR.2.1.rhs qp.gz qp.b qp.d qp.m, fun hn h1 h2 => ?_⟩
  obtain ⟨e1, e2, _, _⟩ := hF.npd hn
  have hs := hR.1
  rw [e1, e2, h1, h2] at hs
  refine ⟨fun i hi => ?_, fun i hi => hs.gs i hi, fun i hi => ?_, hs.d, hs.m⟩
  · rw [hs.g i hi]
    unfold dErrG sclErr
    split_ifs <;> simp [h1]
  · rw [hs.b i hi]
    unfold dErrB sclErr
    split_ifs <;> simp

end
end Hpipm
