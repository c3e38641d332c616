/-
One pass of the solver's loop performs the iteration of the specification (C89, third part): factorisation, step lengths,
centering, correction.
-/
import Verif.MehRef

namespace Hpipm
open Finset
set_option linter.unusedSectionVars false

section
variable {K : Type*} [Field K] [LinearOrder K] [IsStrictOrderedRing K]
variable (E : Env K)

theorem gg_frame (d m : Vec K) (c : Core K) : (computeGammaGamma d m c).res_m_bkp = c.res_m_bkp ∧ (computeGammaGamma d m c).mu = c.mu := by
  unfold computeGammaGamma
  split
  · exact loop_inv (S := Core K) (fun _ x => x.res_m_bkp = c.res_m_bkp ∧ x.mu = c.mu) _ _ _ ⟨rfl, rfl⟩ (fun _ _ _ h => h)
  · exact loop_inv (S := Core K) (fun _ x => x.res_m_bkp = c.res_m_bkp ∧ x.mu = c.mu) _ _ _ ⟨rfl, rfl⟩ (fun _ _ _ h => h)

/-- value of the saved complementarity residual -/
def BkpOk (s0 s : Ipm K) : Prop := ∀ k j, k ≤ E.qp.dim.N → j < nct E.qp.dim k →
  E.qp.d_mask k j * s.core.res_m_bkp (stOff (nct E.qp.dim) k + j) = E.qp.d_mask k j *
    ((solOf E.qp.dim s0.core).lam k j * (solOf E.qp.dim s0.core).t k j - E.qp.m k j -
      (if E.arg.i .abs_form ≠ 0 then 2 * ((solOf E.qp.dim s0.core).lam k j * (solOf E.qp.dim s0.core).t k j) else 0))

/-- factorise and solve -/
theorem fact_dir (H : MHyp E) {s0 s : Ipm K} (hc : MConst E s0) (hu : MCur E s0) (hk : Keep s0 s) (hkk : s.kkt = s0.kkt) (hmu : s.core.mu = s0.core.mu)
    (hbk : BkpOk E s0 s) {f : ℕ → Vec K} (hr : RM E s0 s f) :
    ∃ s1, factStep E s = some s1 ∧
    let s' := maskStep E (finSub E s1)
    MFac E s0 s' ∧ Sync E s' ∧ Dir E.qp (E.arg.r .reg_prim) (proxPt E.arg (solOf E.qp.dim s0.core)) (solOf E.qp.dim s0.core) f (stepOf s'.kkt) := by
  have hd : dualF E = true := by unfold dualF; simpa using H.dual
  have hint := hu.ins.interior H.m01
  have hden : ∀ k i, k ≤ E.qp.dim.N → i < 2 * E.qp.dim.ns k → slackCurv (stQ E s) (E.arg.r .reg_prim) (solOf E.qp.dim s0.core) k i ≠ 0 :=
    fun k i hk hi => (slackCurv_pos H.cvx _ hint k i hk hi).ne'
  have hco := mcoreOf E hc hu hk
  have hco' : CoreOf (stQ E s) (solOf E.qp.dim s0.core) s.core := ⟨hco.nc, hco.lam, hco.t, hco.pos⟩
  have ht : s.core.t_lam_min ≠ 1 := by rw [hk.core.t_lam_min, hc.rdy.clip, H.clip]; decide
  have hR : ROk (stQ E s) s.kkt := by rw [hkk]; exact hc.R
  have hB : BOk (stQ E s) s.kkt := by rw [hkk]; exact hc.B
  obtain ⟨out, ho, hn1, hp, hsq, -⟩ := factSolve_total E.sq H.hsq E.fuel (stQ E s) H.wf H.hN (solOf E.qp.dim s0.core) hint (dualF E) E.sqr
    (E.arg.r .reg_prim) s.preg_last H.cvx s.core hco' ht s.kkt hR hB
  have hF := factSolve_factored E.sq H.hsq E.fuel (stQ E s) H.wf H.hN (solOf E.qp.dim s0.core) (dualF E) E.sqr
    (E.arg.r .reg_prim) s.preg_last s.core hco' ht s.kkt hR hB out ho
  have hN := (factSolve_newton E.sq H.hsq E.fuel (stQ E s) H.wf H.hN H.unsh (solOf E.qp.dim s0.core) E.sqr
    (E.arg.r .reg_prim) s.preg_last s.core hco' ht s.kkt hR hB hden out (by rw [hd] at ho; exact ho)).1
  rw [hp, hsq, drOf_reg] at hF
  rw [hp, drOf_reg] at hN
  obtain ⟨f1, f2, f3⟩ := hF
  have hfs : factStep E s = some (syncStep E.qp.dim { s with
      core := out.core
      kkt := out.st
      npd := out.npd_reg_hess
      preg_last := out.preg_last
      lastLq := false }) := by
    unfold factStep
    rw [qpStep_mats, mats_factSolve, ho]
    rfl
  refine ⟨_, hfs, ?_⟩
  have kk := hk.trans (factStep_keep E s _ hfs)
  have hoc := factSolveKktStep_keep _ _ _ _ _ _ _ _ _ _ ho
  have hb : (qpStep E s).b = (qpStep E s0).b := (qpStep_bd E hk.res).1
  have hFc : MFac E s0 (syncStep E.qp.dim { s with
      core := out.core
      kkt := out.st
      npd := out.npd_reg_hess
      preg_last := out.preg_last
      lastLq := false }) := by
    refine ⟨kk, ⟨f1.ba, ⟨f1.fac.hsym, f1.fac.fac⟩, f1.zs⟩, ⟨⟨f2.of.nc, f2.of.lam, f2.of.t, f2.of.pos⟩, f2.ti, f2.G⟩, fun k a hk ha => ?_, fun k j hk hj => ?_, ?_⟩
    · refine (f3 k a hk ha).trans ?_
      rw [← hb]; rfl
    · show _ * out.core.res_m_bkp _ = _
      rw [hoc, (gg_frame _ _ _).1]
      exact hbk k j hk hj
    · show out.core.mu = _
      rw [hoc, (gg_frame _ _ _).2]
      exact hmu
  have hsy := sync_step E { s with
      core := out.core
      kkt := out.st
      npd := out.npd_reg_hess
      preg_last := out.preg_last
      lastLq := false }
  exact ⟨(hFc.fr E (finSub_ffr E _)).fr E (maskStep_ffr E _), sync_mask E (sync_fin E hsy), newton_dir E H hc hu hk kk hsy hr hN⟩

/-! ### complementarity right-hand sides -/

theorem maskResM_val {s : Ipm K} (hr : Ready E s) {k j : ℕ} (hk : k ≤ E.qp.dim.N) (hj : j < nct E.qp.dim k) :
    (maskResM E s).core.res_m (stOff (nct E.qp.dim) k + j) = E.qp.d_mask k j * s.core.res_m (stOff (nct E.qp.dim) k + j) := by
  by_cases hm : s.mask = true
  · unfold maskResM
    rw [if_pos hm]
    have hp : stOff (nct E.qp.dim) k + j < s.core.nc := by rw [hr.nc]; exact stOff_lt hk hj
    show vecmul _ _ _ _ _ _ _ _ = _
    rw [vecmul_in ⟨by omega, by omega⟩]
    simp only [Nat.sub_zero, zero_add]
    rw [fmask, stFlat_at _ _ _ k j (by omega) hj]
  · unfold maskResM
    rw [if_neg hm, hr.mask (by simpa using hm) k j hk hj, one_mul]

theorem maskResM_frame (s : Ipm K) : (maskResM E s).core.res_m_bkp = s.core.res_m_bkp ∧ (maskResM E s).core.mu = s.core.mu ∧
    (maskResM E s).kkt = s.kkt ∧ (maskResM E s).core.sigma = s.core.sigma ∧ (maskResM E s).core.mu_aff = s.core.mu_aff := by
  unfold maskResM
  split <;> exact ⟨rfl, rfl, rfl, rfl, rfl⟩

/-- the affine right-hand side -/
theorem affine_vals {s : Ipm K} (hr : Ready E s) :
    (∀ k j, k ≤ E.qp.dim.N → j < nct E.qp.dim k →
      (affineRhs E s).core.res_m_bkp (stOff (nct E.qp.dim) k + j) = s.core.res_m (stOff (nct E.qp.dim) k + j) ∧
      (affineRhs E s).core.res_m (stOff (nct E.qp.dim) k + j) = E.qp.d_mask k j * (s.core.res_m (stOff (nct E.qp.dim) k + j) - s.core.tau_min)) ∧
    (affineRhs E s).kkt = s.kkt ∧ (affineRhs E s).core.mu = s.core.mu := by
  unfold affineRhs
  rw [computeTauMin_eq, backupResM_eq]
  obtain ⟨f1, f2, f3, -⟩ := maskResM_frame E { s with core := { s.core with
    res_m_bkp := mix s.core.nc s.core.res_m s.core.res_m_bkp
    res_m := mix s.core.nc (fun i => mix s.core.nc s.core.res_m s.core.res_m_bkp i - s.core.tau_min) s.core.res_m } }
  refine ⟨fun k j hk hj => ?_, f3, f2⟩
  have hp : stOff (nct E.qp.dim) k + j < s.core.nc := by rw [hr.nc]; exact stOff_lt hk hj
  refine ⟨?_, ?_⟩
  · refine (congrFun f1 _).trans ?_
    exact mix_lt _ _ hp
  · refine (maskResM_val E (s := { s with core := { s.core with
      res_m_bkp := mix s.core.nc s.core.res_m s.core.res_m_bkp
      res_m := mix s.core.nc (fun i => mix s.core.nc s.core.res_m s.core.res_m_bkp i - s.core.tau_min) s.core.res_m } })
      ⟨hr.nc, hr.mask, hr.lam_min, hr.t_min, hr.clip, hr.split⟩ hk hj).trans ?_
    dsimp only
    rw [mix_lt _ _ hp, mix_lt _ _ hp]

/-! ### step lengths -/

theorem alpha_stepLen {s0 s : Ipm K} (hc : MConst E s0) (hk : Keep s0 s) (hs : Sync E s) (kk col : ℕ) :
    StepLen E.sq E.qp E.arg (solOf E.qp.dim s0.core) (stepOf s.kkt) (alphaStep E kk col s).core.alpha_prim (alphaStep E kk col s).core.alpha_dual := by
  have e : (alphaStep E kk col s).core = computeAlpha E.sq s.core := by unfold alphaStep; simp only [putG_core]
  rw [e]
  refine ⟨s.core, hk.core.nc.trans hc.rdy.nc, fun k j hk' hj => ⟨by rw [hk.core.lam]; rfl, by rw [hk.core.t]; rfl, hs.lam k j hk' hj,
    hs.t k j hk' hj, by rw [hk.core.m]; exact hc.m k j hk' hj⟩, hk.core.split_step.trans hc.rdy.split, by rw [hk.core.m_zero]; exact hc.m_zero,
    hk.core.m_safe.trans hc.m_safe, rfl, rfl⟩

theorem flat_sum_K (len : ℕ → ℕ) (n : ℕ) (f : ℕ → K) (g : ℕ → ℕ → K)
    (h : ∀ k j, k < n → j < len k → f (stOff len k + j) = g k j) :
    ∑ i ∈ range (stOff len n), f i = ∑ k ∈ range n, ∑ j ∈ range (len k), g k j := by
  induction n with
  | zero => simp [stOff]
  | succ n ih =>
    rw [stOff_succ, sum_range_succ, sum_range_add, ih (fun k j hk hj => h k j (by omega) hj)]
    congr 1
    exact sum_congr rfl (fun j hj => h n j (by omega) (mem_range.mp hj))

theorem muAff_val (H : MHyp E) {s0 s : Ipm K} (hc : MConst E s0) (hu : MCur E s0) (hk : Keep s0 s) (hs : Sync E s)
    (ho : ∀ k j, k ≤ E.qp.dim.N → j < nct E.qp.dim k → E.qp.d_mask k j = 0 → (stepOf s.kkt).lam k j = 0 ∧ (stepOf s.kkt).t k j = 0) :
    (computeMuAff s.core).mu_aff = muAfter E.qp (solOf E.qp.dim s0.core) (stepOf s.kkt) s.core.alpha_prim s.core.alpha_dual := by
  rw [computeMuAff_eq, muAfter, hk.core.nc_mask_inv, hc.inv, mul_one_div, hk.core.nc, hc.rdy.nc]
  congr 1
  refine flat_sum_K _ _ _ _ (fun k j hk' hj => ?_)
  have hk' : k ≤ E.qp.dim.N := by omega
  rw [hk.core.lam, hk.core.t, hk.core.m, hs.lam k j hk' hj, hs.t k j hk' hj, hc.m k j hk' hj]
  rcases H.m01 k j hk' hj with e | e
  · obtain ⟨o1, o2⟩ := ho k j hk' hj e
    have o1 : s.kkt.lam k j = 0 := o1
    have := (hu.ins k j hk' hj).2.2 e
    have z0 : s0.core.lam (stOff (nct E.qp.dim) k + j) = 0 := this
    rw [e, if_neg (by norm_num), z0, o1]
    simp
  · rw [e, if_pos rfl, mul_one]
    rfl

/-! ### the corrector -/

/-- the corrector of either formulation -/
def corrGen (kk : ℕ) (s : Ipm K) : Ipm K :=
  let s := sigmaStep E kk s
  let s := maskResM E { s with core := computeCenteringCorrection s.core }
  let s := alphaStep E kk 4 (maskStep E (finSub E (solveStep E s)))
  if E.arg.i .cond_pred_corr = 1 then
    let mu_aff0 := s.core.mu_aff
    let s := { s with core := computeMuAff s.core }
    if s.core.mu_aff > 2 * mu_aff0 then
      let s := maskResM E { s with core := computeCentering s.core }
      alphaStep E kk 4 (maskStep E (finSub E (solveStep E s)))
    else s
  else s

theorem corrGen_rel (ha : E.arg.i .abs_form = 0) (kk : ℕ) (s : Ipm K) : corrPhase E kk s = corrGen E kk s := by
  have e : ∀ s : Ipm K, finSub E s = s := fun s => if_neg (by simp [ha])
  unfold corrGen corrPhase
  simp only [e]

theorem corrGen_abs (ha : E.arg.i .abs_form ≠ 0) (kk : ℕ) (s : Ipm K) : absCorr E kk s = corrGen E kk s := by
  have e : ∀ s : Ipm K, finSub E s = subSol E s := fun s => if_pos ha
  unfold corrGen absCorr
  simp only [e]

/-- centering weight and predicted mean -/
def sgm (s : Ipm K) : K × K := (s.core.sigma, s.core.mu_aff)

theorem sgm_alpha (kk col : ℕ) (s : Ipm K) : sgm (alphaStep E kk col s) = sgm s := by
  have e : (alphaStep E kk col s).core = computeAlpha E.sq s.core := by unfold alphaStep; simp only [putG_core]
  obtain ⟨a, b, e2⟩ := computeAlpha_eq E.sq s.core
  unfold sgm
  rw [e, e2]

theorem sgm_mask (s : Ipm K) : sgm (maskStep E s) = sgm s := by unfold sgm maskStep; split <;> rfl
theorem sgm_fin (s : Ipm K) : sgm (finSub E s) = sgm s := by unfold sgm finSub; split <;> rfl
theorem sgm_maskResM (s : Ipm K) : sgm (maskResM E s) = sgm s := by unfold sgm maskResM; split <;> rfl

theorem sgm_solve (s : Ipm K) : sgm (solveStep E s) = sgm s := by
  obtain ⟨gm, hg, -⟩ := computeGamma_fields (stFlat (nct (qpStep E s).dim) (qpStep E s).d ((qpStep E s).dim.N + 1))
    (stFlat (nct (qpStep E s).dim) (qpStep E s).m ((qpStep E s).dim.N + 1)) s.core
  have hcore : (solveKktStep (qpStep E s) (dualF E) E.sqr true s.core s.kkt).1 = { s.core with gamma := gm } := hg
  show ((solveKktStep (qpStep E s) (dualF E) E.sqr true s.core s.kkt).1.sigma, (solveKktStep (qpStep E s) (dualF E) E.sqr true s.core s.kkt).1.mu_aff) = _
  rw [hcore]
  rfl

theorem sigmaStep_core (kk : ℕ) (s : Ipm K) : (sigmaStep E kk s).core =
    { computeMuAff s.core with sigma := (computeMuAff s.core).mu_aff / s.core.mu * ((computeMuAff s.core).mu_aff / s.core.mu) *
      ((computeMuAff s.core).mu_aff / s.core.mu) } := by
  unfold sigmaStep
  simp only [putG_core]
  rfl

theorem alphaStep_kkt' (kk col : ℕ) (s : Ipm K) : (alphaStep E kk col s).kkt = s.kkt := by unfold alphaStep; simp only [putG_kkt]

theorem sigmaMu_max (c : Core K) : sigmaMu c = max (c.sigma * c.mu) c.tau_min := by
  unfold sigmaMu
  simp only
  split
  · rename_i h; rw [max_eq_left h.le]
  · rename_i h; rw [max_eq_right (not_lt.mp h)]

/-- iterate of the pass -/
abbrev zOf (s0 : Ipm K) : Sol K := solOf E.qp.dim s0.core

/-- direction of the pass -/
def DirOf (s0 : Ipm K) (f : ℕ → Vec K) (s : Ipm K) : Prop :=
  Dir E.qp (E.arg.r .reg_prim) (proxPt E.arg (zOf E s0)) (zOf E s0) f (stepOf s.kkt)

theorem cc_rm (H : MHyp E) {s0 s : Ipm K} (hc : MConst E s0) (hf : MFac E s0 s) (hs : Sync E s) :
    RM E s0 (maskResM E { s with core := computeCenteringCorrection s.core }) (fun k j => (zOf E s0).lam k j * (zOf E s0).t k j - E.qp.m k j +
      s.kkt.t k j * s.kkt.lam k j - sigmaMu s.core) := by
  intro k j hk hj
  have hr : Ready E { s with core := computeCenteringCorrection s.core } := hc.rdy.keep E (hf.keep.trans (cc_ffr s).keep)
  rw [maskResM_val E hr hk hj]
  have hp : stOff (nct E.qp.dim) k + j < s.core.nc := by rw [hf.keep.core.nc, hc.rdy.nc]; exact stOff_lt hk hj
  have e : (computeCenteringCorrection s.core).res_m (stOff (nct E.qp.dim) k + j) = s.core.res_m_bkp (stOff (nct E.qp.dim) k + j) +
      s.kkt.t k j * s.kkt.lam k j - sigmaMu s.core := by
    rw [mcc_eq]
    dsimp only
    rw [mix_lt _ _ hp, hs.t k j hk hj, hs.lam k j hk hj]
  show E.qp.d_mask k j * (computeCenteringCorrection s.core).res_m _ = _
  rw [e]
  linear_combination hf.bkp k j hk hj

theorem ce_rm (H : MHyp E) {s0 s : Ipm K} (hc : MConst E s0) (hf : MFac E s0 s) :
    RM E s0 (maskResM E { s with core := computeCentering s.core }) (fun k j => (zOf E s0).lam k j * (zOf E s0).t k j - E.qp.m k j
      - sigmaMu s.core) := by
  intro k j hk hj
  have hr : Ready E { s with core := computeCentering s.core } := hc.rdy.keep E (hf.keep.trans (ce_ffr s).keep)
  rw [maskResM_val E hr hk hj]
  have hp : stOff (nct E.qp.dim) k + j < s.core.nc := by rw [hf.keep.core.nc, hc.rdy.nc]; exact stOff_lt hk hj
  have e : (computeCentering s.core).res_m (stOff (nct E.qp.dim) k + j) = s.core.res_m_bkp (stOff (nct E.qp.dim) k + j) - sigmaMu s.core := by
    rw [mce_eq]
    dsimp only
    rw [mix_lt _ _ hp]
  show E.qp.d_mask k j * (computeCentering s.core).res_m _ = _
  rw [e]
  linear_combination hf.bkp k j hk hj

theorem cc_sgm (s : Ipm K) : sgm { s with core := computeCenteringCorrection s.core } = sgm s := by unfold sgm; rw [mcc_eq]
theorem ce_sgm (s : Ipm K) : sgm { s with core := computeCentering s.core } = sgm s := by unfold sgm; rw [mce_eq]

/-- the corrector of one pass -/
theorem corr_ok (H : MHyp E) {s0 s : Ipm K} (hc : MConst E s0) (hu : MCur E s0) (hf : MFac E s0 s) (hs : Sync E s) {fa : ℕ → Vec K}
    (hd : DirOf E s0 fa s) (kk : ℕ) :
    let z := zOf E s0
    let da := stepOf s.kkt
    let muA := muAfter E.qp z da s.core.alpha_prim s.core.alpha_dual
    let tgt := max ((muA / muOf E.qp z) ^ 3 * muOf E.qp z) (E.arg.r .tau_min)
    let s' := corrGen E kk s
    (Keep s0 s' ∧ Sync E s' ∧ StepLen E.sq E.qp E.arg z (stepOf s'.kkt) s'.core.alpha_prim s'.core.alpha_dual) ∧
    ∃ dc aC dC, Dir E.qp (E.arg.r .reg_prim) (proxPt E.arg z) z
        (fun k j => z.lam k j * z.t k j - E.qp.m k j + da.t k j * da.lam k j - tgt) dc ∧
      StepLen E.sq E.qp E.arg z dc aC dC ∧
      (E.arg.i .cond_pred_corr = 1 ∧ muAfter E.qp z dc aC dC > 2 * muA →
        Dir E.qp (E.arg.r .reg_prim) (proxPt E.arg z) z (fun k j => z.lam k j * z.t k j - E.qp.m k j - tgt) (stepOf s'.kkt)) ∧
      (¬ (E.arg.i .cond_pred_corr = 1 ∧ muAfter E.qp z dc aC dC > 2 * muA) → SolEq E.qp.dim (stepOf s'.kkt) dc) := by
  intro z da muA tgt s'
  have hs' : s' = corrGen E kk s := rfl
  clear_value s'
  unfold corrGen at hs'
  extract_lets s1 s2 s3 m0 s4 s5 at hs'
  have f1 : MFac E s0 s1 := hf.fr E (sigma_ffr E kk s)
  have e1k : s1.kkt = s.kkt := by simp only [s1, sigmaStep, putG_kkt]
  have e1c : s1.core = _ := sigmaStep_core E kk s
  have y1 : Sync E s1 := hs.of_eq E (by rw [e1c]; rfl) (by rw [e1c]; rfl) (by rw [e1c]; rfl) (by rw [e1c]; rfl) (by rw [e1k]) (by rw [e1k])
    (by rw [e1k]) (by rw [e1k])
  have hma : (computeMuAff s.core).mu_aff = muA := muAff_val E H hc hu hf.keep hs hd.off
  have hmu : s.core.mu = muOf E.qp z := hf.mu.trans hu.mu
  have htau : s.core.tau_min = E.arg.r .tau_min := hf.keep.core.tau_min.trans hc.tau
  have g1 : sgm s1 = ((muA / muOf E.qp z) ^ 3, muA) := by
    unfold sgm
    rw [e1c]
    show (_, (computeMuAff s.core).mu_aff) = _
    rw [hma, hmu]
    congr 1
    ring
  have sm : ∀ x : Ipm K, MFac E s0 x → sgm x = sgm s1 → sigmaMu x.core = tgt := by
    intro x hx hg
    rw [g1] at hg
    have h1 : x.core.sigma = (muA / muOf E.qp z) ^ 3 := congrArg Prod.fst hg
    rw [sigmaMu_max, h1, hx.mu, hu.mu, hx.keep.core.tau_min, hc.tau]
  have r2 : RM E s0 s2 (fun k j => z.lam k j * z.t k j - E.qp.m k j + da.t k j * da.lam k j - tgt) := by
    intro k j hk hj
    refine (cc_rm E H hc f1 y1 k j hk hj).trans ?_
    rw [sm s1 f1 rfl, e1k]
    rfl
  have f2 : MFac E s0 s2 := (f1.fr E (cc_ffr s1)).fr E (maskResM_ffr E _)
  have g2 : sgm s2 = sgm s1 := (sgm_maskResM E _).trans (cc_sgm s1)
  obtain ⟨f3', y3', d3'⟩ := solve_dir E H hc hu f2 r2
  set s3' := maskStep E (finSub E (solveStep E s2)) with hs3'
  have k3 : s3.kkt = s3'.kkt := alphaStep_kkt' E kk 4 _
  have f3 : MFac E s0 s3 := f3'.fr E (alphaStep_ffr E kk 4 (by omega) _)
  have y3 : Sync E s3 := sync_alpha E kk 4 y3'
  have l3 := alpha_stepLen E hc f3'.keep y3' kk 4
  have l3 : StepLen E.sq E.qp E.arg z (stepOf s3.kkt) s3.core.alpha_prim s3.core.alpha_dual := by rw [k3]; exact l3
  have d3 : Dir E.qp (E.arg.r .reg_prim) (proxPt E.arg z) z
        (fun k j => z.lam k j * z.t k j - E.qp.m k j + da.t k j * da.lam k j - tgt) (stepOf s3.kkt) := by rw [k3]; exact d3'
  have g3 : sgm s3 = sgm s1 := (sgm_alpha E kk 4 _).trans ((sgm_mask E _).trans ((sgm_fin E _).trans ((sgm_solve E s2).trans g2)))
  have hm0 : s3.core.mu_aff = muA := by
    have := congrArg Prod.snd (g3.trans g1)
    exact this
  have hm4 : (computeMuAff s3.core).mu_aff = muAfter E.qp z (stepOf s3.kkt) s3.core.alpha_prim s3.core.alpha_dual :=
    muAff_val E H hc hu f3.keep y3 d3.off
  by_cases h1 : E.arg.i .cond_pred_corr = 1
  · rw [if_pos h1] at hs'
    by_cases h2 : (computeMuAff s3.core).mu_aff > 2 * s3.core.mu_aff
    · have h2' : s4.core.mu_aff > 2 * m0 := h2
      rw [if_pos h2'] at hs'
      have F4 : FFr s3 s4 := ⟨Keep.ofCore (computeMuAff_keep s3.core), rfl, rfl, rfl, rfl, rfl, rfl, rfl, rfl, rfl⟩
      have f4 : MFac E s0 s4 := f3.fr E F4
      have sm4 : sigmaMu s4.core = tgt := by
        have : sigmaMu s4.core = sigmaMu s3.core := rfl
        rw [this, sm s3 f3 g3]
      have r5 : RM E s0 s5 (fun k j => z.lam k j * z.t k j - E.qp.m k j - tgt) := by
        have := ce_rm E H hc f4
        rw [sm4] at this
        exact this
      have f5 : MFac E s0 s5 := (f4.fr E (ce_ffr s4)).fr E (maskResM_ffr E _)
      obtain ⟨f6, y6, d6⟩ := solve_dir E H hc hu f5 r5
      set s6 := maskStep E (finSub E (solveStep E s5)) with hs6
      subst hs'
      have k6 : (alphaStep E kk 4 s6).kkt = s6.kkt := alphaStep_kkt' E kk 4 _
      refine ⟨⟨(f6.fr E (alphaStep_ffr E kk 4 (by omega) _)).keep, sync_alpha E kk 4 y6, ?_⟩, _, _, _, d3, l3, fun _ => ?_, fun hn => ?_⟩
      · rw [k6]; exact alpha_stepLen E hc f6.keep y6 kk 4
      · rw [k6]; exact d6
      · exact absurd ⟨h1, by rw [← hm4, ← hm0]; exact h2⟩ hn
    · have h2' : ¬ s4.core.mu_aff > 2 * m0 := h2
      rw [if_neg h2'] at hs'
      subst hs'
      refine ⟨⟨f3.keep.trans (Keep.ofCore (computeMuAff_keep s3.core)), y3.of_eq E rfl rfl rfl rfl rfl rfl rfl rfl, l3⟩, _, _, _, d3, l3, fun hn => ?_,
        fun _ => SolEq.refl _ _⟩
      rw [← hm4, ← hm0] at hn
      exact absurd hn.2 h2
  · rw [if_neg h1] at hs'
    subst hs'
    exact ⟨⟨f3.keep, y3, l3⟩, _, _, _, d3, l3, fun hn => absurd hn.1 h1, fun _ => SolEq.refl _ _⟩

end
end Hpipm
