/-
What the parts of an interior point iteration leave alone: the iterate and the parameters of the core workspace, the
residuals, the flags, and the QP matrices.
-/
import Verif.Ipm
import Verif.CoreProps
import Verif.IpmCtlProps

namespace Hpipm
set_option linter.unusedSectionVars false

section
variable {K : Type*} [Field K] [LinearOrder K] [IsStrictOrderedRing K]

/-- iterate and parameters of the core workspace are the same -/
structure CKeep (c c' : Core K) : Prop where
  nv : c'.nv = c.nv
  ne : c'.ne = c.ne
  nc : c'.nc = c.nc
  v : c'.v = c.v
  pi : c'.pi = c.pi
  lam : c'.lam = c.lam
  t : c'.t = c.t
  m : c'.m = c.m
  lam_min : c'.lam_min = c.lam_min
  t_min : c'.t_min = c.t_min
  tau_min : c'.tau_min = c.tau_min
  t_lam_min : c'.t_lam_min = c.t_lam_min
  split_step : c'.split_step = c.split_step
  m_zero : c'.m_zero = c.m_zero
  m_safe : c'.m_safe = c.m_safe
  nc_mask_inv : c'.nc_mask_inv = c.nc_mask_inv

theorem CKeep.refl (c : Core K) : CKeep c c := ⟨rfl, rfl, rfl, rfl, rfl, rfl, rfl, rfl, rfl, rfl, rfl, rfl, rfl, rfl, rfl, rfl⟩

theorem CKeep.trans {a b c : Core K} (h : CKeep a b) (h' : CKeep b c) : CKeep a c :=
  ⟨h'.nv.trans h.nv, h'.ne.trans h.ne, h'.nc.trans h.nc, h'.v.trans h.v, h'.pi.trans h.pi, h'.lam.trans h.lam, h'.t.trans h.t,
    h'.m.trans h.m, h'.lam_min.trans h.lam_min, h'.t_min.trans h.t_min, h'.tau_min.trans h.tau_min,
    h'.t_lam_min.trans h.t_lam_min, h'.split_step.trans h.split_step, h'.m_zero.trans h.m_zero, h'.m_safe.trans h.m_safe,
    h'.nc_mask_inv.trans h.nc_mask_inv⟩

theorem CKeep.loop {n : ℕ} {f : ℕ → Core K → Core K} {c : Core K} (h : ∀ i s, CKeep s (f i s)) : CKeep c (loop n f c) :=
  loop_inv (S := Core K) (fun _ s => CKeep c s) n f c (CKeep.refl c) (fun i s _ ih => ih.trans (h i s))

theorem computeGammaGamma_keep (d m : Vec K) (c : Core K) : CKeep c (computeGammaGamma d m c) := by
  unfold computeGammaGamma
  split <;> exact CKeep.loop fun i s => ⟨rfl, rfl, rfl, rfl, rfl, rfl, rfl, rfl, rfl, rfl, rfl, rfl, rfl, rfl, rfl, rfl⟩

theorem computeGGamma_keep (c : Core K) : CKeep c (computeGGamma c) := by
  unfold computeGGamma
  split <;> exact CKeep.loop fun i s => ⟨rfl, rfl, rfl, rfl, rfl, rfl, rfl, rfl, rfl, rfl, rfl, rfl, rfl, rfl, rfl, rfl⟩

theorem computeGamma_keep (d m : Vec K) (c : Core K) : CKeep c (computeGamma d m c) := by
  unfold computeGamma
  exact CKeep.loop fun i s => ⟨rfl, rfl, rfl, rfl, rfl, rfl, rfl, rfl, rfl, rfl, rfl, rfl, rfl, rfl, rfl, rfl⟩

theorem computeAlpha_keep (sq : K → K) (c : Core K) : CKeep c (computeAlpha sq c) := by
  unfold computeAlpha
  extract_lets s
  split <;> exact ⟨rfl, rfl, rfl, rfl, rfl, rfl, rfl, rfl, rfl, rfl, rfl, rfl, rfl, rfl, rfl, rfl⟩

theorem computeMuAff_keep (c : Core K) : CKeep c (computeMuAff c) :=
  ⟨rfl, rfl, rfl, rfl, rfl, rfl, rfl, rfl, rfl, rfl, rfl, rfl, rfl, rfl, rfl, rfl⟩

theorem backupResM_keep (c : Core K) : CKeep c (backupResM c) := by
  unfold backupResM
  exact CKeep.loop fun i s => ⟨rfl, rfl, rfl, rfl, rfl, rfl, rfl, rfl, rfl, rfl, rfl, rfl, rfl, rfl, rfl, rfl⟩

theorem computeTauMin_keep (c : Core K) : CKeep c (computeTauMin c) := by
  unfold computeTauMin
  exact CKeep.loop fun i s => ⟨rfl, rfl, rfl, rfl, rfl, rfl, rfl, rfl, rfl, rfl, rfl, rfl, rfl, rfl, rfl, rfl⟩

theorem computeCentering_keep (c : Core K) : CKeep c (computeCentering c) := by
  unfold computeCentering
  refine CKeep.trans (b := { c with tau_iter := sigmaMu c }) ⟨rfl, rfl, rfl, rfl, rfl, rfl, rfl, rfl, rfl, rfl, rfl, rfl, rfl, rfl, rfl, rfl⟩ ?_
  exact CKeep.loop fun i s => ⟨rfl, rfl, rfl, rfl, rfl, rfl, rfl, rfl, rfl, rfl, rfl, rfl, rfl, rfl, rfl, rfl⟩

theorem computeCenteringCorrection_keep (c : Core K) : CKeep c (computeCenteringCorrection c) := by
  unfold computeCenteringCorrection
  refine CKeep.trans (b := { c with tau_iter := sigmaMu c }) ⟨rfl, rfl, rfl, rfl, rfl, rfl, rfl, rfl, rfl, rfl, rfl, rfl, rfl, rfl, rfl, rfl⟩ ?_
  exact CKeep.loop fun i s => ⟨rfl, rfl, rfl, rfl, rfl, rfl, rfl, rfl, rfl, rfl, rfl, rfl, rfl, rfl, rfl, rfl⟩

/-- the parts of the solver state that an iteration does not touch before the update of the iterate -/
structure Keep (s s' : Ipm K) : Prop where
  core : CKeep s.core s'.core
  res : s'.res = s.res
  rmax : s'.rmax = s.rmax
  rws : s'.rws = s.rws
  mask : s'.mask = s.mask
  oob : s'.oob = s.oob

theorem Keep.refl (s : Ipm K) : Keep s s := ⟨CKeep.refl _, rfl, rfl, rfl, rfl, rfl⟩

theorem Keep.trans {a b c : Ipm K} (h : Keep a b) (h' : Keep b c) : Keep a c :=
  ⟨h.core.trans h'.core, h'.res.trans h.res, h'.rmax.trans h.rmax, h'.rws.trans h.rws, h'.mask.trans h.mask, h'.oob.trans h.oob⟩

/-- a change of the core workspace only -/
theorem Keep.ofCore {s : Ipm K} {c : Core K} (h : CKeep s.core c) : Keep s { s with core := c } := ⟨h, rfl, rfl, rfl, rfl, rfl⟩

variable (E : Env K)

theorem put_oob (i : ℕ) (x : K) (s : Ipm K) (h : (i : ℤ) < 21 * (1 + E.statMax)) : (put E i x s).oob = s.oob := by
  unfold put
  rw [show decide ((i : ℤ) ≥ 21 * (1 + E.statMax)) = false by rw [decide_eq_false_iff_not]; omega, Bool.or_false]

theorem putG_keep (kk col : ℕ) (hc : col < 21) (x : K) (s : Ipm K) : Keep s (putG E kk col x s) := by
  unfold putG
  split
  · rename_i h
    exact ⟨CKeep.refl _, rfl, rfl, rfl, rfl, put_oob E _ _ _ (by push_cast; omega)⟩
  · exact Keep.refl s

theorem putG_kkt (kk col : ℕ) (x : K) (s : Ipm K) : (putG E kk col x s).kkt = s.kkt := by
  unfold putG; split <;> rfl
theorem putG_core (kk col : ℕ) (x : K) (s : Ipm K) : (putG E kk col x s).core = s.core := by
  unfold putG; split <;> rfl
theorem putG_resIt (kk col : ℕ) (x : K) (s : Ipm K) : (putG E kk col x s).resIt = s.resIt := by
  unfold putG; split <;> rfl
theorem putG_itr (kk col : ℕ) (x : K) (s : Ipm K) : (putG E kk col x s).itr = s.itr := by
  unfold putG; split <;> rfl
theorem putG_res (kk col : ℕ) (x : K) (s : Ipm K) : (putG E kk col x s).res = s.res := by
  unfold putG; split <;> rfl
theorem putG_rmax (kk col : ℕ) (x : K) (s : Ipm K) : (putG E kk col x s).rmax = s.rmax := by
  unfold putG; split <;> rfl
theorem putG_rws (kk col : ℕ) (x : K) (s : Ipm K) : (putG E kk col x s).rws = s.rws := by
  unfold putG; split <;> rfl
theorem putG_mask (kk col : ℕ) (x : K) (s : Ipm K) : (putG E kk col x s).mask = s.mask := by
  unfold putG; split <;> rfl

theorem putG4_keep (kk col : ℕ) (hc : col + 3 < 21) (x : K × K × K × K) (s : Ipm K) : Keep s (putG4 E kk col x s) := by
  unfold putG4
  exact (((putG_keep E kk col (by omega) _ _).trans (putG_keep E kk _ (by omega) _ _)).trans (putG_keep E kk _ (by omega) _ _)).trans
    (putG_keep E kk _ (by omega) _ _)

theorem putG4_kkt (kk col : ℕ) (x : K × K × K × K) (s : Ipm K) : (putG4 E kk col x s).kkt = s.kkt := by
  unfold putG4; simp only [putG_kkt]
theorem putG4_core (kk col : ℕ) (x : K × K × K × K) (s : Ipm K) : (putG4 E kk col x s).core = s.core := by
  unfold putG4; simp only [putG_core]
theorem putG4_resIt (kk col : ℕ) (x : K × K × K × K) (s : Ipm K) : (putG4 E kk col x s).resIt = s.resIt := by
  unfold putG4; simp only [putG_resIt]
theorem putG4_itr (kk col : ℕ) (x : K × K × K × K) (s : Ipm K) : (putG4 E kk col x s).itr = s.itr := by
  unfold putG4; simp only [putG_itr]

theorem maskResM_keep (s : Ipm K) : Keep s (maskResM E s) := by
  unfold maskResM
  split
  · exact ⟨⟨rfl, rfl, rfl, rfl, rfl, rfl, rfl, rfl, rfl, rfl, rfl, rfl, rfl, rfl, rfl, rfl⟩, rfl, rfl, rfl, rfl, rfl⟩
  · exact Keep.refl s

theorem maskStep_keep (s : Ipm K) : Keep s (maskStep E s) := by
  unfold maskStep
  split
  · exact ⟨⟨rfl, rfl, rfl, rfl, rfl, rfl, rfl, rfl, rfl, rfl, rfl, rfl, rfl, rfl, rfl, rfl⟩, rfl, rfl, rfl, rfl, rfl⟩
  · exact Keep.refl s

theorem syncStep_keep (D : QpDim) (s : Ipm K) : Keep s (syncStep D s) :=
  ⟨⟨rfl, rfl, rfl, rfl, rfl, rfl, rfl, rfl, rfl, rfl, rfl, rfl, rfl, rfl, rfl, rfl⟩, rfl, rfl, rfl, rfl, rfl⟩

theorem syncBack_keep (D : QpDim) (s : Ipm K) : Keep s (syncBack D s) :=
  ⟨⟨rfl, rfl, rfl, rfl, rfl, rfl, rfl, rfl, rfl, rfl, rfl, rfl, rfl, rfl, rfl, rfl⟩, rfl, rfl, rfl, rfl, rfl⟩

theorem factSolveKktStep_keep (sq : K → K) (fuel : ℕ) (qp : OcpQp K) (dual sqr : Bool) (reg pl : K) (c : Core K) (st : KktSt K)
    (o : KktOut K) (h : factSolveKktStep sq fuel qp dual sqr reg pl c st = some o) :
    o.core = computeGammaGamma (stFlat (nct qp.dim) qp.d (qp.dim.N + 1)) (stFlat (nct qp.dim) qp.m (qp.dim.N + 1)) c := by
  unfold factSolveKktStep at h
  simp only at h
  split at h
  · cases h
  · cases h; rfl

theorem qpStep_dim (s : Ipm K) : (qpStep E s).dim = E.qp.dim := by unfold qpStep qpNow; split <;> rfl

theorem factStep_keep (s s' : Ipm K) (h : factStep E s = some s') : Keep s s' := by
  unfold factStep at h
  obtain ⟨o, ho, rfl⟩ := Option.map_eq_some_iff.mp h
  have hk := factSolveKktStep_keep _ _ _ _ _ _ _ _ _ _ ho
  refine Keep.trans ?_ (syncStep_keep _ _)
  refine ⟨?_, rfl, rfl, rfl, rfl, rfl⟩
  show CKeep s.core o.core
  rw [hk]; exact computeGammaGamma_keep _ _ _

theorem lqStep_keep (s s' : Ipm K) (h : lqStep E s = some s') : Keep s s' := by
  unfold lqStep at h
  simp only at h
  obtain ⟨o, ho, rfl⟩ := Option.map_eq_some_iff.mp h
  refine Keep.trans ?_ (syncStep_keep _ _)
  exact ⟨computeGammaGamma_keep _ _ _, rfl, rfl, rfl, rfl, rfl⟩

theorem solveKktStep_core (qp : OcpQp K) (dual sqr useP : Bool) (c : Core K) (st : KktSt K) :
    (solveKktStep qp dual sqr useP c st).1 =
      computeGamma (stFlat (nct qp.dim) qp.d (qp.dim.N + 1)) (stFlat (nct qp.dim) qp.m (qp.dim.N + 1)) c := rfl

theorem solveStep_keep (s : Ipm K) : Keep s (solveStep E s) := by
  unfold solveStep
  refine Keep.trans ?_ (syncStep_keep _ _)
  refine ⟨?_, rfl, rfl, rfl, rfl, rfl⟩
  show CKeep s.core _
  rw [solveKktStep_core]; exact computeGamma_keep _ _ _

theorem solveItref_keep (s : Ipm K) : Keep s (solveItref E s) := by
  unfold solveItref
  refine ⟨?_, rfl, rfl, rfl, rfl, rfl⟩
  exact computeGamma_keep _ _ s.core

theorem linRes_keep (s : Ipm K) : Keep s (linRes E s).1 := ⟨CKeep.refl _, rfl, rfl, rfl, rfl, rfl⟩

theorem addItref_keep (a : K) (s : Ipm K) : Keep s (addItref E a s) := by
  unfold addItref
  extract_lets D ux pi lam t
  exact ⟨⟨rfl, rfl, rfl, rfl, rfl, rfl, rfl, rfl, rfl, rfl, rfl, rfl, rfl, rfl, rfl, rfl⟩, rfl, rfl, rfl, rfl, rfl⟩

theorem itrefLoop_keep (kk : ℕ) (sh : Bool) : ∀ (n cnt : ℕ) (did : Bool) (x : K × K × K × K) (mx : K) (s : Ipm K),
    Keep s (itrefLoop E kk sh n cnt did x mx s).s := by
  intro n
  induction n with
  | zero => intro cnt did x mx s; exact Keep.refl s
  | succ n ih =>
    intro cnt did x mx s
    unfold itrefLoop
    split
    · exact Keep.refl s
    · extract_lets s1 r s2 mx'
      have h1 : Keep s s1 := ((solveItref_keep E s).trans (maskStep_keep E _)).trans (addItref_keep E 1 _)
      have h2 : Keep s s2 := (h1.trans (linRes_keep E s1)).trans (putG4_keep E kk 16 (by omega) _ _)
      split
      · exact (h2.trans (addItref_keep E (-1) _)).trans (putG4_keep E kk 16 (by omega) _ _)
      · exact h2.trans (ih _ _ _ _ _)

theorem itref_keep (kk : ℕ) (sh : Bool) (mx : ℤ) (s : Ipm K) : Keep s (itref E kk sh mx s).s := by
  unfold itref
  exact ((linRes_keep E s).trans (putG4_keep E kk 16 (by omega) _ _)).trans (itrefLoop_keep E kk sh _ _ _ _ _ _)

theorem alphaStep_keep (kk col : ℕ) (hc : col + 1 < 21) (s : Ipm K) : Keep s (alphaStep E kk col s) := by
  unfold alphaStep
  exact ((Keep.ofCore (computeAlpha_keep E.sq s.core)).trans (putG_keep E kk _ (by omega) _ _)).trans (putG_keep E kk _ (by omega) _ _)

theorem affineRhs_keep (s : Ipm K) : Keep s (affineRhs E s) := by
  unfold affineRhs
  exact (Keep.ofCore ((backupResM_keep _).trans (computeTauMin_keep _))).trans (maskResM_keep E _)

theorem factPhase_keep (kk : ℕ) (s s' : Ipm K) (h : factPhase E kk s = some s') : Keep s s' := by
  unfold factPhase at h
  split at h
  · obtain ⟨o, ho, rfl⟩ := Option.map_eq_some_iff.mp h
    exact ((factStep_keep E s o ho).trans (maskStep_keep E _)).trans (putG_keep E kk 13 (by omega) _ _)
  · split at h
    · obtain ⟨o, ho, h⟩ := Option.bind_eq_some_iff.mp h
      simp only at h
      have h1 : Keep s (putG E kk 13 (if (linRes E (maskStep E o)).1.lastLq then 1 else 0) (linRes E (maskStep E o)).1) :=
        (((factStep_keep E s o ho).trans (maskStep_keep E _)).trans (linRes_keep E _)).trans (putG_keep E kk 13 (by omega) _ _)
      split at h
      · obtain ⟨o', ho', rfl⟩ := Option.map_eq_some_iff.mp h
        exact ((h1.trans (lqStep_keep E _ o' ho')).trans (maskStep_keep E _)).trans (putG_keep E kk 13 (by omega) _ _)
      · cases h; exact h1
    · obtain ⟨o, ho, rfl⟩ := Option.map_eq_some_iff.mp h
      exact ((lqStep_keep E s o ho).trans (maskStep_keep E _)).trans (putG_keep E kk 13 (by omega) _ _)

theorem predPhase_keep (kk : ℕ) (s : Ipm K) : Keep s (predPhase E kk s) := by
  unfold predPhase
  extract_lets o
  have h : Keep s o.s := by
    simp only [o]
    split
    · exact putG4_keep E kk 16 (by omega) _ _
    · exact itref_keep E kk _ _ _
  exact ((h.trans (putG_keep E kk 14 (by omega) _ _)).trans (putG_keep E kk 20 (by omega) _ _)).trans (alphaStep_keep E kk 0 (by omega) _)

theorem sigmaStep_keep (kk : ℕ) (s : Ipm K) : Keep s (sigmaStep E kk s) := by
  unfold sigmaStep
  extract_lets s1 s2 tmp c3 s3
  have h1 : Keep s s1 := Keep.ofCore (computeMuAff_keep _)
  have h2 : Keep s1 s2 := putG_keep E kk 2 (by omega) _ _
  have h3 : Keep s2 s3 := Keep.ofCore ⟨rfl, rfl, rfl, rfl, rfl, rfl, rfl, rfl, rfl, rfl, rfl, rfl, rfl, rfl, rfl, rfl⟩
  exact ((h1.trans h2).trans h3).trans (putG_keep E kk 3 (by omega) _ _)

theorem corrPhase_keep (kk : ℕ) (s : Ipm K) : Keep s (corrPhase E kk s) := by
  unfold corrPhase
  extract_lets s1 s2 s3 mu0 s4 s5
  have h3 : Keep s s3 :=
    (((((sigmaStep_keep E kk s).trans (Keep.ofCore (computeCenteringCorrection_keep _))).trans (maskResM_keep E _)).trans
      (solveStep_keep E _)).trans (maskStep_keep E _)).trans (alphaStep_keep E kk 4 (by omega) _)
  have h4 : Keep s s4 := h3.trans (Keep.ofCore (computeMuAff_keep _))
  have h5 : Keep s s5 := (h4.trans (Keep.ofCore (computeCentering_keep _))).trans (maskResM_keep E _)
  split
  · split
    · exact ((h5.trans (solveStep_keep E _)).trans (maskStep_keep E _)).trans (alphaStep_keep E kk 4 (by omega) _)
    · exact h4
  · exact h3

theorem corrItref_keep (kk : ℕ) (s : Ipm K) : Keep s (corrItref E kk s).s := by
  unfold corrItref
  split
  · extract_lets o
    have h : Keep s o.s := itref_keep E kk _ _ _
    split
    · exact h.trans (alphaStep_keep E kk 4 (by omega) _)
    · exact h
  · exact Keep.refl s

/-- a step of the relative formulation is an update of the iterate along some step, everything else kept -/
theorem deltaStep_upd (kk : ℕ) (s s' : Ipm K) (h : deltaStep E kk s = some s') :
    ∃ s1, Keep s s1 ∧ s' = updStep E s1 := by
  unfold deltaStep at h
  obtain ⟨s0, h0, rfl⟩ := Option.map_eq_some_iff.mp h
  have k0 : Keep s s0 := (affineRhs_keep E s).trans (factPhase_keep E kk _ _ h0)
  refine ⟨_, ?_, rfl⟩
  refine Keep.trans ?_ (putG_keep E kk 15 (by omega) _ _)
  have k1 : Keep s (predPhase E kk s0) := k0.trans (predPhase_keep E kk s0)
  have k2 : Keep s (if E.arg.i .pred_corr = 1 then corrItref E kk (corrPhase E kk (predPhase E kk s0)) else ⟨predPhase E kk s0, 0, false⟩ : ItOut K).s := by
    split
    · exact (k1.trans (corrPhase_keep E kk _)).trans (corrItref_keep E kk _)
    · exact k1
  split
  · exact k2.trans (putG4_keep E kk 16 (by omega) _ _)
  · exact k2

theorem subSol_keep (s : Ipm K) : Keep s (subSol E s) := by
  unfold subSol
  exact ⟨⟨rfl, rfl, rfl, rfl, rfl, rfl, rfl, rfl, rfl, rfl, rfl, rfl, rfl, rfl, rfl, rfl⟩, rfl, rfl, rfl, rfl, rfl⟩

theorem absCorr_keep (kk : ℕ) (s : Ipm K) : Keep s (absCorr E kk s) := by
  unfold absCorr
  extract_lets s1 s2 s3 mu0 s4 s5
  have h3 : Keep s s3 :=
    ((((((sigmaStep_keep E kk s).trans (Keep.ofCore (computeCenteringCorrection_keep _))).trans (maskResM_keep E _)).trans
      (solveStep_keep E _)).trans (subSol_keep E _)).trans (maskStep_keep E _)).trans (alphaStep_keep E kk 4 (by omega) _)
  have h4 : Keep s s4 := h3.trans (Keep.ofCore (computeMuAff_keep _))
  have h5 : Keep s s5 := (h4.trans (Keep.ofCore (computeCentering_keep _))).trans (maskResM_keep E _)
  split
  · split
    · exact (((h5.trans (solveStep_keep E _)).trans (subSol_keep E _)).trans (maskStep_keep E _)).trans (alphaStep_keep E kk 4 (by omega) _)
    · exact h4
  · exact h3

theorem absStep_upd (kk : ℕ) (s s' : Ipm K) (h : absStep E kk s = some s') :
    ∃ s1, Keep s s1 ∧ s' = updStep E s1 := by
  unfold absStep at h
  simp only at h
  obtain ⟨s0, h0, rfl⟩ := Option.map_eq_some_iff.mp h
  refine ⟨_, ?_, rfl⟩
  have k0 : Keep s s0 := by
    refine Keep.trans ?_ ((affineRhs_keep E _).trans (factStep_keep E _ _ h0))
    exact Keep.ofCore ⟨rfl, rfl, rfl, rfl, rfl, rfl, rfl, rfl, rfl, rfl, rfl, rfl, rfl, rfl, rfl, rfl⟩
  have k1 := ((((k0.trans (subSol_keep E _)).trans (maskStep_keep E _)).trans (putG_keep E kk 20 (by omega) (if (maskStep E (subSol E s0)).npd then 1 else 0) _)).trans
    (alphaStep_keep E kk 0 (by omega) _))
  split
  · exact k1.trans (absCorr_keep E kk _)
  · exact k1

end
end Hpipm
