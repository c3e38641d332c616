/-
What the parts of an iteration of the dense interior point solver leave alone: the iterate and the parameters of the core
workspace, the residuals, the flags, and the QP data.
-/
import Verif.DenseIpm
import Verif.IpmFrame

namespace Hpipm
set_option linter.unusedSectionVars false

section
variable {K : Type*} [Field K] [LinearOrder K] [IsStrictOrderedRing K]

/-- the parts of the solver state that an iteration does not touch before the update of the iterate -/
structure DKeep (s s' : DIpm K) : Prop where
  core : CKeep s.core s'.core
  res : s'.res = s.res
  rmax : s'.rmax = s.rmax
  rws : s'.rws = s.rws
  mask : s'.mask = s.mask
  oob : s'.oob = s.oob
  Hv : s'.Hv = s.Hv

theorem DKeep.refl (s : DIpm K) : DKeep s s := ⟨CKeep.refl _, rfl, rfl, rfl, rfl, rfl, rfl⟩

theorem DKeep.trans {a b c : DIpm K} (h : DKeep a b) (h' : DKeep b c) : DKeep a c :=
  ⟨h.core.trans h'.core, h'.res.trans h.res, h'.rmax.trans h.rmax, h'.rws.trans h.rws, h'.mask.trans h.mask, h'.oob.trans h.oob, h'.Hv.trans h.Hv⟩

/-- a change of the core workspace only -/
theorem DKeep.ofCore {s : DIpm K} {c : Core K} (h : CKeep s.core c) : DKeep s { s with core := c } := ⟨h, rfl, rfl, rfl, rfl, rfl, rfl⟩

variable (E : DEnv K)

theorem dput_oob (i : ℕ) (x : K) (s : DIpm K) (h : (i : ℤ) < 21 * (1 + E.statMax)) : (dput E i x s).oob = s.oob := by
  unfold dput
  rw [show decide ((i : ℤ) ≥ 21 * (1 + E.statMax)) = false by rw [decide_eq_false_iff_not]; omega, Bool.or_false]

theorem dputG_keep (kk col : ℕ) (hc : col < 21) (x : K) (s : DIpm K) : DKeep s (dputG E kk col x s) := by
  unfold dputG
  split
  · rename_i h
    exact ⟨CKeep.refl _, rfl, rfl, rfl, rfl, dput_oob E _ _ _ (by push_cast; omega), rfl⟩
  · exact DKeep.refl s

theorem dputG_kkt (kk col : ℕ) (x : K) (s : DIpm K) : (dputG E kk col x s).kkt = s.kkt := by
  unfold dputG; split <;> rfl
theorem dputG_core (kk col : ℕ) (x : K) (s : DIpm K) : (dputG E kk col x s).core = s.core := by
  unfold dputG; split <;> rfl
theorem dputG_resIt (kk col : ℕ) (x : K) (s : DIpm K) : (dputG E kk col x s).resIt = s.resIt := by
  unfold dputG; split <;> rfl
theorem dputG_itr (kk col : ℕ) (x : K) (s : DIpm K) : (dputG E kk col x s).itr = s.itr := by
  unfold dputG; split <;> rfl
theorem dputG_res (kk col : ℕ) (x : K) (s : DIpm K) : (dputG E kk col x s).res = s.res := by
  unfold dputG; split <;> rfl
theorem dputG_rmax (kk col : ℕ) (x : K) (s : DIpm K) : (dputG E kk col x s).rmax = s.rmax := by
  unfold dputG; split <;> rfl
theorem dputG_rws (kk col : ℕ) (x : K) (s : DIpm K) : (dputG E kk col x s).rws = s.rws := by
  unfold dputG; split <;> rfl
theorem dputG_mask (kk col : ℕ) (x : K) (s : DIpm K) : (dputG E kk col x s).mask = s.mask := by
  unfold dputG; split <;> rfl

theorem dputG4_keep (kk col : ℕ) (hc : col + 3 < 21) (x : K × K × K × K) (s : DIpm K) : DKeep s (dputG4 E kk col x s) := by
  unfold dputG4
  exact (((dputG_keep E kk col (by omega) _ _).trans (dputG_keep E kk _ (by omega) _ _)).trans (dputG_keep E kk _ (by omega) _ _)).trans
    (dputG_keep E kk _ (by omega) _ _)

theorem dputG4_kkt (kk col : ℕ) (x : K × K × K × K) (s : DIpm K) : (dputG4 E kk col x s).kkt = s.kkt := by
  unfold dputG4; simp only [dputG_kkt]
theorem dputG4_core (kk col : ℕ) (x : K × K × K × K) (s : DIpm K) : (dputG4 E kk col x s).core = s.core := by
  unfold dputG4; simp only [dputG_core]
theorem dputG4_resIt (kk col : ℕ) (x : K × K × K × K) (s : DIpm K) : (dputG4 E kk col x s).resIt = s.resIt := by
  unfold dputG4; simp only [dputG_resIt]
theorem dputG4_itr (kk col : ℕ) (x : K × K × K × K) (s : DIpm K) : (dputG4 E kk col x s).itr = s.itr := by
  unfold dputG4; simp only [dputG_itr]

theorem dmaskResM_keep (s : DIpm K) : DKeep s (dmaskResM E s) := by
  unfold dmaskResM
  split
  · exact ⟨⟨rfl, rfl, rfl, rfl, rfl, rfl, rfl, rfl, rfl, rfl, rfl, rfl, rfl, rfl, rfl, rfl⟩, rfl, rfl, rfl, rfl, rfl, rfl⟩
  · exact DKeep.refl s

theorem dsyncStep_keep (s : DIpm K) : DKeep s (dsyncStep s) :=
  ⟨⟨rfl, rfl, rfl, rfl, rfl, rfl, rfl, rfl, rfl, rfl, rfl, rfl, rfl, rfl, rfl, rfl⟩, rfl, rfl, rfl, rfl, rfl, rfl⟩

theorem dsetStep_keep (x : DqSol K) (s : DIpm K) : DKeep s (dsetStep x s) :=
  ⟨⟨rfl, rfl, rfl, rfl, rfl, rfl, rfl, rfl, rfl, rfl, rfl, rfl, rfl, rfl, rfl, rfl⟩, rfl, rfl, rfl, rfl, rfl, rfl⟩

theorem dmaskStep_keep (s : DIpm K) : DKeep s (dmaskStep E s) := by
  unfold dmaskStep
  split
  · exact dsetStep_keep _ s
  · exact DKeep.refl s

theorem dmaskItr_keep (s : DIpm K) : DKeep s (dmaskItr E s) := by
  unfold dmaskItr
  split
  · exact ⟨CKeep.refl _, rfl, rfl, rfl, rfl, rfl, rfl⟩
  · exact DKeep.refl s

theorem dfactSolve_core (sq : K → K) (lq : ℕ → ℕ → Mat K → Mat K × Mat K) (fuel : ℕ) (qp : DenseQp K) (arg : DArg K) (pl dl : K)
    (c : Core K) (st : DKkt K) (o : DKktOut K) (h : dfactSolve sq lq fuel qp arg pl dl c st = some o) :
    o.core = if qp.dim.nb + qp.dim.ng + qp.dim.ns > 0 then computeGammaGamma qp.d qp.m c else c := by
  unfold dfactSolve at h
  simp only at h
  split at h
  · cases h
  · cases h; rfl

theorem dqpStep_dim (s : DIpm K) : (dqpStep E s).dim = E.qp.dim := by unfold dqpStep dqpNow; split <;> rfl

theorem dfactStep_keep (s s' : DIpm K) (h : dfactStep E s = some s') : DKeep s s' := by
  unfold dfactStep at h
  obtain ⟨o, ho, rfl⟩ := Option.map_eq_some_iff.mp h
  have hk := dfactSolve_core _ _ _ _ _ _ _ _ _ _ ho
  refine DKeep.trans ?_ (dsyncStep_keep _)
  refine ⟨?_, rfl, rfl, rfl, rfl, rfl, rfl⟩
  show CKeep s.core o.core
  rw [hk]
  split
  · exact computeGammaGamma_keep _ _ _
  · exact CKeep.refl _

theorem dlqStep_keep (s : DIpm K) : DKeep s (dlqStep E s) := by
  unfold dlqStep
  extract_lets q c o
  refine DKeep.trans ?_ (dsyncStep_keep _)
  refine ⟨?_, rfl, rfl, rfl, rfl, rfl, rfl⟩
  show CKeep s.core c
  simp only [c]
  split
  · exact computeGammaGamma_keep _ _ _
  · exact CKeep.refl _

theorem dsolveKkt_keep (qp : DenseQp K) (alg : ℕ) (scale : Bool) (c : Core K) (st : DKkt K) :
    CKeep c (dsolveKkt qp alg scale c st).1 := by
  unfold dsolveKkt
  dsimp only
  split
  · exact computeGamma_keep _ _ _
  · exact CKeep.refl _

theorem dsolveStep_keep (s : DIpm K) : DKeep s (dsolveStep E s) := by
  unfold dsolveStep
  refine DKeep.trans ?_ (dsyncStep_keep _)
  exact ⟨dsolveKkt_keep (dqpStep E s) E.arg.kkt_fact_alg s.wscale s.core s.kkt, rfl, rfl, rfl, rfl, rfl, rfl⟩

theorem dsolveItref_keep (s : DIpm K) : DKeep s (dsolveItref E s) := by
  unfold dsolveItref
  exact ⟨dsolveKkt_keep (dqpItref E s) E.arg.kkt_fact_alg s.wscale s.core
    { s.kkt with
      v := s.itr.v
      pi := s.itr.pi
      lam := s.itr.lam
      t := s.itr.t }, rfl, rfl, rfl, rfl, rfl, rfl⟩

theorem dlinRes_keep (s : DIpm K) : DKeep s (dlinRes E s).1 := ⟨CKeep.refl _, rfl, rfl, rfl, rfl, rfl, rfl⟩

theorem daddItref_keep (a : K) (s : DIpm K) : DKeep s (daddItref E a s) := dsetStep_keep _ s

theorem ditrefLoop_keep (kk : ℕ) : ∀ (n cnt : ℕ) (did : Bool) (x : K × K × K × K) (mx : K) (s : DIpm K),
    DKeep s (ditrefLoop E kk n cnt did x mx s).s := by
  intro n
  induction n with
  | zero => intro cnt did x mx s; exact DKeep.refl s
  | succ n ih =>
    intro cnt did x mx s
    unfold ditrefLoop
    split
    · exact DKeep.refl s
    · extract_lets s1 r s2 mx'
      have h1 : DKeep s s1 := ((dsolveItref_keep E s).trans (dmaskItr_keep E _)).trans (daddItref_keep E 1 _)
      have h2 : DKeep s s2 := (h1.trans (dlinRes_keep E s1)).trans (dputG4_keep E kk 16 (by omega) _ _)
      split
      · exact (h2.trans (daddItref_keep E (-1) _)).trans (dputG4_keep E kk 16 (by omega) _ _)
      · exact h2.trans (ih _ _ _ _ _)

theorem ditref_keep (kk : ℕ) (mx : ℤ) (s : DIpm K) : DKeep s (ditref E kk mx s).s := by
  unfold ditref
  exact ((dlinRes_keep E s).trans (dputG4_keep E kk 16 (by omega) _ _)).trans (ditrefLoop_keep E kk _ _ _ _ _ _)

theorem dputAlpha_keep (kk col : ℕ) (hc : col + 1 < 21) (s : DIpm K) : DKeep s (dputAlpha E kk col s) := by
  unfold dputAlpha
  exact (dputG_keep E kk _ (by omega) _ _).trans (dputG_keep E kk _ (by omega) _ _)

theorem dalphaStep_keep (kk col : ℕ) (hc : col + 1 < 21) (s : DIpm K) : DKeep s (dalphaStep E kk col s) := by
  unfold dalphaStep
  exact (DKeep.ofCore (computeAlpha_keep E.sq s.core)).trans (dputAlpha_keep E kk col hc _)

theorem daffineRhs_keep (s : DIpm K) : DKeep s (daffineRhs E s) := by
  unfold daffineRhs
  exact (DKeep.ofCore ((backupResM_keep _).trans (computeTauMin_keep _))).trans (dmaskResM_keep E _)

theorem dfactPhase_keep (kk : ℕ) (s s' : DIpm K) (h : dfactPhase E kk s = some s') : DKeep s s' := by
  unfold dfactPhase at h
  split at h
  · obtain ⟨o, ho, rfl⟩ := Option.map_eq_some_iff.mp h
    exact ((dfactStep_keep E s o ho).trans (dmaskStep_keep E _)).trans (dputG_keep E kk 13 (by omega) _ _)
  · split at h
    · obtain ⟨o, ho, rfl⟩ := Option.map_eq_some_iff.mp h
      simp only
      have h1 : DKeep s (dputG E kk 13 (if (dlinRes E (dmaskStep E o)).1.lastLq then 1 else 0) (dlinRes E (dmaskStep E o)).1) :=
        (((dfactStep_keep E s o ho).trans (dmaskStep_keep E _)).trans (dlinRes_keep E _)).trans (dputG_keep E kk 13 (by omega) _ _)
      split
      · exact ((h1.trans (dlqStep_keep E _)).trans (dmaskStep_keep E _)).trans (dputG_keep E kk 13 (by omega) _ _)
      · exact h1
    · simp only [Option.some.injEq] at h
      subst h
      exact ((dlqStep_keep E s).trans (dmaskStep_keep E _)).trans (dputG_keep E kk 13 (by omega) _ _)

theorem dpredPhase_keep (kk : ℕ) (s : DIpm K) : DKeep s (dpredPhase E kk s) := by
  unfold dpredPhase
  extract_lets o
  have h : DKeep s o.s := by
    simp only [o]
    split
    · exact dputG4_keep E kk 16 (by omega) _ _
    · exact ditref_keep E kk _ _
  exact ((h.trans (dputG_keep E kk 14 (by omega) _ _)).trans (dputG_keep E kk 20 (by omega) _ _)).trans (dalphaStep_keep E kk 0 (by omega) _)

theorem dsigmaStep_keep (kk : ℕ) (s : DIpm K) : DKeep s (dsigmaStep E kk s) := by
  unfold dsigmaStep
  extract_lets s1 s2 tmp c3 s3
  have h1 : DKeep s s1 := DKeep.ofCore (computeMuAff_keep _)
  have h2 : DKeep s1 s2 := dputG_keep E kk 2 (by omega) _ _
  have h3 : DKeep s2 s3 := DKeep.ofCore ⟨rfl, rfl, rfl, rfl, rfl, rfl, rfl, rfl, rfl, rfl, rfl, rfl, rfl, rfl, rfl, rfl⟩
  exact ((h1.trans h2).trans h3).trans (dputG_keep E kk 3 (by omega) _ _)

theorem dsubSol_keep (b : Bool) (s : DIpm K) : DKeep s (dsubSol b s) := by
  unfold dsubSol
  split
  · exact dsetStep_keep _ s
  · exact DKeep.refl s

theorem dsolvePhase_keep (b : Bool) (kk : ℕ) (s : DIpm K) : DKeep s (dsolvePhase E b kk s) := by
  unfold dsolvePhase
  exact ((((dmaskResM_keep E s).trans (dsolveStep_keep E _)).trans (dsubSol_keep b _)).trans (dmaskStep_keep E _)).trans
    (dalphaStep_keep E kk 4 (by omega) _)

theorem dcorrPhase_keep (b : Bool) (kk : ℕ) (s : DIpm K) : DKeep s (dcorrPhase E b kk s) := by
  unfold dcorrPhase
  extract_lets s1 s2 mu0 s3
  have h2 : DKeep s s2 :=
    ((dsigmaStep_keep E kk s).trans (DKeep.ofCore (computeCenteringCorrection_keep _))).trans (dsolvePhase_keep E b kk _)
  have h3 : DKeep s s3 := h2.trans (DKeep.ofCore (computeMuAff_keep _))
  split
  · split
    · exact (h3.trans (DKeep.ofCore (computeCentering_keep _))).trans (dsolvePhase_keep E b kk _)
    · exact h3
  · exact h2

theorem dcorrItref_keep (kk : ℕ) (s : DIpm K) : DKeep s (dcorrItref E kk s).s := by
  unfold dcorrItref
  split
  · extract_lets o
    have h : DKeep s o.s := ditref_keep E kk _ _
    split
    · exact h.trans (dalphaStep_keep E kk 4 (by omega) _)
    · exact h
  · exact DKeep.refl s

/-- a step of the relative formulation is an update of the iterate along some step, everything else kept -/
theorem ddeltaStep_upd (kk : ℕ) (s s' : DIpm K) (h : ddeltaStep E kk s = some s') :
    ∃ s1, DKeep s s1 ∧ s' = dupdStep E s1 := by
  unfold ddeltaStep at h
  obtain ⟨s0, h0, rfl⟩ := Option.map_eq_some_iff.mp h
  have kw : DKeep s { s with wscale := E.arg.scale } := ⟨CKeep.refl _, rfl, rfl, rfl, rfl, rfl, rfl⟩
  have k0 : DKeep s s0 := kw.trans ((daffineRhs_keep E _).trans (dfactPhase_keep E kk _ _ h0))
  refine ⟨_, ?_, rfl⟩
  refine DKeep.trans ?_ (dputAlpha_keep E kk 4 (by omega) _)
  refine DKeep.trans ?_ (dputG_keep E kk 15 (by omega) _ _)
  have k1 : DKeep s (dpredPhase E kk s0) := k0.trans (dpredPhase_keep E kk s0)
  have k2 : DKeep s (if E.arg.i .pred_corr = 1 then dcorrItref E kk (dcorrPhase E false kk (dpredPhase E kk s0)) else ⟨dpredPhase E kk s0, 0, false⟩ : DItOut K).s := by
    split
    · exact (k1.trans (dcorrPhase_keep E false kk _)).trans (dcorrItref_keep E kk _)
    · exact k1
  split
  · exact k2.trans (dputG4_keep E kk 16 (by omega) _ _)
  · exact k2

/-- a step of the absolute formulation is an update of the iterate along some step, everything else kept -/
theorem dabsStep_upd (kk : ℕ) (s s' : DIpm K) (h : dabsStep E kk s = some s') :
    ∃ s1, DKeep s s1 ∧ s' = dupdStep E s1 := by
  unfold dabsStep at h
  simp only at h
  obtain ⟨s0, h0, rfl⟩ := Option.map_eq_some_iff.mp h
  refine ⟨_, ?_, rfl⟩
  have k0 : DKeep s s0 := by
    refine DKeep.trans ?_ ((daffineRhs_keep E _).trans (dfactStep_keep E _ _ h0))
    exact DKeep.ofCore ⟨rfl, rfl, rfl, rfl, rfl, rfl, rfl, rfl, rfl, rfl, rfl, rfl, rfl, rfl, rfl, rfl⟩
  have k1 := ((((k0.trans (dsubSol_keep true _)).trans (dmaskStep_keep E _)).trans (dputG_keep E kk 20 (by omega) (if (dmaskStep E (dsubSol true s0)).npd then 1 else 0) _)).trans
    (dalphaStep_keep E kk 0 (by omega) _))
  split
  · exact k1.trans (dcorrPhase_keep E true kk _)
  · exact k1

end
end Hpipm
