/-
C73 (termination): on convex problems the dense solver returns, whatever the guess and the previous contents of the workspace.
-/
import Verif.DenseIpmPos
import Verif.DenseKktConv

namespace Hpipm
open Finset
set_option linter.unusedSectionVars false

section
variable {K : Type*} [Field K] [LinearOrder K] [IsStrictOrderedRing K]

theorem DSame.refl (s : DKkt K) : DSame s s := ⟨rfl, rfl, rfl, rfl, rfl, rfl, rfl, rfl, rfl, rfl, rfl, rfl⟩

theorem dRhs_same (qp : DenseQp K) (G g : Vec K) (st : DKkt K) : DSame st (dRhs qp G g st) := by
  unfold dRhs
  dsimp only
  by_cases h1 : qp.dim.ns > 0 <;> by_cases h2 : qp.dim.nb > 0 <;> by_cases h3 : qp.dim.ng > 0 <;>
  by_cases h4 : qp.dim.nb + qp.dim.ng > 0 <;>
  simp only [h1, h2, h3, h4, if_true, if_false] <;> exact ⟨rfl, rfl, rfl, rfl, rfl, rfl, rfl, rfl, rfl, rfl, rfl, rfl⟩

theorem dSubst_same (qp : DenseQp K) (alg : ℕ) (sc : Bool) (st : DKkt K) : DSame st (dSubst qp alg sc st) := by
  unfold dSubst
  dsimp only
  split
  · split
    · exact ⟨rfl, rfl, rfl, rfl, rfl, rfl, rfl, rfl, rfl, rfl, rfl, rfl⟩
    · split <;> exact ⟨rfl, rfl, rfl, rfl, rfl, rfl, rfl, rfl, rfl, rfl, rfl, rfl⟩
  · split <;> exact ⟨rfl, rfl, rfl, rfl, rfl, rfl, rfl, rfl, rfl, rfl, rfl, rfl⟩

/-- solving again does not touch the factors -/
theorem dsolveKkt_same (qp : DenseQp K) (alg : ℕ) (sc : Bool) (c : Core K) (st : DKkt K) : DSame st (dsolveKkt qp alg sc c st).2 := by
  unfold dsolveKkt
  dsimp only
  exact ((dRhs_same _ _ _ _).trans (dSubst_same _ _ _ _)).trans (dkktTail_same _ _ _)

theorem dfactSolve_cache (sq : K → K) (lq : ℕ → ℕ → Mat K → Mat K × Mat K) (qp : DenseQp K) (arg : DArg K)
    (hsq : ∀ x, 0 < x → sq x * sq x = x) (fuel : ℕ) (hwf : qp.WF)
    (hlq : DLqHyp lq qp arg.alg) (pl dl : K) (c : Core K) (st : DKkt K)
    (hca : DCache qp arg.alg st) (o : DKktOut K) (h : dfactSolve sq lq fuel qp arg pl dl c st = some o) :
    DCache qp arg.alg o.st := by
  unfold dfactSolve at h
  dsimp only at h
  set c' := (if qp.dim.nb + qp.dim.ng + qp.dim.ns > 0 then computeGammaGamma qp.d qp.m c else c) with hc'
  rcases hm : dkktMain sq lq qp arg pl dl c'.Gamma c'.gamma fuel ⟨arg.reg_prim, false, arg.reg_dual, false⟩ st with _ | ⟨r, s⟩
  · rw [hm] at h; cases h
  · rw [hm] at h
    simp only [Option.some.injEq] at h
    subst h
    exact (dkktMain_ok sq lq qp arg hsq hwf hlq pl dl _ _ fuel _ st hca r s hm).1.same (dkktTail_same qp c' s)

variable (E : DEnv K)

/-- the factors stored in the solver workspace are the same -/
def KSame (s s' : DIpm K) : Prop := DSame s.kkt s'.kkt

theorem KSame.trans {a b c : DIpm K} (h : KSame a b) (h' : KSame b c) : KSame a c := DSame.trans h h'
theorem KSame.eq {s s' : DIpm K} (h : s'.kkt = s.kkt) : KSame s s' := by unfold KSame; rw [h]; exact DSame.refl _

theorem dsetStep_ks (x : DqSol K) (s : DIpm K) : KSame s (dsetStep x s) := ⟨rfl, rfl, rfl, rfl, rfl, rfl, rfl, rfl, rfl, rfl, rfl, rfl⟩
theorem dmaskStep_ks (s : DIpm K) : KSame s (dmaskStep E s) := by
  unfold dmaskStep
  split
  · exact dsetStep_ks _ _
  · exact KSame.eq rfl
theorem dmaskItr_ks (s : DIpm K) : KSame s (dmaskItr E s) := by unfold dmaskItr; split <;> exact KSame.eq rfl
theorem dmaskResM_ks (s : DIpm K) : KSame s (dmaskResM E s) := by unfold dmaskResM; split <;> exact KSame.eq rfl
theorem dmaskLam_ks (s : DIpm K) : KSame s (dmaskLam E s) := by unfold dmaskLam; split <;> exact KSame.eq rfl
theorem dputG_ks (kk col : ℕ) (x : K) (s : DIpm K) : KSame s (dputG E kk col x s) := KSame.eq (dputG_kkt E kk col x s)
theorem dputG4_ks (kk col : ℕ) (x : K × K × K × K) (s : DIpm K) : KSame s (dputG4 E kk col x s) := KSame.eq (dputG4_kkt E kk col x s)
theorem dputAlpha_ks (kk col : ℕ) (s : DIpm K) : KSame s (dputAlpha E kk col s) := (dputG_ks E _ _ _ _).trans (dputG_ks E _ _ _ _)
theorem dalphaStep_ks (kk col : ℕ) (s : DIpm K) : KSame s (dalphaStep E kk col s) := (dputAlpha_ks E kk col _ : KSame { s with core := computeAlpha E.sq s.core } _)
theorem daddItref_ks (a : K) (s : DIpm K) : KSame s (daddItref E a s) := dsetStep_ks _ _
theorem dlinRes_ks (s : DIpm K) : KSame s (dlinRes E s).1 := KSame.eq rfl
theorem dsolveStep_ks (s : DIpm K) : KSame s (dsolveStep E s) := dsolveKkt_same (dqpStep E s) E.arg.kkt_fact_alg s.wscale s.core s.kkt
theorem dsolveItref_ks (s : DIpm K) : KSame s (dsolveItref E s) := by
  have h := dsolveKkt_same (dqpItref E s) E.arg.kkt_fact_alg s.wscale s.core
    { s.kkt with
      v := s.itr.v
      pi := s.itr.pi
      lam := s.itr.lam
      t := s.itr.t }
  exact ⟨h.1, h.2, h.3, h.4, h.5, h.6, h.7, h.8, h.9, h.10, h.11, h.12⟩

theorem ditrefLoop_ks (kk : ℕ) : ∀ (n cnt : ℕ) (did : Bool) (x : K × K × K × K) (mx : K) (s : DIpm K),
    KSame s (ditrefLoop E kk n cnt did x mx s).s := by
  intro n
  induction n with
  | zero => intro cnt did x mx s; exact KSame.eq rfl
  | succ n ih =>
    intro cnt did x mx s
    unfold ditrefLoop
    split
    · exact KSame.eq rfl
    · extract_lets s1 r s2 mx'
      have h2 : KSame s s2 := (((dsolveItref_ks E s).trans (dmaskItr_ks E _)).trans (daddItref_ks E 1 _)).trans
        ((dlinRes_ks E _).trans (dputG4_ks E kk 16 _ _))
      split
      · exact (h2.trans (daddItref_ks E (-1) s2)).trans (dputG4_ks E kk 16 x _)
      · exact h2.trans (ih _ _ _ _ _)

theorem ditref_ks (kk : ℕ) (mx : ℤ) (s : DIpm K) : KSame s (ditref E kk mx s).s := by
  unfold ditref
  dsimp only
  exact ((dlinRes_ks E s).trans (dputG4_ks E kk 16 _ _)).trans (ditrefLoop_ks E kk _ _ _ _ _ _)

theorem dpredPhase_ks (kk : ℕ) (s : DIpm K) : KSame s (dpredPhase E kk s) := by
  unfold dpredPhase
  extract_lets o
  have h : KSame s o.s := by
    simp only [o]
    split
    · exact dputG4_ks E kk 16 _ s
    · exact ditref_ks E kk _ s
  exact ((h.trans (dputG_ks E kk 14 _ _)).trans (dputG_ks E kk 20 _ _)).trans (dalphaStep_ks E kk 0 _)

theorem dsubSol_ks (b : Bool) (s : DIpm K) : KSame s (dsubSol b s) := by
  unfold dsubSol
  split
  · exact dsetStep_ks _ _
  · exact KSame.eq rfl

theorem dsigmaStep_ks (kk : ℕ) (s : DIpm K) : KSame s (dsigmaStep E kk s) := by
  unfold dsigmaStep
  dsimp only
  exact KSame.trans (b := dputG E kk 2 (computeMuAff s.core).mu_aff { s with core := computeMuAff s.core })
    (KSame.trans (b := { s with core := computeMuAff s.core }) (KSame.eq rfl) (dputG_ks E _ _ _ _)) (KSame.eq (dputG_kkt E _ _ _ _))

theorem dsolvePhase_ks (b : Bool) (kk : ℕ) (s : DIpm K) : KSame s (dsolvePhase E b kk s) := by
  unfold dsolvePhase
  exact ((((dmaskResM_ks E s).trans (dsolveStep_ks E _)).trans (dsubSol_ks b _)).trans (dmaskStep_ks E _)).trans (dalphaStep_ks E kk 4 _)

theorem dcorrPhase_ks (b : Bool) (kk : ℕ) (s : DIpm K) : KSame s (dcorrPhase E b kk s) := by
  unfold dcorrPhase
  extract_lets s1 s2 mu0 s3
  have h2 : KSame s s2 := (dsigmaStep_ks E kk s).trans
    (dsolvePhase_ks E b kk { s1 with core := computeCenteringCorrection s1.core } : KSame { s1 with core := computeCenteringCorrection s1.core } s2)
  split
  · split
    · exact h2.trans (dsolvePhase_ks E b kk { s3 with core := computeCentering s3.core } : KSame { s3 with core := computeCentering s3.core } _)
    · exact h2
  · exact h2

theorem dcorrItref_ks (kk : ℕ) (s : DIpm K) : KSame s (dcorrItref E kk s).s := by
  unfold dcorrItref
  split
  · extract_lets o
    have h : KSame s o.s := ditref_ks E kk _ s
    split
    · exact h.trans (dalphaStep_ks E kk 4 o.s)
    · exact h
  · exact KSame.eq rfl

theorem dupdStep_ks (s : DIpm K) : KSame s (dupdStep E s) := (dmaskLam_ks E _ : KSame { s with core := updateVar s.core } _)

theorem daffineRhs_ks (s : DIpm K) : KSame s (daffineRhs E s) :=
  (dmaskResM_ks E _ : KSame { s with core := computeTauMin (backupResM s.core) } _)

/-- hypotheses under which every factorisation succeeds: a convex problem (strictly convex if `reg_prim = 0`; for the null space
method only on the null space of the equality constraints), independent equality constraints (or `reg_dual > 0` for the Schur
complement method), slack penalties that make the slack Hessian positive, and the classical factorisation -/
structure DEnv.Conv : Prop where
  sq : ∀ x, 0 < x → E.sq x * E.sq x = x
  wf : E.qp.WF
  mask : DMask01 E.qp
  lqd : DLqHyp E.lqd E.qp E.arg.kkt_fact_alg
  eq : DEqOk E.qp E.arg.kkt E.arg.reg_dual
  curv : DCurv E.qp E.arg.kkt_fact_alg (E.arg.r .reg_prim)
  slack : ∀ i, i < 2 * E.qp.dim.ns → 0 ≤ E.qp.Z i + E.arg.r .reg_prim ∧
    (0 < E.qp.Z i + E.arg.r .reg_prim ∨ E.qp.d_mask (2 * E.qp.dim.nb + 2 * E.qp.dim.ng + i) = 1)
  clip : E.arg.i .t_lam_min = 2
  lam_min : 0 < E.arg.r .lam_min
  t_min : 0 < E.arg.r .t_min
  lqf : E.lqf = 0

variable {E}

theorem dslack_of_inside (hE : E.Conv) {sol : DqSol K} (hi : DInside E.qp sol) :
    DInterior E.qp sol ∧ DSlackOk E.qp (E.arg.r .reg_prim) sol := by
  have hint : DInterior E.qp sol := by
    intro j hj
    refine ⟨?_, (hi j hj).1⟩
    rcases hE.mask j hj with h | h
    · rw [(hi j hj).2.2 h]
    · exact ((hi j hj).2.1 h).le
  refine ⟨hint, fun i hins => ⟨(hE.slack i hins).1, ?_⟩⟩
  have en : E.qp.dim.nct = 2 * E.qp.dim.nb + 2 * E.qp.dim.ng + 2 * E.qp.dim.ns := rfl
  unfold dslackCurv
  dsimp only
  have q : ∀ j, j < E.qp.dim.nct → 0 ≤ sol.lam j / sol.t j := fun j hj => div_nonneg (hint j hj).1 (hint j hj).2.le
  have s1 : 0 ≤ ∑ j ∈ range (E.qp.dim.nb + E.qp.dim.ng), (if E.qp.idxs_rev j ≠ -1 ∧ i = (E.qp.idxs_rev j).toNat then sol.lam j / sol.t j else 0) :=
    sum_nonneg fun j hj => by
      have := mem_range.mp hj
      split
      · exact q j (by omega)
      · exact le_refl _
  have s2 : 0 ≤ ∑ j ∈ range (E.qp.dim.nb + E.qp.dim.ng), (if E.qp.idxs_rev j ≠ -1 ∧ i = E.qp.dim.ns + (E.qp.idxs_rev j).toNat
        then sol.lam (E.qp.dim.nb + E.qp.dim.ng + j) / sol.t (E.qp.dim.nb + E.qp.dim.ng + j) else 0) :=
    sum_nonneg fun j hj => by
      have := mem_range.mp hj
      split
      · exact q _ (by omega)
      · exact le_refl _
  have ei : 2 * (E.qp.dim.nb + E.qp.dim.ng) + i = 2 * E.qp.dim.nb + 2 * E.qp.dim.ng + i := by ring
  have hj : 2 * E.qp.dim.nb + 2 * E.qp.dim.ng + i < E.qp.dim.nct := by omega
  rw [ei]
  obtain ⟨h0, h1 | h1⟩ := hE.slack i hins
  · have := q _ hj
    linarith
  · have h3 := (hi _ hj).2.1 h1
    have := div_pos h3 (hi _ hj).1
    linarith

/-- what the loop keeps -/
structure DGo (E : DEnv K) (s : DIpm K) : Prop where
  ready : DReady E s
  inside : DInside E.qp (dsolOf s.core)
  Hv : s.Hv = E.qp.Hv
  cache : DCache E.qp E.arg.kkt_fact_alg s.kkt

theorem DGo.keep {s s' : DIpm K} (h : DGo E s) (hk : DKeep s s') (hm : KSame s s') : DGo E s' := by
  have hv : dsolOf s'.core = dsolOf s.core := by
    have := hk.core
    unfold dsolOf
    rw [this.v, this.pi, this.lam, this.t]
  exact ⟨h.ready.keep E hk, by rw [hv]; exact h.inside, hk.Hv.trans h.Hv, h.cache.same hm⟩

theorem dqpStep_eq {s : DIpm K} (h : s.Hv = E.qp.Hv) : ∃ g b d m, dqpStep E s = { E.qp with gz := g, b := b, d := d, m := m } := by
  unfold dqpStep dqpNow
  rw [h]
  split
  · exact ⟨E.qp.gz, E.qp.b, E.qp.d, s.core.res_m, rfl⟩
  · exact ⟨s.res.res_g, s.res.res_b, s.res.res_d, s.core.res_m, rfl⟩

/-- on a convex problem the factorisation succeeds at the first attempt -/
theorem dfactStep_go (hE : E.Conv) {s : DIpm K} (h : DGo E s) :
    ∃ s', dfactStep E s = some s' ∧ s'.npd = false ∧ DCache E.qp E.arg.kkt_fact_alg s'.kkt := by
  obtain ⟨hint, hsl⟩ := dslack_of_inside hE h.inside
  obtain ⟨g, b, d, m, e⟩ := dqpStep_eq (E := E) h.Hv
  have hpos : ∀ j, j < E.qp.dim.nct → s.core.t j ≠ 0 := fun j hj => ne_of_gt (h.inside j hj).1
  have ht : s.core.t_lam_min ≠ 1 := by rw [h.ready.clip, hE.clip]; decide
  have hcore : DCoreOf (dqpStep E s) (dsolOf s.core) s.core := by
    rw [e]
    exact ⟨h.ready.nc, fun _ _ => rfl, fun _ _ => rfl, hpos⟩
  have hint' : DInterior (dqpStep E s) (dsolOf s.core) := by rw [e]; exact hint
  have hsl' : DSlackOk (dqpStep E s) E.arg.kkt.reg_prim (dsolOf s.core) := by rw [e]; exact hsl
  have hwf' : (dqpStep E s).WF := by rw [e]; exact ⟨hE.wf.1, hE.wf.2⟩
  have hlq' : DLqHyp E.lqd (dqpStep E s) E.arg.kkt.alg := by rw [e]; exact hE.lqd
  have hcv' : DCurv (dqpStep E s) E.arg.kkt.alg E.arg.kkt.reg_prim := by
    rw [e]
    exact ⟨fun v hv => hE.curv.nonneg v hv, hE.curv.regn, hE.curv.strict⟩
  have heq' : DEqOk (dqpStep E s) E.arg.kkt E.arg.kkt.reg_dual := by rw [e]; exact hE.eq
  have hca' : DCache (dqpStep E s) E.arg.kkt.alg s.kkt := by rw [e]; exact h.cache
  obtain ⟨o, ho, hn, -⟩ := dfactSolve_total (dqpStep E s) E.sq E.lqd E.arg.kkt hE.sq E.fuel hwf' hlq' (dsolOf s.core) hint' hsl' hcv' heq'
    s.preg_last s.dreg_last s.core hcore ht s.kkt hca'
  have hc := dfactSolve_cache E.sq E.lqd (dqpStep E s) E.arg.kkt hE.sq E.fuel hwf' hlq' s.preg_last s.dreg_last s.core s.kkt hca' o ho
  refine ⟨_, by unfold dfactStep; rw [ho]; rfl, hn, ?_⟩
  rw [e] at hc
  exact hc

theorem dsame_go {s s' : DIpm K} (h : DGo E s) (h1 : dsolOf s'.core = dsolOf s.core) (h2 : DStay s s') (h3 : KSame s s') : DGo E s' :=
  ⟨h.ready.stay E h2, by rw [h1]; exact h.inside, h2.Hv.trans h.Hv, h.cache.same h3⟩

/-- after the update the iterate is inside again -/
theorem dupd_go (hE : E.Conv) {s : DIpm K} (hr : DReady E s) (hv : s.Hv = E.qp.Hv) (hc : DCache E.qp E.arg.kkt_fact_alg s.kkt) :
    DGo E (dupdStep E s) :=
  ⟨hr.of E (dupdStep_pars E s) (dupdStep_rws E s).2.1,
    (dupdStep_clipped E hr hE.clip).inside E hE.lam_min hE.t_min, (dupdStep_rws E s).2.2.trans hv, hc.same (dupdStep_ks E s)⟩

theorem ddeltaStep_go (hE : E.Conv) (kk : ℕ) {s : DIpm K} (h : DGo E s) : ∃ s', ddeltaStep E kk s = some s' ∧ DGo E s' := by
  have h0 : DGo E (daffineRhs E { s with wscale := E.arg.scale }) := by
    refine DGo.keep (s := { s with wscale := E.arg.scale }) ⟨⟨h.ready.nc, h.ready.mask, h.ready.lam_min, h.ready.t_min, h.ready.clip, h.ready.split⟩,
      h.inside, h.Hv, h.cache⟩ (daffineRhs_keep E _) (daffineRhs_ks E _)
  obtain ⟨s1, e1, -, c1⟩ := dfactStep_go hE h0
  have k1 := dfactStep_keep E _ _ e1
  have r1 := h0.ready.keep E k1
  have v1 := k1.Hv.trans h0.Hv
  unfold ddeltaStep dfactPhase
  rw [if_pos hE.lqf, e1]
  refine ⟨_, rfl, ?_⟩
  dsimp only
  have ka := (dmaskStep_keep E s1).trans (dputG_keep E kk 13 (by omega) (if (dmaskStep E s1).lastLq then 1 else 0) _)
  have kb := ka.trans (dpredPhase_keep E kk _)
  have sa := ((dmaskStep_ks E s1).trans (dputG_ks E kk 13 (if (dmaskStep E s1).lastLq then 1 else 0) _)).trans (dpredPhase_ks E kk _)
  generalize dpredPhase E kk (dputG E kk 13 (if (dmaskStep E s1).lastLq then 1 else 0) (dmaskStep E s1)) = s2 at kb sa ⊢
  have hc : ∀ o : DItOut K, DKeep s1 o.s ∧ KSame s1 o.s → DGo E (dupdStep E (dputAlpha E kk 4 (dputG E kk 15 (o.cnt : K)
      (if E.arg.i .itref_corr_max = 0 then dputG4 E kk 16 (0, 0, 0, 0) o.s else o.s)))) := by
    rintro o ⟨k, q⟩
    have k2 : DKeep s1 (if E.arg.i .itref_corr_max = 0 then dputG4 E kk 16 (0, 0, 0, 0) o.s else o.s) ∧
        KSame s1 (if E.arg.i .itref_corr_max = 0 then dputG4 E kk 16 (0, 0, 0, 0) o.s else o.s) := by
      split
      · exact ⟨k.trans (dputG4_keep E kk 16 (by omega) _ _), q.trans (dputG4_ks E kk 16 _ _)⟩
      · exact ⟨k, q⟩
    have k3 := (k2.1.trans (dputG_keep E kk 15 (by omega) (o.cnt : K) _)).trans (dputAlpha_keep E kk 4 (by omega) _)
    have q3 := (k2.2.trans (dputG_ks E kk 15 (o.cnt : K) _)).trans (dputAlpha_ks E kk 4 _)
    exact dupd_go hE (r1.keep E k3) (k3.Hv.trans v1) (c1.same q3)
  apply hc
  split
  · exact ⟨(kb.trans (dcorrPhase_keep E false kk s2)).trans (dcorrItref_keep E kk _), (sa.trans (dcorrPhase_ks E false kk s2)).trans (dcorrItref_ks E kk _)⟩
  · exact ⟨kb, sa⟩

theorem dabsStep_go (hE : E.Conv) (kk : ℕ) {s : DIpm K} (h : DGo E s) : ∃ s', dabsStep E kk s = some s' ∧ DGo E s' := by
  unfold dabsStep
  extract_lets c s0
  have k0 : DKeep s s0 := DKeep.ofCore ⟨rfl, rfl, rfl, rfl, rfl, rfl, rfl, rfl, rfl, rfl, rfl, rfl, rfl, rfl, rfl, rfl⟩
  have h0 : DGo E (daffineRhs E s0) := (h.keep k0 (KSame.eq rfl)).keep (daffineRhs_keep E _) (daffineRhs_ks E _)
  obtain ⟨s1, e1, -, c1⟩ := dfactStep_go hE h0
  have k1 := dfactStep_keep E _ _ e1
  have r1 := h0.ready.keep E k1
  have v1 := k1.Hv.trans h0.Hv
  rw [e1]
  refine ⟨_, rfl, ?_⟩
  dsimp only
  have ka := (((dsubSol_keep true s1).trans (dmaskStep_keep E _)).trans (dputG_keep E kk 20 (by omega) (if (dmaskStep E (dsubSol true s1)).npd then 1 else 0) _)).trans
    (dalphaStep_keep E kk 0 (by omega) _)
  have sa := (((dsubSol_ks true s1).trans (dmaskStep_ks E _)).trans (dputG_ks E kk 20 (if (dmaskStep E (dsubSol true s1)).npd then 1 else 0) _)).trans
    (dalphaStep_ks E kk 0 _)
  split
  · have k3 := ka.trans (dcorrPhase_keep E true kk _)
    exact dupd_go hE (r1.keep E k3) (k3.Hv.trans v1) (c1.same (sa.trans (dcorrPhase_ks E true kk _)))
  · exact dupd_go hE (r1.keep E ka) (ka.Hv.trans v1) (c1.same sa)

theorem drelBody_go (hE : E.Conv) (kk : ℕ) {s : DIpm K} (h : DGo E s) : ∃ s', drelBody E kk s = some s' ∧ DGo E s' := by
  obtain ⟨s1, e1, g1⟩ := ddeltaStep_go hE kk h
  unfold drelBody
  rw [e1]
  refine ⟨_, rfl, ?_⟩
  dsimp only
  refine ⟨?_, ?_, ?_, ?_⟩
  · exact g1.ready.of E (by simp only [dputG_core, dputG4_core]; rfl) (by simp only [dputG_mask, dputG4_mask]; rfl)
  · simp only [dputG_core, dputG4_core]; exact g1.inside
  · simp only [dputG_Hv, dputG4_Hv]; exact g1.Hv
  · simp only [dputG_kkt, dputG4_kkt]; exact g1.cache

theorem dabsMu_ks (s : DIpm K) : KSame s (dabsMu E s) := by
  unfold dabsMu
  extract_lets c rm rm1 s1
  have h : KSame s s1 := KSame.trans (b := { s with core := { c with res_m := rm1 } }) (KSame.eq rfl) (dmaskResM_ks E _)
  exact h

theorem dabsBody_go (hE : E.Conv) (kk : ℕ) {s : DIpm K} (h : DGo E s) : ∃ s', dabsBody E kk s = some s' ∧ DGo E s' := by
  obtain ⟨s1, e1, g1⟩ := dabsStep_go hE kk h
  unfold dabsBody
  rw [e1]
  refine ⟨_, rfl, ?_⟩
  dsimp only
  have g2 : DGo E (dabsMu E s1) := dsame_go g1 (dabsMu_it E s1) (dabsMu_same E s1) (dabsMu_ks s1)
  refine ⟨?_, ?_, ?_, ?_⟩
  · exact g2.ready.of E (by rw [dputG_core]) (by rw [dputG_mask])
  · rw [dputG_core]; exact g2.inside
  · rw [dputG_Hv]; exact g2.Hv
  · rw [dputG_kkt]; exact g2.cache

/-- **C73 (termination).**  On a convex problem, with clipping of slacks and multipliers, the dense solver returns for every
guess and every previous contents of the workspace, in both formulations, with every combination of predictor, corrector and
refinement; no factorisation needs a second attempt (`E.fuel` is arbitrary). -/
theorem dipm_returns (hE : E.Conv) (hi : DInitOk E) (sol : DqSol K) (s : DIpm K) (hnc : s.core.nc = E.qp.dim.nct) (lf : ℕ)
    (hlf : E.arg.i .iter_max ≤ lf) : ∃ o, dipmSolve E lf sol s = some o := by
  have hp := dprologue_ready E hE.mask sol s hnc
  have h0 : DGo E (dipmInit E (dprologue E sol s)) := by
    refine ⟨dipmInit_ready E hp, dipmInit_inside E hi hp, (dipmInit_rws E (dprologue E sol s)).2.2, ?_⟩
    have hk : KSame (dprologue E sol s) (dipmInit E (dprologue E sol s)) :=
      (dmaskLam_ks E _ : KSame { dprologue E sol s with core := dputSol (dinitVar E.sq E.qp E.arg (dsolOf (dprologue E sol s).core)) (dprologue E sol s).core } _)
    refine DCache.same ?_ hk
    intro _ _ hu
    cases hu
  unfold dipmSolve
  dsimp only
  split
  · exact ⟨_, rfl⟩
  · split
    · obtain ⟨r, hr, -⟩ := ipmLoop_terminates (fun s => contAbs E.arg.toIpmArg (dobs E s)) (dabsBody E) (E.arg.i .iter_max) (DGo E)
        (fun kk s' hs _ _ => dabsBody_go hE kk hs) lf 0
        (dabsMu E (dipmInit E (dprologue E sol s))) (dsame_go h0 (dabsMu_it E _) (dabsMu_same E _) (dabsMu_ks _)) (by push_cast; omega)
      rw [hr]; exact ⟨_, rfl⟩
    · obtain ⟨r, hr, -⟩ := ipmLoop_terminates (fun s => contRel E.arg.toIpmArg (dobs E s)) (drelBody E) (E.arg.i .iter_max) (DGo E)
        (fun kk s' hs _ _ => drelBody_go hE kk hs) lf 0
        (drelStart E (dipmInit E (dprologue E sol s))) (dsame_go h0 (drelStart_it E _) (drelStart_same E _) (by
          unfold drelStart
          extract_lets s1 c2 s2
          have e2 : s2.kkt = (dipmInit E (dprologue E sol s)).kkt := rfl
          split
          · exact KSame.eq ((by unfold dputRes; rfl : (dputRes E 0 s2).kkt = s2.kkt).trans e2)
          · exact KSame.eq e2)) (by push_cast; omega)
      rw [hr]; exact ⟨_, rfl⟩

end
end Hpipm
