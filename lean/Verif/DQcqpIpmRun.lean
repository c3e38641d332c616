/-
C100: whole runs of the dense QCQP interior point solver.
-/
import Verif.DQcqpIpmProps

namespace Hpipm
open Finset
set_option linter.unusedSectionVars false

section
variable {K : Type*} [Field K] [LinearOrder K] [IsStrictOrderedRing K] (T : DQEnv K)

/-! ### how a call ends -/

/-- **C100** The number of iterations reported by the dense QCQP solver is at most `iter_max` (zero for a negative limit). -/
theorem dqipm_iter_le (lf : ℕ) (sol : DqSol K) (s : DQIpm K) (o : DQSolveOut K) (h : dqipmSolve T lf sol s = some o) :
    (o.iter : ℤ) ≤ max (T.arg.i .iter_max) 0 := by
  unfold dqipmSolve at h
  simp only at h
  split at h
  · cases h; exact le_max_right _ _
  · obtain ⟨r, hr, rfl⟩ := Option.map_eq_some_iff.mp h
    have := ipmLoop_iter_le _ _ _ _ _ _ hr
    show (((if T.qarg.i .abs_form ≠ 0 then (r.1, dqabsEnd T (dqmaskLower T.Q) r.1 r.2) else r).1 : ℕ) : ℤ) ≤ _
    split <;> exact this

/-- **C100** The dense QCQP solver returns, for every QCQP, every setting and every previous contents of the workspace, as long as
each factorisation ends. -/
theorem dqipm_terminates (sol : DqSol K) (s : DQIpm K) (lf : ℕ) (hlf : T.arg.i .iter_max ≤ lf)
    (hf : ∀ qp kk s', ∃ s'', ddeltaStep (T.env qp) kk s' = some s'') (ha : ∀ qp kk s', ∃ s'', dabsStep (T.env qp) kk s' = some s'') :
    ∃ o, dqipmSolve T lf sol s = some o := by
  unfold dqipmSolve
  simp only
  split
  · exact ⟨_, rfl⟩
  · obtain ⟨r, hr, -⟩ := ipmLoop_terminates (dqguardOf T) (dqpassOf T) (T.arg.i .iter_max) (fun _ => True) (fun kk s' _ _ _ => by
      unfold dqpassOf
      split
      · obtain ⟨s'', e⟩ := ha s'.qp kk s'.ip
        exact ⟨_, by unfold dqabsBody; rw [e]; rfl, trivial⟩
      · obtain ⟨s'', e⟩ := hf s'.qp kk s'.ip
        exact ⟨_, by unfold dqrelBody; rw [e]; rfl, trivial⟩) lf 0 (dqstartState T sol s) trivial (by push_cast; omega)
    rw [hr]; exact ⟨_, rfl⟩

/-! ### invariants of the iteration -/

/-- flags, parameters and the masks of the QP, kept by both formulations -/
structure DQFrame0 (s : DQIpm K) : Prop where
  dim : s.qp.dim = T.Q.inner.dim
  dmask : ∀ j, j < T.Q.inner.dim.nct → s.qp.d_mask j = (dqmaskLower T.Q).base.d_mask j
  ready : DReady (T.env s.qp) s.ip
  mask : s.ip.mask = true

/-- the part of it that the relative formulation keeps -/
structure DQFrame (s : DQIpm K) : Prop where
  fix : DQpFix (dqmaskLower T.Q) s.qp
  ready : DReady (T.env s.qp) s.ip
  mask : s.ip.mask = true
  rmask : s.rws.ws.mask_constr = true

theorem DQFrame.frame0 {s : DQIpm K} (h : DQFrame T s) : DQFrame0 T s := ⟨h.fix.dim, h.fix.mask, h.ready, h.mask⟩

/-- the solution object and the core workspace hold the same iterate -/
structure DQIt (s : DQIpm K) : Prop where
  v : ∀ i, i < T.Q.inner.dim.nv + 2 * T.Q.inner.dim.ns → s.sol.v i = s.ip.core.v i
  pi : ∀ i, i < T.Q.inner.dim.ne → s.sol.pi i = s.ip.core.pi i
  lam : ∀ i, i < T.Q.inner.dim.nct → s.sol.lam i = s.ip.core.lam i
  t : ∀ i, i < T.Q.inner.dim.nct → s.sol.t i = s.ip.core.t i

/-- the multipliers of masked constraints are zero -/
def DQLamMasked (Q : DQcqp K) (lam : Vec K) : Prop := ∀ j, j < Q.inner.dim.nct → Q.base.d_mask j * lam j = lam j

/-- the QP, the caches, the residuals and their norms belong to the iterate -/
structure DQFresh (s : DQIpm K) : Prop where
  approx : DQpApprox (dqmaskLower T.Q) s.sol s.qp s.rws
  res : ∃ r0, s.res = dqresCompute (dqmaskLower T.Q) s.sol r0 s.rws
  rmax : s.rmax = dqresInfNorm (dqmaskLower T.Q) s.res

theorem DQpFix.put {Q : DQcqp K} {qp : DenseQp K} (h : DQpFix Q qp) (H : Mat K) : DQpFix Q { qp with Hv := H } :=
  ⟨h.dim, h.C, h.mask, h.m, h.Z, h.idxb, h.idxs, h.A, h.b, h.gz⟩

theorem dready_qp {qp qp' : DenseQp K} {ip : DIpm K} (h : DReady (T.env qp) ip) (hd : qp'.dim = qp.dim) (hm : ip.mask = true) :
    DReady (T.env qp') ip := by
  refine ⟨?_, fun h0 => absurd (hm.symm.trans h0) (by simp), h.lam_min, h.t_min, h.clip, h.split⟩
  show _ = qp'.dim.nct
  rw [hd]; exact h.nc

/-- iterates after an update of the core workspace -/
def DQClipped (sol : DqSol K) : Prop :=
  ∀ j, j < T.Q.inner.dim.nct →
    T.qarg.r .t_min ≤ sol.t j ∧ ((dqmaskLower T.Q).base.d_mask j = 1 → T.qarg.r .lam_min ≤ sol.lam j) ∧
      ((dqmaskLower T.Q).base.d_mask j = 0 → sol.lam j = 0)

/-- the iterate the core workspace holds after an update -/
theorem dqupd_iter (hm : DMask01 T.Q.inner) {s : DQIpm K} (hf : DQFrame0 T s) (s1 : DIpm K) (hk1 : DKeep s.ip s1) :
    let ip := dupdStep (T.env s.qp) s1
    DReady (T.env s.qp) ip ∧ ip.mask = true ∧
    (∀ j, j < T.Q.inner.dim.nct → (dqmaskLower T.Q).base.d_mask j * ip.core.lam j = ip.core.lam j) ∧
    (T.qarg.i .t_lam_min = 2 → ∀ j, j < T.Q.inner.dim.nct →
      T.qarg.r .t_min ≤ ip.core.t j ∧ ((dqmaskLower T.Q).base.d_mask j = 1 → T.qarg.r .lam_min ≤ ip.core.lam j) ∧
      ((dqmaskLower T.Q).base.d_mask j = 0 → ip.core.lam j = 0)) := by
  intro ip
  have hd : (T.env s.qp).qp.dim = T.Q.inner.dim := hf.dim
  have hr1 : DReady (T.env s.qp) s1 := hf.ready.keep _ hk1
  have hr2 : DReady (T.env s.qp) { s1 with core := updateVar s1.core } := hr1.of _ (updateVar_pars s1.core) rfl
  have h01 := dqmaskLower_01 hm
  have hmk : ip.mask = true := by
    show (dmaskLam _ _).mask = true
    have : (dmaskLam (T.env s.qp) { s1 with core := updateVar s1.core }).mask = s1.mask := by
      unfold dmaskLam; split <;> rfl
    rw [this, hk1.mask, hf.mask]
  refine ⟨hr1.of _ (dupdStep_pars _ s1) (by rw [hmk, hk1.mask, hf.mask]), hmk, fun j hj => ?_, fun hc j hj => ?_⟩
  · obtain ⟨e1, -⟩ := dmaskLam_val _ hr2 j (by rw [hd]; exact hj)
    have e1' : ip.core.lam j = s.qp.d_mask j * (updateVar s1.core).lam j := e1
    rw [e1', hf.dmask j hj]
    rcases h01 j hj with h | h
    · rw [show (dqmaskLower T.Q).base.d_mask j = 0 from h]; ring
    · rw [show (dqmaskLower T.Q).base.d_mask j = 1 from h]; ring
  · have h := dupdStep_clipped (T.env s.qp) hr1 hc j (by rw [hd]; exact hj)
    have h' : T.qarg.r .t_min ≤ ip.core.t j ∧ (s.qp.d_mask j = 1 → T.qarg.r .lam_min ≤ ip.core.lam j) ∧
      (s.qp.d_mask j = 0 → ip.core.lam j = 0) := h
    rw [hf.dmask j hj] at h'
    exact h'

/-- a pass of the relative loop keeps the invariants, and its iterate is clipped -/
theorem dqrelBody_inv (hm : DMask01 T.Q.inner) (kk : ℕ) (s s' : DQIpm K) (hf : DQFrame T s)
    (h : dqrelBody T (dqmaskLower T.Q) kk s = some s') :
    DQFrame T s' ∧ DQIt T s' ∧ DQLamMasked (dqmaskLower T.Q) s'.sol.lam ∧ DQFresh T s' ∧
      (T.qarg.i .t_lam_min = 2 → DQClipped T s'.sol) ∧ s'.ip.oob = s.ip.oob ∧ s'.ip.core.mu = s'.res.res_mu := by
  unfold dqrelBody at h
  obtain ⟨ip, hip, rfl⟩ := Option.map_eq_some_iff.mp h
  obtain ⟨s1, hk1, rfl⟩ := ddeltaStep_upd _ kk _ _ hip
  obtain ⟨u1, u2, u3, u4⟩ := dqupd_iter T hm hf.frame0 s1 hk1
  generalize hipd : dupdStep (T.env s.qp) s1 = ip at *
  have hoob : ip.oob = s.ip.oob := by rw [← hipd, dupdStep_oob, hk1.oob]
  have hd : s.qp.dim = T.Q.inner.dim := hf.fix.dim
  have hnc : ip.core.nc = T.Q.inner.dim.nct := by
    have := u1.nc
    rw [this]; exact congrArg DDim.nct hd
  simp only [u2, if_true]
  set sol := dmaskQSol ip.core.nc s.qp.d_mask (dconvSol (dqmaskLower T.Q).inner.dim (dsolOf ip.core) s.sol) with hsol
  have v1 := dupdateQp_val (dqmaskLower T.Q) sol { qp := { s.qp with Hv := ip.Hv }, rws := s.rws, nv0 := s.nv0, nv1 := s.nv1 }
    (hf.fix.put _)
  have hrw : (dupdateQp (dqmaskLower T.Q) sol { qp := { s.qp with Hv := ip.Hv }, rws := s.rws, nv0 := s.nv0, nv1 := s.nv1 }).rws.ws = s.rws.ws := rfl
  generalize hw : dupdateQp (dqmaskLower T.Q) sol { qp := { s.qp with Hv := ip.Hv }, rws := s.rws, nv0 := s.nv0, nv1 := s.nv1 } = w at *
  have hlam : ∀ i, i < T.Q.inner.dim.nct → sol.lam i = ip.core.lam i := by
    intro i hi
    have e : sol.lam i = s.qp.d_mask i * (dconvSol (dqmaskLower T.Q).inner.dim (dsolOf ip.core) s.sol).lam i :=
      vecmul_at0 _ _ _ _ i (by rw [hnc]; exact hi)
    rw [e, show (dconvSol (dqmaskLower T.Q).inner.dim (dsolOf ip.core) s.sol).lam i = ip.core.lam i from veccp_lt _ _ _ _ hi,
      hf.fix.mask i hi]
    exact u3 i hi
  have ht : ∀ i, i < T.Q.inner.dim.nct → sol.t i = ip.core.t i := fun i hi => veccp_lt _ _ _ _ hi
  have hwd : w.qp.dim = s.qp.dim := v1.fix.dim.trans hf.fix.dim.symm
  refine ⟨⟨v1.fix, ?_, ?_, ?_⟩, ⟨?_, ?_, ?_, ?_⟩, ?_, ⟨v1, ⟨_, rfl⟩, rfl⟩, ?_, ?_, ?_⟩
  · refine (dready_qp T u1 hwd u2).of _ ?_ ?_
    · simp only [dputG_core, dputG4_core]; rfl
    · simp only [dputG_mask]
      rw [(dputG4_keep _ kk 7 (by omega) _ _).mask, dputG_mask]; exact u2.symm
  · simp only [dputG_mask]
    rw [(dputG4_keep _ kk 7 (by omega) _ _).mask, dputG_mask]; rfl
  · show w.rws.ws.mask_constr = true
    rw [hrw]; exact hf.rmask
  · intro i hi
    simp only [dputG_core, dputG4_core]
    exact veccp_lt _ _ _ _ hi
  · intro i hi
    simp only [dputG_core, dputG4_core]
    exact veccp_lt _ _ _ _ hi
  · intro i hi
    simp only [dputG_core, dputG4_core]
    exact hlam i hi
  · intro i hi
    simp only [dputG_core, dputG4_core]
    exact ht i hi
  · intro j hj
    show (dqmaskLower T.Q).base.d_mask j * sol.lam j = sol.lam j
    rw [hlam j hj]; exact u3 j hj
  · intro hc j hj
    have := u4 hc j hj
    show T.qarg.r .t_min ≤ sol.t j ∧ (_ → T.qarg.r .lam_min ≤ sol.lam j) ∧ (_ → sol.lam j = 0)
    rw [hlam j hj, ht j hj]; exact this
  · simp only [dputG_oob _ kk 12 (by omega), dputG_oob _ kk 11 (by omega), dputG_oob _ kk 6 (by omega), dputG4_oob _ kk 7 (by omega)]
    exact hoob
  · simp only [dputG_core, dputG4_core]
    rfl

/-! ### the state at the start of the loops -/

theorem dqbegin_inv (sol : DqSol K) (s : DQIpm K) (hnc : s.ip.core.nc = T.Q.inner.dim.nct) :
    DQFrame T (dqbegin T sol s) ∧ DQIt T (dqbegin T sol s) ∧
    DQpApprox (dqmaskLower T.Q) (dqbegin T sol s).sol (dqbegin T sol s).qp (dqbegin T sol s).rws ∧
    (dqbegin T sol s).sol = dqinitVar T.sq (dqmaskLower T.Q) T.arg sol := by
  have hv := dapproxQp_val (dqmaskLower T.Q) (dqinitVar T.sq (dqmaskLower T.Q) T.arg sol)
    { qp := { s.qp with dim := (dqmaskLower T.Q).inner.dim }
      rws := { s.rws with
        use_q_fun := true
        use_q_adj := true }
      nv0 := s.nv0
      nv1 := s.nv1 } rfl
  refine ⟨⟨hv.fix, ⟨?_, ?_, rfl, rfl, rfl, rfl⟩, rfl, rfl⟩, ⟨?_, ?_, ?_, ?_⟩, ⟨hv.fix, hv.H, hv.C, hv.dup, hv.dlin, hv.f, hv.adj⟩, rfl⟩
  · exact hnc
  · intro h; cases h
  · intro i hi; exact (veccp_lt _ _ _ _ hi).symm
  · intro i hi; exact (veccp_lt _ _ _ _ hi).symm
  · intro i hi; exact (veccp_lt _ _ _ _ hi).symm
  · intro i hi; exact (veccp_lt _ _ _ _ hi).symm

theorem dqstart_inv {s : DQIpm K} (hf : DQFrame T s) (hi : DQIt T s) : DQFrame T (dqstart s) ∧ DQIt T (dqstart s) :=
  ⟨⟨hf.fix, ⟨hf.ready.nc, hf.ready.mask, hf.ready.lam_min, hf.ready.t_min, hf.ready.clip, hf.ready.split⟩, hf.mask, hf.rmask⟩,
    ⟨hi.v, hi.pi, hi.lam, hi.t⟩⟩

theorem dqput_frame (E : DEnv K) (i : ℕ) (x : K) (ip : DIpm K) : (dput E i x ip).core = ip.core ∧ (dput E i x ip).mask = ip.mask := ⟨rfl, rfl⟩

theorem dqputRes_frame (E : DEnv K) (row : ℕ) (r : DRes K) (m : K × K × K × K) (ip : DIpm K) :
    (dqputRes E row r m ip).core = ip.core ∧ (dqputRes E row r m ip).mask = ip.mask ∧
    ((row : ℤ) ≤ E.statMax → (dqputRes E row r m ip).oob = ip.oob) := by
  unfold dqputRes
  refine ⟨by simp only [(dqput_frame _ _ _ _).1], by simp only [(dqput_frame _ _ _ _).2], fun h => ?_⟩
  rw [dput_oob, dput_oob, dput_oob, dput_oob, dput_oob, dput_oob] <;> (push_cast; omega)

theorem dqrelStart_inv {s : DQIpm K} (hf : DQFrame T s) (hi : DQIt T s) (ha : DQpApprox (dqmaskLower T.Q) s.sol s.qp s.rws) :
    DQFrame T (dqrelStart T (dqmaskLower T.Q) s) ∧ DQIt T (dqrelStart T (dqmaskLower T.Q) s) ∧
    DQFresh T (dqrelStart T (dqmaskLower T.Q) s) ∧ (dqrelStart T (dqmaskLower T.Q) s).sol = s.sol ∧
    (dqrelStart T (dqmaskLower T.Q) s).ip.oob = s.ip.oob := by
  unfold dqrelStart
  extract_lets s1
  have h1 : (if 0 < T.statMax then dqputRes (T.env s1.qp) 0 s1.res s1.rmax s1.ip else s1.ip).core = s1.ip.core ∧
      (if 0 < T.statMax then dqputRes (T.env s1.qp) 0 s1.res s1.rmax s1.ip else s1.ip).mask = s1.ip.mask ∧
      (if 0 < T.statMax then dqputRes (T.env s1.qp) 0 s1.res s1.rmax s1.ip else s1.ip).oob = s1.ip.oob := by
    split
    · rename_i h0
      obtain ⟨a, b, c⟩ := dqputRes_frame (T.env s1.qp) 0 s1.res s1.rmax s1.ip
      exact ⟨a, b, c (by show ((0 : ℕ) : ℤ) ≤ T.statMax; push_cast; omega)⟩
    · exact ⟨rfl, rfl, rfl⟩
  generalize (if 0 < T.statMax then dqputRes (T.env s1.qp) 0 s1.res s1.rmax s1.ip else s1.ip) = ip at *
  have hd : pars s1.ip.core = pars s.ip.core := rfl
  refine ⟨⟨hf.fix, (hf.ready.of _ (s' := s1.ip) hd rfl).of _ (by rw [h1.1]) h1.2.1, h1.2.1.trans hf.mask, hf.rmask⟩, ⟨?_, ?_, ?_, ?_⟩,
    ⟨ha, ⟨s.res, rfl⟩, rfl⟩, rfl, h1.2.2⟩
  · intro i hi'
    show s.sol.v i = ip.core.v i
    rw [h1.1]; exact hi.v i hi'
  · intro i hi'
    show s.sol.pi i = ip.core.pi i
    rw [h1.1]; exact hi.pi i hi'
  · intro i hi'
    show s.sol.lam i = ip.core.lam i
    rw [h1.1]; exact hi.lam i hi'
  · intro i hi'
    show s.sol.t i = ip.core.t i
    rw [h1.1]; exact hi.t i hi'

theorem dqabsMu_inv {s : DQIpm K} (hf : DQFrame0 T s) :
    DQFrame0 T (dqabsMu (dqmaskLower T.Q) s) ∧ (dqabsMu (dqmaskLower T.Q) s).sol = s.sol ∧
    (dqabsMu (dqmaskLower T.Q) s).ip.core.lam = s.ip.core.lam ∧ (dqabsMu (dqmaskLower T.Q) s).ip.core.t = s.ip.core.t ∧
    (dqabsMu (dqmaskLower T.Q) s).ip.oob = s.ip.oob ∧
    (dqabsMu (dqmaskLower T.Q) s).ip.core.mu = (∑ i ∈ range s.ip.core.nc, s.ip.core.lam i * s.ip.core.t i) / (s.ip.core.nc : K) := by
  refine ⟨⟨hf.dim, hf.dmask, ?_, hf.mask⟩, rfl, rfl, rfl, rfl, ?_⟩
  · exact (dready_qp T (qp' := (dqabsMu (dqmaskLower T.Q) s).qp) hf.ready rfl hf.mask).of _ rfl rfl
  · show dot s.ip.core.nc s.ip.core.lam 0 s.ip.core.t 0 / _ = _
    unfold dot
    simp only [Nat.zero_add]

/-- a pass of the absolute loop -/
theorem dqabsBody_inv (hm : DMask01 T.Q.inner) (kk : ℕ) (s s' : DQIpm K) (hf : DQFrame0 T s)
    (h : dqabsBody T (dqmaskLower T.Q) kk s = some s') :
    DQFrame0 T s' ∧ (∀ i, i < T.Q.inner.dim.nct → s'.sol.lam i = s'.ip.core.lam i ∧ s'.sol.t i = s'.ip.core.t i) ∧
    DQLamMasked (dqmaskLower T.Q) s'.sol.lam ∧
    (T.qarg.i .t_lam_min = 2 → DQClipped T s'.sol) ∧ s'.ip.oob = s.ip.oob ∧
    s'.ip.core.mu = (∑ i ∈ range s'.ip.core.nc, s'.ip.core.lam i * s'.ip.core.t i) / (s'.ip.core.nc : K) := by
  unfold dqabsBody at h
  obtain ⟨ip, hip, rfl⟩ := Option.map_eq_some_iff.mp h
  obtain ⟨s1, hk1, rfl⟩ := dabsStep_upd _ kk _ _ hip
  obtain ⟨u1, u2, u3, u4⟩ := dqupd_iter T hm hf s1 hk1
  generalize hipd : dupdStep (T.env s.qp) s1 = ip at *
  have hoob : ip.oob = s.ip.oob := by rw [← hipd, dupdStep_oob, hk1.oob]
  have hf' : DQFrame0 T { s with
      ip := ip
      sol := dconvSol (dqmaskLower T.Q).inner.dim (dsolOf ip.core) s.sol } := ⟨hf.dim, hf.dmask, u1, u2⟩
  obtain ⟨a1, a2, a3, a4, a5, a6⟩ := dqabsMu_inv T hf'
  dsimp only
  generalize hsd : dqabsMu (dqmaskLower T.Q) { s with
      ip := ip
      sol := dconvSol (dqmaskLower T.Q).inner.dim (dsolOf ip.core) s.sol } = sd at *
  have ac : sd.ip.core.nc = ip.core.nc := by rw [← hsd]; rfl
  have hkp := dputG_keep (T.env sd.qp) kk 6 (by omega) sd.ip.core.mu sd.ip
  have hlt : ∀ i, i < T.Q.inner.dim.nct → sd.sol.lam i = ip.core.lam i ∧ sd.sol.t i = ip.core.t i := by
    intro i hi
    rw [a2]
    exact ⟨veccp_lt _ _ _ _ hi, veccp_lt _ _ _ _ hi⟩
  refine ⟨⟨a1.dim, a1.dmask, a1.ready.keep _ hkp, hkp.mask.trans a1.mask⟩, ?_, ?_, ?_, ?_, ?_⟩
  · intro i hi
    obtain ⟨e1, e2⟩ := hlt i hi
    simp only [dputG_core]
    rw [e1, e2, a3, a4]; exact ⟨rfl, rfl⟩
  · intro j hj
    show _ * sd.sol.lam j = sd.sol.lam j
    rw [(hlt j hj).1]; exact u3 j hj
  · intro hc j hj
    obtain ⟨e1, e2⟩ := hlt j hj
    show T.qarg.r .t_min ≤ sd.sol.t j ∧ (_ → T.qarg.r .lam_min ≤ sd.sol.lam j) ∧ (_ → sd.sol.lam j = 0)
    rw [e1, e2]; exact u4 hc j hj
  · show (dputG (T.env sd.qp) kk 6 sd.ip.core.mu sd.ip).oob = _
    rw [hkp.oob, a5]; exact hoob
  · simp only [dputG_core]
    rw [a6, a3, a4, ac]

/-! ### whole runs -/

theorem dqipm_cases (lf : ℕ) (sol : DqSol K) (s : DQIpm K) (o : DQSolveOut K) (h : dqipmSolve T lf sol s = some o) :
    ((s.ip.core.nc = 0 ∨ dncMask (dqbegin T sol s).qp s.ip.core.nc = 0) ∧ o = dqsolveUnc T (dqmaskLower T.Q) (dqbegin T sol s)) ∨
    (¬ (s.ip.core.nc = 0 ∨ dncMask (dqbegin T sol s).qp s.ip.core.nc = 0) ∧ ∃ r,
      ipmLoop (dqguardOf T) (dqpassOf T) (T.arg.i .iter_max) lf 0 (dqstartState T sol s) = some r ∧
      o = dqepilogue T (dqmaskLower T.Q) (if T.qarg.i .abs_form ≠ 0 then (r.1, dqabsEnd T (dqmaskLower T.Q) r.1 r.2) else r)) := by
  unfold dqipmSolve at h
  simp only at h
  split at h
  · rename_i hc; cases h; exact Or.inl ⟨hc, rfl⟩
  · rename_i hc
    obtain ⟨r, hr, rfl⟩ := Option.map_eq_some_iff.mp h
    exact Or.inr ⟨hc, r, hr, rfl⟩

/-- there is a constraint the solver takes into account -/
def DQActive : Prop := ∃ j, j < T.Q.inner.dim.nct ∧ (dqmaskLower T.Q).base.d_mask j ≠ 0

theorem dqactive_nc (sol : DqSol K) (s : DQIpm K) (hnc : s.ip.core.nc = T.Q.inner.dim.nct) (hact : DQActive T) :
    ¬ (s.ip.core.nc = 0 ∨ dncMask (dqbegin T sol s).qp s.ip.core.nc = 0) := by
  obtain ⟨j, hj, hne⟩ := hact
  obtain ⟨hf, -⟩ := dqbegin_inv T sol s hnc
  rintro (h | h)
  · omega
  · rw [dncMask_sum] at h
    have h' := (Finset.sum_eq_zero_iff.mp h) j (mem_range.mpr (by omega))
    rw [hf.fix.mask j hj, if_pos hne] at h'
    exact absurd h' one_ne_zero

theorem dqabsEnd_it (kk : ℕ) (x : DQIpm K) : (dqabsEnd T (dqmaskLower T.Q) kk x).sol = x.sol ∧
    (dqabsEnd T (dqmaskLower T.Q) kk x).ip.core = x.ip.core ∧ (dqabsEnd T (dqmaskLower T.Q) kk x).ip.oob = x.ip.oob := by
  unfold dqabsEnd
  split
  · extract_lets r m
    clear_value r m
    refine ⟨rfl, ?_, ?_⟩
    · dsimp only
      split
      · exact (dqputRes_frame (T.env x.qp) kk r m x.ip).1
      · rfl
    · dsimp only
      split
      · rename_i h0
        exact (dqputRes_frame (T.env x.qp) kk r m x.ip).2.2 (by show (kk : ℤ) ≤ T.statMax; omega)
      · rfl
  · exact ⟨rfl, rfl, rfl⟩

theorem dqstartState_inv (sol : DqSol K) (s : DQIpm K) (hnc : s.ip.core.nc = T.Q.inner.dim.nct) :
    DQFrame0 T (dqstartState T sol s) ∧ (dqstartState T sol s).sol = dqinitVar T.sq (dqmaskLower T.Q) T.arg sol ∧
    (dqstartState T sol s).ip.oob = s.ip.oob ∧
    (T.qarg.i .abs_form = 0 → DQFrame T (dqstartState T sol s) ∧ DQIt T (dqstartState T sol s) ∧ DQFresh T (dqstartState T sol s)) := by
  obtain ⟨b1, b2, b3, b4⟩ := dqbegin_inv T sol s hnc
  obtain ⟨c1, c2⟩ := dqstart_inv T b1 b2
  unfold dqstartState
  split
  · rename_i ha
    obtain ⟨a1, a2, -, -, a5, -⟩ := dqabsMu_inv T c1.frame0
    exact ⟨a1, a2.trans b4, a5, fun h => absurd h ha⟩
  · obtain ⟨a1, a2, a3, a4, a5⟩ := dqrelStart_inv T c1 c2 ⟨b3.fix, b3.H, b3.C, b3.dup, b3.dlin, b3.f, b3.adj⟩
    exact ⟨a1.frame0, a4.trans b4, a5, fun _ => ⟨a1, a2, a3⟩⟩

theorem dqpass_inv (hm : DMask01 T.Q.inner) (kk : ℕ) (s s' : DQIpm K) (hf : DQFrame0 T s)
    (hr : T.qarg.i .abs_form = 0 → DQFrame T s) (h : dqpassOf T kk s = some s') :
    DQFrame0 T s' ∧ (T.qarg.i .abs_form = 0 → DQFrame T s' ∧ DQIt T s' ∧ DQFresh T s') ∧ DQLamMasked (dqmaskLower T.Q) s'.sol.lam ∧
    (T.qarg.i .t_lam_min = 2 → DQClipped T s'.sol) ∧ s'.ip.oob = s.ip.oob := by
  unfold dqpassOf at h
  split at h
  · rename_i ha
    obtain ⟨a1, -, a3, a4, a5, -⟩ := dqabsBody_inv T hm kk s s' hf h
    exact ⟨a1, fun h => absurd h ha, a3, a4, a5⟩
  · rename_i ha
    obtain ⟨a1, a2, a3, a4, a5, a6, -⟩ := dqrelBody_inv T hm kk s s' (hr (not_not.mp ha)) h
    exact ⟨a1.frame0, fun _ => ⟨a1, a2, a4⟩, a3, a5, a6⟩

/-- **C100** Every iterate of the dense QCQP solver has strictly positive slacks and strictly positive multipliers of the constraints
it takes into account, and from the first step on zero multipliers of the others: in both formulations, for every QCQP (convex or
not), every direction and step length, as long as clipping is on. -/
theorem dqipm_iterates_inside (hm : DMask01 T.Q.inner) (hi : DQInitOk T.sq T.arg) (hc : T.qarg.i .t_lam_min = 2)
    (hl : 0 < T.qarg.r .lam_min) (ht : 0 < T.qarg.r .t_min) (sol : DqSol K) (s : DQIpm K)
    (hnc : s.ip.core.nc = T.Q.inner.dim.nct)
    (n : ℕ) (f : ℕ → DQIpm K) (hf0 : f 0 = dqstartState T sol s) (hrun : Run (dqguardOf T) (dqpassOf T) (T.arg.i .iter_max) n f) :
    ∀ i, i ≤ n → ∀ j, j < T.Q.inner.dim.nct → 0 < (f i).sol.t j ∧
      ((dqmaskLower T.Q).base.d_mask j = 1 → 0 < (f i).sol.lam j) ∧
      (0 < i → T.qarg.r .t_min ≤ (f i).sol.t j ∧ ((dqmaskLower T.Q).base.d_mask j = 1 → T.qarg.r .lam_min ≤ (f i).sol.lam j) ∧
        ((dqmaskLower T.Q).base.d_mask j = 0 → (f i).sol.lam j = 0)) := by
  have key : ∀ i, i ≤ n → DQFrame0 T (f i) ∧ (T.qarg.i .abs_form = 0 → DQFrame T (f i)) ∧ ∀ j, j < T.Q.inner.dim.nct → 0 < (f i).sol.t j ∧
      ((dqmaskLower T.Q).base.d_mask j = 1 → 0 < (f i).sol.lam j) ∧
      (0 < i → T.qarg.r .t_min ≤ (f i).sol.t j ∧ ((dqmaskLower T.Q).base.d_mask j = 1 → T.qarg.r .lam_min ≤ (f i).sol.lam j) ∧
        ((dqmaskLower T.Q).base.d_mask j = 0 → (f i).sol.lam j = 0)) := by
    intro i
    induction i with
    | zero =>
      intro _
      rw [hf0]
      obtain ⟨s1, s2, -, s3⟩ := dqstartState_inv T sol s hnc
      refine ⟨s1, fun h => (s3 h).1, fun j hj => ?_⟩
      rw [s2]
      obtain ⟨p1, p2⟩ := dqinitVar_interior T.sq (dqmaskLower T.Q) T.arg sol hi j hj
      refine ⟨p1, fun h1 => (p2 fun hlo => ?_).1, fun h => absurd h (lt_irrefl _)⟩
      have hz := (dqmaskLower_mask T.Q j).1 (Or.inl hlo)
      rw [hz] at h1
      exact zero_ne_one h1
    | succ i ih =>
      intro hin
      obtain ⟨r1, r2, -⟩ := ih (by omega)
      obtain ⟨a1, a2, -, a3, -⟩ := dqpass_inv T hm i _ _ r1 r2 (hrun i (by omega)).2.2
      exact ⟨a1, fun h => (a2 h).1, fun j hj => ⟨ht.trans_le (a3 hc j hj).1, fun h => hl.trans_le ((a3 hc j hj).2.1 h), fun _ => a3 hc j hj⟩⟩
  exact fun i hin => (key i hin).2.2

/-- **C100** The solution returned by the dense QCQP solver: strictly positive slacks and multipliers of the constraints taken into
account, whatever the reported status; if at least one step was made the multipliers of the others are zero. -/
theorem dqipm_solution_inside (hm : DMask01 T.Q.inner) (hi : DQInitOk T.sq T.arg) (hc : T.qarg.i .t_lam_min = 2)
    (hl : 0 < T.qarg.r .lam_min) (ht : 0 < T.qarg.r .t_min) (lf : ℕ) (sol : DqSol K) (s : DQIpm K) (o : DQSolveOut K)
    (hnc : s.ip.core.nc = T.Q.inner.dim.nct) (hact : DQActive T) (h : dqipmSolve T lf sol s = some o) :
    ∀ j, j < T.Q.inner.dim.nct →
      0 < o.s.sol.t j ∧ (o.Q.base.d_mask j = 1 → 0 < o.s.sol.lam j) ∧ (0 < o.iter → o.Q.base.d_mask j = 0 → o.s.sol.lam j = 0) := by
  rcases dqipm_cases T lf sol s o h with ⟨hz, -⟩ | ⟨-, r, hr, ho⟩
  · exact absurd hz (dqactive_nc T sol s hnc hact)
  · obtain ⟨⟨f, f0, fr, hrun⟩, -⟩ := ipmLoop_run _ _ _ _ _ _ hr
    have hin := dqipm_iterates_inside T hm hi hc hl ht sol s hnc _ f f0 hrun r.1 (le_refl _)
    rw [fr] at hin
    have e1 : o.Q = dqmaskLower T.Q := by rw [ho]; rfl
    have e2 : o.s.sol = r.2.sol := by
      rw [ho]
      show (if T.qarg.i .abs_form ≠ 0 then (r.1, dqabsEnd T (dqmaskLower T.Q) r.1 r.2) else r).2.sol = _
      split
      · exact (dqabsEnd_it T r.1 r.2).1
      · rfl
    have e3 : o.iter = r.1 := by
      rw [ho]
      show (if T.qarg.i .abs_form ≠ 0 then (r.1, dqabsEnd T (dqmaskLower T.Q) r.1 r.2) else r).1 = _
      split <;> rfl
    rw [e1, e2, e3]
    exact fun j hj => ⟨(hin j hj).1, (hin j hj).2.1, fun h0 => ((hin j hj).2.2 h0).2.2⟩

/-! ### statistics -/

theorem dqunc_oob (Q : DQcqp K) (x : DQIpm K) : (dqsolveUnc T Q x).s.ip.oob = x.ip.oob := by
  unfold dqsolveUnc
  dsimp only
  generalize dunconstr T.sq _ _ _ _ = k
  split
  · generalize dqresCompute Q _ _ _ = r
    generalize dqresInfNorm Q r = m
    dsimp only
    split
    · rename_i h0
      have h0' : 0 < (T.env x.qp).statMax := h0
      rw [dput_oob, dput_oob, dput_oob, dput_oob, dput_oob] <;> (push_cast; omega)
    · rfl
  · rfl

/-- **C100** The dense QCQP solver never writes outside its statistics table, whatever `iter_max` and the size of the table. -/
theorem dqipm_stat_inside (hm : DMask01 T.Q.inner) (lf : ℕ) (sol : DqSol K) (s : DQIpm K) (hs : s.ip.oob = false) (o : DQSolveOut K)
    (hnc : s.ip.core.nc = T.Q.inner.dim.nct) (h : dqipmSolve T lf sol s = some o) : o.s.ip.oob = false := by
  rcases dqipm_cases T lf sol s o h with ⟨-, rfl⟩ | ⟨-, r, hr, ho⟩
  · rw [dqunc_oob]; exact hs
  · obtain ⟨-, -, hoob⟩ := ipmLoop_inv _ _ _ (fun x => DQFrame0 T x ∧ (T.qarg.i .abs_form = 0 → DQFrame T x) ∧ x.ip.oob = false)
      (fun kk a b ha hb => by
        obtain ⟨p1, p2, -, -, p4⟩ := dqpass_inv T hm kk a b ha.1 ha.2.1 hb
        exact ⟨p1, fun h => (p2 h).1, p4.trans ha.2.2⟩) lf _ r
      (by
        obtain ⟨s1, -, s2, s3⟩ := dqstartState_inv T sol s hnc
        exact ⟨s1, fun h => (s3 h).1, s2.trans hs⟩) hr
    rw [ho]
    show (if T.qarg.i .abs_form ≠ 0 then (r.1, dqabsEnd T (dqmaskLower T.Q) r.1 r.2) else r).2.ip.oob = _
    split
    · exact (dqabsEnd_it T _ _).2.2.trans hoob
    · exact hoob

end
end Hpipm
