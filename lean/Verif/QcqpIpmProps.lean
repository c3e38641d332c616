/-
C83: the interior point solver for problems with quadratic constraints.  Iterations, termination, statistics, interior
iterates, and what a reported success means for the residuals of the caller's QCQP.
-/
import Verif.QcqpIpmVal
import Verif.IpmStatus
import Verif.CondAdj

namespace Hpipm
open Finset
set_option linter.unusedSectionVars false

section
variable {K : Type*} [Field K] [LinearOrder K] [IsStrictOrderedRing K]

/-! ### the masks used by the solver -/

/-- the entries the solver switches off in stage `k`: lower sides of quadratic constraints, lower bounds of the slacks
which soften quadratic constraints -/
def Cut (Q : Qcqp K) (k j : ℕ) : Prop :=
  LoQ Q k j ∨ ∃ jj, jj < Q.nq k ∧ Q.base.idxs_rev k (Q.base.dim.nb k + Q.base.dim.ng k + jj) ≠ -1 ∧
    j = 2 * Q.base.dim.nb k + 2 * Q.base.dim.ng k + 2 * Q.nq k +
      (Q.base.idxs_rev k (Q.base.dim.nb k + Q.base.dim.ng k + jj)).toNat

theorem maskLower_mask (Q : Qcqp K) (k j : ℕ) (hk : k ≤ Q.base.dim.N) :
    (Cut Q k j → (maskLower Q).base.d_mask k j = 0) ∧ (¬ Cut Q k j → (maskLower Q).base.d_mask k j = Q.base.d_mask k j) := by
  have stage : ∀ (v : Vec K) (n : ℕ),
      (∀ i, (∃ jj, jj < n ∧ Q.base.idxs_rev k (Q.base.dim.nb k + Q.base.dim.ng k + jj) ≠ -1 ∧
          i = 2 * Q.base.dim.nb k + 2 * Q.base.dim.ng k + 2 * Q.nq k +
            (Q.base.idxs_rev k (Q.base.dim.nb k + Q.base.dim.ng k + jj)).toNat) →
        loop n (fun jj v =>
          let idx := Q.base.idxs_rev k (Q.base.dim.nb k + Q.base.dim.ng k + jj)
          if idx ≠ -1 then upd v (2 * Q.base.dim.nb k + 2 * Q.base.dim.ng k + 2 * Q.nq k + idx.toNat) 0 else v) v i = 0) ∧
      (∀ i, ¬ (∃ jj, jj < n ∧ Q.base.idxs_rev k (Q.base.dim.nb k + Q.base.dim.ng k + jj) ≠ -1 ∧
          i = 2 * Q.base.dim.nb k + 2 * Q.base.dim.ng k + 2 * Q.nq k +
            (Q.base.idxs_rev k (Q.base.dim.nb k + Q.base.dim.ng k + jj)).toNat) →
        loop n (fun jj v =>
          let idx := Q.base.idxs_rev k (Q.base.dim.nb k + Q.base.dim.ng k + jj)
          if idx ≠ -1 then upd v (2 * Q.base.dim.nb k + 2 * Q.base.dim.ng k + 2 * Q.nq k + idx.toNat) 0 else v) v i = v i) := by
    intro v n
    induction n with
    | zero =>
      refine ⟨fun i h => ?_, fun i _ => rfl⟩
      obtain ⟨jj, h, _⟩ := h
      omega
    | succ n ih =>
      obtain ⟨i1, i2⟩ := ih
      rw [loop_succ]
      generalize loop n _ v = w at i1 i2
      refine ⟨fun i h => ?_, fun i h => ?_⟩
      · obtain ⟨jj, h1, h2, h3⟩ := h
        by_cases e : jj = n
        · subst e
          rw [if_pos h2, h3, upd_same]
        · split
          · unfold upd
            split
            · rfl
            · exact i1 i ⟨jj, by omega, h2, h3⟩
          · exact i1 i ⟨jj, by omega, h2, h3⟩
      · have h' := i2 i (fun ⟨jj, h1, h2, h3⟩ => h ⟨jj, by omega, h2, h3⟩)
        split
        · rename_i hn
          rw [upd_ne _ _ (fun e => h ⟨n, by omega, hn, e⟩)]; exact h'
        · exact h'
  have key := loop_inv (S := ℕ → Vec K) (fun n dm => (∀ l, n ≤ l → dm l = Q.base.d_mask l) ∧ (k < n →
      (Cut Q k j → dm k j = 0) ∧ (¬ Cut Q k j → dm k j = Q.base.d_mask k j))) (Q.base.dim.N + 1)
    (fun ii dm =>
      upd dm ii (loop (Q.nq ii) (fun jj v =>
        let idx := Q.base.idxs_rev ii (Q.base.dim.nb ii + Q.base.dim.ng ii + jj)
        if idx ≠ -1 then upd v (2 * Q.base.dim.nb ii + 2 * Q.base.dim.ng ii + 2 * Q.nq ii + idx.toNat) 0 else v)
        (vecse (Q.nq ii) 0 (dm ii) (Q.base.dim.nb ii + Q.base.dim.ng ii)))) Q.base.d_mask
    ⟨fun _ _ => rfl, fun h => by omega⟩ (by
      intro n dm hn ⟨h1, h2⟩
      refine ⟨fun l hl => by rw [upd_ne _ _ (by omega)]; exact h1 l (by omega), fun hkn => ?_⟩
      by_cases e : k = n
      · subst e
        rw [upd_same]
        obtain ⟨s1, s2⟩ := stage (vecse (Q.nq k) 0 (dm k) (Q.base.dim.nb k + Q.base.dim.ng k)) (Q.nq k)
        refine ⟨fun hc => ?_, fun hc => ?_⟩
        · by_cases hs : ∃ jj, jj < Q.nq k ∧ Q.base.idxs_rev k (Q.base.dim.nb k + Q.base.dim.ng k + jj) ≠ -1 ∧
            j = 2 * Q.base.dim.nb k + 2 * Q.base.dim.ng k + 2 * Q.nq k +
              (Q.base.idxs_rev k (Q.base.dim.nb k + Q.base.dim.ng k + jj)).toNat
          · exact s1 j hs
          · rw [s2 j hs]
            have hl : LoQ Q k j := hc.resolve_right hs
            unfold LoQ at hl
            unfold vecse
            rw [if_pos (by omega)]
        · rw [s2 j (fun h => hc (Or.inr h))]
          have hl : ¬ LoQ Q k j := fun h => hc (Or.inl h)
          unfold LoQ at hl
          unfold vecse
          rw [if_neg (by omega), h1 k (le_refl _)]
      · rw [upd_ne _ _ e]; exact h2 (by omega))
  exact key.2 (by omega)

theorem maskLower_lo (Q : Qcqp K) (k j : ℕ) (hk : k ≤ Q.base.dim.N) (h : LoQ Q k j) : (maskLower Q).base.d_mask k j = 0 :=
  (maskLower_mask Q k j hk).1 (Or.inl h)

theorem maskLower_wf {Q : Qcqp K} (h : Q.WF) : (maskLower Q).WF := ⟨h.1, h.2⟩

theorem maskLower_01 {Q : Qcqp K} (h : Mask01 Q.inner) : Mask01 (maskLower Q).inner := by
  intro k j hk hj
  by_cases hc : Cut Q k j
  · exact Or.inl ((maskLower_mask Q k j hk).1 hc)
  · have := (maskLower_mask Q k j hk).2 hc
    show (maskLower Q).base.d_mask k j = 0 ∨ _
    have e : (maskLower Q).inner.d_mask k j = Q.base.d_mask k j := this
    rw [e, this]
    exact h k j hk hj

/-! ### the caches -/

theorem approx_cache (Q : Qcqp K) (sol : Sol K) (qp : OcpQp K) (rws : QresWs K) (h : QpApprox Q sol qp rws)
    (hl : LamMasked Q.inner sol.lam)
    (h0 : ∀ k j, k ≤ Q.base.dim.N → LoQ Q k j → Q.base.d_mask k j = 0) : CacheOk Q sol rws := by
  refine ⟨fun k j hk hj => (h.stage k hk).f j hj, fun k i hk hi => ?_⟩
  rw [(h.stage k hk).adj i hi]
  refine sum_congr rfl fun j hj => ?_
  have hj := mem_range.mp hj
  have hn : nct Q.inner.dim k = 2 * Q.base.dim.nb k + 2 * (Q.base.dim.ng k + Q.nq k) + 2 * Q.base.dim.ns k := rfl
  have e1 := hl k (Q.base.dim.nb k + Q.base.dim.ng k + j) hk (by omega)
  have e2 := hl k (2 * Q.base.dim.nb k + 2 * Q.base.dim.ng k + Q.nq k + j) hk (by omega)
  have e0 : Q.inner.d_mask k (Q.base.dim.nb k + Q.base.dim.ng k + j) = 0 := h0 k _ hk ⟨by omega, by omega⟩
  rw [e0, zero_mul] at e1
  have e2' : Q.base.d_mask k (2 * Q.base.dim.nb k + 2 * Q.base.dim.ng k + Q.nq k + j) *
    sol.lam k (2 * Q.base.dim.nb k + 2 * Q.base.dim.ng k + Q.nq k + j) = sol.lam k (2 * Q.base.dim.nb k + 2 * Q.base.dim.ng k + Q.nq k + j) := e2
  unfold qw
  rw [← e1, e2', neg_zero, zero_add]

/-! ### invariants of the iteration -/

variable (T : QEnv K)

/-- flags, parameters and the iterate-independent part of the QP -/
structure QFrame (s : QIpm K) : Prop where
  fix : QpFix (maskLower T.Q) s.qp
  ready : Ready (T.env s.qp) s.ip
  mask : s.ip.mask = true
  rmask : s.rws.ws.mask_constr = true

/-- the part of it that both formulations keep -/
structure QFrame0 (s : QIpm K) : Prop where
  dim : s.qp.dim = T.Q.inner.dim
  dmask : ∀ k j, k ≤ T.Q.base.dim.N → j < nct T.Q.inner.dim k → s.qp.d_mask k j = (maskLower T.Q).base.d_mask k j
  ready : Ready (T.env s.qp) s.ip
  mask : s.ip.mask = true

theorem QFrame.frame0 {s : QIpm K} (h : QFrame T s) : QFrame0 T s :=
  ⟨h.fix.dim, fun k j hk hj => h.fix.mask k hk j hj, h.ready, h.mask⟩

/-- the solution object and the core workspace hold the same iterate; masked multipliers are zero -/
structure QIt (s : QIpm K) : Prop where
  ux : ∀ k i, k ≤ T.Q.base.dim.N → i < nvt T.Q.inner.dim k → s.sol.ux k i = (solOf T.Q.inner.dim s.ip.core).ux k i
  pi : ∀ k i, k < T.Q.base.dim.N → i < net T.Q.inner.dim k → s.sol.pi k i = (solOf T.Q.inner.dim s.ip.core).pi k i
  lam : ∀ k i, k ≤ T.Q.base.dim.N → i < nct T.Q.inner.dim k → s.sol.lam k i = (solOf T.Q.inner.dim s.ip.core).lam k i
  t : ∀ k i, k ≤ T.Q.base.dim.N → i < nct T.Q.inner.dim k → s.sol.t k i = (solOf T.Q.inner.dim s.ip.core).t k i
  masked : LamMasked (maskLower T.Q).inner s.sol.lam

/-- the QP, the caches, the residuals and their norms belong to the iterate -/
structure QFresh (s : QIpm K) : Prop where
  approx : QpApprox (maskLower T.Q) s.sol s.qp s.rws
  res : ∃ r0, s.res = qresCompute (maskLower T.Q) s.sol r0 s.rws
  rmax : s.rmax = qresInfNorm (maskLower T.Q) s.res
  rm : s.ip.core.res_m = stFlat (nct T.Q.inner.dim) s.res.res_m (T.Q.base.dim.N + 1)

theorem QpFix.put {Q : Qcqp K} {qp : OcpQp K} (h : QpFix Q qp) (H : ℕ → Mat K) : QpFix Q { qp with RSQrq := H } :=
  ⟨h.dim, h.C, h.mask, h.m, h.Z, h.idxb, h.idxs, h.A, h.b⟩

theorem ready_qp {qp qp' : OcpQp K} {ip : Ipm K} (h : Ready (T.env qp) ip) (hd : qp'.dim = qp.dim) (hm : ip.mask = true) :
    Ready (T.env qp') ip := by
  refine ⟨?_, fun h0 => absurd (hm.symm.trans h0) (by simp), h.lam_min, h.t_min, h.clip, h.split⟩
  show _ = stOff (nct qp'.dim) (qp'.dim.N + 1)
  rw [hd]; exact h.nc

/-- iterates after an update of the core workspace -/
def QClipped (sol : Sol K) : Prop :=
  ∀ k j, k ≤ T.Q.base.dim.N → j < nct T.Q.inner.dim k →
    T.qarg.r .t_min ≤ sol.t k j ∧ ((maskLower T.Q).base.d_mask k j = 1 → T.qarg.r .lam_min ≤ sol.lam k j) ∧
      ((maskLower T.Q).base.d_mask k j = 0 → sol.lam k j = 0)

/-- strictly positive slacks, strictly positive multipliers of present constraints, zero multipliers of the others -/
def QInside (sol : Sol K) : Prop :=
  ∀ k j, k ≤ T.Q.base.dim.N → j < nct T.Q.inner.dim k →
    0 < sol.t k j ∧ ((maskLower T.Q).base.d_mask k j = 1 → 0 < sol.lam k j) ∧
      ((maskLower T.Q).base.d_mask k j = 0 → sol.lam k j = 0)

theorem QClipped.inside (hl : 0 < T.qarg.r .lam_min) (ht : 0 < T.qarg.r .t_min) {sol : Sol K} (h : QClipped T sol) : QInside T sol :=
  fun k j hk hj => ⟨ht.trans_le (h k j hk hj).1, fun h1 => hl.trans_le ((h k j hk hj).2.1 h1), (h k j hk hj).2.2⟩

/-- the iterate the core workspace holds after an update -/
theorem upd_iter (hm : Mask01 T.Q.inner) {s : QIpm K} (hf : QFrame0 T s) (s1 : Ipm K) (hk1 : Keep s.ip s1) :
    let ip := updStep (T.env s.qp) s1
    Ready (T.env s.qp) ip ∧ ip.mask = true ∧
    (∀ k j, k ≤ T.Q.base.dim.N → j < nct T.Q.inner.dim k →
      (maskLower T.Q).base.d_mask k j * (solOf T.Q.inner.dim ip.core).lam k j = (solOf T.Q.inner.dim ip.core).lam k j) ∧
    (T.qarg.i .t_lam_min = 2 → ∀ k j, k ≤ T.Q.base.dim.N → j < nct T.Q.inner.dim k →
      T.qarg.r .t_min ≤ (solOf T.Q.inner.dim ip.core).t k j ∧
      ((maskLower T.Q).base.d_mask k j = 1 → T.qarg.r .lam_min ≤ (solOf T.Q.inner.dim ip.core).lam k j) ∧
      ((maskLower T.Q).base.d_mask k j = 0 → (solOf T.Q.inner.dim ip.core).lam k j = 0)) := by
  intro ip
  have hd : s.qp.dim = T.Q.inner.dim := hf.dim
  have hN : (T.env s.qp).qp.dim.N = T.Q.base.dim.N := by show s.qp.dim.N = _; rw [hd]; rfl
  have hr1 : Ready (T.env s.qp) s1 := hf.ready.keep _ hk1
  have hr2 : Ready (T.env s.qp) { s1 with core := updateVar s1.core } := hr1.of _ (updateVar_pars s1.core) rfl
  have h01 := maskLower_01 hm
  have hmk : ip.mask = true := by
    show (updStep (T.env s.qp) s1).mask = true
    rw [updStep_mask, hk1.mask, hf.mask]
  have hdm : ∀ k j, k ≤ T.Q.base.dim.N → j < nct T.Q.inner.dim k → s.qp.d_mask k j = (maskLower T.Q).base.d_mask k j :=
    hf.dmask
  refine ⟨hr1.of _ (updStep_pars _ s1) (updStep_mask _ s1), hmk, fun k j hk hj => ?_, fun hc k j hk hj => ?_⟩
  · obtain ⟨e1, -⟩ := maskLam_val _ hr2 k j (by rw [hN]; exact hk) (by show j < nct s.qp.dim k; rw [hd]; exact hj)
    have e1' : (solOf T.Q.inner.dim ip.core).lam k j = s.qp.d_mask k j * (solOf T.Q.inner.dim (updateVar s1.core)).lam k j := by
      rw [← hd]; exact e1
    rw [e1', hdm k j hk hj]
    rcases h01 k j hk hj with h | h
    · rw [show (maskLower T.Q).base.d_mask k j = 0 from h]; ring
    · rw [show (maskLower T.Q).base.d_mask k j = 1 from h]; ring
  · have h := updStep_clipped (T.env s.qp) hr1 hc k j (by rw [hN]; exact hk) (by
      show j < nct s.qp.dim k
      rw [hd]; exact hj)
    have h' : T.qarg.r .t_min ≤ (solOf s.qp.dim ip.core).t k j ∧ (s.qp.d_mask k j = 1 → T.qarg.r .lam_min ≤ (solOf s.qp.dim ip.core).lam k j) ∧
      (s.qp.d_mask k j = 0 → (solOf s.qp.dim ip.core).lam k j = 0) := h
    rw [hd, hdm k j hk hj] at h'
    exact h'

theorem qresStep_frame (Q : Qcqp K) (s : QIpm K) : (qresStep Q s).qp = s.qp ∧ (qresStep Q s).sol = s.sol ∧ (qresStep Q s).rws = s.rws ∧
    pars (qresStep Q s).ip.core = pars s.ip.core ∧ (qresStep Q s).ip.mask = s.ip.mask ∧
    solOf Q.inner.dim (qresStep Q s).ip.core = solOf Q.inner.dim s.ip.core ∧ (qresStep Q s).ip.oob = s.ip.oob := ⟨rfl, rfl, rfl, rfl, rfl, rfl, rfl⟩

/-- a pass of the relative loop keeps the invariants, and its iterate is clipped -/
theorem qrelBody_inv (hm : Mask01 T.Q.inner) (kk : ℕ) (s s' : QIpm K) (hf : QFrame T s)
    (h : qrelBody T (maskLower T.Q) kk s = some s') :
    QFrame T s' ∧ QIt T s' ∧ QFresh T s' ∧ (T.qarg.i .t_lam_min = 2 → QClipped T s'.sol) ∧ s'.ip.oob = s.ip.oob ∧
      s'.rws.ws = s.rws.ws ∧ s'.rws.use_q_fun = s.rws.use_q_fun ∧ s'.rws.use_q_adj = s.rws.use_q_adj := by
  unfold qrelBody at h
  obtain ⟨ip, hip, rfl⟩ := Option.map_eq_some_iff.mp h
  obtain ⟨s1, hk1, rfl⟩ := deltaStep_upd _ kk _ _ hip
  obtain ⟨u1, u2, u3, u4⟩ := upd_iter T hm hf.frame0 s1 hk1
  generalize hipd : updStep (T.env s.qp) s1 = ip at *
  have hoob : ip.oob = s.ip.oob := by rw [← hipd, updStep_oob, hk1.oob]
  have hd : s.qp.dim = T.Q.inner.dim := hf.fix.dim
  simp only [u2, if_true]
  set sol := maskSol (maskLower T.Q).inner.dim s.qp.d_mask (convSol (maskLower T.Q).inner.dim (solOf (maskLower T.Q).inner.dim ip.core) s.sol) with hsol
  obtain ⟨v1, v2, v3⟩ := updateQp_val (maskLower T.Q) sol { qp := { s.qp with RSQrq := ip.kkt.RSQrq }, rws := s.rws, nux0 := s.nux0, nux1 := s.nux1 }
    (hf.fix.put _)
  have hrw : (updateQp (maskLower T.Q) sol { qp := { s.qp with RSQrq := ip.kkt.RSQrq }, rws := s.rws, nux0 := s.nux0, nux1 := s.nux1 }).rws.ws = s.rws.ws ∧
      (updateQp (maskLower T.Q) sol { qp := { s.qp with RSQrq := ip.kkt.RSQrq }, rws := s.rws, nux0 := s.nux0, nux1 := s.nux1 }).rws.use_q_fun = s.rws.use_q_fun ∧
      (updateQp (maskLower T.Q) sol { qp := { s.qp with RSQrq := ip.kkt.RSQrq }, rws := s.rws, nux0 := s.nux0, nux1 := s.nux1 }).rws.use_q_adj = s.rws.use_q_adj :=
    loop_inv (S := QwSt K) (fun _ (x : QwSt K) => x.rws.ws = s.rws.ws ∧ x.rws.use_q_fun = s.rws.use_q_fun ∧ x.rws.use_q_adj = s.rws.use_q_adj) _ _ _
      ⟨rfl, rfl, rfl⟩ (fun _ x _ hx => ⟨hx.1, hx.2.1, hx.2.2⟩)
  generalize hw : updateQp (maskLower T.Q) sol { qp := { s.qp with RSQrq := ip.kkt.RSQrq }, rws := s.rws, nux0 := s.nux0, nux1 := s.nux1 } = w at *
  have hlam : ∀ k i, k ≤ T.Q.base.dim.N → i < nct T.Q.inner.dim k → sol.lam k i = (solOf T.Q.inner.dim ip.core).lam k i := by
    intro k i hk hi
    have e : sol.lam k i = if k ≤ T.Q.base.dim.N ∧ i < nct T.Q.inner.dim k then
      s.qp.d_mask k i * (if k ≤ T.Q.base.dim.N ∧ i < nct T.Q.inner.dim k then (solOf T.Q.inner.dim ip.core).lam k i else s.sol.lam k i)
      else (if k ≤ T.Q.base.dim.N ∧ i < nct T.Q.inner.dim k then (solOf T.Q.inner.dim ip.core).lam k i else s.sol.lam k i) := rfl
    rw [e, if_pos ⟨hk, hi⟩, if_pos ⟨hk, hi⟩, hf.fix.mask k hk i hi]
    exact u3 k i hk hi
  have ht : ∀ k i, k ≤ T.Q.base.dim.N → i < nct T.Q.inner.dim k → sol.t k i = (solOf T.Q.inner.dim ip.core).t k i := by
    intro k i hk hi
    have e : sol.t k i = if k ≤ T.Q.base.dim.N ∧ i < nct T.Q.inner.dim k then (solOf T.Q.inner.dim ip.core).t k i else s.sol.t k i := rfl
    rw [e, if_pos ⟨hk, hi⟩]
  have hwd : w.qp.dim = s.qp.dim := v1.fix.dim.trans hf.fix.dim.symm
  refine ⟨⟨v1.fix, ?_, ?_, ?_⟩, ⟨?_, ?_, ?_, ?_, ?_⟩, ⟨v1, ⟨_, rfl⟩, rfl, ?_⟩, ?_, ?_, hrw.1, hrw.2.1, hrw.2.2⟩
  · refine (ready_qp T u1 hwd u2).of _ ?_ ?_
    · simp only [putG_core, putG4_core]; rfl
    · simp only [putG_mask]
      rw [(putG4_keep _ kk 7 (by omega) _ _).mask, putG_mask]; exact u2.symm
  · simp only [putG_mask]
    rw [(putG4_keep _ kk 7 (by omega) _ _).mask, putG_mask]; rfl
  · show w.rws.ws.mask_constr = true
    rw [hrw.1]; exact hf.rmask
  · intro k i hk hi
    simp only [putG_core, putG4_core]
    show sol.ux k i = (solOf T.Q.inner.dim ip.core).ux k i
    have e : sol.ux k i = if k ≤ T.Q.base.dim.N ∧ i < nvt T.Q.inner.dim k then (solOf T.Q.inner.dim ip.core).ux k i else s.sol.ux k i := rfl
    rw [e, if_pos ⟨hk, hi⟩]
  · intro k i hk hi
    simp only [putG_core, putG4_core]
    show sol.pi k i = (solOf T.Q.inner.dim ip.core).pi k i
    have e : sol.pi k i = if k < T.Q.base.dim.N ∧ i < net T.Q.inner.dim k then (solOf T.Q.inner.dim ip.core).pi k i else s.sol.pi k i := rfl
    rw [e, if_pos ⟨hk, hi⟩]
  · intro k i hk hi
    simp only [putG_core, putG4_core]
    exact hlam k i hk hi
  · intro k i hk hi
    simp only [putG_core, putG4_core]
    exact ht k i hk hi
  · intro k j hk hj
    show (maskLower T.Q).base.d_mask k j * sol.lam k j = sol.lam k j
    rw [hlam k j hk hj]; exact u3 k j hk hj
  · simp only [putG_core, putG4_core]
    rfl
  · intro hc k j hk hj
    have := u4 hc k j hk hj
    show T.qarg.r .t_min ≤ sol.t k j ∧ (_ → T.qarg.r .lam_min ≤ sol.lam k j) ∧ (_ → sol.lam k j = 0)
    rw [hlam k j hk hj, ht k j hk hj]; exact this
  · simp only [putG_oob _ kk 12 (by omega), putG_oob _ kk 11 (by omega), putG_oob _ kk 6 (by omega), putG4_oob _ kk 7 (by omega)]
    exact hoob

end
end Hpipm
