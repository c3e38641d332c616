/-
C100: status and meaning of success of the dense QCQP interior point solver, for the residuals and in the caller's terms.
-/
import Verif.DQcqpIpmRun

namespace Hpipm
open Finset
set_option linter.unusedSectionVars false

section
variable {K : Type*} [Field K] [LinearOrder K] [IsStrictOrderedRing K] (T : DQEnv K)

theorem dqmask_up_of {Q : DQcqp K} {sol : DqSol K} (hl : DQLamMasked (dqmaskLower Q) sol.lam) (j : ℕ) (hj : j < Q.nq) :
    dqw (dqmaskLower Q) sol.lam j =
      (dqview (dqmaskLower Q)).uqMask j * sol.lam (2 * Q.base.dim.nb + 2 * Q.base.dim.ng + Q.nq + j) := by
  have hn : Q.inner.dim.nct = 2 * Q.base.dim.nb + 2 * (Q.base.dim.ng + Q.nq) + 2 * Q.base.dim.ns := rfl
  have e1 := hl (Q.base.dim.nb + Q.base.dim.ng + j) (show _ < Q.inner.dim.nct by omega)
  have e2 := hl (2 * Q.base.dim.nb + 2 * Q.base.dim.ng + Q.nq + j) (show _ < Q.inner.dim.nct by omega)
  rw [(dqmaskLower_mask Q (Q.base.dim.nb + Q.base.dim.ng + j)).1 (Or.inl ⟨by omega, by omega⟩), zero_mul] at e1
  have e3 : dqw (dqmaskLower Q) sol.lam j =
      -sol.lam (Q.base.dim.nb + Q.base.dim.ng + j) + sol.lam (2 * Q.base.dim.nb + 2 * Q.base.dim.ng + Q.nq + j) := rfl
  have e4 : (dqview (dqmaskLower Q)).uqMask j = (dqmaskLower Q).base.d_mask (2 * Q.base.dim.nb + 2 * Q.base.dim.ng + Q.nq + j) := rfl
  rw [e3, ← e1, e4, e2, neg_zero, zero_add]

/-- **C100** What success of the relative formulation means.  Run the dense QCQP residual routine (without caches) on the caller's
QCQP as the solver leaves it and the returned solution, with any residual object and workspace: stationarity, equality and inequality
residuals are within the tolerances of the QCQP arguments, complementarity is within its tolerance of `tau_min` (of zero for absent
constraints), the duality gap is at most its tolerance, and fewer than `iter_max` iterations were made.  This holds when at least
one step was made, and for a success without any step when the returned multipliers of absent constraints are zero
(`exDQ0_success_wrong` shows that this is needed). -/
theorem dqipm_success (hwf : T.Q.WF) (hm : DMask01 T.Q.inner) (lf : ℕ) (sol : DqSol K) (s : DQIpm K) (o : DQSolveOut K)
    (hnc : s.ip.core.nc = T.Q.inner.dim.nct) (hact : DQActive T)
    (ha : T.qarg.i .abs_form = 0) (hit : 0 ≤ T.arg.i .iter_max)
    (h : dqipmSolve T lf sol s = some o) (hs : o.status = .SUCCESS)
    (hpos : 0 < o.iter ∨ ∀ j, j < T.Q.inner.dim.nct → o.Q.base.d_mask j = 0 → o.s.sol.lam j = 0)
    (res0 : DRes K) (ws0 : DQresWs K) (hws0 : DWsOk ws0.ws o.Q.inner)
    (hu0 : ws0.use_q_fun = false ∨ ws0.use_q_adj = false) :
    let D := T.Q.base.dim
    let r := dqresCompute o.Q o.s.sol res0 ws0
    (∀ i, i < D.nv + 2 * D.ns → |r.res_g i| ≤ T.arg.r .res_g_max) ∧
    (∀ i, i < D.ne → |r.res_b i| ≤ T.arg.r .res_b_max) ∧
    (∀ j, j < T.Q.inner.dim.nct → |r.res_d j| ≤ T.arg.r .res_d_max) ∧
    (∀ j, j < T.Q.inner.dim.nct → |r.res_m j - T.qarg.r .tau_min * o.Q.base.d_mask j| ≤ T.arg.r .res_m_max) ∧
    r.dual_gap ≤ T.arg.r .dual_gap_max ∧ (o.iter : ℤ) < T.arg.i .iter_max ∧
    (∀ j, j < T.Q.inner.dim.nct → o.Q.base.d_mask j = 0 → o.s.sol.lam j = 0) := by
  rcases dqipm_cases T lf sol s o h with ⟨hz, -⟩ | ⟨-, l, hl, ho⟩
  · exact absurd hz (dqactive_nc T sol s hnc hact)
  rw [if_neg (by rw [ha]; simp)] at ho
  subst ho
  have hstart := (dqstartState_inv T sol s hnc).2.2.2 ha
  obtain ⟨hF, hI, hR⟩ := ipmLoop_inv _ _ _ (fun x => DQFrame T x ∧ DQIt T x ∧ DQFresh T x)
    (fun kk a b h' hb => by
      obtain ⟨-, p2, -⟩ := dqpass_inv T hm kk a b h'.1.frame0 (fun _ => h'.1) hb
      exact p2 ha) lf _ l hstart hl
  have hM : DQLamMasked (dqmaskLower T.Q) l.2.sol.lam := by
    rcases hpos with hp | hp
    · exact ipmLoop_inv_pos _ _ _ (fun x => DQFrame T x) (fun x : DQIpm K => DQLamMasked (dqmaskLower T.Q) x.sol.lam)
        (fun kk a b h' hb => by
          obtain ⟨-, p2, p3, -⟩ := dqpass_inv T hm kk a b h'.frame0 (fun _ => h') hb
          exact ⟨(p2 ha).1, p3⟩) lf _ l hstart.1 hl hp
    · intro j hj
      have h0 : (dqmaskLower T.Q).base.d_mask j = 0 → l.2.sol.lam j = 0 := hp j hj
      rcases dqmaskLower_01 hm j hj with e | e
      · rw [h0 e, mul_zero]
      · rw [show (dqmaskLower T.Q).base.d_mask j = 1 from e, one_mul]
  intro D r
  have hs : statusOf T.arg l.1 (dqobs T l.2) = .SUCCESS := hs
  obtain ⟨-, hstop⟩ := ipmLoop_run _ _ _ _ _ _ hl
  have hle := ipmLoop_iter_le _ _ _ _ _ _ hl
  have hstop' : (l.1 : ℤ) ≥ T.arg.i .iter_max ∨ contRel T.arg (dqobs T l.2) = false := by
    refine hstop.imp_right fun e => ?_
    unfold dqguardOf at e
    rwa [if_neg (by rw [ha]; simp)] at e
  obtain ⟨n0, -, -, n1, n2, n3, n4, n5⟩ := (status_success_iff T.arg hit l.1 _ _ _ _ _ _ _ _ hstop' hle).mp hs
  obtain ⟨r0, hr0⟩ := hR.res
  have hwf' := dqmaskLower_wf hwf
  obtain ⟨q1, q2, q3, -, q5, -⟩ := dqres_cached (dqmaskLower T.Q) hwf' l.2.sol r0 res0 l.2.rws ws0 (fun _ => Or.inl hF.rmask) hws0
    hR.approx.f (fun i hi => by
      rw [hR.approx.adj i hi]
      refine sum_congr rfl fun j hj => ?_
      exact congrArg (· * _) (dqmask_up_of hM j (mem_range.mp hj))) hu0
  rw [← hr0] at q1 q2 q3 q5
  have hr : r = dqresCompute (dqmaskLower T.Q) l.2.sol res0 ws0 := rfl
  rw [← hr] at q1 q2 q3 q5
  clear_value r
  obtain ⟨⟨g1, -⟩, ⟨g2, -⟩, ⟨g3, -⟩, -⟩ := dres_norms T.Q.inner.dim l.2.res
  have e0 : dqresInfNorm (dqmaskLower T.Q) l.2.res = dresInfNorm T.Q.inner.dim l.2.res := rfl
  rw [hR.rmax, e0] at n1 n2 n3
  refine ⟨?_, ?_, ?_, ?_, ?_, n0, ?_⟩
  · intro i hi
    rw [← q1 i hi]; exact (g1 i hi).trans n1
  · intro i hi
    rw [← q2 i hi]; exact (g2 i hi).trans n2
  · intro j hj
    rw [← (q3 j hj).1]; exact (g3 j hj).trans n3
  · intro j hj
    rw [← (q3 j hj).2]
    refine le_trans ?_ n4
    unfold dqresMTau
    have hlt : j < l.2.ip.core.nc := by
      have e2 : l.2.ip.core.nc = l.2.qp.dim.nct := hF.ready.nc
      rw [e2, hF.fix.dim]; exact hj
    refine le_trans (le_of_eq ?_) ((vecnrmInf_spec l.2.ip.core.nc _ 0).1 _ hlt)
    congr 1
    unfold axpy
    rw [if_pos (by omega), Nat.sub_zero, Nat.zero_add, Nat.zero_add, hF.fix.mask j hj]
    show _ - _ * (dqmaskLower T.Q).base.d_mask j = _
    ring
  · rw [← q5]; exact n5
  · intro j hj h0
    have h0' : (dqmaskLower T.Q).base.d_mask j = 0 := h0
    have := hM j hj
    rw [h0', zero_mul] at this
    exact this.symm

/-! ### in the caller's terms -/

/-- what the solver does to the caller's data -/
theorem dqipm_data {lf : ℕ} {sol : DqSol K} {s : DQIpm K} {o : DQSolveOut K} (h : dqipmSolve T lf sol s = some o) :
    o.Q = dqmaskLower T.Q := by
  rcases dqipm_cases T lf sol s o h with ⟨-, rfl⟩ | ⟨-, r, -, rfl⟩ <;> rfl

/-- slack `i` softens some quadratic constraint -/
def DSoftensQuad (P : DUserQcqp K) (i : ℕ) : Prop := ∃ j, j < P.nq ∧ P.softq j = some i

theorem dqcut_softens {Q : DQcqp K} (i : ℕ)
    (h : DCut Q (2 * (Q.base.dim.nb + (Q.base.dim.ng + Q.nq)) + i)) : DSoftensQuad (dqview Q) i := by
  rcases h with h | ⟨jj, h1, h2, h3⟩
  · omega
  · refine ⟨jj, h1, ?_⟩
    show (if Q.base.idxs_rev (Q.base.dim.nb + Q.base.dim.ng + jj) = -1 then none
        else some (Q.base.idxs_rev (Q.base.dim.nb + Q.base.dim.ng + jj)).toNat) = _
    rw [if_neg h2]
    congr 1
    omega

theorem dqcut_none {Q : DQcqp K} (hwf : Q.WF) (j : ℕ)
    (h1 : ¬ (Q.base.dim.nb + Q.base.dim.ng ≤ j ∧ j < Q.base.dim.nb + (Q.base.dim.ng + Q.nq)))
    (h2 : j < 2 * (Q.base.dim.nb + (Q.base.dim.ng + Q.nq)) ∨ 2 * (Q.base.dim.nb + (Q.base.dim.ng + Q.nq)) + Q.base.dim.ns ≤ j) : ¬ DCut Q j := by
  rintro (h | ⟨jj, a, b, c⟩)
  · exact h1 h
  · have hw := hwf.2 (Q.base.dim.nb + Q.base.dim.ng + jj) (by
      show _ < Q.base.dim.nb + (Q.base.dim.ng + Q.nq)
      omega)
    rcases hw with hw | hw
    · exact b hw
    · have hw' : (Q.base.idxs_rev (Q.base.dim.nb + Q.base.dim.ng + jj)).toNat < Q.base.dim.ns := hw.2
      omega

/-- **C100 (near feasibility).**  A returned success satisfies, in terms of the problem the caller stated, the equalities up to
`res_b_max` and up to `res_d_max` every present box, linear and quadratic constraint, every upper slack bound and every lower slack
bound of a slack that does not soften a quadratic constraint. -/
theorem dqipm_success_feasible (hwf : T.Q.WF) (hm : DMask01 T.Q.inner) (hi : DQInitOk T.sq T.arg) (hc : T.qarg.i .t_lam_min = 2)
    (hlm : 0 < T.qarg.r .lam_min) (htm : 0 < T.qarg.r .t_min) (lf : ℕ) (sol : DqSol K) (s : DQIpm K) (o : DQSolveOut K)
    (hnc : s.ip.core.nc = T.Q.inner.dim.nct) (hact : DQActive T)
    (ha : T.qarg.i .abs_form = 0) (hit : 0 ≤ T.arg.i .iter_max)
    (h : dqipmSolve T lf sol s = some o) (hs : o.status = .SUCCESS) (hpos : 0 < o.iter) :
    let P := dqview T.Q
    let p := dptOf T.Q.inner.dim o.s.sol.v
    let eb := T.arg.r .res_b_max
    let ed := T.arg.r .res_d_max
    (∀ i, i < T.Q.base.dim.ne → |P.base.b i - P.base.Av o.s.sol.v i| ≤ eb) ∧
    (∀ j, j < T.Q.base.dim.nb + T.Q.base.dim.ng → P.base.lowerMask j ≠ 0 → P.base.lower j ≤ P.base.value p j + P.base.slackLo p j + ed) ∧
    (∀ j, j < T.Q.base.dim.nb + T.Q.base.dim.ng → P.base.upperMask j ≠ 0 → P.base.value p j ≤ P.base.upper j + P.base.slackUp p j + ed) ∧
    (∀ j, j < P.nq → P.uqMask j ≠ 0 → P.qvalue p j ≤ P.uq j + P.qslack p j + ed) ∧
    (∀ i, i < T.Q.base.dim.ns → P.base.llsMask i ≠ 0 → ¬ DSoftensQuad P i → P.base.lls i ≤ p.sl i + ed) ∧
    (∀ i, i < T.Q.base.dim.ns → P.base.lusMask i ≠ 0 → P.base.lus i ≤ p.su i + ed) := by
  intro P p eb ed
  have hQ := dqipm_data T h
  let ws0 : DQresWs K := ⟨⟨fun _ => 0, fun _ => 0, fun _ => 0, false, false, 0⟩, fun _ => 0, fun _ => 0, false, false, fun _ => 0, fun _ => 0⟩
  let res0 : DRes K := ⟨fun _ => 0, fun _ => 0, fun _ => 0, fun _ => 0, 0, 0, 0, 0⟩
  have hw0 : ∀ Q : DQcqp K, DWsOk ws0.ws Q.inner := fun Q h => by cases h
  obtain ⟨-, hb, hd, -⟩ := dqipm_success T hwf hm lf sol s o hnc hact ha hit h hs (Or.inl hpos) res0 ws0 (hw0 _) (Or.inl rfl)
  have hin := dqipm_solution_inside T hm hi hc hlm htm lf sol s o hnc hact h
  rw [hQ] at hb hd
  have hwf' := dqmaskLower_wf hwf
  have hcc : DCacheCond (dqmaskLower T.Q) o.s.sol ws0 := fun h => by cases h
  have h01 := dqmaskLower_01 hm
  obtain ⟨i1, i2, i3, i4, i5⟩ := dqres_inequalities (dqmaskLower T.Q) hwf' o.s.sol res0 ws0 (hw0 _) hcc
  have hn : T.Q.inner.dim.nct = 2 * T.Q.base.dim.nb + 2 * (T.Q.base.dim.ng + T.Q.nq) + 2 * T.Q.base.dim.ns := rfl
  have keep : ∀ j, ¬ (T.Q.base.dim.nb + T.Q.base.dim.ng ≤ j ∧ j < T.Q.base.dim.nb + (T.Q.base.dim.ng + T.Q.nq)) →
      (j < 2 * (T.Q.base.dim.nb + (T.Q.base.dim.ng + T.Q.nq)) ∨ 2 * (T.Q.base.dim.nb + (T.Q.base.dim.ng + T.Q.nq)) + T.Q.base.dim.ns ≤ j) →
      (dqmaskLower T.Q).base.d_mask j = T.Q.base.d_mask j := fun j a b => (dqmaskLower_mask T.Q j).2 (dqcut_none hwf j a b)
  have one : ∀ j, j < T.Q.inner.dim.nct → (dqmaskLower T.Q).base.d_mask j ≠ 0 → (dqmaskLower T.Q).base.d_mask j = 1 :=
    fun j hj hne => (h01 j hj).resolve_left hne
  refine ⟨fun i hi => ?_, fun j hj hne => ?_, fun j hj hne => ?_, fun j hj hne => ?_, fun i hi hne hsq => ?_, fun i hi hne => ?_⟩
  · have := hb i hi
    rw [dqres_equalities (dqmaskLower T.Q) o.s.sol res0 ws0 i hi] at this
    exact this
  · have hlt : j < T.Q.inner.dim.nct := by omega
    have hk := keep j (by omega) (by omega)
    have e1 : P.base.lowerMask j = T.Q.base.d_mask j := ((dqview_masks T.Q j).1 hj).1
    have e2 : (dqview (dqmaskLower T.Q)).base.lowerMask j = (dqmaskLower T.Q).base.d_mask j := ((dqview_masks (dqmaskLower T.Q) j).1 hj).1
    have h1 := one j hlt (by rw [hk, ← e1]; exact hne)
    have hr := hd j hlt
    rw [i1 j hj, e2, h1, one_mul] at hr
    have ht := (hin j hlt).1
    have hr' : |P.base.lower j - P.base.value p j - P.base.slackLo p j + o.s.sol.t j| ≤ ed := hr
    linarith [le_abs_self (P.base.lower j - P.base.value p j - P.base.slackLo p j + o.s.sol.t j)]
  · have hlt : T.Q.base.dim.nb + (T.Q.base.dim.ng + T.Q.nq) + j < T.Q.inner.dim.nct := by omega
    have hk := keep (T.Q.base.dim.nb + (T.Q.base.dim.ng + T.Q.nq) + j) (by omega) (by omega)
    have e1 : P.base.upperMask j = T.Q.base.d_mask (T.Q.base.dim.nb + (T.Q.base.dim.ng + T.Q.nq) + j) := ((dqview_masks T.Q j).1 hj).2
    have e2 : (dqview (dqmaskLower T.Q)).base.upperMask j = (dqmaskLower T.Q).base.d_mask (T.Q.base.dim.nb + (T.Q.base.dim.ng + T.Q.nq) + j) :=
      ((dqview_masks (dqmaskLower T.Q) j).1 hj).2
    have h1 := one _ hlt (by rw [hk, ← e1]; exact hne)
    have hr := hd _ hlt
    have i2' := i2 j hj
    rw [e2, h1, one_mul] at i2'
    have ht := (hin _ hlt).1
    have hr' : |P.base.value p j - P.base.upper j - P.base.slackUp p j + o.s.sol.t (T.Q.base.dim.nb + (T.Q.base.dim.ng + T.Q.nq) + j)| ≤ ed := by
      exact le_trans (le_of_eq (congrArg abs i2').symm) hr
    linarith [le_abs_self (P.base.value p j - P.base.upper j - P.base.slackUp p j + o.s.sol.t (T.Q.base.dim.nb + (T.Q.base.dim.ng + T.Q.nq) + j))]
  · have hj' : j < T.Q.nq := hj
    set q := T.Q.base.dim.nb + (T.Q.base.dim.ng + T.Q.nq) + (T.Q.base.dim.nb + T.Q.base.dim.ng) + j with hq
    have hqe : q = 2 * T.Q.base.dim.nb + 2 * T.Q.base.dim.ng + T.Q.nq + j := by omega
    have hlt : q < T.Q.inner.dim.nct := by omega
    have hk := keep q (by omega) (by omega)
    have e1 : P.uqMask j = T.Q.base.d_mask q := by rw [hqe]; rfl
    have e2 : (dqview (dqmaskLower T.Q)).uqMask j = (dqmaskLower T.Q).base.d_mask q := by rw [hqe]; rfl
    have h1 := one q hlt (by rw [hk, ← e1]; exact hne)
    have hr := hd q hlt
    have i3' := i3 j hj
    rw [e2, h1, one_mul] at i3'
    have ht := (hin q hlt).1
    have hr' : |P.qvalue p j - P.uq j - P.qslack p j + o.s.sol.t q| ≤ ed := by
      exact le_trans (le_of_eq (congrArg abs i3').symm) hr
    linarith [le_abs_self (P.qvalue p j - P.uq j - P.qslack p j + o.s.sol.t q)]
  · have hlt : 2 * (T.Q.base.dim.nb + (T.Q.base.dim.ng + T.Q.nq)) + i < T.Q.inner.dim.nct := by omega
    have hk : (dqmaskLower T.Q).base.d_mask (2 * (T.Q.base.dim.nb + (T.Q.base.dim.ng + T.Q.nq)) + i) = T.Q.base.d_mask _ :=
      (dqmaskLower_mask T.Q _).2 (fun hcut => hsq (dqcut_softens i hcut))
    have e1 : P.base.llsMask i = T.Q.base.d_mask (2 * (T.Q.base.dim.nb + (T.Q.base.dim.ng + T.Q.nq)) + i) := ((dqview_masks T.Q i).2 hi).1
    have e2 : (dqview (dqmaskLower T.Q)).base.llsMask i = (dqmaskLower T.Q).base.d_mask (2 * (T.Q.base.dim.nb + (T.Q.base.dim.ng + T.Q.nq)) + i) :=
      ((dqview_masks (dqmaskLower T.Q) i).2 hi).1
    have h1 := one _ hlt (by rw [hk, ← e1]; exact hne)
    have hr := hd _ hlt
    have i4' := i4 i hi
    rw [e2, h1, one_mul] at i4'
    have ht := (hin _ hlt).1
    have hr' : |P.base.lls i - p.sl i + o.s.sol.t (2 * (T.Q.base.dim.nb + (T.Q.base.dim.ng + T.Q.nq)) + i)| ≤ ed := by
      exact le_trans (le_of_eq (congrArg abs i4').symm) hr
    linarith [le_abs_self (P.base.lls i - p.sl i + o.s.sol.t (2 * (T.Q.base.dim.nb + (T.Q.base.dim.ng + T.Q.nq)) + i))]
  · have hlt : 2 * (T.Q.base.dim.nb + (T.Q.base.dim.ng + T.Q.nq)) + T.Q.base.dim.ns + i < T.Q.inner.dim.nct := by omega
    have hk := keep (2 * (T.Q.base.dim.nb + (T.Q.base.dim.ng + T.Q.nq)) + T.Q.base.dim.ns + i) (by omega) (by omega)
    have e1 : P.base.lusMask i = T.Q.base.d_mask (2 * (T.Q.base.dim.nb + (T.Q.base.dim.ng + T.Q.nq)) + T.Q.base.dim.ns + i) := ((dqview_masks T.Q i).2 hi).2
    have e2 : (dqview (dqmaskLower T.Q)).base.lusMask i = (dqmaskLower T.Q).base.d_mask (2 * (T.Q.base.dim.nb + (T.Q.base.dim.ng + T.Q.nq)) + T.Q.base.dim.ns + i) :=
      ((dqview_masks (dqmaskLower T.Q) i).2 hi).2
    have h1 := one _ hlt (by rw [hk, ← e1]; exact hne)
    have hr := hd _ hlt
    have i5' := i5 i hi
    rw [e2, h1, one_mul] at i5'
    have ht := (hin _ hlt).1
    have hr' : |P.base.lus i - p.su i + o.s.sol.t (2 * (T.Q.base.dim.nb + (T.Q.base.dim.ng + T.Q.nq)) + T.Q.base.dim.ns + i)| ≤ ed := by
      exact le_trans (le_of_eq (congrArg abs i5').symm) hr
    linarith [le_abs_self (P.base.lus i - p.su i + o.s.sol.t (2 * (T.Q.base.dim.nb + (T.Q.base.dim.ng + T.Q.nq)) + T.Q.base.dim.ns + i))]

/-! ### status -/

/-- **C100** The reported status for a problem with constraints the solver takes into account: `MAX_ITER` exactly when the iteration
limit was used up, `MIN_STEP` exactly when it was not and the last step was too short, `SUCCESS` otherwise; in the absolute formulation
`SUCCESS` after at least one step means that the sum of `lam*t` divided by the number of all entries (absent ones included) is within
tolerance of `tau_min`. -/
theorem dqipm_status (hm : DMask01 T.Q.inner) (lf : ℕ) (sol : DqSol K) (s : DQIpm K) (o : DQSolveOut K)
    (hnc : s.ip.core.nc = T.Q.inner.dim.nct) (hact : DQActive T) (h : dqipmSolve T lf sol s = some o) :
    (o.status = .MAX_ITER ↔ (o.iter : ℤ) = T.arg.i .iter_max) ∧
    (o.status = .MIN_STEP ↔ (o.iter : ℤ) ≠ T.arg.i .iter_max ∧
      (o.s.ip.core.alpha_prim ≤ T.arg.r .alpha_min ∨ o.s.ip.core.alpha_dual ≤ T.arg.r .alpha_min)) ∧
    (o.status = .MAX_ITER ∨ o.status = .MIN_STEP ∨ o.status = .SUCCESS) ∧
    (T.qarg.i .abs_form ≠ 0 → 0 ≤ T.arg.i .iter_max → 0 < o.iter → o.status = .SUCCESS →
      |(∑ j ∈ range T.Q.inner.dim.nct, o.s.sol.lam j * o.s.sol.t j) / (T.Q.inner.dim.nct : K) - T.qarg.r .tau_min| ≤ T.arg.r .res_m_max) := by
  rcases dqipm_cases T lf sol s o h with ⟨hz, -⟩ | ⟨-, l, hl, ho⟩
  · exact absurd hz (dqactive_nc T sol s hnc hact)
  have hst : ∀ r : ℕ × DQIpm K,
      ((dqepilogue T (dqmaskLower T.Q) r).status = .MAX_ITER ↔ (r.1 : ℤ) = T.arg.i .iter_max) ∧
      ((dqepilogue T (dqmaskLower T.Q) r).status = .MIN_STEP ↔ (r.1 : ℤ) ≠ T.arg.i .iter_max ∧
        (r.2.ip.core.alpha_prim ≤ T.arg.r .alpha_min ∨ r.2.ip.core.alpha_dual ≤ T.arg.r .alpha_min)) ∧
      ((dqepilogue T (dqmaskLower T.Q) r).status = .MAX_ITER ∨ (dqepilogue T (dqmaskLower T.Q) r).status = .MIN_STEP ∨
        (dqepilogue T (dqmaskLower T.Q) r).status = .SUCCESS) := by
    intro r
    have e : (dqepilogue T (dqmaskLower T.Q) r).status = statusOf T.arg r.1 (dqobs T r.2) := rfl
    rw [e]
    unfold statusOf dqobs Fl.le
    by_cases h1 : (r.1 : ℤ) = T.arg.i .iter_max
    · simp [h1]
    · by_cases h2 : r.2.ip.core.alpha_prim ≤ T.arg.r .alpha_min ∨ r.2.ip.core.alpha_dual ≤ T.arg.r .alpha_min
      · simp [h1, h2]
      · simp [h1, h2]
  obtain ⟨-, hstop⟩ := ipmLoop_run _ _ _ _ _ _ hl
  have hle := ipmLoop_iter_le _ _ _ _ _ _ hl
  by_cases ha : T.qarg.i .abs_form ≠ 0
  · rw [if_pos ha] at ho
    subst ho
    obtain ⟨p1, p2, p3⟩ := hst (l.1, dqabsEnd T (dqmaskLower T.Q) l.1 l.2)
    refine ⟨p1, p2, p3, fun _ hit hpos hs => ?_⟩
    obtain ⟨e1, e2, -⟩ := dqabsEnd_it T l.1 l.2
    obtain ⟨m1, m2, m3⟩ := ipmLoop_inv_pos _ _ _ (fun x => DQFrame0 T x) (fun x : DQIpm K => DQFrame0 T x ∧
        (∀ i, i < T.Q.inner.dim.nct → x.sol.lam i = x.ip.core.lam i ∧ x.sol.t i = x.ip.core.t i) ∧
        x.ip.core.mu = (∑ i ∈ range x.ip.core.nc, x.ip.core.lam i * x.ip.core.t i) / (x.ip.core.nc : K))
      (fun kk a b h' hb => by
        unfold dqpassOf at hb
        rw [if_pos ha] at hb
        obtain ⟨a1, a2, -, -, -, a5⟩ := dqabsBody_inv T hm kk a b h' hb
        exact ⟨a1, a1, a2, a5⟩) lf _ l (dqstartState_inv T sol s hnc).1 hl hpos
    have hncl : l.2.ip.core.nc = T.Q.inner.dim.nct := by
      have e2 : l.2.ip.core.nc = l.2.qp.dim.nct := m1.ready.nc
      rw [e2, m1.dim]
    have hmu' : l.2.ip.core.mu = (∑ j ∈ range T.Q.inner.dim.nct, l.2.sol.lam j * l.2.sol.t j) / (T.Q.inner.dim.nct : K) := by
      rw [m3, hncl]
      congr 1
      refine sum_congr rfl fun j hj => ?_
      obtain ⟨h1, h2⟩ := m2 j (mem_range.mp hj)
      rw [h1, h2]
    show |(∑ j ∈ range T.Q.inner.dim.nct, (dqabsEnd T (dqmaskLower T.Q) l.1 l.2).sol.lam j * (dqabsEnd T (dqmaskLower T.Q) l.1 l.2).sol.t j) / _ - _| ≤ _
    rw [e1, ← hmu']
    rw [hs] at p1 p2
    have n1 : ¬ (l.1 : ℤ) = T.arg.i .iter_max := fun e => by have := p1.mpr e; cases this
    have n2 : ¬ (l.2.ip.core.alpha_prim ≤ T.arg.r .alpha_min ∨ l.2.ip.core.alpha_dual ≤ T.arg.r .alpha_min) := by
      intro e
      have := p2.mpr ⟨n1, by rw [e2]; exact e⟩
      cases this
    push Not at n2
    rcases hstop with hstop | hstop
    · exfalso
      rw [max_eq_left hit] at hle
      omega
    · unfold dqguardOf at hstop
      rw [if_pos ha] at hstop
      unfold contAbs dqobs DQEnv.absArg at hstop
      simp only [Fl.gt, Option.map_some, gt_iff_lt, decide_true, Bool.true_and, decide_eq_false_iff_not, not_lt] at hstop
      have := hstop
      simp at this
      exact this n2.1 n2.2
  · rw [if_neg ha] at ho
    subst ho
    obtain ⟨p1, p2, p3⟩ := hst l
    exact ⟨p1, p2, p3, fun h => absurd h ha⟩

end
end Hpipm
