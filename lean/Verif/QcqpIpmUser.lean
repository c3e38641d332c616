/-
C83: statistics, status and meaning of success of the QCQP interior point solver, for the residuals and in the caller's terms.
-/
import Verif.QcqpIpmRun
import Verif.QcqpEx
import Verif.IpmUser

namespace Hpipm
open Finset
set_option linter.unusedSectionVars false

section
variable {K : Type*} [Field K] [LinearOrder K] [IsStrictOrderedRing K] (T : QEnv K)

/-! ### statistics -/

theorem qunc_oob (Q : Qcqp K) (x : QIpm K) : (qsolveUnc T Q x).s.ip.oob = x.ip.oob := by
  unfold qsolveUnc
  dsimp only
  generalize unconstr T.sq _ _ _ _ _ = k
  split
  · generalize qresCompute Q _ _ _ = r
    generalize qresInfNorm Q r = m
    dsimp only
    split
    · rename_i h0
      have h0' : 0 < (T.env x.qp).statMax := h0
      rw [put_oob, put_oob, put_oob, put_oob, put_oob, put_oob] <;> first | rfl | (push_cast; omega)
    · rfl
  · rfl

theorem qrelStart_oob (Q : Qcqp K) (x : QIpm K) : (qrelStart T Q x).ip.oob = x.ip.oob := by
  unfold qrelStart
  extract_lets s1 E ip
  have h1 : s1.ip.oob = x.ip.oob := rfl
  clear_value s1
  show ip.oob = _
  rw [← h1]
  simp only [ip]
  split
  · rename_i h0
    have h0' : 0 < E.statMax := h0
    rw [put_oob, put_oob, put_oob, put_oob, put_oob, put_oob] <;> first | rfl | (push_cast; omega)
  · rfl

theorem qabsEnd_oob (Q : Qcqp K) (kk : ℕ) (x : QIpm K) : (qabsEnd T Q kk x).ip.oob = x.ip.oob := by
  unfold qabsEnd
  split
  · extract_lets r m E
    clear_value r m
    dsimp only
    split
    · rename_i h0
      have h0' : (kk : ℤ) < E.statMax := h0
      rw [put_oob, put_oob, put_oob, put_oob, put_oob, put_oob] <;> first | rfl | (push_cast; omega)
    · rfl
  · rfl

theorem qbegin_oob (sol0 : Sol K) (s : QIpm K) : (qbegin T sol0 s).ip.oob = s.ip.oob := rfl

/-- **C83** The QCQP solver never writes outside its statistics table, whatever `iter_max` and the size of the table. -/
theorem qipm_stat_inside (hm : Mask01 T.Q.inner) (lf : ℕ) (sol : Sol K) (s : QIpm K) (hs : s.ip.oob = false) (o : QSolveOut K)
    (hnc : s.ip.core.nc = stOff (nct T.Q.inner.dim) (T.Q.base.dim.N + 1)) (h : qipmSolve T lf sol s = .ok o) : o.s.ip.oob = false := by
  obtain ⟨sol0, h0, hcs⟩ := qipm_cases T lf sol s o h
  rcases hcs with ⟨-, rfl⟩ | ⟨-, r, hr, ho⟩
  · rw [qunc_oob, qbegin_oob]; exact hs
  · have hst : (qstartState T sol0 s).ip.oob = false := by
      unfold qstartState
      split
      · exact hs
      · rw [qrelStart_oob]; exact hs
    obtain ⟨-, -, -, hoob⟩ := ipmLoop_inv _ _ _ (fun x => QFrame0 T x ∧ (T.qarg.i .abs_form = 0 → QFrame T x) ∧ True ∧ x.ip.oob = false)
      (fun kk a b ha hb => by
        obtain ⟨p1, p2, -, p4⟩ := qpass_inv T hm kk a b ha.1 ha.2.1 hb
        exact ⟨p1, fun h => (p2 h).1, trivial, p4.trans ha.2.2.2⟩) lf _ r
      (by
        obtain ⟨s1, -, s3⟩ := qstartState_inv T hm sol0 s hnc
        exact ⟨s1, fun h => (s3 h).1, trivial, hst⟩) hr
    rw [ho]
    show (if T.qarg.i .abs_form ≠ 0 then (r.1, qabsEnd T (maskLower T.Q) r.1 r.2) else r).2.ip.oob = _
    split
    · exact (qabsEnd_oob T _ _ _).trans hoob
    · exact hoob

/-! ### meaning of success -/

/-- **C83** What success of the relative formulation means.  Run the QCQP residual routine (without caches) on the caller's QCQP
as the solver leaves it and the returned solution, with any residual object and workspace: stationarity, dynamics and inequality
residuals are within the tolerances of the QCQP arguments, complementarity is within its tolerance of `tau_min` (of zero for
absent constraints), the duality gap is at most its tolerance, and fewer than `iter_max` iterations were made. -/
theorem qipm_success (hwf : T.Q.WF) (hm : Mask01 T.Q.inner) (lf : ℕ) (sol : Sol K) (s : QIpm K) (o : QSolveOut K)
    (hnc : s.ip.core.nc = stOff (nct T.Q.inner.dim) (T.Q.base.dim.N + 1)) (hact : QActive T)
    (ha : T.qarg.i .abs_form = 0) (hit : 0 ≤ T.arg.i .iter_max)
    (h : qipmSolve T lf sol s = .ok o) (hs : o.status = .SUCCESS) (res0 : Res K) (ws0 : QresWs K) (hws0 : ws0.ws.Ok o.Q.inner)
    (hu0 : ws0.use_q_fun = false ∨ ws0.use_q_adj = false) :
    let D := T.Q.base.dim
    let r := qresCompute o.Q o.s.sol res0 ws0
    (∀ k i, k ≤ D.N → i < D.nu k + D.nx k + 2 * D.ns k → |r.res_g k i| ≤ T.arg.r .res_g_max) ∧
    (∀ k i, k < D.N → i < D.nx (k + 1) → |r.res_b k i| ≤ T.arg.r .res_b_max) ∧
    (∀ k j, k ≤ D.N → j < nct T.Q.inner.dim k → |r.res_d k j| ≤ T.arg.r .res_d_max) ∧
    (∀ k j, k ≤ D.N → j < nct T.Q.inner.dim k → |r.res_m k j - T.qarg.r .tau_min * o.Q.base.d_mask k j| ≤ T.arg.r .res_m_max) ∧
    r.dual_gap ≤ T.arg.r .dual_gap_max ∧ (o.iter : ℤ) < T.arg.i .iter_max ∧ LamMasked o.Q.inner o.s.sol.lam := by
  obtain ⟨sol0, h0, hcs⟩ := qipm_cases T lf sol s o h
  rcases hcs with ⟨hz, -⟩ | ⟨-, l, hl, ho⟩
  · exact absurd hz (qactive_nc T hm sol0 s hnc hact)
  rw [if_neg (by rw [ha]; simp)] at ho
  subst ho
  obtain ⟨-, hF, hI, hR⟩ := ipmLoop_inv _ _ _ (fun x => QFrame0 T x ∧ QFrame T x ∧ QIt T x ∧ QFresh T x)
    (fun kk a b h' hb => by
      obtain ⟨p1, p2, -⟩ := qpass_inv T hm kk a b h'.1 (fun _ => h'.2.1) hb
      exact ⟨p1, p2 ha⟩) lf _ l
    (by
      obtain ⟨s1, -, s3⟩ := qstartState_inv T hm sol0 s hnc
      exact ⟨s1, s3 ha⟩) hl
  intro D r
  have hs : statusOf T.arg l.1 (qobs T l.2) = .SUCCESS := hs
  obtain ⟨-, hstop⟩ := ipmLoop_run _ _ _ _ _ _ hl
  have hle := ipmLoop_iter_le _ _ _ _ _ _ hl
  have hstop' : (l.1 : ℤ) ≥ T.arg.i .iter_max ∨ contRel T.arg (qobs T l.2) = false := by
    refine hstop.imp_right fun e => ?_
    unfold qguardOf at e
    rwa [if_neg (by rw [ha]; simp)] at e
  obtain ⟨n0, -, -, n1, n2, n3, n4, n5⟩ := (status_success_iff T.arg hit l.1 _ _ _ _ _ _ _ _ hstop' hle).mp hs
  obtain ⟨r0, hr0⟩ := hR.res
  have hwf' := maskLower_wf hwf
  have hc := approx_cache (maskLower T.Q) l.2.sol l.2.qp l.2.rws hR.approx hI.masked (fun k j hk hlo => maskLower_lo T.Q k j hk hlo)
  obtain ⟨q1, q2, q3, -⟩ := qres_cached (maskLower T.Q) hwf' l.2.sol r0 res0 l.2.rws ws0 (fun _ => Or.inl hF.rmask) hws0 hc hu0
  rw [← hr0] at q1 q2 q3
  have hr : r = qresCompute (maskLower T.Q) l.2.sol res0 ws0 := rfl
  rw [← hr] at q1 q2 q3
  clear_value r
  obtain ⟨⟨g1, -⟩, ⟨g2, -⟩, ⟨g3, -⟩, -⟩ := res_norms T.Q.inner.dim l.2.res
  have e0 : qresInfNorm (maskLower T.Q) l.2.res = resInfNorm T.Q.inner.dim l.2.res := rfl
  rw [hR.rmax, e0] at n1 n2 n3
  refine ⟨?_, ?_, ?_, ?_, ?_, n0, hI.masked⟩
  · intro k i hk hi
    rw [← (q1 k hk).1 i hi]; exact (g1 k i hk hi).trans n1
  · intro k i hk hi
    have hk' : k < T.Q.base.dim.N := hk
    rw [← (q1 k (Nat.le_of_lt hk')).2.1 hk i hi]; exact (g2 k i hk hi).trans n2
  · intro k j hk hj
    rw [← ((q1 k hk).2.2 j hj).1]; exact (g3 k j hk hj).trans n3
  · intro k j hk hj
    have hk' : k < T.Q.base.dim.N + 1 := Nat.lt_succ_of_le hk
    have e : r.res_m k j = l.2.res.res_m k j := ((q1 k hk).2.2 j hj).2.symm
    rw [e]
    refine le_trans ?_ n4
    unfold resMTau
    have hlt := stOff_lt (len := nct T.Q.inner.dim) (N := T.Q.base.dim.N) hk hj
    have hdim : l.2.qp.dim = T.Q.inner.dim := hF.fix.dim
    have hlt' : stOff (nct T.Q.inner.dim) k + j < l.2.ip.core.nc := by
      have := hF.ready.nc
      have e2 : (T.env l.2.qp).qp.dim = T.Q.inner.dim := hdim
      rw [e2] at this
      rw [this]; exact hlt
    refine le_trans (le_of_eq ?_) ((vecnrmInf_spec l.2.ip.core.nc _ 0).1 _ hlt')
    congr 1
    unfold axpy
    rw [if_pos (by omega), hR.rm, Nat.sub_zero, Nat.zero_add, Nat.zero_add]
    unfold fmask
    show _ = stFlat (nct T.Q.inner.dim) l.2.res.res_m (T.Q.base.dim.N + 1) _ + -T.qarg.r .tau_min * stFlat (nct l.2.qp.dim) l.2.qp.d_mask (l.2.qp.dim.N + 1) _
    rw [hdim, stFlat_at (nct T.Q.inner.dim) l.2.res.res_m (T.Q.base.dim.N + 1) k j hk' hj,
      stFlat_at (nct T.Q.inner.dim) l.2.qp.d_mask (T.Q.inner.dim.N + 1) k j hk' hj,
      hF.fix.mask k hk j hj]
    show _ - _ * (maskLower T.Q).base.d_mask k j = _
    ring
  · rw [show r.dual_gap = l.2.res.dual_gap from q3.symm]; exact n5

/-! ### status -/

/-- sum of `lam*t` over all constraint entries -/
def qcompAll (D : QpDim) (sol : Sol K) : K := ∑ k ∈ range (D.N + 1), ∑ j ∈ range (nct D k), sol.lam k j * sol.t k j

/-- number of constraint entries -/
def qcountAll (D : QpDim) : ℕ := ∑ k ∈ range (D.N + 1), nct D k

theorem stOff_count (D : QpDim) : ∀ n, stOff (nct D) n = ∑ k ∈ range n, nct D k := by
  intro n
  induction n with
  | zero => rfl
  | succ n ih => rw [sum_range_succ, ← ih]; rfl

/-- **C83** The reported status of the QCQP solver for a problem with constraints it takes into account: `MAX_ITER` exactly when
the iteration limit was used up, `MIN_STEP` exactly when it was not and the last step was too short, `SUCCESS` otherwise; in the
absolute formulation `SUCCESS` means that the sum of `lam*t` divided by the number of all entries (absent ones included) is within
tolerance of `tau_min`. -/
theorem qipm_status (hm : Mask01 T.Q.inner) (lf : ℕ) (sol : Sol K) (s : QIpm K) (o : QSolveOut K)
    (hnc : s.ip.core.nc = stOff (nct T.Q.inner.dim) (T.Q.base.dim.N + 1)) (hact : QActive T)
    (h : qipmSolve T lf sol s = .ok o) :
    (o.status = .MAX_ITER ↔ (o.iter : ℤ) = T.arg.i .iter_max) ∧
    (o.status = .MIN_STEP ↔ (o.iter : ℤ) ≠ T.arg.i .iter_max ∧
      (o.s.ip.core.alpha_prim ≤ T.arg.r .alpha_min ∨ o.s.ip.core.alpha_dual ≤ T.arg.r .alpha_min)) ∧
    (o.status = .MAX_ITER ∨ o.status = .MIN_STEP ∨ o.status = .SUCCESS) ∧
    (T.qarg.i .abs_form ≠ 0 → 0 ≤ T.arg.i .iter_max → 0 < o.iter → o.status = .SUCCESS →
      |qcompAll T.Q.inner.dim o.s.sol / (qcountAll T.Q.inner.dim : K) - T.qarg.r .tau_min| ≤ T.arg.r .res_m_max) := by
  obtain ⟨sol0, h0, hcs⟩ := qipm_cases T lf sol s o h
  rcases hcs with ⟨hz, -⟩ | ⟨-, l, hl, ho⟩
  · exact absurd hz (qactive_nc T hm sol0 s hnc hact)
  have hst : ∀ r : ℕ × QIpm K,
      ((qepilogue T (maskLower T.Q) r).status = .MAX_ITER ↔ (r.1 : ℤ) = T.arg.i .iter_max) ∧
      ((qepilogue T (maskLower T.Q) r).status = .MIN_STEP ↔ (r.1 : ℤ) ≠ T.arg.i .iter_max ∧
        (r.2.ip.core.alpha_prim ≤ T.arg.r .alpha_min ∨ r.2.ip.core.alpha_dual ≤ T.arg.r .alpha_min)) ∧
      ((qepilogue T (maskLower T.Q) r).status = .MAX_ITER ∨ (qepilogue T (maskLower T.Q) r).status = .MIN_STEP ∨
        (qepilogue T (maskLower T.Q) r).status = .SUCCESS) := by
    intro r
    have e : (qepilogue T (maskLower T.Q) r).status = statusOf T.arg r.1 (qobs T r.2) := rfl
    rw [e]
    unfold statusOf qobs Fl.le
    by_cases h1 : (r.1 : ℤ) = T.arg.i .iter_max
    · simp [h1]
    · by_cases h2 : r.2.ip.core.alpha_prim ≤ T.arg.r .alpha_min ∨ r.2.ip.core.alpha_dual ≤ T.arg.r .alpha_min
      · simp [h1, h2]
      · simp [h1, h2]
  obtain ⟨-, hstop⟩ := ipmLoop_run _ _ _ _ _ _ hl
  have hle := ipmLoop_iter_le _ _ _ _ _ _ hl
  by_cases ha : T.qarg.i .abs_form ≠ 0
  · rw [if_pos ha] at ho
    subst ho
    obtain ⟨p1, p2, p3⟩ := hst (l.1, qabsEnd T (maskLower T.Q) l.1 l.2)
    refine ⟨p1, p2, p3, fun _ hit hpos hs => ?_⟩
    obtain ⟨e1, e2⟩ := qabsEnd_it T l.1 l.2
    have hmu := ipmLoop_inv_pos _ _ _ (fun x => QFrame0 T x) (fun x : QIpm K => QFrame0 T x ∧
        (∀ k i, k ≤ T.Q.base.dim.N → i < nct T.Q.inner.dim k → x.sol.lam k i = (solOf T.Q.inner.dim x.ip.core).lam k i ∧
          x.sol.t k i = (solOf T.Q.inner.dim x.ip.core).t k i) ∧
        x.ip.core.mu = (∑ i ∈ range x.ip.core.nc, x.ip.core.lam i * x.ip.core.t i) / (x.ip.core.nc : K))
      (fun kk a b h' hb => by
        unfold qpassOf at hb
        rw [if_pos ha] at hb
        obtain ⟨a1, a2, -, -, a5⟩ := qabsBody_inv T hm kk a b h' hb
        exact ⟨a1, a1, a2, a5⟩) lf _ l (qstartState_inv T hm sol0 s hnc).1 hl hpos
    obtain ⟨m1, m2, m3⟩ := hmu
    have hncl : l.2.ip.core.nc = stOff (nct T.Q.inner.dim) (T.Q.base.dim.N + 1) := by
      have := m1.ready.nc
      have e2 : (T.env l.2.qp).qp.dim = T.Q.inner.dim := m1.dim
      rw [e2] at this
      exact this
    have hmu' : l.2.ip.core.mu = qcompAll T.Q.inner.dim l.2.sol / (qcountAll T.Q.inner.dim : K) := by
      rw [m3, hncl]
      congr 1
      · have e3 : ∀ n, (∑ i ∈ range (stOff (nct T.Q.inner.dim) n), l.2.ip.core.lam i * l.2.ip.core.t i) =
          ∑ k ∈ range n, ∑ j ∈ range (nct T.Q.inner.dim k), l.2.ip.core.lam (stOff (nct T.Q.inner.dim) k + j) * l.2.ip.core.t (stOff (nct T.Q.inner.dim) k + j) := by
          intro n
          induction n with
          | zero => rfl
          | succ n ih =>
            rw [sum_range_succ, ← ih, show stOff (nct T.Q.inner.dim) (n + 1) = stOff (nct T.Q.inner.dim) n + nct T.Q.inner.dim n from rfl,
              sum_range_add]
        rw [e3]
        unfold qcompAll
        refine sum_congr rfl fun k hk => sum_congr rfl fun j hj => ?_
        obtain ⟨h1, h2⟩ := m2 k j (by have hk' : k < T.Q.base.dim.N + 1 := mem_range.mp hk; omega) (mem_range.mp hj)
        rw [h1, h2]; rfl
      · rw [stOff_count]; rfl
    show |qcompAll T.Q.inner.dim (qabsEnd T (maskLower T.Q) l.1 l.2).sol / _ - _| ≤ _
    rw [e1, ← hmu']
    rw [hs] at p1 p2
    have n1 : ¬ (l.1 : ℤ) = T.arg.i .iter_max := fun e => by have := p1.mpr e; cases this
    have n2 : ¬ (l.2.ip.core.alpha_prim ≤ T.arg.r .alpha_min ∨ l.2.ip.core.alpha_dual ≤ T.arg.r .alpha_min) := by
      intro e
      have := p2.mpr ⟨n1, by rw [e2]; exact e⟩
      cases this
    push Not at n2
    rcases hstop with hstop | hstop
    · exfalso
      rw [max_eq_left hit] at hle
      omega
    · unfold qguardOf at hstop
      rw [if_pos ha] at hstop
      unfold contAbs qobs at hstop
      simp only [Fl.gt, Option.map_some, gt_iff_lt, decide_true, Bool.true_and, decide_eq_false_iff_not, not_lt] at hstop
      have := hstop
      simp at this
      exact this n2.1 n2.2
  · rw [if_neg ha] at ho
    subst ho
    obtain ⟨p1, p2, p3⟩ := hst l
    exact ⟨p1, p2, p3, fun h => absurd h ha⟩

end
end Hpipm
