/-
C83: what success of the QCQP interior point solver means for the caller's QCQP: near feasibility, near stationarity,
complementarity, suboptimality.

The solver switches off the lower bounds of the slacks which soften quadratic constraints (`maskLower`), in the caller's data;
the statements below are about the QCQP as it was before the call.
-/
import Verif.QcqpIpmUser

namespace Hpipm
open Finset
set_option linter.unusedSectionVars false

section
variable {K : Type*} [Field K] [LinearOrder K] [IsStrictOrderedRing K]

/-- slack `s` of stage `k` softens a quadratic constraint -/
def UserQcqp.SoftensQuad (P : UserQcqp K) (k s : ℕ) : Prop := ∃ j, j < P.nq k ∧ P.softq k j = some s

/-! ### the caller's QCQP before and after the call -/

theorem cut_range {Q : Qcqp K} (hwf : Q.WF) (k j : ℕ) (hk : k ≤ Q.base.dim.N) (h : Cut Q k j) :
    LoQ Q k j ∨ (∃ s, s < Q.base.dim.ns k ∧ j = 2 * Q.base.dim.nb k + 2 * Q.base.dim.ng k + 2 * Q.nq k + s ∧ (qview Q).SoftensQuad k s) := by
  rcases h with h | ⟨jj, h1, h2, h3⟩
  · exact Or.inl h
  · refine Or.inr ⟨_, ?_, h3, jj, h1, ?_⟩
    · have hw := hwf.2 k (Q.base.dim.nb k + Q.base.dim.ng k + jj) hk (by
        show _ < Q.base.dim.nb k + (Q.base.dim.ng k + Q.nq k)
        omega)
      rcases hw with hw | hw
      · exact absurd hw h2
      · exact hw.2
    · show (if Q.base.idxs_rev k (Q.base.dim.nb k + Q.base.dim.ng k + jj) = -1 then none
        else some (Q.base.idxs_rev k (Q.base.dim.nb k + Q.base.dim.ng k + jj)).toNat) = _
      rw [if_neg h2]

theorem cut_of_softens (Q : Qcqp K) (k s : ℕ) (h : (qview Q).SoftensQuad k s) :
    Cut Q k (2 * Q.base.dim.nb k + 2 * Q.base.dim.ng k + 2 * Q.nq k + s) := by
  obtain ⟨jj, h1, h2⟩ := h
  have h2' : (if Q.base.idxs_rev k (Q.base.dim.nb k + Q.base.dim.ng k + jj) = -1 then none
        else some (Q.base.idxs_rev k (Q.base.dim.nb k + Q.base.dim.ng k + jj)).toNat) = some s := h2
  by_cases hn : Q.base.idxs_rev k (Q.base.dim.nb k + Q.base.dim.ng k + jj) = -1
  · rw [if_pos hn] at h2'; cases h2'
  · rw [if_neg hn] at h2'
    cases h2'
    exact Or.inr ⟨jj, h1, hn, rfl⟩

/-- **C83 (the caller's data after a solve).**  The solver only changes masks, and of those that matter only the masks of the
lower bounds of slacks which soften quadratic constraints, which it sets to zero. -/
theorem qafter_masks (Q : Qcqp K) (hwf : Q.WF) :
    let P := qview Q
    let P' := qview (maskLower Q)
    (∀ k j, k ≤ P.base.N → j < P.base.nb k + P.base.ng k → P'.base.lowerMask k j = P.base.lowerMask k j ∧ P'.base.upperMask k j = P.base.upperMask k j) ∧
    (∀ k j, k ≤ P.base.N → j < P.nq k → P'.uqMask k j = P.uqMask k j) ∧
    (∀ k s, k ≤ P.base.N → s < P.base.ns k → P'.base.lusMask k s = P.base.lusMask k s ∧
      (P.SoftensQuad k s → P'.base.llsMask k s = 0) ∧ (¬ P.SoftensQuad k s → P'.base.llsMask k s = P.base.llsMask k s)) := by
  intro P P'
  have key : ∀ k j, k ≤ Q.base.dim.N → ¬ Cut Q k j → (maskLower Q).inner.d_mask k j = Q.inner.d_mask k j :=
    fun k j hk h => (maskLower_mask Q k j hk).2 h
  have nc : ∀ k j, k ≤ Q.base.dim.N → ¬ LoQ Q k j → (∀ s, s < Q.base.dim.ns k → (qview Q).SoftensQuad k s →
      j ≠ 2 * Q.base.dim.nb k + 2 * Q.base.dim.ng k + 2 * Q.nq k + s) → ¬ Cut Q k j := by
    intro k j hk h1 h2 hc
    rcases cut_range hwf k j hk hc with h | ⟨s, hs, he, hq⟩
    · exact h1 h
    · exact h2 s hs hq he
  refine ⟨fun k j hk hj => ?_, fun k j hk hj => ?_, fun k s hk hs => ?_⟩
  · have hj' : j < Q.base.dim.nb k + Q.base.dim.ng k := hj
    have hjj : j < Q.inner.dim.nb k + Q.inner.dim.ng k := by
      show j < Q.base.dim.nb k + (Q.base.dim.ng k + Q.nq k)
      omega
    have e1 : P.base.lowerMask k j = Q.inner.d_mask k j := view_lowerMask Q.inner k j hjj
    have e1' : P'.base.lowerMask k j = (maskLower Q).inner.d_mask k j := view_lowerMask (maskLower Q).inner k j hjj
    have e2 : P.base.upperMask k j = Q.inner.d_mask k (Q.base.dim.nb k + (Q.base.dim.ng k + Q.nq k) + j) := view_upperMask Q.inner k j hjj
    have e2' : P'.base.upperMask k j = (maskLower Q).inner.d_mask k (Q.base.dim.nb k + (Q.base.dim.ng k + Q.nq k) + j) :=
      view_upperMask (maskLower Q).inner k j hjj
    rw [e1, e1', e2, e2']
    exact ⟨key k _ hk (nc k _ hk (by unfold LoQ; omega) (fun s _ _ => by omega)),
      key k _ hk (nc k _ hk (by unfold LoQ; omega) (fun s _ _ => by omega))⟩
  · have hj' : j < Q.nq k := hj
    exact key k (2 * Q.base.dim.nb k + 2 * Q.base.dim.ng k + Q.nq k + j) hk (nc k _ hk (by unfold LoQ; omega) (fun s _ _ => by omega))
  · have hs' : s < Q.base.dim.ns k := hs
    have e1 : P.base.llsMask k s = Q.inner.d_mask k (2 * (Q.base.dim.nb k + (Q.base.dim.ng k + Q.nq k)) + s) := view_llsMask Q.inner k s hs
    have e1' : P'.base.llsMask k s = (maskLower Q).inner.d_mask k (2 * (Q.base.dim.nb k + (Q.base.dim.ng k + Q.nq k)) + s) :=
      view_llsMask (maskLower Q).inner k s hs
    have e2 : P.base.lusMask k s = Q.inner.d_mask k (2 * (Q.base.dim.nb k + (Q.base.dim.ng k + Q.nq k)) + Q.base.dim.ns k + s) :=
      view_lusMask Q.inner k s hs
    have e2' : P'.base.lusMask k s = (maskLower Q).inner.d_mask k (2 * (Q.base.dim.nb k + (Q.base.dim.ng k + Q.nq k)) + Q.base.dim.ns k + s) :=
      view_lusMask (maskLower Q).inner k s hs
    rw [e1, e1', e2, e2']
    refine ⟨key k _ hk (nc k _ hk (by unfold LoQ; omega) (fun s _ _ => by omega)), fun hq => ?_, fun hq =>
      key k _ hk (nc k _ hk (by unfold LoQ; omega) (fun s' _ hq' he => ?_))⟩
    · have := (maskLower_mask Q k _ hk).1 (cut_of_softens Q k s hq)
      have ei : 2 * (Q.base.dim.nb k + (Q.base.dim.ng k + Q.nq k)) + s = 2 * Q.base.dim.nb k + 2 * Q.base.dim.ng k + 2 * Q.nq k + s := by ring
      rw [ei]; exact this
    · have : s = s' := by omega
      subst this
      exact hq hq'

/-- a point feasible for the caller's QCQP is feasible for the one the solver works on -/
theorem qafter_feasible (Q : Qcqp K) (hwf : Q.WF) (p : Pt K) (h : (qview Q).Feasible p) : (qview (maskLower Q)).Feasible p := by
  obtain ⟨m1, m2, m3⟩ := qafter_masks Q hwf
  refine ⟨⟨h.base.dyn, fun k j hk hj hn => ?_, fun k j hk hj hn => ?_, fun k s hk hs hn => ?_, fun k s hk hs hn => ?_⟩, fun k j hk hj hn => ?_⟩
  · rw [(m1 k j hk hj).1] at hn; exact h.base.lo k j hk hj hn
  · rw [(m1 k j hk hj).2] at hn; exact h.base.up k j hk hj hn
  · by_cases hq : (qview Q).SoftensQuad k s
    · exact absurd ((m3 k s hk hs).2.1 hq) hn
    · rw [(m3 k s hk hs).2.2 hq] at hn; exact h.base.ls k s hk hs hn
  · rw [(m3 k s hk hs).1] at hn; exact h.base.us k s hk hs hn
  · rw [m2 k j hk hj] at hn; exact h.quad k j hk hj hn

theorem qafter_convex (Q : Qcqp K) (hwf : Q.WF) (h : (qview Q).Convex) : (qview (maskLower Q)).Convex := by
  obtain ⟨-, m2, -⟩ := qafter_masks Q hwf
  exact ⟨h.base, fun k j hk hj hn p => by rw [m2 k j hk hj] at hn; exact h.quad k j hk hj hn p⟩

/-- for multipliers that vanish where the solver's masks do, the two Lagrangians agree -/
theorem qafter_lagrangian (Q : Qcqp K) (hwf : Q.WF) (sol : Sol K) (hl : LamMasked (maskLower Q).inner sol.lam) (p : Pt K) :
    (qview (maskLower Q)).lagrangian p (multOf Q.inner.dim sol) = (qview Q).lagrangian p (multOf Q.inner.dim sol) ∧
    (qview (maskLower Q)).curvature (multOf Q.inner.dim sol) p = (qview Q).curvature (multOf Q.inner.dim sol) p := by
  obtain ⟨m1, m2, m3⟩ := qafter_masks Q hwf
  constructor
  · unfold UserQcqp.lagrangian UserQp.lagrangian
    have hk : ∀ k, k ∈ range ((qview Q).base.N + 1) → k ≤ (qview Q).base.N := fun k h => by have := mem_range.mp h; omega
    have e1 : ∀ k ∈ range ((qview Q).base.N + 1), ∀ j ∈ range ((qview Q).nq k), (qview (maskLower Q)).uqMask k j = (qview Q).uqMask k j :=
      fun k h j hj => m2 k j (hk k h) (mem_range.mp hj)
    congr 1
    · show _ + _ + _ = _ + _ + _
      congr 1
      refine sum_congr rfl fun k h => ?_
      have hk := hk k h
      congr 1
      · congr 1
        · congr 1
          · refine sum_congr rfl fun j hj => ?_
            rw [(m1 k j hk (mem_range.mp hj)).1]; rfl
          · refine sum_congr rfl fun j hj => ?_
            rw [(m1 k j hk (mem_range.mp hj)).2]; rfl
        · refine sum_congr rfl fun s hs => ?_
          by_cases hq : (qview Q).SoftensQuad k s
          · have hs' : s < Q.base.dim.ns k := mem_range.mp hs
            have e := hl k (2 * (Q.base.dim.nb k + (Q.base.dim.ng k + Q.nq k)) + s) hk (by
              show _ < 2 * Q.base.dim.nb k + 2 * (Q.base.dim.ng k + Q.nq k) + 2 * Q.base.dim.ns k
              omega)
            have e2 : (qview (maskLower Q)).base.llsMask k s = (maskLower Q).inner.d_mask k (2 * (Q.base.dim.nb k + (Q.base.dim.ng k + Q.nq k)) + s) :=
              view_llsMask (maskLower Q).inner k s (mem_range.mp hs)
            rw [← e2, (m3 k s hk (mem_range.mp hs)).2.1 hq, zero_mul] at e
            have e3 : (multOf Q.inner.dim sol).ls k s = 0 := e.symm
            rw [e3]; simp
          · rw [(m3 k s hk (mem_range.mp hs)).2.2 hq]; rfl
      · refine sum_congr rfl fun s hs => ?_
        rw [(m3 k s hk (mem_range.mp hs)).1]; rfl
    · refine sum_congr rfl fun k h => sum_congr rfl fun j hj => ?_
      rw [m2 k j (hk k h) (mem_range.mp hj)]; rfl
  · unfold UserQcqp.curvature
    refine sum_congr rfl fun k h => sum_congr rfl fun j hj => ?_
    rw [m2 k j (by have : k < (qview Q).base.N + 1 := mem_range.mp h; omega) (mem_range.mp hj)]; rfl

end

section
variable {K : Type*} [Field K] [LinearOrder K] [IsStrictOrderedRing K] (T : QEnv K)

/-- the situation after a successful solve of a QCQP in the relative formulation, with clipping -/
structure QSolved (lf : ℕ) (sol : Sol K) (s : QIpm K) (o : QSolveOut K) : Prop where
  wf : T.Q.WF
  mask : Mask01 T.Q.inner
  nc : s.ip.core.nc = stOff (nct T.Q.inner.dim) (T.Q.base.dim.N + 1)
  act : QActive T
  rel : T.qarg.i .abs_form = 0
  iter : 0 ≤ T.arg.i .iter_max
  init : QInitOk T.Q T.arg
  clip : T.qarg.i .t_lam_min = 2
  lam_min : 0 < T.qarg.r .lam_min
  t_min : 0 < T.qarg.r .t_min
  ran : qipmSolve T lf sol s = .ok o
  ok : o.status = .SUCCESS

/-- a residual workspace without caches -/
def freshQWs : QresWs K := ⟨freshWs, fun _ => 0, fun _ => 0, false, false, fun _ _ => 0, fun _ _ => 0⟩

variable {T} {lf : ℕ} {sol : Sol K} {s : QIpm K} {o : QSolveOut K}

theorem qipm_data (h : qipmSolve T lf sol s = .ok o) : o.Q = maskLower T.Q := by
  obtain ⟨sol0, -, hcs⟩ := qipm_cases T lf sol s o h
  rcases hcs with ⟨-, rfl⟩ | ⟨-, r, -, rfl⟩ <;> rfl

/-- **C83 (near feasibility).**  A returned success satisfies the dynamics up to `res_b_max` and, up to `res_d_max`, every present
box, linear and quadratic constraint, every upper slack bound and every lower slack bound of a slack that does not soften a
quadratic constraint. -/
theorem qipm_success_feasible (h : QSolved T lf sol s o) :
    let P := qview T.Q
    let p := ptOf T.Q.inner.dim o.s.sol.ux
    let eb := T.arg.r .res_b_max
    let ed := T.arg.r .res_d_max
    (∀ k i, k < P.base.N → i < P.base.nx (k + 1) → |P.base.dynDefect p k i| ≤ eb) ∧
    (∀ k j, k ≤ P.base.N → j < P.base.nb k + P.base.ng k → P.base.lowerMask k j ≠ 0 →
      P.base.lower k j ≤ P.base.value p k j + P.base.slackLo p k j + ed) ∧
    (∀ k j, k ≤ P.base.N → j < P.base.nb k + P.base.ng k → P.base.upperMask k j ≠ 0 →
      P.base.value p k j ≤ P.base.upper k j + P.base.slackUp p k j + ed) ∧
    (∀ k j, k ≤ P.base.N → j < P.nq k → P.uqMask k j ≠ 0 → P.qvalue p k j ≤ P.uq k j + P.qslack p k j + ed) ∧
    (∀ k i, k ≤ P.base.N → i < P.base.ns k → P.base.llsMask k i ≠ 0 → ¬ P.SoftensQuad k i → P.base.lls k i ≤ p.sl k i + ed) ∧
    (∀ k i, k ≤ P.base.N → i < P.base.ns k → P.base.lusMask k i ≠ 0 → P.base.lus k i ≤ p.su k i + ed) := by
  intro P p eb ed
  have hQ := qipm_data h.ran
  obtain ⟨-, hb, hd, -, -, -, hl⟩ := qipm_success T h.wf h.mask lf sol s o h.nc h.act h.rel h.iter h.ran h.ok freshRes freshQWs
    (freshWs_ok _) (Or.inl rfl)
  have hin := qipm_solution_inside T h.mask h.init h.clip h.lam_min h.t_min lf sol s o h.nc h.act h.ran
  rw [hQ] at hb hd hl hin
  have hwf' := maskLower_wf h.wf
  have hcc : CacheCond (maskLower T.Q) o.s.sol freshQWs := fun h => by cases h
  obtain ⟨m1, m2, m3⟩ := qafter_masks T.Q h.wf
  have hq := fun k hk => qres_inequalities (maskLower T.Q) hwf' o.s.sol freshRes freshQWs (freshWs_ok _) hcc k hk
  simp only at hq
  have hone : ∀ k j, k ≤ T.Q.base.dim.N → j < nct T.Q.inner.dim k → (maskLower T.Q).inner.d_mask k j ≠ 0 →
      (maskLower T.Q).inner.d_mask k j = 1 := fun k j hk hj hn => (maskLower_01 h.mask k j hk hj).resolve_left hn
  have hn : ∀ k, nct T.Q.inner.dim k = 2 * T.Q.base.dim.nb k + 2 * (T.Q.base.dim.ng k + T.Q.nq k) + 2 * T.Q.base.dim.ns k := fun _ => rfl
  refine ⟨fun k i hk hi => ?_, fun k j hk hj hm => ?_, fun k j hk hj hm => ?_, fun k j hk hj hm => ?_, fun k i hk hi hm hsq => ?_,
    fun k i hk hi hm => ?_⟩
  · have := hb k i hk hi
    rw [qres_dynamics (maskLower T.Q) hwf' _ _ _ (freshWs_ok _) hcc k i hk hi] at this
    exact this
  all_goals
    obtain ⟨q1, q2, q3, q4, q5⟩ := hq k hk
  · have hj0 : j < T.Q.base.dim.nb k + T.Q.base.dim.ng k := hj
    have hj' : j < nct T.Q.inner.dim k := by rw [hn]; omega
    have := hd k j hk hj'
    rw [← (m1 k j hk hj).1] at hm
    have hmm : (qview (maskLower T.Q)).base.lowerMask k j = (maskLower T.Q).inner.d_mask k j :=
      view_lowerMask (maskLower T.Q).inner k j (show j < T.Q.base.dim.nb k + (T.Q.base.dim.ng k + T.Q.nq k) by omega)
    rw [q1 j hj, hmm, hone k j hk hj' (by rw [← hmm]; exact hm), one_mul] at this
    have ht := (hin k j hk hj').1
    have hle : P.base.lower k j - P.base.value p k j - P.base.slackLo p k j + o.s.sol.t k j ≤ ed := le_trans (le_abs_self _) this
    linarith
  · have hj0 : j < T.Q.base.dim.nb k + T.Q.base.dim.ng k := hj
    have hj' : T.Q.base.dim.nb k + (T.Q.base.dim.ng k + T.Q.nq k) + j < nct T.Q.inner.dim k := by rw [hn]; omega
    have := hd k _ hk hj'
    rw [← (m1 k j hk hj).2] at hm
    have hmm : (qview (maskLower T.Q)).base.upperMask k j = (maskLower T.Q).inner.d_mask k (T.Q.base.dim.nb k + (T.Q.base.dim.ng k + T.Q.nq k) + j) :=
      view_upperMask (maskLower T.Q).inner k j (show j < T.Q.base.dim.nb k + (T.Q.base.dim.ng k + T.Q.nq k) by omega)
    have e := q2 j hj
    rw [hmm, hone k _ hk hj' (by rw [← hmm]; exact hm), one_mul] at e
    have ht := (hin k _ hk hj').1
    have hle := le_trans (le_abs_self _) this
    have e' : (qresCompute (maskLower T.Q) o.s.sol freshRes freshQWs).res_d k (T.Q.base.dim.nb k + (T.Q.base.dim.ng k + T.Q.nq k) + j) =
      P.base.value p k j - P.base.upper k j - P.base.slackUp p k j + o.s.sol.t k (T.Q.base.dim.nb k + (T.Q.base.dim.ng k + T.Q.nq k) + j) := e
    linarith
  · have hj0 : j < T.Q.nq k := hj
    have hj' : T.Q.base.dim.nb k + (T.Q.base.dim.ng k + T.Q.nq k) + (T.Q.base.dim.nb k + T.Q.base.dim.ng k) + j < nct T.Q.inner.dim k := by
      rw [hn]; omega
    have := hd k _ hk hj'
    rw [← m2 k j hk hj] at hm
    have hmm : (qview (maskLower T.Q)).uqMask k j =
        (maskLower T.Q).inner.d_mask k (T.Q.base.dim.nb k + (T.Q.base.dim.ng k + T.Q.nq k) + (T.Q.base.dim.nb k + T.Q.base.dim.ng k) + j) := by
      rw [show T.Q.base.dim.nb k + (T.Q.base.dim.ng k + T.Q.nq k) + (T.Q.base.dim.nb k + T.Q.base.dim.ng k) + j =
        2 * T.Q.base.dim.nb k + 2 * T.Q.base.dim.ng k + T.Q.nq k + j by ring]
      rfl
    have e := q3 j hj
    rw [hmm, hone k _ hk hj' (by rw [← hmm]; exact hm), one_mul] at e
    have ht := (hin k _ hk hj').1
    have hle := le_trans (le_abs_self _) this
    have e' : (qresCompute (maskLower T.Q) o.s.sol freshRes freshQWs).res_d k
        (T.Q.base.dim.nb k + (T.Q.base.dim.ng k + T.Q.nq k) + (T.Q.base.dim.nb k + T.Q.base.dim.ng k) + j) =
      P.qvalue p k j - P.uq k j - P.qslack p k j +
        o.s.sol.t k (T.Q.base.dim.nb k + (T.Q.base.dim.ng k + T.Q.nq k) + (T.Q.base.dim.nb k + T.Q.base.dim.ng k) + j) := e
    linarith
  · have hi0 : i < T.Q.base.dim.ns k := hi
    have hj' : 2 * (T.Q.base.dim.nb k + (T.Q.base.dim.ng k + T.Q.nq k)) + i < nct T.Q.inner.dim k := by rw [hn]; omega
    have := hd k _ hk hj'
    rw [← (m3 k i hk hi).2.2 hsq] at hm
    have hmm : (qview (maskLower T.Q)).base.llsMask k i = (maskLower T.Q).inner.d_mask k (2 * (T.Q.base.dim.nb k + (T.Q.base.dim.ng k + T.Q.nq k)) + i) :=
      view_llsMask (maskLower T.Q).inner k i hi
    have e := q4 i hi
    rw [hmm, hone k _ hk hj' (by rw [← hmm]; exact hm), one_mul] at e
    have ht := (hin k _ hk hj').1
    have hle := le_trans (le_abs_self _) this
    have e' : (qresCompute (maskLower T.Q) o.s.sol freshRes freshQWs).res_d k (2 * (T.Q.base.dim.nb k + (T.Q.base.dim.ng k + T.Q.nq k)) + i) =
      P.base.lls k i - p.sl k i + o.s.sol.t k (2 * (T.Q.base.dim.nb k + (T.Q.base.dim.ng k + T.Q.nq k)) + i) := e
    linarith
  · have hi0 : i < T.Q.base.dim.ns k := hi
    have hj' : 2 * (T.Q.base.dim.nb k + (T.Q.base.dim.ng k + T.Q.nq k)) + T.Q.base.dim.ns k + i < nct T.Q.inner.dim k := by rw [hn]; omega
    have := hd k _ hk hj'
    rw [← (m3 k i hk hi).1] at hm
    have hmm : (qview (maskLower T.Q)).base.lusMask k i =
        (maskLower T.Q).inner.d_mask k (2 * (T.Q.base.dim.nb k + (T.Q.base.dim.ng k + T.Q.nq k)) + T.Q.base.dim.ns k + i) :=
      view_lusMask (maskLower T.Q).inner k i hi
    have e := q5 i hi
    rw [hmm, hone k _ hk hj' (by rw [← hmm]; exact hm), one_mul] at e
    have ht := (hin k _ hk hj').1
    have hle := le_trans (le_abs_self _) this
    have e' : (qresCompute (maskLower T.Q) o.s.sol freshRes freshQWs).res_d k
        (2 * (T.Q.base.dim.nb k + (T.Q.base.dim.ng k + T.Q.nq k)) + T.Q.base.dim.ns k + i) =
      P.base.lus k i - p.su k i + o.s.sol.t k (2 * (T.Q.base.dim.nb k + (T.Q.base.dim.ng k + T.Q.nq k)) + T.Q.base.dim.ns k + i) := e
    linarith

/-- **C83 (near stationarity).**  Along every direction the Lagrangian of the caller's QCQP at the returned multipliers has first
order change at most `res_g_max` times the sum of the absolute values of the direction. -/
theorem qipm_success_stationary (h : QSolved T lf sol s o) (x : ℕ → Vec K) :
    let P := qview T.Q
    let D := T.Q.inner.dim
    let z := o.s.sol
    |P.lagrangian (ptOf D (fun k i => z.ux k i + x k i)) (multOf D z) - P.lagrangian (ptOf D z.ux) (multOf D z) - P.base.quad (ptOf D x) -
      P.curvature (multOf D z) (ptOf D x)| ≤ T.arg.r .res_g_max * (view T.Q.inner).absSum (ptOf D x) := by
  intro P D z
  have hQ := qipm_data h.ran
  obtain ⟨hg, -, -, -, -, -, hl⟩ := qipm_success T h.wf h.mask lf sol s o h.nc h.act h.rel h.iter h.ran h.ok freshRes freshQWs
    (freshWs_ok _) (Or.inl rfl)
  rw [hQ] at hg hl
  have hst := qres_stationarity (maskLower T.Q) (maskLower_wf h.wf) z freshRes freshQWs (freshWs_ok _) (fun h => by cases h) x
  have hL := fun p => qafter_lagrangian T.Q h.wf z hl p
  have hst' : (qview (maskLower T.Q)).lagrangian (ptOf D (fun k i => z.ux k i + x k i)) (multOf D z) =
    (qview (maskLower T.Q)).lagrangian (ptOf D z.ux) (multOf D z)
      + (∑ k ∈ range (D.N + 1), ∑ i ∈ range (D.nu k + D.nx k + 2 * D.ns k),
          (qresCompute (maskLower T.Q) z freshRes freshQWs).res_g k i * x k i)
      + P.base.quad (ptOf D x) + (qview (maskLower T.Q)).curvature (multOf D z) (ptOf D x) := hst
  rw [(hL _).1, (hL _).1, (hL _).2] at hst'
  have e : P.lagrangian (ptOf D (fun k i => z.ux k i + x k i)) (multOf D z) - P.lagrangian (ptOf D z.ux) (multOf D z) - P.base.quad (ptOf D x) -
      P.curvature (multOf D z) (ptOf D x) =
      ∑ k ∈ range (D.N + 1), ∑ i ∈ range (D.nu k + D.nx k + 2 * D.ns k), (qresCompute (maskLower T.Q) z freshRes freshQWs).res_g k i * x k i := by
    rw [hst']; ring
  rw [e]
  refine (abs_pairs_le _ _ _ _ _ hg).trans (le_of_eq ?_)
  rw [absSum_packed]
  rfl

/-- **C83 (complementarity).**  For every constraint the solver takes into account (all present ones except the lower bounds of
slacks softening quadratic constraints) the product of multiplier and slack is within `res_m_max` of its target `m + tau_min`, and
both are positive; the other multipliers are zero. -/
theorem qipm_success_complementary (h : QSolved T lf sol s o) (k j : ℕ) (hk : k ≤ T.Q.base.dim.N) (hj : j < nct T.Q.inner.dim k) :
    let z := o.s.sol
    (T.Q.base.d_mask k j ≠ 0 → ¬ Cut T.Q k j → |z.lam k j * z.t k j - T.Q.base.m k j - T.qarg.r .tau_min| ≤ T.arg.r .res_m_max ∧
      0 < z.lam k j ∧ 0 < z.t k j) ∧
    (T.Q.base.d_mask k j = 0 ∨ Cut T.Q k j → z.lam k j = 0) := by
  intro z
  have hQ := qipm_data h.ran
  obtain ⟨-, -, -, hm, -, -, hl⟩ := qipm_success T h.wf h.mask lf sol s o h.nc h.act h.rel h.iter h.ran h.ok freshRes freshQWs
    (freshWs_ok _) (Or.inl rfl)
  have hin := qipm_solution_inside T h.mask h.init h.clip h.lam_min h.t_min lf sol s o h.nc h.act h.ran k j hk hj
  rw [hQ] at hm hin
  obtain ⟨c1, c2⟩ := maskLower_mask T.Q k j hk
  refine ⟨fun hn hc => ?_, fun hz => ?_⟩
  · have h1 : (maskLower T.Q).base.d_mask k j = 1 := by
      rw [c2 hc]; exact (h.mask k j hk hj).resolve_left hn
    have := hm k j hk hj
    rw [qres_complementarity (maskLower T.Q) (maskLower_wf h.wf) (maskLower_01 h.mask) _ _ _ (freshWs_ok _) (fun h => by cases h) k j hk hj
      (fun hlo => hc (Or.inl hlo)), if_neg (by rw [h1]; exact one_ne_zero), h1, mul_one] at this
    exact ⟨this, hin.2.1 h1, hin.1⟩
  · refine hin.2.2 ?_
    by_cases hc : Cut T.Q k j
    · exact c1 hc
    · rw [c2 hc]; exact hz.resolve_right hc

/-- **C83 (suboptimality).**  If the objective and the present quadratic constraints are convex, no point `p` feasible for the
caller's QCQP is better than the returned one by more than the tolerance on the duality gap plus `res_g_max` times the sum of
the absolute values of `p`. -/
theorem qipm_success_subopt (h : QSolved T lf sol s o) (hc : (qview T.Q).Convex) (p : Pt K) (hp : (qview T.Q).Feasible p) :
    (qview T.Q).base.objective (ptOf T.Q.inner.dim o.s.sol.ux) - T.arg.r .dual_gap_max -
      T.arg.r .res_g_max * (view T.Q.inner).absSum p ≤ (qview T.Q).base.objective p := by
  have hQ := qipm_data h.ran
  obtain ⟨hg, -, -, -, hgap, -, hl⟩ := qipm_success T h.wf h.mask lf sol s o h.nc h.act h.rel h.iter h.ran h.ok freshRes freshQWs
    (freshWs_ok _) (Or.inl rfl)
  have hin := qipm_solution_inside T h.mask h.init h.clip h.lam_min h.t_min lf sol s o h.nc h.act h.ran
  rw [hQ] at hg hgap hin
  have hwf' := maskLower_wf h.wf
  have hcc : CacheCond (maskLower T.Q) o.s.sol freshQWs := fun h => by cases h
  have hb := qres_gap_approx (maskLower T.Q) hwf' (maskLower_01 h.mask) (qafter_convex T.Q h.wf hc) o.s.sol freshRes freshQWs (freshWs_ok _)
    hcc (fun k j hk hj hn => ((hin k j hk hj).2.1 ((maskLower_01 h.mask k j hk hj).resolve_left hn)).le) p (qafter_feasible T.Q h.wf p hp)
  rw [qres_objective (maskLower T.Q) hwf' _ _ _ (freshWs_ok _) hcc] at hb
  have hs := abs_pairs_le _ _ _ (packPt T.Q.inner.dim p) _ hg
  have hs' : |∑ k ∈ range (T.Q.inner.dim.N + 1), ∑ i ∈ range (T.Q.inner.dim.nu k + T.Q.inner.dim.nx k + 2 * T.Q.inner.dim.ns k),
      (qresCompute (maskLower T.Q) o.s.sol freshRes freshQWs).res_g k i * packPt T.Q.inner.dim p k i| ≤
    T.arg.r .res_g_max * (∑ k ∈ range (T.Q.inner.dim.N + 1), ∑ i ∈ range (T.Q.inner.dim.nu k + T.Q.inner.dim.nx k + 2 * T.Q.inner.dim.ns k),
      |packPt T.Q.inner.dim p k i|) := hs
  rw [absSum_packed, absSum_congr _ _ _ (packPt_agree T.Q.inner p)] at hs'
  have h1 := neg_le_of_abs_le hs'
  have h2 : (qview T.Q).base.objective (ptOf T.Q.inner.dim o.s.sol.ux) - (qresCompute (maskLower T.Q) o.s.sol freshRes freshQWs).dual_gap +
      (∑ k ∈ range (T.Q.inner.dim.N + 1), ∑ i ∈ range (T.Q.inner.dim.nu k + T.Q.inner.dim.nx k + 2 * T.Q.inner.dim.ns k),
        (qresCompute (maskLower T.Q) o.s.sol freshRes freshQWs).res_g k i * packPt T.Q.inner.dim p k i) ≤ (qview T.Q).base.objective p := hb
  linarith

end
end Hpipm
