/-
C83: a run of the QCQP interior point solver that meets the hypotheses of every theorem, and one that reads an unassigned
pointer.
-/
import Verif.QcqpIpmOpt
import Verif.IpmEx

namespace Hpipm
open Finset
set_option linter.unusedSectionVars false

/-- square root to two digits -/
def exQSq (x : ℚ) : ℚ :=
  let y := (x + 1) / 2
  let z := (y + x / y) / 2
  let w := (z + x / z) / 2
  (w * 100).floor / 100

def exQArg : IpmArg ℚ where
  r := fun f => match f with
    | .mu0 => 25
    | .alpha_min => 1 / 1000
    | .res_g_max => 1 / 2
    | .res_b_max => 1 / 100
    | .res_d_max => 3 / 10
    | .res_m_max => 1
    | .dual_gap_max => 1 / 2
    | .lam_min => 1 / 100000
    | .t_min => 1 / 100000
    | _ => 0
  i := fun f => match f with
    | .iter_max => 5
    | .warm_start => 2
    | .split_step => 1
    | .t_lam_min => 2
    | .comp_dual_sol_eq => 1
    | .comp_res_exit => 1
    | _ => 0

def exQEnv : QEnv ℚ where
  sq := exQSq
  fuel := 2
  Q := exQcqp
  arg := exQArg
  qarg := exQArg
  sqr := false
  lqf := 0
  statMax := 5
  lq := fun _ _ _ _ => none
  factOnly := fun _ _ st => st

def exQCore : Core ℚ := { exIpCore with nv := 4, ne := 1, nc := 8 }

def exQIpm : QIpm ℚ where
  ip := { exIpIpm with core := exQCore }
  qp := exIpQp
  sol := exIpSol
  res := exIpRes
  rmax := (0, 0, 0, 0)
  rws := exQWs
  nux0 := fun _ => 0
  nux1 := fun _ => 0

/-- the warm start: dynamics, stationarity and inequalities are violated -/
def exQSol0 : Sol ℚ where
  ux := fun k i => if k = 0 then 1 / 2 else if i = 1 then 0 else 1
  pi := fun _ _ => 3
  lam := fun _ _ => 1
  t := fun k j => if k = 0 ∧ j = 0 then 10 else if k = 0 ∧ j = 2 then 9 else 1

/-- what the caller sees of a call -/
def QSolveOut.seenBy (o : QSolveOut ℚ) : ℕ × Status := (o.iter, o.status)

theorem exQE_run : ((qipmSolve exQEnv 5 exQSol0 exQIpm).toOption.map QSolveOut.seenBy) = some (1, .SUCCESS) := by decide +kernel

theorem exQ_act : QActive exQEnv := ⟨0, 0, Nat.zero_le _, by decide, by decide +kernel⟩

/-- the run satisfies the hypotheses of the theorems about success -/
theorem exQ_solved : ∃ o, QSolved exQEnv 5 exQSol0 exQIpm o ∧ o.iter = 1 := by
  have h := exQE_run
  cases hq : qipmSolve exQEnv 5 exQSol0 exQIpm with
  | error e => rw [hq] at h; cases h
  | ok o =>
    rw [hq] at h
    have h' : (o.iter, o.status) = (1, Status.SUCCESS) := Option.some.inj h
    simp only [Prod.mk.injEq] at h'
    exact ⟨o, ⟨exQ_wf, exQ_mask, by decide, exQ_act, rfl, by decide, Or.inr (Or.inl rfl), rfl, by decide +kernel, by decide +kernel, hq, h'.2⟩, h'.1⟩

/-- near feasibility on the run: both quadratic constraints hold to 3/10, the softened one with its slack -/
example : ∃ o, qipmSolve exQEnv 5 exQSol0 exQIpm = .ok o ∧
    (qview exQcqp).qvalue (ptOf exQcqp.inner.dim o.s.sol.ux) 0 0 ≤ (qview exQcqp).uq 0 0 + (qview exQcqp).qslack (ptOf exQcqp.inner.dim o.s.sol.ux) 0 0 + 3 / 10 ∧
    (qview exQcqp).qvalue (ptOf exQcqp.inner.dim o.s.sol.ux) 1 0 ≤ (qview exQcqp).uq 1 0 + (qview exQcqp).qslack (ptOf exQcqp.inner.dim o.s.sol.ux) 1 0 + 3 / 10 := by
  obtain ⟨o, h, -⟩ := exQ_solved
  obtain ⟨-, -, -, hq, -, -⟩ := qipm_success_feasible h
  exact ⟨o, h.ran, hq 0 0 (by decide) (by decide) (by decide +kernel), hq 1 0 (by decide) (by decide) (by decide +kernel)⟩

/-- near stationarity, complementarity, suboptimality, interior solution, status, statistics on the run -/
example : ∃ o, qipmSolve exQEnv 5 exQSol0 exQIpm = .ok o ∧
    (∀ p, (qview exQcqp).Feasible p → (qview exQcqp).base.objective (ptOf exQcqp.inner.dim o.s.sol.ux) - 1 / 2 -
      1 / 2 * (view exQcqp.inner).absSum p ≤ (qview exQcqp).base.objective p) ∧
    |o.s.sol.lam 0 3 * o.s.sol.t 0 3 - 0 - 0| ≤ 1 ∧ 0 < o.s.sol.lam 0 3 ∧ o.s.sol.lam 1 2 = 0 ∧ o.s.ip.oob = false := by
  obtain ⟨o, h, -⟩ := exQ_solved
  have c1 := (qipm_success_complementary h 0 3 (by decide) (by decide)).1 (by decide +kernel) (fun hc => by
    rcases cut_range exQ_wf 0 3 (by decide) hc with hl | ⟨s, hs, -⟩
    · exact absurd hl (by unfold LoQ; decide)
    · exact absurd (show s < 0 from hs) (Nat.not_lt_zero _))
  have c2 := (qipm_success_complementary h 1 2 (by decide) (by decide)).2 (Or.inr (Or.inr ⟨0, by decide, by decide, rfl⟩))
  exact ⟨o, h.ran, fun p hp => qipm_success_subopt h exQ_convex p hp, c1.1, c1.2.1, c2,
    qipm_stat_inside exQEnv exQ_mask 5 exQSol0 exQIpm rfl o (by decide) h.ran⟩

/-- the point of `exQ_convex` feasible for the QCQP, so the bound above is not vacuous -/
example : (qview exQcqp).Feasible (ptOf exQcqp.inner.dim exQSol.ux) :=
  (qres_zero_optimal exQcqp exQ_wf exQ_mask exQ_convex exQSol exRes exQWs exQWs_ok (exQ_cache _)
    (fun k i hk hi => exQ_zero.1 k hk i hi) (fun k i hk hi => exQ_zero.2.1 k hk i hi)
    (fun k j hk hj _ => ⟨(exQ_zero.2.2 k hk j hj).1, (exQ_zero.2.2 k hk j hj).2.1, rfl⟩)
    (fun k j hk hj _ => (exQ_zero.2.2 k hk j hj).2.2)).1

/-- near stationarity on the run, along a direction that moves everything -/
example : ∃ o, qipmSolve exQEnv 5 exQSol0 exQIpm = .ok o ∧
    |(qview exQcqp).lagrangian (ptOf exQcqp.inner.dim (fun k i => o.s.sol.ux k i + 1)) (multOf exQcqp.inner.dim o.s.sol) -
      (qview exQcqp).lagrangian (ptOf exQcqp.inner.dim o.s.sol.ux) (multOf exQcqp.inner.dim o.s.sol) -
      (qview exQcqp).base.quad (ptOf exQcqp.inner.dim (fun _ _ => 1)) -
      (qview exQcqp).curvature (multOf exQcqp.inner.dim o.s.sol) (ptOf exQcqp.inner.dim (fun _ _ => 1))| ≤
        1 / 2 * (view exQcqp.inner).absSum (ptOf exQcqp.inner.dim (fun _ _ => 1)) := by
  obtain ⟨o, h, -⟩ := exQ_solved
  exact ⟨o, h.ran, qipm_success_stationary h (fun _ _ => 1)⟩

/-- the absolute formulation; the last clause of `qipm_status` has its hypotheses met -/
def exQAbsEnv : QEnv ℚ :=
  { exQEnv with
    arg := { exQArg with r := fun f => match f with
      | .res_m_max => 5 / 4
      | x => exQArg.r x }
    qarg := { exQArg with i := fun f => match f with
      | .abs_form => 1
      | x => exQArg.i x } }

theorem exQA_run : ((qipmSolve exQAbsEnv 5 exQSol0 exQIpm).toOption.map QSolveOut.seenBy) = some (1, .SUCCESS) := by decide +kernel

example : ∃ o, qipmSolve exQAbsEnv 5 exQSol0 exQIpm = .ok o ∧ 0 < o.iter ∧
    |qcompAll exQcqp.inner.dim o.s.sol / (qcountAll exQcqp.inner.dim : ℚ) - 0| ≤ 5 / 4 := by
  have h := exQA_run
  cases hq : qipmSolve exQAbsEnv 5 exQSol0 exQIpm with
  | error e => rw [hq] at h; cases h
  | ok o =>
    rw [hq] at h
    have h' : (o.iter, o.status) = (1, Status.SUCCESS) := Option.some.inj h
    simp only [Prod.mk.injEq] at h'
    refine ⟨o, rfl, by rw [h'.1]; decide, ?_⟩
    exact (qipm_status exQAbsEnv exQ_mask 5 exQSol0 exQIpm o (by decide) ⟨0, 0, Nat.zero_le _, by decide, by decide +kernel⟩ hq).2.2.2
      (by decide) (by decide) (by rw [h'.1]; decide) h'.2

/-- `iter_max = 0`: the status is `MAX_ITER` -/
example : ((qipmSolve { exQEnv with arg := { exQArg with i := fun f => match f with
      | .iter_max => 0
      | x => exQArg.i x } } 5 exQSol0 exQIpm).toOption.map QSolveOut.seenBy) = some (0, .MAX_ITER) := by decide +kernel

/-- the default start (`warm_start = 0`, `t0_init = 2`) of a QCQP with a general linear constraint reads `d_lg_mask`, which is
never assigned -/
example : qipmSolve { exQEnv with arg := { exQArg with i := fun f => match f with
      | .warm_start => 0
      | .t0_init => 2
      | x => exQArg.i x } } 5 exQSol0 exQIpm = .error .uninit :=
  (qipm_uninit_iff _ _ _ _).mpr ⟨by decide, by decide, by decide, 0, by decide, by decide⟩

/-- the solver has changed the caller's masks: the lower bound of the slack of stage 1 is off -/
example : (qview exQcqp).base.llsMask 1 0 = 1 ∧ (qview (maskLower exQcqp)).base.llsMask 1 0 = 0 ∧ (qview exQcqp).SoftensQuad 1 0 :=
  ⟨by decide +kernel, by decide +kernel, 0, by decide, rfl⟩

end Hpipm
