/-
C100: runs of the dense QCQP solver which meet the hypotheses of the theorems, and the two departures from what the caller expects.
-/
import Verif.DQcqpIpmUser
import Verif.DQcqpData
import Verif.DenseIpmEx
import Verif.QcqpIpmEx

namespace Hpipm
open Finset
set_option linter.unusedSectionVars false

def exDQArg : DIpmArg ℚ where
  r := exQArg.r
  i := exQArg.i
  reg_dual := 0
  kkt_fact_alg := 1
  scale := false
  compute_obj := 1

/-- `min 1/2 v^2 - 3 v` subject to `-10 <= v <= 10`, `v^2 <= 1`, built with the setters -/
def exDq1 : DQcqp ℚ :=
  let Q : DQcqp ℚ := DQcqp.create ⟨1, 0, 1, 0, 0⟩ 1
  let Q := Q.setF (.qp .H) (fun _ => 1)
  let Q := Q.setF (.qp .g) (fun _ => -3)
  let Q := Q.setF (.qp .lb) (fun _ => -10)
  let Q := Q.setF (.qp .ub) (fun _ => 10)
  let Q := Q.setF .Hq (fun _ => 2)
  Q.setF .uq (fun _ => 1)

def exDQEnv : DQEnv ℚ where
  sq := exQSq
  fuel := 2
  lqd := fun _ _ A => (A, A)
  Q := exDq1
  arg := exQArg
  qarg := exDQArg
  lqf := 0
  statMax := 5
  lq := fun _ _ st => (st, false, false)
  factOnly := fun _ _ st => st

def exDQCore : Core ℚ := { coreMk 4 (fun _ => 0) (fun _ => 0) (fun _ => 0) (fun _ => 0) 1 2 with nv := 1, ne := 0, nc := 4 }

def exDQIpm : DQIpm ℚ where
  ip := { exDIIpm with core := exDQCore }
  qp := exDq1.inner
  sol := exDISol
  res := exDIRes
  rmax := (0, 0, 0, 0)
  rws := exDQWs
  nv0 := fun _ => 0
  nv1 := fun _ => 0

/-- the warm start: infeasible, not stationary -/
def exDQSol0 : DqSol ℚ where
  v := fun _ => 3 / 4
  pi := fun _ => 0
  lam := fun j => if j = 3 then 1 else 1 / 10
  t := fun j => if j = 0 then 11 else if j = 2 then 9 else 1

theorem exDq1_wf : exDq1.WF := ⟨by decide, by decide⟩
theorem exDq1_mask : DMask01 exDq1.inner := by
  show ∀ j, j < 4 → exDq1.inner.d_mask j = 0 ∨ exDq1.inner.d_mask j = 1
  decide +kernel
theorem exDq1_act : DQActive exDQEnv := ⟨0, by decide, by decide +kernel⟩
theorem exDq1_init : DQInitOk exDQEnv.sq exDQEnv.arg := Or.inr (Or.inl rfl)

/-- one step, success -/
theorem exDq1_run : ((dqipmSolve exDQEnv 5 exDQSol0 exDQIpm).map fun o => (o.iter, o.status)) = some (1, .SUCCESS) := by decide +kernel

theorem exDq1_solved : ∃ o, dqipmSolve exDQEnv 5 exDQSol0 exDQIpm = some o ∧ o.iter = 1 ∧ o.status = .SUCCESS := by
  have h := exDq1_run
  cases hq : dqipmSolve exDQEnv 5 exDQSol0 exDQIpm with
  | none => rw [hq] at h; cases h
  | some o =>
    rw [hq] at h
    have h' : (o.iter, o.status) = (1, Status.SUCCESS) := Option.some.inj h
    simp only [Prod.mk.injEq] at h'
    exact ⟨o, rfl, h'.1, h'.2⟩

/-- `dqipm_success`, `dqipm_success_feasible`, `dqipm_solution_inside`, `dqipm_stat_inside` and `dqipm_status` on the run: the quadratic
constraint and the box hold to `3/10`, stationarity to `1/2` -/
example : ∃ o, dqipmSolve exDQEnv 5 exDQSol0 exDQIpm = some o ∧
    (dqview exDq1).qvalue (dptOf exDq1.inner.dim o.s.sol.v) 0 ≤ (dqview exDq1).uq 0 + (dqview exDq1).qslack (dptOf exDq1.inner.dim o.s.sol.v) 0 + 3 / 10 ∧
    (dqview exDq1).base.value (dptOf exDq1.inner.dim o.s.sol.v) 0 ≤
      (dqview exDq1).base.upper 0 + (dqview exDq1).base.slackUp (dptOf exDq1.inner.dim o.s.sol.v) 0 + 3 / 10 ∧
    |(dqresCompute o.Q o.s.sol exDIRes exDQWs).res_g 0| ≤ 1 / 2 ∧
    0 < o.s.sol.lam 3 ∧ o.s.sol.lam 1 = 0 ∧ o.s.ip.oob = false ∧ ¬ (o.iter : ℤ) = 5 := by
  obtain ⟨o, h, hi, hs⟩ := exDq1_solved
  have hpos : 0 < o.iter := by rw [hi]; decide
  have hQ := dqipm_data exDQEnv h
  obtain ⟨-, -, f3, f4, -, -⟩ := dqipm_success_feasible exDQEnv exDq1_wf exDq1_mask exDq1_init rfl (by decide +kernel) (by decide +kernel)
    5 exDQSol0 exDQIpm o rfl exDq1_act rfl (by decide) h hs hpos
  obtain ⟨g1, -⟩ := dqipm_success exDQEnv exDq1_wf exDq1_mask 5 exDQSol0 exDQIpm o rfl exDq1_act rfl (by decide) h hs (Or.inl hpos)
    exDIRes exDQWs (by intro h; cases h) (Or.inl rfl)
  have hin := dqipm_solution_inside exDQEnv exDq1_mask exDq1_init rfl (by decide +kernel) (by decide +kernel) 5 exDQSol0 exDQIpm o rfl exDq1_act h
  have hst := (dqipm_status exDQEnv exDq1_mask 5 exDQSol0 exDQIpm o rfl exDq1_act h).1
  refine ⟨o, h, f4 0 (by decide) (by decide +kernel), f3 0 (by decide) (by decide +kernel), g1 0 (by decide),
    (hin 3 (by decide)).2.1 ?_, (hin 1 (by decide)).2.2 hpos ?_, dqipm_stat_inside exDQEnv exDq1_mask 5 exDQSol0 exDQIpm rfl o rfl h, ?_⟩
  · rw [hQ]; decide +kernel
  · rw [hQ]; decide +kernel
  · intro e
    rw [hst.mpr e] at hs
    cases hs

/-- `dqipm_iterates_inside` on the run -/
example : ∃ (n : ℕ) (f : ℕ → DQIpm ℚ), n = 1 ∧ f 0 = dqstartState exDQEnv exDQSol0 exDQIpm ∧
    Run (dqguardOf exDQEnv) (dqpassOf exDQEnv) 5 n f ∧ (1 / 100000 : ℚ) ≤ (f 1).sol.t 3 := by
  obtain ⟨o, h, hi, -⟩ := exDq1_solved
  rcases dqipm_cases exDQEnv 5 exDQSol0 exDQIpm o h with ⟨hz, -⟩ | ⟨-, r, hr, ho⟩
  · exact absurd hz (dqactive_nc exDQEnv exDQSol0 exDQIpm rfl exDq1_act)
  · obtain ⟨⟨f, f0, fr, hrun⟩, -⟩ := ipmLoop_run _ _ _ _ _ _ hr
    have e : r.1 = 1 := by
      rw [ho] at hi
      exact hi
    rw [e] at hrun
    have hin := dqipm_iterates_inside exDQEnv exDq1_mask exDq1_init rfl (by decide +kernel) (by decide +kernel) exDQSol0 exDQIpm rfl 1 f f0 hrun
      1 (by decide) 3 (by decide)
    exact ⟨1, f, rfl, f0, hrun, (hin.2.2 (by decide)).1⟩

/-- `dqinitVar_interior` on the data of the run -/
example : 0 < (dqinitVar exDQEnv.sq exDq1 exQArg exDQSol0).t 1 ∧ 0 < (dqinitVar exDQEnv.sq exDq1 exQArg exDQSol0).lam 3 :=
  ⟨(dqinitVar_interior _ exDq1 exQArg exDQSol0 exDq1_init 1 (by decide)).1,
    ((dqinitVar_interior _ exDq1 exQArg exDQSol0 exDq1_init 3 (by decide)).2 (by decide)).1⟩

/-! ### the multipliers of absent sides enter the first linearisation -/

/-- `min -2 v` subject to `v^2 <= 11/10` -/
def exDq0 : DQcqp ℚ :=
  let Q : DQcqp ℚ := DQcqp.create ⟨1, 0, 0, 0, 0⟩ 1
  let Q := Q.setF (.qp .g) (fun _ => -2)
  let Q := Q.setF .Hq (fun _ => 2)
  Q.setF .uq (fun _ => 11 / 10)

/-- the tolerances of the previous run, without a test of the duality gap -/
def exDq0Arg : IpmArg ℚ where
  r := fun f => match f with
    | .dual_gap_max => 10 ^ 15
    | x => exQArg.r x
  i := exQArg.i

def exDq0Env : DQEnv ℚ := { exDQEnv with Q := exDq0, arg := exDq0Arg }

def exDq0Ipm : DQIpm ℚ :=
  { exDQIpm with ip := { exDIIpm with core := { coreMk 2 (fun _ => 0) (fun _ => 0) (fun _ => 0) (fun _ => 0) 1 2 with nv := 1, ne := 0, nc := 2 } } }

/-- warm start with a multiplier on the lower side of the quadratic constraint, which does not exist -/
def exDq0Sol : DqSol ℚ where
  v := fun _ => 1
  pi := fun _ => 0
  lam := fun j => if j = 0 then 1 else 2
  t := fun _ => 1 / 10

/-- **C100 (finding).**  Warm started with a multiplier for the (absent) lower side of a quadratic constraint, the dense QCQP solver
reports success at once although the stationarity residual of the returned point is `2`, four times the tolerance: the first
linearisation uses the unmasked multipliers and the residuals are computed from its cached adjoint.  (The OCP solver masks the
multipliers first.) -/
theorem exDQ0_success_wrong : ∃ o, dqipmSolve exDq0Env 5 exDq0Sol exDq0Ipm = some o ∧ o.status = .SUCCESS ∧ o.iter = 0 ∧
    (dqresCompute o.Q o.s.sol exDIRes exDQWs).res_g 0 = 2 ∧ exDq0Env.arg.r .res_g_max = 1 / 2 := by
  have h : ((dqipmSolve exDq0Env 5 exDq0Sol exDq0Ipm).map fun o =>
      (o.status, o.iter, (dqresCompute o.Q o.s.sol exDIRes exDQWs).res_g 0)) = some (.SUCCESS, 0, 2) := by decide +kernel
  cases hq : dqipmSolve exDq0Env 5 exDq0Sol exDq0Ipm with
  | none => rw [hq] at h; cases h
  | some o =>
    rw [hq] at h
    have h' := Option.some.inj h
    simp only [Prod.mk.injEq] at h'
    exact ⟨o, rfl, h'.1, h'.2.1, h'.2.2, rfl⟩

/-! ### the initial point ignores upper bounds -/

/-- `exDq1` without its quadratic constraint -/
def exDqNo : DQcqp ℚ :=
  let Q : DQcqp ℚ := DQcqp.create ⟨1, 0, 1, 0, 0⟩ 0
  let Q := Q.setF (.qp .H) (fun _ => 1)
  let Q := Q.setF (.qp .g) (fun _ => -3)
  let Q := Q.setF (.qp .lb) (fun _ => -10)
  Q.setF (.qp .ub) (fun _ => 10)

/-- the arguments of a start from the given primal point (`warm_start = 1`) with the heuristic (`t0_init = 2`) -/
def exDqWarm : IpmArg ℚ where
  r := exQArg.r
  i := fun f => match f with
    | .warm_start => 1
    | .t0_init => 2
    | x => exQArg.i x

/-- **C100 (finding).**  The starting heuristic takes the mask of an upper bound from the wrong place.  With `v <= 10` and one quadratic
constraint, started at `v = 20`, it leaves the variable at `20`, above its upper bound, as if the bound did not exist; without the
quadratic constraint it moves it inside the bound. -/
theorem exDQ_init_ub_ignored :
    (dqview exDq1).base.upperMask 0 = 1 ∧ (dqview exDq1).base.upper 0 = 10 ∧
    (dqinitVar exQSq (dqmaskLower exDq1) exDqWarm { exDQSol0 with v := fun _ => 20 }).v 0 = 20 ∧
    (dqinitVar exQSq (dqmaskLower exDqNo) exDqWarm { exDQSol0 with v := fun _ => 20 }).v 0 < 10 := by decide +kernel

end Hpipm
