/-
Examples for the theorems on the dense solver (C73-C76), and witnesses of behaviour a caller would not expect.
-/
import Verif.DenseIpmObj
import Verif.DenseIpmEnds
import Verif.DenseKktEx

namespace Hpipm
open Finset

theorem exDI_out : ∃ o, dipmSolve exDIEnv 5 exDISol exDIIpm = some o ∧ o.iter = 1 ∧ o.status = .SUCCESS := by
  obtain ⟨o, ho, he⟩ := Option.map_eq_some_iff.mp exDI_run
  simp only [Prod.mk.injEq] at he
  exact ⟨o, ho, he.1, he.2⟩

theorem exDI_wf : exDIQp.WF := ⟨fun _ _ => (by decide : 0 < 2), fun _ _ => Or.inl rfl⟩
theorem exDI_mask : DMask01 exDIQp := fun j _ => by
  by_cases h : j = 1 ∨ j = 3
  · exact Or.inl (if_pos h)
  · exact Or.inr (if_neg h)
theorem exDI_init : DInitOk exDIEnv := Or.inl ⟨by decide, by decide +kernel, by decide +kernel, by decide +kernel⟩

theorem exDI_solved : ∃ o, DSolved exDIEnv 5 exDISol exDIIpm o ∧ o.iter = 1 := by
  obtain ⟨o, h, h1, h2⟩ := exDI_out
  exact ⟨o, ⟨exDI_wf, exDI_mask, rfl, by decide +kernel, rfl, by decide, exDI_init, rfl, by decide +kernel, by decide +kernel, h, h2⟩, h1⟩

/-- C73 -/
example : ∃ o, dipmSolve exDIEnv 5 exDISol exDIIpm = some o ∧ (o.iter : ℤ) ≤ 5 ∧ o.s.oob = false := by
  obtain ⟨o, h, -, -⟩ := exDI_out
  exact ⟨o, h, dipm_iter_le exDIEnv 5 exDISol exDIIpm o h, dipm_stat_inside exDIEnv 5 exDISol exDIIpm rfl o h⟩

/-- C73: the equality residual of the returned solution -/
example : ∃ o, dipmSolve exDIEnv 5 exDISol exDIIpm = some o ∧
    |(dresCompute exDIQp (dsolOf o.s.core) dfreshRes dfreshWs).res_b 0| ≤ 1 / 10 := by
  obtain ⟨o, h, -, hs⟩ := exDI_out
  exact ⟨o, h, (dipm_success exDIEnv exDI_wf exDI_mask 5 exDISol exDIIpm o rfl (by decide +kernel) rfl (by decide) h hs dfreshRes dfreshWs
    (dfreshWs_ok _)).2.1 0 (by decide)⟩

/-- the absolute formulation on the same problem -/
def exDIAbs : DEnv ℚ := { exDIEnv with arg := { exDIArg with i := fun f => if f = .abs_form then 1 else exDIArg.i f } }

theorem exDIAbs_run : ((dipmSolve exDIAbs 5 exDISol exDIIpm).map fun o => (o.iter, o.status)) = some (1, .SUCCESS) := by decide +kernel

/-- C73: the status of a run of the absolute formulation -/
example : ∃ o, dipmSolve exDIAbs 5 exDISol exDIIpm = some o ∧
    |dcompSum exDIQp (dsolOf o.s.core) / (dcompCount exDIQp : ℚ) - 0| ≤ 8 := by
  obtain ⟨o, ho, he⟩ := Option.map_eq_some_iff.mp exDIAbs_run
  simp only [Prod.mk.injEq] at he
  exact ⟨o, ho, (dipm_status exDIAbs exDI_mask 5 exDISol exDIIpm o rfl (by decide +kernel) ho).2.2.2 (by decide) (by decide) he.2⟩

/-- C75 -/
example : ∃ o, dipmSolve exDIEnv 5 exDISol exDIIpm = some o ∧ DInside exDIQp (dsolOf o.s.core) := by
  obtain ⟨o, h, -⟩ := exDI_out
  exact ⟨o, h, dipm_solution_inside exDIEnv exDI_mask exDI_init rfl (by decide +kernel) (by decide +kernel) 5 exDISol exDIIpm o rfl
    (by decide +kernel) h⟩

/-- C76: `v1 = 1` up to `1/10`, `-5 <= v0` up to `1/10`, and no feasible point is better than the returned one by more than
`20 + |p|_1/10` -/
example : ∃ o, dipmSolve exDIEnv 5 exDISol exDIIpm = some o ∧
    |(dview exDIQp).Av (dptOf exDIQp.dim o.s.core.v).v 0 - (dview exDIQp).b 0| ≤ 1 / 10 ∧
    (dview exDIQp).lower 0 ≤ (dview exDIQp).value (dptOf exDIQp.dim o.s.core.v) 0 + (dview exDIQp).slackLo (dptOf exDIQp.dim o.s.core.v) 0 + 1 / 10 ∧
    o.s.obj = (dview exDIQp).objective (dptOf exDIQp.dim o.s.core.v) := by
  obtain ⟨o, h, -⟩ := exDI_solved
  have hf := dipm_success_feasible h
  refine ⟨o, h.ran, hf.1 0 (by decide), hf.2.1 0 (by decide) ?_, (dipm_objective exDIEnv (by decide) 5 exDISol exDIIpm o h.ran).2⟩
  have e : (dview exDIEnv.qp).lowerMask 0 = exDIQp.d_mask 0 := ((dview_masks exDIQp 0).1 (by decide)).1
  rw [e]; decide +kernel

theorem exDI_quad (p : DPt ℚ) : (dview exDIQp).quad p = p.v 0 * p.v 0 + 1 / 2 * (p.v 1 * p.v 1) := by
  have hh : ∀ i j, i < 2 → j < 2 → (dview exDIQp).hess i j = if i = j then (if i = 0 then 2 else 1) else 0 := by
    intro i j hi hj
    unfold DUser.hess
    interval_cases i <;> interval_cases j <;>
      simp [dview, dgot, DenseQp.getF, unpackMat, exDIQp]
  unfold DUser.quad
  have e1 : (dview exDIQp).nv = 2 := rfl
  have e2 : (dview exDIQp).ns = 0 := rfl
  rw [e1, e2]
  simp only [sum_range_succ, range_zero, sum_empty, zero_add]
  rw [hh 0 0 (by omega) (by omega), hh 0 1 (by omega) (by omega), hh 1 0 (by omega) (by omega), hh 1 1 (by omega) (by omega)]
  simp
  ring

example (p : DPt ℚ) (hp : (dview exDIQp).Feasible p) : ∃ o, dipmSolve exDIEnv 5 exDISol exDIIpm = some o ∧
    (dview exDIQp).objective (dptOf exDIQp.dim o.s.core.v) - 20 - 1 / 10 * (dview exDIQp).absSum p ≤ (dview exDIQp).objective p := by
  obtain ⟨o, h, -⟩ := exDI_solved
  exact ⟨o, h.ran, dipm_success_subopt h (fun x => by
    show 0 ≤ (dview exDIQp).quad x
    rw [exDI_quad]; nlinarith [mul_self_nonneg (x.v 0), mul_self_nonneg (x.v 1)]) p hp⟩

example (x : Vec ℚ) : ∃ o, dipmSolve exDIEnv 5 exDISol exDIIpm = some o ∧
    |(dview exDIQp).lagrangian (dptOf exDIQp.dim (fun i => o.s.core.v i + x i)) (dmultOf exDIQp.dim (dsolOf o.s.core)) -
      (dview exDIQp).lagrangian (dptOf exDIQp.dim o.s.core.v) (dmultOf exDIQp.dim (dsolOf o.s.core)) - (dview exDIQp).quad (dptOf exDIQp.dim x)| ≤
      1 / 10 * (dview exDIQp).absSum (dptOf exDIQp.dim x) ∧
    0 < o.s.core.lam 0 ∧ 0 < o.s.core.t 0 := by
  obtain ⟨o, h, -⟩ := exDI_solved
  exact ⟨o, h.ran, dipm_success_stationary h x, ((dipm_success_complementary h 0 (by decide)).1 (by decide +kernel)).2⟩

/-! termination on a convex problem over the reals, with every method -/

noncomputable def exDRArg (alg : ℕ) (sc : Bool) (abs : ℤ) : DIpmArg ℝ where
  r := fun f => match f with
    | .mu0 => 4
    | .lam_min => 1
    | .t_min => 1
    | _ => 0
  i := fun f => match f with
    | .iter_max => 50
    | .t_lam_min => 2
    | .abs_form => abs
    | .pred_corr => 1
    | .itref_corr_max => 3
    | _ => 0
  reg_dual := 0
  kkt_fact_alg := alg
  scale := sc
  compute_obj := 1

noncomputable def exDREnv (alg : ℕ) (sc : Bool) (abs : ℤ) : DEnv ℝ where
  sq := Real.sqrt
  fuel := 0
  lqd := exDKLq
  qp := exDKQp 1 1
  arg := exDRArg alg sc abs
  lqf := 0
  statMax := 5
  lq := fun _ _ st => (st, false, false)
  factOnly := fun _ _ st => st

theorem exDR_conv (alg : ℕ) (sc : Bool) (abs : ℤ) : (exDREnv alg sc abs).Conv where
  sq := exDK_sqrt
  wf := exDK_wf _ _
  mask := exDK_mask _ _
  lqd := exDK_lq _ _
  eq := exDK_eq 1 alg sc
  curv := exDK_curv 1 alg
  slack := fun i _ => ⟨by show (0 : ℝ) ≤ 1 + 0; norm_num, Or.inl (by show (0 : ℝ) < 1 + 0; norm_num)⟩
  clip := rfl
  lam_min := by show (0 : ℝ) < 1; norm_num
  t_min := by show (0 : ℝ) < 1; norm_num
  lqf := rfl

/-- C73: fifty iterations at most, with the null space method and the Schur complement method, with or without scaling -/
example (alg : ℕ) (sc : Bool) (abs : ℤ) (sol : DqSol ℝ) (s : DIpm ℝ) (hnc : s.core.nc = 6) :
    ∃ o, dipmSolve (exDREnv alg sc abs) 50 sol s = some o := by
  refine dipm_returns (exDR_conv alg sc abs) (Or.inl ⟨(by decide : (0 : ℤ) < 2), ?_, ?_, ?_⟩) sol s hnc 50 (show (50 : ℤ) ≤ 50 from le_refl _)
  · show (0 : ℝ) < 4; norm_num
  · show 0 < Real.sqrt 4; exact Real.sqrt_pos.mpr (by norm_num)
  · exact exDK_sqrt 4 (by norm_num)

/-- C76: no inequalities -/
noncomputable def exDUEnv : DEnv ℝ := { exDREnv 0 false 0 with qp := exDUQp (-1) 0 1 }

example (sol : DqSol ℝ) (s : DIpm ℝ) (hnc : s.core.nc = 0) : ∃ o, dipmSolve exDUEnv 0 sol s = some o ∧
    (dview (exDUQp (-1) 0 1)).IsOptimal (dptOf (exDUQp (-1) 0 1).dim o.s.core.v) := by
  have key : ∀ v, DDir (exDUQp (-1) 0 1) 0 v → v 1 = 0 := by
    intro v hv
    rw [← exDU_Av (-1) 0 v]
    exact hv (by decide : 0 < 1) rfl 0 (by decide : 0 < 1)
  obtain ⟨o, h, -, -, h2⟩ := dipm_noineq_optimal exDUEnv exDK_sqrt (exDU_wf _ _ _) (exDU_noineq _ _ _) (exDK_lq (-1) 0) (fun _ _ => by
      intro i j hi hj
      have : i < 2 := hi
      have : j < 2 := hj
      interval_cases i <;> interval_cases j <;> simp [exDUEnv, exDUQp]) (exDU_full _ _) ⟨fun v hv => by
      show 0 ≤ (dview (exDUQp (-1) 0 1)).quad ⟨v, fun _ => 0, fun _ => 0⟩
      rw [exDU_quad, key v hv]; nlinarith [mul_self_nonneg (v 0)], le_refl _, Or.inr fun v hv hne => by
      show 0 < (dview (exDUQp (-1) 0 1)).quad ⟨v, fun _ => 0, fun _ => 0⟩
      rw [exDU_quad, key v hv]
      obtain ⟨i, hi, hne⟩ := hne
      have : i < 2 := hi
      interval_cases i
      · nlinarith [sq_pos_of_ne _ hne]
      · exact absurd (key v hv) hne⟩ 0 sol s hnc
  exact ⟨o, h, h2⟩

/-! ### the initial point -/

/-- C74: arguments for the third heuristic, `t0_init = 2` -/
def exDINArg (t0 : ℤ) : DIpmArg ℚ := { exDIArg with i := fun f => if f = .t0_init then t0 else exDIArg.i f }

example (t0 : ℤ) (sol : DqSol ℚ) : (dinitVar exDIEnv.sq exDIQp (exDINArg t0) sol).lam 2 * (dinitVar exDIEnv.sq exDIQp (exDINArg t0) sol).t 2 = 25 :=
  (dinitVar_interior exDIEnv.sq exDIQp (exDINArg t0) sol (show (0 : ℤ) < 2 by decide) (show (0 : ℚ) < 25 by decide +kernel) (show 0 < exDIEnv.sq 25 by decide +kernel)
    (show exDIEnv.sq 25 * exDIEnv.sq 25 = 25 by decide +kernel) 2 (by decide)).2.2

example (t0 : ℤ) (sol sol' : DqSol ℚ) : (dinitVar exDIEnv.sq exDIQp (exDINArg t0) sol).v 0 = (dinitVar exDIEnv.sq exDIQp (exDINArg t0) sol').v 0 :=
  (dinitVar_cold_indep exDIEnv.sq exDIQp exDI_wf (exDINArg t0) rfl sol sol').v 0 (by decide)

def exDIWArg : DIpmArg ℚ := { exDIArg with i := fun f => if f = .warm_start then 2 else exDIArg.i f }

example (sol : DqSol ℚ) : (dinitVar exDIEnv.sq exDIQp exDIWArg sol).t 3 = max (1 / 10) (sol.t 3) :=
  ((dinitVar_warm exDIEnv.sq exDIQp exDIWArg sol (by decide)).2.2 3 (by decide)).1

/-- one variable with `1/20 <= v <= 9/100` and a general constraint `v <= 10` -/
def exDIMid : DenseQp ℚ where
  dim := ⟨1, 0, 1, 1, 0⟩
  Hv := fun _ _ => 1
  A := fun _ _ => 0
  Ct := fun _ _ => 1
  gz := fun _ => 0
  b := fun _ => 0
  d := fun j => if j = 0 then 1 / 20 else if j = 1 then 0 else if j = 2 then -9 / 100 else -10
  d_mask := fun _ => 1
  m := fun _ => 0
  Z := fun _ => 0
  idxb := fun _ => 0
  idxs_rev := fun _ => -1

/-- **C74 (negative).**  With `t0_init = 2` a variable whose bounds are closer than twice the threshold is started at half the
*difference* of its bounds instead of their midpoint: outside of them. -/
theorem dinit_midpoint_wrong : ∃ (qp : DenseQp ℚ) (a : DIpmArg ℚ), a.i .warm_start = 0 ∧ a.i .t0_init = 2 ∧
    qp.d 0 = 1 / 20 ∧ -qp.d 2 = 9 / 100 ∧ ∀ sol, (dinitVar exDIEnv.sq qp a sol).v 0 = -1 / 50 := by
  refine ⟨exDIMid, exDINArg 2, by decide, by decide, by decide +kernel, by decide +kernel, fun sol => ?_⟩
  have h := (dinitVar_cold_indep exDIEnv.sq exDIMid ⟨fun _ _ => (by decide : 0 < 1), fun _ _ => Or.inl rfl⟩ (exDINArg 2) rfl sol exDISol).v 0 (by decide)
  rw [h]
  decide +kernel

/-- one variable, general constraint `0 <= v <= 10` -/
def exDIGen : DenseQp ℚ := { exDIMid with
  dim := ⟨1, 0, 0, 1, 0⟩
  d := fun j => if j = 0 then 0 else -10 }

def exDIGArg : DIpmArg ℚ := { exDIArg with i := fun f => if f = .t0_init then 2 else if f = .warm_start then 1 else exDIArg.i f }

/-- **C74 (negative).**  With `t0_init = 2` the slack of the upper side of a general constraint starts at `upper + value`
instead of `upper - value`: for the primal guess `v = 3` and `v <= 10` it is 13. -/
theorem dinit_general_upper_wrong : (dinitVar exDIEnv.sq exDIGen exDIGArg ⟨fun _ => 3, fun _ => 0, fun _ => 0, fun _ => 0⟩).t 0 = 3 ∧
    (dinitVar exDIEnv.sq exDIGen exDIGArg ⟨fun _ => 3, fun _ => 0, fun _ => 0, fun _ => 0⟩).t 1 = 13 := by
  constructor <;> decide +kernel

/-! ### stale state -/

/-- **C76 (negative).**  Without `compute_obj` the objective of an earlier solve stays marked as valid: here 7 is reported for
a point whose objective is another one. -/
theorem dipm_stale_objective : ((dipmSolve { exDIEnv with arg := { exDIArg with compute_obj := 0 } } 5 exDISol
    { exDIIpm with validObj := true, obj := 7 }).map fun o => (o.status, o.s.validObj, o.s.obj,
      decide (denseObj exDIQp o.s.core.v = 7))) = some (.SUCCESS, true, 7, false) := by decide +kernel

/-- one variable, `-5 <= v <= 5`, Hessian 2 -/
def exDISc : DEnv ℚ where
  sq := fun x => if x = 25 then 5 else if x = 4 then 2 else if x = 1 then 1 else 0
  fuel := 0
  lqd := fun _ _ A => (A, A)
  qp := { exDIMid with
    dim := ⟨1, 0, 1, 0, 0⟩
    Hv := fun _ _ => 2
    gz := fun _ => 1
    d := fun _ => -5 }
  arg := { exDIArg with
    scale := true
    i := fun f => if f = .abs_form then 1 else if f = .iter_max then 1 else exDIArg.i f }
  lqf := 0
  statMax := 5
  lq := fun _ _ st => (st, false, false)
  factOnly := fun _ _ st => st

def exDIScIpm (b : Bool) : DIpm ℚ := { exDIIpm with
  core := { coreMk 2 (fun _ => 0) (fun _ => 0) (fun _ => 0) (fun _ => 0) 1 2 with nv := 1, ne := 0, nc := 2 }
  wscale := b }

/-- **C76 (negative).**  In the absolute formulation with `scale` set, the corrector is solved with the flag `ws->scale` left by
an earlier call (or by nobody): from the same problem, arguments and guess, two workspaces that differ only in this flag give
different results.  (The only square roots taken are those of 25, 4 and 1.) -/
theorem dipm_stale_scale :
    ((dipmSolve exDISc 1 exDISol (exDIScIpm true)).map fun o => o.s.core.v 0) = some (-29999997 / 80000000) ∧
    ((dipmSolve exDISc 1 exDISol (exDIScIpm false)).map fun o => o.s.core.v 0) = some (-29999997 / 20000000) := by
  constructor <;> decide +kernel

end Hpipm
