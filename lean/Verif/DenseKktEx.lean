/-
Concrete problems meeting the hypotheses of the dense KKT theorems (C70, C71): two variables, equality constraint
`v₁ = 2`, a box on `v₀`, a soft general constraint `v₀ ≥ 1`, Hessian `diag(1, h)`.  With `h = 1` the problem is strictly
convex; with `h = -1` only on the null space of the equality constraint.
-/
import Verif.DenseKktConv
import Mathlib.Analysis.Real.Sqrt

namespace Hpipm
open Finset
section DKEx

/-- the example QP, with `n` copies of the equality constraint -/
noncomputable def exDKQp (h : ℝ) (n : ℕ) : DenseQp ℝ where
  dim := ⟨2, n, 1, 1, 1⟩
  Hv := fun i j => if i = 0 ∧ j = 0 then 1 else if i = 1 ∧ j = 1 then h else if i = 1 ∧ j = 0 then 0 else 99
  A := fun _ j => if j = 1 then 1 else 0
  Ct := fun i _ => if i = 0 then 1 else 0
  gz := fun i => if i = 0 then 1 / 2 else if i = 3 then 1 else 0
  b := fun _ => 2
  d := fun i => if i = 0 then 1 else if i = 1 then 4 else if i = 2 then -10 else if i = 3 then -100 else 0
  d_mask := fun _ => 1
  m := fun _ => 0
  Z := fun _ => 1
  idxb := fun _ => 0
  idxs_rev := fun j => if j = 1 then 0 else -1

noncomputable def exDKSol : DqSol ℝ := ⟨fun _ => 1, fun _ => 0, fun _ => 1, fun _ => 1⟩
noncomputable def exDKCore : Core ℝ := coreMk 6 (fun _ => 1) (fun _ => 1) (fun _ => 0) (fun _ => 0) 1 2
noncomputable def exDKSt : DKkt ℝ where
  Lv := fun _ _ => 7
  Le := fun _ _ => 7
  Ctx := fun _ _ => 7
  AL := fun _ _ => 7
  A_LQ := fun _ _ => 7
  A_Q := fun _ _ => 7
  Zt := fun _ _ => 7
  ZtH := fun _ _ => 7
  ZtHZ := fun _ _ => 7
  lv := fun _ => 7
  sv := fun _ => 7
  se := fun _ => 7
  Zs := fun _ => 7
  t0 := fun _ => 7
  t1 := fun _ => 7
  t2 := fun _ => 7
  t3 := fun _ => 7
  xy := fun _ => 7
  Yxy := fun _ => 7
  xz := fun _ => 7
  tmp_nv := fun _ => 7
  use_A_fact := false
  v := fun _ => 7
  pi := fun _ => 7
  lam := fun _ => 7
  t := fun _ => 7

noncomputable def exDKRes : DRes ℝ := ⟨fun _ => 7, fun _ => 7, fun _ => 7, fun _ => 7, 7, 7, 7, 7⟩

/-- an LQ factorisation of the row `(0 1)`: `L = (1)`, `Q` swaps the variables -/
noncomputable def exDKLq : ℕ → ℕ → Mat ℝ → Mat ℝ × Mat ℝ :=
  fun _ _ _ => (fun _ _ => 1, fun i j => if i + j = 1 then 1 else 0)

theorem exDK_sqrt : ∀ x : ℝ, 0 < x → Real.sqrt x * Real.sqrt x = x := fun x hx => Real.mul_self_sqrt hx.le

variable (h : ℝ) (n : ℕ)

theorem exDK_wf : (exDKQp h n).WF := by
  constructor
  · intro j hj; exact (by decide : 0 < 2)
  · intro j hj
    have : j < 2 := hj
    interval_cases j
    · left; rfl
    · right; exact ⟨le_refl _, (by decide : 0 < 1)⟩

theorem exDK_unshared : DUnshared (exDKQp h n) := by
  intro j j' hj hj' h1 h2
  have : j < 2 := hj
  have : j' < 2 := hj'
  interval_cases j <;> interval_cases j' <;> simp_all [exDKQp]

theorem exDK_mask : DMask01 (exDKQp h n) := fun _ _ => Or.inr rfl

theorem exDK_core : DCoreOf (exDKQp h n) exDKSol exDKCore :=
  ⟨rfl, fun _ _ => rfl, fun _ _ => rfl, fun _ _ => by simp [exDKSol]⟩

theorem exDK_tlm : exDKCore.t_lam_min ≠ 1 := by decide

theorem exDK_cache (alg : ℕ) : DCache (exDKQp h n) alg exDKSt := by
  intro _ _ h; cases h

theorem exDK_lq (alg : ℕ) : DLqHyp exDKLq (exDKQp h 1) alg := by
  intro _ _
  refine ⟨(by decide : 1 ≤ 2), ?_, ?_, ?_⟩
  · intro y hy i hi
    have := hy 1 (by decide : 1 < 2)
    have : i < 1 := hi
    have e : (exDKQp h 1).dim.ne = 1 := rfl
    interval_cases i
    simpa [exDKQp] using hy 1 (by decide : 1 < 2)
  · intro i j hi hj
    have : i < 1 := hi
    have : j < 2 := hj
    have e : (exDKQp h 1).dim.ne = 1 := rfl
    interval_cases i; interval_cases j <;> simp [exDKQp, exDKLq, low]
  · intro a c ha hc
    have : a < 2 := ha
    have : c < 2 := hc
    have e : (exDKQp h 1).dim.nv = 2 := rfl
    rw [e]
    interval_cases a <;> interval_cases c <;> simp [exDKLq, sum_range_succ]

theorem exDK_int : DInterior (exDKQp h n) exDKSol := fun _ _ => ⟨zero_le_one, zero_lt_one⟩

theorem exDK_slack (reg : ℝ) (hr : 0 ≤ reg) : DSlackOk (exDKQp h n) reg exDKSol := by
  intro i hi
  have hz : (0 : ℝ) < (exDKQp h n).Z i + reg := by show 0 < 1 + reg; linarith
  exact ⟨hz.le, dslackCurv_pos _ reg exDKSol (exDK_int h n) i hi (Or.inl hz)⟩

theorem exDK_quad (p : DPt ℝ) :
    (dview (exDKQp h n)).quad p = 1 / 2 * (p.v 0 * p.v 0 + h * (p.v 1 * p.v 1)) + 1 / 2 * (p.sl 0 * p.sl 0)
      + 1 / 2 * (p.su 0 * p.su 0) := by
  have hh : ∀ i j, i < 2 → j < 2 → (dview (exDKQp h n)).hess i j = if i = j then (if i = 0 then 1 else h) else 0 := by
    intro i j hi hj
    unfold DUser.hess
    interval_cases i <;> interval_cases j <;>
      simp [dview, dgot, DenseQp.getF, unpackMat, exDKQp]
  have hz : (dview (exDKQp h n)).Zl 0 = 1 ∧ (dview (exDKQp h n)).Zu 0 = 1 := by
    constructor <;> simp [dview, dgot, DenseQp.getF, unpackVec, exDKQp, veccp, loop]
  unfold DUser.quad
  have e1 : (dview (exDKQp h n)).nv = 2 := rfl
  have e2 : (dview (exDKQp h n)).ns = 1 := rfl
  rw [e1, e2]
  simp only [sum_range_succ, range_zero, sum_empty, zero_add]
  rw [hh 0 0 (by omega) (by omega), hh 0 1 (by omega) (by omega), hh 1 0 (by omega) (by omega),
    hh 1 1 (by omega) (by omega), hz.1, hz.2]
  simp
  ring

theorem exDK_Av (v : Vec ℝ) (i : ℕ) (hi : i < n) : (dview (exDKQp h n)).Av v i = v 1 := by
  rw [dview_Av (exDKQp h n) _ i hi]
  show ∑ j ∈ range 2, (exDKQp h n).A i j * v j = v 1
  simp [exDKQp]

theorem sq_pos_of_ne (x : ℝ) (h : x ≠ 0) : 0 < x * x := mul_self_pos.mpr h

/-- the strictly convex instance meets the curvature condition of every method -/
theorem exDK_curv (alg : ℕ) : DCurv (exDKQp 1 n) alg 0 := by
  refine ⟨fun v _ => ?_, le_refl _, Or.inr fun v _ hv => ?_⟩
  · rw [exDK_quad]; dsimp only; nlinarith [mul_self_nonneg (v 0), mul_self_nonneg (v 1)]
  · rw [exDK_quad]; dsimp only
    obtain ⟨i, hi, hne⟩ := hv
    have : i < 2 := hi
    interval_cases i
    · nlinarith [sq_pos_of_ne _ hne, mul_self_nonneg (v 1)]
    · nlinarith [sq_pos_of_ne _ hne, mul_self_nonneg (v 0)]

/-- the instance that is convex only on the null space meets that of the null space method -/
theorem exDK_curv0 : DCurv (exDKQp (-1) 1) 0 0 := by
  have key : ∀ v, DDir (exDKQp (-1) 1) 0 v → v 1 = 0 := by
    intro v hv
    rw [← exDK_Av (-1) 1 v 0 (by decide)]
    exact hv (by decide : 0 < 1) rfl 0 (by decide : 0 < 1)
  refine ⟨fun v hv => ?_, le_refl _, Or.inr fun v hv hne => ?_⟩
  · rw [exDK_quad]; dsimp only; rw [key v hv]; nlinarith [mul_self_nonneg (v 0)]
  · rw [exDK_quad]; dsimp only; rw [key v hv]
    obtain ⟨i, hi, hne⟩ := hne
    have : i < 2 := hi
    interval_cases i
    · nlinarith [sq_pos_of_ne _ hne]
    · exact absurd (key v hv) hne

theorem exDK_full : FullRank (exDKQp h 1).dim.ne (exDKQp h 1).dim.nv (exDKQp h 1).A :=
  (exDK_lq h 0 (by decide : 0 < 1) rfl).2.1

theorem exDK_eq (alg : ℕ) (sc : Bool) : DEqOk (exDKQp h 1) (⟨alg, sc, 0, 0⟩ : DArg ℝ) 0 :=
  fun _ _ => ⟨le_refl _, Or.inr (exDK_full h)⟩

/-- C71: all methods end on the strictly convex instance, in one pass -/
theorem exDK_total (alg : ℕ) (sc : Bool) (fuel : ℕ) : ∃ o, dfactSolve Real.sqrt exDKLq fuel (exDKQp 1 1) ⟨alg, sc, 0, 0⟩ 0 0 exDKCore exDKSt = some o ∧
    o.npd_reg_hess = false := by
  obtain ⟨o, h1, h2, _⟩ := dfactSolve_total (exDKQp 1 1) Real.sqrt exDKLq ⟨alg, sc, 0, 0⟩ exDK_sqrt fuel (exDK_wf _ _) (exDK_lq _ _)
    exDKSol (exDK_int _ _) (exDK_slack _ _ 0 (le_refl _)) (exDK_curv 1 alg) (exDK_eq 1 alg sc) 0 0 exDKCore (exDK_core _ _) exDK_tlm
    exDKSt (exDK_cache _ _ _)
  exact ⟨o, h1, h2⟩

/-- C71: the null space method ends on the instance that is convex on the null space only -/
theorem exDK_total0 (fuel : ℕ) : ∃ o, dfactSolve Real.sqrt exDKLq fuel (exDKQp (-1) 1) ⟨0, false, 0, 0⟩ 0 0 exDKCore exDKSt = some o ∧
    o.npd_reg_hess = false := by
  obtain ⟨o, h1, h2, _⟩ := dfactSolve_total (exDKQp (-1) 1) Real.sqrt exDKLq ⟨0, false, 0, 0⟩ exDK_sqrt fuel (exDK_wf _ _) (exDK_lq _ _)
    exDKSol (exDK_int _ _) (exDK_slack _ _ 0 (le_refl _)) exDK_curv0 (exDK_eq (-1) 0 false) 0 0 exDKCore (exDK_core _ _) exDK_tlm
    exDKSt (exDK_cache _ _ _)
  exact ⟨o, h1, h2⟩

theorem exDK_value (j : ℕ) (hj : j < (exDKQp h n).dim.nb + (exDKQp h n).dim.ng) :
    (dview (exDKQp h n)).value (dptOf (exDKQp h n).dim (fun i => if i = 1 then 1 else 0)) j = 0 := by
  have : j < 2 := hj
  rw [dvalue_packed _ (exDK_wf _ _) _ j hj]
  interval_cases j <;> simp [cval, ov, odim, exDKQp, sum_range_succ]

/-- C71: on the same instance the default method (Schur complement, no scaling) never returns -/
example (fuel : ℕ) (pl dl : ℝ) (c : Core ℝ) (st : DKkt ℝ) :
    dfactSolve Real.sqrt exDKLq fuel (exDKQp (-1) 1) ⟨1, false, 0, 0⟩ pl dl c st = none := by
  refine dfactSolve_schur_loops (exDKQp (-1) 1) Real.sqrt exDKLq ⟨1, false, 0, 0⟩ exDK_sqrt (exDK_wf _ _) (by decide : 0 < 1) (by decide) rfl
    (fun i => if i = 1 then 1 else 0) ⟨1, (by decide : 1 < 2), by simp⟩ (fun j hj => ?_) ?_ fuel pl dl c st
  · have : j < 2 := hj
    rw [show (⟨fun i => if i = 1 then (1 : ℝ) else 0, fun _ => 0, fun _ => 0⟩ : DPt ℝ) = dptOf (exDKQp (-1) 1).dim (fun i => if i = 1 then 1 else 0) by
      unfold dptOf exDKQp; congr 1 <;> funext i <;> simp <;> omega]
    exact exDK_value _ _ j hj
  · rw [exDK_quad]
    show 2 * _ + (0 : ℝ) * _ ≤ 0
    norm_num

/-- C71: with scaling it does not return either: the scaled diagonal entry is negative -/
example (fuel : ℕ) (c : Core ℝ) : dfactSolve Real.sqrt exDKLq fuel (exDKQp (-1) 1) ⟨1, true, 0, 0⟩ 0 0 c exDKSt = none := by
  refine dfactSolve_scale_loops_var (exDKQp (-1) 1) Real.sqrt exDKLq ⟨1, true, 0, 0⟩ exDK_sqrt (exDK_wf _ _) (exDK_lq _ _) (Or.inr (by decide)) rfl
    fuel 0 0 c exDKSt (exDK_cache _ _ _) 1 (by decide : 1 < 2) (exDK_value _ _) ?_
  rw [exDK_quad]
  norm_num

/-- C71: the scaled method ends on the strictly convex instance whatever the multipliers -/
example (sol : DqSol ℝ) (hi : DInterior (exDKQp 1 1) sol) (c : Core ℝ) (hc : DCoreOf (exDKQp 1 1) sol c) (ht : c.t_lam_min ≠ 1) :
    ∃ n, ∀ fuel, n ≤ fuel → ∃ o, dfactSolve Real.sqrt exDKLq fuel (exDKQp 1 1) ⟨1, true, 0, 0⟩ 0 0 c exDKSt = some o := by
  refine dfactSolve_ends_scaled (exDKQp 1 1) Real.sqrt exDKLq ⟨1, true, 0, 0⟩ exDK_sqrt (exDK_wf _ _) (exDK_lq _ _) rfl (exDK_eq 1 1 true) 0 0
    (by unfold RegGrows; norm_num) sol hi (fun i h => ?_) c hc ht exDKSt (exDK_cache _ _ _) (fun i _ => ?_)
  · have hz : (0 : ℝ) < (exDKQp 1 1).Z i + 0 := by show (0 : ℝ) < 1 + 0; norm_num
    exact ⟨hz.le, dslackCurv_pos _ 0 sol hi i h (Or.inl hz)⟩
  · rw [exDK_quad]; dsimp only; split_ifs <;> norm_num

/-- C71: twice the same equality constraint, `reg_prim ≠ 0`, `reg_dual = 0`: no return -/
example (fuel : ℕ) (pl : ℝ) (c : Core ℝ) (st : DKkt ℝ) :
    dfactSolve Real.sqrt exDKLq fuel (exDKQp 1 2) ⟨1, false, 1, 0⟩ pl 0 c st = none := by
  refine dfactSolve_dreg_loops (exDKQp 1 2) Real.sqrt exDKLq ⟨1, false, 1, 0⟩ exDK_sqrt (exDK_wf _ _) (by decide : 0 < 2) (by decide) rfl rfl
    (by norm_num) (fun hr => ?_) fuel pl c st
  have := hr (fun i => if i = 0 then 1 else -1) (fun j hj => by
    show ∑ i ∈ range 2, _ = _
    have : j < 2 := hj
    interval_cases j <;> simp [exDKQp, sum_range_succ]) 0 (by decide : 0 < 2)
  norm_num at this

/-- C71: on the nonconvex instance the null space method ends from every iterate, negative multipliers included -/
example (c : Core ℝ) : ∃ n, ∀ fuel, n ≤ fuel → ∃ o, dfactSolve Real.sqrt exDKLq fuel (exDKQp (-1) 1) ⟨0, false, 0, 0⟩ 0 0 c exDKSt = some o :=
  dfactSolve_ends (exDKQp (-1) 1) Real.sqrt exDKLq ⟨0, false, 0, 0⟩ exDK_sqrt (exDK_wf _ _) (exDK_lq _ _) (fun _ h => absurd rfl h)
    (exDK_eq (-1) 0 false) 0 0 (by unfold RegGrows; norm_num) c exDKSt (exDK_cache _ _ _) (fun h => by cases h)

/-- C70: the step of every method solves the linearised KKT system exactly on the strictly convex instance -/
example (alg : ℕ) (sc : Bool) : ∃ o, dfactSolve Real.sqrt exDKLq 0 (exDKQp 1 1) ⟨alg, sc, 0, 0⟩ 0 0 exDKCore exDKSt = some o ∧
    DNewtonStep (exDKQp 1 1) exDKSol 0 (fun _ => 0) (fun _ => 0) (dstepOf o.st) := by
  obtain ⟨o, h1, h2⟩ := exDK_total alg sc 0
  exact ⟨o, h1, (dfactSolve_newton Real.sqrt exDKLq (exDKQp 1 1) ⟨alg, sc, 0, 0⟩ exDK_sqrt 0 (exDK_wf _ _) (exDK_unshared _ _) (exDK_lq _ _) exDKSol
    (fun i hi => ne_of_gt (exDK_slack 1 1 0 (le_refl _) i hi).2) 0 0 exDKCore (exDK_core _ _) exDK_tlm exDKSt (exDK_cache _ _ _) o h1).2 h2 rfl rfl⟩

/-- C70: so does that of the null space method on the other instance -/
example : ∃ o, dfactSolve Real.sqrt exDKLq 0 (exDKQp (-1) 1) ⟨0, false, 0, 0⟩ 0 0 exDKCore exDKSt = some o ∧
    DNewtonStep (exDKQp (-1) 1) exDKSol 0 (fun _ => 0) (fun _ => 0) (dstepOf o.st) := by
  obtain ⟨o, h1, h2⟩ := exDK_total0 0
  exact ⟨o, h1, (dfactSolve_newton Real.sqrt exDKLq (exDKQp (-1) 1) ⟨0, false, 0, 0⟩ exDK_sqrt 0 (exDK_wf _ _) (exDK_unshared _ _) (exDK_lq _ _) exDKSol
    (fun i hi => ne_of_gt (exDK_slack _ 1 0 (le_refl _) i hi).2) 0 0 exDKCore (exDK_core _ _) exDK_tlm exDKSt (exDK_cache _ _ _) o h1).2 h2 rfl rfl⟩

/-- C70: re-solving with other right-hand sides -/
example (alg : ℕ) (sc : Bool) (gz b d m : Vec ℝ) : ∃ o, dfactSolve Real.sqrt exDKLq 0 (exDKQp 1 1) ⟨alg, sc, 0, 0⟩ 0 0 exDKCore exDKSt = some o ∧
    DNewtonStep { exDKQp 1 1 with gz := gz, b := b, d := d, m := m } exDKSol 0 (fun _ => 0) (fun _ => 0)
      (dstepOf (dsolveKkt { exDKQp 1 1 with gz := gz, b := b, d := d, m := m } alg sc o.core o.st).2) := by
  obtain ⟨o, h1, h2⟩ := exDK_total alg sc 0
  exact ⟨o, h1, (dfact_then_solve Real.sqrt exDKLq (exDKQp 1 1) ⟨alg, sc, 0, 0⟩ exDK_sqrt 0 (exDK_wf _ _) (exDK_unshared _ _) (exDK_lq _ _) exDKSol
    (fun i hi => ne_of_gt (exDK_slack 1 1 0 (le_refl _) i hi).2) 0 0 exDKCore (exDK_core _ _) exDK_tlm exDKSt (exDK_cache _ _ _) o h1
    gz b d m).2.2 h2 rfl rfl⟩

/-- C70: the full step zeroes the linear residuals -/
example (alg : ℕ) (sc : Bool) (ws : ResWs ℝ) (hws : ws.valid_nc_mask = false) :
    ∃ o, dfactSolve Real.sqrt exDKLq 0 (dstepQp (exDKQp 1 1) (dresCompute (exDKQp 1 1) exDKSol exDKRes ws)) ⟨alg, sc, 0, 0⟩ 0 0 exDKCore exDKSt = some o ∧
    ∀ i, i < 4 → (dresCompute (exDKQp 1 1) (exDKSol.add (dstepOf o.st)) exDKRes ws).res_g i = 0 := by
  have hw : DWsOk ws (exDKQp 1 1) := by intro h; rw [hws] at h; cases h
  obtain ⟨o, h1, h2, _⟩ := dfactSolve_total (dstepQp (exDKQp 1 1) (dresCompute (exDKQp 1 1) exDKSol exDKRes ws)) Real.sqrt exDKLq ⟨alg, sc, 0, 0⟩ exDK_sqrt 0
    ⟨(exDK_wf 1 1).idxb, (exDK_wf 1 1).soft⟩ (exDK_lq 1 alg)
    exDKSol (exDK_int 1 1) (exDK_slack 1 1 0 (le_refl _)) ⟨(exDK_curv 1 alg).nonneg, (exDK_curv 1 alg).regn, (exDK_curv 1 alg).strict⟩ (exDK_eq 1 alg sc) 0 0 exDKCore ⟨(exDK_core 1 1).nc, (exDK_core 1 1).lam, (exDK_core 1 1).t, (exDK_core 1 1).pos⟩ exDK_tlm
    exDKSt (exDK_cache 1 1 alg)
  exact ⟨o, h1, ((dfactSolve_full_step Real.sqrt exDKLq (exDKQp 1 1) ⟨alg, sc, 0, 0⟩ exDK_sqrt 0 (exDK_wf _ _) (exDK_mask _ _) (exDK_unshared _ _) (exDK_lq _ _) exDKSol
    (fun j _ h => absurd h one_ne_zero)
    (fun i hi => ne_of_gt (exDK_slack 1 1 0 (le_refl _) i hi).2) 0 0 exDKCore (exDK_core _ _) exDK_tlm exDKSt (exDK_cache _ _ _) exDKRes exDKRes ws ws
    hw hw o h1).2.2.2.2 h2 rfl rfl).1⟩

theorem exDK_strict : DStrictlyConvex (exDKQp (-1) 1) := by
  intro p hp hne
  have h1 := hp 0 (by decide : 0 < 1)
  rw [exDK_Av _ _ _ _ (by decide)] at h1
  rw [exDK_quad, h1]
  rcases hne with ⟨i, hi, hne⟩ | ⟨i, hi, hne⟩
  · have : i < 2 := hi
    interval_cases i
    · nlinarith [sq_pos_of_ne _ hne, mul_self_nonneg (p.sl 0), mul_self_nonneg (p.su 0)]
    · exact absurd h1 hne
  · have : i < 1 := hi
    interval_cases i
    rcases hne with hne | hne
    · nlinarith [sq_pos_of_ne _ hne, mul_self_nonneg (p.v 0), mul_self_nonneg (p.su 0)]
    · nlinarith [sq_pos_of_ne _ hne, mul_self_nonneg (p.v 0), mul_self_nonneg (p.sl 0)]

theorem exDK_strict1 : DStrictlyConvex (exDKQp 1 1) := by
  intro p hp hne
  have h1 := hp 0 (by decide : 0 < 1)
  rw [exDK_Av _ _ _ _ (by decide)] at h1
  rw [exDK_quad, h1]
  rcases hne with ⟨i, hi, hne⟩ | ⟨i, hi, hne⟩
  · have : i < 2 := hi
    interval_cases i
    · nlinarith [sq_pos_of_ne _ hne, mul_self_nonneg (p.sl 0), mul_self_nonneg (p.su 0)]
    · exact absurd h1 hne
  · have : i < 1 := hi
    interval_cases i
    rcases hne with hne | hne
    · nlinarith [sq_pos_of_ne _ hne, mul_self_nonneg (p.v 0), mul_self_nonneg (p.su 0)]
    · nlinarith [sq_pos_of_ne _ hne, mul_self_nonneg (p.v 0), mul_self_nonneg (p.sl 0)]

/-- C71: the null space method and the scaled Schur complement method return the same step -/
example : ∃ o o', dfactSolve Real.sqrt exDKLq 0 (exDKQp 1 1) ⟨0, false, 0, 0⟩ 0 0 exDKCore exDKSt = some o ∧
    dfactSolve Real.sqrt exDKLq 5 (exDKQp 1 1) ⟨1, true, 0, 0⟩ 0 0 exDKCore exDKSt = some o' ∧
    (∀ i, i < 4 → o.st.v i = o'.st.v i) ∧ ∀ i, i < 1 → o.st.pi i = o'.st.pi i := by
  obtain ⟨o, h1, h2⟩ := exDK_total 0 false 0
  obtain ⟨o', h1', h2'⟩ := exDK_total 1 true 5
  have := dmethods_agree (exDKQp 1 1) Real.sqrt exDKLq ⟨0, false, 0, 0⟩ exDK_sqrt (exDK_wf _ _) (exDK_unshared _ _) exDKSol (exDK_int _ _) exDK_strict1
    ⟨1, true, 0, 0⟩ ⟨rfl, rfl⟩ ⟨rfl, rfl⟩ (exDK_lq _ _) (exDK_lq _ _) (fun i hi => ne_of_gt (exDK_slack 1 1 0 (le_refl _) i hi).2) 0 5 0 0 0 0
    exDKCore exDKCore (exDK_core _ _) (exDK_core _ _) exDK_tlm exDK_tlm exDKSt exDKSt (exDK_cache _ _ _) (exDK_cache _ _ _) o o' h1 h1' h2 h2'
  exact ⟨o, o', h1, h1', this.1, this.2.2 (exDK_full 1)⟩

/-- C71: uniqueness needs convexity on the null space only -/
example (s s' : DqSol ℝ) (h : DNewtonStep (exDKQp (-1) 1) exDKSol 0 (fun _ => 0) (fun _ => 0) s)
    (h' : DNewtonStep (exDKQp (-1) 1) exDKSol 0 (fun _ => 0) (fun _ => 0) s') : ∀ i, i < 4 → s.v i = s'.v i :=
  (dnewton_unique (exDKQp (-1) 1) (exDK_wf _ _) exDKSol (exDK_int _ _) exDK_strict s s' h h').1

end DKEx
end Hpipm
