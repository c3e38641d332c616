/-
Condense, solve, expand on a concrete problem: the hypotheses of the theorems of `CondFullUser` are met.
-/
import Verif.CondFullUser
import Verif.DenseIpmShow

namespace Hpipm
open Finset

/-- two stages: one state, one input at stage 0; box on the input, box on the final state (masked) -/
def exCfDim : QpDim where
  N := 1
  nx := fun _ => 1
  nu := fun k => if k = 0 then 1 else 0
  nb := fun _ => 1
  nbx := fun k => if k = 0 then 0 else 1
  nbu := fun k => if k = 0 then 1 else 0
  ng := fun _ => 0
  ns := fun _ => 0

/-- `x1 = u0 + 1`, cost `1/2 u0^2 + 1/2 x0^2 + 1/2 x1^2` -/
def exCfQp : OcpQp ℚ where
  dim := exCfDim
  BAbt := fun _ r _ => if r = 0 then 1 else 0
  RSQrq := fun _ r c => if r = c then 1 else 0
  DCt := fun _ _ _ => 0
  b := fun _ _ => 1
  rqz := fun _ _ => 0
  d := fun k j => if k = 0 then -5 else if j = 0 then -4 else -6
  d_mask := fun k _ => if k = 0 then 1 else 0
  m := fun _ _ => 0
  Z := fun _ _ => 1
  idxb := fun _ _ => 0
  idxs_rev := fun _ _ => -1
  idxe := fun _ _ => 0
  diag_H_flag := fun _ => 0

/-- the dense QP as created -/
def exCfDq : DenseQp ℚ where
  dim := ⟨2, 0, 1, 1, 0⟩
  Hv := fun _ _ => 0
  A := fun _ _ => 0
  Ct := fun _ _ => 0
  gz := fun _ => 0
  b := fun _ => 0
  d := fun _ => 0
  d_mask := fun _ => 1
  m := fun _ => 0
  Z := fun _ => 0
  idxb := fun _ => 0
  idxs_rev := fun _ => -1

/-- default options without the square-root recursion -/
def exCfArg : CondArg := { condArgDefault with square_root_alg := 0 }
def exCfWs : CondWs ℚ := exA1Ws 0

theorem exCf_sq (sq : ℚ → ℚ) : CondSqOk sq exCfArg := fun h => absurd rfl h

theorem exCf_wf : exCfQp.WF := by
  refine ⟨fun k j hk hj => ?_, fun k j hk hj => Or.inl rfl⟩
  show 0 < (if k = 0 then 1 else 0) + 1
  omega

theorem exCf_call : CondCall exCfQp exCfDq exCfArg := by
  refine ⟨exCf_wf, by decide, fun k hk => ⟨?_, fun j hj => ?_⟩, rfl, Or.inl rfl, fun _ _ _ _ _ => rfl⟩
  · show 1 = (if k = 0 then 0 else 1) + (if k = 0 then 1 else 0)
    split <;> rfl
  · have hj : j < 1 := hj
    show 0 < (if k = 0 then 1 else 0) ↔ j < (if k = 0 then 1 else 0)
    have : j = 0 := by omega
    subst this
    exact Iff.rfl

theorem exCf_all : ExpandAll exCfArg := ⟨by decide, by decide, by decide⟩

/-- the condensed problem -/
def exCfD : DenseQp ℚ := condDense (fun x => x) exCfQp exCfDq exCfArg exCfWs

example : exCfD.Hv 0 0 = 2 ∧ exCfD.Hv 1 0 = 0 ∧ exCfD.Hv 1 1 = 1 ∧ exCfD.gz 0 = 1 ∧ exCfD.Ct 0 0 = 1 ∧ exCfD.d 0 = -5 ∧ exCfD.d 1 = -5 ∧ exCfD.d 3 = -5 ∧
    exCfD.d_mask 0 = 1 ∧ exCfD.d_mask 1 = 0 := by decide +kernel

def exCfEnv : DEnv ℚ := { exDIEnv with qp := exCfD }
def exCfIpm : DIpm ℚ := { exDIIpm with core := { exDICore with ne := 0 } }

theorem exCf_run : ((dipmSolve exCfEnv 5 exDISol exCfIpm).map fun o => (o.iter, o.status)) = some (1, .SUCCESS) := by decide +kernel

theorem exCf_mask : Mask01 exCfQp := fun k j _ _ => by
  show (if k = 0 then (1 : ℚ) else 0) = 0 ∨ (if k = 0 then (1 : ℚ) else 0) = 1
  split
  · exact Or.inr rfl
  · exact Or.inl rfl

theorem exCf_solved : ∃ o, DSolved exCfEnv 5 exDISol exCfIpm o ∧ o.iter = 1 := by
  obtain ⟨o, ho, he⟩ := Option.map_eq_some_iff.mp exCf_run
  injection he with h1 h2
  exact ⟨o, ⟨cond_wf (exCf_sq _) exCf_call, fullCond_mask01 (exCf_sq _) exCf_call exCf_mask, rfl, by decide +kernel, rfl, by decide,
    Or.inl ⟨by decide, by decide +kernel, by decide +kernel, by decide +kernel⟩, rfl, by decide +kernel, by decide +kernel, ho, h2⟩, h1⟩

/-- the problem is convex -/
theorem exCf_convex : (view exCfQp).Convex := by
  intro p
  have h : (view exCfQp).quad p = 1 / 2 * (p.u 0 0 * p.u 0 0) + 1 / 2 * (p.x 0 0 * p.x 0 0) + 1 / 2 * (p.x 1 0 * p.x 1 0) := by
    have h0 : (view exCfQp).N = 1 := rfl
    have h1 : (view exCfQp).nu 0 = 1 ∧ (view exCfQp).nx 0 = 1 ∧ (view exCfQp).ns 0 = 0 := ⟨rfl, rfl, rfl⟩
    have h2 : (view exCfQp).nu 1 = 0 ∧ (view exCfQp).nx 1 = 1 ∧ (view exCfQp).ns 1 = 0 := ⟨rfl, rfl, rfl⟩
    have h3 : (view exCfQp).R 0 0 0 = 1 := by decide +kernel
    have h4 : (view exCfQp).Q 1 0 0 = 1 := by decide +kernel
    have h5 : (view exCfQp).Q 0 0 0 = 1 := by decide +kernel
    have h6 : (view exCfQp).S 0 0 0 = 0 := by decide +kernel
    simp only [UserQp.quad, UserQp.stageQuad, h0, sum_range_succ, h1.1, h1.2.1, h1.2.2, h2.1, h2.2.1, h2.2.2, range_zero, sum_empty,
      UserQp.sym, h3, h4, h5, h6, le_refl, if_true]
    ring
  rw [h]
  have := mul_self_nonneg (p.u 0 0)
  have := mul_self_nonneg (p.x 0 0)
  have := mul_self_nonneg (p.x 1 0)
  linarith

/-- the other theorems on the same problem; the dense QP can be condensed into again -/
example (ds : DqSol ℚ) (sol : Sol ℚ) : (view exCfQp).IsOptimal (ptOf exCfDim (condSol (fun x => x) exCfQp exCfDq exCfArg exCfWs ds sol).ux)
    ↔ (dview exCfD).IsOptimal (dptOf exCfDq.dim ds.v) :=
  fullCond_optimal (exCf_sq _) exCf_call exCf_all ds sol

/-- with real square roots and the default options -/
example (ws : CondWs ℝ) (dq : DenseQp ℝ) (hd : dq.dim = condDDim exPcDim.dims) (hr : ∀ j, dq.idxs_rev j = -1) (ds : DqSol ℝ) (sol : Sol ℝ) :
    (view exPcQp).IsOptimal (ptOf exPcDim (condSol Real.sqrt exPcQp dq condArgDefault ws ds sol).ux)
      ↔ (dview (condDense Real.sqrt exPcQp dq condArgDefault ws)).IsOptimal (dptOf dq.dim ds.v) :=
  fullCond_optimal (fun _ => exPc_sqrt) ⟨exPc_wf, hd, exPc_call.split, rfl, Or.inl rfl, fun _ _ _ _ _ => hr _⟩ ⟨by decide, by decide, by decide⟩ ds sol

/-- condense, solve, expand -/
example (sol : Sol ℚ) : ∃ o, dipmSolve exCfEnv 5 exDISol exCfIpm = some o ∧
    let r := condSol (fun x => x) exCfQp exCfDq exCfArg exCfWs (dsolOf o.s.core) sol
    ResWithin exCfDim (resCompute exCfQp r freshRes freshWs) (1 / 10) 0 (1 / 10) (8 + 0) ∧
    (∀ p, (view exCfQp).Feasible p → (view exCfQp).objective (ptOf exCfDim r.ux) - 20 - 1 / 10 * (view exCfQp).absSum p ≤ (view exCfQp).objective p) := by
  obtain ⟨o, h, -⟩ := exCf_solved
  have := condSolve_contract (exCf_sq _) exCf_call exCf_all exCfEnv rfl 5 exDISol exCfIpm o h (by decide +kernel) (by decide +kernel) sol freshRes freshWs (freshWs_ok _)
  exact ⟨o, h.ran, this.1, this.2.2 exCf_convex⟩

end Hpipm
