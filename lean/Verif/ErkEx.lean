/-
Concrete cases for C64 - C66, and the cases where the integrator disagrees with the method of the tableau.
-/
import Verif.ErkMem
import Verif.ErkDer

namespace Hpipm
open Finset
set_option linter.unusedSectionVars false

/-- a workspace with a default tableau; scratch holds arbitrary values -/
def exErk {K : Type} [Field K] (T : Tableau K) (nx nf steps : ℕ) (h : K) (ode vde : ℤ → Vec K → Vec K → ℕ → K) (x : Vec K) : ErkWs K where
  rk := ⟨fun i => T.A (i % T.s) (i / T.s), T.b, T.c, 1, T.s⟩
  h := h
  steps := steps
  ode := ode
  vde := vde
  k := fun _ => 7
  x_for := x
  x_tmp := fun _ => 5
  p := fun _ => 0
  l := fun _ => 0
  nx := nx
  np := 0
  nf := nf
  na := 0
  nf_max := nf
  na_max := 0

/-- `x' = x` from one with one step of length one of the classical method: the Taylor polynomial of `e` -/
example : ∃ w', erkSolve (exErk (K := ℚ) classic4 1 0 1 1 (fun _ x _ => x) (fun _ _ _ _ => 0) (fun _ => 1)) = .ok w' ∧ w'.x_for 0 = 65 / 24 :=
  ⟨_, rfl, by decide +kernel⟩

/-- the hypotheses of `erk_solve_autonomous` and `erk_solve_run` hold in this case -/
example : ∃ w' : ErkWs ℚ, RkRun classic4 1 (fun _ x => x) 1 0 1 (fun _ => 1) w'.x_for ∧ w'.x_for 0 = 65 / 24 := by
  have he : (exErk (K := ℚ) classic4 1 0 1 1 (fun _ x _ => x) (fun _ _ _ _ => 0) (fun _ => 1)).rk.tab.Explicit := by
    intro i j hi hij hj
    have hi : i < 4 := hi
    have hj : j < 4 := hj
    interval_cases i <;> interval_cases j <;> first | omega | decide +kernel
  obtain ⟨w', h1, h2⟩ := erk_solve_autonomous (exErk (K := ℚ) classic4 1 0 1 1 (fun _ x _ => x) (fun _ _ _ _ => 0) (fun _ => 1)) rfl rfl
    (fun x _ => x) (fun _ _ _ => rfl) (fun x y p h => h) he
  obtain rfl := (Out.ok.inj h1).symm
  refine ⟨_, ?_, (by decide +kernel : (erkSeq (exErk (K := ℚ) classic4 1 0 1 1 (fun _ x _ => x) (fun _ _ _ _ => 0) (fun _ => 1)) 1).1.x_for 0 = 65 / 24)⟩
  obtain ⟨y, y0, y1, y2⟩ := h2
  refine ⟨y, y0, y1, fun j hj => ?_⟩
  have hsame : Tableau.Same (exErk (K := ℚ) classic4 1 0 1 1 (fun _ x _ => x) (fun _ _ _ _ => 0) (fun _ => 1)).rk.tab classic4 := by
    refine ⟨rfl, fun i j hi hj => ?_, fun i hi => ⟨rfl, rfl⟩⟩
    have hi : i < 4 := hi
    have hj : j < 4 := hj
    interval_cases i <;> interval_cases j <;> decide +kernel
  exact (rkStep_same _ _ hsame _ _ _ _ _ _).mp (y2 j hj)

/-- the workspace of the next theorem: `x' = t`, two steps of length one half of the midpoint method -/
def exErkTime : ErkWs ℚ := exErk midpoint 1 0 2 (1 / 2) (fun t _ _ _ => (t : ℚ)) (fun _ _ _ _ => 0) (fun _ => 0)

/-- finding 39: the callbacks receive the time as an `int`.  For `x' = t` on `[0, 1]` the midpoint method returns one half (the exact
solution), the integrator returns zero: it is not a run of the method for the user's right-hand side. -/
theorem erk_time_truncated : ∃ w', erkSolve exErkTime = .ok w' ∧ w'.x_for 0 = 0 ∧
    ¬ RkRun midpoint 1 (fun t _ _ => t) (1 / 2 : ℚ) 0 2 (fun _ => 0) w'.x_for := by
  have hv : (erkSeq exErkTime 2).1.x_for 0 = 0 := by decide +kernel
  refine ⟨(erkSeq exErkTime 2).1, rfl, hv, ?_⟩
  rintro ⟨y, y0, y1, y2⟩
  have step : ∀ j, j < 2 → y (j + 1) 0 = y j 0 + 1 / 2 * ((j : ℚ) * (1 / 2) + 1 / 4) := by
    intro j hj
    obtain ⟨k, k1, k2⟩ := y2 j hj
    rw [k2 0 (by decide)]
    have : ∑ i ∈ range (midpoint : Tableau ℚ).s, (midpoint : Tableau ℚ).b i * k i 0 = k 1 0 := by simp [midpoint, sum_range_succ]
    rw [this, k1 1 (by decide) 0 (by decide)]
    simp [midpoint]
    ring
  have h1 := step 0 (by decide)
  have h2 := step 1 (by decide)
  rw [h1, y0 0 (by decide)] at h2
  have h3 := y1 0 (by decide)
  rw [hv, h2] at h3
  norm_num at h3

/-- finding 40: with the implicit Euler method (one stage, `A = 1`) for `x' = x` with `h = 1/2` the integrator performs a step of the explicit
Euler method instead -/
theorem erk_implicit_ignored :
    ∃ w', erkSolve (exErk (K := ℚ) ⟨1, fun _ _ => 1, fun _ => 1, fun _ => 1⟩ 1 0 1 (1 / 2) (fun _ x _ => x) (fun _ _ _ _ => 0) (fun _ => 1)) = .ok w' ∧
      w'.x_for 0 = 3 / 2 ∧ ¬ RkRun ⟨1, fun _ _ => 1, fun _ => 1, fun _ => 1⟩ 1 (fun _ x => x) (1 / 2 : ℚ) 0 1 (fun _ => 1) w'.x_for := by
  have hv : (erkSeq (exErk (K := ℚ) ⟨1, fun _ _ => 1, fun _ => 1, fun _ => 1⟩ 1 0 1 (1 / 2) (fun _ x _ => x) (fun _ _ _ _ => 0) (fun _ => 1)) 1).1.x_for 0 = 3 / 2 := by
    decide +kernel
  refine ⟨_, rfl, hv, ?_⟩
  rintro ⟨y, y0, y1, y2⟩
  obtain ⟨k, k1, k2⟩ := y2 0 (by decide)
  have a := k1 0 (by decide) 0 (by decide)
  have b := k2 0 (by decide)
  have c := y1 0 (by decide)
  have e0 := y0 0 (by decide)
  have hv' := hv
  simp at a b
  have c' : y 1 0 = 3 / 2 := c.trans hv
  rw [e0] at a b
  rw [c'] at b
  linarith

/-- a nonlinear system for the sensitivities: `x' = x²` with the derivative with respect to the initial state -/
def exVde (_ : ℤ) (X _ : Vec ℝ) (i : ℕ) : ℝ := if i = 0 then X 0 ^ 2 else 2 * X 0 * X 1

/-- the hypotheses of `erk_sensitivities` hold for it: two steps of the midpoint method -/
example : ∃ (w' : ErkWs ℝ) (z : ℝ → Vec ℝ), HasDerivAt (fun θ => z θ 0) (w'.x_for 1) 3 ∧
    ∀ θ, RkRun (exErk (K := ℝ) midpoint 1 1 2 (1 / 2) (fun _ _ _ _ => 0) exVde (fun i => if i = 0 then 3 else 1)).rk.tab 1 (fun _ x i => x i ^ 2) (1 / 2) 0 2
      (fun _ => θ) (z θ) := by
  set w := exErk (K := ℝ) midpoint 1 1 2 (1 / 2) (fun _ _ _ _ => 0) exVde (fun i => if i = 0 then 3 else 1) with hw
  have he : w.rk.tab.Explicit := by
    intro i j hi hij hj
    have hi : i < 2 := hi
    have hj : j < 2 := hj
    interval_cases i <;> interval_cases j <;> first | omega | simp [hw, exErk, RkData.tab, midpoint]
  have hv : VdeFor 1 0 3 (fun _ _ x i => x i ^ 2) (fun t x => exVde t x w.p) := by
    refine ⟨fun t X i hi => ?_, fun t X x h1 h2 i hi => ?_, fun θ t x y h i hi => by show x i ^ 2 = y i ^ 2; rw [h i hi]⟩
    · obtain rfl : i = 0 := by omega
      simp [exVde]
    · obtain rfl : i = 0 := by omega
      have := (h2 0 (by decide)).fun_pow 2
      simp only [exVde]
      rw [h1 0 (by decide)] at this
      simpa using this
  have hz : ∀ θ : ℝ, ∃ z : Vec ℝ, RkRun w.rk.tab 1 (fun _ x i => x i ^ 2) (1 / 2) 0 2 (fun _ => θ) z := by
    intro θ
    obtain ⟨w', -, h⟩ := erk_solve_autonomous { w with
      nf := 0
      ode := fun _ x _ i => x i ^ 2
      x_for := fun _ => θ } rfl rfl (fun x _ i => x i ^ 2) (fun _ _ _ => rfl) (fun x y p h i hi => by show x i ^ 2 = y i ^ 2; rw [h i hi]) he
    exact ⟨_, h⟩
  choose z hz using hz
  have hl : w.LocalRhs := by
    intro t x y h i hi
    have : w.rhs = fun t x => exVde (cTrunc t) x w.p := by
      funext t x
      exact if_pos (by decide)
    rw [this]
    have h0 := h 0 (by show 0 < 2; decide)
    have h1 := h 1 (by show 1 < 2; decide)
    simp only [exVde, h0, h1]
  obtain ⟨w', -, h⟩ := erk_sensitivities w rfl he hl 0 (by decide) 3 (fun _ _ x i => x i ^ 2) hv (fun θ _ => θ)
    (fun i hi => by obtain rfl : i = 0 := by have : i < 1 := hi; omega
                    simp [hw, exErk])
    (fun i hi => by obtain rfl : i = 0 := by have : i < 1 := hi; omega
                    simpa [hw, exErk] using hasDerivAt_id' (3 : ℝ))
    z hz
  exact ⟨w', z, (h 0 (by decide)).2, hz⟩

/-- the workspace of the setters: two states, one parameter, room for two sensitivities -/
example : ∃ w', erkSetAll 2 0 (fun i => (i : ℚ) + 1) (fun i => 10 + (i : ℚ)) (fun _ => 0) (fun _ => 9) (fun _ x _ => x) (fun _ x _ => x)
    (exErk (K := ℚ) classic4 2 2 3 1 (fun _ _ _ _ => 0) (fun _ _ _ _ => 0) (fun _ => 0)) = .ok w' ∧ erkGetX w' (fun _ => 0) 1 = 2 ∧
    erkGetFs w' (fun _ => 0) 3 = 13 ∧ erkGetFs w' (fun _ => 0) 4 = 0 := by
  obtain ⟨w', h, hl⟩ := (erk_set_all 2 0 (fun i => (i : ℚ) + 1) (fun i => 10 + (i : ℚ)) (fun _ => 0) (fun _ => 9) (fun _ x _ => x) (fun _ x _ => x)
    (exErk (K := ℚ) classic4 2 2 3 1 (fun _ _ _ _ => 0) (fun _ _ _ _ => 0) (fun _ => 0))).2 ⟨by decide, by decide⟩
  exact ⟨w', h, by rw [hl.getX]; decide +kernel, by rw [hl.getFs]; decide +kernel, by rw [hl.getFs]; decide +kernel⟩

/-- the memory of a workspace with four stages, three steps, two states, one parameter, two sensitivities and one adjoint -/
example : erkPieces 0 (erkSizes 4 3 2 1 2 1) = [(0, 1), (1, 6), (7, 24), (31, 6), (37, 26), (63, 8), (71, 4), (75, 8)] ∧ erkMemsize 4 3 2 1 2 1 = 83 := by
  decide

/-- the case of `erk_l_overrun`: one state, one parameter, one sensitivity, one adjoint -/
example : ∃ bs w' i, erkSetAll 1 1 (fun _ => 0) (fun _ => 0) bs (fun _ => 0) (fun _ x _ => x) (fun _ x _ => x)
    { exErk (K := ℚ) classic4 1 1 3 1 (fun _ _ _ _ => 0) (fun _ _ _ _ => 0) (fun _ => 0) with
      np := 1
      na_max := 1 } = .ok w' ∧ 1 * (3 + 1) ≤ i ∧ w'.l i ≠ 0 :=
  erk_l_overrun 1 1 (fun _ => 0) (fun _ => 0) (fun _ => 0) (fun _ x _ => x) (fun _ x _ => x)
    { exErk (K := ℚ) classic4 1 1 3 1 (fun _ _ _ _ => 0) (fun _ _ _ _ => 0) (fun _ => 0) with
      np := 1
      na_max := 1 } (by decide) (by decide) (by decide) (by decide) (by decide)

end Hpipm
