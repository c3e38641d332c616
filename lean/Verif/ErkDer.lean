/-
C65: the forward sensitivities returned by the integrator are the derivatives of the numerical solution.
-/
import Verif.ErkProps
import Mathlib.Analysis.Calculus.Deriv.Add
import Mathlib.Analysis.Calculus.Deriv.Mul
import Mathlib.Analysis.Calculus.Deriv.Pow
import Mathlib.Data.Real.Archimedean

namespace Hpipm
open Finset
set_option linter.unusedSectionVars false

/-- contract between a family `f θ` of right-hand sides in `nx` unknowns and column `c` of a forward variational equation `v` at `θ₀`:
the first `nx` entries are the right-hand side at `θ₀`, and column `c` is the derivative of the right-hand side along every curve of states
that passes through the given state with the given column as velocity -/
structure VdeFor (nx c : ℕ) (θ₀ : ℝ) (f : ℝ → ℤ → (ℕ → ℝ) → ℕ → ℝ) (v : ℤ → (ℕ → ℝ) → ℕ → ℝ) : Prop where
  base : ∀ t X i, i < nx → v t X i = f θ₀ t X i
  col : ∀ t X (x : ℝ → ℕ → ℝ), (∀ i, i < nx → x θ₀ i = X i) → (∀ i, i < nx → HasDerivAt (fun θ => x θ i) (X (nx * (1 + c) + i)) θ₀) →
    ∀ i, i < nx → HasDerivAt (fun θ => f θ t (x θ) i) (v t X (nx * (1 + c) + i)) θ₀
  reads : ∀ θ t x y, (∀ i, i < nx → x i = y i) → ∀ i, i < nx → f θ t x i = f θ t y i

/-- stage derivatives of the extended system -/
theorem rkK_deriv (nx c : ℕ) (θ₀ : ℝ) (f : ℝ → ℤ → Vec ℝ → Vec ℝ) (v : ℤ → Vec ℝ → Vec ℝ) (hv : VdeFor nx c θ₀ f v) (τ : ℕ → ℤ)
    (a : ℕ → ℕ → ℝ) (X : Vec ℝ) (x : ℝ → Vec ℝ) (hx : ∀ i, i < nx → x θ₀ i = X i)
    (hd : ∀ i, i < nx → HasDerivAt (fun θ => x θ i) (X (nx * (1 + c) + i)) θ₀) (s : ℕ) :
    ∀ i, i < nx → rkK (fun s => f θ₀ (τ s)) a (x θ₀) s i = rkK (fun s => v (τ s)) a X s i ∧
      HasDerivAt (fun θ => rkK (fun s => f θ (τ s)) a (x θ) s i) (rkK (fun s => v (τ s)) a X s (nx * (1 + c) + i)) θ₀ := by
  induction s using Nat.strong_induction_on with
  | _ s ih =>
    intro i hi
    constructor
    · rw [rkK_eq, rkK_eq, hv.base _ _ i hi]
      refine hv.reads θ₀ _ _ _ (fun j hj => ?_) i hi
      rw [hx j hj]
      congr 1
      exact sum_congr rfl (fun l hl => by rw [(ih l (mem_range.mp hl) j hj).1])
    · have h := hv.col (τ s) (fun j => X j + ∑ l ∈ range s, a s l * rkK (fun s => v (τ s)) a X l j)
        (fun θ j => x θ j + ∑ l ∈ range s, a s l * rkK (fun s => f θ (τ s)) a (x θ) l j)
        (fun j hj => by
          rw [hx j hj]
          congr 1
          exact sum_congr rfl (fun l hl => by rw [(ih l (mem_range.mp hl) j hj).1]))
        (fun j hj => by
          refine HasDerivAt.fun_add (hd j hj) ?_
          refine HasDerivAt.fun_sum (fun l hl => ?_)
          exact ((ih l (mem_range.mp hl) j hj).2).const_mul (a s l))
        i hi
      rw [rkK_eq]
      have e : (fun θ => rkK (fun s => f θ (τ s)) a (x θ) s i) = fun θ => f θ (τ s) (fun j => x θ j + ∑ l ∈ range s, a s l * rkK (fun s => f θ (τ s)) a (x θ) l j) i := by
        funext θ
        rw [rkK_eq]
      rw [e]
      exact h

/-- **C65.**  Let `f θ` be a family of right-hand sides and let column `c` of the forward variational equation the user supplied belong to
it.  If the sensitivities loaded are the derivatives of the initial state with respect to `θ`, then the sensitivities after the run are the
derivatives of the state after `steps` steps of the Runge-Kutta method with respect to `θ`, and the state itself is that of the method. -/
theorem erk_sensitivities (w : ErkWs ℝ) (hna : w.na = 0) (he : w.rk.tab.Explicit) (hl : w.LocalRhs) (c : ℕ) (hc : c < w.nf) (θ₀ : ℝ)
    (f : ℝ → ℤ → Vec ℝ → Vec ℝ) (hv : VdeFor w.nx c θ₀ f (fun t x => w.vde t x w.p)) (x₀ : ℝ → Vec ℝ)
    (hx : ∀ i, i < w.nx → x₀ θ₀ i = w.x_for i)
    (hd : ∀ i, i < w.nx → HasDerivAt (fun θ => x₀ θ i) (w.x_for (w.nx * (1 + c) + i)) θ₀)
    (z : ℝ → Vec ℝ) (hz : ∀ θ, RkRun w.rk.tab w.nx (fun t x => f θ (cTrunc t) x) w.h 0 w.steps (x₀ θ) (z θ)) :
    ∃ w', erkSolve w = .ok w' ∧ ∀ i, i < w.nx → w'.x_for i = z θ₀ i ∧
      HasDerivAt (fun θ => z θ i) (w'.x_for (w.nx * (1 + c) + i)) θ₀ := by
  have hsz : ∀ i, i < w.nx → w.nx * (1 + c) + i < w.nX := by
    intro i hi
    unfold ErkWs.nX
    have : w.nx * (1 + (c + 1)) ≤ w.nx * (1 + w.nf) := Nat.mul_le_mul_left _ (by omega)
    have h2 : w.nx * (1 + (c + 1)) = w.nx * (1 + c) + w.nx := by ring
    omega
  have hsz0 : ∀ i, i < w.nx → i < w.nX := fun i hi => by have := hsz i hi; have := Nat.zero_le (w.nx * (1 + c)); omega
  -- the integrator applied to a member of the family
  let u : ℝ → ErkWs ℝ := fun θ => { w with
    nf := 0
    ode := fun t x _ => f θ t x
    x_for := x₀ θ }
  have hu : ∀ θ, (u θ).nX = w.nx := fun θ => by show w.nx * (1 + 0) = w.nx; ring
  have hur : ∀ θ, (u θ).rhs = fun t x => f θ (cTrunc t) x := fun θ => by
    funext t x
    unfold ErkWs.rhs
    exact if_neg (by show ¬ 0 > 0; omega)
  have hul : ∀ θ, (u θ).LocalRhs := fun θ t x y hxy i hi => by
    rw [hu θ] at hxy hi
    rw [hur θ]
    exact hv.reads θ _ x y hxy i hi
  have hwr : w.rhs = fun t x => w.vde (cTrunc t) x w.p := by
    funext t x
    unfold ErkWs.rhs
    exact if_pos (by omega)
  have key : ∀ j, ∀ i, i < w.nx → (erkSeq w j).1.x_for i = (erkSeq (u θ₀) j).1.x_for i ∧
      HasDerivAt (fun θ => (erkSeq (u θ) j).1.x_for i) ((erkSeq w j).1.x_for (w.nx * (1 + c) + i)) θ₀ := by
    intro j
    induction j with
    | zero => exact fun i hi => ⟨(hx i hi).symm, hd i hi⟩
    | succ j ih =>
      intro i hi
      obtain ⟨k1, k2, k3⟩ := erkSeq_keep w hl j
      have e : (erkSeq w (j + 1)).1 = erkStep (erkSeq w j).2 (erkSeq w j).1 := rfl
      have eu : ∀ θ, (erkSeq (u θ) (j + 1)).1 = erkStep (erkSeq (u θ) j).2 (erkSeq (u θ) j).1 := fun θ => rfl
      -- value of a step of the extended system
      have hstep : ∀ a, a < w.nX → (erkSeq w (j + 1)).1.x_for a =
          rkNext (fun s => (fun t x => w.vde t x w.p) (cTrunc ((j : ℝ) * w.h + w.h * w.rk.C s))) w.a (fun s => w.h * w.rk.B s) w.rk.ns (erkSeq w j).1.x_for a := by
        intro a ha
        rw [e, (erkStep_val _ _ k3).2.1 a (by rw [k1.nX]; exact ha)]
        have hF : (erkSeq w j).1.F (erkSeq w j).2 = fun s => (fun t x => w.vde t x w.p) (cTrunc ((j : ℝ) * w.h + w.h * w.rk.C s)) := by
          funext s x
          unfold ErkWs.F
          rw [k1.rhs, hwr, k1.h, k1.rk, k2]
        have ha : (erkSeq w j).1.a = w.a := by
          funext s l
          unfold ErkWs.a
          rw [k1.h, k1.rk]
        rw [hF, ha, k1.h, k1.rk]
      have hustep : ∀ θ a, a < w.nx → (erkSeq (u θ) (j + 1)).1.x_for a =
          rkNext (fun s => f θ (cTrunc ((j : ℝ) * w.h + w.h * w.rk.C s))) w.a (fun s => w.h * w.rk.B s) w.rk.ns (erkSeq (u θ) j).1.x_for a := by
        intro θ a ha
        obtain ⟨q1, q2, q3⟩ := erkSeq_keep (u θ) (hul θ) j
        rw [eu θ, (erkStep_val _ _ q3).2.1 a (by rw [q1.nX, hu θ]; exact ha)]
        have hF : (erkSeq (u θ) j).1.F (erkSeq (u θ) j).2 = fun s => f θ (cTrunc ((j : ℝ) * w.h + w.h * w.rk.C s)) := by
          funext s x
          unfold ErkWs.F
          rw [q1.rhs, hur, q1.h, q1.rk, q2]
        have ha : (erkSeq (u θ) j).1.a = w.a := by
          funext s l
          unfold ErkWs.a
          rw [q1.h, q1.rk]
        rw [hF, ha, q1.h, q1.rk]
      have hk := rkK_deriv w.nx c θ₀ f (fun t x => w.vde t x w.p) hv (fun s => cTrunc ((j : ℝ) * w.h + w.h * w.rk.C s)) w.a
        (erkSeq w j).1.x_for (fun θ => (erkSeq (u θ) j).1.x_for) (fun i hi => ((ih i hi).1).symm) (fun i hi => (ih i hi).2)
      constructor
      · rw [hstep i (hsz0 i hi), hustep θ₀ i hi, rkNext, rkNext, (ih i hi).1]
        congr 1
        exact sum_congr rfl (fun s _ => by rw [(hk s i hi).1])
      · rw [hstep _ (hsz i hi), rkNext]
        have e2 : (fun θ => (erkSeq (u θ) (j + 1)).1.x_for i) = fun θ =>
            rkNext (fun s => f θ (cTrunc ((j : ℝ) * w.h + w.h * w.rk.C s))) w.a (fun s => w.h * w.rk.B s) w.rk.ns (erkSeq (u θ) j).1.x_for i := by
          funext θ
          exact hustep θ i hi
        rw [e2]
        unfold rkNext
        refine HasDerivAt.fun_add (ih i hi).2 (HasDerivAt.fun_sum (fun s _ => ?_))
        exact ((hk s i hi).2).const_mul _
  have hval : ∀ θ i, i < w.nx → (erkSeq (u θ) w.steps).1.x_for i = z θ i := by
    intro θ i hi
    obtain ⟨w', r1, -, r3⟩ := erk_solve_run (u θ) hna (hul θ) he
    rw [hu θ, hur θ] at r3
    have r1' : w' = (erkSeq (u θ) w.steps).1 := by
      unfold erkSolve at r1
      rw [if_neg (by show ¬ w.na > 0; omega)] at r1
      exact (Out.ok.inj r1).symm
    rw [← r1']
    refine rkRun_unique w.rk.tab he w.nx _ ?_ w.h 0 w.steps (x₀ θ) _ _ r3 (hz θ) i hi
    exact fun t x y hxy i hi => hv.reads θ _ x y hxy i hi
  refine ⟨(erkSeq w w.steps).1, ?_, fun i hi => ⟨?_, ?_⟩⟩
  · unfold erkSolve
    rw [if_neg (by omega)]
    rfl
  · rw [(key w.steps i hi).1, hval θ₀ i hi]
  · have e : (fun θ => z θ i) = fun θ => (erkSeq (u θ) w.steps).1.x_for i := by
      funext θ
      exact (hval θ i hi).symm
    rw [e]
    exact (key w.steps i hi).2

end Hpipm
