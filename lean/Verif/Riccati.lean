/-
The backward-forward Riccati recursion as mathematics: what one factorised stage has to satisfy
(`RicStage`), and that the forward pass then solves the KKT conditions of the stage.
-/
import Verif.Chol

namespace Hpipm
open Finset
set_option linter.unusedSectionVars false

section
variable {K : Type*} [Field K] [LinearOrder K]

/-- What the factorisation of a stage provides: `n = nu` eliminated variables, `nx` remaining ones.
`M`, `m`: Hessian (symmetric) and gradient of the stage including the cost to go; `Lam`: factor;
`ell`: eliminated right-hand side; `P`, `p`: cost to go as a function of the remaining variables. -/
structure RicStage (nu nx : ℕ) (M : Mat K) (m : Vec K) (Lam : Mat K) (ell : Vec K) (P : Mat K) (p : Vec K) : Prop where
  fac : ∀ i j, i < nu + nx → j < nu → j ≤ i → ∑ l ∈ range nu, low Lam i l * low Lam j l = M i j
  rhs : ∀ j, j < nu → ∑ l ∈ range nu, low Lam j l * ell l = m j
  schur : ∀ i j, i < nx → j < nx → P i j + ∑ l ∈ range nu, low Lam (nu + i) l * low Lam (nu + j) l = M (nu + i) (nu + j)
  schurv : ∀ i, i < nx → p i + ∑ l ∈ range nu, low Lam (nu + i) l * ell l = m (nu + i)
  piv : ∀ j, j < nu → Lam j j ≠ 0

/-- factorisation of the pure matrix part (no right-hand side) -/
structure RicFac (nu nx : ℕ) (M : Mat K) (Lam : Mat K) (P : Mat K) : Prop where
  fac : ∀ i j, i < nu + nx → j < nu → j ≤ i → ∑ l ∈ range nu, low Lam i l * low Lam j l = M i j
  schur : ∀ i j, i < nx → j < nx → P i j + ∑ l ∈ range nu, low Lam (nu + i) l * low Lam (nu + j) l = M (nu + i) (nu + j)
  piv : ∀ j, j < nu → Lam j j ≠ 0

theorem RicStage.toFac {nu nx : ℕ} {M : Mat K} {m : Vec K} {Lam : Mat K} {ell : Vec K} {P : Mat K} {p : Vec K}
    (h : RicStage nu nx M m Lam ell P p) : RicFac nu nx M Lam P := ⟨h.fac, h.schur, h.piv⟩

/-- the forward step of a stage makes its gradient the gradient of the cost to go -/
theorem ric_forward {nu nx : ℕ} {M : Mat K} {m : Vec K} {Lam : Mat K} {ell : Vec K} {P : Mat K} {p : Vec K}
    (h : RicStage nu nx M m Lam ell P p) (hsym : ∀ i j, i < nu + nx → j < nu + nx → M i j = M j i) (v : Vec K)
    (hv : ∀ j, j < nu → ∑ i ∈ range (nu + nx), low Lam i j * v i = - ell j) :
    (∀ i, i < nu → ∑ j ∈ range (nu + nx), M i j * v j + m i = 0) ∧
    (∀ i, i < nx → ∑ j ∈ range (nu + nx), M (nu + i) j * v j + m (nu + i) =
      ∑ j ∈ range nx, P i j * v (nu + j) + p i) := by
  have hfac : ∀ i j, i < nu + nx → j < nu → ∑ l ∈ range nu, low Lam i l * low Lam j l = M i j := by
    intro i j hi hj
    by_cases hij : j ≤ i
    · exact h.fac i j hi hj hij
    · rw [hsym i j hi (by omega), ← h.fac j i (by omega) (by omega) (by omega)]
      exact sum_congr rfl (fun l _ => mul_comm _ _)
  have hsw : ∀ i, ∑ j ∈ range (nu + nx), (∑ l ∈ range nu, low Lam i l * low Lam j l) * v j =
      - ∑ l ∈ range nu, low Lam i l * ell l := by
    intro i
    have : ∀ j, (∑ l ∈ range nu, low Lam i l * low Lam j l) * v j = ∑ l ∈ range nu, low Lam i l * (low Lam j l * v j) := by
      intro j; rw [sum_mul]; exact sum_congr rfl (fun l _ => by ring)
    rw [sum_congr rfl (fun j _ => this j), sum_comm, ← sum_neg_distrib]
    apply sum_congr rfl
    intro l hl
    rw [← mul_sum, hv l (mem_range.mp hl)]; ring
  refine ⟨fun i hi => ?_, fun i hi => ?_⟩
  · have : ∑ j ∈ range (nu + nx), M i j * v j =
        ∑ j ∈ range (nu + nx), (∑ l ∈ range nu, low Lam i l * low Lam j l) * v j := by
      apply sum_congr rfl
      intro j hj
      have hj := mem_range.mp hj
      congr 1
      rw [hsym i j (by omega) hj, ← hfac j i hj hi]
      exact sum_congr rfl (fun l _ => mul_comm _ _)
    rw [this, hsw, h.rhs i hi]; ring
  · have : ∑ j ∈ range (nu + nx), M (nu + i) j * v j =
        (∑ j ∈ range (nu + nx), (∑ l ∈ range nu, low Lam (nu + i) l * low Lam j l) * v j)
        + ∑ j ∈ range nx, P i j * v (nu + j) := by
      rw [sum_range_add _ nu, sum_range_add (fun j => (∑ l ∈ range nu, low Lam (nu + i) l * low Lam j l) * v j) nu, add_assoc,
        ← sum_add_distrib]
      congr 1
      · apply sum_congr rfl
        intro j hj
        rw [hfac (nu + i) j (by omega) (mem_range.mp hj)]
      · apply sum_congr rfl
        intro j hj
        rw [← h.schur i j hi (mem_range.mp hj)]; ring
    rw [this, hsw, ← h.schurv i hi]; ring

/-- the full factorisation of the first stage -/
theorem ric_first {n : ℕ} {M : Mat K} {m : Vec K} {Lam : Mat K} {ell : Vec K}
    (hfac : ∀ i j, i < n → j < n → j ≤ i → ∑ l ∈ range n, low Lam i l * low Lam j l = M i j)
    (hrhs : ∀ j, j < n → ∑ l ∈ range n, low Lam j l * ell l = m j) (hp : ∀ j, j < n → Lam j j ≠ 0)
    (hsym : ∀ i j, i < n → j < n → M i j = M j i) (v : Vec K)
    (hv : ∀ j, j < n → ∑ i ∈ range n, low Lam i j * v i = - ell j) (i : ℕ) (hi : i < n) :
    ∑ j ∈ range n, M i j * v j + m i = 0 := by
  have h : RicStage n 0 M m Lam ell (fun _ _ => 0) (fun _ => 0) :=
    ⟨fun i j hi hj hij => hfac i j hi hj hij, hrhs, fun i j hi => by omega, fun i hi => by omega, hp⟩
  exact (ric_forward h (fun i j hi hj => hsym i j hi hj) v hv).1 i hi

/-- Square-root form: from a full factorisation the trailing block provides `P` and `p`. -/
theorem ric_sqrt {nu nx : ℕ} {M : Mat K} {m : Vec K} {Lam : Mat K} {ell : Vec K}
    (hfac : ∀ i j, i < nu + nx → j < nu + nx → j ≤ i → ∑ l ∈ range (nu + nx), low Lam i l * low Lam j l = M i j)
    (hrhs : ∀ j, j < nu + nx → ∑ l ∈ range (nu + nx), low Lam j l * ell l = m j)
    (hp : ∀ j, j < nu + nx → Lam j j ≠ 0) (hsym : ∀ i j, i < nu + nx → j < nu + nx → M i j = M j i) :
    RicStage nu nx M m Lam ell
      (fun i j => ∑ l ∈ range nx, low Lam (nu + i) (nu + l) * low Lam (nu + j) (nu + l))
      (fun i => ∑ l ∈ range nx, low Lam (nu + i) (nu + l) * ell (nu + l)) := by
  refine ⟨fun i j hi hj hij => ?_, fun j hj => ?_, fun i j hi hj => ?_, fun i hi => ?_, fun j hj => hp j (by omega)⟩
  · rw [← hfac i j hi (by omega) hij, sum_range_add _ nu]
    rw [sum_eq_zero (s := range nx), add_zero]
    intro l _
    rw [show low Lam j (nu + l) = 0 from if_neg (by omega), mul_zero]
  · rw [← hrhs j (by omega), sum_range_add _ nu]
    rw [sum_eq_zero (s := range nx), add_zero]
    intro l _
    rw [show low Lam j (nu + l) = 0 from if_neg (by omega), zero_mul]
  · have hs : ∑ l ∈ range (nu + nx), low Lam (nu + i) l * low Lam (nu + j) l = M (nu + i) (nu + j) := by
      by_cases hij : j ≤ i
      · exact hfac _ _ (by omega) (by omega) (by omega)
      · rw [hsym _ _ (by omega) (by omega), ← hfac (nu + j) (nu + i) (by omega) (by omega) (by omega)]
        exact sum_congr rfl (fun l _ => mul_comm _ _)
    rw [← hs, sum_range_add _ nu, add_comm]
  · rw [← hrhs (nu + i) (by omega), sum_range_add _ nu, add_comm]

end
end Hpipm
