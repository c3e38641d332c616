/-
The Riccati recursion as dynamic programming: for every trajectory the cost from a stage on is the quadratic function
`1/2 x'Px + p'x + c` of the state plus half the squared norm of the scaled deviations from the feedback law.
-/
import Verif.KktPd

namespace Hpipm
open Finset
set_option linter.unusedSectionVars false

section
variable {K : Type*} [Field K] [LinearOrder K] [IsStrictOrderedRing K]

/-- linear form -/
def lform (n : ℕ) (g v : Vec K) : K := ∑ i ∈ range n, g i * v i

theorem qform_apply (n : ℕ) (M : Mat K) (v : Vec K) : qform n M v = ∑ i ∈ range n, v i * ∑ j ∈ range n, M i j * v j := by
  unfold qform
  refine sum_congr rfl (fun i _ => ?_)
  rw [mul_sum]
  exact sum_congr rfl (fun j _ => by ring)

/-- completing the square in a factorised stage -/
theorem stage_square {nu nx : ℕ} {M : Mat K} {m : Vec K} {Lam : Mat K} {ell : Vec K} {P : Mat K} {p : Vec K}
    (h : RicStage nu nx M m Lam ell P p) (hsym : ∀ i j, i < nu + nx → j < nu + nx → M i j = M j i) (v : Vec K) :
    qform (nu + nx) M v + 2 * lform (nu + nx) m v =
      qform nx P (fun a => v (nu + a)) + 2 * lform nx p (fun a => v (nu + a)) - ∑ l ∈ range nu, ell l * ell l
      + ∑ l ∈ range nu, (∑ i ∈ range (nu + nx), low Lam i l * v i + ell l) * (∑ i ∈ range (nu + nx), low Lam i l * v i + ell l) := by
  have hfac : ∀ i j, i < nu + nx → j < nu → ∑ l ∈ range nu, low Lam i l * low Lam j l = M i j := by
    intro i j hi hj
    by_cases hij : j ≤ i
    · exact h.fac i j hi hj hij
    · rw [hsym i j hi (by omega), ← h.fac j i (by omega) (by omega) (by omega)]
      exact sum_congr rfl (fun l _ => mul_comm _ _)
  -- `M = Lam Lam' + [0 0; 0 P]`
  have hM : ∀ i j, i < nu + nx → j < nu + nx → M i j = ∑ l ∈ range nu, low Lam i l * low Lam j l +
      (if nu ≤ i ∧ nu ≤ j then P (i - nu) (j - nu) else 0) := by
    intro i j hi hj
    by_cases hj' : j < nu
    · rw [hfac i j hi hj', if_neg (by omega), add_zero]
    · by_cases hi' : i < nu
      · rw [hsym i j hi hj, ← hfac j i hj hi', if_neg (by omega), add_zero]
        exact sum_congr rfl (fun l _ => mul_comm _ _)
      · obtain ⟨a, rfl⟩ := Nat.exists_eq_add_of_le (Nat.le_of_not_lt hi')
        obtain ⟨c, rfl⟩ := Nat.exists_eq_add_of_le (Nat.le_of_not_lt hj')
        rw [if_pos (by omega), Nat.add_sub_cancel_left, Nat.add_sub_cancel_left, ← h.schur a c (by omega) (by omega)]
        ring
  have hm : ∀ i, i < nu + nx → m i = ∑ l ∈ range nu, low Lam i l * ell l + (if nu ≤ i then p (i - nu) else 0) := by
    intro i hi
    by_cases hi' : i < nu
    · rw [if_neg (by omega), add_zero, h.rhs i hi']
    · obtain ⟨a, rfl⟩ := Nat.exists_eq_add_of_le (Nat.le_of_not_lt hi')
      rw [if_pos (by omega), Nat.add_sub_cancel_left, ← h.schurv a (by omega)]
      ring
  rw [qform_split (nu + nx) nu M (low Lam) (fun i j => if nu ≤ i ∧ nu ≤ j then P (i - nu) (j - nu) else 0) v hM]
  have e1 : qform (nu + nx) (fun i j => if nu ≤ i ∧ nu ≤ j then P (i - nu) (j - nu) else 0) v =
      qform nx P (fun a => v (nu + a)) := by
    unfold qform
    rw [sum_range_add _ nu, sum_eq_zero (s := range nu), zero_add]
    · refine sum_congr rfl (fun a _ => ?_)
      rw [sum_range_add _ nu, sum_eq_zero (s := range nu), zero_add]
      · refine sum_congr rfl (fun c _ => ?_)
        beta_reduce
        rw [if_pos (by omega), Nat.add_sub_cancel_left, Nat.add_sub_cancel_left]
      · intro j hj
        beta_reduce
        rw [if_neg (by have := mem_range.mp hj; omega)]; ring
    · intro i hi
      refine sum_eq_zero (fun j _ => ?_)
      beta_reduce
      rw [if_neg (by have := mem_range.mp hi; omega)]; ring
  have e2 : lform (nu + nx) m v = ∑ l ∈ range nu, ell l * (∑ i ∈ range (nu + nx), low Lam i l * v i) +
      lform nx p (fun a => v (nu + a)) := by
    have : lform (nu + nx) m v = ∑ i ∈ range (nu + nx), (∑ l ∈ range nu, ell l * (low Lam i l * v i)) +
        ∑ i ∈ range (nu + nx), (if nu ≤ i then p (i - nu) else 0) * v i := by
      unfold lform
      rw [← sum_add_distrib]
      refine sum_congr rfl (fun i hi => ?_)
      rw [hm i (mem_range.mp hi), add_mul, sum_mul]
      congr 1
      exact sum_congr rfl (fun l _ => by ring)
    rw [this, sum_comm]
    congr 1
    · exact sum_congr rfl (fun l _ => by rw [mul_sum])
    · unfold lform
      rw [sum_range_add _ nu, sum_eq_zero (s := range nu), zero_add]
      · refine sum_congr rfl (fun a _ => ?_)
        rw [if_pos (by omega), Nat.add_sub_cancel_left]
      · intro i hi
        rw [if_neg (by have := mem_range.mp hi; omega), zero_mul]
  have e3 : ∑ l ∈ range nu, (∑ i ∈ range (nu + nx), low Lam i l * v i + ell l) * (∑ i ∈ range (nu + nx), low Lam i l * v i + ell l) =
      ∑ l ∈ range nu, (∑ i ∈ range (nu + nx), low Lam i l * v i) * (∑ i ∈ range (nu + nx), low Lam i l * v i)
      + 2 * ∑ l ∈ range nu, ell l * (∑ i ∈ range (nu + nx), low Lam i l * v i) + ∑ l ∈ range nu, ell l * ell l := by
    rw [mul_sum, ← sum_add_distrib, ← sum_add_distrib]
    exact sum_congr rfl (fun l _ => by ring)
  rw [e1, e2, e3]
  ring

/-- a stage cost plus the cost to go at the successor state is a quadratic function with the Hessian and gradient of the
recursion -/
theorem ric_value (n1 n : ℕ) (H BA P : Mat K) (g b p v x1 : Vec K) (hP : ∀ i j, i < n1 → j < n1 → P i j = P j i)
    (hx : ∀ c, c < n1 → x1 c = ∑ j ∈ range n, BA j c * v j + b c) :
    qform n H v + 2 * lform n g v + (qform n1 P x1 + 2 * lform n1 p x1) =
      qform n (ricM n1 H BA P) v + 2 * lform n (ricm n1 g BA P b p) v + (qform n1 P b + 2 * lform n1 p b) := by
  have adj : ∀ w : Vec K, ∑ i ∈ range n, v i * ∑ a ∈ range n1, BA i a * w a = ∑ a ∈ range n1, (x1 a - b a) * w a := by
    intro w
    simp only [mul_sum]
    rw [sum_comm]
    refine sum_congr rfl (fun a ha => ?_)
    rw [hx a (mem_range.mp ha), add_sub_cancel_right, sum_mul]
    exact sum_congr rfl (fun i _ => by ring)
  have e1 : qform n (ricM n1 H BA P) v + lform n (ricm n1 g BA P b p) v = qform n H v + lform n g v +
      ∑ a ∈ range n1, (x1 a - b a) * (∑ c ∈ range n1, P a c * x1 c + p a) := by
    rw [← adj, qform_apply, qform_apply, lform, lform, ← sum_add_distrib, ← sum_add_distrib, ← sum_add_distrib]
    refine sum_congr rfl (fun i _ => ?_)
    have := ricMm_apply n1 n H BA P g b p v x1 hx i
    linear_combination v i * this
  have e2 : lform n (ricm n1 g BA P b p) v = lform n g v +
      ∑ a ∈ range n1, (x1 a - b a) * (∑ c ∈ range n1, P a c * b c + p a) := by
    rw [← adj, lform, lform, ← sum_add_distrib]
    refine sum_congr rfl (fun i _ => ?_)
    simp only [ricm]
    ring
  have hs : ∑ a ∈ range n1, b a * ∑ c ∈ range n1, P a c * x1 c = ∑ a ∈ range n1, x1 a * ∑ c ∈ range n1, P a c * b c := by
    simp only [mul_sum]
    rw [sum_comm]
    refine sum_congr rfl (fun a ha => sum_congr rfl (fun c hc => ?_))
    rw [hP c a (mem_range.mp hc) (mem_range.mp ha)]; ring
  have e3 : ∑ a ∈ range n1, (x1 a - b a) * (∑ c ∈ range n1, P a c * x1 c + p a) = qform n1 P x1
      - ∑ a ∈ range n1, b a * ∑ c ∈ range n1, P a c * x1 c + lform n1 p x1 - lform n1 p b := by
    rw [qform_apply, lform, lform, ← sum_sub_distrib, ← sum_add_distrib, ← sum_sub_distrib]
    exact sum_congr rfl (fun a _ => by ring)
  have e4 : ∑ a ∈ range n1, (x1 a - b a) * (∑ c ∈ range n1, P a c * b c + p a) =
      ∑ a ∈ range n1, x1 a * ∑ c ∈ range n1, P a c * b c - qform n1 P b + lform n1 p x1 - lform n1 p b := by
    rw [qform_apply, lform, lform, ← sum_sub_distrib, ← sum_add_distrib, ← sum_sub_distrib]
    exact sum_congr rfl (fun a _ => by ring)
  rw [e3] at e1
  rw [e4] at e2
  linear_combination - e1 - e2 + hs

namespace RicData
variable {R : RicData K}

/-- cost to go Hessian at every stage, the first included -/
def Pv (R : RicData K) (k : ℕ) : Mat K := if k = 0 then sqP (R.nu 0) (R.nx 0) (R.Lam 0) else R.P k
/-- cost to go gradient at every stage, the first included -/
def pv (R : RicData K) (p ell : ℕ → Vec K) (k : ℕ) : Vec K :=
  if k = 0 then fun i => ∑ l ∈ range (R.nx 0), low (R.Lam 0) (R.nu 0 + i) (R.nu 0 + l) * ell 0 (R.nu 0 + l) else p k

/-- every stage is factorised with the inputs eliminated -/
theorem Fac.stage (h : R.Fac) {p ell : ℕ → Vec K} (hr : R.Rhs p ell) (k : ℕ) (hk : k ≤ R.N) :
    RicStage (R.nu k) (R.nx k) (R.M k) (R.m p k) (R.Lam k) (ell k) (R.Pv k) (R.pv p ell k) := by
  have hS : RicStage (R.ne k) (R.nr k) (R.M k) (R.m p k) (R.Lam k) (ell k) (R.P k) (p k) :=
    ⟨(h.fac k hk).fac, fun j hj => hr.rhs k j hk hj, (h.fac k hk).schur, fun i hi => hr.schurv k i hk hi, (h.fac k hk).piv⟩
  by_cases hk0 : k = 0
  · subst hk0
    have hne : R.ne 0 = R.nu 0 + R.nx 0 := if_pos rfl
    have hnr : R.nr 0 = 0 := if_pos rfl
    rw [hne, hnr] at hS
    have := ric_sqrt (nu := R.nu 0) (nx := R.nx 0) (M := R.M 0) (m := R.m p 0) (Lam := R.Lam 0) (ell := ell 0)
      (fun i j hi hj hij => hS.fac i j hi hj hij) (fun j hj => hS.rhs j hj) (fun j hj => hS.piv j hj)
      (fun i j hi hj => h.sym 0 i j hk hi hj)
    simp only [Pv, pv, if_true]
    exact this
  · have hne : R.ne k = R.nu k := if_neg hk0
    have hnr : R.nr k = R.nx k := if_neg hk0
    rw [hne, hnr] at hS
    simpa only [Pv, pv, if_neg hk0] using hS

theorem Fac.P_sym (h : R.Fac) (k : ℕ) (hk0 : k ≠ 0) (hk : k ≤ R.N) (i j : ℕ) (hi : i < R.nx k) (hj : j < R.nx k) :
    R.P k i j = R.P k j i := by
  have hf := h.fac k hk
  have hne : R.ne k = R.nu k := if_neg hk0
  have hnr : R.nr k = R.nx k := if_neg hk0
  rw [hne, hnr] at hf
  have e1 := hf.schur i j hi hj
  have e2 := hf.schur j i hj hi
  have := h.sym k (R.nu k + i) (R.nu k + j) hk (by omega) (by omega)
  have e3 : ∑ l ∈ range (R.nu k), low (R.Lam k) (R.nu k + j) l * low (R.Lam k) (R.nu k + i) l =
      ∑ l ∈ range (R.nu k), low (R.Lam k) (R.nu k + i) l * low (R.Lam k) (R.nu k + j) l :=
    sum_congr rfl (fun l _ => mul_comm _ _)
  rw [e3] at e2
  linear_combination e1 - e2 + this

/-- deviation of the inputs of a stage from the feedback law, scaled with the factor -/
def dev (R : RicData K) (ell : ℕ → Vec K) (v : ℕ → Vec K) (k : ℕ) : K :=
  ∑ l ∈ range (R.nu k), (∑ i ∈ range (R.nu k + R.nx k), low (R.Lam k) i l * v k i + ell k l) *
    (∑ i ∈ range (R.nu k + R.nx k), low (R.Lam k) i l * v k i + ell k l)

/-- constant term of (twice) the cost to go, counted from the end of the horizon -/
def cst (R : RicData K) (p ell : ℕ → Vec K) : ℕ → K
  | 0 => - ∑ l ∈ range (R.nu R.N), ell R.N l * ell R.N l
  | d + 1 =>
    let k := R.N - (d + 1)
    R.cst p ell d + (qform (R.nx (k + 1)) (R.P (k + 1)) (R.b k) + 2 * lform (R.nx (k + 1)) (p (k + 1)) (R.b k))
      - ∑ l ∈ range (R.nu k), ell k l * ell k l

/-- **dynamic programming identity**: twice the cost of a trajectory from stage `N - d` on -/
theorem Fac.value (h : R.Fac) {p ell : ℕ → Vec K} (hr : R.Rhs p ell) (v : ℕ → Vec K) : ∀ d, d ≤ R.N →
    (∀ k c, R.N - d ≤ k → k < R.N → c < R.nx (k + 1) →
      v (k + 1) (R.nu (k + 1) + c) = ∑ j ∈ range (R.nu k + R.nx k), R.BA k j c * v k j + R.b k c) →
    ∑ q ∈ range (d + 1), (qform (R.nu (R.N - d + q) + R.nx (R.N - d + q)) (R.H (R.N - d + q)) (v (R.N - d + q))
        + 2 * lform (R.nu (R.N - d + q) + R.nx (R.N - d + q)) (R.g (R.N - d + q)) (v (R.N - d + q))) =
      qform (R.nx (R.N - d)) (R.Pv (R.N - d)) (fun a => v (R.N - d) (R.nu (R.N - d) + a))
      + 2 * lform (R.nx (R.N - d)) (R.pv p ell (R.N - d)) (fun a => v (R.N - d) (R.nu (R.N - d) + a))
      + R.cst p ell d + ∑ q ∈ range (d + 1), R.dev ell v (R.N - d + q) := by
  intro d
  induction d with
  | zero =>
    intro _ _
    have hS := h.stage hr R.N (le_refl _)
    have := stage_square hS (fun i j hi hj => h.sym R.N i j (le_refl _) hi hj) (v R.N)
    have hM : R.M R.N = R.H R.N := if_neg (lt_irrefl _)
    have hm : R.m p R.N = R.g R.N := if_neg (lt_irrefl _)
    rw [hM, hm] at this
    simp only [Nat.sub_zero, sum_range_one, zero_add, add_zero, cst, dev]
    rw [this]
    ring
  | succ d ih =>
    intro hd hdyn
    have ih' := ih (by omega) (fun k c hk => hdyn k c (by omega))
    set k := R.N - (d + 1) with hkdef
    have hk1 : R.N - d = k + 1 := by omega
    rw [hk1] at ih'
    have hkN : k < R.N := by omega
    have hS := h.stage hr k (by omega)
    have hsq := stage_square hS (fun i j hi hj => h.sym k i j (by omega) hi hj) (v k)
    have hM : R.M k = ricM (R.nx (k + 1)) (R.H k) (R.BA k) (R.P (k + 1)) := if_pos hkN
    have hm : R.m p k = ricm (R.nx (k + 1)) (R.g k) (R.BA k) (R.P (k + 1)) (R.b k) (p (k + 1)) := if_pos hkN
    rw [hM, hm] at hsq
    have hv := ric_value (R.nx (k + 1)) (R.nu k + R.nx k) (R.H k) (R.BA k) (R.P (k + 1)) (R.g k) (R.b k) (p (k + 1)) (v k)
      (fun c => v (k + 1) (R.nu (k + 1) + c)) (fun i j hi hj => h.P_sym (k + 1) (by omega) (by omega) i j hi hj)
      (fun c hc => hdyn k c (le_refl _) hkN hc)
    have hP1 : R.Pv (k + 1) = R.P (k + 1) := if_neg (by omega)
    have hp1 : R.pv p ell (k + 1) = p (k + 1) := if_neg (by omega)
    rw [hP1, hp1] at ih'
    have hc : R.cst p ell (d + 1) = R.cst p ell d + (qform (R.nx (k + 1)) (R.P (k + 1)) (R.b k)
        + 2 * lform (R.nx (k + 1)) (p (k + 1)) (R.b k)) - ∑ l ∈ range (R.nu k), ell k l * ell k l := by
      simp only [cst, hkdef]
    rw [sum_range_succ', sum_range_succ' (fun q => R.dev ell v (k + q)), hc]
    simp only [add_zero]
    have s1 : ∀ f : ℕ → K, ∑ q ∈ range (d + 1), f (k + (q + 1)) = ∑ q ∈ range (d + 1), f (k + 1 + q) :=
      fun f => sum_congr rfl (fun q _ => by rw [show k + (q + 1) = k + 1 + q by omega])
    rw [s1 (fun r => qform (R.nu r + R.nx r) (R.H r) (v r) + 2 * lform (R.nu r + R.nx r) (R.g r) (v r)),
      s1 (fun r => R.dev ell v r), ih']
    have hdv : R.dev ell v k = ∑ l ∈ range (R.nu k), (∑ i ∈ range (R.nu k + R.nx k), low (R.Lam k) i l * v k i + ell k l) *
        (∑ i ∈ range (R.nu k + R.nx k), low (R.Lam k) i l * v k i + ell k l) := rfl
    rw [← hdv] at hsq
    linear_combination hv + hsq

end RicData
end
end Hpipm
