/-
The whole Riccati recursion as mathematics: a chain of factorised stages solves the KKT conditions of
the equality constrained problem, and its solution is unique.
-/
import Verif.Riccati

namespace Hpipm
open Finset
set_option linter.unusedSectionVars false

section
variable {K : Type*} [Field K] [LinearOrder K]

/-- Hessian of a stage including the cost to go of the next one -/
def ricM (n1 : ℕ) (H BA P : Mat K) : Mat K := fun i j =>
  H i j + ∑ a ∈ range n1, ∑ c ∈ range n1, BA i a * P a c * BA j c

/-- gradient of a stage including the cost to go of the next one -/
def ricm (n1 : ℕ) (g : Vec K) (BA P : Mat K) (b p : Vec K) : Vec K := fun i =>
  g i + ∑ a ∈ range n1, BA i a * (∑ c ∈ range n1, P a c * b c + p a)

theorem ricM_sym {n1 n : ℕ} {H BA P : Mat K} (hH : ∀ i j, i < n → j < n → H i j = H j i)
    (hP : ∀ i j, i < n1 → j < n1 → P i j = P j i) (i j : ℕ) (hi : i < n) (hj : j < n) :
    ricM n1 H BA P i j = ricM n1 H BA P j i := by
  unfold ricM
  rw [hH i j hi hj, sum_comm]
  congr 1
  apply sum_congr rfl
  intro a ha
  apply sum_congr rfl
  intro c hc
  rw [hP c a (mem_range.mp hc) (mem_range.mp ha)]; ring

/-- Hessian-gradient of a stage with cost to go equals the one without, plus the multiplier term -/
theorem ricMm_apply (n1 n : ℕ) (H BA P : Mat K) (g b p v x1 : Vec K)
    (hx : ∀ c, c < n1 → x1 c = ∑ j ∈ range n, BA j c * v j + b c) (i : ℕ) :
    ∑ j ∈ range n, ricM n1 H BA P i j * v j + ricm n1 g BA P b p i =
      ∑ j ∈ range n, H i j * v j + g i + ∑ a ∈ range n1, BA i a * (∑ c ∈ range n1, P a c * x1 c + p a) := by
  unfold ricM ricm
  have e1 : ∑ j ∈ range n, (H i j + ∑ a ∈ range n1, ∑ c ∈ range n1, BA i a * P a c * BA j c) * v j =
      ∑ j ∈ range n, H i j * v j + ∑ a ∈ range n1, BA i a * ∑ c ∈ range n1, P a c * ∑ j ∈ range n, BA j c * v j := by
    simp only [add_mul, sum_add_distrib]
    congr 1
    simp only [mul_sum, sum_mul]
    rw [sum_comm]
    apply sum_congr rfl
    intro a _
    rw [sum_comm]
    exact sum_congr rfl (fun c _ => sum_congr rfl (fun j _ => by ring))
  have e2 : ∑ a ∈ range n1, BA i a * (∑ c ∈ range n1, P a c * x1 c + p a) =
      ∑ a ∈ range n1, BA i a * (∑ c ∈ range n1, P a c * ∑ j ∈ range n, BA j c * v j) +
      ∑ a ∈ range n1, BA i a * (∑ c ∈ range n1, P a c * b c + p a) := by
    rw [← sum_add_distrib]
    apply sum_congr rfl
    intro a _
    rw [← mul_add]
    congr 1
    rw [← add_assoc, ← sum_add_distrib]
    congr 1
    apply sum_congr rfl
    intro c hc
    rw [hx c (mem_range.mp hc)]; ring
  rw [e1, e2]; ring

/-- a lower triangular system with nonzero diagonal is injective -/
theorem low_inj {n : ℕ} {A : Mat K} (hp : ∀ j, j < n → A j j ≠ 0) {y : Vec K}
    (h : ∀ i, i < n → ∑ l ∈ range n, low A i l * y l = 0) (i : ℕ) (hi : i < n) : y i = 0 := by
  induction i using Nat.strong_induction_on with
  | _ i ih =>
    have := h i hi
    rw [sum_eq_single_of_mem i (mem_range.mpr hi)] at this
    · rw [low, if_pos (le_refl _)] at this
      exact (mul_eq_zero.mp this).resolve_left (hp i hi)
    · intro l hl hli
      by_cases hlt : l < i
      · rw [ih l hlt (mem_range.mp hl), mul_zero]
      · rw [low, if_neg (by omega), zero_mul]

/-- the transposed system is injective as well -/
theorem low_inj_tr {n : ℕ} {A : Mat K} (hp : ∀ j, j < n → A j j ≠ 0) {y : Vec K}
    (h : ∀ j, j < n → ∑ i ∈ range n, low A i j * y i = 0) (i : ℕ) (hi : i < n) : y i = 0 := by
  have key : ∀ d i, i < n → n - i ≤ d → y i = 0 := by
    intro d
    induction d with
    | zero => intro i hi hd; omega
    | succ d ih =>
      intro i hi hd
      have := h i hi
      rw [sum_eq_single_of_mem i (mem_range.mpr hi)] at this
      · rw [low, if_pos (le_refl _)] at this
        exact (mul_eq_zero.mp this).resolve_left (hp i hi)
      · intro l hl hli
        by_cases hlt : i < l
        · rw [ih l (mem_range.mp hl) (by have := mem_range.mp hl; omega), mul_zero]
        · rw [low, if_neg (by omega), zero_mul]
  exact key n i hi (by omega)

/-- a factorised Riccati recursion over a horizon: `N` stages with dynamics -/
structure RicData (K : Type*) where
  N : ℕ
  nu : ℕ → ℕ
  nx : ℕ → ℕ
  H : ℕ → Mat K
  g : ℕ → Vec K
  BA : ℕ → Mat K
  b : ℕ → Vec K
  Lam : ℕ → Mat K
  P : ℕ → Mat K

namespace RicData
variable (R : RicData K)

/-- Hessian of stage `k` with cost to go -/
def M (k : ℕ) : Mat K := if k < R.N then ricM (R.nx (k + 1)) (R.H k) (R.BA k) (R.P (k + 1)) else R.H k
/-- gradient of stage `k` with the linear terms `p` of the cost to go -/
def m (p : ℕ → Vec K) (k : ℕ) : Vec K :=
  if k < R.N then ricm (R.nx (k + 1)) (R.g k) (R.BA k) (R.P (k + 1)) (R.b k) (p (k + 1)) else R.g k

/-- number of variables eliminated at a stage: all at the first, the inputs at the others -/
def ne (k : ℕ) : ℕ := if k = 0 then R.nu 0 + R.nx 0 else R.nu k
/-- number of variables left at a stage -/
def nr (k : ℕ) : ℕ := if k = 0 then 0 else R.nx k

theorem ne_add_nr (k : ℕ) : R.ne k + R.nr k = R.nu k + R.nx k := by
  unfold ne nr; split_ifs with h <;> simp [h]

/-- the factorisation is valid -/
structure Fac : Prop where
  hsym : ∀ k i j, k ≤ R.N → i < R.nu k + R.nx k → j < R.nu k + R.nx k → R.H k i j = R.H k j i
  fac : ∀ k, k ≤ R.N → RicFac (R.ne k) (R.nr k) (R.M k) (R.Lam k) (R.P k)

/-- stationarity of the equality constrained problem -/
def Stat (v pi : ℕ → Vec K) : Prop := ∀ k i, k ≤ R.N → i < R.nu k + R.nx k →
  ∑ j ∈ range (R.nu k + R.nx k), R.H k i j * v k j + R.g k i
    + (if k < R.N then ∑ a ∈ range (R.nx (k + 1)), R.BA k i a * pi k a else 0)
  = if 0 < k ∧ R.nu k ≤ i then pi (k - 1) (i - R.nu k) else 0

/-- dynamics -/
def Dyn (v : ℕ → Vec K) : Prop := ∀ k c, k < R.N → c < R.nx (k + 1) →
  v (k + 1) (R.nu (k + 1) + c) = ∑ j ∈ range (R.nu k + R.nx k), R.BA k j c * v k j + R.b k c

variable {R}

theorem Fac.M_sym (h : R.Fac) : ∀ d k i j, k + d = R.N → i < R.nu k + R.nx k → j < R.nu k + R.nx k →
    R.M k i j = R.M k j i := by
  intro d
  induction d with
  | zero =>
    intro k i j hk hi hj
    rw [M, if_neg (by omega)]
    exact h.hsym k i j (by omega) hi hj
  | succ d ih =>
    intro k i j hk hi hj
    rw [M, if_pos (by omega)]
    refine ricM_sym (n := R.nu k + R.nx k) (fun i j => h.hsym k i j (by omega)) ?_ i j hi hj
    intro i j hi hj
    have hf := h.fac (k + 1) (by omega)
    have hne : R.ne (k + 1) = R.nu (k + 1) := if_neg (by omega)
    have hnr : R.nr (k + 1) = R.nx (k + 1) := if_neg (by omega)
    rw [hne, hnr] at hf
    have e1 := hf.schur i j hi hj
    have e2 := hf.schur j i hj hi
    have := ih (k + 1) (R.nu (k + 1) + i) (R.nu (k + 1) + j) (by omega) (by omega) (by omega)
    have e3 : ∑ l ∈ range (R.nu (k + 1)), low (R.Lam (k + 1)) (R.nu (k + 1) + j) l * low (R.Lam (k + 1)) (R.nu (k + 1) + i) l =
        ∑ l ∈ range (R.nu (k + 1)), low (R.Lam (k + 1)) (R.nu (k + 1) + i) l * low (R.Lam (k + 1)) (R.nu (k + 1) + j) l :=
      sum_congr rfl (fun l _ => mul_comm _ _)
    rw [e3] at e2
    linear_combination e1 - e2 + this

theorem Fac.sym (h : R.Fac) (k i j : ℕ) (hk : k ≤ R.N) (hi : i < R.nu k + R.nx k) (hj : j < R.nu k + R.nx k) :
    R.M k i j = R.M k j i := h.M_sym (R.N - k) k i j (by omega) hi hj

/-- right-hand side part of the recursion -/
structure Rhs (R : RicData K) (p ell : ℕ → Vec K) : Prop where
  rhs : ∀ k j, k ≤ R.N → j < R.ne k → ∑ l ∈ range (R.ne k), low (R.Lam k) j l * ell k l = R.m p k j
  schurv : ∀ k i, k ≤ R.N → i < R.nr k →
    p k i + ∑ l ∈ range (R.ne k), low (R.Lam k) (R.ne k + i) l * ell k l = R.m p k (R.ne k + i)

/-- the forward sweep solves the KKT conditions -/
theorem Fac.solves (h : R.Fac) {p ell : ℕ → Vec K} (hr : R.Rhs p ell) {v pi : ℕ → Vec K} (hd : R.Dyn v)
    (hv : ∀ k j, k ≤ R.N → j < R.ne k → ∑ i ∈ range (R.nu k + R.nx k), low (R.Lam k) i j * v k i = - ell k j)
    (hpi : ∀ k a, k < R.N → a < R.nx (k + 1) →
      pi k a = ∑ c ∈ range (R.nx (k + 1)), R.P (k + 1) a c * v (k + 1) (R.nu (k + 1) + c) + p (k + 1) a) :
    R.Stat v pi := by
  intro k i hk hi
  have hS : RicStage (R.ne k) (R.nr k) (R.M k) (R.m p k) (R.Lam k) (ell k) (R.P k) (p k) :=
    ⟨(h.fac k hk).fac, fun j hj => hr.rhs k j hk hj, (h.fac k hk).schur, fun i hi => hr.schurv k i hk hi, (h.fac k hk).piv⟩
  have hn := R.ne_add_nr k
  have hf := ric_forward hS (fun i j hi hj => h.sym k i j hk (by omega) (by omega)) (v k)
    (fun j hj => by rw [hn]; exact hv k j hk hj)
  rw [hn] at hf
  have hL : ∑ j ∈ range (R.nu k + R.nx k), R.M k i j * v k j + R.m p k i =
      ∑ j ∈ range (R.nu k + R.nx k), R.H k i j * v k j + R.g k i
        + (if k < R.N then ∑ a ∈ range (R.nx (k + 1)), R.BA k i a * pi k a else 0) := by
    by_cases hN : k < R.N
    · simp only [M, m, if_pos hN]
      rw [ricMm_apply _ _ _ _ _ _ _ _ _ (fun c => v (k + 1) (R.nu (k + 1) + c)) (fun c hc => hd k c hN hc)]
      congr 1
      apply sum_congr rfl
      intro a ha
      rw [hpi k a hN (mem_range.mp ha)]
    · simp only [M, m, if_neg hN, add_zero]
  rw [← hL]
  by_cases hi1 : i < R.ne k
  · rw [hf.1 i hi1, if_neg]
    intro hc
    simp only [ne] at hi1
    split_ifs at hi1 <;> omega
  · obtain ⟨a, rfl⟩ := Nat.exists_eq_add_of_le (Nat.le_of_not_lt hi1)
    have hk0 : k ≠ 0 := by
      rintro rfl
      simp only [ne, if_true] at hi1 hi; omega
    have hne : R.ne k = R.nu k := if_neg hk0
    have hnr : R.nr k = R.nx k := if_neg hk0
    rw [hf.2 a (by omega), if_pos (by omega)]
    obtain ⟨q, rfl⟩ : ∃ q, k = q + 1 := ⟨k - 1, by omega⟩
    rw [hne, hnr, Nat.add_sub_cancel_left, Nat.add_sub_cancel, hpi q a (by omega) (by omega)]

/-- the eliminated part of a stage vanishes when the eliminated rows of the gradient do -/
theorem Fac.stage_zero (h : R.Fac) (k : ℕ) (hk : k ≤ R.N) (w : Vec K)
    (hz : ∀ i, i < R.ne k → ∑ j ∈ range (R.nu k + R.nx k), R.M k i j * w j = 0) :
    (∀ l, l < R.ne k → ∑ j ∈ range (R.nu k + R.nx k), low (R.Lam k) j l * w j = 0) ∧
    (∀ i, i < R.nr k → ∑ j ∈ range (R.nu k + R.nx k), R.M k (R.ne k + i) j * w j =
      ∑ j ∈ range (R.nr k), R.P k i j * w (R.ne k + j)) := by
  have hn := R.ne_add_nr k
  have hF := h.fac k hk
  have hfac : ∀ i j, i < R.ne k + R.nr k → j < R.ne k → ∑ l ∈ range (R.ne k), low (R.Lam k) i l * low (R.Lam k) j l = R.M k i j := by
    intro i j hi hj
    by_cases hij : j ≤ i
    · exact hF.fac i j hi hj hij
    · rw [h.sym k i j hk (by omega) (by omega), ← hF.fac j i (by omega) (by omega) (by omega)]
      exact sum_congr rfl (fun l _ => mul_comm _ _)
  have hsw : ∀ i, ∑ j ∈ range (R.nu k + R.nx k), (∑ l ∈ range (R.ne k), low (R.Lam k) i l * low (R.Lam k) j l) * w j =
      ∑ l ∈ range (R.ne k), low (R.Lam k) i l * ∑ j ∈ range (R.nu k + R.nx k), low (R.Lam k) j l * w j := by
    intro i
    simp only [mul_sum, sum_mul]
    rw [sum_comm]
    exact sum_congr rfl (fun l _ => sum_congr rfl (fun j _ => by ring))
  have hy : ∀ l, l < R.ne k → ∑ j ∈ range (R.nu k + R.nx k), low (R.Lam k) j l * w j = 0 := by
    refine low_inj (A := R.Lam k) (fun j hj => hF.piv j hj) ?_
    intro i hi
    rw [← hsw, ← hz i hi]
    apply sum_congr rfl
    intro j hj
    have := mem_range.mp hj
    rw [h.sym k i j hk (by omega) this, ← hfac j i (by omega) hi]
    congr 1
    exact sum_congr rfl (fun l _ => mul_comm _ _)
  refine ⟨hy, fun i hi => ?_⟩
  have : ∑ j ∈ range (R.nu k + R.nx k), R.M k (R.ne k + i) j * w j =
      (∑ j ∈ range (R.nu k + R.nx k), (∑ l ∈ range (R.ne k), low (R.Lam k) (R.ne k + i) l * low (R.Lam k) j l) * w j)
      + ∑ j ∈ range (R.nr k), R.P k i j * w (R.ne k + j) := by
    rw [← hn, sum_range_add _ (R.ne k), sum_range_add (fun j => (∑ l ∈ range (R.ne k), low (R.Lam k) (R.ne k + i) l * low (R.Lam k) j l) * w j) (R.ne k),
      add_assoc, ← sum_add_distrib]
    congr 1
    · apply sum_congr rfl
      intro j hj
      rw [hfac (R.ne k + i) j (by omega) (mem_range.mp hj)]
    · apply sum_congr rfl
      intro j hj
      rw [← hF.schur i j hi (mem_range.mp hj)]; ring
  rw [this, hsw, sum_eq_zero, zero_add]
  intro l hl
  rw [hy l (mem_range.mp hl), mul_zero]

/-- a factorised problem has at most one solution -/
theorem Fac.unique (h : R.Fac) {v pi v' pi' : ℕ → Vec K} (hd : R.Dyn v) (hd' : R.Dyn v')
    (hs : R.Stat v pi) (hs' : R.Stat v' pi') :
    (∀ k i, k ≤ R.N → i < R.nu k + R.nx k → v k i = v' k i) ∧
    (∀ k a, k < R.N → a < R.nx (k + 1) → pi k a = pi' k a) := by
  set w : ℕ → Vec K := fun k i => v k i - v' k i with hw
  set s : ℕ → Vec K := fun k i => pi k i - pi' k i with hsd
  have hdw : ∀ k c, k < R.N → c < R.nx (k + 1) →
      w (k + 1) (R.nu (k + 1) + c) = ∑ j ∈ range (R.nu k + R.nx k), R.BA k j c * w k j + 0 := by
    intro k c hk hc
    have e : ∑ j ∈ range (R.nu k + R.nx k), R.BA k j c * w k j =
        ∑ j ∈ range (R.nu k + R.nx k), R.BA k j c * v k j - ∑ j ∈ range (R.nu k + R.nx k), R.BA k j c * v' k j := by
      rw [← sum_sub_distrib]; exact sum_congr rfl (fun j _ => by simp only [hw]; ring)
    rw [e]
    simp only [hw]
    rw [hd k c hk hc, hd' k c hk hc]; ring
  have hsw : ∀ k i, k ≤ R.N → i < R.nu k + R.nx k →
      ∑ j ∈ range (R.nu k + R.nx k), R.H k i j * w k j
        + (if k < R.N then ∑ a ∈ range (R.nx (k + 1)), R.BA k i a * s k a else 0)
      = if 0 < k ∧ R.nu k ≤ i then s (k - 1) (i - R.nu k) else 0 := by
    intro k i hk hi
    have e1 := hs k i hk hi
    have e2 := hs' k i hk hi
    have e : ∑ j ∈ range (R.nu k + R.nx k), R.H k i j * w k j =
        ∑ j ∈ range (R.nu k + R.nx k), R.H k i j * v k j - ∑ j ∈ range (R.nu k + R.nx k), R.H k i j * v' k j := by
      rw [← sum_sub_distrib]; exact sum_congr rfl (fun j _ => by simp only [hw]; ring)
    have e' : ∑ a ∈ range (R.nx (k + 1)), R.BA k i a * s k a =
        ∑ a ∈ range (R.nx (k + 1)), R.BA k i a * pi k a - ∑ a ∈ range (R.nx (k + 1)), R.BA k i a * pi' k a := by
      rw [← sum_sub_distrib]; exact sum_congr rfl (fun j _ => by simp only [hsd]; ring)
    rw [e, e']
    simp only [hsd]
    split_ifs at e1 e2 ⊢ <;> linear_combination e1 - e2
  -- backward: the gradient with cost to go
  have hA : ∀ d k, k + d = R.N → ∀ i, i < R.nu k + R.nx k →
      ∑ j ∈ range (R.nu k + R.nx k), R.M k i j * w k j = if 0 < k ∧ R.nu k ≤ i then s (k - 1) (i - R.nu k) else 0 := by
    intro d
    induction d with
    | zero =>
      intro k hk i hi
      have := hsw k i (by omega) hi
      rw [if_neg (by omega), add_zero] at this
      rw [M, if_neg (by omega), this]
    | succ d ih =>
      intro k hk i hi
      have hk1 : k + 1 ≤ R.N := by omega
      have hne : R.ne (k + 1) = R.nu (k + 1) := if_neg (by omega)
      have hnr : R.nr (k + 1) = R.nx (k + 1) := if_neg (by omega)
      have h1 := h.stage_zero (k + 1) hk1 (w (k + 1)) (by
        intro i hi
        rw [hne] at hi
        rw [ih (k + 1) (by omega) i (by omega), if_neg (by omega)])
      have hs1 : ∀ a, a < R.nx (k + 1) → s k a = ∑ c ∈ range (R.nx (k + 1)), R.P (k + 1) a c * w (k + 1) (R.nu (k + 1) + c) := by
        intro a ha
        have h2 := h1.2 a (by omega)
        rw [hne, hnr, ih (k + 1) (by omega) _ (by omega), if_pos (by omega), Nat.add_sub_cancel_left, Nat.add_sub_cancel] at h2
        exact h2
      rw [M, if_pos (by omega), ← hsw k i (by omega) hi, if_pos (by omega : k < R.N)]
      have e := ricMm_apply (R.nx (k + 1)) (R.nu k + R.nx k) (R.H k) (R.BA k) (R.P (k + 1)) (fun _ => 0) (fun _ => 0) (fun _ => 0) (w k)
        (fun c => w (k + 1) (R.nu (k + 1) + c)) (fun c hc => hdw k c (by omega) hc) i
      simp only [ricm, mul_zero, sum_const_zero, add_zero] at e
      rw [e]
      congr 1
      apply sum_congr rfl
      intro a ha
      rw [hs1 a (mem_range.mp ha)]
  have hw0 : ∀ k, k ≤ R.N → ∀ i, i < R.nu k + R.nx k → w k i = 0 := by
    intro k
    induction k with
    | zero =>
      intro _ i hi
      have hne : R.ne 0 = R.nu 0 + R.nx 0 := if_pos rfl
      have h1 := (h.stage_zero 0 (by omega) (w 0) (by
        intro i hi
        rw [hA R.N 0 (by omega) i (by omega), if_neg (by omega)])).1
      rw [hne] at h1
      exact low_inj_tr (A := R.Lam 0) (fun j hj => (h.fac 0 (by omega)).piv j (by omega)) h1 i hi
    | succ k ih =>
      intro hk i hi
      have hne : R.ne (k + 1) = R.nu (k + 1) := if_neg (by omega)
      have hx : ∀ c, c < R.nx (k + 1) → w (k + 1) (R.nu (k + 1) + c) = 0 := by
        intro c hc
        rw [hdw k c (by omega) hc, sum_eq_zero, zero_add]
        intro j hj
        rw [ih (by omega) j (mem_range.mp hj), mul_zero]
      have h1 := (h.stage_zero (k + 1) hk (w (k + 1)) (by
        intro i hi
        rw [hne] at hi
        rw [hA (R.N - (k + 1)) (k + 1) (by omega) i (by omega), if_neg (by omega)])).1
      rw [hne] at h1
      by_cases hi1 : i < R.nu (k + 1)
      · refine low_inj_tr (A := R.Lam (k + 1)) (fun j hj => (h.fac (k + 1) hk).piv j (by omega)) ?_ i hi1
        intro j hj
        have := h1 j hj
        rw [sum_range_add _ (R.nu (k + 1)), sum_eq_zero (s := range (R.nx (k + 1))), add_zero] at this
        · exact this
        · intro c hc
          rw [hx c (mem_range.mp hc), mul_zero]
      · obtain ⟨c, rfl⟩ := Nat.exists_eq_add_of_le (Nat.le_of_not_lt hi1)
        exact hx c (by omega)
  refine ⟨fun k i hk hi => sub_eq_zero.mp (hw0 k hk i hi), fun k a hk ha => ?_⟩
  have h1 := hsw (k + 1) (R.nu (k + 1) + a) (by omega) (by omega)
  have hA1 := hA (R.N - (k + 1)) (k + 1) (by omega) (R.nu (k + 1) + a) (by omega)
  rw [if_pos (by omega), Nat.add_sub_cancel_left, Nat.add_sub_cancel, sum_eq_zero] at hA1
  · exact sub_eq_zero.mp hA1.symm
  · intro j hj
    rw [hw0 (k + 1) (by omega) j (mem_range.mp hj), mul_zero]

end RicData
end
end Hpipm
