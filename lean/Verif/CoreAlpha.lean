/-
C13 for problems with nonzero complementarity targets `m` (the `m_zero = 0` branches of COMPUTE_ALPHA_QP,
ipm_core/x_core_qp_ipm_aux.c:240-449): the step lengths lie in [0,1] and keep the iterate in the orthant.
-/
import Verif.CoreProps

namespace Hpipm
set_option linter.unusedSectionVars false

section
variable {K : Type*} [Field K] [LinearOrder K] [IsStrictOrderedRing K]

/-- the root picked by the code: positive before, negative at `x`, hence between -/
theorem quad_root (sq : K → K) (hsq : ∀ d, 0 ≤ d → 0 ≤ sq d ∧ sq d * sq d = d) {a b c x : K} (ha : a ≠ 0) (hc : 0 < c)
    (hx : 0 ≤ x) (hp : a * x * x + b * x + c < 0) :
    let r := (-b - sq (b * b - 4 * a * c)) * ((1 / 2) / a)
    0 < b * b - 4 * a * c ∧ 0 < r ∧ r < x ∧ a * r * r + b * r + c = 0 := by
  intro r
  have hx0 : 0 < x := lt_of_le_of_ne hx (fun h => by rw [← h] at hp; simp at hp; linarith)
  set d := b * b - 4 * a * c with hd
  have hsqx : (2 * a * x + b) * (2 * a * x + b) = d + 4 * a * (a * x * x + b * x + c) := by rw [hd]; ring
  have hdpos : 0 < d := by
    rcases lt_or_gt_of_ne ha with h | h
    · have : a * c < 0 := mul_neg_of_neg_of_pos h hc
      nlinarith [mul_self_nonneg b]
    · have : a * (a * x * x + b * x + c) < 0 := mul_neg_of_pos_of_neg h hp
      nlinarith [mul_self_nonneg (2 * a * x + b)]
  obtain ⟨hs0, hss⟩ := hsq d hdpos.le
  set s := sq d with hsd
  have hr : r * (2 * a) = -b - s := by
    show (-b - s) * ((1 / 2) / a) * (2 * a) = -b - s
    field_simp
  have hroot : a * r * r + b * r + c = 0 := by
    have h4 : (4 * a) * (a * r * r + b * r + c) = 0 := by
      have : (r * (2 * a) + b) * (r * (2 * a) + b) = d := by rw [hr]; rw [← hss]; ring
      rw [hd] at this
      linear_combination this
    exact (mul_eq_zero.mp h4).resolve_left (mul_ne_zero (by norm_num) ha)
  refine ⟨hdpos, ?_, ?_, hroot⟩
  · rcases lt_or_gt_of_ne ha with h | h
    · have hbs : -b < s := by
        by_contra hn
        push Not at hn
        have : s * s ≤ b * b := by nlinarith
        have : a * c < 0 := mul_neg_of_neg_of_pos h hc
        linarith
      by_contra hn
      push Not at hn
      have : 0 ≤ r * (2 * a) := mul_nonneg_of_nonpos_of_nonpos hn (by linarith)
      linarith
    · have hb : b < 0 := by
        by_contra hn
        push Not at hn
        have := mul_nonneg hn hx
        have := mul_pos (mul_pos h hx0) hx0
        linarith
      have hbs : s < -b := by
        by_contra hn
        push Not at hn
        have : b * b ≤ s * s := by nlinarith
        have : 0 < a * c := mul_pos h hc
        linarith
      by_contra hn
      push Not at hn
      have : r * (2 * a) ≤ 0 := mul_nonpos_of_nonpos_of_nonneg hn (by linarith)
      linarith
  · rcases lt_or_gt_of_ne ha with h | h
    · have hneg : 2 * a * x + b < 0 := by
        by_contra hn
        push Not at hn
        have h1 : 0 ≤ x * (2 * a * x + b) := mul_nonneg hx hn
        have h2 : 0 < -a * x * x := mul_pos (mul_pos (by linarith) hx0) hx0
        linarith
      have hgt : s < -(2 * a * x + b) := by
        by_contra hn
        push Not at hn
        have h1 : (2 * a * x + b) * (2 * a * x + b) ≤ s * s := by nlinarith
        have h2 : 0 < a * (a * x * x + b * x + c) := mul_pos_of_neg_of_neg h hp
        linarith
      by_contra hn
      push Not at hn
      have : r * (2 * a) ≤ x * (2 * a) := mul_le_mul_of_nonpos_right hn (by linarith)
      linarith
    · have hgt : -(2 * a * x + b) < s := by
        by_contra hn
        push Not at hn
        have h1 : s * s ≤ (2 * a * x + b) * (2 * a * x + b) := by nlinarith
        have h2 : a * (a * x * x + b * x + c) < 0 := mul_neg_of_pos_of_neg h hp
        linarith
      by_contra hn
      push Not at hn
      have : x * (2 * a) ≤ r * (2 * a) := mul_le_mul_of_nonneg_right hn (by linarith)
      linarith

theorem mSafe_range (c : Core K) : 0 ≤ mSafe c ∧ mSafe c ≤ 1 := by
  unfold mSafe
  simp only
  split_ifs with h1 h2 h2
  · exact ⟨h1, h2⟩
  · exact ⟨zero_le_one, le_refl _⟩
  · exact ⟨le_refl _, h2⟩
  · exact ⟨zero_le_one, le_refl _⟩

/-- step lengths in [0,1] keeping the first `n` slacks and multipliers nonnegative -/
structure StepIn (c : Core K) (n : ℕ) (ap ad : K) : Prop where
  ap0 : 0 ≤ ap
  ap1 : ap ≤ 1
  ad0 : 0 ≤ ad
  ad1 : ad ≤ 1
  lam : ∀ i, i < n → 0 ≤ c.lam i + ad * c.dlam i
  t : ∀ i, i < n → 0 ≤ c.t i + ap * c.dt i

theorem StepIn.shrink {c : Core K} {n : ℕ} {ap ad ap' ad' : K} (h : StepIn c n ap ad) (hl : ∀ i, i < n → 0 ≤ c.lam i)
    (ht : ∀ i, i < n → 0 ≤ c.t i) (h0 : 0 ≤ ap') (h1 : ap' ≤ ap) (h2 : 0 ≤ ad') (h3 : ad' ≤ ad) : StepIn c n ap' ad' :=
  ⟨h0, h1.trans h.ap1, h2, h3.trans h.ad1, fun i hi => convex_nonneg (hl i hi) (h.lam i hi) h2 h3,
    fun i hi => convex_nonneg (ht i hi) (h.t i hi) h0 h1⟩

theorem StepIn.snoc {c : Core K} {n : ℕ} {ap ad : K} (h : StepIn c n ap ad) (hl : 0 ≤ c.lam n + ad * c.dlam n)
    (ht : 0 ≤ c.t n + ap * c.dt n) : StepIn c (n + 1) ap ad :=
  ⟨h.ap0, h.ap1, h.ad0, h.ad1,
    fun i hi => by rcases Nat.lt_succ_iff_lt_or_eq.mp hi with h' | rfl; exacts [h.lam i h', hl],
    fun i hi => by rcases Nat.lt_succ_iff_lt_or_eq.mp hi with h' | rfl; exacts [h.t i h', ht]⟩

/-- the ratio test of one multiplier or slack -/
theorem ratio_or {x d a : K} (hx : 0 < x) (ha : 0 ≤ a) :
    let a' := if x + a * d < 0 then -x / d else a
    0 ≤ a' ∧ a' ≤ a ∧ 0 ≤ x + a' * d := by
  intro a'
  show 0 ≤ (if x + a * d < 0 then -x / d else a) ∧ (if x + a * d < 0 then -x / d else a) ≤ a ∧
    0 ≤ x + (if x + a * d < 0 then -x / d else a) * d
  split_ifs with h
  · obtain ⟨-, h1, h2, h3⟩ := ratio_step hx.le ha h
    exact ⟨h1, h2, h3.ge⟩
  · exact ⟨ha, le_refl _, not_lt.mp h⟩

/-- lowering the step of `x` so that `(x + a*d)*y = m` -/
theorem lin_root {x y d a m : K} (hy : 0 < y) (hd : d < 0) (hm : 0 ≤ m) (h0 : m ≤ x * y) (hv : (x + a * d) * y < m) :
    let a' := (m - x * y) / (d * y)
    0 ≤ a' ∧ a' ≤ a ∧ 0 ≤ x + a' * d := by
  intro a'
  have hdy : d * y < 0 := mul_neg_of_neg_of_pos hd hy
  have e : a' * (d * y) = m - x * y := div_mul_cancel₀ _ hdy.ne
  refine ⟨div_nonneg_of_nonpos (by linarith) hdy.le, ?_, ?_⟩
  · by_contra hn
    push Not at hn
    have := mul_lt_mul_of_neg_right hn hdy
    nlinarith
  · by_contra hn
    push Not at hn
    have := mul_neg_of_neg_of_pos hn hy
    nlinarith

/-- one constraint of the third pass (and the second half of the first) -/
theorem lin_pass {c : Core K} {n i : ℕ} {s : Alpha K} (hl : ∀ i, i < n → 0 < c.lam i) (ht : ∀ i, i < n → 0 < c.t i)
    (hi : i < n) (hm : 0 ≤ c.m i) (hc : mSafe c * c.m i ≤ c.lam i * c.t i) (h : StepIn c n s.ap s.ad) :
    StepIn c n (alphaPass3 c i s).ap (alphaPass3 c i s).ad := by
  have hm1 : 0 ≤ mSafe c * c.m i := mul_nonneg (mSafe_range c).1 hm
  have heps : (0 : K) < eps12 := by unfold eps12; positivity
  have hl' := fun i hi => (hl i hi).le
  have ht' := fun i hi => (ht i hi).le
  unfold alphaPass3
  simp only
  split_ifs with h1 h2 h3 h3
  · exact h
  · have hy : 0 < c.t i + s.ap * c.dt i := by
      have := mul_nonneg h.ap0 (not_lt.mp h3); have := ht i hi; linarith
    have h0 : mSafe c * c.m i ≤ c.lam i * (c.t i + s.ap * c.dt i) := by
      have := mul_nonneg (hl' i hi) (mul_nonneg h.ap0 (not_lt.mp h3)); nlinarith
    obtain ⟨r0, r1, -⟩ := lin_root (a := s.ad) hy h2 hm1 h0 (by linarith)
    exact h.shrink hl' ht' h.ap0 (le_refl _) r0 r1
  · have hy : 0 < c.lam i + s.ad * c.dlam i := by
      have := mul_nonneg h.ad0 (not_lt.mp h2); have := hl i hi; linarith
    have h0 : mSafe c * c.m i ≤ c.t i * (c.lam i + s.ad * c.dlam i) := by
      have := mul_nonneg (ht' i hi) (mul_nonneg h.ad0 (not_lt.mp h2)); nlinarith
    obtain ⟨r0, r1, -⟩ := lin_root (a := s.ap) hy h3 hm1 h0 (by rw [mul_comm]; linarith)
    exact h.shrink hl' ht' r0 r1 h.ad0 (le_refl _)
  · exact h
  · exact h

/-- the first pass is the ratio test followed by the third pass -/
theorem pass1_split (c : Core K) (i : ℕ) (s : Alpha K) : alphaPass1 c i s = alphaPass3 c i (alphaSplitZ c i s) := by
  unfold alphaPass1 alphaPass3 alphaSplitZ
  simp only
  split_ifs <;> simp_all

theorem splitZ_val (c : Core K) (i : ℕ) (s : Alpha K) :
    (alphaSplitZ c i s).ap = (if c.t i + s.ap * c.dt i < 0 then -c.t i / c.dt i else s.ap) ∧
    (alphaSplitZ c i s).ad = (if c.lam i + s.ad * c.dlam i < 0 then -c.lam i / c.dlam i else s.ad) := by
  unfold alphaSplitZ
  simp only
  split_ifs <;> exact ⟨rfl, rfl⟩

theorem quad_pass (sq : K → K) (hsq : ∀ d, 0 ≤ d → 0 ≤ sq d ∧ sq d * sq d = d) {c : Core K} {n i : ℕ} {s : Alpha K}
    (hl : ∀ i, i < n → 0 < c.lam i) (ht : ∀ i, i < n → 0 < c.t i) (h : StepIn c n s.ap s.ad) :
    StepIn c n (alphaPass2 sq c i s).ap (alphaPass2 sq c i s).ad := by
  have heps : (0 : K) < eps12 := by unfold eps12; positivity
  have hl' := fun i hi => (hl i hi).le
  have ht' := fun i hi => (ht i hi).le
  have hz : StepIn c n 0 0 := h.shrink hl' ht' (le_refl _) h.ap0 (le_refl _) h.ad0
  unfold alphaPass2
  simp only
  split_ifs with h1 h2 h3 h4
  · by_cases ha : s.ad * c.dlam i * (s.ap * c.dt i) = 0
    · rw [ha, div_zero, mul_zero] at h4
      exact absurd h4 (lt_irrefl _)
    · obtain ⟨-, r0, r1, -⟩ := quad_root sq hsq (b := s.ad * c.dlam i * c.t i + c.lam i * (s.ap * c.dt i)) ha h3 zero_le_one
        (by nlinarith)
      exact h.shrink hl' ht' (mul_nonneg h.ap0 r0.le) (mul_le_of_le_one_right h.ap0 r1.le) (mul_nonneg h.ad0 r0.le)
        (mul_le_of_le_one_right h.ad0 r1.le)
  · rw [mul_zero, mul_zero]; exact hz
  · exact hz
  · exact h
  · exact h

/-- **C13, separate step lengths, nonzero targets.**  From positive slacks and multipliers with `lam*t >= m_safe*m` (true of
the iterates of the method, and of any central starting point) the step lengths are in [0,1] and do not leave the orthant. -/
theorem computeAlpha_split_target (sq : K → K) (hsq : ∀ d, 0 ≤ d → 0 ≤ sq d ∧ sq d * sq d = d) (c : Core K)
    (hs : c.split_step = 1) (hz : c.m_zero = false) (hl : ∀ i, i < c.nc → 0 < c.lam i) (ht : ∀ i, i < c.nc → 0 < c.t i)
    (hm : ∀ i, i < c.nc → 0 ≤ c.m i) (hc : ∀ i, i < c.nc → mSafe c * c.m i ≤ c.lam i * c.t i) :
    let r := computeAlpha sq c
    0 ≤ r.alpha_prim ∧ r.alpha_prim ≤ 1 ∧ 0 ≤ r.alpha_dual ∧ r.alpha_dual ≤ 1 ∧
      ∀ i, i < c.nc → 0 ≤ c.lam i + r.alpha_dual * c.dlam i ∧ 0 ≤ c.t i + r.alpha_prim * c.dt i := by
  have h1 : StepIn c c.nc (loop c.nc (alphaPass1 c) ⟨1, 1, false⟩).ap (loop c.nc (alphaPass1 c) ⟨1, 1, false⟩).ad := by
    have key : ∀ n, n ≤ c.nc → StepIn c n (loop n (alphaPass1 c) ⟨1, 1, false⟩).ap (loop n (alphaPass1 c) ⟨1, 1, false⟩).ad := by
      intro n
      induction n with
      | zero =>
        intro _
        exact ⟨zero_le_one, le_refl _, zero_le_one, le_refl _, fun i hi => absurd hi (Nat.not_lt_zero _), fun i hi => absurd hi (Nat.not_lt_zero _)⟩
      | succ n ih =>
        intro hn
        have ih := ih (by omega)
        rw [loop_succ, pass1_split]
        generalize loop n (alphaPass1 c) ⟨1, 1, false⟩ = s at ih ⊢
        obtain ⟨e1, e2⟩ := splitZ_val c n s
        obtain ⟨p0, p1, p2⟩ := ratio_or (d := c.dt n) (ht n (by omega)) ih.ap0
        obtain ⟨d0, d1, d2⟩ := ratio_or (d := c.dlam n) (hl n (by omega)) ih.ad0
        rw [← e1] at p0 p1 p2
        rw [← e2] at d0 d1 d2
        have hi' := (ih.shrink (fun i hi => (hl i (by omega)).le) (fun i hi => (ht i (by omega)).le) p0 p1 d0 d1).snoc d2 p2
        exact lin_pass (fun i hi => hl i (by omega)) (fun i hi => ht i (by omega)) (Nat.lt_succ_self n) (hm n (by omega)) (hc n (by omega)) hi'
    exact key c.nc (le_refl _)
  have h2 : ∀ n s, StepIn c c.nc s.ap s.ad → StepIn c c.nc (loop n (alphaPass2 sq c) s).ap (loop n (alphaPass2 sq c) s).ad := by
    intro n s h
    induction n with
    | zero => exact h
    | succ n ih => rw [loop_succ]; exact quad_pass sq hsq hl ht ih
  have h3 : ∀ n s, n ≤ c.nc → StepIn c c.nc s.ap s.ad → StepIn c c.nc (loop n (alphaPass3 c) s).ap (loop n (alphaPass3 c) s).ad := by
    intro n s hn h
    induction n with
    | zero => exact h
    | succ n ih => rw [loop_succ]; exact lin_pass hl ht (by omega) (hm n (by omega)) (hc n (by omega)) (ih (by omega))
  have h4 := h3 c.nc _ (le_refl _) (h2 c.nc _ h1)
  intro r
  have er : r.alpha_prim = (loop c.nc (alphaPass3 c) (loop c.nc (alphaPass2 sq c) (loop c.nc (alphaPass1 c) ⟨1, 1, false⟩))).ap ∧
      r.alpha_dual = (loop c.nc (alphaPass3 c) (loop c.nc (alphaPass2 sq c) (loop c.nc (alphaPass1 c) ⟨1, 1, false⟩))).ad := by
    simp only [r, computeAlpha, alphaRaw, hs, hz, if_true, Bool.false_eq_true, if_false, and_self]
  rw [er.1, er.2]
  exact ⟨h4.ap0, h4.ap1, h4.ad0, h4.ad1, fun i hi => ⟨h4.lam i hi, h4.t i hi⟩⟩

/-! ### common step length -/

/-- the product of slack and multiplier does not drop more than `1e-12` below the safe target, anywhere before the step -/
theorem prod_between {l dl t dt m a b : K} (hl : 0 ≤ l) (ht : 0 ≤ t) (h1 : 0 ≤ l + a * dl) (h2 : 0 ≤ t + a * dt)
    (h0 : m ≤ l * t) (ha : m - eps12 ≤ (l + a * dl) * (t + a * dt)) (hb : 0 ≤ b) (hba : b ≤ a) :
    m - eps12 ≤ (l + b * dl) * (t + b * dt) := by
  have heps : (0 : K) < eps12 := by unfold eps12; positivity
  rcases eq_or_lt_of_le (hb.trans hba) with h | hapos
  · have : b = 0 := le_antisymm (hba.trans h.symm.le) hb
    rw [this]; simp; linarith
  set x := b / a with hx
  have hx0 : 0 ≤ x := div_nonneg hb hapos.le
  have hx1 : x ≤ 1 := (div_le_one hapos).mpr hba
  have hbx : b = x * a := (div_mul_cancel₀ b hapos.ne').symm
  have g1 : l + b * dl = (1 - x) * l + x * (l + a * dl) := by rw [hbx]; ring
  have g2 : t + b * dt = (1 - x) * t + x * (t + a * dt) := by rw [hbx]; ring
  set l' := l + a * dl with hl'
  set t' := t + a * dt with ht'
  rw [g1, g2]
  have y0 : 0 ≤ 1 - x := by linarith
  -- convex combination of the end points plus x(1-x)*(...)
  have e : ((1 - x) * l + x * l') * ((1 - x) * t + x * t') = (1 - x) * (l * t) + x * (l' * t') - x * (1 - x) * ((l - l') * (t - t')) := by ring
  by_cases hs : (l - l') * (t - t') ≤ 0
  · rw [e]
    have := mul_nonneg hx0 y0
    nlinarith [mul_nonneg y0 (sub_nonneg.mpr h0), mul_nonneg hx0 (sub_nonneg.mpr ha)]
  · push Not at hs
    rcases lt_or_ge l l' with hll | hll
    · have htt : t ≤ t' := by
        by_contra hn; push Not at hn
        have : (l - l') * (t - t') < 0 := mul_neg_of_neg_of_pos (by linarith) (by linarith)
        linarith
      have a1 : l ≤ (1 - x) * l + x * l' := by nlinarith
      have a2 : t ≤ (1 - x) * t + x * t' := by nlinarith
      have := mul_le_mul a1 a2 ht (by linarith)
      linarith
    · have htt : t' ≤ t := by
        by_contra hn; push Not at hn
        have : (l - l') * (t - t') ≤ 0 := mul_nonpos_of_nonneg_of_nonpos (by linarith) (by linarith)
        linarith
      have a1 : l' ≤ (1 - x) * l + x * l' := by nlinarith
      have a2 : t' ≤ (1 - x) * t + x * t' := by nlinarith
      have := mul_le_mul a1 a2 h2 (by linarith)
      linarith

/-- one constraint of the joint rule: `s.ap` may only shrink, stays nonnegative, and is safe for this constraint -/
theorem joint_pass (sq : K → K) (hsq : ∀ d, 0 ≤ d → 0 ≤ sq d ∧ sq d * sq d = d) (c : Core K) (i : ℕ) (s : Alpha K)
    (hl : 0 < c.lam i) (ht : 0 < c.t i) (hm : 0 ≤ c.m i) (h0 : 0 ≤ s.ap) (h1 : s.ap ≤ 1)
    (hnb : 0 ≤ c.lam i + c.dlam i ∨ 0 ≤ c.t i + c.dt i) (hb : (alphaJointM sq c i s).bad = false) :
    let a := (alphaJointM sq c i s).ap
    0 ≤ a ∧ a ≤ s.ap ∧ 0 ≤ c.lam i + a * c.dlam i ∧ 0 ≤ c.t i + a * c.dt i ∧ s.bad = false ∧
      (mSafe c * c.m i ≤ c.lam i * c.t i → mSafe c * c.m i - eps12 ≤ (c.lam i + a * c.dlam i) * (c.t i + a * c.dt i)) := by
  have heps : (0 : K) < eps12 := by unfold eps12; positivity
  have hm1 : 0 ≤ mSafe c * c.m i := mul_nonneg (mSafe_range c).1 hm
  have nb' : ¬ (c.lam i + s.ap * c.dlam i < 0 ∧ c.t i + s.ap * c.dt i < 0) := by
    rintro ⟨a1, a2⟩
    rcases hnb with h | h
    · have := convex_nonneg (b := s.ap) hl.le (show 0 ≤ c.lam i + 1 * c.dlam i by rw [one_mul]; exact h) h0 h1; linarith
    · have := convex_nonneg (b := s.ap) ht.le (show 0 ≤ c.t i + 1 * c.dt i by rw [one_mul]; exact h) h0 h1; linarith
  -- the quadratic branch from a common trial step `x`
  have quad : ∀ x, 0 ≤ x → x ≤ s.ap → 0 ≤ c.lam i + x * c.dlam i → 0 ≤ c.t i + x * c.dt i →
      (c.lam i + x * c.dlam i) * (c.t i + x * c.dt i) < mSafe c * c.m i → 0 < c.lam i * c.t i - mSafe c * c.m i →
      c.dlam i * c.dt i ≠ 0 →
      let r := (-(c.dlam i * c.t i + c.lam i * c.dt i) - sq ((c.dlam i * c.t i + c.lam i * c.dt i) * (c.dlam i * c.t i + c.lam i * c.dt i) -
        4 * (c.dlam i * c.dt i) * (c.lam i * c.t i - mSafe c * c.m i))) * ((1 / 2) / (c.dlam i * c.dt i))
      0 ≤ r ∧ r ≤ s.ap ∧ 0 ≤ c.lam i + r * c.dlam i ∧ 0 ≤ c.t i + r * c.dt i ∧
        (c.lam i + r * c.dlam i) * (c.t i + r * c.dt i) = mSafe c * c.m i := by
    intro x hx hxs hlx htx hp hcc ha r
    obtain ⟨-, r0, r1, r2⟩ := quad_root sq hsq (b := c.dlam i * c.t i + c.lam i * c.dt i) ha hcc hx (by nlinarith)
    refine ⟨r0.le, r1.le.trans hxs, convex_nonneg hl.le hlx r0.le r1.le, convex_nonneg ht.le htx r0.le r1.le, ?_⟩
    have r2' : c.dlam i * c.dt i * r * r + (c.dlam i * c.t i + c.lam i * c.dt i) * r + (c.lam i * c.t i - mSafe c * c.m i) = 0 := r2
    nlinarith
  have zero : 0 ≤ (0 : K) ∧ 0 ≤ s.ap ∧ 0 ≤ c.lam i + 0 * c.dlam i ∧ 0 ≤ c.t i + 0 * c.dt i := by
    refine ⟨le_refl _, h0, ?_, ?_⟩ <;> linarith
  revert hb
  unfold alphaJointM
  simp only
  by_cases hlam : c.lam i + s.ap * c.dlam i < 0
  · have htn : ¬ c.t i + s.ap * c.dt i < 0 := fun h => nb' ⟨hlam, h⟩
    obtain ⟨q1, q2, q3, q4⟩ := ratio_step hl.le h0 hlam
    have htx : 0 ≤ c.t i + (-c.lam i / c.dlam i) * c.dt i := convex_nonneg ht.le (not_lt.mp htn) q2 q3
    simp only [if_pos hlam, if_neg htn]
    rw [q4, zero_mul]
    split_ifs with g1 g2
    · intro hb
      simp only [Bool.or_eq_false_iff, decide_eq_false_iff_not] at hb
      obtain ⟨⟨⟨b1, b2⟩, b3⟩, b4⟩ := hb
      obtain ⟨p1, p2, p3, p4, p5⟩ := quad _ q2 q3 q4.ge htx (by rw [q4, zero_mul]; linarith) g2 b3
      exact ⟨p1, p2, p3, p4, b1, fun _ => by rw [p5]; linarith⟩
    · intro hb
      simp only [Bool.or_eq_false_iff, decide_eq_false_iff_not] at hb
      exact ⟨zero.1, zero.2.1, zero.2.2.1, zero.2.2.2, hb.1, fun hc => by nlinarith⟩
    · intro hb
      simp only [Bool.or_eq_false_iff, decide_eq_false_iff_not] at hb
      exact ⟨q2, q3, q4.ge, htx, hb.1, fun _ => by rw [q4, zero_mul]; linarith⟩
  · by_cases htn : c.t i + s.ap * c.dt i < 0
    · obtain ⟨q1, q2, q3, q4⟩ := ratio_step ht.le h0 htn
      have hlx : 0 ≤ c.lam i + (-c.t i / c.dt i) * c.dlam i := convex_nonneg hl.le (not_lt.mp hlam) q2 q3
      simp only [if_neg hlam, if_pos htn]
      rw [q4, mul_zero]
      split_ifs with g1 g2
      · intro hb
        simp only [Bool.or_eq_false_iff, decide_eq_false_iff_not] at hb
        obtain ⟨⟨⟨b1, b2⟩, b3⟩, b4⟩ := hb
        obtain ⟨p1, p2, p3, p4, p5⟩ := quad _ q2 q3 hlx q4.ge (by rw [q4, mul_zero]; linarith) g2 b3
        exact ⟨p1, p2, p3, p4, b1, fun _ => by rw [p5]; linarith⟩
      · intro hb
        simp only [Bool.or_eq_false_iff, decide_eq_false_iff_not] at hb
        exact ⟨zero.1, zero.2.1, zero.2.2.1, zero.2.2.2, hb.1, fun hc => by nlinarith⟩
      · intro hb
        simp only [Bool.or_eq_false_iff, decide_eq_false_iff_not] at hb
        exact ⟨q2, q3, hlx, q4.ge, hb.1, fun _ => by rw [q4, mul_zero]; linarith⟩
    · simp only [if_neg hlam, if_neg htn]
      split_ifs with g1 g2
      · intro hb
        simp only [Bool.or_eq_false_iff, decide_eq_false_iff_not] at hb
        obtain ⟨⟨b1, b3⟩, b4⟩ := hb
        obtain ⟨p1, p2, p3, p4, p5⟩ := quad _ h0 (le_refl _) (not_lt.mp hlam) (not_lt.mp htn) (by linarith) g2 b3
        exact ⟨p1, p2, p3, p4, b1, fun _ => by rw [p5]; linarith⟩
      · intro hb
        exact ⟨zero.1, zero.2.1, zero.2.2.1, zero.2.2.2, hb, fun hc => by nlinarith⟩
      · intro hb
        exact ⟨h0, le_refl _, not_lt.mp hlam, not_lt.mp htn, hb, fun _ => by linarith⟩

/-- **C13, common step length, nonzero targets.**  If no constraint blocks in both its slack and its multiplier (true of
Newton directions, `not_both_blocking`) and no division by zero occurred (`bad`), the step length is in [0,1], keeps
the iterate in the orthant, and keeps every product that started at or above the safe target `m_safe*m` above it up to
`1e-12`. -/
theorem computeAlpha_joint_target (sq : K → K) (hsq : ∀ d, 0 ≤ d → 0 ≤ sq d ∧ sq d * sq d = d) (c : Core K)
    (hs : c.split_step ≠ 1) (hz : c.m_zero = false) (hl : ∀ i, i < c.nc → 0 < c.lam i) (ht : ∀ i, i < c.nc → 0 < c.t i)
    (hm : ∀ i, i < c.nc → 0 ≤ c.m i) (hnb : ∀ i, i < c.nc → 0 ≤ c.lam i + c.dlam i ∨ 0 ≤ c.t i + c.dt i)
    (hbad : (alphaRaw sq c).bad = false) :
    let r := computeAlpha sq c
    r.alpha_prim = r.alpha_dual ∧ 0 ≤ r.alpha_prim ∧ r.alpha_prim ≤ 1 ∧
      ∀ i, i < c.nc → 0 ≤ c.lam i + r.alpha_prim * c.dlam i ∧ 0 ≤ c.t i + r.alpha_prim * c.dt i ∧
        (mSafe c * c.m i ≤ c.lam i * c.t i →
          mSafe c * c.m i - 1 / 10 ^ 12 ≤ (c.lam i + r.alpha_prim * c.dlam i) * (c.t i + r.alpha_prim * c.dt i)) := by
  have e : alphaRaw sq c = loop c.nc (alphaJointM sq c) ⟨1, 1, false⟩ := by
    simp only [alphaRaw, hz, if_neg hs, Bool.false_eq_true, if_false]
  rw [e] at hbad
  have key : ∀ n, n ≤ c.nc → (loop n (alphaJointM sq c) ⟨1, 1, false⟩).bad = false →
      let a := (loop n (alphaJointM sq c) ⟨1, 1, false⟩).ap
      0 ≤ a ∧ a ≤ 1 ∧ ∀ i, i < n → 0 ≤ c.lam i + a * c.dlam i ∧ 0 ≤ c.t i + a * c.dt i ∧
        (mSafe c * c.m i ≤ c.lam i * c.t i → mSafe c * c.m i - eps12 ≤ (c.lam i + a * c.dlam i) * (c.t i + a * c.dt i)) := by
    intro n
    induction n with
    | zero => intro _ _; exact ⟨zero_le_one, le_refl _, fun i hi => absurd hi (Nat.not_lt_zero _)⟩
    | succ n ih =>
      intro hn hb
      rw [loop_succ] at hb ⊢
      have ih := ih (by omega)
      generalize loop n (alphaJointM sq c) ⟨1, 1, false⟩ = s at ih hb ⊢
      have hsb : s.bad = false := by
        by_contra hne
        have hsb : s.bad = true := by simpa using hne
        have : (alphaJointM sq c n s).bad = true := by
          unfold alphaJointM
          simp only [hsb, Bool.true_or]
          split_ifs <;> simp [hsb]
        rw [this] at hb; cases hb
      obtain ⟨i0, i1, i2⟩ := ih hsb
      obtain ⟨p0, p1, p2, p3, -, p5⟩ := joint_pass sq hsq c n s (hl n (by omega)) (ht n (by omega)) (hm n (by omega)) i0 i1 (hnb n (by omega)) hb
      refine ⟨p0, p1.trans i1, fun i hi => ?_⟩
      rcases Nat.lt_succ_iff_lt_or_eq.mp hi with h' | rfl
      · obtain ⟨q1, q2, q3⟩ := i2 i h'
        have l0 := (hl i (by omega)).le
        have t0 := (ht i (by omega)).le
        exact ⟨convex_nonneg l0 q1 p0 p1, convex_nonneg t0 q2 p0 p1, fun hc => prod_between l0 t0 q1 q2 hc (q3 hc) p0 p1⟩
      · exact ⟨p2, p3, p5⟩
  intro r
  have er : r.alpha_prim = (loop c.nc (alphaJointM sq c) ⟨1, 1, false⟩).ap ∧ r.alpha_dual = (loop c.nc (alphaJointM sq c) ⟨1, 1, false⟩).ap := by
    simp only [r, computeAlpha, e, if_neg hs, and_self]
  obtain ⟨k0, k1, k2⟩ := key c.nc (le_refl _) hbad
  rw [er.1, er.2]
  exact ⟨rfl, k0, k1, k2⟩

/-- no division by zero occurs when no component of the direction vanishes -/
theorem joint_target_good (sq : K → K) (hsq : ∀ d, 0 ≤ d → 0 ≤ sq d ∧ sq d * sq d = d) (c : Core K) (hs : c.split_step ≠ 1)
    (hz : c.m_zero = false) (hl : ∀ i, i < c.nc → 0 < c.lam i) (ht : ∀ i, i < c.nc → 0 < c.t i) (hm : ∀ i, i < c.nc → 0 ≤ c.m i)
    (hnb : ∀ i, i < c.nc → 0 ≤ c.lam i + c.dlam i ∨ 0 ≤ c.t i + c.dt i) (hd : ∀ i, i < c.nc → c.dlam i ≠ 0 ∧ c.dt i ≠ 0) :
    (alphaRaw sq c).bad = false := by
  have heps : (0 : K) < eps12 := by unfold eps12; positivity
  have e : alphaRaw sq c = loop c.nc (alphaJointM sq c) ⟨1, 1, false⟩ := by
    simp only [alphaRaw, hz, if_neg hs, Bool.false_eq_true, if_false]
  rw [e]
  have key : ∀ n, n ≤ c.nc → (loop n (alphaJointM sq c) ⟨1, 1, false⟩).bad = false ∧
      0 ≤ (loop n (alphaJointM sq c) ⟨1, 1, false⟩).ap ∧ (loop n (alphaJointM sq c) ⟨1, 1, false⟩).ap ≤ 1 := by
    intro n
    induction n with
    | zero => intro _; exact ⟨rfl, zero_le_one, le_refl _⟩
    | succ n ih =>
      intro hn
      rw [loop_succ]
      obtain ⟨i0, i1, i2⟩ := ih (by omega)
      generalize loop n (alphaJointM sq c) ⟨1, 1, false⟩ = s at i0 i1 i2 ⊢
      have hb : (alphaJointM sq c n s).bad = false := by
        obtain ⟨d1, d2⟩ := hd n (by omega)
        have hm1 : 0 ≤ mSafe c * c.m n := mul_nonneg (mSafe_range c).1 (hm n (by omega))
        have disc : ∀ x, 0 ≤ x → (c.lam n + x * c.dlam n) * (c.t n + x * c.dt n) < mSafe c * c.m n → 0 < c.lam n * c.t n - mSafe c * c.m n →
            ¬ ((c.dlam n * c.t n + c.lam n * c.dt n) * (c.dlam n * c.t n + c.lam n * c.dt n) -
              4 * (c.dlam n * c.dt n) * (c.lam n * c.t n - mSafe c * c.m n) < 0) := by
          intro x hx hp hcc
          have := (quad_root sq hsq (b := c.dlam n * c.t n + c.lam n * c.dt n) (mul_ne_zero d1 d2) hcc hx (by nlinarith)).1
          exact not_lt.mpr this.le
        unfold alphaJointM
        simp only
        by_cases hlam : c.lam n + s.ap * c.dlam n < 0
        · obtain ⟨q1, q2, q3, q4⟩ := ratio_step (hl n (by omega)).le i1 hlam
          have htn : ¬ c.t n + s.ap * c.dt n < 0 := by
            intro htn
            rcases hnb n (by omega) with h | h
            · have := convex_nonneg (b := s.ap) (hl n (by omega)).le (show 0 ≤ c.lam n + 1 * c.dlam n by rw [one_mul]; exact h) i1 i2; linarith
            · have := convex_nonneg (b := s.ap) (ht n (by omega)).le (show 0 ≤ c.t n + 1 * c.dt n by rw [one_mul]; exact h) i1 i2; linarith
          simp only [if_pos hlam, if_neg htn, i0, d1, decide_false, Bool.or_false]
          rw [q4, zero_mul]
          split_ifs with g1 g2
          · simp only [mul_ne_zero d1 d2, decide_false, Bool.or_false, decide_eq_false_iff_not, Bool.false_or]
            exact disc _ q2 (by rw [q4, zero_mul]; linarith) g2
          · rfl
          · rfl
        · by_cases htn : c.t n + s.ap * c.dt n < 0
          · obtain ⟨q1, q2, q3, q4⟩ := ratio_step (ht n (by omega)).le i1 htn
            simp only [if_neg hlam, if_pos htn, i0, d2, decide_false, Bool.or_false]
            rw [q4, mul_zero]
            split_ifs with g1 g2
            · simp only [mul_ne_zero d1 d2, decide_false, Bool.or_false, decide_eq_false_iff_not, Bool.false_or]
              exact disc _ q2 (by rw [q4, mul_zero]; linarith) g2
            · rfl
            · rfl
          · simp only [if_neg hlam, if_neg htn, i0]
            split_ifs with g1 g2
            · simp only [mul_ne_zero d1 d2, decide_false, Bool.or_false, decide_eq_false_iff_not, Bool.false_or]
              exact disc _ i1 (by linarith) g2
            · rfl
            · exact i0
      obtain ⟨p0, p1, -⟩ := joint_pass sq hsq c n s (hl n (by omega)) (ht n (by omega)) (hm n (by omega)) i1 i2 (hnb n (by omega)) hb
      exact ⟨hb, p0, p1.trans i2⟩
  exact (key c.nc (le_refl _)).1

end

/-! ### examples and boundary -/

/-- a core with a target -/
def exTarget (nc : ℕ) (lam t dlam dt m : Vec ℚ) (split : ℕ) : Core ℚ :=
  { coreMk nc lam t dlam dt split 2 with
    m := m
    m_safe := 1 / 2
    m_zero := false }

/-- the hypotheses of both theorems hold here and the target blocks: without it both steps would be 1/2 -/
example : let c := exTarget 1 (fun _ => 1) (fun _ => 1) (fun _ => -2) (fun _ => 1) (fun _ => 1) 1
    (computeAlpha (fun x => x) c).alpha_dual = 3 / 8 ∧ (computeAlpha (fun x => x) c).alpha_prim = 1 ∧ mSafe c * c.m 0 ≤ c.lam 0 * c.t 0 := by
  decide +kernel

/-- common step length: both components block, the root of `(1-a)^2 = 9/16` is taken (the square root is exact on the
value that occurs) -/
example : let c := exTarget 1 (fun _ => 1) (fun _ => 1) (fun _ => -1) (fun _ => -1) (fun _ => 9 / 8) 0
    let r := computeAlpha (fun x => if x = 9 / 4 then 3 / 2 else 0) c
    (alphaRaw (fun x => if x = 9 / 4 then 3 / 2 else 0) c).bad = false ∧ r.alpha_prim = 1 / 4 ∧
      (c.lam 0 + r.alpha_prim * c.dlam 0) * (c.t 0 + r.alpha_prim * c.dt 0) = mSafe c * c.m 0 := by
  decide +kernel

/-- **Boundary.**  If the iterate starts below its target (`lam*t < m_safe*m`), the separate dual step length can be
negative; the update is then made backwards. -/
theorem computeAlpha_split_negative :
    ∃ c : Core ℚ, c.split_step = 1 ∧ c.m_zero = false ∧ (∀ i, i < c.nc → 0 < c.lam i ∧ 0 < c.t i ∧ 0 ≤ c.m i) ∧
      (computeAlpha (fun x => x) c).alpha_dual < 0 := by
  refine ⟨exTarget 1 (fun _ => 1) (fun _ => 1) (fun _ => -1) (fun _ => 0) (fun _ => 4) 1, by decide, rfl, ?_, by decide +kernel⟩
  intro i _
  exact ⟨one_pos, one_pos, show (0 : ℚ) ≤ 4 by norm_num⟩

/-- **Defect.**  Common step length with a target: a constraint whose slack does not move makes the code divide by zero
(`0.5/a` with `a = dlam*dt = 0`): the step length is NaN. -/
theorem computeAlpha_joint_divides_by_zero :
    ∃ c : Core ℚ, c.split_step ≠ 1 ∧ c.m_zero = false ∧ (∀ i, i < c.nc → 0 < c.lam i ∧ 0 < c.t i ∧ 0 ≤ c.m i ∧
      mSafe c * c.m i < c.lam i * c.t i ∧ 0 ≤ c.t i + c.dt i) ∧ (alphaRaw (fun x => x) c).bad = true := by
  refine ⟨exTarget 1 (fun _ => 1) (fun _ => 1) (fun _ => -1) (fun _ => 0) (fun _ => 1) 0, by decide, rfl, ?_, by decide +kernel⟩
  intro i hi
  obtain rfl : i = 0 := Nat.lt_one_iff.mp hi
  exact ⟨one_pos, one_pos, zero_le_one, by decide +kernel, by decide +kernel⟩

end Hpipm
