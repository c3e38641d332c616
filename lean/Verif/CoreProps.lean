/-
Properties C13-C18 of the interior point core.
-/
import Verif.Core

namespace Hpipm
open Finset

section
variable {K : Type*} [Field K] [LinearOrder K] [IsStrictOrderedRing K]

/-! ### C15, C16: elimination of slack and multiplier steps -/

theorem computeLamT_val (res_d res_m dlam dt : Vec K) (c : Core K) (i : ℕ) :
    (computeLamT res_d res_m dlam dt c).1 i = (if i < c.nc then
      -(c.t_inv i) * (res_m i + c.lam i * dt i - c.lam i * res_d i) else dlam i) ∧
    (computeLamT res_d res_m dlam dt c).2 i = (if i < c.nc then dt i - res_d i else dt i) := by
  revert i
  unfold computeLamT
  refine loop_inv (S := Vec K × Vec K) (fun k s => ∀ i, s.1 i = (if i < k then
      -(c.t_inv i) * (res_m i + c.lam i * dt i - c.lam i * res_d i) else dlam i) ∧
    s.2 i = (if i < k then dt i - res_d i else dt i)) c.nc _ _ (by simp) ?_
  intro k s hk h i
  by_cases hi : i = k
  · subst hi
    simp only [upd_same, Nat.lt_succ_self, if_true]
    rw [(h i).2, if_neg (lt_irrefl i)]
    exact ⟨rfl, rfl⟩
  · simp only [upd_ne _ _ hi, h i]
    have : (i < k + 1) = (i < k) := by apply propext; omega
    simp [this]

/-- **C15.**  Given any value `w` of the linearised constraint slack (what the KKT solver puts into
`dt`), the returned multiplier and slack steps satisfy exactly the linearised complementarity
`lam*dt + t*dlam = -res_m` and the linearised constraint `dt = w - res_d`; entries past the number of
constraints are untouched. -/
theorem computeLamT_linearised (res_d res_m dlam w : Vec K) (c : Core K)
    (hti : ∀ i, i < c.nc → c.t i ≠ 0 ∧ c.t_inv i = 1 / c.t i) :
    let r := computeLamT res_d res_m dlam w c
    (∀ i, i < c.nc → c.lam i * r.2 i + c.t i * r.1 i = - res_m i ∧ r.2 i = w i - res_d i) ∧
    (∀ i, c.nc ≤ i → r.1 i = dlam i ∧ r.2 i = w i) := by
  refine ⟨?_, ?_⟩
  · intro i hi
    obtain ⟨h1, h2⟩ := computeLamT_val res_d res_m dlam w c i
    rw [h1, h2, if_pos hi, if_pos hi]
    obtain ⟨ht, hti⟩ := hti i hi
    rw [hti]
    refine ⟨?_, rfl⟩
    field_simp
    ring
  · intro i hi
    obtain ⟨h1, h2⟩ := computeLamT_val res_d res_m dlam w c i
    rw [h1, h2, if_neg (by omega), if_neg (by omega)]
    exact ⟨rfl, rfl⟩

theorem computeGammaGamma_val (res_d res_m : Vec K) (c : Core K) (h : c.t_lam_min ≠ 1) :
    computeGammaGamma res_d res_m c = { c with
      t_inv := mix c.nc (fun i => 1 / c.t i) c.t_inv
      Gamma := mix c.nc (fun i => 1 / c.t i * c.lam i) c.Gamma
      gamma := mix c.nc (fun i => 1 / c.t i * (res_m i - c.lam i * res_d i)) c.gamma } := by
  unfold computeGammaGamma
  rw [if_neg h]
  refine loop_inv (S := Core K) (fun k s => s = { c with
      t_inv := mix k (fun i => 1 / c.t i) c.t_inv
      Gamma := mix k (fun i => 1 / c.t i * c.lam i) c.Gamma
      gamma := mix k (fun i => 1 / c.t i * (res_m i - c.lam i * res_d i)) c.gamma })
    c.nc _ _ (by simp) ?_
  intro k s hk hs
  subst hs
  simp only [Core.mk.injEq, true_and, and_true]
  exact ⟨upd_mix' _ _ _ _ rfl, upd_mix' _ _ _ _ rfl, upd_mix' _ _ _ _ rfl⟩

/-- **C16.**  The weights `Gamma` and terms `gamma` are those of the exact elimination: for a step `w`
of the constraint slack the multiplier step recovered afterwards is `-(Gamma*w + gamma)`.  So a
multiplier of a constraint with gradient `a` enters the reduced Newton system exactly as the rank one
term `Gamma * a * aᵀ` and the gradient term `gamma * a`. -/
theorem gammaGamma_elimination (res_d res_m dlam w : Vec K) (c : Core K) (h : c.t_lam_min ≠ 1)
    (i : ℕ) (hi : i < c.nc) :
    let c' := computeGammaGamma res_d res_m c
    (computeLamT res_d res_m dlam w c').1 i = -(c'.Gamma i * w i + c'.gamma i) ∧
      c'.t_inv i = 1 / c.t i ∧ c'.lam = c.lam ∧ c'.t = c.t := by
  rw [computeGammaGamma_val _ _ _ h]
  simp only []
  rw [(computeLamT_val res_d res_m dlam w _ i).1]
  simp only [hi, if_true, mix_lt]
  exact ⟨by ring, trivial, trivial, trivial⟩

/-- The corrector recomputes only `gamma`; with the stored `t_inv` the elimination stays exact. -/
theorem gamma_elimination (res_d res_m dlam w : Vec K) (c : Core K)
    (hG : ∀ i, i < c.nc → c.Gamma i = c.t_inv i * c.lam i) (i : ℕ) (hi : i < c.nc) :
    let c' := computeGamma res_d res_m c
    (computeLamT res_d res_m dlam w c').1 i = -(c'.Gamma i * w i + c'.gamma i) := by
  have hval : computeGamma res_d res_m c =
      { c with gamma := mix c.nc (fun i => c.t_inv i * (res_m i - c.lam i * res_d i)) c.gamma } := by
    unfold computeGamma
    refine loop_inv (S := Core K) (fun k s => s =
      { c with gamma := mix k (fun i => c.t_inv i * (res_m i - c.lam i * res_d i)) c.gamma })
      c.nc _ _ (by simp) ?_
    intro k s hk hs
    subst hs
    simp only [Core.mk.injEq, true_and, and_true]
    exact upd_mix' _ _ _ _ rfl
  rw [hval]
  simp only []
  rw [(computeLamT_val res_d res_m dlam w _ i).1]
  simp only [hi, if_true, mix_lt]
  rw [hG i hi]; ring

/-! ### C13: step length -/

theorem convex_nonneg {x d a b : K} (hx : 0 ≤ x) (h : 0 ≤ x + a * d) (hb : 0 ≤ b) (hba : b ≤ a) :
    0 ≤ x + b * d := by
  rcases le_or_gt 0 d with hd | hd
  · have := mul_nonneg hb hd; linarith
  · have : a * d ≤ b * d := mul_le_mul_of_nonpos_right hba hd.le
    linarith

/-- ratio test: what one blocking component does to the step length -/
theorem ratio_step {x d a : K} (hx : 0 ≤ x) (ha0 : 0 ≤ a) (hneg : x + a * d < 0) :
    d < 0 ∧ 0 ≤ -x / d ∧ -x / d ≤ a ∧ x + (-x / d) * d = 0 := by
  have hd : d < 0 := by
    by_contra hd
    have := mul_nonneg ha0 (not_lt.mp hd)
    linarith
  refine ⟨hd, ?_, ?_, ?_⟩
  · rw [neg_div, ← div_neg]; exact div_nonneg hx (by linarith)
  · rw [div_le_iff_of_neg hd]; linarith
  · field_simp [ne_of_lt hd]; ring

/-- specification of a step length for one family: `a` is the largest number in `[0,1]` keeping all
`x i + a * d i`, `i < n`, nonnegative -/
def IsMaxStep (n : ℕ) (x d : ℕ → K) (a : K) : Prop :=
  0 ≤ a ∧ a ≤ 1 ∧ (∀ i, i < n → 0 ≤ x i + a * d i) ∧
    ∀ b, b ≤ 1 → (∀ i, i < n → 0 ≤ x i + b * d i) → b ≤ a

theorem isMaxStep_zero (x d : ℕ → K) : IsMaxStep 0 x d 1 :=
  ⟨zero_le_one, le_refl _, fun i hi => by omega, fun b hb _ => hb⟩

theorem isMaxStep_succ {n : ℕ} {x d : ℕ → K} {a : K} (hx : ∀ i, i < n + 1 → 0 ≤ x i)
    (h : IsMaxStep n x d a) :
    IsMaxStep (n + 1) x d (if x n + a * d n < 0 then -x n / d n else a) := by
  obtain ⟨h0, h1, h2, h3⟩ := h
  split_ifs with hneg
  · obtain ⟨hd, r0, r1, r2⟩ := ratio_step (hx n (by omega)) h0 hneg
    refine ⟨r0, r1.trans h1, ?_, ?_⟩
    · intro i hi
      by_cases hin : i = n
      · subst hin; rw [r2]
      · exact convex_nonneg (hx i hi) (h2 i (by omega)) r0 r1
    · intro b hb hbb
      have := hbb n (by omega)
      rw [le_div_iff_of_neg hd]; linarith
  · refine ⟨h0, h1, ?_, fun b hb hbb => h3 b hb (fun i hi => hbb i (by omega))⟩
    intro i hi
    by_cases hin : i = n
    · subst hin; exact not_lt.mp hneg
    · exact h2 i (by omega)

/-- **C13, separate primal and dual steps** (`split_step == 1`, no complementarity targets).  From
nonnegative slacks and multipliers the primal (dual) step length is the *largest* number in `[0,1]`
that keeps all slacks (multipliers) nonnegative, and no division by zero happens. -/
theorem computeAlpha_split_max (sq : K → K) (c : Core K) (hs : c.split_step = 1) (hm : c.m_zero = true)
    (hlam : ∀ i, i < c.nc → 0 ≤ c.lam i) (ht : ∀ i, i < c.nc → 0 ≤ c.t i) :
    let r := computeAlpha sq c
    IsMaxStep c.nc c.t c.dt r.alpha_prim ∧ IsMaxStep c.nc c.lam c.dlam r.alpha_dual ∧
      (alphaRaw sq c).bad = false := by
  intro r
  have key : ∀ n, n ≤ c.nc → let s := loop n (alphaSplitZ c) ⟨1, 1, false⟩
      IsMaxStep n c.t c.dt s.ap ∧ IsMaxStep n c.lam c.dlam s.ad ∧ s.bad = false := by
    intro n
    induction n with
    | zero => intro _; exact ⟨isMaxStep_zero _ _, isMaxStep_zero _ _, rfl⟩
    | succ n ih =>
      intro hn
      obtain ⟨h1, h2, h3⟩ := ih (by omega)
      rw [loop_succ]
      generalize hsd : loop n (alphaSplitZ c) (⟨1, 1, false⟩ : Alpha K) = s at h1 h2 h3
      have e1 := isMaxStep_succ (fun i hi => ht i (by omega)) h1
      have e2 := isMaxStep_succ (fun i hi => hlam i (by omega)) h2
      have b1 : c.t n + s.ap * c.dt n < 0 → c.dt n ≠ 0 := fun h =>
        ne_of_lt (ratio_step (ht n (by omega)) h1.1 h).1
      have b2 : c.lam n + s.ad * c.dlam n < 0 → c.dlam n ≠ 0 := fun h =>
        ne_of_lt (ratio_step (hlam n (by omega)) h2.1 h).1
      unfold alphaSplitZ
      by_cases g1 : c.lam n + s.ad * c.dlam n < 0 <;> by_cases g2 : c.t n + s.ap * c.dt n < 0 <;>
        simp only [g1, g2, if_true, if_false] at e1 e2 ⊢ <;>
        refine ⟨e1, e2, ?_⟩ <;> simp [h3, b1, b2, g1, g2]
  have hraw : alphaRaw sq c = loop c.nc (alphaSplitZ c) ⟨1, 1, false⟩ := by
    unfold alphaRaw; rw [if_pos hs, if_pos hm]
  have hr : r = { c with alpha_prim := (alphaRaw sq c).ap, alpha_dual := (alphaRaw sq c).ad } := by
    show computeAlpha sq c = _
    unfold computeAlpha; rw [if_pos hs]
  obtain ⟨h1, h2, h3⟩ := key c.nc (le_refl _)
  rw [hr]
  simp only [hraw]
  exact ⟨h1, h2, h3⟩

/-- **C13, one common step** (`split_step != 1`, no targets).  The common step length is the largest
number in `[0,1]` keeping all slacks and multipliers nonnegative, *provided no constraint has both its
slack and its multiplier blocking the unit step*; see `computeAlpha_joint_leaves_orthant` for what
happens otherwise and `not_both_blocking` for why Newton directions satisfy the proviso. -/
theorem computeAlpha_joint_max (sq : K → K) (c : Core K) (hs : c.split_step ≠ 1) (hm : c.m_zero = true)
    (hlam : ∀ i, i < c.nc → 0 ≤ c.lam i) (ht : ∀ i, i < c.nc → 0 ≤ c.t i)
    (hnb : ∀ i, i < c.nc → 0 ≤ c.lam i + c.dlam i ∨ 0 ≤ c.t i + c.dt i) :
    let r := computeAlpha sq c
    r.alpha_prim = r.alpha_dual ∧ 0 ≤ r.alpha_prim ∧ r.alpha_prim ≤ 1 ∧
      (∀ i, i < c.nc → 0 ≤ c.lam i + r.alpha_prim * c.dlam i ∧ 0 ≤ c.t i + r.alpha_prim * c.dt i) ∧
      (∀ b, b ≤ 1 → (∀ i, i < c.nc → 0 ≤ c.lam i + b * c.dlam i ∧ 0 ≤ c.t i + b * c.dt i) →
        b ≤ r.alpha_prim) ∧ (alphaRaw sq c).bad = false := by
  intro r
  have key : ∀ n, n ≤ c.nc → let s := loop n (alphaJointZ c) ⟨1, 1, false⟩
      0 ≤ s.ap ∧ s.ap ≤ 1 ∧
      (∀ i, i < n → 0 ≤ c.lam i + s.ap * c.dlam i ∧ 0 ≤ c.t i + s.ap * c.dt i) ∧
      (∀ b, b ≤ 1 → (∀ i, i < n → 0 ≤ c.lam i + b * c.dlam i ∧ 0 ≤ c.t i + b * c.dt i) → b ≤ s.ap) ∧
      s.bad = false := by
    intro n
    induction n with
    | zero => intro _; exact ⟨zero_le_one, le_refl _, fun i hi => by omega, fun b hb _ => hb, rfl⟩
    | succ n ih =>
      intro hn
      obtain ⟨h1, h2, h3, h4, h5⟩ := ih (by omega)
      rw [loop_succ]
      generalize hsd : loop n (alphaJointZ c) (⟨1, 1, false⟩ : Alpha K) = s at h1 h2 h3 h4 h5
      have hl := hlam n (by omega)
      have htt := ht n (by omega)
      have restrict : ∀ (a : K), 0 ≤ a → a ≤ s.ap → ∀ i, i < n →
          0 ≤ c.lam i + a * c.dlam i ∧ 0 ≤ c.t i + a * c.dt i := fun a ha has i hi =>
        ⟨convex_nonneg (hlam i (by omega)) (h3 i hi).1 ha has,
         convex_nonneg (ht i (by omega)) (h3 i hi).2 ha has⟩
      unfold alphaJointZ
      by_cases g1 : c.lam n + s.ap * c.dlam n < 0
      · obtain ⟨d1, r0, r1, r2⟩ := ratio_step hl h1 g1
        have g2 : ¬ c.t n + s.ap * c.dt n < 0 := by
          intro g2
          rcases hnb n (by omega) with hb | hb
          · have := convex_nonneg (a := 1) (d := c.dlam n) hl (by rw [one_mul]; exact hb) h1 h2; linarith
          · have := convex_nonneg (a := 1) (d := c.dt n) htt (by rw [one_mul]; exact hb) h1 h2; linarith
        simp only [g1, g2, if_true, if_false]
        refine ⟨r0, r1.trans h2, ?_, ?_, ?_⟩
        · intro i hi
          by_cases hin : i = n
          · subst hin; exact ⟨by rw [r2], convex_nonneg htt (not_lt.mp g2) r0 r1⟩
          · exact restrict _ r0 r1 i (by omega)
        · intro b hb hbb
          have := (hbb n (by omega)).1
          rw [le_div_iff_of_neg d1]; linarith
        · simp [h5, ne_of_lt d1]
      · by_cases g2 : c.t n + s.ap * c.dt n < 0
        · obtain ⟨d1, r0, r1, r2⟩ := ratio_step htt h1 g2
          simp only [g1, g2, if_true, if_false]
          refine ⟨r0, r1.trans h2, ?_, ?_, ?_⟩
          · intro i hi
            by_cases hin : i = n
            · subst hin; exact ⟨convex_nonneg hl (not_lt.mp g1) r0 r1, by rw [r2]⟩
            · exact restrict _ r0 r1 i (by omega)
          · intro b hb hbb
            have := (hbb n (by omega)).2
            rw [le_div_iff_of_neg d1]; linarith
          · simp [h5, ne_of_lt d1]
        · simp only [g1, g2, if_false]
          refine ⟨h1, h2, ?_, fun b hb hbb => h4 b hb (fun i hi => hbb i (by omega)), h5⟩
          intro i hi
          by_cases hin : i = n
          · subst hin; exact ⟨not_lt.mp g1, not_lt.mp g2⟩
          · exact h3 i (by omega)
  have hraw : alphaRaw sq c = loop c.nc (alphaJointZ c) ⟨1, 1, false⟩ := by
    unfold alphaRaw; rw [if_neg hs, if_pos hm]
  have hr : r = { c with alpha_prim := (alphaRaw sq c).ap, alpha_dual := (alphaRaw sq c).ap } := by
    show computeAlpha sq c = _
    unfold computeAlpha; rw [if_neg hs]
  obtain ⟨h1, h2, h3, h4, h5⟩ := key c.nc (le_refl _)
  rw [hr]
  simp only [hraw]
  exact ⟨trivial, h1, h2, h3, h4, h5⟩

/-- Directions with exact linearised complementarity and a right hand side of at most twice the
current product never have slack and multiplier of one constraint both blocking.  (Predictor:
`res_m = lam*t`.) -/
theorem not_both_blocking {lam t dlam dt res_m : K} (hl : 0 < lam) (ht : 0 < t)
    (h : lam * dt + t * dlam = -res_m) (hr : res_m ≤ 2 * (lam * t)) :
    0 ≤ lam + dlam ∨ 0 ≤ t + dt := by
  by_contra hc
  push Not at hc
  obtain ⟨h1, h2⟩ := hc
  have e1 : t * (lam + dlam) < 0 := mul_neg_of_pos_of_neg ht h1
  have e2 : lam * (t + dt) < 0 := mul_neg_of_pos_of_neg hl h2
  nlinarith

/-- The Mehrotra corrector right hand side also qualifies: if the affine step solves the linearised
complementarity then `lam*t + dt_aff*dlam_aff - sigma_mu ≤ 2*lam*t`. -/
theorem corrector_rhs_le {lam t dlam dt s : K} (hl : 0 < lam) (ht : 0 < t)
    (h : lam * dt + t * dlam = -(lam * t)) (hs : 0 ≤ s) :
    lam * t + dt * dlam - s ≤ 2 * (lam * t) := by
  have key : dt * dlam ≤ lam * t := by
    have hlt : 0 < lam * t := mul_pos hl ht
    -- with p = lam*dt, q = t*dlam: p + q = -lt, p*q = lt*dt*dlam, and 4pq ≤ (p+q)^2 = lt^2
    have h2 : 0 ≤ (lam * dt - t * dlam) ^ 2 := sq_nonneg _
    have h3 : 4 * ((lam * dt) * (t * dlam)) ≤ (lam * t) ^ 2 := by
      have : (lam * dt + t * dlam) ^ 2 = (lam * t) ^ 2 := by rw [h]; ring
      nlinarith
    have h4 : (lam * t) * (4 * (dt * dlam)) ≤ (lam * t) * (lam * t) := by nlinarith
    have h5 := le_of_mul_le_mul_left h4 hlt
    nlinarith
  linarith

/-- a core workspace with all data at hand (used for the concrete cases below) -/
def coreMk (nc : ℕ) (lam t dlam dt : Vec K) (split tlm : ℕ) : Core K where
  nv := 0
  ne := 0
  nc := nc
  v := fun _ => 0
  pi := fun _ => 0
  lam := lam
  t := t
  v_bkp := fun _ => 0
  pi_bkp := fun _ => 0
  lam_bkp := fun _ => 0
  t_bkp := fun _ => 0
  dv := fun _ => 0
  dpi := fun _ => 0
  dlam := dlam
  dt := dt
  m := fun _ => 0
  res_m := fun _ => 0
  res_m_bkp := fun _ => 0
  t_inv := fun i => 1 / t i
  Gamma := fun _ => 0
  gamma := fun _ => 0
  alpha_prim := 0
  alpha_dual := 0
  sigma := 0
  mu := 0
  mu_aff := 0
  nc_mask_inv := 1
  tau_min := 0
  tau_iter := 0
  lam_min := 0
  t_min := 0
  t_min_inv := 0
  m_safe := 0
  t_lam_min := tlm
  split_step := split
  m_zero := true

/-- concrete case for C13: two constraints, one blocking -/
example : let c : Core ℚ := coreMk 2 (fun _ => 1) (fun _ => 1) (fun i => if i = 0 then -4 else 1) (fun i => if i = 0 then 1 else -2) 1 0
    (computeAlpha id c).alpha_dual = 1 / 4 ∧ (computeAlpha id c).alpha_prim = 1 / 2 := by
  simp [computeAlpha, alphaRaw, coreMk, loop_succ, alphaSplitZ]
  norm_num

/-- **Defect.**  With a common step length the code recomputes the step from the slack without
regard to the shorter step the multiplier of the same constraint allows: the computed step makes a
multiplier negative.  (lam=t=1, dlam=-10, dt=-2: alpha=1/2, lam+alpha*dlam=-4.) -/
theorem computeAlpha_joint_leaves_orthant :
    ∃ c : Core ℚ, c.split_step ≠ 1 ∧ c.m_zero = true ∧ (∀ i, i < c.nc → 0 < c.lam i ∧ 0 < c.t i) ∧
      ∃ i, i < c.nc ∧ c.lam i + (computeAlpha id c).alpha_dual * c.dlam i < 0 := by
  refine ⟨coreMk 1 (fun _ => 1) (fun _ => 1) (fun _ => -10) (fun _ => -2) 0 0, by decide, rfl, ?_, 0,
    by decide, ?_⟩
  · intro i hi; simp [coreMk]
  · simp [computeAlpha, alphaRaw, coreMk, loop_succ, alphaJointZ]
    norm_num

/-- any fraction of an admissible step keeps nonnegativity, a proper fraction keeps positivity -/
theorem fraction_of_step {x d a th : K} (h : 0 ≤ x + a * d) (h0 : 0 ≤ th) (h1 : th ≤ 1) (hx : 0 ≤ x) :
    0 ≤ x + (a * th) * d ∧ (0 < x → th < 1 → 0 < x + (a * th) * d) := by
  have e : x + (a * th) * d = (1 - th) * x + th * (x + a * d) := by ring
  have h2 : 0 ≤ th * (x + a * d) := mul_nonneg h0 h
  refine ⟨?_, fun hx hth => ?_⟩
  · rw [e]; have : 0 ≤ (1 - th) * x := mul_nonneg (by linarith) hx; linarith
  · rw [e]; have : 0 < (1 - th) * x := mul_pos (by linarith) hx; linarith

/-- **C13 (positivity of the step length).** If moreover all slacks are strictly positive the primal
step length is positive. -/
theorem isMaxStep_pos {n : ℕ} {x d : ℕ → K} {a : K} (hx : ∀ i, i < n → 0 < x i) (h : IsMaxStep n x d a) :
    0 < a := by
  obtain ⟨h0, h1, h2, h3⟩ := h
  have : ∀ m, m ≤ n → ∃ b, 0 < b ∧ b ≤ 1 ∧ ∀ i, i < m → 0 ≤ x i + b * d i := by
    intro m
    induction m with
    | zero => intro _; exact ⟨1, zero_lt_one, le_refl _, fun i hi => by omega⟩
    | succ m ih =>
      intro hm
      obtain ⟨b, hb0, hb1, hb⟩ := ih (by omega)
      have hxm := hx m (by omega)
      by_cases hneg : x m + b * d m < 0
      · obtain ⟨hd, r0, r1, r2⟩ := ratio_step hxm.le hb0.le hneg
        have hpos : 0 < -x m / d m := div_pos_of_neg_of_neg (by linarith) hd
        refine ⟨-x m / d m, hpos, r1.trans hb1, ?_⟩
        intro i hi
        by_cases hin : i = m
        · subst hin; rw [r2]
        · exact convex_nonneg (hx i (by omega)).le (hb i (by omega)) r0 r1
      · refine ⟨b, hb0, hb1, ?_⟩
        intro i hi
        by_cases hin : i = m
        · subst hin; exact not_lt.mp hneg
        · exact hb i (by omega)
  obtain ⟨b, hb0, hb1, hb⟩ := this n (le_refl _)
  exact lt_of_lt_of_le hb0 (h3 b hb1 hb)

/-! ### C14: update of the iterate -/

/-- **C17** (backup): taking a backup copies the whole current iterate into the backup iterate and changes
nothing else. -/
theorem backupVar_val (c : Core K) :
    backupVar c = { c with
      v_bkp := mix c.nv c.v c.v_bkp
      pi_bkp := mix c.ne c.pi c.pi_bkp
      lam_bkp := mix c.nc c.lam c.lam_bkp
      t_bkp := mix c.nc c.t c.t_bkp } := by
  have l1 : ∀ (c : Core K) n, loop n (fun ii (s : Core K) => { s with v_bkp := upd s.v_bkp ii (s.v ii) }) c =
      { c with v_bkp := mix n c.v c.v_bkp } := by
    intro c n; induction n with
    | zero => simp
    | succ n ih => rw [loop_succ, ih]; simp only [upd_mix]
  have l2 : ∀ (c : Core K) n, loop n (fun ii (s : Core K) => { s with pi_bkp := upd s.pi_bkp ii (s.pi ii) }) c =
      { c with pi_bkp := mix n c.pi c.pi_bkp } := by
    intro c n; induction n with
    | zero => simp
    | succ n ih => rw [loop_succ, ih]; simp only [upd_mix]
  have l3 : ∀ (c : Core K) n, loop n (fun ii (s : Core K) => { s with lam_bkp := upd s.lam_bkp ii (s.lam ii) }) c =
      { c with lam_bkp := mix n c.lam c.lam_bkp } := by
    intro c n; induction n with
    | zero => simp
    | succ n ih => rw [loop_succ, ih]; simp only [upd_mix]
  have l4 : ∀ (c : Core K) n, loop n (fun ii (s : Core K) => { s with t_bkp := upd s.t_bkp ii (s.t ii) }) c =
      { c with t_bkp := mix n c.t c.t_bkp } := by
    intro c n; induction n with
    | zero => simp
    | succ n ih => rw [loop_succ, ih]; simp only [upd_mix]
  unfold backupVar
  simp only [l1, l2, l3, l4]

/-- all fields after UPDATE_VAR_QP -/
theorem updateVar_val (c : Core K) :
    let a := shortStep c
    let c' := updateVar c
    (∀ i, c'.v i = if i < c.nv then c.v i + a.1 * c.dv i else c.v i) ∧
    (∀ i, c'.pi i = if i < c.ne then c.pi i + a.2 * c.dpi i else c.pi i) ∧
    (∀ i, c'.lam i = if i < c.nc then
      (if c.t_lam_min = 2 ∧ c.lam i + a.2 * c.dlam i ≤ c.lam_min then c.lam_min
        else c.lam i + a.2 * c.dlam i) else c.lam i) ∧
    (∀ i, c'.t i = if i < c.nc then
      (if c.t_lam_min = 2 ∧ c.t i + a.1 * c.dt i ≤ c.t_min then c.t_min
        else c.t i + a.1 * c.dt i) else c.t i) ∧
    (∀ i, i < c.nv → c'.v_bkp i = c.v i) ∧ (∀ i, i < c.ne → c'.pi_bkp i = c.pi i) ∧
    (∀ i, i < c.nc → c'.lam_bkp i = c.lam i ∧ c'.t_bkp i = c.t i) ∧
    c'.nc = c.nc ∧ c'.dlam = c.dlam ∧ c'.dt = c.dt ∧ c'.res_m = c.res_m ∧ c'.m = c.m := by
  intro a
  have l1 : ∀ n, loop n (fun ii (s : Core K) => { s with
        v_bkp := upd s.v_bkp ii (s.v ii)
        v := upd s.v ii (s.v ii + a.1 * s.dv ii) }) c =
      { c with v_bkp := mix n c.v c.v_bkp, v := mix n (fun i => c.v i + a.1 * c.dv i) c.v } := by
    intro n
    induction n with
    | zero => simp
    | succ n ih =>
      rw [loop_succ, ih]
      simp only [mix_self, Core.mk.injEq, true_and, and_true]
      exact ⟨upd_mix' _ _ _ _ rfl, upd_mix' _ _ _ _ rfl⟩
  have l2 : ∀ (c1 : Core K) n, loop n (fun ii (s : Core K) => { s with
        pi_bkp := upd s.pi_bkp ii (s.pi ii)
        pi := upd s.pi ii (s.pi ii + a.2 * s.dpi ii) }) c1 =
      { c1 with pi_bkp := mix n c1.pi c1.pi_bkp, pi := mix n (fun i => c1.pi i + a.2 * c1.dpi i) c1.pi } := by
    intro c1 n
    induction n with
    | zero => simp
    | succ n ih =>
      rw [loop_succ, ih]
      simp only [mix_self, Core.mk.injEq, true_and, and_true]
      exact ⟨upd_mix' _ _ _ _ rfl, upd_mix' _ _ _ _ rfl⟩
  have l3 : ∀ (f : K → K) (c1 : Core K) n, loop n (fun ii (s : Core K) => { s with
        lam_bkp := upd s.lam_bkp ii (s.lam ii)
        lam := upd s.lam ii (f (s.lam ii + a.2 * s.dlam ii)) }) c1 =
      { c1 with lam_bkp := mix n c1.lam c1.lam_bkp,
                lam := mix n (fun i => f (c1.lam i + a.2 * c1.dlam i)) c1.lam } := by
    intro f c1 n
    induction n with
    | zero => simp
    | succ n ih =>
      rw [loop_succ, ih]
      simp only [mix_self, Core.mk.injEq, true_and, and_true]
      exact ⟨upd_mix' _ (fun i => f (c1.lam i + a.2 * c1.dlam i)) _ _ rfl, upd_mix' _ _ _ _ rfl⟩
  have l4 : ∀ (f : K → K) (c1 : Core K) n, loop n (fun ii (s : Core K) => { s with
        t_bkp := upd s.t_bkp ii (s.t ii)
        t := upd s.t ii (f (s.t ii + a.1 * s.dt ii)) }) c1 =
      { c1 with t_bkp := mix n c1.t c1.t_bkp,
                t := mix n (fun i => f (c1.t i + a.1 * c1.dt i)) c1.t } := by
    intro f c1 n
    induction n with
    | zero => simp
    | succ n ih =>
      rw [loop_succ, ih]
      simp only [mix_self, Core.mk.injEq, true_and, and_true]
      exact ⟨upd_mix' _ (fun i => f (c1.t i + a.1 * c1.dt i)) _ _ rfl, upd_mix' _ _ _ _ rfl⟩
  intro c'
  have hc' : c' = updateVar c := rfl
  unfold updateVar at hc'
  by_cases h2 : c.t_lam_min = 2
  · rw [if_pos h2] at hc'
    simp only [] at hc'
    rw [l1, l2] at hc'
    rw [l3 (fun x => if x ≤ c.lam_min then c.lam_min else x),
      l4 (fun x => if x ≤ c.t_min then c.t_min else x)] at hc'
    rw [hc']
    simp only [h2, true_and, mix]
    simp only [implies_true, true_and, and_true]
    refine ⟨?_, ?_, ?_⟩
    · intro i hi; exact if_pos hi
    · intro i hi; exact if_pos hi
    · intro i hi; exact ⟨if_pos hi, if_pos hi⟩
  · rw [if_neg h2] at hc'
    simp only [] at hc'
    rw [l1, l2] at hc'
    rw [l3 (fun x => x), l4 (fun x => x)] at hc'
    rw [hc']
    simp only [h2, false_and, if_false, mix]
    simp only [implies_true, true_and, and_true]
    refine ⟨?_, ?_, ?_⟩
    · intro i hi; exact if_pos hi
    · intro i hi; exact if_pos hi
    · intro i hi; exact ⟨if_pos hi, if_pos hi⟩

/-- the shortening factor lies in `[0.99, 0.9999999]` -/
theorem short_factor {a : K} (h0 : 0 ≤ a) (h1 : a ≤ 1) :
    0 ≤ (1 - a) * (99 / 100) + a * (9999999 / 10000000) ∧
    (1 - a) * (99 / 100) + a * (9999999 / 10000000) < 1 := by
  have e1 : (0 : K) ≤ (1 - a) * (99 / 100) := mul_nonneg (by linarith) (by norm_num)
  have e2 : (0 : K) ≤ a * (9999999 / 10000000) := mul_nonneg h0 (by norm_num)
  refine ⟨by linarith, ?_⟩
  have : (99 / 100 : K) < 1 := by norm_num
  have : (9999999 / 10000000 : K) < 1 := by norm_num
  nlinarith

/-- **C14.**  The update by admissible step lengths: slacks and multipliers stay nonnegative; they
stay *strictly* positive unless both step lengths are exactly 1; with clipping they end up at least at
the thresholds; the previous iterate is kept in the backup. -/
theorem updateVar_positive (c : Core K) (hlam : ∀ i, i < c.nc → 0 ≤ c.lam i)
    (ht : ∀ i, i < c.nc → 0 ≤ c.t i)
    (hap : 0 ≤ c.alpha_prim ∧ c.alpha_prim ≤ 1) (had : 0 ≤ c.alpha_dual ∧ c.alpha_dual ≤ 1)
    (hsl : ∀ i, i < c.nc → 0 ≤ c.lam i + c.alpha_dual * c.dlam i)
    (hst : ∀ i, i < c.nc → 0 ≤ c.t i + c.alpha_prim * c.dt i)
    (hmin : 0 ≤ c.lam_min ∧ 0 ≤ c.t_min) (i : ℕ) (hi : i < c.nc) :
    let c' := updateVar c
    0 ≤ c'.lam i ∧ 0 ≤ c'.t i ∧
    ((c.alpha_prim < 1 ∨ c.alpha_dual < 1) →
      (0 < c.lam i → 0 < c'.lam i) ∧ (0 < c.t i → 0 < c'.t i)) ∧
    (c.t_lam_min = 2 → c.lam_min ≤ c'.lam i ∧ c.t_min ≤ c'.t i) ∧
    c'.lam_bkp i = c.lam i ∧ c'.t_bkp i = c.t i := by
  intro c'
  obtain ⟨_, _, hl', ht', _, _, hb, _⟩ := updateVar_val c
  have hl'' := hl' i
  have ht'' := ht' i
  rw [if_pos hi] at hl'' ht''
  have hraw : (0 ≤ c.lam i + (shortStep c).2 * c.dlam i ∧ 0 ≤ c.t i + (shortStep c).1 * c.dt i) ∧
      ((c.alpha_prim < 1 ∨ c.alpha_dual < 1) →
        (0 < c.lam i → 0 < c.lam i + (shortStep c).2 * c.dlam i) ∧
        (0 < c.t i → 0 < c.t i + (shortStep c).1 * c.dt i)) := by
    unfold shortStep
    by_cases hlt : (if c.alpha_prim < c.alpha_dual then c.alpha_prim else c.alpha_dual) < 1
    · simp only [hlt, if_true]
      obtain ⟨p0, p1⟩ := short_factor hap.1 hap.2
      obtain ⟨d0, d1⟩ := short_factor had.1 had.2
      have A := fraction_of_step (hsl i hi) d0 d1.le (hlam i hi)
      have B := fraction_of_step (hst i hi) p0 p1.le (ht i hi)
      exact ⟨⟨A.1, B.1⟩, fun _ => ⟨fun h => A.2 h d1, fun h => B.2 h p1⟩⟩
    · simp only [hlt, if_false]
      refine ⟨⟨hsl i hi, hst i hi⟩, ?_⟩
      intro hor
      exfalso
      apply hlt
      split_ifs with h <;> rcases hor with h' | h' <;> linarith
  obtain ⟨⟨n1, n2⟩, strict⟩ := hraw
  refine ⟨?_, ?_, ?_, ?_, (hb i hi).1, (hb i hi).2⟩
  · show 0 ≤ (updateVar c).lam i
    rw [hl'']; split_ifs; exacts [hmin.1, n1]
  · show 0 ≤ (updateVar c).t i
    rw [ht'']; split_ifs; exacts [hmin.2, n2]
  · intro hor
    obtain ⟨s1, s2⟩ := strict hor
    refine ⟨fun h => ?_, fun h => ?_⟩
    · show 0 < (updateVar c).lam i
      rw [hl'']; split_ifs with hh
      · exact lt_of_lt_of_le (s1 h) hh.2
      · exact s1 h
    · show 0 < (updateVar c).t i
      rw [ht'']; split_ifs with hh
      · exact lt_of_lt_of_le (s2 h) hh.2
      · exact s2 h
  · intro h2
    refine ⟨?_, ?_⟩
    · show c.lam_min ≤ (updateVar c).lam i
      rw [hl'']; split_ifs with hh
      · exact le_refl _
      · have := fun h => hh ⟨h2, h⟩; exact (not_le.mp this).le
    · show c.t_min ≤ (updateVar c).t i
      rw [ht'']; split_ifs with hh
      · exact le_refl _
      · have := fun h => hh ⟨h2, h⟩; exact (not_le.mp this).le

/-- **C13 + C14 composed.**  Step length computation followed by the update, from strictly positive
slacks and multipliers, separate step lengths. -/
theorem alpha_update_positive (sq : K → K) (c : Core K) (hs : c.split_step = 1) (hm : c.m_zero = true)
    (hlam : ∀ i, i < c.nc → 0 < c.lam i) (ht : ∀ i, i < c.nc → 0 < c.t i)
    (hmin : 0 < c.lam_min ∧ 0 < c.t_min) (hclip : c.t_lam_min = 2) (i : ℕ) (hi : i < c.nc) :
    let c' := updateVar (computeAlpha sq c)
    0 < c'.lam i ∧ 0 < c'.t i := by
  obtain ⟨hp, hd, _⟩ := computeAlpha_split_max sq c hs hm (fun i hi => (hlam i hi).le)
    (fun i hi => (ht i hi).le)
  have hcore : computeAlpha sq c = { c with alpha_prim := (alphaRaw sq c).ap, alpha_dual := (alphaRaw sq c).ad } := by
    unfold computeAlpha; rw [if_pos hs]
  rw [hcore] at hp hd ⊢
  obtain ⟨_, _, _, h4, _⟩ := updateVar_positive { c with alpha_prim := (alphaRaw sq c).ap, alpha_dual := (alphaRaw sq c).ad }
    (fun i hi => (hlam i hi).le) (fun i hi => (ht i hi).le) ⟨hp.1, hp.2.1⟩ ⟨hd.1, hd.2.1⟩ hd.2.2.1 hp.2.2.1
    ⟨hmin.1.le, hmin.2.le⟩ i hi
  obtain ⟨h5, h6⟩ := h4 hclip
  exact ⟨lt_of_lt_of_le hmin.1 h5, lt_of_lt_of_le hmin.2 h6⟩

/-- Without clipping, a full step that exactly hits the boundary leaves a zero slack (division by
zero in the next iteration). -/
theorem updateVar_can_reach_zero :
    ∃ c : Core ℚ, c.split_step = 1 ∧ c.m_zero = true ∧ c.t_lam_min ≠ 2 ∧
      (∀ i, i < c.nc → 0 < c.lam i ∧ 0 < c.t i) ∧ (updateVar (computeAlpha id c)).t 0 = 0 := by
  refine ⟨coreMk 1 (fun _ => 1) (fun _ => 1) (fun _ => 0) (fun _ => -1) 1 0, rfl, rfl, by decide, ?_, ?_⟩
  · intro i hi; simp [coreMk]
  · have : ¬ ((1 : ℚ) < 0) := by norm_num
    simp [computeAlpha, alphaRaw, coreMk, loop_succ, alphaSplitZ, updateVar, shortStep, upd, this]

/-- concrete case for C14 -/
example : let c : Core ℚ := coreMk 1 (fun _ => 1) (fun _ => 1) (fun _ => -2) (fun _ => 1) 1 2
    (computeAlpha id c).alpha_dual = 1 / 2 ∧ 0 < (updateVar (computeAlpha id c)).lam 0 := by
  simp [computeAlpha, alphaRaw, coreMk, loop_succ, alphaSplitZ, updateVar, shortStep, upd]
  norm_num

/-! ### C17, C18 -/

/-- **C17.**  The predicted complementarity is the average (over the non-masked constraints) of the
absolute deviation from the target of the product of multiplier and slack at the trial point. -/
theorem computeMuAff_eq (c : Core K) :
    (computeMuAff c).mu_aff = (∑ i ∈ range c.nc,
      |(c.lam i + c.alpha_dual * c.dlam i) * (c.t i + c.alpha_prim * c.dt i) - c.m i|) * c.nc_mask_inv := by
  unfold computeMuAff
  simp only
  congr 1
  refine loop_inv (S := K) (fun k mu => mu = ∑ i ∈ range k,
      |(c.lam i + c.alpha_dual * c.dlam i) * (c.t i + c.alpha_prim * c.dt i) - c.m i|) c.nc _ _ (by simp) ?_
  intro k mu hk h
  rw [h, sum_range_succ]
  congr 2
  ring

/-- With zero targets and admissible step lengths it is the average of the products, and nonnegative. -/
theorem computeMuAff_avg (c : Core K) (hm : ∀ i, i < c.nc → c.m i = 0) (hinv : 0 ≤ c.nc_mask_inv)
    (hl : ∀ i, i < c.nc → 0 ≤ c.lam i + c.alpha_dual * c.dlam i)
    (ht : ∀ i, i < c.nc → 0 ≤ c.t i + c.alpha_prim * c.dt i) :
    (computeMuAff c).mu_aff = (∑ i ∈ range c.nc,
      (c.lam i + c.alpha_dual * c.dlam i) * (c.t i + c.alpha_prim * c.dt i)) * c.nc_mask_inv ∧
    0 ≤ (computeMuAff c).mu_aff := by
  have e : (computeMuAff c).mu_aff = (∑ i ∈ range c.nc,
      (c.lam i + c.alpha_dual * c.dlam i) * (c.t i + c.alpha_prim * c.dt i)) * c.nc_mask_inv := by
    rw [computeMuAff_eq]
    congr 1
    apply sum_congr rfl
    intro i hi
    have hi := mem_range.mp hi
    rw [hm i hi, sub_zero, abs_of_nonneg (mul_nonneg (hl i hi) (ht i hi))]
  refine ⟨e, ?_⟩
  rw [e]
  exact mul_nonneg (sum_nonneg fun i hi => mul_nonneg (hl i (mem_range.mp hi)) (ht i (mem_range.mp hi))) hinv

theorem loop_res_m (f : ℕ → Core K → K) (c : Core K)
    (hf : ∀ i (r : Vec K), f i { c with res_m := r } = f i c) (n : ℕ) :
    loop n (fun ii (s : Core K) => { s with res_m := upd s.res_m ii (f ii s) }) c =
      { c with res_m := mix n (fun i => f i c) c.res_m } := by
  induction n with
  | zero => simp
  | succ n ih =>
    rw [loop_succ, ih]
    simp only [hf]
    rw [upd_mix' _ _ _ _ rfl]

/-- **C18.**  Corrector right hand side: stored complementarity residual plus second order term minus
the centering target, where the target is `max(sigma*mu, tau_min)`. -/
theorem centeringCorrection_eq (c : Core K) :
    let c' := computeCenteringCorrection c
    (∀ i, i < c.nc → c'.res_m i = c.res_m_bkp i + c.dt i * c.dlam i - max (c.sigma * c.mu) c.tau_min) ∧
    c'.tau_iter = max (c.sigma * c.mu) c.tau_min ∧ c.tau_min ≤ c'.tau_iter ∧
    c'.res_m_bkp = c.res_m_bkp := by
  have hs : sigmaMu c = max (c.sigma * c.mu) c.tau_min := by
    unfold sigmaMu
    simp only [gt_iff_lt]
    split_ifs with h
    · exact (max_eq_left h.le).symm
    · exact (max_eq_right (not_lt.mp h)).symm
  unfold computeCenteringCorrection
  rw [loop_res_m (fun ii (s : Core K) => s.res_m_bkp ii + s.dt ii * s.dlam ii - sigmaMu c) _ (by intros; rfl)]
  simp only [hs]
  refine ⟨fun i hi => by rw [mix_lt _ _ hi], trivial, le_max_right _ _, trivial⟩

/-- **C18.** Right hand side with centering only. -/
theorem centering_eq (c : Core K) :
    let c' := computeCentering c
    (∀ i, i < c.nc → c'.res_m i = c.res_m_bkp i - max (c.sigma * c.mu) c.tau_min) ∧
    c.tau_min ≤ c'.tau_iter := by
  have hs : sigmaMu c = max (c.sigma * c.mu) c.tau_min := by
    unfold sigmaMu
    simp only [gt_iff_lt]
    split_ifs with h
    · exact (max_eq_left h.le).symm
    · exact (max_eq_right (not_lt.mp h)).symm
  unfold computeCentering
  rw [loop_res_m (fun ii (s : Core K) => s.res_m_bkp ii - sigmaMu c) _ (by intros; rfl)]
  simp only [hs]
  exact ⟨fun i hi => by rw [mix_lt _ _ hi], le_max_right _ _⟩

/-- **C18.** Predictor right hand side for a minimum barrier parameter. -/
theorem tauMin_eq (c : Core K) (i : ℕ) (hi : i < c.nc) :
    (computeTauMin c).res_m i = c.res_m_bkp i - c.tau_min := by
  unfold computeTauMin
  rw [loop_res_m (fun ii (s : Core K) => s.res_m_bkp ii - c.tau_min) _ (by intros; rfl)]
  simp [hi, mix_lt]

/-- the linearised equations with the corrector right hand side aim at the target up to the change of
the second order term: at the end of the step the product is `target + (dt*dlam - dt_aff*dlam_aff)` -/
theorem corrector_target {lam t dlam dt daff taff tau : K}
    (h : lam * dt + t * dlam = -(lam * t + taff * daff - tau)) :
    (lam + dlam) * (t + dt) = tau + (dt * dlam - taff * daff) := by linear_combination h

example : (computeCenteringCorrection ({ coreMk 1 (fun _ => (2 : ℚ)) (fun _ => 1) (fun _ => -2) (fun _ => 1) 1 2
    with sigma := 1/2, mu := 3, tau_min := 1, res_m_bkp := fun _ => 2 })).res_m 0 = 2 + 1 * (-2) - 3/2 := by
  rw [(centeringCorrection_eq _).1 0 (by decide)]
  simp [coreMk]; norm_num

end
end Hpipm
