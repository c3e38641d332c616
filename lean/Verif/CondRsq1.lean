/-
Condensing of the cost, second algorithm (`cond_alg = 1`, cost cubic in the horizon): the Hessian and the gradient row are
accumulated stage by stage.  The gradient vector handed out is the gradient row without its first `nu[N]` entries.
-/
import Verif.CondRsq

namespace Hpipm
open Finset
set_option linter.unusedSectionVars false

section
variable {K : Type*} [Field K] [LinearOrder K] [IsStrictOrderedRing K]

/-- a quadratic function of an affine function -/
theorem quad_affine (n m : ℕ) (B P : Mat K) (hP : ∀ i j, P i j = P j i) (p b z : Vec K) :
    1 / 2 * (∑ r ∈ range n, ∑ c ∈ range n, (∑ i ∈ range m, ∑ j ∈ range m, B r i * P i j * B c j) * z r * z c)
    + (∑ c ∈ range n, (∑ j ∈ range m, ((∑ i ∈ range m, b i * P i j) + p j) * B c j) * z c)
    + (1 / 2 * (∑ i ∈ range m, ∑ j ∈ range m, P i j * b i * b j) + ∑ j ∈ range m, p j * b j)
    = 1 / 2 * (∑ i ∈ range m, ∑ j ∈ range m,
        P i j * ((∑ r ∈ range n, B r i * z r) + b i) * ((∑ r ∈ range n, B r j * z r) + b j))
      + ∑ j ∈ range m, p j * ((∑ r ∈ range n, B r j * z r) + b j) := by
  rw [quad_pull, quad_shift m P hP (fun i => ∑ r ∈ range n, B r i * z r) b]
  have e1 : ∑ c ∈ range n, (∑ j ∈ range m, ((∑ i ∈ range m, b i * P i j) + p j) * B c j) * z c
      = (∑ j ∈ range m, (∑ i ∈ range m, b i * P i j) * ∑ r ∈ range n, B r j * z r)
        + ∑ j ∈ range m, p j * ∑ r ∈ range n, B r j * z r := by
    rw [← sum_add_distrib]
    have : ∀ c ∈ range n, (∑ j ∈ range m, ((∑ i ∈ range m, b i * P i j) + p j) * B c j) * z c
        = ∑ j ∈ range m, ((∑ i ∈ range m, b i * P i j) + p j) * (B c j * z c) := fun c _ => by
      rw [sum_mul]; exact sum_congr rfl fun j _ => by ring
    rw [sum_congr rfl this, sum_comm]
    refine sum_congr rfl fun j _ => ?_
    rw [← mul_sum]; ring
  have e2 : ∑ j ∈ range m, p j * ((∑ r ∈ range n, B r j * z r) + b j)
      = (∑ j ∈ range m, p j * ∑ r ∈ range n, B r j * z r) + ∑ j ∈ range m, p j * b j := by
    rw [← sum_add_distrib]; exact sum_congr rfl fun j _ => by ring
  rw [e1, e2]; ring

/-- the stage cost as a matrix with the gradient in the last row -/
def costMat (qp : OcpQp K) (k : ℕ) : Mat K := fun r c =>
  if r = qp.dim.nu k + qp.dim.nx k then qp.rqz k c else qp.RSQrq k r c

theorem costMat_end (qp : OcpQp K) (k : ℕ) : CostEnd qp (costMat qp) k := by
  constructor
  · intro r c hr hc; unfold costMat; rw [if_neg (by omega)]
  · intro c hc; unfold costMat; rw [if_pos rfl]

/-- when a stage is declared diagonal, its off-diagonal Hessian entries are zero -/
def DiagOk (qp : OcpQp K) (k : ℕ) : Prop :=
  qp.diag_H_flag k ≠ 0 → (∀ i j, i < qp.dim.nx k → j < i → qp.RSQrq k (qp.dim.nu k + i) (qp.dim.nu k + j) = 0)
    ∧ (∀ i j, i < qp.dim.nx k → j < qp.dim.nu k → qp.RSQrq k (qp.dim.nu k + i) j = 0)

/-- invariant of the second algorithm after stage `k` -/
structure Rsq1Inv (qp : OcpQp K) (N : ℕ) (k : ℕ) (s : Rsq1St K) : Prop where
  nub : s.nub = later qp.dim.nu N k
  nuf : s.nuf = sumTo qp.dim.nu (k + 1)
  data : ∀ l r c, r < qp.dim.nu l + qp.dim.nx l → c ≤ r → s.RSQrq l r c = qp.RSQrq l r c
  fresh : ∀ l, k < l → s.RSQrq l = qp.RSQrq l
  zero : ∀ r c, r ≤ nuAll qp.dim N + qp.dim.nx 0 → c < s.nub → s.H r c = 0
  cost : ∃ c : K, ∀ v, ∑ l ∈ range (k + 1), stageCost qp l (uxOf qp N v l) = hTail qp N s.H v k + c
  grad : 0 < k → ∀ i, s.g i = if i < sumTo qp.dim.nu k + qp.dim.nx 0 then
    s.H (nuAll qp.dim N + qp.dim.nx 0) (later qp.dim.nu N (k - 1) + i) else s.g i

theorem rsq1_first (qp : OcpQp K) (N : ℕ) (Gamma : ℕ → Mat K) (s : Rsq1St K) (hR : s.RSQrq = qp.RSQrq)
    (hz : ∀ r c, r ≤ nuAll qp.dim N + qp.dim.nx 0 → c < nuAll qp.dim N + qp.dim.nx 0 → s.H r c = 0)
    (hnub : s.nub = nuAll qp.dim N) (hnuf : s.nuf = 0) :
    Rsq1Inv qp N 0 (rsq1Step qp.dim Gamma qp.rqz qp.diag_H_flag (nuAll qp.dim N) 0 s) := by
  have e : sumTo qp.dim.nu (0 + 1) = qp.dim.nu 0 := by rw [sumTo_succ]; simp [sumTo]
  have e2 : later qp.dim.nu N 0 + qp.dim.nu 0 = nuAll qp.dim N := by
    have := later_add_sumTo qp.dim.nu (N := N) (k := 0) (by omega)
    rw [e, sumTo_eq] at this; exact this
  unfold rsq1Step
  rw [if_pos rfl]
  have enub : s.nub - qp.dim.nu 0 = later qp.dim.nu N 0 := by omega
  refine ⟨enub, by rw [e]; show s.nuf + _ = _; omega, fun l r c _ _ => by rw [hR], fun l _ => by rw [hR], ?_, ?_, fun h => by omega⟩
  · intro r c hr hc
    dsimp only at hc ⊢
    unfold rowad
    rw [if_neg (by omega), trcp_out (by omega)]
    exact hz r c hr (by omega)
  · refine ⟨0, fun v => ?_⟩
    rw [sum_range_one, add_zero, ← costEnd_val (costMat_end qp 0)]
    unfold hTail wAll
    rw [e]
    have ev : ∀ i, uxOf qp N v 0 i = v (later qp.dim.nu N 0 + i) := by
      intro i
      unfold uxOf
      by_cases h : i < qp.dim.nu 0
      · rw [if_pos h]
      · rw [if_neg h]; show v (nuAll qp.dim N + (i - qp.dim.nu 0)) = _; rw [← e2]; congr 1; omega
    dsimp only
    congr 1
    · refine quadL_congr (fun i j hi hj => ?_) (fun i _ => ev i)
      rw [enub, rowad_ne (by omega), trcp_in (by omega) (by omega) (by omega) (by omega) (by omega), hR]
      unfold costMat
      rw [if_neg (by omega)]
      congr 1 <;> omega
    · refine sum_congr rfl fun c hc => ?_
      have := mem_range.mp hc
      rw [ev, enub, rowad_in (by omega) (by omega), trcp_out (by omega), hz _ _ (by omega) (by omega), zero_add, one_mul]
      unfold costMat
      rw [if_pos rfl]
      congr 2; omega

theorem rsq1_step (qp : OcpQp K) (N n k : ℕ) (Gamma : ℕ → Mat K) (Gammab : ℕ → Vec K) (s : Rsq1St K) (hk : k < N) (hn : N ≤ n)
    (hn' : n ≤ N + 1)
    (hd : DynRec qp n Gamma Gammab) (hrow : DynRow qp n Gamma Gammab) (hdiag : DiagOk qp (k + 1)) (h : Rsq1Inv qp N k s) :
    Rsq1Inv qp N (k + 1) (rsq1Step qp.dim Gamma qp.rqz qp.diag_H_flag (nuAll qp.dim N) (k + 1) s) := by
  set nu := qp.dim.nu (k + 1) with hnu
  set nx := qp.dim.nx (k + 1) with hnx
  set q := sumTo qp.dim.nu (k + 1) + qp.dim.nx 0 with hq
  have el : later qp.dim.nu N k = nu + later qp.dim.nu N (k + 1) := later_succ _ hk
  have ea : later qp.dim.nu N k + sumTo qp.dim.nu (k + 1) = nuAll qp.dim N := by
    rw [later_add_sumTo _ (by omega), sumTo_eq]; rfl
  set o := later qp.dim.nu N (k + 1) with ho
  have hnub' : s.nub - nu = o := by rw [h.nub, el]; omega
  have hq' : s.nuf + qp.dim.nx 0 = q := by rw [h.nuf]
  have hRS : s.RSQrq (k + 1) = qp.RSQrq (k + 1) := h.fresh (k + 1) (by omega)
  set P : Mat K := symL (qp.RSQrq (k + 1)) nu nu with hP
  -- the part depending on the diagonal flag
  set s1 : Rsq1St K :=
      if qp.diag_H_flag (k + 1) ≠ 0 then
        { s with tmp := diaex nx 1 (s.RSQrq (k + 1)) nu nu s.tmp 0,
                 GammaQ := gemm_nd (s.nuf + qp.dim.nx 0 + 1) nx 1 (Gamma k) 0 0 (diaex nx 1 (s.RSQrq (k + 1)) nu nu s.tmp 0) 0 0
                   s.GammaQ 0 0 s.GammaQ 0 0 }
      else
        { s with RSQrq := upd s.RSQrq (k + 1) (trtr_l (nu + nx) (s.RSQrq (k + 1)) 0 0 (s.RSQrq (k + 1)) 0 0),
                 GammaQ := gemm_nn (s.nuf + qp.dim.nx 0 + 1) nx nx 1 (Gamma k) 0 0
                   (trtr_l (nu + nx) (s.RSQrq (k + 1)) 0 0 (s.RSQrq (k + 1)) 0 0) nu nu 0 s.GammaQ 0 0 s.GammaQ 0 0 } with hs1
  have f1 : s1.H = s.H ∧ s1.g = s.g ∧ s1.nub = s.nub ∧ s1.nuf = s.nuf := by
    rw [hs1]; split <;> exact ⟨rfl, rfl, rfl, rfl⟩
  have eRS1 : ∀ r c, r < nu + nx → c ≤ r → s1.RSQrq (k + 1) r c = qp.RSQrq (k + 1) r c := by
    intro r c hr hc
    rw [hs1]; split
    · exact congrFun (congrFun hRS r) c
    · show upd s.RSQrq (k + 1) (trtr_l (nu + nx) (s.RSQrq (k + 1)) 0 0 (s.RSQrq (k + 1)) 0 0) (k + 1) r c = _
      rw [upd_same]; unfold trtr_l
      by_cases hrc : r ≤ c
      · obtain rfl : r = c := by omega
        rw [if_pos (by omega), hRS]; congr 1 <;> omega
      · rw [if_neg (by omega), hRS]
  have eRSne : ∀ l, l ≠ k + 1 → s1.RSQrq l = s.RSQrq l := by
    intro l hl; rw [hs1]; split
    · rfl
    · exact upd_ne _ _ hl
  have eGQ : ∀ r j, r < q + 1 → j < nx → s1.GammaQ r j = ∑ i ∈ range nx, Gamma k r i * P i j := by
    intro r j hr hj
    rw [hs1]
    by_cases hf : qp.diag_H_flag (k + 1) ≠ 0
    · rw [if_pos hf]
      show gemm_nd _ _ _ _ _ _ _ _ _ _ _ _ _ _ _ r j = _
      unfold gemm_nd
      rw [if_pos ⟨⟨by omega, by omega⟩, by omega, by omega⟩, zero_mul, zero_add, one_mul]
      have hz : ∀ i ∈ range nx, i ≠ j → Gamma k r i * P i j = 0 := by
        intro i hi hij
        have : P i j = 0 := by
          rw [hP]; simp only [symL]
          by_cases hji : j ≤ i
          · rw [if_pos hji]; exact (hdiag hf).1 i j (mem_range.mp hi) (by omega)
          · rw [if_neg hji]; exact (hdiag hf).1 j i hj (by omega)
        rw [this, mul_zero]
      rw [sum_eq_single_of_mem j (mem_range.mpr hj) hz]
      unfold diaex
      rw [if_pos (by omega), hP, hRS, one_mul]
      simp only [symL]
      rw [if_pos (le_refl j)]
      congr 2 <;> omega
    · rw [if_neg hf]
      show gemm_nn _ _ _ _ _ _ _ _ _ _ _ _ _ _ _ _ _ r j = _
      rw [gemm_nn_in (by omega) (by omega) (by omega) (by omega), zero_mul, zero_add, one_mul]
      refine sum_congr rfl fun i hi => ?_
      have := mem_range.mp hi
      have e : trtr_l (nu + nx) (s.RSQrq (k + 1)) 0 0 (s.RSQrq (k + 1)) 0 0 (nu + i) (nu + (j - 0)) = P i j := by
        unfold trtr_l
        rw [hP, hRS]; simp only [symL]
        by_cases hij : i ≤ j
        · rw [if_pos (by omega)]
          by_cases hji : j ≤ i
          · obtain rfl : i = j := by omega
            rw [if_pos hji]; congr 1 <;> omega
          · rw [if_neg hji]; congr 1 <;> omega
        · rw [if_neg (by omega), if_pos (by omega)]; congr 1
      rw [e]; congr 2 <;> omega
  set GQ := rowad nx 1 (qp.rqz (k + 1)) nu s1.GammaQ (s1.nuf + qp.dim.nx 0) 0 with hGQ
  set H1 := syrk_ln_mn (s1.nuf + qp.dim.nx 0 + 1) (s1.nuf + qp.dim.nx 0) nx 1 GQ 0 0 (Gamma k) 0 0 1 s1.H (s.nub - nu + nu) (s.nub - nu + nu)
    s1.H (s.nub - nu + nu) (s.nub - nu + nu) with hH1
  set H2 := gead nu nu 1 (s1.RSQrq (k + 1)) 0 0 H1 (s.nub - nu) (s.nub - nu) with hH2
  set H3 := (if qp.diag_H_flag (k + 1) = 0 then
        gemm_nn (s1.nuf + qp.dim.nx 0 + 1) nu nx 1 (Gamma k) 0 0 (s1.RSQrq (k + 1)) nu 0 1 H2 (s.nub - nu + nu) (s.nub - nu) H2
          (s.nub - nu + nu) (s.nub - nu)
      else H2) with hH3
  set H4 := rowad nu 1 (qp.rqz (k + 1)) 0 H3 (nuAll qp.dim N + qp.dim.nx 0) (s.nub - nu) with hH4
  have es : rsq1Step qp.dim Gamma qp.rqz qp.diag_H_flag (nuAll qp.dim N) (k + 1) s
      = { s1 with GammaQ := GQ, H := H4,
                  g := rowex (s1.nuf + qp.dim.nx 0) 1 H4 (nuAll qp.dim N + qp.dim.nx 0) (s.nub - nu + nu) s1.g 0,
                  nub := s.nub - nu, nuf := s1.nuf + nu } := by
    unfold rsq1Step
    rw [if_neg (by omega)]
    rfl
  obtain ⟨f1H, f1g, f1b, f1f⟩ := f1
  have eo : s.nub - nu + nu = later qp.dim.nu N k := by rw [hnub', el]; omega
  rw [f1f, hq', eo] at hH1 hH3
  rw [f1H] at hH1
  rw [hnub'] at hH2 hH3 hH4
  rw [f1f, hq'] at hGQ
  -- entries of the new matrix
  have h3out : ∀ r c, ¬ (o ≤ c ∧ c < o + nu) → H3 r c = H2 r c := by
    intro r c hc; rw [hH3]; split
    · rw [gemm_nn_out (by omega)]
    · rfl
  have h0 : ∀ r c, r ≤ nuAll qp.dim N + qp.dim.nx 0 → c < o + nu → s.H r c = 0 := by
    intro r c hr hc; exact h.zero r c hr (by rw [h.nub, el]; omega)
  -- columns of the inputs
  have hD : ∀ r c, r < nu → c ≤ r → H4 (o + r) (o + c) = costMat qp (k + 1) r c := by
    intro r c hr hc
    have : H3 (o + r) (o + c) = H2 (o + r) (o + c) := by
      rw [hH3]; split
      · rw [gemm_nn_out (by omega)]
      · rfl
    rw [hH4, rowad_ne (by omega), this, hH2, gead_in (by omega) (by omega) (by omega) (by omega), hH1, syrk_out (by omega),
      h0 _ _ (by omega) (by omega), zero_add, one_mul]
    unfold costMat
    rw [if_neg (by omega), show 0 + (o + r - o) = r by omega, show 0 + (o + c - o) = c by omega]
    exact eRS1 r c (by omega) hc
  have hM3 : ∀ r c, r < q + 1 → c < nu → H3 (later qp.dim.nu N k + r) (o + c)
      = ∑ j ∈ range nx, Gamma k r j * costMat qp (k + 1) (nu + j) c := by
    intro r c hr hc
    have h2 : H2 (later qp.dim.nu N k + r) (o + c) = 0 := by
      rw [hH2, gead_out (by omega), hH1, syrk_out (by omega)]
      exact h0 _ _ (by omega) (by omega)
    have hcm : ∀ j ∈ range nx, costMat qp (k + 1) (nu + j) c = qp.RSQrq (k + 1) (nu + j) c := fun j hj => by
      unfold costMat; rw [if_neg (by have := mem_range.mp hj; omega)]
    rw [hH3]
    by_cases hf : qp.diag_H_flag (k + 1) = 0
    · rw [if_pos hf, gemm_nn_in (by omega) (by omega) (by omega) (by omega), one_mul, one_mul,
        show later qp.dim.nu N k + (later qp.dim.nu N k + r - later qp.dim.nu N k) = later qp.dim.nu N k + r by omega,
        show o + (o + c - o) = o + c by omega, h2, zero_add]
      refine sum_congr rfl fun j hj => ?_
      rw [hcm j hj, show 0 + (later qp.dim.nu N k + r - later qp.dim.nu N k) = r by omega, zero_add,
        show 0 + (o + c - o) = c by omega, eRS1 _ _ (by have := mem_range.mp hj; omega) (by omega)]
    · rw [if_neg hf, h2]
      symm
      refine sum_eq_zero fun j hj => ?_
      rw [hcm j hj, (hdiag hf).2 j c (mem_range.mp hj) hc, mul_zero]
  have hcols : HCols qp N (costMat qp) Gamma Gammab H4 k := by
    refine ⟨hD, ?_, ?_⟩
    · intro r c hr hc
      rw [← ho, hH4, rowad_ne (by omega)]
      exact hM3 r c (by omega) hc
    · intro c hc
      rw [← ho, hH4, rowad_in (by omega) (by omega), one_mul]
      have := hM3 q c (by omega) hc
      rw [show nuAll qp.dim N + qp.dim.nx 0 = later qp.dim.nu N k + q by omega, this]
      congr 1
      · refine sum_congr rfl fun j hj => ?_
        rw [hrow k j (by omega) (mem_range.mp hj)]
      · unfold costMat; rw [if_pos rfl]; congr 1; omega
  -- the trailing block
  have hT : ∀ r c, r < q → c ≤ r → H4 (later qp.dim.nu N k + r) (later qp.dim.nu N k + c)
      = s.H (later qp.dim.nu N k + r) (later qp.dim.nu N k + c)
        + ∑ i ∈ range nx, ∑ j ∈ range nx, Gamma k r i * P i j * Gamma k c j := by
    intro r c hr hc
    rw [hH4, rowad_ne (by omega), h3out _ _ (by omega), hH2, gead_out (by omega), hH1,
      syrk_in (by omega) (by omega) (by omega) (by omega) (by omega), one_mul, one_mul,
      show later qp.dim.nu N k + (later qp.dim.nu N k + r - later qp.dim.nu N k) = later qp.dim.nu N k + r by omega,
      show later qp.dim.nu N k + (later qp.dim.nu N k + c - later qp.dim.nu N k) = later qp.dim.nu N k + c by omega,
      sum_comm]
    congr 1
    refine sum_congr rfl fun j hj => ?_
    rw [show 0 + (later qp.dim.nu N k + r - later qp.dim.nu N k) = r by omega,
      show 0 + (later qp.dim.nu N k + c - later qp.dim.nu N k) = c by omega, zero_add, hGQ, rowad_ne (by omega),
      eGQ r j (by omega) (mem_range.mp hj), sum_mul]
  have hTb : ∀ c, c < q → H4 (nuAll qp.dim N + qp.dim.nx 0) (later qp.dim.nu N k + c)
      = s.H (nuAll qp.dim N + qp.dim.nx 0) (later qp.dim.nu N k + c)
        + ∑ j ∈ range nx, ((∑ i ∈ range nx, Gammab k i * P i j) + qp.rqz (k + 1) (nu + j)) * Gamma k c j := by
    intro c hc
    have ne : H4 (nuAll qp.dim N + qp.dim.nx 0) (later qp.dim.nu N k + c) = H3 (nuAll qp.dim N + qp.dim.nx 0) (later qp.dim.nu N k + c) := by
      rw [hH4]; unfold rowad; rw [if_neg (by omega)]
    rw [ne, h3out _ _ (by omega), hH2, gead_out (by omega), hH1,
      syrk_in (by omega) (by omega) (by omega) (by omega) (by omega), one_mul, one_mul,
      show later qp.dim.nu N k + (nuAll qp.dim N + qp.dim.nx 0 - later qp.dim.nu N k) = nuAll qp.dim N + qp.dim.nx 0 by omega,
      show later qp.dim.nu N k + (later qp.dim.nu N k + c - later qp.dim.nu N k) = later qp.dim.nu N k + c by omega]
    congr 1
    refine sum_congr rfl fun j hj => ?_
    have := mem_range.mp hj
    rw [show 0 + (nuAll qp.dim N + qp.dim.nx 0 - later qp.dim.nu N k) = q by omega,
      show 0 + (later qp.dim.nu N k + c - later qp.dim.nu N k) = c by omega, zero_add, hGQ, rowad_in (by omega) (by omega),
      eGQ q j (by omega) this, one_mul]
    congr 2
    · refine sum_congr rfl fun i hi => ?_
      rw [hrow k i (by omega) (mem_range.mp hi)]
  rw [es]
  refine ⟨hnub', ?_, ?_, ?_, ?_, ?_, ?_⟩
  · show s1.nuf + nu = _
    rw [f1f, h.nuf, sumTo_succ qp.dim.nu (k + 1)]
  · intro l r c hr hc
    by_cases hl : l = k + 1
    · subst hl; exact eRS1 r c hr hc
    · show s1.RSQrq l r c = _; rw [eRSne l hl]; exact h.data l r c hr hc
  · intro l hl
    show s1.RSQrq l = _
    rw [eRSne l (by omega)]; exact h.fresh l (by omega)
  · intro r c hr hc
    have hc' : c < o := by rw [← hnub']; exact hc
    show H4 r c = 0
    have ne : H4 r c = H3 r c := by rw [hH4]; unfold rowad; rw [if_neg (by omega)]
    rw [ne, h3out _ _ (by omega), hH2, gead_out (by omega), hH1, syrk_out (by omega)]
    exact h0 r c hr (by omega)
  · obtain ⟨c0, hc0⟩ := h.cost
    refine ⟨c0 + (1 / 2 * (∑ i ∈ range nx, ∑ j ∈ range nx, P i j * Gammab k i * Gammab k j)
      + ∑ j ∈ range nx, qp.rqz (k + 1) (nu + j) * Gammab k j), fun v => ?_⟩
    have hs := fun i (hi : i < nx) => dyn_sem hd (N := N) hn' v k i (by omega) hi
    rw [sum_range_succ, hc0 v]
    show _ = hTail qp N H4 v (k + 1) + _
    rw [hTail_step hk hcols hs, ← costEnd_val (costMat_end qp (k + 1)), wAll_traj]
    have t : hTail qp N H4 v k = hTail qp N s.H v k
        + 1 / 2 * (∑ r ∈ range q, ∑ c ∈ range q, (∑ i ∈ range nx, ∑ j ∈ range nx, Gamma k r i * P i j * Gamma k c j)
            * v (later qp.dim.nu N k + r) * v (later qp.dim.nu N k + c))
        + ∑ c ∈ range q, (∑ j ∈ range nx, ((∑ i ∈ range nx, Gammab k i * P i j) + qp.rqz (k + 1) (nu + j)) * Gamma k c j)
            * v (later qp.dim.nu N k + c) := by
      unfold hTail
      rw [← hq]
      have a1 : quadL q H4 (later qp.dim.nu N k) (fun i => v (later qp.dim.nu N k + i))
          = quadL q s.H (later qp.dim.nu N k) (fun i => v (later qp.dim.nu N k + i))
            + 1 / 2 * (∑ r ∈ range q, ∑ c ∈ range q, (∑ i ∈ range nx, ∑ j ∈ range nx, Gamma k r i * P i j * Gamma k c j)
            * v (later qp.dim.nu N k + r) * v (later qp.dim.nu N k + c)) := by
        unfold quadL
        rw [← mul_add, ← sum_add_distrib]
        congr 1
        refine sum_congr rfl fun r hr => ?_
        rw [← sum_add_distrib]
        refine sum_congr rfl fun c hc => ?_
        rw [← add_mul, ← add_mul]
        congr 2
        have hr := mem_range.mp hr; have hc := mem_range.mp hc
        simp only [symL]
        by_cases hrc : c ≤ r
        · rw [if_pos hrc, if_pos hrc, hT r c hr hrc]
        · rw [if_neg hrc, if_neg hrc, hT c r hc (by omega), sum_comm]
          congr 1
          refine sum_congr rfl fun i _ => sum_congr rfl fun j _ => ?_
          rw [hP, symL_symm' _ _ j i]; ring
      have a2 : ∑ c ∈ range q, H4 (nuAll qp.dim N + qp.dim.nx 0) (later qp.dim.nu N k + c) * v (later qp.dim.nu N k + c)
          = (∑ c ∈ range q, s.H (nuAll qp.dim N + qp.dim.nx 0) (later qp.dim.nu N k + c) * v (later qp.dim.nu N k + c))
            + ∑ c ∈ range q, (∑ j ∈ range nx, ((∑ i ∈ range nx, Gammab k i * P i j) + qp.rqz (k + 1) (nu + j)) * Gamma k c j)
              * v (later qp.dim.nu N k + c) := by
        rw [← sum_add_distrib]
        refine sum_congr rfl fun c hc => ?_
        rw [hTb c (mem_range.mp hc)]; ring
      rw [a1, a2]; ring
    rw [t]
    have qa := quad_affine q nx (Gamma k) P (fun i j => symL_symm' _ _ _ _) (fun j => qp.rqz (k + 1) (nu + j)) (Gammab k)
      (fun r => v (later qp.dim.nu N k + r))
    have w : wX (qp.dim.nu (k + 1)) (qp.dim.nx (k + 1)) (costMat qp (k + 1)) (roll qp N v (k + 1))
        = 1 / 2 * (∑ i ∈ range nx, ∑ j ∈ range nx,
        P i j * ((∑ r ∈ range q, Gamma k r i * v (later qp.dim.nu N k + r)) + Gammab k i)
          * ((∑ r ∈ range q, Gamma k r j * v (later qp.dim.nu N k + r)) + Gammab k j))
        + ∑ j ∈ range nx, qp.rqz (k + 1) (nu + j) * ((∑ r ∈ range q, Gamma k r j * v (later qp.dim.nu N k + r)) + Gammab k j) := by
      unfold wX quadL
      congr 1
      · congr 1
        refine sum_congr rfl fun i hi => sum_congr rfl fun j hj => ?_
        have hi := mem_range.mp hi; have hj := mem_range.mp hj
        rw [hs i hi, hs j hj]
        congr 2
        rw [hP]; simp only [symL]; unfold costMat
        split
        · rw [if_neg (by omega)]
        · rw [if_neg (by omega)]
      · refine sum_congr rfl fun j hj => ?_
        rw [hs j (mem_range.mp hj)]
        congr 1
        unfold costMat; rw [if_pos rfl]
    rw [w]
    linear_combination (-1) * qa
  · intro _ i
    show rowex _ _ _ _ _ _ _ i = _
    split
    · rename_i hi
      rw [rowex_in (by omega) (by rw [f1f, h.nuf]; omega), one_mul]
      show H4 _ _ = H4 _ _
      rw [eo, show k + 1 - 1 = k by omega]; congr 1
    · rfl

/-- the second algorithm of COND_RSQRQ: the matrix with its gradient row is right, the gradient vector is the gradient row
without its first `nu[N]` entries; the rest of the gradient vector is not written -/
theorem condRsqrq_alg1 (sq : K → K) (qp : OcpQp K) (arg : CondArg) (ws : CondWs K)
    (tg : CondTgt K) (N n : ℕ) (htop : condTop qp.dim.N arg = some N) (hN : 0 < N) (halg : arg.cond_alg ≠ 0)
    (hn : N ≤ n) (hn' : n ≤ N + 1) (hd : DynRec qp n ws.Gamma ws.Gammab) (hrow : DynRow qp n ws.Gamma ws.Gammab)
    (hdiag : ∀ k, k ≤ N → DiagOk qp k) :
    (∃ c : K, ∀ v, ∑ k ∈ range (N + 1), stageCost qp k (uxOf qp N v k)
      = quadL (nuAll qp.dim N + qp.dim.nx 0) (condRsqrq sq qp arg ws tg).2.2.RSQrq2 0 v
        + (∑ c ∈ range (nuAll qp.dim N + qp.dim.nx 0),
            (condRsqrq sq qp arg ws tg).2.2.RSQrq2 (nuAll qp.dim N + qp.dim.nx 0) c * v c) + c)
    ∧ (∀ i, i + qp.dim.nu N < nuAll qp.dim N + qp.dim.nx 0 → (condRsqrq sq qp arg ws tg).2.2.rqz2 i
        = (condRsqrq sq qp arg ws tg).2.2.RSQrq2 (nuAll qp.dim N + qp.dim.nx 0) (qp.dim.nu N + i))
    ∧ (∀ k r c, r < qp.dim.nu k + qp.dim.nx k → c ≤ r → (condRsqrq sq qp arg ws tg).1.RSQrq k r c = qp.RSQrq k r c)
    ∧ (condRsqrq sq qp arg ws tg).1.BAbt = qp.BAbt := by
  have en : sumTo qp.dim.nu (N + 1) = nuAll qp.dim N := by rw [sumTo_eq]; rfl
  set s0 : Rsq1St K := ⟨qp.RSQrq, ws.GammaQ, ws.tmp_nuxM,
    gese (nuAll qp.dim N + qp.dim.nx 0 + 1) (nuAll qp.dim N + qp.dim.nx 0) 0 tg.RSQrq2 0 0, tg.rqz2, nuAll qp.dim N, 0⟩ with hs0
  have I : ∀ k, k ≤ N → Rsq1Inv qp N k (loop (k + 1) (rsq1Step qp.dim ws.Gamma qp.rqz qp.diag_H_flag (nuAll qp.dim N)) s0) := by
    intro k
    induction k with
    | zero =>
      intro _
      rw [loop_succ, loop_zero]
      refine rsq1_first qp N ws.Gamma s0 rfl ?_ rfl rfl
      intro r c hr hc
      show gese _ _ _ _ _ _ r c = 0
      unfold gese; rw [if_pos (by omega)]
    | succ k ih =>
      intro hk
      rw [loop_succ]
      exact rsq1_step qp N n k ws.Gamma ws.Gammab _ (by omega) hn hn' hd hrow (hdiag _ hk) (ih (by omega))
  have J := I N (le_refl N)
  set s := loop (N + 1) (rsq1Step qp.dim ws.Gamma qp.rqz qp.diag_H_flag (nuAll qp.dim N)) s0 with hs
  have e : condRsqrq sq qp arg ws tg = ({ qp with RSQrq := s.RSQrq },
      { ws with GammaQ := s.GammaQ, tmp_nuxM := s.tmp }, { tg with RSQrq2 := s.H, rqz2 := s.g }) := by
    unfold condRsqrq
    rw [htop]
    dsimp only
    rw [if_neg (by omega), if_neg halg, en]
  rw [e]
  dsimp only
  have esum : sumTo qp.dim.nu N + qp.dim.nu N = nuAll qp.dim N := by rw [← en, sumTo_succ]
  refine ⟨?_, ?_, J.data, rfl⟩
  · obtain ⟨c, hc⟩ := J.cost
    refine ⟨c, fun v => ?_⟩
    rw [hc v]
    unfold hTail
    rw [later_self, en]
    simp only [zero_add]
  · intro i hi
    rw [J.grad hN i, if_pos (by omega), later_pred _ hN (le_refl N), later_self]
    congr 1

end
end Hpipm
