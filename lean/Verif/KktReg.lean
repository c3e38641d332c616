/-
The regularisation loop of the factorise-and-solve routine (labels `compute_preg`, `main_loop` of
x_ocp_qp_kkt.c:1140-1757): for every QP, convex or not, it ends (C53).

The regularisation of the retries acts on the inputs of all stages and on the states of stage 0 only.  When it is
large the Schur complements stay bounded by a constant that does not depend on it, so the matrices to be
factorised become positive definite.
-/
import Verif.KktConv
import Verif.KktStep
import Mathlib.Algebra.Order.Archimedean.Basic
import Mathlib.Algebra.BigOperators.Field

namespace Hpipm
open Finset
set_option linter.unusedSectionVars false

section
variable {K : Type*} [Field K] [LinearOrder K] [IsStrictOrderedRing K]

/-- the entries of the leading `n` rows and `m` columns are at most `c` -/
def Bd (n m : ℕ) (M : Mat K) (c : K) : Prop := ∀ i j, i < n → j < m → |M i j| ≤ c

theorem Bd_exists (n m : ℕ) (M : Mat K) : ∃ c, 0 ≤ c ∧ Bd n m M c := by
  refine ⟨∑ i ∈ range n, ∑ j ∈ range m, |M i j|, sum_nonneg (fun i _ => sum_nonneg (fun j _ => abs_nonneg _)), ?_⟩
  intro i j hi hj
  refine le_trans ?_ (single_le_sum (f := fun i => ∑ j ∈ range m, |M i j|) (fun i _ => sum_nonneg (fun j _ => abs_nonneg _))
    (mem_range.mpr hi))
  exact single_le_sum (f := fun j => |M i j|) (fun j _ => abs_nonneg _) (mem_range.mpr hj)

/-- a matrix with a large multiple of the identity added dominates the identity -/
theorem diag_dom (n : ℕ) (M A : Mat K) (c p : K) (hA : Bd n n A c) (hc : 0 ≤ c) (hp : n * c + 1 ≤ p)
    (hM : ∀ i j, i < n → j < n → M i j = A i j + if i = j then p else 0) (x : Vec K) :
    ∑ i ∈ range n, x i * x i ≤ qform n M x := by
  have h1 : qform n M x = qform n A x + p * ∑ i ∈ range n, x i * x i := by
    unfold qform
    rw [mul_sum, ← sum_add_distrib]
    refine sum_congr rfl (fun i hi => ?_)
    have hi := mem_range.mp hi
    have : ∀ j ∈ range n, x i * M i j * x j = x i * A i j * x j + (if i = j then p * (x i * x i) else 0) := by
      intro j hj
      rw [hM i j hi (mem_range.mp hj)]
      split_ifs with h
      · subst h; ring
      · ring
    rw [sum_congr rfl this, sum_add_distrib, sum_ite_eq, if_pos (mem_range.mpr hi)]
  have h2 : -(n * c * ∑ i ∈ range n, x i * x i) ≤ qform n A x := by
    have e : n * c * ∑ i ∈ range n, x i * x i = ∑ i ∈ range n, ∑ j ∈ range n, c * ((x i * x i + x j * x j) / 2) := by
      have : ∀ i ∈ range n, ∑ j ∈ range n, c * ((x i * x i + x j * x j) / 2) =
          c / 2 * (n * (x i * x i)) + c / 2 * ∑ j ∈ range n, x j * x j := by
        intro i _
        rw [← mul_sum, ← sum_div, sum_add_distrib, sum_const, card_range, nsmul_eq_mul]; ring
      rw [sum_congr rfl this, sum_add_distrib, ← mul_sum, ← mul_sum, sum_const, card_range, nsmul_eq_mul]; ring
    rw [e]
    unfold qform
    rw [← sum_neg_distrib]
    refine sum_le_sum (fun i hi => ?_)
    rw [← sum_neg_distrib]
    refine sum_le_sum (fun j hj => ?_)
    have ha := hA i j (mem_range.mp hi) (mem_range.mp hj)
    have hb : |x i * A i j * x j| ≤ c * ((x i * x i + x j * x j) / 2) := by
      rw [abs_mul, abs_mul, mul_comm (|x i|), mul_assoc]
      refine mul_le_mul ha ?_ (mul_nonneg (abs_nonneg _) (abs_nonneg _)) hc
      have h0 := mul_self_nonneg (|x i| - |x j|)
      have e1 := abs_mul_abs_self (x i)
      have e2 := abs_mul_abs_self (x j)
      nlinarith
    exact (abs_le.mp hb).1
  rw [h1]
  have h3 : 0 ≤ ∑ i ∈ range n, x i * x i := sum_nonneg (fun i _ => mul_self_nonneg _)
  nlinarith [mul_le_mul_of_nonneg_right hp h3]

theorem dom_pd (n : ℕ) (M : Mat K) (h : ∀ x : Vec K, ∑ i ∈ range n, x i * x i ≤ qform n M x) : Pd n M := by
  rintro x ⟨i, hi, hx⟩
  refine lt_of_lt_of_le (lt_of_lt_of_le (mul_self_pos.mpr hx) ?_) (h x)
  exact single_le_sum (f := fun i => x i * x i) (fun i _ => mul_self_nonneg _) (mem_range.mpr hi)

/-- rows of a Cholesky factor of a block that dominates the identity are not longer than the rows of the matrix -/
theorem row_bound {nu nx : ℕ} {M Lam : Mat K} (hsym : ∀ i j, i < nu + nx → j < nu + nx → M i j = M j i)
    (hfac : ∀ i j, i < nu + nx → j < nu → j ≤ i → ∑ l ∈ range nu, low Lam i l * low Lam j l = M i j)
    (hp : ∀ j, j < nu → Lam j j ≠ 0) (hdom : ∀ x : Vec K, ∑ i ∈ range nu, x i * x i ≤ qform nu M x) (i : ℕ) (hi : i < nx) :
    ∑ l ∈ range nu, low Lam (nu + i) l * low Lam (nu + i) l ≤ ∑ l ∈ range nu, M (nu + i) l * M (nu + i) l := by
  set s := ∑ l ∈ range nu, M (nu + i) l * M (nu + i) l with hs
  set r := fun a : ℕ => if a < nu then a else nu + i with hr
  have hrl : ∀ a, a < nu + 1 → r a < nu + nx := by intro a ha; simp only [hr]; split_ifs <;> omega
  have hra : ∀ a, a < nu → r a = a := by intro a ha; simp only [hr, if_pos ha]
  have hrn : r nu = nu + i := by simp [hr]
  set M' : Mat K := fun a b => if a = nu ∧ b = nu then s else M (r a) (r b) with hM'
  set L' : Mat K := fun a l => Lam (r a) l with hL'
  have hlow : ∀ a l, a < nu + 1 → l < nu → low L' a l = low Lam (r a) l := by
    intro a l ha hl
    unfold low
    by_cases h : a < nu
    · rw [hra a h]; simp only [hL', hra a h]
    · have : a = nu := by omega
      subst this
      rw [hrn, if_pos (by omega), if_pos (by omega)]
      simp only [hL', hrn]
  obtain ⟨z, hz1, hz2⟩ := schur_qform (nu := nu) (nx := 1) (M := M') (Lam := L')
    (P := fun _ _ => s - ∑ l ∈ range nu, low Lam (nu + i) l * low Lam (nu + i) l)
    (fun a b ha hb => by
      simp only [hM']
      by_cases h : a = nu ∧ b = nu
      · rw [if_pos h, if_pos ⟨h.2, h.1⟩]
      · rw [if_neg h, if_neg (fun h' => h ⟨h'.2, h'.1⟩)]
        exact hsym _ _ (hrl a ha) (hrl b hb))
    (fun a b ha hb hab => by
      simp only [hM']
      rw [if_neg (by omega), ← hfac (r a) (r b) (hrl a ha) (by rw [hra b hb]; exact hb) (by
        rw [hra b hb]; simp only [hr]; split_ifs <;> omega)]
      refine sum_congr rfl (fun l hl => ?_)
      rw [hlow a l ha (mem_range.mp hl), hlow b l (by omega) (mem_range.mp hl)])
    (fun a b ha hb => by
      have ha : a = 0 := by omega
      have hb : b = 0 := by omega
      subst ha hb
      simp only [add_zero, hM', and_self, if_true]
      have e : ∑ l ∈ range nu, low L' nu l * low L' nu l = ∑ l ∈ range nu, low Lam (nu + i) l * low Lam (nu + i) l :=
        sum_congr rfl (fun l hl => by rw [hlow nu l (by omega) (mem_range.mp hl), hrn])
      rw [e]; ring)
    (fun j hj => by simp only [hL', hra j hj]; exact hp j hj) (fun _ => 1)
  have hzn : z nu = 1 := by have := hz1 0 (by omega); rwa [add_zero] at this
  have e1 : qform (nu + 1) M' z = qform nu M z + 2 * ∑ l ∈ range nu, z l * M (nu + i) l + s := by
    unfold qform
    rw [sum_range_succ]
    have a1 : ∀ a ∈ range nu, ∑ b ∈ range (nu + 1), z a * M' a b * z b =
        ∑ b ∈ range nu, z a * M a b * z b + z a * M (nu + i) a := by
      intro a ha
      have ha := mem_range.mp ha
      rw [sum_range_succ]
      congr 1
      · refine sum_congr rfl (fun b hb => ?_)
        have hb := mem_range.mp hb
        simp only [hM']
        rw [if_neg (by omega), hra a ha, hra b hb]
      · simp only [hM']
        rw [if_neg (by omega), hra a ha, hrn, hzn, mul_one, hsym a (nu + i) (by omega) (by omega)]
    rw [sum_congr rfl a1, sum_add_distrib, sum_range_succ]
    have a2 : ∀ b ∈ range nu, z nu * M' nu b * z b = z b * M (nu + i) b := by
      intro b hb
      have hb := mem_range.mp hb
      simp only [hM']
      rw [if_neg (by omega), hra b hb, hrn, hzn]; ring
    rw [sum_congr rfl a2]
    simp only [hM', and_self, if_true]
    rw [hzn]; ring
  have e2 : qform 1 (fun _ _ => s - ∑ l ∈ range nu, low Lam (nu + i) l * low Lam (nu + i) l) (fun _ => (1 : K)) =
      s - ∑ l ∈ range nu, low Lam (nu + i) l * low Lam (nu + i) l := by simp [qform]
  rw [e1, e2] at hz2
  have h3 : 0 ≤ ∑ l ∈ range nu, (z l + M (nu + i) l) * (z l + M (nu + i) l) := sum_nonneg (fun l _ => mul_self_nonneg _)
  have e3 : ∑ l ∈ range nu, (z l + M (nu + i) l) * (z l + M (nu + i) l) =
      ∑ l ∈ range nu, z l * z l + 2 * ∑ l ∈ range nu, z l * M (nu + i) l + s := by
    rw [hs, mul_sum, ← sum_add_distrib, ← sum_add_distrib]
    exact sum_congr rfl (fun l _ => by ring)
  have h4 := hdom z
  linarith

/-- one stage of the classical recursion with a large regularisation of the inputs: the factorisation does not break down
and the Schur complement is bounded independently of the regularisation -/
theorem cl_stage_bound (sq : K → K) (hsq : ∀ x, 0 < x → sq x * sq x = x) (D : QpDim) (k : ℕ) (A : Mat K) (c reg preg : K)
    (C L0 M : Mat K) (m : Vec K) (hA : Bd (D.nu k + D.nx k) (D.nu k + D.nx k) A c) (hc : 0 ≤ c)
    (hpreg : D.nu k * c + 1 ≤ preg) (hsym : ∀ i j, i < D.nu k + D.nx k → j < D.nu k + D.nx k → M i j = M j i)
    (hM : ∀ i j, i < D.nu k + D.nx k → j < D.nu k + D.nx k →
      M i j = A i j + if i = j then (if i < D.nu k then preg else reg) else 0)
    (hC : CMat (D.nu k + D.nx k) C M m) :
    (∀ j, j < D.nu k → potrf_l_mn sq (D.nu k + D.nx k + 1) (D.nu k) C L0 j j ≠ 0) ∧
    ∀ st : KktSt K, st.L k = potrf_l_mn sq (D.nu k + D.nx k + 1) (D.nu k) C L0 → SchurOk D k C st →
      Bd (D.nx k) (D.nx k) (st.P k) (c + |reg| + D.nu k * (c * c)) := by
  have hdom := diag_dom (D.nu k) M A c preg (fun i j hi hj => hA i j (by omega) (by omega)) hc hpreg
    (fun i j hi hj => by rw [hM i j (by omega) (by omega), if_pos hi])
  have hpv : ∀ j, j < D.nu k → potrf_l_mn sq (D.nu k + D.nx k + 1) (D.nu k) C L0 j j ≠ 0 := by
    intro j hj
    rw [potrf_l_mn, if_pos ⟨by omega, hj, le_refl _⟩]
    exact chol_pd sq hsq (D.nu k) (D.nu k) (le_refl _) C M (fun i j hi hj => hC.1 i j (by omega) hj)
      (fun i j hi hj => hsym i j (by omega) (by omega)) (dom_pd _ _ hdom) j hj
  refine ⟨hpv, fun st hL hS => ?_⟩
  have hp : ∀ j, j < D.nu k → st.L k j j ≠ 0 := fun j hj => by rw [hL]; exact hpv j hj
  have hr := potrf_rows sq hsq (D.nu k + D.nx k) (D.nu k) (by omega) C L0 (st.L k) _ _ hL hC hp
  have hrow : ∀ i, i < D.nx k → ∑ l ∈ range (D.nu k), low (st.L k) (D.nu k + i) l * low (st.L k) (D.nu k + i) l ≤ D.nu k * (c * c) := by
    intro i hi
    refine le_trans (row_bound hsym hr.1 hp hdom i hi) ?_
    have : ∀ l ∈ range (D.nu k), M (D.nu k + i) l * M (D.nu k + i) l ≤ c * c := by
      intro l hl
      have hl := mem_range.mp hl
      rw [hM _ _ (by omega) (by omega), if_neg (by omega), add_zero, ← abs_mul_abs_self]
      have := hA (D.nu k + i) l (by omega) (by omega)
      exact mul_le_mul this this (abs_nonneg _) hc
    refine le_trans (sum_le_sum this) ?_
    rw [sum_const, card_range, nsmul_eq_mul]
  have key : ∀ i j, i < D.nx k → j ≤ i → |st.P k i j| ≤ c + |reg| + D.nu k * (c * c) := by
    intro i j hi hj
    have h1 := hS.lower i j hi hj
    rw [hC.1 _ _ (by omega) (by omega), hM _ _ (by omega) (by omega)] at h1
    have h2 : |if D.nu k + i = D.nu k + j then (if D.nu k + i < D.nu k then preg else reg) else 0| ≤ |reg| := by
      rw [if_neg (show ¬ D.nu k + i < D.nu k by omega)]
      split_ifs
      · exact le_refl _
      · rw [abs_zero]; exact abs_nonneg _
    have h3 : |∑ l ∈ range (D.nu k), low (st.L k) (D.nu k + i) l * low (st.L k) (D.nu k + j) l| ≤ D.nu k * (c * c) := by
      refine le_trans (abs_sum_le_sum_abs _ _) ?_
      have : ∀ l ∈ range (D.nu k), |low (st.L k) (D.nu k + i) l * low (st.L k) (D.nu k + j) l| ≤
          (low (st.L k) (D.nu k + i) l * low (st.L k) (D.nu k + i) l + low (st.L k) (D.nu k + j) l * low (st.L k) (D.nu k + j) l) / 2 := by
        intro l _
        rw [abs_mul]
        have h0 := mul_self_nonneg (|low (st.L k) (D.nu k + i) l| - |low (st.L k) (D.nu k + j) l|)
        have e1 := abs_mul_abs_self (low (st.L k) (D.nu k + i) l)
        have e2 := abs_mul_abs_self (low (st.L k) (D.nu k + j) l)
        nlinarith
      refine le_trans (sum_le_sum this) ?_
      rw [← sum_div, sum_add_distrib]
      have a1 := hrow i hi
      have a2 := hrow j (by omega)
      linarith
    have h4 := hA (D.nu k + i) (D.nu k + j) (by omega) (by omega)
    have e : st.P k i j = A (D.nu k + i) (D.nu k + j) +
        (if D.nu k + i = D.nu k + j then (if D.nu k + i < D.nu k then preg else reg) else 0) -
        ∑ l ∈ range (D.nu k), low (st.L k) (D.nu k + i) l * low (st.L k) (D.nu k + j) l := by
      rw [← h1]; ring
    rw [e]
    refine le_trans (abs_sub _ _) (add_le_add (le_trans (abs_add_le _ _) (add_le_add h4 h2)) h3)
  intro i j hi hj
  by_cases h : j ≤ i
  · exact key i j hi h
  · rw [hS.sym i j hi hj]; exact key j i hj (by omega)

/-- the matrix of a stage without its regularisation, `P` the Schur complement of the next stage -/
theorem ricM_split (qp : OcpQp K) (dr : ℕ → ℕ → K) (reg : K) (G : ℕ → Vec K) (k : ℕ) (P : Mat K) (i j : ℕ) :
    ricM (qp.dim.nx (k + 1)) (kH qp dr reg G k) (qp.BAbt k) P i j =
      ricM (qp.dim.nx (k + 1)) (kH qp (fun _ _ => 0) reg G k) (qp.BAbt k) P i j + if i = j then dr k i else 0 := by
  unfold ricM kH
  rw [ite_self]; ring

theorem kH_split (qp : OcpQp K) (dr : ℕ → ℕ → K) (reg : K) (G : ℕ → Vec K) (k : ℕ) (i j : ℕ) :
    kH qp dr reg G k i j = kH qp (fun _ _ => 0) reg G k i j + if i = j then dr k i else 0 := by
  unfold kH
  rw [ite_self]; ring

theorem ricM_bound (n n1 : ℕ) (H BA : Mat K) (cP : K) (hcP : 0 ≤ cP) :
    ∃ c, 0 ≤ c ∧ ∀ P : Mat K, Bd n1 n1 P cP → Bd n n (ricM n1 H BA P) c := by
  obtain ⟨cH, h0, hH⟩ := Bd_exists n n H
  obtain ⟨cB, h1, hB⟩ := Bd_exists n n1 BA
  refine ⟨cH + n1 * (n1 * (cB * cP * cB)), ?_, fun P hP i j hi hj => ?_⟩
  · have : 0 ≤ cB * cP * cB := mul_nonneg (mul_nonneg h1 hcP) h1
    positivity
  · unfold ricM
    refine le_trans (abs_add_le _ _) (add_le_add (hH i j hi hj) ?_)
    have a1 : ∀ a ∈ range n1, |∑ c ∈ range n1, BA i a * P a c * BA j c| ≤ n1 * (cB * cP * cB) := by
      intro a ha
      refine le_trans (abs_sum_le_sum_abs _ _) ?_
      have a2 : ∀ c ∈ range n1, |BA i a * P a c * BA j c| ≤ cB * cP * cB := by
        intro c hc
        have ha := mem_range.mp ha
        have hc := mem_range.mp hc
        rw [abs_mul, abs_mul]
        exact mul_le_mul (mul_le_mul (hB i a hi ha) (hP a c ha hc) (abs_nonneg _) h1) (hB j c hj hc) (abs_nonneg _) (mul_nonneg h1 hcP)
      refine le_trans (sum_le_sum a2) ?_
      rw [sum_const, card_range, nsmul_eq_mul]
    refine le_trans (abs_sum_le_sum_abs _ _) (le_trans (sum_le_sum a1) ?_)
    rw [sum_const, card_range, nsmul_eq_mul]

/-- state after `nn` passes of the middle loop of the classical sweep -/
def clLoop (sq : K → K) (qp : OcpQp K) (reg preg : K) (G g : ℕ → Vec K) (st : KktSt K) (nn : ℕ) : Bool × KktSt K :=
  loop nn (fun nn (s : Bool × KktSt K) =>
      if s.1 then s
      else
        let ss := qp.dim.N - nn - 1
        let st := clMid sq qp reg preg G g ss s.2
        if singular (qp.dim.nu ss) (st.L ss) then (true, st) else (false, schurStage qp.dim ss st))
    (singular (qp.dim.nu qp.dim.N) ((clLast sq qp reg preg G g st).L qp.dim.N), clLast sq qp reg preg G g st)

theorem clLoop_large (sq : K → K) (hsq : ∀ x, 0 < x → sq x * sq x = x) (qp : OcpQp K) (hwf : qp.WF) (hN : 1 ≤ qp.dim.N) (reg : K)
    (G g : ℕ → Vec K) (nn : ℕ) (hnn : nn ≤ qp.dim.N - 1) :
    ∃ c p0, 0 ≤ c ∧ ∀ preg, p0 ≤ preg → ∀ st : KktSt K, ROk qp st → BOk qp st →
      (clLoop sq qp reg preg G g st nn).1 = false ∧ ROk qp (clLoop sq qp reg preg G g st nn).2 ∧
      BOk qp (clLoop sq qp reg preg G g st nn).2 ∧
      (∀ i j, i < qp.dim.nx (qp.dim.N - nn) → j < qp.dim.nx (qp.dim.N - nn) →
        (clLoop sq qp reg preg G g st nn).2.P (qp.dim.N - nn) i j = (clLoop sq qp reg preg G g st nn).2.P (qp.dim.N - nn) j i) ∧
      Bd (qp.dim.nx (qp.dim.N - nn)) (qp.dim.nx (qp.dim.N - nn)) ((clLoop sq qp reg preg G g st nn).2.P (qp.dim.N - nn)) c := by
  induction nn with
  | zero =>
    set k := qp.dim.N with hk
    obtain ⟨c, hc, hA⟩ := Bd_exists (qp.dim.nu k + qp.dim.nx k) (qp.dim.nu k + qp.dim.nx k) (kH qp (fun _ _ => 0) reg G k)
    refine ⟨c + |reg| + qp.dim.nu k * (c * c), qp.dim.nu k * c + 1, ?_, fun preg hpreg st hR hB => ?_⟩
    · have := abs_nonneg reg; positivity
    · set dr : ℕ → ℕ → K := fun k i => if i < qp.dim.nu k then preg else reg with hdr
      obtain ⟨f1, f2, f3, C, f4, f5, f6⟩ := clLast_val sq qp hwf reg preg dr (fun i hi => rfl) G g st hR
      obtain ⟨b1, b2⟩ := cl_stage_bound sq hsq qp.dim k (kH qp (fun _ _ => 0) reg G k) c reg preg C C (kH qp dr reg G k) _ hA hc hpreg
        (fun i j _ _ => kH_sym qp _ reg G _ i j) (fun i j hi hj => by rw [kH_split qp dr]) f5
      rw [← hk] at f4 f6
      refine ⟨?_, fun q i j => ?_, fun q i a => ?_, ?_, ?_⟩
      · show singular (qp.dim.nu k) ((clLast sq qp reg preg G g st).L k) = false
        exact singular_eq_false (fun j hj => by rw [f4]; exact b1 j hj)
      · show q ≤ _ → i < _ → j ≤ i → (clLast sq qp reg preg G g st).RSQrq q i j = _
        rw [f1.RSQrq]; exact hR q i j
      · show q < _ → _ → _ → (clLast sq qp reg preg G g st).BAbt q i a = _
        rw [f3]; exact hB q i a
      · exact f6.sym
      · exact b2 (clLast sq qp reg preg G g st) f4 f6
  | succ nn ih =>
    obtain ⟨cP, p0, hcP, ih⟩ := ih (by omega)
    set ss := qp.dim.N - nn - 1 with hss
    rw [show qp.dim.N - (nn + 1) = ss by omega]
    rw [show qp.dim.N - nn = ss + 1 by omega] at ih
    obtain ⟨c, hc, hA⟩ := ricM_bound (qp.dim.nu ss + qp.dim.nx ss) (qp.dim.nx (ss + 1)) (kH qp (fun _ _ => 0) reg G ss) (qp.BAbt ss) cP hcP
    refine ⟨c + |reg| + qp.dim.nu ss * (c * c), max p0 (qp.dim.nu ss * c + 1), ?_, fun preg hpreg st hR hB => ?_⟩
    · have := abs_nonneg reg; positivity
    · obtain ⟨hb, h1, h2, h3, h4⟩ := ih preg (le_trans (le_max_left _ _) hpreg) st hR hB
      set s := clLoop sq qp reg preg G g st nn with hsd
      have hs : clLoop sq qp reg preg G g st (nn + 1) = (if s.1 then s
          else if singular (qp.dim.nu ss) ((clMid sq qp reg preg G g ss s.2).L ss) then (true, clMid sq qp reg preg G g ss s.2)
          else (false, schurStage qp.dim ss (clMid sq qp reg preg G g ss s.2))) := by
        rw [hsd]; unfold clLoop; rw [loop_succ]
      rw [hs, if_neg (by rw [hb]; simp)]
      set dr : ℕ → ℕ → K := fun k i => if i < qp.dim.nu k then preg else reg with hdr
      obtain ⟨f1, f2, f3, f4, C, f5, f6⟩ := clMid_val sq qp hwf reg preg dr G g ss (by omega) (fun i hi => rfl) s.2 h1 h2 h3
      have hsy := ricM_sym' qp dr reg G ss _ h3
      obtain ⟨b1, b2⟩ := cl_stage_bound sq hsq qp.dim ss _ c reg preg C C _ _ (hA _ h4) hc (le_trans (le_max_right _ _) hpreg)
        hsy (fun i j hi hj => by rw [ricM_split qp dr]) f6
      set t1 := clMid sq qp reg preg G g ss s.2 with ht1
      have hR1 : ROk qp t1 := by intro q i j; rw [f1.RSQrq]; exact h1 q i j
      have hsing : singular (qp.dim.nu ss) (t1.L ss) = false := singular_eq_false (fun j hj => by rw [f5]; exact b1 j hj)
      rw [if_neg (by rw [hsing]; simp)]
      obtain ⟨g1, g2, g3, g4, g5, g6, g7⟩ := schurStage_val sq qp.dim ss C t1 f5
      refine ⟨rfl, fun q i j => ?_, fun q i a => ?_, g7.sym, b2 _ (by rw [g2]; exact f5) g7⟩
      · rw [g1.RSQrq]; exact hR1 q i j
      · rw [g5]; exact f3 q i a

/-- for every QP there is a threshold above which the classical sweep does not break down, whatever the state of the
workspace -/
theorem clBack_large (sq : K → K) (hsq : ∀ x, 0 < x → sq x * sq x = x) (qp : OcpQp K) (hwf : qp.WF) (hN : 1 ≤ qp.dim.N) (reg : K)
    (G g : ℕ → Vec K) :
    ∃ p0, ∀ preg, p0 ≤ preg → ∀ st : KktSt K, ROk qp st → BOk qp st → (clBack sq qp reg preg G g st).1 = false := by
  obtain ⟨cP, p0, hcP, h⟩ := clLoop_large sq hsq qp hwf hN reg G g (qp.dim.N - 1) (le_refl _)
  rw [show qp.dim.N - (qp.dim.N - 1) = 1 by omega] at h
  obtain ⟨c, hc, hA⟩ := ricM_bound (qp.dim.nu 0 + qp.dim.nx 0) (qp.dim.nx (0 + 1)) (kH qp (fun _ _ => 0) reg G 0) (qp.BAbt 0) cP hcP
  refine ⟨max p0 ((qp.dim.nu 0 + qp.dim.nx 0 : ℕ) * c + 1), fun preg hpreg st hR hB => ?_⟩
  obtain ⟨hb, h1, h2, h3, h4⟩ := h preg (le_trans (le_max_left _ _) hpreg) st hR hB
  set s0 := clLoop sq qp reg preg G g st (qp.dim.N - 1) with hs0
  have hs : clBack sq qp reg preg G g st = (if s0.1 then s0
    else if qp.dim.N > 0 then
      (singular (qp.dim.nu (qp.dim.N - (qp.dim.N - 1) - 1) + qp.dim.nx (qp.dim.N - (qp.dim.N - 1) - 1))
        ((clFirst sq qp reg preg G g (qp.dim.N - (qp.dim.N - 1) - 1) s0.2).L (qp.dim.N - (qp.dim.N - 1) - 1)),
        clFirst sq qp reg preg G g (qp.dim.N - (qp.dim.N - 1) - 1) s0.2)
    else s0) := rfl
  rw [hs, if_neg (by rw [hb]; simp), if_pos (by omega), show qp.dim.N - (qp.dim.N - 1) - 1 = 0 by omega]
  obtain ⟨f1, f2, f3, f4, C, L0, f5, f6⟩ := clFirst_val sq qp hwf reg preg (fun _ _ => preg) G g 0 (by omega)
    (fun i hi => rfl) s0.2 h1 h2 h3
  refine singular_eq_false (fun j hj => ?_)
  rw [f5]
  refine potrf_pd sq hsq _ _ (le_refl _) C L0 _ _ f6 (ricM_sym' qp _ reg G 0 _ h3) (dom_pd _ _ ?_) j hj
  exact diag_dom _ _ _ c preg (hA _ h4) hc (le_trans (le_max_right _ _) hpreg)
    (fun i j hi hj => by rw [ricM_split qp (fun _ _ => preg)])

variable [Archimedean K]

/-- the regularisation grows by a factor of at least 8 with each retry -/
theorem kktMain_grow (sq : K → K) (qp : OcpQp K) (hwf : qp.WF) (hN : 1 ≤ qp.dim.N) (reg preg_last : K)
    (G g : ℕ → Vec K) (p0 : K)
    (hp0 : ∀ preg, p0 ≤ preg → ∀ st : KktSt K, ROk qp st → BOk qp st → (clBack sq qp reg preg G g st).1 = false)
    (n : ℕ) (fuel : ℕ) (hf : n ≤ fuel) (preg : K) (hpos : 0 < preg) (hn : p0 ≤ preg * 8 ^ n) (st : KktSt K) (hR : ROk qp st) (hB : BOk qp st) :
    ∃ r, kktMain sq qp reg preg_last G g fuel preg true false st = some r := by
  induction n generalizing fuel preg st with
  | zero =>
    rw [pow_zero, mul_one] at hn
    unfold kktMain
    simp only [Bool.false_eq_true, if_false]
    rw [hp0 preg hn st hR hB]
    exact ⟨_, rfl⟩
  | succ n ih =>
    obtain ⟨f, rfl⟩ := Nat.exists_eq_add_of_le hf
    rw [show n + 1 + f = (n + f) + 1 by omega]
    unfold kktMain
    simp only [Bool.false_eq_true, if_false]
    by_cases hs : (clBack sq qp reg preg G g st).1 = true
    · rw [if_pos hs]
      obtain ⟨k1, k2, _⟩ := clBack_ok sq qp hwf hN reg preg G g st hR hB
      have hge : preg * 8 ≤ nextPreg reg preg_last preg true := by
        unfold nextPreg
        simp only [Bool.true_eq_false, if_false, if_true]
        split_ifs
        · linarith
        · exact le_refl _
      refine ih (n + f) (by omega) _ (by linarith) ?_ _ k1 k2
      refine le_trans hn ?_
      rw [pow_succ, mul_comm (8 ^ n) 8, ← mul_assoc]
      exact mul_le_mul_of_nonneg_right hge (by positivity)
    · rw [if_neg hs]; exact ⟨_, rfl⟩

/-- the sign condition under which the retries make the regularisation grow -/
def RegGrows (reg preg_last : K) : Prop := 0 < (if preg_last = reg then preg_last + 1 / 10000 else preg_last / 3)

theorem kktMain_ends (sq : K → K) (hsq : ∀ x, 0 < x → sq x * sq x = x) (qp : OcpQp K) (hwf : qp.WF) (hN : 1 ≤ qp.dim.N) (reg preg_last : K)
    (hgr : RegGrows reg preg_last) (G g : ℕ → Vec K) (preg : K) (sqr : Bool) (st : KktSt K) (hR : ROk qp st) (hB : BOk qp st) :
    ∃ n, ∀ fuel, n ≤ fuel → ∃ r, kktMain sq qp reg preg_last G g fuel preg false sqr st = some r := by
  obtain ⟨p0, hp0⟩ := clBack_large sq hsq qp hwf hN reg G g
  have hq : 0 < nextPreg reg preg_last preg false := by
    unfold nextPreg; simpa [RegGrows] using hgr
  obtain ⟨n, hn⟩ := pow_unbounded_of_one_lt (p0 / nextPreg reg preg_last preg false) (show (1 : K) < 8 by norm_num)
  refine ⟨n + 1, fun fuel hf => ?_⟩
  obtain ⟨f, rfl⟩ := Nat.exists_eq_add_of_le hf
  rw [show n + 1 + f = (n + f) + 1 by omega]
  unfold kktMain
  by_cases hs : (if sqr then sqBack sq qp reg preg G g st else clBack sq qp reg preg G g st).1 = true
  · simp only []
    rw [if_pos hs]
    have hk : ROk qp (if sqr then sqBack sq qp reg preg G g st else clBack sq qp reg preg G g st).2 ∧
        BOk qp (if sqr then sqBack sq qp reg preg G g st else clBack sq qp reg preg G g st).2 := by
      cases sqr
      · obtain ⟨k1, k2, _⟩ := clBack_ok sq qp hwf hN reg preg G g st hR hB
        exact ⟨k1, k2⟩
      · obtain ⟨k1, k2, _⟩ := sqBack_ok sq qp hwf reg preg (fun _ _ => preg) (fun _ _ _ _ => rfl) G g st hR hB
        exact ⟨k1, k2⟩
    refine kktMain_grow sq qp hwf hN reg preg_last G g p0 hp0 n (n + f) (by omega) _ hq ?_ _ hk.1 hk.2
    rw [mul_comm]
    exact le_of_lt ((div_lt_iff₀ hq).mp hn)
  · simp only []
    rw [if_neg hs]; exact ⟨_, rfl⟩

/-- **C53.**  The factorise-and-solve routine returns for every QP, convex or not, whatever the iterate: the loop over the
regularisation ends.  Only `reg_prim` and the regularisation remembered from the previous call must allow it to
grow, e.g. both nonnegative and the latter not zero unless equal to the former. -/
theorem factSolve_ends (sq : K → K) (hsq : ∀ x, 0 < x → sq x * sq x = x) (qp : OcpQp K) (hwf : qp.WF)
    (hN : 1 ≤ qp.dim.N) (dual sqr : Bool) (reg preg_last : K) (hgr : RegGrows reg preg_last) (c : Core K)
    (st : KktSt K) (hR : ROk qp st) (hB : BOk qp st) :
    ∃ n, ∀ fuel, n ≤ fuel → ∃ out, factSolveKktStep sq fuel qp dual sqr reg preg_last c st = some out := by
  obtain ⟨n, h⟩ := kktMain_ends sq hsq qp hwf hN reg preg_last hgr
    (stView qp.dim (computeGammaGamma (stFlat (nct qp.dim) qp.d (qp.dim.N + 1)) (stFlat (nct qp.dim) qp.m (qp.dim.N + 1)) c).Gamma)
    (stView qp.dim (computeGammaGamma (stFlat (nct qp.dim) qp.d (qp.dim.N + 1)) (stFlat (nct qp.dim) qp.m (qp.dim.N + 1)) c).gamma)
    reg sqr st hR hB
  refine ⟨n, fun fuel hf => ?_⟩
  obtain ⟨r, hr⟩ := h fuel hf
  unfold factSolveKktStep
  simp only []
  rw [hr]
  exact ⟨_, rfl⟩

end
end Hpipm
