/-
The adjoint identity behind stationarity: pairing the gradient of the Lagrangian with a direction
gives the directional derivative of the objective plus the multipliers paired with the linearised
constraints (intermediate results in packed form).
-/
import Verif.ResVal

namespace Hpipm
open Finset
set_option linter.unusedSectionVars false

section
variable {K : Type*} [Field K] [LinearOrder K] [IsStrictOrderedRing K]

/-- linear part of the inequality defects -/
def linD (qp : OcpQp K) (h : ℕ → Vec K) (k j : ℕ) : K :=
  let nv := qp.dim.nu k + qp.dim.nx k
  let n := qp.dim.nb k + qp.dim.ng k
  if j < n then - cval qp k (h k) j - slk qp k (h k) nv j
  else if j < 2 * n then cval qp k (h k) (j - n) - slk qp k (h k) (nv + qp.dim.ns k) (j - n)
  else - h k (nv + (j - 2 * n))

/-- linear part of the dynamics defect -/
def linB (qp : OcpQp K) (h : ℕ → Vec K) (k i : ℕ) : K :=
  - h (k + 1) (qp.dim.nu (k + 1) + i) + ∑ j ∈ range (qp.dim.nu k + qp.dim.nx k), qp.BAbt k j i * h k j

/-- Hessian (of inputs, states and slacks) times a vector -/
def hessMul (qp : OcpQp K) (v : ℕ → Vec K) (k i : ℕ) : K :=
  if i < qp.dim.nu k + qp.dim.nx k then hmul qp k (v k) i
  else qp.Z k (i - (qp.dim.nu k + qp.dim.nx k)) * v k i

/-- pairing of stage vectors -/
def pairV (D : QpDim) (a h : ℕ → Vec K) : K := ∑ k ∈ range (D.N + 1), ∑ i ∈ range (nvt D k), a k i * h k i
def pairC (D : QpDim) (a h : ℕ → Vec K) : K := ∑ k ∈ range (D.N + 1), ∑ j ∈ range (nct D k), a k j * h k j
def pairE (D : QpDim) (a h : ℕ → Vec K) : K := ∑ k ∈ range D.N, ∑ i ∈ range (D.nx (k + 1)), a k i * h k i

variable (qp : OcpQp K)

theorem vD_lin (sol : Sol K) (k j : ℕ) : vD qp sol k j = qp.d k j + sol.t k j + linD qp sol.ux k j := by
  simp only [vD, linD]; split_ifs <;> ring

theorem vB_lin (sol : Sol K) (k i : ℕ) : vB qp sol k i = qp.b k i + linB qp sol.ux k i := by
  simp only [vB, linB]; ring

theorem cval_add (k : ℕ) (v w : Vec K) (j : ℕ) :
    cval qp k (fun i => v i + w i) j = cval qp k v j + cval qp k w j := by
  simp only [cval]; split_ifs
  · rfl
  · simp only [mul_add, sum_add_distrib]
theorem cval_smul (k : ℕ) (c : K) (v : Vec K) (j : ℕ) :
    cval qp k (fun i => c * v i) j = c * cval qp k v j := by
  simp only [cval]; split_ifs
  · rfl
  · rw [mul_sum]; exact sum_congr rfl (fun i _ => by ring)
theorem slk_add (k : ℕ) (v w : Vec K) (o j : ℕ) :
    slk qp k (fun i => v i + w i) o j = slk qp k v o j + slk qp k w o j := by
  simp only [slk]; split_ifs <;> simp
theorem slk_smul (k : ℕ) (c : K) (v : Vec K) (o j : ℕ) :
    slk qp k (fun i => c * v i) o j = c * slk qp k v o j := by
  simp only [slk]; split_ifs <;> simp
theorem hmul_add (k : ℕ) (v w : Vec K) (i : ℕ) :
    hmul qp k (fun i => v i + w i) i = hmul qp k v i + hmul qp k w i := by
  simp only [hmul, mul_add, sum_add_distrib]
theorem hmul_smul (k : ℕ) (c : K) (v : Vec K) (i : ℕ) :
    hmul qp k (fun i => c * v i) i = c * hmul qp k v i := by
  simp only [hmul]; rw [mul_sum]; exact sum_congr rfl (fun i _ => by ring)
theorem linD_add (v w : ℕ → Vec K) (k j : ℕ) :
    linD qp (fun k i => v k i + w k i) k j = linD qp v k j + linD qp w k j := by
  simp only [linD, cval_add, slk_add]; split_ifs <;> ring
theorem linB_add (v w : ℕ → Vec K) (k i : ℕ) :
    linB qp (fun k i => v k i + w k i) k i = linB qp v k i + linB qp w k i := by
  simp only [linB, mul_add, sum_add_distrib]; ring
theorem hessMul_add (v w : ℕ → Vec K) (k i : ℕ) :
    hessMul qp (fun k i => v k i + w k i) k i = hessMul qp v k i + hessMul qp w k i := by
  simp only [hessMul, hmul_add]; split_ifs <;> ring
theorem linD_smul (c : K) (v : ℕ → Vec K) (k j : ℕ) :
    linD qp (fun k i => c * v k i) k j = c * linD qp v k j := by
  simp only [linD, cval_smul, slk_smul]; split_ifs <;> ring
theorem linB_smul (c : K) (v : ℕ → Vec K) (k i : ℕ) :
    linB qp (fun k i => c * v k i) k i = c * linB qp v k i := by
  simp only [linB, mul_add, mul_sum]
  congr 1
  · ring
  · exact sum_congr rfl (fun i _ => by ring)
theorem hessMul_smul (c : K) (v : ℕ → Vec K) (k i : ℕ) :
    hessMul qp (fun k i => c * v k i) k i = c * hessMul qp v k i := by
  simp only [hessMul, hmul_smul]; split_ifs <;> ring

theorem pairV_add_left (D : QpDim) (a b h : ℕ → Vec K) :
    pairV D (fun k i => a k i + b k i) h = pairV D a h + pairV D b h := by
  simp only [pairV, add_mul, sum_add_distrib]
theorem pairV_add_right (D : QpDim) (a b h : ℕ → Vec K) :
    pairV D h (fun k i => a k i + b k i) = pairV D h a + pairV D h b := by
  simp only [pairV, mul_add, sum_add_distrib]
theorem pairC_add_right (D : QpDim) (a b h : ℕ → Vec K) :
    pairC D h (fun k i => a k i + b k i) = pairC D h a + pairC D h b := by
  simp only [pairC, mul_add, sum_add_distrib]
theorem pairE_add_right (D : QpDim) (a b h : ℕ → Vec K) :
    pairE D h (fun k i => a k i + b k i) = pairE D h a + pairE D h b := by
  simp only [pairE, mul_add, sum_add_distrib]

theorem pairV_congr (D : QpDim) (a a' h h' : ℕ → Vec K)
    (e : ∀ k i, k ≤ D.N → i < nvt D k → a k i * h k i = a' k i * h' k i) : pairV D a h = pairV D a' h' := by
  apply sum_congr rfl; intro k hk; apply sum_congr rfl; intro i hi
  exact e k i (by have := mem_range.mp hk; omega) (mem_range.mp hi)
theorem pairC_congr (D : QpDim) (a a' h h' : ℕ → Vec K)
    (e : ∀ k i, k ≤ D.N → i < nct D k → a k i * h k i = a' k i * h' k i) : pairC D a h = pairC D a' h' := by
  apply sum_congr rfl; intro k hk; apply sum_congr rfl; intro i hi
  exact e k i (by have := mem_range.mp hk; omega) (mem_range.mp hi)
theorem pairE_congr (D : QpDim) (a a' h h' : ℕ → Vec K)
    (e : ∀ k i, k < D.N → i < D.nx (k + 1) → a k i * h k i = a' k i * h' k i) : pairE D a h = pairE D a' h' := by
  apply sum_congr rfl; intro k hk; apply sum_congr rfl; intro i hi
  exact e k i (mem_range.mp hk) (mem_range.mp hi)

theorem symL_symm (A : Mat K) (i j : ℕ) : symL A 0 0 i j = symL A 0 0 j i := by
  simp only [symL]
  rcases lt_trichotomy i j with h | h | h
  · rw [if_neg (by omega), if_pos (by omega)]
  · subst h; rfl
  · rw [if_pos (by omega), if_neg (by omega)]

/-- the Hessian is symmetric -/
theorem hess_symm (v w : ℕ → Vec K) : pairV qp.dim (hessMul qp v) w = pairV qp.dim (hessMul qp w) v := by
  simp only [pairV]
  apply sum_congr rfl
  intro k _
  simp only [nvt]
  rw [sum_range_add _ (qp.dim.nu k + qp.dim.nx k), sum_range_add _ (qp.dim.nu k + qp.dim.nx k)]
  congr 1
  · have : ∀ v w : ℕ → Vec K, ∑ i ∈ range (qp.dim.nu k + qp.dim.nx k), hessMul qp v k i * w k i =
        ∑ i ∈ range (qp.dim.nu k + qp.dim.nx k), ∑ j ∈ range (qp.dim.nu k + qp.dim.nx k),
          symL (qp.RSQrq k) 0 0 i j * v k j * w k i := by
      intro v w
      apply sum_congr rfl
      intro i hi
      rw [hessMul, if_pos (mem_range.mp hi), hmul, sum_mul]
    rw [this, this, sum_comm]
    apply sum_congr rfl; intro i _; apply sum_congr rfl; intro j _
    rw [symL_symm]; ring
  · apply sum_congr rfl
    intro s _
    simp only [hessMul]
    rw [if_neg (by omega), if_neg (by omega)]; ring

theorem cvalT_adj (hwf : qp.WF) (k : ℕ) (hk : k ≤ qp.dim.N) (w h : Vec K) :
    ∑ i ∈ range (qp.dim.nu k + qp.dim.nx k), cvalT qp k w i * h i =
    ∑ j ∈ range (qp.dim.nb k + qp.dim.ng k), w j * cval qp k h j := by
  simp only [cvalT, add_mul, sum_add_distrib]
  rw [sum_range_add _ (qp.dim.nb k)]
  congr 1
  · simp only [sum_mul]
    rw [sum_comm]
    apply sum_congr rfl
    intro j hj
    have hj := mem_range.mp hj
    simp only [cval, if_pos hj, ite_mul, zero_mul]
    rw [sum_ite_eq, if_pos (mem_range.mpr (hwf.1 k j hk hj))]
  · simp only [sum_mul]
    rw [sum_comm]
    apply sum_congr rfl
    intro j hj
    simp only [cval]
    rw [if_neg (by omega), mul_sum, show qp.dim.nb k + j - qp.dim.nb k = j from by omega]
    exact sum_congr rfl (fun i _ => by ring)

theorem slkT_adj (hwf : qp.WF) (k : ℕ) (hk : k ≤ qp.dim.N) (w h : Vec K) (o : ℕ) :
    ∑ s ∈ range (qp.dim.ns k), slkT qp k w s * h (o + s) =
    ∑ j ∈ range (qp.dim.nb k + qp.dim.ng k), w j * slk qp k h o j := by
  simp only [slkT, sum_mul]
  rw [sum_comm]
  apply sum_congr rfl
  intro j hj
  have hj := mem_range.mp hj
  simp only [slk, ite_mul, zero_mul]
  rcases hwf.2 k j hk hj with h1 | h1
  · simp [h1]
  · have h2 : qp.idxs_rev k j ≠ -1 := by omega
    simp only [h2, ne_eq, not_false_eq_true, true_and, if_false]
    rw [sum_ite_eq', if_pos (mem_range.mpr h1.2)]

theorem sum3 (n ns : ℕ) (f : ℕ → K) : ∑ j ∈ range (2 * n + 2 * ns), f j =
    (∑ j ∈ range n, f j) + (∑ j ∈ range n, f (n + j)) + ((∑ s ∈ range ns, f (2 * n + s)) + ∑ s ∈ range ns, f (2 * n + (ns + s))) := by
  rw [sum_range_add _ (2 * n), two_mul n, sum_range_add _ n n, two_mul ns, sum_range_add _ ns ns]

theorem linD_pair (k : ℕ) (lm : Vec K) (h : ℕ → Vec K) :
    ∑ j ∈ range (nct qp.dim k), lm j * linD qp h k j =
    (∑ j ∈ range (qp.dim.nb k + qp.dim.ng k),
      (lm (qp.dim.nb k + qp.dim.ng k + j) - lm j) * cval qp k (h k) j)
    - (∑ j ∈ range (qp.dim.nb k + qp.dim.ng k), lm j * slk qp k (h k) (qp.dim.nu k + qp.dim.nx k) j)
    - (∑ j ∈ range (qp.dim.nb k + qp.dim.ng k),
        lm (qp.dim.nb k + qp.dim.ng k + j) * slk qp k (h k) (qp.dim.nu k + qp.dim.nx k + qp.dim.ns k) j)
    - (∑ s ∈ range (2 * qp.dim.ns k),
        lm (2 * (qp.dim.nb k + qp.dim.ng k) + s) * h k (qp.dim.nu k + qp.dim.nx k + s)) := by
  have e : nct qp.dim k = 2 * (qp.dim.nb k + qp.dim.ng k) + 2 * qp.dim.ns k := by unfold nct; ring
  rw [e, sum3]
  set n := qp.dim.nb k + qp.dim.ng k with hn
  set nv := qp.dim.nu k + qp.dim.nx k with hnv
  have a1 : ∑ j ∈ range n, lm j * linD qp h k j =
      - (∑ j ∈ range n, lm j * cval qp k (h k) j) - ∑ j ∈ range n, lm j * slk qp k (h k) nv j := by
    rw [← sum_neg_distrib, ← sum_sub_distrib]
    apply sum_congr rfl
    intro j hj
    have := mem_range.mp hj
    simp only [linD]
    rw [if_pos (by omega)]; ring
  have a2 : ∑ j ∈ range n, lm (n + j) * linD qp h k (n + j) =
      (∑ j ∈ range n, lm (n + j) * cval qp k (h k) j) - ∑ j ∈ range n, lm (n + j) * slk qp k (h k) (nv + qp.dim.ns k) j := by
    rw [← sum_sub_distrib]
    apply sum_congr rfl
    intro j hj
    have := mem_range.mp hj
    simp only [linD]
    rw [if_neg (by omega), if_pos (by omega), ← hn, show n + j - n = j by omega]; ring
  have a3 : ∀ s, lm (2 * n + s) * linD qp h k (2 * n + s) = - (lm (2 * n + s) * h k (nv + s)) := by
    intro s
    simp only [linD]
    rw [if_neg (by omega), if_neg (by omega), ← hn, show 2 * n + s - 2 * n = s by omega]; ring
  rw [a1, a2, sum_congr rfl (fun s _ => a3 s), sum_congr rfl (fun s _ => a3 (qp.dim.ns k + s)),
    two_mul (qp.dim.ns k), sum_range_add _ (qp.dim.ns k)]
  simp only [sub_mul, sum_sub_distrib, sum_neg_distrib]
  ring

theorem vG_stage_pair (hwf : qp.WF) (sol : Sol K) (lm : Vec K) (k : ℕ) (hk : k ≤ qp.dim.N) (h : ℕ → Vec K) :
    ∑ i ∈ range (nvt qp.dim k), vG qp sol lm k i * h k i =
    (∑ i ∈ range (nvt qp.dim k), (hessMul qp sol.ux k i + qp.rqz k i) * h k i)
    - (if 0 < k then ∑ i ∈ range (qp.dim.nx k), sol.pi (k - 1) i * h k (qp.dim.nu k + i) else 0)
    + (if k < qp.dim.N then ∑ i ∈ range (qp.dim.nx (k + 1)), sol.pi k i *
        ∑ j ∈ range (qp.dim.nu k + qp.dim.nx k), qp.BAbt k j i * h k j else 0)
    + ∑ j ∈ range (nct qp.dim k), lm j * linD qp h k j := by
  rw [linD_pair, ← cvalT_adj qp hwf k hk, ← slkT_adj qp hwf k hk, ← slkT_adj qp hwf k hk]
  simp only [nvt]
  rw [sum_range_add _ (qp.dim.nu k + qp.dim.nx k), sum_range_add _ (qp.dim.nu k + qp.dim.nx k)]
  have a1 : ∑ i ∈ range (qp.dim.nu k + qp.dim.nx k), vG qp sol lm k i * h k i =
      (∑ i ∈ range (qp.dim.nu k + qp.dim.nx k), (hessMul qp sol.ux k i + qp.rqz k i) * h k i)
      - (∑ i ∈ range (qp.dim.nu k + qp.dim.nx k),
          (if 0 < k ∧ qp.dim.nu k ≤ i then sol.pi (k - 1) (i - qp.dim.nu k) else 0) * h k i)
      + (∑ i ∈ range (qp.dim.nu k + qp.dim.nx k),
          cvalT qp k (fun j => lm (qp.dim.nb k + qp.dim.ng k + j) - lm j) i * h k i)
      + (∑ i ∈ range (qp.dim.nu k + qp.dim.nx k),
          (if k < qp.dim.N then ∑ j ∈ range (qp.dim.nx (k + 1)), qp.BAbt k i j * sol.pi k j else 0) * h k i) := by
    rw [← sum_sub_distrib, ← sum_add_distrib, ← sum_add_distrib]
    apply sum_congr rfl
    intro i hi
    have hi := mem_range.mp hi
    simp only [vG, hessMul, if_pos hi]
    ring
  have a2 : ∑ i ∈ range (qp.dim.nu k + qp.dim.nx k),
          (if 0 < k ∧ qp.dim.nu k ≤ i then sol.pi (k - 1) (i - qp.dim.nu k) else 0) * h k i =
      if 0 < k then ∑ i ∈ range (qp.dim.nx k), sol.pi (k - 1) i * h k (qp.dim.nu k + i) else 0 := by
    rw [sum_range_add]
    by_cases h0 : 0 < k
    · rw [if_pos h0, sum_eq_zero, zero_add]
      · apply sum_congr rfl
        intro i _
        rw [if_pos ⟨h0, by omega⟩, show qp.dim.nu k + i - qp.dim.nu k = i by omega]
      · intro i hi
        have := mem_range.mp hi
        rw [if_neg (by omega), zero_mul]
    · rw [if_neg h0, sum_eq_zero, sum_eq_zero, zero_add]
      · intro i _; rw [if_neg (by omega), zero_mul]
      · intro i _; rw [if_neg (by omega), zero_mul]
  have a3 : ∑ i ∈ range (qp.dim.nu k + qp.dim.nx k),
          (if k < qp.dim.N then ∑ j ∈ range (qp.dim.nx (k + 1)), qp.BAbt k i j * sol.pi k j else 0) * h k i =
      if k < qp.dim.N then ∑ i ∈ range (qp.dim.nx (k + 1)), sol.pi k i *
        ∑ j ∈ range (qp.dim.nu k + qp.dim.nx k), qp.BAbt k j i * h k j else 0 := by
    split_ifs
    · simp only [sum_mul, mul_sum]
      rw [sum_comm]
      exact sum_congr rfl (fun i _ => sum_congr rfl (fun j _ => by ring))
    · simp
  have a4 : ∑ s ∈ range (2 * qp.dim.ns k), vG qp sol lm k (qp.dim.nu k + qp.dim.nx k + s) * h k (qp.dim.nu k + qp.dim.nx k + s)
      = (∑ s ∈ range (2 * qp.dim.ns k), (hessMul qp sol.ux k (qp.dim.nu k + qp.dim.nx k + s)
            + qp.rqz k (qp.dim.nu k + qp.dim.nx k + s)) * h k (qp.dim.nu k + qp.dim.nx k + s))
        - (∑ s ∈ range (qp.dim.ns k), slkT qp k lm s * h k (qp.dim.nu k + qp.dim.nx k + s))
        - (∑ s ∈ range (qp.dim.ns k), slkT qp k (fun j => lm (qp.dim.nb k + qp.dim.ng k + j)) s *
            h k (qp.dim.nu k + qp.dim.nx k + qp.dim.ns k + s))
        - (∑ s ∈ range (2 * qp.dim.ns k),
            lm (2 * (qp.dim.nb k + qp.dim.ng k) + s) * h k (qp.dim.nu k + qp.dim.nx k + s)) := by
    have b1 : (∑ s ∈ range (qp.dim.ns k), slkT qp k lm s * h k (qp.dim.nu k + qp.dim.nx k + s))
        + (∑ s ∈ range (qp.dim.ns k), slkT qp k (fun j => lm (qp.dim.nb k + qp.dim.ng k + j)) s *
            h k (qp.dim.nu k + qp.dim.nx k + qp.dim.ns k + s))
        = ∑ s ∈ range (2 * qp.dim.ns k), (if s < qp.dim.ns k then slkT qp k lm s else
            slkT qp k (fun j => lm (qp.dim.nb k + qp.dim.ng k + j)) (s - qp.dim.ns k)) *
            h k (qp.dim.nu k + qp.dim.nx k + s) := by
      rw [two_mul, sum_range_add]
      congr 1
      · apply sum_congr rfl
        intro s hs
        rw [if_pos (mem_range.mp hs)]
      · apply sum_congr rfl
        intro s _
        rw [if_neg (by omega), show qp.dim.ns k + s - qp.dim.ns k = s by omega, add_assoc]
    rw [sub_sub (∑ s ∈ range (2 * qp.dim.ns k), _) _ _, b1, ← sum_sub_distrib, ← sum_sub_distrib]
    apply sum_congr rfl
    intro s _
    simp only [vG, hessMul]
    have hnn : ¬ (qp.dim.nu k + qp.dim.nx k + s < qp.dim.nu k + qp.dim.nx k) := by omega
    simp only [if_neg hnn, show qp.dim.nu k + qp.dim.nx k + s - (qp.dim.nu k + qp.dim.nx k) = s by omega]
    ring
  rw [a1, a2, a3, a4]
  ring

/-- **adjoint identity** over the whole horizon -/
theorem vG_pair (hwf : qp.WF) (sol : Sol K) (lm : ℕ → Vec K) (h : ℕ → Vec K) :
    pairV qp.dim (fun k i => vG qp sol (lm k) k i) h =
    pairV qp.dim (fun k i => hessMul qp sol.ux k i + qp.rqz k i) h
    + pairE qp.dim sol.pi (linB qp h) + pairC qp.dim lm (linD qp h) := by
  simp only [pairV, pairE, pairC]
  rw [sum_congr rfl (fun k hk => vG_stage_pair qp hwf sol (lm k) k (by have := mem_range.mp hk; omega) h)]
  rw [sum_add_distrib, sum_add_distrib, sum_sub_distrib]
  congr 1
  have c1 : ∑ k ∈ range (qp.dim.N + 1), (if 0 < k then
      ∑ i ∈ range (qp.dim.nx k), sol.pi (k - 1) i * h k (qp.dim.nu k + i) else 0) =
      ∑ k ∈ range qp.dim.N, ∑ i ∈ range (qp.dim.nx (k + 1)), sol.pi k i * h (k + 1) (qp.dim.nu (k + 1) + i) := by
    rw [sum_range_succ']
    simp
  have c2 : ∑ k ∈ range (qp.dim.N + 1), (if k < qp.dim.N then ∑ i ∈ range (qp.dim.nx (k + 1)), sol.pi k i *
        ∑ j ∈ range (qp.dim.nu k + qp.dim.nx k), qp.BAbt k j i * h k j else 0) =
      ∑ k ∈ range qp.dim.N, ∑ i ∈ range (qp.dim.nx (k + 1)), sol.pi k i *
        ∑ j ∈ range (qp.dim.nu k + qp.dim.nx k), qp.BAbt k j i * h k j := by
    rw [sum_range_succ, if_neg (lt_irrefl _), add_zero]
    exact sum_congr rfl (fun k hk => by rw [if_pos (mem_range.mp hk)])
  rw [c1, c2]
  simp only [linB, mul_add, sum_add_distrib, mul_neg, sum_neg_distrib]
  ring

end
end Hpipm
