/-
Closed forms of the residual routines in the packed data layout (intermediate results; the
user-level statements are in ResProps.lean).
-/
import Verif.Res

namespace Hpipm
open Finset

section
variable {K : Type*} [Field K] [LinearOrder K]

/-- index lists stay in range: what a QP must satisfy for the C code to touch only its own arrays -/
def OcpQp.WF (qp : OcpQp K) : Prop :=
  (∀ k j, k ≤ qp.dim.N → j < qp.dim.nb k → qp.idxb k j < qp.dim.nu k + qp.dim.nx k) ∧
  (∀ k j, k ≤ qp.dim.N → j < qp.dim.nb k + qp.dim.ng k →
    qp.idxs_rev k j = -1 ∨ (0 ≤ qp.idxs_rev k j ∧ (qp.idxs_rev k j).toNat < qp.dim.ns k))

/-- value of constraint `j` of stage `k` (boxes first, then general constraints) at `v = (u,x)` -/
def cval (qp : OcpQp K) (k : ℕ) (v : Vec K) (j : ℕ) : K :=
  if j < qp.dim.nb k then v (qp.idxb k j)
  else ∑ i ∈ range (qp.dim.nu k + qp.dim.nx k), qp.DCt k i (j - qp.dim.nb k) * v i

/-- transposed constraint matrix times `w` -/
def cvalT (qp : OcpQp K) (k : ℕ) (w : Vec K) (i : ℕ) : K :=
  (∑ j ∈ range (qp.dim.nb k), if qp.idxb k j = i then w j else 0)
  + ∑ j ∈ range (qp.dim.ng k), qp.DCt k i j * w (qp.dim.nb k + j)

/-- Hessian of stage `k` times `v` -/
def hmul (qp : OcpQp K) (k : ℕ) (v : Vec K) (i : ℕ) : K :=
  ∑ j ∈ range (qp.dim.nu k + qp.dim.nx k), symL (qp.RSQrq k) 0 0 i j * v j

/-- slack entry used by constraint `j` in the slack vector starting at `o` -/
def slk (qp : OcpQp K) (k : ℕ) (v : Vec K) (o j : ℕ) : K :=
  if qp.idxs_rev k j = -1 then 0 else v (o + (qp.idxs_rev k j).toNat)

/-- sum of the multipliers `w` of the constraints softened by slack `s` -/
def slkT (qp : OcpQp K) (k : ℕ) (w : Vec K) (s : ℕ) : K :=
  ∑ j ∈ range (qp.dim.nb k + qp.dim.ng k),
    if qp.idxs_rev k j ≠ -1 ∧ s = (qp.idxs_rev k j).toNat then w j else 0

/-- gradient of the Lagrangian in packed form; `lm` are the masked multipliers of the stage -/
def vG (qp : OcpQp K) (sol : Sol K) (lm : Vec K) (k i : ℕ) : K :=
  let nv := qp.dim.nu k + qp.dim.nx k
  let n := qp.dim.nb k + qp.dim.ng k
  let ns := qp.dim.ns k
  if i < nv then
    hmul qp k (sol.ux k) i + qp.rqz k i
      - (if 0 < k ∧ qp.dim.nu k ≤ i then sol.pi (k - 1) (i - qp.dim.nu k) else 0)
      + cvalT qp k (fun j => lm (n + j) - lm j) i
      + (if k < qp.dim.N then ∑ j ∈ range (qp.dim.nx (k + 1)), qp.BAbt k i j * sol.pi k j else 0)
  else
    qp.Z k (i - nv) * sol.ux k i + qp.rqz k i - lm (2 * n + (i - nv))
      - (if i - nv < ns then slkT qp k lm (i - nv) else slkT qp k (fun j => lm (n + j)) (i - nv - ns))

/-- dynamics defect in packed form -/
def vB (qp : OcpQp K) (sol : Sol K) (k i : ℕ) : K :=
  qp.b k i - sol.ux (k + 1) (qp.dim.nu (k + 1) + i)
    + ∑ j ∈ range (qp.dim.nu k + qp.dim.nx k), qp.BAbt k j i * sol.ux k j

/-- inequality defect in packed form (before masking) -/
def vD (qp : OcpQp K) (sol : Sol K) (k i : ℕ) : K :=
  let nv := qp.dim.nu k + qp.dim.nx k
  let n := qp.dim.nb k + qp.dim.ng k
  let ns := qp.dim.ns k
  if i < n then qp.d k i + sol.t k i - cval qp k (sol.ux k) i - slk qp k (sol.ux k) nv i
  else if i < 2 * n then
    qp.d k i + sol.t k i + cval qp k (sol.ux k) (i - n) - slk qp k (sol.ux k) (nv + ns) (i - n)
  else qp.d k i + sol.t k i - sol.ux k (nv + (i - 2 * n))

theorem softLoop_val (nb ng ns nv : ℕ) (ir : ℕ → ℤ) (tl ux g d : Vec K) :
    (∀ i, (softLoop nb ng ns nv ir tl ux g d).1 i = g i
      - (∑ j ∈ range (nb + ng), if ir j ≠ -1 ∧ i = nv + (ir j).toNat then tl j else 0)
      - (∑ j ∈ range (nb + ng), if ir j ≠ -1 ∧ i = nv + ns + (ir j).toNat then tl (nb + ng + j) else 0)) ∧
    (∀ i, (softLoop nb ng ns nv ir tl ux g d).2 i = d i
      - (if i < nb + ng ∧ ir i ≠ -1 then ux (nv + (ir i).toNat) else 0)
      - (if (nb + ng ≤ i ∧ i < 2 * (nb + ng)) ∧ ir (i - (nb + ng)) ≠ -1 then
          ux (nv + ns + (ir (i - (nb + ng))).toNat) else 0)) := by
  unfold softLoop
  have key := loop_inv (S := Vec K × Vec K) (fun m s =>
    (∀ i, s.1 i = g i
      - (∑ j ∈ range m, if ir j ≠ -1 ∧ i = nv + (ir j).toNat then tl j else 0)
      - (∑ j ∈ range m, if ir j ≠ -1 ∧ i = nv + ns + (ir j).toNat then tl (nb + ng + j) else 0)) ∧
    (∀ i, s.2 i = d i
      - (if i < m ∧ ir i ≠ -1 then ux (nv + (ir i).toNat) else 0)
      - (if (nb + ng ≤ i ∧ i < (nb + ng) + m) ∧ ir (i - (nb + ng)) ≠ -1 then
          ux (nv + ns + (ir (i - (nb + ng))).toNat) else 0)))
    (nb + ng) (fun jj s =>
    if ir jj ≠ -1 then
      let idx := (ir jj).toNat
      let g1 := upd s.1 (nv + idx) (s.1 (nv + idx) - tl jj)
      let g2 := upd g1 (nv + ns + idx) (g1 (nv + ns + idx) - tl (nb + ng + jj))
      let d1 := upd s.2 jj (s.2 jj - ux (nv + idx))
      let d2 := upd d1 (nb + ng + jj) (d1 (nb + ng + jj) - ux (nv + ns + idx))
      (g2, d2)
    else s) (g, d) ?_ ?_
  · refine ⟨key.1, fun i => ?_⟩
    rw [two_mul]
    exact key.2 i
  · refine ⟨fun i => by simp, fun i => ?_⟩
    rw [if_neg (by omega), if_neg (by omega)]; simp
  · intro m s hm ⟨h1, h2⟩
    by_cases hir : ir m = -1
    · simp only [hir, ne_eq, not_true_eq_false, if_false]
      refine ⟨fun i => ?_, fun i => ?_⟩
      · rw [h1, sum_range_succ, sum_range_succ]; simp [hir]
      · rw [h2]
        congr 1
        · congr 1
          by_cases him : i = m
          · subst him; simp [hir]
          · have : (i < m + 1) = (i < m) := by apply propext; omega
            simp only [this]
        · by_cases him : i = nb + ng + m
          · subst him; simp [hir]
          · have : (i < nb + ng + (m + 1)) = (i < nb + ng + m) := by apply propext; omega
            simp only [this]
    · simp only [ne_eq, hir, not_false_eq_true, if_true]
      refine ⟨fun i => ?_, fun i => ?_⟩
      · rw [sum_range_succ, sum_range_succ]
        simp only [upd, ne_eq, hir, not_false_eq_true, true_and, h1]
        split_ifs <;> simp_all <;> ring
      · simp only [upd, h2]
        by_cases h3 : i = nb + ng + m
        · subst h3
          have e : nb + ng + m - (nb + ng) = m := by omega
          rw [if_pos rfl, if_neg (by omega), e, if_neg (by omega), if_neg (by omega), if_neg (by omega),
            if_pos ⟨by omega, hir⟩]
          ring
        · rw [if_neg h3]
          have e : (i < nb + ng + (m + 1)) = (i < nb + ng + m) := by apply propext; omega
          simp only [e]
          by_cases h4 : i = m
          · subst h4
            have h5 : ¬ (nb + ng ≤ i) := by omega
            simp [h5, hir]
          · rw [if_neg h4]
            have e : (i < m + 1) = (i < m) := by apply propext; omega
            simp only [e]

theorem cond_vecad (n : ℕ) (a : K) (x : Vec K) (xi : ℕ) (idx : ℕ → ℕ) (z : Vec K) (zi : ℕ) :
    (if n > 0 then vecad_sp n a x xi idx z zi else z) = vecad_sp n a x xi idx z zi := by
  rcases Nat.eq_zero_or_pos n with h | h
  · subst h; funext i; simp [vecad_sp]
  · rw [if_pos h]

theorem cond_vecex (n : ℕ) (a : K) (idx : ℕ → ℕ) (x : Vec K) (xi : ℕ) (z : Vec K) (zi : ℕ) :
    (if n > 0 then vecex_sp n a idx x xi z zi else z) = vecex_sp n a idx x xi z zi := by
  rcases Nat.eq_zero_or_pos n with h | h
  · subst h; funext i; simp only [vecex_sp, gt_iff_lt, lt_irrefl, if_false]; rw [if_neg (by omega)]
  · rw [if_pos h]

theorem cond_gemv_n (m n : ℕ) (A : Mat K) (x : Vec K) (xi : ℕ) (z : Vec K) :
    (if n > 0 then gemv_n m n 1 A 0 0 x xi 1 z 0 z 0 else z) = gemv_n m n 1 A 0 0 x xi 1 z 0 z 0 := by
  rcases Nat.eq_zero_or_pos n with h | h
  · subst h; funext i; simp [gemv_n]
  · rw [if_pos h]

theorem cond_gemv_t (m n : ℕ) (b : K) (A : Mat K) (x : Vec K) (xi : ℕ) (z : Vec K) (zi : ℕ) :
    (if n > 0 then gemv_t m n 1 A 0 0 x xi b z zi z zi else z) = gemv_t m n 1 A 0 0 x xi b z zi z zi := by
  rcases Nat.eq_zero_or_pos n with h | h
  · subst h; funext i; simp only [gemv_t, gt_iff_lt, lt_irrefl, if_false]; rw [if_neg (by omega)]
  · rw [if_pos h]

theorem axpy_nil (n : ℕ) (hn : n = 0) (a : K) (x : Vec K) (xi : ℕ) (y : Vec K) (yi : ℕ) (z : Vec K) (zi : ℕ) :
    axpy n a x xi y yi z zi = z := by
  subst hn; funext i; simp only [axpy]; rw [if_neg (by omega)]

theorem gemv_diag_nil (n : ℕ) (hn : n = 0) (a : K) (A : Vec K) (ai : ℕ) (x : Vec K) (xi : ℕ) (b : K) (y : Vec K)
    (yi : ℕ) (z : Vec K) (zi : ℕ) : gemv_diag n a A ai x xi b y yi z zi = z := by
  subst hn; funext i; simp only [gemv_diag]; rw [if_neg (by omega)]

theorem dot_nil (n : ℕ) (hn : n = 0) (x : Vec K) (xi : ℕ) (y : Vec K) (yi : ℕ) : dot n x xi y yi = 0 := by
  subst hn; simp [dot]

theorem cond_nil {α : Type*} (c : Prop) [Decidable c] (x y : α) (h : ¬ c → x = y) :
    (if decide c = true then x else y) = x := by
  by_cases hc : c
  · simp [hc]
  · simp [hc, h hc]

theorem softLoop_none (nb ng ns nv : ℕ) (ir : ℕ → ℤ) (tl ux g d : Vec K)
    (h : ∀ j, j < nb + ng → ir j = -1) : softLoop nb ng ns nv ir tl ux g d = (g, d) := by
  unfold softLoop
  refine loop_inv (fun _ s => s = (g, d)) (nb + ng) _ (g, d) rfl ?_
  intro i s hi hs
  simp [h i hi, hs]

theorem cond_softLoop (qp : OcpQp K) (hwf : qp.WF) (k : ℕ) (hk : k ≤ qp.dim.N) (tl ux g d : Vec K) :
    (if decide (qp.dim.ns k > 0) = true then
      softLoop (qp.dim.nb k) (qp.dim.ng k) (qp.dim.ns k) (qp.dim.nu k + qp.dim.nx k) (qp.idxs_rev k) tl ux g d
      else (g, d)) =
    softLoop (qp.dim.nb k) (qp.dim.ng k) (qp.dim.ns k) (qp.dim.nu k + qp.dim.nx k) (qp.idxs_rev k) tl ux g d := by
  apply cond_nil
  intro hns
  apply softLoop_none
  intro j hj
  rcases hwf.2 k j hk hj with h | h
  · exact h
  · omega

theorem axpy_in {n : ℕ} {a : K} {x : Vec K} {xi : ℕ} {y : Vec K} {yi : ℕ} {z : Vec K} {zi i : ℕ}
    (h : zi ≤ i ∧ i < zi + n) : axpy n a x xi y yi z zi i = y (yi + (i - zi)) + a * x (xi + (i - zi)) := by
  simp only [axpy, if_pos h]
theorem axpy_out {n : ℕ} {a : K} {x : Vec K} {xi : ℕ} {y : Vec K} {yi : ℕ} {z : Vec K} {zi i : ℕ}
    (h : ¬ (zi ≤ i ∧ i < zi + n)) : axpy n a x xi y yi z zi i = z i := by
  simp only [axpy, if_neg h]
theorem vecmul_in {n : ℕ} {x : Vec K} {xi : ℕ} {y : Vec K} {yi : ℕ} {z : Vec K} {zi i : ℕ}
    (h : zi ≤ i ∧ i < zi + n) : vecmul n x xi y yi z zi i = x (xi + (i - zi)) * y (yi + (i - zi)) := by
  simp only [vecmul, if_pos h]
theorem vecmulacc_in {n : ℕ} {x : Vec K} {xi : ℕ} {y : Vec K} {yi : ℕ} {z : Vec K} {zi i : ℕ}
    (h : zi ≤ i ∧ i < zi + n) : vecmulacc n x xi y yi z zi i = z i + x (xi + (i - zi)) * y (yi + (i - zi)) := by
  simp only [vecmulacc, if_pos h]
theorem veccp_in {α : Type*} {n : ℕ} {x : ℕ → α} {xi : ℕ} {y : ℕ → α} {yi i : ℕ}
    (h : yi ≤ i ∧ i < yi + n) : veccp n x xi y yi i = x (xi + (i - yi)) := by
  simp only [veccp, if_pos h]
theorem veccp_out {α : Type*} {n : ℕ} {x : ℕ → α} {xi : ℕ} {y : ℕ → α} {yi i : ℕ}
    (h : ¬ (yi ≤ i ∧ i < yi + n)) : veccp n x xi y yi i = y i := by
  simp only [veccp, if_neg h]
theorem gemv_n_in {m n : ℕ} {a : K} {A : Mat K} {ai aj : ℕ} {x : Vec K} {xi : ℕ} {b : K} {y : Vec K}
    {yi : ℕ} {z : Vec K} {zi i : ℕ} (h : zi ≤ i ∧ i < zi + m) : gemv_n m n a A ai aj x xi b y yi z zi i =
      b * y (yi + (i - zi)) + a * ∑ j ∈ range n, A (ai + (i - zi)) (aj + j) * x (xi + j) := by
  simp only [gemv_n, if_pos h]
theorem gemv_n_out {m n : ℕ} {a : K} {A : Mat K} {ai aj : ℕ} {x : Vec K} {xi : ℕ} {b : K} {y : Vec K}
    {yi : ℕ} {z : Vec K} {zi i : ℕ} (h : ¬ (zi ≤ i ∧ i < zi + m)) :
    gemv_n m n a A ai aj x xi b y yi z zi i = z i := by
  simp only [gemv_n, if_neg h]
theorem gemv_t_in {m n : ℕ} {a : K} {A : Mat K} {ai aj : ℕ} {x : Vec K} {xi : ℕ} {b : K} {y : Vec K}
    {yi : ℕ} {z : Vec K} {zi j : ℕ} (h : zi ≤ j ∧ j < zi + n) : gemv_t m n a A ai aj x xi b y yi z zi j =
      b * y (yi + (j - zi)) + a * ∑ i ∈ range m, A (ai + i) (aj + (j - zi)) * x (xi + i) := by
  simp only [gemv_t, if_pos h]
theorem gemv_t_out {m n : ℕ} {a : K} {A : Mat K} {ai aj : ℕ} {x : Vec K} {xi : ℕ} {b : K} {y : Vec K}
    {yi : ℕ} {z : Vec K} {zi j : ℕ} (h : ¬ (zi ≤ j ∧ j < zi + n)) :
    gemv_t m n a A ai aj x xi b y yi z zi j = z j := by
  simp only [gemv_t, if_neg h]
theorem gemv_diag_in {n : ℕ} {a : K} {A : Vec K} {ai : ℕ} {x : Vec K} {xi : ℕ} {b : K} {y : Vec K}
    {yi : ℕ} {z : Vec K} {zi i : ℕ} (h : zi ≤ i ∧ i < zi + n) : gemv_diag n a A ai x xi b y yi z zi i =
      b * y (yi + (i - zi)) + a * (A (ai + (i - zi)) * x (xi + (i - zi))) := by
  simp only [gemv_diag, if_pos h]
theorem gemv_diag_out {n : ℕ} {a : K} {A : Vec K} {ai : ℕ} {x : Vec K} {xi : ℕ} {b : K} {y : Vec K}
    {yi : ℕ} {z : Vec K} {zi i : ℕ} (h : ¬ (zi ≤ i ∧ i < zi + n)) :
    gemv_diag n a A ai x xi b y yi z zi i = z i := by
  simp only [gemv_diag, if_neg h]
theorem symv_l_in {m : ℕ} {a : K} {A : Mat K} {ai aj : ℕ} {x : Vec K} {xi : ℕ} {b : K} {y : Vec K}
    {yi : ℕ} {z : Vec K} {zi i : ℕ} (h : zi ≤ i ∧ i < zi + m) : symv_l m a A ai aj x xi b y yi z zi i =
      b * y (yi + (i - zi)) + a * ∑ j ∈ range m, symL A ai aj (i - zi) j * x (xi + j) := by
  simp only [symv_l, if_pos h]
theorem vecex_in {n : ℕ} {a : K} {idx : ℕ → ℕ} {x : Vec K} {xi : ℕ} {z : Vec K} {zi i : ℕ}
    (h : zi ≤ i ∧ i < zi + n) : vecex_sp n a idx x xi z zi i = a * x (xi + idx (i - zi)) := by
  simp only [vecex_sp, if_pos h]
theorem vecex_out {n : ℕ} {a : K} {idx : ℕ → ℕ} {x : Vec K} {xi : ℕ} {z : Vec K} {zi i : ℕ}
    (h : ¬ (zi ≤ i ∧ i < zi + n)) : vecex_sp n a idx x xi z zi i = z i := by
  simp only [vecex_sp, if_neg h]

/-- the gradient chain of one stage, from the cost part `g0` (already `H ux + rqz`) on -/
theorem chainG (qp : OcpQp K) (hwf : qp.WF) (sol : Sol K) (k : ℕ) (hk : k ≤ qp.dim.N) (tl tmp0 rd g0 : Vec K)
    (h0 : ∀ j, j < qp.dim.nb k + qp.dim.ng k → tmp0 j = tl (qp.dim.nb k + qp.dim.ng k + j) - tl j)
    (hg0 : ∀ i, i < qp.dim.nu k + qp.dim.nx k → g0 i = hmul qp k (sol.ux k) i + qp.rqz k i)
    (i : ℕ) (hi : i < nvt qp.dim k) (g2 : Vec K)
    (hg2a : ∀ i, i < qp.dim.nu k + qp.dim.nx k → g2 i =
      gemv_n (qp.dim.nu k + qp.dim.nx k) (qp.dim.ng k) 1 (qp.DCt k) 0 0 tmp0 (qp.dim.nb k) 1
        (vecad_sp (qp.dim.nb k) 1 tmp0 0 (qp.idxb k)
          (if k > 0 then axpy (qp.dim.nx k) (-1) (sol.pi (k - 1)) 0 g0 (qp.dim.nu k) g0 (qp.dim.nu k) else g0) 0) 0
        (vecad_sp (qp.dim.nb k) 1 tmp0 0 (qp.idxb k)
          (if k > 0 then axpy (qp.dim.nx k) (-1) (sol.pi (k - 1)) 0 g0 (qp.dim.nu k) g0 (qp.dim.nu k) else g0) 0) 0 i)
    (hg2b : ∀ s, s < 2 * qp.dim.ns k → g2 (qp.dim.nu k + qp.dim.nx k + s) =
      qp.Z k s * sol.ux k (qp.dim.nu k + qp.dim.nx k + s) + qp.rqz k (qp.dim.nu k + qp.dim.nx k + s)) :
    (if decide (k < qp.dim.N) = true then
      gemv_n (qp.dim.nu k + qp.dim.nx k) (qp.dim.nx (k + 1)) 1 (qp.BAbt k) 0 0 (sol.pi k) 0 1
        (softLoop (qp.dim.nb k) (qp.dim.ng k) (qp.dim.ns k) (qp.dim.nu k + qp.dim.nx k) (qp.idxs_rev k) tl (sol.ux k)
          (axpy (2 * qp.dim.ns k) (-1) tl (2 * qp.dim.nb k + 2 * qp.dim.ng k) g2 (qp.dim.nu k + qp.dim.nx k) g2
            (qp.dim.nu k + qp.dim.nx k)) rd).1 0
        (softLoop (qp.dim.nb k) (qp.dim.ng k) (qp.dim.ns k) (qp.dim.nu k + qp.dim.nx k) (qp.idxs_rev k) tl (sol.ux k)
          (axpy (2 * qp.dim.ns k) (-1) tl (2 * qp.dim.nb k + 2 * qp.dim.ng k) g2 (qp.dim.nu k + qp.dim.nx k) g2
            (qp.dim.nu k + qp.dim.nx k)) rd).1 0
      else (softLoop (qp.dim.nb k) (qp.dim.ng k) (qp.dim.ns k) (qp.dim.nu k + qp.dim.nx k) (qp.idxs_rev k) tl (sol.ux k)
          (axpy (2 * qp.dim.ns k) (-1) tl (2 * qp.dim.nb k + 2 * qp.dim.ng k) g2 (qp.dim.nu k + qp.dim.nx k) g2
            (qp.dim.nu k + qp.dim.nx k)) rd).1) i = vG qp sol tl k i := by
  unfold nvt at hi
  rw [ite_apply]
  by_cases hiv : i < qp.dim.nu k + qp.dim.nx k
  · have e1 : (softLoop (qp.dim.nb k) (qp.dim.ng k) (qp.dim.ns k) (qp.dim.nu k + qp.dim.nx k) (qp.idxs_rev k) tl (sol.ux k)
          (axpy (2 * qp.dim.ns k) (-1) tl (2 * qp.dim.nb k + 2 * qp.dim.ng k) g2 (qp.dim.nu k + qp.dim.nx k) g2
            (qp.dim.nu k + qp.dim.nx k)) rd).1 i = g2 i := by
      rw [(softLoop_val _ _ _ _ _ _ _ _ _).1 i, axpy_out (by omega)]
      rw [sum_eq_zero, sum_eq_zero]
      · simp
      · intro j _; rw [if_neg (by omega)]
      · intro j _; rw [if_neg (by omega)]
    have e2 : g2 i = hmul qp k (sol.ux k) i + qp.rqz k i
      - (if 0 < k ∧ qp.dim.nu k ≤ i then sol.pi (k - 1) (i - qp.dim.nu k) else 0)
      + cvalT qp k (fun j => tl (qp.dim.nb k + qp.dim.ng k + j) - tl j) i := by
      rw [hg2a i hiv, gemv_n_in (by omega)]
      simp only [Nat.sub_zero, Nat.zero_add, one_mul, vecad_sp, cvalT]
      have a1 : (if k > 0 then axpy (qp.dim.nx k) (-1) (sol.pi (k - 1)) 0 g0 (qp.dim.nu k) g0 (qp.dim.nu k) else g0) i
          = hmul qp k (sol.ux k) i + qp.rqz k i
            - (if 0 < k ∧ qp.dim.nu k ≤ i then sol.pi (k - 1) (i - qp.dim.nu k) else 0) := by
        rw [ite_apply]
        by_cases hk0 : k > 0
        · rw [if_pos hk0]
          by_cases hx : qp.dim.nu k ≤ i
          · rw [axpy_in (by omega), if_pos ⟨hk0, hx⟩,
              show qp.dim.nu k + (i - qp.dim.nu k) = i from by omega, hg0 i hiv]
            simp only [Nat.zero_add]
            ring
          · rw [axpy_out (by omega), if_neg (by omega), hg0 i hiv]; simp
        · rw [if_neg hk0, if_neg (by omega), hg0 i hiv]; simp
      rw [a1, add_assoc _ (∑ j ∈ range (qp.dim.nb k), _) _]
      congr 2
      · apply sum_congr rfl
        intro j hj
        rw [h0 j (by have := mem_range.mp hj; omega)]
      · apply sum_congr rfl
        intro j hj
        rw [h0 _ (by have := mem_range.mp hj; omega)]
    simp only [vG, if_pos hiv]
    by_cases hN : k < qp.dim.N
    · simp only [hN, decide_true, if_true]
      rw [gemv_n_in (by omega)]
      simp only [Nat.sub_zero, Nat.zero_add, one_mul]
      rw [e1, e2]
    · simp only [hN, decide_false, if_false, Bool.false_eq_true]
      rw [e1, e2]; ring
  · obtain ⟨s, rfl⟩ := Nat.exists_eq_add_of_le (Nat.le_of_not_lt hiv)
    have hs : s < 2 * qp.dim.ns k := by omega
    have hsub : qp.dim.nu k + qp.dim.nx k + s - (qp.dim.nu k + qp.dim.nx k) = s := by omega
    rw [gemv_n_out (by omega), ite_self, (softLoop_val _ _ _ _ _ _ _ _ _).1, axpy_in (by omega), hsub, hg2b s hs]
    simp only [vG, if_neg hiv, hsub]
    have a1 : (∑ j ∈ range (qp.dim.nb k + qp.dim.ng k), if qp.idxs_rev k j ≠ -1 ∧
        qp.dim.nu k + qp.dim.nx k + s = qp.dim.nu k + qp.dim.nx k + (qp.idxs_rev k j).toNat then tl j else 0)
        = if s < qp.dim.ns k then slkT qp k tl s else 0 := by
      unfold slkT
      split_ifs with h
      · apply sum_congr rfl
        intro j _
        congr 1
        apply propext
        constructor <;> intro h' <;> refine ⟨h'.1, ?_⟩ <;> omega
      · apply sum_eq_zero
        intro j hj
        rw [if_neg]
        rintro ⟨h1, h2⟩
        rcases hwf.2 k j hk (mem_range.mp hj) with h3 | h3
        · exact h1 h3
        · omega
    have a2 : (∑ j ∈ range (qp.dim.nb k + qp.dim.ng k), if qp.idxs_rev k j ≠ -1 ∧
        qp.dim.nu k + qp.dim.nx k + s = qp.dim.nu k + qp.dim.nx k + qp.dim.ns k + (qp.idxs_rev k j).toNat then
          tl (qp.dim.nb k + qp.dim.ng k + j) else 0)
        = if s < qp.dim.ns k then 0 else
            slkT qp k (fun j => tl (qp.dim.nb k + qp.dim.ng k + j)) (s - qp.dim.ns k) := by
      unfold slkT
      split_ifs with h
      · apply sum_eq_zero
        intro j hj
        rw [if_neg]
        rintro ⟨h1, h2⟩
        omega
      · apply sum_congr rfl
        intro j _
        congr 1
        apply propext
        constructor <;> intro h' <;> refine ⟨h'.1, ?_⟩ <;> omega
    rw [a1, a2, show 2 * qp.dim.nb k + 2 * qp.dim.ng k + s = 2 * (qp.dim.nb k + qp.dim.ng k) + s by ring]
    split_ifs <;> ring

/-- the inequality chain of one stage (before masking) -/
theorem chainD (qp : OcpQp K) (hwf : qp.WF) (sol : Sol K) (k : ℕ) (hk : k ≤ qp.dim.N)
    (tl g tmp1 rd0 : Vec K) (i : ℕ) (hi : i < nct qp.dim k) :
    let n := qp.dim.nb k + qp.dim.ng k
    let nv := qp.dim.nu k + qp.dim.nx k
    let tmp1 := vecex_sp (qp.dim.nb k) 1 (qp.idxb k) (sol.ux k) 0 tmp1 0
    let tmp1 := gemv_t nv (qp.dim.ng k) 1 (qp.DCt k) 0 0 (sol.ux k) 0 0 tmp1 (qp.dim.nb k) tmp1 (qp.dim.nb k)
    let rd := axpy (2 * qp.dim.nb k + 2 * qp.dim.ng k) 1 (qp.d k) 0 (sol.t k) 0 rd0 0
    let rd := axpy n (-1) tmp1 0 rd 0 rd 0
    let rd := axpy n 1 tmp1 0 rd n rd n
    let rd := (softLoop (qp.dim.nb k) (qp.dim.ng k) (qp.dim.ns k) nv (qp.idxs_rev k) tl (sol.ux k) g rd).2
    let rd := axpy (2 * qp.dim.ns k) (-1) (sol.ux k) nv (sol.t k) (2 * qp.dim.nb k + 2 * qp.dim.ng k) rd
      (2 * qp.dim.nb k + 2 * qp.dim.ng k)
    let rd := axpy (2 * qp.dim.ns k) 1 (qp.d k) (2 * qp.dim.nb k + 2 * qp.dim.ng k) rd
      (2 * qp.dim.nb k + 2 * qp.dim.ng k) rd (2 * qp.dim.nb k + 2 * qp.dim.ng k)
    rd i = vD qp sol k i := by
  intro n nv tmp1 tmp1' rd1 rd2 rd3 rd4 rd5 rd6
  unfold nct at hi
  have ht : ∀ j, j < n → tmp1' j = cval qp k (sol.ux k) j := by
    intro j hj
    simp only [tmp1', cval]
    by_cases hb : j < qp.dim.nb k
    · rw [gemv_t_out (by omega), if_pos hb]
      simp only [tmp1]
      rw [vecex_in (by omega)]
      simp
    · rw [gemv_t_in (by omega), if_neg hb]
      simp [nv]
  have hn : n = qp.dim.nb k + qp.dim.ng k := rfl
  have hnv : nv = qp.dim.nu k + qp.dim.nx k := rfl
  by_cases h1 : i < 2 * n
  · simp only [rd6]
    rw [axpy_out (by omega)]
    simp only [rd5]
    rw [axpy_out (by omega)]
    simp only [rd4]
    rw [(softLoop_val _ _ _ _ _ _ _ _ _).2 i]
    by_cases h2 : i < n
    · simp only [rd3]
      rw [axpy_out (by omega)]
      simp only [rd2]
      rw [axpy_in (by omega)]
      simp only [rd1]
      rw [axpy_in (by omega)]
      simp only [Nat.sub_zero, Nat.zero_add]
      rw [ht i h2]
      simp only [vD]
      rw [if_pos (by omega : i < qp.dim.nb k + qp.dim.ng k)]
      have h3 : ¬ (qp.dim.nb k + qp.dim.ng k ≤ i) := by omega
      have h4 : i < qp.dim.nb k + qp.dim.ng k := by omega
      simp only [h3, h4, false_and, if_false, true_and, slk, ne_eq, ← hnv]
      simp only [ite_not]
      split_ifs <;> ring
    · simp only [rd3]
      rw [axpy_in (by omega)]
      simp only [rd2]
      rw [axpy_out (by omega)]
      simp only [rd1]
      rw [axpy_in (by omega)]
      simp only [Nat.sub_zero, Nat.zero_add]
      rw [ht (i - n) (by omega)]
      simp only [vD]
      have h3 : qp.dim.nb k + qp.dim.ng k ≤ i := by omega
      have h4 : ¬ i < qp.dim.nb k + qp.dim.ng k := by omega
      have h5 : i < 2 * (qp.dim.nb k + qp.dim.ng k) := by omega
      rw [show n + (i - n) = i from by omega]
      simp only [h3, h4, h5, false_and, if_false, true_and, if_true, slk, ne_eq, ← hnv]
      rw [← hn]
      simp only [ite_not]
      split_ifs <;> ring
  · simp only [rd6]
    rw [axpy_in (by omega)]
    simp only [rd5]
    rw [axpy_in (by omega)]
    simp only [vD]
    rw [if_neg (by omega), if_neg (by omega)]
    have e1 : 2 * qp.dim.nb k + 2 * qp.dim.ng k = 2 * (qp.dim.nb k + qp.dim.ng k) := by ring
    rw [e1, show 2 * (qp.dim.nb k + qp.dim.ng k) + (2 * (qp.dim.nb k + qp.dim.ng k) + (i - 2 * (qp.dim.nb k + qp.dim.ng k)) - 2 * (qp.dim.nb k + qp.dim.ng k)) = i by omega,
      show 2 * (qp.dim.nb k + qp.dim.ng k) + (i - 2 * (qp.dim.nb k + qp.dim.ng k)) - 2 * (qp.dim.nb k + qp.dim.ng k) = i - 2 * (qp.dim.nb k + qp.dim.ng k) by omega,
      show 2 * (qp.dim.nb k + qp.dim.ng k) + (i - 2 * (qp.dim.nb k + qp.dim.ng k)) = i by omega]
    ring

/-- masked multipliers -/
def lamM (qp : OcpQp K) (sol : Sol K) (k j : ℕ) : K := qp.d_mask k j * sol.lam k j

/-- objective contribution of a stage, packed form -/
def vObj (qp : OcpQp K) (sol : Sol K) (k : ℕ) : K :=
  let nv := qp.dim.nu k + qp.dim.nx k
  1 / 2 * (∑ i ∈ range nv, (hmul qp k (sol.ux k) i + 2 * qp.rqz k i) * sol.ux k i)
  + 1 / 2 * ∑ s ∈ range (2 * qp.dim.ns k),
      (qp.Z k s * sol.ux k (nv + s) + 2 * qp.rqz k (nv + s)) * sol.ux k (nv + s)

/-- duality gap contribution of a stage, packed form -/
def vGap (qp : OcpQp K) (sol : Sol K) (k : ℕ) : K :=
  let nv := qp.dim.nu k + qp.dim.nx k
  (∑ i ∈ range nv, (hmul qp k (sol.ux k) i + qp.rqz k i) * sol.ux k i)
  + (∑ s ∈ range (2 * qp.dim.ns k),
      (qp.Z k s * sol.ux k (nv + s) + qp.rqz k (nv + s)) * sol.ux k (nv + s))
  - (∑ j ∈ range (nct qp.dim k), qp.d k j * lamM qp sol k j)
  - (if k < qp.dim.N then ∑ j ∈ range (qp.dim.nx (k + 1)), qp.b k j * sol.pi k j else 0)

/-- complementarity residual, packed form -/
def vM (qp : OcpQp K) (sol : Sol K) (k j : ℕ) : K :=
  qp.d_mask k j * (lamM qp sol k j * sol.t k j - qp.m k j)

/-- linearised complementarity residual, packed form -/
def vML (qp : OcpQp K) (sol step : Sol K) (k j : ℕ) : K :=
  qp.d_mask k j * (qp.m k j + sol.lam k j * step.t k j + step.lam k j * sol.t k j)

/-- the flag `mask_constr` is allowed to be `false` only when no constraint is masked -/
def MaskOk (qp : OcpQp K) (mask : Bool) : Prop :=
  mask = true ∨ ∀ k j, k ≤ qp.dim.N → j < nct qp.dim k → qp.d_mask k j = 1

theorem vG_congr (qp : OcpQp K) (sol : Sol K) (lm lm' : Vec K) (k i : ℕ)
    (h : ∀ j, j < nct qp.dim k → lm j = lm' j) (hi : i < nvt qp.dim k) :
    vG qp sol lm k i = vG qp sol lm' k i := by
  unfold nct at h
  unfold nvt at hi
  simp only [vG]
  split_ifs with h1 h2
  · congr 2
    simp only [cvalT]
    congr 1
    · apply sum_congr rfl
      intro j hj
      have := mem_range.mp hj
      rw [h j (by omega), h _ (by omega)]
    · apply sum_congr rfl
      intro j hj
      have := mem_range.mp hj
      rw [h _ (by omega), h _ (by omega)]
  · congr 2
    simp only [cvalT]
    congr 1
    · apply sum_congr rfl
      intro j hj
      have := mem_range.mp hj
      rw [h j (by omega), h _ (by omega)]
    · apply sum_congr rfl
      intro j hj
      have := mem_range.mp hj
      rw [h _ (by omega), h _ (by omega)]
  · congr 2
    simp only [cvalT]
    congr 1
    · apply sum_congr rfl
      intro j hj
      have := mem_range.mp hj
      rw [h j (by omega), h _ (by omega)]
    · apply sum_congr rfl
      intro j hj
      have := mem_range.mp hj
      rw [h _ (by omega), h _ (by omega)]
  · congr 2
    simp only [cvalT]
    congr 1
    · apply sum_congr rfl
      intro j hj
      have := mem_range.mp hj
      rw [h j (by omega), h _ (by omega)]
    · apply sum_congr rfl
      intro j hj
      have := mem_range.mp hj
      rw [h _ (by omega), h _ (by omega)]
  · rw [h _ (by omega)]
    congr 1
    simp only [slkT]
    apply sum_congr rfl
    intro j hj
    have := mem_range.mp hj
    rw [h j (by omega)]
  · rw [h _ (by omega)]
    congr 1
    simp only [slkT]
    apply sum_congr rfl
    intro j hj
    have := mem_range.mp hj
    rw [h _ (by omega)]

/-- `tmp_lam_mask` holds the masked multipliers -/
theorem tl_val (qp : OcpQp K) (sol : Sol K) (mask : Bool) (hm : MaskOk qp mask) (k : ℕ) (hk : k ≤ qp.dim.N)
    (z : Vec K) (j : ℕ) (hj : j < nct qp.dim k) :
    (if mask = true then vecmul (nct qp.dim k) (sol.lam k) 0 (qp.d_mask k) 0 z 0
      else veccp (nct qp.dim k) (sol.lam k) 0 z 0) j = lamM qp sol k j := by
  rw [ite_apply]
  rw [vecmul_in (by omega), veccp_in (by omega)]
  simp only [Nat.sub_zero, Nat.zero_add, lamM]
  rcases hm with h | h
  · rw [if_pos h, mul_comm]
  · rw [h k j hk hj]; simp

theorem mask_val (qp : OcpQp K) (mask : Bool) (hm : MaskOk qp mask) (k : ℕ) (hk : k ≤ qp.dim.N)
    (z : Vec K) (j : ℕ) (hj : j < nct qp.dim k) :
    (if mask = true then vecmul (nct qp.dim k) (qp.d_mask k) 0 z 0 z 0 else z) j = qp.d_mask k j * z j := by
  rw [ite_apply, vecmul_in (by omega)]
  simp only [Nat.sub_zero, Nat.zero_add]
  rcases hm with h | h
  · rw [if_pos h]
  · rw [h k j hk hj]; simp

/-- what one stage of the residual loop leaves in its vectors and accumulators -/
structure StageOk (qp : OcpQp K) (sol : Sol K) (k : ℕ) (r : Res K) : Prop where
  g : ∀ i, i < nvt qp.dim k → r.res_g k i = vG qp sol (lamM qp sol k) k i
  b : k < qp.dim.N → ∀ i, i < qp.dim.nx (k + 1) → r.res_b k i = vB qp sol k i
  d : ∀ j, j < nct qp.dim k → r.res_d k j = qp.d_mask k j * vD qp sol k j

theorem chainB (qp : OcpQp K) (sol : Sol K) (k : ℕ) (rb0 : Vec K) (hN : k < qp.dim.N) (i : ℕ)
    (hi : i < qp.dim.nx (k + 1)) :
    (if decide (k < qp.dim.N) = true then
      gemv_t (qp.dim.nu k + qp.dim.nx k) (qp.dim.nx (k + 1)) 1 (qp.BAbt k) 0 0 (sol.ux k) 0 1
        (if decide (k < qp.dim.N) = true then
          axpy (qp.dim.nx (k + 1)) (-1) (sol.ux (k + 1)) (qp.dim.nu (k + 1)) (qp.b k) 0 rb0 0 else rb0) 0
        (if decide (k < qp.dim.N) = true then
          axpy (qp.dim.nx (k + 1)) (-1) (sol.ux (k + 1)) (qp.dim.nu (k + 1)) (qp.b k) 0 rb0 0 else rb0) 0
      else (if decide (k < qp.dim.N) = true then
          axpy (qp.dim.nx (k + 1)) (-1) (sol.ux (k + 1)) (qp.dim.nu (k + 1)) (qp.b k) 0 rb0 0 else rb0)) i
    = vB qp sol k i := by
  simp only [hN, decide_true, if_true]
  rw [gemv_t_in (by omega), axpy_in (by omega)]
  simp only [Nat.sub_zero, Nat.zero_add, one_mul, vB]
  ring

theorem resStage_ok (qp : OcpQp K) (hwf : qp.WF) (sol : Sol K) (mask : Bool) (hm : MaskOk qp mask)
    (k : ℕ) (hk : k ≤ qp.dim.N) (st : ResSt K) :
    StageOk qp sol k (resStage qp sol mask k st).res := by
  refine ⟨fun i hi => ?_, fun hN i hi => ?_, fun j hj => ?_⟩
  · rw [← vG_congr qp sol _ (lamM qp sol k) k i (fun j hj => tl_val qp sol mask hm k hk st.ws.tmp_lam_mask j hj) hi]
    simp only [resStage, upd_same]
    simp only [cond_vecad, cond_gemv_n, cond_vecex, cond_gemv_t, cond_softLoop qp hwf k hk]
    set tl := (if mask = true then vecmul (nct qp.dim k) (sol.lam k) 0 (qp.d_mask k) 0 st.ws.tmp_lam_mask 0
      else veccp (nct qp.dim k) (sol.lam k) 0 st.ws.tmp_lam_mask 0) with htl
    rw [cond_nil (qp.dim.ns k > 0) (axpy (2 * qp.dim.ns k) (-1) tl _ _ _ _ _) _
      (fun h => axpy_nil _ (by omega) _ _ _ _ _ _ _)]
    rw [cond_nil (qp.dim.nb k + qp.dim.ng k > 0) (axpy (qp.dim.nb k + qp.dim.ng k) (-1) tl _ _ _ _ _) _
      (fun h => axpy_nil _ (by omega) _ _ _ _ _ _ _)]
    refine chainG qp hwf sol k hk tl
      (axpy (qp.dim.nb k + qp.dim.ng k) (-1) tl 0 tl (qp.dim.nb k + qp.dim.ng k) st.ws.tmp0 0) _
      (axpy (qp.dim.nu k + qp.dim.nx k) (-1) (qp.rqz k) 0
        (symv_l (qp.dim.nu k + qp.dim.nx k) 1 (qp.RSQrq k) 0 0 (sol.ux k) 0 2 (qp.rqz k) 0 (st.res.res_g k) 0) 0
        (symv_l (qp.dim.nu k + qp.dim.nx k) 1 (qp.RSQrq k) 0 0 (sol.ux k) 0 2 (qp.rqz k) 0 (st.res.res_g k) 0) 0)
      ?_ ?_ i hi _ ?_ ?_
    · intro j hj
      rw [axpy_in (by omega)]
      simp only [Nat.sub_zero, Nat.zero_add]; ring
    · intro i hi
      rw [axpy_in (by omega)]
      simp only [Nat.sub_zero, Nat.zero_add]
      rw [symv_l_in (by omega)]
      simp only [Nat.sub_zero, Nat.zero_add, hmul]; ring
    · intro i hi
      by_cases h : qp.dim.ns k > 0
      · simp only [h, decide_true, if_true]
        rw [axpy_out (by omega), gemv_diag_out (by omega)]
      · simp only [h, decide_false, Bool.false_eq_true, if_false]
    · intro s hs
      have h : qp.dim.ns k > 0 := by omega
      simp only [h, decide_true, if_true]
      rw [axpy_in (by omega), show qp.dim.nu k + qp.dim.nx k + s - (qp.dim.nu k + qp.dim.nx k) = s from by omega,
        gemv_diag_in (by omega), show qp.dim.nu k + qp.dim.nx k + s - (qp.dim.nu k + qp.dim.nx k) = s from by omega]
      simp only [Nat.zero_add]
      ring
  · simp only [resStage, upd_same]
    exact chainB qp sol k _ hN i hi
  · simp only [resStage, upd_same]
    rw [mask_val qp mask hm k hk _ j hj]
    congr 1
    simp only [cond_vecad, cond_gemv_n, cond_vecex, cond_gemv_t, cond_softLoop qp hwf k hk]
    simp only [cond_nil (qp.dim.ns k > 0) (axpy (2 * qp.dim.ns k) _ _ _ _ _ _ _) _
      (fun h => axpy_nil _ (by omega) _ _ _ _ _ _ _)]
    simp only [cond_nil (qp.dim.nb k + qp.dim.ng k > 0) (axpy (qp.dim.nb k + qp.dim.ng k) _ _ _ _ _ _ _) _
      (fun h => axpy_nil _ (by omega) _ _ _ _ _ _ _)]
    simp only [cond_nil (qp.dim.nb k + qp.dim.ng k > 0) (axpy (2 * qp.dim.nb k + 2 * qp.dim.ng k) _ _ _ _ _ _ _) _
      (fun h => axpy_nil _ (by omega) _ _ _ _ _ _ _)]
    exact chainD qp hwf sol k hk _ _ _ _ j hj


theorem resLinStage_ok (qp : OcpQp K) (hwf : qp.WF) (sol0 sol : Sol K) (mask : Bool) (hm : MaskOk qp mask)
    (k : ℕ) (hk : k ≤ qp.dim.N) (st : ResSt K) :
    StageOk qp sol k (resLinStage qp sol0 sol mask k st).res := by
  refine ⟨fun i hi => ?_, fun hN i hi => ?_, fun j hj => ?_⟩
  · rw [← vG_congr qp sol _ (lamM qp sol k) k i (fun j hj => tl_val qp sol mask hm k hk st.ws.tmp_lam_mask j hj) hi]
    simp only [resLinStage, upd_same]
    simp only [cond_vecad, cond_gemv_n, cond_vecex, cond_gemv_t, cond_softLoop qp hwf k hk]
    set tl := (if mask = true then vecmul (nct qp.dim k) (sol.lam k) 0 (qp.d_mask k) 0 st.ws.tmp_lam_mask 0
      else veccp (nct qp.dim k) (sol.lam k) 0 st.ws.tmp_lam_mask 0) with htl
    rw [cond_nil (qp.dim.ns k > 0) (axpy (2 * qp.dim.ns k) (-1) tl _ _ _ _ _) _
      (fun h => axpy_nil _ (by omega) _ _ _ _ _ _ _)]
    rw [cond_nil (qp.dim.nb k + qp.dim.ng k > 0) (axpy (qp.dim.nb k + qp.dim.ng k) (-1) tl _ _ _ _ _) _
      (fun h => axpy_nil _ (by omega) _ _ _ _ _ _ _)]
    refine chainG qp hwf sol k hk tl
      (axpy (qp.dim.nb k + qp.dim.ng k) (-1) tl 0 tl (qp.dim.nb k + qp.dim.ng k) st.ws.tmp0 0) _
      (symv_l (qp.dim.nu k + qp.dim.nx k) 1 (qp.RSQrq k) 0 0 (sol.ux k) 0 1 (qp.rqz k) 0 (st.res.res_g k) 0)
      ?_ ?_ i hi _ ?_ ?_
    · intro j hj
      rw [axpy_in (by omega)]
      simp only [Nat.sub_zero, Nat.zero_add]; ring
    · intro i hi
      rw [symv_l_in (by omega)]
      simp only [Nat.sub_zero, Nat.zero_add, hmul]; ring
    · intro i hi
      by_cases h : qp.dim.ns k > 0
      · simp only [h, decide_true, if_true]
        rw [gemv_diag_out (by omega)]
      · simp only [h, decide_false, Bool.false_eq_true, if_false]
    · intro s hs
      have h : qp.dim.ns k > 0 := by omega
      simp only [h, decide_true, if_true]
      rw [gemv_diag_in (by omega), show qp.dim.nu k + qp.dim.nx k + s - (qp.dim.nu k + qp.dim.nx k) = s from by omega]
      simp only [Nat.zero_add]
      ring
  · simp only [resLinStage, upd_same]
    exact chainB qp sol k _ hN i hi
  · simp only [resLinStage, upd_same]
    rw [mask_val qp mask hm k hk _ j hj]
    congr 1
    simp only [cond_vecad, cond_gemv_n, cond_vecex, cond_gemv_t, cond_softLoop qp hwf k hk]
    simp only [cond_nil (qp.dim.ns k > 0) (axpy (2 * qp.dim.ns k) _ _ _ _ _ _ _) _
      (fun h => axpy_nil _ (by omega) _ _ _ _ _ _ _)]
    simp only [cond_nil (qp.dim.nb k + qp.dim.ng k > 0) (axpy (qp.dim.nb k + qp.dim.ng k) _ _ _ _ _ _ _) _
      (fun h => axpy_nil _ (by omega) _ _ _ _ _ _ _)]
    simp only [cond_nil (qp.dim.nb k + qp.dim.ng k > 0) (axpy (2 * qp.dim.nb k + 2 * qp.dim.ng k) _ _ _ _ _ _ _) _
      (fun h => axpy_nil _ (by omega) _ _ _ _ _ _ _)]
    exact chainD qp hwf sol k hk _ _ _ _ j hj

theorem resStage_m (qp : OcpQp K) (sol : Sol K) (mask : Bool) (hm : MaskOk qp mask)
    (k : ℕ) (hk : k ≤ qp.dim.N) (st : ResSt K) (j : ℕ) (hj : j < nct qp.dim k) :
    (resStage qp sol mask k st).res.res_m k j = vM qp sol k j := by
  simp only [resStage, upd_same]
  rw [mask_val qp mask hm k hk _ j hj]
  rw [axpy_in (by omega), vecmul_in (by omega)]
  simp only [Nat.sub_zero, Nat.zero_add]
  rw [tl_val qp sol mask hm k hk _ j hj]
  simp only [vM]; ring

theorem resLinStage_m (qp : OcpQp K) (sol step : Sol K) (mask : Bool) (hm : MaskOk qp mask)
    (k : ℕ) (hk : k ≤ qp.dim.N) (st : ResSt K) (j : ℕ) (hj : j < nct qp.dim k) :
    (resLinStage qp sol step mask k st).res.res_m k j = vML qp sol step k j := by
  simp only [resLinStage, upd_same]
  rw [mask_val qp mask hm k hk _ j hj]
  rw [vecmulacc_in (by omega), vecmulacc_in (by omega), veccp_in (by omega)]
  simp only [Nat.sub_zero, Nat.zero_add, vML]

theorem resStage_obj (qp : OcpQp K) (sol : Sol K) (mask : Bool) (k : ℕ) (st : ResSt K) :
    (resStage qp sol mask k st).res.obj = st.res.obj + vObj qp sol k := by
  simp only [resStage]
  have e1 : dot (qp.dim.nu k + qp.dim.nx k)
      (symv_l (qp.dim.nu k + qp.dim.nx k) 1 (qp.RSQrq k) 0 0 (sol.ux k) 0 2 (qp.rqz k) 0 (st.res.res_g k) 0) 0
      (sol.ux k) 0 = ∑ i ∈ range (qp.dim.nu k + qp.dim.nx k),
        (hmul qp k (sol.ux k) i + 2 * qp.rqz k i) * sol.ux k i := by
    simp only [dot]
    apply sum_congr rfl
    intro i hi
    have := mem_range.mp hi
    rw [symv_l_in (by omega)]
    simp only [Nat.sub_zero, Nat.zero_add, hmul]; ring
  rw [e1]
  simp only [vObj]
  by_cases h : qp.dim.ns k > 0
  · simp only [h, decide_true, if_true]
    rw [add_assoc]
    congr 3
    simp only [dot]
    apply sum_congr rfl
    intro s hs
    have := mem_range.mp hs
    rw [gemv_diag_in (by omega), show qp.dim.nu k + qp.dim.nx k + s - (qp.dim.nu k + qp.dim.nx k) = s from by omega]
    simp only [Nat.zero_add]; ring
  · have h0 : qp.dim.ns k = 0 := by omega
    simp [h0]

theorem resStage_gap (qp : OcpQp K) (sol : Sol K) (mask : Bool) (hm : MaskOk qp mask) (k : ℕ)
    (hk : k ≤ qp.dim.N) (st : ResSt K) :
    (resStage qp sol mask k st).res.dual_gap = st.res.dual_gap + vGap qp sol k := by
  simp only [resStage]
  have e1 : dot (qp.dim.nu k + qp.dim.nx k)
      (axpy (qp.dim.nu k + qp.dim.nx k) (-1) (qp.rqz k) 0
        (symv_l (qp.dim.nu k + qp.dim.nx k) 1 (qp.RSQrq k) 0 0 (sol.ux k) 0 2 (qp.rqz k) 0 (st.res.res_g k) 0) 0
        (symv_l (qp.dim.nu k + qp.dim.nx k) 1 (qp.RSQrq k) 0 0 (sol.ux k) 0 2 (qp.rqz k) 0 (st.res.res_g k) 0) 0) 0
      (sol.ux k) 0 = ∑ i ∈ range (qp.dim.nu k + qp.dim.nx k),
        (hmul qp k (sol.ux k) i + qp.rqz k i) * sol.ux k i := by
    simp only [dot]
    apply sum_congr rfl
    intro i hi
    have := mem_range.mp hi
    simp only [Nat.zero_add]
    rw [axpy_in (by omega)]
    simp only [Nat.sub_zero, Nat.zero_add]
    rw [symv_l_in (by omega)]
    simp only [Nat.sub_zero, Nat.zero_add, hmul]; ring
  have e2 : ∀ z, dot (nct qp.dim k) (qp.d k) 0 (if mask = true then
      vecmul (nct qp.dim k) (sol.lam k) 0 (qp.d_mask k) 0 z 0
      else veccp (nct qp.dim k) (sol.lam k) 0 z 0) 0 = ∑ j ∈ range (nct qp.dim k), qp.d k j * lamM qp sol k j := by
    intro z
    simp only [dot]
    apply sum_congr rfl
    intro i hi
    simp only [Nat.zero_add]
    rw [tl_val qp sol mask hm k hk _ i (mem_range.mp hi)]
  rw [e1, e2]
  simp only [vGap]
  have e3 : ∀ x : K, (if decide (k < qp.dim.N) = true then x - dot (qp.dim.nx (k + 1)) (qp.b k) 0 (sol.pi k) 0 else x)
      = x - (if k < qp.dim.N then ∑ j ∈ range (qp.dim.nx (k + 1)), qp.b k j * sol.pi k j else 0) := by
    intro x
    by_cases hN : k < qp.dim.N
    · simp [hN, dot]
    · simp [hN]
  rw [e3]
  by_cases h : qp.dim.ns k > 0
  · simp only [h, decide_true, if_true]
    have e4 : ∀ z, dot (2 * qp.dim.ns k)
        (axpy (2 * qp.dim.ns k) (-1) (qp.rqz k) (qp.dim.nu k + qp.dim.nx k)
          (gemv_diag (2 * qp.dim.ns k) 1 (qp.Z k) 0 (sol.ux k) (qp.dim.nu k + qp.dim.nx k) 2 (qp.rqz k)
            (qp.dim.nu k + qp.dim.nx k) z (qp.dim.nu k + qp.dim.nx k)) (qp.dim.nu k + qp.dim.nx k)
          (gemv_diag (2 * qp.dim.ns k) 1 (qp.Z k) 0 (sol.ux k) (qp.dim.nu k + qp.dim.nx k) 2 (qp.rqz k)
            (qp.dim.nu k + qp.dim.nx k) z (qp.dim.nu k + qp.dim.nx k)) (qp.dim.nu k + qp.dim.nx k))
          (qp.dim.nu k + qp.dim.nx k) (sol.ux k) (qp.dim.nu k + qp.dim.nx k)
        = ∑ s ∈ range (2 * qp.dim.ns k), (qp.Z k s * sol.ux k (qp.dim.nu k + qp.dim.nx k + s)
            + qp.rqz k (qp.dim.nu k + qp.dim.nx k + s)) * sol.ux k (qp.dim.nu k + qp.dim.nx k + s) := by
      intro z
      simp only [dot]
      apply sum_congr rfl
      intro s hs
      have := mem_range.mp hs
      have e : qp.dim.nu k + qp.dim.nx k + s - (qp.dim.nu k + qp.dim.nx k) = s := by omega
      rw [axpy_in (by omega), e, gemv_diag_in (by omega), e]
      simp only [Nat.zero_add]; ring
    rw [e4]
    ring
  · have h0 : qp.dim.ns k = 0 := by omega
    simp [h0]; ring

theorem resStage_mu (qp : OcpQp K) (sol : Sol K) (mask : Bool) (hm : MaskOk qp mask) (k : ℕ)
    (hk : k ≤ qp.dim.N) (st : ResSt K) :
    (resStage qp sol mask k st).mu = st.mu + ∑ j ∈ range (nct qp.dim k), |vM qp sol k j| := by
  have h : (resStage qp sol mask k st).mu = st.mu + vecnrm1 (nct qp.dim k) ((resStage qp sol mask k st).res.res_m k) 0 := by
    simp only [resStage, upd_same]
  rw [h]
  congr 1
  simp only [vecnrm1, Nat.zero_add]
  apply sum_congr rfl
  intro j hj
  rw [resStage_m qp sol mask hm k hk st j (mem_range.mp hj)]

/-- a stage touches only its own vectors -/
theorem resStage_frame (qp : OcpQp K) (sol : Sol K) (mask : Bool) (k l : ℕ) (h : l ≠ k) (st : ResSt K) :
    (resStage qp sol mask k st).res.res_g l = st.res.res_g l ∧
    (resStage qp sol mask k st).res.res_b l = st.res.res_b l ∧
    (resStage qp sol mask k st).res.res_d l = st.res.res_d l ∧
    (resStage qp sol mask k st).res.res_m l = st.res.res_m l := by
  simp only [resStage, upd_ne _ _ h, and_self]

theorem resLinStage_frame (qp : OcpQp K) (sol step : Sol K) (mask : Bool) (k l : ℕ) (h : l ≠ k) (st : ResSt K) :
    (resLinStage qp sol step mask k st).res.res_g l = st.res.res_g l ∧
    (resLinStage qp sol step mask k st).res.res_b l = st.res.res_b l ∧
    (resLinStage qp sol step mask k st).res.res_d l = st.res.res_d l ∧
    (resLinStage qp sol step mask k st).res.res_m l = st.res.res_m l := by
  simp only [resLinStage, upd_ne _ _ h, and_self]

/-- all stages of OCP_QP_RES_COMPUTE -/
theorem resLoop_ok (qp : OcpQp K) (hwf : qp.WF) (sol : Sol K) (mask : Bool) (hm : MaskOk qp mask) (st : ResSt K)
    (n : ℕ) (hn : n ≤ qp.dim.N + 1) :
    (∀ k, k < n → StageOk qp sol k (loop n (resStage qp sol mask) st).res ∧
      ∀ j, j < nct qp.dim k → (loop n (resStage qp sol mask) st).res.res_m k j = vM qp sol k j) ∧
    (loop n (resStage qp sol mask) st).res.obj = st.res.obj + ∑ k ∈ range n, vObj qp sol k ∧
    (loop n (resStage qp sol mask) st).res.dual_gap = st.res.dual_gap + ∑ k ∈ range n, vGap qp sol k ∧
    (loop n (resStage qp sol mask) st).mu = st.mu + ∑ k ∈ range n, ∑ j ∈ range (nct qp.dim k), |vM qp sol k j| := by
  refine loop_inv (fun n s => (∀ k, k < n → StageOk qp sol k s.res ∧
      ∀ j, j < nct qp.dim k → s.res.res_m k j = vM qp sol k j) ∧
    s.res.obj = st.res.obj + ∑ k ∈ range n, vObj qp sol k ∧
    s.res.dual_gap = st.res.dual_gap + ∑ k ∈ range n, vGap qp sol k ∧
    s.mu = st.mu + ∑ k ∈ range n, ∑ j ∈ range (nct qp.dim k), |vM qp sol k j|) n _ st ?_ ?_
  · refine ⟨fun k hk => by omega, by simp, by simp, by simp⟩
  · intro i s hi ⟨h1, h2, h3, h4⟩
    refine ⟨fun k hk => ?_, ?_, ?_, ?_⟩
    · by_cases hki : k = i
      · subst hki
        exact ⟨resStage_ok qp hwf sol mask hm k (by omega) s, resStage_m qp sol mask hm k (by omega) s⟩
      · obtain ⟨f1, f2, f3, f4⟩ := resStage_frame qp sol mask i k hki s
        obtain ⟨⟨g, b, d⟩, m⟩ := h1 k (by omega)
        refine ⟨⟨?_, ?_, ?_⟩, ?_⟩
        · rw [f1]; exact g
        · rw [f2]; exact b
        · rw [f3]; exact d
        · rw [f4]; exact m
    · rw [resStage_obj, h2, sum_range_succ, add_assoc]
    · rw [resStage_gap qp sol mask hm i (by omega), h3, sum_range_succ, add_assoc]
    · rw [resStage_mu qp sol mask hm i (by omega), h4, sum_range_succ, add_assoc]

/-- all stages of OCP_QP_RES_COMPUTE_LIN -/
theorem resLinLoop_ok (qp : OcpQp K) (hwf : qp.WF) (sol step : Sol K) (mask : Bool) (hm : MaskOk qp mask)
    (st : ResSt K) (n : ℕ) (hn : n ≤ qp.dim.N + 1) :
    (∀ k, k < n → StageOk qp step k (loop n (resLinStage qp sol step mask) st).res ∧
      ∀ j, j < nct qp.dim k → (loop n (resLinStage qp sol step mask) st).res.res_m k j = vML qp sol step k j) := by
  refine loop_inv (fun n s => (∀ k, k < n → StageOk qp step k s.res ∧
      ∀ j, j < nct qp.dim k → s.res.res_m k j = vML qp sol step k j)) n _ st ?_ ?_
  · intro k hk; omega
  · intro i s hi h1 k hk
    by_cases hki : k = i
    · subst hki
      exact ⟨resLinStage_ok qp hwf sol step mask hm k (by omega) s, resLinStage_m qp sol step mask hm k (by omega) s⟩
    · obtain ⟨f1, f2, f3, f4⟩ := resLinStage_frame qp sol step mask i k hki s
      obtain ⟨⟨g, b, d⟩, m⟩ := h1 k (by omega)
      refine ⟨⟨?_, ?_, ?_⟩, ?_⟩
      · rw [f1]; exact g
      · rw [f2]; exact b
      · rw [f3]; exact d
      · rw [f4]; exact m

end
end Hpipm
