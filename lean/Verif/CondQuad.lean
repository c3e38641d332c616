/-
Condensing of the cost: algebra.  What the recursion of COND_RSQRQ (first algorithm) has to establish about the matrices
`L k` and about the condensed Hessian so that the condensed cost is the cost along the simulated trajectory.
-/
import Verif.CondDyn
import Verif.Adjoint

namespace Hpipm
open Finset
set_option linter.unusedSectionVars false

section
variable {K : Type*} [Field K] [LinearOrder K] [IsStrictOrderedRing K]

/-- half the quadratic form of the symmetric matrix stored in the lower triangle from `(o,o)` on -/
def quadL (n : ℕ) (M : Mat K) (o : ℕ) (z : Vec K) : K :=
  1 / 2 * ∑ i ∈ range n, ∑ j ∈ range n, symL M o o i j * z i * z j

theorem symL_symm' (A : Mat K) (a i j : ℕ) : symL A a a i j = symL A a a j i := by
  simp only [symL]
  rcases lt_trichotomy i j with h | h | h
  · rw [if_neg (by omega), if_pos (by omega)]
  · subst h; rfl
  · rw [if_pos (by omega), if_neg (by omega)]

theorem quadL_congr {n : ℕ} {M M' : Mat K} {o o' : ℕ} {z z' : Vec K}
    (hM : ∀ i j, i < n → j ≤ i → M (o + i) (o + j) = M' (o' + i) (o' + j)) (hz : ∀ i, i < n → z i = z' i) :
    quadL n M o z = quadL n M' o' z' := by
  unfold quadL
  congr 1
  refine sum_congr rfl fun i hi => sum_congr rfl fun j hj => ?_
  have hi := mem_range.mp hi; have hj := mem_range.mp hj
  rw [hz i hi, hz j hj]
  congr 2
  simp only [symL]
  by_cases h : j ≤ i
  · rw [if_pos h, if_pos h, hM i j hi h]
  · rw [if_neg h, if_neg h, hM j i hj (by omega)]

/-- splitting off the first `a` variables -/
theorem quadL_split (a b : ℕ) (M : Mat K) (o : ℕ) (z : Vec K) :
    quadL (a + b) M o z = quadL a M o z
      + (∑ r ∈ range b, ∑ c ∈ range a, M (o + a + r) (o + c) * z (a + r) * z c)
      + quadL b M (o + a) (fun i => z (a + i)) := by
  unfold quadL
  rw [sum_add_split]
  have e1 : ∀ i ∈ range a, ∑ j ∈ range (a + b), symL M o o i j * z i * z j
      = (∑ j ∈ range a, symL M o o i j * z i * z j) + ∑ j ∈ range b, M (o + a + j) (o + i) * z (a + j) * z i := by
    intro i hi
    rw [sum_add_split]; congr 1
    refine sum_congr rfl fun j _ => ?_
    have := mem_range.mp hi
    simp only [symL]; rw [if_neg (by omega), ← add_assoc]; ring
  have e2 : ∀ i ∈ range b, ∑ j ∈ range (a + b), symL M o o (a + i) j * z (a + i) * z j
      = (∑ j ∈ range a, M (o + a + i) (o + j) * z (a + i) * z j)
        + ∑ j ∈ range b, symL M (o + a) (o + a) i j * z (a + i) * z (a + j) := by
    intro i hi
    rw [sum_add_split]; congr 1
    · refine sum_congr rfl fun j hj => ?_
      have := mem_range.mp hj
      simp only [symL]; rw [if_pos (by omega), ← add_assoc]
    · refine sum_congr rfl fun j hj => ?_
      simp only [symL]
      by_cases h : j ≤ i
      · rw [if_pos (by omega), if_pos h, ← add_assoc, ← add_assoc]
      · rw [if_neg (by omega), if_neg h, ← add_assoc, ← add_assoc]
  rw [sum_congr rfl e1, sum_congr rfl e2, sum_add_distrib, sum_add_distrib]
  rw [sum_comm (s := range a) (t := range b)]
  ring

/-- quadratic form of a congruence transformation -/
theorem quad_pull (n m : ℕ) (B P : Mat K) (z : Vec K) :
    ∑ r ∈ range n, ∑ c ∈ range n, (∑ i ∈ range m, ∑ j ∈ range m, B r i * P i j * B c j) * z r * z c
    = ∑ i ∈ range m, ∑ j ∈ range m, P i j * (∑ r ∈ range n, B r i * z r) * (∑ c ∈ range n, B c j * z c) := by
  have e : ∀ r c, (∑ i ∈ range m, ∑ j ∈ range m, B r i * P i j * B c j) * z r * z c
      = ∑ i ∈ range m, ∑ j ∈ range m, P i j * (B r i * z r) * (B c j * z c) := by
    intro r c
    rw [sum_mul, sum_mul]
    refine sum_congr rfl fun i _ => ?_
    rw [sum_mul, sum_mul]
    exact sum_congr rfl fun j _ => by ring
  simp only [e]
  have f : ∀ i j, P i j * (∑ r ∈ range n, B r i * z r) * (∑ c ∈ range n, B c j * z c)
      = ∑ r ∈ range n, ∑ c ∈ range n, P i j * (B r i * z r) * (B c j * z c) := by
    intro i j
    rw [mul_assoc, sum_mul_sum, mul_sum]
    refine sum_congr rfl fun r _ => ?_
    rw [mul_sum]
    exact sum_congr rfl fun c _ => by ring
  simp only [f]
  calc ∑ r ∈ range n, ∑ c ∈ range n, ∑ i ∈ range m, ∑ j ∈ range m, P i j * (B r i * z r) * (B c j * z c)
      = ∑ r ∈ range n, ∑ i ∈ range m, ∑ c ∈ range n, ∑ j ∈ range m, P i j * (B r i * z r) * (B c j * z c) :=
        sum_congr rfl fun r _ => sum_comm
    _ = ∑ i ∈ range m, ∑ r ∈ range n, ∑ c ∈ range n, ∑ j ∈ range m, P i j * (B r i * z r) * (B c j * z c) := sum_comm
    _ = ∑ i ∈ range m, ∑ r ∈ range n, ∑ j ∈ range m, ∑ c ∈ range n, P i j * (B r i * z r) * (B c j * z c) :=
        sum_congr rfl fun i _ => sum_congr rfl fun r _ => sum_comm
    _ = ∑ i ∈ range m, ∑ j ∈ range m, ∑ r ∈ range n, ∑ c ∈ range n, P i j * (B r i * z r) * (B c j * z c) :=
        sum_congr rfl fun i _ => sum_comm

/-- expansion of a symmetric quadratic form at a sum -/
theorem quad_shift (m : ℕ) (P : Mat K) (hP : ∀ i j, P i j = P j i) (x b : Vec K) :
    ∑ i ∈ range m, ∑ j ∈ range m, P i j * (x i + b i) * (x j + b j)
    = (∑ i ∈ range m, ∑ j ∈ range m, P i j * x i * x j) + 2 * (∑ j ∈ range m, (∑ i ∈ range m, b i * P i j) * x j)
      + ∑ i ∈ range m, ∑ j ∈ range m, P i j * b i * b j := by
  have e : ∀ i j, P i j * (x i + b i) * (x j + b j)
      = P i j * x i * x j + P i j * b i * x j + P i j * x i * b j + P i j * b i * b j := fun i j => by ring
  simp only [e, sum_add_distrib]
  have s1 : ∑ i ∈ range m, ∑ j ∈ range m, P i j * b i * x j = ∑ j ∈ range m, (∑ i ∈ range m, b i * P i j) * x j := by
    rw [sum_comm]; refine sum_congr rfl fun j _ => ?_
    rw [sum_mul]; exact sum_congr rfl fun i _ => by ring
  have s2 : ∑ i ∈ range m, ∑ j ∈ range m, P i j * x i * b j = ∑ j ∈ range m, (∑ i ∈ range m, b i * P i j) * x j := by
    refine sum_congr rfl fun i _ => ?_
    rw [sum_mul]; exact sum_congr rfl fun j _ => by rw [hP i j]; ring
  rw [s1, s2]; ring

/-- cost of inputs and states of stage `k` (no slacks) -/
def stageCost (qp : OcpQp K) (k : ℕ) (z : Vec K) : K :=
  quadL (qp.dim.nu k + qp.dim.nx k) (qp.RSQrq k) 0 z + ∑ c ∈ range (qp.dim.nu k + qp.dim.nx k), qp.rqz k c * z c

/-- the quadratic function stored in a matrix with its gradient in the last row -/
def wAll (n : ℕ) (L : Mat K) (z : Vec K) : K := quadL n L 0 z + ∑ c ∈ range n, L n c * z c

/-- its part in the last `nx` variables -/
def wX (nu nx : ℕ) (L : Mat K) (x : Vec K) : K := quadL nx L nu x + ∑ c ∈ range nx, L (nu + nx) (nu + c) * x c

/-- the rest of it -/
def wU (nu nx : ℕ) (L : Mat K) (u x : Vec K) : K :=
  quadL nu L 0 u + (∑ r ∈ range nx, ∑ c ∈ range nu, L (nu + r) c * x r * u c) + ∑ c ∈ range nu, L (nu + nx) c * u c

theorem wAll_split (nu nx : ℕ) (L : Mat K) (z : Vec K) :
    wAll (nu + nx) L z = wU nu nx L z (fun i => z (nu + i)) + wX nu nx L (fun i => z (nu + i)) := by
  unfold wAll wU wX
  rw [quadL_split, sum_add_split, zero_add]
  have : ∑ r ∈ range nx, ∑ c ∈ range nu, L (nu + r) (0 + c) * z (nu + r) * z c
      = ∑ r ∈ range nx, ∑ c ∈ range nu, L (nu + r) c * z (nu + r) * z c :=
    sum_congr rfl fun r _ => sum_congr rfl fun c _ => by rw [zero_add]
  rw [this]; ring

/-- the backward recursion of the first algorithm: `L k` is the cost-to-go of stage `k` with the inputs of the later
stages removed -/
structure CostRec (qp : OcpQp K) (L : ℕ → Mat K) (k : ℕ) : Prop where
  quad : ∀ r c, r < qp.dim.nu k + qp.dim.nx k → c ≤ r →
    L k r c = qp.RSQrq k r c + ∑ i ∈ range (qp.dim.nx (k + 1)), ∑ j ∈ range (qp.dim.nx (k + 1)),
      qp.BAbt k r i * symL (L (k + 1)) (qp.dim.nu (k + 1)) (qp.dim.nu (k + 1)) i j * qp.BAbt k c j
  lin : ∀ c, c < qp.dim.nu k + qp.dim.nx k →
    L k (qp.dim.nu k + qp.dim.nx k) c = qp.rqz k c + ∑ j ∈ range (qp.dim.nx (k + 1)),
      ((∑ i ∈ range (qp.dim.nx (k + 1)), qp.b k i * symL (L (k + 1)) (qp.dim.nu (k + 1)) (qp.dim.nu (k + 1)) i j)
        + L (k + 1) (qp.dim.nu (k + 1) + qp.dim.nx (k + 1)) (qp.dim.nu (k + 1) + j)) * qp.BAbt k c j

/-- `L k` is the cost of stage `k` itself -/
structure CostEnd (qp : OcpQp K) (L : ℕ → Mat K) (k : ℕ) : Prop where
  quad : ∀ r c, r < qp.dim.nu k + qp.dim.nx k → c ≤ r → L k r c = qp.RSQrq k r c
  lin : ∀ c, c < qp.dim.nu k + qp.dim.nx k → L k (qp.dim.nu k + qp.dim.nx k) c = qp.rqz k c

theorem costEnd_val {qp : OcpQp K} {L : ℕ → Mat K} {k : ℕ} (h : CostEnd qp L k) (z : Vec K) :
    wAll (qp.dim.nu k + qp.dim.nx k) (L k) z = stageCost qp k z := by
  unfold wAll stageCost
  congr 1
  · exact quadL_congr (fun i j hi hj => by rw [zero_add, zero_add, h.quad i j hi hj]) (fun _ _ => rfl)
  · exact sum_congr rfl fun c hc => by rw [h.lin c (mem_range.mp hc)]

/-- one step of the cost-to-go recursion -/
theorem costRec_val {qp : OcpQp K} {L : ℕ → Mat K} {k : ℕ} (h : CostRec qp L k) (z : Vec K) :
    stageCost qp k z + wX (qp.dim.nu (k + 1)) (qp.dim.nx (k + 1)) (L (k + 1))
        (fun i => (∑ r ∈ range (qp.dim.nu k + qp.dim.nx k), qp.BAbt k r i * z r) + qp.b k i)
    = wAll (qp.dim.nu k + qp.dim.nx k) (L k) z
      + wX (qp.dim.nu (k + 1)) (qp.dim.nx (k + 1)) (L (k + 1)) (qp.b k) := by
  set n := qp.dim.nu k + qp.dim.nx k with hn
  set m := qp.dim.nx (k + 1) with hm
  set nu1 := qp.dim.nu (k + 1) with hnu1
  set P : Mat K := symL (L (k + 1)) nu1 nu1 with hP
  have hsym : ∀ i j, P i j = P j i := fun i j => symL_symm' _ _ _ _
  unfold stageCost wAll wX quadL
  have q1 : ∑ i ∈ range n, ∑ j ∈ range n, symL (L k) 0 0 i j * z i * z j
      = (∑ i ∈ range n, ∑ j ∈ range n, symL (qp.RSQrq k) 0 0 i j * z i * z j)
        + ∑ r ∈ range n, ∑ c ∈ range n, (∑ i ∈ range m, ∑ j ∈ range m, qp.BAbt k r i * P i j * qp.BAbt k c j) * z r * z c := by
    rw [← sum_add_distrib]
    refine sum_congr rfl fun r hr => ?_
    rw [← sum_add_distrib]
    refine sum_congr rfl fun c hc => ?_
    rw [← add_mul, ← add_mul]
    congr 2
    simp only [symL, zero_add]
    by_cases hrc : c ≤ r
    · rw [if_pos hrc, if_pos hrc, h.quad r c (mem_range.mp hr) hrc]
    · rw [if_neg hrc, if_neg hrc, h.quad c r (mem_range.mp hc) (by omega), sum_comm]
      congr 1
      refine sum_congr rfl fun i _ => sum_congr rfl fun j _ => ?_
      show qp.BAbt k c j * P j i * qp.BAbt k r i = _
      rw [hsym j i]; ring
  have q2 : ∑ c ∈ range n, L k n c * z c = (∑ c ∈ range n, qp.rqz k c * z c)
      + ∑ j ∈ range m, ((∑ i ∈ range m, qp.b k i * P i j) + L (k + 1) (nu1 + m) (nu1 + j))
          * ∑ r ∈ range n, qp.BAbt k r j * z r := by
    have : ∀ c ∈ range n, L k n c * z c = qp.rqz k c * z c + ∑ j ∈ range m,
        ((∑ i ∈ range m, qp.b k i * P i j) + L (k + 1) (nu1 + m) (nu1 + j)) * (qp.BAbt k c j * z c) := fun c hc => by
      rw [h.lin c (mem_range.mp hc), add_mul, sum_mul]
      congr 1
      exact sum_congr rfl fun j _ => by ring
    rw [sum_congr rfl this, sum_add_distrib, sum_comm]
    congr 1
    exact sum_congr rfl fun j _ => by rw [mul_sum]
  rw [q1, q2, quad_pull, quad_shift m P hsym]
  have q3 : ∑ c ∈ range m, L (k + 1) (nu1 + m) (nu1 + c) * ((∑ r ∈ range n, qp.BAbt k r c * z r) + qp.b k c)
      = (∑ j ∈ range m, L (k + 1) (nu1 + m) (nu1 + j) * ∑ r ∈ range n, qp.BAbt k r j * z r)
        + ∑ c ∈ range m, L (k + 1) (nu1 + m) (nu1 + c) * qp.b k c := by
    rw [← sum_add_distrib]; exact sum_congr rfl fun j _ => by ring
  have q4 : ∑ j ∈ range m, ((∑ i ∈ range m, qp.b k i * P i j) + L (k + 1) (nu1 + m) (nu1 + j)) * ∑ r ∈ range n, qp.BAbt k r j * z r
      = (∑ j ∈ range m, (∑ i ∈ range m, qp.b k i * P i j) * ∑ r ∈ range n, qp.BAbt k r j * z r)
        + ∑ j ∈ range m, L (k + 1) (nu1 + m) (nu1 + j) * ∑ r ∈ range n, qp.BAbt k r j * z r := by
    rw [← sum_add_distrib]; exact sum_congr rfl fun j _ => by ring
  rw [q3, q4]; ring

theorem wX_congr {nu nx : ℕ} {L : Mat K} {x x' : Vec K} (h : ∀ i, i < nx → x i = x' i) :
    wX nu nx L x = wX nu nx L x' := by
  unfold wX
  congr 1
  · exact quadL_congr (fun _ _ _ _ => rfl) h
  · exact sum_congr rfl fun c hc => by rw [h c (mem_range.mp hc)]

theorem wU_congr {nu nx : ℕ} {L : Mat K} {u u' x x' : Vec K} (hu : ∀ i, i < nu → u i = u' i) (h : ∀ i, i < nx → x i = x' i) :
    wU nu nx L u x = wU nu nx L u' x' := by
  unfold wU
  congr 1
  · congr 1
    · exact quadL_congr (fun _ _ _ _ => rfl) hu
    · exact sum_congr rfl fun r hr => sum_congr rfl fun c hc => by rw [h r (mem_range.mp hr), hu c (mem_range.mp hc)]
  · exact sum_congr rfl fun c hc => by rw [hu c (mem_range.mp hc)]

/-- inputs and state of stage `k` for given condensed variables -/
def uxOf (qp : OcpQp K) (N : ℕ) (v : Vec K) (k : ℕ) : Vec K := fun j =>
  if j < qp.dim.nu k then v (later qp.dim.nu N k + j) else roll qp N v k (j - qp.dim.nu k)

theorem uxOf_u (qp : OcpQp K) (N : ℕ) (v : Vec K) (k j : ℕ) (h : j < qp.dim.nu k) :
    uxOf qp N v k j = v (later qp.dim.nu N k + j) := by unfold uxOf; rw [if_pos h]
theorem uxOf_x (qp : OcpQp K) (N : ℕ) (v : Vec K) (k j : ℕ) :
    uxOf qp N v k (qp.dim.nu k + j) = roll qp N v k j := by unfold uxOf; rw [if_neg (by omega)]; congr 1; omega

theorem uxOf_next (qp : OcpQp K) (N : ℕ) (v : Vec K) (k i : ℕ) :
    (∑ r ∈ range (qp.dim.nu k + qp.dim.nx k), qp.BAbt k r i * uxOf qp N v k r) + qp.b k i = roll qp N v (k + 1) i := by
  rw [sum_add_split]
  show _ = qp.b k i + _ + _
  have s1 : ∑ j ∈ range (qp.dim.nu k), qp.BAbt k j i * uxOf qp N v k j
      = ∑ j ∈ range (qp.dim.nu k), qp.BAbt k j i * v (later qp.dim.nu N k + j) :=
    sum_congr rfl fun j hj => by rw [uxOf_u _ _ _ _ _ (mem_range.mp hj)]
  have s2 : ∑ j ∈ range (qp.dim.nx k), qp.BAbt k (qp.dim.nu k + j) i * uxOf qp N v k (qp.dim.nu k + j)
      = ∑ j ∈ range (qp.dim.nx k), qp.BAbt k (qp.dim.nu k + j) i * roll qp N v k j :=
    sum_congr rfl fun j hj => by rw [uxOf_x]
  rw [s1, s2]; ring

/-- part of the cost-to-go of stage `k` that depends on its inputs, along the trajectory -/
def uCost (qp : OcpQp K) (N : ℕ) (L : ℕ → Mat K) (v : Vec K) (k : ℕ) : K :=
  wU (qp.dim.nu k) (qp.dim.nx k) (L k) (fun c => v (later qp.dim.nu N k + c)) (roll qp N v k)

theorem wAll_traj (qp : OcpQp K) (N : ℕ) (L : ℕ → Mat K) (v : Vec K) (k : ℕ) :
    wAll (qp.dim.nu k + qp.dim.nx k) (L k) (uxOf qp N v k) = uCost qp N L v k
      + wX (qp.dim.nu k) (qp.dim.nx k) (L k) (roll qp N v k) := by
  rw [wAll_split]
  congr 1
  · exact wU_congr (fun i hi => uxOf_u _ _ _ _ _ hi) (fun i _ => uxOf_x _ _ _ _ _)
  · exact wX_congr (fun i _ => uxOf_x _ _ _ _ _)

/-- the cost of the trajectory in terms of the cost-to-go of stage 0 and the input parts of the later stages -/
theorem cost_telescope (qp : OcpQp K) (N : ℕ) (L : ℕ → Mat K) (he : CostEnd qp L N) (hr : ∀ k, k < N → CostRec qp L k) :
    ∃ c : K, ∀ v, ∑ k ∈ range (N + 1), stageCost qp k (uxOf qp N v k)
      = wAll (qp.dim.nu 0 + qp.dim.nx 0) (L 0) (uxOf qp N v 0) + (∑ k ∈ Ioc 0 N, uCost qp N L v k) + c := by
  have main : ∀ d, d ≤ N → ∃ c : K, ∀ v, ∑ k ∈ range (N + 1), stageCost qp k (uxOf qp N v k)
      = (∑ k ∈ range (N - d), stageCost qp k (uxOf qp N v k))
        + wAll (qp.dim.nu (N - d) + qp.dim.nx (N - d)) (L (N - d)) (uxOf qp N v (N - d))
        + (∑ k ∈ Ioc (N - d) N, uCost qp N L v k) + c := by
    intro d
    induction d with
    | zero =>
      intro _
      refine ⟨0, fun v => ?_⟩
      rw [Nat.sub_zero, sum_range_succ, costEnd_val he]; simp
    | succ d ih =>
      intro hd
      obtain ⟨c, hc⟩ := ih (by omega)
      have ek : N - d = (N - (d + 1)) + 1 := by omega
      set k := N - (d + 1) with hk
      rw [ek] at hc
      refine ⟨wX (qp.dim.nu (k + 1)) (qp.dim.nx (k + 1)) (L (k + 1)) (qp.b k) + c, fun v => ?_⟩
      rw [hc v, sum_range_succ, wAll_traj]
      have r := costRec_val (hr k (by omega)) (uxOf qp N v k)
      rw [wX_congr (x' := roll qp N v (k + 1)) (fun i _ => uxOf_next qp N v k i)] at r
      have e : Ioc k N = insert (k + 1) (Ioc (k + 1) N) := by
        ext x; simp only [mem_insert, mem_Ioc]; omega
      rw [e, sum_insert (by simp)]
      linear_combination r
  obtain ⟨c, hc⟩ := main N (le_refl N)
  refine ⟨c, fun v => ?_⟩
  have := hc v
  rw [Nat.sub_self, range_zero, sum_empty, zero_add] at this
  exact this

/-- the block columns of the condensed Hessian and gradient row `G` (its last row) -/
structure HCols (qp : OcpQp K) (N : ℕ) (L Gamma : ℕ → Mat K) (Gammab : ℕ → Vec K) (H : Mat K) (k : ℕ) : Prop where
  D : ∀ r c, r < qp.dim.nu (k + 1) → c ≤ r →
    H (later qp.dim.nu N (k + 1) + r) (later qp.dim.nu N (k + 1) + c) = L (k + 1) r c
  M : ∀ r c, r < sumTo qp.dim.nu (k + 1) + qp.dim.nx 0 → c < qp.dim.nu (k + 1) →
    H (later qp.dim.nu N k + r) (later qp.dim.nu N (k + 1) + c)
      = ∑ j ∈ range (qp.dim.nx (k + 1)), Gamma k r j * L (k + 1) (qp.dim.nu (k + 1) + j) c
  m : ∀ c, c < qp.dim.nu (k + 1) →
    H (nuAll qp.dim N + qp.dim.nx 0) (later qp.dim.nu N (k + 1) + c)
      = (∑ j ∈ range (qp.dim.nx (k + 1)), Gammab k j * L (k + 1) (qp.dim.nu (k + 1) + j) c)
        + L (k + 1) (qp.dim.nu (k + 1) + qp.dim.nx (k + 1)) c

/-- the last block column -/
structure HEnd (qp : OcpQp K) (N : ℕ) (L : ℕ → Mat K) (H : Mat K) : Prop where
  D : ∀ r c, r < qp.dim.nu 0 + qp.dim.nx 0 → c ≤ r → H (later qp.dim.nu N 0 + r) (later qp.dim.nu N 0 + c) = L 0 r c
  m : ∀ c, c < qp.dim.nu 0 + qp.dim.nx 0 →
    H (nuAll qp.dim N + qp.dim.nx 0) (later qp.dim.nu N 0 + c) = L 0 (qp.dim.nu 0 + qp.dim.nx 0) c

/-- quadratic function of the trailing part of the condensed Hessian -/
def hTail (qp : OcpQp K) (N : ℕ) (H : Mat K) (v : Vec K) (k : ℕ) : K :=
  quadL (sumTo qp.dim.nu (k + 1) + qp.dim.nx 0) H (later qp.dim.nu N k) (fun i => v (later qp.dim.nu N k + i))
  + ∑ c ∈ range (sumTo qp.dim.nu (k + 1) + qp.dim.nx 0),
      H (nuAll qp.dim N + qp.dim.nx 0) (later qp.dim.nu N k + c) * v (later qp.dim.nu N k + c)

theorem hTail_step {qp : OcpQp K} {N : ℕ} {L Gamma : ℕ → Mat K} {Gammab : ℕ → Vec K} {H : Mat K} {k : ℕ} {v : Vec K}
    (hk : k < N) (h : HCols qp N L Gamma Gammab H k)
    (hs : ∀ i, i < qp.dim.nx (k + 1) → roll qp N v (k + 1) i
      = (∑ r ∈ range (sumTo qp.dim.nu (k + 1) + qp.dim.nx 0), Gamma k r i * v (later qp.dim.nu N k + r)) + Gammab k i) :
    hTail qp N H v (k + 1) = uCost qp N L v (k + 1) + hTail qp N H v k := by
  have el : later qp.dim.nu N k = later qp.dim.nu N (k + 1) + qp.dim.nu (k + 1) := by
    rw [later_succ _ hk]; omega
  unfold hTail
  rw [sumTo_succ qp.dim.nu (k + 1), show sumTo qp.dim.nu (k + 1) + qp.dim.nu (k + 1) + qp.dim.nx 0
    = qp.dim.nu (k + 1) + (sumTo qp.dim.nu (k + 1) + qp.dim.nx 0) by omega]
  rw [quadL_split, sum_add_split (qp.dim.nu (k + 1)) (sumTo qp.dim.nu (k + 1) + qp.dim.nx 0)
    (fun c => H (nuAll qp.dim N + qp.dim.nx 0) (later qp.dim.nu N (k + 1) + c) * v (later qp.dim.nu N (k + 1) + c))]
  set q := sumTo qp.dim.nu (k + 1) + qp.dim.nx 0 with hq
  set o := later qp.dim.nu N (k + 1) with ho
  set nu1 := qp.dim.nu (k + 1) with hnu1
  set nx1 := qp.dim.nx (k + 1) with hnx1
  rw [← el]
  have hr : ∀ i, o + (nu1 + i) = later qp.dim.nu N k + i := fun i => by rw [el]; omega
  simp only [hr]
  have e1 : quadL nu1 H o (fun i => v (o + i)) = quadL nu1 (L (k + 1)) 0 (fun i => v (o + i)) :=
    quadL_congr (fun i j hi hj => by rw [h.D i j hi hj, zero_add, zero_add]) (fun _ _ => rfl)
  have e2 : ∑ c ∈ range nu1, H (nuAll qp.dim N + qp.dim.nx 0) (o + c) * v (o + c)
      = (∑ c ∈ range nu1, (∑ j ∈ range nx1, Gammab k j * L (k + 1) (nu1 + j) c) * v (o + c))
        + ∑ c ∈ range nu1, L (k + 1) (nu1 + nx1) c * v (o + c) := by
    rw [← sum_add_distrib]
    exact sum_congr rfl fun c hc => by rw [h.m c (mem_range.mp hc)]; ring
  have e3 : ∑ r ∈ range q, ∑ c ∈ range nu1, H (later qp.dim.nu N k + r) (o + c) * v (later qp.dim.nu N k + r) * v (o + c)
      = ∑ c ∈ range nu1, (∑ j ∈ range nx1, (∑ r ∈ range q, Gamma k r j * v (later qp.dim.nu N k + r)) * L (k + 1) (nu1 + j) c)
          * v (o + c) := by
    rw [sum_comm]
    refine sum_congr rfl fun c hc => ?_
    rw [← sum_mul]
    congr 1
    have : ∀ r ∈ range q, H (later qp.dim.nu N k + r) (o + c) * v (later qp.dim.nu N k + r)
        = ∑ j ∈ range nx1, Gamma k r j * v (later qp.dim.nu N k + r) * L (k + 1) (nu1 + j) c := fun r hr' => by
      rw [h.M r c (mem_range.mp hr') (mem_range.mp hc), sum_mul]
      exact sum_congr rfl fun j _ => by ring
    rw [sum_congr rfl this, sum_comm]
    exact sum_congr rfl fun j _ => by rw [sum_mul]
  have e4 : uCost qp N L v (k + 1) = quadL nu1 (L (k + 1)) 0 (fun i => v (o + i))
      + (∑ c ∈ range nu1, (∑ j ∈ range nx1, ((∑ r ∈ range q, Gamma k r j * v (later qp.dim.nu N k + r)) + Gammab k j)
          * L (k + 1) (nu1 + j) c) * v (o + c))
      + ∑ c ∈ range nu1, L (k + 1) (nu1 + nx1) c * v (o + c) := by
    unfold uCost wU
    congr 2
    rw [sum_comm]
    refine sum_congr rfl fun c _ => ?_
    rw [sum_mul]
    refine sum_congr rfl fun j hj => ?_
    rw [hs j (mem_range.mp hj)]; ring
  have e5 : ∑ c ∈ range nu1, (∑ j ∈ range nx1, ((∑ r ∈ range q, Gamma k r j * v (later qp.dim.nu N k + r)) + Gammab k j)
          * L (k + 1) (nu1 + j) c) * v (o + c)
      = (∑ c ∈ range nu1, (∑ j ∈ range nx1, (∑ r ∈ range q, Gamma k r j * v (later qp.dim.nu N k + r)) * L (k + 1) (nu1 + j) c)
          * v (o + c)) + ∑ c ∈ range nu1, (∑ j ∈ range nx1, Gammab k j * L (k + 1) (nu1 + j) c) * v (o + c) := by
    rw [← sum_add_distrib]
    refine sum_congr rfl fun c _ => ?_
    rw [← add_mul, ← sum_add_distrib]
    congr 1
    exact sum_congr rfl fun j _ => by ring
  rw [e1, e2, e3, e4, e5]; ring

/-- the condensed quadratic function is the cost of the trajectory up to a constant -/
theorem cond_cost {qp : OcpQp K} {N n : ℕ} {L Gamma : ℕ → Mat K} {Gammab : ℕ → Vec K} {H : Mat K}
    (hd : DynRec qp n Gamma Gammab) (hn : N ≤ n) (hn' : n ≤ N + 1) (he : CostEnd qp L N) (hr : ∀ k, k < N → CostRec qp L k)
    (hc : ∀ k, k < N → HCols qp N L Gamma Gammab H k) (h0 : HEnd qp N L H) :
    ∃ c : K, ∀ v, ∑ k ∈ range (N + 1), stageCost qp k (uxOf qp N v k)
      = quadL (nuAll qp.dim N + qp.dim.nx 0) H 0 v
        + (∑ c ∈ range (nuAll qp.dim N + qp.dim.nx 0), H (nuAll qp.dim N + qp.dim.nx 0) c * v c) + c := by
  obtain ⟨c, hC⟩ := cost_telescope qp N L he hr
  refine ⟨c, fun v => ?_⟩
  rw [hC v]
  have main : ∀ k, k ≤ N → hTail qp N H v k
      = wAll (qp.dim.nu 0 + qp.dim.nx 0) (L 0) (uxOf qp N v 0) + ∑ l ∈ Ioc 0 k, uCost qp N L v l := by
    intro k
    induction k with
    | zero =>
      intro _
      have e : sumTo qp.dim.nu (0 + 1) = qp.dim.nu 0 := by rw [sumTo_succ]; simp [sumTo]
      have e2 : later qp.dim.nu N 0 + qp.dim.nu 0 = nuAll qp.dim N := by
        have := later_add_sumTo qp.dim.nu (N := N) (k := 0) (by omega)
        rw [e, sumTo_eq] at this; exact this
      have ev : ∀ i, v (later qp.dim.nu N 0 + i) = uxOf qp N v 0 i := by
        intro i
        unfold uxOf
        by_cases h : i < qp.dim.nu 0
        · rw [if_pos h]
        · rw [if_neg h]; show _ = v (nuAll qp.dim N + (i - qp.dim.nu 0)); rw [← e2]; congr 1; omega
      unfold hTail
      rw [e, Ioc_self, sum_empty, add_zero]
      unfold wAll
      congr 1
      · exact quadL_congr (fun i j hi hj => by rw [h0.D i j hi hj, zero_add, zero_add]) (fun i _ => ev i)
      · exact sum_congr rfl fun c hc' => by rw [h0.m c (mem_range.mp hc'), ev]
    | succ k ih =>
      intro hk
      rw [hTail_step (by omega) (hc k (by omega)) (fun i hi => dyn_sem hd hn' v k i (by omega) hi), ih (by omega)]
      have e : Ioc 0 (k + 1) = insert (k + 1) (Ioc 0 k) := by
        ext x; simp only [mem_insert, mem_Ioc]; omega
      rw [e, sum_insert (by simp)]; ring
  rw [← main N (le_refl N)]
  unfold hTail
  rw [later_self, sumTo_eq]
  simp only [zero_add]
  rfl

end
end Hpipm
