/-
C101: values of what COND_QCQP_QC writes for one quadratic constraint of a stage after the first.
-/
import Verif.CondQc

namespace Hpipm
open Finset
set_option linter.unusedSectionVars false

section
variable {K : Type*} [Field K]

/-- `z'Az`, `A` symmetric and stored in its lower triangle -/
def symQ (A : Mat K) (n : ℕ) (z : Vec K) : K := ∑ i ∈ range n, ∑ j ∈ range n, symL A 0 0 i j * z i * z j

theorem symQ_congr {A B : Mat K} {n : ℕ} {z w : Vec K} (h : ∀ i j, j ≤ i → i < n → A i j = B i j) (hz : ∀ i, i < n → z i = w i) :
    symQ A n z = symQ B n w := by
  unfold symQ
  refine sum_congr rfl fun i hi => sum_congr rfl fun j hj => ?_
  have hi := mem_range.mp hi
  have hj := mem_range.mp hj
  rw [hz i hi, hz j hj]
  congr 2
  unfold symL
  simp only [Nat.zero_add]
  split
  · exact h i j (by omega) hi
  · exact h j i (by omega) hj

theorem symQ_split (A : Mat K) (a b : ℕ) (z : Vec K) :
    symQ A (a + b) z = symQ A a z + 2 * (∑ i ∈ range a, ∑ l ∈ range b, A (a + l) i * z i * z (a + l))
      + symQ (fun i j => A (a + i) (a + j)) b (fun i => z (a + i)) := by
  unfold symQ
  rw [sum_add_split]
  simp only [sum_add_split a b, sum_add_distrib]
  have e1 : ∑ i ∈ range a, ∑ l ∈ range b, symL A 0 0 i (a + l) * z i * z (a + l) = ∑ i ∈ range a, ∑ l ∈ range b, A (a + l) i * z i * z (a + l) := by
    refine sum_congr rfl fun i hi => sum_congr rfl fun l hl => ?_
    have hi := mem_range.mp hi
    unfold symL
    rw [if_neg (by omega)]; simp only [Nat.zero_add]
  have e2 : ∑ l ∈ range b, ∑ i ∈ range a, symL A 0 0 (a + l) i * z (a + l) * z i = ∑ i ∈ range a, ∑ l ∈ range b, A (a + l) i * z i * z (a + l) := by
    rw [sum_comm]
    refine sum_congr rfl fun i hi => sum_congr rfl fun l hl => ?_
    have hi := mem_range.mp hi
    unfold symL
    rw [if_pos (by omega)]; simp only [Nat.zero_add]; ring
  have e3 : ∑ l ∈ range b, ∑ m ∈ range b, symL A 0 0 (a + l) (a + m) * z (a + l) * z (a + m)
      = ∑ l ∈ range b, ∑ m ∈ range b, symL (fun i j => A (a + i) (a + j)) 0 0 l m * z (a + l) * z (a + m) := by
    refine sum_congr rfl fun l hl => sum_congr rfl fun m hm => ?_
    congr 2
    unfold symL
    simp only [Nat.zero_add, Nat.add_le_add_iff_left]
  rw [e1, e2, e3]
  ring

/-- the entries of the condensed Hessian (lower triangle, and the row below it) -/
theorem qcHess_val (nvc p o nu nx z : ℕ) (G GQ M H : Mat K) (hn : nvc = o + nu + p) :
    (∀ i j, i < nvc → j < o → qcHess nvc p o nu nx z G GQ M H i j = 0) ∧
    (∀ i j, i < nu → j < nu → qcHess nvc p o nu nx z G GQ M H (o + i) (o + j) = if z / 4 % 2 = 1 then M i j else 0) ∧
    (∀ r j, r ≤ p → j < nu → qcHess nvc p o nu nx z G GQ M H (o + nu + r) (o + j) =
      if z / 2 % 2 = 1 then ∑ l ∈ range nx, G r l * M (nu + l) j else 0) ∧
    (∀ r c, c ≤ r → r ≤ p → c < p → qcHess nvc p o nu nx z G GQ M H (o + nu + r) (o + nu + c) =
      if z % 2 = 1 then ∑ l ∈ range nx, G r l * GQ c l else 0) := by
  refine ⟨fun i j hi hj => ?_, fun i j hi hj => ?_, fun r j hr hj => ?_, fun r c hc hr hcp => ?_⟩
  · by_cases f1 : z % 2 = 1 <;> by_cases f2 : z / 4 % 2 = 1 <;> by_cases f3 : z / 2 % 2 = 1 <;>
      simp only [qcHess, f1, f2, f3, gemm_nn, gead, syrk_ln_mn, gese, Nat.zero_add, ↓reduceIte] <;>
      split_ifs <;> first | (exfalso; omega) | simp
  · have e1 : o + i - o = i := by omega
    have e2 : o + j - o = j := by omega
    by_cases f1 : z % 2 = 1 <;> by_cases f2 : z / 4 % 2 = 1 <;> by_cases f3 : z / 2 % 2 = 1 <;>
      simp only [qcHess, f1, f2, f3, gemm_nn, gead, syrk_ln_mn, gese, e1, e2, Nat.zero_add, ↓reduceIte] <;>
      split_ifs <;> first | (exfalso; omega) | simp
  · have e1 : o + nu + r - (o + nu) = r := by omega
    have e2 : o + j - o = j := by omega
    by_cases f1 : z % 2 = 1 <;> by_cases f2 : z / 4 % 2 = 1 <;> by_cases f3 : z / 2 % 2 = 1 <;>
      simp only [qcHess, f1, f2, f3, gemm_nn, gead, syrk_ln_mn, gese, e1, e2, Nat.zero_add, ↓reduceIte] <;>
      split_ifs <;> first | (exfalso; omega) | simp
  · have e1 : o + nu + r - (o + nu) = r := by omega
    have e2 : o + nu + c - (o + nu) = c := by omega
    by_cases f1 : z % 2 = 1 <;> by_cases f2 : z / 4 % 2 = 1 <;> by_cases f3 : z / 2 % 2 = 1 <;>
      simp only [qcHess, f1, f2, f3, gemm_nn, gead, syrk_ln_mn, gese, e1, e2, Nat.zero_add, ↓reduceIte] <;>
      split_ifs <;> first | (exfalso; omega) | simp

/-- `M` after the transposition has both triangles -/
theorem qc_full (n : ℕ) (M : Mat K) (nu nx m l : ℕ) (hn : n = nu + nx) (hm : m < nx) (hl : l < nx) :
    trtr_l n M 0 0 M 0 0 (nu + m) (nu + l) = symL M nu nu m l := by
  unfold trtr_l symL
  simp only [Nat.zero_add, Nat.sub_zero]
  split_ifs <;> first | (exfalso; omega) | rfl | (have : m = l := by omega
                                                  subst this; rfl)

theorem qc_low (n : ℕ) (M : Mat K) (i j : ℕ) (h : j ≤ i) : trtr_l n M 0 0 M 0 0 i j = M i j := by
  unfold trtr_l
  simp only [Nat.zero_add, Nat.sub_zero]
  split_ifs with h1
  · have : i = j := by omega
    subst this; rfl
  · rfl

theorem symL_commA (A : Mat K) (a m l : ℕ) : symL A a a m l = symL A a a l m := by
  unfold symL
  split_ifs <;> first | rfl | (exfalso; omega) | (have : m = l := by omega
                                                  subst this; rfl)

/-- the flags say which blocks are nonzero -/
structure QcFlags (M : Mat K) (nu nx z : ℕ) : Prop where
  Q : z % 2 ≠ 1 → ∀ l m, m ≤ l → l < nx → M (nu + l) (nu + m) = 0
  S : z / 2 % 2 ≠ 1 → ∀ l i, l < nx → i < nu → M (nu + l) i = 0
  R : z / 4 % 2 ≠ 1 → ∀ i j, j ≤ i → i < nu → M i j = 0

/-- the algebra of condensing one quadratic constraint: `u` the inputs of the stage, `w` the later entries of `v`, `g` the constant
part of the states -/
theorem qc_alg [NeZero (2 : K)] (nvc p o nu nx z : ℕ) (G GQ M M0 H : Mat K) (g : Vec K) (v x : Vec K) (hn : nvc = o + nu + p)
    (hf : QcFlags M0 nu nx z) (hlow : ∀ i j, j ≤ i → M i j = M0 i j)
    (hGQ : z % 2 = 1 → ∀ c l, c ≤ p → l < nx → GQ c l = ∑ m ∈ range nx, G c m * symL M0 nu nu m l)
    (hg : ∀ l, l < nx → G p l = g l)
    (hx : ∀ l, l < nx → x (nu + l) = (∑ r ∈ range p, G r l * v (o + nu + r)) + g l) (hu : ∀ i, i < nu → x i = v (o + i)) :
    1 / 2 * symQ M0 (nu + nx) x =
      1 / 2 * symQ (qcHess nvc p o nu nx z G GQ M H) nvc v
      + (∑ r ∈ range p, qcHess nvc p o nu nx z G GQ M H nvc (o + nu + r) * v (o + nu + r))
      + (if z % 2 = 1 then 1 / 2 * ∑ l ∈ range nx, GQ p l * g l else 0)
      + ∑ i ∈ range nu, (∑ l ∈ range nx, M0 (nu + l) i * g l) * v (o + i) := by
  have h2 : (2 : K) ≠ 0 := NeZero.ne 2
  obtain ⟨h0, hR, hS, hQ⟩ := qcHess_val nvc p o nu nx z G GQ M H hn
  set X := qcHess nvc p o nu nx z G GQ M H with hX
  -- uniform entries
  have R' : ∀ i j, j ≤ i → i < nu → X (o + i) (o + j) = M0 i j := fun i j hj hi => by
    rw [hR i j hi (by omega)]
    split_ifs with hz
    · exact hlow i j hj
    · exact (hf.R hz i j hj hi).symm
  have S' : ∀ r i, r ≤ p → i < nu → X (o + nu + r) (o + i) = ∑ l ∈ range nx, G r l * M0 (nu + l) i := fun r i hr hi => by
    rw [hS r i hr hi]
    split_ifs with hz
    · exact sum_congr rfl fun l _ => by rw [hlow _ _ (by omega)]
    · exact (sum_eq_zero fun l hl => by rw [hf.S hz l i (mem_range.mp hl) hi, mul_zero]).symm
  have Qz : z % 2 ≠ 1 → ∀ m l, m < nx → l < nx → symL M0 nu nu m l = 0 := fun hz m l hm hl => by
    unfold symL
    split_ifs with h
    · exact hf.Q hz m l h hm
    · exact hf.Q hz l m (by omega) hl
  let T : ℕ → ℕ → K := fun r c => ∑ l ∈ range nx, G r l * ∑ m ∈ range nx, G c m * symL M0 nu nu m l
  have Q' : ∀ r c, c ≤ r → r ≤ p → c < p → X (o + nu + r) (o + nu + c) = T r c := fun r c hc hr hcp => by
    rw [hQ r c hc hr hcp]
    split_ifs with hz
    · exact sum_congr rfl fun l hl => by rw [hGQ hz c l (by omega) (mem_range.mp hl)]
    · refine (sum_eq_zero fun l hl => ?_).symm
      rw [sum_eq_zero fun m hm => by rw [Qz hz m l (mem_range.mp hm) (mem_range.mp hl), mul_zero], mul_zero]
  have Tsym : ∀ r c, T r c = T c r := fun r c => by
    show ∑ l ∈ range nx, G r l * ∑ m ∈ range nx, G c m * symL M0 nu nu m l = ∑ l ∈ range nx, G c l * ∑ m ∈ range nx, G r m * symL M0 nu nu m l
    simp only [mul_sum]
    rw [sum_comm]
    exact sum_congr rfl fun l _ => sum_congr rfl fun m _ => by rw [symL_commA M0 nu l m]; ring
  have C' : (if z % 2 = 1 then 1 / 2 * ∑ l ∈ range nx, GQ p l * g l else 0) = 1 / 2 * ∑ l ∈ range nx, ∑ m ∈ range nx, symL M0 nu nu m l * g m * g l := by
    split_ifs with hz
    · congr 1
      refine sum_congr rfl fun l hl => ?_
      rw [hGQ hz p l (le_refl _) (mem_range.mp hl), sum_mul]
      exact sum_congr rfl fun m hm => by rw [hg m (mem_range.mp hm)]; ring
    · rw [sum_eq_zero fun l hl => sum_eq_zero fun m hm => by rw [Qz hz m l (mem_range.mp hm) (mem_range.mp hl)]; ring, mul_zero]
  let y : Vec K := fun l => ∑ r ∈ range p, G r l * v (o + nu + r)
  -- the condensed form
  have eX : symQ X nvc v = symQ M0 nu (fun i => v (o + i)) + 2 * (∑ i ∈ range nu, ∑ l ∈ range nx, M0 (nu + l) i * v (o + i) * y l)
      + ∑ l ∈ range nx, ∑ m ∈ range nx, symL M0 nu nu m l * y m * y l := by
    rw [hn, add_assoc, symQ_split X o (nu + p) v, symQ_split _ nu p]
    have z1 : symQ X o v = 0 := by
      unfold symQ
      refine sum_eq_zero fun i hi => sum_eq_zero fun j hj => ?_
      have hi := mem_range.mp hi
      have hj := mem_range.mp hj
      unfold symL
      simp only [Nat.zero_add]
      split_ifs
      · rw [h0 i j (by omega) hj]; ring
      · rw [h0 j i (by omega) hi]; ring
    have z2 : ∑ i ∈ range o, ∑ l ∈ range (nu + p), X (o + l) i * v i * v (o + l) = 0 := by
      refine sum_eq_zero fun i hi => sum_eq_zero fun l hl => ?_
      have hi := mem_range.mp hi
      have hl := mem_range.mp hl
      rw [h0 (o + l) i (by omega) hi]; ring
    have z3 : symQ (fun i j => X (o + i) (o + j)) nu (fun i => v (o + i)) = symQ M0 nu (fun i => v (o + i)) :=
      symQ_congr (fun i j hj hi => R' i j hj hi) fun _ _ => rfl
    have z4 : ∑ i ∈ range nu, ∑ r ∈ range p, X (o + (nu + r)) (o + i) * v (o + i) * v (o + (nu + r))
        = ∑ i ∈ range nu, ∑ l ∈ range nx, M0 (nu + l) i * v (o + i) * y l := by
      refine sum_congr rfl fun i hi => ?_
      have hi := mem_range.mp hi
      have : ∀ l, M0 (nu + l) i * v (o + i) * y l = ∑ r ∈ range p, G r l * M0 (nu + l) i * v (o + i) * v (o + nu + r) := fun l => by
        show _ * ∑ r ∈ range p, _ = _
        rw [mul_sum]
        exact sum_congr rfl fun r _ => by ring
      simp only [this]
      rw [sum_comm]
      refine sum_congr rfl fun r hr => ?_
      have hr := mem_range.mp hr
      rw [← add_assoc, S' r i (by omega) hi, sum_mul, sum_mul]
    have z5 : symQ (fun i j => X (o + (nu + i)) (o + (nu + j))) p (fun i => v (o + (nu + i)))
        = ∑ l ∈ range nx, ∑ m ∈ range nx, symL M0 nu nu m l * y m * y l := by
      have s1 : symQ (fun i j => X (o + (nu + i)) (o + (nu + j))) p (fun i => v (o + (nu + i)))
          = ∑ r ∈ range p, ∑ c ∈ range p, T r c * v (o + nu + r) * v (o + nu + c) := by
        unfold symQ
        refine sum_congr rfl fun r hr => sum_congr rfl fun c hc => ?_
        have hr := mem_range.mp hr
        have hc := mem_range.mp hc
        show symL _ 0 0 r c * v (o + (nu + r)) * v (o + (nu + c)) = _
        rw [← add_assoc, ← add_assoc]
        congr 2
        unfold symL
        simp only [Nat.zero_add, ← add_assoc]
        split_ifs with h
        · exact Q' r c h (by omega) hc
        · rw [Q' c r (by omega) (by omega) hr, Tsym]
      rw [s1]
      have s2 : ∀ l m, symL M0 nu nu m l * y m * y l = ∑ r ∈ range p, ∑ c ∈ range p,
          G r l * (G c m * symL M0 nu nu m l) * v (o + nu + r) * v (o + nu + c) := fun l m => by
        show _ * (∑ c ∈ range p, _) * (∑ r ∈ range p, _) = _
        rw [mul_assoc, sum_mul_sum, sum_comm, mul_sum]
        refine sum_congr rfl fun r _ => ?_
        rw [mul_sum]
        exact sum_congr rfl fun c _ => by ring
      simp only [s2]
      have s3 : ∀ r c, T r c * v (o + nu + r) * v (o + nu + c) = ∑ l ∈ range nx, ∑ m ∈ range nx,
          G r l * (G c m * symL M0 nu nu m l) * v (o + nu + r) * v (o + nu + c) := fun r c => by
        show (∑ l ∈ range nx, G r l * ∑ m ∈ range nx, _) * _ * _ = _
        simp only [mul_sum, sum_mul]
      simp only [s3]
      calc _ = ∑ r ∈ range p, ∑ l ∈ range nx, ∑ c ∈ range p, ∑ m ∈ range nx,
            G r l * (G c m * symL M0 nu nu m l) * v (o + nu + r) * v (o + nu + c) := sum_congr rfl fun r _ => sum_comm
        _ = ∑ l ∈ range nx, ∑ r ∈ range p, ∑ c ∈ range p, ∑ m ∈ range nx,
            G r l * (G c m * symL M0 nu nu m l) * v (o + nu + r) * v (o + nu + c) := sum_comm
        _ = ∑ l ∈ range nx, ∑ r ∈ range p, ∑ m ∈ range nx, ∑ c ∈ range p,
            G r l * (G c m * symL M0 nu nu m l) * v (o + nu + r) * v (o + nu + c) :=
            sum_congr rfl fun l _ => sum_congr rfl fun r _ => sum_comm
        _ = _ := sum_congr rfl fun l _ => sum_comm
    rw [z1, z2, z3, z4, z5]
    ring
  have eG : ∑ r ∈ range p, X nvc (o + nu + r) * v (o + nu + r) = ∑ l ∈ range nx, ∑ m ∈ range nx, symL M0 nu nu m l * y m * g l := by
    have : ∀ l m, symL M0 nu nu m l * y m * g l = ∑ c ∈ range p, G c m * symL M0 nu nu m l * g l * v (o + nu + c) := fun l m => by
      show _ * (∑ c ∈ range p, _) * _ = _
      rw [mul_sum, sum_mul]
      exact sum_congr rfl fun c _ => by ring
    simp only [this]
    calc _ = ∑ c ∈ range p, ∑ l ∈ range nx, ∑ m ∈ range nx, G c m * symL M0 nu nu m l * g l * v (o + nu + c) := by
          refine sum_congr rfl fun c hc => ?_
          have hc := mem_range.mp hc
          rw [hn, Q' p c (by omega) (le_refl _) hc]
          show (∑ l ∈ range nx, G p l * ∑ m ∈ range nx, _) * _ = _
          rw [sum_mul]
          refine sum_congr rfl fun l hl => ?_
          rw [hg l (mem_range.mp hl), mul_sum, sum_mul]
          exact sum_congr rfl fun m _ => by ring
      _ = ∑ l ∈ range nx, ∑ c ∈ range p, ∑ m ∈ range nx, G c m * symL M0 nu nu m l * g l * v (o + nu + c) := sum_comm
      _ = _ := sum_congr rfl fun l _ => sum_comm
  -- the original form
  have e0 : symQ M0 (nu + nx) x = symQ M0 nu (fun i => v (o + i))
      + 2 * (∑ i ∈ range nu, ∑ l ∈ range nx, M0 (nu + l) i * v (o + i) * (y l + g l))
      + ∑ l ∈ range nx, ∑ m ∈ range nx, symL M0 nu nu m l * (y m + g m) * (y l + g l) := by
    rw [symQ_split M0 nu nx x]
    have t1 : symQ M0 nu x = symQ M0 nu (fun i => v (o + i)) := symQ_congr (fun _ _ _ _ => rfl) hu
    have t2 : ∑ i ∈ range nu, ∑ l ∈ range nx, M0 (nu + l) i * x i * x (nu + l)
        = ∑ i ∈ range nu, ∑ l ∈ range nx, M0 (nu + l) i * v (o + i) * (y l + g l) :=
      sum_congr rfl fun i hi => sum_congr rfl fun l hl => by rw [hu i (mem_range.mp hi), hx l (mem_range.mp hl)]
    have t3 : symQ (fun i j => M0 (nu + i) (nu + j)) nx (fun i => x (nu + i))
        = ∑ l ∈ range nx, ∑ m ∈ range nx, symL M0 nu nu m l * (y m + g m) * (y l + g l) := by
      unfold symQ
      rw [sum_comm]
      refine sum_congr rfl fun l hl => sum_congr rfl fun m hm => ?_
      show symL _ 0 0 m l * x (nu + m) * x (nu + l) = _
      rw [hx l (mem_range.mp hl), hx m (mem_range.mp hm)]
      congr 2
      unfold symL
      simp only [Nat.zero_add]
    rw [t1, t2, t3]
  have eS : ∑ i ∈ range nu, (∑ l ∈ range nx, M0 (nu + l) i * g l) * v (o + i)
      = ∑ i ∈ range nu, ∑ l ∈ range nx, M0 (nu + l) i * v (o + i) * g l :=
    sum_congr rfl fun i _ => by rw [sum_mul]; exact sum_congr rfl fun l _ => by ring
  have eC : ∑ l ∈ range nx, ∑ m ∈ range nx, symL M0 nu nu m l * (y m + g m) * (y l + g l)
      = (∑ l ∈ range nx, ∑ m ∈ range nx, symL M0 nu nu m l * y m * y l) + 2 * (∑ l ∈ range nx, ∑ m ∈ range nx, symL M0 nu nu m l * y m * g l)
        + ∑ l ∈ range nx, ∑ m ∈ range nx, symL M0 nu nu m l * g m * g l := by
    have hsw : ∑ l ∈ range nx, ∑ m ∈ range nx, symL M0 nu nu m l * g m * y l = ∑ l ∈ range nx, ∑ m ∈ range nx, symL M0 nu nu m l * y m * g l := by
      rw [sum_comm]
      exact sum_congr rfl fun l _ => sum_congr rfl fun m _ => by rw [symL_commA M0 nu l m]; ring
    rw [two_mul]
    nth_rewrite 1 [← hsw]
    simp only [← sum_add_distrib]
    exact sum_congr rfl fun l _ => sum_congr rfl fun m _ => by ring
  have eU : ∑ i ∈ range nu, ∑ l ∈ range nx, M0 (nu + l) i * v (o + i) * (y l + g l)
      = (∑ i ∈ range nu, ∑ l ∈ range nx, M0 (nu + l) i * v (o + i) * y l) + ∑ i ∈ range nu, ∑ l ∈ range nx, M0 (nu + l) i * v (o + i) * g l := by
    simp only [mul_add, sum_add_distrib]
  rw [e0, eX, eG, C', eS, eC, eU]
  field_simp
  ring

end
end Hpipm
