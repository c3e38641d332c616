/-
Triangular systems, Cholesky solves, Schur complement and null space elimination on total-function
matrices (linear algebra used by the dense KKT theorems).
-/
import Verif.DenseKkt
import Verif.KktPd
import Verif.KktSweep
import Verif.RicChain
import Mathlib.LinearAlgebra.Matrix.Block
import Mathlib.LinearAlgebra.Matrix.ToLinearEquiv
import Mathlib.LinearAlgebra.Matrix.NonsingularInverse

namespace Hpipm
open Finset
set_option linter.unusedSectionVars false

section
variable {K : Type*} [Field K] [LinearOrder K]

theorem singular_true {n : ℕ} {L : Mat K} (h : ∀ j, j < n → L j j ≠ 0) : singular n L = false := by
  unfold singular
  refine loop_inv (S := Bool) (fun _ s => s = false) n _ _ rfl ?_
  intro k s hk hs
  simp [hs, h k hk]

theorem singular_iff {n : ℕ} {L : Mat K} : singular n L = false ↔ ∀ j, j < n → L j j ≠ 0 :=
  ⟨fun h j hj => singular_false h j hj, singular_true⟩

/-- lower triangular systems have at most one solution -/
theorem low_inj2 {n : ℕ} {L : Mat K} (hp : ∀ j, j < n → L j j ≠ 0) {y z : Vec K}
    (h : ∀ i, i < n → ∑ l ∈ range n, low L i l * y l = ∑ l ∈ range n, low L i l * z l) : ∀ i, i < n → y i = z i := by
  intro i hi
  refine sub_eq_zero.mp (low_inj hp (y := fun l => y l - z l) (fun i hi => ?_) i hi)
  simp only [mul_sub, sum_sub_distrib, h i hi, sub_self]

theorem trsv_lnn_spec {n : ℕ} {L : Mat K} (hp : ∀ j, j < n → L j j ≠ 0) (x z : Vec K) (i : ℕ) (hi : i < n) :
    ∑ l ∈ range n, low L i l * trsv_lnn n L x z l = x i := by
  rw [← (trsv_lnn_mn_spec n n L x hp).1 i hi]
  exact sum_congr rfl (fun l hl => by rw [trsv_lnn, if_pos (mem_range.mp hl)])

theorem trsv_ltn_spec {n : ℕ} {L : Mat K} (hp : ∀ j, j < n → L j j ≠ 0) (x z : Vec K) (j : ℕ) (hj : j < n) :
    ∑ i ∈ range n, low L i j * trsv_ltn n L x z i = x j := by
  rw [← trsv_ltn_mn_spec n n (le_refl _) L x hp j hj]
  exact sum_congr rfl (fun l hl => by rw [trsv_ltn, if_pos (mem_range.mp hl)])

theorem trsv_lnn_out {n i : ℕ} (L : Mat K) (x z : Vec K) (hi : n ≤ i) : trsv_lnn n L x z i = z i := by
  rw [trsv_lnn, if_neg (by omega)]
theorem trsv_ltn_out {n i : ℕ} (L : Mat K) (x z : Vec K) (hi : n ≤ i) : trsv_ltn n L x z i = z i := by
  rw [trsv_ltn, if_neg (by omega)]

theorem trsm_spec {m n : ℕ} {L : Mat K} (hp : ∀ j, j < n → L j j ≠ 0) (B D : Mat K) (i j : ℕ) (hi : i < m) (hj : j < n) :
    ∑ l ∈ range n, low L j l * trsm_rltn m n L B D i l = B i j := by
  rw [← (trsv_lnn_mn_spec n n L (B i) hp).1 j hj]
  exact sum_congr rfl (fun l hl => by rw [trsm_rltn, if_pos ⟨hi, mem_range.mp hl⟩])

/-- `L` is a lower triangular factor of the symmetric matrix `M` with nonzero pivots -/
structure Fac (n : ℕ) (L M : Mat K) : Prop where
  piv : ∀ j, j < n → L j j ≠ 0
  fac : ∀ i j, i < n → j < n → ∑ l ∈ range n, low L i l * low L j l = M i j

theorem fac_of_lower {n : ℕ} {L C M : Mat K} (hp : ∀ j, j < n → L j j ≠ 0)
    (h : ∀ i j, i < n → j < n → j ≤ i → ∑ l ∈ range n, low L i l * low L j l = C i j)
    (hC : ∀ i j, i < n → j ≤ i → C i j = M i j) (hsym : ∀ i j, i < n → j < n → M i j = M j i) : Fac n L M := by
  refine ⟨hp, fun i j hi hj => ?_⟩
  by_cases hij : j ≤ i
  · rw [h i j hi hj hij, hC i j hi hij]
  · rw [hsym i j hi hj, ← hC j i hj (by omega), ← h j i hj hi (by omega)]
    exact sum_congr rfl (fun l _ => mul_comm _ _)

/-- a Cholesky factorisation without replaced pivots -/
theorem fac_potrf (sq : K → K) (hsq : ∀ x, 0 < x → sq x * sq x = x) {m n : ℕ} (hnm : n ≤ m) {C D M : Mat K}
    (hs : ∀ j, j < n → potrf_l_mn sq m n C D j j ≠ 0) (hC : ∀ i j, i < n → j ≤ i → C i j = M i j)
    (hsym : ∀ i j, i < n → j < n → M i j = M j i) : Fac n (potrf_l_mn sq m n C D) M :=
  fac_of_lower hs (fun i j hi hj hij => potrf_spec sq hsq m n hnm C D hs i j (by omega) hj hij) hC hsym

/-- backward after forward substitution solves the system -/
theorem Fac.solve {n : ℕ} {L M : Mat K} (h : Fac n L M) {x y z : Vec K}
    (hy : ∀ i, i < n → ∑ l ∈ range n, low L i l * y l = x i)
    (hz : ∀ j, j < n → ∑ i ∈ range n, low L i j * z i = y j) (i : ℕ) (hi : i < n) :
    ∑ j ∈ range n, M i j * z j = x i := by
  rw [← hy i hi]
  have e : ∀ j ∈ range n, M i j * z j = ∑ l ∈ range n, low L i l * (low L j l * z j) := by
    intro j hj
    rw [← h.fac i j hi (mem_range.mp hj), sum_mul]
    exact sum_congr rfl (fun l _ => by ring)
  rw [sum_congr rfl e, sum_comm]
  refine sum_congr rfl (fun l hl => ?_)
  rw [← mul_sum, hz l (mem_range.mp hl)]

theorem Fac.trsv {n : ℕ} {L M : Mat K} (h : Fac n L M) (x z1 z2 : Vec K) (i : ℕ) (hi : i < n) :
    ∑ j ∈ range n, M i j * trsv_ltn n L (trsv_lnn n L x z1) z2 j = x i :=
  h.solve (fun i hi => trsv_lnn_spec h.piv x z1 i hi) (fun j hj => trsv_ltn_spec h.piv _ z2 j hj) i hi

/-- Schur complement elimination: `A` with `m` rows, `AL = A L⁻ᵀ`, `S = AL ALᵀ + diag D` -/
theorem schur_solve {n m : ℕ} {L M A AL S : Mat K} (h : Fac n L M)
    (hAL : ∀ i j, i < m → j < n → ∑ l ∈ range n, low L j l * AL i l = A i j)
    (D : Vec K)
    (hS : ∀ i j, i < m → j < m → S i j = ∑ l ∈ range n, AL i l * AL j l + if i = j then D i else 0)
    (g b lg p pi v0 v : Vec K)
    (hlg : ∀ i, i < n → ∑ l ∈ range n, low L i l * lg l = g i)
    (hp : ∀ i, i < m → p i = ∑ l ∈ range n, AL i l * lg l + b i)
    (hpi : ∀ i, i < m → ∑ j ∈ range m, S i j * pi j = p i)
    (hv0 : ∀ j, j < n → v0 j = ∑ i ∈ range m, A i j * pi i - g j)
    (hv : ∃ y : Vec K, (∀ i, i < n → ∑ l ∈ range n, low L i l * y l = v0 i) ∧
      ∀ j, j < n → ∑ i ∈ range n, low L i j * v i = y j) :
    (∀ i, i < n → ∑ j ∈ range n, M i j * v j + g i - ∑ k ∈ range m, A k i * pi k = 0) ∧
    (∀ i, i < m → b i - ∑ j ∈ range n, A i j * v j = D i * pi i) := by
  obtain ⟨y, hy, hvy⟩ := hv
  refine ⟨fun i hi => ?_, fun i hi => ?_⟩
  · rw [h.solve hy hvy i hi, hv0 i hi]; ring
  · have hyv : ∀ l, l < n → y l = ∑ k ∈ range m, AL k l * pi k - lg l := by
      apply low_inj2 h.piv
      intro j hj
      rw [hy j hj, hv0 j hj]
      have e1 : ∑ l ∈ range n, low L j l * (∑ k ∈ range m, AL k l * pi k - lg l) =
          ∑ k ∈ range m, (∑ l ∈ range n, low L j l * AL k l) * pi k - ∑ l ∈ range n, low L j l * lg l := by
        simp only [mul_sub, sum_sub_distrib, mul_sum, sum_mul]
        rw [sum_comm]
        congr 1
        exact sum_congr rfl (fun k _ => sum_congr rfl (fun l _ => by ring))
      rw [e1, hlg j hj]
      congr 1
      exact sum_congr rfl (fun k hk => by rw [hAL k j (mem_range.mp hk) hj])
    have e2 : ∑ j ∈ range n, A i j * v j = ∑ l ∈ range n, AL i l * y l := by
      have : ∀ j ∈ range n, A i j * v j = ∑ l ∈ range n, AL i l * (low L j l * v j) := by
        intro j hj
        rw [← hAL i j hi (mem_range.mp hj), sum_mul]
        exact sum_congr rfl (fun l _ => by ring)
      rw [sum_congr rfl this, sum_comm]
      refine sum_congr rfl (fun l hl => ?_)
      rw [← mul_sum, hvy l (mem_range.mp hl)]
    have e3 : ∑ l ∈ range n, AL i l * y l = ∑ j ∈ range m, (S i j - if i = j then D i else 0) * pi j
        - ∑ l ∈ range n, AL i l * lg l := by
      have e : ∑ l ∈ range n, AL i l * y l = ∑ l ∈ range n, ∑ k ∈ range m, AL i l * AL k l * pi k
          - ∑ l ∈ range n, AL i l * lg l := by
        rw [← sum_sub_distrib]
        refine sum_congr rfl (fun l hl => ?_)
        rw [hyv l (mem_range.mp hl), mul_sub, mul_sum]
        congr 1
        exact sum_congr rfl (fun k _ => by ring)
      rw [e, sum_comm]
      congr 1
      refine sum_congr rfl (fun k hk => ?_)
      rw [hS i k hi (mem_range.mp hk), add_sub_cancel_right, sum_mul]
    have e4 : ∑ j ∈ range m, (S i j - if i = j then D i else 0) * pi j = p i - D i * pi i := by
      simp only [sub_mul, sum_sub_distrib, hpi i hi]
      congr 1
      rw [sum_eq_single_of_mem i (mem_range.mpr hi)]
      · rw [if_pos rfl]
      · intro j _ hj
        rw [if_neg (fun h => hj h.symm), zero_mul]
    rw [e2, e3, e4, hp i hi]; ring

/-- an LQ factorisation of the `m × n` matrix `A`: `A = L Q`, `L` in the lower triangle of the first `m`
columns, `Q` an orthogonal `n × n` matrix (what GELQF and ORGLQ provide) -/
structure LqOk (m n : ℕ) (A L Q : Mat K) : Prop where
  mul : ∀ i j, i < m → j < n → ∑ l ∈ range m, low L i l * Q l j = A i j
  orth : ∀ a c, a < n → c < n → ∑ j ∈ range n, Q a j * Q c j = if a = c then 1 else 0

/-- rows of a square matrix orthonormal: so are the columns -/
theorem LqOk.col {m n : ℕ} {A L Q : Mat K} (h : LqOk m n A L Q) (i j : ℕ) (hi : i < n) (hj : j < n) :
    ∑ a ∈ range n, Q a i * Q a j = if i = j then 1 else 0 := by
  let P : Matrix (Fin n) (Fin n) K := Matrix.of fun a c => Q a c
  have h1 : P * P.transpose = 1 := by
    ext a c
    rw [Matrix.mul_apply, Matrix.one_apply]
    have := h.orth a c a.2 c.2
    rw [← Fin.sum_univ_eq_sum_range (fun j => Q a j * Q c j)] at this
    refine this.trans ?_
    simp only [Fin.ext_iff]
  have h2 : P.transpose * P = 1 := mul_eq_one_comm.mp h1
  have h3 := congrFun (congrFun h2 ⟨i, hi⟩) ⟨j, hj⟩
  rw [Matrix.mul_apply, Matrix.one_apply] at h3
  rw [← Fin.sum_univ_eq_sum_range (fun a => Q a i * Q a j)]
  refine h3.trans ?_
  simp only [Fin.ext_iff]

/-- the rows of `A` are linearly independent -/
def FullRank (m n : ℕ) (A : Mat K) : Prop :=
  ∀ y : Vec K, (∀ j, j < n → ∑ i ∈ range m, A i j * y i = 0) → ∀ i, i < m → y i = 0

/-- with independent rows the triangular factor is nonsingular -/
theorem LqOk.piv {m n : ℕ} {A L Q : Mat K} (h : LqOk m n A L Q) (hr : FullRank m n A) : ∀ i, i < m → L i i ≠ 0 := by
  intro i hi h0
  let P : Matrix (Fin m) (Fin m) K := Matrix.of fun a c => low L a c
  have hdet : P.det = 0 := by
    have ht : Matrix.BlockTriangular P OrderDual.toDual := by
      intro a c hac
      have : (a : ℕ) < c := hac
      show low L a c = 0
      rw [low, if_neg (by omega)]
    rw [Matrix.det_of_lowerTriangular P ht]
    apply Finset.prod_eq_zero (Finset.mem_univ ⟨i, hi⟩)
    show low L i i = 0
    rw [low, if_pos (le_refl _), h0]
  obtain ⟨w, hw, hw0⟩ := Matrix.exists_vecMul_eq_zero_iff.mpr hdet
  apply hw
  have hc : ∀ l, l < m → ∑ a ∈ range m, (if ha : a < m then w ⟨a, ha⟩ else 0) * low L a l = 0 := by
    intro l hl
    have := congrFun hw0 ⟨l, hl⟩
    rw [Matrix.vecMul, dotProduct] at this
    rw [← Fin.sum_univ_eq_sum_range (fun a => (if ha : a < m then w ⟨a, ha⟩ else 0) * low L a l)]
    refine Eq.trans (sum_congr rfl (fun a _ => ?_)) this
    rw [dif_pos a.2]; rfl
  have hy := hr (fun a => if ha : a < m then w ⟨a, ha⟩ else 0) (fun j hj => by
    have e : ∀ a ∈ range m, A a j * (if ha : a < m then w ⟨a, ha⟩ else 0) =
        ∑ l ∈ range m, Q l j * ((if ha : a < m then w ⟨a, ha⟩ else 0) * low L a l) := by
      intro a ha
      rw [← h.mul a j (mem_range.mp ha) hj, sum_mul]
      exact sum_congr rfl (fun l _ => by ring)
    rw [sum_congr rfl e, sum_comm]
    apply sum_eq_zero
    intro l hl
    rw [← mul_sum, hc l (mem_range.mp hl), mul_zero])
  funext a
  have := hy a a.2
  rwa [dif_pos a.2] at this

theorem sum_delta {n : ℕ} (i : ℕ) (hi : i < n) (f : ℕ → K) :
    ∑ j ∈ range n, (if i = j then 1 else 0) * f j = f i := by
  rw [sum_eq_single_of_mem i (mem_range.mpr hi)]
  · rw [if_pos rfl, one_mul]
  · intro j _ hj
    rw [if_neg (fun h => hj h.symm), zero_mul]

/-- null space elimination -/
theorem null_solve {m n : ℕ} (hmn : m ≤ n) {A L Q M W : Mat K} (h : LqOk m n A L Q)
    (p : K) (hW : ∀ a c, a < n - m → c < n - m → W a c =
      ∑ i ∈ range n, (∑ j ∈ range n, Q (m + a) j * M i j) * Q (m + c) i + if a = c then p else 0)
    (hM : ∀ i j, i < n → j < n → M i j = M j i)
    (g b xy yy xz v tmp pi : Vec K)
    (hxy : ∀ i, i < m → ∑ l ∈ range m, low L i l * xy l = b i)
    (hyy : ∀ j, j < n → yy j = ∑ l ∈ range m, Q l j * xy l)
    (hxz : ∀ a, a < n - m → ∑ c ∈ range (n - m), W a c * xz c =
      -(∑ i ∈ range n, (∑ j ∈ range n, Q (m + a) j * M i j) * yy i) - ∑ i ∈ range n, Q (m + a) i * g i)
    (hv : ∀ j, j < n → v j = ∑ a ∈ range (n - m), Q (m + a) j * xz a + yy j)
    (htmp : ∀ i, i < n → tmp i = ∑ j ∈ range n, M i j * v j + g i)
    (hpi : ∀ l, l < m → ∑ i ∈ range m, low L i l * pi i = ∑ j ∈ range n, Q l j * tmp j) :
    (∀ i, i < n → ∑ j ∈ range n, M i j * v j + g i - ∑ k ∈ range m, A k i * pi k =
      -(p * ∑ a ∈ range (n - m), Q (m + a) i * ∑ j ∈ range n, Q (m + a) j * v j)) ∧
    (∀ i, i < m → b i - ∑ j ∈ range n, A i j * v j = 0) := by
  obtain ⟨d, rfl⟩ := Nat.exists_eq_add_of_le hmn
  simp only [Nat.add_sub_cancel_left] at *
  -- coordinates of v
  have hvs : ∀ j, j < m + d → v j = ∑ l ∈ range (m + d), (if l < m then xy l else xz (l - m)) * Q l j := by
    intro j hj
    rw [hv j hj, hyy j hj, sum_range_add, add_comm]
    congr 1
    · exact sum_congr rfl (fun l hl => by rw [if_pos (mem_range.mp hl)]; ring)
    · exact sum_congr rfl (fun a _ => by rw [if_neg (by omega), Nat.add_sub_cancel_left]; ring)
  have hQv : ∀ l, l < m + d → ∑ j ∈ range (m + d), Q l j * v j = if l < m then xy l else xz (l - m) := by
    intro l hl
    have e : ∀ j ∈ range (m + d), Q l j * v j = ∑ c ∈ range (m + d), (Q l j * Q c j) * (if c < m then xy c else xz (c - m)) := by
      intro j hj
      rw [hvs j (mem_range.mp hj), mul_sum]
      exact sum_congr rfl (fun c _ => by ring)
    rw [sum_congr rfl e, sum_comm]
    rw [sum_congr rfl (fun c hc => by rw [← sum_mul, h.orth l c hl (mem_range.mp hc)])]
    exact sum_delta l hl _
  refine ⟨fun i hi => ?_, fun i hi => ?_⟩
  · -- expand tmp in the basis Q
    have e1 : tmp i = ∑ l ∈ range (m + d), Q l i * ∑ j ∈ range (m + d), Q l j * tmp j := by
      have : ∑ l ∈ range (m + d), Q l i * ∑ j ∈ range (m + d), Q l j * tmp j =
          ∑ j ∈ range (m + d), (∑ l ∈ range (m + d), Q l i * Q l j) * tmp j := by
        simp only [mul_sum, sum_mul]
        rw [sum_comm]
        exact sum_congr rfl (fun j _ => sum_congr rfl (fun l _ => by ring))
      rw [this, sum_congr rfl (fun j hj => by rw [h.col i j hi (mem_range.mp hj)])]
      exact (sum_delta i hi _).symm
    have e2 : ∑ k ∈ range m, A k i * pi k = ∑ l ∈ range m, Q l i * ∑ j ∈ range (m + d), Q l j * tmp j := by
      have : ∀ k ∈ range m, A k i * pi k = ∑ l ∈ range m, Q l i * (low L k l * pi k) := by
        intro k hk
        rw [← h.mul k i (mem_range.mp hk) hi, sum_mul]
        exact sum_congr rfl (fun l _ => by ring)
      rw [sum_congr rfl this, sum_comm]
      refine sum_congr rfl (fun l hl => ?_)
      rw [← mul_sum, hpi l (mem_range.mp hl)]
    have e3 : ∀ a, a < d → ∑ j ∈ range (m + d), Q (m + a) j * tmp j = -(p * xz a) := by
      intro a ha
      have f1 : ∑ j ∈ range (m + d), Q (m + a) j * tmp j =
          ∑ i ∈ range (m + d), (∑ j ∈ range (m + d), Q (m + a) j * M i j) * v i + ∑ i ∈ range (m + d), Q (m + a) i * g i := by
        have : ∀ j ∈ range (m + d), Q (m + a) j * tmp j = ∑ i ∈ range (m + d), (Q (m + a) j * M i j) * v i + Q (m + a) j * g j := by
          intro j hj
          rw [htmp j (mem_range.mp hj), mul_add, mul_sum]
          congr 1
          exact sum_congr rfl (fun i hi => by rw [hM j i (mem_range.mp hj) (mem_range.mp hi)]; ring)
        rw [sum_congr rfl this, sum_add_distrib, sum_comm]
        congr 1
        exact sum_congr rfl (fun i _ => by rw [sum_mul])
      have f2 : ∑ i ∈ range (m + d), (∑ j ∈ range (m + d), Q (m + a) j * M i j) * v i =
          ∑ c ∈ range d, (W a c - if a = c then p else 0) * xz c
          + ∑ i ∈ range (m + d), (∑ j ∈ range (m + d), Q (m + a) j * M i j) * yy i := by
        have : ∀ i ∈ range (m + d), (∑ j ∈ range (m + d), Q (m + a) j * M i j) * v i =
            ∑ c ∈ range d, (∑ j ∈ range (m + d), Q (m + a) j * M i j) * Q (m + c) i * xz c
            + (∑ j ∈ range (m + d), Q (m + a) j * M i j) * yy i := by
          intro i hi
          rw [hv i (mem_range.mp hi), mul_add, mul_sum]
          congr 1
          exact sum_congr rfl (fun c _ => by ring)
        rw [sum_congr rfl this, sum_add_distrib, sum_comm]
        congr 1
        refine sum_congr rfl (fun c hc => ?_)
        rw [hW a c ha (mem_range.mp hc), add_sub_cancel_right, sum_mul]
      have f3 : ∑ c ∈ range d, (W a c - if a = c then p else 0) * xz c = ∑ c ∈ range d, W a c * xz c - p * xz a := by
        simp only [sub_mul, sum_sub_distrib]
        congr 1
        rw [sum_eq_single_of_mem a (mem_range.mpr ha)]
        · rw [if_pos rfl]
        · intro j _ hj
          rw [if_neg (fun h => hj h.symm), zero_mul]
      rw [f1, f2, f3, hxz a ha]; ring
    have e4 : ∑ j ∈ range (m + d), M i j * v j + g i = tmp i := (htmp i hi).symm
    rw [e4, e1, e2, sum_range_add, add_sub_cancel_left, mul_sum, ← sum_neg_distrib]
    refine sum_congr rfl (fun a ha => ?_)
    have ha := mem_range.mp ha
    rw [e3 a ha, hQv (m + a) (by omega), if_neg (by omega), Nat.add_sub_cancel_left]; ring
  · have e : ∑ j ∈ range (m + d), A i j * v j = b i := by
      have : ∀ j ∈ range (m + d), A i j * v j = ∑ l ∈ range m, low L i l * (Q l j * v j) := by
        intro j hj
        rw [← h.mul i j hi (mem_range.mp hj), sum_mul]
        exact sum_congr rfl (fun l _ => by ring)
      rw [sum_congr rfl this, sum_comm, ← hxy i hi]
      refine sum_congr rfl (fun l hl => ?_)
      have hl := mem_range.mp hl
      rw [← mul_sum, hQv l (by omega), if_pos hl]
    rw [e, sub_self]

end
end Hpipm
