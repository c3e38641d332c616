/-
Triangular BLASFEO/LAPACK kernels used by the Riccati recursion, and their specification lemmas.

`sq` is the square root of libm.  POTRF of BLASFEO replaces a non-positive pivot by zero and stores
the inverse pivots in `dA` (zero for a replaced pivot); with the convention `1/0 = 0` of Lean's fields
`dA[i] = 1 / L[i][i]` holds in all cases, so `dA` is not stored separately.
-/
import Verif.ResVal

namespace Hpipm
open Finset
set_option linter.unusedSectionVars false

section
variable {K : Type*} [Field K] [LinearOrder K]

/-- `DIARE(n, a, A, ai, aj)`: `A[ai+i][aj+i] += a`, `i<n`. -/
def diare (n : ℕ) (a : K) (A : Mat K) (ai aj : ℕ) : Mat K :=
  fun i j => if (ai ≤ i ∧ i < ai + n) ∧ aj ≤ j ∧ i - ai = j - aj then A i j + a else A i j

/-- `DIAAD_SP(n, a, x, xi, idx, A, ai, aj)`: `A[ai+idx[i]][aj+idx[i]] += a*x[xi+i]`. -/
def diaad_sp (n : ℕ) (a : K) (x : Vec K) (xi : ℕ) (idx : ℕ → ℕ) (A : Mat K) (ai aj : ℕ) : Mat K :=
  fun i j => A i j + ∑ l ∈ range n, if ai + idx l = i ∧ aj + idx l = j then a * x (xi + l) else 0

/-- `ROWAD_SP(n, a, x, xi, idx, A, ai, aj)`: `A[ai][aj+idx[i]] += a*x[xi+i]`. -/
def rowad_sp (n : ℕ) (a : K) (x : Vec K) (xi : ℕ) (idx : ℕ → ℕ) (A : Mat K) (ai aj : ℕ) : Mat K :=
  fun i j => A i j + ∑ l ∈ range n, if i = ai ∧ aj + idx l = j then a * x (xi + l) else 0

/-- `GEMM_ND(m, n, a, A, ai, aj, B, bi, b, C, ci, cj, D, di, dj)`: `D = b*C + a*A*diag(B)`. -/
def gemm_nd (m n : ℕ) (a : K) (A : Mat K) (ai aj : ℕ) (B : Vec K) (bi : ℕ) (b : K)
    (C : Mat K) (ci cj : ℕ) (D : Mat K) (di dj : ℕ) : Mat K :=
  fun i j => if (di ≤ i ∧ i < di + m) ∧ (dj ≤ j ∧ j < dj + n) then
      b * C (ci + (i - di)) (cj + (j - dj)) + a * (A (ai + (i - di)) (aj + (j - dj)) * B (bi + (j - dj)))
    else D i j

/-- one column of the Cholesky factorisation: column `j` from the columns before it -/
def cholStep (sq : K → K) (C : Mat K) (j : ℕ) (L : Mat K) : Mat K := fun i k =>
  if k = j ∧ j ≤ i then
    let s := C j j - ∑ l ∈ range j, L j l * L j l
    let d := if s > 0 then sq s else 0
    if i = j then d else (C i j - ∑ l ∈ range j, L i l * L j l) * (1 / d)
  else L i k

/-- the first `n` columns of the Cholesky factor of `C` (column by column, left-looking) -/
def chol (sq : K → K) (n : ℕ) (C : Mat K) : Mat K := loop n (cholStep sq C) (fun _ _ => 0)

/-- `POTRF_L_MN(m, n, C, 0, 0, D, 0, 0)`: factorises the leading `n` columns of the lower trapezoid
of the `m×n` matrix `C`; only the lower trapezoid of `D` is written. -/
def potrf_l_mn (sq : K → K) (m n : ℕ) (C D : Mat K) : Mat K :=
  fun i j => if i < m ∧ j < n ∧ j ≤ i then chol sq n C i j else D i j

/-- `SYRK_POTRF_LN_MN(m, n, k, A, 0, 0, B, 0, 0, C, 0, 0, D, 0, 0)`: `POTRF_L_MN` of `C + A*Bᵀ`. -/
def syrk_potrf_ln_mn (sq : K → K) (m n k : ℕ) (A B C D : Mat K) : Mat K :=
  potrf_l_mn sq m n (fun i j => C i j + ∑ l ∈ range k, A i l * B j l) D

/-- `TRSV_LTN_MN(m, n, A, 0, 0, x, 0, x, 0)` in place: solves `A1ᵀ z1 = x1 - A2ᵀ x2`, `A1` the leading
`n×n` lower triangle, `A2` the rows `n..m`. -/
def trsv_ltn_mn (m n : ℕ) (A : Mat K) (x : Vec K) : Vec K :=
  loop n (fun jj z => upd z (n - 1 - jj)
    ((z (n - 1 - jj) - ∑ i ∈ range (m - (n - jj)), A (n - jj + i) (n - 1 - jj) * z (n - jj + i))
      * (1 / A (n - 1 - jj) (n - 1 - jj)))) x

/-- `TRSV_LNN_MN(m, n, A, 0, 0, x, 0, x, 0)` in place: `z1 = A1⁻¹ x1`, `z2 = x2 - A2 z1`. -/
def trsv_lnn_mn (m n : ℕ) (A : Mat K) (x : Vec K) : Vec K :=
  let z := loop n (fun j z => upd z j ((z j - ∑ l ∈ range j, A j l * z l) * (1 / A j j))) x
  fun i => if n ≤ i ∧ i < m then x i - ∑ l ∈ range n, A i l * z l else z i

/-- `TRMV_LTN(m, A, ai, aj, x, xi, z, zi)`: `z = Aᵀ x`, `A` lower triangular. -/
def trmv_ltn (m : ℕ) (A : Mat K) (ai aj : ℕ) (x : Vec K) (xi : ℕ) (z : Vec K) (zi : ℕ) : Vec K :=
  fun j => if zi ≤ j ∧ j < zi + m then
      ∑ i ∈ range m, if j - zi ≤ i then A (ai + i) (aj + (j - zi)) * x (xi + i) else 0
    else z j

/-- `TRMV_LNN(m, A, ai, aj, x, xi, z, zi)`: `z = A x`, `A` lower triangular. -/
def trmv_lnn (m : ℕ) (A : Mat K) (ai aj : ℕ) (x : Vec K) (xi : ℕ) (z : Vec K) (zi : ℕ) : Vec K :=
  fun i => if zi ≤ i ∧ i < zi + m then
      ∑ j ∈ range m, if j ≤ i - zi then A (ai + (i - zi)) (aj + j) * x (xi + j) else 0
    else z i

/-! ### specification lemmas -/

/-- the lower triangle of a matrix -/
def low (A : Mat K) (i j : ℕ) : K := if j ≤ i then A i j else 0

theorem cholStep_other (sq : K → K) (C : Mat K) (j : ℕ) (L : Mat K) {i k : ℕ} (h : k ≠ j) :
    cholStep sq C j L i k = L i k := by
  simp [cholStep, h]

theorem chol_stable (sq : K → K) (C : Mat K) (n d i k : ℕ) (hk : k < n) :
    chol sq (n + d) C i k = chol sq n C i k := by
  induction d with
  | zero => rfl
  | succ d ih =>
    show cholStep sq C (n + d) (chol sq (n + d) C) i k = _
    rw [cholStep_other sq C _ _ (by omega), ih]

theorem chol_upper (sq : K → K) (C : Mat K) (n i k : ℕ) (h : i < k) : chol sq n C i k = 0 := by
  induction n with
  | zero => rfl
  | succ n ih =>
    show cholStep sq C n (chol sq n C) i k = 0
    simp only [cholStep]
    rw [if_neg (by omega), ih]

/-- recursion of the factor, all columns in the final matrix -/
theorem chol_rec (sq : K → K) (C : Mat K) (n i j : ℕ) (hj : j < n) (hij : j ≤ i) :
    chol sq n C i j =
      if i = j then (if C j j - ∑ l ∈ range j, chol sq n C j l * chol sq n C j l > 0 then
          sq (C j j - ∑ l ∈ range j, chol sq n C j l * chol sq n C j l) else 0)
      else (C i j - ∑ l ∈ range j, chol sq n C i l * chol sq n C j l) * (1 / chol sq n C j j) := by
  obtain ⟨d, rfl⟩ := Nat.exists_eq_add_of_lt hj
  have hs : ∀ a l, l < j + 1 → chol sq (j + d + 1) C a l = chol sq (j + 1) C a l := by
    intro a l hl
    rw [show j + d + 1 = (j + 1) + d by omega, chol_stable sq C _ _ _ _ hl]
  have hs' : ∀ a l, l < j → chol sq (j + 1) C a l = chol sq j C a l := fun a l hl => chol_stable sq C j 1 a l hl
  have e1 : ∀ a b, ∑ l ∈ range j, chol sq (j + d + 1) C a l * chol sq (j + d + 1) C b l =
      ∑ l ∈ range j, chol sq j C a l * chol sq j C b l := by
    intro a b
    apply sum_congr rfl
    intro l hl
    have := mem_range.mp hl
    rw [hs a l (by omega), hs b l (by omega), hs' a l this, hs' b l this]
  rw [e1, e1, hs i j (by omega), hs j j (by omega)]
  show cholStep sq C j (chol sq j C) i j = _
  have e2 : chol sq (j + 1) C j j = if C j j - ∑ l ∈ range j, chol sq j C j l * chol sq j C j l > 0 then
      sq (C j j - ∑ l ∈ range j, chol sq j C j l * chol sq j C j l) else 0 := by
    show cholStep sq C j (chol sq j C) j j = _
    simp [cholStep]
  rw [e2]
  simp only [cholStep]
  rw [if_pos ⟨trivial, hij⟩]

/-- the factor reproduces the matrix, if no pivot was replaced -/
theorem chol_spec (sq : K → K) (hsq : ∀ x, 0 < x → sq x * sq x = x) (C : Mat K) (n : ℕ)
    (hp : ∀ j, j < n → chol sq n C j j ≠ 0) (i j : ℕ) (hj : j < n) (hij : j ≤ i) :
    ∑ l ∈ range (j + 1), chol sq n C i l * chol sq n C j l = C i j := by
  rw [sum_range_succ]
  have hr := chol_rec sq C n i j hj hij
  have hd := chol_rec sq C n j j hj (le_refl _)
  rw [if_pos rfl] at hd
  have hpj := hp j hj
  by_cases h : i = j
  · subst h
    by_cases hpos : C i i - ∑ l ∈ range i, chol sq n C i l * chol sq n C i l > 0
    · rw [if_pos hpos] at hd
      rw [hd, hsq _ hpos]; ring
    · rw [if_neg hpos] at hd; exact absurd hd hpj
  · rw [if_neg h] at hr
    rw [hr]
    field_simp
    ring

/-- the same with full-length sums -/
theorem chol_spec_full (sq : K → K) (hsq : ∀ x, 0 < x → sq x * sq x = x) (C : Mat K) (n : ℕ)
    (hp : ∀ j, j < n → chol sq n C j j ≠ 0) (i j : ℕ) (hj : j < n) (hij : j ≤ i) :
    ∑ l ∈ range n, chol sq n C i l * chol sq n C j l = C i j := by
  rw [← chol_spec sq hsq C n hp i j hj hij]
  obtain ⟨d, hd⟩ := Nat.exists_eq_add_of_lt hj
  rw [show range n = range ((j + 1) + d) by rw [hd]; congr 1; omega, sum_range_add]
  rw [sum_eq_zero (s := range d), add_zero]
  intro l _
  rw [chol_upper sq C n j (j + 1 + l) (by omega), mul_zero]

/-- `potrf` in terms of the lower triangle of its output -/
theorem potrf_spec (sq : K → K) (hsq : ∀ x, 0 < x → sq x * sq x = x) (m n : ℕ) (hnm : n ≤ m) (C D : Mat K)
    (hp : ∀ j, j < n → potrf_l_mn sq m n C D j j ≠ 0) (i j : ℕ) (hi : i < m) (hj : j < n) (hij : j ≤ i) :
    ∑ l ∈ range n, low (potrf_l_mn sq m n C D) i l * low (potrf_l_mn sq m n C D) j l = C i j := by
  have e : ∀ a l, a < m → l < n → low (potrf_l_mn sq m n C D) a l = chol sq n C a l := by
    intro a l ha hl
    simp only [low, potrf_l_mn]
    by_cases h : l ≤ a
    · rw [if_pos h, if_pos ⟨ha, hl, h⟩]
    · rw [if_neg h, chol_upper sq C n a l (by omega)]
  rw [← chol_spec_full sq hsq C n ?_ i j hj hij]
  · apply sum_congr rfl
    intro l hl
    rw [e i l hi (mem_range.mp hl), e j l (by omega) (mem_range.mp hl)]
  · intro k hk
    have := hp k hk
    simpa only [potrf_l_mn, if_pos (⟨by omega, hk, le_refl _⟩ : k < m ∧ k < n ∧ k ≤ k)] using this

theorem potrf_out (sq : K → K) (m n : ℕ) (C D : Mat K) (i j : ℕ) (h : ¬ (i < m ∧ j < n ∧ j ≤ i)) :
    potrf_l_mn sq m n C D i j = D i j := by
  simp only [potrf_l_mn, if_neg h]

theorem chol_congr (sq : K → K) (C C' : Mat K) (n i j : ℕ) (m : ℕ) (hi : i < m) (hnm : n ≤ m)
    (h : ∀ a b, a < m → b < n → b ≤ a → C a b = C' a b) : chol sq n C i j = chol sq n C' i j := by
  have : ∀ n', n' ≤ n → ∀ i j, i < m → chol sq n' C i j = chol sq n' C' i j := by
    intro n'
    induction n' with
    | zero => intro _ i j _; rfl
    | succ n' ih =>
      intro hn' i j hi
      show cholStep sq C n' (chol sq n' C) i j = cholStep sq C' n' (chol sq n' C') i j
      have hs : ∀ a b, a < m → b < m → ∑ l ∈ range n', chol sq n' C a l * chol sq n' C b l =
          ∑ l ∈ range n', chol sq n' C' a l * chol sq n' C' b l := by
        intro a b ha hb
        exact sum_congr rfl (fun l _ => by rw [ih (by omega) a l ha, ih (by omega) b l hb])
      simp only [cholStep]
      by_cases hc : j = n' ∧ n' ≤ i
      · rw [if_pos hc, if_pos hc, hs n' n' (by omega) (by omega), hs i n' hi (by omega),
          h n' n' (by omega) (by omega) (le_refl _), h i n' hi (by omega) hc.2]
      · rw [if_neg hc, if_neg hc, ih (by omega) i j hi]
  exact this n (le_refl _) i j hi

theorem trsv_ltn_mn_out (m n : ℕ) (A : Mat K) (x : Vec K) (i : ℕ) (hi : n ≤ i) :
    trsv_ltn_mn m n A x i = x i := by
  unfold trsv_ltn_mn
  refine loop_inv (fun _ z => z i = x i) n _ x rfl ?_
  intro jj z hjj hz
  rw [upd_ne _ _ (by omega), hz]

/-- backward substitution solves the transposed triangular system -/
theorem trsv_ltn_mn_spec (m n : ℕ) (hnm : n ≤ m) (A : Mat K) (x : Vec K) (hp : ∀ j, j < n → A j j ≠ 0)
    (j : ℕ) (hj : j < n) :
    ∑ i ∈ range m, low A i j * trsv_ltn_mn m n A x i = x j := by
  have key : ∀ jj, jj ≤ n → ∀ z : Vec K, z = loop jj (fun jj z => upd z (n - 1 - jj)
      ((z (n - 1 - jj) - ∑ i ∈ range (m - (n - jj)), A (n - jj + i) (n - 1 - jj) * z (n - jj + i))
        * (1 / A (n - 1 - jj) (n - 1 - jj)))) x →
      (∀ i, i < n - jj → z i = x i) ∧
      (∀ j, n - jj ≤ j → j < n → ∑ i ∈ range m, low A i j * z i = x j) := by
    intro jj
    induction jj with
    | zero =>
      intro _ z hz
      refine ⟨fun i _ => by rw [hz]; rfl, fun j h1 h2 => by omega⟩
    | succ jj ih =>
      intro hjj z hz
      obtain ⟨h1, h2⟩ := ih (by omega) _ rfl
      rw [loop_succ] at hz
      set w := loop jj (fun jj z => upd z (n - 1 - jj)
        ((z (n - 1 - jj) - ∑ i ∈ range (m - (n - jj)), A (n - jj + i) (n - 1 - jj) * z (n - jj + i))
          * (1 / A (n - 1 - jj) (n - 1 - jj)))) x with hw
      set q := n - 1 - jj with hq
      have hq1 : n - jj = q + 1 := by omega
      rw [hq1] at hz h1 h2
      refine ⟨fun i hi => ?_, fun j hj1 hj2 => ?_⟩
      · rw [hz, upd_ne _ _ (by omega), h1 i (by omega)]
      · by_cases hjq : j = q
        · subst hjq
          have hqm : m = (q + 1) + (m - (q + 1)) := by omega
          rw [hqm, sum_range_add, sum_range_succ]
          have z0 : ∑ i ∈ range q, low A i q * z i = 0 := by
            apply sum_eq_zero
            intro i hi
            have := mem_range.mp hi
            rw [low, if_neg (by omega), zero_mul]
          rw [z0, zero_add]
          have e1 : low A q q = A q q := by rw [low, if_pos (le_refl _)]
          have e2 : ∀ i, low A (q + 1 + i) q = A (q + 1 + i) q := by intro i; rw [low, if_pos (by omega)]
          have e3 : ∀ i, z (q + 1 + i) = w (q + 1 + i) := by intro i; rw [hz, upd_ne _ _ (by omega)]
          have e4 : z q = (w q - ∑ i ∈ range (m - (q + 1)), A (q + 1 + i) q * w (q + 1 + i)) * (1 / A q q) := by
            rw [hz, upd_same]
          simp only [e1, e2, e3, e4]
          rw [h1 q (by omega)]
          have := hp q (by omega)
          field_simp
          ring
        · rw [← h2 j (by omega) hj2]
          apply sum_congr rfl
          intro i hi
          by_cases hiq : i = q
          · subst hiq
            rw [low, if_neg (by omega), zero_mul, zero_mul]
          · rw [hz, upd_ne _ _ hiq]
  have := (key n (le_refl _) _ rfl).2 j (by omega) hj
  exact this

/-- forward substitution solves the triangular system -/
theorem trsv_lnn_mn_spec (m n : ℕ) (A : Mat K) (x : Vec K) (hp : ∀ j, j < n → A j j ≠ 0) :
    (∀ i, i < n → ∑ l ∈ range n, low A i l * trsv_lnn_mn m n A x l = x i) ∧
    (∀ i, n ≤ i → i < m → ∑ l ∈ range n, A i l * trsv_lnn_mn m n A x l + trsv_lnn_mn m n A x i = x i) ∧
    (∀ i, n ≤ i → m ≤ i → trsv_lnn_mn m n A x i = x i) := by
  set w := loop n (fun j z => upd z j ((z j - ∑ l ∈ range j, A j l * z l) * (1 / A j j))) x with hw
  have hz : ∀ i, i < n → trsv_lnn_mn m n A x i = w i := by
    intro i hi
    simp only [trsv_lnn_mn]
    rw [if_neg (by omega)]
  have key : (∀ i, i < n → ∑ l ∈ range (i + 1), A i l * w l = x i) ∧ ∀ i, n ≤ i → w i = x i := by
    refine loop_inv (fun k z => (∀ i, i < k → ∑ l ∈ range (i + 1), A i l * z l = x i) ∧ ∀ i, k ≤ i → z i = x i) n
      (fun j z => upd z j ((z j - ∑ l ∈ range j, A j l * z l) * (1 / A j j))) x ⟨fun i hi => by omega, fun i _ => rfl⟩ ?_
    intro k z hk ⟨h1, h2⟩
    refine ⟨fun i hi => ?_, fun i hi => ?_⟩
    · by_cases hik : i = k
      · subst hik
        rw [sum_range_succ, upd_same]
        have e : ∑ l ∈ range i, A i l * upd z i ((z i - ∑ l ∈ range i, A i l * z l) * (1 / A i i)) l =
            ∑ l ∈ range i, A i l * z l := by
          apply sum_congr rfl
          intro l hl
          rw [upd_ne _ _ (by have := mem_range.mp hl; omega)]
        rw [e, h2 i (le_refl _)]
        have := hp i hk
        field_simp
        ring
      · rw [← h1 i (by omega)]
        apply sum_congr rfl
        intro l hl
        rw [upd_ne _ _ (by have := mem_range.mp hl; omega)]
    · rw [upd_ne _ _ (by omega), h2 i (by omega)]
  refine ⟨fun i hi => ?_, fun i h1 h2 => ?_, fun i h1 h2 => ?_⟩
  · rw [← key.1 i hi]
    obtain ⟨d, hd⟩ := Nat.exists_eq_add_of_lt hi
    rw [show range n = range ((i + 1) + d) by rw [hd]; congr 1; omega, sum_range_add]
    rw [sum_eq_zero (s := range d), add_zero]
    · apply sum_congr rfl
      intro l hl
      have := mem_range.mp hl
      rw [hz l (by omega), low, if_pos (by omega)]
    · intro l _
      rw [low, if_neg (by omega), zero_mul]
  · have e : trsv_lnn_mn m n A x i = x i - ∑ l ∈ range n, A i l * w l := by
      simp only [trsv_lnn_mn]
      rw [if_pos ⟨h1, h2⟩]
    rw [e, sum_congr rfl (fun l hl => by rw [hz l (mem_range.mp hl)])]
    ring
  · simp only [trsv_lnn_mn]
    rw [if_neg (by omega)]
    exact key.2 i h1

end
end Hpipm
