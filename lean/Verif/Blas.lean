/-
BLASFEO kernels, modelled by their mathematical effect.

A BLASFEO vector (`struct STRVEC`) is a total function `ℕ → K`, a matrix (`struct STRMAT`) a
total function `ℕ → ℕ → K`; sizes are explicit arguments exactly as in the C calls
`VECCP(n, x, xi, y, yi)` etc.  Each definition returns the new value of the output operand.
The kernels live in the external BLASFEO library (documented effect: blasfeo reference manual);
the hpipm sources bind the macro names at the top of every `d_*.c` file, e.g.
ocp_qp/d_ocp_qp_res.c:36-70, ocp_qp/d_ocp_qp_kkt.c:36-110.
-/
import Mathlib.Algebra.BigOperators.Intervals
import Mathlib.Algebra.Order.BigOperators.Ring.Finset
import Mathlib.Algebra.Order.Field.Basic
import Mathlib.Tactic.Ring
import Mathlib.Tactic.Linarith
import Mathlib.Tactic.FieldSimp
import Mathlib.Tactic.NormNum
import Mathlib.Tactic.LinearCombination
import Mathlib.Tactic.Positivity
import Mathlib.Tactic.Push
import Mathlib.Tactic.IntervalCases

namespace Hpipm
open Finset

/-- a BLASFEO vector -/
abbrev Vec (K : Type*) := ℕ → K
/-- a BLASFEO matrix -/
abbrev Mat (K : Type*) := ℕ → ℕ → K

section
variable {K : Type*} [Field K]

/-- `VECCP(n, x, xi, y, yi)`: `y[yi+i] = x[xi+i]`, `i<n`. -/
def veccp {α : Type*} (n : ℕ) (x : ℕ → α) (xi : ℕ) (y : ℕ → α) (yi : ℕ) : ℕ → α :=
  fun i => if yi ≤ i ∧ i < yi + n then x (xi + (i - yi)) else y i

/-- `VECSE(n, a, x, xi)`: `x[xi+i] = a`. -/
def vecse {α : Type*} (n : ℕ) (a : α) (x : ℕ → α) (xi : ℕ) : ℕ → α :=
  fun i => if xi ≤ i ∧ i < xi + n then a else x i

/-- `VECSC(n, a, x, xi)`: `x[xi+i] *= a`. -/
def vecsc (n : ℕ) (a : K) (x : Vec K) (xi : ℕ) : Vec K :=
  fun i => if xi ≤ i ∧ i < xi + n then a * x i else x i

/-- `VECCPSC(n, a, x, xi, y, yi)`: `y[yi+i] = a*x[xi+i]`. -/
def veccpsc (n : ℕ) (a : K) (x : Vec K) (xi : ℕ) (y : Vec K) (yi : ℕ) : Vec K :=
  fun i => if yi ≤ i ∧ i < yi + n then a * x (xi + (i - yi)) else y i

/-- `AXPY(n, a, x, xi, y, yi, z, zi)`: `z[zi+i] = y[yi+i] + a*x[xi+i]`. -/
def axpy (n : ℕ) (a : K) (x : Vec K) (xi : ℕ) (y : Vec K) (yi : ℕ) (z : Vec K) (zi : ℕ) : Vec K :=
  fun i => if zi ≤ i ∧ i < zi + n then y (yi + (i - zi)) + a * x (xi + (i - zi)) else z i

/-- `VECMUL(n, x, xi, y, yi, z, zi)`: `z[zi+i] = x[xi+i]*y[yi+i]`. -/
def vecmul (n : ℕ) (x : Vec K) (xi : ℕ) (y : Vec K) (yi : ℕ) (z : Vec K) (zi : ℕ) : Vec K :=
  fun i => if zi ≤ i ∧ i < zi + n then x (xi + (i - zi)) * y (yi + (i - zi)) else z i

/-- `DOT(n, x, xi, y, yi)`. -/
def dot (n : ℕ) (x : Vec K) (xi : ℕ) (y : Vec K) (yi : ℕ) : K :=
  ∑ i ∈ range n, x (xi + i) * y (yi + i)

/-- `VECAD_SP(n, a, x, xi, idx, z, zi)`: `z[zi+idx[i]] += a*x[xi+i]` for `i=0..n-1` in order
(repeated indices accumulate). -/
def vecad_sp (n : ℕ) (a : K) (x : Vec K) (xi : ℕ) (idx : ℕ → ℕ) (z : Vec K) (zi : ℕ) : Vec K :=
  fun j => z j + ∑ i ∈ range n, if zi + idx i = j then a * x (xi + i) else 0

/-- `VECEX_SP(n, a, idx, x, xi, z, zi)`: `z[zi+i] = a*x[xi+idx[i]]`. -/
def vecex_sp (n : ℕ) (a : K) (idx : ℕ → ℕ) (x : Vec K) (xi : ℕ) (z : Vec K) (zi : ℕ) : Vec K :=
  fun i => if zi ≤ i ∧ i < zi + n then a * x (xi + idx (i - zi)) else z i

/-- `GEMV_N(m, n, a, A, ai, aj, x, xi, b, y, yi, z, zi)`: `z = b*y + a*A*x`, `A` is `m×n`. -/
def gemv_n (m n : ℕ) (a : K) (A : Mat K) (ai aj : ℕ) (x : Vec K) (xi : ℕ) (b : K) (y : Vec K)
    (yi : ℕ) (z : Vec K) (zi : ℕ) : Vec K :=
  fun i => if zi ≤ i ∧ i < zi + m then
      b * y (yi + (i - zi)) + a * ∑ j ∈ range n, A (ai + (i - zi)) (aj + j) * x (xi + j)
    else z i

/-- `GEMV_T(m, n, a, A, ai, aj, x, xi, b, y, yi, z, zi)`: `z = b*y + a*Aᵀ*x`, `A` is `m×n`. -/
def gemv_t (m n : ℕ) (a : K) (A : Mat K) (ai aj : ℕ) (x : Vec K) (xi : ℕ) (b : K) (y : Vec K)
    (yi : ℕ) (z : Vec K) (zi : ℕ) : Vec K :=
  fun j => if zi ≤ j ∧ j < zi + n then
      b * y (yi + (j - zi)) + a * ∑ i ∈ range m, A (ai + i) (aj + (j - zi)) * x (xi + i)
    else z j

/-- the symmetric matrix whose lower triangle (from `(ai,aj)` on) is stored in `A`. -/
def symL (A : Mat K) (ai aj i j : ℕ) : K := if j ≤ i then A (ai + i) (aj + j) else A (ai + j) (aj + i)

/-- `SYMV_L(m, a, A, ai, aj, x, xi, b, y, yi, z, zi)`: `z = b*y + a*A*x`, `A` symmetric, only the
lower triangle is read. -/
def symv_l (m : ℕ) (a : K) (A : Mat K) (ai aj : ℕ) (x : Vec K) (xi : ℕ) (b : K) (y : Vec K)
    (yi : ℕ) (z : Vec K) (zi : ℕ) : Vec K :=
  fun i => if zi ≤ i ∧ i < zi + m then
      b * y (yi + (i - zi)) + a * ∑ j ∈ range m, symL A ai aj (i - zi) j * x (xi + j)
    else z i

/-- `GECP(m, n, A, ai, aj, B, bi, bj)`: `B[bi+i][bj+j] = A[ai+i][aj+j]`. -/
def gecp {α : Type*} (m n : ℕ) (A : ℕ → ℕ → α) (ai aj : ℕ) (B : ℕ → ℕ → α) (bi bj : ℕ) : ℕ → ℕ → α :=
  fun i j => if (bi ≤ i ∧ i < bi + m) ∧ (bj ≤ j ∧ j < bj + n) then A (ai + (i - bi)) (aj + (j - bj))
    else B i j

/-- `GESE(m, n, a, A, ai, aj)`. -/
def gese (m n : ℕ) (a : K) (A : Mat K) (ai aj : ℕ) : Mat K :=
  fun i j => if (ai ≤ i ∧ i < ai + m) ∧ (aj ≤ j ∧ j < aj + n) then a else A i j

/-- `GEAD(m, n, a, A, ai, aj, B, bi, bj)`: `B += a*A`. -/
def gead (m n : ℕ) (a : K) (A : Mat K) (ai aj : ℕ) (B : Mat K) (bi bj : ℕ) : Mat K :=
  fun i j => if (bi ≤ i ∧ i < bi + m) ∧ (bj ≤ j ∧ j < bj + n) then
      B i j + a * A (ai + (i - bi)) (aj + (j - bj)) else B i j

/-- `ROWIN(n, a, x, xi, A, ai, aj)`: `A[ai][aj+j] = a*x[xi+j]`. -/
def rowin (n : ℕ) (a : K) (x : Vec K) (xi : ℕ) (A : Mat K) (ai aj : ℕ) : Mat K :=
  fun i j => if i = ai ∧ (aj ≤ j ∧ j < aj + n) then a * x (xi + (j - aj)) else A i j

/-- `ROWAD(n, a, x, xi, A, ai, aj)`: `A[ai][aj+j] += a*x[xi+j]`. -/
def rowad (n : ℕ) (a : K) (x : Vec K) (xi : ℕ) (A : Mat K) (ai aj : ℕ) : Mat K :=
  fun i j => if i = ai ∧ (aj ≤ j ∧ j < aj + n) then A i j + a * x (xi + (j - aj)) else A i j

/-- `ROWEX(n, a, A, ai, aj, x, xi)`: `x[xi+j] = a*A[ai][aj+j]`. -/
def rowex (n : ℕ) (a : K) (A : Mat K) (ai aj : ℕ) (x : Vec K) (xi : ℕ) : Vec K :=
  fun j => if xi ≤ j ∧ j < xi + n then a * A ai (aj + (j - xi)) else x j

/-- `COLIN(n, x, xi, A, ai, aj)`: `A[ai+i][aj] = x[xi+i]`. -/
def colin {α : Type*} (n : ℕ) (x : ℕ → α) (xi : ℕ) (A : ℕ → ℕ → α) (ai aj : ℕ) : ℕ → ℕ → α :=
  fun i j => if j = aj ∧ (ai ≤ i ∧ i < ai + n) then x (xi + (i - ai)) else A i j

/-- `TRCP_L(m, A, ai, aj, B, bi, bj)`: copies the lower triangle (with the diagonal). -/
def trcp_l {α : Type*} (m : ℕ) (A : ℕ → ℕ → α) (ai aj : ℕ) (B : ℕ → ℕ → α) (bi bj : ℕ) : ℕ → ℕ → α :=
  fun i j => if (bi ≤ i ∧ i < bi + m) ∧ (bj ≤ j ∧ j < bj + m) ∧ (j - bj ≤ i - bi) then
      A (ai + (i - bi)) (aj + (j - bj)) else B i j

/-- `TRTR_L(m, A, ai, aj, B, bi, bj)`: `B`'s upper triangle (with the diagonal) is the transpose of
the lower triangle of `A`. -/
def trtr_l {α : Type*} (m : ℕ) (A : ℕ → ℕ → α) (ai aj : ℕ) (B : ℕ → ℕ → α) (bi bj : ℕ) : ℕ → ℕ → α :=
  fun i j => if (bi ≤ i ∧ i < bi + m) ∧ (bj ≤ j ∧ j < bj + m) ∧ (i - bi ≤ j - bj) then
      A (ai + (j - bj)) (aj + (i - bi)) else B i j

/-- `GEMM_NN(m, n, k, a, A, ai, aj, B, bi, bj, b, C, ci, cj, D, di, dj)`: `D = b*C + a*A*B`. -/
def gemm_nn (m n k : ℕ) (a : K) (A : Mat K) (ai aj : ℕ) (B : Mat K) (bi bj : ℕ) (b : K)
    (C : Mat K) (ci cj : ℕ) (D : Mat K) (di dj : ℕ) : Mat K :=
  fun i j => if (di ≤ i ∧ i < di + m) ∧ (dj ≤ j ∧ j < dj + n) then
      b * C (ci + (i - di)) (cj + (j - dj)) +
        a * ∑ l ∈ range k, A (ai + (i - di)) (aj + l) * B (bi + l) (bj + (j - dj))
    else D i j

/-- `GEMM_NT(m, n, k, ...)`: `D = b*C + a*A*Bᵀ`. -/
def gemm_nt (m n k : ℕ) (a : K) (A : Mat K) (ai aj : ℕ) (B : Mat K) (bi bj : ℕ) (b : K)
    (C : Mat K) (ci cj : ℕ) (D : Mat K) (di dj : ℕ) : Mat K :=
  fun i j => if (di ≤ i ∧ i < di + m) ∧ (dj ≤ j ∧ j < dj + n) then
      b * C (ci + (i - di)) (cj + (j - dj)) +
        a * ∑ l ∈ range k, A (ai + (i - di)) (aj + l) * B (bi + (j - dj)) (bj + l)
    else D i j

/-- `SYRK_LN_MN(m, n, k, a, A, ai, aj, B, bi, bj, b, C, ci, cj, D, di, dj)`:
`D = b*C + a*A*Bᵀ`, `D` is `m×n` with `m ≥ n`, only the lower trapezoid is written. -/
def syrk_ln_mn (m n k : ℕ) (a : K) (A : Mat K) (ai aj : ℕ) (B : Mat K) (bi bj : ℕ) (b : K)
    (C : Mat K) (ci cj : ℕ) (D : Mat K) (di dj : ℕ) : Mat K :=
  fun i j => if (di ≤ i ∧ i < di + m) ∧ (dj ≤ j ∧ j < dj + n) ∧ (j - dj ≤ i - di) then
      b * C (ci + (i - di)) (cj + (j - dj)) +
        a * ∑ l ∈ range k, A (ai + (i - di)) (aj + l) * B (bi + (j - dj)) (bj + l)
    else D i j

/-- `TRMM_RLNN(m, n, a, A, ai, aj, B, bi, bj, D, di, dj)`: `D = a*B*A`, `A` lower triangular `n×n`,
`B` is `m×n`. -/
def trmm_rlnn (m n : ℕ) (a : K) (A : Mat K) (ai aj : ℕ) (B : Mat K) (bi bj : ℕ)
    (D : Mat K) (di dj : ℕ) : Mat K :=
  fun i j => if (di ≤ i ∧ i < di + m) ∧ (dj ≤ j ∧ j < dj + n) then
      a * ∑ l ∈ range n, if j - dj ≤ l then B (bi + (i - di)) (bj + l) * A (ai + l) (aj + (j - dj)) else 0
    else D i j

/-- `VECMULACC(n, x, xi, y, yi, z, zi)`: `z[zi+i] += x[xi+i]*y[yi+i]`. -/
def vecmulacc (n : ℕ) (x : Vec K) (xi : ℕ) (y : Vec K) (yi : ℕ) (z : Vec K) (zi : ℕ) : Vec K :=
  fun i => if zi ≤ i ∧ i < zi + n then z i + x (xi + (i - zi)) * y (yi + (i - zi)) else z i

/-- `GEMV_DIAG(n, a, A, ai, x, xi, b, y, yi, z, zi)`: `z = b*y + a*A*x`, `A` a diagonal matrix stored
as a vector. -/
def gemv_diag (n : ℕ) (a : K) (A : Vec K) (ai : ℕ) (x : Vec K) (xi : ℕ) (b : K) (y : Vec K) (yi : ℕ)
    (z : Vec K) (zi : ℕ) : Vec K :=
  fun i => if zi ≤ i ∧ i < zi + n then
      b * y (yi + (i - zi)) + a * (A (ai + (i - zi)) * x (xi + (i - zi))) else z i

end

section
variable {K : Type*} [Field K] [LinearOrder K]

/-- `VECNRM_1(n, x, xi, &r)`: sum of absolute values. -/
def vecnrm1 (n : ℕ) (x : Vec K) (xi : ℕ) : K := ∑ i ∈ range n, |x (xi + i)|

/-- `VECNRM_INF(n, x, xi, &r)`: the largest absolute value, `0` for an empty vector. -/
def vecnrmInf (n : ℕ) (x : Vec K) (xi : ℕ) : K :=
  Nat.rec 0 (fun i r => max r |x (xi + i)|) n

end

/-- the C loop `for(i=0; i<n; i++) s = body(i, s)` -/
def loop {S : Type*} (n : ℕ) (body : ℕ → S → S) (s : S) : S :=
  Nat.rec s (fun i acc => body i acc) n

@[simp] theorem loop_zero {S : Type*} (body : ℕ → S → S) (s : S) : loop 0 body s = s := rfl
theorem loop_succ {S : Type*} (n : ℕ) (body : ℕ → S → S) (s : S) :
    loop (n + 1) body s = body n (loop n body s) := rfl

/-- invariant rule for `loop` -/
theorem loop_inv {S : Type*} (P : ℕ → S → Prop) (n : ℕ) (body : ℕ → S → S) (s : S)
    (h0 : P 0 s) (hs : ∀ i s, i < n → P i s → P (i + 1) (body i s)) : P n (loop n body s) := by
  induction n with
  | zero => exact h0
  | succ k ih =>
    rw [loop_succ]
    exact hs k _ (Nat.lt_succ_self k) (ih (fun i s hi => hs i s (Nat.lt_succ_of_lt hi)))

/-- The C array assignment `a[i] = v`. -/
def upd {α : Type*} (a : ℕ → α) (i : ℕ) (v : α) : ℕ → α := fun j => if j = i then v else a j

@[simp] theorem upd_same {α : Type*} (a : ℕ → α) (i : ℕ) (v : α) : upd a i v i = v := by simp [upd]
theorem upd_ne {α : Type*} (a : ℕ → α) {i j : ℕ} (v : α) (h : j ≠ i) : upd a i v j = a j := by
  simp [upd, h]

/-- first `n` entries from `g`, the others from `f` (used in proofs about array loops) -/
def mix {α : Type*} (n : ℕ) (g f : ℕ → α) : ℕ → α := fun i => if i < n then g i else f i

@[simp] theorem mix_zero {α : Type*} (g f : ℕ → α) : mix 0 g f = f := by funext i; simp [mix]
theorem mix_lt {α : Type*} {n i : ℕ} (g f : ℕ → α) (h : i < n) : mix n g f i = g i := by simp [mix, h]
theorem mix_ge {α : Type*} {n i : ℕ} (g f : ℕ → α) (h : n ≤ i) : mix n g f i = f i := by
  simp [mix, Nat.not_lt.mpr h]
@[simp] theorem mix_self {α : Type*} (n : ℕ) (g f : ℕ → α) : mix n g f n = f n := mix_ge g f (le_refl n)
theorem upd_mix {α : Type*} (n : ℕ) (g f : ℕ → α) : upd (mix n g f) n (g n) = mix (n + 1) g f := by
  funext i
  by_cases hi : i = n
  · subst hi; simp [mix]
  · rw [upd_ne _ _ hi]; unfold mix; congr 1; apply propext; omega
theorem upd_mix' {α : Type*} (n : ℕ) (g f : ℕ → α) (v : α) (hv : v = g n) :
    upd (mix n g f) n v = mix (n + 1) g f := by rw [hv, upd_mix]
/-- array filling loop -/
theorem loop_upd {α : Type*} (n : ℕ) (g f : ℕ → α) : loop n (fun i a => upd a i (g i)) f = mix n g f := by
  induction n with
  | zero => simp
  | succ n ih => rw [loop_succ, ih, upd_mix]

end Hpipm
