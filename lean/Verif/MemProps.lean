/-
C04 (memsize is enough for create) and C05 (carved arrays do not overlap).
-/
import Verif.Mem

set_option linter.unusedVariables false

namespace Hpipm
open Carve

/-! ### Specification vocabulary -/

/-- the array lies in `[a, b)` -/
def Region.inside (r : Region) (a b : ℕ) : Prop := a ≤ r.lo ∧ r.lo + r.size ≤ b

/-- the arrays do not overlap -/
def Region.disjoint (r s : Region) : Prop := r.lo + r.size ≤ s.lo ∨ s.lo + s.size ≤ r.lo

/-- The carving needs at most `n` bytes, wherever it starts: all arrays are inside the `n` bytes,
and any two of them are disjoint. -/
def Fits (c : Carve) (n : ℕ) : Prop :=
  ∀ p, p ≤ (c p).2 ∧ (c p).2 ≤ p + n ∧ (∀ r ∈ (c p).1, r.inside p (c p).2) ∧
    (c p).1.Pairwise Region.disjoint

/-! ### Composition -/

theorem fits_skip : Fits skip 0 := fun p => ⟨le_refl _, le_refl _, by simp [skip], by simp [skip]⟩

theorem fits_arr (n : ℕ) : Fits (arr n) n := fun p =>
  ⟨by simp [arr], by simp [arr], by simp [arr, Region.inside], by simp [arr]⟩

theorem fits_align (a : ℕ) (ha : 0 < a) : Fits (align a) (a - 1) := by
  intro p
  refine ⟨?_, ?_, by simp [align], by simp [align]⟩
  · show p ≤ (p + (a - 1)) / a * a
    have h := Nat.div_add_mod (p + (a - 1)) a
    have h2 := Nat.mod_lt (p + (a - 1)) ha
    rw [Nat.mul_comm] at h
    omega
  · show (p + (a - 1)) / a * a ≤ p + (a - 1)
    exact Nat.div_mul_le_self _ _

theorem align_dvd (a p : ℕ) : a ∣ (align a p).2 := Dvd.intro_left _ rfl

theorem fits_seq {c d : Carve} {m n : ℕ} (hc : Fits c m) (hd : Fits d n) : Fits (c ⨟ d) (m + n) := by
  intro p
  obtain ⟨c1, c2, c3, c4⟩ := hc p
  obtain ⟨d1, d2, d3, d4⟩ := hd (c p).2
  refine ⟨by simp only [seq]; omega, by simp only [seq]; omega, ?_, ?_⟩
  · intro r hr
    simp only [seq, List.mem_append] at hr ⊢
    rcases hr with h | h
    · have := c3 r h; exact ⟨this.1, by have := this.2; omega⟩
    · have := d3 r h; exact ⟨by have := this.1; omega, this.2⟩
  · simp only [seq]
    rw [List.pairwise_append]
    refine ⟨c4, d4, ?_⟩
    intro r hr s hs
    left
    have h1 := (c3 r hr).2
    have h2 := (d3 s hs).1
    omega

theorem sumN_zero (f : ℕ → ℕ) : sumN 0 f = 0 := rfl
theorem sumN_succ (n : ℕ) (f : ℕ → ℕ) : sumN (n + 1) f = sumN n f + f n := rfl
theorem sumN_mul (n : ℕ) (f : ℕ → ℕ) (c : ℕ) : sumN n (fun k => f k * c) = sumN n f * c := by
  induction n with
  | zero => simp [sumN_zero]
  | succ n ih => rw [sumN_succ, sumN_succ, ih, Nat.add_mul]
theorem sumN_add (n : ℕ) (f g : ℕ → ℕ) : sumN n (fun k => f k + g k) = sumN n f + sumN n g := by
  induction n with
  | zero => simp [sumN_zero]
  | succ n ih => rw [sumN_succ, sumN_succ, sumN_succ, ih]; omega

theorem fits_forN (n : ℕ) (c : ℕ → Carve) (s : ℕ → ℕ) (h : ∀ k, k < n → Fits (c k) (s k)) :
    Fits (forN n c) (sumN n s) := by
  induction n with
  | zero => exact fits_skip
  | succ n ih =>
    rw [sumN_succ]
    exact fits_seq (ih (fun k hk => h k (by omega))) (h n (by omega))

theorem fits_within {c : Carve} {n total : ℕ} (hc : Fits c n) (h : n ≤ total) : Fits (within c total) total := by
  intro p
  obtain ⟨c1, c2, c3, c4⟩ := hc p
  refine ⟨by simp [within], by simp [within], ?_, c4⟩
  intro r hr
  have := c3 r hr
  exact ⟨this.1, by simp only [within]; have := this.2; omega⟩

theorem fits_mono {c : Carve} {m n : ℕ} (hc : Fits c m) (h : m ≤ n) : Fits c n := by
  intro p
  obtain ⟨c1, c2, c3, c4⟩ := hc p
  exact ⟨c1, by omega, c3, c4⟩

theorem fits_ite {c d : Carve} {m n : ℕ} (b : Bool) (hc : Fits c m) (hd : Fits d n) :
    Fits (if b then c else d) (if b then m else n) := by
  cases b
  · exact hd
  · exact hc

theorem le_round64 (n : ℕ) : n ≤ round64 n := by unfold round64; omega

theorem fits_stageVecs (A : Abi) (n : ℕ) (len : ℕ → ℕ) (total : ℕ) (h : sumN n len * A.real ≤ total) :
    Fits (stageVecs A n len total) total := by
  apply fits_within (fits_forN n _ (fun k => len k * A.real) (fun k _ => fits_arr _))
  rw [sumN_mul]; exact h

section Fit
attribute [local irreducible] arr skip align seq forN within stageVecs Fits

/-- collect the bound of a carving from its parts -/
local macro "fits" : tactic => `(tactic|
  (repeat' first
    | apply fits_seq
    | exact fits_arr _
    | exact fits_skip
    | exact fits_align _ (by norm_num)
    | assumption
    | apply fits_ite
    | (apply fits_forN; intro k hk)))

section
variable (A : Abi)

/-! ### C04 and C05 -/

/-- **C04, C05** dimension object. -/
theorem dim_create_fits (N : ℕ) : Fits (dimCreate A N) (dimMemsize A N) := by
  refine fits_mono (by unfold dimCreate; fits) ?_
  simp only [sumN_succ, sumN_zero, dimMemsize, Nat.mul_assoc]
  omega

variable (hA : A.Ok) (D : QpDim)
include hA

theorem fits_v : Fits (stageVecs A (D.N + 1) (nvk D) (A.vec (totV D))) (A.vec (totV D)) :=
  fits_stageVecs A _ _ _ (hA _)
theorem fits_e : Fits (stageVecs A D.N (fun k => D.nx (k + 1)) (A.vec (totE D))) (A.vec (totE D)) :=
  fits_stageVecs A _ _ _ (hA _)
theorem fits_c : Fits (stageVecs A (D.N + 1) (nctk D) (A.vec (totC D))) (A.vec (totC D)) :=
  fits_stageVecs A _ _ _ (hA _)

/-- **C04, C05** QP data: everything OCP_QP_CREATE places lies in `[mem, mem+memsize)` and no two
arrays overlap, for all sizes and every address `mem`. -/
theorem qp_create_fits : Fits (qpCreate A D) (qpMemsize A D) := by
  have hv := fits_v A hA D
  have he := fits_e A hA D
  have hc := fits_c A hA D
  refine fits_mono (by unfold qpCreate qpCreateHead qpCreateBody; fits) ?_
  unfold qpMemsize
  refine le_trans ?_ (Nat.add_le_add_right (le_round64 _) 64)
  simp only [sumN_succ, sumN_zero, sumN_add, Nat.mul_assoc]
  omega

/-- **C04, C05** solution object (and residual object, which carves the same sequence). -/
theorem sol_create_fits : Fits (solCreate A D) (solMemsize A D) := by
  have hv := fits_v A hA D
  have he := fits_e A hA D
  have hc := fits_c A hA D
  refine fits_mono (by unfold solCreate; fits) ?_
  unfold solMemsize
  refine le_trans ?_ (Nat.add_le_add_right (le_round64 _) 64)
  simp only [sumN_succ, sumN_zero, Nat.mul_assoc]
  omega

omit hA in
/-- **C04, C05** residual work space. -/
theorem resWs_create_fits : Fits (resWsCreate A D) (resWsMemsize A D) := by
  refine fits_mono (by unfold resWsCreate; fits) ?_
  unfold resWsMemsize
  refine le_trans ?_ (Nat.add_le_add_right (le_round64 _) 64)
  omega

omit hA in
/-- **C04, C05** core work space (arrays as a whole). -/
theorem core_create_fits (nv ne nc : ℕ) (cv ce cc : Carve) (hv : Fits cv (nv * A.real))
    (he : Fits ce (ne * A.real)) (hc : Fits cc (nc * A.real)) :
    Fits (coreCreate cv ce cc) (coreMemsize A nv ne nc) := by
  refine fits_mono (by unfold coreCreate; fits) ?_
  unfold coreMemsize
  refine le_trans ?_ (le_round64 _)
  simp only [Nat.mul_assoc]
  omega

/-- **C04, C05** solver work space, with and without the LQ arrays. -/
theorem ws_create_fits (lq : Bool) (statMax : ℕ) :
    Fits (wsCreate A D lq statMax) (wsMemsize A D lq statMax) := by
  have hs := fits_within (sol_create_fits A hA D) (le_refl _)
  have hr := fits_within (resWs_create_fits A D) (le_refl _)
  have hk := fits_within (core_create_fits A (totV D) (totE D) (totC D) _ _ _
    (fits_stageVecs A (D.N + 1) (nvk D) (totV D * A.real) (le_refl _))
    (fits_stageVecs A D.N (fun k => D.nx (k + 1)) (totE D * A.real) (le_refl _))
    (fits_stageVecs A (D.N + 1) (nctk D) (totC D * A.real) (le_refl _))) (le_refl _)
  refine fits_mono (by unfold wsCreate; fits) ?_
  unfold wsMemsize
  refine le_trans ?_ (le_round64 _)
  have hm : sumN (D.N + 1) (fun k => nctk D k * A.real) ≤ A.vec (totC D) := by
    rw [sumN_mul]; exact hA _
  cases lq <;> simp only [sumN_succ 0, sumN_succ 1, sumN_succ 2, sumN_succ 3, sumN_zero, Nat.mul_assoc, Nat.one_mul, Bool.false_eq_true, if_false, if_true] <;> omega

end

/-- **C04**, spelled out: no array of the QP object is placed outside `[mem, mem+memsize)`. -/
theorem qp_create_inside (A : Abi) (hA : A.Ok) (D : QpDim) (mem : ℕ) (r : Region)
    (hr : r ∈ (qpCreate A D mem).1) : mem ≤ r.lo ∧ r.lo + r.size ≤ mem + qpMemsize A D := by
  have hf := qp_create_fits A hA D
  unfold Fits at hf
  obtain ⟨_, h2, h3, _⟩ := hf mem
  have := h3 r hr
  exact ⟨this.1, le_trans this.2 h2⟩

end Fit

/-- **C05** the matrices start at a multiple of 64 bytes, whatever the address of the block. -/
theorem qp_fp_aligned (A : Abi) (D : QpDim) (p : ℕ) : 64 ∣ ((qpCreateHead A D ⨟ align 64) p).2 := align_dvd 64 _

/-! ### Concrete case -/
/-- sizes as on a 64 bit machine with double precision and 4x4 panels -/
def exAbi : Abi where
  int := 4
  ptr := 8
  real := 8
  strmat := 48
  strvec := 32
  core := 400
  res := 104
  resWs := 48
  sol := 56
  qp := 120
  mat := fun m n => (m + 3) / 4 * 4 * ((n + 3) / 4 * 4) * 8 + 64
  vec := fun n => (n + 3) / 4 * 4 * 8
  gelqf := fun m n => 64
theorem exAbi_ok : exAbi.Ok := by
  intro n; show n * 8 ≤ (n + 3) / 4 * 4 * 8; omega
def exMemDim : QpDim where
  N := 1
  nx := fun _ => 2
  nu := fun _ => 1
  nb := fun _ => 3
  nbx := fun _ => 2
  nbu := fun _ => 1
  ng := fun _ => 1
  ns := fun _ => 1
/-- the two `b`/`rqz` blocks etc. are really placed: 29 arrays, from an unaligned address -/
example : ((qpCreate exAbi exMemDim 1000003).1.length = 35) := by decide
end Hpipm
