/-
Model of the Riccati getters of the solver, OCP_QP_IPM_GET_RIC_* (ocp_qp/x_ocp_qp_ipm.c:1403-1629), and what they return for a
workspace that holds a factorised Riccati recursion.

Simplifications: the user arrays are total functions; the scratch matrices `tmp_nuxM_nuxM`, `tmp_nuxM` of the workspace are
local; `cws->v`, `cws->pi`, `cws->lam`, `cws->t` are aliases of the solution object the re-solve writes to, which is harmless
because COMPUTE_LAM_T_QP reads entry `i` of `lam` before it writes entry `i` of `dlam`, and no other routine of the re-solve
reads them after the sweeps have started.
-/
import Verif.RicVal
import Verif.KktUnc

namespace Hpipm
open Finset
set_option linter.unusedSectionVars false

section
variable {K : Type*} [Field K] [LinearOrder K] [IsStrictOrderedRing K]

/-- `TRSM_RLNN(m, n, al, A, ai, aj, B, bi, bj, D, di, dj)` (BLASFEO): `D = al * B * A⁻¹`, `A` lower triangular, not unit; the
rows of `D` are independent, each solves a transposed triangular system -/
def trsm_rlnn (m n : ℕ) (al : K) (A : Mat K) (ai aj : ℕ) (B : Mat K) (bi bj : ℕ) (D : Mat K) (di dj : ℕ) : Mat K :=
  fun i j => if (di ≤ i ∧ i < di + m) ∧ (dj ≤ j ∧ j < dj + n) then
      trsv_ltn_mn n n (fun r c => A (ai + r) (aj + c)) (fun c => al * B (bi + (i - di)) (bj + c)) (j - dj)
    else D i j

/-- the part of the workspace the getters use (struct OCP_QP_IPM_WS, include/hpipm_d_ocp_qp_ipm.h): factorisation and vectors
(`L`, `P`, `l`, ..., and the solution object `sol_itref` as the step under computation), core workspace, `square_root_alg`,
`valid_ric_vec`, `valid_ric_p` -/
structure RicWs (K : Type*) where
  st : KktSt K
  core : Core K
  sqr : Bool
  ricVec : Bool
  ricP : Bool

/-- the block guarded by `valid_ric_vec==0`, x_ocp_qp_ipm.c:1462-1494 (same text at 1511-1543 and 1588-1620): load arguments and
the iterate saved in the backup vectors, re-solve with the right-hand side of the user's QP without the stored `P*b`.  SOLVE_KKT_STEP
sets `valid_ric_p` (x_ocp_qp_kkt.c:2342, 2488). `big` is `1e30`. -/
def ricEnsure (qp : OcpQp K) (dual : Bool) (lam_min t_min big : K) (t_lam_min : ℕ) (w : RicWs K) : RicWs K :=
  if w.ricVec then w
  else
    let c := { w.core with
      lam_min := lam_min
      t_min := t_min
      t_min_inv := if t_min > 0 then 1 / t_min else big
      t_lam_min := t_lam_min
      v := veccp w.core.nv w.core.v_bkp 0 w.core.v 0
      pi := veccp w.core.ne w.core.pi_bkp 0 w.core.pi 0
      lam := veccp w.core.nc w.core.lam_bkp 0 w.core.lam 0
      t := veccp w.core.nc w.core.t_bkp 0 w.core.t 0 }
    let r := solveKktStep qp dual w.sqr false c w.st
    { w with
      st := r.2
      core := r.1
      ricVec := true
      ricP := true }

/-- OCP_QP_IPM_GET_RIC_LR, x_ocp_qp_ipm.c:1403-1410 -/
def getRicLr (D : QpDim) (w : RicWs K) (k : ℕ) (v : ℕ → K) : ℕ → K := unpackMat (D.nu k) (D.nu k) (w.st.L k) 0 0 v (D.nu k)

/-- OCP_QP_IPM_GET_RIC_LS, x_ocp_qp_ipm.c:1414-1423 -/
def getRicLs (D : QpDim) (w : RicWs K) (k : ℕ) (v : ℕ → K) : ℕ → K := unpackMat (D.nx k) (D.nu k) (w.st.L k) (D.nu k) 0 v (D.nx k)

/-- OCP_QP_IPM_GET_RIC_P, x_ocp_qp_ipm.c:1427-1450; `T0`, `T1` the previous contents of the scratch matrices -/
def getRicP (D : QpDim) (T0 T1 : Mat K) (w : RicWs K) (k : ℕ) (v : ℕ → K) : ℕ → K :=
  if w.sqr = true ∨ k = 0 then
    let T0 := gese (D.nx k) (D.nx k) 0 T0 0 0
    let T0 := trcp_l (D.nx k) (w.st.L k) (D.nu k) (D.nu k) T0 0 0
    let T1 := syrk_ln_mn (D.nx k) (D.nx k) (D.nx k) 1 T0 0 0 T0 0 0 0 T1 0 0 T1 0 0
    let T1 := trtr_l (D.nx k) T1 0 0 T1 0 0
    unpackMat (D.nx k) (D.nx k) T1 0 0 v (D.nx k)
  else unpackMat (D.nx k) (D.nx k) (w.st.P k) 0 0 v (D.nx k)

/-- OCP_QP_IPM_GET_RIC_LR_VEC after the guarded block, x_ocp_qp_ipm.c:1496-1498 -/
def getRicLrVec (D : QpDim) (w : RicWs K) (k : ℕ) (v : ℕ → K) : ℕ → K := unpackVec (D.nu k) (w.st.l k) 0 v

/-- OCP_QP_IPM_GET_RIC_P_VEC after the guarded block, x_ocp_qp_ipm.c:1545-1558; `tmp` the previous contents of the scratch vector -/
def getRicPVec (D : QpDim) (tmp : Vec K) (w : RicWs K) (k : ℕ) (v : ℕ → K) : ℕ → K :=
  if w.ricP = false ∨ k = 0 then
    unpackVec (D.nx k) (trmv_lnn (D.nx k) (w.st.L k) (D.nu k) (D.nu k) (w.st.l k) (D.nu k) tmp 0) 0 v
  else unpackVec (D.nx k) (w.st.l k) (D.nu k) v

/-- OCP_QP_IPM_GET_RIC_K, x_ocp_qp_ipm.c:1562-1577 -/
def getRicK (D : QpDim) (w : RicWs K) (k : ℕ) (v : ℕ → K) : ℕ → K :=
  unpackTranMat (D.nx k) (D.nu k) (trsm_rlnn (D.nx k) (D.nu k) (-1) (w.st.L k) 0 0 (w.st.L k) (D.nu k) 0 w.st.Ls 0 0) 0 0 v (D.nu k)

/-- OCP_QP_IPM_GET_RIC_K_VEC after the guarded block, x_ocp_qp_ipm.c:1622-1626 -/
def getRicKVec (D : QpDim) (tmp : Vec K) (w : RicWs K) (k : ℕ) (v : ℕ → K) : ℕ → K :=
  unpackVec (D.nu k) (vecsc (D.nu k) (-1) (fun i => if i < D.nu k then trsv_ltn_mn (D.nu k) (D.nu k) (w.st.L k) (w.st.l k) i else tmp i) 0) 0 v

/-! ### the arrays as matrices and vectors -/

/-- everything the getters return for stage `k`, the column major arrays read as matrices: `gain` is the array of GET_RIC_K, `ffw` that
of GET_RIC_K_VEC -/
structure RicGot (K : Type*) where
  Lr : ℕ → ℕ → ℕ → K
  Ls : ℕ → ℕ → ℕ → K
  P : ℕ → ℕ → ℕ → K
  gain : ℕ → ℕ → ℕ → K
  lr : ℕ → ℕ → K
  p : ℕ → ℕ → K
  ffw : ℕ → ℕ → K

/-- the arrays filled by the getters (initially zero; the scratch memory is arbitrary) -/
def ricGot (D : QpDim) (T0 T1 : Mat K) (tmp : Vec K) (w : RicWs K) : RicGot K where
  Lr := fun k i j => getRicLr D w k (fun _ => 0) (i + D.nu k * j)
  Ls := fun k i j => getRicLs D w k (fun _ => 0) (i + D.nx k * j)
  P := fun k i j => getRicP D T0 T1 w k (fun _ => 0) (i + D.nx k * j)
  gain := fun k i j => getRicK D w k (fun _ => 0) (i + D.nu k * j)
  lr := fun k => getRicLrVec D w k (fun _ => 0)
  p := fun k => getRicPVec D tmp w k (fun _ => 0)
  ffw := fun k => getRicKVec D tmp w k (fun _ => 0)

/-! ### values -/

/-- the workspace stores the factorised recursion `R` with right-hand side `p`, `ell` -/
structure RicOk (D : QpDim) (R : RicData K) (p ell : ℕ → Vec K) (w : RicWs K) : Prop where
  fac : R.Fac
  rhs : R.Rhs p ell
  nu : R.nu = D.nu
  nx : R.nx = D.nx
  L : R.Lam = w.st.L
  P : R.P = ctgP D w.sqr w.st
  lu : ∀ k j, k ≤ R.N → j < D.nu k → w.st.l k j = ell k j
  l0 : ∀ j, j < D.nx 0 → w.st.l 0 (D.nu 0 + j) = ell 0 (D.nu 0 + j)
  lx : ∀ k i, k ≠ 0 → k ≤ R.N → i < D.nx k →
    (if w.ricP then w.st.l k (D.nu k + i) else ∑ l ∈ range (D.nx k), low (w.st.L k) (D.nu k + i) (D.nu k + l) * w.st.l k (D.nu k + l)) = p k i

section
variable {D : QpDim} {R : RicData K} {p ell : ℕ → Vec K} {w : RicWs K} (T0 T1 : Mat K) (tmp : Vec K)

theorem got_Lr (k i j : ℕ) (hi : i < D.nu k) (hj : j < D.nu k) : (ricGot D T0 T1 tmp w).Lr k i j = w.st.L k i j := by
  show getRicLr D w k (fun _ => 0) (i + D.nu k * j) = _
  unfold getRicLr
  rw [unpackMat_at _ _ _ _ _ _ _ _ hi hj, zero_add, zero_add]

theorem got_Ls (k a j : ℕ) (ha : a < D.nx k) (hj : j < D.nu k) : (ricGot D T0 T1 tmp w).Ls k a j = w.st.L k (D.nu k + a) j := by
  show getRicLs D w k (fun _ => 0) (a + D.nx k * j) = _
  unfold getRicLs
  rw [unpackMat_at _ _ _ _ _ _ _ _ ha hj, zero_add]

theorem got_lr (k j : ℕ) (hj : j < D.nu k) : (ricGot D T0 T1 tmp w).lr k j = w.st.l k j := by
  show getRicLrVec D w k (fun _ => 0) j = _
  unfold getRicLrVec
  rw [unpackVec_at _ _ _ _ _ hj, zero_add]

theorem RicOk.piv (h : RicOk D R p ell w) (k j : ℕ) (hk : k ≤ R.N) (hj : j < D.nu k) : w.st.L k j j ≠ 0 := by
  have := (h.fac.fac k hk).piv j (by
    rw [RicData.ne, h.nu, h.nx]; split_ifs with h0
    · subst h0; omega
    · exact hj)
  rwa [h.L] at this

theorem RicOk.gain (h : RicOk D R p ell w) (k a j : ℕ) (hk : k ≤ R.N) (ha : a < D.nx k) (hj : j < D.nu k) :
    ∑ i ∈ range (D.nu k), low (w.st.L k) i j * (ricGot D T0 T1 tmp w).gain k i a = - low (w.st.L k) (D.nu k + a) j := by
  have e : ∀ i, i ∈ range (D.nu k) → low (w.st.L k) i j * (ricGot D T0 T1 tmp w).gain k i a =
      low (w.st.L k) i j * trsv_ltn_mn (D.nu k) (D.nu k) (w.st.L k) (fun c => -1 * w.st.L k (D.nu k + a) c) i := by
    intro i hi
    have hi := mem_range.mp hi
    congr 1
    show getRicK D w k (fun _ => 0) (i + D.nu k * a) = _
    unfold getRicK
    rw [unpackTran_at _ _ _ _ _ _ _ _ hi ha, trsm_rlnn, if_pos (by omega)]
    simp only [zero_add, Nat.sub_zero]
  rw [sum_congr rfl e, trsv_ltn_mn_spec _ _ (le_refl _) _ _ (fun j hj => h.piv k j hk hj) j hj, low, if_pos (by omega)]
  ring

theorem RicOk.ffw (h : RicOk D R p ell w) (k j : ℕ) (hk : k ≤ R.N) (hj : j < D.nu k) :
    ∑ i ∈ range (D.nu k), low (w.st.L k) i j * (ricGot D T0 T1 tmp w).ffw k i = - ell k j := by
  have e : ∀ i, i ∈ range (D.nu k) → low (w.st.L k) i j * (ricGot D T0 T1 tmp w).ffw k i =
      - (low (w.st.L k) i j * trsv_ltn_mn (D.nu k) (D.nu k) (w.st.L k) (w.st.l k) i) := by
    intro i hi
    have hi := mem_range.mp hi
    have : (ricGot D T0 T1 tmp w).ffw k i = - trsv_ltn_mn (D.nu k) (D.nu k) (w.st.L k) (w.st.l k) i := by
      show getRicKVec D tmp w k (fun _ => 0) i = _
      unfold getRicKVec
      rw [unpackVec_at _ _ _ _ _ hi, vecsc, if_pos (by omega), zero_add, if_pos hi]
      ring
    rw [this]; ring
  rw [sum_congr rfl e, sum_neg_distrib, trsv_ltn_mn_spec _ _ (le_refl _) _ _ (fun j hj => h.piv k j hk hj) j hj, h.lu k j hk hj]

/-- the cost to go Hessian returned by the getter -/
theorem RicOk.getP (h : RicOk D R p ell w) (k i j : ℕ) (hi : i < D.nx k) (hj : j < D.nx k) :
    (ricGot D T0 T1 tmp w).P k i j = R.Pv k i j := by
  show getRicP D T0 T1 w k (fun _ => 0) (i + D.nx k * j) = _
  have hsq : ∀ T0 T1 : Mat K, ∀ i j, i < D.nx k → j < D.nx k →
      trtr_l (D.nx k) (syrk_ln_mn (D.nx k) (D.nx k) (D.nx k) 1
        (trcp_l (D.nx k) (w.st.L k) (D.nu k) (D.nu k) (gese (D.nx k) (D.nx k) 0 T0 0 0) 0 0) 0 0
        (trcp_l (D.nx k) (w.st.L k) (D.nu k) (D.nu k) (gese (D.nx k) (D.nx k) 0 T0 0 0) 0 0) 0 0 0 T1 0 0 T1 0 0) 0 0
        (syrk_ln_mn (D.nx k) (D.nx k) (D.nx k) 1
        (trcp_l (D.nx k) (w.st.L k) (D.nu k) (D.nu k) (gese (D.nx k) (D.nx k) 0 T0 0 0) 0 0) 0 0
        (trcp_l (D.nx k) (w.st.L k) (D.nu k) (D.nu k) (gese (D.nx k) (D.nx k) 0 T0 0 0) 0 0) 0 0 0 T1 0 0 T1 0 0) 0 0 i j =
      sqP (D.nu k) (D.nx k) (w.st.L k) i j := by
    intro T0 T1
    set T := trcp_l (D.nx k) (w.st.L k) (D.nu k) (D.nu k) (gese (D.nx k) (D.nx k) 0 T0 0 0) 0 0 with hT
    have hTv : ∀ i l, i < D.nx k → l < D.nx k → T i l = low (w.st.L k) (D.nu k + i) (D.nu k + l) := by
      intro i l hi hl
      rw [hT, trcp_l, low]
      by_cases hli : l ≤ i
      · rw [if_pos (by omega), if_pos (by omega)]; simp
      · rw [if_neg (by omega), if_neg (by omega), gese, if_pos (by omega)]
    have hS : ∀ i j, i < D.nx k → j ≤ i → syrk_ln_mn (D.nx k) (D.nx k) (D.nx k) 1 T 0 0 T 0 0 0 T1 0 0 T1 0 0 i j =
        sqP (D.nu k) (D.nx k) (w.st.L k) i j := by
      intro i j hi hj
      rw [syrk_ln_mn, if_pos (by omega), sqP]
      simp only [Nat.sub_zero, zero_add, zero_mul, one_mul]
      refine sum_congr rfl (fun l hl => ?_)
      rw [hTv i l hi (mem_range.mp hl), hTv j l (by omega) (mem_range.mp hl)]
    intro i j hi hj
    by_cases hij : i ≤ j
    · rw [trtr_l, if_pos (by omega)]
      simp only [Nat.sub_zero, zero_add]
      rw [hS j i hj hij, sqP_sym]
    · rw [trtr_l, if_neg (by omega)]
      exact hS i j hi (by omega)
  have hL0 : R.Lam = w.st.L := h.L
  unfold getRicP
  by_cases hc : w.sqr = true ∨ k = 0
  · rw [if_pos hc]
    rw [unpackMat_at _ _ _ _ _ _ _ _ hi hj, zero_add, zero_add, hsq T0 T1 i j hi hj, RicData.Pv]
    by_cases hk : k = 0
    · subst hk; rw [if_pos rfl, h.nu, h.nx, h.L]
    · rw [if_neg hk, h.P, ctgP, if_pos (hc.resolve_right hk)]
  · rw [if_neg hc, unpackMat_at _ _ _ _ _ _ _ _ hi hj, zero_add, zero_add, RicData.Pv, if_neg (fun hk => hc (Or.inr hk)), h.P, ctgP,
      if_neg (fun hs => hc (Or.inl hs))]

/-- the cost to go gradient returned by the getter -/
theorem RicOk.getp (h : RicOk D R p ell w) (k i : ℕ) (hk : k ≤ R.N) (hi : i < D.nx k) :
    (ricGot D T0 T1 tmp w).p k i = R.pv p ell k i := by
  show getRicPVec D tmp w k (fun _ => 0) i = _
  have ht : trmv_lnn (D.nx k) (w.st.L k) (D.nu k) (D.nu k) (w.st.l k) (D.nu k) tmp 0 i =
      ∑ l ∈ range (D.nx k), low (w.st.L k) (D.nu k + i) (D.nu k + l) * w.st.l k (D.nu k + l) := by
    rw [trmv_lnn_at _ _ _ _ _ _ _ _ hi]
    refine sum_congr rfl (fun l _ => ?_)
    simp only [low, Nat.add_le_add_iff_left]
  unfold getRicPVec
  by_cases hk0 : k = 0
  · subst hk0
    rw [if_pos (Or.inr rfl), unpackVec_at _ _ _ _ _ hi, zero_add, ht, RicData.pv, if_pos rfl, h.nu, h.nx, h.L]
    exact sum_congr rfl (fun l hl => by rw [h.l0 l (mem_range.mp hl)])
  · have hlx := h.lx k i hk0 hk hi
    rw [RicData.pv, if_neg hk0, ← hlx]
    cases hp : w.ricP
    · rw [if_pos (Or.inl rfl), unpackVec_at _ _ _ _ _ hi, zero_add, ht]
      simp
    · rw [if_neg (by simp [hk0]), unpackVec_at _ _ _ _ _ hi]
      simp

/-- the scaled deviation from the feedback law in terms of what the getters return -/
theorem RicOk.dev (h : RicOk D R p ell w) (k j : ℕ) (hk : k ≤ R.N) (hj : j < D.nu k) (v : Vec K) :
    ∑ i ∈ range (D.nu k + D.nx k), low (w.st.L k) i j * v i + ell k j =
      ∑ i ∈ range (D.nu k), low ((ricGot D T0 T1 tmp w).Lr k) i j * (v i
        - (∑ a ∈ range (D.nx k), (ricGot D T0 T1 tmp w).gain k i a * v (D.nu k + a) + (ricGot D T0 T1 tmp w).ffw k i)) := by
  set G := ricGot D T0 T1 tmp w with hG
  have e : ∑ i ∈ range (D.nu k), low (G.Lr k) i j * (v i - (∑ a ∈ range (D.nx k), G.gain k i a * v (D.nu k + a) + G.ffw k i)) =
      ∑ i ∈ range (D.nu k), low (w.st.L k) i j * v i - (∑ a ∈ range (D.nx k), (∑ i ∈ range (D.nu k), low (w.st.L k) i j * G.gain k i a) * v (D.nu k + a)
        + ∑ i ∈ range (D.nu k), low (w.st.L k) i j * G.ffw k i) := by
    simp only [sum_mul]
    rw [sum_comm, ← sum_add_distrib, ← sum_sub_distrib]
    refine sum_congr rfl (fun i hi => ?_)
    have hl : low (G.Lr k) i j = low (w.st.L k) i j := by
      unfold low
      by_cases hji : j ≤ i
      · rw [if_pos hji, if_pos hji, hG, got_Lr T0 T1 tmp k i j (mem_range.mp hi) hj]
      · rw [if_neg hji, if_neg hji]
    rw [hl, mul_sub, mul_add, mul_sum]
    congr 2
    exact sum_congr rfl (fun a _ => by ring)
  have hg : ∑ a ∈ range (D.nx k), (∑ i ∈ range (D.nu k), low (w.st.L k) i j * G.gain k i a) * v (D.nu k + a) =
      - ∑ a ∈ range (D.nx k), low (w.st.L k) (D.nu k + a) j * v (D.nu k + a) := by
    rw [← sum_neg_distrib]
    refine sum_congr rfl (fun a ha => ?_)
    rw [h.gain T0 T1 tmp k a j hk (mem_range.mp ha) hj]; ring
  rw [e, hg, h.ffw T0 T1 tmp k j hk hj, sum_range_add _ (D.nu k)]
  ring

/-- the deviation vanishes exactly when the inputs obey the feedback law -/
theorem RicOk.law (h : RicOk D R p ell w) (k : ℕ) (hk : k ≤ R.N) (v : Vec K) :
    (∀ j, j < D.nu k → ∑ i ∈ range (D.nu k + D.nx k), low (w.st.L k) i j * v i + ell k j = 0) ↔
    ∀ i, i < D.nu k → v i = ∑ a ∈ range (D.nx k), (ricGot D T0 T1 tmp w).gain k i a * v (D.nu k + a) + (ricGot D T0 T1 tmp w).ffw k i := by
  constructor
  · intro hz i hi
    have := low_inj_tr (n := D.nu k) (A := (ricGot D T0 T1 tmp w).Lr k)
      (fun j hj => by rw [got_Lr T0 T1 tmp k j j hj hj]; exact h.piv k j hk hj)
      (y := fun i => v i - (∑ a ∈ range (D.nx k), (ricGot D T0 T1 tmp w).gain k i a * v (D.nu k + a) + (ricGot D T0 T1 tmp w).ffw k i))
      (fun j hj => by rw [← h.dev T0 T1 tmp k j hk hj v]; exact hz j hj) i hi
    exact sub_eq_zero.mp this
  · intro hz j hj
    rw [h.dev T0 T1 tmp k j hk hj v]
    refine sum_eq_zero (fun i hi => ?_)
    rw [sub_eq_zero.mpr (hz i (mem_range.mp hi)), mul_zero]

end

/-! ### contents of the vectors after the forward sweeps -/

/-- the vectors after a forward sweep -/
structure LDone (D : QpDim) (e f : ℕ → Vec K) (l : ℕ → Vec K) : Prop where
  u : ∀ k j, k ≤ D.N → j < nel D k → l k j = e k j
  x : ∀ k i, k ≠ 0 → k ≤ D.N → i < D.nx k → l k (D.nu k + i) = f k i

/-- effect of a forward step on the vectors -/
structure LStep (D : QpDim) (n k : ℕ) (e f : Vec K) (l l' : ℕ → Vec K) : Prop where
  o : ∀ q, q ≠ k → q ≠ k + 1 → l' q = l q
  k0 : ∀ j, j < n → l' k j = e j
  k1 : ∀ j, n ≤ j → l' k j = l k j
  s0 : ∀ i, i < D.nx (k + 1) → l' (k + 1) (D.nu (k + 1) + i) = f i

theorem l_chain (D : QpDim) (hN : 1 ≤ D.N) (e f : ℕ → Vec K) (Inv : ℕ → KktSt K → Prop)
    (step : ℕ → ℕ → KktSt K → KktSt K) (last : KktSt K → KktSt K) (st0 : KktSt K) (h0 : Inv 0 st0)
    (hs : ∀ k st, k < D.N → Inv k st → Inv (k + 1) (step (nel D k) k st) ∧
      LStep D (nel D k) k (e k) (f (k + 1)) st.l (step (nel D k) k st).l)
    (hl : ∀ st, Inv D.N st → (∀ q, q ≠ D.N → (last st).l q = st.l q) ∧ (∀ j, j < D.nu D.N → (last st).l D.N j = e D.N j) ∧
      (∀ j, D.nu D.N ≤ j → (last st).l D.N j = st.l D.N j)) :
    LDone D e f (last (loop (D.N - 1) (fun i st => step (D.nu (i + 1)) (i + 1) st) (step (D.nu 0 + D.nx 0) 0 st0))).l := by
  have key := loop_inv (S := KktSt K) (fun i st => Inv (i + 1) st ∧ (∀ k j, k ≤ i → j < nel D k → st.l k j = e k j) ∧
      (∀ k a, k ≠ 0 → k ≤ i + 1 → a < D.nx k → st.l k (D.nu k + a) = f k a)) (D.N - 1)
    (fun i st => step (D.nu (i + 1)) (i + 1) st) (step (D.nu 0 + D.nx 0) 0 st0) ?_ ?_
  · obtain ⟨k1, k2, k3⟩ := key
    rw [show D.N - 1 + 1 = D.N by omega] at k1 k3
    obtain ⟨l1, l2, l3⟩ := hl _ k1
    refine ⟨fun k j hk hj => ?_, fun k i hk0 hk hi => ?_⟩
    · by_cases hq : k = D.N
      · subst hq
        rw [nel, if_neg (by omega)] at hj
        exact l2 j hj
      · rw [l1 k hq]; exact k2 k j (by omega) hj
    · by_cases hq : k = D.N
      · subst hq
        rw [l3 _ (by omega)]; exact k3 _ i hk0 (le_refl _) hi
      · rw [l1 k hq]; exact k3 k i hk0 hk hi
  · have hn : nel D 0 = D.nu 0 + D.nx 0 := if_pos rfl
    obtain ⟨s1, s2⟩ := hs 0 st0 (by omega) h0
    rw [hn] at s1 s2
    refine ⟨s1, fun k j hk hj => ?_, fun k a hk0 hk ha => ?_⟩
    · have : k = 0 := by omega
      subst this
      rw [hn] at hj
      exact s2.k0 j hj
    · have : k = 0 + 1 := by omega
      subst this
      exact s2.s0 a ha
  · rintro i st hi ⟨k1, k2, k3⟩
    have hn : nel D (i + 1) = D.nu (i + 1) := if_neg (by omega)
    obtain ⟨s1, s2⟩ := hs (i + 1) st (by omega) k1
    rw [hn] at s1 s2
    refine ⟨s1, fun k j hk hj => ?_, fun k a hk0 hk ha => ?_⟩
    · by_cases hq : k = i + 1
      · subst hq; rw [hn] at hj; exact s2.k0 j hj
      · rw [s2.o k hq (by omega)]; exact k2 k j (by omega) hj
    · by_cases hq : k = i + 1 + 1
      · subst hq; exact s2.s0 a ha
      · by_cases hq2 : k = i + 1
        · subst hq2
          rw [s2.k1 _ (by omega)]; exact k3 _ a hk0 (by omega) ha
        · rw [s2.o k hq2 hq]; exact k3 k a hk0 (by omega) ha

theorem fwd_l (qp : OcpQp K) (dual sqr : Bool) (hN : 1 ≤ qp.dim.N) (st : KktSt K) :
    LDone qp.dim (fun k j => st.L k (qp.dim.nu k + qp.dim.nx k) j)
      (fun k i => if sqr then st.L k (qp.dim.nu k + qp.dim.nx k) (qp.dim.nu k + i) else st.P k (qp.dim.nx k) i)
      (fwd qp dual sqr st).l := by
  refine l_chain qp.dim hN _ _ (fun _ s => s.L = st.L ∧ s.P = st.P)
    (fun n k st => if sqr then sqFwd qp dual n k st else clFwd qp dual n k st) (fwdLast qp) st ⟨rfl, rfl⟩ ?_ ?_
  · rintro k s _ ⟨h1, h2⟩
    have hk1 : k + 1 ≠ k := by omega
    have hk2 : k ≠ k + 1 := by omega
    cases sqr
    · simp only [Bool.false_eq_true, if_false]
      refine ⟨⟨h1, h2⟩, ⟨fun q q1 q2 => ?_, fun j hj => ?_, fun j hj => ?_, fun i hi => ?_⟩⟩
      · simp only [clFwd, upd_ne _ _ q2, upd_ne _ _ q1]
      · simp only [clFwd, upd_ne _ _ hk2, upd_same]
        rw [veccpsc, if_pos (by omega), rowex, if_pos (by omega), h1]
        simp
      · simp only [clFwd, upd_ne _ _ hk2, upd_same]
        rw [veccpsc, if_neg (by omega)]
      · simp only [clFwd, upd_same]
        rw [veccp, if_pos (by omega), rowex, if_pos (by omega), h2]
        simp
    · simp only [if_true]
      refine ⟨⟨h1, h2⟩, ⟨fun q q1 q2 => ?_, fun j hj => ?_, fun j hj => ?_, fun i hi => ?_⟩⟩
      · simp only [sqFwd, upd_ne _ _ q2, upd_ne _ _ q1]
      · simp only [sqFwd, upd_ne _ _ hk2, upd_same]
        rw [veccpsc, if_pos (by omega), rowex, if_pos (by omega), h1]
        simp
      · simp only [sqFwd, upd_ne _ _ hk2, upd_same]
        rw [veccpsc, if_neg (by omega)]
      · simp only [sqFwd, upd_same]
        rw [veccp, if_pos (by omega), rowex, if_pos (by omega), h1]
        simp
  · rintro s ⟨h1, h2⟩
    refine ⟨fun q hq => ?_, fun j hj => ?_, fun j hj => ?_⟩
    · simp only [fwdLast, upd_ne _ _ hq]
    · simp only [fwdLast, upd_same]
      rw [veccpsc, if_pos (by omega), rowex, if_pos (by omega), h1]
      simp
    · simp only [fwdLast, upd_same]
      rw [veccpsc, if_neg (by omega)]

theorem FPre.step {qp : OcpQp K} {st0 st st' : KktSt K} {dual : Bool} {k : ℕ} {ell p : Vec K} {Pc : Mat K} (hp : FPre qp st0 k st)
    (h : FStep qp dual (nel qp.dim k) k ell Pc p st st') : FPre qp st0 (k + 1) st' := by
  have hn1 : nel qp.dim (k + 1) = qp.dim.nu (k + 1) := if_neg (by omega)
  have hle : nel qp.dim k ≤ qp.dim.nu k + qp.dim.nx k := by
    unfold nel; split_ifs with h
    · subst h; exact le_refl _
    · omega
  refine ⟨by rw [h.L, hp.L], by rw [h.P, hp.P], by rw [h.BAbt, hp.BAbt], by rw [h.RSQrq, hp.RSQrq], by rw [h.Zs, hp.Zs],
    by rw [h.Pb, hp.Pb], by rw [h.lam, hp.lam], by rw [h.t, hp.t],
    fun q hq => by rw [h.uxo q (by omega) (by omega), hp.uxg q (by omega)], fun j hj => ?_, fun q j hj => ?_⟩
  · rw [h.ux1o j (by omega), hp.uxg _ (by omega)]
  · by_cases hq0 : q = k
    · subst hq0; rw [h.uxk j (by omega), hp.uxs _ j hj]
    · by_cases hq1 : q = k + 1
      · subst hq1; rw [h.ux1o j (by omega), hp.uxs _ j hj]
      · rw [h.uxo q hq0 hq1, hp.uxs q j hj]

theorem fwdSub_l (qp : OcpQp K) (dual sqr : Bool) (hN : 1 ≤ qp.dim.N) (st : KktSt K)
    (hp : ∀ k j, k ≤ qp.dim.N → j < nel qp.dim k → st.L k j j ≠ 0) :
    LDone qp.dim st.ux (fun k i => st.ux k (qp.dim.nu k + i))
      (fwdSubLast qp (loop (qp.dim.N - 1) (fun i st => fwdSub qp dual sqr (qp.dim.nu (i + 1)) (i + 1) st)
        (fwdSub qp dual sqr (qp.dim.nu 0 + qp.dim.nx 0) 0 st))).l := by
  have hle : ∀ k, nel qp.dim k ≤ qp.dim.nu k + qp.dim.nx k := by
    intro k; unfold nel; split_ifs with h
    · subst h; exact le_refl _
    · omega
  refine l_chain qp.dim hN _ _ (fun k s => FPre qp st k s) (fun n k st => fwdSub qp dual sqr n k st) (fwdSubLast qp) st
    ⟨rfl, rfl, rfl, rfl, rfl, rfl, rfl, rfl, fun _ _ => rfl, fun _ _ => rfl, fun _ _ _ => rfl⟩ ?_ ?_
  · intro k s hk hpre
    have hk1 : k + 1 ≠ k := by omega
    have hk2 : k ≠ k + 1 := by omega
    have hp' : ∀ j, j < nel qp.dim k → s.L k j j ≠ 0 := by rw [hpre.L]; exact fun j hj => hp k j (by omega) hj
    have h := fwdSub_step qp dual sqr (nel qp.dim k) k s (hle k) hp'
    refine ⟨hpre.step h, ⟨fun q q1 q2 => ?_, fun j hj => ?_, fun j hj => ?_, fun i hi => ?_⟩⟩
    · simp only [fwdSub, upd_ne _ _ q2, upd_ne _ _ q1]
    · simp only [fwdSub, upd_ne _ _ hk2, upd_same]
      rw [veccp, if_pos (by omega), ← hpre.uxk j hj]
      simp
    · simp only [fwdSub, upd_ne _ _ hk2, upd_same]
      rw [veccp, if_neg (by omega)]
    · simp only [fwdSub, upd_same]
      rw [veccp, if_pos (by omega), hpre.uxg (k + 1) (by omega)]
      simp
  · intro s hpre
    refine ⟨fun q hq => ?_, fun j hj => ?_, fun j hj => ?_⟩
    · simp only [fwdSubLast, upd_ne _ _ hq]
    · simp only [fwdSubLast, upd_same]
      have hn : nel qp.dim qp.dim.N = qp.dim.nu qp.dim.N := if_neg (by omega)
      rw [veccp, if_pos (by omega), ← hpre.uxk j (by omega)]
      simp
    · simp only [fwdSubLast, upd_same]
      rw [veccp, if_neg (by omega)]

end
end Hpipm
