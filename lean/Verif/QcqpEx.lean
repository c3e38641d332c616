/-
C82: setters of the quadratic constraints, concrete case, and the lower sides that no setter touches.
-/
import Verif.QcqpProps
import Verif.OcpQpProps

namespace Hpipm
open Finset
set_option linter.unusedSectionVars false

section
variable {K : Type*} [Field K] [LinearOrder K] [IsStrictOrderedRing K]

/-! ### setters -/

theorem loop_each {α : Type*} (n : ℕ) (f : ℕ → α → α) (H : ℕ → α) (j : ℕ) :
    loop n (fun ii H => upd H ii (f ii (H ii))) H j = if j < n then f j (H j) else H j := by
  induction n with
  | zero => simp [loop]
  | succ n ih =>
    rw [loop_succ]
    by_cases h : j = n
    · subst h
      rw [upd_same, if_pos (by omega), ih, if_neg (by omega)]
    · rw [upd_ne _ _ h, ih]
      by_cases h2 : j < n
      · rw [if_pos h2, if_pos (by omega)]
      · rw [if_neg h2, if_neg (by omega)]

theorem setQq_base (Q : Qcqp K) (s : ℕ) (v : ℕ → K) : (setQq s v Q).base = Q.base := rfl
theorem setQq_H (Q : Qcqp K) (s : ℕ) (v : ℕ → K) (j : ℕ) (hj : j < Q.nq s) : (setQq s v Q).Hq s j =
    packMat (Q.base.dim.nx s) (Q.base.dim.nx s) (fun i => v (j * Q.base.dim.nx s * Q.base.dim.nx s + i)) (Q.base.dim.nx s)
      (Q.Hq s j) (Q.base.dim.nu s) (Q.base.dim.nu s) := by
  simp only [setQq, upd_same]
  refine (loop_each _ (fun ii (A : Mat K) => packMat (Q.base.dim.nx s) (Q.base.dim.nx s)
    (fun i => v (ii * Q.base.dim.nx s * Q.base.dim.nx s + i)) (Q.base.dim.nx s) A (Q.base.dim.nu s) (Q.base.dim.nu s)) _ j).trans ?_
  rw [if_pos hj]

theorem setSq_base (Q : Qcqp K) (s : ℕ) (v : ℕ → K) : (setSq s v Q).base = Q.base := rfl
theorem setSq_H (Q : Qcqp K) (s : ℕ) (v : ℕ → K) (j : ℕ) (hj : j < Q.nq s) : (setSq s v Q).Hq s j =
    packTranMat (Q.base.dim.nu s) (Q.base.dim.nx s) (fun i => v (j * Q.base.dim.nu s * Q.base.dim.nx s + i)) (Q.base.dim.nu s)
      (Q.Hq s j) (Q.base.dim.nu s) 0 := by
  simp only [setSq, upd_same]
  refine (loop_each _ (fun ii (A : Mat K) => packTranMat (Q.base.dim.nu s) (Q.base.dim.nx s)
    (fun i => v (ii * Q.base.dim.nu s * Q.base.dim.nx s + i)) (Q.base.dim.nu s) A (Q.base.dim.nu s) 0) _ j).trans ?_
  rw [if_pos hj]

theorem setRq_base (Q : Qcqp K) (s : ℕ) (v : ℕ → K) : (setRq s v Q).base = Q.base := rfl
theorem setRq_H (Q : Qcqp K) (s : ℕ) (v : ℕ → K) (j : ℕ) (hj : j < Q.nq s) : (setRq s v Q).Hq s j =
    packMat (Q.base.dim.nu s) (Q.base.dim.nu s) (fun i => v (j * Q.base.dim.nu s * Q.base.dim.nu s + i)) (Q.base.dim.nu s)
      (Q.Hq s j) 0 0 := by
  simp only [setRq, upd_same]
  refine (loop_each _ (fun ii (A : Mat K) => packMat (Q.base.dim.nu s) (Q.base.dim.nu s)
    (fun i => v (ii * Q.base.dim.nu s * Q.base.dim.nu s + i)) (Q.base.dim.nu s) A 0 0) _ j).trans ?_
  rw [if_pos hj]

/-- **C82 (setters, second order terms).**  `set_Qq/Sq/Rq` store the column-major blocks the user passes (constraint
after constraint) as the second order data of the constraints of that stage, and change no other block of it and no
other stage. -/
theorem setQq_view (Q : Qcqp K) (s : ℕ) (v : ℕ → K) (k j i l : ℕ) (hj : j < Q.nq k) :
    (i < Q.base.dim.nx k → l < Q.base.dim.nx k → (qview (setQq s v Q)).Qq k j i l =
      if k = s then v (j * Q.base.dim.nx k * Q.base.dim.nx k + (i + Q.base.dim.nx k * l)) else (qview Q).Qq k j i l) ∧
    (i < Q.base.dim.nu k → l < Q.base.dim.nx k → (qview (setQq s v Q)).Sq k j i l = (qview Q).Sq k j i l) ∧
    (i < Q.base.dim.nu k → l < Q.base.dim.nu k → (qview (setQq s v Q)).Rq k j i l = (qview Q).Rq k j i l) := by
  by_cases hk : k = s
  · subst hk
    refine ⟨fun hi hl => ?_, fun hi hl => ?_, fun hi hl => ?_⟩ <;>
      simp only [qview, setQq_H Q k v j hj, setQq_base, packMat, if_true]
    · rw [if_pos (by omega), show Q.base.dim.nu k + i - Q.base.dim.nu k = i by omega,
        show Q.base.dim.nu k + l - Q.base.dim.nu k = l by omega]
    · rw [if_neg (by omega)]
    · rw [if_neg (by omega)]
  · refine ⟨fun _ _ => ?_, fun _ _ => ?_, fun _ _ => ?_⟩ <;> simp only [qview, setQq, upd_ne _ _ hk, if_neg hk]

theorem setSq_view (Q : Qcqp K) (s : ℕ) (v : ℕ → K) (k j i l : ℕ) (hj : j < Q.nq k) :
    (i < Q.base.dim.nx k → l < Q.base.dim.nx k → (qview (setSq s v Q)).Qq k j i l = (qview Q).Qq k j i l) ∧
    (i < Q.base.dim.nu k → l < Q.base.dim.nx k → (qview (setSq s v Q)).Sq k j i l =
      if k = s then v (j * Q.base.dim.nu k * Q.base.dim.nx k + (i + Q.base.dim.nu k * l)) else (qview Q).Sq k j i l) ∧
    (i < Q.base.dim.nu k → l < Q.base.dim.nu k → (qview (setSq s v Q)).Rq k j i l = (qview Q).Rq k j i l) := by
  by_cases hk : k = s
  · subst hk
    refine ⟨fun hi hl => ?_, fun hi hl => ?_, fun hi hl => ?_⟩ <;>
      simp only [qview, setSq_H Q k v j hj, setSq_base, packTranMat, if_true]
    · rw [if_neg (by omega)]
    · rw [if_pos (by omega), show Q.base.dim.nu k + l - Q.base.dim.nu k = l by omega, Nat.sub_zero]
    · rw [if_neg (by omega)]
  · refine ⟨fun _ _ => ?_, fun _ _ => ?_, fun _ _ => ?_⟩ <;> simp only [qview, setSq, upd_ne _ _ hk, if_neg hk]

theorem setRq_view (Q : Qcqp K) (s : ℕ) (v : ℕ → K) (k j i l : ℕ) (hj : j < Q.nq k) :
    (i < Q.base.dim.nx k → l < Q.base.dim.nx k → (qview (setRq s v Q)).Qq k j i l = (qview Q).Qq k j i l) ∧
    (i < Q.base.dim.nu k → l < Q.base.dim.nx k → (qview (setRq s v Q)).Sq k j i l = (qview Q).Sq k j i l) ∧
    (i < Q.base.dim.nu k → l < Q.base.dim.nu k → (qview (setRq s v Q)).Rq k j i l =
      if k = s then v (j * Q.base.dim.nu k * Q.base.dim.nu k + (i + Q.base.dim.nu k * l)) else (qview Q).Rq k j i l) := by
  by_cases hk : k = s
  · subst hk
    refine ⟨fun hi hl => ?_, fun hi hl => ?_, fun hi hl => ?_⟩ <;>
      simp only [qview, setRq_H Q k v j hj, setRq_base, packMat, if_true]
    · rw [if_neg (by omega)]
    · rw [if_neg (by omega)]
    · rw [if_pos (by omega), Nat.sub_zero, Nat.sub_zero]
  · refine ⟨fun _ _ => ?_, fun _ _ => ?_, fun _ _ => ?_⟩ <;> simp only [qview, setRq, upd_ne _ _ hk, if_neg hk]

/-- **C82 (setters, first order terms).**  `set_qq`/`set_rq` store the gradients; the linear constraints are not
touched. -/
theorem setQqvec_view (Q : Qcqp K) (s : ℕ) (v : ℕ → K) (k j i : ℕ) (hj : j < Q.nq k) :
    (i < Q.base.dim.nx k → (qview (setQqvec s v Q)).qq k j i =
      if k = s then v (i + Q.base.dim.nx k * j) else (qview Q).qq k j i) ∧
    (i < Q.base.dim.nu k → (qview (setQqvec s v Q)).rq k j i = (qview Q).rq k j i) ∧
    (∀ c, c < Q.base.dim.ng k → (setQqvec s v Q).base.DCt k i c = Q.base.DCt k i c) := by
  by_cases hk : k = s
  · subst hk
    refine ⟨fun hi => ?_, fun hi => ?_, fun c hc => ?_⟩ <;> simp only [qview, setQqvec, upd_same, packMat, if_true]
    · rw [if_pos (by omega), show Q.base.dim.nu k + i - Q.base.dim.nu k = i by omega,
        show Q.base.dim.ng k + j - Q.base.dim.ng k = j by omega]
    · rw [if_neg (by omega)]
    · rw [if_neg (by omega)]
  · refine ⟨fun _ => ?_, fun _ => ?_, fun _ _ => ?_⟩ <;> simp only [qview, setQqvec, upd_ne _ _ hk, if_neg hk]

theorem setRqvec_view (Q : Qcqp K) (s : ℕ) (v : ℕ → K) (k j i : ℕ) (hj : j < Q.nq k) :
    (i < Q.base.dim.nx k → (qview (setRqvec s v Q)).qq k j i = (qview Q).qq k j i) ∧
    (i < Q.base.dim.nu k → (qview (setRqvec s v Q)).rq k j i =
      if k = s then v (i + Q.base.dim.nu k * j) else (qview Q).rq k j i) ∧
    (∀ c, c < Q.base.dim.ng k → (setRqvec s v Q).base.DCt k i c = Q.base.DCt k i c) := by
  by_cases hk : k = s
  · subst hk
    refine ⟨fun hi => ?_, fun hi => ?_, fun c hc => ?_⟩ <;> simp only [qview, setRqvec, upd_same, packMat, if_true]
    · rw [if_neg (by omega)]
    · rw [if_pos (by omega), Nat.sub_zero, show Q.base.dim.ng k + j - Q.base.dim.ng k = j by omega]
    · rw [if_neg (by omega)]
  · refine ⟨fun _ => ?_, fun _ => ?_, fun _ _ => ?_⟩ <;> simp only [qview, setRqvec, upd_ne _ _ hk, if_neg hk]

/-- **C82 (setters, bounds).**  `set_uq` and `set_uq_mask` store the upper bounds and their mask; every other entry of
`d` and `d_mask` — in particular those of the lower sides, `nb+ng ≤ i < nb+ng+nq` — keeps its value. -/
theorem setUq_view (Q : Qcqp K) (s : ℕ) (v : ℕ → K) (k j : ℕ) (hj : j < Q.nq k) :
    (qview (setUq s v Q)).uq k j = (if k = s then v j else (qview Q).uq k j) ∧
    (∀ i, ¬ (2 * Q.base.dim.nb k + 2 * Q.base.dim.ng k + Q.nq k ≤ i
        ∧ i < 2 * Q.base.dim.nb k + 2 * Q.base.dim.ng k + Q.nq k + Q.nq k) →
      (setUq s v Q).base.d k i = Q.base.d k i) := by
  by_cases hk : k = s
  · subst hk
    refine ⟨?_, fun i hi => ?_⟩ <;> simp only [qview, setUq, upd_same, if_true]
    · rw [vecsc_in _ _ (by omega), packVec_in _ _ (by omega),
        show 2 * Q.base.dim.nb k + 2 * Q.base.dim.ng k + Q.nq k + j - (2 * Q.base.dim.nb k + 2 * Q.base.dim.ng k + Q.nq k) = j by omega]
      ring
    · rw [vecsc_out _ _ hi, packVec_out _ _ hi]
  · refine ⟨?_, fun _ _ => ?_⟩ <;> simp only [qview, setUq, upd_ne _ _ hk, if_neg hk]

theorem setUqMask_view (Q : Qcqp K) (s : ℕ) (v : ℕ → K) (k j : ℕ) (hj : j < Q.nq k) :
    (qview (setUqMask s v Q)).uqMask k j = (if k = s then v j else (qview Q).uqMask k j) ∧
    (∀ i, ¬ (2 * Q.base.dim.nb k + 2 * Q.base.dim.ng k + Q.nq k ≤ i
        ∧ i < 2 * Q.base.dim.nb k + 2 * Q.base.dim.ng k + Q.nq k + Q.nq k) →
      (setUqMask s v Q).base.d_mask k i = Q.base.d_mask k i) := by
  by_cases hk : k = s
  · subst hk
    refine ⟨?_, fun i hi => ?_⟩ <;> simp only [qview, setUqMask, upd_same, if_true]
    · rw [packVec_in _ _ (by omega),
        show 2 * Q.base.dim.nb k + 2 * Q.base.dim.ng k + Q.nq k + j - (2 * Q.base.dim.nb k + 2 * Q.base.dim.ng k + Q.nq k) = j by omega]
    · rw [packVec_out _ _ hi]
  · refine ⟨?_, fun _ _ => ?_⟩ <;> simp only [qview, setUqMask, upd_ne _ _ hk, if_neg hk]

/-! ### finding 60 -/

/-- **C82 (lower sides).**  As long as the mask entries of the lower sides of the quadratic constraints are those of
OCP_QCQP_CREATE (one, x_ocp_qcqp.c:355-369; no setter writes them or the bounds `d_lq`), the residuals report the
defect of a lower bound which does not exist. -/
theorem qres_lower_side (Q : Qcqp K) (hwf : Q.WF) (sol : Sol K) (res : Res K) (ws : QresWs K)
    (hws : ws.ws.Ok Q.inner) (hc : CacheCond Q sol ws) (k j : ℕ) (hk : k ≤ Q.base.dim.N) (hj : j < Q.nq k) :
    (qresCompute Q sol res ws).res_d k (Q.base.dim.nb k + Q.base.dim.ng k + j) =
      Q.base.d_mask k (Q.base.dim.nb k + Q.base.dim.ng k + j) *
        (Q.base.d k (Q.base.dim.nb k + Q.base.dim.ng k + j) - (qview Q).qvalue (ptOf Q.inner.dim sol.ux) k j
          - (match (qview Q).softq k j with | none => 0 | some s => (ptOf Q.inner.dim sol.ux).sl k s)
          + sol.t k (Q.base.dim.nb k + Q.base.dim.ng k + j)) := by
  rw [((qresCompute_val Q hwf sol res ws hws hc).1 k hk).d _ (by
      show _ < 2 * Q.base.dim.nb k + 2 * (Q.base.dim.ng k + Q.nq k) + 2 * Q.base.dim.ns k; omega),
    vD_linQp, linQp_d, if_pos (by omega), if_pos (by unfold LoQ; omega), cval_lin_ge, qvalue_packed,
    show Q.base.dim.nb k + Q.base.dim.ng k + j - (Q.base.dim.nb k + Q.base.dim.ng k) = j by omega]
  have e6 : ∑ i ∈ range (Q.base.dim.nu k + Q.base.dim.nx k), hqMul Q k j (sol.ux k) i * sol.ux k i = 2 * qForm Q k j (sol.ux k) := by
    simp only [qForm]; ring
  rw [e6, qVal]
  simp only [qview, ptOf]
  have e7 : Q.inner.dim.nu k + Q.inner.dim.nx k = Q.base.dim.nu k + Q.base.dim.nx k := rfl
  by_cases h : Q.base.idxs_rev k (Q.base.dim.nb k + Q.base.dim.ng k + j) = -1
  · simp only [h, if_true]; ring
  · simp only [h, if_false, e7]; ring

end

/-! ### a concrete case -/

section Concrete

def exQDim : QpDim where
  N := 1
  nx := fun k => if k = 1 then 1 else 0
  nu := fun k => if k = 0 then 1 else 0
  nb := fun _ => 0
  nbx := fun _ => 0
  nbu := fun _ => 0
  ng := fun k => if k = 0 then 1 else 0
  ns := fun k => if k = 1 then 1 else 0
  nbxe := fun _ => 0
  nbue := fun _ => 0
  nge := fun _ => 0

/-- minimise `u²/2 - 7u + x²/2 + (sl²+su²)/2` with `x = u`, `-10 ≤ u ≤ 10`, `u² + u ≤ 2` and, softened, `x² ≤ 0` -/
def exQcqp : Qcqp ℚ where
  base :=
    { dim := exQDim
      BAbt := fun _ i _ => if i = 0 then 1 else 0
      RSQrq := fun _ i j => if i = 0 ∧ j = 0 then 1 else 0
      DCt := fun k _ _ => if k = 0 then 1 else 0
      b := fun _ _ => 0
      rqz := fun k i => if k = 0 ∧ i = 0 then -7 else 0
      d := fun k j => if k = 0 then (if j = 0 then -10 else if j = 2 then -10 else if j = 3 then -2 else 0) else 0
      d_mask := fun k j => if (k = 0 ∧ j = 1) ∨ (k = 1 ∧ j = 0) then 0 else 1
      m := fun _ _ => 0
      Z := fun _ _ => 1
      idxb := fun _ _ => 0
      idxs_rev := fun k _ => if k = 1 then 0 else -1
      idxe := fun _ _ => 0
      diag_H_flag := fun _ => 0 }
  nq := fun _ => 1
  Hq := fun _ _ _ _ => 2

def exQSol : Sol ℚ where
  ux := fun k i => if k = 0 then 1 else if i = 1 then 0 else 1
  pi := fun _ _ => 3
  lam := fun k j => if (k = 0 ∧ j = 3) ∨ (k = 1 ∧ j = 1) then 1 else 0
  t := fun k j => if k = 0 then (if j = 0 then 11 else if j = 2 then 9 else 0) else if j = 3 then 1 else 0

def exQWs : QresWs ℚ where
  ws := exWs
  nux0 := fun _ => 7
  nux1 := fun _ => 7
  use_q_fun := false
  use_q_adj := false
  q_fun := fun _ _ => 7
  q_adj := fun _ _ => 7

theorem exQ_wf : exQcqp.WF := by
  constructor
  · intro k j _ hj
    have : j < 0 := hj
    omega
  · intro k j hk _
    have : k = 0 ∨ k = 1 := by have : k ≤ 1 := hk; omega
    rcases this with rfl | rfl
    · left; rfl
    · right; exact ⟨le_refl _, (by decide : 0 < 1)⟩

theorem exQ_mask : Mask01 exQcqp.inner := by
  intro k j _ _
  show (if (k = 0 ∧ j = 1) ∨ (k = 1 ∧ j = 0) then (0 : ℚ) else 1) = 0 ∨ (if (k = 0 ∧ j = 1) ∨ (k = 1 ∧ j = 0) then (0 : ℚ) else 1) = 1
  split_ifs
  · exact Or.inl rfl
  · exact Or.inr rfl

theorem exQWs_ok : exQWs.ws.Ok exQcqp.inner := by intro h; cases h
theorem exQ_cache (sol : Sol ℚ) : CacheCond exQcqp sol exQWs := by intro h; cases h

theorem exQ_convex : (qview exQcqp).Convex := by
  constructor
  · intro p
    rw [UserQp.quad]
    apply sum_nonneg
    intro k hk
    have : k = 0 ∨ k = 1 := by have : k < 1 + 1 := mem_range.mp hk; omega
    rcases this with rfl | rfl
    · have h1 : (qview exQcqp).base.nu 0 = 1 := rfl
      have h2 : (qview exQcqp).base.nx 0 = 0 := rfl
      have h3 : (qview exQcqp).base.ns 0 = 0 := rfl
      have h4 : (qview exQcqp).base.R 0 0 0 = 1 := by decide +kernel
      simp only [UserQp.stageQuad, h1, h2, h3, sum_range_one, range_zero, sum_empty, UserQp.sym, h4, le_refl, if_true]
      nlinarith [mul_self_nonneg (p.u 0 0)]
    · have h1 : (qview exQcqp).base.nu 1 = 0 := rfl
      have h2 : (qview exQcqp).base.nx 1 = 1 := rfl
      have h3 : (qview exQcqp).base.ns 1 = 1 := rfl
      have h4 : (qview exQcqp).base.Q 1 0 0 = 1 := by decide +kernel
      have h5 : (qview exQcqp).base.Zl 1 0 = 1 := by decide +kernel
      have h6 : (qview exQcqp).base.Zu 1 0 = 1 := by decide +kernel
      simp only [UserQp.stageQuad, h1, h2, h3, sum_range_one, range_zero, sum_empty, UserQp.sym, h4, h5, h6, le_refl, if_true]
      nlinarith [mul_self_nonneg (p.x 1 0), mul_self_nonneg (p.sl 1 0), mul_self_nonneg (p.su 1 0)]
  · intro k j hk hj _ p
    have : k = 0 ∨ k = 1 := by have : k ≤ 1 := hk; omega
    have hj : j = 0 := by have : j < 1 := hj; omega
    subst hj
    rcases this with rfl | rfl
    · have h1 : (qview exQcqp).base.nu 0 = 1 := rfl
      have h2 : (qview exQcqp).base.nx 0 = 0 := rfl
      have h4 : (qview exQcqp).Rq 0 0 0 0 = 2 := rfl
      simp only [UserQcqp.form, h1, h2, sum_range_one, range_zero, sum_empty, UserQp.sym, h4, le_refl, if_true]
      nlinarith [mul_self_nonneg (p.u 0 0)]
    · have h1 : (qview exQcqp).base.nu 1 = 0 := rfl
      have h2 : (qview exQcqp).base.nx 1 = 1 := rfl
      have h4 : (qview exQcqp).Qq 1 0 0 0 = 2 := rfl
      simp only [UserQcqp.form, h1, h2, sum_range_one, range_zero, sum_empty, UserQp.sym, h4, le_refl, if_true]
      nlinarith [mul_self_nonneg (p.x 1 0)]

theorem exQ_zero : (∀ k, k ≤ 1 → ∀ i, i < nvt exQcqp.inner.dim k → (qresCompute exQcqp exQSol exRes exQWs).res_g k i = 0) ∧
    (∀ k, k < 1 → ∀ i, i < exQcqp.base.dim.nx (k + 1) → (qresCompute exQcqp exQSol exRes exQWs).res_b k i = 0) ∧
    (∀ k, k ≤ 1 → ∀ j, j < nct exQcqp.inner.dim k → (qresCompute exQcqp exQSol exRes exQWs).res_d k j = 0
      ∧ (qresCompute exQcqp exQSol exRes exQWs).res_m k j = 0 ∧ 0 ≤ exQSol.lam k j ∧ 0 ≤ exQSol.t k j) := by decide +kernel

/-- all hypotheses of the optimality theorem hold for this QCQP: `u = x = 1`, `su = 1` is its optimum -/
example : (qview exQcqp).IsOptimal (ptOf exQcqp.inner.dim exQSol.ux) :=
  qres_zero_optimal exQcqp exQ_wf exQ_mask exQ_convex exQSol exRes exQWs exQWs_ok (exQ_cache _)
    (fun k i hk hi => exQ_zero.1 k hk i hi) (fun k i hk hi => exQ_zero.2.1 k hk i hi)
    (fun k j hk hj _ => ⟨(exQ_zero.2.2 k hk j hj).1, (exQ_zero.2.2 k hk j hj).2.1, rfl⟩)
    (fun k j hk hj _ => (exQ_zero.2.2 k hk j hj).2.2)

/-- both quadratic constraints are active with a nonzero multiplier; without them the point is not stationary -/
example : (qview exQcqp).qvalue (ptOf exQcqp.inner.dim exQSol.ux) 0 0 = 2 ∧
    (qview exQcqp).qvalue (ptOf exQcqp.inner.dim exQSol.ux) 1 0 = 1 ∧
    (qresCompute exQcqp { exQSol with
      lam := fun _ _ => 0 } exRes exQWs).res_g 0 0 = -3 := by decide +kernel

/-- the caches of this point, and a point whose residuals are not zero computed in both ways -/
def exQWsC : QresWs ℚ :=
  { exQWs with
    use_q_fun := true
    use_q_adj := true
    q_fun := fun k _ => if k = 0 then 6 else 1
    q_adj := fun k _ => if k = 0 then 5 else 2 }
def exQSol2 : Sol ℚ :=
  { exQSol with
    ux := fun k i => if k = 0 then 2 else exQSol.ux k i }
theorem exQC_ok : CacheOk exQcqp exQSol2 exQWsC := by
  constructor
  · have h : ∀ k, k ≤ 1 → ∀ j, j < 1 → exQWsC.q_fun k j = qVal exQcqp k j (exQSol2.ux k) := by decide +kernel
    exact fun k j hk hj => h k hk j hj
  · have h : ∀ k, k ≤ 1 → ∀ i, i < exQcqp.base.dim.nu k + exQcqp.base.dim.nx k → exQWsC.q_adj k i = ∑ j ∈ range (exQcqp.nq k),
      exQcqp.base.d_mask k (2 * exQcqp.base.dim.nb k + 2 * exQcqp.base.dim.ng k + exQcqp.nq k + j)
        * exQSol2.lam k (2 * exQcqp.base.dim.nb k + 2 * exQcqp.base.dim.ng k + exQcqp.nq k + j)
        * (hqMul exQcqp k j (exQSol2.ux k) i + exQcqp.base.DCt k i (exQcqp.base.dim.ng k + j)) := by decide +kernel
    exact fun k i hk hi => h k hk i hi
example : (qresCompute exQcqp exQSol2 exRes exQWsC).res_g 0 0 = 3 ∧ (qresCompute exQcqp exQSol2 exRes exQWs).res_g 0 0 = 3 ∧
    (qresCompute exQcqp exQSol2 exRes exQWsC).res_d 0 3 = 4 ∧ (qresCompute exQcqp exQSol2 exRes exQWs).res_d 0 3 = 4 := by
  decide +kernel

/-- the data set through the setters: second order terms, gradient, bound and mask of the constraint of stage 0 -/
example : let Q := setUqMask 0 (fun _ => 1) (setUq 0 (fun _ => 2) (setRqvec 0 (fun _ => 1) (setRq 0 (fun _ => 2) exQcqp)))
    (qview Q).Rq 0 0 0 0 = 2 ∧ (qview Q).rq 0 0 0 = 1 ∧ (qview Q).uq 0 0 = 2 ∧ (qview Q).uqMask 0 0 = 1 := by decide +kernel

/-- finding 60: the same QCQP with the masks as OCP_QCQP_CREATE leaves them; at its optimum, with zero slacks `t` for
the lower sides, the residual reports an infeasibility of 2 -/
theorem qres_lower_side_wrong : (qresCompute { exQcqp with
      base := { exQcqp.base with
        d_mask := fun _ _ => 1 } } exQSol exRes exQWs).res_d 0 1 = -2 ∧
    (qresInfNorm exQcqp (qresCompute { exQcqp with
      base := { exQcqp.base with
        d_mask := fun _ _ => 1 } } exQSol exRes exQWs)).2.2.1 = 2 := by decide +kernel

end Concrete
end Hpipm
