/-
C82: the residuals of the QCQP are its KKT residuals, in the user's terms (QcqpSpec.lean).
-/
import Verif.QcqpVal

namespace Hpipm
open Finset
set_option linter.unusedSectionVars false

section
variable {K : Type*} [Field K] [LinearOrder K] [IsStrictOrderedRing K]

/-! ### the user's quadratic constraints in packed form -/

/-- the QP whose cost is the second order part of one quadratic constraint (proof device) -/
def hqQp (Q : Qcqp K) (k j : ℕ) : OcpQp K :=
  { Q.inner with
    RSQrq := fun _ => Q.Hq k j }

theorem form_packed (Q : Qcqp K) (v : ℕ → Vec K) (k j : ℕ) :
    (qview Q).form (ptOf Q.inner.dim v) k j = qForm Q k j (v k) := by
  have h := quad_packed (hqQp Q k j) k v
  have e0 : ∀ i, hmul (hqQp Q k j) k (v k) i = hqMul Q k j (v k) i := fun _ => rfl
  simp only [e0] at h
  have h' : ∑ i ∈ range (Q.base.dim.nu k + Q.base.dim.nx k), hqMul Q k j (v k) i * v k i = _ := h
  rw [qForm, h']
  simp only [UserQcqp.form]
  show 1 / 2 * (∑ i ∈ range (Q.base.dim.nu k), ∑ l ∈ range (Q.base.dim.nu k),
        UserQp.sym (fun i l => Q.Hq k j i l) i l * v k i * v k l)
    + (∑ i ∈ range (Q.base.dim.nu k), ∑ l ∈ range (Q.base.dim.nx k),
        Q.Hq k j (Q.base.dim.nu k + l) i * v k i * v k (Q.base.dim.nu k + l))
    + 1 / 2 * (∑ i ∈ range (Q.base.dim.nx k), ∑ l ∈ range (Q.base.dim.nx k),
        UserQp.sym (fun i l => Q.Hq k j (Q.base.dim.nu k + i) (Q.base.dim.nu k + l)) i l
          * v k (Q.base.dim.nu k + i) * v k (Q.base.dim.nu k + l)) = _
  rw [mul_add, mul_add, ← mul_assoc, show (1 / 2 * 2 : K) = 1 by norm_num, one_mul]
  congr 1
  · congr 1
    · congr 1
      refine sum_congr rfl fun i hi => sum_congr rfl fun l hl => ?_
      have hi := mem_range.mp hi
      have hl := mem_range.mp hl
      simp only [UserQp.sym]
      split_ifs
      · rw [view_R (hqQp Q k j) k i l hi hl]; rfl
      · rw [view_R (hqQp Q k j) k l i hl hi]; rfl
    · refine sum_congr rfl fun i hi => sum_congr rfl fun l hl => ?_
      rw [view_S (hqQp Q k j) k i l (mem_range.mp hi) (mem_range.mp hl)]
      rfl
  · congr 1
    refine sum_congr rfl fun i hi => sum_congr rfl fun l hl => ?_
    have hi := mem_range.mp hi
    have hl := mem_range.mp hl
    simp only [UserQp.sym]
    split_ifs
    · rw [view_Q (hqQp Q k j) k i l hi hl]; rfl
    · rw [view_Q (hqQp Q k j) k l i hl hi]; rfl

theorem qvalue_packed (Q : Qcqp K) (v : ℕ → Vec K) (k j : ℕ) :
    (qview Q).qvalue (ptOf Q.inner.dim v) k j = qVal Q k j (v k) := by
  simp only [UserQcqp.qvalue, form_packed, qVal]
  rw [sum_range_add _ (Q.base.dim.nu k), add_assoc]
  congr 1
  rw [add_comm]
  rfl

theorem qslack_packed (Q : Qcqp K) (v : ℕ → Vec K) (k j : ℕ) :
    (qview Q).qslack (ptOf Q.inner.dim v) k j
    = slk Q.inner k (v k) (Q.base.dim.nu k + Q.base.dim.nx k + Q.base.dim.ns k) (Q.base.dim.nb k + Q.base.dim.ng k + j) := by
  simp only [UserQcqp.qslack, slk, ptOf, qview]
  by_cases h : Q.base.idxs_rev k (Q.base.dim.nb k + Q.base.dim.ng k + j) = -1
  · have h' : Q.inner.idxs_rev k (Q.base.dim.nb k + Q.base.dim.ng k + j) = -1 := h
    simp [h, h']
  · have h' : ¬ Q.inner.idxs_rev k (Q.base.dim.nb k + Q.base.dim.ng k + j) = -1 := h
    simp only [h, h', if_false]
    rfl

theorem hqMul_add (Q : Qcqp K) (k j : ℕ) (v w : Vec K) (i : ℕ) :
    hqMul Q k j (fun i => v i + w i) i = hqMul Q k j v i + hqMul Q k j w i := by
  simp only [hqMul, mul_add, sum_add_distrib]

theorem hq_symm (Q : Qcqp K) (k j : ℕ) (v w : Vec K) :
    ∑ i ∈ range (Q.base.dim.nu k + Q.base.dim.nx k), hqMul Q k j v i * w i
    = ∑ i ∈ range (Q.base.dim.nu k + Q.base.dim.nx k), hqMul Q k j w i * v i := by
  simp only [hqMul, sum_mul]
  rw [sum_comm]
  refine sum_congr rfl fun i _ => sum_congr rfl fun l _ => ?_
  rw [symL_symm]; ring

theorem qForm_add (Q : Qcqp K) (k j : ℕ) (v w : Vec K) :
    qForm Q k j (fun i => v i + w i) = qForm Q k j v
      + (∑ i ∈ range (Q.base.dim.nu k + Q.base.dim.nx k), hqMul Q k j v i * w i) + qForm Q k j w := by
  simp only [qForm, hqMul_add, add_mul, mul_add, sum_add_distrib]
  rw [hq_symm Q k j w v]
  ring

/-- the Hessian form at the difference -/
theorem qForm_sub (Q : Qcqp K) (k j : ℕ) (v z : Vec K) :
    qForm Q k j (fun i => v i - z i) = qForm Q k j v
      - (∑ i ∈ range (Q.base.dim.nu k + Q.base.dim.nx k), hqMul Q k j z i * v i) + qForm Q k j z := by
  have h := qForm_add Q k j z (fun i => v i - z i)
  have e : (fun i => z i + (v i - z i)) = v := by funext i; ring
  rw [e] at h
  have e2 : ∑ i ∈ range (Q.base.dim.nu k + Q.base.dim.nx k), hqMul Q k j z i * (v i - z i)
      = ∑ i ∈ range (Q.base.dim.nu k + Q.base.dim.nx k), hqMul Q k j z i * v i - 2 * qForm Q k j z := by
    simp only [qForm, mul_sub, sum_sub_distrib]; ring
  rw [e2] at h
  linear_combination -h

/-- the multipliers of the present quadratic constraints -/
def quadPair (Q : Qcqp K) (sol : Sol K) (v : ℕ → Vec K) : K :=
  ∑ k ∈ range (Q.base.dim.N + 1), ∑ j ∈ range (Q.nq k),
    lamM (linQp Q sol.ux) sol k (2 * Q.base.dim.nb k + 2 * Q.base.dim.ng k + Q.nq k + j) * qForm Q k j (v k)

theorem curv_packed (Q : Qcqp K) (sol : Sol K) (v : ℕ → Vec K) :
    (qview Q).curvature (multOf Q.inner.dim sol) (ptOf Q.inner.dim v) = quadPair Q sol v := by
  simp only [UserQcqp.curvature, quadPair]
  refine sum_congr rfl fun k _ => sum_congr rfl fun j _ => ?_
  rw [form_packed, lamM_up]
  have : (multOf Q.inner.dim sol).up k ((qview Q).base.nb k + (qview Q).base.ng k + j)
      = sol.lam k (2 * Q.base.dim.nb k + 2 * Q.base.dim.ng k + Q.nq k + j) := by
    show sol.lam k (Q.base.dim.nb k + (Q.base.dim.ng k + Q.nq k) + (Q.base.dim.nb k + Q.base.dim.ng k + j)) = _
    congr 1; ring
  rw [this]
  rfl

theorem cval_lin_lt (Q : Qcqp K) (z : ℕ → Vec K) (k j : ℕ) (v : Vec K) (hj : j < Q.base.dim.nb k + Q.base.dim.ng k) :
    cval (linQp Q z) k v j = cval Q.inner k v j := by
  rw [cval_lin]
  by_cases hb : j < Q.base.dim.nb k
  · have e : cval Q.inner k v j = if j < Q.base.dim.nb k then v (Q.base.idxb k j)
      else ∑ i ∈ range (Q.base.dim.nu k + Q.base.dim.nx k), Q.base.DCt k i (j - Q.base.dim.nb k) * v i := rfl
    rw [e, if_pos hb, if_pos hb]
  · have e : cval Q.inner k v j = if j < Q.base.dim.nb k then v (Q.base.idxb k j)
      else ∑ i ∈ range (Q.base.dim.nu k + Q.base.dim.nx k), Q.base.DCt k i (j - Q.base.dim.nb k) * v i := rfl
    rw [e, if_neg hb, if_neg hb]
    refine sum_congr rfl fun i _ => ?_
    rw [if_pos (by omega)]

theorem cval_lin_ge (Q : Qcqp K) (z : ℕ → Vec K) (k j : ℕ) (v : Vec K) :
    cval (linQp Q z) k v (Q.base.dim.nb k + Q.base.dim.ng k + j)
    = (∑ i ∈ range (Q.base.dim.nu k + Q.base.dim.nx k), Q.base.DCt k i (Q.base.dim.ng k + j) * v i)
      + ∑ i ∈ range (Q.base.dim.nu k + Q.base.dim.nx k), hqMul Q k j (z k) i * v i := by
  rw [cval_lin, if_neg (by omega), show Q.base.dim.nb k + Q.base.dim.ng k + j - Q.base.dim.nb k = Q.base.dim.ng k + j by omega,
    show Q.base.dim.ng k + j - Q.base.dim.ng k = j by omega, ← sum_add_distrib]
  refine sum_congr rfl fun i _ => ?_
  rw [if_neg (by omega)]; ring

/-- **the Lagrangian of the QCQP** is that of the QP linearised at `z`, up to the curvature of the quadratic
constraints along the displacement from `z` -/
theorem qlagr_lin (Q : Qcqp K) (sol : Sol K) (v : ℕ → Vec K) :
    (qview Q).lagrangian (ptOf Q.inner.dim v) (multOf Q.inner.dim sol)
    = (view (linQp Q sol.ux)).lagrangian (ptOf Q.inner.dim v) (multOf Q.inner.dim sol)
      + quadPair Q sol (fun k i => v k i - sol.ux k i) := by
  set L := linQp Q sol.ux with hL
  have hobj : (qview Q).base.objective (ptOf Q.inner.dim v) = (view L).objective (ptOf Q.inner.dim v) := rfl
  have hdyn : ∀ k i, (qview Q).base.dynDefect (ptOf Q.inner.dim v) k i = (view L).dynDefect (ptOf Q.inner.dim v) k i :=
    fun _ _ => rfl
  unfold UserQcqp.lagrangian UserQp.lagrangian
  rw [hobj]
  simp only [hdyn, quadPair]
  have eN : (qview Q).base.N = (view L).N := rfl
  have eN' : Q.base.dim.N = (view L).N := rfl
  have enx : (qview Q).base.nx = (view L).nx := rfl
  have spl : ∀ a b c d e f : K, c + d = e + f → a + b + c + d = a + b + e + f := by
    intro a b c d e f h; linear_combination h
  rw [eN, eN', enx]
  refine spl _ _ _ _ _ _ ?_
  rw [← sum_add_distrib, ← sum_add_distrib]
  refine sum_congr rfl fun k _ => ?_
  -- one stage
  have ldim : L.dim = Q.inner.dim := rfl
  have hval : ∀ j, j < Q.base.dim.nb k + Q.base.dim.ng k →
      (qview Q).base.value (ptOf Q.inner.dim v) k j = (view L).value (ptOf Q.inner.dim v) k j := by
    intro j hj
    have hj' : j < Q.base.dim.nb k + (Q.base.dim.ng k + Q.nq k) := by omega
    have a := value_packed Q.inner k v j hj'
    have b := value_packed L k v j hj'
    rw [cval_lin_lt Q sol.ux k j (v k) hj] at b
    exact a.trans b.symm
  have hlow : ∀ j, j < Q.base.dim.nb k + Q.base.dim.ng k →
      (qview Q).base.lower k j = (view L).lower k j ∧ (qview Q).base.upper k j = (view L).upper k j ∧
      (qview Q).base.lowerMask k j = (view L).lowerMask k j ∧ (qview Q).base.upperMask k j = (view L).upperMask k j := by
    intro j hj
    have hj' : j < Q.base.dim.nb k + (Q.base.dim.ng k + Q.nq k) := by omega
    have hl : ¬ LoQ Q k j := by unfold LoQ; omega
    have hl' : ¬ LoQ Q k (Q.base.dim.nb k + (Q.base.dim.ng k + Q.nq k) + j) := by unfold LoQ; omega
    have hu : ¬ UpQ Q k j := by unfold UpQ; omega
    have hu' : ¬ UpQ Q k (Q.base.dim.nb k + (Q.base.dim.ng k + Q.nq k) + j) := by unfold UpQ; omega
    refine ⟨?_, ?_, ?_, ?_⟩
    · refine (view_lower Q.inner k j hj').trans (Eq.trans ?_ (view_lower L k j hj').symm)
      rw [linQp_d, if_neg hl, if_neg hu]; rfl
    · refine (view_upper Q.inner k j hj').trans (Eq.trans ?_ (view_upper L k j hj').symm)
      have : L.d k (L.dim.nb k + L.dim.ng k + j) = Q.base.d k (Q.base.dim.nb k + (Q.base.dim.ng k + Q.nq k) + j) := by
        show (linQp Q sol.ux).d k (Q.base.dim.nb k + (Q.base.dim.ng k + Q.nq k) + j) = _
        rw [linQp_d, if_neg hl', if_neg hu']
      rw [this]; rfl
    · refine (view_lowerMask Q.inner k j hj').trans (Eq.trans ?_ (view_lowerMask L k j hj').symm)
      show Q.base.d_mask k j = if LoQ Q k j then 0 else Q.base.d_mask k j
      rw [if_neg hl]
    · refine (view_upperMask Q.inner k j hj').trans (Eq.trans ?_ (view_upperMask L k j hj').symm)
      show Q.base.d_mask k (Q.base.dim.nb k + (Q.base.dim.ng k + Q.nq k) + j) =
        if LoQ Q k (Q.base.dim.nb k + (Q.base.dim.ng k + Q.nq k) + j) then 0 else _
      rw [if_neg hl']; rfl
  have hslo : ∀ j, (qview Q).base.slackLo (ptOf Q.inner.dim v) k j = (view L).slackLo (ptOf Q.inner.dim v) k j := fun _ => rfl
  have hsup : ∀ j, (qview Q).base.slackUp (ptOf Q.inner.dim v) k j = (view L).slackUp (ptOf Q.inner.dim v) k j := fun _ => rfl
  have hls : ∀ s, s < Q.base.dim.ns k → (qview Q).base.lls k s = (view L).lls k s ∧ (qview Q).base.lus k s = (view L).lus k s ∧
      (qview Q).base.llsMask k s = (view L).llsMask k s ∧ (qview Q).base.lusMask k s = (view L).lusMask k s := by
    intro s hs
    have hl : ¬ LoQ Q k (2 * (Q.base.dim.nb k + (Q.base.dim.ng k + Q.nq k)) + s) := by unfold LoQ; omega
    have hu : ¬ UpQ Q k (2 * (Q.base.dim.nb k + (Q.base.dim.ng k + Q.nq k)) + s) := by unfold UpQ; omega
    have hl' : ¬ LoQ Q k (2 * (Q.base.dim.nb k + (Q.base.dim.ng k + Q.nq k)) + Q.base.dim.ns k + s) := by unfold LoQ; omega
    have hu' : ¬ UpQ Q k (2 * (Q.base.dim.nb k + (Q.base.dim.ng k + Q.nq k)) + Q.base.dim.ns k + s) := by unfold UpQ; omega
    refine ⟨?_, ?_, ?_, ?_⟩
    · refine (view_lls Q.inner k s hs).trans (Eq.trans ?_ (view_lls L k s hs).symm)
      show Q.base.d k (2 * (Q.base.dim.nb k + (Q.base.dim.ng k + Q.nq k)) + s) =
        (linQp Q sol.ux).d k (2 * (Q.base.dim.nb k + (Q.base.dim.ng k + Q.nq k)) + s)
      rw [linQp_d, if_neg hl, if_neg hu]
    · refine (view_lus Q.inner k s hs).trans (Eq.trans ?_ (view_lus L k s hs).symm)
      show Q.base.d k (2 * (Q.base.dim.nb k + (Q.base.dim.ng k + Q.nq k)) + Q.base.dim.ns k + s) =
        (linQp Q sol.ux).d k (2 * (Q.base.dim.nb k + (Q.base.dim.ng k + Q.nq k)) + Q.base.dim.ns k + s)
      rw [linQp_d, if_neg hl', if_neg hu']
    · refine (view_llsMask Q.inner k s hs).trans (Eq.trans ?_ (view_llsMask L k s hs).symm)
      show Q.base.d_mask k (2 * (Q.base.dim.nb k + (Q.base.dim.ng k + Q.nq k)) + s) =
        if LoQ Q k (2 * (Q.base.dim.nb k + (Q.base.dim.ng k + Q.nq k)) + s) then 0 else _
      rw [if_neg hl]; rfl
    · refine (view_lusMask Q.inner k s hs).trans (Eq.trans ?_ (view_lusMask L k s hs).symm)
      show Q.base.d_mask k (2 * (Q.base.dim.nb k + (Q.base.dim.ng k + Q.nq k)) + Q.base.dim.ns k + s) =
        if LoQ Q k (2 * (Q.base.dim.nb k + (Q.base.dim.ng k + Q.nq k)) + Q.base.dim.ns k + s) then 0 else _
      rw [if_neg hl']; rfl
  have en1 : (qview Q).base.nb k + (qview Q).base.ng k = Q.base.dim.nb k + Q.base.dim.ng k := rfl
  have en2 : (view L).nb k + (view L).ng k = Q.base.dim.nb k + Q.base.dim.ng k + Q.nq k := by
    show Q.base.dim.nb k + (Q.base.dim.ng k + Q.nq k) = _; ring
  have en3 : (qview Q).base.ns k = Q.base.dim.ns k := rfl
  have en4 : (view L).ns k = Q.base.dim.ns k := rfl
  have en5 : (qview Q).nq k = Q.nq k := rfl
  rw [en1, en2, en3, en4, en5, sum_range_add _ (Q.base.dim.nb k + Q.base.dim.ng k), sum_range_add _ (Q.base.dim.nb k + Q.base.dim.ng k)]
  have s1 : ∑ j ∈ range (Q.base.dim.nb k + Q.base.dim.ng k), (qview Q).base.lowerMask k j * (multOf Q.inner.dim sol).lo k j
        * ((qview Q).base.lower k j - (qview Q).base.value (ptOf Q.inner.dim v) k j - (qview Q).base.slackLo (ptOf Q.inner.dim v) k j)
      = ∑ j ∈ range (Q.base.dim.nb k + Q.base.dim.ng k), (view L).lowerMask k j * (multOf Q.inner.dim sol).lo k j
        * ((view L).lower k j - (view L).value (ptOf Q.inner.dim v) k j - (view L).slackLo (ptOf Q.inner.dim v) k j) := by
    refine sum_congr rfl fun j hj => ?_
    have hj := mem_range.mp hj
    rw [hval j hj, (hlow j hj).1, (hlow j hj).2.2.1, hslo]
  have s2 : ∑ j ∈ range (Q.base.dim.nb k + Q.base.dim.ng k), (qview Q).base.upperMask k j * (multOf Q.inner.dim sol).up k j
        * ((qview Q).base.value (ptOf Q.inner.dim v) k j - (qview Q).base.upper k j - (qview Q).base.slackUp (ptOf Q.inner.dim v) k j)
      = ∑ j ∈ range (Q.base.dim.nb k + Q.base.dim.ng k), (view L).upperMask k j * (multOf Q.inner.dim sol).up k j
        * ((view L).value (ptOf Q.inner.dim v) k j - (view L).upper k j - (view L).slackUp (ptOf Q.inner.dim v) k j) := by
    refine sum_congr rfl fun j hj => ?_
    have hj := mem_range.mp hj
    rw [hval j hj, (hlow j hj).2.1, (hlow j hj).2.2.2, hsup]
  have s3 : ∑ s ∈ range (Q.base.dim.ns k), (qview Q).base.llsMask k s * (multOf Q.inner.dim sol).ls k s
        * ((qview Q).base.lls k s - (ptOf Q.inner.dim v).sl k s)
      = ∑ s ∈ range (Q.base.dim.ns k), (view L).llsMask k s * (multOf Q.inner.dim sol).ls k s
        * ((view L).lls k s - (ptOf Q.inner.dim v).sl k s) := by
    refine sum_congr rfl fun s hs => ?_
    have hs := mem_range.mp hs
    rw [(hls s hs).1, (hls s hs).2.2.1]
  have s4 : ∑ s ∈ range (Q.base.dim.ns k), (qview Q).base.lusMask k s * (multOf Q.inner.dim sol).us k s
        * ((qview Q).base.lus k s - (ptOf Q.inner.dim v).su k s)
      = ∑ s ∈ range (Q.base.dim.ns k), (view L).lusMask k s * (multOf Q.inner.dim sol).us k s
        * ((view L).lus k s - (ptOf Q.inner.dim v).su k s) := by
    refine sum_congr rfl fun s hs => ?_
    have hs := mem_range.mp hs
    rw [(hls s hs).2.1, (hls s hs).2.2.2]
  have s5 : ∑ j ∈ range (Q.nq k), (view L).lowerMask k (Q.base.dim.nb k + Q.base.dim.ng k + j)
        * (multOf Q.inner.dim sol).lo k (Q.base.dim.nb k + Q.base.dim.ng k + j)
        * ((view L).lower k (Q.base.dim.nb k + Q.base.dim.ng k + j)
          - (view L).value (ptOf Q.inner.dim v) k (Q.base.dim.nb k + Q.base.dim.ng k + j)
          - (view L).slackLo (ptOf Q.inner.dim v) k (Q.base.dim.nb k + Q.base.dim.ng k + j)) = 0 := by
    refine sum_eq_zero fun j hj => ?_
    have hj := mem_range.mp hj
    have hm : (view L).lowerMask k (Q.base.dim.nb k + Q.base.dim.ng k + j) = 0 := by
      refine (view_lowerMask L k _ ?_).trans ?_
      · show _ < Q.base.dim.nb k + (Q.base.dim.ng k + Q.nq k); omega
      · show (if LoQ Q k (Q.base.dim.nb k + Q.base.dim.ng k + j) then 0 else _) = _
        rw [if_pos (by unfold LoQ; omega)]
    rw [hm]; ring
  have s6 : ∑ j ∈ range (Q.nq k), (qview Q).uqMask k j * (multOf Q.inner.dim sol).up k (Q.base.dim.nb k + Q.base.dim.ng k + j)
        * ((qview Q).qvalue (ptOf Q.inner.dim v) k j - (qview Q).uq k j - (qview Q).qslack (ptOf Q.inner.dim v) k j)
      = ∑ j ∈ range (Q.nq k), (view L).upperMask k (Q.base.dim.nb k + Q.base.dim.ng k + j)
        * (multOf Q.inner.dim sol).up k (Q.base.dim.nb k + Q.base.dim.ng k + j)
        * ((view L).value (ptOf Q.inner.dim v) k (Q.base.dim.nb k + Q.base.dim.ng k + j)
          - (view L).upper k (Q.base.dim.nb k + Q.base.dim.ng k + j)
          - (view L).slackUp (ptOf Q.inner.dim v) k (Q.base.dim.nb k + Q.base.dim.ng k + j))
        + ∑ j ∈ range (Q.nq k), lamM L sol k (2 * Q.base.dim.nb k + 2 * Q.base.dim.ng k + Q.nq k + j)
            * qForm Q k j (fun i => v k i - sol.ux k i) := by
    rw [← sum_add_distrib]
    refine sum_congr rfl fun j hj => ?_
    have hj := mem_range.mp hj
    have ei : Q.base.dim.nb k + (Q.base.dim.ng k + Q.nq k) + (Q.base.dim.nb k + Q.base.dim.ng k + j)
      = 2 * Q.base.dim.nb k + 2 * Q.base.dim.ng k + Q.nq k + j := by ring
    have hj' : Q.base.dim.nb k + Q.base.dim.ng k + j < L.dim.nb k + L.dim.ng k := by
      show _ < Q.base.dim.nb k + (Q.base.dim.ng k + Q.nq k); omega
    have m1 : (view L).upperMask k (Q.base.dim.nb k + Q.base.dim.ng k + j)
        = Q.base.d_mask k (2 * Q.base.dim.nb k + 2 * Q.base.dim.ng k + Q.nq k + j) := by
      refine (view_upperMask L k _ hj').trans ?_
      show (if LoQ Q k (Q.base.dim.nb k + (Q.base.dim.ng k + Q.nq k) + (Q.base.dim.nb k + Q.base.dim.ng k + j)) then 0
        else Q.base.d_mask k (Q.base.dim.nb k + (Q.base.dim.ng k + Q.nq k) + (Q.base.dim.nb k + Q.base.dim.ng k + j))) = _
      rw [if_neg (by unfold LoQ; omega), ei]
    have m2 : (multOf Q.inner.dim sol).up k (Q.base.dim.nb k + Q.base.dim.ng k + j)
        = sol.lam k (2 * Q.base.dim.nb k + 2 * Q.base.dim.ng k + Q.nq k + j) := by
      show sol.lam k (Q.base.dim.nb k + (Q.base.dim.ng k + Q.nq k) + (Q.base.dim.nb k + Q.base.dim.ng k + j)) = _
      rw [ei]
    have m3 : (view L).upper k (Q.base.dim.nb k + Q.base.dim.ng k + j)
        = - (Q.base.d k (2 * Q.base.dim.nb k + 2 * Q.base.dim.ng k + Q.nq k + j) - qForm Q k j (sol.ux k)) := by
      refine (view_upper L k _ hj').trans ?_
      show -(linQp Q sol.ux).d k (Q.base.dim.nb k + (Q.base.dim.ng k + Q.nq k) + (Q.base.dim.nb k + Q.base.dim.ng k + j)) = _
      rw [ei, linQp_d, if_neg (by unfold LoQ; omega), if_pos (by unfold UpQ; omega),
        show 2 * Q.base.dim.nb k + 2 * Q.base.dim.ng k + Q.nq k + j - (2 * Q.base.dim.nb k + 2 * Q.base.dim.ng k + Q.nq k) = j by omega]
    have m4 : (view L).value (ptOf Q.inner.dim v) k (Q.base.dim.nb k + Q.base.dim.ng k + j)
        = (∑ i ∈ range (Q.base.dim.nu k + Q.base.dim.nx k), Q.base.DCt k i (Q.base.dim.ng k + j) * v k i)
          + ∑ i ∈ range (Q.base.dim.nu k + Q.base.dim.nx k), hqMul Q k j (sol.ux k) i * v k i :=
      (value_packed L k v _ hj').trans (cval_lin_ge Q sol.ux k j (v k))
    have m5 : (view L).slackUp (ptOf Q.inner.dim v) k (Q.base.dim.nb k + Q.base.dim.ng k + j)
        = (qview Q).qslack (ptOf Q.inner.dim v) k j :=
      (slackUp_packed L k v _).trans (qslack_packed Q v k j).symm
    have m6 : (qview Q).uqMask k j = Q.base.d_mask k (2 * Q.base.dim.nb k + 2 * Q.base.dim.ng k + Q.nq k + j) := rfl
    have m7 : (qview Q).uq k j = - Q.base.d k (2 * Q.base.dim.nb k + 2 * Q.base.dim.ng k + Q.nq k + j) := rfl
    rw [m1, m2, m3, m4, m5, m6, m7, hL, lamM_up, qvalue_packed, qForm_sub, qVal]
    ring
  rw [s1, s2, s3, s4, s5, s6]
  ring

/-! ### C82: residuals are the KKT residuals -/

/-- **C82 (stationarity).**  The returned `res_g` is the gradient of the Lagrangian of the QCQP: along every direction
`h` of inputs, states and slacks the Lagrangian (masked multipliers of the point) changes by `⟨res_g, h⟩` plus the
quadratic cost of `h` and the curvature of the quadratic constraints. -/
theorem qres_stationarity (Q : Qcqp K) (hwf : Q.WF) (sol : Sol K) (res : Res K) (ws : QresWs K)
    (hws : ws.ws.Ok Q.inner) (hc : CacheCond Q sol ws) (h : ℕ → Vec K) :
    (qview Q).lagrangian (ptOf Q.inner.dim (fun k i => sol.ux k i + h k i)) (multOf Q.inner.dim sol) =
    (qview Q).lagrangian (ptOf Q.inner.dim sol.ux) (multOf Q.inner.dim sol)
      + (∑ k ∈ range (Q.base.dim.N + 1), ∑ i ∈ range (Q.base.dim.nu k + Q.base.dim.nx k + 2 * Q.base.dim.ns k),
          (qresCompute Q sol res ws).res_g k i * h k i)
      + (qview Q).base.quad (ptOf Q.inner.dim h)
      + (qview Q).curvature (multOf Q.inner.dim sol) (ptOf Q.inner.dim h) := by
  have hg : (∑ k ∈ range (Q.base.dim.N + 1), ∑ i ∈ range (Q.base.dim.nu k + Q.base.dim.nx k + 2 * Q.base.dim.ns k),
          (qresCompute Q sol res ws).res_g k i * h k i) =
      ∑ k ∈ range ((linQp Q sol.ux).dim.N + 1), ∑ i ∈ range ((linQp Q sol.ux).dim.nu k + (linQp Q sol.ux).dim.nx k + 2 * (linQp Q sol.ux).dim.ns k),
          (resCompute (linQp Q sol.ux) sol res { ws.ws with valid_nc_mask := false }).res_g k i * h k i := by
    apply sum_congr rfl; intro k hk; apply sum_congr rfl; intro i hi
    have hk' : k ≤ Q.base.dim.N := by have := mem_range.mp hk; omega
    rw [((qresCompute_val Q hwf sol res ws hws hc).1 k hk').g i (mem_range.mp hi),
      ((resCompute_val (linQp Q sol.ux) (linQp_wf Q hwf _) sol res { ws.ws with valid_nc_mask := false }
        (fun h => by cases h)).1 k hk').1.g i (mem_range.mp hi)]
  have hs := res_stationarity (linQp Q sol.ux) (linQp_wf Q hwf _) sol res { ws.ws with valid_nc_mask := false }
    (fun h => by cases h) h
  rw [← hg] at hs
  rw [qlagr_lin, qlagr_lin, curv_packed]
  have e1 : (fun k i => sol.ux k i + h k i - sol.ux k i) = h := by funext k i; ring
  have e2 : quadPair Q sol (fun k i => sol.ux k i - sol.ux k i) = 0 := by
    refine sum_eq_zero fun k _ => sum_eq_zero fun j _ => ?_
    simp [qForm, hqMul]
  have e3 : (qview Q).base.quad (ptOf Q.inner.dim h) = (view (linQp Q sol.ux)).quad (ptOf (linQp Q sol.ux).dim h) := rfl
  have e4 : (linQp Q sol.ux).dim = Q.inner.dim := rfl
  rw [e1, e2, e3, add_zero]
  rw [e4] at hs ⊢
  rw [hs]

/-- **C82 (dynamics).** -/
theorem qres_dynamics (Q : Qcqp K) (hwf : Q.WF) (sol : Sol K) (res : Res K) (ws : QresWs K)
    (hws : ws.ws.Ok Q.inner) (hc : CacheCond Q sol ws) (k i : ℕ) (hk : k < Q.base.dim.N) (hi : i < Q.base.dim.nx (k + 1)) :
    (qresCompute Q sol res ws).res_b k i = (qview Q).base.dynDefect (ptOf Q.inner.dim sol.ux) k i := by
  rw [((qresCompute_val Q hwf sol res ws hws hc).1 k (by omega)).b hk i hi]
  exact (dyn_packed Q.inner k sol i hi).symm

/-- **C82 (inequalities).**  Layout of a stage: `n = nb+ng+nq` lower sides, `n` upper sides, slack bounds.  Boxes and
linear constraints as for the QP; the upper side of quadratic constraint `j` reports `value - uq - slack + t`. -/
theorem qres_inequalities (Q : Qcqp K) (hwf : Q.WF) (sol : Sol K) (res : Res K) (ws : QresWs K)
    (hws : ws.ws.Ok Q.inner) (hc : CacheCond Q sol ws) (k : ℕ) (hk : k ≤ Q.base.dim.N) :
    let P := qview Q
    let p := ptOf Q.inner.dim sol.ux
    let r := (qresCompute Q sol res ws).res_d k
    let m := Q.base.dim.nb k + Q.base.dim.ng k
    let n := Q.base.dim.nb k + (Q.base.dim.ng k + Q.nq k)
    (∀ j, j < m → r j = P.base.lowerMask k j * (P.base.lower k j - P.base.value p k j - P.base.slackLo p k j + sol.t k j)) ∧
    (∀ j, j < m → r (n + j) = P.base.upperMask k j
      * (P.base.value p k j - P.base.upper k j - P.base.slackUp p k j + sol.t k (n + j))) ∧
    (∀ j, j < Q.nq k → r (n + m + j) = P.uqMask k j
      * (P.qvalue p k j - P.uq k j - P.qslack p k j + sol.t k (n + m + j))) ∧
    (∀ s, s < Q.base.dim.ns k → r (2 * n + s) = P.base.llsMask k s * (P.base.lls k s - p.sl k s + sol.t k (2 * n + s))) ∧
    (∀ s, s < Q.base.dim.ns k → r (2 * n + Q.base.dim.ns k + s) =
      P.base.lusMask k s * (P.base.lus k s - p.su k s + sol.t k (2 * n + Q.base.dim.ns k + s))) := by
  intro P p r m n
  have hm' : m = Q.base.dim.nb k + Q.base.dim.ng k := rfl
  have hn : n = m + Q.nq k := by simp only [n, m]; ring
  have hd : ∀ j, j < 2 * n + 2 * Q.base.dim.ns k → r j = Q.base.d_mask k j * vD (linQp Q sol.ux) sol k j := by
    intro j hj
    refine ((qresCompute_val Q hwf sol res ws hws hc).1 k hk).d j ?_
    show j < 2 * Q.base.dim.nb k + 2 * (Q.base.dim.ng k + Q.nq k) + 2 * Q.base.dim.ns k
    omega
  have hlin : ∀ j, j < n → j < Q.inner.dim.nb k + Q.inner.dim.ng k := fun j hj => hj
  refine ⟨fun j hj => ?_, fun j hj => ?_, fun j hj => ?_, fun s hs => ?_, fun s hs => ?_⟩
  · have e1 : P.base.lowerMask k j = Q.base.d_mask k j := view_lowerMask Q.inner k j (hlin j (by omega))
    have e2 : P.base.lower k j = Q.base.d k j := view_lower Q.inner k j (hlin j (by omega))
    have e3 : P.base.value p k j = cval Q.inner k (sol.ux k) j := value_packed Q.inner k _ j (hlin j (by omega))
    have e4 : P.base.slackLo p k j = slk Q.inner k (sol.ux k) (Q.base.dim.nu k + Q.base.dim.nx k) j := slackLo_packed Q.inner k _ j
    rw [hd j (by omega), vD_linQp, linQp_d, if_pos (by omega), if_neg (by unfold LoQ; omega), if_neg (by unfold UpQ; omega),
      cval_lin_lt Q sol.ux k j _ hj, e1, e2, e3, e4]
    have e5 : slk Q.inner k (sol.ux k) (Q.base.dim.nu k + Q.base.dim.nx k) j
      = if Q.base.idxs_rev k j = -1 then 0 else sol.ux k (Q.base.dim.nu k + Q.base.dim.nx k + (Q.base.idxs_rev k j).toNat) := rfl
    rw [e5]; ring
  · have e1 : P.base.upperMask k j = Q.base.d_mask k (n + j) := view_upperMask Q.inner k j (hlin j (by omega))
    have e2 : P.base.upper k j = - Q.base.d k (n + j) := view_upper Q.inner k j (hlin j (by omega))
    have e3 : P.base.value p k j = cval Q.inner k (sol.ux k) j := value_packed Q.inner k _ j (hlin j (by omega))
    have e4 : P.base.slackUp p k j = slk Q.inner k (sol.ux k) (Q.base.dim.nu k + Q.base.dim.nx k + Q.base.dim.ns k) j :=
      slackUp_packed Q.inner k _ j
    rw [hd (n + j) (by omega), vD_linQp, linQp_d, if_neg (by omega), if_pos (by omega), if_neg (by unfold LoQ; omega),
      if_neg (by unfold UpQ; omega), show n + j - (Q.base.dim.nb k + (Q.base.dim.ng k + Q.nq k)) = j by omega,
      cval_lin_lt Q sol.ux k j _ hj, e1, e2, e3, e4]
    have e5 : slk Q.inner k (sol.ux k) (Q.base.dim.nu k + Q.base.dim.nx k + Q.base.dim.ns k) j
      = if Q.base.idxs_rev k j = -1 then 0
        else sol.ux k (Q.base.dim.nu k + Q.base.dim.nx k + Q.base.dim.ns k + (Q.base.idxs_rev k j).toNat) := rfl
    rw [e5]; ring
  · have ei : n + m + j = 2 * Q.base.dim.nb k + 2 * Q.base.dim.ng k + Q.nq k + j := by omega
    have e1 : P.uqMask k j = Q.base.d_mask k (n + m + j) := by rw [ei]; rfl
    have e2 : P.uq k j = - Q.base.d k (n + m + j) := by rw [ei]; rfl
    have e3 : P.qvalue p k j = qVal Q k j (sol.ux k) := qvalue_packed Q _ k j
    have e4 : P.qslack p k j = _ := qslack_packed Q sol.ux k j
    rw [hd (n + m + j) (by omega), vD_linQp, linQp_d, if_neg (by omega), if_pos (by omega), if_neg (by unfold LoQ; omega),
      if_pos (by unfold UpQ; omega), show n + m + j - (Q.base.dim.nb k + (Q.base.dim.ng k + Q.nq k)) = Q.base.dim.nb k + Q.base.dim.ng k + j by omega,
      show n + m + j - (2 * Q.base.dim.nb k + 2 * Q.base.dim.ng k + Q.nq k) = j by omega,
      cval_lin_ge, e1, e2, e3, e4]
    have e5 : slk Q.inner k (sol.ux k) (Q.base.dim.nu k + Q.base.dim.nx k + Q.base.dim.ns k) (Q.base.dim.nb k + Q.base.dim.ng k + j)
      = if Q.base.idxs_rev k (Q.base.dim.nb k + Q.base.dim.ng k + j) = -1 then 0
        else sol.ux k (Q.base.dim.nu k + Q.base.dim.nx k + Q.base.dim.ns k
          + (Q.base.idxs_rev k (Q.base.dim.nb k + Q.base.dim.ng k + j)).toNat) := rfl
    rw [e5, qVal]
    have e6 : ∑ i ∈ range (Q.base.dim.nu k + Q.base.dim.nx k), hqMul Q k j (sol.ux k) i * sol.ux k i = 2 * qForm Q k j (sol.ux k) := by
      simp only [qForm]; ring
    rw [e6]; ring
  · have e1 : P.base.llsMask k s = Q.base.d_mask k (2 * n + s) := view_llsMask Q.inner k s hs
    have e2 : P.base.lls k s = Q.base.d k (2 * n + s) := view_lls Q.inner k s hs
    rw [hd (2 * n + s) (by omega), vD_linQp, linQp_d, if_neg (by omega), if_neg (by omega), if_neg (by unfold LoQ; omega),
      if_neg (by unfold UpQ; omega), e1, e2, show 2 * n + s - 2 * (Q.base.dim.nb k + (Q.base.dim.ng k + Q.nq k)) = s by omega]
    have e3 : p.sl k s = sol.ux k (Q.base.dim.nu k + Q.base.dim.nx k + s) := rfl
    rw [e3]; ring
  · have e1 : P.base.lusMask k s = Q.base.d_mask k (2 * n + Q.base.dim.ns k + s) := view_lusMask Q.inner k s hs
    have e2 : P.base.lus k s = Q.base.d k (2 * n + Q.base.dim.ns k + s) := view_lus Q.inner k s hs
    rw [hd (2 * n + Q.base.dim.ns k + s) (by omega), vD_linQp, linQp_d, if_neg (by omega), if_neg (by omega), if_neg (by unfold LoQ; omega),
      if_neg (by unfold UpQ; omega), e1, e2,
      show 2 * n + Q.base.dim.ns k + s - 2 * (Q.base.dim.nb k + (Q.base.dim.ng k + Q.nq k)) = Q.base.dim.ns k + s by omega]
    have e3 : p.su k s = sol.ux k (Q.base.dim.nu k + Q.base.dim.nx k + (Q.base.dim.ns k + s)) := by rw [← add_assoc]; rfl
    rw [e3]; ring

/-- **C82 (complementarity).**  For masks zero or one, every constraint that exists (every position but the lower sides
of the quadratic constraints) reports `lam*t - m` if present and zero otherwise. -/
theorem qres_complementarity (Q : Qcqp K) (hwf : Q.WF) (hm : Mask01 Q.inner) (sol : Sol K) (res : Res K) (ws : QresWs K)
    (hws : ws.ws.Ok Q.inner) (hc : CacheCond Q sol ws) (k j : ℕ) (hk : k ≤ Q.base.dim.N) (hj : j < nct Q.inner.dim k)
    (hq : ¬ (Q.base.dim.nb k + Q.base.dim.ng k ≤ j ∧ j < Q.base.dim.nb k + (Q.base.dim.ng k + Q.nq k))) :
    (qresCompute Q sol res ws).res_m k j =
      if Q.base.d_mask k j = 0 then 0 else sol.lam k j * sol.t k j - Q.base.m k j := by
  rw [((qresCompute_val Q hwf sol res ws hws hc).1 k hk).m j hj]
  have e : lamM (linQp Q sol.ux) sol k j = (if LoQ Q k j then 0 else Q.base.d_mask k j) * sol.lam k j := rfl
  have hq' : ¬ LoQ Q k j := hq
  rw [e, if_neg hq']
  rcases hm k j hk hj with h | h
  · have h' : Q.base.d_mask k j = 0 := h
    rw [h', if_pos rfl]; ring
  · have h' : Q.base.d_mask k j = 1 := h
    rw [h', if_neg one_ne_zero]; ring

/-- **C82 (objective).** -/
theorem qres_objective (Q : Qcqp K) (hwf : Q.WF) (sol : Sol K) (res : Res K) (ws : QresWs K)
    (hws : ws.ws.Ok Q.inner) (hc : CacheCond Q sol ws) :
    (qresCompute Q sol res ws).obj = (qview Q).base.objective (ptOf Q.inner.dim sol.ux) := by
  rw [(qresCompute_val Q hwf sol res ws hws hc).2.1]
  exact (obj_packed Q.inner sol).symm

/-- multipliers of the constraints that exist: masked, and no lower sides of quadratic constraints -/
def qlam (Q : Qcqp K) (sol : Sol K) (k j : ℕ) : K :=
  if Q.base.dim.nb k + Q.base.dim.ng k ≤ j ∧ j < Q.base.dim.nb k + (Q.base.dim.ng k + Q.nq k) then 0
  else Q.base.d_mask k j * sol.lam k j

theorem qlam_eq (Q : Qcqp K) (sol : Sol K) (k j : ℕ) : lamM (linQp Q sol.ux) sol k j = qlam Q sol k j := by
  have e : lamM (linQp Q sol.ux) sol k j = (if LoQ Q k j then 0 else Q.base.d_mask k j) * sol.lam k j := rfl
  rw [e]
  simp only [qlam]
  by_cases h : LoQ Q k j
  · have h' : Q.base.dim.nb k + Q.base.dim.ng k ≤ j ∧ j < Q.base.dim.nb k + (Q.base.dim.ng k + Q.nq k) := h
    rw [if_pos h, if_pos h', zero_mul]
  · have h' : ¬ (Q.base.dim.nb k + Q.base.dim.ng k ≤ j ∧ j < Q.base.dim.nb k + (Q.base.dim.ng k + Q.nq k)) := h
    rw [if_neg h, if_neg h']

/-- **C82 (gap identity).**  The reported duality gap is the sum of slack times multiplier over the constraints that
exist plus terms that vanish with the residuals. -/
theorem qres_dual_gap (Q : Qcqp K) (hwf : Q.WF) (hm : Mask01 Q.inner) (sol : Sol K) (res : Res K) (ws : QresWs K)
    (hws : ws.ws.Ok Q.inner) (hc : CacheCond Q sol ws) :
    let r := qresCompute Q sol res ws
    r.dual_gap = pairV Q.inner.dim r.res_g sol.ux - pairE Q.inner.dim sol.pi r.res_b
      - pairC Q.inner.dim (qlam Q sol) r.res_d + pairC Q.inner.dim (qlam Q sol) sol.t := by
  intro r
  obtain ⟨h1, _, h3, _⟩ := qresCompute_val Q hwf sol res ws hws hc
  set L := linQp Q sol.ux with hL
  have e1 : pairV Q.inner.dim r.res_g sol.ux = pairV L.dim (fun k i => vG L sol (lamM L sol k) k i) sol.ux :=
    pairV_congr _ _ _ _ _ (fun k i hk hi => by rw [(h1 k hk).g i hi])
  have e2 : pairE Q.inner.dim sol.pi r.res_b = pairE L.dim sol.pi (fun k i => L.b k i + linB L sol.ux k i) :=
    pairE_congr _ _ _ _ _ (fun k i hk hi => by
      rw [(h1 k (by have : k < Q.base.dim.N := hk; omega)).b hk i hi, vB_lin]; rfl)
  have e3 : pairC Q.inner.dim (qlam Q sol) r.res_d =
      pairC L.dim (lamM L sol) (fun k j => L.d k j + linD L sol.ux k j + sol.t k j) := by
    refine pairC_congr _ _ _ _ _ (fun k j hk hj => ?_)
    rw [(h1 k hk).d j hj, vD_lin, qlam_eq]
    simp only [qlam]
    split_ifs
    · ring
    · rcases hm k j hk hj with h | h
      · have h' : Q.base.d_mask k j = 0 := h
        rw [h']; ring
      · have h' : Q.base.d_mask k j = 1 := h
        rw [h']; ring
  have e4 : pairC Q.inner.dim (qlam Q sol) sol.t = pairC L.dim (lamM L sol) sol.t :=
    pairC_congr _ _ _ _ _ (fun k j _ _ => by rw [qlam_eq])
  have e5 : r.dual_gap = ∑ k ∈ range (L.dim.N + 1), vGap L sol k := h3
  rw [e5, gap_packed, e1, e2, e3, e4, vG_pair L (linQp_wf Q hwf _) sol (lamM L sol) sol.ux, pairE_add_right, pairC_add_right,
    pairC_add_right]
  ring

/-- on feasible points the Lagrangian of the QCQP does not exceed the objective -/
theorem qlagrangian_le (P : UserQcqp K) (p : Pt K) (w : Mult K) (hf : P.Feasible p)
    (h1 : ∀ k j, k ≤ P.base.N → j < P.base.nb k + P.base.ng k → 0 ≤ P.base.lowerMask k j * w.lo k j)
    (h2 : ∀ k j, k ≤ P.base.N → j < P.base.nb k + P.base.ng k → 0 ≤ P.base.upperMask k j * w.up k j)
    (h3 : ∀ k i, k ≤ P.base.N → i < P.base.ns k → 0 ≤ P.base.llsMask k i * w.ls k i)
    (h4 : ∀ k i, k ≤ P.base.N → i < P.base.ns k → 0 ≤ P.base.lusMask k i * w.us k i)
    (h5 : ∀ k j, k ≤ P.base.N → j < P.nq k → 0 ≤ P.uqMask k j * w.up k (P.base.nb k + P.base.ng k + j)) :
    P.lagrangian p w ≤ P.base.objective p := by
  have hb := lagrangian_le P.base p w hf.base h1 h2 h3 h4
  have hq : ∑ k ∈ range (P.base.N + 1), ∑ j ∈ range (P.nq k),
      P.uqMask k j * w.up k (P.base.nb k + P.base.ng k + j) * (P.qvalue p k j - P.uq k j - P.qslack p k j) ≤ 0 := by
    refine sum_nonpos fun k hk => sum_nonpos fun j hj => ?_
    have hk : k ≤ P.base.N := by have := mem_range.mp hk; omega
    have hj := mem_range.mp hj
    by_cases hm : P.uqMask k j = 0
    · rw [hm]; simp
    · exact mul_nonpos_of_nonneg_of_nonpos (h5 k j hk hj) (by linarith [hf.quad k j hk hj hm])
  unfold UserQcqp.lagrangian
  linarith

theorem qvalue_congr (Q : Qcqp K) (p p' : Pt K) (h : Agree (qview Q).base p p') (k j : ℕ) :
    (qview Q).qvalue p k j = (qview Q).qvalue p' k j := by
  have hu : ∀ i ∈ range ((qview Q).base.nu k), p.u k i = p'.u k i := fun i hi => h.u k i (mem_range.mp hi)
  have hx : ∀ i ∈ range ((qview Q).base.nx k), p.x k i = p'.x k i := fun i hi => h.x k i (mem_range.mp hi)
  simp only [UserQcqp.qvalue, UserQcqp.form]
  congr 1
  · congr 1
    · congr 1
      · congr 1
        · congr 1
          exact sum_congr rfl fun i hi => sum_congr rfl fun l hl => by rw [hu i hi, hu l hl]
        · exact sum_congr rfl fun i hi => sum_congr rfl fun l hl => by rw [hu i hi, hx l hl]
      · congr 1
        exact sum_congr rfl fun i hi => sum_congr rfl fun l hl => by rw [hx i hi, hx l hl]
    · exact sum_congr rfl fun i hi => by rw [hx i hi]
  · exact sum_congr rfl fun i hi => by rw [hu i hi]

/-- feasibility of the QCQP depends on the components that exist only -/
theorem qfeasible_congr (Q : Qcqp K) (hwf : Q.WF) (p p' : Pt K) (h : Agree (qview Q).base p p')
    (hf : (qview Q).Feasible p') : (qview Q).Feasible p := by
  -- the base part, on the linear constraints only
  have hsoft : ∀ k j s, k ≤ Q.base.dim.N → j < Q.base.dim.nb k + (Q.base.dim.ng k + Q.nq k) →
      Q.base.idxs_rev k j ≠ -1 → (Q.base.idxs_rev k j).toNat = s → s < Q.base.dim.ns k := by
    intro k j s hk hj h1 hs
    rcases hwf.2 k j hk hj with h2 | h2
    · exact absurd h2 h1
    · have h2' : 0 ≤ Q.base.idxs_rev k j ∧ (Q.base.idxs_rev k j).toNat < Q.base.dim.ns k := h2
      omega
  have hval : ∀ k j, k ≤ Q.base.dim.N → j < Q.base.dim.nb k + Q.base.dim.ng k →
      (qview Q).base.value p k j = (qview Q).base.value p' k j := by
    intro k j hk hj
    simp only [UserQp.value]
    by_cases hb : j < (qview Q).base.nb k
    · rw [if_pos hb, if_pos hb]
      have hi : Q.base.idxb k j < Q.base.dim.nu k + Q.base.dim.nx k := hwf.1 k j hk hb
      have e : (qview Q).base.idxb k j = Q.base.idxb k j := rfl
      have e1 : (qview Q).base.nu k = Q.base.dim.nu k := rfl
      have e2 : (qview Q).base.nx k = Q.base.dim.nx k := rfl
      by_cases hu : (qview Q).base.idxb k j < (qview Q).base.nu k
      · rw [if_pos hu, if_pos hu, h.u k _ hu]
      · rw [if_neg hu, if_neg hu, h.x k _ (by omega)]
    · rw [if_neg hb, if_neg hb]
      congr 1
      · exact sum_congr rfl (fun i hi => by rw [h.x k i (mem_range.mp hi)])
      · exact sum_congr rfl (fun i hi => by rw [h.u k i (mem_range.mp hi)])
  have hss : ∀ k j, k ≤ Q.base.dim.N → j < Q.base.dim.nb k + (Q.base.dim.ng k + Q.nq k) → ∀ s,
      (if Q.base.idxs_rev k j = -1 then none else some (Q.base.idxs_rev k j).toNat) = some s → s < Q.base.dim.ns k := by
    intro k j hk hj s hs
    by_cases h1 : Q.base.idxs_rev k j = -1
    · rw [if_pos h1] at hs; cases hs
    · rw [if_neg h1] at hs
      exact hsoft k j s hk hj h1 (Option.some.inj hs)
  refine ⟨⟨fun k i hk hi => ?_, fun k j hk hj hm => ?_, fun k j hk hj hm => ?_, fun k i hk hi hm => ?_, fun k i hk hi hm => ?_⟩,
    fun k j hk hj hm => ?_⟩
  · rw [← hf.base.dyn k i hk hi]
    simp only [UserQp.dynDefect]
    rw [h.x (k + 1) i hi]
    congr 2
    congr 1
    · exact sum_congr rfl (fun j hj => by rw [h.x k j (mem_range.mp hj)])
    · exact sum_congr rfl (fun j hj => by rw [h.u k j (mem_range.mp hj)])
  · have hj' : j < Q.base.dim.nb k + Q.base.dim.ng k := hj
    have e : (qview Q).base.slackLo p k j = (qview Q).base.slackLo p' k j := by
      simp only [UserQp.slackLo]
      cases hs : (qview Q).base.soft k j with
      | none => rfl
      | some s => exact h.sl k s (hss k j hk (by omega) s hs)
    rw [hval k j hk hj, e]; exact hf.base.lo k j hk hj hm
  · have hj' : j < Q.base.dim.nb k + Q.base.dim.ng k := hj
    have e : (qview Q).base.slackUp p k j = (qview Q).base.slackUp p' k j := by
      simp only [UserQp.slackUp]
      cases hs : (qview Q).base.soft k j with
      | none => rfl
      | some s => exact h.su k s (hss k j hk (by omega) s hs)
    rw [hval k j hk hj, e]; exact hf.base.up k j hk hj hm
  · rw [h.sl k i hi]; exact hf.base.ls k i hk hi hm
  · rw [h.su k i hi]; exact hf.base.us k i hk hi hm
  · have hj' : j < Q.nq k := hj
    have e : (qview Q).qslack p k j = (qview Q).qslack p' k j := by
      simp only [UserQcqp.qslack]
      cases hs : (qview Q).softq k j with
      | none => rfl
      | some s => exact h.su k s (hss k _ hk (by omega) s hs)
    rw [qvalue_congr Q p p' h, e]; exact hf.quad k j hk hj hm

/-- the Lagrangian at a point with zero stationarity residual is objective minus gap -/
theorem qlagr_gap (Q : Qcqp K) (hwf : Q.WF) (sol : Sol K) (res : Res K) (ws : QresWs K)
    (hws : ws.ws.Ok Q.inner) (hc : CacheCond Q sol ws) :
    (qview Q).lagrangian (ptOf Q.inner.dim sol.ux) (multOf Q.inner.dim sol) =
      (qresCompute Q sol res ws).obj - (qresCompute Q sol res ws).dual_gap
      + pairV Q.inner.dim (qresCompute Q sol res ws).res_g sol.ux := by
  obtain ⟨h1, _, h3, _⟩ := qresCompute_val Q hwf sol res ws hws hc
  set L := linQp Q sol.ux with hL
  have e1 : pairV Q.inner.dim (qresCompute Q sol res ws).res_g sol.ux = pairV L.dim (fun k i => vG L sol (lamM L sol k) k i) sol.ux :=
    pairV_congr _ _ _ _ _ (fun k i hk hi => by rw [(h1 k hk).g i hi])
  have e2 : quadPair Q sol (fun k i => sol.ux k i - sol.ux k i) = 0 := by
    refine sum_eq_zero fun k _ => sum_eq_zero fun j _ => ?_
    simp [qForm, hqMul]
  have e3 : (qresCompute Q sol res ws).dual_gap = ∑ k ∈ range (L.dim.N + 1), vGap L sol k := h3
  have e4 : (qresCompute Q sol res ws).obj = (view L).objective (ptOf L.dim sol.ux) := qres_objective Q hwf sol res ws hws hc
  have e5 : (view L).lagrangian (ptOf Q.inner.dim sol.ux) (multOf Q.inner.dim sol) = _ := lagr_packed L sol sol.ux
  rw [qlagr_lin, e2, add_zero, e1, e3, e4, gap_packed, ← hL, e5, obj_pair, vG_pair L (linQp_wf Q hwf _) sol (lamM L sol) sol.ux]
  rw [pairE_add_right, pairC_add_right]
  ring

/-- **C82 (approximate gap bound).**  For a convex QCQP and nonnegative multipliers of the constraints that exist, no feasible
point `p` has an objective below `objective - gap + sum res_g*p`, whatever the residuals. -/
theorem qres_gap_approx (Q : Qcqp K) (hwf : Q.WF) (hm : Mask01 Q.inner) (hcv : (qview Q).Convex) (sol : Sol K)
    (res : Res K) (ws : QresWs K) (hws : ws.ws.Ok Q.inner) (hc : CacheCond Q sol ws)
    (hl : ∀ k j, k ≤ Q.base.dim.N → j < nct Q.inner.dim k → Q.base.d_mask k j ≠ 0 → 0 ≤ sol.lam k j)
    (p : Pt K) (hf : (qview Q).Feasible p) :
    (qresCompute Q sol res ws).obj - (qresCompute Q sol res ws).dual_gap +
      (∑ k ∈ range (Q.base.dim.N + 1), ∑ i ∈ range (Q.base.dim.nu k + Q.base.dim.nx k + 2 * Q.base.dim.ns k),
        (qresCompute Q sol res ws).res_g k i * packPt Q.inner.dim p k i) ≤ (qview Q).base.objective p := by
  set v := packPt Q.inner.dim p with hv
  have hag0 := packPt_agree Q.inner p
  have hag : Agree (qview Q).base (ptOf Q.inner.dim v) p := ⟨hag0.u, hag0.x, hag0.sl, hag0.su⟩
  rw [← objective_congr _ _ _ hag]
  have hf' := qfeasible_congr Q hwf _ _ hag hf
  have hst := qres_stationarity Q hwf sol res ws hws hc (fun k i => v k i - sol.ux k i)
  have e0 : (fun k i => sol.ux k i + (v k i - sol.ux k i)) = v := by funext k i; ring
  rw [e0] at hst
  have hq := hcv.base (ptOf Q.inner.dim (fun k i => v k i - sol.ux k i))
  have hlm : ∀ k j, k ≤ Q.base.dim.N → j < nct Q.inner.dim k → 0 ≤ Q.base.d_mask k j * sol.lam k j := by
    intro k j hk hj
    rcases hm k j hk hj with h | h
    · have h' : Q.base.d_mask k j = 0 := h
      simp [h']
    · have h' : Q.base.d_mask k j = 1 := h
      rw [h', one_mul]; exact hl k j hk hj (by rw [h']; exact one_ne_zero)
  have hn : ∀ k, nct Q.inner.dim k = 2 * Q.base.dim.nb k + 2 * (Q.base.dim.ng k + Q.nq k) + 2 * Q.base.dim.ns k := fun _ => rfl
  have h5 : ∀ k j, k ≤ (qview Q).base.N → j < (qview Q).nq k →
      0 ≤ (qview Q).uqMask k j * (multOf Q.inner.dim sol).up k ((qview Q).base.nb k + (qview Q).base.ng k + j) := by
    intro k j hk hj
    have hj' : j < Q.nq k := hj
    have hz := hlm k (2 * Q.base.dim.nb k + 2 * Q.base.dim.ng k + Q.nq k + j) hk (by rw [hn]; omega)
    have ei : Q.base.dim.nb k + (Q.base.dim.ng k + Q.nq k) + (Q.base.dim.nb k + Q.base.dim.ng k + j)
      = 2 * Q.base.dim.nb k + 2 * Q.base.dim.ng k + Q.nq k + j := by ring
    show 0 ≤ Q.base.d_mask k (2 * Q.base.dim.nb k + 2 * Q.base.dim.ng k + Q.nq k + j)
      * sol.lam k (Q.base.dim.nb k + (Q.base.dim.ng k + Q.nq k) + (Q.base.dim.nb k + Q.base.dim.ng k + j))
    rw [ei]; exact hz
  have hcurv : 0 ≤ (qview Q).curvature (multOf Q.inner.dim sol) (ptOf Q.inner.dim (fun k i => v k i - sol.ux k i)) := by
    refine sum_nonneg fun k hk => sum_nonneg fun j hj => ?_
    have hk : k ≤ (qview Q).base.N := by have := mem_range.mp hk; omega
    have hj := mem_range.mp hj
    by_cases hmz : (qview Q).uqMask k j = 0
    · rw [hmz]; simp
    · exact mul_nonneg (h5 k j hk hj) (hcv.quad k j hk hj hmz _)
  have hle : (qview Q).lagrangian (ptOf Q.inner.dim v) (multOf Q.inner.dim sol) ≤ (qview Q).base.objective (ptOf Q.inner.dim v) := by
    refine qlagrangian_le _ _ _ hf' ?_ ?_ ?_ ?_ h5
    · intro k j hk hj
      have hj' : j < Q.base.dim.nb k + Q.base.dim.ng k := hj
      have e : (qview Q).base.lowerMask k j = Q.base.d_mask k j :=
        view_lowerMask Q.inner k j (show j < Q.base.dim.nb k + (Q.base.dim.ng k + Q.nq k) by omega)
      rw [e]; exact hlm k j hk (by rw [hn]; omega)
    · intro k j hk hj
      have hj' : j < Q.base.dim.nb k + Q.base.dim.ng k := hj
      have e : (qview Q).base.upperMask k j = Q.base.d_mask k (Q.base.dim.nb k + (Q.base.dim.ng k + Q.nq k) + j) :=
        view_upperMask Q.inner k j (show j < Q.base.dim.nb k + (Q.base.dim.ng k + Q.nq k) by omega)
      rw [e]; exact hlm k _ hk (by rw [hn]; omega)
    · intro k s hk hs
      have hs' : s < Q.base.dim.ns k := hs
      have e : (qview Q).base.llsMask k s = Q.base.d_mask k (2 * (Q.base.dim.nb k + (Q.base.dim.ng k + Q.nq k)) + s) :=
        view_llsMask Q.inner k s hs
      rw [e]; exact hlm k _ hk (by rw [hn]; omega)
    · intro k s hk hs
      have hs' : s < Q.base.dim.ns k := hs
      have e : (qview Q).base.lusMask k s = Q.base.d_mask k (2 * (Q.base.dim.nb k + (Q.base.dim.ng k + Q.nq k)) + Q.base.dim.ns k + s) :=
        view_lusMask Q.inner k s hs
      rw [e]; exact hlm k _ hk (by rw [hn]; omega)
  have hL := qlagr_gap Q hwf sol res ws hws hc
  have hz : pairV Q.inner.dim (qresCompute Q sol res ws).res_g sol.ux =
      ∑ k ∈ range (Q.base.dim.N + 1), ∑ i ∈ range (Q.base.dim.nu k + Q.base.dim.nx k + 2 * Q.base.dim.ns k),
        (qresCompute Q sol res ws).res_g k i * sol.ux k i := rfl
  rw [hz] at hL
  simp only [mul_sub, sum_sub_distrib] at hst
  linarith

/-- **C82 (gap bound).**  For a convex QCQP and a point with zero stationarity residual and nonnegative multipliers of
the constraints that exist, objective minus reported gap bounds the objective of every feasible point from below. -/
theorem qres_gap_bound (Q : Qcqp K) (hwf : Q.WF) (hm : Mask01 Q.inner) (hcv : (qview Q).Convex) (sol : Sol K)
    (res : Res K) (ws : QresWs K) (hws : ws.ws.Ok Q.inner) (hc : CacheCond Q sol ws)
    (hg : ∀ k i, k ≤ Q.base.dim.N → i < Q.base.dim.nu k + Q.base.dim.nx k + 2 * Q.base.dim.ns k →
      (qresCompute Q sol res ws).res_g k i = 0)
    (hl : ∀ k j, k ≤ Q.base.dim.N → j < nct Q.inner.dim k → Q.base.d_mask k j ≠ 0 → 0 ≤ sol.lam k j)
    (p : Pt K) (hf : (qview Q).Feasible p) :
    (qresCompute Q sol res ws).obj - (qresCompute Q sol res ws).dual_gap ≤ (qview Q).base.objective p := by
  have h := qres_gap_approx Q hwf hm hcv sol res ws hws hc hl p hf
  have ez : (∑ k ∈ range (Q.base.dim.N + 1), ∑ i ∈ range (Q.base.dim.nu k + Q.base.dim.nx k + 2 * Q.base.dim.ns k),
      (qresCompute Q sol res ws).res_g k i * packPt Q.inner.dim p k i) = 0 := by
    apply sum_eq_zero; intro k hk; apply sum_eq_zero; intro i hi
    rw [hg k i (by have := mem_range.mp hk; omega) (mem_range.mp hi), zero_mul]
  rw [ez, add_zero] at h
  exact h

/-- **C82 (optimality).**  For a convex QCQP a point whose residuals at the constraints that exist are all zero (targets
`m` zero), with nonnegative multipliers and slacks of the present constraints, is a global optimum. -/
theorem qres_zero_optimal (Q : Qcqp K) (hwf : Q.WF) (hm : Mask01 Q.inner) (hcv : (qview Q).Convex) (sol : Sol K)
    (res : Res K) (ws : QresWs K) (hws : ws.ws.Ok Q.inner) (hc : CacheCond Q sol ws)
    (hg : ∀ k i, k ≤ Q.base.dim.N → i < Q.base.dim.nu k + Q.base.dim.nx k + 2 * Q.base.dim.ns k →
      (qresCompute Q sol res ws).res_g k i = 0)
    (hb : ∀ k i, k < Q.base.dim.N → i < Q.base.dim.nx (k + 1) → (qresCompute Q sol res ws).res_b k i = 0)
    (hd : ∀ k j, k ≤ Q.base.dim.N → j < nct Q.inner.dim k →
      ¬ (Q.base.dim.nb k + Q.base.dim.ng k ≤ j ∧ j < Q.base.dim.nb k + (Q.base.dim.ng k + Q.nq k)) →
      (qresCompute Q sol res ws).res_d k j = 0 ∧ (qresCompute Q sol res ws).res_m k j = 0 ∧ Q.base.m k j = 0)
    (hl : ∀ k j, k ≤ Q.base.dim.N → j < nct Q.inner.dim k → Q.base.d_mask k j ≠ 0 → 0 ≤ sol.lam k j ∧ 0 ≤ sol.t k j) :
    (qview Q).IsOptimal (ptOf Q.inner.dim sol.ux) := by
  have hn : ∀ k, nct Q.inner.dim k = 2 * Q.base.dim.nb k + 2 * (Q.base.dim.ng k + Q.nq k) + 2 * Q.base.dim.ns k := fun _ => rfl
  refine ⟨⟨⟨fun k i hk hi => ?_, fun k j hk hj hmj => ?_, fun k j hk hj hmj => ?_, fun k s hk hs hms => ?_,
    fun k s hk hs hms => ?_⟩, fun k j hk hj hmj => ?_⟩, fun p hp => ?_⟩
  · rw [← qres_dynamics Q hwf sol res ws hws hc k i hk hi]; exact hb k i hk hi
  · have hj' : j < Q.base.dim.nb k + Q.base.dim.ng k := hj
    have h := (qres_inequalities Q hwf sol res ws hws hc k hk).1 j hj
    rw [(hd k j hk (by rw [hn]; omega) (by omega)).1] at h
    have h' := (mul_eq_zero.mp h.symm).resolve_left hmj
    have e : (qview Q).base.lowerMask k j = Q.base.d_mask k j :=
        view_lowerMask Q.inner k j (show j < Q.base.dim.nb k + (Q.base.dim.ng k + Q.nq k) by omega)
    rw [e] at hmj
    linarith [(hl k j hk (by rw [hn]; omega) hmj).2]
  · have hj' : j < Q.base.dim.nb k + Q.base.dim.ng k := hj
    have h := (qres_inequalities Q hwf sol res ws hws hc k hk).2.1 j hj
    rw [(hd k _ hk (by rw [hn]; omega) (by omega)).1] at h
    have h' := (mul_eq_zero.mp h.symm).resolve_left hmj
    have e : (qview Q).base.upperMask k j = Q.base.d_mask k (Q.base.dim.nb k + (Q.base.dim.ng k + Q.nq k) + j) :=
        view_upperMask Q.inner k j (show j < Q.base.dim.nb k + (Q.base.dim.ng k + Q.nq k) by omega)
    rw [e] at hmj
    linarith [(hl k _ hk (by rw [hn]; omega) hmj).2]
  · have hs' : s < Q.base.dim.ns k := hs
    have h := (qres_inequalities Q hwf sol res ws hws hc k hk).2.2.2.1 s hs
    rw [(hd k _ hk (by rw [hn]; omega) (by omega)).1] at h
    have h' := (mul_eq_zero.mp h.symm).resolve_left hms
    have e : (qview Q).base.llsMask k s = Q.base.d_mask k (2 * (Q.base.dim.nb k + (Q.base.dim.ng k + Q.nq k)) + s) :=
        view_llsMask Q.inner k s hs
    rw [e] at hms
    linarith [(hl k _ hk (by rw [hn]; omega) hms).2]
  · have hs' : s < Q.base.dim.ns k := hs
    have h := (qres_inequalities Q hwf sol res ws hws hc k hk).2.2.2.2 s hs
    rw [(hd k _ hk (by rw [hn]; omega) (by omega)).1] at h
    have h' := (mul_eq_zero.mp h.symm).resolve_left hms
    have e : (qview Q).base.lusMask k s = Q.base.d_mask k (2 * (Q.base.dim.nb k + (Q.base.dim.ng k + Q.nq k)) + Q.base.dim.ns k + s) :=
        view_lusMask Q.inner k s hs
    rw [e] at hms
    linarith [(hl k _ hk (by rw [hn]; omega) hms).2]
  · have hj' : j < Q.nq k := hj
    have h := (qres_inequalities Q hwf sol res ws hws hc k hk).2.2.1 j hj
    rw [(hd k _ hk (by rw [hn]; omega) (by omega)).1] at h
    have h' := (mul_eq_zero.mp h.symm).resolve_left hmj
    have ei : Q.base.dim.nb k + (Q.base.dim.ng k + Q.nq k) + (Q.base.dim.nb k + Q.base.dim.ng k) + j
      = 2 * Q.base.dim.nb k + 2 * Q.base.dim.ng k + Q.nq k + j := by ring
    rw [ei] at h'
    have e : (qview Q).uqMask k j = Q.base.d_mask k (2 * Q.base.dim.nb k + 2 * Q.base.dim.ng k + Q.nq k + j) := rfl
    rw [e] at hmj
    linarith [(hl k _ hk (by rw [hn]; omega) hmj).2]
  · have hb' := qres_gap_bound Q hwf hm hcv sol res ws hws hc hg (fun k j hk hj h => (hl k j hk hj h).1) p hp
    have hgap : (qresCompute Q sol res ws).dual_gap = 0 := by
      rw [qres_dual_gap Q hwf hm sol res ws hws hc]
      have z1 : pairV Q.inner.dim (qresCompute Q sol res ws).res_g sol.ux = 0 := by
        apply sum_eq_zero; intro k hk; apply sum_eq_zero; intro i hi
        have hk' : k ≤ Q.base.dim.N := by have : k < Q.base.dim.N + 1 := mem_range.mp hk; omega
        rw [hg k i hk' (mem_range.mp hi), zero_mul]
      have z2 : pairE Q.inner.dim sol.pi (qresCompute Q sol res ws).res_b = 0 := by
        apply sum_eq_zero; intro k hk; apply sum_eq_zero; intro i hi
        rw [hb k i (mem_range.mp hk) (mem_range.mp hi), mul_zero]
      have z3 : pairC Q.inner.dim (qlam Q sol) (qresCompute Q sol res ws).res_d = 0 := by
        apply sum_eq_zero; intro k hk; apply sum_eq_zero; intro j hj
        have hk' : k ≤ Q.base.dim.N := by have : k < Q.base.dim.N + 1 := mem_range.mp hk; omega
        simp only [qlam]
        split_ifs with hlo
        · rw [zero_mul]
        · rw [(hd k j hk' (mem_range.mp hj) hlo).1, mul_zero]
      have z4 : pairC Q.inner.dim (qlam Q sol) sol.t = 0 := by
        apply sum_eq_zero; intro k hk; apply sum_eq_zero; intro j hj
        have hk' : k ≤ Q.base.dim.N := by have : k < Q.base.dim.N + 1 := mem_range.mp hk; omega
        have hj' := mem_range.mp hj
        simp only [qlam]
        split_ifs with hlo
        · rw [zero_mul]
        · have h := qres_complementarity Q hwf hm sol res ws hws hc k j hk' hj' hlo
          rw [(hd k j hk' hj' hlo).2.1, (hd k j hk' hj' hlo).2.2] at h
          by_cases h0 : Q.base.d_mask k j = 0
          · rw [h0]; simp
          · rw [if_neg h0, sub_zero] at h
            rw [mul_assoc, ← h, mul_zero]
      rw [z1, z2, z3, z4]; ring
    rw [hgap, sub_zero, qres_objective Q hwf sol res ws hws hc] at hb'
    exact hb'

/-- **C82 (caching).**  The residuals computed from the cached values of the quadratic constraints are those computed
from scratch, if the caches belong to the point. -/
theorem qres_cached (Q : Qcqp K) (hwf : Q.WF) (sol : Sol K) (res res' : Res K) (ws ws' : QresWs K)
    (hws : ws.ws.Ok Q.inner) (hws' : ws'.ws.Ok Q.inner) (hc : CacheOk Q sol ws)
    (hu : ws'.use_q_fun = false ∨ ws'.use_q_adj = false) :
    let r := qresCompute Q sol res ws
    let r' := qresCompute Q sol res' ws'
    (∀ k, k ≤ Q.base.dim.N →
      (∀ i, i < nvt Q.inner.dim k → r.res_g k i = r'.res_g k i) ∧
      (k < Q.base.dim.N → ∀ i, i < Q.base.dim.nx (k + 1) → r.res_b k i = r'.res_b k i) ∧
      (∀ j, j < nct Q.inner.dim k → r.res_d k j = r'.res_d k j ∧ r.res_m k j = r'.res_m k j)) ∧
    r.obj = r'.obj ∧ r.dual_gap = r'.dual_gap ∧ r.res_mu_sum = r'.res_mu_sum := by
  intro r r'
  have hc' : CacheCond Q sol ws' := by
    intro h
    rcases hu with h0 | h0 <;> rw [h0] at h <;> simp at h
  obtain ⟨a1, a2, a3, a4, _⟩ := qresCompute_val Q hwf sol res ws hws (fun _ => hc)
  obtain ⟨b1, b2, b3, b4, _⟩ := qresCompute_val Q hwf sol res' ws' hws' hc'
  refine ⟨fun k hk => ⟨fun i hi => ?_, fun hN i hi => ?_, fun j hj => ⟨?_, ?_⟩⟩, a2.trans b2.symm, a3.trans b3.symm, a4.trans b4.symm⟩
  · exact ((a1 k hk).g i hi).trans ((b1 k hk).g i hi).symm
  · exact ((a1 k hk).b hN i hi).trans ((b1 k hk).b hN i hi).symm
  · exact ((a1 k hk).d j hj).trans ((b1 k hk).d j hj).symm
  · exact ((a1 k hk).m j hj).trans ((b1 k hk).m j hj).symm

/-- **C82 (complementarity sum).**  `res_mu_sum` is the sum of slack times multiplier over the constraints that exist
and `res_mu` that sum divided by the number of mask entries equal to one — which includes those of the lower sides of
the quadratic constraints, if they have not been zeroed. -/
theorem qres_mu (Q : Qcqp K) (hwf : Q.WF) (sol : Sol K) (res : Res K) (ws : QresWs K)
    (hv : ws.ws.valid_nc_mask = false) (hc : CacheCond Q sol ws) :
    let r := qresCompute Q sol res ws
    r.res_mu_sum = (∑ k ∈ range (Q.base.dim.N + 1), ∑ j ∈ range (nct Q.inner.dim k), qlam Q sol k j * sol.t k j) ∧
    r.res_mu = r.res_mu_sum * ((∑ k ∈ range (Q.base.dim.N + 1), ∑ j ∈ range (nct Q.inner.dim k),
      if Q.base.d_mask k j = 1 then 1 else 0 : ℕ) : K)⁻¹ := by
  intro r
  obtain ⟨_, _, _, h4, h5⟩ := qresCompute_val Q hwf sol res ws (fun h => by rw [hv] at h; cases h) hc
  refine ⟨?_, ?_⟩
  · rw [show r.res_mu_sum = _ from h4]
    exact sum_congr rfl fun k _ => sum_congr rfl fun j _ => by rw [qlam_eq]
  · rw [show r.res_mu = _ from h5]
    congr 1
    simp only [maskSel, hv, Bool.false_eq_true, if_false]
    have e := (countMask_val Q.inner.dim Q.inner.d_mask).2
    have e' : (∑ k ∈ range (Q.base.dim.N + 1), ∑ j ∈ range (nct Q.inner.dim k), if Q.base.d_mask k j = 1 then 1 else 0 : ℕ)
      = (countMask Q.inner.dim Q.inner.d_mask).1 := e.symm
    rw [e']
    split_ifs with hpos
    · rw [one_div]
    · have : (countMask Q.inner.dim Q.inner.d_mask).1 = 0 := by omega
      rw [this]; simp

end
end Hpipm
