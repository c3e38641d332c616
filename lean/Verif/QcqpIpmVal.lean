/-
What the QP in the workspace of the QCQP solver holds after OCP_QCQP_APPROX_QP and OCP_QCQP_UPDATE_QP.
-/
import Verif.QcqpIpm
import Verif.QcqpProps

namespace Hpipm
open Finset
set_option linter.unusedSectionVars false

section
variable {K : Type*} [Field K] [LinearOrder K] [IsStrictOrderedRing K]

/-- weight of quadratic constraint `j` of stage `k` in the Hessian of the QP -/
def qw (Q : Qcqp K) (lam : Vec K) (k j : ℕ) : K :=
  -lam (Q.base.dim.nb k + Q.base.dim.ng k + j) + lam (2 * Q.base.dim.nb k + 2 * Q.base.dim.ng k + Q.nq k + j)

/-- what the loop over the quadratic constraints of stage `k` leaves -/
structure QapVal (Q : Qcqp K) (k : ℕ) (ux lam : Vec K) (s r : QapSt K) : Prop where
  H : ∀ i l, i < Q.base.dim.nu k + Q.base.dim.nx k → l < Q.base.dim.nu k + Q.base.dim.nx k →
    r.H i l = s.H i l + ∑ j ∈ range (Q.nq k), qw Q lam k j * Q.Hq k j i l
  Hout : ∀ i l, ¬ (i < Q.base.dim.nu k + Q.base.dim.nx k ∧ l < Q.base.dim.nu k + Q.base.dim.nx k) → r.H i l = s.H i l
  C : ∀ i j, i < Q.base.dim.nu k + Q.base.dim.nx k → j < Q.nq k →
    r.DCt i (Q.base.dim.ng k + j) = Q.base.DCt k i (Q.base.dim.ng k + j) + hqMul Q k j ux i
  Cout : ∀ i l, ¬ (Q.base.dim.ng k ≤ l ∧ l < Q.base.dim.ng k + Q.nq k) → r.DCt i l = s.DCt i l
  adj : ∀ i, i < Q.base.dim.nu k + Q.base.dim.nx k → r.adj i = s.adj i + ∑ j ∈ range (Q.nq k),
    qw Q lam k j * (hqMul Q k j ux i + Q.base.DCt k i (Q.base.dim.ng k + j))
  f : ∀ j, j < Q.nq k → r.f j = qVal Q k j ux
  dlo : ∀ j, j < Q.nq k → r.d (Q.base.dim.nb k + Q.base.dim.ng k + j) =
    s.d (Q.base.dim.nb k + Q.base.dim.ng k + j) - qVal Q k j ux
  dup : ∀ j, j < Q.nq k → r.d (2 * Q.base.dim.nb k + 2 * Q.base.dim.ng k + Q.nq k + j) =
    s.d (2 * Q.base.dim.nb k + 2 * Q.base.dim.ng k + Q.nq k + j) + qVal Q k j ux
  dout : ∀ j, ¬ LoQ Q k j → ¬ UpQ Q k j → r.d j = s.d j

theorem qapLoop_val (Q : Qcqp K) (k : ℕ) (ux lam : Vec K) (s : QapSt K) :
    QapVal Q k ux lam s (qapLoop (Q.base.dim.nu k + Q.base.dim.nx k) (Q.base.dim.nb k) (Q.base.dim.ng k) (Q.nq k) (Q.Hq k)
      (Q.base.DCt k) ux lam s) := by
  have key := loop_inv (S := QapSt K) (fun n (r : QapSt K) => n ≤ Q.nq k →
    (∀ i l, i < Q.base.dim.nu k + Q.base.dim.nx k → l < Q.base.dim.nu k + Q.base.dim.nx k →
      r.H i l = s.H i l + ∑ j ∈ range n, qw Q lam k j * Q.Hq k j i l) ∧
    (∀ i l, ¬ (i < Q.base.dim.nu k + Q.base.dim.nx k ∧ l < Q.base.dim.nu k + Q.base.dim.nx k) → r.H i l = s.H i l) ∧
    (∀ i j, i < Q.base.dim.nu k + Q.base.dim.nx k → j < n →
      r.DCt i (Q.base.dim.ng k + j) = Q.base.DCt k i (Q.base.dim.ng k + j) + hqMul Q k j ux i) ∧
    (∀ i l, ¬ (Q.base.dim.ng k ≤ l ∧ l < Q.base.dim.ng k + n) → r.DCt i l = s.DCt i l) ∧
    (∀ i, i < Q.base.dim.nu k + Q.base.dim.nx k → r.adj i = s.adj i + ∑ j ∈ range n,
      qw Q lam k j * (hqMul Q k j ux i + Q.base.DCt k i (Q.base.dim.ng k + j))) ∧
    (∀ j, j < n → r.f j = qVal Q k j ux) ∧
    (∀ j, j < n → r.d (Q.base.dim.nb k + Q.base.dim.ng k + j) =
      s.d (Q.base.dim.nb k + Q.base.dim.ng k + j) - qVal Q k j ux) ∧
    (∀ j, j < n → r.d (2 * Q.base.dim.nb k + 2 * Q.base.dim.ng k + Q.nq k + j) =
      s.d (2 * Q.base.dim.nb k + 2 * Q.base.dim.ng k + Q.nq k + j) + qVal Q k j ux) ∧
    (∀ l, ¬ (Q.base.dim.nb k + Q.base.dim.ng k ≤ l ∧ l < Q.base.dim.nb k + Q.base.dim.ng k + n) →
      ¬ (2 * Q.base.dim.nb k + 2 * Q.base.dim.ng k + Q.nq k ≤ l ∧ l < 2 * Q.base.dim.nb k + 2 * Q.base.dim.ng k + Q.nq k + n) →
      r.d l = s.d l)) (Q.nq k)
    (qapStep (Q.base.dim.nu k + Q.base.dim.nx k) (Q.base.dim.nb k) (Q.base.dim.ng k) (Q.nq k) (Q.Hq k) (Q.base.DCt k) ux lam) s
    (fun _ => ⟨fun i l _ _ => by simp, fun i l _ => rfl, fun i j _ h => by omega, fun i l _ => rfl, fun i _ => by simp,
      fun j h => by omega, fun j h => by omega, fun j h => by omega, fun j _ _ => rfl⟩) (by
    intro n r hn ih hn1
    obtain ⟨h1, h2, h3, h4, h5, h6, h7, h8, h9⟩ := ih (by omega)
    have ha : ∀ z : Vec K, ∀ i, i < Q.base.dim.nu k + Q.base.dim.nx k →
        symv_l (Q.base.dim.nu k + Q.base.dim.nx k) 1 (Q.Hq k n) 0 0 ux 0 0 z 0 z 0 i = hqMul Q k n ux i := by
      intro z i hi
      unfold symv_l
      rw [if_pos (by omega)]
      simp only [Nat.sub_zero, Nat.zero_add, hqMul]; ring
    have hc : ∀ z : Vec K, ∀ i, i < Q.base.dim.nu k + Q.base.dim.nx k →
        colex (Q.base.dim.nu k + Q.base.dim.nx k) (Q.base.DCt k) 0 (Q.base.dim.ng k + n) z 0 i = Q.base.DCt k i (Q.base.dim.ng k + n) := by
      intro z i hi
      unfold colex
      rw [if_pos (by omega)]
      simp only [Nat.sub_zero, Nat.zero_add]
    have hq : ∀ y z w : Vec K, dot (Q.base.dim.nu k + Q.base.dim.nx k)
        (axpy (Q.base.dim.nu k + Q.base.dim.nx k) (1 / 2)
          (symv_l (Q.base.dim.nu k + Q.base.dim.nx k) 1 (Q.Hq k n) 0 0 ux 0 0 y 0 y 0) 0
          (colex (Q.base.dim.nu k + Q.base.dim.nx k) (Q.base.DCt k) 0 (Q.base.dim.ng k + n) z 0) 0 w 0) 0 ux 0 = qVal Q k n ux := by
      intro y z w
      unfold dot qVal qForm
      rw [mul_sum, ← sum_add_distrib]
      apply sum_congr rfl
      intro i hi
      have hi := mem_range.mp hi
      rw [axpy_in (by omega)]
      simp only [Nat.sub_zero, Nat.zero_add]
      rw [ha y i hi, hc z i hi]; ring
    refine ⟨fun i l hi hl => ?_, fun i l h => ?_, fun i j hi hj => ?_, fun i l h => ?_, fun i hi => ?_, fun j hj => ?_,
      fun j hj => ?_, fun j hj => ?_, fun l hl hu => ?_⟩
    · show gead _ _ _ _ _ _ _ _ _ i l = _
      unfold gead
      rw [if_pos (by omega), h1 i l hi hl, sum_range_succ]
      simp only [Nat.sub_zero, Nat.zero_add, qw]; ring
    · show gead _ _ _ _ _ _ _ _ _ i l = _
      unfold gead
      rw [if_neg (by omega), h2 i l h]
    · show colin _ _ _ _ _ _ i _ = _
      unfold colin
      by_cases e : j = n
      · subst e
        rw [if_pos (by omega), axpy_in (by omega)]
        simp only [Nat.sub_zero, Nat.zero_add]
        rw [hc _ i hi, ha _ i hi]; ring
      · rw [if_neg (by omega)]; exact h3 i j hi (by omega)
    · show colin _ _ _ _ _ _ i _ = _
      unfold colin
      rw [if_neg (by omega)]; exact h4 i l (by omega)
    · show axpy _ _ _ _ _ _ _ _ i = _
      rw [axpy_in (by omega), sum_range_succ]
      simp only [Nat.sub_zero, Nat.zero_add]
      rw [axpy_in (by omega)]
      simp only [Nat.sub_zero, Nat.zero_add]
      rw [hc _ i hi, ha _ i hi, h5 i hi]
      simp only [qw]; ring
    · show upd r.f n _ j = _
      by_cases e : j = n
      · subst e; rw [upd_same]; exact hq _ _ _
      · rw [upd_ne _ _ e]; exact h6 j (by omega)
    · show upd (upd r.d _ _) _ _ _ = _
      rw [upd_ne _ _ (by omega)]
      by_cases e : j = n
      · subst e
        rw [upd_same, hq, h9 _ (by omega) (by omega)]; ring
      · rw [upd_ne _ _ (by omega)]; exact h7 j (by omega)
    · show upd (upd r.d _ _) _ _ _ = _
      by_cases e : j = n
      · subst e
        rw [upd_same, upd_ne _ _ (by omega), hq, h9 _ (by omega) (by omega)]
      · rw [upd_ne _ _ (by omega), upd_ne _ _ (by omega)]; exact h8 j (by omega)
    · show upd (upd r.d _ _) _ _ _ = _
      rw [upd_ne _ _ (by omega), upd_ne _ _ (by omega)]; exact h9 l (by omega) (by omega)) le_rfl
  obtain ⟨h1, h2, h3, h4, h5, h6, h7, h8, h9⟩ := key
  exact ⟨h1, h2, h3, h4, h5, h6, h7, h8, fun j hl hu => h9 j (by unfold LoQ at hl; omega) (by unfold UpQ at hu; omega)⟩

theorem veccp_lt {α : Type*} (n : ℕ) (x y : ℕ → α) (j : ℕ) (hj : j < n) : veccp n x 0 y 0 j = x j := by
  unfold veccp
  rw [if_pos (by omega)]; simp only [Nat.sub_zero, Nat.zero_add]

/-- what a stage of the QP and of the caches holds after the re-linearisation at `sol` -/
structure QapStage (Q : Qcqp K) (sol : Sol K) (k : ℕ) (qp : OcpQp K) (rws : QresWs K) : Prop where
  H : ∀ i l, i < Q.base.dim.nu k + Q.base.dim.nx k → l < Q.base.dim.nu k + Q.base.dim.nx k →
    qp.RSQrq k i l = Q.base.RSQrq k i l + ∑ j ∈ range (Q.nq k), qw Q (sol.lam k) k j * Q.Hq k j i l
  g : ∀ l, l < Q.base.dim.nu k + Q.base.dim.nx k →
    qp.RSQrq k (Q.base.dim.nu k + Q.base.dim.nx k) l = Q.base.RSQrq k (Q.base.dim.nu k + Q.base.dim.nx k) l
  C : ∀ i j, i < Q.base.dim.nu k + Q.base.dim.nx k → j < Q.nq k →
    qp.DCt k i (Q.base.dim.ng k + j) = Q.base.DCt k i (Q.base.dim.ng k + j) + hqMul Q k j (sol.ux k) i
  d : ∀ j, j < nct Q.inner.dim k → qp.d k j =
    if LoQ Q k j then Q.base.d k j - qVal Q k (j - (Q.base.dim.nb k + Q.base.dim.ng k)) (sol.ux k)
    else if UpQ Q k j then
      Q.base.d k j + qVal Q k (j - (2 * Q.base.dim.nb k + 2 * Q.base.dim.ng k + Q.nq k)) (sol.ux k)
    else Q.base.d k j
  f : ∀ j, j < Q.nq k → rws.q_fun k j = qVal Q k j (sol.ux k)
  adj : ∀ i, i < Q.base.dim.nu k + Q.base.dim.nx k → rws.q_adj k i = ∑ j ∈ range (Q.nq k),
    qw Q (sol.lam k) k j * (hqMul Q k j (sol.ux k) i + Q.base.DCt k i (Q.base.dim.ng k + j))

theorem QapStage.congr {Q : Qcqp K} {sol : Sol K} {k : ℕ} {qp qp' : OcpQp K} {rws rws' : QresWs K}
    (h : QapStage Q sol k qp rws) (e1 : qp'.RSQrq k = qp.RSQrq k)
    (e2 : ∀ i j, i < Q.base.dim.nu k + Q.base.dim.nx k → j < Q.nq k →
      qp'.DCt k i (Q.base.dim.ng k + j) = qp.DCt k i (Q.base.dim.ng k + j))
    (e3 : qp'.d k = qp.d k) (e4 : rws'.q_fun k = rws.q_fun k) (e5 : rws'.q_adj k = rws.q_adj k) :
    QapStage Q sol k qp' rws' := by
  refine ⟨?_, ?_, ?_, ?_, ?_, ?_⟩
  · intro i l hi hl; rw [e1]; exact h.H i l hi hl
  · intro l hl; rw [e1]; exact h.g l hl
  · intro i j hi hj; rw [e2 i j hi hj]; exact h.C i j hi hj
  · intro j hj; rw [e3]; exact h.d j hj
  · intro j hj; rw [e4]; exact h.f j hj
  · intro i hi; rw [e5]; exact h.adj i hi

theorem quadStage_val (Q : Qcqp K) (sol : Sol K) (k : ℕ) (st : QwSt K) :
    QapStage Q sol k (quadStage Q sol k st).qp (quadStage Q sol k st).rws ∧
    (∀ i l, ¬ (Q.base.dim.ng k ≤ l ∧ l < Q.base.dim.ng k + Q.nq k) → (quadStage Q sol k st).qp.DCt k i l = st.qp.DCt k i l) := by
  have hv := qapLoop_val Q k (sol.ux k) (sol.lam k)
    { H := gecp (Q.base.dim.nu k + Q.base.dim.nx k + 1) (Q.base.dim.nu k + Q.base.dim.nx k) (Q.base.RSQrq k) 0 0 (st.qp.RSQrq k) 0 0
      DCt := st.qp.DCt k
      d := veccp (nct Q.inner.dim k) (Q.base.d k) 0 (st.qp.d k) 0
      adj := vecse (Q.base.dim.nu k + Q.base.dim.nx k) 0 (st.rws.q_adj k) 0
      f := st.rws.q_fun k
      nux0 := st.nux0
      nux1 := st.nux1 }
  have hn : nct Q.inner.dim k = 2 * Q.base.dim.nb k + 2 * (Q.base.dim.ng k + Q.nq k) + 2 * Q.base.dim.ns k := rfl
  refine ⟨⟨?_, ?_, ?_, ?_, ?_, ?_⟩, ?_⟩
  · intro i l hi hl
    simp only [quadStage, upd_same]
    rw [hv.H i l hi hl]
    show gecp _ _ _ _ _ _ _ _ i l + _ = _
    unfold gecp
    rw [if_pos (by omega)]
    simp only [Nat.sub_zero, Nat.zero_add]
  · intro l hl
    simp only [quadStage, upd_same]
    rw [hv.Hout _ l (by omega)]
    show gecp _ _ _ _ _ _ _ _ _ l = _
    unfold gecp
    rw [if_pos (by omega)]
    simp only [Nat.sub_zero, Nat.zero_add]
  · intro i j hi hj
    simp only [quadStage, upd_same]
    exact hv.C i j hi hj
  · intro j hj
    simp only [quadStage, upd_same]
    have hb : veccp (nct Q.inner.dim k) (Q.base.d k) 0 (st.qp.d k) 0 j = Q.base.d k j := by
      rw [veccp_in (by omega)]; simp only [Nat.sub_zero, Nat.zero_add]
    by_cases h1 : LoQ Q k j
    · have h1' := h1
      unfold LoQ at h1'
      rw [if_pos h1]
      have := hv.dlo (j - (Q.base.dim.nb k + Q.base.dim.ng k)) (by omega)
      rw [show Q.base.dim.nb k + Q.base.dim.ng k + (j - (Q.base.dim.nb k + Q.base.dim.ng k)) = j by omega] at this
      rw [this]; show veccp _ _ _ _ _ _ - _ = _; rw [hb]
    · rw [if_neg h1]
      by_cases h2 : UpQ Q k j
      · have h2' := h2
        unfold UpQ at h2'
        rw [if_pos h2]
        have := hv.dup (j - (2 * Q.base.dim.nb k + 2 * Q.base.dim.ng k + Q.nq k)) (by omega)
        rw [show 2 * Q.base.dim.nb k + 2 * Q.base.dim.ng k + Q.nq k + (j - (2 * Q.base.dim.nb k + 2 * Q.base.dim.ng k + Q.nq k)) = j by omega] at this
        rw [this]; show veccp _ _ _ _ _ _ + _ = _; rw [hb]
      · rw [if_neg h2, hv.dout j h1 h2]; exact hb
  · intro j hj
    simp only [quadStage, upd_same]
    exact hv.f j hj
  · intro i hi
    simp only [quadStage, upd_same]
    rw [hv.adj i hi]
    show vecse _ _ _ _ _ + _ = _
    unfold vecse
    rw [if_pos (by omega), zero_add]
  · intro i l hl
    simp only [quadStage, upd_same]
    exact hv.Cout i l hl

/-- a stage is not changed by the treatment of another one -/
theorem quadStage_ne (Q : Qcqp K) (sol : Sol K) (k ii : ℕ) (h : k ≠ ii) (st : QwSt K) :
    (quadStage Q sol ii st).qp.RSQrq k = st.qp.RSQrq k ∧ (quadStage Q sol ii st).qp.DCt k = st.qp.DCt k ∧
    (quadStage Q sol ii st).qp.d k = st.qp.d k ∧ (quadStage Q sol ii st).rws.q_fun k = st.rws.q_fun k ∧
    (quadStage Q sol ii st).rws.q_adj k = st.rws.q_adj k := by
  simp only [quadStage, upd_ne _ _ h, and_self]

/-- what the QP holds that does not depend on the iterate -/
structure QpFix (Q : Qcqp K) (qp : OcpQp K) : Prop where
  dim : qp.dim = Q.inner.dim
  C : ∀ k, k ≤ Q.base.dim.N → ∀ i l, i < Q.base.dim.nu k + Q.base.dim.nx k → l < Q.base.dim.ng k → qp.DCt k i l = Q.base.DCt k i l
  mask : ∀ k, k ≤ Q.base.dim.N → ∀ j, j < nct Q.inner.dim k → qp.d_mask k j = Q.base.d_mask k j
  m : ∀ k, k ≤ Q.base.dim.N → ∀ j, j < nct Q.inner.dim k → qp.m k j = Q.base.m k j
  Z : ∀ k, k ≤ Q.base.dim.N → ∀ j, j < 2 * Q.base.dim.ns k → qp.Z k j = Q.base.Z k j
  idxb : ∀ k, k ≤ Q.base.dim.N → ∀ j, j < Q.base.dim.nb k → qp.idxb k j = Q.base.idxb k j
  idxs : ∀ k, k ≤ Q.base.dim.N → ∀ j, j < Q.base.dim.nb k + (Q.base.dim.ng k + Q.nq k) → qp.idxs_rev k j = Q.base.idxs_rev k j
  A : ∀ k, k < Q.base.dim.N → ∀ i l, i < Q.base.dim.nu k + Q.base.dim.nx k + 1 → l < Q.base.dim.nx (k + 1) →
    qp.BAbt k i l = Q.base.BAbt k i l
  b : ∀ k, k < Q.base.dim.N → ∀ l, l < Q.base.dim.nx (k + 1) → qp.b k l = Q.base.b k l

/-- the QP and the caches are those of the iterate `sol` -/
structure QpApprox (Q : Qcqp K) (sol : Sol K) (qp : OcpQp K) (rws : QresWs K) : Prop where
  fix : QpFix Q qp
  stage : ∀ k, k ≤ Q.base.dim.N → QapStage Q sol k qp rws

theorem approxQp_val (Q : Qcqp K) (sol : Sol K) (st : QwSt K) (hd : st.qp.dim = Q.inner.dim) :
    QpApprox Q sol (approxQp Q sol st).qp (approxQp Q sol st).rws := by
  let F := fun (ii : ℕ) (st : QwSt K) =>
    let st := quadStage Q sol ii st
    let n := nct Q.inner.dim ii
    let nv := Q.base.dim.nu ii + Q.base.dim.nx ii
    ({ st with qp := { st.qp with
      d_mask := upd st.qp.d_mask ii (veccp n (Q.base.d_mask ii) 0 (st.qp.d_mask ii) 0)
      DCt := upd st.qp.DCt ii (gecp nv (Q.base.dim.ng ii) (Q.base.DCt ii) 0 0 (st.qp.DCt ii) 0 0)
      rqz := putRqz0 Q.inner.dim (nv + 2 * Q.base.dim.ns ii) (Q.base.rqz ii) st.qp.rqz
      m := upd st.qp.m ii (veccp n (Q.base.m ii) 0 (st.qp.m ii) 0)
      Z := upd st.qp.Z ii (veccp (2 * Q.base.dim.ns ii) (Q.base.Z ii) 0 (st.qp.Z ii) 0)
      idxb := upd st.qp.idxb ii (veccp (Q.base.dim.nb ii) (Q.base.idxb ii) 0 (st.qp.idxb ii) 0)
      idxs_rev := upd st.qp.idxs_rev ii (veccp (Q.base.dim.nb ii + (Q.base.dim.ng ii + Q.nq ii)) (Q.base.idxs_rev ii) 0 (st.qp.idxs_rev ii) 0) } } : QwSt K)
  have h1 := loop_inv (S := QwSt K) (fun n (s : QwSt K) => s.qp.dim = Q.inner.dim ∧ ∀ k, k < n →
    QapStage Q sol k s.qp s.rws ∧
    (∀ i l, i < Q.base.dim.nu k + Q.base.dim.nx k → l < Q.base.dim.ng k → s.qp.DCt k i l = Q.base.DCt k i l) ∧
    (∀ j, j < nct Q.inner.dim k → s.qp.d_mask k j = Q.base.d_mask k j) ∧
    (∀ j, j < nct Q.inner.dim k → s.qp.m k j = Q.base.m k j) ∧
    (∀ j, j < 2 * Q.base.dim.ns k → s.qp.Z k j = Q.base.Z k j) ∧
    (∀ j, j < Q.base.dim.nb k → s.qp.idxb k j = Q.base.idxb k j) ∧
    (∀ j, j < Q.base.dim.nb k + (Q.base.dim.ng k + Q.nq k) → s.qp.idxs_rev k j = Q.base.idxs_rev k j))
    (Q.base.dim.N + 1) F st ⟨hd, fun k hk => by omega⟩ (by
    intro n s _ ⟨i0, ih⟩
    refine ⟨i0, fun k hk => ?_⟩
    by_cases e : k = n
    · subst e
      obtain ⟨g1, g2⟩ := quadStage_val Q sol k s
      refine ⟨g1.congr rfl ?_ rfl rfl rfl, ?_, ?_, ?_, ?_, ?_, ?_⟩
      · intro i j hi hj
        simp only [F, upd_same]
        unfold gecp
        rw [if_neg (by omega)]
      · intro i l hi hl
        simp only [F, upd_same]
        unfold gecp
        rw [if_pos (by omega)]
        simp only [Nat.sub_zero, Nat.zero_add]
      all_goals
        intro j hj
        simp only [F, upd_same]
        exact veccp_lt _ _ _ _ hj
    · obtain ⟨a1, a2, a3, a4, a5, a6, a7⟩ := ih k (by omega)
      obtain ⟨b1, b2, b3, b4, b5⟩ := quadStage_ne Q sol k n e s
      refine ⟨a1.congr b1 ?_ b3 b4 b5, ?_, ?_, ?_, ?_, ?_, ?_⟩
      · intro i j _ _
        simp only [F, upd_ne _ _ e]
        rw [b2]
      · intro i l hi hl
        simp only [F, upd_ne _ _ e]
        rw [b2]; exact a2 i l hi hl
      · intro j hj; simp only [F, upd_ne _ _ e]; exact a3 j hj
      · intro j hj; simp only [F, upd_ne _ _ e]; exact a4 j hj
      · intro j hj; simp only [F, upd_ne _ _ e]; exact a5 j hj
      · intro j hj; simp only [F, upd_ne _ _ e]; exact a6 j hj
      · intro j hj; simp only [F, upd_ne _ _ e]; exact a7 j hj)
  have hst : approxQp Q sol st = loop Q.base.dim.N (fun ii st =>
    ({ st with qp := { st.qp with
      BAbt := upd st.qp.BAbt ii (gecp (Q.base.dim.nu ii + Q.base.dim.nx ii + 1) (Q.base.dim.nx (ii + 1)) (Q.base.BAbt ii) 0 0 (st.qp.BAbt ii) 0 0)
      b := upd st.qp.b ii (veccp (Q.base.dim.nx (ii + 1)) (Q.base.b ii) 0 (st.qp.b ii) 0) } } : QwSt K)) (loop (Q.base.dim.N + 1) F st) := rfl
  rw [hst]
  generalize loop (Q.base.dim.N + 1) F st = s1 at h1
  have h2 := loop_inv (S := QwSt K) (fun n (s : QwSt K) => s.qp.dim = s1.qp.dim ∧ s.qp.DCt = s1.qp.DCt ∧ s.qp.d_mask = s1.qp.d_mask ∧
    s.qp.m = s1.qp.m ∧ s.qp.Z = s1.qp.Z ∧ s.qp.idxb = s1.qp.idxb ∧ s.qp.idxs_rev = s1.qp.idxs_rev ∧ s.qp.RSQrq = s1.qp.RSQrq ∧
    s.qp.d = s1.qp.d ∧ s.rws = s1.rws ∧ ∀ k, k < n →
    (∀ i l, i < Q.base.dim.nu k + Q.base.dim.nx k + 1 → l < Q.base.dim.nx (k + 1) → s.qp.BAbt k i l = Q.base.BAbt k i l) ∧
    (∀ l, l < Q.base.dim.nx (k + 1) → s.qp.b k l = Q.base.b k l)) Q.base.dim.N (fun ii st =>
    ({ st with qp := { st.qp with
      BAbt := upd st.qp.BAbt ii (gecp (Q.base.dim.nu ii + Q.base.dim.nx ii + 1) (Q.base.dim.nx (ii + 1)) (Q.base.BAbt ii) 0 0 (st.qp.BAbt ii) 0 0)
      b := upd st.qp.b ii (veccp (Q.base.dim.nx (ii + 1)) (Q.base.b ii) 0 (st.qp.b ii) 0) } } : QwSt K)) s1
    ⟨rfl, rfl, rfl, rfl, rfl, rfl, rfl, rfl, rfl, rfl, fun k hk => by omega⟩ (by
    intro n s _ ⟨c1, c2, c3, c4, c5, c6, c7, c8, c9, c10, ih⟩
    refine ⟨c1, c2, c3, c4, c5, c6, c7, c8, c9, c10, fun k hk => ?_⟩
    by_cases e : k = n
    · subst e
      refine ⟨fun i l hi hl => ?_, fun l hl => ?_⟩
      · simp only [upd_same]
        unfold gecp
        rw [if_pos (by omega)]
        simp only [Nat.sub_zero, Nat.zero_add]
      · simp only [upd_same]
        unfold veccp
        rw [if_pos (by omega)]
        simp only [Nat.sub_zero, Nat.zero_add]
    · obtain ⟨a1, a2⟩ := ih k (by omega)
      refine ⟨fun i l hi hl => ?_, fun l hl => ?_⟩
      · simp only [upd_ne _ _ e]; exact a1 i l hi hl
      · simp only [upd_ne _ _ e]; exact a2 l hl)
  obtain ⟨c1, c2, c3, c4, c5, c6, c7, c8, c9, c10, c11⟩ := h2
  obtain ⟨d0, d1⟩ := h1
  refine ⟨⟨c1.trans d0, ?_, ?_, ?_, ?_, ?_, ?_, fun k hk => (c11 k hk).1, fun k hk => (c11 k hk).2⟩, ?_⟩
  · intro k hk; rw [c2]; exact (d1 k (by omega)).2.1
  · intro k hk; rw [c3]; exact (d1 k (by omega)).2.2.1
  · intro k hk; rw [c4]; exact (d1 k (by omega)).2.2.2.1
  · intro k hk; rw [c5]; exact (d1 k (by omega)).2.2.2.2.1
  · intro k hk; rw [c6]; exact (d1 k (by omega)).2.2.2.2.2.1
  · intro k hk; rw [c7]; exact (d1 k (by omega)).2.2.2.2.2.2
  · intro k hk
    exact (d1 k (by omega)).1.congr (by rw [c8]) (fun i j _ _ => by rw [c2]) (by rw [c9]) (by rw [c10]) (by rw [c10])

theorem updateQp_val (Q : Qcqp K) (sol : Sol K) (st : QwSt K) (hf : QpFix Q st.qp) :
    QpApprox Q sol (updateQp Q sol st).qp (updateQp Q sol st).rws ∧ (updateQp Q sol st).qp.d_mask = st.qp.d_mask ∧
    (updateQp Q sol st).qp.rqz = st.qp.rqz := by
  have h := loop_inv (S := QwSt K) (fun n (s : QwSt K) => QpFix Q s.qp ∧ s.qp.d_mask = st.qp.d_mask ∧ s.qp.rqz = st.qp.rqz ∧
      ∀ k, k < n → QapStage Q sol k s.qp s.rws) (Q.base.dim.N + 1)
    (fun ii st =>
      let st := quadStage Q sol ii st
      ({ st with qp := { st.qp with m := upd st.qp.m ii (veccp (nct Q.inner.dim ii) (Q.base.m ii) 0 (st.qp.m ii) 0) } } : QwSt K)) st
    ⟨hf, rfl, rfl, fun k hk => by omega⟩ (by
    intro n s _ ⟨f, hmk, hrq, ih⟩
    obtain ⟨g1, g2⟩ := quadStage_val Q sol n s
    refine ⟨⟨f.dim, ?_, f.mask, ?_, f.Z, f.idxb, f.idxs, f.A, f.b⟩, hmk, hrq, fun k hk => ?_⟩
    · intro k hk i l hi hl
      by_cases e : k = n
      · subst e
        exact (g2 i l (by omega)).trans (f.C k hk i l hi hl)
      · show (quadStage Q sol n s).qp.DCt k i l = _
        rw [(quadStage_ne Q sol k n e s).2.1]; exact f.C k hk i l hi hl
    · intro k hk j hj
      show upd (quadStage Q sol n s).qp.m n _ k j = _
      by_cases e : k = n
      · subst e
        rw [upd_same]
        unfold veccp
        rw [if_pos (by omega)]
        simp only [Nat.sub_zero, Nat.zero_add]
      · rw [upd_ne _ _ e]; exact f.m k hk j hj
    · by_cases e : k = n
      · subst e
        exact g1.congr rfl (fun i j _ _ => rfl) rfl rfl rfl
      · obtain ⟨b1, b2, b3, b4, b5⟩ := quadStage_ne Q sol k n e s
        exact (ih k (by omega)).congr b1 (fun i j _ _ => by show (quadStage Q sol n s).qp.DCt k i _ = _; rw [b2]) b3 b4 b5)
  exact ⟨⟨h.1, fun k hk => h.2.2.2 k (by omega)⟩, h.2.1, h.2.2.1⟩

end
end Hpipm
