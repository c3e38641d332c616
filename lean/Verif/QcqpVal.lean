/-
Closed forms of the QCQP residuals: they are the residuals of the QP obtained by linearising the quadratic
constraints at the point (intermediate results, user-level statements are in QcqpProps.lean).
-/
import Verif.Qcqp

namespace Hpipm
open Finset
set_option linter.unusedSectionVars false

section
variable {K : Type*} [Field K] [LinearOrder K] [IsStrictOrderedRing K]

/-- well-formed data: that of the underlying arrays -/
def Qcqp.WF (Q : Qcqp K) : Prop := Q.inner.WF

/-- Hessian of quadratic constraint `j` times `v` -/
def hqMul (Q : Qcqp K) (k j : ℕ) (v : Vec K) (i : ℕ) : K :=
  ∑ l ∈ range (Q.base.dim.nu k + Q.base.dim.nx k), symL (Q.Hq k j) 0 0 i l * v l

/-- second order part of quadratic constraint `j`, packed form -/
def qForm (Q : Qcqp K) (k j : ℕ) (v : Vec K) : K :=
  1 / 2 * ∑ i ∈ range (Q.base.dim.nu k + Q.base.dim.nx k), hqMul Q k j v i * v i

/-- value of quadratic constraint `j`, packed form -/
def qVal (Q : Qcqp K) (k j : ℕ) (v : Vec K) : K :=
  qForm Q k j v + ∑ i ∈ range (Q.base.dim.nu k + Q.base.dim.nx k), Q.base.DCt k i (Q.base.dim.ng k + j) * v i

/-- position of the lower side of a quadratic constraint -/
def LoQ (Q : Qcqp K) (k i : ℕ) : Prop :=
  Q.base.dim.nb k + Q.base.dim.ng k ≤ i ∧ i < Q.base.dim.nb k + (Q.base.dim.ng k + Q.nq k)
instance (Q : Qcqp K) (k i : ℕ) : Decidable (LoQ Q k i) := by unfold LoQ; infer_instance

/-- position of the upper side of a quadratic constraint -/
def UpQ (Q : Qcqp K) (k i : ℕ) : Prop :=
  2 * Q.base.dim.nb k + 2 * Q.base.dim.ng k + Q.nq k ≤ i ∧ i < 2 * (Q.base.dim.nb k + (Q.base.dim.ng k + Q.nq k))
instance (Q : Qcqp K) (k i : ℕ) : Decidable (UpQ Q k i) := by unfold UpQ; infer_instance

/-- the QP whose general constraints `ng+j` are the linearisations of the quadratic constraints at `z`, with their
lower sides masked out -/
def linQp (Q : Qcqp K) (z : ℕ → Vec K) : OcpQp K :=
  { Q.inner with
    DCt := fun k i c => if c < Q.base.dim.ng k then Q.base.DCt k i c
      else Q.base.DCt k i c + hqMul Q k (c - Q.base.dim.ng k) (z k) i
    d := fun k i =>
      if LoQ Q k i then Q.base.d k i + qForm Q k (i - (Q.base.dim.nb k + Q.base.dim.ng k)) (z k)
      else if UpQ Q k i then
        Q.base.d k i - qForm Q k (i - (2 * Q.base.dim.nb k + 2 * Q.base.dim.ng k + Q.nq k)) (z k)
      else Q.base.d k i
    d_mask := fun k i => if LoQ Q k i then 0 else Q.base.d_mask k i }

theorem linQp_wf (Q : Qcqp K) (h : Q.WF) (z : ℕ → Vec K) : (linQp Q z).WF := ⟨h.1, h.2⟩

/-! ### the loop over the quadratic constraints -/

theorem qLoop_val (Q : Qcqp K) (k : ℕ) (ux tl tmp0 : Vec K) (s : QlSt K) :
    let r := qLoop (Q.base.dim.nu k + Q.base.dim.nx k) (Q.base.dim.nb k) (Q.base.dim.ng k) (Q.nq k) (Q.Hq k) (Q.base.DCt k)
      ux tl tmp0 s
    (∀ i, i < Q.base.dim.nu k + Q.base.dim.nx k → r.g i = s.g i + ∑ j ∈ range (Q.nq k),
      tmp0 (Q.base.dim.nb k + Q.base.dim.ng k + j) * (hqMul Q k j ux i + Q.base.DCt k i (Q.base.dim.ng k + j))) ∧
    r.gap = s.gap + ∑ j ∈ range (Q.nq k),
      tl (2 * Q.base.dim.nb k + 2 * Q.base.dim.ng k + Q.nq k + j) * qForm Q k j ux ∧
    (∀ j, j < Q.nq k → r.tmp1 (Q.base.dim.nb k + Q.base.dim.ng k + j) = qVal Q k j ux) ∧
    (∀ j, ¬ LoQ Q k j → r.tmp1 j = s.tmp1 j) := by
  intro r
  have key := loop_inv (fun n (r : QlSt K) =>
    (∀ i, i < Q.base.dim.nu k + Q.base.dim.nx k → r.g i = s.g i + ∑ j ∈ range n,
      tmp0 (Q.base.dim.nb k + Q.base.dim.ng k + j) * (hqMul Q k j ux i + Q.base.DCt k i (Q.base.dim.ng k + j))) ∧
    r.gap = s.gap + ∑ j ∈ range n,
      tl (2 * Q.base.dim.nb k + 2 * Q.base.dim.ng k + Q.nq k + j) * qForm Q k j ux ∧
    (∀ j, j < n → r.tmp1 (Q.base.dim.nb k + Q.base.dim.ng k + j) = qVal Q k j ux) ∧
    (∀ j, ¬ (Q.base.dim.nb k + Q.base.dim.ng k ≤ j ∧ j < Q.base.dim.nb k + Q.base.dim.ng k + n) → r.tmp1 j = s.tmp1 j))
    (Q.nq k) (fun jj s =>
    let a := symv_l (Q.base.dim.nu k + Q.base.dim.nx k) 1 (Q.Hq k jj) 0 0 ux 0 0 s.nux0 0 s.nux0 0
    let gap := s.gap + 1 / 2 * tl (2 * Q.base.dim.nb k + 2 * Q.base.dim.ng k + Q.nq k + jj) * dot (Q.base.dim.nu k + Q.base.dim.nx k) a 0 ux 0
    let tmp := tmp0 (Q.base.dim.nb k + Q.base.dim.ng k + jj)
    let g := axpy (Q.base.dim.nu k + Q.base.dim.nx k) tmp a 0 s.g 0 s.g 0
    let c := colex (Q.base.dim.nu k + Q.base.dim.nx k) (Q.base.DCt k) 0 (Q.base.dim.ng k + jj) s.nux1 0
    let g := axpy (Q.base.dim.nu k + Q.base.dim.nx k) tmp c 0 g 0 g 0
    let a := axpy (Q.base.dim.nu k + Q.base.dim.nx k) (1 / 2) a 0 c 0 a 0
    let tmp := dot (Q.base.dim.nu k + Q.base.dim.nx k) a 0 ux 0
    { g := g
      gap := gap
      tmp1 := upd s.tmp1 (Q.base.dim.nb k + Q.base.dim.ng k + jj) tmp
      nux0 := a
      nux1 := c }) s ?_ ?_
  · refine ⟨key.1, key.2.1, key.2.2.1, fun j hj => key.2.2.2 j ?_⟩
    unfold LoQ at hj; omega
  · refine ⟨by simp, by simp, by simp, fun j _ => rfl⟩
  · intro jj s' hjj ⟨h1, h2, h3, h4⟩
    have ha : ∀ i, i < Q.base.dim.nu k + Q.base.dim.nx k →
        symv_l (Q.base.dim.nu k + Q.base.dim.nx k) 1 (Q.Hq k jj) 0 0 ux 0 0 s'.nux0 0 s'.nux0 0 i = hqMul Q k jj ux i := by
      intro i hi
      rw [symv_l_in (by omega)]
      simp only [Nat.sub_zero, Nat.zero_add, hqMul, zero_mul, one_mul, zero_add]
    have hc : ∀ i, i < Q.base.dim.nu k + Q.base.dim.nx k →
        colex (Q.base.dim.nu k + Q.base.dim.nx k) (Q.base.DCt k) 0 (Q.base.dim.ng k + jj) s'.nux1 0 i
          = Q.base.DCt k i (Q.base.dim.ng k + jj) := by
      intro i hi
      simp only [colex]
      rw [if_pos (by omega)]; simp
    dsimp only
    refine ⟨fun i hi => ?_, ?_, fun j hj => ?_, fun j hj => ?_⟩
    · rw [axpy_in (by omega), axpy_in (by omega)]
      simp only [Nat.sub_zero, Nat.zero_add]
      rw [ha i hi, hc i hi, h1 i hi, sum_range_succ]; ring
    · rw [h2, sum_range_succ]
      have : dot (Q.base.dim.nu k + Q.base.dim.nx k)
          (symv_l (Q.base.dim.nu k + Q.base.dim.nx k) 1 (Q.Hq k jj) 0 0 ux 0 0 s'.nux0 0 s'.nux0 0) 0 ux 0 =
          ∑ i ∈ range (Q.base.dim.nu k + Q.base.dim.nx k), hqMul Q k jj ux i * ux i := by
        simp only [dot, Nat.zero_add]
        exact sum_congr rfl fun i hi => by rw [ha i (mem_range.mp hi)]
      rw [this]
      simp only [qForm]; ring
    · by_cases hj' : j = jj
      · subst hj'
        rw [upd_same]
        simp only [dot, qVal, qForm, Nat.zero_add, mul_sum, ← sum_add_distrib]
        apply sum_congr rfl
        intro i hi
        have hi := mem_range.mp hi
        rw [axpy_in (by omega)]
        simp only [Nat.sub_zero, Nat.zero_add]
        rw [ha i hi, hc i hi]; ring
      · rw [upd_ne _ _ (by omega)]; exact h3 j (by omega)
    · rw [upd_ne _ _ (by omega)]; exact h4 j (by omega)

/-- the cached values are those of the point -/
structure CacheOk (Q : Qcqp K) (sol : Sol K) (ws : QresWs K) : Prop where
  f : ∀ k j, k ≤ Q.base.dim.N → j < Q.nq k → ws.q_fun k j = qVal Q k j (sol.ux k)
  adj : ∀ k i, k ≤ Q.base.dim.N → i < Q.base.dim.nu k + Q.base.dim.nx k → ws.q_adj k i = ∑ j ∈ range (Q.nq k),
    Q.base.d_mask k (2 * Q.base.dim.nb k + 2 * Q.base.dim.ng k + Q.nq k + j)
      * sol.lam k (2 * Q.base.dim.nb k + 2 * Q.base.dim.ng k + Q.nq k + j)
      * (hqMul Q k j (sol.ux k) i + Q.base.DCt k i (Q.base.dim.ng k + j))

theorem loop_sum_acc (n : ℕ) (f : ℕ → K) (a : K) : loop n (fun j s => s + f j) a = a + ∑ j ∈ range n, f j := by
  induction n with
  | zero => simp [loop]
  | succ n ih => rw [loop_succ, ih, sum_range_succ, add_assoc]

theorem qCached_val (Q : Qcqp K) (k : ℕ) (ux tl tmp0 q_fun q_adj g tmp1 : Vec K) (gap : K)
    (hf : ∀ j, j < Q.nq k → q_fun j = qVal Q k j ux)
    (ha : ∀ i, i < Q.base.dim.nu k + Q.base.dim.nx k → q_adj i = ∑ j ∈ range (Q.nq k),
      tmp0 (Q.base.dim.nb k + Q.base.dim.ng k + j) * (hqMul Q k j ux i + Q.base.DCt k i (Q.base.dim.ng k + j))) :
    let r := qCached (Q.base.dim.nu k + Q.base.dim.nx k) (Q.base.dim.nb k) (Q.base.dim.ng k) (Q.nq k) (Q.base.DCt k)
      ux tl tmp0 q_fun q_adj g gap tmp1
    (∀ i, i < Q.base.dim.nu k + Q.base.dim.nx k → r.1 i = g i + ∑ j ∈ range (Q.nq k),
      tmp0 (Q.base.dim.nb k + Q.base.dim.ng k + j) * (hqMul Q k j ux i + Q.base.DCt k i (Q.base.dim.ng k + j))) ∧
    r.2.1 = gap + ∑ j ∈ range (Q.nq k),
      tl (2 * Q.base.dim.nb k + 2 * Q.base.dim.ng k + Q.nq k + j) * qForm Q k j ux ∧
    (∀ j, j < Q.nq k → r.2.2.1 (Q.base.dim.nb k + Q.base.dim.ng k + j) = qVal Q k j ux) ∧
    (∀ j, ¬ LoQ Q k j → r.2.2.1 j = tmp1 j) := by
  intro r
  refine ⟨fun i hi => ?_, ?_, fun j hj => ?_, fun j hj => ?_⟩
  · simp only [r, qCached]
    rw [axpy_in (by omega)]
    simp only [Nat.sub_zero, Nat.zero_add]
    rw [ha i hi]; ring
  · simp only [r, qCached]
    rw [loop_sum_acc]
    congr 1
    apply sum_congr rfl
    intro j hj
    have hj := mem_range.mp hj
    rw [gemv_t_in (by omega), show Q.base.dim.nb k + Q.base.dim.ng k + j - (Q.base.dim.nb k + Q.base.dim.ng k) = j by omega]
    simp only [Nat.zero_add]
    rw [hf j hj]
    simp only [qVal]; ring
  · simp only [r, qCached]
    rw [veccp_in (by omega), show 0 + (Q.base.dim.nb k + Q.base.dim.ng k + j - (Q.base.dim.nb k + Q.base.dim.ng k)) = j by omega,
      hf j hj]
  · simp only [r, qCached]
    unfold LoQ at hj
    rw [veccp_out (by omega)]

/-! ### one stage -/

/-- either the caches are not used or they hold the values of the point -/
def CacheCond (Q : Qcqp K) (sol : Sol K) (ws : QresWs K) : Prop :=
  (ws.use_q_fun && ws.use_q_adj) = true → CacheOk Q sol ws

/-- masked multipliers with the lower sides of the quadratic constraints zeroed -/
theorem qtl_val (Q : Qcqp K) (sol : Sol K) (mask : Bool) (hm : MaskOk Q.inner mask) (k : ℕ) (hk : k ≤ Q.base.dim.N)
    (z : Vec K) (j : ℕ) (hj : j < nct Q.inner.dim k) :
    vecse (Q.nq k) 0 (if mask = true then vecmul (nct Q.inner.dim k) (sol.lam k) 0 (Q.base.d_mask k) 0 z 0
      else veccp (nct Q.inner.dim k) (sol.lam k) 0 z 0) (Q.base.dim.nb k + Q.base.dim.ng k) j
    = lamM (linQp Q sol.ux) sol k j := by
  have h := tl_val Q.inner sol mask hm k hk z j hj
  have e : lamM (linQp Q sol.ux) sol k j = (if LoQ Q k j then 0 else Q.base.d_mask k j) * sol.lam k j := rfl
  rw [e]
  by_cases hq : LoQ Q k j
  · rw [if_pos hq, zero_mul]
    unfold LoQ at hq
    simp only [vecse]
    rw [if_pos (by omega)]
  · rw [if_neg hq]
    have hq' := hq
    unfold LoQ at hq'
    simp only [vecse]
    rw [if_neg (by omega)]
    exact h

/-- the inequality chain of a stage for any vector of constraint values -/
theorem qchainD (nb ng ns nv : ℕ) (ir : ℕ → ℤ) (ux t d tl g tmp1 rd0 : Vec K) (i : ℕ) (hi : i < 2 * nb + 2 * ng + 2 * ns) :
    let n := nb + ng
    let rd := axpy (2 * nb + 2 * ng) 1 d 0 t 0 rd0 0
    let rd := axpy n (-1) tmp1 0 rd 0 rd 0
    let rd := axpy n 1 tmp1 0 rd n rd n
    let rd := (softLoop nb ng ns nv ir tl ux g rd).2
    let rd := axpy (2 * ns) (-1) ux nv t (2 * nb + 2 * ng) rd (2 * nb + 2 * ng)
    let rd := axpy (2 * ns) 1 d (2 * nb + 2 * ng) rd (2 * nb + 2 * ng) rd (2 * nb + 2 * ng)
    rd i = if i < n then d i + t i - tmp1 i - (if ir i = -1 then 0 else ux (nv + (ir i).toNat))
      else if i < 2 * n then d i + t i + tmp1 (i - n) - (if ir (i - n) = -1 then 0 else ux (nv + ns + (ir (i - n)).toNat))
      else d i + t i - ux (nv + (i - 2 * n)) := by
  intro n rd1 rd2 rd3 rd4 rd5 rd6
  have hn : n = nb + ng := rfl
  by_cases h1 : i < 2 * n
  · simp only [rd6]
    rw [axpy_out (by omega)]
    simp only [rd5]
    rw [axpy_out (by omega)]
    simp only [rd4]
    rw [(softLoop_val _ _ _ _ _ _ _ _ _).2 i]
    by_cases h2 : i < n
    · simp only [rd3]
      rw [axpy_out (by omega)]
      simp only [rd2]
      rw [axpy_in (by omega)]
      simp only [rd1]
      rw [axpy_in (by omega)]
      simp only [Nat.sub_zero, Nat.zero_add]
      have h3 : ¬ (nb + ng ≤ i) := by omega
      have h4 : i < nb + ng := by omega
      simp only [h2, h3, h4, false_and, if_false, true_and, if_true, ne_eq, ite_not]
      split_ifs <;> ring
    · simp only [rd3]
      rw [axpy_in (by omega)]
      simp only [rd2]
      rw [axpy_out (by omega)]
      simp only [rd1]
      rw [axpy_in (by omega)]
      simp only [Nat.sub_zero, Nat.zero_add]
      have h3 : nb + ng ≤ i := by omega
      have h4 : ¬ i < nb + ng := by omega
      have h5 : i < 2 * (nb + ng) := by omega
      rw [show n + (i - n) = i from by omega]
      simp only [h1, h2, h3, h4, h5, false_and, if_false, true_and, if_true, ne_eq, ite_not]
      rw [← hn]
      split_ifs <;> ring
  · simp only [rd6]
    rw [axpy_in (by omega)]
    simp only [rd5]
    rw [axpy_in (by omega)]
    rw [if_neg (by omega), if_neg h1]
    have e1 : 2 * nb + 2 * ng = 2 * n := by omega
    rw [e1, show 2 * n + (2 * n + (i - 2 * n) - 2 * n) = i by omega, show 2 * n + (i - 2 * n) - 2 * n = i - 2 * n by omega,
      show 2 * n + (i - 2 * n) = i by omega]
    ring

/-- closed form of a stage -/
structure QStageOk (Q : Qcqp K) (sol : Sol K) (k : ℕ) (r : Res K) : Prop where
  g : ∀ i, i < nvt Q.inner.dim k → r.res_g k i = vG (linQp Q sol.ux) sol (lamM (linQp Q sol.ux) sol k) k i
  b : k < Q.base.dim.N → ∀ i, i < Q.base.dim.nx (k + 1) → r.res_b k i = vB Q.inner sol k i
  d : ∀ j, j < nct Q.inner.dim k → r.res_d k j = Q.base.d_mask k j * vD (linQp Q sol.ux) sol k j
  m : ∀ j, j < nct Q.inner.dim k → r.res_m k j =
    Q.base.d_mask k j * (lamM (linQp Q sol.ux) sol k j * sol.t k j - Q.base.m k j)

theorem cval_lin (Q : Qcqp K) (zz : ℕ → Vec K) (k : ℕ) (v : Vec K) (j : ℕ) :
    cval (linQp Q zz) k v j = if j < Q.base.dim.nb k then v (Q.base.idxb k j)
      else ∑ i ∈ range (Q.base.dim.nu k + Q.base.dim.nx k),
        (if j - Q.base.dim.nb k < Q.base.dim.ng k then Q.base.DCt k i (j - Q.base.dim.nb k)
          else Q.base.DCt k i (j - Q.base.dim.nb k) + hqMul Q k (j - Q.base.dim.nb k - Q.base.dim.ng k) (zz k) i) * v i := rfl

/-- the values of the constraints at the end of the constraint part of a stage -/
theorem qtmp1_val (Q : Qcqp K) (k : ℕ) (z tmp1 tmp1' w : Vec K)
    (ht : tmp1 = gemv_t (Q.base.dim.nu k + Q.base.dim.nx k) (Q.base.dim.ng k) 1 (Q.base.DCt k) 0 0 z 0 0
      (vecex_sp (Q.base.dim.nb k) 1 (Q.base.idxb k) z 0 w 0) (Q.base.dim.nb k)
      (vecex_sp (Q.base.dim.nb k) 1 (Q.base.idxb k) z 0 w 0) (Q.base.dim.nb k))
    (h1 : ∀ j, j < Q.nq k → tmp1' (Q.base.dim.nb k + Q.base.dim.ng k + j) = qVal Q k j z)
    (h2 : ∀ j, ¬ LoQ Q k j → tmp1' j = tmp1 j) (zz : ℕ → Vec K) (hz : zz k = z)
    (j : ℕ) (hj : j < Q.base.dim.nb k + (Q.base.dim.ng k + Q.nq k)) :
    tmp1' j = cval (linQp Q zz) k z j - (if LoQ Q k j then qForm Q k (j - (Q.base.dim.nb k + Q.base.dim.ng k)) z else 0) := by
  rw [cval_lin]
  by_cases hq : LoQ Q k j
  · rw [if_pos hq]
    unfold LoQ at hq
    obtain ⟨l, rfl⟩ := Nat.exists_eq_add_of_le hq.1
    rw [h1 l (by omega), show Q.base.dim.nb k + Q.base.dim.ng k + l - (Q.base.dim.nb k + Q.base.dim.ng k) = l by omega,
      if_neg (by omega), show Q.base.dim.nb k + Q.base.dim.ng k + l - Q.base.dim.nb k = Q.base.dim.ng k + l by omega,
      show Q.base.dim.ng k + l - Q.base.dim.ng k = l by omega, hz]
    have : ¬ (Q.base.dim.ng k + l < Q.base.dim.ng k) := by omega
    simp only [if_neg this]
    simp only [qVal, qForm, add_mul, sum_add_distrib]
    ring
  · rw [if_neg hq, h2 j hq, ht, sub_zero]
    unfold LoQ at hq
    by_cases hb : j < Q.base.dim.nb k
    · rw [gemv_t_out (by omega), if_pos hb, vecex_in (by omega)]
      simp
    · rw [gemv_t_in (by omega), if_neg hb]
      simp only [Nat.zero_add, zero_mul, zero_add, one_mul]
      apply sum_congr rfl
      intro i _
      rw [if_pos (by omega)]

/-- the state after the constraint part of a stage, from the two branches -/
theorem qbranch_val (Q : Qcqp K) (k : ℕ) (cached : Bool) (ux tl tmp0 q_fun q_adj g tmp1 n0 n1 : Vec K) (gap : K)
    (hf : cached = true → ∀ j, j < Q.nq k → q_fun j = qVal Q k j ux)
    (ha : cached = true → ∀ i, i < Q.base.dim.nu k + Q.base.dim.nx k → q_adj i = ∑ j ∈ range (Q.nq k),
      tmp0 (Q.base.dim.nb k + Q.base.dim.ng k + j) * (hqMul Q k j ux i + Q.base.DCt k i (Q.base.dim.ng k + j))) :
    let qc := qCached (Q.base.dim.nu k + Q.base.dim.nx k) (Q.base.dim.nb k) (Q.base.dim.ng k) (Q.nq k) (Q.base.DCt k)
      ux tl tmp0 q_fun q_adj g gap tmp1
    let ql := qLoop (Q.base.dim.nu k + Q.base.dim.nx k) (Q.base.dim.nb k) (Q.base.dim.ng k) (Q.nq k) (Q.Hq k) (Q.base.DCt k)
      ux tl tmp0 ⟨g, gap, tmp1, n0, n1⟩
    let qd := decide (Q.nq k > 0)
    (∀ i, i < Q.base.dim.nu k + Q.base.dim.nx k →
      (if qd = true then (if cached = true then qc.1 else ql.g) else g) i = g i + ∑ j ∈ range (Q.nq k),
      tmp0 (Q.base.dim.nb k + Q.base.dim.ng k + j) * (hqMul Q k j ux i + Q.base.DCt k i (Q.base.dim.ng k + j))) ∧
    (if qd = true then (if cached = true then qc.2.1 else ql.gap) else gap) = gap + ∑ j ∈ range (Q.nq k),
      tl (2 * Q.base.dim.nb k + 2 * Q.base.dim.ng k + Q.nq k + j) * qForm Q k j ux ∧
    (∀ j, j < Q.nq k → (if qd = true then (if cached = true then qc.2.2.1 else ql.tmp1) else tmp1)
      (Q.base.dim.nb k + Q.base.dim.ng k + j) = qVal Q k j ux) ∧
    (∀ j, ¬ LoQ Q k j → (if qd = true then (if cached = true then qc.2.2.1 else ql.tmp1) else tmp1) j = tmp1 j) := by
  intro qc ql qd
  have hl := qLoop_val Q k ux tl tmp0 ⟨g, gap, tmp1, n0, n1⟩
  by_cases hq : Q.nq k > 0
  · have hqd : qd = true := by simp [qd, hq]
    rw [hqd]
    simp only [if_true]
    cases hc : cached
    · simp only [Bool.false_eq_true, if_false]
      exact hl
    · simp only [if_true]
      exact qCached_val Q k ux tl tmp0 q_fun q_adj g tmp1 gap (hf hc) (ha hc)
  · have hqd : qd = false := by simp [qd]; omega
    have h0 : Q.nq k = 0 := by omega
    rw [hqd]
    simp only [Bool.false_eq_true, if_false, h0, range_zero, sum_empty, add_zero, implies_true, true_and, and_true]
    intro j hj; omega

theorem vD_linQp (Q : Qcqp K) (sol : Sol K) (k j : ℕ) :
    vD (linQp Q sol.ux) sol k j =
      if j < Q.base.dim.nb k + (Q.base.dim.ng k + Q.nq k) then
        (linQp Q sol.ux).d k j + sol.t k j - cval (linQp Q sol.ux) k (sol.ux k) j
          - (if Q.base.idxs_rev k j = -1 then 0 else sol.ux k (Q.base.dim.nu k + Q.base.dim.nx k + (Q.base.idxs_rev k j).toNat))
      else if j < 2 * (Q.base.dim.nb k + (Q.base.dim.ng k + Q.nq k)) then
        (linQp Q sol.ux).d k j + sol.t k j + cval (linQp Q sol.ux) k (sol.ux k) (j - (Q.base.dim.nb k + (Q.base.dim.ng k + Q.nq k)))
          - (if Q.base.idxs_rev k (j - (Q.base.dim.nb k + (Q.base.dim.ng k + Q.nq k))) = -1 then 0
            else sol.ux k (Q.base.dim.nu k + Q.base.dim.nx k + Q.base.dim.ns k
              + (Q.base.idxs_rev k (j - (Q.base.dim.nb k + (Q.base.dim.ng k + Q.nq k)))).toNat))
      else (linQp Q sol.ux).d k j + sol.t k j
        - sol.ux k (Q.base.dim.nu k + Q.base.dim.nx k + (j - 2 * (Q.base.dim.nb k + (Q.base.dim.ng k + Q.nq k)))) := rfl

theorem linQp_d (Q : Qcqp K) (z : ℕ → Vec K) (k i : ℕ) : (linQp Q z).d k i =
      if LoQ Q k i then Q.base.d k i + qForm Q k (i - (Q.base.dim.nb k + Q.base.dim.ng k)) (z k)
      else if UpQ Q k i then
        Q.base.d k i - qForm Q k (i - (2 * Q.base.dim.nb k + 2 * Q.base.dim.ng k + Q.nq k)) (z k)
      else Q.base.d k i := rfl

/-- the hypotheses on the caches at stage `k` -/
structure CacheAt (Q : Qcqp K) (sol : Sol K) (k : ℕ) (ws : QresWs K) : Prop where
  f : (ws.use_q_fun && ws.use_q_adj) = true → ∀ j, j < Q.nq k → ws.q_fun k j = qVal Q k j (sol.ux k)
  adj : (ws.use_q_fun && ws.use_q_adj) = true → ∀ i, i < Q.base.dim.nu k + Q.base.dim.nx k →
    ws.q_adj k i = ∑ j ∈ range (Q.nq k),
      lamM (linQp Q sol.ux) sol k (2 * Q.base.dim.nb k + 2 * Q.base.dim.ng k + Q.nq k + j)
        * (hqMul Q k j (sol.ux k) i + Q.base.DCt k i (Q.base.dim.ng k + j))

/-- the masked multipliers as the stage computes them -/
def qtl (Q : Qcqp K) (sol : Sol K) (mask : Bool) (k : ℕ) (z : Vec K) : Vec K :=
  vecse (Q.nq k) 0 (if mask = true then vecmul (nct Q.inner.dim k) (sol.lam k) 0 (Q.base.d_mask k) 0 z 0
      else veccp (nct Q.inner.dim k) (sol.lam k) 0 z 0) (Q.base.dim.nb k + Q.base.dim.ng k)

theorem cacheAt_adj (Q : Qcqp K) (sol : Sol K) (mask : Bool) (hm : MaskOk Q.inner mask) (k : ℕ) (hk : k ≤ Q.base.dim.N)
    (ws : QresWs K) (hc : CacheAt Q sol k ws) (z w : Vec K) :
    (ws.use_q_fun && ws.use_q_adj) = true → ∀ i, i < Q.base.dim.nu k + Q.base.dim.nx k →
    ws.q_adj k i = ∑ j ∈ range (Q.nq k),
      axpy (Q.base.dim.nb k + (Q.base.dim.ng k + Q.nq k)) (-1) (qtl Q sol mask k z) 0 (qtl Q sol mask k z)
        (Q.base.dim.nb k + (Q.base.dim.ng k + Q.nq k)) w 0 (Q.base.dim.nb k + Q.base.dim.ng k + j)
        * (hqMul Q k j (sol.ux k) i + Q.base.DCt k i (Q.base.dim.ng k + j)) := by
  intro h i hi
  rw [hc.adj h i hi]
  apply sum_congr rfl
  intro j hj
  have hj := mem_range.mp hj
  congr 1
  have hn : ∀ i, i < 2 * (Q.base.dim.nb k + (Q.base.dim.ng k + Q.nq k)) → i < nct Q.inner.dim k := by
    intro i hi; simp only [nct, Qcqp.inner]; omega
  rw [axpy_in (by omega)]
  simp only [Nat.sub_zero, Nat.zero_add]
  rw [show Q.base.dim.nb k + (Q.base.dim.ng k + Q.nq k) + (Q.base.dim.nb k + Q.base.dim.ng k + j)
    = 2 * Q.base.dim.nb k + 2 * Q.base.dim.ng k + Q.nq k + j by ring]
  rw [qtl, qtl_val Q sol mask hm k hk z _ (hn _ (by omega)), qtl_val Q sol mask hm k hk z _ (hn _ (by omega))]
  have : lamM (linQp Q sol.ux) sol k (Q.base.dim.nb k + Q.base.dim.ng k + j) = 0 := by
    have e : lamM (linQp Q sol.ux) sol k (Q.base.dim.nb k + Q.base.dim.ng k + j) =
      (if LoQ Q k (Q.base.dim.nb k + Q.base.dim.ng k + j) then 0 else Q.base.d_mask k (Q.base.dim.nb k + Q.base.dim.ng k + j))
        * sol.lam k (Q.base.dim.nb k + Q.base.dim.ng k + j) := rfl
    rw [e, if_pos (by unfold LoQ; omega), zero_mul]
  rw [this]; ring

theorem cond_qsoft (Q : Qcqp K) (hwf : Q.WF) (k : ℕ) (hk : k ≤ Q.base.dim.N) (tl ux g d : Vec K) :
    (if decide (Q.base.dim.ns k > 0) = true then
      softLoop (Q.base.dim.nb k) (Q.base.dim.ng k + Q.nq k) (Q.base.dim.ns k) (Q.base.dim.nu k + Q.base.dim.nx k)
        (Q.base.idxs_rev k) tl ux g d else (g, d))
    = softLoop (Q.base.dim.nb k) (Q.base.dim.ng k + Q.nq k) (Q.base.dim.ns k) (Q.base.dim.nu k + Q.base.dim.nx k)
        (Q.base.idxs_rev k) tl ux g d := cond_softLoop Q.inner hwf k hk tl ux g d

theorem qfinalD (Q : Qcqp K) (sol : Sol K) (k : ℕ) (T : Vec K)
    (hT : ∀ j, j < Q.base.dim.nb k + (Q.base.dim.ng k + Q.nq k) → T j = cval (linQp Q sol.ux) k (sol.ux k) j
      - (if LoQ Q k j then qForm Q k (j - (Q.base.dim.nb k + Q.base.dim.ng k)) (sol.ux k) else 0)) (j : ℕ) :
    (if j < Q.base.dim.nb k + (Q.base.dim.ng k + Q.nq k) then
        Q.base.d k j + sol.t k j - T j
          - (if Q.base.idxs_rev k j = -1 then 0 else sol.ux k (Q.base.dim.nu k + Q.base.dim.nx k + (Q.base.idxs_rev k j).toNat))
      else if j < 2 * (Q.base.dim.nb k + (Q.base.dim.ng k + Q.nq k)) then
        Q.base.d k j + sol.t k j + T (j - (Q.base.dim.nb k + (Q.base.dim.ng k + Q.nq k)))
          - (if Q.base.idxs_rev k (j - (Q.base.dim.nb k + (Q.base.dim.ng k + Q.nq k))) = -1 then 0
            else sol.ux k (Q.base.dim.nu k + Q.base.dim.nx k + Q.base.dim.ns k
              + (Q.base.idxs_rev k (j - (Q.base.dim.nb k + (Q.base.dim.ng k + Q.nq k)))).toNat))
      else Q.base.d k j + sol.t k j
        - sol.ux k (Q.base.dim.nu k + Q.base.dim.nx k + (j - 2 * (Q.base.dim.nb k + (Q.base.dim.ng k + Q.nq k)))))
    = vD (linQp Q sol.ux) sol k j := by
  rw [vD_linQp, linQp_d]
  by_cases h1 : j < Q.base.dim.nb k + (Q.base.dim.ng k + Q.nq k)
  · rw [if_pos h1, if_pos h1, hT j h1]
    have hu : ¬ UpQ Q k j := by unfold UpQ; omega
    by_cases hq : LoQ Q k j
    · rw [if_pos hq, if_pos hq]; ring
    · rw [if_neg hq, if_neg hq, if_neg hu]; ring
  · rw [if_neg h1, if_neg h1]
    have hl : ¬ LoQ Q k j := by unfold LoQ; omega
    rw [if_neg hl]
    by_cases h2 : j < 2 * (Q.base.dim.nb k + (Q.base.dim.ng k + Q.nq k))
    · rw [if_pos h2, if_pos h2, hT _ (by omega)]
      by_cases hq : UpQ Q k j
      · have hq' : LoQ Q k (j - (Q.base.dim.nb k + (Q.base.dim.ng k + Q.nq k))) := by unfold UpQ at hq; unfold LoQ; omega
        rw [if_pos hq, if_pos hq', show j - (Q.base.dim.nb k + (Q.base.dim.ng k + Q.nq k)) - (Q.base.dim.nb k + Q.base.dim.ng k)
          = j - (2 * Q.base.dim.nb k + 2 * Q.base.dim.ng k + Q.nq k) by omega]
        ring
      · have hq' : ¬ LoQ Q k (j - (Q.base.dim.nb k + (Q.base.dim.ng k + Q.nq k))) := by unfold UpQ at hq; unfold LoQ; omega
        rw [if_neg hq, if_neg hq']; ring
    · have hu : ¬ UpQ Q k j := by unfold UpQ; omega
      rw [if_neg h2, if_neg h2, if_neg hu]

theorem qresStage_d (Q : Qcqp K) (hwf : Q.WF) (sol : Sol K) (mask : Bool) (hm : MaskOk Q.inner mask)
    (k : ℕ) (hk : k ≤ Q.base.dim.N) (st : QresSt K) (hc : CacheAt Q sol k st.ws)
    (j : ℕ) (hj : j < nct Q.inner.dim k) :
    (qresStage Q sol mask k st).res.res_d k j = Q.base.d_mask k j * vD (linQp Q sol.ux) sol k j := by
  simp only [qresStage, upd_same]
  refine (mask_val Q.inner mask hm k hk _ j hj).trans ?_
  have e0 : Q.inner.d_mask k j = Q.base.d_mask k j := rfl
  rw [e0]
  congr 1
  simp only [cond_vecad, cond_gemv_n, cond_vecex, cond_gemv_t, cond_qsoft Q hwf k hk]
  simp only [cond_nil (Q.base.dim.ns k > 0) (axpy (2 * Q.base.dim.ns k) _ _ _ _ _ _ _) _
      (fun h => axpy_nil _ (by omega) _ _ _ _ _ _ _)]
  simp only [cond_nil (Q.base.dim.nb k + (Q.base.dim.ng k + Q.nq k) > 0)
      (axpy (Q.base.dim.nb k + (Q.base.dim.ng k + Q.nq k)) _ _ _ _ _ _ _) _
      (fun h => axpy_nil _ (by omega) _ _ _ _ _ _ _)]
  simp only [cond_nil (Q.base.dim.nb k + (Q.base.dim.ng k + Q.nq k) > 0)
      (axpy (2 * Q.base.dim.nb k + 2 * (Q.base.dim.ng k + Q.nq k)) _ _ _ _ _ _ _) _
      (fun h => axpy_nil _ (by omega) _ _ _ _ _ _ _)]
  have hj' : j < 2 * Q.base.dim.nb k + 2 * (Q.base.dim.ng k + Q.nq k) + 2 * Q.base.dim.ns k := hj
  refine (qchainD (Q.base.dim.nb k) (Q.base.dim.ng k + Q.nq k) (Q.base.dim.ns k) (Q.base.dim.nu k + Q.base.dim.nx k)
    (Q.base.idxs_rev k) (sol.ux k) (sol.t k) (Q.base.d k) _ _ _ _ j hj').trans ?_
  have hadj := cacheAt_adj Q sol mask hm k hk st.ws hc st.ws.ws.tmp_lam_mask st.ws.ws.tmp0
  have hb := fun g tmp1 n0 n1 gap => qbranch_val Q k (st.ws.use_q_fun && st.ws.use_q_adj) (sol.ux k) (qtl Q sol mask k st.ws.ws.tmp_lam_mask)
    (axpy (Q.base.dim.nb k + (Q.base.dim.ng k + Q.nq k)) (-1) (qtl Q sol mask k st.ws.ws.tmp_lam_mask) 0 (qtl Q sol mask k st.ws.ws.tmp_lam_mask)
        (Q.base.dim.nb k + (Q.base.dim.ng k + Q.nq k)) st.ws.ws.tmp0 0)
    (st.ws.q_fun k) (st.ws.q_adj k) g tmp1 n0 n1 gap hc.f hadj
  refine qfinalD Q sol k _ (fun j hj => qtmp1_val Q k (sol.ux k) _ _ st.ws.ws.tmp1 rfl ?_ ?_ sol.ux rfl j hj) j
  · exact (hb _ _ _ _ _).2.2.1
  · exact (hb _ _ _ _ _).2.2.2

theorem qresStage_b (Q : Qcqp K) (sol : Sol K) (mask : Bool) (k : ℕ) (st : QresSt K) (hN : k < Q.base.dim.N)
    (i : ℕ) (hi : i < Q.base.dim.nx (k + 1)) :
    (qresStage Q sol mask k st).res.res_b k i = vB Q.inner sol k i := by
  simp only [qresStage, upd_same]
  exact chainB Q.inner sol k _ hN i hi

theorem qresStage_m (Q : Qcqp K) (sol : Sol K) (mask : Bool) (hm : MaskOk Q.inner mask)
    (k : ℕ) (hk : k ≤ Q.base.dim.N) (st : QresSt K) (j : ℕ) (hj : j < nct Q.inner.dim k) :
    (qresStage Q sol mask k st).res.res_m k j =
      Q.base.d_mask k j * (lamM (linQp Q sol.ux) sol k j * sol.t k j - Q.base.m k j) := by
  simp only [qresStage, upd_same]
  refine (mask_val Q.inner mask hm k hk _ j hj).trans ?_
  have e0 : Q.inner.d_mask k j = Q.base.d_mask k j := rfl
  rw [e0, axpy_in (by omega), vecmul_in (by omega)]
  simp only [Nat.sub_zero, Nat.zero_add]
  rw [qtl_val Q sol mask hm k hk _ j hj]
  ring

theorem qresStage_mu (Q : Qcqp K) (sol : Sol K) (mask : Bool) (hm : MaskOk Q.inner mask)
    (k : ℕ) (hk : k ≤ Q.base.dim.N) (st : QresSt K) :
    (qresStage Q sol mask k st).mu = st.mu
      + ∑ j ∈ range (nct Q.inner.dim k), lamM (linQp Q sol.ux) sol k j * sol.t k j := by
  simp only [qresStage, dot, Nat.zero_add]
  congr 1
  apply sum_congr rfl
  intro j hj
  rw [qtl_val Q sol mask hm k hk _ j (mem_range.mp hj)]

theorem qresStage_obj (Q : Qcqp K) (sol : Sol K) (mask : Bool) (k : ℕ) (st : QresSt K) :
    (qresStage Q sol mask k st).res.obj = st.res.obj + vObj Q.inner sol k := by
  simp only [qresStage]
  have e1 : dot (Q.base.dim.nu k + Q.base.dim.nx k)
      (symv_l (Q.base.dim.nu k + Q.base.dim.nx k) 1 (Q.base.RSQrq k) 0 0 (sol.ux k) 0 2 (Q.base.rqz k) 0 (st.res.res_g k) 0) 0
      (sol.ux k) 0 = ∑ i ∈ range (Q.base.dim.nu k + Q.base.dim.nx k),
        (hmul Q.inner k (sol.ux k) i + 2 * Q.base.rqz k i) * sol.ux k i := by
    simp only [dot]
    apply sum_congr rfl
    intro i hi
    have := mem_range.mp hi
    rw [symv_l_in (by omega)]
    simp only [Nat.sub_zero, Nat.zero_add, hmul]
    have a : ∀ x y z : K, (2 * x + 1 * y) * z = (y + 2 * x) * z := by intros; ring
    exact a _ _ _
  rw [e1]
  have e2 : vObj Q.inner sol k = 1 / 2 * (∑ i ∈ range (Q.base.dim.nu k + Q.base.dim.nx k),
        (hmul Q.inner k (sol.ux k) i + 2 * Q.base.rqz k i) * sol.ux k i)
      + 1 / 2 * ∑ s ∈ range (2 * Q.base.dim.ns k), (Q.base.Z k s * sol.ux k (Q.base.dim.nu k + Q.base.dim.nx k + s)
            + 2 * Q.base.rqz k (Q.base.dim.nu k + Q.base.dim.nx k + s)) * sol.ux k (Q.base.dim.nu k + Q.base.dim.nx k + s) := rfl
  rw [e2]
  by_cases h : Q.base.dim.ns k > 0
  · simp only [h, decide_true, if_true]
    rw [add_assoc]
    congr 3
    simp only [dot]
    apply sum_congr rfl
    intro s hs
    have := mem_range.mp hs
    rw [gemv_diag_in (by omega), show Q.base.dim.nu k + Q.base.dim.nx k + s - (Q.base.dim.nu k + Q.base.dim.nx k) = s from by omega]
    simp only [Nat.zero_add]; ring
  · have h0 : Q.base.dim.ns k = 0 := by omega
    simp [h0]

/-- the constraint matrix of the linearised QP times a vector, split -/
theorem qgemv_split (Q : Qcqp K) (k : ℕ) (zz : ℕ → Vec K) (tmp0 g : Vec K) (i : ℕ)
    (hi : i < Q.base.dim.nu k + Q.base.dim.nx k) :
    gemv_n (Q.base.dim.nu k + Q.base.dim.nx k) (Q.base.dim.ng k) 1 (Q.base.DCt k) 0 0 tmp0 (Q.base.dim.nb k) 1 g 0 g 0 i
      + ∑ j ∈ range (Q.nq k), tmp0 (Q.base.dim.nb k + Q.base.dim.ng k + j)
          * (hqMul Q k j (zz k) i + Q.base.DCt k i (Q.base.dim.ng k + j))
    = gemv_n ((linQp Q zz).dim.nu k + (linQp Q zz).dim.nx k) ((linQp Q zz).dim.ng k) 1 ((linQp Q zz).DCt k) 0 0 tmp0
        ((linQp Q zz).dim.nb k) 1 g 0 g 0 i := by
  show _ = gemv_n (Q.base.dim.nu k + Q.base.dim.nx k) (Q.base.dim.ng k + Q.nq k) 1
    (fun i c => if c < Q.base.dim.ng k then Q.base.DCt k i c
      else Q.base.DCt k i c + hqMul Q k (c - Q.base.dim.ng k) (zz k) i) 0 0 tmp0 (Q.base.dim.nb k) 1 g 0 g 0 i
  rw [gemv_n_in (by omega), gemv_n_in (by omega)]
  simp only [Nat.sub_zero, Nat.zero_add, one_mul]
  rw [sum_range_add _ (Q.base.dim.ng k), add_assoc]
  congr 2
  · apply sum_congr rfl
    intro c hc
    rw [if_pos (mem_range.mp hc)]
  · apply sum_congr rfl
    intro j _
    rw [if_neg (by omega), show Q.base.dim.ng k + j - Q.base.dim.ng k = j by omega, ← add_assoc]
    ring

theorem qresStage_g (Q : Qcqp K) (hwf : Q.WF) (sol : Sol K) (mask : Bool) (hm : MaskOk Q.inner mask)
    (k : ℕ) (hk : k ≤ Q.base.dim.N) (st : QresSt K) (hc : CacheAt Q sol k st.ws)
    (i : ℕ) (hi : i < nvt Q.inner.dim k) :
    (qresStage Q sol mask k st).res.res_g k i = vG (linQp Q sol.ux) sol (lamM (linQp Q sol.ux) sol k) k i := by
  rw [← vG_congr (linQp Q sol.ux) sol _ (lamM (linQp Q sol.ux) sol k) k i
    (fun j hj => qtl_val Q sol mask hm k hk st.ws.ws.tmp_lam_mask j hj) hi]
  simp only [qresStage, upd_same]
  simp only [cond_vecad, cond_gemv_n, cond_vecex, cond_gemv_t, cond_qsoft Q hwf k hk]
  rw [cond_nil (Q.base.dim.ns k > 0) (axpy (2 * Q.base.dim.ns k) (-1) (vecse _ _ _ _) _ _ _ _ _) _
      (fun h => axpy_nil _ (by omega) _ _ _ _ _ _ _)]
  rw [cond_nil (Q.base.dim.nb k + (Q.base.dim.ng k + Q.nq k) > 0)
      (axpy (Q.base.dim.nb k + (Q.base.dim.ng k + Q.nq k)) (-1) (vecse _ _ _ _) _ _ _ _ _) _
      (fun h => axpy_nil _ (by omega) _ _ _ _ _ _ _)]
  refine chainG (linQp Q sol.ux) (linQp_wf Q hwf sol.ux) sol k hk _
      (axpy (Q.base.dim.nb k + (Q.base.dim.ng k + Q.nq k)) (-1) (qtl Q sol mask k st.ws.ws.tmp_lam_mask) 0 (qtl Q sol mask k st.ws.ws.tmp_lam_mask)
        (Q.base.dim.nb k + (Q.base.dim.ng k + Q.nq k)) st.ws.ws.tmp0 0) _
      (axpy (Q.base.dim.nu k + Q.base.dim.nx k) (-1) (Q.base.rqz k) 0
        (symv_l (Q.base.dim.nu k + Q.base.dim.nx k) 1 (Q.base.RSQrq k) 0 0 (sol.ux k) 0 2 (Q.base.rqz k) 0 (st.res.res_g k) 0) 0
        (symv_l (Q.base.dim.nu k + Q.base.dim.nx k) 1 (Q.base.RSQrq k) 0 0 (sol.ux k) 0 2 (Q.base.rqz k) 0 (st.res.res_g k) 0) 0)
      ?_ ?_ i hi _ ?_ ?_
  · intro j hj
    have hj' : j < Q.base.dim.nb k + (Q.base.dim.ng k + Q.nq k) := hj
    rw [axpy_in (by omega)]
    simp only [Nat.sub_zero, Nat.zero_add]
    have a : ∀ x y : K, x + -1 * y = x - y := by intros; ring
    exact a _ _
  · intro i hi
    have hi' : i < Q.base.dim.nu k + Q.base.dim.nx k := hi
    rw [axpy_in (by omega)]
    simp only [Nat.sub_zero, Nat.zero_add]
    rw [symv_l_in (by omega)]
    simp only [Nat.sub_zero, Nat.zero_add, hmul]
    have a : ∀ x y : K, 2 * x + 1 * y + -1 * x = y + x := by intros; ring
    exact a _ _
  · have hadj := cacheAt_adj Q sol mask hm k hk st.ws hc st.ws.ws.tmp_lam_mask st.ws.ws.tmp0
    have hb := fun g tmp1 n0 n1 gap => qbranch_val Q k (st.ws.use_q_fun && st.ws.use_q_adj) (sol.ux k) (qtl Q sol mask k st.ws.ws.tmp_lam_mask)
      (axpy (Q.base.dim.nb k + (Q.base.dim.ng k + Q.nq k)) (-1) (qtl Q sol mask k st.ws.ws.tmp_lam_mask) 0 (qtl Q sol mask k st.ws.ws.tmp_lam_mask)
        (Q.base.dim.nb k + (Q.base.dim.ng k + Q.nq k)) st.ws.ws.tmp0 0)
      (st.ws.q_fun k) (st.ws.q_adj k) g tmp1 n0 n1 gap hc.f hadj
    intro i hi
    have hi' : i < Q.base.dim.nu k + Q.base.dim.nx k := hi
    refine Eq.trans ?_ (qgemv_split Q k sol.ux _ _ i hi')
    by_cases h : Q.base.dim.ns k > 0
    · simp only [h, decide_true, if_true]
      rw [axpy_out (by omega), gemv_diag_out (by omega)]
      exact (hb _ _ _ _ _).1 i hi'
    · simp only [h, decide_false, Bool.false_eq_true, if_false]
      exact (hb _ _ _ _ _).1 i hi'
  · intro s hs
    have hs' : s < 2 * Q.base.dim.ns k := hs
    have h : Q.base.dim.ns k > 0 := by omega
    simp only [h, decide_true, if_true]
    show axpy _ _ _ _ _ _ _ _ (Q.base.dim.nu k + Q.base.dim.nx k + s) = Q.base.Z k s * _ + Q.base.rqz k (Q.base.dim.nu k + Q.base.dim.nx k + s)
    rw [axpy_in (by omega), show Q.base.dim.nu k + Q.base.dim.nx k + s - (Q.base.dim.nu k + Q.base.dim.nx k) = s from by omega,
        gemv_diag_in (by omega), show Q.base.dim.nu k + Q.base.dim.nx k + s - (Q.base.dim.nu k + Q.base.dim.nx k) = s from by omega]
    simp only [Nat.zero_add]
    have a : ∀ x y : K, 2 * x + 1 * y + -1 * x = y + x := by intros; ring
    have a2 : ∀ x y z : K, 2 * x + 1 * y * z + -1 * x = y * z + x := by intros; ring
    first | exact a _ _ | exact a2 _ _ _

/-- the linear term of the gap of the linearised QP -/
theorem lin_dlam (Q : Qcqp K) (sol : Sol K) (k : ℕ) :
    ∑ j ∈ range (nct Q.inner.dim k), (linQp Q sol.ux).d k j * lamM (linQp Q sol.ux) sol k j
    = ∑ j ∈ range (nct Q.inner.dim k), Q.base.d k j * lamM (linQp Q sol.ux) sol k j
      - ∑ j ∈ range (Q.nq k), lamM (linQp Q sol.ux) sol k (2 * Q.base.dim.nb k + 2 * Q.base.dim.ng k + Q.nq k + j)
          * qForm Q k j (sol.ux k) := by
  have e : nct Q.inner.dim k = (2 * Q.base.dim.nb k + 2 * Q.base.dim.ng k + Q.nq k) + (Q.nq k + 2 * Q.base.dim.ns k) := by
    simp only [nct, Qcqp.inner]; ring
  have sp : ∀ f : ℕ → K, ∑ j ∈ range (2 * Q.base.dim.nb k + 2 * Q.base.dim.ng k + Q.nq k + (Q.nq k + 2 * Q.base.dim.ns k)), f j
      = ∑ j ∈ range (2 * Q.base.dim.nb k + 2 * Q.base.dim.ng k + Q.nq k), f j
        + (∑ j ∈ range (Q.nq k), f (2 * Q.base.dim.nb k + 2 * Q.base.dim.ng k + Q.nq k + j)
        + ∑ j ∈ range (2 * Q.base.dim.ns k), f (2 * Q.base.dim.nb k + 2 * Q.base.dim.ng k + Q.nq k + (Q.nq k + j))) := by
    intro f
    rw [sum_range_add f (2 * Q.base.dim.nb k + 2 * Q.base.dim.ng k + Q.nq k),
      sum_range_add (fun j => f (2 * Q.base.dim.nb k + 2 * Q.base.dim.ng k + Q.nq k + j)) (Q.nq k)]
  rw [e, sp, sp]
  have e1 : ∑ j ∈ range (2 * Q.base.dim.nb k + 2 * Q.base.dim.ng k + Q.nq k), (linQp Q sol.ux).d k j * lamM (linQp Q sol.ux) sol k j
      = ∑ j ∈ range (2 * Q.base.dim.nb k + 2 * Q.base.dim.ng k + Q.nq k), Q.base.d k j * lamM (linQp Q sol.ux) sol k j := by
    apply sum_congr rfl
    intro j hj
    have hj := mem_range.mp hj
    rw [linQp_d]
    by_cases hq : LoQ Q k j
    · have el : lamM (linQp Q sol.ux) sol k j = (if LoQ Q k j then 0 else Q.base.d_mask k j) * sol.lam k j := rfl
      rw [el, if_pos hq, if_pos hq]; ring
    · rw [if_neg hq, if_neg (by unfold UpQ; omega)]
  have e2 : ∑ j ∈ range (Q.nq k), (linQp Q sol.ux).d k (2 * Q.base.dim.nb k + 2 * Q.base.dim.ng k + Q.nq k + j)
        * lamM (linQp Q sol.ux) sol k (2 * Q.base.dim.nb k + 2 * Q.base.dim.ng k + Q.nq k + j)
      = ∑ j ∈ range (Q.nq k), Q.base.d k (2 * Q.base.dim.nb k + 2 * Q.base.dim.ng k + Q.nq k + j)
        * lamM (linQp Q sol.ux) sol k (2 * Q.base.dim.nb k + 2 * Q.base.dim.ng k + Q.nq k + j)
        - ∑ j ∈ range (Q.nq k), lamM (linQp Q sol.ux) sol k (2 * Q.base.dim.nb k + 2 * Q.base.dim.ng k + Q.nq k + j)
          * qForm Q k j (sol.ux k) := by
    rw [← sum_sub_distrib]
    apply sum_congr rfl
    intro j hj
    have hj := mem_range.mp hj
    rw [linQp_d, if_neg (by unfold LoQ; omega), if_pos (by unfold UpQ; omega),
      show 2 * Q.base.dim.nb k + 2 * Q.base.dim.ng k + Q.nq k + j - (2 * Q.base.dim.nb k + 2 * Q.base.dim.ng k + Q.nq k) = j by omega]
    ring
  have e3 : ∑ j ∈ range (2 * Q.base.dim.ns k), (linQp Q sol.ux).d k (2 * Q.base.dim.nb k + 2 * Q.base.dim.ng k + Q.nq k + (Q.nq k + j))
        * lamM (linQp Q sol.ux) sol k (2 * Q.base.dim.nb k + 2 * Q.base.dim.ng k + Q.nq k + (Q.nq k + j))
      = ∑ j ∈ range (2 * Q.base.dim.ns k), Q.base.d k (2 * Q.base.dim.nb k + 2 * Q.base.dim.ng k + Q.nq k + (Q.nq k + j))
        * lamM (linQp Q sol.ux) sol k (2 * Q.base.dim.nb k + 2 * Q.base.dim.ng k + Q.nq k + (Q.nq k + j)) := by
    apply sum_congr rfl
    intro j _
    rw [linQp_d, if_neg (by unfold LoQ; omega), if_neg (by unfold UpQ; omega)]
  rw [e1, e2, e3]; ring

theorem qresStage_gap (Q : Qcqp K) (sol : Sol K) (mask : Bool) (hm : MaskOk Q.inner mask)
    (k : ℕ) (hk : k ≤ Q.base.dim.N) (st : QresSt K) (hc : CacheAt Q sol k st.ws) :
    (qresStage Q sol mask k st).res.dual_gap = st.res.dual_gap + vGap (linQp Q sol.ux) sol k := by
  have hadj := cacheAt_adj Q sol mask hm k hk st.ws hc st.ws.ws.tmp_lam_mask st.ws.ws.tmp0
  have hb := fun g tmp1 n0 n1 gap => qbranch_val Q k (st.ws.use_q_fun && st.ws.use_q_adj) (sol.ux k) (qtl Q sol mask k st.ws.ws.tmp_lam_mask)
      (axpy (Q.base.dim.nb k + (Q.base.dim.ng k + Q.nq k)) (-1) (qtl Q sol mask k st.ws.ws.tmp_lam_mask) 0 (qtl Q sol mask k st.ws.ws.tmp_lam_mask)
        (Q.base.dim.nb k + (Q.base.dim.ng k + Q.nq k)) st.ws.ws.tmp0 0)
      (st.ws.q_fun k) (st.ws.q_adj k) g tmp1 n0 n1 gap hc.f hadj
  have e2 : dot (nct Q.inner.dim k) (Q.base.d k) 0 (qtl Q sol mask k st.ws.ws.tmp_lam_mask) 0
      = ∑ j ∈ range (nct Q.inner.dim k), Q.base.d k j * lamM (linQp Q sol.ux) sol k j := by
    simp only [dot]
    apply sum_congr rfl
    intro i hi
    simp only [Nat.zero_add]
    rw [qtl, qtl_val Q sol mask hm k hk _ i (mem_range.mp hi)]
  have e1 : dot (Q.base.dim.nu k + Q.base.dim.nx k)
      (axpy (Q.base.dim.nu k + Q.base.dim.nx k) (-1) (Q.base.rqz k) 0
        (symv_l (Q.base.dim.nu k + Q.base.dim.nx k) 1 (Q.base.RSQrq k) 0 0 (sol.ux k) 0 2 (Q.base.rqz k) 0 (st.res.res_g k) 0) 0
        (symv_l (Q.base.dim.nu k + Q.base.dim.nx k) 1 (Q.base.RSQrq k) 0 0 (sol.ux k) 0 2 (Q.base.rqz k) 0 (st.res.res_g k) 0) 0) 0
      (sol.ux k) 0 = ∑ i ∈ range (Q.base.dim.nu k + Q.base.dim.nx k),
        (hmul Q.inner k (sol.ux k) i + Q.base.rqz k i) * sol.ux k i := by
    simp only [dot]
    apply sum_congr rfl
    intro i hi
    have := mem_range.mp hi
    simp only [Nat.zero_add]
    rw [axpy_in (by omega)]
    simp only [Nat.sub_zero, Nat.zero_add]
    rw [symv_l_in (by omega)]
    simp only [Nat.sub_zero, Nat.zero_add, hmul]
    have a : ∀ x y z : K, (2 * x + 1 * y + -1 * x) * z = (y + x) * z := by intros; ring
    exact a _ _ _
  have e4 : ∀ z, dot (2 * Q.base.dim.ns k)
        (axpy (2 * Q.base.dim.ns k) (-1) (Q.base.rqz k) (Q.base.dim.nu k + Q.base.dim.nx k)
          (gemv_diag (2 * Q.base.dim.ns k) 1 (Q.base.Z k) 0 (sol.ux k) (Q.base.dim.nu k + Q.base.dim.nx k) 2 (Q.base.rqz k)
            (Q.base.dim.nu k + Q.base.dim.nx k) z (Q.base.dim.nu k + Q.base.dim.nx k)) (Q.base.dim.nu k + Q.base.dim.nx k)
          (gemv_diag (2 * Q.base.dim.ns k) 1 (Q.base.Z k) 0 (sol.ux k) (Q.base.dim.nu k + Q.base.dim.nx k) 2 (Q.base.rqz k)
            (Q.base.dim.nu k + Q.base.dim.nx k) z (Q.base.dim.nu k + Q.base.dim.nx k)) (Q.base.dim.nu k + Q.base.dim.nx k))
          (Q.base.dim.nu k + Q.base.dim.nx k) (sol.ux k) (Q.base.dim.nu k + Q.base.dim.nx k)
        = ∑ s ∈ range (2 * Q.base.dim.ns k), (Q.base.Z k s * sol.ux k (Q.base.dim.nu k + Q.base.dim.nx k + s)
            + Q.base.rqz k (Q.base.dim.nu k + Q.base.dim.nx k + s)) * sol.ux k (Q.base.dim.nu k + Q.base.dim.nx k + s) := by
    intro z
    simp only [dot]
    apply sum_congr rfl
    intro s hs
    have := mem_range.mp hs
    have e : Q.base.dim.nu k + Q.base.dim.nx k + s - (Q.base.dim.nu k + Q.base.dim.nx k) = s := by omega
    rw [axpy_in (by omega), e, gemv_diag_in (by omega), e]
    simp only [Nat.zero_add]; ring
  have e5 : vGap (linQp Q sol.ux) sol k = (∑ i ∈ range (Q.base.dim.nu k + Q.base.dim.nx k),
        (hmul Q.inner k (sol.ux k) i + Q.base.rqz k i) * sol.ux k i)
      + (∑ s ∈ range (2 * Q.base.dim.ns k), (Q.base.Z k s * sol.ux k (Q.base.dim.nu k + Q.base.dim.nx k + s)
            + Q.base.rqz k (Q.base.dim.nu k + Q.base.dim.nx k + s)) * sol.ux k (Q.base.dim.nu k + Q.base.dim.nx k + s))
      - (∑ j ∈ range (nct Q.inner.dim k), (linQp Q sol.ux).d k j * lamM (linQp Q sol.ux) sol k j)
      - (if k < Q.base.dim.N then ∑ j ∈ range (Q.base.dim.nx (k + 1)), Q.base.b k j * sol.pi k j else 0) := rfl
  have e6 : ∑ j ∈ range (Q.nq k), qtl Q sol mask k st.ws.ws.tmp_lam_mask (2 * Q.base.dim.nb k + 2 * Q.base.dim.ng k + Q.nq k + j)
        * qForm Q k j (sol.ux k)
      = ∑ j ∈ range (Q.nq k), lamM (linQp Q sol.ux) sol k (2 * Q.base.dim.nb k + 2 * Q.base.dim.ng k + Q.nq k + j)
          * qForm Q k j (sol.ux k) := by
    apply sum_congr rfl
    intro j hj
    have hj := mem_range.mp hj
    rw [qtl, qtl_val Q sol mask hm k hk _ _ (by simp only [nct, Qcqp.inner]; omega)]
  have e3 : ∀ x : K, (if decide (k < Q.base.dim.N) = true then x - dot (Q.base.dim.nx (k + 1)) (Q.base.b k) 0 (sol.pi k) 0 else x)
      = x - (if k < Q.base.dim.N then ∑ j ∈ range (Q.base.dim.nx (k + 1)), Q.base.b k j * sol.pi k j else 0) := by
    intro x
    by_cases hN : k < Q.base.dim.N
    · simp [hN, dot]
    · simp [hN]
  rw [e5, lin_dlam, ← e6, ← e2]
  simp only [qresStage]
  rw [e3, e1]
  rw [show ∀ a b c d e f : K, a + (b + c - (d - e) - f) = (a + b + e + c - d) - f by intros; ring]
  congr 2
  simp only [cond_vecad, cond_gemv_n, cond_vecex, cond_gemv_t]
  rw [cond_nil (Q.base.dim.nb k + (Q.base.dim.ng k + Q.nq k) > 0)
      (axpy (Q.base.dim.nb k + (Q.base.dim.ng k + Q.nq k)) (-1) (vecse _ _ _ _) _ _ _ _ _) _
      (fun h => axpy_nil _ (by omega) _ _ _ _ _ _ _)]
  by_cases h : Q.base.dim.ns k > 0
  · simp only [h, decide_true, if_true]
    rw [e4]
    exact congrArg (· + _) (hb _ _ _ _ _).2.1
  · have h0 : 2 * Q.base.dim.ns k = 0 := by omega
    simp only [h, decide_false, Bool.false_eq_true, if_false]
    rw [h0, range_zero, sum_empty, add_zero]
    exact (hb _ _ _ _ _).2.1

/-- a stage touches only its own vectors and leaves the caches alone -/
theorem qresStage_frame (Q : Qcqp K) (sol : Sol K) (mask : Bool) (k l : ℕ) (h : l ≠ k) (st : QresSt K) :
    (qresStage Q sol mask k st).res.res_g l = st.res.res_g l ∧
    (qresStage Q sol mask k st).res.res_b l = st.res.res_b l ∧
    (qresStage Q sol mask k st).res.res_d l = st.res.res_d l ∧
    (qresStage Q sol mask k st).res.res_m l = st.res.res_m l := by
  simp only [qresStage, upd_ne _ _ h, and_self]

theorem qresStage_cache (Q : Qcqp K) (sol : Sol K) (mask : Bool) (k : ℕ) (st : QresSt K) :
    (qresStage Q sol mask k st).ws.use_q_fun = st.ws.use_q_fun ∧
    (qresStage Q sol mask k st).ws.use_q_adj = st.ws.use_q_adj ∧
    (qresStage Q sol mask k st).ws.q_fun = st.ws.q_fun ∧
    (qresStage Q sol mask k st).ws.q_adj = st.ws.q_adj := by
  simp only [qresStage, and_self]

theorem lamM_up (Q : Qcqp K) (z : ℕ → Vec K) (sol : Sol K) (k j : ℕ) :
    lamM (linQp Q z) sol k (2 * Q.base.dim.nb k + 2 * Q.base.dim.ng k + Q.nq k + j)
    = Q.base.d_mask k (2 * Q.base.dim.nb k + 2 * Q.base.dim.ng k + Q.nq k + j)
      * sol.lam k (2 * Q.base.dim.nb k + 2 * Q.base.dim.ng k + Q.nq k + j) := by
  have el : ∀ i, lamM (linQp Q z) sol k i = (if LoQ Q k i then 0 else Q.base.d_mask k i) * sol.lam k i := fun _ => rfl
  rw [el, if_neg (by unfold LoQ; omega)]

theorem CacheCond.at {Q : Qcqp K} {sol : Sol K} {ws : QresWs K} (h : CacheCond Q sol ws) (ws' : QresWs K)
    (e1 : ws'.use_q_fun = ws.use_q_fun) (e2 : ws'.use_q_adj = ws.use_q_adj) (e3 : ws'.q_fun = ws.q_fun)
    (e4 : ws'.q_adj = ws.q_adj) (k : ℕ) (hk : k ≤ Q.base.dim.N) : CacheAt Q sol k ws' := by
  refine ⟨fun hu j hj => ?_, fun hu i hi => ?_⟩
  · rw [e1, e2] at hu
    rw [e3]; exact (h hu).f k j hk hj
  · rw [e1, e2] at hu
    rw [e4, (h hu).adj k i hk hi]
    exact sum_congr rfl fun j _ => by rw [lamM_up]

/-- all stages of OCP_QCQP_RES_COMPUTE -/
theorem qresLoop_ok (Q : Qcqp K) (hwf : Q.WF) (sol : Sol K) (mask : Bool) (hm : MaskOk Q.inner mask) (st : QresSt K)
    (hc : CacheCond Q sol st.ws) (n : ℕ) (hn : n ≤ Q.base.dim.N + 1) :
    (∀ k, k < n → QStageOk Q sol k (loop n (qresStage Q sol mask) st).res) ∧
    (loop n (qresStage Q sol mask) st).res.obj = st.res.obj + ∑ k ∈ range n, vObj Q.inner sol k ∧
    (loop n (qresStage Q sol mask) st).res.dual_gap = st.res.dual_gap + ∑ k ∈ range n, vGap (linQp Q sol.ux) sol k ∧
    (loop n (qresStage Q sol mask) st).mu = st.mu
      + ∑ k ∈ range n, ∑ j ∈ range (nct Q.inner.dim k), lamM (linQp Q sol.ux) sol k j * sol.t k j := by
  have key := loop_inv (fun n (s : QresSt K) => (s.ws.use_q_fun = st.ws.use_q_fun ∧ s.ws.use_q_adj = st.ws.use_q_adj ∧
      s.ws.q_fun = st.ws.q_fun ∧ s.ws.q_adj = st.ws.q_adj) ∧
    (∀ k, k < n → QStageOk Q sol k s.res) ∧
    s.res.obj = st.res.obj + ∑ k ∈ range n, vObj Q.inner sol k ∧
    s.res.dual_gap = st.res.dual_gap + ∑ k ∈ range n, vGap (linQp Q sol.ux) sol k ∧
    s.mu = st.mu + ∑ k ∈ range n, ∑ j ∈ range (nct Q.inner.dim k), lamM (linQp Q sol.ux) sol k j * sol.t k j)
    n (qresStage Q sol mask) st ?_ ?_
  · exact key.2
  · refine ⟨⟨rfl, rfl, rfl, rfl⟩, fun k hk => by omega, by simp, by simp, by simp⟩
  · intro i s hi ⟨⟨c1, c2, c3, c4⟩, h1, h2, h3, h4⟩
    have hca := hc.at s.ws c1 c2 c3 c4 i (by omega)
    obtain ⟨d1, d2, d3, d4⟩ := qresStage_cache Q sol mask i s
    refine ⟨⟨d1.trans c1, d2.trans c2, d3.trans c3, d4.trans c4⟩, fun k hk => ?_, ?_, ?_, ?_⟩
    · by_cases hki : k = i
      · subst hki
        exact ⟨qresStage_g Q hwf sol mask hm k (by omega) s hca,
          fun hN => qresStage_b Q sol mask k s hN,
          qresStage_d Q hwf sol mask hm k (by omega) s hca,
          qresStage_m Q sol mask hm k (by omega) s⟩
      · obtain ⟨f1, f2, f3, f4⟩ := qresStage_frame Q sol mask i k hki s
        obtain ⟨g, b, d, m⟩ := h1 k (by omega)
        refine ⟨?_, ?_, ?_, ?_⟩
        · rw [f1]; exact g
        · rw [f2]; exact b
        · rw [f3]; exact d
        · rw [f4]; exact m
    · rw [qresStage_obj, h2, sum_range_succ, add_assoc]
    · rw [qresStage_gap Q sol mask hm i (by omega) s hca, h3, sum_range_succ, add_assoc]
    · rw [qresStage_mu Q sol mask hm i (by omega), h4, sum_range_succ, add_assoc]

/-- all closed forms of OCP_QCQP_RES_COMPUTE -/
theorem qresCompute_val (Q : Qcqp K) (hwf : Q.WF) (sol : Sol K) (res : Res K) (ws : QresWs K)
    (hws : ws.ws.Ok Q.inner) (hc : CacheCond Q sol ws) :
    (∀ k, k ≤ Q.base.dim.N → QStageOk Q sol k (qresCompute Q sol res ws)) ∧
    (qresCompute Q sol res ws).obj = ∑ k ∈ range (Q.base.dim.N + 1), vObj Q.inner sol k ∧
    (qresCompute Q sol res ws).dual_gap = ∑ k ∈ range (Q.base.dim.N + 1), vGap (linQp Q sol.ux) sol k ∧
    (qresCompute Q sol res ws).res_mu_sum = ∑ k ∈ range (Q.base.dim.N + 1), ∑ j ∈ range (nct Q.inner.dim k),
      lamM (linQp Q sol.ux) sol k j * sol.t k j ∧
    (qresCompute Q sol res ws).res_mu = (qresCompute Q sol res ws).res_mu_sum * (maskSel Q.inner ws.ws).2 := by
  obtain ⟨h1, h2, h3, h4⟩ := qresLoop_ok Q hwf sol (maskSel Q.inner ws.ws).1 (maskSel_ok Q.inner ws.ws hws)
    { res := { res with
        obj := 0
        dual_gap := 0 }
      ws := ws
      mu := 0 } hc (Q.base.dim.N + 1) (le_refl _)
  simp only [zero_add] at h2 h3 h4
  exact ⟨fun k hk => ⟨(h1 k (by omega)).g, (h1 k (by omega)).b, (h1 k (by omega)).d, (h1 k (by omega)).m⟩, h2, h3, h4, rfl⟩

end
end Hpipm
