/-
Closed forms of one stage of the reduction (intermediate results; user-level statements in
RedProps.lean).
-/
import Verif.RedVal

namespace Hpipm
open Finset
set_option linter.unusedSectionVars false

section
variable {K : Type*} [Field K] [LinearOrder K]

/-- a constraint vector restricted to the kept constraints -/
structure ConOk (qp : OcpQp K) (Dr : QpDim) (k : ℕ) (x y : Vec K) : Prop where
  lo : ∀ j, j < qp.dim.nb k → KeptBox qp k j → y (newBox qp k j) = x j
  up : ∀ j, j < qp.dim.nb k → KeptBox qp k j →
    y (Dr.nb k + Dr.ng k + newBox qp k j) = x (qp.dim.nb k + qp.dim.ng k + j)
  glo : ∀ j, j < qp.dim.ng k → y (Dr.nb k + j) = x (qp.dim.nb k + j)
  gup : ∀ j, j < qp.dim.ng k → y (Dr.nb k + Dr.ng k + (Dr.nb k + j)) = x (qp.dim.nb k + qp.dim.ng k + (qp.dim.nb k + j))
  sl : ∀ s, s < 2 * qp.dim.ns k → y (2 * (Dr.nb k + Dr.ng k) + s) = x (2 * (qp.dim.nb k + qp.dim.ng k) + s)

/-- right-hand side of the constraints, shifted by the fixed variables -/
structure ConDOk (qp : OcpQp K) (Dr : QpDim) (k : ℕ) (fix x y : Vec K) : Prop where
  lo : ∀ j, j < qp.dim.nb k → KeptBox qp k j → y (newBox qp k j) = x j
  up : ∀ j, j < qp.dim.nb k → KeptBox qp k j →
    y (Dr.nb k + Dr.ng k + newBox qp k j) = x (qp.dim.nb k + qp.dim.ng k + j)
  glo : ∀ j, j < qp.dim.ng k → y (Dr.nb k + j) = x (qp.dim.nb k + j)
    - ∑ i ∈ range (qp.dim.nu k + qp.dim.nx k), qp.DCt k i j * fixv qp fix k i
  gup : ∀ j, j < qp.dim.ng k → y (Dr.nb k + Dr.ng k + (Dr.nb k + j)) = x (qp.dim.nb k + qp.dim.ng k + (qp.dim.nb k + j))
    + ∑ i ∈ range (qp.dim.nu k + qp.dim.nx k), qp.DCt k i j * fixv qp fix k i
  sl : ∀ s, s < 2 * qp.dim.ns k → y (2 * (Dr.nb k + Dr.ng k) + s) = x (2 * (qp.dim.nb k + qp.dim.ng k) + s)

/-- gradient at the fixed values, restricted to the kept variables -/
structure GradOk (qp : OcpQp K) (Dr : QpDim) (k : ℕ) (fix x y : Vec K) : Prop where
  var : ∀ j, j < qp.dim.nu k + qp.dim.nx k → Kept qp k j → y (newPos qp k j) = x j
    + ∑ i ∈ range (qp.dim.nu k + qp.dim.nx k), symL (qp.RSQrq k) 0 0 j i * fixv qp fix k i
  sl : ∀ s, s < 2 * qp.dim.ns k → y (Dr.nu k + Dr.nx k + s) = x (qp.dim.nu k + qp.dim.nx k + s)

/-- matrices and index lists restricted to the kept variables and boxes -/
structure RedMatOk (qp red : OcpQp K) (k : ℕ) : Prop where
  BAbt : k < qp.dim.N → ∀ j, j < qp.dim.nu k + qp.dim.nx k → Kept qp k j → ∀ i, i < qp.dim.nx (k + 1) →
    red.BAbt k (newPos qp k j) i = qp.BAbt k j i
  hess : ∀ i j, i < qp.dim.nu k + qp.dim.nx k → j < qp.dim.nu k + qp.dim.nx k → Kept qp k i → Kept qp k j →
    symL (red.RSQrq k) 0 0 (newPos qp k i) (newPos qp k j) = symL (qp.RSQrq k) 0 0 i j
  DCt : ∀ j, j < qp.dim.nu k + qp.dim.nx k → Kept qp k j → ∀ i, i < qp.dim.ng k →
    red.DCt k (newPos qp k j) i = qp.DCt k j i
  Z : ∀ s, s < 2 * qp.dim.ns k → red.Z k s = qp.Z k s
  idxb : ∀ j, j < qp.dim.nb k → KeptBox qp k j → red.idxb k (newBox qp k j) = qp.idxb k j
  soft : ∀ j, j < qp.dim.nb k → KeptBox qp k j → red.idxs_rev k (newBox qp k j) = qp.idxs_rev k j
  softg : ∀ j, j < qp.dim.ng k → red.idxs_rev k (red.dim.nb k + j) = qp.idxs_rev k (qp.dim.nb k + j)

/-- vectors of a reduced stage -/
structure RedVecOk (qp red : OcpQp K) (k : ℕ) : Prop where
  b : k < qp.dim.N → ∀ i, i < qp.dim.nx (k + 1) → red.b k i = qp.b k i
    + ∑ j ∈ range (qp.dim.nu k + qp.dim.nx k), qp.BAbt k j i * fixv qp (qp.d k) k j
  g : GradOk qp red.dim k (qp.d k) (qp.rqz k) (red.rqz k)
  d : ConDOk qp red.dim k (qp.d k) (qp.d k) (red.d k)
  mask : ConOk qp red.dim k (qp.d_mask k) (red.d_mask k)
  m : ConOk qp red.dim k (qp.m k) (red.m k)

variable {qp : OcpQp K} (hq : EqOk qp) {Dr : QpDim} (hd : RedDim qp.dim Dr) {k : ℕ} (hk : k ≤ qp.dim.N)
include hq hd hk

theorem redCon_ok (mask : ℕ → ℕ) (hm : ∀ j, j < qp.dim.nb k → (mask j = 0 ↔ KeptBox qp k j)) (x y : Vec K) :
    ConOk qp Dr k x (redCon qp.dim Dr k mask x y) := by
  obtain ⟨-, -, h3⟩ := red_sizes qp hq Dr hd k hk
  have hng := hd.ng k hk
  have hv := sqBox_val (qp.dim.nb k) (qp.dim.nb k + qp.dim.ng k) (Dr.nb k + Dr.ng k) mask x y (KeptBox qp k) hm
    (by change newBox qp k _ ≤ _; omega)
  have hlt : ∀ j, j < qp.dim.nb k → KeptBox qp k j → newBox qp k j < Dr.nb k := by
    intro j hj hkj; rw [← h3]; exact count_lt_of hkj hj
  refine ⟨fun j hj hkj => ?_, fun j hj hkj => ?_, fun j hj => ?_, fun j hj => ?_, fun s hs => ?_⟩
  · have := hlt j hj hkj
    simp only [redCon]
    rw [veccp_out (by omega), veccp_out (by omega)]
    exact (hv j hj hkj).1
  · have := hlt j hj hkj
    simp only [redCon]
    rw [veccp_out (by omega), veccp_out (by omega)]
    exact (hv j hj hkj).2
  · simp only [redCon]
    rw [veccp_out (by omega), veccp_in (by omega)]; congr 1; omega
  · simp only [redCon]
    rw [veccp_in (by omega)]; congr 1; omega
  · simp only [redCon]
    rw [veccp_in (by omega)]; congr 1; omega

theorem redConD_ok (ws : RedWs K) (fix : Vec K) (hm : ∀ j, j < qp.dim.nb k → (ws.imd j = 0 ↔ KeptBox qp k j))
    (ht : ∀ j, j < qp.dim.nu k + qp.dim.nx k → ws.tmp0 j = fixv qp fix k j) (x y : Vec K) :
    ConDOk qp Dr k fix x (redConD qp Dr k ws x y).2 := by
  obtain ⟨-, -, h3⟩ := red_sizes qp hq Dr hd k hk
  have hng := hd.ng k hk
  have hc := redCon_ok hq hd hk ws.imd hm x y
  have hlt : ∀ j, j < qp.dim.nb k → KeptBox qp k j → newBox qp k j < Dr.nb k := by
    intro j hj hkj; rw [← h3]; exact count_lt_of hkj hj
  have hs : ∀ j, j < qp.dim.ng k → gemv_t (qp.dim.nu k + qp.dim.nx k) (qp.dim.ng k) 1 (qp.DCt k) 0 0 ws.tmp0 0 0 ws.tmpg 0 ws.tmpg 0 j
      = ∑ i ∈ range (qp.dim.nu k + qp.dim.nx k), qp.DCt k i j * fixv qp fix k i := by
    intro j hj
    rw [gemv_t_in (by omega)]
    simp only [Nat.zero_add, Nat.sub_zero, zero_mul, one_mul, zero_add]
    exact sum_congr rfl (fun i hi => by rw [ht i (mem_range.mp hi)])
  refine ⟨fun j hj hkj => ?_, fun j hj hkj => ?_, fun j hj => ?_, fun j hj => ?_, fun s hs' => ?_⟩
  · have := hlt j hj hkj
    simp only [redConD]
    rw [axpy_out (by omega), axpy_out (by omega)]
    exact hc.lo j hj hkj
  · have := hlt j hj hkj
    simp only [redConD]
    rw [axpy_out (by omega), axpy_out (by omega)]
    exact hc.up j hj hkj
  · simp only [redConD]
    rw [axpy_out (by omega), axpy_in (by omega), show 0 + (Dr.nb k + j - Dr.nb k) = j by omega, hs j hj,
      show qp.dim.nb k + (Dr.nb k + j - Dr.nb k) = qp.dim.nb k + j by omega]
    ring
  · simp only [redConD]
    rw [axpy_in (by omega), show 0 + (Dr.nb k + Dr.ng k + (Dr.nb k + j) - (2 * Dr.nb k + Dr.ng k)) = j by omega, hs j hj,
      show 2 * qp.dim.nb k + qp.dim.ng k + (Dr.nb k + Dr.ng k + (Dr.nb k + j) - (2 * Dr.nb k + Dr.ng k)) =
        qp.dim.nb k + qp.dim.ng k + (qp.dim.nb k + j) by omega]
    ring
  · simp only [redConD]
    rw [axpy_out (by omega), axpy_out (by omega)]
    exact hc.sl s hs'

theorem redGrad_ok (ws : RedWs K) (fix : Vec K)
    (hm : ∀ j, j < qp.dim.nu k + qp.dim.nx k → (ws.imux j = 0 ↔ Kept qp k j))
    (ht : ∀ j, j < qp.dim.nu k + qp.dim.nx k → ws.tmp0 j = fixv qp fix k j) (x y : Vec K) :
    GradOk qp Dr k fix x (redGrad qp Dr k ws x y).2 := by
  obtain ⟨-, h2, -⟩ := red_sizes qp hq Dr hd k hk
  have hv := sqVec_val (qp.dim.nu k + qp.dim.nx k) ws.imux
    (symv_l (qp.dim.nu k + qp.dim.nx k) 1 (qp.RSQrq k) 0 0 ws.tmp0 0 1 x 0 ws.tmp1 0) y (Kept qp k) hm
  refine ⟨fun j hj hkj => ?_, fun s hs => ?_⟩
  · have hlt : newPos qp k j < Dr.nu k + Dr.nx k := by rw [← h2]; exact count_lt_of hkj hj
    simp only [redGrad]
    rw [veccp_out (by omega)]
    refine (hv.1 j hj hkj).trans ?_
    rw [symv_l_in (by omega)]
    simp only [Nat.zero_add, Nat.sub_zero, one_mul]
    congr 1
    exact sum_congr rfl (fun i hi => by rw [ht i (mem_range.mp hi)])
  · simp only [redGrad]
    rw [veccp_in (by omega)]; congr 1; omega

theorem redB_ok (ws : RedWs K) (fix : Vec K)
    (ht : ∀ j, j < qp.dim.nu k + qp.dim.nx k → ws.tmp0 j = fixv qp fix k j) (x y : Vec K) (i : ℕ)
    (hi : i < qp.dim.nx (k + 1)) : redB qp k ws x y i = x i
    + ∑ j ∈ range (qp.dim.nu k + qp.dim.nx k), qp.BAbt k j i * fixv qp fix k j := by
  simp only [redB]
  rw [gemv_t_in (by omega)]
  simp only [Nat.zero_add, Nat.sub_zero, one_mul]
  congr 1
  exact sum_congr rfl (fun i hi => by rw [ht i (mem_range.mp hi)])

omit hq hd hk in
theorem fixv_none (fix : Vec K) (h : neThr qp.dim k = 0) (j : ℕ) : fixv qp fix k j = 0 := by
  simp [fixv, h]

/-- copying is the closed form when nothing is removed -/
theorem con_copy (h : neThr qp.dim k = 0) (x y : Vec K) : ConOk qp Dr k x (veccp (nct qp.dim k) x 0 y 0) := by
  obtain ⟨-, -, h3⟩ := red_sizes qp hq Dr hd k hk
  have hng := hd.ng k hk
  obtain ⟨-, -, -, hb⟩ := kept_triv qp k h
  rw [hb] at h3
  refine ⟨fun j hj hkj => ?_, fun j hj hkj => ?_, fun j hj => ?_, fun j hj => ?_, fun s hs => ?_⟩ <;>
    (try rw [hb]) <;> rw [veccp_in (by unfold nct; omega)] <;> congr 1 <;> omega

theorem conD_copy (h : neThr qp.dim k = 0) (fix x y : Vec K) :
    ConDOk qp Dr k fix x (veccp (nct qp.dim k) x 0 y 0) := by
  have hc := con_copy hq hd hk h x y
  refine ⟨hc.lo, hc.up, fun j hj => ?_, fun j hj => ?_, hc.sl⟩
  · rw [hc.glo j hj]; simp [fixv_none fix h]
  · rw [hc.gup j hj]; simp [fixv_none fix h]

theorem grad_copy (h : neThr qp.dim k = 0) (fix x y : Vec K) :
    GradOk qp Dr k fix x (veccp (qp.dim.nu k + qp.dim.nx k + 2 * qp.dim.ns k) x 0 y 0) := by
  obtain ⟨-, h2, -⟩ := red_sizes qp hq Dr hd k hk
  obtain ⟨-, -, hp, -⟩ := kept_triv qp k h
  rw [hp] at h2
  refine ⟨fun j hj hkj => ?_, fun s hs => ?_⟩
  · rw [hp, veccp_in (by omega)]; simp [fixv_none fix h]
  · rw [veccp_in (by omega)]; congr 1; omega

end

section
variable {K : Type*} [Field K] [LinearOrder K]

theorem upd_at {α : Type*} (a : ℕ → α) (i : ℕ) (v : α) : upd a i v i = v := upd_same a i v

theorem redMats_ok {qp : OcpQp K} (hq : EqOk qp) (red : OcpQp K) (hd : RedDim qp.dim red.dim) {k : ℕ}
    (hk : k ≤ qp.dim.N) (ws : RedWs K)
    (hmu : ∀ j, j < qp.dim.nu k + qp.dim.nx k → (ws.imux j = 0 ↔ Kept qp k j))
    (hmd : ∀ j, j < qp.dim.nb k → (ws.imd j = 0 ↔ KeptBox qp k j)) :
    RedMatOk qp (redMats qp k (red, ws)).1 k := by
  obtain ⟨-, -, h3⟩ := red_sizes qp hq red.dim hd k hk
  have hix : ∀ (n : ℕ) (g : ℕ → ℤ) (a : ℕ → ℤ) (o i : ℕ),
      loop n (fun jj a => upd a (o + jj) (g jj)) a i = if o ≤ i ∧ i < o + n then g (i - o) else a i := by
    intro n g a o i
    induction n with
    | zero => simp [show ¬ (o ≤ i ∧ i < o + 0) by omega]
    | succ n ih =>
      rw [loop_succ]
      by_cases h : i = o + n
      · subst h; simp
      · rw [upd_ne _ _ h, ih]; congr 1; apply propext; omega
  refine ⟨fun hN j hj hkj i hi => ?_, fun i j hi hj hki hkj => ?_, fun j hj hkj i hi => ?_, fun s hs => ?_,
    fun j hj hkj => ?_, fun j hj hkj => ?_, fun j hj => ?_⟩
  · simp only [redMats, if_pos hN, upd_same]
    exact sqRows_val _ _ _ _ _ _ hmu j hj hkj i hi
  · simp only [redMats, upd_same]
    exact symL_sqSym _ _ _ _ _ hmu i j hi hj hki hkj
  · simp only [redMats, upd_same]
    exact sqRows_val _ _ _ _ _ _ hmu j hj hkj i hi
  · simp only [redMats, upd_same]
    rw [veccp_in (by omega)]; congr 1; omega
  · simp only [redMats, redIdx, upd_same]
    exact (sqVec_val _ _ _ _ _ hmd).1 j hj hkj
  · simp only [redMats, redIdx, upd_same]
    have hlt : newBox qp k j < red.dim.nb k := by rw [← h3]; exact count_lt_of hkj hj
    rw [hix (qp.dim.ng k) (fun jj => qp.idxs_rev k (qp.dim.nb k + jj)), if_neg (by omega)]
    exact (sqVec_val _ _ _ _ _ hmd).1 j hj hkj
  · simp only [redMats, redIdx, upd_same]
    rw [hix (qp.dim.ng k) (fun jj => qp.idxs_rev k (qp.dim.nb k + jj)), if_pos (by omega)]; congr 2; omega

theorem redVecs_ok {qp : OcpQp K} (hq : EqOk qp) (red : OcpQp K) (hd : RedDim qp.dim red.dim) {k : ℕ}
    (hk : k ≤ qp.dim.N) (ws : RedWs K)
    (hmu : ∀ j, j < qp.dim.nu k + qp.dim.nx k → (ws.imux j = 0 ↔ Kept qp k j))
    (hmd : ∀ j, j < qp.dim.nb k → (ws.imd j = 0 ↔ KeptBox qp k j))
    (ht : ∀ j, j < qp.dim.nu k + qp.dim.nx k → ws.tmp0 j = fixv qp (qp.d k) k j) :
    RedVecOk qp (redVecs qp k (red, ws)).1 k := by
  refine ⟨fun hN i hi => ?_, ?_, ?_, ?_, ?_⟩
  · simp only [redVecs, if_pos hN, upd_same]
    exact redB_ok hq hd hk ws (qp.d k) ht _ _ i hi
  · simp only [redVecs, upd_same]; exact redGrad_ok hq hd hk ws (qp.d k) hmu ht _ _
  · simp only [redVecs, upd_same]; exact redConD_ok hq hd hk ws (qp.d k) hmd ht _ _
  · simp only [redVecs, upd_same]; exact redCon_ok hq hd hk ws.imd hmd _ _
  · simp only [redVecs, upd_same]; exact redCon_ok hq hd hk ws.imd hmd _ _

theorem redCopyVec_ok {qp : OcpQp K} (hq : EqOk qp) (red : OcpQp K) (hd : RedDim qp.dim red.dim) {k : ℕ}
    (hk : k ≤ qp.dim.N) (h : neThr qp.dim k = 0) : RedVecOk qp (redCopyVec qp k red) k := by
  refine ⟨fun hN i hi => ?_, ?_, ?_, ?_, ?_⟩
  · simp only [redCopyVec, if_pos hN, upd_same]
    rw [veccp_in (by omega)]; simp [fixv_none _ h]
  · simp only [redCopyVec, upd_same]; exact grad_copy hq hd hk h _ _ _
  · simp only [redCopyVec, upd_same]; exact conD_copy hq hd hk h _ _ _
  · simp only [redCopyVec, upd_same]; exact con_copy hq hd hk h _ _
  · simp only [redCopyVec, upd_same]; exact con_copy hq hd hk h _ _

theorem redCopyMat_ok {qp : OcpQp K} (hq : EqOk qp) (arg : RedArg K) (red : OcpQp K) (hd : RedDim qp.dim red.dim) {k : ℕ}
    (hk : k ≤ qp.dim.N) (h : neThr qp.dim k = 0) : RedMatOk qp (redCopyMat arg qp k red) k := by
  obtain ⟨-, -, h3⟩ := red_sizes qp hq red.dim hd k hk
  obtain ⟨-, -, hp, hb⟩ := kept_triv qp k h
  rw [hb] at h3
  cases ha : arg.alias_unchanged
  · refine ⟨fun hN j hj hkj i hi => ?_, fun i j hi hj hki hkj => ?_, fun j hj hkj i hi => ?_, fun s hs => ?_,
      fun j hj hkj => ?_, fun j hj hkj => ?_, fun j hj => ?_⟩
    · simp only [redCopyMat, ha, if_pos hN, upd_same, hp]
      simp only [Bool.false_eq_true, if_false, if_pos hN, upd_same, gecp]
      rw [if_pos (by omega)]; congr 1 <;> omega
    · simp only [redCopyMat, ha, hp, Bool.false_eq_true, if_false, upd_same, symL, gecp, Nat.zero_add]
      by_cases hij : j ≤ i
      · simp only [if_pos hij]; rw [if_pos (by omega)]; congr 1
      · simp only [if_neg hij]; rw [if_pos (by omega)]; congr 1
    · simp only [redCopyMat, ha, hp, Bool.false_eq_true, if_false, upd_same, gecp]
      rw [if_pos (by omega)]; congr 1 <;> omega
    · simp only [redCopyMat, ha, Bool.false_eq_true, if_false, upd_same]
      rw [veccp_in (by omega)]; congr 1; omega
    · simp only [redCopyMat, ha, hb, Bool.false_eq_true, if_false, upd_same]
      rw [loop_upd, mix_lt _ _ hj]
    · simp only [redCopyMat, ha, hb, Bool.false_eq_true, if_false, upd_same]
      rw [loop_upd, mix_lt _ _ (by omega)]
    · simp only [redCopyMat, ha, Bool.false_eq_true, if_false, upd_same]
      rw [loop_upd, mix_lt _ _ (by omega)]; congr 1; omega
  · refine ⟨fun hN j hj hkj i hi => ?_, fun i j hi hj hki hkj => ?_, fun j hj hkj i hi => ?_, fun s hs => ?_,
      fun j hj hkj => ?_, fun j hj hkj => ?_, fun j hj => ?_⟩
    · simp only [redCopyMat, ha, hp, if_true, if_pos hN, upd_same]
    · simp only [redCopyMat, ha, hp, if_true, upd_same]
    · simp only [redCopyMat, ha, hp, if_true, upd_same]
    · simp only [redCopyMat, ha, if_true, upd_same]
    · simp only [redCopyMat, ha, hb, if_true, upd_same]
    · simp only [redCopyMat, ha, hb, if_true, upd_same]
    · simp only [redCopyMat, ha, if_true, upd_same]; congr 1; omega

/-- what the closed forms read -/
theorem RedMatOk.congr {qp red red' : OcpQp K} {k : ℕ} (h : RedMatOk qp red k) (hd : red'.dim = red.dim)
    (h1 : red'.BAbt k = red.BAbt k) (h2 : red'.RSQrq k = red.RSQrq k) (h3 : red'.DCt k = red.DCt k)
    (h4 : red'.Z k = red.Z k) (h5 : red'.idxb k = red.idxb k) (h6 : red'.idxs_rev k = red.idxs_rev k) :
    RedMatOk qp red' k := by
  refine ⟨?_, ?_, ?_, ?_, ?_, ?_, ?_⟩
  · rw [h1]; exact h.BAbt
  · rw [h2]; exact h.hess
  · rw [h3]; exact h.DCt
  · rw [h4]; exact h.Z
  · rw [h5]; exact h.idxb
  · rw [h6]; exact h.soft
  · rw [h6, hd]; exact h.softg

theorem RedVecOk.congr {qp red red' : OcpQp K} {k : ℕ} (h : RedVecOk qp red k) (hd : red'.dim = red.dim)
    (h1 : red'.b k = red.b k) (h2 : red'.rqz k = red.rqz k) (h3 : red'.d k = red.d k)
    (h4 : red'.d_mask k = red.d_mask k) (h5 : red'.m k = red.m k) : RedVecOk qp red' k := by
  refine ⟨?_, ?_, ?_, ?_, ?_⟩
  · rw [h1]; exact h.b
  · rw [h2, hd]; exact h.g
  · rw [h3, hd]; exact h.d
  · rw [h4, hd]; exact h.mask
  · rw [h5, hd]; exact h.m

/-- a stage of the object is the same -/
structure SameMat (p q : OcpQp K) (l : ℕ) : Prop where
  BAbt : p.BAbt l = q.BAbt l
  RSQrq : p.RSQrq l = q.RSQrq l
  DCt : p.DCt l = q.DCt l
  Z : p.Z l = q.Z l
  idxb : p.idxb l = q.idxb l
  idxs : p.idxs_rev l = q.idxs_rev l
structure SameVec (p q : OcpQp K) (l : ℕ) : Prop where
  b : p.b l = q.b l
  rqz : p.rqz l = q.rqz l
  d : p.d l = q.d l
  d_mask : p.d_mask l = q.d_mask l
  m : p.m l = q.m l

theorem redMats_frame (qp red : OcpQp K) (ws : RedWs K) (k : ℕ) :
    (redMats qp k (red, ws)).1.dim = red.dim ∧ (∀ l, SameVec (redMats qp k (red, ws)).1 red l) ∧
    (∀ l, l ≠ k → SameMat (redMats qp k (red, ws)).1 red l) ∧ (redMats qp k (red, ws)).2 = ws := by
  refine ⟨rfl, fun l => ⟨rfl, rfl, rfl, rfl, rfl⟩, fun l hl => ⟨?_, ?_, ?_, ?_, ?_, ?_⟩, rfl⟩
  · simp only [redMats]; split
    · rw [upd_ne _ _ hl]
    · rfl
  all_goals (simp only [redMats]; rw [upd_ne _ _ hl])

theorem redVecs_frame (qp red : OcpQp K) (ws : RedWs K) (k : ℕ) :
    (redVecs qp k (red, ws)).1.dim = red.dim ∧ (∀ l, SameMat (redVecs qp k (red, ws)).1 red l) ∧
    (∀ l, l ≠ k → SameVec (redVecs qp k (red, ws)).1 red l) := by
  refine ⟨rfl, fun l => ⟨rfl, rfl, rfl, rfl, rfl, rfl⟩, fun l hl => ⟨?_, ?_, ?_, ?_, ?_⟩⟩
  · simp only [redVecs]; split
    · rw [upd_ne _ _ hl]
    · rfl
  all_goals (simp only [redVecs]; rw [upd_ne _ _ hl])

theorem redCopyMat_frame (arg : RedArg K) (qp red : OcpQp K) (k : ℕ) :
    (redCopyMat arg qp k red).dim = red.dim ∧ (∀ l, SameVec (redCopyMat arg qp k red) red l) ∧
    (∀ l, l ≠ k → SameMat (redCopyMat arg qp k red) red l) := by
  cases ha : arg.alias_unchanged
  all_goals
    simp only [redCopyMat, ha, Bool.false_eq_true, if_false, if_true]
    refine ⟨trivial, fun l => ⟨rfl, rfl, rfl, rfl, rfl⟩, fun l hl => ⟨?_, ?_, ?_, ?_, ?_, ?_⟩⟩
    · dsimp only; split
      · rw [upd_ne _ _ hl]
      · rfl
    all_goals (dsimp only; rw [upd_ne _ _ hl])

theorem redCopyVec_frame (qp red : OcpQp K) (k : ℕ) :
    (redCopyVec qp k red).dim = red.dim ∧ (∀ l, SameMat (redCopyVec qp k red) red l) ∧
    (∀ l, l ≠ k → SameVec (redCopyVec qp k red) red l) := by
  refine ⟨rfl, fun l => ⟨rfl, rfl, rfl, rfl, rfl, rfl⟩, fun l hl => ⟨?_, ?_, ?_, ?_, ?_⟩⟩
  · simp only [redCopyVec]; split
    · rw [upd_ne _ _ hl]
    · rfl
  all_goals (simp only [redCopyVec]; rw [upd_ne _ _ hl])

theorem RedMatOk.of_same {qp red red' : OcpQp K} {k : ℕ} (h : RedMatOk qp red k) (hd : red'.dim = red.dim)
    (hs : SameMat red' red k) : RedMatOk qp red' k :=
  h.congr hd hs.BAbt hs.RSQrq hs.DCt hs.Z hs.idxb hs.idxs
theorem RedVecOk.of_same {qp red red' : OcpQp K} {k : ℕ} (h : RedVecOk qp red k) (hd : red'.dim = red.dim)
    (hs : SameVec red' red k) : RedVecOk qp red' k := h.congr hd hs.b hs.rqz hs.d hs.d_mask hs.m

/-- OCP_QP_REDUCE_EQ_DOF: closed form of every stage -/
theorem redQp_ok {qp : OcpQp K} (hq : EqOk qp) (arg : RedArg K) (red : OcpQp K) (hd : RedDim qp.dim red.dim) (ws : RedWs K) :
    (redQp arg qp red ws).1.dim = red.dim ∧ ∀ k, k ≤ qp.dim.N →
      RedMatOk qp (redQp arg qp red ws).1 k ∧ RedVecOk qp (redQp arg qp red ws).1 k := by
  have h := loop_inv (fun n (s : OcpQp K × RedWs K) => s.1.dim = red.dim ∧ ∀ k, k < n → RedMatOk qp s.1 k ∧ RedVecOk qp s.1 k)
    (qp.dim.N + 1) (redStage arg qp) (red, ws) ⟨rfl, fun k hk => by omega⟩ ?_
  · exact ⟨h.1, fun k hk => h.2 k (by omega)⟩
  · rintro k ⟨r, w⟩ hk ⟨hdim, ih⟩
    simp only at hdim ih
    have hd' : RedDim qp.dim r.dim := by rw [hdim]; exact hd
    have hk' : k ≤ qp.dim.N := by omega
    unfold redStage
    by_cases hn : neThr qp.dim k > 0
    · simp only [if_pos hn]
      obtain ⟨m1, m2, m3⟩ := redMask_val qp hq k hk' (qp.d k) w
      set w' := redMask qp k (qp.d k) w with hw'
      obtain ⟨f1, f2, f3, f4⟩ := redMats_frame qp r w' k
      have hM := redMats_ok hq r hd' hk' w' m1 m2
      rcases h' : redMats qp k (r, w') with ⟨r', w''⟩
      rw [h'] at f1 f2 f3 f4 hM
      simp only at f1 f2 f3 f4 hM
      rw [f4] at h' ⊢; clear f4
      have hd'' : RedDim qp.dim r'.dim := by rw [f1]; exact hd'
      have hV := redVecs_ok hq r' hd'' hk' w' m1 m2 m3
      obtain ⟨g1, g2, g3⟩ := redVecs_frame qp r' w' k
      refine ⟨by rw [g1, f1, hdim], fun l hl => ?_⟩
      by_cases hlk : l = k
      · subst hlk
        exact ⟨hM.of_same g1 (g2 l), hV⟩
      · obtain ⟨a, b⟩ := ih l (by omega)
        exact ⟨(a.of_same f1 (f3 l hlk)).of_same g1 (g2 l), (b.of_same f1 (f2 l)).of_same g1 (g3 l hlk)⟩
    · simp only [if_neg hn]
      have hn0 : neThr qp.dim k = 0 := by omega
      obtain ⟨f1, f2, f3⟩ := redCopyVec_frame qp r k
      have hV := redCopyVec_ok hq r hd' hk' hn0
      have hd'' : RedDim qp.dim (redCopyVec qp k r).dim := by rw [f1]; exact hd'
      have hM := redCopyMat_ok hq arg (redCopyVec qp k r) hd'' hk' hn0
      obtain ⟨g1, g2, g3⟩ := redCopyMat_frame arg qp (redCopyVec qp k r) k
      refine ⟨by rw [g1, f1, hdim], fun l hl => ?_⟩
      by_cases hlk : l = k
      · subst hlk
        exact ⟨hM, hV.of_same g1 (g2 l)⟩
      · obtain ⟨a, b⟩ := ih l (by omega)
        exact ⟨(a.of_same f1 (f2 l)).of_same g1 (g3 l hlk), (b.of_same f1 (f3 l hlk)).of_same g1 (g2 l)⟩

end
end Hpipm
