/-
Removal of fixed variables: user-level properties of OCP_QP_REDUCE_EQ_DOF (C38, C39).
-/
import Verif.RedSolVal
import Verif.ResProps

namespace Hpipm
open Finset
set_option linter.unusedSectionVars false

/-- every kept box bounds a kept variable in front of which nothing was removed -/
def Aligned {K : Type*} [Field K] (qp : OcpQp K) : Prop :=
  ∀ k j, k ≤ qp.dim.N → j < qp.dim.nb k → KeptBox qp k j →
    ∀ i, i ≤ qp.idxb k j → Kept qp k i

/-- every removed box is an equality: active on both sides, not softened, lower bound = upper bound (upper
bounds are stored negated) -/
def Tight {K : Type*} [Field K] (qp : OcpQp K) : Prop :=
  ∀ k e, k ≤ qp.dim.N → e < neThr qp.dim k →
    qp.d k (qp.dim.nb k + qp.dim.ng k + qp.idxe k e) = - qp.d k (qp.idxe k e) ∧
    qp.d_mask k (qp.idxe k e) = 1 ∧ qp.d_mask k (qp.dim.nb k + qp.dim.ng k + qp.idxe k e) = 1 ∧
    qp.idxs_rev k (qp.idxe k e) = -1

section
variable {K : Type*} [Field K] [LinearOrder K] [IsStrictOrderedRing K]

/-- the closed form of all stages of a reduced problem -/
structure Reduced (qp red : OcpQp K) : Prop where
  dim : RedDim qp.dim red.dim
  mat : ∀ k, k ≤ qp.dim.N → RedMatOk qp red k
  vec : ∀ k, k ≤ qp.dim.N → RedVecOk qp red k

theorem redQp_reduced {qp : OcpQp K} (hq : EqOk qp) (arg : RedArg K) (red : OcpQp K) (hd : RedDim qp.dim red.dim)
    (ws : RedWs K) : Reduced qp (redQp arg qp red ws).1 := by
  obtain ⟨h1, h2⟩ := redQp_ok hq arg red hd ws
  exact ⟨by rw [h1]; exact hd, fun k hk => (h2 k hk).1, fun k hk => (h2 k hk).2⟩

variable {qp red : OcpQp K} (hq : EqOk qp) (hr : Reduced qp red)
include hq hr

/-- sums over the variables of the reduced stage -/
theorem sum_vars {k : ℕ} (hk : k ≤ qp.dim.N) (f : ℕ → K) :
    ∑ q ∈ range (red.dim.nu k + red.dim.nx k), f q =
    ∑ j ∈ range (qp.dim.nu k + qp.dim.nx k), if Kept qp k j then f (newPos qp k j) else 0 := by
  rw [← (red_sizes qp hq red.dim hr.dim k hk).2.1]
  exact sum_count (Kept qp k) _ f

theorem sum_boxes {k : ℕ} (hk : k ≤ qp.dim.N) (f : ℕ → K) :
    ∑ q ∈ range (red.dim.nb k), f q =
    ∑ j ∈ range (qp.dim.nb k), if KeptBox qp k j then f (newBox qp k j) else 0 := by
  rw [← (red_sizes qp hq red.dim hr.dim k hk).2.2]
  exact sum_count (KeptBox qp k) _ f

/-- linear forms -/
theorem lin_red {k : ℕ} (hk : k ≤ qp.dim.N) {fix v w : ℕ → Vec K} (hf : AtFixed qp fix v) (hs : SameKept qp red.dim v w)
    (c cr : Vec K) (hc : ∀ j, j < qp.dim.nu k + qp.dim.nx k → Kept qp k j → cr (newPos qp k j) = c j) :
    ∑ q ∈ range (red.dim.nu k + red.dim.nx k), cr q * w k q
      + ∑ j ∈ range (qp.dim.nu k + qp.dim.nx k), c j * fixv qp (fix k) k j =
    ∑ j ∈ range (qp.dim.nu k + qp.dim.nx k), c j * v k j := by
  rw [sum_vars hq hr hk, ← sum_add_distrib]
  refine sum_congr rfl (fun j hj => ?_)
  have hj := mem_range.mp hj
  conv_rhs => rw [split_fixed qp hq fix v hf k j hk]
  by_cases h : Kept qp k j
  · simp only [if_pos h]; rw [hc j hj h, hs.var k j hk hj h]; ring
  · simp only [if_neg h]; ring

/-- the reduced Hessian times the reduced point -/
theorem hmul_red {k : ℕ} (hk : k ≤ qp.dim.N) {fix v w : ℕ → Vec K} (hf : AtFixed qp fix v)
    (hs : SameKept qp red.dim v w) {i : ℕ} (hi : i < qp.dim.nu k + qp.dim.nx k) (hki : Kept qp k i) :
    hmul red k (w k) (newPos qp k i)
      + ∑ j ∈ range (qp.dim.nu k + qp.dim.nx k), symL (qp.RSQrq k) 0 0 i j * fixv qp (fix k) k j = hmul qp k (v k) i :=
  lin_red hq hr hk hf hs _ _ (fun j hj hkj => (hr.mat k hk).hess i j hi hj hki hkj)

theorem newPos_x {k : ℕ} (hk : k ≤ qp.dim.N) (h0 : k ≠ 0) (i : ℕ) :
    newPos qp k (qp.dim.nu k + i) = red.dim.nu k + i := by
  have h1 := newPos_state qp hq k i hk h0
  have h2 := newPos_inputs qp hq k hk
  have h3 := (red_sizes qp hq red.dim hr.dim k hk).1
  omega

/-- dynamics defect, packed form -/
theorem vB_red {v w : Sol K} (hf : AtFixed qp qp.d v.ux) (hs : SameKept qp red.dim v.ux w.ux) {k i : ℕ}
    (hk : k < qp.dim.N) (hi : i < qp.dim.nx (k + 1)) : vB red w k i = vB qp v k i := by
  unfold vB
  have h1 := lin_red hq hr (k := k) (by omega) hf hs (fun j => qp.BAbt k j i) (fun j => red.BAbt k j i)
    (fun j hj hkj => (hr.mat k (by omega)).BAbt hk j hj hkj i hi)
  have h2 := hs.var (k + 1) (qp.dim.nu (k + 1) + i) (by omega) (by omega) (kept_state qp hq (k + 1) i (by omega) (by omega))
  rw [newPos_x hq hr (by omega) (by omega)] at h2
  rw [h2, ← h1, (hr.vec k (by omega)).b hk i hi]; ring

/-- general constraints: value relative to the bounds, packed form -/
theorem cval_red {k : ℕ} (hk : k ≤ qp.dim.N) {fix v w : ℕ → Vec K} (hf : AtFixed qp fix v) (hs : SameKept qp red.dim v w)
    {j : ℕ} (hj : j < qp.dim.ng k) :
    cval red k (w k) (red.dim.nb k + j)
      + ∑ i ∈ range (qp.dim.nu k + qp.dim.nx k), qp.DCt k i j * fixv qp (fix k) k i = cval qp k (v k) (qp.dim.nb k + j) := by
  simp only [cval]
  rw [if_neg (by omega), if_neg (by omega), Nat.add_sub_cancel_left, Nat.add_sub_cancel_left]
  exact lin_red hq hr hk hf hs (fun i => qp.DCt k i j) (fun i => red.DCt k i j)
    (fun i hi hki => (hr.mat k hk).DCt i hi hki j hj)

/-- boxes -/
theorem cval_red_box {k : ℕ} (hk : k ≤ qp.dim.N) (hw : qp.WF) {v w : ℕ → Vec K} (hs : SameKept qp red.dim v w)
    {j : ℕ} (hj : j < qp.dim.nb k) (hkj : KeptBox qp k j) (ha : ∀ i, i ≤ qp.idxb k j → Kept qp k i) :
    cval red k (w k) (newBox qp k j) = cval qp k (v k) j ∧ red.idxb k (newBox qp k j) = newPos qp k (qp.idxb k j) := by
  have hlt : newBox qp k j < red.dim.nb k := by
    rw [← (red_sizes qp hq red.dim hr.dim k hk).2.2]; exact count_lt_of hkj hj
  have hp : newPos qp k (qp.idxb k j) = qp.idxb k j := Nat.count_of_forall (fun i hi => ha i (by omega))
  simp only [cval]
  rw [if_pos hlt, if_pos hj, (hr.mat k hk).idxb j hj hkj]
  refine ⟨?_, hp.symm⟩
  have := hs.var k (qp.idxb k j) hk (hw.1 k j hk hj) (ha _ (le_refl _))
  rw [hp] at this; exact this

/-- slack of a softened constraint -/
theorem slk_red {k : ℕ} (hk : k ≤ qp.dim.N) (hw : qp.WF) {v w : ℕ → Vec K} (hs : SameKept qp red.dim v w)
    (j q o : ℕ) (hj : j < qp.dim.nb k + qp.dim.ng k) (he : red.idxs_rev k q = qp.idxs_rev k j) (ho : o ≤ qp.dim.ns k) :
    slk red k (w k) (red.dim.nu k + red.dim.nx k + o) q = slk qp k (v k) (qp.dim.nu k + qp.dim.nx k + o) j := by
  simp only [slk, he]
  rcases hw.2 k j hk hj with h | ⟨h1, h2⟩
  · simp [h]
  · have hne : qp.idxs_rev k j ≠ -1 := by omega
    simp only [if_neg hne]
    have := hs.slack k (o + (qp.idxs_rev k j).toNat) hk (by omega)
    rw [← Nat.add_assoc, ← Nat.add_assoc] at this
    exact this

/-! ### C38 -/

/-- **C38 (dynamics).**  At a point whose removed variables have their fixed values, the reduced problem
reports the same dynamics defects. -/
theorem red_dynamics {v w : ℕ → Vec K} (hf : AtFixed qp qp.d v) (hs : SameKept qp red.dim v w) {k i : ℕ}
    (hk : k < qp.dim.N) (hi : i < qp.dim.nx (k + 1)) :
    (view red).dynDefect (ptOf red.dim w) k i = (view qp).dynDefect (ptOf qp.dim v) k i := by
  have h1 := dyn_packed red k ⟨w, fun _ _ => 0, fun _ _ => 0, fun _ _ => 0⟩ i
    (by rw [hr.dim.nx (k + 1) (by omega) (by omega)]; exact hi)
  have h2 := dyn_packed qp k ⟨v, fun _ _ => 0, fun _ _ => 0, fun _ _ => 0⟩ i hi
  rw [h1, h2]
  exact vB_red hq hr (v := ⟨v, fun _ _ => 0, fun _ _ => 0, fun _ _ => 0⟩) (w := ⟨w, fun _ _ => 0, fun _ _ => 0, fun _ _ => 0⟩)
    hf hs hk hi

/-- **C38 (general constraints).**  Every general constraint has the same distance to its lower and upper
bound, the same activation masks and the same slacks. -/
theorem red_general (hw : qp.WF) {v w : ℕ → Vec K} (hf : AtFixed qp qp.d v) (hs : SameKept qp red.dim v w) {k j : ℕ}
    (hk : k ≤ qp.dim.N) (hj : j < qp.dim.ng k) :
    let P := view qp; let R := view red; let p := ptOf qp.dim v; let p' := ptOf red.dim w
    let c := qp.dim.nb k + j; let c' := red.dim.nb k + j
    R.value p' k c' - R.lower k c' = P.value p k c - P.lower k c ∧
    R.upper k c' - R.value p' k c' = P.upper k c - P.value p k c ∧
    R.lowerMask k c' = P.lowerMask k c ∧ R.upperMask k c' = P.upperMask k c ∧
    R.slackLo p' k c' = P.slackLo p k c ∧ R.slackUp p' k c' = P.slackUp p k c := by
  intro P R p p' c c'
  have hng := hr.dim.ng k hk
  have hv := cval_red hq hr hk hf hs hj
  have hd := (hr.vec k hk).d
  have hm := (hr.vec k hk).mask
  simp only [P, R, p, p', c, c']
  rw [value_packed red k w _ (by omega), value_packed qp k v _ (by omega), view_lower red k _ (by omega),
    view_lower qp k _ (by omega), view_upper red k _ (by omega), view_upper qp k _ (by omega),
    view_lowerMask red k _ (by omega), view_lowerMask qp k _ (by omega), view_upperMask red k _ (by omega),
    view_upperMask qp k _ (by omega), slackLo_packed, slackLo_packed, slackUp_packed, slackUp_packed]
  refine ⟨?_, ?_, hm.glo j hj, hm.gup j hj, ?_, ?_⟩
  · rw [hd.glo j hj, ← hv]; ring
  · rw [hd.gup j hj, ← hv]; ring
  · exact slk_red hq hr hk hw hs _ _ 0 (by omega) ((hr.mat k hk).softg j hj) (by omega)
  · rw [hr.dim.ns k hk]
    exact slk_red hq hr hk hw hs _ _ _ (by omega) ((hr.mat k hk).softg j hj) (le_refl _)

/-- **C38 (slack bounds).**  The slack variables, their bounds and their masks are unchanged. -/
theorem red_slacks {v w : ℕ → Vec K} (hs : SameKept qp red.dim v w) {k s : ℕ}
    (hk : k ≤ qp.dim.N) (hj : s < qp.dim.ns k) :
    let P := view qp; let R := view red; let p := ptOf qp.dim v; let p' := ptOf red.dim w
    p'.sl k s = p.sl k s ∧ p'.su k s = p.su k s ∧ R.lls k s = P.lls k s ∧ R.lus k s = P.lus k s ∧
    R.llsMask k s = P.llsMask k s ∧ R.lusMask k s = P.lusMask k s := by
  intro P R p p'
  have hns := hr.dim.ns k hk
  have hd := (hr.vec k hk).d
  have hm := (hr.vec k hk).mask
  simp only [P, R, p, p', ptOf]
  rw [view_lls red k _ (by omega), view_lls qp k _ hj, view_lus red k _ (by omega), view_lus qp k _ hj,
    view_llsMask red k _ (by omega), view_llsMask qp k _ hj, view_lusMask red k _ (by omega), view_lusMask qp k _ hj, hns]
  refine ⟨hs.slack k s hk (by omega), ?_, hd.sl s (by omega), ?_, hm.sl s (by omega), ?_⟩
  · have := hs.slack k (qp.dim.ns k + s) hk (by omega)
    rw [← Nat.add_assoc, ← Nat.add_assoc] at this; exact this
  · have := hd.sl (qp.dim.ns k + s) (by omega)
    rw [← Nat.add_assoc, ← Nat.add_assoc] at this; exact this
  · have := hm.sl (qp.dim.ns k + s) (by omega)
    rw [← Nat.add_assoc, ← Nat.add_assoc] at this; exact this

/-- objective of one stage -/
theorem vObj_red {v w : Sol K} (hf : AtFixed qp qp.d v.ux) (hs : SameKept qp red.dim v.ux w.ux) {k : ℕ} (hk : k ≤ qp.dim.N) :
    vObj qp v k = vObj red w k + 1 / 2 * ∑ i ∈ range (qp.dim.nu k + qp.dim.nx k),
      (hmul qp k (fixv qp (qp.d k) k) i + 2 * qp.rqz k i) * fixv qp (qp.d k) k i := by
  set f := fixv qp (qp.d k) k with hfd
  set a : Vec K := fun j => if Kept qp k j then v.ux k j else 0 with had
  have hva : ∀ j, v.ux k j = a j + f j := fun j => split_fixed qp hq qp.d v.ux hf k j hk
  have hm : ∀ i, hmul qp k (v.ux k) i = hmul qp k a i + hmul qp k f i := by
    intro i; simp only [hmul]; rw [← sum_add_distrib]
    exact sum_congr rfl (fun j _ => by rw [hva j]; ring)
  have hsym : ∑ i ∈ range (qp.dim.nu k + qp.dim.nx k), hmul qp k a i * f i =
      ∑ i ∈ range (qp.dim.nu k + qp.dim.nx k), hmul qp k f i * a i := by
    simp only [hmul, sum_mul]
    rw [sum_comm]
    refine sum_congr rfl (fun i _ => sum_congr rfl (fun j _ => ?_))
    rw [symL_symm]; ring
  have h1 : ∑ q ∈ range (red.dim.nu k + red.dim.nx k), (hmul red k (w.ux k) q + 2 * red.rqz k q) * w.ux k q =
      ∑ i ∈ range (qp.dim.nu k + qp.dim.nx k), (hmul qp k a i + 2 * hmul qp k f i + 2 * qp.rqz k i) * a i := by
    rw [sum_vars hq hr hk]
    refine sum_congr rfl (fun i hi => ?_)
    have hi := mem_range.mp hi
    by_cases hki : Kept qp k i
    · have e1 := hmul_red hq hr hk hf hs hi hki
      have e2 := (hr.vec k hk).g.var i hi hki
      have e3 := hs.var k i hk hi hki
      have e4 : a i = v.ux k i := by simp only [had, if_pos hki]
      rw [hm i] at e1
      simp only [if_pos hki]
      rw [e2, e3, e4]
      have e5 : hmul red k (w.ux k) (newPos qp k i) = hmul qp k a i := by
        have : ∑ j ∈ range (qp.dim.nu k + qp.dim.nx k), symL (qp.RSQrq k) 0 0 i j * fixv qp (qp.d k) k j = hmul qp k f i := rfl
        rw [this] at e1
        exact add_right_cancel e1
      have e6 : ∑ j ∈ range (qp.dim.nu k + qp.dim.nx k), symL (qp.RSQrq k) 0 0 i j * fixv qp (qp.d k) k j = hmul qp k f i := rfl
      rw [e5, e6]; ring
    · have e4 : a i = 0 := by simp only [had, if_neg hki]
      simp only [if_neg hki, e4, mul_zero]
  have h2 : ∑ s ∈ range (2 * red.dim.ns k), (red.Z k s * w.ux k (red.dim.nu k + red.dim.nx k + s)
        + 2 * red.rqz k (red.dim.nu k + red.dim.nx k + s)) * w.ux k (red.dim.nu k + red.dim.nx k + s) =
      ∑ s ∈ range (2 * qp.dim.ns k), (qp.Z k s * v.ux k (qp.dim.nu k + qp.dim.nx k + s)
        + 2 * qp.rqz k (qp.dim.nu k + qp.dim.nx k + s)) * v.ux k (qp.dim.nu k + qp.dim.nx k + s) := by
    rw [hr.dim.ns k hk]
    refine sum_congr rfl (fun s hs' => ?_)
    have hs' := mem_range.mp hs'
    rw [hs.slack k s hk hs', (hr.vec k hk).g.sl s hs', (hr.mat k hk).Z s hs']
  simp only [vObj]
  rw [h1, h2]
  have h3 : ∑ i ∈ range (qp.dim.nu k + qp.dim.nx k), (hmul qp k (v.ux k) i + 2 * qp.rqz k i) * v.ux k i =
      (∑ i ∈ range (qp.dim.nu k + qp.dim.nx k), (hmul qp k a i + 2 * hmul qp k f i + 2 * qp.rqz k i) * a i)
      + ∑ i ∈ range (qp.dim.nu k + qp.dim.nx k), (hmul qp k f i + 2 * qp.rqz k i) * f i := by
    have : ∑ i ∈ range (qp.dim.nu k + qp.dim.nx k), (hmul qp k (v.ux k) i + 2 * qp.rqz k i) * v.ux k i =
        (∑ i ∈ range (qp.dim.nu k + qp.dim.nx k), (hmul qp k a i + hmul qp k f i + 2 * qp.rqz k i) * a i)
        + (∑ i ∈ range (qp.dim.nu k + qp.dim.nx k), hmul qp k a i * f i)
        + ∑ i ∈ range (qp.dim.nu k + qp.dim.nx k), (hmul qp k f i + 2 * qp.rqz k i) * f i := by
      rw [← sum_add_distrib, ← sum_add_distrib]
      refine sum_congr rfl (fun i _ => ?_)
      rw [hm i, hva i]; ring
    rw [this, hsym, ← sum_add_distrib]
    congr 1
    exact sum_congr rfl (fun i _ => by ring)
  rw [h3]; ring

/-- **C38 (objective).**  The two objectives differ by a constant: the same one for all points whose removed
variables have their fixed values. -/
theorem red_objective : ∃ c : K, ∀ v w : ℕ → Vec K, AtFixed qp qp.d v → SameKept qp red.dim v w →
    (view qp).objective (ptOf qp.dim v) = (view red).objective (ptOf red.dim w) + c := by
  refine ⟨∑ k ∈ range (qp.dim.N + 1), (1 / 2 * ∑ i ∈ range (qp.dim.nu k + qp.dim.nx k),
      (hmul qp k (fixv qp (qp.d k) k) i + 2 * qp.rqz k i) * fixv qp (qp.d k) k i), fun v w hf hs => ?_⟩
  have h1 := obj_packed qp ⟨v, fun _ _ => 0, fun _ _ => 0, fun _ _ => 0⟩
  have h2 := obj_packed red ⟨w, fun _ _ => 0, fun _ _ => 0, fun _ _ => 0⟩
  simp only at h1 h2
  rw [h1, h2, hr.dim.N, ← sum_add_distrib]
  refine sum_congr rfl (fun k hk => ?_)
  have hk := mem_range.mp hk
  exact vObj_red hq hr (v := ⟨v, fun _ _ => 0, fun _ _ => 0, fun _ _ => 0⟩)
    (w := ⟨w, fun _ _ => 0, fun _ _ => 0, fun _ _ => 0⟩) hf hs (by omega)

/-! ### C39 -/

omit [LinearOrder K] [IsStrictOrderedRing K] in
omit hq hr in
theorem newPos_le (qp : OcpQp K) (k j : ℕ) : newPos qp k j ≤ j ∧ (newPos qp k j = j ↔ ∀ i, i < j → Kept qp k i) := by
  induction j with
  | zero => simp [newPos]
  | succ j ih =>
    obtain ⟨h1, h2⟩ := ih
    unfold newPos at *
    rw [Nat.count_succ]
    by_cases h : Kept qp k j
    · rw [if_pos h]
      refine ⟨by omega, ⟨fun e i hi => ?_, fun e => ?_⟩⟩
      · rcases Nat.lt_succ_iff_lt_or_eq.mp hi with hl | rfl
        · exact h2.mp (by omega) i hl
        · exact h
      · have := h2.mpr (fun i hi => e i (by omega)); omega
    · rw [if_neg h]
      refine ⟨by omega, ⟨fun e => by omega, fun e => absurd (e j (by omega)) h⟩⟩

/-- **C39.**  The index of a kept box is copied, not renumbered; it names the position the bounded variable has
in the reduced problem exactly when no removed variable precedes it. -/
theorem red_box_index {k j : ℕ} (hk : k ≤ qp.dim.N) (hj : j < qp.dim.nb k) (hkj : KeptBox qp k j) :
    (view red).idxb k (newBox qp k j) = (view qp).idxb k j ∧
    ((view red).idxb k (newBox qp k j) = newPos qp k ((view qp).idxb k j) ↔
      ∀ i, i < (view qp).idxb k j → Kept qp k i) := by
  have h := (hr.mat k hk).idxb j hj hkj
  have e : (view red).idxb k (newBox qp k j) = qp.idxb k j := h
  refine ⟨h, ?_⟩
  rw [e, ← (newPos_le qp k _).2]
  exact eq_comm

/-- **C39.**  A kept box in front of which nothing was removed has the same bounds, masks, slacks and value. -/
theorem red_box (hw : qp.WF) {v w : ℕ → Vec K} (hs : SameKept qp red.dim v w) {k j : ℕ}
    (hk : k ≤ qp.dim.N) (hj : j < qp.dim.nb k) (hkj : KeptBox qp k j) (ha : ∀ i, i ≤ qp.idxb k j → Kept qp k i) :
    let P := view qp; let R := view red; let p := ptOf qp.dim v; let p' := ptOf red.dim w
    let c' := newBox qp k j
    R.value p' k c' = P.value p k j ∧ R.lower k c' = P.lower k j ∧ R.upper k c' = P.upper k j ∧
    R.lowerMask k c' = P.lowerMask k j ∧ R.upperMask k c' = P.upperMask k j ∧
    R.slackLo p' k c' = P.slackLo p k j ∧ R.slackUp p' k c' = P.slackUp p k j := by
  intro P R p p' c'
  have hlt : newBox qp k j < red.dim.nb k := by
    rw [← (red_sizes qp hq red.dim hr.dim k hk).2.2]; exact count_lt_of hkj hj
  have hv := (cval_red_box hq hr hk hw hs hj hkj ha).1
  have hd := (hr.vec k hk).d
  have hm := (hr.vec k hk).mask
  simp only [P, R, p, p', c']
  rw [value_packed red k w _ (by omega), value_packed qp k v _ (by omega), view_lower red k _ (by omega),
    view_lower qp k _ (by omega), view_upper red k _ (by omega), view_upper qp k _ (by omega),
    view_lowerMask red k _ (by omega), view_lowerMask qp k _ (by omega), view_upperMask red k _ (by omega),
    view_upperMask qp k _ (by omega), slackLo_packed, slackLo_packed, slackUp_packed, slackUp_packed]
  refine ⟨hv, hd.lo j hj hkj, by rw [hd.up j hj hkj], hm.lo j hj hkj, hm.up j hj hkj, ?_, ?_⟩
  · exact slk_red hq hr hk hw hs _ _ 0 (by omega) ((hr.mat k hk).soft j hj hkj) (by omega)
  · rw [hr.dim.ns k hk]
    exact slk_red hq hr hk hw hs _ _ _ (by omega) ((hr.mat k hk).soft j hj hkj) (le_refl _)

end
end Hpipm
