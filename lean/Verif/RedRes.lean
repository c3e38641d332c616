/-
Removal of fixed variables: residuals of a restored solution (C40, C54), splitting into LHS and RHS (C55),
examples.
-/
import Verif.RedOpt

namespace Hpipm
open Finset
set_option linter.unusedSectionVars false

section
variable {K : Type*} [Field K] [LinearOrder K] [IsStrictOrderedRing K]
variable {qp red : OcpQp K} (hq : EqOk qp) (hr : Reduced qp red)

include hq hr in
/-- transposed constraint matrix at a kept variable -/
theorem cvalT_red (hw : qp.WF) (hal : Aligned qp) {k : ℕ} (hk : k ≤ qp.dim.N) (x y : Vec K)
    (h1 : ∀ j, j < qp.dim.nb k → KeptBox qp k j → y (newBox qp k j) = x j)
    (h2 : ∀ j, j < qp.dim.ng k → y (red.dim.nb k + j) = x (qp.dim.nb k + j)) {i : ℕ} (hi : i < qp.dim.nu k + qp.dim.nx k)
    (hki : Kept qp k i) : cvalT red k y (newPos qp k i) = cvalT qp k x i := by
  unfold cvalT
  congr 1
  · rw [sum_boxes hq hr hk]
    refine sum_congr rfl (fun j hj => ?_)
    have hj := mem_range.mp hj
    by_cases hkj : KeptBox qp k j
    · have ha := hal k j hk hj hkj
      have hp : newPos qp k (qp.idxb k j) = qp.idxb k j := (newPos_le qp k _).2.mpr (fun i hi => ha i (by omega))
      simp only [if_pos hkj, (hr.mat k hk).idxb j hj hkj, h1 j hj hkj]
      by_cases he : qp.idxb k j = i
      · have : qp.idxb k j = newPos qp k i := by rw [← he, hp]
        rw [if_pos this, if_pos he]
      · have : ¬ qp.idxb k j = newPos qp k i := by
          intro h; rw [← hp] at h
          exact he (Nat.count_injective (ha _ (le_refl _)) hki h)
        rw [if_neg this, if_neg he]
    · obtain ⟨e, he, rfl⟩ := not_keptBox qp k j hkj
      rw [if_neg hkj, if_neg (hki e he)]
  · rw [hr.dim.ng k hk]
    refine sum_congr rfl (fun j hj => ?_)
    have hj := mem_range.mp hj
    rw [(hr.mat k hk).DCt i hi hki j hj, h2 j hj]

include hq hr in
theorem slkT_red (ht : Tight qp) {k : ℕ} (hk : k ≤ qp.dim.N) (x y : Vec K)
    (h1 : ∀ j, j < qp.dim.nb k → KeptBox qp k j → y (newBox qp k j) = x j)
    (h2 : ∀ j, j < qp.dim.ng k → y (red.dim.nb k + j) = x (qp.dim.nb k + j)) (s : ℕ) :
    slkT red k y s = slkT qp k x s := by
  unfold slkT
  rw [sum_split, sum_split, sum_boxes hq hr hk, hr.dim.ng k hk]
  congr 1
  · refine sum_congr rfl (fun j hj => ?_)
    have hj := mem_range.mp hj
    by_cases hkj : KeptBox qp k j
    · simp only [if_pos hkj, (hr.mat k hk).soft j hj hkj, h1 j hj hkj]
    · obtain ⟨e, he, rfl⟩ := not_keptBox qp k j hkj
      obtain ⟨-, -, -, t4⟩ := ht k e hk he
      simp [hkj, t4]
  · refine sum_congr rfl (fun j hj => ?_)
    have hj := mem_range.mp hj
    rw [(hr.mat k hk).softg j hj, h2 j hj]

/-- the multipliers of constraints that are switched off are zero (the solvers leave them so) -/
def MaskedLam (qp : OcpQp K) (s : Sol K) : Prop :=
  ∀ k j, k ≤ qp.dim.N → j < nct qp.dim k → qp.d_mask k j * s.lam k j = s.lam k j

/-- stationarity at kept variables, packed form -/
theorem vG_red (hq : EqOk qp) (hr : Reduced qp red) (hw : qp.WF) (hal : Aligned qp) (ht : Tight qp) {v w : Sol K}
    (hf : AtFixed qp qp.d v.ux) (hs : SolOk qp red.dim v w) {k i : ℕ} (hk : k ≤ qp.dim.N)
    (hi : i < qp.dim.nu k + qp.dim.nx k) (hki : Kept qp k i) :
    vG red w (lamM red w k) k (newPos qp k i) = vG qp v (lamM qp v k) k i := by
  obtain ⟨z1, z2, z3⟩ := red_sizes qp hq red.dim hr.dim k hk
  have hng := hr.dim.ng k hk
  have hlt : newPos qp k i < red.dim.nu k + red.dim.nx k := by rw [← z2]; exact count_lt_of hki hi
  have hm := (hr.vec k hk).mask
  have hl := hs.lam k hk
  simp only [vG]
  rw [if_pos hlt, if_pos hi, (hr.vec k hk).g.var i hi hki, ← hmul_red hq hr hk hf hs.ux hi hki]
  have e1 : cvalT red k (fun j => lamM red w k (red.dim.nb k + red.dim.ng k + j) - lamM red w k j) (newPos qp k i) =
      cvalT qp k (fun j => lamM qp v k (qp.dim.nb k + qp.dim.ng k + j) - lamM qp v k j) i := by
    refine cvalT_red hq hr hw hal hk _ _ (fun j hj hkj => ?_) (fun j hj => ?_) hi hki
    · simp only [lamM]; rw [hm.lo j hj hkj, hm.up j hj hkj, hl.lo j hj hkj, hl.up j hj hkj]
    · simp only [lamM]; rw [hm.glo j hj, hm.gup j hj, hl.glo j hj, hl.gup j hj]
  have e2 : (if 0 < k ∧ red.dim.nu k ≤ newPos qp k i then w.pi (k - 1) (newPos qp k i - red.dim.nu k) else 0) =
      (if 0 < k ∧ qp.dim.nu k ≤ i then v.pi (k - 1) (i - qp.dim.nu k) else 0) := by
    by_cases h0 : 0 < k
    · by_cases hx : qp.dim.nu k ≤ i
      · obtain ⟨l, rfl⟩ : ∃ l, i = qp.dim.nu k + l := ⟨i - qp.dim.nu k, by omega⟩
        rw [newPos_x hq hr hk (by omega)]
        simp only [h0, true_and, Nat.le_add_right, if_true, Nat.add_sub_cancel_left]
        have := hs.pi (k - 1) l (by omega) (by rw [show k - 1 + 1 = k from by omega]; omega)
        exact this
      · have : newPos qp k i < red.dim.nu k := by rw [← z1]; exact count_lt_of hki (by omega)
        rw [if_neg (by omega), if_neg (by omega)]
    · rw [if_neg (by omega), if_neg (by omega)]
  have e3 : (if k < red.dim.N then ∑ j ∈ range (red.dim.nx (k + 1)), red.BAbt k (newPos qp k i) j * w.pi k j else 0) =
      (if k < qp.dim.N then ∑ j ∈ range (qp.dim.nx (k + 1)), qp.BAbt k i j * v.pi k j else 0) := by
    rw [hr.dim.N]
    by_cases hN : k < qp.dim.N
    · simp only [if_pos hN]
      rw [hr.dim.nx (k + 1) (by omega) (by omega)]
      refine sum_congr rfl (fun j hj => ?_)
      have hj := mem_range.mp hj
      rw [(hr.mat k hk).BAbt hN i hi hki j hj, hs.pi k j hN hj]
    · simp only [if_neg hN]
  rw [e1, e2, e3]; ring

/-- stationarity in the slacks, packed form -/
theorem vG_red_slack (hq : EqOk qp) (hr : Reduced qp red) (ht : Tight qp) {v w : Sol K}
    (hs : SolOk qp red.dim v w) {k s : ℕ} (hk : k ≤ qp.dim.N) (hi : s < 2 * qp.dim.ns k) :
    vG red w (lamM red w k) k (red.dim.nu k + red.dim.nx k + s) = vG qp v (lamM qp v k) k (qp.dim.nu k + qp.dim.nx k + s) := by
  have hng := hr.dim.ng k hk
  have hm := (hr.vec k hk).mask
  have hl := hs.lam k hk
  have n1 : ¬ (red.dim.nu k + red.dim.nx k + s < red.dim.nu k + red.dim.nx k) := by omega
  have n2 : ¬ (qp.dim.nu k + qp.dim.nx k + s < qp.dim.nu k + qp.dim.nx k) := by omega
  simp only [vG, if_neg n1, if_neg n2, Nat.add_sub_cancel_left]
  rw [(hr.mat k hk).Z s hi, hs.ux.slack k s hk hi, (hr.vec k hk).g.sl s hi, hr.dim.ns k hk]
  simp only [lamM]
  rw [hm.sl s hi, hl.sl s hi]
  congr 1
  by_cases h : s < qp.dim.ns k
  · simp only [if_pos h]
    refine slkT_red hq hr ht hk _ _ (fun j hj hkj => ?_) (fun j hj => ?_) s
    · simp only [lamM]; rw [hm.lo j hj hkj, hl.lo j hj hkj]
    · simp only [lamM]; rw [hm.glo j hj, hl.glo j hj]
  · simp only [if_neg h]
    refine slkT_red hq hr ht hk _ _ (fun j hj hkj => ?_) (fun j hj => ?_) _
    · rw [hm.up j hj hkj, hl.up j hj hkj]
    · rw [hm.gup j hj, hl.gup j hj]

/-- inequality defects of the remaining constraints, packed form -/
theorem vD_red (hq : EqOk qp) (hr : Reduced qp red) (hw : qp.WF) (hal : Aligned qp) {v w : Sol K}
    (hf : AtFixed qp qp.d v.ux) (hs : SolOk qp red.dim v w) {k : ℕ} (hk : k ≤ qp.dim.N) :
    ConOk qp red.dim k (vD qp v k) (vD red w k) := by
  obtain ⟨z1, z2, z3⟩ := red_sizes qp hq red.dim hr.dim k hk
  have hng := hr.dim.ng k hk
  have hns := hr.dim.ns k hk
  have hd := (hr.vec k hk).d
  have ht := hs.t k hk
  have hlt : ∀ j, j < qp.dim.nb k → KeptBox qp k j → newBox qp k j < red.dim.nb k := by
    intro j hj hkj; rw [← z3]; exact count_lt_of hkj hj
  refine ⟨fun j hj hkj => ?_, fun j hj hkj => ?_, fun j hj => ?_, fun j hj => ?_, fun s hj => ?_⟩
  · have := hlt j hj hkj
    simp only [vD]
    rw [if_pos (by omega), if_pos (by omega), hd.lo j hj hkj, ht.lo j hj hkj,
      (cval_red_box hq hr hk hw hs.ux hj hkj (hal k j hk hj hkj)).1]
    congr 1
    exact slk_red hq hr hk hw hs.ux _ _ 0 (by omega) ((hr.mat k hk).soft j hj hkj) (by omega)
  · have := hlt j hj hkj
    have n1 : ¬ (red.dim.nb k + red.dim.ng k + newBox qp k j < red.dim.nb k + red.dim.ng k) := by omega
    have n2 : ¬ (qp.dim.nb k + qp.dim.ng k + j < qp.dim.nb k + qp.dim.ng k) := by omega
    have n3 : red.dim.nb k + red.dim.ng k + newBox qp k j < 2 * (red.dim.nb k + red.dim.ng k) := by omega
    have n4 : qp.dim.nb k + qp.dim.ng k + j < 2 * (qp.dim.nb k + qp.dim.ng k) := by omega
    simp only [vD, if_neg n1, if_neg n2, if_pos n3, if_pos n4, Nat.add_sub_cancel_left]
    rw [hd.up j hj hkj, ht.up j hj hkj, (cval_red_box hq hr hk hw hs.ux hj hkj (hal k j hk hj hkj)).1, hns]
    congr 1
    exact slk_red hq hr hk hw hs.ux _ _ _ (by omega) ((hr.mat k hk).soft j hj hkj) (le_refl _)
  · simp only [vD]
    rw [if_pos (by omega), if_pos (by omega), hd.glo j hj, ht.glo j hj, ← cval_red hq hr hk hf hs.ux hj]
    have := slk_red hq hr hk hw hs.ux (qp.dim.nb k + j) (red.dim.nb k + j) 0 (by omega) ((hr.mat k hk).softg j hj) (by omega)
    rw [Nat.add_zero, Nat.add_zero] at this
    rw [this]; ring
  · have n1 : ¬ (red.dim.nb k + red.dim.ng k + (red.dim.nb k + j) < red.dim.nb k + red.dim.ng k) := by omega
    have n2 : ¬ (qp.dim.nb k + qp.dim.ng k + (qp.dim.nb k + j) < qp.dim.nb k + qp.dim.ng k) := by omega
    have n3 : red.dim.nb k + red.dim.ng k + (red.dim.nb k + j) < 2 * (red.dim.nb k + red.dim.ng k) := by omega
    have n4 : qp.dim.nb k + qp.dim.ng k + (qp.dim.nb k + j) < 2 * (qp.dim.nb k + qp.dim.ng k) := by omega
    simp only [vD, if_neg n1, if_neg n2, if_pos n3, if_pos n4, Nat.add_sub_cancel_left]
    rw [hd.gup j hj, ht.gup j hj, ← cval_red hq hr hk hf hs.ux hj, hns]
    have := slk_red hq hr hk hw hs.ux (qp.dim.nb k + j) (red.dim.nb k + j) _ (by omega) ((hr.mat k hk).softg j hj) (le_refl _)
    rw [this]; ring
  · have n1 : ¬ (2 * (red.dim.nb k + red.dim.ng k) + s < red.dim.nb k + red.dim.ng k) := by omega
    have n2 : ¬ (2 * (qp.dim.nb k + qp.dim.ng k) + s < qp.dim.nb k + qp.dim.ng k) := by omega
    have n3 : ¬ (2 * (red.dim.nb k + red.dim.ng k) + s < 2 * (red.dim.nb k + red.dim.ng k)) := by omega
    have n4 : ¬ (2 * (qp.dim.nb k + qp.dim.ng k) + s < 2 * (qp.dim.nb k + qp.dim.ng k)) := by omega
    simp only [vD, if_neg n1, if_neg n2, if_neg n3, if_neg n4, Nat.add_sub_cancel_left]
    rw [hd.sl s hj, ht.sl s hj, hs.ux.slack k s hk hj]

/-- **C54.**  Residuals of a solution of the original problem whose removed variables have their fixed values,
and of the corresponding solution of the reduced problem: equal for all remaining variables, slacks,
dynamics and constraints. -/
theorem red_residuals (hq : EqOk qp) (hr : Reduced qp red) (hw : qp.WF) (hal : Aligned qp) (ht : Tight qp) {v w : Sol K}
    (hf : AtFixed qp qp.d v.ux) (hs : SolOk qp red.dim v w) (r0 r1 : Res K) (ws0 ws1 : ResWs K) (h0 : ws0.Ok qp)
    (h1 : ws1.Ok red) {k : ℕ} (hk : k ≤ qp.dim.N) :
    let R := resCompute qp v r0 ws0; let R' := resCompute red w r1 ws1
    (∀ i, i < qp.dim.nu k + qp.dim.nx k → Kept qp k i → R'.res_g k (newPos qp k i) = R.res_g k i) ∧
    (∀ s, s < 2 * qp.dim.ns k → R'.res_g k (red.dim.nu k + red.dim.nx k + s) = R.res_g k (qp.dim.nu k + qp.dim.nx k + s)) ∧
    (k < qp.dim.N → ∀ i, i < qp.dim.nx (k + 1) → R'.res_b k i = R.res_b k i) ∧
    ConOk qp red.dim k (R.res_d k) (R'.res_d k) ∧ ConOk qp red.dim k (R.res_m k) (R'.res_m k) := by
  intro R R'
  obtain ⟨a1, a2⟩ := (resCompute_val qp hw v r0 ws0 h0).1 k hk
  have hwr := red_wf hq hr hw hal
  obtain ⟨b1, b2⟩ := (resCompute_val red hwr w r1 ws1 h1).1 k (by rw [hr.dim.N]; exact hk)
  obtain ⟨z1, z2, z3⟩ := red_sizes qp hq red.dim hr.dim k hk
  have hng := hr.dim.ng k hk
  have hns := hr.dim.ns k hk
  have hm := (hr.vec k hk).mask
  have hmm := (hr.vec k hk).m
  have hvd := vD_red hq hr hw hal hf hs hk
  have htt := hs.t k hk
  have hl := hs.lam k hk
  have hlt : ∀ j, j < qp.dim.nb k → KeptBox qp k j → newBox qp k j < red.dim.nb k := by
    intro j hj hkj; rw [← z3]; exact count_lt_of hkj hj
  refine ⟨fun i hi hki => ?_, fun s hj => ?_, fun hN i hi => ?_, ⟨fun j hj hkj => ?_, fun j hj hkj => ?_, fun j hj => ?_,
    fun j hj => ?_, fun s hj => ?_⟩, ⟨fun j hj hkj => ?_, fun j hj hkj => ?_, fun j hj => ?_, fun j hj => ?_, fun s hj => ?_⟩⟩
  · have : newPos qp k i < red.dim.nu k + red.dim.nx k := by rw [← z2]; exact count_lt_of hki hi
    rw [a1.g i (by unfold nvt; omega), b1.g _ (by unfold nvt; omega)]
    exact vG_red hq hr hw hal ht hf hs hk hi hki
  · rw [a1.g _ (by unfold nvt; omega), b1.g _ (by unfold nvt; omega)]
    exact vG_red_slack hq hr ht hs hk hj
  · rw [a1.b hN i hi, b1.b (by rw [hr.dim.N]; exact hN) i (by rw [hr.dim.nx (k + 1) (by omega) (by omega)]; exact hi)]
    exact vB_red hq hr hf hs.ux hN hi
  · have := hlt j hj hkj
    rw [a1.d _ (by unfold nct; omega), b1.d _ (by unfold nct; omega), hvd.lo j hj hkj, hm.lo j hj hkj]
  · have := hlt j hj hkj
    rw [a1.d _ (by unfold nct; omega), b1.d _ (by unfold nct; omega), hvd.up j hj hkj, hm.up j hj hkj]
  · rw [a1.d _ (by unfold nct; omega), b1.d _ (by unfold nct; omega), hvd.glo j hj, hm.glo j hj]
  · rw [a1.d _ (by unfold nct; omega), b1.d _ (by unfold nct; omega), hvd.gup j hj, hm.gup j hj]
  · rw [a1.d _ (by unfold nct; omega), b1.d _ (by unfold nct; omega), hvd.sl s hj, hm.sl s hj]
  · have := hlt j hj hkj
    rw [a2 _ (by unfold nct; omega), b2 _ (by unfold nct; omega)]
    simp only [vM, lamM]; rw [hm.lo j hj hkj, hl.lo j hj hkj, htt.lo j hj hkj, hmm.lo j hj hkj]
  · have := hlt j hj hkj
    rw [a2 _ (by unfold nct; omega), b2 _ (by unfold nct; omega)]
    simp only [vM, lamM]; rw [hm.up j hj hkj, hl.up j hj hkj, htt.up j hj hkj, hmm.up j hj hkj]
  · rw [a2 _ (by unfold nct; omega), b2 _ (by unfold nct; omega)]
    simp only [vM, lamM]; rw [hm.glo j hj, hl.glo j hj, htt.glo j hj, hmm.glo j hj]
  · rw [a2 _ (by unfold nct; omega), b2 _ (by unfold nct; omega)]
    simp only [vM, lamM]; rw [hm.gup j hj, hl.gup j hj, htt.gup j hj, hmm.gup j hj]
  · rw [a2 _ (by unfold nct; omega), b2 _ (by unfold nct; omega)]
    simp only [vM, lamM]; rw [hm.sl s hj, hl.sl s hj, htt.sl s hj, hmm.sl s hj]

/-- **C40.**  After restoring, the Lagrangian gradient in every removed variable has modulus `lam_min`, and the
multipliers of the removed boxes are at least `lam_min` or nonnegative: one side carries the multiplier, the
other `lam_min`.  (Requires that multipliers of switched-off constraints are zero: the restoring
code does not look at the masks.) -/
theorem restore_stationary (hq : EqOk qp) (hw : qp.WF) (hal : Aligned qp) (ht : Tight qp) (arg : RedArg K) (ha : arg.All)
    (Dr : QpDim) (hd : RedDim qp.dim Dr) (sr sol : Sol K) (ws : RedWs K) (r0 : Res K) (ws0 : ResWs K) (h0 : ws0.Ok qp)
    (hml : MaskedLam qp (restoreSol arg qp Dr sr sol ws).1) {k e : ℕ} (hk : k ≤ qp.dim.N) (he : e < neThr qp.dim k) :
    let s := (restoreSol arg qp Dr sr sol ws).1
    let g := (resCompute qp s r0 ws0).res_g k (qp.idxb k (qp.idxe k e))
    let lo := s.lam k (qp.idxe k e); let up := s.lam k (qp.dim.nb k + qp.dim.ng k + qp.idxe k e)
    (g = arg.lam_min ∧ 0 ≤ lo ∧ up = arg.lam_min) ∨ (g = - arg.lam_min ∧ 0 ≤ up ∧ lo = arg.lam_min) := by
  intro s g lo up
  have hR : RestOk arg qp qp.d qp.rqz Dr sr s k := restore_loop hq hw arg ha qp.d qp.rqz Dr hd sr sol ws k hk
  obtain ⟨a1, -⟩ := (resCompute_val qp hw s r0 ws0 h0).1 k hk
  have hb := hq.box k e hk he
  have hv := removed_lt qp hq k e hk he
  have hnk : ¬ KeptBox qp k (qp.idxe k e) := fun h => h e he rfl
  have hnv : ¬ Kept qp k (qp.idxb k (qp.idxe k e)) := fun h => h e he rfl
  obtain ⟨f1, f2⟩ := hR.lamfix _ hb hnk
  have hg : g = vG qp s (lamM qp s k) k (qp.idxb k (qp.idxe k e)) := a1.g _ (by unfold nvt; omega)
  have hpi : ¬ (0 < k ∧ qp.dim.nu k ≤ qp.idxb k (qp.idxe k e)) := by
    rintro ⟨p1, p2⟩
    rw [neThr_pos (by omega)] at he
    have := hq.input k e hk he; omega
  have hc : cvalT qp k (fun j => lamM qp s k (qp.dim.nb k + qp.dim.ng k + j) - lamM qp s k j) (qp.idxb k (qp.idxe k e)) =
      cvalT qp k (fun i => if i < qp.dim.nb k ∧ ¬ KeptBox qp k i then 0
          else s.lam k (qp.dim.nb k + qp.dim.ng k + i) - s.lam k i) (qp.idxb k (qp.idxe k e)) + (up - lo) := by
    have hlm : ∀ j, j < nct qp.dim k → lamM qp s k j = s.lam k j := fun j hj => hml k j hk hj
    simp only [cvalT]
    have s1 : ∑ j ∈ range (qp.dim.nb k), (if qp.idxb k j = qp.idxb k (qp.idxe k e) then
          (lamM qp s k (qp.dim.nb k + qp.dim.ng k + j) - lamM qp s k j) else 0) =
        (∑ j ∈ range (qp.dim.nb k), (if qp.idxb k j = qp.idxb k (qp.idxe k e) then
          (if j < qp.dim.nb k ∧ ¬ KeptBox qp k j then 0
            else s.lam k (qp.dim.nb k + qp.dim.ng k + j) - s.lam k j) else 0)) + (up - lo) := by
      have : up - lo = ∑ j ∈ range (qp.dim.nb k), if j = qp.idxe k e then up - lo else 0 := by
        rw [Finset.sum_ite_eq' (range (qp.dim.nb k)) (qp.idxe k e), if_pos (mem_range.mpr hb)]
      rw [this, ← sum_add_distrib]
      refine sum_congr rfl (fun j hj => ?_)
      have hj := mem_range.mp hj
      by_cases hje : j = qp.idxe k e
      · subst hje
        have c1 : qp.idxe k e < qp.dim.nb k ∧ ¬ KeptBox qp k (qp.idxe k e) := ⟨hb, hnk⟩
        simp only [if_true, if_pos c1, zero_add]
        rw [hlm _ (by unfold nct; omega), hlm _ (by unfold nct; omega)]
      · have c2 : qp.idxb k j ≠ qp.idxb k (qp.idxe k e) := by
          intro hh
          by_cases hkj : KeptBox qp k j
          · have := hal k j hk hj hkj _ (le_refl _)
            rw [hh] at this; exact hnv this
          · obtain ⟨e', he', rfl⟩ := not_keptBox qp k j hkj
            have := hq.inj k e' e hk he' he hh
            subst this; exact hje rfl
        simp only [if_neg c2, if_neg hje, add_zero]
    have s2 : ∑ j ∈ range (qp.dim.ng k), qp.DCt k (qp.idxb k (qp.idxe k e)) j *
          (lamM qp s k (qp.dim.nb k + qp.dim.ng k + (qp.dim.nb k + j)) - lamM qp s k (qp.dim.nb k + j)) =
        ∑ j ∈ range (qp.dim.ng k), qp.DCt k (qp.idxb k (qp.idxe k e)) j *
          (if qp.dim.nb k + j < qp.dim.nb k ∧ ¬ KeptBox qp k (qp.dim.nb k + j) then 0
            else s.lam k (qp.dim.nb k + qp.dim.ng k + (qp.dim.nb k + j)) - s.lam k (qp.dim.nb k + j)) := by
      refine sum_congr rfl (fun j hj => ?_)
      have hj := mem_range.mp hj
      have c1 : ¬ (qp.dim.nb k + j < qp.dim.nb k ∧ ¬ KeptBox qp k (qp.dim.nb k + j)) := fun h => by have := h.1; omega
      simp only [if_neg c1]
      rw [hlm _ (by unfold nct; omega), hlm _ (by unfold nct; omega)]
    rw [s1, s2]; ring
  simp only [vG, if_pos hv, if_neg hpi, sub_zero] at hg
  rw [hc] at hg
  set r := hmul qp k (s.ux k) (qp.idxb k (qp.idxe k e)) + qp.rqz k (qp.idxb k (qp.idxe k e))
      + cvalT qp k (fun i => if i < qp.dim.nb k ∧ ¬ KeptBox qp k i then 0
          else s.lam k (qp.dim.nb k + qp.dim.ng k + i) - s.lam k i) (qp.idxb k (qp.idxe k e))
      + (if k < qp.dim.N then ∑ i ∈ range (qp.dim.nx (k + 1)), qp.BAbt k (qp.idxb k (qp.idxe k e)) i * s.pi k i else 0) with hrdef
  have hgr : g = r + (up - lo) := by rw [hg, hrdef]; ring
  by_cases hr0 : 0 ≤ r
  · obtain ⟨p1, p2⟩ := f1 hr0
    refine Or.inl ⟨?_, ?_, p2⟩
    · rw [hgr]; simp only [up, lo]; rw [p1, p2]; ring
    · simp only [lo]; rw [p1]; exact hr0
  · have hr1 : r < 0 := not_le.mp hr0
    obtain ⟨p1, p2⟩ := f2 hr1
    refine Or.inr ⟨?_, ?_, p1⟩
    · rw [hgr]; simp only [up, lo]; rw [p1, p2]; ring
    · simp only [up]; rw [p2]; linarith

end
end Hpipm
