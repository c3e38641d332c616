/-
A problem and its (partially) condensed form: the same costs, constraint residuals and dynamics along corresponding
points, hence the same feasible points and the same minimisers.
-/
import Verif.CondBlock
import Verif.IpmStatus

namespace Hpipm
open Finset
set_option linter.unusedSectionVars false

section
variable {K : Type*} [Field K] [LinearOrder K] [IsStrictOrderedRing K]

/-- the problem made of the stages `s, s+1, ...` (pointers advanced by `s`, x_part_cond.c:507-533) -/
def shiftQp (P : OcpQp K) (s : ℕ) : OcpQp K where
  dim := { N := P.dim.N - s, nx := fun k => P.dim.nx (s + k), nu := fun k => P.dim.nu (s + k), nb := fun k => P.dim.nb (s + k),
           nbx := fun k => P.dim.nbx (s + k), nbu := fun k => P.dim.nbu (s + k), ng := fun k => P.dim.ng (s + k), ns := fun k => P.dim.ns (s + k),
           nbxe := fun k => P.dim.nbxe (s + k), nbue := fun k => P.dim.nbue (s + k), nge := fun k => P.dim.nge (s + k) }
  BAbt := fun k => P.BAbt (s + k)
  RSQrq := fun k => P.RSQrq (s + k)
  DCt := fun k => P.DCt (s + k)
  b := fun k => P.b (s + k)
  rqz := fun k => P.rqz (s + k)
  d := fun k => P.d (s + k)
  d_mask := fun k => P.d_mask (s + k)
  m := fun k => P.m (s + k)
  Z := fun k => P.Z (s + k)
  idxb := fun k => P.idxb (s + k)
  idxs_rev := fun k => P.idxs_rev (s + k)
  idxe := fun k => P.idxe (s + k)
  diag_H_flag := fun k => P.diag_H_flag (s + k)

/-- `P2` is `P` condensed by blocks of `len 0, len 1, ...` stages -/
structure CondensedBy (P P2 : OcpQp K) (len : ℕ → ℕ) : Prop where
  pos : ∀ ii, ii ≤ P2.dim.N → 0 < len ii
  tot : stOff len (P2.dim.N + 1) = P.dim.N + 1
  blk : ∀ ii, ii ≤ P2.dim.N → BlockOf P2 ii (shiftQp P (stOff len ii)) (len ii - 1)
  next : ∀ ii, ii < P2.dim.N → ∀ v i, i < P.dim.nx (stOff len (ii + 1)) →
    P2.b ii i + ∑ r ∈ range (P2.dim.nu ii + P2.dim.nx ii), P2.BAbt ii r i * v r
      = roll (shiftQp P (stOff len ii)) (len ii - 1) v (len ii) i

/-- `w` is the trajectory generated by the condensed variables `v` -/
def Expands (P P2 : OcpQp K) (len : ℕ → ℕ) (v w : ℕ → Vec K) : Prop :=
  ∀ ii l j, ii ≤ P2.dim.N → l < len ii → j < nvt P.dim (stOff len ii + l) →
    w (stOff len ii + l) j = stageOf (shiftQp P (stOff len ii)) (len ii - 1) (v ii) l j

/-! ### feasibility by residuals -/

/-- residual of the dynamics -/
def dynRes (qp : OcpQp K) (ux : ℕ → Vec K) (k i : ℕ) : K := qp.b k i + linB qp ux k i

theorem feasible_iff (qp : OcpQp K) (ux : ℕ → Vec K) : (view qp).Feasible (ptOf qp.dim ux) ↔
    (∀ k i, k < qp.dim.N → i < qp.dim.nx (k + 1) → dynRes qp ux k i = 0) ∧
    (∀ k j, k ≤ qp.dim.N → j < nct qp.dim k → qp.d_mask k j ≠ 0 → ineq qp ux k j ≤ 0) := by
  have hdyn : ∀ k i, i < qp.dim.nx (k + 1) → (view qp).dynDefect (ptOf qp.dim ux) k i = dynRes qp ux k i := by
    intro k i hi
    rw [dyn_packed qp k ⟨ux, fun _ _ => 0, fun _ _ => 0, fun _ _ => 0⟩ i hi, vB_lin]; rfl
  constructor
  · intro F
    refine ⟨fun k i hk hi => (hdyn k i hi).symm.trans (F.dyn k i hk hi), fun k j hk hj hm => ?_⟩
    rw [nct_eq] at hj
    unfold ineq
    rcases ineq_cases _ _ j hj with h | ⟨i, h, rfl⟩ | ⟨i, h, rfl⟩ | ⟨i, h, rfl⟩
    · have := F.lo k j hk h (by rw [view_lowerMask qp k j h]; exact hm)
      rw [view_lower qp k j h, value_packed qp k ux j h, slackLo_packed] at this
      rw [linD_lo _ _ _ _ h]; linarith
    · have := F.up k i hk h (by rw [view_upperMask qp k i h]; exact hm)
      rw [view_upper qp k i h, value_packed qp k ux i h, slackUp_packed] at this
      rw [linD_up _ _ _ _ h]; linarith
    · have := F.ls k i hk h (by rw [view_llsMask qp k i h]; exact hm)
      rw [view_lls qp k i h] at this
      rw [linD_sl]
      have e : (ptOf qp.dim ux).sl k i = ux k (qp.dim.nu k + qp.dim.nx k + i) := rfl
      rw [e] at this; linarith
    · have := F.us k i hk h (by rw [view_lusMask qp k i h, add_assoc]; exact hm)
      rw [view_lus qp k i h] at this
      rw [linD_sl]
      have e : (ptOf qp.dim ux).su k i = ux k (qp.dim.nu k + qp.dim.nx k + qp.dim.ns k + i) := rfl
      rw [e] at this
      rw [← add_assoc, ← add_assoc]; linarith
  · rintro ⟨h1, h2⟩
    refine ⟨fun k i hk hi => (hdyn k i hi).trans (h1 k i hk hi), fun k j hk hj hm => ?_, fun k j hk hj hm => ?_, fun k i hk hi hm => ?_,
      fun k i hk hi hm => ?_⟩
    · have hj' : j < qp.dim.nb k + qp.dim.ng k := hj
      rw [view_lowerMask qp k j hj'] at hm
      have := h2 k j hk (by rw [nct_eq]; omega) hm
      unfold ineq at this
      rw [linD_lo _ _ _ _ hj'] at this
      rw [view_lower qp k j hj', value_packed qp k ux j hj', slackLo_packed]; linarith
    · have hj' : j < qp.dim.nb k + qp.dim.ng k := hj
      rw [view_upperMask qp k j hj'] at hm
      have := h2 k _ hk (by rw [nct_eq]; omega) hm
      unfold ineq at this
      rw [linD_up _ _ _ _ hj'] at this
      rw [view_upper qp k j hj', value_packed qp k ux j hj', slackUp_packed]; linarith
    · have hi' : i < qp.dim.ns k := hi
      rw [view_llsMask qp k i hi'] at hm
      have := h2 k _ hk (by rw [nct_eq]; omega) hm
      unfold ineq at this
      rw [linD_sl] at this
      rw [view_lls qp k i hi']
      show _ ≤ ux k (qp.dim.nu k + qp.dim.nx k + i); linarith
    · have hi' : i < qp.dim.ns k := hi
      rw [view_lusMask qp k i hi', add_assoc] at hm
      have := h2 k _ hk (by rw [nct_eq]; omega) hm
      unfold ineq at this
      rw [linD_sl, ← add_assoc, ← add_assoc] at this
      rw [view_lus qp k i hi']
      show _ ≤ ux k (qp.dim.nu k + qp.dim.nx k + qp.dim.ns k + i); linarith

/-- inequalities depend only on the variables of the stage -/
theorem linD_congr {qp : OcpQp K} {N : ℕ} (hr : RangeOk qp N) {u w : ℕ → Vec K} {k : ℕ} (hk : k ≤ N)
    (h : ∀ j, j < nvt qp.dim k → u k j = w k j) (j : ℕ) (hj : j < nct qp.dim k) : linD qp u k j = linD qp w k j := by
  have hc : ∀ j, cval qp k (u k) j = cval qp k (w k) j := by
    intro j
    unfold cval
    split
    · rename_i hb; exact h _ (by have := hr.ib k j hk hb; unfold nvt; omega)
    · exact sum_congr rfl fun i hi => by rw [h i (by have := mem_range.mp hi; unfold nvt; omega)]
  have hs : ∀ j o, j < qp.dim.nb k + qp.dim.ng k → o ≤ qp.dim.nu k + qp.dim.nx k + qp.dim.ns k → slk qp k (u k) o j = slk qp k (w k) o j := by
    intro j o hj ho
    unfold slk
    rcases hr.ir k j hk hj with e | ⟨e, e2⟩
    · simp [e]
    · rw [if_neg (by omega), if_neg (by omega), h _ (by unfold nvt; omega)]
  rw [nct_eq] at hj
  rcases ineq_cases _ _ j hj with h1 | ⟨i, h1, rfl⟩ | ⟨i, h1, rfl⟩ | ⟨i, h1, rfl⟩
  · rw [linD_lo _ _ _ _ h1, linD_lo _ _ _ _ h1, hc, hs _ _ h1 (by omega)]
  · rw [linD_up _ _ _ _ h1, linD_up _ _ _ _ h1, hc, hs _ _ h1 (by omega)]
  · rw [linD_sl, linD_sl, h _ (by unfold nvt; omega)]
  · rw [linD_sl, linD_sl, h _ (by unfold nvt; omega)]

/-! ### blocks and stages -/

theorem stOff_succ (len : ℕ → ℕ) (n : ℕ) : stOff len (n + 1) = stOff len n + len n := rfl

variable {P P2 : OcpQp K} {len : ℕ → ℕ} (C : CondensedBy P P2 len)
include C

theorem cb_stage {ii l : ℕ} (hi : ii ≤ P2.dim.N) (hl : l < len ii) : stOff len ii + l ≤ P.dim.N := by
  have h1 := stOff_mono len (show ii + 1 ≤ P2.dim.N + 1 by omega)
  rw [stOff_succ, C.tot] at h1; omega

theorem cb_find {k : ℕ} (hk : k ≤ P.dim.N) : ∃ ii l, ii ≤ P2.dim.N ∧ l < len ii ∧ k = stOff len ii + l := by
  obtain ⟨ii, l, h1, h2, h3⟩ := stFlat_inv len (P2.dim.N + 1) k (by rw [C.tot]; omega)
  exact ⟨ii, l, by omega, h2, h3⟩

theorem cb_sum (f : ℕ → K) : ∑ k ∈ range (P.dim.N + 1), f k
    = ∑ ii ∈ range (P2.dim.N + 1), ∑ l ∈ range (len ii - 1 + 1), f (stOff len ii + l) := by
  rw [← C.tot, flat_sum len (P2.dim.N + 1) f (fun ii l => f (stOff len ii + l)) (fun _ _ _ _ => rfl)]
  refine sum_congr rfl fun ii hi => ?_
  rw [show len ii - 1 + 1 = len ii by have := C.pos ii (by have := mem_range.mp hi; omega); omega]

theorem cb_range (hw : P.WF) {ii : ℕ} (hi : ii ≤ P2.dim.N) : RangeOk (shiftQp P (stOff len ii)) (len ii - 1) := by
  have hp := C.pos ii hi
  constructor
  · intro k j hk hj
    exact hw.1 _ j (cb_stage C hi (by omega)) hj
  · intro k j hk hj
    exact hw.2 _ j (cb_stage C hi (by omega)) hj

/-- the next stage of a stage: in the same block, or the first of the next one -/
theorem cb_next {k : ℕ} (hk : k < P.dim.N) : ∃ ii l, ii ≤ P2.dim.N ∧ l < len ii ∧ k = stOff len ii + l ∧
    ((l + 1 < len ii) ∨ (l + 1 = len ii ∧ ii < P2.dim.N)) := by
  obtain ⟨ii, l, h1, h2, h3⟩ := cb_find C (show k ≤ P.dim.N by omega)
  refine ⟨ii, l, h1, h2, h3, ?_⟩
  by_cases h : l + 1 < len ii
  · exact Or.inl h
  · refine Or.inr ⟨by omega, ?_⟩
    by_contra h5
    have h4 : ii = P2.dim.N := by omega
    have := C.tot
    rw [stOff_succ, ← h4] at this
    omega

variable {v w : ℕ → Vec K} (E : Expands P P2 len v w)
include E

theorem ex_ux {ii l j : ℕ} (hi : ii ≤ P2.dim.N) (hl : l < len ii) (hj : j < P.dim.nu (stOff len ii + l) + P.dim.nx (stOff len ii + l)) :
    w (stOff len ii + l) j = uxOf (shiftQp P (stOff len ii)) (len ii - 1) (v ii) l j := by
  rw [E ii l j hi hl (by unfold nvt; omega)]
  exact stageOf_ux _ _ _ _ _ hj

theorem ex_x {ii l j : ℕ} (hi : ii ≤ P2.dim.N) (hl : l < len ii) (hj : j < P.dim.nx (stOff len ii + l)) :
    w (stOff len ii + l) (P.dim.nu (stOff len ii + l) + j) = roll (shiftQp P (stOff len ii)) (len ii - 1) (v ii) l j := by
  rw [ex_ux C E hi hl (by omega)]
  exact uxOf_x (shiftQp P (stOff len ii)) _ _ _ _

/-- right-hand side of the dynamics -/
theorem ex_dyn {ii l i : ℕ} (hi : ii ≤ P2.dim.N) (hl : l < len ii) :
    P.b (stOff len ii + l) i + ∑ j ∈ range (P.dim.nu (stOff len ii + l) + P.dim.nx (stOff len ii + l)),
      P.BAbt (stOff len ii + l) j i * w (stOff len ii + l) j
      = roll (shiftQp P (stOff len ii)) (len ii - 1) (v ii) (l + 1) i := by
  rw [← uxOf_next (shiftQp P (stOff len ii)) (len ii - 1) (v ii) l i, add_comm]
  congr 1
  exact sum_congr rfl fun j hj => by rw [ex_ux C E hi hl (mem_range.mp hj)]; rfl

/-- inside a block the dynamics hold -/
theorem ex_dyn_in {ii l i : ℕ} (hi : ii ≤ P2.dim.N) (hl : l + 1 < len ii) (hx : i < P.dim.nx (stOff len ii + l + 1)) :
    dynRes P w (stOff len ii + l) i = 0 := by
  unfold dynRes linB
  have h1 := ex_dyn C E (i := i) hi (show l < len ii by omega)
  have h2 := ex_x C E (j := i) hi hl hx
  rw [← add_assoc (stOff len ii)] at h2
  rw [h2, ← h1]; ring

/-- between two blocks the dynamics are those of the condensed problem -/
theorem ex_dyn_out {ii l i : ℕ} (hi : ii < P2.dim.N) (hl : l + 1 = len ii) (hx : i < P.dim.nx (stOff len (ii + 1))) :
    dynRes P w (stOff len ii + l) i = dynRes P2 v ii i := by
  unfold dynRes linB
  have h1 := ex_dyn C E (i := i) (show ii ≤ P2.dim.N by omega) (show l < len ii by omega)
  have h2 := ex_x C E (ii := ii + 1) (l := 0) (j := i) hi (C.pos _ hi) (by rw [add_zero]; exact hx)
  have h3 := C.next ii hi (v ii) i hx
  have B := C.blk (ii + 1) hi
  rw [hl] at h1
  rw [show stOff len ii + l + 1 = stOff len (ii + 1) by rw [stOff_succ]; omega]
  rw [add_zero] at h2
  rw [h2]
  have e : roll (shiftQp P (stOff len (ii + 1))) (len (ii + 1) - 1) (v (ii + 1)) 0 i = v (ii + 1) (P2.dim.nu (ii + 1) + i) := by
    rw [B.nu]; rfl
  rw [e]
  linear_combination h1 - h3

/-- inequalities -/
theorem ex_ineq (hw : P.WF) {ii l j : ℕ} (hi : ii ≤ P2.dim.N) (hl : l < len ii) (hj : j < nct P.dim (stOff len ii + l)) :
    ineq P2 v ii (ineqPos (shiftQp P (stOff len ii)) (len ii - 1) l j) = ineq P w (stOff len ii + l) j ∧
    P2.d_mask ii (ineqPos (shiftQp P (stOff len ii)) (len ii - 1) l j) = P.d_mask (stOff len ii + l) j ∧
    P2.m ii (ineqPos (shiftQp P (stOff len ii)) (len ii - 1) l j) = P.m (stOff len ii + l) j ∧
    ineqPos (shiftQp P (stOff len ii)) (len ii - 1) l j < nct P2.dim ii := by
  have hr := cb_range C hw hi
  obtain ⟨h1, h2, h3, h4⟩ := blk_ineq (C.blk ii hi) hr v l j (by omega) hj
  refine ⟨?_, h2, h3, h4⟩
  rw [h1]
  have e : ineq P w (stOff len ii + l) j = ineq (shiftQp P (stOff len ii)) (fun k => w (stOff len ii + k)) l j := rfl
  rw [e]
  unfold ineq
  congr 1
  exact linD_congr hr (by omega) (fun j hj => (E ii l j hi hl hj).symm) j hj

/-- **the two problems have the same feasible points** (along corresponding points) -/
theorem ex_feasible (hw : P.WF) : (view P).Feasible (ptOf P.dim w) ↔ (view P2).Feasible (ptOf P2.dim v) := by
  rw [feasible_iff, feasible_iff]
  constructor
  · rintro ⟨h1, h2⟩
    refine ⟨fun ii i hi hx => ?_, fun ii p hi hp hm => ?_⟩
    · have hpos := C.pos ii (by omega)
      have hx' : i < P.dim.nx (stOff len (ii + 1)) := by
        rw [(C.blk (ii + 1) hi).nx] at hx; exact hx
      rw [← ex_dyn_out C E (l := len ii - 1) hi (by omega) hx']
      have e : stOff len ii + (len ii - 1) + 1 = stOff len (ii + 1) := by rw [stOff_succ]; omega
      refine h1 _ i ?_ (by rw [e]; exact hx')
      have := stOff_mono len (show ii + 2 ≤ P2.dim.N + 1 by omega)
      rw [C.tot, show ii + 2 = (ii + 1) + 1 from rfl, stOff_succ] at this
      have := C.pos (ii + 1) hi
      omega
    · obtain ⟨l, j, hl, hj, rfl⟩ := ineqPos_surj (C.blk ii hi) p hp
      have hpos := C.pos ii hi
      obtain ⟨e1, e2, -, -⟩ := ex_ineq C E hw hi (show l < len ii by omega) hj
      rw [e1]; rw [e2] at hm
      exact h2 _ j (cb_stage C hi (by omega)) hj hm
  · rintro ⟨h1, h2⟩
    refine ⟨fun k i hk hx => ?_, fun k j hk hj hm => ?_⟩
    · obtain ⟨ii, l, hi, hl, rfl, hh | ⟨hh, hh2⟩⟩ := cb_next C hk
      · exact ex_dyn_in C E hi hh hx
      · have e : stOff len ii + l + 1 = stOff len (ii + 1) := by rw [stOff_succ]; omega
        rw [e] at hx
        rw [ex_dyn_out C E hh2 hh hx]
        exact h1 ii i hh2 (by rw [(C.blk (ii + 1) hh2).nx]; exact hx)
    · obtain ⟨ii, l, hi, hl, rfl⟩ := cb_find C hk
      obtain ⟨e1, e2, -, e4⟩ := ex_ineq C E hw hi hl hj
      rw [← e1]; rw [← e2] at hm
      exact h2 ii _ hi e4 hm

omit E in
/-- **the two problems have the same objective**, up to a constant -/
theorem ex_objective : ∃ c : K, ∀ v w, Expands P P2 len v w →
    (view P).objective (ptOf P.dim w) = (view P2).objective (ptOf P2.dim v) + c := by
  have hb : ∀ ii, ∃ c : K, ii ≤ P2.dim.N → ∀ v, ∑ k ∈ range (len ii - 1 + 1),
      (stageCost (shiftQp P (stOff len ii)) k (stageOf (shiftQp P (stOff len ii)) (len ii - 1) v k)
        + slackCost (shiftQp P (stOff len ii)) k (stageOf (shiftQp P (stOff len ii)) (len ii - 1) v k))
      = stageCost P2 ii v + slackCost P2 ii v + c := by
    intro ii
    by_cases h : ii ≤ P2.dim.N
    · obtain ⟨c, hc⟩ := blk_obj (C.blk ii h)
      exact ⟨c, fun _ => hc⟩
    · exact ⟨0, fun h' => absurd h' h⟩
  choose c hc using hb
  refine ⟨∑ ii ∈ range (P2.dim.N + 1), c ii, fun v w E => ?_⟩
  rw [obj_packed P ⟨w, fun _ _ => 0, fun _ _ => 0, fun _ _ => 0⟩, obj_packed P2 ⟨v, fun _ _ => 0, fun _ _ => 0, fun _ _ => 0⟩,
    cb_sum C, ← sum_add_distrib]
  refine sum_congr rfl fun ii hi => ?_
  have hi : ii ≤ P2.dim.N := by have := mem_range.mp hi; omega
  have hpos := C.pos ii hi
  rw [vObj_split, ← hc ii hi (v ii)]
  refine sum_congr rfl fun l hl => ?_
  have hl : l < len ii := by have := mem_range.mp hl; omega
  rw [vObj_split]
  congr 1
  · exact stageCost_congr (C.blk ii hi) (shiftQp P (stOff len ii)) l (fun j hj => E ii l j hi hl (by
      have hj' : j < P.dim.nu (stOff len ii + l) + P.dim.nx (stOff len ii + l) := hj
      unfold nvt; omega))
  · show slackCost P (stOff len ii + l) (w (stOff len ii + l)) = _
    unfold slackCost
    refine sum_congr rfl fun s hs => ?_
    have hs : s < 2 * P.dim.ns (stOff len ii + l) := mem_range.mp hs
    rw [E ii l _ hi hl (by unfold nvt; omega)]
    rfl

/-! ### corresponding points -/

omit C E in
/-- concatenation of vectors, last stage first -/
def flatL (f : ℕ → ℕ) (g : ℕ → Vec K) : ℕ → Vec K
  | 0 => g 0
  | n + 1 => fun p => if p < f (n + 1) then g (n + 1) p else flatL f g n (p - f (n + 1))

omit C E in
theorem flatL_at (f : ℕ → ℕ) (g : ℕ → Vec K) (N k i : ℕ) (hk : k ≤ N) (hi : i < f k) : flatL f g N (later f N k + i) = g k i := by
  induction N with
  | zero => obtain rfl : k = 0 := by omega
            rw [later_self, zero_add]; rfl
  | succ n ih =>
    by_cases h : k = n + 1
    · subst h; rw [later_self, zero_add]; unfold flatL; rw [if_pos hi]
    · rw [later_last f (by omega)]
      unfold flatL
      rw [if_neg (by omega), show f (n + 1) + later f n k + i - f (n + 1) = later f n k + i by omega]
      exact ih (by omega)

omit C E in
/-- the condensed variables of given stage vectors -/
def condVec (qp : OcpQp K) (N : ℕ) (w : ℕ → Vec K) : Vec K := fun p =>
  if p < nuAll qp.dim N then flatL qp.dim.nu (fun k i => w k i) N p
  else if p < nvCond qp N then w 0 (qp.dim.nu 0 + (p - nuAll qp.dim N))
  else if p < nvCond qp N + nsAll qp.dim N then
    flatL qp.dim.ns (fun k i => w k (qp.dim.nu k + qp.dim.nx k + i)) N (p - nvCond qp N)
  else flatL qp.dim.ns (fun k i => w k (qp.dim.nu k + qp.dim.nx k + qp.dim.ns k + i)) N (p - (nvCond qp N + nsAll qp.dim N))

omit C E in
/-- stage vectors that satisfy the dynamics are the trajectory of their condensed variables -/
theorem stageOf_condVec (qp : OcpQp K) (N : ℕ) (w : ℕ → Vec K)
    (hd : ∀ k i, k < N → i < qp.dim.nx (k + 1) → dynRes qp w k i = 0) :
    ∀ k j, k ≤ N → j < nvt qp.dim k → stageOf qp N (condVec qp N w) k j = w k j := by
  have hu : ∀ k i, k ≤ N → i < qp.dim.nu k → condVec qp N w (later qp.dim.nu N k + i) = w k i := by
    intro k i hk hi
    unfold condVec
    have : later qp.dim.nu N k + i < nuAll qp.dim N := later_lt qp.dim.nu hk hi
    rw [if_pos this, flatL_at _ _ _ _ _ hk hi]
  have hx : ∀ k, k ≤ N → ∀ i, i < qp.dim.nx k → roll qp N (condVec qp N w) k i = w k (qp.dim.nu k + i) := by
    intro k
    induction k with
    | zero =>
      intro _ i hi
      show condVec qp N w (nuAll qp.dim N + i) = _
      unfold condVec
      rw [if_neg (by omega), if_pos (by unfold nvCond; omega), Nat.add_sub_cancel_left]
    | succ k ih =>
      intro hk i hi
      have h := hd k i (by omega) hi
      unfold dynRes linB at h
      rw [sum_range_add] at h
      show qp.b k i + _ + _ = _
      have s1 : ∑ j ∈ range (qp.dim.nu k), qp.BAbt k j i * condVec qp N w (later qp.dim.nu N k + j) = ∑ j ∈ range (qp.dim.nu k), qp.BAbt k j i * w k j :=
        sum_congr rfl fun j hj => by rw [hu k j (by omega) (mem_range.mp hj)]
      have s2 : ∑ j ∈ range (qp.dim.nx k), qp.BAbt k (qp.dim.nu k + j) i * roll qp N (condVec qp N w) k j
          = ∑ j ∈ range (qp.dim.nx k), qp.BAbt k (qp.dim.nu k + j) i * w k (qp.dim.nu k + j) :=
        sum_congr rfl fun j hj => by rw [ih (by omega) j (mem_range.mp hj)]
      rw [s1, s2]
      linear_combination h
  intro k j hk hj
  unfold nvt at hj
  by_cases h1 : j < qp.dim.nu k
  · rw [stageOf_ux _ _ _ _ _ (by omega), uxOf_u _ _ _ _ _ h1, hu k j hk h1]
  · by_cases h2 : j < qp.dim.nu k + qp.dim.nx k
    · obtain ⟨i, rfl⟩ : ∃ i, j = qp.dim.nu k + i := ⟨j - qp.dim.nu k, by omega⟩
      rw [stageOf_ux _ _ _ _ _ h2, uxOf_x, hx k hk i (by omega)]
    · by_cases h3 : j < qp.dim.nu k + qp.dim.nx k + qp.dim.ns k
      · obtain ⟨i, rfl⟩ : ∃ i, j = qp.dim.nu k + qp.dim.nx k + i := ⟨j - (qp.dim.nu k + qp.dim.nx k), by omega⟩
        have hi : i < qp.dim.ns k := by omega
        have : later qp.dim.ns N k + i < nsAll qp.dim N := later_lt qp.dim.ns hk hi
        rw [stageOf_sl _ _ _ _ _ hi]
        unfold condVec
        rw [if_neg (by unfold nvCond; omega), if_neg (by omega), if_pos (by omega), Nat.add_sub_cancel_left, flatL_at _ _ _ _ _ hk hi]
      · obtain ⟨i, rfl⟩ : ∃ i, j = qp.dim.nu k + qp.dim.nx k + qp.dim.ns k + i := ⟨j - (qp.dim.nu k + qp.dim.nx k + qp.dim.ns k), by omega⟩
        have hi : i < qp.dim.ns k := by omega
        rw [stageOf_su]
        unfold condVec
        rw [if_neg (by unfold nvCond; omega), if_neg (by omega), if_neg (by omega),
          show nvCond qp N + (nsAll qp.dim N + (later qp.dim.ns N k + i)) - (nvCond qp N + nsAll qp.dim N) = later qp.dim.ns N k + i by omega,
          flatL_at _ _ _ _ _ hk hi]

omit E in
/-- every point that satisfies the dynamics is an expansion -/
theorem ex_of_dyn (w : ℕ → Vec K) (hd : ∀ k i, k < P.dim.N → i < P.dim.nx (k + 1) → dynRes P w k i = 0) :
    Expands P P2 len (fun ii => condVec (shiftQp P (stOff len ii)) (len ii - 1) (fun l => w (stOff len ii + l))) w := by
  intro ii l j hi hl hj
  have hp := C.pos ii hi
  refine (stageOf_condVec (shiftQp P (stOff len ii)) (len ii - 1) (fun l => w (stOff len ii + l)) ?_ l j (by omega) hj).symm
  intro k i hk hx
  exact hd (stOff len ii + k) i (by have := cb_stage C hi (show k + 1 < len ii by omega); omega) hx

omit C E in
/-- index of the block of a stage -/
def blkOf (len : ℕ → ℕ) (k : ℕ) : ℕ := Nat.findGreatest (fun ii => stOff len ii ≤ k) k

omit C E in
/-- the trajectory of all stages -/
def expandPt (P : OcpQp K) (len : ℕ → ℕ) (v : ℕ → Vec K) : ℕ → Vec K := fun k =>
  stageOf (shiftQp P (stOff len (blkOf len k))) (len (blkOf len k) - 1) (v (blkOf len k)) (k - stOff len (blkOf len k))

omit C E in
theorem stOff_ge (len : ℕ → ℕ) (n : ℕ) (h : ∀ ii, ii < n → 0 < len ii) : n ≤ stOff len n := by
  induction n with
  | zero => omega
  | succ n ih =>
    rw [stOff_succ]
    have := ih (fun ii hi => h ii (by omega))
    have := h n (by omega)
    omega

omit C E in
theorem blkOf_at (len : ℕ → ℕ) (ii l : ℕ) (h : ∀ i, i ≤ ii → 0 < len i) (hl : l < len ii) : blkOf len (stOff len ii + l) = ii := by
  unfold blkOf
  have hge := stOff_ge len ii (fun i hi => h i (by omega))
  have h1 : ii ≤ Nat.findGreatest (fun i => stOff len i ≤ stOff len ii + l) (stOff len ii + l) :=
    Nat.le_findGreatest (by omega) (by omega)
  have h2 := Nat.findGreatest_spec (P := fun i => stOff len i ≤ stOff len ii + l) (show ii ≤ stOff len ii + l by omega) (by omega)
  by_contra hne
  have h3 := stOff_mono len (show ii + 1 ≤ Nat.findGreatest (fun i => stOff len i ≤ stOff len ii + l) (stOff len ii + l) by omega)
  rw [stOff_succ] at h3
  omega

omit E in
theorem expandPt_expands (v : ℕ → Vec K) : Expands P P2 len v (expandPt P len v) := by
  intro ii l j hi hl hj
  unfold expandPt
  rw [blkOf_at len ii l (fun i h => C.pos i (by omega)) hl, Nat.add_sub_cancel_left]

omit E in
/-- index lists of the condensed problem are in range -/
theorem cb_wf (hw : P.WF) : P2.WF := by
  constructor
  · intro ii p hi hp
    have B := C.blk ii hi
    rw [B.nb] at hp
    obtain ⟨k, j, hk, hj, e⟩ := conPos_surj (shiftQp P (stOff len ii)) (len ii - 1) p (by unfold ntCond; omega)
    obtain ⟨t0, f⟩ := B.con k j hk hj
    have h1 : (shiftQp P (stOff len ii)).dim.nu = fun k => P.dim.nu (stOff len ii + k) := rfl
    have := f.ix (by omega)
    rw [← e] at this
    rw [blk_nv B]; exact this
  · intro ii p hi hp
    have B := C.blk ii hi
    have hr := cb_range C hw hi
    rw [blk_n B] at hp
    obtain ⟨k, j, hk, hj, rfl⟩ := conPos_surj (shiftQp P (stOff len ii)) (len ii - 1) p hp
    rw [B.rev k j hk hj, B.ns]
    rcases hr.ir k j hk hj with h | ⟨h, h2⟩
    · left; rw [if_pos h]
    · right
      rw [if_neg (by omega)]
      have : later (shiftQp P (stOff len ii)).dim.ns (len ii - 1) k + ((shiftQp P (stOff len ii)).idxs_rev k j).toNat
          < nsAll (shiftQp P (stOff len ii)).dim (len ii - 1) := later_lt _ hk h2
      omega

/-- **a minimiser of the condensed problem gives a minimiser of the original one, and conversely** -/
theorem ex_optimal (hw : P.WF) : (view P).IsOptimal (ptOf P.dim w) ↔ (view P2).IsOptimal (ptOf P2.dim v) := by
  obtain ⟨c, hc⟩ := ex_objective C
  have hw2 := cb_wf C hw
  constructor
  · intro ho
    refine ⟨(ex_feasible C E hw).mp ho.1, fun p' hp' => ?_⟩
    have hv := feasible_congr P2 hw2 _ _ (packPt_agree P2 p') hp'
    have E' := expandPt_expands C (packPt P2.dim p')
    have hle := ho.2 _ ((ex_feasible C E' hw).mpr hv)
    rw [hc _ _ E, hc _ _ E'] at hle
    rw [← objective_congr _ _ _ (packPt_agree P2 p')]
    exact le_of_add_le_add_right hle
  · intro ho
    refine ⟨(ex_feasible C E hw).mpr ho.1, fun p' hp' => ?_⟩
    have hv := feasible_congr P hw _ _ (packPt_agree P p') hp'
    have E' := ex_of_dyn C (packPt P.dim p') ((feasible_iff P _).mp hv).1
    have hle := ho.2 _ ((ex_feasible C E' hw).mp hv)
    rw [hc _ _ E, ← objective_congr _ _ _ (packPt_agree P p'), hc _ _ E']
    exact add_le_add_left hle c

end
end Hpipm
