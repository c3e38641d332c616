/-
Meaning of one condensed block: a stage `ii` of a problem `P2` whose data were written by condensing the stages
`0..N` of `qp` has, at every point, the costs and constraint residuals of these stages on the generated trajectory.
-/
import Verif.CondCon3
import Verif.ResProps
import Verif.RedVal
import Verif.RedSolVal

namespace Hpipm
open Finset
set_option linter.unusedSectionVars false

section
variable {K : Type*} [Field K] [LinearOrder K] [IsStrictOrderedRing K]

/-! ### sums and positions over the stages, last stage first -/

theorem later_last (f : ℕ → ℕ) {N k : ℕ} (h : k ≤ N) : later f (N + 1) k = f (N + 1) + later f N k := by
  have h1 := sum_later f (N := N + 1) (k := k) (by omega)
  have h2 := sum_later f h
  rw [sum_range_succ _ (N + 1), ← h2] at h1
  omega

theorem sum_later_flat {R : Type*} [AddCommMonoid R] (f : ℕ → ℕ) (N : ℕ) (g : ℕ → R) :
    ∑ p ∈ range (∑ k ∈ range (N + 1), f k), g p = ∑ k ∈ range (N + 1), ∑ i ∈ range (f k), g (later f N k + i) := by
  induction N generalizing g with
  | zero => simp [later_self]
  | succ n ih =>
    rw [sum_range_succ _ (n + 1), sum_range_succ _ (n + 1), add_comm (∑ k ∈ range (n + 1), f k), sum_range_add, ih (fun p => g (f (n + 1) + p)),
      later_self, add_comm]
    congr 1
    · refine sum_congr rfl fun k hk => sum_congr rfl fun i _ => ?_
      rw [later_last f (by have := mem_range.mp hk; omega)]; congr 1; omega
    · exact sum_congr rfl fun i _ => by rw [zero_add]

theorem later_surj (f : ℕ → ℕ) (N p : ℕ) (h : p < ∑ k ∈ range (N + 1), f k) :
    ∃ k i, k ≤ N ∧ i < f k ∧ p = later f N k + i := by
  induction N generalizing p with
  | zero => exact ⟨0, p, le_refl _, by simpa using h, by rw [later_self]; omega⟩
  | succ n ih =>
    by_cases hp : p < f (n + 1)
    · exact ⟨n + 1, p, le_refl _, hp, by rw [later_self]; omega⟩
    · rw [sum_range_succ] at h
      obtain ⟨k, i, hk, hi, e⟩ := ih (p - f (n + 1)) (by omega)
      exact ⟨k, i, by omega, hi, by rw [later_last f hk]; omega⟩

/-- every position of the condensed problem is the position of a constraint -/
theorem conPos_surj (qp : OcpQp K) (N p : ℕ) (h : p < ntCond qp N) :
    ∃ k j, k ≤ N ∧ j < qp.dim.nb k + qp.dim.ng k ∧ p = conPos qp N k j := by
  by_cases h1 : p < nbCond qp N
  · obtain ⟨k, q, hk, hq, e⟩ := later_surj (nBox qp) N p h1
    obtain ⟨j, hj, hb, hc⟩ := count_surj (StaysBox qp k) (qp.dim.nb k) q hq
    exact ⟨k, j, hk, by omega, by rw [conPos_box hj hb, hc, e]⟩
  · by_cases h2 : p < nbCond qp N + nbgCond qp N
    · obtain ⟨k, q, hk, hq, e⟩ := later_surj (nGen qp) N (p - nbCond qp N) (by unfold nbgCond at h2; omega)
      obtain ⟨j, hj, hb, hc⟩ := count_surj (fun j => ¬ StaysBox qp k j) (qp.dim.nb k) q hq
      exact ⟨k, j, hk, by omega, by rw [conPos_gen hj hb, hc]; omega⟩
    · obtain ⟨k, q, hk, hq, e⟩ := later_surj qp.dim.ng N (p - (nbCond qp N + nbgCond qp N))
        (by unfold ntCond ngCond ngAll at h; omega)
      exact ⟨k, qp.dim.nb k + q, hk, by omega, by rw [conPos_g (by omega)]; omega⟩

theorem sum_conPos (qp : OcpQp K) (N : ℕ) (g : ℕ → K) :
    ∑ p ∈ range (ntCond qp N), g p = ∑ k ∈ range (N + 1), ∑ j ∈ range (qp.dim.nb k + qp.dim.ng k), g (conPos qp N k j) := by
  unfold ntCond ngCond
  rw [sum_range_add, sum_range_add]
  unfold nbCond nbgCond ngAll
  rw [sum_later_flat, sum_later_flat, sum_later_flat, ← sum_add_distrib, ← sum_add_distrib]
  refine sum_congr rfl fun k _ => ?_
  rw [sum_range_add (fun j => g (conPos qp N k j))]
  rw [← add_assoc]
  congr 1
  · show (∑ i ∈ range (Nat.count (StaysBox qp k) (qp.dim.nb k)), _) + (∑ i ∈ range (Nat.count (fun j => ¬ StaysBox qp k j) (qp.dim.nb k)), _) = _
    rw [sum_count, sum_count (fun j => ¬ StaysBox qp k j), ← sum_add_distrib]
    refine sum_congr rfl fun j hj => ?_
    have hj := mem_range.mp hj
    by_cases hb : StaysBox qp k j
    · rw [if_pos hb, if_neg (not_not.mpr hb), add_zero, conPos_box hj hb]
    · rw [if_neg hb, if_pos hb, zero_add, conPos_gen hj hb]; rfl
  · refine sum_congr rfl fun j _ => ?_
    rw [conPos_g (by omega)]
    unfold nbCond nbgCond
    congr 1; omega

/-! ### the condensed block -/

/-- stage `ii` of a problem as a condensing target -/
def tgtOf (P2 : OcpQp K) (ii : ℕ) : CondTgt K :=
  ⟨P2.BAbt ii, P2.b ii, P2.RSQrq ii, P2.rqz ii, P2.DCt ii, P2.d ii, P2.d_mask ii, P2.m ii, P2.Z ii, P2.idxb ii, P2.idxs_rev ii⟩

/-- stage `ii` of `P2` is the condensed block of the stages `0..N` of `qp` -/
structure BlockOf (P2 : OcpQp K) (ii : ℕ) (qp : OcpQp K) (N : ℕ) : Prop where
  nu : P2.dim.nu ii = nuAll qp.dim N
  nx : P2.dim.nx ii = qp.dim.nx 0
  nb : P2.dim.nb ii = nbCond qp N
  ng : P2.dim.ng ii = ngCond qp N
  ns : P2.dim.ns ii = nsAll qp.dim N
  cost : ∃ c : K, ∀ v, ∑ k ∈ range (N + 1), stageCost qp k (uxOf qp N v k) = stageCost P2 ii v + c
  con : ∀ k j, k ≤ N → j < qp.dim.nb k + qp.dim.ng k → ∃ t0, ConFact qp N t0 (tgtOf P2 ii) k j
  rev : ∀ k j, k ≤ N → j < qp.dim.nb k + qp.dim.ng k → P2.idxs_rev ii (conPos qp N k j)
    = if qp.idxs_rev k j = -1 then -1 else (later qp.dim.ns N k : ℤ) + qp.idxs_rev k j
  slack : ∀ k i, k ≤ N → i < qp.dim.ns k → SlackFact qp N (tgtOf P2 ii) k i

/-- index lists of the stages `0..N` -/
structure RangeOk (qp : OcpQp K) (N : ℕ) : Prop where
  ib : ∀ k j, k ≤ N → j < qp.dim.nb k → qp.idxb k j < qp.dim.nu k + qp.dim.nx k
  ir : ∀ k j, k ≤ N → j < qp.dim.nb k + qp.dim.ng k →
    qp.idxs_rev k j = -1 ∨ (0 ≤ qp.idxs_rev k j ∧ (qp.idxs_rev k j).toNat < qp.dim.ns k)

theorem stageOf_ux (qp : OcpQp K) (N : ℕ) (v : Vec K) (k j : ℕ) (h : j < qp.dim.nu k + qp.dim.nx k) :
    stageOf qp N v k j = uxOf qp N v k j := by
  unfold stageOf uxOf
  by_cases h1 : j < qp.dim.nu k
  · rw [if_pos h1, if_pos h1]
  · rw [if_neg h1, if_pos h, if_neg h1]

theorem stageOf_sl (qp : OcpQp K) (N : ℕ) (v : Vec K) (k i : ℕ) (h : i < qp.dim.ns k) :
    stageOf qp N v k (qp.dim.nu k + qp.dim.nx k + i) = v (nvCond qp N + (later qp.dim.ns N k + i)) := by
  unfold stageOf nvCond
  rw [if_neg (by omega), if_neg (by omega), if_pos (by omega)]; congr 1; omega

theorem stageOf_su (qp : OcpQp K) (N : ℕ) (v : Vec K) (k i : ℕ) :
    stageOf qp N v k (qp.dim.nu k + qp.dim.nx k + qp.dim.ns k + i) = v (nvCond qp N + (nsAll qp.dim N + (later qp.dim.ns N k + i))) := by
  unfold stageOf nvCond
  rw [if_neg (by omega), if_neg (by omega), if_neg (by omega)]; congr 1; omega

/-- cost of the slacks of a stage -/
def slackCost (qp : OcpQp K) (k : ℕ) (z : Vec K) : K :=
  ∑ s ∈ range (2 * qp.dim.ns k), (1 / 2 * qp.Z k s * z (qp.dim.nu k + qp.dim.nx k + s) * z (qp.dim.nu k + qp.dim.nx k + s)
    + qp.rqz k (qp.dim.nu k + qp.dim.nx k + s) * z (qp.dim.nu k + qp.dim.nx k + s))

theorem vObj_split (qp : OcpQp K) (sol : Sol K) (k : ℕ) : vObj qp sol k = stageCost qp k (sol.ux k) + slackCost qp k (sol.ux k) := by
  unfold vObj stageCost slackCost quadL
  simp only [add_mul, sum_add_distrib, mul_add]
  have h1 : ∀ (n : ℕ) (f g : ℕ → K), (1 / 2 : K) * ∑ x ∈ range n, 2 * f x * g x = ∑ x ∈ range n, f x * g x := by
    intro n f g; rw [mul_sum]; exact sum_congr rfl fun x _ => by ring
  rw [h1, h1, mul_sum (range (2 * qp.dim.ns k))]
  have h2 : ∑ i ∈ range (qp.dim.nu k + qp.dim.nx k), hmul qp k (sol.ux k) i * sol.ux k i
      = ∑ i ∈ range (qp.dim.nu k + qp.dim.nx k), ∑ j ∈ range (qp.dim.nu k + qp.dim.nx k), symL (qp.RSQrq k) 0 0 i j * sol.ux k i * sol.ux k j := by
    refine sum_congr rfl fun i _ => ?_
    unfold hmul
    rw [sum_mul]
    exact sum_congr rfl fun j _ => by ring
  have h3 : ∑ i ∈ range (2 * qp.dim.ns k), (1 / 2 : K) * (qp.Z k i * sol.ux k (qp.dim.nu k + qp.dim.nx k + i) * sol.ux k (qp.dim.nu k + qp.dim.nx k + i))
      = ∑ i ∈ range (2 * qp.dim.ns k), 1 / 2 * qp.Z k i * sol.ux k (qp.dim.nu k + qp.dim.nx k + i) * sol.ux k (qp.dim.nu k + qp.dim.nx k + i) :=
    sum_congr rfl fun i _ => by ring
  rw [h2, h3]
  try ring

/-- residual of an inequality: bound plus linear part -/
def ineq (qp : OcpQp K) (ux : ℕ → Vec K) (k j : ℕ) : K := qp.d k j + linD qp ux k j

/-- position in the condensed stage of inequality `j` (all sides and slack bounds) of stage `k` -/
def ineqPos (qp : OcpQp K) (N k j : ℕ) : ℕ :=
  let n := qp.dim.nb k + qp.dim.ng k
  if j < n then conPos qp N k j
  else if j < 2 * n then ntCond qp N + conPos qp N k (j - n)
  else if j < 2 * n + qp.dim.ns k then 2 * ntCond qp N + (later qp.dim.ns N k + (j - 2 * n))
  else 2 * ntCond qp N + (nsAll qp.dim N + (later qp.dim.ns N k + (j - 2 * n - qp.dim.ns k)))

variable {P2 qp : OcpQp K} {ii N : ℕ} (B : BlockOf P2 ii qp N)
include B

theorem blk_nv : P2.dim.nu ii + P2.dim.nx ii = nvCond qp N := by rw [B.nu, B.nx]; rfl

theorem blk_n : P2.dim.nb ii + P2.dim.ng ii = ntCond qp N := by rw [B.nb, B.ng]; rfl

theorem stageCost_congr (qp : OcpQp K) (k : ℕ) {z z' : Vec K} (h : ∀ j, j < qp.dim.nu k + qp.dim.nx k → z j = z' j) :
    stageCost qp k z = stageCost qp k z' := by
  unfold stageCost
  congr 1
  · exact quadL_congr (fun _ _ _ _ => rfl) h
  · exact sum_congr rfl fun c hc => by rw [h c (mem_range.mp hc)]

/-- the slack costs are the same -/
theorem blk_slackCost (v : Vec K) : ∑ k ∈ range (N + 1), slackCost qp k (stageOf qp N v k) = slackCost P2 ii v := by
  unfold slackCost
  rw [B.ns, blk_nv B, two_mul (nsAll qp.dim N)]
  rw [sum_range_add _ (nsAll qp.dim N)]
  unfold nsAll
  rw [sum_later_flat, sum_later_flat, ← sum_add_distrib]
  refine sum_congr rfl fun k hk => ?_
  have hk := mem_range.mp hk
  rw [two_mul, sum_range_add]
  congr 1
  · refine sum_congr rfl fun i hi => ?_
    have f := B.slack k i (by omega) (mem_range.mp hi)
    have e1 : P2.Z ii (later qp.dim.ns N k + i) = qp.Z k i := f.Zl
    have e2 : P2.rqz ii (nvCond qp N + (later qp.dim.ns N k + i)) = qp.rqz k (qp.dim.nu k + qp.dim.nx k + i) := f.zl
    rw [e1, e2, stageOf_sl _ _ _ _ _ (mem_range.mp hi)]
  · refine sum_congr rfl fun i hi => ?_
    have f := B.slack k i (by omega) (mem_range.mp hi)
    have e1 : P2.Z ii (nsAll qp.dim N + (later qp.dim.ns N k + i)) = qp.Z k (qp.dim.ns k + i) := f.Zu
    have e2 : P2.rqz ii (nvCond qp N + (nsAll qp.dim N + (later qp.dim.ns N k + i))) = qp.rqz k (qp.dim.nu k + qp.dim.nx k + (qp.dim.ns k + i)) := f.zu
    unfold nsAll at e1 e2
    rw [e1, e2, ← add_assoc (qp.dim.nu k + qp.dim.nx k), stageOf_su]
    rfl

/-- costs of the block: equal up to a constant -/
theorem blk_obj : ∃ c : K, ∀ v, ∑ k ∈ range (N + 1), (stageCost qp k (stageOf qp N v k) + slackCost qp k (stageOf qp N v k))
    = stageCost P2 ii v + slackCost P2 ii v + c := by
  obtain ⟨c, hc⟩ := B.cost
  refine ⟨c, fun v => ?_⟩
  rw [sum_add_distrib, blk_slackCost B, sum_congr rfl fun k _ => stageCost_congr B qp k fun j hj => stageOf_ux qp N v k j hj, hc v]
  ring

omit B in
theorem cval_stageOf (hr : RangeOk qp N) (v : Vec K) (k j : ℕ) (hk : k ≤ N) :
    cval qp k (stageOf qp N v k) j = cval qp k (uxOf qp N v k) j := by
  unfold cval
  split
  · rename_i h; exact stageOf_ux _ _ _ _ _ (hr.ib k j hk h)
  · exact sum_congr rfl fun i hi => by rw [stageOf_ux _ _ _ _ _ (mem_range.mp hi)]

theorem cval_tgt (v : Vec K) (p : ℕ) : tval (tgtOf P2 ii) (nbCond qp N) (nvCond qp N) v p = cval P2 ii v p := by
  unfold tval cval tgtOf
  rw [blk_nv B, B.nb]

/-- slacks of the constraints -/
theorem blk_slk (hr : RangeOk qp N) (v : Vec K) (k j : ℕ) (hk : k ≤ N) (hj : j < qp.dim.nb k + qp.dim.ng k) :
    slk P2 ii v (nvCond qp N) (conPos qp N k j) = slk qp k (stageOf qp N v k) (qp.dim.nu k + qp.dim.nx k) j ∧
    slk P2 ii v (nvCond qp N + nsAll qp.dim N) (conPos qp N k j)
      = slk qp k (stageOf qp N v k) (qp.dim.nu k + qp.dim.nx k + qp.dim.ns k) j := by
  unfold slk
  rw [B.rev k j hk hj]
  rcases hr.ir k j hk hj with h | ⟨h, h2⟩
  · simp [h]
  · have e : ¬ qp.idxs_rev k j = -1 := by omega
    rw [if_neg e, if_neg e, if_neg (show ¬ ((later qp.dim.ns N k : ℤ) + qp.idxs_rev k j = -1) by omega), if_neg e,
      if_neg (show ¬ ((later qp.dim.ns N k : ℤ) + qp.idxs_rev k j = -1) by omega),
      show ((later qp.dim.ns N k : ℤ) + qp.idxs_rev k j).toNat = later qp.dim.ns N k + (qp.idxs_rev k j).toNat by omega,
      stageOf_sl _ _ _ _ _ h2, stageOf_su]
    exact ⟨rfl, by congr 1; omega⟩

omit B in
theorem linD_lo (qp : OcpQp K) (h : ℕ → Vec K) (k j : ℕ) (hj : j < qp.dim.nb k + qp.dim.ng k) :
    linD qp h k j = - cval qp k (h k) j - slk qp k (h k) (qp.dim.nu k + qp.dim.nx k) j := by
  unfold linD; dsimp only; rw [if_pos hj]
omit B in
theorem linD_up (qp : OcpQp K) (h : ℕ → Vec K) (k j : ℕ) (hj : j < qp.dim.nb k + qp.dim.ng k) :
    linD qp h k (qp.dim.nb k + qp.dim.ng k + j) = cval qp k (h k) j - slk qp k (h k) (qp.dim.nu k + qp.dim.nx k + qp.dim.ns k) j := by
  unfold linD; dsimp only; rw [if_neg (by omega), if_pos (by omega), Nat.add_sub_cancel_left]
omit B in
theorem linD_sl (qp : OcpQp K) (h : ℕ → Vec K) (k i : ℕ) :
    linD qp h k (2 * (qp.dim.nb k + qp.dim.ng k) + i) = - h k (qp.dim.nu k + qp.dim.nx k + i) := by
  unfold linD; dsimp only; rw [if_neg (by omega), if_neg (by omega), Nat.add_sub_cancel_left]

omit B in
theorem ineqPos_lo {k j : ℕ} (h : j < qp.dim.nb k + qp.dim.ng k) : ineqPos qp N k j = conPos qp N k j := by
  unfold ineqPos; dsimp only; rw [if_pos h]
omit B in
theorem ineqPos_up {k j : ℕ} (h : j < qp.dim.nb k + qp.dim.ng k) :
    ineqPos qp N k (qp.dim.nb k + qp.dim.ng k + j) = ntCond qp N + conPos qp N k j := by
  unfold ineqPos; dsimp only; rw [if_neg (by omega), if_pos (by omega), Nat.add_sub_cancel_left]
omit B in
theorem ineqPos_sl {k i : ℕ} (h : i < qp.dim.ns k) :
    ineqPos qp N k (2 * (qp.dim.nb k + qp.dim.ng k) + i) = 2 * ntCond qp N + (later qp.dim.ns N k + i) := by
  unfold ineqPos; dsimp only; rw [if_neg (by omega), if_neg (by omega), if_pos (by omega), Nat.add_sub_cancel_left]
omit B in
theorem ineqPos_su (k i : ℕ) :
    ineqPos qp N k (2 * (qp.dim.nb k + qp.dim.ng k) + (qp.dim.ns k + i)) = 2 * ntCond qp N + (nsAll qp.dim N + (later qp.dim.ns N k + i)) := by
  unfold ineqPos; dsimp only; rw [if_neg (by omega), if_neg (by omega), if_neg (by omega)]; congr 3; omega

omit B in
/-- the four kinds of inequalities -/
theorem ineq_cases (n ns j : ℕ) (h : j < 2 * n + 2 * ns) :
    j < n ∨ (∃ i, i < n ∧ j = n + i) ∨ (∃ i, i < ns ∧ j = 2 * n + i) ∨ (∃ i, i < ns ∧ j = 2 * n + (ns + i)) := by
  by_cases h1 : j < n
  · exact Or.inl h1
  · by_cases h2 : j < 2 * n
    · exact Or.inr (Or.inl ⟨j - n, by omega, by omega⟩)
    · by_cases h3 : j < 2 * n + ns
      · exact Or.inr (Or.inr (Or.inl ⟨j - 2 * n, by omega, by omega⟩))
      · exact Or.inr (Or.inr (Or.inr ⟨j - 2 * n - ns, by omega, by omega⟩))

omit B in
theorem nct_eq (D : QpDim) (k : ℕ) : nct D k = 2 * (D.nb k + D.ng k) + 2 * D.ns k := by unfold nct; ring

/-- every inequality of the block has the same residual, mask and complementarity target at its position -/
theorem blk_ineq (hr : RangeOk qp N) (v : ℕ → Vec K) (k j : ℕ) (hk : k ≤ N) (hj : j < nct qp.dim k) :
    ineq P2 v ii (ineqPos qp N k j) = ineq qp (stageOf qp N (v ii)) k j ∧
    P2.d_mask ii (ineqPos qp N k j) = qp.d_mask k j ∧ P2.m ii (ineqPos qp N k j) = qp.m k j ∧
    ineqPos qp N k j < nct P2.dim ii := by
  rw [nct_eq, blk_n B, B.ns]
  rw [nct_eq] at hj
  have en := blk_n B
  have env := blk_nv B
  rcases ineq_cases _ _ j hj with h | ⟨i, h, rfl⟩ | ⟨i, h, rfl⟩ | ⟨i, h, rfl⟩
  · obtain ⟨t0, f⟩ := B.con k j hk h
    have hp := conPos_lt (N := N) hk h
    rw [ineqPos_lo h]
    refine ⟨?_, f.ml, f.tl, by omega⟩
    unfold ineq
    rw [linD_lo _ _ _ _ h, linD_lo _ _ _ _ (by omega), env, (blk_slk B hr (v ii) k j hk h).1, cval_stageOf hr _ _ _ hk]
    have := f.lo (v ii)
    rw [cval_tgt B] at this
    have e : (tgtOf P2 ii).d2 (conPos qp N k j) = P2.d ii (conPos qp N k j) := rfl
    rw [e] at this
    linear_combination this
  · obtain ⟨t0, f⟩ := B.con k i hk h
    have hp := conPos_lt (N := N) hk h
    rw [ineqPos_up h]
    refine ⟨?_, f.mu, f.tu, by omega⟩
    unfold ineq
    rw [linD_up _ _ _ _ h, ← en, linD_up _ _ _ _ (by omega), env, B.ns, (blk_slk B hr (v ii) k i hk h).2, cval_stageOf hr _ _ _ hk]
    have := f.up (v ii)
    rw [cval_tgt B] at this
    have e : (tgtOf P2 ii).d2 (ntCond qp N + conPos qp N k i) = P2.d ii (P2.dim.nb ii + P2.dim.ng ii + conPos qp N k i) := by rw [en]; rfl
    rw [e] at this
    linear_combination this
  · have f := B.slack k i hk h
    have hp : later qp.dim.ns N k + i < nsAll qp.dim N := later_lt qp.dim.ns hk h
    rw [ineqPos_sl h]
    refine ⟨?_, f.kl, f.ml, by omega⟩
    unfold ineq
    rw [linD_sl, stageOf_sl _ _ _ _ _ h]
    have e1 : P2.d ii (2 * ntCond qp N + (later qp.dim.ns N k + i)) = qp.d k (2 * (qp.dim.nb k + qp.dim.ng k) + i) := f.dl
    have e2 := linD_sl P2 v ii (later qp.dim.ns N k + i)
    rw [en, env] at e2
    rw [e1, e2]
  · have f := B.slack k i hk h
    have hp : later qp.dim.ns N k + i < nsAll qp.dim N := later_lt qp.dim.ns hk h
    rw [ineqPos_su]
    refine ⟨?_, f.ku, f.mu, by omega⟩
    unfold ineq
    rw [linD_sl, ← add_assoc (qp.dim.nu k + qp.dim.nx k), stageOf_su]
    have e1 : P2.d ii (2 * ntCond qp N + (nsAll qp.dim N + (later qp.dim.ns N k + i))) = qp.d k (2 * (qp.dim.nb k + qp.dim.ng k) + (qp.dim.ns k + i)) := f.du
    have e2 := linD_sl P2 v ii (nsAll qp.dim N + (later qp.dim.ns N k + i))
    rw [en, env] at e2
    rw [e1, e2]

/-- every inequality of the condensed stage comes from the block -/
theorem ineqPos_surj (p : ℕ) (hp : p < nct P2.dim ii) : ∃ k j, k ≤ N ∧ j < nct qp.dim k ∧ p = ineqPos qp N k j := by
  rw [nct_eq, blk_n B, B.ns] at hp
  rcases ineq_cases _ _ p hp with h | ⟨i, h, rfl⟩ | ⟨i, h, rfl⟩ | ⟨i, h, rfl⟩
  · obtain ⟨k, j, hk, hj, e⟩ := conPos_surj qp N p h
    exact ⟨k, j, hk, by rw [nct_eq]; omega, by rw [ineqPos_lo hj, e]⟩
  · obtain ⟨k, j, hk, hj, e⟩ := conPos_surj qp N i h
    exact ⟨k, qp.dim.nb k + qp.dim.ng k + j, hk, by rw [nct_eq]; omega, by rw [ineqPos_up hj, e]⟩
  · obtain ⟨k, j, hk, hj, e⟩ := later_surj qp.dim.ns N i h
    exact ⟨k, 2 * (qp.dim.nb k + qp.dim.ng k) + j, hk, by rw [nct_eq]; omega, by rw [ineqPos_sl hj, e]⟩
  · obtain ⟨k, j, hk, hj, e⟩ := later_surj qp.dim.ns N i h
    exact ⟨k, 2 * (qp.dim.nb k + qp.dim.ng k) + (qp.dim.ns k + j), hk, by rw [nct_eq]; omega, by rw [ineqPos_su, e]⟩

/-- sums over the inequalities -/
theorem sum_ineqPos (g : ℕ → K) : ∑ p ∈ range (nct P2.dim ii), g p
    = ∑ k ∈ range (N + 1), ∑ j ∈ range (nct qp.dim k), g (ineqPos qp N k j) := by
  have e : ∀ k, ∑ j ∈ range (nct qp.dim k), g (ineqPos qp N k j)
      = (∑ j ∈ range (qp.dim.nb k + qp.dim.ng k), g (conPos qp N k j))
      + (∑ j ∈ range (qp.dim.nb k + qp.dim.ng k), g (ntCond qp N + conPos qp N k j))
      + ((∑ i ∈ range (qp.dim.ns k), g (2 * ntCond qp N + (later qp.dim.ns N k + i)))
        + ∑ i ∈ range (qp.dim.ns k), g (2 * ntCond qp N + (nsAll qp.dim N + (later qp.dim.ns N k + i)))) := by
    intro k
    rw [nct_eq, sum_range_add]
    congr 1
    · rw [two_mul, sum_range_add]
      congr 1
      · exact sum_congr rfl fun j hj => by rw [ineqPos_lo (mem_range.mp hj)]
      · exact sum_congr rfl fun j hj => by rw [ineqPos_up (mem_range.mp hj)]
    · rw [two_mul (qp.dim.ns k), sum_range_add]
      congr 1
      · exact sum_congr rfl fun i hi => by rw [ineqPos_sl (mem_range.mp hi)]
      · exact sum_congr rfl fun i hi => by rw [ineqPos_su]
  rw [sum_congr rfl fun k _ => e k, sum_add_distrib, sum_add_distrib, sum_add_distrib, ← sum_conPos, ← sum_conPos qp N (fun p => g (ntCond qp N + p)),
    ← sum_later_flat qp.dim.ns N (fun p => g (2 * ntCond qp N + p)), ← sum_later_flat qp.dim.ns N (fun p => g (2 * ntCond qp N + (nsAll qp.dim N + p))),
    nct_eq, blk_n B, B.ns, two_mul (nsAll qp.dim N), sum_range_add, sum_range_add, two_mul, sum_range_add]
  rfl

end
end Hpipm
