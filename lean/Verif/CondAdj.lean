/-
Residuals of a problem at an expanded solution: they are the residuals of the condensed problem at its solution, and
zero for the dynamics inside the blocks and for the stationarity with respect to the eliminated states.
-/
import Verif.CondExpand

namespace Hpipm
open Finset
set_option linter.unusedSectionVars false

section
variable {K : Type*} [Field K] [LinearOrder K] [IsStrictOrderedRing K]

/-! ### linear part of the trajectory -/

/-- response of the states to a direction of the condensed variables -/
def rollL (qp : OcpQp K) (N : ℕ) (h : Vec K) : ℕ → Vec K
  | 0 => fun i => h (nuAll qp.dim N + i)
  | k + 1 => fun i => (∑ j ∈ range (qp.dim.nu k), qp.BAbt k j i * h (later qp.dim.nu N k + j))
      + ∑ j ∈ range (qp.dim.nx k), qp.BAbt k (qp.dim.nu k + j) i * rollL qp N h k j

/-- response of the inputs, states and slacks of stage `k` -/
def stageL (qp : OcpQp K) (N : ℕ) (v : Vec K) (k : ℕ) : Vec K := fun j =>
  if j < qp.dim.nu k then v (later qp.dim.nu N k + j)
  else if j < qp.dim.nu k + qp.dim.nx k then rollL qp N v k (j - qp.dim.nu k)
  else if j < qp.dim.nu k + qp.dim.nx k + qp.dim.ns k then
    v (nuAll qp.dim N + qp.dim.nx 0 + later qp.dim.ns N k + (j - (qp.dim.nu k + qp.dim.nx k)))
  else v (nuAll qp.dim N + qp.dim.nx 0 + nsAll qp.dim N + later qp.dim.ns N k
    + (j - (qp.dim.nu k + qp.dim.nx k + qp.dim.ns k)))

theorem roll_lin (qp : OcpQp K) (N : ℕ) (v h : Vec K) (c : K) (k i : ℕ) :
    roll qp N (fun p => v p + c * h p) k i = roll qp N v k i + c * rollL qp N h k i := by
  induction k generalizing i with
  | zero => rfl
  | succ k ih =>
    show qp.b k i + (∑ j ∈ range (qp.dim.nu k), qp.BAbt k j i * (v (later qp.dim.nu N k + j) + c * h (later qp.dim.nu N k + j)))
      + ∑ j ∈ range (qp.dim.nx k), qp.BAbt k (qp.dim.nu k + j) i * roll qp N (fun p => v p + c * h p) k j
      = qp.b k i + (∑ j ∈ range (qp.dim.nu k), qp.BAbt k j i * v (later qp.dim.nu N k + j))
      + (∑ j ∈ range (qp.dim.nx k), qp.BAbt k (qp.dim.nu k + j) i * roll qp N v k j)
      + c * ((∑ j ∈ range (qp.dim.nu k), qp.BAbt k j i * h (later qp.dim.nu N k + j))
      + ∑ j ∈ range (qp.dim.nx k), qp.BAbt k (qp.dim.nu k + j) i * rollL qp N h k j)
    simp only [ih, mul_add, sum_add_distrib, mul_sum]
    have e1 : ∑ j ∈ range (qp.dim.nu k), qp.BAbt k j i * (c * h (later qp.dim.nu N k + j)) = ∑ j ∈ range (qp.dim.nu k), c * (qp.BAbt k j i * h (later qp.dim.nu N k + j)) :=
      sum_congr rfl fun j _ => by ring
    have e2 : ∑ j ∈ range (qp.dim.nx k), qp.BAbt k (qp.dim.nu k + j) i * (c * rollL qp N h k j) = ∑ j ∈ range (qp.dim.nx k), c * (qp.BAbt k (qp.dim.nu k + j) i * rollL qp N h k j) :=
      sum_congr rfl fun j _ => by ring
    rw [e1, e2]; ring

theorem stageOf_lin (qp : OcpQp K) (N : ℕ) (v h : Vec K) (c : K) (k j : ℕ) :
    stageOf qp N (fun p => v p + c * h p) k j = stageOf qp N v k j + c * stageL qp N h k j := by
  unfold stageOf stageL
  split_ifs
  · rfl
  · exact roll_lin qp N v h c k _
  · rfl
  · rfl

/-- the response of all stages -/
def expandL (P : OcpQp K) (len : ℕ → ℕ) (h : ℕ → Vec K) : ℕ → Vec K := fun k =>
  stageL (shiftQp P (stOff len (blkOf len k))) (len (blkOf len k) - 1) (h (blkOf len k)) (k - stOff len (blkOf len k))

/-! ### derivative of the objective -/

/-- a symmetric difference of the objective is the derivative -/
theorem obj_diff (qp : OcpQp K) (w h : ℕ → Vec K) :
    (view qp).objective (ptOf qp.dim (fun k i => w k i + 1 * h k i)) - (view qp).objective (ptOf qp.dim (fun k i => w k i + (-1) * h k i))
      = 2 * pairV qp.dim (fun k i => hessMul qp w k i + qp.rqz k i) h := by
  rw [obj_pair, obj_pair]
  have e : ∀ c : K, pairV qp.dim (hessMul qp fun k i => w k i + c * h k i) (fun k i => w k i + c * h k i)
      = pairV qp.dim (hessMul qp w) w + 2 * c * pairV qp.dim (hessMul qp w) h + c * c * pairV qp.dim (hessMul qp h) h := by
    intro c
    have e1 : (hessMul qp fun k i => w k i + c * h k i) = fun k i => hessMul qp w k i + hessMul qp (fun k i => c * h k i) k i := by
      funext k i; exact hessMul_add qp w (fun k i => c * h k i) k i
    have e3 : ∀ a : ℕ → Vec K, pairV qp.dim a (fun k i => c * h k i) = c * pairV qp.dim a h := by
      intro a
      simp only [pairV, mul_sum]
      exact sum_congr rfl fun k _ => sum_congr rfl fun i _ => by ring
    have e4 : pairV qp.dim (hessMul qp fun k i => c * h k i) w = c * pairV qp.dim (hessMul qp w) h := by
      rw [hess_symm, e3]
    have e5 : pairV qp.dim (hessMul qp fun k i => c * h k i) (fun k i => c * h k i) = c * c * pairV qp.dim (hessMul qp h) h := by
      rw [e3, hess_symm, e3]; ring
    rw [e1, pairV_add_left, pairV_add_right, pairV_add_right, e3, e4, e5]; ring
  have e2 : ∀ c : K, pairV qp.dim qp.rqz (fun k i => w k i + c * h k i) = pairV qp.dim qp.rqz w + c * pairV qp.dim qp.rqz h := by
    intro c
    rw [pairV_add_right]
    congr 1
    simp only [pairV, mul_sum]
    exact sum_congr rfl fun k _ => sum_congr rfl fun i _ => by ring
  rw [e, e, e2, e2, pairV_add_left]
  ring

/-! ### solutions of the two problems -/

/-- `sol` is the expansion of the solution `sol2` of the condensed problem -/
structure SolExpands (P P2 : OcpQp K) (len : ℕ → ℕ) (sol2 sol : Sol K) : Prop where
  ux : Expands P P2 len sol2.ux sol.ux
  lam : ∀ ii l j, ii ≤ P2.dim.N → l < len ii → j < nct P.dim (stOff len ii + l) →
    sol.lam (stOff len ii + l) j = sol2.lam ii (ineqPos (shiftQp P (stOff len ii)) (len ii - 1) l j)
  t : ∀ ii l j, ii ≤ P2.dim.N → l < len ii → j < nct P.dim (stOff len ii + l) →
    sol.t (stOff len ii + l) j = sol2.t ii (ineqPos (shiftQp P (stOff len ii)) (len ii - 1) l j)
  inn : ∀ ii l i, ii ≤ P2.dim.N → l + 1 < len ii → i < P.dim.nx (stOff len ii + (l + 1)) →
    sol.pi (stOff len ii + l) i = xGrad P sol.ux sol.pi sol.lam (decide (stOff len ii + (l + 1) < P.dim.N)) (stOff len ii + (l + 1)) i
  out : ∀ ii i, ii < P2.dim.N → i < P.dim.nx (stOff len (ii + 1)) → sol.pi (stOff len ii + (len ii - 1)) i = sol2.pi ii i

/-- multipliers of masked constraints are zero -/
def LamMasked (qp : OcpQp K) (lam : ℕ → Vec K) : Prop := ∀ k j, k ≤ qp.dim.N → j < nct qp.dim k → qp.d_mask k j * lam k j = lam k j

theorem xGrad_vG (qp : OcpQp K) (sol : Sol K) (lm : Vec K) (k i : ℕ) (hk : 0 < k) (hi : i < qp.dim.nx k) :
    vG qp sol lm k (qp.dim.nu k + i) = xGrad qp sol.ux sol.pi (fun _ => lm) (decide (k < qp.dim.N)) k i - sol.pi (k - 1) i := by
  unfold vG xGrad
  dsimp only
  rw [if_pos (by omega), if_pos ⟨hk, by omega⟩, Nat.add_sub_cancel_left]
  simp only [decide_eq_true_eq]
  ring

theorem xGrad_lam (qp : OcpQp K) (ux pi lam lam' : ℕ → Vec K) (dyn : Bool) (k i : ℕ) (h : ∀ j, j < nct qp.dim k → lam k j = lam' k j) :
    xGrad qp ux pi lam dyn k i = xGrad qp ux pi lam' dyn k i := by
  unfold xGrad
  congr 2
  unfold cvalT
  rw [nct_eq] at h
  congr 1
  · exact sum_congr rfl fun j hj => by have := mem_range.mp hj; beta_reduce; rw [h j (by omega), h (qp.dim.nb k + qp.dim.ng k + j) (by omega)]
  · exact sum_congr rfl fun j hj => by
      have := mem_range.mp hj
      beta_reduce
      rw [h (qp.dim.nb k + j) (by omega), h (qp.dim.nb k + qp.dim.ng k + (qp.dim.nb k + j)) (by omega)]

theorem condVec_pair (qp : OcpQp K) (N : ℕ) (g : ℕ → Vec K) (h : Vec K)
    (hg : ∀ k i, 0 < k → k ≤ N → i < qp.dim.nx k → g k (qp.dim.nu k + i) = 0) :
    ∑ k ∈ range (N + 1), ∑ j ∈ range (nvt qp.dim k), g k j * stageL qp N h k j
      = ∑ p ∈ range (nvCond qp N + 2 * nsAll qp.dim N), condVec qp N g p * h p := by
  -- the four parts of a stage
  have hk : ∀ k, ∑ j ∈ range (nvt qp.dim k), g k j * stageL qp N h k j
      = (∑ j ∈ range (qp.dim.nu k), g k j * h (later qp.dim.nu N k + j))
      + (∑ i ∈ range (qp.dim.nx k), g k (qp.dim.nu k + i) * rollL qp N h k i)
      + ((∑ i ∈ range (qp.dim.ns k), g k (qp.dim.nu k + qp.dim.nx k + i) * h (nvCond qp N + (later qp.dim.ns N k + i)))
      + ∑ i ∈ range (qp.dim.ns k), g k (qp.dim.nu k + qp.dim.nx k + qp.dim.ns k + i) * h (nvCond qp N + nsAll qp.dim N + (later qp.dim.ns N k + i))) := by
    intro k
    unfold nvt
    rw [sum_range_add, sum_range_add _ (qp.dim.nu k), two_mul, sum_range_add _ (qp.dim.ns k)]
    refine congrArg₂ _ (congrArg₂ _ ?_ ?_) (congrArg₂ _ ?_ ?_)
    · exact sum_congr rfl fun j hj => by unfold stageL; rw [if_pos (mem_range.mp hj)]
    · exact sum_congr rfl fun j hj => by
        have := mem_range.mp hj
        unfold stageL; rw [if_neg (by omega), if_pos (by omega), Nat.add_sub_cancel_left]
    · exact sum_congr rfl fun j hj => by
        have := mem_range.mp hj
        unfold stageL nvCond; rw [if_neg (by omega), if_neg (by omega), if_pos (by omega), Nat.add_sub_cancel_left, add_assoc (nuAll qp.dim N + qp.dim.nx 0)]
    · exact sum_congr rfl fun j hj => by
        rw [← add_assoc (qp.dim.nu k + qp.dim.nx k)]
        unfold stageL nvCond; rw [if_neg (by omega), if_neg (by omega), if_neg (by omega), Nat.add_sub_cancel_left, add_assoc (nuAll qp.dim N + qp.dim.nx 0 + nsAll qp.dim N)]
  rw [sum_congr rfl fun k _ => hk k, sum_add_distrib, sum_add_distrib, sum_add_distrib]
  -- the parts of the condensed variables
  rw [sum_range_add _ (nvCond qp N), two_mul, sum_range_add _ (nsAll qp.dim N)]
  have e0 : ∑ p ∈ range (nvCond qp N), condVec qp N g p * h p
      = (∑ p ∈ range (nuAll qp.dim N), condVec qp N g p * h p) + ∑ i ∈ range (qp.dim.nx 0), condVec qp N g (nuAll qp.dim N + i) * h (nuAll qp.dim N + i) := by
    unfold nvCond; rw [sum_range_add]
  rw [e0]
  refine congrArg₂ _ (congrArg₂ _ ?_ ?_) (congrArg₂ _ ?_ ?_)
  · unfold nuAll
    rw [sum_later_flat]
    refine sum_congr rfl fun k hk => sum_congr rfl fun i hi => ?_
    have hk := mem_range.mp hk
    have hi := mem_range.mp hi
    congr 1
    unfold condVec
    have : later qp.dim.nu N k + i < nuAll qp.dim N := later_lt qp.dim.nu (by omega) hi
    rw [if_pos this, flatL_at _ _ _ _ _ (by omega) hi]
  · rw [sum_range_succ']
    rw [sum_eq_zero (fun k hk => sum_eq_zero fun i hi => by
      have := mem_range.mp hk
      rw [hg (k + 1) i (by omega) (by omega) (mem_range.mp hi), zero_mul]), zero_add]
    refine sum_congr rfl fun i hi => ?_
    have hi := mem_range.mp hi
    unfold condVec
    rw [if_neg (by omega), if_pos (by unfold nvCond; omega), Nat.add_sub_cancel_left]
    rfl
  · unfold nsAll
    rw [sum_later_flat]
    refine sum_congr rfl fun k hk => sum_congr rfl fun i hi => ?_
    have hk := mem_range.mp hk
    have hi := mem_range.mp hi
    congr 1
    unfold condVec
    have : later qp.dim.ns N k + i < nsAll qp.dim N := later_lt qp.dim.ns (by omega) hi
    rw [if_neg (by unfold nvCond; omega), if_neg (by omega), if_pos (by omega), Nat.add_sub_cancel_left, flatL_at _ _ _ _ _ (by omega) hi]
  · have e := sum_later_flat (R := K) qp.dim.ns N (fun p => condVec qp N g (nvCond qp N + (nsAll qp.dim N + p)) * h (nvCond qp N + (nsAll qp.dim N + p)))
    refine Eq.trans ?_ e.symm
    refine sum_congr rfl fun k hk => sum_congr rfl fun i hi => ?_
    have hk := mem_range.mp hk
    have hi := mem_range.mp hi
    rw [add_assoc (nvCond qp N)]
    congr 1
    unfold condVec
    rw [if_neg (by unfold nvCond; omega), if_neg (by omega), if_neg (by omega),
      show nvCond qp N + (nsAll qp.dim N + (later qp.dim.ns N k + i)) - (nvCond qp N + nsAll qp.dim N) = later qp.dim.ns N k + i by omega,
      flatL_at _ _ _ _ _ (by omega) hi]

/-- a linear form determines its coefficients -/
theorem pair_ext (N2 : ℕ) (n : ℕ → ℕ) (G G' : ℕ → Vec K)
    (h : ∀ h : ℕ → Vec K, ∑ ii ∈ range (N2 + 1), ∑ p ∈ range (n ii), G ii p * h ii p = ∑ ii ∈ range (N2 + 1), ∑ p ∈ range (n ii), G' ii p * h ii p) :
    ∀ ii p, ii ≤ N2 → p < n ii → G ii p = G' ii p := by
  intro ii p hi hp
  have := h (fun jj q => if jj = ii ∧ q = p then 1 else 0)
  have e : ∀ G : ℕ → Vec K, ∑ jj ∈ range (N2 + 1), ∑ q ∈ range (n jj), G jj q * (if jj = ii ∧ q = p then (1 : K) else 0) = G ii p := by
    intro G
    rw [sum_eq_single ii]
    · rw [sum_eq_single p]
      · simp
      · intro q _ hq; simp [hq]
      · intro hh; exact absurd (mem_range.mpr hp) hh
    · intro jj _ hj
      exact sum_eq_zero fun q _ => by simp [hj]
    · intro hh; exact absurd (mem_range.mpr (by omega)) hh
  rw [e, e] at this
  exact this

variable {P P2 : OcpQp K} {len : ℕ → ℕ} (C : CondensedBy P P2 len)
include C

theorem expandL_at (h : ℕ → Vec K) {ii l : ℕ} (hi : ii ≤ P2.dim.N) (hl : l < len ii) :
    expandL P len h (stOff len ii + l) = stageL (shiftQp P (stOff len ii)) (len ii - 1) (h ii) l := by
  unfold expandL
  rw [blkOf_at len ii l (fun i h => C.pos i (by omega)) hl, Nat.add_sub_cancel_left]

theorem expands_lin {v w : ℕ → Vec K} (E : Expands P P2 len v w) (h : ℕ → Vec K) (c : K) :
    Expands P P2 len (fun ii p => v ii p + c * h ii p) (fun k j => w k j + c * expandL P len h k j) := by
  intro ii l j hi hl hj
  dsimp only
  rw [stageOf_lin, ← E ii l j hi hl hj, expandL_at C h hi hl]

/-- the stationarity residuals of the two problems, tested with corresponding directions, are the same -/
theorem vG_pair_eq (hw : P.WF) {sol2 sol : Sol K} (E : SolExpands P P2 len sol2 sol) (h : ℕ → Vec K) :
    pairV P.dim (fun k i => vG P sol (lamM P sol k) k i) (expandL P len h) = pairV P2.dim (fun k i => vG P2 sol2 (lamM P2 sol2 k) k i) h := by
  have hw2 := cb_wf C hw
  rw [vG_pair P hw sol (lamM P sol) (expandL P len h), vG_pair P2 hw2 sol2 (lamM P2 sol2) h]
  have E1 := expands_lin C E.ux h 1
  have Em := expands_lin C E.ux h (-1)
  congr 1
  · congr 1
    · -- objective
      obtain ⟨c, hc⟩ := ex_objective C
      have h1 := obj_diff P sol.ux (expandL P len h)
      have h2 := obj_diff P2 sol2.ux h
      rw [hc _ _ E1, hc _ _ Em] at h1
      have : (2 : K) * pairV P.dim (fun k i => hessMul P sol.ux k i + P.rqz k i) (expandL P len h)
          = 2 * pairV P2.dim (fun k i => hessMul P2 sol2.ux k i + P2.rqz k i) h := by
        rw [← h1, ← h2]; ring
      exact mul_left_cancel₀ two_ne_zero this
    · -- dynamics
      have lin : ∀ (qp : OcpQp K) (u d : ℕ → Vec K) (k i : ℕ), linB qp d k i = dynRes qp (fun k i => u k i + 1 * d k i) k i - dynRes qp u k i := by
        intro qp u d k i
        unfold dynRes
        have : (fun k i => u k i + 1 * d k i) = fun k i => u k i + d k i := by funext k i; rw [one_mul]
        rw [this, linB_add]; ring
      have hin : ∀ ii l i, ii ≤ P2.dim.N → l + 1 < len ii → i < P.dim.nx (stOff len ii + l + 1) → linB P (expandL P len h) (stOff len ii + l) i = 0 := by
        intro ii l i hi hl hx
        rw [lin P sol.ux, ex_dyn_in C E1 hi hl hx, ex_dyn_in C E.ux hi hl hx, sub_zero]
      have hout : ∀ ii i, ii < P2.dim.N → i < P.dim.nx (stOff len (ii + 1)) → linB P (expandL P len h) (stOff len ii + (len ii - 1)) i = linB P2 h ii i := by
        intro ii i hi hx
        have hp := C.pos ii (by omega)
        rw [lin P sol.ux, lin P2 sol2.ux, ex_dyn_out C E1 hi (by omega) hx, ex_dyn_out C E.ux hi (by omega) hx]
      unfold pairE
      -- sum over stages that have dynamics
      have e : ∑ k ∈ range P.dim.N, ∑ i ∈ range (P.dim.nx (k + 1)), sol.pi k i * linB P (expandL P len h) k i
          = ∑ k ∈ range (P.dim.N + 1), if k < P.dim.N then ∑ i ∈ range (P.dim.nx (k + 1)), sol.pi k i * linB P (expandL P len h) k i else 0 := by
        rw [sum_range_succ, if_neg (lt_irrefl _), add_zero]
        exact sum_congr rfl fun k hk => by rw [if_pos (mem_range.mp hk)]
      rw [e, cb_sum C, sum_range_succ]
      have hend : ∑ l ∈ range (len P2.dim.N - 1 + 1), (if stOff len P2.dim.N + l < P.dim.N then
          ∑ i ∈ range (P.dim.nx (stOff len P2.dim.N + l + 1)), sol.pi (stOff len P2.dim.N + l) i * linB P (expandL P len h) (stOff len P2.dim.N + l) i else 0) = 0 := by
        refine sum_eq_zero fun l hl => ?_
        have hl := mem_range.mp hl
        split
        · rename_i hlt
          refine sum_eq_zero fun i hi => ?_
          have ht := C.tot
          rw [stOff_succ] at ht
          rw [hin P2.dim.N l i (le_refl _) (by omega) (mem_range.mp hi), mul_zero]
        · rfl
      rw [hend, add_zero]
      refine sum_congr rfl fun ii hi => ?_
      have hi := mem_range.mp hi
      have hp := C.pos ii (by omega)
      rw [sum_range_succ]
      have hz : ∑ l ∈ range (len ii - 1), (if stOff len ii + l < P.dim.N then
          ∑ i ∈ range (P.dim.nx (stOff len ii + l + 1)), sol.pi (stOff len ii + l) i * linB P (expandL P len h) (stOff len ii + l) i else 0) = 0 := by
        refine sum_eq_zero fun l hl => ?_
        have hl := mem_range.mp hl
        split
        · exact sum_eq_zero fun i hi' => by rw [hin ii l i (by omega) (by omega) (mem_range.mp hi'), mul_zero]
        · rfl
      have hst : stOff len ii + (len ii - 1) + 1 = stOff len (ii + 1) := by rw [stOff_succ]; omega
      have hlt : stOff len ii + (len ii - 1) < P.dim.N := by
        have := cb_stage C (show ii + 1 ≤ P2.dim.N by omega) (C.pos (ii + 1) (by omega))
        rw [stOff_succ] at this; omega
      rw [hz, zero_add, if_pos hlt, hst]
      have ex : P2.dim.nx (ii + 1) = P.dim.nx (stOff len (ii + 1)) := by rw [(C.blk (ii + 1) (by omega)).nx]; rfl
      rw [ex]
      exact sum_congr rfl fun i hi' => by rw [hout ii i hi (mem_range.mp hi'), E.out ii i hi (mem_range.mp hi')]
  · -- inequalities
    have lin : ∀ (qp : OcpQp K) (u d : ℕ → Vec K) (k i : ℕ), linD qp d k i = ineq qp (fun k i => u k i + 1 * d k i) k i - ineq qp u k i := by
      intro qp u d k i
      unfold ineq
      have : (fun k i => u k i + 1 * d k i) = fun k i => u k i + d k i := by funext k i; rw [one_mul]
      rw [this, linD_add]; ring
    unfold pairC
    rw [cb_sum C]
    refine sum_congr rfl fun ii hi => ?_
    have hi : ii ≤ P2.dim.N := by have := mem_range.mp hi; omega
    have hp := C.pos ii hi
    rw [sum_ineqPos (C.blk ii hi) (fun p => lamM P2 sol2 ii p * linD P2 h ii p)]
    refine sum_congr rfl fun l hl => ?_
    have hl : l < len ii := by have := mem_range.mp hl; omega
    refine sum_congr rfl fun j hj => ?_
    have hj := mem_range.mp hj
    obtain ⟨a1, a2, a3, a4⟩ := ex_ineq C E1 hw hi hl hj
    obtain ⟨b1, b2, b3, b4⟩ := ex_ineq C E.ux hw hi hl hj
    rw [lin P sol.ux, lin P2 sol2.ux, a1, b1]
    congr 1
    unfold lamM
    rw [b2, E.lam ii l j hi hl hj]

/-- stationarity with respect to the eliminated states holds exactly -/
theorem se_states (hw : P.WF) {sol2 sol : Sol K} (E : SolExpands P P2 len sol2 sol) (hm : LamMasked P2 sol2.lam)
    {ii l i : ℕ} (hi : ii ≤ P2.dim.N) (hl : l + 1 < len ii) (hx : i < P.dim.nx (stOff len ii + (l + 1))) :
    vG P sol (lamM P sol (stOff len ii + (l + 1))) (stOff len ii + (l + 1)) (P.dim.nu (stOff len ii + (l + 1)) + i) = 0 := by
  rw [xGrad_vG P sol _ _ i (by omega) hx]
  rw [xGrad_lam P sol.ux sol.pi _ sol.lam _ _ i (fun j hj => ?_)]
  · rw [← E.inn ii l i hi hl hx, show stOff len ii + (l + 1) - 1 = stOff len ii + l by omega, sub_self]
  · obtain ⟨_, b2, _, b4⟩ := ex_ineq C E.ux hw hi hl hj
    unfold lamM
    rw [← b2, E.lam ii (l + 1) j hi hl hj]
    exact hm ii _ hi b4

/-- **stationarity residuals**: those of the condensed problem are those of the original one, at their positions -/
theorem se_stationarity (hw : P.WF) {sol2 sol : Sol K} (E : SolExpands P P2 len sol2 sol) (hm : LamMasked P2 sol2.lam) :
    ∀ ii p, ii ≤ P2.dim.N → p < nvt P2.dim ii → vG P2 sol2 (lamM P2 sol2 ii) ii p
      = condVec (shiftQp P (stOff len ii)) (len ii - 1) (fun l j => vG P sol (lamM P sol (stOff len ii + l)) (stOff len ii + l) j) p := by
  refine pair_ext P2.dim.N (nvt P2.dim) _ _ (fun h => ?_)
  refine (vG_pair_eq C hw E h).symm.trans ?_
  unfold pairV
  rw [cb_sum C]
  refine sum_congr rfl fun ii hi => ?_
  have hi : ii ≤ P2.dim.N := by have := mem_range.mp hi; omega
  have hp := C.pos ii hi
  have B := C.blk ii hi
  have e : nvt P2.dim ii = nvCond (shiftQp P (stOff len ii)) (len ii - 1) + 2 * nsAll (shiftQp P (stOff len ii)).dim (len ii - 1) := by
    unfold nvt; rw [blk_nv B, B.ns]
  rw [e, ← condVec_pair _ _ _ _ (fun k i hk hk2 hx => ?_)]
  · refine sum_congr rfl fun l hl => ?_
    have hl : l < len ii := by have := mem_range.mp hl; omega
    rw [expandL_at C h hi hl]
    rfl
  · obtain ⟨l, rfl⟩ : ∃ l, k = l + 1 := ⟨k - 1, by omega⟩
    exact se_states C hw E hm hi (by omega) hx

end
end Hpipm
