/-
C99: the data of a dense QCQP: what the setters store is what the getters and the residual routines read.
-/
import Verif.DQcqpProps
import Verif.DenseQpProps

namespace Hpipm
open Finset
set_option linter.unusedSectionVars false

section
variable {K : Type*} [Field K] [DecidableEq K]

/-- **C99 (round trip).**  For every field of the QP part, user array and previous content, the getter returns the array that was set
- as 0/1 for masks - and touches nothing else of the output buffer. -/
theorem dqcqp_get_set_same (f : DField) (v out : ℕ → K) (Q : DQcqp K) :
    (Q.setF (.qp f) v).getF f out = mix (f.len Q.base.dim) (f.stored v) out := by
  cases f <;>
    simp only [DQcqp.getF, DQcqp.setF, DQcqp.setQpF, DQcqp.setBd, DQcqp.setUp, DQcqp.setMk, DField.len, DField.stored, DField.isMask,
      maskLoop_eq, unpack_pack, neg_unpack_sc_pack, unpackTran_pack, unpackMat_pack, if_true, Bool.false_eq_true, if_false]

theorem unpack_pack_disj (n m o o' : ℕ) (v out : ℕ → K) (x : Vec K) (h : o' + n ≤ o ∨ o + m ≤ o') :
    unpackVec n (packVec m v x o) o' out = unpackVec n x o' out := by
  funext p
  simp only [unpackVec, packVec, veccp]
  by_cases hp : 0 ≤ p ∧ p < 0 + n
  · rw [if_pos hp, if_pos hp, if_neg (by omega)]
  · rw [if_neg hp, if_neg hp]

theorem unpack_sc_disj (n m o o' : ℕ) (a : K) (out : ℕ → K) (x : Vec K) (h : o' + n ≤ o ∨ o + m ≤ o') :
    unpackVec n (vecsc m a x o) o' out = unpackVec n x o' out := by
  funext p
  simp only [unpackVec, vecsc, veccp]
  by_cases hp : 0 ≤ p ∧ p < 0 + n
  · rw [if_pos hp, if_pos hp, if_neg (by omega)]
  · rw [if_neg hp, if_neg hp]

theorem unpack_se_disj (n m o o' : ℕ) (a : K) (out : ℕ → K) (x : Vec K) (h : o' + n ≤ o ∨ o + m ≤ o') :
    unpackVec n (vecse m a x o) o' out = unpackVec n x o' out := by
  funext p
  simp only [unpackVec, vecse, veccp]
  by_cases hp : 0 ≤ p ∧ p < 0 + n
  · rw [if_pos hp, if_pos hp, if_neg (by omega)]
  · rw [if_neg hp, if_neg hp]

set_option maxHeartbeats 1600000 in
/-- **C99 (independence).**  Setting one field changes the value read back for no other field of the QP part; this includes setting a
field of the quadratic constraints. -/
theorem dqcqp_get_set_other (f : DQField) (g : DField) (h : f ≠ .qp g) (v out : ℕ → K) (Q : DQcqp K) :
    (Q.setF f v).getF g out = Q.getF g out := by
  rcases f with f | _ | _ | _ | _
  · cases f <;> cases g <;> first
      | exact absurd rfl h
      | rfl
      | (simp only [DQcqp.getF, DQcqp.setF, DQcqp.setQpF, DQcqp.setBd, DQcqp.setUp, DQcqp.setMk, maskLoop_eq]
         simp (disch := omega) only [unpack_pack_disj, unpack_sc_disj])
  · cases g <;> rfl
  · cases g <;> first
      | rfl
      | (funext p
         simp only [DQcqp.getF, DQcqp.setF, unpackTranMat, packMat]
         by_cases hc : p % Q.base.dim.ng < Q.base.dim.ng ∧ p / Q.base.dim.ng < Q.base.dim.nv
         · rw [if_pos hc, if_pos hc, if_neg (by omega)]
         · rw [if_neg hc, if_neg hc])
  · cases g <;> first
      | rfl
      | (simp only [DQcqp.getF, DQcqp.setF, DQcqp.setUq, DQcqp.setUp]
         simp (disch := omega) only [unpack_pack_disj, unpack_sc_disj, unpack_se_disj])
  · cases g <;> first
      | rfl
      | (simp only [DQcqp.getF, DQcqp.setF, DQcqp.setMk, maskLoop_eq]
         simp (disch := omega) only [unpack_pack_disj])

/-- **C99 (shape).**  No setter changes the sizes or the index lists. -/
theorem dqcqp_set_keeps_ints (f : DQField) (v : ℕ → K) (Q : DQcqp K) :
    (Q.setF f v).base.dim = Q.base.dim ∧ (Q.setF f v).nq = Q.nq ∧ (Q.setF f v).base.idxb = Q.base.idxb ∧
    (Q.setF f v).base.idxs_rev = Q.base.idxs_rev := by
  rcases f with f | _ | _ | _ | _
  · cases f <;> exact ⟨rfl, rfl, rfl, rfl⟩
  all_goals exact ⟨rfl, rfl, rfl, rfl⟩

theorem setHq_at (v : ℕ → K) (Q : DQcqp K) (j i l : ℕ) :
    (Q.setHq v).Hq j i l = if j < Q.nq ∧ i < Q.base.dim.nv ∧ l < Q.base.dim.nv
      then v (j * Q.base.dim.nv * Q.base.dim.nv + (i + Q.base.dim.nv * l)) else Q.Hq j i l := by
  have key : ∀ n, (loop n (fun ii H => upd H ii (packMat Q.base.dim.nv Q.base.dim.nv
      (fun i => v (ii * Q.base.dim.nv * Q.base.dim.nv + i)) Q.base.dim.nv (H ii) 0 0)) Q.Hq) j =
      if j < n then packMat Q.base.dim.nv Q.base.dim.nv (fun i => v (j * Q.base.dim.nv * Q.base.dim.nv + i)) Q.base.dim.nv (Q.Hq j) 0 0
      else Q.Hq j := by
    intro n
    induction n with
    | zero => simp [loop]
    | succ n ih =>
      rw [loop_succ]
      by_cases hj : j = n
      · subst hj
        rw [if_neg (by omega)] at ih
        rw [upd_same, ih, if_pos (by omega)]
      · rw [upd_ne _ _ hj, ih]
        by_cases h : j < n
        · rw [if_pos h, if_pos (by omega)]
        · rw [if_neg h, if_neg (by omega)]
  have k := congrFun (congrFun (key Q.nq) i) l
  refine Eq.trans k ?_
  by_cases h : j < Q.nq
  · rw [if_pos h]
    simp only [packMat, Nat.zero_le, true_and, Nat.zero_add, Nat.sub_zero]
    by_cases h2 : i < Q.base.dim.nv ∧ l < Q.base.dim.nv
    · rw [if_pos h2, if_pos ⟨h, h2⟩]
    · rw [if_neg h2, if_neg (fun hh => h2 hh.2)]
  · rw [if_neg h, if_neg (fun hh => h hh.1)]

end

section
variable {K : Type*} [Field K] [LinearOrder K] [IsStrictOrderedRing K]

/-- **C99 (quadratic data).**  After the setters of the quadratic constraints the problem that the residual routines solve has the
user's Hessians (column-major, one after the other), gradients (one column per constraint), upper bounds and masks. -/
theorem dqview_set (v : ℕ → K) (Q : DQcqp K) (j : ℕ) (hj : j < Q.nq) :
    (∀ i l, i < Q.base.dim.nv → l < Q.base.dim.nv →
      (dqview (Q.setF .Hq v)).Hq j i l = v (j * Q.base.dim.nv * Q.base.dim.nv + (i + Q.base.dim.nv * l))) ∧
    (∀ i, i < Q.base.dim.nv → (dqview (Q.setF .gq v)).gq j i = v (i + Q.base.dim.nv * j)) ∧
    (dqview (Q.setF .uq v)).uq j = v j ∧
    (dqview (Q.setF .uq_mask v)).uqMask j = if v j = 0 then 0 else 1 := by
  refine ⟨fun i l hi hl => ?_, fun i hi => ?_, ?_, ?_⟩
  · exact (setHq_at v Q j i l).trans (if_pos ⟨hj, hi, hl⟩)
  · simp only [dqview, DQcqp.setF, packMat]
    rw [if_pos (by omega)]; congr 1
    rw [Nat.sub_zero, Nat.add_sub_cancel_left]
  · simp only [dqview, DQcqp.setF, DQcqp.setUq, DQcqp.setUp, vecse, vecsc, packVec, veccp]
    rw [if_neg (by omega), if_pos (by omega), if_pos (by omega)]
    rw [show 0 + (2 * Q.base.dim.nb + 2 * Q.base.dim.ng + Q.nq + j - (2 * Q.base.dim.nb + 2 * Q.base.dim.ng + Q.nq)) = j by omega]
    ring
  · simp only [dqview, DQcqp.setF, DQcqp.setMk, maskLoop_eq, packVec, veccp]
    rw [if_pos (by omega)]
    rw [show 0 + (2 * Q.base.dim.nb + 2 * Q.base.dim.ng + Q.nq + j - (2 * Q.base.dim.nb + 2 * Q.base.dim.ng + Q.nq)) = j by omega]

/-- **C99 (quadratic data, independence).**  No other setter changes them. -/
theorem dqview_set_other (f : DQField) (v : ℕ → K) (Q : DQcqp K) (j : ℕ) (hj : j < Q.nq) :
    (f ≠ .Hq → (dqview (Q.setF f v)).Hq j = (dqview Q).Hq j) ∧
    (f ≠ .gq → ∀ i, (dqview (Q.setF f v)).gq j i = (dqview Q).gq j i) ∧
    (f ≠ .uq → (dqview (Q.setF f v)).uq j = (dqview Q).uq j) ∧
    (f ≠ .uq_mask → (dqview (Q.setF f v)).uqMask j = (dqview Q).uqMask j) := by
  rcases f with f | _ | _ | _ | _
  · refine ⟨fun _ => rfl, fun _ i => ?_, fun _ => ?_, fun _ => ?_⟩
    · cases f <;> first
        | rfl
        | (simp only [dqview, DQcqp.setF, DQcqp.setQpF, packTranMat]
           rw [if_neg (by omega)])
    · cases f <;> first
        | rfl
        | (simp only [dqview, DQcqp.setF, DQcqp.setQpF, DQcqp.setBd, DQcqp.setUp, vecsc, packVec, veccp]
           simp (disch := omega) only [if_neg])
    · cases f <;> first
        | rfl
        | (simp only [dqview, DQcqp.setF, DQcqp.setQpF, DQcqp.setMk, maskLoop_eq, packVec, veccp]
           simp (disch := omega) only [if_neg])
  · exact ⟨fun h => absurd rfl h, fun _ _ => rfl, fun _ => rfl, fun _ => rfl⟩
  · exact ⟨fun _ => rfl, fun h => absurd rfl h, fun _ => rfl, fun _ => rfl⟩
  · exact ⟨fun _ => rfl, fun _ _ => rfl, fun h => absurd rfl h, fun _ => rfl⟩
  · exact ⟨fun _ => rfl, fun _ _ => rfl, fun _ => rfl, fun h => absurd rfl h⟩

/-- **C99 (the QP part of the problem is what the getters return).** -/
theorem dqview_get (Q : DQcqp K) (out : ℕ → K) :
    let D := Q.base.dim
    let P := (dqview Q).base
    let got := fun f => Q.getF f out
    (∀ i j, i < D.nv → j < D.nv → P.H i j = got .H (i + D.nv * j)) ∧
    (∀ i j, i < D.ne → j < D.nv → P.A i j = got .A (i + D.ne * j)) ∧
    (∀ i j, i < D.ng → j < D.nv → P.C i j = got .C (i + D.ng * j)) ∧
    (∀ i, i < D.nv → P.g i = got .g i) ∧ (∀ i, i < D.ne → P.b i = got .b i) ∧
    (∀ j, j < D.nb → P.lb j = got .lb j ∧ P.ub j = got .ub j ∧ P.lbMask j = got .lb_mask j ∧ P.ubMask j = got .ub_mask j) ∧
    (∀ j, j < D.ng → P.lg j = got .lg j ∧ P.ug j = got .ug j ∧ P.lgMask j = got .lg_mask j ∧ P.ugMask j = got .ug_mask j) ∧
    (∀ s, s < D.ns → P.Zl s = got .Zl s ∧ P.Zu s = got .Zu s ∧ P.zl s = got .zl s ∧ P.zu s = got .zu s ∧
      P.lls s = got .lls s ∧ P.lus s = got .lus s ∧ P.llsMask s = got .lls_mask s ∧ P.lusMask s = got .lus_mask s) := by
  intro D P got
  have un : ∀ (n n' i : ℕ) (x : Vec K) (a b : ℕ) (o o' : ℕ → K), i < n → i < n' → a = b →
      unpackVec n x a o i = unpackVec n' x b o' i := by
    intro n n' i x a b o o' h h' hab
    rw [unpackVec_at _ _ _ _ i h, unpackVec_at _ _ _ _ i h', hab]
  have ung : ∀ (n n' i : ℕ) (x : Vec K) (a b : ℕ) (o o' : ℕ → K), i < n → i < n' → a = b →
      negArr n (unpackVec n x a o) i = negArr n' (unpackVec n' x b o') i := by
    intro n n' i x a b o o' h h' hab
    simp only [negArr]
    rw [if_pos h, if_pos h', un n n' i x a b o o' h h' hab]
  simp only [P, got, D, dqview, dview, dgot, DenseQp.getF, DQcqp.getF, DQcqp.inner]
  refine ⟨fun i j hi hj => ?_, fun i j hi hj => ?_, fun i j hi hj => ?_, fun i hi => ?_, fun i hi => ?_, fun j hj => ?_, fun j hj => ?_,
    fun s hs => ?_⟩
  · rw [unpackMat_at _ _ _ _ _ _ i j hi hj, unpackMat_at _ _ _ _ _ _ i j hi hj]
  · rw [unpackMat_at _ _ _ _ _ _ i j hi hj, unpackMat_at _ _ _ _ _ _ i j hi hj]
  · rw [unpackTran_at _ _ _ _ _ _ i j (show i < Q.base.dim.ng + Q.nq by omega) hj, unpackTran_at _ _ _ _ _ _ i j hi hj]
  · exact un _ _ i _ _ _ _ _ hi hi rfl
  · exact un _ _ i _ _ _ _ _ hi hi rfl
  · exact ⟨un _ _ j _ _ _ _ _ hj hj rfl, ung _ _ j _ _ _ _ _ hj hj (by omega), un _ _ j _ _ _ _ _ hj hj rfl,
      un _ _ j _ _ _ _ _ hj hj (by omega)⟩
  · have hj' : j < Q.base.dim.ng + Q.nq := by omega
    exact ⟨un _ _ j _ _ _ _ _ hj' hj rfl, ung _ _ j _ _ _ _ _ hj' hj (by omega), un _ _ j _ _ _ _ _ hj' hj rfl,
      un _ _ j _ _ _ _ _ hj' hj (by omega)⟩
  · exact ⟨un _ _ s _ _ _ _ _ hs hs rfl, un _ _ s _ _ _ _ _ hs hs rfl, un _ _ s _ _ _ _ _ hs hs rfl, un _ _ s _ _ _ _ _ hs hs rfl,
      un _ _ s _ _ _ _ _ hs hs (by omega), un _ _ s _ _ _ _ _ hs hs (by omega), un _ _ s _ _ _ _ _ hs hs (by omega),
      un _ _ s _ _ _ _ _ hs hs (by omega)⟩

/-- **C99 (a fresh object).**  All constraints are present except the lower sides of the quadratic ones, none is softened, and masks are
zero or one. -/
theorem dqcqp_create_view (D : DDim) (nq : ℕ) :
    let Q : DQcqp K := DQcqp.create D nq
    (∀ j, j < D.nb + D.ng → (dqview Q).base.lowerMask j = 1 ∧ (dqview Q).base.upperMask j = 1) ∧
    (∀ j, j < nq → (dqview Q).uqMask j = 1 ∧ (dqview Q).softq j = none) ∧
    (∀ s, s < D.ns → (dqview Q).base.llsMask s = 1 ∧ (dqview Q).base.lusMask s = 1) ∧
    (∀ j, D.nb + D.ng ≤ j → j < D.nb + D.ng + nq → Q.base.d_mask j = 0) ∧ DMask01 Q.inner := by
  intro Q
  have hmk : ∀ j, Q.base.d_mask j = if D.nb + D.ng ≤ j ∧ j < D.nb + D.ng + nq then 0
      else if j < 2 * D.nb + 2 * D.ng + 2 * nq + 2 * D.ns then 1 else 0 := by
    intro j
    show vecse nq 0 (vecse (2 * D.nb + 2 * D.ng + 2 * nq + 2 * D.ns) 1 (fun _ => 0) 0) (D.nb + D.ng) j = _
    simp only [vecse, Nat.zero_le, true_and, Nat.zero_add]
  have e1 : ∀ j, ¬ (D.nb + D.ng ≤ j ∧ j < D.nb + D.ng + nq) → j < 2 * D.nb + 2 * D.ng + 2 * nq + 2 * D.ns → Q.base.d_mask j = 1 := by
    intro j h1 h2; rw [hmk, if_neg h1, if_pos h2]
  refine ⟨fun j hj => ?_, fun j hj => ⟨?_, ?_⟩, fun s hs => ?_, fun j h1 h2 => ?_, fun j hj => ?_⟩
  · have h := (dqview_masks Q j).1 hj
    rw [h.1, h.2]
    refine ⟨e1 _ (by omega) (by omega), e1 _ ?_ ?_⟩
    · show ¬ (D.nb + D.ng ≤ D.nb + (D.ng + nq) + j ∧ D.nb + (D.ng + nq) + j < _); omega
    · show D.nb + (D.ng + nq) + j < _; omega
  · refine e1 _ ?_ ?_
    · show ¬ (_ ≤ 2 * D.nb + 2 * D.ng + nq + j ∧ 2 * D.nb + 2 * D.ng + nq + j < D.nb + D.ng + nq); omega
    · show 2 * D.nb + 2 * D.ng + nq + j < _; omega
  · have hl : ∀ n i, i < n → (loop n (fun i (a : ℕ → ℤ) => upd a i (-1)) (fun _ => 0)) i = -1 := by
      intro n
      induction n with
      | zero => intro i hi; omega
      | succ n ih =>
        intro i hi
        rw [loop_succ]
        by_cases h : i = n
        · rw [h, upd_same]
        · rw [upd_ne _ _ h]; exact ih i (by omega)
    exact if_pos (hl (D.nb + (D.ng + nq)) (D.nb + D.ng + j) (by omega))
  · have h := (dqview_masks Q s).2 hs
    rw [h.1, h.2]
    refine ⟨e1 _ ?_ ?_, e1 _ ?_ ?_⟩
    · show ¬ (_ ≤ 2 * (D.nb + (D.ng + nq)) + s ∧ 2 * (D.nb + (D.ng + nq)) + s < D.nb + D.ng + nq); omega
    · show 2 * (D.nb + (D.ng + nq)) + s < _; omega
    · show ¬ (_ ≤ 2 * (D.nb + (D.ng + nq)) + D.ns + s ∧ 2 * (D.nb + (D.ng + nq)) + D.ns + s < D.nb + D.ng + nq); omega
    · show 2 * (D.nb + (D.ng + nq)) + D.ns + s < _; omega
  · rw [hmk, if_pos ⟨h1, h2⟩]
  · show Q.base.d_mask j = 0 ∨ Q.base.d_mask j = 1
    rw [hmk]
    split_ifs <;> simp

end

/-! ### a concrete QCQP

`min 1/2 (v0^2 + v1^2) - 3 v0` subject to `v1 = 0`, `-10 <= v0 <= 10`, the linear constraint
`-50 <= v0 + v1 <= 50` and the soft quadratic constraint `1/2 (2 v0^2 + 2 v1^2) <= 1 + su`, with `su >= 0` and slack cost
`1/2 s^2 + 3 s`. -/
section Concrete

/-- built with the setters -/
def exDQ : DQcqp ℚ :=
  let Q : DQcqp ℚ := DQcqp.create ⟨2, 1, 1, 1, 1⟩ 1
  let Q := { Q with
    base := { Q.base with
      idxs_rev := fun j => if j = 2 then 0 else -1 } }
  let Q := Q.setF (.qp .H) (fun p => if p = 0 ∨ p = 3 then 1 else 0)
  let Q := Q.setF (.qp .g) (fun i => if i = 0 then -3 else 0)
  let Q := Q.setF (.qp .A) (fun p => if p = 1 then 1 else 0)
  let Q := Q.setF (.qp .lb) (fun _ => -10)
  let Q := Q.setF (.qp .ub) (fun _ => 10)
  let Q := Q.setF (.qp .C) (fun _ => 1)
  let Q := Q.setF (.qp .lg) (fun _ => -50)
  let Q := Q.setF (.qp .ug) (fun _ => 50)
  let Q := Q.setF (.qp .Zl) (fun _ => 1)
  let Q := Q.setF (.qp .Zu) (fun _ => 1)
  let Q := Q.setF (.qp .zl) (fun _ => 3)
  let Q := Q.setF (.qp .zu) (fun _ => 3)
  let Q := Q.setF .Hq (fun p => if p = 0 ∨ p = 3 then 2 else 0)
  Q.setF .uq (fun _ => 1)

/-- the optimum `v = (1, 0)` with the multiplier `1` of the quadratic constraint -/
def exDQSol : DqSol ℚ where
  v := fun i => if i = 0 then 1 else 0
  pi := fun _ => 0
  lam := fun j => if j = 5 then 1 else if j = 6 then 3 else if j = 7 then 2 else 0
  t := fun j => if j = 0 then 11 else if j = 1 then 51 else if j = 2 then 0 else if j = 3 then 9 else if j = 4 then 49 else 0

def exDQWs : DQresWs ℚ := ⟨exWs, fun _ => 3, fun _ => 3, false, false, fun _ => 3, fun _ => 3⟩

theorem exDQ_wf : exDQ.WF := ⟨by decide, by decide⟩
theorem exDQ_mask : DMask01 exDQ.inner := by
  show ∀ j, j < 8 → exDQ.inner.d_mask j = 0 ∨ exDQ.inner.d_mask j = 1
  decide +kernel
theorem exDQWs_ok : DWsOk exDQWs.ws exDQ.inner := by intro h; cases h
theorem exDQ_cache : DCacheCond exDQ exDQSol exDQWs := by intro h; cases h

theorem exDQ_convex : (dqview exDQ).Convex := by
  refine ⟨fun p _ => ?_, fun j hj _ p => ?_⟩
  · unfold DUser.quad
    have e1 : (dqview exDQ).base.nv = 2 := rfl
    have e2 : (dqview exDQ).base.ns = 1 := rfl
    have hh : ∀ i j, i < 2 → j < 2 → (dqview exDQ).base.hess i j = if i = j then 1 else 0 := by
      intro i j hi hj
      interval_cases i <;> interval_cases j <;> decide +kernel
    have hz : (dqview exDQ).base.Zl 0 = 1 ∧ (dqview exDQ).base.Zu 0 = 1 := by decide +kernel
    rw [e1, e2]
    simp only [sum_range_succ, range_zero, sum_empty, zero_add]
    rw [hh 0 0 (by omega) (by omega), hh 0 1 (by omega) (by omega), hh 1 0 (by omega) (by omega),
      hh 1 1 (by omega) (by omega), hz.1, hz.2]
    simp
    nlinarith [mul_self_nonneg (p.v 0), mul_self_nonneg (p.v 1), mul_self_nonneg (p.sl 0), mul_self_nonneg (p.su 0)]
  · have hj0 : j = 0 := by have : j < 1 := hj; omega
    subst hj0
    unfold DUserQcqp.form
    have e1 : (dqview exDQ).base.nv = 2 := rfl
    have hh : ∀ i j, i < 2 → j < 2 → (dqview exDQ).hess 0 i j = if i = j then 2 else 0 := by
      intro i j hi hj
      interval_cases i <;> interval_cases j <;> decide +kernel
    rw [e1]
    simp only [sum_range_succ, range_zero, sum_empty, zero_add]
    rw [hh 0 0 (by omega) (by omega), hh 0 1 (by omega) (by omega), hh 1 0 (by omega) (by omega),
      hh 1 1 (by omega) (by omega)]
    simp
    nlinarith [mul_self_nonneg (p.v 0), mul_self_nonneg (p.v 1)]

theorem exDQ_zero : (∀ i, i < 4 → (dqresCompute exDQ exDQSol exDRes exDQWs).res_g i = 0) ∧
    (∀ i, i < 1 → (dqresCompute exDQ exDQSol exDRes exDQWs).res_b i = 0) ∧
    (∀ j, j < 8 → ¬ (2 ≤ j ∧ j < 3) → (dqresCompute exDQ exDQSol exDRes exDQWs).res_d j = 0 ∧
      (dqresCompute exDQ exDQSol exDRes exDQWs).res_m j = 0 ∧ exDQ.base.m j = 0) := by
  decide +kernel

/-- C99: all hypotheses of the optimality certificate are met -/
example : (dqview exDQ).IsOptimal (dptOf exDQ.inner.dim exDQSol.v) :=
  dqres_zero_optimal exDQ exDQ_wf exDQ_mask exDQ_convex exDQSol exDRes exDQWs exDQWs_ok exDQ_cache
    exDQ_zero.1 exDQ_zero.2.1 exDQ_zero.2.2 (fun j hj _ => by
      have h8 : j < 8 := hj
      interval_cases j <;> decide +kernel)

/-- C99: the quadratic constraint is active at the solution, and away from it the residuals are not zero -/
example : (dqview exDQ).qvalue (dptOf exDQ.inner.dim exDQSol.v) 0 = 1 ∧ (dqview exDQ).uq 0 = 1 ∧
    (dqview exDQ).softq 0 = some 0 ∧
    (dqresCompute exDQ { exDQSol with v := fun i => if i = 0 then 2 else if i = 1 then 1 else 0 } exDRes exDQWs).res_d 5 = 4 ∧
    (dqresCompute exDQ { exDQSol with v := fun i => if i = 0 then 2 else if i = 1 then 1 else 0 } exDRes exDQWs).res_g 0 = 3 ∧
    (dqresCompute exDQ { exDQSol with v := fun i => if i = 0 then 2 else if i = 1 then 1 else 0 } exDRes exDQWs).res_b 0 = -1 := by decide +kernel

/-- C99: the cached path on the same point gives the same residuals -/
example : let w : DQresWs ℚ := ⟨exWs, fun _ => 3, fun _ => 3, true, true, fun _ => 1, fun i => if i = 0 then 2 else 0⟩
    (dqresCompute exDQ exDQSol exDRes w).res_g 0 = (dqresCompute exDQ exDQSol exDRes exDQWs).res_g 0 ∧
    (dqresCompute exDQ exDQSol exDRes w).dual_gap = (dqresCompute exDQ exDQSol exDRes exDQWs).dual_gap := by decide +kernel

/-- C99: the hypotheses of `dqres_cached` hold for the caches of the previous example -/
example : (∀ j, j < exDQ.nq → (fun _ => (1 : ℚ)) j = (dqview exDQ).qvalue (dptOf exDQ.inner.dim exDQSol.v) j) ∧
    (∀ i, i < exDQ.base.dim.nv → (fun i => if i = 0 then (2 : ℚ) else 0) i = ∑ j ∈ range exDQ.nq, (dqview exDQ).uqMask j
      * exDQSol.lam (2 * exDQ.base.dim.nb + 2 * exDQ.base.dim.ng + exDQ.nq + j)
      * ((∑ l ∈ range exDQ.base.dim.nv, (dqview exDQ).hess j i l * exDQSol.v l) + (dqview exDQ).gq j i)) := by decide +kernel

end Concrete
end Hpipm
