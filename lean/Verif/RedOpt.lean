/-
Removal of fixed variables: solutions (C40) and equivalence of the problems.
-/
import Verif.RedProps

namespace Hpipm
open Finset
set_option linter.unusedSectionVars false

section
variable {K : Type*} [Field K] [LinearOrder K] [IsStrictOrderedRing K]

/-- a removed box is in the list of equalities -/
theorem not_keptBox (qp : OcpQp K) (k j : ℕ) (h : ¬ KeptBox qp k j) : ∃ e, e < neThr qp.dim k ∧ qp.idxe k e = j := by
  unfold KeptBox at h; push Not at h; exact h

/-! ### C40: reducing and restoring a solution -/

/-- **C40.**  The restored solution: removed variables have their fixed values; the remaining variables, the
slacks, the multipliers of the dynamics and all multipliers and slacks of remaining constraints are those
of the reduced solution. -/
theorem restore_values {qp : OcpQp K} (hq : EqOk qp) (hw : qp.WF) (arg : RedArg K) (ha : arg.All) (Dr : QpDim)
    (hd : RedDim qp.dim Dr) (sr sol : Sol K) (ws : RedWs K) :
    let s := (restoreSol arg qp Dr sr sol ws).1
    AtFixed qp qp.d s.ux ∧ SolOk qp Dr s sr := by
  intro s
  have h : ∀ k, k ≤ qp.dim.N → RestOk arg qp qp.d qp.rqz Dr sr s k := restore_loop hq hw arg ha qp.d qp.rqz Dr hd sr sol ws
  exact ⟨fun k e hk he => (h k hk).fixed e he,
    ⟨fun k j hk hj hkj => ((h k hk).var j hj hkj).symm, fun k j hk hj => ((h k hk).slack j hj).symm⟩,
    fun k i hk hi => ((h k (by omega)).pi hk i hi).symm, fun k hk => (h k hk).lam, fun k hk => (h k hk).t⟩

/-- **C40.**  Reducing the restored solution gives the reduced solution back: all entries a reduced solution
object has. -/
theorem reduce_restore {qp : OcpQp K} (hq : EqOk qp) (hw : qp.WF) (arg : RedArg K) (ha : arg.All) (Dr : QpDim)
    (hd : RedDim qp.dim Dr) (sr sol sr' : Sol K) (ws ws' : RedWs K) (k : ℕ) (hk : k ≤ Dr.N) :
    let s := (restoreSol arg qp Dr sr sol ws).1
    let r := (redSol arg qp Dr s sr' ws').1
    (∀ i, i < Dr.nu k + Dr.nx k + 2 * Dr.ns k → r.ux k i = sr.ux k i) ∧
    (k < Dr.N → ∀ i, i < Dr.nx (k + 1) → r.pi k i = sr.pi k i) ∧
    (∀ i, i < 2 * Dr.nb k + 2 * Dr.ng k + 2 * Dr.ns k → r.lam k i = sr.lam k i ∧ r.t k i = sr.t k i) := by
  intro s r
  rw [hd.N] at hk ⊢
  obtain ⟨-, h1⟩ := restore_values hq hw arg ha Dr hd sr sol ws
  have h2 : SolOk qp Dr s r := redSol_ok hq arg ha Dr hd s sr' ws'
  obtain ⟨z1, z2, z3⟩ := red_sizes qp hq Dr hd k hk
  have hns := hd.ns k hk
  have hng := hd.ng k hk
  refine ⟨fun i hi => ?_, fun hN i hi => ?_, ?_⟩
  · by_cases h : i < Dr.nu k + Dr.nx k
    · rw [← z2] at h
      obtain ⟨j, hj, hkj, rfl⟩ := count_surj (Kept qp k) _ i h
      have e1 := h1.ux.var k j hk hj hkj
      have e2 := h2.ux.var k j hk hj hkj
      exact e2.trans e1.symm
    · obtain ⟨j, rfl⟩ : ∃ j, i = Dr.nu k + Dr.nx k + j := ⟨i - (Dr.nu k + Dr.nx k), by omega⟩
      exact (h2.ux.slack k j hk (by omega)).trans (h1.ux.slack k j hk (by omega)).symm
  · have hi' : i < qp.dim.nx (k + 1) := by rw [← hd.nx (k + 1) (by omega) (by omega)]; exact hi
    exact (h2.pi k i hN hi').trans (h1.pi k i hN hi').symm
  · have hcon : ∀ x y y' : Vec K, ConOk qp Dr k x y → ConOk qp Dr k x y' →
        ∀ i, i < 2 * Dr.nb k + 2 * Dr.ng k + 2 * Dr.ns k → y' i = y i := by
      intro x y y' c1 c2 i hi
      by_cases a1 : i < Dr.nb k
      · have a2 := a1; rw [← z3] at a2
        obtain ⟨j, hj, hkj, rfl⟩ := count_surj (KeptBox qp k) _ i a2
        exact (c2.lo j hj hkj).trans (c1.lo j hj hkj).symm
      · by_cases a2 : i < Dr.nb k + Dr.ng k
        · obtain ⟨j, rfl⟩ : ∃ j, i = Dr.nb k + j := ⟨i - Dr.nb k, by omega⟩
          exact (c2.glo j (by omega)).trans (c1.glo j (by omega)).symm
        · by_cases a3 : i < Dr.nb k + Dr.ng k + Dr.nb k
          · obtain ⟨q, rfl⟩ : ∃ q, i = Dr.nb k + Dr.ng k + q := ⟨i - (Dr.nb k + Dr.ng k), by omega⟩
            have a4 : q < newBox qp k (qp.dim.nb k) := by rw [z3]; omega
            obtain ⟨j, hj, hkj, rfl⟩ := count_surj (KeptBox qp k) _ q a4
            exact (c2.up j hj hkj).trans (c1.up j hj hkj).symm
          · by_cases a4 : i < Dr.nb k + Dr.ng k + (Dr.nb k + Dr.ng k)
            · obtain ⟨j, rfl⟩ : ∃ j, i = Dr.nb k + Dr.ng k + (Dr.nb k + j) := ⟨i - (Dr.nb k + Dr.ng k + Dr.nb k), by omega⟩
              exact (c2.gup j (by omega)).trans (c1.gup j (by omega)).symm
            · obtain ⟨j, rfl⟩ : ∃ j, i = 2 * (Dr.nb k + Dr.ng k) + j := ⟨i - 2 * (Dr.nb k + Dr.ng k), by omega⟩
              exact (c2.sl j (by omega)).trans (c1.sl j (by omega)).symm
    exact fun i hi => ⟨hcon _ _ _ (h1.lam k hk) (h2.lam k hk) i hi, hcon _ _ _ (h1.t k hk) (h2.t k hk) i hi⟩

/-! ### equivalence of the two problems -/

/-- feasible points of the original problem have the fixed values -/
theorem feasible_atFixed {qp : OcpQp K} (hq : EqOk qp) (ht : Tight qp) (v : ℕ → Vec K)
    (hf : (view qp).Feasible (ptOf qp.dim v)) : AtFixed qp qp.d v := by
  intro k e hk he
  obtain ⟨t1, t2, t3, t4⟩ := ht k e hk he
  have hb := hq.box k e hk he
  have h1 := hf.lo k (qp.idxe k e) hk (show _ < qp.dim.nb k + qp.dim.ng k by omega)
    (by rw [view_lowerMask qp k _ (by omega), t2]; exact one_ne_zero)
  have h2 := hf.up k (qp.idxe k e) hk (show _ < qp.dim.nb k + qp.dim.ng k by omega)
    (by rw [view_upperMask qp k _ (by omega), t3]; exact one_ne_zero)
  rw [value_packed qp k v _ (by omega), view_lower qp k _ (by omega), slackLo_packed] at h1
  rw [value_packed qp k v _ (by omega), view_upper qp k _ (by omega), slackUp_packed] at h2
  simp only [cval, if_pos hb, slk, t4, if_true, add_zero, t1, neg_neg] at h1 h2
  exact le_antisymm h2 h1

variable {qp red : OcpQp K} (hq : EqOk qp) (hr : Reduced qp red)
include hq hr

/-- **C38 + C39.**  When every remaining box bounds a variable in front of which nothing was removed and the
removed boxes are equalities, a point with the fixed values is feasible for the original problem iff the
corresponding point is feasible for the reduced one. -/
theorem red_feasible (hw : qp.WF) (hal : Aligned qp) (ht : Tight qp) {v w : ℕ → Vec K} (hf : AtFixed qp qp.d v)
    (hs : SameKept qp red.dim v w) :
    (view qp).Feasible (ptOf qp.dim v) ↔ (view red).Feasible (ptOf red.dim w) := by
  have hbox := fun k j hk hj hkj => red_box hq hr hw hs (k := k) (j := j) hk hj hkj (hal k j hk hj hkj)
  have hgen := fun k j hk hj => red_general hq hr hw hf hs (k := k) (j := j) hk hj
  have hsl := fun k j hk hj => red_slacks hq hr hs (k := k) (s := j) hk hj
  constructor
  · intro F
    refine ⟨fun k i hk hi => ?_, fun k j hk hj hm => ?_, fun k j hk hj hm => ?_, fun k i hk hi hm => ?_, fun k i hk hi hm => ?_⟩
    · have hk' : k < qp.dim.N := by have : (view red).N = red.dim.N := rfl; rw [this, hr.dim.N] at hk; exact hk
      have hi' : i < qp.dim.nx (k + 1) := by rw [← hr.dim.nx (k + 1) (by omega) (by omega)]; exact hi
      rw [red_dynamics hq hr hf hs hk' hi']; exact F.dyn k i hk' hi'
    · have hk' : k ≤ qp.dim.N := by have : (view red).N = red.dim.N := rfl; rw [this, hr.dim.N] at hk; exact hk
      have hng := hr.dim.ng k hk'
      have hj' : j < red.dim.nb k + red.dim.ng k := hj
      by_cases hjb : j < red.dim.nb k
      · rw [← (red_sizes qp hq red.dim hr.dim k hk').2.2] at hjb
        obtain ⟨j0, hj0, hkj, rfl⟩ := count_surj (KeptBox qp k) _ j hjb
        obtain ⟨e1, e2, e3, e4, e5, e6, e7⟩ := hbox k j0 hk' hj0 hkj
        unfold newBox at e1 e2 e3 e4 e5 e6 e7
        rw [e4] at hm; rw [e2, e1, e6]
        exact F.lo k j0 hk' (show _ < qp.dim.nb k + qp.dim.ng k by omega) hm
      · obtain ⟨j0, rfl⟩ : ∃ j0, j = red.dim.nb k + j0 := ⟨j - red.dim.nb k, by omega⟩
        obtain ⟨e1, e2, e3, e4, e5, e6⟩ := hgen k j0 hk' (by omega)
        rw [e3] at hm
        have := F.lo k (qp.dim.nb k + j0) hk' (show _ < qp.dim.nb k + qp.dim.ng k by omega) hm
        rw [e5]; linarith
    · have hk' : k ≤ qp.dim.N := by have : (view red).N = red.dim.N := rfl; rw [this, hr.dim.N] at hk; exact hk
      have hng := hr.dim.ng k hk'
      have hj' : j < red.dim.nb k + red.dim.ng k := hj
      by_cases hjb : j < red.dim.nb k
      · rw [← (red_sizes qp hq red.dim hr.dim k hk').2.2] at hjb
        obtain ⟨j0, hj0, hkj, rfl⟩ := count_surj (KeptBox qp k) _ j hjb
        obtain ⟨e1, e2, e3, e4, e5, e6, e7⟩ := hbox k j0 hk' hj0 hkj
        unfold newBox at e1 e2 e3 e4 e5 e6 e7
        rw [e5] at hm; rw [e3, e1, e7]
        exact F.up k j0 hk' (show _ < qp.dim.nb k + qp.dim.ng k by omega) hm
      · obtain ⟨j0, rfl⟩ : ∃ j0, j = red.dim.nb k + j0 := ⟨j - red.dim.nb k, by omega⟩
        obtain ⟨e1, e2, e3, e4, e5, e6⟩ := hgen k j0 hk' (by omega)
        rw [e4] at hm
        have := F.up k (qp.dim.nb k + j0) hk' (show _ < qp.dim.nb k + qp.dim.ng k by omega) hm
        rw [e6]; linarith
    · have hk' : k ≤ qp.dim.N := by have : (view red).N = red.dim.N := rfl; rw [this, hr.dim.N] at hk; exact hk
      have hi' : i < qp.dim.ns k := by rw [← hr.dim.ns k hk']; exact hi
      obtain ⟨e1, e2, e3, e4, e5, e6⟩ := hsl k i hk' hi'
      rw [e5] at hm; rw [e3, e1]; exact F.ls k i hk' hi' hm
    · have hk' : k ≤ qp.dim.N := by have : (view red).N = red.dim.N := rfl; rw [this, hr.dim.N] at hk; exact hk
      have hi' : i < qp.dim.ns k := by rw [← hr.dim.ns k hk']; exact hi
      obtain ⟨e1, e2, e3, e4, e5, e6⟩ := hsl k i hk' hi'
      rw [e6] at hm; rw [e4, e2]; exact F.us k i hk' hi' hm
  · intro F
    have hN : ∀ k, k ≤ qp.dim.N → k ≤ (view red).N := fun k hk => by
      have : (view red).N = red.dim.N := rfl; rw [this, hr.dim.N]; exact hk
    refine ⟨fun k i hk hi => ?_, fun k j hk hj hm => ?_, fun k j hk hj hm => ?_, fun k i hk hi hm => ?_, fun k i hk hi hm => ?_⟩
    · have hk' : k < qp.dim.N := hk
      have hi' : i < qp.dim.nx (k + 1) := hi
      rw [← red_dynamics hq hr hf hs hk' hi']
      refine F.dyn k i ?_ ?_
      · have : (view red).N = red.dim.N := rfl; rw [this, hr.dim.N]; exact hk'
      · have : (view red).nx = red.dim.nx := rfl; rw [this, hr.dim.nx (k + 1) (by omega) (by omega)]; exact hi'
    · have hk' : k ≤ qp.dim.N := hk
      have hj' : j < qp.dim.nb k + qp.dim.ng k := hj
      have hng := hr.dim.ng k hk'
      by_cases hjb : j < qp.dim.nb k
      · by_cases hkj : KeptBox qp k j
        · obtain ⟨e1, e2, e3, e4, e5, e6, e7⟩ := hbox k j hk' hjb hkj
          have hlt : newBox qp k j < red.dim.nb k := by
            rw [← (red_sizes qp hq red.dim hr.dim k hk').2.2]; exact count_lt_of hkj hjb
          have := F.lo k (newBox qp k j) (hN k hk') (show _ < red.dim.nb k + red.dim.ng k by omega) (by rw [e4]; exact hm)
          rw [e2, e1, e6] at this; exact this
        · obtain ⟨e, he, rfl⟩ := not_keptBox qp k j hkj
          obtain ⟨t1, t2, t3, t4⟩ := ht k e hk' he
          rw [value_packed qp k v _ hj', view_lower qp k _ hj', slackLo_packed]
          simp only [cval, if_pos hjb, slk, t4, if_true, add_zero]
          rw [hf k e hk' he]
      · obtain ⟨j0, rfl⟩ : ∃ j0, j = qp.dim.nb k + j0 := ⟨j - qp.dim.nb k, by omega⟩
        obtain ⟨e1, e2, e3, e4, e5, e6⟩ := hgen k j0 hk' (by omega)
        have := F.lo k (red.dim.nb k + j0) (hN k hk') (show _ < red.dim.nb k + red.dim.ng k by omega) (by rw [e3]; exact hm)
        rw [e5] at this; linarith
    · have hk' : k ≤ qp.dim.N := hk
      have hj' : j < qp.dim.nb k + qp.dim.ng k := hj
      have hng := hr.dim.ng k hk'
      by_cases hjb : j < qp.dim.nb k
      · by_cases hkj : KeptBox qp k j
        · obtain ⟨e1, e2, e3, e4, e5, e6, e7⟩ := hbox k j hk' hjb hkj
          have hlt : newBox qp k j < red.dim.nb k := by
            rw [← (red_sizes qp hq red.dim hr.dim k hk').2.2]; exact count_lt_of hkj hjb
          have := F.up k (newBox qp k j) (hN k hk') (show _ < red.dim.nb k + red.dim.ng k by omega) (by rw [e5]; exact hm)
          rw [e3, e1, e7] at this; exact this
        · obtain ⟨e, he, rfl⟩ := not_keptBox qp k j hkj
          obtain ⟨t1, t2, t3, t4⟩ := ht k e hk' he
          rw [value_packed qp k v _ hj', view_upper qp k _ hj', slackUp_packed]
          simp only [cval, if_pos hjb, slk, t4, if_true, add_zero]
          rw [hf k e hk' he, t1, neg_neg]
      · obtain ⟨j0, rfl⟩ : ∃ j0, j = qp.dim.nb k + j0 := ⟨j - qp.dim.nb k, by omega⟩
        obtain ⟨e1, e2, e3, e4, e5, e6⟩ := hgen k j0 hk' (by omega)
        have := F.up k (red.dim.nb k + j0) (hN k hk') (show _ < red.dim.nb k + red.dim.ng k by omega) (by rw [e4]; exact hm)
        rw [e6] at this; linarith
    · have hk' : k ≤ qp.dim.N := hk
      have hi' : i < qp.dim.ns k := hi
      obtain ⟨e1, e2, e3, e4, e5, e6⟩ := hsl k i hk' hi'
      have := F.ls k i (hN k hk') (show _ < red.dim.ns k by rw [hr.dim.ns k hk']; exact hi') (by rw [e5]; exact hm)
      rw [e3, e1] at this; exact this
    · have hk' : k ≤ qp.dim.N := hk
      have hi' : i < qp.dim.ns k := hi
      obtain ⟨e1, e2, e3, e4, e5, e6⟩ := hsl k i hk' hi'
      have := F.us k i (hN k hk') (show _ < red.dim.ns k by rw [hr.dim.ns k hk']; exact hi') (by rw [e6]; exact hm)
      rw [e4, e2] at this; exact this

/-- index lists of the reduced problem are meaningful -/
theorem red_wf (hw : qp.WF) (hal : Aligned qp) : red.WF := by
  constructor
  · intro k j hk hj
    rw [hr.dim.N] at hk
    rw [← (red_sizes qp hq red.dim hr.dim k hk).2.2] at hj
    obtain ⟨j0, hj0, hkj, rfl⟩ := count_surj (KeptBox qp k) _ j hj
    have e := (hr.mat k hk).idxb j0 hj0 hkj
    unfold newBox at e
    rw [e]
    have ha := hal k j0 hk hj0 hkj
    have hp : newPos qp k (qp.idxb k j0) = qp.idxb k j0 := (newPos_le qp k _).2.mpr (fun i hi => ha i (by omega))
    rw [← hp, ← (red_sizes qp hq red.dim hr.dim k hk).2.1]
    exact count_lt_of (ha _ (le_refl _)) (hw.1 k j0 hk hj0)
  · intro k j hk hj
    rw [hr.dim.N] at hk
    have hng := hr.dim.ng k hk
    rw [hr.dim.ns k hk]
    by_cases hjb : j < red.dim.nb k
    · rw [← (red_sizes qp hq red.dim hr.dim k hk).2.2] at hjb
      obtain ⟨j0, hj0, hkj, rfl⟩ := count_surj (KeptBox qp k) _ j hjb
      have e := (hr.mat k hk).soft j0 hj0 hkj
      unfold newBox at e
      rw [e]; exact hw.2 k j0 hk (by omega)
    · obtain ⟨j0, rfl⟩ : ∃ j0, j = red.dim.nb k + j0 := ⟨j - red.dim.nb k, by omega⟩
      rw [(hr.mat k hk).softg j0 (by omega)]; exact hw.2 k _ hk (by omega)

omit hr in
/-- **C40 (optimality).**  A global minimiser of the reduced problem, restored, is a global minimiser of the
original problem. -/
theorem restore_optimal (hw : qp.WF) (hal : Aligned qp) (ht : Tight qp) (arg : RedArg K) (ha : arg.All) (red0 : OcpQp K)
    (hd : RedDim qp.dim red0.dim) (wr wr' : RedWs K) (sr sol : Sol K) :
    let red := (redQp arg qp red0 wr).1
    (view red).IsOptimal (ptOf red.dim sr.ux) →
    (view qp).IsOptimal (ptOf qp.dim (restoreSol arg qp red.dim sr sol wr').1.ux) := by
  intro red ho
  have hr : Reduced qp red := redQp_reduced hq arg red0 hd wr
  obtain ⟨h1, h2⟩ := restore_values hq hw arg ha red.dim hr.dim sr sol wr'
  obtain ⟨c, hc⟩ := red_objective hq hr
  refine ⟨(red_feasible hq hr hw hal ht h1 h2.ux).mpr ho.1, fun p' hp' => ?_⟩
  have hv := feasible_congr qp hw _ _ (packPt_agree qp p') hp'
  set v := packPt qp.dim p' with hv'
  have hfx := feasible_atFixed hq ht v hv
  have hk := (redSol_ok hq arg ha red.dim hr.dim ⟨v, fun _ _ => 0, fun _ _ => 0, fun _ _ => 0⟩ sr wr').ux
  have hfr := (red_feasible hq hr hw hal ht hfx hk).mp hv
  rw [hc _ _ h1 h2.ux, ← objective_congr _ _ _ (packPt_agree qp p'), hc _ _ hfx hk]
  exact add_le_add_left (ho.2 _ hfr) c

omit hr in
/-- **C40 (optimality).**  Conversely the reduction of a global minimiser is a global minimiser of the reduced
problem. -/
theorem reduce_optimal (hw : qp.WF) (hal : Aligned qp) (ht : Tight qp) (arg : RedArg K) (ha : arg.All) (red0 : OcpQp K)
    (hd : RedDim qp.dim red0.dim) (wr wr' : RedWs K) (sr sol : Sol K) :
    let red := (redQp arg qp red0 wr).1
    (view qp).IsOptimal (ptOf qp.dim sol.ux) →
    (view red).IsOptimal (ptOf red.dim (redSol arg qp red.dim sol sr wr').1.ux) := by
  intro red ho
  have hr : Reduced qp red := redQp_reduced hq arg red0 hd wr
  have hwr := red_wf hq hr hw hal
  have h1 := feasible_atFixed hq ht _ ho.1
  have h2 := (redSol_ok hq arg ha red.dim hr.dim sol sr wr').ux
  obtain ⟨c, hc⟩ := red_objective hq hr
  refine ⟨(red_feasible hq hr hw hal ht h1 h2).mp ho.1, fun p' hp' => ?_⟩
  have hv := feasible_congr red hwr _ _ (packPt_agree red p') hp'
  set w := packPt red.dim p' with hw'
  obtain ⟨g1, g2⟩ := restore_values hq hw arg ha red.dim hr.dim ⟨w, fun _ _ => 0, fun _ _ => 0, fun _ _ => 0⟩ sol wr'
  have hfo := (red_feasible hq hr hw hal ht g1 g2.ux).mpr hv
  have hle := ho.2 _ hfo
  rw [hc _ _ h1 h2, hc _ _ g1 g2.ux] at hle
  rw [← objective_congr _ _ _ (packPt_agree red p')]
  exact le_of_add_le_add_right hle

end
end Hpipm
