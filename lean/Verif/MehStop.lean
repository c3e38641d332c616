/-
Specification of a whole solve (C89, C90): the initial point, Mehrotra iterations (`MehIter`), the stopping rule and the
returned status, all in terms of the problem and the arguments.  The solver's state is not mentioned.
-/
import Verif.MehSpec
import Verif.IpmInitProps
import Verif.IpmCtl

namespace Hpipm
open Finset

section
variable {K : Type*} [Field K] [LinearOrder K] [IsStrictOrderedRing K]

/-- the point a solve starts from: what `initVar` makes of the given guess (C32, C51), multipliers of constraints that are
switched off set to zero -/
def startPt (sq : K → K) (qp : OcpQp K) (arg : IpmArg K) (sol : Sol K) : Sol K :=
  { initVar sq qp arg sol with
    lam := fun k j => if qp.d_mask k j = 1 then (initVar sq qp arg sol).lam k j else 0 }

/-- some entry of a stage-wise vector exceeds the tolerance in absolute value (a negative tolerance is always exceeded) -/
def Exceeds (len : ℕ → ℕ) (n : ℕ) (f : ℕ → Vec K) (tol : K) : Prop :=
  tol < 0 ∨ ∃ k i, k < n ∧ i < len k ∧ tol < |f k i|

/-- the iteration goes on from `z`, reached with the step lengths `ap`, `ad`: both lengths exceed `alpha_min`, and a residual of
`z` exceeds its tolerance (relative formulation) or the mean complementarity defect is off its target (absolute) -/
def GoOn (qp : OcpQp K) (arg : IpmArg K) (z : Sol K) (ap ad : K) : Prop :=
  arg.r .alpha_min < ap ∧ arg.r .alpha_min < ad ∧
    (arg.i .abs_form = 0 →
      Exceeds (nvt qp.dim) (qp.dim.N + 1) (fun k i => vG qp z (z.lam k) k i) (arg.r .res_g_max) ∨
      Exceeds (fun k => qp.dim.nx (k + 1)) qp.dim.N (vB qp z) (arg.r .res_b_max) ∨
      Exceeds (nct qp.dim) (qp.dim.N + 1) (fun k j => qp.d_mask k j * vD qp z k j) (arg.r .res_d_max) ∨
      Exceeds (nct qp.dim) (qp.dim.N + 1) (fun k j => qp.d_mask k j * (z.lam k j * z.t k j - qp.m k j - arg.r .tau_min))
        (arg.r .res_m_max) ∨
      arg.r .dual_gap_max < ∑ k ∈ range (qp.dim.N + 1), vGap qp z k) ∧
    (arg.i .abs_form ≠ 0 → arg.r .res_m_max < |muOf qp z - arg.r .tau_min|)

/-- a run of the method that makes `iter` iterations from the guess `sol`, ends in `zf` and reports `st` -/
def MehSolve (sq : K → K) (qp : OcpQp K) (arg : IpmArg K) (sol : Sol K) (iter : ℕ) (st : Status) (zf : Sol K) : Prop :=
  ∃ (z : ℕ → Sol K) (ap ad : ℕ → K),
    (SolEq qp.dim (z 0) (startPt sq qp arg sol) ∧ ap 0 = 1 ∧ ad 0 = 1) ∧
    (∀ n, n < iter → (n : ℤ) < arg.i .iter_max ∧ GoOn qp arg (z n) (ap n) (ad n) ∧
      MehIter sq qp arg (z n) (ap (n + 1)) (ad (n + 1)) (z (n + 1))) ∧
    (arg.i .iter_max ≤ iter ∨ ¬ GoOn qp arg (z iter) (ap iter) (ad iter)) ∧
    (∀ n, n ≤ iter → InsideZ qp (z n)) ∧ zf = z iter ∧
    st = if (iter : ℤ) = arg.i .iter_max then .MAX_ITER
      else if ap iter ≤ arg.r .alpha_min ∨ ad iter ≤ arg.r .alpha_min then .MIN_STEP else .SUCCESS

/-! ### the run is a function of problem, arguments and guess -/

variable {qp : OcpQp K} {arg : IpmArg K} {sq : K → K}

theorem SolEq.agree {D : QpDim} {a b : Sol K} (h : SolEq D a b) : SolAgree D a b := ⟨h.ux, h.pi, h.lam, h.t⟩
theorem SolAgree.eq {D : QpDim} {a b : Sol K} (h : SolAgree D a b) : SolEq D a b := ⟨h.ux, h.pi, h.lam, h.t⟩

theorem Exceeds.congr {len : ℕ → ℕ} {n : ℕ} {f g : ℕ → Vec K} {tol : K} (h : ∀ k i, k < n → i < len k → f k i = g k i)
    (hx : Exceeds len n f tol) : Exceeds len n g tol := by
  rcases hx with h1 | ⟨k, i, hk, hi, h1⟩
  · exact Or.inl h1
  · exact Or.inr ⟨k, i, hk, hi, by rw [← h k i hk hi]; exact h1⟩

theorem vGap_in {z z' : Sol K} (h : SolEq qp.dim z z') {k : ℕ} (hk : k ≤ qp.dim.N) : vGap qp z k = vGap qp z' k := by
  unfold vGap
  simp only
  have hu : ∀ i, i < qp.dim.nu k + qp.dim.nx k → z.ux k i = z'.ux k i := fun i hi => h.ux k i hk (by unfold nvt; omega)
  congr 1
  · congr 1
    · congr 1
      · refine sum_congr rfl (fun i hi => ?_)
        rw [hmul_in k _ _ hu i, hu i (mem_range.mp hi)]
      · refine sum_congr rfl (fun i hi => ?_)
        have := mem_range.mp hi
        rw [h.ux k _ hk (by unfold nvt; omega)]
    · refine sum_congr rfl (fun j hj => ?_)
      unfold lamM
      rw [h.lam k j hk (mem_range.mp hj)]
  · split
    · rename_i hN
      refine sum_congr rfl (fun j hj => ?_)
      rw [h.pi k j hN (mem_range.mp hj)]
    · rfl

theorem GoOn.congr (hwf : qp.WF) {z z' : Sol K} {ap ad : K} (h : SolEq qp.dim z z') (hg : GoOn qp arg z ap ad) : GoOn qp arg z' ap ad := by
  obtain ⟨h1, h2, h3, h4⟩ := hg
  refine ⟨h1, h2, fun ha => ?_, fun ha => ?_⟩
  · rcases h3 ha with h | h' | h' | h' | h'
    · rename_i hz
      exact Or.inl (h.congr (fun k i hk hi => vG_in hz (by omega) hi (fun j hj => hz.lam k j (by omega) hj)))
    · exact Or.inr (Or.inl (h'.congr (fun k i hk hi => vB_in h hk hi)))
    · exact Or.inr (Or.inr (Or.inl (h'.congr (fun k i hk hi => by rw [vD_in hwf h (by omega) hi]))))
    · exact Or.inr (Or.inr (Or.inr (Or.inl (h'.congr (fun k i hk hi => by rw [h.lam k i (by omega) hi, h.t k i (by omega) hi])))))
    · refine Or.inr (Or.inr (Or.inr (Or.inr ?_)))
      rw [← sum_congr rfl (fun k hk => vGap_in h (Nat.le_of_lt_succ (mem_range.mp hk)))]
      exact h'
  · rw [← muOf_congr h]; exact h4 ha

/-- the initial point is a function of the guess, with a cold start not even of the guess -/
theorem startPt_congr (hwf : qp.WF) {sol sol' : Sol K} (hag : arg.i .warm_start = 0 ∨ SolEq qp.dim sol sol') :
    SolEq qp.dim (startPt sq qp arg sol) (startPt sq qp arg sol') := by
  have h := initVar_agree sq qp hwf arg sol sol' (hag.imp_right SolEq.agree)
  refine ⟨h.ux, h.pi, fun k j hk hj => ?_, h.t⟩
  show (if _ then _ else _) = if _ then _ else _
  rw [h.lam k j hk hj]

/-- **the run is determined**: two runs for the same problem and arguments make the same number of iterations, report the same
status and end in the same point -/
theorem MehSolve.unique (hwf : qp.WF) (hm : Mask01 qp) (hsc : StrictlyConvex qp (fun _ _ => arg.r .reg_prim) (arg.r .reg_prim))
    {sol sol' : Sol K} (hag : arg.i .warm_start = 0 ∨ SolEq qp.dim sol sol') {i i' : ℕ} {st st' : Status} {w w' : Sol K}
    (h : MehSolve sq qp arg sol i st w) (h' : MehSolve sq qp arg sol' i' st' w') : i = i' ∧ st = st' ∧ SolEq qp.dim w w' := by
  obtain ⟨z, ap, ad, ⟨h0, p0, d0⟩, hst, hend, hin, rfl, rfl⟩ := h
  obtain ⟨z', ap', ad', ⟨h0', p0', d0'⟩, hst', hend', hin', rfl, rfl⟩ := h'
  have key : ∀ n, n ≤ i → n ≤ i' → SolEq qp.dim (z n) (z' n) ∧ ap n = ap' n ∧ ad n = ad' n := by
    intro n
    induction n with
    | zero => exact fun _ _ => ⟨h0.trans ((startPt_congr hwf hag).trans h0'.symm), p0.trans p0'.symm, d0.trans d0'.symm⟩
    | succ n ih =>
      intro ha hb
      obtain ⟨e, -, -⟩ := ih (by omega) (by omega)
      obtain ⟨a, b, c⟩ := MehIter.unique hwf hm hsc e (hin n (by omega)) (hst n (by omega)).2.2 (hst' n (by omega)).2.2
      exact ⟨c, a, b⟩
  have hii : i = i' := by
    rcases lt_trichotomy i i' with hlt | he | hlt
    · exfalso
      obtain ⟨e, ea, ed⟩ := key i le_rfl hlt.le
      obtain ⟨h1, h2, -⟩ := hst' i hlt
      rcases hend with h3 | h3
      · omega
      · rw [ea, ed] at h3; exact h3 (h2.congr hwf e.symm)
    · exact he
    · exfalso
      obtain ⟨e, ea, ed⟩ := key i' hlt.le le_rfl
      obtain ⟨h1, h2, -⟩ := hst i' hlt
      rcases hend' with h3 | h3
      · omega
      · rw [← ea, ← ed] at h3; exact h3 (h2.congr hwf e)
  subst hii
  obtain ⟨e, ea, ed⟩ := key i le_rfl le_rfl
  refine ⟨rfl, ?_, e⟩
  rw [ea, ed]

end
end Hpipm
