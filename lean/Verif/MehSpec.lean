/-
Specification of one iteration of the interior point method in terms of the KKT residuals of the caller's QP: a
Mehrotra predictor-corrector step.  Nothing here refers to the solver, its workspaces or its KKT factorisation.

`vG`, `vB`, `vD` (ResVal) are the stationarity, dynamics and inequality defects of a point; the View theorems relate them to
the user's problem.
-/
import Verif.Move
import Verif.KktConv
import Verif.Arg
import Verif.CoreProps
import Verif.KktTail
import Verif.IpmContractRun

namespace Hpipm
open Finset

section
variable {K : Type*} [Field K] [LinearOrder K] [IsStrictOrderedRing K]

/-- two solution objects agree on all entries that belong to the QP -/
structure SolEq (D : QpDim) (s s' : Sol K) : Prop where
  ux : ∀ k i, k ≤ D.N → i < nvt D k → s.ux k i = s'.ux k i
  pi : ∀ k i, k < D.N → i < D.nx (k + 1) → s.pi k i = s'.pi k i
  lam : ∀ k j, k ≤ D.N → j < nct D k → s.lam k j = s'.lam k j
  t : ∀ k j, k ≤ D.N → j < nct D k → s.t k j = s'.t k j

theorem SolEq.refl (D : QpDim) (s : Sol K) : SolEq D s s := ⟨fun _ _ _ _ => rfl, fun _ _ _ _ => rfl, fun _ _ _ _ => rfl, fun _ _ _ _ => rfl⟩

theorem SolEq.symm {D : QpDim} {s s' : Sol K} (h : SolEq D s s') : SolEq D s' s :=
  ⟨fun k i a b => (h.ux k i a b).symm, fun k i a b => (h.pi k i a b).symm, fun k i a b => (h.lam k i a b).symm,
    fun k i a b => (h.t k i a b).symm⟩

theorem SolEq.trans {D : QpDim} {a b c : Sol K} (h : SolEq D a b) (h' : SolEq D b c) : SolEq D a c :=
  ⟨fun k i x y => (h.ux k i x y).trans (h'.ux k i x y), fun k i x y => (h.pi k i x y).trans (h'.pi k i x y),
    fun k i x y => (h.lam k i x y).trans (h'.lam k i x y), fun k i x y => (h.t k i x y).trans (h'.t k i x y)⟩

theorem SolEq.add {D : QpDim} {a b c d : Sol K} (h : SolEq D a b) (h' : SolEq D c d) : SolEq D (a.add c) (b.add d) :=
  ⟨fun k i x y => by simp only [Sol.add, h.ux k i x y, h'.ux k i x y], fun k i x y => by simp only [Sol.add, h.pi k i x y, h'.pi k i x y],
    fun k i x y => by simp only [Sol.add, h.lam k i x y, h'.lam k i x y], fun k i x y => by simp only [Sol.add, h.t k i x y, h'.t k i x y]⟩

/-- the search direction `d` from the iterate `z`: after the full step `z + d` the dynamics hold, the inequalities that are
switched on hold with their slacks, the gradient of the Lagrangian vanishes up to the regularisation `reg` (measured from
the point `p`), and the complementarity products are changed to first order by `-rm`; constraints that are switched off
do not move. -/
structure Dir (qp : OcpQp K) (reg : K) (p z : Sol K) (rm : ℕ → Vec K) (d : Sol K) : Prop where
  g : ∀ k i, k ≤ qp.dim.N → i < nvt qp.dim k →
    vG qp (z.add d) ((z.add d).lam k) k i = - reg * ((z.add d).ux k i - p.ux k i)
  b : ∀ k i, k < qp.dim.N → i < qp.dim.nx (k + 1) → vB qp (z.add d) k i = 0
  ineq : ∀ k j, k ≤ qp.dim.N → j < nct qp.dim k → qp.d_mask k j = 1 → vD qp (z.add d) k j = 0
  m : ∀ k j, k ≤ qp.dim.N → j < nct qp.dim k → qp.d_mask k j = 1 → rm k j + z.lam k j * d.t k j + d.lam k j * z.t k j = 0
  off : ∀ k j, k ≤ qp.dim.N → j < nct qp.dim k → qp.d_mask k j = 0 → d.lam k j = 0 ∧ d.t k j = 0

/-- the step lengths of the ratio test (COMPUTE_ALPHA_QP, characterised by C13) for slacks `z.t`, multipliers `z.lam` and the
direction `d` -/
def StepLen (sq : K → K) (qp : OcpQp K) (arg : IpmArg K) (z d : Sol K) (ap ad : K) : Prop :=
  ∃ c : Core K, c.nc = stOff (nct qp.dim) (qp.dim.N + 1) ∧
    (∀ k j, k ≤ qp.dim.N → j < nct qp.dim k →
      c.lam (stOff (nct qp.dim) k + j) = z.lam k j ∧ c.t (stOff (nct qp.dim) k + j) = z.t k j ∧
      c.dlam (stOff (nct qp.dim) k + j) = d.lam k j ∧ c.dt (stOff (nct qp.dim) k + j) = d.t k j ∧
      c.m (stOff (nct qp.dim) k + j) = qp.m k j * qp.d_mask k j) ∧
    c.split_step = (if arg.i .split_step = 1 then 1 else 0) ∧
    (c.m_zero = true ↔ ∀ k j, k ≤ qp.dim.N → j < nct qp.dim k → qp.m k j = 0) ∧ c.m_safe = arg.r .m_safe ∧
    (computeAlpha sq c).alpha_prim = ap ∧ (computeAlpha sq c).alpha_dual = ad

/-- number of constraints that are switched on -/
def onCount (qp : OcpQp K) : ℕ :=
  ∑ k ∈ range (qp.dim.N + 1), ∑ j ∈ range (nct qp.dim k), if qp.d_mask k j = 1 then 1 else 0

/-- mean complementarity defect after a step of lengths `ap`, `ad` -/
def muAfter (qp : OcpQp K) (z d : Sol K) (ap ad : K) : K :=
  (∑ k ∈ range (qp.dim.N + 1), ∑ j ∈ range (nct qp.dim k), if qp.d_mask k j = 1 then
    |(z.lam k j + ad * d.lam k j) * (z.t k j + ap * d.t k j) - qp.m k j| else 0) / (onCount qp : K)

/-- mean complementarity defect of a point -/
def muOf (qp : OcpQp K) (z : Sol K) : K :=
  (∑ k ∈ range (qp.dim.N + 1), ∑ j ∈ range (nct qp.dim k), if qp.d_mask k j = 1 then
    |z.lam k j * z.t k j - qp.m k j| else 0) / (onCount qp : K)

/-- the fraction of the step lengths that is used -/
def shorten (ap ad : K) : K × K :=
  if min ap ad < 1 then
    (ap * ((1 - ap) * (99 / 100) + ap * (9999999 / 10000000)), ad * ((1 - ad) * (99 / 100) + ad * (9999999 / 10000000)))
  else (ap, ad)

/-- `z'` is `z` moved along `d`, slacks and multipliers kept above their lower limits if so configured -/
structure Moved (qp : OcpQp K) (arg : IpmArg K) (z d : Sol K) (ap ad : K) (z' : Sol K) : Prop where
  ux : ∀ k i, k ≤ qp.dim.N → i < nvt qp.dim k → z'.ux k i = z.ux k i + (shorten ap ad).1 * d.ux k i
  pi : ∀ k i, k < qp.dim.N → i < qp.dim.nx (k + 1) → z'.pi k i = z.pi k i + (shorten ap ad).2 * d.pi k i
  lam : ∀ k j, k ≤ qp.dim.N → j < nct qp.dim k → z'.lam k j = if qp.d_mask k j = 1 then
    (if arg.i .t_lam_min = 2 then max (z.lam k j + (shorten ap ad).2 * d.lam k j) (arg.r .lam_min)
      else z.lam k j + (shorten ap ad).2 * d.lam k j) else 0
  t : ∀ k j, k ≤ qp.dim.N → j < nct qp.dim k → z'.t k j =
    if arg.i .t_lam_min = 2 then max (z.t k j + (shorten ap ad).1 * d.t k j) (arg.r .t_min) else z.t k j + (shorten ap ad).1 * d.t k j

/-- the origin -/
def Sol.zero : Sol K := ⟨fun _ _ => 0, fun _ _ => 0, fun _ _ => 0, fun _ _ => 0⟩

/-- the point from which the regularisation is measured: the iterate in the relative formulation, the origin in the
absolute one -/
def proxPt (arg : IpmArg K) (z : Sol K) : Sol K := if arg.i .abs_form = 0 then z else Sol.zero

/-- **One iteration of the method**, from `z` to `z'` with step lengths `ap`, `ad`: the affine direction aims at products
`m + tau_min`; the corrector aims at `m + max(sigma mu, tau_min)` with Mehrotra's `sigma = (mu_aff/mu)^3` and second order
term of the affine direction; the conditional variant drops the second order term if the corrected step would more than
double `mu_aff`. -/
def MehIter (sq : K → K) (qp : OcpQp K) (arg : IpmArg K) (z : Sol K) (ap ad : K) (z' : Sol K) : Prop :=
  let reg := arg.r .reg_prim
  let p := proxPt arg z
  ∃ da aA dA, Dir qp reg p z (fun k j => z.lam k j * z.t k j - qp.m k j - arg.r .tau_min) da ∧ StepLen sq qp arg z da aA dA ∧
    ∃ d, StepLen sq qp arg z d ap ad ∧ Moved qp arg z d ap ad z' ∧
      (arg.i .pred_corr ≠ 1 → SolEq qp.dim d da) ∧
      (arg.i .pred_corr = 1 →
        let muA := muAfter qp z da aA dA
        let tgt := max ((muA / muOf qp z) ^ 3 * muOf qp z) (arg.r .tau_min)
        ∃ dc aC dC, Dir qp reg p z (fun k j => z.lam k j * z.t k j - qp.m k j + da.t k j * da.lam k j - tgt) dc ∧
          StepLen sq qp arg z dc aC dC ∧
          (arg.i .cond_pred_corr = 1 ∧ muAfter qp z dc aC dC > 2 * muA →
            Dir qp reg p z (fun k j => z.lam k j * z.t k j - qp.m k j - tgt) d) ∧
          (¬ (arg.i .cond_pred_corr = 1 ∧ muAfter qp z dc aC dC > 2 * muA) → SolEq qp.dim d dc))

/-! ### the iteration is a function of the iterate -/

variable {qp : OcpQp K}

theorem hmul_in (k : ℕ) (v w : Vec K) (h : ∀ i, i < qp.dim.nu k + qp.dim.nx k → v i = w i) (i : ℕ) : hmul qp k v i = hmul qp k w i := by
  simp only [hmul]
  exact sum_congr rfl (fun j hj => by rw [h j (mem_range.mp hj)])

theorem vG_in {s s' : Sol K} (h : SolEq qp.dim s s') {lm lm' : Vec K} {k i : ℕ} (hk : k ≤ qp.dim.N) (hi : i < nvt qp.dim k)
    (hl : ∀ j, j < nct qp.dim k → lm j = lm' j) : vG qp s lm k i = vG qp s' lm' k i := by
  rw [vG_congr qp s lm lm' k i hl hi]
  have hi' := hi
  unfold nvt at hi'
  have hux : ∀ i, i < qp.dim.nu k + qp.dim.nx k → s.ux k i = s'.ux k i := fun i hi => h.ux k i hk (by unfold nvt; omega)
  simp only [vG]
  rw [hmul_in k _ _ hux, h.ux k i hk hi]
  split_ifs with h1 h2 h3 h3
  · have e : s.pi (k - 1) (i - qp.dim.nu k) = s'.pi (k - 1) (i - qp.dim.nu k) := h.pi _ _ (by omega) (by rw [Nat.sub_add_cancel h2.1]; omega)
    have e2 : ∑ j ∈ range (qp.dim.nx (k + 1)), qp.BAbt k i j * s.pi k j = ∑ j ∈ range (qp.dim.nx (k + 1)), qp.BAbt k i j * s'.pi k j :=
      sum_congr rfl (fun j hj => by rw [h.pi k j h3 (mem_range.mp hj)])
    rw [e, e2]
  · have e : s.pi (k - 1) (i - qp.dim.nu k) = s'.pi (k - 1) (i - qp.dim.nu k) := h.pi _ _ (by omega) (by rw [Nat.sub_add_cancel h2.1]; omega)
    rw [e]
  · have e2 : ∑ j ∈ range (qp.dim.nx (k + 1)), qp.BAbt k i j * s.pi k j = ∑ j ∈ range (qp.dim.nx (k + 1)), qp.BAbt k i j * s'.pi k j :=
      sum_congr rfl (fun j hj => by rw [h.pi k j h3 (mem_range.mp hj)])
    rw [e2]
  · rfl
  · rfl
  · rfl

theorem vB_in {s s' : Sol K} (h : SolEq qp.dim s s') {k i : ℕ} (hk : k < qp.dim.N) (hi : i < qp.dim.nx (k + 1)) :
    vB qp s k i = vB qp s' k i := by
  rw [vB_lin, vB_lin, linB_congr qp s.ux s'.ux k i hk hi h.ux]

theorem linD_in (hwf : qp.WF) {u w : ℕ → Vec K} {k : ℕ} (hk : k ≤ qp.dim.N) (h : ∀ i, i < nvt qp.dim k → u k i = w k i) {j : ℕ}
    (hj : j < nct qp.dim k) : linD qp u k j = linD qp w k j := by
  unfold nvt at h
  unfold nct at hj
  have hc : ∀ j, cval qp k (u k) j = cval qp k (w k) j := cval_congr' qp hwf k hk _ _ (fun i hi => h i (by omega))
  have hs : ∀ a, a = qp.dim.nu k + qp.dim.nx k ∨ a = qp.dim.nu k + qp.dim.nx k + qp.dim.ns k → ∀ j, j < qp.dim.nb k + qp.dim.ng k →
      slk qp k (u k) a j = slk qp k (w k) a j := by
    intro a ha j hj
    unfold slk
    split_ifs with h1
    · rfl
    · have := (hwf.2 k j hk hj).resolve_left h1
      rw [h _ (by omega)]
  simp only [linD]
  split_ifs with h1 h2
  · rw [hc, hs _ (Or.inl rfl) _ h1]
  · rw [hc, hs _ (Or.inr rfl) _ (by omega)]
  · rw [h _ (by omega)]

theorem vD_in (hwf : qp.WF) {s s' : Sol K} (h : SolEq qp.dim s s') {k j : ℕ} (hk : k ≤ qp.dim.N) (hj : j < nct qp.dim k) :
    vD qp s k j = vD qp s' k j := by
  rw [vD_lin, vD_lin, linD_in hwf hk (fun i hi => h.ux k i hk hi) hj, h.t k j hk hj]

theorem Dir.congr (hwf : qp.WF) {reg : K} {p p' z z' d d' : Sol K} {rm rm' : ℕ → Vec K} (h : Dir qp reg p z rm d)
    (hp : SolEq qp.dim p p') (hz : SolEq qp.dim z z') (hd : SolEq qp.dim d d')
    (hr : ∀ k j, k ≤ qp.dim.N → j < nct qp.dim k → qp.d_mask k j = 1 → rm k j = rm' k j) : Dir qp reg p' z' rm' d' := by
  have ha := hz.add hd
  refine ⟨fun k i hk hi => ?_, fun k i hk hi => ?_, fun k j hk hj h1 => ?_, fun k j hk hj h1 => ?_, fun k j hk hj h1 => ?_⟩
  · rw [← vG_in ha hk hi (fun j hj => ha.lam k j hk hj), h.g k i hk hi, ha.ux k i hk hi, hp.ux k i hk hi]
  · rw [← vB_in ha hk hi]; exact h.b k i hk hi
  · rw [← vD_in hwf ha hk hj]; exact h.ineq k j hk hj h1
  · rw [← hr k j hk hj h1, ← hz.lam k j hk hj, ← hz.t k j hk hj, ← hd.lam k j hk hj, ← hd.t k j hk hj]; exact h.m k j hk hj h1
  · rw [← hd.lam k j hk hj, ← hd.t k j hk hj]; exact h.off k j hk hj h1

/-- the iterate is strictly inside and has no multipliers on constraints that are switched off -/
def InsideZ (qp : OcpQp K) (z : Sol K) : Prop := ∀ k j, k ≤ qp.dim.N → j < nct qp.dim k →
  0 < z.t k j ∧ (qp.d_mask k j = 1 → 0 < z.lam k j) ∧ (qp.d_mask k j = 0 → z.lam k j = 0)

theorem InsideZ.interior (hm : Mask01 qp) {z : Sol K} (h : InsideZ qp z) : Interior qp z := by
  intro k j hk hj
  obtain ⟨h1, h2, h3⟩ := h k j hk hj
  refine ⟨?_, h1⟩
  rcases hm k j hk hj with e | e
  · rw [h3 e]
  · exact (h2 e).le

theorem InsideZ.congr {z z' : Sol K} (h : InsideZ qp z) (e : SolEq qp.dim z z') : InsideZ qp z' := by
  intro k j hk hj
  rw [← e.t k j hk hj, ← e.lam k j hk hj]
  exact h k j hk hj

/-- a search direction is determined by the iterate and the aimed-at products -/
theorem Dir.unique (hwf : qp.WF) (hm : Mask01 qp) {reg : K} (hsc : StrictlyConvex qp (fun _ _ => reg) reg) {p z d d' : Sol K} {rm : ℕ → Vec K}
    (hz : InsideZ qp z) (h : Dir qp reg p z rm d) (h' : Dir qp reg p z rm d') : SolEq qp.dim d d' := by
  classical
  -- the QP of the step, and the two steps with the slacks of switched off constraints filled in
  let r : Res K := { res_g := fun k i => vG qp z (z.lam k) k i, res_b := fun k i => vB qp z k i, res_d := fun k j => vD qp z k j,
                     res_m := fun k j => if qp.d_mask k j = 1 then rm k j else 0, res_mu := 0, res_mu_sum := 0, obj := 0, dual_gap := 0 }
  let q0 : OcpQp K := stepQp qp r
  let q : OcpQp K := { q0 with rqz := fun k i => vG qp z (z.lam k) k i + reg * (z.ux k i - p.ux k i) }
  have key : ∀ d : Sol K, Dir qp reg p z rm d → NewtonStep q z (fun _ _ => reg) reg
      { d with t := fun k j => if qp.d_mask k j = 1 then d.t k j else - (vD qp z k j + linD qp d.ux k j) } := by
    intro d hd
    have hg : ∀ k i, k ≤ qp.dim.N → i < nvt qp.dim k → vG q d (d.lam k) k i = - reg * d.ux k i := by
      intro k i hk hi
      have e := hd.g k i hk hi
      have e2 : vG qp (z.add d) ((z.add d).lam k) k i = vG q0 d (d.lam k) k i := vG_step qp z d (z.lam k) (d.lam k) r k i hi rfl
      have e3 : vG q d (d.lam k) k i = vG q0 d (d.lam k) k i + reg * (z.ux k i - p.ux k i) := by
        have hq : q0.rqz k i = vG qp z (z.lam k) k i := rfl
        simp only [vG]
        have c1 : ∀ v, hmul q k v i = hmul q0 k v i := fun v => rfl
        have c2 : ∀ v, cvalT q k v i = cvalT q0 k v i := fun v => rfl
        have c3 : ∀ v s, slkT q k v s = slkT q0 k v s := fun v s => rfl
        have c4 : q.rqz k i = q0.rqz k i + reg * (z.ux k i - p.ux k i) := rfl
        have c5 : q.dim = q0.dim := rfl
        have c6 : q.BAbt = q0.BAbt := rfl
        have c7 : q.Z = q0.Z := rfl
        rw [c1, c2, c4, c5, c6, c7]
        simp only [c3]
        by_cases h1 : i < q0.dim.nu k + q0.dim.nx k
        · simp only [if_pos h1]; ring
        · simp only [if_neg h1]; ring
      rw [e3, ← e2, e]
      simp only [Sol.add]; ring
    refine ⟨fun k i hk hi => ?_, fun k i hk hi => ?_, fun k i hk hi => ?_, fun k j hk hj => ?_, fun k j hk hj => ?_⟩
    · exact hg k i hk (by have hi : i < qp.dim.nu k + qp.dim.nx k := hi; unfold nvt; omega)
    · have hi : i < 2 * qp.dim.ns k := hi
      exact hg k _ hk (by show _ < qp.dim.nu k + qp.dim.nx k + 2 * qp.dim.ns k; show qp.dim.nu k + qp.dim.nx k + i < _; omega)
    · have e := hd.b k i hk hi
      rw [vB_lin] at e ⊢
      have e1 : linB qp (z.add d).ux k i = linB qp z.ux k i + linB qp d.ux k i := by
        simp only [linB, Sol.add, mul_add, sum_add_distrib]; ring
      have e2 : q.b k i = vB qp z k i := rfl
      have e3 : linB q d.ux k i = linB qp d.ux k i := rfl
      rw [e1] at e
      rw [e2, vB_lin]
      show _ + linB q d.ux k i = 0
      rw [e3]
      linear_combination e
    · rw [vD_lin]
      have e2 : q.d k j = vD qp z k j := rfl
      have e3 : linD q d.ux k j = linD qp d.ux k j := rfl
      rw [e2]
      show _ + (if qp.d_mask k j = 1 then _ else _) + linD q d.ux k j = 0
      rw [e3]
      split_ifs with h1
      · have e := hd.ineq k j hk hj h1
        rw [vD_lin] at e
        have e1 : linD qp (z.add d).ux k j = linD qp z.ux k j + linD qp d.ux k j := linD_add qp z.ux d.ux k j
        rw [e1] at e
        simp only [Sol.add] at e
        rw [vD_lin]
        linear_combination e
      · ring
    · show (if qp.d_mask k j = 1 then rm k j else 0) + z.lam k j * (if qp.d_mask k j = 1 then d.t k j else _) + d.lam k j * z.t k j = 0
      rcases hm k j hk hj with h0 | h1
      · have hne : ¬ qp.d_mask k j = 1 := by rw [h0]; exact zero_ne_one
        rw [if_neg hne, if_neg hne, (hz k j hk hj).2.2 h0, (hd.off k j hk hj h0).1]
        ring
      · rw [if_pos h1, if_pos h1]; exact hd.m k j hk hj h1
  have hint : Interior q z := hz.interior hm
  obtain ⟨u1, u2, u3⟩ := newton_unique q hwf z hint (fun _ _ => reg) reg hsc _ _ (key d h) (key d' h')
  refine ⟨fun k i hk hi => u1 k i hk hi, fun k i hk hi => u2 k i hk hi, fun k j hk hj => ?_, fun k j hk hj => ?_⟩
  · exact (u3 k j hk (by unfold nct at hj; exact hj)).1
  · rcases hm k j hk hj with h0 | h1
    · rw [(h.off k j hk hj h0).2, (h'.off k j hk hj h0).2]
    · have := (u3 k j hk (by unfold nct at hj; exact hj)).2
      simp only [if_pos h1] at this
      exact this

theorem loop_body_congr {α : Type*} (n : ℕ) (f g : ℕ → α → α) (s : α) (h : ∀ i s, i < n → f i s = g i s) : loop n f s = loop n g s := by
  induction n with
  | zero => rfl
  | succ n ih => rw [loop_succ, loop_succ, ih (fun i s hi => h i s (by omega)), h n _ (by omega)]

/-- the ratio test depends only on the entries that belong to the constraints -/
theorem computeAlpha_congr (sq : K → K) (c c' : Core K) (hn : c.nc = c'.nc) (hs : c.split_step = c'.split_step) (hz : c.m_zero = c'.m_zero)
    (hm : c.m_safe = c'.m_safe) (h : ∀ i, i < c.nc → c.lam i = c'.lam i ∧ c.t i = c'.t i ∧ c.dlam i = c'.dlam i ∧ c.dt i = c'.dt i ∧ c.m i = c'.m i) :
    (computeAlpha sq c).alpha_prim = (computeAlpha sq c').alpha_prim ∧ (computeAlpha sq c).alpha_dual = (computeAlpha sq c').alpha_dual := by
  have hms : mSafe c = mSafe c' := by unfold mSafe; rw [hm]
  have e : alphaRaw sq c = alphaRaw sq c' := by
    have p0 : ∀ i s, i < c.nc → alphaSplitZ c i s = alphaSplitZ c' i s := by
      intro i s hi
      obtain ⟨h1, h2, h3, h4, -⟩ := h i hi
      unfold alphaSplitZ; rw [h1, h2, h3, h4]
    have p1 : ∀ i s, i < c.nc → alphaPass1 c i s = alphaPass1 c' i s := by
      intro i s hi
      obtain ⟨h1, h2, h3, h4, h5⟩ := h i hi
      unfold alphaPass1; rw [h1, h2, h3, h4, h5, hms]
    have p2 : ∀ i s, i < c.nc → alphaPass2 sq c i s = alphaPass2 sq c' i s := by
      intro i s hi
      obtain ⟨h1, h2, h3, h4, h5⟩ := h i hi
      unfold alphaPass2; rw [h1, h2, h3, h4, h5, hms]
    have p3 : ∀ i s, i < c.nc → alphaPass3 c i s = alphaPass3 c' i s := by
      intro i s hi
      obtain ⟨h1, h2, h3, h4, h5⟩ := h i hi
      unfold alphaPass3; rw [h1, h2, h3, h4, h5, hms]
    have p4 : ∀ i s, i < c.nc → alphaJointZ c i s = alphaJointZ c' i s := by
      intro i s hi
      obtain ⟨h1, h2, h3, h4, -⟩ := h i hi
      unfold alphaJointZ; rw [h1, h2, h3, h4]
    have p5 : ∀ i s, i < c.nc → alphaJointM sq c i s = alphaJointM sq c' i s := by
      intro i s hi
      obtain ⟨h1, h2, h3, h4, h5⟩ := h i hi
      unfold alphaJointM; rw [h1, h2, h3, h4, h5, hms]
    unfold alphaRaw
    rw [hs, hz, ← hn]
    simp only [loop_body_congr _ _ _ _ p0, loop_body_congr _ _ _ _ p1, loop_body_congr _ _ _ _ p2, loop_body_congr _ _ _ _ p3,
      loop_body_congr _ _ _ _ p4, loop_body_congr _ _ _ _ p5]
  unfold computeAlpha
  rw [e, hs]
  split_ifs <;> exact ⟨rfl, rfl⟩

/-- a flat index belongs to a stage -/
theorem flat_at (len : ℕ → ℕ) (N i : ℕ) (h : i < stOff len (N + 1)) : ∃ k j, k ≤ N ∧ j < len k ∧ i = stOff len k + j := by
  obtain ⟨k, j, h1, h2, h3⟩ := flat_split len (N + 1) i h
  exact ⟨k, j, Nat.le_of_lt_succ h1, h2, h3⟩

variable {sq : K → K} {arg : IpmArg K}

theorem StepLen.unique {z z' d d' : Sol K} {ap ad ap' ad' : K} (hz : SolEq qp.dim z z') (hd : SolEq qp.dim d d') (h : StepLen sq qp arg z d ap ad)
    (h' : StepLen sq qp arg z' d' ap' ad') : ap = ap' ∧ ad = ad' := by
  obtain ⟨c, n1, v1, s1, z1, m1, rfl, rfl⟩ := h
  obtain ⟨c', n2, v2, s2, z2, m2, rfl, rfl⟩ := h'
  refine computeAlpha_congr sq c c' (n1.trans n2.symm) (s1.trans s2.symm) ?_ (m1.trans m2.symm) (fun i hi => ?_)
  · exact Bool.eq_iff_iff.mpr (z1.trans z2.symm)
  · rw [n1] at hi
    obtain ⟨k, j, hk, hj, rfl⟩ := flat_at _ _ _ hi
    obtain ⟨a1, a2, a3, a4, a5⟩ := v1 k j hk hj
    obtain ⟨b1, b2, b3, b4, b5⟩ := v2 k j hk hj
    rw [a1, a2, a3, a4, a5, b1, b2, b3, b4, b5, hz.lam k j hk hj, hz.t k j hk hj, hd.lam k j hk hj, hd.t k j hk hj]
    exact ⟨rfl, rfl, rfl, rfl, rfl⟩

theorem StepLen.congr {z z' d d' : Sol K} {ap ad : K} (hz : SolEq qp.dim z z') (hd : SolEq qp.dim d d') (h : StepLen sq qp arg z d ap ad) :
    StepLen sq qp arg z' d' ap ad := by
  obtain ⟨c, n1, v1, h1⟩ := h
  refine ⟨c, n1, fun k j hk hj => ?_, h1⟩
  rw [← hz.lam k j hk hj, ← hz.t k j hk hj, ← hd.lam k j hk hj, ← hd.t k j hk hj]
  exact v1 k j hk hj

theorem muAfter_congr {z z' d d' : Sol K} (hz : SolEq qp.dim z z') (hd : SolEq qp.dim d d') (ap ad : K) :
    muAfter qp z d ap ad = muAfter qp z' d' ap ad := by
  unfold muAfter
  congr 1
  refine sum_congr rfl (fun k hk => sum_congr rfl (fun j hj => ?_))
  have hk := Nat.le_of_lt_succ (mem_range.mp hk)
  have hj := mem_range.mp hj
  rw [hz.lam k j hk hj, hz.t k j hk hj, hd.lam k j hk hj, hd.t k j hk hj]

theorem muOf_congr {z z' : Sol K} (hz : SolEq qp.dim z z') : muOf qp z = muOf qp z' := by
  unfold muOf
  congr 1
  refine sum_congr rfl (fun k hk => sum_congr rfl (fun j hj => ?_))
  have hk := Nat.le_of_lt_succ (mem_range.mp hk)
  have hj := mem_range.mp hj
  rw [hz.lam k j hk hj, hz.t k j hk hj]

theorem Moved.unique {z z' d d' w w' : Sol K} {ap ad : K} (hz : SolEq qp.dim z z') (hd : SolEq qp.dim d d') (h : Moved qp arg z d ap ad w)
    (h' : Moved qp arg z' d' ap ad w') : SolEq qp.dim w w' := by
  refine ⟨fun k i hk hi => ?_, fun k i hk hi => ?_, fun k j hk hj => ?_, fun k j hk hj => ?_⟩
  · rw [h.ux k i hk hi, h'.ux k i hk hi, hz.ux k i hk hi, hd.ux k i hk hi]
  · rw [h.pi k i hk hi, h'.pi k i hk hi, hz.pi k i hk hi, hd.pi k i hk hi]
  · rw [h.lam k j hk hj, h'.lam k j hk hj, hz.lam k j hk hj, hd.lam k j hk hj]
  · rw [h.t k j hk hj, h'.t k j hk hj, hz.t k j hk hj, hd.t k j hk hj]

theorem proxPt_congr {z z' : Sol K} (hz : SolEq qp.dim z z') : SolEq qp.dim (proxPt arg z) (proxPt arg z') := by
  unfold proxPt
  split_ifs
  · exact hz
  · exact SolEq.refl _ _

/-- **the iteration is a function**: equal iterates give equal step lengths and equal next iterates -/
theorem MehIter.unique (hwf : qp.WF) (hm : Mask01 qp) (hsc : StrictlyConvex qp (fun _ _ => arg.r .reg_prim) (arg.r .reg_prim))
    {z z' w w' : Sol K} {ap ad ap' ad' : K} (hz : SolEq qp.dim z z') (hi : InsideZ qp z) (h : MehIter sq qp arg z ap ad w)
    (h' : MehIter sq qp arg z' ap' ad' w') : ap = ap' ∧ ad = ad' ∧ SolEq qp.dim w w' := by
  have hp := proxPt_congr (arg := arg) hz.symm
  obtain ⟨da, aA, dA, h1, h2, d, h3, h4, h5, h6⟩ := h
  obtain ⟨da', aA', dA', h1', h2', d', h3', h4', h5', h6'⟩ := h'
  have ea : SolEq qp.dim da da' := Dir.unique hwf hm hsc hi h1
    (h1'.congr hwf hp hz.symm (SolEq.refl _ _) (fun k j hk hj _ => by rw [hz.lam k j hk hj, hz.t k j hk hj]))
  obtain ⟨rfl, rfl⟩ := StepLen.unique hz ea h2 h2'
  have ed : SolEq qp.dim d d' := by
    by_cases hpc : arg.i .pred_corr = 1
    · obtain ⟨dc, aC, dC, c1, c2, c3, c4⟩ := h6 hpc
      obtain ⟨dc', aC', dC', c1', c2', c3', c4'⟩ := h6' hpc
      have em : muAfter qp z da aA dA = muAfter qp z' da' aA dA := muAfter_congr hz ea _ _
      have em0 : muOf qp z = muOf qp z' := muOf_congr hz
      simp only [← em, ← em0] at c1' c3' c4'
      have ec : SolEq qp.dim dc dc' := Dir.unique hwf hm hsc hi c1
        (c1'.congr hwf hp hz.symm (SolEq.refl _ _)
          (fun k j hk hj _ => by rw [hz.lam k j hk hj, hz.t k j hk hj, ea.lam k j hk hj, ea.t k j hk hj]))
      obtain ⟨rfl, rfl⟩ := StepLen.unique hz ec c2 c2'
      have emc : muAfter qp z dc aC dC = muAfter qp z' dc' aC dC := muAfter_congr hz ec _ _
      rw [← emc] at c3' c4'
      by_cases hcc : arg.i .cond_pred_corr = 1 ∧ muAfter qp z dc aC dC > 2 * muAfter qp z da aA dA
      · exact Dir.unique hwf hm hsc hi (c3 hcc)
          ((c3' hcc).congr hwf hp hz.symm (SolEq.refl _ _) (fun k j hk hj _ => by rw [hz.lam k j hk hj, hz.t k j hk hj]))
      · exact (c4 hcc).trans (ec.trans (c4' hcc).symm)
    · exact (h5 hpc).trans (ea.trans (h5' hpc).symm)
  obtain ⟨rfl, rfl⟩ := StepLen.unique hz ed h3 h3'
  exact ⟨rfl, rfl, Moved.unique hz ed h4 h4'⟩

/-- with separate step lengths and no complementarity targets the ratio test returns the largest steps that keep slacks
and multipliers nonnegative -/
theorem StepLen.max {z d : Sol K} {ap ad : K} (hint : Interior qp z) (hs : arg.i .split_step = 1)
    (hm0 : ∀ k j, k ≤ qp.dim.N → j < nct qp.dim k → qp.m k j = 0) (h : StepLen sq qp arg z d ap ad) :
    (0 ≤ ap ∧ ap ≤ 1 ∧ (∀ k j, k ≤ qp.dim.N → j < nct qp.dim k → 0 ≤ z.t k j + ap * d.t k j) ∧
      ∀ b, b ≤ 1 → (∀ k j, k ≤ qp.dim.N → j < nct qp.dim k → 0 ≤ z.t k j + b * d.t k j) → b ≤ ap) ∧
    (0 ≤ ad ∧ ad ≤ 1 ∧ (∀ k j, k ≤ qp.dim.N → j < nct qp.dim k → 0 ≤ z.lam k j + ad * d.lam k j) ∧
      ∀ b, b ≤ 1 → (∀ k j, k ≤ qp.dim.N → j < nct qp.dim k → 0 ≤ z.lam k j + b * d.lam k j) → b ≤ ad) := by
  obtain ⟨c, n1, v1, s1, z1, m1, rfl, rfl⟩ := h
  have hl : ∀ i, i < c.nc → 0 ≤ c.lam i ∧ 0 ≤ c.t i := by
    intro i hi
    rw [n1] at hi
    obtain ⟨k, j, hk, hj, rfl⟩ := flat_at _ _ _ hi
    obtain ⟨a1, a2, -⟩ := v1 k j hk hj
    rw [a1, a2]
    exact ⟨(hint k j hk hj).1, (hint k j hk hj).2.le⟩
  obtain ⟨m1, m2, -⟩ := computeAlpha_split_max sq c (by rw [s1, if_pos hs]) (z1.mpr hm0) (fun i hi => (hl i hi).1) (fun i hi => (hl i hi).2)
  have hlt : ∀ k j, k ≤ qp.dim.N → j < nct qp.dim k → stOff (nct qp.dim) k + j < c.nc := fun k j hk hj => by rw [n1]; exact stOff_lt hk hj
  have tr : ∀ (x y : Vec K) (u w : ℕ → Vec K) (b : K), (∀ k j, k ≤ qp.dim.N → j < nct qp.dim k → x (stOff (nct qp.dim) k + j) = u k j ∧
      y (stOff (nct qp.dim) k + j) = w k j) → (∀ k j, k ≤ qp.dim.N → j < nct qp.dim k → 0 ≤ u k j + b * w k j) → ∀ i, i < c.nc → 0 ≤ x i + b * y i := by
    intro x y u w b hxy h i hi
    rw [n1] at hi
    obtain ⟨k, j, hk, hj, rfl⟩ := flat_at _ _ _ hi
    obtain ⟨e1, e2⟩ := hxy k j hk hj
    rw [e1, e2]
    exact h k j hk hj
  refine ⟨⟨m1.1, m1.2.1, fun k j hk hj => ?_, fun b hb hbb => m1.2.2.2 b hb (tr c.t c.dt z.t d.t b (fun k j hk hj => ⟨(v1 k j hk hj).2.1, (v1 k j hk hj).2.2.2.1⟩) hbb)⟩,
    ⟨m2.1, m2.2.1, fun k j hk hj => ?_, fun b hb hbb => m2.2.2.2 b hb (tr c.lam c.dlam z.lam d.lam b (fun k j hk hj => ⟨(v1 k j hk hj).1, (v1 k j hk hj).2.2.1⟩) hbb)⟩⟩
  · have := m1.2.2.1 _ (hlt k j hk hj)
    rw [(v1 k j hk hj).2.1, (v1 k j hk hj).2.2.2.1] at this
    exact this
  · have := m2.2.2.1 _ (hlt k j hk hj)
    rw [(v1 k j hk hj).1, (v1 k j hk hj).2.2.1] at this
    exact this

end
end Hpipm
