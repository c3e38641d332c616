/-
How the residuals change along a Newton step: the residuals of OCP_QP_RES_COMPUTE after a move of the iterate by step lengths
`a` (primal) and `b` (dual) along a direction that solves the Newton system.
-/
import Verif.KktConv
import Verif.KktSolve
import Verif.CondEquiv

namespace Hpipm
open Finset
set_option linter.unusedSectionVars false

section
variable {K : Type*} [Field K] [LinearOrder K] [IsStrictOrderedRing K]

/-- two points agree in all entries that exist -/
structure SameIn (D : QpDim) (z z' : Sol K) : Prop where
  ux : ∀ k i, k ≤ D.N → i < nvt D k → z.ux k i = z'.ux k i
  pi : ∀ k i, k < D.N → i < D.nx (k + 1) → z.pi k i = z'.pi k i
  lam : ∀ k j, k ≤ D.N → j < nct D k → z.lam k j = z'.lam k j
  t : ∀ k j, k ≤ D.N → j < nct D k → z.t k j = z'.t k j

theorem SameIn.refl (D : QpDim) (z : Sol K) : SameIn D z z := ⟨fun _ _ _ _ => rfl, fun _ _ _ _ => rfl, fun _ _ _ _ => rfl, fun _ _ _ _ => rfl⟩
theorem SameIn.symm {D : QpDim} {z z' : Sol K} (h : SameIn D z z') : SameIn D z' z :=
  ⟨fun k i a b => (h.ux k i a b).symm, fun k i a b => (h.pi k i a b).symm, fun k i a b => (h.lam k i a b).symm, fun k i a b => (h.t k i a b).symm⟩
theorem SameIn.trans {D : QpDim} {z z' z'' : Sol K} (h : SameIn D z z') (h' : SameIn D z' z'') : SameIn D z z'' :=
  ⟨fun k i a b => (h.ux k i a b).trans (h'.ux k i a b), fun k i a b => (h.pi k i a b).trans (h'.pi k i a b),
   fun k i a b => (h.lam k i a b).trans (h'.lam k i a b), fun k i a b => (h.t k i a b).trans (h'.t k i a b)⟩

/-- the dual part of the gradient of the Lagrangian -/
def vGd (qp : OcpQp K) (pi : ℕ → Vec K) (lm : Vec K) (k i : ℕ) : K :=
  let nv := qp.dim.nu k + qp.dim.nx k
  let n := qp.dim.nb k + qp.dim.ng k
  let ns := qp.dim.ns k
  if i < nv then
    - (if 0 < k ∧ qp.dim.nu k ≤ i then pi (k - 1) (i - qp.dim.nu k) else 0)
      + cvalT qp k (fun j => lm (n + j) - lm j) i
      + (if k < qp.dim.N then ∑ j ∈ range (qp.dim.nx (k + 1)), qp.BAbt k i j * pi k j else 0)
  else
    - lm (2 * n + (i - nv))
      - (if i - nv < ns then slkT qp k lm (i - nv) else slkT qp k (fun j => lm (n + j)) (i - nv - ns))

theorem vG_split (qp : OcpQp K) (z : Sol K) (lm : Vec K) (k i : ℕ) :
    vG qp z lm k i = hessMul qp z.ux k i + qp.rqz k i + vGd qp z.pi lm k i := by
  unfold vG vGd hessMul
  dsimp only
  split_ifs <;> ring

theorem slkT_smul (qp : OcpQp K) (k : ℕ) (c : K) (v : Vec K) (s : ℕ) : slkT qp k (fun j => c * v j) s = c * slkT qp k v s := by
  unfold slkT
  rw [mul_sum]
  exact sum_congr rfl (fun j _ => by split_ifs <;> ring)

theorem cvalT_smul (qp : OcpQp K) (k : ℕ) (c : K) (v : Vec K) (s : ℕ) : cvalT qp k (fun j => c * v j) s = c * cvalT qp k v s := by
  unfold cvalT
  rw [mul_add, mul_sum, mul_sum]
  congr 1
  · exact sum_congr rfl (fun j _ => by split_ifs <;> ring)
  · exact sum_congr rfl (fun j _ => by ring)

theorem slkT_add' (qp : OcpQp K) (k : ℕ) (v w : Vec K) (s : ℕ) : slkT qp k (fun j => v j + w j) s = slkT qp k v s + slkT qp k w s := by
  unfold slkT
  rw [← sum_add_distrib]
  exact sum_congr rfl (fun j _ => by split_ifs <;> ring)

theorem vGd_move (qp : OcpQp K) (pi dpi : ℕ → Vec K) (lm dlm : Vec K) (c : K) (k i : ℕ) :
    vGd qp (fun k i => pi k i + c * dpi k i) (fun j => lm j + c * dlm j) k i = vGd qp pi lm k i + c * vGd qp dpi dlm k i := by
  unfold vGd
  dsimp only
  have e1 : (fun j => lm (qp.dim.nb k + qp.dim.ng k + j) + c * dlm (qp.dim.nb k + qp.dim.ng k + j) - (lm j + c * dlm j)) =
      fun j => (fun j => lm (qp.dim.nb k + qp.dim.ng k + j) - lm j) j + (fun j => c * (fun j => (dlm (qp.dim.nb k + qp.dim.ng k + j) - dlm j)) j) j := by
    funext j; ring
  have e2 : (∑ j ∈ range (qp.dim.nx (k + 1)), qp.BAbt k i j * (pi k j + c * dpi k j)) =
      (∑ j ∈ range (qp.dim.nx (k + 1)), qp.BAbt k i j * pi k j) + c * ∑ j ∈ range (qp.dim.nx (k + 1)), qp.BAbt k i j * dpi k j := by
    rw [mul_sum, ← sum_add_distrib]; exact sum_congr rfl (fun j _ => by ring)
  have e3 : slkT qp k (fun j => lm j + c * dlm j) (i - (qp.dim.nu k + qp.dim.nx k)) = slkT qp k lm (i - (qp.dim.nu k + qp.dim.nx k)) + c * slkT qp k dlm (i - (qp.dim.nu k + qp.dim.nx k)) := by
    rw [slkT_add' qp k lm (fun j => c * dlm j), slkT_smul]
  have e4 : ∀ s, slkT qp k (fun j => lm (qp.dim.nb k + qp.dim.ng k + j) + c * dlm (qp.dim.nb k + qp.dim.ng k + j)) s =
      slkT qp k (fun j => lm (qp.dim.nb k + qp.dim.ng k + j)) s + c * slkT qp k (fun j => dlm (qp.dim.nb k + qp.dim.ng k + j)) s := by
    intro s
    rw [slkT_add' qp k (fun j => lm (qp.dim.nb k + qp.dim.ng k + j)) (fun j => c * dlm (qp.dim.nb k + qp.dim.ng k + j)), slkT_smul]
  rw [e1, cvalT_add, cvalT_smul, e2, e3, e4]
  split_ifs <;> ring

theorem vGd_congr (qp : OcpQp K) (pi pi' : ℕ → Vec K) (lm lm' : Vec K) (k i : ℕ) (hk : k ≤ qp.dim.N) (hi : i < nvt qp.dim k)
    (hp : ∀ k i, k < qp.dim.N → i < qp.dim.nx (k + 1) → pi k i = pi' k i) (hl : ∀ j, j < nct qp.dim k → lm j = lm' j) :
    vGd qp pi lm k i = vGd qp pi' lm' k i := by
  unfold nct at hl
  unfold nvt at hi
  unfold vGd
  dsimp only
  by_cases h : i < qp.dim.nu k + qp.dim.nx k
  · rw [if_pos h, if_pos h]
    have e1 : (if 0 < k ∧ qp.dim.nu k ≤ i then pi (k - 1) (i - qp.dim.nu k) else 0) =
        if 0 < k ∧ qp.dim.nu k ≤ i then pi' (k - 1) (i - qp.dim.nu k) else 0 := by
      by_cases h2 : 0 < k ∧ qp.dim.nu k ≤ i
      · rw [if_pos h2, if_pos h2, hp (k - 1) (i - qp.dim.nu k) (by omega) (by rw [Nat.sub_add_cancel h2.1]; omega)]
      · rw [if_neg h2, if_neg h2]
    have e2 := cvalT_congr qp k (fun j => lm (qp.dim.nb k + qp.dim.ng k + j) - lm j) (fun j => lm' (qp.dim.nb k + qp.dim.ng k + j) - lm' j) i
      (fun j hj => by rw [hl _ (by omega), hl j (by omega)])
    have e3 : (if k < qp.dim.N then ∑ j ∈ range (qp.dim.nx (k + 1)), qp.BAbt k i j * pi k j else 0) =
        if k < qp.dim.N then ∑ j ∈ range (qp.dim.nx (k + 1)), qp.BAbt k i j * pi' k j else 0 := by
      by_cases h3 : k < qp.dim.N
      · rw [if_pos h3, if_pos h3]
        exact sum_congr rfl (fun j hj => by rw [hp k j h3 (mem_range.mp hj)])
      · rw [if_neg h3, if_neg h3]
    rw [e1, e2, e3]
  · rw [if_neg h, if_neg h, hl _ (by omega)]
    congr 1
    split_ifs
    · exact slkT_congr qp k _ _ _ (fun j hj _ _ => hl j (by omega))
    · exact slkT_congr qp k _ _ _ (fun j hj _ _ => hl _ (by omega))

theorem hessMul_congr (qp : OcpQp K) (u w : ℕ → Vec K) (k i : ℕ) (hi : i < nvt qp.dim k) (h : ∀ i, i < nvt qp.dim k → u k i = w k i) :
    hessMul qp u k i = hessMul qp w k i := by
  unfold nvt at h hi
  unfold hessMul
  split_ifs
  · unfold hmul
    exact sum_congr rfl (fun j hj => by rw [h j (by have := mem_range.mp hj; omega)])
  · rw [h i hi]

theorem linB_congr (qp : OcpQp K) (u w : ℕ → Vec K) (k i : ℕ) (hk : k < qp.dim.N) (hi : i < qp.dim.nx (k + 1))
    (h : ∀ k i, k ≤ qp.dim.N → i < nvt qp.dim k → u k i = w k i) : linB qp u k i = linB qp w k i := by
  unfold nvt at h
  unfold linB
  rw [h (k + 1) _ (by omega) (by omega)]
  congr 1
  exact sum_congr rfl (fun j hj => by rw [h k j (by omega) (by have := mem_range.mp hj; omega)])

/-- residuals only depend on the entries that exist -/
theorem res_same (qp : OcpQp K) (hwf : qp.WF) {z z' : Sol K} (hz : SameIn qp.dim z z') (res res' : Res K) (ws ws' : ResWs K)
    (hws : ws.Ok qp) (hws' : ws'.Ok qp) :
    (∀ k i, k ≤ qp.dim.N → i < nvt qp.dim k → (resCompute qp z res ws).res_g k i = (resCompute qp z' res' ws').res_g k i) ∧
    (∀ k i, k < qp.dim.N → i < qp.dim.nx (k + 1) → (resCompute qp z res ws).res_b k i = (resCompute qp z' res' ws').res_b k i) ∧
    (∀ k j, k ≤ qp.dim.N → j < nct qp.dim k → (resCompute qp z res ws).res_d k j = (resCompute qp z' res' ws').res_d k j) ∧
    (∀ k j, k ≤ qp.dim.N → j < nct qp.dim k → (resCompute qp z res ws).res_m k j = (resCompute qp z' res' ws').res_m k j) := by
  have v := (resCompute_val qp hwf z res ws hws).1
  have v' := (resCompute_val qp hwf z' res' ws' hws').1
  refine ⟨fun k i hk hi => ?_, fun k i hk hi => ?_, fun k j hk hj => ?_, fun k j hk hj => ?_⟩
  · rw [(v k hk).1.g i hi, (v' k hk).1.g i hi, vG_split, vG_split,
      hessMul_congr qp z.ux z'.ux k i hi (fun i hi => hz.ux k i hk hi),
      vGd_congr qp z.pi z'.pi _ (lamM qp z' k) k i hk hi hz.pi (fun j hj => by unfold lamM; rw [hz.lam k j hk hj])]
  · rw [(v k (le_of_lt hk)).1.b hk i hi, (v' k (le_of_lt hk)).1.b hk i hi, vB_lin, vB_lin, linB_congr qp _ _ k i hk hi hz.ux]
  · rw [(v k hk).1.d j hj, (v' k hk).1.d j hj, vD_lin, vD_lin, hz.t k j hk hj,
      linD_congr (N := qp.dim.N) ⟨hwf.1, hwf.2⟩ hk (fun i hi => hz.ux k i hk hi) j hj]
  · rw [(v k hk).2 j hj, (v' k hk).2 j hj]
    unfold vM lamM
    rw [hz.t k j hk hj, hz.lam k j hk hj]

/-- the iterate after a move with step lengths `a` (primal) and `b` (dual) -/
def Sol.move (z step : Sol K) (a b : K) : Sol K where
  ux := fun k i => z.ux k i + a * step.ux k i
  pi := fun k i => z.pi k i + b * step.pi k i
  lam := fun k j => z.lam k j + b * step.lam k j
  t := fun k j => z.t k j + a * step.t k j

/-- the diagonal shift of a regularised Newton system, for all primal variables -/
def shiftOf (qp : OcpQp K) (dr : ℕ → ℕ → K) (reg : K) (k i : ℕ) : K := if i < qp.dim.nu k + qp.dim.nx k then dr k i else reg

/-- masked-out constraints have no multiplier step -/
theorem newton_masked (qp : OcpQp K) (sol : Sol K) (dr : ℕ → ℕ → K) (reg : K) (g b d m : ℕ → Vec K) (s : Sol K)
    (h : NewtonStep (withRhs qp g b d m) sol dr reg s) (k j : ℕ) (hk : k ≤ qp.dim.N) (hj : j < nct qp.dim k)
    (hl : sol.lam k j = 0) (hm : m k j = 0) (hp : sol.t k j ≠ 0) : s.lam k j = 0 := by
  have h3 : m k j + sol.lam k j * s.t k j + s.lam k j * sol.t k j = 0 := h.m k j hk hj
  rw [hl, hm, zero_mul, zero_add, zero_add] at h3
  exact (mul_eq_zero.mp h3).resolve_right hp

/-- **Residuals along a Newton step.**  Let `r` be the residuals at `z0`, `step` a solution of the Newton system for the residuals
`r` (with any right-hand side `m` for the complementarity rows), and `z1` the point `z0` moved by `a` along the primal and `b` along
the dual part of the step.  Then the dynamics and inequality residuals shrink by exactly `1 - a`, and the stationarity residual is
`1 - b` times the old one, up to the curvature of the mismatch `a - b` and the regularisation. -/
theorem newton_move (qp : OcpQp K) (hwf : qp.WF) (hm : Mask01 qp) (z0 z1 step : Sol K) (dr : ℕ → ℕ → K) (reg : K) (a b : K)
    (res res1 : Res K) (ws ws1 : ResWs K) (hws : ws.Ok qp) (hws1 : ws1.Ok qp) (m : ℕ → Vec K)
    (hmask : ∀ k j, k ≤ qp.dim.N → j < nct qp.dim k → qp.d_mask k j = 0 → z0.lam k j = 0 ∧ m k j = 0)
    (hpos : ∀ k j, k ≤ qp.dim.N → j < nct qp.dim k → z0.t k j ≠ 0)
    (h : NewtonStep (withRhs qp (resCompute qp z0 res ws).res_g (resCompute qp z0 res ws).res_b (resCompute qp z0 res ws).res_d m) z0 dr reg step)
    (h1 : SameIn qp.dim z1 (z0.move step a b)) :
    let r := resCompute qp z0 res ws
    let r1 := resCompute qp z1 res1 ws1
    (∀ k i, k ≤ qp.dim.N → i < qp.dim.nu k + qp.dim.nx k + 2 * qp.dim.ns k → r1.res_g k i =
      (1 - b) * r.res_g k i + (a - b) * hessMul qp step.ux k i - b * (shiftOf qp dr reg k i * step.ux k i)) ∧
    (∀ k i, k < qp.dim.N → i < qp.dim.nx (k + 1) → r1.res_b k i = (1 - a) * r.res_b k i) ∧
    (∀ k j, k ≤ qp.dim.N → j < 2 * qp.dim.nb k + 2 * qp.dim.ng k + 2 * qp.dim.ns k → r1.res_d k j = (1 - a) * r.res_d k j) ∧
    (∀ k j, k ≤ qp.dim.N → j < 2 * qp.dim.nb k + 2 * qp.dim.ng k + 2 * qp.dim.ns k → a = b →
      r1.res_m k j = r.res_m k j - a * m k j * qp.d_mask k j + a ^ 2 * (qp.d_mask k j * (step.lam k j * step.t k j))) := by
  intro r r1
  have v := (resCompute_val qp hwf z0 res ws hws).1
  have v1 := (resCompute_val qp hwf (z0.move step a b) res1 ws1 hws1).1
  obtain ⟨s1, s2, s3, s4⟩ := res_same qp hwf h1 res1 res1 ws1 ws1 hws1 hws1
  have hdl : ∀ k j, k ≤ qp.dim.N → j < nct qp.dim k → qp.d_mask k j * step.lam k j = step.lam k j := by
    intro k j hk hj
    rcases hm k j hk hj with h0 | h0
    · obtain ⟨e1, e2⟩ := hmask k j hk hj h0
      rw [newton_masked qp z0 dr reg _ _ _ m step h k j hk hj e1 e2 (hpos k j hk hj), mul_zero]
    · rw [h0, one_mul]
  have hg : ∀ k i, k ≤ qp.dim.N → i < nvt qp.dim k → hessMul qp step.ux k i + r.res_g k i + vGd qp step.pi (step.lam k) k i =
      - (shiftOf qp dr reg k i * step.ux k i) := by
    intro k i hk hi
    have e := vG_split (withRhs qp r.res_g r.res_b r.res_d m) step (step.lam k) k i
    have e0 : hessMul qp step.ux k i + r.res_g k i + vGd qp step.pi (step.lam k) k i = vG (withRhs qp r.res_g r.res_b r.res_d m) step (step.lam k) k i := e.symm
    rw [e0]
    unfold shiftOf
    by_cases hi1 : i < qp.dim.nu k + qp.dim.nx k
    · rw [if_pos hi1]
      rw [h.g k i hk hi1]; ring
    · rw [if_neg hi1]
      unfold nvt at hi
      have e2 : vG (withRhs qp r.res_g r.res_b r.res_d m) step (step.lam k) k (qp.dim.nu k + qp.dim.nx k + (i - (qp.dim.nu k + qp.dim.nx k)))
          = - reg * step.ux k (qp.dim.nu k + qp.dim.nx k + (i - (qp.dim.nu k + qp.dim.nx k))) :=
        h.gs k (i - (qp.dim.nu k + qp.dim.nx k)) hk (by show _ < 2 * qp.dim.ns k; omega)
      rw [show qp.dim.nu k + qp.dim.nx k + (i - (qp.dim.nu k + qp.dim.nx k)) = i by omega] at e2
      rw [e2]; ring
  refine ⟨fun k i hk hi => ?_, fun k i hk hi => ?_, fun k j hk hj => ?_, fun k j hk hj hab => ?_⟩
  · rw [s1 k i hk hi, (v1 k hk).1.g i hi, vG_split]
    have hrg := (v k hk).1.g i hi
    rw [vG_split] at hrg
    have hu : hessMul qp (z0.move step a b).ux k i = hessMul qp z0.ux k i + a * hessMul qp step.ux k i := by
      show hessMul qp (fun k i => z0.ux k i + (fun k i => a * step.ux k i) k i) k i = _
      rw [hessMul_add, hessMul_smul]
    have hd : vGd qp (z0.move step a b).pi (lamM qp (z0.move step a b) k) k i =
        vGd qp z0.pi (lamM qp z0 k) k i + b * vGd qp step.pi (step.lam k) k i := by
      rw [← vGd_move]
      refine vGd_congr qp _ _ _ _ k i hk hi (fun _ _ _ _ => rfl) (fun j hj => ?_)
      show qp.d_mask k j * (z0.lam k j + b * step.lam k j) = qp.d_mask k j * z0.lam k j + b * step.lam k j
      linear_combination b * hdl k j hk hj
    rw [hu, hd]
    have hrg' : r.res_g k i = hessMul qp z0.ux k i + qp.rqz k i + vGd qp z0.pi (lamM qp z0 k) k i := hrg
    linear_combination b * hg k i hk hi - hrg'
  · have hb : r.res_b k i + linB qp step.ux k i = 0 := by
      have e := h.b k i hk hi
      rw [vB_lin] at e
      exact e
    rw [s2 k i hk hi, (v1 k (le_of_lt hk)).1.b hk i hi, vB_lin]
    have hrb := (v k (le_of_lt hk)).1.b hk i hi
    rw [vB_lin] at hrb
    have hu : linB qp (z0.move step a b).ux k i = linB qp z0.ux k i + a * linB qp step.ux k i := by
      show linB qp (fun k i => z0.ux k i + (fun k i => a * step.ux k i) k i) k i = _
      rw [linB_add, linB_smul]
    rw [hu]
    have hrb' : r.res_b k i = qp.b k i + linB qp z0.ux k i := hrb
    linear_combination a * hb - hrb'
  · have hd : r.res_d k j + step.t k j + linD qp step.ux k j = 0 := by
      have e := h.d k j hk hj
      rw [vD_lin] at e
      exact e
    rw [s3 k j hk hj, (v1 k hk).1.d j hj, vD_lin]
    have hrd := (v k hk).1.d j hj
    rw [vD_lin] at hrd
    have hu : linD qp (z0.move step a b).ux k j = linD qp z0.ux k j + a * linD qp step.ux k j := by
      show linD qp (fun k i => z0.ux k i + (fun k i => a * step.ux k i) k i) k j = _
      rw [linD_add, linD_smul]
    rw [hu]
    have hrd' : r.res_d k j = qp.d_mask k j * (qp.d k j + z0.t k j + linD qp z0.ux k j) := hrd
    show qp.d_mask k j * (qp.d k j + (z0.t k j + a * step.t k j) + (linD qp z0.ux k j + a * linD qp step.ux k j)) = (1 - a) * r.res_d k j
    rcases hm k j hk hj with h0 | h0
    · rw [hrd', h0]; ring
    · rw [h0] at hrd' ⊢
      linear_combination a * hd - hrd'
  · have hmm : m k j + z0.lam k j * step.t k j + step.lam k j * z0.t k j = 0 := h.m k j hk hj
    rw [s4 k j hk hj, (v1 k hk).2 j hj]
    have hrm' : r.res_m k j = vM qp z0 k j := (v k hk).2 j hj
    rw [hrm']
    subst hab
    unfold vM lamM
    show qp.d_mask k j * (qp.d_mask k j * (z0.lam k j + a * step.lam k j) * (z0.t k j + a * step.t k j) - qp.m k j) = _
    rcases hm k j hk hj with h0 | h0
    · rw [h0]; ring
    · rw [h0]
      linear_combination a * hmm

end
end Hpipm
