/-
C81: what success of the tree solver means for the caller's tree QP (near feasibility, near stationarity, complementarity,
suboptimality), the branch without constraints, and the start of the primal heuristic.
-/
import Verif.TreeIpmProps
import Verif.TreeKktEx
import Verif.IpmUser
import Verif.IpmInitBox

namespace Hpipm
open Finset
set_option linter.unusedSectionVars false

section
variable {K : Type*} [Field K] [LinearOrder K] [IsStrictOrderedRing K]

/-- the tree Lagrangian at the point: objective minus gap plus what the stationarity residual contributes -/
theorem tres_lagrangian (t : TreeQp K) (ht : t.TreeOk) (hwf : t.qp.WF) (sol : Sol K) (hl : LamMasked t.qp sol.lam) (res : Res K)
    (ws : ResWs K) (hws : ws.Ok t.qp) :
    (tview t).lagr (ptOf t.qp.dim sol.ux) (multOf t.qp.dim sol) =
      (tresCompute t sol res ws).obj - (tresCompute t sol res ws).dual_gap +
        ∑ k ∈ range (t.qp.dim.N + 1), ∑ i ∈ range (t.qp.dim.nu k + t.qp.dim.nx k + 2 * t.qp.dim.ns k),
          (tresCompute t sol res ws).res_g k i * sol.ux k i := by
  have hv := tresCompute_val t ht hwf sol hl res ws hws
  have hg : (∑ k ∈ range (t.qp.dim.N + 1), ∑ i ∈ range (t.qp.dim.nu k + t.qp.dim.nx k + 2 * t.qp.dim.ns k),
          (tresCompute t sol res ws).res_g k i * sol.ux k i) =
      pairV t.qp.dim (fun k i => tG t sol (lamM t.qp sol k) k i) sol.ux := by
    simp only [pairV]
    apply sum_congr rfl; intro k hk; apply sum_congr rfl; intro i hi
    rw [hv.g k (by have := mem_range.mp hk; omega) i (mem_range.mp hi)]
  have hobj : (tview t).cost (ptOf t.qp.dim sol.ux) = _ := obj_pair t.qp sol.ux
  rw [hg, tres_objective t ht hwf sol hl res ws hws, hv.gap, gap_packed, tlagr_packed, hobj, tG_pair t ht hwf sol (lamM t.qp sol) sol.ux]
  rw [pairE_add_right, pairC_add_right]
  ring

/-- **C81 (approximate gap bound).**  For a convex tree QP and nonnegative multipliers of the present constraints, no feasible
point has an objective below `objective - gap + sum res_g*p`, whatever the residuals of the point at which they were computed. -/
theorem tres_gap_approx (t : TreeQp K) (ht : t.TreeOk) (hwf : t.qp.WF) (hm : Mask01 t.qp) (hc : (tview t).Cvx)
    (sol : Sol K) (hl : LamMasked t.qp sol.lam) (res : Res K) (ws : ResWs K) (hws : ws.Ok t.qp)
    (hlam : ∀ k j, k ≤ t.qp.dim.N → j < 2 * t.qp.dim.nb k + 2 * t.qp.dim.ng k + 2 * t.qp.dim.ns k →
      t.qp.d_mask k j ≠ 0 → 0 ≤ sol.lam k j)
    (p : Pt K) (hf : (tview t).Feas p) :
    (tresCompute t sol res ws).obj - (tresCompute t sol res ws).dual_gap +
      (∑ k ∈ range (t.qp.dim.N + 1), ∑ i ∈ range (t.qp.dim.nu k + t.qp.dim.nx k + 2 * t.qp.dim.ns k),
        (tresCompute t sol res ws).res_g k i * packPt t.qp.dim p k i) ≤ (tview t).cost p := by
  set v := packPt t.qp.dim p with hv
  have hag := packPt_agree t.qp p
  have hcost : (tview t).cost p = (tview t).cost (ptOf t.qp.dim v) := (objective_congr _ _ _ hag).symm
  rw [hcost]
  have hf' := tfeas_congr t hwf _ _ hag (fun e he => (ht.all (e + 1) (by omega) (by omega)).1) hf
  have hst := tres_stationarity t ht hwf sol hl res ws hws (fun k i => v k i - sol.ux k i)
  have e0 : (fun k i => sol.ux k i + (v k i - sol.ux k i)) = v := by funext k i; ring
  rw [e0, tres_lagrangian t ht hwf sol hl res ws hws] at hst
  have hq := hc (ptOf t.qp.dim (fun k i => v k i - sol.ux k i))
  have hlm : ∀ k j, k ≤ t.qp.dim.N → j < 2 * t.qp.dim.nb k + 2 * t.qp.dim.ng k + 2 * t.qp.dim.ns k →
      0 ≤ t.qp.d_mask k j * sol.lam k j := by
    intro k j hk hj
    rcases hm k j hk hj with h | h
    · simp [h]
    · rw [h, one_mul]; exact hlam k j hk hj (by rw [h]; exact one_ne_zero)
  have hle : (tview t).lagr (ptOf t.qp.dim v) (multOf t.qp.dim sol) ≤ (tview t).cost (ptOf t.qp.dim v) := by
    apply tlagr_le _ _ _ hf'
    · intro k j hk hj
      have hj' : j < t.qp.dim.nb k + t.qp.dim.ng k := hj
      show 0 ≤ (view t.qp).lowerMask k j * _
      rw [view_lowerMask t.qp k j hj']; exact hlm k j hk (by omega)
    · intro k j hk hj
      have hj' : j < t.qp.dim.nb k + t.qp.dim.ng k := hj
      show 0 ≤ (view t.qp).upperMask k j * _
      rw [view_upperMask t.qp k j hj']; exact hlm k _ hk (by omega)
    · intro k j hk hj
      have hj' : j < t.qp.dim.ns k := hj
      show 0 ≤ (view t.qp).llsMask k j * _
      rw [view_llsMask t.qp k j hj']; exact hlm k _ hk (by omega)
    · intro k j hk hj
      have hj' : j < t.qp.dim.ns k := hj
      show 0 ≤ (view t.qp).lusMask k j * _
      rw [view_lusMask t.qp k j hj']; exact hlm k _ hk (by omega)
  simp only [mul_sub, sum_sub_distrib] at hst
  linarith

end

section
variable {K : Type*} [Field K] [LinearOrder K] [IsStrictOrderedRing K] (T : TEnv K)

/-- the situation after a successful solve of a tree QP in the relative formulation, with clipping -/
structure TSolved (lf : ℕ) (sol : Sol K) (s : Ipm K) (o : SolveOut K) : Prop where
  tree : T.t.TreeOk
  wf : T.t.qp.WF
  mask : Mask01 T.t.qp
  nc : s.core.nc = stOff (nct T.t.qp.dim) (T.t.qp.dim.N + 1)
  act : ncMask T.t.qp s.core.nc ≠ 0
  rel : T.arg.i .abs_form = 0
  iter : 0 ≤ T.arg.i .iter_max
  init : InitOk T.env
  clip : T.arg.i .t_lam_min = 2
  lam_min : 0 < T.arg.r .lam_min
  t_min : 0 < T.arg.r .t_min
  ran : tipmSolve T lf sol s = some o
  ok : o.status = .SUCCESS

variable {T} {lf : ℕ} {sol : Sol K} {s : Ipm K} {o : SolveOut K}

/-- **C81 (near feasibility).**  A returned success satisfies the dynamics of every edge up to `res_b_max` and every present
inequality of every node up to `res_d_max`. -/
theorem tipm_success_feasible (h : TSolved T lf sol s o) :
    let P := tview T.t
    let p := ptOf T.t.qp.dim (solOf T.t.qp.dim o.s.core).ux
    let eb := T.arg.r .res_b_max
    let ed := T.arg.r .res_d_max
    (∀ e i, e < P.N → i < P.nx (e + 1) → |P.edgeDefect p e i| ≤ eb) ∧
    (∀ k j, k ≤ P.N → j < P.nb k + P.ng k → P.lowerMask k j ≠ 0 → P.lower k j ≤ P.value p k j + P.slackLo p k j + ed) ∧
    (∀ k j, k ≤ P.N → j < P.nb k + P.ng k → P.upperMask k j ≠ 0 → P.value p k j ≤ P.upper k j + P.slackUp p k j + ed) ∧
    (∀ k i, k ≤ P.N → i < P.ns k → P.llsMask k i ≠ 0 → P.lls k i ≤ p.sl k i + ed) ∧
    (∀ k i, k ≤ P.N → i < P.ns k → P.lusMask k i ≠ 0 → P.lus k i ≤ p.su k i + ed) := by
  intro P p eb ed
  obtain ⟨-, hb, hd, -, -, -, hl⟩ := tipm_success T h.tree h.wf h.mask lf sol s o h.nc h.act h.rel h.iter h.ran h.ok freshRes freshWs (freshWs_ok _)
  have hin := tipm_solution_inside T h.mask h.init h.clip h.lam_min h.t_min lf sol s o h.nc h.act h.ran
  have hq := fun k hk => tres_inequalities T.t h.tree h.wf (solOf T.t.qp.dim o.s.core) hl freshRes freshWs (freshWs_ok _) k hk
  simp only at hq
  have hone : ∀ k j, k ≤ T.t.qp.dim.N → j < 2 * T.t.qp.dim.nb k + 2 * T.t.qp.dim.ng k + 2 * T.t.qp.dim.ns k → T.t.qp.d_mask k j ≠ 0 →
      T.t.qp.d_mask k j = 1 := fun k j hk hj hn => (h.mask k j hk hj).resolve_left hn
  refine ⟨fun k i hk hi => ?_, fun k j hk hj hm => ?_, fun k j hk hj hm => ?_, fun k i hk hi hm => ?_, fun k i hk hi hm => ?_⟩
  · have := hb k i hk hi
    rw [tres_dynamics T.t h.tree h.wf _ hl _ _ (freshWs_ok _) k i hk hi] at this
    exact this
  all_goals
    obtain ⟨q1, q2, q3, q4⟩ := hq k hk
    have e1 : P.nb = T.t.qp.dim.nb := rfl
    have e2 : P.ng = T.t.qp.dim.ng := rfl
    have e3 : P.ns = T.t.qp.dim.ns := rfl
  · rw [e1, e2] at hj
    have hj' : j < 2 * T.t.qp.dim.nb k + 2 * T.t.qp.dim.ng k + 2 * T.t.qp.dim.ns k := by omega
    have := hd k j hk hj'
    have hmm : (tview T.t).lowerMask k j = _ := view_lowerMask T.t.qp k j hj
    rw [q1 j hj, hmm, hone k j hk hj' (by rw [← hmm]; exact hm), one_mul] at this
    have ht := (hin k j hk hj').1
    have hle : P.lower k j - P.value p k j - P.slackLo p k j + (solOf T.t.qp.dim o.s.core).t k j ≤ ed := le_trans (le_abs_self _) this
    linarith
  · rw [e1, e2] at hj
    have hj' : T.t.qp.dim.nb k + T.t.qp.dim.ng k + j < 2 * T.t.qp.dim.nb k + 2 * T.t.qp.dim.ng k + 2 * T.t.qp.dim.ns k := by omega
    have := hd k _ hk hj'
    have hmm : (tview T.t).upperMask k j = _ := view_upperMask T.t.qp k j hj
    rw [q2 j hj, hmm, hone k _ hk hj' (by rw [← hmm]; exact hm), one_mul] at this
    have ht := (hin k _ hk hj').1
    have hle : P.value p k j - P.upper k j - P.slackUp p k j +
      (solOf T.t.qp.dim o.s.core).t k (T.t.qp.dim.nb k + T.t.qp.dim.ng k + j) ≤ ed := le_trans (le_abs_self _) this
    linarith
  · rw [e3] at hi
    have hj' : 2 * (T.t.qp.dim.nb k + T.t.qp.dim.ng k) + i < 2 * T.t.qp.dim.nb k + 2 * T.t.qp.dim.ng k + 2 * T.t.qp.dim.ns k := by omega
    have := hd k _ hk hj'
    have hmm : (tview T.t).llsMask k i = _ := view_llsMask T.t.qp k i hi
    rw [q3 i hi, hmm, hone k _ hk hj' (by rw [← hmm]; exact hm), one_mul] at this
    have ht := (hin k _ hk hj').1
    have hle : P.lls k i - p.sl k i + (solOf T.t.qp.dim o.s.core).t k (2 * (T.t.qp.dim.nb k + T.t.qp.dim.ng k) + i) ≤ ed :=
      le_trans (le_abs_self _) this
    linarith
  · rw [e3] at hi
    have hj' : 2 * (T.t.qp.dim.nb k + T.t.qp.dim.ng k) + T.t.qp.dim.ns k + i <
      2 * T.t.qp.dim.nb k + 2 * T.t.qp.dim.ng k + 2 * T.t.qp.dim.ns k := by omega
    have := hd k _ hk hj'
    have hmm : (tview T.t).lusMask k i = _ := view_lusMask T.t.qp k i hi
    rw [q4 i hi, hmm, hone k _ hk hj' (by rw [← hmm]; exact hm), one_mul] at this
    have ht := (hin k _ hk hj').1
    have hle : P.lus k i - p.su k i + (solOf T.t.qp.dim o.s.core).t k (2 * (T.t.qp.dim.nb k + T.t.qp.dim.ng k) + T.t.qp.dim.ns k + i) ≤ ed :=
      le_trans (le_abs_self _) this
    linarith

/-- **C81 (near stationarity).**  Along every direction the Lagrangian of the tree QP at the returned multipliers has first
order change at most `res_g_max` times the sum of the absolute values of the direction. -/
theorem tipm_success_stationary (h : TSolved T lf sol s o) (x : ℕ → Vec K) :
    let P := tview T.t
    let D := T.t.qp.dim
    let z := solOf D o.s.core
    |P.lagr (ptOf D (fun k i => z.ux k i + x k i)) (multOf D z) - P.lagr (ptOf D z.ux) (multOf D z) - P.costQuad (ptOf D x)| ≤
      T.arg.r .res_g_max * P.absSum (ptOf D x) := by
  intro P D z
  obtain ⟨hg, -, -, -, -, -, hl⟩ := tipm_success T h.tree h.wf h.mask lf sol s o h.nc h.act h.rel h.iter h.ran h.ok freshRes freshWs (freshWs_ok _)
  have hst := tres_stationarity T.t h.tree h.wf z hl freshRes freshWs (freshWs_ok _) x
  have e : P.lagr (ptOf D (fun k i => z.ux k i + x k i)) (multOf D z) - P.lagr (ptOf D z.ux) (multOf D z) - P.costQuad (ptOf D x) =
      ∑ k ∈ range (D.N + 1), ∑ i ∈ range (D.nu k + D.nx k + 2 * D.ns k), (tresCompute T.t z freshRes freshWs).res_g k i * x k i := by
    have e1 : P.lagr (ptOf D (fun k i => z.ux k i + x k i)) (multOf D z) = _ := hst
    rw [e1]
    ring
  rw [e]
  refine (abs_pairs_le _ _ _ _ _ hg).trans (le_of_eq ?_)
  rw [absSum_packed]
  rfl

/-- **C81 (complementarity).**  For every present constraint the product of multiplier and slack is within `res_m_max` of its
target `m + tau_min`, and both are positive; the multiplier of a masked constraint is zero. -/
theorem tipm_success_complementary (h : TSolved T lf sol s o) (k j : ℕ) (hk : k ≤ T.t.qp.dim.N)
    (hj : j < 2 * T.t.qp.dim.nb k + 2 * T.t.qp.dim.ng k + 2 * T.t.qp.dim.ns k) :
    let z := solOf T.t.qp.dim o.s.core
    (T.t.qp.d_mask k j ≠ 0 → |z.lam k j * z.t k j - T.t.qp.m k j - T.arg.r .tau_min| ≤ T.arg.r .res_m_max ∧
      0 < z.lam k j ∧ 0 < z.t k j) ∧
    (T.t.qp.d_mask k j = 0 → z.lam k j = 0) := by
  intro z
  obtain ⟨-, -, -, hm, -, -, hl⟩ := tipm_success T h.tree h.wf h.mask lf sol s o h.nc h.act h.rel h.iter h.ran h.ok freshRes freshWs (freshWs_ok _)
  have hin := tipm_solution_inside T h.mask h.init h.clip h.lam_min h.t_min lf sol s o h.nc h.act h.ran k j hk hj
  refine ⟨fun hn => ?_, fun h0 => hin.2.2 h0⟩
  have h1 : T.t.qp.d_mask k j = 1 := (h.mask k j hk hj).resolve_left hn
  have := hm k j hk hj
  rw [tres_complementarity T.t h.tree h.wf h.mask _ hl _ _ (freshWs_ok _) k j hk hj, if_neg hn, h1, mul_one] at this
  exact ⟨this, hin.2.1 h1, hin.1⟩

/-- **C81 (suboptimality).**  If the objective is convex, no feasible point `p` of the tree QP is better than the returned one by
more than the tolerance on the duality gap plus `res_g_max` times the sum of the absolute values of `p`. -/
theorem tipm_success_subopt (h : TSolved T lf sol s o) (hc : (tview T.t).Cvx) (p : Pt K) (hp : (tview T.t).Feas p) :
    (tview T.t).cost (ptOf T.t.qp.dim (solOf T.t.qp.dim o.s.core).ux) - T.arg.r .dual_gap_max -
      T.arg.r .res_g_max * (tview T.t).absSum p ≤ (tview T.t).cost p := by
  obtain ⟨hg, -, -, -, hgap, -, hl⟩ := tipm_success T h.tree h.wf h.mask lf sol s o h.nc h.act h.rel h.iter h.ran h.ok freshRes freshWs (freshWs_ok _)
  have hin := tipm_solution_inside T h.mask h.init h.clip h.lam_min h.t_min lf sol s o h.nc h.act h.ran
  have hb := tres_gap_approx T.t h.tree h.wf h.mask hc (solOf T.t.qp.dim o.s.core) hl freshRes freshWs (freshWs_ok _)
    (fun k j hk hj hn => ((hin k j hk hj).2.1 ((h.mask k j hk hj).resolve_left hn)).le) p hp
  rw [tres_objective T.t h.tree h.wf _ hl _ _ (freshWs_ok _)] at hb
  have hs := abs_pairs_le _ _ _ (packPt T.t.qp.dim p) _ hg
  rw [absSum_packed, absSum_congr _ _ _ (packPt_agree T.t.qp p)] at hs
  have := neg_le_of_abs_le hs
  have e : (tview T.t).absSum p = (view T.t.qp).absSum p := rfl
  rw [e]
  linarith

/-! ### no constraints -/

/-- optimality only depends on the components of the problem -/
theorem tisOpt_congr (t : TreeQp K) (ht : t.TreeOk) (hni : NoIneq t.qp) (v w : ℕ → Vec K)
    (h : ∀ k i, k ≤ t.qp.dim.N → i < t.qp.dim.nu k + t.qp.dim.nx k → v k i = w k i) (hw : (tview t).IsOpt (ptOf t.qp.dim w)) :
    (tview t).IsOpt (ptOf t.qp.dim v) := by
  have hcost : (tview t).cost (ptOf t.qp.dim v) = (tview t).cost (ptOf t.qp.dim w) := by
    have e1 : (tview t).cost (ptOf t.qp.dim v) = _ := obj_pair t.qp v
    have e2 : (tview t).cost (ptOf t.qp.dim w) = _ := obj_pair t.qp w
    rw [e1, e2]
    have hn : ∀ k i, k ≤ t.qp.dim.N → i < nvt t.qp.dim k → i < t.qp.dim.nu k + t.qp.dim.nx k := by
      intro k i hk hi
      have := (hni k hk).2.2
      unfold nvt at hi
      omega
    congr 1
    · congr 1
      refine pairV_congr _ _ _ _ _ fun k i hk hi => ?_
      have hi' := hn k i hk hi
      rw [h k i hk hi']
      congr 1
      unfold hessMul
      rw [if_pos hi', if_pos hi']
      simp only [hmul]
      exact sum_congr rfl fun j hj => by rw [h k j hk (mem_range.mp hj)]
    · exact pairV_congr _ _ _ _ _ fun k i hk hi => by rw [h k i hk (hn k i hk hi)]
  refine ⟨⟨fun e i he hi => ?_, ?_, ?_, ?_, ?_⟩, fun p' hp' => by rw [hcost]; exact hw.2 p' hp'⟩
  · have he' : e < t.qp.dim.N := he
    have hi' : i < t.qp.dim.nx (e + 1) := hi
    have := hw.1.dyn e i he hi
    rw [← this, tedge_packed t v e i hi', tedge_packed t w e i hi']
    have hd := (ht.all (e + 1) (by omega) (by omega)).1
    unfold tlinB
    congr 2
    · simp only [linB, freeQp, zero_mul, sum_const_zero]
      rw [h (e + 1) (t.qp.dim.nu (e + 1) + i) (by omega) (by omega)]
    · exact sum_congr rfl fun j hj => by rw [h _ j (by omega) (mem_range.mp hj)]
  all_goals
    intro k j hk hj
    exfalso
    obtain ⟨a, b, c⟩ := hni k hk
  · have hj' : j < t.qp.dim.nb k + t.qp.dim.ng k := hj
    omega
  · have hj' : j < t.qp.dim.nb k + t.qp.dim.ng k := hj
    omega
  · have hj' : j < t.qp.dim.ns k := hj
    omega
  · have hj' : j < t.qp.dim.ns k := hj
    omega

variable (T)

/-- **C81** A tree QP without inequality constraints and with strictly convex node costs: the solver reports success after zero
iterations and returns the global minimiser, whatever the previous contents of solution and workspace. -/
theorem tipm_unconstrained (hsq : ∀ x, 0 < x → T.sq x * T.sq x = x) (ht : T.t.TreeOk) (hni : NoIneq T.t.qp)
    (hsc : StrictlyConvex T.t.qp (fun _ _ => 0) 0) (lf : ℕ) (sol : Sol K) (s : Ipm K) (hnc : s.core.nc = 0) :
    ∃ o, tipmSolve T lf sol s = some o ∧ o.iter = 0 ∧ o.status = .SUCCESS ∧
      (tview T.t).IsOpt (ptOf T.t.qp.dim (solOf T.t.qp.dim o.s.core).ux) := by
  unfold tipmSolve
  simp only
  rw [if_pos (Or.inl hnc)]
  refine ⟨_, rfl, rfl, rfl, ?_⟩
  set st : KktSt K := { (prologue T.env sol s).kkt with
      ux := (solOf T.t.qp.dim (prologue T.env sol s).core).ux
      pi := (solOf T.t.qp.dim (prologue T.env sol s).core).pi
      lam := (solOf T.t.qp.dim (prologue T.env sol s).core).lam
      t := (solOf T.t.qp.dim (prologue T.env sol s).core).t } with hst
  have hv : (tsolveUnc T (prologue T.env sol s)).s.core.v = stFlat (nvt T.t.qp.dim) (tunconstr T.sq T.t st).ux (T.t.qp.dim.N + 1) := by
    unfold tsolveUnc
    simp only
    split
    · split <;> rfl
    · rfl
  have hB : TBOk T.t st.BAbt := fun e i a _ _ _ => rfl
  refine tisOpt_congr T.t ht hni _ (tunconstr T.sq T.t st).ux (fun k i hk hi => ?_) (tree_unconstr_optimal T.sq hsq T.t ht hni hsc st hB).1
  show (tsolveUnc T (prologue T.env sol s)).s.core.v (stOff (nvt T.t.qp.dim) k + i) = _
  rw [hv]
  exact stFlat_at _ _ _ _ _ (by omega) (by show i < T.t.qp.dim.nu k + T.t.qp.dim.nx k + _; omega)

end

/-! ### a run -/

def exTIpQp : OcpQp ℚ := { exTQp with
  d_mask := fun _ _ => 1
  RSQrq := fun k i j => if i = 0 ∧ j = 0 then (if k = 0 then 2 else 1) else 0 }

/-- the root with one bounded input and two kids -/
def exTIpTree : TreeQp ℚ := { exTree with qp := exTIpQp }

def exTEnv : TEnv ℚ where
  sq := fun x => if x = 25 then 5 else if x = 9 then 3 else if x = 4 then 2 else 1
  t := exTIpTree
  arg := exIpArg
  lqf := 0
  statMax := 5
  lq := fun _ _ st => st

def exTIpm : Ipm ℚ := { exIpIpm with core := { exIpCore with nv := 3, ne := 2, nc := 2 } }


theorem exTE_run : ((tipmSolve exTEnv 5 exIpSol exTIpm).map fun o => (o.iter, o.status)) = some (1, .SUCCESS) := by decide +kernel

theorem exTIp_ok : exTIpTree.TreeOk := ⟨exTree_ok.1, exTree_ok.2, exTree_ok.3⟩

theorem exTIp_wf : exTIpTree.qp.WF := ⟨exTree_wf.1, exTree_wf.2⟩

theorem exTIp_mask : Mask01 exTIpTree.qp := fun _ _ _ _ => Or.inr rfl

theorem exT_out : ∃ o, tipmSolve exTEnv 5 exIpSol exTIpm = some o ∧ o.iter = 1 ∧ o.status = .SUCCESS := by
  obtain ⟨o, h, e⟩ := Option.map_eq_some_iff.mp exTE_run
  exact ⟨o, h, (Prod.mk.inj e).1, (Prod.mk.inj e).2⟩

/-- a run that succeeds after one step -/
theorem exT_solved : ∃ o, TSolved exTEnv 5 exIpSol exTIpm o := by
  obtain ⟨o, h, -, hs⟩ := exT_out
  exact ⟨o, exTIp_ok, exTIp_wf, exTIp_mask, by decide +kernel, by decide +kernel, rfl, by decide,
    Or.inl ⟨by decide, by decide +kernel, by decide +kernel, by decide +kernel⟩, rfl, by decide +kernel, by decide +kernel, h, hs⟩

/-- near feasibility on the run: both edges -/
example : ∃ o, tipmSolve exTEnv 5 exIpSol exTIpm = some o ∧
    |(tview exTIpTree).edgeDefect (ptOf exTDim (solOf exTDim o.s.core).ux) 0 0| ≤ 1 / 10 ∧
    |(tview exTIpTree).edgeDefect (ptOf exTDim (solOf exTDim o.s.core).ux) 1 0| ≤ 1 / 10 := by
  obtain ⟨o, h⟩ := exT_solved
  exact ⟨o, h.ran, (tipm_success_feasible h).1 0 0 (by decide) (by decide), (tipm_success_feasible h).1 1 0 (by decide) (by decide)⟩

/-- complementarity on the run -/
example : ∃ o, tipmSolve exTEnv 5 exIpSol exTIpm = some o ∧ 0 < (solOf exTDim o.s.core).lam 0 0 := by
  obtain ⟨o, h⟩ := exT_solved
  exact ⟨o, h.ran, ((tipm_success_complementary h 0 0 (by decide) (by decide)).1 (by decide +kernel)).2.1⟩

/-- stationarity on the run -/
example (x : ℕ → Vec ℚ) : ∃ o, tipmSolve exTEnv 5 exIpSol exTIpm = some o ∧
    let P := tview exTIpTree
    let z := solOf exTDim o.s.core
    |P.lagr (ptOf exTDim (fun k i => z.ux k i + x k i)) (multOf exTDim z) - P.lagr (ptOf exTDim z.ux) (multOf exTDim z) -
      P.costQuad (ptOf exTDim x)| ≤ 1 / 10 * P.absSum (ptOf exTDim x) := by
  obtain ⟨o, h⟩ := exT_solved
  exact ⟨o, h.ran, tipm_success_stationary h x⟩

theorem exTIp_cvx : (tview exTIpTree).Cvx := by
  intro p
  have e : (tview exTIpTree).costQuad p = p.u 0 0 ^ 2 + 1 / 2 * p.x 1 0 ^ 2 + 1 / 2 * p.x 2 0 ^ 2 := by
    have hN : (tview exTIpTree).N = 2 := rfl
    simp only [TUser.costQuad, UserQp.quad, hN, sum_range_succ, sum_range_zero]
    have r0 : (view exTIpQp).R 0 0 0 = 2 := by decide +kernel
    have q1 : (view exTIpQp).Q 1 0 0 = 1 := by decide +kernel
    have q2 : (view exTIpQp).Q 2 0 0 = 1 := by decide +kernel
    have hv : (tview exTIpTree).toUserQp.stageQuad p = (view exTIpQp).stageQuad p := rfl
    rw [hv]
    have n0 : (view exTIpQp).nu 0 = 1 ∧ (view exTIpQp).nx 0 = 0 ∧ (view exTIpQp).ns 0 = 0 := by decide
    have n1 : (view exTIpQp).nu 1 = 0 ∧ (view exTIpQp).nx 1 = 1 ∧ (view exTIpQp).ns 1 = 0 := by decide
    have n2 : (view exTIpQp).nu 2 = 0 ∧ (view exTIpQp).nx 2 = 1 ∧ (view exTIpQp).ns 2 = 0 := by decide
    simp only [UserQp.stageQuad, n0, n1, n2, sum_range_succ, sum_range_zero, UserQp.sym, r0, q1, q2, le_refl, if_true]
    ring
  rw [e]; positivity

/-- suboptimality on the run -/
example : ∃ o, tipmSolve exTEnv 5 exIpSol exTIpm = some o ∧ ∀ p, (tview exTIpTree).Feas p →
    (tview exTIpTree).cost (ptOf exTDim (solOf exTDim o.s.core).ux) - 20 - 1 / 10 * (tview exTIpTree).absSum p ≤
      (tview exTIpTree).cost p := by
  obtain ⟨o, h⟩ := exT_solved
  exact ⟨o, h.ran, fun p hp => tipm_success_subopt h exTIp_cvx p hp⟩

/-- the iteration count, the statistics, the status and the interior on the run -/
example : ∃ o, tipmSolve exTEnv 5 exIpSol exTIpm = some o ∧ (o.iter : ℤ) ≤ max 5 0 ∧ o.s.oob = false ∧
    (o.status = .MAX_ITER ↔ (o.iter : ℤ) = 5) ∧ 0 < (solOf exTDim o.s.core).t 0 1 := by
  obtain ⟨o, h⟩ := exT_solved
  exact ⟨o, h.ran, tipm_iter_le exTEnv 5 _ _ o h.ran, tipm_stat_inside exTEnv 5 _ _ rfl o h.ran,
    (tipm_status exTEnv h.mask 5 _ _ o h.nc h.act h.ran).1,
    (tipm_solution_inside exTEnv h.mask h.init h.clip h.lam_min h.t_min 5 _ _ o h.nc h.act h.ran 0 1 (by decide) (by decide)).1⟩

example (sol : Sol ℚ) : ∃ o, tipmSolve exTEnv 5 sol exTIpm = some o := tipm_terminates exTEnv sol exTIpm 5 (by decide)

/-- the starting point on the example -/
example (sol : Sol ℚ) : 0 < (tinitVar exTEnv.sq exTIpQp exIpArg sol).t 0 1 ∧
    (tinitVar exTEnv.sq exTIpQp exIpArg sol).lam 0 1 * (tinitVar exTEnv.sq exTIpQp exIpArg sol).t 0 1 = 25 := by
  obtain ⟨h1, -, h3⟩ := tinitVar_interior exTEnv.sq exTIpQp exIpArg sol (by decide) (by decide +kernel) (by decide +kernel)
    (by decide +kernel) 0 1 (by decide) (by decide)
  exact ⟨h1, h3⟩

/-- primal-dual warm start on the example -/
example (sol : Sol ℚ) : (tinitVar exTEnv.sq exTIpQp { exIpArg with i := fun _ => 2 } sol).t 0 1 = max (1 / 10) (sol.t 0 1) :=
  ((tinitVar_warm exTEnv.sq exTIpQp { exIpArg with i := fun _ => 2 } sol (by decide)).1 0 1 (by decide) (by decide)).1

/-- the absolute formulation: the same problem -/
def exTAbsEnv : TEnv ℚ := { exTEnv with arg := { exIpArg with i := fun f => match f with | .abs_form => 1 | f => exIpArg.i f } }

theorem exTAbs_run : ((tipmSolve exTAbsEnv 5 exIpSol exTIpm).map fun o => (o.iter, o.status)) = some (1, .SUCCESS) := by decide +kernel

/-- the mean of the products on that run -/
example : ∃ o, tipmSolve exTAbsEnv 5 exIpSol exTIpm = some o ∧
    |compSum exTIpQp (solOf exTDim o.s.core) / (compCount exTIpQp : ℚ) - exIpArg.r .tau_min| ≤ 8 := by
  obtain ⟨o, h, e⟩ := Option.map_eq_some_iff.mp exTAbs_run
  exact ⟨o, h, (tipm_status exTAbsEnv exTIp_mask 5 _ _ o (by decide +kernel) (by decide +kernel) h).2.2.2 (by decide) (by decide)
    (Prod.mk.inj e).2⟩

/-- the unconstrained branch on an example -/
noncomputable example : ∀ (arg : IpmArg ℝ) (sol : Sol ℝ) (s : Ipm ℝ), s.core.nc = 0 →
    ∃ o, tipmSolve ⟨Real.sqrt, exUTree, arg, 0, 5, fun _ _ st => st⟩ 0 sol s = some o ∧ o.iter = 0 ∧ o.status = .SUCCESS ∧
      (tview exUTree).IsOpt (ptOf exUTree.qp.dim (solOf exUTree.qp.dim o.s.core).ux) := fun arg sol s h =>
  tipm_unconstrained (T := ⟨Real.sqrt, exUTree, arg, 0, 5, fun _ _ st => st⟩) exK_sqrt exUTree_ok (fun _ _ => ⟨rfl, rfl, rfl⟩) exUQp_strict
    0 sol s h

/-! ### the middle of a narrow box -/

/-- primal warm start and the heuristic for primal feasibility -/
def exTBoxArg : IpmArg ℚ := { exIpArg with i := fun f => match f with | .t0_init => 2 | .warm_start => 1 | _ => 0 }

/-- the warm start point is inside the box -/
def exTBoxSol : Sol ℚ := { exIpSol with ux := fun _ _ => 51 / 50 }

/-- **C81 (negative).**  A two-sided bound `1 ≤ u ≤ 21/20` and a warm start point inside it: the tree solver starts outside the box
at `-1/40`, since the middle of the box is computed with the wrong sign; the OCP solver starts at the middle `41/40`. -/
theorem tinitVar_box_wrong : exBoxQp.d 0 0 = 1 ∧ -exBoxQp.d 0 1 = 21 / 20 ∧ exBoxQp.d_mask 0 0 = 1 ∧ exBoxQp.d_mask 0 1 = 1 ∧
    exBoxQp.idxb 0 0 = 0 ∧ exTBoxSol.ux 0 0 = 51 / 50 ∧
    (tinitVar (fun x => x) exBoxQp exTBoxArg exTBoxSol).ux 0 0 = -1 / 40 ∧
    (initVar (fun x => x) exBoxQp exTBoxArg exTBoxSol).ux 0 0 = 41 / 40 := by decide +kernel

end Hpipm
