/-
C79: the residual routines of the tree QP compute the KKT residuals of the tree-structured QP.
-/
import Verif.TreeRes
import Verif.TreeProps

namespace Hpipm
open Finset
set_option linter.unusedSectionVars false
variable {K : Type*} [Field K] [LinearOrder K] [IsStrictOrderedRing K]

/-- linear part of the dynamics of an edge, packed form -/
def tlinB (t : TreeQp K) (v : ℕ → Vec K) (e i : ℕ) : K :=
  linB (freeQp t.qp) v e i
    + ∑ j ∈ range (t.qp.dim.nu (t.dad (e + 1)) + t.qp.dim.nx (t.dad (e + 1))), t.qp.BAbt e j i * v (t.dad (e + 1)) j

theorem tlinB_add (t : TreeQp K) (v w : ℕ → Vec K) (k i : ℕ) :
    tlinB t (fun k i => v k i + w k i) k i = tlinB t v k i + tlinB t w k i := by
  simp only [tlinB, linB_add, mul_add, sum_add_distrib]; ring

theorem tB_lin (t : TreeQp K) (sol : Sol K) (e i : ℕ) : tB t sol e i = t.qp.b e i + tlinB t sol.ux e i := by
  simp only [tB, tlinB, linB, freeQp, zero_mul, sum_const_zero]; ring

theorem freeQp_wf (qp : OcpQp K) (h : qp.WF) : (freeQp qp).WF := ⟨h.1, h.2⟩

theorem tG_pair (t : TreeQp K) (ht : t.TreeOk) (hwf : t.qp.WF) (sol : Sol K) (lm : ℕ → Vec K) (h : ℕ → Vec K) :
    pairV t.qp.dim (fun k i => tG t sol (lm k) k i) h =
    pairV t.qp.dim (fun k i => hessMul t.qp sol.ux k i + t.qp.rqz k i) h
    + pairE t.qp.dim sol.pi (tlinB t h) + pairC t.qp.dim lm (linD t.qp h) := by
  have e0 : pairV t.qp.dim (fun k i => vG (freeQp t.qp) sol (lm k) k i) h =
      pairV t.qp.dim (fun k i => hessMul t.qp sol.ux k i + t.qp.rqz k i) h
      + pairE t.qp.dim sol.pi (linB (freeQp t.qp) h) + pairC t.qp.dim lm (linD t.qp h) :=
    vG_pair (freeQp t.qp) (freeQp_wf t.qp hwf) sol lm h
  have et : tlinB t h = fun e i => linB (freeQp t.qp) h e i
    + ∑ j ∈ range (t.qp.dim.nu (t.dad (e + 1)) + t.qp.dim.nx (t.dad (e + 1))), t.qp.BAbt e j i * h (t.dad (e + 1)) j := rfl
  simp only [tG, et]
  rw [pairV_add_left, pairE_add_right, e0]
  suffices e1 : pairV t.qp.dim (fun k i => if i < t.qp.dim.nu k + t.qp.dim.nx k then
        ∑ jj ∈ range (t.nkids k), ∑ j ∈ range (t.qp.dim.nx (t.kids k jj)), t.qp.BAbt (t.kids k jj - 1) i j * sol.pi (t.kids k jj - 1) j
      else 0) h = pairE t.qp.dim sol.pi (fun e i =>
        ∑ j ∈ range (t.qp.dim.nu (t.dad (e + 1)) + t.qp.dim.nx (t.dad (e + 1))), t.qp.BAbt e j i * h (t.dad (e + 1)) j) by
    rw [e1]; ring
  simp only [pairV, pairE]
  have hs := sum_kids t ht (fun k e => ∑ i ∈ range (t.qp.dim.nu k + t.qp.dim.nx k),
    (∑ j ∈ range (t.qp.dim.nx (e + 1)), t.qp.BAbt e i j * sol.pi e j) * h k i)
  trans (∑ k ∈ range (t.qp.dim.N + 1), ∑ jj ∈ range (t.nkids k), ∑ i ∈ range (t.qp.dim.nu k + t.qp.dim.nx k),
    (∑ j ∈ range (t.qp.dim.nx (t.kids k jj - 1 + 1)), t.qp.BAbt (t.kids k jj - 1) i j * sol.pi (t.kids k jj - 1) j) * h k i)
  · apply sum_congr rfl
    intro k hk
    rw [sum_comm]
    simp only [nvt]
    rw [sum_range_add _ (t.qp.dim.nu k + t.qp.dim.nx k)]
    have z : ∑ s ∈ range (2 * t.qp.dim.ns k), (if t.qp.dim.nu k + t.qp.dim.nx k + s < t.qp.dim.nu k + t.qp.dim.nx k then
        ∑ jj ∈ range (t.nkids k), ∑ j ∈ range (t.qp.dim.nx (t.kids k jj)),
          t.qp.BAbt (t.kids k jj - 1) (t.qp.dim.nu k + t.qp.dim.nx k + s) j * sol.pi (t.kids k jj - 1) j
      else 0) * h k (t.qp.dim.nu k + t.qp.dim.nx k + s) = 0 := by
      apply sum_eq_zero; intro s _
      rw [if_neg (by omega), zero_mul]
    rw [z, add_zero]
    apply sum_congr rfl
    intro i hi
    rw [if_pos (mem_range.mp hi), sum_mul]
    apply sum_congr rfl
    intro jj hjj
    obtain ⟨h1, _, _⟩ := ht.kid k jj (by have := mem_range.mp hk; omega) (mem_range.mp hjj)
    rw [show t.kids k jj - 1 + 1 = t.kids k jj by omega]
  · rw [hs]
    apply sum_congr rfl
    intro e _
    simp only [sum_mul, mul_sum]
    rw [sum_comm]
    apply sum_congr rfl; intro i _; apply sum_congr rfl; intro j _; ring

/-! ### the tree Lagrangian in packed form -/

theorem tedge_packed (t : TreeQp K) (v : ℕ → Vec K) (e i : ℕ) (hi : i < t.qp.dim.nx (e + 1)) :
    (tview t).edgeDefect (ptOf t.qp.dim v) e i = t.qp.b e i + tlinB t v e i := by
  have hb : (tview t).b e i = t.qp.b e i := view_b t.qp e i hi
  simp only [TUser.edgeDefect, tlinB, linB, freeQp, zero_mul, sum_const_zero]
  rw [hb, sum_range_add _ (t.qp.dim.nu (t.dad (e + 1)))]
  simp only [tview, ptOf, view]
  ring

theorem tlagr_packed (t : TreeQp K) (sol : Sol K) (v : ℕ → Vec K) :
    (tview t).lagr (ptOf t.qp.dim v) (multOf t.qp.dim sol) =
    1 / 2 * pairV t.qp.dim (hessMul t.qp v) v + pairV t.qp.dim t.qp.rqz v
    + pairE t.qp.dim sol.pi (fun k i => t.qp.b k i + tlinB t v k i)
    + pairC t.qp.dim (lamM t.qp sol) (fun k j => t.qp.d k j + linD t.qp v k j) := by
  have h := lagr_packed t.qp sol v
  have e1 : (tview t).lagr (ptOf t.qp.dim v) (multOf t.qp.dim sol) =
      (view t.qp).lagrangian (ptOf t.qp.dim v) (multOf t.qp.dim sol)
      - (∑ k ∈ range t.qp.dim.N, ∑ i ∈ range (t.qp.dim.nx (k + 1)), sol.pi k i * (view t.qp).dynDefect (ptOf t.qp.dim v) k i)
      + ∑ e ∈ range t.qp.dim.N, ∑ i ∈ range (t.qp.dim.nx (e + 1)), sol.pi e i * (tview t).edgeDefect (ptOf t.qp.dim v) e i := by
    have a : ∀ o x y c : K, o + y + c = o + x + c - x + y := by intros; ring
    exact a _ _ _ _
  have e2 : (∑ k ∈ range t.qp.dim.N, ∑ i ∈ range (t.qp.dim.nx (k + 1)), sol.pi k i * (view t.qp).dynDefect (ptOf t.qp.dim v) k i)
      = pairE t.qp.dim sol.pi (fun k i => t.qp.b k i + linB t.qp v k i) :=
    sum_congr rfl fun k _ => sum_congr rfl fun i hi => by
      rw [dyn_packed t.qp k ⟨v, sol.pi, sol.lam, sol.t⟩ i (mem_range.mp hi), vB_lin]
  have e3 : (∑ e ∈ range t.qp.dim.N, ∑ i ∈ range (t.qp.dim.nx (e + 1)), sol.pi e i * (tview t).edgeDefect (ptOf t.qp.dim v) e i)
      = pairE t.qp.dim sol.pi (fun k i => t.qp.b k i + tlinB t v k i) :=
    sum_congr rfl fun k _ => sum_congr rfl fun i hi => by rw [tedge_packed t v k i (mem_range.mp hi)]
  rw [e1, h, e2, e3]; ring

/-! ### C79 -/

/-- **C79 (stationarity).**  The returned `res_g` is the gradient of the Lagrangian of the tree QP. -/
theorem tres_stationarity (t : TreeQp K) (ht : t.TreeOk) (hwf : t.qp.WF) (sol : Sol K)
    (hl : LamMasked t.qp sol.lam) (res : Res K) (ws : ResWs K) (hws : ws.Ok t.qp) (h : ℕ → Vec K) :
    (tview t).lagr (ptOf t.qp.dim (fun k i => sol.ux k i + h k i)) (multOf t.qp.dim sol) =
    (tview t).lagr (ptOf t.qp.dim sol.ux) (multOf t.qp.dim sol)
      + (∑ k ∈ range (t.qp.dim.N + 1), ∑ i ∈ range (t.qp.dim.nu k + t.qp.dim.nx k + 2 * t.qp.dim.ns k),
          (tresCompute t sol res ws).res_g k i * h k i)
      + (tview t).costQuad (ptOf t.qp.dim h) := by
  have hg : (∑ k ∈ range (t.qp.dim.N + 1), ∑ i ∈ range (t.qp.dim.nu k + t.qp.dim.nx k + 2 * t.qp.dim.ns k),
          (tresCompute t sol res ws).res_g k i * h k i) =
      pairV t.qp.dim (fun k i => tG t sol (lamM t.qp sol k) k i) h := by
    simp only [pairV]
    apply sum_congr rfl; intro k hk; apply sum_congr rfl; intro i hi
    rw [(tresCompute_val t ht hwf sol hl res ws hws).g k (by have := mem_range.mp hk; omega) i (mem_range.mp hi)]
  have hq : (tview t).costQuad (ptOf t.qp.dim h) = 1 / 2 * pairV t.qp.dim (hessMul t.qp h) h := quad_pair t.qp h
  rw [hg, tlagr_packed, tlagr_packed, hq, tG_pair t ht hwf sol (lamM t.qp sol) h]
  have e1 : (hessMul t.qp fun k i => sol.ux k i + h k i) = fun k i => hessMul t.qp sol.ux k i + hessMul t.qp h k i := by
    funext k i; rw [hessMul_add]
  rw [e1]
  simp only [tlinB_add, linD_add]
  rw [pairV_add_right, pairV_add_right, pairV_add_left, pairV_add_left, pairV_add_left, hess_symm t.qp h sol.ux]
  have e2 : pairE t.qp.dim sol.pi (fun k i => t.qp.b k i + (tlinB t sol.ux k i + tlinB t h k i)) =
      pairE t.qp.dim sol.pi (fun k i => t.qp.b k i + tlinB t sol.ux k i) + pairE t.qp.dim sol.pi (tlinB t h) := by
    rw [← pairE_add_right]; congr 1; funext k i; ring
  have e3 : pairC t.qp.dim (lamM t.qp sol) (fun k j => t.qp.d k j + (linD t.qp sol.ux k j + linD t.qp h k j)) =
      pairC t.qp.dim (lamM t.qp sol) (fun k j => t.qp.d k j + linD t.qp sol.ux k j) + pairC t.qp.dim (lamM t.qp sol) (linD t.qp h) := by
    rw [← pairC_add_right]; congr 1; funext k i; ring
  rw [e2, e3]
  ring

/-- **C79 (dynamics).**  `res_b` of edge `e` is the defect of the dynamics from its dad to node `e+1`. -/
theorem tres_dynamics (t : TreeQp K) (ht : t.TreeOk) (hwf : t.qp.WF) (sol : Sol K)
    (hl : LamMasked t.qp sol.lam) (res : Res K) (ws : ResWs K) (hws : ws.Ok t.qp)
    (e i : ℕ) (he : e < t.qp.dim.N) (hi : i < t.qp.dim.nx (e + 1)) :
    (tresCompute t sol res ws).res_b e i = (tview t).edgeDefect (ptOf t.qp.dim sol.ux) e i := by
  rw [(tresCompute_val t ht hwf sol hl res ws hws).b e he i hi, tedge_packed t sol.ux e i hi, tB_lin]

/-- **C79 (inequalities).** -/
theorem tres_inequalities (t : TreeQp K) (ht : t.TreeOk) (hwf : t.qp.WF) (sol : Sol K)
    (hl : LamMasked t.qp sol.lam) (res : Res K) (ws : ResWs K) (hws : ws.Ok t.qp) (k : ℕ) (hk : k ≤ t.qp.dim.N) :
    let P := (tview t).toUserQp
    let p := ptOf t.qp.dim sol.ux
    let r := (tresCompute t sol res ws).res_d k
    let n := t.qp.dim.nb k + t.qp.dim.ng k
    (∀ j, j < n → r j = P.lowerMask k j * (P.lower k j - P.value p k j - P.slackLo p k j + sol.t k j)) ∧
    (∀ j, j < n → r (n + j) = P.upperMask k j * (P.value p k j - P.upper k j - P.slackUp p k j + sol.t k (n + j))) ∧
    (∀ s, s < t.qp.dim.ns k → r (2 * n + s) = P.llsMask k s * (P.lls k s - p.sl k s + sol.t k (2 * n + s))) ∧
    (∀ s, s < t.qp.dim.ns k → r (2 * n + t.qp.dim.ns k + s) =
      P.lusMask k s * (P.lus k s - p.su k s + sol.t k (2 * n + t.qp.dim.ns k + s))) := by
  have h := res_inequalities t.qp hwf sol res ws hws k hk
  have hv := tresCompute_val t ht hwf sol hl res ws hws
  have hr : ∀ j, j < nct t.qp.dim k → (tresCompute t sol res ws).res_d k j = (resCompute t.qp sol res ws).res_d k j := by
    intro j hj
    rw [hv.d k hk j hj, ((resCompute_val t.qp hwf sol res ws hws).1 k hk).1.d j hj]
  unfold nct at hr
  refine ⟨fun j hj => ?_, fun j hj => ?_, fun s hs => ?_, fun s hs => ?_⟩
  · rw [hr j (by omega)]; exact h.1 j hj
  · rw [hr _ (by omega)]; exact h.2.1 j hj
  · rw [hr _ (by omega)]; exact h.2.2.1 s hs
  · rw [hr _ (by omega)]; exact h.2.2.2 s hs

/-- **C79 (complementarity).** -/
theorem tres_complementarity (t : TreeQp K) (ht : t.TreeOk) (hwf : t.qp.WF) (hm : Mask01 t.qp) (sol : Sol K)
    (hl : LamMasked t.qp sol.lam) (res : Res K) (ws : ResWs K) (hws : ws.Ok t.qp)
    (k j : ℕ) (hk : k ≤ t.qp.dim.N) (hj : j < 2 * t.qp.dim.nb k + 2 * t.qp.dim.ng k + 2 * t.qp.dim.ns k) :
    (tresCompute t sol res ws).res_m k j =
      if t.qp.d_mask k j = 0 then 0 else sol.lam k j * sol.t k j - t.qp.m k j := by
  rw [(tresCompute_val t ht hwf sol hl res ws hws).m k hk j hj]
  simp only [vM, lamM]
  rcases hm k j hk hj with h | h
  · simp [h]
  · simp [h]

/-- **C79 (objective).** -/
theorem tres_objective (t : TreeQp K) (ht : t.TreeOk) (hwf : t.qp.WF) (sol : Sol K)
    (hl : LamMasked t.qp sol.lam) (res : Res K) (ws : ResWs K) (hws : ws.Ok t.qp) :
    (tresCompute t sol res ws).obj = (tview t).cost (ptOf t.qp.dim sol.ux) := by
  rw [(tresCompute_val t ht hwf sol hl res ws hws).obj]
  exact (obj_packed t.qp sol).symm

/-- **C79 (gap identity).** -/
theorem tres_dual_gap (t : TreeQp K) (ht : t.TreeOk) (hwf : t.qp.WF) (sol : Sol K)
    (hl : LamMasked t.qp sol.lam) (res : Res K) (ws : ResWs K) (hws : ws.Ok t.qp) :
    let r := tresCompute t sol res ws
    r.dual_gap = pairV t.qp.dim r.res_g sol.ux - pairE t.qp.dim sol.pi r.res_b
      - pairC t.qp.dim sol.lam r.res_d + pairC t.qp.dim sol.lam sol.t := by
  intro r
  have hv := tresCompute_val t ht hwf sol hl res ws hws
  have e1 : pairV t.qp.dim r.res_g sol.ux = pairV t.qp.dim (fun k i => tG t sol (lamM t.qp sol k) k i) sol.ux :=
    pairV_congr _ _ _ _ _ (fun k i hk hi => by rw [hv.g k hk i hi])
  have e2 : pairE t.qp.dim sol.pi r.res_b = pairE t.qp.dim sol.pi (fun k i => t.qp.b k i + tlinB t sol.ux k i) :=
    pairE_congr _ _ _ _ _ (fun k i hk hi => by rw [hv.b k hk i hi, tB_lin])
  have e3 : pairC t.qp.dim sol.lam r.res_d =
      pairC t.qp.dim (lamM t.qp sol) (fun k j => t.qp.d k j + linD t.qp sol.ux k j + sol.t k j) :=
    pairC_congr _ _ _ _ _ (fun k j hk hj => by rw [hv.d k hk j hj, vD_lin, lamM]; ring)
  have e4 : pairC t.qp.dim sol.lam sol.t = pairC t.qp.dim (lamM t.qp sol) sol.t :=
    pairC_congr _ _ _ _ _ (fun k j hk hj => by rw [lamM, hl k j hk hj])
  have hgap : r.dual_gap = _ := hv.gap
  rw [hgap, gap_packed, e1, e2, e3, e4, tG_pair t ht hwf sol (lamM t.qp sol) sol.ux, pairE_add_right, pairC_add_right,
    pairC_add_right]
  ring

/-- the QP with the coupling replaced by fixed states: auxiliary, for the constraints of the nodes only -/
def pinQp (qp : OcpQp K) (p : Pt K) : OcpQp K :=
  { qp with
    BAbt := fun _ _ _ => 0
    b := fun e i => p.x (e + 1) i }

theorem tfeas_congr (t : TreeQp K) (hwf : t.qp.WF) (p p' : Pt K) (h : Agree (view t.qp) p p')
    (hd : ∀ e, e < t.qp.dim.N → t.dad (e + 1) < e + 1) (hf : (tview t).Feas p') : (tview t).Feas p := by
  have hpin : (view (pinQp t.qp p')).Feasible p' := by
    refine ⟨fun k i hk hi => ?_, fun k j => hf.lo k j, fun k j => hf.up k j, fun k j => hf.ls k j, fun k j => hf.us k j⟩
    have hi' : i < (pinQp t.qp p').dim.nx (k + 1) := hi
    simp only [UserQp.dynDefect]
    rw [view_b _ k i hi']
    have z1 : ∑ j ∈ range ((view (pinQp t.qp p')).nx k), (view (pinQp t.qp p')).A k i j * p'.x k j = 0 :=
      sum_eq_zero fun j hj => by rw [view_A _ k i j hi' (mem_range.mp hj)]; simp [pinQp]
    have z2 : ∑ j ∈ range ((view (pinQp t.qp p')).nu k), (view (pinQp t.qp p')).B k i j * p'.u k j = 0 :=
      sum_eq_zero fun j hj => by rw [view_B _ k i j hi' (mem_range.mp hj)]; simp [pinQp]
    rw [z1, z2]
    simp [pinQp]
  have hq := feasible_congr (pinQp t.qp p') ⟨hwf.1, hwf.2⟩ p p' ⟨h.u, h.x, h.sl, h.su⟩ hpin
  refine ⟨fun e i he hi => ?_, fun k j => hq.lo k j, fun k j => hq.up k j, fun k j => hq.ls k j, fun k j => hq.us k j⟩
  rw [← hf.dyn e i he hi]
  simp only [TUser.edgeDefect]
  rw [h.x (e + 1) i hi]
  congr 2
  congr 1
  · exact sum_congr rfl (fun j hj => by rw [h.x _ j (mem_range.mp hj)])
  · exact sum_congr rfl (fun j hj => by rw [h.u _ j (mem_range.mp hj)])

theorem tlagr_le (P : TUser K) (p : Pt K) (w : Mult K) (hf : P.Feas p)
    (h1 : ∀ k j, k ≤ P.N → j < P.nb k + P.ng k → 0 ≤ P.lowerMask k j * w.lo k j)
    (h2 : ∀ k j, k ≤ P.N → j < P.nb k + P.ng k → 0 ≤ P.upperMask k j * w.up k j)
    (h3 : ∀ k i, k ≤ P.N → i < P.ns k → 0 ≤ P.llsMask k i * w.ls k i)
    (h4 : ∀ k i, k ≤ P.N → i < P.ns k → 0 ≤ P.lusMask k i * w.us k i) :
    P.lagr p w ≤ P.cost p := by
  have hpin : UserQp.Feasible { P.toUserQp with
      A := fun _ _ _ => 0
      B := fun _ _ _ => 0
      b := fun e i => p.x (e + 1) i } p := by
    refine ⟨fun k i _ _ => ?_, fun k j => hf.lo k j, fun k j => hf.up k j, fun k j => hf.ls k j, fun k j => hf.us k j⟩
    simp [UserQp.dynDefect]
  have hle := lagrangian_le _ p w hpin h1 h2 h3 h4
  have z1 : ∑ e ∈ range P.N, ∑ i ∈ range (P.nx (e + 1)), w.pi e i * P.edgeDefect p e i = 0 :=
    sum_eq_zero fun e he => sum_eq_zero fun i hi => by rw [hf.dyn e i (mem_range.mp he) (mem_range.mp hi), mul_zero]
  have z2 : ∑ e ∈ range P.N, ∑ i ∈ range (P.nx (e + 1)), w.pi e i *
      UserQp.dynDefect { P.toUserQp with
        A := fun _ _ _ => 0
        B := fun _ _ _ => 0
        b := fun e i => p.x (e + 1) i } p e i = 0 :=
    sum_eq_zero fun e he => sum_eq_zero fun i hi => by
      rw [hpin.dyn e i (mem_range.mp he) (mem_range.mp hi), mul_zero]
  unfold UserQp.lagrangian at hle
  dsimp only at hle
  rw [z2] at hle
  unfold TUser.lagr
  rw [z1]
  exact hle

/-- **C79 (gap bound).**  For a convex tree QP and a point with zero stationarity residual and nonnegative
multipliers, objective minus reported duality gap is a lower bound of the objective over all feasible points. -/
theorem tres_gap_bound (t : TreeQp K) (ht : t.TreeOk) (hwf : t.qp.WF) (hm : Mask01 t.qp) (hc : (tview t).Cvx)
    (sol : Sol K) (hl : LamMasked t.qp sol.lam) (res : Res K) (ws : ResWs K) (hws : ws.Ok t.qp)
    (hg : ∀ k i, k ≤ t.qp.dim.N → i < t.qp.dim.nu k + t.qp.dim.nx k + 2 * t.qp.dim.ns k →
      (tresCompute t sol res ws).res_g k i = 0)
    (hlam : ∀ k j, k ≤ t.qp.dim.N → j < 2 * t.qp.dim.nb k + 2 * t.qp.dim.ng k + 2 * t.qp.dim.ns k →
      t.qp.d_mask k j ≠ 0 → 0 ≤ sol.lam k j)
    (p : Pt K) (hf : (tview t).Feas p) :
    (tresCompute t sol res ws).obj - (tresCompute t sol res ws).dual_gap ≤ (tview t).cost p := by
  set v := packPt t.qp.dim p with hv
  have hag := packPt_agree t.qp p
  have hcost : (tview t).cost p = (tview t).cost (ptOf t.qp.dim v) := (objective_congr _ _ _ hag).symm
  rw [hcost]
  have hf' := tfeas_congr t hwf _ _ hag (fun e he => (ht.all (e + 1) (by omega) (by omega)).1) hf
  have hst := tres_stationarity t ht hwf sol hl res ws hws (fun k i => v k i - sol.ux k i)
  have e0 : (fun k i => sol.ux k i + (v k i - sol.ux k i)) = v := by funext k i; ring
  rw [e0] at hst
  have ez : (∑ k ∈ range (t.qp.dim.N + 1), ∑ i ∈ range (t.qp.dim.nu k + t.qp.dim.nx k + 2 * t.qp.dim.ns k),
          (tresCompute t sol res ws).res_g k i * (v k i - sol.ux k i)) = 0 := by
    apply sum_eq_zero; intro k hk; apply sum_eq_zero; intro i hi
    rw [hg k i (by have := mem_range.mp hk; omega) (mem_range.mp hi), zero_mul]
  rw [ez, add_zero] at hst
  have hq := hc (ptOf t.qp.dim (fun k i => v k i - sol.ux k i))
  have hlm : ∀ k j, k ≤ t.qp.dim.N → j < 2 * t.qp.dim.nb k + 2 * t.qp.dim.ng k + 2 * t.qp.dim.ns k →
      0 ≤ t.qp.d_mask k j * sol.lam k j := by
    intro k j hk hj
    rcases hm k j hk hj with h | h
    · simp [h]
    · rw [h, one_mul]; exact hlam k j hk hj (by rw [h]; exact one_ne_zero)
  have hle : (tview t).lagr (ptOf t.qp.dim v) (multOf t.qp.dim sol) ≤ (tview t).cost (ptOf t.qp.dim v) := by
    apply tlagr_le _ _ _ hf'
    · intro k j hk hj
      have hj' : j < t.qp.dim.nb k + t.qp.dim.ng k := hj
      show 0 ≤ (view t.qp).lowerMask k j * _
      rw [view_lowerMask t.qp k j hj']; exact hlm k j hk (by omega)
    · intro k j hk hj
      have hj' : j < t.qp.dim.nb k + t.qp.dim.ng k := hj
      show 0 ≤ (view t.qp).upperMask k j * _
      rw [view_upperMask t.qp k j hj']; exact hlm k _ hk (by omega)
    · intro k j hk hj
      have hj' : j < t.qp.dim.ns k := hj
      show 0 ≤ (view t.qp).llsMask k j * _
      rw [view_llsMask t.qp k j hj']; exact hlm k _ hk (by omega)
    · intro k j hk hj
      have hj' : j < t.qp.dim.ns k := hj
      show 0 ≤ (view t.qp).lusMask k j * _
      rw [view_lusMask t.qp k j hj']; exact hlm k _ hk (by omega)
  have hL : (tview t).lagr (ptOf t.qp.dim sol.ux) (multOf t.qp.dim sol) =
      (tresCompute t sol res ws).obj - (tresCompute t sol res ws).dual_gap := by
    have hval := tresCompute_val t ht hwf sol hl res ws hws
    have hobj : (tview t).cost (ptOf t.qp.dim sol.ux) = _ := obj_pair t.qp sol.ux
    rw [tres_objective t ht hwf sol hl res ws hws, hval.gap, gap_packed, tlagr_packed, hobj]
    have hz : pairV t.qp.dim (fun k i => tG t sol (lamM t.qp sol k) k i) sol.ux = 0 := by
      apply sum_eq_zero; intro k hk; apply sum_eq_zero; intro i hi
      have hk' : k ≤ t.qp.dim.N := by have := mem_range.mp hk; omega
      show tG t sol (lamM t.qp sol k) k i * sol.ux k i = 0
      rw [← hval.g k hk' i (mem_range.mp hi), hg k i hk' (mem_range.mp hi), zero_mul]
    rw [tG_pair t ht hwf sol (lamM t.qp sol) sol.ux] at hz
    rw [pairE_add_right, pairC_add_right]
    linear_combination hz
  rw [← hL]
  linarith

/-- **C79 (optimality).**  A point with zero residuals, nonnegative multipliers and slacks is a global optimum of the
convex tree QP. -/
theorem tres_zero_optimal (t : TreeQp K) (ht : t.TreeOk) (hwf : t.qp.WF) (hm : Mask01 t.qp) (hc : (tview t).Cvx)
    (sol : Sol K) (hl : LamMasked t.qp sol.lam) (res : Res K) (ws : ResWs K) (hws : ws.Ok t.qp)
    (hg : ∀ k i, k ≤ t.qp.dim.N → i < t.qp.dim.nu k + t.qp.dim.nx k + 2 * t.qp.dim.ns k →
      (tresCompute t sol res ws).res_g k i = 0)
    (hb : ∀ k i, k < t.qp.dim.N → i < t.qp.dim.nx (k + 1) → (tresCompute t sol res ws).res_b k i = 0)
    (hd : ∀ k j, k ≤ t.qp.dim.N → j < 2 * t.qp.dim.nb k + 2 * t.qp.dim.ng k + 2 * t.qp.dim.ns k →
      (tresCompute t sol res ws).res_d k j = 0)
    (hcm : ∀ k j, k ≤ t.qp.dim.N → j < 2 * t.qp.dim.nb k + 2 * t.qp.dim.ng k + 2 * t.qp.dim.ns k →
      (tresCompute t sol res ws).res_m k j = 0 ∧ t.qp.m k j = 0)
    (hlam : ∀ k j, k ≤ t.qp.dim.N → j < 2 * t.qp.dim.nb k + 2 * t.qp.dim.ng k + 2 * t.qp.dim.ns k →
      t.qp.d_mask k j ≠ 0 → 0 ≤ sol.lam k j ∧ 0 ≤ sol.t k j) :
    (tview t).IsOpt (ptOf t.qp.dim sol.ux) := by
  refine ⟨⟨fun k i hk hi => ?_, fun k j hk hj hmj => ?_, fun k j hk hj hmj => ?_, fun k s hk hs hms => ?_,
    fun k s hk hs hms => ?_⟩, fun p hp => ?_⟩
  · rw [← tres_dynamics t ht hwf sol hl res ws hws k i hk hi]; exact hb k i hk hi
  · have hj' : j < t.qp.dim.nb k + t.qp.dim.ng k := hj
    have h := (tres_inequalities t ht hwf sol hl res ws hws k hk).1 j hj
    rw [hd k j hk (by omega)] at h
    have h' := (mul_eq_zero.mp h.symm).resolve_left hmj
    have hmj' : (view t.qp).lowerMask k j ≠ 0 := hmj
    rw [view_lowerMask t.qp k j hj'] at hmj'
    linarith [(hlam k j hk (by omega) hmj').2]
  · have hj' : j < t.qp.dim.nb k + t.qp.dim.ng k := hj
    have h := (tres_inequalities t ht hwf sol hl res ws hws k hk).2.1 j hj
    rw [hd k _ hk (by omega)] at h
    have h' := (mul_eq_zero.mp h.symm).resolve_left hmj
    have hmj' : (view t.qp).upperMask k j ≠ 0 := hmj
    rw [view_upperMask t.qp k j hj'] at hmj'
    linarith [(hlam k _ hk (by omega) hmj').2]
  · have hj' : s < t.qp.dim.ns k := hs
    have h := (tres_inequalities t ht hwf sol hl res ws hws k hk).2.2.1 s hs
    rw [hd k _ hk (by omega)] at h
    have h' := (mul_eq_zero.mp h.symm).resolve_left hms
    have hmj' : (view t.qp).llsMask k s ≠ 0 := hms
    rw [view_llsMask t.qp k s hj'] at hmj'
    linarith [(hlam k _ hk (by omega) hmj').2]
  · have hj' : s < t.qp.dim.ns k := hs
    have h := (tres_inequalities t ht hwf sol hl res ws hws k hk).2.2.2 s hs
    rw [hd k _ hk (by omega)] at h
    have h' := (mul_eq_zero.mp h.symm).resolve_left hms
    have hmj' : (view t.qp).lusMask k s ≠ 0 := hms
    rw [view_lusMask t.qp k s hj'] at hmj'
    linarith [(hlam k _ hk (by omega) hmj').2]
  · have hb' := tres_gap_bound t ht hwf hm hc sol hl res ws hws hg (fun k j hk hj h => (hlam k j hk hj h).1) p hp
    have hgap : (tresCompute t sol res ws).dual_gap = 0 := by
      rw [tres_dual_gap t ht hwf sol hl res ws hws]
      have z1 : pairV t.qp.dim (tresCompute t sol res ws).res_g sol.ux = 0 := by
        apply sum_eq_zero; intro k hk; apply sum_eq_zero; intro i hi
        rw [hg k i (by have := mem_range.mp hk; omega) (mem_range.mp hi), zero_mul]
      have z2 : pairE t.qp.dim sol.pi (tresCompute t sol res ws).res_b = 0 := by
        apply sum_eq_zero; intro k hk; apply sum_eq_zero; intro i hi
        rw [hb k i (mem_range.mp hk) (mem_range.mp hi), mul_zero]
      have z3 : pairC t.qp.dim sol.lam (tresCompute t sol res ws).res_d = 0 := by
        apply sum_eq_zero; intro k hk; apply sum_eq_zero; intro i hi
        rw [hd k i (by have := mem_range.mp hk; omega) (mem_range.mp hi), mul_zero]
      have z4 : pairC t.qp.dim sol.lam sol.t = 0 := by
        apply sum_eq_zero; intro k hk; apply sum_eq_zero; intro j hj
        have hk' : k ≤ t.qp.dim.N := by have := mem_range.mp hk; omega
        have hj' := mem_range.mp hj
        have h := tres_complementarity t ht hwf hm sol hl res ws hws k j hk' hj'
        rw [(hcm k j hk' hj').1, (hcm k j hk' hj').2] at h
        rcases hm k j hk' hj' with h0 | h0
        · rw [← hl k j hk' hj', h0]; simp
        · rw [h0] at h
          simp only [one_ne_zero, if_false, sub_zero] at h
          exact h.symm
      rw [z1, z2, z3, z4]; ring
    rw [hgap, sub_zero, tres_objective t ht hwf sol hl res ws hws] at hb'
    exact hb'

/-- **C79 (mean complementarity).** -/
theorem tres_mu_mean (t : TreeQp K) (ht : t.TreeOk) (hwf : t.qp.WF) (sol : Sol K)
    (hl : LamMasked t.qp sol.lam) (res : Res K) (ws : ResWs K) (hv : ws.valid_nc_mask = false) :
    let r := tresCompute t sol res ws
    let total := ∑ k ∈ range (t.qp.dim.N + 1), ∑ j ∈ range (nct t.qp.dim k), |r.res_m k j|
    let count := ∑ k ∈ range (t.qp.dim.N + 1), ∑ j ∈ range (nct t.qp.dim k), if t.qp.d_mask k j = 1 then 1 else 0
    r.res_mu_sum = total ∧ r.res_mu = total / (count : ℕ) := by
  have hws : ws.Ok t.qp := by intro h; rw [hv] at h; cases h
  have hval := tresCompute_val t ht hwf sol hl res ws hws
  have e : (tresCompute t sol res ws).res_mu_sum = ∑ k ∈ range (t.qp.dim.N + 1), ∑ j ∈ range (nct t.qp.dim k),
      |(tresCompute t sol res ws).res_m k j| := by
    rw [hval.mu]
    apply sum_congr rfl; intro k hk; apply sum_congr rfl; intro j hj
    rw [hval.m k (by have := mem_range.mp hk; omega) j (mem_range.mp hj)]
  refine ⟨e, ?_⟩
  have h5 : (tresCompute t sol res ws).res_mu = (tresCompute t sol res ws).res_mu_sum * (maskSel t.qp ws).2 := rfl
  rw [h5, e, div_eq_mul_inv]
  congr 1
  simp only [maskSel, hv, Bool.false_eq_true, if_false]
  rw [(countMask_val t.qp.dim t.qp.d_mask).2]
  split_ifs with hc
  · rw [one_div]
  · have : (∑ k ∈ range (t.qp.dim.N + 1), ∑ j ∈ range (nct t.qp.dim k), if t.qp.d_mask k j = 1 then 1 else 0) = 0 := by omega
    rw [this]; simp

end Hpipm
