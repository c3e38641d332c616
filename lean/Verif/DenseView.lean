/-
The user's view of a dense QP object through the getters of dense_qp/x_dense_qp.c, and its relation to
an OCP QP with a single stage, a device used only in proofs: the inequality part of the dense routines
has the text of one stage of the OCP routines.
-/
import Verif.DenseSpec
import Verif.DenseRes
import Verif.ResProps

namespace Hpipm
open Finset
set_option linter.unusedSectionVars false

section
variable {K : Type*} [Field K] [LinearOrder K] [IsStrictOrderedRing K]

/-- an array filled by a getter of the dense QP object -/
abbrev dgot (f : DField) (qp : DenseQp K) : ℕ → K := DenseQp.getF f qp (fun _ => 0)

/-- the dense QP as the user sees it through the getters (matrices are column major arrays) -/
def dview (qp : DenseQp K) : DUser K where
  nv := qp.dim.nv
  ne := qp.dim.ne
  nb := qp.dim.nb
  ng := qp.dim.ng
  ns := qp.dim.ns
  H := fun i j => dgot .H qp (i + qp.dim.nv * j)
  g := dgot .g qp
  A := fun i j => dgot .A qp (i + qp.dim.ne * j)
  b := dgot .b qp
  idxb := qp.idxb
  lb := dgot .lb qp
  ub := dgot .ub qp
  C := fun i j => dgot .C qp (i + qp.dim.ng * j)
  lg := dgot .lg qp
  ug := dgot .ug qp
  soft := fun j => if qp.idxs_rev j = -1 then none else some (qp.idxs_rev j).toNat
  Zl := dgot .Zl qp
  Zu := dgot .Zu qp
  zl := dgot .zl qp
  zu := dgot .zu qp
  lls := dgot .lls qp
  lus := dgot .lus qp
  lbMask := dgot .lb_mask qp
  ubMask := dgot .ub_mask qp
  lgMask := dgot .lg_mask qp
  ugMask := dgot .ug_mask qp
  llsMask := dgot .lls_mask qp
  lusMask := dgot .lus_mask qp

/-- the primal part of a dense solution, `v = (v, sl, su)` (DENSE_QP_SOL_GET_V/SL/SU,
dense_qp/x_dense_qp_sol.c) -/
def dptOf (D : DDim) (v : Vec K) : DPt K where
  v := v
  sl := fun i => v (D.nv + i)
  su := fun i => v (D.nv + D.ns + i)

/-- the dual part of a dense solution -/
def dmultOf (D : DDim) (s : DqSol K) : DMult K where
  pi := s.pi
  lo := s.lam
  up := fun j => s.lam (D.nb + D.ng + j)
  ls := fun i => s.lam (2 * (D.nb + D.ng) + i)
  us := fun i => s.lam (2 * (D.nb + D.ng) + D.ns + i)

/-- index lists stay in range -/
structure DenseQp.WF (qp : DenseQp K) : Prop where
  idxb : ∀ j, j < qp.dim.nb → qp.idxb j < qp.dim.nv
  soft : ∀ j, j < qp.dim.nb + qp.dim.ng →
    qp.idxs_rev j = -1 ∨ (0 ≤ qp.idxs_rev j ∧ (qp.idxs_rev j).toNat < qp.dim.ns)

/-- masks are zero or one -/
def DMask01 (qp : DenseQp K) : Prop := ∀ j, j < qp.dim.nct → qp.d_mask j = 0 ∨ qp.d_mask j = 1

/-- the workspace flags, when declared valid, are those of the current masks (the solver recomputes them
before the first use, x_dense_qp_ipm.c:2246-2300) -/
def DWsOk (ws : ResWs K) (qp : DenseQp K) : Prop :=
  ws.valid_nc_mask = true → ws.mask_constr = true ∨ ∀ j, j < qp.dim.nct → qp.d_mask j = 1

/-! ### the single stage OCP QP with the same objective and inequalities (proof device) -/

/-- sizes of the single stage QP -/
def odim (D : DDim) : QpDim where
  N := 0
  nx := fun _ => 0
  nu := fun _ => D.nv
  nb := fun _ => D.nb
  nbx := fun _ => 0
  nbu := fun _ => D.nb
  ng := fun _ => D.ng
  ns := fun _ => D.ns
  nbxe := fun _ => 0
  nbue := fun _ => 0
  nge := fun _ => 0

/-- the single stage QP -/
def ov (qp : DenseQp K) : OcpQp K where
  dim := odim qp.dim
  BAbt := fun _ _ _ => 0
  RSQrq := fun _ => qp.Hv
  DCt := fun _ => qp.Ct
  b := fun _ _ => 0
  rqz := fun _ => qp.gz
  d := fun _ => qp.d
  d_mask := fun _ => qp.d_mask
  m := fun _ => qp.m
  Z := fun _ => qp.Z
  idxb := fun _ => qp.idxb
  idxs_rev := fun _ => qp.idxs_rev
  idxe := fun _ _ => 0
  diag_H_flag := fun _ => 0

/-- a dense solution as a solution of the single stage QP -/
def osol (s : DqSol K) : Sol K where
  ux := fun _ => s.v
  pi := fun _ _ => 0
  lam := fun _ => s.lam
  t := fun _ => s.t

/-- a residual object of the single stage QP -/
def ores (r : DRes K) : Res K where
  res_g := fun _ => r.res_g
  res_b := fun _ _ => 0
  res_d := fun _ => r.res_d
  res_m := fun _ => r.res_m
  obj := r.obj
  dual_gap := r.dual_gap
  res_mu := r.res_mu
  res_mu_sum := r.res_mu_sum

variable (qp : DenseQp K)

theorem ov_wf (h : qp.WF) : (ov qp).WF := ⟨fun _ j _ hj => h.idxb j hj, fun _ j _ hj => h.soft j hj⟩
theorem ov_mask (h : DMask01 qp) : Mask01 (ov qp) := fun _ j _ hj => h j hj
theorem ov_ws (ws : ResWs K) (h : DWsOk ws qp) : ws.Ok (ov qp) := fun hv =>
  (h hv).imp id (fun h' _ j _ hj => h' j hj)

/-- a dense point as a point of the single stage QP -/
def opt (p : DPt K) : Pt K where
  u := fun _ => p.v
  x := fun _ _ => 0
  sl := fun _ => p.sl
  su := fun _ => p.su

theorem ov_quad (p : DPt K) : (dview qp).quad p = (view (ov qp)).quad (opt p) := by
  have e : (view (ov qp)).quad (opt p) = (view (ov qp)).stageQuad (opt p) 0 := by
    show ∑ k ∈ range (0 + 1), (view (ov qp)).stageQuad (opt p) k = _
    simp
  rw [e]
  have e1 : ∀ f : ℕ → ℕ → K, (∑ i ∈ range (dview qp).nv, ∑ j ∈ range ((view (ov qp)).nx 0), f i j) = 0 := by
    intro f
    have : (view (ov qp)).nx 0 = 0 := rfl
    simp [this]
  have e2 : ∀ f : ℕ → ℕ → K, (∑ i ∈ range ((view (ov qp)).nx 0), ∑ j ∈ range ((view (ov qp)).nx 0), f i j) = 0 := by
    intro f
    have : (view (ov qp)).nx 0 = 0 := rfl
    simp [this]
  show _ = 1 / 2 * (∑ i ∈ range (dview qp).nv, ∑ j ∈ range (dview qp).nv, (dview qp).hess i j * p.v i * p.v j)
    + (∑ i ∈ range (dview qp).nv, ∑ j ∈ range ((view (ov qp)).nx 0), _)
    + 1 / 2 * (∑ i ∈ range ((view (ov qp)).nx 0), ∑ j ∈ range ((view (ov qp)).nx 0), _)
    + 1 / 2 * (∑ i ∈ range (dview qp).ns, (dview qp).Zl i * p.sl i * p.sl i)
    + 1 / 2 * (∑ i ∈ range (dview qp).ns, (dview qp).Zu i * p.su i * p.su i)
  rw [e1, e2]
  simp only [DUser.quad]
  ring

theorem ov_objective (p : DPt K) : (dview qp).objective p = (view (ov qp)).objective (opt p) := by
  have e : (view (ov qp)).objective (opt p) =
      (view (ov qp)).quad (opt p) + (view (ov qp)).stageLin (opt p) 0 := by
    show ∑ k ∈ range (0 + 1), ((view (ov qp)).stageQuad (opt p) k + (view (ov qp)).stageLin (opt p) k) =
      ∑ k ∈ range (0 + 1), (view (ov qp)).stageQuad (opt p) k + _
    simp
  rw [e, ← ov_quad, DUser.objective]
  congr 1
  show _ = (∑ i ∈ range (dview qp).nv, (dview qp).g i * p.v i) + (∑ i ∈ range 0, _)
    + (∑ i ∈ range (dview qp).ns, (dview qp).zl i * p.sl i) + (∑ i ∈ range (dview qp).ns, (dview qp).zu i * p.su i)
  rw [range_zero, sum_empty, DUser.lin]; ring

theorem ov_value (p : DPt K) (j : ℕ) (hj : qp.WF) (hjn : j < qp.dim.nb + qp.dim.ng) :
    (dview qp).value p j = (view (ov qp)).value (opt p) 0 j := by
  unfold DUser.value UserQp.value
  have e : (view (ov qp)).nb 0 = (dview qp).nb := rfl
  rw [e]
  by_cases h : j < (dview qp).nb
  · rw [if_pos h, if_pos h, if_pos (show (view (ov qp)).idxb 0 j < (view (ov qp)).nu 0 from hj.idxb j h)]
    rfl
  · rw [if_neg h, if_neg h]
    show _ = (∑ i ∈ range 0, _) + ∑ i ∈ range (dview qp).nv, (dview qp).C (j - (dview qp).nb) i * p.v i
    rw [range_zero, sum_empty, zero_add]

theorem ov_lagrangian (hwf : qp.WF) (p : DPt K) (w : DMult K) : (dview qp).lagrangian p w =
    (view (ov qp)).lagrangian (opt p) ⟨fun _ _ => 0, fun _ => w.lo, fun _ => w.up, fun _ => w.ls, fun _ => w.us⟩
    + ∑ i ∈ range qp.dim.ne, w.pi i * ((dview qp).b i - (dview qp).Av p.v i) := by
  unfold DUser.lagrangian UserQp.lagrangian
  rw [ov_objective]
  have e0 : (view (ov qp)).N = 0 := rfl
  rw [e0]
  simp only [range_zero, sum_empty, add_zero, zero_add, range_one, sum_singleton]
  have e1 : ∑ j ∈ range ((dview qp).nb + (dview qp).ng), (dview qp).lowerMask j * w.lo j *
        ((dview qp).lower j - (dview qp).value p j - (dview qp).slackLo p j) =
      ∑ j ∈ range ((view (ov qp)).nb 0 + (view (ov qp)).ng 0), (view (ov qp)).lowerMask 0 j * w.lo j *
        ((view (ov qp)).lower 0 j - (view (ov qp)).value (opt p) 0 j - (view (ov qp)).slackLo (opt p) 0 j) := by
    apply sum_congr rfl
    intro j hj
    rw [ov_value qp p j hwf (mem_range.mp hj)]; rfl
  have e2 : ∑ j ∈ range ((dview qp).nb + (dview qp).ng), (dview qp).upperMask j * w.up j *
        ((dview qp).value p j - (dview qp).upper j - (dview qp).slackUp p j) =
      ∑ j ∈ range ((view (ov qp)).nb 0 + (view (ov qp)).ng 0), (view (ov qp)).upperMask 0 j * w.up j *
        ((view (ov qp)).value (opt p) 0 j - (view (ov qp)).upper 0 j - (view (ov qp)).slackUp (opt p) 0 j) := by
    apply sum_congr rfl
    intro j hj
    rw [ov_value qp p j hwf (mem_range.mp hj)]; rfl
  rw [e1, e2]
  have e3 : (dview qp).ne = qp.dim.ne := rfl
  rw [e3]
  show _ + _ + (_ + _ + ∑ i ∈ range (dview qp).ns, (dview qp).llsMask i * w.ls i * ((dview qp).lls i - p.sl i)
    + ∑ i ∈ range (dview qp).ns, (dview qp).lusMask i * w.us i * ((dview qp).lus i - p.su i)) = 
    _ + (_ + _ + ∑ i ∈ range (dview qp).ns, (dview qp).llsMask i * w.ls i * ((dview qp).lls i - p.sl i)
    + ∑ i ∈ range (dview qp).ns, (dview qp).lusMask i * w.us i * ((dview qp).lus i - p.su i)) + _
  ring

theorem dview_A (i j : ℕ) (hi : i < qp.dim.ne) (hj : j < qp.dim.nv) : (dview qp).A i j = qp.A i j := by
  simp only [dview, dgot, DenseQp.getF]; rw [unpackMat_at _ _ _ _ _ _ _ _ hi hj]; simp
theorem dview_b (i : ℕ) (hi : i < qp.dim.ne) : (dview qp).b i = qp.b i := by
  simp only [dview, dgot, DenseQp.getF]; rw [unpackVec_at _ _ _ _ _ hi]; simp
theorem dview_Av (v : Vec K) (i : ℕ) (hi : i < qp.dim.ne) :
    (dview qp).Av v i = ∑ j ∈ range qp.dim.nv, qp.A i j * v j := by
  simp only [DUser.Av]
  exact sum_congr rfl (fun j hj => by rw [dview_A qp i j hi (mem_range.mp hj)])

/-! ### the residual routines and those of the single stage QP -/

/-- residuals of the single stage QP -/
abbrev oresOf (qp : DenseQp K) (sol : DqSol K) (res : DRes K) (ws : ResWs K) : Res K :=
  resCompute (ov qp) (osol sol) (ores res) ws

theorem dcount_eq : dcountMask qp.dim.nct qp.d_mask = countMask (ov qp).dim (ov qp).d_mask := rfl

theorem dmaskSel_eq (ws : ResWs K) : dmaskSel qp ws = maskSel (ov qp) ws := rfl

theorem dres_ov (sol : DqSol K) (res : DRes K) (ws : ResWs K) :
    dresCompute qp sol res ws =
    { res_g := if qp.dim.ne > 0 then gemv_t qp.dim.ne qp.dim.nv (-1) qp.A 0 0 sol.pi 0 1
        ((oresOf qp sol res ws).res_g 0) 0 ((oresOf qp sol res ws).res_g 0) 0 else (oresOf qp sol res ws).res_g 0
      res_b := if qp.dim.ne > 0 then gemv_n qp.dim.ne qp.dim.nv (-1) qp.A 0 0 sol.v 0 1 qp.b 0 res.res_b 0
        else res.res_b
      res_d := (oresOf qp sol res ws).res_d 0
      res_m := (oresOf qp sol res ws).res_m 0
      obj := (oresOf qp sol res ws).obj
      dual_gap := if qp.dim.ne > 0 then (oresOf qp sol res ws).dual_gap - dot qp.dim.ne qp.b 0 sol.pi 0
        else (oresOf qp sol res ws).dual_gap
      res_mu := (oresOf qp sol res ws).res_mu
      res_mu_sum := (oresOf qp sol res ws).res_mu_sum } := by
  have e : oresOf qp sol res ws = { (resStage (ov qp) (osol sol) (maskSel (ov qp) ws).1 0
    { res := { ores res with
        obj := 0
        dual_gap := 0 }
      ws := ws
      mu := 0 }).res with
    res_mu := (resStage (ov qp) (osol sol) (maskSel (ov qp) ws).1 0
    { res := { ores res with
        obj := 0
        dual_gap := 0 }
      ws := ws
      mu := 0 }).mu * (maskSel (ov qp) ws).2
    res_mu_sum := (resStage (ov qp) (osol sol) (maskSel (ov qp) ws).1 0
    { res := { ores res with
        obj := 0
        dual_gap := 0 }
      ws := ws
      mu := 0 }).mu } := rfl
  rw [e]
  refine DRes.ext rfl rfl rfl rfl rfl rfl ?_ ?_
  · exact congrArg (· * _) (zero_add _).symm
  · exact (zero_add _).symm

theorem dresLin_ov (sol step : DqSol K) (res : DRes K) (ws : ResWs K) :
    dresComputeLin qp sol step res ws =
    { res with
      res_g := if qp.dim.ne > 0 then gemv_t qp.dim.ne qp.dim.nv (-1) qp.A 0 0 step.pi 0 1
        ((resComputeLin (ov qp) (osol sol) (osol step) (ores res) ws).res_g 0) 0
        ((resComputeLin (ov qp) (osol sol) (osol step) (ores res) ws).res_g 0) 0
        else (resComputeLin (ov qp) (osol sol) (osol step) (ores res) ws).res_g 0
      res_b := if qp.dim.ne > 0 then gemv_n qp.dim.ne qp.dim.nv (-1) qp.A 0 0 step.v 0 1 qp.b 0 res.res_b 0
        else res.res_b
      res_d := (resComputeLin (ov qp) (osol sol) (osol step) (ores res) ws).res_d 0
      res_m := (resComputeLin (ov qp) (osol sol) (osol step) (ores res) ws).res_m 0 } := rfl

/-- `(A' pi) i` on the variables, zero on the slacks -/
def atp (qp : DenseQp K) (pi : Vec K) (i : ℕ) : K :=
  if i < qp.dim.nv then ∑ j ∈ range qp.dim.ne, qp.A j i * pi j else 0

theorem gemvA_t (pi g : Vec K) (i : ℕ) : (if qp.dim.ne > 0 then gemv_t qp.dim.ne qp.dim.nv (-1) qp.A 0 0 pi 0 1
    g 0 g 0 else g) i = g i - atp qp pi i := by
  unfold atp
  by_cases hn : qp.dim.ne > 0
  · rw [if_pos hn]
    by_cases hi : i < qp.dim.nv
    · rw [gemv_t_in (by omega), if_pos hi]; simp; ring
    · rw [gemv_t_out (by omega), if_neg hi]; ring
  · rw [if_neg hn]
    have : qp.dim.ne = 0 := by omega
    rw [this]; simp

theorem gemvA_n (v rb : Vec K) (i : ℕ) (hi : i < qp.dim.ne) :
    (if qp.dim.ne > 0 then gemv_n qp.dim.ne qp.dim.nv (-1) qp.A 0 0 v 0 1 qp.b 0 rb 0 else rb) i =
    qp.b i - ∑ j ∈ range qp.dim.nv, qp.A i j * v j := by
  rw [if_pos (by omega), gemv_n_in (by omega)]; simp; ring

/-- closed forms of DENSE_QP_RES_COMPUTE -/
structure DResOk (qp : DenseQp K) (sol : DqSol K) (ws : ResWs K) (r : DRes K) : Prop where
  g : ∀ i, i < qp.dim.nv + 2 * qp.dim.ns →
    r.res_g i = vG (ov qp) (osol sol) (lamM (ov qp) (osol sol) 0) 0 i - atp qp sol.pi i
  b : ∀ i, i < qp.dim.ne → r.res_b i = qp.b i - ∑ j ∈ range qp.dim.nv, qp.A i j * sol.v j
  d : ∀ j, j < qp.dim.nct → r.res_d j = qp.d_mask j * vD (ov qp) (osol sol) 0 j
  m : ∀ j, j < qp.dim.nct → r.res_m j = vM (ov qp) (osol sol) 0 j
  obj : r.obj = vObj (ov qp) (osol sol) 0
  gap : r.dual_gap = vGap (ov qp) (osol sol) 0 - ∑ i ∈ range qp.dim.ne, qp.b i * sol.pi i
  musum : r.res_mu_sum = ∑ j ∈ range qp.dim.nct, |vM (ov qp) (osol sol) 0 j|
  mu : r.res_mu = r.res_mu_sum * (dmaskSel qp ws).2

theorem dresCompute_val (hwf : qp.WF) (sol : DqSol K) (res : DRes K) (ws : ResWs K) (hws : DWsOk ws qp) :
    DResOk qp sol ws (dresCompute qp sol res ws) := by
  obtain ⟨h1, h2, h3, h4, h5⟩ := resCompute_val (ov qp) (ov_wf qp hwf) (osol sol) (ores res) ws (ov_ws qp ws hws)
  have h0 := h1 0 (Nat.zero_le _)
  have s1 : ∀ f : ℕ → K, ∑ k ∈ range ((ov qp).dim.N + 1), f k = f 0 := by
    intro f
    show ∑ k ∈ range (0 + 1), f k = f 0
    simp
  rw [s1] at h2 h3 h4
  rw [dres_ov]
  refine ⟨fun i hi => ?_, fun i hi => gemvA_n qp _ _ i hi, h0.1.d, h0.2, h2, ?_, h4, ?_⟩
  · dsimp only
    rw [gemvA_t, h0.1.g i hi]
  · dsimp only
    rw [h3]
    split_ifs with hn
    · simp [dot]
    · have : qp.dim.ne = 0 := by omega
      rw [this]; simp
  · exact h5

/-- closed forms of DENSE_QP_RES_COMPUTE_LIN -/
structure DLinOk (qp : DenseQp K) (sol step : DqSol K) (r : DRes K) : Prop where
  g : ∀ i, i < qp.dim.nv + 2 * qp.dim.ns →
    r.res_g i = vG (ov qp) (osol step) (lamM (ov qp) (osol step) 0) 0 i - atp qp step.pi i
  b : ∀ i, i < qp.dim.ne → r.res_b i = qp.b i - ∑ j ∈ range qp.dim.nv, qp.A i j * step.v j
  d : ∀ j, j < qp.dim.nct → r.res_d j = qp.d_mask j * vD (ov qp) (osol step) 0 j
  m : ∀ j, j < qp.dim.nct → r.res_m j = vML (ov qp) (osol sol) (osol step) 0 j

theorem dresComputeLin_val (hwf : qp.WF) (sol step : DqSol K) (res : DRes K) (ws : ResWs K) (hws : DWsOk ws qp) :
    DLinOk qp sol step (dresComputeLin qp sol step res ws) := by
  have h0 := resComputeLin_val (ov qp) (ov_wf qp hwf) (osol sol) (osol step) (ores res) ws (ov_ws qp ws hws) 0
    (Nat.zero_le _)
  rw [dresLin_ov]
  refine ⟨fun i hi => ?_, fun i hi => gemvA_n qp _ _ i hi, h0.1.d, h0.2⟩
  dsimp only
  rw [gemvA_t, h0.1.g i hi]

end
end Hpipm
