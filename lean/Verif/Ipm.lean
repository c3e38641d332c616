/-
Model of the interior point solver, OCP_QP_IPM_SOLVE with its two step routines
(ocp_qp/x_ocp_qp_ipm.c:2053-3215).

* Exact arithmetic over an ordered field; `sqrt` is the parameter `sq`.
* Memory: the solution vectors, the step vectors and the complementarity residual are flat arrays of the core
  workspace (x_ocp_qp_ipm.c:2822-2826, and OCP_QP_IPM_WS_CREATE lines 960-1240 for the step and residual
  vectors); stage vectors are views into them (`solOf`).  The step is kept both in the core workspace and in the state of
  the KKT solver, synchronised after every change (`syncStep`).
* The QP matrices `BAbt`, `RSQrq` are shared between the caller's QP and the KKT solver, which writes into their last
  rows; the copies in force are those of the KKT state (`qpNow`).
* The LQ-based factorisation (x_ocp_qp_kkt.c:1897-2296) and the factorisation without solve
  (x_ocp_qp_kkt.c:879-1108, used by `update_fact_exit`) are parameters `lq`, `factOnly` of the environment.
* Statistics are written to a table of `21*(1+stat_max)` reals; a write outside sets `oob`.
-/
import Verif.IpmCtl
import Verif.IpmInit
import Verif.Kkt
import Verif.KktTail

namespace Hpipm

section
variable {K : Type*} [Field K] [LinearOrder K] [IsStrictOrderedRing K]

/-- the state of the solver: the core workspace and the members of `struct OCP_QP_IPM_WS`
(include/hpipm_d_ocp_qp_ipm.h) that the solver uses -/
structure Ipm (K : Type*) where
  core : Core K
  /-- `ws->res` (its `res_m` is `core.res_m`) -/
  res : Res K
  /-- `ws->res->res_max` -/
  rmax : K × K × K × K
  /-- `ws->res_workspace` -/
  rws : ResWs K
  /-- `ws->res_itref` -/
  resIt : Res K
  /-- matrices of the KKT solver and `ws->sol_step` -/
  kkt : KktSt K
  /-- `ws->sol_itref` -/
  itr : Sol K
  preg_last : K
  npd : Bool
  lastLq : Bool
  mask : Bool
  stat : ℕ → K
  oob : Bool

/-- what does not change during a solve -/
structure Env (K : Type*) where
  sq : K → K
  /-- bound on the number of regularisation attempts of one factorisation -/
  fuel : ℕ
  qp : OcpQp K
  arg : IpmArg K
  /-- `ws->square_root_alg`, fixed at creation -/
  sqr : Bool
  /-- `ws->lq_fact`, fixed at creation -/
  lqf : ℤ
  /-- `ws->stat_max`, fixed at creation -/
  statMax : ℤ
  /-- OCP_QP_FACT_LQ_SOLVE_KKT_STEP after COMPUTE_GAMMA_GAMMA_QP: KKT state, `npd_reg_hess`, `preg_last`,
  `last_lq_fact` -/
  lq : OcpQp K → K → Core K → KktSt K → Option (KktSt K × Bool × K × Bool)
  /-- OCP_QP_FACT_KKT_STEP after COMPUTE_GGAMMA_QP -/
  factOnly : OcpQp K → Core K → KktSt K → KktSt K

/-- a stage-concatenated vector cut into stages -/
def svw (len : ℕ → ℕ) (f : Vec K) (k : ℕ) : Vec K := fun j => f (stOff len k + j)

/-- lengths of the equality multipliers -/
def net (D : QpDim) (k : ℕ) : ℕ := D.nx (k + 1)

/-- the solution object as seen stage by stage; aliasing of x_ocp_qp_ipm.c:2822-2826 -/
def solOf (D : QpDim) (c : Core K) : Sol K where
  ux := svw (nvt D) c.v
  pi := svw (net D) c.pi
  lam := svw (nct D) c.lam
  t := svw (nct D) c.t

/-- the memory of a solution object seen through the core workspace -/
def putSol (D : QpDim) (s : Sol K) (c : Core K) : Core K :=
  { c with
    v := stFlat (nvt D) s.ux (D.N + 1)
    pi := stFlat (net D) s.pi D.N
    lam := stFlat (nct D) s.lam (D.N + 1)
    t := stFlat (nct D) s.t (D.N + 1) }

/-- the step object seen through the core workspace -/
def syncStep (D : QpDim) (s : Ipm K) : Ipm K :=
  { s with
    core := { s.core with
      dv := stFlat (nvt D) s.kkt.ux (D.N + 1)
      dpi := stFlat (net D) s.kkt.pi D.N
      dlam := stFlat (nct D) s.kkt.lam (D.N + 1)
      dt := stFlat (nct D) s.kkt.t (D.N + 1) } }

/-- the core workspace's step vectors seen through the step object -/
def syncBack (D : QpDim) (s : Ipm K) : Ipm K :=
  { s with
    kkt := { s.kkt with
      ux := svw (nvt D) s.core.dv
      pi := svw (net D) s.core.dpi
      lam := svw (nct D) s.core.dlam
      t := svw (nct D) s.core.dt } }

/-- the caller's QP with the current contents of the shared matrices -/
def qpNow (E : Env K) (s : Ipm K) : OcpQp K :=
  { E.qp with
    BAbt := s.kkt.BAbt
    RSQrq := s.kkt.RSQrq }

/-- `ws->qp_step`, x_ocp_qp_ipm.c:2829-2841 (relative) and 2968-2982 (absolute formulation) -/
def qpStep (E : Env K) (s : Ipm K) : OcpQp K :=
  if E.arg.i .abs_form ≠ 0 then { qpNow E s with m := svw (nct E.qp.dim) s.core.res_m }
  else { qpNow E s with
    rqz := s.res.res_g
    b := s.res.res_b
    d := s.res.res_d
    m := svw (nct E.qp.dim) s.core.res_m }

/-- `ws->qp_itref`, x_ocp_qp_ipm.c:2844-2856 -/
def qpItref (E : Env K) (s : Ipm K) : OcpQp K :=
  { qpNow E s with
    rqz := s.resIt.res_g
    b := s.resIt.res_b
    d := s.resIt.res_d
    m := s.resIt.res_m }

/-- the flat constraint mask -/
def fmask (qp : OcpQp K) : Vec K := stFlat (nct qp.dim) qp.d_mask (qp.dim.N + 1)

/-- the flat `m` -/
def fm (qp : OcpQp K) : Vec K := stFlat (nct qp.dim) qp.m (qp.dim.N + 1)

/-- `stat[i] = x` -/
def put (E : Env K) (i : ℕ) (x : K) (s : Ipm K) : Ipm K :=
  { s with
    stat := upd s.stat i x
    oob := s.oob || decide ((i : ℤ) ≥ 21 * (1 + E.statMax)) }

/-- `if(kk+1<ws->stat_max) stat[stat_m*(kk+1)+col] = x` -/
def putG (E : Env K) (kk col : ℕ) (x : K) (s : Ipm K) : Ipm K :=
  if ((kk : ℤ) + 1) < E.statMax then put E (21 * (kk + 1) + col) x s else s

/-- four consecutive columns -/
def putG4 (E : Env K) (kk col : ℕ) (x : K × K × K × K) (s : Ipm K) : Ipm K :=
  putG E kk (col + 3) x.2.2.2 (putG E kk (col + 2) x.2.2.1 (putG E kk (col + 1) x.2.1 (putG E kk col x.1 s)))

/-- `if(ws->mask_constr) VECMUL(nc, d_mask, 0, res_m, 0, res_m, 0)`, e.g. x_ocp_qp_ipm.c:2263-2267 -/
def maskResM (E : Env K) (s : Ipm K) : Ipm K :=
  if s.mask then { s with core := { s.core with res_m := vecmul s.core.nc (fmask E.qp) 0 s.core.res_m 0 s.core.res_m 0 } }
  else s

/-- masking of the slack and multiplier steps, e.g. x_ocp_qp_ipm.c:2277-2285 -/
def maskStep (E : Env K) (s : Ipm K) : Ipm K :=
  if s.mask then syncBack E.qp.dim { s with core := { s.core with
      dt := vecmul s.core.nc (fmask E.qp) 0 s.core.dt 0 s.core.dt 0
      dlam := vecmul s.core.nc (fmask E.qp) 0 s.core.dlam 0 s.core.dlam 0 } }
  else s

/-- masking of the multipliers, x_ocp_qp_ipm.c:2218-2223, 2765-2768, 2932-2937 -/
def maskLam (E : Env K) (s : Ipm K) : Ipm K :=
  if s.mask then { s with core := { s.core with lam := vecmul s.core.nc (fmask E.qp) 0 s.core.lam 0 s.core.lam 0 } }
  else s

/-- `arg->comp_dual_sol_eq` -/
def dualF (E : Env K) : Bool := decide (E.arg.i .comp_dual_sol_eq ≠ 0)

/-- OCP_QP_FACT_SOLVE_KKT_STEP(qp_step, sol_step) -/
def factStep (E : Env K) (s : Ipm K) : Option (Ipm K) :=
  (factSolveKktStep E.sq E.fuel (qpStep E s) (dualF E) E.sqr (E.arg.r .reg_prim) s.preg_last s.core s.kkt).map fun o =>
    syncStep E.qp.dim { s with
      core := o.core
      kkt := o.st
      npd := o.npd_reg_hess
      preg_last := o.preg_last
      lastLq := false }

/-- OCP_QP_FACT_LQ_SOLVE_KKT_STEP(qp_step, sol_step), x_ocp_qp_kkt.c:1897-2296; the call of
COMPUTE_GAMMA_GAMMA_QP (line 1956) is modelled, the rest is the parameter `lq` -/
def lqStep (E : Env K) (s : Ipm K) : Option (Ipm K) :=
  let D := E.qp.dim
  let q := qpStep E s
  let c := computeGammaGamma (stFlat (nct D) q.d (D.N + 1)) (stFlat (nct D) q.m (D.N + 1)) s.core
  (E.lq q s.preg_last c s.kkt).map fun o =>
    syncStep D { s with
      core := c
      kkt := o.1
      npd := o.2.1
      preg_last := o.2.2.1
      lastLq := o.2.2.2 }

/-- OCP_QP_SOLVE_KKT_STEP(qp_step, sol_step) -/
def solveStep (E : Env K) (s : Ipm K) : Ipm K :=
  let r := solveKktStep (qpStep E s) (dualF E) E.sqr true s.core s.kkt
  syncStep E.qp.dim { s with
    core := r.1
    kkt := r.2 }

/-- OCP_QP_SOLVE_KKT_STEP(qp_itref, sol_itref) with `use_Pb = 0`: the workspace is shared, the step object is not -/
def solveItref (E : Env K) (s : Ipm K) : Ipm K :=
  let r := solveKktStep (qpItref E s) (dualF E) E.sqr false s.core
    { s.kkt with
      ux := s.itr.ux
      pi := s.itr.pi
      lam := s.itr.lam
      t := s.itr.t }
  { s with
    core := r.1
    itr := stepOf r.2
    kkt := { r.2 with
      ux := s.kkt.ux
      pi := s.kkt.pi
      lam := s.kkt.lam
      t := s.kkt.t } }

/-- residual of the Newton system at the current step and its norms, e.g. x_ocp_qp_ipm.c:2300-2313 -/
def linRes (E : Env K) (s : Ipm K) : Ipm K × (K × K × K × K) :=
  let r := resComputeLin (qpStep E s) (solOf E.qp.dim s.core) (stepOf s.kkt) s.resIt s.rws
  ({ s with resIt := r }, resInfNorm E.qp.dim r)

/-- the largest of four norms as computed in x_ocp_qp_ipm.c:2408-2410 -/
def max4 (x : K × K × K × K) : K :=
  let m := if x.1 > x.2.1 then x.1 else x.2.1
  let m := if x.2.2.1 > m then x.2.2.1 else m
  if x.2.2.2 > m then x.2.2.2 else m

/-- the exit test of the iterative refinement, x_ocp_qp_ipm.c:2415-2419 -/
def itrefDone (E : Env K) (rmax x : K × K × K × K) : Bool :=
  (decide (x.1 < E.arg.r .res_g_max) || decide (x.1 < 1 / 1000 * rmax.1)) &&
  (decide (x.2.1 < E.arg.r .res_b_max) || decide (x.2.1 < 1 / 1000 * rmax.2.1)) &&
  (decide (x.2.2.1 < E.arg.r .res_d_max) || decide (x.2.2.1 < 1 / 1000 * rmax.2.2.1)) &&
  (decide (x.2.2.2 < E.arg.r .res_m_max) || decide (x.2.2.2 < 1 / 1000 * rmax.2.2.2))

/-- adding (or, with `a = -1`, removing) the refinement, x_ocp_qp_ipm.c:2434-2441, 2482-2489 -/
def addItref (E : Env K) (a : K) (s : Ipm K) : Ipm K :=
  let D := E.qp.dim
  let ux := loop (D.N + 1) (fun ii ux => upd ux ii (axpy (nvt D ii) a (s.itr.ux ii) 0 (ux ii) 0 (ux ii) 0)) s.kkt.ux
  let pi := loop D.N (fun ii pi => upd pi ii (axpy (net D ii) a (s.itr.pi ii) 0 (pi ii) 0 (pi ii) 0)) s.kkt.pi
  let lam := loop (D.N + 1) (fun ii lam => upd lam ii (axpy (nct D ii) a (s.itr.lam ii) 0 (lam ii) 0 (lam ii) 0)) s.kkt.lam
  let t := loop (D.N + 1) (fun ii t => upd t ii (axpy (nct D ii) a (s.itr.t ii) 0 (t ii) 0 (t ii) 0)) s.kkt.t
  syncStep D { s with kkt := { s.kkt with
    ux := ux
    pi := pi
    lam := lam
    t := t } }

/-- result of a refinement loop: number of passes in the counter, whether a correction was tried -/
structure ItOut (K : Type*) where
  s : Ipm K
  cnt : ℕ
  did : Bool

/-- the refinement loop, x_ocp_qp_ipm.c:2412-2506 (predictor) and 2655-2727 (corrector).  `x` are the current
norms, `mx` the value of the outer variable `max_itref_qp_norm`; in the predictor loop (`shadow = true`) the new
maximum is stored in a variable declared inside the loop body, so that the outer one never changes.  `n` is the
number of passes left. -/
def itrefLoop (E : Env K) (kk : ℕ) (shadow : Bool) : ℕ → ℕ → Bool → K × K × K × K → K → Ipm K → ItOut K
  | 0, cnt, did, _, _, s => ⟨s, cnt, did⟩
  | n + 1, cnt, did, x, mx, s =>
    if itrefDone E s.rmax x then ⟨s, cnt, did⟩
    else
      let s := addItref E 1 (maskStep E (solveItref E s))
      let r := linRes E s
      let s := putG4 E kk 16 r.2 r.1
      let mx' := max4 r.2
      if mx' ≥ mx then ⟨putG4 E kk 16 x (addItref E (-1) s), cnt, true⟩
      else itrefLoop E kk shadow n (cnt + 1) true r.2 (if shadow then mx else mx') s

/-- refinement: initial residual, then the loop -/
def itref (E : Env K) (kk : ℕ) (shadow : Bool) (max : ℤ) (s : Ipm K) : ItOut K :=
  let r := linRes E s
  itrefLoop E kk shadow max.toNat 0 false r.2 (max4 r.2) (putG4 E kk 16 r.2 r.1)

/-- COMPUTE_ALPHA_QP and the two statistics columns -/
def alphaStep (E : Env K) (kk col : ℕ) (s : Ipm K) : Ipm K :=
  let s := { s with core := computeAlpha E.sq s.core }
  putG E kk (col + 1) s.core.alpha_dual (putG E kk col s.core.alpha_prim s)

/-- `BACKUP_RES_M; COMPUTE_TAU_MIN_QP; mask`, x_ocp_qp_ipm.c:2258-2267 -/
def affineRhs (E : Env K) (s : Ipm K) : Ipm K :=
  maskResM E { s with core := computeTauMin (backupResM s.core) }

/-- factorise and solve for the affine direction, x_ocp_qp_ipm.c:2270-2371 (the test for NaN in the first entry is
dropped: exact arithmetic) -/
def factPhase (E : Env K) (kk : ℕ) (s : Ipm K) : Option (Ipm K) :=
  if E.lqf = 0 then
    (factStep E s).map fun s => let s := maskStep E s; putG E kk 13 (if s.lastLq then 1 else 0) s
  else if E.lqf = 1 then
    (factStep E s).bind fun s =>
      let s := maskStep E s
      let r := linRes E s
      let s := putG E kk 13 (if r.1.lastLq then 1 else 0) r.1
      if r.2.1 > 1 / 100000 ∨ r.2.2.1 > 1 / 100000 ∨ r.2.2.2.1 > 1 / 100000 ∨ r.2.2.2.2 > 1 / 100000 then
        (lqStep E s).map fun s => let s := maskStep E s; putG E kk 13 (if s.lastLq then 1 else 0) s
      else some s
  else
    (lqStep E s).map fun s => let s := maskStep E s; putG E kk 13 (if s.lastLq then 1 else 0) s

/-- refinement of the prediction step, x_ocp_qp_ipm.c:2374-2512.  A negative `itref_pred_max` computes the residual
and makes no pass. -/
def predPhase (E : Env K) (kk : ℕ) (s : Ipm K) : Ipm K :=
  let o : ItOut K := if E.arg.i .itref_pred_max = 0 then ⟨putG4 E kk 16 (0, 0, 0, 0) s, 0, false⟩
    else itref E kk true (E.arg.i .itref_pred_max) s
  alphaStep E kk 0 (putG E kk 20 (if o.s.npd then 1 else 0) (putG E kk 14 (o.cnt : K) o.s))

/-- Mehrotra's centering weight, x_ocp_qp_ipm.c:2528-2537 -/
def sigmaStep (E : Env K) (kk : ℕ) (s : Ipm K) : Ipm K :=
  let s := { s with core := computeMuAff s.core }
  let s := putG E kk 2 s.core.mu_aff s
  let tmp := s.core.mu_aff / s.core.mu
  let s := { s with core := { s.core with sigma := tmp * tmp * tmp } }
  putG E kk 3 s.core.sigma s

/-- predictor-corrector of the relative formulation without refinement, x_ocp_qp_ipm.c:2524-2612 -/
def corrPhase (E : Env K) (kk : ℕ) (s : Ipm K) : Ipm K :=
  let s := sigmaStep E kk s
  let s := maskResM E { s with core := computeCenteringCorrection s.core }
  let s := alphaStep E kk 4 (maskStep E (solveStep E s))
  if E.arg.i .cond_pred_corr = 1 then
    let mu_aff0 := s.core.mu_aff
    let s := { s with core := computeMuAff s.core }
    if s.core.mu_aff > 2 * mu_aff0 then
      let s := maskResM E { s with core := computeCentering s.core }
      alphaStep E kk 4 (maskStep E (solveStep E s))
    else s
  else s

/-- refinement of the corrected step, x_ocp_qp_ipm.c:2614-2738 -/
def corrItref (E : Env K) (kk : ℕ) (s : Ipm K) : ItOut K :=
  if E.arg.i .itref_corr_max > 0 then
    let o := itref E kk false (E.arg.i .itref_corr_max) s
    if o.did then { o with s := alphaStep E kk 4 o.s } else o
  else ⟨s, 0, false⟩

/-- UPDATE_VAR_QP and masking, x_ocp_qp_ipm.c:2764-2768 -/
def updStep (E : Env K) (s : Ipm K) : Ipm K := maskLam E { s with core := updateVar s.core }

/-- OCP_QP_IPM_DELTA_STEP, x_ocp_qp_ipm.c:2232-2772 -/
def deltaStep (E : Env K) (kk : ℕ) (s : Ipm K) : Option (Ipm K) :=
  (factPhase E kk (affineRhs E s)).map fun s =>
    let s := predPhase E kk s
    let o : ItOut K := if E.arg.i .pred_corr = 1 then corrItref E kk (corrPhase E kk s) else ⟨s, 0, false⟩
    let s := if E.arg.i .itref_corr_max = 0 then putG4 E kk 16 (0, 0, 0, 0) o.s else o.s
    updStep E (putG E kk 15 (o.cnt : K) s)

/-- `AXPY(-1.0, qp_sol, sol_step)`, x_ocp_qp_ipm.c:2096-2099 -/
def subSol (E : Env K) (s : Ipm K) : Ipm K :=
  let c := s.core
  syncBack E.qp.dim { s with core := { c with
    dv := axpy c.nv (-1) c.v 0 c.dv 0 c.dv 0
    dpi := axpy c.ne (-1) c.pi 0 c.dpi 0 c.dpi 0
    dlam := axpy c.nc (-1) c.lam 0 c.dlam 0 c.dlam 0
    dt := axpy c.nc (-1) c.t 0 c.dt 0 c.dt 0 } }

/-- predictor-corrector of the absolute formulation, x_ocp_qp_ipm.c:2122-2211 -/
def absCorr (E : Env K) (kk : ℕ) (s : Ipm K) : Ipm K :=
  let s := sigmaStep E kk s
  let s := maskResM E { s with core := computeCenteringCorrection s.core }
  let s := alphaStep E kk 4 (maskStep E (subSol E (solveStep E s)))
  if E.arg.i .cond_pred_corr = 1 then
    let mu_aff0 := s.core.mu_aff
    let s := { s with core := computeMuAff s.core }
    if s.core.mu_aff > 2 * mu_aff0 then
      let s := maskResM E { s with core := computeCentering s.core }
      alphaStep E kk 4 (maskStep E (subSol E (solveStep E s)))
    else s
  else s

/-- OCP_QP_IPM_ABS_STEP, x_ocp_qp_ipm.c:2053-2228 -/
def absStep (E : Env K) (kk : ℕ) (s : Ipm K) : Option (Ipm K) :=
  let c := s.core
  let s := { s with core := { c with
    res_m := fun i => if i < c.nc then -1 * c.res_m i + (-2) * fm E.qp i else c.res_m i } }
  (factStep E (affineRhs E s)).map fun s =>
    let s := maskStep E (subSol E s)
    let s := alphaStep E kk 0 (putG E kk 20 (if s.npd then 1 else 0) s)
    let s := if E.arg.i .pred_corr = 1 then absCorr E kk s else s
    updStep E s

/-- `VECMUL(lam, t, res_m); AXPY(-1, m, res_m); mask; mu = VECNRM_1(res_m)*nc_mask_inv`,
x_ocp_qp_ipm.c:2991-2999, 3018-3026 -/
def absMu (E : Env K) (s : Ipm K) : Ipm K :=
  let c := s.core
  let rm := vecmul c.nc c.lam 0 c.t 0 c.res_m 0
  let rm := axpy c.nc (-1) (fm E.qp) 0 rm 0 rm 0
  let s := maskResM E { s with core := { c with res_m := rm } }
  { s with core := { s.core with mu := vecnrm1 s.core.nc s.core.res_m 0 * s.core.nc_mask_inv } }

/-- OCP_QP_RES_COMPUTE and OCP_QP_RES_COMPUTE_INF_NORM on `ws->res`, x_ocp_qp_ipm.c:3067-3079, 3117-3129 -/
def resStep (E : Env K) (s : Ipm K) : Ipm K :=
  let r := resCompute (qpNow E s) (solOf E.qp.dim s.core) s.res s.rws
  { s with
    res := r
    rmax := resInfNorm E.qp.dim r
    core := { s.core with res_m := stFlat (nct E.qp.dim) r.res_m (E.qp.dim.N + 1) } }

/-- `res_m_tau`, x_ocp_qp_ipm.c:3093-3095, 3146-3147 -/
def resMTau (E : Env K) (s : Ipm K) : K :=
  vecnrmInf s.core.nc (axpy s.core.nc (-(E.arg.r .tau_min)) (fmask E.qp) 0 s.core.res_m 0 s.core.res_m 0) 0

/-- what the loop guard of the relative formulation sees -/
def obsRel (E : Env K) (s : Ipm K) : Obs K where
  ap := some s.core.alpha_prim
  ad := some s.core.alpha_dual
  rg := some s.rmax.1
  rb := some s.rmax.2.1
  rd := some s.rmax.2.2.1
  rm := some (resMTau E s)
  gap := some s.res.dual_gap
  mu := some s.core.mu

/-- one pass of the relative loop, x_ocp_qp_ipm.c:3110-3149 -/
def relBody (E : Env K) (kk : ℕ) (s : Ipm K) : Option (Ipm K) :=
  (deltaStep E kk s).map fun s =>
    let s := resStep E s
    let s := { s with core := { s.core with mu := s.res.res_mu } }
    putG E kk 12 s.res.obj (putG E kk 11 s.res.dual_gap (putG4 E kk 7 s.rmax (putG E kk 6 s.res.res_mu s)))

/-- one pass of the absolute loop, x_ocp_qp_ipm.c:3012-3033 -/
def absBody (E : Env K) (kk : ℕ) (s : Ipm K) : Option (Ipm K) :=
  (absStep E kk s).map fun s =>
    let s := absMu E s
    putG E kk 6 s.core.mu s

/-- number of nonzero masks, x_ocp_qp_ipm.c:2876-2881 -/
def ncMask (qp : OcpQp K) (nc : ℕ) : ℕ := loop nc (fun ii n => if fmask qp ii ≠ 0 then n + 1 else n) 0

/-- the prologue of the solver: arguments to the core workspace, aliasing, masks, x_ocp_qp_ipm.c:2803-2908.
`t_min_inv = 1e30` for `t_min <= 0`. -/
def prologue (E : Env K) (sol : Sol K) (s : Ipm K) : Ipm K :=
  let D := E.qp.dim
  let a := E.arg
  let nc := s.core.nc
  let c := { putSol D sol s.core with
    lam_min := a.r .lam_min
    t_min := a.r .t_min
    t_min_inv := if a.r .t_min > 0 then 1 / a.r .t_min else 10 ^ 30
    tau_min := a.r .tau_min
    split_step := if a.i .split_step = 1 then 1 else 0
    m_safe := a.r .m_safe
    t_lam_min := (a.i .t_lam_min).toNat
    m := fun i => if i < nc then fm E.qp i * fmask E.qp i else s.core.m i }
  let n := ncMask E.qp nc
  let inv : K := if n = 0 then 0 else 1 / (n : K)
  { s with
    core := { c with nc_mask_inv := inv }
    kkt := { s.kkt with
      BAbt := E.qp.BAbt
      RSQrq := E.qp.RSQrq }
    rmax := (0, 0, 0, 0)
    preg_last := a.r .reg_prim
    lastLq := false
    mask := decide (n < nc)
    rws := { s.rws with
      mask_constr := decide (n < nc)
      nc_mask_inv := inv
      valid_nc_mask := true } }

/-- what the caller sees -/
structure SolveOut (K : Type*) where
  s : Ipm K
  iter : ℕ
  status : Status

/-- the unconstrained branch, x_ocp_qp_ipm.c:2912-2956 (no NaN in exact arithmetic) -/
def solveUnc (E : Env K) (s : Ipm K) : SolveOut K :=
  let D := E.qp.dim
  let sol := solOf D s.core
  let k := unconstr E.sq E.qp (dualF E) E.sqr (E.arg.r .reg_prim)
    { s.kkt with
      ux := sol.ux
      pi := sol.pi
      lam := sol.lam
      t := sol.t }
  let s := { s with
    core := putSol D (stepOf k) s.core
    kkt := { k with
      ux := s.kkt.ux
      pi := s.kkt.pi
      lam := s.kkt.lam
      t := s.kkt.t } }
  let s := if E.arg.i .comp_res_exit ≠ 0 then
      let s := resStep E s
      let s := { s with core := { s.core with mu := s.res.res_mu } }
      if 0 < E.statMax then
        put E 11 s.res.obj (put E 10 s.res.dual_gap (put E 9 s.rmax.2.2.2 (put E 8 s.rmax.2.2.1
          (put E 7 s.rmax.2.1 (put E 6 s.rmax.1 s)))))
      else s
    else s
  ⟨s, 0, .SUCCESS⟩

/-- exit of the solver, x_ocp_qp_ipm.c:3154-3203 -/
def epilogue (E : Env K) (obs : Ipm K → Obs K) (r : ℕ × Ipm K) : SolveOut K :=
  let s := r.2
  let s := if E.arg.i .update_fact_exit = 1 ∧ r.1 = 0 then
      let c := computeGGamma s.core
      { s with
        core := backupVar c
        kkt := E.factOnly (qpNow E s) c s.kkt }
    else s
  let s := { s with rws := { s.rws with valid_nc_mask := false } }
  ⟨s, r.1, statusOf E.arg r.1 (obs s)⟩

/-- initialisation of the iterate, x_ocp_qp_ipm.c:2931-2954 -/
def ipmInit (E : Env K) (s : Ipm K) : Ipm K :=
  let D := E.qp.dim
  let s := maskLam E { s with core := putSol D (initVar E.sq E.qp E.arg (solOf D s.core)) s.core }
  { s with core := { s.core with
    alpha_prim := 1
    alpha_dual := 1
    m_zero := decide (vecnrmInf s.core.nc (fm E.qp) 0 = 0) } }

/-- residuals before the relative loop, x_ocp_qp_ipm.c:3067-3089 -/
def relStart (E : Env K) (s : Ipm K) : Ipm K :=
  let s := resStep E s
  let s := { s with core := { s.core with mu := s.res.res_mu } }
  if 0 < E.statMax then
    put E 12 s.res.obj (put E 11 s.res.dual_gap (put E 10 s.rmax.2.2.2 (put E 9 s.rmax.2.2.1
      (put E 8 s.rmax.2.1 (put E 7 s.rmax.1 s)))))
  else s

/-- residuals after the absolute loop, x_ocp_qp_ipm.c:3035-3060 -/
def absEnd (E : Env K) (kk : ℕ) (s : Ipm K) : Ipm K :=
  if E.arg.i .comp_res_exit ≠ 0 ∧ E.arg.i .comp_dual_sol_eq ≠ 0 then
    let s := resStep E s
    if (kk : ℤ) < E.statMax then
      put E (21 * kk + 12) s.res.obj (put E (21 * kk + 11) s.res.dual_gap (put E (21 * kk + 10) s.rmax.2.2.2
        (put E (21 * kk + 9) s.rmax.2.2.1 (put E (21 * kk + 8) s.rmax.2.1 (put E (21 * kk + 7) s.rmax.1 s)))))
    else s
  else s

/-- OCP_QP_IPM_SOLVE, x_ocp_qp_ipm.c:2777-3215; `none`: a factorisation that does not find a regularisation within
`E.fuel` attempts, or (never, see `ipm_terminates`) more passes than `loopFuel` -/
def ipmSolve (E : Env K) (loopFuel : ℕ) (sol : Sol K) (s : Ipm K) : Option (SolveOut K) :=
  let nc := s.core.nc
  let s := prologue E sol s
  if nc = 0 ∨ ncMask E.qp nc = 0 then some (solveUnc E s)
  else
    let s := ipmInit E s
    if E.arg.i .abs_form ≠ 0 then
      (ipmLoop (fun s => contAbs E.arg (obsRel E s)) (absBody E) (E.arg.i .iter_max) loopFuel 0 (absMu E s)).map fun r =>
        epilogue E (obsRel E) (r.1, absEnd E r.1 r.2)
    else
      (ipmLoop (fun s => contRel E.arg (obsRel E s)) (relBody E) (E.arg.i .iter_max) loopFuel 0 (relStart E s)).map fun r =>
        epilogue E (obsRel E) r

end
end Hpipm
