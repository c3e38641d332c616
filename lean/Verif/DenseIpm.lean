/-
Model of the interior point solver for dense QPs, DENSE_QP_IPM_SOLVE with its two step routines
(dense_qp/x_dense_qp_ipm.c:1374-2701).

* Exact arithmetic over an ordered field; `sqrt` is the parameter `sq`.
* Memory: the solution vectors are the core workspace's `v pi lam t` (x_dense_qp_ipm.c:2300-2303), the step vectors
  its `dv dpi dlam dt` and `ws->res->res_m` its `res_m` (DENSE_QP_IPM_WS_CREATE, lines 970-1190).  The step is kept both in the
  core workspace and in the state of the KKT solver, synchronised after every change (`dsyncStep`).
* The LQ-based factorisation (x_dense_qp_kkt.c:1989-2390) and the factorisation without solve
  (x_dense_qp_kkt.c:872-1163, used by `update_fact_exit`) are parameters `lq`, `factOnly` of the environment.
* `remove_lin_dep_eq` is taken to be zero, its default (x_dense_qp_ipm.c:102, 139, 176, 213): the removal and restoration of
  equality constraints (lines 2266-2274, 2682-2685) are not part of this function.
* Statistics are written to a table of `21*(1+stat_max)` reals; a write outside sets `oob`.
* DENSE_QP_COMPUTE_STEP_LENGTH (lines 2971-2978) returns at once.
-/
import Verif.IpmCtl
import Verif.IpmInit
import Verif.DenseKkt

namespace Hpipm

section
variable {K : Type*} [Field K] [LinearOrder K] [IsStrictOrderedRing K]

/-- `struct DENSE_QP_IPM_ARG` (include/hpipm_d_dense_qp_ipm.h): the members it shares with the OCP solver, and its own -/
structure DIpmArg (K : Type*) extends IpmArg K where
  reg_dual : K
  kkt_fact_alg : ℕ
  scale : Bool
  compute_obj : ℤ

/-- the options read by the KKT routines -/
def DIpmArg.kkt (a : DIpmArg K) : DArg K := ⟨a.kkt_fact_alg, a.scale, a.r .reg_prim, a.reg_dual⟩

/-- the state of the solver: the core workspace and the members of `struct DENSE_QP_IPM_WS` that it uses, and the objective
stored in the solution object -/
structure DIpm (K : Type*) where
  core : Core K
  /-- `ws->res` (its `res_m` is `core.res_m`) -/
  res : DRes K
  /-- `ws->res->res_max` -/
  rmax : K × K × K × K
  /-- `ws->res_ws` -/
  rws : ResWs K
  /-- `ws->res_itref` -/
  resIt : DRes K
  /-- matrices of the KKT solver and `ws->sol_step` -/
  kkt : DKkt K
  /-- `ws->sol_itref` -/
  itr : DqSol K
  preg_last : K
  dreg_last : K
  npd : Bool
  lastLq : Bool
  /-- `ws->scale` -/
  wscale : Bool
  mask : Bool
  stat : ℕ → K
  oob : Bool
  /-- `qp->Hv` (only the unconstrained branch writes to it, and only its last row) -/
  Hv : Mat K
  /-- `qp_sol->obj`, `qp_sol->valid_obj` -/
  obj : K
  validObj : Bool

/-- what does not change during a solve -/
structure DEnv (K : Type*) where
  sq : K → K
  /-- bound on the number of regularisation attempts of one factorisation -/
  fuel : ℕ
  /-- LQ factorisation used by the null space method -/
  lqd : ℕ → ℕ → Mat K → Mat K × Mat K
  qp : DenseQp K
  arg : DIpmArg K
  /-- `ws->lq_fact`, fixed at creation -/
  lqf : ℤ
  /-- `ws->stat_max`, fixed at creation -/
  statMax : ℤ
  /-- DENSE_QP_FACT_LQ_SOLVE_KKT_STEP after COMPUTE_GAMMA_GAMMA_QP: KKT state, `last_lq_fact`, `ws->scale` -/
  lq : DenseQp K → Core K → DKkt K → DKkt K × Bool × Bool
  /-- DENSE_QP_FACT_KKT_STEP after COMPUTE_GGAMMA_QP -/
  factOnly : DenseQp K → Core K → DKkt K → DKkt K

/-! ### initialisation -/

/-- one box constraint, x_dense_qp_ipm.c:1468-1504.  The midpoint of the bounds is computed as `0.5*(d_lb0 + d_ub0)`, although
`d_ub0` is the negated upper bound. -/
def diniBox (nbg : ℕ) (idxb : ℕ → ℕ) (d mask : Vec K) (mu0 : K) (ii : ℕ) (s : IniSt K) : IniSt K :=
  let x := s.ux (idxb ii)
  let d_lb0 := if mask ii = 0 then x - 1 else d ii
  let d_ub0 := if mask (nbg + ii) = 0 then -x - 1 else d (nbg + ii)
  let tl := -d_lb0 + x
  let tu := -d_ub0 - x
  let r : K × K × K :=
    if tl < thr0 then
      if tu < thr0 then (1 / 2 * (d_lb0 + d_ub0), thr0, thr0)
      else (d_lb0 + thr0, thr0, tu)
    else if tu < thr0 then (-d_ub0 - thr0, tl, thr0)
    else (x, tl, tu)
  { ux := upd s.ux (idxb ii) r.1
    t := upd (upd s.t ii r.2.1) (nbg + ii) r.2.2
    lam := upd (upd s.lam ii (mu0 / r.2.1)) (nbg + ii) (mu0 / r.2.2) }

/-- one general constraint, x_dense_qp_ipm.c:1511-1523.  The upper side starts from `t[nb+ii]`, not from its negative. -/
def diniGen (nb ng : ℕ) (d mask : Vec K) (mu0 : K) (ii : ℕ) (s : IniSt K) : IniSt K :=
  let tl := s.t (nb + ii)
  let tu := tl
  let tl := if mask (nb + ii) ≠ 0 then tl - d (nb + ii) else tl
  let tu := if mask (2 * nb + ng + ii) ≠ 0 then tu - d (2 * nb + ng + ii) else tu
  let tl := if thr0 > tl then thr0 else tl
  let tu := if thr0 > tu then thr0 else tu
  { s with
    t := upd (upd s.t (nb + ii) tl) (2 * nb + ng + ii) tu
    lam := upd (upd s.lam (nb + ii) (mu0 / tl)) (2 * nb + ng + ii) (mu0 / tu) }

/-- one pair of slack bounds, x_dense_qp_ipm.c:1527-1534 -/
def diniSoft (n2 ns : ℕ) (mu0 : K) (ii : ℕ) (s : IniSt K) : IniSt K :=
  { s with
    t := upd (upd s.t (n2 + ii) 1) (n2 + ns + ii) 1
    lam := upd (upd s.lam (n2 + ii) (mu0 / 1)) (n2 + ns + ii) (mu0 / 1) }

/-- DENSE_QP_INIT_VAR, x_dense_qp_ipm.c:1374-1538 -/
def dinitVar (sq : K → K) (qp : DenseQp K) (a : DIpmArg K) (sol : DqSol K) : DqSol K :=
  let D := qp.dim
  let mu0 := a.r .mu0
  let fin (sol : DqSol K) (s : IniSt K) : DqSol K := { sol with v := s.ux, lam := s.lam, t := s.t }
  let st (sol : DqSol K) : IniSt K := { ux := sol.v, lam := sol.lam, t := sol.t }
  if a.i .warm_start ≥ 3 then fin sol (iniClip D.nct (a.r .lam0_min) (a.r .t0_min) (st sol))
  else if a.i .warm_start = 2 then fin sol (iniClip D.nct thr0 thr0 (st sol))
  else
    let sol := if a.i .warm_start = 0 then { sol with v := vecse (D.nv + 2 * D.ns) 0 sol.v 0 } else sol
    let sol := { sol with pi := vecse D.ne 0 sol.pi 0 }
    if a.i .t0_init = 0 then fin sol (iniConst D.nct (sq mu0) (sq mu0) (st sol))
    else if a.i .t0_init = 1 then fin sol (iniConst D.nct mu0 1 (st sol))
    else
      let s := loop D.nb (diniBox (D.nb + D.ng) qp.idxb qp.d qp.d_mask mu0) (st sol)
      let s := if D.ng > 0 then
          loop D.ng (diniGen D.nb D.ng qp.d qp.d_mask mu0)
            { s with t := gemv_t D.nv D.ng 1 qp.Ct 0 0 s.ux 0 0 s.t D.nb s.t D.nb }
        else s
      fin sol (loop D.ns (diniSoft (2 * D.nb + 2 * D.ng) D.ns mu0) s)

/-! ### views -/

/-- the solution object; aliasing of x_dense_qp_ipm.c:2300-2303 -/
def dsolOf (c : Core K) : DqSol K := ⟨c.v, c.pi, c.lam, c.t⟩

/-- the memory of a solution object seen through the core workspace -/
def dputSol (x : DqSol K) (c : Core K) : Core K :=
  { c with
    v := x.v
    pi := x.pi
    lam := x.lam
    t := x.t }

/-- the step object -/
def dstp (st : DKkt K) : DqSol K := ⟨st.v, st.pi, st.lam, st.t⟩

/-- the step object seen through the core workspace -/
def dsyncStep (s : DIpm K) : DIpm K :=
  { s with
    core := { s.core with
      dv := s.kkt.v
      dpi := s.kkt.pi
      dlam := s.kkt.lam
      dt := s.kkt.t } }

/-- writing the step object -/
def dsetStep (x : DqSol K) (s : DIpm K) : DIpm K :=
  dsyncStep { s with
    kkt := { s.kkt with
      v := x.v
      pi := x.pi
      lam := x.lam
      t := x.t } }

/-- the caller's QP with the current contents of `Hv` -/
def dqpNow (E : DEnv K) (s : DIpm K) : DenseQp K := { E.qp with Hv := s.Hv }

/-- `ws->qp_step`, x_dense_qp_ipm.c:2306-2317 (relative) and 2461-2473 (absolute formulation) -/
def dqpStep (E : DEnv K) (s : DIpm K) : DenseQp K :=
  if E.arg.i .abs_form ≠ 0 then { dqpNow E s with m := s.core.res_m }
  else { dqpNow E s with
    gz := s.res.res_g
    b := s.res.res_b
    d := s.res.res_d
    m := s.core.res_m }

/-- `ws->qp_itref`, x_dense_qp_ipm.c:2320-2331 -/
def dqpItref (E : DEnv K) (s : DIpm K) : DenseQp K :=
  { dqpNow E s with
    gz := s.resIt.res_g
    b := s.resIt.res_b
    d := s.resIt.res_d
    m := s.resIt.res_m }

/-! ### statistics -/

/-- `stat[i] = x` -/
def dput (E : DEnv K) (i : ℕ) (x : K) (s : DIpm K) : DIpm K :=
  { s with
    stat := upd s.stat i x
    oob := s.oob || decide ((i : ℤ) ≥ 21 * (1 + E.statMax)) }

/-- `if(kk+1<ws->stat_max) stat[stat_m*(kk+1)+col] = x` -/
def dputG (E : DEnv K) (kk col : ℕ) (x : K) (s : DIpm K) : DIpm K :=
  if ((kk : ℤ) + 1) < E.statMax then dput E (21 * (kk + 1) + col) x s else s

/-- four consecutive columns -/
def dputG4 (E : DEnv K) (kk col : ℕ) (x : K × K × K × K) (s : DIpm K) : DIpm K :=
  dputG E kk (col + 3) x.2.2.2 (dputG E kk (col + 2) x.2.2.1 (dputG E kk (col + 1) x.2.1 (dputG E kk col x.1 s)))

/-! ### pieces of an iteration -/

/-- `if(ws->mask_constr) VECMUL(nc, d_mask, 0, res_m, 0, res_m, 0)`, e.g. x_dense_qp_ipm.c:1732-1736 -/
def dmaskResM (E : DEnv K) (s : DIpm K) : DIpm K :=
  if s.mask then { s with core := { s.core with res_m := vecmul s.core.nc E.qp.d_mask 0 s.core.res_m 0 s.core.res_m 0 } }
  else s

/-- masking of the slacks and multipliers of a step, e.g. x_dense_qp_ipm.c:1743-1749 -/
def dmaskSol (E : DEnv K) (nc : ℕ) (x : DqSol K) : DqSol K :=
  { x with
    t := vecmul nc E.qp.d_mask 0 x.t 0 x.t 0
    lam := vecmul nc E.qp.d_mask 0 x.lam 0 x.lam 0 }

/-- masking of the step -/
def dmaskStep (E : DEnv K) (s : DIpm K) : DIpm K :=
  if s.mask then dsetStep (dmaskSol E s.core.nc (dstp s.kkt)) s else s

/-- masking of the refinement, x_dense_qp_ipm.c:1884-1890 -/
def dmaskItr (E : DEnv K) (s : DIpm K) : DIpm K :=
  if s.mask then { s with itr := dmaskSol E s.core.nc s.itr } else s

/-- masking of the multipliers, x_dense_qp_ipm.c:1689-1693, 2233-2237, 2435-2440 -/
def dmaskLam (E : DEnv K) (s : DIpm K) : DIpm K :=
  if s.mask then { s with core := { s.core with lam := vecmul s.core.nc E.qp.d_mask 0 s.core.lam 0 s.core.lam 0 } }
  else s

/-- DENSE_QP_FACT_SOLVE_KKT_STEP(qp_step, sol_step) -/
def dfactStep (E : DEnv K) (s : DIpm K) : Option (DIpm K) :=
  (dfactSolve E.sq E.lqd E.fuel (dqpStep E s) E.arg.kkt s.preg_last s.dreg_last s.core s.kkt).map fun o =>
    dsyncStep { s with
      core := o.core
      kkt := o.st
      npd := o.npd_reg_hess
      preg_last := o.preg_last
      dreg_last := o.dreg_last
      lastLq := false }

/-- DENSE_QP_FACT_LQ_SOLVE_KKT_STEP(qp_step, sol_step), x_dense_qp_kkt.c:1989-2390; the call of COMPUTE_GAMMA_GAMMA_QP is
modelled (it is skipped when there are only slack bounds), the rest is the parameter `lq` -/
def dlqStep (E : DEnv K) (s : DIpm K) : DIpm K :=
  let q := dqpStep E s
  let c := if q.dim.nb + q.dim.ng > 0 then computeGammaGamma q.d q.m s.core else s.core
  let o := E.lq q c s.kkt
  dsyncStep { s with
    core := c
    kkt := o.1
    lastLq := o.2.1
    wscale := o.2.2 }

/-- DENSE_QP_SOLVE_KKT_STEP(qp_step, sol_step) -/
def dsolveStep (E : DEnv K) (s : DIpm K) : DIpm K :=
  let r := dsolveKkt (dqpStep E s) E.arg.kkt_fact_alg s.wscale s.core s.kkt
  dsyncStep { s with
    core := r.1
    kkt := r.2 }

/-- DENSE_QP_SOLVE_KKT_STEP(qp_itref, sol_itref): the workspace is shared, the step object is not -/
def dsolveItref (E : DEnv K) (s : DIpm K) : DIpm K :=
  let r := dsolveKkt (dqpItref E s) E.arg.kkt_fact_alg s.wscale s.core
    { s.kkt with
      v := s.itr.v
      pi := s.itr.pi
      lam := s.itr.lam
      t := s.itr.t }
  { s with
    core := r.1
    itr := dstp r.2
    kkt := { r.2 with
      v := s.kkt.v
      pi := s.kkt.pi
      lam := s.kkt.lam
      t := s.kkt.t } }

/-- residual of the Newton system at the current step and its norms, e.g. x_dense_qp_ipm.c:1846-1858 -/
def dlinRes (E : DEnv K) (s : DIpm K) : DIpm K × (K × K × K × K) :=
  let r := dresComputeLin (dqpStep E s) (dsolOf s.core) (dstp s.kkt) s.resIt s.rws
  ({ s with resIt := r }, dresInfNorm E.qp.dim r)

/-- the largest of four norms, x_dense_qp_ipm.c:1867-1869 -/
def dmax4 (x : K × K × K × K) : K :=
  let m := if x.1 > x.2.1 then x.1 else x.2.1
  let m := if x.2.2.1 > m then x.2.2.1 else m
  if x.2.2.2 > m then x.2.2.2 else m

/-- the exit test of the iterative refinement, x_dense_qp_ipm.c:1874-1878 -/
def ditrefDone (E : DEnv K) (rmax x : K × K × K × K) : Bool :=
  (decide (x.1 < E.arg.r .res_g_max) || decide (x.1 < 1 / 1000 * rmax.1)) &&
  (decide (x.2.1 < E.arg.r .res_b_max) || decide (x.2.1 < 1 / 1000 * rmax.2.1)) &&
  (decide (x.2.2.1 < E.arg.r .res_d_max) || decide (x.2.2.1 < 1 / 1000 * rmax.2.2.1)) &&
  (decide (x.2.2.2 < E.arg.r .res_m_max) || decide (x.2.2.2 < 1 / 1000 * rmax.2.2.2))

/-- adding (or, with `a = -1`, removing) the refinement, x_dense_qp_ipm.c:1892-1895, 1931-1934 -/
def daddItref (E : DEnv K) (a : K) (s : DIpm K) : DIpm K :=
  let D := E.qp.dim
  dsetStep ⟨axpy (D.nv + 2 * D.ns) a s.itr.v 0 s.kkt.v 0 s.kkt.v 0, axpy D.ne a s.itr.pi 0 s.kkt.pi 0 s.kkt.pi 0,
    axpy D.nct a s.itr.lam 0 s.kkt.lam 0 s.kkt.lam 0, axpy D.nct a s.itr.t 0 s.kkt.t 0 s.kkt.t 0⟩ s

/-- result of a refinement loop: number of passes in the counter, whether a correction was tried -/
structure DItOut (K : Type*) where
  s : DIpm K
  cnt : ℕ
  did : Bool

/-- the refinement loop, x_dense_qp_ipm.c:1871-1950 (predictor) and 2106-2186 (corrector).  `x` are the current norms, `mx`
the value of `max_itref_qp_norm`, `n` the number of passes left. -/
def ditrefLoop (E : DEnv K) (kk : ℕ) : ℕ → ℕ → Bool → K × K × K × K → K → DIpm K → DItOut K
  | 0, cnt, did, _, _, s => ⟨s, cnt, did⟩
  | n + 1, cnt, did, x, mx, s =>
    if ditrefDone E s.rmax x then ⟨s, cnt, did⟩
    else
      let s := daddItref E 1 (dmaskItr E (dsolveItref E s))
      let r := dlinRes E s
      let s := dputG4 E kk 16 r.2 r.1
      let mx' := dmax4 r.2
      if mx' ≥ mx then ⟨dputG4 E kk 16 x (daddItref E (-1) s), cnt, true⟩
      else ditrefLoop E kk n (cnt + 1) true r.2 mx' s

/-- refinement: initial residual, then the loop -/
def ditref (E : DEnv K) (kk : ℕ) (max : ℤ) (s : DIpm K) : DItOut K :=
  let r := dlinRes E s
  ditrefLoop E kk max.toNat 0 false r.2 (dmax4 r.2) (dputG4 E kk 16 r.2 r.1)

/-- the two statistics columns of the step lengths -/
def dputAlpha (E : DEnv K) (kk col : ℕ) (s : DIpm K) : DIpm K :=
  dputG E kk (col + 1) s.core.alpha_dual (dputG E kk col s.core.alpha_prim s)

/-- COMPUTE_ALPHA_QP and the two statistics columns -/
def dalphaStep (E : DEnv K) (kk col : ℕ) (s : DIpm K) : DIpm K :=
  dputAlpha E kk col { s with core := computeAlpha E.sq s.core }

/-- `BACKUP_RES_M; COMPUTE_TAU_MIN_QP; mask`, x_dense_qp_ipm.c:1728-1736 -/
def daffineRhs (E : DEnv K) (s : DIpm K) : DIpm K :=
  dmaskResM E { s with core := computeTauMin (backupResM s.core) }

/-- factorise and solve for the affine direction, x_dense_qp_ipm.c:1739-1830 (the test for NaN in the first entry is dropped:
exact arithmetic) -/
def dfactPhase (E : DEnv K) (kk : ℕ) (s : DIpm K) : Option (DIpm K) :=
  if E.lqf = 0 then
    (dfactStep E s).map fun s => let s := dmaskStep E s; dputG E kk 13 (if s.lastLq then 1 else 0) s
  else if E.lqf = 1 then
    (dfactStep E s).map fun s =>
      let s := dmaskStep E s
      let r := dlinRes E s
      let s := dputG E kk 13 (if r.1.lastLq then 1 else 0) r.1
      if r.2.1 > 1 / 100000 ∨ r.2.2.1 > 1 / 100000 ∨ r.2.2.2.1 > 1 / 100000 ∨ r.2.2.2.2 > 1 / 100000 then
        let s := dmaskStep E (dlqStep E s)
        dputG E kk 13 (if s.lastLq then 1 else 0) s
      else s
  else
    let s := dmaskStep E (dlqStep E s)
    some (dputG E kk 13 (if s.lastLq then 1 else 0) s)

/-- refinement of the prediction step, x_dense_qp_ipm.c:1833-1989.  A negative `itref_pred_max` computes the residual and
makes no pass. -/
def dpredPhase (E : DEnv K) (kk : ℕ) (s : DIpm K) : DIpm K :=
  let o : DItOut K := if E.arg.i .itref_pred_max = 0 then ⟨dputG4 E kk 16 (0, 0, 0, 0) s, 0, false⟩
    else ditref E kk (E.arg.i .itref_pred_max) s
  dalphaStep E kk 0 (dputG E kk 20 (if o.s.npd then 1 else 0) (dputG E kk 14 (o.cnt : K) o.s))

/-- Mehrotra's centering weight, x_dense_qp_ipm.c:1995-2004 -/
def dsigmaStep (E : DEnv K) (kk : ℕ) (s : DIpm K) : DIpm K :=
  let s := { s with core := computeMuAff s.core }
  let s := dputG E kk 2 s.core.mu_aff s
  let tmp := s.core.mu_aff / s.core.mu
  let s := { s with core := { s.core with sigma := tmp * tmp * tmp } }
  dputG E kk 3 s.core.sigma s

/-- `AXPY(-1.0, qp_sol, sol_step)` of the absolute formulation, x_dense_qp_ipm.c:1569-1572; nothing in the relative one -/
def dsubSol (abs : Bool) (s : DIpm K) : DIpm K :=
  if abs then
    let c := s.core
    dsetStep ⟨axpy c.nv (-1) c.v 0 c.dv 0 c.dv 0, axpy c.ne (-1) c.pi 0 c.dpi 0 c.dpi 0,
      axpy c.nc (-1) c.lam 0 c.dlam 0 c.dlam 0, axpy c.nc (-1) c.t 0 c.dt 0 c.dt 0⟩ s
  else s

/-- solve with the factors at hand for the current `res_m`, then the step lengths, x_dense_qp_ipm.c:2007-2029 -/
def dsolvePhase (E : DEnv K) (abs : Bool) (kk : ℕ) (s : DIpm K) : DIpm K :=
  dalphaStep E kk 4 (dmaskStep E (dsubSol abs (dsolveStep E (dmaskResM E s))))

/-- predictor-corrector without refinement, x_dense_qp_ipm.c:1992-2075 (relative) and 1594-1683 (absolute formulation) -/
def dcorrPhase (E : DEnv K) (abs : Bool) (kk : ℕ) (s : DIpm K) : DIpm K :=
  let s := dsigmaStep E kk s
  let s := dsolvePhase E abs kk { s with core := computeCenteringCorrection s.core }
  if E.arg.i .cond_pred_corr = 1 then
    let mu_aff0 := s.core.mu_aff
    let s := { s with core := computeMuAff s.core }
    if s.core.mu_aff > 2 * mu_aff0 then dsolvePhase E abs kk { s with core := computeCentering s.core }
    else s
  else s

/-- refinement of the corrected step, x_dense_qp_ipm.c:2077-2199 -/
def dcorrItref (E : DEnv K) (kk : ℕ) (s : DIpm K) : DItOut K :=
  if E.arg.i .itref_corr_max > 0 then
    let o := ditref E kk (E.arg.i .itref_corr_max) s
    if o.did then { o with s := dalphaStep E kk 4 o.s } else o
  else ⟨s, 0, false⟩

/-- UPDATE_VAR_QP and masking, x_dense_qp_ipm.c:2232-2237 -/
def dupdStep (E : DEnv K) (s : DIpm K) : DIpm K := dmaskLam E { s with core := updateVar s.core }

/-- DENSE_QP_IPM_DELTA_STEP, x_dense_qp_ipm.c:1700-2242 -/
def ddeltaStep (E : DEnv K) (kk : ℕ) (s : DIpm K) : Option (DIpm K) :=
  (dfactPhase E kk (daffineRhs E { s with wscale := E.arg.scale })).map fun s =>
    let s := dpredPhase E kk s
    let o : DItOut K := if E.arg.i .pred_corr = 1 then dcorrItref E kk (dcorrPhase E false kk s) else ⟨s, 0, false⟩
    let s := if E.arg.i .itref_corr_max = 0 then dputG4 E kk 16 (0, 0, 0, 0) o.s else o.s
    dupdStep E (dputAlpha E kk 4 (dputG E kk 15 (o.cnt : K) s))

/-- DENSE_QP_IPM_ABS_STEP, x_dense_qp_ipm.c:1540-1698 (it does not set `ws->scale`) -/
def dabsStep (E : DEnv K) (kk : ℕ) (s : DIpm K) : Option (DIpm K) :=
  let c := s.core
  let s := { s with core := { c with
    res_m := fun i => if i < c.nc then -1 * c.res_m i + (-2) * E.qp.m i else c.res_m i } }
  (dfactStep E (daffineRhs E s)).map fun s =>
    let s := dmaskStep E (dsubSol true s)
    let s := dalphaStep E kk 0 (dputG E kk 20 (if s.npd then 1 else 0) s)
    dupdStep E (if E.arg.i .pred_corr = 1 then dcorrPhase E true kk s else s)

/-! ### the loop -/

/-- `VECMUL(lam, t, res_m); AXPY(-1, m, res_m); mask; mu = VECNRM_1(res_m)*nc_mask_inv`, x_dense_qp_ipm.c:2481-2488,
2505-2512 -/
def dabsMu (E : DEnv K) (s : DIpm K) : DIpm K :=
  let c := s.core
  let rm := vecmul c.nc c.lam 0 c.t 0 c.res_m 0
  let rm := axpy c.nc (-1) E.qp.m 0 rm 0 rm 0
  let s := dmaskResM E { s with core := { c with res_m := rm } }
  { s with core := { s.core with mu := vecnrm1 s.core.nc s.core.res_m 0 * s.core.nc_mask_inv } }

/-- DENSE_QP_RES_COMPUTE and DENSE_QP_RES_COMPUTE_INF_NORM on `ws->res`, x_dense_qp_ipm.c:2549-2559, 2604-2615 -/
def dresStep (E : DEnv K) (s : DIpm K) : DIpm K :=
  let r := dresCompute (dqpNow E s) (dsolOf s.core) s.res s.rws
  { s with
    res := r
    rmax := dresInfNorm E.qp.dim r
    core := { s.core with res_m := r.res_m } }

/-- `res_m_tau`, x_dense_qp_ipm.c:2575-2577, 2628-2629 -/
def dresMTau (E : DEnv K) (s : DIpm K) : K :=
  vecnrmInf s.core.nc (axpy s.core.nc (-(E.arg.r .tau_min)) E.qp.d_mask 0 s.core.res_m 0 s.core.res_m 0) 0

/-- what the loop guards see -/
def dobs (E : DEnv K) (s : DIpm K) : Obs K where
  ap := some s.core.alpha_prim
  ad := some s.core.alpha_dual
  rg := some s.rmax.1
  rb := some s.rmax.2.1
  rd := some s.rmax.2.2.1
  rm := some (dresMTau E s)
  gap := some s.res.dual_gap
  mu := some s.core.mu

/-- one pass of the relative loop, x_dense_qp_ipm.c:2591-2631 -/
def drelBody (E : DEnv K) (kk : ℕ) (s : DIpm K) : Option (DIpm K) :=
  (ddeltaStep E kk s).map fun s =>
    let s := dresStep E s
    let s := { s with core := { s.core with mu := s.res.res_mu } }
    dputG E kk 12 s.res.obj (dputG E kk 11 s.res.dual_gap (dputG4 E kk 7 s.rmax (dputG E kk 6 s.res.res_mu s)))

/-- one pass of the absolute loop, x_dense_qp_ipm.c:2497-2516 -/
def dabsBody (E : DEnv K) (kk : ℕ) (s : DIpm K) : Option (DIpm K) :=
  (dabsStep E kk s).map fun s =>
    let s := dabsMu E s
    dputG E kk 6 s.core.mu s

/-- number of nonzero masks, x_dense_qp_ipm.c:2354-2359 -/
def dncMask (qp : DenseQp K) (nc : ℕ) : ℕ := loop nc (fun ii n => if qp.d_mask ii ≠ 0 then n + 1 else n) 0

/-- the prologue of the solver: arguments to the core workspace, aliasing, masks, x_dense_qp_ipm.c:2284-2384 -/
def dprologue (E : DEnv K) (sol : DqSol K) (s : DIpm K) : DIpm K :=
  let a := E.arg
  let nc := s.core.nc
  let n := dncMask E.qp nc
  let inv : K := if n = 0 then 0 else 1 / (n : K)
  let c := { dputSol sol s.core with
    lam_min := a.r .lam_min
    t_min := a.r .t_min
    t_min_inv := if a.r .t_min > 0 then 1 / a.r .t_min else 10 ^ 30
    tau_min := a.r .tau_min
    split_step := if a.i .split_step = 1 then 1 else 0
    m_safe := a.r .m_safe
    t_lam_min := (a.i .t_lam_min).toNat
    m := fun i => if i < nc then E.qp.m i * E.qp.d_mask i else s.core.m i
    nc_mask_inv := inv }
  { s with
    core := c
    Hv := E.qp.Hv
    kkt := { s.kkt with use_A_fact := false }
    rmax := (0, 0, 0, 0)
    preg_last := a.r .reg_prim
    dreg_last := a.reg_dual
    lastLq := false
    mask := decide (n < nc)
    rws := { s.rws with
      mask_constr := decide (n < nc)
      nc_mask_inv := inv
      valid_nc_mask := true } }

/-- what the caller sees -/
structure DSolveOut (K : Type*) where
  s : DIpm K
  iter : ℕ
  status : Status

/-- the unconstrained branch, x_dense_qp_ipm.c:2387-2430 (no NaN in exact arithmetic); it leaves `valid_nc_mask` set and
writes its statistics one column to the left of the other branches -/
def dsolveUnc (E : DEnv K) (s : DIpm K) : DSolveOut K :=
  let x := dsolOf s.core
  let r := dunconstr E.sq E.lqd (dqpNow E s) E.arg.kkt_fact_alg
    { s.kkt with
      v := x.v
      pi := x.pi
      lam := x.lam
      t := x.t }
  let s := { s with
    Hv := r.1
    core := dputSol (dstp r.2) s.core
    kkt := { r.2 with
      v := s.kkt.v
      pi := s.kkt.pi
      lam := s.kkt.lam
      t := s.kkt.t } }
  let s := if E.arg.i .comp_res_exit ≠ 0 then
      let s := dresStep E s
      let s := { s with core := { s.core with mu := s.res.res_mu } }
      if 0 < E.statMax then
        dput E 10 s.res.obj (dput E 9 s.rmax.2.2.2 (dput E 8 s.rmax.2.2.1 (dput E 7 s.rmax.2.1 (dput E 6 s.rmax.1 s))))
      else s
    else s
  ⟨s, 0, .SUCCESS⟩

/-- exit of the two loops, x_dense_qp_ipm.c:2633-2676 -/
def depilogue (E : DEnv K) (r : ℕ × DIpm K) : DSolveOut K :=
  let s := r.2
  let s := if E.arg.i .update_fact_exit = 1 ∧ r.1 = 0 then
      let c := computeGGamma s.core
      { s with
        core := backupVar c
        kkt := E.factOnly (dqpNow E s) c s.kkt }
    else s
  let s := { s with rws := { s.rws with valid_nc_mask := false } }
  ⟨s, r.1, statusOf E.arg.toIpmArg r.1 (dobs E s)⟩

/-- initialisation of the iterate, x_dense_qp_ipm.c:2434-2453 -/
def dipmInit (E : DEnv K) (s : DIpm K) : DIpm K :=
  let s := dmaskLam E { s with core := dputSol (dinitVar E.sq E.qp E.arg (dsolOf s.core)) s.core }
  { s with core := { s.core with
    alpha_prim := 1
    alpha_dual := 1
    m_zero := decide (vecnrmInf s.core.nc E.qp.m 0 = 0) } }

/-- the six statistics columns of the residuals, row `row` -/
def dputRes (E : DEnv K) (row : ℕ) (s : DIpm K) : DIpm K :=
  dput E (21 * row + 12) s.res.obj (dput E (21 * row + 11) s.res.dual_gap (dput E (21 * row + 10) s.rmax.2.2.2
    (dput E (21 * row + 9) s.rmax.2.2.1 (dput E (21 * row + 8) s.rmax.2.1 (dput E (21 * row + 7) s.rmax.1 s)))))

/-- residuals before the relative loop, x_dense_qp_ipm.c:2549-2569 -/
def drelStart (E : DEnv K) (s : DIpm K) : DIpm K :=
  let s := dresStep E s
  let s := { s with core := { s.core with mu := s.res.res_mu } }
  if 0 < E.statMax then dputRes E 0 s else s

/-- residuals after the absolute loop, x_dense_qp_ipm.c:2518-2541 -/
def dabsEnd (E : DEnv K) (kk : ℕ) (s : DIpm K) : DIpm K :=
  if E.arg.i .comp_res_exit ≠ 0 then
    let s := dresStep E s
    if (kk : ℤ) < E.statMax then dputRes E kk s else s
  else s

/-- DENSE_QP_COMPUTE_OBJ, x_dense_qp_kkt.c:3097-3124 -/
def denseObj (qp : DenseQp K) (v : Vec K) : K :=
  let nv := qp.dim.nv; let ns := qp.dim.ns
  let z : Vec K := fun _ => 0
  let o := dot nv (symv_l nv (1 / 2) qp.Hv 0 0 v 0 1 qp.gz 0 z 0) 0 v 0
  o + dot (2 * ns) (gemv_diag (2 * ns) (1 / 2) qp.Z 0 v nv 1 qp.gz nv z 0) 0 v nv

/-- `if(arg->compute_obj) DENSE_QP_COMPUTE_OBJ(...)`, x_dense_qp_ipm.c:2688-2691 -/
def dobjStep (E : DEnv K) (o : DSolveOut K) : DSolveOut K :=
  if E.arg.compute_obj ≠ 0 then { o with s := { o.s with
    obj := denseObj (dqpNow E o.s) o.s.core.v
    validObj := true } }
  else o

/-- DENSE_QP_IPM_SOLVE, x_dense_qp_ipm.c:2246-2701; `none`: a factorisation that does not find a regularisation within
`E.fuel` attempts, or more passes than `loopFuel` -/
def dipmSolve (E : DEnv K) (loopFuel : ℕ) (sol : DqSol K) (s : DIpm K) : Option (DSolveOut K) :=
  let nc := s.core.nc
  let s := dprologue E sol s
  Option.map (dobjStep E) (
    if nc = 0 ∨ dncMask E.qp nc = 0 then some (dsolveUnc E s)
    else
      let s := dipmInit E s
      if E.arg.i .abs_form ≠ 0 then
        (ipmLoop (fun s => contAbs E.arg.toIpmArg (dobs E s)) (dabsBody E) (E.arg.i .iter_max) loopFuel 0 (dabsMu E s)).map
          fun r => depilogue E (r.1, dabsEnd E r.1 r.2)
      else
        (ipmLoop (fun s => contRel E.arg.toIpmArg (dobs E s)) (drelBody E) (E.arg.i .iter_max) loopFuel 0 (drelStart E s)).map
          fun r => depilogue E r)

end
end Hpipm
