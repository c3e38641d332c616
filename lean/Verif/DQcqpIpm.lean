/-
Model of the interior point solver for dense QPs with quadratic constraints, dense_qp/x_dense_qcqp_ipm.c:846-1711, over an exact
ordered field.

The solver keeps a QP (`qcqp_ws->qp`, with `ng+nq` general constraints) which it re-linearises at every iterate, and calls the step
routines of the dense QP solver (`ddeltaStep`, `dabsStep` of DenseIpm.lean) on it.

Simplifications: NaN tests are dropped (exact arithmetic); the scratch vectors of the residual workspace are not carried from one
residual computation to the next (the residuals do not depend on them, C99).  `use_hess_fact` is not modelled, as in DenseIpm.lean.
Line 1515 makes the core workspace's `res_m` an alias of `tmp_m`, and no later call undoes this; the model is that of a workspace
on which no call with `abs_form` precedes one without.
-/
import Verif.DQcqpProps
import Verif.QcqpIpmInit
import Verif.DenseIpmPos

namespace Hpipm
set_option linter.unusedSectionVars false

section
variable {K : Type*} [Field K] [LinearOrder K] [IsStrictOrderedRing K]

/-! ### the QP approximation -/

/-- the QP in the workspace, the residual workspace and the scratch vectors `ws->tmp_nv+0`, `+1` -/
structure DQwSt (K : Type*) where
  qp : DenseQp K
  rws : DQresWs K
  nv0 : Vec K
  nv1 : Vec K

/-- the part common to DENSE_QCQP_APPROX_QP (x_dense_qcqp_ipm.c:1058-1084) and DENSE_QCQP_UPDATE_QP (1132-1158); `qapLoop`
(QcqpIpm.lean) is the loop over the quadratic constraints, the same text as in the OCP solver -/
def dquad (Q : DQcqp K) (sol : DqSol K) (st : DQwSt K) : DQwSt K :=
  let D := Q.base.dim
  let r := qapLoop D.nv D.nb D.ng Q.nq Q.Hq Q.base.Ct sol.v sol.lam
    { H := gecp D.nv D.nv Q.base.Hv 0 0 st.qp.Hv 0 0
      DCt := st.qp.Ct
      d := veccp Q.inner.dim.nct Q.base.d 0 st.qp.d 0
      adj := vecse D.nv 0 st.rws.q_adj 0
      f := st.rws.q_fun
      nux0 := st.nv0
      nux1 := st.nv1 }
  { qp := { st.qp with
      Hv := r.H
      Ct := r.DCt
      d := r.d }
    rws := { st.rws with
      q_adj := r.adj
      q_fun := r.f }
    nv0 := r.nux0
    nv1 := r.nux1 }

/-- DENSE_QCQP_APPROX_QP, x_dense_qcqp_ipm.c:1046-1113 -/
def dapproxQp (Q : DQcqp K) (sol : DqSol K) (st : DQwSt K) : DQwSt K :=
  let D := Q.base.dim
  let st := dquad Q sol st
  { st with qp := { st.qp with
    d_mask := veccp Q.inner.dim.nct Q.base.d_mask 0 st.qp.d_mask 0
    A := gecp D.ne D.nv Q.base.A 0 0 st.qp.A 0 0
    Ct := gecp D.nv D.ng Q.base.Ct 0 0 st.qp.Ct 0 0
    gz := veccp (D.nv + 2 * D.ns) Q.base.gz 0 st.qp.gz 0
    b := veccp D.ne Q.base.b 0 st.qp.b 0
    m := veccp Q.inner.dim.nct Q.base.m 0 st.qp.m 0
    Z := veccp (2 * D.ns) Q.base.Z 0 st.qp.Z 0
    idxb := veccp D.nb Q.base.idxb 0 st.qp.idxb 0
    idxs_rev := veccp (D.nb + (D.ng + Q.nq)) Q.base.idxs_rev 0 st.qp.idxs_rev 0 } }

/-- DENSE_QCQP_UPDATE_QP, x_dense_qcqp_ipm.c:1117-1166 -/
def dupdateQp (Q : DQcqp K) (sol : DqSol K) (st : DQwSt K) : DQwSt K :=
  let st := dquad Q sol st
  { st with qp := { st.qp with m := veccp Q.inner.dim.nct Q.base.m 0 st.qp.m 0 } }

/-- one quadratic constraint of the absolute formulation, x_dense_qcqp_ipm.c:1192-1213 -/
def dqabsStep1 (nv nb ng nq : ℕ) (Hq : ℕ → Mat K) (Ct0 : Mat K) (v lam : Vec K) (ii : ℕ) (s : QapSt K) : QapSt K :=
  let tmp := -lam (nb + ng + ii) + lam (2 * nb + 2 * ng + nq + ii)
  let H := gead nv nv tmp (Hq ii) 0 0 s.H 0 0
  let a := symv_l nv 1 (Hq ii) 0 0 v 0 0 s.nux0 0 s.nux0 0
  let c := colex nv Ct0 0 (ng + ii) s.nux1 0
  let c := axpy nv 1 a 0 c 0 c 0
  let DCt := colin nv c 0 s.DCt 0 (ng + ii)
  let adj := axpy nv tmp c 0 s.adj 0 s.adj 0
  let c : Vec K := fun i => if i < nv then -1 * c i + 1 / 2 * a i else c i
  let a := colex nv Ct0 0 (ng + ii) a 0
  let c := axpy nv 1 a 0 c 0 c 0
  let tmp := dot nv c 0 v 0
  let d := upd s.d (nb + ng + ii) (s.d (nb + ng + ii) + -tmp)
  let d := upd d (2 * nb + 2 * ng + nq + ii) (d (2 * nb + 2 * ng + nq + ii) + tmp)
  { H := H
    DCt := DCt
    d := d
    adj := adj
    f := upd s.f ii tmp
    nux0 := a
    nux1 := c }

/-- DENSE_QCQP_UPDATE_QP_ABS_STEP, x_dense_qcqp_ipm.c:1170-1222 -/
def dupdateQpAbs (Q : DQcqp K) (sol : DqSol K) (st : DQwSt K) : DQwSt K :=
  let D := Q.base.dim
  let r := loop Q.nq (dqabsStep1 D.nv D.nb D.ng Q.nq Q.Hq Q.base.Ct sol.v sol.lam)
    { H := gecp D.nv D.nv Q.base.Hv 0 0 st.qp.Hv 0 0
      DCt := st.qp.Ct
      d := veccp Q.inner.dim.nct Q.base.d 0 st.qp.d 0
      adj := vecse D.nv 0 st.rws.q_adj 0
      f := st.rws.q_fun
      nux0 := st.nv0
      nux1 := st.nv1 }
  { qp := { st.qp with
      Hv := r.H
      Ct := r.DCt
      d := r.d
      m := veccp Q.inner.dim.nct Q.base.m 0 st.qp.m 0 }
    rws := { st.rws with
      q_adj := r.adj
      q_fun := r.f }
    nv0 := r.nux0
    nv1 := r.nux1 }

/-! ### initialisation -/

/-- one bound of the heuristic, x_dense_qcqp_ipm.c:946-977.  The upper bound is at offset `nbg = nb+ng+nq`, but its mask is read at
offset `nbgm = nb+ng` (line 953); the midpoint is computed from the negated upper bound (line 961). -/
def dqiniBox (nbg nbgm : ℕ) (idxb : ℕ → ℕ) (d mask : Vec K) (mu0 : K) (ii : ℕ) (s : IniSt K) : IniSt K :=
  let x := s.ux (idxb ii)
  let d_lb0 := if mask ii = 0 then x - 1 else d ii
  let d_ub0 := if mask (nbgm + ii) = 0 then -x - 1 else d (nbg + ii)
  let tl := -d_lb0 + x
  let tu := -d_ub0 - x
  let r : K × K × K :=
    if tl < thr0 then
      if tu < thr0 then (1 / 2 * (d_lb0 + d_ub0), thr0, thr0)
      else (d_lb0 + thr0, thr0, tu)
    else if tu < thr0 then (-d_ub0 - thr0, tl, thr0)
    else (x, tl, tu)
  { ux := upd s.ux (idxb ii) r.1
    t := upd (upd s.t ii r.2.1) (nbg + ii) r.2.2
    lam := upd (upd s.lam ii (mu0 / r.2.1)) (nbg + ii) (mu0 / r.2.2) }

/-- one general constraint of the heuristic, x_dense_qcqp_ipm.c:984-997.  The upper side starts from `t[nb+ii]`, not from its
negative. -/
def dqiniGen (nb ng nq : ℕ) (d mask : Vec K) (mu0 : K) (ii : ℕ) (s : IniSt K) : IniSt K :=
  let tl := s.t (nb + ii)
  let tu := tl
  let tl := if mask (nb + ii) ≠ 0 then tl - d (nb + ii) else tl
  let tu := if mask (2 * nb + ng + nq + ii) ≠ 0 then tu - d (2 * nb + ng + nq + ii) else tu
  let tl := if thr0 > tl then thr0 else tl
  let tu := if thr0 > tu then thr0 else tu
  { s with
    t := upd (upd s.t (nb + ii) tl) (2 * nb + ng + nq + ii) tu
    lam := upd (upd s.lam (nb + ii) (mu0 / tl)) (2 * nb + ng + nq + ii) (mu0 / tu) }

/-- DENSE_QCQP_INIT_VAR, x_dense_qcqp_ipm.c:846-1042; `diniSoft` (DenseIpm.lean) is the loop 1001-1008, `qiniQuad` (QcqpIpm.lean) the
loop 1014-1035 -/
def dqinitVar (sq : K → K) (Q : DQcqp K) (a : IpmArg K) (sol : DqSol K) : DqSol K :=
  let D := Q.base.dim
  let n := Q.inner.dim.nct
  let mu0 := a.r .mu0
  let fin (sol : DqSol K) (s : IniSt K) : DqSol K := { sol with v := s.ux, lam := s.lam, t := s.t }
  let st (sol : DqSol K) : IniSt K := { ux := sol.v, lam := sol.lam, t := sol.t }
  if a.i .warm_start ≥ 3 then fin sol (iniClip n (a.r .lam0_min) (a.r .t0_min) (st sol))
  else if a.i .warm_start = 2 then fin sol (iniClip n thr0 thr0 (st sol))
  else
    let sol := if a.i .warm_start = 0 then { sol with v := vecse (D.nv + 2 * D.ns) 0 sol.v 0 } else sol
    let sol := { sol with pi := vecse D.ne 0 sol.pi 0 }
    if a.i .t0_init = 0 then fin sol (iniConst n (sq mu0) (sq mu0) (st sol))
    else if a.i .t0_init = 1 then fin sol (iniConst n mu0 1 (st sol))
    else
      let s := loop D.nb (dqiniBox (D.nb + D.ng + Q.nq) (D.nb + D.ng) Q.base.idxb Q.base.d Q.base.d_mask mu0) (st sol)
      let s := if D.ng > 0 then
          loop D.ng (dqiniGen D.nb D.ng Q.nq Q.base.d Q.base.d_mask mu0)
            { s with t := gemv_t D.nv D.ng 1 Q.base.Ct 0 0 s.ux 0 0 s.t D.nb s.t D.nb }
        else s
      let s := loop D.ns (diniSoft (2 * D.nb + 2 * D.ng + 2 * Q.nq) D.ns mu0) s
      let r := if thr0 > sq mu0 then thr0 else sq mu0
      fin sol (loop Q.nq (qiniQuad (D.nb + D.ng) Q.nq mu0 r) s)

/-! ### the solver -/

/-- what does not change during a solve -/
structure DQEnv (K : Type*) where
  sq : K → K
  /-- bound on the number of regularisation attempts of one factorisation -/
  fuel : ℕ
  /-- LQ factorisation used by the null space method -/
  lqd : ℕ → ℕ → Mat K → Mat K × Mat K
  /-- the caller's QCQP when the solver is called -/
  Q : DQcqp K
  /-- `qcqp_arg` -/
  arg : IpmArg K
  /-- `qcqp_arg->qp_arg` -/
  qarg : DIpmArg K
  lqf : ℤ
  statMax : ℤ
  lq : DenseQp K → Core K → DKkt K → DKkt K × Bool × Bool
  factOnly : DenseQp K → Core K → DKkt K → DKkt K

/-- the settings of the QP solver for the current QP -/
def DQEnv.env (T : DQEnv K) (qp : DenseQp K) : DEnv K where
  sq := T.sq
  fuel := T.fuel
  lqd := T.lqd
  qp := qp
  arg := T.qarg
  lqf := T.lqf
  statMax := T.statMax
  lq := T.lq
  factOnly := T.factOnly

/-- the state of the solver -/
structure DQIpm (K : Type*) where
  /-- `qcqp_ws->qp_ws`; its core workspace holds `qcqp_ws->qp_sol` -/
  ip : DIpm K
  /-- `qcqp_ws->qp` (the `Hv` in force is that of `ip`) -/
  qp : DenseQp K
  /-- `qcqp_sol` -/
  sol : DqSol K
  /-- `qcqp_ws->qcqp_res` -/
  res : DRes K
  rmax : K × K × K × K
  /-- `qcqp_ws->qcqp_res_ws` -/
  rws : DQresWs K
  nv0 : Vec K
  nv1 : Vec K

/-- DENSE_QCQP_SOL_CONV_QP_SOL and DENSE_QP_SOL_CONV_QCQP_SOL, x_dense_qcqp_ipm.c:1226-1277: `s` copied to `t` -/
def dconvSol (D : DDim) (s t : DqSol K) : DqSol K where
  v := veccp (D.nv + 2 * D.ns) s.v 0 t.v 0
  pi := veccp D.ne s.pi 0 t.pi 0
  lam := veccp D.nct s.lam 0 t.lam 0
  t := veccp D.nct s.t 0 t.t 0

/-- DENSE_QCQP_RES_CONV_QP_RES, x_dense_qcqp_ipm.c:1281-1306 (`res_m` of the QP residuals is that of the core workspace); the norms
`res_max` are not copied -/
def dconvRes (D : DDim) (r : DRes K) (ip : DIpm K) : DIpm K :=
  { ip with
    res := { ip.res with
      res_g := veccp (D.nv + 2 * D.ns) r.res_g 0 ip.res.res_g 0
      res_b := veccp D.ne r.res_b 0 ip.res.res_b 0
      res_d := veccp D.nct r.res_d 0 ip.res.res_d 0
      res_mu := r.res_mu }
    core := { ip.core with res_m := veccp D.nct r.res_m 0 ip.core.res_m 0 } }

/-- the masks after lines 1387-1397: the lower sides of the quadratic constraints and the lower bounds of the slacks which soften
quadratic constraints are switched off, in the caller's data -/
def dqmaskLower (Q : DQcqp K) : DQcqp K :=
  let D := Q.base.dim
  { Q with base := { Q.base with
    d_mask := loop Q.nq (fun ii v =>
      let idx := Q.base.idxs_rev (D.nb + D.ng + ii)
      if idx ≠ -1 then upd v (2 * D.nb + 2 * D.ng + 2 * Q.nq + idx.toNat) 0 else v)
      (vecse Q.nq 0 Q.base.d_mask (D.nb + D.ng)) } }

/-- residuals and their norms; `mu` of the core workspace, x_dense_qcqp_ipm.c:1581-1593, 1641-1653 -/
def dqresStep (Q : DQcqp K) (s : DQIpm K) : DQIpm K :=
  let r := dqresCompute Q s.sol s.res s.rws
  let ip := dconvRes Q.inner.dim r s.ip
  { s with
    res := r
    rmax := dqresInfNorm Q r
    ip := { ip with core := { ip.core with mu := r.res_mu } } }

/-- `res_m_tau`, x_dense_qcqp_ipm.c:1608-1610, 1666-1667 -/
def dqresMTau (T : DQEnv K) (s : DQIpm K) : K :=
  vecnrmInf s.ip.core.nc (axpy s.ip.core.nc (-(T.qarg.r .tau_min)) s.qp.d_mask 0 s.res.res_m 0 s.res.res_m 0) 0

/-- what the loop guards see -/
def dqobs (T : DQEnv K) (s : DQIpm K) : Obs K where
  ap := some s.ip.core.alpha_prim
  ad := some s.ip.core.alpha_dual
  rg := some s.rmax.1
  rb := some s.rmax.2.1
  rd := some s.rmax.2.2.1
  rm := some (dqresMTau T s)
  gap := some s.res.dual_gap
  mu := some s.ip.core.mu

/-- the prologue, x_dense_qcqp_ipm.c:1324-1437 without the initialisation of the iterate: arguments to the core workspace (from
`qp_arg`), masks, `qp_sol` from `sol`, the QP approximation at `sol`.  `Q` is the QCQP after `dqmaskLower`, `T.Q` the one before
(line 1337 uses its masks).  The QP object was created with the dimensions of `Q.inner` (DENSE_QCQP_IPM_WS_CREATE). -/
def dqprologue (T : DQEnv K) (Q : DQcqp K) (sol : DqSol K) (s : DQIpm K) : DQIpm K :=
  let D := Q.inner.dim
  let a := T.qarg
  let nc := s.ip.core.nc
  let rws := { s.rws with
    use_q_fun := true
    use_q_adj := true }
  let w := dapproxQp Q sol { qp := { s.qp with dim := D }, rws := rws, nv0 := s.nv0, nv1 := s.nv1 }
  let n := dncMask w.qp nc
  let inv : K := if n = 0 then 0 else 1 / (n : K)
  let c := { dputSol (dconvSol D sol (dsolOf s.ip.core)) s.ip.core with
    lam_min := a.r .lam_min
    t_min := a.r .t_min
    t_min_inv := if a.r .t_min > 0 then 1 / a.r .t_min else 10 ^ 30
    tau_min := a.r .tau_min
    split_step := if a.i .split_step = 1 then 1 else 0
    m_safe := a.r .m_safe
    t_lam_min := (a.i .t_lam_min).toNat
    m := fun i => if i < nc then T.Q.base.m i * T.Q.base.d_mask i else s.ip.core.m i
    nc_mask_inv := inv }
  { s with
    ip := { s.ip with
      core := c
      Hv := w.qp.Hv
      kkt := { s.ip.kkt with use_A_fact := false }
      mask := true }
    qp := w.qp
    sol := sol
    rmax := (0, 0, 0, 0)
    rws := { w.rws with ws := { w.rws.ws with
      nc_mask_inv := inv
      mask_constr := true } }
    nv0 := w.nv0
    nv1 := w.nv1 }

/-- `VECMUL(cws->nc, qp->d_mask, 0, qcqp_sol->lam, 0, qcqp_sol->lam, 0)`, x_dense_qcqp_ipm.c:1631-1636 -/
def dmaskQSol (nc : ℕ) (dm : Vec K) (s : DqSol K) : DqSol K := { s with lam := vecmul nc dm 0 s.lam 0 s.lam 0 }

/-- one pass of the relative loop, x_dense_qcqp_ipm.c:1624-1667 -/
def dqrelBody (T : DQEnv K) (Q : DQcqp K) (kk : ℕ) (s : DQIpm K) : Option (DQIpm K) :=
  (ddeltaStep (T.env s.qp) kk s.ip).map fun ip =>
    let sol := dconvSol Q.inner.dim (dsolOf ip.core) s.sol
    let sol := if ip.mask then dmaskQSol ip.core.nc s.qp.d_mask sol else sol
    let w := dupdateQp Q sol { qp := { s.qp with Hv := ip.Hv }, rws := s.rws, nv0 := s.nv0, nv1 := s.nv1 }
    let s := dqresStep Q { s with
      ip := { ip with Hv := w.qp.Hv }
      qp := w.qp
      sol := sol
      rws := w.rws
      nv0 := w.nv0
      nv1 := w.nv1 }
    let E := T.env s.qp
    { s with ip := dputG E kk 12 s.res.obj (dputG E kk 11 s.res.dual_gap (dputG4 E kk 7 s.rmax (dputG E kk 6 s.res.res_mu s.ip))) }

/-- re-linearisation of the absolute formulation, `mu = lam't/nc` in `tmp_m` and `cws->mu`, x_dense_qcqp_ipm.c:1517-1523, 1539-1545
(`lam`, `t` of `qp_sol` and of `qcqp_sol` agree) -/
def dqabsMu (Q : DQcqp K) (s : DQIpm K) : DQIpm K :=
  let w := dupdateQpAbs Q s.sol { qp := { s.qp with Hv := s.ip.Hv }, rws := s.rws, nv0 := s.nv0, nv1 := s.nv1 }
  let c := s.ip.core
  { s with
    ip := { s.ip with
      Hv := w.qp.Hv
      core := { c with
        res_m := vecmul c.nc c.lam 0 c.t 0 c.res_m 0
        mu := dot c.nc c.lam 0 c.t 0 / (c.nc : K) } }
    qp := w.qp
    rws := w.rws
    nv0 := w.nv0
    nv1 := w.nv1 }

/-- one pass of the absolute loop, x_dense_qcqp_ipm.c:1534-1549 -/
def dqabsBody (T : DQEnv K) (Q : DQcqp K) (kk : ℕ) (s : DQIpm K) : Option (DQIpm K) :=
  (dabsStep (T.env s.qp) kk s.ip).map fun ip =>
    let s := dqabsMu Q { s with
      ip := ip
      sol := dconvSol Q.inner.dim (dsolOf ip.core) s.sol }
    { s with ip := dputG (T.env s.qp) kk 6 s.ip.core.mu s.ip }

/-- what the caller sees; `Q` is the caller's QCQP after the call -/
structure DQSolveOut (K : Type*) where
  s : DQIpm K
  Q : DQcqp K
  iter : ℕ
  status : Status

/-- the unconstrained branch, x_dense_qcqp_ipm.c:1440-1483 -/
def dqsolveUnc (T : DQEnv K) (Q : DQcqp K) (s : DQIpm K) : DQSolveOut K :=
  let E := T.env s.qp
  let x := dsolOf s.ip.core
  let r := dunconstr T.sq T.lqd { s.qp with Hv := s.ip.Hv } T.qarg.kkt_fact_alg
    { s.ip.kkt with
      v := x.v
      pi := x.pi
      lam := x.lam
      t := x.t }
  let ip := { s.ip with
    Hv := r.1
    core := dputSol (dstp r.2) s.ip.core
    kkt := { r.2 with
      v := s.ip.kkt.v
      pi := s.ip.kkt.pi
      lam := s.ip.kkt.lam
      t := s.ip.kkt.t } }
  let s := { s with
    ip := ip
    sol := dconvSol Q.inner.dim (dsolOf ip.core) s.sol }
  let s := if T.qarg.i .comp_res_exit ≠ 0 then
      let r := dqresCompute Q s.sol s.res s.rws
      let m := dqresInfNorm Q r
      let ip := { s.ip with core := { s.ip.core with mu := r.res_mu } }
      { s with
        res := r
        rmax := m
        ip := if 0 < T.statMax then
            dput E 10 r.obj (dput E 9 m.2.2.2 (dput E 8 m.2.2.1 (dput E 7 m.2.1 (dput E 6 m.1 ip))))
          else ip }
    else s
  ⟨s, Q, 0, .SUCCESS⟩

/-- `alpha = 1`, `m_zero`, x_dense_qcqp_ipm.c:1486-1497 -/
def dqstart (s : DQIpm K) : DQIpm K :=
  { s with ip := { s.ip with core := { s.ip.core with
    alpha_prim := 1
    alpha_dual := 1
    m_zero := decide (vecnrmInf s.ip.core.nc s.qp.m 0 = 0) } } }

/-- the six statistics columns of the residuals, row `row` -/
def dqputRes (E : DEnv K) (row : ℕ) (r : DRes K) (m : K × K × K × K) (ip : DIpm K) : DIpm K :=
  dput E (21 * row + 12) r.obj (dput E (21 * row + 11) r.dual_gap (dput E (21 * row + 10) m.2.2.2
    (dput E (21 * row + 9) m.2.2.1 (dput E (21 * row + 8) m.2.1 (dput E (21 * row + 7) m.1 ip)))))

/-- residuals before the relative loop, x_dense_qcqp_ipm.c:1581-1603 -/
def dqrelStart (T : DQEnv K) (Q : DQcqp K) (s : DQIpm K) : DQIpm K :=
  let s := dqresStep Q s
  { s with ip := if 0 < T.statMax then dqputRes (T.env s.qp) 0 s.res s.rmax s.ip else s.ip }

/-- residuals after the absolute loop, x_dense_qcqp_ipm.c:1551-1573 -/
def dqabsEnd (T : DQEnv K) (Q : DQcqp K) (kk : ℕ) (s : DQIpm K) : DQIpm K :=
  if T.qarg.i .comp_res_exit ≠ 0 then
    let r := dqresCompute Q s.sol s.res s.rws
    let m := dqresInfNorm Q r
    { s with
      res := r
      rmax := m
      ip := if (kk : ℤ) < T.statMax then dqputRes (T.env s.qp) kk r m s.ip else s.ip }
  else s

/-- exit, x_dense_qcqp_ipm.c:1671-1708 -/
def dqepilogue (T : DQEnv K) (Q : DQcqp K) (r : ℕ × DQIpm K) : DQSolveOut K :=
  let s := { r.2 with rws := { r.2.rws with ws := { r.2.rws.ws with valid_nc_mask := false } } }
  ⟨s, Q, r.1, statusOf T.arg r.1 (dqobs T s)⟩

/-- the start of both loops: masking, initialisation of the iterate, prologue.  Unlike the OCP solver (x_ocp_qcqp_ipm.c:1716) this
one does not mask the initial multipliers. -/
def dqbegin (T : DQEnv K) (sol : DqSol K) (s : DQIpm K) : DQIpm K :=
  dqprologue T (dqmaskLower T.Q) (dqinitVar T.sq (dqmaskLower T.Q) T.arg sol) s

/-- the arguments that the guard of the absolute loop reads: `tau_min` is that of `qp_arg` (line 1316) -/
def DQEnv.absArg (T : DQEnv K) : IpmArg K := { T.arg with r := fun f => if f = .tau_min then T.qarg.r .tau_min else T.arg.r f }

/-- the state in which the iteration loop of the selected formulation starts -/
def dqstartState (T : DQEnv K) (sol : DqSol K) (s : DQIpm K) : DQIpm K :=
  if T.qarg.i .abs_form ≠ 0 then dqabsMu (dqmaskLower T.Q) (dqstart (dqbegin T sol s))
  else dqrelStart T (dqmaskLower T.Q) (dqstart (dqbegin T sol s))

/-- one pass of the loop of the selected formulation -/
def dqpassOf (T : DQEnv K) (kk : ℕ) (s : DQIpm K) : Option (DQIpm K) :=
  if T.qarg.i .abs_form ≠ 0 then dqabsBody T (dqmaskLower T.Q) kk s else dqrelBody T (dqmaskLower T.Q) kk s

/-- the loop guard of the selected formulation, x_dense_qcqp_ipm.c:1526-1531, 1612-1621 -/
def dqguardOf (T : DQEnv K) (s : DQIpm K) : Bool :=
  if T.qarg.i .abs_form ≠ 0 then contAbs T.absArg (dqobs T s) else contRel T.arg (dqobs T s)

/-- DENSE_QCQP_IPM_SOLVE, x_dense_qcqp_ipm.c:1310-1711; `none`: a factorisation that does not find a regularisation within `fuel`
attempts, or more passes than `loopFuel` -/
def dqipmSolve (T : DQEnv K) (loopFuel : ℕ) (sol : DqSol K) (s : DQIpm K) : Option (DQSolveOut K) :=
  let Q := dqmaskLower T.Q
  let nc := s.ip.core.nc
  if nc = 0 ∨ dncMask (dqbegin T sol s).qp nc = 0 then some (dqsolveUnc T Q (dqbegin T sol s))
  else
    (ipmLoop (dqguardOf T) (dqpassOf T) (T.arg.i .iter_max) loopFuel 0 (dqstartState T sol s)).map fun r =>
      dqepilogue T Q (if T.qarg.i .abs_form ≠ 0 then (r.1, dqabsEnd T Q r.1 r.2) else r)

end
end Hpipm
