/-
Model of the interior point solver for problems with quadratic constraints, ocp_qp/x_ocp_qcqp_ipm.c:880-2036, over an
exact ordered field.

The solver keeps a QP (`qcqp_ws->qp`, with `ng+nq` general constraints) which it re-linearises at every iterate, and calls the
step routines of the QP solver (`deltaStep`, `absStep` of Ipm.lean) on it.

Simplifications: NaN tests are dropped (exact arithmetic); loops of VECCP over the stages which copy one solution or residual
object to another are written pointwise (`convSol`, `convRes`); the scratch vectors of the residual workspace are not
carried from one residual computation to the next (the residuals do not depend on them, C82); `use_hess_fact`, `use_Pb`,
`valid_ric_vec` (flags of the QP workspace) are not modelled, as in Ipm.lean.  Reads through pointers which were never
assigned are the outcome `uninit`.
-/
import Verif.Ipm
import Verif.Qcqp

namespace Hpipm
set_option linter.unusedSectionVars false

section
variable {K : Type*} [Field K] [LinearOrder K] [IsStrictOrderedRing K]

/-! ### the QP approximation -/

/-- what the re-linearisation of one stage works on: Hessian, constraint matrix and bounds of the QP, the two caches of
the residual workspace, the scratch vectors `ws->tmp_nuxM+0`, `+1` -/
structure QapSt (K : Type*) where
  H : Mat K
  DCt : Mat K
  d : Vec K
  adj : Vec K
  f : Vec K
  nux0 : Vec K
  nux1 : Vec K

/-- one quadratic constraint of a stage, x_ocp_qcqp_ipm.c:1327-1348 and 1402-1422; `nv = nu+nx`, `DCt0` the constraint
matrix of the QCQP -/
def qapStep (nv nb ng nq : ℕ) (Hq : ℕ → Mat K) (DCt0 : Mat K) (ux lam : Vec K) (jj : ℕ) (s : QapSt K) : QapSt K :=
  let tmp := -lam (nb + ng + jj) + lam (2 * nb + 2 * ng + nq + jj)
  let H := gead nv nv tmp (Hq jj) 0 0 s.H 0 0
  let a := symv_l nv 1 (Hq jj) 0 0 ux 0 0 s.nux0 0 s.nux0 0
  let c := colex nv DCt0 0 (ng + jj) s.nux1 0
  let c := axpy nv 1 a 0 c 0 c 0
  let DCt := colin nv c 0 s.DCt 0 (ng + jj)
  let adj := axpy nv tmp c 0 s.adj 0 s.adj 0
  let c := colex nv DCt0 0 (ng + jj) c 0
  let c := axpy nv (1 / 2) a 0 c 0 c 0
  let tmp := dot nv c 0 ux 0
  let d := upd s.d (nb + ng + jj) (s.d (nb + ng + jj) + -tmp)
  let d := upd d (2 * nb + 2 * ng + nq + jj) (d (2 * nb + 2 * ng + nq + jj) + tmp)
  { H := H
    DCt := DCt
    d := d
    adj := adj
    f := upd s.f jj tmp
    nux0 := a
    nux1 := c }

/-- the loop over the quadratic constraints of a stage, x_ocp_qcqp_ipm.c:1327-1348 and 1402-1422 -/
def qapLoop (nv nb ng nq : ℕ) (Hq : ℕ → Mat K) (DCt0 : Mat K) (ux lam : Vec K) (s : QapSt K) : QapSt K :=
  loop nq (qapStep nv nb ng nq Hq DCt0 ux lam) s

/-- the same loop of the absolute formulation, x_ocp_qcqp_ipm.c:1459-1484 -/
def qapLoopAbs (nv nb ng nq : ℕ) (Hq : ℕ → Mat K) (DCt0 : Mat K) (ux lam : Vec K) (s : QapSt K) : QapSt K :=
  loop nq (fun jj s =>
    let tmp := lam (2 * nb + 2 * ng + nq + jj)
    let H := gead nv nv tmp (Hq jj) 0 0 s.H 0 0
    let a := symv_l nv 1 (Hq jj) 0 0 ux 0 0 s.nux0 0 s.nux0 0
    let c := colex nv DCt0 0 (ng + jj) s.nux1 0
    let c := axpy nv 1 a 0 c 0 c 0
    let DCt := colin nv c 0 s.DCt 0 (ng + jj)
    let adj := axpy nv tmp c 0 s.adj 0 s.adj 0
    let c : Vec K := fun i => if i < nv then -1 * c i + 1 / 2 * a i else c i
    let a := colex nv DCt0 0 (ng + jj) a 0
    let c := axpy nv 1 a 0 c 0 c 0
    let tmp := dot nv c 0 ux 0
    let d := upd s.d (nb + ng + jj) (s.d (nb + ng + jj) + -tmp)
    let d := upd d (2 * nb + 2 * ng + nq + jj) (d (2 * nb + 2 * ng + nq + jj) + tmp)
    { H := H
      DCt := DCt
      d := d
      adj := adj
      f := upd s.f jj tmp
      nux0 := a
      nux1 := c }) s

/-- the QP in the workspace, the residual workspace and the scratch vectors -/
structure QwSt (K : Type*) where
  qp : OcpQp K
  rws : QresWs K
  nux0 : Vec K
  nux1 : Vec K

/-- the part common to OCP_QCQP_APPROX_QP (x_ocp_qcqp_ipm.c:1321-1348) and OCP_QCQP_UPDATE_QP (1395-1422) for one stage -/
def quadStage (Q : Qcqp K) (sol : Sol K) (ii : ℕ) (st : QwSt K) : QwSt K :=
  let D := Q.base.dim
  let nv := D.nu ii + D.nx ii
  let r := qapLoop nv (D.nb ii) (D.ng ii) (Q.nq ii) (Q.Hq ii) (Q.base.DCt ii) (sol.ux ii) (sol.lam ii)
    { H := gecp (nv + 1) nv (Q.base.RSQrq ii) 0 0 (st.qp.RSQrq ii) 0 0
      DCt := st.qp.DCt ii
      d := veccp (nct Q.inner.dim ii) (Q.base.d ii) 0 (st.qp.d ii) 0
      adj := vecse nv 0 (st.rws.q_adj ii) 0
      f := st.rws.q_fun ii
      nux0 := st.nux0
      nux1 := st.nux1 }
  { qp := { st.qp with
      RSQrq := upd st.qp.RSQrq ii r.H
      DCt := upd st.qp.DCt ii r.DCt
      d := upd st.qp.d ii r.d }
    rws := { st.rws with
      q_adj := upd st.rws.q_adj ii r.adj
      q_fun := upd st.rws.q_fun ii r.f }
    nux0 := r.nux0
    nux1 := r.nux1 }

/-- OCP_QCQP_UPDATE_QP, x_ocp_qcqp_ipm.c:1377-1430 -/
def updateQp (Q : Qcqp K) (sol : Sol K) (st : QwSt K) : QwSt K :=
  loop (Q.base.dim.N + 1) (fun ii st =>
    let st := quadStage Q sol ii st
    { st with qp := { st.qp with m := upd st.qp.m ii (veccp (nct Q.inner.dim ii) (Q.base.m ii) 0 (st.qp.m ii) 0) } }) st

/-- OCP_QCQP_UPDATE_QP_ABS_STEP, x_ocp_qcqp_ipm.c:1434-1492; line 1457 copies the first `nu+ns` columns of the Hessian -/
def updateQpAbs (Q : Qcqp K) (sol : Sol K) (st : QwSt K) : QwSt K :=
  loop (Q.base.dim.N + 1) (fun ii st =>
    let D := Q.base.dim
    let nv := D.nu ii + D.nx ii
    let r := qapLoopAbs nv (D.nb ii) (D.ng ii) (Q.nq ii) (Q.Hq ii) (Q.base.DCt ii) (sol.ux ii) (sol.lam ii)
      { H := gecp (nv + 1) (D.nu ii + D.ns ii) (Q.base.RSQrq ii) 0 0 (st.qp.RSQrq ii) 0 0
        DCt := st.qp.DCt ii
        d := veccp (nct Q.inner.dim ii) (Q.base.d ii) 0 (st.qp.d ii) 0
        adj := vecse nv 0 (st.rws.q_adj ii) 0
        f := st.rws.q_fun ii
        nux0 := st.nux0
        nux1 := st.nux1 }
    { qp := { st.qp with
        RSQrq := upd st.qp.RSQrq ii r.H
        DCt := upd st.qp.DCt ii r.DCt
        d := upd st.qp.d ii r.d
        m := upd st.qp.m ii (veccp (nct Q.inner.dim ii) (Q.base.m ii) 0 (st.qp.m ii) 0) }
      rws := { st.rws with
        q_adj := upd st.rws.q_adj ii r.adj
        q_fun := upd st.rws.q_fun ii r.f }
      nux0 := r.nux0
      nux1 := r.nux1 }) st

/-- `VECCP(n, x, 0, qp->rqz, 0)`, x_ocp_qcqp_ipm.c:1354: the destination is the vector of stage 0 whatever the stage of the
source; the stage vectors of the QP are contiguous (x_ocp_qp.c, OCP_QP_CREATE), so that a longer source runs on into the
next ones -/
def putRqz0 (D : QpDim) (n : ℕ) (x : Vec K) (rqz : ℕ → Vec K) : ℕ → Vec K :=
  fun k i => if i < nvt D k ∧ stOff (nvt D) k + i < n then x (stOff (nvt D) k + i) else rqz k i

/-- OCP_QCQP_APPROX_QP, x_ocp_qcqp_ipm.c:1301-1373 -/
def approxQp (Q : Qcqp K) (sol : Sol K) (st : QwSt K) : QwSt K :=
  let D := Q.base.dim
  let st := loop (D.N + 1) (fun ii st =>
    let st := quadStage Q sol ii st
    let n := nct Q.inner.dim ii
    let nv := D.nu ii + D.nx ii
    { st with qp := { st.qp with
      d_mask := upd st.qp.d_mask ii (veccp n (Q.base.d_mask ii) 0 (st.qp.d_mask ii) 0)
      DCt := upd st.qp.DCt ii (gecp nv (D.ng ii) (Q.base.DCt ii) 0 0 (st.qp.DCt ii) 0 0)
      rqz := putRqz0 Q.inner.dim (nv + 2 * D.ns ii) (Q.base.rqz ii) st.qp.rqz
      m := upd st.qp.m ii (veccp n (Q.base.m ii) 0 (st.qp.m ii) 0)
      Z := upd st.qp.Z ii (veccp (2 * D.ns ii) (Q.base.Z ii) 0 (st.qp.Z ii) 0)
      idxb := upd st.qp.idxb ii (veccp (D.nb ii) (Q.base.idxb ii) 0 (st.qp.idxb ii) 0)
      idxs_rev := upd st.qp.idxs_rev ii (veccp (D.nb ii + (D.ng ii + Q.nq ii)) (Q.base.idxs_rev ii) 0 (st.qp.idxs_rev ii) 0) } }) st
  loop D.N (fun ii st =>
    { st with qp := { st.qp with
      BAbt := upd st.qp.BAbt ii (gecp (D.nu ii + D.nx ii + 1) (D.nx (ii + 1)) (Q.base.BAbt ii) 0 0 (st.qp.BAbt ii) 0 0)
      b := upd st.qp.b ii (veccp (D.nx (ii + 1)) (Q.base.b ii) 0 (st.qp.b ii) 0) } }) st

/-! ### initialisation -/

/-- one bound of the heuristic, x_ocp_qcqp_ipm.c:1037-1072.  The upper bound is at offset `nbg = nb+ng+nq`, but its mask
is read at offset `nbgm = nb+ng` (line 1028). -/
def qiniBox (nbg nbgm : ℕ) (idxb : ℕ → ℕ) (d mask : Vec K) (mu0 : K) (jj : ℕ) (s : IniSt K) : IniSt K :=
  let x := s.ux (idxb jj)
  let d_lb0 := if mask jj = 0 then x - 1 else d jj
  let d_ub0 := if mask (nbgm + jj) = 0 then -x - 1 else d (nbg + jj)
  let tl := -d_lb0 + x
  let tu := -d_ub0 - x
  let r : K × K × K :=
    if tl < thr0 then
      if tu < thr0 then (1 / 2 * (d_lb0 - d_ub0), thr0, thr0)
      else (d_lb0 + thr0, thr0, tu)
    else if tu < thr0 then (-d_ub0 - thr0, tl, thr0)
    else (x, tl, tu)
  { ux := upd s.ux (idxb jj) r.1
    t := upd (upd s.t jj r.2.1) (nbg + jj) r.2.2
    lam := upd (upd s.lam jj (mu0 / r.2.1)) (nbg + jj) (mu0 / r.2.2) }

/-- one slack of the heuristic, x_ocp_qcqp_ipm.c:1109-1114 -/
def qiniSoft (n2 : ℕ) (mu0 : K) (jj : ℕ) (s : IniSt K) : IniSt K :=
  { s with
    t := upd s.t (n2 + jj) 1
    lam := upd s.lam (n2 + jj) (mu0 / 1) }

/-- one quadratic constraint of the heuristic, x_ocp_qcqp_ipm.c:1117-1152; `r` is `sqrt(mu0)` lifted to `thr0` -/
def qiniQuad (nbg0 nq : ℕ) (mu0 r : K) (jj : ℕ) (s : IniSt K) : IniSt K :=
  { s with
    lam := upd (upd s.lam (nbg0 + jj) 0) (2 * nbg0 + nq + jj) (mu0 / r)
    t := upd (upd s.t (nbg0 + jj) 1) (2 * nbg0 + nq + jj) r }

/-- OCP_QCQP_INIT_VAR, x_ocp_qcqp_ipm.c:883-1298.  With a constant start (`t0_init` 0 or 1) the loop runs over
`2*nb+2*ng+2*ns` entries (lines 997, 1010).  The heuristic reads `d_lg_mask[jj]` (line 1092) through a pointer which is declared
(903) and never assigned: `none`. -/
def qinitVar (sq : K → K) (Q : Qcqp K) (a : IpmArg K) (sol : Sol K) : Option (Sol K) :=
  let D := Q.base.dim
  let N := D.N
  let mu0 := a.r .mu0
  if a.i .warm_start ≥ 3 then
    some (iniStages N (fun k s => iniClip (nct Q.inner.dim k) (a.r .lam0_min) (a.r .t0_min) s) sol)
  else if a.i .warm_start = 2 then
    some (iniStages N (fun k s => iniClip (nct Q.inner.dim k) thr0 thr0 s) sol)
  else
    let sol := if a.i .warm_start = 0 then
        loop (N + 1) (fun k (sol : Sol K) => { sol with ux := upd sol.ux k (vecse (nvt D k) 0 (sol.ux k) 0) }) sol
      else sol
    let sol := loop N (fun k (sol : Sol K) =>
      { sol with pi := upd sol.pi k (vecse (D.nx (k + 1)) 0 (sol.pi k) 0) }) sol
    if a.i .t0_init = 0 then
      some (iniStages N (fun k s => iniConst (2 * D.nb k + 2 * D.ng k + 2 * D.ns k) (sq mu0) (sq mu0) s) sol)
    else if a.i .t0_init = 1 then
      some (iniStages N (fun k s => iniConst (2 * D.nb k + 2 * D.ng k + 2 * D.ns k) mu0 1 s) sol)
    else if (List.range (N + 1)).any (fun k => decide (0 < D.ng k)) then none
    else
      let sol := iniStages N (fun k s =>
        loop (D.nb k) (qiniBox (D.nb k + D.ng k + Q.nq k) (D.nb k + D.ng k) (Q.base.idxb k) (Q.base.d k) (Q.base.d_mask k) mu0) s) sol
      let sol := iniStages N (fun k s =>
        loop (2 * D.ns k) (qiniSoft (2 * D.nb k + 2 * D.ng k + 2 * Q.nq k) mu0) s) sol
      let r := if thr0 > sq mu0 then thr0 else sq mu0
      some (iniStages N (fun k s => loop (Q.nq k) (qiniQuad (D.nb k + D.ng k) (Q.nq k) mu0 r) s) sol)

/-! ### the solver -/

/-- what does not change during a solve -/
structure QEnv (K : Type*) where
  sq : K → K
  /-- bound on the number of regularisation attempts of one factorisation -/
  fuel : ℕ
  /-- the caller's QCQP when the solver is called -/
  Q : Qcqp K
  /-- `qcqp_arg` -/
  arg : IpmArg K
  /-- `qcqp_arg->qp_arg` -/
  qarg : IpmArg K
  sqr : Bool
  lqf : ℤ
  statMax : ℤ
  lq : OcpQp K → K → Core K → KktSt K → Option (KktSt K × Bool × K × Bool)
  factOnly : OcpQp K → Core K → KktSt K → KktSt K

/-- the settings of the QP solver for the current QP -/
def QEnv.env (T : QEnv K) (qp : OcpQp K) : Env K where
  sq := T.sq
  fuel := T.fuel
  qp := qp
  arg := T.qarg
  sqr := T.sqr
  lqf := T.lqf
  statMax := T.statMax
  lq := T.lq
  factOnly := T.factOnly

/-- the state of the solver -/
structure QIpm (K : Type*) where
  /-- `qcqp_ws->qp_ws`; its core workspace holds `qcqp_ws->qp_sol` -/
  ip : Ipm K
  /-- `qcqp_ws->qp` (`BAbt`, `RSQrq` in force are those of `ip.kkt`) -/
  qp : OcpQp K
  /-- `qcqp_sol` -/
  sol : Sol K
  /-- `qcqp_ws->qcqp_res` -/
  res : Res K
  rmax : K × K × K × K
  /-- `qcqp_ws->qcqp_res_ws` -/
  rws : QresWs K
  nux0 : Vec K
  nux1 : Vec K

/-- OCP_QP_SOL_CONV_QCQP_SOL, x_ocp_qcqp_ipm.c:1526-1553 -/
def convSol (D : QpDim) (s t : Sol K) : Sol K where
  ux := fun k i => if k ≤ D.N ∧ i < nvt D k then s.ux k i else t.ux k i
  pi := fun k i => if k < D.N ∧ i < net D k then s.pi k i else t.pi k i
  lam := fun k i => if k ≤ D.N ∧ i < nct D k then s.lam k i else t.lam k i
  t := fun k i => if k ≤ D.N ∧ i < nct D k then s.t k i else t.t k i

/-- `VECMUL(cws->nc, d_mask, 0, qcqp_sol->lam, 0, qcqp_sol->lam, 0)`, x_ocp_qcqp_ipm.c:1716, 1966-1970 -/
def maskSol (D : QpDim) (dm : ℕ → Vec K) (s : Sol K) : Sol K :=
  { s with lam := fun k i => if k ≤ D.N ∧ i < nct D k then dm k i * s.lam k i else s.lam k i }

/-- OCP_QCQP_RES_CONV_QP_RES, x_ocp_qcqp_ipm.c:1557-1585 (`res_m` of the QP residuals is that of the core workspace) -/
def convRes (D : QpDim) (r : Res K) (ip : Ipm K) : Ipm K :=
  { ip with
    res := { ip.res with
      res_g := fun k i => if k ≤ D.N ∧ i < nvt D k then r.res_g k i else ip.res.res_g k i
      res_b := fun k i => if k < D.N ∧ i < net D k then r.res_b k i else ip.res.res_b k i
      res_d := fun k i => if k ≤ D.N ∧ i < nct D k then r.res_d k i else ip.res.res_d k i
      res_mu := r.res_mu }
    core := { ip.core with res_m := stFlat (nct D) r.res_m (D.N + 1) } }

/-- the masks after lines 1694-1709: the lower sides of the quadratic constraints and the lower bounds of the slacks
which soften quadratic constraints are switched off, in the caller's data -/
def maskLower (Q : Qcqp K) : Qcqp K :=
  let D := Q.base.dim
  { Q with base := { Q.base with
    d_mask := loop (D.N + 1) (fun ii dm =>
      upd dm ii (loop (Q.nq ii) (fun jj v =>
        let idx := Q.base.idxs_rev ii (D.nb ii + D.ng ii + jj)
        if idx ≠ -1 then upd v (2 * D.nb ii + 2 * D.ng ii + 2 * Q.nq ii + idx.toNat) 0 else v)
        (vecse (Q.nq ii) 0 (dm ii) (D.nb ii + D.ng ii)))) Q.base.d_mask } }

/-- residuals and their norms; `mu` of the core workspace, x_ocp_qcqp_ipm.c:1897-1910, 1976-1988 -/
def qresStep (Q : Qcqp K) (s : QIpm K) : QIpm K :=
  let D := Q.inner.dim
  let r := qresCompute Q s.sol s.res s.rws
  let ip := convRes D r s.ip
  { s with
    res := r
    rmax := qresInfNorm Q r
    ip := { ip with core := { ip.core with mu := r.res_mu } } }

/-- what the loop guards see; `res_m_tau` of x_ocp_qcqp_ipm.c:1925-1927, 2002-2003 -/
def qobs (T : QEnv K) (s : QIpm K) : Obs K where
  ap := some s.ip.core.alpha_prim
  ad := some s.ip.core.alpha_dual
  rg := some s.rmax.1
  rb := some s.rmax.2.1
  rd := some s.rmax.2.2.1
  rm := some (resMTau (T.env s.qp) s.ip)
  gap := some s.res.dual_gap
  mu := some s.ip.core.mu

/-- the prologue, x_ocp_qcqp_ipm.c:1626-1741 without the initialisation of the iterate: arguments to the core workspace (from
`qp_arg`), masks, `qp_sol` from `sol`, the QP approximation at `sol`.  `Q` is the QCQP after `maskLower`, `T.Q` the one
before (line 1639 uses its masks).  The QP object was created with the dimensions of `Q.inner` (OCP_QCQP_IPM_WS_CREATE). -/
def qprologue (T : QEnv K) (Q : Qcqp K) (sol : Sol K) (s : QIpm K) : QIpm K :=
  let D := Q.inner.dim
  let a := T.qarg
  let nc := s.ip.core.nc
  let rws := { s.rws with
    use_q_fun := true
    use_q_adj := true }
  let w := approxQp Q sol { qp := { s.qp with dim := D }, rws := rws, nux0 := s.nux0, nux1 := s.nux1 }
  let n := ncMask w.qp nc
  let inv : K := if n = 0 then 0 else 1 / (n : K)
  let c := { putSol D sol s.ip.core with
    lam_min := a.r .lam_min
    t_min := a.r .t_min
    t_min_inv := if a.r .t_min > 0 then 1 / a.r .t_min else 10 ^ 30
    tau_min := a.r .tau_min
    split_step := if a.i .split_step = 1 then 1 else 0
    m_safe := a.r .m_safe
    t_lam_min := (a.i .t_lam_min).toNat
    m := fun i => if i < nc then fm T.Q.inner i * fmask T.Q.inner i else s.ip.core.m i
    nc_mask_inv := inv }
  { s with
    ip := { s.ip with
      core := c
      kkt := { s.ip.kkt with
        BAbt := w.qp.BAbt
        RSQrq := w.qp.RSQrq }
      mask := true }
    qp := w.qp
    sol := sol
    rmax := (0, 0, 0, 0)
    rws := { w.rws with ws := { w.rws.ws with
      nc_mask_inv := inv
      mask_constr := true } }
    nux0 := w.nux0
    nux1 := w.nux1 }

/-- one pass of the relative loop, x_ocp_qcqp_ipm.c:1952-2003 -/
def qrelBody (T : QEnv K) (Q : Qcqp K) (kk : ℕ) (s : QIpm K) : Option (QIpm K) :=
  (deltaStep (T.env s.qp) kk s.ip).map fun ip =>
    let D := Q.inner.dim
    let sol := convSol D (solOf D ip.core) s.sol
    let sol := if ip.mask then maskSol D s.qp.d_mask sol else sol
    let w := updateQp Q sol { qp := { s.qp with RSQrq := ip.kkt.RSQrq }, rws := s.rws, nux0 := s.nux0, nux1 := s.nux1 }
    let s := qresStep Q { s with
      ip := { ip with kkt := { ip.kkt with RSQrq := w.qp.RSQrq } }
      qp := w.qp
      sol := sol
      rws := w.rws
      nux0 := w.nux0
      nux1 := w.nux1 }
    let E := T.env s.qp
    { s with ip := putG E kk 12 s.res.obj (putG E kk 11 s.res.dual_gap (putG4 E kk 7 s.rmax (putG E kk 6 s.res.res_mu s.ip))) }

/-- re-linearisation of the absolute formulation, `mu = lam't/nc` in `tmp_m` and `cws->mu`, x_ocp_qcqp_ipm.c:1830-1835,
1853-1858 (`lam`, `t` of `qp_sol` and of `qcqp_sol` agree) -/
def qabsMu (Q : Qcqp K) (s : QIpm K) : QIpm K :=
  let w := updateQpAbs Q s.sol { qp := { s.qp with RSQrq := s.ip.kkt.RSQrq }, rws := s.rws, nux0 := s.nux0, nux1 := s.nux1 }
  let c := s.ip.core
  { s with
    ip := { s.ip with
      kkt := { s.ip.kkt with RSQrq := w.qp.RSQrq }
      core := { c with
        res_m := vecmul c.nc c.lam 0 c.t 0 c.res_m 0
        mu := dot c.nc c.lam 0 c.t 0 / (c.nc : K) } }
    qp := w.qp
    rws := w.rws
    nux0 := w.nux0
    nux1 := w.nux1 }

/-- one pass of the absolute loop, x_ocp_qcqp_ipm.c:1846-1860 -/
def qabsBody (T : QEnv K) (Q : Qcqp K) (kk : ℕ) (s : QIpm K) : Option (QIpm K) :=
  (absStep (T.env s.qp) kk s.ip).map fun ip =>
    let D := Q.inner.dim
    let s := qabsMu Q { s with
      ip := ip
      sol := convSol D (solOf D ip.core) s.sol }
    { s with ip := putG (T.env s.qp) kk 6 s.ip.core.mu s.ip }

/-- why a call does not return normally -/
inductive QFail
  /-- a read through a pointer that was never assigned -/
  | uninit
  /-- a factorisation that does not find a regularisation within `fuel` attempts (or, never, more passes than `loopFuel`) -/
  | stuck
deriving DecidableEq

/-- what the caller sees; `Q` is the caller's QCQP after the call -/
structure QSolveOut (K : Type*) where
  s : QIpm K
  Q : Qcqp K
  iter : ℕ
  status : Status

/-- the unconstrained branch, x_ocp_qcqp_ipm.c:1745-1794 -/
def qsolveUnc (T : QEnv K) (Q : Qcqp K) (s : QIpm K) : QSolveOut K :=
  let D := Q.inner.dim
  let E := T.env s.qp
  let sol := solOf D s.ip.core
  let k := unconstr T.sq s.qp (dualF E) T.sqr (T.qarg.r .reg_prim)
    { s.ip.kkt with
      ux := sol.ux
      pi := sol.pi
      lam := sol.lam
      t := sol.t }
  let ip := { s.ip with
    core := putSol D (stepOf k) s.ip.core
    kkt := { k with
      ux := s.ip.kkt.ux
      pi := s.ip.kkt.pi
      lam := s.ip.kkt.lam
      t := s.ip.kkt.t } }
  let s := { s with
    ip := ip
    sol := convSol D (solOf D ip.core) s.sol }
  let s := if T.qarg.i .comp_res_exit ≠ 0 then
      let r := qresCompute Q s.sol s.res s.rws
      let m := qresInfNorm Q r
      let ip := { s.ip with core := { s.ip.core with mu := r.res_mu } }
      { s with
        res := r
        rmax := m
        ip := if 0 < T.statMax then
            put E 11 r.obj (put E 10 r.dual_gap (put E 9 m.2.2.2 (put E 8 m.2.2.1 (put E 7 m.2.1 (put E 6 m.1 ip)))))
          else ip }
    else s
  ⟨s, Q, 0, .SUCCESS⟩

/-- `alpha = 1`, `m_zero`, x_ocp_qcqp_ipm.c:1797-1809 -/
def qstart (s : QIpm K) : QIpm K :=
  { s with ip := { s.ip with core := { s.ip.core with
    alpha_prim := 1
    alpha_dual := 1
    m_zero := decide (vecnrmInf s.ip.core.nc (fm s.qp) 0 = 0) } } }

/-- residuals before the relative loop, x_ocp_qcqp_ipm.c:1897-1921 -/
def qrelStart (T : QEnv K) (Q : Qcqp K) (s : QIpm K) : QIpm K :=
  let s := qresStep Q s
  let E := T.env s.qp
  let ip := if 0 < T.statMax then
      put E 12 s.res.obj (put E 11 s.res.dual_gap (put E 10 s.rmax.2.2.2 (put E 9 s.rmax.2.2.1
        (put E 8 s.rmax.2.1 (put E 7 s.rmax.1 s.ip)))))
    else s.ip
  { s with ip := ip }

/-- residuals after the absolute loop, x_ocp_qcqp_ipm.c:1864-1889 -/
def qabsEnd (T : QEnv K) (Q : Qcqp K) (kk : ℕ) (s : QIpm K) : QIpm K :=
  if T.qarg.i .comp_res_exit ≠ 0 ∧ T.qarg.i .comp_dual_sol_eq ≠ 0 then
    let r := qresCompute Q s.sol s.res s.rws
    let m := qresInfNorm Q r
    let E := T.env s.qp
    { s with
      res := r
      rmax := m
      ip := if (kk : ℤ) < T.statMax then
          put E (21 * kk + 12) r.obj (put E (21 * kk + 11) r.dual_gap (put E (21 * kk + 10) m.2.2.2
            (put E (21 * kk + 9) m.2.2.1 (put E (21 * kk + 8) m.2.1 (put E (21 * kk + 7) m.1 s.ip)))))
        else s.ip }
  else s

/-- exit, x_ocp_qcqp_ipm.c:2007-2034 -/
def qepilogue (T : QEnv K) (Q : Qcqp K) (r : ℕ × QIpm K) : QSolveOut K :=
  let s := { r.2 with rws := { r.2.rws with ws := { r.2.rws.ws with valid_nc_mask := false } } }
  ⟨s, Q, r.1, statusOf T.arg r.1 (qobs T s)⟩

/-- the start of both loops: initialisation of the iterate, masking, prologue -/
def qbegin (T : QEnv K) (sol0 : Sol K) (s : QIpm K) : QIpm K :=
  let Q := maskLower T.Q
  qprologue T Q (maskSol Q.inner.dim Q.base.d_mask sol0) s

/-- OCP_QCQP_IPM_SOLVE, x_ocp_qcqp_ipm.c:1589-2036 -/
def qipmSolve (T : QEnv K) (loopFuel : ℕ) (sol : Sol K) (s : QIpm K) : Except QFail (QSolveOut K) :=
  let Q := maskLower T.Q
  match qinitVar T.sq Q T.arg sol with
  | none => .error .uninit
  | some sol0 =>
    let nc := s.ip.core.nc
    let s := qbegin T sol0 s
    if nc = 0 ∨ ncMask s.qp nc = 0 then .ok (qsolveUnc T Q s)
    else
      let s := qstart s
      if T.qarg.i .abs_form ≠ 0 then
        match ipmLoop (fun s => contAbs { T.arg with r := fun f => if f = .tau_min then T.qarg.r .tau_min else T.arg.r f } (qobs T s))
            (qabsBody T Q) (T.arg.i .iter_max) loopFuel 0 (qabsMu Q s) with
        | none => .error .stuck
        | some r => .ok (qepilogue T Q (r.1, qabsEnd T Q r.1 r.2))
      else
        match ipmLoop (fun s => contRel T.arg (qobs T s)) (qrelBody T Q) (T.arg.i .iter_max) loopFuel 0 (qrelStart T Q s) with
        | none => .error .stuck
        | some r => .ok (qepilogue T Q r)

end
end Hpipm
