/-
Model of the tree-structured interior point solver, tree_ocp_qp/x_tree_ocp_qp_ipm.c:1130-2490, over an exact ordered field.
The state is that of the OCP solver (`Ipm`; the members `npd`, `preg_last`, `lastLq` do not exist here and are not
used).  Statements whose text is the same as in the OCP solver are the functions of Ipm.lean applied to `TEnv.env`, the common
part of the settings; the functions that differ (KKT solver, residuals, statistics with 20 columns, initialisation,
no regularisation loop, no factorisation at exit) are written out.  Not modelled: NaN tests; the body of the LQ
factorisation (parameter `lq`).
-/
import Verif.Ipm
import Verif.TreeKkt

namespace Hpipm
set_option linter.unusedSectionVars false

section
variable {K : Type*} [Field K] [LinearOrder K] [IsStrictOrderedRing K]

/-- what does not change during a solve.  The matrices `BAbt`, `RSQrq` of the QP are only written by the unconstrained
solver (`tuKid`), so they can stay here. -/
structure TEnv (K : Type*) where
  sq : K → K
  t : TreeQp K
  arg : IpmArg K
  /-- `ws->lq_fact`, fixed at creation -/
  lqf : ℤ
  /-- `ws->stat_max`, fixed at creation -/
  statMax : ℤ
  /-- TREE_OCP_QP_FACT_LQ_SOLVE_KKT_STEP after COMPUTE_GAMMA_GAMMA_QP, x_tree_ocp_qp_kkt.c:686-845 -/
  lq : TreeQp K → Core K → KktSt K → KktSt K

/-- the settings shared with the OCP solver (its factorisations are never called) -/
def TEnv.env (T : TEnv K) : Env K where
  sq := T.sq
  fuel := 0
  qp := T.t.qp
  arg := T.arg
  sqr := true
  lqf := T.lqf
  statMax := T.statMax
  lq := fun _ _ _ _ => none
  factOnly := fun _ _ st => st

/-- `ws->qp_step`, x_tree_ocp_qp_ipm.c:2129-2141 (relative) and 2278-2292 (absolute formulation) -/
def tqpStep (T : TEnv K) (s : Ipm K) : TreeQp K :=
  let q := T.t.qp
  { T.t with qp :=
    if T.arg.i .abs_form ≠ 0 then { q with m := svw (nct q.dim) s.core.res_m }
    else { q with
      rqz := s.res.res_g
      b := s.res.res_b
      d := s.res.res_d
      m := svw (nct q.dim) s.core.res_m } }

/-- `ws->qp_itref`, x_tree_ocp_qp_ipm.c:2144-2156 -/
def tqpItref (T : TEnv K) (s : Ipm K) : TreeQp K :=
  { T.t with qp := { T.t.qp with
    rqz := s.resIt.res_g
    b := s.resIt.res_b
    d := s.resIt.res_d
    m := s.resIt.res_m } }

/-- `stat[i] = x`; the table has `stat_m*(1+stat_max)` entries, `stat_m = 20`, x_tree_ocp_qp_ipm.c:652-653 -/
def tput (T : TEnv K) (i : ℕ) (x : K) (s : Ipm K) : Ipm K :=
  { s with
    stat := upd s.stat i x
    oob := s.oob || decide ((i : ℤ) ≥ 20 * (1 + T.statMax)) }

/-- `if(kk+1<ws->stat_max) stat[stat_m*(kk+1)+col] = x` -/
def tputG (T : TEnv K) (kk col : ℕ) (x : K) (s : Ipm K) : Ipm K :=
  if ((kk : ℤ) + 1) < T.statMax then tput T (20 * (kk + 1) + col) x s else s

/-- four consecutive columns -/
def tputG4 (T : TEnv K) (kk col : ℕ) (x : K × K × K × K) (s : Ipm K) : Ipm K :=
  tputG T kk (col + 3) x.2.2.2 (tputG T kk (col + 2) x.2.2.1 (tputG T kk (col + 1) x.2.1 (tputG T kk col x.1 s)))

/-- TREE_OCP_QP_FACT_SOLVE_KKT_STEP(qp_step, sol_step) -/
def tfactStep (T : TEnv K) (s : Ipm K) : Ipm K :=
  let r := tkktStep T.sq (tqpStep T s) (dualF T.env) (T.arg.r .reg_prim) s.core s.kkt
  syncStep T.t.qp.dim { s with
    core := r.1
    kkt := r.2 }

/-- TREE_OCP_QP_FACT_LQ_SOLVE_KKT_STEP(qp_step, sol_step), x_tree_ocp_qp_kkt.c:624-848 -/
def tlqStep (T : TEnv K) (s : Ipm K) : Ipm K :=
  let D := T.t.qp.dim
  let q := tqpStep T s
  let c := computeGammaGamma (stFlat (nct D) q.qp.d (D.N + 1)) (stFlat (nct D) q.qp.m (D.N + 1)) s.core
  syncStep D { s with
    core := c
    kkt := T.lq q c s.kkt }

/-- TREE_OCP_QP_SOLVE_KKT_STEP(qp_step, sol_step) with `use_Pb = 1` -/
def tsolStep (T : TEnv K) (s : Ipm K) : Ipm K :=
  let r := tsolveStep (tqpStep T s) (dualF T.env) true s.core s.kkt
  syncStep T.t.qp.dim { s with
    core := r.1
    kkt := r.2 }

/-- TREE_OCP_QP_SOLVE_KKT_STEP(qp_itref, sol_itref) with `use_Pb = 0` -/
def tsolItref (T : TEnv K) (s : Ipm K) : Ipm K :=
  let r := tsolveStep (tqpItref T s) (dualF T.env) false s.core
    { s.kkt with
      ux := s.itr.ux
      pi := s.itr.pi
      lam := s.itr.lam
      t := s.itr.t }
  { s with
    core := r.1
    itr := stepOf r.2
    kkt := { r.2 with
      ux := s.kkt.ux
      pi := s.kkt.pi
      lam := s.kkt.lam
      t := s.kkt.t } }

/-- residual of the Newton system at the current step and its norms, e.g. x_tree_ocp_qp_ipm.c:1697-1703 -/
def tlinRes (T : TEnv K) (s : Ipm K) : Ipm K × (K × K × K × K) :=
  let r := tresComputeLin (tqpStep T s) (solOf T.t.qp.dim s.core) (stepOf s.kkt) s.resIt s.rws
  ({ s with resIt := r }, tresInfNorm T.t.qp.dim r)

/-- the same with masking of `res_d`, `res_m`, x_tree_ocp_qp_ipm.c:1613-1626 -/
def tlinResMask (T : TEnv K) (s : Ipm K) : Ipm K × (K × K × K × K) :=
  let D := T.t.qp.dim
  let r := tresComputeLin (tqpStep T s) (solOf D s.core) (stepOf s.kkt) s.resIt s.rws
  let r := if s.mask then { r with
      res_d := svw (nct D) (vecmul s.core.nc (fmask T.t.qp) 0 (stFlat (nct D) r.res_d (D.N + 1)) 0 (stFlat (nct D) r.res_d (D.N + 1)) 0)
      res_m := svw (nct D) (vecmul s.core.nc (fmask T.t.qp) 0 (stFlat (nct D) r.res_m (D.N + 1)) 0 (stFlat (nct D) r.res_m (D.N + 1)) 0) }
    else r
  ({ s with resIt := r }, tresInfNorm D r)

/-- the refinement loop, x_tree_ocp_qp_ipm.c:1720-1810 (predictor, `shadow`) and 1947-2018 (corrector) -/
def titrefLoop (T : TEnv K) (kk : ℕ) (shadow : Bool) : ℕ → ℕ → Bool → K × K × K × K → K → Ipm K → ItOut K
  | 0, cnt, did, _, _, s => ⟨s, cnt, did⟩
  | n + 1, cnt, did, x, mx, s =>
    if itrefDone T.env s.rmax x then ⟨s, cnt, did⟩
    else
      let s := addItref T.env 1 (maskStep T.env (tsolItref T s))
      let r := tlinRes T s
      let s := tputG4 T kk 16 r.2 r.1
      let mx' := max4 r.2
      if mx' ≥ mx then ⟨tputG4 T kk 16 x (addItref T.env (-1) s), cnt, true⟩
      else titrefLoop T kk shadow n (cnt + 1) true r.2 (if shadow then mx else mx') s

/-- refinement: initial residual, then the loop -/
def titref (T : TEnv K) (kk : ℕ) (shadow : Bool) (max : ℤ) (s : Ipm K) : ItOut K :=
  let r := tlinRes T s
  titrefLoop T kk shadow max.toNat 0 false r.2 (max4 r.2) (tputG4 T kk 16 r.2 r.1)

/-- COMPUTE_ALPHA_QP and the two statistics columns -/
def talphaStep (T : TEnv K) (kk col : ℕ) (s : Ipm K) : Ipm K :=
  let s := { s with core := computeAlpha T.sq s.core }
  tputG T kk (col + 1) s.core.alpha_dual (tputG T kk col s.core.alpha_prim s)

/-- factorise and solve for the affine direction, x_tree_ocp_qp_ipm.c:1587-1682 -/
def tfactPhase (T : TEnv K) (kk : ℕ) (s : Ipm K) : Ipm K :=
  if T.lqf = 0 then tputG T kk 13 0 (maskStep T.env (tfactStep T s))
  else if T.lqf = 1 then
    let r := tlinResMask T (maskStep T.env (tfactStep T s))
    let s := tputG T kk 13 0 r.1
    if r.2.1 > 1 / 100000 ∨ r.2.2.1 > 1 / 100000 ∨ r.2.2.2.1 > 1 / 100000 ∨ r.2.2.2.2 > 1 / 100000 then
      tputG T kk 13 1 (maskStep T.env (tlqStep T s))
    else s
  else tputG T kk 13 1 (maskStep T.env (tlqStep T s))

/-- refinement of the prediction step and step length, x_tree_ocp_qp_ipm.c:1684-1825 -/
def tpredPhase (T : TEnv K) (kk : ℕ) (s : Ipm K) : Ipm K :=
  let o : ItOut K := if T.arg.i .itref_pred_max = 0 then ⟨tputG4 T kk 16 (0, 0, 0, 0) s, 0, false⟩
    else titref T kk true (T.arg.i .itref_pred_max) s
  talphaStep T kk 0 (tputG T kk 14 (o.cnt : K) o.s)

/-- Mehrotra's centering weight, x_tree_ocp_qp_ipm.c:1833-1843 -/
def tsigmaStep (T : TEnv K) (kk : ℕ) (s : Ipm K) : Ipm K :=
  let s := { s with core := computeMuAff s.core }
  let s := tputG T kk 2 s.core.mu_aff s
  let tmp := s.core.mu_aff / s.core.mu
  let s := { s with core := { s.core with sigma := tmp * tmp * tmp } }
  tputG T kk 3 s.core.sigma s

/-- predictor-corrector of the relative formulation without refinement, x_tree_ocp_qp_ipm.c:1828-1916 -/
def tcorrPhase (T : TEnv K) (kk : ℕ) (s : Ipm K) : Ipm K :=
  let s := tsigmaStep T kk s
  let s := maskResM T.env { s with core := computeCenteringCorrection s.core }
  let s := talphaStep T kk 4 (maskStep T.env (tsolStep T s))
  if T.arg.i .cond_pred_corr = 1 then
    let mu_aff0 := s.core.mu_aff
    let s := { s with core := computeMuAff s.core }
    if s.core.mu_aff > 2 * mu_aff0 then
      let s := maskResM T.env { s with core := computeCentering s.core }
      talphaStep T kk 4 (maskStep T.env (tsolStep T s))
    else s
  else s

/-- refinement of the corrected step, x_tree_ocp_qp_ipm.c:1920-2043 -/
def tcorrItref (T : TEnv K) (kk : ℕ) (s : Ipm K) : ItOut K :=
  if T.arg.i .itref_corr_max > 0 then
    let o := titref T kk false (T.arg.i .itref_corr_max) s
    if o.did then { o with s := talphaStep T kk 4 o.s } else o
  else ⟨s, 0, false⟩

/-- TREE_OCP_QP_IPM_DELTA_STEP, x_tree_ocp_qp_ipm.c:1541-2075 -/
def tdeltaStep (T : TEnv K) (kk : ℕ) (s : Ipm K) : Ipm K :=
  let s := tpredPhase T kk (tfactPhase T kk (affineRhs T.env s))
  let o : ItOut K := if T.arg.i .pred_corr = 1 then tcorrItref T kk (tcorrPhase T kk s) else ⟨s, 0, false⟩
  let s := if T.arg.i .itref_corr_max = 0 then tputG4 T kk 16 (0, 0, 0, 0) o.s else o.s
  updStep T.env (tputG T kk 15 (o.cnt : K) s)

/-- predictor-corrector of the absolute formulation, x_tree_ocp_qp_ipm.c:1434-1519 -/
def tabsCorr (T : TEnv K) (kk : ℕ) (s : Ipm K) : Ipm K :=
  let s := tsigmaStep T kk s
  let s := maskResM T.env { s with core := computeCenteringCorrection s.core }
  let s := talphaStep T kk 4 (maskStep T.env (subSol T.env (tsolStep T s)))
  if T.arg.i .cond_pred_corr = 1 then
    let mu_aff0 := s.core.mu_aff
    let s := { s with core := computeMuAff s.core }
    if s.core.mu_aff > 2 * mu_aff0 then
      let s := maskResM T.env { s with core := computeCentering s.core }
      talphaStep T kk 4 (maskStep T.env (subSol T.env (tsolStep T s)))
    else s
  else s

/-- TREE_OCP_QP_IPM_ABS_STEP, x_tree_ocp_qp_ipm.c:1365-1537 -/
def tabsStep (T : TEnv K) (kk : ℕ) (s : Ipm K) : Ipm K :=
  let c := s.core
  let s := { s with core := { c with
    res_m := fun i => if i < c.nc then -1 * c.res_m i + (-2) * fm T.t.qp i else c.res_m i } }
  let s := maskStep T.env (subSol T.env (tfactStep T (affineRhs T.env s)))
  let s := talphaStep T kk 0 s
  let s := if T.arg.i .pred_corr = 1 then tabsCorr T kk s else s
  updStep T.env s

/-- TREE_OCP_QP_RES_COMPUTE and TREE_OCP_QP_RES_COMPUTE_INF_NORM on `ws->res`, x_tree_ocp_qp_ipm.c:2363-2377, 2413-2421 -/
def tresStep (T : TEnv K) (s : Ipm K) : Ipm K :=
  let r := tresCompute T.t (solOf T.t.qp.dim s.core) s.res s.rws
  { s with
    res := r
    rmax := tresInfNorm T.t.qp.dim r
    core := { s.core with res_m := stFlat (nct T.t.qp.dim) r.res_m (T.t.qp.dim.N + 1) } }

/-- one pass of the relative loop, x_tree_ocp_qp_ipm.c:2410-2444 -/
def trelBody (T : TEnv K) (kk : ℕ) (s : Ipm K) : Ipm K :=
  let s := tresStep T (tdeltaStep T kk s)
  let s := { s with core := { s.core with mu := s.res.res_mu } }
  tputG T kk 12 s.res.obj (tputG T kk 11 s.res.dual_gap (tputG4 T kk 7 s.rmax (tputG T kk 6 s.res.res_mu s)))

/-- one pass of the absolute loop, x_tree_ocp_qp_ipm.c:2320-2341 -/
def tabsBody (T : TEnv K) (kk : ℕ) (s : Ipm K) : Ipm K :=
  let s := absMu T.env (tabsStep T kk s)
  tputG T kk 6 s.core.mu s

/-- one bound of the primal heuristic, x_tree_ocp_qp_ipm.c:1267-1303: as in the OCP solver except that the middle of the
interval is computed as `0.5*(d_lb0 + d_ub0)` although `d_ub` holds the negated upper bound -/
def tiniBox (nbg : ℕ) (idxb : ℕ → ℕ) (d mask : Vec K) (mu0 : K) (jj : ℕ) (s : IniSt K) : IniSt K :=
  let x := s.ux (idxb jj)
  let d_lb0 := if mask jj = 0 then x - 1 else d jj
  let d_ub0 := if mask (nbg + jj) = 0 then -x - 1 else d (nbg + jj)
  let tl := -d_lb0 + x
  let tu := -d_ub0 - x
  let r : K × K × K :=
    if tl < thr0 then
      if tu < thr0 then (1 / 2 * (d_lb0 + d_ub0), thr0, thr0)
      else (d_lb0 + thr0, thr0, tu)
    else if tu < thr0 then (-d_ub0 - thr0, tl, thr0)
    else (x, tl, tu)
  { ux := upd s.ux (idxb jj) r.1
    t := upd (upd s.t jj r.2.1) (nbg + jj) r.2.2
    lam := upd (upd s.lam jj (mu0 / r.2.1)) (nbg + jj) (mu0 / r.2.2) }

/-- the slack pair `jj` of a node, x_tree_ocp_qp_ipm.c:1346-1352 -/
def tiniSoft (n2 ns : ℕ) (mu0 : K) (jj : ℕ) (s : IniSt K) : IniSt K :=
  { s with
    t := upd (upd s.t (n2 + jj) 1) (n2 + ns + jj) 1
    lam := upd (upd s.lam (n2 + jj) (mu0 / 1)) (n2 + ns + jj) (mu0 / 1) }

/-- TREE_OCP_QP_INIT_VAR, x_tree_ocp_qp_ipm.c:1130-1361; nodes `0..Nn-1` are `0..N` -/
def tinitVar (sq : K → K) (qp : OcpQp K) (a : IpmArg K) (sol : Sol K) : Sol K :=
  let D := qp.dim
  let N := D.N
  let mu0 := a.r .mu0
  if a.i .warm_start ≥ 3 then
    iniStages N (fun k s => iniClip (nct D k) (a.r .lam0_min) (a.r .t0_min) s) sol
  else if a.i .warm_start = 2 then
    iniStages N (fun k s => iniClip (nct D k) thr0 thr0 s) sol
  else
    let sol := if a.i .warm_start = 0 then
        loop (N + 1) (fun k (sol : Sol K) => { sol with ux := upd sol.ux k (vecse (nvt D k) 0 (sol.ux k) 0) }) sol
      else sol
    let sol := loop N (fun k (sol : Sol K) =>
      { sol with pi := upd sol.pi k (vecse (D.nx (k + 1)) 0 (sol.pi k) 0) }) sol
    if a.i .t0_init = 0 then
      iniStages N (fun k s => iniConst (nct D k) (sq mu0) (sq mu0) s) sol
    else if a.i .t0_init = 1 then
      iniStages N (fun k s => iniConst (nct D k) mu0 1 s) sol
    else
      let sol := iniStages N (fun k s =>
        loop (D.nb k) (tiniBox (D.nb k + D.ng k) (qp.idxb k) (qp.d k) (qp.d_mask k) mu0) s) sol
      let sol := iniStages N (fun k s =>
        loop (D.ng k) (iniGen0 (D.nb k) (D.ng k) (qp.d k) (qp.d_mask k) mu0)
          { s with t := gemv_t (D.nu k + D.nx k) (D.ng k) 1 (qp.DCt k) 0 0 s.ux 0 0 s.t (D.nb k) s.t (D.nb k) }) sol
      iniStages N (fun k s => loop (D.ns k) (tiniSoft (2 * D.nb k + 2 * D.ng k) (D.ns k) mu0) s) sol

/-- initialisation of the iterate, x_tree_ocp_qp_ipm.c:2245-2268 -/
def tipmInit (T : TEnv K) (s : Ipm K) : Ipm K :=
  let D := T.t.qp.dim
  let s := maskLam T.env { s with core := putSol D (tinitVar T.sq T.t.qp T.arg (solOf D s.core)) s.core }
  { s with core := { backupVar s.core with
    alpha_prim := 1
    alpha_dual := 1
    m_zero := decide (vecnrmInf s.core.nc (fm T.t.qp) 0 = 0) } }

/-- the unconstrained branch, x_tree_ocp_qp_ipm.c:2205-2241 -/
def tsolveUnc (T : TEnv K) (s : Ipm K) : SolveOut K :=
  let D := T.t.qp.dim
  let sol := solOf D s.core
  let k := tunconstr T.sq T.t
    { s.kkt with
      ux := sol.ux
      pi := sol.pi
      lam := sol.lam
      t := sol.t }
  let s := { s with
    core := putSol D (stepOf k) s.core
    kkt := { k with
      ux := s.kkt.ux
      pi := s.kkt.pi
      lam := s.kkt.lam
      t := s.kkt.t } }
  let s := if T.arg.i .comp_res_exit ≠ 0 then
      let s := tresStep T s
      let s := { s with core := { s.core with mu := s.res.res_mu } }
      if 0 < T.statMax then
        tput T 10 s.res.obj (tput T 9 s.rmax.2.2.2 (tput T 8 s.rmax.2.2.1 (tput T 7 s.rmax.2.1 (tput T 6 s.rmax.1 s))))
      else s
    else s
  ⟨s, 0, .SUCCESS⟩

/-- exit of the solver, x_tree_ocp_qp_ipm.c:2446-2482 -/
def tepilogue (T : TEnv K) (r : ℕ × Ipm K) : SolveOut K :=
  let s := { r.2 with rws := { r.2.rws with valid_nc_mask := false } }
  ⟨s, r.1, statusOf T.arg r.1 (obsRel T.env s)⟩

/-- residuals before the relative loop, x_tree_ocp_qp_ipm.c:2363-2386 -/
def trelStart (T : TEnv K) (s : Ipm K) : Ipm K :=
  let s := tresStep T s
  let s := { s with core := { s.core with mu := s.res.res_mu } }
  if 0 < T.statMax then
    tput T 12 s.res.obj (tput T 11 s.res.dual_gap (tput T 10 s.rmax.2.2.2 (tput T 9 s.rmax.2.2.1
      (tput T 8 s.rmax.2.1 (tput T 7 s.rmax.1 s)))))
  else s

/-- residuals after the absolute loop, x_tree_ocp_qp_ipm.c:2343-2356 -/
def tabsEnd (T : TEnv K) (kk : ℕ) (s : Ipm K) : Ipm K :=
  if T.arg.i .comp_res_exit ≠ 0 ∧ T.arg.i .comp_dual_sol_eq ≠ 0 then
    let s := tresStep T s
    if (kk : ℤ) < T.statMax then
      tput T (20 * kk + 12) s.res.obj (tput T (20 * kk + 11) s.res.dual_gap (tput T (20 * kk + 10) s.rmax.2.2.2
        (tput T (20 * kk + 9) s.rmax.2.2.1 (tput T (20 * kk + 8) s.rmax.2.1 (tput T (20 * kk + 7) s.rmax.1 s)))))
    else s
  else s

/-- TREE_OCP_QP_IPM_SOLVE, x_tree_ocp_qp_ipm.c:2079-2490 (`comp_res_exit`, `comp_dual_sol_eq` are flags 0/1, the bitwise
`&` of line 2343 is the logical one); `none` (never, see `tipm_terminates`): more passes than `loopFuel` -/
def tipmSolve (T : TEnv K) (loopFuel : ℕ) (sol : Sol K) (s : Ipm K) : Option (SolveOut K) :=
  let nc := s.core.nc
  let s := prologue T.env sol s
  if nc = 0 ∨ ncMask T.t.qp nc = 0 then some (tsolveUnc T s)
  else
    let s := tipmInit T s
    if T.arg.i .abs_form ≠ 0 then
      (ipmLoop (fun s => contAbs T.arg (obsRel T.env s)) (fun kk s => some (tabsBody T kk s)) (T.arg.i .iter_max) loopFuel 0
        (absMu T.env s)).map fun r => tepilogue T (r.1, tabsEnd T r.1 r.2)
    else
      (ipmLoop (fun s => contRel T.arg (obsRel T.env s)) (fun kk s => some (trelBody T kk s)) (T.arg.i .iter_max) loopFuel 0
        (trelStart T s)).map fun r => tepilogue T r

end
end Hpipm
