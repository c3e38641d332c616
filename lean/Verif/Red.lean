/-
Model of the removal of fixed variables, ocp_qp/x_ocp_qp_red.c.

Variables with an equality box constraint (inputs of every stage, states of stage 0) are substituted
by their value.  `qp_red`, `qp_seed_red`, `qp_sol_red` are the objects with the reduced dimensions
(`dimReduce`, PartCond.lean).
Simplifications: reals instead of floating point; each C loop over boxes that fills several arrays is
written as one loop per array (the arrays are distinct); `alias_unchanged` is modelled as a copy of the
whole array at the time of the call (the later sharing of memory is not modelled).
-/
import Verif.Res
import Verif.PartCond

namespace Hpipm

/-- `struct OCP_QP_REDUCE_EQ_DOF_ARG` (include/hpipm_d_ocp_qp_red.h:52-62) -/
structure RedArg (K : Type*) where
  lam_min : K
  t_min : K
  alias_unchanged : Bool
  comp_prim_sol : Bool
  comp_dual_sol_eq : Bool
  comp_dual_sol_ineq : Bool

/-- `struct OCP_QP_REDUCE_EQ_DOF_WS` (include/hpipm_d_ocp_qp_red.h:66-74): `tmp_nuxM[0..1]`, `tmp_nbgM`,
`e_imask_ux`, `e_imask_d` -/
structure RedWs (K : Type*) where
  tmp0 : Vec K
  tmp1 : Vec K
  tmpg : Vec K
  imux : ℕ → ℕ
  imd : ℕ → ℕ

/-- `struct OCP_QP_SEED` (include/hpipm_d_ocp_qp_seed.h) -/
structure QpSeed (K : Type*) where
  seed_g : ℕ → Vec K
  seed_b : ℕ → Vec K
  seed_d : ℕ → Vec K
  seed_m : ℕ → Vec K

section
variable {K : Type*} [Field K]

/-- OCP_QP_REDUCE_EQ_DOF_ARG_SET_DEFAULT, x_ocp_qp_red.c:95-107 -/
def redArgDefault : RedArg K :=
  { lam_min := 1 / 10 ^ 16, t_min := 1 / 10 ^ 16, alias_unchanged := false, comp_prim_sol := true,
    comp_dual_sol_eq := true, comp_dual_sol_ineq := true }

/-- number of removed variables of a stage: inputs, and on stage 0 also states
(x_ocp_qp_red.c:299-302 and the same lines of the other functions) -/
def neThr (D : QpDim) (k : ℕ) : ℕ := if k = 0 then D.nbue k + D.nbxe k else D.nbue k

/-- masks and fixed values, x_ocp_qp_red.c:305-315 (LHS 505-515, RHS 629-639, SEED 754-764);
`fix` is `qp->d[ii]` or `seed_d[ii]` -/
def redMask (qp : OcpQp K) (k : ℕ) (fix : Vec K) (ws : RedWs K) : RedWs K :=
  let D := qp.dim
  loop (neThr D k) (fun jj ws => { ws with
      tmp0 := upd ws.tmp0 (qp.idxb k (qp.idxe k jj)) (fix (qp.idxe k jj))
      imux := upd ws.imux (qp.idxb k (qp.idxe k jj)) 1
      imd := upd ws.imd (qp.idxe k jj) 1 })
    { ws with
      tmp0 := vecse (D.nu k + D.nx k) 0 ws.tmp0 0
      imux := loop (D.nu k + D.nx k) (fun jj a => upd a jj 0) ws.imux
      imd := loop (D.nbu k + D.nbx k) (fun jj a => upd a jj 0) ws.imd }

/-- masks in RESTORE and REDUCE_SOL, x_ocp_qp_red.c:880-890 (1029-1039, 1190-1200) -/
def redMaskSol (qp : OcpQp K) (k : ℕ) (ws : RedWs K) : RedWs K :=
  let D := qp.dim
  loop (neThr D k) (fun jj ws => { ws with
      imux := upd ws.imux (qp.idxb k (qp.idxe k jj)) 1
      imd := upd ws.imd (qp.idxe k jj) 1 })
    { ws with
      tmp0 := vecse (D.nu k + D.nx k) 0 ws.tmp0 0
      imux := loop (D.nu k + D.nx k) (fun jj a => upd a jj 0) ws.imux
      imd := loop (D.nb k) (fun jj a => upd a jj 0) ws.imd }

/-- the recurring loop `idx0 = 0; for(jj<n) if(mask[jj]==0) { body(jj, idx0); idx0++; }` -/
def sqLoop {S : Type*} (n : ℕ) (mask : ℕ → ℕ) (body : ℕ → ℕ → S → S) (s : S) : S :=
  (loop n (fun jj (p : ℕ × S) => if mask jj = 0 then (p.1 + 1, body jj p.1 p.2) else p) (0, s)).2

/-- `MATEL(M, i, j) = v` -/
def upd2 {α : Type*} (M : ℕ → ℕ → α) (i j : ℕ) (v : α) : ℕ → ℕ → α := upd M i (upd (M i) j v)

/-- rows of `BAbt` and `DCt`, x_ocp_qp_red.c:320-328, 402-410 (LHS 520-528, 564-572) -/
def sqRows (n nc : ℕ) (mask : ℕ → ℕ) (A B : Mat K) : Mat K :=
  sqLoop n mask (fun jj idx B => gecp 1 nc A jj 0 B idx 0) B

/-- lower triangle of the Hessian, x_ocp_qp_red.c:333-354 (LHS 531-552) -/
def sqSym (n : ℕ) (mask : ℕ → ℕ) (A B : Mat K) : Mat K :=
  sqLoop n mask (fun jj idx0 B =>
    (loopFrom jj n (fun kk (p : ℕ × Mat K) =>
      if mask kk = 0 then (p.1 + 1, upd2 p.2 p.1 idx0 (A kk jj)) else p) (idx0, B)).2) B

/-- vector compression, x_ocp_qp_red.c:357-365 (RHS 648-656, SEED 773-781, SOL 1205-1213) and the index
lists 379-380 -/
def sqVec {α : Type*} (n : ℕ) (mask : ℕ → ℕ) (x y : ℕ → α) : ℕ → α :=
  sqLoop n mask (fun jj idx y => upd y idx (x jj)) y

/-- box entries of a constraint vector, lower and upper side, x_ocp_qp_red.c:367-383 (RHS 658-672,
SEED 783-797, SOL 1227-1238) -/
def sqBox (nb off offr : ℕ) (mask : ℕ → ℕ) (x y : Vec K) : Vec K :=
  sqLoop nb mask (fun jj idx y => upd (upd y idx (x jj)) (offr + idx) (x (off + jj))) y

/-- a constraint vector: boxes, general constraints, slack bounds, x_ocp_qp_red.c:367-390 -/
def redCon (D Dr : QpDim) (k : ℕ) (mask : ℕ → ℕ) (x y : Vec K) : Vec K :=
  let nb := D.nb k; let ng := D.ng k; let ns := D.ns k; let nbr := Dr.nb k; let ngr := Dr.ng k
  let y := sqBox nb (nb + ng) (nbr + ngr) mask x y
  let y := veccp ng x nb y nbr
  veccp (ng + 2 * ns) x (2 * nb + ng) y (2 * nbr + ngr)

/-- right-hand side of the constraints: general constraints are shifted by the contribution of the fixed
variables, x_ocp_qp_red.c:391-393; returns `tmp_nbgM` and the vector -/
def redConD (qp : OcpQp K) (Dr : QpDim) (k : ℕ) (ws : RedWs K) (x y : Vec K) : Vec K × Vec K :=
  let D := qp.dim
  let nb := D.nb k; let ng := D.ng k; let nbr := Dr.nb k; let ngr := Dr.ng k
  let y := redCon D Dr k ws.imd x y
  let tmpg := gemv_t (D.nu k + D.nx k) ng 1 (qp.DCt k) 0 0 ws.tmp0 0 0 ws.tmpg 0 ws.tmpg 0
  let y := axpy ng (-1) tmpg 0 x nb y nbr
  (tmpg, axpy ng 1 tmpg 0 x (2 * nb + ng) y (2 * nbr + ngr))

/-- gradient, x_ocp_qp_red.c:356-365, 415; returns `tmp_nuxM+1` and the vector -/
def redGrad (qp : OcpQp K) (Dr : QpDim) (k : ℕ) (ws : RedWs K) (x y : Vec K) : Vec K × Vec K :=
  let D := qp.dim
  let nv := D.nu k + D.nx k
  let tmp1 := symv_l nv 1 (qp.RSQrq k) 0 0 ws.tmp0 0 1 x 0 ws.tmp1 0
  let y := sqVec nv ws.imux tmp1 y
  (tmp1, veccp (2 * D.ns k) x nv y (Dr.nu k + Dr.nx k))

/-- dynamics constant term, x_ocp_qp_red.c:330 (RHS 644, SEED 769) -/
def redB (qp : OcpQp K) (k : ℕ) (ws : RedWs K) (x y : Vec K) : Vec K :=
  gemv_t (qp.dim.nu k + qp.dim.nx k) (qp.dim.nx (k + 1)) 1 (qp.BAbt k) 0 0 ws.tmp0 0 1 x 0 y 0

/-- index lists of a stage with removed variables, x_ocp_qp_red.c:379-380, 411-413
(LHS 553-563, 573-575): the entries of `idxb` are copied without renumbering -/
def redIdx (D Dr : QpDim) (k : ℕ) (mask : ℕ → ℕ) (idxb : ℕ → ℕ) (idxs : ℕ → ℤ) (idxbr : ℕ → ℕ) (idxsr : ℕ → ℤ) :
    (ℕ → ℕ) × (ℕ → ℤ) :=
  (sqVec (D.nb k) mask idxb idxbr,
   loop (D.ng k) (fun jj a => upd a (Dr.nb k + jj) (idxs (D.nb k + jj))) (sqVec (D.nb k) mask idxs idxsr))

/-- the stage of OCP_QP_REDUCE_EQ_DOF without removed variables: vectors, x_ocp_qp_red.c:419-429 -/
def redCopyVec (qp : OcpQp K) (k : ℕ) (red : OcpQp K) : OcpQp K :=
  let D := qp.dim
  { red with
    b := if k < D.N then upd red.b k (veccp (D.nx (k + 1)) (qp.b k) 0 (red.b k) 0) else red.b
    rqz := upd red.rqz k (veccp (D.nu k + D.nx k + 2 * D.ns k) (qp.rqz k) 0 (red.rqz k) 0)
    d := upd red.d k (veccp (nct D k) (qp.d k) 0 (red.d k) 0)
    d_mask := upd red.d_mask k (veccp (nct D k) (qp.d_mask k) 0 (red.d_mask k) 0)
    m := upd red.m k (veccp (nct D k) (qp.m k) 0 (red.m k) 0) }

/-- the stage of OCP_QP_REDUCE_EQ_DOF without removed variables: matrices and index lists,
x_ocp_qp_red.c:430-460 -/
def redCopyMat (arg : RedArg K) (qp : OcpQp K) (k : ℕ) (red : OcpQp K) : OcpQp K :=
  let D := qp.dim
  let nv := D.nu k + D.nx k
  if arg.alias_unchanged then
    { red with
      diag_H_flag := upd red.diag_H_flag k (qp.diag_H_flag k)
      BAbt := if k < D.N then upd red.BAbt k (qp.BAbt k) else red.BAbt
      RSQrq := upd red.RSQrq k (qp.RSQrq k)
      Z := upd red.Z k (qp.Z k)
      idxb := upd red.idxb k (qp.idxb k)
      DCt := upd red.DCt k (qp.DCt k)
      idxs_rev := upd red.idxs_rev k (qp.idxs_rev k)
      idxe := upd red.idxe k (qp.idxe k) }
  else
    { red with
      diag_H_flag := upd red.diag_H_flag k (qp.diag_H_flag k)
      BAbt := if k < D.N then upd red.BAbt k (gecp (nv + 1) (D.nx (k + 1)) (qp.BAbt k) 0 0 (red.BAbt k) 0 0) else red.BAbt
      RSQrq := upd red.RSQrq k (gecp (nv + 1) nv (qp.RSQrq k) 0 0 (red.RSQrq k) 0 0)
      Z := upd red.Z k (veccp (2 * D.ns k) (qp.Z k) 0 (red.Z k) 0)
      idxb := upd red.idxb k (loop (D.nb k) (fun jj a => upd a jj (qp.idxb k jj)) (red.idxb k))
      DCt := upd red.DCt k (gecp nv (D.ng k) (qp.DCt k) 0 0 (red.DCt k) 0 0)
      idxs_rev := upd red.idxs_rev k (loop (D.nb k + D.ng k) (fun jj a => upd a jj (qp.idxs_rev k jj)) (red.idxs_rev k))
      idxe := upd red.idxe k (loop (D.nbue k + D.nbxe k + D.nge k) (fun jj a => upd a jj (qp.idxe k jj)) (red.idxe k)) }

/-- the vectors of a stage with removed variables: OCP_QP_REDUCE_EQ_DOF_RHS, x_ocp_qp_red.c:640-688 -/
def redVecs (qp : OcpQp K) (k : ℕ) (s : OcpQp K × RedWs K) : OcpQp K × RedWs K :=
  let D := qp.dim; let red := s.1; let Dr := red.dim; let ws := s.2
  let g := redGrad qp Dr k ws (qp.rqz k) (red.rqz k)
  let c := redConD qp Dr k ws (qp.d k) (red.d k)
  ({ red with
     b := if k < D.N then upd red.b k (redB qp k ws (qp.b k) (red.b k)) else red.b
     rqz := upd red.rqz k g.2
     d := upd red.d k c.2
     d_mask := upd red.d_mask k (redCon D Dr k ws.imd (qp.d_mask k) (red.d_mask k))
     m := upd red.m k (redCon D Dr k ws.imd (qp.m k) (red.m k)) },
   { ws with
     tmp1 := g.1
     tmpg := c.1 })

/-- the matrices and index lists of a stage with removed variables: OCP_QP_REDUCE_EQ_DOF_LHS,
x_ocp_qp_red.c:516-578 -/
def redMats (qp : OcpQp K) (k : ℕ) (s : OcpQp K × RedWs K) : OcpQp K × RedWs K :=
  let D := qp.dim; let red := s.1; let Dr := red.dim; let ws := s.2
  let nv := D.nu k + D.nx k
  let ix := redIdx D Dr k ws.imd (qp.idxb k) (qp.idxs_rev k) (red.idxb k) (red.idxs_rev k)
  ({ red with
     BAbt := if k < D.N then upd red.BAbt k (sqRows nv (D.nx (k + 1)) ws.imux (qp.BAbt k) (red.BAbt k)) else red.BAbt
     RSQrq := upd red.RSQrq k (sqSym nv ws.imux (qp.RSQrq k) (red.RSQrq k))
     idxb := upd red.idxb k ix.1
     idxs_rev := upd red.idxs_rev k ix.2
     DCt := upd red.DCt k (sqRows nv (D.ng k) ws.imux (qp.DCt k) (red.DCt k))
     Z := upd red.Z k (veccp (2 * D.ns k) (qp.Z k) 0 (red.Z k) 0)
     diag_H_flag := upd red.diag_H_flag k (qp.diag_H_flag k) }, ws)

/-- one stage of OCP_QP_REDUCE_EQ_DOF, x_ocp_qp_red.c:297-461.  The C code interleaves the updates of
matrices and vectors; they write different arrays and read only `qp` and the workspace. -/
def redStage (arg : RedArg K) (qp : OcpQp K) (k : ℕ) (s : OcpQp K × RedWs K) : OcpQp K × RedWs K :=
  if neThr qp.dim k > 0 then redVecs qp k (redMats qp k (s.1, redMask qp k (qp.d k) s.2))
  else (redCopyMat arg qp k (redCopyVec qp k s.1), s.2)

/-- OCP_QP_REDUCE_EQ_DOF, x_ocp_qp_red.c:262-463 -/
def redQp (arg : RedArg K) (qp red : OcpQp K) (ws : RedWs K) : OcpQp K × RedWs K :=
  loop (qp.dim.N + 1) (redStage arg qp) (red, ws)

/-- one stage of OCP_QP_REDUCE_EQ_DOF_LHS, x_ocp_qp_red.c:497-586 -/
def redLhsStage (arg : RedArg K) (qp : OcpQp K) (k : ℕ) (s : OcpQp K × RedWs K) : OcpQp K × RedWs K :=
  if neThr qp.dim k > 0 then redMats qp k (s.1, redMask qp k (qp.d k) s.2)
  else (redCopyMat arg qp k s.1, s.2)

/-- OCP_QP_REDUCE_EQ_DOF_LHS, x_ocp_qp_red.c:467-590 -/
def redLhs (arg : RedArg K) (qp red : OcpQp K) (ws : RedWs K) : OcpQp K × RedWs K :=
  loop (qp.dim.N + 1) (redLhsStage arg qp) (red, ws)

/-- one stage of OCP_QP_REDUCE_EQ_DOF_RHS, x_ocp_qp_red.c:624-708 -/
def redRhsStage (qp : OcpQp K) (k : ℕ) (s : OcpQp K × RedWs K) : OcpQp K × RedWs K :=
  if neThr qp.dim k > 0 then redVecs qp k (s.1, redMask qp k (qp.d k) s.2)
  else (redCopyVec qp k s.1, s.2)

/-- OCP_QP_REDUCE_EQ_DOF_RHS, x_ocp_qp_red.c:594-712 -/
def redRhs (qp red : OcpQp K) (ws : RedWs K) : OcpQp K × RedWs K :=
  loop (qp.dim.N + 1) (redRhsStage qp) (red, ws)

/-- one stage of OCP_QP_REDUCE_EQ_DOF_SEED, x_ocp_qp_red.c:746-832 -/
def redSeedStage (qp : OcpQp K) (sd : QpSeed K) (Dr : QpDim) (k : ℕ) (s : QpSeed K × RedWs K) : QpSeed K × RedWs K :=
  let D := qp.dim
  if neThr D k > 0 then
    let red := s.1; let ws := redMask qp k (sd.seed_d k) s.2
    let g := redGrad qp Dr k ws (sd.seed_g k) (red.seed_g k)
    let c := redConD qp Dr k ws (sd.seed_d k) (red.seed_d k)
    ({ red with
       seed_b := if k < D.N then upd red.seed_b k (redB qp k ws (sd.seed_b k) (red.seed_b k)) else red.seed_b
       seed_g := upd red.seed_g k g.2
       seed_d := upd red.seed_d k c.2
       seed_m := upd red.seed_m k (redCon D Dr k ws.imd (sd.seed_m k) (red.seed_m k)) },
     { ws with
       tmp1 := g.1
       tmpg := c.1 })
  else
    let red := s.1
    ({ red with
       seed_b := if k < D.N then upd red.seed_b k (veccp (D.nx (k + 1)) (sd.seed_b k) 0 (red.seed_b k) 0) else red.seed_b
       seed_g := upd red.seed_g k (veccp (D.nu k + D.nx k + 2 * D.ns k) (sd.seed_g k) 0 (red.seed_g k) 0)
       seed_d := upd red.seed_d k (veccp (nct D k) (sd.seed_d k) 0 (red.seed_d k) 0)
       seed_m := upd red.seed_m k (veccp (nct D k) (sd.seed_m k) 0 (red.seed_m k) 0) }, s.2)

/-- OCP_QP_REDUCE_EQ_DOF_SEED, x_ocp_qp_red.c:716-836 -/
def redSeed (qp : OcpQp K) (sd red : QpSeed K) (Dr : QpDim) (ws : RedWs K) : QpSeed K × RedWs K :=
  loop (qp.dim.N + 1) (redSeedStage qp sd Dr) (red, ws)

end

section
variable {K : Type*} [Field K] [LinearOrder K]

/-- scattering of the kept entries, x_ocp_qp_red.c:894-902: `idx0 = 0; for(jj<n) if(mask[jj]==0)
y[jj] = x[idx0++]` -/
def unsqVec (n : ℕ) (mask : ℕ → ℕ) (x y : Vec K) : Vec K :=
  sqLoop n mask (fun jj idx y => upd y jj (x idx)) y

/-- multipliers / slacks of the boxes: kept ones are copied, removed ones get `c`,
x_ocp_qp_red.c:918-939 -/
def unsqBox (nb off offr : ℕ) (mask : ℕ → ℕ) (c : K) (x y : Vec K) : Vec K :=
  (loop nb (fun jj (p : ℕ × Vec K) =>
    if mask jj = 0 then (p.1 + 1, upd (upd p.2 jj (x p.1)) (off + jj) (x (offr + p.1)))
    else (p.1, upd (upd p.2 jj c) (off + jj) c)) (0, y)).2

/-- a constraint vector of the restored solution, x_ocp_qp_red.c:915-944 -/
def unredCon (D Dr : QpDim) (k : ℕ) (mask : ℕ → ℕ) (c : K) (x y : Vec K) : Vec K :=
  let nb := D.nb k; let ng := D.ng k; let ns := D.ns k; let nbr := Dr.nb k; let ngr := Dr.ng k
  let y := unsqBox nb (nb + ng) (nbr + ngr) mask c x y
  let y := veccp ng x nbr y nb
  veccp (ng + 2 * ns) x (2 * nbr + ngr) y (2 * nb + ng)

/-- gradient of the Lagrangian used to recover the multipliers of the removed boxes,
x_ocp_qp_red.c:946-952; returns `tmp_nuxM`, `tmp_nbgM` -/
def redGradLag (qp : OcpQp K) (k : ℕ) (g ux pi lam : Vec K) (ws : RedWs K) : Vec K × Vec K :=
  let D := qp.dim
  let nv := D.nu k + D.nx k; let nb := D.nb k; let ng := D.ng k
  let t0 := veccp nv g 0 ws.tmp0 0
  let tg := axpy (nb + ng) (-1) lam 0 lam (nb + ng) ws.tmpg 0
  let t0 := vecad_sp nb 1 tg 0 (qp.idxb k) t0 0
  let t0 := symv_l nv 1 (qp.RSQrq k) 0 0 ux 0 1 t0 0 t0 0
  let t0 := if k < D.N then gemv_n nv (D.nx (k + 1)) 1 (qp.BAbt k) 0 0 pi 0 1 t0 0 t0 0 else t0
  let t0 := gemv_n nv ng 1 (qp.DCt k) 0 0 tg nb 1 t0 0 t0 0
  (t0, tg)

/-- multipliers of the removed boxes, x_ocp_qp_red.c:953-963 -/
def redLamFix (nb off : ℕ) (mask : ℕ → ℕ) (idxb : ℕ → ℕ) (tmp lam : Vec K) : Vec K :=
  loop nb (fun jj lam =>
    if mask jj ≠ 0 then
      if tmp (idxb jj) ≥ 0 then upd lam jj (tmp (idxb jj)) else upd lam (off + jj) (- tmp (idxb jj))
    else lam) lam

/-- one stage of OCP_QP_RESTORE_EQ_DOF, x_ocp_qp_red.c:872-982 (`fix = qp->d`, `g = qp->rqz`), and of
OCP_QP_RESTORE_EQ_DOF_SEED, x_ocp_qp_red.c:1021-1131 (`fix = seed_d`, `g = seed_g`) -/
def restoreStage (arg : RedArg K) (qp : OcpQp K) (fix g : ℕ → Vec K) (Dr : QpDim) (sr : Sol K) (k : ℕ)
    (s : Sol K × RedWs K) : Sol K × RedWs K :=
  let D := qp.dim
  let nv := D.nu k + D.nx k; let nb := D.nb k; let ng := D.ng k
  let sol := s.1
  let ppi := if arg.comp_dual_sol_eq then
      (if k < D.N then upd sol.pi k (veccp (D.nx (k + 1)) (sr.pi k) 0 (sol.pi k) 0) else sol.pi) else sol.pi
  if neThr D k > 0 then
    let ws := redMaskSol qp k s.2
    let u := unsqVec nv ws.imux (sr.ux k) (sol.ux k)
    let u := loop (neThr D k) (fun jj u => upd u (qp.idxb k (qp.idxe k jj)) (fix k (qp.idxe k jj))) u
    let u := veccp (2 * D.ns k) (sr.ux k) (Dr.nu k + Dr.nx k) u nv
    let u := if arg.comp_prim_sol then u else sol.ux k
    let lam := unredCon D Dr k ws.imd arg.lam_min (sr.lam k) (sol.lam k)
    let t := unredCon D Dr k ws.imd arg.t_min (sr.t k) (sol.t k)
    let gl := redGradLag qp k (g k) u (sr.pi k) lam ws
    let lam := redLamFix nb (nb + ng) ws.imd (qp.idxb k) gl.1 lam
    if arg.comp_dual_sol_ineq then
      ({ ux := upd sol.ux k u
         pi := ppi
         lam := upd sol.lam k lam
         t := upd sol.t k t },
       { ws with
         tmp0 := gl.1
         tmpg := gl.2 })
    else ({ sol with
             ux := upd sol.ux k u
             pi := ppi }, ws)
  else
    ({ ux := if arg.comp_prim_sol then upd sol.ux k (veccp (nvt D k) (sr.ux k) 0 (sol.ux k) 0) else sol.ux
       pi := ppi
       lam := if arg.comp_dual_sol_ineq then upd sol.lam k (veccp (nct D k) (sr.lam k) 0 (sol.lam k) 0) else sol.lam
       t := if arg.comp_dual_sol_ineq then upd sol.t k (veccp (nct D k) (sr.t k) 0 (sol.t k) 0) else sol.t }, s.2)

/-- OCP_QP_RESTORE_EQ_DOF, x_ocp_qp_red.c:840-986 -/
def restoreSol (arg : RedArg K) (qp : OcpQp K) (Dr : QpDim) (sr sol : Sol K) (ws : RedWs K) : Sol K × RedWs K :=
  loop (qp.dim.N + 1) (restoreStage arg qp qp.d qp.rqz Dr sr) (sol, ws)

/-- OCP_QP_RESTORE_EQ_DOF_SEED, x_ocp_qp_red.c:990-1135 -/
def restoreSeed (arg : RedArg K) (qp : OcpQp K) (sd : QpSeed K) (Dr : QpDim) (sr sol : Sol K) (ws : RedWs K) :
    Sol K × RedWs K :=
  loop (qp.dim.N + 1) (restoreStage arg qp sd.seed_d sd.seed_g Dr sr) (sol, ws)

/-- one stage of OCP_QP_REDUCE_EQ_DOF_SOL, x_ocp_qp_red.c:1181-1260 -/
def redSolStage (arg : RedArg K) (qp : OcpQp K) (Dr : QpDim) (sol : Sol K) (k : ℕ) (s : Sol K × RedWs K) :
    Sol K × RedWs K :=
  let D := qp.dim
  let nv := D.nu k + D.nx k
  let sr := s.1
  let ppi := if arg.comp_dual_sol_eq then
      (if k < D.N then upd sr.pi k (veccp (D.nx (k + 1)) (sol.pi k) 0 (sr.pi k) 0) else sr.pi) else sr.pi
  if neThr D k > 0 then
    let ws := redMaskSol qp k s.2
    ({ ux := if arg.comp_prim_sol then
         upd sr.ux k (veccp (2 * D.ns k) (sol.ux k) nv (sqVec nv ws.imux (sol.ux k) (sr.ux k)) (Dr.nu k + Dr.nx k))
         else sr.ux
       pi := ppi
       lam := if arg.comp_dual_sol_ineq then upd sr.lam k (redCon D Dr k ws.imd (sol.lam k) (sr.lam k)) else sr.lam
       t := if arg.comp_dual_sol_ineq then upd sr.t k (redCon D Dr k ws.imd (sol.t k) (sr.t k)) else sr.t }, ws)
  else
    ({ ux := if arg.comp_prim_sol then upd sr.ux k (veccp (nvt D k) (sol.ux k) 0 (sr.ux k) 0) else sr.ux
       pi := ppi
       lam := if arg.comp_dual_sol_ineq then upd sr.lam k (veccp (nct D k) (sol.lam k) 0 (sr.lam k) 0) else sr.lam
       t := if arg.comp_dual_sol_ineq then upd sr.t k (veccp (nct D k) (sol.t k) 0 (sr.t k) 0) else sr.t }, s.2)

/-- OCP_QP_REDUCE_EQ_DOF_SOL, x_ocp_qp_red.c:1139-1264 -/
def redSol (arg : RedArg K) (qp : OcpQp K) (Dr : QpDim) (sol sr : Sol K) (ws : RedWs K) : Sol K × RedWs K :=
  loop (qp.dim.N + 1) (redSolStage arg qp Dr sol) (sr, ws)

end
end Hpipm
