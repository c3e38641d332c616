/-
C95: memory of the objects of the dense and tree solvers.  The create routines are the `Carve`s of
Mem.lean, the size formulas are transcribed from the `_memsize` routines.
-/
import Verif.MemProps
import Verif.DenseQp

set_option linter.unusedVariables false

namespace Hpipm
open Carve

/-- sizes of the structs of the dense and tree interfaces, and of the work space of the routine that
forms the orthogonal factor (`ORGLQ_WORKSIZE`), beside those of `Abi` -/
structure XAbi extends Abi where
  dRes : ℕ
  dResWs : ℕ
  dSol : ℕ
  dQp : ℕ
  tRes : ℕ
  tResWs : ℕ
  tSol : ℕ
  tQp : ℕ
  orglq : ℕ → ℕ → ℕ → ℕ

section Dense
variable (A : XAbi) (D : DDim)

/-- DENSE_QP_MEMSIZE, dense_qp/x_dense_qp.c:43-73 -/
def dqpMemsize : ℕ :=
  round64 (3 * A.strmat + 6 * A.strvec
    + 1 * D.nb * A.int + 1 * (D.nb + D.ng) * A.int
    + 1 * A.mat (D.nv + 1) D.nv + 1 * A.mat D.ne D.nv + 1 * A.mat D.nv D.ng
    + 1 * A.vec (D.nv + 2 * D.ns) + 1 * A.vec D.ne
    + 3 * A.vec (2 * D.nb + 2 * D.ng + 2 * D.ns) + 1 * A.vec (2 * D.ns)) + 64

/-- DENSE_QP_CREATE, dense_qp/x_dense_qp.c:77-203 -/
def dqpCreate : Carve :=
  forN 3 (fun _ => arr A.strmat) ⨟ forN 6 (fun _ => arr A.strvec)
  ⨟ arr (D.nb * A.int) ⨟ arr ((D.nb + D.ng) * A.int) ⨟ align 64
  ⨟ arr (A.mat (D.nv + 1) D.nv) ⨟ arr (A.mat D.ne D.nv) ⨟ arr (A.mat D.nv D.ng)
  ⨟ arr (A.vec (D.nv + 2 * D.ns)) ⨟ arr (A.vec D.ne)
  ⨟ forN 3 (fun _ => arr (A.vec (2 * D.nb + 2 * D.ng + 2 * D.ns))) ⨟ arr (A.vec (2 * D.ns))

/-- DENSE_QP_SOL_MEMSIZE, dense_qp/x_dense_qp_sol.c:43-66; DENSE_QP_RES_MEMSIZE,
dense_qp/x_dense_qp_res.c:36-60, has the same formula -/
def dqsMemsize : ℕ :=
  round64 (4 * A.strvec + 1 * A.vec (D.nv + 2 * D.ns) + 1 * A.vec D.ne
    + 2 * A.vec (2 * D.nb + 2 * D.ng + 2 * D.ns)) + 64

/-- DENSE_QP_SOL_CREATE, dense_qp/x_dense_qp_sol.c:70-140 (v pi lam t); DENSE_QP_RES_CREATE,
dense_qp/x_dense_qp_res.c:64-135, carves the same sequence -/
def dqsCreate : Carve :=
  forN 4 (fun _ => arr A.strvec) ⨟ align 64
  ⨟ arr (A.vec (D.nv + 2 * D.ns)) ⨟ arr (A.vec D.ne)
  ⨟ forN 2 (fun _ => arr (A.vec (2 * D.nb + 2 * D.ng + 2 * D.ns)))

/-- DENSE_QP_RES_WS_MEMSIZE, dense_qp/x_dense_qp_res.c:139-162 -/
def dqrWsMemsize : ℕ :=
  round64 (4 * A.strvec + 2 * A.vec (D.nb + D.ng) + 1 * A.vec D.ns
    + 1 * A.vec (2 * D.nb + 2 * D.ng + 2 * D.ns)) + 64

/-- DENSE_QP_RES_WS_CREATE, dense_qp/x_dense_qp_res.c:166-230 -/
def dqrWsCreate : Carve :=
  arr (2 * A.strvec) ⨟ arr A.strvec ⨟ arr A.strvec ⨟ align 64
  ⨟ forN 2 (fun _ => arr (A.vec (D.nb + D.ng))) ⨟ arr (A.vec D.ns)
  ⨟ arr (A.vec (2 * D.nb + 2 * D.ng + 2 * D.ns))

/-- the options on which the size of the dense solver's work space depends: `lq_fact>0`,
`kkt_fact_alg==0`, `remove_lin_dep_eq!=0` and `stat_max` (raised to `iter_max` by
dense_qp/x_dense_qp_ipm.c:773-774) -/
structure DwsOpt where
  lq : Bool
  alg0 : Bool
  lindep : Bool
  statMax : ℕ

/-- DENSE_QP_IPM_WS_MEMSIZE, dense_qp/x_dense_qp_ipm.c:664-792.  `nv-ne` is the C difference of ints;
it is modelled for `ne ≤ nv` only (truncated subtraction otherwise). -/
def dwsMemsize (o : DwsOpt) : ℕ :=
  let nv := D.nv; let ne := D.ne; let nb := D.nb; let ng := D.ng; let ns := D.ns
  let nct := 2 * nb + 2 * ng + 2 * ns
  round64 (
    1 * A.core + 1 * coreMemsize A.toAbi (nv + 2 * ns) ne nct
    + 1 * A.dResWs + 1 * dqrWsMemsize A D + 2 * A.dQp + 2 * A.dSol + 1 * dqsMemsize A D
    + 3 * A.dRes + 2 * dqsMemsize A D
    + 23 * A.strvec + 5 * A.strmat
    + (if o.lq then 2 * A.strmat else 0)
    + (if o.alg0 then 5 * A.strmat + 3 * A.strvec else 0)
    + (if o.lindep then 2 * A.strmat + 1 * A.strvec else 0)
    + 4 * A.vec (nb + ng) + 2 * A.vec nv + 1 * A.vec ne + 1 * A.vec (2 * ns)
    + 2 * A.mat (nv + 1) nv + 1 * A.mat ne nv + 1 * A.mat ne ne + 1 * A.mat (nv + 1) ng
    + 1 * A.vec nct + (if 0 < ne then 1 * A.gelqf ne nv else 0)
    + 1 * A.vec nv + 1 * A.vec (2 * ns) + 2 * A.vec (nv + 2 * ns)
    + (if o.lq then 1 * A.mat ne (ne + nv) + 1 * A.mat nv (nv + nv + ng) else 0)
    + (if o.alg0 then 1 * A.mat ne nv + 1 * A.mat nv nv + 1 * A.vec nv + 1 * A.vec ne
        + (if o.lindep then 2 * A.mat nv nv + 1 * A.mat nv nv + 1 * A.vec nv
           else 2 * A.mat (nv - ne) nv + 1 * A.mat (nv - ne) (nv - ne) + 1 * A.vec (nv - ne))
       else 0)
    + (if o.lindep then 1 * A.mat ne nv + 1 * A.vec ne + 1 * A.mat ne (nv + 1) else 0)
    + (if o.lq then (if 0 < ne then 1 * A.gelqf ne nv else 0) + 1 * A.gelqf nv (nv + nv + ng) else 0)
    + (if o.alg0 then 1 * A.orglq nv nv ne else 0)
    + 21 * (1 + o.statMax) * A.real + nv * (nv + 2) * A.real + nv * A.int + 2 * ne * A.int
    + 1 * 64 + 1 * 8)

/-- structs and descriptors of DENSE_QP_IPM_WS_CREATE, dense_qp/x_dense_qp_ipm.c:810-956 -/
def dwsHead (o : DwsOpt) : Carve :=
  arr A.core ⨟ forN 3 (fun _ => arr A.dRes) ⨟ arr A.dResWs ⨟ forN 2 (fun _ => arr A.dSol)
  ⨟ forN 2 (fun _ => arr A.dQp)
  -- Lv AL Le Ctx, lq0 lq1, A_LQ A_Q Zt ZtH ZtHZ, A_li Ab_LU
  ⨟ arr (2 * A.strmat) ⨟ forN 3 (fun _ => arr A.strmat)
  ⨟ (if o.lq then forN 2 (fun _ => arr A.strmat) else skip)
  ⨟ (if o.alg0 then forN 5 (fun _ => arr A.strmat) else skip)
  ⨟ (if o.lindep then forN 2 (fun _ => arr A.strmat) else skip)
  -- sol_step res Gamma gamma Zs_inv lv sv se, tmp_nbg, tmp_m tmp_nv tmp_2ns, tmp_nv2ns
  ⨟ forN 14 (fun _ => arr A.strvec) ⨟ arr (4 * A.strvec) ⨟ forN 3 (fun _ => arr A.strvec)
  ⨟ arr (2 * A.strvec)
  ⨟ (if o.alg0 then forN 3 (fun _ => arr A.strvec) else skip)
  ⨟ (if o.lindep then arr A.strvec else skip)

/-- statistics, eigenvalue work space and pivots, dense_qp/x_dense_qp_ipm.c:958-996 -/
def dwsMid (o : DwsOpt) : Carve :=
  align 8 ⨟ arr (21 * (1 + o.statMax) * A.real) ⨟ arr (D.nv * D.nv * A.real)
  ⨟ arr (D.nv * A.real) ⨟ arr (D.nv * A.real)
  ⨟ arr (D.nv * A.int) ⨟ arr (D.ne * A.int) ⨟ arr (D.ne * A.int) ⨟ align 64

/-- inner objects and matrices, dense_qp/x_dense_qp_ipm.c:998-1080 -/
def dwsMats (o : DwsOpt) : Carve :=
  let nv := D.nv; let ne := D.ne; let ng := D.ng
  within (dqsCreate A D) (dqsMemsize A D)
  ⨟ within (dqsCreate A D) (dqsMemsize A D) ⨟ within (dqsCreate A D) (dqsMemsize A D)
  ⨟ within (dqrWsCreate A D) (dqrWsMemsize A D)
  ⨟ forN 2 (fun _ => arr (A.mat (nv + 1) nv)) ⨟ arr (A.mat ne nv) ⨟ arr (A.mat ne ne)
  ⨟ arr (A.mat (nv + 1) ng)
  ⨟ (if o.lq then arr (A.mat ne (ne + nv)) ⨟ arr (A.mat nv (nv + nv + ng)) else skip)
  ⨟ (if o.alg0 then arr (A.mat ne nv) ⨟ arr (A.mat nv nv)
      ⨟ (if o.lindep then forN 3 (fun _ => arr (A.mat nv nv))
         else forN 2 (fun _ => arr (A.mat (nv - ne) nv)) ⨟ arr (A.mat (nv - ne) (nv - ne)))
     else skip)
  ⨟ (if o.lindep then arr (A.mat ne nv) ⨟ arr (A.mat ne (nv + 1)) else skip)

/-- vectors, dense_qp/x_dense_qp_ipm.c:1082-1150 -/
def dwsVecs (o : DwsOpt) : Carve :=
  let nv := D.nv; let ne := D.ne; let nb := D.nb; let ng := D.ng; let ns := D.ns
  let nct := 2 * nb + 2 * ng + 2 * ns
  forN 2 (fun _ => arr (A.vec nv)) ⨟ arr (A.vec ne) ⨟ arr (A.vec (2 * ns))
  ⨟ forN 4 (fun _ => arr (A.vec (nb + ng))) ⨟ arr (A.vec nct) ⨟ arr (A.vec nv) ⨟ arr (A.vec (2 * ns))
  ⨟ forN 2 (fun _ => arr (A.vec (nv + 2 * ns)))
  ⨟ (if o.alg0 then arr (A.vec ne) ⨟ arr (A.vec nv)
      ⨟ (if o.lindep then arr (A.vec nv) else arr (A.vec (nv - ne))) else skip)
  ⨟ (if o.lindep then arr (A.vec ne) else skip)

/-- core work space and LAPACK-like work spaces, dense_qp/x_dense_qp_ipm.c:1152-1180.  The vectors
laid over dv dpi dlam dt res_* Gamma gamma (1182-1206) are the arrays of the core work space. -/
def dwsTail (o : DwsOpt) : Carve :=
  let nv := D.nv; let ne := D.ne; let nb := D.nb; let ng := D.ng; let ns := D.ns
  let nct := 2 * nb + 2 * ng + 2 * ns
  within (coreCreate (arr ((nv + 2 * ns) * A.real)) (arr (ne * A.real)) (arr (nct * A.real)))
      (coreMemsize A.toAbi (nv + 2 * ns) ne nct)
  ⨟ arr (if 0 < ne then A.gelqf ne nv else 0)
  ⨟ (if o.lq then arr (if 0 < ne then A.gelqf ne nv else 0) ⨟ arr (A.gelqf nv (nv + nv + ng)) else skip)
  ⨟ (if o.alg0 then arr (A.orglq nv nv ne) else skip)

/-- DENSE_QP_IPM_WS_CREATE, dense_qp/x_dense_qp_ipm.c:794-1228 -/
def dwsCreate (o : DwsOpt) : Carve :=
  dwsHead A o ⨟ dwsMid A D o ⨟ dwsMats A D o ⨟ dwsVecs A D o ⨟ dwsTail A D o

end Dense

/-! ### Tree -/
section Tree
variable (A : XAbi) (D : QpDim) (dad : ℕ → ℕ)
/- A tree with `Nn` nodes is given by the sizes `D` of its nodes `0 .. D.N` (so `Nn = D.N + 1`) and the
number `dad i` of the parent of node `i`.  TREE_OCP_QP_SOL_MEMSIZE / CREATE
(tree_ocp_qp/x_tree_ocp_qp_sol.c:36-200) are `solMemsize` / `solCreate`, and TREE_OCP_QP_RES_WS_MEMSIZE
/ CREATE (tree_ocp_qp/x_tree_ocp_qp_res.c:220-330) are `resWsMemsize` / `resWsCreate` of Mem.lean. -/

/-- TREE_OCP_QP_DIM_MEMSIZE, tree_ocp_qp/x_tree_ocp_qp_dim.c:45-56 -/
def tdimMemsize (Nn : ℕ) : ℕ := (7 * Nn * A.int + 8 - 1) / 8 * 8
/-- TREE_OCP_QP_DIM_CREATE, tree_ocp_qp/x_tree_ocp_qp_dim.c:60-130: seven arrays of `Nn` ints -/
def tdimCreate (Nn : ℕ) : Carve := forN 7 (fun _ => arr (Nn * A.int))

/-- TREE_OCP_QP_MEMSIZE, tree_ocp_qp/x_tree_ocp_qp.c:45-109 -/
def tqpMemsize : ℕ :=
  let Nn := D.N + 1
  round64 (2 * Nn * A.ptr + 2 * Nn * A.strmat + 1 * (Nn - 1) * A.strmat
    + 5 * Nn * A.strvec + 1 * (Nn - 1) * A.strvec
    + sumN (Nn - 1) (fun i => A.mat (D.nu (dad (i + 1)) + D.nx (dad (i + 1)) + 1) (D.nx (i + 1)))
    + sumN Nn (fun i => D.nb i * A.int + (D.nb i + D.ng i) * A.int
        + A.mat (D.nu i + D.nx i + 1) (D.nu i + D.nx i) + A.mat (D.nu i + D.nx i) (D.ng i)
        + A.vec (2 * D.ns i))
    + 1 * A.vec (totV D) + 1 * A.vec (totE D) + 3 * A.vec (totC D)) + 64

/-- TREE_OCP_QP_CREATE, tree_ocp_qp/x_tree_ocp_qp.c:113-345 -/
def tqpCreate : Carve :=
  let Nn := D.N + 1
  forN 2 (fun _ => arr (Nn * A.ptr))
  ⨟ arr ((Nn - 1) * A.strmat) ⨟ forN 2 (fun _ => arr (Nn * A.strmat))
  ⨟ arr ((Nn - 1) * A.strvec) ⨟ forN 5 (fun _ => arr (Nn * A.strvec))
  ⨟ forN Nn (fun i => arr (D.nb i * A.int)) ⨟ forN Nn (fun i => arr ((D.nb i + D.ng i) * A.int))
  ⨟ align 64
  ⨟ forN (Nn - 1) (fun i => arr (A.mat (D.nu (dad (i + 1)) + D.nx (dad (i + 1)) + 1) (D.nx (i + 1))))
  ⨟ forN Nn (fun i => arr (A.mat (D.nu i + D.nx i + 1) (D.nu i + D.nx i)))
  ⨟ forN Nn (fun i => arr (A.mat (D.nu i + D.nx i) (D.ng i)))
  ⨟ forN Nn (fun i => arr (A.vec (2 * D.ns i)))
  ⨟ stageVecs A.toAbi (D.N + 1) (nvk D) (A.vec (totV D))
  ⨟ stageVecs A.toAbi D.N (fun k => D.nx (k + 1)) (A.vec (totE D))
  ⨟ forN 3 (fun _ => stageVecs A.toAbi (D.N + 1) (nctk D) (A.vec (totC D)))

/-- TREE_OCP_QP_RES_MEMSIZE, tree_ocp_qp/x_tree_ocp_qp_res.c:38-81: counts the descriptors of `res_b`
three times -/
def tresMemsize : ℕ :=
  let Nn := D.N + 1
  round64 (3 * Nn * A.strvec + 3 * (Nn - 1) * A.strvec + 1 * A.vec (totV D) + 1 * A.vec (totE D)
    + 2 * A.vec (totC D)) + 64

/-- TREE_OCP_QP_IPM_WS_MEMSIZE, tree_ocp_qp/x_tree_ocp_qp_ipm.c:564-663 (counts `L` and `Lh` twice) -/
def twsMemsize (lq : Bool) (statMax : ℕ) : ℕ :=
  let Nn := D.N + 1
  let nxM := maxN Nn D.nx; let nuM := maxN Nn D.nu
  let nbM := maxN Nn D.nb; let ngM := maxN Nn D.ng
  round64 (
    1 * A.core + 1 * coreMemsize A.toAbi (totV D) (totE D) (totC D)
    + 1 * A.tResWs + 1 * resWsMemsize A.toAbi D + 2 * A.tQp + 2 * A.tSol + 1 * solMemsize A.toAbi D
    + 2 * A.tRes + 1 * tresMemsize A D
    + 9 * Nn * A.strvec + 3 * (Nn - 1) * A.strvec + 6 * A.strvec
    + 1 * Nn * A.strmat + (if lq then 1 * Nn * A.strmat else 0) + 2 * A.strmat
    + (if lq then 1 * A.strmat else 0)
    + 1 * A.vec nxM + 4 * A.vec (nbM + ngM)
    + sumN (Nn - 1) (fun i => 1 * A.vec (D.nx (i + 1)))
    + sumN Nn (fun i => 1 * A.vec (2 * D.ns i))
    + sumN Nn (fun i => 2 * A.mat (D.nu i + D.nx i + 1) (D.nu i + D.nx i))
    + (if lq then sumN Nn (fun i => 2 * A.mat (D.nu i + D.nx i + 1) (D.nu i + D.nx i)) else 0)
    + 2 * A.mat (nuM + nxM + 1) (nxM + ngM)
    + (if lq then 1 * A.mat (nuM + nxM) (2 * nuM + 3 * nxM + ngM) else 0)
    + 1 * A.vec (totC D)
    + (if lq then 1 * A.gelqf (nuM + nxM) (2 * nuM + 3 * nxM + ngM) else 0)
    + 20 * (1 + statMax) * A.real + Nn * A.int + 1 * 64 + 1 * 8)

/-- TREE_OCP_QP_IPM_WS_CREATE, tree_ocp_qp/x_tree_ocp_qp_ipm.c:667-1110 -/
def twsCreate (lq : Bool) (statMax : ℕ) : Carve :=
  let Nn := D.N + 1
  let nxM := maxN Nn D.nx; let nuM := maxN Nn D.nu
  let nbM := maxN Nn D.nb; let ngM := maxN Nn D.ng
  arr A.core ⨟ forN 2 (fun _ => arr A.tRes) ⨟ arr A.tResWs ⨟ forN 2 (fun _ => arr A.tSol)
  ⨟ forN 2 (fun _ => arr A.tQp)
  -- L (Lh) AL (lq0)
  ⨟ arr (Nn * A.strmat) ⨟ (if lq then arr (Nn * A.strmat) else skip) ⨟ arr (2 * A.strmat)
  ⨟ (if lq then arr A.strmat else skip)
  -- ux pi lam t, res_g res_b res_d res_m, Gamma gamma Pb Zs_inv, tmp_nxM tmp_nbgM tmp_m
  ⨟ arr (Nn * A.strvec) ⨟ arr ((Nn - 1) * A.strvec) ⨟ forN 3 (fun _ => arr (Nn * A.strvec))
  ⨟ arr ((Nn - 1) * A.strvec) ⨟ forN 4 (fun _ => arr (Nn * A.strvec)) ⨟ arr ((Nn - 1) * A.strvec)
  ⨟ arr (Nn * A.strvec) ⨟ arr A.strvec ⨟ arr (4 * A.strvec) ⨟ arr A.strvec
  ⨟ align 8 ⨟ arr (20 * (1 + statMax) * A.real) ⨟ arr (Nn * A.int) ⨟ align 64
  ⨟ within (solCreate A.toAbi D) (solMemsize A.toAbi D)
  ⨟ within (solCreate A.toAbi D) (tresMemsize A D)
  ⨟ within (resWsCreate A.toAbi D) (resWsMemsize A.toAbi D)
  ⨟ forN Nn (fun i => arr (A.mat (D.nu i + D.nx i + 1) (D.nu i + D.nx i)))
  ⨟ (if lq then forN Nn (fun i => arr (A.mat (D.nu i + D.nx i + 1) (D.nu i + D.nx i))) else skip)
  ⨟ forN 2 (fun _ => arr (A.mat (nuM + nxM + 1) (nxM + ngM)))
  ⨟ (if lq then arr (A.mat (nuM + nxM) (2 * nuM + 3 * nxM + ngM)) else skip)
  ⨟ forN (Nn - 1) (fun i => arr (A.vec (D.nx (i + 1))))
  ⨟ forN Nn (fun i => arr (A.vec (2 * D.ns i)))
  ⨟ arr (A.vec nxM) ⨟ forN 4 (fun _ => arr (A.vec (nbM + ngM))) ⨟ arr (A.vec (totC D))
  ⨟ within (coreCreate
      (stageVecs A.toAbi (D.N + 1) (nvk D) (totV D * A.real))
      (stageVecs A.toAbi D.N (fun k => D.nx (k + 1)) (totE D * A.real))
      (stageVecs A.toAbi (D.N + 1) (nctk D) (totC D * A.real)))
      (coreMemsize A.toAbi (totV D) (totE D) (totC D))
  ⨟ (if lq then arr (A.gelqf (nuM + nxM) (2 * nuM + 3 * nxM + ngM)) else skip)
end Tree

section Fit
attribute [local irreducible] arr skip align seq forN within stageVecs Fits

local macro "fits" : tactic => `(tactic|
  (repeat' first
    | apply fits_seq
    | exact fits_arr _
    | exact fits_skip
    | exact fits_align _ (by norm_num)
    | assumption
    | apply fits_ite
    | (apply fits_forN; intro k hk)))

section
variable (A : XAbi) (D : DDim)

/-- **C95** dense QP data. -/
theorem dqp_create_fits : Fits (dqpCreate A D) (dqpMemsize A D) := by
  refine fits_mono (by unfold dqpCreate; fits) ?_
  unfold dqpMemsize
  refine le_trans ?_ (Nat.add_le_add_right (le_round64 _) 64)
  simp only [sumN_succ, sumN_zero, Nat.mul_assoc]
  omega

/-- **C95** dense solution, residual and (same layout) seed objects. -/
theorem dqs_create_fits : Fits (dqsCreate A D) (dqsMemsize A D) := by
  refine fits_mono (by unfold dqsCreate; fits) ?_
  unfold dqsMemsize
  refine le_trans ?_ (Nat.add_le_add_right (le_round64 _) 64)
  simp only [sumN_succ, sumN_zero]
  omega

/-- **C95** dense residual work space. -/
theorem dqrWs_create_fits : Fits (dqrWsCreate A D) (dqrWsMemsize A D) := by
  refine fits_mono (by unfold dqrWsCreate; fits) ?_
  unfold dqrWsMemsize
  refine le_trans ?_ (Nat.add_le_add_right (le_round64 _) 64)
  simp only [sumN_succ, sumN_zero]
  omega

/-- **C95** dense solver work space, for every combination of options. -/
theorem dws_create_fits (o : DwsOpt) : Fits (dwsCreate A D o) (dwsMemsize A D o) := by
  have hs := fits_within (dqs_create_fits A D) (le_refl _)
  have hr := fits_within (dqrWs_create_fits A D) (le_refl _)
  have hk := fits_within (core_create_fits A.toAbi (D.nv + 2 * D.ns) D.ne
    (2 * D.nb + 2 * D.ng + 2 * D.ns) _ _ _ (fits_arr _) (fits_arr _) (fits_arr _)) (le_refl _)
  refine fits_mono (by unfold dwsCreate dwsHead dwsMid dwsMats dwsVecs dwsTail; fits) ?_
  unfold dwsMemsize
  refine le_trans ?_ (le_round64 _)
  have e : D.nv * (D.nv + 2) * A.real = D.nv * D.nv * A.real + D.nv * A.real + D.nv * A.real := by ring
  rw [e]
  rcases o with ⟨lq, a0, ld, sm⟩
  cases lq <;> cases a0 <;> cases ld <;>
    simp only [sumN_succ, sumN_zero, Nat.mul_assoc, Nat.one_mul, Bool.false_eq_true, if_false, if_true] <;> omega
end

section
variable (A : XAbi)
/-- **C95** tree dimension object. -/
theorem tdim_create_fits (Nn : ℕ) : Fits (tdimCreate A Nn) (tdimMemsize A Nn) := by
  refine fits_mono (by unfold tdimCreate; fits) ?_
  simp only [sumN_succ, sumN_zero, tdimMemsize, Nat.mul_assoc]
  omega

variable (hA : A.toAbi.Ok) (D : QpDim) (dad : ℕ → ℕ)
include hA

/-- **C95** tree QP data. -/
theorem tqp_create_fits : Fits (tqpCreate A D dad) (tqpMemsize A D dad) := by
  have hv := fits_v A.toAbi hA D
  have he := fits_e A.toAbi hA D
  have hc := fits_c A.toAbi hA D
  refine fits_mono (by unfold tqpCreate; fits) ?_
  unfold tqpMemsize
  refine le_trans ?_ (Nat.add_le_add_right (le_round64 _) 64)
  simp only [sumN_succ, sumN_zero, sumN_add, Nat.mul_assoc, Nat.add_sub_cancel]
  omega

/-- **C95** tree residual object. -/
theorem tres_create_fits : Fits (solCreate A.toAbi D) (tresMemsize A D) := by
  refine fits_mono (sol_create_fits A.toAbi hA D) ?_
  unfold tresMemsize solMemsize round64
  simp only [Nat.add_sub_cancel, Nat.mul_assoc]
  omega

/-- **C95** tree solver work space, with and without the LQ arrays. -/
theorem tws_create_fits (lq : Bool) (statMax : ℕ) :
    Fits (twsCreate A D lq statMax) (twsMemsize A D lq statMax) := by
  have hs := fits_within (sol_create_fits A.toAbi hA D) (le_refl _)
  have ht := fits_within (tres_create_fits A hA D) (le_refl _)
  have hr := fits_within (resWs_create_fits A.toAbi D) (le_refl _)
  have hk := fits_within (core_create_fits A.toAbi (totV D) (totE D) (totC D) _ _ _
    (fits_stageVecs A.toAbi (D.N + 1) (nvk D) (totV D * A.real) (le_refl _))
    (fits_stageVecs A.toAbi D.N (fun k => D.nx (k + 1)) (totE D * A.real) (le_refl _))
    (fits_stageVecs A.toAbi (D.N + 1) (nctk D) (totC D * A.real) (le_refl _))) (le_refl _)
  refine fits_mono (by unfold twsCreate; fits) ?_
  unfold twsMemsize
  refine le_trans ?_ (le_round64 _)
  have e : ∀ (f : ℕ → ℕ), sumN (D.N + 1) (fun i => 2 * f i) = 2 * sumN (D.N + 1) f := by
    intro f; rw [show (fun i => 2 * f i) = fun i => f i * 2 from by funext i; ring, sumN_mul]; ring
  cases lq <;> simp only [e, sumN_succ 0, sumN_succ 1, sumN_succ 2, sumN_succ 3, sumN_zero, Nat.mul_assoc, Nat.one_mul, Bool.false_eq_true, if_false, if_true, Nat.add_sub_cancel] <;> omega
end

/-- **C95**, spelled out for the dense solver's work space: every array lies in
`[mem, mem+memsize)`, and two different arrays do not overlap. -/
theorem dws_create_inside (A : XAbi) (D : DDim) (o : DwsOpt) (mem : ℕ) :
    (∀ r ∈ (dwsCreate A D o mem).1, mem ≤ r.lo ∧ r.lo + r.size ≤ mem + dwsMemsize A D o) ∧
    (dwsCreate A D o mem).1.Pairwise (fun r s => r.lo + r.size ≤ s.lo ∨ s.lo + s.size ≤ r.lo) := by
  have hf := dws_create_fits A D o
  unfold Fits at hf
  obtain ⟨_, h2, h3, h4⟩ := hf mem
  exact ⟨fun r hr => ⟨(h3 r hr).1, le_trans (h3 r hr).2 h2⟩, h4⟩

/-- **C95**, spelled out for the tree solver's work space. -/
theorem tws_create_inside (A : XAbi) (hA : A.toAbi.Ok) (D : QpDim) (lq : Bool) (statMax mem : ℕ) :
    (∀ r ∈ (twsCreate A D lq statMax mem).1,
      mem ≤ r.lo ∧ r.lo + r.size ≤ mem + twsMemsize A D lq statMax) ∧
    (twsCreate A D lq statMax mem).1.Pairwise
      (fun r s => r.lo + r.size ≤ s.lo ∨ s.lo + s.size ≤ r.lo) := by
  have hf := tws_create_fits A hA D lq statMax
  unfold Fits at hf
  obtain ⟨_, h2, h3, h4⟩ := hf mem
  exact ⟨fun r hr => ⟨(h3 r hr).1, le_trans (h3 r hr).2 h2⟩, h4⟩
end Fit

/-! ### Concrete cases -/
def exXAbi : XAbi where
  toAbi := exAbi
  dRes := 104
  dResWs := 48
  dSol := 56
  dQp := 120
  tRes := 104
  tResWs := 48
  tSol := 56
  tQp := 120
  orglq := fun m n k => 64
example : exXAbi.toAbi.Ok := exAbi_ok
example : (dwsCreate exXAbi ⟨3, 1, 2, 1, 1⟩ ⟨true, true, false, 20⟩ 1000003).1.length = 129 := by decide +kernel
example : (twsCreate exXAbi exMemDim true 20 1000003).1.length = 106 := by decide +kernel
end Hpipm

