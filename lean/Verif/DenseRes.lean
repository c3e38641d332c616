/-
Model of the residual routines of the dense QP, dense_qp/x_dense_qp_res.c.

Simplifications as in Res.lean: reals instead of floating point numbers, vectors are total functions.
`GEMV_NT` is its two halves `gemv_n` and `gemv_t`.
-/
import Verif.DenseQp
import Verif.Res

namespace Hpipm

/-- `struct DENSE_QP_SOL` (include/hpipm_d_dense_qp_sol.h): `v = (v, sl, su)` -/
structure DqSol (K : Type*) where
  v : Vec K
  pi : Vec K
  lam : Vec K
  t : Vec K

/-- `struct DENSE_QP_RES` (include/hpipm_d_dense_qp_res.h) -/
@[ext] structure DRes (K : Type*) where
  res_g : Vec K
  res_b : Vec K
  res_d : Vec K
  res_m : Vec K
  obj : K
  dual_gap : K
  res_mu : K
  res_mu_sum : K

section
variable {K : Type*} [Field K] [LinearOrder K]

/-- the constraint counting loop, x_dense_qp_res.c:308-313: `(nc_mask, mask_constr)` -/
def dcountMask (n : ℕ) (d_mask : Vec K) : ℕ × Bool :=
  loop n (fun ii s => if d_mask ii = 1 then (s.1 + 1, s.2) else (s.1, true)) (0, false)

/-- the selection of `mask_constr`, `nc_mask_inv`, x_dense_qp_res.c:299-317; the fields of
`struct DENSE_QP_RES_WS` are those of `ResWs` -/
def dmaskSel (qp : DenseQp K) (ws : ResWs K) : Bool × K :=
  if ws.valid_nc_mask then (ws.mask_constr, ws.nc_mask_inv)
  else
    let c := dcountMask qp.dim.nct qp.d_mask
    (c.2, if c.1 > 0 then 1 / (c.1 : K) else 0)

/-- DENSE_QP_RES_COMPUTE, x_dense_qp_res.c:242-410 -/
def dresCompute (qp : DenseQp K) (sol : DqSol K) (res : DRes K) (ws : ResWs K) : DRes K :=
  let nv := qp.dim.nv; let ne := qp.dim.ne; let nb := qp.dim.nb; let ng := qp.dim.ng; let ns := qp.dim.ns
  let nct := qp.dim.nct
  let gz := qp.gz; let d := qp.d; let dm := qp.d_mask
  let v := sol.v; let lam := sol.lam; let t := sol.t
  let ms := dmaskSel qp ws
  let mask := ms.1
  let g := symv_l nv 1 qp.Hv 0 0 v 0 2 gz 0 res.res_g 0
  let obj := 0 + 1 / 2 * dot nv g 0 v 0
  let g := axpy nv (-1) gz 0 g 0 g 0
  let gap := 0 + dot nv g 0 v 0
  let tl := if mask then vecmul nct lam 0 dm 0 ws.tmp_lam_mask 0 else veccp nct lam 0 ws.tmp_lam_mask 0
  let pos := decide (nb + ng > 0)
  let tmp0 := if pos then axpy (nb + ng) (-1) tl 0 tl (nb + ng) ws.tmp0 0 else ws.tmp0
  let rd := if pos then axpy (2 * nb + 2 * ng) 1 d 0 t 0 res.res_d 0 else res.res_d
  let g := if nb > 0 then vecad_sp nb 1 tmp0 0 qp.idxb g 0 else g
  let tmp1 := if nb > 0 then vecex_sp nb 1 qp.idxb v 0 ws.tmp1 0 else ws.tmp1
  let g := if ng > 0 then gemv_n nv ng 1 qp.Ct 0 0 tmp0 nb 1 g 0 g 0 else g
  let tmp1 := if ng > 0 then gemv_t nv ng 1 qp.Ct 0 0 v 0 0 tmp1 nb tmp1 nb else tmp1
  let rd := if pos then axpy (nb + ng) (-1) tmp1 0 rd 0 rd 0 else rd
  let rd := if pos then axpy (nb + ng) 1 tmp1 0 rd (nb + ng) rd (nb + ng) else rd
  let sp := decide (ns > 0)
  let g := if sp then gemv_diag (2 * ns) 1 qp.Z 0 v nv 2 gz nv g nv else g
  let obj := if sp then obj + 1 / 2 * dot (2 * ns) g nv v nv else obj
  let g := if sp then axpy (2 * ns) (-1) gz nv g nv g nv else g
  let gap := if sp then gap + dot (2 * ns) g nv v nv else gap
  let g := if sp then axpy (2 * ns) (-1) tl (2 * nb + 2 * ng) g nv g nv else g
  let gd := if sp then softLoop nb ng ns nv qp.idxs_rev tl v g rd else (g, rd)
  let g := gd.1; let rd := gd.2
  let rd := if sp then axpy (2 * ns) (-1) v nv t (2 * nb + 2 * ng) rd (2 * nb + 2 * ng) else rd
  let rd := if sp then axpy (2 * ns) 1 d (2 * nb + 2 * ng) rd (2 * nb + 2 * ng) rd (2 * nb + 2 * ng) else rd
  let rd := if mask then vecmul nct dm 0 rd 0 rd 0 else rd
  let gap := gap - dot nct d 0 tl 0
  let rb := if ne > 0 then gemv_n ne nv (-1) qp.A 0 0 v 0 1 qp.b 0 res.res_b 0 else res.res_b
  let g := if ne > 0 then gemv_t ne nv (-1) qp.A 0 0 sol.pi 0 1 g 0 g 0 else g
  let gap := if ne > 0 then gap - dot ne qp.b 0 sol.pi 0 else gap
  let rm := vecmul nct tl 0 t 0 res.res_m 0
  let rm := axpy nct (-1) qp.m 0 rm 0 rm 0
  let rm := if mask then vecmul nct dm 0 rm 0 rm 0 else rm
  let mu := vecnrm1 nct rm 0
  { res_g := g
    res_b := rb
    res_d := rd
    res_m := rm
    obj := obj
    dual_gap := gap
    res_mu := mu * ms.2
    res_mu_sum := mu }

/-- DENSE_QP_RES_COMPUTE_LIN, x_dense_qp_res.c:413-532; `step` is the Newton step, `sol` the point of
linearisation -/
def dresComputeLin (qp : DenseQp K) (sol step : DqSol K) (res : DRes K) (ws : ResWs K) : DRes K :=
  let nv := qp.dim.nv; let ne := qp.dim.ne; let nb := qp.dim.nb; let ng := qp.dim.ng; let ns := qp.dim.ns
  let nct := qp.dim.nct
  let gz := qp.gz; let d := qp.d; let dm := qp.d_mask
  let v := step.v; let lam := step.lam; let t := step.t
  let mask := (dmaskSel qp ws).1
  let g := symv_l nv 1 qp.Hv 0 0 v 0 1 gz 0 res.res_g 0
  let tl := if mask then vecmul nct lam 0 dm 0 ws.tmp_lam_mask 0 else veccp nct lam 0 ws.tmp_lam_mask 0
  let pos := decide (nb + ng > 0)
  let tmp0 := if pos then axpy (nb + ng) (-1) tl 0 tl (nb + ng) ws.tmp0 0 else ws.tmp0
  let rd := if pos then axpy (2 * nb + 2 * ng) 1 d 0 t 0 res.res_d 0 else res.res_d
  let g := if nb > 0 then vecad_sp nb 1 tmp0 0 qp.idxb g 0 else g
  let tmp1 := if nb > 0 then vecex_sp nb 1 qp.idxb v 0 ws.tmp1 0 else ws.tmp1
  let g := if ng > 0 then gemv_n nv ng 1 qp.Ct 0 0 tmp0 nb 1 g 0 g 0 else g
  let tmp1 := if ng > 0 then gemv_t nv ng 1 qp.Ct 0 0 v 0 0 tmp1 nb tmp1 nb else tmp1
  let rd := if pos then axpy (nb + ng) (-1) tmp1 0 rd 0 rd 0 else rd
  let rd := if pos then axpy (nb + ng) 1 tmp1 0 rd (nb + ng) rd (nb + ng) else rd
  let sp := decide (ns > 0)
  let g := if sp then gemv_diag (2 * ns) 1 qp.Z 0 v nv 1 gz nv g nv else g
  let g := if sp then axpy (2 * ns) (-1) tl (2 * nb + 2 * ng) g nv g nv else g
  let gd := if sp then softLoop nb ng ns nv qp.idxs_rev tl v g rd else (g, rd)
  let g := gd.1; let rd := gd.2
  let rd := if sp then axpy (2 * ns) (-1) v nv t (2 * nb + 2 * ng) rd (2 * nb + 2 * ng) else rd
  let rd := if sp then axpy (2 * ns) 1 d (2 * nb + 2 * ng) rd (2 * nb + 2 * ng) rd (2 * nb + 2 * ng) else rd
  let rd := if mask then vecmul nct dm 0 rd 0 rd 0 else rd
  let rb := if ne > 0 then gemv_n ne nv (-1) qp.A 0 0 v 0 1 qp.b 0 res.res_b 0 else res.res_b
  let g := if ne > 0 then gemv_t ne nv (-1) qp.A 0 0 step.pi 0 1 g 0 g 0 else g
  let rm := veccp nct qp.m 0 res.res_m 0
  let rm := vecmulacc nct sol.lam 0 t 0 rm 0
  let rm := vecmulacc nct lam 0 sol.t 0 rm 0
  let rm := if mask then vecmul nct dm 0 rm 0 rm 0 else rm
  { res with
    res_g := g
    res_b := rb
    res_d := rd
    res_m := rm }

/-- DENSE_QP_RES_COMPUTE_INF_NORM, x_dense_qp_res.c:536-562: the four values of `res_max` -/
def dresInfNorm (D : DDim) (res : DRes K) : K × K × K × K :=
  (vecnrmInf (D.nv + 2 * D.ns) res.res_g 0, vecnrmInf D.ne res.res_b 0, vecnrmInf D.nct res.res_d 0,
   vecnrmInf D.nct res.res_m 0)

end
end Hpipm
