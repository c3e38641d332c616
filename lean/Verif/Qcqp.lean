/-
The optimal control problem with quadratic constraints: data (ocp_qp/x_ocp_qcqp.c) and residuals
(ocp_qp/x_ocp_qcqp_res.c).
-/
import Verif.ResProps
import Verif.QcqpSpec

namespace Hpipm
open Finset
set_option linter.unusedSectionVars false

/-- `struct OCP_QCQP` (include/hpipm_d_ocp_qcqp.h:58-81).  All fields but the quadratic ones have the layout of an
`OCP_QP` with `ng+nq` general constraints (x_ocp_qcqp.c:300-400); `base.dim.ng` is the number of linear ones and
`inner` the QP with `ng+nq`.  `Hq_nzero` is not modelled (only the condensing routines read it). -/
structure Qcqp (K : Type*) where
  base : OcpQp K
  nq : ℕ → ℕ
  Hq : ℕ → ℕ → Mat K

/-- the arrays of the QCQP read as a QP with `ng+nq` general constraints -/
def Qcqp.inner {K : Type*} (Q : Qcqp K) : OcpQp K :=
  { Q.base with
    dim := { Q.base.dim with
      ng := fun k => Q.base.dim.ng k + Q.nq k } }

/-- workspace, `struct OCP_QCQP_RES_WS` (include/hpipm_d_ocp_qcqp_res.h:73-88); `ws` are the fields shared with
`OCP_QP_RES_WS` (`tmp0`, `tmp1` are `tmp_nbgqM+0`, `tmp_nbgqM+1`) -/
structure QresWs (K : Type*) where
  ws : ResWs K
  nux0 : Vec K
  nux1 : Vec K
  use_q_fun : Bool
  use_q_adj : Bool
  q_fun : ℕ → Vec K
  q_adj : ℕ → Vec K

section
variable {K : Type*} [Field K] [LinearOrder K]

/-! ### setters of the quadratic constraints -/

/-- OCP_QCQP_SET_QQ, x_ocp_qcqp.c:1324-1353 (`Hq_nzero` left out) -/
def setQq (stage : ℕ) (v : ℕ → K) (Q : Qcqp K) : Qcqp K :=
  let nx := Q.base.dim.nx stage
  { Q with
    Hq := upd Q.Hq stage (loop (Q.nq stage) (fun ii H =>
      upd H ii (packMat nx nx (fun i => v (ii * nx * nx + i)) nx (H ii) (Q.base.dim.nu stage) (Q.base.dim.nu stage))) (Q.Hq stage)) }

/-- OCP_QCQP_SET_SQ, x_ocp_qcqp.c:1357-1386 (`Hq_nzero` left out) -/
def setSq (stage : ℕ) (v : ℕ → K) (Q : Qcqp K) : Qcqp K :=
  let nx := Q.base.dim.nx stage; let nu := Q.base.dim.nu stage
  { Q with
    Hq := upd Q.Hq stage (loop (Q.nq stage) (fun ii H =>
      upd H ii (packTranMat nu nx (fun i => v (ii * nu * nx + i)) nu (H ii) nu 0)) (Q.Hq stage)) }

/-- OCP_QCQP_SET_RQ, x_ocp_qcqp.c:1390-1419 (`Hq_nzero` left out) -/
def setRq (stage : ℕ) (v : ℕ → K) (Q : Qcqp K) : Qcqp K :=
  let nu := Q.base.dim.nu stage
  { Q with
    Hq := upd Q.Hq stage (loop (Q.nq stage) (fun ii H =>
      upd H ii (packMat nu nu (fun i => v (ii * nu * nu + i)) nu (H ii) 0 0)) (Q.Hq stage)) }

/-- OCP_QCQP_SET_QQVEC, x_ocp_qcqp.c:1423-1436 -/
def setQqvec (stage : ℕ) (v : ℕ → K) (Q : Qcqp K) : Qcqp K :=
  { Q with
    base := { Q.base with
      DCt := upd Q.base.DCt stage (packMat (Q.base.dim.nx stage) (Q.nq stage) v (Q.base.dim.nx stage) (Q.base.DCt stage)
        (Q.base.dim.nu stage) (Q.base.dim.ng stage)) } }

/-- OCP_QCQP_SET_RQVEC, x_ocp_qcqp.c:1440-1453 -/
def setRqvec (stage : ℕ) (v : ℕ → K) (Q : Qcqp K) : Qcqp K :=
  { Q with
    base := { Q.base with
      DCt := upd Q.base.DCt stage (packMat (Q.base.dim.nu stage) (Q.nq stage) v (Q.base.dim.nu stage) (Q.base.DCt stage)
        0 (Q.base.dim.ng stage)) } }

/-- OCP_QCQP_SET_UQ, x_ocp_qcqp.c:1457-1468 -/
def setUq (stage : ℕ) (v : ℕ → K) (Q : Qcqp K) : Qcqp K :=
  let nb := Q.base.dim.nb stage; let ng := Q.base.dim.ng stage; let nq := Q.nq stage
  { Q with
    base := { Q.base with
      d := upd Q.base.d stage (vecsc nq (-1) (packVec nq v (Q.base.d stage) (2 * nb + 2 * ng + nq)) (2 * nb + 2 * ng + nq)) } }

/-- OCP_QCQP_SET_UQ_MASK, x_ocp_qcqp.c:1472-1482 -/
def setUqMask (stage : ℕ) (v : ℕ → K) (Q : Qcqp K) : Qcqp K :=
  let nb := Q.base.dim.nb stage; let ng := Q.base.dim.ng stage; let nq := Q.nq stage
  { Q with
    base := { Q.base with
      d_mask := upd Q.base.d_mask stage (packVec nq v (Q.base.d_mask stage) (2 * nb + 2 * ng + nq)) } }

/-! ### residuals -/

/-- column of a matrix to a vector, blasfeo `COLEX` -/
def colex (n : ℕ) (A : Mat K) (ai aj : ℕ) (x : Vec K) (xi : ℕ) : Vec K :=
  fun i => if xi ≤ i ∧ i < xi + n then A (ai + (i - xi)) aj else x i

/-- state of the loop over the quadratic constraints of a stage -/
structure QlSt (K : Type*) where
  g : Vec K
  gap : K
  tmp1 : Vec K
  nux0 : Vec K
  nux1 : Vec K

/-- the loop over the quadratic constraints of a stage, x_ocp_qcqp_res.c:545-557; `nv = nu0+nx0` -/
def qLoop (nv nb ng nq : ℕ) (Hq : ℕ → Mat K) (DCt : Mat K) (ux tl tmp0 : Vec K) (s : QlSt K) : QlSt K :=
  loop nq (fun jj s =>
    let a := symv_l nv 1 (Hq jj) 0 0 ux 0 0 s.nux0 0 s.nux0 0
    let gap := s.gap + 1 / 2 * tl (2 * nb + 2 * ng + nq + jj) * dot nv a 0 ux 0
    let tmp := tmp0 (nb + ng + jj)
    let g := axpy nv tmp a 0 s.g 0 s.g 0
    let c := colex nv DCt 0 (ng + jj) s.nux1 0
    let g := axpy nv tmp c 0 g 0 g 0
    let a := axpy nv (1 / 2) a 0 c 0 a 0
    let tmp := dot nv a 0 ux 0
    { g := g
      gap := gap
      tmp1 := upd s.tmp1 (nb + ng + jj) tmp
      nux0 := a
      nux1 := c }) s

/-- the branch that uses the cached values, x_ocp_qcqp_res.c:531-542; returns `(g, gap, tmp1, tmp0)` -/
def qCached (nv nb ng nq : ℕ) (DCt : Mat K) (ux tl tmp0 q_fun q_adj g : Vec K) (gap : K) (tmp1 : Vec K) :
    Vec K × K × Vec K × Vec K :=
  let tmp1 := veccp nq q_fun 0 tmp1 (nb + ng)
  let g := axpy nv 1 q_adj 0 g 0 g 0
  let tmp0 := gemv_t nv nq (-1) DCt 0 ng ux 0 1 q_fun 0 tmp0 (nb + ng)
  let gap := loop nq (fun jj s => s + tl (2 * nb + 2 * ng + nq + jj) * tmp0 (nb + ng + jj)) gap
  (g, gap, tmp1, tmp0)

/-- state of the stage loop -/
structure QresSt (K : Type*) where
  res : Res K
  ws : QresWs K
  mu : K

/-- one stage of OCP_QCQP_RES_COMPUTE, x_ocp_qcqp_res.c:474-614.  Lengths and offsets `2*nb0+2*ng0+2*nq0` are written
`2*nb0+2*(ng0+nq0)`; `softLoop` is the loop 574-586 with `ng0+nq0` for `ng0`. -/
def qresStage (Q : Qcqp K) (sol : Sol K) (mask : Bool) (ii : ℕ) (st : QresSt K) : QresSt K :=
  let qp := Q.base
  let D := Q.inner.dim
  let nx0 := qp.dim.nx ii; let nu0 := qp.dim.nu ii; let nb0 := qp.dim.nb ii; let ng0 := qp.dim.ng ii
  let nq0 := Q.nq ii; let ns0 := qp.dim.ns ii
  let rqz := qp.rqz ii; let d := qp.d ii; let dm := qp.d_mask ii
  let ux := sol.ux ii; let lam := sol.lam ii; let t := sol.t ii
  let w := st.ws.ws
  let g := symv_l (nu0 + nx0) 1 (qp.RSQrq ii) 0 0 ux 0 2 rqz 0 (st.res.res_g ii) 0
  let obj := st.res.obj + 1 / 2 * dot (nu0 + nx0) g 0 ux 0
  let g := axpy (nu0 + nx0) (-1) rqz 0 g 0 g 0
  let gap := st.res.dual_gap + dot (nu0 + nx0) g 0 ux 0
  let g := if ii > 0 then axpy nx0 (-1) (sol.pi (ii - 1)) 0 g nu0 g nu0 else g
  let tl := if mask then vecmul (nct D ii) lam 0 dm 0 w.tmp_lam_mask 0
    else veccp (nct D ii) lam 0 w.tmp_lam_mask 0
  let tl := vecse nq0 0 tl (nb0 + ng0)
  let n := nb0 + (ng0 + nq0)
  let n2 := 2 * nb0 + 2 * (ng0 + nq0)
  let pos := decide (n > 0)
  let tmp0 := if pos then axpy n (-1) tl 0 tl n w.tmp0 0 else w.tmp0
  let rd := if pos then axpy n2 1 d 0 t 0 (st.res.res_d ii) 0 else st.res.res_d ii
  let g := if nb0 > 0 then vecad_sp nb0 1 tmp0 0 (qp.idxb ii) g 0 else g
  let tmp1 := if nb0 > 0 then vecex_sp nb0 1 (qp.idxb ii) ux 0 w.tmp1 0 else w.tmp1
  let g := if ng0 > 0 then gemv_n (nu0 + nx0) ng0 1 (qp.DCt ii) 0 0 tmp0 nb0 1 g 0 g 0 else g
  let tmp1 := if ng0 > 0 then gemv_t (nu0 + nx0) ng0 1 (qp.DCt ii) 0 0 ux 0 0 tmp1 nb0 tmp1 nb0 else tmp1
  let cached := st.ws.use_q_fun && st.ws.use_q_adj
  let qc := qCached (nu0 + nx0) nb0 ng0 nq0 (qp.DCt ii) ux tl tmp0 (st.ws.q_fun ii) (st.ws.q_adj ii) g gap tmp1
  let ql := qLoop (nu0 + nx0) nb0 ng0 nq0 (Q.Hq ii) (qp.DCt ii) ux tl tmp0 ⟨g, gap, tmp1, st.ws.nux0, st.ws.nux1⟩
  let qd := decide (nq0 > 0)
  let g := if qd then (if cached then qc.1 else ql.g) else g
  let gap := if qd then (if cached then qc.2.1 else ql.gap) else gap
  let tmp1 := if qd then (if cached then qc.2.2.1 else ql.tmp1) else tmp1
  let tmp0' := if qd && cached then qc.2.2.2 else tmp0
  let nux0 := if qd && !cached then ql.nux0 else st.ws.nux0
  let nux1 := if qd && !cached then ql.nux1 else st.ws.nux1
  let rd := if pos then axpy n (-1) tmp1 0 rd 0 rd 0 else rd
  let rd := if pos then axpy n 1 tmp1 0 rd n rd n else rd
  let sp := decide (ns0 > 0)
  let nv := nu0 + nx0
  let g := if sp then gemv_diag (2 * ns0) 1 (qp.Z ii) 0 ux nv 2 rqz nv g nv else g
  let obj := if sp then obj + 1 / 2 * dot (2 * ns0) g nv ux nv else obj
  let g := if sp then axpy (2 * ns0) (-1) rqz nv g nv g nv else g
  let gap := if sp then gap + dot (2 * ns0) g nv ux nv else gap
  let g := if sp then axpy (2 * ns0) (-1) tl n2 g nv g nv else g
  let gd := if sp then softLoop nb0 (ng0 + nq0) ns0 nv (qp.idxs_rev ii) tl ux g rd else (g, rd)
  let g := gd.1; let rd := gd.2
  let rd := if sp then axpy (2 * ns0) (-1) ux nv t n2 rd n2 else rd
  let rd := if sp then axpy (2 * ns0) 1 d n2 rd n2 rd n2 else rd
  let rd := if mask then vecmul (nct D ii) dm 0 rd 0 rd 0 else rd
  let gap := gap - dot (nct D ii) d 0 tl 0
  let nu1 := qp.dim.nu (ii + 1); let nx1 := qp.dim.nx (ii + 1)
  let dyn := decide (ii < qp.dim.N)
  let rb := if dyn then axpy nx1 (-1) (sol.ux (ii + 1)) nu1 (qp.b ii) 0 (st.res.res_b ii) 0
    else st.res.res_b ii
  let g := if dyn then gemv_n nv nx1 1 (qp.BAbt ii) 0 0 (sol.pi ii) 0 1 g 0 g 0 else g
  let rb := if dyn then gemv_t nv nx1 1 (qp.BAbt ii) 0 0 ux 0 1 rb 0 rb 0 else rb
  let gap := if dyn then gap - dot nx1 (qp.b ii) 0 (sol.pi ii) 0 else gap
  let mu := st.mu + dot (nct D ii) tl 0 t 0
  let rm := vecmul (nct D ii) tl 0 t 0 (st.res.res_m ii) 0
  let rm := axpy (nct D ii) (-1) (qp.m ii) 0 rm 0 rm 0
  let rm := if mask then vecmul (nct D ii) dm 0 rm 0 rm 0 else rm
  { res := { st.res with
      res_g := upd st.res.res_g ii g
      res_b := upd st.res.res_b ii rb
      res_d := upd st.res.res_d ii rd
      res_m := upd st.res.res_m ii rm
      obj := obj
      dual_gap := gap }
    ws := { st.ws with
      ws := { w with
        tmp0 := tmp0'
        tmp1 := tmp1
        tmp_lam_mask := tl }
      nux0 := nux0
      nux1 := nux1 }
    mu := mu }

/-- OCP_QCQP_RES_COMPUTE, x_ocp_qcqp_res.c:393-622; the selection of `mask_constr` and `nc_mask_inv` (446-466) is that
of OCP_QP_RES_COMPUTE on the vectors of length `2*nb+2*ng+2*nq+2*ns` -/
def qresCompute (Q : Qcqp K) (sol : Sol K) (res : Res K) (ws : QresWs K) : Res K :=
  let ms := maskSel Q.inner ws.ws
  let st := loop (Q.base.dim.N + 1) (qresStage Q sol ms.1)
    { res := { res with
        obj := 0
        dual_gap := 0 }
      ws := ws
      mu := 0 }
  { st.res with
    res_mu := st.mu * ms.2
    res_mu_sum := st.mu }

/-- OCP_QCQP_RES_COMPUTE_INF_NORM, x_ocp_qcqp_res.c:626-661: as for the QP, with `ng+nq` for `ng` -/
def qresInfNorm (Q : Qcqp K) (res : Res K) : K × K × K × K := resInfNorm Q.inner.dim res

/-! ### the user's view -/

/-- the QCQP as the user states it: `base` through the getters of the QP part, the quadratic constraints from where
`setQq` … `setUqMask` store them -/
def qview (Q : Qcqp K) : UserQcqp K where
  base := { view Q.inner with
    ng := Q.base.dim.ng }
  nq := Q.nq
  Qq := fun k j i l => Q.Hq k j (Q.base.dim.nu k + i) (Q.base.dim.nu k + l)
  Sq := fun k j i l => Q.Hq k j (Q.base.dim.nu k + l) i
  Rq := fun k j i l => Q.Hq k j i l
  qq := fun k j i => Q.base.DCt k (Q.base.dim.nu k + i) (Q.base.dim.ng k + j)
  rq := fun k j i => Q.base.DCt k i (Q.base.dim.ng k + j)
  uq := fun k j => - Q.base.d k (2 * Q.base.dim.nb k + 2 * Q.base.dim.ng k + Q.nq k + j)
  uqMask := fun k j => Q.base.d_mask k (2 * Q.base.dim.nb k + 2 * Q.base.dim.ng k + Q.nq k + j)
  softq := fun k j =>
    if Q.base.idxs_rev k (Q.base.dim.nb k + Q.base.dim.ng k + j) = -1 then none
    else some (Q.base.idxs_rev k (Q.base.dim.nb k + Q.base.dim.ng k + j)).toNat

end
end Hpipm
