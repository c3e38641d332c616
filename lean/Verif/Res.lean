/-
Model of the residual routines, ocp_qp/x_ocp_qp_res.c.

Simplifications: reals instead of floating point; the vector descriptors `res->res_g+ii` etc. are
stage arrays of total functions; each stage of the C loop touches only the vectors of stage `ii`,
so the body below works on these and stores them with `upd` at the end.
-/
import Verif.OcpQp

namespace Hpipm

/-- `struct OCP_QP_SOL` (include/hpipm_d_ocp_qp_sol.h:54-62): `ux[k] = (u, x, sl, su)` -/
structure Sol (K : Type*) where
  ux : ℕ → Vec K
  pi : ℕ → Vec K
  lam : ℕ → Vec K
  t : ℕ → Vec K

/-- `struct OCP_QP_RES` (include/hpipm_d_ocp_qp_res.h:55-69) -/
structure Res (K : Type*) where
  res_g : ℕ → Vec K
  res_b : ℕ → Vec K
  res_d : ℕ → Vec K
  res_m : ℕ → Vec K
  obj : K
  dual_gap : K
  res_mu : K
  res_mu_sum : K

/-- `struct OCP_QP_RES_WS` (include/hpipm_d_ocp_qp_res.h:73-82) -/
structure ResWs (K : Type*) where
  tmp0 : Vec K
  tmp1 : Vec K
  tmp_lam_mask : Vec K
  valid_nc_mask : Bool
  mask_constr : Bool
  nc_mask_inv : K

section
variable {K : Type*} [Field K] [LinearOrder K]

/-- length of the constraint vectors of a stage, `2*nb[ii]+2*ng[ii]+2*ns[ii]` -/
def nct (D : QpDim) (k : ℕ) : ℕ := 2 * D.nb k + 2 * D.ng k + 2 * D.ns k

/-- length of the variable vector of a stage -/
def nvt (D : QpDim) (k : ℕ) : ℕ := D.nu k + D.nx k + 2 * D.ns k

/-- the loop over softened constraints, x_ocp_qp_res.c:463-475 (and 634-646): `s = (res_g, res_d)` -/
def softLoop (nb ng ns nv : ℕ) (idxs_rev : ℕ → ℤ) (tl ux : Vec K) (g d : Vec K) : Vec K × Vec K :=
  loop (nb + ng) (fun jj s =>
    if idxs_rev jj ≠ -1 then
      let idx := (idxs_rev jj).toNat
      let g1 := upd s.1 (nv + idx) (s.1 (nv + idx) - tl jj)
      let g2 := upd g1 (nv + ns + idx) (g1 (nv + ns + idx) - tl (nb + ng + jj))
      let d1 := upd s.2 jj (s.2 jj - ux (nv + idx))
      let d2 := upd d1 (nb + ng + jj) (d1 (nb + ng + jj) - ux (nv + ns + idx))
      (g2, d2)
    else s) (g, d)

/-- the constraint counting loop of OCP_QP_RES_COMPUTE, x_ocp_qp_res.c:397-406:
returns `(nc_mask, mask_constr)` -/
def countMask (D : QpDim) (d_mask : ℕ → Vec K) : ℕ × Bool :=
  loop (D.N + 1) (fun ii s => loop (nct D ii) (fun jj s =>
    if d_mask ii jj = 1 then (s.1 + 1, s.2) else (s.1, true)) s) (0, false)

/-- the selection of `mask_constr`, `nc_mask_inv`, x_ocp_qp_res.c:389-407 -/
def maskSel (qp : OcpQp K) (ws : ResWs K) : Bool × K :=
  if ws.valid_nc_mask then (ws.mask_constr, ws.nc_mask_inv)
  else
    let c := countMask qp.dim qp.d_mask
    (c.2, if c.1 > 0 then 1 / (c.1 : K) else 0)

/-- state of the stage loop -/
structure ResSt (K : Type*) where
  res : Res K
  ws : ResWs K
  mu : K

/-- one stage of OCP_QP_RES_COMPUTE, x_ocp_qp_res.c:416-522 -/
def resStage (qp : OcpQp K) (sol : Sol K) (mask : Bool) (ii : ℕ) (st : ResSt K) : ResSt K :=
  let D := qp.dim
  let nx0 := D.nx ii; let nu0 := D.nu ii; let nb0 := D.nb ii; let ng0 := D.ng ii; let ns0 := D.ns ii
  let rqz := qp.rqz ii; let d := qp.d ii; let dm := qp.d_mask ii
  let ux := sol.ux ii; let lam := sol.lam ii; let t := sol.t ii
  let g := symv_l (nu0 + nx0) 1 (qp.RSQrq ii) 0 0 ux 0 2 rqz 0 (st.res.res_g ii) 0
  let obj := st.res.obj + 1 / 2 * dot (nu0 + nx0) g 0 ux 0
  let g := axpy (nu0 + nx0) (-1) rqz 0 g 0 g 0
  let gap := st.res.dual_gap + dot (nu0 + nx0) g 0 ux 0
  let g := if ii > 0 then axpy nx0 (-1) (sol.pi (ii - 1)) 0 g nu0 g nu0 else g
  let tl := if mask then vecmul (nct D ii) lam 0 dm 0 st.ws.tmp_lam_mask 0
    else veccp (nct D ii) lam 0 st.ws.tmp_lam_mask 0
  let pos := decide (nb0 + ng0 > 0)
  let tmp0 := if pos then axpy (nb0 + ng0) (-1) tl 0 tl (nb0 + ng0) st.ws.tmp0 0 else st.ws.tmp0
  let rd := if pos then axpy (2 * nb0 + 2 * ng0) 1 d 0 t 0 (st.res.res_d ii) 0 else st.res.res_d ii
  let g := if nb0 > 0 then vecad_sp nb0 1 tmp0 0 (qp.idxb ii) g 0 else g
  let tmp1 := if nb0 > 0 then vecex_sp nb0 1 (qp.idxb ii) ux 0 st.ws.tmp1 0 else st.ws.tmp1
  let g := if ng0 > 0 then gemv_n (nu0 + nx0) ng0 1 (qp.DCt ii) 0 0 tmp0 nb0 1 g 0 g 0 else g
  let tmp1 := if ng0 > 0 then gemv_t (nu0 + nx0) ng0 1 (qp.DCt ii) 0 0 ux 0 0 tmp1 nb0 tmp1 nb0 else tmp1
  let rd := if pos then axpy (nb0 + ng0) (-1) tmp1 0 rd 0 rd 0 else rd
  let rd := if pos then axpy (nb0 + ng0) 1 tmp1 0 rd (nb0 + ng0) rd (nb0 + ng0) else rd
  let sp := decide (ns0 > 0)
  let nv := nu0 + nx0
  let g := if sp then gemv_diag (2 * ns0) 1 (qp.Z ii) 0 ux nv 2 rqz nv g nv else g
  let obj := if sp then obj + 1 / 2 * dot (2 * ns0) g nv ux nv else obj
  let g := if sp then axpy (2 * ns0) (-1) rqz nv g nv g nv else g
  let gap := if sp then gap + dot (2 * ns0) g nv ux nv else gap
  let g := if sp then axpy (2 * ns0) (-1) tl (2 * nb0 + 2 * ng0) g nv g nv else g
  let gd := if sp then softLoop nb0 ng0 ns0 nv (qp.idxs_rev ii) tl ux g rd else (g, rd)
  let g := gd.1; let rd := gd.2
  let rd := if sp then axpy (2 * ns0) (-1) ux nv t (2 * nb0 + 2 * ng0) rd (2 * nb0 + 2 * ng0) else rd
  let rd := if sp then axpy (2 * ns0) 1 d (2 * nb0 + 2 * ng0) rd (2 * nb0 + 2 * ng0) rd (2 * nb0 + 2 * ng0) else rd
  let rd := if mask then vecmul (nct D ii) dm 0 rd 0 rd 0 else rd
  let gap := gap - dot (nct D ii) d 0 tl 0
  let nu1 := D.nu (ii + 1); let nx1 := D.nx (ii + 1)
  let dyn := decide (ii < D.N)
  let rb := if dyn then axpy nx1 (-1) (sol.ux (ii + 1)) nu1 (qp.b ii) 0 (st.res.res_b ii) 0
    else st.res.res_b ii
  let g := if dyn then gemv_n nv nx1 1 (qp.BAbt ii) 0 0 (sol.pi ii) 0 1 g 0 g 0 else g
  let rb := if dyn then gemv_t nv nx1 1 (qp.BAbt ii) 0 0 ux 0 1 rb 0 rb 0 else rb
  let gap := if dyn then gap - dot nx1 (qp.b ii) 0 (sol.pi ii) 0 else gap
  let rm := vecmul (nct D ii) tl 0 t 0 (st.res.res_m ii) 0
  let rm := axpy (nct D ii) (-1) (qp.m ii) 0 rm 0 rm 0
  let rm := if mask then vecmul (nct D ii) dm 0 rm 0 rm 0 else rm
  { res := { st.res with
      res_g := upd st.res.res_g ii g
      res_b := upd st.res.res_b ii rb
      res_d := upd st.res.res_d ii rd
      res_m := upd st.res.res_m ii rm
      obj := obj
      dual_gap := gap }
    ws := { st.ws with
      tmp0 := tmp0
      tmp1 := tmp1
      tmp_lam_mask := tl }
    mu := st.mu + vecnrm1 (nct D ii) rm 0 }

/-- OCP_QP_RES_COMPUTE, x_ocp_qp_res.c:345-531 -/
def resCompute (qp : OcpQp K) (sol : Sol K) (res : Res K) (ws : ResWs K) : Res K :=
  let ms := maskSel qp ws
  let st := loop (qp.dim.N + 1) (resStage qp sol ms.1)
    { res := { res with
        obj := 0
        dual_gap := 0 }
      ws := ws
      mu := 0 }
  { st.res with
    res_mu := st.mu * ms.2
    res_mu_sum := st.mu }

/-- one stage of OCP_QP_RES_COMPUTE_LIN, x_ocp_qp_res.c:595-680; `step` is the Newton step,
`sol` the point of linearisation -/
def resLinStage (qp : OcpQp K) (sol step : Sol K) (mask : Bool) (ii : ℕ) (st : ResSt K) : ResSt K :=
  let D := qp.dim
  let nx0 := D.nx ii; let nu0 := D.nu ii; let nb0 := D.nb ii; let ng0 := D.ng ii; let ns0 := D.ns ii
  let rqz := qp.rqz ii; let d := qp.d ii; let dm := qp.d_mask ii
  let ux := step.ux ii; let lam := step.lam ii; let t := step.t ii
  let g := symv_l (nu0 + nx0) 1 (qp.RSQrq ii) 0 0 ux 0 1 rqz 0 (st.res.res_g ii) 0
  let g := if ii > 0 then axpy nx0 (-1) (step.pi (ii - 1)) 0 g nu0 g nu0 else g
  let tl := if mask then vecmul (nct D ii) lam 0 dm 0 st.ws.tmp_lam_mask 0
    else veccp (nct D ii) lam 0 st.ws.tmp_lam_mask 0
  let pos := decide (nb0 + ng0 > 0)
  let tmp0 := if pos then axpy (nb0 + ng0) (-1) tl 0 tl (nb0 + ng0) st.ws.tmp0 0 else st.ws.tmp0
  let rd := if pos then axpy (2 * nb0 + 2 * ng0) 1 d 0 t 0 (st.res.res_d ii) 0 else st.res.res_d ii
  let g := if nb0 > 0 then vecad_sp nb0 1 tmp0 0 (qp.idxb ii) g 0 else g
  let tmp1 := if nb0 > 0 then vecex_sp nb0 1 (qp.idxb ii) ux 0 st.ws.tmp1 0 else st.ws.tmp1
  let g := if ng0 > 0 then gemv_n (nu0 + nx0) ng0 1 (qp.DCt ii) 0 0 tmp0 nb0 1 g 0 g 0 else g
  let tmp1 := if ng0 > 0 then gemv_t (nu0 + nx0) ng0 1 (qp.DCt ii) 0 0 ux 0 0 tmp1 nb0 tmp1 nb0 else tmp1
  let rd := if pos then axpy (nb0 + ng0) (-1) tmp1 0 rd 0 rd 0 else rd
  let rd := if pos then axpy (nb0 + ng0) 1 tmp1 0 rd (nb0 + ng0) rd (nb0 + ng0) else rd
  let sp := decide (ns0 > 0)
  let nv := nu0 + nx0
  let g := if sp then gemv_diag (2 * ns0) 1 (qp.Z ii) 0 ux nv 1 rqz nv g nv else g
  let g := if sp then axpy (2 * ns0) (-1) tl (2 * nb0 + 2 * ng0) g nv g nv else g
  let gd := if sp then softLoop nb0 ng0 ns0 nv (qp.idxs_rev ii) tl ux g rd else (g, rd)
  let g := gd.1; let rd := gd.2
  let rd := if sp then axpy (2 * ns0) (-1) ux nv t (2 * nb0 + 2 * ng0) rd (2 * nb0 + 2 * ng0) else rd
  let rd := if sp then axpy (2 * ns0) 1 d (2 * nb0 + 2 * ng0) rd (2 * nb0 + 2 * ng0) rd (2 * nb0 + 2 * ng0) else rd
  let rd := if mask then vecmul (nct D ii) dm 0 rd 0 rd 0 else rd
  let nu1 := D.nu (ii + 1); let nx1 := D.nx (ii + 1)
  let dyn := decide (ii < D.N)
  let rb := if dyn then axpy nx1 (-1) (step.ux (ii + 1)) nu1 (qp.b ii) 0 (st.res.res_b ii) 0
    else st.res.res_b ii
  let g := if dyn then gemv_n nv nx1 1 (qp.BAbt ii) 0 0 (step.pi ii) 0 1 g 0 g 0 else g
  let rb := if dyn then gemv_t nv nx1 1 (qp.BAbt ii) 0 0 ux 0 1 rb 0 rb 0 else rb
  let rm := veccp (nct D ii) (qp.m ii) 0 (st.res.res_m ii) 0
  let rm := vecmulacc (nct D ii) (sol.lam ii) 0 t 0 rm 0
  let rm := vecmulacc (nct D ii) lam 0 (sol.t ii) 0 rm 0
  let rm := if mask then vecmul (nct D ii) dm 0 rm 0 rm 0 else rm
  { res := { st.res with
      res_g := upd st.res.res_g ii g
      res_b := upd st.res.res_b ii rb
      res_d := upd st.res.res_d ii rd
      res_m := upd st.res.res_m ii rm }
    ws := { st.ws with
      tmp0 := tmp0
      tmp1 := tmp1
      tmp_lam_mask := tl }
    mu := st.mu }

/-- OCP_QP_RES_COMPUTE_LIN, x_ocp_qp_res.c:535-686 -/
def resComputeLin (qp : OcpQp K) (sol step : Sol K) (res : Res K) (ws : ResWs K) : Res K :=
  (loop (qp.dim.N + 1) (resLinStage qp sol step (maskSel qp ws).1)
    { res := res
      ws := ws
      mu := 0 }).res

/-- offset of stage `k` in a stage-concatenated vector, as laid out by OCP_QP_RES_CREATE
(x_ocp_qp_res.c:180-213: consecutive `CREATE_STRVEC` calls without padding) -/
def stOff (len : ℕ → ℕ) : ℕ → ℕ
  | 0 => 0
  | k + 1 => stOff len k + len k

/-- the memory seen through the stage-0 descriptor: the first `n` stage vectors one after the other -/
def stFlat (len : ℕ → ℕ) (f : ℕ → Vec K) : ℕ → Vec K
  | 0 => fun _ => 0
  | n + 1 => fun p => if p < stOff len n then stFlat len f n p else f n (p - stOff len n)

/-- OCP_QP_RES_COMPUTE_INF_NORM, x_ocp_qp_res.c:689-725: the four values of `res_max` -/
def resInfNorm (D : QpDim) (res : Res K) : K × K × K × K :=
  let nv := loop D.N (fun ii s => s + (D.nu ii + D.nx ii + 2 * D.ns ii)) 0
  let ne := loop D.N (fun ii s => s + D.nx (ii + 1)) 0
  let nc := loop D.N (fun ii s => s + (2 * D.nb ii + 2 * D.ng ii + 2 * D.ns ii)) 0
  let nv := nv + (D.nu D.N + D.nx D.N + 2 * D.ns D.N)
  let nc := nc + (2 * D.nb D.N + 2 * D.ng D.N + 2 * D.ns D.N)
  (vecnrmInf nv (stFlat (nvt D) res.res_g (D.N + 1)) 0,
   vecnrmInf ne (stFlat (fun k => D.nx (k + 1)) res.res_b D.N) 0,
   vecnrmInf nc (stFlat (nct D) res.res_d (D.N + 1)) 0,
   vecnrmInf nc (stFlat (nct D) res.res_m (D.N + 1)) 0)

end
end Hpipm
