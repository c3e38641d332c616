/-
Model of the tree-structured QP, tree_ocp_qp/x_tree_ocp_qp.c (setters) and of its residuals,
tree_ocp_qp/x_tree_ocp_qp_res.c.

`struct TREE_OCP_QP` (include/hpipm_d_tree_ocp_qp.h:53-69) has the fields of `struct OCP_QP`, indexed by
node instead of stage; `BAbt`, `b` (and `pi`, `res_b`) are indexed by edge, edge `e` leading to node `e+1`.
The record `OcpQp` is reused for these fields, with `dim.N + 1` the number of nodes `Nn` (`Nn ≥ 1`), and the
tree (include/hpipm_tree.h, `struct tree`) is added.  `struct TREE_OCP_QP_SOL`, `TREE_OCP_QP_RES`,
`TREE_OCP_QP_RES_WS` have the fields of their OCP counterparts.
Simplifications: reals instead of floating point, node arrays of total functions (as in Res.lean).
-/
import Verif.Res
import Verif.Tree
import Verif.TreeSpec
import Verif.View

namespace Hpipm
open Finset

/-- `struct TREE_OCP_QP` with its `dim->ttree` -/
structure TreeQp (K : Type*) where
  qp : OcpQp K
  dad : ℕ → ℕ
  nkids : ℕ → ℕ
  kids : ℕ → ℕ → ℕ

/-- what the routines need of the tree: kids have larger numbers, `dad` is the inverse of `kids`, and every
node but the root is a kid (exactly once) -/
structure TreeQp.TreeOk {K : Type*} (t : TreeQp K) : Prop where
  kid : ∀ k j, k ≤ t.qp.dim.N → j < t.nkids k → k < t.kids k j ∧ t.kids k j ≤ t.qp.dim.N ∧ t.dad (t.kids k j) = k
  inj : ∀ k j j', k ≤ t.qp.dim.N → j < t.nkids k → j' < t.nkids k → t.kids k j = t.kids k j' → j = j'
  all : ∀ c, 0 < c → c ≤ t.qp.dim.N → t.dad c < c ∧ ∃ j, j < t.nkids (t.dad c) ∧ t.kids (t.dad c) j = c

section
variable {K : Type*} [Field K] [LinearOrder K]

/-- TREE_OCP_QP_SET_A, x_tree_ocp_qp.c:740-753 -/
def TreeQp.setA (e : ℕ) (A : ℕ → K) (t : TreeQp K) : TreeQp K :=
  let nx1 := t.qp.dim.nx (e + 1); let d := t.dad (e + 1)
  { t with qp := { t.qp with
      BAbt := upd t.qp.BAbt e (packTranMat nx1 (t.qp.dim.nx d) A nx1 (t.qp.BAbt e) (t.qp.dim.nu d) 0) } }

/-- TREE_OCP_QP_SET_B, x_tree_ocp_qp.c:757-770 -/
def TreeQp.setB (e : ℕ) (B : ℕ → K) (t : TreeQp K) : TreeQp K :=
  let nx1 := t.qp.dim.nx (e + 1); let d := t.dad (e + 1)
  { t with qp := { t.qp with
      BAbt := upd t.qp.BAbt e (packTranMat nx1 (t.qp.dim.nu d) B nx1 (t.qp.BAbt e) 0 0) } }

/-- TREE_OCP_QP_SET_BVEC, x_tree_ocp_qp.c:774-788 -/
def TreeQp.setBvec (e : ℕ) (b : ℕ → K) (t : TreeQp K) : TreeQp K :=
  let nx1 := t.qp.dim.nx (e + 1); let d := t.dad (e + 1)
  { t with qp := { t.qp with
      BAbt := upd t.qp.BAbt e (packTranMat nx1 1 b nx1 (t.qp.BAbt e) (t.qp.dim.nu d + t.qp.dim.nx d) 0)
      b := upd t.qp.b e (packVec nx1 b (t.qp.b e) 0) } }

/-- the setters of the node fields, x_tree_ocp_qp.c:792-1430, have the text of the setters of the OCP QP
with the same name (modelled by `OcpQp.setR`) -/
def TreeQp.setNode (f : RField) (k : ℕ) (v : ℕ → K) (t : TreeQp K) : TreeQp K := { t with qp := OcpQp.setR f k v t.qp }

/-- the tree QP as the user sees it: there are no getters; the node fields are read as by the getters of
the OCP QP and the edge fields where TREE_OCP_QP_SET_A, SET_B put them (see `tree_set_A` etc.) -/
def tview (t : TreeQp K) : TUser K where
  toUserQp := { view t.qp with
    A := fun e i j => t.qp.BAbt e (t.qp.dim.nu (t.dad (e + 1)) + j) i
    B := fun e i j => t.qp.BAbt e j i }
  dad := t.dad

/-- the loop over the kids of node `ii`, x_tree_ocp_qp_res.c:570-587: `s = (res_g of the node, res_b, dual_gap)` -/
def tresKids (t : TreeQp K) (sol : Sol K) (ii : ℕ) (s : Vec K × (ℕ → Vec K) × K) : Vec K × (ℕ → Vec K) × K :=
  let D := t.qp.dim
  let nv := D.nu ii + D.nx ii
  loop (t.nkids ii) (fun jj s =>
    let c := t.kids ii jj
    let e := c - 1
    let rb := axpy (D.nx c) (-1) (sol.ux c) (D.nu c) (t.qp.b e) 0 (s.2.1 e) 0
    let g := gemv_n nv (D.nx c) 1 (t.qp.BAbt e) 0 0 (sol.pi e) 0 1 s.1 0 s.1 0
    let rb := gemv_t nv (D.nx c) 1 (t.qp.BAbt e) 0 0 (sol.ux ii) 0 1 rb 0 rb 0
    (g, upd s.2.1 e rb, s.2.2 - dot (D.nx c) (t.qp.b e) 0 (sol.pi e) 0)) s

/-- one node of TREE_OCP_QP_RES_COMPUTE, x_tree_ocp_qp_res.c:484-599.  Two differences to the OCP routine
besides the kids: `tmp_nbgM+0` (line 515) and the `d`-part of the gap (line 567) are computed from `lam`, not from the
masked copy `tmp_lam_mask` -/
def tresNode (t : TreeQp K) (sol : Sol K) (mask : Bool) (ii : ℕ) (st : ResSt K) : ResSt K :=
  let qp := t.qp
  let D := qp.dim
  let nx0 := D.nx ii; let nu0 := D.nu ii; let nb0 := D.nb ii; let ng0 := D.ng ii; let ns0 := D.ns ii
  let rqz := qp.rqz ii; let d := qp.d ii; let dm := qp.d_mask ii
  let ux := sol.ux ii; let lam := sol.lam ii; let tt := sol.t ii
  let g := symv_l (nu0 + nx0) 1 (qp.RSQrq ii) 0 0 ux 0 2 rqz 0 (st.res.res_g ii) 0
  let obj := st.res.obj + 1 / 2 * dot (nu0 + nx0) g 0 ux 0
  let g := axpy (nu0 + nx0) (-1) rqz 0 g 0 g 0
  let gap := st.res.dual_gap + dot (nu0 + nx0) g 0 ux 0
  let g := if ii > 0 then axpy nx0 (-1) (sol.pi (ii - 1)) 0 g nu0 g nu0 else g
  let tl := if mask then vecmul (nct D ii) lam 0 dm 0 st.ws.tmp_lam_mask 0
    else veccp (nct D ii) lam 0 st.ws.tmp_lam_mask 0
  let pos := decide (nb0 + ng0 > 0)
  let tmp0 := if pos then axpy (nb0 + ng0) (-1) lam 0 lam (nb0 + ng0) st.ws.tmp0 0 else st.ws.tmp0
  let rd := if pos then axpy (2 * nb0 + 2 * ng0) 1 d 0 tt 0 (st.res.res_d ii) 0 else st.res.res_d ii
  let g := if nb0 > 0 then vecad_sp nb0 1 tmp0 0 (qp.idxb ii) g 0 else g
  let tmp1 := if nb0 > 0 then vecex_sp nb0 1 (qp.idxb ii) ux 0 st.ws.tmp1 0 else st.ws.tmp1
  let g := if ng0 > 0 then gemv_n (nu0 + nx0) ng0 1 (qp.DCt ii) 0 0 tmp0 nb0 1 g 0 g 0 else g
  let tmp1 := if ng0 > 0 then gemv_t (nu0 + nx0) ng0 1 (qp.DCt ii) 0 0 ux 0 0 tmp1 nb0 tmp1 nb0 else tmp1
  let rd := if pos then axpy (nb0 + ng0) (-1) tmp1 0 rd 0 rd 0 else rd
  let rd := if pos then axpy (nb0 + ng0) 1 tmp1 0 rd (nb0 + ng0) rd (nb0 + ng0) else rd
  let sp := decide (ns0 > 0)
  let nv := nu0 + nx0
  let g := if sp then gemv_diag (2 * ns0) 1 (qp.Z ii) 0 ux nv 2 rqz nv g nv else g
  let obj := if sp then obj + 1 / 2 * dot (2 * ns0) g nv ux nv else obj
  let g := if sp then axpy (2 * ns0) (-1) rqz nv g nv g nv else g
  let gap := if sp then gap + dot (2 * ns0) g nv ux nv else gap
  let g := if sp then axpy (2 * ns0) (-1) tl (2 * nb0 + 2 * ng0) g nv g nv else g
  let gd := if sp then softLoop nb0 ng0 ns0 nv (qp.idxs_rev ii) tl ux g rd else (g, rd)
  let g := gd.1; let rd := gd.2
  let rd := if sp then axpy (2 * ns0) (-1) ux nv tt (2 * nb0 + 2 * ng0) rd (2 * nb0 + 2 * ng0) else rd
  let rd := if sp then axpy (2 * ns0) 1 d (2 * nb0 + 2 * ng0) rd (2 * nb0 + 2 * ng0) rd (2 * nb0 + 2 * ng0) else rd
  let rd := if mask then vecmul (nct D ii) dm 0 rd 0 rd 0 else rd
  let gap := gap - dot (nct D ii) d 0 lam 0
  let kd := tresKids t sol ii (g, st.res.res_b, gap)
  let rm := vecmul (nct D ii) tl 0 tt 0 (st.res.res_m ii) 0
  let rm := axpy (nct D ii) (-1) (qp.m ii) 0 rm 0 rm 0
  let rm := if mask then vecmul (nct D ii) dm 0 rm 0 rm 0 else rm
  { res := { st.res with
      res_g := upd st.res.res_g ii kd.1
      res_b := kd.2.1
      res_d := upd st.res.res_d ii rd
      res_m := upd st.res.res_m ii rm
      obj := obj
      dual_gap := kd.2.2 }
    ws := { st.ws with
      tmp0 := tmp0
      tmp1 := tmp1
      tmp_lam_mask := tl }
    mu := st.mu + vecnrm1 (nct D ii) rm 0 }

/-- TREE_OCP_QP_RES_COMPUTE, x_tree_ocp_qp_res.c:402-607 (the mask counting loop, 459-471, is that of the
OCP routine over the nodes: `maskSel`) -/
def tresCompute (t : TreeQp K) (sol : Sol K) (res : Res K) (ws : ResWs K) : Res K :=
  let ms := maskSel t.qp ws
  let st := loop (t.qp.dim.N + 1) (tresNode t sol ms.1)
    { res := { res with
        obj := 0
        dual_gap := 0 }
      ws := ws
      mu := 0 }
  { st.res with
    res_mu := st.mu * ms.2
    res_mu_sum := st.mu }

/-- one node of TREE_OCP_QP_RES_COMPUTE_LIN, x_tree_ocp_qp_res.c:675-757: the text of the OCP routine, with
the loop over kids in place of the dynamics of a single successor -/
def tresLinNode (t : TreeQp K) (sol step : Sol K) (mask : Bool) (ii : ℕ) (st : ResSt K) : ResSt K :=
  let s := resLinStage { t.qp with dim := { t.qp.dim with N := ii } } sol step mask ii st
  let kd := tresKids t step ii (s.res.res_g ii, st.res.res_b, 0)
  { s with res := { s.res with
      res_g := upd s.res.res_g ii kd.1
      res_b := kd.2.1 } }

/-- TREE_OCP_QP_RES_COMPUTE_LIN, x_tree_ocp_qp_res.c:612-762 -/
def tresComputeLin (t : TreeQp K) (sol step : Sol K) (res : Res K) (ws : ResWs K) : Res K :=
  (loop (t.qp.dim.N + 1) (tresLinNode t sol step (maskSel t.qp ws).1)
    { res := res
      ws := ws
      mu := 0 }).res

/-- TREE_OCP_QP_RES_COMPUTE_INF_NORM, x_tree_ocp_qp_res.c:766-801 -/
def tresInfNorm (D : QpDim) (res : Res K) : K × K × K × K :=
  let Nn := D.N + 1
  let nv := loop Nn (fun ii s => s + (D.nu ii + D.nx ii + 2 * D.ns ii)) 0
  let nc := loop Nn (fun ii s => s + (2 * D.nb ii + 2 * D.ng ii + 2 * D.ns ii)) 0
  let ne := loop (Nn - 1) (fun ii s => s + D.nx (ii + 1)) 0
  (vecnrmInf nv (stFlat (nvt D) res.res_g Nn) 0,
   vecnrmInf ne (stFlat (fun k => D.nx (k + 1)) res.res_b (Nn - 1)) 0,
   vecnrmInf nc (stFlat (nct D) res.res_d Nn) 0,
   vecnrmInf nc (stFlat (nct D) res.res_m Nn) 0)

end
end Hpipm
