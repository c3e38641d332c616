/-
The dense QP with quadratic constraints: data (dense_qp/x_dense_qcqp.c) and residuals (dense_qp/x_dense_qcqp_res.c).

Simplifications as in DenseQp.lean and DenseRes.lean: reals instead of floating point numbers, arrays are total functions, bound
indices are naturals.  `Hq_nzero`, which only the condensing routines read, is not modelled.
-/
import Verif.DenseResProps
import Verif.QcqpProps
import Verif.DQcqpSpec

namespace Hpipm
open Finset

/-- `struct DENSE_QCQP` (include/hpipm_d_dense_qcqp.h).  All fields but the quadratic ones have the layout of a `DENSE_QP` with
`ng+nq` general constraints (x_dense_qcqp.c:160-195); `base.dim.ng` is the number of linear ones and `inner` the QP with `ng+nq`. -/
structure DQcqp (K : Type*) where
  base : DenseQp K
  nq : ℕ
  Hq : ℕ → Mat K

/-- the arrays of the QCQP read as a QP with `ng+nq` general constraints -/
def DQcqp.inner {K : Type*} (Q : DQcqp K) : DenseQp K :=
  { Q.base with
    dim := { Q.base.dim with
      ng := Q.base.dim.ng + Q.nq } }

/-- workspace, `struct DENSE_QCQP_RES_WS` (include/hpipm_d_dense_qcqp_res.h); `ws` are the fields shared with `DENSE_QP_RES_WS`
(`tmp0`, `tmp1` are `tmp_nbgq+0`, `tmp_nbgq+1`) -/
structure DQresWs (K : Type*) where
  ws : ResWs K
  nv0 : Vec K
  nv1 : Vec K
  use_q_fun : Bool
  use_q_adj : Bool
  q_fun : Vec K
  q_adj : Vec K

/-- numeric fields of the dense QCQP that have a setter -/
inductive DQField
  | qp (f : DField)
  | Hq | gq | uq | uq_mask
  deriving DecidableEq, Repr

namespace DQcqp
variable {K : Type*} [Field K]

/-- DENSE_QCQP_CREATE, dense_qp/x_dense_qcqp.c:78-223: the memory is zeroed, `idxs_rev` is -1, the mask one except for the lower sides
of the quadratic constraints -/
def create (D : DDim) (nq : ℕ) : DQcqp K where
  base := { (DenseQp.create { D with ng := D.ng + nq } : DenseQp K) with
    dim := D
    d_mask := vecse nq 0 (vecse (2 * D.nb + 2 * D.ng + 2 * nq + 2 * D.ns) 1 (fun _ => 0) 0) (D.nb + D.ng) }
  nq := nq
  Hq := fun _ _ _ => 0

/-- a bound setter: `PACK_VEC` into `d`, then `VECSE` of the complementarity target -/
def setBd (n off : ℕ) (v : ℕ → K) (qp : DenseQp K) : DenseQp K :=
  { qp with
    d := packVec n v qp.d off
    m := vecse n 0 qp.m off }

/-- an upper bound setter: the same with a sign change -/
def setUp (n off : ℕ) (v : ℕ → K) (qp : DenseQp K) : DenseQp K :=
  { qp with
    d := vecsc n (-1) (packVec n v qp.d off) off
    m := vecse n 0 qp.m off }

/-- a mask setter -/
def setMk [DecidableEq K] (n off : ℕ) (v : ℕ → K) (qp : DenseQp K) : DenseQp K :=
  { qp with d_mask := DenseQp.maskLoop n v qp.d_mask off }

/-- the setters of the fields that the dense QP also has, dense_qp/x_dense_qcqp.c:375-644, 863-1003 -/
def setQpF [DecidableEq K] (f : DField) (v : ℕ → K) (nq : ℕ) (qp : DenseQp K) : DenseQp K :=
  let nv := qp.dim.nv; let ne := qp.dim.ne; let nb := qp.dim.nb; let ng := qp.dim.ng; let ns := qp.dim.ns
  match f with
  | .H => { qp with Hv := packMat nv nv v nv qp.Hv 0 0 }
  | .A => { qp with A := packMat ne nv v ne qp.A 0 0 }
  | .C => { qp with Ct := packTranMat ng nv v ng qp.Ct 0 0 }
  | .g => { qp with gz := packVec nv v qp.gz 0 }
  | .b => { qp with b := packVec ne v qp.b 0 }
  | .lb => setBd nb 0 v qp
  | .lb_mask => setMk nb 0 v qp
  | .ub => setUp nb (nb + ng + nq) v qp
  | .ub_mask => setMk nb (nb + ng + nq) v qp
  | .lg => setBd ng nb v qp
  | .lg_mask => setMk ng nb v qp
  | .ug => setUp ng (2 * nb + ng + nq) v qp
  | .ug_mask => setMk ng (2 * nb + ng + nq) v qp
  | .Zl => { qp with Z := packVec ns v qp.Z 0 }
  | .Zu => { qp with Z := packVec ns v qp.Z ns }
  | .zl => { qp with gz := packVec ns v qp.gz nv }
  | .zu => { qp with gz := packVec ns v qp.gz (nv + ns) }
  | .lls => setBd ns (2 * nb + 2 * ng + 2 * nq) v qp
  | .lls_mask => setMk ns (2 * nb + 2 * ng + 2 * nq) v qp
  | .lus => setBd ns (2 * nb + 2 * ng + 2 * nq + ns) v qp
  | .lus_mask => setMk ns (2 * nb + 2 * ng + 2 * nq + ns) v qp

/-- DENSE_QCQP_SET_HQ, dense_qp/x_dense_qcqp.c:648-677 (`Hq_nzero` left out) -/
def setHq (v : ℕ → K) (Q : DQcqp K) : DQcqp K :=
  let nv := Q.base.dim.nv
  { Q with
    Hq := loop Q.nq (fun ii H => upd H ii (packMat nv nv (fun i => v (ii * nv * nv + i)) nv (H ii) 0 0)) Q.Hq }

/-- DENSE_QCQP_SET_UQ, dense_qp/x_dense_qcqp.c:696-714: the lower sides get `-1e3` -/
def setUq (v : ℕ → K) (Q : DQcqp K) : DQcqp K :=
  let nb := Q.base.dim.nb; let ng := Q.base.dim.ng; let nq := Q.nq
  let qp := setUp nq (2 * nb + 2 * ng + nq) v Q.base
  { Q with
    base := { qp with
      d := vecse nq (-1000) qp.d (nb + ng)
      m := vecse nq 0 qp.m (nb + ng) } }

/-- the setters by field, dense_qp/x_dense_qcqp.c:375-1003; `gq` 681-692, `uq_mask` 718-741 -/
def setF [DecidableEq K] (f : DQField) (v : ℕ → K) (Q : DQcqp K) : DQcqp K :=
  match f with
  | .qp f => { Q with base := setQpF f v Q.nq Q.base }
  | .Hq => setHq v Q
  | .gq => { Q with
      base := { Q.base with
        Ct := packMat Q.base.dim.nv Q.nq v Q.base.dim.nv Q.base.Ct 0 Q.base.dim.ng } }
  | .uq => setUq v Q
  | .uq_mask => { Q with base := setMk Q.nq (2 * Q.base.dim.nb + 2 * Q.base.dim.ng + Q.nq) v Q.base }

/-- the getters, dense_qp/x_dense_qcqp.c:1007-1369; the quadratic fields have none -/
def getF (f : DField) (Q : DQcqp K) (out : ℕ → K) : ℕ → K :=
  let qp := Q.base; let nq := Q.nq
  let nv := qp.dim.nv; let ne := qp.dim.ne; let nb := qp.dim.nb; let ng := qp.dim.ng; let ns := qp.dim.ns
  match f with
  | .H => unpackMat nv nv qp.Hv 0 0 out nv
  | .A => unpackMat ne nv qp.A 0 0 out ne
  | .C => unpackTranMat nv ng qp.Ct 0 0 out ng
  | .g => unpackVec nv qp.gz 0 out
  | .b => unpackVec ne qp.b 0 out
  | .lb => unpackVec nb qp.d 0 out
  | .lb_mask => unpackVec nb qp.d_mask 0 out
  | .ub => negArr nb (unpackVec nb qp.d (nb + ng + nq) out)
  | .ub_mask => unpackVec nb qp.d_mask (nb + ng + nq) out
  | .lg => unpackVec ng qp.d nb out
  | .lg_mask => unpackVec ng qp.d_mask nb out
  | .ug => negArr ng (unpackVec ng qp.d (2 * nb + ng + nq) out)
  | .ug_mask => unpackVec ng qp.d_mask (2 * nb + ng + nq) out
  | .Zl => unpackVec ns qp.Z 0 out
  | .Zu => unpackVec ns qp.Z ns out
  | .zl => unpackVec ns qp.gz nv out
  | .zu => unpackVec ns qp.gz (nv + ns) out
  | .lls => unpackVec ns qp.d (2 * nb + 2 * ng + 2 * nq) out
  | .lls_mask => unpackVec ns qp.d_mask (2 * nb + 2 * ng + 2 * nq) out
  | .lus => unpackVec ns qp.d (2 * nb + 2 * ng + 2 * nq + ns) out
  | .lus_mask => unpackVec ns qp.d_mask (2 * nb + 2 * ng + 2 * nq + ns) out

end DQcqp

section
variable {K : Type*} [Field K] [LinearOrder K]

/-- DENSE_QCQP_RES_COMPUTE, dense_qp/x_dense_qcqp_res.c:270-462.  Lengths and offsets `2*nb+2*ng+2*nq` are written `2*nb+2*(ng+nq)`.
`qCached` and `qLoop` (Qcqp.lean) are the lines 375-386 and 389-401, which are the same code as in the OCP solver; `softLoop` is the
loop 416-428 with `ng+nq` for `ng`. -/
def dqresCompute (Q : DQcqp K) (sol : DqSol K) (res : DRes K) (w : DQresWs K) : DRes K :=
  let qp := Q.base
  let nv := qp.dim.nv; let ne := qp.dim.ne; let nb := qp.dim.nb; let ng := qp.dim.ng; let nq := Q.nq; let ns := qp.dim.ns
  let nct := Q.inner.dim.nct
  let gz := qp.gz; let d := qp.d; let dm := qp.d_mask
  let v := sol.v; let lam := sol.lam; let t := sol.t
  let ws := w.ws
  let ms := dmaskSel Q.inner ws
  let mask := ms.1
  let g := symv_l nv 1 qp.Hv 0 0 v 0 2 gz 0 res.res_g 0
  let obj := 0 + 1 / 2 * dot nv g 0 v 0
  let g := axpy nv (-1) gz 0 g 0 g 0
  let gap := 0 + dot nv g 0 v 0
  let tl := if mask then vecmul nct lam 0 dm 0 ws.tmp_lam_mask 0 else veccp nct lam 0 ws.tmp_lam_mask 0
  let tl := vecse nq 0 tl (nb + ng)
  let n := nb + (ng + nq)
  let n2 := 2 * nb + 2 * (ng + nq)
  let pos := decide (n > 0)
  let tmp0 := if pos then axpy n (-1) tl 0 tl n ws.tmp0 0 else ws.tmp0
  let rd := if pos then axpy n2 1 d 0 t 0 res.res_d 0 else res.res_d
  let g := if nb > 0 then vecad_sp nb 1 tmp0 0 qp.idxb g 0 else g
  let tmp1 := if nb > 0 then vecex_sp nb 1 qp.idxb v 0 ws.tmp1 0 else ws.tmp1
  let g := if ng > 0 then gemv_n nv ng 1 qp.Ct 0 0 tmp0 nb 1 g 0 g 0 else g
  let tmp1 := if ng > 0 then gemv_t nv ng 1 qp.Ct 0 0 v 0 0 tmp1 nb tmp1 nb else tmp1
  let cached := w.use_q_fun && w.use_q_adj
  let qc := qCached nv nb ng nq qp.Ct v tl tmp0 w.q_fun w.q_adj g gap tmp1
  let ql := qLoop nv nb ng nq Q.Hq qp.Ct v tl tmp0 ⟨g, gap, tmp1, w.nv0, w.nv1⟩
  let qd := decide (nq > 0)
  let g := if qd then (if cached then qc.1 else ql.g) else g
  let gap := if qd then (if cached then qc.2.1 else ql.gap) else gap
  let tmp1 := if qd then (if cached then qc.2.2.1 else ql.tmp1) else tmp1
  let rd := if pos then axpy n (-1) tmp1 0 rd 0 rd 0 else rd
  let rd := if pos then axpy n 1 tmp1 0 rd n rd n else rd
  let sp := decide (ns > 0)
  let g := if sp then gemv_diag (2 * ns) 1 qp.Z 0 v nv 2 gz nv g nv else g
  let obj := if sp then obj + 1 / 2 * dot (2 * ns) g nv v nv else obj
  let g := if sp then axpy (2 * ns) (-1) gz nv g nv g nv else g
  let gap := if sp then gap + dot (2 * ns) g nv v nv else gap
  let g := if sp then axpy (2 * ns) (-1) tl n2 g nv g nv else g
  let gd := if sp then softLoop nb (ng + nq) ns nv qp.idxs_rev tl v g rd else (g, rd)
  let g := gd.1; let rd := gd.2
  let rd := if sp then axpy (2 * ns) (-1) v nv t n2 rd n2 else rd
  let rd := if sp then axpy (2 * ns) 1 d n2 rd n2 rd n2 else rd
  let rd := if mask then vecmul nct dm 0 rd 0 rd 0 else rd
  let gap := gap - dot nct d 0 tl 0
  let rb := if ne > 0 then gemv_n ne nv (-1) qp.A 0 0 v 0 1 qp.b 0 res.res_b 0 else res.res_b
  let g := if ne > 0 then gemv_t ne nv (-1) qp.A 0 0 sol.pi 0 1 g 0 g 0 else g
  let gap := if ne > 0 then gap - dot ne qp.b 0 sol.pi 0 else gap
  let mu := dot nct tl 0 t 0
  let rm := vecmul nct tl 0 t 0 res.res_m 0
  let rm := axpy nct (-1) qp.m 0 rm 0 rm 0
  let rm := if mask then vecmul nct dm 0 rm 0 rm 0 else rm
  { res_g := g
    res_b := rb
    res_d := rd
    res_m := rm
    obj := obj
    dual_gap := gap
    res_mu := mu * ms.2
    res_mu_sum := mu }

/-- DENSE_QCQP_RES_COMPUTE_INF_NORM, dense_qp/x_dense_qcqp_res.c:466-495 -/
def dqresInfNorm (Q : DQcqp K) (res : DRes K) : K × K × K × K := dresInfNorm Q.inner.dim res

end

section
variable {K : Type*} [Field K] [LinearOrder K] [IsStrictOrderedRing K]

/-- the dense QCQP as the user states it: `base` through the getters of the QP part, the quadratic constraints from where the setters
store them (`dqview_get`, `dqview_set` below relate this to the calls) -/
def dqview (Q : DQcqp K) : DUserQcqp K where
  base := { dview Q.inner with
    ng := Q.base.dim.ng }
  nq := Q.nq
  Hq := fun j i l => Q.Hq j i l
  gq := fun j i => Q.base.Ct i (Q.base.dim.ng + j)
  uq := fun j => - Q.base.d (2 * Q.base.dim.nb + 2 * Q.base.dim.ng + Q.nq + j)
  uqMask := fun j => Q.base.d_mask (2 * Q.base.dim.nb + 2 * Q.base.dim.ng + Q.nq + j)
  softq := fun j =>
    if Q.base.idxs_rev (Q.base.dim.nb + Q.base.dim.ng + j) = -1 then none
    else some (Q.base.idxs_rev (Q.base.dim.nb + Q.base.dim.ng + j)).toNat

/-- index lists stay in range -/
def DQcqp.WF (Q : DQcqp K) : Prop := Q.inner.WF

end
end Hpipm
