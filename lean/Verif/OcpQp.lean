/-
Model of the OCP QP data object, ocp_qp/x_ocp_qp.c.

Structure of arrays indexed by the stage, as in `struct OCP_QP` (include/hpipm_d_ocp_qp.h).
Simplifications: reals instead of floating point numbers, stage arrays are total functions (the
C code reads and writes only the ranges appearing in the definitions below), integers in index
lists are naturals except in `idxs_rev`, which uses -1.
-/
import Verif.Blas

namespace Hpipm

/-- the sizes of an OCP QP, as read from `struct OCP_QP_DIM` (include/hpipm_d_ocp_qp_dim.h:47-64) -/
structure QpDim where
  N : ℕ
  nx : ℕ → ℕ
  nu : ℕ → ℕ
  nb : ℕ → ℕ
  nbx : ℕ → ℕ
  nbu : ℕ → ℕ
  ng : ℕ → ℕ
  ns : ℕ → ℕ
  nbxe : ℕ → ℕ := fun _ => 0
  nbue : ℕ → ℕ := fun _ => 0
  nge : ℕ → ℕ := fun _ => 0

/-- the invariant kept by the dims API (theorem `dim_nb_eq_nbx_add_nbu`) -/
def QpDim.Ok (d : QpDim) : Prop := ∀ k, d.nb k = d.nbx k + d.nbu k

/-- `struct OCP_QP` (include/hpipm_d_ocp_qp.h:52-72) -/
structure OcpQp (K : Type*) where
  dim : QpDim
  BAbt : ℕ → Mat K
  RSQrq : ℕ → Mat K
  DCt : ℕ → Mat K
  b : ℕ → Vec K
  rqz : ℕ → Vec K
  d : ℕ → Vec K
  d_mask : ℕ → Vec K
  m : ℕ → Vec K
  Z : ℕ → Vec K
  idxb : ℕ → ℕ → ℕ
  idxs_rev : ℕ → ℕ → ℤ
  idxe : ℕ → ℕ → ℕ
  diag_H_flag : ℕ → ℤ

section
variable {K : Type*} [Field K]

/-- `PACK_VEC(n, v, 1, x, xi)` (BLASFEO): `x[xi+i] = v[i]`. -/
def packVec {α : Type*} (n : ℕ) (v : ℕ → α) (x : ℕ → α) (xi : ℕ) : ℕ → α := veccp n v 0 x xi
/-- `UNPACK_VEC(n, x, xi, v, 1)`: `v[i] = x[xi+i]`. -/
def unpackVec {α : Type*} (n : ℕ) (x : ℕ → α) (xi : ℕ) (v : ℕ → α) : ℕ → α := veccp n x xi v 0
/-- `PACK_MAT(m, n, v, lda, A, ai, aj)`: `A[ai+i][aj+j] = v[i+lda*j]` (column major user data). -/
def packMat {α : Type*} (m n : ℕ) (v : ℕ → α) (lda : ℕ) (A : ℕ → ℕ → α) (ai aj : ℕ) : ℕ → ℕ → α :=
  fun r c => if (ai ≤ r ∧ r < ai + m) ∧ (aj ≤ c ∧ c < aj + n) then v ((r - ai) + lda * (c - aj)) else A r c
/-- `PACK_TRAN_MAT(m, n, v, lda, A, ai, aj)`: `A[ai+j][aj+i] = v[i+lda*j]`, `i<m`, `j<n`. -/
def packTranMat {α : Type*} (m n : ℕ) (v : ℕ → α) (lda : ℕ) (A : ℕ → ℕ → α) (ai aj : ℕ) : ℕ → ℕ → α :=
  fun r c => if (ai ≤ r ∧ r < ai + n) ∧ (aj ≤ c ∧ c < aj + m) then v ((c - aj) + lda * (r - ai)) else A r c
/-- `CVT_STRMAT2MAT(m, n, A, ai, aj, v, ldb)`: `v[i+ldb*j] = A[ai+i][aj+j]`. -/
def unpackMat {α : Type*} (m n : ℕ) (A : ℕ → ℕ → α) (ai aj : ℕ) (v : ℕ → α) (ldb : ℕ) : ℕ → α :=
  fun p => if p % ldb < m ∧ p / ldb < n then A (ai + p % ldb) (aj + p / ldb) else v p
/-- `CVT_TRAN_STRMAT2MAT(m, n, A, ai, aj, v, ldb)`: `v[j+ldb*i] = A[ai+i][aj+j]`, `i<m`, `j<n`. -/
def unpackTranMat {α : Type*} (m n : ℕ) (A : ℕ → ℕ → α) (ai aj : ℕ) (v : ℕ → α) (ldb : ℕ) : ℕ → α :=
  fun p => if p % ldb < n ∧ p / ldb < m then A (ai + p / ldb) (aj + p % ldb) else v p
/-- negation in place of a user array, `for(i=0; i<n; i++) v[i] = -v[i]` (e.g. x_ocp_qp.c:2204-2207) -/
def negArr (n : ℕ) (v : ℕ → K) : ℕ → K := fun i => if i < n then - v i else v i

/-- numeric fields with both a setter and a getter -/
inductive RField
  | A | B | b | Q | S | R | q | r
  | lb | lb_mask | lbx | lbx_mask | lbu | lbu_mask
  | ub | ub_mask | ubx | ubx_mask | ubu | ubu_mask
  | C | D | lg | lg_mask | ug | ug_mask
  | Zl | Zu | zl | zu
  | lls | lls_mask | lus | lus_mask
  deriving DecidableEq, Repr

namespace OcpQp

/-- OCP_QP_SET_A .. OCP_QP_SET_LUS_MASK, ocp_qp/x_ocp_qp.c:1035-1327 (dynamics, cost, boxes),
1427-1557 (general constraints, slack penalties), 1682-1736 (slack bounds and masks). -/
def setR (f : RField) (k : ℕ) (v : ℕ → K) (qp : OcpQp K) : OcpQp K :=
  let nx := qp.dim.nx k; let nx1 := qp.dim.nx (k + 1); let nu := qp.dim.nu k
  let nb := qp.dim.nb k; let nbx := qp.dim.nbx k; let nbu := qp.dim.nbu k
  let ng := qp.dim.ng k; let ns := qp.dim.ns k
  let setD := fun (x : Vec K) => { qp with d := upd qp.d k x }
  let setMask := fun (x : Vec K) => { qp with d_mask := upd qp.d_mask k x }
  let setRqz := fun (x : Vec K) => { qp with rqz := upd qp.rqz k x }
  let d := qp.d k; let mk := qp.d_mask k
  match f with
  | .A => { qp with BAbt := upd qp.BAbt k (packTranMat nx1 nx v nx1 (qp.BAbt k) nu 0) }
  | .B => { qp with BAbt := upd qp.BAbt k (packTranMat nx1 nu v nx1 (qp.BAbt k) 0 0) }
  | .b => { qp with
      BAbt := upd qp.BAbt k (packTranMat nx1 1 v nx1 (qp.BAbt k) (nu + nx) 0)
      b := upd qp.b k (packVec nx1 v (qp.b k) 0) }
  | .Q => { qp with RSQrq := upd qp.RSQrq k (packMat nx nx v nx (qp.RSQrq k) nu nu) }
  | .S => { qp with RSQrq := upd qp.RSQrq k (packTranMat nu nx v nu (qp.RSQrq k) nu 0) }
  | .R => { qp with RSQrq := upd qp.RSQrq k (packMat nu nu v nu (qp.RSQrq k) 0 0) }
  | .q => { qp with
      RSQrq := upd qp.RSQrq k (packTranMat nx 1 v nx (qp.RSQrq k) (nu + nx) nu)
      rqz := upd qp.rqz k (packVec nx v (qp.rqz k) nu) }
  | .r => { qp with
      RSQrq := upd qp.RSQrq k (packTranMat nu 1 v nu (qp.RSQrq k) (nu + nx) 0)
      rqz := upd qp.rqz k (packVec nu v (qp.rqz k) 0) }
  | .lb => setD (packVec nb v d 0)
  | .lb_mask => setMask (packVec nb v mk 0)
  | .lbx => setD (packVec nbx v d nbu)
  | .lbx_mask => setMask (packVec nbx v mk nbu)
  | .lbu => setD (packVec nbu v d 0)
  | .lbu_mask => setMask (packVec nbu v mk 0)
  | .ub => setD (vecsc nb (-1) (packVec nb v d (nb + ng)) (nb + ng))
  | .ub_mask => setMask (packVec nb v mk (nb + ng))
  | .ubx => setD (vecsc nbx (-1) (packVec nbx v d (nb + ng + nbu)) (nb + ng + nbu))
  | .ubx_mask => setMask (packVec nbx v mk (nb + ng + nbu))
  | .ubu => setD (vecsc nbu (-1) (packVec nbu v d (nb + ng)) (nb + ng))
  | .ubu_mask => setMask (packVec nbu v mk (nb + ng))
  | .C => { qp with DCt := upd qp.DCt k (packTranMat ng nx v ng (qp.DCt k) nu 0) }
  | .D => { qp with DCt := upd qp.DCt k (packTranMat ng nu v ng (qp.DCt k) 0 0) }
  | .lg => setD (packVec ng v d nb)
  | .lg_mask => setMask (packVec ng v mk nb)
  | .ug => setD (vecsc ng (-1) (packVec ng v d (2 * nb + ng)) (2 * nb + ng))
  | .ug_mask => setMask (packVec ng v mk (2 * nb + ng))
  | .Zl => { qp with Z := upd qp.Z k (packVec ns v (qp.Z k) 0) }
  | .Zu => { qp with Z := upd qp.Z k (packVec ns v (qp.Z k) ns) }
  | .zl => setRqz (packVec ns v (qp.rqz k) (nu + nx))
  | .zu => setRqz (packVec ns v (qp.rqz k) (nu + nx + ns))
  | .lls => setD (packVec ns v d (2 * nb + 2 * ng))
  | .lls_mask => setMask (packVec ns v mk (2 * nb + 2 * ng))
  | .lus => setD (packVec ns v d (2 * nb + 2 * ng + ns))
  | .lus_mask => setMask (packVec ns v mk (2 * nb + 2 * ng + ns))

/-- OCP_QP_GET_A .. OCP_QP_GET_LUS_MASK, ocp_qp/x_ocp_qp.c:2064-2670; `out` is the user's output
array, returned with the written entries replaced. -/
def getR (f : RField) (k : ℕ) (qp : OcpQp K) (out : ℕ → K) : ℕ → K :=
  let nx := qp.dim.nx k; let nx1 := qp.dim.nx (k + 1); let nu := qp.dim.nu k
  let nb := qp.dim.nb k; let nbx := qp.dim.nbx k; let nbu := qp.dim.nbu k
  let ng := qp.dim.ng k; let ns := qp.dim.ns k
  let d := qp.d k; let mk := qp.d_mask k
  match f with
  | .A => unpackTranMat nx nx1 (qp.BAbt k) nu 0 out nx1
  | .B => unpackTranMat nu nx1 (qp.BAbt k) 0 0 out nx1
  | .b => unpackVec nx1 (qp.b k) 0 out
  | .Q => unpackMat nx nx (qp.RSQrq k) nu nu out nx
  | .S => unpackTranMat nx nu (qp.RSQrq k) nu 0 out nu
  | .R => unpackMat nu nu (qp.RSQrq k) 0 0 out nu
  | .q => unpackVec nx (qp.rqz k) nu out
  | .r => unpackVec nu (qp.rqz k) 0 out
  | .lb => unpackVec nb d 0 out
  | .lb_mask => unpackVec nb mk 0 out
  | .lbx => unpackVec nbx d nbu out
  | .lbx_mask => unpackVec nbx mk nbu out
  | .lbu => unpackVec nbu d 0 out
  | .lbu_mask => unpackVec nbu mk 0 out
  | .ub => negArr nb (unpackVec nb d (nb + ng) out)
  | .ub_mask => unpackVec nb mk (nb + ng) out
  | .ubx => negArr nbx (unpackVec nbx d (nb + ng + nbu) out)
  | .ubx_mask => unpackVec nbx mk (nb + ng + nbu) out
  | .ubu => negArr nbu (unpackVec nbu d (nb + ng) out)
  | .ubu_mask => unpackVec nbu mk (nb + ng) out
  | .C => unpackTranMat nx ng (qp.DCt k) nu 0 out ng
  | .D => unpackTranMat nu ng (qp.DCt k) 0 0 out ng
  | .lg => unpackVec ng d nb out
  | .lg_mask => unpackVec ng mk nb out
  | .ug => negArr ng (unpackVec ng d (2 * nb + ng) out)
  | .ug_mask => unpackVec ng mk (2 * nb + ng) out
  | .Zl => unpackVec ns (qp.Z k) 0 out
  | .Zu => unpackVec ns (qp.Z k) ns out
  | .zl => unpackVec ns (qp.rqz k) (nu + nx) out
  | .zu => unpackVec ns (qp.rqz k) (nu + nx + ns) out
  | .lls => unpackVec ns d (2 * nb + 2 * ng) out
  | .lls_mask => unpackVec ns mk (2 * nb + 2 * ng) out
  | .lus => unpackVec ns d (2 * nb + 2 * ng + ns) out
  | .lus_mask => unpackVec ns mk (2 * nb + 2 * ng + ns) out

/-- OCP_QP_SET_EL_LBX, ocp_qp/x_ocp_qp.c:1179-1188 -/
def setElLbx (k i : ℕ) (e : K) (qp : OcpQp K) : OcpQp K :=
  { qp with d := upd qp.d k (upd (qp.d k) (qp.dim.nbu k + i) e) }
/-- OCP_QP_SET_EL_UBX, ocp_qp/x_ocp_qp.c:1271-1282 -/
def setElUbx (k i : ℕ) (e : K) (qp : OcpQp K) : OcpQp K :=
  { qp with d := upd qp.d k (upd (qp.d k) (qp.dim.nb k + qp.dim.ng k + qp.dim.nbu k + i) (-e)) }

/-- fields of the complementarity targets (setters only) -/
inductive MField
  | lb | lbx | lbu | ub | ubx | ubu | lg | ug | lls | lus
  deriving DecidableEq, Repr

/-- OCP_QP_SET_M_LB .. OCP_QP_SET_M_LUS, ocp_qp/x_ocp_qp.c:1902-2030 -/
def setM (f : MField) (k : ℕ) (v : ℕ → K) (qp : OcpQp K) : OcpQp K :=
  let nb := qp.dim.nb k; let nbx := qp.dim.nbx k; let nbu := qp.dim.nbu k
  let ng := qp.dim.ng k; let ns := qp.dim.ns k
  let m := qp.m k
  let set := fun (x : Vec K) => { qp with m := upd qp.m k x }
  match f with
  | .lb => set (packVec nb v m 0)
  | .lbx => set (packVec nbx v m nbu)
  | .lbu => set (packVec nbu v m 0)
  | .ub => set (packVec nb v m (nb + ng))
  | .ubx => set (packVec nbx v m (nb + ng + nbu))
  | .ubu => set (packVec nbu v m (nb + ng))
  | .lg => set (packVec ng v m nb)
  | .ug => set (packVec ng v m (2 * nb + ng))
  | .lls => set (packVec ns v m (2 * nb + 2 * ng))
  | .lus => set (packVec ns v m (2 * nb + 2 * ng + ns))

/-- OCP_QP_SET_M_ALL, ocp_qp/x_ocp_qp.c:1883-1899 -/
def setMAll (v : K) (qp : OcpQp K) : OcpQp K :=
  { qp with
    m := fun k => if k ≤ qp.dim.N then
      vecse (2 * qp.dim.nb k + 2 * qp.dim.ng k + 2 * qp.dim.ns k) v (qp.m k) 0 else qp.m k }

/-- OCP_QP_SET_IDXB, ocp_qp/x_ocp_qp.c:1329-1340 -/
def setIdxb (k : ℕ) (v : ℕ → ℕ) (qp : OcpQp K) : OcpQp K :=
  { qp with idxb := upd qp.idxb k (loop (qp.dim.nb k) (fun i a => upd a i (v i)) (qp.idxb k)) }
/-- OCP_QP_SET_IDXBX, ocp_qp/x_ocp_qp.c:1343-1358 -/
def setIdxbx (k : ℕ) (v : ℕ → ℕ) (qp : OcpQp K) : OcpQp K :=
  { qp with
    idxb := upd qp.idxb k (loop (qp.dim.nbx k)
        (fun i a => upd a (qp.dim.nbu k + i) (qp.dim.nu k + v i)) (qp.idxb k)) }
/-- OCP_QP_SET_IDXBU, ocp_qp/x_ocp_qp.c:1387-1400 -/
def setIdxbu (k : ℕ) (v : ℕ → ℕ) (qp : OcpQp K) : OcpQp K :=
  { qp with idxb := upd qp.idxb k (loop (qp.dim.nbu k) (fun i a => upd a i (v i)) (qp.idxb k)) }
/-- OCP_QP_GET_IDXB, ocp_qp/x_ocp_qp.c:2345-2356 -/
def getIdxb (k : ℕ) (qp : OcpQp K) (out : ℕ → ℕ) : ℕ → ℕ :=
  loop (qp.dim.nb k) (fun i a => upd a i (qp.idxb k i)) out

/-- One row of the J setters: `jj0 = -1; for(jj=0; jj<n; jj++) if(jj0==-1 & J[ii+jj*ld]!=0.0)
{ jj0 = jj; a[pos] = val(jj); }` (ocp_qp/x_ocp_qp.c:1370-1382 and the same code in JBU, JSBU, JSBX,
JSG, where the test `jj0==-1` is in the loop condition). -/
def scanRow {α : Type*} [DecidableEq K] (n : ℕ) (J : ℕ → K) (ii ld pos : ℕ) (val : ℕ → α)
    (a : ℕ → α) : ℕ → α :=
  (loop n (fun jj (s : Option ℕ × (ℕ → α)) =>
    if s.1 = none ∧ J (ii + jj * ld) ≠ 0 then (some jj, upd s.2 pos (val jj)) else s) (none, a)).2

/-- OCP_QP_SET_JBX, ocp_qp/x_ocp_qp.c:1361-1384 -/
def setJbx [DecidableEq K] (k : ℕ) (J : ℕ → K) (qp : OcpQp K) : OcpQp K :=
  { qp with
    idxb := upd qp.idxb k (loop (qp.dim.nbx k) (fun ii a =>
      scanRow (qp.dim.nx k) J ii (qp.dim.nbx k) (qp.dim.nbu k + ii) (fun jj => qp.dim.nu k + jj) a)
      (qp.idxb k)) }
/-- OCP_QP_SET_JBU, ocp_qp/x_ocp_qp.c:1403-1424 -/
def setJbu [DecidableEq K] (k : ℕ) (J : ℕ → K) (qp : OcpQp K) : OcpQp K :=
  { qp with
    idxb := upd qp.idxb k (loop (qp.dim.nbu k) (fun ii a =>
      scanRow (qp.dim.nu k) J ii (qp.dim.nbu k) ii (fun jj => jj) a) (qp.idxb k)) }

/-- OCP_QP_SET_IDXS, ocp_qp/x_ocp_qp.c:1559-1572 -/
def setIdxs (k : ℕ) (v : ℕ → ℕ) (qp : OcpQp K) : OcpQp K :=
  { qp with
    idxs_rev := upd qp.idxs_rev k
      (loop (qp.dim.ns k) (fun i a => upd a (v i) (i : ℤ)) (qp.idxs_rev k)) }
/-- OCP_QP_SET_IDXS_REV, ocp_qp/x_ocp_qp.c:1575-1589 -/
def setIdxsRev (k : ℕ) (v : ℕ → ℤ) (qp : OcpQp K) : OcpQp K :=
  { qp with
    idxs_rev := upd qp.idxs_rev k
      (loop (qp.dim.nb k + qp.dim.ng k) (fun i a => upd a i (v i)) (qp.idxs_rev k)) }
/-- OCP_QP_GET_IDXS, ocp_qp/x_ocp_qp.c:2554-2574 -/
def getIdxs (k : ℕ) (qp : OcpQp K) (out : ℕ → ℕ) : ℕ → ℕ :=
  loop (qp.dim.nb k + qp.dim.ng k) (fun i a =>
    if qp.idxs_rev k i ≠ -1 then upd a (qp.idxs_rev k i).toNat i else a) out
/-- OCP_QP_GET_IDXS_REV, ocp_qp/x_ocp_qp.c:2577-2592 -/
def getIdxsRev (k : ℕ) (qp : OcpQp K) (out : ℕ → ℤ) : ℕ → ℤ :=
  loop (qp.dim.nb k + qp.dim.ng k) (fun i a => upd a i (qp.idxs_rev k i)) out

/-- OCP_QP_SET_JSBU (rows 0..nbu-1), JSBX (rows nbu..), JSG (rows nb..),
ocp_qp/x_ocp_qp.c:1592-1679; `n` rows, first row `off`. -/
def setJs [DecidableEq K] (k n off : ℕ) (J : ℕ → K) (qp : OcpQp K) : OcpQp K :=
  { qp with
    idxs_rev := upd qp.idxs_rev k (loop n (fun ii a =>
      scanRow (qp.dim.ns k) J ii n (off + ii) (fun jj => (jj : ℤ)) a) (qp.idxs_rev k)) }
/-- ocp_qp/x_ocp_qp.c:1592-1619 -/
def setJsbu [DecidableEq K] (k : ℕ) (J : ℕ → K) (qp : OcpQp K) := setJs k (qp.dim.nbu k) 0 J qp
/-- ocp_qp/x_ocp_qp.c:1622-1649 -/
def setJsbx [DecidableEq K] (k : ℕ) (J : ℕ → K) (qp : OcpQp K) :=
  setJs k (qp.dim.nbx k) (qp.dim.nbu k) J qp
/-- ocp_qp/x_ocp_qp.c:1652-1679 -/
def setJsg [DecidableEq K] (k : ℕ) (J : ℕ → K) (qp : OcpQp K) :=
  setJs k (qp.dim.ng k) (qp.dim.nb k) J qp

/-- loop of OCP_QP_SET_JBUE / JBXE / JGE, ocp_qp/x_ocp_qp.c:1805-1871: `n` flags, `ne` declared
equalities, list positions from `pos`, constraint numbers from `base`.
The condition is `idx<ne | J[ii]!=0.0`. Returns (idx, idxe). -/
def markLoop [DecidableEq K] (n ne pos base : ℕ) (J : ℕ → K) (a : ℕ → ℕ) : ℕ × (ℕ → ℕ) :=
  loop n (fun ii (s : ℕ × (ℕ → ℕ)) =>
    if s.1 < ne ∨ J ii ≠ 0 then (s.1 + 1, upd s.2 (pos + s.1) (base + ii)) else s) (0, a)
/-- OCP_QP_SET_JBUE, ocp_qp/x_ocp_qp.c:1805-1823 -/
def setJbue [DecidableEq K] (k : ℕ) (J : ℕ → K) (qp : OcpQp K) : OcpQp K :=
  { qp with idxe := upd qp.idxe k (markLoop (qp.dim.nbu k) (qp.dim.nbue k) 0 0 J (qp.idxe k)).2 }
/-- OCP_QP_SET_JBXE, ocp_qp/x_ocp_qp.c:1826-1846 -/
def setJbxe [DecidableEq K] (k : ℕ) (J : ℕ → K) (qp : OcpQp K) : OcpQp K :=
  { qp with
    idxe := upd qp.idxe k
      (markLoop (qp.dim.nbx k) (qp.dim.nbxe k) (qp.dim.nbue k) (qp.dim.nbu k) J (qp.idxe k)).2 }
/-- OCP_QP_SET_JGE, ocp_qp/x_ocp_qp.c:1849-1871 -/
def setJge [DecidableEq K] (k : ℕ) (J : ℕ → K) (qp : OcpQp K) : OcpQp K :=
  { qp with
    idxe := upd qp.idxe k
      (markLoop (qp.dim.ng k) (qp.dim.nge k) (qp.dim.nbue k + qp.dim.nbxe k)
        (qp.dim.nbu k + qp.dim.nbx k) J (qp.idxe k)).2 }
/-- OCP_QP_SET_IDXBUE / IDXBXE / IDXGE, ocp_qp/x_ocp_qp.c:1754-1802 -/
def setIdxbue (k : ℕ) (v : ℕ → ℕ) (qp : OcpQp K) : OcpQp K :=
  { qp with idxe := upd qp.idxe k (loop (qp.dim.nbue k) (fun i a => upd a i (v i)) (qp.idxe k)) }
/-- ocp_qp/x_ocp_qp.c:1770-1784 -/
def setIdxbxe (k : ℕ) (v : ℕ → ℕ) (qp : OcpQp K) : OcpQp K :=
  { qp with
    idxe := upd qp.idxe k (loop (qp.dim.nbxe k)
        (fun i a => upd a (qp.dim.nbue k + i) (qp.dim.nbu k + v i)) (qp.idxe k)) }
/-- ocp_qp/x_ocp_qp.c:1787-1802 -/
def setIdxge (k : ℕ) (v : ℕ → ℕ) (qp : OcpQp K) : OcpQp K :=
  { qp with
    idxe := upd qp.idxe k (loop (qp.dim.nge k)
        (fun i a => upd a (qp.dim.nbue k + qp.dim.nbxe k + i) (qp.dim.nbu k + qp.dim.nbx k + v i))
      (qp.idxe k)) }
/-- OCP_QP_GET_IDXE, ocp_qp/x_ocp_qp.c:2359-2371 -/
def getIdxe (k : ℕ) (qp : OcpQp K) (out : ℕ → ℕ) : ℕ → ℕ :=
  loop (qp.dim.nbxe k + qp.dim.nbue k + qp.dim.nge k) (fun i a => upd a i (qp.idxe k i)) out

/-- number of inequality rows `2*nb+2*ng+2*ns` of a stage -/
def nct (qp : OcpQp K) (k : ℕ) : ℕ := 2 * qp.dim.nb k + 2 * qp.dim.ng k + 2 * qp.dim.ns k

/-- OCP_QP_SET_ALL_ZERO, ocp_qp/x_ocp_qp.c:431-476.  The `for ii` loops touch only stage `ii`, they
are written pointwise. -/
def setAllZero (qp : OcpQp K) : OcpQp K :=
  let D := qp.dim
  { qp with
    BAbt := fun k => if k < D.N then gese (D.nu k + D.nx k + 1) (D.nx (k+1)) 0 (qp.BAbt k) 0 0 else qp.BAbt k
    b := fun k => if k < D.N then vecse (D.nx (k+1)) 0 (qp.b k) 0 else qp.b k
    RSQrq := fun k => if k ≤ D.N then gese (D.nu k + D.nx k + 1) (D.nu k + D.nx k) 0 (qp.RSQrq k) 0 0
      else qp.RSQrq k
    Z := fun k => if k ≤ D.N then vecse (2 * D.ns k) 0 (qp.Z k) 0 else qp.Z k
    rqz := fun k => if k ≤ D.N then vecse (D.nu k + D.nx k + 2 * D.ns k) 0 (qp.rqz k) 0 else qp.rqz k
    idxb := fun k => if k ≤ D.N then loop (D.nb k) (fun j a => upd a j 0) (qp.idxb k) else qp.idxb k
    DCt := fun k => if k ≤ D.N then gese (D.nu k + D.nx k) (D.ng k) 0 (qp.DCt k) 0 0 else qp.DCt k
    d := fun k => if k ≤ D.N then vecse (qp.nct k) 0 (qp.d k) 0 else qp.d k
    d_mask := fun k => if k ≤ D.N then vecse (qp.nct k) 1 (qp.d_mask k) 0 else qp.d_mask k
    m := fun k => if k ≤ D.N then vecse (qp.nct k) 0 (qp.m k) 0 else qp.m k
    idxs_rev := fun k => if k ≤ D.N then loop (D.ns k) (fun j a => upd a j (-1)) (qp.idxs_rev k)
      else qp.idxs_rev k
    idxe := fun k => if k ≤ D.N then loop (D.nbue k + D.nbxe k + D.nge k) (fun j a => upd a j 0) (qp.idxe k)
      else qp.idxe k
    diag_H_flag := fun k => if k ≤ D.N then 0 else qp.diag_H_flag k }

/-- OCP_QP_SET_RHS_ZERO, ocp_qp/x_ocp_qp.c:479-511 -/
def setRhsZero (qp : OcpQp K) : OcpQp K :=
  let D := qp.dim
  { qp with
    b := fun k => if k < D.N then vecse (D.nx (k+1)) 0 (qp.b k) 0 else qp.b k
    rqz := fun k => if k ≤ D.N then vecse (D.nu k + D.nx k + 2 * D.ns k) 0 (qp.rqz k) 0 else qp.rqz k
    d := fun k => if k ≤ D.N then vecse (qp.nct k) 0 (qp.d k) 0 else qp.d k
    m := fun k => if k ≤ D.N then vecse (qp.nct k) 0 (qp.m k) 0 else qp.m k }

/-- OCP_QP_COPY_ALL, ocp_qp/x_ocp_qp.c:380-427; the sizes are those of the source. -/
def copyAll (src dst : OcpQp K) : OcpQp K :=
  let D := src.dim
  { dst with
    BAbt := fun k => if k < D.N then
      gecp (D.nu k + D.nx k + 1) (D.nx (k+1)) (src.BAbt k) 0 0 (dst.BAbt k) 0 0 else dst.BAbt k
    b := fun k => if k < D.N then veccp (D.nx (k+1)) (src.b k) 0 (dst.b k) 0 else dst.b k
    RSQrq := fun k => if k ≤ D.N then
      gecp (D.nu k + D.nx k + 1) (D.nu k + D.nx k) (src.RSQrq k) 0 0 (dst.RSQrq k) 0 0 else dst.RSQrq k
    Z := fun k => if k ≤ D.N then veccp (2 * D.ns k) (src.Z k) 0 (dst.Z k) 0 else dst.Z k
    rqz := fun k => if k ≤ D.N then
      veccp (D.nu k + D.nx k + 2 * D.ns k) (src.rqz k) 0 (dst.rqz k) 0 else dst.rqz k
    idxb := fun k => if k ≤ D.N then loop (D.nb k) (fun j a => upd a j (src.idxb k j)) (dst.idxb k)
      else dst.idxb k
    DCt := fun k => if k ≤ D.N then
      gecp (D.nu k + D.nx k) (D.ng k) (src.DCt k) 0 0 (dst.DCt k) 0 0 else dst.DCt k
    d := fun k => if k ≤ D.N then veccp (src.nct k) (src.d k) 0 (dst.d k) 0 else dst.d k
    d_mask := fun k => if k ≤ D.N then veccp (src.nct k) (src.d_mask k) 0 (dst.d_mask k) 0 else dst.d_mask k
    m := fun k => if k ≤ D.N then veccp (src.nct k) (src.m k) 0 (dst.m k) 0 else dst.m k
    idxs_rev := fun k => if k ≤ D.N then
      loop (D.nb k + D.ng k) (fun j a => upd a j (src.idxs_rev k j)) (dst.idxs_rev k) else dst.idxs_rev k
    idxe := fun k => if k ≤ D.N then
      loop (D.nbue k + D.nbxe k + D.nge k) (fun j a => upd a j (src.idxe k j)) (dst.idxe k) else dst.idxe k
    diag_H_flag := fun k => if k ≤ D.N then src.diag_H_flag k else dst.diag_H_flag k }

/-- arguments of OCP_QP_SET_ALL (column major user arrays) -/
structure AllArgs (K : Type*) where
  (A B b Q S R q r lbx ubx lbu ubu C D lg ug Zl Zu zl zu ls us : ℕ → ℕ → K)
  (idxbx idxbu : ℕ → ℕ → ℕ)
  (idxs : Option (ℕ → ℕ → ℕ))
  (idxs_rev : Option (ℕ → ℕ → ℤ))

/-- OCP_QP_SET_ALL, ocp_qp/x_ocp_qp.c:514-621; the per-stage loops are written pointwise, the
order of the writes within a stage is that of the code.  `none` is a null pointer. -/
def setAll (a : AllArgs K) (qp : OcpQp K) : OcpQp K :=
  let D := qp.dim
  { qp with
    BAbt := fun k => if k < D.N then
        packTranMat (D.nx (k+1)) 1 (a.b k) (D.nx (k+1))
          (packTranMat (D.nx (k+1)) (D.nx k) (a.A k) (D.nx (k+1))
            (packTranMat (D.nx (k+1)) (D.nu k) (a.B k) (D.nx (k+1)) (qp.BAbt k) 0 0) (D.nu k) 0)
          (D.nu k + D.nx k) 0
      else qp.BAbt k
    b := fun k => if k < D.N then packVec (D.nx (k+1)) (a.b k) (qp.b k) 0 else qp.b k
    RSQrq := fun k => if k ≤ D.N then
        packTranMat (D.nx k) 1 (a.q k) (D.nx k)
          (packTranMat (D.nu k) 1 (a.r k) (D.nu k)
            (packMat (D.nx k) (D.nx k) (a.Q k) (D.nx k)
              (packTranMat (D.nu k) (D.nx k) (a.S k) (D.nu k)
                (packMat (D.nu k) (D.nu k) (a.R k) (D.nu k) (qp.RSQrq k) 0 0) (D.nu k) 0)
              (D.nu k) (D.nu k))
            (D.nu k + D.nx k) 0)
          (D.nu k + D.nx k) (D.nu k)
      else qp.RSQrq k
    rqz := fun k => if k ≤ D.N then
        let x := packVec (D.nx k) (a.q k) (packVec (D.nu k) (a.r k) (qp.rqz k) 0) (D.nu k)
        if 0 < D.ns k then
          packVec (D.ns k) (a.zu k) (packVec (D.ns k) (a.zl k) x (D.nu k + D.nx k)) (D.nu k + D.nx k + D.ns k)
        else x
      else qp.rqz k
    idxb := fun k => if k ≤ D.N then
        loop (D.nbx k) (fun j x => upd x (D.nbu k + j) (D.nu k + a.idxbx k j))
          (loop (D.nbu k) (fun j x => upd x j (a.idxbu k j)) (qp.idxb k))
      else qp.idxb k
    DCt := fun k => if k ≤ D.N then
        if 0 < D.ng k then
          packTranMat (D.ng k) (D.nx k) (a.C k) (D.ng k)
            (packTranMat (D.ng k) (D.nu k) (a.D k) (D.ng k) (qp.DCt k) 0 0) (D.nu k) 0
        else qp.DCt k
      else qp.DCt k
    d := fun k => if k ≤ D.N then
        let x0 := qp.d k
        let x1 := if 0 < D.nbu k then
            packVec (D.nbu k) (a.ubu k) (packVec (D.nbu k) (a.lbu k) x0 0) (D.nb k + D.ng k)
          else x0
        let x2 := if 0 < D.nbx k then
            packVec (D.nbx k) (a.ubx k) (packVec (D.nbx k) (a.lbx k) x1 (D.nbu k))
              (D.nb k + D.ng k + D.nbu k)
          else x1
        let x3 := if 0 < D.nb k then vecsc (D.nb k) (-1) x2 (D.nb k + D.ng k) else x2
        let x4 := if 0 < D.ng k then
            vecsc (D.ng k) (-1) (packVec (D.ng k) (a.ug k) (packVec (D.ng k) (a.lg k) x3 (D.nb k))
              (2 * D.nb k + D.ng k)) (2 * D.nb k + D.ng k)
          else x3
        if 0 < D.ns k then
          packVec (D.ns k) (a.us k) (packVec (D.ns k) (a.ls k) x4 (2 * D.nb k + 2 * D.ng k))
            (2 * D.nb k + 2 * D.ng k + D.ns k)
        else x4
      else qp.d k
    m := fun k => if k ≤ D.N then
        let x0 := qp.m k
        let x1 := if 0 < D.nb k then
            vecse (D.nb k) 0 (vecse (D.nb k) 0 x0 0) (D.nb k + D.ng k) else x0
        let x2 := if 0 < D.ng k then
            vecse (D.ng k) 0 (vecse (D.ng k) 0 x1 (D.nb k)) (2 * D.nb k + D.ng k) else x1
        if 0 < D.ns k then
          vecse (D.ns k) 0 (vecse (D.ns k) 0 x2 (2 * D.nb k + 2 * D.ng k)) (2 * D.nb k + 2 * D.ng k + D.ns k)
        else x2
      else qp.m k
    Z := fun k => if k ≤ D.N then
        if 0 < D.ns k then packVec (D.ns k) (a.Zu k) (packVec (D.ns k) (a.Zl k) (qp.Z k) 0) (D.ns k)
        else qp.Z k
      else qp.Z k
    idxs_rev := fun k => if k ≤ D.N then
        let x := match a.idxs with
          | some s => if 0 < D.ns k then
              loop (D.ns k) (fun j x => upd x (s k j) (j : ℤ)) (qp.idxs_rev k) else qp.idxs_rev k
          | none => qp.idxs_rev k
        match a.idxs_rev with
        | some r => loop (D.nb k + D.ng k) (fun j x => upd x j (r k j)) x
        | none => x
      else qp.idxs_rev k }

/-- what OCP_QP_SET dispatches to for the numeric fields: name comparison chain,
ocp_qp/x_ocp_qp.c:736-1004 (the integer fields, selection matrices and targets `m_*` are dispatched
in the same way and are not part of this function). `none`: the chain does not select a numeric
setter (unknown names end the process, line 1003). -/
def fieldOfName : String → Option RField
  | "A" => some .A | "B" => some .B | "Q" => some .Q | "S" => some .S | "R" => some .R
  | "C" => some .C | "D" => some .D | "b" => some .b | "q" => some .q | "r" => some .r
  | "lb" => some .lb | "lb_mask" => some .lb_mask
  | "lbu" => some .lbu | "lu" => some .lbu | "lbu_mask" => some .lbu_mask
  | "lbx" => some .lbx | "lx" => some .lbx | "lbx_mask" => some .lbx_mask
  | "ub" => some .ub | "ub_mask" => some .ub_mask
  | "ubu" => some .ubu | "uu" => some .ubu | "ubu_mask" => some .ubu_mask
  | "ubx" => some .ubx | "ux" => some .ubx | "ubx_mask" => some .ubx_mask
  | "lg" => some .lg | "lg_mask" => some .lg_mask | "ug" => some .ug | "ug_mask" => some .ug_mask
  | "Zl" => some .Zl | "Zu" => some .Zu | "zl" => some .zl | "zu" => some .zu
  | "lls" => some .lls | "lls_mask" => some .lls_mask
  | "lus" => some .lus | "lus_mask" => some .lus_mask
  | _ => none

end OcpQp
end
end Hpipm
