/-
Model of the dense QP data object, dense_qp/x_dense_qp.c.

Simplifications as in OcpQp.lean: reals instead of floating point numbers, arrays are total functions
(the code touches only the ranges appearing below), bound indices are naturals.
-/
import Verif.OcpQpProps

namespace Hpipm

/-- `struct DENSE_QP_DIM` (include/hpipm_d_dense_qp_dim.h): the sizes used by the dense QP object -/
structure DDim where
  nv : ℕ
  ne : ℕ
  nb : ℕ
  ng : ℕ
  ns : ℕ
  deriving DecidableEq

/-- `2*nb+2*ng+2*ns` (dense_qp/x_dense_qp.c:182) -/
def DDim.nct (D : DDim) : ℕ := 2 * D.nb + 2 * D.ng + 2 * D.ns

/-- `struct DENSE_QP` (include/hpipm_d_dense_qp.h) -/
structure DenseQp (K : Type*) where
  dim : DDim
  Hv : Mat K
  A : Mat K
  Ct : Mat K
  gz : Vec K
  b : Vec K
  d : Vec K
  d_mask : Vec K
  m : Vec K
  Z : Vec K
  idxb : ℕ → ℕ
  idxs_rev : ℕ → ℤ

/-- numeric fields of the dense QP that have a setter and a getter -/
inductive DField
  | H | A | C | g | b
  | lb | lb_mask | ub | ub_mask | lg | lg_mask | ug | ug_mask
  | Zl | Zu | zl | zu | lls | lls_mask | lus | lus_mask
  deriving DecidableEq, Repr

/-- complementarity targets (setters only) -/
inductive DMField
  | lb | ub | lg | ug | lls | lus
  deriving DecidableEq, Repr

namespace DenseQp
section
variable {K : Type*} [Field K]

/-- DENSE_QP_CREATE, dense_qp/x_dense_qp.c:77-203: the memory is zeroed (lines 83-84), `idxs_rev` is
set to -1 and the mask to one ("default initialization"). Places of the arrays: see DenseMem.lean. -/
def create (D : DDim) : DenseQp K where
  dim := D
  Hv := fun _ _ => 0
  A := fun _ _ => 0
  Ct := fun _ _ => 0
  gz := fun _ => 0
  b := fun _ => 0
  d := fun _ => 0
  d_mask := vecse D.nct 1 (fun _ => 0) 0
  m := fun _ => 0
  Z := fun _ => 0
  idxb := fun _ => 0
  idxs_rev := loop (D.nb + D.ng) (fun i a => upd a i (-1)) (fun _ => 0)

/-- DENSE_QP_COPY_ALL, dense_qp/x_dense_qp.c:207-235; the sizes are those of the source -/
def copyAll (src dst : DenseQp K) : DenseQp K :=
  let D := src.dim
  { dst with
    Hv := gecp (D.nv + 1) D.nv src.Hv 0 0 dst.Hv 0 0
    A := gecp D.ne D.nv src.A 0 0 dst.A 0 0
    Ct := gecp D.nv D.ng src.Ct 0 0 dst.Ct 0 0
    gz := veccp (D.nv + 2 * D.ns) src.gz 0 dst.gz 0
    b := veccp D.ne src.b 0 dst.b 0
    d := veccp D.nct src.d 0 dst.d 0
    d_mask := veccp D.nct src.d_mask 0 dst.d_mask 0
    m := veccp D.nct src.m 0 dst.m 0
    Z := veccp (2 * D.ns) src.Z 0 dst.Z 0
    idxb := loop D.nb (fun i a => upd a i (src.idxb i)) dst.idxb
    idxs_rev := loop (D.nb + D.ng) (fun i a => upd a i (src.idxs_rev i)) dst.idxs_rev }

/-- DENSE_QP_SET_ALL_ZERO, dense_qp/x_dense_qp.c:239-267 -/
def setAllZero (qp : DenseQp K) : DenseQp K :=
  let D := qp.dim
  { qp with
    Hv := gese (D.nv + 1) D.nv 0 qp.Hv 0 0
    A := gese D.ne D.nv 0 qp.A 0 0
    Ct := gese D.nv D.ng 0 qp.Ct 0 0
    gz := vecse (D.nv + 2 * D.ns) 0 qp.gz 0
    b := vecse D.ne 0 qp.b 0
    d := vecse D.nct 0 qp.d 0
    d_mask := vecse D.nct 1 qp.d_mask 0
    m := vecse D.nct 0 qp.m 0
    Z := vecse (2 * D.ns) 0 qp.Z 0
    idxb := loop D.nb (fun i a => upd a i 0) qp.idxb
    idxs_rev := loop (D.nb + D.ng) (fun i a => upd a i (-1)) qp.idxs_rev }

/-- DENSE_QP_SET_RHS_ZERO, dense_qp/x_dense_qp.c:271-291 -/
def setRhsZero (qp : DenseQp K) : DenseQp K :=
  let D := qp.dim
  { qp with
    gz := vecse (D.nv + 2 * D.ns) 0 qp.gz 0
    b := vecse D.ne 0 qp.b 0
    d := vecse D.nct 0 qp.d 0
    m := vecse D.nct 0 qp.m 0 }

/-- the mask loops: `if(v[ii]==0.0) d_mask[off+ii] = 0.0; else d_mask[off+ii] = 1.0;`
(dense_qp/x_dense_qp.c:693-714 and the same code in the other mask setters) -/
def maskLoop [DecidableEq K] (n : ℕ) (v : ℕ → K) (x : Vec K) (off : ℕ) : Vec K :=
  loop n (fun i a => upd a (off + i) (if v i = 0 then 0 else 1)) x

/-- the field setters, dense_qp/x_dense_qp.c:588-1082 -/
def setF [DecidableEq K] (f : DField) (v : ℕ → K) (qp : DenseQp K) : DenseQp K :=
  let nv := qp.dim.nv; let ne := qp.dim.ne; let nb := qp.dim.nb; let ng := qp.dim.ng; let ns := qp.dim.ns
  let setD := fun (x : Vec K) => { qp with d := x }
  let setMask := fun (x : Vec K) => { qp with d_mask := x }
  match f with
  | .H => { qp with Hv := packMat nv nv v nv qp.Hv 0 0 }
  | .A => { qp with A := packMat ne nv v ne qp.A 0 0 }
  | .C => { qp with Ct := packTranMat ng nv v ng qp.Ct 0 0 }
  | .g => { qp with gz := packVec nv v qp.gz 0 }
  | .b => { qp with b := packVec ne v qp.b 0 }
  | .lb => setD (packVec nb v qp.d 0)
  | .lb_mask => setMask (maskLoop nb v qp.d_mask 0)
  | .ub => setD (vecsc nb (-1) (packVec nb v qp.d (nb + ng)) (nb + ng))
  | .ub_mask => setMask (maskLoop nb v qp.d_mask (nb + ng))
  | .lg => setD (packVec ng v qp.d nb)
  | .lg_mask => setMask (maskLoop ng v qp.d_mask nb)
  | .ug => setD (vecsc ng (-1) (packVec ng v qp.d (2 * nb + ng)) (2 * nb + ng))
  | .ug_mask => setMask (maskLoop ng v qp.d_mask (2 * nb + ng))
  | .Zl => { qp with Z := packVec ns v qp.Z 0 }
  | .Zu => { qp with Z := packVec ns v qp.Z ns }
  | .zl => { qp with gz := packVec ns v qp.gz nv }
  | .zu => { qp with gz := packVec ns v qp.gz (nv + ns) }
  | .lls => setD (packVec ns v qp.d (2 * nb + 2 * ng))
  | .lls_mask => setMask (maskLoop ns v qp.d_mask (2 * nb + 2 * ng))
  | .lus => setD (packVec ns v qp.d (2 * nb + 2 * ng + ns))
  | .lus_mask => setMask (maskLoop ns v qp.d_mask (2 * nb + 2 * ng + ns))

/-- the field getters, dense_qp/x_dense_qp.c:1186-1534; `out` is the user's output array -/
def getF (f : DField) (qp : DenseQp K) (out : ℕ → K) : ℕ → K :=
  let nv := qp.dim.nv; let ne := qp.dim.ne; let nb := qp.dim.nb; let ng := qp.dim.ng; let ns := qp.dim.ns
  match f with
  | .H => unpackMat nv nv qp.Hv 0 0 out nv
  | .A => unpackMat ne nv qp.A 0 0 out ne
  | .C => unpackTranMat nv ng qp.Ct 0 0 out ng
  | .g => unpackVec nv qp.gz 0 out
  | .b => unpackVec ne qp.b 0 out
  | .lb => unpackVec nb qp.d 0 out
  | .lb_mask => unpackVec nb qp.d_mask 0 out
  | .ub => negArr nb (unpackVec nb qp.d (nb + ng) out)
  | .ub_mask => unpackVec nb qp.d_mask (nb + ng) out
  | .lg => unpackVec ng qp.d nb out
  | .lg_mask => unpackVec ng qp.d_mask nb out
  | .ug => negArr ng (unpackVec ng qp.d (2 * nb + ng) out)
  | .ug_mask => unpackVec ng qp.d_mask (2 * nb + ng) out
  | .Zl => unpackVec ns qp.Z 0 out
  | .Zu => unpackVec ns qp.Z ns out
  | .zl => unpackVec ns qp.gz nv out
  | .zu => unpackVec ns qp.gz (nv + ns) out
  | .lls => unpackVec ns qp.d (2 * nb + 2 * ng) out
  | .lls_mask => unpackVec ns qp.d_mask (2 * nb + 2 * ng) out
  | .lus => unpackVec ns qp.d (2 * nb + 2 * ng + ns) out
  | .lus_mask => unpackVec ns qp.d_mask (2 * nb + 2 * ng + ns) out

/-- DENSE_QP_SET_M_LB .. DENSE_QP_SET_M_LUS, dense_qp/x_dense_qp.c:1101-1182 -/
def setM (f : DMField) (v : ℕ → K) (qp : DenseQp K) : DenseQp K :=
  let nb := qp.dim.nb; let ng := qp.dim.ng; let ns := qp.dim.ns
  match f with
  | .lb => { qp with m := packVec nb v qp.m 0 }
  | .ub => { qp with m := packVec nb v qp.m (nb + ng) }
  | .lg => { qp with m := packVec ng v qp.m nb }
  | .ug => { qp with m := packVec ng v qp.m (2 * nb + ng) }
  | .lls => { qp with m := packVec ns v qp.m (2 * nb + 2 * ng) }
  | .lus => { qp with m := packVec ns v qp.m (2 * nb + 2 * ng + ns) }
/-- DENSE_QP_SET_M_ALL, dense_qp/x_dense_qp.c:1086-1097 -/
def setMAll (v : K) (qp : DenseQp K) : DenseQp K := { qp with m := vecse qp.dim.nct v qp.m 0 }

/-- DENSE_QP_SET_IDXB, dense_qp/x_dense_qp.c:641-651 -/
def setIdxb (v : ℕ → ℕ) (qp : DenseQp K) : DenseQp K :=
  { qp with idxb := loop qp.dim.nb (fun i a => upd a i (v i)) qp.idxb }
/-- DENSE_QP_GET_IDXB, dense_qp/x_dense_qp.c:1239-1249 -/
def getIdxb (qp : DenseQp K) (out : ℕ → ℕ) : ℕ → ℕ :=
  loop qp.dim.nb (fun i a => upd a i (qp.idxb i)) out
/-- DENSE_QP_SET_JB, dense_qp/x_dense_qp.c:655-675 -/
def setJb [DecidableEq K] (J : ℕ → K) (qp : DenseQp K) : DenseQp K :=
  { qp with
    idxb := loop qp.dim.nb (fun ii a =>
      OcpQp.scanRow qp.dim.nv J ii qp.dim.nb ii (fun jj => jj) a) qp.idxb }
/-- DENSE_QP_SET_IDXS, dense_qp/x_dense_qp.c:857-870 -/
def setIdxs (v : ℕ → ℕ) (qp : DenseQp K) : DenseQp K :=
  { qp with idxs_rev := loop qp.dim.ns (fun i a => upd a (v i) (i : ℤ)) qp.idxs_rev }
/-- DENSE_QP_SET_IDXS_REV, dense_qp/x_dense_qp.c:874-888 -/
def setIdxsRev (v : ℕ → ℤ) (qp : DenseQp K) : DenseQp K :=
  { qp with idxs_rev := loop (qp.dim.nb + qp.dim.ng) (fun i a => upd a i (v i)) qp.idxs_rev }
/-- DENSE_QP_GET_IDXS, dense_qp/x_dense_qp.c:1383-1402 -/
def getIdxs (qp : DenseQp K) (out : ℕ → ℕ) : ℕ → ℕ :=
  loop (qp.dim.nb + qp.dim.ng) (fun i a =>
    if qp.idxs_rev i ≠ -1 then upd a (qp.idxs_rev i).toNat i else a) out
/-- DENSE_QP_GET_IDXS_REV, dense_qp/x_dense_qp.c:1406-1420 -/
def getIdxsRev (qp : DenseQp K) (out : ℕ → ℤ) : ℕ → ℤ :=
  loop (qp.dim.nb + qp.dim.ng) (fun i a => upd a i (qp.idxs_rev i)) out
/-- DENSE_QP_SET_JSB, dense_qp/x_dense_qp.c:892-915 -/
def setJsb [DecidableEq K] (J : ℕ → K) (qp : DenseQp K) : DenseQp K :=
  { qp with
    idxs_rev := loop qp.dim.nb (fun ii a =>
      OcpQp.scanRow qp.dim.ns J ii qp.dim.nb (0 + ii) (fun jj => (jj : ℤ)) a) qp.idxs_rev }
/-- DENSE_QP_SET_JSG, dense_qp/x_dense_qp.c:919-942 -/
def setJsg [DecidableEq K] (J : ℕ → K) (qp : DenseQp K) : DenseQp K :=
  { qp with
    idxs_rev := loop qp.dim.ng (fun ii a =>
      OcpQp.scanRow qp.dim.ns J ii qp.dim.ng (qp.dim.nb + ii) (fun jj => (jj : ℤ)) a) qp.idxs_rev }

/-- arguments of DENSE_QP_SET_ALL / DENSE_QP_GET_ALL and the row major versions; `none` is NULL -/
structure All (K : Type*) where
  (H g A b lb ub C lg ug Zl Zu zl zu ls us : ℕ → K)
  idxb : ℕ → ℕ
  idxs : Option (ℕ → ℕ)
  idxs_rev : Option (ℕ → ℤ)

/-- the part common to DENSE_QP_SET_ALL (dense_qp/x_dense_qp.c:295-360)
and DENSE_QP_SET_ALL_ROWMAJ (1538-1603): everything except the three
matrices. -/
def setRest (a : All K) (qp : DenseQp K) : DenseQp K :=
  let nv := qp.dim.nv; let ne := qp.dim.ne; let nb := qp.dim.nb; let ng := qp.dim.ng; let ns := qp.dim.ns
  { qp with
    gz :=
      let x := packVec nv a.g qp.gz 0
      if 0 < ns then packVec ns a.zu (packVec ns a.zl x nv) (nv + ns) else x
    b := if 0 < ne then packVec ne a.b qp.b 0 else qp.b
    idxb := if 0 < nb then loop nb (fun i x => upd x i (a.idxb i)) qp.idxb else qp.idxb
    d :=
      let x1 := if 0 < nb then
        vecsc nb (-1) (packVec nb a.ub (packVec nb a.lb qp.d 0) (nb + ng)) (nb + ng) else qp.d
      let x2 := if 0 < ng then
        vecsc ng (-1) (packVec ng a.ug (packVec ng a.lg x1 nb) (2 * nb + ng)) (2 * nb + ng) else x1
      if 0 < ns then packVec ns a.us (packVec ns a.ls x2 (2 * nb + 2 * ng)) (2 * nb + 2 * ng + ns) else x2
    m :=
      let x1 := if 0 < nb then vecse nb 0 (vecse nb 0 qp.m 0) (nb + ng) else qp.m
      let x2 := if 0 < ng then vecse ng 0 (vecse ng 0 x1 nb) (2 * nb + ng) else x1
      if 0 < ns then vecse ns 0 (vecse ns 0 x2 (2 * nb + 2 * ng)) (2 * nb + 2 * ng + ns) else x2
    Z := if 0 < ns then packVec ns a.Zu (packVec ns a.Zl qp.Z 0) ns else qp.Z
    idxs_rev :=
      let x := match a.idxs with
        | some s => if 0 < ns then loop ns (fun i x => upd x (s i) (i : ℤ)) qp.idxs_rev else qp.idxs_rev
        | none => qp.idxs_rev
      match a.idxs_rev with
      | some r => loop (nb + ng) (fun i x => upd x i (r i)) x
      | none => x }

/-- DENSE_QP_SET_ALL, dense_qp/x_dense_qp.c:295-360 (column major matrices) -/
def setAll (a : All K) (qp : DenseQp K) : DenseQp K :=
  let nv := qp.dim.nv; let ne := qp.dim.ne; let ng := qp.dim.ng
  { setRest a qp with
    Hv := packMat nv nv a.H nv qp.Hv 0 0
    A := if 0 < ne then packMat ne nv a.A ne qp.A 0 0 else qp.A
    Ct := if 0 < ng then packTranMat ng nv a.C ng qp.Ct 0 0 else qp.Ct }

/-- DENSE_QP_SET_ALL_ROWMAJ, dense_qp/x_dense_qp.c:1538-1603 -/
def setAllRow (a : All K) (qp : DenseQp K) : DenseQp K :=
  let nv := qp.dim.nv; let ne := qp.dim.ne; let ng := qp.dim.ng
  { setRest a qp with
    Hv := packTranMat nv nv a.H nv qp.Hv 0 0
    A := if 0 < ne then packTranMat nv ne a.A nv qp.A 0 0 else qp.A
    Ct := if 0 < ng then packMat nv ng a.C nv qp.Ct 0 0 else qp.Ct }

/-- the part common to DENSE_QP_GET_ALL (dense_qp/x_dense_qp.c:364-428) and its row major version
(1607-1672): everything except the three matrices; `o` holds the user's output arrays. -/
def getRest (qp : DenseQp K) (o : All K) : All K :=
  let nv := qp.dim.nv; let ne := qp.dim.ne; let nb := qp.dim.nb; let ng := qp.dim.ng; let ns := qp.dim.ns
  { o with
    g := unpackVec nv qp.gz 0 o.g
    b := if 0 < ne then unpackVec ne qp.b 0 o.b else o.b
    idxb := if 0 < nb then loop nb (fun i a => upd a i (qp.idxb i)) o.idxb else o.idxb
    lb := if 0 < nb then unpackVec nb qp.d 0 o.lb else o.lb
    ub := if 0 < nb then negArr nb (unpackVec nb qp.d (nb + ng) o.ub) else o.ub
    lg := if 0 < ng then unpackVec ng qp.d nb o.lg else o.lg
    ug := if 0 < ng then negArr ng (unpackVec ng qp.d (2 * nb + ng) o.ug) else o.ug
    idxs := o.idxs.map (fun s => if 0 < ns then
      loop (nb + ng) (fun i a => if qp.idxs_rev i ≠ -1 then upd a (qp.idxs_rev i).toNat i else a) s else s)
    Zl := if 0 < ns then unpackVec ns qp.Z 0 o.Zl else o.Zl
    Zu := if 0 < ns then unpackVec ns qp.Z ns o.Zu else o.Zu
    zl := if 0 < ns then unpackVec ns qp.gz nv o.zl else o.zl
    zu := if 0 < ns then unpackVec ns qp.gz (nv + ns) o.zu else o.zu
    ls := if 0 < ns then unpackVec ns qp.d (2 * nb + 2 * ng) o.ls else o.ls
    us := if 0 < ns then unpackVec ns qp.d (2 * nb + 2 * ng + ns) o.us else o.us
    idxs_rev := o.idxs_rev.map (fun r => loop (nb + ng) (fun i a => upd a i (qp.idxs_rev i)) r) }

/-- DENSE_QP_GET_ALL, dense_qp/x_dense_qp.c:364-428 -/
def getAll (qp : DenseQp K) (o : All K) : All K :=
  let nv := qp.dim.nv; let ne := qp.dim.ne; let ng := qp.dim.ng
  { getRest qp o with
    H := unpackMat nv nv qp.Hv 0 0 o.H nv
    A := if 0 < ne then unpackMat ne nv qp.A 0 0 o.A ne else o.A
    C := if 0 < ng then unpackTranMat nv ng qp.Ct 0 0 o.C ng else o.C }

/-- DENSE_QP_GET_ALL_ROWMAJ, dense_qp/x_dense_qp.c:1607-1672 -/
def getAllRow (qp : DenseQp K) (o : All K) : All K :=
  let nv := qp.dim.nv; let ne := qp.dim.ne; let ng := qp.dim.ng
  { getRest qp o with
    H := unpackTranMat nv nv qp.Hv 0 0 o.H nv
    A := if 0 < ne then unpackTranMat ne nv qp.A 0 0 o.A nv else o.A
    C := if 0 < ng then unpackMat nv ng qp.Ct 0 0 o.C nv else o.C }

/-- the numeric branches of DENSE_QP_SET, dense_qp/x_dense_qp.c:438-521, in the order of the code -/
def numField (s : String) : Option DField :=
  if s = "H" then some .H else if s = "A" then some .A else if s = "C" then some .C
  else if s = "g" then some .g else if s = "b" then some .b
  else if s = "lb" then some .lb else if s = "lb_mask" then some .lb_mask
  else if s = "ub" then some .ub else if s = "ub_mask" then some .ub_mask
  else if s = "lg" then some .lg else if s = "lg_mask" then some .lg_mask
  else if s = "ug" then some .ug else if s = "ug_mask" then some .ug_mask
  else if s = "Zl" then some .Zl else if s = "Zu" then some .Zu
  else if s = "zl" then some .zl else if s = "zu" then some .zu
  else if s = "lls" then some .lls else if s = "lls_mask" then some .lls_mask
  else if s = "lus" then some .lus else if s = "lus_mask" then some .lus_mask
  else none

/-- the target branches of DENSE_QP_SET, dense_qp/x_dense_qp.c:552-575 -/
def mField (s : String) : Option DMField :=
  if s = "m_lb" then some .lb else if s = "m_ub" then some .ub else if s = "m_lg" then some .lg
  else if s = "m_ug" then some .ug else if s = "m_lls" then some .lls else if s = "m_lus" then some .lus
  else none

/-- DENSE_QP_SET with a real array, dense_qp/x_dense_qp.c:432-584; `none`: the process exits.  The
integer fields ("idxb", "idxs", "idxs_rev") are in `setInt`. -/
def setReal [DecidableEq K] (s : String) (v : ℕ → K) (qp : DenseQp K) : Option (DenseQp K) :=
  match numField s with
  | some f => some (qp.setF f v)
  | none =>
    if s = "Jb" then some (qp.setJb v)
    else if s = "Jsb" then some (qp.setJsb v)
    else if s = "Jsg" then some (qp.setJsg v)
    else if s = "m_all" then some (qp.setMAll (v 0))
    else (mField s).map (fun f => qp.setM f v)

/-- DENSE_QP_SET with an integer array, dense_qp/x_dense_qp.c:523-540 -/
def setInt (s : String) (v : ℕ → ℤ) (qp : DenseQp K) : Option (DenseQp K) :=
  if s = "idxb" then some (qp.setIdxb (fun i => (v i).toNat))
  else if s = "idxs" then some (qp.setIdxs (fun i => (v i).toNat))
  else if s = "idxs_rev" then some (qp.setIdxsRev v)
  else none

end
end DenseQp
end Hpipm
