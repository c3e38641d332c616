/-
Model of the KKT solvers of the dense QP, dense_qp/x_dense_qp_kkt.c: factorise-and-solve step with the
two regularisation loops (null space method, Schur complement method with and without scaling, and the
two variants without equality constraints), re-solve with a stored factorisation, unconstrained solve.

Simplifications: reals instead of floating point numbers; workspace matrices and vectors are total
functions; `dA[i] == 0.0` is `L[i][i] = 0`, see Chol.lean.  The LQ factorisation (BLASFEO routines
GELQF, ORGLQ, not part of the repository) is a parameter `lq`, specified by `LqOk` in DenseLin.
The slack routines have the text of those of the OCP QP (x_dense_qp_kkt.c:502-620, 730-870), see Kkt.lean.
-/
import Verif.Kkt
import Verif.DenseRes

namespace Hpipm

section
variable {K : Type*} [Field K] [LinearOrder K]

/-! ### further BLASFEO routines -/

/-- `GEMM_L_DIAG(m, n, 1.0, s, 0, B, 0, 0, 0.0, C, 0, 0, D, 0, 0)`: `D = diag(s)*B`. -/
def gemm_l_diag (m n : ℕ) (s : Vec K) (B D : Mat K) : Mat K :=
  fun i j => if i < m ∧ j < n then s i * B i j else D i j

/-- `DIAEX(n, 1.0, A, 0, 0, x, 0)`: `x[i] = A[i][i]`. -/
def ddiaex (n : ℕ) (A : Mat K) (x : Vec K) : Vec K := fun i => if i < n then A i i else x i

/-- `TRSV_LNN(n, A, 0, 0, x, 0, z, 0)`: `z = A⁻¹ x`, `A` lower triangular. -/
def trsv_lnn (n : ℕ) (A : Mat K) (x z : Vec K) : Vec K :=
  fun i => if i < n then trsv_lnn_mn n n A x i else z i

/-- `TRSV_LTN(n, A, 0, 0, x, 0, z, 0)`: `z = A⁻ᵀ x`. -/
def trsv_ltn (n : ℕ) (A : Mat K) (x z : Vec K) : Vec K :=
  fun i => if i < n then trsv_ltn_mn n n A x i else z i

/-- `TRSM_RLTN(m, n, 1.0, A, 0, 0, B, 0, 0, D, 0, 0)`: `D = B A⁻ᵀ`, row by row. -/
def trsm_rltn (m n : ℕ) (A B D : Mat K) : Mat K :=
  fun i j => if i < m ∧ j < n then trsv_lnn_mn n n A (B i) j else D i j

/-! ### state -/

/-- workspace of the dense KKT solver (`struct DENSE_QP_IPM_WS`, include/hpipm_d_dense_qp_ipm.h) and the
step (`struct DENSE_QP_SOL`) under computation; `t0..t3` are `tmp_nbg+0..3` -/
structure DKkt (K : Type*) where
  Lv : Mat K
  Le : Mat K
  Ctx : Mat K
  AL : Mat K
  A_LQ : Mat K
  A_Q : Mat K
  Zt : Mat K
  ZtH : Mat K
  ZtHZ : Mat K
  lv : Vec K
  sv : Vec K
  se : Vec K
  Zs : Vec K
  t0 : Vec K
  t1 : Vec K
  t2 : Vec K
  t3 : Vec K
  xy : Vec K
  Yxy : Vec K
  xz : Vec K
  tmp_nv : Vec K
  use_A_fact : Bool
  v : Vec K
  pi : Vec K
  lam : Vec K
  t : Vec K

/-- the options read by the KKT routines (`struct DENSE_QP_IPM_ARG`); `alg` is `kkt_fact_alg` -/
structure DArg (K : Type*) where
  alg : ℕ
  scale : Bool
  reg_prim : K
  reg_dual : K

/-- condensing of the constraints into `tmp_nbg`, x_dense_qp_kkt.c:1366-1374 (same text in every branch) -/
def dCond (qp : DenseQp K) (reg : K) (G g : Vec K) (st : DKkt K) : DKkt K :=
  let n := qp.dim.nb + qp.dim.ng
  if qp.dim.ns > 0 then
    let s := condSlacksFS n qp.dim.ns qp.dim.nv qp.idxs_rev reg qp.Z qp.gz G g
      { Zs := st.Zs, du := st.v, t0 := st.t0, t1 := st.t1, t2 := st.t2, t3 := st.t3 }
    { st with
      Zs := s.Zs
      v := s.du
      t0 := s.t0
      t1 := s.t1
      t2 := s.t2
      t3 := s.t3 }
  else if n > 0 then { st with
      t0 := axpy n 1 G n G 0 st.t0 0
      t1 := axpy n (-1) g n g 0 st.t1 0 }
  else st

/-- barrier terms in Hessian and gradient, up to the product with the general constraints,
x_dense_qp_kkt.c:1365-1385 (same text at 1438-1458, 1559-1578, 1653-1673) -/
def dBar (qp : DenseQp K) (reg : K) (G g : Vec K) (st : DKkt K) : DKkt K :=
  let nv := qp.dim.nv; let nb := qp.dim.nb; let ng := qp.dim.ng
  let st := { st with lv := veccp nv qp.gz 0 st.lv 0 }
  let st := dCond qp reg G g st
  let Lv := if nb > 0 then diaad_sp nb 1 st.t0 0 qp.idxb st.Lv 0 0 else st.Lv
  let lv := if nb > 0 then vecad_sp nb 1 st.t1 0 qp.idxb st.lv 0 else st.lv
  let lv := if ng > 0 then gemv_n nv ng 1 qp.Ct 0 0 st.t1 nb 1 lv 0 lv 0 else lv
  let Ctx := if ng > 0 then gemm_nd nv ng 1 qp.Ct 0 0 st.t0 nb 0 st.Ctx 0 0 st.Ctx 0 0 else st.Ctx
  { st with
    Lv := Lv
    lv := lv
    Ctx := Ctx }

/-- the same with the product added to the Hessian, x_dense_qp_kkt.c:1365-1387 -/
def dBarH (qp : DenseQp K) (reg : K) (G g : Vec K) (st : DKkt K) : DKkt K :=
  let nv := qp.dim.nv; let ng := qp.dim.ng
  let st := dBar qp reg G g st
  { st with Lv := if ng > 0 then syrk_ln_mn nv nv ng 1 st.Ctx 0 0 qp.Ct 0 0 1 st.Lv 0 0 st.Lv 0 0 else st.Lv }

/-- how a pass through `main_loop` ends: falls through, or jumps to `compute_preg` / `compute_dreg` -/
inductive DRet
  | done
  | preg
  | dreg
  deriving DecidableEq

/-! ### null space method -/

/-- the cached LQ factorisation of the equality constraints, x_dense_qp_kkt.c:1321-1358 -/
def dLq (lq : ℕ → ℕ → Mat K → Mat K × Mat K) (qp : DenseQp K) (st : DKkt K) : DKkt K :=
  let nv := qp.dim.nv; let ne := qp.dim.ne
  if st.use_A_fact then st
  else
    let f := lq ne nv qp.A
    { st with
      A_LQ := f.1
      A_Q := f.2
      Zt := gecp (nv - ne) nv f.2 ne 0 st.Zt 0 0
      use_A_fact := true }

/-- null space method, factorisation, x_dense_qp_kkt.c:1361-1393 -/
def dNullFact (sq : K → K) (qp : DenseQp K) (reg preg : K) (G g : Vec K) (st : DKkt K) : DKkt K :=
  let nv := qp.dim.nv; let ne := qp.dim.ne
  let st := { st with Lv := trcp_l nv qp.Hv 0 0 st.Lv 0 0 }
  let st := dBarH qp reg G g st
  let Lv := trtr_l nv st.Lv 0 0 st.Lv 0 0
  let ZtH := gemm_nt (nv - ne) nv nv 1 st.Zt 0 0 Lv 0 0 0 st.ZtH 0 0 st.ZtH 0 0
  let W := syrk_ln_mn (nv - ne) (nv - ne) nv 1 ZtH 0 0 st.Zt 0 0 0 st.ZtHZ 0 0 st.ZtHZ 0 0
  let W := diare (nv - ne) preg W 0 0
  { st with
    Lv := Lv
    ZtH := ZtH
    ZtHZ := potrf_l_mn sq (nv - ne) (nv - ne) W W }

/-- null space method, substitution, x_dense_qp_kkt.c:1412-1426 (same text in the solve routine) -/
def dNullSolve (qp : DenseQp K) (st : DKkt K) : DKkt K :=
  let nv := qp.dim.nv; let ne := qp.dim.ne
  let xy := trsv_lnn ne st.A_LQ qp.b st.xy
  let Yxy := gemv_t ne nv 1 st.A_Q 0 0 xy 0 0 st.Yxy 0 st.Yxy 0
  let xz := gemv_n (nv - ne) nv (-1) st.ZtH 0 0 Yxy 0 0 st.xz 0 st.xz 0
  let xz := gemv_n (nv - ne) nv (-1) st.Zt 0 0 st.lv 0 1 xz 0 xz 0
  let xz := trsv_lnn (nv - ne) st.ZtHZ xz xz
  let xz := trsv_ltn (nv - ne) st.ZtHZ xz xz
  let v := gemv_t (nv - ne) nv 1 st.Zt 0 0 xz 0 1 Yxy 0 st.v 0
  let tmp := symv_l nv 1 st.Lv 0 0 v 0 1 st.lv 0 st.tmp_nv 0
  let pi := gemv_n ne nv 1 st.A_Q 0 0 tmp 0 0 st.pi 0 st.pi 0
  let pi := trsv_ltn ne st.A_LQ pi pi
  { st with
    xy := xy
    Yxy := Yxy
    xz := xz
    v := v
    tmp_nv := tmp
    pi := pi }

/-- null space method, x_dense_qp_kkt.c:1318-1427 -/
def dNull (sq : K → K) (lq : ℕ → ℕ → Mat K → Mat K × Mat K) (qp : DenseQp K) (reg preg : K) (G g : Vec K)
    (st : DKkt K) : DRet × DKkt K :=
  let st := dNullFact sq qp reg preg G g (dLq lq qp st)
  if singular (qp.dim.nv - qp.dim.ne) st.ZtHZ then (.preg, st) else (.done, dNullSolve qp st)

/-! ### Schur complement method -/

/-- the scaling loop, x_dense_qp_kkt.c:1462-1469: `tmp = sqrt(x[i]); x[i] = tmp==0 ? 1.0 : 1.0/tmp` -/
def scaleLoop (sq : K → K) (n : ℕ) (x : Vec K) : Vec K :=
  loop n (fun i x => upd x i (if sq (x i) = 0 then 1 else 1 / sq (x i))) x

/-- some entry is negative: `sqrt` gives NaN, which the products below spread over a row and a column, so
that POTRF finds a pivot that is not positive -/
def anyNeg (n : ℕ) (x : Vec K) : Bool := loop n (fun i s => s || decide (x i < 0)) false

/-- scaling, regularisation and factorisation of the Hessian, x_dense_qp_kkt.c:1461-1474 (same text at
1676-1689); the Boolean is `singular` of 1476-1485 -/
def dScaleFact (sq : K → K) (n : ℕ) (preg : K) (st : DKkt K) : Bool × DKkt K :=
  let d := ddiaex n st.Lv st.sv
  let sv := scaleLoop sq n d
  let L := gemm_l_diag n n sv st.Lv st.Lv
  let L := gemm_nd n n 1 L 0 0 sv 0 0 L 0 0 L 0 0
  let L := diare n preg L 0 0
  let L := potrf_l_mn sq n n L L
  (anyNeg n d || singular n L, { st with
    sv := sv
    Lv := L })

/-- the Schur complement with scaling, x_dense_qp_kkt.c:1493-1518 -/
def dSchurSFact (sq : K → K) (qp : DenseQp K) (dreg : K) (st : DKkt K) : DKkt K :=
  let nv := qp.dim.nv; let ne := qp.dim.ne
  let lv := gemv_diag nv 1 st.sv 0 st.lv 0 0 st.lv 0 st.lv 0
  let v := veccp nv lv 0 st.v 0
  let AL := gecp ne nv qp.A 0 0 st.AL 0 0
  let AL := gemm_nd ne nv 1 AL 0 0 st.sv 0 0 AL 0 0 AL 0 0
  let AL := trsm_rltn ne nv st.Lv AL AL
  let lv := trsv_lnn nv st.Lv lv lv
  let Le := gese ne ne 0 st.Le 0 0
  let Le := syrk_ln_mn ne ne nv 1 AL 0 0 AL 0 0 1 Le 0 0 Le 0 0
  let se := scaleLoop sq ne (ddiaex ne Le st.se)
  let Le := gemm_l_diag ne ne se Le Le
  let Le := gemm_nd ne ne 1 Le 0 0 se 0 0 Le 0 0 Le 0 0
  let Le := diare ne dreg Le 0 0
  { st with
    lv := lv
    v := v
    AL := AL
    se := se
    Le := potrf_l_mn sq ne ne Le Le }

/-- substitution with scaling, after `lv`, `dv` have been prepared, x_dense_qp_kkt.c:1537-1549 -/
def dSchurSSolve (qp : DenseQp K) (st : DKkt K) : DKkt K :=
  let nv := qp.dim.nv; let ne := qp.dim.ne
  let pi := gemv_n ne nv 1 st.AL 0 0 st.lv 0 1 qp.b 0 st.pi 0
  let pi := gemv_diag ne 1 st.se 0 pi 0 0 pi 0 pi 0
  let pi := trsv_lnn ne st.Le pi pi
  let pi := trsv_ltn ne st.Le pi pi
  let pi := gemv_diag ne 1 st.se 0 pi 0 0 pi 0 pi 0
  let lv := gemv_t ne nv 1 qp.A 0 0 pi 0 0 st.lv 0 st.lv 0
  let v := gemv_diag nv 1 st.sv 0 lv 0 (-1) st.v 0 st.v 0
  let v := trsv_lnn nv st.Lv v v
  let v := trsv_ltn nv st.Lv v v
  let v := gemv_diag nv 1 st.sv 0 v 0 0 v 0 v 0
  { st with
    pi := pi
    lv := lv
    v := v }

/-- Schur complement method with scaling, x_dense_qp_kkt.c:1432-1551 -/
def dSchurS (sq : K → K) (qp : DenseQp K) (reg preg dreg : K) (G g : Vec K) (st : DKkt K) : DRet × DKkt K :=
  let nv := qp.dim.nv; let ne := qp.dim.ne
  let st := { st with Lv := gecp nv nv qp.Hv 0 0 st.Lv 0 0 }
  let st := dBarH qp reg G g st
  let r := dScaleFact sq nv preg st
  if r.1 then (.preg, r.2)
  else
    let st := dSchurSFact sq qp dreg r.2
    if singular ne st.Le then (.dreg, st) else (.done, dSchurSSolve qp st)

/-- Hessian of the Schur complement method without scaling, x_dense_qp_kkt.c:1555-1584.  The Hessian is
regularised by `arg->reg_prim`, not by `preg` -/
def dSchurFactH (sq : K → K) (qp : DenseQp K) (reg : K) (G g : Vec K) (st : DKkt K) : DKkt K :=
  let nv := qp.dim.nv; let ng := qp.dim.ng
  let st := { st with Lv := diare nv reg (gecp nv nv qp.Hv 0 0 st.Lv 0 0) 0 0 }
  let st := dBar qp reg G g st
  { st with Lv := if ng > 0 then syrk_potrf_ln_mn sq nv nv ng st.Ctx qp.Ct st.Lv st.Lv
      else potrf_l_mn sq nv nv st.Lv st.Lv }

/-- the Schur complement, x_dense_qp_kkt.c:1603-1613 -/
def dSchurFactE (sq : K → K) (qp : DenseQp K) (dreg : K) (st : DKkt K) : DKkt K :=
  let nv := qp.dim.nv; let ne := qp.dim.ne
  let v := veccp nv st.lv 0 st.v 0
  let AL := trsm_rltn ne nv st.Lv qp.A st.AL
  let lv := trsv_lnn nv st.Lv st.lv st.lv
  let pi := gemv_n ne nv 1 AL 0 0 lv 0 1 qp.b 0 st.pi 0
  let Le := gese ne ne 0 st.Le 0 0
  let Le := diare ne dreg Le 0 0
  { st with
    v := v
    AL := AL
    lv := lv
    pi := pi
    Le := syrk_potrf_ln_mn sq ne ne nv AL AL Le Le }

/-- substitution without scaling, x_dense_qp_kkt.c:1632-1638 -/
def dSchurSolve (qp : DenseQp K) (st : DKkt K) : DKkt K :=
  let nv := qp.dim.nv; let ne := qp.dim.ne
  let pi := trsv_lnn ne st.Le st.pi st.pi
  let pi := trsv_ltn ne st.Le pi pi
  let v := gemv_t ne nv 1 qp.A 0 0 pi 0 (-1) st.v 0 st.v 0
  let v := trsv_lnn nv st.Lv v v
  let v := trsv_ltn nv st.Lv v v
  { st with
    pi := pi
    v := v }

/-- Schur complement method without scaling, x_dense_qp_kkt.c:1552-1641 -/
def dSchur (sq : K → K) (qp : DenseQp K) (reg dreg : K) (G g : Vec K) (st : DKkt K) : DRet × DKkt K :=
  let st := dSchurFactH sq qp reg G g st
  if singular qp.dim.nv st.Lv then (.preg, st)
  else
    let st := dSchurFactE sq qp dreg st
    if singular qp.dim.ne st.Le then (.dreg, st) else (.done, dSchurSolve qp st)

/-! ### without equality constraints -/

/-- substitution with scaling, x_dense_qp_kkt.c:1708-1714 (same text at 2858-2866) -/
def dFreeSSolve (qp : DenseQp K) (st : DKkt K) : DKkt K :=
  let nv := qp.dim.nv
  let v := veccp nv st.lv 0 st.v 0
  let v := vecsc nv (-1) v 0
  let v := gemv_diag nv 1 st.sv 0 v 0 0 v 0 v 0
  let v := trsv_lnn nv st.Lv v v
  let v := trsv_ltn nv st.Lv v v
  let v := gemv_diag nv 1 st.sv 0 v 0 0 v 0 v 0
  { st with v := v }

/-- scaled factorisation, x_dense_qp_kkt.c:1649-1716 -/
def dFreeS (sq : K → K) (qp : DenseQp K) (reg preg : K) (G g : Vec K) (st : DKkt K) : DRet × DKkt K :=
  let nv := qp.dim.nv
  let st := { st with Lv := trcp_l nv qp.Hv 0 0 st.Lv 0 0 }
  let st := dBarH qp reg G g st
  let r := dScaleFact sq nv preg st
  if r.1 then (.preg, r.2) else (.done, dFreeSSolve qp r.2)

/-- factorisation with the gradient as last row, x_dense_qp_kkt.c:1720-1748 -/
def dFreeFact (sq : K → K) (qp : DenseQp K) (reg preg : K) (G g : Vec K) (st : DKkt K) : DKkt K :=
  let nv := qp.dim.nv; let nb := qp.dim.nb; let ng := qp.dim.ng
  let Lv := gecp nv nv qp.Hv 0 0 st.Lv 0 0
  let Lv := rowin nv 1 qp.gz 0 Lv nv 0
  let Lv := diare nv preg Lv 0 0
  let st := dCond qp reg G g { st with Lv := Lv }
  let Lv := if nb > 0 then diaad_sp nb 1 st.t0 0 qp.idxb st.Lv 0 0 else st.Lv
  let Lv := if nb > 0 then rowad_sp nb 1 st.t1 0 qp.idxb Lv nv 0 else Lv
  if ng > 0 then
    let Ctx := gemm_nd nv ng 1 qp.Ct 0 0 st.t0 nb 0 st.Ctx 0 0 st.Ctx 0 0
    let Ctx := rowin ng 1 st.t1 nb Ctx nv 0
    { st with
      Ctx := Ctx
      Lv := syrk_potrf_ln_mn sq (nv + 1) nv ng Ctx qp.Ct Lv Lv }
  else { st with Lv := potrf_l_mn sq (nv + 1) nv Lv Lv }

/-- without scaling, x_dense_qp_kkt.c:1717-1948 -/
def dFree (sq : K → K) (qp : DenseQp K) (reg preg : K) (G g : Vec K) (st : DKkt K) : DRet × DKkt K :=
  let nv := qp.dim.nv
  let st := dFreeFact sq qp reg preg G g st
  if singular nv st.Lv then (.preg, st)
  else
    let v := rowex nv (-1) st.Lv nv 0 st.v 0
    (.done, { st with v := trsv_ltn nv st.Lv v v })

/-! ### the step routine -/

/-- one pass through `main_loop`, x_dense_qp_kkt.c:1313-1950 -/
def dPass (sq : K → K) (lq : ℕ → ℕ → Mat K → Mat K × Mat K) (qp : DenseQp K) (arg : DArg K) (preg dreg : K)
    (G g : Vec K) (st : DKkt K) : DRet × DKkt K :=
  if qp.dim.ne > 0 then
    if arg.alg = 0 then dNull sq lq qp arg.reg_prim preg G g st
    else if arg.scale then dSchurS sq qp arg.reg_prim preg dreg G g st
    else dSchur sq qp arg.reg_prim dreg G g st
  else if arg.scale then dFreeS sq qp arg.reg_prim preg G g st
  else dFree sq qp arg.reg_prim preg G g st

/-- `preg`, `preg_init`, `dreg`, `dreg_init` of the step routine -/
structure DReg (K : Type*) where
  preg : K
  pinit : Bool
  dreg : K
  dinit : Bool

/-- `main_loop` with the jumps to `compute_preg` (x_dense_qp_kkt.c:1237-1274) and `compute_dreg`
(1276-1311); both updates compare with `arg->reg_prim`; `fuel` bounds the number of jumps (`none`: still
looping) -/
def dkktMain (sq : K → K) (lq : ℕ → ℕ → Mat K → Mat K × Mat K) (qp : DenseQp K) (arg : DArg K)
    (preg_last dreg_last : K) (G g : Vec K) : ℕ → DReg K → DKkt K → Option (DReg K × DKkt K)
  | fuel, r, st =>
    let s := dPass sq lq qp arg r.preg r.dreg G g st
    match s.1, fuel with
    | .done, _ => some (r, s.2)
    | _, 0 => none
    | .preg, fuel + 1 => dkktMain sq lq qp arg preg_last dreg_last G g fuel { r with
        preg := nextPreg arg.reg_prim preg_last r.preg r.pinit
        pinit := true } s.2
    | .dreg, fuel + 1 => dkktMain sq lq qp arg preg_last dreg_last G g fuel { r with
        dreg := nextPreg arg.reg_prim dreg_last r.dreg r.dinit
        dinit := true } s.2

/-- constraint values of the step, slack expansion and multipliers, x_dense_qp_kkt.c:1952-1967 (same text
in the solve routine) -/
def dkktTail [IsStrictOrderedRing K] (qp : DenseQp K) (c : Core K) (st : DKkt K) : DKkt K :=
  let nv := qp.dim.nv; let nb := qp.dim.nb; let ng := qp.dim.ng; let ns := qp.dim.ns
  let n := nb + ng
  if nb + ng + ns > 0 then
    let t := if nb > 0 then vecex_sp nb 1 qp.idxb st.v 0 st.t 0 else st.t
    let t := if ng > 0 then gemv_t nv ng 1 qp.Ct 0 0 st.v 0 0 t nb t nb else t
    let t := veccp n t 0 t n
    let t := vecsc n (-1) t n
    let s := if ns > 0 then expandSlacks n ns nv qp.idxs_rev c.Gamma st.Zs (st.v, t) else (st.v, t)
    let r := computeLamT qp.d qp.m st.lam s.2 c
    { st with
      v := s.1
      lam := r.1
      t := r.2 }
  else st

/-- outcome of the step routine -/
structure DKktOut (K : Type*) where
  st : DKkt K
  core : Core K
  reg : DReg K
  npd_reg_hess : Bool
  preg_last : K
  dreg_last : K

/-- DENSE_QP_FACT_SOLVE_KKT_STEP, x_dense_qp_kkt.c:1166-1985 -/
def dfactSolve [IsStrictOrderedRing K] (sq : K → K) (lq : ℕ → ℕ → Mat K → Mat K × Mat K) (fuel : ℕ)
    (qp : DenseQp K) (arg : DArg K) (preg_last dreg_last : K) (c : Core K) (st : DKkt K) : Option (DKktOut K) :=
  let c := if qp.dim.nb + qp.dim.ng + qp.dim.ns > 0 then computeGammaGamma qp.d qp.m c else c
  match dkktMain sq lq qp arg preg_last dreg_last c.Gamma c.gamma fuel
      ⟨arg.reg_prim, false, arg.reg_dual, false⟩ st with
  | none => none
  | some (r, st) => some {
      st := dkktTail qp c st
      core := c
      reg := r
      npd_reg_hess := r.pinit || r.dinit
      preg_last := if r.pinit then r.preg else preg_last
      dreg_last := if r.dinit then r.dreg else dreg_last }

/-! ### re-solve with a stored factorisation -/

/-- right-hand side, x_dense_qp_kkt.c:2765-2783 -/
def dRhs (qp : DenseQp K) (G g : Vec K) (st : DKkt K) : DKkt K :=
  let nv := qp.dim.nv; let nb := qp.dim.nb; let ng := qp.dim.ng
  let n := nb + ng
  let st := { st with lv := veccp nv qp.gz 0 st.lv 0 }
  let st := if qp.dim.ns > 0 then
      let s := condSlacksS n qp.dim.ns nv qp.idxs_rev qp.gz G g
        { Zs := st.Zs, du := st.v, t0 := st.t0, t1 := st.t1, t2 := st.t2, t3 := st.t3 }
      { st with
        v := s.du
        t1 := s.t1
        t2 := s.t2
        t3 := s.t3 }
    else if n > 0 then { st with t1 := axpy n (-1) g n g 0 st.t1 0 }
    else st
  let lv := if nb > 0 then vecad_sp nb 1 st.t1 0 qp.idxb st.lv 0 else st.lv
  let lv := if ng > 0 then gemv_n nv ng 1 qp.Ct 0 0 st.t1 nb 1 lv 0 lv 0 else lv
  { st with lv := lv }

/-- the substitutions of DENSE_QP_SOLVE_KKT_STEP, x_dense_qp_kkt.c:2785-2879; `scale` is `ws->scale` -/
def dSubst (qp : DenseQp K) (alg : ℕ) (scale : Bool) (st : DKkt K) : DKkt K :=
  let nv := qp.dim.nv; let ne := qp.dim.ne
  if ne > 0 then
    if alg = 0 then dNullSolve qp st
    else if scale then
      let lv := gemv_diag nv 1 st.sv 0 st.lv 0 0 st.lv 0 st.lv 0
      let v := veccp nv lv 0 st.v 0
      let lv := trsv_lnn nv st.Lv lv lv
      dSchurSSolve qp { st with
        lv := lv
        v := v }
    else
      let v := veccp nv st.lv 0 st.v 0
      let lv := trsv_lnn nv st.Lv st.lv st.lv
      let pi := gemv_n ne nv 1 st.AL 0 0 lv 0 1 qp.b 0 st.pi 0
      dSchurSolve qp { st with
        lv := lv
        v := v
        pi := pi }
  else if scale then dFreeSSolve qp st
  else
    let v := veccp nv st.lv 0 st.v 0
    let v := vecsc nv (-1) v 0
    let v := trsv_lnn nv st.Lv v v
    { st with v := trsv_ltn nv st.Lv v v }

/-- DENSE_QP_SOLVE_KKT_STEP, x_dense_qp_kkt.c:2715-2898 -/
def dsolveKkt [IsStrictOrderedRing K] (qp : DenseQp K) (alg : ℕ) (scale : Bool) (c : Core K) (st : DKkt K) :
    Core K × DKkt K :=
  let c := if qp.dim.nb + qp.dim.ng + qp.dim.ns > 0 then computeGamma qp.d qp.m c else c
  (c, dkktTail qp c (dSubst qp alg scale (dRhs qp c.Gamma c.gamma st)))

/-! ### unconstrained problem -/

/-- DENSE_QP_FACT_SOLVE_KKT_UNCONSTR, x_dense_qp_kkt.c:315-497.  There is no pivot test and no
regularisation.  The first component is `qp->Hv` afterwards: without equality constraints the gradient is
written into its last row. -/
def dunconstr (sq : K → K) (lq : ℕ → ℕ → Mat K → Mat K × Mat K) (qp : DenseQp K) (alg : ℕ) (st : DKkt K) :
    Mat K × DKkt K :=
  let nv := qp.dim.nv; let ne := qp.dim.ne
  if ne > 0 then
    if alg = 0 then
      let f := lq ne nv qp.A
      let Zt := gecp (nv - ne) nv f.2 ne 0 st.Zt 0 0
      let ZtH := gemm_nt (nv - ne) nv nv 1 Zt 0 0 qp.Hv 0 0 0 st.ZtH 0 0 st.ZtH 0 0
      let W := syrk_ln_mn (nv - ne) (nv - ne) nv 1 ZtH 0 0 Zt 0 0 0 st.ZtHZ 0 0 st.ZtHZ 0 0
      let W := potrf_l_mn sq (nv - ne) (nv - ne) W W
      let xy := trsv_lnn ne f.1 qp.b st.xy
      let Yxy := gemv_t ne nv 1 f.2 0 0 xy 0 0 st.Yxy 0 st.Yxy 0
      let xz := gemv_n (nv - ne) nv (-1) ZtH 0 0 Yxy 0 0 st.xz 0 st.xz 0
      let xz := gemv_n (nv - ne) nv (-1) Zt 0 0 qp.gz 0 1 xz 0 xz 0
      let xz := trsv_lnn (nv - ne) W xz xz
      let xz := trsv_ltn (nv - ne) W xz xz
      let v := gemv_t (nv - ne) nv 1 Zt 0 0 xz 0 1 Yxy 0 st.v 0
      let tmp := symv_l nv 1 qp.Hv 0 0 v 0 1 qp.gz 0 st.tmp_nv 0
      let pi := gemv_n ne nv 1 f.2 0 0 tmp 0 0 st.pi 0 st.pi 0
      let pi := trsv_ltn ne f.1 pi pi
      (qp.Hv, { st with
        A_LQ := f.1
        A_Q := f.2
        Zt := Zt
        ZtH := ZtH
        ZtHZ := W
        xy := xy
        Yxy := Yxy
        xz := xz
        v := v
        tmp_nv := tmp
        pi := pi })
    else
      let Lv := potrf_l_mn sq nv nv qp.Hv st.Lv
      let AL := trsm_rltn ne nv Lv qp.A st.AL
      let Le := gese ne ne 0 st.Le 0 0
      let Le := syrk_potrf_ln_mn sq ne ne nv AL AL Le Le
      let lv := trsv_lnn nv Lv qp.gz st.lv
      let pi := gemv_n ne nv 1 AL 0 0 lv 0 1 qp.b 0 st.pi 0
      let pi := trsv_lnn ne Le pi pi
      let pi := trsv_ltn ne Le pi pi
      let v := gemv_t ne nv 1 qp.A 0 0 pi 0 (-1) qp.gz 0 st.v 0
      let v := trsv_lnn nv Lv v v
      let v := trsv_ltn nv Lv v v
      (qp.Hv, { st with
        Lv := Lv
        AL := AL
        Le := Le
        lv := lv
        pi := pi
        v := v })
  else
    let H := rowin nv 1 qp.gz 0 qp.Hv nv 0
    let Lv := potrf_l_mn sq (nv + 1) nv H st.Lv
    let v := rowex nv (-1) Lv nv 0 st.v 0
    (H, { st with
      Lv := Lv
      v := trsv_ltn nv Lv v v })

end
end Hpipm
