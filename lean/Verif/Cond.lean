/-
Model of condensing, cond/x_cond_aux.c: elimination of the states of the stages 1..N of an OCP QP.

The same routines are called for full condensing (cond/x_cond.c:445-457, one block, dense target) and
for partial condensing (cond/x_part_cond.c:487-560, one call per block, target is a stage of another
OCP QP).  The pointers handed over by the callers are collected in `CondTgt`.

Simplifications: reals instead of floating point; matrices and vectors are total functions;
`cond_last_stage` is a Boolean (documented values 0/1, include/hpipm_d_cond.h:100-101); `sq` is the
square root used by POTRF, the test `Lx->dA[ii]==0.0` reads the inverse pivot (see Chol.lean).
The branches `if(1) .. else ..` of the source keep only the taken part.
-/
import Verif.Chol
import Verif.Res

namespace Hpipm
open Finset

/-- `struct COND_QP_ARG` (include/hpipm_d_cond.h:60-69) -/
structure CondArg where
  cond_last_stage : Bool
  cond_alg : ℤ
  comp_prim_sol : ℤ
  comp_dual_sol_eq : ℤ
  comp_dual_sol_ineq : ℤ
  square_root_alg : ℤ

/-- `struct COND_QP_WS` (include/hpipm_d_cond.h:73-86) -/
structure CondWs (K : Type*) where
  Gamma : ℕ → Mat K
  GammaQ : Mat K
  L : ℕ → Mat K
  Lx : Mat K
  AL : Mat K
  Gammab : ℕ → Vec K
  l : ℕ → Vec K
  tmp_nbgM : Vec K
  tmp_nuxM : Vec K

/-- the objects written by condensing: `BAbt2, b2` (COND_BABT), `RSQrq2, rqz2` (COND_RSQRQ) and
`idxb2, DCt2, d2, d_mask2, m2, idxs_rev2, Z2` (COND_DCTD) -/
structure CondTgt (K : Type*) where
  BAbt2 : Mat K
  b2 : Vec K
  RSQrq2 : Mat K
  rqz2 : Vec K
  DCt2 : Mat K
  d2 : Vec K
  d_mask2 : Vec K
  m2 : Vec K
  Z2 : Vec K
  idxb2 : ℕ → ℕ
  idxs_rev2 : ℕ → ℤ

/-- COND_QP_ARG_SET_DEFAULT, cond/x_cond.c:103-115 -/
def condArgDefault : CondArg := ⟨true, 0, 1, 1, 1, 1⟩

/-- `int nu2 = 0; for(nn=0; nn<=N; nn++) nu2 += nu[nn];` (e.g. x_cond_aux.c:247-249) -/
def sumTo (f : ℕ → ℕ) (n : ℕ) : ℕ := loop n (fun k s => s + f k) 0

section
variable {K : Type*} [Field K]

/-- state of the loop of COND_BABT -/
structure BabtSt (K : Type*) where
  Gamma : ℕ → Mat K
  Gammab : ℕ → Vec K
  nu_tmp : ℕ

/-- body of the loop of COND_BABT, x_cond_aux.c:73-87 -/
def babtStep (qp : OcpQp K) (ii : ℕ) (s : BabtSt K) : BabtSt K :=
  let nx := qp.dim.nx; let nu := qp.dim.nu
  let G := gemm_nn (s.nu_tmp + nx 0 + 1) (nx (ii + 1)) (nx ii) 1 (s.Gamma (ii - 1)) 0 0 (qp.BAbt ii) (nu ii) 0
    0 (s.Gamma ii) (nu ii) 0 (s.Gamma ii) (nu ii) 0
  let G := gecp (nu ii) (nx (ii + 1)) (qp.BAbt ii) 0 0 G 0 0
  let nu_tmp := s.nu_tmp + nu ii
  let G := rowad (nx (ii + 1)) 1 (qp.b ii) 0 G (nu_tmp + nx 0) 0
  { Gamma := upd s.Gamma ii G,
    Gammab := upd s.Gammab ii (rowex (nx (ii + 1)) 1 G (nu_tmp + nx 0) 0 (s.Gammab ii) 0),
    nu_tmp := nu_tmp }

/-- COND_BABT, x_cond_aux.c:36-99 (`N==0` without condensing the last stage reads past the arrays and
is not called) -/
def condBabt (qp : OcpQp K) (arg : CondArg) (ws : CondWs K) (tg : CondTgt K) : CondWs K × CondTgt K :=
  let N := qp.dim.N
  let nx := qp.dim.nx; let nu := qp.dim.nu
  if N = 0 ∧ arg.cond_last_stage = true then (ws, tg) else
  let G0 := gecp (nu 0 + nx 0) (nx 1) (qp.BAbt 0) 0 0 (ws.Gamma 0) 0 0
  let G0 := rowin (nx 1) 1 (qp.b 0) 0 G0 (nu 0 + nx 0) 0
  let s : BabtSt K := ⟨upd ws.Gamma 0 G0, upd ws.Gammab 0 (veccp (nx 1) (qp.b 0) 0 (ws.Gammab 0) 0), nu 0⟩
  let s := loop (N - 1) (fun i s => babtStep qp (i + 1) s) s
  let ws := { ws with Gamma := s.Gamma, Gammab := s.Gammab }
  if arg.cond_last_stage = false then
    (ws, { tg with
      BAbt2 := gecp (s.nu_tmp + nx 0) (nx N) (s.Gamma (N - 1)) 0 0 tg.BAbt2 0 0,
      b2 := rowex (nx N) 1 (s.Gamma (N - 1)) (s.nu_tmp + nx 0) 0 tg.b2 0 })
  else (ws, tg)

/-- COND_BAT, x_cond_aux.c:103-156 -/
def condBat (qp : OcpQp K) (arg : CondArg) (ws : CondWs K) (tg : CondTgt K) : CondWs K × CondTgt K :=
  let N := qp.dim.N
  let nx := qp.dim.nx; let nu := qp.dim.nu
  if N = 0 ∧ arg.cond_last_stage = true then (ws, tg) else
  let s : (ℕ → Mat K) × ℕ := (upd ws.Gamma 0 (gecp (nu 0 + nx 0) (nx 1) (qp.BAbt 0) 0 0 (ws.Gamma 0) 0 0), nu 0)
  let s := loop (N - 1) (fun i s =>
    let G := gemm_nn (s.2 + nx 0) (nx (i + 2)) (nx (i + 1)) 1 (s.1 i) 0 0 (qp.BAbt (i + 1)) (nu (i + 1)) 0
      0 (s.1 (i + 1)) (nu (i + 1)) 0 (s.1 (i + 1)) (nu (i + 1)) 0
    let G := gecp (nu (i + 1)) (nx (i + 2)) (qp.BAbt (i + 1)) 0 0 G 0 0
    (upd s.1 (i + 1) G, s.2 + nu (i + 1))) s
  let ws := { ws with Gamma := s.1 }
  if arg.cond_last_stage = false then
    (ws, { tg with BAbt2 := gecp (s.2 + nx 0) (nx N) (s.1 (N - 1)) 0 0 tg.BAbt2 0 0 })
  else (ws, tg)

/-- COND_B, x_cond_aux.c:159-205 -/
def condB (qp : OcpQp K) (arg : CondArg) (ws : CondWs K) (tg : CondTgt K) : CondWs K × CondTgt K :=
  let N := qp.dim.N
  let nx := qp.dim.nx; let nu := qp.dim.nu
  if N = 0 ∧ arg.cond_last_stage = true then (ws, tg) else
  let Gb := upd ws.Gammab 0 (veccp (nx 1) (qp.b 0) 0 (ws.Gammab 0) 0)
  let Gb := loop (N - 1) (fun i Gb => upd Gb (i + 1)
    (gemv_t (nx (i + 1)) (nx (i + 2)) 1 (qp.BAbt (i + 1)) (nu (i + 1)) 0 (Gb i) 0 1 (qp.b (i + 1)) 0 (Gb (i + 1)) 0)) Gb
  let ws := { ws with Gammab := Gb }
  if arg.cond_last_stage = false then (ws, { tg with b2 := veccp (nx N) (Gb (N - 1)) 0 tg.b2 0 })
  else (ws, tg)

end

section
variable {K : Type*} [Field K] [LinearOrder K]

/-- variables of COND_RSQRQ; `BAbt` and `RSQrq` are the matrices of the caller's OCP QP, whose last rows
are used as work space -/
structure RsqSt (K : Type*) where
  BAbt : ℕ → Mat K
  RSQrq : ℕ → Mat K
  L : ℕ → Mat K
  Lx : Mat K
  AL : Mat K
  H : Mat K
  g : Vec K
  nub : ℕ
  nuf : ℕ

/-- column block of stage `k` of the condensed Hessian: D, M and m, x_cond_aux.c:264-274 and 342-352 -/
def rsqCols (D : QpDim) (Gamma : ℕ → Mat K) (nu2 k : ℕ) (s : RsqSt K) : RsqSt K :=
  let nu := D.nu k; let nx := D.nx k
  let nub := s.nub - nu
  let H := trcp_l nu (s.L k) 0 0 s.H s.nuf s.nuf
  let H := gemm_nn (nub + D.nx 0 + 1) nu nx 1 (Gamma (k - 1)) 0 0 (s.L k) nu 0 0 H (s.nuf + nu) s.nuf H (s.nuf + nu) s.nuf
  let H := gead 1 nu 1 (s.L k) (nu + nx) 0 H (nu2 + D.nx 0) s.nuf
  { s with H := H, nub := nub, nuf := s.nuf + nu }

/-- final stage of the first algorithm, x_cond_aux.c:260-274 -/
def rsqLast (D : QpDim) (Gamma : ℕ → Mat K) (rqz : ℕ → Vec K) (nu2 N : ℕ) (s : RsqSt K) : RsqSt K :=
  let nu := D.nu N; let nx := D.nx N
  let LN := gecp (nu + nx) (nu + nx) (s.RSQrq N) 0 0 (s.L N) 0 0
  let LN := rowin (nu + nx) 1 (rqz N) 0 LN (nu + nx) 0
  rsqCols D Gamma nu2 N { s with L := upd s.L N LN }

/-- the square-root update of stage `k+1 → k` given the factor `Lx`, x_cond_aux.c:309-314 -/
def rsqSqrt (D : QpDim) (b rqz : ℕ → Vec K) (k : ℕ) (Lx : Mat K) (s : RsqSt K) : RsqSt K :=
  let nu := D.nu k; let nx := D.nx k; let nx1 := D.nx (k + 1)
  let BA := rowin nx1 1 (b k) 0 (s.BAbt k) (nu + nx) 0
  let AL := trmm_rlnn (nu + nx + 1) nx1 1 Lx 0 0 BA 0 0 s.AL 0 0
  let AL := gead 1 nx1 1 Lx nx1 0 AL (nu + nx) 0
  let RS := rowin (nu + nx) 1 (rqz k) 0 (s.RSQrq k) (nu + nx) 0
  let Lk := syrk_ln_mn (nu + nx + 1) (nu + nx) nx1 1 AL 0 0 AL 0 0 1 RS 0 0 (s.L k) 0 0
  { s with BAbt := upd s.BAbt k BA, RSQrq := upd s.RSQrq k RS, AL := AL, Lx := Lx, L := upd s.L k Lk }

/-- the classical update of stage `k+1 → k`, x_cond_aux.c:321-328 -/
def rsqClassic (D : QpDim) (b rqz : ℕ → Vec K) (k : ℕ) (s : RsqSt K) : RsqSt K :=
  let nu := D.nu k; let nx := D.nx k; let nx1 := D.nx (k + 1); let nu1 := D.nu (k + 1)
  let Lx := trcp_l nx1 (s.L (k + 1)) nu1 nu1 s.Lx 0 0
  let Lx := trtr_l nx1 Lx 0 0 Lx 0 0
  let BA := rowin nx1 1 (b k) 0 (s.BAbt k) (nu + nx) 0
  let AL := gemm_nt (nu + nx + 1) nx1 nx1 1 BA 0 0 Lx 0 0 0 s.AL 0 0 s.AL 0 0
  let AL := gead 1 nx1 1 (s.L (k + 1)) (nu1 + nx1) nu1 AL (nu + nx) 0
  let RS := rowin (nu + nx) 1 (rqz k) 0 (s.RSQrq k) (nu + nx) 0
  let Lk := syrk_ln_mn (nu + nx + 1) (nu + nx) nx1 1 AL 0 0 BA 0 0 1 RS 0 0 (s.L k) 0 0
  { s with BAbt := upd s.BAbt k BA, RSQrq := upd s.RSQrq k RS, AL := AL, Lx := Lx, L := upd s.L k Lk }

/-- the recursion of stage `k+1 → k`: square-root algorithm with fall-back, x_cond_aux.c:279-329 -/
def rsqRec (sq : K → K) (D : QpDim) (b rqz : ℕ → Vec K) (sqr : ℤ) (k : ℕ) (s : RsqSt K) : RsqSt K :=
  if sqr ≠ 0 then
    let nx1 := D.nx (k + 1); let nu1 := D.nu (k + 1)
    let Lx := potrf_l_mn sq (nx1 + 1) nx1 (fun i j => s.L (k + 1) (nu1 + i) (nu1 + j)) s.Lx
    if ∀ i, i < nx1 → 1 / Lx i i ≠ 0 then rsqSqrt D b rqz k Lx s
    else rsqClassic D b rqz k { s with Lx := Lx }
  else rsqClassic D b rqz k s

/-- body of the loop over the middle stages, x_cond_aux.c:277-354; stage `N-nn-1` is produced -/
def rsqStep (sq : K → K) (D : QpDim) (Gamma : ℕ → Mat K) (b rqz : ℕ → Vec K) (sqr : ℤ) (nu2 N nn : ℕ) (s : RsqSt K) :
    RsqSt K :=
  let k := N - nn - 1
  let s := rsqRec sq D b rqz sqr k s
  if nn = N - 1 then
    let n0 := D.nu 0 + D.nx 0
    let H := trcp_l n0 (s.L k) 0 0 s.H s.nuf s.nuf
    let H := gecp 1 n0 (s.L k) n0 0 H (s.nuf + D.nu 0 + D.nx 0) s.nuf
    { s with H := H, g := rowex (nu2 + D.nx 0) 1 H (nu2 + D.nx 0) 0 s.g 0 }
  else rsqCols D Gamma nu2 k s

/-- variables of the second algorithm -/
structure Rsq1St (K : Type*) where
  RSQrq : ℕ → Mat K
  GammaQ : Mat K
  tmp : Vec K
  H : Mat K
  g : Vec K
  nub : ℕ
  nuf : ℕ

/-- `DIAEX(n, a, A, ai, aj, x, xi)` (BLASFEO): `x[xi+i] = a*A[ai+i][aj+i]`. -/
def diaex (n : ℕ) (a : K) (A : Mat K) (ai aj : ℕ) (x : Vec K) (xi : ℕ) : Vec K :=
  fun i => if xi ≤ i ∧ i < xi + n then a * A (ai + (i - xi)) (aj + (i - xi)) else x i

/-- body of the loop of the second algorithm, x_cond_aux.c:366-421 -/
def rsq1Step (D : QpDim) (Gamma : ℕ → Mat K) (rqz : ℕ → Vec K) (dflag : ℕ → ℤ) (nu2 nn : ℕ) (s : Rsq1St K) : Rsq1St K :=
  let nu := D.nu nn; let nx := D.nx nn; let nx0 := D.nx 0
  let nub := s.nub - nu
  if nn = 0 then
    let H := trcp_l (nu + nx0) (s.RSQrq 0) 0 0 s.H nub nub
    let H := rowad (nu + nx0) 1 (rqz 0) 0 H (nu2 + nx0) nub
    { s with H := H, nub := nub, nuf := s.nuf + nu }
  else
    let s : Rsq1St K :=
      if dflag nn ≠ 0 then
        let tmp := diaex nx 1 (s.RSQrq nn) nu nu s.tmp 0
        { s with tmp := tmp, GammaQ := gemm_nd (s.nuf + nx0 + 1) nx 1 (Gamma (nn - 1)) 0 0 tmp 0 0 s.GammaQ 0 0 s.GammaQ 0 0 }
      else
        let RS := trtr_l (nu + nx) (s.RSQrq nn) 0 0 (s.RSQrq nn) 0 0
        { s with RSQrq := upd s.RSQrq nn RS,
                 GammaQ := gemm_nn (s.nuf + nx0 + 1) nx nx 1 (Gamma (nn - 1)) 0 0 RS nu nu 0 s.GammaQ 0 0 s.GammaQ 0 0 }
    let GQ := rowad nx 1 (rqz nn) nu s.GammaQ (s.nuf + nx0) 0
    let H := syrk_ln_mn (s.nuf + nx0 + 1) (s.nuf + nx0) nx 1 GQ 0 0 (Gamma (nn - 1)) 0 0 1 s.H (nub + nu) (nub + nu)
      s.H (nub + nu) (nub + nu)
    let H := gead nu nu 1 (s.RSQrq nn) 0 0 H nub nub
    let H := if dflag nn = 0 then
        gemm_nn (s.nuf + nx0 + 1) nu nx 1 (Gamma (nn - 1)) 0 0 (s.RSQrq nn) nu 0 1 H (nub + nu) nub H (nub + nu) nub
      else H
    let H := rowad nu 1 (rqz nn) 0 H (nu2 + nx0) nub
    { s with GammaQ := GQ, H := H, g := rowex (s.nuf + nx0) 1 H (nu2 + nx0) (nub + nu) s.g 0, nub := nub, nuf := s.nuf + nu }

/-- the index of the last condensed stage (`N` after `if(cond_last_stage==0) N -= 1;`); `none`: `N<0` -/
def condTop (N : ℕ) (arg : CondArg) : Option ℕ :=
  if arg.cond_last_stage = true then some N else if N = 0 then none else some (N - 1)

/-- COND_RSQRQ, x_cond_aux.c:208-427; also returns the caller's OCP QP, whose matrices it modifies -/
def condRsqrq (sq : K → K) (qp : OcpQp K) (arg : CondArg) (ws : CondWs K) (tg : CondTgt K) :
    OcpQp K × CondWs K × CondTgt K :=
  match condTop qp.dim.N arg with
  | none => (qp, ws, tg)
  | some N =>
    let D := qp.dim
    if N = 0 then
      let n0 := D.nu 0 + D.nx 0
      (qp, ws, { tg with RSQrq2 := gecp n0 n0 (qp.RSQrq 0) 0 0 tg.RSQrq2 0 0, rqz2 := veccp n0 (qp.rqz 0) 0 tg.rqz2 0 })
    else
      let nu2 := sumTo D.nu (N + 1)
      if arg.cond_alg = 0 then
        let s : RsqSt K := ⟨qp.BAbt, qp.RSQrq, ws.L, ws.Lx, ws.AL, tg.RSQrq2, tg.rqz2, nu2, 0⟩
        let s := rsqLast D ws.Gamma qp.rqz nu2 N s
        let s := loop N (rsqStep sq D ws.Gamma qp.b qp.rqz arg.square_root_alg nu2 N) s
        ({ qp with BAbt := s.BAbt, RSQrq := s.RSQrq }, { ws with L := s.L, Lx := s.Lx, AL := s.AL },
          { tg with RSQrq2 := s.H, rqz2 := s.g })
      else
        let s : Rsq1St K := ⟨qp.RSQrq, ws.GammaQ, ws.tmp_nuxM, gese (nu2 + D.nx 0 + 1) (nu2 + D.nx 0) 0 tg.RSQrq2 0 0,
          tg.rqz2, nu2, 0⟩
        let s := loop (N + 1) (rsq1Step D ws.Gamma qp.rqz qp.diag_H_flag nu2) s
        ({ qp with RSQrq := s.RSQrq }, { ws with GammaQ := s.GammaQ, tmp_nuxM := s.tmp },
          { tg with RSQrq2 := s.H, rqz2 := s.g })

/-! ### constraints -/

/-- number of boxes of stage `k` that stay boxes (`j < n`), x_cond_aux.c:866-873: all of stage 0, those on inputs
of the later stages -/
def boxCount (qp : OcpQp K) (k n : ℕ) : ℕ :=
  loop n (fun j c => if k = 0 ∨ qp.idxb k j < qp.dim.nu k then c + 1 else c) 0
/-- number of boxes of stage `k` that become general constraints -/
def genCount (qp : OcpQp K) (k n : ℕ) : ℕ :=
  loop n (fun j c => if k = 0 ∨ qp.idxb k j < qp.dim.nu k then c else c + 1) 0

/-- variables of COND_DCTD -/
structure DctSt (K : Type*) where
  tg : CondTgt K
  nu_tmp : ℕ
  ib : ℕ
  ig : ℕ
  is : ℕ
  idx_gammab : ℕ

/-- `idxs_rev2[p] = is + idx` if `idx>=0` -/
def setRev (ir : ℕ → ℤ) (p is : ℕ) (idx : ℤ) : ℕ → ℤ := if 0 ≤ idx then upd ir p (is + idx) else ir

/-- a box that stays a box: x_cond_aux.c:953-965 and 1006-1019 -/
def dctBox (qp : OcpQp K) (nb2 ng2 k jj : ℕ) (s : DctSt K) : DctSt K :=
  let n := qp.dim.nb k + qp.dim.ng k
  let t := s.tg
  { s with
    tg := { t with
      d2 := upd (upd t.d2 s.ib (qp.d k jj)) (nb2 + ng2 + s.ib) (qp.d k (n + jj))
      d_mask2 := upd (upd t.d_mask2 s.ib (qp.d_mask k jj)) (nb2 + ng2 + s.ib) (qp.d_mask k (n + jj))
      m2 := upd (upd t.m2 s.ib (qp.m k jj)) (nb2 + ng2 + s.ib) (qp.m k (n + jj))
      idxb2 := upd t.idxb2 s.ib (s.nu_tmp - qp.dim.nu k + qp.idxb k jj)
      idxs_rev2 := setRev t.idxs_rev2 s.ib s.is (qp.idxs_rev k jj) }
    ib := s.ib + 1 }

/-- a box on a state that becomes a general constraint: x_cond_aux.c:969-984 -/
def dctGen (qp : OcpQp K) (ws : CondWs K) (nb2 ng2 k jj : ℕ) (s : DctSt K) : DctSt K :=
  let n := qp.dim.nb k + qp.dim.ng k
  let idx_g := qp.idxb k jj - qp.dim.nu k
  let tmp := ws.Gammab (k - 1) idx_g
  let t := s.tg
  { s with
    tg := { t with
      d2 := upd (upd t.d2 (nb2 + s.ig) (qp.d k jj - tmp)) (2 * nb2 + ng2 + s.ig) (qp.d k (n + jj) + tmp)
      d_mask2 := upd (upd t.d_mask2 (nb2 + s.ig) (qp.d_mask k jj)) (2 * nb2 + ng2 + s.ig) (qp.d_mask k (n + jj))
      m2 := upd (upd t.m2 (nb2 + s.ig) (qp.m k jj)) (2 * nb2 + ng2 + s.ig) (qp.m k (n + jj))
      DCt2 := gecp s.idx_gammab 1 (ws.Gamma (k - 1)) 0 idx_g t.DCt2 s.nu_tmp s.ig
      idxs_rev2 := setRev t.idxs_rev2 (nb2 + s.ig) s.is (qp.idxs_rev k jj) }
    ig := s.ig + 1 }

/-- boxes of a stage `N-ii`, `ii<N`: x_cond_aux.c:934-989 -/
def dctBoxes (qp : OcpQp K) (ws : CondWs K) (nb2 ng2 N ii : ℕ) (s : DctSt K) : DctSt K :=
  let k := N - ii
  let s := { s with nu_tmp := s.nu_tmp + qp.dim.nu k }
  let s := loop (qp.dim.nb k) (fun jj s =>
    if qp.idxb k jj < qp.dim.nu k then dctBox qp nb2 ng2 k jj s else dctGen qp ws nb2 ng2 k jj s) s
  { s with idx_gammab := s.idx_gammab - qp.dim.nu (N - 1 - ii), is := s.is + qp.dim.ns k }

/-- boxes of stage 0: x_cond_aux.c:991-1021 -/
def dctBoxes0 (qp : OcpQp K) (nb2 ng2 : ℕ) (s : DctSt K) : DctSt K :=
  let s := { s with nu_tmp := s.nu_tmp + qp.dim.nu 0 }
  let s := loop (qp.dim.nb 0) (fun jj s => dctBox qp nb2 ng2 0 jj s) s
  { s with is := s.is + qp.dim.ns 0 }

/-- variables of the loop over general constraints -/
structure DctGSt (K : Type*) where
  tg : CondTgt K
  tmp : Vec K
  nu_tmp : ℕ
  ng_tmp : ℕ
  is : ℕ

/-- copy of `d, d_mask, m` of the general constraints of a stage to position `p` of the target,
x_cond_aux.c:1059-1064 and 1106-1111 -/
def dctGd (qp : OcpQp K) (nb2 ng2 nbg k ng_tmp : ℕ) (t : CondTgt K) : CondTgt K :=
  let nb0 := qp.dim.nb k; let ng0 := qp.dim.ng k
  { t with
    d2 := veccp ng0 (qp.d k) (2 * nb0 + ng0) (veccp ng0 (qp.d k) nb0 t.d2 (nb2 + nbg + ng_tmp)) (2 * nb2 + ng2 + nbg + ng_tmp)
    d_mask2 := veccp ng0 (qp.d_mask k) (2 * nb0 + ng0) (veccp ng0 (qp.d_mask k) nb0 t.d_mask2 (nb2 + nbg + ng_tmp))
      (2 * nb2 + ng2 + nbg + ng_tmp)
    m2 := veccp ng0 (qp.m k) (2 * nb0 + ng0) (veccp ng0 (qp.m k) nb0 t.m2 (nb2 + nbg + ng_tmp)) (2 * nb2 + ng2 + nbg + ng_tmp) }

/-- `idxs_rev2` of the general constraints of a stage, x_cond_aux.c:1044-1051 and 1095-1102 -/
def dctGrev (qp : OcpQp K) (nb2 nbg k ng_tmp is : ℕ) (ir : ℕ → ℤ) : ℕ → ℤ :=
  loop (qp.dim.ng k) (fun ig ir => setRev ir (nb2 + nbg + ng_tmp + ig) is (qp.idxs_rev k (qp.dim.nb k + ig))) ir

/-- general constraints of a stage `N-ii`, `ii<N`: x_cond_aux.c:1033-1083 -/
def dctG (qp : OcpQp K) (ws : CondWs K) (nu2 nb2 ng2 nbg N ii : ℕ) (s : DctGSt K) : DctGSt K :=
  let k := N - ii
  let nu0 := qp.dim.nu k; let nx0 := qp.dim.nx k; let ng0 := qp.dim.ng k; let ns0 := qp.dim.ns k
  if 0 < ng0 then
    let t := s.tg
    let t := { t with idxs_rev2 := dctGrev qp nb2 nbg k s.ng_tmp s.is t.idxs_rev2 }
    let C := gecp nu0 ng0 (qp.DCt k) 0 0 t.DCt2 s.nu_tmp (nbg + s.ng_tmp)
    let nu_tmp := s.nu_tmp + nu0
    let C := gemm_nn (nu2 + qp.dim.nx 0 - nu_tmp) ng0 nx0 1 (ws.Gamma (k - 1)) 0 0 (qp.DCt k) nu0 0 0 C nu_tmp (nbg + s.ng_tmp)
      C nu_tmp (nbg + s.ng_tmp)
    let t := dctGd qp nb2 ng2 nbg k s.ng_tmp { t with DCt2 := C }
    let tmp := gemv_t nx0 ng0 1 (qp.DCt k) nu0 0 (ws.Gammab (k - 1)) 0 0 s.tmp 0 s.tmp 0
    let d2 := axpy ng0 (-1) tmp 0 t.d2 (nb2 + nbg + s.ng_tmp) t.d2 (nb2 + nbg + s.ng_tmp)
    let d2 := axpy ng0 1 tmp 0 d2 (2 * nb2 + ng2 + nbg + s.ng_tmp) d2 (2 * nb2 + ng2 + nbg + s.ng_tmp)
    { tg := { t with d2 := d2 }, tmp := tmp, nu_tmp := nu_tmp, ng_tmp := s.ng_tmp + ng0, is := s.is + ns0 }
  else { s with nu_tmp := s.nu_tmp + nu0, is := s.is + ns0 }

/-- general constraints of stage 0: x_cond_aux.c:1085-1116 -/
def dctG0 (qp : OcpQp K) (nb2 ng2 nbg : ℕ) (s : DctGSt K) : DctGSt K :=
  let ng0 := qp.dim.ng 0
  if 0 < ng0 then
    let t := s.tg
    let t := { t with idxs_rev2 := dctGrev qp nb2 nbg 0 s.ng_tmp s.is t.idxs_rev2 }
    let t := { t with DCt2 := gecp (qp.dim.nu 0 + qp.dim.nx 0) ng0 (qp.DCt 0) 0 0 t.DCt2 s.nu_tmp (nbg + s.ng_tmp) }
    { s with tg := dctGd qp nb2 ng2 nbg 0 s.ng_tmp t, is := s.is + qp.dim.ns 0 }
  else { s with is := s.is + qp.dim.ns 0 }

/-- slack data of a stage `N-ii`, `ii<=N`: x_cond_aux.c:1118-1149 (`s.2` is `is`) -/
def dctS (qp : OcpQp K) (nv2 nt2 ns2 N ii : ℕ) (s : CondTgt K × ℕ) : CondTgt K × ℕ :=
  let k := N - ii
  let nv := qp.dim.nu k + qp.dim.nx k
  let n := 2 * qp.dim.nb k + 2 * qp.dim.ng k
  let ns0 := qp.dim.ns k
  let is := s.2
  (loop ns0 (fun jj t => { t with
    Z2 := upd (upd t.Z2 (is + jj) (qp.Z k jj)) (ns2 + is + jj) (qp.Z k (ns0 + jj))
    rqz2 := upd (upd t.rqz2 (nv2 + (is + jj)) (qp.rqz k (nv + jj))) (nv2 + (ns2 + is + jj)) (qp.rqz k (nv + (ns0 + jj)))
    d2 := upd (upd t.d2 (2 * nt2 + (is + jj)) (qp.d k (n + jj))) (2 * nt2 + ns2 + (is + jj)) (qp.d k (n + ns0 + jj))
    d_mask2 := upd (upd t.d_mask2 (2 * nt2 + (is + jj)) (qp.d_mask k (n + jj))) (2 * nt2 + ns2 + (is + jj)) (qp.d_mask k (n + ns0 + jj))
    m2 := upd (upd t.m2 (2 * nt2 + (is + jj)) (qp.m k (n + jj))) (2 * nt2 + ns2 + (is + jj)) (qp.m k (n + ns0 + jj)) }) s.1,
   is + ns0)

/-- COND_DCTD, x_cond_aux.c:798-1153 -/
def condDctd (qp : OcpQp K) (arg : CondArg) (ws : CondWs K) (tg : CondTgt K) : CondWs K × CondTgt K :=
  match condTop qp.dim.N arg with
  | none => (ws, tg)
  | some N =>
    let D := qp.dim
    if N = 0 ∧ arg.cond_last_stage = true then
      let nc := 2 * D.nb 0 + 2 * D.ng 0 + 2 * D.ns 0
      let nv := D.nu 0 + D.nx 0
      (ws, { tg with
        d2 := veccp nc (qp.d 0) 0 tg.d2 0
        d_mask2 := veccp nc (qp.d_mask 0) 0 tg.d_mask2 0
        m2 := veccp nc (qp.m 0) 0 tg.m2 0
        DCt2 := gecp nv (D.ng 0) (qp.DCt 0) 0 0 tg.DCt2 0 0
        idxb2 := veccp (D.nb 0) (qp.idxb 0) 0 tg.idxb2 0
        Z2 := veccp (2 * D.ns 0) (qp.Z 0) 0 tg.Z2 0
        rqz2 := veccp (2 * D.ns 0) (qp.rqz 0) nv tg.rqz2 nv
        idxs_rev2 := veccp (D.nb 0 + D.ng 0) (qp.idxs_rev 0) 0 tg.idxs_rev2 0 })
    else
      let nb2 := sumTo (fun k => boxCount qp k (D.nb k)) (N + 1)
      let nbg := sumTo (fun k => genCount qp k (D.nb k)) (N + 1)
      let nu2 := sumTo D.nu (N + 1); let nx2 := D.nx 0
      let ns2 := sumTo D.ns (N + 1)
      let ng2 := nbg + sumTo D.ng (N + 1)
      let tg := { tg with DCt2 := gese (nu2 + nx2) ng2 0 tg.DCt2 0 0 }
      let s : DctSt K := ⟨tg, 0, 0, 0, 0, D.nx 0 + sumTo D.nu N⟩
      let s := loop N (dctBoxes qp ws nb2 ng2 N) s
      let s := dctBoxes0 qp nb2 ng2 s
      let g : DctGSt K := ⟨s.tg, ws.tmp_nbgM, 0, 0, 0⟩
      let g := loop N (dctG qp ws nu2 nb2 ng2 nbg N) g
      let g := dctG0 qp nb2 ng2 nbg g
      let t := loop (N + 1) (dctS qp (nu2 + nx2) (nb2 + ng2) ns2 N) (g.tg, 0)
      ({ ws with tmp_nbgM := g.tmp }, t.1)

/-! ### expansion -/

/-- `struct DENSE_QP_SOL` (include/hpipm_d_dense_qp_sol.h:56-67); also the vectors of one stage of a partially
condensed solution -/
structure DSol (K : Type*) where
  v : Vec K
  pi : Vec K
  lam : Vec K
  t : Vec K

/-- EXPAND_SOL, inputs of the stages and state of stage 0, x_cond_aux.c:2259-2266 (`N` is the last condensed stage) -/
def expInputs (qp : OcpQp K) (N : ℕ) (v : Vec K) (ux : ℕ → Vec K) : ℕ → Vec K :=
  let D := qp.dim
  let s := loop N (fun ii (s : (ℕ → Vec K) × ℕ) =>
    (upd s.1 (N - ii) (veccp (D.nu (N - ii)) v s.2 (s.1 (N - ii)) 0), s.2 + D.nu (N - ii))) (ux, 0)
  upd s.1 0 (veccp (D.nu 0 + D.nx 0) v s.2 (s.1 0) 0)

/-- EXPAND_SOL, simulation of the states, x_cond_aux.c:2268-2272 -/
def expSim (qp : OcpQp K) (N : ℕ) (ux : ℕ → Vec K) : ℕ → Vec K :=
  let D := qp.dim
  loop N (fun ii ux => upd ux (ii + 1)
    (gemv_t (D.nu ii + D.nx ii) (D.nx (ii + 1)) 1 (qp.BAbt ii) 0 0 (ux ii) 0 1 (qp.b ii) 0 (ux (ii + 1)) (D.nu (ii + 1)))) ux

/-- EXPAND_SOL, slacks, x_cond_aux.c:2274-2287 -/
def expSlk (qp : OcpQp K) (N nu2 ns2 : ℕ) (v : Vec K) (ux : ℕ → Vec K) : ℕ → Vec K :=
  let D := qp.dim
  (loop (N + 1) (fun ii (s : (ℕ → Vec K) × ℕ) =>
    let k := N - ii
    let nv := D.nu k + D.nx k
    (loop (D.ns k) (fun jj ux => upd ux k
      (upd (upd (ux k) (nv + jj) (v (nu2 + D.nx 0 + s.2 + jj))) (nv + D.ns k + jj) (v (nu2 + D.nx 0 + ns2 + s.2 + jj)))) s.1,
     s.2 + D.ns k)) (ux, 0)).1

/-- EXPAND_SOL, primal part, x_cond_aux.c:2257-2289 -/
def expPrim (qp : OcpQp K) (N nu2 ns2 : ℕ) (v : Vec K) (ux : ℕ → Vec K) : ℕ → Vec K :=
  expSlk qp N nu2 ns2 v (expSim qp N (expInputs qp N v ux))

/-- EXPAND_SOL, multipliers or slacks of the boxes (the same statements for `lam` and for `t`), stages N..1;
returns (x, nbb, nbg): `y` is the condensed vector, `x` the vectors of the stages -/
def expBoxes (qp : OcpQp K) (N nb2 ng2 : ℕ) (y : Vec K) (x : ℕ → Vec K) : (ℕ → Vec K) × ℕ × ℕ :=
  let D := qp.dim
  loop N (fun ii (s : (ℕ → Vec K) × ℕ × ℕ) =>
    let k := N - ii
    let n := D.nb k + D.ng k
    loop (D.nb k) (fun jj s =>
      if qp.idxb k jj < D.nu k then
        (upd s.1 k (upd (upd (s.1 k) jj (y s.2.1)) (n + jj) (y (nb2 + ng2 + s.2.1))), s.2.1 + 1, s.2.2)
      else
        (upd s.1 k (upd (upd (s.1 k) jj (y (nb2 + s.2.2))) (n + jj) (y (2 * nb2 + ng2 + s.2.2))), s.2.1, s.2.2 + 1)) s) (x, 0, 0)

/-- the same for the general constraints of the stages N..1; returns (x, ngg) -/
def expGens (qp : OcpQp K) (N nb2 ng2 nbg : ℕ) (y : Vec K) (x : ℕ → Vec K) : (ℕ → Vec K) × ℕ :=
  let D := qp.dim
  loop N (fun ii (s : (ℕ → Vec K) × ℕ) =>
    let k := N - ii
    loop (D.ng k) (fun jj s =>
      (upd s.1 k (upd (upd (s.1 k) (D.nb k + jj) (y (nb2 + nbg + s.2))) (2 * D.nb k + D.ng k + jj) (y (2 * nb2 + ng2 + nbg + s.2))),
        s.2 + 1)) s) (x, 0)

/-- the same for the slacks, all stages -/
def expSlacks (qp : OcpQp K) (N nb2 ng2 ns2 : ℕ) (y : Vec K) (x : ℕ → Vec K) : ℕ → Vec K :=
  let D := qp.dim
  (loop (N + 1) (fun ii (s : (ℕ → Vec K) × ℕ) =>
    let k := N - ii
    let n := 2 * D.nb k + 2 * D.ng k
    (loop (D.ns k) (fun jj x => upd x k
      (upd (upd (x k) (n + jj) (y (2 * nb2 + 2 * ng2 + s.2 + jj))) (n + D.ns k + jj) (y (2 * nb2 + 2 * ng2 + ns2 + s.2 + jj)))) s.1,
     s.2 + D.ns k)) (x, 0)).1

/-- EXPAND_SOL, inequality multipliers or slacks (the same statements for `lam` and for `t`),
x_cond_aux.c:2300-2428: `y` is the condensed vector, `x` the vectors of the stages -/
def expIneq (qp : OcpQp K) (N nb2 ng2 ns2 : ℕ) (y : Vec K) (x : ℕ → Vec K) : ℕ → Vec K :=
  let D := qp.dim
  let s := expBoxes qp N nb2 ng2 y x
  let nbb := s.2.1; let nbg := s.2.2
  let x0 := veccp (D.nb 0) y nbb (s.1 0) 0
  let x0 := veccp (D.nb 0) y (nb2 + ng2 + nbb) x0 (D.nb 0 + D.ng 0)
  let s := expGens qp N nb2 ng2 nbg y (upd s.1 0 x0)
  let ngg := s.2
  let x0 := veccp (D.ng 0) y (nb2 + nbg + ngg) (s.1 0) (D.nb 0)
  let x0 := veccp (D.ng 0) y (2 * nb2 + ng2 + nbg + ngg) x0 (2 * D.nb 0 + D.ng 0)
  expSlacks qp N nb2 ng2 ns2 y (upd s.1 0 x0)

/-- EXPAND_SOL, gradient of the Lagrangian of stage `k` without the multiplier of the incoming dynamics,
x_cond_aux.c:2446-2451 (last stage, `dyn = false`) and 2458-2464; `s = (tmp_nuxM, tmp_nbgM)` -/
def expGrad (qp : OcpQp K) (ux pi lam : ℕ → Vec K) (dyn : Bool) (k : ℕ) (s : Vec K × Vec K) : Vec K × Vec K :=
  let D := qp.dim
  let nu := D.nu k; let nx := D.nx k
  let tx := veccp nx (qp.rqz k) nu s.1 nu
  let tb := axpy (D.nb k + D.ng k) (-1) (lam k) 0 (lam k) (D.nb k + D.ng k) s.2 0
  let tx := vecad_sp (D.nb k) 1 tb 0 (qp.idxb k) tx 0
  let tx := symv_l (nu + nx) 1 (qp.RSQrq k) 0 0 (ux k) 0 1 tx 0 tx 0
  let tx := if dyn then gemv_n nx (D.nx (k + 1)) 1 (qp.BAbt k) nu 0 (pi k) 0 1 tx nu tx nu else tx
  let tx := gemv_n nx (D.ng k) 1 (qp.DCt k) nu 0 tb (D.nb k) 1 tx nu tx nu
  (tx, tb)

/-- EXPAND_SOL, equality multipliers, x_cond_aux.c:2438-2467; state (pi, tmp_nuxM, tmp_nbgM) -/
def expPi (qp : OcpQp K) (cls : Bool) (pic : Vec K) (ux lam : ℕ → Vec K) (s : (ℕ → Vec K) × Vec K × Vec K) :
    (ℕ → Vec K) × Vec K × Vec K :=
  let D := qp.dim
  let Np := D.N
  let s := if cls = false then (upd s.1 (Np - 1) (veccp (D.nx Np) pic 0 (s.1 (Np - 1)) 0), s.2)
    else
      let r := expGrad qp ux s.1 lam false Np s.2
      (upd s.1 (Np - 1) (veccp (D.nx Np) r.1 (D.nu Np) (s.1 (Np - 1)) 0), r)
  loop (Np - 1) (fun ii s =>
    let k := Np - 1 - ii
    let r := expGrad qp ux s.1 lam true k s.2
    (upd s.1 (k - 1) (veccp (D.nx k) r.1 (D.nu k) (s.1 (k - 1)) 0), r)) s

/-- EXPAND_SOL, x_cond_aux.c:2164-2473 (without condensing the last stage `N==0` would read past the arrays and is
not called) -/
def expandSol (qp : OcpQp K) (arg : CondArg) (ws : CondWs K) (ds : DSol K) (sol : Sol K) : CondWs K × Sol K :=
  let D := qp.dim
  let N := if arg.cond_last_stage = false then D.N - 1 else D.N
  if N = 0 ∧ arg.cond_last_stage = true then
    let nc := 2 * D.nb 0 + 2 * D.ng 0 + 2 * D.ns 0
    (ws, { sol with
      ux := if arg.comp_prim_sol ≠ 0 then upd sol.ux 0 (veccp (D.nu 0 + D.nx 0 + 2 * D.ns 0) ds.v 0 (sol.ux 0) 0) else sol.ux
      lam := if arg.comp_dual_sol_ineq ≠ 0 then upd sol.lam 0 (veccp nc ds.lam 0 (sol.lam 0) 0) else sol.lam
      t := if arg.comp_dual_sol_ineq ≠ 0 then upd sol.t 0 (veccp nc ds.t 0 (sol.t 0) 0) else sol.t })
  else
    let nb2 := sumTo (fun k => boxCount qp k (D.nb k)) (N + 1)
    let nbg := sumTo (fun k => genCount qp k (D.nb k)) (N + 1)
    let nu2 := sumTo D.nu (N + 1)
    let ns2 := sumTo D.ns (N + 1)
    let ng2 := nbg + sumTo D.ng (N + 1)
    let ux := if arg.comp_prim_sol = 0 then sol.ux else expPrim qp N nu2 ns2 ds.v sol.ux
    let lam := if arg.comp_dual_sol_ineq = 0 then sol.lam else expIneq qp N nb2 ng2 ns2 ds.lam sol.lam
    let t := if arg.comp_dual_sol_ineq = 0 then sol.t else expIneq qp N nb2 ng2 ns2 ds.t sol.t
    if arg.comp_dual_sol_eq = 0 then (ws, { sol with ux := ux, lam := lam, t := t })
    else
      let r := expPi qp arg.cond_last_stage ds.pi ux lam (sol.pi, ws.tmp_nuxM, ws.tmp_nbgM)
      ({ ws with tmp_nuxM := r.2.1, tmp_nbgM := r.2.2 }, ⟨ux, r.1, lam, t⟩)

end
end Hpipm
