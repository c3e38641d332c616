/-
Condensing in two steps: COND_QP_COND_LHS and COND_QP_COND_RHS (cond/x_cond.c:462-490).  The matrices are condensed by COND_BAT,
COND_RSQ and COND_DCT, the vectors by COND_B, COND_RQ and COND_D (cond/x_cond_aux.c:103-205, 431-812, 1157-1812).  COND_BAT and
COND_B are `condBat` and `condB` of Cond.lean.
Simplifications: as in Cond.lean; `d_mask2` is not `NULL` (the dense QP always has one); a soft constraint of a stage without slacks
(`idxs_rev >= 0` although `ns = 0`, where the code would use a stale pointer) reads the data of its own stage.
-/
import Verif.CondFull

namespace Hpipm
open Finset
set_option linter.unusedSectionVars false

section
variable {K : Type*} [Field K] [LinearOrder K]

/-- variables of COND_RSQ, first algorithm (x_cond_aux.c:463-476) -/
structure HsqSt (K : Type*) where
  L : ℕ → Mat K
  Lx : Mat K
  AL : Mat K
  H : Mat K
  nub : ℕ
  nuf : ℕ

/-- block column of stage `k`: D and M, x_cond_aux.c:488-493, 516-520, 559-563, 581-585; the square-root variant multiplies one more
row in the middle stages (`ex = 1`, line 518) -/
def hsqCols (D : QpDim) (Gamma : ℕ → Mat K) (ex k : ℕ) (s : HsqSt K) : HsqSt K :=
  let nu := D.nu k; let nx := D.nx k
  let nub := s.nub - nu
  let H := trcp_l nu (s.L k) 0 0 s.H s.nuf s.nuf
  let H := gemm_nn (nub + D.nx 0 + ex) nu nx 1 (Gamma (k - 1)) 0 0 (s.L k) nu 0 0 H (s.nuf + nu) s.nuf H (s.nuf + nu) s.nuf
  { s with H := H, nub := nub, nuf := s.nuf + nu }

/-- final stage, x_cond_aux.c:483-493 and 551-561 -/
def hsqLast (D : QpDim) (Gamma RSQrq : ℕ → Mat K) (N : ℕ) (s : HsqSt K) : HsqSt K :=
  let n := D.nu N + D.nx N
  hsqCols D Gamma 0 N { s with L := upd s.L N (gecp n n (RSQrq N) 0 0 (s.L N) 0 0) }

/-- square-root update of stage `k+1 → k`, x_cond_aux.c:501-513 and 526-541; the first stage multiplies one more row (`ex = 1`,
line 537).  The result of the factorisation is used without a test. -/
def hsqSqrt (sq : K → K) (D : QpDim) (BAbt RSQrq : ℕ → Mat K) (ex k : ℕ) (s : HsqSt K) : HsqSt K :=
  let nu := D.nu k; let nx := D.nx k; let nx1 := D.nx (k + 1); let nu1 := D.nu (k + 1)
  let Lx := potrf_l_mn sq nx1 nx1 (fun i j => s.L (k + 1) (nu1 + i) (nu1 + j)) s.Lx
  let AL := trmm_rlnn (nu + nx + ex) nx1 1 Lx 0 0 (BAbt k) 0 0 s.AL 0 0
  let Lk := syrk_ln_mn (nu + nx) (nu + nx) nx1 1 AL 0 0 AL 0 0 1 (RSQrq k) 0 0 (s.L k) 0 0
  { s with Lx := Lx, AL := AL, L := upd s.L k Lk }

/-- classical update of stage `k+1 → k`, x_cond_aux.c:570-575 and 592-597 -/
def hsqClassic (D : QpDim) (BAbt RSQrq : ℕ → Mat K) (k : ℕ) (s : HsqSt K) : HsqSt K :=
  let nu := D.nu k; let nx := D.nx k; let nx1 := D.nx (k + 1); let nu1 := D.nu (k + 1)
  let Lx := trcp_l nx1 (s.L (k + 1)) nu1 nu1 s.Lx 0 0
  let Lx := trtr_l nx1 Lx 0 0 Lx 0 0
  let AL := gemm_nt (nu + nx) nx1 nx1 1 (BAbt k) 0 0 Lx 0 0 0 s.AL 0 0 s.AL 0 0
  let Lk := syrk_ln_mn (nu + nx) (nu + nx) nx1 1 AL 0 0 (BAbt k) 0 0 1 (RSQrq k) 0 0 (s.L k) 0 0
  { s with Lx := Lx, AL := AL, L := upd s.L k Lk }

/-- middle stages (`nn < N-1`) and first stage (`nn = N-1`), x_cond_aux.c:496-543 and 564-600 -/
def hsqStep (sq : K → K) (D : QpDim) (Gamma BAbt RSQrq : ℕ → Mat K) (sqr : ℤ) (N nn : ℕ) (s : HsqSt K) : HsqSt K :=
  let k := N - nn - 1
  let s := if sqr ≠ 0 then hsqSqrt sq D BAbt RSQrq (if nn = N - 1 then 1 else 0) k s else hsqClassic D BAbt RSQrq k s
  if nn = N - 1 then { s with H := trcp_l (D.nu 0 + D.nx 0) (s.L k) 0 0 s.H s.nuf s.nuf }
  else hsqCols D Gamma (if sqr ≠ 0 then 1 else 0) k s

/-- variables of COND_RSQ, second algorithm -/
structure Hsq1St (K : Type*) where
  RSQrq : ℕ → Mat K
  GammaQ : Mat K
  tmp : Vec K
  H : Mat K
  nub : ℕ
  nuf : ℕ

/-- body of the loop of the second algorithm, x_cond_aux.c:611-641 -/
def hsq1Step (D : QpDim) (Gamma : ℕ → Mat K) (dflag : ℕ → ℤ) (nn : ℕ) (s : Hsq1St K) : Hsq1St K :=
  let nu := D.nu nn; let nx := D.nx nn; let nx0 := D.nx 0
  let nub := s.nub - nu
  if nn = 0 then { s with H := trcp_l (nu + nx0) (s.RSQrq 0) 0 0 s.H nub nub, nub := nub, nuf := s.nuf + nu }
  else
    let s : Hsq1St K :=
      if dflag nn ≠ 0 then
        let tmp := diaex nx 1 (s.RSQrq nn) nu nu s.tmp 0
        { s with tmp := tmp, GammaQ := gemm_nd (s.nuf + nx0) nx 1 (Gamma (nn - 1)) 0 0 tmp 0 0 s.GammaQ 0 0 s.GammaQ 0 0 }
      else
        let RS := trtr_l (nu + nx) (s.RSQrq nn) 0 0 (s.RSQrq nn) 0 0
        { s with RSQrq := upd s.RSQrq nn RS,
                 GammaQ := gemm_nn (s.nuf + nx0) nx nx 1 (Gamma (nn - 1)) 0 0 RS nu nu 0 s.GammaQ 0 0 s.GammaQ 0 0 }
    let H := syrk_ln_mn (s.nuf + nx0) (s.nuf + nx0) nx 1 s.GammaQ 0 0 (Gamma (nn - 1)) 0 0 1 s.H (nub + nu) (nub + nu)
      s.H (nub + nu) (nub + nu)
    let H := gead nu nu 1 (s.RSQrq nn) 0 0 H nub nub
    let H := if dflag nn = 0 then
        gemm_nn (s.nuf + nx0) nu nx 1 (Gamma (nn - 1)) 0 0 (s.RSQrq nn) nu 0 1 H (nub + nu) nub H (nub + nu) nub
      else H
    { s with H := H, nub := nub, nuf := s.nuf + nu }

/-- COND_RSQ, x_cond_aux.c:431-647; also returns the caller's OCP QP, whose matrices the second algorithm modifies -/
def condRsq (sq : K → K) (qp : OcpQp K) (arg : CondArg) (ws : CondWs K) (tg : CondTgt K) : OcpQp K × CondWs K × CondTgt K :=
  match condTop qp.dim.N arg with
  | none => (qp, ws, tg)
  | some N =>
    let D := qp.dim
    if N = 0 then
      let n0 := D.nu 0 + D.nx 0
      (qp, ws, { tg with RSQrq2 := gecp n0 n0 (qp.RSQrq 0) 0 0 tg.RSQrq2 0 0 })
    else
      let nu2 := sumTo D.nu (N + 1)
      if arg.cond_alg = 0 then
        let s : HsqSt K := ⟨ws.L, ws.Lx, ws.AL, tg.RSQrq2, nu2, 0⟩
        let s := hsqLast D ws.Gamma qp.RSQrq N s
        let s := loop N (hsqStep sq D ws.Gamma qp.BAbt qp.RSQrq arg.square_root_alg N) s
        (qp, { ws with L := s.L, Lx := s.Lx, AL := s.AL }, { tg with RSQrq2 := s.H })
      else
        let s : Hsq1St K := ⟨qp.RSQrq, ws.GammaQ, ws.tmp_nuxM, gese (nu2 + D.nx 0) (nu2 + D.nx 0) 0 tg.RSQrq2 0 0, nu2, 0⟩
        let s := loop (N + 1) (hsq1Step D ws.Gamma qp.diag_H_flag) s
        ({ qp with RSQrq := s.RSQrq }, { ws with GammaQ := s.GammaQ, tmp_nuxM := s.tmp }, { tg with RSQrq2 := s.H })

/-- variables of COND_RQ, first algorithm -/
structure RqSt (K : Type*) where
  L : ℕ → Mat K
  l : ℕ → Vec K
  tmp : Vec K
  g : Vec K
  nuf : ℕ

/-- gradient block of stage `k`, x_cond_aux.c:704-706 and 720-722 -/
def rqCols (D : QpDim) (Gammab : ℕ → Vec K) (k : ℕ) (s : RqSt K) : RqSt K :=
  { s with g := gemv_t (D.nx k) (D.nu k) 1 (s.L k) (D.nu k) 0 (Gammab (k - 1)) 0 1 (s.l k) 0 s.g s.nuf, nuf := s.nuf + D.nu k }

/-- final stage, x_cond_aux.c:699-706 -/
def rqLast (D : QpDim) (Gammab rqz : ℕ → Vec K) (N : ℕ) (s : RqSt K) : RqSt K :=
  rqCols D Gammab N { s with l := upd s.l N (veccp (D.nu N + D.nx N) (rqz N) 0 (s.l N) 0) }

/-- gradient of the cost to go, stage `k+1 → k`, x_cond_aux.c:715-718 and 731-734 (the stored lower triangle of `L` is first copied to
its upper triangle) -/
def rqRec (D : QpDim) (BAbt : ℕ → Mat K) (b rqz : ℕ → Vec K) (k : ℕ) (s : RqSt K) : RqSt K :=
  let nu := D.nu k; let nx := D.nx k; let nx1 := D.nx (k + 1); let nu1 := D.nu (k + 1)
  let L1 := trtr_l (nx1 + nu1) (s.L (k + 1)) 0 0 (s.L (k + 1)) 0 0
  let tmp := gemv_n nx1 nx1 1 L1 nu1 nu1 (b k) 0 1 (s.l (k + 1)) nu1 s.tmp 0
  let lk := gemv_n (nu + nx) nx1 1 (BAbt k) 0 0 tmp 0 1 (rqz k) 0 (s.l k) 0
  { s with L := upd s.L (k + 1) L1, tmp := tmp, l := upd s.l k lk }

/-- middle stages (`nn < N-1`) and first stage (`nn = N-1`), x_cond_aux.c:709-738 -/
def rqStep (D : QpDim) (BAbt : ℕ → Mat K) (b rqz Gammab : ℕ → Vec K) (N nn : ℕ) (s : RqSt K) : RqSt K :=
  let k := N - nn - 1
  let s := rqRec D BAbt b rqz k s
  if nn = N - 1 then { s with g := veccp (D.nu 0 + D.nx 0) (s.l k) 0 s.g s.nuf }
  else rqCols D Gammab k s

/-- variables of COND_RQ, second algorithm -/
structure Rq1St (K : Type*) where
  tmp : Vec K
  g : Vec K
  nub : ℕ
  nuf : ℕ

/-- body of the loop of the second algorithm, x_cond_aux.c:749-804 -/
def rq1Step (D : QpDim) (Gamma RSQrq : ℕ → Mat K) (Gammab rqz : ℕ → Vec K) (dflag : ℕ → ℤ) (nn : ℕ) (s : Rq1St K) : Rq1St K :=
  let nu := D.nu nn; let nx := D.nx nn; let nx0 := D.nx 0
  let nub := s.nub - nu
  if nn = 0 then { s with g := veccp (nu + nx0) (rqz 0) 0 s.g nub, nub := nub, nuf := s.nuf + nu }
  else
    let tmp := if dflag nn ≠ 0 then
        let tmp := diaex nx 1 (RSQrq nn) nu nu s.tmp 0
        gemv_diag nx 1 tmp 0 (Gammab (nn - 1)) 0 1 (rqz nn) nu tmp 0
      else symv_l nx 1 (RSQrq nn) nu nu (Gammab (nn - 1)) 0 1 (rqz nn) nu s.tmp 0
    let g := gemv_n (s.nuf + nx0) nx 1 (Gamma (nn - 1)) 0 0 tmp 0 1 s.g (nub + nu) s.g (nub + nu)
    let g := if dflag nn = 0 then gemv_t nx nu 1 (RSQrq nn) nu 0 (Gammab (nn - 1)) 0 1 (rqz nn) 0 g nub
      else axpy nu 1 (rqz nn) 0 g nub g nub
    { tmp := tmp, g := g, nub := nub, nuf := s.nuf + nu }

/-- COND_RQ, x_cond_aux.c:650-812 -/
def condRq (qp : OcpQp K) (arg : CondArg) (ws : CondWs K) (tg : CondTgt K) : CondWs K × CondTgt K :=
  match condTop qp.dim.N arg with
  | none => (ws, tg)
  | some N =>
    let D := qp.dim
    if N = 0 then (ws, { tg with rqz2 := veccp (D.nu 0 + D.nx 0) (qp.rqz 0) 0 tg.rqz2 0 })
    else if arg.cond_alg = 0 then
      let s : RqSt K := ⟨ws.L, ws.l, ws.tmp_nuxM, tg.rqz2, 0⟩
      let s := rqLast D ws.Gammab qp.rqz N s
      let s := loop N (rqStep D qp.BAbt qp.b qp.rqz ws.Gammab N) s
      ({ ws with L := s.L, l := s.l, tmp_nuxM := s.tmp }, { tg with rqz2 := s.g })
    else
      let nu2 := sumTo D.nu (N + 1)
      let s : Rq1St K := ⟨ws.tmp_nuxM, vecse (nu2 + D.nx 0) 0 tg.rqz2 0, nu2, 0⟩
      let s := loop (N + 1) (rq1Step D ws.Gamma qp.RSQrq ws.Gammab qp.rqz qp.diag_H_flag) s
      ({ ws with tmp_nuxM := s.tmp }, { tg with rqz2 := s.g })

/-! ### constraints -/

/-- slack weights of a soft constraint stored at position `p`: the slacks are numbered in order of appearance,
x_cond_aux.c:1260-1267 -/
def dctSoftM (qp : OcpQp K) (ns2 k p : ℕ) (idx : ℤ) (s : CondTgt K × ℕ) : CondTgt K × ℕ :=
  if 0 ≤ idx then
    let t := s.1; let is := s.2; let i := idx.toNat
    ({ t with
      idxs_rev2 := upd t.idxs_rev2 p is
      Z2 := upd (upd t.Z2 is (qp.Z k i)) (ns2 + is) (qp.Z k (qp.dim.ns k + i)) }, is + 1)
  else s

/-- slack data of a soft constraint in COND_D, x_cond_aux.c:1580-1592 -/
def dctSoftD (qp : OcpQp K) (nv2 nt2 ns2 k : ℕ) (idx : ℤ) (s : CondTgt K × ℕ) : CondTgt K × ℕ :=
  if 0 ≤ idx then
    let t := s.1; let is := s.2; let i := idx.toNat
    let nv := qp.dim.nu k + qp.dim.nx k
    let n := 2 * qp.dim.nb k + 2 * qp.dim.ng k
    ({ t with
      rqz2 := upd (upd t.rqz2 (nv2 + is) (qp.rqz k (nv + i))) (nv2 + (ns2 + is)) (qp.rqz k (nv + (qp.dim.ns k + i)))
      d2 := upd (upd t.d2 (2 * nt2 + is) (qp.d k (n + i))) (2 * nt2 + ns2 + is) (qp.d k (n + qp.dim.ns k + i))
      d_mask2 := upd (upd t.d_mask2 (2 * nt2 + is) (qp.d_mask k (n + i))) (2 * nt2 + ns2 + is) (qp.d_mask k (n + qp.dim.ns k + i)) }, is + 1)
  else s

/-- a box that stays a box in COND_DCT, x_cond_aux.c:1257-1268 and 1306-1316 -/
def dctBoxM (qp : OcpQp K) (ns2 k jj : ℕ) (s : DctSt K) : DctSt K :=
  let t := s.tg
  let r := dctSoftM qp ns2 k s.ib (qp.idxs_rev k jj) ({ t with idxb2 := upd t.idxb2 s.ib (s.nu_tmp - qp.dim.nu k + qp.idxb k jj) }, s.is)
  { s with tg := r.1, is := r.2, ib := s.ib + 1 }

/-- a state box that becomes a general constraint in COND_DCT, x_cond_aux.c:1272-1283 -/
def dctGenM (qp : OcpQp K) (ws : CondWs K) (nb2 ns2 k jj : ℕ) (s : DctSt K) : DctSt K :=
  let idx_g := qp.idxb k jj - qp.dim.nu k
  let t := s.tg
  let r := dctSoftM qp ns2 k (nb2 + s.ig) (qp.idxs_rev k jj)
    ({ t with DCt2 := gecp s.idx_gammab 1 (ws.Gamma (k - 1)) 0 idx_g t.DCt2 s.nu_tmp s.ig }, s.is)
  { s with tg := r.1, is := r.2, ig := s.ig + 1 }

/-- boxes of a stage `N-ii`, `ii<N`, in COND_DCT, x_cond_aux.c:1240-1287 -/
def dctBoxesM (qp : OcpQp K) (ws : CondWs K) (nb2 ns2 N ii : ℕ) (s : DctSt K) : DctSt K :=
  let k := N - ii
  let s := { s with nu_tmp := s.nu_tmp + qp.dim.nu k }
  let s := loop (qp.dim.nb k) (fun jj s =>
    if qp.idxb k jj < qp.dim.nu k then dctBoxM qp ns2 k jj s else dctGenM qp ws nb2 ns2 k jj s) s
  { s with idx_gammab := s.idx_gammab - qp.dim.nu (N - 1 - ii) }

/-- boxes of stage 0 in COND_DCT, x_cond_aux.c:1289-1318 -/
def dctBoxesM0 (qp : OcpQp K) (ns2 : ℕ) (s : DctSt K) : DctSt K :=
  let s := { s with nu_tmp := s.nu_tmp + qp.dim.nu 0 }
  loop (qp.dim.nb 0) (fun jj s => dctBoxM qp ns2 0 jj s) s

/-- soft general constraints of a stage in COND_DCT, x_cond_aux.c:1345-1355 and 1398-1409 -/
def dctGsoftM (qp : OcpQp K) (nb2 nbg ns2 k ng_tmp : ℕ) (s : CondTgt K × ℕ) : CondTgt K × ℕ :=
  loop (qp.dim.ng k) (fun ig s => dctSoftM qp ns2 k (nb2 + nbg + ng_tmp + ig) (qp.idxs_rev k (qp.dim.nb k + ig)) s) s

/-- general constraints of a stage `N-ii`, `ii<N`, in COND_DCT, x_cond_aux.c:1329-1380 -/
def dctGM (qp : OcpQp K) (ws : CondWs K) (nu2 nb2 nbg ns2 N ii : ℕ) (s : DctGSt K) : DctGSt K :=
  let k := N - ii
  let nu0 := qp.dim.nu k; let nx0 := qp.dim.nx k; let ng0 := qp.dim.ng k
  if 0 < ng0 then
    let r := dctGsoftM qp nb2 nbg ns2 k s.ng_tmp (s.tg, s.is)
    let t := r.1
    let C := gecp nu0 ng0 (qp.DCt k) 0 0 t.DCt2 s.nu_tmp (nbg + s.ng_tmp)
    let nu_tmp := s.nu_tmp + nu0
    let C := gemm_nn (nu2 + qp.dim.nx 0 - nu_tmp) ng0 nx0 1 (ws.Gamma (k - 1)) 0 0 (qp.DCt k) nu0 0 0 C nu_tmp (nbg + s.ng_tmp)
      C nu_tmp (nbg + s.ng_tmp)
    { s with tg := { t with DCt2 := C }, nu_tmp := nu_tmp, ng_tmp := s.ng_tmp + ng0, is := r.2 }
  else { s with nu_tmp := s.nu_tmp + nu0 }

/-- general constraints of stage 0 in COND_DCT, x_cond_aux.c:1382-1416 -/
def dctGM0 (qp : OcpQp K) (nb2 nbg ns2 : ℕ) (s : DctGSt K) : DctGSt K :=
  let ng0 := qp.dim.ng 0
  if 0 < ng0 then
    let r := dctGsoftM qp nb2 nbg ns2 0 s.ng_tmp (s.tg, s.is)
    let t := r.1
    { s with tg := { t with DCt2 := gecp (qp.dim.nu 0 + qp.dim.nx 0) ng0 (qp.DCt 0) 0 0 t.DCt2 s.nu_tmp (nbg + s.ng_tmp) }, is := r.2 }
  else s

/-- COND_DCT, x_cond_aux.c:1157-1420 -/
def condDct (qp : OcpQp K) (arg : CondArg) (ws : CondWs K) (tg : CondTgt K) : CondTgt K :=
  match condTop qp.dim.N arg with
  | none => tg
  | some N =>
    let D := qp.dim
    if N = 0 ∧ arg.cond_last_stage = true then
      { tg with
        DCt2 := gecp (D.nu 0 + D.nx 0) (D.ng 0) (qp.DCt 0) 0 0 tg.DCt2 0 0
        idxb2 := veccp (D.nb 0) (qp.idxb 0) 0 tg.idxb2 0
        Z2 := veccp (2 * D.ns 0) (qp.Z 0) 0 tg.Z2 0
        idxs_rev2 := veccp (D.nb 0 + D.ng 0) (qp.idxs_rev 0) 0 tg.idxs_rev2 0 }
    else
      let nb2 := sumTo (fun k => boxCount qp k (D.nb k)) (N + 1)
      let nbg := sumTo (fun k => genCount qp k (D.nb k)) (N + 1)
      let nu2 := sumTo D.nu (N + 1); let nx2 := D.nx 0
      let ns2 := sumTo D.ns (N + 1)
      let ng2 := nbg + sumTo D.ng (N + 1)
      let tg := { tg with DCt2 := gese (nu2 + nx2) ng2 0 tg.DCt2 0 0 }
      let s : DctSt K := ⟨tg, 0, 0, 0, 0, D.nx 0 + sumTo D.nu N⟩
      let s := loop N (dctBoxesM qp ws nb2 ns2 N) s
      let s := dctBoxesM0 qp ns2 s
      let g : DctGSt K := ⟨s.tg, ws.tmp_nbgM, 0, 0, s.is⟩
      let g := loop N (dctGM qp ws nu2 nb2 nbg ns2 N) g
      (dctGM0 qp nb2 nbg ns2 g).tg

/-- a box that stays a box in COND_D, x_cond_aux.c:1571-1594 and 1657-1679 -/
def dctBoxD (qp : OcpQp K) (nv2 nb2 ng2 ns2 k jj : ℕ) (s : DctSt K) : DctSt K :=
  let n := qp.dim.nb k + qp.dim.ng k
  let t := s.tg
  let t := { t with
    d2 := upd (upd t.d2 s.ib (qp.d k jj)) (nb2 + ng2 + s.ib) (qp.d k (n + jj))
    d_mask2 := upd (upd t.d_mask2 s.ib (qp.d_mask k jj)) (nb2 + ng2 + s.ib) (qp.d_mask k (n + jj)) }
  let r := dctSoftD qp nv2 (nb2 + ng2) ns2 k (qp.idxs_rev k jj) (t, s.is)
  { s with tg := r.1, is := r.2, ib := s.ib + 1 }

/-- a state box that becomes a general constraint in COND_D, x_cond_aux.c:1598-1624 -/
def dctGenD (qp : OcpQp K) (ws : CondWs K) (nv2 nb2 ng2 ns2 k jj : ℕ) (s : DctSt K) : DctSt K :=
  let n := qp.dim.nb k + qp.dim.ng k
  let tmp := ws.Gammab (k - 1) (qp.idxb k jj - qp.dim.nu k)
  let t := s.tg
  let t := { t with
    d2 := upd (upd t.d2 (nb2 + s.ig) (qp.d k jj - tmp)) (2 * nb2 + ng2 + s.ig) (qp.d k (n + jj) + tmp)
    d_mask2 := upd (upd t.d_mask2 (nb2 + s.ig) (qp.d_mask k jj)) (2 * nb2 + ng2 + s.ig) (qp.d_mask k (n + jj)) }
  let r := dctSoftD qp nv2 (nb2 + ng2) ns2 k (qp.idxs_rev k jj) (t, s.is)
  { s with tg := r.1, is := r.2, ig := s.ig + 1 }

/-- boxes of a stage `N-ii`, `ii<N`, in COND_D, x_cond_aux.c:1541-1629 -/
def dctBoxesD (qp : OcpQp K) (ws : CondWs K) (nv2 nb2 ng2 ns2 N ii : ℕ) (s : DctSt K) : DctSt K :=
  let k := N - ii
  let s := { s with nu_tmp := s.nu_tmp + qp.dim.nu k }
  let s := loop (qp.dim.nb k) (fun jj s =>
    if qp.idxb k jj < qp.dim.nu k then dctBoxD qp nv2 nb2 ng2 ns2 k jj s else dctGenD qp ws nv2 nb2 ng2 ns2 k jj s) s
  { s with idx_gammab := s.idx_gammab - qp.dim.nu (N - 1 - ii) }

/-- boxes of stage 0 in COND_D, x_cond_aux.c:1631-1681 -/
def dctBoxesD0 (qp : OcpQp K) (nv2 nb2 ng2 ns2 : ℕ) (s : DctSt K) : DctSt K :=
  let s := { s with nu_tmp := s.nu_tmp + qp.dim.nu 0 }
  loop (qp.dim.nb 0) (fun jj s => dctBoxD qp nv2 nb2 ng2 ns2 0 jj s) s

/-- soft general constraints of a stage in COND_D, x_cond_aux.c:1712-1728 and 1779-1797 -/
def dctGsoftD (qp : OcpQp K) (nv2 nt2 ns2 k : ℕ) (s : CondTgt K × ℕ) : CondTgt K × ℕ :=
  loop (qp.dim.ng k) (fun ig s => dctSoftD qp nv2 nt2 ns2 k (qp.idxs_rev k (qp.dim.nb k + ig)) s) s

/-- copy of `d, d_mask` of the general constraints of a stage, x_cond_aux.c:1732-1738 and 1799-1805 -/
def dctGdD (qp : OcpQp K) (nb2 ng2 nbg k ng_tmp : ℕ) (t : CondTgt K) : CondTgt K :=
  let nb0 := qp.dim.nb k; let ng0 := qp.dim.ng k
  { t with
    d2 := veccp ng0 (qp.d k) (2 * nb0 + ng0) (veccp ng0 (qp.d k) nb0 t.d2 (nb2 + nbg + ng_tmp)) (2 * nb2 + ng2 + nbg + ng_tmp)
    d_mask2 := veccp ng0 (qp.d_mask k) (2 * nb0 + ng0) (veccp ng0 (qp.d_mask k) nb0 t.d_mask2 (nb2 + nbg + ng_tmp))
      (2 * nb2 + ng2 + nbg + ng_tmp) }

/-- general constraints of a stage `N-ii`, `ii<N`, in COND_D, x_cond_aux.c:1692-1757 -/
def dctGD (qp : OcpQp K) (ws : CondWs K) (nv2 nb2 ng2 nbg ns2 N ii : ℕ) (s : DctGSt K) : DctGSt K :=
  let k := N - ii
  let nu0 := qp.dim.nu k; let nx0 := qp.dim.nx k; let ng0 := qp.dim.ng k
  if 0 < ng0 then
    let r := dctGsoftD qp nv2 (nb2 + ng2) ns2 k (s.tg, s.is)
    let t := dctGdD qp nb2 ng2 nbg k s.ng_tmp r.1
    let tmp := gemv_t nx0 ng0 1 (qp.DCt k) nu0 0 (ws.Gammab (k - 1)) 0 0 s.tmp 0 s.tmp 0
    let d2 := axpy ng0 (-1) tmp 0 t.d2 (nb2 + nbg + s.ng_tmp) t.d2 (nb2 + nbg + s.ng_tmp)
    let d2 := axpy ng0 1 tmp 0 d2 (2 * nb2 + ng2 + nbg + s.ng_tmp) d2 (2 * nb2 + ng2 + nbg + s.ng_tmp)
    { tg := { t with d2 := d2 }, tmp := tmp, nu_tmp := s.nu_tmp + nu0, ng_tmp := s.ng_tmp + ng0, is := r.2 }
  else { s with nu_tmp := s.nu_tmp + nu0 }

/-- general constraints of stage 0 in COND_D, x_cond_aux.c:1759-1809 -/
def dctGD0 (qp : OcpQp K) (nv2 nb2 ng2 nbg ns2 : ℕ) (s : DctGSt K) : DctGSt K :=
  if 0 < qp.dim.ng 0 then
    let r := dctGsoftD qp nv2 (nb2 + ng2) ns2 0 (s.tg, s.is)
    { s with tg := dctGdD qp nb2 ng2 nbg 0 s.ng_tmp r.1, is := r.2 }
  else s

/-- COND_D, x_cond_aux.c:1424-1812 (`m` is not condensed: "TODO cond m" in the code) -/
def condD (qp : OcpQp K) (arg : CondArg) (ws : CondWs K) (tg : CondTgt K) : CondWs K × CondTgt K :=
  match condTop qp.dim.N arg with
  | none => (ws, tg)
  | some N =>
    let D := qp.dim
    if N = 0 ∧ arg.cond_last_stage = true then
      let nc := 2 * D.nb 0 + 2 * D.ng 0 + 2 * D.ns 0
      let nv := D.nu 0 + D.nx 0
      (ws, { tg with
        d2 := veccp nc (qp.d 0) 0 tg.d2 0
        d_mask2 := veccp nc (qp.d_mask 0) 0 tg.d_mask2 0
        rqz2 := veccp (2 * D.ns 0) (qp.rqz 0) nv tg.rqz2 nv })
    else
      let nb2 := sumTo (fun k => boxCount qp k (D.nb k)) (N + 1)
      let nbg := sumTo (fun k => genCount qp k (D.nb k)) (N + 1)
      let nv2 := sumTo D.nu (N + 1) + D.nx 0
      let ns2 := sumTo D.ns (N + 1)
      let ng2 := nbg + sumTo D.ng (N + 1)
      let s : DctSt K := ⟨tg, 0, 0, 0, 0, D.nx 0 + sumTo D.nu N⟩
      let s := loop N (dctBoxesD qp ws nv2 nb2 ng2 ns2 N) s
      let s := dctBoxesD0 qp nv2 nb2 ng2 ns2 s
      let g : DctGSt K := ⟨s.tg, ws.tmp_nbgM, 0, 0, s.is⟩
      let g := loop N (dctGD qp ws nv2 nb2 ng2 nbg ns2 N) g
      let g := dctGD0 qp nv2 nb2 ng2 nbg ns2 g
      ({ ws with tmp_nbgM := g.tmp }, g.tg)

/-! ### the interface -/

/-- COND_QP_COND_LHS, cond/x_cond.c:462-474; `none`: `NULL` is dereferenced (last stage not condensed) -/
def condLhs (sq : K → K) (P : OcpQp K) (dq : DenseQp K) (arg : CondArg) (ws : CondWs K) : Option (OcpQp K × CondWs K × DenseQp K) :=
  if arg.cond_last_stage = true then
    let a := condBat P arg ws (denseTgt dq)
    let r := condRsq sq P arg a.1 a.2
    some (r.1, r.2.1, putDense dq (condDct r.1 arg r.2.1 r.2.2))
  else none

/-- COND_QP_COND_RHS, cond/x_cond.c:478-490 -/
def condRhs (P : OcpQp K) (dq : DenseQp K) (arg : CondArg) (ws : CondWs K) : Option (CondWs K × DenseQp K) :=
  if arg.cond_last_stage = true then
    let a := condB P arg ws (denseTgt dq)
    let r := condRq P arg a.1 a.2
    let o := condD P arg r.1 r.2
    some (o.1, putDense dq o.2)
  else none

end
end Hpipm
