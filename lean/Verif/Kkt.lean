/-
Model of the KKT solvers, ocp_qp/x_ocp_qp_kkt.c: unconstrained Riccati solve, condensing and expansion
of the slacks of soft constraints, factorise-and-solve step (square-root and classical Riccati, with
the regularisation loop), and re-solve with a stored factorisation.

Simplifications: reals instead of floating point numbers; workspace matrices and vectors are total
functions; `dA[i] == 0.0` (inverse pivots stored by POTRF) is `L[i][i] = 0`, see Chol.lean.  The flat
core vectors (`lam`, `t`, `Gamma`, `gamma`, ...) are seen per stage through the offsets of
OCP_QP_IPM_WS_CREATE (x_ocp_qp_ipm.c: `Gamma+ii` etc. consecutive in memory).  The N = 0 case reads
`nx[1]` out of bounds in the code; theorems assume N ≥ 1.
-/
import Verif.Chol
import Verif.Core

namespace Hpipm

/-- workspace of the KKT solver (`struct OCP_QP_IPM_WS`, include/hpipm_d_ocp_qp_ipm.h), the two QP
matrices it scribbles into (`ROWIN` into the last rows of `BAbt` and `RSQrq`), and the step
(`struct OCP_QP_SOL`) under computation -/
structure KktSt (K : Type*) where
  BAbt : ℕ → Mat K
  RSQrq : ℕ → Mat K
  L : ℕ → Mat K
  P : ℕ → Mat K
  Ls : Mat K
  AL0 : Mat K
  AL1 : Mat K
  l : ℕ → Vec K
  Pb : ℕ → Vec K
  Zs : ℕ → Vec K
  tmpN : Vec K
  t0 : Vec K
  t1 : Vec K
  t2 : Vec K
  t3 : Vec K
  ux : ℕ → Vec K
  pi : ℕ → Vec K
  lam : ℕ → Vec K
  t : ℕ → Vec K

section
variable {K : Type*} [Field K] [LinearOrder K]

/-! ### slacks of soft constraints -/

/-- vectors touched by the slack routines of one stage -/
structure SlkSt (K : Type*) where
  Zs : Vec K
  du : Vec K
  t0 : Vec K
  t1 : Vec K
  t2 : Vec K
  t3 : Vec K

/-- COND_SLACKS_FACT_SOLVE, x_ocp_qp_kkt.c:497-612 (the active `#if 1` branch); `n = nb+ng`,
`nv = nu+nx`, `G`/`g` the stage vectors Gamma/gamma, `rg` the stage vector rqz. -/
def condSlacksFS (n ns nv : ℕ) (ir : ℕ → ℤ) (reg : K) (Z rg G g : Vec K) (s : SlkSt K) : SlkSt K :=
  let s := loop ns (fun idx (s : SlkSt K) => { s with
    Zs := upd (upd s.Zs idx (Z idx + reg + G (2 * n + idx))) (ns + idx) (Z (ns + idx) + reg + G (2 * n + ns + idx))
    du := upd (upd s.du (nv + idx) (rg (nv + idx) + g (2 * n + idx))) (nv + ns + idx)
      (rg (nv + ns + idx) + g (2 * n + ns + idx)) }) s
  let s := loop n (fun ii (s : SlkSt K) =>
    if ir ii ≠ -1 then
      let idx := (ir ii).toNat
      let Zs := upd s.Zs idx (s.Zs idx + G ii)
      let du := upd s.du (nv + idx) (s.du (nv + idx) + g ii)
      { s with
        Zs := upd Zs (ns + idx) (Zs (ns + idx) + G (n + ii))
        du := upd du (nv + ns + idx) (du (nv + ns + idx) + g (n + ii)) }
    else s) s
  let s := loop ns (fun idx (s : SlkSt K) =>
    let Zs := upd s.Zs idx (1 / s.Zs idx)
    { s with Zs := upd Zs (ns + idx) (1 / Zs (ns + idx)) }) s
  let s := loop n (fun ii (s : SlkSt K) =>
    if ir ii ≠ -1 then
      let idx := (ir ii).toNat
      { s with
        t0 := upd s.t0 ii (G ii - G ii * s.Zs idx * G ii)
        t1 := upd s.t1 ii (G (n + ii) - G (n + ii) * s.Zs (ns + idx) * G (n + ii))
        t2 := upd s.t2 ii (g ii - G ii * s.Zs idx * s.du (nv + idx))
        t3 := upd s.t3 ii (g (n + ii) - G (n + ii) * s.Zs (ns + idx) * s.du (nv + ns + idx)) }
    else { s with
        t0 := upd s.t0 ii (G ii)
        t1 := upd s.t1 ii (G (n + ii))
        t2 := upd s.t2 ii (g ii)
        t3 := upd s.t3 ii (g (n + ii)) }) s
  let s := { s with t0 := axpy n 1 s.t1 0 s.t0 0 s.t0 0 }
  { s with t1 := axpy n (-1) s.t3 0 s.t2 0 s.t1 0 }

/-- COND_SLACKS_SOLVE, x_ocp_qp_kkt.c:708-797 (the active branch): `Zs` is kept. -/
def condSlacksS (n ns nv : ℕ) (ir : ℕ → ℤ) (rg G g : Vec K) (s : SlkSt K) : SlkSt K :=
  let s := loop ns (fun idx (s : SlkSt K) => { s with
    du := upd (upd s.du (nv + idx) (rg (nv + idx) + g (2 * n + idx))) (nv + ns + idx)
      (rg (nv + ns + idx) + g (2 * n + ns + idx)) }) s
  let s := loop n (fun ii (s : SlkSt K) =>
    if ir ii ≠ -1 then
      let idx := (ir ii).toNat
      let du := upd s.du (nv + idx) (s.du (nv + idx) + g ii)
      { s with du := upd du (nv + ns + idx) (du (nv + ns + idx) + g (n + ii)) }
    else s) s
  let s := loop n (fun ii (s : SlkSt K) =>
    if ir ii ≠ -1 then
      let idx := (ir ii).toNat
      { s with
        t2 := upd s.t2 ii (g ii - G ii * s.Zs idx * s.du (nv + idx))
        t3 := upd s.t3 ii (g (n + ii) - G (n + ii) * s.Zs (ns + idx) * s.du (nv + ns + idx)) }
    else { s with
        t2 := upd s.t2 ii (g ii)
        t3 := upd s.t3 ii (g (n + ii)) }) s
  { s with t1 := axpy n (-1) s.t3 0 s.t2 0 s.t1 0 }

/-- EXPAND_SLACKS, x_ocp_qp_kkt.c:801-877 (the active branch), on `(dux, dt)` of a stage -/
def expandSlacks (n ns nv : ℕ) (ir : ℕ → ℤ) (G Zs : Vec K) (s : Vec K × Vec K) : Vec K × Vec K :=
  let s := loop n (fun ii (s : Vec K × Vec K) =>
    if ir ii ≠ -1 then
      let idx := (ir ii).toNat
      let du := upd s.1 (nv + idx) (s.1 (nv + idx) + G ii * s.2 ii)
      (upd du (nv + ns + idx) (du (nv + ns + idx) + G (n + ii) * s.2 (n + ii)), s.2)
    else s) s
  let s := loop ns (fun idx (s : Vec K × Vec K) =>
    let du := upd s.1 (nv + idx) (-(Zs idx) * s.1 (nv + idx))
    let du := upd du (nv + ns + idx) (-(Zs (ns + idx)) * du (nv + ns + idx))
    (du, upd (upd s.2 (2 * n + idx) (du (nv + idx))) (2 * n + ns + idx) (du (nv + ns + idx)))) s
  loop n (fun ii (s : Vec K × Vec K) =>
    if ir ii ≠ -1 then
      let idx := (ir ii).toNat
      let dt := upd s.2 ii (s.2 ii + s.1 (nv + idx))
      (s.1, upd dt (n + ii) (dt (n + ii) + s.1 (nv + ns + idx)))
    else s) s

/-! ### one stage of the backward recursion -/

/-- condensing of the constraints of stage `k` into `tmp0` (weights), `tmp1` (gradient terms),
x_ocp_qp_kkt.c:1201-1209 (same text in every stage block) -/
def condStage (qp : OcpQp K) (reg : K) (G g : ℕ → Vec K) (k : ℕ) (st : KktSt K) : KktSt K :=
  let D := qp.dim
  let n := D.nb k + D.ng k
  if D.ns k > 0 then
    let s := condSlacksFS n (D.ns k) (D.nu k + D.nx k) (qp.idxs_rev k) reg (qp.Z k) (qp.rqz k) (G k) (g k)
      { Zs := st.Zs k, du := st.ux k, t0 := st.t0, t1 := st.t1, t2 := st.t2, t3 := st.t3 }
    { st with
      Zs := upd st.Zs k s.Zs
      ux := upd st.ux k s.du
      t0 := s.t0
      t1 := s.t1
      t2 := s.t2
      t3 := s.t3 }
  else if n > 0 then { st with
      t0 := axpy n 1 (G k) n (G k) 0 st.t0 0
      t1 := axpy n (-1) (g k) n (g k) 0 st.t1 0 }
  else st

/-- the stage Hessian and gradient with the box constraints, x_ocp_qp_kkt.c:1192-1214: copies the
lower triangle, regularises (`dr`), inserts the gradient row, condenses, adds boxes. -/
def augStage (qp : OcpQp K) (reg : K) (dr : Mat K → Mat K) (G g : ℕ → Vec K) (k : ℕ) (st : KktSt K) : KktSt K :=
  let D := qp.dim
  let nv := D.nu k + D.nx k
  let L := trcp_l nv (st.RSQrq k) 0 0 (st.L k) 0 0
  let L := dr L
  let L := rowin nv 1 (qp.rqz k) 0 L nv 0
  let st := condStage qp reg G g k st
  let L := if D.nb k > 0 then diaad_sp (D.nb k) 1 st.t0 0 (qp.idxb k) L 0 0 else L
  let L := if D.nb k > 0 then rowad_sp (D.nb k) 1 st.t1 0 (qp.idxb k) L nv 0 else L
  { st with L := upd st.L k L }

/-- the test for replaced pivots, x_ocp_qp_kkt.c:1227-1235 -/
def singular (n : ℕ) (L : Mat K) : Bool := loop n (fun ii s => s || decide (L ii ii = 0)) false

/-- square-root Riccati, last stage, x_ocp_qp_kkt.c:1189-1225 -/
def sqLast (sq : K → K) (qp : OcpQp K) (reg preg : K) (G g : ℕ → Vec K) (st : KktSt K) : KktSt K :=
  let D := qp.dim
  let k := D.N
  let nv := D.nu k + D.nx k
  let st := augStage qp reg (fun L => diare nv preg L 0 0) G g k st
  if D.ng k > 0 then
    let AL0 := gemm_nd nv (D.ng k) 1 (qp.DCt k) 0 0 st.t0 (D.nb k) 0 st.AL0 0 0 st.AL0 0 0
    let AL0 := rowin (D.ng k) 1 st.t1 (D.nb k) AL0 nv 0
    { st with
      AL0 := AL0
      L := upd st.L k (syrk_potrf_ln_mn sq (nv + 1) nv (D.ng k) AL0 (qp.DCt k) (st.L k) (st.L k)) }
  else { st with L := upd st.L k (potrf_l_mn sq (nv + 1) nv (st.L k) (st.L k)) }

/-- square-root Riccati, middle stage, x_ocp_qp_kkt.c:1247-1287 -/
def sqMid (sq : K → K) (qp : OcpQp K) (reg preg : K) (G g : ℕ → Vec K) (k : ℕ) (st : KktSt K) : KktSt K :=
  let D := qp.dim
  let nv := D.nu k + D.nx k
  let nu1 := D.nu (k + 1); let nx1 := D.nx (k + 1)
  let BA := rowin nx1 1 (qp.b k) 0 (st.BAbt k) nv 0
  let AL0 := trmm_rlnn (nv + 1) nx1 1 (st.L (k + 1)) nu1 nu1 BA 0 0 st.AL0 0 0
  let tmpN := rowex nx1 1 AL0 nv 0 st.tmpN 0
  let Pb := trmv_lnn nx1 (st.L (k + 1)) nu1 nu1 tmpN 0 (st.Pb k) 0
  let AL0 := gead 1 nx1 1 (st.L (k + 1)) (nu1 + nx1) nu1 AL0 nv 0
  let st := { st with
    BAbt := upd st.BAbt k BA
    tmpN := tmpN
    Pb := upd st.Pb k Pb
    AL0 := AL0 }
  let st := augStage qp reg (fun L => diare nv preg L 0 0) G g k st
  if D.ng k > 0 then
    let AL0 := gemm_nd nv (D.ng k) 1 (qp.DCt k) 0 0 st.t0 (D.nb k) 0 st.AL0 0 nx1 st.AL0 0 nx1
    let AL0 := rowin (D.ng k) 1 st.t1 (D.nb k) AL0 nv nx1
    let AL1 := gecp nv nx1 AL0 0 0 st.AL1 0 0
    let AL1 := gecp nv (D.ng k) (qp.DCt k) 0 0 AL1 0 nx1
    { st with
      AL0 := AL0
      AL1 := AL1
      L := upd st.L k (syrk_potrf_ln_mn sq (nv + 1) nv (nx1 + D.ng k) AL0 AL1 (st.L k) (st.L k)) }
  else { st with L := upd st.L k (syrk_potrf_ln_mn sq (nv + 1) nv nx1 st.AL0 st.AL0 (st.L k) (st.L k)) }

/-- Schur complement of the inputs: `Ls`, `P` of the classical recursion, x_ocp_qp_kkt.c:1500-1502 -/
def schurStage (D : QpDim) (k : ℕ) (st : KktSt K) : KktSt K :=
  let nu0 := D.nu k; let nx0 := D.nx k
  let Ls := gecp (nx0 + 1) nu0 (st.L k) nu0 0 st.Ls 0 0
  let P := syrk_ln_mn (nx0 + 1) nx0 nu0 (-1) Ls 0 0 Ls 0 0 1 (st.L k) nu0 nu0 (st.P k) 0 0
  let P := trtr_l nx0 P 0 0 P 0 0
  { st with
    Ls := Ls
    P := upd st.P k P }

/-- regularisation of the classical recursion: inputs with `preg`, states with `reg_prim`,
x_ocp_qp_kkt.c:1471-1473 -/
def drUX (D : QpDim) (reg preg : K) (k : ℕ) (L : Mat K) : Mat K :=
  diare (D.nx k) reg (diare (D.nu k) preg L 0 0) (D.nu k) (D.nu k)

/-- classical Riccati, last stage, x_ocp_qp_kkt.c:1463-1502 -/
def clLast (sq : K → K) (qp : OcpQp K) (reg preg : K) (G g : ℕ → Vec K) (st : KktSt K) : KktSt K :=
  let D := qp.dim
  let k := D.N
  let nv := D.nu k + D.nx k
  let st := augStage qp reg (drUX D reg preg k) G g k st
  let st := if D.ng k > 0 then
      let AL0 := gemm_nd nv (D.ng k) 1 (qp.DCt k) 0 0 st.t0 (D.nb k) 0 st.AL0 0 0 st.AL0 0 0
      let AL0 := rowin (D.ng k) 1 st.t1 (D.nb k) AL0 nv 0
      { st with
        AL0 := AL0
        L := upd st.L k (syrk_ln_mn (nv + 1) nv (D.ng k) 1 AL0 0 0 (qp.DCt k) 0 0 1 (st.L k) 0 0 (st.L k) 0 0) }
    else st
  schurStage D k { st with L := upd st.L k (potrf_l_mn sq (nv + 1) (D.nu k) (st.L k) (st.L k)) }

/-- classical Riccati, propagation of the cost to go, x_ocp_qp_kkt.c:1527-1530 -/
def clProp (qp : OcpQp K) (k : ℕ) (st : KktSt K) : KktSt K :=
  let D := qp.dim
  let nv := D.nu k + D.nx k
  let nx1 := D.nx (k + 1)
  let BA := rowin nx1 1 (qp.b k) 0 (st.BAbt k) nv 0
  let AL0 := gemm_nt (nv + 1) nx1 nx1 1 BA 0 0 (st.P (k + 1)) 0 0 0 st.AL0 0 0 st.AL0 0 0
  let Pb := rowex nx1 1 AL0 nv 0 (st.Pb k) 0
  let AL0 := gead 1 nx1 1 (st.P (k + 1)) nx1 0 AL0 nv 0
  { st with
    BAbt := upd st.BAbt k BA
    Pb := upd st.Pb k Pb
    AL0 := AL0 }

/-- classical Riccati, stage Hessian with general constraints, x_ocp_qp_kkt.c:1532-1561 -/
def clAug (qp : OcpQp K) (reg : K) (dr : Mat K → Mat K) (G g : ℕ → Vec K) (k : ℕ) (st : KktSt K) : KktSt K :=
  let D := qp.dim
  let nv := D.nu k + D.nx k
  let nx1 := D.nx (k + 1)
  let st := augStage qp reg dr G g k st
  if D.ng k > 0 then
    let AL0 := gemm_nd nv (D.ng k) 1 (qp.DCt k) 0 0 st.t0 (D.nb k) 0 st.AL0 0 nx1 st.AL0 0 nx1
    let AL0 := rowin (D.ng k) 1 st.t1 (D.nb k) AL0 nv nx1
    { st with
      AL0 := AL0
      L := upd st.L k (syrk_ln_mn (nv + 1) nv (D.ng k) 1 AL0 0 nx1 (qp.DCt k) 0 0 1 (st.L k) 0 0 (st.L k) 0 0) }
  else st

/-- classical Riccati, middle stage up to the factorisation, x_ocp_qp_kkt.c:1524-1565 -/
def clMid (sq : K → K) (qp : OcpQp K) (reg preg : K) (G g : ℕ → Vec K) (k : ℕ) (st : KktSt K) : KktSt K :=
  let D := qp.dim
  let nv := D.nu k + D.nx k
  let nx1 := D.nx (k + 1)
  let st := clAug qp reg (drUX D reg preg k) G g k (clProp qp k st)
  let L := syrk_ln_mn (nv + 1) nv nx1 1 st.AL0 0 0 (st.BAbt k) 0 0 1 (st.L k) 0 0 (st.L k) 0 0
  { st with L := upd st.L k (potrf_l_mn sq (nv + 1) (D.nu k) L L) }

/-- classical Riccati, first stage, x_ocp_qp_kkt.c:1696-1737 -/
def clFirst (sq : K → K) (qp : OcpQp K) (reg preg : K) (G g : ℕ → Vec K) (k : ℕ) (st : KktSt K) : KktSt K :=
  let D := qp.dim
  let nv := D.nu k + D.nx k
  let nx1 := D.nx (k + 1)
  let st := clAug qp reg (fun L => diare nv preg L 0 0) G g k (clProp qp k st)
  { st with L := upd st.L k (syrk_potrf_ln_mn sq (nv + 1) nv nx1 st.AL0 (st.BAbt k) (st.L k) (st.L k)) }

/-! ### backward sweeps -/

/-- backward sweep of the square-root algorithm with the exits to `compute_preg`,
x_ocp_qp_kkt.c:1186-1310; the Boolean is `singular` -/
def sqBack (sq : K → K) (qp : OcpQp K) (reg preg : K) (G g : ℕ → Vec K) (st : KktSt K) : Bool × KktSt K :=
  let D := qp.dim
  let st := sqLast sq qp reg preg G g st
  loop D.N (fun nn (s : Bool × KktSt K) =>
    if s.1 then s
    else
      let ss := D.N - nn - 1
      let st := sqMid sq qp reg preg G g ss s.2
      (singular (D.nu ss + D.nx ss) (st.L ss), st))
    (singular (D.nu D.N + D.nx D.N) (st.L D.N), st)

/-- backward sweep of the classical algorithm, x_ocp_qp_kkt.c:1455-1757 -/
def clBack (sq : K → K) (qp : OcpQp K) (reg preg : K) (G g : ℕ → Vec K) (st : KktSt K) : Bool × KktSt K :=
  let D := qp.dim
  let st := clLast sq qp reg preg G g st
  let s := loop (D.N - 1) (fun nn (s : Bool × KktSt K) =>
    if s.1 then s
    else
      let ss := D.N - nn - 1
      let st := clMid sq qp reg preg G g ss s.2
      if singular (D.nu ss) (st.L ss) then (true, st) else (false, schurStage D ss st))
    (singular (D.nu D.N) (st.L D.N), st)
  if s.1 then s
  else if D.N > 0 then
    let ss := D.N - (D.N - 1) - 1
    let st := clFirst sq qp reg preg G g ss s.2
    (singular (D.nu ss + D.nx ss) (st.L ss), st)
  else s

/-! ### forward sweeps -/

/-- forward step of the square-root algorithm on a stage with a successor, `n` the number of columns
eliminated (`nu+nx` at stage 0, `nu` later), x_ocp_qp_kkt.c:1411-1440 -/
def sqFwd (qp : OcpQp K) (dual : Bool) (n k : ℕ) (st : KktSt K) : KktSt K :=
  let D := qp.dim
  let nv := D.nu k + D.nx k
  let nu1 := D.nu (k + 1); let nx1 := D.nx (k + 1)
  let du := rowex n (-1) (st.L k) nv 0 (st.ux k) 0
  let l := upd st.l k (veccpsc n (-1) du 0 (st.l k) 0)
  let tmpN := rowex nx1 1 (st.L (k + 1)) (nu1 + nx1) nu1 st.tmpN 0
  let l := upd l (k + 1) (veccp nx1 tmpN 0 (l (k + 1)) nu1)
  let du := trsv_ltn_mn nv n (st.L k) du
  let ux := upd st.ux k du
  let du1 := gemv_t nv nx1 1 (st.BAbt k) 0 0 du 0 1 (qp.b k) 0 (ux (k + 1)) nu1
  let p := trmv_ltn nx1 (st.L (k + 1)) nu1 nu1 du1 nu1 (st.pi k) 0
  let p := axpy nx1 1 tmpN 0 p 0 p 0
  let p := trmv_lnn nx1 (st.L (k + 1)) nu1 nu1 p 0 p 0
  { st with
    l := l
    tmpN := tmpN
    ux := upd ux (k + 1) du1
    pi := if dual then upd st.pi k p else st.pi }

/-- forward step of the classical algorithm, x_ocp_qp_kkt.c:1822-1858 -/
def clFwd (qp : OcpQp K) (dual : Bool) (n k : ℕ) (st : KktSt K) : KktSt K :=
  let D := qp.dim
  let nv := D.nu k + D.nx k
  let nu1 := D.nu (k + 1); let nx1 := D.nx (k + 1)
  let du := rowex n (-1) (st.L k) nv 0 (st.ux k) 0
  let l := upd st.l k (veccpsc n (-1) du 0 (st.l k) 0)
  let tmpN := rowex nx1 1 (st.P (k + 1)) nx1 0 st.tmpN 0
  let l := upd l (k + 1) (veccp nx1 tmpN 0 (l (k + 1)) nu1)
  let du := trsv_ltn_mn nv n (st.L k) du
  let ux := upd st.ux k du
  let du1 := gemv_t nv nx1 1 (st.BAbt k) 0 0 du 0 1 (qp.b k) 0 (ux (k + 1)) nu1
  let p := gemv_n nx1 nx1 1 (st.P (k + 1)) 0 0 du1 nu1 1 tmpN 0 (st.pi k) 0
  { st with
    l := l
    tmpN := tmpN
    ux := upd ux (k + 1) du1
    pi := if dual then upd st.pi k p else st.pi }

/-- forward step of the last stage, x_ocp_qp_kkt.c:1442-1445 -/
def fwdLast (qp : OcpQp K) (st : KktSt K) : KktSt K :=
  let D := qp.dim
  let k := D.N
  let nv := D.nu k + D.nx k
  let du := rowex (D.nu k) (-1) (st.L k) nv 0 (st.ux k) 0
  { st with
    l := upd st.l k (veccpsc (D.nu k) (-1) du 0 (st.l k) 0)
    ux := upd st.ux k (trsv_ltn_mn nv (D.nu k) (st.L k) du) }

/-- forward sweep: first stage, middle stages `1 ≤ ss < N`, last stage, x_ocp_qp_kkt.c:1407-1447
(square root: `sqr = true`) and 1815-1862 (classical) -/
def fwd (qp : OcpQp K) (dual sqr : Bool) (st : KktSt K) : KktSt K :=
  let D := qp.dim
  let step := fun n k st => if sqr then sqFwd qp dual n k st else clFwd qp dual n k st
  let st := step (D.nu 0 + D.nx 0) 0 st
  let st := loop (D.N - 1) (fun i st => step (D.nu (i + 1)) (i + 1) st) st
  fwdLast qp st

/-! ### constraint values, multipliers -/

/-- the tail common to all step routines, x_ocp_qp_kkt.c:1866-1882: constraint values of the step,
slack expansion, and COMPUTE_LAM_T_QP on the flat vectors -/
def kktTail [IsStrictOrderedRing K] (qp : OcpQp K) (G : ℕ → Vec K) (c : Core K) (st : KktSt K) : KktSt K :=
  let D := qp.dim
  let st := loop (D.N + 1) (fun ss (st : KktSt K) => { st with
    t := upd st.t ss (vecex_sp (D.nb ss) 1 (qp.idxb ss) (st.ux ss) 0 (st.t ss) 0) }) st
  let st := loop (D.N + 1) (fun ss (st : KktSt K) => { st with
    t := upd st.t ss (gemv_t (D.nu ss + D.nx ss) (D.ng ss) 1 (qp.DCt ss) 0 0 (st.ux ss) 0 0 (st.t ss) (D.nb ss) (st.t ss) (D.nb ss)) }) st
  let st := loop (D.N + 1) (fun ss (st : KktSt K) =>
    let n := D.nb ss + D.ng ss
    let t := veccp n (st.t ss) 0 (st.t ss) n
    { st with t := upd st.t ss (vecsc n (-1) t n) }) st
  let st := loop (D.N + 1) (fun ss (st : KktSt K) =>
    if D.ns ss > 0 then
      let s := expandSlacks (D.nb ss + D.ng ss) (D.ns ss) (D.nu ss + D.nx ss) (qp.idxs_rev ss) (G ss) (st.Zs ss)
        (st.ux ss, st.t ss)
      { st with
        ux := upd st.ux ss s.1
        t := upd st.t ss s.2 }
    else st) st
  let r := computeLamT (stFlat (nct D) qp.d (D.N + 1)) (stFlat (nct D) qp.m (D.N + 1))
    (stFlat (nct D) st.lam (D.N + 1)) (stFlat (nct D) st.t (D.N + 1)) c
  { st with
    lam := fun k j => r.1 (stOff (nct D) k + j)
    t := fun k j => r.2 (stOff (nct D) k + j) }

/-- a stage vector of a flat core vector -/
def stView (D : QpDim) (f : Vec K) (k : ℕ) : Vec K := fun j => f (stOff (nct D) k + j)

/-- outcome of the step routine -/
structure KktOut (K : Type*) where
  st : KktSt K
  core : Core K
  preg : K
  npd_reg_hess : Bool
  sqr : Bool
  preg_last : K

/-- update of `preg` at label `compute_preg`, x_ocp_qp_kkt.c:1147-1178; `init` is the flag `preg_init`
before (`preg_first` is set exactly on the first visit); `1e-4` is `1/10000` -/
def nextPreg (reg preg_last preg : K) (init : Bool) : K :=
  let preg := if init then preg else preg_last
  if init = false then (if preg_last = reg then preg + 1 / 10000 else preg / 3)
  else (if preg_last = reg then preg * 100 else preg * 8)

/-- `main_loop` with the jumps back to `compute_preg`, x_ocp_qp_kkt.c:1140-1757; `fuel` bounds the
number of jumps (`none`: still looping); returns `(preg, preg_init, square_root_alg, state)` -/
def kktMain (sq : K → K) (qp : OcpQp K) (reg preg_last : K) (G g : ℕ → Vec K) :
    ℕ → K → Bool → Bool → KktSt K → Option (K × Bool × Bool × KktSt K)
  | fuel, preg, init, sqr, st =>
    let s := if sqr then sqBack sq qp reg preg G g st else clBack sq qp reg preg G g st
    if s.1 then
      match fuel with
      | 0 => none
      | fuel + 1 => kktMain sq qp reg preg_last G g fuel (nextPreg reg preg_last preg init) true false s.2
    else some (preg, init, sqr, s.2)

/-- OCP_QP_FACT_SOLVE_KKT_STEP, x_ocp_qp_kkt.c:1113-1894 -/
def factSolveKktStep [IsStrictOrderedRing K] (sq : K → K) (fuel : ℕ) (qp : OcpQp K) (dual sqr : Bool) (reg preg_last : K)
    (c : Core K) (st : KktSt K) : Option (KktOut K) :=
  let D := qp.dim
  let c := computeGammaGamma (stFlat (nct D) qp.d (D.N + 1)) (stFlat (nct D) qp.m (D.N + 1)) c
  let G := stView D c.Gamma
  let g := stView D c.gamma
  match kktMain sq qp reg preg_last G g fuel reg false sqr st with
  | none => none
  | some (preg, init, sqr', st) =>
    some { st := kktTail qp G c (fwd qp dual sqr' st)
           core := c
           preg := preg
           npd_reg_hess := init
           sqr := sqr'
           preg_last := if init then preg else preg_last }

/-! ### re-solve with a stored factorisation -/

/-- right-hand side of a stage, x_ocp_qp_kkt.c:2356-2377 -/
def rhsStage (qp : OcpQp K) (G g : ℕ → Vec K) (k : ℕ) (st : KktSt K) : KktSt K :=
  let D := qp.dim
  let n := D.nb k + D.ng k
  let nv := D.nu k + D.nx k
  let st := { st with ux := upd st.ux k (veccp nv (qp.rqz k) 0 (st.ux k) 0) }
  let st := if D.ns k > 0 then
      let s := condSlacksS n (D.ns k) nv (qp.idxs_rev k) (qp.rqz k) (G k) (g k)
        { Zs := st.Zs k, du := st.ux k, t0 := st.t0, t1 := st.t1, t2 := st.t2, t3 := st.t3 }
      { st with
        ux := upd st.ux k s.du
        t1 := s.t1
        t2 := s.t2
        t3 := s.t3 }
    else if n > 0 then { st with t1 := axpy n (-1) (g k) n (g k) 0 st.t1 0 }
    else st
  let du := st.ux k
  let du := if D.nb k > 0 then vecad_sp (D.nb k) 1 st.t1 0 (qp.idxb k) du 0 else du
  let du := if D.ng k > 0 then gemv_n nv (D.ng k) 1 (qp.DCt k) 0 0 st.t1 (D.nb k) 1 du 0 du 0 else du
  { st with ux := upd st.ux k du }

/-- backward substitution of a stage with a successor, x_ocp_qp_kkt.c:2386-2420 (square root) and
2536-2573 (classical); `n` columns are eliminated (`nu`, at stage 0 `nu+nx`) -/
def bwdSub (qp : OcpQp K) (sqr useP : Bool) (G g : ℕ → Vec K) (n k : ℕ) (st : KktSt K) : KktSt K :=
  let D := qp.dim
  let nv := D.nu k + D.nx k
  let nu1 := D.nu (k + 1); let nx1 := D.nx (k + 1)
  let st := rhsStage qp G g k st
  let tmpN := if useP then axpy nx1 1 (st.ux (k + 1)) nu1 (st.Pb k) 0 st.tmpN 0
    else if sqr then
      let tmp := trmv_ltn nx1 (st.L (k + 1)) nu1 nu1 (qp.b k) 0 st.tmpN 0
      let tmp := trmv_lnn nx1 (st.L (k + 1)) nu1 nu1 tmp 0 tmp 0
      axpy nx1 1 (st.ux (k + 1)) nu1 tmp 0 tmp 0
    else gemv_n nx1 nx1 1 (st.P (k + 1)) 0 0 (qp.b k) 0 1 (st.ux (k + 1)) nu1 st.tmpN 0
  let du := gemv_n nv nx1 1 (st.BAbt k) 0 0 tmpN 0 1 (st.ux k) 0 (st.ux k) 0
  { st with
    tmpN := tmpN
    ux := upd st.ux k (trsv_lnn_mn nv n (st.L k) du) }

/-- forward substitution of a stage with a successor, x_ocp_qp_kkt.c:2452-2494 (square root) and
2605-2643 (classical) -/
def fwdSub (qp : OcpQp K) (dual sqr : Bool) (n k : ℕ) (st : KktSt K) : KktSt K :=
  let D := qp.dim
  let nv := D.nu k + D.nx k
  let nu1 := D.nu (k + 1); let nx1 := D.nx (k + 1)
  let p := veccp nx1 (st.ux (k + 1)) nu1 (st.pi k) 0
  let l := upd st.l k (veccp n (st.ux k) 0 (st.l k) 0)
  let l := upd l (k + 1) (veccp nx1 (st.ux (k + 1)) nu1 (l (k + 1)) nu1)
  let du := vecsc n (-1) (st.ux k) 0
  let du := trsv_ltn_mn nv n (st.L k) du
  let ux := upd st.ux k du
  let du1 := gemv_t nv nx1 1 (st.BAbt k) 0 0 du 0 1 (qp.b k) 0 (ux (k + 1)) nu1
  let tmpN := trmv_ltn nx1 (st.L (k + 1)) nu1 nu1 du1 nu1 st.tmpN 0
  let tmpN := trmv_lnn nx1 (st.L (k + 1)) nu1 nu1 tmpN 0 tmpN 0
  let p := if sqr then axpy nx1 1 tmpN 0 p 0 p 0
    else gemv_n nx1 nx1 1 (st.P (k + 1)) 0 0 du1 nu1 1 p 0 p 0
  { st with
    l := l
    tmpN := if dual && sqr then tmpN else st.tmpN
    ux := upd ux (k + 1) du1
    pi := if dual then upd st.pi k p else st.pi }

/-- forward substitution of the last stage, x_ocp_qp_kkt.c:2496-2499 -/
def fwdSubLast (qp : OcpQp K) (st : KktSt K) : KktSt K :=
  let D := qp.dim
  let k := D.N
  let nv := D.nu k + D.nx k
  { st with
    l := upd st.l k (veccp (D.nu k) (st.ux k) 0 (st.l k) 0)
    ux := upd st.ux k (trsv_ltn_mn nv (D.nu k) (st.L k) (vecsc (D.nu k) (-1) (st.ux k) 0)) }

/-- OCP_QP_SOLVE_KKT_STEP, x_ocp_qp_kkt.c:2301-2680: `sqr` is `ws->square_root_alg`, `useP` is
`ws->use_Pb` -/
def solveKktStep [IsStrictOrderedRing K] (qp : OcpQp K) (dual sqr useP : Bool) (c : Core K) (st : KktSt K) :
    Core K × KktSt K :=
  let D := qp.dim
  let c := computeGamma (stFlat (nct D) qp.d (D.N + 1)) (stFlat (nct D) qp.m (D.N + 1)) c
  let G := stView D c.Gamma
  let g := stView D c.gamma
  let N := D.N
  let st := rhsStage qp G g N st
  let st := { st with ux := upd st.ux N (trsv_lnn_mn (D.nu N + D.nx N) (D.nu N) (st.L N) (st.ux N)) }
  let st := loop (N - 1) (fun nn st => bwdSub qp sqr useP G g (D.nu (N - nn - 1)) (N - nn - 1) st) st
  let st := bwdSub qp sqr useP G g (D.nu 0 + D.nx 0) 0 st
  let st := fwdSub qp dual sqr (D.nu 0 + D.nx 0) 0 st
  let st := loop (N - 1) (fun i st => fwdSub qp dual sqr (D.nu (i + 1)) (i + 1) st) st
  let st := fwdSubLast qp st
  (c, kktTail qp G c st)

/-! ### unconstrained problem -/

/-- OCP_QP_FACT_SOLVE_KKT_UNCONSTR, square-root branch (341-406), x_ocp_qp_kkt.c:348-351: last stage -/
def unSqLast (sq : K → K) (qp : OcpQp K) (reg : K) (st : KktSt K) : KktSt K :=
  let D := qp.dim
  let k := D.N
  let nv := D.nu k + D.nx k
  let R := rowin nv 1 (qp.rqz k) 0 (st.RSQrq k) nv 0
  let R := diare nv reg R 0 0
  let L := potrf_l_mn sq (nv + 1) nv R (st.L k)
  { st with
    L := upd st.L k L
    RSQrq := upd st.RSQrq k (diare nv (-reg) R 0 0) }

/-- middle and first stages of the square-root branch, x_ocp_qp_kkt.c:354-364 -/
def unSqMid (sq : K → K) (qp : OcpQp K) (reg : K) (k : ℕ) (st : KktSt K) : KktSt K :=
  let D := qp.dim
  let nv := D.nu k + D.nx k
  let nu1 := D.nu (k + 1); let nx1 := D.nx (k + 1)
  let BA := rowin nx1 1 (qp.b k) 0 (st.BAbt k) nv 0
  let AL0 := trmm_rlnn (nv + 1) nx1 1 (st.L (k + 1)) nu1 nu1 BA 0 0 st.AL0 0 0
  let AL0 := gead 1 nx1 1 (st.L (k + 1)) (nu1 + nx1) nu1 AL0 nv 0
  let R := rowin nv 1 (qp.rqz k) 0 (st.RSQrq k) nv 0
  let R := diare nv reg R 0 0
  let L := syrk_potrf_ln_mn sq (nv + 1) nv nx1 AL0 AL0 R (st.L k)
  { st with
    BAbt := upd st.BAbt k BA
    AL0 := AL0
    L := upd st.L k L
    RSQrq := upd st.RSQrq k (diare nv (-reg) R 0 0) }

/-- classical branch, last stage, x_ocp_qp_kkt.c:417-423 -/
def unClLast (sq : K → K) (qp : OcpQp K) (reg : K) (st : KktSt K) : KktSt K :=
  let D := qp.dim
  let k := D.N
  let nu0 := D.nu k; let nx0 := D.nx k
  let nv := nu0 + nx0
  let R := rowin nv 1 (qp.rqz k) 0 (st.RSQrq k) nv 0
  let R := diare nu0 reg R 0 0
  let L := potrf_l_mn sq (nv + 1) nu0 R (st.L k)
  let R := diare nu0 (-reg) R 0 0
  let Ls := gecp (nx0 + 1) nu0 L nu0 0 st.Ls 0 0
  let P := syrk_ln_mn (nx0 + 1) nx0 nu0 (-1) Ls 0 0 Ls 0 0 1 R nu0 nu0 (st.P k) 0 0
  let P := trtr_l nx0 P 0 0 P 0 0
  { st with
    L := upd st.L k L
    Ls := Ls
    P := upd st.P k P
    RSQrq := upd st.RSQrq k R }

/-- classical branch, propagation, x_ocp_qp_kkt.c:428-432 and 445-449 -/
def unClProp (qp : OcpQp K) (reg : K) (k : ℕ) (st : KktSt K) : KktSt K :=
  let D := qp.dim
  let nv := D.nu k + D.nx k
  let nx1 := D.nx (k + 1)
  let BA := rowin nx1 1 (qp.b k) 0 (st.BAbt k) nv 0
  let AL0 := gemm_nt (nv + 1) nx1 nx1 1 BA 0 0 (st.P (k + 1)) 0 0 0 st.AL0 0 0 st.AL0 0 0
  let AL0 := gead 1 nx1 1 (st.P (k + 1)) nx1 0 AL0 nv 0
  let R := rowin nv 1 (qp.rqz k) 0 (st.RSQrq k) nv 0
  { st with
    BAbt := upd st.BAbt k BA
    AL0 := AL0
    RSQrq := upd st.RSQrq k (diare (D.nu k) reg R 0 0) }

/-- classical branch, middle stages, x_ocp_qp_kkt.c:426-440 -/
def unClMid (sq : K → K) (qp : OcpQp K) (reg : K) (k : ℕ) (st : KktSt K) : KktSt K :=
  let D := qp.dim
  let nv := D.nu k + D.nx k
  let nx1 := D.nx (k + 1)
  let st := unClProp qp reg k st
  let L := syrk_ln_mn (nv + 1) nv nx1 1 st.AL0 0 0 (st.BAbt k) 0 0 1 (st.RSQrq k) 0 0 (st.L k) 0 0
  schurStage D k { st with
    L := upd st.L k (potrf_l_mn sq (nv + 1) (D.nu k) L L)
    RSQrq := upd st.RSQrq k (diare (D.nu k) (-reg) (st.RSQrq k) 0 0) }

/-- classical branch, first stage, x_ocp_qp_kkt.c:442-452 -/
def unClFirst (sq : K → K) (qp : OcpQp K) (reg : K) (k : ℕ) (st : KktSt K) : KktSt K :=
  let D := qp.dim
  let nv := D.nu k + D.nx k
  let nx1 := D.nx (k + 1)
  let st := unClProp qp reg k st
  { st with
    L := upd st.L k (syrk_potrf_ln_mn sq (nv + 1) nv nx1 st.AL0 (st.BAbt k) (st.RSQrq k) (st.L k))
    RSQrq := upd st.RSQrq k (diare (D.nu k) (-reg) (st.RSQrq k) 0 0) }

/-- OCP_QP_FACT_SOLVE_KKT_UNCONSTR, x_ocp_qp_kkt.c:316-493.  There is no pivot test. -/
def unconstr (sq : K → K) (qp : OcpQp K) (dual sqr : Bool) (reg : K) (st : KktSt K) : KktSt K :=
  let N := qp.dim.N
  if sqr then
    let st := unSqLast sq qp reg st
    let st := loop N (fun ii st => unSqMid sq qp reg (N - ii - 1) st) st
    fwd qp dual true st
  else
    let st := unClLast sq qp reg st
    let st := loop (N - 1) (fun ii st => unClMid sq qp reg (N - ii - 1) st) st
    let st := if N > 0 then unClFirst sq qp reg (N - (N - 1) - 1) st else st
    fwd qp dual false st

end
end Hpipm
