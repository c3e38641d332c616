/-
Model of the initialisation of the interior point method, OCP_QP_INIT_VAR,
ocp_qp/x_ocp_qp_ipm.c:1632-2048.

`sq` is the C library square root.  `thr0 = 1e-1`.  The stage arrays of the solution object
(`qp_sol->ux[ii].pa` and so on) are stage vectors; `mu0/t` is the field division (in C a division by
zero gives inf; `t` is shown to be positive below).
-/
import Verif.Arg
import Verif.OcpQp
import Verif.Res

namespace Hpipm

section
variable {K : Type*} [Field K] [LinearOrder K]

/-- `thr0`, x_ocp_qp_ipm.c:1654 -/
def thr0 : K := 1 / 10

/-- the arrays of one stage written by the initialisation -/
structure IniSt (K : Type*) where
  ux : Vec K
  lam : Vec K
  t : Vec K

/-- `if(x<thr) x = thr;` -/
def clipLo (thr x : K) : K := if x < thr then thr else x

/-- clipping of the multipliers and slacks of a stage, x_ocp_qp_ipm.c:1663-1671 and 1684-1692 -/
def iniClip (nc : ℕ) (lmin tmin : K) (s : IniSt K) : IniSt K :=
  loop nc (fun jj (s : IniSt K) => { s with
    lam := upd s.lam jj (clipLo lmin (s.lam jj))
    t := upd s.t jj (clipLo tmin (s.t jj)) }) s

/-- constant multipliers and slacks of a stage, x_ocp_qp_ipm.c:1741-1746 and 1755-1760 -/
def iniConst (nc : ℕ) (l0 t0 : K) (s : IniSt K) : IniSt K :=
  loop nc (fun jj (s : IniSt K) => { s with
    lam := upd s.lam jj l0
    t := upd s.t jj t0 }) s

/-- one box constraint of scheme 0, x_ocp_qp_ipm.c:1784-1822; `nbg = nb+ng`, `l`, `u` the bounds after
replacing masked ones -/
def iniBox0 (nbg : ℕ) (idxb : ℕ → ℕ) (d mask : Vec K) (mu0 : K) (jj : ℕ) (s : IniSt K) : IniSt K :=
  let x := s.ux (idxb jj)
  let d_lb0 := if mask jj = 0 then x - 1 else d jj
  let d_ub0 := if mask (nbg + jj) = 0 then -x - 1 else d (nbg + jj)
  let tl := -d_lb0 + x
  let tu := -d_ub0 - x
  let r : K × K × K :=
    if tl < thr0 then
      if tu < thr0 then (1 / 2 * (d_lb0 - d_ub0), thr0, thr0)
      else (d_lb0 + thr0, thr0, tu)
    else if tu < thr0 then (-d_ub0 - thr0, tl, thr0)
    else (x, tl, tu)
  { ux := upd s.ux (idxb jj) r.1
    t := upd (upd s.t jj r.2.1) (nbg + jj) r.2.2
    lam := upd (upd s.lam jj (mu0 / r.2.1)) (nbg + jj) (mu0 / r.2.2) }

/-- one general constraint of scheme 0, x_ocp_qp_ipm.c:1847-1861 -/
def iniGen0 (nb ng : ℕ) (d mask : Vec K) (mu0 : K) (jj : ℕ) (s : IniSt K) : IniSt K :=
  let tl := s.t (nb + jj)
  let tu := -tl
  let tl := if mask (nb + jj) ≠ 0 then tl - d (nb + jj) else tl
  let tu := if mask (2 * nb + ng + jj) ≠ 0 then tu - d (2 * nb + ng + jj) else tu
  let tl := if thr0 > tl then thr0 else tl
  let tu := if thr0 > tu then thr0 else tu
  { s with
    t := upd (upd s.t (nb + jj) tl) (2 * nb + ng + jj) tu
    lam := upd (upd s.lam (nb + jj) (mu0 / tl)) (2 * nb + ng + jj) (mu0 / tu) }

/-- one slack pair of scheme 0, x_ocp_qp_ipm.c:1884-1913 (the slacks `t` computed first are only used
to decide whether the soft variables are moved; then they are overwritten by `sqrt(mu0)`) -/
def iniSoft0 (sq : K → K) (n2 ns nv : ℕ) (d mask : Vec K) (mu0 : K) (jj : ℕ) (s : IniSt K) : IniSt K :=
  let d_ls0 := if mask (n2 + jj) = 0 then s.ux (nv + jj) - 1 else d (n2 + jj)
  let d_us0 := if mask (n2 + ns + jj) = 0 then s.ux (nv + ns + jj) - 1 else d (n2 + ns + jj)
  let tl := -d_ls0 + s.ux (nv + jj)
  let tu := -d_us0 - s.ux (nv + ns + jj)
  let ux := if tl < thr0 then upd s.ux (nv + jj) (d_ls0 + thr0) else s.ux
  let ux := if tu < thr0 then upd ux (nv + ns + jj) (d_us0 + thr0) else ux
  let q := sq mu0
  { ux := ux
    t := upd (upd s.t (n2 + jj) q) (n2 + ns + jj) q
    lam := upd (upd s.lam (n2 + jj) (mu0 / q)) (n2 + ns + jj) (mu0 / q) }

/-- a box of scheme 1, x_ocp_qp_ipm.c:1980-2008 -/
def iniBox1 (nbg : ℕ) (idxb : ℕ → ℕ) (d : Vec K) (jj : ℕ) (s : IniSt K) : IniSt K :=
  if s.t jj < thr0 then
    if s.t (nbg + jj) < thr0 then { s with
      ux := upd s.ux (idxb jj) (1 / 2 * (d jj - d (nbg + jj)))
      t := upd (upd s.t jj thr0) (nbg + jj) thr0 }
    else { s with
      ux := upd s.ux (idxb jj) (d jj + thr0)
      t := upd s.t jj thr0 }
  else if s.t (nbg + jj) < thr0 then { s with
      ux := upd s.ux (idxb jj) (-(d (nbg + jj)) - thr0)
      t := upd s.t (nbg + jj) thr0 }
  else s

/-- add the slack of a softened constraint `jj` (row `r`), x_ocp_qp_ipm.c:1966-1975 and 2018-2027;
`nbg = nb+ng` -/
def iniAddSlk (nbg ns nv : ℕ) (ir : ℕ → ℤ) (r : ℕ) (s : IniSt K) : IniSt K :=
  if ir r ≠ -1 then
    let idx := (ir r).toNat
    let t := upd s.t r (s.t r + s.ux (nv + idx))
    { s with t := upd t (nbg + r) (t (nbg + r) + s.ux (nv + ns + idx)) }
  else s

/-- one stage of scheme 1, x_ocp_qp_ipm.c:1919-2040 -/
def iniStage1 (qp : OcpQp K) (mu0 : K) (k : ℕ) (s : IniSt K) : IniSt K :=
  let nb := qp.dim.nb k
  let ng := qp.dim.ng k
  let ns := qp.dim.ns k
  let nv := qp.dim.nu k + qp.dim.nx k
  let nbg := nb + ng
  let n2 := 2 * nb + 2 * ng
  let d := qp.d k
  let s := { s with t := axpy (2 * ns) (-1) d n2 s.ux nv s.t n2 }
  let s := loop (2 * ns) (fun jj (s : IniSt K) =>
    if s.t (n2 + jj) < thr0 then { s with
      t := upd s.t (n2 + jj) thr0
      ux := upd s.ux (nv + jj) (d (n2 + jj) + thr0) }
    else s) s
  let s := { s with t := vecex_sp nb 1 (qp.idxb k) s.ux 0 s.t 0 }
  let s := { s with t := veccpsc nb (-1) s.t 0 s.t nbg }
  let s := loop nb (fun jj s => iniAddSlk nbg ns nv (qp.idxs_rev k) jj s) s
  let s := { s with t := axpy nb (-1) d 0 s.t 0 s.t 0 }
  let s := { s with t := axpy nb (-1) d nbg s.t nbg s.t nbg }
  let s := loop nb (iniBox1 nbg (qp.idxb k) d) s
  let s := { s with t := gemv_t nv ng 1 (qp.DCt k) 0 0 s.ux 0 0 s.t nb s.t nb }
  let s := { s with t := veccpsc ng (-1) s.t nb s.t (2 * nb + ng) }
  let s := loop ng (fun jj s => iniAddSlk nbg ns nv (qp.idxs_rev k) (nb + jj) s) s
  let s := { s with t := axpy ng (-1) d nb s.t nb s.t nb }
  let s := { s with t := axpy ng (-1) d (2 * nb + ng) s.t (2 * nb + ng) s.t (2 * nb + ng) }
  let s := loop ng (fun jj (s : IniSt K) => { s with
    t := upd (upd s.t (nb + jj) (if thr0 > s.t (nb + jj) then thr0 else s.t (nb + jj)))
      (2 * nb + ng + jj) (if thr0 > s.t (2 * nb + ng + jj) then thr0 else s.t (2 * nb + ng + jj)) }) s
  loop (nct qp.dim k) (fun jj (s : IniSt K) => { s with lam := upd s.lam jj (mu0 / s.t jj) }) s

/-- a loop over the stages -/
def iniStages (N : ℕ) (f : ℕ → IniSt K → IniSt K) (sol : Sol K) : Sol K :=
  loop (N + 1) (fun k (sol : Sol K) =>
    let s := f k { ux := sol.ux k, lam := sol.lam k, t := sol.t k }
    { sol with
      ux := upd sol.ux k s.ux
      lam := upd sol.lam k s.lam
      t := upd sol.t k s.t }) sol

/-- OCP_QP_INIT_VAR, x_ocp_qp_ipm.c:1632-2048 -/
def initVar (sq : K → K) (qp : OcpQp K) (a : IpmArg K) (sol : Sol K) : Sol K :=
  let D := qp.dim
  let N := D.N
  let mu0 := a.r .mu0
  if a.i .warm_start ≥ 3 then
    iniStages N (fun k s => iniClip (nct D k) (a.r .lam0_min) (a.r .t0_min) s) sol
  else if a.i .warm_start = 2 then
    iniStages N (fun k s => iniClip (nct D k) thr0 thr0 s) sol
  else
    let sol := if a.i .warm_start = 0 then
        loop (N + 1) (fun k (sol : Sol K) => { sol with ux := upd sol.ux k (vecse (nvt D k) 0 (sol.ux k) 0) }) sol
      else sol
    let sol := loop N (fun k (sol : Sol K) =>
      { sol with pi := upd sol.pi k (vecse (D.nx (k + 1)) 0 (sol.pi k) 0) }) sol
    if a.i .t0_init = 0 then
      iniStages N (fun k s => iniConst (nct D k) (sq mu0) (sq mu0) s) sol
    else if a.i .t0_init = 1 then
      iniStages N (fun k s => iniConst (nct D k) mu0 1 s) sol
    else if a.i .var_init_scheme = 0 then
      let sol := iniStages N (fun k s =>
        loop (D.nb k) (iniBox0 (D.nb k + D.ng k) (qp.idxb k) (qp.d k) (qp.d_mask k) mu0) s) sol
      let sol := iniStages N (fun k s =>
        loop (D.ng k) (iniGen0 (D.nb k) (D.ng k) (qp.d k) (qp.d_mask k) mu0)
          { s with t := gemv_t (D.nu k + D.nx k) (D.ng k) 1 (qp.DCt k) 0 0 s.ux 0 0 s.t (D.nb k) s.t (D.nb k) }) sol
      iniStages N (fun k s =>
        loop (D.ns k) (iniSoft0 sq (2 * D.nb k + 2 * D.ng k) (D.ns k) (D.nu k + D.nx k) (qp.d k) (qp.d_mask k) mu0) s) sol
    else
      iniStages N (fun k s => iniStage1 qp mu0 k s) sol

end
end Hpipm
