/-
Model of the explicit Runge-Kutta integrator (sim_core/x_sim_rk.c, sim_core/x_sim_erk.c).

Simplifications: the callbacks `ode` and `vde_for` are functions of the time (as the integer they receive), the entries of `x`, the
parameters and `ode_args`; they write `nx*(1+nf)` entries of `xdot`.  Arrays are total functions; sizes of the arrays are in
`erkSizes`.
-/
import Verif.Blas
import Verif.Arg
import Mathlib.Algebra.Order.Floor.Ring

namespace Hpipm
open Finset
set_option linter.unusedSectionVars false

section
variable {K : Type*} [Field K] [LinearOrder K] [IsStrictOrderedRing K]

/-- `struct SIM_RK_DATA`, include/hpipm_d_sim_rk.h:45-53; `A` is stored by columns -/
structure RkData (K : Type*) where
  A : Vec K
  B : Vec K
  C : Vec K
  expl : ℕ
  ns : ℕ

/-- SIM_RK_DATA_MEMSIZE, x_sim_rk.c:38-48, in units of `sizeof(REAL)` -/
def rkMemsize (ns : ℕ) : ℕ := 1 * ns * ns + 2 * ns

/-- the pointers of SIM_RK_DATA_CREATE, x_sim_rk.c:52-68: start and length of each array, in order -/
def rkLayout (ns : ℕ) : List (ℕ × ℕ) := [(0, ns * ns), (ns * ns, ns), (ns * ns + ns, ns)]

/-- the assignments of SIM_RK_DATA_INIT_DEFAULT, x_sim_rk.c:93-179: an unknown name or another number of stages ends the process -/
def rkInitDefault (field : String) (d : RkData K) : Out (RkData K) :=
  if field = "ERK4" then
    if d.ns = 4 then
      let A := d.A
      let A := upd A (0 + 4 * 0) 0
      let A := upd A (0 + 4 * 1) 0
      let A := upd A (0 + 4 * 2) 0
      let A := upd A (0 + 4 * 3) 0
      let A := upd A (1 + 4 * 0) (1 / 2)
      let A := upd A (1 + 4 * 1) 0
      let A := upd A (1 + 4 * 2) 0
      let A := upd A (1 + 4 * 3) 0
      let A := upd A (2 + 4 * 0) 0
      let A := upd A (2 + 4 * 1) (1 / 2)
      let A := upd A (2 + 4 * 2) 0
      let A := upd A (2 + 4 * 3) 0
      let A := upd A (3 + 4 * 0) 0
      let A := upd A (3 + 4 * 1) 0
      let A := upd A (3 + 4 * 2) 1
      let A := upd A (3 + 4 * 3) 0
      let B := upd (upd (upd (upd d.B 0 (1 / 6)) 1 (1 / 3)) 2 (1 / 3)) 3 (1 / 6)
      let C := upd (upd (upd (upd d.C 0 0) 1 (1 / 2)) 2 (1 / 2)) 3 1
      .ok { d with
        A := A
        B := B
        C := C
        expl := 1 }
    else .exit
  else if field = "ERK2" then
    if d.ns = 2 then
      let A := upd (upd (upd (upd d.A (0 + 2 * 0) 0) (0 + 2 * 1) 0) (1 + 2 * 0) (1 / 2)) (1 + 2 * 1) 0
      let B := upd (upd d.B 0 0) 1 1
      let C := upd (upd d.C 0 0) 1 (1 / 2)
      .ok { d with
        A := A
        B := B
        C := C
        expl := 1 }
    else .exit
  else .exit

/-- SIM_RK_DATA_SET_ALL, x_sim_rk.c:183-205 -/
def rkSetAll (expl : ℕ) (A B C : Vec K) (d : RkData K) : RkData K :=
  let d := { d with expl := expl }
  let d := loop d.ns (fun jj (s : RkData K) => loop d.ns (fun ii (s : RkData K) => { s with A := upd s.A (ii + d.ns * jj) (A (ii + d.ns * jj)) }) s) d
  let d := loop d.ns (fun ii (s : RkData K) => { s with B := upd s.B ii (B ii) }) d
  loop d.ns (fun ii (s : RkData K) => { s with C := upd s.C ii (C ii) }) d

/-- conversion of a floating-point value to `int` (C11 6.3.1.4: the fractional part is discarded): what a callback declared with
`int t` (include/hpipm_d_sim_erk.h:59-61) receives -/
def cTrunc [FloorRing K] (x : K) : ℤ := if 0 ≤ x then ⌊x⌋ else ⌈x⌉

/-- `struct SIM_ERK_WS`, include/hpipm_d_sim_erk.h:57-79 -/
structure ErkWs (K : Type*) where
  rk : RkData K
  h : K
  steps : ℕ
  ode : ℤ → Vec K → Vec K → ℕ → K
  vde : ℤ → Vec K → Vec K → ℕ → K
  k : Vec K
  x_for : Vec K
  x_tmp : Vec K
  p : Vec K
  l : Vec K
  nx : ℕ
  np : ℕ
  nf : ℕ
  na : ℕ
  nf_max : ℕ
  na_max : ℕ

/-- sizes of the arrays of SIM_ERK_WS_CREATE in order, x_sim_erk.c:107-169 (`p`, `x_for`, `K`, `x_tmp`, then, if `na_max > 0`, `x_traj`,
`l`, `adj_in`, `adj_tmp`), in units of `sizeof(REAL)` -/
def erkSizes (ns steps nx np nf_max na_max : ℕ) : List ℕ :=
  let nX := nx * (1 + nf_max)
  [np, nX, ns * nX, nX] ++ (if na_max > 0 then [nx * (ns * steps + 1), nf_max * (steps + 1), nx + nf_max, nf_max * ns] else [])

/-- SIM_ERK_WS_MEMSIZE, x_sim_erk.c:75-103, in units of `sizeof(REAL)` -/
def erkMemsize (ns steps nx np nf_max na_max : ℕ) : ℕ :=
  let nX := nx * (1 + nf_max)
  let size := 1 * np
  let size := size + 1 * nX
  let size := size + 1 * ns * nX
  let size := size + 1 * nX
  if na_max > 0 then
    let size := size + 1 * nx * (ns * steps + 1)
    let size := size + 1 * nf_max * (steps + 1)
    let size := size + 1 * (nx + nf_max)
    size + 1 * nf_max * ns
  else size

/-- SIM_ERK_WS_SET_ALL, x_sim_erk.c:194-259 -/
def erkSetAll (nf na : ℕ) (x fs bs p : Vec K) (ode vde : ℤ → Vec K → Vec K → ℕ → K) (w : ErkWs K) : Out (ErkWs K) :=
  if nf > w.nf_max then .exit
  else if nf > w.nf_max ∨ na > w.na_max then .exit
  else
    let w := { w with
      nf := nf
      na := na }
    let nA := w.np + w.nx
    let w := loop w.nx (fun ii (w : ErkWs K) => { w with x_for := upd w.x_for ii (x ii) }) w
    let w := loop (w.nx * nf) (fun ii (w : ErkWs K) => { w with x_for := upd w.x_for (w.nx + ii) (fs ii) }) w
    let w := loop w.np (fun ii (w : ErkWs K) => { w with p := upd w.p ii (p ii) }) w
    let w := if na > 0 then
        let w := loop w.np (fun ii (w : ErkWs K) => { w with l := upd w.l (nA * w.steps + ii) 0 }) w
        loop w.nx (fun ii (w : ErkWs K) => { w with l := upd w.l (nA * w.steps + w.np + ii) (bs ii) }) w
      else w
    .ok { w with
      ode := ode
      vde := vde }

/-- SIM_ERK_WS_SET_NF, x_sim_erk.c:263-270: no comparison with `nf_max` -/
def erkSetNf (nf : ℕ) (w : ErkWs K) : ErkWs K := { w with nf := nf }

/-- SIM_ERK_WS_SET_X, x_sim_erk.c:275-290 -/
def erkSetX (x : Vec K) (w : ErkWs K) : ErkWs K :=
  loop w.nx (fun ii (w : ErkWs K) => { w with x_for := upd w.x_for ii (x ii) }) w

/-- SIM_ERK_WS_SET_FS, x_sim_erk.c:294-310 -/
def erkSetFs (fs : Vec K) (w : ErkWs K) : ErkWs K :=
  loop (w.nx * w.nf) (fun ii (w : ErkWs K) => { w with x_for := upd w.x_for (w.nx + ii) (fs ii) }) w

/-- SIM_ERK_WS_SET_P, x_sim_erk.c:332-346 -/
def erkSetP (p : Vec K) (w : ErkWs K) : ErkWs K :=
  loop w.np (fun ii (w : ErkWs K) => { w with p := upd w.p ii (p ii) }) w

/-- SIM_ERK_WS_GET_X, x_sim_erk.c:314-328 -/
def erkGetX (w : ErkWs K) (out : Vec K) : Vec K := loop w.nx (fun ii o => upd o ii (w.x_for ii)) out

/-- SIM_ERK_WS_GET_FS, x_sim_erk.c:384-399 -/
def erkGetFs (w : ErkWs K) (out : Vec K) : Vec K := loop (w.nx * w.nf) (fun ii o => upd o ii (w.x_for (w.nx + ii))) out

/-- stage `ss`, x_sim_erk.c:471-504 -/
def erkStage [FloorRing K] (t : K) (ss : ℕ) (w : ErkWs K) : ErkWs K :=
  let nX := w.nx * (1 + w.nf)
  let w := loop nX (fun ii (w : ErkWs K) => { w with x_tmp := upd w.x_tmp ii (w.x_for ii) }) w
  let w := loop ss (fun ii (w : ErkWs K) =>
    let a := w.rk.A (ss + w.rk.ns * ii)
    if a ≠ 0 then
      let a := a * w.h
      loop nX (fun jj (w : ErkWs K) => { w with x_tmp := upd w.x_tmp jj (w.x_tmp jj + a * w.k (jj + ii * nX)) }) w
    else w) w
  let tt := cTrunc (t + w.h * w.rk.C ss)
  let xdot := if w.nf > 0 then w.vde tt w.x_tmp w.p else w.ode tt w.x_tmp w.p
  { w with k := fun i => if ss * nX ≤ i ∧ i < ss * nX + nX then xdot (i - ss * nX) else w.k i }

/-- one step, x_sim_erk.c:471-510 -/
def erkStep [FloorRing K] (t : K) (w : ErkWs K) : ErkWs K :=
  let nX := w.nx * (1 + w.nf)
  let w := loop w.rk.ns (fun ss w => erkStage t ss w) w
  loop w.rk.ns (fun ss (w : ErkWs K) =>
    let b := w.h * w.rk.B ss
    loop nX (fun ii (w : ErkWs K) => { w with x_for := upd w.x_for ii (w.x_for ii + b * w.k (ii + ss * nX)) }) w) w

/-- SIM_ERK_SOLVE, x_sim_erk.c:403-512; with `na > 0` the process ends (x_sim_erk.c:440-446), so that the adjoint sweep is never reached -/
def erkSolve [FloorRing K] (w : ErkWs K) : Out (ErkWs K) :=
  if w.na > 0 then .exit
  else .ok (loop w.steps (fun _ (p : ErkWs K × K) => (erkStep p.2 p.1, p.2 + p.1.h)) (w, 0)).1

end
end Hpipm
