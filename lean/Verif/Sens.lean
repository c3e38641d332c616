/-
Model of the sensitivity and prediction routines of the solver: OCP_QP_SEED_SET and its field setters
(ocp_qp/x_ocp_qp_seed.c), OCP_QP_IPM_PREDICT, OCP_QP_IPM_SENS_FRW, OCP_QP_IPM_SENS_ADJ (ocp_qp/x_ocp_qp_ipm.c:3220-3545).

Simplifications: the user arrays are total functions; `cws->v`, `cws->pi`, `cws->lam`, `cws->t` are aliases of the solution object
the re-solve writes to, which is harmless because COMPUTE_LAM_T_QP reads entry `i` of `lam` before it writes entry `i` of `dlam`, and
no other routine of the re-solve reads them after the sweeps have started.
-/
import Verif.Ric
import Verif.Ipm

namespace Hpipm
open Finset
set_option linter.unusedSectionVars false

section
variable {K : Type*} [Field K] [LinearOrder K] [IsStrictOrderedRing K]

/-- `struct OCP_QP_SEED` (include/hpipm_d_ocp_qp_seed.h:55-64) -/
structure Seed (K : Type*) where
  dim : QpDim
  g : ℕ → Vec K
  b : ℕ → Vec K
  d : ℕ → Vec K
  m : ℕ → Vec K

/-- OCP_QP_SEED_SET_ZERO, x_ocp_qp_seed.c:206-242 -/
def seedZero (s : Seed K) : Seed K :=
  let D := s.dim
  let s := loop (D.N + 1) (fun ii (s : Seed K) => { s with g := upd s.g ii (vecse (D.nu ii + D.nx ii + 2 * D.ns ii) 0 (s.g ii) 0) }) s
  let s := loop D.N (fun ii (s : Seed K) => { s with b := upd s.b ii (vecse (D.nx (ii + 1)) 0 (s.b ii) 0) }) s
  let s := loop (D.N + 1) (fun ii (s : Seed K) => { s with d := upd s.d ii (vecse (2 * D.nb ii + 2 * D.ng ii + 2 * D.ns ii) 0 (s.d ii) 0) }) s
  loop (D.N + 1) (fun ii (s : Seed K) => { s with m := upd s.m ii (vecse (2 * D.nb ii + 2 * D.ng ii + 2 * D.ns ii) 0 (s.m ii) 0) }) s

/-- the fields of OCP_QP_SEED_SET -/
inductive SeedField
  | r | q | zl | zu | b | lb | lbu | lbx | ub | ubu | ubx | lg | ug | ls | us
  deriving DecidableEq, Repr

/-- the dispatch on the field name, x_ocp_qp_seed.c:246-320 -/
def seedField (s : String) : Option SeedField :=
  if s = "seed_r" then some .r
  else if s = "seed_q" then some .q
  else if s = "seed_zl" then some .zl
  else if s = "seed_zu" then some .zu
  else if s = "seed_b" then some .b
  else if s = "seed_lb" then some .lb
  else if s = "seed_lbu" then some .lbu
  else if s = "seed_lbx" then some .lbx
  else if s = "seed_ub" then some .ub
  else if s = "seed_ubu" then some .ubu
  else if s = "seed_ubx" then some .ubx
  else if s = "seed_lg" then some .lg
  else if s = "seed_ug" then some .ug
  else if s = "seed_ls" then some .ls
  else if s = "seed_us" then some .us
  else none

/-- OCP_QP_SEED_SET_SEED_R .. OCP_QP_SEED_SET_SEED_US, x_ocp_qp_seed.c:324-481 -/
def seedPut (f : SeedField) (k : ℕ) (v : ℕ → K) (s : Seed K) : Seed K :=
  let nx := s.dim.nx k; let nu := s.dim.nu k
  let nb := s.dim.nb k; let nbx := s.dim.nbx k; let nbu := s.dim.nbu k
  let ng := s.dim.ng k; let ns := s.dim.ns k
  let g := s.g k; let d := s.d k
  match f with
  | .r => { s with g := upd s.g k (packVec nu v g 0) }
  | .q => { s with g := upd s.g k (packVec nx v g nu) }
  | .zl => { s with g := upd s.g k (packVec ns v g (nu + nx)) }
  | .zu => { s with g := upd s.g k (packVec ns v g (nu + nx + ns)) }
  | .b => { s with b := upd s.b k (packVec (s.dim.nx (k + 1)) v (s.b k) 0) }
  | .lb => { s with d := upd s.d k (packVec nb v d 0) }
  | .lbu => { s with d := upd s.d k (packVec nbu v d 0) }
  | .lbx => { s with d := upd s.d k (packVec nbx v d nbu) }
  | .ub => { s with d := upd s.d k (vecsc nb (-1) (packVec nb v d (nb + ng)) (nb + ng)) }
  | .ubu => { s with d := upd s.d k (vecsc nbu (-1) (packVec nbu v d (nb + ng)) (nb + ng)) }
  | .ubx => { s with d := upd s.d k (vecsc nbx (-1) (packVec nbx v d (nb + ng + nbu)) (nb + ng + nbu)) }
  | .lg => { s with d := upd s.d k (packVec ng v d nb) }
  | .ug => { s with d := upd s.d k (vecsc ng (-1) (packVec ng v d (2 * nb + ng)) (2 * nb + ng)) }
  | .ls => { s with d := upd s.d k (packVec ns v d (2 * nb + 2 * ng)) }
  | .us => { s with d := upd s.d k (packVec ns v d (2 * nb + 2 * ng + ns)) }

/-- OCP_QP_SEED_SET, x_ocp_qp_seed.c:246-320: an unknown name ends the process -/
def seedSet (name : String) (k : ℕ) (v : ℕ → K) (s : Seed K) : Out (Seed K) :=
  match seedField name with
  | some f => .ok (seedPut f k v s)
  | none => .exit

/-! ### the re-solves -/

/-- arguments of the call that reach the core workspace (`big` is `1e30`) -/
structure SensArg (K : Type*) where
  lam_min : K
  t_min : K
  tau_min : K
  big : K
  t_lam_min : ℕ
  comp_dual_sol_eq : Bool

/-- arguments into the core workspace and the iterate saved in the backup vectors into the solution object, x_ocp_qp_ipm.c:3406-3427 and
3478-3499 -/
def sensLoad (a : SensArg K) (c : Core K) : Core K :=
  { c with
    lam_min := a.lam_min
    t_min := a.t_min
    t_min_inv := if a.t_min > 0 then 1 / a.t_min else a.big
    tau_min := a.tau_min
    t_lam_min := a.t_lam_min
    v := veccp c.nv c.v_bkp 0 c.v 0
    pi := veccp c.ne c.pi_bkp 0 c.pi 0
    lam := veccp c.nc c.lam_bkp 0 c.lam 0
    t := veccp c.nc c.t_bkp 0 c.t 0 }

/-- the same in OCP_QP_IPM_PREDICT, x_ocp_qp_ipm.c:3233-3252, which leaves `tau_min` alone -/
def predLoad (a : SensArg K) (c : Core K) : Core K := { sensLoad a c with tau_min := c.tau_min }

/-- OCP_QP_SOLVE_KKT_STEP into a solution object `sol` that the core workspace aliases (not into `ws->sol_step`): the result in that
object, the workspace after the call with its own step object untouched -/
def solveInto (qp : OcpQp K) (dual : Bool) (c : Core K) (sol : Sol K) (w : RicWs K) : Sol K × RicWs K :=
  let r := solveKktStep qp dual w.sqr false c { w.st with
    ux := sol.ux
    pi := sol.pi
    lam := sol.lam
    t := sol.t }
  (stepOf r.2, { w with
    st := { r.2 with
      ux := w.st.ux
      pi := w.st.pi
      lam := w.st.lam
      t := w.st.t }
    core := putSol qp.dim (stepOf r.2) r.1
    ricP := true })

/-- OCP_QP_IPM_SENS_FRW, x_ocp_qp_ipm.c:3383-3451: the sensitivities and the workspace after the call -/
def sensFrw (qp : OcpQp K) (s : Seed K) (a : SensArg K) (w : RicWs K) : Sol K × RicWs K :=
  let c := sensLoad a w.core
  solveInto (withRhs qp s.g s.b s.d s.m) a.comp_dual_sol_eq c (solOf qp.dim c) w

/-- OCP_QP_IPM_SENS_ADJ, x_ocp_qp_ipm.c:3455-3545: the sensitivities, the seed object and the workspace after the call; `seed_m` is
scaled in place for the solve and restored from `ws->tmp_m` -/
def sensAdj (qp : OcpQp K) (s : Seed K) (a : SensArg K) (w : RicWs K) : Sol K × Seed K × RicWs K :=
  let c := sensLoad a w.core
  let sm := stFlat (nct qp.dim) s.m (qp.dim.N + 1)
  let p := loop c.nc (fun ii (p : Vec K × Vec K) => (upd p.1 ii (p.2 ii), upd p.2 ii (p.2 ii * c.t ii))) (fun _ => 0, sm)
  let r := solveInto (withRhs qp s.g s.b s.d (svw (nct qp.dim) p.2)) a.comp_dual_sol_eq c (solOf qp.dim c) w
  let t := loop c.nc (fun ii t => upd t ii (t ii * r.2.core.t_inv ii)) (stFlat (nct qp.dim) r.1.t (qp.dim.N + 1))
  let m := loop c.nc (fun ii m => upd m ii (p.1 ii)) p.2
  let sol := { r.1 with t := svw (nct qp.dim) t }
  (sol, { s with m := svw (nct qp.dim) m }, { r.2 with core := { r.2.core with t := t } })

/-- what OCP_QP_IPM_PREDICT leaves behind: `qp_sol`, `ws->res`, `ws->res->res_max`, the rest of the workspace -/
structure PredOut (K : Type*) where
  sol : Sol K
  res : Res K
  rmax : K × K × K × K
  w : RicWs K

/-- OCP_QP_RES_COMPUTE and the four norms over the lengths of the core workspace, x_ocp_qp_ipm.c:3282-3291, 3333-3339, 3358-3366 -/
def predRes (qp : OcpQp K) (c : Core K) (sol : Sol K) (res : Res K) (rws : ResWs K) : Res K × (K × K × K × K) :=
  let r := resCompute qp sol res rws
  (r, (vecnrmInf c.nv (stFlat (nvt qp.dim) r.res_g (qp.dim.N + 1)) 0, vecnrmInf c.ne (stFlat (net qp.dim) r.res_b qp.dim.N) 0,
    vecnrmInf c.nc (stFlat (nct qp.dim) r.res_d (qp.dim.N + 1)) 0, vecnrmInf c.nc (stFlat (nct qp.dim) r.res_m (qp.dim.N + 1)) 0))

/-- OCP_QP_IPM_PREDICT with `abs_form`, x_ocp_qp_ipm.c:3254-3295; `exit` is `comp_res_exit & comp_dual_sol_eq` -/
def predictAbs (qp : OcpQp K) (a : SensArg K) (exit : Bool) (res : Res K) (rws : ResWs K) (rmax : K × K × K × K) (w : RicWs K) : PredOut K :=
  let c := predLoad a w.core
  let r := solveInto qp a.comp_dual_sol_eq c (solOf qp.dim c) w
  if exit then
    let q := predRes qp r.2.core r.1 res rws
    ⟨r.1, q.1, q.2, r.2⟩
  else ⟨r.1, res, rmax, r.2⟩

/-- OCP_QP_IPM_PREDICT without `abs_form`, x_ocp_qp_ipm.c:3297-3379: residuals at the saved iterate, step, UPDATE_VAR_QP.  The member
`cws->alpha` set at 3350 has no reader: UPDATE_VAR_QP uses `alpha_prim` and `alpha_dual`, which keep the values of the last
COMPUTE_ALPHA_QP. -/
def predictDelta (qp : OcpQp K) (a : SensArg K) (compRes : Bool) (res : Res K) (rws : ResWs K) (w : RicWs K) : PredOut K :=
  let D := qp.dim
  let c := predLoad a w.core
  let q := predRes qp c (solOf D c) res rws
  let r := solveKktStep (withRhs qp q.1.res_g q.1.res_b q.1.res_d q.1.res_m) a.comp_dual_sol_eq w.sqr false c w.st
  let c := updateVar { r.1 with
    res_m := stFlat (nct D) q.1.res_m (D.N + 1)
    dv := stFlat (nvt D) r.2.ux (D.N + 1)
    dpi := stFlat (net D) r.2.pi D.N
    dlam := stFlat (nct D) r.2.lam (D.N + 1)
    dt := stFlat (nct D) r.2.t (D.N + 1) }
  let q := if compRes then predRes qp c (solOf D c) q.1 rws else q
  ⟨solOf D c, q.1, q.2, { w with
    st := r.2
    core := c
    ricP := true }⟩

end
end Hpipm
