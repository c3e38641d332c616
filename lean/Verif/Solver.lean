/-
Model of the C interface of the OCP QP solver, interfaces/c/x_ocp_qp_solver.c: arguments, creation, setters,
getters and the solve routine (which removes fixed variables when `reduce_eq_dof` is set).

Simplifications: as in Ipm.lean and Red.lean (real arithmetic, `alias_unchanged` is a copy); where the pieces of one
memory block lie is the subject of Mem.lean, here only the values after creation (zeroed memory) are modelled;
OCP_QP_SOLVER_SENS_FRW (580-594) is not modelled.
-/
import Verif.Ipm
import Verif.Red
import Verif.Arg
import Verif.RedSplit

namespace Hpipm

/-- `struct OCP_QP_SOLVER_ARG` (include/hpipm_d_ocp_qp_solver.h): `ipm_arg`, `red_arg`, `red_dim`, `valid_red_dim`,
`reduce_eq_dof` -/
structure SolverArg (K : Type*) where
  ipm : IpmArg K
  red : RedArg K
  redDim : Dims
  validRed : Bool
  reduce : ℤ

/-- `struct OCP_QP_SOLVER_WS` (include/hpipm_d_ocp_qp_solver.h): `ipm_ws`, `arg`, `red_ws`, `red_qp`, `red_sol`; `sqr`,
`lqf`, `statMax` are the members `square_root_alg`, `lq_fact`, `stat_max` of `ipm_ws` -/
structure SolverWs (K : Type*) where
  ipm : Ipm K
  sqr : Bool
  lqf : ℤ
  statMax : ℤ
  arg : SolverArg K
  redWs : RedWs K
  redQp : OcpQp K
  redSol : Sol K
  status : Status
  iter : ℕ

section
variable {K : Type*} [Field K]

/-- an argument structure in zeroed memory -/
def zeroIpmArg : IpmArg K := ⟨fun _ => 0, fun _ => 0⟩

/-- OCP_QP_DIM_CREATE on zeroed memory: the horizon is written, all sizes are zero, ocp_qp/x_ocp_qp_dim.c -/
def zeroDims (N : ℕ) : Dims :=
  { N := N, nx := fun _ => 0, nu := fun _ => 0, nb := fun _ => 0, nbx := fun _ => 0, nbu := fun _ => 0, ng := fun _ => 0,
    ns := fun _ => 0, nbxe := fun _ => 0, nbue := fun _ => 0, nge := fun _ => 0 }

/-- OCP_QP_SOLVER_ARG_CREATE, interfaces/c/x_ocp_qp_solver.c:69-111 -/
def solverArgCreate (d : Dims) : SolverArg K :=
  { ipm := zeroIpmArg
    red := ⟨0, 0, false, false, false, false⟩
    redDim := zeroDims d.N
    validRed := false
    reduce := 0 }

/-- OCP_QP_SOLVER_ARG_SET_DEFAULT, interfaces/c/x_ocp_qp_solver.c:115-123 -/
def solverArgDefault (mode : ℤ) (a : SolverArg K) : Out (SolverArg K) :=
  match argSetDefault mode a.ipm with
  | .ok i => .ok { a with
      ipm := i
      reduce := 0
      red := { (redArgDefault : RedArg K) with alias_unchanged := true } }
  | .exit => .exit
  | .ub => .ub

/-- OCP_QP_SOLVER_ARG_SET and OCP_QP_SOLVER_ARG_SET_REDUCE_EQ_DOF, interfaces/c/x_ocp_qp_solver.c:127-147 -/
def solverArgSet (field : String) (v : CVal K) (a : SolverArg K) : Out (SolverArg K) :=
  if field = "reduce_eq_dof" then
    match v with
    | .int z => .ok { a with reduce := z }
    | .real _ => .ub
  else
    match argSet field v a.ipm with
    | .ok i => .ok { a with ipm := i }
    | .exit => .exit
    | .ub => .ub

/-- OCP_QP_DIM_DEEPCOPY, ocp_qp/x_ocp_qp_dim.c:319-346 (entries up to the horizon) -/
def dimsCopy (s d : Dims) : Dims :=
  { N := s.N
    nx := fun k => if k ≤ s.N then s.nx k else d.nx k
    nu := fun k => if k ≤ s.N then s.nu k else d.nu k
    nb := fun k => if k ≤ s.N then s.nb k else d.nb k
    nbx := fun k => if k ≤ s.N then s.nbx k else d.nbx k
    nbu := fun k => if k ≤ s.N then s.nbu k else d.nbu k
    ng := fun k => if k ≤ s.N then s.ng k else d.ng k
    ns := fun k => if k ≤ s.N then s.ns k else d.ns k
    nbxe := fun k => if k ≤ s.N then s.nbxe k else d.nbxe k
    nbue := fun k => if k ≤ s.N then s.nbue k else d.nbue k
    nge := fun k => if k ≤ s.N then s.nge k else d.nge k }

/-- OCP_QP_SOLVER_ARG_DEEPCOPY, interfaces/c/x_ocp_qp_solver.c:151-162, with OCP_QP_REDUCE_EQ_DOF_ARG_DEEPCOPY,
ocp_qp/x_ocp_qp_red.c:155-165 (all members); the flag `valid_red_dim` is not copied -/
def solverArgCopy (s d : SolverArg K) : SolverArg K :=
  { ipm := argDeepcopy s.ipm d.ipm
    red := s.red
    redDim := if s.validRed then dimsCopy s.redDim d.redDim else d.redDim
    validRed := d.validRed
    reduce := s.reduce }

/-- the effect of OCP_QP_SOLVER_WS_MEMSIZE on the arguments, interfaces/c/x_ocp_qp_solver.c:188-193.  The condition is
`reduce_eq_dof & (valid_red_dim==0)`, a bitwise and with 0 or 1: the last bit of `reduce_eq_dof` decides. -/
def solverSizes (d : Dims) (a : SolverArg K) : SolverArg K :=
  if a.validRed = false ∧ a.reduce % 2 = 1 then { a with
    redDim := dimReduce d a.redDim
    validRed := true }
  else a

/-- values of a solution object in zeroed memory -/
def zeroSol : Sol K := ⟨fun _ _ => 0, fun _ _ => 0, fun _ _ => 0, fun _ _ => 0⟩

/-- values of a QP object after OCP_QP_CREATE, ocp_qp/x_ocp_qp.c:121-366: zeros, masks one (350-358: default values) -/
def zeroQp (D : QpDim) : OcpQp K where
  dim := D
  BAbt := fun _ _ _ => 0
  RSQrq := fun _ _ _ => 0
  DCt := fun _ _ _ => 0
  b := fun _ _ => 0
  rqz := fun _ _ => 0
  d := fun _ _ => 0
  d_mask := fun _ _ => 1
  m := fun _ _ => 0
  Z := fun _ _ => 0
  idxb := fun _ _ => 0
  idxs_rev := fun _ _ => -1
  idxe := fun _ _ => 0
  diag_H_flag := fun _ => 0

/-- sizes and zeros of the core workspace, OCP_QP_IPM_WS_CREATE, ocp_qp/x_ocp_qp_ipm.c:839-867, 1060 and
CREATE_CORE_QP_IPM, ipm_core/x_core_qp_ipm.c (sizes `nvt`, `net`, `nct` accumulated over the stages) -/
def coreZero (D : QpDim) : Core K :=
  { nv := loop D.N (fun ii n => n + (D.nx ii + D.nu ii + 2 * D.ns ii)) 0 + (D.nx D.N + D.nu D.N + 2 * D.ns D.N)
    ne := loop D.N (fun ii n => n + D.nx (ii + 1)) 0
    nc := loop D.N (fun ii n => n + (2 * D.nb ii + 2 * D.ng ii + 2 * D.ns ii)) 0
      + (2 * D.nb D.N + 2 * D.ng D.N + 2 * D.ns D.N)
    v := fun _ => 0, pi := fun _ => 0, lam := fun _ => 0, t := fun _ => 0
    v_bkp := fun _ => 0, pi_bkp := fun _ => 0, lam_bkp := fun _ => 0, t_bkp := fun _ => 0
    dv := fun _ => 0, dpi := fun _ => 0, dlam := fun _ => 0, dt := fun _ => 0
    m := fun _ => 0, res_m := fun _ => 0, res_m_bkp := fun _ => 0, t_inv := fun _ => 0
    Gamma := fun _ => 0, gamma := fun _ => 0
    alpha_prim := 0, alpha_dual := 0, sigma := 0, mu := 0, mu_aff := 0, nc_mask_inv := 0
    tau_min := 0, tau_iter := 0, lam_min := 0, t_min := 0, t_min_inv := 0, m_safe := 0
    t_lam_min := 0, split_step := 0, m_zero := false }

/-- values after OCP_QP_IPM_WS_CREATE, ocp_qp/x_ocp_qp_ipm.c:821-1262 (zeroed memory; `BAbt`, `RSQrq` of the KKT state
belong to the QP object and are taken over at the next solve) -/
def ipmZero (D : QpDim) : Ipm K :=
  { core := coreZero D
    res := ⟨fun _ _ => 0, fun _ _ => 0, fun _ _ => 0, fun _ _ => 0, 0, 0, 0, 0⟩
    rmax := (0, 0, 0, 0)
    rws := ⟨fun _ => 0, fun _ => 0, fun _ => 0, false, false, 0⟩
    resIt := ⟨fun _ _ => 0, fun _ _ => 0, fun _ _ => 0, fun _ _ => 0, 0, 0, 0, 0⟩
    kkt := ⟨fun _ _ _ => 0, fun _ _ _ => 0, fun _ _ _ => 0, fun _ _ _ => 0, fun _ _ => 0, fun _ _ => 0, fun _ _ => 0,
      fun _ _ => 0, fun _ _ => 0, fun _ _ => 0, fun _ => 0, fun _ => 0, fun _ => 0, fun _ => 0, fun _ => 0,
      fun _ _ => 0, fun _ _ => 0, fun _ _ => 0, fun _ _ => 0⟩
    itr := zeroSol
    preg_last := 0
    npd := false
    lastLq := false
    mask := false
    stat := fun _ => 0
    oob := false }

/-- OCP_QP_SOLVER_WS_CREATE, interfaces/c/x_ocp_qp_solver.c:230-325: the user's arguments (OCP_QP_SOLVER_WS_MEMSIZE is
called on them) and the new solver -/
def solverCreate (d : Dims) (a : SolverArg K) : SolverArg K × SolverWs K :=
  let a := solverSizes d a
  let D := if a.reduce ≠ 0 then qpDimOf a.redDim else qpDimOf d
  (a, { ipm := ipmZero D
        sqr := decide (a.ipm.i .square_root_alg ≠ 0)
        lqf := a.ipm.i .lq_fact
        statMax := a.ipm.i .stat_max
        arg := solverArgCopy a (solverArgCreate d)
        redWs := ⟨fun _ => 0, fun _ => 0, fun _ => 0, fun _ => 0, fun _ => 0⟩
        redQp := zeroQp (qpDimOf a.redDim)
        redSol := zeroSol
        status := .SUCCESS
        iter := 0 })

/-- the fields OCP_QP_SOLVER_SET knows, interfaces/c/x_ocp_qp_solver.c:331-388 -/
def solverFields : List String :=
  ["iter_max", "alpha_min", "mu0", "tol_stat", "tol_eq", "tol_ineq", "tol_comp", "pred_corr", "split_step", "reg_prim",
    "t0_init", "tau_min", "m_safe"]

/-- OCP_QP_SOLVER_SET and the setters it dispatches to, interfaces/c/x_ocp_qp_solver.c:329-488: each known field goes to the
setter of the interior point arguments with the same name -/
def solverSet (field : String) (v : CVal K) (ws : SolverWs K) : Out (SolverWs K) :=
  if field ∈ solverFields then
    match argSet field v ws.arg.ipm with
    | .ok i => .ok { ws with arg := { ws.arg with ipm := i } }
    | .exit => .exit
    | .ub => .ub
  else .exit

end

/-- numerical kernels that are parameters of the model (see `Env`) -/
structure Prims (K : Type*) where
  sq : K → K
  fuel : ℕ
  lq : OcpQp K → K → Core K → KktSt K → Option (KktSt K × Bool × K × Bool)
  factOnly : OcpQp K → Core K → KktSt K → KktSt K

section
variable {K : Type*} [Field K] [LinearOrder K] [IsStrictOrderedRing K]

/-- the parameters of one interior point run -/
def SolverWs.env (P : Prims K) (ws : SolverWs K) (qp : OcpQp K) : Env K :=
  { sq := P.sq
    fuel := P.fuel
    qp := qp
    arg := ws.arg.ipm
    sqr := ws.sqr
    lqf := ws.lqf
    statMax := ws.statMax
    lq := P.lq
    factOnly := P.factOnly }

/-- what the caller sees after OCP_QP_SOLVER_SOLVE -/
structure SolverOut (K : Type*) where
  sol : Sol K
  qp : OcpQp K
  ws : SolverWs K

/-- OCP_QP_SOLVER_SOLVE, interfaces/c/x_ocp_qp_solver.c:562-576; `none` as in `ipmSolve`.  `status` and `iter` are the values
OCP_QP_SOLVER_GET (490-560) returns. -/
def solverSolve (P : Prims K) (lf : ℕ) (qp : OcpQp K) (sol : Sol K) (ws : SolverWs K) : Option (SolverOut K) :=
  if ws.arg.reduce ≠ 0 then
    let r := redQp ws.arg.red qp ws.redQp ws.redWs
    let E := ws.env P r.1
    (ipmSolve E lf ws.redSol ws.ipm).map fun o =>
      let sr := solOf E.qp.dim o.s.core
      let q := restoreSol ws.arg.red qp r.1.dim sr sol r.2
      { sol := q.1
        qp := qp
        ws := { ws with
          ipm := o.s
          redWs := q.2
          redQp := qpNow E o.s
          redSol := sr
          status := o.status
          iter := o.iter } }
  else
    let E := ws.env P qp
    (ipmSolve E lf sol ws.ipm).map fun o =>
      { sol := solOf E.qp.dim o.s.core
        qp := qpNow E o.s
        ws := { ws with
          ipm := o.s
          status := o.status
          iter := o.iter } }

/-- calls on a solver after its creation, for problems of the sizes `d` it was created for: setters, and solves with any
problem data and any content of the solution object -/
inductive SolverHist (P : Prims K) (d : Dims) : SolverWs K → SolverWs K → Prop
  | refl (ws : SolverWs K) : SolverHist P d ws ws
  | set {ws ws' ws'' : SolverWs K} (f : String) (v : CVal K) : SolverHist P d ws ws' → solverSet f v ws' = .ok ws'' →
      SolverHist P d ws ws''
  | solve {ws ws' : SolverWs K} {o : SolverOut K} (lf : ℕ) (qp : OcpQp K) (sol : Sol K) : qp.dim = qpDimOf d →
      SolverHist P d ws ws' → solverSolve P lf qp sol ws' = some o → SolverHist P d ws o.ws

end
end Hpipm
