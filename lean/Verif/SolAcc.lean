import Verif.View
import Verif.Arg
import Verif.OcpQpProps

/-! The user's access to a solution object: `OCP_QP_SOL_GET` / `OCP_QP_SOL_SET` by field name, `_GET_ALL`, `_SET_ALL`,
`_COPY_ALL`, `_SET_ZERO` (ocp_qp/x_ocp_qp_sol.c) and the read access of the tree solver
(tree_ocp_qp/x_tree_ocp_qp_sol.c).  The specification is a list of *components* (control `i` of stage `k`, multiplier of the lower
side of constraint `j` of stage `k`, ...), the same components the optimality theorems speak about. -/

namespace Hpipm

/-! ### specification -/

/-- one scalar of a primal-dual solution of an OCP QP -/
inductive Comp
  | u (k i : ℕ) | x (k i : ℕ) | sl (k i : ℕ) | su (k i : ℕ) | pi (k i : ℕ)
  | lo (k j : ℕ) | up (k j : ℕ) | ls (k i : ℕ) | us (k i : ℕ)
  deriving DecidableEq

/-- the components an OCP QP of dimension `D` has -/
def Comp.Valid (D : QpDim) : Comp → Prop
  | .u k i => k ≤ D.N ∧ i < D.nu k
  | .x k i => k ≤ D.N ∧ i < D.nx k
  | .sl k i | .su k i | .ls k i | .us k i => k ≤ D.N ∧ i < D.ns k
  | .pi k i => k < D.N ∧ i < D.nx (k + 1)
  | .lo k j | .up k j => k ≤ D.N ∧ j < D.nb k + D.ng k

/-- the value of a component in a mathematical primal-dual point -/
def Comp.val {K : Type*} (p : Pt K) (m : Mult K) : Comp → K
  | .u k i => p.u k i
  | .x k i => p.x k i
  | .sl k i => p.sl k i
  | .su k i => p.su k i
  | .pi k i => m.pi k i
  | .lo k j => m.lo k j
  | .up k j => m.up k j
  | .ls k i => m.ls k i
  | .us k i => m.us k i

/-- the value of a component in a solution object, through the views used by the optimality theorems (View.lean) -/
abbrev Sol.comp {K : Type*} (D : QpDim) (s : Sol K) (c : Comp) : K := c.val (ptOf D s.ux) (multOf D s)

/-- the documented field names of a solution object -/
inductive SolF
  | u | x | sl | su | pi | lam_lb | lam_lbu | lam_lbx | lam_ub | lam_ubu | lam_ubx | lam_lg | lam_ug | lam_ls | lam_us
  deriving DecidableEq

/-- their spelling -/
def SolF.name : SolF → String
  | u => "u" | x => "x" | sl => "sl" | su => "su" | pi => "pi" | lam_lb => "lam_lb" | lam_lbu => "lam_lbu" | lam_lbx => "lam_lbx"
  | lam_ub => "lam_ub" | lam_ubu => "lam_ubu" | lam_ubx => "lam_ubx" | lam_lg => "lam_lg" | lam_ug => "lam_ug" | lam_ls => "lam_ls"
  | lam_us => "lam_us"

/-- how many numbers the field has at a stage -/
def SolF.len (D : QpDim) (k : ℕ) : SolF → ℕ
  | u => D.nu k | x => D.nx k | sl | su | lam_ls | lam_us => D.ns k | pi => D.nx (k + 1)
  | lam_lb | lam_ub => D.nb k | lam_lbu | lam_ubu => D.nbu k | lam_lbx | lam_ubx => D.nbx k | lam_lg | lam_ug => D.ng k

/-- the stages at which the field exists: the multipliers of the dynamics belong to the edges `0 .. N-1` -/
def SolF.StageOk (D : QpDim) (k : ℕ) : SolF → Prop
  | pi => k < D.N
  | _ => k ≤ D.N

/-- which component the `i`-th number of the field is; constraints are numbered bounds on controls, bounds on states, general -/
def SolF.comp (D : QpDim) (k i : ℕ) : SolF → Comp
  | u => .u k i | x => .x k i | sl => .sl k i | su => .su k i | pi => .pi k i
  | lam_lb | lam_lbu => .lo k i | lam_lbx => .lo k (D.nbu k + i) | lam_lg => .lo k (D.nb k + i)
  | lam_ub | lam_ubu => .up k i | lam_ubx => .up k (D.nbu k + i) | lam_ug => .up k (D.nb k + i)
  | lam_ls => .ls k i | lam_us => .us k i

/-! ### the code -/

section
variable {K : Type*}

/-- OCP_QP_SOL_GET, ocp_qp/x_ocp_qp_sol.c:388-458, with the bodies of the getters (462-599) inlined; the C
code does not check the stage: beyond the last stage (last edge for `pi`) it reads outside of the arrays (`ub`) -/
def solGet (D : QpDim) (field : String) (k : ℕ) (s : Sol K) (v : Vec K) : Out (Vec K) :=
  if field = "u" then (if k ≤ D.N then .ok (unpackVec (D.nu k) (s.ux k) 0 v) else .ub)                                -- 390, 465
  else if field = "x" then (if k ≤ D.N then .ok (unpackVec (D.nx k) (s.ux k) (D.nu k) v) else .ub)                    -- 394, 474
  else if field = "sl" then (if k ≤ D.N then .ok (unpackVec (D.ns k) (s.ux k) (D.nu k + D.nx k) v) else .ub)          -- 398, 484
  else if field = "su" then (if k ≤ D.N then .ok (unpackVec (D.ns k) (s.ux k) (D.nu k + D.nx k + D.ns k) v) else .ub) -- 402, 495
  else if field = "pi" then (if k < D.N then .ok (unpackVec (D.nx (k + 1)) (s.pi k) 0 v) else .ub)                    -- 406, 503
  else if field = "lam_lb" then (if k ≤ D.N then .ok (unpackVec (D.nb k) (s.lam k) 0 v) else .ub)                     -- 410, 511
  else if field = "lam_lbu" then (if k ≤ D.N then .ok (unpackVec (D.nbu k) (s.lam k) 0 v) else .ub)                   -- 414, 519
  else if field = "lam_lbx" then (if k ≤ D.N then .ok (unpackVec (D.nbx k) (s.lam k) (D.nbu k) v) else .ub)           -- 418, 528
  else if field = "lam_ub" then (if k ≤ D.N then .ok (unpackVec (D.nb k) (s.lam k) (D.nb k + D.ng k) v) else .ub)     -- 422, 537
  else if field = "lam_ubu" then (if k ≤ D.N then .ok (unpackVec (D.nbu k) (s.lam k) (D.nb k + D.ng k) v) else .ub)   -- 426, 547
  else if field = "lam_ubx" then
    (if k ≤ D.N then .ok (unpackVec (D.nbx k) (s.lam k) (D.nb k + D.ng k + D.nbu k) v) else .ub)                      -- 430, 558
  else if field = "lam_lg" then (if k ≤ D.N then .ok (unpackVec (D.ng k) (s.lam k) (D.nb k) v) else .ub)              -- 434, 567
  else if field = "lam_ug" then (if k ≤ D.N then .ok (unpackVec (D.ng k) (s.lam k) (2 * D.nb k + D.ng k) v) else .ub) -- 438, 576
  else if field = "lam_ls" then
    (if k ≤ D.N then .ok (unpackVec (D.ns k) (s.lam k) (2 * D.nb k + 2 * D.ng k) v) else .ub)                         -- 442, 586
  else if field = "lam_us" then
    (if k ≤ D.N then .ok (unpackVec (D.ns k) (s.lam k) (2 * D.nb k + 2 * D.ng k + D.ns k) v) else .ub)                -- 446, 596
  else .exit                                                                                                          -- 450-456

/-- write to stage `k` of `ux` -/
def Sol.setUx (s : Sol K) (k n : ℕ) (v : Vec K) (off : ℕ) : Sol K := { s with ux := upd s.ux k (packVec n v (s.ux k) off) }
/-- write to edge `k` of `pi` -/
def Sol.setPi (s : Sol K) (k n : ℕ) (v : Vec K) (off : ℕ) : Sol K := { s with pi := upd s.pi k (packVec n v (s.pi k) off) }
/-- write to stage `k` of `lam` -/
def Sol.setLam (s : Sol K) (k n : ℕ) (v : Vec K) (off : ℕ) : Sol K := { s with lam := upd s.lam k (packVec n v (s.lam k) off) }

/-- OCP_QP_SOL_SET, ocp_qp/x_ocp_qp_sol.c:601-671, with the bodies of the setters (675-814) inlined -/
def solSet (D : QpDim) (field : String) (k : ℕ) (v : Vec K) (s : Sol K) : Out (Sol K) :=
  if field = "u" then (if k ≤ D.N then .ok (s.setUx k (D.nu k) v 0) else .ub)                                         -- 603, 678
  else if field = "x" then (if k ≤ D.N then .ok (s.setUx k (D.nx k) v (D.nu k)) else .ub)                             -- 607, 688
  else if field = "sl" then (if k ≤ D.N then .ok (s.setUx k (D.ns k) v (D.nu k + D.nx k)) else .ub)                   -- 611, 699
  else if field = "su" then (if k ≤ D.N then .ok (s.setUx k (D.ns k) v (D.nu k + D.nx k + D.ns k)) else .ub)          -- 615, 710
  else if field = "pi" then (if k < D.N then .ok (s.setPi k (D.nx (k + 1)) v 0) else .ub)                             -- 619, 719
  else if field = "lam_lb" then (if k ≤ D.N then .ok (s.setLam k (D.nb k) v 0) else .ub)                              -- 623, 727
  else if field = "lam_lbu" then (if k ≤ D.N then .ok (s.setLam k (D.nbu k) v 0) else .ub)                            -- 627, 735
  else if field = "lam_lbx" then (if k ≤ D.N then .ok (s.setLam k (D.nbx k) v (D.nbu k)) else .ub)                    -- 631, 744
  else if field = "lam_ub" then (if k ≤ D.N then .ok (s.setLam k (D.nb k) v (D.nb k + D.ng k)) else .ub)              -- 635, 753
  else if field = "lam_ubu" then (if k ≤ D.N then .ok (s.setLam k (D.nbu k) v (D.nb k + D.ng k)) else .ub)            -- 639, 763
  else if field = "lam_ubx" then (if k ≤ D.N then .ok (s.setLam k (D.nbx k) v (D.nb k + D.ng k + D.nbu k)) else .ub)  -- 643, 774
  else if field = "lam_lg" then (if k ≤ D.N then .ok (s.setLam k (D.ng k) v (D.nb k)) else .ub)                       -- 647, 783
  else if field = "lam_ug" then (if k ≤ D.N then .ok (s.setLam k (D.ng k) v (2 * D.nb k + D.ng k)) else .ub)          -- 651, 792
  else if field = "lam_ls" then (if k ≤ D.N then .ok (s.setLam k (D.ns k) v (2 * D.nb k + 2 * D.ng k)) else .ub)      -- 655, 802
  else if field = "lam_us" then (if k ≤ D.N then .ok (s.setLam k (D.ns k) v (2 * D.nb k + 2 * D.ng k + D.ns k)) else .ub) -- 659, 812
  else .exit                                                                                                          -- 663-669

/-- the eleven buffers of `OCP_QP_SOL_GET_ALL` / `_SET_ALL`: arrays of one buffer per stage -/
structure SolBuf (K : Type*) where
  u : ℕ → Vec K
  x : ℕ → Vec K
  ls : ℕ → Vec K
  us : ℕ → Vec K
  pi : ℕ → Vec K
  lam_lb : ℕ → Vec K
  lam_ub : ℕ → Vec K
  lam_lg : ℕ → Vec K
  lam_ug : ℕ → Vec K
  lam_ls : ℕ → Vec K
  lam_us : ℕ → Vec K

/-- stage `ii` of OCP_QP_SOL_GET_ALL, ocp_qp/x_ocp_qp_sol.c:268-287 -/
def solGetStage (D : QpDim) (s : Sol K) (ii : ℕ) (b : SolBuf K) : SolBuf K :=
  let b := { b with u := upd b.u ii (unpackVec (D.nu ii) (s.ux ii) 0 (b.u ii)) }
  let b := { b with x := upd b.x ii (unpackVec (D.nx ii) (s.ux ii) (D.nu ii) (b.x ii)) }
  let b := if 0 < D.nb ii then
      let b := { b with lam_lb := upd b.lam_lb ii (unpackVec (D.nb ii) (s.lam ii) 0 (b.lam_lb ii)) }
      { b with lam_ub := upd b.lam_ub ii (unpackVec (D.nb ii) (s.lam ii) (D.nb ii + D.ng ii) (b.lam_ub ii)) }
    else b
  let b := if 0 < D.ng ii then
      let b := { b with lam_lg := upd b.lam_lg ii (unpackVec (D.ng ii) (s.lam ii) (D.nb ii) (b.lam_lg ii)) }
      { b with lam_ug := upd b.lam_ug ii (unpackVec (D.ng ii) (s.lam ii) (2 * D.nb ii + D.ng ii) (b.lam_ug ii)) }
    else b
  if 0 < D.ns ii then
    let b := { b with ls := upd b.ls ii (unpackVec (D.ns ii) (s.ux ii) (D.nu ii + D.nx ii) (b.ls ii)) }
    let b := { b with us := upd b.us ii (unpackVec (D.ns ii) (s.ux ii) (D.nu ii + D.nx ii + D.ns ii) (b.us ii)) }
    let b := { b with lam_ls := upd b.lam_ls ii (unpackVec (D.ns ii) (s.lam ii) (2 * D.nb ii + 2 * D.ng ii) (b.lam_ls ii)) }
    { b with lam_us := upd b.lam_us ii (unpackVec (D.ns ii) (s.lam ii) (2 * D.nb ii + 2 * D.ng ii + D.ns ii) (b.lam_us ii)) }
  else b

/-- OCP_QP_SOL_GET_ALL, ocp_qp/x_ocp_qp_sol.c:249-291 (GET_ALL_ROWMAJ, 295-299, is the same call) -/
def solGetAll (D : QpDim) (s : Sol K) (b : SolBuf K) : SolBuf K :=
  let b := loop D.N (fun ii b => { b with pi := upd b.pi ii (unpackVec (D.nx (ii + 1)) (s.pi ii) 0 (b.pi ii)) }) b
  loop (D.N + 1) (solGetStage D s) b

/-- stage `ii` of OCP_QP_SOL_SET_ALL, ocp_qp/x_ocp_qp_sol.c:322-341 -/
def solSetStage (D : QpDim) (b : SolBuf K) (ii : ℕ) (s : Sol K) : Sol K :=
  let s := s.setUx ii (D.nu ii) (b.u ii) 0
  let s := s.setUx ii (D.nx ii) (b.x ii) (D.nu ii)
  let s := if 0 < D.nb ii then (s.setLam ii (D.nb ii) (b.lam_lb ii) 0).setLam ii (D.nb ii) (b.lam_ub ii) (D.nb ii + D.ng ii) else s
  let s := if 0 < D.ng ii then
    (s.setLam ii (D.ng ii) (b.lam_lg ii) (D.nb ii)).setLam ii (D.ng ii) (b.lam_ug ii) (2 * D.nb ii + D.ng ii) else s
  if 0 < D.ns ii then
    let s := s.setUx ii (D.ns ii) (b.ls ii) (D.nu ii + D.nx ii)
    let s := s.setUx ii (D.ns ii) (b.us ii) (D.nu ii + D.nx ii + D.ns ii)
    let s := s.setLam ii (D.ns ii) (b.lam_ls ii) (2 * D.nb ii + 2 * D.ng ii)
    s.setLam ii (D.ns ii) (b.lam_us ii) (2 * D.nb ii + 2 * D.ng ii + D.ns ii)
  else s

/-- OCP_QP_SOL_SET_ALL, ocp_qp/x_ocp_qp_sol.c:303-345 -/
def solSetAll (D : QpDim) (b : SolBuf K) (s : Sol K) : Sol K :=
  let s := loop D.N (fun ii s => s.setPi ii (D.nx (ii + 1)) (b.pi ii) 0) s
  loop (D.N + 1) (solSetStage D b) s

/-- OCP_QP_SOL_COPY_ALL, ocp_qp/x_ocp_qp_sol.c:216-245 (`D` = dimensions of the source; the last stage, 238-241, has no `pi`) -/
def solCopyAll (D : QpDim) (o d : Sol K) : Sol K :=
  let d := loop D.N (fun ii (d : Sol K) =>
    let d := { d with ux := upd d.ux ii (veccp (D.nu ii + D.nx ii + 2 * D.ns ii) (o.ux ii) 0 (d.ux ii) 0) }
    let d := { d with pi := upd d.pi ii (veccp (D.nx (ii + 1)) (o.pi ii) 0 (d.pi ii) 0) }
    let d := { d with lam := upd d.lam ii (veccp (2 * D.nb ii + 2 * D.ng ii + 2 * D.ns ii) (o.lam ii) 0 (d.lam ii) 0) }
    { d with t := upd d.t ii (veccp (2 * D.nb ii + 2 * D.ng ii + 2 * D.ns ii) (o.t ii) 0 (d.t ii) 0) }) d
  let ii := D.N
  let d := { d with ux := upd d.ux ii (veccp (D.nu ii + D.nx ii + 2 * D.ns ii) (o.ux ii) 0 (d.ux ii) 0) }
  let d := { d with lam := upd d.lam ii (veccp (2 * D.nb ii + 2 * D.ng ii + 2 * D.ns ii) (o.lam ii) 0 (d.lam ii) 0) }
  { d with t := upd d.t ii (veccp (2 * D.nb ii + 2 * D.ng ii + 2 * D.ns ii) (o.t ii) 0 (d.t ii) 0) }

/-- OCP_QP_SOL_SET_ZERO, ocp_qp/x_ocp_qp_sol.c:349-384 -/
def solSetZero [Zero K] (D : QpDim) (s : Sol K) : Sol K :=
  let s := loop (D.N + 1) (fun ii (s : Sol K) => { s with ux := upd s.ux ii (vecse (D.nu ii + D.nx ii + 2 * D.ns ii) 0 (s.ux ii) 0) }) s
  let s := loop D.N (fun ii (s : Sol K) => { s with pi := upd s.pi ii (vecse (D.nx (ii + 1)) 0 (s.pi ii) 0) }) s
  let s := loop (D.N + 1) (fun ii (s : Sol K) =>
    { s with lam := upd s.lam ii (vecse (2 * D.nb ii + 2 * D.ng ii + 2 * D.ns ii) 0 (s.lam ii) 0) }) s
  loop (D.N + 1) (fun ii (s : Sol K) => { s with t := upd s.t ii (vecse (2 * D.nb ii + 2 * D.ng ii + 2 * D.ns ii) 0 (s.t ii) 0) }) s

/-- TREE_OCP_QP_SOL_GET, tree_ocp_qp/x_tree_ocp_qp_sol.c:251-297, with the bodies of the getters (301-387) inlined.  Nodes are
`0 .. Nn-1 = N`, edge `e` ends in node `e+1`. -/
def tsolGet (D : QpDim) (field : String) (k : ℕ) (s : Sol K) (v : Vec K) : Out (Vec K) :=
  if field = "u" then (if k ≤ D.N then .ok (unpackVec (D.nu k) (s.ux k) 0 v) else .ub)
  else if field = "x" then (if k ≤ D.N then .ok (unpackVec (D.nx k) (s.ux k) (D.nu k) v) else .ub)
  else if field = "sl" then (if k ≤ D.N then .ok (unpackVec (D.ns k) (s.ux k) (D.nu k + D.nx k) v) else .ub)
  else if field = "su" then (if k ≤ D.N then .ok (unpackVec (D.ns k) (s.ux k) (D.nu k + D.nx k + D.ns k) v) else .ub)
  else if field = "pi" then (if k < D.N then .ok (unpackVec (D.nx (k + 1)) (s.pi k) 0 v) else .ub)
  else if field = "lam_lb" then (if k ≤ D.N then .ok (unpackVec (D.nb k) (s.lam k) 0 v) else .ub)
  else if field = "lam_ub" then (if k ≤ D.N then .ok (unpackVec (D.nb k) (s.lam k) (D.nb k + D.ng k) v) else .ub)
  else if field = "lam_lg" then (if k ≤ D.N then .ok (unpackVec (D.ng k) (s.lam k) (D.nb k) v) else .ub)
  else if field = "lam_ug" then (if k ≤ D.N then .ok (unpackVec (D.ng k) (s.lam k) (2 * D.nb k + D.ng k) v) else .ub)
  else .exit

end
end Hpipm
