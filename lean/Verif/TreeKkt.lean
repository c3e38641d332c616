/-
The structured solver for the Newton system of a tree-structured QP, tree_ocp_qp/x_tree_ocp_qp_kkt.c
(property C80).

Simplifications: as in Kkt.lean (reals instead of floating point, arrays of total functions, BLASFEO routines by their
mathematical meaning with the same in-place behaviour).  `KktSt` is reused for the workspace; its fields `BAbt`, `RSQrq`
are only used by the unconstrained routine (there: the memory of the QP), since the step routines read the QP only.
COND_SLACKS_FACT_SOLVE, COND_SLACKS_SOLVE, EXPAND_SLACKS (lines 160-445) are textual variants of those of
ocp_qp/x_ocp_qp_kkt.c which compute the same expressions and are modelled by the same definitions.
-/
import Verif.Kkt
import Verif.TreeQp

namespace Hpipm
open Finset

section
variable {K : Type*} [Field K] [LinearOrder K]

/-- cost to go of kid `c` added to node `k`, x_tree_ocp_qp_kkt.c:515-529 -/
def tkKid (t : TreeQp K) (k c : ℕ) (st : KktSt K) : KktSt K :=
  let D := t.qp.dim
  let nv := D.nu k + D.nx k
  let nu1 := D.nu c; let nx1 := D.nx c; let e := c - 1
  let AL := gecp nv nx1 (t.qp.BAbt e) 0 0 st.AL0 0 0
  let AL := rowin nx1 1 (t.qp.b e) 0 AL nv 0
  let AL := trmm_rlnn (nv + 1) nx1 1 (st.L c) nu1 nu1 AL 0 0 AL 0 0
  let tmpN := rowex nx1 1 AL nv 0 st.tmpN 0
  let Pb := trmv_lnn nx1 (st.L c) nu1 nu1 tmpN 0 (st.Pb e) 0
  let AL := gead 1 nx1 1 (st.L c) (nu1 + nx1) nu1 AL nv 0
  { st with
    AL0 := AL
    tmpN := tmpN
    Pb := upd st.Pb e Pb
    L := upd st.L k (syrk_ln_mn (nv + 1) nv nx1 1 AL 0 0 AL 0 0 1 (st.L k) 0 0 (st.L k) 0 0) }

/-- Hessian and gradient of a node without the cost to go, x_tree_ocp_qp_kkt.c:503-510 -/
def tkInit (t : TreeQp K) (reg : K) (k : ℕ) (st : KktSt K) : KktSt K :=
  let nv := t.qp.dim.nu k + t.qp.dim.nx k
  let L := trcp_l nv (t.qp.RSQrq k) 0 0 (st.L k) 0 0
  let L := diare nv reg L 0 0
  { st with L := upd st.L k (rowin nv 1 (t.qp.rqz k) 0 L nv 0) }

/-- constraints of a node and factorisation, x_tree_ocp_qp_kkt.c:531-555 -/
def tkCons (sq : K → K) (t : TreeQp K) (reg : K) (G g : ℕ → Vec K) (k : ℕ) (st : KktSt K) : KktSt K :=
  let qp := t.qp
  let D := qp.dim
  let nv := D.nu k + D.nx k
  let st := condStage qp reg G g k st
  let L := st.L k
  let L := if D.nb k > 0 then diaad_sp (D.nb k) 1 st.t0 0 (qp.idxb k) L 0 0 else L
  let L := if D.nb k > 0 then rowad_sp (D.nb k) 1 st.t1 0 (qp.idxb k) L nv 0 else L
  if D.ng k > 0 then
    let AL0 := gemm_nd nv (D.ng k) 1 (qp.DCt k) 0 0 st.t0 (D.nb k) 0 st.AL0 0 0 st.AL0 0 0
    let AL0 := rowin (D.ng k) 1 st.t1 (D.nb k) AL0 nv 0
    { st with
      AL0 := AL0
      L := upd st.L k (syrk_potrf_ln_mn sq (nv + 1) nv (D.ng k) AL0 (qp.DCt k) L L) }
  else { st with L := upd st.L k (potrf_l_mn sq (nv + 1) nv L L) }

/-- one node of the backward recursion, x_tree_ocp_qp_kkt.c:500-557 -/
def tkNode (sq : K → K) (t : TreeQp K) (reg : K) (G g : ℕ → Vec K) (k : ℕ) (st : KktSt K) : KktSt K :=
  tkCons sq t reg G g k (loop (t.nkids k) (fun jj st => tkKid t k (t.kids k jj) st) (tkInit t reg k st))

/-- backward recursion, x_tree_ocp_qp_kkt.c:496-557 -/
def tkBack (sq : K → K) (t : TreeQp K) (reg : K) (G g : ℕ → Vec K) (st : KktSt K) : KktSt K :=
  loop (t.qp.dim.N + 1) (fun ss st => tkNode sq t reg G g (t.qp.dim.N - ss) st) st

/-- number of eliminated variables of a node: all at the root, the inputs elsewhere -/
def tkN (t : TreeQp K) (k : ℕ) : ℕ := if k > 0 then t.qp.dim.nu k else t.qp.dim.nu k + t.qp.dim.nx k

/-- kid `c` of node `k` in the forward substitution, x_tree_ocp_qp_kkt.c:581-591 -/
def tkFwdKid (t : TreeQp K) (dual : Bool) (k c : ℕ) (st : KktSt K) : KktSt K :=
  let D := t.qp.dim
  let nv := D.nu k + D.nx k
  let nu1 := D.nu c; let nx1 := D.nx c; let e := c - 1
  let du1 := gemv_t nv nx1 1 (t.qp.BAbt e) 0 0 (st.ux k) 0 1 (t.qp.b e) 0 (st.ux c) nu1
  let tmpN := rowex nx1 1 (st.L c) (nu1 + nx1) nu1 st.tmpN 0
  let p := trmv_ltn nx1 (st.L c) nu1 nu1 du1 nu1 (st.pi e) 0
  let p := axpy nx1 1 tmpN 0 p 0 p 0
  let p := trmv_lnn nx1 (st.L c) nu1 nu1 p 0 p 0
  { st with
    ux := upd st.ux c du1
    tmpN := if dual then tmpN else st.tmpN
    pi := if dual then upd st.pi e p else st.pi }

/-- one node of the forward substitution, x_tree_ocp_qp_kkt.c:561-595 -/
def tkFwdNode (t : TreeQp K) (dual : Bool) (k : ℕ) (st : KktSt K) : KktSt K :=
  let nv := t.qp.dim.nu k + t.qp.dim.nx k
  let n := tkN t k
  let du := rowex n (-1) (st.L k) nv 0 (st.ux k) 0
  loop (t.nkids k) (fun jj st => tkFwdKid t dual k (t.kids k jj) st)
    { st with ux := upd st.ux k (trsv_ltn_mn nv n (st.L k) du) }

/-- TREE_OCP_QP_FACT_SOLVE_KKT_STEP, x_tree_ocp_qp_kkt.c:449-620; the tail (598-616) has the text of the tail of the
OCP routine -/
def tkktStep [IsStrictOrderedRing K] (sq : K → K) (t : TreeQp K) (dual : Bool) (reg : K) (c : Core K) (st : KktSt K) :
    Core K × KktSt K :=
  let qp := t.qp
  let D := qp.dim
  let c := computeGammaGamma (stFlat (nct D) qp.d (D.N + 1)) (stFlat (nct D) qp.m (D.N + 1)) c
  let G := stView D c.Gamma
  let st := tkBack sq t reg G (stView D c.gamma) st
  let st := loop (D.N + 1) (fun ss st => tkFwdNode t dual ss st) st
  (c, kktTail qp G c st)

/-! ### re-solve with a stored factorisation -/

/-- kid `c` of node `k` in the backward substitution, x_tree_ocp_qp_kkt.c:904-919 -/
def tsKid (t : TreeQp K) (useP : Bool) (k c : ℕ) (st : KktSt K) : KktSt K :=
  let D := t.qp.dim
  let nv := D.nu k + D.nx k
  let nu1 := D.nu c; let nx1 := D.nx c; let e := c - 1
  let tmpN := if useP then axpy nx1 1 (st.ux c) nu1 (st.Pb e) 0 st.tmpN 0
    else
      let tmp := trmv_ltn nx1 (st.L c) nu1 nu1 (t.qp.b e) 0 st.tmpN 0
      let tmp := trmv_lnn nx1 (st.L c) nu1 nu1 tmp 0 tmp 0
      axpy nx1 1 (st.ux c) nu1 tmp 0 tmp 0
  { st with
    tmpN := tmpN
    ux := upd st.ux k (gemv_n nv nx1 1 (t.qp.BAbt e) 0 0 tmpN 0 1 (st.ux k) 0 (st.ux k) 0) }

/-- one node of the backward substitution, x_tree_ocp_qp_kkt.c:895-949 -/
def tsNode (t : TreeQp K) (useP : Bool) (G g : ℕ → Vec K) (k : ℕ) (st : KktSt K) : KktSt K :=
  let qp := t.qp
  let D := qp.dim
  let n := D.nb k + D.ng k
  let nv := D.nu k + D.nx k
  let st := { st with ux := upd st.ux k (veccp nv (qp.rqz k) 0 (st.ux k) 0) }
  let st := loop (t.nkids k) (fun jj st => tsKid t useP k (t.kids k jj) st) st
  let st := if D.ns k > 0 then
      let s := condSlacksS n (D.ns k) nv (qp.idxs_rev k) (qp.rqz k) (G k) (g k)
        { Zs := st.Zs k, du := st.ux k, t0 := st.t0, t1 := st.t1, t2 := st.t2, t3 := st.t3 }
      { st with
        ux := upd st.ux k s.du
        t1 := s.t1
        t2 := s.t2
        t3 := s.t3 }
    else if n > 0 then { st with t1 := axpy n (-1) (g k) n (g k) 0 st.t1 0 }
    else st
  let du := st.ux k
  let du := if D.nb k > 0 then vecad_sp (D.nb k) 1 st.t1 0 (qp.idxb k) du 0 else du
  let du := if D.ng k > 0 then gemv_n nv (D.ng k) 1 (qp.DCt k) 0 0 st.t1 (D.nb k) 1 du 0 du 0 else du
  { st with ux := upd st.ux k (trsv_lnn_mn nv (tkN t k) (st.L k) du) }

/-- kid `c` of node `k` in the forward substitution, x_tree_ocp_qp_kkt.c:975-988 -/
def tsFwdKid (t : TreeQp K) (dual : Bool) (k c : ℕ) (st : KktSt K) : KktSt K :=
  let D := t.qp.dim
  let nv := D.nu k + D.nx k
  let nu1 := D.nu c; let nx1 := D.nx c; let e := c - 1
  let p := veccp nx1 (st.ux c) nu1 (st.pi e) 0
  let du1 := gemv_t nv nx1 1 (t.qp.BAbt e) 0 0 (st.ux k) 0 1 (t.qp.b e) 0 (st.ux c) nu1
  let tmpN := veccp nx1 du1 nu1 st.tmpN 0
  let tmpN := trmv_ltn nx1 (st.L c) nu1 nu1 tmpN 0 tmpN 0
  let tmpN := trmv_lnn nx1 (st.L c) nu1 nu1 tmpN 0 tmpN 0
  let p := axpy nx1 1 tmpN 0 p 0 p 0
  { st with
    ux := upd st.ux c du1
    tmpN := if dual then tmpN else st.tmpN
    pi := if dual then upd st.pi e p else st.pi }

/-- one node of the forward substitution, x_tree_ocp_qp_kkt.c:955-992 -/
def tsFwdNode (t : TreeQp K) (dual : Bool) (k : ℕ) (st : KktSt K) : KktSt K :=
  let nv := t.qp.dim.nu k + t.qp.dim.nx k
  let n := tkN t k
  loop (t.nkids k) (fun jj st => tsFwdKid t dual k (t.kids k jj) st)
    { st with ux := upd st.ux k (trsv_ltn_mn nv n (st.L k) (vecsc n (-1) (st.ux k) 0)) }

/-- TREE_OCP_QP_SOLVE_KKT_STEP, x_tree_ocp_qp_kkt.c:850-1018; `useP` is `ws->use_Pb` -/
def tsolveStep [IsStrictOrderedRing K] (t : TreeQp K) (dual useP : Bool) (c : Core K) (st : KktSt K) :
    Core K × KktSt K :=
  let qp := t.qp
  let D := qp.dim
  let c := computeGamma (stFlat (nct D) qp.d (D.N + 1)) (stFlat (nct D) qp.m (D.N + 1)) c
  let G := stView D c.Gamma
  let g := stView D c.gamma
  let st := loop (D.N + 1) (fun ss st => tsNode t useP G g (D.N - ss) st) st
  let st := loop (D.N + 1) (fun ss st => tsFwdNode t dual ss st) st
  (c, kktTail qp G c st)

/-! ### no constraints -/

/-- kid `c` of node `k`, x_tree_ocp_qp_kkt.c:85-94: the row of `b` is written into the matrix of the edge -/
def tuKid (t : TreeQp K) (k c : ℕ) (st : KktSt K) : KktSt K :=
  let D := t.qp.dim
  let nv := D.nu k + D.nx k
  let nu1 := D.nu c; let nx1 := D.nx c; let e := c - 1
  let BA := rowin nx1 1 (t.qp.b e) 0 (st.BAbt e) nv 0
  let AL := trmm_rlnn (nv + 1) nx1 1 (st.L c) nu1 nu1 BA 0 0 st.AL0 0 0
  let AL := gead 1 nx1 1 (st.L c) (nu1 + nx1) nu1 AL nv 0
  { st with
    BAbt := upd st.BAbt e BA
    AL0 := AL
    L := upd st.L k (syrk_ln_mn (nv + 1) nv nx1 1 AL 0 0 AL 0 0 1 (st.L k) 0 0 (st.L k) 0 0) }

/-- one node of the backward recursion, x_tree_ocp_qp_kkt.c:70-98 -/
def tuNode (sq : K → K) (t : TreeQp K) (k : ℕ) (st : KktSt K) : KktSt K :=
  let nv := t.qp.dim.nu k + t.qp.dim.nx k
  let L := trcp_l nv (t.qp.RSQrq k) 0 0 (st.L k) 0 0
  let st := loop (t.nkids k) (fun jj st => tuKid t k (t.kids k jj) st)
    { st with L := upd st.L k (rowin nv 1 (t.qp.rqz k) 0 L nv 0) }
  { st with L := upd st.L k (potrf_l_mn sq (nv + 1) nv (st.L k) (st.L k)) }

/-- kid `c` of node `k` in the forward substitution, x_tree_ocp_qp_kkt.c:115-124 and 138-147; always with multipliers -/
def tuFwdKid (t : TreeQp K) (k c : ℕ) (st : KktSt K) : KktSt K :=
  let D := t.qp.dim
  let nv := D.nu k + D.nx k
  let nu1 := D.nu c; let nx1 := D.nx c; let e := c - 1
  let du1 := gemv_t nv nx1 1 (st.BAbt e) 0 0 (st.ux k) 0 1 (t.qp.b e) 0 (st.ux c) nu1
  let tmpN := rowex nx1 1 (st.L c) (nu1 + nx1) nu1 st.tmpN 0
  let p := trmv_ltn nx1 (st.L c) nu1 nu1 du1 nu1 (st.pi e) 0
  let p := axpy nx1 1 tmpN 0 p 0 p 0
  let p := trmv_lnn nx1 (st.L c) nu1 nu1 p 0 p 0
  { st with
    ux := upd st.ux c du1
    tmpN := tmpN
    pi := upd st.pi e p }

/-- one node of the forward substitution, x_tree_ocp_qp_kkt.c:103-152 (root and other nodes) -/
def tuFwdNode (t : TreeQp K) (k : ℕ) (st : KktSt K) : KktSt K :=
  let nv := t.qp.dim.nu k + t.qp.dim.nx k
  let n := tkN t k
  let du := rowex n (-1) (st.L k) nv 0 (st.ux k) 0
  loop (t.nkids k) (fun jj st => tuFwdKid t k (t.kids k jj) st)
    { st with ux := upd st.ux k (trsv_ltn_mn nv n (st.L k) du) }

/-- TREE_OCP_QP_FACT_SOLVE_KKT_UNCONSTR, x_tree_ocp_qp_kkt.c:37-156; `st.BAbt` is the memory of `qp->BAbt` -/
def tunconstr (sq : K → K) (t : TreeQp K) (st : KktSt K) : KktSt K :=
  let N := t.qp.dim.N
  let st := loop (N + 1) (fun ii st => tuNode sq t (N - ii) st) st
  loop (N + 1) (fun ii st => tuFwdNode t ii st) st

end
end Hpipm
