/-
Model of the removal of linearly dependent equality constraints of the dense QP solver (argument `remove_lin_dep_eq`),
dense_qp/x_dense_qp_kkt.c:2904-3095 (DENSE_QP_REMOVE_LIN_DEP_EQ, DENSE_QP_RESTORE_LIN_DEP_EQ).

Simplifications:
* exact arithmetic; the threshold `thr` (1e-14 in the code, line 2927) is a parameter;
* BLASFEO's GETRF_RP is not part of the repository; its documented function is modelled: LU factorisation with row pivoting, the
  pivot is the first entry of largest absolute value, a column without nonzero pivot is left as it is;
* pointers: `qp->A`, `qp->b` are replaced by their contents; the workspace matrices are never aliased with the caller's, because
  the routine does nothing when `ne == 0` and otherwise RESTORE has put the caller's matrices back;
* `ne > nv+1` reads pivots that GETRF_RP has not written and entries to the right of the workspace matrix: outcome `none`.
-/
import Verif.DenseView

namespace Hpipm

section
variable {K : Type*} [Field K] [LinearOrder K]

/-- row index of the first largest entry of column `j`, rows `j..m-1` (GETRF_RP) -/
def colMax (m : ℕ) (W : Mat K) (j : ℕ) : ℕ :=
  loop (m - j) (fun k best => if |W best j| < |W (j + k) j| then j + k else best) j

/-- exchange of two entries of an array -/
def swapAt {α : Type*} (p : ℕ → α) (a b : ℕ) : ℕ → α := upd (upd p a (p b)) b (p a)

/-- one column of GETRF_RP: pivot, exchange of rows, elimination; multipliers are stored below the diagonal -/
def luStep (m n : ℕ) (j : ℕ) (s : Mat K × (ℕ → ℕ)) : Mat K × (ℕ → ℕ) :=
  let p := colMax m s.1 j
  let W := swapAt s.1 j p
  (fun i c => if j < i ∧ i < m ∧ W j j ≠ 0 then
      (if c = j then W i j / W j j else if j < c ∧ c < n then W i c - W i j / W j j * W j c else W i c) else W i c,
    upd s.2 j p)

/-- `GETRF_RP(m, n, W, 0, 0, W, 0, 0, ipiv)`, called at x_dense_qp_kkt.c:2941 -/
def getrfRp (m n : ℕ) (W : Mat K) (ipiv : ℕ → ℕ) : Mat K × (ℕ → ℕ) := loop (min m n) (luStep m n) (W, ipiv)

/-- the pivots in absolute form, x_dense_qp_kkt.c:2944-2953 -/
def absPiv (ne : ℕ) (ipiv : ℕ → ℕ) : ℕ → ℕ := loop ne (fun ll p => swapAt p ll (ipiv ll)) id

/-- largest entry above the threshold in column `jj`, rows `ii..min(ne-1,jj)`, x_dense_qp_kkt.c:2965-2979 -/
def ldCol (thr : K) (ne ii jj : ℕ) (W : Mat K) : Option ℕ :=
  (loop (min ne (jj + 1) - ii) (fun k (s : K × Option ℕ) =>
    if |W (ii + k) jj| > s.1 then (|W (ii + k) jj|, some (ii + k)) else s) (thr, none)).2

/-- first column from `jj` on with such an entry, x_dense_qp_kkt.c:2963-2981; the fuel is `nv - jj` -/
def ldSearch (thr : K) (ne ii : ℕ) (W : Mat K) : ℕ → ℕ → Option (ℕ × ℕ)
  | 0, _ => none
  | n + 1, jj => match ldCol thr ne ii jj W with
    | some r => some (r, jj)
    | none => ldSearch thr ne ii W n (jj + 1)

/-- local variables and outputs of the main loop -/
structure LdS (K : Type*) where
  W : Mat K
  p : ℕ → ℕ
  jj0 : ℕ
  A_li : Mat K
  b_li : Vec K
  ne_li : ℕ

/-- `copy li eq`, x_dense_qp_kkt.c:2993-2995, 3027-3029 -/
def ldKeep (nv : ℕ) (A : Mat K) (b : Vec K) (ii : ℕ) (s : LdS K) : LdS K :=
  { s with
    A_li := gecp 1 nv A (s.p ii) 0 s.A_li s.ne_li 0
    b_li := veccp 1 b (s.p ii) s.b_li s.ne_li
    ne_li := s.ne_li + 1 }

/-- `ROWSW(nv+1-jj, W, ii, jj, W, r, jj)`, x_dense_qp_kkt.c:2987 -/
def rowSwFrom (nv jj ii r : ℕ) (W : Mat K) : Mat K :=
  fun i c => if jj ≤ c ∧ c < nv + 1 then (if i = ii then W r c else if i = r then W ii c else W i c) else W i c

/-- `clear below`, x_dense_qp_kkt.c:2999-3007; note `tmp = fabs(entry)` -/
def ldClear (nv ne ii jj : ℕ) (W : Mat K) : Mat K :=
  loop (min ne (jj + 1) - (ii + 1)) (fun k M =>
    let tmp := |M (ii + 1 + k) jj|
    if tmp ≠ 0 then gead 1 (nv + 1 - jj) (-tmp / W ii jj) M ii jj M (ii + 1 + k) jj else M) W

/-- first column of the search, x_dense_qp_kkt.c:2960 -/
def ldStart (ii jj0 : ℕ) : ℕ := if ii + 1 > jj0 then ii + 1 else jj0

/-- a pivot was found in row `r`, column `c`, x_dense_qp_kkt.c:2974, 2984-3008 -/
def ldPivot (nv ne : ℕ) (A : Mat K) (b : Vec K) (ii r c : ℕ) (s : LdS K) : LdS K :=
  let s := if r ≠ ii then { s with
      W := rowSwFrom nv c ii r s.W
      p := swapAt s.p ii r
      jj0 := c } else { s with jj0 := c }
  let s := ldKeep nv A b ii s
  { s with W := ldClear nv ne ii c s.W }

/-- the main loop, x_dense_qp_kkt.c:2955-3031, from row `ii` on; the fuel is `ne - ii`; first component: inconsistent -/
def ldLoop (thr : K) (nv ne : ℕ) (A : Mat K) (b : Vec K) : ℕ → ℕ → LdS K → Bool × LdS K
  | 0, _, s => (false, s)
  | n + 1, ii, s =>
    if |s.W ii ii| ≤ thr then
      match ldSearch thr ne ii s.W (nv - ldStart ii s.jj0) (ldStart ii s.jj0) with
      | some rc => ldLoop thr nv ne A b n (ii + 1) (ldPivot nv ne A b ii rc.1 rc.2 s)
      | none => (loop (ne - ii) (fun k inc => inc || decide (thr < |s.W (ii + k) nv|)) false, s)
    else ldLoop thr nv ne A b n (ii + 1) (ldKeep nv A b ii s)

/-- the parts of `struct DENSE_QP_IPM_WS` used here (include/hpipm_d_dense_qp_ipm.h:150-175) -/
structure LdWs (K : Type*) where
  Ab_LU : Mat K
  ipiv_e : ℕ → ℕ
  A_li : Mat K
  b_li : Vec K
  ne_bkp : ℕ
  A_bkp : Mat K
  b_bkp : Vec K
  /-- `ws->status == INCONS_EQ` -/
  incons : Bool

/-- DENSE_QP_REMOVE_LIN_DEP_EQ, x_dense_qp_kkt.c:2904-3055 -/
def removeLinDep (thr : K) (qp : DenseQp K) (ws : LdWs K) : Option (DenseQp K × LdWs K) :=
  let nv := qp.dim.nv
  let ne := qp.dim.ne
  let ws := { ws with incons := false }
  if ne = 0 then some (qp, ws)
  else if nv + 1 < ne then none
  else
    let W := gecp ne nv qp.A 0 0 ws.Ab_LU 0 0
    let W := colin ne qp.b 0 W 0 nv
    let lu := getrfRp ne (nv + 1) W ws.ipiv_e
    let r := ldLoop thr nv ne qp.A qp.b ne 0 ⟨lu.1, absPiv ne lu.2, 0, ws.A_li, ws.b_li, 0⟩
    let ws := { ws with
      Ab_LU := r.2.W
      ipiv_e := lu.2
      A_li := r.2.A_li
      b_li := r.2.b_li }
    if r.1 then some (qp, { ws with incons := true })
    else if r.2.ne_li < ne then
      some ({ qp with
          dim := { qp.dim with ne := r.2.ne_li }
          A := r.2.A_li
          b := r.2.b_li },
        { ws with
          ne_bkp := ne
          A_bkp := qp.A
          b_bkp := qp.b })
    else some (qp, ws)

/-- DENSE_QP_RESTORE_LIN_DEP_EQ, x_dense_qp_kkt.c:3059-3095 -/
def restoreLinDep (qp : DenseQp K) (ws : LdWs K) : DenseQp K :=
  if qp.dim.ne > 0 ∧ qp.dim.ne < ws.ne_bkp then
    { qp with
      dim := { qp.dim with ne := ws.ne_bkp }
      A := ws.A_bkp
      b := ws.b_bkp }
  else qp

end
end Hpipm
