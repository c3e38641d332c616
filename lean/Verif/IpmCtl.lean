/-
Control flow of OCP_QP_IPM_SOLVE (ocp_qp/x_ocp_qp_ipm.c:2777-3215): the loop guards, the iteration counter and
the exit status, over floating point values that may be NaN.

A floating point value is `some x` (a number) or `none` (NaN); a comparison with NaN is false.  The body of one
iteration is a parameter that may fail to return (`none`), as the regularisation loop of the factorisation has no
bound of its own.
-/
import Verif.Arg

namespace Hpipm

/-- a floating point value: a number, or NaN -/
abbrev Fl (K : Type*) := Option K

section
variable {K : Type*} [LinearOrder K]

/-- C `x > y` with a tolerance that is a number -/
def Fl.gt : Fl K → K → Bool
  | some x, y => decide (x > y)
  | none, _ => false

/-- C `x <= y` -/
def Fl.le : Fl K → K → Bool
  | some x, y => decide (x ≤ y)
  | none, _ => false

/-- what the guards and the status test look at: the step lengths, the four residual norms (complementarity
measured against `tau_min`), the duality gap and `mu` -/
structure Obs (K : Type*) where
  ap : Fl K
  ad : Fl K
  rg : Fl K
  rb : Fl K
  rd : Fl K
  rm : Fl K
  gap : Fl K
  mu : Fl K

/-- `hpipm_status`, include/hpipm_common.h -/
inductive Status
  | SUCCESS | MAX_ITER | MIN_STEP | NAN_SOL | INCONS_EQ
deriving DecidableEq

/-- loop guard of the relative formulation without the iteration limit, x_ocp_qp_ipm.c:3100-3109 -/
def contRel (a : IpmArg K) (o : Obs K) : Bool :=
  o.ap.gt (a.r .alpha_min) && o.ad.gt (a.r .alpha_min) &&
    (o.rg.gt (a.r .res_g_max) || o.rb.gt (a.r .res_b_max) || o.rd.gt (a.r .res_d_max) || o.rm.gt (a.r .res_m_max) ||
      o.gap.gt (a.r .dual_gap_max))

/-- loop guard of the absolute formulation without the iteration limit, x_ocp_qp_ipm.c:3006-3011;
`fabs(mu-tau_min) > res_m_max` -/
def contAbs [AddGroup K] (a : IpmArg K) (o : Obs K) : Bool :=
  o.ap.gt (a.r .alpha_min) && o.ad.gt (a.r .alpha_min) &&
    Fl.gt (o.mu.map (fun mu => |mu - a.r .tau_min|)) (a.r .res_m_max)

/-- the loop `for(kk=0; kk<iter_max & cont; kk++) body`, x_ocp_qp_ipm.c:3006-3033 and 3100-3150; `fuel` bounds the
number of passes (`none`: still looping, or a body that does not return) -/
def ipmLoop {S : Type*} (cont : S → Bool) (body : ℕ → S → Option S) (iter_max : ℤ) : ℕ → ℕ → S → Option (ℕ × S)
  | fuel, kk, s =>
    if decide ((kk : ℤ) < iter_max) && cont s then
      match fuel with
      | 0 => none
      | fuel + 1 => (body kk s).bind (fun s' => ipmLoop cont body iter_max fuel (kk + 1) s')
    else some (kk, s)

/-- the exit status, x_ocp_qp_ipm.c:3171-3203 -/
def statusOf (a : IpmArg K) (kk : ℕ) (o : Obs K) : Status :=
  if (kk : ℤ) = a.i .iter_max then .MAX_ITER
  else if o.ap.le (a.r .alpha_min) || o.ad.le (a.r .alpha_min) then .MIN_STEP
  else if o.mu = none then .NAN_SOL
  else .SUCCESS

end
end Hpipm
