/-
Model of the dense core of the interior point method, ipm_core/x_core_qp_ipm_aux.c.

Scalars: any linearly ordered field.  `sqrt` of libm is a parameter `sq : K → K`.
A floating point division by zero or square root of a negative number (result inf/NaN in C) sets the
flag `bad`.  C comparisons on ordered-field elements; `1e-12` is the literal of the source.
-/
import Verif.Blas

namespace Hpipm

section
variable {K : Type*} [Field K] [LinearOrder K] [IsStrictOrderedRing K]

/-- the part of `struct CORE_QP_IPM_WORKSPACE` (include/hpipm_d_core_qp_ipm.h) used by the auxiliary
routines -/
structure Core (K : Type*) where
  nv : ℕ
  ne : ℕ
  nc : ℕ
  v : Vec K
  pi : Vec K
  lam : Vec K
  t : Vec K
  v_bkp : Vec K
  pi_bkp : Vec K
  lam_bkp : Vec K
  t_bkp : Vec K
  dv : Vec K
  dpi : Vec K
  dlam : Vec K
  dt : Vec K
  m : Vec K
  res_m : Vec K
  res_m_bkp : Vec K
  t_inv : Vec K
  Gamma : Vec K
  gamma : Vec K
  alpha_prim : K
  alpha_dual : K
  sigma : K
  mu : K
  mu_aff : K
  nc_mask_inv : K
  tau_min : K
  tau_iter : K
  lam_min : K
  t_min : K
  t_min_inv : K
  m_safe : K
  t_lam_min : ℕ
  split_step : ℕ
  m_zero : Bool

/-- COMPUTE_GAMMA_GAMMA_QP, ipm_core/x_core_qp_ipm_aux.c:38-86. -/
def computeGammaGamma (res_d res_m : Vec K) (c : Core K) : Core K :=
  if c.t_lam_min = 1 then
    loop c.nc (fun ii s =>
      let lam0 := c.lam ii
      let t0 := c.t ii
      let ti := 1 / t0
      let t_inv_tmp := if t0 < c.t_min then c.t_min_inv else ti
      let lam_tmp := if lam0 < c.lam_min then c.lam_min else lam0
      { s with t_inv := upd s.t_inv ii ti
               Gamma := upd s.Gamma ii (t_inv_tmp * lam_tmp)
               gamma := upd s.gamma ii (ti * (res_m ii - lam0 * res_d ii)) }) c
  else
    loop c.nc (fun ii s =>
      let lam0 := c.lam ii
      let t0 := c.t ii
      let ti := 1 / t0
      { s with t_inv := upd s.t_inv ii ti
               Gamma := upd s.Gamma ii (ti * lam0)
               gamma := upd s.gamma ii (ti * (res_m ii - lam0 * res_d ii)) }) c

/-- COMPUTE_GGAMMA_QP, ipm_core/x_core_qp_ipm_aux.c:90-134. -/
def computeGGamma (c : Core K) : Core K :=
  if c.t_lam_min = 1 then
    loop c.nc (fun ii s =>
      let lam0 := c.lam ii
      let t0 := c.t ii
      let ti := 1 / t0
      let t_inv_tmp := if t0 < c.t_min then c.t_min_inv else ti
      let lam_tmp := if lam0 < c.lam_min then c.lam_min else lam0
      { s with t_inv := upd s.t_inv ii ti
               Gamma := upd s.Gamma ii (t_inv_tmp * lam_tmp) }) c
  else
    loop c.nc (fun ii s =>
      let lam0 := c.lam ii
      let t0 := c.t ii
      let ti := 1 / t0
      { s with t_inv := upd s.t_inv ii ti
               Gamma := upd s.Gamma ii (ti * lam0) }) c

/-- COMPUTE_GAMMA_QP, ipm_core/x_core_qp_ipm_aux.c:137-162. -/
def computeGamma (res_d res_m : Vec K) (c : Core K) : Core K :=
  loop c.nc (fun ii s =>
    { s with gamma := upd s.gamma ii (c.t_inv ii * (res_m ii - c.lam ii * res_d ii)) }) c

/-- COMPUTE_LAM_T_QP, ipm_core/x_core_qp_ipm_aux.c:164-189; returns `(dlam, dt)`. -/
def computeLamT (res_d res_m dlam dt : Vec K) (c : Core K) : Vec K × Vec K :=
  loop c.nc (fun ii s =>
    let lam0 := c.lam ii
    (upd s.1 ii (-(c.t_inv ii) * (res_m ii + (lam0 * s.2 ii) - (lam0 * res_d ii))),
     upd s.2 ii (s.2 ii - res_d ii))) (dlam, dt)

/-- step lengths under computation, and the inf/NaN flag -/
structure Alpha (K : Type*) where
  ap : K
  ad : K
  bad : Bool

/-- one inner step of the `split_step==1`, `m_zero` loop, x_core_qp_ipm_aux.c:224-238. -/
def alphaSplitZ (c : Core K) (ii : ℕ) (s : Alpha K) : Alpha K :=
  let lam1 := c.lam ii + s.ad * c.dlam ii
  let t1 := c.t ii + s.ap * c.dt ii
  let s1 : Alpha K := if lam1 < 0 then
      { s with ad := - c.lam ii / c.dlam ii, bad := s.bad || decide (c.dlam ii = 0) } else s
  if t1 < 0 then
      { s1 with ap := - c.t ii / c.dt ii, bad := s1.bad || decide (c.dt ii = 0) } else s1

/-- one inner step of the `split_step!=1`, `m_zero` loop, x_core_qp_ipm_aux.c:380-394 (`ap` holds
`alpha`; note that `t1` is computed with the `alpha` before the update by `lam`). -/
def alphaJointZ (c : Core K) (ii : ℕ) (s : Alpha K) : Alpha K :=
  let lam1 := c.lam ii + s.ap * c.dlam ii
  let t1 := c.t ii + s.ap * c.dt ii
  let s1 : Alpha K := if lam1 < 0 then
      { s with ap := - c.lam ii / c.dlam ii, bad := s.bad || decide (c.dlam ii = 0) } else s
  if t1 < 0 then
      { s1 with ap := - c.t ii / c.dt ii, bad := s1.bad || decide (c.dt ii = 0) } else s1

/-- the clamped safety fraction, x_core_qp_ipm_aux.c:212-214 -/
def mSafe (c : Core K) : K :=
  let m_safe := c.m_safe
  let m_safe := if m_safe ≥ 0 then m_safe else 0
  if m_safe ≤ 1 then m_safe else 1

/-- `1e-12` of the source -/
def eps12 : K := 1 / 10 ^ 12

/-- inner step of the first pass of the split case with targets, x_core_qp_ipm_aux.c:244-287. -/
def alphaPass1 (c : Core K) (ii : ℕ) (s : Alpha K) : Alpha K :=
  let lam1 := c.lam ii + s.ad * c.dlam ii
  let t1 := c.t ii + s.ap * c.dt ii
  let s1 : Alpha K := if lam1 < 0 then
      { s with ad := - c.lam ii / c.dlam ii, bad := s.bad || decide (c.dlam ii = 0) } else s
  let lam1 := if lam1 < 0 then c.lam ii + s1.ad * c.dlam ii else lam1
  let s2 : Alpha K := if t1 < 0 then
      { s1 with ap := - c.t ii / c.dt ii, bad := s1.bad || decide (c.dt ii = 0) } else s1
  let t1 := if t1 < 0 then c.t ii + s2.ap * c.dt ii else t1
  let m1 := mSafe c * c.m ii
  if lam1 * t1 - m1 < -eps12 then
    if c.dlam ii < 0 then
      if c.dt ii < 0 then s2
      else { s2 with ad := (m1 - c.lam ii * t1) / (c.dlam ii * t1)
                     bad := s2.bad || decide (c.dlam ii * t1 = 0) }
    else if c.dt ii < 0 then
      { s2 with ap := (m1 - c.t ii * lam1) / (c.dt ii * lam1)
                bad := s2.bad || decide (c.dt ii * lam1 = 0) }
    else s2
  else s2

/-- inner step of the second (quadratic) pass, x_core_qp_ipm_aux.c:292-340. -/
def alphaPass2 (sq : K → K) (c : Core K) (ii : ℕ) (s : Alpha K) : Alpha K :=
  if c.dlam ii < 0 ∧ c.dt ii < 0 then
    let lam1 := c.lam ii + s.ad * c.dlam ii
    let t1 := c.t ii + s.ap * c.dt ii
    let m1 := mSafe c * c.m ii
    if lam1 * t1 - m1 < -eps12 then
      let cc := c.lam ii * c.t ii - m1
      if cc > 0 then
        let adlam := s.ad * c.dlam ii
        let adt := s.ap * c.dt ii
        let a := adlam * adt
        let b := adlam * c.t ii + c.lam ii * adt
        let d := b * b - 4 * a * cc
        let sd := sq d
        let tmp := (1 / 2) / a
        let r1 := (-b - sd) * tmp
        let r1 := if r1 > 0 then r1 else 0
        ⟨s.ap * r1, s.ad * r1, s.bad || decide (a = 0) || decide (d < 0)⟩
      else ⟨0, 0, s.bad⟩
    else s
  else s

/-- inner step of the third pass, x_core_qp_ipm_aux.c:343-369. -/
def alphaPass3 (c : Core K) (ii : ℕ) (s : Alpha K) : Alpha K :=
  let lam1 := c.lam ii + s.ad * c.dlam ii
  let t1 := c.t ii + s.ap * c.dt ii
  let m1 := mSafe c * c.m ii
  if lam1 * t1 - m1 < -eps12 then
    if c.dlam ii < 0 then
      if c.dt ii < 0 then s
      else { s with ad := (m1 - c.lam ii * t1) / (c.dlam ii * t1)
                    bad := s.bad || decide (c.dlam ii * t1 = 0) }
    else if c.dt ii < 0 then
      { s with ap := (m1 - c.t ii * lam1) / (c.dt ii * lam1)
               bad := s.bad || decide (c.dt ii * lam1 = 0) }
    else s
  else s

/-- inner step of the joint case with targets, x_core_qp_ipm_aux.c:398-446. -/
def alphaJointM (sq : K → K) (c : Core K) (ii : ℕ) (s : Alpha K) : Alpha K :=
  let lam1 := c.lam ii + s.ap * c.dlam ii
  let t1 := c.t ii + s.ap * c.dt ii
  let s1 : Alpha K := if lam1 < 0 then
      { s with ap := - c.lam ii / c.dlam ii, bad := s.bad || decide (c.dlam ii = 0) } else s
  let lam1 := if lam1 < 0 then c.lam ii + s1.ap * c.dlam ii else lam1
  let s2 : Alpha K := if t1 < 0 then
      { s1 with ap := - c.t ii / c.dt ii, bad := s1.bad || decide (c.dt ii = 0) } else s1
  let t1 := if t1 < 0 then c.t ii + s2.ap * c.dt ii else t1
  let m1 := mSafe c * c.m ii
  if lam1 * t1 - m1 < -eps12 then
    let cc := c.lam ii * c.t ii - m1
    if cc > 0 then
      let a := c.dlam ii * c.dt ii
      let b := c.dlam ii * c.t ii + c.lam ii * c.dt ii
      let d := b * b - 4 * a * cc
      let sd := sq d
      let tmp := (1 / 2) / a
      let r1 := (-b - sd) * tmp
      { s2 with ap := r1, bad := s2.bad || decide (a = 0) || decide (d < 0) }
    else { s2 with ap := 0 }
  else s2

/-- the step lengths before they are stored, x_core_qp_ipm_aux.c:193-449. -/
def alphaRaw (sq : K → K) (c : Core K) : Alpha K :=
  let s0 : Alpha K := ⟨1, 1, false⟩
  if c.split_step = 1 then
    if c.m_zero then loop c.nc (alphaSplitZ c) s0
    else loop c.nc (alphaPass3 c) (loop c.nc (alphaPass2 sq c) (loop c.nc (alphaPass1 c) s0))
  else
    if c.m_zero then loop c.nc (alphaJointZ c) s0
    else loop c.nc (alphaJointM sq c) s0

/-- COMPUTE_ALPHA_QP, ipm_core/x_core_qp_ipm_aux.c:193-468. -/
def computeAlpha (sq : K → K) (c : Core K) : Core K :=
  let s := alphaRaw sq c
  if c.split_step = 1 then { c with alpha_prim := s.ap, alpha_dual := s.ad }
  else { c with alpha_prim := s.ap, alpha_dual := s.ap }

/-- the step shortening, x_core_qp_ipm_aux.c:504-510; returns `(alpha_prim, alpha_dual)`. -/
def shortStep (c : Core K) : K × K :=
  let alpha := if c.alpha_prim < c.alpha_dual then c.alpha_prim else c.alpha_dual
  if alpha < 1 then
    (c.alpha_prim * ((1 - c.alpha_prim) * (99 / 100) + c.alpha_prim * (9999999 / 10000000)),
     c.alpha_dual * ((1 - c.alpha_dual) * (99 / 100) + c.alpha_dual * (9999999 / 10000000)))
  else (c.alpha_prim, c.alpha_dual)

/-- UPDATE_VAR_QP, ipm_core/x_core_qp_ipm_aux.c:472-582. -/
def updateVar (c : Core K) : Core K :=
  let a := shortStep c
  let c1 := loop c.nv (fun ii s => { s with v_bkp := upd s.v_bkp ii (s.v ii)
                                            v := upd s.v ii (s.v ii + a.1 * s.dv ii) }) c
  let c2 := loop c.ne (fun ii s => { s with pi_bkp := upd s.pi_bkp ii (s.pi ii)
                                            pi := upd s.pi ii (s.pi ii + a.2 * s.dpi ii) }) c1
  if c.t_lam_min = 2 then
    let c3 := loop c.nc (fun ii s =>
      let x := s.lam ii + a.2 * s.dlam ii
      { s with lam_bkp := upd s.lam_bkp ii (s.lam ii)
               lam := upd s.lam ii (if x ≤ c.lam_min then c.lam_min else x) }) c2
    loop c.nc (fun ii s =>
      let x := s.t ii + a.1 * s.dt ii
      { s with t_bkp := upd s.t_bkp ii (s.t ii)
               t := upd s.t ii (if x ≤ c.t_min then c.t_min else x) }) c3
  else
    let c3 := loop c.nc (fun ii s => { s with lam_bkp := upd s.lam_bkp ii (s.lam ii)
                                              lam := upd s.lam ii (s.lam ii + a.2 * s.dlam ii) }) c2
    loop c.nc (fun ii s => { s with t_bkp := upd s.t_bkp ii (s.t ii)
                                    t := upd s.t ii (s.t ii + a.1 * s.dt ii) }) c3

/-- BACKUP_VAR_QP, ipm_core/x_core_qp_ipm_aux.c:586-632. -/
def backupVar (c : Core K) : Core K :=
  let c1 := loop c.nv (fun ii (s : Core K) => { s with v_bkp := upd s.v_bkp ii (s.v ii) }) c
  let c2 := loop c.ne (fun ii (s : Core K) => { s with pi_bkp := upd s.pi_bkp ii (s.pi ii) }) c1
  let c3 := loop c.nc (fun ii (s : Core K) => { s with lam_bkp := upd s.lam_bkp ii (s.lam ii) }) c2
  loop c.nc (fun ii (s : Core K) => { s with t_bkp := upd s.t_bkp ii (s.t ii) }) c3

/-- COMPUTE_MU_AFF_QP, ipm_core/x_core_qp_ipm_aux.c:636-668. -/
def computeMuAff (c : Core K) : Core K :=
  let mu := loop c.nc (fun ii mu => mu + |-(c.m ii) + (c.lam ii + c.alpha_dual * c.dlam ii) *
      (c.t ii + c.alpha_prim * c.dt ii)|) 0
  { c with mu_aff := mu * c.nc_mask_inv }

/-- BACKUP_RES_M, ipm_core/x_core_qp_ipm_aux.c:672-690. -/
def backupResM (c : Core K) : Core K :=
  loop c.nc (fun ii (s : Core K) => { s with res_m_bkp := upd s.res_m_bkp ii (s.res_m ii) }) c

/-- the centering target, x_core_qp_ipm_aux.c:708-710. -/
def sigmaMu (c : Core K) : K :=
  let s := c.sigma * c.mu
  if s > c.tau_min then s else c.tau_min

/-- COMPUTE_CENTERING_CORRECTION_QP, ipm_core/x_core_qp_ipm_aux.c:695-724. -/
def computeCenteringCorrection (c : Core K) : Core K :=
  loop c.nc (fun ii (s : Core K) => { s with
      res_m := upd s.res_m ii (s.res_m_bkp ii + s.dt ii * s.dlam ii - sigmaMu c) })
    { c with tau_iter := sigmaMu c }

/-- COMPUTE_CENTERING_QP, ipm_core/x_core_qp_ipm_aux.c:729-751. -/
def computeCentering (c : Core K) : Core K :=
  loop c.nc (fun ii (s : Core K) => { s with res_m := upd s.res_m ii (s.res_m_bkp ii - sigmaMu c) })
    { c with tau_iter := sigmaMu c }

/-- COMPUTE_TAU_MIN_QP, ipm_core/x_core_qp_ipm_aux.c:756-778. -/
def computeTauMin (c : Core K) : Core K :=
  loop c.nc (fun ii (s : Core K) => { s with res_m := upd s.res_m ii (s.res_m_bkp ii - c.tau_min) }) c

end
end Hpipm
