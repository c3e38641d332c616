/-
The user's view of an OCP QP object: every field as reported by the getters of ocp_qp/x_ocp_qp.c,
and of a solution object, as reported by the getters of ocp_qp/x_ocp_qp_sol.c.
-/
import Verif.ResVal
import Verif.KktSpec
import Verif.OcpQpProps

namespace Hpipm
open Finset
open OcpQp

section
variable {K : Type*} [Field K] [LinearOrder K] [IsStrictOrderedRing K]

/-- an array filled by a getter of the QP object -/
abbrev got (f : RField) (qp : OcpQp K) (k : ℕ) : ℕ → K := getR f k qp (fun _ => 0)

/-- the QP as the user sees it through the getters (matrices are column major arrays with leading
dimension the number of rows; the index lists are read directly, x_ocp_qp.c:2320-2345, 2560-2600) -/
def view (qp : OcpQp K) : UserQp K where
  N := qp.dim.N
  nx := qp.dim.nx
  nu := qp.dim.nu
  nb := qp.dim.nb
  ng := qp.dim.ng
  ns := qp.dim.ns
  A := fun k i j => got .A qp k (i + qp.dim.nx (k + 1) * j)
  B := fun k i j => got .B qp k (i + qp.dim.nx (k + 1) * j)
  b := got .b qp
  Q := fun k i j => got .Q qp k (i + qp.dim.nx k * j)
  S := fun k i j => got .S qp k (i + qp.dim.nu k * j)
  R := fun k i j => got .R qp k (i + qp.dim.nu k * j)
  q := got .q qp
  r := got .r qp
  idxb := qp.idxb
  lb := got .lb qp
  ub := got .ub qp
  C := fun k i j => got .C qp k (i + qp.dim.ng k * j)
  D := fun k i j => got .D qp k (i + qp.dim.ng k * j)
  lg := got .lg qp
  ug := got .ug qp
  soft := fun k j => if qp.idxs_rev k j = -1 then none else some (qp.idxs_rev k j).toNat
  Zl := got .Zl qp
  Zu := got .Zu qp
  zl := got .zl qp
  zu := got .zu qp
  lls := got .lls qp
  lus := got .lus qp
  lbMask := got .lb_mask qp
  ubMask := got .ub_mask qp
  lgMask := got .lg_mask qp
  ugMask := got .ug_mask qp
  llsMask := got .lls_mask qp
  lusMask := got .lus_mask qp

/-- the primal part of a solution object: OCP_QP_SOL_GET_U/X/SL/SU, x_ocp_qp_sol.c:375-440 -/
def ptOf (D : QpDim) (ux : ℕ → Vec K) : Pt K where
  u := fun k i => ux k i
  x := fun k i => ux k (D.nu k + i)
  sl := fun k i => ux k (D.nu k + D.nx k + i)
  su := fun k i => ux k (D.nu k + D.nx k + D.ns k + i)

/-- the dual part of a solution object: OCP_QP_SOL_GET_PI/LAM_LB/LAM_UB/LAM_LG/LAM_UG and the slack
multipliers, x_ocp_qp_sol.c:442-530 -/
def multOf (D : QpDim) (s : Sol K) : Mult K where
  pi := s.pi
  lo := fun k j => s.lam k j
  up := fun k j => s.lam k (D.nb k + D.ng k + j)
  ls := fun k i => s.lam k (2 * (D.nb k + D.ng k) + i)
  us := fun k i => s.lam k (2 * (D.nb k + D.ng k) + D.ns k + i)

/-! ### reading the getters -/

theorem unpackVec_at {α : Type*} (n : ℕ) (x : ℕ → α) (xi : ℕ) (v : ℕ → α) (i : ℕ) (h : i < n) :
    unpackVec n x xi v i = x (xi + i) := by
  unfold unpackVec; rw [veccp_in (by omega)]; simp

theorem unpackTran_at {α : Type*} (m n : ℕ) (M : ℕ → ℕ → α) (ai aj : ℕ) (v : ℕ → α) (i j : ℕ)
    (hi : i < n) (hj : j < m) : unpackTranMat m n M ai aj v n (i + n * j) = M (ai + j) (aj + i) := by
  have h1 : (i + n * j) % n = i := by rw [Nat.add_mul_mod_self_left, Nat.mod_eq_of_lt hi]
  have h2 : (i + n * j) / n = j := by
    rw [Nat.add_mul_div_left _ _ (by omega), Nat.div_eq_of_lt hi]; omega
  simp [unpackTranMat, h1, h2, hi, hj]

theorem unpackMat_at {α : Type*} (m n : ℕ) (M : ℕ → ℕ → α) (ai aj : ℕ) (v : ℕ → α) (i j : ℕ)
    (hi : i < m) (hj : j < n) : unpackMat m n M ai aj v m (i + m * j) = M (ai + i) (aj + j) := by
  have h1 : (i + m * j) % m = i := by rw [Nat.add_mul_mod_self_left, Nat.mod_eq_of_lt hi]
  have h2 : (i + m * j) / m = j := by
    rw [Nat.add_mul_div_left _ _ (by omega), Nat.div_eq_of_lt hi]; omega
  simp [unpackMat, h1, h2, hi, hj]

variable (qp : OcpQp K) (k : ℕ)

theorem view_A (i j : ℕ) (hi : i < qp.dim.nx (k + 1)) (hj : j < qp.dim.nx k) :
    (view qp).A k i j = qp.BAbt k (qp.dim.nu k + j) i := by
  simp only [view, got, getR]; rw [unpackTran_at _ _ _ _ _ _ _ _ hi hj]; simp
theorem view_B (i j : ℕ) (hi : i < qp.dim.nx (k + 1)) (hj : j < qp.dim.nu k) :
    (view qp).B k i j = qp.BAbt k j i := by
  simp only [view, got, getR]; rw [unpackTran_at _ _ _ _ _ _ _ _ hi hj]; simp
theorem view_C (i j : ℕ) (hi : i < qp.dim.ng k) (hj : j < qp.dim.nx k) :
    (view qp).C k i j = qp.DCt k (qp.dim.nu k + j) i := by
  simp only [view, got, getR]; rw [unpackTran_at _ _ _ _ _ _ _ _ hi hj]; simp
theorem view_D (i j : ℕ) (hi : i < qp.dim.ng k) (hj : j < qp.dim.nu k) :
    (view qp).D k i j = qp.DCt k j i := by
  simp only [view, got, getR]; rw [unpackTran_at _ _ _ _ _ _ _ _ hi hj]; simp
theorem view_Q (i j : ℕ) (hi : i < qp.dim.nx k) (hj : j < qp.dim.nx k) :
    (view qp).Q k i j = qp.RSQrq k (qp.dim.nu k + i) (qp.dim.nu k + j) := by
  simp only [view, got, getR]; rw [unpackMat_at _ _ _ _ _ _ _ _ hi hj]
theorem view_R (i j : ℕ) (hi : i < qp.dim.nu k) (hj : j < qp.dim.nu k) :
    (view qp).R k i j = qp.RSQrq k i j := by
  simp only [view, got, getR]; rw [unpackMat_at _ _ _ _ _ _ _ _ hi hj]; simp
theorem view_S (i j : ℕ) (hi : i < qp.dim.nu k) (hj : j < qp.dim.nx k) :
    (view qp).S k i j = qp.RSQrq k (qp.dim.nu k + j) i := by
  simp only [view, got, getR]; rw [unpackTran_at _ _ _ _ _ _ _ _ hi hj]; simp
theorem view_b (i : ℕ) (hi : i < qp.dim.nx (k + 1)) : (view qp).b k i = qp.b k i := by
  simp only [view, got, getR]; rw [unpackVec_at _ _ _ _ _ hi]; simp
theorem view_q (i : ℕ) (hi : i < qp.dim.nx k) : (view qp).q k i = qp.rqz k (qp.dim.nu k + i) := by
  simp only [view, got, getR]; rw [unpackVec_at _ _ _ _ _ hi]
theorem view_r (i : ℕ) (hi : i < qp.dim.nu k) : (view qp).r k i = qp.rqz k i := by
  simp only [view, got, getR]; rw [unpackVec_at _ _ _ _ _ hi]; simp
theorem view_zl (i : ℕ) (hi : i < qp.dim.ns k) : (view qp).zl k i = qp.rqz k (qp.dim.nu k + qp.dim.nx k + i) := by
  simp only [view, got, getR]; rw [unpackVec_at _ _ _ _ _ hi]
theorem view_zu (i : ℕ) (hi : i < qp.dim.ns k) :
    (view qp).zu k i = qp.rqz k (qp.dim.nu k + qp.dim.nx k + qp.dim.ns k + i) := by
  simp only [view, got, getR]; rw [unpackVec_at _ _ _ _ _ hi]
theorem view_Zl (i : ℕ) (hi : i < qp.dim.ns k) : (view qp).Zl k i = qp.Z k i := by
  simp only [view, got, getR]; rw [unpackVec_at _ _ _ _ _ hi]; simp
theorem view_Zu (i : ℕ) (hi : i < qp.dim.ns k) : (view qp).Zu k i = qp.Z k (qp.dim.ns k + i) := by
  simp only [view, got, getR]; rw [unpackVec_at _ _ _ _ _ hi]
theorem view_lls (i : ℕ) (hi : i < qp.dim.ns k) :
    (view qp).lls k i = qp.d k (2 * (qp.dim.nb k + qp.dim.ng k) + i) := by
  simp only [view, got, getR]; rw [unpackVec_at _ _ _ _ _ hi]; congr 1; ring
theorem view_lus (i : ℕ) (hi : i < qp.dim.ns k) :
    (view qp).lus k i = qp.d k (2 * (qp.dim.nb k + qp.dim.ng k) + qp.dim.ns k + i) := by
  simp only [view, got, getR]; rw [unpackVec_at _ _ _ _ _ hi]; congr 1; ring
theorem view_llsMask (i : ℕ) (hi : i < qp.dim.ns k) :
    (view qp).llsMask k i = qp.d_mask k (2 * (qp.dim.nb k + qp.dim.ng k) + i) := by
  simp only [view, got, getR]; rw [unpackVec_at _ _ _ _ _ hi]; congr 1; ring
theorem view_lusMask (i : ℕ) (hi : i < qp.dim.ns k) :
    (view qp).lusMask k i = qp.d_mask k (2 * (qp.dim.nb k + qp.dim.ng k) + qp.dim.ns k + i) := by
  simp only [view, got, getR]; rw [unpackVec_at _ _ _ _ _ hi]; congr 1; ring

theorem view_lower (j : ℕ) (hj : j < qp.dim.nb k + qp.dim.ng k) : (view qp).lower k j = qp.d k j := by
  have e : (view qp).lower k j = if j < qp.dim.nb k then unpackVec (qp.dim.nb k) (qp.d k) 0 (fun _ => 0) j
      else unpackVec (qp.dim.ng k) (qp.d k) (qp.dim.nb k) (fun _ => 0) (j - qp.dim.nb k) := rfl
  rw [e]
  by_cases h : j < qp.dim.nb k
  · rw [if_pos h, unpackVec_at _ _ _ _ _ h]; simp
  · rw [if_neg h, unpackVec_at _ _ _ _ _ (by omega)]; congr 1; omega
theorem view_upper (j : ℕ) (hj : j < qp.dim.nb k + qp.dim.ng k) :
    (view qp).upper k j = - qp.d k (qp.dim.nb k + qp.dim.ng k + j) := by
  have e : (view qp).upper k j = if j < qp.dim.nb k then
        negArr (qp.dim.nb k) (unpackVec (qp.dim.nb k) (qp.d k) (qp.dim.nb k + qp.dim.ng k) (fun _ => 0)) j
      else negArr (qp.dim.ng k) (unpackVec (qp.dim.ng k) (qp.d k) (2 * qp.dim.nb k + qp.dim.ng k) (fun _ => 0))
        (j - qp.dim.nb k) := rfl
  rw [e]
  by_cases h : j < qp.dim.nb k
  · rw [if_pos h]; simp only [negArr, if_pos h]; rw [unpackVec_at _ _ _ _ _ h]
  · rw [if_neg h]; simp only [negArr]; rw [if_pos (by omega), unpackVec_at _ _ _ _ _ (by omega)]; congr 2; omega
theorem view_lowerMask (j : ℕ) (hj : j < qp.dim.nb k + qp.dim.ng k) : (view qp).lowerMask k j = qp.d_mask k j := by
  have e : (view qp).lowerMask k j = if j < qp.dim.nb k then unpackVec (qp.dim.nb k) (qp.d_mask k) 0 (fun _ => 0) j
      else unpackVec (qp.dim.ng k) (qp.d_mask k) (qp.dim.nb k) (fun _ => 0) (j - qp.dim.nb k) := rfl
  rw [e]
  by_cases h : j < qp.dim.nb k
  · rw [if_pos h, unpackVec_at _ _ _ _ _ h]; simp
  · rw [if_neg h, unpackVec_at _ _ _ _ _ (by omega)]; congr 1; omega
theorem view_upperMask (j : ℕ) (hj : j < qp.dim.nb k + qp.dim.ng k) :
    (view qp).upperMask k j = qp.d_mask k (qp.dim.nb k + qp.dim.ng k + j) := by
  have e : (view qp).upperMask k j = if j < qp.dim.nb k then
        unpackVec (qp.dim.nb k) (qp.d_mask k) (qp.dim.nb k + qp.dim.ng k) (fun _ => 0) j
      else unpackVec (qp.dim.ng k) (qp.d_mask k) (2 * qp.dim.nb k + qp.dim.ng k) (fun _ => 0)
        (j - qp.dim.nb k) := rfl
  rw [e]
  by_cases h : j < qp.dim.nb k
  · rw [if_pos h, unpackVec_at _ _ _ _ _ h]
  · rw [if_neg h, unpackVec_at _ _ _ _ _ (by omega)]; congr 1; omega

/-! ### the specification in packed form -/

theorem sum_split (a b : ℕ) (f : ℕ → K) :
    ∑ i ∈ range (a + b), f i = (∑ i ∈ range a, f i) + ∑ i ∈ range b, f (a + i) := Finset.sum_range_add f a b

/-- quadratic form of a stage in packed form -/
theorem quad_packed (v : ℕ → Vec K) :
    ∑ i ∈ range (qp.dim.nu k + qp.dim.nx k), hmul qp k (v k) i * v k i =
    (∑ i ∈ range (qp.dim.nu k), ∑ j ∈ range (qp.dim.nu k), UserQp.sym ((view qp).R k) i j * v k i * v k j)
    + 2 * (∑ i ∈ range (qp.dim.nu k), ∑ j ∈ range (qp.dim.nx k),
        (view qp).S k i j * v k i * v k (qp.dim.nu k + j))
    + (∑ i ∈ range (qp.dim.nx k), ∑ j ∈ range (qp.dim.nx k),
        UserQp.sym ((view qp).Q k) i j * v k (qp.dim.nu k + i) * v k (qp.dim.nu k + j)) := by
  rw [sum_split]
  have a1 : ∀ i, i < qp.dim.nu k → hmul qp k (v k) i * v k i =
      (∑ j ∈ range (qp.dim.nu k), UserQp.sym ((view qp).R k) i j * v k i * v k j)
      + ∑ j ∈ range (qp.dim.nx k), (view qp).S k i j * v k i * v k (qp.dim.nu k + j) := by
    intro i hi
    simp only [hmul]
    rw [sum_split, add_mul, sum_mul, sum_mul]
    congr 1
    · apply sum_congr rfl
      intro j hj
      have hj := mem_range.mp hj
      simp only [UserQp.sym, symL, Nat.zero_add]
      split_ifs
      · rw [view_R qp k _ _ hi hj]; ring
      · rw [view_R qp k _ _ hj hi]; ring
    · apply sum_congr rfl
      intro j hj
      have hj := mem_range.mp hj
      simp only [symL, Nat.zero_add]
      rw [if_neg (by omega), view_S qp k _ _ hi hj]; ring
  have a2 : ∀ i, i < qp.dim.nx k → hmul qp k (v k) (qp.dim.nu k + i) * v k (qp.dim.nu k + i) =
      (∑ j ∈ range (qp.dim.nu k), (view qp).S k j i * v k j * v k (qp.dim.nu k + i))
      + ∑ j ∈ range (qp.dim.nx k), UserQp.sym ((view qp).Q k) i j * v k (qp.dim.nu k + i) * v k (qp.dim.nu k + j) := by
    intro i hi
    simp only [hmul]
    rw [sum_split, add_mul, sum_mul, sum_mul]
    congr 1
    · apply sum_congr rfl
      intro j hj
      have hj := mem_range.mp hj
      simp only [symL, Nat.zero_add]
      rw [if_pos (by omega), view_S qp k _ _ hj hi]
    · apply sum_congr rfl
      intro j hj
      have hj := mem_range.mp hj
      simp only [UserQp.sym, symL, Nat.zero_add, Nat.add_le_add_iff_left]
      split_ifs
      · rw [view_Q qp k _ _ hi hj]; ring
      · rw [view_Q qp k _ _ hj hi]; ring
  rw [sum_congr rfl (fun i hi => a1 i (mem_range.mp hi)), sum_congr rfl (fun i hi => a2 i (mem_range.mp hi)),
    sum_add_distrib, sum_add_distrib, sum_comm (s := range (qp.dim.nx k)) (t := range (qp.dim.nu k))]
  ring

theorem stageQuad_packed (v : ℕ → Vec K) : (view qp).stageQuad (ptOf qp.dim v) k =
    1 / 2 * (∑ i ∈ range (qp.dim.nu k + qp.dim.nx k), hmul qp k (v k) i * v k i)
    + 1 / 2 * ∑ s ∈ range (2 * qp.dim.ns k),
      qp.Z k s * v k (qp.dim.nu k + qp.dim.nx k + s) * v k (qp.dim.nu k + qp.dim.nx k + s) := by
  rw [quad_packed, two_mul (qp.dim.ns k), sum_split]
  simp only [UserQp.stageQuad, ptOf]
  have e1 : (view qp).nu = qp.dim.nu := rfl
  have e2 : (view qp).nx = qp.dim.nx := rfl
  have e3 : (view qp).ns = qp.dim.ns := rfl
  rw [e1, e2, e3]
  have b1 : ∑ i ∈ range (qp.dim.ns k), (view qp).Zl k i * v k (qp.dim.nu k + qp.dim.nx k + i) * v k (qp.dim.nu k + qp.dim.nx k + i)
      = ∑ s ∈ range (qp.dim.ns k), qp.Z k s * v k (qp.dim.nu k + qp.dim.nx k + s) * v k (qp.dim.nu k + qp.dim.nx k + s) := by
    apply sum_congr rfl
    intro j hj
    rw [view_Zl qp k _ (mem_range.mp hj)]
  have b2 : ∑ i ∈ range (qp.dim.ns k), (view qp).Zu k i * v k (qp.dim.nu k + qp.dim.nx k + qp.dim.ns k + i) * v k (qp.dim.nu k + qp.dim.nx k + qp.dim.ns k + i)
      = ∑ s ∈ range (qp.dim.ns k), qp.Z k (qp.dim.ns k + s) * v k (qp.dim.nu k + qp.dim.nx k + (qp.dim.ns k + s)) * v k (qp.dim.nu k + qp.dim.nx k + (qp.dim.ns k + s)) := by
    apply sum_congr rfl
    intro j hj
    rw [view_Zu qp k _ (mem_range.mp hj)]; simp only [add_assoc]
  rw [b1, b2]
  ring

theorem stageLin_packed (v : ℕ → Vec K) : (view qp).stageLin (ptOf qp.dim v) k =
    (∑ i ∈ range (qp.dim.nu k + qp.dim.nx k), qp.rqz k i * v k i)
    + ∑ s ∈ range (2 * qp.dim.ns k),
      qp.rqz k (qp.dim.nu k + qp.dim.nx k + s) * v k (qp.dim.nu k + qp.dim.nx k + s) := by
  rw [two_mul (qp.dim.ns k), sum_split, sum_split]
  simp only [UserQp.stageLin, ptOf]
  have e1 : (view qp).nu = qp.dim.nu := rfl
  have e2 : (view qp).nx = qp.dim.nx := rfl
  have e3 : (view qp).ns = qp.dim.ns := rfl
  rw [e1, e2, e3, add_assoc]
  congr 1
  · congr 1
    · exact sum_congr rfl (fun j hj => by rw [view_r qp k _ (mem_range.mp hj)])
    · exact sum_congr rfl (fun j hj => by rw [view_q qp k _ (mem_range.mp hj)])
  · congr 1
    · exact sum_congr rfl (fun j hj => by rw [view_zl qp k _ (mem_range.mp hj)])
    · exact sum_congr rfl (fun j hj => by rw [view_zu qp k _ (mem_range.mp hj)]; simp only [add_assoc])

theorem vObj_packed (sol : Sol K) : vObj qp sol k =
    (view qp).stageQuad (ptOf qp.dim sol.ux) k + (view qp).stageLin (ptOf qp.dim sol.ux) k := by
  rw [stageQuad_packed, stageLin_packed]
  simp only [vObj, add_mul, sum_add_distrib, mul_add]
  have : ∀ (n : ℕ) (f g : ℕ → K), (1 / 2 : K) * ∑ x ∈ range n, 2 * f x * g x = ∑ x ∈ range n, f x * g x := by
    intro n f g
    rw [mul_sum]
    exact sum_congr rfl (fun i _ => by ring)
  rw [this, this (2 * qp.dim.ns k) (fun x => qp.rqz k (qp.dim.nu k + qp.dim.nx k + x)) (fun x => sol.ux k (qp.dim.nu k + qp.dim.nx k + x))]
  ring

theorem dyn_packed (sol : Sol K) (i : ℕ) (hi : i < qp.dim.nx (k + 1)) :
    (view qp).dynDefect (ptOf qp.dim sol.ux) k i = vB qp sol k i := by
  simp only [UserQp.dynDefect, vB, ptOf]
  rw [sum_split, view_b qp k i hi]
  have e1 : (view qp).nu = qp.dim.nu := rfl
  have e2 : (view qp).nx = qp.dim.nx := rfl
  rw [e1, e2]
  rw [sum_congr rfl (fun j hj => by rw [view_A qp k i j hi (mem_range.mp hj)] :
      ∀ j ∈ range (qp.dim.nx k), (view qp).A k i j * sol.ux k (qp.dim.nu k + j) =
        qp.BAbt k (qp.dim.nu k + j) i * sol.ux k (qp.dim.nu k + j)),
    sum_congr rfl (fun j hj => by rw [view_B qp k i j hi (mem_range.mp hj)] :
      ∀ j ∈ range (qp.dim.nu k), (view qp).B k i j * sol.ux k j = qp.BAbt k j i * sol.ux k j)]
  ring

theorem value_packed (v : ℕ → Vec K) (j : ℕ) (hj : j < qp.dim.nb k + qp.dim.ng k) :
    (view qp).value (ptOf qp.dim v) k j = cval qp k (v k) j := by
  simp only [UserQp.value, cval, ptOf]
  have e1 : (view qp).nu = qp.dim.nu := rfl
  have e2 : (view qp).nx = qp.dim.nx := rfl
  have e3 : (view qp).nb = qp.dim.nb := rfl
  have e4 : (view qp).idxb = qp.idxb := rfl
  rw [e1, e2, e3, e4]
  by_cases h : j < qp.dim.nb k
  · rw [if_pos h, if_pos h]
    by_cases h2 : qp.idxb k j < qp.dim.nu k
    · rw [if_pos h2]
    · rw [if_neg h2]; congr 1; omega
  · rw [if_neg h, if_neg h, sum_split, add_comm]
    congr 1
    · exact sum_congr rfl (fun i hi => by rw [view_D qp k _ i (by omega) (mem_range.mp hi)])
    · exact sum_congr rfl (fun i hi => by rw [view_C qp k _ i (by omega) (mem_range.mp hi)])

theorem slackLo_packed (v : ℕ → Vec K) (j : ℕ) :
    (view qp).slackLo (ptOf qp.dim v) k j = slk qp k (v k) (qp.dim.nu k + qp.dim.nx k) j := by
  simp only [UserQp.slackLo, slk, ptOf, view]
  by_cases h : qp.idxs_rev k j = -1 <;> simp [h]

theorem slackUp_packed (v : ℕ → Vec K) (j : ℕ) :
    (view qp).slackUp (ptOf qp.dim v) k j = slk qp k (v k) (qp.dim.nu k + qp.dim.nx k + qp.dim.ns k) j := by
  simp only [UserQp.slackUp, slk, ptOf, view]
  by_cases h : qp.idxs_rev k j = -1 <;> simp [h]

end
end Hpipm
