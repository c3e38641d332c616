/-
C87: OCP_QP_IPM_SOLVE (ocp_qp/x_ocp_qp_ipm.c:2912-2956) on a problem without inequality constraints.
The solver returns the global minimiser of the objective plus the proximal term of the primal regularisation, with both
Riccati variants and whatever `comp_dual_sol_eq`, the old solution and the workspace are.
-/
import Verif.KktUnc
import Verif.IpmUser

namespace Hpipm
open Finset
set_option linter.unusedSectionVars false

/-! ### specification -/

section
variable {K : Type*} [Field K]

/-- objective plus `ru/2 |u|²` plus `rx/2 |x|²` -/
def UserQp.proxObjective (P : UserQp K) (ru rx : K) (p : Pt K) : K :=
  P.objective p + ru / 2 * (∑ k ∈ range (P.N + 1), ∑ i ∈ range (P.nu k), p.u k i ^ 2)
    + rx / 2 * (∑ k ∈ range (P.N + 1), ∑ i ∈ range (P.nx k), p.x k i ^ 2)
end

section
variable {K : Type*} [Field K] [LinearOrder K] [IsStrictOrderedRing K]

/-! ### the shifted problem -/

/-- diagonal shift of the stage Hessians -/
def proxQp (qp : OcpQp K) (dr : ℕ → ℕ → K) : OcpQp K :=
  { qp with RSQrq := fun k i j => qp.RSQrq k i j + if i = j then dr k i else 0 }

theorem shift_hmul (qp : OcpQp K) (dr : ℕ → ℕ → K) (k : ℕ) (v : Vec K) (i : ℕ) (hi : i < qp.dim.nu k + qp.dim.nx k) :
    hmul (proxQp qp dr) k v i = hmul qp k v i + dr k i * v i := by
  have e : ∀ j, symL ((proxQp qp dr).RSQrq k) 0 0 i j = symL (qp.RSQrq k) 0 0 i j + if i = j then dr k i else 0 := by
    intro j
    simp only [symL, proxQp, zero_add]
    by_cases h : j ≤ i
    · rw [if_pos h, if_pos h]
    · rw [if_neg h, if_neg h]
      congr 1
      rw [if_neg (by omega), if_neg (by omega)]
  have e2 : hmul (proxQp qp dr) k v i = ∑ j ∈ range (qp.dim.nu k + qp.dim.nx k),
      (symL (qp.RSQrq k) 0 0 i j * v j + (if i = j then dr k i * v j else 0)) :=
    sum_congr rfl fun j _ => by rw [e]; split <;> ring
  rw [e2, sum_add_distrib, sum_ite_eq, if_pos (mem_range.mpr hi)]
  rfl

theorem shift_quad (qp : OcpQp K) (dr : ℕ → ℕ → K) (v : ℕ → Vec K) :
    2 * (view (proxQp qp dr)).quad (ptOf qp.dim v) = 2 * (view qp).quad (ptOf qp.dim v) + regQuad qp dr 0 v := by
  have h : ∀ k, 2 * (view (proxQp qp dr)).stageQuad (ptOf qp.dim v) k = 2 * (view qp).stageQuad (ptOf qp.dim v) k
      + ∑ i ∈ range (qp.dim.nu k + qp.dim.nx k), dr k i * v k i * v k i := by
    intro k
    have e1 : (view (proxQp qp dr)).stageQuad (ptOf qp.dim v) k = _ := stageQuad_packed (proxQp qp dr) k v
    rw [e1, stageQuad_packed]
    have e2 : ∑ i ∈ range ((proxQp qp dr).dim.nu k + (proxQp qp dr).dim.nx k), hmul (proxQp qp dr) k (v k) i * v k i
        = (∑ i ∈ range (qp.dim.nu k + qp.dim.nx k), hmul qp k (v k) i * v k i)
          + ∑ i ∈ range (qp.dim.nu k + qp.dim.nx k), dr k i * v k i * v k i := by
      rw [← sum_add_distrib]
      exact sum_congr rfl fun i hi => by rw [shift_hmul qp dr k (v k) i (mem_range.mp hi), add_mul]
    rw [e2]
    show 2 * (1 / 2 * _ + 1 / 2 * ∑ s ∈ range (2 * qp.dim.ns k),
      qp.Z k s * v k (qp.dim.nu k + qp.dim.nx k + s) * v k (qp.dim.nu k + qp.dim.nx k + s)) = _
    ring
  unfold UserQp.quad regQuad
  show 2 * (∑ k ∈ range (qp.dim.N + 1), _) = 2 * (∑ k ∈ range (qp.dim.N + 1), _) + _
  rw [mul_sum, mul_sum, ← sum_add_distrib]
  refine sum_congr rfl fun k _ => ?_
  rw [h]
  simp

theorem shift_strict (qp : OcpQp K) (dr : ℕ → ℕ → K) (h : StrictlyConvex qp dr 0) :
    StrictlyConvex (proxQp qp dr) (fun _ _ => 0) 0 := by
  intro v hv
  have e : (ptOf (proxQp qp dr).dim v) = ptOf qp.dim v := rfl
  have e2 : regQuad (proxQp qp dr) (fun _ _ => 0) 0 v = 0 := by simp [regQuad]
  rw [e, shift_quad, e2, add_zero]
  exact h v hv

theorem shift_objective (qp : OcpQp K) (sqr : Bool) (reg : K) (p : Pt K) :
    (view (proxQp qp (drUn qp sqr reg))).objective p = (view qp).proxObjective reg (if sqr then reg else 0) p := by
  have hq : (view (proxQp qp (drUn qp sqr reg))).quad p = (view qp).quad p + 1 / 2 * regQuad qp (drUn qp sqr reg) 0 (packPt qp.dim p) := by
    have a1 : (view (proxQp qp (drUn qp sqr reg))).quad p = _ := (quad_packPt (proxQp qp (drUn qp sqr reg)) p).symm
    have a2 := shift_quad qp (drUn qp sqr reg) (packPt qp.dim p)
    rw [a1, ← quad_packPt qp p]
    have a3 : (view (proxQp qp (drUn qp sqr reg))).quad (ptOf (proxQp qp (drUn qp sqr reg)).dim (packPt (proxQp qp (drUn qp sqr reg)).dim p))
      = (view (proxQp qp (drUn qp sqr reg))).quad (ptOf qp.dim (packPt qp.dim p)) := rfl
    rw [a3]
    linarith
  have hr : regQuad qp (drUn qp sqr reg) 0 (packPt qp.dim p) =
      reg * (∑ k ∈ range (qp.dim.N + 1), ∑ i ∈ range (qp.dim.nu k), p.u k i ^ 2)
      + (if sqr then reg else 0) * (∑ k ∈ range (qp.dim.N + 1), ∑ i ∈ range (qp.dim.nx k), p.x k i ^ 2) := by
    unfold regQuad
    rw [mul_sum, mul_sum, ← sum_add_distrib]
    refine sum_congr rfl fun k _ => ?_
    simp only [zero_mul, sum_const_zero, add_zero]
    rw [sum_split, mul_sum, mul_sum]
    congr 1
    · refine sum_congr rfl fun i hi => ?_
      have := mem_range.mp hi
      simp only [drUn, packPt]
      rw [if_pos (Or.inr this), if_pos this]
      ring
    · refine sum_congr rfl fun i hi => ?_
      have := mem_range.mp hi
      simp only [drUn, packPt]
      rw [if_neg (show ¬ qp.dim.nu k + i < qp.dim.nu k by omega), if_pos (show qp.dim.nu k + i < qp.dim.nu k + qp.dim.nx k by omega),
        Nat.add_sub_cancel_left]
      cases sqr
      · rw [if_neg (by simp)]; simp
      · rw [if_pos (by simp)]; simp only [if_true]; ring
  have hl : ∀ k, (view (proxQp qp (drUn qp sqr reg))).stageLin p k = (view qp).stageLin p k := fun k => rfl
  unfold UserQp.proxObjective UserQp.objective
  rw [sum_add_distrib, sum_add_distrib, sum_congr rfl fun k _ => hl k]
  have h1 : ∑ k ∈ range ((view (proxQp qp (drUn qp sqr reg))).N + 1), (view (proxQp qp (drUn qp sqr reg))).stageQuad p k
    = (view (proxQp qp (drUn qp sqr reg))).quad p := rfl
  have h2 : ∑ k ∈ range ((view qp).N + 1), (view qp).stageQuad p k = (view qp).quad p := rfl
  rw [h1, h2, hq, hr]
  show _ + ∑ k ∈ range (qp.dim.N + 1), _ = _ + ∑ k ∈ range (qp.dim.N + 1), _ + reg / 2 * (∑ k ∈ range (qp.dim.N + 1), ∑ i ∈ range (qp.dim.nu k), _)
    + _ / 2 * (∑ k ∈ range (qp.dim.N + 1), ∑ i ∈ range (qp.dim.nx k), _)
  ring

theorem shift_feasible (qp : OcpQp K) (dr : ℕ → ℕ → K) (p : Pt K) : (view (proxQp qp dr)).Feasible p ↔ (view qp).Feasible p :=
  ⟨fun h => ⟨h.dyn, h.lo, h.up, h.ls, h.us⟩, fun h => ⟨h.dyn, h.lo, h.up, h.ls, h.us⟩⟩

/-! ### the primal part does not depend on `comp_dual_sol_eq` -/

/-- forget the equality multipliers -/
def dropPi (st : KktSt K) : KktSt K := { st with pi := fun _ _ => 0 }

theorem sqFwd_drop (qp : OcpQp K) (d : Bool) (n k : ℕ) (st : KktSt K) : dropPi (sqFwd qp d n k st) = dropPi (sqFwd qp true n k (dropPi st)) := rfl
theorem clFwd_drop (qp : OcpQp K) (d : Bool) (n k : ℕ) (st : KktSt K) : dropPi (clFwd qp d n k st) = dropPi (clFwd qp true n k (dropPi st)) := rfl

theorem fwd_dual (qp : OcpQp K) (d sqr : Bool) (st : KktSt K) : (fwd qp d sqr st).ux = (fwd qp true sqr st).ux := by
  have step : ∀ n k (a b : KktSt K), dropPi a = dropPi b →
      dropPi (if sqr then sqFwd qp d n k a else clFwd qp d n k a) = dropPi (if sqr then sqFwd qp true n k b else clFwd qp true n k b) := by
    intro n k a b h
    split
    · rw [sqFwd_drop, h, ← sqFwd_drop]
    · rw [clFwd_drop, h, ← clFwd_drop]
  have hl : ∀ n, dropPi (loop n (fun i st => if sqr then sqFwd qp d (qp.dim.nu (i + 1)) (i + 1) st else clFwd qp d (qp.dim.nu (i + 1)) (i + 1) st)
        (if sqr then sqFwd qp d (qp.dim.nu 0 + qp.dim.nx 0) 0 st else clFwd qp d (qp.dim.nu 0 + qp.dim.nx 0) 0 st))
      = dropPi (loop n (fun i st => if sqr then sqFwd qp true (qp.dim.nu (i + 1)) (i + 1) st else clFwd qp true (qp.dim.nu (i + 1)) (i + 1) st)
        (if sqr then sqFwd qp true (qp.dim.nu 0 + qp.dim.nx 0) 0 st else clFwd qp true (qp.dim.nu 0 + qp.dim.nx 0) 0 st)) := by
    intro n
    induction n with
    | zero => exact step _ _ _ _ rfl
    | succ n ih => rw [loop_succ, loop_succ]; exact step _ _ _ _ ih
  have h3 : ∀ a b : KktSt K, dropPi a = dropPi b → (fwdLast qp a).ux = (fwdLast qp b).ux := fun a b h => by
    have e : ∀ a : KktSt K, (fwdLast qp a).ux = (fwdLast qp (dropPi a)).ux := fun _ => rfl
    rw [e a, e b, h]
  exact h3 _ _ (hl (qp.dim.N - 1))

theorem unconstr_dual (sq : K → K) (qp : OcpQp K) (hN : 1 ≤ qp.dim.N) (d sqr : Bool) (reg : K) (st : KktSt K) :
    (unconstr sq qp d sqr reg st).ux = (unconstr sq qp true sqr reg st).ux := by
  rw [unconstr_eq sq qp hN, unconstr_eq sq qp hN, fwd_dual]

/-! ### optimality -/

/-- the unconstrained Riccati solve minimises the regularised objective -/
theorem unconstr_prox (sq : K → K) (hsq : ∀ x, 0 < x → sq x * sq x = x) (qp : OcpQp K) (hni : NoIneq qp) (hN : 1 ≤ qp.dim.N)
    (d sqr : Bool) (reg : K) (hsc : StrictlyConvex qp (drUn qp sqr reg) 0) (st : KktSt K) (hR : ROk qp st) (hB : BOk qp st)
    (v : ℕ → Vec K) (hv : ∀ k i, k ≤ qp.dim.N → i < nvt qp.dim k → v k i = (unconstr sq qp d sqr reg st).ux k i) :
    (view qp).Feasible (ptOf qp.dim v) ∧ ∀ p, (view qp).Feasible p →
      (view qp).proxObjective reg (if sqr then reg else 0) (ptOf qp.dim v) ≤ (view qp).proxObjective reg (if sqr then reg else 0) p := by
  have hp := unconstr_piv sq hsq qp hni hN true sqr reg hsc st hR hB
  obtain ⟨h1, h2⟩ := unconstr_opt sq hsq qp hni hN sqr reg st hR hB hp
  rw [unconstr_dual sq qp hN] at hv
  set s := stepOf (unconstr sq qp true sqr reg st) with hs
  have hv' : ∀ k i, k ≤ qp.dim.N → i < qp.dim.nu k + qp.dim.nx k → v k i = s.ux k i := fun k i hk hi =>
    hv k i hk (by unfold nvt; omega)
  set q' := proxQp qp (drUn qp sqr reg) with hq'
  have hni' : NoIneq q' := hni
  have hnn : ∀ k j, k ≤ qp.dim.N → j < 2 * qp.dim.nb k + 2 * qp.dim.ng k + 2 * qp.dim.ns k → False := by
    intro k j hk hj
    obtain ⟨e1, e2, e3⟩ := hni k hk
    omega
  let r0 : Res K := ⟨fun _ _ => 0, fun _ _ => 0, fun _ _ => 0, fun _ _ => 0, 0, 0, 0, 0⟩
  let w0 : ResWs K := ⟨fun _ => 0, fun _ => 0, fun _ => 0, false, false, 0⟩
  have hw0 : w0.Ok q' := fun h => by simp [w0] at h
  let x : Sol K := { s with ux := v }
  have hr := (resCompute_val q' hni'.wf x r0 w0 hw0).1
  have ho : (view q').IsOptimal (ptOf q'.dim x.ux) := by
    refine res_zero_optimal q' hni'.wf (fun k j hk hj => absurd hj (fun hj => hnn k j hk hj)) (shift_strict qp _ hsc).convex
      x r0 w0 hw0 ?_ ?_ (fun k j hk hj => (hnn k j hk hj).elim) (fun k j hk hj => (hnn k j hk hj).elim) (fun k j hk hj => (hnn k j hk hj).elim)
    · intro k i hk hi
      have hk : k ≤ qp.dim.N := hk
      have hi : i < qp.dim.nu k + qp.dim.nx k + 2 * qp.dim.ns k := hi
      obtain ⟨e1, e2, e3⟩ := hni k hk
      have hi : i < qp.dim.nu k + qp.dim.nx k := by omega
      rw [(hr k hk).1.g i (by show i < qp.dim.nu k + qp.dim.nx k + 2 * qp.dim.ns k; omega)]
      have h := h1 k i hk hi
      simp only [vG, cvalT, e1, e2, range_zero, sum_empty, if_pos hi] at h
      have d1 : q'.dim = qp.dim := rfl
      simp only [vG, cvalT, d1, e1, e2, range_zero, sum_empty, if_pos hi]
      rw [hq', shift_hmul qp _ k _ i hi]
      have e4 : hmul qp k (x.ux k) i = hmul qp k (s.ux k) i := sum_congr rfl fun j hj => by
        show _ * v k j = _
        rw [hv' k j hk (mem_range.mp hj)]
      have e5 : x.ux k i = s.ux k i := hv' k i hk hi
      rw [e4, e5]
      have e6 : x.pi = s.pi := rfl
      rw [e6]
      show _ + _ + qp.rqz k i - _ + _ + (if k < qp.dim.N then ∑ j ∈ range (qp.dim.nx (k + 1)), qp.BAbt k i j * s.pi k j else 0) = 0
      linear_combination h
    · intro k i hk hi
      have hk : k < qp.dim.N := hk
      have hi : i < qp.dim.nx (k + 1) := hi
      rw [(hr k (le_of_lt hk)).1.b hk i hi, ← h2 k i hk hi]
      simp only [vB]
      have e1 : x.ux (k + 1) (q'.dim.nu (k + 1) + i) = s.ux (k + 1) (qp.dim.nu (k + 1) + i) :=
        hv' (k + 1) (qp.dim.nu (k + 1) + i) hk (by omega)
      rw [e1]
      refine congrArg (fun z => qp.b k i - s.ux (k + 1) (qp.dim.nu (k + 1) + i) + z) ?_
      exact sum_congr rfl fun j hj => by
        show qp.BAbt k j i * v k j = _
        rw [hv' k j (by omega) (mem_range.mp hj)]
  obtain ⟨f, g⟩ := ho
  refine ⟨(shift_feasible qp _ _).mp f, fun p hp => ?_⟩
  have := g p ((shift_feasible qp _ _).mpr hp)
  rw [hq', shift_objective, shift_objective] at this
  exact this

/-! ### switched-off constraints -/

/-- no soft constraints, and every bound and general constraint is switched off by its mask (in particular: there are none) -/
def AllOff (qp : OcpQp K) : Prop :=
  ∀ k, k ≤ qp.dim.N → qp.dim.ns k = 0 ∧ ∀ j, j < 2 * qp.dim.nb k + 2 * qp.dim.ng k → qp.d_mask k j = 0

/-- the problem without its constraints -/
def bareQp (qp : OcpQp K) : OcpQp K :=
  { qp with dim := { qp.dim with
    nb := fun _ => 0
    ng := fun _ => 0
    ns := fun _ => 0 } }

theorem bare_unconstr (sq : K → K) (qp : OcpQp K) (d sqr : Bool) (reg : K) (st : KktSt K) :
    unconstr sq (bareQp qp) d sqr reg st = unconstr sq qp d sqr reg st := by
  have h1 : ∀ k st, sqFwd (bareQp qp) d k = sqFwd qp d k ∧ clFwd (bareQp qp) d k = clFwd qp d k ∧ fwdLast (bareQp qp) st = fwdLast qp st :=
    fun k st => ⟨rfl, rfl, rfl⟩
  have hf : ∀ st, fwd (bareQp qp) d sqr st = fwd qp d sqr st := fun st => by
    unfold fwd
    simp only [(h1 _ _).1, (h1 _ _).2.1, (h1 _ _).2.2]
    rfl
  have h2 : ∀ st, unSqLast sq (bareQp qp) reg st = unSqLast sq qp reg st := fun st => rfl
  have h3 : ∀ k st, unSqMid sq (bareQp qp) reg k st = unSqMid sq qp reg k st := fun k st => rfl
  have h4 : ∀ st, unClLast sq (bareQp qp) reg st = unClLast sq qp reg st := fun st => rfl
  have h5 : ∀ k st, unClMid sq (bareQp qp) reg k st = unClMid sq qp reg k st := fun k st => rfl
  have h6 : ∀ k st, unClFirst sq (bareQp qp) reg k st = unClFirst sq qp reg k st := fun k st => rfl
  have h7 : (bareQp qp).dim.N = qp.dim.N := rfl
  cases sqr
  · simp only [unconstr, Bool.false_eq_true, if_false, hf, h4, h5, h6, h7]
  · simp only [unconstr, if_true, hf, h2, h3, h7]

theorem bare_prox {qp : OcpQp K} (h : AllOff qp) (ru rx : K) (p q : Pt K) (hu : p.u = q.u) (hx : p.x = q.x) :
    (view (bareQp qp)).proxObjective ru rx p = (view qp).proxObjective ru rx q := by
  unfold UserQp.proxObjective UserQp.objective
  have e1 : (view (bareQp qp)).N = qp.dim.N := rfl
  have e2 : (view qp).N = qp.dim.N := rfl
  have e : ∑ k ∈ range (qp.dim.N + 1), ((view (bareQp qp)).stageQuad p k + (view (bareQp qp)).stageLin p k)
      = ∑ k ∈ range (qp.dim.N + 1), ((view qp).stageQuad q k + (view qp).stageLin q k) := by
    refine sum_congr rfl fun k hk => ?_
    have hn := (h k (by have := mem_range.mp hk; omega)).1
    have a1 : (view (bareQp qp)).ns k = 0 := rfl
    have a2 : (view qp).ns k = 0 := hn
    unfold UserQp.stageQuad UserQp.stageLin
    rw [a1, a2, hu, hx]
    simp only [range_zero, sum_empty]
    rfl
  rw [e1, e2, e, hu, hx]
  rfl

theorem bare_feasible {qp : OcpQp K} (h : AllOff qp) (p q : Pt K) (hu : p.u = q.u) (hx : p.x = q.x) :
    (view (bareQp qp)).Feasible p ↔ (view qp).Feasible q := by
  have hd : ∀ k i, (view (bareQp qp)).dynDefect p k i = (view qp).dynDefect q k i := fun k i => by
    unfold UserQp.dynDefect
    rw [hu, hx]
    rfl
  constructor
  · intro f
    refine ⟨fun k i hk hi => (hd k i).symm.trans (f.dyn k i hk hi), ?_, ?_, ?_, ?_⟩
    · intro k j hk hj hm
      have hj' : j < qp.dim.nb k + qp.dim.ng k := hj
      exact absurd ((view_lowerMask qp k j hj).trans ((h k hk).2 j (by omega))) hm
    · intro k j hk hj hm
      have hj' : j < qp.dim.nb k + qp.dim.ng k := hj
      exact absurd ((view_upperMask qp k j hj).trans ((h k hk).2 _ (by omega))) hm
    · intro k j hk hj
      have hj' : j < qp.dim.ns k := hj
      have := (h k hk).1
      omega
    · intro k j hk hj
      have hj' : j < qp.dim.ns k := hj
      have := (h k hk).1
      omega
  · intro f
    refine ⟨fun k i hk hi => (hd k i).trans (f.dyn k i hk hi), ?_, ?_, ?_, ?_⟩
    · intro k j _ hj
      exact absurd hj (Nat.not_lt_zero j)
    · intro k j _ hj
      exact absurd hj (Nat.not_lt_zero j)
    · intro k j _ hj
      exact absurd hj (Nat.not_lt_zero j)
    · intro k j _ hj
      exact absurd hj (Nat.not_lt_zero j)

theorem bare_strict {qp : OcpQp K} (h : AllOff qp) (dr : ℕ → ℕ → K) (hs : StrictlyConvex qp dr 0) : StrictlyConvex (bareQp qp) dr 0 := by
  rintro v ⟨k, i, hk, hi, hv⟩
  have := hs v ⟨k, i, hk, by
    have hi : i < qp.dim.nu k + qp.dim.nx k + 2 * 0 := hi
    omega, hv⟩
  have e1 : (view (bareQp qp)).quad (ptOf (bareQp qp).dim v) = (view qp).quad (ptOf qp.dim v) := by
    unfold UserQp.quad
    refine sum_congr rfl fun k hk => ?_
    have hk : k < qp.dim.N + 1 := mem_range.mp hk
    rw [stageQuad_packed, stageQuad_packed, (h k (by omega)).1]
    rfl
  have e2 : regQuad (bareQp qp) dr 0 v = regQuad qp dr 0 v := by
    unfold regQuad
    simp only [zero_mul, sum_const_zero]
    rfl
  rw [e1, e2]
  exact this

variable {E : Env K}

/-- **C87** An OCP QP without soft constraints whose inequality constraints are all switched off (or absent) and whose (regularised)
objective is strictly convex: the solver returns after zero iterations with status success, and the point it returns satisfies the
dynamics and minimises objective plus the proximal term of the primal regularisation over all points that do; with both Riccati
variants, whatever the other settings, the previous solution and the contents of the workspace (`hnc`: it was created for the dimensions). -/
theorem ipm_off_prox (hsq : ∀ x, 0 < x → E.sq x * E.sq x = x) (hoff : AllOff E.qp) (hN : 1 ≤ E.qp.dim.N)
    (hsc : StrictlyConvex E.qp (drUn E.qp E.sqr (E.arg.r .reg_prim)) 0) (lf : ℕ) (sol : Sol K) (s : Ipm K)
    (hnc : s.core.nc = stOff (nct E.qp.dim) (E.qp.dim.N + 1)) :
    ∃ o, ipmSolve E lf sol s = some o ∧ o.iter = 0 ∧ o.status = .SUCCESS ∧
      (view E.qp).Feasible (ptOf E.qp.dim (solOf E.qp.dim o.s.core).ux) ∧ ∀ p, (view E.qp).Feasible p →
        (view E.qp).proxObjective (E.arg.r .reg_prim) (if E.sqr then E.arg.r .reg_prim else 0) (ptOf E.qp.dim (solOf E.qp.dim o.s.core).ux)
        ≤ (view E.qp).proxObjective (E.arg.r .reg_prim) (if E.sqr then E.arg.r .reg_prim else 0) p := by
  have hmask : ncMask E.qp s.core.nc = 0 := by
    rw [ncMask_sum]
    refine sum_eq_zero fun i hi => ?_
    obtain ⟨k, j, hk, hj, rfl⟩ := stFlat_inv (nct E.qp.dim) (E.qp.dim.N + 1) i (by rw [← hnc]; exact mem_range.mp hi)
    have : fmask E.qp (stOff (nct E.qp.dim) k + j) = 0 := by
      unfold fmask
      rw [stFlat_at _ _ _ _ _ hk hj]
      have := hoff k (by omega)
      exact this.2 j (by unfold nct at hj; omega)
    rw [if_neg (by simpa using this)]
  unfold ipmSolve
  simp only
  rw [if_pos (Or.inr hmask)]
  refine ⟨_, rfl, rfl, rfl, ?_⟩
  set st : KktSt K := { (prologue E sol s).kkt with
      ux := (solOf E.qp.dim (prologue E sol s).core).ux
      pi := (solOf E.qp.dim (prologue E sol s).core).pi
      lam := (solOf E.qp.dim (prologue E sol s).core).lam
      t := (solOf E.qp.dim (prologue E sol s).core).t } with hst
  have hv : (solveUnc E (prologue E sol s)).s.core.v
      = stFlat (nvt E.qp.dim) (unconstr E.sq E.qp (dualF E) E.sqr (E.arg.r .reg_prim) st).ux (E.qp.dim.N + 1) := by
    unfold solveUnc
    simp only
    split
    · split <;> rfl
    · rfl
  have hd : drUn (bareQp E.qp) E.sqr (E.arg.r .reg_prim) = drUn E.qp E.sqr (E.arg.r .reg_prim) := rfl
  have key := unconstr_prox E.sq hsq (bareQp E.qp) (fun _ _ => ⟨rfl, rfl, rfl⟩) hN (dualF E) E.sqr (E.arg.r .reg_prim)
    (by rw [hd]; exact bare_strict hoff _ hsc) st (fun _ _ _ _ _ _ => rfl) (fun _ _ _ _ _ _ => rfl)
    (solOf E.qp.dim (solveUnc E (prologue E sol s)).s.core).ux (fun k i hk hi => by
      rw [bare_unconstr]
      show (solveUnc E (prologue E sol s)).s.core.v (stOff (nvt E.qp.dim) k + i) = _
      rw [hv]
      have hi : i < E.qp.dim.nu k + E.qp.dim.nx k + 2 * 0 := hi
      have hk : k ≤ E.qp.dim.N := hk
      exact stFlat_at _ _ _ _ _ (by omega) (by unfold nvt; omega))
  refine ⟨(bare_feasible hoff (ptOf (bareQp E.qp).dim (solOf E.qp.dim (solveUnc E (prologue E sol s)).s.core).ux) (ptOf E.qp.dim (solOf E.qp.dim (solveUnc E (prologue E sol s)).s.core).ux) rfl rfl).mp key.1, fun p hp => ?_⟩
  have h2 := key.2 p ((bare_feasible hoff p p rfl rfl).mpr hp)
  rw [bare_prox hoff _ _ p p rfl rfl, bare_prox hoff _ _ (ptOf (bareQp E.qp).dim (solOf E.qp.dim (solveUnc E (prologue E sol s)).s.core).ux) (ptOf E.qp.dim (solOf E.qp.dim (solveUnc E (prologue E sol s)).s.core).ux) rfl rfl] at h2
  exact h2

/-- **C87** Without regularisation the returned point is the global minimiser. -/
theorem ipm_off_optimal (hsq : ∀ x, 0 < x → E.sq x * E.sq x = x) (hoff : AllOff E.qp) (hN : 1 ≤ E.qp.dim.N)
    (hreg : E.arg.r .reg_prim = 0) (hsc : StrictlyConvex E.qp (fun _ _ => 0) 0) (lf : ℕ) (sol : Sol K) (s : Ipm K)
    (hnc : s.core.nc = stOff (nct E.qp.dim) (E.qp.dim.N + 1)) :
    ∃ o, ipmSolve E lf sol s = some o ∧ o.iter = 0 ∧ o.status = .SUCCESS ∧
      (view E.qp).IsOptimal (ptOf E.qp.dim (solOf E.qp.dim o.s.core).ux) := by
  have hd0 : drUn E.qp E.sqr (E.arg.r .reg_prim) = fun _ _ => 0 := by funext k i; simp [drUn, hreg]
  obtain ⟨o, h1, h2, h3, h4, h5⟩ := ipm_off_prox hsq hoff hN (by rw [hd0]; exact hsc) lf sol s hnc
  refine ⟨o, h1, h2, h3, h4, fun p hp => ?_⟩
  have := h5 p hp
  simpa [UserQp.proxObjective, hreg] using this

end

/-! ### example -/

/-- `exUQp` with one bound per stage, switched off -/
noncomputable def exOffQp : OcpQp ℝ := { exUQp with
  dim := { exUQp.dim with nb := fun _ => 1 }
  d_mask := fun _ _ => 0 }

theorem exOff_strict : StrictlyConvex exOffQp (fun _ _ => 0) 0 := by
  intro v hv
  have e : ∀ k, (view exOffQp).stageQuad (ptOf exOffQp.dim v) k = (view exUQp).stageQuad (ptOf exUQp.dim v) k := fun k => by
    rw [stageQuad_packed, stageQuad_packed]; rfl
  have e1 : (view exOffQp).quad (ptOf exOffQp.dim v) = (view exUQp).quad (ptOf exUQp.dim v) := sum_congr rfl fun k _ => e k
  rw [e1]
  exact exUQp_strict v hv

/-- all hypotheses hold for a problem with two stages, one input, one state, and any arguments without regularisation, both Riccati variants -/
noncomputable example (arg : IpmArg ℝ) (h : arg.r .reg_prim = 0) (sqr : Bool) (lq fo) (sol : Sol ℝ) (s : Ipm ℝ) (hs : s.core.nc = 4) :
    ∃ o, ipmSolve ⟨Real.sqrt, 0, exOffQp, arg, sqr, 0, 5, lq, fo⟩ 0 sol s = some o ∧ o.iter = 0 ∧ o.status = .SUCCESS ∧
      (view exOffQp).IsOptimal (ptOf exOffQp.dim (solOf exOffQp.dim o.s.core).ux) :=
  ipm_off_optimal (E := ⟨Real.sqrt, 0, exOffQp, arg, sqr, 0, 5, lq, fo⟩) exK_sqrt (fun _ _ => ⟨rfl, fun _ _ => rfl⟩) (le_refl 1) h exOff_strict
    0 sol s hs

end Hpipm
