/-
Removal of fixed variables: separate reduction of matrices and vectors, seeds (C55), dimensions, examples.
-/
import Verif.RedRes
import Verif.PartCondProps

namespace Hpipm
open Finset
set_option linter.unusedSectionVars false

section
variable {K : Type*} [Field K] [LinearOrder K] [IsStrictOrderedRing K]

/-- two loops in lockstep -/
theorem loop_sim {S T : Type*} (R : ℕ → S → T → Prop) (n : ℕ) (b : ℕ → S → S) (c : ℕ → T → T) (s : S) (t : T) (h0 : R 0 s t)
    (hs : ∀ i s t, i < n → R i s t → R (i + 1) (b i s) (c i t)) : R n (loop n b s) (loop n c t) := by
  induction n with
  | zero => exact h0
  | succ k ih =>
    rw [loop_succ, loop_succ]
    exact hs k _ _ (Nat.lt_succ_self k) (ih (fun i s t hi => hs i s t (Nat.lt_succ_of_lt hi)))

/-- OCP_QP_REDUCE_EQ_DOF_LHS: closed form of the matrices of every stage -/
theorem redLhs_ok {qp : OcpQp K} (hq : EqOk qp) (arg : RedArg K) (red : OcpQp K) (hd : RedDim qp.dim red.dim) (ws : RedWs K) :
    (redLhs arg qp red ws).1.dim = red.dim ∧ ∀ k, k ≤ qp.dim.N → RedMatOk qp (redLhs arg qp red ws).1 k := by
  have h := loop_inv (fun n (s : OcpQp K × RedWs K) => s.1.dim = red.dim ∧ ∀ k, k < n → RedMatOk qp s.1 k)
    (qp.dim.N + 1) (redLhsStage arg qp) (red, ws) ⟨rfl, fun k hk => by omega⟩ ?_
  · exact ⟨h.1, fun k hk => h.2 k (by omega)⟩
  · rintro k ⟨r, w⟩ hk ⟨hdim, ih⟩
    simp only at hdim ih
    have hd' : RedDim qp.dim r.dim := by rw [hdim]; exact hd
    have hk' : k ≤ qp.dim.N := by omega
    unfold redLhsStage
    by_cases hn : neThr qp.dim k > 0
    · simp only [if_pos hn]
      obtain ⟨m1, m2, m3⟩ := redMask_val qp hq k hk' (qp.d k) w
      obtain ⟨f1, f2, f3, f4⟩ := redMats_frame qp r (redMask qp k (qp.d k) w) k
      have hM := redMats_ok hq r hd' hk' _ m1 m2
      refine ⟨by rw [f1, hdim], fun l hl => ?_⟩
      by_cases hlk : l = k
      · subst hlk; exact hM
      · exact (ih l (by omega)).of_same f1 (f3 l hlk)
    · simp only [if_neg hn]
      have hM := redCopyMat_ok hq arg r hd' hk' (by omega)
      obtain ⟨g1, g2, g3⟩ := redCopyMat_frame arg qp r k
      refine ⟨by rw [g1, hdim], fun l hl => ?_⟩
      by_cases hlk : l = k
      · subst hlk; exact hM
      · exact (ih l (by omega)).of_same g1 (g3 l hlk)

/-- OCP_QP_REDUCE_EQ_DOF_RHS: closed form of the vectors of every stage; matrices untouched -/
theorem redRhs_ok {qp : OcpQp K} (hq : EqOk qp) (red : OcpQp K) (hd : RedDim qp.dim red.dim) (ws : RedWs K) :
    (redRhs qp red ws).1.dim = red.dim ∧ (∀ k, k ≤ qp.dim.N → RedVecOk qp (redRhs qp red ws).1 k) ∧
      ∀ k, SameMat (redRhs qp red ws).1 red k := by
  have h := loop_inv (fun n (s : OcpQp K × RedWs K) => s.1.dim = red.dim ∧ (∀ k, k < n → RedVecOk qp s.1 k) ∧
      ∀ k, SameMat s.1 red k)
    (qp.dim.N + 1) (redRhsStage qp) (red, ws) ⟨rfl, fun k hk => by omega, fun k => ⟨rfl, rfl, rfl, rfl, rfl, rfl⟩⟩ ?_
  · exact ⟨h.1, fun k hk => h.2.1 k (by omega), h.2.2⟩
  · rintro k ⟨r, w⟩ hk ⟨hdim, ih, hsm⟩
    simp only at hdim ih hsm
    have hd' : RedDim qp.dim r.dim := by rw [hdim]; exact hd
    have hk' : k ≤ qp.dim.N := by omega
    have trans : ∀ (a : OcpQp K), (∀ l, SameMat a r l) → ∀ l, SameMat a red l := fun a h l =>
      ⟨(h l).BAbt.trans (hsm l).BAbt, (h l).RSQrq.trans (hsm l).RSQrq, (h l).DCt.trans (hsm l).DCt,
        (h l).Z.trans (hsm l).Z, (h l).idxb.trans (hsm l).idxb, (h l).idxs.trans (hsm l).idxs⟩
    unfold redRhsStage
    by_cases hn : neThr qp.dim k > 0
    · simp only [if_pos hn]
      obtain ⟨m1, m2, m3⟩ := redMask_val qp hq k hk' (qp.d k) w
      obtain ⟨f1, f2, f3⟩ := redVecs_frame qp r (redMask qp k (qp.d k) w) k
      have hM := redVecs_ok hq r hd' hk' _ m1 m2 m3
      refine ⟨by rw [f1, hdim], fun l hl => ?_, trans _ f2⟩
      by_cases hlk : l = k
      · subst hlk; exact hM
      · exact (ih l (by omega)).of_same f1 (f3 l hlk)
    · simp only [if_neg hn]
      have hM := redCopyVec_ok hq r hd' hk' (by omega)
      obtain ⟨g1, g2, g3⟩ := redCopyVec_frame qp r k
      refine ⟨by rw [g1, hdim], fun l hl => ?_, trans _ g2⟩
      by_cases hlk : l = k
      · subst hlk; exact hM
      · exact (ih l (by omega)).of_same g1 (g3 l hlk)

/-- a problem with the same matrices, index lists and dimensions and other vectors -/
def withVecs (qp : OcpQp K) (b rqz d dm m : ℕ → Vec K) : OcpQp K :=
  { qp with
    b := b
    rqz := rqz
    d := d
    d_mask := dm
    m := m }

/-- **C55.**  Reducing the matrices once and then, any number of times, the vectors of problems with the same
matrices gives each time a full reduction of the current problem. -/
theorem redRhs_update {qp : OcpQp K} (hq : EqOk qp) (arg : RedArg K) (red : OcpQp K) (hd : RedDim qp.dim red.dim)
    (ws : RedWs K) : (∀ ws', Reduced qp (redRhs qp (redLhs arg qp red ws).1 ws').1) ∧
    ∀ (r : OcpQp K) (b rqz d dm m : ℕ → Vec K) (ws' : RedWs K), Reduced qp r →
      Reduced (withVecs qp b rqz d dm m) (redRhs (withVecs qp b rqz d dm m) r ws').1 := by
  constructor
  · intro ws'
    obtain ⟨h1, h2⟩ := redLhs_ok hq arg red hd ws
    obtain ⟨g1, g2, g3⟩ := redRhs_ok hq (redLhs arg qp red ws).1 (by rw [h1]; exact hd) ws'
    exact ⟨by rw [g1, h1]; exact hd, fun k hk => (h2 k hk).of_same g1 (g3 k), g2⟩
  · intro r b rqz d dm m ws' hr
    have hq' : EqOk (withVecs qp b rqz d dm m) := ⟨hq.dim, hq.nbue, hq.nbxe, hq.box, hq.input, hq.state, hq.injBox, hq.inj⟩
    obtain ⟨g1, g2, g3⟩ := redRhs_ok hq' r hr.dim ws'
    refine ⟨by rw [g1]; exact hr.dim, fun k hk => ?_, g2⟩
    have hm := hr.mat k hk
    have hm' : RedMatOk (withVecs qp b rqz d dm m) r k := ⟨hm.BAbt, hm.hess, hm.DCt, hm.Z, hm.idxb, hm.soft, hm.softg⟩
    exact hm'.of_same g1 (g3 k)

/-- the vectors a seed object stands for -/
def seedQp (qp : OcpQp K) (sd : QpSeed K) : OcpQp K := withVecs qp sd.seed_b sd.seed_g sd.seed_d qp.d_mask sd.seed_m

/-- **C55 (seeds).**  Reducing a sensitivity seed is the same as reducing the vectors of the problem whose
gradient, dynamics, bounds and complementarity vectors are the seed; restoring a sensitivity solution is restoring a
solution of that problem. -/
theorem redSeed_is_rhs (qp : OcpQp K) (sd : QpSeed K) (red : OcpQp K) (ws : RedWs K) :
    let s := (redSeed qp sd ⟨red.rqz, red.b, red.d, red.m⟩ red.dim ws).1
    let r := (redRhs (seedQp qp sd) red ws).1
    s.seed_g = r.rqz ∧ s.seed_b = r.b ∧ s.seed_d = r.d ∧ s.seed_m = r.m := by
  have h := loop_sim (fun _ (s : QpSeed K × RedWs K) (r : OcpQp K × RedWs K) =>
      s.1.seed_g = r.1.rqz ∧ s.1.seed_b = r.1.b ∧ s.1.seed_d = r.1.d ∧ s.1.seed_m = r.1.m ∧ s.2 = r.2 ∧ r.1.dim = red.dim)
    (qp.dim.N + 1) (redSeedStage qp sd red.dim) (redRhsStage (seedQp qp sd)) (⟨red.rqz, red.b, red.d, red.m⟩, ws) (red, ws)
    ⟨rfl, rfl, rfl, rfl, rfl, rfl⟩ ?_
  · exact ⟨h.1, h.2.1, h.2.2.1, h.2.2.2.1⟩
  · rintro k ⟨s, w⟩ ⟨r, w'⟩ hk ⟨h1, h2, h3, h4, h5, h6⟩
    simp only at h1 h2 h3 h4 h5 h6
    subst h5
    have e : neThr (seedQp qp sd).dim k = neThr qp.dim k := rfl
    simp only [redSeedStage, redRhsStage, e]
    by_cases hn : neThr qp.dim k > 0
    · simp only [if_pos hn, redVecs, h6, h1, h2, h3, h4]
      exact ⟨rfl, rfl, rfl, rfl, rfl, trivial⟩
    · simp only [if_neg hn, redCopyVec, h1, h2, h3, h4]
      exact ⟨rfl, rfl, rfl, rfl, trivial, h6⟩

theorem restoreSeed_is_sol (arg : RedArg K) (qp : OcpQp K) (sd : QpSeed K) (Dr : QpDim) (sr sol : Sol K) (ws : RedWs K) :
    restoreSeed arg qp sd Dr sr sol ws = restoreSol arg (seedQp qp sd) Dr sr sol ws := rfl

/-- the sizes as a QP object sees them -/
def qpDimOf (d : Dims) : QpDim :=
  { N := d.N
    nx := d.nx
    nu := d.nu
    nb := d.nb
    nbx := d.nbx
    nbu := d.nbu
    ng := d.ng
    ns := d.ns
    nbxe := d.nbxe
    nbue := d.nbue
    nge := d.nge }

/-- OCP_QP_DIM_REDUCE_EQ_DOF computes the sizes required above (the horizon of the destination object is the
one it was created with) -/
theorem dimReduce_redDim (d r : Dims) (hN : (dimReduce d r).N = d.N) : RedDim (qpDimOf d) (qpDimOf (dimReduce d r)) := by
  have h := dimReduce_spec d r
  refine ⟨hN, fun k hk => ?_, ?_, fun k hk h0 => ?_, ?_, fun k hk h0 => ?_, fun k hk => ?_, fun k hk => ?_⟩
  · have := (h k hk).1; simp only [qpDimOf]; omega
  · have := (h 0 (Nat.zero_le _)).2.1; simp only [qpDimOf]; simp only [if_true] at this; omega
  · have := (h k hk).2.1; simp only [qpDimOf]; simp only [if_neg h0] at this; omega
  · obtain ⟨-, -, a, b, c, -⟩ := h 0 (Nat.zero_le _)
    simp only [qpDimOf]; simp only [if_true] at b; omega
  · obtain ⟨-, -, a, b, c, -⟩ := h k hk
    simp only [qpDimOf]; simp only [if_neg h0] at b; omega
  · exact (h k hk).2.2.2.2.2.2.2.1
  · exact (h k hk).2.2.2.2.2.2.2.2.1

theorem dimReduce_N (d r : Dims) : (dimReduce d r).N = r.N := by
  unfold dimReduce loopFrom
  refine loop_inv (fun _ (q : Dims) => q.N = r.N) _ _ _ rfl ?_
  intro k s hk h; exact h

end

/-! ### examples -/

/-- one stage with a fixed state: two inputs (the first bounded), state `x0` fixed; terminal stage with one
general constraint -/
def exFDims : Dims :=
  { N := 1, nx := fun _ => 1, nu := fun k => if k = 0 then 2 else 0, nb := fun k => if k = 0 then 2 else 0,
    nbx := fun k => if k = 0 then 1 else 0, nbu := fun k => if k = 0 then 1 else 0, ng := fun k => if k = 1 then 1 else 0,
    ns := fun _ => 0, nbxe := fun k => if k = 0 then 1 else 0, nbue := fun _ => 0, nge := fun _ => 0 }
def exFZero : Dims :=
  { N := 1, nx := fun _ => 0, nu := fun _ => 0, nb := fun _ => 0, nbx := fun _ => 0, nbu := fun _ => 0, ng := fun _ => 0,
    ns := fun _ => 0, nbxe := fun _ => 0, nbue := fun _ => 0, nge := fun _ => 0 }

def exFQp : OcpQp ℚ where
  dim := qpDimOf exFDims
  BAbt := fun _ i _ => i + 1
  RSQrq := fun _ i j => if i = j then 2 else 0
  DCt := fun _ _ _ => 1
  b := fun _ _ => 1
  rqz := fun _ i => i
  d := fun k j => if k = 0 then (if j = 0 then -1 else if j = 1 then 3 else if j = 2 then -1 else -3)
    else (if j = 0 then 0 else -9)
  d_mask := fun _ _ => 1
  m := fun _ _ => 0
  Z := fun _ _ => 1
  idxb := fun _ j => if j = 0 then 0 else 2
  idxs_rev := fun _ _ => -1
  idxe := fun _ _ => 1
  diag_H_flag := fun _ => 0

def exFRed0 : OcpQp ℚ := { exFQp with dim := qpDimOf (dimReduce exFDims exFZero) }
def exFWs : RedWs ℚ := ⟨fun _ => 7, fun _ => 7, fun _ => 7, fun _ => 7, fun _ => 7⟩
def exFSol : Sol ℚ := ⟨fun _ _ => 0, fun _ _ => 0, fun _ _ => 0, fun _ _ => 0⟩

theorem exF_dim : RedDim exFQp.dim exFRed0.dim := dimReduce_redDim exFDims exFZero (by rw [dimReduce_N]; rfl)

theorem stage01 {N k : ℕ} (hN : N = 1) (hk : k ≤ N) : k = 0 ∨ k = 1 := by omega

theorem exF_eq : EqOk exFQp := by
  refine ⟨fun k hk => ?_, fun k hk => ?_, by decide, fun k e hk he => ?_, fun k e hk he => ?_, fun e h1 h2 => ?_,
    fun k e e' hk he he' h => ?_, fun k e e' hk he he' h => ?_⟩
  · rcases stage01 rfl hk with rfl | rfl <;> decide
  · rcases stage01 rfl hk with rfl | rfl <;> decide
  · rcases stage01 rfl hk with rfl | rfl
    · exact (by decide : 1 < 2)
    · exact absurd he (Nat.not_lt_zero _)
  · exact absurd he (Nat.not_lt_zero _)
  · exact (by decide : 2 ≤ 2 ∧ 2 < 2 + 1)
  · rcases stage01 rfl hk with rfl | rfl
    · have h1 : e < 1 := he
      have h2 : e' < 1 := he'
      omega
    · exact absurd he (Nat.not_lt_zero _)
  · rcases stage01 rfl hk with rfl | rfl
    · have h1 : e < 1 := he
      have h2 : e' < 1 := he'
      omega
    · exact absurd he (Nat.not_lt_zero _)

theorem exF_wf : exFQp.WF := by
  refine ⟨fun k j hk hj => ?_, fun k j hk hj => Or.inl rfl⟩
  rcases stage01 rfl hk with rfl | rfl
  · have h1 : j < 2 := hj
    rcases (by omega : j = 0 ∨ j = 1) with rfl | rfl <;> decide
  · exact absurd hj (Nat.not_lt_zero _)

theorem exF_aligned : Aligned exFQp := by
  intro k j hk hj hkj i hi e he
  rcases stage01 rfl hk with rfl | rfl
  · have h1 : j < 2 := hj
    rcases (by omega : j = 0 ∨ j = 1) with rfl | rfl
    · have h2 : i ≤ 0 := hi
      have h3 : i = 0 := by omega
      subst h3
      exact (by decide : (2 : ℕ) ≠ 0)
    · exact absurd rfl (hkj 0 (by decide))
  · exact absurd hj (Nat.not_lt_zero _)

theorem exF_tight : Tight exFQp := by
  intro k e hk he
  rcases stage01 rfl hk with rfl | rfl
  · exact ⟨show exFQp.d 0 (2 + 0 + 1) = - exFQp.d 0 1 by decide +kernel, rfl, rfl, rfl⟩
  · exact absurd he (Nat.not_lt_zero _)

/-- the hypotheses of C38, C40 and C54 are met by a concrete problem; the reduced problem and a restored
solution, computed -/
example : (redQp redArgDefault exFQp exFRed0 exFWs).1.dim.nx 0 = 0 ∧ (redQp redArgDefault exFQp exFRed0 exFWs).1.dim.nu 0 = 2 ∧
    (redQp redArgDefault exFQp exFRed0 exFWs).1.b 0 0 = 10 ∧ (redQp redArgDefault exFQp exFRed0 exFWs).1.idxb 0 0 = 0 ∧
    (redQp redArgDefault exFQp exFRed0 exFWs).1.BAbt 0 1 0 = 2 := by decide +kernel
example : (restoreSol redArgDefault exFQp exFRed0.dim exFSol exFSol exFWs).1.ux 0 2 = 3 ∧
    (restoreSol redArgDefault exFQp exFRed0.dim exFSol exFSol exFWs).1.lam 0 1 = 8 := by decide +kernel
example : Reduced exFQp (redQp redArgDefault exFQp exFRed0 exFWs).1 := redQp_reduced exF_eq _ _ exF_dim _
example : MaskedLam exFQp (restoreSol redArgDefault exFQp exFRed0.dim exFSol exFSol exFWs).1 := by
  intro k j hk hj; exact one_mul _
/-- the restored point has the fixed value and the reduced point the same other values -/
example : AtFixed exFQp exFQp.d (restoreSol redArgDefault exFQp exFRed0.dim exFSol exFSol exFWs).1.ux :=
  (restore_values exF_eq exF_wf redArgDefault ⟨rfl, rfl, rfl⟩ _ exF_dim _ _ _).1

/-- the reduced problem of the example and its solution -/
def exFRed : OcpQp ℚ := (redQp redArgDefault exFQp exFRed0 exFWs).1
def exFOpt : Sol ℚ where
  ux := fun k i => if k = 0 then (if i = 0 then -1 else -37 / 10) else 8 / 5
  pi := fun _ _ => 16 / 5
  lam := fun k j => if k = 0 ∧ j = 0 then 6 / 5 else 0
  t := fun k j => if k = 0 then (if j = 0 then 0 else 2) else (if j = 0 then 8 / 5 else 37 / 5)

theorem exFRed_convex : (view exFRed).Convex := by
  intro p
  rw [UserQp.quad]
  apply sum_nonneg
  intro k hk
  have : k = 0 ∨ k = 1 := by have := mem_range.mp hk; have : (view exFRed).N = 1 := rfl; omega
  rcases this with rfl | rfl
  · have h1 : (view exFRed).nu 0 = 2 := rfl
    have h2 : (view exFRed).nx 0 = 0 := rfl
    have h3 : (view exFRed).ns 0 = 0 := rfl
    have h4 : (view exFRed).R 0 0 0 = 2 := by decide +kernel
    have h5 : (view exFRed).R 0 1 0 = 0 := by decide +kernel
    have h6 : (view exFRed).R 0 1 1 = 2 := by decide +kernel
    simp only [UserQp.stageQuad, h1, h2, h3, sum_range_succ, range_zero, sum_empty, UserQp.sym]
    norm_num [h4, h5, h6]
    nlinarith [mul_self_nonneg (p.u 0 0), mul_self_nonneg (p.u 0 1)]
  · have h1 : (view exFRed).nu 1 = 0 := rfl
    have h2 : (view exFRed).nx 1 = 1 := rfl
    have h3 : (view exFRed).ns 1 = 0 := rfl
    have h4 : (view exFRed).Q 1 0 0 = 2 := by decide +kernel
    simp only [UserQp.stageQuad, h1, h2, h3, sum_range_one, range_zero, sum_empty, UserQp.sym, h4, le_refl, if_true]
    nlinarith [mul_self_nonneg (p.x 1 0)]

theorem exFRes_zero :
    (∀ k, k ≤ 1 → ∀ i, i < exFRed.dim.nu k + exFRed.dim.nx k + 2 * exFRed.dim.ns k →
      (resCompute exFRed exFOpt exRes exWs).res_g k i = 0) ∧
    (∀ k, k < 1 → ∀ i, i < exFRed.dim.nx (k + 1) → (resCompute exFRed exFOpt exRes exWs).res_b k i = 0) ∧
    (∀ k, k ≤ 1 → ∀ j, j < 2 * exFRed.dim.nb k + 2 * exFRed.dim.ng k + 2 * exFRed.dim.ns k →
      (resCompute exFRed exFOpt exRes exWs).res_d k j = 0 ∧ (resCompute exFRed exFOpt exRes exWs).res_m k j = 0 ∧
      exFRed.m k j = 0 ∧ (exFRed.d_mask k j = 0 ∨ exFRed.d_mask k j = 1) ∧ 0 ≤ exFOpt.lam k j ∧ 0 ≤ exFOpt.t k j) := by
  decide +kernel

theorem exFRed_optimal : (view exFRed).IsOptimal (ptOf exFRed.dim exFOpt.ux) :=
  res_zero_optimal exFRed (red_wf exF_eq (redQp_reduced exF_eq _ _ exF_dim _) exF_wf exF_aligned)
    (fun k j hk hj => (exFRes_zero.2.2 k hk j hj).2.2.2.1) exFRed_convex exFOpt exRes exWs
    (by intro h; cases h)
    (fun k i hk hi => exFRes_zero.1 k hk i hi) (fun k i hk hi => exFRes_zero.2.1 k hk i hi)
    (fun k j hk hj => (exFRes_zero.2.2 k hk j hj).1)
    (fun k j hk hj => ⟨(exFRes_zero.2.2 k hk j hj).2.1, (exFRes_zero.2.2 k hk j hj).2.2.1⟩)
    (fun k j hk hj _ => (exFRes_zero.2.2 k hk j hj).2.2.2.2)

/-- the restored point `u0 = (-1, -3.7)`, `x0 = 3`, `x1 = 1.6` is the optimum of the original problem -/
example : (view exFQp).IsOptimal (ptOf exFQp.dim
    (restoreSol redArgDefault exFQp exFRed.dim exFOpt exFSol exFWs).1.ux) :=
  restore_optimal exF_eq exF_wf exF_aligned exF_tight redArgDefault ⟨rfl, rfl, rfl⟩ exFRed0 exF_dim exFWs exFWs exFOpt exFSol
    exFRed_optimal

/-- `exFQp` with the first input fixed instead of the state, and the second bounded: the remaining box refers
to a variable that precedes nothing, and the index it gets is wrong -/
def exBadDims : Dims :=
  { N := 0, nx := fun _ => 0, nu := fun _ => 3, nb := fun _ => 2, nbx := fun _ => 0, nbu := fun _ => 2, ng := fun _ => 0,
    ns := fun _ => 0, nbxe := fun _ => 0, nbue := fun _ => 1, nge := fun _ => 0 }
def exBadQp : OcpQp ℚ :=
  { exFQp with
    dim := qpDimOf exBadDims
    d := fun _ j => if j = 0 then 5 else if j = 1 then -1 else if j = 2 then -5 else -1
    idxb := fun _ j => j
    idxe := fun _ _ => 0 }
def exBadRed0 : OcpQp ℚ := { exBadQp with dim := qpDimOf (dimReduce exBadDims { exFZero with N := 0 }) }

theorem exBad_eq : EqOk exBadQp := by
  refine ⟨fun k hk => rfl, fun k hk => (by decide : 1 ≤ 2), by decide, fun k e hk he => (by decide : 0 < 2),
    fun k e hk he => (by decide : 0 < 3), fun e h1 h2 => ?_, fun k e e' hk he he' h => ?_, fun k e e' hk he he' h => ?_⟩
  · have a : 1 ≤ e := h1
    have b : e < 1 + 0 := h2
    omega
  all_goals
    have hk0 : k = 0 := Nat.le_zero.mp hk
    subst hk0
    have a : e < 1 := he
    have b : e' < 1 := he'
    omega

/-- **C39 (failure).**  A problem with three inputs, the first fixed to 5, the second bounded by [-1,1]: in the
reduced problem (two inputs) the bound `[-1,1]` is on the *third* input, not on the second.  The point
`u = (5, 7, 0)` violates the bound of the original problem while the corresponding reduced point `(7, 0)`
is feasible; so a solver of the reduced problem may return an infeasible point. -/
theorem red_box_index_wrong :
    let red := (redQp redArgDefault exBadQp exBadRed0 exFWs).1
    let v : ℕ → Vec ℚ := fun _ i => if i = 0 then 5 else if i = 1 then 7 else 0
    let w : ℕ → Vec ℚ := fun _ i => if i = 0 then 7 else 0
    EqOk exBadQp ∧ RedDim exBadQp.dim exBadRed0.dim ∧ Tight exBadQp ∧ AtFixed exBadQp exBadQp.d v ∧
    SameKept exBadQp red.dim v w ∧ KeptBox exBadQp 0 1 ∧
    red.idxb 0 (newBox exBadQp 0 1) = 1 ∧ newPos exBadQp 0 (exBadQp.idxb 0 1) = 0 ∧
    (view red).Feasible (ptOf red.dim w) ∧ ¬ (view exBadQp).Feasible (ptOf exBadQp.dim v) := by
  intro red v w
  refine ⟨exBad_eq, dimReduce_redDim _ _ rfl, ?_, ?_, ?_, by decide, by decide +kernel, by decide, ?_, ?_⟩
  · intro k e hk he
    have hk0 : k = 0 := Nat.le_zero.mp hk
    subst hk0
    exact ⟨show exBadQp.d 0 (2 + 0 + 0) = - exBadQp.d 0 0 by decide +kernel, rfl, rfl, rfl⟩
  · intro k e hk he
    have hk0 : k = 0 := Nat.le_zero.mp hk
    subst hk0
    rfl
  · refine ⟨fun k j hk hj hkj => ?_, fun k s hk hs => absurd hs (Nat.not_lt_zero _)⟩
    have hk0 : k = 0 := Nat.le_zero.mp hk
    subst hk0
    have hj : j < 3 := hj
    rcases (by omega : j = 0 ∨ j = 1 ∨ j = 2) with rfl | rfl | rfl
    · exact absurd rfl (hkj 0 (by decide))
    · decide +kernel
    · decide +kernel
  · refine ⟨fun k i hk hi => absurd hk (Nat.not_lt_zero _), fun k j hk hj _ => ?_, fun k j hk hj _ => ?_,
      fun k i hk hi => ?_, fun k i hk hi => ?_⟩
    · have hk0 : k = 0 := Nat.le_zero.mp hk
      subst hk0
      have hj : j < 1 := hj
      have : j = 0 := by omega
      subst this; decide +kernel
    · have hk0 : k = 0 := Nat.le_zero.mp hk
      subst hk0
      have hj : j < 1 := hj
      have : j = 0 := by omega
      subst this; decide +kernel
    all_goals
      have hk0 : k = 0 := Nat.le_zero.mp hk
      subst hk0
      exact absurd hi (Nat.not_lt_zero _)
  · intro F
    exact absurd (F.up 0 1 (Nat.zero_le _) (by decide : 1 < 2) (by decide +kernel)) (by decide +kernel)

end Hpipm
