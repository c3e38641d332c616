/-
What the parts of the dense KKT solver compute (intermediate results): condensed Hessian and gradient,
and the tail of the step routines.
-/
import Verif.DenseLin
import Verif.DenseView
import Verif.KktStep

namespace Hpipm
open Finset
set_option linter.unusedSectionVars false

section
variable {K : Type*} [Field K] [LinearOrder K] [IsStrictOrderedRing K]

/-- condensed Hessian with `e` on the diagonal -/
def dM (qp : DenseQp K) (reg : K) (G : Vec K) (e : K) : Mat K := kH (ov qp) (fun _ _ => e) reg (fun _ => G) 0

/-- condensed gradient -/
def dgr (qp : DenseQp K) (reg : K) (G g : Vec K) : Vec K := kg (ov qp) reg (fun _ => G) (fun _ => g) 0

theorem dM_sym (qp : DenseQp K) (reg : K) (G : Vec K) (e : K) (i j : ℕ) : dM qp reg G e i j = dM qp reg G e j i :=
  kH_sym _ _ _ _ _ _ _

theorem dM_add (qp : DenseQp K) (reg : K) (G : Vec K) (e : K) (i j : ℕ) :
    dM qp reg G e i j = dM qp reg G 0 i j + if i = j then e else 0 := by
  unfold dM kH
  have : (if i = j then (0 : K) else 0) = 0 := by split_ifs <;> rfl
  rw [this]; ring

/-- slack parts of a state under elimination -/
structure DSlk (qp : DenseQp K) (reg : K) (G g : Vec K) (Zs v : Vec K) : Prop where
  Zs : ∀ i, i < 2 * qp.dim.ns → Zs i = kZs (ov qp) reg (fun _ => G) 0 i
  v : ∀ i, i < 2 * qp.dim.ns → v (qp.dim.nv + i) = kRh (ov qp) (fun _ => g) 0 i

theorem dCond_val (qp : DenseQp K) (hwf : qp.WF) (reg : K) (G g : Vec K) (st : DKkt K) :
    ∃ z u t0 t1 t2 t3, dCond qp reg G g st =
        { st with
          Zs := z
          v := u
          t0 := t0
          t1 := t1
          t2 := t2
          t3 := t3 } ∧ DSlk qp reg G g z u ∧
      (∀ j, j < qp.dim.nb + qp.dim.ng → t0 j = kTh (ov qp) reg (fun _ => G) 0 j) ∧
      (∀ j, j < qp.dim.nb + qp.dim.ng → t1 j = kVt (ov qp) reg (fun _ => G) (fun _ => g) 0 j) := by
  have hir := hwf.soft
  unfold dCond
  by_cases hs : qp.dim.ns > 0
  · simp only [if_pos hs]
    obtain ⟨h1, h2, h3, h4, h5⟩ := condSlacksFS_val (qp.dim.nb + qp.dim.ng) qp.dim.ns qp.dim.nv
      qp.idxs_rev reg qp.Z qp.gz G g
      { Zs := st.Zs, du := st.v, t0 := st.t0, t1 := st.t1, t2 := st.t2, t3 := st.t3 } hir
    refine ⟨_, _, _, _, _, _, rfl, ⟨h1, h2⟩, fun j hj => ?_, fun j hj => ?_⟩
    · rw [h4 j hj]
      exact congrArg₂ (· + ·) (slkTh_congr (Z' := kZs (ov qp) reg (fun _ => G) 0) hir h1 0 (by omega) _ j hj)
        (slkTh_congr (Z' := kZs (ov qp) reg (fun _ => G) 0) hir h1 _ (le_refl _) _ j hj)
    · rw [h5 j hj]
      exact congrArg₂ (· - ·) (slkVt_congr (Z' := kZs (ov qp) reg (fun _ => G) 0) (R' := kRh (ov qp) (fun _ => g) 0) hir h1 h2 0 (by omega) _ _ j hj)
        (slkVt_congr (Z' := kZs (ov qp) reg (fun _ => G) 0) (R' := kRh (ov qp) (fun _ => g) 0) hir h1 h2 _ (le_refl _) _ _ j hj)
  · have hir' : ∀ j, j < qp.dim.nb + qp.dim.ng → qp.idxs_rev j = -1 := by
      intro j hj
      rcases hir j hj with h | h
      · exact h
      · omega
    have hth : ∀ j, j < qp.dim.nb + qp.dim.ng → kTh (ov qp) reg (fun _ => G) 0 j = G j + G (qp.dim.nb + qp.dim.ng + j) := by
      intro j hj
      simp only [kTh, slkTh]
      rw [show (ov qp).idxs_rev 0 j = -1 from hir' j hj]
      simp; rfl
    have hvt : ∀ j, j < qp.dim.nb + qp.dim.ng → kVt (ov qp) reg (fun _ => G) (fun _ => g) 0 j = g j - g (qp.dim.nb + qp.dim.ng + j) := by
      intro j hj
      simp only [kVt, kVtZ, slkVt]
      rw [show (ov qp).idxs_rev 0 j = -1 from hir' j hj]
      simp; rfl
    simp only [if_neg hs]
    by_cases hn : qp.dim.nb + qp.dim.ng > 0
    · simp only [if_pos hn]
      refine ⟨st.Zs, st.v, _, _, st.t2, st.t3, rfl, ⟨fun i hi => by omega, fun i hi => by omega⟩, fun j hj => ?_, fun j hj => ?_⟩
      · rw [axpy_in (by omega), hth j hj]; simp
      · rw [axpy_in (by omega), hvt j hj]; simp; ring
    · simp only [if_neg hn]
      exact ⟨st.Zs, st.v, st.t0, st.t1, st.t2, st.t3, rfl, ⟨fun i hi => by omega, fun i hi => by omega⟩,
        fun j hj => by omega, fun j hj => by omega⟩

/-- contribution of the box constraints to the Hessian -/
def dBox (qp : DenseQp K) (reg : K) (G : Vec K) (i j : ℕ) : K :=
  ∑ l ∈ range qp.dim.nb, if qp.idxb l = i ∧ qp.idxb l = j then kTh (ov qp) reg (fun _ => G) 0 l else 0

theorem dBox_add (qp : DenseQp K) (reg : K) (G : Vec K) (t0 : Vec K) (L : Mat K)
    (h : ∀ j, j < qp.dim.nb + qp.dim.ng → t0 j = kTh (ov qp) reg (fun _ => G) 0 j) (i j : ℕ) :
    (if qp.dim.nb > 0 then diaad_sp qp.dim.nb 1 t0 0 qp.idxb L 0 0 else L) i j = L i j + dBox qp reg G i j := by
  unfold dBox
  by_cases hn : qp.dim.nb > 0
  · simp only [if_pos hn, diaad_sp, zero_add, one_mul]
    congr 1
    apply sum_congr rfl
    intro l hl
    rw [h l (by have := mem_range.mp hl; omega)]
  · have : qp.dim.nb = 0 := by omega
    simp only [this, gt_iff_lt, lt_irrefl, if_false, range_zero, sum_empty, add_zero]

/-- gradient after adding the constraint terms -/
theorem dgr_add (qp : DenseQp K) (reg : K) (G g t1 lv : Vec K)
    (h : ∀ j, j < qp.dim.nb + qp.dim.ng → t1 j = kVt (ov qp) reg (fun _ => G) (fun _ => g) 0 j) (i : ℕ) (hi : i < qp.dim.nv)
    (hl : lv i = qp.gz i) :
    (let lv := if qp.dim.nb > 0 then vecad_sp qp.dim.nb 1 t1 0 qp.idxb lv 0 else lv
     if qp.dim.ng > 0 then gemv_n qp.dim.nv qp.dim.ng 1 qp.Ct 0 0 t1 qp.dim.nb 1 lv 0 lv 0 else lv) i = dgr qp reg G g i := by
  have e1 : (if qp.dim.nb > 0 then vecad_sp qp.dim.nb 1 t1 0 qp.idxb lv 0 else lv) i =
      qp.gz i + ∑ l ∈ range qp.dim.nb, if qp.idxb l = i then kVt (ov qp) reg (fun _ => G) (fun _ => g) 0 l else 0 := by
    by_cases hn : qp.dim.nb > 0
    · simp only [if_pos hn, vecad_sp, zero_add, one_mul, hl]
      congr 1
      apply sum_congr rfl
      intro l hl
      rw [h l (by have := mem_range.mp hl; omega)]
    · have : qp.dim.nb = 0 := by omega
      simp only [this, gt_iff_lt, lt_irrefl, if_false, range_zero, sum_empty, add_zero, hl]
  have e2 : dgr qp reg G g i = qp.gz i + ((∑ l ∈ range qp.dim.nb, if qp.idxb l = i then kVt (ov qp) reg (fun _ => G) (fun _ => g) 0 l else 0)
      + ∑ l ∈ range qp.dim.ng, qp.Ct i l * kVt (ov qp) reg (fun _ => G) (fun _ => g) 0 (qp.dim.nb + l)) := rfl
  rw [e2, ← add_assoc, ← e1]
  dsimp only
  by_cases hn : qp.dim.ng > 0
  · rw [if_pos hn, gemv_n_in (by omega)]
    simp only [Nat.sub_zero, zero_add, one_mul]
    congr 1
    exact sum_congr rfl (fun l hl => by rw [h _ (by have := mem_range.mp hl; omega)])
  · have : qp.dim.ng = 0 := by omega
    rw [if_neg hn, this, range_zero, sum_empty, add_zero]

theorem dBar_val (qp : DenseQp K) (hwf : qp.WF) (reg : K) (G g : Vec K) (st : DKkt K) :
    ∃ L lv C z u t0 t1 t2 t3, dBar qp reg G g st =
        { st with
          Lv := L
          lv := lv
          Ctx := C
          Zs := z
          v := u
          t0 := t0
          t1 := t1
          t2 := t2
          t3 := t3 } ∧ DSlk qp reg G g z u ∧
      (∀ i j, L i j = st.Lv i j + dBox qp reg G i j) ∧
      (∀ i, i < qp.dim.nv → lv i = dgr qp reg G g i) ∧
      (∀ i j, i < qp.dim.nv → j < qp.dim.ng → C i j = qp.Ct i j * kTh (ov qp) reg (fun _ => G) 0 (qp.dim.nb + j)) := by
  obtain ⟨z, u, t0, t1, t2, t3, he, h1, h2, h3⟩ := dCond_val qp hwf reg G g { st with lv := veccp qp.dim.nv qp.gz 0 st.lv 0 }
  unfold dBar
  simp only [he]
  refine ⟨_, _, _, _, _, _, _, _, _, rfl, h1, dBox_add qp reg G t0 _ h2, fun i hi => ?_, fun i j hi hj => ?_⟩
  · exact dgr_add qp reg G g t1 _ h3 i hi (by rw [veccp_in (by omega)]; simp)
  · rw [if_pos (by omega), gemm_nd, if_pos (by omega), h2 _ (by omega)]; simp

theorem dM_split (qp : DenseQp K) (reg : K) (G : Vec K) (e : K) (i j : ℕ) (hij : j ≤ i) : dM qp reg G e i j =
    qp.Hv i j + (if i = j then e else 0) + dBox qp reg G i j
      + ∑ l ∈ range qp.dim.ng, qp.Ct i l * kTh (ov qp) reg (fun _ => G) 0 (qp.dim.nb + l) * qp.Ct j l := by
  have : symL qp.Hv 0 0 i j = qp.Hv i j := by simp [symL, hij]
  rw [← this]; rfl

/-- the barrier terms turn `H + e I` into the condensed Hessian -/
theorem dBarH_val (qp : DenseQp K) (hwf : qp.WF) (reg : K) (G g : Vec K) (e : K) (st : DKkt K)
    (hH : ∀ i j, i < qp.dim.nv → j ≤ i → st.Lv i j = qp.Hv i j + if i = j then e else 0) :
    ∃ L lv C z u t0 t1 t2 t3, dBarH qp reg G g st =
        { st with
          Lv := L
          lv := lv
          Ctx := C
          Zs := z
          v := u
          t0 := t0
          t1 := t1
          t2 := t2
          t3 := t3 } ∧ DSlk qp reg G g z u ∧
      (∀ i, i < qp.dim.nv → lv i = dgr qp reg G g i) ∧
      (∀ i j, i < qp.dim.nv → j ≤ i → L i j = dM qp reg G e i j) := by
  obtain ⟨L, lv, C, z, u, t0, t1, t2, t3, he, h1, h2, h3, h4⟩ := dBar_val qp hwf reg G g st
  unfold dBarH
  simp only [he]
  refine ⟨_, lv, C, z, u, t0, t1, t2, t3, rfl, h1, h3, fun i j hi hj => ?_⟩
  rw [dM_split qp reg G e i j hj, ← hH i j hi hj, ← h2 i j]
  by_cases hn : qp.dim.ng > 0
  · rw [if_pos hn, syrk_ln_mn, if_pos (by omega)]
    simp only [Nat.sub_zero, zero_add, one_mul]
    congr 1
    exact sum_congr rfl (fun l hl => by rw [h4 i l hi (mem_range.mp hl)])
  · have : qp.dim.ng = 0 := by omega
    rw [if_neg hn, this, range_zero, sum_empty, add_zero]

/-! ### the tail -/

/-- the step as a primal-dual point -/
def dstepOf (st : DKkt K) : DqSol K where
  v := st.v
  pi := st.pi
  lam := st.lam
  t := st.t

/-- the multipliers and slacks of the core workspace are those of the current iterate (in C: the flat vectors
`cws->lam`, `cws->t` are the memory of the solution object, x_dense_qp_ipm.c:2300-2312), all slacks nonzero -/
structure DCoreOf (qp : DenseQp K) (sol : DqSol K) (c : Core K) : Prop where
  nc : c.nc = qp.dim.nct
  lam : ∀ j, j < qp.dim.nct → c.lam j = sol.lam j
  t : ∀ j, j < qp.dim.nct → c.t j = sol.t j
  pos : ∀ j, j < qp.dim.nct → sol.t j ≠ 0

/-- core quantities used by a step -/
structure DCoreStep (qp : DenseQp K) (sol : DqSol K) (c : Core K) : Prop where
  of : DCoreOf qp sol c
  ti : ∀ j, j < qp.dim.nct → c.t_inv j = 1 / sol.t j
  G : ∀ j, j < qp.dim.nct → c.Gamma j = 1 / sol.t j * sol.lam j
  g : ∀ j, j < qp.dim.nct → c.gamma j = 1 / sol.t j * (qp.m j - sol.lam j * qp.d j)

theorem dcoreStep (qp : DenseQp K) (sol : DqSol K) (c : Core K) (hc : DCoreOf qp sol c) (ht : c.t_lam_min ≠ 1) :
    DCoreStep qp sol (if qp.dim.nb + qp.dim.ng + qp.dim.ns > 0 then computeGammaGamma qp.d qp.m c else c) := by
  by_cases h : qp.dim.nb + qp.dim.ng + qp.dim.ns > 0
  · rw [if_pos h, computeGammaGamma_val _ _ _ ht]
    have hlt : ∀ j, j < qp.dim.nct → j < c.nc := fun j hj => by rw [hc.nc]; exact hj
    refine ⟨⟨hc.nc, hc.lam, hc.t, hc.pos⟩, fun j hj => ?_, fun j hj => ?_, fun j hj => ?_⟩
    · simp only [mix_lt _ _ (hlt j hj), hc.t j hj]
    · simp only [mix_lt _ _ (hlt j hj), hc.t j hj, hc.lam j hj]
    · simp only [mix_lt _ _ (hlt j hj), hc.t j hj, hc.lam j hj]
  · rw [if_neg h]
    have : qp.dim.nct = 0 := by unfold DDim.nct; omega
    refine ⟨hc, fun j hj => ?_, fun j hj => ?_, fun j hj => ?_⟩ <;> omega

/-- a state of the dense solver as a state of the single stage OCP solver -/
def ost (st : DKkt K) : KktSt K where
  BAbt := fun _ _ _ => 0
  RSQrq := fun _ _ _ => 0
  L := fun _ _ _ => 0
  P := fun _ _ _ => 0
  Ls := fun _ _ => 0
  AL0 := fun _ _ => 0
  AL1 := fun _ _ => 0
  l := fun _ _ => 0
  Pb := fun _ _ => 0
  Zs := fun _ => st.Zs
  tmpN := fun _ => 0
  t0 := st.t0
  t1 := st.t1
  t2 := st.t2
  t3 := st.t3
  ux := fun _ => st.v
  pi := fun _ _ => 0
  lam := fun _ => st.lam
  t := fun _ => st.t

/-- the step vector `t` before slacks and multipliers -/
def dtail0 (qp : DenseQp K) (st : DKkt K) : Vec K :=
  let n := qp.dim.nb + qp.dim.ng
  let t := vecex_sp qp.dim.nb 1 qp.idxb st.v 0 st.t 0
  let t := gemv_t qp.dim.nv qp.dim.ng 1 qp.Ct 0 0 st.v 0 0 t qp.dim.nb t qp.dim.nb
  vecsc n (-1) (veccp n t 0 t n) n

theorem dkktTail_eq (qp : DenseQp K) (c : Core K) (st : DKkt K) (h : qp.dim.nb + qp.dim.ng + qp.dim.ns > 0) :
    let s := if qp.dim.ns > 0 then expandSlacks (qp.dim.nb + qp.dim.ng) qp.dim.ns qp.dim.nv qp.idxs_rev c.Gamma st.Zs
      (st.v, dtail0 qp st) else (st.v, dtail0 qp st)
    dkktTail qp c st = { st with
      v := s.1
      lam := (computeLamT qp.d qp.m st.lam s.2 c).1
      t := (computeLamT qp.d qp.m st.lam s.2 c).2 } := by
  have e1 : ∀ t : Vec K, (if qp.dim.nb > 0 then vecex_sp qp.dim.nb 1 qp.idxb st.v 0 t 0 else t) =
      vecex_sp qp.dim.nb 1 qp.idxb st.v 0 t 0 := by
    intro t
    by_cases hb : qp.dim.nb > 0
    · rw [if_pos hb]
    · rw [if_neg hb]
      funext i
      rw [vecex_out (by omega)]
  have e2 : ∀ t : Vec K, (if qp.dim.ng > 0 then gemv_t qp.dim.nv qp.dim.ng 1 qp.Ct 0 0 st.v 0 0 t qp.dim.nb t qp.dim.nb else t) =
      gemv_t qp.dim.nv qp.dim.ng 1 qp.Ct 0 0 st.v 0 0 t qp.dim.nb t qp.dim.nb := by
    intro t
    by_cases hb : qp.dim.ng > 0
    · rw [if_pos hb]
    · rw [if_neg hb]
      funext i
      rw [gemv_t_out (by omega)]
  intro s
  unfold dkktTail
  simp only [if_pos h, e1, e2]
  rfl

theorem kktTail_ov (qp : DenseQp K) (c : Core K) (st : DKkt K) :
    let s := if qp.dim.ns > 0 then expandSlacks (qp.dim.nb + qp.dim.ng) qp.dim.ns qp.dim.nv qp.idxs_rev c.Gamma st.Zs
      (st.v, dtail0 qp st) else (st.v, dtail0 qp st)
    (kktTail (ov qp) (fun _ => c.Gamma) c (ost st)).ux 0 = s.1 ∧
    (∃ l t, (∀ j, j < qp.dim.nct → t j = s.2 j) ∧
      (∀ j, (kktTail (ov qp) (fun _ => c.Gamma) c (ost st)).lam 0 j = (computeLamT (stFlat (nct (odim qp.dim)) (fun _ => qp.d) 1)
        (stFlat (nct (odim qp.dim)) (fun _ => qp.m) 1) l t c).1 j) ∧
      (∀ j, (kktTail (ov qp) (fun _ => c.Gamma) c (ost st)).t 0 j = (computeLamT (stFlat (nct (odim qp.dim)) (fun _ => qp.d) 1)
        (stFlat (nct (odim qp.dim)) (fun _ => qp.m) 1) l t c).2 j)) := by
  intro s
  have l1 : ∀ (body : ℕ → KktSt K → KktSt K) (s0 : KktSt K), loop ((ov qp).dim.N + 1) body s0 = body 0 s0 := fun _ _ => rfl
  have hf : ∀ x : ℕ → Vec K, ∀ j, j < qp.dim.nct → stFlat (nct (odim qp.dim)) x 1 j = x 0 j := by
    intro x j hj
    have := stFlat_at (nct (odim qp.dim)) x 1 0 j (by omega) hj
    rwa [show stOff (nct (odim qp.dim)) 0 + j = j by simp [stOff]] at this
  have h0 : ∀ j, stOff (nct (odim qp.dim)) 0 + j = j := by simp [stOff]
  have hN : (ov qp).dim.N + 1 = 1 := rfl
  by_cases hs : qp.dim.ns > 0
  · have hs' : (ov qp).dim.ns 0 > 0 := hs
    have es : s = expandSlacks (qp.dim.nb + qp.dim.ng) qp.dim.ns qp.dim.nv qp.idxs_rev c.Gamma st.Zs
      (st.v, dtail0 qp st) := if_pos hs
    rw [es]
    unfold kktTail
    simp only [l1, if_pos hs', upd_same]
    refine ⟨rfl, _, _, ?_, fun j => congrArg _ (h0 j), fun j => congrArg _ (h0 j)⟩
    intro j hj
    refine (hf _ j hj).trans ?_
    rw [upd_same]
    rfl
  · have hs' : ¬ (ov qp).dim.ns 0 > 0 := hs
    have es : s = (st.v, dtail0 qp st) := if_neg hs
    rw [es]
    unfold kktTail
    simp only [l1, if_neg hs', upd_same]
    refine ⟨rfl, _, _, ?_, fun j => congrArg _ (h0 j), fun j => congrArg _ (h0 j)⟩
    intro j hj
    refine (hf _ j hj).trans ?_
    rw [upd_same]
    rfl

/-- the linear system left to the factorisations: `eg`, `eb` are the errors introduced by regularisation -/
structure DLinSol (qp : DenseQp K) (reg : K) (G g : Vec K) (eg eb : Vec K) (st : DKkt K) : Prop where
  stat : ∀ i, i < qp.dim.nv → ∑ j ∈ range qp.dim.nv, dM qp reg G 0 i j * st.v j + dgr qp reg G g i
    - ∑ k ∈ range qp.dim.ne, qp.A k i * st.pi k = - eg i
  eq : ∀ i, i < qp.dim.ne → qp.b i - ∑ j ∈ range qp.dim.nv, qp.A i j * st.v j = eb i
  slk : DSlk qp reg G g st.Zs st.v

theorem dtail_stepEq (qp : DenseQp K) (hwf : qp.WF) (sol : DqSol K) (c : Core K) (hc : DCoreStep qp sol c) (reg : K)
    (st : DKkt K) (hslk : DSlk qp reg c.Gamma c.gamma st.Zs st.v) :
    StepEq (ov qp) reg (fun _ => c.Gamma) (fun _ => c.gamma) (fun _ => st.v) (osol (dstepOf (dkktTail qp c st))) ∧
    (dkktTail qp c st).pi = st.pi ∧
    (∀ j, j < qp.dim.nct → (dkktTail qp c st).t j = wval (ov qp) (fun _ => (dkktTail qp c st).v) 0 j - qp.d j) := by
  by_cases h : qp.dim.nb + qp.dim.ng + qp.dim.ns > 0
  · have hT := kktTail_ok (ov qp) (ov_wf qp hwf) (fun _ => c.Gamma) c (by
      rw [hc.of.nc]
      rw [show (ov qp).dim.N + 1 = 1 from rfl]
      simp only [stOff, zero_add]
      rfl) (ost st)
    obtain ⟨h1, l, t, h2, h3, h4⟩ := kktTail_ov qp c st
    have he := dkktTail_eq qp c st h
    simp only [] at he h1 h2 h3 h4
    set s := if qp.dim.ns > 0 then expandSlacks (qp.dim.nb + qp.dim.ng) qp.dim.ns qp.dim.nv qp.idxs_rev c.Gamma st.Zs
      (st.v, dtail0 qp st) else (st.v, dtail0 qp st) with hsdef
    have hf : ∀ x : ℕ → Vec K, ∀ j, j < qp.dim.nct → stFlat (nct (odim qp.dim)) x 1 j = x 0 j := by
      intro x j hj
      have := stFlat_at (nct (odim qp.dim)) x 1 0 j (by omega) hj
      rwa [show stOff (nct (odim qp.dim)) 0 + j = j by simp [stOff]] at this
    have h0 : ∀ j, stOff (nct (odim qp.dim)) 0 + j = j := by simp [stOff]
    have hv : (dkktTail qp c st).v = (kktTail (ov qp) (fun _ => c.Gamma) c (ost st)).ux 0 := by rw [he, h1]
    have hlt : ∀ j, j < qp.dim.nct → j < c.nc := fun j hj => by rw [hc.of.nc]; exact hj
    have htt : ∀ j, j < qp.dim.nct → (dkktTail qp c st).t j = (kktTail (ov qp) (fun _ => c.Gamma) c (ost st)).t 0 j := by
      intro j hj
      rw [h4 j, he]
      dsimp only
      rw [(computeLamT_val _ _ _ _ c j).2, (computeLamT_val _ _ _ _ c j).2, if_pos (hlt j hj), if_pos (hlt j hj),
        hf _ j hj, h2 j hj]
    have hll : ∀ j, j < qp.dim.nct → (dkktTail qp c st).lam j = (kktTail (ov qp) (fun _ => c.Gamma) c (ost st)).lam 0 j := by
      intro j hj
      rw [h3 j, he]
      dsimp only
      rw [(computeLamT_val _ _ _ _ c j).1, (computeLamT_val _ _ _ _ c j).1, if_pos (hlt j hj), if_pos (hlt j hj),
        hf _ j hj, hf _ j hj, h2 j hj]
    have hw : ∀ j, wval (ov qp) (kktTail (ov qp) (fun _ => c.Gamma) c (ost st)).ux 0 j =
        wval (ov qp) (fun _ => (dkktTail qp c st).v) 0 j := by
      intro j
      rw [hv]; rfl
    refine ⟨⟨?_, ?_, ?_, ?_⟩, by rw [he], fun j hj => ?_⟩
    · intro k i hk hi
      show (dkktTail qp c st).v i = st.v i
      rw [hv]
      exact hT.uxv 0 i (Nat.zero_le _) hi
    · intro k i hk hi
      show (dkktTail qp c st).v (qp.dim.nv + i) = _
      rw [hv]
      refine (hT.sl 0 i (Nat.zero_le _) hi).trans ?_
      show -(st.Zs i) * (st.v (qp.dim.nv + i) + _) = _
      have hi' : i < qp.dim.ns := hi
      rw [hslk.Zs i (by omega), hslk.v i (by omega)]
      rfl
    · intro k i hk hi
      show (dkktTail qp c st).v (qp.dim.nv + qp.dim.ns + i) = _
      rw [hv]
      refine (hT.su 0 i (Nat.zero_le _) hi).trans ?_
      show -(st.Zs (qp.dim.ns + i)) * (st.v (qp.dim.nv + qp.dim.ns + i) - _) = _
      have hi' : i < qp.dim.ns := hi
      have := hslk.v (qp.dim.ns + i) (by omega)
      rw [← add_assoc] at this
      rw [hslk.Zs _ (by omega), this]
      rfl
    · intro k j hk hj
      show (dkktTail qp c st).lam j = -(c.Gamma j * wval (ov qp) (fun _ => (dkktTail qp c st).v) 0 j + c.gamma j)
      rw [hll j hj, hT.lam 0 j (Nat.zero_le _) hj]
      have e1 : stOff (nct (ov qp).dim) 0 + j = j := h0 j
      rw [e1, hw, hc.ti j hj, hc.of.lam j hj, hc.G j hj, hc.g j hj]
      show -(1 / sol.t j) * (qp.m j + _ - _ * qp.d j) = _
      ring
    · rw [htt j hj, hT.t 0 j (Nat.zero_le _) hj, hw]
      rfl
  · have e : dkktTail qp c st = st := by unfold dkktTail; simp only [if_neg h]
    rw [e]
    have hn : qp.dim.ns = 0 := by omega
    have hc0 : qp.dim.nct = 0 := by unfold DDim.nct; omega
    refine ⟨⟨fun _ _ _ _ => rfl, fun k i _ hi => ?_, fun k i _ hi => ?_, fun k j _ hj => ?_⟩, rfl, fun j hj => by omega⟩
    · have : i < qp.dim.ns := hi
      omega
    · have : i < qp.dim.ns := hi
      omega
    · have : j < qp.dim.nct := hj
      omega

end
end Hpipm
