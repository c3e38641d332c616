import Verif.IpmPos

/-!
# Iterative refinement (C36)

The refinement loop of `OCP_QP_IPM_DELTA_STEP` (x_ocp_qp_ipm.c:2374-2512 and 2614-2738, modelled as `itref`) returns a
step whose Newton residual (`linRes`: OCP_QP_RES_COMPUTE_LIN and OCP_QP_RES_COMPUTE_INF_NORM, specified by C22 and C23)
is not larger than the one it started from.

The rejected correction is subtracted again, but the masks have meanwhile been applied to the step (`sol_step`) instead
of the correction (`sol_itref`), so that entries of masked constraints are not restored; the residual does not see them.
-/
set_option linter.unusedSectionVars false

namespace Hpipm
open Finset

section
variable {K : Type*} [Field K] [LinearOrder K] [IsStrictOrderedRing K]

/-! ### norms depend on the entries only -/

theorem vecnrmInf_congr (n : ℕ) (x y : Vec K) (h : ∀ i, i < n → x i = y i) : vecnrmInf n x 0 = vecnrmInf n y 0 := by
  induction n with
  | zero => rfl
  | succ n ih =>
    have e : ∀ z : Vec K, vecnrmInf (n + 1) z 0 = max (vecnrmInf n z 0) |z (0 + n)| := fun _ => rfl
    rw [e, e, ih (fun i hi => h i (by omega)), h (0 + n) (by omega)]

theorem vecnrmInf_flat (len : ℕ → ℕ) (n : ℕ) (f g : ℕ → Vec K) (h : ∀ k i, k < n → i < len k → f k i = g k i) :
    vecnrmInf (stOff len n) (stFlat len f n) 0 = vecnrmInf (stOff len n) (stFlat len g n) 0 := by
  apply vecnrmInf_congr
  intro p hp
  obtain ⟨k, i, hk, hi, rfl⟩ := stFlat_inv len n p hp
  rw [stFlat_at len f n k i hk hi, stFlat_at len g n k i hk hi, h k i hk hi]

theorem resInfNorm_congr (D : QpDim) (r r' : Res K)
    (hg : ∀ k i, k ≤ D.N → i < nvt D k → r'.res_g k i = r.res_g k i)
    (hb : ∀ k i, k < D.N → i < D.nx (k + 1) → r'.res_b k i = r.res_b k i)
    (hd : ∀ k i, k ≤ D.N → i < nct D k → r'.res_d k i = r.res_d k i)
    (hm : ∀ k i, k ≤ D.N → i < nct D k → r'.res_m k i = r.res_m k i) : resInfNorm D r' = resInfNorm D r := by
  have e1 : ∀ r : Res K, resInfNorm D r = (vecnrmInf (stOff (nvt D) (D.N + 1)) (stFlat (nvt D) r.res_g (D.N + 1)) 0,
      vecnrmInf (stOff (fun k => D.nx (k + 1)) D.N) (stFlat (fun k => D.nx (k + 1)) r.res_b D.N) 0,
      vecnrmInf (stOff (nct D) (D.N + 1)) (stFlat (nct D) r.res_d (D.N + 1)) 0,
      vecnrmInf (stOff (nct D) (D.N + 1)) (stFlat (nct D) r.res_m (D.N + 1)) 0) := by
    intro r
    simp only [resInfNorm]
    have a1 : ∀ n, loop n (fun ii s => s + (D.nu ii + D.nx ii + 2 * D.ns ii)) 0 = stOff (nvt D) n := by
      intro n; induction n with
      | zero => rfl
      | succ n ih => rw [loop_succ, ih]; rfl
    have a2 : ∀ n, loop n (fun ii s => s + D.nx (ii + 1)) 0 = stOff (fun k => D.nx (k + 1)) n := by
      intro n; induction n with
      | zero => rfl
      | succ n ih => rw [loop_succ, ih]; rfl
    have a3 : ∀ n, loop n (fun ii s => s + (2 * D.nb ii + 2 * D.ng ii + 2 * D.ns ii)) 0 = stOff (nct D) n := by
      intro n; induction n with
      | zero => rfl
      | succ n ih => rw [loop_succ, ih]; rfl
    rw [a1, a2, a3]; rfl
  rw [e1, e1, vecnrmInf_flat _ _ _ _ (fun k i hk hi => hg k i (by omega) hi), vecnrmInf_flat _ _ _ _ hb,
    vecnrmInf_flat _ _ _ _ (fun k i hk hi => hd k i (by omega) hi), vecnrmInf_flat _ _ _ _ (fun k i hk hi => hm k i (by omega) hi)]

/-! ### what the Newton residual depends on -/

variable (E : Env K)

/-- two states with the same Newton system whose steps agree, up to the slack and multiplier entries of masked
constraints -/
structure SameLin (s s' : Ipm K) : Prop where
  ux : ∀ k i, k ≤ E.qp.dim.N → i < nvt E.qp.dim k → s'.kkt.ux k i = s.kkt.ux k i
  pi : ∀ k i, k < E.qp.dim.N → i < net E.qp.dim k → s'.kkt.pi k i = s.kkt.pi k i
  lam : ∀ k j, k ≤ E.qp.dim.N → j < nct E.qp.dim k → E.qp.d_mask k j * s'.kkt.lam k j = E.qp.d_mask k j * s.kkt.lam k j
  t : ∀ k j, k ≤ E.qp.dim.N → j < nct E.qp.dim k → E.qp.d_mask k j * s'.kkt.t k j = E.qp.d_mask k j * s.kkt.t k j
  mat : MK E s s'
  keep : Keep s s'
  rm : s'.core.res_m = s.core.res_m

theorem SameLin.refl (s : Ipm K) : SameLin E s s :=
  ⟨fun _ _ _ _ => rfl, fun _ _ _ _ => rfl, fun _ _ _ _ => rfl, fun _ _ _ _ => rfl, MKeep.refl _ _, Keep.refl s, rfl⟩

theorem SameLin.trans {a b c : Ipm K} (h : SameLin E a b) (h' : SameLin E b c) : SameLin E a c :=
  ⟨fun k i hk hi => (h'.ux k i hk hi).trans (h.ux k i hk hi), fun k i hk hi => (h'.pi k i hk hi).trans (h.pi k i hk hi),
   fun k i hk hi => (h'.lam k i hk hi).trans (h.lam k i hk hi), fun k i hk hi => (h'.t k i hk hi).trans (h.t k i hk hi),
   h.mat.trans h'.mat, h.keep.trans h'.keep, h'.rm.trans h.rm⟩

theorem qpStep_mask (s : Ipm K) : (qpStep E s).d_mask = E.qp.d_mask := by unfold qpStep qpNow; split <;> rfl

theorem qpStep_wf (hwf : E.qp.WF) (s : Ipm K) : (qpStep E s).WF := by
  unfold qpStep qpNow; split <;> exact hwf

theorem qpStep_ok (s : Ipm K) (ws : ResWs K) (h : ws.Ok E.qp) : ws.Ok (qpStep E s) := by
  unfold ResWs.Ok MaskOk at *
  rw [qpStep_mask, qpStep_dim]; exact h

/-- the residuals as functions of the step -/
theorem linRes_congr (hwf : E.qp.WF) {s s' : Ipm K} (hws : s.rws.Ok E.qp) (h : SameLin E s s') :
    (linRes E s').2 = (linRes E s).2 := by
  have hws' : s'.rws.Ok E.qp := by rw [h.keep.rws]; exact hws
  have v := resComputeLin_val (qpStep E s) (qpStep_wf E hwf s) (solOf E.qp.dim s.core) (stepOf s.kkt) s.resIt s.rws
    (qpStep_ok E s _ hws)
  have v' := resComputeLin_val (qpStep E s') (qpStep_wf E hwf s') (solOf E.qp.dim s'.core) (stepOf s'.kkt) s'.resIt s'.rws
    (qpStep_ok E s' _ hws')
  have hl : s'.core.lam = s.core.lam := h.keep.core.lam
  have ht : s'.core.t = s.core.t := h.keep.core.t
  have hR : ∀ k i j, i < E.qp.dim.nu k + E.qp.dim.nx k → s'.kkt.RSQrq k i j = s.kkt.RSQrq k i j := h.mat.R
  have hB : ∀ k i j, i < E.qp.dim.nu k + E.qp.dim.nx k → s'.kkt.BAbt k i j = s.kkt.BAbt k i j := h.mat.B
  -- the two step problems
  have hq : ∃ q : OcpQp K, q.dim = E.qp.dim ∧ q.d_mask = E.qp.d_mask ∧ qpStep E s = { q with BAbt := s.kkt.BAbt, RSQrq := s.kkt.RSQrq } ∧
      qpStep E s' = { q with BAbt := s'.kkt.BAbt, RSQrq := s'.kkt.RSQrq } := by
    by_cases ha : E.arg.i .abs_form ≠ 0
    · refine ⟨{ E.qp with m := svw (nct E.qp.dim) s.core.res_m }, rfl, rfl, ?_, ?_⟩
      · unfold qpStep qpNow; rw [if_pos ha]
      · unfold qpStep qpNow; rw [if_pos ha, h.rm]
    · refine ⟨{ E.qp with rqz := s.res.res_g, b := s.res.res_b, d := s.res.res_d, m := svw (nct E.qp.dim) s.core.res_m }, rfl, rfl, ?_, ?_⟩
      · unfold qpStep qpNow; rw [if_neg ha]
      · unfold qpStep qpNow; rw [if_neg ha, h.rm, h.keep.res]
  obtain ⟨q, qd, qm, e, e'⟩ := hq
  unfold linRes
  dsimp only
  rw [e] at v ⊢
  rw [e'] at v' ⊢
  dsimp only at v v'
  have wq : OcpQp.WF { q with BAbt := s.kkt.BAbt, RSQrq := s.kkt.RSQrq } := e ▸ qpStep_wf E hwf s
  have hux := h.ux; have hpi := h.pi; have hla := h.lam; have htt := h.t
  rw [← qd] at hux hpi hla htt hR hB
  have hd := hla
  have hmul_eq : ∀ k i, k ≤ q.dim.N → i < q.dim.nu k + q.dim.nx k →
      hmul { q with BAbt := s'.kkt.BAbt, RSQrq := s'.kkt.RSQrq } k (s'.kkt.ux k) i
        = hmul { q with BAbt := s.kkt.BAbt, RSQrq := s.kkt.RSQrq } k (s.kkt.ux k) i := by
    intro k i hk hi
    simp only [hmul]
    apply sum_congr rfl
    intro j hj
    have hj := mem_range.mp hj
    rw [hux k j hk (by unfold nvt; omega)]
    unfold symL
    rw [hR k (0 + i) (0 + j) (by omega), hR k (0 + j) (0 + i) (by omega)]
  apply resInfNorm_congr
  · intro k i hk hi
    rw [← qd] at hk hi
    rw [(v k hk).1.g i hi, (v' k hk).1.g i hi]
    have hlm : ∀ j, j < nct q.dim k → lamM { q with BAbt := s'.kkt.BAbt, RSQrq := s'.kkt.RSQrq } (stepOf s'.kkt) k j
        = lamM { q with BAbt := s.kkt.BAbt, RSQrq := s.kkt.RSQrq } (stepOf s.kkt) k j := by
      intro j hj
      show q.d_mask k j * s'.kkt.lam k j = q.d_mask k j * s.kkt.lam k j
      rw [qm]; exact hla k j hk hj
    refine (vG_congr { q with BAbt := s'.kkt.BAbt, RSQrq := s'.kkt.RSQrq } _ _ _ k i hlm hi).trans ?_
    unfold vG
    dsimp only
    have hi' : i < q.dim.nu k + q.dim.nx k + 2 * q.dim.ns k := hi
    split
    · rename_i h1
      have ha := hmul_eq k i hk h1
      have hp1 : (if 0 < k ∧ q.dim.nu k ≤ i then s'.kkt.pi (k - 1) (i - q.dim.nu k) else 0)
          = (if 0 < k ∧ q.dim.nu k ≤ i then s.kkt.pi (k - 1) (i - q.dim.nu k) else 0) := by
        split
        · rename_i h2
          exact hpi _ _ (by omega) (by unfold net; have : k - 1 + 1 = k := by omega
                                       rw [this]; omega)
        · rfl
      have hp2 : (if k < q.dim.N then ∑ j ∈ range (q.dim.nx (k + 1)), s'.kkt.BAbt k i j * s'.kkt.pi k j else 0)
          = (if k < q.dim.N then ∑ j ∈ range (q.dim.nx (k + 1)), s.kkt.BAbt k i j * s.kkt.pi k j else 0) := by
        split
        · rename_i h2
          apply sum_congr rfl
          intro j hj
          rw [hB k i j h1, hpi k j h2 (mem_range.mp hj)]
        · rfl
      simp only [stepOf]
      rw [ha, hp1, hp2]
      rfl
    · simp only [stepOf]
      rw [hux k i hk hi]
      rfl
  · intro k i hk hi
    rw [← qd] at hk hi
    rw [(v k (by omega)).1.b hk i hi, (v' k (by omega)).1.b hk i hi]
    simp only [vB, stepOf]
    rw [hux (k + 1) _ (by omega) (by unfold nvt; omega)]
    congr 1
    apply sum_congr rfl
    intro j hj
    have hj := mem_range.mp hj
    rw [hux k j (by omega) (by unfold nvt; omega), hB k j i hj]
  · intro k j hk hj
    rw [← qd] at hk hj
    rw [(v k hk).1.d j hj, (v' k hk).1.d j hj]
    have hvt := htt k j hk hj
    rw [← qm] at hvt
    have hj' : j < 2 * q.dim.nb k + 2 * q.dim.ng k + 2 * q.dim.ns k := hj
    have w1 : ∀ j, j < q.dim.nb k → q.idxb k j < q.dim.nu k + q.dim.nx k := fun j hj =>
      wq.1 k j hk hj
    have cv : ∀ j, j < q.dim.nb k + q.dim.ng k → cval { q with BAbt := s'.kkt.BAbt, RSQrq := s'.kkt.RSQrq } k (s'.kkt.ux k) j
        = cval { q with BAbt := s.kkt.BAbt, RSQrq := s.kkt.RSQrq } k (s.kkt.ux k) j := by
      intro j hj
      simp only [cval]
      split
      · rename_i h1
        exact hux k _ hk (by have := w1 j h1; unfold nvt; omega)
      · apply sum_congr rfl
        intro i hi
        rw [hux k i hk (by have := mem_range.mp hi; unfold nvt; omega)]
    have sl : ∀ o, o + q.dim.ns k ≤ nvt q.dim k → ∀ j, j < q.dim.nb k + q.dim.ng k → slk { q with BAbt := s'.kkt.BAbt, RSQrq := s'.kkt.RSQrq } k (s'.kkt.ux k) o j
        = slk { q with BAbt := s.kkt.BAbt, RSQrq := s.kkt.RSQrq } k (s.kkt.ux k) o j := by
      intro o ho j hj
      simp only [slk]
      split
      · rfl
      · rename_i h1
        rcases wq.2 k j hk hj with h2 | h2
        · exact absurd h2 h1
        · exact hux k _ hk (lt_of_lt_of_le (Nat.add_lt_add_left h2.2 o) ho)
    simp only [vD, stepOf]
    split
    · rename_i h1
      rw [cv j h1, sl _ (by unfold nvt; omega) j h1]
      linear_combination hvt
    · split
      · rw [cv _ (by omega), sl _ (by unfold nvt; omega) _ (by omega)]
        linear_combination hvt
      · rw [hux k _ hk (by unfold nvt; omega)]
        linear_combination hvt
  · intro k j hk hj
    rw [← qd] at hk hj
    rw [(v k hk).2 j hj, (v' k hk).2 j hj]
    simp only [vML, stepOf, solOf, svw]
    have h1 := htt k j hk hj
    have h2 := hla k j hk hj
    rw [hl, ht, qm]
    linear_combination (s.core.lam (stOff (nct E.qp.dim) k + j)) * h1 + (s.core.t (stOff (nct E.qp.dim) k + j)) * h2

/-! ### the step object and the core workspace hold the same step -/

/-- the step vectors of the core workspace are the step object (they share memory) -/
structure Sync (s : Ipm K) : Prop where
  ux : ∀ k i, k ≤ E.qp.dim.N → i < nvt E.qp.dim k → s.core.dv (stOff (nvt E.qp.dim) k + i) = s.kkt.ux k i
  pi : ∀ k i, k < E.qp.dim.N → i < net E.qp.dim k → s.core.dpi (stOff (net E.qp.dim) k + i) = s.kkt.pi k i
  lam : ∀ k i, k ≤ E.qp.dim.N → i < nct E.qp.dim k → s.core.dlam (stOff (nct E.qp.dim) k + i) = s.kkt.lam k i
  t : ∀ k i, k ≤ E.qp.dim.N → i < nct E.qp.dim k → s.core.dt (stOff (nct E.qp.dim) k + i) = s.kkt.t k i

theorem sync_step (s : Ipm K) : Sync E (syncStep E.qp.dim s) :=
  ⟨fun k i hk hi => stFlat_at _ _ _ k i (by omega) hi, fun k i hk hi => stFlat_at _ _ _ k i hk hi,
   fun k i hk hi => stFlat_at _ _ _ k i (by omega) hi, fun k i hk hi => stFlat_at _ _ _ k i (by omega) hi⟩

theorem sync_back (s : Ipm K) : Sync E (syncBack E.qp.dim s) :=
  ⟨fun _ _ _ _ => rfl, fun _ _ _ _ => rfl, fun _ _ _ _ => rfl, fun _ _ _ _ => rfl⟩

theorem Sync.of_eq {s s' : Ipm K} (h : Sync E s) (h1 : s'.core.dv = s.core.dv) (h2 : s'.core.dpi = s.core.dpi)
    (h3 : s'.core.dlam = s.core.dlam) (h4 : s'.core.dt = s.core.dt) (h5 : s'.kkt.ux = s.kkt.ux) (h6 : s'.kkt.pi = s.kkt.pi)
    (h7 : s'.kkt.lam = s.kkt.lam) (h8 : s'.kkt.t = s.kkt.t) : Sync E s' := by
  constructor
  · rw [h1, h5]; exact h.ux
  · rw [h2, h6]; exact h.pi
  · rw [h3, h7]; exact h.lam
  · rw [h4, h8]; exact h.t

theorem sync_mask {s : Ipm K} (h : Sync E s) : Sync E (maskStep E s) := by
  unfold maskStep
  split
  · exact sync_back E _
  · exact h

/-- masking the step does not change what the residual sees -/
theorem mask_same (hm : Mask01 E.qp) {s : Ipm K} (hs : Sync E s) (hnc : s.core.nc = stOff (nct E.qp.dim) (E.qp.dim.N + 1)) :
    SameLin E s (maskStep E s) := by
  have hk := maskStep_keep E s
  have hmk := maskStep_mk E s
  revert hk hmk
  unfold maskStep
  split
  · intro hk hmk
    have key : ∀ (f : Vec K) k j, k ≤ E.qp.dim.N → j < nct E.qp.dim k → E.qp.d_mask k j *
        vecmul s.core.nc (fmask E.qp) 0 f 0 f 0 (stOff (nct E.qp.dim) k + j)
          = E.qp.d_mask k j * f (stOff (nct E.qp.dim) k + j) := by
      intro f k j hk hj
      have hp : stOff (nct E.qp.dim) k + j < s.core.nc := by
        have := stOff_mono (nct E.qp.dim) (show k + 1 ≤ E.qp.dim.N + 1 by omega)
        simp only [stOff] at this hnc
        omega
      have e := vecmul_in (n := s.core.nc) (x := fmask E.qp) (xi := 0) (y := f) (yi := 0) (z := f) (zi := 0) (i := stOff (nct E.qp.dim) k + j) ⟨by omega, by omega⟩
      simp only [Nat.zero_add, Nat.sub_zero] at e
      rw [e]
      have e2 : fmask E.qp (stOff (nct E.qp.dim) k + j) = E.qp.d_mask k j := stFlat_at _ _ _ k j (by omega) hj
      rw [e2]
      rcases hm k j hk hj with h0 | h0 <;> rw [h0] <;> ring
    refine ⟨fun k i hk hi => hs.ux k i hk hi, fun k i hk hi => hs.pi k i hk hi, ?_, ?_, hmk, hk, rfl⟩
    · intro k j hk hj
      rw [← hs.lam k j hk hj]
      exact key s.core.dlam k j hk hj
    · intro k j hk hj
      rw [← hs.t k j hk hj]
      exact key s.core.dt k j hk hj
  · intro _ _; exact SameLin.refl E s

theorem solveItref_core (s : Ipm K) : ∃ g, (solveItref E s).core = { s.core with gamma := g } := by
  unfold solveItref
  dsimp only
  rw [solveKktStep_core]
  unfold computeGamma
  refine loop_inv (fun _ (c : Core K) => ∃ g, c = { s.core with gamma := g }) _ _ _ ?_ ?_
  · exact ⟨s.core.gamma, rfl⟩
  · rintro i c - ⟨g, rfl⟩
    exact ⟨_, rfl⟩

theorem solveItref_sync {s : Ipm K} (h : Sync E s) : Sync E (solveItref E s) := by
  obtain ⟨g, hg⟩ := solveItref_core E s
  exact h.of_eq E (by rw [hg]) (by rw [hg]) (by rw [hg]) (by rw [hg]) rfl rfl rfl rfl

theorem solveItref_same (s : Ipm K) : SameLin E s (solveItref E s) := by
  obtain ⟨g, hg⟩ := solveItref_core E s
  exact ⟨fun _ _ _ _ => rfl, fun _ _ _ _ => rfl, fun _ _ _ _ => rfl, fun _ _ _ _ => rfl, solveItref_mk E s, solveItref_keep E s, by rw [hg]⟩

/-! ### adding and removing a correction -/

theorem loop_axpy (n : ℕ) (len : ℕ → ℕ) (a : K) (it u : ℕ → Vec K) (k i : ℕ) (hk : k < n) (hi : i < len k) :
    loop n (fun ii ux => upd ux ii (axpy (len ii) a (it ii) 0 (ux ii) 0 (ux ii) 0)) u k i = u k i + a * it k i := by
  have h : ∀ m, ∀ k, loop m (fun ii ux => upd ux ii (axpy (len ii) a (it ii) 0 (ux ii) 0 (ux ii) 0)) u k
      = if k < m then axpy (len k) a (it k) 0 (u k) 0 (u k) 0 else u k := by
    intro m
    induction m with
    | zero => intro k; simp [loop_zero]
    | succ m ih =>
      intro k
      rw [loop_succ]
      by_cases hkm : k = m
      · subst hkm
        rw [upd_same, ih k, if_neg (by omega), if_pos (by omega)]
      · rw [upd_ne _ _ hkm, ih k]
        by_cases h2 : k < m
        · rw [if_pos h2, if_pos (by omega)]
        · rw [if_neg h2, if_neg (by omega)]
  rw [h n k, if_pos hk]
  have := axpy_in (n := len k) (a := a) (x := it k) (xi := 0) (y := u k) (yi := 0) (z := u k) (zi := 0) (i := i) ⟨by omega, by omega⟩
  simp only [Nat.zero_add, Nat.sub_zero] at this
  rw [this]

/-- the values after adding `a` times the correction -/
theorem addItref_val (a : K) (s : Ipm K) :
    (∀ k i, k ≤ E.qp.dim.N → i < nvt E.qp.dim k → (addItref E a s).kkt.ux k i = s.kkt.ux k i + a * s.itr.ux k i) ∧
    (∀ k i, k < E.qp.dim.N → i < net E.qp.dim k → (addItref E a s).kkt.pi k i = s.kkt.pi k i + a * s.itr.pi k i) ∧
    (∀ k i, k ≤ E.qp.dim.N → i < nct E.qp.dim k → (addItref E a s).kkt.lam k i = s.kkt.lam k i + a * s.itr.lam k i) ∧
    (∀ k i, k ≤ E.qp.dim.N → i < nct E.qp.dim k → (addItref E a s).kkt.t k i = s.kkt.t k i + a * s.itr.t k i) :=
  ⟨fun k i hk hi => loop_axpy (E.qp.dim.N + 1) _ a s.itr.ux s.kkt.ux k i (by omega) hi,
   fun k i hk hi => loop_axpy E.qp.dim.N _ a s.itr.pi s.kkt.pi k i hk hi,
   fun k i hk hi => loop_axpy (E.qp.dim.N + 1) _ a s.itr.lam s.kkt.lam k i (by omega) hi,
   fun k i hk hi => loop_axpy (E.qp.dim.N + 1) _ a s.itr.t s.kkt.t k i (by omega) hi⟩

theorem addItref_sync (a : K) (s : Ipm K) : Sync E (addItref E a s) := sync_step E _

/-- a correction that is subtracted again leaves the step as it was -/
theorem addItref_undo (s s' : Ipm K) (hk : s'.kkt = (addItref E 1 s).kkt) (hi : s'.itr = s.itr) (hkp : Keep s s')
    (hr : s'.core.res_m = s.core.res_m) : SameLin E s (addItref E (-1) s') := by
  obtain ⟨a1, a2, a3, a4⟩ := addItref_val E 1 s
  obtain ⟨b1, b2, b3, b4⟩ := addItref_val E (-1) s'
  refine ⟨?_, ?_, ?_, ?_, ?_, hkp.trans (addItref_keep E _ _), hr⟩
  · intro k i h1 h2; rw [b1 k i h1 h2, hk, a1 k i h1 h2, hi]; ring
  · intro k i h1 h2; rw [b2 k i h1 h2, hk, a2 k i h1 h2, hi]; ring
  · intro k i h1 h2; rw [b3 k i h1 h2, hk, a3 k i h1 h2, hi]; ring
  · intro k i h1 h2; rw [b4 k i h1 h2, hk, a4 k i h1 h2, hi]; ring
  · have h1 : MK E s s' := by unfold MK; rw [hk]; exact MKeep.of_eq rfl rfl
    exact h1.trans (addItref_mk E _ _)

/-! ### statistics -/

/-- the four statistics columns of the refinement -/
def statRow (kk : ℕ) (s : Ipm K) : K × K × K × K :=
  (s.stat (21 * (kk + 1) + 16), s.stat (21 * (kk + 1) + 17), s.stat (21 * (kk + 1) + 18), s.stat (21 * (kk + 1) + 19))

theorem statRow_put (kk : ℕ) (x : K × K × K × K) (s : Ipm K) (hkk : (kk : ℤ) + 1 < E.statMax) : statRow kk (putG4 E kk 16 x s) = x := by
  unfold putG4 putG
  simp only [if_pos hkk, put, statRow]
  have n1 : ∀ (v : ℕ → K) (a b : ℕ) (y : K), a ≠ b → upd v b y a = v a := fun v a b y h => upd_ne v y h
  simp only [upd_same]
  rw [n1 _ _ _ _ (by omega), n1 _ _ _ _ (by omega), n1 _ _ _ _ (by omega), upd_same, n1 _ _ _ _ (by omega),
    n1 _ _ _ _ (by omega), upd_same, n1 _ _ _ _ (by omega), upd_same]

/-! ### the loop -/

/-- what the loop needs and preserves -/
structure ItOk (s : Ipm K) : Prop where
  sync : Sync E s
  nc : s.core.nc = stOff (nct E.qp.dim) (E.qp.dim.N + 1)
  ws : s.rws.Ok E.qp

/-- the state after one correction has been added -/
def refined (s : Ipm K) : Ipm K := addItref E 1 (maskStep E (solveItref E s))

theorem putG4_same (kk col : ℕ) (hc : col + 3 < 21) (x : K × K × K × K) (s : Ipm K) : SameLin E s (putG4 E kk col x s) :=
  ⟨fun _ _ _ _ => by rw [putG4_kkt], fun _ _ _ _ => by rw [putG4_kkt], fun _ _ _ _ => by rw [putG4_kkt],
   fun _ _ _ _ => by rw [putG4_kkt], putG4_mk E kk col x s, putG4_keep E kk col hc x s, by rw [putG4_core]⟩

theorem linRes_same (s : Ipm K) : SameLin E s (linRes E s).1 :=
  ⟨fun _ _ _ _ => rfl, fun _ _ _ _ => rfl, fun _ _ _ _ => rfl, fun _ _ _ _ => rfl, MKeep.refl _ _, linRes_keep E s, rfl⟩

theorem ItOk.keep {s s' : Ipm K} (h : ItOk E s) (hk : Keep s s') (hs : Sync E s') : ItOk E s' :=
  ⟨hs, hk.core.nc.trans h.nc, by rw [hk.rws]; exact h.ws⟩

theorem sync_putG4 (kk col : ℕ) (x : K × K × K × K) {s : Ipm K} (h : Sync E s) : Sync E (putG4 E kk col x s) :=
  h.of_eq E (by rw [putG4_core]) (by rw [putG4_core]) (by rw [putG4_core]) (by rw [putG4_core]) (by rw [putG4_kkt]) (by rw [putG4_kkt])
    (by rw [putG4_kkt]) (by rw [putG4_kkt])

/-- the state in which the test is made -/
def tested (kk : ℕ) (s : Ipm K) : Ipm K := putG4 E kk 16 (linRes E (refined E s)).2 (linRes E (refined E s)).1

theorem tested_same (kk : ℕ) (s : Ipm K) : SameLin E (refined E s) (tested E kk s) :=
  (linRes_same E (refined E s)).trans E (putG4_same E kk 16 (by omega) _ _)

theorem tested_ok (kk : ℕ) {s : Ipm K} (h : ItOk E s) : ItOk E (tested E kk s) := by
  refine h.keep E ?_ ?_
  · exact ((solveItref_keep E s).trans (maskStep_keep E _)).trans ((addItref_keep E 1 _).trans (tested_same E kk s).keep)
  · exact sync_putG4 E kk 16 _ ((addItref_sync E 1 _).of_eq E rfl rfl rfl rfl rfl rfl rfl rfl)

/-- a rejected correction leaves the Newton residual as it was -/
theorem rejected_same (hm : Mask01 E.qp) (kk : ℕ) (x : K × K × K × K) {s : Ipm K} (h : ItOk E s) :
    SameLin E s (putG4 E kk 16 x (addItref E (-1) (tested E kk s))) := by
  have h1 := solveItref_same E s
  have h2 := mask_same E hm (solveItref_sync E h.sync) (h1.keep.core.nc.trans h.nc)
  have h3 : SameLin E (maskStep E (solveItref E s)) (addItref E (-1) (tested E kk s)) := by
    apply addItref_undo
    · unfold tested; rw [putG4_kkt]; rfl
    · unfold tested; rw [putG4_itr]; rfl
    · exact (addItref_keep E 1 _).trans (tested_same E kk s).keep
    · unfold tested; rw [putG4_core]; rfl
  exact ((h1.trans E h2).trans E h3).trans E (putG4_same E kk 16 (by omega) _ _)

theorem itrefLoop_succ (kk : ℕ) (sh : Bool) (n cnt : ℕ) (did : Bool) (x : K × K × K × K) (mx : K) (s : Ipm K) :
    itrefLoop E kk sh (n + 1) cnt did x mx s =
      if itrefDone E s.rmax x then ⟨s, cnt, did⟩
      else if max4 (linRes E (refined E s)).2 ≥ mx then ⟨putG4 E kk 16 x (addItref E (-1) (tested E kk s)), cnt, true⟩
      else itrefLoop E kk sh n (cnt + 1) true (linRes E (refined E s)).2
        (if sh then mx else max4 (linRes E (refined E s)).2) (tested E kk s) := rfl

theorem itrefLoop_best (hwf : E.qp.WF) (hm : Mask01 E.qp) (kk : ℕ) (sh : Bool) : ∀ (n cnt : ℕ) (did : Bool) (x : K × K × K × K) (mx : K)
    (s : Ipm K), ItOk E s → x = (linRes E s).2 → max4 x ≤ mx →
    let o := itrefLoop E kk sh n cnt did x mx s
    cnt ≤ o.cnt ∧ o.cnt ≤ cnt + n ∧
    (o.cnt = cnt → (linRes E o.s).2 = x) ∧ (cnt < o.cnt → max4 (linRes E o.s).2 < mx) ∧
    ((kk : ℤ) + 1 < E.statMax → statRow kk s = x → statRow kk o.s = (linRes E o.s).2) ∧ ItOk E o.s := by
  intro n
  induction n with
  | zero =>
    intro cnt did x mx s hs hx hmx
    refine ⟨le_refl _, le_refl _, fun _ => hx.symm, fun h => absurd h (lt_irrefl _), fun hkk hst => ?_, hs⟩
    show statRow kk s = (linRes E s).2
    rw [← hx]; exact hst
  | succ n ih =>
    intro cnt did x mx s hs hx hmx
    dsimp only
    rw [itrefLoop_succ]
    split
    · refine ⟨le_refl _, by dsimp only; omega, fun _ => hx.symm, fun h => absurd h (lt_irrefl _), fun hkk hst => ?_, hs⟩
      show statRow kk s = (linRes E s).2
      rw [← hx]; exact hst
    · split
      · have hsm := rejected_same E hm kk x hs
        have hlin := linRes_congr E hwf hs.ws hsm
        refine ⟨le_refl _, by dsimp only; omega, fun _ => hlin.trans hx.symm, fun h => absurd h (lt_irrefl _), fun hkk hst => ?_, ?_⟩
        · show statRow kk (putG4 E kk 16 x _) = (linRes E (putG4 E kk 16 x _)).2
          rw [statRow_put E kk x _ hkk, hlin, hx]
        · exact hs.keep E hsm.keep (sync_putG4 E kk 16 _ (sync_step E _))
      · rename_i hlt
        have hlt : max4 (linRes E (refined E s)).2 < mx := not_le.mp hlt
        have htl := linRes_congr E hwf (s := refined E s)
          (by have : Keep s (refined E s) := ((solveItref_keep E s).trans (maskStep_keep E _)).trans (addItref_keep E 1 _)
              rw [this.rws]; exact hs.ws) (tested_same E kk s)
        have hmx' : max4 (linRes E (refined E s)).2 ≤ (if sh then mx else max4 (linRes E (refined E s)).2) := by
          split
          · exact le_of_lt hlt
          · exact le_refl _
        have hle : (if sh then mx else max4 (linRes E (refined E s)).2) ≤ mx := by
          split
          · exact le_refl _
          · exact le_of_lt hlt
        obtain ⟨r1, r2, r3, r4, r5, r6⟩ := ih (cnt + 1) true (linRes E (refined E s)).2 _ (tested E kk s) (tested_ok E kk hs)
          htl.symm hmx'
        refine ⟨by omega, by omega, fun h => by omega, fun _ => ?_, fun hkk _ => r5 hkk (statRow_put E kk _ _ hkk), r6⟩
        by_cases hc : (itrefLoop E kk sh n (cnt + 1) true (linRes E (refined E s)).2
          (if sh then mx else max4 (linRes E (refined E s)).2) (tested E kk s)).cnt = cnt + 1
        · rw [r3 hc]; exact hlt
        · exact lt_of_lt_of_le (r4 (by omega)) hle

/-- **C36**: the returned step has a Newton residual not larger than that of the step the refinement started from, a
strictly smaller one if a correction is reported as kept; the statistics columns show the norms of the returned step. -/
theorem itref_not_worse (hwf : E.qp.WF) (hm : Mask01 E.qp) (kk : ℕ) (sh : Bool) (max : ℤ) (s : Ipm K) (hs : ItOk E s) :
    let o := itref E kk sh max s
    max4 (linRes E o.s).2 ≤ max4 (linRes E s).2 ∧
    (0 < o.cnt → max4 (linRes E o.s).2 < max4 (linRes E s).2) ∧
    (o.cnt = 0 → (linRes E o.s).2 = (linRes E s).2) ∧ (o.cnt : ℤ) ≤ Max.max max 0 ∧
    ((kk : ℤ) + 1 < E.statMax → statRow kk o.s = (linRes E o.s).2) ∧ ItOk E o.s := by
  dsimp only
  unfold itref
  dsimp only
  have hsm : SameLin E s (putG4 E kk 16 (linRes E s).2 (linRes E s).1) :=
    (linRes_same E s).trans E (putG4_same E kk 16 (by omega) _ _)
  have hl := linRes_congr E hwf hs.ws hsm
  obtain ⟨r1, r2, r3, r4, r5, r6⟩ := itrefLoop_best E hwf hm kk sh max.toNat 0 false (linRes E s).2 (max4 (linRes E s).2)
    (putG4 E kk 16 (linRes E s).2 (linRes E s).1) (hs.keep E hsm.keep (sync_putG4 E kk 16 _ (hs.sync.of_eq E rfl rfl rfl rfl rfl rfl rfl rfl)))
    hl.symm (le_refl _)
  refine ⟨?_, r4, r3, by omega, fun hkk => r5 hkk (statRow_put E kk _ _ hkk), r6⟩
  by_cases hc : (itrefLoop E kk sh max.toNat 0 false (linRes E s).2 (max4 (linRes E s).2)
    (putG4 E kk 16 (linRes E s).2 (linRes E s).1)).cnt = 0
  · rw [r3 hc]
  · exact le_of_lt (r4 (by omega))

/-- corrector loop: a further pass never makes the step worse -/
theorem itrefLoop_more (hwf : E.qp.WF) (hm : Mask01 E.qp) (kk : ℕ) : ∀ (n cnt : ℕ) (did : Bool) (x : K × K × K × K) (s : Ipm K),
    ItOk E s → x = (linRes E s).2 →
    max4 (linRes E (itrefLoop E kk false (n + 1) cnt did x (max4 x) s).s).2
      ≤ max4 (linRes E (itrefLoop E kk false n cnt did x (max4 x) s).s).2 := by
  intro n
  induction n with
  | zero =>
    intro cnt did x s hs hx
    obtain ⟨r1, -, r3, r4, -⟩ := itrefLoop_best E hwf hm kk false 1 cnt did x (max4 x) s hs hx (le_refl _)
    show _ ≤ max4 (linRes E s).2
    rw [← hx]
    by_cases hc : (itrefLoop E kk false 1 cnt did x (max4 x) s).cnt = cnt
    · rw [r3 hc]
    · exact le_of_lt (r4 (by omega))
  | succ n ih =>
    intro cnt did x s hs hx
    rw [itrefLoop_succ E kk false (n + 1) cnt, itrefLoop_succ E kk false n cnt]
    by_cases h1 : itrefDone E s.rmax x = true
    · rw [if_pos h1, if_pos h1]
    · rw [if_neg h1, if_neg h1]
      by_cases h2 : max4 (linRes E (refined E s)).2 ≥ max4 x
      · rw [if_pos h2, if_pos h2]
      · rw [if_neg h2, if_neg h2]
        have htl := linRes_congr E hwf (s := refined E s)
          (by have : Keep s (refined E s) := ((solveItref_keep E s).trans (maskStep_keep E _)).trans (addItref_keep E 1 _)
              rw [this.rws]; exact hs.ws) (tested_same E kk s)
        exact ih (cnt + 1) true _ (tested E kk s) (tested_ok E kk hs) htl.symm

/-- **C36**, corrector: with a larger limit on the number of passes the returned step is not worse -/
theorem itref_corr_monotone (hwf : E.qp.WF) (hm : Mask01 E.qp) (kk : ℕ) (n m : ℕ) (hnm : n ≤ m) (s : Ipm K) (hs : ItOk E s) :
    max4 (linRes E (itref E kk false m s).s).2 ≤ max4 (linRes E (itref E kk false n s).s).2 := by
  have hsm : SameLin E s (putG4 E kk 16 (linRes E s).2 (linRes E s).1) :=
    (linRes_same E s).trans E (putG4_same E kk 16 (by omega) _ _)
  have hok : ItOk E (putG4 E kk 16 (linRes E s).2 (linRes E s).1) :=
    hs.keep E hsm.keep (sync_putG4 E kk 16 _ (hs.sync.of_eq E rfl rfl rfl rfl rfl rfl rfl rfl))
  induction m, hnm using Nat.le_induction with
  | base => exact le_refl _
  | succ m _ ih =>
    refine le_trans ?_ ih
    have := itrefLoop_more E hwf hm kk m 0 false (linRes E s).2 (putG4 E kk 16 (linRes E s).2 (linRes E s).1) hok
      (linRes_congr E hwf hs.ws hsm).symm
    simpa only [itref, Int.toNat_natCast] using this

/-! ### in the solver -/

theorem computeAlpha_frame (sq : K → K) (c : Core K) : (computeAlpha sq c).res_m = c.res_m ∧ (computeAlpha sq c).dv = c.dv ∧
    (computeAlpha sq c).dpi = c.dpi ∧ (computeAlpha sq c).dlam = c.dlam ∧ (computeAlpha sq c).dt = c.dt := by
  unfold computeAlpha
  simp only
  split_ifs <;> exact ⟨rfl, rfl, rfl, rfl, rfl⟩

theorem putG_same (kk col : ℕ) (hc : col < 21) (x : K) (s : Ipm K) : SameLin E s (putG E kk col x s) :=
  ⟨fun _ _ _ _ => by rw [putG_kkt], fun _ _ _ _ => by rw [putG_kkt], fun _ _ _ _ => by rw [putG_kkt],
   fun _ _ _ _ => by rw [putG_kkt], putG_mk E kk col x s, putG_keep E kk col hc x s, by rw [putG_core]⟩

theorem sync_putG (kk col : ℕ) (x : K) {s : Ipm K} (h : Sync E s) : Sync E (putG E kk col x s) :=
  h.of_eq E (by rw [putG_core]) (by rw [putG_core]) (by rw [putG_core]) (by rw [putG_core]) (by rw [putG_kkt]) (by rw [putG_kkt])
    (by rw [putG_kkt]) (by rw [putG_kkt])

theorem alphaStep_same (kk col : ℕ) (hc : col + 1 < 21) (s : Ipm K) : SameLin E s (alphaStep E kk col s) := by
  obtain ⟨h1, -⟩ := computeAlpha_frame E.sq s.core
  refine ⟨?_, ?_, ?_, ?_, alphaStep_mk E kk col s, alphaStep_keep E kk col hc s, ?_⟩ <;> intros <;> simp only [alphaStep, putG_kkt, putG_core]
  exact h1

theorem sync_alpha (kk col : ℕ) {s : Ipm K} (h : Sync E s) : Sync E (alphaStep E kk col s) := by
  obtain ⟨-, h1, h2, h3, h4⟩ := computeAlpha_frame E.sq s.core
  refine h.of_eq E ?_ ?_ ?_ ?_ ?_ ?_ ?_ ?_ <;> simp only [alphaStep, putG_kkt, putG_core] <;> assumption

theorem factStep_sync {s s' : Ipm K} (h : factStep E s = some s') : Sync E s' := by
  unfold factStep at h
  simp only [Option.map_eq_some_iff] at h
  obtain ⟨o, -, rfl⟩ := h
  exact sync_step E _

theorem lqStep_sync {s s' : Ipm K} (h : lqStep E s = some s') : Sync E s' := by
  unfold lqStep at h
  simp only [Option.map_eq_some_iff] at h
  obtain ⟨o, -, rfl⟩ := h
  exact sync_step E _

theorem factPhase_sync {kk : ℕ} {s s' : Ipm K} (h : factPhase E kk s = some s') : Sync E s' := by
  unfold factPhase at h
  split at h
  · simp only [Option.map_eq_some_iff] at h
    obtain ⟨o, ho, rfl⟩ := h
    exact sync_putG E _ _ _ (sync_mask E (factStep_sync E ho))
  · split at h
    · simp only [Option.bind_eq_some_iff] at h
      obtain ⟨o, ho, h⟩ := h
      split at h
      · simp only [Option.map_eq_some_iff] at h
        obtain ⟨o', ho', rfl⟩ := h
        exact sync_putG E _ _ _ (sync_mask E (lqStep_sync E ho'))
      · obtain rfl := Option.some.inj h
        exact sync_putG E _ _ _ ((sync_mask E (factStep_sync E ho)).of_eq E rfl rfl rfl rfl rfl rfl rfl rfl)
    · simp only [Option.map_eq_some_iff] at h
      obtain ⟨o', ho', rfl⟩ := h
      exact sync_putG E _ _ _ (sync_mask E (lqStep_sync E ho'))

theorem corrPhase_sync (kk : ℕ) (s : Ipm K) : Sync E (corrPhase E kk s) := by
  unfold corrPhase
  extract_lets s1 s2 s3 m0 s4 s5
  have h3 : Sync E s3 := sync_alpha E kk 4 (sync_mask E (sync_step E _))
  split
  · split
    · exact sync_alpha E kk 4 (sync_mask E (sync_step E _))
    · exact h3.of_eq E rfl rfl rfl rfl rfl rfl rfl rfl
  · exact h3

/-- **C36**, prediction phase of the solver: after the factorisation, the phase that refines the affine step returns a
step with a residual not larger than the one of the factorised step -/
theorem pred_refine (hwf : E.qp.WF) (hm : Mask01 E.qp) (kk : ℕ) (s0 s : Ipm K) (hf : factPhase E kk s0 = some s)
    (hnc : s0.core.nc = stOff (nct E.qp.dim) (E.qp.dim.N + 1)) (hws : s0.rws.Ok E.qp) :
    max4 (linRes E (predPhase E kk s)).2 ≤ max4 (linRes E s).2 := by
  have hk := factPhase_keep E kk s0 s hf
  have hs : ItOk E s := ⟨factPhase_sync E hf, hk.core.nc.trans hnc, by rw [hk.rws]; exact hws⟩
  have tail : ∀ o : ItOut K, ItOk E o.s → max4 (linRes E o.s).2 ≤ max4 (linRes E s).2 →
      max4 (linRes E (alphaStep E kk 0 (putG E kk 20 (if o.s.npd then 1 else 0) (putG E kk 14 (o.cnt : K) o.s)))).2
        ≤ max4 (linRes E s).2 := by
    intro o ho hle
    rw [linRes_congr E hwf ho.ws (((putG_same E kk 14 (by omega) _ _).trans E (putG_same E kk 20 (by omega) _ _)).trans E
      (alphaStep_same E kk 0 (by omega) _))]
    exact hle
  unfold predPhase
  apply tail
  · split
    · exact hs.keep E (putG4_keep E kk 16 (by omega) _ _) (sync_putG4 E kk 16 _ hs.sync)
    · exact (itref_not_worse E hwf hm kk true _ s hs).2.2.2.2.2
  · split
    · rw [linRes_congr E hwf hs.ws (putG4_same E kk 16 (by omega) _ _)]
    · exact (itref_not_worse E hwf hm kk true _ s hs).1

/-- **C36**, correction phase -/
theorem corr_refine (hwf : E.qp.WF) (hm : Mask01 E.qp) (kk : ℕ) (s0 : Ipm K)
    (hnc : s0.core.nc = stOff (nct E.qp.dim) (E.qp.dim.N + 1)) (hws : s0.rws.Ok E.qp) :
    let s := corrPhase E kk s0
    max4 (linRes E (corrItref E kk s).s).2 ≤ max4 (linRes E s).2 ∧
    (0 < (corrItref E kk s).cnt → max4 (linRes E (corrItref E kk s).s).2 < max4 (linRes E s).2) := by
  have hk := corrPhase_keep E kk s0
  have hs : ItOk E (corrPhase E kk s0) := ⟨corrPhase_sync E kk s0, hk.core.nc.trans hnc, by rw [hk.rws]; exact hws⟩
  intro s
  obtain ⟨r1, r2, -, -, -, r6⟩ := itref_not_worse E hwf hm kk false (E.arg.i .itref_corr_max) s hs
  unfold corrItref
  split
  · dsimp only
    split
    · dsimp only
      rw [linRes_congr E hwf r6.ws (alphaStep_same E kk 4 (by omega) _)]
      exact ⟨r1, r2⟩
    · exact ⟨r1, r2⟩
  · exact ⟨le_refl _, fun h => absurd h (lt_irrefl _)⟩

end
end Hpipm
