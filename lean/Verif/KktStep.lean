/-
The search direction computed by the structured KKT solver, ocp_qp/x_ocp_qp_kkt.c, solves the Newton system
(properties C25, C26).
-/
import Verif.KktEq

namespace Hpipm
open Finset
set_option linter.unusedSectionVars false

section
variable {K : Type*} [Field K] [LinearOrder K] [IsStrictOrderedRing K]

/-- the multipliers and slacks of the core workspace are those of the current iterate (in C: the flat
vectors `cws->lam`, `cws->t` are the memory of the solution object, x_ocp_qp_ipm.c:2893-2898), and all
slacks are nonzero -/
structure CoreOf (qp : OcpQp K) (sol : Sol K) (c : Core K) : Prop where
  nc : c.nc = stOff (nct qp.dim) (qp.dim.N + 1)
  lam : ∀ k j, k ≤ qp.dim.N → j < nct qp.dim k → c.lam (stOff (nct qp.dim) k + j) = sol.lam k j
  t : ∀ k j, k ≤ qp.dim.N → j < nct qp.dim k → c.t (stOff (nct qp.dim) k + j) = sol.t k j
  pos : ∀ k j, k ≤ qp.dim.N → j < nct qp.dim k → sol.t k j ≠ 0

/-- curvature in the direction of slack `i` of stage `k` (`i < ns` lower, then upper): slack cost, regularisation,
bound on the slack and the softened constraints -/
def slackCurv (qp : OcpQp K) (reg : K) (sol : Sol K) (k i : ℕ) : K :=
  let n := qp.dim.nb k + qp.dim.ng k
  qp.Z k i + reg + sol.lam k (2 * n + i) / sol.t k (2 * n + i)
    + ∑ j ∈ range n, (if qp.idxs_rev k j ≠ -1 ∧ i = (qp.idxs_rev k j).toNat then sol.lam k j / sol.t k j else 0)
    + ∑ j ∈ range n, (if qp.idxs_rev k j ≠ -1 ∧ i = qp.dim.ns k + (qp.idxs_rev k j).toNat
        then sol.lam k (n + j) / sol.t k (n + j) else 0)

/-- barrier weights and terms at the iterate -/
def wG (sol : Sol K) (k j : ℕ) : K := 1 / sol.t k j * sol.lam k j
def wg (qp : OcpQp K) (sol : Sol K) (k j : ℕ) : K := 1 / sol.t k j * (qp.m k j - sol.lam k j * qp.d k j)

theorem slkDen_curv (qp : OcpQp K) (hwf : qp.WF) (reg : K) (sol : Sol K) (G : ℕ → Vec K) (k i : ℕ) (hk : k ≤ qp.dim.N)
    (hi : i < 2 * qp.dim.ns k) (hG : ∀ j, j < nct qp.dim k → G k j = wG sol k j) :
    slkDen (qp.dim.nb k + qp.dim.ng k) (qp.dim.ns k) (qp.idxs_rev k) reg (qp.Z k) (G k) i = slackCurv qp reg sol k i := by
  have hir := hir_of_wf hwf hk
  unfold slkDen slackCurv slkSum
  simp only []
  rw [hG _ (by unfold nct; omega)]
  split_ifs with h
  · have e2 : ∑ j ∈ range (qp.dim.nb k + qp.dim.ng k), (if qp.idxs_rev k j ≠ -1 ∧ i = qp.dim.ns k + (qp.idxs_rev k j).toNat
        then sol.lam k (qp.dim.nb k + qp.dim.ng k + j) / sol.t k (qp.dim.nb k + qp.dim.ng k + j) else 0) = 0 := by
      apply sum_eq_zero
      intro j _
      rw [if_neg]
      omega
    rw [e2, add_zero]
    congr 1
    · rw [wG]; ring
    · apply sum_congr rfl
      intro j hj
      have hj := mem_range.mp hj
      rw [hG j (by unfold nct; omega), wG]
      split_ifs <;> ring
  · have e2 : ∑ j ∈ range (qp.dim.nb k + qp.dim.ng k), (if qp.idxs_rev k j ≠ -1 ∧ i = (qp.idxs_rev k j).toNat
        then sol.lam k j / sol.t k j else 0) = 0 := by
      apply sum_eq_zero
      intro j hj
      have hj := mem_range.mp hj
      rw [if_neg]
      rintro ⟨h1, h2⟩
      rcases hir j hj with h' | h'
      · exact h1 h'
      · omega
    rw [e2, add_zero]
    congr 1
    · rw [wG]; ring
    · apply sum_congr rfl
      intro j hj
      have hj := mem_range.mp hj
      rw [hG _ (by unfold nct; omega), wG]
      have : (i - qp.dim.ns k = (qp.idxs_rev k j).toNat) ↔ i = qp.dim.ns k + (qp.idxs_rev k j).toNat := by omega
      simp only [this]
      split_ifs <;> ring

/-- core quantities used by a step: inverse slacks, weights and terms -/
structure CoreStep (qp : OcpQp K) (sol : Sol K) (c : Core K) (G g : ℕ → Vec K) : Prop where
  of : CoreOf qp sol c
  ti : ∀ k j, k ≤ qp.dim.N → j < nct qp.dim k → c.t_inv (stOff (nct qp.dim) k + j) = 1 / sol.t k j
  G : ∀ k j, k ≤ qp.dim.N → j < nct qp.dim k → G k j = wG sol k j
  g : ∀ k j, k ≤ qp.dim.N → j < nct qp.dim k → g k j = wg qp sol k j

theorem stOff_lt {len : ℕ → ℕ} {N k j : ℕ} (hk : k ≤ N) (hj : j < len k) : stOff len k + j < stOff len (N + 1) := by
  have h1 : stOff len (k + 1) = stOff len k + len k := by simp only [stOff, sum_range_succ]
  have h2 := stOff_mono len (a := k + 1) (b := N + 1) (by omega)
  omega

theorem coreStep_gammaGamma (qp : OcpQp K) (sol : Sol K) (c : Core K) (hc : CoreOf qp sol c) (ht : c.t_lam_min ≠ 1) :
    let c' := computeGammaGamma (stFlat (nct qp.dim) qp.d (qp.dim.N + 1)) (stFlat (nct qp.dim) qp.m (qp.dim.N + 1)) c
    CoreStep qp sol c' (stView qp.dim c'.Gamma) (stView qp.dim c'.gamma) := by
  intro c'
  have hv : c' = _ := computeGammaGamma_val _ _ _ ht
  rw [hv]
  have hlt : ∀ k j, k ≤ qp.dim.N → j < nct qp.dim k → stOff (nct qp.dim) k + j < c.nc := by
    intro k j hk hj; rw [hc.nc]; exact stOff_lt hk hj
  refine ⟨⟨hc.nc, hc.lam, hc.t, hc.pos⟩, fun k j hk hj => ?_, fun k j hk hj => ?_, fun k j hk hj => ?_⟩
  · simp only [mix_lt _ _ (hlt k j hk hj), hc.t k j hk hj]
  · simp only [stView, mix_lt _ _ (hlt k j hk hj), hc.t k j hk hj, hc.lam k j hk hj, wG]
  · simp only [stView, mix_lt _ _ (hlt k j hk hj), hc.t k j hk hj, hc.lam k j hk hj, wg]
    rw [stFlat_at _ _ _ _ _ (by omega) hj, stFlat_at _ _ _ _ _ (by omega) hj]

/-- the step `s` solves the linearised KKT system of `qp` at the iterate `sol`, with Hessian shift `dr` on inputs and
states and `reg` on slacks -/
structure NewtonStep (qp : OcpQp K) (sol : Sol K) (dr : ℕ → ℕ → K) (reg : K) (s : Sol K) : Prop where
  g : ∀ k i, k ≤ qp.dim.N → i < qp.dim.nu k + qp.dim.nx k → vG qp s (s.lam k) k i = - dr k i * s.ux k i
  gs : ∀ k i, k ≤ qp.dim.N → i < 2 * qp.dim.ns k → vG qp s (s.lam k) k (qp.dim.nu k + qp.dim.nx k + i)
    = - reg * s.ux k (qp.dim.nu k + qp.dim.nx k + i)
  b : ∀ k i, k < qp.dim.N → i < qp.dim.nx (k + 1) → vB qp s k i = 0
  d : ∀ k j, k ≤ qp.dim.N → j < nct qp.dim k → vD qp s k j = 0
  m : ∀ k j, k ≤ qp.dim.N → j < nct qp.dim k → qp.m k j + sol.lam k j * s.t k j + s.lam k j * sol.t k j = 0

/-- substitution through a factorisation followed by the tail gives a Newton step -/
theorem step_newton (qp : OcpQp K) (hwf : qp.WF) (hu : Unshared qp) (sol : Sol K) (dr : ℕ → ℕ → K) (reg : K)
    (G g : ℕ → Vec K) (c : Core K) (hc : CoreStep qp sol c G g) (Pc : ℕ → Mat K) (p ell : ℕ → Vec K) (st0 st1 : KktSt K)
    (hB : BOk qp st0) (hfac : (kData qp dr reg G g st0.L Pc).Fac) (hr : (kData qp dr reg G g st0.L Pc).Rhs p ell)
    (hslk : ∀ k, k ≤ qp.dim.N → StSlk qp reg G g k st0) (hF : FDone qp true ell Pc p st0 st1)
    (hden : ∀ k i, k ≤ qp.dim.N → i < 2 * qp.dim.ns k → slackCurv qp reg sol k i ≠ 0) :
    NewtonStep qp sol dr reg (stepOf (kktTail qp G c st1)) ∧
    (∀ k i, k ≤ qp.dim.N → i < qp.dim.nu k + qp.dim.nx k → (kktTail qp G c st1).ux k i = st1.ux k i) ∧
    (kData qp dr reg G g st0.L Pc).Stat st1.ux st1.pi ∧ (kData qp dr reg G g st0.L Pc).Dyn st1.ux ∧
    StepEq qp reg G g st1.ux (stepOf (kktTail qp G c st1)) := by
  have hT := kktTail_ok qp hwf G c hc.of.nc st1
  have hdyn : (kData qp dr reg G g st0.L Pc).Dyn st1.ux := by
    intro k a hk ha
    have := hF.dyn k a hk ha
    refine this.trans ?_
    congr 1
    exact sum_congr rfl (fun j hj => by rw [hB k j a hk (mem_range.mp hj) ha]; rfl)
  have hstat : (kData qp dr reg G g st0.L Pc).Stat st1.ux st1.pi :=
    hfac.solves hr hdyn hF.solve (hF.pi rfl)
  have hE : StepEq qp reg G g st1.ux (stepOf (kktTail qp G c st1)) := by
    refine ⟨hT.uxv, fun k i hk hi => ?_, fun k i hk hi => ?_, fun k j hk hj => ?_⟩
    · refine (hT.sl k i hk hi).trans ?_
      rw [hF.Zs, hF.uxs k _ (by omega), (hslk k hk).Zs i (by omega), (hslk k hk).ux i (by omega)]
    · refine (hT.su k i hk hi).trans ?_
      rw [hF.Zs, hF.uxs k _ (by omega), (hslk k hk).Zs _ (by omega)]
      have := (hslk k hk).ux (qp.dim.ns k + i) (by omega)
      rw [← add_assoc] at this
      rw [this]
    · refine (hT.lam k j hk hj).trans ?_
      rw [hc.ti k j hk hj, hc.of.lam k j hk hj, hc.G k j hk hj, hc.g k j hk hj, wG, wg]
      simp only [stepOf]
      ring
  refine ⟨⟨fun k i hk hi => ?_, fun k i hk hi => ?_, fun k i hk hi => ?_, fun k j hk hj => ?_, fun k j hk hj => ?_⟩,
    hT.uxv, hstat, hdyn, hE⟩
  · refine hE.stat hwf hu dr st0.L Pc ?_ k i hk hi
    have : (stepOf (kktTail qp G c st1)).pi = st1.pi := hT.pi
    rw [this]; exact hstat
  · refine hE.slack hwf k i hk hi ?_
    rw [slkDen_curv qp hwf reg sol G k i hk hi (fun j hj => hc.G k j hk hj)]
    exact hden k i hk hi
  · exact hE.dyn dr st0.L Pc hdyn k i hk hi
  · rw [vD_wval]
    have : (stepOf (kktTail qp G c st1)).t k j = _ := hT.t k j hk hj
    rw [this]
    simp only [stepOf]
    ring
  · have h1 : (stepOf (kktTail qp G c st1)).t k j = _ := hT.t k j hk hj
    have h2 : (stepOf (kktTail qp G c st1)).lam k j = _ := hT.lam k j hk hj
    rw [h1, h2, hc.ti k j hk hj, hc.of.lam k j hk hj]
    have := hc.of.pos k j hk hj
    field_simp
    ring

/-- the Hessian shift of the two factorisation algorithms with perturbation `preg` -/
def drOf (qp : OcpQp K) (sqr : Bool) (reg preg : K) : ℕ → ℕ → K := if sqr then fun _ _ => preg else drCl qp reg preg

/-- one backward sweep -/
theorem pass_ok (sq : K → K) (hsq : ∀ x, 0 < x → sq x * sq x = x) (qp : OcpQp K) (hwf : qp.WF) (hN : 1 ≤ qp.dim.N)
    (reg preg : K) (G g : ℕ → Vec K) (sqr : Bool) (st : KktSt K) (hR : ROk qp st) (hB : BOk qp st) :
    let s := if sqr then sqBack sq qp reg preg G g st else clBack sq qp reg preg G g st
    ROk qp s.2 ∧ BOk qp s.2 ∧ (s.1 = false →
      BackOk qp (drOf qp sqr reg preg) reg G g (ctgP qp.dim sqr s.2) (ctgp qp.dim sqr s.2) s.2) := by
  cases sqr
  · intro s
    have h := clBack_ok sq qp hwf hN reg preg G g st hR hB
    refine ⟨h.1, h.2.1, fun hs => ?_⟩
    obtain ⟨h0, h1⟩ := h.2.2 hs
    exact clBack_back sq hsq qp _ reg G g _ h.1 h.2.1 hN h0 h1
  · intro s
    have h := sqBack_ok sq qp hwf reg preg (fun _ _ => preg) (fun _ _ _ _ => rfl) G g st hR hB
    exact ⟨h.1, h.2.1, fun hs => sqBack_back sq hsq qp _ reg G g _ h.1 h.2.1 (h.2.2 hs)⟩

theorem kktMain_ok (sq : K → K) (hsq : ∀ x, 0 < x → sq x * sq x = x) (qp : OcpQp K) (hwf : qp.WF) (hN : 1 ≤ qp.dim.N)
    (reg preg_last : K) (G g : ℕ → Vec K) : ∀ (fuel : ℕ) (preg : K) (init sqr : Bool) (st : KktSt K),
    ROk qp st → BOk qp st → ∀ preg' init' sqr' st',
    kktMain sq qp reg preg_last G g fuel preg init sqr st = some (preg', init', sqr', st') →
    BackOk qp (drOf qp sqr' reg preg') reg G g (ctgP qp.dim sqr' st') (ctgp qp.dim sqr' st') st' ∧
    (init' = false → preg' = preg ∧ sqr' = sqr ∧ init = false) ∧ (sqr = false → sqr' = false) ∧ (init = false → init' = true → sqr' = false) := by
  intro fuel
  induction fuel with
  | zero =>
    intro preg init sqr st hR hB preg' init' sqr' st' h
    have hp := pass_ok sq hsq qp hwf hN reg preg G g sqr st hR hB
    unfold kktMain at h
    simp only [] at h hp
    by_cases hs : (if sqr = true then sqBack sq qp reg preg G g st else clBack sq qp reg preg G g st).1 = true
    · rw [if_pos hs] at h; cases h
    rw [if_neg hs] at h
    simp only [Option.some.injEq, Prod.mk.injEq] at h
    obtain ⟨rfl, rfl, rfl, rfl⟩ := h
    exact ⟨hp.2.2 (by simpa using hs), fun h => ⟨rfl, rfl, h⟩, fun h => h, fun h h' => by rw [h] at h'; cases h'⟩
  | succ fuel ih =>
    intro preg init sqr st hR hB preg' init' sqr' st' h
    have hp := pass_ok sq hsq qp hwf hN reg preg G g sqr st hR hB
    unfold kktMain at h
    simp only [] at h hp
    by_cases hs : (if sqr = true then sqBack sq qp reg preg G g st else clBack sq qp reg preg G g st).1 = true
    · rw [if_pos hs] at h
      obtain ⟨h1, h2, h3, _⟩ := ih _ _ _ _ hp.1 hp.2.1 _ _ _ _ h
      refine ⟨h1, fun h => ?_, fun _ => h3 rfl, fun _ _ => h3 rfl⟩
      have := (h2 h).2.2
      simp at this
    · rw [if_neg hs] at h
      simp only [Option.some.injEq, Prod.mk.injEq] at h
      obtain ⟨rfl, rfl, rfl, rfl⟩ := h
      exact ⟨hp.2.2 (by simpa using hs), fun h => ⟨rfl, rfl, h⟩, fun h => h, fun h h' => by rw [h] at h'; cases h'⟩

/-- pivots of the eliminated variables are nonzero -/
theorem backOk_piv {qp : OcpQp K} {dr : ℕ → ℕ → K} {reg : K} {G g : ℕ → Vec K} {Pc : ℕ → Mat K} {p : ℕ → Vec K} {st : KktSt K}
    (h : BackOk qp dr reg G g Pc p st) (k j : ℕ) (hk : k ≤ qp.dim.N) (hj : j < nel qp.dim k) : st.L k j j ≠ 0 := by
  have := (h.fac.fac k hk).piv j (by
    simp only [RicData.ne, kData]
    unfold nel at hj
    split_ifs at hj ⊢ with h0
    · subst h0; exact hj
    · exact hj)
  exact this

/-- **C25, C26.**  Whenever the factorise-and-solve routine returns, its step solves the linearised KKT system of its
QP at the current iterate; the Hessian is shifted by `reg` on the slacks and on inputs and states by `reg` or, if the
routine had to increase the regularisation, by the value it reports (`drOf`).  Slacks may soften constraints in any
pattern in which no slack is shared. -/
theorem factSolve_newton (sq : K → K) (hsq : ∀ x, 0 < x → sq x * sq x = x) (fuel : ℕ) (qp : OcpQp K) (hwf : qp.WF)
    (hN : 1 ≤ qp.dim.N) (hu : Unshared qp) (sol : Sol K) (sqr : Bool) (reg preg_last : K) (c : Core K)
    (hc : CoreOf qp sol c) (ht : c.t_lam_min ≠ 1) (st : KktSt K) (hR : ROk qp st) (hB : BOk qp st)
    (hden : ∀ k i, k ≤ qp.dim.N → i < 2 * qp.dim.ns k → slackCurv qp reg sol k i ≠ 0)
    (out : KktOut K) (h : factSolveKktStep sq fuel qp true sqr reg preg_last c st = some out) :
    NewtonStep qp sol (drOf qp out.sqr reg out.preg) reg (stepOf out.st) ∧
    (out.npd_reg_hess = false → out.preg = reg ∧ out.sqr = sqr) := by
  unfold factSolveKktStep at h
  simp only [] at h
  have hcs := coreStep_gammaGamma qp sol c hc ht
  simp only [] at hcs
  set c' := computeGammaGamma (stFlat (nct qp.dim) qp.d (qp.dim.N + 1)) (stFlat (nct qp.dim) qp.m (qp.dim.N + 1)) c with hc'
  cases hm : kktMain sq qp reg preg_last (stView qp.dim c'.Gamma) (stView qp.dim c'.gamma) fuel reg false sqr st with
  | none => rw [hm] at h; cases h
  | some r =>
    obtain ⟨preg, init, sqr', st'⟩ := r
    rw [hm] at h
    simp only [Option.some.injEq] at h
    subst h
    obtain ⟨hb, h2, -, -⟩ := kktMain_ok sq hsq qp hwf hN reg preg_last _ _ fuel reg false sqr st hR hB _ _ _ _ hm
    have hF := fwd_done qp true sqr' hN st' (backOk_piv hb)
    refine ⟨(step_newton qp hwf hu sol _ reg _ _ c' hcs _ _ _ st' _ hb.ba hb.fac hb.rhs hb.slk hF hden).1, fun hi => ?_⟩
    exact ⟨(h2 hi).1, (h2 hi).2.1⟩

/-- masked-out constraints carry neither a multiplier nor a complementarity target -/
def MaskedOut (qp : OcpQp K) (sol : Sol K) : Prop := ∀ k j, k ≤ qp.dim.N → j < nct qp.dim k →
  qp.d_mask k j = 0 → sol.lam k j = 0 ∧ qp.m k j = 0

/-- a Newton step as seen by the routine that computes the residual of the Newton system -/
theorem newton_resLin (qp : OcpQp K) (hwf : qp.WF) (hm : Mask01 qp) (sol : Sol K) (hmo : MaskedOut qp sol)
    (hpos : ∀ k j, k ≤ qp.dim.N → j < nct qp.dim k → sol.t k j ≠ 0) (dr : ℕ → ℕ → K) (reg : K) (s : Sol K)
    (h : NewtonStep qp sol dr reg s) (res : Res K) (ws : ResWs K) (hws : ws.Ok qp) :
    let l := resComputeLin qp sol s res ws
    (∀ k i, k ≤ qp.dim.N → i < qp.dim.nu k + qp.dim.nx k → l.res_g k i = - dr k i * s.ux k i) ∧
    (∀ k i, k ≤ qp.dim.N → i < 2 * qp.dim.ns k → l.res_g k (qp.dim.nu k + qp.dim.nx k + i)
      = - reg * s.ux k (qp.dim.nu k + qp.dim.nx k + i)) ∧
    (∀ k i, k < qp.dim.N → i < qp.dim.nx (k + 1) → l.res_b k i = 0) ∧
    (∀ k j, k ≤ qp.dim.N → j < 2 * qp.dim.nb k + 2 * qp.dim.ng k + 2 * qp.dim.ns k → l.res_d k j = 0 ∧ l.res_m k j = 0) := by
  intro l
  have hv := resComputeLin_val qp hwf sol s res ws hws
  have hlam : ∀ k j, k ≤ qp.dim.N → j < nct qp.dim k → lamM qp s k j = s.lam k j := by
    intro k j hk hj
    rcases hm k j hk hj with h0 | h1
    · have h3 := h.m k j hk hj
      obtain ⟨e1, e2⟩ := hmo k j hk hj h0
      rw [e1, e2, zero_mul, zero_add, zero_add] at h3
      rw [lamM, h0, zero_mul]
      exact ((mul_eq_zero.mp h3).resolve_right (hpos k j hk hj)).symm
    · rw [lamM, h1, one_mul]
  refine ⟨fun k i hk hi => ?_, fun k i hk hi => ?_, fun k i hk hi => ?_, fun k j hk hj => ⟨?_, ?_⟩⟩
  · rw [(hv k hk).1.g i (by unfold nvt; omega), ← h.g k i hk hi]
    exact vG_congr qp s _ _ k i (fun j hj => hlam k j hk hj) (by unfold nvt; omega)
  · rw [(hv k hk).1.g _ (by unfold nvt; omega), ← h.gs k i hk hi]
    exact vG_congr qp s _ _ k _ (fun j hj => hlam k j hk hj) (by unfold nvt; omega)
  · rw [(hv k (le_of_lt hk)).1.b hk i hi, h.b k i hk hi]
  · rw [(hv k hk).1.d j hj, h.d k j hk hj, mul_zero]
  · rw [(hv k hk).2 j hj]
    simp only [vML]
    have := h.m k j hk hj
    rcases hm k j hk hj with h0 | h1
    · rw [h0, zero_mul]
    · rw [h1, one_mul]; linear_combination this

/-- **C25.**  Newton's method on the KKT conditions: compute the residuals of an iterate with nonzero slacks, let the
factorise-and-solve routine compute a step for them, and take the full step.  If the routine did not have to raise the
regularisation, then at the new point the dynamics and inequality residuals are zero, the complementarity residual is
the second order term, and the stationarity residual is `- reg` times the step: zero without regularisation. -/
theorem factSolve_full_step (sq : K → K) (hsq : ∀ x, 0 < x → sq x * sq x = x) (fuel : ℕ) (qp : OcpQp K) (hwf : qp.WF)
    (hN : 1 ≤ qp.dim.N) (hu : Unshared qp) (hm : Mask01 qp) (sol : Sol K)
    (hml : ∀ k j, k ≤ qp.dim.N → j < nct qp.dim k → qp.d_mask k j = 0 → sol.lam k j = 0)
    (sqr : Bool) (reg preg_last : K) (c : Core K)
    (hc : CoreOf qp sol c) (ht : c.t_lam_min ≠ 1) (st : KktSt K) (hR : ROk qp st) (hB : BOk qp st)
    (hden : ∀ k i, k ≤ qp.dim.N → i < 2 * qp.dim.ns k → slackCurv qp reg sol k i ≠ 0)
    (res res2 : Res K) (ws ws2 : ResWs K) (hws : ws.Ok qp) (hws2 : ws2.Ok qp)
    (out : KktOut K)
    (h : factSolveKktStep sq fuel (stepQp qp (resCompute qp sol res ws)) true sqr reg preg_last c st = some out)
    (hnpd : out.npd_reg_hess = false) :
    let step := stepOf out.st
    let r' := resCompute qp (sol.add step) res2 ws2
    (∀ k i, k ≤ qp.dim.N → i < qp.dim.nu k + qp.dim.nx k + 2 * qp.dim.ns k → r'.res_g k i = - reg * step.ux k i) ∧
    (∀ k i, k < qp.dim.N → i < qp.dim.nx (k + 1) → r'.res_b k i = 0) ∧
    (∀ k j, k ≤ qp.dim.N → j < 2 * qp.dim.nb k + 2 * qp.dim.ng k + 2 * qp.dim.ns k → r'.res_d k j = 0) ∧
    (∀ k j, k ≤ qp.dim.N → j < 2 * qp.dim.nb k + 2 * qp.dim.ng k + 2 * qp.dim.ns k →
      r'.res_m k j = qp.d_mask k j * (step.lam k j * step.t k j)) := by
  intro step r'
  set r := resCompute qp sol res ws with hr
  have hwf' : (stepQp qp r).WF := hwf
  have hN1 := factSolve_newton sq hsq fuel (stepQp qp r) hwf' hN hu sol sqr reg preg_last c ⟨hc.nc, hc.lam, hc.t, hc.pos⟩
    ht st hR hB hden out h
  have hval := (resCompute_val qp hwf sol res ws hws).1
  have hmo : MaskedOut (stepQp qp r) sol := by
    intro k j hk hj h0
    refine ⟨hml k j hk hj h0, ?_⟩
    have := (hval k hk).2 j hj
    refine this.trans ?_
    have h0' : qp.d_mask k j = 0 := h0
    rw [vM, h0', zero_mul]
  have hl := newton_resLin (stepQp qp r) hwf' hm sol hmo hc.pos _ reg step hN1.1 res ws hws
  have hf := resLin_zero_full_step qp hwf hm sol step res res res2 ws ws ws2 hws hws hws2
  simp only [] at hl hf
  have hdr : ∀ k i, drOf (stepQp qp r) out.sqr reg out.preg k i = reg := by
    intro k i
    rw [(hN1.2 hnpd).1]
    cases out.sqr
    · simp [drOf, drCl]
    · rfl
  refine ⟨fun k i hk hi => ?_, fun k i hk hi => ?_, fun k j hk hj => ?_, fun k j hk hj => ?_⟩
  · refine (hf.1 k i hk hi).trans ?_
    by_cases hi1 : i < qp.dim.nu k + qp.dim.nx k
    · rw [hl.1 k i hk hi1, hdr]
    · have := hl.2.1 k (i - (qp.dim.nu k + qp.dim.nx k)) hk (by show _ < 2 * qp.dim.ns k; omega)
      have e : (stepQp qp r).dim.nu k + (stepQp qp r).dim.nx k + (i - (qp.dim.nu k + qp.dim.nx k)) = i := by
        show qp.dim.nu k + qp.dim.nx k + (i - (qp.dim.nu k + qp.dim.nx k)) = i
        omega
      rw [e] at this
      exact this
  · exact (hf.2.1 k i hk hi).trans (hl.2.2.1 k i hk hi)
  · exact (hf.2.2.1 k j hk hj).trans (hl.2.2.2 k j hk hj).1
  · refine (hf.2.2.2 k j hk hj).trans ?_
    rw [(hl.2.2.2 k j hk hj).2, zero_add]

end
end Hpipm
