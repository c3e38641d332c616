/-
The tree solver for QPs without inequality constraints, TREE_OCP_QP_FACT_SOLVE_KKT_UNCONSTR (property C80).
-/
import Verif.TreeKktSolve
import Verif.KktUnc

namespace Hpipm
open Finset
set_option linter.unusedSectionVars false

section
variable {K : Type*} [Field K] [LinearOrder K] [IsStrictOrderedRing K]

/-- the memory `BA` holds the dynamics matrices of the tree QP (the row of the offset is not constrained) -/
def TBOk (t : TreeQp K) (BA : ℕ → Mat K) : Prop :=
  ∀ e i a, e < t.qp.dim.N → i < t.qp.dim.nu (t.dad (e + 1)) + t.qp.dim.nx (t.dad (e + 1)) → a < t.qp.dim.nx (e + 1) →
    BA e i a = t.qp.BAbt e i a

/-- state after `n` kids of node `k` -/
structure TUKids (t : TreeQp K) (k n : ℕ) (st0 st : KktSt K) : Prop where
  Lo : ∀ q, q ≠ k → st.L q = st0.L q
  Lk : ∀ i j, i < t.qp.dim.nu k + t.qp.dim.nx k → j ≤ i →
    st.L k i j = st0.L k i j + ∑ jj ∈ range n, kidM t (tP t st0.L) (t.kids k jj) i j
  Lr : ∀ j, j < t.qp.dim.nu k + t.qp.dim.nx k → st.L k (t.qp.dim.nu k + t.qp.dim.nx k) j =
    st0.L k (t.qp.dim.nu k + t.qp.dim.nx k) j + ∑ jj ∈ range n, kidm t (tP t st0.L) (tp t st0.L) (t.kids k jj) j
  ba : TBOk t st.BAbt

theorem tuKids_val (t : TreeQp K) (ht : t.TreeOk) (k : ℕ) (hk : k ≤ t.qp.dim.N) (st0 : KktSt K) (hB : TBOk t st0.BAbt) :
    TUKids t k (t.nkids k) st0 (loop (t.nkids k) (fun jj st => tuKid t k (t.kids k jj) st) st0) := by
  have h := loop_inv (fun n s => n ≤ t.nkids k → TUKids t k n st0 s) (t.nkids k)
    (fun jj st => tuKid t k (t.kids k jj) st) st0
    (fun _ => ⟨fun _ _ => rfl, fun i j _ _ => by simp, fun j _ => by simp, hB⟩)
    (fun n s hn hs _ => ?_) (le_refl _)
  · exact h
  have hs := hs (by omega)
  obtain ⟨hc1, hc2, hc3⟩ := ht.kid k n hk hn
  have hck : t.kids k n ≠ k := by omega
  have hLc := hs.Lo _ hck
  have hce : t.kids k n - 1 + 1 = t.kids k n := by omega
  have hp := kid_prod (t.qp.dim.nu k + t.qp.dim.nx k) (t.qp.dim.nu (t.kids k n)) (t.qp.dim.nx (t.kids k n)) (s.L (t.kids k n))
    (t.qp.BAbt (t.kids k n - 1)) (s.BAbt (t.kids k n - 1))
    (fun i a hi ha => hs.ba (t.kids k n - 1) i a (by omega) (by rw [hce, hc3]; exact hi) (by rw [hce]; exact ha))
    (t.qp.b (t.kids k n - 1)) s.AL0 s.tmpN (s.Pb (t.kids k n - 1))
  simp only [] at hp
  rw [hLc] at hp
  obtain ⟨p1, p2, -⟩ := hp
  refine ⟨fun q hq => ?_, fun i j hi hj => ?_, fun j hj => ?_, fun e i a he hi ha => ?_⟩
  · simp only [tuKid, upd_ne _ _ hq]; exact hs.Lo q hq
  · simp only [tuKid, upd_same, syrk_ln_mn]
    rw [if_pos (by omega)]
    simp only [Nat.sub_zero, zero_add, one_mul]
    rw [hs.Lk i j hi hj, sum_range_succ, add_assoc, hLc]
    congr 2
    exact p1 i j hi hj
  · simp only [tuKid, upd_same, syrk_ln_mn]
    rw [if_pos (by omega)]
    simp only [Nat.sub_zero, zero_add, one_mul]
    rw [hs.Lr j hj, sum_range_succ, add_assoc, hLc]
    congr 2
    exact p2 j hj
  · simp only [tuKid]
    by_cases hec : e = t.kids k n - 1
    · subst hec
      rw [hce, hc3] at hi
      rw [upd_same, rowin, if_neg (by omega)]
      exact hs.ba _ i a he (by rw [hce, hc3]; exact hi) ha
    · rw [upd_ne _ _ hec]; exact hs.ba e i a he hi ha

/-- the products of cost-to-go matrix and dynamics offset added (this routine does not store them) -/
def tPb (t : TreeQp K) (st : KktSt K) : KktSt K :=
  { st with Pb := fun e a => ∑ d ∈ range (t.qp.dim.nx (e + 1)), tP t st.L (e + 1) a d * t.qp.b e d }

theorem tuNode_val (sq : K → K) (t : TreeQp K) (ht : t.TreeOk) (hni : NoIneq t.qp) (k : ℕ)
    (hk : k ≤ t.qp.dim.N) (st : KktSt K) (hB : TBOk t st.BAbt) :
    (∀ q, q ≠ k → (tuNode sq t k st).L q = st.L q) ∧ TBOk t (tuNode sq t k st).BAbt ∧
    TNodeOk sq t (fun _ _ => 0) 0 (fun _ _ => 0) (fun _ _ => 0) k (tPb t (tuNode sq t k st)) := by
  set st1 : KktSt K := { st with L := upd st.L k (rowin (t.qp.dim.nu k + t.qp.dim.nx k) 1 (t.qp.rqz k) 0
    (trcp_l (t.qp.dim.nu k + t.qp.dim.nx k) (t.qp.RSQrq k) 0 0 (st.L k) 0 0) (t.qp.dim.nu k + t.qp.dim.nx k) 0) } with hst1
  have hK := tuKids_val t ht k hk st1 hB
  set s1 := loop (t.nkids k) (fun jj st => tuKid t k (t.kids k jj) st) st1 with hs1
  have hN : tuNode sq t k st = { s1 with L := upd s1.L k (potrf_l_mn sq (t.qp.dim.nu k + t.qp.dim.nx k + 1) (t.qp.dim.nu k + t.qp.dim.nx k) (s1.L k) (s1.L k)) } := rfl
  have h1 : ∀ q, q ≠ k → st1.L q = st.L q := fun q hq => upd_ne _ _ hq
  have h2 : ∀ q, q ≠ k → (tuNode sq t k st).L q = st.L q := fun q hq => by
    rw [hN]
    exact (upd_ne _ _ hq).trans ((hK.Lo q hq).trans (h1 q hq))
  refine ⟨h2, by rw [hN]; exact hK.ba, ⟨⟨fun i hi => ?_, fun i hi => ?_⟩, fun jj hjj a ha => ?_, s1.L k, s1.L k, ?_, ?_⟩⟩
  · have := (hni k hk).2.2; omega
  · have := (hni k hk).2.2; omega
  · have := (ht.kid k jj hk hjj).1
    have hce : t.kids k jj - 1 + 1 = t.kids k jj := by omega
    simp only [tPb, hce]
  · simp only [tPb, hN, upd_same]
  · have hkc := kids_congr t ht (fun _ _ => 0) 0 (fun _ _ => 0) (fun _ _ => 0) st1.L (tuNode sq t k st).L k hk
      (fun q hq => (h2 q (by omega)).trans (h1 q (by omega)).symm)
    show CMat _ _ (tM t _ _ _ (tP t (tuNode sq t k st).L) k) (tm t _ _ _ (tP t (tuNode sq t k st).L) (tp t (tuNode sq t k st).L) k)
    rw [hkc.1, hkc.2]
    refine ⟨fun i j hi hj => ?_, fun j hj => ?_⟩
    · rw [hK.Lk i j hi hj, tM, kH_noIneq hni _ _ _ k i j hk]
      congr 1
      simp only [hst1, upd_same]
      rw [rowin, if_neg (by omega), ite_self, add_zero, symL, if_pos hj]
      simp only [trcp_l]
      rw [if_pos (by omega)]
      simp only [Nat.sub_zero, zero_add]
    · rw [hK.Lr j hj, tm, kg_noIneq hni _ _ _ k j hk]
      congr 1
      simp only [hst1, upd_same]
      rw [rowin, if_pos (by omega)]
      simp

theorem tuBack_ok (sq : K → K) (t : TreeQp K) (ht : t.TreeOk) (hni : NoIneq t.qp) (st : KktSt K) (hB : TBOk t st.BAbt) :
    let st0 := loop (t.qp.dim.N + 1) (fun ii st => tuNode sq t (t.qp.dim.N - ii) st) st
    TBOk t st0.BAbt ∧ ∀ k, k ≤ t.qp.dim.N → TNodeOk sq t (fun _ _ => 0) 0 (fun _ _ => 0) (fun _ _ => 0) k (tPb t st0) := by
  intro st0
  have h := loop_inv (fun n s => n ≤ t.qp.dim.N + 1 → TBOk t s.BAbt ∧ ∀ k, k ≤ t.qp.dim.N → t.qp.dim.N + 1 ≤ k + n →
      TNodeOk sq t (fun _ _ => 0) 0 (fun _ _ => 0) (fun _ _ => 0) k (tPb t s))
    (t.qp.dim.N + 1) (fun ii st => tuNode sq t (t.qp.dim.N - ii) st) st (fun _ => ⟨hB, fun k hk hk2 => by omega⟩)
    (fun n s hn hs _ => ?_) (le_refl _)
  · exact ⟨h.1, fun k hk => h.2 k hk (by omega)⟩
  obtain ⟨hs1, hs2⟩ := hs (by omega)
  obtain ⟨hf, hb, ho⟩ := tuNode_val sq t ht hni (t.qp.dim.N - n) (by omega) s hs1
  refine ⟨hb, fun k hk hk2 => ?_⟩
  by_cases hkn : k = t.qp.dim.N - n
  · rw [hkn]; exact ho
  · have h1 := hs2 k hk (by omega)
    have hL : ∀ q, k ≤ q → (tuNode sq t (t.qp.dim.N - n) s).L q = s.L q := fun q hq => hf q (by omega)
    have hkc := kids_congr t ht (fun _ _ => 0) 0 (fun _ _ => 0) (fun _ _ => 0) s.L (tuNode sq t (t.qp.dim.N - n) s).L k hk
      (fun q hq => hL q (by omega))
    refine ⟨⟨fun i hi => ?_, fun i hi => ?_⟩, fun jj hjj a ha => ?_, ?_⟩
    · have := (hni k hk).2.2; omega
    · have := (hni k hk).2.2; omega
    · have := (ht.kid k jj hk hjj).1
      have hce : t.kids k jj - 1 + 1 = t.kids k jj := by omega
      simp only [tPb, hce]
    · obtain ⟨C, L0, e1, e2⟩ := h1.fac
      refine ⟨C, L0, (hL k (le_refl _)).trans e1, ?_⟩
      show CMat _ _ (tM t _ _ _ (tP t (tuNode sq t (t.qp.dim.N - n) s).L) k)
        (tm t _ _ _ (tP t (tuNode sq t (t.qp.dim.N - n) s).L) (tp t (tuNode sq t (t.qp.dim.N - n) s).L) k)
      rw [hkc.1, hkc.2]
      exact e2

theorem tuFwdKid_ok (t : TreeQp K) (k c : ℕ) (hkc : k ≠ c) (st : KktSt K)
    (hB : ∀ i a, i < t.qp.dim.nu k + t.qp.dim.nx k → a < t.qp.dim.nx c → st.BAbt (c - 1) i a = t.qp.BAbt (c - 1) i a) :
    TFKid t true k c (tP t st.L c) (tp t st.L c) st (tuFwdKid t k c st) := by
  refine ⟨⟨rfl, rfl, rfl⟩, fun q hq => ?_, fun i hi => ?_, fun a ha => ?_, fun _ a ha => ?_, fun e he => ?_⟩
  · simp only [tuFwdKid, upd_ne _ _ hq]
  · simp only [tuFwdKid, upd_same]
    rw [gemv_t, if_neg (by omega)]
  · simp only [tuFwdKid, upd_same]
    rw [gemv_t, if_pos (by omega)]
    simp only [Nat.add_sub_cancel_left, zero_add, one_mul]
    rw [add_comm]
    congr 1
    exact sum_congr rfl (fun j hj => by rw [hB j a (mem_range.mp hj) ha])
  · simp only [tuFwdKid, upd_same]
    exact fwd_pi _ _ _ _ _ _ a ha
  · simp only [tuFwdKid, upd_ne _ _ he]

theorem tuFwd_done (t : TreeQp K) (ht : t.TreeOk) (st : KktSt K) (hB : TBOk t st.BAbt)
    (hp : ∀ k, k ≤ t.qp.dim.N → ∀ j, j < tkN t k → st.L k j j ≠ 0) :
    TFDone t true (fun k l => st.L k (t.qp.dim.nu k + t.qp.dim.nx k) l) (tP t st.L) (tp t st.L) st
      (loop (t.qp.dim.N + 1) (fun ii st => tuFwdNode t ii st) st) := by
  refine tfwd t ht true _ _ _ st (tkHead t) (tuFwdKid t) (fun k hk s hf _ => ?_) (fun k jj hk hjj s hf _ => ?_)
  · have := tkHead_ok t k s (by rw [hf.L]; exact hp k hk)
    rw [hf.L] at this
    exact this
  · obtain ⟨g1, g2, g3⟩ := ht.kid k jj hk hjj
    have hce : t.kids k jj - 1 + 1 = t.kids k jj := by omega
    have := tuFwdKid_ok t k (t.kids k jj) (by omega) s (fun i a hi ha => by
      rw [hf.BAbt]
      exact hB _ i a (by omega) (by rw [hce, g3]; exact hi) (by rw [hce]; exact ha))
    rw [hf.L] at this
    exact this

/-- **C80.**  Without inequality constraints, and with strictly convex node costs, the one-shot solver returns the global
minimiser of the tree QP, and the multipliers make the Lagrangian stationary: the dynamics and stationarity residuals are zero.
The memory of the dynamics matrices must hold the matrices of the QP (their last row is overwritten). -/
theorem tree_unconstr_optimal (sq : K → K) (hsq : ∀ x, 0 < x → sq x * sq x = x) (t : TreeQp K) (ht : t.TreeOk) (hni : NoIneq t.qp)
    (hsc : StrictlyConvex t.qp (fun _ _ => 0) 0) (st : KktSt K) (hB : TBOk t st.BAbt) :
    (tview t).IsOpt (ptOf t.qp.dim (tunconstr sq t st).ux) ∧
    ∀ (res : Res K) (ws : ResWs K), ws.Ok t.qp →
      (∀ k i, k ≤ t.qp.dim.N → i < t.qp.dim.nu k + t.qp.dim.nx k →
        (tresCompute t (stepOf (tunconstr sq t st)) res ws).res_g k i = 0) ∧
      (∀ e i, e < t.qp.dim.N → i < t.qp.dim.nx (e + 1) → (tresCompute t (stepOf (tunconstr sq t st)) res ws).res_b e i = 0) := by
  obtain ⟨hb0, hok⟩ := tuBack_ok sq t ht hni st hB
  have hu : tunconstr sq t st = loop (t.qp.dim.N + 1) (fun ii st => tuFwdNode t ii st)
    (loop (t.qp.dim.N + 1) (fun ii st => tuNode sq t (t.qp.dim.N - ii) st) st) := rfl
  rw [hu]
  set st0 := loop (t.qp.dim.N + 1) (fun ii st => tuNode sq t (t.qp.dim.N - ii) st) st with hst0
  have hnn : ∀ k j, k ≤ t.qp.dim.N → j < 2 * t.qp.dim.nb k + 2 * t.qp.dim.ng k + 2 * t.qp.dim.ns k → False := by
    intro k j hk hj
    obtain ⟨e1, e2, e3⟩ := hni k hk
    omega
  have hpd : ∀ k, k ≤ t.qp.dim.N → Pd (t.qp.dim.nu k + t.qp.dim.nx k) (kH t.qp (fun _ _ => 0) 0 (fun _ _ => 0) k) := by
    intro k hk
    refine kH_pd hni.wf hsc ⟨fun _ _ => 0, fun _ _ => 0, fun _ _ => 1, fun _ _ => 1⟩ ?_ _ k hk (fun j hj => ?_)
    · exact fun k j hk hj => (hnn k j hk hj).elim
    · exact (hnn k j hk hj).elim
  have hp : ∀ k, k ≤ t.qp.dim.N → ∀ j, j < t.qp.dim.nu k + t.qp.dim.nx k → st0.L k j j ≠ 0 :=
    fun k hk j hj => (hok k hk).piv hsq (hpd k hk) j hj
  have hF := tuFwd_done t ht st0 hb0 (fun k hk j hj => hp k hk j (lt_of_lt_of_le hj (tkN_le t k)))
  set st1 := loop (t.qp.dim.N + 1) (fun ii st => tuFwdNode t ii st) st0 with hst1
  have hS := tsolves t ht (fun _ _ => 0) 0 (fun _ _ => 0) (fun _ _ => 0) _ _ _ st0 st1
    (tP_sym t st0.L) hF (fun k _ hk => ((hok k hk).ric hsq (hp k hk)).1)
    ((hok 0 (Nat.zero_le _)).ric hsq (hp 0 (Nat.zero_le _))).2
  have hlm : LamMasked t.qp (stepOf st1).lam := fun k j hk hj => (hnn k j hk hj).elim
  have key : ∀ (res : Res K) (ws : ResWs K), ws.Ok t.qp →
      (∀ k i, k ≤ t.qp.dim.N → i < t.qp.dim.nu k + t.qp.dim.nx k → (tresCompute t (stepOf st1) res ws).res_g k i = 0) ∧
      (∀ e i, e < t.qp.dim.N → i < t.qp.dim.nx (e + 1) → (tresCompute t (stepOf st1) res ws).res_b e i = 0) := by
    intro res ws hws
    have hv := tresCompute_val t ht hni.wf (stepOf st1) hlm res ws hws
    refine ⟨fun k i hk hi => ?_, fun e i he hi => ?_⟩
    · rw [hv.g k hk i (by unfold nvt; omega), tG, if_pos hi, vG_free_var _ _ _ _ _ hi]
      have h1 := hS.stat k i hk hi
      rw [kg_noIneq hni _ _ _ k i hk] at h1
      have e1 : ∑ j ∈ range (t.qp.dim.nu k + t.qp.dim.nx k), kH t.qp (fun _ _ => 0) 0 (fun _ _ => 0) k i j * st1.ux k j =
          hmul t.qp k ((stepOf st1).ux k) i := by
        unfold hmul
        exact sum_congr rfl (fun j _ => by rw [kH_noIneq hni _ _ _ k i j hk, ite_self, add_zero]; rfl)
      have e2 : ∀ v, cvalT t.qp k v i = 0 := fun v => by
        obtain ⟨g1, g2, -⟩ := hni k hk
        simp only [cvalT, g1, g2, range_zero, sum_empty, add_zero]
      rw [e1] at h1
      rw [e2]
      simp only [stepOf] at h1 ⊢
      linear_combination h1
    · have h1 := (ht.all (e + 1) (by omega) (by omega)).1
      rw [hv.b e he i hi]
      simp only [tB, stepOf]
      rw [hS.dyn e he i hi]
      ring
  refine ⟨?_, key⟩
  let r0 : Res K := ⟨fun _ _ => 0, fun _ _ => 0, fun _ _ => 0, fun _ _ => 0, 0, 0, 0, 0⟩
  let w0 : ResWs K := ⟨fun _ => 0, fun _ => 0, fun _ => 0, false, false, 0⟩
  have hw0 : w0.Ok t.qp := fun h => by simp [w0] at h
  obtain ⟨k1, k2⟩ := key r0 w0 hw0
  exact tres_zero_optimal t ht hni.wf (fun k j hk hj => (hnn k j hk hj).elim) hsc.convex (stepOf st1) hlm r0 w0 hw0
    (fun k i hk hi => k1 k i hk (by have := (hni k hk).2.2; omega)) k2
    (fun k j hk hj => (hnn k j hk hj).elim) (fun k j hk hj => (hnn k j hk hj).elim) (fun k j hk hj => (hnn k j hk hj).elim)

end
end Hpipm
