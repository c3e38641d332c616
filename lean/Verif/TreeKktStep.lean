/-
The search direction computed by the structured KKT solver for tree-structured QPs, tree_ocp_qp/x_tree_ocp_qp_kkt.c,
solves the Newton system (property C80).
-/
import Verif.TreeKktFwd
import Verif.TreeResEx

namespace Hpipm
open Finset
set_option linter.unusedSectionVars false

section
variable {K : Type*} [Field K] [LinearOrder K] [IsStrictOrderedRing K]

/-! ### the pieces of the forward substitution of the factorise-and-solve routine -/

theorem tkN_le (t : TreeQp K) (k : ℕ) : tkN t k ≤ t.qp.dim.nu k + t.qp.dim.nx k := by
  unfold tkN; split_ifs <;> omega

/-- `L (Lᵀ x + l)` as cost to go applied to `x` plus its gradient -/
theorem fwd_pi (nu1 n1 : ℕ) (L1 : Mat K) (du z tm0 : Vec K) (a : ℕ) (ha : a < n1) :
    trmv_lnn n1 L1 nu1 nu1 (axpy n1 1 (rowex n1 1 L1 (nu1 + n1) nu1 tm0 0) 0 (trmv_ltn n1 L1 nu1 nu1 du nu1 z 0) 0
        (trmv_ltn n1 L1 nu1 nu1 du nu1 z 0) 0) 0
      (axpy n1 1 (rowex n1 1 L1 (nu1 + n1) nu1 tm0 0) 0 (trmv_ltn n1 L1 nu1 nu1 du nu1 z 0) 0
        (trmv_ltn n1 L1 nu1 nu1 du nu1 z 0) 0) 0 a =
    ∑ d ∈ range n1, sqP nu1 n1 L1 a d * du (nu1 + d) + sqp nu1 n1 L1 a := by
  rw [trmv_lnn_at _ _ _ _ _ _ _ _ ha]
  simp only [zero_add]
  have e : ∀ l, l < n1 → axpy n1 1 (rowex n1 1 L1 (nu1 + n1) nu1 tm0 0) 0 (trmv_ltn n1 L1 nu1 nu1 du nu1 z 0) 0
        (trmv_ltn n1 L1 nu1 nu1 du nu1 z 0) 0 l =
      trmv_ltn n1 L1 nu1 nu1 du nu1 z 0 (0 + l) + L1 (nu1 + n1) (nu1 + l) := by
    intro l hl
    rw [axpy, if_pos (by omega), rowex, if_pos (by omega)]
    simp
  rw [← sq_mul nu1 n1 L1 du z z nu1 a ha, trmv_lnn_at _ _ _ _ _ _ _ _ ha, sqp, ← sum_add_distrib]
  apply sum_congr rfl
  intro l hl
  rw [e l (mem_range.mp hl)]
  simp only [low, Nat.add_le_add_iff_left]
  ring

theorem tkFwdKid_ok (t : TreeQp K) (dual : Bool) (k c : ℕ) (hkc : k ≠ c) (st : KktSt K) :
    TFKid t dual k c (tP t st.L c) (tp t st.L c) st (tkFwdKid t dual k c st) := by
  refine ⟨⟨rfl, rfl, rfl⟩, fun q hq => ?_, fun i hi => ?_, fun a ha => ?_, fun hd a ha => ?_, fun e he => ?_⟩
  · simp only [tkFwdKid, upd_ne _ _ hq]
  · simp only [tkFwdKid, upd_same]
    rw [gemv_t, if_neg (by omega)]
  · simp only [tkFwdKid, upd_same]
    rw [gemv_t, if_pos (by omega)]
    simp only [Nat.add_sub_cancel_left, zero_add, one_mul]
    ring
  · simp only [tkFwdKid, hd, if_true, upd_same]
    exact fwd_pi _ _ _ _ _ _ a ha
  · simp only [tkFwdKid]
    split_ifs
    · rw [upd_ne _ _ he]
    · rfl

/-- the part of a forward node before its kids -/
def tkHead (t : TreeQp K) (k : ℕ) (st : KktSt K) : KktSt K :=
  { st with ux := upd st.ux k (trsv_ltn_mn (t.qp.dim.nu k + t.qp.dim.nx k) (tkN t k) (st.L k)
      (rowex (tkN t k) (-1) (st.L k) (t.qp.dim.nu k + t.qp.dim.nx k) 0 (st.ux k) 0)) }

theorem tkHead_ok (t : TreeQp K) (k : ℕ) (st : KktSt K) (hp : ∀ j, j < tkN t k → st.L k j j ≠ 0) :
    TFHead t k (fun l => st.L k (t.qp.dim.nu k + t.qp.dim.nx k) l) st (tkHead t k st) := by
  refine ⟨⟨rfl, rfl, rfl⟩, rfl, fun q hq => ?_, fun i hi => ?_, fun j hj => ?_⟩
  · simp only [tkHead, upd_ne _ _ hq]
  · simp only [tkHead, upd_same]
    rw [trsv_ltn_mn_out _ _ _ _ _ hi, rowex, if_neg (by omega)]
  · simp only [tkHead, upd_same]
    rw [trsv_ltn_mn_spec _ _ (tkN_le t k) _ _ hp j hj, rowex, if_pos (by omega)]
    simp

theorem tkFwd_done (t : TreeQp K) (ht : t.TreeOk) (dual : Bool) (st : KktSt K)
    (hp : ∀ k, k ≤ t.qp.dim.N → ∀ j, j < tkN t k → st.L k j j ≠ 0) :
    TFDone t dual (fun k l => st.L k (t.qp.dim.nu k + t.qp.dim.nx k) l) (tP t st.L) (tp t st.L) st
      (loop (t.qp.dim.N + 1) (fun ss st => tkFwdNode t dual ss st) st) := by
  refine tfwd t ht dual _ _ _ st (tkHead t) (tkFwdKid t dual) (fun k hk s hf _ => ?_) (fun k jj hk hjj s hf _ => ?_)
  · have := tkHead_ok t k s (by rw [hf.L]; exact hp k hk)
    rw [hf.L] at this
    exact this
  · have := tkFwdKid_ok t dual k (t.kids k jj) (by have := (ht.kid k jj hk hjj).1; omega) s
    rw [hf.L] at this
    exact this

theorem tkFwd_L (t : TreeQp K) (dual : Bool) (st : KktSt K) :
    (loop (t.qp.dim.N + 1) (fun ss st => tkFwdNode t dual ss st) st).L = st.L := by
  refine loop_inv (fun _ (s : KktSt K) => s.L = st.L) _ _ _ rfl (fun n s _ hs => ?_)
  simp only [tkFwdNode]
  exact loop_inv (fun _ (s : KktSt K) => s.L = st.L) _ _ _ hs (fun m s' _ hs' => hs')

/-! ### the factorisation -/

theorem tP_sym (t : TreeQp K) (L : ℕ → Mat K) (c i j : ℕ) : tP t L c i j = tP t L c j i := sqP_sym _ _ _ _ _

theorem TNodeOk.ric {sq : K → K} (hsq : ∀ x, 0 < x → sq x * sq x = x) {t : TreeQp K} {dr : ℕ → ℕ → K} {reg : K}
    {G g : ℕ → Vec K} {k : ℕ} {st : KktSt K} (h : TNodeOk sq t dr reg G g k st)
    (hp : ∀ j, j < t.qp.dim.nu k + t.qp.dim.nx k → st.L k j j ≠ 0) :
    RicStage (t.qp.dim.nu k) (t.qp.dim.nx k) (tM t dr reg G (tP t st.L) k) (tm t reg G g (tP t st.L) (tp t st.L) k) (st.L k)
      (fun l => st.L k (t.qp.dim.nu k + t.qp.dim.nx k) l) (tP t st.L k) (tp t st.L k) ∧
    RicStage (t.qp.dim.nu k + t.qp.dim.nx k) 0 (tM t dr reg G (tP t st.L) k) (tm t reg G g (tP t st.L) (tp t st.L) k) (st.L k)
      (fun l => st.L k (t.qp.dim.nu k + t.qp.dim.nx k) l) (fun _ _ => 0) (fun _ => 0) := by
  obtain ⟨C, L0, h1, h2⟩ := h.fac
  have hr := potrf_rows sq hsq (t.qp.dim.nu k + t.qp.dim.nx k) _ (le_refl _) C L0 (st.L k) _ _ h1 h2 hp
  refine ⟨ric_sqrt hr.1 hr.2 hp (fun i j _ _ => tM_sym t dr reg G _ (tP_sym t st.L) k i j),
    ⟨fun i j hi hj hij => hr.1 i j hi hj hij, hr.2, fun i j hi => by omega, fun i hi => by omega, hp⟩⟩

theorem kidM_pd (t : TreeQp K) (L : ℕ → Mat K) (n : ℕ) (H : Mat K) (hH : Pd n H) (kid : ℕ → ℕ) (m : ℕ) :
    Pd n (fun i j => H i j + ∑ jj ∈ range m, kidM t (tP t L) (kid jj) i j) := by
  induction m with
  | zero => simpa using hH
  | succ m ih =>
    have := ricM_pd n (t.qp.dim.nx (kid m)) _ (t.qp.BAbt (kid m - 1)) (tP t L (kid m)) ih (sqP_psd _ _ _)
    intro x hx
    have h1 := this x hx
    rw [qform_congr n _ (fun i j => H i j + ∑ jj ∈ range (m + 1), kidM t (tP t L) (kid jj) i j) x x (fun i j _ _ => by
      simp only [ricM, sum_range_succ, kidM, add_assoc]) (fun _ _ => rfl)] at h1
    exact h1

/-- positive pivots for a positive definite Hessian -/
theorem TNodeOk.piv {sq : K → K} (hsq : ∀ x, 0 < x → sq x * sq x = x) {t : TreeQp K} {dr : ℕ → ℕ → K} {reg : K}
    {G g : ℕ → Vec K} {k : ℕ} {st : KktSt K} (h : TNodeOk sq t dr reg G g k st)
    (hH : Pd (t.qp.dim.nu k + t.qp.dim.nx k) (kH t.qp dr reg G k)) (j : ℕ) (hj : j < t.qp.dim.nu k + t.qp.dim.nx k) :
    st.L k j j ≠ 0 := by
  obtain ⟨C, L0, h1, h2⟩ := h.fac
  rw [h1]
  exact potrf_pd sq hsq _ _ (le_refl _) C L0 _ _ h2 (fun i j _ _ => tM_sym t dr reg G _ (tP_sym t st.L) k i j)
    (kidM_pd t st.L _ _ hH (t.kids k) (t.nkids k)) j hj

/-! ### the step -/

/-- the step `s` solves the linearised KKT system of the tree QP `t` at the iterate `sol`, with Hessian shift `reg` -/
structure TNewton (t : TreeQp K) (sol : Sol K) (reg : K) (s : Sol K) : Prop where
  g : ∀ k i, k ≤ t.qp.dim.N → i < nvt t.qp.dim k → tG t s (s.lam k) k i = - reg * s.ux k i
  b : ∀ e i, e < t.qp.dim.N → i < t.qp.dim.nx (e + 1) → tB t s e i = 0
  d : ∀ k j, k ≤ t.qp.dim.N → j < nct t.qp.dim k → vD t.qp s k j = 0
  m : ∀ k j, k ≤ t.qp.dim.N → j < nct t.qp.dim k → t.qp.m k j + sol.lam k j * s.t k j + s.lam k j * sol.t k j = 0

theorem vG_free_slack (qp : OcpQp K) (s : Sol K) (lm : Vec K) (k q : ℕ) :
    vG (freeQp qp) s lm k (qp.dim.nu k + qp.dim.nx k + q) = vG qp s lm k (qp.dim.nu k + qp.dim.nx k + q) := by
  have hi : ¬ (qp.dim.nu k + qp.dim.nx k + q < qp.dim.nu k + qp.dim.nx k) := by omega
  have a3 : ∀ v s, slkT (freeQp qp) k v s = slkT qp k v s := fun v s => rfl
  simp only [freeQp] at a3
  simp only [vG, freeQp, a3]
  rw [if_neg hi, if_neg hi]

theorem vG_free_var (qp : OcpQp K) (s : Sol K) (lm : Vec K) (k i : ℕ) (hi : i < qp.dim.nu k + qp.dim.nx k) :
    vG (freeQp qp) s lm k i = hmul qp k (s.ux k) i + qp.rqz k i
      - (if 0 < k ∧ qp.dim.nu k ≤ i then s.pi (k - 1) (i - qp.dim.nu k) else 0)
      + cvalT qp k (fun j => lm (qp.dim.nb k + qp.dim.ng k + j) - lm j) i := by
  have e : vG (freeQp qp) s lm k i = 
      hmul qp k (s.ux k) i + qp.rqz k i
      - (if 0 < k ∧ qp.dim.nu k ≤ i then s.pi (k - 1) (i - qp.dim.nu k) else 0)
      + cvalT qp k (fun j => lm (qp.dim.nb k + qp.dim.ng k + j) - lm j) i
      + (if k < qp.dim.N then ∑ j ∈ range (qp.dim.nx (k + 1)), (0 : K) * s.pi k j else 0) := if_pos hi
  rw [e]
  simp only [zero_mul, sum_const_zero, ite_self, add_zero]

theorem tree_step_newton (t : TreeQp K) (ht : t.TreeOk) (hwf : t.qp.WF) (hu : Unshared t.qp) (sol : Sol K) (reg : K)
    (G g : ℕ → Vec K) (c : Core K) (hc : CoreStep t.qp sol c G g) (st0 st1 : KktSt K)
    (hZ : st1.Zs = st0.Zs) (hx : ∀ k i, t.qp.dim.nu k + t.qp.dim.nx k ≤ i → st1.ux k i = st0.ux k i)
    (hS : TSolves t (fun _ _ => reg) reg G g st1.ux st1.pi)
    (hslk : ∀ k, k ≤ t.qp.dim.N → StSlk t.qp reg G g k st0)
    (hden : ∀ k i, k ≤ t.qp.dim.N → i < 2 * t.qp.dim.ns k → slackCurv t.qp reg sol k i ≠ 0) :
    TNewton t sol reg (stepOf (kktTail t.qp G c st1)) := by
  have hT := kktTail_ok t.qp hwf G c hc.of.nc st1
  have hE : StepEq t.qp reg G g st1.ux (stepOf (kktTail t.qp G c st1)) := by
    refine ⟨hT.uxv, fun k i hk hi => ?_, fun k i hk hi => ?_, fun k j hk hj => ?_⟩
    · refine (hT.sl k i hk hi).trans ?_
      rw [hZ, hx k _ (by omega), (hslk k hk).Zs i (by omega), (hslk k hk).ux i (by omega)]
    · refine (hT.su k i hk hi).trans ?_
      rw [hZ, hx k _ (by omega), (hslk k hk).Zs _ (by omega)]
      have := (hslk k hk).ux (t.qp.dim.ns k + i) (by omega)
      rw [← add_assoc] at this
      rw [this]
    · refine (hT.lam k j hk hj).trans ?_
      rw [hc.ti k j hk hj, hc.of.lam k j hk hj, hc.G k j hk hj, hc.g k j hk hj, wG, wg]
      simp only [stepOf]
      ring
  have hpi : (stepOf (kktTail t.qp G c st1)).pi = st1.pi := hT.pi
  set s := stepOf (kktTail t.qp G c st1) with hs
  refine ⟨fun k i hk hi => ?_, fun e i he hi => ?_, fun k j hk hj => ?_, fun k j hk hj => ?_⟩
  · by_cases hiv : i < t.qp.dim.nu k + t.qp.dim.nx k
    · have h1 := hS.stat k i hk hiv
      rw [kH_apply t.qp hwf (fun _ _ => reg) reg G k i hk hiv (st1.ux k)] at h1
      have e2 : cvalT t.qp k (fun j => s.lam k (t.qp.dim.nb k + t.qp.dim.ng k + j) - s.lam k j) i =
          cvalT t.qp k (fun l => kTh t.qp reg G k l * cval t.qp k (st1.ux k) l) i + cvalT t.qp k (kVt t.qp reg G g k) i := by
        rw [← cvalT_add]
        exact cvalT_congr t.qp k _ _ i (fun j hj => hE.elim hwf hu k j hk hj)
      have e3 : hmul t.qp k (s.ux k) i = hmul t.qp k (st1.ux k) i := by
        unfold hmul
        exact sum_congr rfl (fun j hj => by rw [hE.uxv k j hk (mem_range.mp hj)])
      have e4 : vG (freeQp t.qp) s (s.lam k) k i = hmul t.qp k (s.ux k) i + t.qp.rqz k i
          - (if 0 < k ∧ t.qp.dim.nu k ≤ i then s.pi (k - 1) (i - t.qp.dim.nu k) else 0)
          + cvalT t.qp k (fun j => s.lam k (t.qp.dim.nb k + t.qp.dim.ng k + j) - s.lam k j) i := by
        exact vG_free_var t.qp s _ k i hiv
      rw [tG, if_pos hiv, e4, e2, e3, hE.uxv k i hk hiv, hpi]
      unfold kg at h1
      linear_combination h1
    · obtain ⟨q, rfl⟩ : ∃ q, i = t.qp.dim.nu k + t.qp.dim.nx k + q := ⟨i - (t.qp.dim.nu k + t.qp.dim.nx k), by omega⟩
      have hq : q < 2 * t.qp.dim.ns k := by unfold nvt at hi; omega
      rw [tG, if_neg (by omega), add_zero]
      have := hE.slack hwf k q hk hq (by
        rw [slkDen_curv t.qp hwf reg sol G k q hk hq (fun j hj => hc.G k j hk hj)]
        exact hden k q hk hq)
      rw [← this]
      exact vG_free_slack t.qp s _ k q
  · have hd := hS.dyn e he i hi
    simp only [tB]
    have hdN : t.dad (e + 1) ≤ t.qp.dim.N := by have := (ht.all (e + 1) (by omega) (by omega)).1; omega
    have e5 : ∑ j ∈ range (t.qp.dim.nu (t.dad (e + 1)) + t.qp.dim.nx (t.dad (e + 1))), t.qp.BAbt e j i * s.ux (t.dad (e + 1)) j =
        ∑ j ∈ range (t.qp.dim.nu (t.dad (e + 1)) + t.qp.dim.nx (t.dad (e + 1))), t.qp.BAbt e j i * st1.ux (t.dad (e + 1)) j :=
      sum_congr rfl (fun j hj => by rw [hE.uxv _ j hdN (mem_range.mp hj)])
    rw [hE.uxv (e + 1) _ (by omega) (by omega), hd, e5]; ring
  · rw [vD_wval]
    have : s.t k j = _ := hT.t k j hk hj
    rw [this]
    simp only [hs, stepOf]
    ring
  · have h1 : s.t k j = _ := hT.t k j hk hj
    have h2 : s.lam k j = _ := hT.lam k j hk hj
    rw [h1, h2, hc.ti k j hk hj, hc.of.lam k j hk hj]
    have := hc.of.pos k j hk hj
    field_simp
    ring

/-- **C80.**  The factorise-and-solve routine of the tree solver: if no pivot of the factorisation was replaced, the step
solves the linearised KKT system of the tree QP at the current iterate, with the Hessian shifted by `reg`. -/
theorem tree_newton (sq : K → K) (hsq : ∀ x, 0 < x → sq x * sq x = x) (t : TreeQp K) (ht : t.TreeOk) (hwf : t.qp.WF)
    (hu : Unshared t.qp) (sol : Sol K) (reg : K) (c : Core K) (hc : CoreOf t.qp sol c) (hmin : c.t_lam_min ≠ 1) (st : KktSt K)
    (hden : ∀ k i, k ≤ t.qp.dim.N → i < 2 * t.qp.dim.ns k → slackCurv t.qp reg sol k i ≠ 0)
    (hp : ∀ k, k ≤ t.qp.dim.N → ∀ j, j < t.qp.dim.nu k + t.qp.dim.nx k → (tkktStep sq t true reg c st).2.L k j j ≠ 0) :
    TNewton t sol reg (stepOf (tkktStep sq t true reg c st).2) := by
  have hcs := coreStep_gammaGamma t.qp sol c hc hmin
  simp only [] at hcs
  unfold tkktStep at hp ⊢
  simp only [] at hp ⊢
  set c' := computeGammaGamma (stFlat (nct t.qp.dim) t.qp.d (t.qp.dim.N + 1)) (stFlat (nct t.qp.dim) t.qp.m (t.qp.dim.N + 1)) c with hc'
  set st0 := tkBack sq t reg (stView t.qp.dim c'.Gamma) (stView t.qp.dim c'.gamma) st with hst0
  have hok := tkBack_ok sq t ht hwf reg (stView t.qp.dim c'.Gamma) (stView t.qp.dim c'.gamma) st
  rw [← hst0] at hok
  set st1 := loop (t.qp.dim.N + 1) (fun ss st => tkFwdNode t true ss st) st0 with hst1
  have hfr : st1.L = st0.L := tkFwd_L t true st0
  have hL : (kktTail t.qp (stView t.qp.dim c'.Gamma) c' st1).L = st0.L :=
    (kktTail_ok t.qp hwf _ c' hcs.of.nc st1).L.trans hfr
  rw [hL] at hp
  have hF := tkFwd_done t ht true st0 (fun k hk j hj => hp k hk j (lt_of_lt_of_le hj (tkN_le t k)))
  have hS := tsolves t ht (fun _ _ => reg) reg (stView t.qp.dim c'.Gamma) (stView t.qp.dim c'.gamma) _ _ _ st0 st1
    (tP_sym t st0.L) hF (fun k _ hk => ((hok k hk).ric hsq (hp k hk)).1)
    ((hok 0 (Nat.zero_le _)).ric hsq (hp 0 (Nat.zero_le _))).2
  exact tree_step_newton t ht hwf hu sol reg _ _ c' hcs st0 st1 hF.fr.Zs hF.uxs hS (fun k hk => (hok k hk).slk) hden

/-- with a strictly convex (regularised) objective and an interior iterate no pivot is replaced -/
theorem tkkt_piv (sq : K → K) (hsq : ∀ x, 0 < x → sq x * sq x = x) (t : TreeQp K) (ht : t.TreeOk) (hwf : t.qp.WF)
    (dual : Bool) (sol : Sol K) (hint : Interior t.qp sol) (reg : K) (hsc : StrictlyConvex t.qp (fun _ _ => reg) reg)
    (c : Core K) (hc : CoreOf t.qp sol c) (hmin : c.t_lam_min ≠ 1) (st : KktSt K) (k : ℕ) (hk : k ≤ t.qp.dim.N) (j : ℕ)
    (hj : j < t.qp.dim.nu k + t.qp.dim.nx k) : (tkktStep sq t dual reg c st).2.L k j j ≠ 0 := by
  have hcs := coreStep_gammaGamma t.qp sol c hc hmin
  simp only [] at hcs
  unfold tkktStep
  simp only []
  set c' := computeGammaGamma (stFlat (nct t.qp.dim) t.qp.d (t.qp.dim.N + 1)) (stFlat (nct t.qp.dim) t.qp.m (t.qp.dim.N + 1)) c with hc'
  have hok := tkBack_ok sq t ht hwf reg (stView t.qp.dim c'.Gamma) (stView t.qp.dim c'.gamma) st
  set st0 := tkBack sq t reg (stView t.qp.dim c'.Gamma) (stView t.qp.dim c'.gamma) st with hst0
  set st1 := loop (t.qp.dim.N + 1) (fun ss st => tkFwdNode t dual ss st) st0 with hst1
  have hfr : st1.L = st0.L := tkFwd_L t dual st0
  have hL : (kktTail t.qp (stView t.qp.dim c'.Gamma) c' st1).L = st0.L :=
    (kktTail_ok t.qp hwf _ c' hcs.of.nc st1).L.trans hfr
  rw [hL]
  exact (hok k hk).piv hsq (kH_pd hwf hsc sol hint _ k hk (fun j hj => hcs.G k j hk hj)) j hj

/-- **C80.**  With a strictly convex (regularised) objective and an interior iterate the tree solver always computes the
Newton step. -/
theorem tree_newton_convex (sq : K → K) (hsq : ∀ x, 0 < x → sq x * sq x = x) (t : TreeQp K) (ht : t.TreeOk) (hwf : t.qp.WF)
    (hu : Unshared t.qp) (sol : Sol K) (hint : Interior t.qp sol) (reg : K) (hsc : StrictlyConvex t.qp (fun _ _ => reg) reg)
    (c : Core K) (hc : CoreOf t.qp sol c) (hmin : c.t_lam_min ≠ 1) (st : KktSt K) :
    TNewton t sol reg (stepOf (tkktStep sq t true reg c st).2) :=
  tree_newton sq hsq t ht hwf hu sol reg c hc hmin st (fun k i hk hi => ne_of_gt (slackCurv_pos hsc sol hint k i hk hi))
    (fun k hk j hj => tkkt_piv sq hsq t ht hwf true sol hint reg hsc c hc hmin st k hk j hj)

/-- **C80.**  A Newton step as seen by the routine that computes the residual of the Newton system. -/
theorem tree_newton_resLin (t : TreeQp K) (ht : t.TreeOk) (hwf : t.qp.WF) (hm : Mask01 t.qp) (sol : Sol K) (hmo : MaskedOut t.qp sol)
    (hpos : ∀ k j, k ≤ t.qp.dim.N → j < nct t.qp.dim k → sol.t k j ≠ 0) (reg : K) (s : Sol K)
    (h : TNewton t sol reg s) (res : Res K) (ws : ResWs K) (hws : ws.Ok t.qp) :
    let D := t.qp.dim
    let l := tresComputeLin t sol s res ws
    LamMasked t.qp s.lam ∧
    (∀ k i, k ≤ D.N → i < D.nu k + D.nx k + 2 * D.ns k → l.res_g k i = - reg * s.ux k i) ∧
    (∀ e i, e < D.N → i < D.nx (e + 1) → l.res_b e i = 0) ∧
    (∀ k j, k ≤ D.N → j < 2 * D.nb k + 2 * D.ng k + 2 * D.ns k → l.res_d k j = 0 ∧ l.res_m k j = 0) := by
  intro D l
  have hv := tresComputeLin_val t ht hwf sol s res ws hws
  have hlam : ∀ k j, k ≤ t.qp.dim.N → j < nct t.qp.dim k → lamM t.qp s k j = s.lam k j := by
    intro k j hk hj
    rcases hm k j hk hj with h0 | h1
    · have h3 := h.m k j hk hj
      obtain ⟨e1, e2⟩ := hmo k j hk hj h0
      rw [e1, e2, zero_mul, zero_add, zero_add] at h3
      rw [lamM, h0, zero_mul]
      exact ((mul_eq_zero.mp h3).resolve_right (hpos k j hk hj)).symm
    · rw [lamM, h1, one_mul]
  refine ⟨fun k j hk hj => hlam k j hk hj, fun k i hk hi => ?_, fun e i he hi => ?_, fun k j hk hj => ⟨?_, ?_⟩⟩
  · have e1 := hv.g k (Nat.lt_succ_of_le hk) i hi
    refine e1.trans ?_
    rw [← h.g k i hk hi, tG, tG]
    congr 1
    exact vG_congr (freeQp t.qp) s _ _ k i (fun j hj => hlam k j hk hj) hi
  · have he' : e < t.qp.dim.N := he
    refine (hv.b e he ?_ i hi).trans (h.b e i he hi)
    have := (ht.all (e + 1) (by omega) (by omega)).1
    omega
  · refine (hv.d k (Nat.lt_succ_of_le hk) j hj).trans ?_
    rw [h.d k j hk hj, mul_zero]
  · refine (hv.m k (Nat.lt_succ_of_le hk) j hj).trans ?_
    simp only [vML]
    have := h.m k j hk hj
    rcases hm k j hk hj with h0 | h1
    · rw [h0, zero_mul]
    · rw [h1, one_mul]; linear_combination this

/-- **C80.**  Newton's method on the KKT conditions of a tree QP: compute the residuals of an interior iterate, let the
factorise-and-solve routine compute a step for them, and take the full step: the dynamics residuals of all edges and the
inequality residuals are zero, the complementarity residual is the second order term, and the stationarity residual is
`- reg` times the step. -/
theorem tree_full_step (sq : K → K) (hsq : ∀ x, 0 < x → sq x * sq x = x) (t : TreeQp K) (ht : t.TreeOk) (hwf : t.qp.WF)
    (hu : Unshared t.qp) (hm : Mask01 t.qp) (sol : Sol K) (hint : Interior t.qp sol)
    (hml : LamMasked t.qp sol.lam)
    (reg : K) (hsc : StrictlyConvex t.qp (fun _ _ => reg) reg) (c : Core K)
    (hc : CoreOf t.qp sol c) (hmin : c.t_lam_min ≠ 1) (st : KktSt K)
    (res res2 : Res K) (ws ws2 : ResWs K) (hws : ws.Ok t.qp) (hws2 : ws2.Ok t.qp) :
    let D := t.qp.dim
    let step := stepOf (tkktStep sq (tstepQp t (tresCompute t sol res ws)) true reg c st).2
    let r' := tresCompute t (sol.add step) res2 ws2
    (∀ k i, k ≤ D.N → i < D.nu k + D.nx k + 2 * D.ns k → r'.res_g k i = - reg * step.ux k i) ∧
    (∀ e i, e < D.N → i < D.nx (e + 1) → r'.res_b e i = 0) ∧
    (∀ k j, k ≤ D.N → j < 2 * D.nb k + 2 * D.ng k + 2 * D.ns k → r'.res_d k j = 0) ∧
    (∀ k j, k ≤ D.N → j < 2 * D.nb k + 2 * D.ng k + 2 * D.ns k →
      r'.res_m k j = t.qp.d_mask k j * (step.lam k j * step.t k j)) := by
  intro D step r'
  set r := tresCompute t sol res ws with hr
  have hts : (tstepQp t r).TreeOk := ⟨ht.kid, ht.inj, ht.all⟩
  have hwf' : (tstepQp t r).qp.WF := ⟨hwf.1, hwf.2⟩
  have hN := tree_newton_convex sq hsq (tstepQp t r) hts hwf' hu sol hint reg hsc c ⟨hc.nc, hc.lam, hc.t, hc.pos⟩ hmin st
  have hval := tresCompute_val t ht hwf sol hml res ws hws
  have hmo : MaskedOut (tstepQp t r).qp sol := by
    intro k j hk hj h0
    have h0' : t.qp.d_mask k j = 0 := h0
    refine ⟨?_, ?_⟩
    · have := hml k j hk hj
      rw [h0', zero_mul] at this
      exact this.symm
    · have := hval.m k hk j hj
      refine this.trans ?_
      rw [vM, h0', zero_mul]
  have hl := tree_newton_resLin (tstepQp t r) hts hwf' hm sol hmo hc.pos reg step hN res ws hws
  have hf := tresLin_full_step t ht hwf hm sol step hml hl.1 res res res2 ws ws ws2 hws hws hws2
  simp only [] at hl hf
  refine ⟨fun k i hk hi => ?_, fun k i hk hi => ?_, fun k j hk hj => ?_, fun k j hk hj => ?_⟩
  · exact (hf.1 k i hk hi).trans (hl.2.1 k i hk hi)
  · exact (hf.2.1 k i hk hi).trans (hl.2.2.1 k i hk hi)
  · exact (hf.2.2.1 k j hk hj).trans (hl.2.2.2 k j hk hj).1
  · refine (hf.2.2.2 k j hk hj).trans ?_
    rw [(hl.2.2.2 k j hk hj).2, zero_add]

end
end Hpipm
