/-
The Riccati getters (C60): after the solver has factorised, `K`, `k` returned by the getters are the optimal feedback law, `P`,
`p` the cost to go, for every trajectory of the system.
-/
import Verif.Ric

namespace Hpipm
open Finset
set_option linter.unusedSectionVars false

section
variable {K : Type*} [Field K] [LinearOrder K] [IsStrictOrderedRing K]

/-! ### specification -/

/-- the input commanded by the returned feedback law in state `p.x k` -/
def RicGot.cmd (U : UserQp K) (G : RicGot K) (p : Pt K) (k i : ℕ) : K :=
  ∑ a ∈ range (U.nx k), G.gain k i a * p.x k a + G.ffw k i

/-- the returned quadratic function of the state, up to a constant -/
def RicGot.ctg (U : UserQp K) (G : RicGot K) (p : Pt K) (k : ℕ) : K :=
  1 / 2 * (∑ i ∈ range (U.nx k), ∑ j ∈ range (U.nx k), G.P k i j * p.x k i * p.x k j) + ∑ i ∈ range (U.nx k), G.p k i * p.x k i

/-- cost of a stage with Hessian shift `dr` (regularisation; inputs first) and an additional term -/
def ricStageCost (U : UserQp K) (dr : ℕ → ℕ → K) (ex : Pt K → ℕ → K) (p : Pt K) (k : ℕ) : K :=
  U.stageQuad p k + U.stageLin p k
    + 1 / 2 * (∑ i ∈ range (U.nu k), dr k i * p.u k i * p.u k i + ∑ i ∈ range (U.nx k), dr k (U.nu k + i) * p.x k i * p.x k i)
    + ex p k

/-- the trajectory obeys the dynamics from stage `k` on -/
def TailDyn (U : UserQp K) (p : Pt K) (k : ℕ) : Prop := ∀ j i, k ≤ j → j < U.N → i < U.nx (j + 1) → U.dynDefect p j i = 0

/-- weighted square of the deviation of the inputs of stage `k` from the feedback law, with the weight `Lr Lr'` -/
def RicGot.miss (U : UserQp K) (G : RicGot K) (p : Pt K) (k : ℕ) : K :=
  ∑ l ∈ range (U.nu k), (∑ i ∈ range (U.nu k), (if l ≤ i then G.Lr k i l else 0) * (p.u k i - G.cmd U p k i)) ^ 2

/-- the returned arrays describe the trajectory `p` with multipliers `pi`: inputs by the feedback law, multipliers of the dynamics as
gradient of the cost to go, triangular factors nonsingular, `Ls` the coupling block (`Lr' K + Ls' = 0`), `lr` the linear term
(`Lr' k + lr = 0`) -/
structure RicLaw (U : UserQp K) (G : RicGot K) (p : Pt K) (pi : ℕ → ℕ → K) : Prop where
  u : ∀ k i, k ≤ U.N → i < U.nu k → p.u k i = G.cmd U p k i
  pi : ∀ k a, k < U.N → a < U.nx (k + 1) → pi k a = ∑ c ∈ range (U.nx (k + 1)), G.P (k + 1) a c * p.x (k + 1) c + G.p (k + 1) a
  piv : ∀ k j, k ≤ U.N → j < U.nu k → G.Lr k j j ≠ 0
  gain : ∀ k a j, k ≤ U.N → a < U.nx k → j < U.nu k →
    ∑ i ∈ range (U.nu k), (if j ≤ i then G.Lr k i j else 0) * G.gain k i a + G.Ls k a j = 0
  ffw : ∀ k j, k ≤ U.N → j < U.nu k → ∑ i ∈ range (U.nu k), (if j ≤ i then G.Lr k i j else 0) * G.ffw k i + G.lr k j = 0
  sym : ∀ k i j, k ≤ U.N → i < U.nx k → j < U.nx k → G.P k i j = G.P k j i

/-- the returned arrays solve the problem by dynamic programming: from every stage on, every trajectory costs the cost to go of its
first state plus half the weighted squared deviations from the feedback law -/
def RicDp (U : UserQp K) (dr : ℕ → ℕ → K) (ex : Pt K → ℕ → K) (G : RicGot K) : Prop :=
  ∀ k, k ≤ U.N → ∃ c, ∀ p, TailDyn U p k →
    ∑ j ∈ Ico k (U.N + 1), ricStageCost U dr ex p j = G.ctg U p k + c + 1 / 2 * ∑ j ∈ Ico k (U.N + 1), G.miss U p j

/-- consequence: the returned quadratic function is the optimal cost from stage `k` on, and the feedback law the unique optimal
policy -/
theorem RicDp.optimal {U : UserQp K} {dr : ℕ → ℕ → K} {ex : Pt K → ℕ → K} {G : RicGot K} (h : RicDp U dr ex G)
    (hp : ∀ k j, k ≤ U.N → j < U.nu k → G.Lr k j j ≠ 0) (k : ℕ) (hk : k ≤ U.N) : ∃ c, ∀ p, TailDyn U p k →
    G.ctg U p k + c ≤ ∑ j ∈ Ico k (U.N + 1), ricStageCost U dr ex p j ∧
    (∑ j ∈ Ico k (U.N + 1), ricStageCost U dr ex p j = G.ctg U p k + c ↔ ∀ j i, k ≤ j → j ≤ U.N → i < U.nu j → p.u j i = G.cmd U p j i) := by
  obtain ⟨c, hc⟩ := h k hk
  refine ⟨c, fun p hp' => ?_⟩
  rw [hc p hp']
  have h0 : ∀ j, 0 ≤ G.miss U p j := fun j => sum_nonneg (fun l _ => sq_nonneg _)
  have h1 : 0 ≤ ∑ j ∈ Ico k (U.N + 1), G.miss U p j := sum_nonneg (fun j _ => h0 j)
  refine ⟨by linarith, ?_⟩
  have e : (G.ctg U p k + c + 1 / 2 * ∑ j ∈ Ico k (U.N + 1), G.miss U p j = G.ctg U p k + c) ↔
      ∑ j ∈ Ico k (U.N + 1), G.miss U p j = 0 := by
    constructor
    · intro h; linarith
    · intro h; rw [h]; ring
  rw [e, sum_eq_zero_iff_of_nonneg (fun j _ => h0 j)]
  constructor
  · intro hz j i hkj hj hi
    have hm := hz j (mem_Ico.mpr ⟨hkj, by omega⟩)
    unfold RicGot.miss at hm
    rw [sum_eq_zero_iff_of_nonneg (fun l _ => sq_nonneg _)] at hm
    have := low_inj_tr (n := U.nu j) (A := G.Lr j) (fun l hl => hp j l hj hl) (y := fun i => p.u j i - G.cmd U p j i)
      (fun l hl => by
        have := hm l (mem_range.mpr hl)
        rw [sq_eq_zero_iff] at this
        exact this) i hi
    exact sub_eq_zero.mp this
  · intro hz j hj
    obtain ⟨h1, h2⟩ := mem_Ico.mp hj
    refine sum_eq_zero (fun l _ => ?_)
    rw [sum_eq_zero (fun i hi => by rw [hz j i h1 (by omega) (mem_range.mp hi), sub_self, mul_zero])]
    simp

/-- quadratic model of the barrier at the iterate `sol`: `m` is the complementarity right-hand side of the QP -/
def barrierModel (qp : OcpQp K) (sol : Sol K) (p : Pt K) (k : ℕ) : K :=
  let U := view qp
  let n := U.nb k + U.ng k
  ∑ j ∈ range n, ((1 / 2 * sol.lam k j * (U.value p k j - U.lower k j) ^ 2 + qp.m k j * (U.value p k j - U.lower k j)) / sol.t k j
    + (1 / 2 * sol.lam k (n + j) * (U.upper k j - U.value p k j) ^ 2 + qp.m k (n + j) * (U.upper k j - U.value p k j)) / sol.t k (n + j))

/-! ### from the recursion to the user -/

/-- the workspace holds a factorised recursion for `qp` at the iterate `sol`, and `s` is its solution -/
def RicFor (qp : OcpQp K) (dr : ℕ → ℕ → K) (reg : K) (sol : Sol K) (w : RicWs K) (s : Sol K) : Prop :=
  ∃ G g p ell, (∀ k j, k ≤ qp.dim.N → j < nct qp.dim k → G k j = wG sol k j) ∧
    (∀ k j, k ≤ qp.dim.N → j < nct qp.dim k → g k j = wg qp sol k j) ∧
    RicOk qp.dim (kData qp dr reg G g w.st.L (ctgP qp.dim w.sqr w.st)) p ell w ∧
    (∀ k j, k ≤ qp.dim.N → j < qp.dim.nu k → ∑ i ∈ range (qp.dim.nu k + qp.dim.nx k), low (w.st.L k) i j * s.ux k i + ell k j = 0) ∧
    (∀ k a, k < qp.dim.N → a < qp.dim.nx (k + 1) → s.pi k a =
      ∑ c ∈ range (qp.dim.nx (k + 1)), ctgP qp.dim w.sqr w.st (k + 1) a c * s.ux (k + 1) (qp.dim.nu (k + 1) + c) + p (k + 1) a)

variable (T0 T1 : Mat K) (tmp : Vec K)

theorem RicFor.law {qp : OcpQp K} {dr : ℕ → ℕ → K} {reg : K} {sol : Sol K} {w : RicWs K} {s : Sol K} (h : RicFor qp dr reg sol w s) :
    RicLaw (view qp) (ricGot qp.dim T0 T1 tmp w) (ptOf qp.dim s.ux) s.pi := by
  obtain ⟨G, g, p, ell, hG, hg, hok, hsol, hpi⟩ := h
  have e1 : (view qp).nu = qp.dim.nu := rfl
  have e2 : (view qp).nx = qp.dim.nx := rfl
  have e3 : (view qp).N = qp.dim.N := rfl
  refine ⟨fun k i hk hi => ?_, fun k a hk ha => ?_, fun k j hk hj => ?_, fun k a j hk ha hj => ?_, fun k j hk hj => ?_, fun k i j hk hi hj => ?_⟩
  · exact ((hok.law T0 T1 tmp k hk (s.ux k)).mp (fun j hj => hsol k j hk hj)) i hi
  · rw [hpi k a hk ha, hok.getp T0 T1 tmp (k + 1) a (by show k + 1 ≤ qp.dim.N; rw [e3] at hk; omega) ha, RicData.pv, if_neg (by omega)]
    congr 1
    refine sum_congr rfl (fun c hc => ?_)
    rw [hok.getP T0 T1 tmp (k + 1) a c ha (mem_range.mp hc), RicData.Pv, if_neg (by omega)]
    rfl
  · rw [got_Lr T0 T1 tmp k j j hj hj]; exact hok.piv k j hk hj
  · have := hok.gain T0 T1 tmp k a j hk ha hj
    rw [got_Ls T0 T1 tmp k a j ha hj]
    have e : ∑ i ∈ range ((view qp).nu k), (if j ≤ i then (ricGot qp.dim T0 T1 tmp w).Lr k i j else 0) * (ricGot qp.dim T0 T1 tmp w).gain k i a =
        ∑ i ∈ range (qp.dim.nu k), low (w.st.L k) i j * (ricGot qp.dim T0 T1 tmp w).gain k i a := by
      refine sum_congr rfl (fun i hi => ?_)
      rw [got_Lr T0 T1 tmp k i j (mem_range.mp hi) hj]; rfl
    rw [e, this, low, if_pos (by have : j < qp.dim.nu k := hj; omega)]
    ring
  · have := hok.ffw T0 T1 tmp k j hk hj
    rw [got_lr T0 T1 tmp k j hj, hok.lu k j hk hj]
    have e : ∑ i ∈ range ((view qp).nu k), (if j ≤ i then (ricGot qp.dim T0 T1 tmp w).Lr k i j else 0) * (ricGot qp.dim T0 T1 tmp w).ffw k i =
        ∑ i ∈ range (qp.dim.nu k), low (w.st.L k) i j * (ricGot qp.dim T0 T1 tmp w).ffw k i := by
      refine sum_congr rfl (fun i hi => ?_)
      rw [got_Lr T0 T1 tmp k i j (mem_range.mp hi) hj]; rfl
    rw [e, this]
    ring
  · rw [hok.getP T0 T1 tmp k i j hi hj, hok.getP T0 T1 tmp k j i hj hi, RicData.Pv]
    by_cases hk0 : k = 0
    · rw [if_pos hk0]; exact sqP_sym _ _ _ _ _
    · rw [if_neg hk0]; exact hok.fac.P_sym k hk0 hk i j hi hj

/-- a problem without soft constraints -/
def NoSoft (qp : OcpQp K) : Prop := ∀ k, k ≤ qp.dim.N → qp.dim.ns k = 0

theorem NoSoft.rev {qp : OcpQp K} (h : NoSoft qp) (hwf : qp.WF) {k j : ℕ} (hk : k ≤ qp.dim.N) (hj : j < qp.dim.nb k + qp.dim.ng k) :
    qp.idxs_rev k j = -1 := by
  rcases hwf.2 k j hk hj with h1 | ⟨_, h1⟩
  · exact h1
  · rw [h k hk] at h1; omega

theorem stageQuad_congr (P : UserQp K) (p p' : Pt K) (h : Agree P p p') (k : ℕ) : P.stageQuad p k = P.stageQuad p' k := by
  simp only [UserQp.stageQuad]
  have a1 : ∀ i ∈ range (P.nu k), p.u k i = p'.u k i := fun i hi => h.u k i (mem_range.mp hi)
  have a2 : ∀ i ∈ range (P.nx k), p.x k i = p'.x k i := fun i hi => h.x k i (mem_range.mp hi)
  have a3 : ∀ i ∈ range (P.ns k), p.sl k i = p'.sl k i := fun i hi => h.sl k i (mem_range.mp hi)
  have a4 : ∀ i ∈ range (P.ns k), p.su k i = p'.su k i := fun i hi => h.su k i (mem_range.mp hi)
  congr 1
  · congr 1
    · congr 1
      · congr 1
        · congr 1
          exact sum_congr rfl (fun i hi => sum_congr rfl (fun j hj => by rw [a1 i hi, a1 j hj]))
        · exact sum_congr rfl (fun i hi => sum_congr rfl (fun j hj => by rw [a1 i hi, a2 j hj]))
      · congr 1
        exact sum_congr rfl (fun i hi => sum_congr rfl (fun j hj => by rw [a2 i hi, a2 j hj]))
    · congr 1
      exact sum_congr rfl (fun i hi => by rw [a3 i hi])
  · congr 1
    exact sum_congr rfl (fun i hi => by rw [a4 i hi])

theorem stageLin_congr (P : UserQp K) (p p' : Pt K) (h : Agree P p p') (k : ℕ) : P.stageLin p k = P.stageLin p' k := by
  simp only [UserQp.stageLin]
  congr 1
  · congr 1
    · congr 1
      · exact sum_congr rfl (fun i hi => by rw [h.u k i (mem_range.mp hi)])
      · exact sum_congr rfl (fun i hi => by rw [h.x k i (mem_range.mp hi)])
    · exact sum_congr rfl (fun i hi => by rw [h.sl k i (mem_range.mp hi)])
  · exact sum_congr rfl (fun i hi => by rw [h.su k i (mem_range.mp hi)])

theorem dynDefect_congr (P : UserQp K) (p p' : Pt K) (h : Agree P p p') (k i : ℕ) (hi : i < P.nx (k + 1)) :
    P.dynDefect p k i = P.dynDefect p' k i := by
  simp only [UserQp.dynDefect]
  rw [h.x (k + 1) i hi]
  congr 3
  · exact sum_congr rfl (fun j hj => by rw [h.x k j (mem_range.mp hj)])
  · exact sum_congr rfl (fun j hj => by rw [h.u k j (mem_range.mp hj)])

/-- twice the cost of a stage in packed form -/
theorem ricStage_packed {qp : OcpQp K} (hwf : qp.WF) (hns : NoSoft qp) (dr : ℕ → ℕ → K) (reg : K) (G g : ℕ → Vec K) (k : ℕ)
    (hk : k ≤ qp.dim.N) (v : Vec K) :
    qform (qp.dim.nu k + qp.dim.nx k) (kH qp dr reg G k) v + 2 * lform (qp.dim.nu k + qp.dim.nx k) (kg qp reg G g k) v =
      ∑ i ∈ range (qp.dim.nu k + qp.dim.nx k), hmul qp k v i * v i + 2 * (∑ i ∈ range (qp.dim.nu k + qp.dim.nx k), qp.rqz k i * v i)
      + ∑ i ∈ range (qp.dim.nu k + qp.dim.nx k), dr k i * v i * v i
      + ∑ j ∈ range (qp.dim.nb k + qp.dim.ng k), ((G k j + G k (qp.dim.nb k + qp.dim.ng k + j)) * cval qp k v j * cval qp k v j
        + 2 * (g k j - g k (qp.dim.nb k + qp.dim.ng k + j)) * cval qp k v j) := by
  have hTh : ∀ j, j < qp.dim.nb k + qp.dim.ng k → kTh qp reg G k j = G k j + G k (qp.dim.nb k + qp.dim.ng k + j) := by
    intro j hj
    simp only [kTh, slkTh, hns.rev hwf hk hj, ne_eq, not_true, if_false]
  have hVt : ∀ j, j < qp.dim.nb k + qp.dim.ng k → kVt qp reg G g k j = g k j - g k (qp.dim.nb k + qp.dim.ng k + j) := by
    intro j hj
    simp only [kVt, kVtZ, slkVt, hns.rev hwf hk hj, ne_eq, not_true, if_false]
  have e1 : qform (qp.dim.nu k + qp.dim.nx k) (kH qp dr reg G k) v = ∑ i ∈ range (qp.dim.nu k + qp.dim.nx k), hmul qp k v i * v i
      + ∑ i ∈ range (qp.dim.nu k + qp.dim.nx k), dr k i * v i * v i
      + ∑ i ∈ range (qp.dim.nu k + qp.dim.nx k), cvalT qp k (fun l => kTh qp reg G k l * cval qp k v l) i * v i := by
    rw [qform_apply, ← sum_add_distrib, ← sum_add_distrib]
    refine sum_congr rfl (fun i hi => ?_)
    rw [kH_apply qp hwf dr reg G k i hk (mem_range.mp hi) v]; ring
  have e2 : lform (qp.dim.nu k + qp.dim.nx k) (kg qp reg G g k) v = ∑ i ∈ range (qp.dim.nu k + qp.dim.nx k), qp.rqz k i * v i
      + ∑ i ∈ range (qp.dim.nu k + qp.dim.nx k), cvalT qp k (kVt qp reg G g k) i * v i := by
    rw [lform, ← sum_add_distrib]
    exact sum_congr rfl (fun i _ => by unfold kg; ring)
  rw [e1, e2, cvalT_adj qp hwf k hk, cvalT_adj qp hwf k hk]
  have e3 : ∑ j ∈ range (qp.dim.nb k + qp.dim.ng k), kTh qp reg G k j * cval qp k v j * cval qp k v j
      + 2 * ∑ j ∈ range (qp.dim.nb k + qp.dim.ng k), kVt qp reg G g k j * cval qp k v j =
      ∑ j ∈ range (qp.dim.nb k + qp.dim.ng k), ((G k j + G k (qp.dim.nb k + qp.dim.ng k + j)) * cval qp k v j * cval qp k v j
        + 2 * (g k j - g k (qp.dim.nb k + qp.dim.ng k + j)) * cval qp k v j) := by
    rw [mul_sum, ← sum_add_distrib]
    refine sum_congr rfl (fun j hj => ?_)
    rw [hTh j (mem_range.mp hj), hVt j (mem_range.mp hj)]; ring
  rw [← e3]; ring

/-- constant dropped by the linearised barrier -/
def barrierConst (qp : OcpQp K) (sol : Sol K) (k : ℕ) : K :=
  let n := qp.dim.nb k + qp.dim.ng k
  ∑ j ∈ range n, ((1 / 2 * sol.lam k j * qp.d k j ^ 2 - qp.m k j * qp.d k j) / sol.t k j
    + (1 / 2 * sol.lam k (n + j) * qp.d k (n + j) ^ 2 - qp.m k (n + j) * qp.d k (n + j)) / sol.t k (n + j))

theorem ricStage_cost {qp : OcpQp K} (hwf : qp.WF) (hns : NoSoft qp) (dr : ℕ → ℕ → K) (reg : K) (sol : Sol K) (G g : ℕ → Vec K)
    (hG : ∀ k j, k ≤ qp.dim.N → j < nct qp.dim k → G k j = wG sol k j)
    (hg : ∀ k j, k ≤ qp.dim.N → j < nct qp.dim k → g k j = wg qp sol k j) (k : ℕ) (hk : k ≤ qp.dim.N) (v : ℕ → Vec K) :
    1 / 2 * (qform (qp.dim.nu k + qp.dim.nx k) (kH qp dr reg G k) (v k) + 2 * lform (qp.dim.nu k + qp.dim.nx k) (kg qp reg G g k) (v k))
      + barrierConst qp sol k = ricStageCost (view qp) dr (barrierModel qp sol) (ptOf qp.dim v) k := by
  have e1 : (view qp).nu = qp.dim.nu := rfl
  have e2 : (view qp).nx = qp.dim.nx := rfl
  have e3 : (view qp).nb = qp.dim.nb := rfl
  have e4 : (view qp).ng = qp.dim.ng := rfl
  have h0 : qp.dim.ns k = 0 := hns k hk
  unfold ricStageCost barrierModel
  rw [ricStage_packed hwf hns dr reg G g k hk, stageQuad_packed, stageLin_packed, h0, barrierConst]
  simp only [e1, e2, e3, e4, mul_zero, range_zero, sum_empty, add_zero]
  have a1 : ∑ i ∈ range (qp.dim.nu k), dr k i * (ptOf qp.dim v).u k i * (ptOf qp.dim v).u k i
      + ∑ i ∈ range (qp.dim.nx k), dr k (qp.dim.nu k + i) * (ptOf qp.dim v).x k i * (ptOf qp.dim v).x k i =
      ∑ i ∈ range (qp.dim.nu k + qp.dim.nx k), dr k i * v k i * v k i := by
    rw [sum_range_add _ (qp.dim.nu k)]; rfl
  rw [a1]
  have a2 : ∑ j ∈ range (qp.dim.nb k + qp.dim.ng k), ((1 / 2 * sol.lam k j * ((view qp).value (ptOf qp.dim v) k j - (view qp).lower k j) ^ 2
        + qp.m k j * ((view qp).value (ptOf qp.dim v) k j - (view qp).lower k j)) / sol.t k j
      + (1 / 2 * sol.lam k (qp.dim.nb k + qp.dim.ng k + j) * ((view qp).upper k j - (view qp).value (ptOf qp.dim v) k j) ^ 2
        + qp.m k (qp.dim.nb k + qp.dim.ng k + j) * ((view qp).upper k j - (view qp).value (ptOf qp.dim v) k j)) / sol.t k (qp.dim.nb k + qp.dim.ng k + j)) =
      1 / 2 * ∑ j ∈ range (qp.dim.nb k + qp.dim.ng k), ((G k j + G k (qp.dim.nb k + qp.dim.ng k + j)) * cval qp k (v k) j * cval qp k (v k) j
        + 2 * (g k j - g k (qp.dim.nb k + qp.dim.ng k + j)) * cval qp k (v k) j)
      + ∑ j ∈ range (qp.dim.nb k + qp.dim.ng k), ((1 / 2 * sol.lam k j * qp.d k j ^ 2 - qp.m k j * qp.d k j) / sol.t k j
        + (1 / 2 * sol.lam k (qp.dim.nb k + qp.dim.ng k + j) * qp.d k (qp.dim.nb k + qp.dim.ng k + j) ^ 2
          - qp.m k (qp.dim.nb k + qp.dim.ng k + j) * qp.d k (qp.dim.nb k + qp.dim.ng k + j)) / sol.t k (qp.dim.nb k + qp.dim.ng k + j)) := by
    rw [mul_sum, ← sum_add_distrib]
    refine sum_congr rfl (fun j hj => ?_)
    have hj := mem_range.mp hj
    rw [value_packed qp k v j hj, view_lower qp k j hj, view_upper qp k j hj,
      hG k j hk (by unfold nct; omega), hg k j hk (by unfold nct; omega),
      hG k (qp.dim.nb k + qp.dim.ng k + j) hk (by unfold nct; omega), hg k (qp.dim.nb k + qp.dim.ng k + j) hk (by unfold nct; omega)]
    simp only [wG, wg]
    ring
  rw [a2]
  ring

/-- **dynamic programming** for a workspace that holds a factorised recursion -/
theorem RicFor.dp {qp : OcpQp K} (hwf : qp.WF) (hns : NoSoft qp) {dr : ℕ → ℕ → K} {reg : K} {sol : Sol K} {w : RicWs K} {s : Sol K}
    (h : RicFor qp dr reg sol w s) : RicDp (view qp) dr (barrierModel qp sol) (ricGot qp.dim T0 T1 tmp w) := by
  obtain ⟨G, g, p, ell, hG, hg, hok, -, -⟩ := h
  set R := kData qp dr reg G g w.st.L (ctgP qp.dim w.sqr w.st) with hR
  have e1 : (view qp).nu = qp.dim.nu := rfl
  have e2 : (view qp).nx = qp.dim.nx := rfl
  have e3 : (view qp).N = qp.dim.N := rfl
  have rN : R.N = qp.dim.N := rfl
  have rnu : R.nu = qp.dim.nu := rfl
  have rnx : R.nx = qp.dim.nx := rfl
  intro k hk
  have hk : k ≤ qp.dim.N := hk
  refine ⟨1 / 2 * R.cst p ell (qp.dim.N - k) + ∑ j ∈ Ico k (qp.dim.N + 1), barrierConst qp sol j, fun pt hdyn => ?_⟩
  set v := packPt qp.dim pt with hv
  have hag := packPt_agree qp pt
  rw [← hv] at hag
  have hu : ∀ k i, i < qp.dim.nu k → v k i = pt.u k i := fun k i hi => hag.u k i hi
  have hx : ∀ k i, i < qp.dim.nx k → v k (qp.dim.nu k + i) = pt.x k i := fun k i hi => hag.x k i hi
  -- the dynamic programming identity in packed form
  have key := hok.fac.value hok.rhs v (qp.dim.N - k) (by rw [rN]; omega) (by
    intro j c hj hjN hc
    rw [rN] at hj hjN
    have hd := hdyn j c (by omega) hjN hc
    rw [← dynDefect_congr (view qp) _ _ hag j c hc] at hd
    have := dyn_packed qp j ⟨v, fun _ _ => 0, fun _ _ => 0, fun _ _ => 0⟩ c hc
    change (view qp).dynDefect (ptOf qp.dim v) j c = _ at this
    rw [hd] at this
    simp only [vB] at this
    show v (j + 1) (qp.dim.nu (j + 1) + c) = ∑ i ∈ range (qp.dim.nu j + qp.dim.nx j), qp.BAbt j i c * v j i + qp.b j c
    linear_combination this)
  rw [rN, show qp.dim.N - (qp.dim.N - k) = k by omega] at key
  have hcost : ∀ j, j ≤ qp.dim.N → ricStageCost (view qp) dr (barrierModel qp sol) pt j =
      1 / 2 * (qform (R.nu j + R.nx j) (R.H j) (v j) + 2 * lform (R.nu j + R.nx j) (R.g j) (v j)) + barrierConst qp sol j := by
    intro j hj
    have := ricStage_cost hwf hns dr reg sol G g hG hg j hj v
    refine Eq.trans ?_ this.symm
    unfold ricStageCost barrierModel
    rw [stageQuad_congr _ _ _ hag, stageLin_congr _ _ _ hag]
    have b1 : ∀ i, i ∈ range ((view qp).nu j) → dr j i * pt.u j i * pt.u j i = dr j i * (ptOf qp.dim v).u j i * (ptOf qp.dim v).u j i :=
      fun i hi => by rw [hag.u j i (mem_range.mp hi)]
    have b2 : ∀ i, i ∈ range ((view qp).nx j) → dr j ((view qp).nu j + i) * pt.x j i * pt.x j i =
        dr j ((view qp).nu j + i) * (ptOf qp.dim v).x j i * (ptOf qp.dim v).x j i :=
      fun i hi => by rw [hag.x j i (mem_range.mp hi)]
    have b3 : ∀ l, l < qp.dim.nb j + qp.dim.ng j → (view qp).value pt j l = (view qp).value (ptOf qp.dim v) j l := by
      intro l hl
      unfold UserQp.value
      by_cases hb : l < (view qp).nb j
      · rw [if_pos hb, if_pos hb]
        have hi : qp.idxb j l < qp.dim.nu j + qp.dim.nx j := hwf.1 j l hj hb
        have hii : (view qp).idxb j l = qp.idxb j l := rfl
        rw [hii, e1]
        by_cases hc : qp.idxb j l < qp.dim.nu j
        · rw [if_pos hc, if_pos hc, hag.u j _ hc]
        · rw [if_neg hc, if_neg hc, hag.x j _ (by rw [e2]; omega)]
      · rw [if_neg hb, if_neg hb]
        congr 1
        · exact sum_congr rfl (fun i hi => by rw [hag.x j i (mem_range.mp hi)])
        · exact sum_congr rfl (fun i hi => by rw [hag.u j i (mem_range.mp hi)])
    rw [sum_congr rfl b1, sum_congr rfl b2]
    congr 1
    refine sum_congr rfl (fun l hl => ?_)
    have := mem_range.mp hl
    rw [b3 l this]
  have hmiss : ∀ j, j ≤ qp.dim.N → (ricGot qp.dim T0 T1 tmp w).miss (view qp) pt j = R.dev ell v j := by
    intro j hj
    unfold RicGot.miss RicData.dev
    refine sum_congr rfl (fun l hl => ?_)
    have hl := mem_range.mp hl
    have hd := hok.dev T0 T1 tmp j l hj hl (v j)
    have : ∑ i ∈ range ((view qp).nu j), (if l ≤ i then (ricGot qp.dim T0 T1 tmp w).Lr j i l else 0) *
        (pt.u j i - (ricGot qp.dim T0 T1 tmp w).cmd (view qp) pt j i) =
        ∑ i ∈ range (qp.dim.nu j + qp.dim.nx j), low (w.st.L j) i l * v j i + ell j l := by
      rw [hd]
      refine sum_congr rfl (fun i hi => ?_)
      rw [hu j i (mem_range.mp hi)]
      congr 2
      unfold RicGot.cmd
      congr 1
      exact sum_congr rfl (fun a ha => by rw [hx j a (mem_range.mp ha)])
    rw [this, sq]
    rfl
  have hctg : (ricGot qp.dim T0 T1 tmp w).ctg (view qp) pt k =
      1 / 2 * (qform (R.nx k) (R.Pv k) (fun a => v k (R.nu k + a)) + 2 * lform (R.nx k) (R.pv p ell k) (fun a => v k (R.nu k + a))) := by
    unfold RicGot.ctg qform lform
    rw [mul_add]
    congr 1
    · congr 1
      refine sum_congr rfl (fun i hi => sum_congr rfl (fun j hj => ?_))
      have hi := mem_range.mp hi
      have hj := mem_range.mp hj
      rw [hok.getP T0 T1 tmp k i j hi hj]
      show _ = v k (qp.dim.nu k + i) * R.Pv k i j * v k (qp.dim.nu k + j)
      rw [hx k i hi, hx k j hj]
      ring
    · rw [← mul_assoc, one_div, inv_mul_cancel₀ two_ne_zero, one_mul]
      refine sum_congr rfl (fun i hi => ?_)
      have hi := mem_range.mp hi
      rw [hok.getp T0 T1 tmp k i hk hi]
      show _ = R.pv p ell k i * v k (qp.dim.nu k + i)
      rw [hx k i hi]
  rw [e3, sum_congr rfl (fun j hj => hcost j (by have := (mem_Ico.mp hj).2; omega)),
    sum_congr rfl (fun j hj => hmiss j (by have := (mem_Ico.mp hj).2; omega)), hctg, sum_add_distrib, ← mul_sum,
    sum_Ico_eq_sum_range, sum_Ico_eq_sum_range (fun j => R.dev ell v j), show qp.dim.N + 1 - k = qp.dim.N - k + 1 by omega, key]
  ring

/-! ### workspaces that hold a factorised recursion -/

theorem kktTail_l (qp : OcpQp K) (G : ℕ → Vec K) (c : Core K) (st : KktSt K) : (kktTail qp G c st).l = st.l := by
  have h1 : ∀ (n : ℕ) (f : ℕ → KktSt K → KktSt K) (s : KktSt K), (∀ i s, (f i s).l = s.l) → (loop n f s).l = s.l := by
    intro n f s hf
    exact loop_inv (S := KktSt K) (fun _ s' => s'.l = s.l) n f s rfl (fun i s' _ h => (hf i s').trans h)
  unfold kktTail
  dsimp only
  rw [h1 _ _ _ (fun i s => ?_), h1 _ _ _ (fun i s => ?_), h1 _ _ _ (fun i s => ?_), h1 _ _ _ (fun i s => ?_)]
  all_goals (try dsimp only)
  split_ifs <;> rfl

/-- what remains after a forward sweep from a factorised state -/
theorem ricFor_of_fwd (qp : OcpQp K) (hN : 1 ≤ qp.dim.N) (dr : ℕ → ℕ → K) (reg : K) (sol : Sol K) (G g : ℕ → Vec K)
    (hG : ∀ k j, k ≤ qp.dim.N → j < nct qp.dim k → G k j = wG sol k j)
    (hg : ∀ k j, k ≤ qp.dim.N → j < nct qp.dim k → g k j = wg qp sol k j) (sqr : Bool) (s0 st : KktSt K)
    (hp : ∀ k j, k ≤ qp.dim.N → j < nel qp.dim k → s0.L k j j ≠ 0)
    (hfac : (kData qp dr reg G g s0.L (ctgP qp.dim sqr s0)).Fac)
    (hrhs : (kData qp dr reg G g s0.L (ctgP qp.dim sqr s0)).Rhs (ctgp qp.dim sqr s0) (fun k l => s0.L k (qp.dim.nu k + qp.dim.nx k) l))
    (hL : st.L = s0.L) (hP : st.P = s0.P) (hl : st.l = (fwd qp true sqr s0).l) (hpi : st.pi = (fwd qp true sqr s0).pi)
    (hux : ∀ k i, k ≤ qp.dim.N → i < qp.dim.nu k + qp.dim.nx k → st.ux k i = (fwd qp true sqr s0).ux k i) (core : Core K) (v : Bool) :
    RicFor qp dr reg sol ⟨st, core, sqr, v, !sqr⟩ (stepOf st) := by
  have hF := fwd_done qp true sqr hN s0 hp
  have hld := fwd_l qp true sqr hN s0
  have hct : ctgP qp.dim sqr st = ctgP qp.dim sqr s0 := ctgP_eq hL hP
  refine ⟨G, g, ctgp qp.dim sqr s0, fun k l => s0.L k (qp.dim.nu k + qp.dim.nx k) l, hG, hg, ?_, ?_, ?_⟩
  · show RicOk qp.dim (kData qp dr reg G g st.L (ctgP qp.dim sqr st)) _ _ _
    rw [hL, hct]
    refine ⟨hfac, hrhs, rfl, rfl, hL.symm, hct.symm, fun k j hk hj => ?_, fun j hj => ?_, fun k i hk0 hk hi => ?_⟩
    · show st.l k j = _
      rw [hl]
      refine hld.u k j hk ?_
      unfold nel; split_ifs with h0
      · subst h0; omega
      · exact hj
    · show st.l 0 _ = _
      rw [hl]
      exact hld.u 0 _ (Nat.zero_le _) (by rw [nel, if_pos rfl]; omega)
    · show (if (!sqr) = true then st.l k (qp.dim.nu k + i) else ∑ l ∈ range (qp.dim.nx k), low (st.L k) (qp.dim.nu k + i) (qp.dim.nu k + l) *
        st.l k (qp.dim.nu k + l)) = _
      rw [hl, hL]
      have hx := fun i hi => hld.x k i hk0 hk hi
      cases sqr
      · rw [if_pos (show (!false) = true from rfl), hx i hi]; rfl
      · rw [if_neg (by simp)]
        show _ = sqp (qp.dim.nu k) (qp.dim.nx k) (s0.L k) i
        unfold sqp
        exact sum_congr rfl (fun l hl => by rw [hx l (mem_range.mp hl)]; rfl)
  · intro k j hk hj
    show ∑ i ∈ range (qp.dim.nu k + qp.dim.nx k), low (st.L k) i j * st.ux k i + _ = 0
    rw [sum_congr rfl (fun i hi => by rw [hux k i hk (mem_range.mp hi), hL]), hF.solve k j hk (by
      unfold nel; split_ifs with h0
      · subst h0; omega
      · exact hj)]
    ring
  · intro k a hk ha
    show st.pi k a = ∑ c ∈ range (qp.dim.nx (k + 1)), ctgP qp.dim sqr st (k + 1) a c * st.ux (k + 1) (qp.dim.nu (k + 1) + c) + _
    rw [hpi, hF.pi rfl k a hk ha, hct]
    congr 1
    exact sum_congr rfl (fun c hc => by rw [hux (k + 1) _ hk (by have := mem_range.mp hc; omega)])

/-- after the unconstrained solver -/
theorem ricFor_unconstr (sq : K → K) (hsq : ∀ x, 0 < x → sq x * sq x = x) (qp : OcpQp K) (hni : NoIneq qp) (hN : 1 ≤ qp.dim.N)
    (sqr : Bool) (reg : K) (hsc : StrictlyConvex qp (drUn qp sqr reg) 0) (st : KktSt K) (hR : ROk qp st) (hB : BOk qp st) (sol : Sol K)
    (core : Core K) (v : Bool) :
    RicFor qp (drUn qp sqr reg) 0 sol ⟨unconstr sq qp true sqr reg st, core, sqr, v, !sqr⟩ (stepOf (unconstr sq qp true sqr reg st)) := by
  have hue := unconstr_eq sq qp hN true sqr reg st
  have hp := unconstr_piv sq hsq qp hni hN true sqr reg hsc st hR hB
  set s0 := unBack sq qp sqr reg st with hs0
  have hL : (fwd qp true sqr s0).L = s0.L := fwd_L qp true sqr s0
  have hp0 : ∀ k j, k ≤ qp.dim.N → j < nfac qp.dim sqr k → s0.L k j j ≠ 0 := by
    intro k j hk hj
    have := hp k j hk hj
    rwa [hue, hL] at this
  obtain ⟨hb, hfac, hrhs⟩ := unBack_ok sq hsq qp hni hN sqr reg st hR hB hp0
  simp only [← hs0] at hb hfac hrhs
  have hp1 : ∀ k j, k ≤ qp.dim.N → j < nel qp.dim k → s0.L k j j ≠ 0 :=
    fun k j hk hj => hp0 k j hk (lt_of_lt_of_le hj (nel_le_nfac _ _ _))
  have hF := fwd_done qp true sqr hN s0 hp1
  rw [hue]
  exact ricFor_of_fwd qp hN (drUn qp sqr reg) 0 sol (fun _ _ => 0) (fun _ _ => 0)
    (fun k j hk hj => by rw [hni.nct hk] at hj; omega) (fun k j hk hj => by rw [hni.nct hk] at hj; omega) sqr s0 _ hp1 hfac hrhs
    hF.L hF.P rfl rfl (fun _ _ _ _ => rfl) core v

/-- after the factorise-and-solve routine, with the flags that it sets -/
theorem ricFor_factSolve (sq : K → K) (hsq : ∀ x, 0 < x → sq x * sq x = x) (fuel : ℕ) (qp : OcpQp K) (hwf : qp.WF)
    (hN : 1 ≤ qp.dim.N) (sol : Sol K) (sqr : Bool) (reg preg_last : K) (c : Core K) (hc : CoreOf qp sol c) (ht : c.t_lam_min ≠ 1)
    (st : KktSt K) (hR : ROk qp st) (hB : BOk qp st) (out : KktOut K)
    (h : factSolveKktStep sq fuel qp true sqr reg preg_last c st = some out) (v : Bool) :
    RicFor qp (drOf qp out.sqr reg out.preg) reg sol ⟨out.st, out.core, out.sqr, v, !out.sqr⟩ (stepOf out.st) := by
  unfold factSolveKktStep at h
  simp only [] at h
  have hcs := coreStep_gammaGamma qp sol c hc ht
  simp only [] at hcs
  set c' := computeGammaGamma (stFlat (nct qp.dim) qp.d (qp.dim.N + 1)) (stFlat (nct qp.dim) qp.m (qp.dim.N + 1)) c with hc'
  cases hm : kktMain sq qp reg preg_last (stView qp.dim c'.Gamma) (stView qp.dim c'.gamma) fuel reg false sqr st with
  | none => rw [hm] at h; cases h
  | some r =>
    obtain ⟨preg, init, sqr', st'⟩ := r
    rw [hm] at h
    simp only [Option.some.injEq] at h
    subst h
    obtain ⟨hb, -, -, -⟩ := kktMain_ok sq hsq qp hwf hN reg preg_last _ _ fuel reg false sqr st hR hB _ _ _ _ hm
    have hF := fwd_done qp true sqr' hN st' (backOk_piv hb)
    have hT := kktTail_ok qp hwf (stView qp.dim c'.Gamma) c' hcs.of.nc (fwd qp true sqr' st')
    exact ricFor_of_fwd qp hN _ reg sol _ _ hcs.G hcs.g sqr' st' _ (backOk_piv hb) hb.fac hb.rhs (hT.L.trans hF.L) (hT.P.trans hF.P)
      (kktTail_l _ _ _ _) hT.pi hT.uxv c' v

/-- after a re-solve with a stored factorisation -/
theorem ricFor_solve (qp : OcpQp K) (hwf : qp.WF) (hN : 1 ≤ qp.dim.N) (sol : Sol K) (dr : ℕ → ℕ → K)
    (reg : K) (sqr useP : Bool) (c : Core K) (hc : CoreFac qp sol c) (st : KktSt K)
    (hF : Factored qp dr reg (stView qp.dim c.Gamma) sqr st)
    (hPb : useP = true → ∀ k a, k < qp.dim.N → a < qp.dim.nx (k + 1) → st.Pb k a =
      ∑ e ∈ range (qp.dim.nx (k + 1)), ctgP qp.dim sqr st (k + 1) a e * qp.b k e) (core : Core K) (v : Bool) :
    let r := solveKktStep qp true sqr useP c st
    RicFor qp dr reg sol ⟨r.2, core, sqr, v, true⟩ (stepOf r.2) := by
  intro r
  obtain ⟨gm, hcg, hgm⟩ := computeGamma_fields (stFlat (nct qp.dim) qp.d (qp.dim.N + 1)) (stFlat (nct qp.dim) qp.m (qp.dim.N + 1)) c
  set g := stView qp.dim gm with hg
  set G := stView qp.dim c.Gamma with hG
  have hp : ∀ k j, k ≤ qp.dim.N → j < nel qp.dim k → st.L k j j ≠ 0 := fun k j hk hj => (hF.fac.fac k hk).piv j hj
  have hb := bwdAll_ok qp hwf hN sqr useP reg G g st hF.ba hF.zs hp hPb
  set s1 := bwdAll qp sqr useP G g st with hs1
  have hp1 : ∀ k j, k ≤ qp.dim.N → j < nel qp.dim k → s1.L k j j ≠ 0 := by rw [hb.L]; exact hp
  have hf := fwdSub_done qp true sqr hN s1 hp1
  have hld := fwdSub_l qp true sqr hN s1 hp1
  set s2 := fwdSubLast qp (loop (qp.dim.N - 1) (fun i st => fwdSub qp true sqr (qp.dim.nu (i + 1)) (i + 1) st)
    (fwdSub qp true sqr (qp.dim.nu 0 + qp.dim.nx 0) 0 s1)) with hs2
  have hr : r = ({ c with gamma := gm }, kktTail qp G { c with gamma := gm } s2) := by
    show solveKktStep qp true sqr useP c st = _
    unfold solveKktStep
    simp only [hcg]
    rfl
  have hct := ctgP_eq (D := qp.dim) (sqr := sqr) hb.L hb.P
  have hfac : (kData qp dr reg G g s1.L (ctgP qp.dim sqr s1)).Fac := by
    rw [hb.L, hct]
    exact ⟨hF.fac.hsym, hF.fac.fac⟩
  have hT := kktTail_ok qp hwf G { c with gamma := gm } hc.of.nc s2
  rw [hr]
  set s3 := kktTail qp G { c with gamma := gm } s2 with hs3
  have eL : s3.L = s1.L := hT.L.trans hf.L
  have eP : s3.P = s1.P := hT.P.trans hf.P
  have el : s3.l = s2.l := kktTail_l _ _ _ _
  have hct3 : ctgP qp.dim sqr s3 = ctgP qp.dim sqr s1 := ctgP_eq eL eP
  have hnel : ∀ k j, j < qp.dim.nu k → j < nel qp.dim k := by
    intro k j hj
    unfold nel; split_ifs with h0
    · subst h0; omega
    · exact hj
  refine ⟨G, g, fun k a => s1.ux k (qp.dim.nu k + a), s1.ux, hc.G, fun k j hk hj => ?_, ?_, ?_, ?_⟩
  · have hlt : stOff (nct qp.dim) k + j < c.nc := by rw [hc.of.nc]; exact stOff_lt hk hj
    simp only [hg, stView]
    rw [hgm _ hlt, hc.ti k j hk hj, hc.of.lam k j hk hj, stFlat_at _ _ _ _ _ (by omega) hj, stFlat_at _ _ _ _ _ (by omega) hj, wg]
  · show RicOk qp.dim (kData qp dr reg G g s3.L (ctgP qp.dim sqr s3)) _ _ _
    rw [eL, hct3]
    refine ⟨hfac, hb.rhs dr, rfl, rfl, eL.symm, hct3.symm, fun k j hk hj => ?_, fun j hj => ?_, fun k i hk0 hk hi => ?_⟩
    · show s3.l k j = _
      rw [el]; exact hld.u k j hk (hnel k j hj)
    · show s3.l 0 _ = _
      rw [el]; exact hld.u 0 _ (Nat.zero_le _) (by rw [nel, if_pos rfl]; omega)
    · show (if true = true then s3.l k (qp.dim.nu k + i) else _) = _
      rw [if_pos rfl, el]; exact hld.x k i hk0 hk hi
  · intro k j hk hj
    show ∑ i ∈ range (qp.dim.nu k + qp.dim.nx k), low (s3.L k) i j * s3.ux k i + _ = 0
    rw [sum_congr rfl (fun i hi => by rw [hT.uxv k i hk (mem_range.mp hi), eL]), hf.solve k j hk (hnel k j hj)]
    ring
  · intro k a hk ha
    show s3.pi k a = ∑ c ∈ range (qp.dim.nx (k + 1)), ctgP qp.dim sqr s3 (k + 1) a c * s3.ux (k + 1) (qp.dim.nu (k + 1) + c) + _
    rw [hT.pi, hf.pi rfl k a hk ha, hct3]
    congr 1
    exact sum_congr rfl (fun c hc => by rw [hT.uxv (k + 1) _ hk (by have := mem_range.mp hc; omega)])

/-! ### the property -/

/-- **C60**, unconstrained problem: after the solve the getters return the feedback law and the cost to go of the (regularised)
problem, for both Riccati variants, whatever the scratch memory of the workspace -/
theorem ric_unconstr (sq : K → K) (hsq : ∀ x, 0 < x → sq x * sq x = x) (qp : OcpQp K) (hni : NoIneq qp) (hN : 1 ≤ qp.dim.N)
    (sqr : Bool) (reg : K) (hsc : StrictlyConvex qp (drUn qp sqr reg) 0) (st : KktSt K) (hR : ROk qp st) (hB : BOk qp st)
    (core : Core K) (v : Bool) :
    let st' := unconstr sq qp true sqr reg st
    let G := ricGot qp.dim T0 T1 tmp ⟨st', core, sqr, v, !sqr⟩
    RicLaw (view qp) G (ptOf qp.dim st'.ux) st'.pi ∧ RicDp (view qp) (drUn qp sqr reg) (fun _ _ => 0) G := by
  intro st' G
  have h := ricFor_unconstr sq hsq qp hni hN sqr reg hsc st hR hB ⟨fun _ _ => 0, fun _ _ => 0, fun _ _ => 0, fun _ _ => 0⟩ core v
  refine ⟨h.law T0 T1 tmp, ?_⟩
  have hd := h.dp T0 T1 tmp hni.wf (fun k hk => (hni k hk).2.2)
  intro k hk
  obtain ⟨c, hc⟩ := hd k hk
  refine ⟨c, fun p hp => (sum_congr rfl (fun j hj => ?_)).trans (hc p hp)⟩
  unfold ricStageCost
  congr 1
  have hj : j ≤ qp.dim.N := by have := (mem_Ico.mp hj).2; have e : (view qp).N = qp.dim.N := rfl; omega
  unfold barrierModel
  have e1 : (view qp).nb j = 0 := (hni j hj).1
  have e2 : (view qp).ng j = 0 := (hni j hj).2.1
  simp only [e1, e2]
  simp

/-- **C60**, with inequality constraints, after the factorise-and-solve routine (absolute form, flag `valid_ric_vec` set): the law and
the multipliers of the returned step; without soft constraints also the dynamic programming identity for the problem with the
quadratic barrier model -/
theorem ric_factSolve (sq : K → K) (hsq : ∀ x, 0 < x → sq x * sq x = x) (fuel : ℕ) (qp : OcpQp K) (hwf : qp.WF)
    (hN : 1 ≤ qp.dim.N) (sol : Sol K) (sqr : Bool) (reg preg_last : K) (c : Core K) (hc : CoreOf qp sol c) (ht : c.t_lam_min ≠ 1)
    (st : KktSt K) (hR : ROk qp st) (hB : BOk qp st) (out : KktOut K)
    (h : factSolveKktStep sq fuel qp true sqr reg preg_last c st = some out) (v : Bool) :
    let G := ricGot qp.dim T0 T1 tmp ⟨out.st, out.core, out.sqr, v, !out.sqr⟩
    RicLaw (view qp) G (ptOf qp.dim out.st.ux) out.st.pi ∧
    (NoSoft qp → RicDp (view qp) (drOf qp out.sqr reg out.preg) (barrierModel qp sol) G) := by
  intro G
  have hf := ricFor_factSolve sq hsq fuel qp hwf hN sol sqr reg preg_last c hc ht st hR hB out h v
  exact ⟨hf.law T0 T1 tmp, fun hns => hf.dp T0 T1 tmp hwf hns⟩

/-- **C60**, vector getters that have to re-solve first (delta form): the workspace holds a factorisation at the iterate saved in the
backup vectors; after the guarded block the arrays describe the Newton step of the user's problem at that iterate -/
theorem ric_ensure (qp : OcpQp K) (hwf : qp.WF) (hN : 1 ≤ qp.dim.N) (hu : Unshared qp) (sol : Sol K) (dr : ℕ → ℕ → K) (reg : K)
    (lam_min t_min big : K) (t_lam_min : ℕ) (w : RicWs K) (hv : w.ricVec = false)
    (hb : ∀ k j, k ≤ qp.dim.N → j < nct qp.dim k → w.core.lam_bkp (stOff (nct qp.dim) k + j) = sol.lam k j ∧
      w.core.t_bkp (stOff (nct qp.dim) k + j) = sol.t k j ∧ sol.t k j ≠ 0 ∧ w.core.t_inv (stOff (nct qp.dim) k + j) = 1 / sol.t k j ∧
      stView qp.dim w.core.Gamma k j = wG sol k j)
    (hnc : w.core.nc = stOff (nct qp.dim) (qp.dim.N + 1))
    (hF : Factored qp dr reg (stView qp.dim w.core.Gamma) w.sqr w.st)
    (hden : ∀ k i, k ≤ qp.dim.N → i < 2 * qp.dim.ns k → slackCurv qp reg sol k i ≠ 0) :
    let w' := ricEnsure qp true lam_min t_min big t_lam_min w
    let G := ricGot qp.dim T0 T1 tmp w'
    w'.ricVec = true ∧ NewtonStep qp sol dr reg (stepOf w'.st) ∧
    RicLaw (view qp) G (ptOf qp.dim w'.st.ux) w'.st.pi ∧ (NoSoft qp → RicDp (view qp) dr (barrierModel qp sol) G) := by
  intro w' G
  let c : Core K := { w.core with
      lam_min := lam_min
      t_min := t_min
      t_min_inv := if t_min > 0 then 1 / t_min else big
      t_lam_min := t_lam_min
      v := veccp w.core.nv w.core.v_bkp 0 w.core.v 0
      pi := veccp w.core.ne w.core.pi_bkp 0 w.core.pi 0
      lam := veccp w.core.nc w.core.lam_bkp 0 w.core.lam 0
      t := veccp w.core.nc w.core.t_bkp 0 w.core.t 0 }
  have hw' : w' = ⟨(solveKktStep qp true w.sqr false c w.st).2, (solveKktStep qp true w.sqr false c w.st).1, w.sqr, true, true⟩ := by
    show ricEnsure qp true lam_min t_min big t_lam_min w = _
    unfold ricEnsure
    rw [hv]
    rfl
  have hcf : CoreFac qp sol c := by
    refine ⟨⟨hnc, fun k j hk hj => ?_, fun k j hk hj => ?_, fun k j hk hj => (hb k j hk hj).2.2.1⟩,
      fun k j hk hj => (hb k j hk hj).2.2.2.1, fun k j hk hj => (hb k j hk hj).2.2.2.2⟩
    · show veccp w.core.nc w.core.lam_bkp 0 w.core.lam 0 _ = _
      have := stOff_lt (len := nct qp.dim) hk hj
      rw [veccp, if_pos (by rw [hnc]; omega)]
      simpa using (hb k j hk hj).1
    · show veccp w.core.nc w.core.t_bkp 0 w.core.t 0 _ = _
      have := stOff_lt (len := nct qp.dim) hk hj
      rw [veccp, if_pos (by rw [hnc]; omega)]
      simpa using (hb k j hk hj).2.1
  have hfor := ricFor_solve qp hwf hN sol dr reg w.sqr false c hcf w.st hF (fun h => nomatch h) (solveKktStep qp true w.sqr false c w.st).1 true
  have hnw := (solve_newton qp hwf hN hu sol dr reg w.sqr false c hcf w.st hF (fun h => nomatch h) hden).1
  simp only [] at hfor hnw
  have hL := hfor.law T0 T1 tmp
  have hD := fun hns => hfor.dp T0 T1 tmp hwf hns
  rw [← hw'] at hL hD
  refine ⟨by rw [hw'], by rw [hw']; exact hnw, ?_, hD⟩
  have e : (stepOf (solveKktStep qp true w.sqr false c w.st).2) = stepOf w'.st := by rw [hw']
  rw [e] at hL
  exact hL

/-- **C60**, the whole sequence of the delta form: factorise for the step, move the iterate (which saves the old one), ask for the
Riccati vectors.  `rqz`, `b`, `d`, `m` are the residuals the step was computed for. -/
theorem ric_after_step (sq : K → K) (hsq : ∀ x, 0 < x → sq x * sq x = x) (fuel : ℕ) (qp : OcpQp K) (hwf : qp.WF) (hN : 1 ≤ qp.dim.N)
    (hu : Unshared qp) (sol : Sol K) (rqz b d m : ℕ → Vec K) (sqr : Bool) (reg preg_last : K) (c : Core K) (hc : CoreOf qp sol c)
    (ht : c.t_lam_min ≠ 1) (st : KktSt K) (hR : ROk qp st) (hB : BOk qp st)
    (hden : ∀ k i, k ≤ qp.dim.N → i < 2 * qp.dim.ns k → slackCurv qp reg sol k i ≠ 0) (out : KktOut K)
    (h : factSolveKktStep sq fuel (withRhs qp rqz b d m) true sqr reg preg_last c st = some out)
    (core' : Core K) (hcore : core'.nc = out.core.nc ∧ core'.lam = out.core.lam ∧ core'.t = out.core.t ∧ core'.t_inv = out.core.t_inv ∧
      core'.Gamma = out.core.Gamma)
    (lam_min t_min big : K) (t_lam_min : ℕ) (ricP : Bool) :
    let w := ricEnsure qp true lam_min t_min big t_lam_min ⟨out.st, updateVar core', out.sqr, false, ricP⟩
    let G := ricGot qp.dim T0 T1 tmp w
    NewtonStep qp sol (drOf qp out.sqr reg out.preg) reg (stepOf w.st) ∧
    RicLaw (view qp) G (ptOf qp.dim w.st.ux) w.st.pi ∧
    (NoSoft qp → RicDp (view qp) (drOf qp out.sqr reg out.preg) (barrierModel qp sol) G) := by
  intro w G
  obtain ⟨hF, hcf, -⟩ := factSolve_factored sq hsq fuel (withRhs qp rqz b d m) hwf hN sol true sqr reg preg_last c
    ⟨hc.nc, hc.lam, hc.t, hc.pos⟩ ht st hR hB out h
  obtain ⟨h1, h2, h3, h4, h5⟩ := hcore
  obtain ⟨-, -, -, -, -, -, hbk, -⟩ := updateVar_val core'
  have hfr3 : ((updateVar core').nc, (updateVar core').t_inv, (updateVar core').Gamma) = (core'.nc, core'.t_inv, core'.Gamma) := by
    unfold updateVar
    dsimp only
    have hl : ∀ (n : ℕ) (f : ℕ → Core K → Core K) (s : Core K), (∀ i s, ((f i s).nc, (f i s).t_inv, (f i s).Gamma) = (s.nc, s.t_inv, s.Gamma)) →
        ((loop n f s).nc, (loop n f s).t_inv, (loop n f s).Gamma) = (s.nc, s.t_inv, s.Gamma) := by
      intro n f s hf
      exact loop_inv (S := Core K) (fun _ s' => (s'.nc, s'.t_inv, s'.Gamma) = (s.nc, s.t_inv, s.Gamma)) n f s rfl
        (fun i s' _ h => (hf i s').trans h)
    split_ifs
    all_goals
      refine ((hl core'.nc _ _ ?_).trans (hl core'.nc _ _ ?_)).trans ((hl core'.ne _ _ ?_).trans (hl core'.nv _ core' ?_))
      all_goals
        intros
        rfl
  have hfr : (updateVar core').nc = core'.nc ∧ (updateVar core').t_inv = core'.t_inv ∧ (updateVar core').Gamma = core'.Gamma :=
    ⟨congrArg (fun x => x.1) hfr3, congrArg (fun x => x.2.1) hfr3, congrArg (fun x => x.2.2) hfr3⟩
  have hnc : out.core.nc = stOff (nct qp.dim) (qp.dim.N + 1) := hcf.of.nc
  have := ric_ensure T0 T1 tmp qp hwf hN hu sol (drOf qp out.sqr reg out.preg) reg lam_min t_min big t_lam_min
    ⟨out.st, updateVar core', out.sqr, false, ricP⟩ rfl
    (fun k j hk hj => by
      have hlt : stOff (nct qp.dim) k + j < core'.nc := by rw [h1, hnc]; exact stOff_lt hk hj
      obtain ⟨b1, b2⟩ := hbk _ hlt
      refine ⟨?_, ?_, hc.pos k j hk hj, ?_, ?_⟩
      · show (updateVar core').lam_bkp _ = _
        rw [b1, h2]; exact hcf.of.lam k j hk hj
      · show (updateVar core').t_bkp _ = _
        rw [b2, h3]; exact hcf.of.t k j hk hj
      · show (updateVar core').t_inv _ = _
        rw [hfr.2.1, h4]; exact hcf.ti k j hk hj
      · show stView qp.dim (updateVar core').Gamma k j = _
        rw [hfr.2.2, h5]; exact hcf.G k j hk hj)
    (by show (updateVar core').nc = _; rw [hfr.1, h1, hnc])
    (by
      show Factored qp _ reg (stView qp.dim (updateVar core').Gamma) out.sqr out.st
      rw [hfr.2.2, h5]
      exact ⟨hF.ba, ⟨hF.fac.hsym, hF.fac.fac⟩, hF.zs⟩)
    hden
  exact this.2

/-- the vectors of the delta form do not reproduce the iterate: the re-solve uses the user's `m` (normally zero) as right-hand side of
complementarity, so wherever the iterate has a nonzero product `lam t` the step it describes is another point (finding 34) -/
theorem ric_vec_differs (qp : OcpQp K) (sol s : Sol K) (dr : ℕ → ℕ → K) (reg : K) (h : NewtonStep qp sol dr reg s) (k j : ℕ)
    (hk : k ≤ qp.dim.N) (hj : j < nct qp.dim k) (hm : qp.m k j = 0) (hne : sol.lam k j * sol.t k j ≠ 0) :
    ¬ (s.lam k j = sol.lam k j ∧ s.t k j = sol.t k j) := by
  rintro ⟨h1, h2⟩
  have := h.m k j hk hj
  rw [h1, h2, hm] at this
  apply hne
  linarith

end

/-! ### examples -/

/-- C60: hypotheses of `ric_unconstr` at the example, both variants, and what follows for its first stage: among all trajectories the
cost is bounded below by the returned quadratic function of the first state, with equality for the feedback law only -/
example (sqr : Bool) (T0 T1 : Mat ℝ) (tmp : Vec ℝ) : ∃ c : ℝ, ∀ p, TailDyn (view exUQp) p 0 →
    let G := ricGot exUQp.dim T0 T1 tmp ⟨unconstr Real.sqrt exUQp true sqr 0
      { exKSt with
        BAbt := exUQp.BAbt
        RSQrq := exUQp.RSQrq }, exKCore, sqr, true, !sqr⟩
    1 / 2 * (G.P 0 0 0 * p.x 0 0 * p.x 0 0) + G.p 0 0 * p.x 0 0 + c ≤ ∑ j ∈ Ico 0 2, ricStageCost (view exUQp) (drUn exUQp sqr 0) (fun _ _ => 0) p j := by
  obtain ⟨h1, h2⟩ := ric_unconstr T0 T1 tmp Real.sqrt exK_sqrt exUQp (fun _ _ => ⟨rfl, rfl, rfl⟩) (le_refl 1) sqr 0
    (by have : drUn exUQp sqr 0 = fun _ _ => 0 := by funext k i; simp [drUn]
        rw [this]; exact exUQp_strict)
    { exKSt with
      BAbt := exUQp.BAbt
      RSQrq := exUQp.RSQrq } (fun _ _ _ _ _ _ => rfl) (fun _ _ _ _ _ _ => rfl) exKCore true
  obtain ⟨c, hc⟩ := h2.optimal (fun k j hk hj => h1.piv k j hk hj) 0 (by decide)
  refine ⟨c, fun p hp => ?_⟩
  have := (hc p hp).1
  intro G
  have e : G.ctg (view exUQp) p 0 = 1 / 2 * (G.P 0 0 0 * p.x 0 0 * p.x 0 0) + G.p 0 0 * p.x 0 0 := by
    have : (view exUQp).nx 0 = 1 := rfl
    unfold RicGot.ctg
    rw [this]
    simp
  rw [← e]
  exact this

/-- the example with the bounds `-1 ≤ u0 ≤ 3` -/
noncomputable def exBQp : OcpQp ℝ where
  dim := { exUQp.dim with nb := fun k => if k = 0 then 1 else 0 }
  BAbt := exUQp.BAbt
  RSQrq := exUQp.RSQrq
  DCt := exUQp.DCt
  b := exUQp.b
  rqz := exUQp.rqz
  d := fun _ j => if j = 0 then -1 else -3
  d_mask := exUQp.d_mask
  m := fun _ _ => 1
  Z := exUQp.Z
  idxb := exUQp.idxb
  idxs_rev := exUQp.idxs_rev
  idxe := exUQp.idxe
  diag_H_flag := exUQp.diag_H_flag

theorem exBQp_wf : exBQp.WF := by
  constructor
  · intro k j hk hj
    by_cases h : k = 0
    · subst h; show 0 < 2; omega
    · have : exBQp.dim.nb k = 0 := if_neg h
      omega
  · intro k j _ _; exact Or.inl rfl

theorem exBQp_strict : StrictlyConvex exBQp (fun _ _ => 0) 0 := exUQp_strict

noncomputable def exBCore : Core ℝ := coreMk (stOff (nct exBQp.dim) 2) (fun _ => 1) (fun _ => 1) (fun _ => 0) (fun _ => 0) 1 2

/-- C60: hypotheses of `ric_factSolve` (first part) and of `ric_after_step` at the example with bounds, both variants -/
example (sqr : Bool) (T0 T1 : Mat ℝ) (tmp : Vec ℝ) :
    ∃ out, factSolveKktStep Real.sqrt 0 exBQp true sqr 0 0 exBCore { exKSt with
      BAbt := exUQp.BAbt
      RSQrq := exUQp.RSQrq } = some out ∧
    RicDp (view exBQp) (drOf exBQp out.sqr 0 out.preg) (barrierModel exBQp exKSol)
      (ricGot exBQp.dim T0 T1 tmp ⟨out.st, out.core, out.sqr, true, !out.sqr⟩) ∧
    RicDp (view exBQp) (drOf exBQp out.sqr 0 out.preg) (barrierModel exBQp exKSol)
      (ricGot exBQp.dim T0 T1 tmp (ricEnsure exBQp true 0 0 1 2 ⟨out.st, updateVar out.core, out.sqr, false, false⟩)) := by
  have hB : BOk exBQp { exKSt with
      BAbt := exUQp.BAbt
      RSQrq := exUQp.RSQrq } := fun _ _ _ _ _ _ => rfl
  have hc : CoreOf exBQp exKSol exBCore := ⟨rfl, fun _ _ _ _ => rfl, fun _ _ _ _ => rfl, fun _ _ _ _ => one_ne_zero⟩
  obtain ⟨out, h, -⟩ := factSolve_total Real.sqrt exK_sqrt 0 exBQp exBQp_wf (le_refl 1) exKSol (fun _ _ _ _ => ⟨zero_le_one, zero_lt_one⟩)
    true sqr 0 0 exBQp_strict exBCore hc (by decide) { exKSt with
      BAbt := exUQp.BAbt
      RSQrq := exUQp.RSQrq } (fun _ _ _ _ _ _ => rfl) hB
  have hns : NoSoft exBQp := fun _ _ => rfl
  refine ⟨out, h, ?_, ?_⟩
  · exact (ric_factSolve T0 T1 tmp Real.sqrt exK_sqrt 0 exBQp exBQp_wf (le_refl 1) exKSol sqr 0 0 exBCore hc (by decide) _
      (fun _ _ _ _ _ _ => rfl) hB out h true).2 hns
  · exact (ric_after_step T0 T1 tmp Real.sqrt exK_sqrt 0 exBQp exBQp_wf (le_refl 1) (fun _ _ _ _ _ _ h => absurd rfl h) exKSol
      exBQp.rqz exBQp.b exBQp.d exBQp.m sqr 0 0 exBCore hc (by decide) _ (fun _ _ _ _ _ _ => rfl) hB
      (fun k i hk hi => by rw [hns k hk] at hi; omega) out h out.core ⟨rfl, rfl, rfl, rfl, rfl⟩ 0 0 1 2 false).2.2 hns

end Hpipm
