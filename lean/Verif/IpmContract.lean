/-
C67: how the constraint violation evolves from one interior point iteration to the next, in both formulations.
-/
import Verif.IpmDir
import Verif.IpmStatus

namespace Hpipm
open Finset
set_option linter.unusedSectionVars false

section
variable {K : Type*} [Field K] [LinearOrder K] [IsStrictOrderedRing K]
variable (E : Env K)

/-- a full step from the current iterate satisfies the constraints -/
def Lands (s : Ipm K) : Prop :=
  PrimStep E.qp (vB E.qp (solOf E.qp.dim s.core)) (vD E.qp (solOf E.qp.dim s.core)) s.kkt.ux s.kkt.t

theorem Lands.same (hwf : E.qp.WF) {s s' : Ipm K} (h : Lands E s) (hs : SameLin E s s') : Lands E s' := by
  have e : solOf E.qp.dim s'.core = solOf E.qp.dim s.core := by
    unfold solOf; rw [hs.keep.core.v, hs.keep.core.pi, hs.keep.core.lam, hs.keep.core.t]
  unfold Lands
  rw [e]
  exact PrimStep.congr hwf h hs.ux hs.t

/-- relative formulation: the right-hand side of the step problem is the constraint violation of the iterate -/
theorem lands_of_dir (hwf : E.qp.WF) (hm : Mask01 E.qp) (ha : E.arg.i .abs_form = 0) {s s1 : Ipm K} (hr : Rows E s) (hws : s.rws.Ok E.qp) (hf : Fresh E s)
    (hk : Keep s s1) (h : StepDir E s1) : Lands E s1 := by
  obtain ⟨r0, hres⟩ := hf.res
  have v := (resCompute_val (qpNow E s) hwf (solOf E.qp.dim s.core) r0 s.rws hws).1
  have e : solOf E.qp.dim s1.core = solOf E.qp.dim s.core := by
    unfold solOf; rw [hk.core.v, hk.core.pi, hk.core.lam, hk.core.t]
  have hb : (qpStep E s1).b = s.res.res_b := by
    unfold qpStep; rw [if_neg (by rw [ha]; simp)]; exact congrArg Res.res_b hk.res
  have hd : (qpStep E s1).d = s.res.res_d := by
    unfold qpStep; rw [if_neg (by rw [ha]; simp)]; exact congrArg Res.res_d hk.res
  unfold Lands
  rw [e]
  unfold StepDir at h
  rw [hb, hd, hres] at h
  refine ⟨fun k i hk hi => ?_, fun k j hk hj => ?_⟩
  · have e1 := h.dyn k i hk hi
    have e2 := (v k (le_of_lt hk)).1.b hk i hi
    rw [e2, vB_lin] at e1
    have e3 := linB_rows E.qp s.kkt.BAbt s.kkt.RSQrq hr (solOf E.qp.dim s.core).ux k i
    rw [vB_lin, ← e3]
    exact e1
  · have e1 := h.con k j hk hj
    have e2 := (v k hk).1.d j hj
    rw [e2] at e1
    have e3 : vD (qpNow E s) (solOf E.qp.dim s.core) k j = vD E.qp (solOf E.qp.dim s.core) k j := rfl
    have e4 : (qpNow E s).d_mask k j = E.qp.d_mask k j := rfl
    rw [e3, e4] at e1
    rcases hm k j hk hj with h0 | h0 <;> rw [h0] at e1 ⊢ <;> linear_combination e1

/-- absolute formulation: subtracting the iterate from the new point -/
theorem subSol_lands (hwf : E.qp.WF) (ha : E.arg.i .abs_form ≠ 0) {s : Ipm K} (hy : Sync E s) (hnv : s.core.nv = stOff (nvt E.qp.dim) (E.qp.dim.N + 1))
    (hnc : s.core.nc = stOff (nct E.qp.dim) (E.qp.dim.N + 1)) (h : StepDir E s) : Lands E (subSol E s) := by
  have hb : (qpStep E s).b = E.qp.b := by unfold qpStep; rw [if_pos ha]; rfl
  have hd : (qpStep E s).d = E.qp.d := by unfold qpStep; rw [if_pos ha]; rfl
  unfold StepDir at h
  rw [hb, hd] at h
  have hsol : solOf E.qp.dim (subSol E s).core = solOf E.qp.dim s.core := rfl
  have hu : ∀ k i, k ≤ E.qp.dim.N → i < nvt E.qp.dim k → (subSol E s).kkt.ux k i = s.kkt.ux k i + (-1) * (solOf E.qp.dim s.core).ux k i := by
    intro k i hk hi
    rw [← hy.ux k i hk hi]
    have hlt := stOff_lt (len := nvt E.qp.dim) (N := E.qp.dim.N) hk hi
    have e := axpy_in (n := s.core.nv) (a := -1) (x := s.core.v) (xi := 0) (y := s.core.dv) (yi := 0) (z := s.core.dv) (zi := 0)
      (i := stOff (nvt E.qp.dim) k + i) ⟨by omega, by omega⟩
    simp only [Nat.zero_add, Nat.sub_zero] at e
    exact e
  have ht : ∀ k i, k ≤ E.qp.dim.N → i < nct E.qp.dim k → (subSol E s).kkt.t k i = s.kkt.t k i + (-1) * (solOf E.qp.dim s.core).t k i := by
    intro k i hk hi
    rw [← hy.t k i hk hi]
    have hlt := stOff_lt (len := nct E.qp.dim) (N := E.qp.dim.N) hk hi
    have e := axpy_in (n := s.core.nc) (a := -1) (x := s.core.t) (xi := 0) (y := s.core.dt) (yi := 0) (z := s.core.dt) (zi := 0)
      (i := stOff (nct E.qp.dim) k + i) ⟨by omega, by omega⟩
    simp only [Nat.zero_add, Nat.sub_zero] at e
    exact e
  unfold Lands
  rw [hsol]
  refine PrimStep.congr hwf (ux := fun k i => s.kkt.ux k i + (-1) * (solOf E.qp.dim s.core).ux k i)
    (t := fun k i => s.kkt.t k i + (-1) * (solOf E.qp.dim s.core).t k i) ?_ hu (fun k j hk hj => by rw [ht k j hk hj])
  refine ⟨fun k i hk hi => ?_, fun k j hk hj => ?_⟩
  · rw [linB_add, linB_smul, vB_lin]
    linear_combination h.dyn k i hk hi
  · rw [linD_add, linD_smul, vD_lin]
    linear_combination h.con k j hk hj

/-- what is known when the iterate is updated -/
structure Landing (s : Ipm K) : Prop where
  sync : Sync E s
  al : AlphaFor E s
  lands : Lands E s

theorem absCorr_end (hwf : E.qp.WF) (hm : Mask01 E.qp) (hN : 1 ≤ E.qp.dim.N) (ha : E.arg.i .abs_form ≠ 0) (kk : ℕ) {s : Ipm K}
    (hp : Pre E s) (hnv : s.core.nv = stOff (nvt E.qp.dim) (E.qp.dim.N + 1)) : Landing E (absCorr E kk s) := by
  have gen : ∀ x : Ipm K, Pre E x → x.core.nv = stOff (nvt E.qp.dim) (E.qp.dim.N + 1) →
      Landing E (alphaStep E kk 4 (maskStep E (subSol E (solveStep E x)))) ∧ Pre E (alphaStep E kk 4 (maskStep E (subSol E (solveStep E x)))) := by
    intro x px hx
    have d1 := solveStep_it E hwf hN px
    have kv := (solveStep_keep E x).core.nv.trans hx
    have l2 := subSol_lands E hwf ha d1.ok.sync kv d1.ok.nc d1.dir
    have y2 : Sync E (subSol E (solveStep E x)) := sync_back E _
    have m3 := mask_same E hm y2 ((subSol_keep E _).core.nc.trans d1.ok.nc)
    have l3 := l2.same E hwf m3
    have m4 := alphaStep_same E kk 4 (by omega) (maskStep E (subSol E (solveStep E x)))
    refine ⟨⟨sync_alpha E kk 4 (sync_mask E y2), alphaFor_step E kk 4 _, l3.same E hwf m4⟩, ?_⟩
    exact px.keep E ((((solveStep_keep E x).trans (subSol_keep E _)).trans m3.keep).trans m4.keep)
      ((((solveStep_mk E x).trans (subSol_mk E _)).trans m3.mat).trans m4.mat)
  unfold absCorr
  extract_lets s1 s2 s3 m0 s4 s5
  have k1 := sigmaStep_keep E kk s
  have p1 : Pre E s1 := hp.keep E k1 (sigmaStep_mk E kk s)
  have k2 : Keep s1 s2 := (Keep.ofCore (computeCenteringCorrection_keep s1.core)).trans (maskResM_keep E _)
  have p2 : Pre E s2 := p1.keep E k2 (maskResM_mk E { s1 with core := computeCenteringCorrection s1.core })
  have k3 : Keep s2 s3 := (((solveStep_keep E s2).trans (subSol_keep E _)).trans (maskStep_keep E _)).trans (alphaStep_keep E kk 4 (by omega) _)
  obtain ⟨l3, p3⟩ := gen s2 p2 (k2.core.nv.trans (k1.core.nv.trans hnv))
  split
  · split
    · refine (gen s5 ?_ ?_).1
      · exact p3.keep E (((Keep.ofCore (computeMuAff_keep s3.core)).trans (Keep.ofCore (computeCentering_keep s4.core))).trans (maskResM_keep E _))
          (maskResM_mk E { s4 with core := computeCentering s4.core })
      · have k5 : Keep s4 s5 := (Keep.ofCore (computeCentering_keep s4.core)).trans (maskResM_keep E _)
        have k4 : Keep s3 s4 := Keep.ofCore (computeMuAff_keep s3.core)
        exact k5.core.nv.trans (k4.core.nv.trans (k3.core.nv.trans (k2.core.nv.trans (k1.core.nv.trans hnv))))
    · exact ⟨l3.sync.of_eq E rfl rfl rfl rfl rfl rfl rfl rfl, l3.al.muAff E, l3.lands⟩
  · exact l3

theorem absStep_end (hwf : E.qp.WF) (hm : Mask01 E.qp) (hN : 1 ≤ E.qp.dim.N) (ha : E.arg.i .abs_form ≠ 0) (kk : ℕ) {s s' : Ipm K}
    (hp : Pre E s) (hnv : s.core.nv = stOff (nvt E.qp.dim) (E.qp.dim.N + 1)) (h : absStep E kk s = some s') :
    ∃ s1, Keep s s1 ∧ s' = updStep E s1 ∧ Landing E s1 := by
  unfold absStep at h
  simp only at h
  obtain ⟨s0, h0, rfl⟩ := Option.map_eq_some_iff.mp h
  have kc : ∀ r : Vec K, Keep s { s with core := { s.core with res_m := r } } := fun r =>
    Keep.ofCore ⟨rfl, rfl, rfl, rfl, rfl, rfl, rfl, rfl, rfl, rfl, rfl, rfl, rfl, rfl, rfl, rfl⟩
  have k0 : Keep s s0 := (kc _).trans ((affineRhs_keep E _).trans (factStep_keep E _ _ h0))
  have d0 : ItDir E s0 := by
    refine factStep_it E hwf hN ?_ h0
    refine Pre.keep E ?_ (affineRhs_keep E _) (affineRhs_mk E _)
    exact Pre.keep E hp (kc _) (MKeep.refl _ s.kkt)
  have l1 := subSol_lands E hwf ha d0.ok.sync (k0.core.nv.trans hnv) d0.ok.nc d0.dir
  have y1 : Sync E (subSol E s0) := sync_back E _
  have m2 := mask_same E hm y1 ((subSol_keep E _).core.nc.trans d0.ok.nc)
  set x2 := maskStep E (subSol E s0) with hx2
  have m3 := putG_same E kk 20 (by omega) (if x2.npd then 1 else 0) x2
  have m4 := alphaStep_same E kk 0 (by omega) (putG E kk 20 (if x2.npd then 1 else 0) x2)
  have k4 := k0.trans ((subSol_keep E s0).trans (m2.keep.trans (m3.keep.trans m4.keep)))
  have p4 : Pre E (alphaStep E kk 0 (putG E kk 20 (if x2.npd then 1 else 0) x2)) :=
    d0.pre.keep E ((subSol_keep E s0).trans (m2.keep.trans (m3.keep.trans m4.keep))) ((subSol_mk E s0).trans (m2.mat.trans (m3.mat.trans m4.mat)))
  have l4 : Landing E (alphaStep E kk 0 (putG E kk 20 (if x2.npd then 1 else 0) x2)) :=
    ⟨sync_alpha E kk 0 (sync_putG E kk 20 _ (sync_mask E y1)), alphaFor_step E kk 0 _, ((l1.same E hwf m2).same E hwf m3).same E hwf m4⟩
  refine ⟨_, ?_, rfl, ?_⟩
  · split
    · exact k4.trans (absCorr_keep E kk _)
    · exact k4
  · split
    · exact absCorr_end E hwf hm hN ha kk p4 (k4.core.nv.trans hnv)
    · exact l4

/-! ### the update -/

/-- the constraint violation of the point `z'` is `1 - a` times that of `z`, except that slacks which the step `dt` takes below
the lower limit `tmin` may have been raised to it -/
structure Contracts (qp : OcpQp K) (z z' : Sol K) (a tmin : K) (dt : ℕ → Vec K) : Prop where
  dyn : ∀ k i, k < qp.dim.N → i < qp.dim.nx (k + 1) → vB qp z' k i = (1 - a) * vB qp z k i
  con : ∀ k j, k ≤ qp.dim.N → j < nct qp.dim k → qp.d_mask k j = 1 →
    vD qp z' k j = (1 - a) * vD qp z k j + (z'.t k j - (z.t k j + a * dt k j))
  slk : ∀ k j, k ≤ qp.dim.N → j < nct qp.dim k → z'.t k j = z.t k j + a * dt k j ∨ (z.t k j + a * dt k j ≤ tmin ∧ z'.t k j = tmin)

theorem updStep_sol (s : Ipm K) : (updStep E s).core.v = (updateVar s.core).v ∧ (updStep E s).core.t = (updateVar s.core).t ∧
    (updStep E s).core.alpha_prim = (updateVar s.core).alpha_prim ∧ (updStep E s).core.alpha_dual = (updateVar s.core).alpha_dual := by
  unfold updStep maskLam
  split <;> exact ⟨rfl, rfl, rfl, rfl⟩

theorem updateVar_alpha (c : Core K) : (updateVar c).alpha_prim = c.alpha_prim ∧ (updateVar c).alpha_dual = c.alpha_dual := by
  unfold updateVar
  extract_lets a c1 c2 c3 c4
  have h1 : c1.alpha_prim = c.alpha_prim ∧ c1.alpha_dual = c.alpha_dual :=
    loop_inv (S := Core K) (fun _ x => x.alpha_prim = c.alpha_prim ∧ x.alpha_dual = c.alpha_dual) _ _ _ ⟨rfl, rfl⟩ (fun _ _ _ h => h)
  have h2 : c2.alpha_prim = c.alpha_prim ∧ c2.alpha_dual = c.alpha_dual :=
    loop_inv (S := Core K) (fun _ x => x.alpha_prim = c.alpha_prim ∧ x.alpha_dual = c.alpha_dual) _ _ _ h1 (fun _ _ _ h => h)
  have gen : ∀ (n : ℕ) (f : ℕ → Core K → Core K) (x : Core K), (∀ i y, (f i y).alpha_prim = y.alpha_prim ∧ (f i y).alpha_dual = y.alpha_dual) →
      x.alpha_prim = c.alpha_prim ∧ x.alpha_dual = c.alpha_dual → (loop n f x).alpha_prim = c.alpha_prim ∧ (loop n f x).alpha_dual = c.alpha_dual := by
    intro n f x hf hx
    exact loop_inv (S := Core K) (fun _ x => x.alpha_prim = c.alpha_prim ∧ x.alpha_dual = c.alpha_dual) _ _ _ hx
      (fun i y _ h => ⟨(hf i y).1.trans h.1, (hf i y).2.trans h.2⟩)
  split
  · exact gen _ _ _ (fun _ _ => ⟨rfl, rfl⟩) (gen _ _ _ (fun _ _ => ⟨rfl, rfl⟩) h2)
  · exact gen _ _ _ (fun _ _ => ⟨rfl, rfl⟩) (gen _ _ _ (fun _ _ => ⟨rfl, rfl⟩) h2)

/-- lower bound of the slacks after the step, when the step length keeps them nonnegative -/
theorem upd_contracts (hwf : E.qp.WF) {s : Ipm K} (hnv : s.core.nv = stOff (nvt E.qp.dim) (E.qp.dim.N + 1))
    (hnc : s.core.nc = stOff (nct E.qp.dim) (E.qp.dim.N + 1)) (h : Landing E s) :
    Contracts E.qp (solOf E.qp.dim s.core) (solOf E.qp.dim (updStep E s).core) (shortStep s.core).1 s.core.t_min s.kkt.t := by
  obtain ⟨v1, -, -, v4, -⟩ := updateVar_val s.core
  obtain ⟨w1, w2, -, -⟩ := updStep_sol E s
  set a := (shortStep s.core).1
  have hu : ∀ k i, k ≤ E.qp.dim.N → i < nvt E.qp.dim k →
      (solOf E.qp.dim (updStep E s).core).ux k i = (solOf E.qp.dim s.core).ux k i + a * s.kkt.ux k i := by
    intro k i hk hi
    have hlt := stOff_lt (len := nvt E.qp.dim) (N := E.qp.dim.N) hk hi
    show (updStep E s).core.v _ = _
    rw [w1, v1, if_pos (by omega), h.sync.ux k i hk hi]; rfl
  have ht : ∀ k j, k ≤ E.qp.dim.N → j < nct E.qp.dim k → (solOf E.qp.dim (updStep E s).core).t k j =
      if s.core.t_lam_min = 2 ∧ (solOf E.qp.dim s.core).t k j + a * s.kkt.t k j ≤ s.core.t_min then s.core.t_min
        else (solOf E.qp.dim s.core).t k j + a * s.kkt.t k j := by
    intro k j hk hj
    have hlt := stOff_lt (len := nct E.qp.dim) (N := E.qp.dim.N) hk hj
    show (updStep E s).core.t _ = _
    rw [w2, v4, if_pos (by omega), h.sync.t k j hk hj]; rfl
  refine ⟨fun k i hk hi => ?_, fun k j hk hj hm => ?_, fun k j hk hj => ?_⟩
  · rw [vB_lin, vB_lin, linB_congr E.qp _ (fun k i => (solOf E.qp.dim s.core).ux k i + a * s.kkt.ux k i) k i hk hi hu, linB_add, linB_smul]
    have e := h.lands.dyn k i hk hi
    rw [vB_lin] at e
    linear_combination a * e
  · have e := h.lands.con k j hk hj
    rw [vD_lin, hm] at e
    rw [vD_lin, vD_lin, linD_congr (N := E.qp.dim.N) ⟨hwf.1, hwf.2⟩ (w := fun k i => (solOf E.qp.dim s.core).ux k i + a * s.kkt.ux k i) hk
      (fun i hi => hu k i hk hi) j hj, linD_add, linD_smul]
    linear_combination a * e
  · rw [ht k j hk hj]; split_ifs with hc
    · exact Or.inr ⟨hc.2, rfl⟩
    · exact Or.inl rfl

/-! ### step lengths -/

/-- without complementarity targets the primal step length is in `[0,1]` and keeps the slacks nonnegative, for a common step
length as well as for separate ones -/
theorem alpha_prim_ok (sq : K → K) (c : Core K) (hm : c.m_zero = true) (hlam : ∀ i, i < c.nc → 0 ≤ c.lam i) (ht : ∀ i, i < c.nc → 0 ≤ c.t i) :
    0 ≤ (computeAlpha sq c).alpha_prim ∧ (computeAlpha sq c).alpha_prim ≤ 1 ∧ ∀ i, i < c.nc → 0 ≤ c.t i + (computeAlpha sq c).alpha_prim * c.dt i := by
  by_cases hs : c.split_step = 1
  · obtain ⟨⟨h0, h1, h2, -⟩, -, -⟩ := computeAlpha_split_max sq c hs hm hlam ht
    exact ⟨h0, h1, h2⟩
  · have key : ∀ n, n ≤ c.nc → let s := loop n (alphaJointZ c) ⟨1, 1, false⟩
        0 ≤ s.ap ∧ s.ap ≤ 1 ∧ (∀ i, i < n → 0 ≤ c.t i + s.ap * c.dt i) := by
      intro n
      induction n with
      | zero => intro _; exact ⟨zero_le_one, le_refl _, fun i hi => by omega⟩
      | succ n ih =>
        intro hn
        obtain ⟨h0, h1, h2⟩ := ih (by omega)
        rw [loop_succ]
        generalize loop n (alphaJointZ c) (⟨1, 1, false⟩ : Alpha K) = s at h0 h1 h2
        have fin : ∀ a, 0 ≤ a → a ≤ s.ap → 0 ≤ c.t n + a * c.dt n → 0 ≤ a ∧ a ≤ 1 ∧ ∀ i, i < n + 1 → 0 ≤ c.t i + a * c.dt i := by
          intro a ha0 ha1 han
          refine ⟨ha0, ha1.trans h1, fun i hi => ?_⟩
          by_cases hin : i = n
          · subst hin; exact han
          · exact convex_nonneg (ht i (by omega)) (h2 i (by omega)) ha0 ha1
        unfold alphaJointZ
        by_cases g2 : c.t n + s.ap * c.dt n < 0
        · obtain ⟨-, r0, r1, r2⟩ := ratio_step (ht n (by omega)) h0 g2
          dsimp only
          rw [if_pos g2]
          exact fin _ r0 r1 (le_of_eq r2.symm)
        · have g2' := not_lt.mp g2
          by_cases g1 : c.lam n + s.ap * c.dlam n < 0
          · obtain ⟨-, r0, r1, -⟩ := ratio_step (hlam n (by omega)) h0 g1
            dsimp only
            rw [if_neg g2, if_pos g1]
            exact fin _ r0 r1 (convex_nonneg (ht n (by omega)) g2' r0 r1)
          · dsimp only
            rw [if_neg g2, if_neg g1]
            exact fin _ h0 (le_refl _) g2'
    obtain ⟨h0, h1, h2⟩ := key c.nc (le_refl _)
    have e : (computeAlpha sq c).alpha_prim = (loop c.nc (alphaJointZ c) ⟨1, 1, false⟩ : Alpha K).ap := by
      unfold computeAlpha alphaRaw
      rw [if_neg hs, if_neg hs, if_pos hm]
    rw [e]
    exact ⟨h0, h1, h2⟩

theorem short_range (c : Core K) (h0 : 0 ≤ c.alpha_prim) (h1 : c.alpha_prim ≤ 1) : 0 ≤ (shortStep c).1 ∧ (shortStep c).1 ≤ c.alpha_prim := by
  obtain ⟨f0, f1⟩ := short_factor h0 h1
  unfold shortStep
  split
  · dsimp only
    split_ifs
    · exact ⟨mul_nonneg h0 f0, mul_le_of_le_one_right h0 f1.le⟩
    · exact ⟨h0, le_refl _⟩
  · dsimp only
    split_ifs
    · exact ⟨mul_nonneg h0 f0, mul_le_of_le_one_right h0 f1.le⟩
    · exact ⟨h0, le_refl _⟩

end
end Hpipm
