/-
One pass of the solver's loop performs the iteration of the specification (C89, fourth part): whole passes and whole runs.
-/
import Verif.MehPass
import Verif.IpmContractRun

namespace Hpipm
open Finset
set_option linter.unusedSectionVars false

section
variable {K : Type*} [Field K] [LinearOrder K] [IsStrictOrderedRing K]
variable (E : Env K)

/-! ### the direction that a pass moves along -/

/-- `MehIter` without the move -/
def Chosen (sq : K → K) (qp : OcpQp K) (arg : IpmArg K) (z : Sol K) (ap ad : K) (d : Sol K) : Prop :=
  let reg := arg.r .reg_prim
  let p := proxPt arg z
  ∃ da aA dA, Dir qp reg p z (fun k j => z.lam k j * z.t k j - qp.m k j - arg.r .tau_min) da ∧ StepLen sq qp arg z da aA dA ∧
    StepLen sq qp arg z d ap ad ∧
      (arg.i .pred_corr ≠ 1 → SolEq qp.dim d da) ∧
      (arg.i .pred_corr = 1 →
        let muA := muAfter qp z da aA dA
        let tgt := max ((muA / muOf qp z) ^ 3 * muOf qp z) (arg.r .tau_min)
        ∃ dc aC dC, Dir qp reg p z (fun k j => z.lam k j * z.t k j - qp.m k j + da.t k j * da.lam k j - tgt) dc ∧
          StepLen sq qp arg z dc aC dC ∧
          (arg.i .cond_pred_corr = 1 ∧ muAfter qp z dc aC dC > 2 * muA →
            Dir qp reg p z (fun k j => z.lam k j * z.t k j - qp.m k j - tgt) d) ∧
          (¬ (arg.i .cond_pred_corr = 1 ∧ muAfter qp z dc aC dC > 2 * muA) → SolEq qp.dim d dc))

theorem Chosen.iter {sq : K → K} {qp : OcpQp K} {arg : IpmArg K} {z : Sol K} {ap ad : K} {d z' : Sol K} (h : Chosen sq qp arg z ap ad d)
    (hm : Moved qp arg z d ap ad z') : MehIter sq qp arg z ap ad z' := by
  obtain ⟨da, aA, dA, h1, h2, h3, h4, h5⟩ := h
  exact ⟨da, aA, dA, h1, h2, d, h3, hm, h4, h5⟩

/-- a state in which the pass updates the iterate -/
structure Ready2 (s s1 : Ipm K) : Prop where
  keep : Keep s s1
  sync : Sync E s1
  dir : Chosen E.sq E.qp E.arg (zOf E s) s1.core.alpha_prim s1.core.alpha_dual (stepOf s1.kkt)

theorem Ready2.putG {s s1 : Ipm K} (h : Ready2 E s s1) (kk col : ℕ) (hc : col < 21) (x : K) : Ready2 E s (putG E kk col x s1) :=
  ⟨h.keep.trans (putG_keep E kk col hc x s1), sync_putG E kk col x h.sync, by rw [putG_core, putG_kkt]; exact h.dir⟩

theorem Ready2.putG4 {s s1 : Ipm K} (h : Ready2 E s s1) (kk col : ℕ) (hc : col + 3 < 21) (x : K × K × K × K) : Ready2 E s (putG4 E kk col x s1) :=
  ⟨h.keep.trans (putG4_keep E kk col hc x s1), sync_putG4 E kk col x h.sync, by rw [putG4_core, putG4_kkt]; exact h.dir⟩

theorem putG4_ffr (kk col : ℕ) (hc : col + 3 < 21) (x : K × K × K × K) (s : Ipm K) : FFr s (putG4 E kk col x s) := by
  unfold putG4
  exact (((putG_ffr E kk _ (by omega) _ _).trans (putG_ffr E kk _ (by omega) _ _)).trans (putG_ffr E kk _ (by omega) _ _)).trans (putG_ffr E kk _ (by omega) _ _)

/-- from the affine direction to the direction used -/
theorem chosen_of (H : MHyp E) {s0 s : Ipm K} (hc : MConst E s0) (hu : MCur E s0) (hf : MFac E s0 s) (hs : Sync E s)
    (hd : DirOf E s0 (fun k j => (zOf E s0).lam k j * (zOf E s0).t k j - E.qp.m k j - E.arg.r .tau_min) s) (kk : ℕ) :
    Ready2 E s0 (if E.arg.i .pred_corr = 1 then corrGen E kk (alphaStep E kk 0 s) else alphaStep E kk 0 s) := by
  have l := alpha_stepLen E hc hf.keep hs kk 0
  have fk := alphaStep_ffr E kk 0 (by omega) s
  have f1 : MFac E s0 (alphaStep E kk 0 s) := hf.fr E fk
  have y1 : Sync E (alphaStep E kk 0 s) := sync_alpha E kk 0 hs
  have ek := alphaStep_kkt' E kk 0 s
  have d1 : DirOf E s0 (fun k j => (zOf E s0).lam k j * (zOf E s0).t k j - E.qp.m k j - E.arg.r .tau_min) (alphaStep E kk 0 s) := by
    unfold DirOf; rw [ek]; exact hd
  by_cases hp : E.arg.i .pred_corr = 1
  · rw [if_pos hp]
    obtain ⟨⟨c1, c2, c3⟩, c4⟩ := corr_ok E H hc hu f1 y1 d1 kk
    exact ⟨c1, c2, stepOf (alphaStep E kk 0 s).kkt, _, _, d1, by rw [ek]; exact l, c3, fun h => absurd hp h, fun _ => c4⟩
  · rw [if_neg hp]
    exact ⟨f1.keep, y1, stepOf (alphaStep E kk 0 s).kkt, _, _, d1, by rw [ek]; exact l, by rw [ek]; exact l, fun _ => SolEq.refl _ _,
      fun h => absurd h hp⟩

theorem mask_sq (H : MHyp E) {k j : ℕ} (hk : k ≤ E.qp.dim.N) (hj : j < nct E.qp.dim k) : E.qp.d_mask k j * E.qp.d_mask k j = E.qp.d_mask k j := by
  rcases H.m01 k j hk hj with e | e <;> rw [e] <;> norm_num

theorem delta_ready (H : MHyp E) (ha : E.arg.i .abs_form = 0) {s : Ipm K} (hc : MConst E s) (hu : MCur E s) (kk : ℕ) :
    ∃ s1, deltaStep E kk s = some (updStep E s1) ∧ Ready2 E s s1 := by
  obtain ⟨av, ak, am⟩ := affine_vals E hc.rdy
  have hna : ¬ E.arg.i .abs_form ≠ 0 := fun h => h ha
  have hb : BkpOk E s (affineRhs E s) := by
    intro k j hk hj
    rw [(av k j hk hj).1, hu.rm k j hk hj, if_neg hna, ← mul_assoc, mask_sq E H hk hj, sub_zero]
  have hr : RM E s (affineRhs E s) (fun k j => (zOf E s).lam k j * (zOf E s).t k j - E.qp.m k j - E.arg.r .tau_min) := by
    intro k j hk hj
    rw [(av k j hk hj).2, hu.rm k j hk hj, if_neg hna, sub_zero, hc.tau, mul_sub, ← mul_assoc, mask_sq E H hk hj, ← mul_sub]
  obtain ⟨s1, e1, f1, y1, d1⟩ := fact_dir E H hc hu (affineRhs_keep E s) ak am hb hr
  have ef : ∀ x, finSub E x = x := fun x => by unfold finSub; rw [if_neg hna]
  rw [ef] at f1 y1 d1
  unfold deltaStep factPhase
  rw [if_pos H.lqf, e1, Option.map_some, Option.map_some]
  refine ⟨_, rfl, ?_⟩
  have hpp : ∀ x, predPhase E kk x = alphaStep E kk 0 (putG E kk 20 (if (putG4 E kk 16 (0, 0, 0, 0) x).npd then 1 else 0)
      (putG E kk 14 ((0 : ℕ) : K) (putG4 E kk 16 (0, 0, 0, 0) x))) := by
    intro x; unfold predPhase; rw [if_pos H.itp]
  have hci : ∀ x, corrItref E kk x = ⟨x, 0, false⟩ := by
    intro x; unfold corrItref; rw [if_neg (not_lt.mpr H.itc)]
  simp only [hpp, hci, corrGen_rel E ha]
  set y := putG E kk 20 (if (putG4 E kk 16 (0, 0, 0, 0) (putG E kk 13 (if (maskStep E s1).lastLq then 1 else 0) (maskStep E s1))).npd then 1 else 0)
      (putG E kk 14 ((0 : ℕ) : K) (putG4 E kk 16 (0, 0, 0, 0) (putG E kk 13 (if (maskStep E s1).lastLq then 1 else 0) (maskStep E s1)))) with hy
  have fr : FFr (maskStep E s1) y := (((putG_ffr E kk 13 (by omega) _ _).trans (putG4_ffr E kk 16 (by omega) _ _)).trans
    (putG_ffr E kk 14 (by omega) _ _)).trans (putG_ffr E kk 20 (by omega) _ _)
  have ek : y.kkt = (maskStep E s1).kkt := by rw [hy]; simp only [putG_kkt, putG4_kkt]
  have yy : Sync E y := sync_putG E _ _ _ (sync_putG E _ _ _ (sync_putG4 E _ _ _ (sync_putG E _ _ _ y1)))
  have dd : DirOf E s (fun k j => (zOf E s).lam k j * (zOf E s).t k j - E.qp.m k j - E.arg.r .tau_min) y := by
    unfold DirOf; rw [ek]; exact d1
  have R := chosen_of E H hc hu (f1.fr E fr) yy dd kk
  refine Ready2.putG E ?_ kk 15 (by omega) _
  split
  · refine Ready2.putG4 E ?_ kk 16 (by omega) _
    split <;> rename_i hp
    · rw [if_pos hp] at R; exact R
    · rw [if_neg hp] at R; exact R
  · split <;> rename_i hp
    · rw [if_pos hp] at R; exact R
    · rw [if_neg hp] at R; exact R

theorem abs_ready (H : MHyp E) (ha : E.arg.i .abs_form ≠ 0) {s : Ipm K} (hc : MConst E s) (hu : MCur E s) (kk : ℕ) :
    ∃ s1, absStep E kk s = some (updStep E s1) ∧ Ready2 E s s1 := by
  set x : Ipm K := { s with core := { s.core with
    res_m := fun i => if i < s.core.nc then -1 * s.core.res_m i + (-2) * fm E.qp i else s.core.res_m i } } with hx
  have kx : Keep s x := Keep.ofCore ⟨rfl, rfl, rfl, rfl, rfl, rfl, rfl, rfl, rfl, rfl, rfl, rfl, rfl, rfl, rfl, rfl⟩
  obtain ⟨av, ak, am⟩ := affine_vals E (hc.rdy.keep E kx)
  have xv : ∀ k j, k ≤ E.qp.dim.N → j < nct E.qp.dim k → x.core.res_m (stOff (nct E.qp.dim) k + j) =
      -(E.qp.d_mask k j * ((zOf E s).lam k j * (zOf E s).t k j - E.qp.m k j)) - 2 * E.qp.m k j := by
    intro k j hk hj
    have hp : stOff (nct E.qp.dim) k + j < s.core.nc := by rw [hc.rdy.nc]; exact stOff_lt hk hj
    show (if stOff (nct E.qp.dim) k + j < s.core.nc then _ else _) = _
    rw [if_pos hp, hu.rm k j hk hj, fm, stFlat_at _ _ _ k j (by omega) hj]
    ring
  have hb : BkpOk E s (affineRhs E x) := by
    intro k j hk hj
    rw [(av k j hk hj).1, xv k j hk hj, if_pos ha]
    rcases H.m01 k j hk hj with e | e <;> rw [e] <;> ring
  have hr : RM E s (affineRhs E x) (fun k j => (zOf E s).lam k j * (zOf E s).t k j - E.qp.m k j - E.arg.r .tau_min) := by
    intro k j hk hj
    rw [(av k j hk hj).2, xv k j hk hj, if_pos ha]
    have : x.core.tau_min = E.arg.r .tau_min := hc.tau
    rw [this]
    rcases H.m01 k j hk hj with e | e <;> rw [e] <;> ring
  obtain ⟨s1, e1, f1, y1, d1⟩ := fact_dir E H hc hu (kx.trans (affineRhs_keep E x)) (ak.trans rfl) (am.trans rfl) hb hr
  have ef : ∀ x, finSub E x = subSol E x := fun x => by unfold finSub; rw [if_pos ha]
  rw [ef] at f1 y1 d1
  have hst : absStep E kk s = (factStep E (affineRhs E x)).map fun s =>
    let s := maskStep E (subSol E s)
    let s := alphaStep E kk 0 (putG E kk 20 (if s.npd then 1 else 0) s)
    let s := if E.arg.i .pred_corr = 1 then absCorr E kk s else s
    updStep E s := rfl
  rw [hst, e1, Option.map_some]
  refine ⟨_, rfl, ?_⟩
  simp only [corrGen_abs E ha]
  set y := putG E kk 20 (if (maskStep E (subSol E s1)).npd then (1 : K) else 0) (maskStep E (subSol E s1)) with hy
  have fr : FFr (maskStep E (subSol E s1)) y := putG_ffr E kk 20 (by omega) _ _
  have ek : y.kkt = (maskStep E (subSol E s1)).kkt := by rw [hy, putG_kkt]
  have dd : DirOf E s (fun k j => (zOf E s).lam k j * (zOf E s).t k j - E.qp.m k j - E.arg.r .tau_min) y := by
    unfold DirOf; rw [ek]; exact d1
  exact chosen_of E H hc hu (f1.fr E fr) (sync_putG E _ _ _ y1) dd kk

/-! ### the move -/

theorem shorten_eq (c : Core K) : shortStep c = shorten c.alpha_prim c.alpha_dual := by
  unfold shortStep shorten
  have : (if c.alpha_prim < c.alpha_dual then c.alpha_prim else c.alpha_dual) = min c.alpha_prim c.alpha_dual := by
    split
    · rename_i h; rw [min_eq_left h.le]
    · rename_i h; rw [min_eq_right (not_lt.mp h)]
  simp only [this]

theorem clip_max (P : Prop) [Decidable P] (hP : P) (x m : K) : (if P ∧ x ≤ m then m else x) = max x m := by
  by_cases h : x ≤ m
  · rw [if_pos ⟨hP, h⟩, max_eq_right h]
  · rw [if_neg (fun e => h e.2), max_eq_left (not_le.mp h).le]

theorem upd_moved (H : MHyp E) {s s1 : Ipm K} (hc : MConst E s) (hr : Ready2 E s s1) :
    Moved E.qp E.arg (zOf E s) (stepOf s1.kkt) s1.core.alpha_prim s1.core.alpha_dual (solOf E.qp.dim (updStep E s1).core) := by
  have hk := hr.keep
  have r1 : Ready E s1 := hc.rdy.keep E hk
  have r2 : Ready E { s1 with core := updateVar s1.core } := r1.of E (updateVar_pars s1.core) rfl
  obtain ⟨v1, v2, v3, v4, -⟩ := updateVar_val s1.core
  simp only [shorten_eq] at v1 v2 v3 v4
  have cl : s1.core.t_lam_min = 2 := by rw [r1.clip, H.clip]; rfl
  refine ⟨fun k i hk' hi => ?_, fun k i hk' hi => ?_, fun k j hk' hj => ?_, fun k j hk' hj => ?_⟩
  · show (updStep E s1).core.v _ = _
    rw [(updStep_sol E s1).1, v1, if_pos (by rw [hk.core.nv, hc.nv]; exact stOff_lt hk' hi), hr.sync.ux k i hk' hi, hk.core.v]
    rfl
  · have e : (updStep E s1).core.pi = (updateVar s1.core).pi := by unfold updStep maskLam; split <;> rfl
    have hp : stOff (net E.qp.dim) k + i < stOff (net E.qp.dim) E.qp.dim.N := by
      obtain ⟨n, hn⟩ : ∃ n, E.qp.dim.N = n + 1 := ⟨E.qp.dim.N - 1, by omega⟩
      rw [hn]
      exact stOff_lt (len := net E.qp.dim) (N := n) (by omega) hi
    show (updStep E s1).core.pi _ = _
    rw [e, v2, if_pos (by rw [hk.core.ne, hc.ne]; exact hp), hr.sync.pi k i hk' hi, hk.core.pi]
    rfl
  · obtain ⟨m1, -⟩ := maskLam_val E r2 k j hk' hj
    have hp : stOff (nct E.qp.dim) k + j < s1.core.nc := by rw [r1.nc]; exact stOff_lt hk' hj
    refine m1.trans ?_
    show _ * (updateVar s1.core).lam _ = _
    rw [v3, if_pos hp, clip_max _ cl, if_pos H.clip, r1.lam_min, hr.sync.lam k j hk' hj, hk.core.lam]
    rcases H.m01 k j hk' hj with e | e
    · rw [e, zero_mul, if_neg (by norm_num)]
    · rw [e, one_mul, if_pos rfl]; rfl
  · have hp : stOff (nct E.qp.dim) k + j < s1.core.nc := by rw [r1.nc]; exact stOff_lt hk' hj
    show (updStep E s1).core.t _ = _
    rw [(updStep_sol E s1).2.1, v4, if_pos hp, clip_max _ cl, if_pos H.clip, r1.t_min, hr.sync.t k j hk' hj, hk.core.t]
    rfl

/-! ### invariants of the loop -/

/-- what holds before every pass -/
structure MInv (s : Ipm K) : Prop where
  c : MConst E s
  u : MCur E s
  rowB : ∀ k i j, i < E.qp.dim.nu k + E.qp.dim.nx k → s.kkt.BAbt k i j = E.qp.BAbt k i j
  rowR : ∀ k i j, i < E.qp.dim.nu k + E.qp.dim.nx k → s.kkt.RSQrq k i j = E.qp.RSQrq k i j
  ok : s.rws.Ok E.qp
  valid : s.rws.valid_nc_mask = true
  winv : s.rws.nc_mask_inv = 1 / (onCount E.qp : K)
  fresh : E.arg.i .abs_form = 0 → Fresh E s
  flag : s.rws.mask_constr = s.mask

theorem lamM_off {z : Sol K} (hm : Mask01 E.qp) (hz : InsideZ E.qp z) {k j : ℕ} (hk : k ≤ E.qp.dim.N) (hj : j < nct E.qp.dim k) :
    lamM E.qp z k j = z.lam k j := by
  unfold lamM
  rcases hm k j hk hj with e | e
  · rw [(hz k j hk hj).2.2 e, mul_zero]
  · rw [e, one_mul]

theorem vM_inside {z : Sol K} (hm : Mask01 E.qp) (hz : InsideZ E.qp z) {k j : ℕ} (hk : k ≤ E.qp.dim.N) (hj : j < nct E.qp.dim k) :
    vM E.qp z k j = E.qp.d_mask k j * (z.lam k j * z.t k j - E.qp.m k j) := by
  unfold vM
  rw [lamM_off E hm hz hk hj]

theorem sum_vM {z : Sol K} (hm : Mask01 E.qp) (hz : InsideZ E.qp z) :
    (∑ k ∈ range (E.qp.dim.N + 1), ∑ j ∈ range (nct E.qp.dim k), |vM E.qp z k j|) * (1 / (onCount E.qp : K)) = muOf E.qp z := by
  unfold muOf
  rw [mul_one_div]
  congr 1
  refine sum_congr rfl (fun k hk => sum_congr rfl (fun j hj => ?_))
  have hk := mem_range.mp hk
  have hj := mem_range.mp hj
  rw [vM_inside E hm hz (by omega) hj]
  rcases hm k j (by omega) hj with e | e
  · rw [e, zero_mul, abs_zero, if_neg (by norm_num)]
  · rw [e, one_mul, if_pos rfl]

/-- a state with fresh residuals -/
theorem cur_fresh (H : MHyp E) {s : Ipm K} (hc : MConst E s)
    (rowB : ∀ k i j, i < E.qp.dim.nu k + E.qp.dim.nx k → s.kkt.BAbt k i j = E.qp.BAbt k i j)
    (rowR : ∀ k i j, i < E.qp.dim.nu k + E.qp.dim.nx k → s.kkt.RSQrq k i j = E.qp.RSQrq k i j)
    (ok : s.rws.Ok E.qp) (valid : s.rws.valid_nc_mask = true) (winv : s.rws.nc_mask_inv = 1 / (onCount E.qp : K))
    (hf : Fresh E s) (hmu : s.core.mu = s.res.res_mu) (hi : InsideZ E.qp (zOf E s)) : MCur E s := by
  obtain ⟨r0, hr0⟩ := hf.res
  have hs := res_rows E.qp H.wf s.kkt.BAbt s.kkt.RSQrq rowB rowR (zOf E s) r0 r0 s.rws s.rws ok ok
  have e0 : s.res = resCompute { E.qp with BAbt := s.kkt.BAbt, RSQrq := s.kkt.RSQrq } (zOf E s) r0 s.rws := hr0
  rw [← e0] at hs
  obtain ⟨a1, -, -, -⟩ := resCompute_val E.qp H.wf (zOf E s) r0 s.rws ok
  obtain ⟨-, -, -, b4, b5⟩ := resCompute_val { E.qp with BAbt := s.kkt.BAbt, RSQrq := s.kkt.RSQrq } H.wf (zOf E s) r0 s.rws ok
  rw [← e0] at b4 b5
  refine ⟨hi, ?_, fun k j hk hj => ?_, fun _ k i hk hi' => ?_, fun _ k i hk hi' => ?_, fun _ k j hk hj => ?_⟩
  · have e2 : (maskSel { E.qp with BAbt := s.kkt.BAbt, RSQrq := s.kkt.RSQrq } s.rws).2 = 1 / (onCount E.qp : K) := by
      unfold maskSel
      rw [valid, if_pos rfl]
      exact winv
    rw [hmu, b5, b4, e2]
    exact sum_vM E H.m01 hi
  · rw [hf.rm, stFlat_at _ _ _ k j (by omega) hj, hs.m k j hk hj, (a1 k hk).2 j hj, vM_inside E H.m01 hi hk hj]
  · rw [hs.g k i hk hi', (a1 k hk).1.g i hi']
    exact vG_congr _ _ _ _ _ _ (fun j hj => lamM_off E H.m01 hi hk hj) hi'
  · rw [hs.b k i hk hi', (a1 k hk.le).1.b hk i hi']
  · rw [hs.d k j hk hj, (a1 k hk).1.d j hj]

/-- the complementarity residual of the absolute formulation -/
theorem absMu_rm {s : Ipm K} (h : Ready E s) {k j : ℕ} (hk : k ≤ E.qp.dim.N) (hj : j < nct E.qp.dim k) :
    (absMu E s).core.res_m (stOff (nct E.qp.dim) k + j) =
      E.qp.d_mask k j * (s.core.lam (stOff (nct E.qp.dim) k + j) * s.core.t (stOff (nct E.qp.dim) k + j) - E.qp.m k j) := by
  have hp : stOff (nct E.qp.dim) k + j < s.core.nc := by rw [h.nc]; exact stOff_lt hk hj
  unfold absMu
  extract_lets c rm rm' s1
  show s1.core.res_m _ = _
  refine (maskResM_val E (s := { s with core := { c with res_m := rm' } }) ⟨h.nc, h.mask, h.lam_min, h.t_min, h.clip, h.split⟩ hk hj).trans ?_
  congr 1
  show axpy s.core.nc (-1) (fm E.qp) 0 (vecmul s.core.nc s.core.lam 0 s.core.t 0 s.core.res_m 0) 0
        (vecmul s.core.nc s.core.lam 0 s.core.t 0 s.core.res_m 0) 0 _ = _
  unfold axpy vecmul fm
  simp only [Nat.zero_add, Nat.sub_zero, Nat.zero_le, true_and, if_pos hp]
  rw [stFlat_at _ _ _ k j (by omega) hj]
  ring

theorem cur_abs (H : MHyp E) (ha : E.arg.i .abs_form ≠ 0) {s : Ipm K} (h : Ready E s) (hinv : s.core.nc_mask_inv = 1 / (onCount E.qp : K))
    (hi : InsideZ E.qp (zOf E s)) : MCur E (absMu E s) := by
  have e : solOf E.qp.dim (absMu E s).core = solOf E.qp.dim s.core := by
    obtain ⟨-, f2, f3, -⟩ := absMu_frame E s
    obtain ⟨g1, g2⟩ := (absMu_it E s).1
    unfold solOf
    rw [f2, f3, g1, g2]
  refine ⟨by rw [e]; exact hi, ?_, fun k j hk hj => ?_, fun h0 => absurd h0 ha, fun h0 => absurd h0 ha, fun h0 => absurd h0 ha⟩
  · rw [absMu_mu E H.m01 h, hinv, mul_one_div, e]
    rfl
  · rw [absMu_rm E h hk hj, e]
    rfl

/-- parameters that `pars` does not list -/
def pars2 (c : Core K) : Vec K × K := (c.m, c.m_safe)

theorem updateVar_pars2 (c : Core K) : pars2 (updateVar c) = pars2 c := by
  unfold updateVar
  extract_lets a c1 c2 c3 c4
  have h1 : pars2 c1 = pars2 c := loop_kept pars2 _ _ _ fun _ _ => rfl
  have h2 : pars2 c2 = pars2 c1 := loop_kept pars2 _ _ _ fun _ _ => rfl
  have h3 : pars2 c3 = pars2 c2 := loop_kept pars2 _ _ _ fun _ _ => rfl
  have h4 : pars2 c4 = pars2 c2 := loop_kept pars2 _ _ _ fun _ _ => rfl
  split
  · refine Eq.trans ?_ (h3.trans (h2.trans h1))
    exact loop_kept pars2 _ _ _ fun _ _ => rfl
  · refine Eq.trans ?_ (h4.trans (h2.trans h1))
    exact loop_kept pars2 _ _ _ fun _ _ => rfl

theorem updStep_pars2 (s : Ipm K) : pars2 (updStep E s).core = pars2 s.core := by
  have : pars2 (updStep E s).core = pars2 (updateVar s.core) := by unfold updStep maskLam; split <;> rfl
  rw [this, updateVar_pars2]

theorem absMu_pars2 (s : Ipm K) : pars2 (absMu E s).core = pars2 s.core := by
  unfold absMu
  extract_lets c rm rm' s1
  show pars2 s1.core = _
  simp only [s1]
  unfold maskResM
  split <;> rfl

theorem Keep.pars2 {s s' : Ipm K} (h : Keep s s') : Hpipm.pars2 s'.core = Hpipm.pars2 s.core := by
  unfold Hpipm.pars2; rw [h.core.m, h.core.m_safe]

theorem putG4_rws (kk col : ℕ) (x : K × K × K × K) (s : Ipm K) : (putG4 E kk col x s).rws = s.rws := by
  unfold putG4; simp only [putG_rws]

theorem putG4_res (kk col : ℕ) (x : K × K × K × K) (s : Ipm K) : (putG4 E kk col x s).res = s.res := by
  unfold putG4; simp only [putG_res]

/-- the constants survive -/
theorem MConst.next {s s' : Ipm K} (h : MConst E s) (hp : pars s'.core = pars s.core) (hp2 : pars2 s'.core = pars2 s.core) (hm : s'.mask = s.mask)
    (rowB : ∀ k i j, i < E.qp.dim.nu k + E.qp.dim.nx k → s'.kkt.BAbt k i j = E.qp.BAbt k i j)
    (rowR : ∀ k i j, i < E.qp.dim.nu k + E.qp.dim.nx k → s'.kkt.RSQrq k i j = E.qp.RSQrq k i j) : MConst E s' := by
  have hr := h.rdy.of E hp hm
  simp only [pars, Prod.mk.injEq] at hp
  obtain ⟨p1, p2, p3, p4, p5, p6, p7, p8, p9, p10⟩ := hp
  obtain ⟨q1, q2⟩ := Prod.mk.inj hp2
  exact ⟨p1.trans h.nv, p2.trans h.ne, hr, fun k i j _ hi _ => rowR k i j hi, fun k i a _ hi _ => rowB k i a hi,
    by rw [q1]; exact h.m, p6.trans h.tau, q2.trans h.m_safe, by rw [p9]; exact h.m_zero, p10.trans h.inv⟩

/-- **one pass of the loop performs one iteration of the method** -/
theorem pass_meh (H : MHyp E) (hE : E.Keeps) {s : Ipm K} (hi : MInv E s) (kk : ℕ) :
    ∃ s', passOf E kk s = some s' ∧ MInv E s' ∧
      MehIter E.sq E.qp E.arg (zOf E s) s'.core.alpha_prim s'.core.alpha_dual (zOf E s') := by
  unfold passOf
  by_cases ha : E.arg.i .abs_form ≠ 0
  · rw [if_pos ha]
    obtain ⟨s1, e1, r1⟩ := abs_ready E H ha hi.c hi.u kk
    have hb : absBody E kk s = some (putG E kk 6 (absMu E (updStep E s1)).core.mu (absMu E (updStep E s1))) := by
      unfold absBody; rw [e1]; rfl
    refine ⟨_, hb, ?_, ?_⟩
    · have hmk := absBody_mk E kk _ _ hb
      obtain ⟨f1, f2, f3, f4, f5⟩ := absMu_frame E (updStep E s1)
      obtain ⟨g1, g2, g3⟩ := absMu_it E (updStep E s1)
      have hws : (putG E kk 6 (absMu E (updStep E s1)).core.mu (absMu E (updStep E s1))).rws = s.rws := by
        rw [putG_rws, f1, updStep_rws, r1.keep.rws]
      have hmask : (putG E kk 6 (absMu E (updStep E s1)).core.mu (absMu E (updStep E s1))).mask = s.mask := by
        rw [putG_mask, g3, updStep_mask, r1.keep.mask]
      have ru : Ready E (updStep E s1) := (hi.c.rdy.keep E r1.keep).of E (updStep_pars E s1) (updStep_mask E s1)
      have rowB := fun k i j (h : i < E.qp.dim.nu k + E.qp.dim.nx k) => (hmk.B k i j h).trans (hi.rowB k i j h)
      have rowR := fun k i j (h : i < E.qp.dim.nu k + E.qp.dim.nx k) => (hmk.R k i j h).trans (hi.rowR k i j h)
      have hpars : pars (updStep E s1).core = pars s.core := (updStep_pars E s1).trans r1.keep.core.pars
      have hc : MConst E (putG E kk 6 (absMu E (updStep E s1)).core.mu (absMu E (updStep E s1))) := by
        refine hi.c.next E ?_ ?_ hmask rowB rowR
        · rw [putG_core, g2]; exact hpars
        · rw [putG_core, absMu_pars2, updStep_pars2, r1.keep.pars2]
      have hin : InsideZ E.qp (zOf E (updStep E s1)) :=
        (updStep_clipped E (hi.c.rdy.keep E r1.keep) H.clip).inside E H.lmin H.tmin
      have hinv : (updStep E s1).core.nc_mask_inv = 1 / (onCount E.qp : K) := by
        simp only [pars, Prod.mk.injEq] at hpars
        exact hpars.2.2.2.2.2.2.2.2.2.trans hi.c.inv
      have hcur := cur_abs E H ha ru hinv hin
      refine ⟨hc, ⟨?_, ?_, ?_, ?_, ?_, ?_⟩, rowB, rowR, by rw [hws]; exact hi.ok, by rw [hws]; exact hi.valid, by rw [hws]; exact hi.winv,
        fun h0 => absurd h0 ha, by rw [hws, hmask]; exact hi.flag⟩
      · rw [putG_core]; exact hcur.ins
      · rw [putG_core]; exact hcur.mu
      · rw [putG_core]; exact hcur.rm
      · exact fun h0 => absurd h0 ha
      · exact fun h0 => absurd h0 ha
      · exact fun h0 => absurd h0 ha
    · have hmv := upd_moved E H hi.c r1
      obtain ⟨f1, f2, f3, f4, f5⟩ := absMu_frame E (updStep E s1)
      obtain ⟨g1, -⟩ := absMu_it E (updStep E s1)
      have e : solOf E.qp.dim (absMu E (updStep E s1)).core = solOf E.qp.dim (updStep E s1).core := by
        unfold solOf; rw [f2, f3, g1.1, g1.2]
      rw [zOf, zOf, putG_core, e, f4, f5, (updStep_sol E s1).2.2.1, (updStep_sol E s1).2.2.2, (updateVar_alpha _).1, (updateVar_alpha _).2]
      exact r1.dir.iter hmv
  · rw [if_neg ha]
    have ha : E.arg.i .abs_form = 0 := not_not.mp ha
    obtain ⟨s1, e1, r1⟩ := delta_ready E H ha hi.c hi.u kk
    obtain ⟨s', hb, hs'⟩ : ∃ s', relBody E kk s = some s' ∧ s' = (
        let s := resStep E (updStep E s1)
        let s := { s with core := { s.core with mu := s.res.res_mu } }
        putG E kk 12 s.res.obj (putG E kk 11 s.res.dual_gap (putG4 E kk 7 s.rmax (putG E kk 6 s.res.res_mu s)))) :=
      ⟨_, by unfold relBody; rw [e1]; rfl, rfl⟩
    have hcore : s'.core = { (resStep E (updStep E s1)).core with mu := (resStep E (updStep E s1)).res.res_mu } := by
      rw [hs']; simp only [putG_core, putG4_core]
    have hres : s'.res = (resStep E (updStep E s1)).res := by
      rw [hs']; simp only [putG_res, putG4_res]
    have hws : s'.rws = s.rws := by
      rw [hs']; simp only [putG_rws, putG4_rws]
      show (updStep E s1).rws = _
      rw [updStep_rws, r1.keep.rws]
    have hsol : solOf E.qp.dim s'.core = solOf E.qp.dim (updStep E s1).core := by rw [hcore]; rfl
    have hmk := relBody_mk E hE kk _ _ hb
    have hfr := relBody_fresh E kk _ _ hi.flag hb
    obtain ⟨hp, hmask⟩ := relBody_pars E kk _ _ hb
    have rowB := fun k i j (h : i < E.qp.dim.nu k + E.qp.dim.nx k) => (hmk.B k i j h).trans (hi.rowB k i j h)
    have rowR := fun k i j (h : i < E.qp.dim.nu k + E.qp.dim.nx k) => (hmk.R k i j h).trans (hi.rowR k i j h)
    have hp2 : pars2 s'.core = pars2 s.core := by
      rw [hcore]
      show pars2 (updStep E s1).core = _
      rw [updStep_pars2, r1.keep.pars2]
    have hc : MConst E s' := hi.c.next E hp hp2 hmask rowB rowR
    have hin : InsideZ E.qp (zOf E s') := by
      rw [zOf, hsol]
      exact (updStep_clipped E (hi.c.rdy.keep E r1.keep) H.clip).inside E H.lmin H.tmin
    have ok : s'.rws.Ok E.qp := by rw [hws]; exact hi.ok
    have valid : s'.rws.valid_nc_mask = true := by rw [hws]; exact hi.valid
    have winv : s'.rws.nc_mask_inv = 1 / (onCount E.qp : K) := by rw [hws]; exact hi.winv
    have hmu : s'.core.mu = s'.res.res_mu := by rw [hcore, hres]
    refine ⟨s', hb, ⟨hc, cur_fresh E H hc rowB rowR ok valid winv hfr hmu hin, rowB, rowR, ok, valid, winv, fun _ => hfr, hfr.mask⟩, ?_⟩
    have hmv := upd_moved E H hi.c r1
    have a1 : s'.core.alpha_prim = s1.core.alpha_prim := by
      rw [hcore]; exact (updStep_sol E s1).2.2.1.trans (updateVar_alpha _).1
    have a2 : s'.core.alpha_dual = s1.core.alpha_dual := by
      rw [hcore]; exact (updStep_sol E s1).2.2.2.trans (updateVar_alpha _).2
    rw [a1, a2, zOf, zOf, hsol]
    exact r1.dir.iter hmv

/-! ### the start -/

theorem vecnrmInf_zero (n : ℕ) (x : Vec K) : vecnrmInf n x 0 = 0 ↔ ∀ i, i < n → x i = 0 := by
  obtain ⟨h1, h2, -⟩ := vecnrmInf_spec n x 0
  constructor
  · intro h i hi
    have := h1 i hi
    rw [h, Nat.zero_add] at this
    exact abs_eq_zero.mp (le_antisymm this (abs_nonneg _))
  · intro h
    rcases h2 with h2 | ⟨i, hi, h2⟩
    · exact h2
    · rw [h2, Nat.zero_add, h i hi, abs_zero]

theorem relStart_more (x : Ipm K) : (relStart E x).rws = x.rws ∧ pars2 (relStart E x).core = pars2 x.core ∧
    (relStart E x).core.mu = (relStart E x).res.res_mu ∧ solOf E.qp.dim (relStart E x).core = solOf E.qp.dim x.core := by
  unfold relStart
  extract_lets s1 c2 s2
  split <;> exact ⟨rfl, rfl, rfl, rfl⟩

theorem compCount_on (qp : OcpQp K) : compCount qp = onCount qp := rfl

theorem start_meh (H : MHyp E) (hio : InitOk E) (sol : Sol K) (s : Ipm K) (hnv : s.core.nv = stOff (nvt E.qp.dim) (E.qp.dim.N + 1))
    (hne : s.core.ne = stOff (net E.qp.dim) E.qp.dim.N)
    (hnc : s.core.nc = stOff (nct E.qp.dim) (E.qp.dim.N + 1)) (hon : ncMask E.qp s.core.nc ≠ 0) : MInv E (startState E sol s) := by
  set x := ipmInit E (prologue E sol s) with hx
  obtain ⟨hw, hmm⟩ := ipmInit_rws E (prologue E sol s)
  have hin := ipmInit_inside E H.m01 hio (prologue_ready E H.m01 sol s hnc)
  have hrd := ipmInit_ready E (prologue_ready E H.m01 sol s hnc)
  rw [← hx] at hw hmm hin hrd
  have hcnt : (ncMask E.qp s.core.nc : K) = (onCount E.qp : K) := by rw [hnc, ncMask_count E.qp H.m01, compCount_on]
  have hwi : x.rws.nc_mask_inv = 1 / (onCount E.qp : K) := by
    rw [hw, ← hcnt]
    show (if ncMask E.qp s.core.nc = 0 then (0 : K) else _) = _
    rw [if_neg hon]
  have hwv : x.rws.valid_nc_mask = true := by rw [hw]; rfl
  have hflag : x.rws.mask_constr = x.mask := by rw [hw, hmm]; rfl
  have hok : x.rws.Ok E.qp := by
    intro _
    rw [hw]
    have := ncMask_ok E.qp H.m01
    rw [← hnc] at this
    exact this
  have hcore : ∃ l a b z, x.core = { (prologue E sol s).core with
      v := (putSol E.qp.dim (initVar E.sq E.qp E.arg (solOf E.qp.dim (prologue E sol s).core)) (prologue E sol s).core).v
      pi := (putSol E.qp.dim (initVar E.sq E.qp E.arg (solOf E.qp.dim (prologue E sol s).core)) (prologue E sol s).core).pi
      t := (putSol E.qp.dim (initVar E.sq E.qp E.arg (solOf E.qp.dim (prologue E sol s).core)) (prologue E sol s).core).t
      lam := l, alpha_prim := a, alpha_dual := b, m_zero := z } ∧ z = decide (vecnrmInf s.core.nc (fm E.qp) 0 = 0) := by
    rw [hx]
    unfold ipmInit maskLam
    simp only
    split
    · exact ⟨_, _, _, _, rfl, rfl⟩
    · exact ⟨_, _, _, _, rfl, rfl⟩
  obtain ⟨l, a, b, z, hcr, hz⟩ := hcore
  have hk : x.kkt = (prologue E sol s).kkt := by
    rw [hx]; unfold ipmInit maskLam; simp only; split <;> rfl
  have rB : ∀ k i j, i < E.qp.dim.nu k + E.qp.dim.nx k → x.kkt.BAbt k i j = E.qp.BAbt k i j := by rw [hk]; exact fun _ _ _ _ => rfl
  have rR : ∀ k i j, i < E.qp.dim.nu k + E.qp.dim.nx k → x.kkt.RSQrq k i j = E.qp.RSQrq k i j := by rw [hk]; exact fun _ _ _ _ => rfl
  have hmz : x.core.m_zero = true ↔ ∀ k j, k ≤ E.qp.dim.N → j < nct E.qp.dim k → E.qp.m k j = 0 := by
    rw [hcr]
    show z = true ↔ _
    rw [hz, decide_eq_true_eq, hnc]
    constructor
    · intro h k j hk hj
      have := (vecnrmInf_zero _ _).mp h (stOff (nct E.qp.dim) k + j) (stOff_lt hk hj)
      rw [fm, stFlat_at _ _ _ k j (by omega) hj] at this
      exact this
    · intro h
      refine (vecnrmInf_zero _ _).mpr fun i hi => ?_
      obtain ⟨k, j, hk, hj, rfl⟩ := flat_split _ _ _ hi
      rw [fm, stFlat_at _ _ _ k j hk hj]
      exact h k j (by omega) hj
  have hc : MConst E x := by
    refine ⟨by rw [hcr]; exact hnv, by rw [hcr]; exact hne, hrd, fun k i j _ hi _ => rR k i j hi, fun k i a _ hi _ => rB k i a hi, fun k j hk hj => ?_,
      by rw [hcr]; rfl, by rw [hcr]; rfl, hmz, ?_⟩
    · rw [hcr]
      show (if stOff (nct E.qp.dim) k + j < s.core.nc then _ else _) = _
      rw [if_pos (by rw [hnc]; exact stOff_lt hk hj), fm, fmask, stFlat_at _ _ _ k j (by omega) hj, stFlat_at _ _ _ k j (by omega) hj]
    · rw [hcr, ← hcnt]
      show (if ncMask E.qp s.core.nc = 0 then (0 : K) else _) = _
      rw [if_neg hon]
  unfold startState
  rw [← hx]
  clear_value x
  clear hcr hk
  split
  · rename_i ha
    obtain ⟨f1, -⟩ := absMu_frame E x
    obtain ⟨-, g2, g3⟩ := absMu_it E x
    have hmk := absMu_mk E x
    have rowB := fun k i j (h : i < E.qp.dim.nu k + E.qp.dim.nx k) => (hmk.B k i j h).trans (rB k i j h)
    have rowR := fun k i j (h : i < E.qp.dim.nu k + E.qp.dim.nx k) => (hmk.R k i j h).trans (rR k i j h)
    exact ⟨hc.next E g2 (absMu_pars2 E x) g3 rowB rowR, cur_abs E H ha hrd hc.inv hin, rowB, rowR, by rw [f1]; exact hok, by rw [f1]; exact hwv,
      by rw [f1]; exact hwi, fun h0 => absurd h0 ha, by rw [f1, g3]; exact hflag⟩
  · have hf := relStart_fresh E x hflag
    obtain ⟨g2, g3⟩ := relStart_pars E x
    obtain ⟨f1, g4, g5, hsol⟩ := relStart_more E x
    have hkk := relStart_kkt E x
    have rowB : ∀ k i j, i < E.qp.dim.nu k + E.qp.dim.nx k → (relStart E x).kkt.BAbt k i j = E.qp.BAbt k i j := by rw [hkk]; exact rB
    have rowR : ∀ k i j, i < E.qp.dim.nu k + E.qp.dim.nx k → (relStart E x).kkt.RSQrq k i j = E.qp.RSQrq k i j := by rw [hkk]; exact rR
    have c' := hc.next E g2 g4 g3 rowB rowR
    have ok' : (relStart E x).rws.Ok E.qp := by rw [f1]; exact hok
    have v' : (relStart E x).rws.valid_nc_mask = true := by rw [f1]; exact hwv
    have w' : (relStart E x).rws.nc_mask_inv = 1 / (onCount E.qp : K) := by rw [f1]; exact hwi
    exact ⟨c', cur_fresh E H c' rowB rowR ok' v' w' hf g5 (by rw [zOf, hsol]; exact hin), rowB, rowR, ok', v', w', fun _ => hf, hf.mask⟩

end
end Hpipm
