/-
C88: how the constraint violation of the tree solver evolves from one iteration to the next, in both formulations.
-/
import Verif.TreePrim
import Verif.IpmContractRun
import Verif.TreeIpmUser

namespace Hpipm
open Finset
set_option linter.unusedSectionVars false

section
variable {K : Type*} [Field K] [LinearOrder K] [IsStrictOrderedRing K]
variable (T : TEnv K)

/-- a full step from the current iterate satisfies the constraints -/
def TLands (s : Ipm K) : Prop :=
  TPrim T.t (tB T.t (solOf T.t.qp.dim s.core)) (vD T.t.qp (solOf T.t.qp.dim s.core)) s.kkt.ux s.kkt.t

variable {T}
variable (ht : T.t.TreeOk) (hwf : T.t.qp.WF)
include ht hwf

theorem TLands.same {s s' : Ipm K} (h : TLands T s) (hs : TSame T s s') : TLands T s' := by
  have e : solOf T.t.qp.dim s'.core = solOf T.t.qp.dim s.core := by
    unfold solOf; rw [hs.keep.core.v, hs.keep.core.pi, hs.keep.core.lam, hs.keep.core.t]
  unfold TLands
  rw [e]
  exact TPrim.congr ht hwf h hs.ux hs.t

/-- relative formulation: the right-hand side of the step problem is the constraint violation of the iterate -/
theorem tlands_of_dir (hm : Mask01 T.t.qp) (ha : T.arg.i .abs_form = 0) {s s1 : Ipm K} (hws : s.rws.Ok T.t.qp) (hf : TFresh T s)
    (hl : MaskedIt T s) (hk : Keep s s1) (h : TDir T s1) : TLands T s1 := by
  obtain ⟨r0, hres⟩ := hf.res
  have v := tresCompute_val T.t ht hwf (solOf T.t.qp.dim s.core) hl r0 s.rws hws
  have e : solOf T.t.qp.dim s1.core = solOf T.t.qp.dim s.core := by
    unfold solOf; rw [hk.core.v, hk.core.pi, hk.core.lam, hk.core.t]
  have hb : (tqpStep T s1).qp.b = s.res.res_b := by
    unfold tqpStep; dsimp only; rw [if_neg (by rw [ha]; simp)]; exact congrArg Res.res_b hk.res
  have hd : (tqpStep T s1).qp.d = s.res.res_d := by
    unfold tqpStep; dsimp only; rw [if_neg (by rw [ha]; simp)]; exact congrArg Res.res_d hk.res
  unfold TLands
  rw [e]
  unfold TDir at h
  rw [hb, hd, hres] at h
  refine ⟨fun k i hk hi => ?_, fun k j hk hj => ?_⟩
  · have e1 := h.dyn k i hk hi
    rw [v.b k hk i hi] at e1
    exact e1
  · have e1 := h.con k j hk hj
    rw [v.d k hk j hj] at e1
    rcases hm k j hk hj with h0 | h0 <;> rw [h0] at e1 ⊢ <;> linear_combination e1

/-- absolute formulation: subtracting the iterate from the new point -/
theorem tsubSol_lands (ha : T.arg.i .abs_form ≠ 0) {s : Ipm K} (hy : Sync T.env s) (hnv : s.core.nv = stOff (nvt T.t.qp.dim) (T.t.qp.dim.N + 1))
    (hnc : s.core.nc = stOff (nct T.t.qp.dim) (T.t.qp.dim.N + 1)) (h : TDir T s) : TLands T (subSol T.env s) := by
  have hb : (tqpStep T s).qp.b = T.t.qp.b := by unfold tqpStep; dsimp only; rw [if_pos ha]
  have hd : (tqpStep T s).qp.d = T.t.qp.d := by unfold tqpStep; dsimp only; rw [if_pos ha]
  unfold TDir at h
  rw [hb, hd] at h
  have hsol : solOf T.t.qp.dim (subSol T.env s).core = solOf T.t.qp.dim s.core := rfl
  have hu : ∀ k i, k ≤ T.t.qp.dim.N → i < nvt T.t.qp.dim k → (subSol T.env s).kkt.ux k i = s.kkt.ux k i + (-1) * (solOf T.t.qp.dim s.core).ux k i := by
    intro k i hk hi
    rw [← hy.ux k i hk hi]
    have hlt := stOff_lt (len := nvt T.t.qp.dim) (N := T.t.qp.dim.N) hk hi
    have e := axpy_in (n := s.core.nv) (a := -1) (x := s.core.v) (xi := 0) (y := s.core.dv) (yi := 0) (z := s.core.dv) (zi := 0)
      (i := stOff (nvt T.t.qp.dim) k + i) ⟨by omega, by omega⟩
    simp only [Nat.zero_add, Nat.sub_zero] at e
    exact e
  have hts : ∀ k i, k ≤ T.t.qp.dim.N → i < nct T.t.qp.dim k → (subSol T.env s).kkt.t k i = s.kkt.t k i + (-1) * (solOf T.t.qp.dim s.core).t k i := by
    intro k i hk hi
    rw [← hy.t k i hk hi]
    have hlt := stOff_lt (len := nct T.t.qp.dim) (N := T.t.qp.dim.N) hk hi
    have e := axpy_in (n := s.core.nc) (a := -1) (x := s.core.t) (xi := 0) (y := s.core.dt) (yi := 0) (z := s.core.dt) (zi := 0)
      (i := stOff (nct T.t.qp.dim) k + i) ⟨by omega, by omega⟩
    simp only [Nat.zero_add, Nat.sub_zero] at e
    exact e
  unfold TLands
  rw [hsol]
  refine TPrim.congr ht hwf (ux := fun k i => s.kkt.ux k i + (-1) * (solOf T.t.qp.dim s.core).ux k i)
    (s := fun k i => s.kkt.t k i + (-1) * (solOf T.t.qp.dim s.core).t k i) ?_ hu (fun k j hk hj => by rw [hts k j hk hj])
  refine ⟨fun k i hk hi => ?_, fun k j hk hj => ?_⟩
  · rw [tlinB_add, tlinB_smul, tB_lin]
    linear_combination h.dyn k i hk hi
  · rw [linD_add, linD_smul, vD_lin]
    linear_combination h.con k j hk hj

/-- what is known when the iterate is updated -/
structure TLanding (T : TEnv K) (s : Ipm K) : Prop where
  sync : Sync T.env s
  al : AlphaFor T.env s
  lands : TLands T s

theorem tabs_solve (hm : Mask01 T.t.qp) (ha : T.arg.i .abs_form ≠ 0) (kk col : ℕ) (hc : col + 1 < 20) {x : Ipm K} (d1 : TIt T x)
    (hx : x.core.nv = stOff (nvt T.t.qp.dim) (T.t.qp.dim.N + 1)) :
    TLanding T (talphaStep T kk col (maskStep T.env (subSol T.env x))) ∧ TPre T (talphaStep T kk col (maskStep T.env (subSol T.env x))) ∧
      Keep x (talphaStep T kk col (maskStep T.env (subSol T.env x))) := by
  have l2 := tsubSol_lands ht hwf ha d1.sync hx d1.pre.nc d1.dir
  have y2 : Sync T.env (subSol T.env x) := sync_back T.env _
  have m3 := SameLin.tree T (mask_same T.env hm y2 ((subSol_keep T.env _).core.nc.trans d1.pre.nc))
  have l3 := l2.same ht hwf m3
  have k4 := talphaStep_keep T kk col hc (maskStep T.env (subSol T.env x))
  have m4 := TSame.ofEq T (talpha_core kk col (maskStep T.env (subSol T.env x))).2 k4
  have kx := ((subSol_keep T.env x).trans m3.keep).trans k4
  exact ⟨⟨talpha_sync kk col (sync_mask T.env y2), talphaFor_step kk col _, l3.same ht hwf m4⟩, d1.pre.keep T kx, kx⟩

theorem tabsCorr_end (hm : Mask01 T.t.qp) (ha : T.arg.i .abs_form ≠ 0) (kk : ℕ) {s : Ipm K}
    (hp : TPre T s) (hnv : s.core.nv = stOff (nvt T.t.qp.dim) (T.t.qp.dim.N + 1)) : TLanding T (tabsCorr T kk s) := by
  unfold tabsCorr
  extract_lets s1 s2 s3 m0 s4 s5
  have k1 := tsigmaStep_keep T kk s
  have k2 : Keep s1 s2 := (Keep.ofCore (computeCenteringCorrection_keep s1.core)).trans (maskResM_keep T.env _)
  have p2 : TPre T s2 := (hp.keep T k1).keep T k2
  have n2 := k2.core.nv.trans (k1.core.nv.trans hnv)
  obtain ⟨l3, p3, k3⟩ := tabs_solve ht hwf hm ha kk 4 (by omega) (tsolStep_it ht hwf p2) ((tsolStep_keep T s2).core.nv.trans n2)
  have n3 : s3.core.nv = _ := k3.core.nv.trans ((tsolStep_keep T s2).core.nv.trans n2)
  split
  · have k4 : Keep s3 s4 := Keep.ofCore (computeMuAff_keep s3.core)
    split
    · have k5 : Keep s4 s5 := (Keep.ofCore (computeCentering_keep s4.core)).trans (maskResM_keep T.env _)
      have p5 : TPre T s5 := (TPre.keep T p3 k4).keep T k5
      exact (tabs_solve ht hwf hm ha kk 4 (by omega) (tsolStep_it ht hwf p5)
        ((tsolStep_keep T s5).core.nv.trans (k5.core.nv.trans (k4.core.nv.trans n3)))).1
    · exact ⟨l3.sync.of_eq T.env rfl rfl rfl rfl rfl rfl rfl rfl, l3.al.muAff T.env, l3.lands⟩
  · exact l3

theorem tabsStep_end (hm : Mask01 T.t.qp) (ha : T.arg.i .abs_form ≠ 0) (kk : ℕ) {s : Ipm K}
    (hp : TPre T s) (hnv : s.core.nv = stOff (nvt T.t.qp.dim) (T.t.qp.dim.N + 1)) :
    ∃ s1, Keep s s1 ∧ tabsStep T kk s = updStep T.env s1 ∧ TLanding T s1 := by
  unfold tabsStep
  extract_lets c s1 s2 s3 s4
  have k1 : Keep s s1 := Keep.ofCore ⟨rfl, rfl, rfl, rfl, rfl, rfl, rfl, rfl, rfl, rfl, rfl, rfl, rfl, rfl, rfl, rfl⟩
  have k0 := k1.trans ((affineRhs_keep T.env s1).trans (tfactStep_keep T (affineRhs T.env s1)))
  have d0 : TIt T (tfactStep T (affineRhs T.env s1)) := tfactStep_it ht hwf ((hp.keep T k1).keep T (affineRhs_keep T.env s1))
  obtain ⟨l3, p3, k3⟩ := tabs_solve ht hwf hm ha kk 0 (by omega) d0 (k0.core.nv.trans hnv)
  have k03 : Keep s s3 := k0.trans k3
  refine ⟨s4, ?_, rfl, ?_⟩
  · simp only [s4]
    split
    · exact k03.trans (tabsCorr_keep T kk _)
    · exact k03
  · simp only [s4]
    split
    · exact tabsCorr_end ht hwf hm ha kk p3 (k03.core.nv.trans hnv)
    · exact l3

/-! ### the update -/

omit ht hwf in
/-- the constraint violation of the point `z'` is `1 - a` times that of `z`, except that slacks which the step `dt` takes below
the lower limit `tmin` may have been raised to it -/
structure TContracts (t : TreeQp K) (z z' : Sol K) (a tmin : K) (dt : ℕ → Vec K) : Prop where
  dyn : ∀ k i, k < t.qp.dim.N → i < t.qp.dim.nx (k + 1) → tB t z' k i = (1 - a) * tB t z k i
  con : ∀ k j, k ≤ t.qp.dim.N → j < nct t.qp.dim k → t.qp.d_mask k j = 1 →
    vD t.qp z' k j = (1 - a) * vD t.qp z k j + (z'.t k j - (z.t k j + a * dt k j))
  slk : ∀ k j, k ≤ t.qp.dim.N → j < nct t.qp.dim k → z'.t k j = z.t k j + a * dt k j ∨ (z.t k j + a * dt k j ≤ tmin ∧ z'.t k j = tmin)

theorem tupd_contracts {s : Ipm K} (hnv : s.core.nv = stOff (nvt T.t.qp.dim) (T.t.qp.dim.N + 1))
    (hnc : s.core.nc = stOff (nct T.t.qp.dim) (T.t.qp.dim.N + 1)) (h : TLanding T s) :
    TContracts T.t (solOf T.t.qp.dim s.core) (solOf T.t.qp.dim (updStep T.env s).core) (shortStep s.core).1 s.core.t_min s.kkt.t := by
  obtain ⟨v1, -, -, v4, -⟩ := updateVar_val s.core
  obtain ⟨w1, w2, -, -⟩ := updStep_sol T.env s
  set a := (shortStep s.core).1
  have hu : ∀ k i, k ≤ T.t.qp.dim.N → i < nvt T.t.qp.dim k →
      (solOf T.t.qp.dim (updStep T.env s).core).ux k i = (solOf T.t.qp.dim s.core).ux k i + a * s.kkt.ux k i := by
    intro k i hk hi
    have hlt := stOff_lt (len := nvt T.t.qp.dim) (N := T.t.qp.dim.N) hk hi
    have hy : s.core.dv (stOff (nvt T.t.qp.dim) k + i) = s.kkt.ux k i := h.sync.ux k i hk hi
    show (updStep T.env s).core.v _ = _
    rw [w1, v1, if_pos (by omega), hy]; rfl
  have hts : ∀ k j, k ≤ T.t.qp.dim.N → j < nct T.t.qp.dim k → (solOf T.t.qp.dim (updStep T.env s).core).t k j =
      if s.core.t_lam_min = 2 ∧ (solOf T.t.qp.dim s.core).t k j + a * s.kkt.t k j ≤ s.core.t_min then s.core.t_min
        else (solOf T.t.qp.dim s.core).t k j + a * s.kkt.t k j := by
    intro k j hk hj
    have hlt := stOff_lt (len := nct T.t.qp.dim) (N := T.t.qp.dim.N) hk hj
    have hy : s.core.dt (stOff (nct T.t.qp.dim) k + j) = s.kkt.t k j := h.sync.t k j hk hj
    show (updStep T.env s).core.t _ = _
    rw [w2, v4, if_pos (by omega), hy]; rfl
  refine ⟨fun k i hk hi => ?_, fun k j hk hj hm => ?_, fun k j hk hj => ?_⟩
  · rw [tB_lin, tB_lin, tlinB_congr T.t ht _ (fun k i => (solOf T.t.qp.dim s.core).ux k i + a * s.kkt.ux k i) k i hk hi hu, tlinB_add, tlinB_smul]
    have e := h.lands.dyn k i hk hi
    rw [tB_lin] at e
    linear_combination a * e
  · have e := h.lands.con k j hk hj
    rw [vD_lin, hm] at e
    rw [vD_lin, vD_lin, linD_congr (N := T.t.qp.dim.N) ⟨hwf.1, hwf.2⟩ (w := fun k i => (solOf T.t.qp.dim s.core).ux k i + a * s.kkt.ux k i) hk
      (fun i hi => hu k i hk hi) j hj, linD_add, linD_smul]
    linear_combination a * e
  · rw [hts k j hk hj]; split_ifs with hc
    · exact Or.inr ⟨hc.2, rfl⟩
    · exact Or.inl rfl

/-! ### whole runs -/

omit ht hwf in
/-- what every iterate of a run satisfies -/
structure TPassInv (T : TEnv K) (s : Ipm K) : Prop where
  pre : TPre T s
  nv : s.core.nv = stOff (nvt T.t.qp.dim) (T.t.qp.dim.N + 1)
  ready : Ready T.env s
  masked : MaskedIt T s
  fresh : T.arg.i .abs_form = 0 → TFresh T s

theorem tpass_contracts (hm : Mask01 T.t.qp) (hlq : T.lqf = 0 ∨ TLqPrim T) (kk : ℕ) {s s' : Ipm K}
    (hi : TPassInv T s) (h : tpassOf T kk s = some s') : TPassInv T s' ∧ ∃ dt,
      TContracts T.t (solOf T.t.qp.dim s.core) (solOf T.t.qp.dim s'.core) (shortStep s'.core).1 (T.arg.r .t_min) dt ∧
      (NonNeg T.env s → 0 ≤ (shortStep s'.core).1 ∧ (shortStep s'.core).1 ≤ 1 ∧ ∀ k j, k ≤ T.t.qp.dim.N → j < nct T.t.qp.dim k →
        0 ≤ (solOf T.t.qp.dim s.core).t k j + (shortStep s'.core).1 * dt k j) := by
  obtain ⟨-, -, -, hpars, hmask⟩ := tpass_upd T kk s s' h
  obtain ⟨s1, hk, hl, hv, hts, hlam, hap, had, hrws, hfr⟩ : ∃ s1, Keep s s1 ∧ TLanding T s1 ∧ s'.core.v = (updStep T.env s1).core.v ∧
      s'.core.t = (updStep T.env s1).core.t ∧ s'.core.lam = (updStep T.env s1).core.lam ∧
      s'.core.alpha_prim = (updStep T.env s1).core.alpha_prim ∧
      s'.core.alpha_dual = (updStep T.env s1).core.alpha_dual ∧ s'.rws = s.rws ∧ (T.arg.i .abs_form = 0 → TFresh T s') := by
    unfold tpassOf at h
    cases h
    split
    · rename_i ha
      obtain ⟨s1, k1, e1, l1⟩ := tabsStep_end ht hwf hm ha kk hi.pre hi.nv
      obtain ⟨f1, f2, f3, f4, f5⟩ := absMu_frame T.env (updStep T.env s1)
      have e : SEq (absMu T.env (tabsStep T kk s)) (tabsBody T kk s) := tputG_seq T kk 6 _ _
      refine ⟨s1, k1, l1, ?_, ?_, ?_, ?_, ?_, ?_, fun e => absurd e ha⟩
      · rw [e.core, e1]; exact f2
      · rw [e.core, e1]; exact (absMu_it T.env _).1.1
      · rw [e.core, e1]; exact (absMu_it T.env _).1.2
      · rw [e.core, e1]; exact f4
      · rw [e.core, e1]; exact f5
      · rw [e.rws, e1, f1, updStep_rws, k1.rws]
    · rename_i ha
      have ha : T.arg.i .abs_form = 0 := not_not.mp ha
      obtain ⟨s1, k1, e1, l1⟩ := tdeltaStep_end ht hwf hm hlq kk hi.pre
      have hc : ∃ z : Core K, (trelBody T kk s).core = z ∧ z.v = (updStep T.env s1).core.v ∧ z.t = (updStep T.env s1).core.t ∧
          z.lam = (updStep T.env s1).core.lam ∧ z.alpha_prim = (updStep T.env s1).core.alpha_prim ∧ z.alpha_dual = (updStep T.env s1).core.alpha_dual := by
        unfold trelBody
        rw [e1]
        extract_lets s2 c2 s3
        have e : SEq s3 (tputG T kk 12 s3.res.obj (tputG T kk 11 s3.res.dual_gap (tputG4 T kk 7 s3.rmax (tputG T kk 6 s3.res.res_mu s3)))) :=
          (((tputG_seq T kk 6 _ _).trans (tputG4_seq T kk 7 _ _)).trans (tputG_seq T kk 11 _ _)).trans (tputG_seq T kk 12 _ _)
        exact ⟨_, e.core, rfl, rfl, rfl, rfl, rfl⟩
      obtain ⟨z, hz, z1, z2, z3, z4, z5⟩ := hc
      obtain ⟨-, -, -, -, -, hr⟩ := trelBody_upd T kk s
      refine ⟨s1, k1, ⟨l1.it.sync, l1.al, tlands_of_dir ht hwf hm ha hi.pre.ws (hi.fresh ha) hi.masked k1 l1.it.dir⟩, ?_, ?_, ?_, ?_, ?_, hr,
        fun _ => trelBody_fresh T kk s⟩ <;> rw [hz] <;> assumption
  have hpars' := hpars
  simp only [pars, Prod.mk.injEq] at hpars
  obtain ⟨p1, -, p3, -, p5, -⟩ := hpars
  have hal : s'.core.alpha_prim = s1.core.alpha_prim := by rw [hap, (updStep_sol T.env s1).2.2.1]; exact (updateVar_alpha s1.core).1
  have hal2 : s'.core.alpha_dual = s1.core.alpha_dual := by rw [had, (updStep_sol T.env s1).2.2.2]; exact (updateVar_alpha s1.core).2
  have hsh : shortStep s'.core = shortStep s1.core := by unfold shortStep; rw [hal, hal2]
  have hmi : MaskedIt T s' := (updStep_masked T hm (hi.ready.keep T.env hk)).same T hlam
  refine ⟨⟨⟨p3.trans hi.pre.nc, by rw [hrws]; exact hi.pre.ws⟩, p1.trans hi.nv, hi.ready.of T.env hpars' hmask, hmi, hfr⟩, s1.kkt.t, ?_, ?_⟩
  · have c := tupd_contracts ht hwf (hk.core.nv.trans hi.nv) (hk.core.nc.trans hi.pre.nc) hl
    have e0 : (solOf T.t.qp.dim s1.core).ux = (solOf T.t.qp.dim s.core).ux := by simp only [solOf, hk.core.v]
    have e0' : (solOf T.t.qp.dim s1.core).t = (solOf T.t.qp.dim s.core).t := by simp only [solOf, hk.core.t]
    have e1 : (solOf T.t.qp.dim (updStep T.env s1).core).ux = (solOf T.t.qp.dim s'.core).ux := by simp only [solOf, hv]
    have e1' : (solOf T.t.qp.dim (updStep T.env s1).core).t = (solOf T.t.qp.dim s'.core).t := by simp only [solOf, hts]
    have htm : s.core.t_min = T.arg.r .t_min := hi.ready.t_min
    rw [hsh, ← htm, ← hk.core.t_min]
    refine ⟨fun k i hk hi => ?_, fun k j hk hj hmm => ?_, fun k j hk hj => ?_⟩
    · have := c.dyn k i hk hi
      rw [tB_lin, tB_lin, e0, e1] at this
      rw [tB_lin, tB_lin]; exact this
    · have := c.con k j hk hj hmm
      rw [vD_lin, vD_lin, e0, e1, e0', e1'] at this
      rw [vD_lin, vD_lin]; exact this
    · have := c.slk k j hk hj
      rw [e0', e1'] at this
      exact this
  · rintro ⟨hz, hn⟩
    obtain ⟨c, a1, a2, a3, a4, a5, a6, a7, a8, -⟩ := hl.al
    have hflat : ∀ i, i < c.nc → 0 ≤ c.lam i ∧ 0 ≤ c.t i := by
      intro i hic
      rw [a1, hk.core.nc, hi.pre.nc] at hic
      obtain ⟨k, j, b1, b2, rfl⟩ := flat_split _ _ _ hic
      rw [a2, a3, hk.core.t, hk.core.lam]
      exact hn k j (Nat.le_of_lt_succ b1) b2
    obtain ⟨r0, r1, r2⟩ := alpha_prim_ok T.sq c (by rw [a6, hk.core.m_zero]; exact hz) (fun i hi => (hflat i hi).1) (fun i hi => (hflat i hi).2)
    have a8 : s1.core.alpha_prim = (computeAlpha T.sq c).alpha_prim := a8
    rw [← a8, ← hal] at r0 r1 r2
    obtain ⟨q0, q1⟩ := short_range s'.core r0 r1
    refine ⟨q0, q1.trans r1, fun k j hkN hj => ?_⟩
    have hlt := stOff_lt (len := nct T.t.qp.dim) (N := T.t.qp.dim.N) hkN hj
    have hin : stOff (nct T.t.qp.dim) k + j < c.nc := by rw [a1, hk.core.nc, hi.pre.nc]; exact hlt
    have e := r2 _ hin
    have hy : s1.core.dt (stOff (nct T.t.qp.dim) k + j) = s1.kkt.t k j := hl.sync.t k j hkN hj
    rw [a4, hy] at e
    have e2 : c.t (stOff (nct T.t.qp.dim) k + j) = (solOf T.t.qp.dim s.core).t k j := by rw [a2, hk.core.t]; rfl
    rw [e2] at e
    exact convex_nonneg (hn k j hkN hj).2 e q0 q1

omit ht hwf in
theorem tstart_inv (hm : Mask01 T.t.qp) (sol : Sol K) (s : Ipm K) (hnv : s.core.nv = stOff (nvt T.t.qp.dim) (T.t.qp.dim.N + 1))
    (hnc : s.core.nc = stOff (nct T.t.qp.dim) (T.t.qp.dim.N + 1)) : TPassInv T (tstartState T sol s) ∧
      (tstartState T sol s).core.m_zero = decide (vecnrmInf s.core.nc (fm T.t.qp) 0 = 0) := by
  have hpr := prologue_ready T.env hm sol s hnc
  have hmk := tipmInit_masked T hm hpr
  have hrd := tstart_ready T hm sol s hnc
  obtain ⟨-, hi1, hi2⟩ := tipmInit_frame T (prologue T.env sol s)
  set x := tipmInit T (prologue T.env sol s) with hx
  have hc : x.core.nv = s.core.nv ∧ x.core.m_zero = decide (vecnrmInf s.core.nc (fm T.t.qp) 0 = 0) := by
    rw [hx]
    unfold tipmInit
    extract_lets D s1
    have h1 : s1.core.nv = s.core.nv ∧ s1.core.nc = s.core.nc := by
      simp only [s1]
      unfold maskLam
      split <;> exact ⟨rfl, rfl⟩
    have hb : (backupVar s1.core).nv = s1.core.nv := by
      unfold backupVar
      extract_lets c1 c2 c3
      have h1 : c1.nv = s1.core.nv := loop_kept (fun c : Core K => c.nv) _ _ _ fun _ _ => rfl
      have h2 : c2.nv = c1.nv := loop_kept (fun c : Core K => c.nv) _ _ _ fun _ _ => rfl
      have h3 : c3.nv = c2.nv := loop_kept (fun c : Core K => c.nv) _ _ _ fun _ _ => rfl
      refine Eq.trans ?_ (h3.trans (h2.trans h1))
      exact loop_kept (fun c : Core K => c.nv) _ _ _ fun _ _ => rfl
    exact ⟨hb.trans h1.1, by show decide (vecnrmInf s1.core.nc _ 0 = 0) = _; rw [h1.2]⟩
  have hws : x.rws.Ok T.t.qp := by
    intro _
    rw [hi1]
    have := ncMask_ok T.t.qp hm
    rw [← hnc] at this
    exact this
  have e0 : tstartState T sol s = if T.arg.i .abs_form ≠ 0 then absMu T.env x else trelStart T x := rfl
  rw [e0] at hrd ⊢
  split at hrd
  · rename_i ha
    rw [if_pos ha]
    obtain ⟨f1, -⟩ := absMu_frame T.env x
    obtain ⟨g1, g2, g3⟩ := absMu_it T.env x
    have hmi : MaskedIt T (absMu T.env x) := hmk.same T g1.2
    simp only [pars, Prod.mk.injEq] at g2
    obtain ⟨p1, -, p3, -, p5, -, -, -, p9, -⟩ := g2
    exact ⟨⟨⟨hrd.nc, by rw [f1]; exact hws⟩, (p1.trans hc.1).trans hnv, hrd, hmi, fun e => absurd e ha⟩, p9.trans hc.2⟩
  · rename_i ha
    rw [if_neg ha]
    obtain ⟨g1, g2, g3, g4⟩ := trelStart_it T x
    have hmi : MaskedIt T (trelStart T x) := hmk.same T g1.2
    simp only [pars, Prod.mk.injEq] at g2
    obtain ⟨p1, -, p3, -, p5, -, -, -, p9, -⟩ := g2
    exact ⟨⟨⟨hrd.nc, by rw [g4]; exact hws⟩, (p1.trans hc.1).trans hnv, hrd, hmi, fun _ => trelStart_fresh T x⟩, p9.trans hc.2⟩

theorem trun_inv (hm : Mask01 T.t.qp) (hlq : T.lqf = 0 ∨ TLqPrim T) (sol : Sol K) (s : Ipm K)
    (hnv : s.core.nv = stOff (nvt T.t.qp.dim) (T.t.qp.dim.N + 1)) (hnc : s.core.nc = stOff (nct T.t.qp.dim) (T.t.qp.dim.N + 1))
    (n : ℕ) (f : ℕ → Ipm K) (h0 : f 0 = tstartState T sol s) (hrun : Run (guardOf T.env) (tpassOf T) (T.arg.i .iter_max) n f) :
    ∀ i, i ≤ n → TPassInv T (f i) ∧ (f i).core.m_zero = decide (vecnrmInf s.core.nc (fm T.t.qp) 0 = 0) := by
  intro i
  induction i with
  | zero => intro _; rw [h0]; exact tstart_inv hm sol s hnv hnc
  | succ i ih =>
    intro hin
    obtain ⟨a1, a2⟩ := ih (by omega)
    have hb := (hrun i (by omega)).2.2
    refine ⟨(tpass_contracts ht hwf hm hlq i a1 hb).1, ?_⟩
    obtain ⟨-, -, -, hpars, -⟩ := tpass_upd T i _ _ hb
    simp only [pars, Prod.mk.injEq] at hpars
    rw [hpars.2.2.2.2.2.2.2.2.1]; exact a2

omit ht hwf in
/-- violation of the dynamics of an edge at the primal part of the iterate -/
abbrev tdef (T : TEnv K) (x : Ipm K) (e i : ℕ) : K := (tview T.t).edgeDefect (ptOf T.t.qp.dim (solOf T.t.qp.dim x.core).ux) e i

omit ht hwf in
theorem tdef_eq (x : Ipm K) (e i : ℕ) (hi : i < T.t.qp.dim.nx (e + 1)) : tdef T x e i = tB T.t (solOf T.t.qp.dim x.core) e i := by
  rw [tB_lin]; exact tedge_packed T.t _ e i hi

/-- **C88** Every iteration of the tree solver multiplies the violation of the dynamics of *all* edges by one and the same factor
`1 - a`, where `a` is the (shortened) primal step length of the iteration; so are the inequality residuals
`d - (constraint value) + t` of all present constraints, except those whose slack was raised to the lower limit `t_min`; the
violation of the dynamics at the returned solution is the product of the factors times that at the starting point.  For every tree
problem (convex or not), both formulations, with or without predictor-corrector, refinement, masks, and whatever the quality of
the factorisation. -/
theorem tipm_contraction (hm : Mask01 T.t.qp) (hlq : T.lqf = 0 ∨ TLqPrim T) (lf : ℕ) (sol : Sol K) (s : Ipm K)
    (hnv : s.core.nv = stOff (nvt T.t.qp.dim) (T.t.qp.dim.N + 1)) (hnc : s.core.nc = stOff (nct T.t.qp.dim) (T.t.qp.dim.N + 1)) (o : SolveOut K)
    (hc : ncMask T.t.qp s.core.nc ≠ 0) (h : tipmSolve T lf sol s = some o) (res0 : Res K) (ws0 : ResWs K) (hws : ws0.Ok T.t.qp) :
    let r (x : Ipm K) := tresCompute T.t (solOf T.t.qp.dim x.core) res0 ws0
    ∃ f : ℕ → Ipm K, f 0 = tstartState T sol s ∧ Run (guardOf T.env) (tpassOf T) (T.arg.i .iter_max) o.iter f ∧
      solOf T.t.qp.dim o.s.core = solOf T.t.qp.dim (f o.iter).core ∧
      (∀ n, n < o.iter →
        (∀ e i, e < T.t.qp.dim.N → i < T.t.qp.dim.nx (e + 1) →
          tdef T (f (n + 1)) e i = (1 - (shortStep (f (n + 1)).core).1) * tdef T (f n) e i) ∧
        (∀ k j, k ≤ T.t.qp.dim.N → j < nct T.t.qp.dim k → (r (f (n + 1))).res_d k j =
            (1 - (shortStep (f (n + 1)).core).1) * (r (f n)).res_d k j ∨
          ((solOf T.t.qp.dim (f (n + 1)).core).t k j = T.arg.r .t_min ∧ (1 - (shortStep (f (n + 1)).core).1) * (r (f n)).res_d k j <
            (r (f (n + 1))).res_d k j))) ∧
      ∀ e i, e < T.t.qp.dim.N → i < T.t.qp.dim.nx (e + 1) → tdef T o.s e i =
        (∏ n ∈ range o.iter, (1 - (shortStep (f (n + 1)).core).1)) * tdef T (f 0) e i := by
  intro r
  obtain ⟨f, h0, hrun, -, hsol⟩ := tipm_run T lf sol s o hc h
  have hinv := trun_inv ht hwf hm hlq sol s hnv hnc o.iter f h0 hrun
  have step : ∀ n, n < o.iter → ∃ dt, TContracts T.t (solOf T.t.qp.dim (f n).core) (solOf T.t.qp.dim (f (n + 1)).core)
      (shortStep (f (n + 1)).core).1 (T.arg.r .t_min) dt := fun n hn =>
    (tpass_contracts ht hwf hm hlq n (hinv n hn.le).1 (hrun n hn).2.2).2.imp fun _ h => h.1
  have hb : ∀ n, n < o.iter → ∀ e i, e < T.t.qp.dim.N → i < T.t.qp.dim.nx (e + 1) →
      tdef T (f (n + 1)) e i = (1 - (shortStep (f (n + 1)).core).1) * tdef T (f n) e i := by
    intro n hn e i he hi
    obtain ⟨dt, c⟩ := step n hn
    rw [tdef_eq _ _ _ hi, tdef_eq _ _ _ hi, c.dyn e i he hi]
  refine ⟨f, h0, hrun, hsol, fun n hn => ⟨hb n hn, fun k j hk hj => ?_⟩, fun e i he hi => ?_⟩
  · obtain ⟨dt, c⟩ := step n hn
    have v := tresCompute_val T.t ht hwf (solOf T.t.qp.dim (f n).core) (hinv n hn.le).1.masked res0 ws0 hws
    have v' := tresCompute_val T.t ht hwf (solOf T.t.qp.dim (f (n + 1)).core) (hinv (n + 1) hn).1.masked res0 ws0 hws
    simp only [r]
    rw [v.d k hk j hj, v'.d k hk j hj]
    rcases hm k j hk hj with h0 | h0
    · left; rw [h0]; ring
    · rw [h0, c.con k j hk hj h0]
      rcases c.slk k j hk hj with h1 | ⟨h1, h2⟩
      · left; rw [h1]; ring
      · rcases h1.lt_or_eq with h3 | h3
        · right; refine ⟨h2, ?_⟩; rw [h2]; linarith
        · left; rw [h2, h3]; ring
  · have key : ∀ n, n ≤ o.iter → tdef T (f n) e i =
        (∏ n ∈ range n, (1 - (shortStep (f (n + 1)).core).1)) * tdef T (f 0) e i := by
      intro n
      induction n with
      | zero => intro _; simp
      | succ n ih =>
        intro hn
        rw [hb n (by omega) e i he hi, ih (by omega), prod_range_succ]; ring
    unfold tdef
    rw [hsol]
    exact key o.iter (le_refl _)

/-- **C88** A solve started at a point that satisfies the dynamics of all edges (after the initialisation) returns such a point, and
so does a solve in which one iteration takes a full primal and dual step. -/
theorem tipm_dynamics_exact (hm : Mask01 T.t.qp) (hlq : T.lqf = 0 ∨ TLqPrim T) (lf : ℕ) (sol : Sol K) (s : Ipm K)
    (hnv : s.core.nv = stOff (nvt T.t.qp.dim) (T.t.qp.dim.N + 1)) (hnc : s.core.nc = stOff (nct T.t.qp.dim) (T.t.qp.dim.N + 1)) (o : SolveOut K)
    (hc : ncMask T.t.qp s.core.nc ≠ 0) (h : tipmSolve T lf sol s = some o) :
    ((∀ e i, e < T.t.qp.dim.N → i < T.t.qp.dim.nx (e + 1) → tdef T (tstartState T sol s) e i = 0) →
      ∀ e i, e < T.t.qp.dim.N → i < T.t.qp.dim.nx (e + 1) → tdef T o.s e i = 0) ∧
    ∀ f : ℕ → Ipm K, f 0 = tstartState T sol s → Run (guardOf T.env) (tpassOf T) (T.arg.i .iter_max) o.iter f →
      (∃ n, n < o.iter ∧ (f (n + 1)).core.alpha_prim = 1 ∧ (f (n + 1)).core.alpha_dual = 1) →
      ∀ e i, e < T.t.qp.dim.N → i < T.t.qp.dim.nx (e + 1) → tdef T o.s e i = 0 := by
  obtain ⟨f, h0, hrun, hsol, -, hprod⟩ := tipm_contraction ht hwf hm hlq lf sol s hnv hnc o hc h s.res { s.rws with valid_nc_mask := false }
    (fun e => by cases e)
  refine ⟨fun hz e i he hi => ?_, fun g g0 grun hfull e i he hi => ?_⟩
  · rw [hprod e i he hi, h0, hz e i he hi, mul_zero]
  · have hfg : ∀ n, n ≤ o.iter → g n = f n := by
      intro n
      induction n with
      | zero => intro _; rw [g0, h0]
      | succ n ih =>
        intro hn
        have e1 := (grun n (by omega)).2.2
        have e2 := (hrun n (by omega)).2.2
        rw [ih (by omega), e2] at e1
        exact (Option.some.inj e1).symm
    obtain ⟨n, hn, hp, hd⟩ := hfull
    rw [hfg (n + 1) (by omega)] at hp hd
    rw [hprod e i he hi]
    have : (∏ n ∈ range o.iter, (1 - (shortStep (f (n + 1)).core).1)) = 0 := by
      refine prod_eq_zero (mem_range.mpr hn) ?_
      unfold shortStep
      rw [hp, hd]
      simp
    rw [this, zero_mul]

/-- **C88** Without complementarity targets, with any of the initialisations that give an interior point and with clipping: the
factors are in `[0,1]`, so that the violation of the dynamics of an edge never increases, and an inequality residual exceeds `1 - a`
times the previous one by at most `t_min`. -/
theorem tipm_contraction_bounded (hm : Mask01 T.t.qp) (hlq : T.lqf = 0 ∨ TLqPrim T) (hi : InitOk T.env)
    (hcl : T.arg.i .t_lam_min = 2) (hl : 0 < T.arg.r .lam_min) (htm : 0 < T.arg.r .t_min)
    (hmz : ∀ k j, k ≤ T.t.qp.dim.N → j < nct T.t.qp.dim k → T.t.qp.m k j = 0) (sol : Sol K) (s : Ipm K)
    (hnv : s.core.nv = stOff (nvt T.t.qp.dim) (T.t.qp.dim.N + 1)) (hnc : s.core.nc = stOff (nct T.t.qp.dim) (T.t.qp.dim.N + 1))
    (n : ℕ) (f : ℕ → Ipm K) (h0 : f 0 = tstartState T sol s) (hrun : Run (guardOf T.env) (tpassOf T) (T.arg.i .iter_max) n f)
    (res0 : Res K) (ws0 : ResWs K) (hws : ws0.Ok T.t.qp) (i : ℕ) (hin : i < n) :
    let r (x : Ipm K) := tresCompute T.t (solOf T.t.qp.dim x.core) res0 ws0
    0 ≤ (shortStep (f (i + 1)).core).1 ∧ (shortStep (f (i + 1)).core).1 ≤ 1 ∧
    (∀ e j, e < T.t.qp.dim.N → j < T.t.qp.dim.nx (e + 1) → |tdef T (f (i + 1)) e j| ≤ |tdef T (f i) e j|) ∧
    (∀ k j, k ≤ T.t.qp.dim.N → j < nct T.t.qp.dim k → |(r (f (i + 1))).res_d k j| ≤
      (1 - (shortStep (f (i + 1)).core).1) * |(r (f i)).res_d k j| + T.arg.r .t_min) := by
  intro r
  have hall := trun_inv ht hwf hm hlq sol s hnv hnc n f h0 hrun
  have hinv := hall i hin.le
  obtain ⟨-, dt, c, hrange⟩ := tpass_contracts ht hwf hm hlq i hinv.1 (hrun i hin).2.2
  have hins := (tipm_iterates_inside T hm hi hcl hl htm sol s hnc n f h0 hrun i hin.le).1
  have hz : vecnrmInf s.core.nc (fm T.t.qp) 0 = 0 := by
    obtain ⟨-, h2, -⟩ := vecnrmInf_spec s.core.nc (fm T.t.qp) 0
    rcases h2 with h2 | ⟨x, hx, h2⟩
    · exact h2
    · rw [hnc] at hx
      obtain ⟨k, j, b1, b2, rfl⟩ := flat_split _ _ _ hx
      have e : fm T.t.qp (stOff (nct T.t.qp.dim) k + j) = T.t.qp.m k j := stFlat_at _ _ _ k j b1 b2
      rw [h2, Nat.zero_add, e, hmz k j (by omega) b2, abs_zero]
  obtain ⟨r0, r1, r2⟩ := hrange ⟨by rw [hinv.2, hz]; simp, fun k j hk hj => by
    obtain ⟨a1, a2, a3⟩ := hins k j hk hj
    refine ⟨?_, a1.le⟩
    rcases hm k j hk hj with h | h
    · exact (a3 h).ge
    · exact (a2 h).le⟩
  set a := (shortStep (f (i + 1)).core).1
  have h1a : 0 ≤ 1 - a := by linarith
  refine ⟨r0, r1, fun e j he hj => ?_, fun k j hk hj => ?_⟩
  · rw [tdef_eq _ _ _ hj, tdef_eq _ _ _ hj, c.dyn e j he hj, abs_mul, abs_of_nonneg h1a]
    exact mul_le_of_le_one_left (abs_nonneg _) (by linarith)
  · have v := tresCompute_val T.t ht hwf (solOf T.t.qp.dim (f i).core) hinv.1.masked res0 ws0 hws
    have v' := tresCompute_val T.t ht hwf (solOf T.t.qp.dim (f (i + 1)).core) (hall (i + 1) hin).1.masked res0 ws0 hws
    simp only [r]
    rw [v.d k hk j hj, v'.d k hk j hj]
    rcases hm k j hk hj with h0 | h0
    · rw [h0]; simp only [zero_mul, abs_zero, mul_zero, zero_add]; exact htm.le
    · rw [h0, one_mul, one_mul, c.con k j hk hj h0]
      refine (abs_add_le _ _).trans ?_
      rw [abs_mul, abs_of_nonneg h1a]
      have h4 := r2 k j hk hj
      have h3 : |(solOf T.t.qp.dim (f (i + 1)).core).t k j - ((solOf T.t.qp.dim (f i).core).t k j + a * dt k j)| ≤ T.arg.r .t_min := by
        rcases c.slk k j hk hj with h5 | ⟨h5, h6⟩
        · rw [h5, sub_self, abs_zero]; exact htm.le
        · rw [h6, abs_le]; constructor <;> linarith
      linarith

end

/-! The hypotheses are met by the runs `exTE_run` (relative) and `exTAbs_run` (absolute formulation): one iteration each, and the
initial violation is not zero -/

example : tdef exTEnv (tstartState exTEnv exIpSol exTIpm) 0 0 ≠ 0 := by decide +kernel

example : ∃ o, tipmSolve exTEnv 5 exIpSol exTIpm = some o ∧ o.iter = 1 ∧ ∃ f : ℕ → Ipm ℚ,
    tdef exTEnv o.s 1 0 = (∏ n ∈ range o.iter, (1 - (shortStep (f (n + 1)).core).1)) * tdef exTEnv (f 0) 1 0 := by
  obtain ⟨o, h, e⟩ := Option.map_eq_some_iff.mp exTE_run
  obtain ⟨f, -, -, -, -, hp⟩ := tipm_contraction exTIp_ok exTIp_wf exTIp_mask (T := exTEnv) (Or.inl rfl) 5 exIpSol exTIpm
    (by decide +kernel) (by decide +kernel) o (by decide +kernel) h exIpRes { exIpIpm.rws with valid_nc_mask := false } (fun e => by cases e)
  exact ⟨o, h, (Prod.mk.inj e).1, f, hp 1 0 (by decide) (by decide)⟩

example : ∃ o, tipmSolve exTAbsEnv 5 exIpSol exTIpm = some o ∧ o.iter = 1 ∧ ∃ f : ℕ → Ipm ℚ,
    tdef exTAbsEnv o.s 1 0 = (∏ n ∈ range o.iter, (1 - (shortStep (f (n + 1)).core).1)) * tdef exTAbsEnv (f 0) 1 0 := by
  obtain ⟨o, h, e⟩ := Option.map_eq_some_iff.mp exTAbs_run
  obtain ⟨f, -, -, -, -, hp⟩ := tipm_contraction exTIp_ok exTIp_wf exTIp_mask (T := exTAbsEnv) (Or.inl rfl) 5 exIpSol exTIpm
    (by decide +kernel) (by decide +kernel) o (by decide +kernel) h exIpRes { exIpIpm.rws with valid_nc_mask := false } (fun e => by cases e)
  exact ⟨o, h, (Prod.mk.inj e).1, f, hp 1 0 (by decide) (by decide)⟩

/-- one iteration from the initial point of the run: the violation does not grow -/
example : ∃ s', tpassOf exTEnv 0 (tstartState exTEnv exIpSol exTIpm) = some s' ∧
    |tdef exTEnv s' 0 0| ≤ |tdef exTEnv (tstartState exTEnv exIpSol exTIpm) 0 0| := by
  obtain ⟨o, h, e⟩ := Option.map_eq_some_iff.mp exTE_run
  have he : o.iter = 1 := (Prod.mk.inj e).1
  obtain ⟨f, h0, hrun, -⟩ := tipm_run exTEnv 5 exIpSol exTIpm o (by decide +kernel) h
  have hb := tipm_contraction_bounded exTIp_ok exTIp_wf exTIp_mask (T := exTEnv) (Or.inl rfl)
    (Or.inl ⟨by decide, by decide +kernel, by decide +kernel, by decide +kernel⟩) rfl (by decide +kernel) (by decide +kernel) (fun _ _ _ _ => rfl) exIpSol exTIpm
    (by decide +kernel) (by decide +kernel) o.iter f h0 hrun exIpRes { exIpIpm.rws with valid_nc_mask := false } (fun e => by cases e) 0 (by rw [he]; decide)
  refine ⟨f 1, ?_, ?_⟩
  · rw [← h0]; exact (hrun 0 (by rw [he]; decide)).2.2
  · rw [← h0]; exact hb.2.2.1 0 0 (by decide) (by decide)

/-- without the constant terms of the dynamics the initial point is consistent, and so is the result -/
def exTHom : TEnv ℚ := { exTEnv with t := { exTIpTree with qp := { exTIpQp with b := fun _ _ => 0 } } }

theorem exTHom_run : ((tipmSolve exTHom 5 exIpSol exTIpm).map fun o => (o.iter, o.status)) = some (1, .SUCCESS) := by decide +kernel

example : ∃ o, tipmSolve exTHom 5 exIpSol exTIpm = some o ∧ o.iter = 1 ∧ tdef exTHom o.s 0 0 = 0 ∧ tdef exTHom o.s 1 0 = 0 := by
  obtain ⟨o, h, e⟩ := Option.map_eq_some_iff.mp exTHom_run
  have hd := (tipm_dynamics_exact (T := exTHom) ⟨exTIp_ok.1, exTIp_ok.2, exTIp_ok.3⟩ ⟨exTIp_wf.1, exTIp_wf.2⟩ (fun _ _ _ _ => Or.inr rfl) (Or.inl rfl) 5 exIpSol exTIpm
    (by decide +kernel) (by decide +kernel) o (by decide +kernel) h).1 ?_
  · exact ⟨o, h, (Prod.mk.inj e).1, hd 0 0 (by decide) (by decide), hd 1 0 (by decide) (by decide)⟩
  · intro e i he hi
    have he : e < 2 := he
    interval_cases e <;> · have hi : i < 1 := hi
                           interval_cases i
                           decide +kernel

end Hpipm
