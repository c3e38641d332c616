/-
Concrete cases for C61 - C63 and the finding about the Riccati vectors after a sensitivity call.
-/
import Verif.SensDer
import Verif.SensPred

namespace Hpipm
open Finset
set_option linter.unusedSectionVars false

section
variable {K : Type*} [Field K] [LinearOrder K] [IsStrictOrderedRing K]

/-- finding 37: after a forward sensitivity call the flag of the Riccati vectors is as before, so if the vectors were valid before
the call (absolute form, or an earlier getter) the getters now return the vectors of the problem with the seeds as data -/
theorem sens_ric_vec (T0 T1 : Mat K) (tmp : Vec K) (qp : OcpQp K) (hwf : qp.WF) (hN : 1 ≤ qp.dim.N) (hu : Unshared qp) (sol : Sol K)
    (dr : ℕ → ℕ → K) (reg : K) (w : RicWs K) (h : FactAt qp sol dr reg w) (a : SensArg K) (ha : a.comp_dual_sol_eq = true)
    (hden : ∀ k i, k ≤ qp.dim.N → i < 2 * qp.dim.ns k → slackCurv qp reg sol k i ≠ 0) (s : Seed K) (hv : w.ricVec = true)
    (dual : Bool) (lam_min t_min big : K) (t_lam_min : ℕ) :
    RicLaw (view (sensQp qp s)) (ricGot qp.dim T0 T1 tmp (ricEnsure qp dual lam_min t_min big t_lam_min (sensFrw qp s a w).2))
      (ptOf qp.dim (sensFrw qp s a w).1.ux) (sensFrw qp s a w).1.pi := by
  have := solveInto_newton qp hwf hN hu sol dr reg w h a (sensLoad a w.core) (Or.inl rfl) hden s.g s.b s.d s.m (solOf qp.dim (sensLoad a w.core))
  have e : sensFrw qp s a w = solveInto (withRhs qp s.g s.b s.d s.m) true (sensLoad a w.core) (solOf qp.dim (sensLoad a w.core)) w := by
    unfold sensFrw; rw [ha]
  have hr : (sensFrw qp s a w).2.ricVec = true := by rw [e, this.2.2.2.2.1, hv]
  have e2 : ricEnsure qp dual lam_min t_min big t_lam_min (sensFrw qp s a w).2 = (sensFrw qp s a w).2 := by
    unfold ricEnsure; rw [if_pos hr]
  rw [e2, e]
  exact this.2.2.2.2.2.law T0 T1 tmp

end

/-! ### the workspace of the example -/

noncomputable def exSnCore : Core ℝ := { exBCore with
  nv := stOff (nvt exBQp.dim) 2
  ne := stOff (net exBQp.dim) 1
  t_lam_min := 0
  alpha_prim := 1
  alpha_dual := 1 }

theorem exB_unshared : Unshared exBQp := fun _ _ _ _ _ _ h => absurd rfl h

theorem exB_mask : Mask01 exBQp := fun _ _ _ _ => Or.inr rfl

theorem exS_zero : withRhs exBQp exBQp.rqz exBQp.b exBQp.d exBQp.m = exBQp := rfl

/-- a reachable workspace: the one left by a factorisation (both variants) followed by UPDATE_VAR_QP with full step lengths -/
theorem exSn_fact (sqr rv : Bool) : ∃ w : RicWs ℝ, FactAt exBQp exKSol (fun _ _ => 0) 0 w ∧ shortStep w.core = (1, 1) ∧ w.ricVec = rv := by
  have hB : BOk exBQp { exKSt with
      BAbt := exUQp.BAbt
      RSQrq := exUQp.RSQrq } := fun _ _ _ _ _ _ => rfl
  have hc : CoreOf exBQp exKSol exSnCore := ⟨rfl, fun _ _ _ _ => rfl, fun _ _ _ _ => rfl, fun _ _ _ _ => one_ne_zero⟩
  obtain ⟨out, h, -, hp, hs, -⟩ := factSolve_total Real.sqrt exK_sqrt 0 exBQp exBQp_wf (le_refl 1) exKSol (fun _ _ _ _ => ⟨zero_le_one, zero_lt_one⟩)
    true sqr 0 0 exBQp_strict exSnCore hc (by decide) { exKSt with
      BAbt := exUQp.BAbt
      RSQrq := exUQp.RSQrq } (fun _ _ _ _ _ _ => rfl) hB
  have hcv : out.core.nv = exSnCore.nv ∧ out.core.ne = exSnCore.ne ∧ out.core.v = exSnCore.v ∧ out.core.pi = exSnCore.pi ∧
      out.core.alpha_prim = 1 ∧ out.core.alpha_dual = 1 := by
    have e : out.core = computeGammaGamma (stFlat (nct exBQp.dim) exBQp.d (exBQp.dim.N + 1)) (stFlat (nct exBQp.dim) exBQp.m (exBQp.dim.N + 1)) exSnCore := by
      unfold factSolveKktStep at h
      dsimp only at h
      split at h
      · cases h
      · rename_i heq
        cases h
        rfl
    have key : ∀ (d m : Vec ℝ) (c : Core ℝ), ((computeGammaGamma d m c).nv, (computeGammaGamma d m c).ne, (computeGammaGamma d m c).v,
        (computeGammaGamma d m c).pi, (computeGammaGamma d m c).alpha_prim, (computeGammaGamma d m c).alpha_dual) =
        (c.nv, c.ne, c.v, c.pi, c.alpha_prim, c.alpha_dual) := by
      intro d m c
      unfold computeGammaGamma
      dsimp only
      have hl : ∀ (n : ℕ) (f : ℕ → Core ℝ → Core ℝ) (s : Core ℝ), (∀ i s, ((f i s).nv, (f i s).ne, (f i s).v, (f i s).pi, (f i s).alpha_prim, (f i s).alpha_dual) =
            (s.nv, s.ne, s.v, s.pi, s.alpha_prim, s.alpha_dual)) →
          ((loop n f s).nv, (loop n f s).ne, (loop n f s).v, (loop n f s).pi, (loop n f s).alpha_prim, (loop n f s).alpha_dual) =
            (s.nv, s.ne, s.v, s.pi, s.alpha_prim, s.alpha_dual) := by
        intro n f s hf
        exact loop_inv (S := Core ℝ) (fun _ s' => (s'.nv, s'.ne, s'.v, s'.pi, s'.alpha_prim, s'.alpha_dual) = (s.nv, s.ne, s.v, s.pi, s.alpha_prim, s.alpha_dual))
          n f s rfl (fun i s' _ h => (hf i s').trans h)
      split_ifs
      all_goals
        refine (hl c.nc _ _ ?_).trans rfl
        intros
        rfl
    have k2 := key (stFlat (nct exBQp.dim) exBQp.d (exBQp.dim.N + 1)) (stFlat (nct exBQp.dim) exBQp.m (exBQp.dim.N + 1)) exSnCore
    rw [← e] at k2
    exact ⟨congrArg (fun x => x.1) k2, congrArg (fun x => x.2.1) k2, congrArg (fun x => x.2.2.1) k2, congrArg (fun x => x.2.2.2.1) k2,
      congrArg (fun x => x.2.2.2.2.1) k2, congrArg (fun x => x.2.2.2.2.2) k2⟩
  have hF := factAt_after_step Real.sqrt exK_sqrt 0 exBQp exBQp_wf (le_refl 1) exKSol exBQp.rqz exBQp.b exBQp.d exBQp.m sqr 0 0 exSnCore hc rfl rfl
    (fun _ _ _ _ => rfl) (fun _ _ _ _ => rfl) (by decide) _ (fun _ _ _ _ _ _ => rfl) hB true out h out.core ⟨rfl, rfl, rfl, rfl, rfl⟩
    ⟨hcv.1, hcv.2.1, hcv.2.2.1, hcv.2.2.2.1⟩ rv false
  have hd : drOf exBQp out.sqr 0 out.preg = fun _ _ => 0 := by
    rw [hp]
    unfold drOf
    split_ifs
    · rfl
    · funext k i; simp [drCl]
  rw [hd] at hF
  refine ⟨_, hF, ?_, rfl⟩
  have ea : (updateVar out.core).alpha_prim = out.core.alpha_prim ∧ (updateVar out.core).alpha_dual = out.core.alpha_dual := by
    have key : ((updateVar out.core).alpha_prim, (updateVar out.core).alpha_dual) = (out.core.alpha_prim, out.core.alpha_dual) := by
      generalize out.core = c
      unfold updateVar
      dsimp only
      have hl : ∀ (n : ℕ) (f : ℕ → Core ℝ → Core ℝ) (s : Core ℝ), (∀ i s, ((f i s).alpha_prim, (f i s).alpha_dual) = (s.alpha_prim, s.alpha_dual)) →
          ((loop n f s).alpha_prim, (loop n f s).alpha_dual) = (s.alpha_prim, s.alpha_dual) := by
        intro n f s hf
        exact loop_inv (S := Core ℝ) (fun _ s' => (s'.alpha_prim, s'.alpha_dual) = (s.alpha_prim, s.alpha_dual)) n f s rfl
          (fun i s' _ h => (hf i s').trans h)
      split_ifs
      all_goals
        refine ((hl c.nc _ _ ?_).trans (hl c.nc _ _ ?_)).trans ((hl c.ne _ _ ?_).trans (hl c.nv _ c ?_))
        all_goals
          intros
          rfl
    exact ⟨congrArg (fun x => x.1) key, congrArg (fun x => x.2) key⟩
  show shortStep (updateVar out.core) = (1, 1)
  unfold shortStep
  rw [ea.1, ea.2, hcv.2.2.2.2.1, hcv.2.2.2.2.2]
  simp

noncomputable def exSnArg : SensArg ℝ := ⟨0, 0, 0, 1, 0, true⟩

/-- seeds of the example -/
noncomputable def exSnSeed (c : ℝ) : Seed ℝ := ⟨exBQp.dim, fun _ _ => c, fun _ _ => 1, fun _ _ => 2, fun _ _ => 0⟩

/-- C61: the hypotheses of `sensFrw_newton` are met -/
example (sqr : Bool) (c : ℝ) : ∃ w : RicWs ℝ, NewtonStep (sensQp exBQp (exSnSeed c)) exKSol (fun _ _ => 0) 0 (sensFrw exBQp (exSnSeed c) exSnArg w).1 := by
  obtain ⟨w, hw, -⟩ := exSn_fact sqr false
  exact ⟨w, (sensFrw_newton exBQp exBQp_wf (le_refl 1) exB_unshared exKSol _ 0 w hw exSnArg rfl (fun k i _ hi => absurd hi (by show ¬ i < 2 * 0; omega)) (exSnSeed c)).1⟩

/-- C62: the hypotheses of `sensAdj_transpose` are met, with two different workspaces -/
example (c : ℝ) : ∃ w w' : RicWs ℝ, seedPair exBQp.dim (exSnSeed c) (sensFrw exBQp (exSnSeed 3) exSnArg w).1 =
    seedPair exBQp.dim (exSnSeed 3) (sensAdj exBQp (exSnSeed c) exSnArg w').1 := by
  obtain ⟨w, hw, -⟩ := exSn_fact true false
  obtain ⟨w', hw', -⟩ := exSn_fact false false
  exact ⟨w, w', sensAdj_transpose exBQp exBQp_wf (le_refl 1) exB_unshared exKSol _ 0 w w' hw hw' exSnArg rfl
    (fun k i _ hi => absurd hi (by show ¬ i < 2 * 0; omega)) (exSnSeed 3) (exSnSeed c)⟩

/-- finding 37: the hypotheses of `sens_ric_vec` are met -/
example (T0 T1 : Mat ℝ) (tmp : Vec ℝ) (c : ℝ) : ∃ w : RicWs ℝ, RicLaw (view (sensQp exBQp (exSnSeed c)))
    (ricGot exBQp.dim T0 T1 tmp (ricEnsure exBQp true 0 0 1 0 (sensFrw exBQp (exSnSeed c) exSnArg w).2))
      (ptOf exBQp.dim (sensFrw exBQp (exSnSeed c) exSnArg w).1.ux) (sensFrw exBQp (exSnSeed c) exSnArg w).1.pi := by
  obtain ⟨w, hw, -, hv⟩ := exSn_fact true true
  exact ⟨w, sens_ric_vec T0 T1 tmp exBQp exBQp_wf (le_refl 1) exB_unshared exKSol _ 0 w hw exSnArg rfl
    (fun k i _ hi => absurd hi (by show ¬ i < 2 * 0; omega)) (exSnSeed c) hv true 0 0 1 0⟩

/-- C63: the hypotheses of `predict_residuals` are met; with the full step lengths of the example the predicted point satisfies the dynamics -/
example (res : Res ℝ) (rws : ResWs ℝ) (hws : rws.Ok exBQp) : ∃ w : RicWs ℝ,
    (resCompute exBQp (predictDelta exBQp exSnArg true res rws w).sol res rws).res_b 0 0 = 0 := by
  obtain ⟨w, hw, hs, -⟩ := exSn_fact true false
  refine ⟨w, ?_⟩
  have := (predict_residuals exBQp exBQp_wf (le_refl 1) exB_unshared exB_mask exKSol _ 0 w hw exSnArg rfl (by decide)
    (fun k i _ hi => absurd hi (by show ¬ i < 2 * 0; omega)) (fun k j _ _ h => absurd h one_ne_zero) true res res res rws rws rws hws hws hws).1 0 0 (by decide) (by decide)
  rw [this, hs]
  ring

/-- C63, finding 36: the hypotheses of `predict_abs` and `predict_abs_not_inside` are met -/
example (res : Res ℝ) (rws : ResWs ℝ) (hws : rws.Ok exBQp) : ∃ w : RicWs ℝ,
    (resCompute exBQp (predictAbs exBQp exSnArg false res rws (0, 0, 0, 0) w).sol res rws).res_b 0 0 = 0 ∧
    ¬ (0 < (predictAbs exBQp exSnArg false res rws (0, 0, 0, 0) w).sol.lam 0 0 ∧ 0 < (predictAbs exBQp exSnArg false res rws (0, 0, 0, 0) w).sol.t 0 0) := by
  obtain ⟨w, hw, -⟩ := exSn_fact true false
  have hden : ∀ k i, k ≤ exBQp.dim.N → i < 2 * exBQp.dim.ns k → slackCurv exBQp 0 exKSol k i ≠ 0 :=
    fun k i _ hi => absurd hi (by show ¬ i < 2 * 0; omega)
  exact ⟨w, (predict_abs exBQp exBQp_wf (le_refl 1) exB_unshared exB_mask exKSol _ 0 w hw exSnArg rfl hden (fun k j _ _ h => absurd h one_ne_zero)
      false res res rws rws (0, 0, 0, 0) hws).2.1 0 0 (by decide) (by decide),
    predict_abs_not_inside exBQp exBQp_wf (le_refl 1) exB_unshared exKSol _ 0 w hw exSnArg rfl hden false res rws (0, 0, 0, 0) 0 0
      (by decide) (by decide) zero_lt_one zero_lt_one (zero_le_one (α := ℝ))⟩

/-! ### a path of solutions -/

/-- direction of the path -/
noncomputable def exSDir : Sol ℝ where
  ux := fun _ _ => 1
  pi := fun _ _ => 1
  lam := fun _ j => j
  t := fun _ _ => 0

theorem Sol.move_zero (z s : Sol ℝ) : z.move s 0 0 = z := by
  unfold Sol.move; simp

theorem deriv_affine (A B : ℝ) : HasDerivAt (fun s : ℝ => A + s * B) B 0 := by
  have := ((hasDerivAt_id (0 : ℝ)).mul_const B).const_add A
  simpa using this

/-- data for which the straight line from `exKSol` in direction `exSDir` consists of points with zero residuals -/
noncomputable def exSG (s : ℝ) (k i : ℕ) : ℝ :=
  -(hessMul exBQp exKSol.ux k i + vGd exBQp exKSol.pi (exKSol.lam k) k i) + s * -(hessMul exBQp exSDir.ux k i + vGd exBQp exSDir.pi (exSDir.lam k) k i)
noncomputable def exSB (s : ℝ) (k i : ℕ) : ℝ := -linB exBQp exKSol.ux k i + s * -linB exBQp exSDir.ux k i
noncomputable def exSD (s : ℝ) (k i : ℕ) : ℝ := -(exKSol.t k i + linD exBQp exKSol.ux k i) + s * -(exSDir.t k i + linD exBQp exSDir.ux k i)
noncomputable def exSM (s : ℝ) (k i : ℕ) : ℝ := exKSol.lam k i + s * exSDir.lam k i

noncomputable def exSSeed : Seed ℝ := ⟨exBQp.dim, fun k i => -(hessMul exBQp exSDir.ux k i + vGd exBQp exSDir.pi (exSDir.lam k) k i),
  fun k i => -linB exBQp exSDir.ux k i, fun k i => -(exSDir.t k i + linD exBQp exSDir.ux k i), fun k i => - exSDir.lam k i⟩

theorem exS_path (s : ℝ) : ZeroRes (withRhs exBQp (exSG s) (exSB s) (exSD s) (exSM s)) (exKSol.move exSDir s s) := by
  refine ⟨fun res ws hws => ?_, fun k j hk hj h => absurd h one_ne_zero⟩
  have v := (resCompute_val (withRhs exBQp (exSG s) (exSB s) (exSD s) (exSM s)) exBQp_wf (exKSol.move exSDir s s) res ws hws).1
  refine ⟨fun k i hk hi => ?_, fun k i hk hi => ?_, fun k j hk hj => ⟨?_, ?_⟩⟩
  · rw [(v k hk).1.g i hi, vG_split]
    have e1 : hessMul exBQp (exKSol.move exSDir s s).ux k i = hessMul exBQp exKSol.ux k i + s * hessMul exBQp exSDir.ux k i := by
      show hessMul exBQp (fun k i => exKSol.ux k i + (fun k i => s * exSDir.ux k i) k i) k i = _
      rw [hessMul_add, hessMul_smul]
    have e2 : vGd exBQp (exKSol.move exSDir s s).pi (lamM exBQp (exKSol.move exSDir s s) k) k i =
        vGd exBQp exKSol.pi (exKSol.lam k) k i + s * vGd exBQp exSDir.pi (exSDir.lam k) k i := by
      rw [← vGd_move]
      refine vGd_congr exBQp _ _ _ _ k i hk hi (fun _ _ _ _ => rfl) (fun j hj => ?_)
      show (1 : ℝ) * (exKSol.move exSDir s s).lam k j = _
      rw [one_mul]; rfl
    show hessMul exBQp (exKSol.move exSDir s s).ux k i + exSG s k i + vGd exBQp (exKSol.move exSDir s s).pi (lamM exBQp (exKSol.move exSDir s s) k) k i = 0
    rw [e1, e2, exSG]; ring
  · rw [(v k (le_of_lt hk)).1.b hk i hi, vB_lin]
    show exSB s k i + linB exBQp (fun k i => exKSol.ux k i + (fun k i => s * exSDir.ux k i) k i) k i = 0
    rw [linB_add, linB_smul, exSB]; ring
  · rw [(v k hk).1.d j hj, vD_lin]
    show (1 : ℝ) * (exSD s k j + (exKSol.t k j + s * exSDir.t k j) + linD exBQp (fun k i => exKSol.ux k i + (fun k i => s * exSDir.ux k i) k i) k j) = 0
    rw [linD_add, linD_smul, exSD]; ring
  · rw [(v k hk).2 j hj]
    unfold vM lamM
    show (1 : ℝ) * (1 * (exKSol.lam k j + s * exSDir.lam k j) * (1 + s * 0) - exSM s k j) = 0
    rw [exSM]; ring

/-- C61: the hypotheses of `sensFrw_derivative` are met: the sensitivities of the example are the direction of the path -/
example (sqr : Bool) : ∃ w : RicWs ℝ, (∀ k i, k ≤ exBQp.dim.N → i < exBQp.dim.nu k + exBQp.dim.nx k + 2 * exBQp.dim.ns k →
    (sensFrw exBQp exSSeed exSnArg w).1.ux k i = 1) ∧ (sensFrw exBQp exSSeed exSnArg w).1.lam 0 1 = 1 := by
  obtain ⟨w, hw, -⟩ := exSn_fact sqr false
  have hz : exKSol.move exSDir 0 0 = exKSol := Sol.move_zero _ _
  obtain ⟨h1, h2, h3⟩ := sensFrw_derivative (g := exSG) (b := exSB) (d := exSD) (m := exSM) (z := fun s => exKSol.move exSDir s s) (z' := exSDir)
    exBQp exBQp_wf (le_refl 1) exB_unshared exB_mask exBQp_strict
    (by rw [hz]; exact fun _ _ _ _ => ⟨zero_le_one, zero_lt_one⟩) w (by rw [hz]; exact hw) exSnArg rfl exSSeed
    (fun k i => deriv_affine _ _) (fun k i => deriv_affine _ _) (fun k i => deriv_affine _ _)
    (fun k i => by
      have := deriv_affine (exKSol.lam k i) (exSDir.lam k i)
      show HasDerivAt (fun s => exKSol.lam k i + s * exSDir.lam k i) (- - exSDir.lam k i) 0
      rw [neg_neg]; exact this)
    (fun k j _ _ h => absurd h one_ne_zero) (fun k i => deriv_affine _ _) (fun k i => deriv_affine _ _) (fun k i => deriv_affine _ _)
    (fun k i => deriv_affine _ _) (Filter.Eventually.of_forall exS_path)
  refine ⟨w, h1, ?_⟩
  rw [(h3 0 1 (by decide) (by decide)).1]
  simp [exSDir]

end Hpipm
