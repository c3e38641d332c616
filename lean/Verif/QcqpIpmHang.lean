/-
C84: OCP_QCQP_IPM_SOLVE, unlike OCP_QP_IPM_SOLVE, does not set `preg_last`, which OCP_QP_IPM_WS_CREATE sets to zero: on a
nonconvex problem with `reg_prim > 0` the regularisation stays at zero and the solver does not return.
-/
import Verif.QcqpIpmEnds
import Verif.IpmEndsEx
import Verif.QcqpIpmEx

namespace Hpipm
open Finset
set_option linter.unusedSectionVars false

section
variable {K : Type*} [Field K] [LinearOrder K] [IsStrictOrderedRing K]

/-- The regularisation of a factorisation with remembered value 0 and `reg_prim > 0` is `reg_prim` once and 0 for ever after; if
the curvature of the first input of the last stage is not positive with either, the routine loops forever. -/
theorem factSolve_stuck (sq : K → K) (qp : OcpQp K) (hwf : qp.WF) (hN : 1 ≤ qp.dim.N) (dual sqr : Bool) (reg : K)
    (hreg : 0 < reg) (hu : 1 ≤ qp.dim.nu qp.dim.N) (c : Core K) (st : KktSt K) (hR : ROk qp st) (hB : BOk qp st)
    (hk0 : kH qp (fun _ _ => reg) reg (stView qp.dim (computeGammaGamma (stFlat (nct qp.dim) qp.d (qp.dim.N + 1))
      (stFlat (nct qp.dim) qp.m (qp.dim.N + 1)) c).Gamma) qp.dim.N 0 0 ≤ 0) (fuel : ℕ) :
    factSolveKktStep sq fuel qp dual sqr reg 0 c st = none := by
  unfold factSolveKktStep
  simp only
  generalize stView qp.dim (computeGammaGamma (stFlat (nct qp.dim) qp.d (qp.dim.N + 1))
      (stFlat (nct qp.dim) qp.m (qp.dim.N + 1)) c).Gamma = G at hk0 ⊢
  generalize stView qp.dim (computeGammaGamma (stFlat (nct qp.dim) qp.d (qp.dim.N + 1))
      (stFlat (nct qp.dim) qp.m (qp.dim.N + 1)) c).gamma = g
  have hk : ∀ (dr : ℕ → ℕ → K), dr qp.dim.N 0 ≤ reg → kH qp dr reg G qp.dim.N 0 0 ≤ 0 := by
    intro dr h
    refine le_trans ?_ hk0
    unfold kH
    simp only [if_true]
    linarith
  have hcl : ∀ (preg : K) (st : KktSt K), preg ≤ reg → ROk qp st → (clBack sq qp reg preg G g st).1 = true := by
    intro preg st hp hR
    obtain ⟨-, -, -, C, f4, f5, -⟩ := clLast_val sq qp hwf reg preg (fun k i => if i < qp.dim.nu k then preg else reg)
      (fun i hi => rfl) G g st hR
    have hs : singular (qp.dim.nu qp.dim.N) ((clLast sq qp reg preg G g st).L qp.dim.N) = true := by
      rw [f4]
      refine singular_first sq _ _ (by omega) hu C C ?_
      rw [f5.1 0 0 (by omega) (le_refl _)]
      exact hk _ (by rw [if_pos (by omega)]; exact hp)
    have hl : ∀ n, (clLoop sq qp reg preg G g st n).1 = true := by
      intro n
      induction n with
      | zero => exact hs
      | succ n ih => unfold clLoop at ih ⊢; rw [loop_succ, if_pos ih]; exact ih
    have h0 := hl (qp.dim.N - 1)
    unfold clLoop at h0
    unfold clBack
    simp only
    rw [if_pos h0]; exact h0
  have hsq : ∀ (preg : K) (st : KktSt K), preg ≤ reg → ROk qp st → (sqBack sq qp reg preg G g st).1 = true := by
    intro preg st hp hR
    obtain ⟨-, -, -, C, L0, f4, f5⟩ := sqLast_val sq qp hwf reg preg (fun _ _ => preg) (fun i hi => rfl) G g st hR
    have hs : singular (qp.dim.nu qp.dim.N + qp.dim.nx qp.dim.N) ((sqLast sq qp reg preg G g st).L qp.dim.N) = true := by
      rw [f4]
      refine singular_first sq _ _ (by omega) (by omega) C L0 ?_
      rw [f5.1 0 0 (by omega) (le_refl _)]
      exact hk _ hp
    unfold sqBack
    simp only
    generalize hn : qp.dim.N = n at hs ⊢
    have : ∀ m, (loop m (fun nn (s : Bool × KktSt K) =>
        if s.1 then s
        else (singular (qp.dim.nu (n - nn - 1) + qp.dim.nx (n - nn - 1)) ((sqMid sq qp reg preg G g (n - nn - 1) s.2).L (n - nn - 1)),
          sqMid sq qp reg preg G g (n - nn - 1) s.2))
        (singular (qp.dim.nu n + qp.dim.nx n) ((sqLast sq qp reg preg G g st).L n), sqLast sq qp reg preg G g st)).1 = true := by
      intro m
      induction m with
      | zero => exact hs
      | succ m ih => rw [loop_succ, if_pos ih]; exact ih
    exact this n
  have hmain : ∀ (fuel : ℕ) (preg : K) (init sqr : Bool) (st : KktSt K), preg = (if init then 0 else reg) → ROk qp st → BOk qp st →
      kktMain sq qp reg 0 G g fuel preg init sqr st = none := by
    intro fuel
    induction fuel with
    | zero =>
      intro preg init sqr st hp hR hB
      have hle : preg ≤ reg := by rw [hp]; split <;> [exact hreg.le; exact le_refl _]
      unfold kktMain
      cases sqr
      · simp only [Bool.false_eq_true, if_false]; rw [if_pos (hcl preg st hle hR)]
      · simp only [if_true]; rw [if_pos (hsq preg st hle hR)]
    | succ fuel ih =>
      intro preg init sqr st hp hR hB
      have hle : preg ≤ reg := by rw [hp]; split <;> [exact hreg.le; exact le_refl _]
      have hnp : nextPreg reg 0 preg init = 0 := by
        unfold nextPreg
        rw [hp]
        have : ¬ (0 : K) = reg := ne_of_lt hreg
        cases init <;> simp [this]
      unfold kktMain
      cases sqr
      · simp only [Bool.false_eq_true, if_false]; rw [if_pos (hcl preg st hle hR)]
        obtain ⟨k1, k2, _⟩ := clBack_ok sq qp hwf hN reg preg G g st hR hB
        exact ih _ _ _ _ hnp k1 k2
      · simp only [if_true]; rw [if_pos (hsq preg st hle hR)]
        obtain ⟨k1, k2, _⟩ := sqBack_ok sq qp hwf reg preg (fun _ _ => preg) (fun _ _ _ _ => rfl) G g st hR hB
        exact ih _ _ _ _ hnp k1 k2
  rw [hmain fuel reg false sqr st rfl hR hB]

end

/-! ### a nonconvex QCQP on which the solver hangs -/

def exHDim : QpDim where
  N := 1
  nx := fun _ => 0
  nu := fun k => if k = 1 then 1 else 0
  nb := fun _ => 0
  nbx := fun _ => 0
  nbu := fun _ => 0
  ng := fun _ => 0
  ns := fun _ => 0
  nbxe := fun _ => 0
  nbue := fun _ => 0
  nge := fun _ => 0

/-- minimise `-5 u² + 2u` with `u² ≤ 2`: feasible and bounded -/
def exHQcqp : Qcqp ℚ where
  base :=
    { dim := exHDim
      BAbt := fun _ _ _ => 0
      RSQrq := fun k i j => if k = 1 ∧ i = 0 ∧ j = 0 then -10 else 0
      DCt := fun _ _ _ => 0
      b := fun _ _ => 0
      rqz := fun k i => if k = 1 ∧ i = 0 then 2 else 0
      d := fun k j => if k = 1 ∧ j = 1 then -2 else 0
      d_mask := fun _ _ => 1
      m := fun _ _ => 0
      Z := fun _ _ => 0
      idxb := fun _ _ => 0
      idxs_rev := fun _ _ => -1
      idxe := fun _ _ => 0
      diag_H_flag := fun _ => 0 }
  nq := fun k => if k = 1 then 1 else 0
  Hq := fun _ _ _ _ => 2

/-- `reg_prim = 1/10`, five iterations allowed -/
def exHArg : IpmArg ℚ := { exQArg with r := fun f => match f with
    | .reg_prim => 1 / 10
    | x => exQArg.r x }

def exHEnv : QEnv ℚ := { exQEnv with
  Q := exHQcqp
  arg := exHArg
  qarg := exHArg }

/-- the workspace as created: `preg_last = 0`, x_ocp_qp_ipm.c:1234 -/
def exHIpm : QIpm ℚ := { exQIpm with ip := { exQIpm.ip with core := { exIpCore with nv := 1, ne := 0, nc := 2 }, preg_last := 0 } }

def exHSol : Sol ℚ where
  ux := fun _ _ => 0
  pi := fun _ _ => 0
  lam := fun _ _ => 1
  t := fun _ _ => 1

/-- the initial iterate -/
def exHSol0 : Sol ℚ := (qinitVar exQSq (maskLower exHQcqp) exHArg exHSol).getD exHSol

theorem exH_init : qinitVar exHEnv.sq (maskLower exHEnv.Q) exHEnv.arg exHSol = some exHSol0 := by
  have h : (qinitVar exHEnv.sq (maskLower exHEnv.Q) exHEnv.arg exHSol).isSome = true := by decide +kernel
  obtain ⟨x, hx⟩ := Option.isSome_iff_exists.mp h
  rw [hx]
  have : exHSol0 = (some x).getD exHSol := by rw [← hx]; rfl
  rw [this]; rfl

/-- the state in which the loop starts -/
def exHStart : QIpm ℚ := qrelStart exHEnv (maskLower exHQcqp) (qstart (qbegin exHEnv exHSol0 exHIpm))

/-- the QP of the first factorisation -/
def exHQp : OcpQp ℚ := qpStep (exHEnv.env exHStart.qp) (affineRhs (exHEnv.env exHStart.qp) exHStart.ip)

theorem exH_curv : kH exHQp (fun _ _ => 1 / 10) (1 / 10) (stView exHQp.dim (computeGammaGamma (stFlat (nct exHQp.dim) exHQp.d (exHQp.dim.N + 1))
      (stFlat (nct exHQp.dim) exHQp.m (exHQp.dim.N + 1)) (affineRhs (exHEnv.env exHStart.qp) exHStart.ip).core).Gamma) exHQp.dim.N 0 0 ≤ 0 := by
  decide +kernel

theorem exH_dim : exHQp.dim.N = 1 ∧ 1 ≤ exHQp.dim.nu exHQp.dim.N ∧ exHStart.ip.preg_last = 0 ∧ exHStart.ip.core.nc = 2 := by decide +kernel

theorem exH_guard : contRel exHArg (qobs exHEnv exHStart) = true := by decide +kernel

theorem exH_act : ¬ (exHIpm.ip.core.nc = 0 ∨ ncMask (qbegin exHEnv exHSol0 exHIpm).qp exHIpm.ip.core.nc = 0) := by decide +kernel

theorem exH_wf : exHEnv.Q.WF := by
  refine ⟨fun k j hk hj => ?_, fun k j _ _ => Or.inl rfl⟩
  exact absurd hj (Nat.not_lt_zero j)

theorem exH_start_wf : exHStart.qp.WF := by
  refine ⟨fun k j hk hj => ?_, fun k j hk hj => ?_⟩
  · have : exHStart.qp.dim = exHQcqp.inner.dim := (qbegin_inv exHEnv (fun _ _ _ _ => Or.inr rfl) exHSol0 exHIpm (by decide +kernel)).1.fix.dim
    rw [this] at hj
    exact absurd hj (Nat.not_lt_zero j)
  · have hf := (qbegin_inv exHEnv (fun _ _ _ _ => Or.inr rfl) exHSol0 exHIpm (by decide +kernel)).1.fix
    have : exHStart.qp.dim = exHQcqp.inner.dim := hf.dim
    rw [this] at hk hj
    exact Or.inl (hf.idxs k hk j hj)

/-- **C84** On the feasible, bounded, nonconvex problem `min -5u² + 2u, u² ≤ 2`, started from the workspace as it is created, with
`reg_prim = 1/10`, the QCQP solver never returns: no number of regularisation attempts is enough. -/
theorem qipm_hangs (fuel lf : ℕ) : qipmSolve (exHEnv.withFuel fuel) lf exHSol exHIpm = .error .stuck := by
  rw [qipmSolve_fuel exHSol exHIpm exHSol0 exH_init, if_neg exH_act, if_neg (by decide)]
  have hb : qrelBody (exHEnv.withFuel fuel) (maskLower exHEnv.Q) 0 exHStart = none := by
    have hs : factStep ((exHEnv.env exHStart.qp).withFuel fuel) (affineRhs (exHEnv.env exHStart.qp) exHStart.ip) = none := by
      have h := factSolve_stuck exHEnv.sq exHQp (qpStep_wf _ exH_start_wf _) (by rw [exH_dim.1]) (dualF (exHEnv.env exHStart.qp)) exHEnv.sqr (1 / 10)
        (by norm_num) exH_dim.2.1 (affineRhs (exHEnv.env exHStart.qp) exHStart.ip).core (affineRhs (exHEnv.env exHStart.qp) exHStart.ip).kkt
        (by unfold exHQp qpStep qpNow; split <;> exact fun k i j _ _ _ => rfl) (by unfold exHQp qpStep qpNow; split <;> exact fun k i j _ _ _ => rfl)
        exH_curv fuel
      have hp : (affineRhs (exHEnv.env exHStart.qp) exHStart.ip).preg_last = 0 := by rw [affineRhs_pl]; exact exH_dim.2.2.1
      unfold factStep
      rw [hp]
      exact Option.map_eq_none_iff.mpr h
    unfold qrelBody deltaStep factPhase
    rw [if_pos (show (((exHEnv.withFuel fuel).env exHStart.qp)).lqf = 0 from rfl)]
    rw [show factStep ((exHEnv.withFuel fuel).env exHStart.qp) (affineRhs ((exHEnv.withFuel fuel).env exHStart.qp) exHStart.ip) = none from hs]
    rfl
  have hl : ipmLoop (fun s => contRel exHEnv.arg (qobs exHEnv s)) (qrelBody (exHEnv.withFuel fuel) (maskLower exHEnv.Q)) (exHEnv.arg.i .iter_max) lf 0
      exHStart = none := by
    unfold ipmLoop
    rw [if_pos (by
      rw [show contRel exHEnv.arg (qobs exHEnv exHStart) = true from exH_guard]
      decide)]
    cases lf with
    | zero => rfl
    | succ n => dsimp only; rw [hb]; rfl
  rw [show qrelStart exHEnv (maskLower exHEnv.Q) (qstart (qbegin exHEnv exHSol0 exHIpm)) = exHStart from rfl, hl]

/-- with the regularisation that OCP_QP_IPM_SOLVE would set at entry, the same call returns -/
theorem qipm_hangs_repaired : ((qipmSolve (exHEnv.withFuel 20) 5 exHSol { exHIpm with
    ip := { exHIpm.ip with preg_last := 1 / 10 } }).toOption.map QSolveOut.iter) = some 3 := by decide +kernel

/-! ### `qipm_ends` applies to a nonconvex QCQP over the reals -/

/-- the same problem over the reals -/
noncomputable def exRQcqp : Qcqp ℝ where
  base :=
    { dim := exHDim
      BAbt := fun _ _ _ => 0
      RSQrq := fun k i j => if k = 1 ∧ i = 0 ∧ j = 0 then -10 else 0
      DCt := fun _ _ _ => 0
      b := fun _ _ => 0
      rqz := fun k i => if k = 1 ∧ i = 0 then 2 else 0
      d := fun k j => if k = 1 ∧ j = 1 then -2 else 0
      d_mask := fun _ _ => 1
      m := fun _ _ => 0
      Z := fun _ _ => 0
      idxb := fun _ _ => 0
      idxs_rev := fun _ _ => -1
      idxe := fun _ _ => 0
      diag_H_flag := fun _ => 0 }
  nq := fun k => if k = 1 then 1 else 0
  Hq := fun _ _ _ _ => 2

noncomputable def exREnv : QEnv ℝ where
  sq := Real.sqrt
  fuel := 0
  Q := exRQcqp
  arg :=
    { r := fun _ => 1 / 10
      i := fun f => match f with
        | .iter_max => 5
        | _ => 0 }
  qarg :=
    { r := fun _ => 1 / 10
      i := fun _ => 0 }
  sqr := true
  lqf := 0
  statMax := 5
  lq := fun _ _ _ _ => none
  factOnly := fun _ _ st => st

theorem exREnv_ends : exREnv.Ends where
  sq := exK_sqrt
  wf := ⟨fun k j _ hj => absurd hj (Nat.not_lt_zero j), fun _ _ _ _ => Or.inl rfl⟩
  N := le_refl 1
  reg := by show (0 : ℝ) ≤ 1 / 10; norm_num
  lq := Or.inl rfl

/-- every guess and every workspace whose remembered regularisation is `reg_prim` -/
example (sol : Sol ℝ) (s : QIpm ℝ) (hnc : s.ip.core.nc = 2) (hp : s.ip.preg_last = 1 / 10) :
    ∃ n o, ∀ fuel, n ≤ fuel → qipmSolve (exREnv.withFuel fuel) 5 sol s = .ok o := by
  obtain ⟨n, o, h⟩ := qipm_ends exREnv_ends (fun _ _ _ _ => Or.inr rfl) sol s (hnc.trans (by decide)) (Or.inl hp)
    (fun h => h.2.1 rfl)
  exact ⟨n, o, fun f hf => h f hf 5 (le_refl _)⟩

end Hpipm
