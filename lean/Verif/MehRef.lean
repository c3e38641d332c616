/-
One pass of the solver's loop performs the iteration of the specification (C89, second part).
-/
import Verif.MehDir
import Verif.IpmStatus

namespace Hpipm
open Finset
set_option linter.unusedSectionVars false

section
variable {K : Type*} [Field K] [LinearOrder K] [IsStrictOrderedRing K]

/-! ### the core routines as field updates -/

theorem backupResM_eq (c : Core K) : backupResM c = { c with res_m_bkp := mix c.nc c.res_m c.res_m_bkp } := by
  unfold backupResM
  have : ∀ n, loop n (fun ii (s : Core K) => { s with res_m_bkp := upd s.res_m_bkp ii (s.res_m ii) }) c =
      { c with res_m_bkp := mix n c.res_m c.res_m_bkp } := by
    intro n
    induction n with
    | zero => simp
    | succ n ih => rw [loop_succ, ih]; simp only [Core.mk.injEq, true_and, and_true]; exact upd_mix' _ _ _ _ rfl
  exact this _

theorem computeTauMin_eq (c : Core K) : computeTauMin c = { c with res_m := mix c.nc (fun i => c.res_m_bkp i - c.tau_min) c.res_m } := by
  unfold computeTauMin
  have : ∀ n, loop n (fun ii (s : Core K) => { s with res_m := upd s.res_m ii (s.res_m_bkp ii - c.tau_min) }) c =
      { c with res_m := mix n (fun i => c.res_m_bkp i - c.tau_min) c.res_m } := by
    intro n
    induction n with
    | zero => simp
    | succ n ih => rw [loop_succ, ih]; simp only [Core.mk.injEq, true_and, and_true]; exact upd_mix' _ _ _ _ rfl
  exact this _

theorem mcc_eq (c : Core K) : computeCenteringCorrection c =
    { c with
      tau_iter := sigmaMu c
      res_m := mix c.nc (fun i => c.res_m_bkp i + c.dt i * c.dlam i - sigmaMu c) c.res_m } := by
  unfold computeCenteringCorrection
  generalize sigmaMu c = a
  have : ∀ n, loop n (fun ii (s : Core K) => { s with res_m := upd s.res_m ii (s.res_m_bkp ii + s.dt ii * s.dlam ii - a) }) { c with tau_iter := a } =
      { c with
        tau_iter := a
        res_m := mix n (fun i => c.res_m_bkp i + c.dt i * c.dlam i - a) c.res_m } := by
    intro n
    induction n with
    | zero => simp
    | succ n ih => rw [loop_succ, ih]; simp only [Core.mk.injEq, true_and, and_true]; exact upd_mix' _ _ _ _ rfl
  exact this _

theorem mce_eq (c : Core K) : computeCentering c =
    { c with
      tau_iter := sigmaMu c
      res_m := mix c.nc (fun i => c.res_m_bkp i - sigmaMu c) c.res_m } := by
  unfold computeCentering
  generalize sigmaMu c = a
  have : ∀ n, loop n (fun ii (s : Core K) => { s with res_m := upd s.res_m ii (s.res_m_bkp ii - a) }) { c with tau_iter := a } =
      { c with
        tau_iter := a
        res_m := mix n (fun i => c.res_m_bkp i - a) c.res_m } := by
    intro n
    induction n with
    | zero => simp
    | succ n ih => rw [loop_succ, ih]; simp only [Core.mk.injEq, true_and, and_true]; exact upd_mix' _ _ _ _ rfl
  exact this _

theorem computeAlpha_eq (sq : K → K) (c : Core K) : ∃ a b, computeAlpha sq c = { c with alpha_prim := a, alpha_dual := b } := by
  unfold computeAlpha
  extract_lets s
  split
  · exact ⟨_, _, rfl⟩
  · exact ⟨_, _, rfl⟩

/-! ### frame of the operations between two solves -/

variable (E : Env K)

/-- what the operations between two solves of one pass keep -/
structure FFr (s s' : Ipm K) : Prop where
  keep : Keep s s'
  L : s'.kkt.L = s.kkt.L
  P : s'.kkt.P = s.kkt.P
  Pb : s'.kkt.Pb = s.kkt.Pb
  Zs : s'.kkt.Zs = s.kkt.Zs
  B : s'.kkt.BAbt = s.kkt.BAbt
  G : s'.core.Gamma = s.core.Gamma
  ti : s'.core.t_inv = s.core.t_inv
  bkp : s'.core.res_m_bkp = s.core.res_m_bkp
  mu : s'.core.mu = s.core.mu

theorem FFr.refl (s : Ipm K) : FFr s s := ⟨Keep.refl s, rfl, rfl, rfl, rfl, rfl, rfl, rfl, rfl, rfl⟩

theorem FFr.trans {a b c : Ipm K} (h : FFr a b) (h' : FFr b c) : FFr a c :=
  ⟨h.keep.trans h'.keep, h'.L.trans h.L, h'.P.trans h.P, h'.Pb.trans h.Pb, h'.Zs.trans h.Zs, h'.B.trans h.B, h'.G.trans h.G,
    h'.ti.trans h.ti, h'.bkp.trans h.bkp, h'.mu.trans h.mu⟩

theorem putG_ffr (kk col : ℕ) (hc : col < 21) (x : K) (s : Ipm K) : FFr s (putG E kk col x s) :=
  ⟨putG_keep E kk col hc x s, by rw [putG_kkt], by rw [putG_kkt], by rw [putG_kkt], by rw [putG_kkt], by rw [putG_kkt],
    by rw [putG_core], by rw [putG_core], by rw [putG_core], by rw [putG_core]⟩

theorem maskStep_ffr (s : Ipm K) : FFr s (maskStep E s) := by
  refine ⟨maskStep_keep E s, ?_, ?_, ?_, ?_, ?_, ?_, ?_, ?_, ?_⟩ <;> unfold maskStep <;> split <;> rfl

theorem maskResM_ffr (s : Ipm K) : FFr s (maskResM E s) := by
  refine ⟨maskResM_keep E s, ?_, ?_, ?_, ?_, ?_, ?_, ?_, ?_, ?_⟩ <;> unfold maskResM <;> split <;> rfl

theorem subSol_ffr (s : Ipm K) : FFr s (subSol E s) :=
  ⟨⟨⟨rfl, rfl, rfl, rfl, rfl, rfl, rfl, rfl, rfl, rfl, rfl, rfl, rfl, rfl, rfl, rfl⟩, rfl, rfl, rfl, rfl, rfl⟩, rfl, rfl, rfl, rfl, rfl, rfl, rfl, rfl, rfl⟩

theorem alpha_ffr (s : Ipm K) : FFr s { s with core := computeAlpha E.sq s.core } := by
  obtain ⟨a, b, e⟩ := computeAlpha_eq E.sq s.core
  refine ⟨Keep.ofCore (computeAlpha_keep E.sq s.core), rfl, rfl, rfl, rfl, rfl, ?_, ?_, ?_, ?_⟩ <;> simp only [e]

theorem alphaStep_ffr (kk col : ℕ) (hc : col + 1 < 21) (s : Ipm K) : FFr s (alphaStep E kk col s) := by
  unfold alphaStep
  exact ((alpha_ffr E s).trans (putG_ffr E kk col (by omega) _ _)).trans (putG_ffr E kk (col + 1) (by omega) _ _)

theorem sigma_ffr (kk : ℕ) (s : Ipm K) : FFr s (sigmaStep E kk s) := by
  unfold sigmaStep
  extract_lets s1 s2 tmp c3 s3
  have h1 : FFr s s1 := ⟨Keep.ofCore (computeMuAff_keep s.core), rfl, rfl, rfl, rfl, rfl, rfl, rfl, rfl, rfl⟩
  have h2 : FFr s1 s2 := putG_ffr E kk 2 (by omega) _ _
  have h3 : FFr s2 s3 := ⟨Keep.ofCore ⟨rfl, rfl, rfl, rfl, rfl, rfl, rfl, rfl, rfl, rfl, rfl, rfl, rfl, rfl, rfl, rfl⟩, rfl, rfl, rfl, rfl, rfl, rfl, rfl, rfl, rfl⟩
  exact ((h1.trans h2).trans h3).trans (putG_ffr E kk 3 (by omega) _ _)

theorem cc_ffr (s : Ipm K) : FFr s { s with core := computeCenteringCorrection s.core } := by
  refine ⟨Keep.ofCore (computeCenteringCorrection_keep s.core), rfl, rfl, rfl, rfl, rfl, ?_, ?_, ?_, ?_⟩ <;> simp only [mcc_eq]

theorem ce_ffr (s : Ipm K) : FFr s { s with core := computeCentering s.core } := by
  refine ⟨Keep.ofCore (computeCentering_keep s.core), rfl, rfl, rfl, rfl, rfl, ?_, ?_, ?_, ?_⟩ <;> simp only [mce_eq]

/-! ### state at the start of a pass -/

/-- the parts of the state that all passes keep -/
structure MConst (s : Ipm K) : Prop where
  nv : s.core.nv = stOff (nvt E.qp.dim) (E.qp.dim.N + 1)
  ne : s.core.ne = stOff (net E.qp.dim) E.qp.dim.N
  rdy : Ready E s
  R : ROk E.qp s.kkt
  B : BOk E.qp s.kkt
  m : ∀ k j, k ≤ E.qp.dim.N → j < nct E.qp.dim k → s.core.m (stOff (nct E.qp.dim) k + j) = E.qp.m k j * E.qp.d_mask k j
  tau : s.core.tau_min = E.arg.r .tau_min
  m_safe : s.core.m_safe = E.arg.r .m_safe
  m_zero : s.core.m_zero = true ↔ ∀ k j, k ≤ E.qp.dim.N → j < nct E.qp.dim k → E.qp.m k j = 0
  inv : s.core.nc_mask_inv = 1 / (onCount E.qp : K)

/-- the residuals that a pass starts from -/
structure MCur (s : Ipm K) : Prop where
  ins : InsideZ E.qp (solOf E.qp.dim s.core)
  mu : s.core.mu = muOf E.qp (solOf E.qp.dim s.core)
  rm : ∀ k j, k ≤ E.qp.dim.N → j < nct E.qp.dim k → s.core.res_m (stOff (nct E.qp.dim) k + j) =
    E.qp.d_mask k j * ((solOf E.qp.dim s.core).lam k j * (solOf E.qp.dim s.core).t k j - E.qp.m k j)
  g : E.arg.i .abs_form = 0 → ∀ k i, k ≤ E.qp.dim.N → i < nvt E.qp.dim k →
    s.res.res_g k i = vG E.qp (solOf E.qp.dim s.core) ((solOf E.qp.dim s.core).lam k) k i
  b : E.arg.i .abs_form = 0 → ∀ k i, k < E.qp.dim.N → i < E.qp.dim.nx (k + 1) → s.res.res_b k i = vB E.qp (solOf E.qp.dim s.core) k i
  d : E.arg.i .abs_form = 0 → ∀ k j, k ≤ E.qp.dim.N → j < nct E.qp.dim k →
    s.res.res_d k j = E.qp.d_mask k j * vD E.qp (solOf E.qp.dim s.core) k j

/-- the step problem with the caller's matrices -/
def stQ (s : Ipm K) : OcpQp K := withRhs E.qp (qpStep E s).rqz (qpStep E s).b (qpStep E s).d (qpStep E s).m

theorem qpStep_mats (s : Ipm K) : qpStep E s = (stQ E s).mats s.kkt.BAbt s.kkt.RSQrq := by
  unfold stQ qpStep
  split <;> rfl

/-- a factorisation at the iterate of `s0` is available -/
structure MFac (s0 s : Ipm K) : Prop where
  keep : Keep s0 s
  fac : Factored E.qp (fun _ _ => E.arg.r .reg_prim) (E.arg.r .reg_prim) (stView E.qp.dim s.core.Gamma) E.sqr s.kkt
  cf : CoreFac E.qp (solOf E.qp.dim s0.core) s.core
  pb : ∀ k a, k < E.qp.dim.N → a < E.qp.dim.nx (k + 1) → s.kkt.Pb k a =
    ∑ e ∈ range (E.qp.dim.nx (k + 1)), ctgP E.qp.dim E.sqr s.kkt (k + 1) a e * (qpStep E s0).b k e
  bkp : ∀ k j, k ≤ E.qp.dim.N → j < nct E.qp.dim k → E.qp.d_mask k j * s.core.res_m_bkp (stOff (nct E.qp.dim) k + j) = E.qp.d_mask k j *
    ((solOf E.qp.dim s0.core).lam k j * (solOf E.qp.dim s0.core).t k j - E.qp.m k j -
      (if E.arg.i .abs_form ≠ 0 then 2 * ((solOf E.qp.dim s0.core).lam k j * (solOf E.qp.dim s0.core).t k j) else 0))
  mu : s.core.mu = s0.core.mu

theorem mctgP_eq (D : QpDim) (sqr : Bool) {st st' : KktSt K} (h1 : st'.L = st.L) (h2 : st'.P = st.P) (k : ℕ) : ctgP D sqr st' k = ctgP D sqr st k := by
  unfold ctgP; rw [h1, h2]

theorem MFac.fr {s0 s s' : Ipm K} (h : MFac E s0 s) (f : FFr s s') : MFac E s0 s' := by
  have ec : ∀ k, ctgP E.qp.dim E.sqr s'.kkt k = ctgP E.qp.dim E.sqr s.kkt k := mctgP_eq _ _ f.L f.P
  have ec' : ctgP E.qp.dim E.sqr s'.kkt = ctgP E.qp.dim E.sqr s.kkt := funext ec
  refine ⟨h.keep.trans f.keep, ⟨?_, ?_, ?_⟩, ⟨⟨?_, ?_, ?_, h.cf.of.pos⟩, ?_, ?_⟩, ?_, ?_, f.mu.trans h.mu⟩
  · have := h.fac.ba; unfold BOk at this ⊢; rw [f.B]; exact this
  · rw [f.G, f.L, ec']; exact h.fac.fac
  · rw [f.G, f.Zs]; exact h.fac.zs
  · rw [f.keep.core.nc]; exact h.cf.of.nc
  · rw [f.keep.core.lam]; exact h.cf.of.lam
  · rw [f.keep.core.t]; exact h.cf.of.t
  · rw [f.ti]; exact h.cf.ti
  · rw [f.G]; exact h.cf.G
  · rw [f.Pb]; simp only [ec]; exact h.pb
  · rw [f.bkp]; exact h.bkp

/-- what is assumed about the problem and the arguments -/
structure MHyp : Prop where
  hsq : ∀ x, 0 < x → E.sq x * E.sq x = x
  wf : E.qp.WF
  hN : 1 ≤ E.qp.dim.N
  unsh : Unshared E.qp
  m01 : Mask01 E.qp
  cvx : StrictlyConvex E.qp (fun _ _ => E.arg.r .reg_prim) (E.arg.r .reg_prim)
  dual : E.arg.i .comp_dual_sol_eq ≠ 0
  lqf : E.lqf = 0
  clip : E.arg.i .t_lam_min = 2
  lmin : 0 < E.arg.r .lam_min
  tmin : 0 < E.arg.r .t_min
  itp : E.arg.i .itref_pred_max = 0
  itc : E.arg.i .itref_corr_max ≤ 0

/-- the step relative to the iterate -/
def finSub (s : Ipm K) : Ipm K := if E.arg.i .abs_form ≠ 0 then subSol E s else s

theorem finSub_ffr (s : Ipm K) : FFr s (finSub E s) := by
  unfold finSub
  split
  · exact subSol_ffr E s
  · exact FFr.refl s

theorem mask_vals {s : Ipm K} (hs : Sync E s) (hr : Ready E s) :
    (∀ k i, k ≤ E.qp.dim.N → i < nvt E.qp.dim k → (maskStep E s).kkt.ux k i = s.kkt.ux k i) ∧
    (∀ k i, k < E.qp.dim.N → i < net E.qp.dim k → (maskStep E s).kkt.pi k i = s.kkt.pi k i) ∧
    (∀ k j, k ≤ E.qp.dim.N → j < nct E.qp.dim k → (maskStep E s).kkt.lam k j = E.qp.d_mask k j * s.kkt.lam k j ∧
      (maskStep E s).kkt.t k j = E.qp.d_mask k j * s.kkt.t k j) := by
  by_cases hm : s.mask = true
  · have key : ∀ (f : Vec K) k j, k ≤ E.qp.dim.N → j < nct E.qp.dim k →
        vecmul s.core.nc (fmask E.qp) 0 f 0 f 0 (stOff (nct E.qp.dim) k + j) = E.qp.d_mask k j * f (stOff (nct E.qp.dim) k + j) := by
      intro f k j hk hj
      have hp : stOff (nct E.qp.dim) k + j < s.core.nc := by rw [hr.nc]; exact stOff_lt hk hj
      rw [vecmul_in ⟨by omega, by omega⟩]
      simp only [Nat.sub_zero, zero_add]
      rw [fmask, stFlat_at _ _ _ k j (by omega) hj]
    unfold maskStep
    rw [if_pos hm]
    refine ⟨fun k i hk hi => hs.ux k i hk hi, fun k i hk hi => hs.pi k i hk hi, fun k j hk hj => ⟨?_, ?_⟩⟩
    · rw [← hs.lam k j hk hj]; exact key _ k j hk hj
    · rw [← hs.t k j hk hj]; exact key _ k j hk hj
  · have hf : s.mask = false := by simpa using hm
    unfold maskStep
    rw [if_neg hm]
    refine ⟨fun _ _ _ _ => rfl, fun _ _ _ _ => rfl, fun k j hk hj => ?_⟩
    rw [hr.mask hf k j hk hj, one_mul, one_mul]
    exact ⟨rfl, rfl⟩

theorem subSol_vals {s0 s : Ipm K} (hc : MConst E s0) (hk0 : Keep s0 s) (hs : Sync E s) :
    (∀ k i, k ≤ E.qp.dim.N → i < nvt E.qp.dim k → (subSol E s).kkt.ux k i = s.kkt.ux k i - (solOf E.qp.dim s0.core).ux k i) ∧
    (∀ k i, k < E.qp.dim.N → i < net E.qp.dim k → (subSol E s).kkt.pi k i = s.kkt.pi k i - (solOf E.qp.dim s0.core).pi k i) ∧
    (∀ k j, k ≤ E.qp.dim.N → j < nct E.qp.dim k → (subSol E s).kkt.lam k j = s.kkt.lam k j - (solOf E.qp.dim s0.core).lam k j ∧
      (subSol E s).kkt.t k j = s.kkt.t k j - (solOf E.qp.dim s0.core).t k j) := by
  have key : ∀ (n : ℕ) (x y : Vec K) p, p < n → axpy n (-1) x 0 y 0 y 0 p = y p - x p := by
    intro n x y p hp
    rw [axpy_in ⟨by omega, by omega⟩]
    simp only [Nat.sub_zero, zero_add]
    ring
  have hlv := hk0.core.nv.trans hc.nv
  have hle := hk0.core.ne.trans hc.ne
  have hlc := hk0.core.nc.trans hc.rdy.nc
  refine ⟨fun k i hk hi => ?_, fun k i hk hi => ?_, fun k j hk hj => ⟨?_, ?_⟩⟩
  · rw [← hs.ux k i hk hi]
    show axpy s.core.nv (-1) s.core.v 0 s.core.dv 0 s.core.dv 0 (stOff (nvt E.qp.dim) k + i) = _ - s0.core.v _
    rw [key _ _ _ _ (by rw [hlv]; exact stOff_lt hk hi), hk0.core.v]
  · rw [← hs.pi k i hk hi]
    show axpy s.core.ne (-1) s.core.pi 0 s.core.dpi 0 s.core.dpi 0 (stOff (net E.qp.dim) k + i) = _ - s0.core.pi _
    have hl : stOff (net E.qp.dim) k + i < s.core.ne := by
      rw [hle]
      obtain ⟨n, hn⟩ : ∃ n, E.qp.dim.N = n + 1 := ⟨E.qp.dim.N - 1, by omega⟩
      rw [hn]
      exact stOff_lt (by omega) hi
    rw [key _ _ _ _ hl, hk0.core.pi]
  · rw [← hs.lam k j hk hj]
    show axpy s.core.nc (-1) s.core.lam 0 s.core.dlam 0 s.core.dlam 0 (stOff (nct E.qp.dim) k + j) = _ - s0.core.lam _
    rw [key _ _ _ _ (by rw [hlc]; exact stOff_lt hk hj), hk0.core.lam]
  · rw [← hs.t k j hk hj]
    show axpy s.core.nc (-1) s.core.t 0 s.core.dt 0 s.core.dt 0 (stOff (nct E.qp.dim) k + j) = _ - s0.core.t _
    rw [key _ _ _ _ (by rw [hlc]; exact stOff_lt hk hj), hk0.core.t]

theorem sync_fin {s : Ipm K} (h : Sync E s) : Sync E (finSub E s) := by
  unfold finSub
  split
  · exact sync_back E _
  · exact h

/-- the masked step -/
theorem fin_masked {s0 s : Ipm K} (hc : MConst E s0) (hk0 : Keep s0 s) (hs : Sync E s) :
    MaskedStep E.qp (if E.arg.i .abs_form ≠ 0 then 1 else 0) (solOf E.qp.dim s0.core) (stepOf s.kkt) (stepOf (maskStep E (finSub E s)).kkt) := by
  obtain ⟨a1, a2, a3⟩ := mask_vals E (sync_fin E hs) (hc.rdy.keep E (hk0.trans (finSub_ffr E s).keep))
  by_cases ha : E.arg.i .abs_form ≠ 0
  · have ef : finSub E s = subSol E s := if_pos ha
    rw [ef] at a1 a2 a3 ⊢
    rw [if_pos ha]
    obtain ⟨b1, b2, b3⟩ := subSol_vals E hc hk0 hs
    refine ⟨fun k i hk hi => ?_, fun k i hk hi => ?_, fun k j hk hj => ?_, fun k j hk hj => ?_⟩
    · rw [one_mul]; exact (a1 k i hk hi).trans (b1 k i hk hi)
    · rw [one_mul]; exact (a2 k i hk hi).trans (b2 k i hk hi)
    · rw [one_mul]; exact (a3 k j hk hj).1.trans (by rw [(b3 k j hk hj).1, stepOf])
    · rw [one_mul]; exact (a3 k j hk hj).2.trans (by rw [(b3 k j hk hj).2, stepOf])
  · have ef : finSub E s = s := if_neg ha
    rw [ef] at a1 a2 a3 ⊢
    rw [if_neg ha]
    refine ⟨fun k i hk hi => ?_, fun k i hk hi => ?_, fun k j hk hj => ?_, fun k j hk hj => ?_⟩
    · rw [zero_mul, sub_zero]; exact a1 k i hk hi
    · rw [zero_mul, sub_zero]; exact a2 k i hk hi
    · rw [zero_mul, sub_zero]; exact (a3 k j hk hj).1
    · rw [zero_mul, sub_zero]; exact (a3 k j hk hj).2

/-- value of the right-hand side of the complementarity row -/
def RM (s0 s : Ipm K) (f : ℕ → Vec K) : Prop := ∀ k j, k ≤ E.qp.dim.N → j < nct E.qp.dim k →
  s.core.res_m (stOff (nct E.qp.dim) k + j) = E.qp.d_mask k j * (f k j -
    (if E.arg.i .abs_form ≠ 0 then 2 * ((solOf E.qp.dim s0.core).lam k j * (solOf E.qp.dim s0.core).t k j) else 0))

theorem newton_dir (H : MHyp E) {s0 s s1 : Ipm K} (hc : MConst E s0) (hu : MCur E s0) (hk : Keep s0 s) (hk1 : Keep s0 s1) (hs : Sync E s1)
    {f : ℕ → Vec K} (hr : RM E s0 s f)
    (hn : NewtonStep (stQ E s) (solOf E.qp.dim s0.core) (fun _ _ => E.arg.r .reg_prim) (E.arg.r .reg_prim) (stepOf s1.kkt)) :
    Dir E.qp (E.arg.r .reg_prim) (proxPt E.arg (solOf E.qp.dim s0.core)) (solOf E.qp.dim s0.core) f (stepOf (maskStep E (finSub E s1)).kkt) := by
  have hm := fin_masked E hc hk1 hs
  have h0 : ∀ k j, k ≤ E.qp.dim.N → j < nct E.qp.dim k → E.qp.d_mask k j = 0 → svw (nct E.qp.dim) s.core.res_m k j = 0 := by
    intro k j hk hj e
    show s.core.res_m _ = 0
    rw [hr k j hk hj, e, zero_mul]
  by_cases ha : E.arg.i .abs_form ≠ 0
  · rw [if_pos ha] at hm
    have e : stQ E s = withRhs E.qp E.qp.rqz E.qp.b E.qp.d (svw (nct E.qp.dim) s.core.res_m) := by
      unfold stQ qpStep
      rw [if_pos ha]
      rfl
    rw [e] at hn
    have ep : proxPt E.arg (solOf E.qp.dim s0.core) = Sol.zero := by unfold proxPt; rw [if_neg ha]
    rw [ep]
    refine dir_of_newton_abs H.wf H.m01 _ f hu.ins h0 (fun k j hk hj e => ?_) hn hm
    have := hr k j hk hj
    rw [e, if_pos ha, one_mul] at this
    show s.core.res_m _ + _ = _
    rw [this]
    ring
  · rw [if_neg ha] at hm
    have e : stQ E s = withRhs E.qp s0.res.res_g s0.res.res_b s0.res.res_d (svw (nct E.qp.dim) s.core.res_m) := by
      unfold stQ qpStep
      rw [if_neg ha, hk.res]
    rw [e] at hn
    have ha : E.arg.i .abs_form = 0 := not_not.mp ha
    have ep : proxPt E.arg (solOf E.qp.dim s0.core) = solOf E.qp.dim s0.core := by unfold proxPt; rw [if_pos ha]
    rw [ep]
    refine (dir_of_newton_rel H.wf H.m01 s0.res _ hu.ins (hu.g ha) (hu.b ha) (hu.d ha) h0 hn hm).congr H.wf (SolEq.refl _ _) (SolEq.refl _ _)
      (SolEq.refl _ _) (fun k j hk hj e => ?_)
    show s.core.res_m _ = _
    rw [hr k j hk hj, e, if_neg (by simp [ha]), one_mul, sub_zero]

theorem mcoreOf {s0 s : Ipm K} (hc : MConst E s0) (hu : MCur E s0) (hk : Keep s0 s) : CoreOf E.qp (solOf E.qp.dim s0.core) s.core :=
  ⟨hk.core.nc.trans hc.rdy.nc, fun k j _ _ => by rw [hk.core.lam]; rfl, fun k j _ _ => by rw [hk.core.t]; rfl,
    fun k j hk hj => (hu.ins k j hk hj).1.ne'⟩

theorem drOf_reg (q : OcpQp K) (s : Bool) (reg : K) : drOf q s reg reg = fun _ _ => reg := by
  funext k i
  cases s
  · simp [drOf, drCl]
  · rfl

/-- re-solve with the factors of the pass -/
theorem solve_dir (H : MHyp E) {s0 s : Ipm K} (hc : MConst E s0) (hu : MCur E s0) (hf : MFac E s0 s) {f : ℕ → Vec K} (hr : RM E s0 s f) :
    let s' := maskStep E (finSub E (solveStep E s))
    MFac E s0 s' ∧ Sync E s' ∧ Dir E.qp (E.arg.r .reg_prim) (proxPt E.arg (solOf E.qp.dim s0.core)) (solOf E.qp.dim s0.core) f (stepOf s'.kkt) := by
  intro s'
  have hd : dualF E = true := by unfold dualF; simpa using H.dual
  have hden : ∀ k i, k ≤ E.qp.dim.N → i < 2 * E.qp.dim.ns k → slackCurv (stQ E s) (E.arg.r .reg_prim) (solOf E.qp.dim s0.core) k i ≠ 0 :=
    fun k i hk hi => (slackCurv_pos H.cvx _ (hu.ins.interior H.m01) k i hk hi).ne'
  have hb : (qpStep E s).b = (qpStep E s0).b := (qpStep_bd E hf.keep.res).1
  have hS := solve_newton (stQ E s) H.wf H.hN H.unsh (solOf E.qp.dim s0.core) (fun _ _ => E.arg.r .reg_prim) (E.arg.r .reg_prim) E.sqr true s.core
    ⟨⟨hf.cf.of.nc, hf.cf.of.lam, hf.cf.of.t, hf.cf.of.pos⟩, hf.cf.ti, hf.cf.G⟩ s.kkt ⟨hf.fac.ba, ⟨hf.fac.fac.hsym, hf.fac.fac.fac⟩, hf.fac.zs⟩
    (fun _ k a hk ha => by
      refine (hf.pb k a hk ha).trans ?_
      rw [← hb]; rfl) hden
  have he : solveKktStep (qpStep E s) (dualF E) E.sqr true s.core s.kkt = solveKktStep (stQ E s) true E.sqr true s.core s.kkt := by
    rw [qpStep_mats, mats_solveKkt, hd]
  have hss : solveStep E s = syncStep E.qp.dim { s with
      core := (solveKktStep (stQ E s) true E.sqr true s.core s.kkt).1
      kkt := (solveKktStep (stQ E s) true E.sqr true s.core s.kkt).2 } := by
    unfold solveStep
    rw [he]
  obtain ⟨n1, n2, n3, n4, n5⟩ := hS
  have kk := hf.keep.trans (solveStep_keep E s)
  obtain ⟨gm, hg, -⟩ := computeGamma_fields (stFlat (nct E.qp.dim) (stQ E s).d (E.qp.dim.N + 1)) (stFlat (nct E.qp.dim) (stQ E s).m (E.qp.dim.N + 1)) s.core
  have hcore : (solveKktStep (stQ E s) true E.sqr true s.core s.kkt).1 = { s.core with gamma := gm } := hg
  generalize hres : solveKktStep (stQ E s) true E.sqr true s.core s.kkt = r at *
  have hF : MFac E s0 (solveStep E s) := by
    rw [hss] at kk ⊢
    refine ⟨kk, ⟨n2.ba, ⟨n2.fac.hsym, n2.fac.fac⟩, n2.zs⟩, ⟨⟨n3.of.nc, n3.of.lam, n3.of.t, n3.of.pos⟩, n3.ti, n3.G⟩, fun k a hk ha => ?_, fun k j hk hj => ?_, ?_⟩
    · show r.2.Pb k a = ∑ e ∈ _, ctgP E.qp.dim E.sqr r.2 (k + 1) a e * _
      rw [n4]
      have : ctgP E.qp.dim E.sqr r.2 = ctgP E.qp.dim E.sqr s.kkt := n5
      rw [this]
      exact hf.pb k a hk ha
    · show _ * r.1.res_m_bkp _ = _
      rw [hcore]
      exact hf.bkp k j hk hj
    · show r.1.mu = _
      rw [hcore]
      exact hf.mu
  have hsy : Sync E (solveStep E s) := sync_step E _
  refine ⟨(hF.fr E (finSub_ffr E _)).fr E (maskStep_ffr E _), sync_mask E (sync_fin E hsy), newton_dir E H hc hu hf.keep kk hsy hr ?_⟩
  rw [hss]
  exact n1

end
end Hpipm
