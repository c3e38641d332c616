/-
C61 (forward sensitivities), C62 (adjoint sensitivities), C63 (prediction): what the sensitivity routines return.
-/
import Verif.Sens
import Verif.RicProps
import Verif.IpmMat

namespace Hpipm
open Finset
set_option linter.unusedSectionVars false

section
variable {K : Type*} [Field K] [LinearOrder K] [IsStrictOrderedRing K]

/-! ### seeds -/

/-- the QP field a seed field perturbs -/
def SeedField.qp : SeedField → RField
  | .r => .r | .q => .q | .zl => .zl | .zu => .zu | .b => .b | .lb => .lb | .lbu => .lbu | .lbx => .lbx
  | .ub => .ub | .ubu => .ubu | .ubx => .ubx | .lg => .lg | .ug => .ug | .ls => .lls | .us => .lus

/-- a seed object read as right-hand side of the QP -/
def sensQp (qp : OcpQp K) (s : Seed K) : OcpQp K := withRhs qp s.g s.b s.d s.m

/-- C61, seeds: setting a seed field changes the seed vectors exactly as the setter of the QP changes gradient, offset and bounds (so a
seed for an upper bound is a change of the upper bound, in spite of the internal sign) -/
theorem seed_set_qp (f : SeedField) (k : ℕ) (v : ℕ → K) (qp : OcpQp K) (s : Seed K) (hd : s.dim = qp.dim) :
    (seedPut f k v s).g = (OcpQp.setR f.qp k v (sensQp qp s)).rqz ∧ (seedPut f k v s).b = (OcpQp.setR f.qp k v (sensQp qp s)).b ∧
    (seedPut f k v s).d = (OcpQp.setR f.qp k v (sensQp qp s)).d ∧ (seedPut f k v s).m = s.m ∧ (seedPut f k v s).dim = s.dim := by
  cases f <;> simp [seedPut, OcpQp.setR, SeedField.qp, sensQp, withRhs, hd]

/-- C61, seeds: what is read back from the perturbed problem is what was set -/
theorem seed_get (f : SeedField) (k : ℕ) (v out : ℕ → K) (qp : OcpQp K) (s : Seed K) (hd : s.dim = qp.dim) :
    OcpQp.getR f.qp k (sensQp qp (seedPut f k v s)) out = mix (userLen f.qp qp.dim k) v out := by
  have h := seed_set_qp f k v qp s hd
  have h0 := qp_get_set_same f.qp k v out (sensQp qp s)
  refine Eq.trans ?_ h0
  cases f <;> simp only [OcpQp.getR, SeedField.qp, sensQp, withRhs] <;> simp only [SeedField.qp] at h <;>
    simp only [h.1, h.2.1, h.2.2.1] <;> rfl

/-- C61, seeds: the names accepted by OCP_QP_SEED_SET; everything else ends the process -/
theorem seed_names (s : String) : (seedField s).isSome ↔ s ∈ ["seed_r", "seed_q", "seed_zl", "seed_zu", "seed_b", "seed_lb", "seed_lbu",
    "seed_lbx", "seed_ub", "seed_ubu", "seed_ubx", "seed_lg", "seed_ug", "seed_ls", "seed_us"] := by
  simp only [List.mem_cons, List.not_mem_nil, or_false]
  constructor
  · intro h
    by_contra hn
    simp only [not_or] at hn
    obtain ⟨h1, h2, h3, h4, h5, h6, h7, h8, h9, h10, h11, h12, h13, h14, h15⟩ := hn
    rw [seedField, if_neg h1, if_neg h2, if_neg h3, if_neg h4, if_neg h5, if_neg h6, if_neg h7, if_neg h8, if_neg h9, if_neg h10, if_neg h11,
      if_neg h12, if_neg h13, if_neg h14, if_neg h15] at h
    cases h
  · rintro (rfl | rfl | rfl | rfl | rfl | rfl | rfl | rfl | rfl | rfl | rfl | rfl | rfl | rfl | rfl) <;> rfl

/-- the name of a seed field -/
def SeedField.name : SeedField → String
  | .r => "seed_r" | .q => "seed_q" | .zl => "seed_zl" | .zu => "seed_zu" | .b => "seed_b" | .lb => "seed_lb" | .lbu => "seed_lbu"
  | .lbx => "seed_lbx" | .ub => "seed_ub" | .ubu => "seed_ubu" | .ubx => "seed_ubx" | .lg => "seed_lg" | .ug => "seed_ug"
  | .ls => "seed_ls" | .us => "seed_us"

/-- C61, seeds: each name reaches the setter of its own field, and what is then read from the perturbed problem under that field is the
value set -/
theorem seed_dispatch (f : SeedField) (k : ℕ) (v out : ℕ → K) (qp : OcpQp K) (s : Seed K) (hd : s.dim = qp.dim) :
    ∃ s', seedSet f.name k v s = .ok s' ∧ OcpQp.getR f.qp k (sensQp qp s') out = mix (userLen f.qp qp.dim k) v out := by
  refine ⟨seedPut f k v s, ?_, seed_get f k v out qp s hd⟩
  cases f <;> rfl

/-- C61, seeds: after the reset every seed is zero -/
theorem seed_zero (s : Seed K) :
    (∀ k i, k ≤ s.dim.N → i < nvt s.dim k → (seedZero s).g k i = 0) ∧ (∀ k i, k < s.dim.N → i < s.dim.nx (k + 1) → (seedZero s).b k i = 0) ∧
    (∀ k j, k ≤ s.dim.N → j < nct s.dim k → (seedZero s).d k j = 0 ∧ (seedZero s).m k j = 0) := by
  have l1 : ∀ n (s : Seed K) (ln : ℕ → ℕ), loop n (fun ii (s : Seed K) => { s with g := upd s.g ii (vecse (ln ii) 0 (s.g ii) 0) }) s =
      { s with g := fun k => if k < n then vecse (ln k) 0 (s.g k) 0 else s.g k } := by
    intro n s ln
    induction n with
    | zero => simp
    | succ n ih =>
      rw [loop_succ, ih]
      congr 1
      funext k
      by_cases h : k = n
      · subst h; simp
      · simp only [upd_ne _ _ h]
        by_cases h2 : k < n
        · rw [if_pos h2, if_pos (by omega)]
        · rw [if_neg h2, if_neg (by omega)]
  have l2 : ∀ n (s : Seed K) (ln : ℕ → ℕ), loop n (fun ii (s : Seed K) => { s with b := upd s.b ii (vecse (ln ii) 0 (s.b ii) 0) }) s =
      { s with b := fun k => if k < n then vecse (ln k) 0 (s.b k) 0 else s.b k } := by
    intro n s ln
    induction n with
    | zero => simp
    | succ n ih =>
      rw [loop_succ, ih]
      congr 1
      funext k
      by_cases h : k = n
      · subst h; simp
      · simp only [upd_ne _ _ h]
        by_cases h2 : k < n
        · rw [if_pos h2, if_pos (by omega)]
        · rw [if_neg h2, if_neg (by omega)]
  have l3 : ∀ n (s : Seed K) (ln : ℕ → ℕ), loop n (fun ii (s : Seed K) => { s with d := upd s.d ii (vecse (ln ii) 0 (s.d ii) 0) }) s =
      { s with d := fun k => if k < n then vecse (ln k) 0 (s.d k) 0 else s.d k } := by
    intro n s ln
    induction n with
    | zero => simp
    | succ n ih =>
      rw [loop_succ, ih]
      congr 1
      funext k
      by_cases h : k = n
      · subst h; simp
      · simp only [upd_ne _ _ h]
        by_cases h2 : k < n
        · rw [if_pos h2, if_pos (by omega)]
        · rw [if_neg h2, if_neg (by omega)]
  have l4 : ∀ n (s : Seed K) (ln : ℕ → ℕ), loop n (fun ii (s : Seed K) => { s with m := upd s.m ii (vecse (ln ii) 0 (s.m ii) 0) }) s =
      { s with m := fun k => if k < n then vecse (ln k) 0 (s.m k) 0 else s.m k } := by
    intro n s ln
    induction n with
    | zero => simp
    | succ n ih =>
      rw [loop_succ, ih]
      congr 1
      funext k
      by_cases h : k = n
      · subst h; simp
      · simp only [upd_ne _ _ h]
        by_cases h2 : k < n
        · rw [if_pos h2, if_pos (by omega)]
        · rw [if_neg h2, if_neg (by omega)]
  have e : seedZero s = { s with
      g := fun k => if k < s.dim.N + 1 then vecse (s.dim.nu k + s.dim.nx k + 2 * s.dim.ns k) 0 (s.g k) 0 else s.g k
      b := fun k => if k < s.dim.N then vecse (s.dim.nx (k + 1)) 0 (s.b k) 0 else s.b k
      d := fun k => if k < s.dim.N + 1 then vecse (2 * s.dim.nb k + 2 * s.dim.ng k + 2 * s.dim.ns k) 0 (s.d k) 0 else s.d k
      m := fun k => if k < s.dim.N + 1 then vecse (2 * s.dim.nb k + 2 * s.dim.ng k + 2 * s.dim.ns k) 0 (s.m k) 0 else s.m k } := by
    unfold seedZero
    dsimp only
    rw [l1, l2, l3, l4]
  rw [e]
  refine ⟨fun k i hk hi => ?_, fun k i hk hi => ?_, fun k j hk hj => ⟨?_, ?_⟩⟩
  · show (if k < s.dim.N + 1 then vecse _ 0 (s.g k) 0 else s.g k) i = 0
    unfold nvt at hi
    rw [if_pos (by omega), vecse, if_pos (by omega)]
  · show (if k < s.dim.N then vecse _ 0 (s.b k) 0 else s.b k) i = 0
    rw [if_pos hk, vecse, if_pos (by omega)]
  · show (if k < s.dim.N + 1 then vecse _ 0 (s.d k) 0 else s.d k) j = 0
    unfold nct at hj
    rw [if_pos (by omega), vecse, if_pos (by omega)]
  · show (if k < s.dim.N + 1 then vecse _ 0 (s.m k) 0 else s.m k) j = 0
    unfold nct at hj
    rw [if_pos (by omega), vecse, if_pos (by omega)]

/-! ### the workspace after a solve -/

/-- the workspace holds the factorised KKT matrix of `qp` at the iterate `sol`, and that iterate in its backup vectors -/
structure FactAt (qp : OcpQp K) (sol : Sol K) (dr : ℕ → ℕ → K) (reg : K) (w : RicWs K) : Prop where
  nv : w.core.nv = stOff (nvt qp.dim) (qp.dim.N + 1)
  ne : w.core.ne = stOff (net qp.dim) qp.dim.N
  nc : w.core.nc = stOff (nct qp.dim) (qp.dim.N + 1)
  v : ∀ k i, k ≤ qp.dim.N → i < nvt qp.dim k → w.core.v_bkp (stOff (nvt qp.dim) k + i) = sol.ux k i
  pi : ∀ k i, k < qp.dim.N → i < net qp.dim k → w.core.pi_bkp (stOff (net qp.dim) k + i) = sol.pi k i
  lam : ∀ k j, k ≤ qp.dim.N → j < nct qp.dim k → w.core.lam_bkp (stOff (nct qp.dim) k + j) = sol.lam k j
  t : ∀ k j, k ≤ qp.dim.N → j < nct qp.dim k → w.core.t_bkp (stOff (nct qp.dim) k + j) = sol.t k j
  pos : ∀ k j, k ≤ qp.dim.N → j < nct qp.dim k → sol.t k j ≠ 0
  ti : ∀ k j, k ≤ qp.dim.N → j < nct qp.dim k → w.core.t_inv (stOff (nct qp.dim) k + j) = 1 / sol.t k j
  G : ∀ k j, k ≤ qp.dim.N → j < nct qp.dim k → stView qp.dim w.core.Gamma k j = wG sol k j
  fac : Factored qp dr reg (stView qp.dim w.core.Gamma) w.sqr w.st

theorem updateVar_frame (c : Core K) : (updateVar c).nv = c.nv ∧ (updateVar c).ne = c.ne ∧ (updateVar c).nc = c.nc ∧
    (updateVar c).t_inv = c.t_inv ∧ (updateVar c).Gamma = c.Gamma := by
  have key : ((updateVar c).nv, (updateVar c).ne, (updateVar c).nc, (updateVar c).t_inv, (updateVar c).Gamma) =
      (c.nv, c.ne, c.nc, c.t_inv, c.Gamma) := by
    unfold updateVar
    dsimp only
    have hl : ∀ (n : ℕ) (f : ℕ → Core K → Core K) (s : Core K), (∀ i s, ((f i s).nv, (f i s).ne, (f i s).nc, (f i s).t_inv, (f i s).Gamma) =
          (s.nv, s.ne, s.nc, s.t_inv, s.Gamma)) →
        ((loop n f s).nv, (loop n f s).ne, (loop n f s).nc, (loop n f s).t_inv, (loop n f s).Gamma) = (s.nv, s.ne, s.nc, s.t_inv, s.Gamma) := by
      intro n f s hf
      exact loop_inv (S := Core K) (fun _ s' => (s'.nv, s'.ne, s'.nc, s'.t_inv, s'.Gamma) = (s.nv, s.ne, s.nc, s.t_inv, s.Gamma)) n f s rfl
        (fun i s' _ h => (hf i s').trans h)
    split_ifs
    all_goals
      refine ((hl c.nc _ _ ?_).trans (hl c.nc _ _ ?_)).trans ((hl c.ne _ _ ?_).trans (hl c.nv _ c ?_))
      all_goals
        intros
        rfl
  exact ⟨congrArg (fun x => x.1) key, congrArg (fun x => x.2.1) key, congrArg (fun x => x.2.2.1) key, congrArg (fun x => x.2.2.2.1) key,
    congrArg (fun x => x.2.2.2.2) key⟩

/-- the workspace after a factorisation for a step and the move of the iterate by UPDATE_VAR_QP, whatever the step lengths; `rqz`, `b`,
`d`, `m` are the residuals the step was computed for -/
theorem factAt_after_step (sq : K → K) (hsq : ∀ x, 0 < x → sq x * sq x = x) (fuel : ℕ) (qp : OcpQp K) (hwf : qp.WF) (hN : 1 ≤ qp.dim.N)
    (sol : Sol K) (rqz b d m : ℕ → Vec K) (sqr : Bool) (reg preg_last : K) (c : Core K) (hc : CoreOf qp sol c)
    (hnv : c.nv = stOff (nvt qp.dim) (qp.dim.N + 1)) (hne : c.ne = stOff (net qp.dim) qp.dim.N)
    (hv : ∀ k i, k ≤ qp.dim.N → i < nvt qp.dim k → c.v (stOff (nvt qp.dim) k + i) = sol.ux k i)
    (hpi : ∀ k i, k < qp.dim.N → i < net qp.dim k → c.pi (stOff (net qp.dim) k + i) = sol.pi k i)
    (ht : c.t_lam_min ≠ 1) (st : KktSt K) (hR : ROk qp st) (hB : BOk qp st) (dual : Bool) (out : KktOut K)
    (h : factSolveKktStep sq fuel (withRhs qp rqz b d m) dual sqr reg preg_last c st = some out)
    (core' : Core K) (hcore : core'.nc = out.core.nc ∧ core'.lam = out.core.lam ∧ core'.t = out.core.t ∧ core'.t_inv = out.core.t_inv ∧
      core'.Gamma = out.core.Gamma) (hcv : core'.nv = c.nv ∧ core'.ne = c.ne ∧ core'.v = c.v ∧ core'.pi = c.pi) (rv ricP : Bool) :
    FactAt qp sol (drOf qp out.sqr reg out.preg) reg ⟨out.st, updateVar core', out.sqr, rv, ricP⟩ := by
  obtain ⟨hF, hcf, -⟩ := factSolve_factored sq hsq fuel (withRhs qp rqz b d m) hwf hN sol dual sqr reg preg_last c
    ⟨hc.nc, hc.lam, hc.t, hc.pos⟩ ht st hR hB out h
  obtain ⟨h1, h2, h3, h4, h5⟩ := hcore
  obtain ⟨c1, c2, c3, c4⟩ := hcv
  obtain ⟨-, -, -, -, hbv, hbp, hbk, -⟩ := updateVar_val core'
  obtain ⟨f1, f2, f3, f4, f5⟩ := updateVar_frame core'
  have hnc : core'.nc = stOff (nct qp.dim) (qp.dim.N + 1) := by rw [h1]; exact hcf.of.nc
  refine ⟨by rw [f1, c1, hnv], by rw [f2, c2, hne], by rw [f3, hnc], fun k i hk hi => ?_, fun k i hk hi => ?_, fun k j hk hj => ?_,
    fun k j hk hj => ?_, hc.pos, fun k j hk hj => ?_, fun k j hk hj => ?_, ?_⟩
  · have hlt : stOff (nvt qp.dim) k + i < core'.nv := by rw [c1, hnv]; exact stOff_lt hk hi
    exact (hbv _ hlt).trans (by rw [c3]; exact hv k i hk hi)
  · have hlt : stOff (net qp.dim) k + i < core'.ne := by
      rw [c2, hne]
      have := stOff_mono (net qp.dim) (show k + 1 ≤ qp.dim.N by omega)
      have e : stOff (net qp.dim) (k + 1) = stOff (net qp.dim) k + net qp.dim k := rfl
      omega
    exact (hbp _ hlt).trans (by rw [c4]; exact hpi k i hk hi)
  · have hlt : stOff (nct qp.dim) k + j < core'.nc := by rw [hnc]; exact stOff_lt hk hj
    exact (hbk _ hlt).1.trans (by rw [h2]; exact hcf.of.lam k j hk hj)
  · have hlt : stOff (nct qp.dim) k + j < core'.nc := by rw [hnc]; exact stOff_lt hk hj
    exact (hbk _ hlt).2.trans (by rw [h3]; exact hcf.of.t k j hk hj)
  · show (updateVar core').t_inv _ = _
    rw [f4, h4]; exact hcf.ti k j hk hj
  · show stView qp.dim (updateVar core').Gamma k j = _
    rw [f5, h5]; exact hcf.G k j hk hj
  · show Factored qp _ reg (stView qp.dim (updateVar core').Gamma) out.sqr out.st
    rw [f5, h5]
    exact ⟨hF.ba, ⟨hF.fac.hsym, hF.fac.fac⟩, hF.zs⟩

theorem FactAt.core {qp : OcpQp K} {sol : Sol K} {dr : ℕ → ℕ → K} {reg : K} {w : RicWs K} (h : FactAt qp sol dr reg w) (a : SensArg K) :
    CoreFac qp sol (sensLoad a w.core) := by
  refine ⟨⟨h.nc, fun k j hk hj => ?_, fun k j hk hj => ?_, h.pos⟩, h.ti, h.G⟩
  · show veccp w.core.nc w.core.lam_bkp 0 w.core.lam 0 _ = _
    have := stOff_lt (len := nct qp.dim) hk hj
    rw [veccp, if_pos (by rw [h.nc]; omega)]
    simpa using h.lam k j hk hj
  · show veccp w.core.nc w.core.t_bkp 0 w.core.t 0 _ = _
    have := stOff_lt (len := nct qp.dim) hk hj
    rw [veccp, if_pos (by rw [h.nc]; omega)]
    simpa using h.t k j hk hj

/-- the re-solve into another object computes the Newton step of the right-hand side it is given, and leaves the workspace ready for the
next one -/
theorem solveInto_newton (qp : OcpQp K) (hwf : qp.WF) (hN : 1 ≤ qp.dim.N) (hu : Unshared qp) (sol : Sol K) (dr : ℕ → ℕ → K) (reg : K)
    (w : RicWs K) (h : FactAt qp sol dr reg w) (a : SensArg K) (c : Core K) (hca : c = sensLoad a w.core ∨ c = predLoad a w.core)
    (hden : ∀ k i, k ≤ qp.dim.N → i < 2 * qp.dim.ns k → slackCurv qp reg sol k i ≠ 0) (rqz b d m : ℕ → Vec K) (tgt : Sol K) :
    let r := solveInto (withRhs qp rqz b d m) true c tgt w
    NewtonStep (withRhs qp rqz b d m) sol dr reg r.1 ∧ FactAt qp sol dr reg r.2 ∧ r.2.core.t_inv = w.core.t_inv ∧
      r.2.sqr = w.sqr ∧ r.2.ricVec = w.ricVec ∧
      RicFor (withRhs qp rqz b d m) dr reg sol r.2 r.1 := by
  intro r
  have hcf : CoreFac (withRhs qp rqz b d m) sol c := by
    have := h.core a
    rcases hca with rfl | rfl
    · exact ⟨⟨this.of.nc, this.of.lam, this.of.t, this.of.pos⟩, this.ti, this.G⟩
    · exact ⟨⟨this.of.nc, this.of.lam, this.of.t, this.of.pos⟩, this.ti, this.G⟩
  have hcG : c.Gamma = w.core.Gamma := by rcases hca with rfl | rfl <;> rfl
  let st : KktSt K := { w.st with
    ux := tgt.ux
    pi := tgt.pi
    lam := tgt.lam
    t := tgt.t }
  have hF : Factored (withRhs qp rqz b d m) dr reg (stView qp.dim c.Gamma) w.sqr st := by
    rw [hcG]
    exact ⟨h.fac.ba, ⟨h.fac.fac.hsym, h.fac.fac.fac⟩, h.fac.zs⟩
  obtain ⟨n1, n2, n3, n4, n5⟩ := solve_newton (withRhs qp rqz b d m) hwf hN hu sol dr reg w.sqr false c hcf st hF (fun h => nomatch h) hden
  have hfor := ricFor_solve (withRhs qp rqz b d m) hwf hN sol dr reg w.sqr false c hcf st hF (fun h => nomatch h) r.2.core w.ricVec
  obtain ⟨gm, hcg, -⟩ := computeGamma_fields (stFlat (nct qp.dim) d (qp.dim.N + 1)) (stFlat (nct qp.dim) m (qp.dim.N + 1)) c
  have hr1 : (solveKktStep (withRhs qp rqz b d m) true w.sqr false c st).1 = { c with gamma := gm } := by
    unfold solveKktStep
    exact hcg
  have hri : r.2.core.t_inv = w.core.t_inv ∧ r.2.core.Gamma = w.core.Gamma := by
    have e1 : r.2.core.t_inv = (solveKktStep (withRhs qp rqz b d m) true w.sqr false c st).1.t_inv := rfl
    have e2 : r.2.core.Gamma = (solveKktStep (withRhs qp rqz b d m) true w.sqr false c st).1.Gamma := rfl
    rw [hr1] at e1 e2
    rcases hca with rfl | rfl <;> exact ⟨e1, e2⟩
  have hrb : r.2.core.nv = w.core.nv ∧ r.2.core.ne = w.core.ne ∧ r.2.core.nc = w.core.nc ∧ r.2.core.v_bkp = w.core.v_bkp ∧
      r.2.core.pi_bkp = w.core.pi_bkp ∧ r.2.core.lam_bkp = w.core.lam_bkp ∧ r.2.core.t_bkp = w.core.t_bkp := by
    have e1 : r.2.core = putSol qp.dim r.1 (solveKktStep (withRhs qp rqz b d m) true w.sqr false c st).1 := rfl
    rw [hr1] at e1
    rw [e1]
    rcases hca with rfl | rfl <;> exact ⟨rfl, rfl, rfl, rfl, rfl, rfl, rfl⟩
  obtain ⟨b1, b2, b3, b4, b5, b6, b7⟩ := hrb
  refine ⟨n1, ⟨by rw [b1, h.nv], by rw [b2, h.ne], by rw [b3, h.nc], by rw [b4]; exact h.v, by rw [b5]; exact h.pi, by rw [b6]; exact h.lam,
    by rw [b7]; exact h.t, h.pos, by rw [hri.1]; exact h.ti, by rw [hri.2]; exact h.G, ?_⟩, hri.1, rfl, rfl, ?_⟩
  · have e : r.2.core.Gamma = (solveKktStep (withRhs qp rqz b d m) true w.sqr false c st).1.Gamma := rfl
    rw [e]
    exact ⟨n2.ba, ⟨n2.fac.hsym, n2.fac.fac⟩, n2.zs⟩
  · obtain ⟨G, g, p, ell, f1, f2, f3, f4, f5⟩ := hfor
    exact ⟨G, g, p, ell, f1, f2, ⟨f3.fac, f3.rhs, f3.nu, f3.nx, f3.L, f3.P, f3.lu, f3.l0, f3.lx⟩, f4, f5⟩

/-! ### forward sensitivities -/

/-- **C61.**  Forward sensitivities are the Newton step of the seeds at the iterate whose factorisation the workspace holds; the call
can be repeated with other seeds -/
theorem sensFrw_newton (qp : OcpQp K) (hwf : qp.WF) (hN : 1 ≤ qp.dim.N) (hu : Unshared qp) (sol : Sol K) (dr : ℕ → ℕ → K) (reg : K)
    (w : RicWs K) (h : FactAt qp sol dr reg w) (a : SensArg K) (ha : a.comp_dual_sol_eq = true)
    (hden : ∀ k i, k ≤ qp.dim.N → i < 2 * qp.dim.ns k → slackCurv qp reg sol k i ≠ 0) (s : Seed K) :
    NewtonStep (sensQp qp s) sol dr reg (sensFrw qp s a w).1 ∧ FactAt qp sol dr reg (sensFrw qp s a w).2 := by
  have := solveInto_newton qp hwf hN hu sol dr reg w h a (sensLoad a w.core) (Or.inl rfl) hden s.g s.b s.d s.m (solOf qp.dim (sensLoad a w.core))
  unfold sensFrw
  rw [ha]
  exact ⟨this.1, this.2.1⟩

/-! ### adjoint sensitivities -/

/-- reciprocity: the KKT matrix is symmetric after the complementarity rows are divided by the slacks -/
theorem newton_reciprocal (qp : OcpQp K) (hwf : qp.WF) (sol : Sol K) (hpos : ∀ k j, k ≤ qp.dim.N → j < nct qp.dim k → sol.t k j ≠ 0)
    (dr : ℕ → ℕ → K) (reg : K) (g1 b1 d1 m1 g2 b2 d2 m2 : ℕ → Vec K) (s1 s2 : Sol K)
    (h1 : NewtonStep (withRhs qp g1 b1 d1 m1) sol dr reg s1) (h2 : NewtonStep (withRhs qp g2 b2 d2 m2) sol dr reg s2) :
    pairV qp.dim g1 s2.ux + pairE qp.dim b1 s2.pi + pairC qp.dim d1 s2.lam + pairC qp.dim (fun k j => m1 k j / sol.t k j) s2.t =
    pairV qp.dim g2 s1.ux + pairE qp.dim b2 s1.pi + pairC qp.dim d2 s1.lam + pairC qp.dim (fun k j => m2 k j / sol.t k j) s1.t := by
  have key : ∀ (g1 b1 d1 m1 : ℕ → Vec K) (s1 s2 : Sol K), NewtonStep (withRhs qp g1 b1 d1 m1) sol dr reg s1 →
      pairV qp.dim g1 s2.ux + pairE qp.dim b1 s2.pi + pairC qp.dim d1 s2.lam + pairC qp.dim (fun k j => m1 k j / sol.t k j) s2.t =
      - (pairV qp.dim (hessMul qp s1.ux) s2.ux) - (∑ k ∈ range (qp.dim.N + 1), ((∑ i ∈ range (qp.dim.nu k + qp.dim.nx k), dr k i * s1.ux k i * s2.ux k i)
        + ∑ i ∈ range (2 * qp.dim.ns k), reg * s1.ux k (qp.dim.nu k + qp.dim.nx k + i) * s2.ux k (qp.dim.nu k + qp.dim.nx k + i)))
      - pairE qp.dim s1.pi (linB qp s2.ux) - pairE qp.dim s2.pi (linB qp s1.ux)
      - pairC qp.dim s1.lam (linD qp s2.ux) - pairC qp.dim s2.lam (linD qp s1.ux)
      - (pairC qp.dim s1.t s2.lam + pairC qp.dim s2.t s1.lam) - pairC qp.dim (fun k j => sol.lam k j / sol.t k j * s1.t k j) s2.t := by
    intro g1 b1 d1 m1 s1 s2 h
    have e1 := vG_pair (withRhs qp g1 b1 d1 m1) hwf s1 s1.lam s2.ux
    have e2 : pairV qp.dim (fun k i => vG (withRhs qp g1 b1 d1 m1) s1 (s1.lam k) k i) s2.ux =
        - (∑ k ∈ range (qp.dim.N + 1), ((∑ i ∈ range (qp.dim.nu k + qp.dim.nx k), dr k i * s1.ux k i * s2.ux k i)
        + ∑ i ∈ range (2 * qp.dim.ns k), reg * s1.ux k (qp.dim.nu k + qp.dim.nx k + i) * s2.ux k (qp.dim.nu k + qp.dim.nx k + i))) := by
      unfold pairV
      rw [← sum_neg_distrib]
      refine sum_congr rfl (fun k hk => ?_)
      have hk : k ≤ qp.dim.N := by have := mem_range.mp hk; omega
      unfold nvt
      rw [sum_range_add _ (qp.dim.nu k + qp.dim.nx k), neg_add, ← sum_neg_distrib, ← sum_neg_distrib]
      congr 1
      · refine sum_congr rfl (fun i hi => ?_)
        have := h.g k i hk (mem_range.mp hi)
        dsimp only
        rw [this]; ring
      · refine sum_congr rfl (fun i hi => ?_)
        have : vG (withRhs qp g1 b1 d1 m1) s1 (s1.lam k) k (qp.dim.nu k + qp.dim.nx k + i) = - reg * s1.ux k (qp.dim.nu k + qp.dim.nx k + i) :=
          h.gs k i hk (mem_range.mp hi)
        dsimp only
        rw [this]; ring
    have e3 : pairV qp.dim (fun k i => hessMul qp s1.ux k i + g1 k i) s2.ux = pairV qp.dim (hessMul qp s1.ux) s2.ux + pairV qp.dim g1 s2.ux :=
      pairV_add_left _ _ _ _
    have e4 : pairE qp.dim b1 s2.pi = - pairE qp.dim s2.pi (linB qp s1.ux) := by
      unfold pairE
      rw [← sum_neg_distrib]
      refine sum_congr rfl (fun k hk => ?_)
      rw [← sum_neg_distrib]
      refine sum_congr rfl (fun i hi => ?_)
      have := h.b k i (mem_range.mp hk) (mem_range.mp hi)
      rw [vB_lin] at this
      have e : b1 k i = - linB qp s1.ux k i := by
        have e' : b1 k i + linB qp s1.ux k i = 0 := this
        linear_combination e'
      rw [e]; ring
    have e5 : pairC qp.dim d1 s2.lam = - pairC qp.dim s1.t s2.lam - pairC qp.dim s2.lam (linD qp s1.ux) := by
      unfold pairC
      rw [← sum_neg_distrib, ← sum_sub_distrib]
      refine sum_congr rfl (fun k hk => ?_)
      rw [← sum_neg_distrib, ← sum_sub_distrib]
      refine sum_congr rfl (fun i hi => ?_)
      have hk : k ≤ qp.dim.N := by have := mem_range.mp hk; omega
      have := h.d k i hk (mem_range.mp hi)
      rw [vD_lin] at this
      have e : d1 k i = - s1.t k i - linD qp s1.ux k i := by
        have e' : d1 k i + s1.t k i + linD qp s1.ux k i = 0 := this
        linear_combination e'
      rw [e]; ring
    have e6 : pairC qp.dim (fun k j => m1 k j / sol.t k j) s2.t =
        - pairC qp.dim s2.t s1.lam - pairC qp.dim (fun k j => sol.lam k j / sol.t k j * s1.t k j) s2.t := by
      unfold pairC
      rw [← sum_neg_distrib, ← sum_sub_distrib]
      refine sum_congr rfl (fun k hk => ?_)
      rw [← sum_neg_distrib, ← sum_sub_distrib]
      refine sum_congr rfl (fun i hi => ?_)
      have hk : k ≤ qp.dim.N := by have := mem_range.mp hk; omega
      have := h.m k i hk (mem_range.mp hi)
      have e : m1 k i = - (sol.lam k i * s1.t k i) - s1.lam k i * sol.t k i := by
        have e' : m1 k i + sol.lam k i * s1.t k i + s1.lam k i * sol.t k i = 0 := this
        linear_combination e'
      have hp := hpos k i hk (mem_range.mp hi)
      dsimp only
      rw [e]
      field_simp
      ring
    have e1' : pairV qp.dim (fun k i => vG (withRhs qp g1 b1 d1 m1) s1 (s1.lam k) k i) s2.ux =
        pairV qp.dim (fun k i => hessMul qp s1.ux k i + g1 k i) s2.ux + pairE qp.dim s1.pi (linB qp s2.ux) + pairC qp.dim s1.lam (linD qp s2.ux) := e1
    rw [e2, e3] at e1'
    rw [e4, e5, e6]
    linear_combination -e1'
  rw [key g1 b1 d1 m1 s1 s2 h1, key g2 b2 d2 m2 s2 s1 h2, hess_symm qp s1.ux s2.ux]
  have c1 : (∑ k ∈ range (qp.dim.N + 1), ((∑ i ∈ range (qp.dim.nu k + qp.dim.nx k), dr k i * s1.ux k i * s2.ux k i)
        + ∑ i ∈ range (2 * qp.dim.ns k), reg * s1.ux k (qp.dim.nu k + qp.dim.nx k + i) * s2.ux k (qp.dim.nu k + qp.dim.nx k + i))) =
      ∑ k ∈ range (qp.dim.N + 1), ((∑ i ∈ range (qp.dim.nu k + qp.dim.nx k), dr k i * s2.ux k i * s1.ux k i)
        + ∑ i ∈ range (2 * qp.dim.ns k), reg * s2.ux k (qp.dim.nu k + qp.dim.nx k + i) * s1.ux k (qp.dim.nu k + qp.dim.nx k + i)) := by
    refine sum_congr rfl (fun k _ => ?_)
    congr 1 <;> exact sum_congr rfl (fun i _ => by ring)
  have c2 : pairC qp.dim (fun k j => sol.lam k j / sol.t k j * s1.t k j) s2.t = pairC qp.dim (fun k j => sol.lam k j / sol.t k j * s2.t k j) s1.t :=
    pairC_congr _ _ _ _ _ (fun k i _ _ => by ring)
  rw [c1, c2]
  ring

/-- pairing of seeds with a point: gradient with primal variables, dynamics with its multipliers, bounds with multipliers, complementarity
with slacks -/
def seedPair (D : QpDim) (s : Seed K) (z : Sol K) : K :=
  pairV D s.g z.ux + pairE D s.b z.pi + pairC D s.d z.lam + pairC D s.m z.t

theorem loop_scale (n : ℕ) (x f : Vec K) (i : ℕ) :
    loop n (fun ii t => upd t ii (t ii * f ii)) x i = if i < n then x i * f i else x i := by
  induction n generalizing i with
  | zero => simp
  | succ n ih =>
    rw [loop_succ]
    by_cases h : i = n
    · subst h
      rw [upd_same, ih, if_neg (lt_irrefl _), if_pos (Nat.lt_succ_self _)]
    · rw [upd_ne _ _ h, ih]
      by_cases h2 : i < n
      · rw [if_pos h2, if_pos (by omega)]
      · rw [if_neg h2, if_neg (by omega)]

theorem loop_save (n : ℕ) (x y f : Vec K) :
    loop n (fun ii (p : Vec K × Vec K) => (upd p.1 ii (p.2 ii), upd p.2 ii (p.2 ii * f ii))) (y, x) =
      (fun i => if i < n then x i else y i, fun i => if i < n then x i * f i else x i) := by
  induction n with
  | zero => simp
  | succ n ih =>
    rw [loop_succ, ih]
    refine Prod.ext (funext fun i => ?_) (funext fun i => ?_)
    all_goals
      by_cases h : i = n
      · subst h
        simp
      · simp only [upd_ne _ _ h]
        by_cases h2 : i < n
        · rw [if_pos h2, if_pos (by omega)]
        · rw [if_neg h2, if_neg (by omega)]

theorem loop_copy (n : ℕ) (x f : Vec K) (i : ℕ) :
    loop n (fun ii t => upd t ii (f ii)) x i = if i < n then f i else x i := by
  induction n generalizing i with
  | zero => simp
  | succ n ih =>
    rw [loop_succ]
    by_cases h : i = n
    · subst h
      rw [upd_same, if_pos (Nat.lt_succ_self _)]
    · rw [upd_ne _ _ h, ih]
      by_cases h2 : i < n
      · rw [if_pos h2, if_pos (by omega)]
      · rw [if_neg h2, if_neg (by omega)]

/-- what OCP_QP_IPM_SENS_ADJ computes: the Newton step of the seeds with `seed_m` multiplied by the slacks, its slack part divided by
the slacks; the caller's seeds are as before -/
theorem sensAdj_newton (qp : OcpQp K) (hwf : qp.WF) (hN : 1 ≤ qp.dim.N) (hu : Unshared qp) (sol : Sol K) (dr : ℕ → ℕ → K) (reg : K)
    (w : RicWs K) (h : FactAt qp sol dr reg w) (a : SensArg K) (ha : a.comp_dual_sol_eq = true)
    (hden : ∀ k i, k ≤ qp.dim.N → i < 2 * qp.dim.ns k → slackCurv qp reg sol k i ≠ 0) (s : Seed K) :
    let r := sensAdj qp s a w
    (∃ (m : ℕ → Vec K) (z : Sol K), (∀ k j, k ≤ qp.dim.N → j < nct qp.dim k → m k j = s.m k j * sol.t k j) ∧
      NewtonStep (withRhs qp s.g s.b s.d m) sol dr reg z ∧ r.1.ux = z.ux ∧ r.1.pi = z.pi ∧ r.1.lam = z.lam ∧
      ∀ k j, k ≤ qp.dim.N → j < nct qp.dim k → r.1.t k j = z.t k j / sol.t k j) ∧
    (r.2.1.g = s.g ∧ r.2.1.b = s.b ∧ r.2.1.d = s.d ∧ ∀ k j, k ≤ qp.dim.N → j < nct qp.dim k → r.2.1.m k j = s.m k j) ∧
    FactAt qp sol dr reg r.2.2 := by
  intro r
  set c := sensLoad a w.core with hc
  set sm := stFlat (nct qp.dim) s.m (qp.dim.N + 1) with hsm
  set p := loop c.nc (fun ii (p : Vec K × Vec K) => (upd p.1 ii (p.2 ii), upd p.2 ii (p.2 ii * c.t ii))) (fun _ => 0, sm) with hp
  have hpv := loop_save c.nc sm (fun _ => 0) c.t
  rw [← hp] at hpv
  have hnc : c.nc = stOff (nct qp.dim) (qp.dim.N + 1) := h.nc
  have hcf : CoreFac qp sol c := h.core a
  obtain ⟨n1, n2, n3, -⟩ := solveInto_newton qp hwf hN hu sol dr reg w h a c (Or.inl rfl) hden s.g s.b s.d (svw (nct qp.dim) p.2) (solOf qp.dim c)
  set q := solveInto (withRhs qp s.g s.b s.d (svw (nct qp.dim) p.2)) true c (solOf qp.dim c) w with hq
  have hr : r = ({ q.1 with t := svw (nct qp.dim) (loop c.nc (fun ii t => upd t ii (t ii * q.2.core.t_inv ii)) (stFlat (nct qp.dim) q.1.t (qp.dim.N + 1))) },
      { s with m := svw (nct qp.dim) (loop c.nc (fun ii m => upd m ii (p.1 ii)) p.2) },
      { q.2 with core := { q.2.core with t := loop c.nc (fun ii t => upd t ii (t ii * q.2.core.t_inv ii)) (stFlat (nct qp.dim) q.1.t (qp.dim.N + 1)) } }) := by
    show sensAdj qp s a w = _
    unfold sensAdj
    rw [ha]
  rw [hr]
  have hat : ∀ k j, k ≤ qp.dim.N → j < nct qp.dim k → stOff (nct qp.dim) k + j < c.nc := fun k j hk hj => by rw [hnc]; exact stOff_lt hk hj
  refine ⟨⟨svw (nct qp.dim) p.2, q.1, fun k j hk hj => ?_, n1, rfl, rfl, rfl, fun k j hk hj => ?_⟩, ⟨rfl, rfl, rfl, fun k j hk hj => ?_⟩, ?_⟩
  · show p.2 (stOff (nct qp.dim) k + j) = _
    rw [hpv]
    dsimp only
    rw [if_pos (hat k j hk hj), hsm, stFlat_at _ _ _ _ _ (by omega) hj, hcf.of.t k j hk hj]
  · show (loop c.nc (fun ii t => upd t ii (t ii * q.2.core.t_inv ii)) (stFlat (nct qp.dim) q.1.t (qp.dim.N + 1))) (stOff (nct qp.dim) k + j) = _
    rw [loop_scale, if_pos (hat k j hk hj), stFlat_at _ _ _ _ _ (by omega) hj, n3, h.ti k j hk hj]
    ring
  · show (loop c.nc (fun ii m => upd m ii (p.1 ii)) p.2) (stOff (nct qp.dim) k + j) = _
    rw [loop_copy, if_pos (hat k j hk hj), hpv]
    dsimp only
    rw [if_pos (hat k j hk hj), hsm, stFlat_at _ _ _ _ _ (by omega) hj]
  · exact ⟨n2.nv, n2.ne, n2.nc, n2.v, n2.pi, n2.lam, n2.t, n2.pos, n2.ti, n2.G, n2.fac⟩

/-- **C62.**  Adjoint sensitivities are the transpose of forward sensitivities: pairing an output seed with the forward sensitivities of
an input seed gives the same number as pairing the adjoint sensitivities of the output seed with the input seed -/
theorem sensAdj_transpose (qp : OcpQp K) (hwf : qp.WF) (hN : 1 ≤ qp.dim.N) (hu : Unshared qp) (sol : Sol K) (dr : ℕ → ℕ → K) (reg : K)
    (w w' : RicWs K) (h : FactAt qp sol dr reg w) (h' : FactAt qp sol dr reg w') (a : SensArg K) (ha : a.comp_dual_sol_eq = true)
    (hden : ∀ k i, k ≤ qp.dim.N → i < 2 * qp.dim.ns k → slackCurv qp reg sol k i ≠ 0) (s y : Seed K) :
    seedPair qp.dim y (sensFrw qp s a w).1 = seedPair qp.dim s (sensAdj qp y a w').1 := by
  obtain ⟨n1, -⟩ := sensFrw_newton qp hwf hN hu sol dr reg w h a ha hden s
  obtain ⟨⟨m, z, hm, n2, e1, e2, e3, e4⟩, -, -⟩ := sensAdj_newton qp hwf hN hu sol dr reg w' h' a ha hden y
  have := newton_reciprocal qp hwf sol h.pos dr reg y.g y.b y.d m s.g s.b s.d s.m z (sensFrw qp s a w).1 n2 n1
  unfold seedPair
  rw [e1, e2, e3]
  have c1 : pairC qp.dim (fun k j => m k j / sol.t k j) (sensFrw qp s a w).1.t = pairC qp.dim y.m (sensFrw qp s a w).1.t :=
    pairC_congr _ _ _ _ _ (fun k j hk hj => by
      have := h.pos k j hk hj
      rw [hm k j hk hj]
      field_simp)
  have c2 : pairC qp.dim (fun k j => s.m k j / sol.t k j) z.t = pairC qp.dim s.m (sensAdj qp y a w').1.t :=
    pairC_congr _ _ _ _ _ (fun k j hk hj => by
      rw [e4 k j hk hj]
      ring)
  rw [c1, c2] at this
  exact this

end
end Hpipm
