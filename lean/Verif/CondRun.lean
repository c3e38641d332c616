/-
Condensing one block, condensing a whole problem (cond/x_cond.c:445-457) and partial condensing
(cond/x_part_cond.c:487-560).
-/
import Verif.CondEquiv
import Verif.CondRsq1
import Verif.PartCondProps

namespace Hpipm
open Finset
set_option linter.unusedSectionVars false

section
variable {K : Type*} [Field K] [LinearOrder K]

/-- condensing one block: COND_BABT, COND_RSQRQ, COND_DCTD on the same problem, work space and target
(x_cond.c:448-452, x_part_cond.c:535-539); returns the caller's problem, the work space and the target -/
def condBlock (sq : K → K) (qp : OcpQp K) (arg : CondArg) (ws : CondWs K) (tg : CondTgt K) : OcpQp K × CondWs K × CondTgt K :=
  let r := condBabt qp arg ws tg
  let r2 := condRsqrq sq qp arg r.1 r.2
  let r3 := condDctd r2.1 arg r2.2.1 r2.2.2
  (r2.1, r3.1, r3.2)

end

/-! ### partial condensing -/

section
variable {K : Type*} [Field K] [LinearOrder K] [IsStrictOrderedRing K]

/-- the aliased problem of a block: pointers advanced by `s`, horizon `bs` (x_part_cond.c:505-533) -/
def blockQp (P : OcpQp K) (s bs : ℕ) : OcpQp K := { shiftQp P s with dim := { (shiftQp P s).dim with N := bs } }

/-- the target of a block is written to stage `ii` of the partially condensed problem -/
def putTgt (P2 : OcpQp K) (ii : ℕ) (t : CondTgt K) : OcpQp K :=
  { P2 with
    BAbt := upd P2.BAbt ii t.BAbt2, b := upd P2.b ii t.b2, RSQrq := upd P2.RSQrq ii t.RSQrq2, rqz := upd P2.rqz ii t.rqz2,
    DCt := upd P2.DCt ii t.DCt2, d := upd P2.d ii t.d2, d_mask := upd P2.d_mask ii t.d_mask2, m := upd P2.m ii t.m2,
    Z := upd P2.Z ii t.Z2, idxb := upd P2.idxb ii t.idxb2, idxs_rev := upd P2.idxs_rev ii t.idxs_rev2 }

/-- variables of PART_COND_QP_COND -/
structure PcSt (K : Type*) where
  P : OcpQp K
  ws : ℕ → CondWs K
  P2 : OcpQp K
  N_tmp : ℕ

/-- body of the loop of PART_COND_QP_COND, x_part_cond.c:500-543 (the block's problem shares the matrices of the caller's one) -/
def partCondStep (sq : K → K) (args : ℕ → CondArg) (bs : ℕ → ℕ) (ii : ℕ) (s : PcSt K) : PcSt K :=
  let r := condBlock sq (blockQp s.P s.N_tmp (bs ii)) (args ii) (s.ws ii) (tgtOf s.P2 ii)
  { P := { s.P with BAbt := fun k => if s.N_tmp ≤ k then r.1.BAbt (k - s.N_tmp) else s.P.BAbt k,
                    RSQrq := fun k => if s.N_tmp ≤ k then r.1.RSQrq (k - s.N_tmp) else s.P.RSQrq k },
    ws := upd s.ws ii r.2.1,
    P2 := putTgt s.P2 ii r.2.2,
    N_tmp := s.N_tmp + bs ii }

/-- PART_COND_QP_COND, cond/x_part_cond.c:487-560; returns the caller's problem (last rows of its matrices are used as work space),
the work spaces and the partially condensed problem -/
def partCondCond (sq : K → K) (P P2 : OcpQp K) (args : ℕ → CondArg) (ws : ℕ → CondWs K) (bs : ℕ → ℕ) : PcSt K :=
  loop (P2.dim.N + 1) (partCondStep sq args bs) ⟨P, ws, P2, 0⟩

/-- PART_COND_QP_ARG_SET_DEFAULT, cond/x_part_cond.c:210-230 -/
def partCondArgDefault (N2 : ℕ) : ℕ → CondArg := fun ii => { condArgDefault with cond_last_stage := decide (ii = N2) }

end

section
variable {K : Type*} [Field K] [LinearOrder K] [IsStrictOrderedRing K]

/-- the data of the caller's problem are kept: all of `A, B, b`, the lower triangle of the Hessian (the part the solver reads) -/
structure LowKept (qp : OcpQp K) (BAbt RSQrq : ℕ → Mat K) : Prop where
  ba : ∀ k r i, r < qp.dim.nu k + qp.dim.nx k → BAbt k r i = qp.BAbt k r i
  rs : ∀ k r c, r < qp.dim.nu k + qp.dim.nx k → c ≤ r → RSQrq k r c = qp.RSQrq k r c

/-- the condensing algorithm is applicable: the default algorithm, or the second one when the last condensed stage has no inputs
(its gradient is shifted otherwise, see `condAlg1_gradient_shifted`) and diagonal flags are truthful -/
def AlgOk (arg : CondArg) (qp : OcpQp K) (N : ℕ) : Prop :=
  arg.cond_alg = 0 ∨ N = 0 ∨ (qp.dim.nu N = 0 ∧ ∀ k, k ≤ N → DiagOk qp k)

/-- a target written by condensing the stages `0..N` of `qp` -/
structure TgtOk (qp : OcpQp K) (N : ℕ) (t : CondTgt K) : Prop where
  cost : ∃ c : K, ∀ v, ∑ k ∈ range (N + 1), stageCost qp k (uxOf qp N v k)
      = quadL (nvCond qp N) t.RSQrq2 0 v + (∑ c ∈ range (nvCond qp N), t.rqz2 c * v c) + c
  con : ∀ k j, k ≤ N → j < qp.dim.nb k + qp.dim.ng k → ∃ t0, ConFact qp N t0 t k j
  rev : ∀ k j, k ≤ N → j < qp.dim.nb k + qp.dim.ng k → t.idxs_rev2 (conPos qp N k j)
    = if qp.idxs_rev k j = -1 then -1 else (later qp.dim.ns N k : ℤ) + qp.idxs_rev k j
  slack : ∀ k i, k ≤ N → i < qp.dim.ns k → SlackFact qp N t k i

/-- soft-constraint indices of a target: `-1` where the source has no slack (true after creation, x_ocp_qp.c:227-236) -/
def RevFree (qp : OcpQp K) (N : ℕ) (t : CondTgt K) : Prop :=
  ∀ k j, k ≤ N → j < qp.dim.nb k + qp.dim.ng k → qp.idxs_rev k j = -1 → t.idxs_rev2 (conPos qp N k j) = -1

theorem roll_kept (qp : OcpQp K) (m : ℕ) (B R : ℕ → Mat K) (h : LowKept qp B R) (N : ℕ) (v : Vec K) (k : ℕ) :
    roll { qp with dim := { qp.dim with N := m }, BAbt := B, RSQrq := R } N v k = roll qp N v k := by
  induction k with
  | zero => rfl
  | succ k ih =>
    funext i
    show qp.b k i + (∑ j ∈ range (qp.dim.nu k), B k j i * v (later qp.dim.nu N k + j))
      + ∑ j ∈ range (qp.dim.nx k), B k (qp.dim.nu k + j) i * roll _ N v k j = _
    rw [ih]
    show _ = qp.b k i + (∑ j ∈ range (qp.dim.nu k), qp.BAbt k j i * v (later qp.dim.nu N k + j))
      + ∑ j ∈ range (qp.dim.nx k), qp.BAbt k (qp.dim.nu k + j) i * roll qp N v k j
    congr 1
    · congr 1
      exact sum_congr rfl fun j hj => by rw [h.ba k j i (by have := mem_range.mp hj; omega)]
    · exact sum_congr rfl fun j hj => by rw [h.ba k (qp.dim.nu k + j) i (by have := mem_range.mp hj; omega)]

theorem uxOf_kept (qp : OcpQp K) (m : ℕ) (B R : ℕ → Mat K) (h : LowKept qp B R) (N : ℕ) (v : Vec K) (k : ℕ) :
    uxOf { qp with dim := { qp.dim with N := m }, BAbt := B, RSQrq := R } N v k = uxOf qp N v k := by
  funext j
  unfold uxOf
  rw [roll_kept qp m B R h N v k]

theorem stageCost_kept (qp : OcpQp K) (m : ℕ) (B R : ℕ → Mat K) (h : LowKept qp B R) (k : ℕ) (z : Vec K) :
    stageCost { qp with dim := { qp.dim with N := m }, BAbt := B, RSQrq := R } k z = stageCost qp k z := by
  unfold stageCost
  congr 1
  refine quadL_congr (fun i j hi hj => ?_) (fun _ _ => rfl)
  show R k (0 + i) (0 + j) = qp.RSQrq k (0 + i) (0 + j)
  rw [zero_add, zero_add]
  exact h.rs k i j hi hj

/-- the meaning of a condensed target does not depend on the rows used as work space, nor on the horizon field -/
theorem tgtOk_kept (qp : OcpQp K) (m : ℕ) (B R : ℕ → Mat K) (h : LowKept qp B R) (N : ℕ) (t : CondTgt K)
    (T : TgtOk { qp with dim := { qp.dim with N := m }, BAbt := B, RSQrq := R } N t) : TgtOk qp N t := by
  refine ⟨?_, fun k j hk hj => ?_, T.rev, fun k i hk hi => ?_⟩
  · obtain ⟨c, hc⟩ := T.cost
    refine ⟨c, fun v => ?_⟩
    refine Eq.trans ?_ (hc v)
    exact sum_congr rfl fun k _ => by rw [stageCost_kept qp m B R h, uxOf_kept qp m B R h]
  · obtain ⟨t0, f⟩ := T.con k j hk hj
    refine ⟨t0, fun v => ?_, fun v => ?_, f.ml, f.mu, f.tl, f.tu, f.rev, f.ix⟩
    · have := f.lo v
      rw [uxOf_kept qp m B R h] at this
      exact this
    · have := f.up v
      rw [uxOf_kept qp m B R h] at this
      exact this
  · have f := T.slack k i hk hi
    exact ⟨f.Zl, f.Zu, f.zl, f.zu, f.dl, f.du, f.kl, f.ku, f.ml, f.mu⟩

theorem vcp_in {α : Type*} {n : ℕ} {x : ℕ → α} {xi : ℕ} {y : ℕ → α} {yi i : ℕ} (h1 : yi ≤ i) (h2 : i < yi + n) :
    veccp n x xi y yi i = x (xi + (i - yi)) := by unfold veccp; rw [if_pos ⟨h1, h2⟩]
theorem vcp_out {α : Type*} {n : ℕ} {x : ℕ → α} {xi : ℕ} {y : ℕ → α} {yi i : ℕ} (h : i < yi ∨ yi + n ≤ i) :
    veccp n x xi y yi i = y i := by unfold veccp; rw [if_neg (by omega)]

theorem condRsqrq_frame (sq : K → K) (qp : OcpQp K) (arg : CondArg) (ws : CondWs K) (tg : CondTgt K) :
    (condRsqrq sq qp arg ws tg).1 = { qp with BAbt := (condRsqrq sq qp arg ws tg).1.BAbt, RSQrq := (condRsqrq sq qp arg ws tg).1.RSQrq } ∧
    (condRsqrq sq qp arg ws tg).2.1.Gamma = ws.Gamma ∧ (condRsqrq sq qp arg ws tg).2.1.Gammab = ws.Gammab ∧
    (condRsqrq sq qp arg ws tg).2.2.BAbt2 = tg.BAbt2 ∧ (condRsqrq sq qp arg ws tg).2.2.b2 = tg.b2 ∧
    (condRsqrq sq qp arg ws tg).2.2.idxs_rev2 = tg.idxs_rev2 := by
  unfold condRsqrq
  split
  · exact ⟨rfl, rfl, rfl, rfl, rfl, rfl⟩
  · dsimp only
    split
    · exact ⟨rfl, rfl, rfl, rfl, rfl, rfl⟩
    · split
      · exact ⟨rfl, rfl, rfl, rfl, rfl, rfl⟩
      · exact ⟨rfl, rfl, rfl, rfl, rfl, rfl⟩

/-- the cost of a target, whatever the algorithm -/
theorem condRsqrq_cost (sq : K → K) (qp : OcpQp K) (arg : CondArg) (hsq : arg.square_root_alg ≠ 0 → ∀ x, 0 < x → sq x * sq x = x) (ws : CondWs K)
    (tg : CondTgt K) (N n : ℕ) (htop : condTop qp.dim.N arg = some N) (halg : AlgOk arg qp N)
    (hn : 0 < N → N ≤ n ∧ n ≤ N + 1 ∧ DynRec qp n ws.Gamma ws.Gammab ∧ DynRow qp n ws.Gamma ws.Gammab) :
    (∃ c : K, ∀ v, ∑ k ∈ range (N + 1), stageCost qp k (uxOf qp N v k)
      = quadL (nvCond qp N) (condRsqrq sq qp arg ws tg).2.2.RSQrq2 0 v
        + (∑ c ∈ range (nvCond qp N), (condRsqrq sq qp arg ws tg).2.2.rqz2 c * v c) + c)
    ∧ LowKept qp (condRsqrq sq qp arg ws tg).1.BAbt (condRsqrq sq qp arg ws tg).1.RSQrq := by
  by_cases hN : N = 0
  · subst hN
    have e : condRsqrq sq qp arg ws tg = (qp, ws, { tg with
        RSQrq2 := gecp (qp.dim.nu 0 + qp.dim.nx 0) (qp.dim.nu 0 + qp.dim.nx 0) (qp.RSQrq 0) 0 0 tg.RSQrq2 0 0,
        rqz2 := veccp (qp.dim.nu 0 + qp.dim.nx 0) (qp.rqz 0) 0 tg.rqz2 0 }) := by
      unfold condRsqrq; rw [htop]; dsimp only; rw [if_pos rfl]
    rw [e]
    refine ⟨⟨0, fun v => ?_⟩, ⟨fun _ _ _ _ => rfl, fun _ _ _ _ _ => rfl⟩⟩
    have en : nvCond qp 0 = qp.dim.nu 0 + qp.dim.nx 0 := by unfold nvCond nuAll; simp
    rw [sum_range_one, add_zero, en]
    unfold stageCost
    have hz : ∀ j, j < qp.dim.nu 0 + qp.dim.nx 0 → uxOf qp 0 v 0 j = v j := by
      intro j hj
      unfold uxOf
      split
      · rw [later_self, zero_add]
      · show v (nuAll qp.dim 0 + _) = _
        unfold nuAll
        rw [sum_range_one]; congr 1; omega
    congr 1
    · refine quadL_congr (fun i j hi hj => ?_) hz
      dsimp only
      rw [gecp_in (by omega) (by omega) (by omega) (by omega)]; congr 1 <;> omega
    · refine sum_congr rfl fun c hc => ?_
      have hc := mem_range.mp hc
      dsimp only
      rw [hz c hc, vcp_in (by omega) (by omega)]; congr 2; omega
  · obtain ⟨h1, h2, h3, h4⟩ := hn (by omega)
    by_cases ha : arg.cond_alg = 0
    · obtain ⟨c, d⟩ := condRsqrq_alg0 sq qp arg hsq ws tg N n htop (by omega) ha h1 h2 h3 h4
      exact ⟨c, ⟨d.ba, fun k r c hr _ => d.rs k r c hr⟩⟩
    · rcases halg with h | h | ⟨h, hd⟩
      · exact absurd h ha
      · exact absurd h hN
      · obtain ⟨⟨c, hc⟩, hg, hl, hb⟩ := condRsqrq_alg1 sq qp arg ws tg N n htop (by omega) ha h1 h2 h3 h4 hd
        refine ⟨⟨c, fun v => ?_⟩, ⟨fun k r i _ => by rw [hb], hl⟩⟩
        rw [hc v]
        congr 2
        refine sum_congr rfl fun i hi => ?_
        have hi := mem_range.mp hi
        rw [hg i (by rw [h]; exact hi), h, zero_add]

theorem conPos_one (qp : OcpQp K) (j : ℕ) (hj : j < qp.dim.nb 0 + qp.dim.ng 0) : conPos qp 0 0 j = j := by
  have hs : ∀ j, StaysBox qp 0 j := fun j => Or.inl rfl
  have hc : ∀ n, Nat.count (StaysBox qp 0) n = n := by
    intro n
    induction n with
    | zero => rfl
    | succ n ih => rw [Nat.count_succ, ih, if_pos (hs n)]
  have hc' : ∀ n, Nat.count (fun j => ¬ StaysBox qp 0 j) n = 0 := by
    intro n
    induction n with
    | zero => rfl
    | succ n ih => rw [Nat.count_succ, ih, if_neg (not_not.mpr (hs n))]
  unfold conPos
  rw [if_pos (hs j), later_self, later_self, hc]
  unfold nbCond nbgCond nBox nGen
  rw [sum_range_one, sum_range_one, hc, hc']
  split <;> omega

theorem nCond_one (qp : OcpQp K) : nbCond qp 0 = qp.dim.nb 0 ∧ ntCond qp 0 = qp.dim.nb 0 + qp.dim.ng 0 := by
  have hs : ∀ j, StaysBox qp 0 j := fun j => Or.inl rfl
  have hc : ∀ n, Nat.count (StaysBox qp 0) n = n := by
    intro n
    induction n with
    | zero => rfl
    | succ n ih => rw [Nat.count_succ, ih, if_pos (hs n)]
  have hc' : ∀ n, Nat.count (fun j => ¬ StaysBox qp 0 j) n = 0 := by
    intro n
    induction n with
    | zero => rfl
    | succ n ih => rw [Nat.count_succ, ih, if_neg (not_not.mpr (hs n))]
  unfold ntCond nbCond ngCond nbgCond nBox nGen ngAll
  rw [sum_range_one, sum_range_one, sum_range_one, hc, hc']
  exact ⟨rfl, by omega⟩

/-- a single stage with its last stage condensed is copied -/
theorem condDctd_copy (qp : OcpQp K) (arg : CondArg) (ws : CondWs K) (t0 : CondTgt K) (htop : condTop qp.dim.N arg = some 0)
    (hl : arg.cond_last_stage = true) (hr : RangeOk qp 0) (hf : RevFree qp 0 t0) : Condensed qp 0 t0 (condDctd qp arg ws t0).2 := by
  obtain ⟨eb, et⟩ := nCond_one qp
  have env : nvCond qp 0 = qp.dim.nu 0 + qp.dim.nx 0 := by unfold nvCond nuAll; simp
  have ens : nsAll qp.dim 0 = qp.dim.ns 0 := by unfold nsAll; simp
  have hz : ∀ v j, j < qp.dim.nu 0 + qp.dim.nx 0 → uxOf qp 0 v 0 j = v j := by
    intro v j hj
    unfold uxOf
    split
    · rw [later_self, zero_add]
    · show v (nuAll qp.dim 0 + _) = _
      unfold nuAll
      rw [sum_range_one]; congr 1; omega
  unfold condDctd
  rw [htop]
  dsimp only
  rw [if_pos ⟨rfl, hl⟩]
  dsimp only
  have hval : ∀ v j, j < qp.dim.nb 0 + qp.dim.ng 0 →
      tval (⟨t0.BAbt2, t0.b2, t0.RSQrq2, t0.rqz2, gecp (qp.dim.nu 0 + qp.dim.nx 0) (qp.dim.ng 0) (qp.DCt 0) 0 0 t0.DCt2 0 0, t0.d2, t0.d_mask2,
        t0.m2, t0.Z2, veccp (qp.dim.nb 0) (qp.idxb 0) 0 t0.idxb2 0, t0.idxs_rev2⟩ : CondTgt K) (qp.dim.nb 0) (qp.dim.nu 0 + qp.dim.nx 0) v j
        = cval qp 0 (uxOf qp 0 v 0) j := by
    intro v j hj
    unfold tval cval
    by_cases hb : j < qp.dim.nb 0
    · rw [if_pos hb, if_pos hb]
      dsimp only
      rw [vcp_in (by omega) (by omega), hz v _ (hr.ib 0 _ (le_refl 0) (by omega))]
      congr 2; omega
    · rw [if_neg hb, if_neg hb]
      refine sum_congr rfl fun i hi => ?_
      have hi := mem_range.mp hi
      dsimp only
      rw [hz v i hi, gecp_in (by omega) (by omega) (by omega) (by omega)]
      congr 2 <;> omega
  refine ⟨fun k j hk hj => ?_, fun k i hk hi => ?_, fun i hi => ?_, rfl, rfl, rfl⟩
  · obtain rfl : k = 0 := by omega
    refine ⟨fun v => ?_, fun v => ?_, ?_, ?_, ?_, ?_, ?_, fun hp => ?_⟩ <;> rw [conPos_one qp j hj]
    · dsimp only
      rw [eb, env, vcp_in (by omega) (by omega)]
      have := hval v j hj
      unfold tval at this ⊢
      dsimp only at this ⊢
      rw [this]; congr 2; omega
    · dsimp only
      rw [eb, env, et, vcp_in (by omega) (by omega)]
      have := hval v j hj
      unfold tval at this ⊢
      dsimp only at this ⊢
      rw [this]; congr 2; omega
    · dsimp only; rw [vcp_in (by omega) (by omega)]; congr 1; omega
    · dsimp only; rw [et, vcp_in (by omega) (by omega)]; congr 1; omega
    · dsimp only; rw [vcp_in (by omega) (by omega)]; congr 1; omega
    · dsimp only; rw [et, vcp_in (by omega) (by omega)]; congr 1; omega
    · dsimp only
      rw [vcp_in (by omega) (by omega), later_self, show 0 + (j - 0) = j by omega]
      rcases hr.ir 0 j (le_refl 0) hj with h | ⟨h, _⟩
      · rw [if_neg (by omega), h]
        have := hf 0 j (le_refl 0) hj h
        rw [conPos_one qp j hj] at this
        exact this.symm
      · rw [if_pos h]; simp
    · rw [conPos_one qp j hj, eb] at hp
      dsimp only
      rw [vcp_in (by omega) (by omega), env]
      have := hr.ib 0 (0 + (j - 0)) (le_refl 0) (by omega)
      exact this
  · obtain rfl : k = 0 := by omega
    constructor <;> dsimp only <;> rw [later_self] <;> (try simp only [env, ens, et]) <;> rw [vcp_in (by omega) (by omega)] <;> congr 1 <;> omega
  · dsimp only
    rw [vcp_out (by omega)]

theorem condTop_cases {M : ℕ} {arg : CondArg} {N : ℕ} (h : condTop M arg = some N) :
    (arg.cond_last_stage = true ∧ N = M) ∨ (arg.cond_last_stage = false ∧ M = N + 1) := by
  unfold condTop at h
  by_cases h1 : arg.cond_last_stage = true
  · rw [if_pos h1] at h; exact Or.inl ⟨h1, (Option.some.inj h).symm⟩
  · rw [if_neg h1] at h
    by_cases h2 : M = 0
    · rw [if_pos h2] at h; exact absurd h (by simp)
    · rw [if_neg h2] at h
      exact Or.inr ⟨by simpa using h1, by have := Option.some.inj h; omega⟩

/-- condensing one block -/
theorem condBlock_ok (sq : K → K) (qp : OcpQp K) (arg : CondArg) (hsq : arg.square_root_alg ≠ 0 → ∀ x, 0 < x → sq x * sq x = x) (ws : CondWs K)
    (tg : CondTgt K) (N : ℕ) (htop : condTop qp.dim.N arg = some N) (halg : AlgOk arg qp N) (hr : RangeOk qp N) (hf : RevFree qp N tg) :
    TgtOk qp N (condBlock sq qp arg ws tg).2.2 ∧
    LowKept qp (condBlock sq qp arg ws tg).1.BAbt (condBlock sq qp arg ws tg).1.RSQrq ∧
    (condBlock sq qp arg ws tg).2.2.b2 = (condBabt qp arg ws tg).2.b2 ∧
    (condBlock sq qp arg ws tg).2.2.BAbt2 = (condBabt qp arg ws tg).2.BAbt2 := by
  have hcase := condTop_cases htop
  -- the work space
  have hd : 0 < qp.dim.N → DynRec qp qp.dim.N (condBabt qp arg ws tg).1.Gamma (condBabt qp arg ws tg).1.Gammab ∧
      DynRow qp qp.dim.N (condBabt qp arg ws tg).1.Gamma (condBabt qp arg ws tg).1.Gammab := condBabt_dyn qp arg ws tg
  have hrev : (condBabt qp arg ws tg).2.idxs_rev2 = tg.idxs_rev2 := by
    unfold condBabt; simp only; split
    · rfl
    · split <;> rfl
  unfold condBlock
  dsimp only
  generalize condBabt qp arg ws tg = r at hd hrev
  obtain ⟨⟨c, hc⟩, hk⟩ := condRsqrq_cost sq qp arg hsq r.1 r.2 N qp.dim.N htop halg (fun h => by
    have h0 := hd (by omega)
    exact ⟨by omega, by omega, h0.1, h0.2⟩)
  obtain ⟨f1, f2, f3, f4, f5, f6⟩ := condRsqrq_frame sq qp arg r.1 r.2
  generalize condRsqrq sq qp arg r.1 r.2 = r2 at hc hk f1 f2 f3 f4 f5 f6
  obtain ⟨qp', w2, t2⟩ := r2
  dsimp only at hc hk f1 f2 f3 f4 f5 f6 ⊢
  -- the constraints
  have htop' : condTop qp'.dim.N arg = some N := by rw [f1]; exact htop
  have hr' : RangeOk qp' N := by rw [f1]; exact ⟨hr.ib, hr.ir⟩
  have hrv : RevFree qp' N t2 := by
    rw [f1]
    intro k j hk hj h
    rw [f6, hrev]
    exact hf k j hk hj h
  have hC : Condensed qp' N t2 (condDctd qp' arg w2 t2).2 := by
    by_cases h0 : N = 0 ∧ arg.cond_last_stage = true
    · obtain ⟨rfl, h0⟩ := h0
      exact condDctd_copy qp' arg w2 t2 htop' h0 hr' hrv
    · refine condDctd_general qp' arg w2 t2 N htop' h0 hr'.ib ?_
      intro v k i hkN hi
      rw [f1] at hi ⊢
      refine (congrFun (roll_kept qp qp.dim.N _ _ hk N v (k + 1)) i).trans ?_
      rw [f2, f3]
      have hd := (hd (by omega)).1
      have := dyn_sem hd (show qp.dim.N ≤ N + 1 by omega) v k i (by omega) hi
      exact this
  have hT : TgtOk qp' N (condDctd qp' arg w2 t2).2 := by
    refine ⟨⟨c, fun v => ?_⟩, fun k j hk hj => ⟨t2, hC.con k j hk hj⟩, fun k j hk hj => ?_, hC.slack⟩
    · have e : ∑ k ∈ range (N + 1), stageCost qp' k (uxOf qp' N v k) = ∑ k ∈ range (N + 1), stageCost qp k (uxOf qp N v k) := by
        rw [f1]
        refine sum_congr rfl fun k _ => ?_
        have h1 := stageCost_kept qp qp.dim.N _ _ hk k
        have h2 := uxOf_kept qp qp.dim.N _ _ hk N v k
        exact (h1 _).trans (congrArg _ h2)
      have env : nvCond qp' N = nvCond qp N := by rw [f1]; rfl
      rw [e, hc v, hC.h, env]
      congr 2
      exact sum_congr rfl fun i hi => by rw [hC.g i (by rw [env]; exact mem_range.mp hi)]
    · rw [(hC.con k j hk hj).rev]
      rcases hr'.ir k j hk hj with h | ⟨h, _⟩
      · rw [if_neg (by omega), if_pos h]; exact hrv k j hk hj h
      · rw [if_pos h, if_neg (by omega)]
  refine ⟨?_, hk, hC.b.trans f5, hC.a.trans f4⟩
  refine tgtOk_kept qp qp.dim.N qp'.BAbt qp'.RSQrq hk N _ ?_
  revert hT
  generalize (condDctd qp' arg w2 t2).2 = t3
  intro hT
  generalize qp'.BAbt = B at *
  generalize qp'.RSQrq = R at *
  subst f1
  exact hT

/-! ### partial condensing -/

theorem tgtOf_putTgt (P2 : OcpQp K) (ii : ℕ) (t : CondTgt K) : tgtOf (putTgt P2 ii t) ii = t := by
  unfold tgtOf putTgt; simp only [upd_same]

theorem tgtOf_putTgt_ne (P2 : OcpQp K) (ii jj : ℕ) (t : CondTgt K) (h : jj ≠ ii) : tgtOf (putTgt P2 ii t) jj = tgtOf P2 jj := by
  unfold tgtOf putTgt; simp only [upd_ne _ _ h]

theorem lowKept_trans {qp : OcpQp K} {B R B' R' : ℕ → Mat K} (h : LowKept qp B R)
    (h' : LowKept { qp with BAbt := B, RSQrq := R } B' R') : LowKept qp B' R' :=
  ⟨fun k r i hr => (h'.ba k r i hr).trans (h.ba k r i hr), fun k r c hr hc => (h'.rs k r c hr hc).trans (h.rs k r c hr hc)⟩

/-- what the caller of partial condensing provides -/
structure PcOk (P : OcpQp K) (args : ℕ → CondArg) (bs : ℕ → ℕ) (N2 : ℕ) : Prop where
  wf : P.WF
  pos : ∀ ii, ii < N2 → 0 < bs ii
  sum : stOff bs (N2 + 1) = P.dim.N
  mid : ∀ ii, ii < N2 → (args ii).cond_last_stage = false
  last : (args N2).cond_last_stage = true
  alg : ∀ ii, ii ≤ N2 → AlgOk (args ii) (shiftQp P (stOff bs ii)) (if ii = N2 then bs ii else bs ii - 1)

/-- number of stages of a block: the last block includes the terminal stage -/
def blkLen (bs : ℕ → ℕ) (N2 : ℕ) : ℕ → ℕ := fun ii => if ii = N2 then bs ii + 1 else bs ii

/-- block `ii` of the caller's problem has been condensed into stage `ii` of `P2` -/
def BlkDone (P P2 : OcpQp K) (bs : ℕ → ℕ) (N2 ii : ℕ) : Prop :=
  TgtOk (shiftQp P (stOff bs ii)) (blkLen bs N2 ii - 1) (tgtOf P2 ii) ∧
  (ii < N2 → ∀ v i, i < P.dim.nx (stOff bs (ii + 1)) →
    roll (shiftQp P (stOff bs ii)) (bs ii - 1) v (bs ii) i = (tgtOf P2 ii).b2 i
      + ∑ r ∈ range (nvCond (shiftQp P (stOff bs ii)) (bs ii - 1)), (tgtOf P2 ii).BAbt2 r i * v r)

structure PcInv (P P2 : OcpQp K) (bs : ℕ → ℕ) (N2 : ℕ) (n : ℕ) (s : PcSt K) : Prop where
  off : s.N_tmp = stOff bs n
  dim : s.P2.dim = P2.dim
  same : s.P = { P with BAbt := s.P.BAbt, RSQrq := s.P.RSQrq }
  kept : LowKept P s.P.BAbt s.P.RSQrq
  fresh : ∀ ii, n ≤ ii → tgtOf s.P2 ii = tgtOf P2 ii
  done : ∀ ii, ii < n → BlkDone P s.P2 bs N2 ii

theorem blkDone_congr {P P2 P2' : OcpQp K} {bs : ℕ → ℕ} {N2 ii : ℕ} (h : tgtOf P2' ii = tgtOf P2 ii) (d : BlkDone P P2 bs N2 ii) :
    BlkDone P P2' bs N2 ii := by
  unfold BlkDone at *; rw [h]; exact d

theorem stOff_add_le (bs : ℕ → ℕ) {ii n : ℕ} (h : ii < n) : stOff bs ii + bs ii ≤ stOff bs n := by
  have := stOff_mono bs (show ii + 1 ≤ n by omega)
  rw [stOff_succ] at this
  exact this

theorem pc_range {P : OcpQp K} {args : ℕ → CondArg} {bs : ℕ → ℕ} {N2 : ℕ} (h : PcOk P args bs N2) {ii : ℕ} (hi : ii ≤ N2) :
    RangeOk (shiftQp P (stOff bs ii)) (blkLen bs N2 ii - 1) := by
  have h1 : stOff bs ii + bs ii ≤ P.dim.N := by rw [← h.sum]; exact stOff_add_le bs (by omega)
  have h2 : blkLen bs N2 ii - 1 ≤ bs ii := by unfold blkLen; split <;> omega
  exact ⟨fun k j hk hj => h.wf.1 _ j (by omega) hj, fun k j hk hj => h.wf.2 _ j (by omega) hj⟩

theorem withBR {P P' : OcpQp K} (h : P' = { P with BAbt := P'.BAbt, RSQrq := P'.RSQrq }) (B R : ℕ → Mat K) :
    ({ P' with BAbt := B, RSQrq := R } : OcpQp K) = { P with BAbt := B, RSQrq := R } := by
  rw [h]

theorem partCondStep_inv (sq : K → K) (hsq : ∀ x, 0 < x → sq x * sq x = x) {P P2 : OcpQp K} {args : ℕ → CondArg} {bs : ℕ → ℕ} {N2 : ℕ}
    (h : PcOk P args bs N2) (hf : ∀ ii, ii ≤ N2 → RevFree (shiftQp P (stOff bs ii)) (blkLen bs N2 ii - 1) (tgtOf P2 ii))
    (n : ℕ) (hn : n ≤ N2) (s : PcSt K) (I : PcInv P P2 bs N2 n s) :
    PcInv P P2 bs N2 (n + 1) (partCondStep sq args bs n s) := by
  set qb := blockQp s.P s.N_tmp (bs n) with hqb
  set N := blkLen bs N2 n - 1 with hN
  have eN : N = if n = N2 then bs n else bs n - 1 := by rw [hN]; unfold blkLen; split <;> omega
  have hb0 : n ≠ N2 → 0 < bs n := fun hne => h.pos n (by omega)
  have hqs : qb = { shiftQp P (stOff bs n) with
      dim := { (shiftQp P (stOff bs n)).dim with N := bs n },
      BAbt := fun k => s.P.BAbt (stOff bs n + k), RSQrq := fun k => s.P.RSQrq (stOff bs n + k) } := by
    rw [hqb, I.off, I.same]; rfl
  have hk0 : LowKept (shiftQp P (stOff bs n)) (fun k => s.P.BAbt (stOff bs n + k)) (fun k => s.P.RSQrq (stOff bs n + k)) :=
    ⟨fun k r i hr => I.kept.ba _ r i hr, fun k r c hr hc => I.kept.rs _ r c hr hc⟩
  have htop : condTop qb.dim.N (args n) = some N := by
    have : qb.dim.N = bs n := rfl
    rw [this, eN]
    unfold condTop
    by_cases hh : n = N2
    · subst hh; rw [if_pos h.last, if_pos rfl]
    · have := hb0 hh
      rw [if_neg (by rw [h.mid n (by omega)]; simp), if_neg (by omega), if_neg hh]
  have hrange : RangeOk qb N := by rw [hqs]; exact ⟨(pc_range h hn).ib, (pc_range h hn).ir⟩
  have halg : AlgOk (args n) qb N := by
    have ha := h.alg n hn
    rw [← eN] at ha
    rcases ha with ha | ha | ⟨ha, hd⟩
    · exact Or.inl ha
    · exact Or.inr (Or.inl ha)
    · refine Or.inr (Or.inr ⟨?_, fun k hk => ?_⟩)
      · rw [hqs]; exact ha
      · rw [hqs]
        intro hfl
        obtain ⟨d1, d2⟩ := hd k hk hfl
        refine ⟨fun i j hi hj => ?_, fun i j hi hj => ?_⟩
        · exact (hk0.rs k _ _ (by have : i < (shiftQp P (stOff bs n)).dim.nx k := hi; show (shiftQp P (stOff bs n)).dim.nu k + i < _; omega)
            (by show (shiftQp P (stOff bs n)).dim.nu k + j ≤ (shiftQp P (stOff bs n)).dim.nu k + i; omega)).trans (d1 i j hi hj)
        · exact (hk0.rs k _ _ (by have : i < (shiftQp P (stOff bs n)).dim.nx k := hi; show (shiftQp P (stOff bs n)).dim.nu k + i < _; omega)
            (by have : j < (shiftQp P (stOff bs n)).dim.nu k := hj; show j ≤ (shiftQp P (stOff bs n)).dim.nu k + i; omega)).trans (d2 i j hi hj)
  have hfree : RevFree qb N (tgtOf s.P2 n) := by
    rw [I.fresh n (le_refl n), hqs]
    exact hf n hn
  obtain ⟨T, kp, eb, ea⟩ := condBlock_ok sq qb (args n) (fun _ => hsq) (s.ws n) (tgtOf s.P2 n) N htop halg hrange hfree
  have T' : TgtOk (shiftQp P (stOff bs n)) N (condBlock sq qb (args n) (s.ws n) (tgtOf s.P2 n)).2.2 := by
    refine tgtOk_kept _ (bs n) _ _ hk0 N _ ?_
    rw [← hqs]; exact T
  have enx : n < N2 → roll qb N = roll (shiftQp P (stOff bs n)) N := by
    intro _
    funext v k
    rw [hqs]
    exact roll_kept _ (bs n) _ _ hk0 N v k
  have hstep : partCondStep sq args bs n s = ⟨{ s.P with
      BAbt := fun k => if s.N_tmp ≤ k then (condBlock sq qb (args n) (s.ws n) (tgtOf s.P2 n)).1.BAbt (k - s.N_tmp) else s.P.BAbt k,
      RSQrq := fun k => if s.N_tmp ≤ k then (condBlock sq qb (args n) (s.ws n) (tgtOf s.P2 n)).1.RSQrq (k - s.N_tmp) else s.P.RSQrq k },
      upd s.ws n (condBlock sq qb (args n) (s.ws n) (tgtOf s.P2 n)).2.1, putTgt s.P2 n (condBlock sq qb (args n) (s.ws n) (tgtOf s.P2 n)).2.2,
      s.N_tmp + bs n⟩ := rfl
  rw [hstep]
  refine ⟨?_, ?_, ?_, ?_, ?_, ?_⟩
  · show s.N_tmp + bs n = _; rw [I.off, stOff_succ]
  · exact I.dim
  · exact withBR I.same _ _
  · constructor
    · intro k r i hr
      show (if s.N_tmp ≤ k then _ else _ : Mat K) r i = _
      by_cases hk : s.N_tmp ≤ k
      · rw [if_pos hk]
        rw [kp.ba (k - s.N_tmp) r i (by rw [hqs, I.off]; show r < P.dim.nu (stOff bs n + (k - stOff bs n)) + P.dim.nx (stOff bs n + (k - stOff bs n)); rw [I.off] at hk; rw [Nat.add_sub_cancel' hk]; exact hr)]
        rw [hqs]
        show s.P.BAbt (stOff bs n + (k - s.N_tmp)) r i = _
        rw [I.off] at hk ⊢
        rw [Nat.add_sub_cancel' hk]; exact I.kept.ba k r i hr
      · rw [if_neg hk]; exact I.kept.ba k r i hr
    · intro k r c hr hc
      show (if s.N_tmp ≤ k then _ else _ : Mat K) r c = _
      by_cases hk : s.N_tmp ≤ k
      · rw [if_pos hk]
        rw [kp.rs (k - s.N_tmp) r c (by rw [hqs, I.off]; show r < P.dim.nu (stOff bs n + (k - stOff bs n)) + P.dim.nx (stOff bs n + (k - stOff bs n)); rw [I.off] at hk; rw [Nat.add_sub_cancel' hk]; exact hr) hc]
        rw [hqs]
        show s.P.RSQrq (stOff bs n + (k - s.N_tmp)) r c = _
        rw [I.off] at hk ⊢
        rw [Nat.add_sub_cancel' hk]; exact I.kept.rs k r c hr hc
      · rw [if_neg hk]; exact I.kept.rs k r c hr hc
  · intro ii hii
    show tgtOf (putTgt _ _ _) ii = _
    rw [tgtOf_putTgt_ne _ _ _ _ (by omega)]
    exact I.fresh ii (by omega)
  · intro ii hii
    by_cases hh : ii = n
    · subst hh
      unfold BlkDone
      dsimp only
      rw [tgtOf_putTgt]
      refine ⟨T', fun hlt v i hi => ?_⟩
      have hne : ii ≠ N2 := by omega
      have hbp := hb0 hne
      rw [if_neg hne] at eN
      rw [← eN, ← enx hlt]
      have hx := condBabt_next qb (args ii) (s.ws ii) (tgtOf s.P2 ii) N (by show bs ii = N + 1; omega) (h.mid ii hlt) v i
        (by rw [hqs]; show i < P.dim.nx (stOff bs ii + (N + 1)); rw [show N + 1 = bs ii by omega, ← stOff_succ]; exact hi)
      rw [show N + 1 = bs ii by omega] at hx
      rw [hx, eb, ea]
      congr 1
      have e1 : nuAll qb.dim N + qb.dim.nx 0 = nvCond (shiftQp P (stOff bs ii)) N := by rw [hqs]; rfl
      rw [e1]
    · exact blkDone_congr (tgtOf_putTgt_ne _ _ _ _ hh) (I.done ii (by omega))

/-- sizes of a condensed problem (`P2.dim` as computed by PART_COND_QP_COMPUTE_DIM, see `partCond_dims`) -/
structure PcDims (P P2 : OcpQp K) (bs : ℕ → ℕ) : Prop where
  nu : ∀ ii, ii ≤ P2.dim.N → P2.dim.nu ii = nuAll (shiftQp P (stOff bs ii)).dim (blkLen bs P2.dim.N ii - 1)
  nx : ∀ ii, ii ≤ P2.dim.N → P2.dim.nx ii = P.dim.nx (stOff bs ii)
  nb : ∀ ii, ii ≤ P2.dim.N → P2.dim.nb ii = nbCond (shiftQp P (stOff bs ii)) (blkLen bs P2.dim.N ii - 1)
  ng : ∀ ii, ii ≤ P2.dim.N → P2.dim.ng ii = ngCond (shiftQp P (stOff bs ii)) (blkLen bs P2.dim.N ii - 1)
  ns : ∀ ii, ii ≤ P2.dim.N → P2.dim.ns ii = nsAll (shiftQp P (stOff bs ii)).dim (blkLen bs P2.dim.N ii - 1)

theorem stOff_blkLen (bs : ℕ → ℕ) (N2 : ℕ) : ∀ ii, ii ≤ N2 → stOff (blkLen bs N2) ii = stOff bs ii := by
  intro ii
  induction ii with
  | zero => intro _; rfl
  | succ n ih =>
    intro hn
    rw [stOff_succ, stOff_succ, ih (by omega)]
    congr 1
    exact if_neg (by omega)

theorem partCond_inv (sq : K → K) (hsq : ∀ x, 0 < x → sq x * sq x = x) {P P2 : OcpQp K} {args : ℕ → CondArg} {bs : ℕ → ℕ}
    (h : PcOk P args bs P2.dim.N) (ws : ℕ → CondWs K)
    (hf : ∀ ii, ii ≤ P2.dim.N → RevFree (shiftQp P (stOff bs ii)) (blkLen bs P2.dim.N ii - 1) (tgtOf P2 ii)) :
    PcInv P P2 bs P2.dim.N (P2.dim.N + 1) (partCondCond sq P P2 args ws bs) := by
  unfold partCondCond
  refine loop_inv (fun n (s : PcSt K) => PcInv P P2 bs P2.dim.N n s) _ _ _ ?_ ?_
  · exact ⟨rfl, rfl, rfl, ⟨fun _ _ _ _ => rfl, fun _ _ _ _ _ => rfl⟩, fun _ _ => rfl, fun ii h => by omega⟩
  · intro n s hn I
    exact partCondStep_inv sq hsq h hf n (by omega) s I

/-- the problem written by partial condensing is the condensed form of the caller's problem -/
theorem partCond_condensed (sq : K → K) (hsq : ∀ x, 0 < x → sq x * sq x = x) {P P2 : OcpQp K} {args : ℕ → CondArg} {bs : ℕ → ℕ}
    (h : PcOk P args bs P2.dim.N) (hd : PcDims P P2 bs) (ws : ℕ → CondWs K)
    (hf : ∀ ii, ii ≤ P2.dim.N → RevFree (shiftQp P (stOff bs ii)) (blkLen bs P2.dim.N ii - 1) (tgtOf P2 ii)) :
    CondensedBy P (partCondCond sq P P2 args ws bs).P2 (blkLen bs P2.dim.N) := by
  have I := partCond_inv sq hsq h ws hf
  generalize (partCondCond sq P P2 args ws bs) = s at I
  have hpos : ∀ ii, ii ≤ P2.dim.N → 0 < blkLen bs P2.dim.N ii := by
    intro ii hi
    unfold blkLen
    split
    · omega
    · exact h.pos ii (by omega)
  have hoff := stOff_blkLen bs P2.dim.N
  refine ⟨?_, ?_, ?_, ?_⟩
  · rw [I.dim]; exact hpos
  · rw [I.dim, stOff_succ, hoff _ (le_refl _), ← h.sum, stOff_succ]
    unfold blkLen; rw [if_pos rfl]; omega
  · rw [I.dim]
    intro ii hi
    rw [hoff ii hi]
    obtain ⟨T, _⟩ := I.done ii (by omega)
    have e1 := hd.nu ii hi
    have e2 := hd.nx ii hi
    refine ⟨by rw [I.dim]; exact e1, by rw [I.dim]; exact e2, by rw [I.dim]; exact hd.nb ii hi, by rw [I.dim]; exact hd.ng ii hi,
      by rw [I.dim]; exact hd.ns ii hi, ?_, T.con, T.rev, T.slack⟩
    obtain ⟨c, hc⟩ := T.cost
    refine ⟨c, fun v => ?_⟩
    rw [hc v]
    congr 1
    have e : s.P2.dim.nu ii + s.P2.dim.nx ii = nvCond (shiftQp P (stOff bs ii)) (blkLen bs P2.dim.N ii - 1) := by
      rw [I.dim, e1, e2]; rfl
    unfold stageCost
    rw [e]
    rfl
  · rw [I.dim]
    intro ii hi v i hx
    rw [hoff ii (by omega)]
    rw [hoff (ii + 1) (by omega)] at hx
    obtain ⟨_, T⟩ := I.done ii (by omega)
    have hl : blkLen bs P2.dim.N ii = bs ii := if_neg (by omega)
    rw [hl, T hi v i hx, hd.nu ii (by omega), hd.nx ii (by omega), hl]
    rfl

/-- boxes are listed inputs first (idxbu fills the first `nbu` entries, idxbx the others: x_ocp_qp.c, setters `idxbu`, `idxbx`) -/
def SplitBox (P : OcpQp K) : Prop := ∀ k, k ≤ P.dim.N → P.dim.nb k = P.dim.nbx k + P.dim.nbu k ∧
  ∀ j, j < P.dim.nb k → (P.idxb k j < P.dim.nu k ↔ j < P.dim.nbu k)

theorem count_lt (p : ℕ → Prop) [DecidablePred p] (m n : ℕ) (h : ∀ j, j < n → (p j ↔ j < m)) : Nat.count p n = min n m := by
  induction n with
  | zero => simp
  | succ n ih =>
    rw [Nat.count_succ, ih (fun j hj => h j (by omega))]
    have := h n (by omega)
    by_cases hp : p n
    · rw [if_pos hp]; have := this.mp hp; omega
    · rw [if_neg hp]; have : ¬ n < m := fun h => hp (this.mpr h); omega

theorem nBox_split {P : OcpQp K} (h : SplitBox P) (s k : ℕ) (hk : s + (k + 1) ≤ P.dim.N) :
    nBox (shiftQp P s) (k + 1) = P.dim.nbu (s + (k + 1)) ∧ nGen (shiftQp P s) (k + 1) = P.dim.nbx (s + (k + 1)) := by
  obtain ⟨e, hs⟩ := h _ hk
  have h1 : nBox (shiftQp P s) (k + 1) = P.dim.nbu (s + (k + 1)) := by
    unfold nBox
    rw [count_lt _ (P.dim.nbu (s + (k + 1))) _ (fun j hj => ?_)]
    · show min (P.dim.nb (s + (k + 1))) _ = _; omega
    · have := hs j hj
      exact ⟨fun hb => this.mp (hb.resolve_left (by omega)), fun hb => Or.inr (this.mpr hb)⟩
  refine ⟨h1, ?_⟩
  have h2 : ∀ n, Nat.count (StaysBox (shiftQp P s) (k + 1)) n + Nat.count (fun j => ¬ StaysBox (shiftQp P s) (k + 1) j) n = n := by
    intro n
    induction n with
    | zero => rfl
    | succ n ih =>
      rw [Nat.count_succ, Nat.count_succ]
      by_cases hb : StaysBox (shiftQp P s) (k + 1) n
      · rw [if_pos hb, if_neg (not_not.mpr hb)]; omega
      · rw [if_neg hb, if_pos hb]; omega
  have h3 := h2 (P.dim.nb (s + (k + 1)))
  have h4 : Nat.count (StaysBox (shiftQp P s) (k + 1)) (P.dim.nb (s + (k + 1))) = P.dim.nbu (s + (k + 1)) := h1
  show Nat.count (fun j => ¬ StaysBox (shiftQp P s) (k + 1) j) (P.dim.nb (s + (k + 1))) = _
  omega

theorem nBox_zero (qp : OcpQp K) : nBox qp 0 = qp.dim.nb 0 ∧ nGen qp 0 = 0 := by
  have h := nCond_one qp
  have h1 : nbCond qp 0 = nBox qp 0 := by unfold nbCond; rw [sum_range_one]
  have h2 : ntCond qp 0 = nBox qp 0 + (nGen qp 0 + qp.dim.ng 0) := by
    unfold ntCond ngCond nbCond nbgCond ngAll; rw [sum_range_one, sum_range_one, sum_range_one]
  omega

/-- the plain view of the dimensions -/
def QpDim.dims (d : QpDim) : Dims := ⟨d.N, d.nx, d.nu, d.nb, d.nbx, d.nbu, d.ng, d.ns, d.nbxe, d.nbue, d.nge⟩

theorem stOff_blkOff (bs : ℕ → ℕ) (n : ℕ) : stOff bs n = blkOff bs n := by
  induction n with
  | zero => rfl
  | succ n ih => rw [stOff_succ, ih]; unfold blkOff; rw [sum_range_succ]

/-- the sizes computed by the library for partial condensing are the sizes of the condensed problem -/
theorem partCond_dims {P P2 : OcpQp K} {bs : ℕ → ℕ} (p0 : Dims) (hp0 : p0.N = P2.dim.N) (hd : P2.dim.dims = partCondDim P.dim.dims bs p0)
    (hs : SplitBox P) (hbs : ∀ ii, ii < P2.dim.N → 0 < bs ii) (hsum : stOff bs (P2.dim.N + 1) = P.dim.N) : PcDims P P2 bs := by
  have S := (partCondDim_spec P.dim.dims bs p0 (by rw [hp0]; exact hbs)).2
  rw [← hd, hp0] at S
  have e : (fun i => if i = P2.dim.N then bs i + 1 else bs i) = blkLen bs P2.dim.N := rfl
  dsimp only at S
  have hlen : ∀ ii, ii ≤ P2.dim.N → 0 < blkLen bs P2.dim.N ii ∧ stOff bs ii + (blkLen bs P2.dim.N ii - 1) ≤ P.dim.N := by
    intro ii hi
    have h1 : stOff bs ii + bs ii ≤ P.dim.N := by rw [← hsum]; exact stOff_add_le bs (by omega)
    unfold blkLen
    split
    · omega
    · have := hbs ii (by omega); omega
  refine ⟨fun ii hi => ?_, fun ii hi => ?_, fun ii hi => ?_, fun ii hi => ?_, fun ii hi => ?_⟩ <;>
    obtain ⟨a1, a2, a3, a4, a5, a6, a7⟩ := S ii hi <;> obtain ⟨l1, l2⟩ := hlen ii hi <;>
    rw [← stOff_blkOff] at *
  · refine (show P2.dim.nu ii = _ from a3).trans ?_
    unfold nuAll
    rw [show blkLen bs P2.dim.N ii - 1 + 1 = blkLen bs P2.dim.N ii by omega]
    rfl
  · exact a1
  · refine (show P2.dim.nb ii = _ from a5).trans ?_
    unfold nbCond
    rw [sum_range_succ', (nBox_zero _).1, add_comm]
    congr 1
    refine sum_congr rfl fun k hk => ?_
    have := mem_range.mp hk
    rw [(nBox_split hs _ k (by omega)).1]
    rfl
  · refine (show P2.dim.ng ii = _ from a6).trans ?_
    unfold ngCond nbgCond ngAll
    rw [sum_range_succ', (nBox_zero _).2, sum_range_succ' (fun k => (shiftQp P (stOff bs ii)).dim.ng k), sum_add_distrib]
    have : ∑ k ∈ range (blkLen bs P2.dim.N ii - 1), nGen (shiftQp P (stOff bs ii)) (k + 1)
        = ∑ k ∈ range (blkLen bs P2.dim.N ii - 1), P.dim.nbx (stOff bs ii + (k + 1)) :=
      sum_congr rfl fun k hk => (nBox_split hs _ k (by have := mem_range.mp hk; omega)).2
    rw [this]
    show P.dim.ng (stOff bs ii) + (∑ k ∈ range (blkLen bs P2.dim.N ii - 1), P.dim.ng (stOff bs ii + (k + 1)) + ∑ k ∈ range (blkLen bs P2.dim.N ii - 1), P.dim.nbx (stOff bs ii + (k + 1)))
      = _ + 0 + (∑ k ∈ range (blkLen bs P2.dim.N ii - 1), P.dim.ng (stOff bs ii + (k + 1)) + P.dim.ng (stOff bs ii))
    omega
  · refine (show P2.dim.ns ii = _ from a7).trans ?_
    unfold nsAll
    rw [show blkLen bs P2.dim.N ii - 1 + 1 = blkLen bs P2.dim.N ii by omega]
    rfl

end
end Hpipm
