/-
Re-solving with a stored factorisation (C27): after a factorise-and-solve, OCP_QP_SOLVE_KKT_STEP computes the Newton
step of any right-hand side with the same matrices.
-/
import Verif.KktConv

namespace Hpipm
open Finset
set_option linter.unusedSectionVars false

section
variable {K : Type*} [Field K] [LinearOrder K] [IsStrictOrderedRing K]

theorem upd_upd {α : Type*} (a : ℕ → α) (i : ℕ) (v w : α) : upd (upd a i v) i w = upd a i w := by
  funext j
  by_cases h : j = i
  · subst h; simp
  · rw [upd_ne _ _ h, upd_ne _ _ h, upd_ne _ _ h]

theorem rhsStage_val (qp : OcpQp K) (hwf : qp.WF) (reg : K) (G g : ℕ → Vec K) (k : ℕ) (hk : k ≤ qp.dim.N) (st : KktSt K)
    (hz : ∀ i, i < 2 * qp.dim.ns k → st.Zs k i = kZs qp reg G k i) :
    ∃ u t1 t2 t3, rhsStage qp G g k st =
        { st with
          ux := upd st.ux k u
          t1 := t1
          t2 := t2
          t3 := t3 } ∧
      (∀ i, i < qp.dim.nu k + qp.dim.nx k → u i = kg qp reg G g k i) ∧
      (∀ i, i < 2 * qp.dim.ns k → u (qp.dim.nu k + qp.dim.nx k + i) = kRh qp g k i) := by
  have hir := hir_of_wf hwf hk
  set nv := qp.dim.nu k + qp.dim.nx k with hnv
  set n := qp.dim.nb k + qp.dim.ng k with hn
  set u0 := veccp nv (qp.rqz k) 0 (st.ux k) 0 with hu0
  have hu0i : ∀ i, i < nv → u0 i = qp.rqz k i := by
    intro i hi
    rw [hu0, veccp, if_pos (by omega)]; simp
  -- the condensed vectors
  have key : ∃ u1 t1 t2 t3, (if qp.dim.ns k > 0 then
      let s := condSlacksS n (qp.dim.ns k) nv (qp.idxs_rev k) (qp.rqz k) (G k) (g k)
        { Zs := st.Zs k, du := u0, t0 := st.t0, t1 := st.t1, t2 := st.t2, t3 := st.t3 }
      { st with
        ux := upd st.ux k s.du
        t1 := s.t1
        t2 := s.t2
        t3 := s.t3 }
      else if n > 0 then { st with
        ux := upd st.ux k u0
        t1 := axpy n (-1) (g k) n (g k) 0 st.t1 0 }
      else { st with ux := upd st.ux k u0 }) =
        { st with
          ux := upd st.ux k u1
          t1 := t1
          t2 := t2
          t3 := t3 } ∧
      (∀ i, i < nv → u1 i = qp.rqz k i) ∧
      (∀ i, i < 2 * qp.dim.ns k → u1 (nv + i) = kRh qp g k i) ∧
      (∀ j, j < n → t1 j = kVt qp reg G g k j) := by
    by_cases hs : qp.dim.ns k > 0
    · simp only [if_pos hs]
      obtain ⟨h1, h2, h3⟩ := condSlacksS_val n (qp.dim.ns k) nv (qp.idxs_rev k) (qp.rqz k) (G k) (g k)
        { Zs := st.Zs k, du := u0, t0 := st.t0, t1 := st.t1, t2 := st.t2, t3 := st.t3 } hir
      refine ⟨_, _, _, _, rfl, fun i hi => by rw [h2 i hi]; exact hu0i i hi, h1, fun j hj => ?_⟩
      rw [h3 j hj]
      exact congrArg₂ (· - ·) (slkVt_congr (Z' := kZs qp reg G k) (R' := kRh qp g k) hir hz h1 0 (by omega) _ _ j hj)
        (slkVt_congr (Z' := kZs qp reg G k) (R' := kRh qp g k) hir hz h1 _ (le_refl _) _ _ j hj)
    · have hir' : ∀ j, j < n → qp.idxs_rev k j = -1 := by
        intro j hj
        rcases hir j hj with h | h
        · exact h
        · omega
      have hvt : ∀ j, j < n → kVt qp reg G g k j = g k j - g k (n + j) := by
        intro j hj
        simp [kVt, kVtZ, slkVt, hir' j hj, hn]
      simp only [if_neg hs]
      by_cases hn0 : n > 0
      · simp only [if_pos hn0]
        refine ⟨u0, _, st.t2, st.t3, rfl, hu0i, fun i hi => by omega, fun j hj => ?_⟩
        rw [axpy_in (by omega), hvt j hj]; simp; ring
      · simp only [if_neg hn0]
        exact ⟨u0, st.t1, st.t2, st.t3, rfl, hu0i, fun i hi => by omega, fun j hj => by omega⟩
  obtain ⟨u1, t1, t2, t3, he, k1, k2, k3⟩ := key
  have hun : rhsStage qp G g k st = (let s1 := { st with
          ux := upd st.ux k u1
          t1 := t1
          t2 := t2
          t3 := t3 }
      let du := s1.ux k
      let du := if qp.dim.nb k > 0 then vecad_sp (qp.dim.nb k) 1 s1.t1 0 (qp.idxb k) du 0 else du
      let du := if qp.dim.ng k > 0 then gemv_n nv (qp.dim.ng k) 1 (qp.DCt k) 0 0 s1.t1 (qp.dim.nb k) 1 du 0 du 0 else du
      { s1 with ux := upd s1.ux k du }) := by
    rw [← he]
    simp only [rhsStage, upd_same, upd_upd, ← hu0, ← hn, ← hnv]
  rw [hun]
  simp only [upd_same, upd_upd]
  set u2 := if qp.dim.nb k > 0 then vecad_sp (qp.dim.nb k) 1 t1 0 (qp.idxb k) u1 0 else u1 with hu2
  have hu2v : ∀ i, u2 i = u1 i + ∑ j ∈ range (qp.dim.nb k), if qp.idxb k j = i then t1 j else 0 := by
    intro i
    rw [hu2]
    by_cases h : qp.dim.nb k > 0
    · rw [if_pos h, vecad_sp]; simp
    · rw [if_neg h, show qp.dim.nb k = 0 by omega]; simp
  refine ⟨_, t1, t2, t3, rfl, fun i hi => ?_, fun i hi => ?_⟩
  · rw [kg, cvalT]
    have e1 : ∑ j ∈ range (qp.dim.nb k), (if qp.idxb k j = i then kVt qp reg G g k j else 0) =
        ∑ j ∈ range (qp.dim.nb k), if qp.idxb k j = i then t1 j else 0 :=
      sum_congr rfl (fun j hj => by rw [k3 j (by have := mem_range.mp hj; omega)])
    have e2 : ∑ j ∈ range (qp.dim.ng k), qp.DCt k i j * kVt qp reg G g k (qp.dim.nb k + j) =
        ∑ j ∈ range (qp.dim.ng k), qp.DCt k i j * t1 (qp.dim.nb k + j) :=
      sum_congr rfl (fun j hj => by rw [k3 _ (by have := mem_range.mp hj; omega)])
    rw [e1, e2]
    by_cases h : qp.dim.ng k > 0
    · rw [if_pos h, gemv_n_in (by omega), hu2v]
      simp only [Nat.sub_zero, zero_add, one_mul]
      rw [k1 i hi]; ring
    · rw [if_neg h, hu2v, k1 i hi, show qp.dim.ng k = 0 by omega]; simp
  · have hb : ∑ j ∈ range (qp.dim.nb k), (if qp.idxb k j = nv + i then t1 j else 0) = 0 := by
      apply sum_eq_zero
      intro j hj
      rw [if_neg]
      have := hwf.1 k j hk (mem_range.mp hj)
      omega
    have : u2 (nv + i) = kRh qp g k i := by rw [hu2v, hb, add_zero, k2 i hi]
    by_cases h : qp.dim.ng k > 0
    · rw [if_pos h, gemv_n_out (by omega), this]
    · rw [if_neg h, this]

/-- frame of the backward substitution at stage `k` -/
structure BFrame (k : ℕ) (st st' : KktSt K) : Prop where
  L : st'.L = st.L
  P : st'.P = st.P
  BAbt : st'.BAbt = st.BAbt
  RSQrq : st'.RSQrq = st.RSQrq
  Zs : st'.Zs = st.Zs
  Pb : st'.Pb = st.Pb
  ux : ∀ q, q ≠ k → st'.ux q = st.ux q

/-- the right-hand side of stage `k` has been substituted; `n` eliminated variables -/
structure SubOk (qp : OcpQp K) (n : ℕ) (L : Mat K) (m rh : Vec K) (k : ℕ) (u : Vec K) : Prop where
  ell : ∀ j, j < n → ∑ l ∈ range n, low L j l * u l = m j
  p : ∀ i, n ≤ i → i < qp.dim.nu k + qp.dim.nx k → u i + ∑ l ∈ range n, low L i l * u l = m i
  slk : ∀ i, i < 2 * qp.dim.ns k → u (qp.dim.nu k + qp.dim.nx k + i) = rh i

theorem subOk_trsv (qp : OcpQp K) (n k : ℕ) (hn : n ≤ qp.dim.nu k + qp.dim.nx k) (L : Mat K) (m rh x : Vec K)
    (hp : ∀ j, j < n → L j j ≠ 0) (hm : ∀ i, i < qp.dim.nu k + qp.dim.nx k → x i = m i)
    (hr : ∀ i, i < 2 * qp.dim.ns k → x (qp.dim.nu k + qp.dim.nx k + i) = rh i) :
    SubOk qp n L m rh k (trsv_lnn_mn (qp.dim.nu k + qp.dim.nx k) n L x) := by
  obtain ⟨h1, h2, h3⟩ := trsv_lnn_mn_spec (qp.dim.nu k + qp.dim.nx k) n L x hp
  refine ⟨fun j hj => by rw [h1 j hj, hm j (by omega)], fun i hi hi2 => ?_, fun i hi => by rw [h3 _ (by omega) (by omega), hr i hi]⟩
  rw [← hm i hi2, ← h2 i hi hi2, add_comm]
  congr 1
  apply sum_congr rfl
  intro l hl
  rw [low, if_pos (by have := mem_range.mp hl; omega)]

theorem bwdSub_ok (qp : OcpQp K) (hwf : qp.WF) (sqr useP : Bool) (reg : K) (G g : ℕ → Vec K) (n k : ℕ) (hk : k < qp.dim.N)
    (hn : n ≤ qp.dim.nu k + qp.dim.nx k) (st : KktSt K)
    (hz : ∀ i, i < 2 * qp.dim.ns k → st.Zs k i = kZs qp reg G k i) (hB : BOk qp st)
    (hp : ∀ j, j < n → st.L k j j ≠ 0)
    (hPb : useP = true → ∀ a, a < qp.dim.nx (k + 1) → st.Pb k a =
      ∑ c ∈ range (qp.dim.nx (k + 1)), ctgP qp.dim sqr st (k + 1) a c * qp.b k c) :
    BFrame k st (bwdSub qp sqr useP G g n k st) ∧
    SubOk qp n (st.L k) (ricm (qp.dim.nx (k + 1)) (kg qp reg G g k) (qp.BAbt k) (ctgP qp.dim sqr st (k + 1)) (qp.b k)
      (fun a => st.ux (k + 1) (qp.dim.nu (k + 1) + a))) (kRh qp g k) k ((bwdSub qp sqr useP G g n k st).ux k) := by
  obtain ⟨u, t1, t2, t3, he, h1, h2⟩ := rhsStage_val qp hwf reg G g k (by omega) st hz
  have hk1 : k + 1 ≠ k := by omega
  unfold bwdSub
  simp only [he, upd_same, upd_upd, upd_ne _ _ hk1]
  refine ⟨⟨rfl, rfl, rfl, rfl, rfl, rfl, fun q hq => upd_ne _ _ hq⟩, ?_⟩
  refine subOk_trsv qp n k hn _ _ _ _ hp (fun i hi => ?_) (fun i hi => ?_)
  · rw [gemv_n_in (by omega)]
    simp only [Nat.sub_zero, zero_add, one_mul]
    rw [ricm, h1 i hi]
    congr 1
    apply sum_congr rfl
    intro a ha
    have ha' := mem_range.mp ha
    rw [hB k i a hk hi ha']
    congr 1
    by_cases hu : useP = true
    · rw [if_pos hu, axpy_in (by omega)]
      simp only [Nat.sub_zero, zero_add, one_mul]
      rw [hPb hu a ha']
    · rw [if_neg hu]
      by_cases hs : sqr = true
      · rw [if_pos hs, axpy_in (by omega)]
        simp only [Nat.sub_zero, zero_add, one_mul]
        rw [sq_mul _ _ _ _ _ _ _ _ ha']
        simp only [ctgP, hs, if_true, zero_add]
      · rw [if_neg hs, gemv_n_in (by omega)]
        simp only [Nat.sub_zero, zero_add, one_mul, ctgP, hs, Bool.false_eq_true, if_false]
        ring
  · rw [gemv_n_out (by omega), h2 i hi]

/-- a factorisation of the KKT matrix of `qp` with barrier weights `G` is stored in the workspace -/
structure Factored (qp : OcpQp K) (dr : ℕ → ℕ → K) (reg : K) (G : ℕ → Vec K) (sqr : Bool) (st : KktSt K) : Prop where
  ba : BOk qp st
  fac : (kData qp dr reg G G st.L (ctgP qp.dim sqr st)).Fac
  zs : ∀ k i, k ≤ qp.dim.N → i < 2 * qp.dim.ns k → st.Zs k i = kZs qp reg G k i

/-- backward substitution through all stages -/
def bwdAll (qp : OcpQp K) (sqr useP : Bool) (G g : ℕ → Vec K) (st : KktSt K) : KktSt K :=
  let D := qp.dim
  let N := D.N
  let st := rhsStage qp G g N st
  let st := { st with ux := upd st.ux N (trsv_lnn_mn (D.nu N + D.nx N) (D.nu N) (st.L N) (st.ux N)) }
  let st := loop (N - 1) (fun nn st => bwdSub qp sqr useP G g (D.nu (N - nn - 1)) (N - nn - 1) st) st
  bwdSub qp sqr useP G g (D.nu 0 + D.nx 0) 0 st

/-- result of the backward substitution -/
structure BwdOk (qp : OcpQp K) (reg : K) (G g : ℕ → Vec K) (sqr : Bool) (q0 : ℕ) (st0 st : KktSt K) : Prop where
  L : st.L = st0.L
  P : st.P = st0.P
  BAbt : st.BAbt = st0.BAbt
  RSQrq : st.RSQrq = st0.RSQrq
  Zs : st.Zs = st0.Zs
  Pb : st.Pb = st0.Pb
  sub : ∀ q, q0 ≤ q → q ≤ qp.dim.N → SubOk qp (nel qp.dim q) (st0.L q)
    (if q < qp.dim.N then ricm (qp.dim.nx (q + 1)) (kg qp reg G g q) (qp.BAbt q) (ctgP qp.dim sqr st0 (q + 1)) (qp.b q)
      (fun a => st.ux (q + 1) (qp.dim.nu (q + 1) + a)) else kg qp reg G g q) (kRh qp g q) q (st.ux q)

theorem ctgP_eq {D : QpDim} {sqr : Bool} {st st' : KktSt K} (hL : st'.L = st.L) (hP : st'.P = st.P) :
    ctgP D sqr st' = ctgP D sqr st := by
  funext k; simp only [ctgP, hL, hP]

theorem bwd_step (qp : OcpQp K) (hwf : qp.WF) (sqr useP : Bool) (reg : K) (G g : ℕ → Vec K) (k : ℕ) (hk : k < qp.dim.N)
    (st0 st : KktSt K) (hB : BOk qp st0)
    (hz : ∀ k i, k ≤ qp.dim.N → i < 2 * qp.dim.ns k → st0.Zs k i = kZs qp reg G k i)
    (hp : ∀ k j, k ≤ qp.dim.N → j < nel qp.dim k → st0.L k j j ≠ 0)
    (hPb : useP = true → ∀ k a, k < qp.dim.N → a < qp.dim.nx (k + 1) → st0.Pb k a =
      ∑ c ∈ range (qp.dim.nx (k + 1)), ctgP qp.dim sqr st0 (k + 1) a c * qp.b k c)
    (h : BwdOk qp reg G g sqr (k + 1) st0 st) :
    BwdOk qp reg G g sqr k st0 (bwdSub qp sqr useP G g (nel qp.dim k) k st) := by
  have hle : nel qp.dim k ≤ qp.dim.nu k + qp.dim.nx k := by
    unfold nel; split_ifs with h
    · subst h; exact le_refl _
    · omega
  have hc := ctgP_eq (D := qp.dim) (sqr := sqr) h.L h.P
  obtain ⟨hf, hs⟩ := bwdSub_ok qp hwf sqr useP reg G g (nel qp.dim k) k hk hle st
    (fun i hi => by rw [h.Zs]; exact hz k i (by omega) hi) (by unfold BOk; rw [h.BAbt]; exact hB)
    (fun j hj => by rw [h.L]; exact hp k j (by omega) hj)
    (fun hu a ha => by rw [h.Pb, hc]; exact hPb hu k a hk ha)
  refine ⟨by rw [hf.L, h.L], by rw [hf.P, h.P], by rw [hf.BAbt, h.BAbt], by rw [hf.RSQrq, h.RSQrq], by rw [hf.Zs, h.Zs],
    by rw [hf.Pb, h.Pb], fun q hq hqN => ?_⟩
  by_cases hqk : q = k
  · subst hqk
    rw [if_pos hk, hf.ux (q + 1) (by omega), ← h.L, ← hc]
    exact hs
  · have := h.sub q (by omega) hqN
    rw [hf.ux q hqk, hf.ux (q + 1) (by omega)]
    exact this

theorem bwdAll_ok (qp : OcpQp K) (hwf : qp.WF) (hN : 1 ≤ qp.dim.N) (sqr useP : Bool) (reg : K) (G g : ℕ → Vec K)
    (st0 : KktSt K) (hB : BOk qp st0)
    (hz : ∀ k i, k ≤ qp.dim.N → i < 2 * qp.dim.ns k → st0.Zs k i = kZs qp reg G k i)
    (hp : ∀ k j, k ≤ qp.dim.N → j < nel qp.dim k → st0.L k j j ≠ 0)
    (hPb : useP = true → ∀ k a, k < qp.dim.N → a < qp.dim.nx (k + 1) → st0.Pb k a =
      ∑ c ∈ range (qp.dim.nx (k + 1)), ctgP qp.dim sqr st0 (k + 1) a c * qp.b k c) :
    BwdOk qp reg G g sqr 0 st0 (bwdAll qp sqr useP G g st0) := by
  have hnN : nel qp.dim qp.dim.N = qp.dim.nu qp.dim.N := if_neg (by omega)
  have hn0 : nel qp.dim 0 = qp.dim.nu 0 + qp.dim.nx 0 := if_pos rfl
  unfold bwdAll
  simp only []
  have key := loop_inv (S := KktSt K) (fun i st => BwdOk qp reg G g sqr (qp.dim.N - i) st0 st)
    (qp.dim.N - 1) (fun nn st => bwdSub qp sqr useP G g (qp.dim.nu (qp.dim.N - nn - 1)) (qp.dim.N - nn - 1) st)
    { rhsStage qp G g qp.dim.N st0 with
      ux := upd (rhsStage qp G g qp.dim.N st0).ux qp.dim.N (trsv_lnn_mn (qp.dim.nu qp.dim.N + qp.dim.nx qp.dim.N)
        (qp.dim.nu qp.dim.N) ((rhsStage qp G g qp.dim.N st0).L qp.dim.N) ((rhsStage qp G g qp.dim.N st0).ux qp.dim.N)) } ?_ ?_
  · rw [show qp.dim.N - (qp.dim.N - 1) = 0 + 1 by omega] at key
    have := bwd_step qp hwf sqr useP reg G g 0 (by omega) st0 _ hB hz hp hPb key
    rw [hn0] at this
    exact this
  · obtain ⟨u, t1, t2, t3, he, h1, h2⟩ := rhsStage_val qp hwf reg G g qp.dim.N (le_refl _) st0 (fun i hi => hz _ i (le_refl _) hi)
    rw [he]
    refine ⟨rfl, rfl, rfl, rfl, rfl, rfl, fun q hq hqN => ?_⟩
    have : q = qp.dim.N := by omega
    subst this
    simp only [upd_same, if_neg (lt_irrefl _)]
    rw [hnN]
    exact subOk_trsv qp _ _ (by omega) _ _ _ _ (fun j hj => hp _ j (le_refl _) (by omega)) h1 h2
  · intro i st hi h
    have hk : qp.dim.N - i - 1 ≠ 0 := by omega
    have hne : nel qp.dim (qp.dim.N - i - 1) = qp.dim.nu (qp.dim.N - i - 1) := if_neg hk
    have := bwd_step qp hwf sqr useP reg G g (qp.dim.N - i - 1) (by omega) st0 st hB hz hp hPb
      (by rw [show qp.dim.N - i - 1 + 1 = qp.dim.N - i by omega]; exact h)
    rw [hne] at this
    rw [show qp.dim.N - (i + 1) = qp.dim.N - i - 1 by omega]
    exact this

theorem BwdOk.rhs {qp : OcpQp K} {reg : K} {G g : ℕ → Vec K} {sqr : Bool} {st0 st : KktSt K} (h : BwdOk qp reg G g sqr 0 st0 st)
    (dr : ℕ → ℕ → K) :
    (kData qp dr reg G g st.L (ctgP qp.dim sqr st)).Rhs (fun k a => st.ux k (qp.dim.nu k + a)) st.ux := by
  have hc := ctgP_eq (D := qp.dim) (sqr := sqr) h.L h.P
  have hm : ∀ k, k ≤ qp.dim.N → (kData qp dr reg G g st.L (ctgP qp.dim sqr st)).m (fun k a => st.ux k (qp.dim.nu k + a)) k =
      if k < qp.dim.N then ricm (qp.dim.nx (k + 1)) (kg qp reg G g k) (qp.BAbt k) (ctgP qp.dim sqr st0 (k + 1)) (qp.b k)
      (fun a => st.ux (k + 1) (qp.dim.nu (k + 1) + a)) else kg qp reg G g k := by
    intro k _
    rw [hc]
    by_cases hk : k < qp.dim.N
    · rw [kData_m_lt _ _ _ _ _ _ _ _ hk, if_pos hk]
    · rw [kData_m_ge _ _ _ _ _ _ _ _ hk, if_neg hk]
  refine ⟨fun k j hk hj => ?_, fun k i hk hi => ?_⟩
  · rw [hm k hk]
    show ∑ l ∈ range (nel qp.dim k), low (st.L k) j l * st.ux k l = _
    rw [h.L]
    exact (h.sub k (Nat.zero_le _) hk).ell j hj
  · by_cases hk0 : k = 0
    · subst hk0
      exact absurd hi (by show ¬ i < (if (0 : ℕ) = 0 then 0 else _); simp)
    · have hne : (kData qp dr reg G g st.L (ctgP qp.dim sqr st)).ne k = qp.dim.nu k := if_neg hk0
      have hnr : (kData qp dr reg G g st.L (ctgP qp.dim sqr st)).nr k = qp.dim.nx k := if_neg hk0
      have hnel : nel qp.dim k = qp.dim.nu k := if_neg hk0
      rw [hnr] at hi
      have := (h.sub k (Nat.zero_le _) hk).p (qp.dim.nu k + i) (by omega) (by omega)
      rw [hm k hk, hne]
      rw [hnel, ← h.L] at this
      exact this

theorem fwdSub_step (qp : OcpQp K) (dual sqr : Bool) (n k : ℕ) (st : KktSt K) (hn : n ≤ qp.dim.nu k + qp.dim.nx k)
    (hp : ∀ j, j < n → st.L k j j ≠ 0) :
    FStep qp dual n k (st.ux k) (ctgP qp.dim sqr st (k + 1)) (fun a => st.ux (k + 1) (qp.dim.nu (k + 1) + a))
      st (fwdSub qp dual sqr n k st) := by
  have hk1 : k + 1 ≠ k := by omega
  have hk2 : k ≠ k + 1 := by omega
  refine ⟨rfl, rfl, rfl, rfl, rfl, rfl, rfl, rfl, fun q h1 h2 => ?_, fun i hi => ?_, fun j hj => ?_, fun c hc => ?_, fun i hi => ?_,
    fun hd a ha => ?_, fun q hq => ?_⟩
  · simp only [fwdSub, upd_ne _ _ h2, upd_ne _ _ h1]
  · simp only [fwdSub, upd_ne _ _ hk2, upd_same]
    rw [trsv_ltn_mn_out _ _ _ _ _ hi, vecsc, if_neg (by omega)]
  · simp only [fwdSub, upd_ne _ _ hk2, upd_same]
    rw [trsv_ltn_mn_spec _ _ hn _ _ hp j hj, vecsc, if_pos (by omega)]
    simp
  · simp only [fwdSub, upd_ne _ _ hk2, upd_same]
    rw [gemv_t, if_pos (by omega)]
    simp only [Nat.add_sub_cancel_left, zero_add, one_mul]
    ring
  · simp only [fwdSub, upd_same, upd_ne _ _ hk1]
    rw [gemv_t, if_neg hi]
  · simp only [fwdSub, hd, if_true, upd_same, upd_ne _ _ hk1]
    by_cases hs : sqr = true
    · simp only [hs, if_true, ctgP]
      rw [axpy_in (by omega)]
      simp only [Nat.sub_zero, zero_add, one_mul]
      rw [sq_mul _ _ _ _ _ _ _ _ ha, veccp, if_pos (by omega)]
      simp only [Nat.sub_zero]
      ring
    · simp only [hs, Bool.false_eq_true, if_false, ctgP]
      rw [gemv_n_in (by omega), veccp, if_pos (by omega)]
      simp only [Nat.sub_zero, zero_add, one_mul]
      ring
  · simp only [fwdSub]
    by_cases hd : dual = true
    · simp only [hd, if_true, upd_ne _ _ hq]
    · simp only [hd, Bool.false_eq_true, if_false]

theorem fwdSubLast_step (qp : OcpQp K) (st : KktSt K) (hp : ∀ j, j < qp.dim.nu qp.dim.N → st.L qp.dim.N j j ≠ 0) :
    FLast qp (st.ux qp.dim.N) st (fwdSubLast qp st) := by
  refine ⟨rfl, rfl, rfl, rfl, rfl, rfl, rfl, rfl, rfl, fun q h1 => ?_, fun i hi => ?_, fun j hj => ?_⟩
  · simp only [fwdSubLast, upd_ne _ _ h1]
  · simp only [fwdSubLast, upd_same]
    rw [trsv_ltn_mn_out _ _ _ _ _ hi, vecsc, if_neg (by omega)]
  · simp only [fwdSubLast, upd_same]
    rw [trsv_ltn_mn_spec _ _ (by omega) _ _ hp j hj, vecsc, if_pos (by omega)]
    simp

theorem fwdSub_done (qp : OcpQp K) (dual sqr : Bool) (hN : 1 ≤ qp.dim.N) (st : KktSt K)
    (hp : ∀ k j, k ≤ qp.dim.N → j < nel qp.dim k → st.L k j j ≠ 0) :
    FDone qp dual st.ux (ctgP qp.dim sqr st) (fun k a => st.ux k (qp.dim.nu k + a)) st
      (fwdSubLast qp (loop (qp.dim.N - 1) (fun i st => fwdSub qp dual sqr (qp.dim.nu (i + 1)) (i + 1) st)
        (fwdSub qp dual sqr (qp.dim.nu 0 + qp.dim.nx 0) 0 st))) := by
  have hle : ∀ k, nel qp.dim k ≤ qp.dim.nu k + qp.dim.nx k := by
    intro k; unfold nel; split_ifs with h
    · subst h; exact le_refl _
    · omega
  have hnN : nel qp.dim qp.dim.N = qp.dim.nu qp.dim.N := if_neg (by omega)
  refine fwd_chain qp dual hN _ _ _ (fun n k st => fwdSub qp dual sqr n k st) (fwdSubLast qp) st ?_ ?_ ?_
  · intro k s hk hpre
    have hp' : ∀ j, j < nel qp.dim k → s.L k j j ≠ 0 := by rw [hpre.L]; exact fun j hj => hp k j (by omega) hj
    have h := fwdSub_step qp dual sqr (nel qp.dim k) k s (hle k) hp'
    have e1 : s.ux (k + 1) = st.ux (k + 1) := hpre.uxg (k + 1) (by omega)
    have e2 := ctgP_eq (D := qp.dim) (sqr := sqr) hpre.L hpre.P
    rw [e1, e2] at h
    refine ⟨h.L, h.P, h.BAbt, h.RSQrq, h.Zs, h.Pb, h.lam, h.t, h.uxo, h.uxk, fun j hj => ?_, h.ux1, h.ux1o, h.pi, h.pio⟩
    rw [h.solve j hj, hpre.uxk j hj]
  · intro k s hd
    simp [fwdSub, hd]
  · intro s hpre
    have h := fwdSubLast_step qp s (by rw [hpre.L]; exact fun j hj => hp _ j (le_refl _) (by omega))
    refine ⟨h.L, h.P, h.BAbt, h.RSQrq, h.Zs, h.Pb, h.lam, h.t, h.pi, h.uxo, h.uxk, fun j hj => ?_⟩
    rw [h.solve j hj, hpre.uxk j (by omega)]

/-- core quantities as they are left by a factorisation at the iterate `sol` -/
structure CoreFac (qp : OcpQp K) (sol : Sol K) (c : Core K) : Prop where
  of : CoreOf qp sol c
  ti : ∀ k j, k ≤ qp.dim.N → j < nct qp.dim k → c.t_inv (stOff (nct qp.dim) k + j) = 1 / sol.t k j
  G : ∀ k j, k ≤ qp.dim.N → j < nct qp.dim k → stView qp.dim c.Gamma k j = wG sol k j

theorem computeGamma_fields (res_d res_m : Vec K) (c : Core K) :
    ∃ gm, computeGamma res_d res_m c = { c with gamma := gm } ∧
      ∀ i, i < c.nc → gm i = c.t_inv i * (res_m i - c.lam i * res_d i) := by
  refine ⟨(computeGamma res_d res_m c).gamma, ?_, ?_⟩
  · unfold computeGamma
    refine loop_inv (fun _ s => s = { c with gamma := s.gamma }) c.nc _ c rfl ?_
    intro i s _ h
    rw [h]
  · unfold computeGamma
    have := loop_inv (S := Core K) (fun n s => ∀ i, i < n → s.gamma i = c.t_inv i * (res_m i - c.lam i * res_d i)) c.nc
      (fun ii s => { s with gamma := upd s.gamma ii (c.t_inv ii * (res_m ii - c.lam ii * res_d ii)) }) c
      (fun i hi => by omega) ?_
    · exact this
    · intro n s _ h i hi
      by_cases hin : i = n
      · subst hin; simp
      · simp only [upd_ne _ _ hin]; exact h i (by omega)

/-- C27, one re-solve: with a stored factorisation the re-solve computes the Newton step of the right-hand side it is given -/
theorem solve_newton (qp : OcpQp K) (hwf : qp.WF) (hN : 1 ≤ qp.dim.N) (hu : Unshared qp) (sol : Sol K) (dr : ℕ → ℕ → K)
    (reg : K) (sqr useP : Bool) (c : Core K) (hc : CoreFac qp sol c) (st : KktSt K)
    (hF : Factored qp dr reg (stView qp.dim c.Gamma) sqr st)
    (hPb : useP = true → ∀ k a, k < qp.dim.N → a < qp.dim.nx (k + 1) → st.Pb k a =
      ∑ e ∈ range (qp.dim.nx (k + 1)), ctgP qp.dim sqr st (k + 1) a e * qp.b k e)
    (hden : ∀ k i, k ≤ qp.dim.N → i < 2 * qp.dim.ns k → slackCurv qp reg sol k i ≠ 0) :
    let r := solveKktStep qp true sqr useP c st
    NewtonStep qp sol dr reg (stepOf r.2) ∧ Factored qp dr reg (stView qp.dim r.1.Gamma) sqr r.2 ∧ CoreFac qp sol r.1 ∧
      r.2.Pb = st.Pb ∧ ctgP qp.dim sqr r.2 = ctgP qp.dim sqr st := by
  intro r
  obtain ⟨gm, hcg, hgm⟩ := computeGamma_fields (stFlat (nct qp.dim) qp.d (qp.dim.N + 1)) (stFlat (nct qp.dim) qp.m (qp.dim.N + 1)) c
  set g := stView qp.dim gm with hg
  set G := stView qp.dim c.Gamma with hG
  have hcs : CoreStep qp sol { c with gamma := gm } G g := by
    refine ⟨⟨hc.of.nc, hc.of.lam, hc.of.t, hc.of.pos⟩, hc.ti, hc.G, fun k j hk hj => ?_⟩
    have hlt : stOff (nct qp.dim) k + j < c.nc := by rw [hc.of.nc]; exact stOff_lt hk hj
    simp only [hg, stView]
    rw [hgm _ hlt, hc.ti k j hk hj, hc.of.lam k j hk hj, stFlat_at _ _ _ _ _ (by omega) hj, stFlat_at _ _ _ _ _ (by omega) hj, wg]
  have hp : ∀ k j, k ≤ qp.dim.N → j < nel qp.dim k → st.L k j j ≠ 0 := fun k j hk hj => (hF.fac.fac k hk).piv j hj
  have hb := bwdAll_ok qp hwf hN sqr useP reg G g st hF.ba hF.zs hp hPb
  set s1 := bwdAll qp sqr useP G g st with hs1
  have hf := fwdSub_done qp true sqr hN s1 (by rw [hb.L]; exact hp)
  have hr : r = ({ c with gamma := gm }, kktTail qp G { c with gamma := gm } (fwdSubLast qp (loop (qp.dim.N - 1)
      (fun i st => fwdSub qp true sqr (qp.dim.nu (i + 1)) (i + 1) st) (fwdSub qp true sqr (qp.dim.nu 0 + qp.dim.nx 0) 0 s1)))) := by
    show solveKktStep qp true sqr useP c st = _
    unfold solveKktStep
    simp only [hcg]
    rfl
  have hct := ctgP_eq (D := qp.dim) (sqr := sqr) hb.L hb.P
  have hfac : (kData qp dr reg G g s1.L (ctgP qp.dim sqr s1)).Fac := by
    rw [hb.L, hct]
    exact ⟨hF.fac.hsym, hF.fac.fac⟩
  have hB : BOk qp s1 := by unfold BOk; rw [hb.BAbt]; exact hF.ba
  have hT := kktTail_ok qp hwf G { c with gamma := gm } hc.of.nc (fwdSubLast qp (loop (qp.dim.N - 1)
      (fun i st => fwdSub qp true sqr (qp.dim.nu (i + 1)) (i + 1) st) (fwdSub qp true sqr (qp.dim.nu 0 + qp.dim.nx 0) 0 s1)))
  rw [hr]
  have eL := hT.L.trans (hf.L.trans hb.L)
  have eP := hT.P.trans (hf.P.trans hb.P)
  have ePb := hT.Pb.trans (hf.Pb.trans hb.Pb)
  have eZ := hT.Zs.trans (hf.Zs.trans hb.Zs)
  have eB := hT.BAbt.trans (hf.BAbt.trans hb.BAbt)
  have ect := ctgP_eq (D := qp.dim) (sqr := sqr) eL eP
  refine ⟨?_, ⟨?_, ?_, ?_⟩, ⟨hcs.of, hc.ti, hc.G⟩, ePb, ect⟩
  · refine (step_newton qp hwf hu sol dr reg G g _ hcs (ctgP qp.dim sqr s1) _ _ s1 _ hB hfac (hb.rhs dr) (fun k hk => ⟨?_, ?_⟩) hf hden).1
    · intro i hi; rw [hb.Zs]; exact hF.zs k i hk hi
    · exact fun i hi => (hb.sub k (Nat.zero_le _) hk).slk i hi
  · unfold BOk; rw [eB]; exact hF.ba
  · rw [ect]
    show (kData qp dr reg G G _ (ctgP qp.dim sqr st)).Fac
    rw [eL]
    exact hF.fac
  · intro k i hk hi
    rw [eZ]; exact hF.zs k i hk hi

/-- the factorise-and-solve routine leaves a factorisation behind -/
theorem factSolve_factored (sq : K → K) (hsq : ∀ x, 0 < x → sq x * sq x = x) (fuel : ℕ) (qp : OcpQp K) (hwf : qp.WF)
    (hN : 1 ≤ qp.dim.N) (sol : Sol K) (dual sqr : Bool) (reg preg_last : K) (c : Core K)
    (hc : CoreOf qp sol c) (ht : c.t_lam_min ≠ 1) (st : KktSt K) (hR : ROk qp st) (hB : BOk qp st)
    (out : KktOut K) (h : factSolveKktStep sq fuel qp dual sqr reg preg_last c st = some out) :
    Factored qp (drOf qp out.sqr reg out.preg) reg (stView qp.dim out.core.Gamma) out.sqr out.st ∧ CoreFac qp sol out.core ∧
    (∀ k a, k < qp.dim.N → a < qp.dim.nx (k + 1) → out.st.Pb k a =
      ∑ e ∈ range (qp.dim.nx (k + 1)), ctgP qp.dim out.sqr out.st (k + 1) a e * qp.b k e) := by
  unfold factSolveKktStep at h
  simp only [] at h
  have hcs := coreStep_gammaGamma qp sol c hc ht
  simp only [] at hcs
  set c' := computeGammaGamma (stFlat (nct qp.dim) qp.d (qp.dim.N + 1)) (stFlat (nct qp.dim) qp.m (qp.dim.N + 1)) c with hc'
  cases hm : kktMain sq qp reg preg_last (stView qp.dim c'.Gamma) (stView qp.dim c'.gamma) fuel reg false sqr st with
  | none => rw [hm] at h; cases h
  | some r =>
    obtain ⟨preg, init, sqr', st'⟩ := r
    rw [hm] at h
    simp only [Option.some.injEq] at h
    subst h
    obtain ⟨hb, h2, -, -⟩ := kktMain_ok sq hsq qp hwf hN reg preg_last _ _ fuel reg false sqr st hR hB _ _ _ _ hm
    have hF := fwd_done qp dual sqr' hN st' (backOk_piv hb)
    have hT := kktTail_ok qp hwf (stView qp.dim c'.Gamma) c' hcs.of.nc (fwd qp dual sqr' st')
    have eL := hT.L.trans hF.L
    have eP := hT.P.trans hF.P
    have ect := ctgP_eq (D := qp.dim) (sqr := sqr') eL eP
    refine ⟨⟨?_, ?_, ?_⟩, ⟨hcs.of, hcs.ti, hcs.G⟩, ?_⟩
    · unfold BOk; rw [hT.BAbt, hF.BAbt]; exact hb.ba
    · show (kData qp (drOf qp sqr' reg preg) reg _ _ (kktTail qp _ c' (fwd qp dual sqr' st')).L (ctgP qp.dim sqr' _)).Fac
      rw [ect, eL]
      exact ⟨hb.fac.hsym, hb.fac.fac⟩
    · intro k i hk hi
      show (kktTail qp _ c' (fwd qp dual sqr' st')).Zs k i = _
      rw [hT.Zs, hF.Zs]; exact (hb.slk k hk).Zs i hi
    · intro k a hk ha
      show (kktTail qp _ c' (fwd qp dual sqr' st')).Pb k a = ∑ e ∈ _, ctgP qp.dim sqr' _ _ _ _ * _
      rw [ect, hT.Pb, hF.Pb]; exact hb.pb k a hk ha

/-- the QP with other right-hand sides: gradient, dynamics offset, bounds and complementarity targets -/
def withRhs (qp : OcpQp K) (rqz b d m : ℕ → Vec K) : OcpQp K :=
  { qp with
    rqz := rqz
    b := b
    d := d
    m := m }

/-- C27: after factorise-and-solve at an iterate, a re-solve with any other right-hand side (the stored `P b` may be used if the
dynamics offset is the same) computes the Newton step of that right-hand side, with the same Hessian shift -/
theorem resolve_newton (sq : K → K) (hsq : ∀ x, 0 < x → sq x * sq x = x) (fuel : ℕ) (qp : OcpQp K) (hwf : qp.WF)
    (hN : 1 ≤ qp.dim.N) (hu : Unshared qp) (sol : Sol K) (dual sqr : Bool) (reg preg_last : K) (c : Core K)
    (hc : CoreOf qp sol c) (ht : c.t_lam_min ≠ 1) (st : KktSt K) (hR : ROk qp st) (hB : BOk qp st)
    (hden : ∀ k i, k ≤ qp.dim.N → i < 2 * qp.dim.ns k → slackCurv qp reg sol k i ≠ 0)
    (out : KktOut K) (h : factSolveKktStep sq fuel qp dual sqr reg preg_last c st = some out)
    (rqz b d m : ℕ → Vec K) (useP : Bool)
    (hb : useP = true → ∀ k i, k < qp.dim.N → i < qp.dim.nx (k + 1) → b k i = qp.b k i) :
    NewtonStep (withRhs qp rqz b d m) sol (drOf qp out.sqr reg out.preg) reg
      (stepOf (solveKktStep (withRhs qp rqz b d m) true out.sqr useP out.core out.st).2) := by
  obtain ⟨hF, hcf, hpb⟩ := factSolve_factored sq hsq fuel qp hwf hN sol dual sqr reg preg_last c hc ht st hR hB out h
  refine (solve_newton (withRhs qp rqz b d m) hwf hN hu sol _ reg out.sqr useP out.core
    ⟨⟨hcf.of.nc, hcf.of.lam, hcf.of.t, hcf.of.pos⟩, hcf.ti, hcf.G⟩ out.st ⟨hF.ba, ⟨hF.fac.hsym, hF.fac.fac⟩, hF.zs⟩ ?_ hden).1
  intro hup k a hk ha
  refine (hpb k a hk ha).trans (sum_congr rfl (fun e he => ?_))
  exact congrArg (fun x => ctgP qp.dim out.sqr out.st (k + 1) a e * x) (hb hup k e hk (mem_range.mp he)).symm

/-- C27, agreement: for a strictly convex problem at an interior iterate the re-solve returns the same step as factorising the
KKT system of the new right-hand side from scratch, whatever workspace and algorithm that one uses -/
theorem resolve_agrees (sq : K → K) (hsq : ∀ x, 0 < x → sq x * sq x = x) (fuel fuel' : ℕ) (qp : OcpQp K) (hwf : qp.WF)
    (hN : 1 ≤ qp.dim.N) (hu : Unshared qp) (sol : Sol K) (hint : Interior qp sol) (dual sqr sqr' : Bool) (reg preg_last preg_last' : K)
    (hsc : StrictlyConvex qp (fun _ _ => reg) reg) (c c' : Core K)
    (hc : CoreOf qp sol c) (ht : c.t_lam_min ≠ 1) (hc' : CoreOf qp sol c') (ht' : c'.t_lam_min ≠ 1)
    (st st' : KktSt K) (hR : ROk qp st) (hB : BOk qp st) (hR' : ROk qp st') (hB' : BOk qp st')
    (rqz b d m : ℕ → Vec K) (useP : Bool)
    (hb : useP = true → ∀ k i, k < qp.dim.N → i < qp.dim.nx (k + 1) → b k i = qp.b k i) :
    ∃ out out', factSolveKktStep sq fuel qp dual sqr reg preg_last c st = some out ∧
      factSolveKktStep sq fuel' (withRhs qp rqz b d m) true sqr' reg preg_last' c' st' = some out' ∧
      let s := stepOf (solveKktStep (withRhs qp rqz b d m) true out.sqr useP out.core out.st).2
      let s' := stepOf out'.st
      (∀ k i, k ≤ qp.dim.N → i < qp.dim.nu k + qp.dim.nx k + 2 * qp.dim.ns k → s.ux k i = s'.ux k i) ∧
      (∀ k i, k < qp.dim.N → i < qp.dim.nx (k + 1) → s.pi k i = s'.pi k i) ∧
      (∀ k j, k ≤ qp.dim.N → j < 2 * qp.dim.nb k + 2 * qp.dim.ng k + 2 * qp.dim.ns k →
        s.lam k j = s'.lam k j ∧ s.t k j = s'.t k j) := by
  have hden := fun k i (hk : k ≤ qp.dim.N) (hi : i < 2 * qp.dim.ns k) => (slackCurv_pos hsc sol hint k i hk hi).ne'
  obtain ⟨out, h, hn, hp, hs, -⟩ := factSolve_total sq hsq fuel qp hwf hN sol hint dual sqr reg preg_last hsc c hc ht st hR hB
  obtain ⟨out', h', hn', hp', hs', -⟩ := factSolve_total sq hsq fuel' (withRhs qp rqz b d m) hwf hN sol hint true sqr' reg preg_last'
    hsc c' ⟨hc'.nc, hc'.lam, hc'.t, hc'.pos⟩ ht' st' hR' hB'
  refine ⟨out, out', h, h', ?_⟩
  have h1 := resolve_newton sq hsq fuel qp hwf hN hu sol dual sqr reg preg_last c hc ht st hR hB hden out h rqz b d m useP hb
  have h2 := (factSolve_newton sq hsq fuel' (withRhs qp rqz b d m) hwf hN hu sol sqr' reg preg_last' c'
    ⟨hc'.nc, hc'.lam, hc'.t, hc'.pos⟩ ht' st' hR' hB' hden out' h').1
  have e1 : ∀ (q : OcpQp K) s, drOf q s reg reg = fun _ _ => reg := by
    intro q s; funext k i
    cases s
    · simp [drOf, drCl]
    · rfl
  rw [hp, e1] at h1
  rw [hp', e1] at h2
  exact newton_unique (withRhs qp rqz b d m) hwf sol hint (fun _ _ => reg) reg hsc _ _ h1 h2

end
end Hpipm
