/-
Backward sweeps of the KKT solver (intermediate results): every stage hands the factorisation the
Riccati matrices of RicChain.lean.
-/
import Verif.KktVal

namespace Hpipm
open Finset
set_option linter.unusedSectionVars false

section
variable {K : Type*} [Field K] [LinearOrder K]

/-- lower trapezoid `C` holding a Hessian and, in its last row, a gradient -/
def CMat (nv : ℕ) (C M : Mat K) (m : Vec K) : Prop :=
  (∀ i j, i < nv → j ≤ i → C i j = M i j) ∧ ∀ j, j < nv → C nv j = m j

theorem CMat.congr {nv : ℕ} {C C' M : Mat K} {m : Vec K} (h : CMat nv C M m)
    (he : ∀ i j, i ≤ nv → j < nv → j ≤ i → C' i j = C i j) : CMat nv C' M m :=
  ⟨fun i j hi hj => by rw [he i j (by omega) (by omega) hj, h.1 i j hi hj],
    fun j hj => by rw [he nv j (le_refl _) hj (by omega), h.2 j hj]⟩

/-- the two matrix operations preparing the general constraints -/
def genAL (nv ng : ℕ) (DC : Mat K) (t0 t1 : Vec K) (nb o : ℕ) (AL : Mat K) : Mat K :=
  rowin ng 1 t1 nb (gemm_nd nv ng 1 DC 0 0 t0 nb 0 AL 0 o AL 0 o) nv o

theorem genAL_in (nv ng : ℕ) (DC : Mat K) (t0 t1 : Vec K) (nb o : ℕ) (AL : Mat K) (i l : ℕ) (hi : i < nv) (hl : l < ng) :
    genAL nv ng DC t0 t1 nb o AL i (o + l) = DC i l * t0 (nb + l) := by
  unfold genAL
  rw [rowin, if_neg (by omega), gemm_nd, if_pos (by omega)]
  simp

theorem genAL_row (nv ng : ℕ) (DC : Mat K) (t0 t1 : Vec K) (nb o : ℕ) (AL : Mat K) (l : ℕ) (hl : l < ng) :
    genAL nv ng DC t0 t1 nb o AL nv (o + l) = t1 (nb + l) := by
  unfold genAL
  rw [rowin, if_pos (by omega)]
  simp

theorem genAL_out (nv ng : ℕ) (DC : Mat K) (t0 t1 : Vec K) (nb o : ℕ) (AL : Mat K) (i l : ℕ) (hl : l < o) :
    genAL nv ng DC t0 t1 nb o AL i l = AL i l := by
  unfold genAL
  rw [rowin, if_neg (by omega), gemm_nd, if_neg (by omega)]

/-- the stage matrix with general constraints -/
theorem gen_ok (qp : OcpQp K) (dr : ℕ → ℕ → K) (reg : K) (G g : ℕ → Vec K) (k o : ℕ) (L AL : Mat K) (t0 t1 : Vec K)
    (h4 : ∀ j, j < qp.dim.nb k + qp.dim.ng k → t0 j = kTh qp reg G k j)
    (h5 : ∀ j, j < qp.dim.nb k + qp.dim.ng k → t1 j = kVt qp reg G g k j)
    (h6 : ∀ i j, i < qp.dim.nu k + qp.dim.nx k → j ≤ i → L i j = symL (qp.RSQrq k) 0 0 i j + (if i = j then dr k i else 0)
        + ∑ l ∈ range (qp.dim.nb k), if qp.idxb k l = i ∧ qp.idxb k l = j then kTh qp reg G k l else 0)
    (h7 : ∀ j, j < qp.dim.nu k + qp.dim.nx k → L (qp.dim.nu k + qp.dim.nx k) j = qp.rqz k j
        + ∑ l ∈ range (qp.dim.nb k), if qp.idxb k l = j then kVt qp reg G g k l else 0) :
    CMat (qp.dim.nu k + qp.dim.nx k)
      (fun i j => L i j + ∑ l ∈ range (qp.dim.ng k),
        genAL (qp.dim.nu k + qp.dim.nx k) (qp.dim.ng k) (qp.DCt k) t0 t1 (qp.dim.nb k) o AL i (o + l) * qp.DCt k j l)
      (kH qp dr reg G k) (kg qp reg G g k) := by
  refine ⟨fun i j hi hj => ?_, fun j hj => ?_⟩
  · simp only [kH]
    rw [h6 i j hi hj]
    congr 1
    apply sum_congr rfl
    intro l hl
    have hl := mem_range.mp hl
    rw [genAL_in _ _ _ _ _ _ _ _ _ _ hi hl, h4 _ (by omega)]
  · simp only [kg, cvalT]
    rw [h7 j hj, add_assoc]
    congr 2
    apply sum_congr rfl
    intro l hl
    have hl := mem_range.mp hl
    rw [genAL_row _ _ _ _ _ _ _ _ _ hl, h5 _ (by omega)]
    ring

/-- cost to go stored in the square-root factor -/
def sqP (nu nx : ℕ) (L : Mat K) : Mat K := fun i j => ∑ l ∈ range nx, low L (nu + i) (nu + l) * low L (nu + j) (nu + l)
/-- linear term of the cost to go stored in the square-root factor -/
def sqp (nu nx : ℕ) (L : Mat K) : Vec K := fun i => ∑ l ∈ range nx, low L (nu + i) (nu + l) * L (nu + nx) (nu + l)

theorem sqP_sym (nu nx : ℕ) (L : Mat K) (i j : ℕ) : sqP nu nx L i j = sqP nu nx L j i :=
  sum_congr rfl (fun l _ => mul_comm _ _)

/-- an operation of stage `k` leaves the other stages alone -/
structure SFrame (k : ℕ) (st st' : KktSt K) : Prop where
  L : ∀ q, q ≠ k → st'.L q = st.L q
  P : ∀ q, q ≠ k → st'.P q = st.P q
  Zs : ∀ q, q ≠ k → st'.Zs q = st.Zs q
  ux : ∀ q, q ≠ k → st'.ux q = st.ux q
  BAbt : ∀ q, q ≠ k → st'.BAbt q = st.BAbt q
  Pb : ∀ q, q ≠ k → st'.Pb q = st.Pb q
  RSQrq : st'.RSQrq = st.RSQrq

/-- slack data of stage `k` after condensing -/
structure StSlk (qp : OcpQp K) (reg : K) (G g : ℕ → Vec K) (k : ℕ) (st : KktSt K) : Prop where
  Zs : ∀ i, i < 2 * qp.dim.ns k → st.Zs k i = kZs qp reg G k i
  ux : ∀ i, i < 2 * qp.dim.ns k → st.ux k (qp.dim.nu k + qp.dim.nx k + i) = kRh qp g k i

theorem potrf_dest (sq : K → K) (m n : ℕ) {C C' : Mat K} (D : Mat K) (h : C = C') :
    potrf_l_mn sq m n C D = potrf_l_mn sq m n C' D := by rw [h]

/-- last stage of the square-root sweep -/
theorem sqLast_val (sq : K → K) (qp : OcpQp K) (hwf : qp.WF) (reg preg : K) (dr : ℕ → ℕ → K)
    (hdr : ∀ i, i < qp.dim.nu qp.dim.N + qp.dim.nx qp.dim.N → dr qp.dim.N i = preg) (G g : ℕ → Vec K)
    (st : KktSt K) (hR : ROk qp st) :
    let st' := sqLast sq qp reg preg G g st
    let nv := qp.dim.nu qp.dim.N + qp.dim.nx qp.dim.N
    SFrame qp.dim.N st st' ∧ StSlk qp reg G g qp.dim.N st' ∧ st'.BAbt = st.BAbt ∧
    ∃ C L0, st'.L qp.dim.N = potrf_l_mn sq (nv + 1) nv C L0 ∧
      CMat nv C (kH qp dr reg G qp.dim.N) (kg qp reg G g qp.dim.N) := by
  set k := qp.dim.N with hk
  obtain ⟨z, u, L, t0, t1, t2, t3, he, h1, h2, _, h4, h5, h6, h7⟩ := augStage_val qp hwf reg
    (fun L => diare (qp.dim.nu k + qp.dim.nx k) preg L 0 0) (fun _ => preg) G g k (le_refl _) (diare_drOk _ _) st hR
  have h6' : ∀ i j, i < qp.dim.nu k + qp.dim.nx k → j ≤ i → L i j = symL (qp.RSQrq k) 0 0 i j + (if i = j then dr k i else 0)
        + ∑ l ∈ range (qp.dim.nb k), if qp.idxb k l = i ∧ qp.idxb k l = j then kTh qp reg G k l else 0 := by
    intro i j hi hj
    rw [h6 i j hi hj, hdr i hi]
  have hg := gen_ok qp dr reg G g k 0 L st.AL0 t0 t1 h4 h5 h6' h7
  intro st' nv
  by_cases hn : qp.dim.ng k > 0
  · obtain ⟨s', hs'⟩ : ∃ s', s' = st' := ⟨_, rfl⟩
    rw [← hs']
    have hst := hs'
    simp only [st', sqLast, ← hk, he, if_pos hn] at hst
    subst hst
    refine ⟨⟨fun q hq => ?_, fun q hq => rfl, fun q hq => ?_, fun q hq => ?_, fun q hq => rfl, fun q hq => rfl, rfl⟩,
      ⟨fun i hi => ?_, fun i hi => ?_⟩, rfl, _, L, ?_, hg⟩
    · simp only [upd_ne _ _ hq]
    · simp only [upd_ne _ _ hq]
    · simp only [upd_ne _ _ hq]
    · simp only [upd_same]; exact h1 i hi
    · simp only [upd_same]; exact h2 i hi
    · simp only [upd_same, syrk_potrf_ln_mn, genAL, zero_add, nv]
  · have hn0 : qp.dim.ng k = 0 := by omega
    obtain ⟨s', hs'⟩ : ∃ s', s' = st' := ⟨_, rfl⟩
    rw [← hs']
    have hst := hs'
    simp only [st', sqLast, ← hk, he, if_neg hn] at hst
    subst hst
    simp only [hn0, range_zero, sum_empty, add_zero] at hg
    refine ⟨⟨fun q hq => ?_, fun q hq => rfl, fun q hq => ?_, fun q hq => ?_, fun q hq => rfl, fun q hq => rfl, rfl⟩,
      ⟨fun i hi => ?_, fun i hi => ?_⟩, rfl, _, L, ?_, hg⟩
    · simp only [upd_ne _ _ hq]
    · simp only [upd_ne _ _ hq]
    · simp only [upd_ne _ _ hq]
    · simp only [upd_same]; exact h1 i hi
    · simp only [upd_same]; exact h2 i hi
    · simp only [upd_same]; rfl

/-! ### propagation of the cost to go -/

theorem sq_prod (n1 : ℕ) (x y : Vec K) (W : Mat K) :
    ∑ q ∈ range n1, (∑ a ∈ range n1, x a * W a q) * (∑ c ∈ range n1, y c * W c q) =
      ∑ a ∈ range n1, ∑ c ∈ range n1, x a * (∑ q ∈ range n1, W a q * W c q) * y c := by
  have e : ∀ q, (∑ a ∈ range n1, x a * W a q) * (∑ c ∈ range n1, y c * W c q) =
      ∑ a ∈ range n1, ∑ c ∈ range n1, x a * (W a q * W c q) * y c := by
    intro q
    rw [sum_mul_sum]
    exact sum_congr rfl (fun a _ => sum_congr rfl (fun c _ => by ring))
  rw [sum_congr rfl (fun q _ => e q), sum_comm]
  apply sum_congr rfl
  intro a _
  rw [sum_comm]
  apply sum_congr rfl
  intro c _
  rw [mul_sum, sum_mul]

theorem sq_prod_row (n1 : ℕ) (b e y : Vec K) (W : Mat K) :
    ∑ q ∈ range n1, (∑ c ∈ range n1, b c * W c q + e q) * (∑ a ∈ range n1, y a * W a q) =
      ∑ a ∈ range n1, y a * (∑ c ∈ range n1, (∑ q ∈ range n1, W a q * W c q) * b c + ∑ q ∈ range n1, W a q * e q) := by
  have e1 : ∀ q, (∑ c ∈ range n1, b c * W c q + e q) * (∑ a ∈ range n1, y a * W a q) =
      (∑ a ∈ range n1, y a * W a q) * (∑ c ∈ range n1, b c * W c q) + ∑ a ∈ range n1, y a * (W a q * e q) := by
    intro q
    have : ∑ a ∈ range n1, y a * (W a q * e q) = (∑ a ∈ range n1, y a * W a q) * e q := by
      rw [sum_mul]; exact sum_congr rfl (fun a _ => by ring)
    rw [this]; ring
  have e2 : ∑ q ∈ range n1, ∑ a ∈ range n1, y a * (W a q * e q) = ∑ a ∈ range n1, y a * ∑ q ∈ range n1, W a q * e q := by
    rw [sum_comm]
    exact sum_congr rfl (fun a _ => by rw [mul_sum])
  rw [sum_congr rfl (fun q _ => e1 q), sum_add_distrib, sq_prod, e2, ← sum_add_distrib]
  apply sum_congr rfl
  intro a _
  rw [mul_add, mul_sum]
  congr 1
  rw [mul_sum]
  exact sum_congr rfl (fun c _ => by ring)

/-- adding the cost to go to a stage matrix -/
theorem ric_add {nv n1 : ℕ} {C H BA P X : Mat K} {g b p : Vec K} (h : CMat nv C H g)
    (hX : ∀ i j, i < nv → j ≤ i → X i j = ∑ a ∈ range n1, ∑ c ∈ range n1, BA i a * P a c * BA j c)
    (hx : ∀ j, j < nv → X nv j = ∑ a ∈ range n1, BA j a * (∑ c ∈ range n1, P a c * b c + p a)) :
    CMat nv (fun i j => C i j + X i j) (ricM n1 H BA P) (ricm n1 g BA P b p) := by
  refine ⟨fun i j hi hj => ?_, fun j hj => ?_⟩
  · simp only [ricM]; rw [h.1 i j hi hj, hX i j hi hj]
  · simp only [ricm]; rw [h.2 j hj, hx j hj]

/-- rows of `AL0` in the square-root algorithm -/
theorem sqAL_in (nv nu1 n1 : ℕ) (L1 BA AL : Mat K) (b : Vec K) :
    let A := gead 1 n1 1 L1 (nu1 + n1) nu1 (trmm_rlnn (nv + 1) n1 1 L1 nu1 nu1 (rowin n1 1 b 0 BA nv 0) 0 0 AL 0 0) nv 0
    (∀ i a, i < nv → a < n1 → A i a = ∑ l ∈ range n1, BA i l * low L1 (nu1 + l) (nu1 + a)) ∧
    (∀ a, a < n1 → A nv a = ∑ l ∈ range n1, b l * low L1 (nu1 + l) (nu1 + a) + L1 (nu1 + n1) (nu1 + a)) ∧
    (∀ a, a < n1 → trmm_rlnn (nv + 1) n1 1 L1 nu1 nu1 (rowin n1 1 b 0 BA nv 0) 0 0 AL 0 0 nv a =
      ∑ l ∈ range n1, b l * low L1 (nu1 + l) (nu1 + a)) := by
  intro A
  have hl : ∀ l a, (if a ≤ l then (1 : K) else 0) * L1 (nu1 + l) (nu1 + a) = low L1 (nu1 + l) (nu1 + a) := by
    intro l a
    unfold low
    by_cases h : a ≤ l
    · rw [if_pos h, if_pos (by omega), one_mul]
    · rw [if_neg h, if_neg (by omega), zero_mul]
  have ht : ∀ i a, i ≤ nv → a < n1 → trmm_rlnn (nv + 1) n1 1 L1 nu1 nu1 (rowin n1 1 b 0 BA nv 0) 0 0 AL 0 0 i a =
      ∑ l ∈ range n1, (rowin n1 1 b 0 BA nv 0) i l * low L1 (nu1 + l) (nu1 + a) := by
    intro i a hi ha
    rw [trmm_rlnn, if_pos (by omega), one_mul]
    apply sum_congr rfl
    intro l _
    rw [← hl]
    simp only [Nat.sub_zero, zero_add]
    by_cases h : a ≤ l
    · rw [if_pos h, if_pos h, one_mul]
    · rw [if_neg h, if_neg h]; ring
  have ht2 : ∀ a, a < n1 → trmm_rlnn (nv + 1) n1 1 L1 nu1 nu1 (rowin n1 1 b 0 BA nv 0) 0 0 AL 0 0 nv a =
      ∑ l ∈ range n1, b l * low L1 (nu1 + l) (nu1 + a) := by
    intro a ha
    rw [ht nv a (le_refl _) ha]
    apply sum_congr rfl
    intro l hl
    have := mem_range.mp hl
    rw [rowin, if_pos (by omega)]; simp
  refine ⟨fun i a hi ha => ?_, fun a ha => ?_, ht2⟩
  · show gead 1 n1 1 L1 (nu1 + n1) nu1 _ nv 0 i a = _
    rw [gead, if_neg (by omega), ht i a (by omega) ha]
    apply sum_congr rfl
    intro l _
    rw [rowin, if_neg (by omega)]
  · show gead 1 n1 1 L1 (nu1 + n1) nu1 _ nv 0 nv a = _
    rw [gead, if_pos (by omega), ht2 a ha]
    simp

/-- middle stage of the square-root sweep -/
theorem sqMid_val (sq : K → K) (qp : OcpQp K) (hwf : qp.WF) (reg preg : K) (dr : ℕ → ℕ → K) (G g : ℕ → Vec K) (k : ℕ)
    (hkN : k < qp.dim.N) (hdr : ∀ i, i < qp.dim.nu k + qp.dim.nx k → dr k i = preg)
    (st : KktSt K) (hR : ROk qp st) (hB : BOk qp st) :
    let st' := sqMid sq qp reg preg G g k st
    let nv := qp.dim.nu k + qp.dim.nx k
    let n1 := qp.dim.nx (k + 1)
    let P1 := sqP (qp.dim.nu (k + 1)) n1 (st.L (k + 1))
    let p1 := sqp (qp.dim.nu (k + 1)) n1 (st.L (k + 1))
    SFrame k st st' ∧ StSlk qp reg G g k st' ∧ BOk qp st' ∧
    (∀ a, a < n1 → st'.Pb k a = ∑ c ∈ range n1, P1 a c * qp.b k c) ∧
    ∃ C L0, st'.L k = potrf_l_mn sq (nv + 1) nv C L0 ∧
      CMat nv C (ricM n1 (kH qp dr reg G k) (qp.BAbt k) P1) (ricm n1 (kg qp reg G g k) (qp.BAbt k) P1 (qp.b k) p1) := by
  intro st' nv n1 P1 p1
  set nu1 := qp.dim.nu (k + 1) with hnu1
  set BA := rowin n1 1 (qp.b k) 0 (st.BAbt k) nv 0 with hBA
  set A0 := trmm_rlnn (nv + 1) n1 1 (st.L (k + 1)) nu1 nu1 BA 0 0 st.AL0 0 0 with hA0
  set A := gead 1 n1 1 (st.L (k + 1)) (nu1 + n1) nu1 A0 nv 0 with hA
  obtain ⟨a1, a2, a3⟩ := sqAL_in nv nu1 n1 (st.L (k + 1)) (st.BAbt k) st.AL0 (qp.b k)
  simp only [← hBA, ← hA0, ← hA] at a1 a2 a3
  set tm := rowex n1 1 A0 nv 0 st.tmpN 0 with htm
  set Pbk := trmv_lnn n1 (st.L (k + 1)) nu1 nu1 tm 0 (st.Pb k) 0 with hPbk
  set s1 : KktSt K := { st with
    BAbt := upd st.BAbt k BA
    tmpN := tm
    Pb := upd st.Pb k Pbk
    AL0 := A } with hs1
  have hR1 : ROk qp s1 := hR
  have hBAr : ∀ i a, i < nv → a < n1 → BA i a = qp.BAbt k i a := by
    intro i a hi ha
    rw [hBA, rowin, if_neg (by omega)]
    exact hB k i a hkN hi ha
  have hB1 : BOk qp s1 := by
    intro q i a hq hi ha
    by_cases hqk : q = k
    · subst hqk
      simp only [hs1, upd_same]
      exact hBAr i a hi ha
    · simp only [hs1, upd_ne _ _ hqk]
      exact hB q i a hq hi ha
  obtain ⟨z, u, L, t0, t1, t2, t3, he, h1, h2, _, h4, h5, h6, h7⟩ := augStage_val qp hwf reg
    (fun L => diare (qp.dim.nu k + qp.dim.nx k) preg L 0 0) (fun _ => preg) G g k (by omega) (diare_drOk _ _) s1 hR1
  have h6' : ∀ i j, i < qp.dim.nu k + qp.dim.nx k → j ≤ i → L i j = symL (qp.RSQrq k) 0 0 i j + (if i = j then dr k i else 0)
        + ∑ l ∈ range (qp.dim.nb k), if qp.idxb k l = i ∧ qp.idxb k l = j then kTh qp reg G k l else 0 := by
    intro i j hi hj
    rw [h6 i j hi hj, hdr i hi]
  have hg := gen_ok qp dr reg G g k n1 L A t0 t1 h4 h5 h6' h7
  -- the rows of AL0 with the matrices of the problem
  have a1' : ∀ i a, i < nv → a < n1 → A i a = ∑ l ∈ range n1, qp.BAbt k i l * low (st.L (k + 1)) (nu1 + l) (nu1 + a) := by
    intro i a hi ha
    rw [a1 i a hi ha]
    exact sum_congr rfl (fun l hl => by rw [hB k i l hkN hi (mem_range.mp hl)])
  have hX : ∀ i j, i < nv → j ≤ i → ∑ q ∈ range n1, A i q * A j q =
      ∑ a ∈ range n1, ∑ c ∈ range n1, qp.BAbt k i a * P1 a c * qp.BAbt k j c := by
    intro i j hi hj
    simp only [P1, sqP]
    rw [← sq_prod n1 (qp.BAbt k i) (qp.BAbt k j) (fun l a => low (st.L (k + 1)) (nu1 + l) (nu1 + a))]
    apply sum_congr rfl
    intro q hq
    rw [a1' i q hi (mem_range.mp hq), a1' j q (by omega) (mem_range.mp hq)]
  have hx : ∀ j, j < nv → ∑ q ∈ range n1, A nv q * A j q =
      ∑ a ∈ range n1, qp.BAbt k j a * (∑ c ∈ range n1, P1 a c * qp.b k c + p1 a) := by
    intro j hj
    have := sq_prod_row n1 (qp.b k) (fun q => st.L (k + 1) (nu1 + n1) (nu1 + q)) (qp.BAbt k j)
      (fun l a => low (st.L (k + 1)) (nu1 + l) (nu1 + a))
    simp only [P1, p1, sqP, sqp]
    rw [← this]
    apply sum_congr rfl
    intro q hq
    rw [a2 q (mem_range.mp hq), a1' j q hj (mem_range.mp hq)]
  have hPb : ∀ a, a < n1 → Pbk a = ∑ c ∈ range n1, P1 a c * qp.b k c := by
    intro a ha
    have : ∀ j, j < n1 → tm j = ∑ l ∈ range n1, qp.b k l * low (st.L (k + 1)) (nu1 + l) (nu1 + j) := by
      intro j hj
      rw [htm, rowex, if_pos (by omega), ← a3 j hj]
      simp
    rw [hPbk, trmv_lnn, if_pos (by omega)]
    simp only [Nat.sub_zero, zero_add, P1, sqP, sum_mul]
    rw [sum_comm]
    apply sum_congr rfl
    intro j hj
    rw [this j (mem_range.mp hj)]
    by_cases h : j ≤ a
    · rw [if_pos h, mul_sum]
      apply sum_congr rfl
      intro l _
      have : low (st.L (k + 1)) (nu1 + a) (nu1 + j) = st.L (k + 1) (nu1 + a) (nu1 + j) := by
        rw [low, if_pos (by omega)]
      rw [this]; ring
    · rw [if_neg h]
      symm
      apply sum_eq_zero
      intro l _
      have : low (st.L (k + 1)) (nu1 + a) (nu1 + j) = 0 := by
        rw [low, if_neg (by omega)]
      rw [this]; ring
  by_cases hn : qp.dim.ng k > 0
  · obtain ⟨s', hs'⟩ : ∃ s', s' = st' := ⟨_, rfl⟩
    rw [← hs']
    have hst := hs'
    simp only [st', sqMid] at hst
    change s' = (if qp.dim.ng k > 0 then _ else _) at hst
    rw [if_pos hn] at hst
    change augStage qp reg (fun L => diare nv preg L 0 0) G g k s1 = _ at he
    simp only [n1, nv, nu1, ← hBA, ← hA0, ← hA, ← htm, ← hPbk, ← hs1] at hst
    rw [he] at hst
    subst hst
    have hC := ric_add hg hX hx
    have hCC : CMat nv (fun i j => L i j + ∑ l ∈ range (n1 + qp.dim.ng k),
        genAL nv (qp.dim.ng k) (qp.DCt k) t0 t1 (qp.dim.nb k) n1 A i l *
          gecp nv (qp.dim.ng k) (qp.DCt k) 0 0 (gecp nv n1 (genAL nv (qp.dim.ng k) (qp.DCt k) t0 t1 (qp.dim.nb k) n1 A) 0 0
            st.AL1 0 0) 0 n1 j l)
        (ricM n1 (kH qp dr reg G k) (qp.BAbt k) P1) (ricm n1 (kg qp reg G g k) (qp.BAbt k) P1 (qp.b k) p1) := by
      refine hC.congr (fun i j hi hj hij => ?_)
      rw [sum_range_add, add_assoc]
      congr 1
      rw [add_comm]
      congr 1
      · apply sum_congr rfl
        intro l hl
        have hl := mem_range.mp hl
        rw [gecp, if_pos (by omega)]
        simp only [Nat.sub_zero, zero_add, Nat.add_sub_cancel_left]
        rfl
      · apply sum_congr rfl
        intro l hl
        have hl := mem_range.mp hl
        rw [genAL_out _ _ _ _ _ _ _ _ _ _ hl, gecp, if_neg (by omega), gecp, if_pos (by omega)]
        simp only [Nat.sub_zero, zero_add]
        rw [genAL_out _ _ _ _ _ _ _ _ _ _ hl]
    refine ⟨⟨fun q hq => ?_, fun q hq => rfl, fun q hq => ?_, fun q hq => ?_, fun q hq => ?_, fun q hq => ?_, rfl⟩,
      ⟨fun i hi => ?_, fun i hi => ?_⟩, hB1, fun a ha => ?_, _, L, ?_, hCC⟩
    · simp only [upd_ne _ _ hq, hs1]
    · simp only [upd_ne _ _ hq]; rfl
    · simp only [upd_ne _ _ hq]; rfl
    · simp only [upd_ne _ _ hq, hs1]
    · simp only [upd_ne _ _ hq, hs1]
    · simp only [upd_same]; exact h1 i hi
    · simp only [upd_same]; exact h2 i hi
    · simp only [upd_same, hs1]; exact hPb a ha
    · simp only [upd_same, syrk_potrf_ln_mn]; rfl
  · have hn0 : qp.dim.ng k = 0 := by omega
    obtain ⟨s', hs'⟩ : ∃ s', s' = st' := ⟨_, rfl⟩
    rw [← hs']
    have hst := hs'
    simp only [st', sqMid] at hst
    change s' = (if qp.dim.ng k > 0 then _ else _) at hst
    rw [if_neg hn] at hst
    change augStage qp reg (fun L => diare nv preg L 0 0) G g k s1 = _ at he
    simp only [n1, nv, nu1, ← hBA, ← hA0, ← hA, ← htm, ← hPbk, ← hs1] at hst
    rw [he] at hst
    subst hst
    simp only [hn0, range_zero, sum_empty, add_zero] at hg
    have hC := ric_add hg hX hx
    refine ⟨⟨fun q hq => ?_, fun q hq => rfl, fun q hq => ?_, fun q hq => ?_, fun q hq => ?_, fun q hq => ?_, rfl⟩,
      ⟨fun i hi => ?_, fun i hi => ?_⟩, hB1, fun a ha => ?_, _, L, ?_, hC⟩
    · simp only [upd_ne _ _ hq, hs1]
    · simp only [upd_ne _ _ hq]; rfl
    · simp only [upd_ne _ _ hq]; rfl
    · simp only [upd_ne _ _ hq, hs1]
    · simp only [upd_ne _ _ hq, hs1]
    · simp only [upd_same]; exact h1 i hi
    · simp only [upd_same]; exact h2 i hi
    · simp only [upd_same, hs1]; exact hPb a ha
    · simp only [upd_same, syrk_potrf_ln_mn]; rfl

/-! ### classical recursion -/

/-- what the Schur complement routine leaves in `P` of stage `k`, in terms of the matrix `C` handed to
the factorisation -/
structure SchurOk (D : QpDim) (k : ℕ) (C : Mat K) (st : KktSt K) : Prop where
  lower : ∀ i j, i < D.nx k → j ≤ i → st.P k i j +
    ∑ l ∈ range (D.nu k), low (st.L k) (D.nu k + i) l * low (st.L k) (D.nu k + j) l = C (D.nu k + i) (D.nu k + j)
  sym : ∀ i j, i < D.nx k → j < D.nx k → st.P k i j = st.P k j i
  row : ∀ j, j < D.nx k → st.P k (D.nx k) j +
    ∑ l ∈ range (D.nu k), low (st.L k) (D.nu k + j) l * st.L k (D.nu k + D.nx k) l = C (D.nu k + D.nx k) (D.nu k + j)

theorem schurStage_val (sq : K → K) (D : QpDim) (k : ℕ) (C : Mat K) (st : KktSt K)
    (hL : st.L k = potrf_l_mn sq (D.nu k + D.nx k + 1) (D.nu k) C C) :
    let st' := schurStage D k st
    SFrame k st st' ∧ st'.L = st.L ∧ st'.Zs = st.Zs ∧ st'.ux = st.ux ∧ st'.BAbt = st.BAbt ∧ st'.Pb = st.Pb ∧
      SchurOk D k C st' := by
  intro st'
  have hP : ∀ i j, i < D.nx k + 1 → j < D.nx k → j ≤ i → st'.P k i j = C (D.nu k + i) (D.nu k + j) -
      ∑ l ∈ range (D.nu k), st.L k (D.nu k + i) l * st.L k (D.nu k + j) l := by
    intro i j hi hj hij
    simp only [st', schurStage, upd_same]
    have hs : ∀ i j, i < D.nx k + 1 → j < D.nx k → j ≤ i →
        syrk_ln_mn (D.nx k + 1) (D.nx k) (D.nu k) (-1) (gecp (D.nx k + 1) (D.nu k) (st.L k) (D.nu k) 0 st.Ls 0 0) 0 0
          (gecp (D.nx k + 1) (D.nu k) (st.L k) (D.nu k) 0 st.Ls 0 0) 0 0 1 (st.L k) (D.nu k) (D.nu k) (st.P k) 0 0 i j =
        C (D.nu k + i) (D.nu k + j) - ∑ l ∈ range (D.nu k), st.L k (D.nu k + i) l * st.L k (D.nu k + j) l := by
      intro i j hi hj hij
      rw [syrk_ln_mn, if_pos (by omega)]
      have e1 : st.L k (D.nu k + (i - 0)) (D.nu k + (j - 0)) = C (D.nu k + i) (D.nu k + j) := by
        rw [hL, potrf_out _ _ _ _ _ _ _ (by omega), Nat.sub_zero, Nat.sub_zero]
      have e2 : ∑ l ∈ range (D.nu k), gecp (D.nx k + 1) (D.nu k) (st.L k) (D.nu k) 0 st.Ls 0 0 (0 + (i - 0)) (0 + l) *
            gecp (D.nx k + 1) (D.nu k) (st.L k) (D.nu k) 0 st.Ls 0 0 (0 + (j - 0)) (0 + l) =
          ∑ l ∈ range (D.nu k), st.L k (D.nu k + i) l * st.L k (D.nu k + j) l := by
        apply sum_congr rfl
        intro l hl
        have hl := mem_range.mp hl
        rw [gecp, if_pos (by omega), gecp, if_pos (by omega)]
        simp only [Nat.sub_zero, zero_add]
      rw [e1, e2]; ring
    by_cases hij2 : i = j
    · subst hij2
      rw [trtr_l, if_pos (by omega)]
      simp only [Nat.sub_zero, zero_add]
      exact hs i i hi hj hij
    · rw [trtr_l, if_neg (by omega)]
      exact hs i j hi hj hij
  have hPt : ∀ i j, j < D.nx k → i ≤ j → st'.P k i j = st'.P k j i := by
    intro i j hj hij
    by_cases hij2 : i = j
    · rw [hij2]
    · simp only [st', schurStage, upd_same]
      rw [trtr_l, if_pos (by omega), trtr_l, if_neg (by omega)]
      simp only [Nat.sub_zero, zero_add]
  have hlow : ∀ i l, l < D.nu k → low (st'.L k) (D.nu k + i) l = st.L k (D.nu k + i) l := by
    intro i l hl
    show low (st.L k) _ _ = _
    rw [low, if_pos (by omega)]
  refine ⟨⟨fun q hq => rfl, fun q hq => ?_, fun q hq => rfl, fun q hq => rfl, fun q hq => rfl, fun q hq => rfl, rfl⟩,
    rfl, rfl, rfl, rfl, rfl, ⟨fun i j hi hj => ?_, fun i j hi hj => ?_, fun j hj => ?_⟩⟩
  · simp only [st', schurStage, upd_ne _ _ hq]
  · have : ∑ l ∈ range (D.nu k), low (st'.L k) (D.nu k + i) l * low (st'.L k) (D.nu k + j) l =
        ∑ l ∈ range (D.nu k), st.L k (D.nu k + i) l * st.L k (D.nu k + j) l :=
      sum_congr rfl (fun l hl => by rw [hlow i l (mem_range.mp hl), hlow j l (mem_range.mp hl)])
    rw [hP i j (by omega) (by omega) hj, this]
    ring
  · rcases Nat.le_total i j with h | h
    · exact hPt i j hj h
    · exact (hPt j i hi h).symm
  · have : ∑ l ∈ range (D.nu k), low (st'.L k) (D.nu k + j) l * st'.L k (D.nu k + D.nx k) l =
        ∑ l ∈ range (D.nu k), st.L k (D.nu k + D.nx k) l * st.L k (D.nu k + j) l :=
      sum_congr rfl (fun l hl => by rw [hlow j l (mem_range.mp hl)]; exact mul_comm _ _)
    rw [hP (D.nx k) j (by omega) hj (by omega), this]; ring

/-- SYRK on the stage matrix -/
theorem syrk_C (nv n o : ℕ) (A B C : Mat K) (i j : ℕ) (hi : i ≤ nv) (hj : j < nv) (hij : j ≤ i) :
    syrk_ln_mn (nv + 1) nv n 1 A 0 o B 0 0 1 C 0 0 C 0 0 i j = C i j + ∑ l ∈ range n, A i (o + l) * B j l := by
  rw [syrk_ln_mn, if_pos (by omega)]
  simp

/-- last stage of the classical sweep -/
theorem clLast_val (sq : K → K) (qp : OcpQp K) (hwf : qp.WF) (reg preg : K) (dr : ℕ → ℕ → K)
    (hdr : ∀ i, i < qp.dim.nu qp.dim.N + qp.dim.nx qp.dim.N → dr qp.dim.N i = if i < qp.dim.nu qp.dim.N then preg else reg)
    (G g : ℕ → Vec K) (st : KktSt K) (hR : ROk qp st) :
    let st' := clLast sq qp reg preg G g st
    let nv := qp.dim.nu qp.dim.N + qp.dim.nx qp.dim.N
    SFrame qp.dim.N st st' ∧ StSlk qp reg G g qp.dim.N st' ∧ st'.BAbt = st.BAbt ∧
    ∃ C, st'.L qp.dim.N = potrf_l_mn sq (nv + 1) (qp.dim.nu qp.dim.N) C C ∧
      CMat nv C (kH qp dr reg G qp.dim.N) (kg qp reg G g qp.dim.N) ∧ SchurOk qp.dim qp.dim.N C st' := by
  set k := qp.dim.N with hk
  obtain ⟨z, u, L, t0, t1, t2, t3, he, h1, h2, _, h4, h5, h6, h7⟩ := augStage_val qp hwf reg
    (drUX qp.dim reg preg k) (fun i => if i < qp.dim.nu k then preg else reg) G g k (le_refl _) (drUX_drOk _ _ _ _) st hR
  have h6' : ∀ i j, i < qp.dim.nu k + qp.dim.nx k → j ≤ i → L i j = symL (qp.RSQrq k) 0 0 i j + (if i = j then dr k i else 0)
        + ∑ l ∈ range (qp.dim.nb k), if qp.idxb k l = i ∧ qp.idxb k l = j then kTh qp reg G k l else 0 := by
    intro i j hi hj
    rw [h6 i j hi hj, hdr i hi]
  have hg := gen_ok qp dr reg G g k 0 L st.AL0 t0 t1 h4 h5 h6' h7
  intro st' nv
  -- the state before the Schur complement
  obtain ⟨s1, hs1, hst⟩ : ∃ s1, s1 = { (if qp.dim.ng k > 0 then
      ({ st with
        Zs := upd st.Zs k z
        ux := upd st.ux k u
        t0 := t0
        t1 := t1
        t2 := t2
        t3 := t3
        AL0 := genAL nv (qp.dim.ng k) (qp.DCt k) t0 t1 (qp.dim.nb k) 0 st.AL0
        L := upd st.L k (syrk_ln_mn (nv + 1) nv (qp.dim.ng k) 1 (genAL nv (qp.dim.ng k) (qp.DCt k) t0 t1 (qp.dim.nb k) 0 st.AL0) 0 0
          (qp.DCt k) 0 0 1 L 0 0 L 0 0) } : KktSt K)
      else { st with
        Zs := upd st.Zs k z
        ux := upd st.ux k u
        L := upd st.L k L
        t0 := t0
        t1 := t1
        t2 := t2
        t3 := t3 }) with
      L := upd st.L k (potrf_l_mn sq (nv + 1) (qp.dim.nu k)
        (if qp.dim.ng k > 0 then syrk_ln_mn (nv + 1) nv (qp.dim.ng k) 1 (genAL nv (qp.dim.ng k) (qp.DCt k) t0 t1 (qp.dim.nb k) 0 st.AL0) 0 0
          (qp.DCt k) 0 0 1 L 0 0 L 0 0 else L)
        (if qp.dim.ng k > 0 then syrk_ln_mn (nv + 1) nv (qp.dim.ng k) 1 (genAL nv (qp.dim.ng k) (qp.DCt k) t0 t1 (qp.dim.nb k) 0 st.AL0) 0 0
          (qp.DCt k) 0 0 1 L 0 0 L 0 0 else L)) } ∧ st' = schurStage qp.dim k s1 := by
    refine ⟨_, rfl, ?_⟩
    simp only [st', clLast, ← hk, he]
    by_cases hn : qp.dim.ng k > 0
    · simp only [if_pos hn, upd_same]
      congr 1
      simp only [KktSt.mk.injEq, true_and, and_true]
      refine ⟨?_, rfl⟩
      funext q
      by_cases hq : q = k
      · subst hq; simp only [upd_same]; rfl
      · simp only [upd_ne _ _ hq]
    · simp only [if_neg hn, upd_same]
      congr 1
      simp only [KktSt.mk.injEq, true_and, and_true]
      funext q
      by_cases hq : q = k
      · subst hq; simp only [upd_same]; rfl
      · simp only [upd_ne _ _ hq]
  have hC : CMat nv (if qp.dim.ng k > 0 then syrk_ln_mn (nv + 1) nv (qp.dim.ng k) 1 (genAL nv (qp.dim.ng k) (qp.DCt k) t0 t1 (qp.dim.nb k) 0 st.AL0) 0 0
          (qp.DCt k) 0 0 1 L 0 0 L 0 0 else L) (kH qp dr reg G k) (kg qp reg G g k) := by
    refine hg.congr (fun i j hi hj hij => ?_)
    by_cases hn : qp.dim.ng k > 0
    · rw [if_pos hn, syrk_C _ _ _ _ _ _ _ _ hi hj hij]
    · have hn0 : qp.dim.ng k = 0 := by omega
      rw [if_neg hn]
      simp only [hn0, range_zero, sum_empty, add_zero]
  generalize (if qp.dim.ng k > 0 then syrk_ln_mn (nv + 1) nv (qp.dim.ng k) 1 (genAL nv (qp.dim.ng k) (qp.DCt k) t0 t1 (qp.dim.nb k) 0 st.AL0) 0 0
          (qp.DCt k) 0 0 1 L 0 0 L 0 0 else L) = C at hs1 hC
  have hL1 : s1.L k = potrf_l_mn sq (nv + 1) (qp.dim.nu k) C C := by rw [hs1]; simp only [upd_same]
  have hf1 : SFrame k st s1 := by
    rw [hs1]
    refine ⟨fun q hq => ?_, fun q hq => ?_, fun q hq => ?_, fun q hq => ?_, fun q hq => ?_, fun q hq => ?_, ?_⟩
    · simp only [upd_ne _ _ hq]
    · split_ifs <;> rfl
    · split_ifs <;> simp only [upd_ne _ _ hq]
    · split_ifs <;> simp only [upd_ne _ _ hq]
    · split_ifs <;> rfl
    · split_ifs <;> rfl
    · split_ifs <;> rfl
  have hz1 : s1.Zs k = z := by rw [hs1]; split_ifs <;> simp only [upd_same]
  have hu1 : s1.ux k = u := by rw [hs1]; split_ifs <;> simp only [upd_same]
  have hb1 : s1.BAbt = st.BAbt := by rw [hs1]; split_ifs <;> rfl
  obtain ⟨f1, f2, f3, f4, f5, f6, f7⟩ := schurStage_val sq qp.dim k C s1 hL1
  rw [← hst] at f1 f2 f3 f4 f5 f6 f7
  refine ⟨⟨fun q hq => by rw [f1.L q hq, hf1.L q hq], fun q hq => by rw [f1.P q hq, hf1.P q hq],
      fun q hq => by rw [f1.Zs q hq, hf1.Zs q hq], fun q hq => by rw [f1.ux q hq, hf1.ux q hq],
      fun q hq => by rw [f1.BAbt q hq, hf1.BAbt q hq], fun q hq => by rw [f1.Pb q hq, hf1.Pb q hq],
      by rw [f1.RSQrq, hf1.RSQrq]⟩,
    ⟨fun i hi => by rw [f3, hz1, h1 i hi], fun i hi => by rw [f4, hu1, h2 i hi]⟩, by rw [f5, hb1], C, by rw [f2, hL1], hC, f7⟩

theorem SFrame.trans {k : ℕ} {a b c : KktSt K} (h1 : SFrame k a b) (h2 : SFrame k b c) : SFrame k a c :=
  ⟨fun q hq => by rw [h2.L q hq, h1.L q hq], fun q hq => by rw [h2.P q hq, h1.P q hq],
    fun q hq => by rw [h2.Zs q hq, h1.Zs q hq], fun q hq => by rw [h2.ux q hq, h1.ux q hq],
    fun q hq => by rw [h2.BAbt q hq, h1.BAbt q hq], fun q hq => by rw [h2.Pb q hq, h1.Pb q hq],
    by rw [h2.RSQrq, h1.RSQrq]⟩

/-- propagation step of the classical sweep -/
theorem clProp_val (qp : OcpQp K) (k : ℕ) (hkN : k < qp.dim.N) (st : KktSt K) (hB : BOk qp st)
    (hP : ∀ i j, i < qp.dim.nx (k + 1) → j < qp.dim.nx (k + 1) → st.P (k + 1) i j = st.P (k + 1) j i) :
    let st' := clProp qp k st
    let nv := qp.dim.nu k + qp.dim.nx k
    let n1 := qp.dim.nx (k + 1)
    SFrame k st st' ∧ BOk qp st' ∧ st'.L = st.L ∧ st'.P = st.P ∧
    (∀ a, a < n1 → st'.Pb k a = ∑ c ∈ range n1, st.P (k + 1) a c * qp.b k c) ∧
    (∀ i a, i < nv → a < n1 → st'.AL0 i a = ∑ l ∈ range n1, qp.BAbt k i l * st.P (k + 1) l a) ∧
    (∀ a, a < n1 → st'.AL0 nv a = ∑ l ∈ range n1, st.P (k + 1) a l * qp.b k l + st.P (k + 1) n1 a) := by
  intro st' nv n1
  set BA := rowin n1 1 (qp.b k) 0 (st.BAbt k) nv 0 with hBA
  set A0 := gemm_nt (nv + 1) n1 n1 1 BA 0 0 (st.P (k + 1)) 0 0 0 st.AL0 0 0 st.AL0 0 0 with hA0
  have hst : st' = { st with
    BAbt := upd st.BAbt k BA
    Pb := upd st.Pb k (rowex n1 1 A0 nv 0 (st.Pb k) 0)
    AL0 := gead 1 n1 1 (st.P (k + 1)) n1 0 A0 nv 0 } := rfl
  have hBAr : ∀ i a, i < nv → a < n1 → BA i a = qp.BAbt k i a := by
    intro i a hi ha
    rw [hBA, rowin, if_neg (by omega)]
    exact hB k i a hkN hi ha
  have hBAb : ∀ a, a < n1 → BA nv a = qp.b k a := by
    intro a ha
    rw [hBA, rowin, if_pos (by omega)]; simp
  have hAv : ∀ i a, i ≤ nv → a < n1 → A0 i a = ∑ l ∈ range n1, BA i l * st.P (k + 1) a l := by
    intro i a hi ha
    rw [hA0, gemm_nt, if_pos (by omega)]; simp
  rw [hst]
  refine ⟨⟨fun q hq => rfl, fun q hq => rfl, fun q hq => rfl, fun q hq => rfl, fun q hq => ?_, fun q hq => ?_, rfl⟩,
    fun q i a hq hi ha => ?_, rfl, rfl, fun a ha => ?_, fun i a hi ha => ?_, fun a ha => ?_⟩
  · simp only [upd_ne _ _ hq]
  · simp only [upd_ne _ _ hq]
  · by_cases hqk : q = k
    · subst hqk; simp only [upd_same]; exact hBAr i a hi ha
    · simp only [upd_ne _ _ hqk]; exact hB q i a hq hi ha
  · simp only [upd_same]
    rw [rowex, if_pos (by omega), Nat.sub_zero, zero_add, one_mul, hAv nv a (le_refl _) ha]
    exact sum_congr rfl (fun l hl => by rw [hBAb l (mem_range.mp hl), mul_comm])
  · show gead 1 n1 1 (st.P (k + 1)) n1 0 A0 nv 0 i a = _
    rw [gead, if_neg (by omega), hAv i a (by omega) ha]
    exact sum_congr rfl (fun l hl => by rw [hBAr i l hi (mem_range.mp hl), hP a l ha (mem_range.mp hl)])
  · show gead 1 n1 1 (st.P (k + 1)) n1 0 A0 nv 0 nv a = _
    rw [gead, if_pos (by omega), hAv nv a (le_refl _) ha]
    simp only [Nat.sub_self, Nat.sub_zero, zero_add, add_zero, one_mul]
    congr 1
    exact sum_congr rfl (fun l hl => by rw [hBAb l (mem_range.mp hl), mul_comm])

/-- stage matrix of the classical sweep -/
theorem clAug_val (qp : OcpQp K) (hwf : qp.WF) (reg : K) (drf : Mat K → Mat K) (dr : ℕ → ℕ → K) (G g : ℕ → Vec K) (k : ℕ)
    (hkN : k < qp.dim.N) (hdr : DrOk (qp.dim.nu k + qp.dim.nx k) drf (dr k)) (st : KktSt K) (hR : ROk qp st) :
    let st' := clAug qp reg drf G g k st
    let nv := qp.dim.nu k + qp.dim.nx k
    SFrame k st st' ∧ StSlk qp reg G g k st' ∧ st'.BAbt = st.BAbt ∧ st'.P = st.P ∧ st'.Pb = st.Pb ∧
    (∀ i a, a < qp.dim.nx (k + 1) → st'.AL0 i a = st.AL0 i a) ∧
    CMat nv (st'.L k) (kH qp dr reg G k) (kg qp reg G g k) := by
  obtain ⟨z, u, L, t0, t1, t2, t3, he, h1, h2, _, h4, h5, h6, h7⟩ := augStage_val qp hwf reg drf (dr k) G g k (by omega) hdr st hR
  have hg := gen_ok qp dr reg G g k (qp.dim.nx (k + 1)) L st.AL0 t0 t1 h4 h5 h6 h7
  intro st' nv
  by_cases hn : qp.dim.ng k > 0
  · obtain ⟨s', hs'⟩ : ∃ s', s' = st' := ⟨_, rfl⟩
    rw [← hs']
    have hst := hs'
    simp only [st', clAug, he, if_pos hn] at hst
    subst hst
    refine ⟨⟨fun q hq => ?_, fun q hq => rfl, fun q hq => ?_, fun q hq => ?_, fun q hq => rfl, fun q hq => rfl, rfl⟩,
      ⟨fun i hi => ?_, fun i hi => ?_⟩, rfl, rfl, rfl, fun i a ha => ?_, ?_⟩
    · simp only [upd_ne _ _ hq]
    · simp only [upd_ne _ _ hq]
    · simp only [upd_ne _ _ hq]
    · simp only [upd_same]; exact h1 i hi
    · simp only [upd_same]; exact h2 i hi
    · exact genAL_out nv (qp.dim.ng k) (qp.DCt k) t0 t1 (qp.dim.nb k) (qp.dim.nx (k + 1)) st.AL0 i a ha
    · simp only [upd_same]
      refine hg.congr (fun i j hi hj hij => ?_)
      rw [syrk_C _ _ _ _ _ _ _ _ hi hj hij]
      rfl
  · have hn0 : qp.dim.ng k = 0 := by omega
    obtain ⟨s', hs'⟩ : ∃ s', s' = st' := ⟨_, rfl⟩
    rw [← hs']
    have hst := hs'
    simp only [st', clAug, he, if_neg hn] at hst
    subst hst
    simp only [hn0, range_zero, sum_empty, add_zero] at hg
    refine ⟨⟨fun q hq => ?_, fun q hq => rfl, fun q hq => ?_, fun q hq => ?_, fun q hq => rfl, fun q hq => rfl, rfl⟩,
      ⟨fun i hi => ?_, fun i hi => ?_⟩, rfl, rfl, rfl, fun i a ha => rfl, ?_⟩
    · simp only [upd_ne _ _ hq]
    · simp only [upd_ne _ _ hq]
    · simp only [upd_ne _ _ hq]
    · simp only [upd_same]; exact h1 i hi
    · simp only [upd_same]; exact h2 i hi
    · simp only [upd_same]; exact hg

/-- the matrix factorised at a stage with a successor, classical sweep -/
theorem cl_C (qp : OcpQp K) (k nv n1 : ℕ) (C H A BA P : Mat K) (g b p : Vec K) (h : CMat nv C H g)
    (hB : ∀ i a, i < nv → a < n1 → BA i a = qp.BAbt k i a)
    (h1 : ∀ i a, i < nv → a < n1 → A i a = ∑ l ∈ range n1, qp.BAbt k i l * P l a)
    (h2 : ∀ a, a < n1 → A nv a = ∑ l ∈ range n1, P a l * b l + p a) :
    CMat nv (fun i j => C i j + ∑ l ∈ range n1, A i l * BA j l) (ricM n1 H (qp.BAbt k) P) (ricm n1 g (qp.BAbt k) P b p) := by
  refine ⟨fun i j hi hj => ?_, fun j hj => ?_⟩
  · simp only [ricM]
    rw [h.1 i j hi hj]
    congr 1
    rw [sum_comm]
    apply sum_congr rfl
    intro c hc
    rw [h1 i c hi (mem_range.mp hc), hB j c (by omega) (mem_range.mp hc), sum_mul]
  · simp only [ricm]
    rw [h.2 j hj]
    congr 1
    apply sum_congr rfl
    intro a ha
    rw [h2 a (mem_range.mp ha), hB j a hj (mem_range.mp ha), mul_comm]

/-- middle stage of the classical sweep, up to the factorisation -/
theorem clMid_val (sq : K → K) (qp : OcpQp K) (hwf : qp.WF) (reg preg : K) (dr : ℕ → ℕ → K) (G g : ℕ → Vec K) (k : ℕ)
    (hkN : k < qp.dim.N) (hdr : ∀ i, i < qp.dim.nu k + qp.dim.nx k → dr k i = if i < qp.dim.nu k then preg else reg)
    (st : KktSt K) (hR : ROk qp st) (hB : BOk qp st)
    (hP : ∀ i j, i < qp.dim.nx (k + 1) → j < qp.dim.nx (k + 1) → st.P (k + 1) i j = st.P (k + 1) j i) :
    let st' := clMid sq qp reg preg G g k st
    let nv := qp.dim.nu k + qp.dim.nx k
    let n1 := qp.dim.nx (k + 1)
    let p1 := st.P (k + 1) n1
    SFrame k st st' ∧ StSlk qp reg G g k st' ∧ BOk qp st' ∧
    (∀ a, a < n1 → st'.Pb k a = ∑ c ∈ range n1, st.P (k + 1) a c * qp.b k c) ∧
    ∃ C, st'.L k = potrf_l_mn sq (nv + 1) (qp.dim.nu k) C C ∧
      CMat nv C (ricM n1 (kH qp dr reg G k) (qp.BAbt k) (st.P (k + 1)))
        (ricm n1 (kg qp reg G g k) (qp.BAbt k) (st.P (k + 1)) (qp.b k) p1) := by
  intro st' nv n1 p1
  obtain ⟨f1, f2, f3, f4, f5, f6, f7⟩ := clProp_val qp k hkN st hB hP
  have hdr' : DrOk (qp.dim.nu k + qp.dim.nx k) (drUX qp.dim reg preg k) (dr k) := by
    intro L i j hi hj
    rw [drUX_drOk qp.dim reg preg k L i j hi hj, hdr i hi]
  obtain ⟨c1, c2, c3, c4, c5, c6, c7⟩ := clAug_val qp hwf reg (drUX qp.dim reg preg k) dr G g k hkN hdr' (clProp qp k st)
    (by intro q i j; rw [f1.RSQrq]; exact hR q i j)
  set s2 := clAug qp reg (drUX qp.dim reg preg k) G g k (clProp qp k st) with hs2
  set C := syrk_ln_mn (nv + 1) nv n1 1 s2.AL0 0 0 (s2.BAbt k) 0 0 1 (s2.L k) 0 0 (s2.L k) 0 0 with hC
  have hst : st' = { s2 with L := upd s2.L k (potrf_l_mn sq (nv + 1) (qp.dim.nu k) C C) } := rfl
  have hf : SFrame k s2 st' := by
    rw [hst]
    exact ⟨fun q hq => by simp only [upd_ne _ _ hq], fun q hq => rfl, fun q hq => rfl, fun q hq => rfl, fun q hq => rfl,
      fun q hq => rfl, rfl⟩
  refine ⟨(f1.trans c1).trans hf, ⟨c2.Zs, c2.ux⟩, ?_, ?_, C, ?_, ?_⟩
  · show BOk qp s2
    intro q i a; rw [c3]; exact f2 q i a
  · intro a ha
    show s2.Pb k a = _
    rw [c5, f5 a ha]
  · rw [hst]; simp only [upd_same]
  · have := cl_C qp k nv n1 (s2.L k) _ s2.AL0 (s2.BAbt k) (st.P (k + 1)) _ (qp.b k) p1 c7
      (fun i a hi ha => by rw [c3]; exact f2 k i a hkN hi ha)
      (fun i a hi ha => by rw [c6 i a ha]; exact f6 i a hi ha)
      (fun a ha => by rw [c6 nv a ha]; exact f7 a ha)
    refine this.congr (fun i j hi hj hij => ?_)
    rw [hC, syrk_C _ _ _ _ _ _ _ _ hi hj hij]
    simp only [zero_add]

/-- first stage of the classical sweep -/
theorem clFirst_val (sq : K → K) (qp : OcpQp K) (hwf : qp.WF) (reg preg : K) (dr : ℕ → ℕ → K) (G g : ℕ → Vec K) (k : ℕ)
    (hkN : k < qp.dim.N) (hdr : ∀ i, i < qp.dim.nu k + qp.dim.nx k → dr k i = preg)
    (st : KktSt K) (hR : ROk qp st) (hB : BOk qp st)
    (hP : ∀ i j, i < qp.dim.nx (k + 1) → j < qp.dim.nx (k + 1) → st.P (k + 1) i j = st.P (k + 1) j i) :
    let st' := clFirst sq qp reg preg G g k st
    let nv := qp.dim.nu k + qp.dim.nx k
    let n1 := qp.dim.nx (k + 1)
    let p1 := st.P (k + 1) n1
    SFrame k st st' ∧ StSlk qp reg G g k st' ∧ BOk qp st' ∧
    (∀ a, a < n1 → st'.Pb k a = ∑ c ∈ range n1, st.P (k + 1) a c * qp.b k c) ∧
    ∃ C L0, st'.L k = potrf_l_mn sq (nv + 1) nv C L0 ∧
      CMat nv C (ricM n1 (kH qp dr reg G k) (qp.BAbt k) (st.P (k + 1)))
        (ricm n1 (kg qp reg G g k) (qp.BAbt k) (st.P (k + 1)) (qp.b k) p1) := by
  intro st' nv n1 p1
  obtain ⟨f1, f2, f3, f4, f5, f6, f7⟩ := clProp_val qp k hkN st hB hP
  have hdr' : DrOk (qp.dim.nu k + qp.dim.nx k) (fun L => diare nv preg L 0 0) (dr k) := by
    intro L i j hi hj
    rw [diare_drOk nv preg L i j hi hj, hdr i hi]
  obtain ⟨c1, c2, c3, c4, c5, c6, c7⟩ := clAug_val qp hwf reg (fun L => diare nv preg L 0 0) dr G g k hkN hdr' (clProp qp k st)
    (by intro q i j; rw [f1.RSQrq]; exact hR q i j)
  set s2 := clAug qp reg (fun L => diare nv preg L 0 0) G g k (clProp qp k st) with hs2
  have hst : st' = { s2 with L := upd s2.L k (syrk_potrf_ln_mn sq (nv + 1) nv n1 s2.AL0 (s2.BAbt k) (s2.L k) (s2.L k)) } := rfl
  have hf : SFrame k s2 st' := by
    rw [hst]
    exact ⟨fun q hq => by simp only [upd_ne _ _ hq], fun q hq => rfl, fun q hq => rfl, fun q hq => rfl, fun q hq => rfl,
      fun q hq => rfl, rfl⟩
  refine ⟨(f1.trans c1).trans hf, ⟨c2.Zs, c2.ux⟩, ?_, ?_, (fun i j => s2.L k i j + ∑ l ∈ range n1, s2.AL0 i l * s2.BAbt k j l),
    s2.L k, ?_, ?_⟩
  · show BOk qp s2
    intro q i a; rw [c3]; exact f2 q i a
  · intro a ha
    show s2.Pb k a = _
    rw [c5, f5 a ha]
  · rw [hst]; simp only [upd_same]; rfl
  · exact cl_C qp k nv n1 (s2.L k) _ s2.AL0 (s2.BAbt k) (st.P (k + 1)) _ (qp.b k) p1 c7
      (fun i a hi ha => by rw [c3]; exact f2 k i a hkN hi ha)
      (fun i a hi ha => by rw [c6 i a ha]; exact f6 i a hi ha)
      (fun a ha => by rw [c6 nv a ha]; exact f7 a ha)

end
end Hpipm
