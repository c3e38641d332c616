/-
Sweeps of the KKT solver (intermediate results): a backward sweep without a zero pivot leaves a valid
Riccati factorisation and right-hand side in the workspace.
-/
import Verif.KktBack

namespace Hpipm
open Finset
set_option linter.unusedSectionVars false

section
variable {K : Type*} [Field K] [LinearOrder K]

theorem singular_false {n : ℕ} {L : Mat K} (h : singular n L = false) (i : ℕ) (hi : i < n) : L i i ≠ 0 := by
  unfold singular at h
  have key : ∀ m, loop m (fun ii s => s || decide (L ii ii = 0)) false = false → ∀ i, i < m → L i i ≠ 0 := by
    intro m
    induction m with
    | zero => intro _ i hi; omega
    | succ m ih =>
      intro h i hi
      rw [loop_succ, Bool.or_eq_false_iff] at h
      by_cases him : i = m
      · subst him; simpa using h.2
      · exact ih h.1 i (by omega)
  exact key n h i hi

theorem singular_eq_false {n : ℕ} {L : Mat K} (h : ∀ i, i < n → L i i ≠ 0) : singular n L = false := by
  unfold singular
  have key : ∀ m, m ≤ n → loop m (fun ii s => s || decide (L ii ii = 0)) false = false := by
    intro m
    induction m with
    | zero => intro _; rfl
    | succ m ih =>
      intro hm
      rw [loop_succ, ih (by omega)]
      simpa using h m (by omega)
  exact key n (le_refl _)

/-- the Riccati data of a QP: condensed Hessians, gradients, dynamics, and a factorisation -/
def kData (qp : OcpQp K) (dr : ℕ → ℕ → K) (reg : K) (G g : ℕ → Vec K) (Lam P : ℕ → Mat K) : RicData K where
  N := qp.dim.N
  nu := qp.dim.nu
  nx := qp.dim.nx
  H := kH qp dr reg G
  g := kg qp reg G g
  BA := qp.BAbt
  b := qp.b
  Lam := Lam
  P := P

theorem kData_M_lt (qp : OcpQp K) (dr : ℕ → ℕ → K) (reg : K) (G g : ℕ → Vec K) (Lam P : ℕ → Mat K) {k : ℕ} (h : k < qp.dim.N) :
    (kData qp dr reg G g Lam P).M k = ricM (qp.dim.nx (k + 1)) (kH qp dr reg G k) (qp.BAbt k) (P (k + 1)) := if_pos h

theorem kData_M_ge (qp : OcpQp K) (dr : ℕ → ℕ → K) (reg : K) (G g : ℕ → Vec K) (Lam P : ℕ → Mat K) {k : ℕ} (h : ¬ k < qp.dim.N) :
    (kData qp dr reg G g Lam P).M k = kH qp dr reg G k := if_neg h

theorem kData_m_lt (qp : OcpQp K) (dr : ℕ → ℕ → K) (reg : K) (G g : ℕ → Vec K) (Lam P : ℕ → Mat K) (p : ℕ → Vec K) {k : ℕ}
    (h : k < qp.dim.N) : (kData qp dr reg G g Lam P).m p k =
      ricm (qp.dim.nx (k + 1)) (kg qp reg G g k) (qp.BAbt k) (P (k + 1)) (qp.b k) (p (k + 1)) := if_pos h

theorem kData_m_ge (qp : OcpQp K) (dr : ℕ → ℕ → K) (reg : K) (G g : ℕ → Vec K) (Lam P : ℕ → Mat K) (p : ℕ → Vec K) {k : ℕ}
    (h : ¬ k < qp.dim.N) : (kData qp dr reg G g Lam P).m p k = kg qp reg G g k := if_neg h

theorem kData_M_congr (qp : OcpQp K) (dr : ℕ → ℕ → K) (reg : K) (G g : ℕ → Vec K) {Lam P Lam' P' : ℕ → Mat K} {k : ℕ}
    (h : P' (k + 1) = P (k + 1)) : (kData qp dr reg G g Lam' P').M k = (kData qp dr reg G g Lam P).M k := by
  by_cases hk : k < qp.dim.N
  · rw [kData_M_lt _ _ _ _ _ _ _ hk, kData_M_lt _ _ _ _ _ _ _ hk, h]
  · rw [kData_M_ge _ _ _ _ _ _ _ hk, kData_M_ge _ _ _ _ _ _ _ hk]

theorem kData_m_congr (qp : OcpQp K) (dr : ℕ → ℕ → K) (reg : K) (G g : ℕ → Vec K) {Lam P Lam' P' : ℕ → Mat K} {p p' : ℕ → Vec K} {k : ℕ}
    (h : P' (k + 1) = P (k + 1)) (h' : p' (k + 1) = p (k + 1)) :
    (kData qp dr reg G g Lam' P').m p' k = (kData qp dr reg G g Lam P).m p k := by
  by_cases hk : k < qp.dim.N
  · rw [kData_m_lt _ _ _ _ _ _ _ _ hk, kData_m_lt _ _ _ _ _ _ _ _ hk, h, h']
  · rw [kData_m_ge _ _ _ _ _ _ _ _ hk, kData_m_ge _ _ _ _ _ _ _ _ hk]

/-- workspace contents after a successful backward sweep -/
structure BackOk (qp : OcpQp K) (dr : ℕ → ℕ → K) (reg : K) (G g : ℕ → Vec K) (P : ℕ → Mat K) (p : ℕ → Vec K)
    (st : KktSt K) : Prop where
  ba : BOk qp st
  r : ROk qp st
  fac : (kData qp dr reg G g st.L P).Fac
  rhs : (kData qp dr reg G g st.L P).Rhs p (fun k l => st.L k (qp.dim.nu k + qp.dim.nx k) l)
  slk : ∀ k, k ≤ qp.dim.N → StSlk qp reg G g k st
  pb : ∀ k a, k < qp.dim.N → a < qp.dim.nx (k + 1) → st.Pb k a = ∑ c ∈ range (qp.dim.nx (k + 1)), P (k + 1) a c * qp.b k c

/-- rows of a factor give the factorisation identities -/
theorem potrf_rows (sq : K → K) (hsq : ∀ x, 0 < x → sq x * sq x = x) (nv n : ℕ) (hn : n ≤ nv) (C L0 L M : Mat K) (m : Vec K)
    (hL : L = potrf_l_mn sq (nv + 1) n C L0) (hC : CMat nv C M m) (hp : ∀ j, j < n → L j j ≠ 0) :
    (∀ i j, i < nv → j < n → j ≤ i → ∑ l ∈ range n, low L i l * low L j l = M i j) ∧
    (∀ j, j < n → ∑ l ∈ range n, low L j l * L nv l = m j) := by
  subst hL
  refine ⟨fun i j hi hj hij => ?_, fun j hj => ?_⟩
  · rw [potrf_spec sq hsq (nv + 1) n (by omega) C L0 hp i j (by omega) hj hij, hC.1 i j hi hij]
  · rw [← hC.2 j (by omega), ← potrf_spec sq hsq (nv + 1) n (by omega) C L0 hp nv j (by omega) hj (by omega)]
    apply sum_congr rfl
    intro l hl
    have := mem_range.mp hl
    have e : low (potrf_l_mn sq (nv + 1) n C L0) nv l = potrf_l_mn sq (nv + 1) n C L0 nv l := by
      rw [low, if_pos (by omega)]
    rw [e, mul_comm]

/-! ### square-root sweep -/

/-- stage `k` is factorised (square-root) -/
structure SqOk (sq : K → K) (qp : OcpQp K) (dr : ℕ → ℕ → K) (reg : K) (G g : ℕ → Vec K) (k : ℕ) (st : KktSt K) : Prop where
  slk : StSlk qp reg G g k st
  pb : ∀ a, k < qp.dim.N → a < qp.dim.nx (k + 1) → st.Pb k a =
    ∑ c ∈ range (qp.dim.nx (k + 1)), sqP (qp.dim.nu (k + 1)) (qp.dim.nx (k + 1)) (st.L (k + 1)) a c * qp.b k c
  fac : ∃ C L0, st.L k = potrf_l_mn sq (qp.dim.nu k + qp.dim.nx k + 1) (qp.dim.nu k + qp.dim.nx k) C L0 ∧
    CMat (qp.dim.nu k + qp.dim.nx k) C
      ((kData qp dr reg G g st.L (fun q => sqP (qp.dim.nu q) (qp.dim.nx q) (st.L q))).M k)
      ((kData qp dr reg G g st.L (fun q => sqP (qp.dim.nu q) (qp.dim.nx q) (st.L q))).m
        (fun q => sqp (qp.dim.nu q) (qp.dim.nx q) (st.L q)) k)
  piv : ∀ j, j < qp.dim.nu k + qp.dim.nx k → st.L k j j ≠ 0

theorem SqOk.frame {sq : K → K} {qp : OcpQp K} {dr : ℕ → ℕ → K} {reg : K} {G g : ℕ → Vec K} {k q : ℕ} {st st' : KktSt K}
    (h : SqOk sq qp dr reg G g q st) (hf : SFrame k st st') (hq : k < q) : SqOk sq qp dr reg G g q st' := by
  have e1 : st'.L q = st.L q := hf.L q (by omega)
  have e2 : st'.L (q + 1) = st.L (q + 1) := hf.L _ (by omega)
  refine ⟨⟨fun i hi => ?_, fun i hi => ?_⟩, fun a ha1 ha2 => ?_, ?_, fun j hj => ?_⟩
  · rw [hf.Zs q (by omega)]; exact h.slk.Zs i hi
  · rw [hf.ux q (by omega)]; exact h.slk.ux i hi
  · rw [hf.Pb q (by omega), e2]; exact h.pb a ha1 ha2
  · obtain ⟨C, L0, h1, h2⟩ := h.fac
    refine ⟨C, L0, by rw [e1, h1], ?_⟩
    rw [kData_M_congr qp dr reg G g (Lam := st.L) (P := fun q => sqP (qp.dim.nu q) (qp.dim.nx q) (st.L q)) (by simp only [e2]),
      kData_m_congr qp dr reg G g (Lam := st.L) (P := fun q => sqP (qp.dim.nu q) (qp.dim.nx q) (st.L q))
        (p := fun q => sqp (qp.dim.nu q) (qp.dim.nx q) (st.L q)) (by simp only [e2]) (by simp only [e2])]
    exact h2
  · rw [e1]; exact h.piv j hj

theorem sqBack_ok (sq : K → K) (qp : OcpQp K) (hwf : qp.WF) (reg preg : K) (dr : ℕ → ℕ → K)
    (hdr : ∀ k i, k ≤ qp.dim.N → i < qp.dim.nu k + qp.dim.nx k → dr k i = preg) (G g : ℕ → Vec K)
    (st : KktSt K) (hR : ROk qp st) (hB : BOk qp st) :
    let s := sqBack sq qp reg preg G g st
    ROk qp s.2 ∧ BOk qp s.2 ∧ (s.1 = false → ∀ k, k ≤ qp.dim.N → SqOk sq qp dr reg G g k s.2) := by
  intro s
  have key := loop_inv (S := Bool × KktSt K) (fun nn s => ROk qp s.2 ∧ BOk qp s.2 ∧
      (s.1 = false → ∀ k, qp.dim.N ≤ k + nn → k ≤ qp.dim.N → SqOk sq qp dr reg G g k s.2)) qp.dim.N
    (fun nn (s : Bool × KktSt K) =>
      if s.1 then s
      else
        let ss := qp.dim.N - nn - 1
        let st := sqMid sq qp reg preg G g ss s.2
        (singular (qp.dim.nu ss + qp.dim.nx ss) (st.L ss), st))
    (singular (qp.dim.nu qp.dim.N + qp.dim.nx qp.dim.N) ((sqLast sq qp reg preg G g st).L qp.dim.N), sqLast sq qp reg preg G g st)
    ?_ ?_
  · obtain ⟨h1, h2, h3⟩ := key
    exact ⟨h1, h2, fun hs k hk => h3 hs k (by omega) hk⟩
  · obtain ⟨f1, f2, f3, C, L0, f4, f5⟩ := sqLast_val sq qp hwf reg preg dr (fun i hi => hdr _ i (le_refl _) hi) G g st hR
    refine ⟨fun q i j => ?_, fun q i a => ?_, fun hs k hk1 hk2 => ?_⟩
    · show q ≤ _ → i < _ → j ≤ i → (sqLast sq qp reg preg G g st).RSQrq q i j = _
      rw [f1.RSQrq]; exact hR q i j
    · show q < _ → _ → _ → (sqLast sq qp reg preg G g st).BAbt q i a = _
      rw [f3]; exact hB q i a
    · have : k = qp.dim.N := by omega
      subst this
      refine ⟨f2, fun a ha => absurd ha (lt_irrefl _), ⟨C, L0, f4, ?_⟩, fun j hj => singular_false hs j hj⟩
      rw [kData_M_ge _ _ _ _ _ _ _ (lt_irrefl _), kData_m_ge _ _ _ _ _ _ _ _ (lt_irrefl _)]; exact f5
  · rintro nn ⟨b, t⟩ hnn ⟨h1, h2, h3⟩
    simp only at h1 h2 h3
    by_cases hb : b = true
    · subst hb
      simp only [if_true]
      exact ⟨h1, h2, fun hc => by simp at hc⟩
    · have hb : b = false := by simpa using hb
      subst hb
      simp only [Bool.false_eq_true, if_false]
      set ss := qp.dim.N - nn - 1 with hss
      obtain ⟨f1, f2, f3, f4, C, L0, f5, f6⟩ := sqMid_val sq qp hwf reg preg dr G g ss (by omega)
        (fun i hi => hdr _ i (by omega) hi) t h1 h2
      refine ⟨fun q i j => ?_, f3, fun hs k hk1 hk2 => ?_⟩
      · show q ≤ _ → i < _ → j ≤ i → (sqMid sq qp reg preg G g ss t).RSQrq q i j = _
        rw [f1.RSQrq]; exact h1 q i j
      · by_cases hk : k = ss
        · rw [hk]
          have e : (sqMid sq qp reg preg G g ss t).L (ss + 1) = t.L (ss + 1) := f1.L _ (by omega)
          refine ⟨f2, fun a _ ha => ?_, ⟨C, L0, f5, ?_⟩, fun j hj => singular_false hs j hj⟩
          · rw [e]; exact f4 a ha
          · have hlt : ss < qp.dim.N := by omega
            rw [kData_M_lt _ _ _ _ _ _ _ hlt, kData_m_lt _ _ _ _ _ _ _ _ hlt]; simp only [e]; exact f6
        · exact (h3 rfl k (by omega) hk2).frame f1 (by omega)

/-- the square-root sweep leaves a valid factorisation -/
theorem sqBack_back (sq : K → K) (hsq : ∀ x, 0 < x → sq x * sq x = x) (qp : OcpQp K) (dr : ℕ → ℕ → K) (reg : K)
    (G g : ℕ → Vec K) (st : KktSt K) (hR : ROk qp st) (hB : BOk qp st)
    (h : ∀ k, k ≤ qp.dim.N → SqOk sq qp dr reg G g k st) :
    BackOk qp dr reg G g (fun q => sqP (qp.dim.nu q) (qp.dim.nx q) (st.L q))
      (fun q => sqp (qp.dim.nu q) (qp.dim.nx q) (st.L q)) st := by
  set R := kData qp dr reg G g st.L (fun q => sqP (qp.dim.nu q) (qp.dim.nx q) (st.L q)) with hRd
  set p := (fun q => sqp (qp.dim.nu q) (qp.dim.nx q) (st.L q)) with hp
  have hMs : ∀ k, k ≤ qp.dim.N → ∀ i j, i < qp.dim.nu k + qp.dim.nx k → j < qp.dim.nu k + qp.dim.nx k → R.M k i j = R.M k j i := by
    intro k hk i j hi hj
    unfold RicData.M
    split_ifs
    · exact ricM_sym (n := qp.dim.nu k + qp.dim.nx k) (fun i j _ _ => kH_sym qp dr reg G k i j)
        (fun i j _ _ => sqP_sym _ _ _ i j) i j hi hj
    · exact kH_sym qp dr reg G k i j
  have hrows : ∀ k, k ≤ qp.dim.N →
      (∀ i j, i < qp.dim.nu k + qp.dim.nx k → j < qp.dim.nu k + qp.dim.nx k → j ≤ i →
        ∑ l ∈ range (qp.dim.nu k + qp.dim.nx k), low (st.L k) i l * low (st.L k) j l = R.M k i j) ∧
      (∀ j, j < qp.dim.nu k + qp.dim.nx k →
        ∑ l ∈ range (qp.dim.nu k + qp.dim.nx k), low (st.L k) j l * st.L k (qp.dim.nu k + qp.dim.nx k) l = R.m p k j) := fun k hk => by
    obtain ⟨C, L0, h1, h2⟩ := (h k hk).fac
    exact potrf_rows sq hsq (qp.dim.nu k + qp.dim.nx k) _ (le_refl _) C L0 (st.L k) _ _ h1 h2 (h k hk).piv
  have hstage : ∀ k, k ≤ qp.dim.N → RicStage (qp.dim.nu k) (qp.dim.nx k) (R.M k) (R.m p k) (st.L k)
      (fun l => st.L k (qp.dim.nu k + qp.dim.nx k) l) (R.P k) (p k) := fun k hk =>
    ric_sqrt (hrows k hk).1 (hrows k hk).2 (h k hk).piv (hMs k hk)
  refine ⟨hB, hR, ⟨fun k i j _ _ _ => kH_sym qp dr reg G k i j, fun k hk => ?_⟩, ⟨fun k j hk hj => ?_, fun k i hk hi => ?_⟩,
    fun k hk => (h k hk).slk, fun k a hk ha => (h k (le_of_lt hk)).pb a hk ha⟩
  · by_cases hk0 : k = 0
    · subst hk0
      have e1 : R.ne 0 = qp.dim.nu 0 + qp.dim.nx 0 := if_pos rfl
      have e2 : R.nr 0 = 0 := if_pos rfl
      rw [e1, e2]
      exact ⟨fun i j hi hj hij => (hrows 0 hk).1 i j hi hj hij, fun i j hi => by omega, (h 0 hk).piv⟩
    · have e1 : R.ne k = qp.dim.nu k := if_neg hk0
      have e2 : R.nr k = qp.dim.nx k := if_neg hk0
      rw [e1, e2]
      exact (hstage k hk).toFac
  · by_cases hk0 : k = 0
    · subst hk0
      have e1 : R.ne 0 = qp.dim.nu 0 + qp.dim.nx 0 := if_pos rfl
      rw [e1] at hj ⊢
      exact (hrows 0 hk).2 j hj
    · have e1 : R.ne k = qp.dim.nu k := if_neg hk0
      rw [e1] at hj ⊢
      exact (hstage k hk).rhs j hj
  · by_cases hk0 : k = 0
    · subst hk0
      have e2 : R.nr 0 = 0 := if_pos rfl
      exact absurd (lt_of_lt_of_eq hi e2) (by omega)
    · have e1 : R.ne k = qp.dim.nu k := if_neg hk0
      have e2 : R.nr k = qp.dim.nx k := if_neg hk0
      rw [e2] at hi
      rw [e1]
      exact (hstage k hk).schurv i hi

/-! ### classical sweep -/

/-- stage `k ≥ 1` is factorised (classical) -/
structure ClOk (sq : K → K) (qp : OcpQp K) (dr : ℕ → ℕ → K) (reg : K) (G g : ℕ → Vec K) (k : ℕ) (st : KktSt K) : Prop where
  slk : StSlk qp reg G g k st
  pb : ∀ a, k < qp.dim.N → a < qp.dim.nx (k + 1) → st.Pb k a =
    ∑ c ∈ range (qp.dim.nx (k + 1)), st.P (k + 1) a c * qp.b k c
  fac : ∃ C L0, st.L k = potrf_l_mn sq (qp.dim.nu k + qp.dim.nx k + 1) (qp.dim.nu k) C L0 ∧
    CMat (qp.dim.nu k + qp.dim.nx k) C ((kData qp dr reg G g st.L st.P).M k)
      ((kData qp dr reg G g st.L st.P).m (fun q => st.P q (qp.dim.nx q)) k) ∧ SchurOk qp.dim k C st
  piv : ∀ j, j < qp.dim.nu k → st.L k j j ≠ 0

theorem ClOk.frame {sq : K → K} {qp : OcpQp K} {dr : ℕ → ℕ → K} {reg : K} {G g : ℕ → Vec K} {k q : ℕ} {st st' : KktSt K}
    (h : ClOk sq qp dr reg G g q st) (hf : SFrame k st st') (hq : k < q) : ClOk sq qp dr reg G g q st' := by
  have e1 : st'.L q = st.L q := hf.L q (by omega)
  have e2 : st'.P (q + 1) = st.P (q + 1) := hf.P _ (by omega)
  have e3 : st'.P q = st.P q := hf.P _ (by omega)
  refine ⟨⟨fun i hi => ?_, fun i hi => ?_⟩, fun a ha1 ha2 => ?_, ?_, fun j hj => ?_⟩
  · rw [hf.Zs q (by omega)]; exact h.slk.Zs i hi
  · rw [hf.ux q (by omega)]; exact h.slk.ux i hi
  · rw [hf.Pb q (by omega), e2]; exact h.pb a ha1 ha2
  · obtain ⟨C, L0, h1, h2, h3⟩ := h.fac
    refine ⟨C, L0, by rw [e1, h1], ?_, ⟨fun i j => ?_, fun i j => ?_, fun j => ?_⟩⟩
    · rw [kData_M_congr qp dr reg G g (Lam := st.L) (P := st.P) e2,
        kData_m_congr qp dr reg G g (Lam := st.L) (P := st.P) (p := fun q => st.P q (qp.dim.nx q)) e2 (by simp only [e2])]
      exact h2
    · rw [e1, e3]; exact h3.lower i j
    · rw [e3]; exact h3.sym i j
    · rw [e1, e3]; exact h3.row j
  · rw [e1]; exact h.piv j hj

/-- the first stage is factorised (classical) -/
structure ClOk0 (sq : K → K) (qp : OcpQp K) (dr : ℕ → ℕ → K) (reg : K) (G g : ℕ → Vec K) (st : KktSt K) : Prop where
  slk : StSlk qp reg G g 0 st
  pb : ∀ a, a < qp.dim.nx 1 → st.Pb 0 a = ∑ c ∈ range (qp.dim.nx 1), st.P 1 a c * qp.b 0 c
  fac : ∃ C L0, st.L 0 = potrf_l_mn sq (qp.dim.nu 0 + qp.dim.nx 0 + 1) (qp.dim.nu 0 + qp.dim.nx 0) C L0 ∧
    CMat (qp.dim.nu 0 + qp.dim.nx 0) C ((kData qp dr reg G g st.L st.P).M 0)
      ((kData qp dr reg G g st.L st.P).m (fun q => st.P q (qp.dim.nx q)) 0)
  piv : ∀ j, j < qp.dim.nu 0 + qp.dim.nx 0 → st.L 0 j j ≠ 0

/-- regularisation pattern of the classical sweep -/
def drCl (qp : OcpQp K) (reg preg : K) (k i : ℕ) : K := if k = 0 ∨ i < qp.dim.nu k then preg else reg

theorem clBack_ok (sq : K → K) (qp : OcpQp K) (hwf : qp.WF) (hN : 1 ≤ qp.dim.N) (reg preg : K) (G g : ℕ → Vec K)
    (st : KktSt K) (hR : ROk qp st) (hB : BOk qp st) :
    let s := clBack sq qp reg preg G g st
    ROk qp s.2 ∧ BOk qp s.2 ∧ (s.1 = false → ClOk0 sq qp (drCl qp reg preg) reg G g s.2 ∧
      ∀ k, 1 ≤ k → k ≤ qp.dim.N → ClOk sq qp (drCl qp reg preg) reg G g k s.2) := by
  intro s
  set dr := drCl qp reg preg with hdrd
  have hdr : ∀ k i, 1 ≤ k → dr k i = if i < qp.dim.nu k then preg else reg := by
    intro k i hk
    have : ¬ k = 0 := by omega
    simp only [hdrd, drCl, this, false_or]
  set s0 := loop (qp.dim.N - 1) (fun nn (s : Bool × KktSt K) =>
      if s.1 then s
      else
        let ss := qp.dim.N - nn - 1
        let st := clMid sq qp reg preg G g ss s.2
        if singular (qp.dim.nu ss) (st.L ss) then (true, st) else (false, schurStage qp.dim ss st))
    (singular (qp.dim.nu qp.dim.N) ((clLast sq qp reg preg G g st).L qp.dim.N), clLast sq qp reg preg G g st) with hs0
  have key := loop_inv (S := Bool × KktSt K) (fun nn s => ROk qp s.2 ∧ BOk qp s.2 ∧
      (s.1 = false → ∀ k, qp.dim.N ≤ k + nn → k ≤ qp.dim.N → ClOk sq qp dr reg G g k s.2)) (qp.dim.N - 1)
    (fun nn (s : Bool × KktSt K) =>
      if s.1 then s
      else
        let ss := qp.dim.N - nn - 1
        let st := clMid sq qp reg preg G g ss s.2
        if singular (qp.dim.nu ss) (st.L ss) then (true, st) else (false, schurStage qp.dim ss st))
    (singular (qp.dim.nu qp.dim.N) ((clLast sq qp reg preg G g st).L qp.dim.N), clLast sq qp reg preg G g st)
    ?_ ?_
  · rw [← hs0] at key
    obtain ⟨h1, h2, h3⟩ := key
    have hs : s = (if s0.1 then s0
      else if qp.dim.N > 0 then
        (singular (qp.dim.nu (qp.dim.N - (qp.dim.N - 1) - 1) + qp.dim.nx (qp.dim.N - (qp.dim.N - 1) - 1))
          ((clFirst sq qp reg preg G g (qp.dim.N - (qp.dim.N - 1) - 1) s0.2).L (qp.dim.N - (qp.dim.N - 1) - 1)),
          clFirst sq qp reg preg G g (qp.dim.N - (qp.dim.N - 1) - 1) s0.2)
      else s0) := rfl
    have e0 : qp.dim.N - (qp.dim.N - 1) - 1 = 0 := by omega
    rw [e0] at hs
    by_cases hb : s0.1 = true
    · rw [hs, if_pos hb]
      exact ⟨h1, h2, fun hc => by rw [hb] at hc; cases hc⟩
    · have hb : s0.1 = false := by simpa using hb
      rw [hs, if_neg (by rw [hb]; simp), if_pos (by omega)]
      have h3 := h3 hb
      obtain ⟨C1, _, _, _, hS⟩ := (h3 1 (by omega) (by omega)).fac
      obtain ⟨f1, f2, f3, f4, C, L0, f5, f6⟩ := clFirst_val sq qp hwf reg preg dr G g 0 (by omega)
        (fun i hi => by simp only [hdrd, drCl, true_or, if_true]) s0.2 h1 h2 hS.sym
      refine ⟨fun q i j => ?_, f3, fun hs => ⟨⟨f2, fun a ha => ?_, ⟨C, L0, f5, ?_⟩, fun j hj => singular_false hs j hj⟩,
        fun k hk1 hk2 => (h3 k (by omega) hk2).frame f1 (by omega)⟩⟩
      · show q ≤ _ → i < _ → j ≤ i → (clFirst sq qp reg preg G g 0 s0.2).RSQrq q i j = _
        rw [f1.RSQrq]; exact h1 q i j
      · show (clFirst sq qp reg preg G g 0 s0.2).Pb 0 a = ∑ c ∈ range (qp.dim.nx 1), (clFirst sq qp reg preg G g 0 s0.2).P 1 a c * _
        rw [f1.P 1 (by omega)]; exact f4 a ha
      · have hlt : 0 < qp.dim.N := by omega
        have e : (clFirst sq qp reg preg G g 0 s0.2).P (0 + 1) = s0.2.P (0 + 1) := f1.P 1 (by omega)
        rw [kData_M_lt _ _ _ _ _ _ _ hlt, kData_m_lt _ _ _ _ _ _ _ _ hlt]; simp only [e]; exact f6
  · obtain ⟨f1, f2, f3, C, f4, f5, f6⟩ := clLast_val sq qp hwf reg preg dr (fun i hi => hdr _ i hN) G g st hR
    refine ⟨fun q i j => ?_, fun q i a => ?_, fun hs k hk1 hk2 => ?_⟩
    · show q ≤ _ → i < _ → j ≤ i → (clLast sq qp reg preg G g st).RSQrq q i j = _
      rw [f1.RSQrq]; exact hR q i j
    · show q < _ → _ → _ → (clLast sq qp reg preg G g st).BAbt q i a = _
      rw [f3]; exact hB q i a
    · have : k = qp.dim.N := by omega
      subst this
      refine ⟨f2, fun a ha => absurd ha (lt_irrefl _), ⟨C, C, f4, ?_, f6⟩, fun j hj => singular_false hs j hj⟩
      rw [kData_M_ge _ _ _ _ _ _ _ (lt_irrefl _), kData_m_ge _ _ _ _ _ _ _ _ (lt_irrefl _)]; exact f5
  · rintro nn ⟨b, t⟩ hnn ⟨h1, h2, h3⟩
    simp only at h1 h2 h3
    by_cases hb : b = true
    · subst hb
      simp only [if_true]
      exact ⟨h1, h2, fun hc => by simp at hc⟩
    · have hb : b = false := by simpa using hb
      subst hb
      simp only [Bool.false_eq_true, if_false]
      have h3 := h3 rfl
      set ss := qp.dim.N - nn - 1 with hss
      obtain ⟨_, _, _, _, hS⟩ := (h3 (ss + 1) (by omega) (by omega)).fac
      obtain ⟨f1, f2, f3, f4, C, f5, f6⟩ := clMid_val sq qp hwf reg preg dr G g ss (by omega)
        (fun i hi => hdr _ i (by omega)) t h1 h2 hS.sym
      set t1 := clMid sq qp reg preg G g ss t with ht1
      have hR1 : ROk qp t1 := by intro q i j; rw [f1.RSQrq]; exact h1 q i j
      by_cases hsing : singular (qp.dim.nu ss) (t1.L ss) = true
      · simp only [hsing, if_true]
        exact ⟨hR1, f3, fun hc => by simp at hc⟩
      · simp only [hsing, Bool.false_eq_true, if_false]
        obtain ⟨g1, g2, g3, g4, g5, g6, g7⟩ := schurStage_val sq qp.dim ss C t1 f5
        refine ⟨fun q i j => ?_, fun q i a => ?_, fun _ k hk1 hk2 => ?_⟩
        · rw [g1.RSQrq]; exact hR1 q i j
        · rw [g5]; exact f3 q i a
        · by_cases hk : k = ss
          · rw [hk]
            have e : (schurStage qp.dim ss t1).P (ss + 1) = t.P (ss + 1) := by rw [g1.P _ (by omega), f1.P _ (by omega)]
            refine ⟨⟨fun i hi => by rw [g3]; exact f2.Zs i hi, fun i hi => by rw [g4]; exact f2.ux i hi⟩,
              fun a _ ha => by rw [g6, e]; exact f4 a ha, ⟨C, C, by rw [g2, f5], ?_, g7⟩,
              fun j hj => by rw [g2]; exact singular_false (by simpa using hsing) j hj⟩
            have hlt : ss < qp.dim.N := by omega
            rw [kData_M_lt _ _ _ _ _ _ _ hlt, kData_m_lt _ _ _ _ _ _ _ _ hlt]; simp only [e]; exact f6
          · exact (h3 k (by omega) hk2).frame (f1.trans g1) (by omega)

/-- the classical sweep leaves a valid factorisation -/
theorem clBack_back (sq : K → K) (hsq : ∀ x, 0 < x → sq x * sq x = x) (qp : OcpQp K) (dr : ℕ → ℕ → K) (reg : K)
    (G g : ℕ → Vec K) (st : KktSt K) (hR : ROk qp st) (hB : BOk qp st) (hN : 1 ≤ qp.dim.N)
    (h0 : ClOk0 sq qp dr reg G g st)
    (h : ∀ k, 1 ≤ k → k ≤ qp.dim.N → ClOk sq qp dr reg G g k st) :
    BackOk qp dr reg G g st.P (fun q => st.P q (qp.dim.nx q)) st := by
  set R := kData qp dr reg G g st.L st.P with hRd
  set p := (fun q => st.P q (qp.dim.nx q)) with hp
  have hMs : ∀ k, k ≤ qp.dim.N → ∀ i j, i < qp.dim.nu k + qp.dim.nx k → j < qp.dim.nu k + qp.dim.nx k → R.M k i j = R.M k j i := by
    intro k hk i j hi hj
    unfold RicData.M
    split_ifs with hlt
    · have hlt : k < qp.dim.N := hlt
      obtain ⟨_, _, _, _, hS⟩ := (h (k + 1) (by omega) (by omega)).fac
      exact ricM_sym (n := qp.dim.nu k + qp.dim.nx k) (fun i j _ _ => kH_sym qp dr reg G k i j)
        hS.sym i j hi hj
    · exact kH_sym qp dr reg G k i j
  have hstage : ∀ k, 1 ≤ k → k ≤ qp.dim.N → RicStage (qp.dim.nu k) (qp.dim.nx k) (R.M k) (R.m p k) (st.L k)
      (fun l => st.L k (qp.dim.nu k + qp.dim.nx k) l) (R.P k) (p k) := by
    intro k hk1 hk
    obtain ⟨C, L0, h1, h2, hS⟩ := (h k hk1 hk).fac
    have hr := potrf_rows sq hsq (qp.dim.nu k + qp.dim.nx k) (qp.dim.nu k) (by omega) C L0 (st.L k) _ _ h1 h2 (h k hk1 hk).piv
    refine ⟨hr.1, hr.2, fun i j hi hj => ?_, fun i hi => ?_, (h k hk1 hk).piv⟩
    · by_cases hij : j ≤ i
      · rw [← h2.1 _ _ (by omega) (by omega)]
        exact hS.lower i j hi hij
      · rw [hMs k hk _ _ (by omega) (by omega), ← h2.1 _ _ (by omega) (by omega), ← hS.lower j i hj (by omega)]
        congr 1
        · exact hS.sym i j hi hj
        · exact sum_congr rfl (fun l _ => mul_comm _ _)
    · rw [← h2.2 _ (by omega)]
      exact hS.row i hi
  have hrow0 : (∀ i j, i < qp.dim.nu 0 + qp.dim.nx 0 → j < qp.dim.nu 0 + qp.dim.nx 0 → j ≤ i →
        ∑ l ∈ range (qp.dim.nu 0 + qp.dim.nx 0), low (st.L 0) i l * low (st.L 0) j l = R.M 0 i j) ∧
      (∀ j, j < qp.dim.nu 0 + qp.dim.nx 0 →
        ∑ l ∈ range (qp.dim.nu 0 + qp.dim.nx 0), low (st.L 0) j l * st.L 0 (qp.dim.nu 0 + qp.dim.nx 0) l = R.m p 0 j) := by
    obtain ⟨C, L0, h1, h2⟩ := h0.fac
    exact potrf_rows sq hsq (qp.dim.nu 0 + qp.dim.nx 0) _ (le_refl _) C L0 (st.L 0) _ _ h1 h2 h0.piv
  refine ⟨hB, hR, ⟨fun k i j _ _ _ => kH_sym qp dr reg G k i j, fun k hk => ?_⟩, ⟨fun k j hk hj => ?_, fun k i hk hi => ?_⟩,
    fun k hk => ?_, fun k a hk ha => ?_⟩
  · by_cases hk0 : k = 0
    · subst hk0
      have e1 : R.ne 0 = qp.dim.nu 0 + qp.dim.nx 0 := if_pos rfl
      have e2 : R.nr 0 = 0 := if_pos rfl
      rw [e1, e2]
      exact ⟨fun i j hi hj hij => hrow0.1 i j hi hj hij, fun i j hi => by omega, h0.piv⟩
    · have e1 : R.ne k = qp.dim.nu k := if_neg hk0
      have e2 : R.nr k = qp.dim.nx k := if_neg hk0
      rw [e1, e2]
      exact (hstage k (by omega) hk).toFac
  · by_cases hk0 : k = 0
    · subst hk0
      have e1 : R.ne 0 = qp.dim.nu 0 + qp.dim.nx 0 := if_pos rfl
      rw [e1] at hj ⊢
      exact hrow0.2 j hj
    · have e1 : R.ne k = qp.dim.nu k := if_neg hk0
      rw [e1] at hj ⊢
      exact (hstage k (by omega) hk).rhs j hj
  · by_cases hk0 : k = 0
    · subst hk0
      have e2 : R.nr 0 = 0 := if_pos rfl
      exact absurd (lt_of_lt_of_eq hi e2) (by omega)
    · have e1 : R.ne k = qp.dim.nu k := if_neg hk0
      have e2 : R.nr k = qp.dim.nx k := if_neg hk0
      rw [e2] at hi
      rw [e1]
      exact (hstage k (by omega) hk).schurv i hi
  · by_cases hk0 : k = 0
    · subst hk0; exact h0.slk
    · exact (h k (by omega) hk).slk
  · by_cases hk0 : k = 0
    · subst hk0; exact h0.pb a ha
    · exact (h k (by omega) (le_of_lt hk)).pb a hk ha

end
end Hpipm
