/-
Properties of the initialisation: strictly interior start (C32) and independence of a cold start from
previous contents (C51).
-/
import Verif.IpmInit
import Verif.ResProps
import Mathlib.Data.Rat.Defs

namespace Hpipm

set_option linter.unusedSectionVars false

section
variable {K : Type*} [Field K] [LinearOrder K] [IsStrictOrderedRing K]

theorem thr0_pos : (0 : K) < thr0 := by unfold thr0; positivity

/-- the value of a loop over the stages -/
theorem iniStages_val (N : ℕ) (f : ℕ → IniSt K → IniSt K) (sol : Sol K) :
    (∀ k, k ≤ N → (iniStages N f sol).ux k = (f k ⟨sol.ux k, sol.lam k, sol.t k⟩).ux ∧
      (iniStages N f sol).lam k = (f k ⟨sol.ux k, sol.lam k, sol.t k⟩).lam ∧
      (iniStages N f sol).t k = (f k ⟨sol.ux k, sol.lam k, sol.t k⟩).t) ∧
    (iniStages N f sol).pi = sol.pi := by
  have h := loop_inv (S := Sol K) (fun n s =>
      (∀ k, k < n → s.ux k = (f k ⟨sol.ux k, sol.lam k, sol.t k⟩).ux ∧
        s.lam k = (f k ⟨sol.ux k, sol.lam k, sol.t k⟩).lam ∧
        s.t k = (f k ⟨sol.ux k, sol.lam k, sol.t k⟩).t) ∧
      (∀ k, n ≤ k → s.ux k = sol.ux k ∧ s.lam k = sol.lam k ∧ s.t k = sol.t k) ∧ s.pi = sol.pi) (N + 1)
    (fun k (sol : Sol K) =>
      let s := f k { ux := sol.ux k, lam := sol.lam k, t := sol.t k }
      { sol with
        ux := upd sol.ux k s.ux
        lam := upd sol.lam k s.lam
        t := upd sol.t k s.t }) sol
    ⟨fun k hk => absurd hk (by omega), fun _ _ => ⟨rfl, rfl, rfl⟩, rfl⟩ (by
      intro n s _ ⟨h1, h2, h3⟩
      obtain ⟨a, b, c⟩ := h2 n (le_refl n)
      refine ⟨fun k hk => ?_, fun k hk => ?_, h3⟩
      · by_cases hkn : k = n
        · subst hkn
          simp only [upd_same, a, b, c, and_self]
        · simp only [upd_ne _ _ hkn]
          exact h1 k (by omega)
      · have hkn : k ≠ n := by omega
        simp only [upd_ne _ _ hkn]
        exact h2 k (by omega))
  exact ⟨fun k hk => h.1 k (by omega), h.2.2⟩

/-- constraint `i` is on the central path with parameter `mu0` -/
def Cen (mu0 : K) (lam t : Vec K) (i : ℕ) : Prop := 0 < t i ∧ lam i * t i = mu0

theorem Cen.lam_pos {mu0 : K} {lam t : Vec K} {i : ℕ} (h : Cen mu0 lam t i) (hm : 0 < mu0) : 0 < lam i := by
  by_contra hl
  have : lam i * t i ≤ 0 := mul_nonpos_of_nonpos_of_nonneg (not_lt.1 hl) h.1.le
  rw [h.2] at this
  exact absurd hm (not_lt.2 this)

theorem cen_upd2 (mu0 : K) (lam t : Vec K) (a b : ℕ) (x y : K) (hab : a ≠ b) (hx : 0 < x) (hy : 0 < y)
    (i : ℕ) (h : i = a ∨ i = b ∨ Cen mu0 lam t i) :
    Cen mu0 (upd (upd lam a (mu0 / x)) b (mu0 / y)) (upd (upd t a x) b y) i := by
  by_cases hb : i = b
  · subst hb
    refine ⟨by simpa using hy, ?_⟩
    simp only [upd_same]
    exact div_mul_cancel₀ _ hy.ne'
  · by_cases ha : i = a
    · subst ha
      refine ⟨?_, ?_⟩ <;> simp only [upd_ne _ _ hb, upd_same]
      · exact hx
      · exact div_mul_cancel₀ _ hx.ne'
    · have := (h.resolve_left ha).resolve_left hb
      unfold Cen
      simp only [upd_ne _ _ hb, upd_ne _ _ ha]
      exact this

theorem iniBox0_cen (nb ng : ℕ) (idxb : ℕ → ℕ) (d mask : Vec K) (mu0 : K) (s : IniSt K) (i : ℕ)
    (hi : i < nb ∨ (nb + ng ≤ i ∧ i < 2 * nb + ng)) :
    Cen mu0 (loop nb (iniBox0 (nb + ng) idxb d mask mu0) s).lam (loop nb (iniBox0 (nb + ng) idxb d mask mu0) s).t i := by
  have h := loop_inv (S := IniSt K) (fun n s => ∀ i, i < n ∨ (nb + ng ≤ i ∧ i < nb + ng + n) → Cen mu0 s.lam s.t i) nb
    (iniBox0 (nb + ng) idxb d mask mu0) s (fun i hi => by omega) (by
      intro n s hn ih i hi
      have key : ∀ r : K × K × K, 0 < r.2.1 → 0 < r.2.2 →
          Cen mu0 (upd (upd s.lam n (mu0 / r.2.1)) (nb + ng + n) (mu0 / r.2.2))
            (upd (upd s.t n r.2.1) (nb + ng + n) r.2.2) i := by
        intro r h1 h2
        apply cen_upd2 _ _ _ _ _ _ _ (by omega) h1 h2
        by_cases h3 : i = n
        · exact Or.inl h3
        · by_cases h4 : i = nb + ng + n
          · exact Or.inr (Or.inl h4)
          · exact Or.inr (Or.inr (ih i (by omega)))
      have hp := thr0_pos (K := K)
      unfold iniBox0
      extract_lets x dl du tl tu r
      apply key
      · show 0 < r.2.1
        simp only [r]
        split_ifs with h1 h2 h3
        · exact hp
        · exact hp
        · exact lt_of_lt_of_le hp (not_lt.1 h1)
        · exact lt_of_lt_of_le hp (not_lt.1 h1)
      · show 0 < r.2.2
        simp only [r]
        split_ifs with h1 h2 h3
        · exact hp
        · exact lt_of_lt_of_le hp (not_lt.1 h2)
        · exact hp
        · exact lt_of_lt_of_le hp (not_lt.1 h3))
  exact h i (by omega)

theorem clipGt_pos (x : K) : 0 < (if thr0 > x then thr0 else x) := by
  split_ifs with h
  · exact thr0_pos
  · exact lt_of_lt_of_le thr0_pos (not_lt.1 h)

theorem iniGen0_cen (nb ng : ℕ) (d mask : Vec K) (mu0 : K) (s : IniSt K) (i : ℕ)
    (hi : (i < nb ∨ (nb + ng ≤ i ∧ i < 2 * nb + ng)) ∧ Cen mu0 s.lam s.t i ∨ (nb ≤ i ∧ i < nb + ng) ∨
      (2 * nb + ng ≤ i ∧ i < 2 * nb + 2 * ng)) :
    Cen mu0 (loop ng (iniGen0 nb ng d mask mu0) s).lam (loop ng (iniGen0 nb ng d mask mu0) s).t i := by
  have h := loop_inv (S := IniSt K) (fun n s' => ∀ i,
      ((i < nb ∨ (nb + ng ≤ i ∧ i < 2 * nb + ng)) ∧ Cen mu0 s.lam s.t i ∨ (nb ≤ i ∧ i < nb + n) ∨
        (2 * nb + ng ≤ i ∧ i < 2 * nb + ng + n)) → Cen mu0 s'.lam s'.t i) ng
    (iniGen0 nb ng d mask mu0) s (by
      rintro i (h | h | h)
      · exact h.2
      · omega
      · omega) (by
      intro n s' hn ih i hi
      unfold iniGen0
      dsimp only
      apply cen_upd2 _ _ _ _ _ _ _ (by omega) (clipGt_pos _) (clipGt_pos _)
      by_cases h3 : i = nb + n
      · exact Or.inl h3
      · by_cases h4 : i = 2 * nb + ng + n
        · exact Or.inr (Or.inl h4)
        · refine Or.inr (Or.inr (ih i ?_))
          rcases hi with h | h | h
          · exact Or.inl h
          · right; left; omega
          · right; right; omega)
  apply h
  rcases hi with h | h | h
  · exact Or.inl h
  · right; left; omega
  · right; right; omega

theorem iniSoft0_cen (sq : K → K) (n2 ns nv : ℕ) (d mask : Vec K) (mu0 : K) (hq : 0 < sq mu0) (s : IniSt K) (i : ℕ)
    (hi : i < n2 ∧ Cen mu0 s.lam s.t i ∨ (n2 ≤ i ∧ i < n2 + 2 * ns)) :
    Cen mu0 (loop ns (iniSoft0 sq n2 ns nv d mask mu0) s).lam (loop ns (iniSoft0 sq n2 ns nv d mask mu0) s).t i := by
  have h := loop_inv (S := IniSt K) (fun n s' => ∀ i,
      (i < n2 ∧ Cen mu0 s.lam s.t i ∨ (n2 ≤ i ∧ i < n2 + n) ∨ (n2 + ns ≤ i ∧ i < n2 + ns + n)) → Cen mu0 s'.lam s'.t i) ns
    (iniSoft0 sq n2 ns nv d mask mu0) s (by
      rintro i (h | h | h)
      · exact h.2
      · omega
      · omega) (by
      intro n s' hn ih i hi
      unfold iniSoft0
      dsimp only
      apply cen_upd2 _ _ _ _ _ _ _ (by omega) hq hq
      by_cases h3 : i = n2 + n
      · exact Or.inl h3
      · by_cases h4 : i = n2 + ns + n
        · exact Or.inr (Or.inl h4)
        · refine Or.inr (Or.inr (ih i ?_))
          rcases hi with h | h | h
          · exact Or.inl h
          · right; left; omega
          · right; right; omega)
  apply h
  rcases hi with h | h
  · exact Or.inl h
  · right; omega

theorem iniClip_val (nc : ℕ) (lmin tmin : K) (s : IniSt K) (i : ℕ) (hi : i < nc) :
    (iniClip nc lmin tmin s).lam i = max lmin (s.lam i) ∧ (iniClip nc lmin tmin s).t i = max tmin (s.t i) := by
  have hm : ∀ a b : K, clipLo a b = max a b := by
    intro a b; unfold clipLo
    split_ifs with h
    · rw [max_eq_left h.le]
    · rw [max_eq_right (not_lt.1 h)]
  have h := loop_inv (S := IniSt K) (fun n s' => (∀ i, i < n → s'.lam i = max lmin (s.lam i) ∧ s'.t i = max tmin (s.t i)) ∧
      ∀ i, n ≤ i → s'.lam i = s.lam i ∧ s'.t i = s.t i) nc
    (fun jj (s : IniSt K) => { s with
      lam := upd s.lam jj (clipLo lmin (s.lam jj))
      t := upd s.t jj (clipLo tmin (s.t jj)) }) s ⟨fun i hi => by omega, fun _ _ => ⟨rfl, rfl⟩⟩ (by
      intro n s' hn ⟨h1, h2⟩
      refine ⟨fun i hi => ?_, fun i hi => ?_⟩
      · by_cases hin : i = n
        · subst hin
          simp only [upd_same, (h2 i le_rfl).1, (h2 i le_rfl).2, hm, and_self]
        · simp only [upd_ne _ _ hin]; exact h1 i (by omega)
      · have hin : i ≠ n := by omega
        simp only [upd_ne _ _ hin]; exact h2 i (by omega))
  exact h.1 i hi

theorem iniConst_val (nc : ℕ) (l0 t0 : K) (s : IniSt K) (i : ℕ) (hi : i < nc) :
    (iniConst nc l0 t0 s).lam i = l0 ∧ (iniConst nc l0 t0 s).t i = t0 := by
  have h := loop_inv (S := IniSt K) (fun n s' => ∀ i, i < n → s'.lam i = l0 ∧ s'.t i = t0) nc
    (fun jj (s : IniSt K) => { s with
      lam := upd s.lam jj l0
      t := upd s.t jj t0 }) s (fun i hi => by omega) (by
      intro n s' hn h1 i hi
      by_cases hin : i = n
      · subst hin; simp
      · simp only [upd_ne _ _ hin]; exact h1 i (by omega))
  exact h i hi

/-- slack of a constraint pair untouched by `iniAddSlk` -/
theorem iniAddSlk_t (nbg ns nv : ℕ) (ir : ℕ → ℤ) (r : ℕ) (s : IniSt K) (i : ℕ) (h1 : i ≠ r) (h2 : i ≠ nbg + r) :
    (iniAddSlk nbg ns nv ir r s).t i = s.t i := by
  unfold iniAddSlk
  split_ifs
  · simp only [upd_ne _ _ h2, upd_ne _ _ h1]
  · rfl

theorem iniAddSlk_loop (nb0 n nbg ns nv : ℕ) (ir : ℕ → ℤ) (s : IniSt K) (i : ℕ)
    (hi : ∀ j, j < n → i ≠ nb0 + j ∧ i ≠ nbg + (nb0 + j)) :
    (loop n (fun jj s => iniAddSlk nbg ns nv ir (nb0 + jj) s) s).t i = s.t i := by
  refine loop_inv (S := IniSt K) (fun _ s' => s'.t i = s.t i) n _ s rfl ?_
  intro j s' hj h
  rw [iniAddSlk_t _ _ _ _ _ _ _ (hi j hj).1 (hi j hj).2, h]

theorem iniStage1_cen (qp : OcpQp K) (mu0 : K) (k : ℕ) (s : IniSt K) (i : ℕ) (hi : i < nct qp.dim k) :
    Cen mu0 (iniStage1 qp mu0 k s).lam (iniStage1 qp mu0 k s).t i := by
  have hp := thr0_pos (K := K)
  unfold iniStage1
  extract_lets nb ng ns nv nbg n2 d s1 s2 s3 s4 s5 s6 s7 s8 s9 s10 s11 s12 s13 s14
  have hn : nct qp.dim k = 2 * nb + 2 * ng + 2 * ns := rfl
  have e1 : nbg = nb + ng := rfl
  have e2 : n2 = 2 * nb + 2 * ng := rfl
  -- slacks of the soft variables
  have hs2 : ∀ j, j < 2 * ns → thr0 ≤ s2.t (n2 + j) := by
    have := loop_inv (S := IniSt K) (fun n s' => ∀ j, j < n → thr0 ≤ s'.t (n2 + j)) (2 * ns)
      (fun jj (s : IniSt K) =>
        if s.t (n2 + jj) < thr0 then { s with
          t := upd s.t (n2 + jj) thr0
          ux := upd s.ux (nv + jj) (d (n2 + jj) + thr0) }
        else s) s1 (fun j hj => by omega) (by
        intro n s' _ ih j hj
        by_cases hjn : j = n
        · subst hjn
          split_ifs with h
          · simp
          · exact not_lt.1 h
        · split_ifs with h
          · simp only []
            rw [upd_ne _ _ (by omega)]
            exact ih j (by omega)
          · exact ih j (by omega))
    exact this
  -- everything up to the boxes leaves them alone
  have hs7 : ∀ j, j < 2 * ns → s7.t (n2 + j) = s2.t (n2 + j) := by
    intro j hj
    have h5 : s5.t (n2 + j) = s4.t (n2 + j) := by
      have := iniAddSlk_loop 0 nb nbg ns nv (qp.idxs_rev k) s4 (n2 + j) (fun l hl => by omega)
      simpa using this
    have h7 : s7.t (n2 + j) = s6.t (n2 + j) := by
      show axpy nb (-1) d nbg s6.t nbg s6.t nbg (n2 + j) = _
      unfold axpy; rw [if_neg (by omega)]
    have h6 : s6.t (n2 + j) = s5.t (n2 + j) := by
      show axpy nb (-1) d 0 s5.t 0 s5.t 0 (n2 + j) = _
      unfold axpy; rw [if_neg (by omega)]
    have h4 : s4.t (n2 + j) = s3.t (n2 + j) := by
      show veccpsc nb (-1) s3.t 0 s3.t nbg (n2 + j) = _
      unfold veccpsc; rw [if_neg (by omega)]
    have h3 : s3.t (n2 + j) = s2.t (n2 + j) := by
      show vecex_sp nb 1 (qp.idxb k) s2.ux 0 s2.t 0 (n2 + j) = _
      unfold vecex_sp; rw [if_neg (by omega)]
    rw [h7, h6, h5, h4, h3]
  -- boxes
  have hs8 : (∀ j, j < nb → thr0 ≤ s8.t j ∧ thr0 ≤ s8.t (nbg + j)) ∧ ∀ j, n2 ≤ j → s8.t j = s7.t j := by
    have := loop_inv (S := IniSt K) (fun n s' => (∀ j, j < n → thr0 ≤ s'.t j ∧ thr0 ≤ s'.t (nbg + j)) ∧
        ∀ j, n2 ≤ j → s'.t j = s7.t j) nb (iniBox1 nbg (qp.idxb k) d) s7
      ⟨fun j hj => by omega, fun _ _ => rfl⟩ (by
        intro n s' hn ⟨ih, ih2⟩
        unfold iniBox1
        constructor
        · intro j hj
          have a1 : j ≠ nbg + n := by omega
          by_cases hjn : j = n
          · subst hjn
            split_ifs with h1 h2 h3
            · refine ⟨?_, by simp⟩
              simp only [upd_ne _ _ a1, upd_same, le_refl]
            · refine ⟨by simp, ?_⟩
              simp only []
              rw [upd_ne _ _ (by omega)]
              exact not_lt.1 h2
            · refine ⟨?_, by simp⟩
              simp only [upd_ne _ _ a1]
              exact not_lt.1 h1
            · exact ⟨not_lt.1 h1, not_lt.1 h3⟩
          · have a2 : nbg + j ≠ nbg + n := by omega
            have a3 : nbg + j ≠ n := by omega
            have := ih j (by omega)
            split_ifs <;> (try simp only [upd_ne _ _ a1, upd_ne _ _ hjn, upd_ne _ _ a2, upd_ne _ _ a3]) <;> exact this
        · intro j hj
          have a1 : j ≠ nbg + n := by omega
          have a2 : j ≠ n := by omega
          split_ifs <;> (try simp only [upd_ne _ _ a1, upd_ne _ _ a2]) <;> exact ih2 j hj)
    exact this
  -- the general constraints leave boxes and soft slacks alone
  have hs13 : ∀ j, (j < nb ∨ (nbg ≤ j ∧ j < nbg + nb) ∨ n2 ≤ j) → s13.t j = s8.t j := by
    intro j hj
    have h13 : s13.t j = s12.t j := by
      show axpy ng (-1) d (2 * nb + ng) s12.t (2 * nb + ng) s12.t (2 * nb + ng) j = _
      unfold axpy; rw [if_neg (by omega)]
    have h12 : s12.t j = s11.t j := by
      show axpy ng (-1) d nb s11.t nb s11.t nb j = _
      unfold axpy; rw [if_neg (by omega)]
    have h11 : s11.t j = s10.t j := by
      exact iniAddSlk_loop nb ng nbg ns nv (qp.idxs_rev k) s10 j (fun l hl => by omega)
    have h10 : s10.t j = s9.t j := by
      show veccpsc ng (-1) s9.t nb s9.t (2 * nb + ng) j = _
      unfold veccpsc; rw [if_neg (by omega)]
    have h9 : s9.t j = s8.t j := by
      show gemv_t nv ng 1 (qp.DCt k) 0 0 s8.ux 0 0 s8.t nb s8.t nb j = _
      unfold gemv_t; rw [if_neg (by omega)]
    rw [h13, h12, h11, h10, h9]
  have hs14 : (∀ j, j < ng → 0 < s14.t (nb + j) ∧ 0 < s14.t (2 * nb + ng + j)) ∧
      ∀ j, (j < nb ∨ (nbg ≤ j ∧ j < nbg + nb) ∨ n2 ≤ j) → s14.t j = s13.t j := by
    have := loop_inv (S := IniSt K) (fun n s' => (∀ j, j < n → 0 < s'.t (nb + j) ∧ 0 < s'.t (2 * nb + ng + j)) ∧
        ∀ j, (j < nb ∨ (nbg ≤ j ∧ j < nbg + nb) ∨ n2 ≤ j) → s'.t j = s13.t j) ng
      (fun jj (s : IniSt K) => { s with
        t := upd (upd s.t (nb + jj) (if thr0 > s.t (nb + jj) then thr0 else s.t (nb + jj)))
          (2 * nb + ng + jj) (if thr0 > s.t (2 * nb + ng + jj) then thr0 else s.t (2 * nb + ng + jj)) }) s13
      ⟨fun j hj => by omega, fun _ _ => rfl⟩ (by
        intro n s' hn ⟨ih, ih2⟩
        constructor
        · intro j hj
          have a1 : nb + j ≠ 2 * nb + ng + n := by omega
          by_cases hjn : j = n
          · subst hjn
            refine ⟨?_, ?_⟩
            · simp only [upd_ne _ _ a1, upd_same]; exact clipGt_pos _
            · simp only [upd_same]; exact clipGt_pos _
          · have a2 : nb + j ≠ nb + n := by omega
            have a3 : 2 * nb + ng + j ≠ 2 * nb + ng + n := by omega
            have a4 : 2 * nb + ng + j ≠ nb + n := by omega
            simp only [upd_ne _ _ a1, upd_ne _ _ a2, upd_ne _ _ a3, upd_ne _ _ a4]
            exact ih j (by omega)
        · intro j hj
          have a1 : j ≠ 2 * nb + ng + n := by omega
          have a2 : j ≠ nb + n := by omega
          simp only [upd_ne _ _ a1, upd_ne _ _ a2]
          exact ih2 j hj)
    exact this
  have hpos : 0 < s14.t i := by
    by_cases c1 : i < nb
    · rw [hs14.2 i (Or.inl c1), hs13 i (Or.inl c1)]
      exact lt_of_lt_of_le hp (hs8.1 i c1).1
    by_cases c2 : i < nbg
    · have := (hs14.1 (i - nb) (by omega)).1
      rwa [show nb + (i - nb) = i by omega] at this
    by_cases c3 : i < nbg + nb
    · rw [hs14.2 i (by omega), hs13 i (by omega)]
      have := (hs8.1 (i - nbg) (by omega)).2
      rw [show nbg + (i - nbg) = i by omega] at this
      exact lt_of_lt_of_le hp this
    by_cases c4 : i < n2
    · have := (hs14.1 (i - (2 * nb + ng)) (by omega)).2
      rwa [show 2 * nb + ng + (i - (2 * nb + ng)) = i by omega] at this
    · rw [hs14.2 i (by omega), hs13 i (by omega), hs8.2 i (by omega)]
      have h1 := hs7 (i - n2) (by omega)
      have h2 := hs2 (i - n2) (by omega)
      rw [show n2 + (i - n2) = i by omega] at h1 h2
      rw [h1]
      exact lt_of_lt_of_le hp h2
  -- multipliers
  have hfin := loop_inv (S := IniSt K) (fun n s' => s'.t = s14.t ∧ ∀ j, j < n → s'.lam j = mu0 / s14.t j) (nct qp.dim k)
    (fun jj (s : IniSt K) => { s with lam := upd s.lam jj (mu0 / s.t jj) }) s14 ⟨rfl, fun j hj => by omega⟩ (by
      intro n s' _ ⟨h1, h2⟩
      refine ⟨h1, fun j hj => ?_⟩
      by_cases hjn : j = n
      · subst hjn; simp [h1]
      · simp only [upd_ne _ _ hjn]; exact h2 j (by omega))
  unfold Cen
  rw [hfin.1, hfin.2 i hi]
  exact ⟨hpos, div_mul_cancel₀ _ hpos.ne'⟩

/-- the part of the initialisation common to cold start and primal warm start -/
theorem initVar_cen (sq : K → K) (qp : OcpQp K) (a : IpmArg K) (sol : Sol K) (hw : a.i .warm_start < 2)
    (hq : 0 < sq (a.r .mu0)) (hq2 : sq (a.r .mu0) * sq (a.r .mu0) = a.r .mu0) (k j : ℕ) (hk : k ≤ qp.dim.N)
    (hj : j < nct qp.dim k) :
    Cen (a.r .mu0) ((initVar sq qp a sol).lam k) ((initVar sq qp a sol).t k) j := by
  unfold initVar
  extract_lets D N mu0 sol1 sol2 sol3 sol4
  rw [if_neg (by omega), if_neg (by omega)]
  split_ifs with h1 h2 h3
  · obtain ⟨_, e1, e2⟩ := (iniStages_val N (fun k s => iniConst (nct D k) (sq mu0) (sq mu0) s) sol2).1 k hk
    rw [e1, e2]
    obtain ⟨e3, e4⟩ := iniConst_val (nct D k) (sq mu0) (sq mu0) ⟨sol2.ux k, sol2.lam k, sol2.t k⟩ j hj
    unfold Cen
    rw [e3, e4]
    exact ⟨hq, hq2⟩
  · obtain ⟨_, e1, e2⟩ := (iniStages_val N (fun k s => iniConst (nct D k) mu0 1 s) sol2).1 k hk
    rw [e1, e2]
    obtain ⟨e3, e4⟩ := iniConst_val (nct D k) mu0 1 ⟨sol2.ux k, sol2.lam k, sol2.t k⟩ j hj
    unfold Cen
    rw [e3, e4]
    exact ⟨one_pos, mul_one _⟩
  · obtain ⟨_, e1, e2⟩ := (iniStages_val N (fun k s =>
        loop (D.ns k) (iniSoft0 sq (2 * D.nb k + 2 * D.ng k) (D.ns k) (D.nu k + D.nx k) (qp.d k) (qp.d_mask k) mu0) s) sol4).1 k hk
    rw [e1, e2]
    have hn : nct qp.dim k = 2 * D.nb k + 2 * D.ng k + 2 * D.ns k := rfl
    apply iniSoft0_cen _ _ _ _ _ _ _ hq
    by_cases hj2 : j < 2 * D.nb k + 2 * D.ng k
    · refine Or.inl ⟨hj2, ?_⟩
      obtain ⟨_, e3, e4⟩ := (iniStages_val N (fun k s =>
        loop (D.ng k) (iniGen0 (D.nb k) (D.ng k) (qp.d k) (qp.d_mask k) mu0)
          { s with t := gemv_t (D.nu k + D.nx k) (D.ng k) 1 (qp.DCt k) 0 0 s.ux 0 0 s.t (D.nb k) s.t (D.nb k) }) sol3).1 k hk
      show Cen mu0 (sol4.lam k) (sol4.t k) j
      rw [show sol4.lam k = _ from e3, show sol4.t k = _ from e4]
      apply iniGen0_cen
      by_cases c : j < D.nb k ∨ (D.nb k + D.ng k ≤ j ∧ j < 2 * D.nb k + D.ng k)
      · refine Or.inl ⟨c, ?_⟩
        obtain ⟨_, e5, e6⟩ := (iniStages_val N (fun k s =>
          loop (D.nb k) (iniBox0 (D.nb k + D.ng k) (qp.idxb k) (qp.d k) (qp.d_mask k) mu0) s) sol2).1 k hk
        have hb := iniBox0_cen (D.nb k) (D.ng k) (qp.idxb k) (qp.d k) (qp.d_mask k) mu0
          ⟨sol2.ux k, sol2.lam k, sol2.t k⟩ j c
        have e7 : gemv_t (D.nu k + D.nx k) (D.ng k) 1 (qp.DCt k) 0 0 (sol3.ux k) 0 0 (sol3.t k) (D.nb k) (sol3.t k)
            (D.nb k) j = sol3.t k j := by
          unfold gemv_t; rw [if_neg (by omega)]
        unfold Cen at hb ⊢
        dsimp only
        rw [e7]
        rw [show sol3.lam k = _ from e5, show sol3.t k = _ from e6]
        exact hb
      · right; omega
    · right; omega
  · obtain ⟨_, e1, e2⟩ := (iniStages_val N (fun k s => iniStage1 qp mu0 k s) sol2).1 k hk
    rw [e1, e2]
    exact iniStage1_cen qp mu0 k _ j hj

/-- **C32** cold start and primal warm start: whatever the QP and the previous contents, every slack and
multiplier is strictly positive and all products equal the initial barrier parameter. -/
theorem initVar_interior (sq : K → K) (qp : OcpQp K) (a : IpmArg K) (sol : Sol K) (hw : a.i .warm_start < 2)
    (hmu : 0 < a.r .mu0) (hq : 0 < sq (a.r .mu0)) (hq2 : sq (a.r .mu0) * sq (a.r .mu0) = a.r .mu0)
    (k j : ℕ) (hk : k ≤ qp.dim.N) (hj : j < nct qp.dim k) :
    0 < (initVar sq qp a sol).t k j ∧ 0 < (initVar sq qp a sol).lam k j ∧
      (initVar sq qp a sol).lam k j * (initVar sq qp a sol).t k j = a.r .mu0 := by
  have h := initVar_cen sq qp a sol hw hq hq2 k j hk hj
  exact ⟨h.1, h.lam_pos hmu, h.2⟩

/-- **C32** primal-dual warm start and hot start: the primal point and the equality multipliers are kept,
slacks and multipliers of inequalities are the previous ones lifted to the threshold. -/
theorem initVar_warm (sq : K → K) (qp : OcpQp K) (a : IpmArg K) (sol : Sol K) (hw : 2 ≤ a.i .warm_start)
    (k j : ℕ) (hk : k ≤ qp.dim.N) (hj : j < nct qp.dim k) :
    (initVar sq qp a sol).t k j = max (if a.i .warm_start = 2 then 1 / 10 else a.r .t0_min) (sol.t k j) ∧
    (initVar sq qp a sol).lam k j = max (if a.i .warm_start = 2 then 1 / 10 else a.r .lam0_min) (sol.lam k j) := by
  unfold initVar
  extract_lets D N mu0 sol1 sol2 sol3 sol4
  by_cases h3 : a.i .warm_start ≥ 3
  · rw [if_pos h3, if_neg (by omega), if_neg (by omega)]
    obtain ⟨_, e1, e2⟩ := (iniStages_val N (fun k s => iniClip (nct D k) (a.r .lam0_min) (a.r .t0_min) s) sol).1 k hk
    rw [e1, e2]
    obtain ⟨e3, e4⟩ := iniClip_val (nct D k) (a.r .lam0_min) (a.r .t0_min) ⟨sol.ux k, sol.lam k, sol.t k⟩ j hj
    exact ⟨e4, e3⟩
  · rw [if_neg h3, if_pos (by omega), if_pos (by omega), if_pos (by omega)]
    obtain ⟨_, e1, e2⟩ := (iniStages_val N (fun k s => iniClip (nct D k) thr0 thr0 s) sol).1 k hk
    rw [e1, e2]
    obtain ⟨e3, e4⟩ := iniClip_val (nct D k) thr0 thr0 ⟨sol.ux k, sol.lam k, sol.t k⟩ j hj
    exact ⟨e4, e3⟩


/-! ### cold start: independence of previous contents -/

/-- relational rule for two runs of a loop -/
theorem loop_rel {S : Type*} (R : ℕ → S → S → Prop) (n : ℕ) (b : ℕ → S → S) (s s' : S) (h0 : R 0 s s')
    (hs : ∀ i s s', i < n → R i s s' → R (i + 1) (b i s) (b i s')) : R n (loop n b s) (loop n b s') := by
  induction n with
  | zero => exact h0
  | succ k ih =>
    rw [loop_succ, loop_succ]
    exact hs k _ _ (Nat.lt_succ_self k) (ih (fun i s s' hi => hs i s s' (Nat.lt_succ_of_lt hi)))

/-- two stage states agree on the first `nv` primal entries and on the constraints in `A` -/
structure IAgree (nv : ℕ) (A : ℕ → Prop) (s s' : IniSt K) : Prop where
  ux : ∀ i, i < nv → s.ux i = s'.ux i
  lam : ∀ i, A i → s.lam i = s'.lam i
  t : ∀ i, A i → s.t i = s'.t i

theorem IAgree.mono {nv : ℕ} {A B : ℕ → Prop} {s s' : IniSt K} (h : IAgree nv A s s') (hAB : ∀ i, B i → A i) :
    IAgree nv B s s' := ⟨h.ux, fun i hi => h.lam i (hAB i hi), fun i hi => h.t i (hAB i hi)⟩

theorem upd_agree {α : Type*} {f g : ℕ → α} {a i : ℕ} {x y : α} (hx : x = y) (h : i ≠ a → f i = g i) :
    upd f a x i = upd g a y i := by
  by_cases hi : i = a
  · subst hi; simp [hx]
  · rw [upd_ne _ _ hi, upd_ne _ _ hi, h hi]

theorem iniConst_agree (nv nc : ℕ) (l0 t0 : K) (s s' : IniSt K) (h : IAgree nv (fun _ => False) s s') :
    IAgree nv (fun i => i < nc) (iniConst nc l0 t0 s) (iniConst nc l0 t0 s') := by
  unfold iniConst
  refine loop_rel (fun n s s' => IAgree nv (fun i => i < n) s s') nc _ s s' (h.mono (by omega)) ?_
  intro n s s' _ ih
  refine ⟨ih.ux, fun i hi => ?_, fun i hi => ?_⟩
  · exact upd_agree rfl (fun hn => ih.lam i (by omega))
  · exact upd_agree rfl (fun hn => ih.t i (by omega))

theorem iniBox0_agree (nv nb ng : ℕ) (idxb : ℕ → ℕ) (hidx : ∀ j, j < nb → idxb j < nv) (d mask : Vec K) (mu0 : K)
    (s s' : IniSt K) (h : IAgree nv (fun _ => False) s s') :
    IAgree nv (fun i => i < nb ∨ (nb + ng ≤ i ∧ i < nb + ng + nb)) (loop nb (iniBox0 (nb + ng) idxb d mask mu0) s)
      (loop nb (iniBox0 (nb + ng) idxb d mask mu0) s') := by
  refine loop_rel (fun n s s' => IAgree nv (fun i => i < n ∨ (nb + ng ≤ i ∧ i < nb + ng + n)) s s') nb _ s s'
    (h.mono (by intro i hi; omega)) ?_
  intro n s s' hn ih
  have hx : s.ux (idxb n) = s'.ux (idxb n) := ih.ux _ (hidx n hn)
  unfold iniBox0
  rw [hx]
  refine ⟨fun i hi => ?_, fun i hi => ?_, fun i hi => ?_⟩
  · exact upd_agree rfl (fun _ => ih.ux i hi)
  · exact upd_agree rfl (fun h1 => upd_agree rfl (fun h2 => ih.lam i (by omega)))
  · exact upd_agree rfl (fun h1 => upd_agree rfl (fun h2 => ih.t i (by omega)))

theorem iniGen0_agree (nv nb ng : ℕ) (A : ℕ → Prop) (d mask : Vec K) (mu0 : K) (s s' : IniSt K) (h : IAgree nv A s s')
    (ht : ∀ j, j < ng → s.t (nb + j) = s'.t (nb + j)) :
    IAgree nv (fun i => A i ∨ (nb ≤ i ∧ i < nb + ng) ∨ (2 * nb + ng ≤ i ∧ i < 2 * nb + ng + ng))
      (loop ng (iniGen0 nb ng d mask mu0) s) (loop ng (iniGen0 nb ng d mask mu0) s') := by
  have hh := loop_rel (fun n s s' => IAgree nv (fun i => A i ∨ (nb ≤ i ∧ i < nb + n) ∨ (2 * nb + ng ≤ i ∧ i < 2 * nb + ng + n)) s s' ∧
      ∀ j, j < ng → s.t (nb + j) = s'.t (nb + j)) ng (iniGen0 nb ng d mask mu0) s s'
    ⟨h.mono (by rintro i (hi | hi | hi); exacts [hi, by omega, by omega]), ht⟩ (by
    rintro n s s' hn ⟨ih, iht⟩
    have e := iht n hn
    unfold iniGen0
    rw [e]
    refine ⟨⟨ih.ux, fun i hi => ?_, fun i hi => ?_⟩, fun j hj => ?_⟩
    · refine upd_agree rfl (fun h1 => upd_agree rfl (fun h2 => ih.lam i ?_))
      rcases hi with hi | hi | hi
      · exact Or.inl hi
      · right; left; omega
      · right; right; omega
    · refine upd_agree rfl (fun h1 => upd_agree rfl (fun h2 => ih.t i ?_))
      rcases hi with hi | hi | hi
      · exact Or.inl hi
      · right; left; omega
      · right; right; omega
    · exact upd_agree rfl (fun h1 => upd_agree rfl (fun h2 => iht j hj)))
  exact hh.1

theorem iniSoft0_agree (sq : K → K) (n2 ns nv : ℕ) (A : ℕ → Prop) (d mask : Vec K) (mu0 : K) (s s' : IniSt K)
    (h : IAgree (nv + 2 * ns) A s s') :
    IAgree (nv + 2 * ns) (fun i => A i ∨ (n2 ≤ i ∧ i < n2 + 2 * ns))
      (loop ns (iniSoft0 sq n2 ns nv d mask mu0) s) (loop ns (iniSoft0 sq n2 ns nv d mask mu0) s') := by
  have hh := loop_rel (fun n s s' => IAgree (nv + 2 * ns) (fun i => A i ∨ (n2 ≤ i ∧ i < n2 + n) ∨ (n2 + ns ≤ i ∧ i < n2 + ns + n)) s s')
    ns (iniSoft0 sq n2 ns nv d mask mu0) s s' (h.mono (by rintro i (hi | hi | hi); exacts [hi, by omega, by omega])) (by
    intro n s s' hn ih
    have e1 := ih.ux (nv + n) (by omega)
    have e2 := ih.ux (nv + ns + n) (by omega)
    unfold iniSoft0
    rw [e1, e2]
    extract_lets dl du tl tu ux1 ux2 q ux1' ux2'
    refine ⟨fun i hi => ?_, fun i hi => ?_, fun i hi => ?_⟩
    · have h1 : ux1 i = ux1' i := by
        simp only [ux1, ux1']
        split_ifs
        · exact upd_agree rfl (fun _ => ih.ux i hi)
        · exact ih.ux i hi
      show ux2 i = ux2' i
      simp only [ux2, ux2']
      split_ifs
      · exact upd_agree rfl (fun _ => h1)
      · exact h1
    · refine upd_agree rfl (fun h1 => upd_agree rfl (fun h2 => ih.lam i ?_))
      rcases hi with hi | hi | hi
      · exact Or.inl hi
      · right; left; omega
      · right; right; omega
    · refine upd_agree rfl (fun h1 => upd_agree rfl (fun h2 => ih.t i ?_))
      rcases hi with hi | hi | hi
      · exact Or.inl hi
      · right; left; omega
      · right; right; omega)
  refine hh.mono ?_
  rintro i (hi | hi)
  · exact Or.inl hi
  · right; omega

theorem iniAddSlk_agree (nbg ns nv : ℕ) (ir : ℕ → ℤ) (r : ℕ) (hir : ir r = -1 ∨ (ir r).toNat < ns) (B : ℕ → Prop)
    (s s' : IniSt K) (hu : ∀ i, i < nv + 2 * ns → s.ux i = s'.ux i) (ht : ∀ i, B i → s.t i = s'.t i) (hr : B r)
    (hr2 : B (nbg + r)) :
    (∀ i, i < nv + 2 * ns → (iniAddSlk nbg ns nv ir r s).ux i = (iniAddSlk nbg ns nv ir r s').ux i) ∧
    ∀ i, B i → (iniAddSlk nbg ns nv ir r s).t i = (iniAddSlk nbg ns nv ir r s').t i := by
  unfold iniAddSlk
  by_cases h : ir r ≠ -1
  · rw [if_pos h, if_pos h]
    have hi := hir.resolve_left h
    refine ⟨hu, fun i hi' => ?_⟩
    have e : ∀ j, B j → upd s.t r (s.t r + s.ux (nv + (ir r).toNat)) j = upd s'.t r (s'.t r + s'.ux (nv + (ir r).toNat)) j := by
      intro j hj
      refine upd_agree ?_ (fun _ => ht j hj)
      rw [ht r hr, hu _ (by omega)]
    refine upd_agree ?_ (fun _ => e i hi')
    rw [e _ hr2, hu _ (by omega)]
  · rw [if_neg h, if_neg h]; exact ⟨hu, ht⟩

theorem iniStage1_agree (qp : OcpQp K) (hwf : qp.WF) (mu0 : K) (k : ℕ) (hk : k ≤ qp.dim.N) (s s' : IniSt K)
    (h : IAgree (nvt qp.dim k) (fun _ => False) s s') :
    IAgree (nvt qp.dim k) (fun i => i < nct qp.dim k) (iniStage1 qp mu0 k s) (iniStage1 qp mu0 k s') := by
  unfold iniStage1
  extract_lets nb ng ns nv nbg n2 d s1 s2 s3 s4 s5 s6 s7 s8 s9 s10 s11 s12 s13 s14 z1 z2 z3 z4 z5 z6 z7 z8 z9 z10 z11 z12 z13 z14
  have hn : nct qp.dim k = 2 * nb + 2 * ng + 2 * ns := rfl
  have hv : nvt qp.dim k = nv + 2 * ns := rfl
  have e1 : nbg = nb + ng := rfl
  have e2 : n2 = 2 * nb + 2 * ng := rfl
  have hb : ∀ j, j < nb → qp.idxb k j < nv := fun j hj => hwf.1 k j hk hj
  have hir : ∀ j, j < nb + ng → qp.idxs_rev k j = -1 ∨ (qp.idxs_rev k j).toNat < ns := fun j hj =>
    (hwf.2 k j hk hj).imp id (fun h => h.2)
  have hu0 := h.ux
  rw [hv] at hu0
  have h2 : (∀ i, i < nv + 2 * ns → s2.ux i = z2.ux i) ∧ ∀ j, j < 2 * ns → s2.t (n2 + j) = z2.t (n2 + j) := by
    refine loop_rel (fun _ s s' => (∀ i, i < nv + 2 * ns → s.ux i = s'.ux i) ∧ ∀ j, j < 2 * ns → s.t (n2 + j) = s'.t (n2 + j))
      (2 * ns) _ s1 z1 ⟨hu0, fun j hj => ?_⟩ ?_
    · show axpy (2 * ns) (-1) d n2 s.ux nv s.t n2 (n2 + j) = axpy (2 * ns) (-1) d n2 s'.ux nv s'.t n2 (n2 + j)
      unfold axpy
      rw [if_pos (by omega), if_pos (by omega), hu0 _ (by omega)]
    · rintro j s s' hj ⟨iu, it⟩
      rw [it j hj]
      split_ifs
      · exact ⟨fun i hi => upd_agree rfl (fun _ => iu i hi), fun i hi => upd_agree rfl (fun _ => it i hi)⟩
      · exact ⟨iu, it⟩
  -- up to the boxes: all of `t` except the general constraints agrees
  let B : ℕ → Prop := fun i => i < nb ∨ (nbg ≤ i ∧ i < nbg + nb) ∨ (n2 ≤ i ∧ i < n2 + 2 * ns)
  have h3 : ∀ i, (i < nb ∨ (n2 ≤ i ∧ i < n2 + 2 * ns)) → s3.t i = z3.t i := by
    intro i hi
    show vecex_sp nb 1 (qp.idxb k) s2.ux 0 s2.t 0 i = vecex_sp nb 1 (qp.idxb k) z2.ux 0 z2.t 0 i
    unfold vecex_sp
    by_cases c : i < nb
    · rw [if_pos (by omega), if_pos (by omega)]
      have := hb (i - 0) (by omega)
      rw [h2.1 _ (by omega)]
    · rw [if_neg (by omega), if_neg (by omega)]
      have := h2.2 (i - n2) (by omega)
      rwa [show n2 + (i - n2) = i by omega] at this
  have h4 : ∀ i, B i → s4.t i = z4.t i := by
    intro i hi
    show veccpsc nb (-1) s3.t 0 s3.t nbg i = veccpsc nb (-1) z3.t 0 z3.t nbg i
    unfold veccpsc
    by_cases c : nbg ≤ i ∧ i < nbg + nb
    · rw [if_pos c, if_pos c, h3 _ (by omega)]
    · rw [if_neg c, if_neg c]
      exact h3 i (by have : B i := hi; simp only [B] at this; omega)
  have h5 : (∀ i, i < nv + 2 * ns → s5.ux i = z5.ux i) ∧ ∀ i, B i → s5.t i = z5.t i := by
    refine loop_rel (fun _ s s' => (∀ i, i < nv + 2 * ns → s.ux i = s'.ux i) ∧ ∀ i, B i → s.t i = s'.t i) nb _ s4 z4
      ⟨h2.1, h4⟩ ?_
    rintro j s s' hj ⟨iu, it⟩
    exact iniAddSlk_agree nbg ns nv _ j (hir j (by omega)) B s s' iu it (by simp only [B]; omega) (by simp only [B]; omega)
  have h6 : ∀ i, B i → s6.t i = z6.t i := by
    intro i hi
    show axpy nb (-1) d 0 s5.t 0 s5.t 0 i = axpy nb (-1) d 0 z5.t 0 z5.t 0 i
    unfold axpy
    split_ifs
    · rw [h5.2 _ (by simp only [B]; omega)]
    · exact h5.2 i hi
  have h7 : ∀ i, B i → s7.t i = z7.t i := by
    intro i hi
    show axpy nb (-1) d nbg s6.t nbg s6.t nbg i = axpy nb (-1) d nbg z6.t nbg z6.t nbg i
    unfold axpy
    split_ifs
    · rw [h6 _ (by simp only [B]; omega)]
    · exact h6 i hi
  have h8 : (∀ i, i < nv + 2 * ns → s8.ux i = z8.ux i) ∧ ∀ i, B i → s8.t i = z8.t i := by
    refine loop_rel (fun _ s s' => (∀ i, i < nv + 2 * ns → s.ux i = s'.ux i) ∧ ∀ i, B i → s.t i = s'.t i) nb _ s7 z7
      ⟨h5.1, h7⟩ ?_
    rintro j s s' hj ⟨iu, it⟩
    unfold iniBox1
    rw [it j (by simp only [B]; omega), it (nbg + j) (by simp only [B]; omega)]
    split_ifs
    · exact ⟨fun i hi => upd_agree rfl (fun _ => iu i hi), fun i hi => upd_agree rfl (fun _ => upd_agree rfl (fun _ => it i hi))⟩
    · exact ⟨fun i hi => upd_agree rfl (fun _ => iu i hi), fun i hi => upd_agree rfl (fun _ => it i hi)⟩
    · exact ⟨fun i hi => upd_agree rfl (fun _ => iu i hi), fun i hi => upd_agree rfl (fun _ => it i hi)⟩
    · exact ⟨iu, it⟩
  have h9 : ∀ i, (B i ∨ (nb ≤ i ∧ i < nbg)) → s9.t i = z9.t i := by
    intro i hi
    show gemv_t nv ng 1 (qp.DCt k) 0 0 s8.ux 0 0 s8.t nb s8.t nb i = gemv_t nv ng 1 (qp.DCt k) 0 0 z8.ux 0 0 z8.t nb z8.t nb i
    unfold gemv_t
    by_cases c : nb ≤ i ∧ i < nb + ng
    · rw [if_pos c, if_pos c]
      simp only [zero_mul, zero_add, one_mul]
      refine Finset.sum_congr rfl (fun j hj => ?_)
      rw [h8.1 j (by have := Finset.mem_range.1 hj; omega)]
    · rw [if_neg c, if_neg c]
      rcases hi with hi | hi
      · exact h8.2 i hi
      · omega
  let C : ℕ → Prop := fun i => i < n2 + 2 * ns
  have h10 : ∀ i, C i → s10.t i = z10.t i := by
    intro i hi
    show veccpsc ng (-1) s9.t nb s9.t (2 * nb + ng) i = veccpsc ng (-1) z9.t nb z9.t (2 * nb + ng) i
    unfold veccpsc
    split_ifs with c
    · rw [h9 _ (by right; omega)]
    · refine h9 i ?_
      have : C i := hi
      simp only [C] at this
      by_cases c2 : nb ≤ i ∧ i < nbg
      · exact Or.inr c2
      · left; simp only [B]; omega
  have h11 : (∀ i, i < nv + 2 * ns → s11.ux i = z11.ux i) ∧ ∀ i, C i → s11.t i = z11.t i := by
    refine loop_rel (fun _ s s' => (∀ i, i < nv + 2 * ns → s.ux i = s'.ux i) ∧ ∀ i, C i → s.t i = s'.t i) ng _ s10 z10
      ⟨h8.1, h10⟩ ?_
    rintro j s s' hj ⟨iu, it⟩
    exact iniAddSlk_agree nbg ns nv _ (nb + j) (hir (nb + j) (by omega)) C s s' iu it (by simp only [C]; omega) (by simp only [C]; omega)
  have h12 : ∀ i, C i → s12.t i = z12.t i := by
    intro i hi
    show axpy ng (-1) d nb s11.t nb s11.t nb i = axpy ng (-1) d nb z11.t nb z11.t nb i
    unfold axpy
    split_ifs
    · rw [h11.2 _ (by simp only [C]; omega)]
    · exact h11.2 i hi
  have h13 : ∀ i, C i → s13.t i = z13.t i := by
    intro i hi
    show axpy ng (-1) d (2 * nb + ng) s12.t (2 * nb + ng) s12.t (2 * nb + ng) i =
      axpy ng (-1) d (2 * nb + ng) z12.t (2 * nb + ng) z12.t (2 * nb + ng) i
    unfold axpy
    split_ifs
    · rw [h12 _ (by simp only [C]; omega)]
    · exact h12 i hi
  have h14 : (∀ i, i < nv + 2 * ns → s14.ux i = z14.ux i) ∧ ∀ i, C i → s14.t i = z14.t i := by
    refine loop_rel (fun _ s s' => (∀ i, i < nv + 2 * ns → s.ux i = s'.ux i) ∧ ∀ i, C i → s.t i = s'.t i) ng _ s13 z13
      ⟨h11.1, h13⟩ ?_
    rintro j s s' hj ⟨iu, it⟩
    refine ⟨iu, fun i hi => ?_⟩
    rw [it (nb + j) (by simp only [C]; omega), it (2 * nb + ng + j) (by simp only [C]; omega)]
    exact upd_agree rfl (fun _ => upd_agree rfl (fun _ => it i hi))
  have h15 := loop_rel (fun n s s' => (∀ i, i < nv + 2 * ns → s.ux i = s'.ux i) ∧ (∀ i, C i → s.t i = s'.t i) ∧
      ∀ i, i < n → s.lam i = s'.lam i) (nct qp.dim k)
    (fun jj (s : IniSt K) => { s with lam := upd s.lam jj (mu0 / s.t jj) }) s14 z14
    ⟨h14.1, h14.2, fun i hi => by omega⟩ (by
      rintro j s s' hj ⟨iu, it, il⟩
      refine ⟨iu, it, fun i hi => upd_agree ?_ (fun _ => il i (by omega))⟩
      rw [it j (by simp only [C]; omega)])
  exact ⟨h15.1, h15.2.2, fun i hi => h15.2.1 i (by simp only [C]; omega)⟩

/-- two solution objects agree on everything the dimensions give them -/
structure SolAgree (D : QpDim) (s s' : Sol K) : Prop where
  ux : ∀ k i, k ≤ D.N → i < nvt D k → s.ux k i = s'.ux k i
  pi : ∀ k i, k < D.N → i < D.nx (k + 1) → s.pi k i = s'.pi k i
  lam : ∀ k i, k ≤ D.N → i < nct D k → s.lam k i = s'.lam k i
  t : ∀ k i, k ≤ D.N → i < nct D k → s.t k i = s'.t k i

/-- stages initialised one after the other from agreeing stages agree -/
theorem iniStages_agree (D : QpDim) (f : ℕ → IniSt K → IniSt K) (A B : ℕ → ℕ → Prop)
    (hf : ∀ k, k ≤ D.N → ∀ s s' : IniSt K, IAgree (nvt D k) (A k) s s' → IAgree (nvt D k) (B k) (f k s) (f k s'))
    (s s' : Sol K)
    (h : ∀ k, k ≤ D.N → IAgree (nvt D k) (A k) ⟨s.ux k, s.lam k, s.t k⟩ ⟨s'.ux k, s'.lam k, s'.t k⟩) :
    ∀ k, k ≤ D.N → IAgree (nvt D k) (B k)
      ⟨(iniStages D.N f s).ux k, (iniStages D.N f s).lam k, (iniStages D.N f s).t k⟩
      ⟨(iniStages D.N f s').ux k, (iniStages D.N f s').lam k, (iniStages D.N f s').t k⟩ := by
  intro k hk
  obtain ⟨a1, a2, a3⟩ := (iniStages_val D.N f s).1 k hk
  obtain ⟨b1, b2, b3⟩ := (iniStages_val D.N f s').1 k hk
  rw [a1, a2, a3, b1, b2, b3]
  exact hf k hk _ _ (h k hk)

theorem iniClip_ux (nc : ℕ) (lmin tmin : K) (s : IniSt K) : (iniClip nc lmin tmin s).ux = s.ux :=
  loop_inv (S := IniSt K) (fun _ s' => s'.ux = s.ux) nc _ s rfl (fun _ _ _ h => h)

/-- **C32** the primal point and the equality multipliers are kept by a primal-dual warm start and a hot start -/
theorem initVar_warm_keeps (sq : K → K) (qp : OcpQp K) (a : IpmArg K) (sol : Sol K) (hw : 2 ≤ a.i .warm_start) :
    (∀ k, k ≤ qp.dim.N → (initVar sq qp a sol).ux k = sol.ux k) ∧ (initVar sq qp a sol).pi = sol.pi := by
  unfold initVar
  extract_lets D N mu0 sol1 sol2 sol3 sol4
  by_cases h3 : a.i .warm_start ≥ 3
  · rw [if_pos h3]
    refine ⟨fun k hk => ?_, (iniStages_val _ _ _).2⟩
    obtain ⟨e, -⟩ := (iniStages_val N (fun k s => iniClip (nct D k) (a.r .lam0_min) (a.r .t0_min) s) sol).1 k hk
    rw [e, iniClip_ux]
  · rw [if_neg h3, if_pos (by omega)]
    refine ⟨fun k hk => ?_, (iniStages_val _ _ _).2⟩
    obtain ⟨e, -⟩ := (iniStages_val N (fun k s => iniClip (nct D k) thr0 thr0 s) sol).1 k hk
    rw [e, iniClip_ux]

/-- the initial point depends on the contents of the solution object only within the dimensions, and not at all in a cold start -/
theorem initVar_agree (sq : K → K) (qp : OcpQp K) (hwf : qp.WF) (a : IpmArg K)
    (sol sol' : Sol K) (hag : a.i .warm_start = 0 ∨ SolAgree qp.dim sol sol') : SolAgree qp.dim (initVar sq qp a sol) (initVar sq qp a sol') := by
  by_cases hw2' : 2 ≤ a.i .warm_start
  · rcases hag with h | h
    · omega
    · obtain ⟨u1, p1⟩ := initVar_warm_keeps sq qp a sol hw2'
      obtain ⟨u2, p2⟩ := initVar_warm_keeps sq qp a sol' hw2'
      refine ⟨fun k i hk hi => ?_, fun k i hk hi => ?_, fun k i hk hi => ?_, fun k i hk hi => ?_⟩
      · rw [u1 k hk, u2 k hk]; exact h.ux k i hk hi
      · rw [p1, p2]; exact h.pi k i hk hi
      · rw [(initVar_warm sq qp a sol hw2' k i hk hi).2, (initVar_warm sq qp a sol' hw2' k i hk hi).2, h.lam k i hk hi]
      · rw [(initVar_warm sq qp a sol hw2' k i hk hi).1, (initVar_warm sq qp a sol' hw2' k i hk hi).1, h.t k i hk hi]
  -- zeroed primal variables and equality multipliers
  have hux : ∀ sol : Sol K, ∀ n, (∀ k i, k < n → i < nvt qp.dim k →
      (loop n (fun k (sol : Sol K) => { sol with ux := upd sol.ux k (vecse (nvt qp.dim k) 0 (sol.ux k) 0) }) sol).ux k i = 0) := by
    intro sol n
    refine loop_inv (S := Sol K) (fun n s => ∀ k i, k < n → i < nvt qp.dim k → s.ux k i = 0) n _ sol (fun k i hk => by omega) ?_
    intro m s _ ih k i hk hi
    by_cases hkm : k = m
    · subst hkm
      simp only [upd_same, vecse]
      rw [if_pos (by omega)]
    · simp only [upd_ne _ _ hkm]; exact ih k i (by omega) hi
  have hpi : ∀ sol : Sol K, ∀ n, ((∀ k i, k < n → i < qp.dim.nx (k + 1) →
      (loop n (fun k (sol : Sol K) => { sol with pi := upd sol.pi k (vecse (qp.dim.nx (k + 1)) 0 (sol.pi k) 0) }) sol).pi k i = 0)
      ∧ (loop n (fun k (sol : Sol K) => { sol with pi := upd sol.pi k (vecse (qp.dim.nx (k + 1)) 0 (sol.pi k) 0) }) sol).ux = sol.ux) := by
    intro sol n
    refine loop_inv (S := Sol K) (fun n s => (∀ k i, k < n → i < qp.dim.nx (k + 1) → s.pi k i = 0) ∧ s.ux = sol.ux) n _ sol
      ⟨fun k i hk => by omega, rfl⟩ ?_
    intro m s _ ih
    refine ⟨fun k i hk hi => ?_, ih.2⟩
    by_cases hkm : k = m
    · subst hkm
      simp only [upd_same, vecse]
      rw [if_pos (by omega)]
    · simp only [upd_ne _ _ hkm]; exact ih.1 k i (by omega) hi
  unfold initVar
  extract_lets D N mu0 x1 x2 x3 x4 y1 y2 y3 y4
  have hw3 : ¬ a.i .warm_start ≥ 3 := by omega
  have hw2 : ¬ a.i .warm_start = 2 := by omega
  simp only [if_neg hw3, if_neg hw2]
  have hxy : ∀ k i, k ≤ D.N → i < nvt D k → x1.ux k i = y1.ux k i := by
    intro k i hk hi
    simp only [x1, y1]
    by_cases hw : a.i .warm_start = 0
    · rw [if_pos hw, if_pos hw]
      exact (hux sol (N + 1) k i (by show k < D.N + 1; omega) hi).trans (hux sol' (N + 1) k i (by show k < D.N + 1; omega) hi).symm
    · rw [if_neg hw, if_neg hw]
      rcases hag with h | h
      · exact absurd h hw
      · exact h.ux k i hk hi
  obtain ⟨px, ux⟩ := hpi x1 N
  obtain ⟨py, uy⟩ := hpi y1 N
  have h0 : ∀ k, k ≤ D.N → IAgree (nvt D k) (fun _ => False) ⟨x2.ux k, x2.lam k, x2.t k⟩ ⟨y2.ux k, y2.lam k, y2.t k⟩ := by
    intro k hk
    refine ⟨fun i hi => ?_, fun i hi => hi.elim, fun i hi => hi.elim⟩
    show x2.ux k i = y2.ux k i
    rw [show x2.ux = x1.ux from ux, show y2.ux = y1.ux from uy, hxy k i hk hi]
  have fin : ∀ (s s' : Sol K), (∀ k, k ≤ D.N → IAgree (nvt D k) (fun i => i < nct D k) ⟨s.ux k, s.lam k, s.t k⟩ ⟨s'.ux k, s'.lam k, s'.t k⟩) →
      s.pi = x2.pi → s'.pi = y2.pi → SolAgree D s s' := by
    intro s s' h e e'
    refine ⟨fun k i hk hi => (h k hk).ux i hi, fun k i hk hi => ?_, fun k i hk hi => (h k hk).lam i hi, fun k i hk hi => (h k hk).t i hi⟩
    rw [e, e']
    exact (px k i hk hi).trans (py k i hk hi).symm
  by_cases h1 : a.i .t0_init = 0
  · simp only [if_pos h1]
    refine fin _ _ (iniStages_agree D _ (fun _ _ => False) _ (fun k hk s s' h => iniConst_agree _ _ _ _ s s' h) x2 y2 h0) ?_ ?_
    · exact (iniStages_val _ _ _).2
    · exact (iniStages_val _ _ _).2
  simp only [if_neg h1]
  by_cases h2 : a.i .t0_init = 1
  · simp only [if_pos h2]
    refine fin _ _ (iniStages_agree D _ (fun _ _ => False) _ (fun k hk s s' h => iniConst_agree _ _ _ _ s s' h) x2 y2 h0) ?_ ?_
    · exact (iniStages_val _ _ _).2
    · exact (iniStages_val _ _ _).2
  simp only [if_neg h2]
  by_cases h3 : a.i .var_init_scheme = 0
  · simp only [if_pos h3]
    have g1 := iniStages_agree D _ (fun _ _ => False) _ (fun k hk s s' h =>
      iniBox0_agree (nvt D k) (D.nb k) (D.ng k) (qp.idxb k) (fun j hj => by
        have := hwf.1 k j hk hj
        show _ < D.nu k + D.nx k + 2 * D.ns k
        have e : D = qp.dim := rfl
        rw [e]; omega) (qp.d k) (qp.d_mask k) mu0 s s' h) x2 y2 h0
    have g2 := iniStages_agree D (fun k s =>
        loop (D.ng k) (iniGen0 (D.nb k) (D.ng k) (qp.d k) (qp.d_mask k) mu0)
          { s with t := gemv_t (D.nu k + D.nx k) (D.ng k) 1 (qp.DCt k) 0 0 s.ux 0 0 s.t (D.nb k) s.t (D.nb k) }) _ _
      (fun k hk s s' h => by
        refine iniGen0_agree (nvt D k) (D.nb k) (D.ng k) (fun i => i < D.nb k ∨ (D.nb k + D.ng k ≤ i ∧ i < D.nb k + D.ng k + D.nb k))
          (qp.d k) (qp.d_mask k) mu0 _ _ ⟨h.ux, h.lam, fun i hi => ?_⟩ (fun j hj => ?_)
        · show gemv_t _ _ _ _ _ _ _ _ _ _ _ _ _ i = gemv_t _ _ _ _ _ _ _ _ _ _ _ _ _ i
          unfold gemv_t
          rw [if_neg (by omega), if_neg (by omega)]
          exact h.t i hi
        · show gemv_t _ _ _ _ _ _ _ _ _ _ _ _ _ _ = gemv_t _ _ _ _ _ _ _ _ _ _ _ _ _ _
          unfold gemv_t
          rw [if_pos (by omega), if_pos (by omega)]
          simp only [zero_mul, zero_add, one_mul]
          refine Finset.sum_congr rfl (fun l hl => ?_)
          rw [h.ux l (by have := Finset.mem_range.1 hl; show l < D.nu k + D.nx k + 2 * D.ns k; omega)]) x3 y3 g1
    have g3 := iniStages_agree D (fun k s =>
        loop (D.ns k) (iniSoft0 sq (2 * D.nb k + 2 * D.ng k) (D.ns k) (D.nu k + D.nx k) (qp.d k) (qp.d_mask k) mu0) s) _ _
      (fun k hk s s' h => iniSoft0_agree sq (2 * D.nb k + 2 * D.ng k) (D.ns k) (D.nu k + D.nx k) _ (qp.d k) (qp.d_mask k) mu0 s s' h)
      x4 y4 g2
    refine fin _ _ (fun k hk => (g3 k hk).mono (fun i hi => ?_)) ?_ ?_
    · have hi' : i < 2 * D.nb k + 2 * D.ng k + 2 * D.ns k := hi
      beta_reduce
      omega
    · rw [(iniStages_val _ _ _).2]
      show x4.pi = x2.pi
      simp only [x4, x3]
      rw [(iniStages_val _ _ _).2, (iniStages_val _ _ _).2]
    · rw [(iniStages_val _ _ _).2]
      show y4.pi = y2.pi
      simp only [y4, y3]
      rw [(iniStages_val _ _ _).2, (iniStages_val _ _ _).2]
  · simp only [if_neg h3]
    refine fin _ _ (iniStages_agree D _ (fun _ _ => False) _ (fun k hk s s' h => iniStage1_agree qp hwf mu0 k hk s s' h) x2 y2 h0) ?_ ?_
    · exact (iniStages_val _ _ _).2
    · exact (iniStages_val _ _ _).2

/-- **C51** a cold start forgets: the initial point does not depend on the previous contents of the
solution object. -/
theorem initVar_cold_indep (sq : K → K) (qp : OcpQp K) (hwf : qp.WF) (a : IpmArg K) (hw : a.i .warm_start = 0)
    (sol sol' : Sol K) : SolAgree qp.dim (initVar sq qp a sol) (initVar sq qp a sol') :=
  initVar_agree sq qp hwf a sol sol' (Or.inl hw)

end

/-! ### Concrete cases -/

section Concrete

/-- settings with `mu0 = 4` (root 2), hot start thresholds 1/1000, and the given integers -/
def exIniArg (warm t0 scheme : ℤ) : IpmArg ℚ where
  r := fun f => if f = .mu0 then 4 else 1 / 1000
  i := fun f => if f = .warm_start then warm else if f = .t0_init then t0 else if f = .var_init_scheme then scheme else 0

/-- C32: all the cold and primal warm start variants on a QP with a box, a softened general constraint and a
previous solution with zero slacks -/
example (t0 scheme : ℤ) : 0 < (initVar (fun _ => 2) exRQp (exIniArg 1 t0 scheme) exRSol).t 1 0 ∧
    0 < (initVar (fun _ => 2) exRQp (exIniArg 1 t0 scheme) exRSol).lam 1 0 ∧
    (initVar (fun _ => 2) exRQp (exIniArg 1 t0 scheme) exRSol).lam 1 0 *
      (initVar (fun _ => 2) exRQp (exIniArg 1 t0 scheme) exRSol).t 1 0 = 4 :=
  initVar_interior (fun _ => 2) exRQp (exIniArg 1 t0 scheme) exRSol (by show (1 : ℤ) < 2; norm_num)
    (by show (0 : ℚ) < 4; norm_num) (by norm_num) (by show (2 : ℚ) * 2 = 4; norm_num) 1 0 (by decide) (by decide)

/-- C32: primal-dual warm start lifts a zero slack to 1/10, hot start to the given threshold -/
example : (initVar (fun _ => 2) exRQp (exIniArg 2 0 0) exRSol).t 1 0 = 1 / 10 ∧
    (initVar (fun _ => 2) exRQp (exIniArg 3 0 0) exRSol).t 1 0 = 1 / 1000 ∧
    (initVar (fun _ => 2) exRQp (exIniArg 3 0 0) exRSol).lam 1 0 = 1 / 3 := by decide +kernel

/-- C51: a cold start gives the same point from two different previous contents -/
example (t0 scheme : ℤ) : (initVar (fun _ => 2) exRQp (exIniArg 0 t0 scheme) exRSol).t 1 2 =
    (initVar (fun _ => 2) exRQp (exIniArg 0 t0 scheme)
      { exRSol with ux := fun _ _ => 9, t := fun _ _ => -3, lam := fun _ _ => 5 }).t 1 2 :=
  (initVar_cold_indep (fun _ => 2) exRQp exRQp_wf (exIniArg 0 t0 scheme) rfl _ _).t 1 2 (by decide) (by decide)

example : (initVar (fun _ => 2) exRQp (exIniArg 2 0 0) exRSol).ux 1 = exRSol.ux 1 :=
  (initVar_warm_keeps (fun _ => 2) exRQp (exIniArg 2 0 0) exRSol (by decide)).1 1 (by decide)

/-- a primal warm start does depend on them, so the hypothesis of C51 is needed -/
example : (initVar (fun _ => 2) exRQp (exIniArg 1 2 0) exRSol).ux 1 0 ≠
    (initVar (fun _ => 2) exRQp (exIniArg 1 2 0) { exRSol with ux := fun _ _ => 9 }).ux 1 0 := by decide +kernel

end Concrete
end Hpipm
