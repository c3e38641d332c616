/-
C74: the initial point of the dense solver: strictly interior, a cold start forgets the previous contents; where the
heuristics for the slacks go wrong.
-/
import Verif.DenseIpm
import Verif.DenseResProps
import Verif.DenseKktEx
import Verif.IpmInitProps

namespace Hpipm
open Finset
set_option linter.unusedSectionVars false

section
variable {K : Type*} [Field K] [LinearOrder K] [IsStrictOrderedRing K]

theorem diniBox_cen (nb ng : ℕ) (idxb : ℕ → ℕ) (d mask : Vec K) (mu0 : K) (s : IniSt K) (i : ℕ)
    (hi : i < nb ∨ (nb + ng ≤ i ∧ i < 2 * nb + ng)) :
    Cen mu0 (loop nb (diniBox (nb + ng) idxb d mask mu0) s).lam (loop nb (diniBox (nb + ng) idxb d mask mu0) s).t i := by
  have h := loop_inv (S := IniSt K) (fun n s => ∀ i, i < n ∨ (nb + ng ≤ i ∧ i < nb + ng + n) → Cen mu0 s.lam s.t i) nb
    (diniBox (nb + ng) idxb d mask mu0) s (fun i hi => by omega) (by
      intro n s hn ih i hi
      have key : ∀ r : K × K × K, 0 < r.2.1 → 0 < r.2.2 →
          Cen mu0 (upd (upd s.lam n (mu0 / r.2.1)) (nb + ng + n) (mu0 / r.2.2))
            (upd (upd s.t n r.2.1) (nb + ng + n) r.2.2) i := by
        intro r h1 h2
        apply cen_upd2 _ _ _ _ _ _ _ (by omega) h1 h2
        by_cases h3 : i = n
        · exact Or.inl h3
        · by_cases h4 : i = nb + ng + n
          · exact Or.inr (Or.inl h4)
          · exact Or.inr (Or.inr (ih i (by omega)))
      have hp := thr0_pos (K := K)
      unfold diniBox
      extract_lets x dl du tl tu r
      apply key
      · show 0 < r.2.1
        simp only [r]
        split_ifs with h1 h2 h3
        · exact hp
        · exact hp
        · exact lt_of_lt_of_le hp (not_lt.1 h1)
        · exact lt_of_lt_of_le hp (not_lt.1 h1)
      · show 0 < r.2.2
        simp only [r]
        split_ifs with h1 h2 h3
        · exact hp
        · exact lt_of_lt_of_le hp (not_lt.1 h2)
        · exact hp
        · exact lt_of_lt_of_le hp (not_lt.1 h3))
  exact h i (by omega)

theorem diniGen_cen (nb ng : ℕ) (d mask : Vec K) (mu0 : K) (s : IniSt K) (i : ℕ)
    (hi : (i < nb ∨ (nb + ng ≤ i ∧ i < 2 * nb + ng)) ∧ Cen mu0 s.lam s.t i ∨ (nb ≤ i ∧ i < nb + ng) ∨
      (2 * nb + ng ≤ i ∧ i < 2 * nb + 2 * ng)) :
    Cen mu0 (loop ng (diniGen nb ng d mask mu0) s).lam (loop ng (diniGen nb ng d mask mu0) s).t i := by
  have h := loop_inv (S := IniSt K) (fun n s' => ∀ i,
      ((i < nb ∨ (nb + ng ≤ i ∧ i < 2 * nb + ng)) ∧ Cen mu0 s.lam s.t i ∨ (nb ≤ i ∧ i < nb + n) ∨
        (2 * nb + ng ≤ i ∧ i < 2 * nb + ng + n)) → Cen mu0 s'.lam s'.t i) ng
    (diniGen nb ng d mask mu0) s (by
      rintro i (h | h | h)
      · exact h.2
      · omega
      · omega) (by
      intro n s' hn ih i hi
      unfold diniGen
      dsimp only
      apply cen_upd2 _ _ _ _ _ _ _ (by omega) (clipGt_pos _) (clipGt_pos _)
      by_cases h3 : i = nb + n
      · exact Or.inl h3
      · by_cases h4 : i = 2 * nb + ng + n
        · exact Or.inr (Or.inl h4)
        · refine Or.inr (Or.inr (ih i ?_))
          rcases hi with h | h | h
          · exact Or.inl h
          · right; left; omega
          · right; right; omega)
  apply h
  rcases hi with h | h | h
  · exact Or.inl h
  · right; left; omega
  · right; right; omega

theorem diniSoft_cen (n2 ns : ℕ) (mu0 : K) (s : IniSt K) (i : ℕ)
    (hi : i < n2 ∧ Cen mu0 s.lam s.t i ∨ (n2 ≤ i ∧ i < n2 + 2 * ns)) :
    Cen mu0 (loop ns (diniSoft n2 ns mu0) s).lam (loop ns (diniSoft n2 ns mu0) s).t i := by
  have h := loop_inv (S := IniSt K) (fun n s' => ∀ i,
      (i < n2 ∧ Cen mu0 s.lam s.t i ∨ (n2 ≤ i ∧ i < n2 + n) ∨ (n2 + ns ≤ i ∧ i < n2 + ns + n)) → Cen mu0 s'.lam s'.t i) ns
    (diniSoft n2 ns mu0) s (by
      rintro i (h | h | h)
      · exact h.2
      · omega
      · omega) (by
      intro n s' hn ih i hi
      unfold diniSoft
      dsimp only
      apply cen_upd2 _ _ _ _ _ _ _ (by omega) one_pos one_pos
      by_cases h3 : i = n2 + n
      · exact Or.inl h3
      · by_cases h4 : i = n2 + ns + n
        · exact Or.inr (Or.inl h4)
        · refine Or.inr (Or.inr (ih i ?_))
          rcases hi with h | h | h
          · exact Or.inl h
          · right; left; omega
          · right; right; omega)
  apply h
  rcases hi with h | h
  · exact Or.inl h
  · right; omega

theorem dinitVar_cen (sq : K → K) (qp : DenseQp K) (a : DIpmArg K) (sol : DqSol K) (hw : a.i .warm_start < 2)
    (hq : 0 < sq (a.r .mu0)) (hq2 : sq (a.r .mu0) * sq (a.r .mu0) = a.r .mu0) (j : ℕ) (hj : j < qp.dim.nct) :
    Cen (a.r .mu0) (dinitVar sq qp a sol).lam (dinitVar sq qp a sol).t j := by
  unfold dinitVar
  extract_lets D mu0 fin st sol1 sol2 s1 s2
  rw [if_neg (by omega), if_neg (by omega)]
  split_ifs with h1 h2
  · obtain ⟨e3, e4⟩ := iniConst_val D.nct (sq mu0) (sq mu0) (st sol2) j hj
    show Cen mu0 (iniConst D.nct (sq mu0) (sq mu0) (st sol2)).lam (iniConst D.nct (sq mu0) (sq mu0) (st sol2)).t j
    unfold Cen
    rw [e3, e4]
    exact ⟨hq, hq2⟩
  · obtain ⟨e3, e4⟩ := iniConst_val D.nct mu0 1 (st sol2) j hj
    show Cen mu0 (iniConst D.nct mu0 1 (st sol2)).lam (iniConst D.nct mu0 1 (st sol2)).t j
    unfold Cen
    rw [e3, e4]
    exact ⟨one_pos, mul_one _⟩
  · show Cen mu0 (loop D.ns (diniSoft (2 * D.nb + 2 * D.ng) D.ns mu0) s2).lam (loop D.ns (diniSoft (2 * D.nb + 2 * D.ng) D.ns mu0) s2).t j
    have hn : qp.dim.nct = 2 * D.nb + 2 * D.ng + 2 * D.ns := rfl
    apply diniSoft_cen
    by_cases hj2 : j < 2 * D.nb + 2 * D.ng
    · refine Or.inl ⟨hj2, ?_⟩
      have hb := diniBox_cen D.nb D.ng qp.idxb qp.d qp.d_mask mu0 (st sol2) j
      simp only [s2]
      split
      · apply diniGen_cen
        by_cases c : j < D.nb ∨ (D.nb + D.ng ≤ j ∧ j < 2 * D.nb + D.ng)
        · refine Or.inl ⟨c, ?_⟩
          have hb' : Cen mu0 s1.lam s1.t j := hb c
          have e7 : gemv_t D.nv D.ng 1 qp.Ct 0 0 s1.ux 0 0 s1.t D.nb s1.t D.nb j = s1.t j := by
            unfold gemv_t; rw [if_neg (by omega)]
          unfold Cen at hb' ⊢
          dsimp only
          rw [e7]
          exact hb'
        · right; omega
      · exact hb (by omega)
    · right; omega

/-- **C74** cold start and primal warm start of the dense solver: whatever the QP and the previous contents, every slack and
multiplier is strictly positive and all products equal the initial barrier parameter. -/
theorem dinitVar_interior (sq : K → K) (qp : DenseQp K) (a : DIpmArg K) (sol : DqSol K) (hw : a.i .warm_start < 2)
    (hmu : 0 < a.r .mu0) (hq : 0 < sq (a.r .mu0)) (hq2 : sq (a.r .mu0) * sq (a.r .mu0) = a.r .mu0)
    (j : ℕ) (hj : j < qp.dim.nct) :
    0 < (dinitVar sq qp a sol).t j ∧ 0 < (dinitVar sq qp a sol).lam j ∧
      (dinitVar sq qp a sol).lam j * (dinitVar sq qp a sol).t j = a.r .mu0 := by
  have h := dinitVar_cen sq qp a sol hw hq hq2 j hj
  exact ⟨h.1, h.lam_pos hmu, h.2⟩

/-- **C74** primal-dual warm start and hot start of the dense solver: the primal point and the equality multipliers are kept,
slacks and multipliers of inequalities are the previous ones lifted to the threshold. -/
theorem dinitVar_warm (sq : K → K) (qp : DenseQp K) (a : DIpmArg K) (sol : DqSol K) (hw : 2 ≤ a.i .warm_start) :
    (dinitVar sq qp a sol).v = sol.v ∧ (dinitVar sq qp a sol).pi = sol.pi ∧ ∀ j, j < qp.dim.nct →
    (dinitVar sq qp a sol).t j = max (if a.i .warm_start = 2 then 1 / 10 else a.r .t0_min) (sol.t j) ∧
    (dinitVar sq qp a sol).lam j = max (if a.i .warm_start = 2 then 1 / 10 else a.r .lam0_min) (sol.lam j) := by
  have hux : ∀ (n : ℕ) (l t : K) (s : IniSt K), (iniClip n l t s).ux = s.ux := fun n l t s =>
    loop_inv (S := IniSt K) (fun _ x => x.ux = s.ux) n _ s rfl (fun i x _ ih => ih)
  unfold dinitVar
  extract_lets D mu0 fin st sol1 sol2 s1 s2
  by_cases h3 : a.i .warm_start ≥ 3
  · rw [if_pos h3, if_neg (by omega), if_neg (by omega)]
    refine ⟨hux _ _ _ _, rfl, fun j hj => ?_⟩
    obtain ⟨e3, e4⟩ := iniClip_val D.nct (a.r .lam0_min) (a.r .t0_min) (st sol) j hj
    exact ⟨e4, e3⟩
  · rw [if_neg h3, if_pos (by omega), if_pos (by omega), if_pos (by omega)]
    refine ⟨hux _ _ _ _, rfl, fun j hj => ?_⟩
    obtain ⟨e3, e4⟩ := iniClip_val D.nct thr0 thr0 (st sol) j hj
    exact ⟨e4, e3⟩

/-! ### cold start: independence of previous contents -/

theorem diniBox_agree (nv nb ng : ℕ) (idxb : ℕ → ℕ) (hidx : ∀ j, j < nb → idxb j < nv) (d mask : Vec K) (mu0 : K)
    (s s' : IniSt K) (h : IAgree nv (fun _ => False) s s') :
    IAgree nv (fun i => i < nb ∨ (nb + ng ≤ i ∧ i < nb + ng + nb)) (loop nb (diniBox (nb + ng) idxb d mask mu0) s)
      (loop nb (diniBox (nb + ng) idxb d mask mu0) s') := by
  refine loop_rel (fun n s s' => IAgree nv (fun i => i < n ∨ (nb + ng ≤ i ∧ i < nb + ng + n)) s s') nb _ s s'
    (h.mono (by intro i hi; omega)) ?_
  intro n s s' hn ih
  have hx : s.ux (idxb n) = s'.ux (idxb n) := ih.ux _ (hidx n hn)
  unfold diniBox
  rw [hx]
  refine ⟨fun i hi => ?_, fun i hi => ?_, fun i hi => ?_⟩
  · exact upd_agree rfl (fun _ => ih.ux i hi)
  · exact upd_agree rfl (fun h1 => upd_agree rfl (fun h2 => ih.lam i (by omega)))
  · exact upd_agree rfl (fun h1 => upd_agree rfl (fun h2 => ih.t i (by omega)))

theorem diniGen_agree (nv nb ng : ℕ) (A : ℕ → Prop) (d mask : Vec K) (mu0 : K) (s s' : IniSt K) (h : IAgree nv A s s')
    (ht : ∀ j, j < ng → s.t (nb + j) = s'.t (nb + j)) :
    IAgree nv (fun i => A i ∨ (nb ≤ i ∧ i < nb + ng) ∨ (2 * nb + ng ≤ i ∧ i < 2 * nb + ng + ng))
      (loop ng (diniGen nb ng d mask mu0) s) (loop ng (diniGen nb ng d mask mu0) s') := by
  have hh := loop_rel (fun n s s' => IAgree nv (fun i => A i ∨ (nb ≤ i ∧ i < nb + n) ∨ (2 * nb + ng ≤ i ∧ i < 2 * nb + ng + n)) s s' ∧
      ∀ j, j < ng → s.t (nb + j) = s'.t (nb + j)) ng (diniGen nb ng d mask mu0) s s'
    ⟨h.mono (by rintro i (hi | hi | hi); exacts [hi, by omega, by omega]), ht⟩ (by
    rintro n s s' hn ⟨ih, iht⟩
    have e := iht n hn
    unfold diniGen
    rw [e]
    refine ⟨⟨ih.ux, fun i hi => ?_, fun i hi => ?_⟩, fun j hj => ?_⟩
    · refine upd_agree rfl (fun h1 => upd_agree rfl (fun h2 => ih.lam i ?_))
      rcases hi with hi | hi | hi
      · exact Or.inl hi
      · right; left; omega
      · right; right; omega
    · refine upd_agree rfl (fun h1 => upd_agree rfl (fun h2 => ih.t i ?_))
      rcases hi with hi | hi | hi
      · exact Or.inl hi
      · right; left; omega
      · right; right; omega
    · exact upd_agree rfl (fun h1 => upd_agree rfl (fun h2 => iht j hj)))
  exact hh.1

theorem diniSoft_agree (n2 ns nv : ℕ) (A : ℕ → Prop) (mu0 : K) (s s' : IniSt K) (h : IAgree nv A s s') :
    IAgree nv (fun i => A i ∨ (n2 ≤ i ∧ i < n2 + 2 * ns))
      (loop ns (diniSoft n2 ns mu0) s) (loop ns (diniSoft n2 ns mu0) s') := by
  have hh := loop_rel (fun n s s' => IAgree nv (fun i => A i ∨ (n2 ≤ i ∧ i < n2 + n) ∨ (n2 + ns ≤ i ∧ i < n2 + ns + n)) s s')
    ns (diniSoft n2 ns mu0) s s' (h.mono (by rintro i (hi | hi | hi); exacts [hi, by omega, by omega])) (by
    intro n s s' hn ih
    unfold diniSoft
    refine ⟨ih.ux, fun i hi => ?_, fun i hi => ?_⟩
    · refine upd_agree rfl (fun h1 => upd_agree rfl (fun h2 => ih.lam i ?_))
      rcases hi with hi | hi | hi
      · exact Or.inl hi
      · right; left; omega
      · right; right; omega
    · refine upd_agree rfl (fun h1 => upd_agree rfl (fun h2 => ih.t i ?_))
      rcases hi with hi | hi | hi
      · exact Or.inl hi
      · right; left; omega
      · right; right; omega)
  refine hh.mono ?_
  rintro i (hi | hi)
  · exact Or.inl hi
  · right; omega

/-- two dense solutions agree on all entries that belong to the problem -/
structure DSolAgree (D : DDim) (s s' : DqSol K) : Prop where
  v : ∀ i, i < D.nv + 2 * D.ns → s.v i = s'.v i
  pi : ∀ i, i < D.ne → s.pi i = s'.pi i
  lam : ∀ j, j < D.nct → s.lam j = s'.lam j
  t : ∀ j, j < D.nct → s.t j = s'.t j

/-- **C74** a cold start of the dense solver forgets: the initial point does not depend on the previous contents of the
solution object. -/
theorem dinitVar_cold_indep (sq : K → K) (qp : DenseQp K) (hwf : qp.WF) (a : DIpmArg K) (hw : a.i .warm_start = 0)
    (sol sol' : DqSol K) : DSolAgree qp.dim (dinitVar sq qp a sol) (dinitVar sq qp a sol') := by
  unfold dinitVar
  extract_lets D mu0 fin st x1 x2 x3 x4 y1 y2 y3 y4
  have hw3 : ¬ a.i .warm_start ≥ 3 := by omega
  have hw2 : ¬ a.i .warm_start = 2 := by omega
  simp only [if_neg hw3, if_neg hw2]
  have hx : ∀ i, i < D.nv + 2 * D.ns → x2.v i = 0 := by
    intro i hi
    show x1.v i = 0
    simp only [x1]; rw [if_pos hw]
    simp only [vecse]; rw [if_pos (by omega)]
  have hy : ∀ i, i < D.nv + 2 * D.ns → y2.v i = 0 := by
    intro i hi
    show y1.v i = 0
    simp only [y1]; rw [if_pos hw]
    simp only [vecse]; rw [if_pos (by omega)]
  have h0 : IAgree (D.nv + 2 * D.ns) (fun _ => False) (st x2) (st y2) :=
    ⟨fun i hi => (hx i hi).trans (hy i hi).symm, fun i hi => hi.elim, fun i hi => hi.elim⟩
  have fin' : ∀ s s' : IniSt K, IAgree (D.nv + 2 * D.ns) (fun i => i < D.nct) s s' → DSolAgree D (fin x2 s) (fin y2 s') := by
    intro s s' h
    refine ⟨h.ux, fun i hi => ?_, h.lam, h.t⟩
    show vecse D.ne 0 x1.pi 0 i = vecse D.ne 0 y1.pi 0 i
    simp only [vecse]
    rw [if_pos (by omega), if_pos (by omega)]
  by_cases h1 : a.i .t0_init = 0
  · simp only [if_pos h1]
    exact fin' _ _ (iniConst_agree _ _ _ _ _ _ h0)
  simp only [if_neg h1]
  by_cases h2 : a.i .t0_init = 1
  · simp only [if_pos h2]
    exact fin' _ _ (iniConst_agree _ _ _ _ _ _ h0)
  simp only [if_neg h2]
  have g1 : IAgree (D.nv + 2 * D.ns) (fun i => i < D.nb ∨ (D.nb + D.ng ≤ i ∧ i < D.nb + D.ng + D.nb)) x3 y3 :=
    diniBox_agree (D.nv + 2 * D.ns) D.nb D.ng qp.idxb (fun j hj => by
      have := hwf.idxb j hj
      have e : D = qp.dim := rfl
      rw [e]; omega) qp.d qp.d_mask mu0 _ _ h0
  have g2 : IAgree (D.nv + 2 * D.ns) (fun i => i < 2 * D.nb + 2 * D.ng) x4 y4 := by
    simp only [x4, y4]
    split
    · refine IAgree.mono (diniGen_agree (D.nv + 2 * D.ns) D.nb D.ng (fun i => i < D.nb ∨ (D.nb + D.ng ≤ i ∧ i < D.nb + D.ng + D.nb))
          qp.d qp.d_mask mu0 _ _ ⟨g1.ux, g1.lam, fun i hi => ?_⟩ (fun j hj => ?_)) (fun i hi => by omega)
      · show gemv_t _ _ _ _ _ _ _ _ _ _ _ _ _ i = gemv_t _ _ _ _ _ _ _ _ _ _ _ _ _ i
        unfold gemv_t
        rw [if_neg (by omega), if_neg (by omega)]
        exact g1.t i hi
      · show gemv_t _ _ _ _ _ _ _ _ _ _ _ _ _ _ = gemv_t _ _ _ _ _ _ _ _ _ _ _ _ _ _
        unfold gemv_t
        rw [if_pos (by omega), if_pos (by omega)]
        simp only [zero_mul, zero_add, one_mul]
        refine Finset.sum_congr rfl (fun l hl => ?_)
        rw [g1.ux l (by have := Finset.mem_range.1 hl; omega)]
    · exact g1.mono (fun i hi => by omega)
  refine fin' _ _ ((diniSoft_agree (2 * D.nb + 2 * D.ng) D.ns _ _ mu0 _ _ g2).mono (fun i hi => ?_))
  have hi' : i < 2 * D.nb + 2 * D.ng + 2 * D.ns := hi
  beta_reduce
  omega

end
end Hpipm
