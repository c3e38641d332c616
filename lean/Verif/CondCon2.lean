/-
Condensing of the constraints: the loops of COND_DCTD over stages, general constraints and slacks.
-/
import Verif.CondCon

namespace Hpipm
open Finset
set_option linter.unusedSectionVars false

section
variable {K : Type*} [Field K] [LinearOrder K] [IsStrictOrderedRing K]

/-- data of a well formed problem, up to stage `N` -/
def IdxbOk (qp : OcpQp K) (N : ℕ) : Prop := ∀ k j, k ≤ N → j < qp.dim.nb k → qp.idxb k j < qp.dim.nu k + qp.dim.nx k

/-- all boxes of one stage -/
theorem boxLoop_inv {qp : OcpQp K} {N k : ℕ} {ws : CondWs K} {t0 : CondTgt K} {s : DctSt K} (hk : k ≤ N)
    (hwf : IdxbOk qp N) (hsem : StateSem qp N ws) (hz : ZeroC qp N t0) (h : BoxInv qp N t0 k 0 s)
    (hnt : s.nu_tmp = later qp.dim.nu N k + qp.dim.nu k) :
    let s' := loop (qp.dim.nb k) (fun jj s => if k = 0 ∨ qp.idxb k jj < qp.dim.nu k then
      dctBox qp (nbCond qp N) (ngCond qp N) k jj s else dctGen qp ws (nbCond qp N) (ngCond qp N) k jj s) s
    BoxInv qp N t0 k (qp.dim.nb k) s' ∧ s'.nu_tmp = later qp.dim.nu N k + qp.dim.nu k := by
  intro s'
  refine loop_inv (fun jj (s : DctSt K) => BoxInv qp N t0 k jj s ∧ s.nu_tmp = later qp.dim.nu N k + qp.dim.nu k) _ _ _ ⟨h, hnt⟩ ?_
  intro jj s hjj ⟨h, hnt⟩
  by_cases hb : StaysBox qp k jj
  · have : k = 0 ∨ qp.idxb k jj < qp.dim.nu k := hb
    rw [if_pos this]
    exact ⟨boxInv_box hk hjj (hwf k jj hk hjj) h hnt hb, hnt⟩
  · have : ¬ (k = 0 ∨ qp.idxb k jj < qp.dim.nu k) := hb
    rw [if_neg this]
    exact ⟨boxInv_gen hk hjj (hwf k jj hk hjj) hsem hz h hnt hb, hnt⟩

/-- passing to the previous stage -/
theorem boxInv_next {qp : OcpQp K} {N k : ℕ} {t0 : CondTgt K} {s : DctSt K} (hk : k + 1 ≤ N)
    (h : BoxInv qp N t0 (k + 1) (qp.dim.nb (k + 1)) s) :
    BoxInv qp N t0 k 0 { s with idx_gammab := s.idx_gammab - qp.dim.nu k, is := s.is + qp.dim.ns (k + 1) } := by
  have e : ∀ f : ℕ → ℕ, later f N k = f (k + 1) + later f N (k + 1) := fun f => later_succ f (by omega)
  refine ⟨?_, ?_, ?_, ?_, ?_, h.fresh, h.rest⟩
  · show s.ib = _
    rw [h.ib, e (nBox qp), Nat.count_zero]; unfold nBox; omega
  · show s.ig = _
    rw [h.ig, e (nGen qp), Nat.count_zero]; unfold nGen; omega
  · show s.is + _ = _
    rw [h.is, e]; omega
  · show s.idx_gammab - _ = _
    rw [h.ga, sumTo_succ]; omega
  · intro k' j' hk' hj' hd
    refine h.facts k' j' hk' hj' ?_
    rcases hd with hd | ⟨_, hd⟩
    · by_cases hh : k' = k + 1
      · subst hh; exact Or.inr ⟨rfl, hj'⟩
      · exact Or.inl (by omega)
    · omega

/-- after the boxes -/
structure BoxesDone (qp : OcpQp K) (N : ℕ) (t0 t : CondTgt K) : Prop where
  facts : ∀ k j, k ≤ N → j < qp.dim.nb k → ConFact qp N t0 t k j
  fresh : ∀ p, nbCond qp N + nbgCond qp N ≤ p → p < ntCond qp N → SameAt (nbCond qp N) (ntCond qp N) t0 t p
  rest : RestSame t0 t

theorem dctBoxes_done {qp : OcpQp K} {N : ℕ} {ws : CondWs K} {t0 : CondTgt K}
    (hwf : IdxbOk qp N) (hsem : StateSem qp N ws) (hz : ZeroC qp N t0) :
    BoxesDone qp N t0 (dctBoxes0 qp (nbCond qp N) (ngCond qp N)
      (loop N (dctBoxes qp ws (nbCond qp N) (ngCond qp N) N) ⟨t0, 0, 0, 0, 0, qp.dim.nx 0 + sumTo qp.dim.nu N⟩)).tg := by
  have H := loop_inv (fun ii (s : DctSt K) => BoxInv qp N t0 (N - ii) 0 s ∧ s.nu_tmp = later qp.dim.nu N (N - ii)) N
    (dctBoxes qp ws (nbCond qp N) (ngCond qp N) N) ⟨t0, 0, 0, 0, 0, qp.dim.nx 0 + sumTo qp.dim.nu N⟩ ?_ ?_
  · rw [Nat.sub_self] at H
    obtain ⟨h, hnt⟩ := H
    generalize loop N (dctBoxes qp ws (nbCond qp N) (ngCond qp N) N) ⟨t0, 0, 0, 0, 0, qp.dim.nx 0 + sumTo qp.dim.nu N⟩ = s at h hnt
    unfold dctBoxes0
    dsimp only
    have h1 : BoxInv qp N t0 0 0 { s with nu_tmp := s.nu_tmp + qp.dim.nu 0 } := ⟨h.ib, h.ig, h.is, h.ga, h.facts, h.fresh, h.rest⟩
    have B := boxLoop_inv (ws := ws) (Nat.zero_le N) hwf hsem hz h1 (by show s.nu_tmp + _ = _; rw [hnt])
    dsimp only at B
    have eb : (fun jj s => if (0 = 0 ∨ qp.idxb 0 jj < qp.dim.nu 0) then dctBox qp (nbCond qp N) (ngCond qp N) 0 jj s
        else dctGen qp ws (nbCond qp N) (ngCond qp N) 0 jj s) = fun jj s => dctBox qp (nbCond qp N) (ngCond qp N) 0 jj s := by
      funext jj s; rw [if_pos (Or.inl rfl)]
    rw [eb] at B
    obtain ⟨B, _⟩ := B
    generalize loop (qp.dim.nb 0) (fun jj s => dctBox qp (nbCond qp N) (ngCond qp N) 0 jj s) { s with nu_tmp := s.nu_tmp + qp.dim.nu 0 } = s' at B
    refine ⟨fun k j hk hj => B.facts k j hk hj ?_, fun p h1 h2 => B.fresh p (Or.inr ⟨?_, h2⟩), B.rest⟩
    · by_cases hh : k = 0
      · subst hh; exact Or.inr ⟨rfl, hj⟩
      · exact Or.inl (by omega)
    · rw [B.ig]
      have : later (nGen qp) N 0 + nGen qp 0 = nbgCond qp N := later_zero_add _ _
      have h3 : nGen qp 0 = Nat.count (fun j => ¬ StaysBox qp 0 j) (qp.dim.nb 0) := rfl
      omega
  · refine ⟨⟨?_, ?_, ?_, rfl, ?_, fun p _ => SameAt.refl _ _ _ _, ⟨rfl, rfl, rfl, rfl⟩⟩, ?_⟩
    · rw [Nat.sub_zero, later_self, Nat.count_zero]
    · rw [Nat.sub_zero, later_self, Nat.count_zero]
    · rw [Nat.sub_zero, later_self]
    · intro k' j' hk' hj' hd; omega
    · rw [Nat.sub_zero, later_self]
  · intro ii s hii ⟨h, hnt⟩
    obtain ⟨k, hk⟩ : ∃ k, N - ii = k + 1 := ⟨N - ii - 1, by omega⟩
    rw [hk] at h hnt
    have hk2 : N - (ii + 1) = k := by omega
    rw [hk2]
    unfold dctBoxes
    dsimp only
    rw [hk]
    have h1 : BoxInv qp N t0 (k + 1) 0 { s with nu_tmp := s.nu_tmp + qp.dim.nu (k + 1) } :=
      ⟨h.ib, h.ig, h.is, h.ga, h.facts, h.fresh, h.rest⟩
    have B := boxLoop_inv (ws := ws) (by omega) hwf hsem hz h1 (by show s.nu_tmp + _ = _; rw [hnt])
    dsimp only at B
    have eb : (fun jj s => if (k + 1 = 0 ∨ qp.idxb (k + 1) jj < qp.dim.nu (k + 1)) then dctBox qp (nbCond qp N) (ngCond qp N) (k + 1) jj s
        else dctGen qp ws (nbCond qp N) (ngCond qp N) (k + 1) jj s)
        = fun jj s => if qp.idxb (k + 1) jj < qp.dim.nu (k + 1) then dctBox qp (nbCond qp N) (ngCond qp N) (k + 1) jj s
          else dctGen qp ws (nbCond qp N) (ngCond qp N) (k + 1) jj s := by
      funext jj s
      by_cases hh : qp.idxb (k + 1) jj < qp.dim.nu (k + 1)
      · rw [if_pos (Or.inr hh), if_pos hh]
      · rw [if_neg (by omega), if_neg hh]
    rw [eb] at B
    obtain ⟨B, Bn⟩ := B
    rw [show N - 1 - ii = k by omega]
    refine ⟨boxInv_next (by omega) B, ?_⟩
    have := later_succ qp.dim.nu (N := N) (k := k) (by omega)
    show DctSt.nu_tmp _ = _
    rw [Bn]; omega

/-! ### general constraints -/

theorem dctGrev_val (qp : OcpQp K) (o k is : ℕ) (nb nbg : ℕ) (ir : ℕ → ℤ) (p : ℕ) :
    dctGrev qp nb nbg k o is ir p = if nb + nbg + o ≤ p ∧ p < nb + nbg + o + qp.dim.ng k ∧ 0 ≤ qp.idxs_rev k (qp.dim.nb k + (p - (nb + nbg + o)))
      then (is : ℤ) + qp.idxs_rev k (qp.dim.nb k + (p - (nb + nbg + o))) else ir p := by
  unfold dctGrev
  generalize qp.dim.ng k = n
  induction n with
  | zero => simp only [loop_zero]; rw [if_neg (by omega)]
  | succ n ih =>
    rw [loop_succ]
    by_cases hp : p = nb + nbg + o + n
    · subst hp
      rw [setRev_same, ih]
      rw [show nb + nbg + o + n - (nb + nbg + o) = n by omega]
      by_cases h0 : 0 ≤ qp.idxs_rev k (qp.dim.nb k + n)
      · rw [if_pos h0, if_pos (by omega)]
      · rw [if_neg h0, if_neg (by omega), if_neg (by omega)]
    · rw [setRev_ne _ _ _ _ _ hp, ih]
      by_cases hc : nb + nbg + o ≤ p ∧ p < nb + nbg + o + n ∧ 0 ≤ qp.idxs_rev k (qp.dim.nb k + (p - (nb + nbg + o)))
      · rw [if_pos hc, if_pos (by omega)]
      · rw [if_neg hc, if_neg (by omega)]

theorem veccp2_out {α : Type*} {n : ℕ} {x : ℕ → α} {xi xj : ℕ} {y : ℕ → α} {a b i : ℕ} (h1 : ¬ (a ≤ i ∧ i < a + n))
    (h2 : ¬ (b ≤ i ∧ i < b + n)) : veccp n x xi (veccp n x xj y a) b i = y i := by
  unfold veccp; rw [if_neg h2, if_neg h1]
theorem veccp2_fst {α : Type*} {n : ℕ} {x : ℕ → α} {xi xj : ℕ} {y : ℕ → α} {a b i : ℕ} (h1 : i < n)
    (h2 : ¬ (b ≤ a + i ∧ a + i < b + n)) : veccp n x xi (veccp n x xj y a) b (a + i) = x (xj + i) := by
  unfold veccp; rw [if_neg h2, if_pos (by omega)]; congr 1; omega
theorem veccp2_snd {α : Type*} {n : ℕ} {x : ℕ → α} {xi xj : ℕ} {y : ℕ → α} {a b i : ℕ} (h1 : i < n) :
    veccp n x xi (veccp n x xj y a) b (b + i) = x (xi + i) := by
  unfold veccp; rw [if_pos (by omega)]; congr 1; omega

/-- one general constraint, given the new target -/
theorem g_fact {qp : OcpQp K} {N k g : ℕ} {t0 t' : CondTgt K} (hk : k ≤ N) (hg : g < qp.dim.ng k) (a : K)
    (hd : t'.d2 (conPos qp N k (qp.dim.nb k + g)) = qp.d k (qp.dim.nb k + g) - a)
    (hdu : t'.d2 (ntCond qp N + conPos qp N k (qp.dim.nb k + g)) = qp.d k (qp.dim.nb k + qp.dim.ng k + (qp.dim.nb k + g)) + a)
    (hC : ∀ v : Vec K, (∑ i ∈ range (nvCond qp N), t'.DCt2 i (nbgCond qp N + later qp.dim.ng N k + g) * v i) + a
      = ∑ i ∈ range (qp.dim.nu k + qp.dim.nx k), qp.DCt k i g * uxOf qp N v k i)
    (hml : t'.d_mask2 (conPos qp N k (qp.dim.nb k + g)) = qp.d_mask k (qp.dim.nb k + g))
    (hmu : t'.d_mask2 (ntCond qp N + conPos qp N k (qp.dim.nb k + g)) = qp.d_mask k (qp.dim.nb k + qp.dim.ng k + (qp.dim.nb k + g)))
    (htl : t'.m2 (conPos qp N k (qp.dim.nb k + g)) = qp.m k (qp.dim.nb k + g))
    (htu : t'.m2 (ntCond qp N + conPos qp N k (qp.dim.nb k + g)) = qp.m k (qp.dim.nb k + qp.dim.ng k + (qp.dim.nb k + g)))
    (hr : t'.idxs_rev2 (conPos qp N k (qp.dim.nb k + g)) = if 0 ≤ qp.idxs_rev k (qp.dim.nb k + g) then
      (later qp.dim.ns N k : ℤ) + qp.idxs_rev k (qp.dim.nb k + g) else t0.idxs_rev2 (conPos qp N k (qp.dim.nb k + g))) :
    ConFact qp N t0 t' k (qp.dim.nb k + g) := by
  have hpos := conPos_g (qp := qp) (N := N) (k := k) (j := qp.dim.nb k + g) (by omega)
  have e2 : qp.dim.nb k + g - qp.dim.nb k = g := by omega
  rw [e2] at hpos
  have hv : ∀ v, tval t' (nbCond qp N) (nvCond qp N) v (conPos qp N k (qp.dim.nb k + g)) + a
      = cval qp k (uxOf qp N v k) (qp.dim.nb k + g) := by
    intro v
    unfold tval cval
    rw [if_neg (by omega), if_neg (by omega), e2, ← hC v, hpos,
      show nbCond qp N + nbgCond qp N + later qp.dim.ng N k + g - nbCond qp N = nbgCond qp N + later qp.dim.ng N k + g by omega]
  refine ⟨fun v => ?_, fun v => ?_, hml, hmu, htl, htu, hr, fun h => by omega⟩
  · rw [hd, ← hv v]; ring
  · rw [hdu, ← hv v]; ring

/-- state of the loop over the general constraints: the stages after `k` are done -/
structure GInv (qp : OcpQp K) (N : ℕ) (t0 : CondTgt K) (k : ℕ) (s : DctGSt K) : Prop where
  nu : s.nu_tmp = later qp.dim.nu N k
  ng : s.ng_tmp = later qp.dim.ng N k
  is : s.is = later qp.dim.ns N k
  boxes : ∀ k' j', k' ≤ N → j' < qp.dim.nb k' → ConFact qp N t0 s.tg k' j'
  facts : ∀ k' g, k < k' → k' ≤ N → g < qp.dim.ng k' → ConFact qp N t0 s.tg k' (qp.dim.nb k' + g)
  fresh : ∀ p, nbCond qp N + nbgCond qp N + s.ng_tmp ≤ p → p < ntCond qp N → SameAt (nbCond qp N) (ntCond qp N) t0 s.tg p
  rest : RestSame t0 s.tg

/-- transport of the facts over the processing of stage `k` -/
theorem gInv_step {qp : OcpQp K} {N k : ℕ} {t0 : CondTgt K} {s : DctGSt K} {t' : CondTgt K} (hk : k ≤ N) (h : GInv qp N t0 k s)
    (hs : ∀ p, p < ntCond qp N → ¬ (nbCond qp N + nbgCond qp N + s.ng_tmp ≤ p ∧ p < nbCond qp N + nbgCond qp N + s.ng_tmp + qp.dim.ng k) →
      SameAt (nbCond qp N) (ntCond qp N) s.tg t' p) :
    (∀ k' j', k' ≤ N → j' < qp.dim.nb k' → ConFact qp N t0 t' k' j') ∧
    (∀ k' g, k < k' → k' ≤ N → g < qp.dim.ng k' → ConFact qp N t0 t' k' (qp.dim.nb k' + g)) ∧
    (∀ p, nbCond qp N + nbgCond qp N + s.ng_tmp + qp.dim.ng k ≤ p → p < ntCond qp N → SameAt (nbCond qp N) (ntCond qp N) t0 t' p) := by
  refine ⟨fun k' j' hk' hj' => ?_, fun k' g hkk hk' hg => ?_, fun p h1 h2 => ?_⟩
  · refine (h.boxes k' j' hk' hj').same (hs _ (conPos_lt hk' (by omega)) ?_)
    by_cases hb : StaysBox qp k' j'
    · have := conPos_box_lt (N := N) hk' hj' hb; omega
    · have := conPos_gen_lt (N := N) hk' hj' hb; omega
  · refine (h.facts k' g hkk hk' hg).same (hs _ (conPos_lt hk' (by omega)) ?_)
    rw [conPos_g (by omega), h.ng]
    have : later qp.dim.ng N (k' - 1) = qp.dim.ng k' + later qp.dim.ng N k' := later_pred _ (by omega) hk'
    have m := later_mono qp.dim.ng (N := N) (k := k) (l := k' - 1) (by omega)
    omega
  · exact (h.fresh p (by omega) h2).trans (hs p h2 (by omega))

theorem gecp_col {α : Type*} {m n : ℕ} {A : ℕ → ℕ → α} {ai aj : ℕ} {B : ℕ → ℕ → α} {bi bj i j : ℕ}
    (h : ¬ (bj ≤ j ∧ j < bj + n)) : gecp m n A ai aj B bi bj i j = B i j := by
  unfold gecp; rw [if_neg (by tauto)]
theorem gemm_col {m n k : ℕ} {a : K} {A : Mat K} {ai aj : ℕ} {B : Mat K} {bi bj : ℕ} {b : K} {C : Mat K} {ci cj : ℕ}
    {D : Mat K} {di dj i j : ℕ} (h : ¬ (dj ≤ j ∧ j < dj + n)) :
    gemm_nn m n k a A ai aj B bi bj b C ci cj D di dj i j = D i j := by
  unfold gemm_nn; rw [if_neg (by tauto)]

theorem dctG_inv {qp : OcpQp K} {N k : ℕ} {ws : CondWs K} {t0 : CondTgt K} {s : DctGSt K} (ii : ℕ) (hii : N - ii = k + 1)
    (hsem : StateSem qp N ws) (hz : ZeroC qp N t0) (h : GInv qp N t0 (k + 1) s) :
    GInv qp N t0 k (dctG qp ws (nuAll qp.dim N) (nbCond qp N) (ngCond qp N) (nbgCond qp N) N ii s) := by
  have hk : k + 1 ≤ N := by omega
  have e : ∀ f : ℕ → ℕ, later f N k = f (k + 1) + later f N (k + 1) := fun f => later_succ f (by omega)
  have hall : later qp.dim.nu N k + sumTo qp.dim.nu (k + 1) = nuAll qp.dim N := by
    rw [later_add_sumTo _ (by omega), sumTo_eq]; rfl
  have hngl : later qp.dim.ng N (k + 1) + qp.dim.ng (k + 1) ≤ ngAll qp.dim N := later_add_le _ hk
  have hnt : nbCond qp N + nbgCond qp N + ngAll qp.dim N = ntCond qp N := by unfold ntCond ngCond; omega
  have hng2 : nbgCond qp N + ngAll qp.dim N = ngCond qp N := rfl
  unfold dctG
  dsimp only
  rw [hii]
  by_cases hng : 0 < qp.dim.ng (k + 1)
  · rw [if_pos hng, show k + 1 - 1 = k by omega]
    set nu1 := qp.dim.nu (k + 1) with hnu1
    set nx1 := qp.dim.nx (k + 1) with hnx1
    set ng1 := qp.dim.ng (k + 1) with hng1
    set nb1 := qp.dim.nb (k + 1) with hnb1
    set o := nbCond qp N + nbgCond qp N + s.ng_tmp with ho
    set C1 := gecp nu1 ng1 (qp.DCt (k + 1)) 0 0 s.tg.DCt2 s.nu_tmp (nbgCond qp N + s.ng_tmp) with hC1
    set C2 := gemm_nn (nuAll qp.dim N + qp.dim.nx 0 - (s.nu_tmp + nu1)) ng1 nx1 1 (ws.Gamma k) 0 0 (qp.DCt (k + 1)) nu1 0 0 C1
      (s.nu_tmp + nu1) (nbgCond qp N + s.ng_tmp) C1 (s.nu_tmp + nu1) (nbgCond qp N + s.ng_tmp) with hC2
    set rv := dctGrev qp (nbCond qp N) (nbgCond qp N) (k + 1) s.ng_tmp s.is s.tg.idxs_rev2 with hrv
    set tm := gemv_t nx1 ng1 1 (qp.DCt (k + 1)) nu1 0 (ws.Gammab k) 0 0 s.tmp 0 s.tmp 0 with htm
    set t1 := dctGd qp (nbCond qp N) (ngCond qp N) (nbgCond qp N) (k + 1) s.ng_tmp { s.tg with idxs_rev2 := rv, DCt2 := C2 } with ht1
    have eo2 : 2 * nbCond qp N + ngCond qp N + nbgCond qp N + s.ng_tmp = ntCond qp N + o := by unfold ntCond; omega
    rw [eo2]
    set da := axpy ng1 (-1) tm 0 t1.d2 o t1.d2 o with hda
    set db := axpy ng1 1 tm 0 da (ntCond qp N + o) da (ntCond qp N + o) with hdb
    have hos : o + ng1 ≤ ntCond qp N := by rw [ho, h.ng]; omega
    have etm : ∀ g, g < ng1 → tm g = ∑ i ∈ range nx1, qp.DCt (k + 1) (nu1 + i) g * ws.Gammab k i := by
      intro g hg
      rw [htm, gemv_t_in (by omega), zero_mul, zero_add, one_mul]
      refine sum_congr rfl fun i _ => ?_
      rw [zero_add, zero_add, Nat.sub_zero]
    have ed1 : t1.d2 = veccp ng1 (qp.d (k + 1)) (2 * nb1 + ng1) (veccp ng1 (qp.d (k + 1)) nb1 s.tg.d2 o) (ntCond qp N + o) := by
      rw [ht1]; unfold dctGd; dsimp only; rw [eo2]
    have ek1 : t1.d_mask2 = veccp ng1 (qp.d_mask (k + 1)) (2 * nb1 + ng1) (veccp ng1 (qp.d_mask (k + 1)) nb1 s.tg.d_mask2 o) (ntCond qp N + o) := by
      rw [ht1]; unfold dctGd; dsimp only; rw [eo2]
    have em1 : t1.m2 = veccp ng1 (qp.m (k + 1)) (2 * nb1 + ng1) (veccp ng1 (qp.m (k + 1)) nb1 s.tg.m2 o) (ntCond qp N + o) := by
      rw [ht1]; unfold dctGd; dsimp only; rw [eo2]
    have edout : ∀ i, ¬ (o ≤ i ∧ i < o + ng1) → ¬ (ntCond qp N + o ≤ i ∧ i < ntCond qp N + o + ng1) → db i = s.tg.d2 i := by
      intro i h1 h2
      rw [hdb, axpy_out h2, hda, axpy_out h1, ed1, veccp2_out h1 h2]
    have ed : ∀ g, g < ng1 → db (o + g) = qp.d (k + 1) (nb1 + g) - ∑ i ∈ range nx1, qp.DCt (k + 1) (nu1 + i) g * ws.Gammab k i := by
      intro g hg
      rw [hdb, axpy_out (by omega), hda, axpy_in (by omega), show o + (o + g - o) = o + g by omega, ed1,
        veccp2_fst hg (by omega), show 0 + (o + g - o) = g by omega, etm g hg]; ring
    have edu : ∀ g, g < ng1 → db (ntCond qp N + (o + g)) = qp.d (k + 1) (2 * nb1 + ng1 + g)
        + ∑ i ∈ range nx1, qp.DCt (k + 1) (nu1 + i) g * ws.Gammab k i := by
      intro g hg
      rw [← add_assoc, hdb, axpy_in (by omega),
        show ntCond qp N + o + (ntCond qp N + o + g - (ntCond qp N + o)) = ntCond qp N + o + g by omega, hda, axpy_out (by omega), ed1,
        veccp2_snd hg, show 0 + (ntCond qp N + o + g - (ntCond qp N + o)) = g by omega, etm g hg]; ring
    set tF : CondTgt K := { t1 with d2 := db } with htF
    have eDF : tF.DCt2 = C2 := rfl
    have eRF : tF.idxs_rev2 = rv := rfl
    have hsame : ∀ p, p < ntCond qp N → ¬ (o ≤ p ∧ p < o + ng1) → SameAt (nbCond qp N) (ntCond qp N) s.tg tF p := by
      intro p hp hp2
      refine ⟨edout p hp2 (by omega), edout _ (by omega) (by omega), ?_, ?_, ?_, ?_, rfl, ?_, ?_⟩
      · show t1.d_mask2 p = _; rw [ek1]; exact veccp2_out hp2 (by omega)
      · show t1.d_mask2 _ = _; rw [ek1]; exact veccp2_out (by omega) (by omega)
      · show t1.m2 p = _; rw [em1]; exact veccp2_out hp2 (by omega)
      · show t1.m2 _ = _; rw [em1]; exact veccp2_out (by omega) (by omega)
      · intro hpb i
        rw [eDF, hC2, gemm_col (by omega), hC1, gecp_col (by omega)]
      · rw [eRF, hrv, dctGrev_val]
        exact if_neg (by omega)
    have T := gInv_step (by omega) h hsame
    refine ⟨?_, ?_, ?_, T.1, ?_, ?_, ?_⟩
    · show s.nu_tmp + nu1 = _; rw [e, h.nu]; omega
    · show s.ng_tmp + ng1 = _; rw [e, h.ng]; omega
    · show s.is + _ = _; rw [e, h.is]; omega
    · intro k' g hkk hk' hg
      by_cases hkk' : k' = k + 1
      swap
      · exact T.2.1 k' g (by omega) hk' hg
      subst hkk'
      have hpos : conPos qp N (k + 1) (nb1 + g) = o + g := by
        rw [conPos_g (by omega), ho, h.ng]; omega
      have hfr := h.fresh (o + g) (by omega) (by omega)
      refine g_fact hk hg (∑ i ∈ range nx1, qp.DCt (k + 1) (nu1 + i) g * ws.Gammab k i) ?_ ?_ ?_ ?_ ?_ ?_ ?_ ?_
      · rw [hpos]; exact ed g hg
      · rw [hpos]; refine (edu g hg).trans ?_; congr 2; omega
      · intro v
        show (∑ i ∈ range (nvCond qp N), C2 i (nbgCond qp N + later qp.dim.ng N (k + 1) + g) * v i) + _ = _
        rw [← h.ng]
        rw [show nvCond qp N = (s.nu_tmp + nu1) + (sumTo qp.dim.nu (k + 1) + qp.dim.nx 0) by
          unfold nvCond; have := e qp.dim.nu; have := h.nu; omega, sum_add_split (s.nu_tmp + nu1) _, sum_add_split s.nu_tmp nu1,
          sum_add_split (qp.dim.nu (k + 1)) (qp.dim.nx (k + 1))]
        have z1 : ∑ i ∈ range s.nu_tmp, C2 i (nbgCond qp N + s.ng_tmp + g) * v i = 0 := by
          refine sum_eq_zero fun i hi => ?_
          have := mem_range.mp hi
          have c := hfr.c (by omega) i
          rw [show o + g - nbCond qp N = nbgCond qp N + s.ng_tmp + g by omega] at c
          rw [hC2, gemm_nn_out (by omega), hC1, gecp_out (by omega), c, hz i _ (by unfold nvCond; have := e qp.dim.nu; have := h.nu; omega)
            (by rw [← hng2]; have := h.ng; omega), zero_mul]
        have z2 : ∑ i ∈ range nu1, C2 (s.nu_tmp + i) (nbgCond qp N + s.ng_tmp + g) * v (s.nu_tmp + i)
            = ∑ i ∈ range nu1, qp.DCt (k + 1) i g * uxOf qp N v (k + 1) i := by
          refine sum_congr rfl fun i hi => ?_
          have := mem_range.mp hi
          rw [uxOf_u _ _ _ _ _ this, ← h.nu, hC2, gemm_nn_out (by omega), hC1,
            gecp_in (by omega) (by omega) (by omega) (by omega)]
          congr 2 <;> omega
        have z3 : ∑ i ∈ range (sumTo qp.dim.nu (k + 1) + qp.dim.nx 0),
            C2 (s.nu_tmp + nu1 + i) (nbgCond qp N + s.ng_tmp + g) * v (s.nu_tmp + nu1 + i)
            = ∑ l ∈ range nx1, (∑ i ∈ range (sumTo qp.dim.nu (k + 1) + qp.dim.nx 0), ws.Gamma k i l * v (later qp.dim.nu N k + i))
              * qp.DCt (k + 1) (nu1 + l) g := by
          have : ∀ i ∈ range (sumTo qp.dim.nu (k + 1) + qp.dim.nx 0),
              C2 (s.nu_tmp + nu1 + i) (nbgCond qp N + s.ng_tmp + g) * v (s.nu_tmp + nu1 + i)
              = ∑ l ∈ range nx1, ws.Gamma k i l * v (later qp.dim.nu N k + i) * qp.DCt (k + 1) (nu1 + l) g := by
            intro i hi
            have := mem_range.mp hi
            have e1 := e qp.dim.nu
            have e2 := h.nu
            rw [hC2, gemm_nn_in (by omega) (by omega) (by omega) (by omega), zero_mul, zero_add, one_mul, sum_mul]
            refine sum_congr rfl fun l _ => ?_
            rw [show 0 + (s.nu_tmp + nu1 + i - (s.nu_tmp + nu1)) = i by omega, zero_add,
              show 0 + (nbgCond qp N + s.ng_tmp + g - (nbgCond qp N + s.ng_tmp)) = g by omega,
              show s.nu_tmp + nu1 + i = later qp.dim.nu N k + i by omega]
            ring
          rw [sum_congr rfl this, sum_comm]
          exact sum_congr rfl fun l _ => by rw [sum_mul]
        have z4 : ∑ i ∈ range nx1, qp.DCt (k + 1) (nu1 + i) g * uxOf qp N v (k + 1) (nu1 + i)
            = (∑ l ∈ range nx1, (∑ i ∈ range (sumTo qp.dim.nu (k + 1) + qp.dim.nx 0), ws.Gamma k i l * v (later qp.dim.nu N k + i))
              * qp.DCt (k + 1) (nu1 + l) g) + ∑ i ∈ range nx1, qp.DCt (k + 1) (nu1 + i) g * ws.Gammab k i := by
          rw [← sum_add_distrib]
          refine sum_congr rfl fun l hl => ?_
          rw [uxOf_x, hsem v k l (by omega) (mem_range.mp hl)]; ring
        rw [z2, z1, z3]
        refine Eq.trans ?_ (congrArg₂ (· + ·) rfl z4.symm)
        ring
      · rw [hpos]; show t1.d_mask2 _ = _; rw [ek1]; exact veccp2_fst hg (by omega)
      · rw [hpos]; show t1.d_mask2 _ = _; rw [ek1, show ntCond qp N + (o + g) = ntCond qp N + o + g by omega, veccp2_snd hg]; congr 1; omega
      · rw [hpos]; show t1.m2 _ = _; rw [em1]; exact veccp2_fst hg (by omega)
      · rw [hpos]; show t1.m2 _ = _; rw [em1, show ntCond qp N + (o + g) = ntCond qp N + o + g by omega, veccp2_snd hg]; congr 1; omega
      · rw [hpos, eRF, hrv, dctGrev_val, show o + g - (nbCond qp N + nbgCond qp N + s.ng_tmp) = g by omega]
        by_cases h0 : 0 ≤ qp.idxs_rev (k + 1) (nb1 + g)
        · rw [if_pos ⟨by omega, by omega, h0⟩, if_pos h0, h.is]
        · rw [if_neg (fun hh => h0 hh.2.2), if_neg h0, hfr.r]
    · intro p h1 h2
      exact T.2.2 p (by have h1' : nbCond qp N + nbgCond qp N + (s.ng_tmp + ng1) ≤ p := h1; omega) h2
    · exact h.rest.trans ⟨rfl, rfl, rfl, rfl⟩
  · rw [if_neg hng]
    have ez : qp.dim.ng (k + 1) = 0 := by omega
    refine ⟨?_, ?_, ?_, h.boxes, ?_, h.fresh, h.rest⟩
    · show s.nu_tmp + _ = _; rw [e, h.nu]; omega
    · show s.ng_tmp = _; rw [e, h.ng, ez]; omega
    · show s.is + _ = _; rw [e, h.is]; omega
    · intro k' g hkk hk' hg
      by_cases hkk' : k' = k + 1
      · subst hkk'; omega
      · exact h.facts k' g (by omega) hk' hg

/-- all constraints are in place -/
structure AllCons (qp : OcpQp K) (N : ℕ) (t0 t : CondTgt K) : Prop where
  facts : ∀ k j, k ≤ N → j < qp.dim.nb k + qp.dim.ng k → ConFact qp N t0 t k j
  rest : RestSame t0 t

theorem allCons_of {qp : OcpQp K} {N : ℕ} {t0 t : CondTgt K}
    (h1 : ∀ k' j', k' ≤ N → j' < qp.dim.nb k' → ConFact qp N t0 t k' j')
    (h2 : ∀ k' g, k' ≤ N → g < qp.dim.ng k' → ConFact qp N t0 t k' (qp.dim.nb k' + g)) (hr : RestSame t0 t) : AllCons qp N t0 t := by
  refine ⟨fun k j hk hj => ?_, hr⟩
  by_cases hb : j < qp.dim.nb k
  · exact h1 k j hk hb
  · have := h2 k (j - qp.dim.nb k) hk (by omega)
    rwa [show qp.dim.nb k + (j - qp.dim.nb k) = j by omega] at this

theorem dctG0_done {qp : OcpQp K} {N : ℕ} {t0 : CondTgt K} {s : DctGSt K} (hz : ZeroC qp N t0) (h : GInv qp N t0 0 s) :
    AllCons qp N t0 (dctG0 qp (nbCond qp N) (ngCond qp N) (nbgCond qp N) s).tg := by
  have hall : later qp.dim.nu N 0 + qp.dim.nu 0 = nuAll qp.dim N := later_zero_add _ _
  have hngl : later qp.dim.ng N 0 + qp.dim.ng 0 = ngAll qp.dim N := later_zero_add _ _
  have hnt : nbCond qp N + nbgCond qp N + ngAll qp.dim N = ntCond qp N := by unfold ntCond ngCond; omega
  have hng2 : nbgCond qp N + ngAll qp.dim N = ngCond qp N := rfl
  unfold dctG0
  dsimp only
  by_cases hng : 0 < qp.dim.ng 0
  · rw [if_pos hng]
    dsimp only
    set ng1 := qp.dim.ng 0 with hng1
    set nb1 := qp.dim.nb 0 with hnb1
    set o := nbCond qp N + nbgCond qp N + s.ng_tmp with ho
    set C1 := gecp (qp.dim.nu 0 + qp.dim.nx 0) ng1 (qp.DCt 0) 0 0 s.tg.DCt2 s.nu_tmp (nbgCond qp N + s.ng_tmp) with hC1
    set rv := dctGrev qp (nbCond qp N) (nbgCond qp N) 0 s.ng_tmp s.is s.tg.idxs_rev2 with hrv
    set tF := dctGd qp (nbCond qp N) (ngCond qp N) (nbgCond qp N) 0 s.ng_tmp { s.tg with idxs_rev2 := rv, DCt2 := C1 } with htF
    have eo2 : 2 * nbCond qp N + ngCond qp N + nbgCond qp N + s.ng_tmp = ntCond qp N + o := by unfold ntCond; omega
    have hos : o + ng1 ≤ ntCond qp N := by rw [ho, h.ng]; omega
    have ed1 : tF.d2 = veccp ng1 (qp.d 0) (2 * nb1 + ng1) (veccp ng1 (qp.d 0) nb1 s.tg.d2 o) (ntCond qp N + o) := by
      rw [htF]; unfold dctGd; dsimp only; rw [eo2]
    have ek1 : tF.d_mask2 = veccp ng1 (qp.d_mask 0) (2 * nb1 + ng1) (veccp ng1 (qp.d_mask 0) nb1 s.tg.d_mask2 o) (ntCond qp N + o) := by
      rw [htF]; unfold dctGd; dsimp only; rw [eo2]
    have em1 : tF.m2 = veccp ng1 (qp.m 0) (2 * nb1 + ng1) (veccp ng1 (qp.m 0) nb1 s.tg.m2 o) (ntCond qp N + o) := by
      rw [htF]; unfold dctGd; dsimp only; rw [eo2]
    have eDF : tF.DCt2 = C1 := rfl
    have eRF : tF.idxs_rev2 = rv := rfl
    have hsame : ∀ p, p < ntCond qp N → ¬ (o ≤ p ∧ p < o + ng1) → SameAt (nbCond qp N) (ntCond qp N) s.tg tF p := by
      intro p hp hp2
      refine ⟨?_, ?_, ?_, ?_, ?_, ?_, rfl, ?_, ?_⟩
      · rw [ed1]; exact veccp2_out hp2 (by omega)
      · rw [ed1]; exact veccp2_out (by omega) (by omega)
      · rw [ek1]; exact veccp2_out hp2 (by omega)
      · rw [ek1]; exact veccp2_out (by omega) (by omega)
      · rw [em1]; exact veccp2_out hp2 (by omega)
      · rw [em1]; exact veccp2_out (by omega) (by omega)
      · intro hpb i; rw [eDF, hC1, gecp_col (by omega)]
      · rw [eRF, hrv, dctGrev_val]; exact if_neg (by omega)
    have T := gInv_step (by omega) h hsame
    refine allCons_of T.1 ?_ (h.rest.trans ⟨rfl, rfl, rfl, rfl⟩)
    intro k' g hk' hg
    by_cases hkk' : k' = 0
    swap
    · exact T.2.1 k' g (by omega) hk' hg
    subst hkk'
    have hpos : conPos qp N 0 (nb1 + g) = o + g := by
      rw [conPos_g (by omega), ho, h.ng]; omega
    have hfr := h.fresh (o + g) (by omega) (by omega)
    refine g_fact hk' hg 0 ?_ ?_ ?_ ?_ ?_ ?_ ?_ ?_
    · rw [hpos, sub_zero, ed1]; exact veccp2_fst hg (by omega)
    · rw [hpos, add_zero, ed1, show ntCond qp N + (o + g) = ntCond qp N + o + g by omega, veccp2_snd hg]; congr 1; omega
    · intro v
      rw [add_zero, ← h.ng, eDF]
      refine (col_shift (nvCond qp N) s.nu_tmp (qp.dim.nu 0 + qp.dim.nx 0) (by unfold nvCond; have := h.nu; omega) _
        (fun i => qp.DCt 0 i g) v ?_ ?_).trans ?_
      · intro i hi
        have c := hfr.c (by omega) i
        rw [show o + g - nbCond qp N = nbgCond qp N + s.ng_tmp + g by omega] at c
        rw [hC1, gecp_out (by omega), c, hz i _ (by unfold nvCond; have := h.nu; omega) (by rw [← hng2]; have := h.ng; omega)]
      · intro i hi
        rw [hC1, gecp_in (by omega) (by omega) (by omega) (by omega)]; congr 1 <;> omega
      · refine sum_congr rfl fun i _ => ?_
        congr 1
        unfold uxOf
        by_cases hi : i < qp.dim.nu 0
        · rw [if_pos hi, h.nu]
        · rw [if_neg hi]; show _ = v (nuAll qp.dim N + (i - qp.dim.nu 0)); congr 1; have := h.nu; omega
    · rw [hpos, ek1]; exact veccp2_fst hg (by omega)
    · rw [hpos, ek1, show ntCond qp N + (o + g) = ntCond qp N + o + g by omega, veccp2_snd hg]; congr 1; omega
    · rw [hpos, em1]; exact veccp2_fst hg (by omega)
    · rw [hpos, em1, show ntCond qp N + (o + g) = ntCond qp N + o + g by omega, veccp2_snd hg]; congr 1; omega
    · rw [hpos, eRF, hrv, dctGrev_val, show o + g - (nbCond qp N + nbgCond qp N + s.ng_tmp) = g by omega]
      by_cases h0 : 0 ≤ qp.idxs_rev 0 (nb1 + g)
      · rw [if_pos ⟨by omega, by omega, h0⟩, if_pos h0, h.is]
      · rw [if_neg (fun hh => h0 hh.2.2), if_neg h0, hfr.r]
  · rw [if_neg hng]
    refine allCons_of h.boxes ?_ h.rest
    intro k' g hk' hg
    by_cases hkk' : k' = 0
    · subst hkk'; omega
    · exact h.facts k' g (by omega) hk' hg

end
end Hpipm
