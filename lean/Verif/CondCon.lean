/-
Condensing of the constraints: every constraint of a condensed stage is found, with the same residual, at its position
(`conPos`) of the condensed problem.
-/
import Verif.CondRsq

namespace Hpipm
open Finset
set_option linter.unusedSectionVars false

section
variable {K : Type*} [Field K] [LinearOrder K] [IsStrictOrderedRing K]

/-- value of constraint `p` of the condensed problem with `nb` boxes and `nv` variables -/
def tval (t : CondTgt K) (nb nv : ℕ) (v : Vec K) (p : ℕ) : K :=
  if p < nb then v (t.idxb2 p) else ∑ i ∈ range nv, t.DCt2 i (p - nb) * v i

/-- number of boxes plus general constraints of the condensed problem -/
def ntCond (qp : OcpQp K) (N : ℕ) : ℕ := nbCond qp N + ngCond qp N
def nvCond (qp : OcpQp K) (N : ℕ) : ℕ := nuAll qp.dim N + qp.dim.nx 0

/-! ### positions -/

theorem later_add_le (f : ℕ → ℕ) {N k : ℕ} (h : k ≤ N) : later f N k + f k ≤ ∑ l ∈ range (N + 1), f l := by
  rw [← sum_later f h, sum_range_succ]; omega

theorem later_zero_add (f : ℕ → ℕ) (N : ℕ) : later f N 0 + f 0 = ∑ l ∈ range (N + 1), f l := by
  rw [← sum_later f (Nat.zero_le N)]; simp; omega

theorem boxCount_eq (qp : OcpQp K) (k n : ℕ) : boxCount qp k n = Nat.count (StaysBox qp k) n := by
  unfold boxCount
  induction n with
  | zero => simp
  | succ n ih =>
    rw [loop_succ, ih, Nat.count_succ]
    by_cases h : StaysBox qp k n
    · rw [if_pos h]; exact if_pos h
    · rw [if_neg h]; exact if_neg h

theorem genCount_eq (qp : OcpQp K) (k n : ℕ) : genCount qp k n = Nat.count (fun j => ¬ StaysBox qp k j) n := by
  unfold genCount
  induction n with
  | zero => simp
  | succ n ih =>
    rw [loop_succ, ih, Nat.count_succ]
    by_cases h : StaysBox qp k n
    · rw [if_neg (not_not.mpr h)]; exact if_pos h
    · rw [if_pos h]; exact if_neg h

theorem conPos_box {qp : OcpQp K} {N k j : ℕ} (hj : j < qp.dim.nb k) (h : StaysBox qp k j) :
    conPos qp N k j = later (nBox qp) N k + Nat.count (StaysBox qp k) j := by
  unfold conPos; rw [if_pos hj, if_pos h]
theorem conPos_gen {qp : OcpQp K} {N k j : ℕ} (hj : j < qp.dim.nb k) (h : ¬ StaysBox qp k j) :
    conPos qp N k j = nbCond qp N + (later (nGen qp) N k + Nat.count (fun j => ¬ StaysBox qp k j) j) := by
  unfold conPos; rw [if_pos hj, if_neg h]
theorem conPos_g {qp : OcpQp K} {N k j : ℕ} (hj : ¬ j < qp.dim.nb k) :
    conPos qp N k j = nbCond qp N + nbgCond qp N + later qp.dim.ng N k + (j - qp.dim.nb k) := by
  unfold conPos; rw [if_neg hj]

theorem conPos_box_lt {qp : OcpQp K} {N k j : ℕ} (hk : k ≤ N) (hj : j < qp.dim.nb k) (h : StaysBox qp k j) :
    conPos qp N k j < nbCond qp N := by
  rw [conPos_box hj h]
  have h1 : Nat.count (StaysBox qp k) j < nBox qp k := Nat.count_strict_mono h hj
  have h2 := later_add_le (nBox qp) hk
  unfold nbCond; omega

theorem conPos_gen_lt {qp : OcpQp K} {N k j : ℕ} (hk : k ≤ N) (hj : j < qp.dim.nb k) (h : ¬ StaysBox qp k j) :
    conPos qp N k j < nbCond qp N + nbgCond qp N := by
  rw [conPos_gen hj h]
  have h1 : Nat.count (fun j => ¬ StaysBox qp k j) j < nGen qp k := Nat.count_strict_mono h hj
  have h2 := later_add_le (nGen qp) hk
  unfold nbgCond; omega

theorem conPos_g_lt {qp : OcpQp K} {N k j : ℕ} (hk : k ≤ N) (hj : ¬ j < qp.dim.nb k) (hj2 : j < qp.dim.nb k + qp.dim.ng k) :
    conPos qp N k j < ntCond qp N := by
  rw [conPos_g hj]
  have h2 := later_add_le qp.dim.ng hk
  unfold ntCond ngCond ngAll; omega

theorem conPos_lt {qp : OcpQp K} {N k j : ℕ} (hk : k ≤ N) (hj : j < qp.dim.nb k + qp.dim.ng k) :
    conPos qp N k j < ntCond qp N := by
  by_cases hb : j < qp.dim.nb k
  · by_cases h : StaysBox qp k j
    · have := conPos_box_lt hk hb h; unfold ntCond; omega
    · have := conPos_gen_lt hk hb h; unfold ntCond ngCond; omega
  · exact conPos_g_lt hk hb hj

/-! ### facts about one constraint -/

/-- nothing about constraint `p` of the target has changed -/
structure SameAt (nb nt : ℕ) (t t' : CondTgt K) (p : ℕ) : Prop where
  d : t'.d2 p = t.d2 p
  du : t'.d2 (nt + p) = t.d2 (nt + p)
  k : t'.d_mask2 p = t.d_mask2 p
  ku : t'.d_mask2 (nt + p) = t.d_mask2 (nt + p)
  m : t'.m2 p = t.m2 p
  mu : t'.m2 (nt + p) = t.m2 (nt + p)
  ib : t'.idxb2 p = t.idxb2 p
  c : nb ≤ p → ∀ i, t'.DCt2 i (p - nb) = t.DCt2 i (p - nb)
  r : t'.idxs_rev2 p = t.idxs_rev2 p

theorem SameAt.refl (nb nt : ℕ) (t : CondTgt K) (p : ℕ) : SameAt nb nt t t p := ⟨rfl, rfl, rfl, rfl, rfl, rfl, rfl, fun _ _ => rfl, rfl⟩

theorem SameAt.trans {nb nt : ℕ} {t t' t'' : CondTgt K} {p : ℕ} (h : SameAt nb nt t t' p) (h' : SameAt nb nt t' t'' p) :
    SameAt nb nt t t'' p :=
  ⟨h'.d.trans h.d, h'.du.trans h.du, h'.k.trans h.k, h'.ku.trans h.ku, h'.m.trans h.m, h'.mu.trans h.mu, h'.ib.trans h.ib,
    fun hp i => (h'.c hp i).trans (h.c hp i), h'.r.trans h.r⟩

/-- constraint `j` of stage `k` is present in the target `t` (started from `t0`) -/
structure ConFact (qp : OcpQp K) (N : ℕ) (t0 t : CondTgt K) (k j : ℕ) : Prop where
  lo : ∀ v, t.d2 (conPos qp N k j) - tval t (nbCond qp N) (nvCond qp N) v (conPos qp N k j)
    = qp.d k j - cval qp k (uxOf qp N v k) j
  up : ∀ v, t.d2 (ntCond qp N + conPos qp N k j) + tval t (nbCond qp N) (nvCond qp N) v (conPos qp N k j)
    = qp.d k (qp.dim.nb k + qp.dim.ng k + j) + cval qp k (uxOf qp N v k) j
  ml : t.d_mask2 (conPos qp N k j) = qp.d_mask k j
  mu : t.d_mask2 (ntCond qp N + conPos qp N k j) = qp.d_mask k (qp.dim.nb k + qp.dim.ng k + j)
  tl : t.m2 (conPos qp N k j) = qp.m k j
  tu : t.m2 (ntCond qp N + conPos qp N k j) = qp.m k (qp.dim.nb k + qp.dim.ng k + j)
  rev : t.idxs_rev2 (conPos qp N k j) = if 0 ≤ qp.idxs_rev k j then (later qp.dim.ns N k : ℤ) + qp.idxs_rev k j
    else t0.idxs_rev2 (conPos qp N k j)
  ix : conPos qp N k j < nbCond qp N → t.idxb2 (conPos qp N k j) < nvCond qp N

theorem ConFact.same {qp : OcpQp K} {N : ℕ} {t0 t t' : CondTgt K} {k j : ℕ} (h : ConFact qp N t0 t k j)
    (s : SameAt (nbCond qp N) (ntCond qp N) t t' (conPos qp N k j)) : ConFact qp N t0 t' k j := by
  have e : ∀ v, tval t' (nbCond qp N) (nvCond qp N) v (conPos qp N k j) = tval t (nbCond qp N) (nvCond qp N) v (conPos qp N k j) := by
    intro v; unfold tval
    split
    · rw [s.ib]
    · exact sum_congr rfl fun i _ => by rw [s.c (by omega)]
  exact ⟨fun v => by rw [s.d, e]; exact h.lo v, fun v => by rw [s.du, e]; exact h.up v, s.k.trans h.ml, s.ku.trans h.mu,
    s.m.trans h.tl, s.mu.trans h.tu, s.r.trans h.rev, fun hp => by rw [s.ib]; exact h.ix hp⟩

/-- the fields not concerned -/
structure RestSame (t t' : CondTgt K) : Prop where
  g : t'.rqz2 = t.rqz2
  h : t'.RSQrq2 = t.RSQrq2
  a : t'.BAbt2 = t.BAbt2
  b : t'.b2 = t.b2

theorem upd2_ne {α : Type*} (y : ℕ → α) (a b i : ℕ) (u w : α) (h1 : i ≠ a) (h2 : i ≠ b) : upd (upd y a u) b w i = y i := by
  rw [upd_ne _ _ h2, upd_ne _ _ h1]

theorem upd2_fst {α : Type*} (y : ℕ → α) (a b : ℕ) (u w : α) (h : a ≠ b) : upd (upd y a u) b w a = u := by
  rw [upd_ne _ _ h, upd_same]

theorem setRev_ne (ir : ℕ → ℤ) (p is : ℕ) (x : ℤ) (i : ℕ) (h : i ≠ p) : setRev ir p is x i = ir i := by
  unfold setRev; split
  · exact upd_ne _ _ h
  · rfl

theorem setRev_same (ir : ℕ → ℤ) (p is : ℕ) (x : ℤ) : setRev ir p is x p = if 0 ≤ x then (is : ℤ) + x else ir p := by
  unfold setRev; split
  · rw [upd_same]
  · rfl

/-- a box that stays a box -/
theorem dctBox_fact {qp : OcpQp K} {N k j : ℕ} {t0 : CondTgt K} {s : DctSt K} (hk : k ≤ N) (hj : j < qp.dim.nb k)
    (hb : StaysBox qp k j) (hwf : qp.idxb k j < qp.dim.nu k + qp.dim.nx k)
    (hib : s.ib = conPos qp N k j) (hnt : s.nu_tmp = later qp.dim.nu N k + qp.dim.nu k) (his : s.is = later qp.dim.ns N k)
    (h0 : s.tg.idxs_rev2 s.ib = t0.idxs_rev2 s.ib) :
    ConFact qp N t0 (dctBox qp (nbCond qp N) (ngCond qp N) k j s).tg k j ∧
    (∀ p, p < ntCond qp N → p ≠ s.ib → SameAt (nbCond qp N) (ntCond qp N) s.tg (dctBox qp (nbCond qp N) (ngCond qp N) k j s).tg p) ∧
    RestSame s.tg (dctBox qp (nbCond qp N) (ngCond qp N) k j s).tg := by
  have hlt := conPos_box_lt (N := N) hk hj hb
  have hnt' : nbCond qp N + ngCond qp N = ntCond qp N := rfl
  have hall : later qp.dim.nu N k + qp.dim.nu k ≤ nuAll qp.dim N := later_add_le _ hk
  set p := conPos qp N k j with hp
  unfold dctBox
  simp only
  rw [hnt', hib]
  have hix : s.nu_tmp - qp.dim.nu k + qp.idxb k j = later qp.dim.nu N k + qp.idxb k j := by omega
  have hval : ∀ v : Vec K, v (later qp.dim.nu N k + qp.idxb k j) = cval qp k (uxOf qp N v k) j := by
    intro v
    unfold cval
    rw [if_pos hj]
    unfold uxOf
    by_cases hu : qp.idxb k j < qp.dim.nu k
    · rw [if_pos hu]
    · rw [if_neg hu]
      rcases hb with h | h
      · subst h
        show _ = v (nuAll qp.dim N + (qp.idxb 0 j - qp.dim.nu 0))
        have e : later qp.dim.nu N 0 + qp.dim.nu 0 = nuAll qp.dim N := later_zero_add _ _
        congr 1; omega
      · exact absurd h hu
  have hixlt : later qp.dim.nu N k + qp.idxb k j < nvCond qp N := by
    unfold nvCond
    rcases hb with h | h
    · subst h
      have e : later qp.dim.nu N 0 + qp.dim.nu 0 = nuAll qp.dim N := later_zero_add _ _
      omega
    · omega
  have hne : p ≠ ntCond qp N + p := by unfold ntCond; omega
  refine ⟨⟨?_, ?_, ?_, ?_, ?_, ?_, ?_, ?_⟩, ?_, ⟨rfl, rfl, rfl, rfl⟩⟩
  · intro v
    dsimp only [tval]
    rw [← hp, upd2_fst _ _ _ _ _ hne, if_pos hlt, upd_same, hix, hval v]
  · intro v
    dsimp only [tval]
    rw [← hp, upd_same, if_pos hlt, upd_same, hix, hval v]
  · exact upd2_fst _ _ _ _ _ hne
  · exact upd_same _ _ _
  · exact upd2_fst _ _ _ _ _ hne
  · exact upd_same _ _ _
  · dsimp only; rw [← hp, setRev_same, his, ← hib, h0]
  · intro _; dsimp only; rw [← hp, upd_same, hix]; exact hixlt
  · intro i hi hip
    have h1 : i ≠ ntCond qp N + p := by omega
    have h2 : ntCond qp N + i ≠ p := by unfold ntCond; omega
    have h3 : ntCond qp N + i ≠ ntCond qp N + p := by omega
    exact ⟨upd2_ne _ _ _ _ _ _ hip h1, upd2_ne _ _ _ _ _ _ h2 h3, upd2_ne _ _ _ _ _ _ hip h1, upd2_ne _ _ _ _ _ _ h2 h3,
      upd2_ne _ _ _ _ _ _ hip h1, upd2_ne _ _ _ _ _ _ h2 h3, upd_ne _ _ hip, fun _ _ => rfl, setRev_ne _ _ _ _ _ hip⟩

/-- the states of the condensed stages by the dynamics matrices -/
def StateSem (qp : OcpQp K) (N : ℕ) (ws : CondWs K) : Prop := ∀ v k i, k < N → i < qp.dim.nx (k + 1) →
  roll qp N v (k + 1) i = (∑ r ∈ range (sumTo qp.dim.nu (k + 1) + qp.dim.nx 0), ws.Gamma k r i * v (later qp.dim.nu N k + r))
    + ws.Gammab k i

/-- a column with zeros above position `o` -/
theorem col_shift (n o q : ℕ) (hn : n = o + q) (c w v : Vec K) (h0 : ∀ i, i < o → c i = 0) (h1 : ∀ i, i < q → c (o + i) = w i) :
    ∑ i ∈ range n, c i * v i = ∑ i ∈ range q, w i * v (o + i) := by
  rw [hn, sum_add_split]
  rw [sum_eq_zero (s := range o) (fun i hi => by rw [h0 i (mem_range.mp hi), zero_mul]), zero_add]
  exact sum_congr rfl fun i hi => by rw [h1 i (mem_range.mp hi)]

/-- a box on a state of a later stage -/
theorem dctGen_fact {qp : OcpQp K} {N k j : ℕ} {ws : CondWs K} {t0 : CondTgt K} {s : DctSt K} (hk : k + 1 ≤ N)
    (hj : j < qp.dim.nb (k + 1)) (hb : ¬ StaysBox qp (k + 1) j) (hwf : qp.idxb (k + 1) j < qp.dim.nu (k + 1) + qp.dim.nx (k + 1))
    (hsem : StateSem qp N ws)
    (hig : nbCond qp N + s.ig = conPos qp N (k + 1) j) (hnt : s.nu_tmp = later qp.dim.nu N k)
    (hga : s.idx_gammab = qp.dim.nx 0 + sumTo qp.dim.nu (k + 1)) (his : s.is = later qp.dim.ns N (k + 1))
    (h0 : s.tg.idxs_rev2 (nbCond qp N + s.ig) = t0.idxs_rev2 (nbCond qp N + s.ig))
    (hz : ∀ i, i < nvCond qp N → s.tg.DCt2 i s.ig = 0) :
    ConFact qp N t0 (dctGen qp ws (nbCond qp N) (ngCond qp N) (k + 1) j s).tg (k + 1) j ∧
    (∀ p, p < ntCond qp N → p ≠ nbCond qp N + s.ig →
      SameAt (nbCond qp N) (ntCond qp N) s.tg (dctGen qp ws (nbCond qp N) (ngCond qp N) (k + 1) j s).tg p) ∧
    RestSame s.tg (dctGen qp ws (nbCond qp N) (ngCond qp N) (k + 1) j s).tg := by
  have hlt := conPos_gen_lt (N := N) hk hj hb
  have hnt' : 2 * nbCond qp N + ngCond qp N + s.ig = ntCond qp N + (nbCond qp N + s.ig) := by unfold ntCond; omega
  have hall : later qp.dim.nu N k + sumTo qp.dim.nu (k + 1) = nuAll qp.dim N := by
    rw [later_add_sumTo _ (by omega), sumTo_eq]; rfl
  have hu : ¬ qp.idxb (k + 1) j < qp.dim.nu (k + 1) := fun h => hb (Or.inr h)
  set p := conPos qp N (k + 1) j with hp
  set gi := qp.idxb (k + 1) j - qp.dim.nu (k + 1) with hgi
  unfold dctGen
  simp only
  rw [hnt', hig, show k + 1 - 1 = k by omega, ← hgi]
  have hne : p ≠ ntCond qp N + p := by unfold ntCond ngCond; omega
  have hpb : ¬ p < nbCond qp N := by omega
  have hpg : p - nbCond qp N = s.ig := by omega
  have hT : ∀ v : Vec K, (∑ i ∈ range (nvCond qp N),
      gecp s.idx_gammab 1 (ws.Gamma k) 0 gi s.tg.DCt2 s.nu_tmp s.ig i (p - nbCond qp N) * v i) + ws.Gammab k gi
      = cval qp (k + 1) (uxOf qp N v (k + 1)) j := by
    intro v
    rw [col_shift (nvCond qp N) (later qp.dim.nu N k) (sumTo qp.dim.nu (k + 1) + qp.dim.nx 0) (by unfold nvCond; omega) _
      (fun i => ws.Gamma k i gi) v ?_ ?_]
    · rw [← hsem v k gi (by omega) (by omega)]
      unfold cval
      rw [if_pos hj]
      unfold uxOf
      rw [if_neg hu]
    · intro i hi
      rw [hpg, gecp_out (by omega)]
      exact hz i (by unfold nvCond; omega)
    · intro i hi
      rw [hpg, gecp_in (by omega) (by omega) (by omega) (by omega)]
      congr 1 <;> omega
  refine ⟨⟨?_, ?_, ?_, ?_, ?_, ?_, ?_, fun h => absurd h hpb⟩, ?_, ⟨rfl, rfl, rfl, rfl⟩⟩
  · intro v
    dsimp only [tval]
    rw [← hp, upd2_fst _ _ _ _ _ hne, if_neg hpb, ← hT v]; ring
  · intro v
    dsimp only [tval]
    rw [← hp, upd_same, if_neg hpb, ← hT v]; ring
  · exact upd2_fst _ _ _ _ _ hne
  · exact upd_same _ _ _
  · exact upd2_fst _ _ _ _ _ hne
  · exact upd_same _ _ _
  · dsimp only; rw [← hp, setRev_same, his, ← hig, h0]
  · intro i hi hip
    have h1 : i ≠ ntCond qp N + p := by omega
    have h2 : ntCond qp N + i ≠ p := by unfold ntCond ngCond; omega
    have h3 : ntCond qp N + i ≠ ntCond qp N + p := by omega
    refine ⟨upd2_ne _ _ _ _ _ _ hip h1, upd2_ne _ _ _ _ _ _ h2 h3, upd2_ne _ _ _ _ _ _ hip h1, upd2_ne _ _ _ _ _ _ h2 h3,
      upd2_ne _ _ _ _ _ _ hip h1, upd2_ne _ _ _ _ _ _ h2 h3, rfl, ?_, setRev_ne _ _ _ _ _ hip⟩
    intro hi2 l
    dsimp only
    rw [gecp_out (by omega)]

/-! ### the loops over the boxes -/

/-- state of the loop over the boxes: `jj` boxes of stage `k` are done -/
structure BoxInv (qp : OcpQp K) (N : ℕ) (t0 : CondTgt K) (k jj : ℕ) (s : DctSt K) : Prop where
  ib : s.ib = later (nBox qp) N k + Nat.count (StaysBox qp k) jj
  ig : s.ig = later (nGen qp) N k + Nat.count (fun j => ¬ StaysBox qp k j) jj
  is : s.is = later qp.dim.ns N k
  ga : s.idx_gammab = qp.dim.nx 0 + sumTo qp.dim.nu k
  facts : ∀ k' j', k' ≤ N → j' < qp.dim.nb k' → (k < k' ∨ k' = k ∧ j' < jj) → ConFact qp N t0 s.tg k' j'
  fresh : ∀ p, (s.ib ≤ p ∧ p < nbCond qp N) ∨ (nbCond qp N + s.ig ≤ p ∧ p < ntCond qp N) →
    SameAt (nbCond qp N) (ntCond qp N) t0 s.tg p
  rest : RestSame t0 s.tg

theorem RestSame.trans {t t' t'' : CondTgt K} (h : RestSame t t') (h' : RestSame t' t'') : RestSame t t'' :=
  ⟨h'.g.trans h.g, h'.h.trans h.h, h'.a.trans h.a, h'.b.trans h.b⟩

/-- boxes already done stay below the current counters -/
theorem conPos_done {qp : OcpQp K} {N k jj k' j' : ℕ} (hk' : k' ≤ N) (hj' : j' < qp.dim.nb k')
    (h : k < k' ∨ k' = k ∧ j' < jj) :
    (StaysBox qp k' j' → conPos qp N k' j' < later (nBox qp) N k + Nat.count (StaysBox qp k) jj) ∧
    (¬ StaysBox qp k' j' → conPos qp N k' j' < nbCond qp N + (later (nGen qp) N k + Nat.count (fun j => ¬ StaysBox qp k j) jj)) := by
  have aux : ∀ f : ℕ → ℕ, k < k' → later f N k' + f k' ≤ later f N k := by
    intro f hlt
    have : later f N (k' - 1) = f k' + later f N k' := later_pred f (by omega) hk'
    have m := later_mono f (N := N) (k := k) (l := k' - 1) (by omega)
    omega
  constructor
  · intro hb
    rw [conPos_box hj' hb]
    rcases h with h | ⟨h, hjj⟩
    · have h1 : Nat.count (StaysBox qp k') j' < nBox qp k' := Nat.count_strict_mono hb hj'
      have := aux (nBox qp) h
      omega
    · subst h
      have h1 : Nat.count (StaysBox qp k') j' < Nat.count (StaysBox qp k') jj := Nat.count_strict_mono hb hjj
      omega
  · intro hb
    rw [conPos_gen hj' hb]
    rcases h with h | ⟨h, hjj⟩
    · have h1 : Nat.count (fun j => ¬ StaysBox qp k' j) j' < nGen qp k' := Nat.count_strict_mono hb hj'
      have := aux (nGen qp) h
      omega
    · subst h
      have h1 : Nat.count (fun j => ¬ StaysBox qp k' j) j' < Nat.count (fun j => ¬ StaysBox qp k' j) jj :=
        Nat.count_strict_mono (p := fun j => ¬ StaysBox qp k' j) hb hjj
      omega

/-- the target before the boxes has a zero constraint matrix -/
def ZeroC (qp : OcpQp K) (N : ℕ) (t0 : CondTgt K) : Prop := ∀ i c, i < nvCond qp N → c < ngCond qp N → t0.DCt2 i c = 0

theorem boxInv_box {qp : OcpQp K} {N k jj : ℕ} {t0 : CondTgt K} {s : DctSt K}
    (hk : k ≤ N) (hj : jj < qp.dim.nb k) (hwf : qp.idxb k jj < qp.dim.nu k + qp.dim.nx k)
    (h : BoxInv qp N t0 k jj s) (hnt : s.nu_tmp = later qp.dim.nu N k + qp.dim.nu k) (hb : StaysBox qp k jj) :
    BoxInv qp N t0 k (jj + 1) (dctBox qp (nbCond qp N) (ngCond qp N) k jj s) := by
  have hib : s.ib = conPos qp N k jj := by rw [conPos_box hj hb, h.ib]
  have hlt := conPos_box_lt (N := N) hk hj hb
  have hfr := h.fresh s.ib (Or.inl ⟨le_refl _, by omega⟩)
  obtain ⟨f, sm, rs⟩ := dctBox_fact (t0 := t0) hk hj hb hwf hib hnt h.is hfr.r
  refine ⟨?_, ?_, h.is, h.ga, ?_, ?_, h.rest.trans rs⟩
  · show s.ib + 1 = _; rw [Nat.count_succ, if_pos hb, h.ib]; omega
  · show s.ig = _; rw [Nat.count_succ, if_neg (not_not.mpr hb), h.ig]; omega
  · intro k' j' hk' hj' hd
    by_cases e : k' = k ∧ j' = jj
    · obtain ⟨rfl, rfl⟩ := e; exact f
    · have hd' : k < k' ∨ k' = k ∧ j' < jj := by omega
      refine (h.facts k' j' hk' hj' hd').same (sm _ (conPos_lt hk' (by omega)) ?_)
      have c := conPos_done (N := N) hk' hj' hd'
      by_cases hb' : StaysBox qp k' j'
      · have := c.1 hb'; rw [h.ib]; omega
      · rw [conPos_gen hj' hb']; omega
  · intro p hp
    have hp' : (s.ib + 1 ≤ p ∧ p < nbCond qp N) ∨ (nbCond qp N + s.ig ≤ p ∧ p < ntCond qp N) := hp
    refine (h.fresh p (by omega)).trans (sm p ?_ (by omega))
    unfold ntCond at hp' ⊢; omega

theorem boxInv_gen {qp : OcpQp K} {N k jj : ℕ} {ws : CondWs K} {t0 : CondTgt K} {s : DctSt K}
    (hk : k ≤ N) (hj : jj < qp.dim.nb k) (hwf : qp.idxb k jj < qp.dim.nu k + qp.dim.nx k) (hsem : StateSem qp N ws) (hz : ZeroC qp N t0)
    (h : BoxInv qp N t0 k jj s) (hnt : s.nu_tmp = later qp.dim.nu N k + qp.dim.nu k) (hb : ¬ StaysBox qp k jj) :
    BoxInv qp N t0 k (jj + 1) (dctGen qp ws (nbCond qp N) (ngCond qp N) k jj s) := by
  obtain ⟨k, rfl⟩ : ∃ l, k = l + 1 := ⟨k - 1, by have : k ≠ 0 := fun h => hb (Or.inl h); omega⟩
  have hig : nbCond qp N + s.ig = conPos qp N (k + 1) jj := by rw [conPos_gen hj hb, h.ig]
  have hlt := conPos_gen_lt (N := N) hk hj hb
  have hnt2 : nbCond qp N + nbgCond qp N ≤ ntCond qp N := by unfold ntCond ngCond; omega
  have hfr := h.fresh (nbCond qp N + s.ig) (Or.inr ⟨le_refl _, by omega⟩)
  have hz' : ∀ i, i < nvCond qp N → s.tg.DCt2 i s.ig = 0 := by
    intro i hi
    have := hfr.c (by omega) i
    rw [show nbCond qp N + s.ig - nbCond qp N = s.ig by omega] at this
    rw [this]; exact hz i _ hi (by unfold ngCond; omega)
  obtain ⟨f, sm, rs⟩ := dctGen_fact (t0 := t0) hk hj hb hwf hsem hig
    (by have := later_succ qp.dim.nu (N := N) (k := k) (by omega); omega) h.ga h.is hfr.r hz'
  refine ⟨?_, ?_, h.is, h.ga, ?_, ?_, h.rest.trans rs⟩
  · show s.ib = _; rw [Nat.count_succ, if_neg hb, h.ib]; omega
  · show s.ig + 1 = _; rw [Nat.count_succ, if_pos hb, h.ig]; omega
  · intro k' j' hk' hj' hd
    by_cases e : k' = k + 1 ∧ j' = jj
    · obtain ⟨rfl, rfl⟩ := e; exact f
    · have hd' : k + 1 < k' ∨ k' = k + 1 ∧ j' < jj := by omega
      refine (h.facts k' j' hk' hj' hd').same (sm _ (conPos_lt hk' (by omega)) ?_)
      have c := conPos_done (N := N) hk' hj' hd'
      by_cases hb' : StaysBox qp k' j'
      · have := conPos_box_lt (N := N) hk' hj' hb'; omega
      · have := c.2 hb'; rw [h.ig]; omega
  · intro p hp
    have hp' : (s.ib ≤ p ∧ p < nbCond qp N) ∨ (nbCond qp N + (s.ig + 1) ≤ p ∧ p < ntCond qp N) := hp
    refine (h.fresh p (by omega)).trans (sm p ?_ (by omega))
    unfold ntCond at hp' ⊢; omega

end
end Hpipm
