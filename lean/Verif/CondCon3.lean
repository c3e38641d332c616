/-
Condensing of the constraints: slacks, and COND_DCTD as a whole.
-/
import Verif.CondCon2

namespace Hpipm
open Finset
set_option linter.unusedSectionVars false

section
variable {K : Type*} [Field K] [LinearOrder K] [IsStrictOrderedRing K]

/-- number of all inequality sides before the slack bounds, and positions of the slack data -/
theorem later_lt (f : ℕ → ℕ) {N k i : ℕ} (hk : k ≤ N) (hi : i < f k) : later f N k + i < ∑ l ∈ range (N + 1), f l := by
  have := later_add_le f hk; omega

/-- the slack data of slack `i` of stage `k` are at their places -/
structure SlackFact (qp : OcpQp K) (N : ℕ) (t : CondTgt K) (k i : ℕ) : Prop where
  Zl : t.Z2 (later qp.dim.ns N k + i) = qp.Z k i
  Zu : t.Z2 (nsAll qp.dim N + (later qp.dim.ns N k + i)) = qp.Z k (qp.dim.ns k + i)
  zl : t.rqz2 (nvCond qp N + (later qp.dim.ns N k + i)) = qp.rqz k (qp.dim.nu k + qp.dim.nx k + i)
  zu : t.rqz2 (nvCond qp N + (nsAll qp.dim N + (later qp.dim.ns N k + i))) = qp.rqz k (qp.dim.nu k + qp.dim.nx k + (qp.dim.ns k + i))
  dl : t.d2 (2 * ntCond qp N + (later qp.dim.ns N k + i)) = qp.d k (2 * (qp.dim.nb k + qp.dim.ng k) + i)
  du : t.d2 (2 * ntCond qp N + (nsAll qp.dim N + (later qp.dim.ns N k + i))) = qp.d k (2 * (qp.dim.nb k + qp.dim.ng k) + (qp.dim.ns k + i))
  kl : t.d_mask2 (2 * ntCond qp N + (later qp.dim.ns N k + i)) = qp.d_mask k (2 * (qp.dim.nb k + qp.dim.ng k) + i)
  ku : t.d_mask2 (2 * ntCond qp N + (nsAll qp.dim N + (later qp.dim.ns N k + i))) = qp.d_mask k (2 * (qp.dim.nb k + qp.dim.ng k) + (qp.dim.ns k + i))
  ml : t.m2 (2 * ntCond qp N + (later qp.dim.ns N k + i)) = qp.m k (2 * (qp.dim.nb k + qp.dim.ng k) + i)
  mu : t.m2 (2 * ntCond qp N + (nsAll qp.dim N + (later qp.dim.ns N k + i))) = qp.m k (2 * (qp.dim.nb k + qp.dim.ng k) + (qp.dim.ns k + i))

/-- nothing outside the slack positions has changed -/
structure SlackRest (qp : OcpQp K) (N : ℕ) (t0 t : CondTgt K) : Prop where
  same : ∀ p, p < ntCond qp N → SameAt (nbCond qp N) (ntCond qp N) t0 t p
  g : ∀ i, i < nvCond qp N → t.rqz2 i = t0.rqz2 i
  h : t.RSQrq2 = t0.RSQrq2
  a : t.BAbt2 = t0.BAbt2
  b : t.b2 = t0.b2

theorem upd2_val {α : Type*} (y : ℕ → α) (a b i : ℕ) (u w : α) : upd (upd y a u) b w i = if i = b then w else if i = a then u else y i := by
  unfold upd; split <;> rfl

/-- state of the loop over the slacks: the stages after `k` and `jj` slacks of stage `k` are done -/
structure SInv (qp : OcpQp K) (N : ℕ) (t0 : CondTgt K) (k jj : ℕ) (t : CondTgt K) : Prop where
  facts : ∀ k' i, k' ≤ N → i < qp.dim.ns k' → (k < k' ∨ k' = k ∧ i < jj) → SlackFact qp N t k' i
  rest : SlackRest qp N t0 t

theorem later_done (f : ℕ → ℕ) {N k k' i jj : ℕ} (hk' : k' ≤ N) (hi : i < f k') (h : k < k' ∨ k' = k ∧ i < jj) :
    later f N k' + i < later f N k + jj := by
  rcases h with h | ⟨h, hj⟩
  · have : later f N (k' - 1) = f k' + later f N k' := later_pred f (by omega) hk'
    have m := later_mono f (N := N) (k := k) (l := k' - 1) (by omega)
    omega
  · subst h; omega

theorem sInv_step {qp : OcpQp K} {N k jj : ℕ} {t0 t : CondTgt K} (hk : k ≤ N) (hj : jj < qp.dim.ns k) (h : SInv qp N t0 k jj t) :
    let is := later qp.dim.ns N k
    let nv := qp.dim.nu k + qp.dim.nx k
    let n := 2 * qp.dim.nb k + 2 * qp.dim.ng k
    SInv qp N t0 k (jj + 1) { t with
      Z2 := upd (upd t.Z2 (is + jj) (qp.Z k jj)) (nsAll qp.dim N + is + jj) (qp.Z k (qp.dim.ns k + jj))
      rqz2 := upd (upd t.rqz2 (nvCond qp N + (is + jj)) (qp.rqz k (nv + jj))) (nvCond qp N + (nsAll qp.dim N + is + jj)) (qp.rqz k (nv + (qp.dim.ns k + jj)))
      d2 := upd (upd t.d2 (2 * ntCond qp N + (is + jj)) (qp.d k (n + jj))) (2 * ntCond qp N + nsAll qp.dim N + (is + jj)) (qp.d k (n + qp.dim.ns k + jj))
      d_mask2 := upd (upd t.d_mask2 (2 * ntCond qp N + (is + jj)) (qp.d_mask k (n + jj))) (2 * ntCond qp N + nsAll qp.dim N + (is + jj)) (qp.d_mask k (n + qp.dim.ns k + jj))
      m2 := upd (upd t.m2 (2 * ntCond qp N + (is + jj)) (qp.m k (n + jj))) (2 * ntCond qp N + nsAll qp.dim N + (is + jj)) (qp.m k (n + qp.dim.ns k + jj)) } := by
  intro is nv n
  have hlt : is + jj < nsAll qp.dim N := later_lt qp.dim.ns hk hj
  have hn : n = 2 * (qp.dim.nb k + qp.dim.ng k) := by omega
  constructor
  · intro k' i hk' hi hd
    have hlt' : later qp.dim.ns N k' + i < nsAll qp.dim N := later_lt qp.dim.ns hk' hi
    by_cases e : k' = k ∧ i = jj
    · obtain ⟨rfl, rfl⟩ := e
      constructor <;> dsimp only <;> rw [upd2_val]
      · rw [if_neg (by omega), if_pos rfl]
      · rw [if_pos (by omega)]
      · rw [if_neg (by omega), if_pos rfl]
      · rw [if_pos (by omega)]
      · rw [if_neg (by omega), if_pos rfl, hn]
      · rw [if_pos (by omega), hn, add_assoc]
      · rw [if_neg (by omega), if_pos rfl, hn]
      · rw [if_pos (by omega), hn, add_assoc]
      · rw [if_neg (by omega), if_pos rfl, hn]
      · rw [if_pos (by omega), hn, add_assoc]
    · have hd' : k < k' ∨ k' = k ∧ i < jj := by omega
      have := later_done qp.dim.ns hk' hi hd'
      have hne : later qp.dim.ns N k' + i ≠ is + jj := by omega
      have f := h.facts k' i hk' hi hd'
      constructor <;> dsimp only <;> rw [upd2_val, if_neg (by omega), if_neg (by omega)]
      · exact f.Zl
      · exact f.Zu
      · exact f.zl
      · exact f.zu
      · exact f.dl
      · exact f.du
      · exact f.kl
      · exact f.ku
      · exact f.ml
      · exact f.mu
  · refine ⟨fun p hp => (h.rest.same p hp).trans ⟨?_, ?_, ?_, ?_, ?_, ?_, rfl, fun _ _ => rfl, rfl⟩, fun i hi => ?_, h.rest.h, h.rest.a, h.rest.b⟩
    all_goals dsimp only; rw [upd2_val, if_neg (by omega), if_neg (by omega)]
    exact h.rest.g i hi

theorem dctS_done {qp : OcpQp K} {N : ℕ} (t0 : CondTgt K) :
    let t := (loop (N + 1) (dctS qp (nvCond qp N) (ntCond qp N) (nsAll qp.dim N) N) (t0, 0)).1
    (∀ k i, k ≤ N → i < qp.dim.ns k → SlackFact qp N t k i) ∧ SlackRest qp N t0 t := by
  have H := loop_inv (fun ii (s : CondTgt K × ℕ) => (∀ k, k + ii = N → SInv qp N t0 k 0 s.1 ∧ s.2 = later qp.dim.ns N k) ∧
      (ii = N + 1 → ∀ k i, k ≤ N → i < qp.dim.ns k → SlackFact qp N s.1 k i) ∧ SlackRest qp N t0 s.1) (N + 1)
    (dctS qp (nvCond qp N) (ntCond qp N) (nsAll qp.dim N) N) (t0, 0) ?_ ?_
  · exact ⟨H.2.1 rfl, H.2.2⟩
  · have r0 : SlackRest qp N t0 t0 := ⟨fun p _ => SameAt.refl _ _ _ _, fun _ _ => rfl, rfl, rfl, rfl⟩
    refine ⟨fun k hk => ⟨⟨fun k' i hk' hi hd => by omega, r0⟩, ?_⟩, fun h => by omega, r0⟩
    rw [show k = N by omega, later_self]
  · intro ii s hii ⟨h, _, _⟩
    obtain ⟨k, hk⟩ : ∃ k, k + ii = N := ⟨N - ii, by omega⟩
    obtain ⟨h1, h2⟩ := h k hk
    have e2 : (dctS qp (nvCond qp N) (ntCond qp N) (nsAll qp.dim N) N ii s).2 = s.2 + qp.dim.ns k := by
      unfold dctS; rw [show N - ii = k by omega]
    have L : SInv qp N t0 k (qp.dim.ns k) (dctS qp (nvCond qp N) (ntCond qp N) (nsAll qp.dim N) N ii s).1 := by
      unfold dctS
      rw [show N - ii = k by omega]
      dsimp only
      refine loop_inv (SInv qp N t0 k) _ _ _ h1 ?_
      intro jj t hjj ht
      have := sInv_step (by omega) hjj ht
      dsimp only at this
      rw [h2]
      exact this
    refine ⟨fun k2 hk2 => ?_, fun hN k' i hk' hi => L.facts k' i hk' hi ?_, L.rest⟩
    · obtain rfl : k = k2 + 1 := by omega
      refine ⟨⟨fun k' i hk' hi hd => L.facts k' i hk' hi ?_, L.rest⟩, ?_⟩
      · by_cases hh : k' = k2 + 1
        · subst hh; exact Or.inr ⟨rfl, hi⟩
        · exact Or.inl (by omega)
      · rw [e2, h2, later_succ qp.dim.ns (N := N) (k := k2) (by omega)]; omega
    · by_cases hh : k' = k
      · subst hh; exact Or.inr ⟨rfl, hi⟩
      · exact Or.inl (by omega)

/-- the constraints, bounds and slacks of the condensed problem -/
structure Condensed (qp : OcpQp K) (N : ℕ) (t0 t : CondTgt K) : Prop where
  con : ∀ k j, k ≤ N → j < qp.dim.nb k + qp.dim.ng k → ConFact qp N t0 t k j
  slack : ∀ k i, k ≤ N → i < qp.dim.ns k → SlackFact qp N t k i
  g : ∀ i, i < nvCond qp N → t.rqz2 i = t0.rqz2 i
  h : t.RSQrq2 = t0.RSQrq2
  a : t.BAbt2 = t0.BAbt2
  b : t.b2 = t0.b2

theorem condDctd_general (qp : OcpQp K) (arg : CondArg) (ws : CondWs K) (t0 : CondTgt K) (N : ℕ) (htop : condTop qp.dim.N arg = some N)
    (hnt : ¬ (N = 0 ∧ arg.cond_last_stage = true)) (hwf : IdxbOk qp N) (hsem : StateSem qp N ws) :
    Condensed qp N t0 (condDctd qp arg ws t0).2 := by
  have enu : sumTo qp.dim.nu (N + 1) = nuAll qp.dim N := by rw [sumTo_eq]; rfl
  have ens : sumTo qp.dim.ns (N + 1) = nsAll qp.dim N := by rw [sumTo_eq]; rfl
  have eng : sumTo qp.dim.ng (N + 1) = ngAll qp.dim N := by rw [sumTo_eq]; rfl
  have enb : sumTo (fun k => boxCount qp k (qp.dim.nb k)) (N + 1) = nbCond qp N := by
    rw [sumTo_eq]; exact sum_congr rfl fun k _ => boxCount_eq qp k _
  have enbg : sumTo (fun k => genCount qp k (qp.dim.nb k)) (N + 1) = nbgCond qp N := by
    rw [sumTo_eq]; exact sum_congr rfl fun k _ => genCount_eq qp k _
  unfold condDctd
  rw [htop]
  dsimp only
  rw [if_neg hnt, enu, ens, eng, enb, enbg]
  set t1 : CondTgt K := { t0 with DCt2 := gese (nuAll qp.dim N + qp.dim.nx 0) (nbgCond qp N + ngAll qp.dim N) 0 t0.DCt2 0 0 } with ht1
  have hz : ZeroC qp N t1 := by
    intro i c hi hc
    show gese _ _ _ _ _ _ i c = 0
    unfold gese
    unfold nvCond at hi
    have : c < nbgCond qp N + ngAll qp.dim N := hc
    rw [if_pos (by omega)]
  have B := dctBoxes_done hwf hsem hz
  change BoxesDone qp N t1 (dctBoxes0 qp (nbCond qp N) (nbgCond qp N + ngAll qp.dim N)
      (loop N (dctBoxes qp ws (nbCond qp N) (nbgCond qp N + ngAll qp.dim N) N) ⟨t1, 0, 0, 0, 0, qp.dim.nx 0 + sumTo qp.dim.nu N⟩)).tg at B
  generalize (dctBoxes0 qp (nbCond qp N) (nbgCond qp N + ngAll qp.dim N)
      (loop N (dctBoxes qp ws (nbCond qp N) (nbgCond qp N + ngAll qp.dim N) N) ⟨t1, 0, 0, 0, 0, qp.dim.nx 0 + sumTo qp.dim.nu N⟩)).tg = tb at B
  have G := loop_inv (fun ii (s : DctGSt K) => GInv qp N t1 (N - ii) s) N
    (dctG qp ws (nuAll qp.dim N) (nbCond qp N) (ngCond qp N) (nbgCond qp N) N) ⟨tb, ws.tmp_nbgM, 0, 0, 0⟩ ?_ ?_
  rotate_left
  · rw [Nat.sub_zero]
    refine ⟨?_, ?_, ?_, B.facts, fun k' g hk hk' _ => by omega, fun p h1 h2 => B.fresh p (by omega) h2, B.rest⟩ <;> rw [later_self]
  · intro ii s hii h
    obtain ⟨k, hk⟩ : ∃ k, N - ii = k + 1 := ⟨N - ii - 1, by omega⟩
    rw [hk] at h
    rw [show N - (ii + 1) = k by omega]
    exact dctG_inv ii hk hsem hz h
  rw [Nat.sub_self] at G
  have A := dctG0_done hz G
  change AllCons qp N t1 (dctG0 qp (nbCond qp N) (nbgCond qp N + ngAll qp.dim N) (nbgCond qp N)
    (loop N (dctG qp ws (nuAll qp.dim N) (nbCond qp N) (nbgCond qp N + ngAll qp.dim N) (nbgCond qp N) N) ⟨tb, ws.tmp_nbgM, 0, 0, 0⟩)).tg at A
  generalize (dctG0 qp (nbCond qp N) (nbgCond qp N + ngAll qp.dim N) (nbgCond qp N)
    (loop N (dctG qp ws (nuAll qp.dim N) (nbCond qp N) (nbgCond qp N + ngAll qp.dim N) (nbgCond qp N) N) ⟨tb, ws.tmp_nbgM, 0, 0, 0⟩)).tg = ta at A
  have S := dctS_done (qp := qp) (N := N) ta
  dsimp only at S
  change (_ ∧ SlackRest qp N ta (loop (N + 1) (dctS qp (nuAll qp.dim N + qp.dim.nx 0) (nbCond qp N + (nbgCond qp N + ngAll qp.dim N)) (nsAll qp.dim N) N) (ta, 0)).1) at S
  refine ⟨fun k j hk hj => ?_, S.1, fun i hi => ?_, ?_, ?_, ?_⟩
  · have f := (A.facts k j hk hj).same (S.2.same _ (conPos_lt hk hj))
    exact ⟨f.lo, f.up, f.ml, f.mu, f.tl, f.tu, f.rev, f.ix⟩
  · rw [S.2.g i hi, A.rest.g]
  · exact S.2.h.trans A.rest.h
  · exact S.2.a.trans A.rest.a
  · exact S.2.b.trans A.rest.b

end
end Hpipm
