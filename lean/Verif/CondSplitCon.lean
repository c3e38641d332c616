/-
Split condensing: the constraints written by COND_DCT and COND_D are those written by COND_DCTD (no soft constraints).
-/
import Verif.CondSplitCost

namespace Hpipm
open Finset
set_option linter.unusedSectionVars false

section
variable {K : Type*} [Field K] [LinearOrder K] [IsStrictOrderedRing K]

/-- no soft constraints -/
structure HardOnly (qp : OcpQp K) : Prop where
  ns : ∀ k, k ≤ qp.dim.N → qp.dim.ns k = 0
  rev : ∀ k j, k ≤ qp.dim.N → j < qp.dim.nb k + qp.dim.ng k → qp.idxs_rev k j = -1

theorem loop_rel2 {S T : Type*} (R : S → T → Prop) (n : ℕ) (f : ℕ → S → S) (g : ℕ → T → T) (s : S) (t : T) (h0 : R s t)
    (h : ∀ i s t, i < n → R s t → R (f i s) (g i t)) : R (loop n f s) (loop n g t) := by
  induction n with
  | zero => exact h0
  | succ n ih => exact h n _ _ (Nat.lt_succ_self n) (ih fun i s t hi => h i s t (by omega))

theorem softM_hard (qp : OcpQp K) (ns2 k p : ℕ) (s : CondTgt K × ℕ) : dctSoftM qp ns2 k p (-1) s = s := by
  unfold dctSoftM; rw [if_neg (by decide)]

theorem softD_hard (qp : OcpQp K) (nv2 nt2 ns2 k : ℕ) (s : CondTgt K × ℕ) : dctSoftD qp nv2 nt2 ns2 k (-1) s = s := by
  unfold dctSoftD; rw [if_neg (by decide)]

/-! ### matrices -/

/-- boxes: COND_DCTD against COND_DCT -/
structure RelM (t0 : CondTgt K) (s s' : DctSt K) : Prop where
  ix : s'.tg.idxb2 = s.tg.idxb2
  c : s'.tg.DCt2 = s.tg.DCt2
  nu : s'.nu_tmp = s.nu_tmp
  ib : s'.ib = s.ib
  ig : s'.ig = s.ig
  gm : s'.idx_gammab = s.idx_gammab
  fr : s'.tg = { t0 with idxb2 := s'.tg.idxb2, DCt2 := s'.tg.DCt2 }

/-- general constraints: COND_DCTD against COND_DCT -/
structure RelGM (t0 : CondTgt K) (s s' : DctGSt K) : Prop where
  ix : s'.tg.idxb2 = s.tg.idxb2
  c : s'.tg.DCt2 = s.tg.DCt2
  nu : s'.nu_tmp = s.nu_tmp
  ng : s'.ng_tmp = s.ng_tmp
  fr : s'.tg = { t0 with idxb2 := s'.tg.idxb2, DCt2 := s'.tg.DCt2 }

theorem fr_idx {t0 t : CondTgt K} (h : t = { t0 with idxb2 := t.idxb2, DCt2 := t.DCt2 }) (i : ℕ → ℕ) (C : Mat K) :
    { t with idxb2 := i, DCt2 := C } = { t0 with idxb2 := i, DCt2 := C } := by
  obtain ⟨⟩ := t
  obtain ⟨⟩ := t0
  simp only [CondTgt.mk.injEq] at h ⊢
  simp [h]

theorem boxM_rel {qp : OcpQp K} {nb2 ng2 ns2 k jj : ℕ} {t0 : CondTgt K} {s s' : DctSt K} (hr : qp.idxs_rev k jj = -1) (h : RelM t0 s s') :
    RelM t0 (dctBox qp nb2 ng2 k jj s) (dctBoxM qp ns2 k jj s') := by
  set t : CondTgt K := { s'.tg with idxb2 := upd s'.tg.idxb2 s'.ib (s'.nu_tmp - qp.dim.nu k + qp.idxb k jj) } with ht
  have e : dctBoxM qp ns2 k jj s' = ⟨t, s'.nu_tmp, s'.ib + 1, s'.ig, s'.is, s'.idx_gammab⟩ := by
    unfold dctBoxM; rw [hr]; dsimp only; rw [softM_hard]
  rw [e]
  refine ⟨?_, h.c, h.nu, ?_, h.ig, h.gm, ?_⟩
  · show upd _ _ _ = upd _ _ _; rw [h.ix, h.ib, h.nu]
  · show _ + 1 = _ + 1; rw [h.ib]
  · exact fr_idx h.fr _ _

theorem genM_rel {qp : OcpQp K} {ws ws' : CondWs K} {nb2 ng2 ns2 k jj : ℕ} {t0 : CondTgt K} {s s' : DctSt K} (hg : ws'.Gamma = ws.Gamma)
    (hr : qp.idxs_rev k jj = -1) (h : RelM t0 s s') :
    RelM t0 (dctGen qp ws nb2 ng2 k jj s) (dctGenM qp ws' nb2 ns2 k jj s') := by
  set C := gecp s'.idx_gammab 1 (ws'.Gamma (k - 1)) 0 (qp.idxb k jj - qp.dim.nu k) s'.tg.DCt2 s'.nu_tmp s'.ig with hC
  set t : CondTgt K := { s'.tg with DCt2 := C } with ht
  have e : dctGenM qp ws' nb2 ns2 k jj s' = ⟨t, s'.nu_tmp, s'.ib, s'.ig + 1, s'.is, s'.idx_gammab⟩ := by
    unfold dctGenM; rw [hr]; dsimp only; rw [softM_hard]
  rw [e]
  refine ⟨h.ix, ?_, h.nu, h.ib, ?_, h.gm, ?_⟩
  · show C = gecp _ _ _ _ _ _ _ _; rw [hC, h.c, h.nu, h.ig, h.gm, hg]
  · show _ + 1 = _ + 1; rw [h.ig]
  · exact fr_idx h.fr _ _

theorem boxesM_rel {qp : OcpQp K} {ws ws' : CondWs K} {nb2 ng2 ns2 N ii : ℕ} {t0 : CondTgt K} {s s' : DctSt K} (hg : ws'.Gamma = ws.Gamma)
    (hr : ∀ j, j < qp.dim.nb (N - ii) → qp.idxs_rev (N - ii) j = -1) (h : RelM t0 s s') :
    RelM t0 (dctBoxes qp ws nb2 ng2 N ii s) (dctBoxesM qp ws' nb2 ns2 N ii s') := by
  unfold dctBoxes dctBoxesM
  have L := loop_rel2 (RelM t0) (qp.dim.nb (N - ii))
    (fun jj s => if qp.idxb (N - ii) jj < qp.dim.nu (N - ii) then dctBox qp nb2 ng2 (N - ii) jj s else dctGen qp ws nb2 ng2 (N - ii) jj s)
    (fun jj s => if qp.idxb (N - ii) jj < qp.dim.nu (N - ii) then dctBoxM qp ns2 (N - ii) jj s else dctGenM qp ws' nb2 ns2 (N - ii) jj s)
    { s with nu_tmp := s.nu_tmp + qp.dim.nu (N - ii) } { s' with nu_tmp := s'.nu_tmp + qp.dim.nu (N - ii) }
    ⟨h.ix, h.c, by show _ + _ = _ + _; rw [h.nu], h.ib, h.ig, h.gm, h.fr⟩
    (fun jj s s' hj h => by
      by_cases e : qp.idxb (N - ii) jj < qp.dim.nu (N - ii)
      · rw [if_pos e, if_pos e]; exact boxM_rel (hr jj hj) h
      · rw [if_neg e, if_neg e]; exact genM_rel hg (hr jj hj) h)
  exact ⟨L.ix, L.c, L.nu, L.ib, L.ig, by show _ - _ = _ - _; rw [L.gm], L.fr⟩

theorem boxesM0_rel {qp : OcpQp K} {nb2 ng2 ns2 : ℕ} {t0 : CondTgt K} {s s' : DctSt K}
    (hr : ∀ j, j < qp.dim.nb 0 → qp.idxs_rev 0 j = -1) (h : RelM t0 s s') :
    RelM t0 (dctBoxes0 qp nb2 ng2 s) (dctBoxesM0 qp ns2 s') := by
  unfold dctBoxes0 dctBoxesM0
  have L := loop_rel2 (RelM t0) (qp.dim.nb 0) (fun jj s => dctBox qp nb2 ng2 0 jj s) (fun jj s => dctBoxM qp ns2 0 jj s)
    { s with nu_tmp := s.nu_tmp + qp.dim.nu 0 } { s' with nu_tmp := s'.nu_tmp + qp.dim.nu 0 }
    ⟨h.ix, h.c, by show _ + _ = _ + _; rw [h.nu], h.ib, h.ig, h.gm, h.fr⟩ (fun jj s s' hj h => boxM_rel (hr jj hj) h)
  exact ⟨L.ix, L.c, L.nu, L.ib, L.ig, L.gm, L.fr⟩

theorem gsoftM_hard (qp : OcpQp K) (nb2 nbg ns2 k ng_tmp : ℕ) (s : CondTgt K × ℕ)
    (hr : ∀ j, j < qp.dim.ng k → qp.idxs_rev k (qp.dim.nb k + j) = -1) : dctGsoftM qp nb2 nbg ns2 k ng_tmp s = s := by
  unfold dctGsoftM
  exact loop_inv (fun _ t => t = s) _ _ _ rfl fun i t hi ht => by rw [hr i hi, softM_hard]; exact ht

theorem gsoftD_hard (qp : OcpQp K) (nv2 nt2 ns2 k : ℕ) (s : CondTgt K × ℕ)
    (hr : ∀ j, j < qp.dim.ng k → qp.idxs_rev k (qp.dim.nb k + j) = -1) : dctGsoftD qp nv2 nt2 ns2 k s = s := by
  unfold dctGsoftD
  exact loop_inv (fun _ t => t = s) _ _ _ rfl fun i t hi ht => by rw [hr i hi, softD_hard]; exact ht

theorem gM_rel {qp : OcpQp K} {ws ws' : CondWs K} {nu2 nb2 ng2 nbg ns2 N ii : ℕ} {t0 : CondTgt K} {s s' : DctGSt K} (hg : ws'.Gamma = ws.Gamma)
    (hr : ∀ j, j < qp.dim.ng (N - ii) → qp.idxs_rev (N - ii) (qp.dim.nb (N - ii) + j) = -1) (h : RelGM t0 s s') :
    RelGM t0 (dctG qp ws nu2 nb2 ng2 nbg N ii s) (dctGM qp ws' nu2 nb2 nbg ns2 N ii s') := by
  unfold dctG dctGM
  dsimp only
  rw [gsoftM_hard qp nb2 nbg ns2 (N - ii) _ _ hr]
  split
  · refine ⟨h.ix, ?_, ?_, ?_, fr_idx h.fr _ _⟩
    · dsimp only [dctGd]; rw [h.c, h.nu, h.ng, hg]
    · dsimp only; rw [h.nu]
    · dsimp only; rw [h.ng]
  · exact ⟨h.ix, h.c, by dsimp only; rw [h.nu], h.ng, h.fr⟩

theorem gM0_rel {qp : OcpQp K} {nb2 ng2 nbg ns2 : ℕ} {t0 : CondTgt K} {s s' : DctGSt K}
    (hr : ∀ j, j < qp.dim.ng 0 → qp.idxs_rev 0 (qp.dim.nb 0 + j) = -1) (h : RelGM t0 s s') :
    RelGM t0 (dctG0 qp nb2 ng2 nbg s) (dctGM0 qp nb2 nbg ns2 s') := by
  unfold dctG0 dctGM0
  dsimp only
  rw [gsoftM_hard qp nb2 nbg ns2 0 _ _ hr]
  split
  · refine ⟨h.ix, ?_, h.nu, h.ng, fr_idx h.fr _ _⟩
    dsimp only [dctGd]; rw [h.c, h.nu, h.ng]
  · exact ⟨h.ix, h.c, h.nu, h.ng, h.fr⟩

/-- the slack loop of COND_DCTD does nothing without slacks -/
theorem dctS_hard {qp : OcpQp K} (nv2 nt2 ns2 N : ℕ) (hn : ∀ k, k ≤ N → qp.dim.ns k = 0) (t : CondTgt K) :
    (loop (N + 1) (dctS qp nv2 nt2 ns2 N) (t, 0)).1 = t := by
  refine loop_inv (fun _ (s : CondTgt K × ℕ) => s.1 = t) _ _ _ rfl fun i s hi hs => ?_
  unfold dctS
  dsimp only
  rw [hn (N - i) (by omega)]
  exact hs

theorem condDct_eq (qp : OcpQp K) (arg : CondArg) (ws ws' : CondWs K) (tg tg' : CondTgt K) (hcls : arg.cond_last_stage = true) (hh : HardOnly qp)
    (hg : ws'.Gamma = ws.Gamma) (hix : tg'.idxb2 = tg.idxb2) (hc : tg'.DCt2 = tg.DCt2) (hN : 0 < qp.dim.N) :
    (condDct qp arg ws' tg').idxb2 = (condDctd qp arg ws tg).2.idxb2 ∧ (condDct qp arg ws' tg').DCt2 = (condDctd qp arg ws tg).2.DCt2 ∧
    condDct qp arg ws' tg' = { tg' with idxb2 := (condDct qp arg ws' tg').idxb2, DCt2 := (condDct qp arg ws' tg').DCt2 } := by
  have htop : condTop qp.dim.N arg = some qp.dim.N := by unfold condTop; rw [if_pos hcls]
  have h0 : ¬ (qp.dim.N = 0 ∧ arg.cond_last_stage = true) := by omega
  unfold condDct condDctd
  rw [htop]
  dsimp only
  rw [if_neg h0, if_neg h0]
  dsimp only
  rw [dctS_hard _ _ _ _ hh.ns]
  generalize hnb : sumTo (fun k => boxCount qp k (qp.dim.nb k)) (qp.dim.N + 1) = nb2
  generalize hnbg : sumTo (fun k => genCount qp k (qp.dim.nb k)) (qp.dim.N + 1) = nbg
  generalize sumTo qp.dim.ns (qp.dim.N + 1) = ns2
  generalize nbg + sumTo qp.dim.ng (qp.dim.N + 1) = ng2
  generalize sumTo qp.dim.nu (qp.dim.N + 1) = nu2
  have B := loop_rel2 (RelM tg') qp.dim.N (dctBoxes qp ws nb2 ng2 qp.dim.N) (dctBoxesM qp ws' nb2 ns2 qp.dim.N)
    ⟨{ tg with DCt2 := gese (nu2 + qp.dim.nx 0) ng2 0 tg.DCt2 0 0 }, 0, 0, 0, 0, qp.dim.nx 0 + sumTo qp.dim.nu qp.dim.N⟩
    ⟨{ tg' with DCt2 := gese (nu2 + qp.dim.nx 0) ng2 0 tg'.DCt2 0 0 }, 0, 0, 0, 0, qp.dim.nx 0 + sumTo qp.dim.nu qp.dim.N⟩
    ⟨hix, by dsimp only; rw [hc], rfl, rfl, rfl, rfl, rfl⟩
    (fun i s s' hi h => boxesM_rel hg (fun j hj => hh.rev (qp.dim.N - i) j (by omega) (by omega)) h)
  have B0 := boxesM0_rel (nb2 := nb2) (ng2 := ng2) (ns2 := ns2) (fun j hj => hh.rev 0 j (by omega) (by omega)) B
  generalize dctBoxesM0 qp ns2 _ = s1' at B0 ⊢
  have G := loop_rel2 (RelGM tg') qp.dim.N (dctG qp ws nu2 nb2 ng2 nbg qp.dim.N) (dctGM qp ws' nu2 nb2 nbg ns2 qp.dim.N)
    ⟨_, ws.tmp_nbgM, 0, 0, 0⟩ ⟨s1'.tg, ws'.tmp_nbgM, 0, 0, s1'.is⟩ ⟨B0.ix, B0.c, rfl, rfl, B0.fr⟩
    (fun i s s' hi h => gM_rel hg (fun j hj => hh.rev (qp.dim.N - i) _ (by omega) (by omega)) h)
  have G0 := gM0_rel (nb2 := nb2) (ng2 := ng2) (nbg := nbg) (ns2 := ns2) (fun j hj => hh.rev 0 _ (by omega) (by omega)) G
  exact ⟨G0.ix, G0.c, G0.fr⟩

/-! ### bounds -/

/-- boxes: COND_DCTD against COND_D -/
structure RelD (t0 : CondTgt K) (s s' : DctSt K) : Prop where
  d : s'.tg.d2 = s.tg.d2
  k : s'.tg.d_mask2 = s.tg.d_mask2
  ib : s'.ib = s.ib
  ig : s'.ig = s.ig
  fr : s'.tg = { t0 with d2 := s'.tg.d2, d_mask2 := s'.tg.d_mask2 }

/-- general constraints: COND_DCTD against COND_D -/
structure RelGD (t0 : CondTgt K) (s s' : DctGSt K) : Prop where
  d : s'.tg.d2 = s.tg.d2
  k : s'.tg.d_mask2 = s.tg.d_mask2
  tmp : s'.tmp = s.tmp
  ng : s'.ng_tmp = s.ng_tmp
  fr : s'.tg = { t0 with d2 := s'.tg.d2, d_mask2 := s'.tg.d_mask2 }

theorem fr_d {t0 t : CondTgt K} (h : t = { t0 with d2 := t.d2, d_mask2 := t.d_mask2 }) (d k : Vec K) :
    { t with d2 := d, d_mask2 := k } = { t0 with d2 := d, d_mask2 := k } := by
  obtain ⟨⟩ := t
  obtain ⟨⟩ := t0
  simp only [CondTgt.mk.injEq] at h ⊢
  simp [h]

theorem boxD_rel {qp : OcpQp K} {nv2 nb2 ng2 ns2 k jj : ℕ} {t0 : CondTgt K} {s s' : DctSt K} (hr : qp.idxs_rev k jj = -1) (h : RelD t0 s s') :
    RelD t0 (dctBox qp nb2 ng2 k jj s) (dctBoxD qp nv2 nb2 ng2 ns2 k jj s') := by
  unfold dctBoxD
  rw [hr]
  dsimp only
  rw [softD_hard]
  refine ⟨?_, ?_, ?_, h.ig, fr_d h.fr _ _⟩
  · dsimp only [dctBox]; rw [h.d, h.ib]
  · dsimp only [dctBox]; rw [h.k, h.ib]
  · show _ + 1 = _ + 1; rw [h.ib]

theorem genD_rel {qp : OcpQp K} {ws ws' : CondWs K} {nv2 nb2 ng2 ns2 k jj : ℕ} {t0 : CondTgt K} {s s' : DctSt K} (hg : ws'.Gammab = ws.Gammab)
    (hr : qp.idxs_rev k jj = -1) (h : RelD t0 s s') :
    RelD t0 (dctGen qp ws nb2 ng2 k jj s) (dctGenD qp ws' nv2 nb2 ng2 ns2 k jj s') := by
  unfold dctGenD
  rw [hr]
  dsimp only
  rw [softD_hard]
  refine ⟨?_, ?_, h.ib, ?_, fr_d h.fr _ _⟩
  · dsimp only [dctGen]; rw [h.d, h.ig, hg]
  · dsimp only [dctGen]; rw [h.k, h.ig]
  · show _ + 1 = _ + 1; rw [h.ig]

theorem boxesD_rel {qp : OcpQp K} {ws ws' : CondWs K} {nv2 nb2 ng2 ns2 N ii : ℕ} {t0 : CondTgt K} {s s' : DctSt K} (hg : ws'.Gammab = ws.Gammab)
    (hr : ∀ j, j < qp.dim.nb (N - ii) → qp.idxs_rev (N - ii) j = -1) (h : RelD t0 s s') :
    RelD t0 (dctBoxes qp ws nb2 ng2 N ii s) (dctBoxesD qp ws' nv2 nb2 ng2 ns2 N ii s') := by
  unfold dctBoxes dctBoxesD
  have L := loop_rel2 (RelD t0) (qp.dim.nb (N - ii))
    (fun jj s => if qp.idxb (N - ii) jj < qp.dim.nu (N - ii) then dctBox qp nb2 ng2 (N - ii) jj s else dctGen qp ws nb2 ng2 (N - ii) jj s)
    (fun jj s => if qp.idxb (N - ii) jj < qp.dim.nu (N - ii) then dctBoxD qp nv2 nb2 ng2 ns2 (N - ii) jj s else dctGenD qp ws' nv2 nb2 ng2 ns2 (N - ii) jj s)
    { s with nu_tmp := s.nu_tmp + qp.dim.nu (N - ii) } { s' with nu_tmp := s'.nu_tmp + qp.dim.nu (N - ii) }
    ⟨h.d, h.k, h.ib, h.ig, h.fr⟩
    (fun jj s s' hj h => by
      by_cases e : qp.idxb (N - ii) jj < qp.dim.nu (N - ii)
      · rw [if_pos e, if_pos e]; exact boxD_rel (hr jj hj) h
      · rw [if_neg e, if_neg e]; exact genD_rel hg (hr jj hj) h)
  exact ⟨L.d, L.k, L.ib, L.ig, L.fr⟩

theorem boxesD0_rel {qp : OcpQp K} {nv2 nb2 ng2 ns2 : ℕ} {t0 : CondTgt K} {s s' : DctSt K}
    (hr : ∀ j, j < qp.dim.nb 0 → qp.idxs_rev 0 j = -1) (h : RelD t0 s s') :
    RelD t0 (dctBoxes0 qp nb2 ng2 s) (dctBoxesD0 qp nv2 nb2 ng2 ns2 s') := by
  unfold dctBoxes0 dctBoxesD0
  have L := loop_rel2 (RelD t0) (qp.dim.nb 0) (fun jj s => dctBox qp nb2 ng2 0 jj s) (fun jj s => dctBoxD qp nv2 nb2 ng2 ns2 0 jj s)
    { s with nu_tmp := s.nu_tmp + qp.dim.nu 0 } { s' with nu_tmp := s'.nu_tmp + qp.dim.nu 0 }
    ⟨h.d, h.k, h.ib, h.ig, h.fr⟩ (fun jj s s' hj h => boxD_rel (hr jj hj) h)
  exact ⟨L.d, L.k, L.ib, L.ig, L.fr⟩

theorem gD_rel {qp : OcpQp K} {ws ws' : CondWs K} {nu2 nv2 nb2 ng2 nbg ns2 N ii : ℕ} {t0 : CondTgt K} {s s' : DctGSt K}
    (hg : ws'.Gammab = ws.Gammab)
    (hr : ∀ j, j < qp.dim.ng (N - ii) → qp.idxs_rev (N - ii) (qp.dim.nb (N - ii) + j) = -1) (h : RelGD t0 s s') :
    RelGD t0 (dctG qp ws nu2 nb2 ng2 nbg N ii s) (dctGD qp ws' nv2 nb2 ng2 nbg ns2 N ii s') := by
  unfold dctG dctGD
  dsimp only
  rw [gsoftD_hard qp nv2 (nb2 + ng2) ns2 (N - ii) _ hr]
  split
  · refine ⟨?_, ?_, ?_, ?_, fr_d h.fr _ _⟩
    · dsimp only [dctGd, dctGdD]; rw [h.d, h.tmp, h.ng, hg]
    · dsimp only [dctGd, dctGdD]; rw [h.k, h.ng]
    · dsimp only; rw [h.tmp, hg]
    · dsimp only; rw [h.ng]
  · exact ⟨h.d, h.k, h.tmp, h.ng, h.fr⟩

theorem gD0_rel {qp : OcpQp K} {nv2 nb2 ng2 nbg ns2 : ℕ} {t0 : CondTgt K} {s s' : DctGSt K}
    (hr : ∀ j, j < qp.dim.ng 0 → qp.idxs_rev 0 (qp.dim.nb 0 + j) = -1) (h : RelGD t0 s s') :
    RelGD t0 (dctG0 qp nb2 ng2 nbg s) (dctGD0 qp nv2 nb2 ng2 nbg ns2 s') := by
  unfold dctG0 dctGD0
  dsimp only
  rw [gsoftD_hard qp nv2 (nb2 + ng2) ns2 0 _ hr]
  split
  · refine ⟨?_, ?_, h.tmp, h.ng, fr_d h.fr _ _⟩
    · dsimp only [dctGd, dctGdD]; rw [h.d, h.ng]
    · dsimp only [dctGd, dctGdD]; rw [h.k, h.ng]
  · exact ⟨h.d, h.k, h.tmp, h.ng, h.fr⟩

theorem condD_eq (qp : OcpQp K) (arg : CondArg) (ws : CondWs K) (tg tg' : CondTgt K) (hcls : arg.cond_last_stage = true) (hh : HardOnly qp)
    (hd : tg'.d2 = tg.d2) (hk : tg'.d_mask2 = tg.d_mask2) (hN : 0 < qp.dim.N) :
    (condD qp arg ws tg').2.d2 = (condDctd qp arg ws tg).2.d2 ∧ (condD qp arg ws tg').2.d_mask2 = (condDctd qp arg ws tg).2.d_mask2 ∧
    (condD qp arg ws tg').2 = { tg' with d2 := (condD qp arg ws tg').2.d2, d_mask2 := (condD qp arg ws tg').2.d_mask2 } := by
  have htop : condTop qp.dim.N arg = some qp.dim.N := by unfold condTop; rw [if_pos hcls]
  have h0 : ¬ (qp.dim.N = 0 ∧ arg.cond_last_stage = true) := by omega
  unfold condD condDctd
  rw [htop]
  dsimp only
  rw [if_neg h0, if_neg h0]
  dsimp only
  rw [dctS_hard _ _ _ _ hh.ns]
  generalize hnb : sumTo (fun k => boxCount qp k (qp.dim.nb k)) (qp.dim.N + 1) = nb2
  generalize hnbg : sumTo (fun k => genCount qp k (qp.dim.nb k)) (qp.dim.N + 1) = nbg
  generalize sumTo qp.dim.ns (qp.dim.N + 1) = ns2
  generalize nbg + sumTo qp.dim.ng (qp.dim.N + 1) = ng2
  generalize sumTo qp.dim.nu (qp.dim.N + 1) = nu2
  generalize nu2 + qp.dim.nx 0 = nv2
  have B := loop_rel2 (RelD tg') qp.dim.N (dctBoxes qp ws nb2 ng2 qp.dim.N) (dctBoxesD qp ws nv2 nb2 ng2 ns2 qp.dim.N)
    ⟨{ tg with DCt2 := gese nv2 ng2 0 tg.DCt2 0 0 }, 0, 0, 0, 0, qp.dim.nx 0 + sumTo qp.dim.nu qp.dim.N⟩
    ⟨tg', 0, 0, 0, 0, qp.dim.nx 0 + sumTo qp.dim.nu qp.dim.N⟩
    ⟨hd, hk, rfl, rfl, rfl⟩
    (fun i s s' hi h => boxesD_rel rfl (fun j hj => hh.rev (qp.dim.N - i) j (by omega) (by omega)) h)
  have B0 := boxesD0_rel (nv2 := nv2) (nb2 := nb2) (ng2 := ng2) (ns2 := ns2) (fun j hj => hh.rev 0 j (by omega) (by omega)) B
  generalize dctBoxesD0 qp nv2 nb2 ng2 ns2 _ = s1' at B0 ⊢
  have G := loop_rel2 (RelGD tg') qp.dim.N (dctG qp ws nu2 nb2 ng2 nbg qp.dim.N) (dctGD qp ws nv2 nb2 ng2 nbg ns2 qp.dim.N)
    ⟨_, ws.tmp_nbgM, 0, 0, 0⟩ ⟨s1'.tg, ws.tmp_nbgM, 0, 0, s1'.is⟩ ⟨B0.d, B0.k, rfl, rfl, B0.fr⟩
    (fun i s s' hi h => gD_rel rfl (fun j hj => hh.rev (qp.dim.N - i) _ (by omega) (by omega)) h)
  have G0 := gD0_rel (nv2 := nv2) (nb2 := nb2) (ng2 := ng2) (nbg := nbg) (ns2 := ns2) (fun j hj => hh.rev 0 _ (by omega) (by omega)) G
  exact ⟨G0.d, G0.k, G0.fr⟩

end
end Hpipm
