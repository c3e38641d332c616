/-
The tail of the step routines (intermediate results): constraint values, slacks and multipliers of the
step, and the equations they satisfy.
-/
import Verif.KktFwd
import Verif.ResProps
import Verif.CoreProps

namespace Hpipm
open Finset
set_option linter.unusedSectionVars false

section
variable {K : Type*} [Field K] [LinearOrder K]

theorem loopT (n : ℕ) (f : ℕ → Vec K → Vec K → Vec K) (st : KktSt K) :
    loop n (fun ss (st : KktSt K) => { st with t := upd st.t ss (f ss (st.ux ss) (st.t ss)) }) st =
      { st with t := fun k => if k < n then f k (st.ux k) (st.t k) else st.t k } := by
  induction n with
  | zero => simp
  | succ n ih =>
    rw [loop_succ, ih]
    simp only [lt_irrefl, if_false]
    congr 1
    funext k
    by_cases hk : k = n
    · subst hk; simp
    · rw [upd_ne _ _ hk]
      have : (k < n + 1) = (k < n) := by apply propext; omega
      simp only [this]

theorem loopUT (n : ℕ) (c : ℕ → Prop) [DecidablePred c] (f : ℕ → Vec K → Vec K → Vec K → Vec K × Vec K) (st : KktSt K) :
    loop n (fun ss (st : KktSt K) => if c ss then
        { st with
          ux := upd st.ux ss (f ss (st.Zs ss) (st.ux ss) (st.t ss)).1
          t := upd st.t ss (f ss (st.Zs ss) (st.ux ss) (st.t ss)).2 } else st) st =
      { st with
        ux := fun k => if k < n ∧ c k then (f k (st.Zs k) (st.ux k) (st.t k)).1 else st.ux k
        t := fun k => if k < n ∧ c k then (f k (st.Zs k) (st.ux k) (st.t k)).2 else st.t k } := by
  induction n with
  | zero => simp
  | succ n ih =>
    rw [loop_succ, ih]
    by_cases hc : c n
    · simp only [lt_irrefl, false_and, if_false, if_pos hc]
      congr 1 <;>
      · funext k
        by_cases hk : k = n
        · subst hk; simp [hc]
        · rw [upd_ne _ _ hk]
          have : (k < n + 1) = (k < n) := by apply propext; omega
          simp only [this]
    · simp only [if_neg hc]
      congr 1 <;>
      · funext k
        by_cases hk : k = n
        · subst hk; simp [hc]
        · have : (k < n + 1) = (k < n) := by apply propext; omega
          simp only [this]

/-- the step as a primal-dual point -/
def stepOf (st : KktSt K) : Sol K where
  ux := st.ux
  pi := st.pi
  lam := st.lam
  t := st.t

/-- constraint values of a step, with their slacks: the part of `dt` that does not depend on `d` -/
def wval (qp : OcpQp K) (v : ℕ → Vec K) (k j : ℕ) : K :=
  let nv := qp.dim.nu k + qp.dim.nx k
  let n := qp.dim.nb k + qp.dim.ng k
  let ns := qp.dim.ns k
  if j < n then cval qp k (v k) j + slk qp k (v k) nv j
  else if j < 2 * n then -(cval qp k (v k) (j - n)) + slk qp k (v k) (nv + ns) (j - n)
  else v k (nv + (j - 2 * n))

theorem vD_wval (qp : OcpQp K) (s : Sol K) (k j : ℕ) : vD qp s k j = qp.d k j + s.t k j - wval qp s.ux k j := by
  simp only [vD, wval]
  split_ifs <;> ring

theorem cval_congr' (qp : OcpQp K) (hwf : qp.WF) (k : ℕ) (hk : k ≤ qp.dim.N) (v v' : Vec K)
    (h : ∀ i, i < qp.dim.nu k + qp.dim.nx k → v i = v' i) (j : ℕ) : cval qp k v j = cval qp k v' j := by
  unfold cval
  split_ifs with hj
  · exact h _ (hwf.1 k j hk hj)
  · exact sum_congr rfl (fun i hi => by rw [h i (mem_range.mp hi)])

variable [IsStrictOrderedRing K]

/-- what the tail computes -/
structure TailOk (qp : OcpQp K) (G : ℕ → Vec K) (c : Core K) (st st' : KktSt K) : Prop where
  pi : st'.pi = st.pi
  L : st'.L = st.L
  P : st'.P = st.P
  Pb : st'.Pb = st.Pb
  Zs : st'.Zs = st.Zs
  BAbt : st'.BAbt = st.BAbt
  RSQrq : st'.RSQrq = st.RSQrq
  uxv : ∀ k i, k ≤ qp.dim.N → i < qp.dim.nu k + qp.dim.nx k → st'.ux k i = st.ux k i
  sl : ∀ k i, k ≤ qp.dim.N → i < qp.dim.ns k → st'.ux k (qp.dim.nu k + qp.dim.nx k + i) =
    -(st.Zs k i) * (st.ux k (qp.dim.nu k + qp.dim.nx k + i) +
      slkT qp k (fun j => G k j * cval qp k (st.ux k) j) i)
  su : ∀ k i, k ≤ qp.dim.N → i < qp.dim.ns k → st'.ux k (qp.dim.nu k + qp.dim.nx k + qp.dim.ns k + i) =
    -(st.Zs k (qp.dim.ns k + i)) * (st.ux k (qp.dim.nu k + qp.dim.nx k + qp.dim.ns k + i) -
      slkT qp k (fun j => G k (qp.dim.nb k + qp.dim.ng k + j) * cval qp k (st.ux k) j) i)
  t : ∀ k j, k ≤ qp.dim.N → j < nct qp.dim k → st'.t k j = wval qp st'.ux k j - qp.d k j
  lam : ∀ k j, k ≤ qp.dim.N → j < nct qp.dim k → st'.lam k j =
    -(c.t_inv (stOff (nct qp.dim) k + j)) * (qp.m k j + c.lam (stOff (nct qp.dim) k + j) * wval qp st'.ux k j
      - c.lam (stOff (nct qp.dim) k + j) * qp.d k j)

theorem kktTail_ok (qp : OcpQp K) (hwf : qp.WF) (G : ℕ → Vec K) (c : Core K) (hnc : c.nc = stOff (nct qp.dim) (qp.dim.N + 1))
    (st : KktSt K) : TailOk qp G c st (kktTail qp G c st) := by
  -- the vectors after the four loops
  set N := qp.dim.N with hNd
  set t1 : ℕ → Vec K := fun k => if k < N + 1 then vecex_sp (qp.dim.nb k) 1 (qp.idxb k) (st.ux k) 0 (st.t k) 0 else st.t k with ht1
  set t2 : ℕ → Vec K := fun k => if k < N + 1 then
    gemv_t (qp.dim.nu k + qp.dim.nx k) (qp.dim.ng k) 1 (qp.DCt k) 0 0 (st.ux k) 0 0 (t1 k) (qp.dim.nb k) (t1 k) (qp.dim.nb k) else t1 k with ht2
  set t3 : ℕ → Vec K := fun k => if k < N + 1 then
    vecsc (qp.dim.nb k + qp.dim.ng k) (-1) (veccp (qp.dim.nb k + qp.dim.ng k) (t2 k) 0 (t2 k) (qp.dim.nb k + qp.dim.ng k))
      (qp.dim.nb k + qp.dim.ng k) else t2 k with ht3
  set ex : ℕ → Vec K × Vec K := fun k => expandSlacks (qp.dim.nb k + qp.dim.ng k) (qp.dim.ns k) (qp.dim.nu k + qp.dim.nx k)
    (qp.idxs_rev k) (G k) (st.Zs k) (st.ux k, t3 k) with hex
  set u4 : ℕ → Vec K := fun k => if k < N + 1 ∧ qp.dim.ns k > 0 then (ex k).1 else st.ux k with hu4
  set t4 : ℕ → Vec K := fun k => if k < N + 1 ∧ qp.dim.ns k > 0 then (ex k).2 else t3 k with ht4
  set r := computeLamT (stFlat (nct qp.dim) qp.d (N + 1)) (stFlat (nct qp.dim) qp.m (N + 1))
    (stFlat (nct qp.dim) st.lam (N + 1)) (stFlat (nct qp.dim) t4 (N + 1)) c with hr
  have hst : kktTail qp G c st = { st with
      ux := u4
      lam := fun k j => r.1 (stOff (nct qp.dim) k + j)
      t := fun k j => r.2 (stOff (nct qp.dim) k + j) } := by
    unfold kktTail
    simp only []
    rw [loopT (N + 1) (fun ss u t => vecex_sp (qp.dim.nb ss) 1 (qp.idxb ss) u 0 t 0)]
    rw [loopT (N + 1) (fun ss u t => gemv_t (qp.dim.nu ss + qp.dim.nx ss) (qp.dim.ng ss) 1 (qp.DCt ss) 0 0 u 0 0 t (qp.dim.nb ss) t (qp.dim.nb ss))]
    rw [loopT (N + 1) (fun ss u t => vecsc (qp.dim.nb ss + qp.dim.ng ss) (-1)
      (veccp (qp.dim.nb ss + qp.dim.ng ss) t 0 t (qp.dim.nb ss + qp.dim.ng ss)) (qp.dim.nb ss + qp.dim.ng ss))]
    rw [loopUT (N + 1) (fun ss => qp.dim.ns ss > 0) (fun ss Z u t => expandSlacks (qp.dim.nb ss + qp.dim.ng ss) (qp.dim.ns ss)
      (qp.dim.nu ss + qp.dim.nx ss) (qp.idxs_rev ss) (G ss) Z (u, t))]
  rw [hst]
  have hlt : ∀ k, k ≤ N → k < N + 1 := fun k hk => by omega
  have ht3v : ∀ k j, k ≤ N → j < qp.dim.nb k + qp.dim.ng k → t3 k j = cval qp k (st.ux k) j ∧
      t3 k (qp.dim.nb k + qp.dim.ng k + j) = -(cval qp k (st.ux k) j) := by
    intro k j hk hj
    have e2 : ∀ j, j < qp.dim.nb k + qp.dim.ng k → t2 k j = cval qp k (st.ux k) j := by
      intro j hj
      simp only [ht2, ht1, if_pos (hlt k hk), cval]
      by_cases hjb : j < qp.dim.nb k
      · rw [gemv_t_out (by omega), vecex_in (by omega), if_pos hjb]; simp
      · rw [gemv_t_in (by omega), if_neg hjb]; simp
    simp only [ht3, if_pos (hlt k hk)]
    constructor
    · rw [vecsc, if_neg (by omega), veccp_out (by omega), e2 j hj]
    · rw [vecsc, if_pos (by omega), veccp_in (by omega)]
      simp only [Nat.add_sub_cancel_left, zero_add, e2 j hj]; ring
  have hT : ∀ k w o, slkSum (qp.dim.nb k + qp.dim.ng k) (qp.idxs_rev k) w o = slkT qp k w o := fun k w o => rfl
  have hTc : ∀ k w w' o, (∀ j, j < qp.dim.nb k + qp.dim.ng k → w j = w' j) → slkT qp k w o = slkT qp k w' o := by
    intro k w w' o h
    unfold slkT
    apply sum_congr rfl
    intro j hj
    rw [h j (mem_range.mp hj)]
  -- values of the expanded vectors
  have hexp : ∀ k, k ≤ N → (∀ i, i < qp.dim.nu k + qp.dim.nx k → u4 k i = st.ux k i) ∧
      (∀ i, i < qp.dim.ns k → u4 k (qp.dim.nu k + qp.dim.nx k + i) =
        -(st.Zs k i) * (st.ux k (qp.dim.nu k + qp.dim.nx k + i) + slkT qp k (fun j => G k j * cval qp k (st.ux k) j) i)) ∧
      (∀ i, i < qp.dim.ns k → u4 k (qp.dim.nu k + qp.dim.nx k + qp.dim.ns k + i) =
        -(st.Zs k (qp.dim.ns k + i)) * (st.ux k (qp.dim.nu k + qp.dim.nx k + qp.dim.ns k + i) -
          slkT qp k (fun j => G k (qp.dim.nb k + qp.dim.ng k + j) * cval qp k (st.ux k) j) i)) ∧
      (∀ j, j < nct qp.dim k → t4 k j = wval qp u4 k j) := by
    intro k hk
    have hir := hir_of_wf hwf hk
    by_cases hs : qp.dim.ns k > 0
    · have e1 : u4 k = (ex k).1 := if_pos ⟨hlt k hk, hs⟩
      have e2 : t4 k = (ex k).2 := if_pos ⟨hlt k hk, hs⟩
      obtain ⟨h1, h2, h3, h4, h5⟩ := expandSlacks_val (qp.dim.nb k + qp.dim.ng k) (qp.dim.ns k) (qp.dim.nu k + qp.dim.nx k)
        (qp.idxs_rev k) (G k) (st.Zs k) (st.ux k) (t3 k) hir
      have h2' : ∀ i, i < qp.dim.nu k + qp.dim.nx k → u4 k i = st.ux k i := fun i hi => by rw [e1]; exact h2 i hi
      refine ⟨h2', fun i hi => ?_, fun i hi => ?_, fun j hj => ?_⟩
      · rw [e1]
        have := h1 i (by omega)
        rw [if_pos hi, hT] at this
        rw [hex]
        rw [this, hTc k _ (fun j => G k j * cval qp k (st.ux k) j) i (fun j hj => by rw [(ht3v k j hk hj).1])]
      · rw [e1]
        have := h1 (qp.dim.ns k + i) (by omega)
        rw [if_neg (by omega), hT, Nat.add_sub_cancel_left, ← add_assoc] at this
        rw [hex]
        rw [this, hTc k _ (fun j => (-1) * (G k (qp.dim.nb k + qp.dim.ng k + j) * cval qp k (st.ux k) j)) i
          (fun j hj => by rw [(ht3v k j hk hj).2]; ring)]
        have e : slkT qp k (fun j => (-1) * (G k (qp.dim.nb k + qp.dim.ng k + j) * cval qp k (st.ux k) j)) i =
            - slkT qp k (fun j => G k (qp.dim.nb k + qp.dim.ng k + j) * cval qp k (st.ux k) j) i := by
          unfold slkT
          rw [← sum_neg_distrib]
          apply sum_congr rfl
          intro j _
          split_ifs <;> ring
        rw [e]; ring
      · rw [e2]
        unfold nct at hj
        simp only [wval]
        rw [cval_congr' qp hwf k hk (u4 k) (st.ux k) h2' j, cval_congr' qp hwf k hk (u4 k) (st.ux k) h2' (j - (qp.dim.nb k + qp.dim.ng k))]
        by_cases hj1 : j < qp.dim.nb k + qp.dim.ng k
        · rw [if_pos hj1]
          have := h3 j hj1
          rw [(ht3v k j hk hj1).1] at this
          rw [hex, this, slk, e1]
          congr 1
          by_cases hm : qp.idxs_rev k j = -1
          · simp [hm]
          · simp [hm, hex]
        · rw [if_neg hj1]
          by_cases hj2 : j < 2 * (qp.dim.nb k + qp.dim.ng k)
          · rw [if_pos hj2]
            obtain ⟨i, rfl⟩ := Nat.exists_eq_add_of_le (Nat.le_of_not_lt hj1)
            have := h4 i (by omega)
            rw [(ht3v k i hk (by omega)).2] at this
            rw [hex, this, slk, e1, Nat.add_sub_cancel_left]
            congr 1
            by_cases hm : qp.idxs_rev k i = -1
            · simp [hm]
            · simp [hm, hex]
          · rw [if_neg hj2]
            obtain ⟨i, rfl⟩ := Nat.exists_eq_add_of_le (Nat.le_of_not_lt hj2)
            have := h5 i (by omega)
            rw [hex, this, e1, Nat.add_sub_cancel_left]
    · have hs' : ¬ (k < N + 1 ∧ qp.dim.ns k > 0) := fun h => hs h.2
      have e1 : u4 k = st.ux k := if_neg hs'
      have e2 : t4 k = t3 k := if_neg hs'
      refine ⟨fun i _ => by rw [e1], fun i hi => by omega, fun i hi => by omega, fun j hj => ?_⟩
      unfold nct at hj
      have hir' : ∀ j, j < qp.dim.nb k + qp.dim.ng k → qp.idxs_rev k j = -1 := by
        intro j hj
        rcases hir j hj with h | h
        · exact h
        · omega
      simp only [wval]
      rw [e1, e2]
      by_cases hj1 : j < qp.dim.nb k + qp.dim.ng k
      · rw [if_pos hj1, (ht3v k j hk hj1).1, slk, if_pos (hir' j hj1), add_zero]
      · rw [if_neg hj1, if_pos (by omega)]
        obtain ⟨i, rfl⟩ := Nat.exists_eq_add_of_le (Nat.le_of_not_lt hj1)
        rw [(ht3v k i hk (by omega)).2, Nat.add_sub_cancel_left, slk, if_pos (hir' i (by omega)), add_zero]
  have hin : ∀ k j, k ≤ N → j < nct qp.dim k → stOff (nct qp.dim) k + j < c.nc := by
    intro k j hk hj
    rw [hnc]
    have := stOff_mono (nct qp.dim) (show k + 1 ≤ N + 1 by omega)
    simp only [stOff] at this ⊢; omega
  refine ⟨rfl, rfl, rfl, rfl, rfl, rfl, rfl, fun k i hk hi => (hexp k hk).1 i hi, fun k i hk hi => (hexp k hk).2.1 i hi,
    fun k i hk hi => (hexp k hk).2.2.1 i hi, fun k j hk hj => ?_, fun k j hk hj => ?_⟩
  · obtain ⟨_, h2⟩ := computeLamT_val (stFlat (nct qp.dim) qp.d (N + 1)) (stFlat (nct qp.dim) qp.m (N + 1))
      (stFlat (nct qp.dim) st.lam (N + 1)) (stFlat (nct qp.dim) t4 (N + 1)) c (stOff (nct qp.dim) k + j)
    rw [if_pos (hin k j hk hj), stFlat_at _ _ _ _ _ (hlt k hk) hj, stFlat_at _ _ _ _ _ (hlt k hk) hj, (hexp k hk).2.2.2 j hj] at h2
    exact h2
  · obtain ⟨h1, _⟩ := computeLamT_val (stFlat (nct qp.dim) qp.d (N + 1)) (stFlat (nct qp.dim) qp.m (N + 1))
      (stFlat (nct qp.dim) st.lam (N + 1)) (stFlat (nct qp.dim) t4 (N + 1)) c (stOff (nct qp.dim) k + j)
    rw [if_pos (hin k j hk hj), stFlat_at _ _ _ _ _ (hlt k hk) hj, stFlat_at _ _ _ _ _ (hlt k hk) hj, stFlat_at _ _ _ _ _ (hlt k hk) hj,
      (hexp k hk).2.2.2 j hj] at h1
    exact h1

end
end Hpipm
