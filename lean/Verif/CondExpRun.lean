/-
Expansion of the solution of a partially condensed problem (cond/x_part_cond.c:784-862).
-/
import Verif.CondAdj

namespace Hpipm
open Finset
set_option linter.unusedSectionVars false

section
variable {K : Type*} [Field K] [LinearOrder K] [IsStrictOrderedRing K]

/-- the aliased solution of a block: pointers advanced by `s` (x_part_cond.c:837-841) -/
def shiftSol (sol : Sol K) (s : ℕ) : Sol K :=
  ⟨fun k => sol.ux (s + k), fun k => sol.pi (s + k), fun k => sol.lam (s + k), fun k => sol.t (s + k)⟩

/-- the aliased solution shares the memory of the caller's one -/
def pasteSol (sol : Sol K) (s : ℕ) (r : Sol K) : Sol K :=
  ⟨fun k => if s ≤ k then r.ux (k - s) else sol.ux k, fun k => if s ≤ k then r.pi (k - s) else sol.pi k,
   fun k => if s ≤ k then r.lam (k - s) else sol.lam k, fun k => if s ≤ k then r.t (k - s) else sol.t k⟩

/-- variables of PART_COND_QP_EXPAND_SOL -/
structure PeSt (K : Type*) where
  ws : ℕ → CondWs K
  sol : Sol K
  N_tmp : ℕ

/-- body of the loop of PART_COND_QP_EXPAND_SOL, x_part_cond.c:806-849 -/
def partExpStep (P : OcpQp K) (sol2 : Sol K) (args : ℕ → CondArg) (bs : ℕ → ℕ) (ii : ℕ) (s : PeSt K) : PeSt K :=
  let r := expandSol (blockQp P s.N_tmp (bs ii)) (args ii) (s.ws ii) ⟨sol2.ux ii, sol2.pi ii, sol2.lam ii, sol2.t ii⟩ (shiftSol s.sol s.N_tmp)
  { ws := upd s.ws ii r.1, sol := pasteSol s.sol s.N_tmp r.2, N_tmp := s.N_tmp + bs ii }

/-- PART_COND_QP_EXPAND_SOL, x_part_cond.c:784-862 (`N2` is the horizon of the condensed solution) -/
def partCondExpand (P : OcpQp K) (N2 : ℕ) (sol2 sol : Sol K) (args : ℕ → CondArg) (ws : ℕ → CondWs K) (bs : ℕ → ℕ) : PeSt K :=
  loop (N2 + 1) (partExpStep P sol2 args bs) ⟨ws, sol, 0⟩

/-! ### proof -/

theorem stageOf_kept (qp : OcpQp K) (m : ℕ) (B R : ℕ → Mat K) (h : LowKept qp B R) (N : ℕ) (v : Vec K) (k j : ℕ) :
    stageOf { qp with dim := { qp.dim with N := m }, BAbt := B, RSQrq := R } N v k j = stageOf qp N v k j := by
  unfold stageOf
  rw [roll_kept qp m B R h N v k]
  rfl

theorem lowKept_refl (qp : OcpQp K) : LowKept qp qp.BAbt qp.RSQrq := ⟨fun _ _ _ _ => rfl, fun _ _ _ _ _ => rfl⟩

theorem stageOf_block (P : OcpQp K) (s bs N : ℕ) (v : Vec K) (k j : ℕ) :
    stageOf (blockQp P s bs) N v k j = stageOf (shiftQp P s) N v k j :=
  stageOf_kept (shiftQp P s) bs _ _ (lowKept_refl _) N v k j

theorem xGrad_st (qp : OcpQp K) {ux pi lam ux' pi' lam' : ℕ → Vec K} {dyn : Bool} {k i : ℕ} (h1 : ux' k = ux k) (h2 : dyn = true → pi' k = pi k)
    (h3 : lam' k = lam k) : xGrad qp ux' pi' lam' dyn k i = xGrad qp ux pi lam dyn k i := by
  rw [xGrad_congr qp ux' pi' pi lam' dyn k i h2]
  unfold xGrad
  rw [h1, h3]

/-- the content of `Expanded` only depends on the stages of the block -/
theorem Expanded.self {qp : OcpQp K} {N : ℕ} {cls : Bool} {ds : DSol K} {sol sol' sol'' : Sol K} (h : Expanded qp N cls ds sol sol')
    (hN : qp.dim.N ≤ N + 1) (hc : cls = true → N = qp.dim.N)
    (h1 : ∀ k, k ≤ N → sol''.ux k = sol'.ux k) (h2 : ∀ k, k < qp.dim.N → sol''.pi k = sol'.pi k)
    (h3 : ∀ k, k ≤ N → sol''.lam k = sol'.lam k) (h4 : ∀ k, k ≤ N → sol''.t k = sol'.t k) : Expanded qp N cls ds sol'' sol'' := by
  refine ⟨fun k j hk hj => ?_, fun k j hk hj => ?_, fun k j hk hj => ?_, fun k i hk hi => ?_, fun h0 i hi => ?_, fun _ _ => rfl, fun _ _ => rfl,
    fun _ _ => rfl, fun _ _ => rfl⟩
  · rw [h1 k hk]; exact h.ux k j hk hj
  · rw [h3 k hk]; exact h.lam k j hk hj
  · rw [h4 k hk]; exact h.t k j hk hj
  · rw [h2 k (by omega), xGrad_st qp (h1 _ (by omega)) (fun _ => h2 _ hk) (h3 _ (by omega))]
    exact h.pi k i hk hi
  · rw [h2 _ (by omega), h.last h0 i hi]
    by_cases hcl : cls = false
    · rw [if_pos hcl, if_pos hcl]
    · rw [if_neg hcl, if_neg hcl]
      have := hc (by simpa using hcl)
      rw [xGrad_st qp (h1 _ (by omega)) (fun h => by simp at h) (h3 _ (by omega))]

theorem shift_put (sol : Sol K) (s : ℕ) (r : Sol K) : shiftSol (pasteSol sol s r) s = r := by
  unfold shiftSol pasteSol
  simp

/-- block `ii` of the solution has been expanded -/
def BlkExp (P : OcpQp K) (sol2 : Sol K) (bs : ℕ → ℕ) (N2 : ℕ) (sol : Sol K) (ii : ℕ) : Prop :=
  Expanded (blockQp P (stOff bs ii) (bs ii)) (blkLen bs N2 ii - 1) (decide (ii = N2)) ⟨sol2.ux ii, sol2.pi ii, sol2.lam ii, sol2.t ii⟩
    (shiftSol sol (stOff bs ii)) (shiftSol sol (stOff bs ii))

/-- block lengths and options for the expansion -/
structure PeOk (args : ℕ → CondArg) (bs : ℕ → ℕ) (N2 : ℕ) : Prop where
  pos : ∀ ii, ii < N2 → 0 < bs ii
  mid : ∀ ii, ii < N2 → (args ii).cond_last_stage = false
  last : (args N2).cond_last_stage = true
  prim : ∀ ii, ii ≤ N2 → (args ii).comp_prim_sol ≠ 0
  eq : ∀ ii, ii ≤ N2 → (args ii).comp_dual_sol_eq ≠ 0
  ineq : ∀ ii, ii ≤ N2 → (args ii).comp_dual_sol_ineq ≠ 0

theorem partExp_inv (P : OcpQp K) (N2 : ℕ) (sol2 sol : Sol K) (args : ℕ → CondArg) (ws : ℕ → CondWs K) (bs : ℕ → ℕ) (h : PeOk args bs N2) :
    (∀ ii, ii ≤ N2 → BlkExp P sol2 bs N2 (partCondExpand P N2 sol2 sol args ws bs).sol ii) := by
  suffices key : (partCondExpand P N2 sol2 sol args ws bs).N_tmp = stOff bs (N2 + 1) ∧
      ∀ ii, ii < N2 + 1 → BlkExp P sol2 bs N2 (partCondExpand P N2 sol2 sol args ws bs).sol ii from
    fun ii hi => key.2 ii (by omega)
  unfold partCondExpand
  refine loop_inv (fun n (s : PeSt K) => s.N_tmp = stOff bs n ∧ ∀ ii, ii < n → BlkExp P sol2 bs N2 s.sol ii) _ _ _ ?_ ?_
  · exact ⟨rfl, fun ii h => by omega⟩
  · rintro n s hn ⟨I1, I2⟩
    unfold partExpStep
    dsimp only
    rw [I1]
    refine ⟨(stOff_succ bs n).symm, fun ii hi => ?_⟩
    have htop : condTop (blockQp P (stOff bs n) (bs n)).dim.N (args n) = some (blkLen bs N2 n - 1) := by
      show condTop (bs n) (args n) = _
      unfold condTop blkLen
      by_cases hh : n = N2
      · subst hh; rw [if_pos h.last, if_pos rfl]; rfl
      · have := h.pos n (by omega)
        rw [if_neg (by rw [h.mid n (by omega)]; simp), if_neg (by omega), if_neg hh]
    have hcls : (args n).cond_last_stage = decide (n = N2) := by
      by_cases hh : n = N2
      · subst hh; rw [h.last]; simp
      · rw [h.mid n (by omega)]; simp [hh]
    have E := expandSol_val (blockQp P (stOff bs n) (bs n)) (args n) (s.ws n) ⟨sol2.ux n, sol2.pi n, sol2.lam n, sol2.t n⟩
      (shiftSol s.sol (stOff bs n)) _ htop (h.prim n (by omega)) (h.eq n (by omega)) (h.ineq n (by omega))
    rw [hcls] at E
    generalize (expandSol (blockQp P (stOff bs n) (bs n)) (args n) (s.ws n) ⟨sol2.ux n, sol2.pi n, sol2.lam n, sol2.t n⟩ (shiftSol s.sol (stOff bs n))).2 = r at E
    have side : ∀ ii, ii ≤ N2 → (blockQp P (stOff bs ii) (bs ii)).dim.N ≤ (blkLen bs N2 ii - 1) + 1 ∧
        (decide (ii = N2) = true → blkLen bs N2 ii - 1 = (blockQp P (stOff bs ii) (bs ii)).dim.N) := by
      intro ii hi
      show bs ii ≤ _ ∧ (_ → _ = bs ii)
      unfold blkLen
      by_cases hh : ii = N2
      · rw [if_pos hh]; omega
      · rw [if_neg hh]; simp only [hh, decide_false, Bool.false_eq_true, false_implies, and_true]; omega
    by_cases hh : ii = n
    · subst hh
      unfold BlkExp
      rw [shift_put]
      exact E.self (side ii (by omega)).1 (side ii (by omega)).2 (fun _ _ => rfl) (fun _ _ => rfl) (fun _ _ => rfl) (fun _ _ => rfl)
    · have hlt : ii < n := by omega
      have hle := stOff_add_le bs hlt
      have hl : blkLen bs N2 ii = bs ii := if_neg (by omega)
      have hb := h.pos ii (by omega)
      refine (I2 ii hlt).self (side ii (by omega)).1 (side ii (by omega)).2 ?_ ?_ ?_ ?_ <;> intro k hk
      · exact if_neg (by omega)
      · have : k < bs ii := hk
        exact if_neg (by omega)
      · exact if_neg (by omega)
      · exact if_neg (by omega)

theorem solExpands_of_blocks {P P2 : OcpQp K} {bs : ℕ → ℕ} {sol2 sol : Sol K} (hs : stOff bs (P2.dim.N + 1) = P.dim.N)
    (hpos : ∀ ii, ii < P2.dim.N → 0 < bs ii)
    (h : ∀ ii, ii ≤ P2.dim.N → BlkExp P sol2 bs P2.dim.N sol ii) : SolExpands P P2 (blkLen bs P2.dim.N) sol2 sol := by
  have hoff := stOff_blkLen bs P2.dim.N
  refine ⟨fun ii l j hi hl hj => ?_, fun ii l j hi hl hj => ?_, fun ii l j hi hl hj => ?_, fun ii l i hi hl hx => ?_, fun ii i hi hx => ?_⟩
  · rw [hoff ii hi] at hj ⊢
    have := (h ii hi).ux l j (by omega) hj
    rw [stageOf_block] at this
    exact this
  · rw [hoff ii hi] at hj ⊢
    exact (h ii hi).lam l j (by omega) hj
  · rw [hoff ii hi] at hj ⊢
    exact (h ii hi).t l j (by omega) hj
  · rw [hoff ii hi] at hx ⊢
    by_cases hh : ii = P2.dim.N
    · have hl' : l < bs ii := by unfold blkLen at hl; rw [if_pos hh] at hl; omega
      have hsum : stOff bs ii + bs ii = P.dim.N := by rw [← hs, stOff_succ, hh]
      by_cases hlast : l + 1 < bs ii
      · rw [show decide (stOff bs ii + (l + 1) < P.dim.N) = true by simp; omega]
        exact (h ii hi).pi l i hlast hx
      · have e : bs ii = l + 1 := by omega
        rw [show decide (stOff bs ii + (l + 1) < P.dim.N) = false by simp; omega]
        have := (h ii hi).last (show 0 < bs ii by omega) i (show i < P.dim.nx (stOff bs ii + bs ii) by rw [e]; exact hx)
        rw [if_neg (by simp [hh])] at this
        have e2 : (blockQp P (stOff bs ii) (bs ii)).dim.N = l + 1 := e
        rw [e2] at this
        exact this
    · have hl' : l + 1 < bs ii := by unfold blkLen at hl; rw [if_neg hh] at hl; exact hl
      have hle : stOff bs ii + bs ii ≤ P.dim.N := by rw [← hs]; exact stOff_add_le bs (by omega)
      rw [show decide (stOff bs ii + (l + 1) < P.dim.N) = true by simp; omega]
      exact (h ii hi).pi l i hl' hx
  · rw [hoff (ii + 1) (by omega)] at hx
    rw [hoff ii (by omega)]
    have hl : blkLen bs P2.dim.N ii = bs ii := if_neg (by omega)
    rw [hl]
    have := (h ii (by omega)).last (hpos ii hi) i (by rw [stOff_succ] at hx; exact hx)
    rw [if_pos (by simp; omega)] at this
    exact this

theorem hmul_kept (qp : OcpQp K) (B R : ℕ → Mat K) (h : LowKept qp B R) (v : Vec K) (k i : ℕ) (hi : i < qp.dim.nu k + qp.dim.nx k) :
    hmul { qp with BAbt := B, RSQrq := R } k v i = hmul qp k v i := by
  unfold hmul
  refine sum_congr rfl fun j hj => ?_
  have hj : j < qp.dim.nu k + qp.dim.nx k := mem_range.mp hj
  congr 1
  show symL (R k) 0 0 i j = symL (qp.RSQrq k) 0 0 i j
  unfold symL
  simp only [zero_add]
  by_cases hji : j ≤ i
  · rw [if_pos hji, if_pos hji]; exact h.rs k i j hi hji
  · rw [if_neg hji, if_neg hji]; exact h.rs k j i hj (by omega)

/-- an expansion computed with the matrices left by condensing is an expansion for the caller's data -/
theorem solExpands_kept {P P2 : OcpQp K} {len : ℕ → ℕ} {sol2 sol : Sol K} (B R : ℕ → Mat K) (hk : LowKept P B R)
    (E : SolExpands { P with BAbt := B, RSQrq := R } P2 len sol2 sol) : SolExpands P P2 len sol2 sol := by
  refine ⟨fun ii l j hi hl hj => ?_, E.lam, E.t, fun ii l i hi hl hx => ?_, E.out⟩
  · refine (E.ux ii l j hi hl hj).trans ?_
    exact stageOf_kept (shiftQp P (stOff len ii)) _ _ _ ⟨fun k r i hr => hk.ba _ r i hr, fun k r c hr hc => hk.rs _ r c hr hc⟩ _ _ _ _
  · refine (E.inn ii l i hi hl hx).trans ?_
    show hmul { P with BAbt := B, RSQrq := R } _ _ _ + _ + _ + (if _ then ∑ j ∈ range (P.dim.nx (stOff len ii + (l + 1) + 1)), B (stOff len ii + (l + 1)) _ j * _ else 0) = _
    rw [hmul_kept P B R hk _ _ _ (by show P.dim.nu _ + i < _; omega)]
    unfold xGrad
    congr 1
    by_cases hd : decide (stOff len ii + (l + 1) < P.dim.N) = true
    · rw [if_pos hd, if_pos hd]
      exact sum_congr rfl fun j _ => by rw [hk.ba _ _ _ (by show P.dim.nu _ + i < _; omega)]
    · rw [if_neg hd, if_neg hd]

end
end Hpipm
