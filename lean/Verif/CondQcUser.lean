/-
C101: condensing of the quadratic constraints, in the user's terms.

Specification.  The user's quadratic constraint `j` of stage `k` is `(qview Q).form + linear ≤ uq` (QcqpSpec.lean); `stageOf Q.inner N v k` is the
trajectory that the condensed variables `v` generate (CondSpec.lean).  A quadratic constraint of the condensed problem at position `q` is
`condQcForm … q v ≤ -d[upper side of q]`.
-/
import Verif.CondQcProps
import Verif.CondFull

namespace Hpipm
open Finset
set_option linter.unusedSectionVars false

section
variable {K : Type*} [Field K]

/-- the left-hand side of quadratic constraint `q` of the condensed problem at `v`: `1/2 v'Hq v + c'v` (dense_qp/x_dense_qcqp_res.c) -/
def condQcForm (D : QpDim) (N : ℕ) (t : QcSt K) (q : ℕ) (v : Vec K) : K :=
  1 / 2 * symQ (t.Hq2 q) (qcNvc D N) v + ∑ i ∈ range (qcNvc D N), t.Ct2 i (qcNgc D N + q) * v i

theorem qForm_symQ (Q : Qcqp K) (k j : ℕ) (x : Vec K) : qForm Q k j x = 1 / 2 * symQ (Q.Hq k j) (Q.base.dim.nu k + Q.base.dim.nx k) x := by
  unfold qForm symQ hqMul
  congr 1
  refine sum_congr rfl fun i _ => ?_
  rw [sum_mul]
  exact sum_congr rfl fun l _ => by ring

theorem qcOff_later (nu : ℕ → ℕ) {N k : ℕ} (h : k ≤ N) : qcOff nu N k = later nu N k := by
  have := later_add_sumTo nu h
  unfold qcOff
  omega

theorem qcPos_later (nq : ℕ → ℕ) {N k : ℕ} (h : k ≤ N) : qcPos nq N k = later nq N k := by
  have := later_add_sumTo nq h
  unfold qcPos
  omega

end

section
variable {K : Type*} [Field K] [LinearOrder K] [IsStrictOrderedRing K]

/-- what the condensed constraint of a constraint of a stage `k>0` says, for all condensed variables: the quadratic part of the user's
constraint at the generated trajectory is the condensed left-hand side, plus a constant by which the right-hand side has been corrected,
plus the product of `S` with the states generated by zero inputs and zero initial state, which the code does not add -/
theorem condQc_value (Q : Qcqp K) (nz : ℕ → ℕ → ℕ) (arg : CondArg) (ws : CondWs K) (tg : CondTgt K) (N k j : ℕ) (s : QcSt K)
    (hk0 : 0 < k) (hk : k ≤ N) (hN : N ≤ Q.base.dim.N) (hj : j < Q.nq k) (hs : s.Hq = Q.Hq)
    (hf : QcFlags (Q.Hq k j) (Q.base.dim.nu k) (Q.base.dim.nx k) (nz k j)) :
    let r := (condBabt Q.inner arg ws tg).1
    let t := condQc Q nz r.Gamma r.Gammab N s
    let q := later Q.nq N k + j
    ∃ rho : K,
      t.d2 (qcNbc Q.base.dim N + qcNgc Q.base.dim N + q) = s.d2 (qcNbc Q.base.dim N + qcNgc Q.base.dim N + q) - rho ∧
      t.d2 (2 * qcNbc Q.base.dim N + 2 * qcNgc Q.base.dim N + qcNqc Q.nq N + q)
        = s.d2 (2 * qcNbc Q.base.dim N + 2 * qcNgc Q.base.dim N + qcNqc Q.nq N + q) + rho ∧
      ∀ v : Vec K, (qview Q).form (ptOf Q.inner.dim (stageOf Q.inner N v)) k j =
        condQcForm Q.base.dim N t q v + rho
        + ∑ i ∈ range (Q.base.dim.nu k), (∑ l ∈ range (Q.base.dim.nx k), (qview Q).Sq k j i l * roll Q.inner N (fun _ => 0) k l)
            * v (later Q.base.dim.nu N k + i) := by
  intro r t q
  have hq : q = qcPos Q.nq N k + j := by rw [qcPos_later Q.nq hk]
  have ho := qcOff_later Q.base.dim.nu hk
  have hn := qc_sizes Q hk
  obtain ⟨hd, hrow⟩ := condBabt_dyn Q.inner arg ws tg (show 0 < Q.base.dim.N by omega)
  obtain ⟨⟨M, GQ, hM, hGQ, hH, hC, rho, hrho, hlo, hup⟩, -⟩ := (condQc_done Q nz r.Gamma r.Gammab N k j s hk0 hk hj hs).1
  refine ⟨rho, by rw [hq]; exact hlo, by rw [hq]; exact hup, fun v => ?_⟩
  have esem : ∀ w l, l < Q.base.dim.nx k → roll Q.inner N w k l
      = (∑ i ∈ range (sumTo Q.base.dim.nu k + Q.base.dim.nx 0), r.Gamma (k - 1) i l * w (qcOff Q.base.dim.nu N k + Q.base.dim.nu k + i)) + r.Gammab (k - 1) l := by
    intro w l hl
    obtain ⟨k', rfl⟩ : ∃ k', k = k' + 1 := ⟨k - 1, by omega⟩
    have := dyn_sem hd (show Q.inner.dim.N ≤ Q.inner.dim.N + 1 by omega) w k' l (show k' < Q.base.dim.N by omega) hl
    have := dyn_sem (N := N) (n := k' + 1) (qp := Q.inner) (Gamma := r.Gamma) (Gammab := r.Gammab)
      ⟨fun h => hd.z (show 0 < Q.base.dim.N by omega), fun h => hd.zb (show 0 < Q.base.dim.N by omega),
        fun a b c h => hd.u a b c (show a + 1 < Q.base.dim.N by omega), fun a b c h => hd.x a b c (show a + 1 < Q.base.dim.N by omega),
        fun a b h => hd.b a b (show a + 1 < Q.base.dim.N by omega)⟩ (by omega) w k' l (by omega) hl
    rw [this]
    have e : later Q.inner.dim.nu N k' = qcOff Q.base.dim.nu N (k' + 1) + Q.base.dim.nu (k' + 1) := by
      rw [ho, later_succ _ (show k' < N by omega)]
      exact add_comm _ _
    rw [e]
    rfl
  have e0 : ∀ l, l < Q.base.dim.nx k → roll Q.inner N (fun _ => 0) k l = r.Gammab (k - 1) l := fun l hl => by
    rw [esem _ l hl]; simp
  have A := qc_alg (K := K) (qcNvc Q.base.dim N) (sumTo Q.base.dim.nu k + Q.base.dim.nx 0) (qcOff Q.base.dim.nu N k) (Q.base.dim.nu k) (Q.base.dim.nx k)
    (nz k j) (r.Gamma (k - 1)) GQ M (Q.Hq k j) (s.Hq2 (qcPos Q.nq N k + j)) (r.Gammab (k - 1)) v (stageOf Q.inner N v k) hn hf hM hGQ
    (fun l hl => by
      have := hrow (k - 1) l (show k - 1 < Q.base.dim.N by omega) (by rw [show k - 1 + 1 = k by omega]; exact hl)
      rw [show k - 1 + 1 = k by omega] at this
      exact this)
    (fun l hl => by
      rw [← esem v l hl]
      unfold stageOf
      rw [if_neg (by show ¬ Q.base.dim.nu k + l < Q.base.dim.nu k; omega), if_pos (by show Q.base.dim.nu k + l < Q.base.dim.nu k + Q.base.dim.nx k; omega)]
      congr 1
      show Q.base.dim.nu k + l - Q.base.dim.nu k = l
      omega)
    (fun i hi => by
      unfold stageOf
      rw [if_pos (show i < Q.inner.dim.nu k from hi), ho]
      rfl)
  rw [form_packed, qForm_symQ, A, ← hrho, ← hH]
  have e1 : ∑ i ∈ range (qcNvc Q.base.dim N), t.Ct2 i (qcNgc Q.base.dim N + q) * v i
      = ∑ i ∈ range (sumTo Q.base.dim.nu k + Q.base.dim.nx 0), t.Hq2 (qcPos Q.nq N k + j) (qcNvc Q.base.dim N) (qcOff Q.base.dim.nu N k + Q.base.dim.nu k + i)
          * v (qcOff Q.base.dim.nu N k + Q.base.dim.nu k + i) := by
    refine col_shift (qcNvc Q.base.dim N) (qcOff Q.base.dim.nu N k + Q.base.dim.nu k) _ hn
      (fun i => t.Ct2 i (qcNgc Q.base.dim N + q)) _ v (fun i hi => ?_) (fun i hi => ?_)
    · rw [hq, hC i (by omega), if_neg (by omega)]
    · rw [hq, hC _ (by omega), if_pos (by omega)]
  have e2 : ∑ i ∈ range (Q.base.dim.nu k), (∑ l ∈ range (Q.base.dim.nx k), (qview Q).Sq k j i l * roll Q.inner N (fun _ => 0) k l) * v (later Q.base.dim.nu N k + i)
      = ∑ i ∈ range (Q.base.dim.nu k), (∑ l ∈ range (Q.base.dim.nx k), Q.Hq k j (Q.base.dim.nu k + l) i * r.Gammab (k - 1) l) * v (qcOff Q.base.dim.nu N k + i) := by
    refine sum_congr rfl fun i _ => ?_
    rw [ho]
    congr 1
    exact sum_congr rfl fun l hl => by rw [e0 l (mem_range.mp hl)]; rfl
  unfold condQcForm
  rw [e1, e2, hq]

/-- the condensed constraint is the user's constraint when it has no linear part and `S` times the response to zero inputs vanishes (no `S`, or no
affine term in the dynamics): the two sides differ by the same amount, so the constraint holds (or is active, or violated by so much) for the one
iff it does for the other -/
theorem condQc_exact (Q : Qcqp K) (nz : ℕ → ℕ → ℕ) (arg : CondArg) (ws : CondWs K) (tg : CondTgt K) (N k j : ℕ) (s : QcSt K)
    (hk0 : 0 < k) (hk : k ≤ N) (hN : N ≤ Q.base.dim.N) (hj : j < Q.nq k) (hs : s.Hq = Q.Hq)
    (hf : QcFlags (Q.Hq k j) (Q.base.dim.nu k) (Q.base.dim.nx k) (nz k j))
    (hlr : ∀ i, i < Q.base.dim.nu k → (qview Q).rq k j i = 0) (hlq : ∀ i, i < Q.base.dim.nx k → (qview Q).qq k j i = 0)
    (hS : ∀ i, i < Q.base.dim.nu k → ∑ l ∈ range (Q.base.dim.nx k), (qview Q).Sq k j i l * roll Q.inner N (fun _ => 0) k l = 0)
    (hd : s.d2 (2 * qcNbc Q.base.dim N + 2 * qcNgc Q.base.dim N + qcNqc Q.nq N + (later Q.nq N k + j)) = - (qview Q).uq k j) (v : Vec K) :
    let r := (condBabt Q.inner arg ws tg).1
    let t := condQc Q nz r.Gamma r.Gammab N s
    let q := later Q.nq N k + j
    (qview Q).uq k j - (qview Q).qvalue (ptOf Q.inner.dim (stageOf Q.inner N v)) k j
      = - t.d2 (2 * qcNbc Q.base.dim N + 2 * qcNgc Q.base.dim N + qcNqc Q.nq N + q) - condQcForm Q.base.dim N t q v := by
  intro r t q
  obtain ⟨rho, -, hup, h⟩ := condQc_value Q nz arg ws tg N k j s hk0 hk hN hj hs hf
  have hz : (qview Q).qvalue (ptOf Q.inner.dim (stageOf Q.inner N v)) k j = (qview Q).form (ptOf Q.inner.dim (stageOf Q.inner N v)) k j := by
    unfold UserQcqp.qvalue
    have a1 : ∀ f : ℕ → K, ∑ i ∈ range ((qview Q).base.nu k), (qview Q).rq k j i * f i = 0 := fun f =>
      sum_eq_zero fun i hi => by rw [hlr i (mem_range.mp hi), zero_mul]
    have a2 : ∀ f : ℕ → K, ∑ i ∈ range ((qview Q).base.nx k), (qview Q).qq k j i * f i = 0 := fun f =>
      sum_eq_zero fun i hi => by rw [hlq i (mem_range.mp hi), zero_mul]
    simp only [a1, a2]
    ring
  rw [hz, h v, hup, hd]
  rw [sum_eq_zero fun i hi => by rw [hS i (mem_range.mp hi), zero_mul]]
  ring

/-- the linear parts of the quadratic constraints, which COND_DCTD has condensed to the columns after the `ng` ones, have no influence on the result -/
theorem condQc_drops_linear (Q : Qcqp K) (nz : ℕ → ℕ → ℕ) (G : ℕ → Mat K) (g : ℕ → Vec K) (N : ℕ) (s : QcSt K) (C : Mat K) (hN : 0 < N)
    (hC : ∀ i c, ¬ (i < qcNvc Q.base.dim N ∧ qcNgc Q.base.dim N ≤ c ∧ c < qcNgc Q.base.dim N + qcNqc Q.nq N) → C i c = s.Ct2 i c) :
    condQc Q nz G g N { s with Ct2 := C } = condQc Q nz G g N s := by
  unfold condQc
  dsimp only
  rw [if_neg (by omega), if_neg (by omega)]
  have : gese (qcNvc Q.base.dim N) (qcNqc Q.nq N) 0 C 0 (qcNgc Q.base.dim N) = gese (qcNvc Q.base.dim N) (qcNqc Q.nq N) 0 s.Ct2 0 (qcNgc Q.base.dim N) := by
    funext i c
    unfold gese
    split_ifs with h
    · rfl
    · exact hC i c (by omega)
  rw [this]

/-- the caller's Hessians keep the lower triangles, which are what the solver reads -/
theorem condQc_keeps (Q : Qcqp K) (nz : ℕ → ℕ → ℕ) (G : ℕ → Mat K) (g : ℕ → Vec K) (N : ℕ) (s : QcSt K) (hs : s.Hq = Q.Hq) (k j i l : ℕ) (h : l ≤ i) :
    (condQc Q nz G g N s).Hq k j i l = Q.Hq k j i l := by
  unfold condQc
  dsimp only
  split_ifs with h0
  · show s.Hq k j i l = _
    rw [hs]
  · refine loop_inv (fun _ t => QcLow Q t) (N + 1) _ _ (fun a b i l _ => by show s.Hq a b i l = _; rw [hs]) (fun n t _ h => ?_) k j i l h
    exact loop_inv (fun _ t => QcLow Q t) (Q.nq n) _ t h (fun m t' _ h' => qcStep_low Q nz G g N n m t' h')

/-! ### the first stage -/

theorem qcFirst_ct (Q : Qcqp K) (nz : ℕ → ℕ → ℕ) (N jj : ℕ) (s : QcSt K) :
    (qcFirst Q nz N jj s).Ct2 = s.Ct2 ∧ (qcFirst Q nz N jj s).d2 = s.d2 ∧ (qcFirst Q nz N jj s).Hq = s.Hq := by
  unfold qcFirst
  dsimp only
  split <;> exact ⟨rfl, rfl, rfl⟩

/-- the matrix the code takes for constraint `j` of stage 0 -/
def qcPick (Q : Qcqp K) (j : ℕ) : Option (Mat K) := if j ≤ Q.base.dim.N then hqFlat Q.nq Q.Hq (Q.base.dim.N + 1) 0 (Q.nq j) else none

theorem qcStage_ub (Q : Qcqp K) (nz : ℕ → ℕ → ℕ) (G : ℕ → Mat K) (g : ℕ → Vec K) (N n : ℕ) (s : QcSt K) (h : s.ub = true) :
    (qcStage Q nz G g N n s).ub = true := by
  refine loop_inv (fun _ t => t.ub = true) (Q.nq n) _ s h (fun m t _ h' => ?_)
  split_ifs
  · unfold qcFirst
    dsimp only
    split
    · rfl
    · exact h'
  · exact h'

/-- stage 0, as far as constraint `j` is concerned -/
theorem qcStage_first (Q : Qcqp K) (nz : ℕ → ℕ → ℕ) (G : ℕ → Mat K) (g : ℕ → Vec K) (N j : ℕ) (s : QcSt K) (hs : s.Hq = Q.Hq) (hj : j < Q.nq 0) :
    let t := qcStage Q nz G g N 0 s
    t.Ct2 = s.Ct2 ∧ t.d2 = s.d2 ∧
    (qcPick Q j = none → t.ub = true) ∧
    (∀ M, qcPick Q j = some M → t.Hq2 (qcPos Q.nq N 0 + j)
      = trcp_l (Q.base.dim.nu 0 + Q.base.dim.nx 0) M 0 0 (gese (qcNvc Q.base.dim N + 1) (qcNvc Q.base.dim N) 0 (s.Hq2 (qcPos Q.nq N 0 + j)) 0 0)
          (qcOff Q.base.dim.nu N 0) (qcOff Q.base.dim.nu N 0)) := by
  intro t
  have I := loop_inv (fun m t => t.Ct2 = s.Ct2 ∧ t.d2 = s.d2 ∧ t.Hq = Q.Hq ∧ (m ≤ j → t.Hq2 (qcPos Q.nq N 0 + j) = s.Hq2 (qcPos Q.nq N 0 + j)) ∧ (j < m → (qcPick Q j = none → t.ub = true) ∧
    (∀ M, qcPick Q j = some M → t.Hq2 (qcPos Q.nq N 0 + j)
      = trcp_l (Q.base.dim.nu 0 + Q.base.dim.nx 0) M 0 0 (gese (qcNvc Q.base.dim N + 1) (qcNvc Q.base.dim N) 0 (s.Hq2 (qcPos Q.nq N 0 + j)) 0 0)
          (qcOff Q.base.dim.nu N 0) (qcOff Q.base.dim.nu N 0))))
    (Q.nq 0) (fun jj s => if 0 = 0 then qcFirst Q nz N jj s else qcLater Q nz G g N 0 jj s) s
    ⟨rfl, rfl, hs, fun _ => rfl, fun h => by omega⟩
    (fun m t' hm ⟨i1, i2, i3, i4, i5⟩ => by
      rw [if_pos rfl]
      obtain ⟨c1, c2, c3⟩ := qcFirst_ct Q nz N m t'
      refine ⟨c1.trans i1, c2.trans i2, c3.trans i3, fun h => ?_, fun h => ?_⟩
      · rw [← i4 (by omega)]
        unfold qcFirst
        dsimp only
        split
        · rfl
        · exact upd_ne _ _ (by omega)
      · by_cases he : m = j
        · subst he
          have e4 := i4 (le_refl _)
          have ep : (if m ≤ Q.base.dim.N then hqFlat Q.nq t'.Hq (Q.base.dim.N + 1) 0 (Q.nq m) else none) = qcPick Q m := by rw [i3]; rfl
          unfold qcFirst
          dsimp only
          rw [ep]
          cases hp : qcPick Q m with
          | none => exact ⟨fun _ => rfl, fun M hM => by cases hM⟩
          | some M =>
            refine ⟨fun h => (by cases h), fun M' hM => ?_⟩
            cases hM
            dsimp only
            rw [upd_same, e4]
        · obtain ⟨u1, u2⟩ := i5 (by omega)
          unfold qcFirst
          dsimp only
          split
          · exact ⟨fun _ => rfl, u2⟩
          · exact ⟨u1, fun M hM => (upd_ne _ _ (by omega)).trans (u2 M hM)⟩)
  exact ⟨I.1, I.2.1, (I.2.2.2.2 hj).1, (I.2.2.2.2 hj).2⟩

theorem loop_ub (Q : Qcqp K) (nz : ℕ → ℕ → ℕ) (G : ℕ → Mat K) (g : ℕ → Vec K) (N : ℕ) (s0 : QcSt K) (n : ℕ)
    (h : (qcStage Q nz G g N 0 s0).ub = true) : (loop (n + 1) (qcStage Q nz G g N) s0).ub = true := by
  induction n with
  | zero => exact h
  | succ n ih => rw [loop_succ]; exact qcStage_ub Q nz G g N _ _ ih

/-- a constraint of stage 0: the Hessian used is the one `nq[j]` positions after the first one (not `j` positions); an access past the array if there is none -/
theorem condQc_first (Q : Qcqp K) (nz : ℕ → ℕ → ℕ) (G : ℕ → Mat K) (g : ℕ → Vec K) (N j : ℕ) (s : QcSt K) (hN : 0 < N) (hj : j < Q.nq 0) (hs : s.Hq = Q.Hq) :
    let t := condQc Q nz G g N s
    let q := later Q.nq N 0 + j
    (qcPick Q j = none → t.ub = true) ∧
    (∀ M, qcPick Q j = some M → ∀ v, condQcForm Q.base.dim N t q v = 1 / 2 * symQ M (Q.base.dim.nu 0 + Q.base.dim.nx 0) (stageOf Q.inner N v 0) ∧
      t.d2 (2 * qcNbc Q.base.dim N + 2 * qcNgc Q.base.dim N + qcNqc Q.nq N + q) = s.d2 (2 * qcNbc Q.base.dim N + 2 * qcNgc Q.base.dim N + qcNqc Q.nq N + q)) := by
  intro t q
  have hq : q = qcPos Q.nq N 0 + j := by rw [qcPos_later Q.nq (by omega)]
  have hlt := qcPos_lt Q.nq (show 0 ≤ N by omega) hj
  set s0 : QcSt K := { s with Ct2 := gese (qcNvc Q.base.dim N) (qcNqc Q.nq N) 0 s.Ct2 0 (qcNgc Q.base.dim N) } with hs0
  have ht : t = loop (N + 1) (qcStage Q nz G g N) s0 := by
    show condQc Q nz G g N s = _
    unfold condQc
    dsimp only
    rw [if_neg (by omega)]
  obtain ⟨f1, f2, f3, f4⟩ := qcStage_first Q nz G g N j s0 hs hj
  have fr : ∀ n, n ≤ N → QcSame Q N q (qcStage Q nz G g N 0 s0) (loop (n + 1) (qcStage Q nz G g N) s0) := by
    intro n
    induction n with
    | zero => intro _; exact ⟨rfl, rfl, fun _ => rfl, rfl, rfl⟩
    | succ n ih =>
      intro hn
      rw [loop_succ]
      refine (ih (by omega)).trans ?_
      refine loop_inv (fun _ t' => QcSame Q N q (loop (n + 1) (qcStage Q nz G g N) s0) t') (Q.nq (n + 1)) _ _ ⟨rfl, rfl, fun _ => rfl, rfl, rfl⟩ (fun m t' hm h => ?_)
      refine h.trans ?_
      rw [hq]
      exact qcStep_frame Q nz G g N _ (n + 1) m t' hn hm hlt (qcPos_ne Q.nq (by omega) hn hj hm (by omega))
  have fN := fr N (le_refl _)
  rw [← ht] at fN
  refine ⟨fun h => by rw [ht]; exact loop_ub Q nz G g N s0 N (f3 h), fun M hM v => ⟨?_, ?_⟩⟩
  · unfold condQcForm
    have z1 : ∑ i ∈ range (qcNvc Q.base.dim N), t.Ct2 i (qcNgc Q.base.dim N + q) * v i = 0 := by
      refine sum_eq_zero fun i hi => ?_
      have hi := mem_range.mp hi
      rw [fN.C, f1]
      show gese _ _ _ _ _ _ _ _ * _ = _
      unfold gese
      rw [if_pos (by omega), zero_mul]
    rw [z1, add_zero, fN.H, hq, f4 M hM]
    congr 1
    have hn : qcNvc Q.base.dim N = qcOff Q.base.dim.nu N 0 + (Q.base.dim.nu 0 + Q.base.dim.nx 0) := by
      have := qc_sizes Q (show 0 ≤ N by omega)
      have e : sumTo Q.base.dim.nu 0 = 0 := rfl
      omega
    generalize s0.Hq2 (qcPos Q.nq N 0 + j) = A
    have hh : ∀ X : Mat K, symQ X (qcNvc Q.base.dim N) v = symQ X (qcOff Q.base.dim.nu N 0 + (Q.base.dim.nu 0 + Q.base.dim.nx 0)) v := fun X => by rw [← hn]
    rw [hh, symQ_split _ (qcOff Q.base.dim.nu N 0) (Q.base.dim.nu 0 + Q.base.dim.nx 0) v]
    have y1 : ∀ i c, i < qcNvc Q.base.dim N → c < qcOff Q.base.dim.nu N 0 →
        trcp_l (Q.base.dim.nu 0 + Q.base.dim.nx 0) M 0 0 (gese (qcNvc Q.base.dim N + 1) (qcNvc Q.base.dim N) 0 A 0 0) (qcOff Q.base.dim.nu N 0) (qcOff Q.base.dim.nu N 0) i c = 0 := by
      intro i c hi hc
      unfold trcp_l
      rw [if_neg (by omega)]
      unfold gese
      rw [if_pos (by omega)]
    have y2 : symQ (trcp_l (Q.base.dim.nu 0 + Q.base.dim.nx 0) M 0 0 (gese (qcNvc Q.base.dim N + 1) (qcNvc Q.base.dim N) 0 A 0 0)
        (qcOff Q.base.dim.nu N 0) (qcOff Q.base.dim.nu N 0)) (qcOff Q.base.dim.nu N 0) v = 0 := by
      unfold symQ
      refine sum_eq_zero fun i hi => sum_eq_zero fun c hc => ?_
      have hi := mem_range.mp hi
      have hc := mem_range.mp hc
      unfold symL
      simp only [Nat.zero_add]
      split_ifs
      · rw [y1 i c (by omega) hc]; ring
      · rw [y1 c i (by omega) hi]; ring
    rw [y2, sum_eq_zero fun i hi => sum_eq_zero fun l hl => by
      rw [y1 _ i (by have := mem_range.mp hl; omega) (mem_range.mp hi)]; ring, mul_zero, add_zero, zero_add]
    refine symQ_congr (fun i c hc hi => ?_) (fun i hi => ?_)
    · unfold trcp_l
      rw [if_pos (by omega)]
      congr 1 <;> omega
    · have ho := qcOff_later Q.base.dim.nu (show 0 ≤ N by omega)
      unfold stageOf
      by_cases h : i < Q.base.dim.nu 0
      · rw [if_pos (show i < Q.inner.dim.nu 0 from h), ho]; rfl
      · rw [if_neg (show ¬ i < Q.inner.dim.nu 0 from h), if_pos (show i < Q.inner.dim.nu 0 + Q.inner.dim.nx 0 from hi)]
        show _ = v (nuAll Q.base.dim N + (i - Q.base.dim.nu 0))
        congr 1
        have e := later_zero_add Q.base.dim.nu N
        unfold nuAll
        rw [← e, ho]
        omega
  · rw [fN.up, f2]

theorem hqFlat_none (nq : ℕ → ℕ) (Hq : ℕ → ℕ → Mat K) (n k : ℕ) (h : ∀ l, k ≤ l → l < k + n → nq l = 0) (p : ℕ) : hqFlat nq Hq n k p = none := by
  induction n generalizing k p with
  | zero => rfl
  | succ n ih =>
    unfold hqFlat
    rw [if_neg (by rw [h k (le_refl _) (by omega)]; omega)]
    exact ih (k + 1) (fun l h1 h2 => h l (by omega) (by omega)) _

/-- when only stage 0 has quadratic constraints, condensing them reads past the array of Hessians -/
theorem condQc_only_first_ub (Q : Qcqp K) (nz : ℕ → ℕ → ℕ) (G : ℕ → Mat K) (g : ℕ → Vec K) (N : ℕ) (s : QcSt K) (hN : 0 < N) (h0 : 0 < Q.nq 0) (hs : s.Hq = Q.Hq)
    (h : ∀ l, 0 < l → l ≤ Q.base.dim.N → Q.nq l = 0) : (condQc Q nz G g N s).ub = true := by
  refine (condQc_first Q nz G g N 0 s hN h0 hs).1 ?_
  unfold qcPick
  rw [if_pos (by omega)]
  unfold hqFlat
  rw [if_neg (by omega), Nat.sub_self]
  exact hqFlat_none _ _ _ _ (fun l h1 h2 => h l (by omega) (by omega)) _

/-! ### positions -/

/-- COND_DCTD puts a quadratic constraint (a general constraint of the QP with `ng+nq` ones) where COND_QCQP_QC takes it iff no earlier stage has
linear general constraints -/
theorem condQc_position (Q : Qcqp K) (N k j : ℕ) (hk : k ≤ N) (hb0 : nBox Q.inner 0 = Q.base.dim.nbu 0 + Q.base.dim.nbx 0) (hg0 : nGen Q.inner 0 = 0)
    (hb : ∀ l, l < N → nBox Q.inner (l + 1) = Q.base.dim.nbu (l + 1)) (hg : ∀ l, l < N → nGen Q.inner (l + 1) = Q.base.dim.nbx (l + 1)) :
    conPos Q.inner N k (Q.base.dim.nb k + (Q.base.dim.ng k + j)) = qcNbc Q.base.dim N + qcNgc Q.base.dim N + (later Q.nq N k + j)
      ↔ ∀ l, l < k → Q.base.dim.ng l = 0 := by
  unfold conPos
  rw [if_neg (by show ¬ Q.base.dim.nb k + (Q.base.dim.ng k + j) < Q.base.dim.nb k; omega)]
  have e1 : nbCond Q.inner N = qcNbc Q.base.dim N := by
    unfold nbCond qcNbc
    rw [sumTo_eq, sum_range_succ', sum_range_succ' Q.base.dim.nbu, hb0]
    rw [sum_congr rfl fun l hl => hb l (mem_range.mp hl)]
    omega
  have e2 : nbgCond Q.inner N = sumTo (fun k => Q.base.dim.nbx (k + 1)) N := by
    unfold nbgCond
    rw [sumTo_eq, sum_range_succ', hg0, sum_congr rfl fun l hl => hg l (mem_range.mp hl)]
    rfl
  have e3 : later Q.inner.dim.ng N k = later Q.base.dim.ng N k + later Q.nq N k := by
    unfold later
    exact sum_add_distrib
  have e4 : Q.base.dim.nb k + (Q.base.dim.ng k + j) - Q.inner.dim.nb k = Q.base.dim.ng k + j := by
    show Q.base.dim.nb k + (Q.base.dim.ng k + j) - Q.base.dim.nb k = _
    omega
  have e5 := later_add_sumTo Q.base.dim.ng hk
  have e6 := sumTo_succ Q.base.dim.ng k
  have e7 : sumTo Q.base.dim.ng k = 0 ↔ ∀ l, l < k → Q.base.dim.ng l = 0 := by
    rw [sumTo_eq, sum_eq_zero_iff]
    simp only [mem_range]
  rw [e1, e2, e3, e4, ← e7]
  unfold qcNgc
  omega

/-! ### the whole routine -/

theorem condBlock_gamma (sq : K → K) (qp : OcpQp K) (arg : CondArg) (ws : CondWs K) (tg : CondTgt K) :
    (condBlock sq qp arg ws tg).2.1.Gamma = (condBabt qp arg ws tg).1.Gamma ∧ (condBlock sq qp arg ws tg).2.1.Gammab = (condBabt qp arg ws tg).1.Gammab := by
  obtain ⟨-, h1, h2, -⟩ := condRsqrq_frame sq qp arg (condBabt qp arg ws tg).1 (condBabt qp arg ws tg).2
  unfold condBlock
  dsimp only
  rw [← h1, ← h2]
  unfold condDctd
  split
  · exact ⟨rfl, rfl⟩
  · dsimp only
    split
    · exact ⟨rfl, rfl⟩
    · exact ⟨rfl, rfl⟩

/-- COND_QCQP_COND: a quadratic constraint of a stage after the first with no linear part, for which `S` times the response to zero inputs vanishes, and
with no linear general constraints in the stages before it, is in the condensed problem, at every `v`, satisfied or violated by the same amount as the
user's constraint at the trajectory generated by `v` -/
theorem condQcqp_exact (sq : K → K) (Q : Qcqp K) (nz : ℕ → ℕ → ℕ) (arg : CondArg) (hsq : arg.square_root_alg ≠ 0 → ∀ x, 0 < x → sq x * sq x = x)
    (ws : CondWs K) (tg : CondTgt K) (N k j : ℕ) (s : QcSt K) (htop : condTop Q.base.dim.N arg = some N) (halg : AlgOk arg Q.inner N)
    (hr : RangeOk Q.inner N) (hrev : RevFree Q.inner N tg) (hsplit : SplitBox Q.inner)
    (hk0 : 0 < k) (hk : k ≤ N) (hj : j < Q.nq k)
    (hf : QcFlags (Q.Hq k j) (Q.base.dim.nu k) (Q.base.dim.nx k) (nz k j))
    (hlr : ∀ i, i < Q.base.dim.nu k → (qview Q).rq k j i = 0) (hlq : ∀ i, i < Q.base.dim.nx k → (qview Q).qq k j i = 0)
    (hS : ∀ i, i < Q.base.dim.nu k → ∑ l ∈ range (Q.base.dim.nx k), (qview Q).Sq k j i l * roll Q.inner N (fun _ => 0) k l = 0)
    (hng : ∀ l, l < k → Q.base.dim.ng l = 0) (v : Vec K) :
    let t := (condQcqpCond sq Q nz arg ws tg s).2.2
    let q := later Q.nq N k + j
    (qview Q).uq k j - (qview Q).qvalue (ptOf Q.inner.dim (stageOf Q.inner N v)) k j
      = - t.d2 (2 * qcNbc Q.base.dim N + 2 * qcNgc Q.base.dim N + qcNqc Q.nq N + q) - condQcForm Q.base.dim N t q v := by
  intro t q
  have hNN : N ≤ Q.base.dim.N := by rcases condTop_cases htop with h | h <;> omega
  obtain ⟨eG, eb⟩ := condBlock_gamma sq Q.inner arg ws tg
  let s1 : QcSt K := { s with
    Hq := Q.Hq
    Ct2 := (condBlock sq Q.inner arg ws tg).2.2.DCt2
    d2 := (condBlock sq Q.inner arg ws tg).2.2.d2 }
  have ht : t = condQc Q nz (condBabt Q.inner arg ws tg).1.Gamma (condBabt Q.inner arg ws tg).1.Gammab N s1 := by
    show (condQcqpCond sq Q nz arg ws tg s).2.2 = _
    unfold condQcqpCond
    simp only [htop]
    rw [eG, eb]
  have hbox : ∀ l, l < N → nBox Q.inner (l + 1) = Q.base.dim.nbu (l + 1) ∧ nGen Q.inner (l + 1) = Q.base.dim.nbx (l + 1) := by
    intro l hl
    have := nBox_split hsplit 0 l (show 0 + (l + 1) ≤ Q.base.dim.N by omega)
    rw [shift_zero, Nat.zero_add] at this
    exact this
  have hb0 : nBox Q.inner 0 = Q.base.dim.nbu 0 + Q.base.dim.nbx 0 := by
    rw [(nBox_zero Q.inner).1, (hsplit 0 (by omega)).1]
    exact add_comm _ _
  have hpos := (condQc_position Q N k j hk hb0 (nBox_zero Q.inner).2 (fun l hl => (hbox l hl).1) (fun l hl => (hbox l hl).2)).mpr hng
  have hnb : nbCond Q.inner N = qcNbc Q.base.dim N := by
    unfold nbCond qcNbc
    rw [sumTo_eq, sum_range_succ', sum_range_succ' Q.base.dim.nbu, hb0]
    rw [sum_congr rfl fun l hl => (hbox l (mem_range.mp hl)).1]
    omega
  have hng2 : ngCond Q.inner N = qcNgc Q.base.dim N + qcNqc Q.nq N := by
    unfold ngCond nbgCond ngAll qcNgc qcNqc
    rw [sumTo_eq, sumTo_eq, sumTo_eq, sum_range_succ', (nBox_zero Q.inner).2, sum_congr rfl fun l hl => (hbox l (mem_range.mp hl)).2]
    have : ∑ x ∈ range (N + 1), Q.inner.dim.ng x = ∑ x ∈ range (N + 1), Q.base.dim.ng x + ∑ x ∈ range (N + 1), Q.nq x := sum_add_distrib
    rw [this]
    omega
  obtain ⟨t0, F⟩ := (condBlock_ok sq Q.inner arg hsq ws tg N htop halg hr hrev).1.con k (Q.base.dim.nb k + (Q.base.dim.ng k + j)) hk
    (by show _ < Q.base.dim.nb k + (Q.base.dim.ng k + Q.nq k); omega)
  have hup := F.up (fun _ => 0)
  have hd : s1.d2 (2 * qcNbc Q.base.dim N + 2 * qcNgc Q.base.dim N + qcNqc Q.nq N + (later Q.nq N k + j)) = - (qview Q).uq k j := by
    rw [hpos] at hup
    have e1 : tval (condBlock sq Q.inner arg ws tg).2.2 (nbCond Q.inner N) (nvCond Q.inner N) (fun _ => 0)
        (qcNbc Q.base.dim N + qcNgc Q.base.dim N + (later Q.nq N k + j)) = 0 := by
      unfold tval
      rw [if_neg (by omega)]
      exact sum_eq_zero fun i _ => mul_zero _
    have e2 : cval Q.inner k (uxOf Q.inner N (fun _ => 0) k) (Q.base.dim.nb k + (Q.base.dim.ng k + j)) = 0 := by
      unfold cval
      rw [if_neg (by show ¬ _ < Q.base.dim.nb k; omega)]
      refine sum_eq_zero fun i hi => ?_
      have hi : i < Q.base.dim.nu k + Q.base.dim.nx k := mem_range.mp hi
      have : Q.inner.DCt k i (Q.base.dim.nb k + (Q.base.dim.ng k + j) - Q.inner.dim.nb k) = 0 := by
        have e : Q.base.dim.nb k + (Q.base.dim.ng k + j) - Q.inner.dim.nb k = Q.base.dim.ng k + j := by
          show Q.base.dim.nb k + (Q.base.dim.ng k + j) - Q.base.dim.nb k = _
          omega
        rw [e]
        by_cases h : i < Q.base.dim.nu k
        · exact hlr i h
        · have := hlq (i - Q.base.dim.nu k) (by omega)
          rw [← this]
          show Q.base.DCt k i _ = Q.base.DCt k (Q.base.dim.nu k + (i - Q.base.dim.nu k)) _
          rw [show Q.base.dim.nu k + (i - Q.base.dim.nu k) = i by omega]
      rw [this, zero_mul]
    rw [e1, e2, add_zero, add_zero] at hup
    have p1 : ntCond Q.inner N + (qcNbc Q.base.dim N + qcNgc Q.base.dim N + (later Q.nq N k + j))
        = 2 * qcNbc Q.base.dim N + 2 * qcNgc Q.base.dim N + qcNqc Q.nq N + (later Q.nq N k + j) := by
      unfold ntCond
      rw [hnb, hng2]
      omega
    rw [p1] at hup
    refine hup.trans ?_
    show Q.base.d k (Q.base.dim.nb k + (Q.base.dim.ng k + Q.nq k) + (Q.base.dim.nb k + (Q.base.dim.ng k + j)))
      = - - Q.base.d k (2 * Q.base.dim.nb k + 2 * Q.base.dim.ng k + Q.nq k + j)
    rw [neg_neg]
    congr 1
    omega
  have H := condQc_exact Q nz arg ws tg N k j s1 hk0 hk hNN hj rfl hf hlr hlq hS hd v
  rw [ht]
  exact H

end
end Hpipm
