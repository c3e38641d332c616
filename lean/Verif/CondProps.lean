/-
Partial condensing, from the user's side: the problem written by PART_COND_QP_COND and the solution written by
PART_COND_QP_EXPAND_SOL, against the problem given by the user.
-/
import Verif.CondExpRun
import Mathlib.Analysis.Real.Sqrt

namespace Hpipm
open Finset
set_option linter.unusedSectionVars false

section
variable {K : Type*} [Field K] [LinearOrder K] [IsStrictOrderedRing K]

/-! ### positions of the variables -/

/-- position in the condensed stage of the variable `j` of stage `l` (not a state, unless `l = 0`) -/
def varPos (qp : OcpQp K) (N l j : ℕ) : ℕ :=
  if j < qp.dim.nu l then later qp.dim.nu N l + j
  else if j < qp.dim.nu l + qp.dim.nx l then nuAll qp.dim N + (j - qp.dim.nu l)
  else if j < qp.dim.nu l + qp.dim.nx l + qp.dim.ns l then nvCond qp N + (later qp.dim.ns N l + (j - (qp.dim.nu l + qp.dim.nx l)))
  else nvCond qp N + nsAll qp.dim N + (later qp.dim.ns N l + (j - (qp.dim.nu l + qp.dim.nx l + qp.dim.ns l)))

/-- a state that is not a variable of the condensed problem -/
def Elim (D : QpDim) (k0 l j : ℕ) : Prop := 0 < l ∧ D.nu (k0 + l) ≤ j ∧ j < D.nu (k0 + l) + D.nx (k0 + l)

theorem varPos_lt (qp : OcpQp K) {N l j : ℕ} (hl : l ≤ N) (hj : j < nvt qp.dim l) (he : ¬ Elim qp.dim 0 l j) :
    varPos qp N l j < nvCond qp N + 2 * nsAll qp.dim N := by
  unfold nvt at hj
  unfold Elim at he
  rw [Nat.zero_add] at he
  have hs : ∀ i, i < qp.dim.ns l → later qp.dim.ns N l + i < nsAll qp.dim N := fun i h => later_lt qp.dim.ns hl h
  have hu : ∀ i, i < qp.dim.nu l → later qp.dim.nu N l + i < nuAll qp.dim N := fun i h => later_lt qp.dim.nu hl h
  unfold varPos nvCond
  split_ifs with h1 h2 h3
  · have := hu j h1; omega
  · obtain rfl : l = 0 := by omega
    omega
  · have := hs (j - (qp.dim.nu l + qp.dim.nx l)) (by omega); omega
  · have := hs (j - (qp.dim.nu l + qp.dim.nx l + qp.dim.ns l)) (by omega); omega

theorem condVec_at (qp : OcpQp K) (w : ℕ → Vec K) {N l j : ℕ} (hl : l ≤ N) (hj : j < nvt qp.dim l) (he : ¬ Elim qp.dim 0 l j) :
    condVec qp N w (varPos qp N l j) = w l j := by
  unfold nvt at hj
  unfold Elim at he
  rw [Nat.zero_add] at he
  have hs : ∀ i, i < qp.dim.ns l → later qp.dim.ns N l + i < nsAll qp.dim N := fun i h => later_lt qp.dim.ns hl h
  have hu : ∀ i, i < qp.dim.nu l → later qp.dim.nu N l + i < nuAll qp.dim N := fun i h => later_lt qp.dim.nu hl h
  have env : nvCond qp N = nuAll qp.dim N + qp.dim.nx 0 := rfl
  unfold varPos condVec
  by_cases h1 : j < qp.dim.nu l
  · rw [if_pos h1, if_pos (hu j h1), flatL_at _ _ _ _ _ hl h1]
  · rw [if_neg h1]
    by_cases h2 : j < qp.dim.nu l + qp.dim.nx l
    · obtain rfl : l = 0 := by omega
      rw [if_pos h2, if_neg (by omega), if_pos (by omega)]; congr 1; omega
    · rw [if_neg h2]
      by_cases h3 : j < qp.dim.nu l + qp.dim.nx l + qp.dim.ns l
      · have := hs (j - (qp.dim.nu l + qp.dim.nx l)) (by omega)
        rw [if_pos h3, if_neg (by omega), if_neg (by omega), if_pos (by omega), Nat.add_sub_cancel_left, flatL_at _ _ _ _ _ hl (by omega)]
        congr 1; omega
      · have := hs (j - (qp.dim.nu l + qp.dim.nx l + qp.dim.ns l)) (by omega)
        rw [if_neg h3, if_neg (by omega), if_neg (by omega), if_neg (by omega), Nat.add_sub_cancel_left, flatL_at _ _ _ _ _ hl (by omega)]
        congr 1; omega

theorem flatL_inv (f : ℕ → ℕ) (N p : ℕ) (hp : p < ∑ k ∈ range (N + 1), f k) : ∃ k i, k ≤ N ∧ i < f k ∧ p = later f N k + i := by
  induction N generalizing p with
  | zero =>
    rw [sum_range_one] at hp
    exact ⟨0, p, le_refl _, hp, by rw [later_self, zero_add]⟩
  | succ N ih =>
    rw [sum_range_succ] at hp
    by_cases h : p < f (N + 1)
    · exact ⟨N + 1, p, le_refl _, h, by rw [later_self, zero_add]⟩
    · obtain ⟨k, i, hk, hi, e⟩ := ih (p - f (N + 1)) (by omega)
      refine ⟨k, i, by omega, hi, ?_⟩
      have : later f (N + 1) k = later f N k + f (N + 1) := by
        unfold later
        have e : Ioc k (N + 1) = insert (N + 1) (Ioc k N) := by
          ext x; simp only [mem_insert, mem_Ioc]; omega
        rw [e, sum_insert (by simp), add_comm]
      omega

theorem varPos_surj (qp : OcpQp K) (N p : ℕ) (hp : p < nvCond qp N + 2 * nsAll qp.dim N) :
    ∃ l j, l ≤ N ∧ j < nvt qp.dim l ∧ ¬ Elim qp.dim 0 l j ∧ p = varPos qp N l j := by
  have env : nvCond qp N = nuAll qp.dim N + qp.dim.nx 0 := rfl
  unfold nvt Elim
  by_cases h1 : p < nuAll qp.dim N
  · obtain ⟨l, j, hl, hj, e⟩ := flatL_inv qp.dim.nu N p h1
    refine ⟨l, j, hl, by omega, by rw [Nat.zero_add]; omega, ?_⟩
    unfold varPos; rw [if_pos hj, e]
  · by_cases h2 : p < nvCond qp N
    · refine ⟨0, qp.dim.nu 0 + (p - nuAll qp.dim N), by omega, by omega, by omega, ?_⟩
      unfold varPos; rw [if_neg (by omega), if_pos (by omega)]; omega
    · by_cases h3 : p < nvCond qp N + nsAll qp.dim N
      · obtain ⟨l, j, hl, hj, e⟩ := flatL_inv qp.dim.ns N (p - nvCond qp N) (by unfold nsAll at h3; omega)
        refine ⟨l, qp.dim.nu l + qp.dim.nx l + j, hl, by omega, by rw [Nat.zero_add]; omega, ?_⟩
        unfold varPos; rw [if_neg (by omega), if_neg (by omega), if_pos (by omega), Nat.add_sub_cancel_left]; omega
      · obtain ⟨l, j, hl, hj, e⟩ := flatL_inv qp.dim.ns N (p - (nvCond qp N + nsAll qp.dim N)) (by unfold nsAll at h3 hp ⊢; omega)
        refine ⟨l, qp.dim.nu l + qp.dim.nx l + qp.dim.ns l + j, hl, by omega, by rw [Nat.zero_add]; omega, ?_⟩
        unfold varPos; rw [if_neg (by omega), if_neg (by omega), if_neg (by omega), Nat.add_sub_cancel_left]; omega

/-! ### residuals -/

/-- all residuals of a problem are bounded: stationarity, dynamics, inequalities, complementarity -/
def ResWithin (D : QpDim) (r : Res K) (eg eb ed em : K) : Prop :=
  (∀ k i, k ≤ D.N → i < nvt D k → |r.res_g k i| ≤ eg) ∧
  (∀ k i, k < D.N → i < D.nx (k + 1) → |r.res_b k i| ≤ eb) ∧
  (∀ k j, k ≤ D.N → j < nct D k → |r.res_d k j| ≤ ed) ∧
  (∀ k j, k ≤ D.N → j < nct D k → |r.res_m k j| ≤ em)

section
variable {P P2 : OcpQp K} {len : ℕ → ℕ} (C : CondensedBy P P2 len)
include C

theorem se_pos (hw : P.WF) {sol2 sol : Sol K} (E : SolExpands P P2 len sol2 sol) (hm : LamMasked P2 sol2.lam) {ii l j : ℕ}
    (hi : ii ≤ P2.dim.N) (hl : l < len ii) (hj : j < nvt P.dim (stOff len ii + l)) (he : ¬ Elim P.dim (stOff len ii) l j) :
    varPos (shiftQp P (stOff len ii)) (len ii - 1) l j < nvt P2.dim ii ∧
    vG P sol (lamM P sol (stOff len ii + l)) (stOff len ii + l) j
      = vG P2 sol2 (lamM P2 sol2 ii) ii (varPos (shiftQp P (stOff len ii)) (len ii - 1) l j) := by
  have B := C.blk ii hi
  have e : nvt P2.dim ii = nvCond (shiftQp P (stOff len ii)) (len ii - 1) + 2 * nsAll (shiftQp P (stOff len ii)).dim (len ii - 1) := by
    unfold nvt; rw [blk_nv B, B.ns]
  have he' : ¬ Elim (shiftQp P (stOff len ii)).dim 0 l j := by
    intro h; apply he; unfold Elim at h ⊢; rw [Nat.zero_add] at h; exact h
  have hp : varPos (shiftQp P (stOff len ii)) (len ii - 1) l j < nvt P2.dim ii := by
    rw [e]; exact varPos_lt _ (by omega) hj he'
  refine ⟨hp, ?_⟩
  rw [se_stationarity C hw E hm ii _ hi hp, condVec_at (shiftQp P (stOff len ii)) _ (by omega) hj he']

/-- **residuals carry over**: whatever bounds the residuals of the condensed problem satisfy, the residuals of the original problem
at the expanded solution satisfy, and conversely -/
theorem se_residuals (hw : P.WF) {sol2 sol : Sol K} (E : SolExpands P P2 len sol2 sol) (hm : LamMasked P2 sol2.lam)
    (res res2 : Res K) (ws ws2 : ResWs K) (hws : ws.Ok P) (hws2 : ws2.Ok P2) (eg eb ed em : K) (h0 : 0 ≤ eg) (h1 : 0 ≤ eb) :
    ResWithin P.dim (resCompute P sol res ws) eg eb ed em ↔ ResWithin P2.dim (resCompute P2 sol2 res2 ws2) eg eb ed em := by
  have hw2 := cb_wf C hw
  have V := (resCompute_val P hw sol res ws hws).1
  have V2 := (resCompute_val P2 hw2 sol2 res2 ws2 hws2).1
  have hd : ∀ ii l j, ii ≤ P2.dim.N → l < len ii → j < nct P.dim (stOff len ii + l) →
      ineqPos (shiftQp P (stOff len ii)) (len ii - 1) l j < nct P2.dim ii ∧
      (resCompute P sol res ws).res_d (stOff len ii + l) j = (resCompute P2 sol2 res2 ws2).res_d ii (ineqPos (shiftQp P (stOff len ii)) (len ii - 1) l j) ∧
      (resCompute P sol res ws).res_m (stOff len ii + l) j = (resCompute P2 sol2 res2 ws2).res_m ii (ineqPos (shiftQp P (stOff len ii)) (len ii - 1) l j) := by
    intro ii l j hi hl hj
    have hk := cb_stage C hi hl
    obtain ⟨a1, a2, a3, a4⟩ := ex_ineq C E.ux hw hi hl hj
    refine ⟨a4, ?_, ?_⟩
    · rw [(V _ hk).1.d j hj, (V2 _ hi).1.d _ a4, a2, vD_lin, vD_lin]
      have := a1
      unfold ineq at this
      rw [E.t ii l j hi hl hj]
      congr 1
      linear_combination -this
    · rw [(V _ hk).2 j hj, (V2 _ hi).2 _ a4]
      unfold vM lamM
      rw [a2, a3, E.t ii l j hi hl hj, E.lam ii l j hi hl hj]
  constructor
  · rintro ⟨rg, rb, rd, rm⟩
    refine ⟨fun ii p hi hp => ?_, fun ii i hi hx => ?_, fun ii p hi hp => ?_, fun ii p hi hp => ?_⟩
    · have B := C.blk ii hi
      have hpos := C.pos ii hi
      have e : nvt P2.dim ii = nvCond (shiftQp P (stOff len ii)) (len ii - 1) + 2 * nsAll (shiftQp P (stOff len ii)).dim (len ii - 1) := by
        unfold nvt; rw [blk_nv B, B.ns]
      obtain ⟨l, j, hl, hj, he, rfl⟩ := varPos_surj _ (len ii - 1) p (by rw [← e]; exact hp)
      have he' : ¬ Elim P.dim (stOff len ii) l j := by
        intro h; apply he; unfold Elim at h ⊢; rw [Nat.zero_add]; exact h
      have hk := cb_stage C hi (show l < len ii by omega)
      obtain ⟨h1, h2⟩ := se_pos C hw E hm hi (show l < len ii by omega) hj he'
      rw [(V2 ii hi).1.g _ h1, ← h2, ← (V _ hk).1.g j hj]
      exact rg _ j hk hj
    · have hpos := C.pos ii (by omega)
      have hx' : i < P.dim.nx (stOff len (ii + 1)) := by rw [(C.blk (ii + 1) hi).nx] at hx; exact hx
      have hd := ex_dyn_out C E.ux hi (show len ii - 1 + 1 = len ii by omega) hx'
      have hst : stOff len ii + (len ii - 1) + 1 = stOff len (ii + 1) := by rw [stOff_succ]; omega
      have hlt : stOff len ii + (len ii - 1) < P.dim.N := by
        have := cb_stage C (show ii + 1 ≤ P2.dim.N by omega) (C.pos (ii + 1) (by omega))
        rw [stOff_succ] at this; omega
      have := rb _ i hlt (by rw [hst]; exact hx')
      rw [(V _ hlt.le).1.b hlt i (by rw [hst]; exact hx'), vB_lin] at this
      rw [(V2 ii hi.le).1.b hi i hx, vB_lin]
      unfold dynRes at hd
      rw [← hd]; exact this
    · obtain ⟨l, j, hl, hj, rfl⟩ := ineqPos_surj (C.blk ii hi) p hp
      have hpos := C.pos ii hi
      rw [← (hd ii l j hi (by omega) hj).2.1]
      exact rd _ j (cb_stage C hi (by omega)) hj
    · obtain ⟨l, j, hl, hj, rfl⟩ := ineqPos_surj (C.blk ii hi) p hp
      have hpos := C.pos ii hi
      rw [← (hd ii l j hi (by omega) hj).2.2]
      exact rm _ j (cb_stage C hi (by omega)) hj
  · rintro ⟨rg, rb, rd, rm⟩
    refine ⟨fun k i hk hi => ?_, fun k i hk hi => ?_, fun k j hk hj => ?_, fun k j hk hj => ?_⟩
    · rw [(V k hk).1.g i hi]
      obtain ⟨ii, l, hii, hl, rfl⟩ := cb_find C hk
      by_cases he : Elim P.dim (stOff len ii) l i
      · obtain ⟨l', rfl⟩ : ∃ l', l = l' + 1 := ⟨l - 1, by have := he.1; omega⟩
        obtain ⟨i', rfl⟩ : ∃ i', i = P.dim.nu (stOff len ii + (l' + 1)) + i' := ⟨i - P.dim.nu (stOff len ii + (l' + 1)), by have := he.2.1; omega⟩
        rw [se_states C hw E hm hii hl (by have := he.2.2; omega), abs_zero]
        exact h0
      · obtain ⟨h1, h2⟩ := se_pos C hw E hm hii hl hi he
        rw [h2, ← (V2 ii hii).1.g _ h1]
        exact rg ii _ hii h1
    · rw [(V k hk.le).1.b hk i hi, vB_lin]
      obtain ⟨ii, l, hii, hl, rfl, h | ⟨h, hlt⟩⟩ := cb_next C hk
      · have := ex_dyn_in C E.ux hii h hi
        unfold dynRes at this
        rw [this, abs_zero]; exact h1
      · have hst : stOff len ii + l + 1 = stOff len (ii + 1) := by rw [stOff_succ]; omega
        rw [hst] at hi
        have hx : i < P2.dim.nx (ii + 1) := by rw [(C.blk (ii + 1) hlt).nx]; exact hi
        have hd := ex_dyn_out C E.ux hlt h hi
        unfold dynRes at hd
        rw [hd, ← vB_lin, ← (V2 ii hii).1.b hlt i hx]
        exact rb ii i hlt hx
    · obtain ⟨ii, l, hii, hl, rfl⟩ := cb_find C hk
      obtain ⟨a, b, _⟩ := hd ii l j hii hl hj
      rw [b]; exact rd ii _ hii a
    · obtain ⟨ii, l, hii, hl, rfl⟩ := cb_find C hk
      obtain ⟨a, _, b⟩ := hd ii l j hii hl hj
      rw [b]; exact rm ii _ hii a

end


/-! ### simulation -/

/-- states obtained by simulating the dynamics from `x0` with the inputs `u` -/
def simX (U : UserQp K) (u : ℕ → ℕ → K) (x0 : ℕ → K) : ℕ → ℕ → K
  | 0 => x0
  | k + 1 => fun i => (∑ j ∈ range (U.nx k), U.A k i j * simX U u x0 k j) + (∑ j ∈ range (U.nu k), U.B k i j * u k j) + U.b k i

/-- inputs and simulated states, packed -/
def simUx (P : OcpQp K) (u : ℕ → ℕ → K) (x0 : ℕ → K) : ℕ → Vec K := fun k j =>
  if j < P.dim.nu k then u k j else simX (view P) u x0 k (j - P.dim.nu k)

theorem dynRes_view (qp : OcpQp K) (ux : ℕ → Vec K) (k i : ℕ) (hi : i < qp.dim.nx (k + 1)) :
    dynRes qp ux k i = (view qp).dynDefect (ptOf qp.dim ux) k i := by
  rw [dyn_packed qp k ⟨ux, fun _ _ => 0, fun _ _ => 0, fun _ _ => 0⟩ i hi, vB_lin]; rfl

theorem simUx_dyn (P : OcpQp K) (u : ℕ → ℕ → K) (x0 : ℕ → K) (k i : ℕ) (hi : i < P.dim.nx (k + 1)) : dynRes P (simUx P u x0) k i = 0 := by
  have hx : ∀ k j, simUx P u x0 k (P.dim.nu k + j) = simX (view P) u x0 k j := by
    intro k j; unfold simUx; rw [if_neg (by omega), Nat.add_sub_cancel_left]
  rw [dynRes_view P _ k i hi]
  unfold UserQp.dynDefect
  show (∑ j ∈ range (P.dim.nx k), (view P).A k i j * simUx P u x0 k (P.dim.nu k + j)) + (∑ j ∈ range (P.dim.nu k), (view P).B k i j * simUx P u x0 k j)
    + (view P).b k i - simUx P u x0 (k + 1) (P.dim.nu (k + 1) + i) = 0
  rw [hx]
  have e1 : ∑ j ∈ range (P.dim.nx k), (view P).A k i j * simUx P u x0 k (P.dim.nu k + j) = ∑ j ∈ range (P.dim.nx k), (view P).A k i j * simX (view P) u x0 k j :=
    sum_congr rfl fun j _ => by rw [hx]
  have e2 : ∑ j ∈ range (P.dim.nu k), (view P).B k i j * simUx P u x0 k j = ∑ j ∈ range (P.dim.nu k), (view P).B k i j * u k j :=
    sum_congr rfl fun j hj => by unfold simUx; rw [if_pos (mem_range.mp hj)]
  rw [e1, e2]
  exact sub_self _

/-- the condensed prediction matrices reproduce the simulation, block after block -/
theorem cb_simulation {P P2 : OcpQp K} {len : ℕ → ℕ} (C : CondensedBy P P2 len) (u u2 : ℕ → ℕ → K) (x0 : ℕ → K)
    (hu : ∀ ii l j, ii ≤ P2.dim.N → l < len ii → j < P.dim.nu (stOff len ii + l) →
      u2 ii ((∑ t ∈ Ioc l (len ii - 1), P.dim.nu (stOff len ii + t)) + j) = u (stOff len ii + l) j) :
    ∀ ii i, ii ≤ P2.dim.N → i < P2.dim.nx ii → simX (view P2) u2 x0 ii i = simX (view P) u x0 (stOff len ii) i := by
  set w := simUx P u x0 with hw
  have E := ex_of_dyn C w (fun k i _ hi => simUx_dyn P u x0 k i hi)
  set v : ℕ → Vec K := fun ii => condVec (shiftQp P (stOff len ii)) (len ii - 1) (fun l => w (stOff len ii + l)) with hv
  have hvu : ∀ ii p, ii ≤ P2.dim.N → p < P2.dim.nu ii → v ii p = u2 ii p := by
    intro ii p hi hp
    have hpos := C.pos ii hi
    rw [(C.blk ii hi).nu] at hp
    rw [hv]
    dsimp only
    unfold condVec
    rw [if_pos hp]
    obtain ⟨l, j, hl, hj, rfl⟩ := flatL_inv _ (len ii - 1) p hp
    rw [flatL_at _ _ _ _ _ hl hj]
    have hj : j < P.dim.nu (stOff len ii + l) := hj
    refine Eq.trans ?_ (hu ii l j hi (by omega) hj).symm
    rw [hw]; unfold simUx; exact if_pos hj
  have hvx : ∀ ii i, ii ≤ P2.dim.N → i < P2.dim.nx ii → v ii (P2.dim.nu ii + i) = simX (view P) u x0 (stOff len ii) i := by
    intro ii i hi hx
    rw [(C.blk ii hi).nx] at hx
    rw [(C.blk ii hi).nu, hv]
    dsimp only
    unfold condVec
    rw [if_neg (by omega), if_pos (by unfold nvCond; omega), Nat.add_sub_cancel_left]
    show w (stOff len ii) (P.dim.nu (stOff len ii) + i) = _
    rw [hw]; unfold simUx; rw [if_neg (by omega), Nat.add_sub_cancel_left]
  intro ii
  induction ii with
  | zero => intro i _ _; rfl
  | succ n ih =>
    intro i hn hi
    have hx' : i < P.dim.nx (stOff len (n + 1)) := by rw [(C.blk (n + 1) hn).nx] at hi; exact hi
    have hp := C.pos n (by omega)
    have hst : stOff len n + (len n - 1) + 1 = stOff len (n + 1) := by rw [stOff_succ]; omega
    have h0 := ex_dyn_out C E (show n < P2.dim.N by omega) (show len n - 1 + 1 = len n by omega) hx'
    rw [simUx_dyn P u x0 _ i (by rw [hst]; exact hx'), dynRes_view P2 _ n i hi] at h0
    rw [← hvx (n + 1) i hn hi]
    unfold UserQp.dynDefect at h0
    have h1 : (∑ j ∈ range (P2.dim.nx n), (view P2).A n i j * v n (P2.dim.nu n + j)) + (∑ j ∈ range (P2.dim.nu n), (view P2).B n i j * v n j)
      + (view P2).b n i - v (n + 1) (P2.dim.nu (n + 1) + i) = 0 := h0.symm
    rw [← sub_eq_zero.mp h1]
    show (∑ j ∈ range (P2.dim.nx n), (view P2).A n i j * simX (view P2) u2 x0 n j) + (∑ j ∈ range (P2.dim.nu n), (view P2).B n i j * u2 n j) + (view P2).b n i = _
    congr 1
    congr 1
    · exact sum_congr rfl fun j hj => by rw [ih j (by omega) (mem_range.mp hj), hvx n j (by omega) (mem_range.mp hj)]
    · exact sum_congr rfl fun j hj => by rw [hvu n j (by omega) (mem_range.mp hj)]

end
end Hpipm
