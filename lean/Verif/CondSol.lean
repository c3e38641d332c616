/-
C104: condensing of a solution, COND_SOL, cond/x_cond_aux.c:1815-2160, against its expansion, EXPAND_SOL.
-/
import Verif.CondExpand
import Verif.CondEquiv
import Verif.CondFullEx

namespace Hpipm
open Finset
set_option linter.unusedSectionVars false

section
variable {K : Type*} [Field K]

/-- COND_SOL, inputs of the stages and state of stage 0, x_cond_aux.c:1900-1909 -/
def csInputs (qp : OcpQp K) (N : ℕ) (ux : ℕ → Vec K) (v : Vec K) : Vec K :=
  let D := qp.dim
  let s := loop N (fun ii (s : Vec K × ℕ) => (veccp (D.nu (N - ii)) (ux (N - ii)) 0 s.1 s.2, s.2 + D.nu (N - ii))) (v, 0)
  veccp (D.nu 0 + D.nx 0) (ux 0) 0 s.1 s.2

/-- COND_SOL, the soft constraints `lo k ≤ jj < lo k + cnt k` of the stages N..0: the loops x_cond_aux.c:1916-1937, 1939-1960 (`x = ux`, `y = vc`,
`o = nu2+nx2`, `a k = nu+nx`) and 2085-2112, 2114-2141 (`x = lam, t`, `o = 2*nb2+2*ng2`, `a k = 2*nb+2*ng`); state (y, is) -/
def csSoft (qp : OcpQp K) (N o ns2 : ℕ) (a lo cnt : ℕ → ℕ) (x : ℕ → Vec K) (s : Vec K × ℕ) : Vec K × ℕ :=
  let D := qp.dim
  loop (N + 1) (fun ii (s : Vec K × ℕ) =>
    let k := N - ii
    if 0 < D.ns k then
      loop (cnt k) (fun jj (s : Vec K × ℕ) =>
        let idx := qp.idxs_rev k (lo k + jj)
        if 0 ≤ idx then
          (upd (upd s.1 (o + s.2) (x k (a k + idx.toNat))) (o + ns2 + s.2) (x k (a k + D.ns k + idx.toNat)), s.2 + 1)
        else s) s
    else s) s

/-- all boxes first, then all general constraints -/
def csSlk (qp : OcpQp K) (N o ns2 : ℕ) (a : ℕ → ℕ) (x : ℕ → Vec K) (y : Vec K) : Vec K :=
  let D := qp.dim
  (csSoft qp N o ns2 a D.nb D.ng x (csSoft qp N o ns2 a (fun _ => 0) D.nb x (y, 0))).1

/-- COND_SOL, boxes of the stages N..1, x_cond_aux.c:2001-2033 (the same statements for `lam` and `t`); state (y, nbb, nbg) -/
def csBoxes (qp : OcpQp K) (N nb2 ng2 : ℕ) (x : ℕ → Vec K) (y : Vec K) : Vec K × ℕ × ℕ :=
  let D := qp.dim
  loop N (fun ii (s : Vec K × ℕ × ℕ) =>
    let k := N - ii
    let n := D.nb k + D.ng k
    loop (D.nb k) (fun jj (s : Vec K × ℕ × ℕ) =>
      if qp.idxb k jj < D.nu k then
        (upd (upd s.1 s.2.1 (x k jj)) (nb2 + ng2 + s.2.1) (x k (n + jj)), s.2.1 + 1, s.2.2)
      else
        (upd (upd s.1 (nb2 + s.2.2) (x k jj)) (2 * nb2 + ng2 + s.2.2) (x k (n + jj)), s.2.1, s.2.2 + 1)) s) (y, 0, 0)

/-- COND_SOL, general constraints of the stages N..1, x_cond_aux.c:2050-2069; state (y, ngg) -/
def csGens (qp : OcpQp K) (N nb2 ng2 nbg : ℕ) (x : ℕ → Vec K) (y : Vec K) : Vec K × ℕ :=
  let D := qp.dim
  loop N (fun ii (s : Vec K × ℕ) =>
    let k := N - ii
    loop (D.ng k) (fun jj (s : Vec K × ℕ) =>
      (upd (upd s.1 (nb2 + nbg + s.2) (x k (D.nb k + jj))) (2 * nb2 + ng2 + nbg + s.2) (x k (2 * D.nb k + D.ng k + jj)), s.2 + 1)) s) (y, 0)

/-- COND_SOL, boxes and general constraints, x_cond_aux.c:1999-2080 -/
def csIneq (qp : OcpQp K) (N nb2 ng2 : ℕ) (x : ℕ → Vec K) (y : Vec K) : Vec K :=
  let D := qp.dim
  let s := csBoxes qp N nb2 ng2 x y
  let y := veccp (D.nb 0) (x 0) 0 s.1 s.2.1
  let y := veccp (D.nb 0) (x 0) (D.nb 0 + D.ng 0) y (nb2 + ng2 + s.2.1)
  let g := csGens qp N nb2 ng2 s.2.2 x y
  let y := veccp (D.ng 0) (x 0) (D.nb 0) g.1 (nb2 + s.2.2 + g.2)
  veccp (D.ng 0) (x 0) (2 * D.nb 0 + D.ng 0) y (2 * nb2 + ng2 + s.2.2 + g.2)

/-- COND_SOL, x_cond_aux.c:1815-2160.  As for `expandSol`, no call with the last stage not condensed and no other stage. -/
def condSolFwd (qp : OcpQp K) (arg : CondArg) (sol : Sol K) (ds : DSol K) : DSol K :=
  let D := qp.dim
  let N := if arg.cond_last_stage = false then D.N - 1 else D.N
  if N = 0 ∧ arg.cond_last_stage = true then
    let nc := 2 * D.nb 0 + 2 * D.ng 0 + 2 * D.ns 0
    { ds with
      v := if arg.comp_prim_sol ≠ 0 then veccp (D.nu 0 + D.nx 0 + 2 * D.ns 0) (sol.ux 0) 0 ds.v 0 else ds.v
      lam := if arg.comp_dual_sol_ineq ≠ 0 then veccp nc (sol.lam 0) 0 ds.lam 0 else ds.lam
      t := if arg.comp_dual_sol_ineq ≠ 0 then veccp nc (sol.t 0) 0 ds.t 0 else ds.t }
  else
    let nb2 := sumTo (fun k => boxCount qp k (D.nb k)) (N + 1)
    let nbg := sumTo (fun k => genCount qp k (D.nb k)) (N + 1)
    let nu2 := sumTo D.nu (N + 1)
    let ns2 := sumTo D.ns (N + 1)
    let ng2 := nbg + sumTo D.ng (N + 1)
    let sv := fun k => D.nu k + D.nx k
    let si := fun k => 2 * D.nb k + 2 * D.ng k
    { v := if arg.comp_prim_sol = 0 then ds.v else csSlk qp N (nu2 + D.nx 0) ns2 sv sol.ux (csInputs qp N sol.ux ds.v)
      lam := if arg.comp_dual_sol_ineq = 0 then ds.lam else csSlk qp N (2 * nb2 + 2 * ng2) ns2 si sol.lam (csIneq qp N nb2 ng2 sol.lam ds.lam)
      t := if arg.comp_dual_sol_ineq = 0 then ds.t else csSlk qp N (2 * nb2 + 2 * ng2) ns2 si sol.t (csIneq qp N nb2 ng2 sol.t ds.t)
      pi := if arg.comp_dual_sol_eq = 0 then ds.pi else if arg.cond_last_stage = false then veccp (D.nx D.N) (sol.pi (D.N - 1)) 0 ds.pi 0 else ds.pi }

/-- without slacks the soft constraints write nothing -/
theorem csSlk_none (qp : OcpQp K) (N o ns2 : ℕ) (a : ℕ → ℕ) (x : ℕ → Vec K) (y : Vec K) (h : ∀ k, k ≤ N → qp.dim.ns k = 0) :
    csSlk qp N o ns2 a x y = y := by
  have key : ∀ lo cnt (s : Vec K × ℕ), csSoft qp N o ns2 a lo cnt x s = s := by
    intro lo cnt s
    unfold csSoft
    refine loop_inv (fun _ z => z = s) (N + 1) _ s rfl fun n z hn hz => ?_
    dsimp only
    rw [if_neg (by rw [h _ (by omega)]; omega)]
    exact hz
  unfold csSlk
  dsimp only
  rw [key, key]

/-! ### writes towards a wanted vector -/

def Tow1 (T y y' : Vec K) : Prop := ∀ p, y' p = y p ∨ y' p = T p

theorem Tow1.keep {T y y' : Vec K} (h : Tow1 T y y') {p : ℕ} (e : y p = T p) : y' p = T p := by
  rcases h p with h | h
  · rw [h, e]
  · exact h

theorem Tow1.refl (T y : Vec K) : Tow1 T y y := fun _ => Or.inl rfl

theorem Tow1.trans {T y y' y'' : Vec K} (h : Tow1 T y y') (h' : Tow1 T y' y'') : Tow1 T y y'' := by
  intro p
  rcases h' p with e | e
  · rw [e]; exact h p
  · exact Or.inr e

theorem tow1_put2 {T y : Vec K} {a b : ℕ} {u w : K} (hu : u = T a) (hw : w = T b) :
    Tow1 T y (upd (upd y a u) b w) ∧ upd (upd y a u) b w a = T a ∧ upd (upd y a u) b w b = T b := by
  subst hu hw
  refine ⟨fun j => ?_, ?_, ?_⟩
  · rw [upd2_val]
    split_ifs with h1 h2
    · rw [h1]; exact Or.inr rfl
    · rw [h2]; exact Or.inr rfl
    · exact Or.inl rfl
  · rw [upd2_val]
    by_cases h : a = b
    · rw [if_pos h, h]
    · rw [if_neg h, if_pos rfl]
  · rw [upd_same]

theorem tow1_cp {T y x : Vec K} {n xi yi : ℕ} (h : ∀ i, i < n → x (xi + i) = T (yi + i)) :
    Tow1 T y (veccp n x xi y yi) ∧ ∀ i, i < n → veccp n x xi y yi (yi + i) = T (yi + i) := by
  have h2 : ∀ i, i < n → veccp n x xi y yi (yi + i) = T (yi + i) := by
    intro i hi
    rw [vcp_in (by omega) (by omega), Nat.add_sub_cancel_left]; exact h i hi
  refine ⟨fun j => ?_, h2⟩
  by_cases hj : yi ≤ j ∧ j < yi + n
  · right
    have := h2 (j - yi) (by omega)
    rwa [show yi + (j - yi) = j by omega] at this
  · left; rw [vcp_out (by omega)]

end

section
variable {K : Type*} [Field K] [LinearOrder K] [IsStrictOrderedRing K]

/-- the condensed variables that COND_SOL writes -/
theorem csInputs_val (qp : OcpQp K) (N : ℕ) (ux : ℕ → Vec K) (v : Vec K) :
    (∀ k i, k ≤ N → i < qp.dim.nu k → csInputs qp N ux v (later qp.dim.nu N k + i) = ux k i) ∧
    ∀ i, i < qp.dim.nx 0 → csInputs qp N ux v (nuAll qp.dim N + i) = ux 0 (qp.dim.nu 0 + i) := by
  have hu : ∀ k i, k ≤ N → i < qp.dim.nu k → condVec qp N ux (later qp.dim.nu N k + i) = ux k i := by
    intro k i hk hi
    unfold condVec
    have : later qp.dim.nu N k + i < nuAll qp.dim N := later_lt qp.dim.nu hk hi
    rw [if_pos this, flatL_at _ _ _ _ _ hk hi]
  have hx : ∀ i, i < qp.dim.nx 0 → condVec qp N ux (nuAll qp.dim N + i) = ux 0 (qp.dim.nu 0 + i) := by
    intro i hi
    unfold condVec
    rw [if_neg (by omega), if_pos (by unfold nvCond; omega), Nat.add_sub_cancel_left]
  have e0 : later qp.dim.nu N 0 + qp.dim.nu 0 = nuAll qp.dim N := later_zero_add qp.dim.nu N
  have A := loop_inv (fun n (s : Vec K × ℕ) => s.2 = later qp.dim.nu N (N - n) ∧
      ∀ k i, k ≤ N → N < k + n → i < qp.dim.nu k → s.1 (later qp.dim.nu N k + i) = condVec qp N ux (later qp.dim.nu N k + i)) N
    (fun ii (s : Vec K × ℕ) => (veccp (qp.dim.nu (N - ii)) (ux (N - ii)) 0 s.1 s.2, s.2 + qp.dim.nu (N - ii))) (v, 0)
    ⟨by rw [Nat.sub_zero, later_self], fun k i h1 h2 => by omega⟩ (fun n s hn ⟨I1, I2⟩ => by
      have w := tow1_cp (T := condVec qp N ux) (y := s.1) (x := ux (N - n)) (n := qp.dim.nu (N - n)) (xi := 0) (yi := s.2)
        (fun i hi => by rw [I1, hu (N - n) i (by omega) hi, Nat.zero_add])
      refine ⟨?_, fun k i h1 h2 hi => ?_⟩
      · show s.2 + _ = _
        rw [I1, show N - (n + 1) = N - n - 1 by omega, later_pred _ (by omega) (by omega)]; omega
      · by_cases e : k = N - n
        · subst e
          rw [← I1]
          exact w.2 i hi
        · exact w.1.keep (I2 k i h1 (by omega) hi))
  unfold csInputs
  generalize loop N (fun ii (s : Vec K × ℕ) => (veccp (qp.dim.nu (N - ii)) (ux (N - ii)) 0 s.1 s.2, s.2 + qp.dim.nu (N - ii))) (v, 0) = s at A
  obtain ⟨I1, I2⟩ := A
  rw [Nat.sub_self] at I1
  have w := tow1_cp (T := condVec qp N ux) (y := s.1) (x := ux 0) (n := qp.dim.nu 0 + qp.dim.nx 0) (xi := 0) (yi := s.2) (fun i hi => by
    rw [I1, Nat.zero_add]
    by_cases h : i < qp.dim.nu 0
    · rw [hu 0 i (by omega) h]
    · have := hx (i - qp.dim.nu 0) (by omega)
      rw [show nuAll qp.dim N + (i - qp.dim.nu 0) = later qp.dim.nu N 0 + i by omega, show qp.dim.nu 0 + (i - qp.dim.nu 0) = i by omega] at this
      exact this.symm)
  refine ⟨fun k i hk hi => ?_, fun i hi => ?_⟩
  · rw [← hu k i hk hi]
    by_cases e : k = 0
    · subst e
      rw [← I1]
      exact w.2 i (by omega)
    · exact w.1.keep (I2 k i hk (by omega) hi)
  · rw [← hx i hi]
    have := w.2 (qp.dim.nu 0 + i) (by omega)
    rwa [show s.2 + (qp.dim.nu 0 + i) = nuAll qp.dim N + i by omega] at this

/-- condensed variables that agree in inputs and first state generate the same trajectory -/
theorem stageOf_in (qp : OcpQp K) (N : ℕ) (v w : Vec K) (h1 : ∀ k i, k ≤ N → i < qp.dim.nu k → v (later qp.dim.nu N k + i) = w (later qp.dim.nu N k + i))
    (h2 : ∀ i, i < qp.dim.nx 0 → v (nuAll qp.dim N + i) = w (nuAll qp.dim N + i)) (k j : ℕ) (hk : k ≤ N) (hj : j < qp.dim.nu k + qp.dim.nx k) :
    stageOf qp N v k j = stageOf qp N w k j := by
  have r : ∀ k, k ≤ N → ∀ i, i < qp.dim.nx k → roll qp N v k i = roll qp N w k i := by
    intro k
    induction k with
    | zero => intro _ i hi; exact h2 i hi
    | succ k ih =>
      intro hk i hi
      have s1 : ∑ j ∈ range (qp.dim.nu k), qp.BAbt k j i * v (later qp.dim.nu N k + j) = ∑ j ∈ range (qp.dim.nu k), qp.BAbt k j i * w (later qp.dim.nu N k + j) :=
        sum_congr rfl fun j hj => by rw [h1 k j (by omega) (mem_range.mp hj)]
      have s2 : ∑ j ∈ range (qp.dim.nx k), qp.BAbt k (qp.dim.nu k + j) i * roll qp N v k j = ∑ j ∈ range (qp.dim.nx k), qp.BAbt k (qp.dim.nu k + j) i * roll qp N w k j :=
        sum_congr rfl fun j hj => by rw [ih (by omega) j (mem_range.mp hj)]
      show qp.b k i + _ + _ = qp.b k i + _ + _
      rw [s1, s2]
  unfold stageOf
  split_ifs with a
  · exact h1 k j hk a
  · exact r k hk _ (by omega)

/-- different constraints have different positions -/
theorem conPos_inj (qp : OcpQp K) (N k j k' j' : ℕ) (hk : k ≤ N) (hk' : k' ≤ N) (hj : j < qp.dim.nb k + qp.dim.ng k) (hj' : j' < qp.dim.nb k' + qp.dim.ng k')
    (e : conPos qp N k j = conPos qp N k' j') : k = k' ∧ j = j' := by
  have gap : ∀ f : ℕ → ℕ, ∀ a b, a < b → b ≤ N → later f N b + f b ≤ later f N a := by
    intro f a b hlt hb
    have : later f N (b - 1) = f b + later f N b := later_pred f (by omega) hb
    have m := later_mono f (N := N) (k := a) (l := b - 1) (by omega)
    omega
  have key : ∀ k j k' j', k ≤ N → k' ≤ N → j < qp.dim.nb k + qp.dim.ng k → j' < qp.dim.nb k' + qp.dim.ng k' → (k < k' ∨ k' = k ∧ j' < j) →
      conPos qp N k j ≠ conPos qp N k' j' := by
    intro k j k' j' hk hk' hj hj' h e
    by_cases a : j < qp.dim.nb k
    · by_cases a' : j' < qp.dim.nb k'
      · have d := conPos_done (N := N) hk' a' h
        by_cases b : StaysBox qp k j
        · by_cases b' : StaysBox qp k' j'
          · have := d.1 b'
            rw [← e, conPos_box a b] at this
            omega
          · have := conPos_box_lt (N := N) hk a b
            rw [e, conPos_gen a' b'] at this
            omega
        · by_cases b' : StaysBox qp k' j'
          · have := conPos_box_lt (N := N) hk' a' b'
            rw [← e, conPos_gen a b] at this
            omega
          · have := d.2 b'
            rw [← e, conPos_gen a b] at this
            omega
      · rw [conPos_g a'] at e
        by_cases b : StaysBox qp k j
        · have := conPos_box_lt (N := N) hk a b
          omega
        · have := conPos_gen_lt (N := N) hk a b
          omega
    · rw [conPos_g a] at e
      by_cases a' : j' < qp.dim.nb k'
      · by_cases b : StaysBox qp k' j'
        · have := conPos_box_lt (N := N) hk' a' b
          omega
        · have := conPos_gen_lt (N := N) hk' a' b
          omega
      · rw [conPos_g a'] at e
        rcases h with h | ⟨h, h2⟩
        · have := gap qp.dim.ng k k' h hk'
          omega
        · subst h
          omega
  by_contra hne
  rcases Nat.lt_trichotomy k k' with h | h | h
  · exact key k j k' j' hk hk' hj hj' (Or.inl h) e
  · subst h
    rcases Nat.lt_trichotomy j j' with g | g | g
    · exact key k j' k j hk hk hj' hj (Or.inr ⟨rfl, g⟩) e.symm
    · exact hne ⟨rfl, g⟩
    · exact key k j k j' hk hk hj hj' (Or.inr ⟨rfl, g⟩) e
  · exact key k' j' k j hk' hk hj' hj (Or.inl h) e.symm

/-- there is a condensed vector with given entries -/
theorem ineq_target (qp : OcpQp K) (N : ℕ) (x : ℕ → Vec K) : ∃ T : Vec K, ∀ k j, k ≤ N → j < qp.dim.nb k + qp.dim.ng k →
    T (conPos qp N k j) = x k j ∧ T (ntCond qp N + conPos qp N k j) = x k (qp.dim.nb k + qp.dim.ng k + j) := by
  classical
  let sel : ℕ → ℕ × ℕ := fun p => if h : ∃ q : ℕ × ℕ, q.1 ≤ N ∧ q.2 < qp.dim.nb q.1 + qp.dim.ng q.1 ∧ conPos qp N q.1 q.2 = p then h.choose else (0, 0)
  have hsel : ∀ k j, k ≤ N → j < qp.dim.nb k + qp.dim.ng k → sel (conPos qp N k j) = (k, j) := by
    intro k j hk hj
    have h : ∃ q : ℕ × ℕ, q.1 ≤ N ∧ q.2 < qp.dim.nb q.1 + qp.dim.ng q.1 ∧ conPos qp N q.1 q.2 = conPos qp N k j := ⟨(k, j), hk, hj, rfl⟩
    have e : sel (conPos qp N k j) = h.choose := dif_pos h
    rw [e]
    obtain ⟨a, b, c⟩ := h.choose_spec
    obtain ⟨e1, e2⟩ := conPos_inj qp N _ _ _ _ a hk b hj c
    exact Prod.ext e1 e2
  refine ⟨fun p => if p < ntCond qp N then x (sel p).1 (sel p).2
    else x (sel (p - ntCond qp N)).1 (qp.dim.nb (sel (p - ntCond qp N)).1 + qp.dim.ng (sel (p - ntCond qp N)).1 + (sel (p - ntCond qp N)).2), fun k j hk hj => ⟨?_, ?_⟩⟩
  · dsimp only
    rw [if_pos (conPos_lt hk hj), hsel k j hk hj]
  · dsimp only
    rw [if_neg (by omega), Nat.add_sub_cancel_left, hsel k j hk hj]

/-- the wanted condensed vector -/
def CsTgt (qp : OcpQp K) (N : ℕ) (x : ℕ → Vec K) (T : Vec K) : Prop := ∀ k j, k ≤ N → j < qp.dim.nb k + qp.dim.ng k →
    T (conPos qp N k j) = x k j ∧ T (ntCond qp N + conPos qp N k j) = x k (qp.dim.nb k + qp.dim.ng k + j)

/-- entries of a constraint are written -/
def CsDone (qp : OcpQp K) (N : ℕ) (T y : Vec K) (k j : ℕ) : Prop :=
  y (conPos qp N k j) = T (conPos qp N k j) ∧ y (ntCond qp N + conPos qp N k j) = T (ntCond qp N + conPos qp N k j)

theorem CsDone.keep {qp : OcpQp K} {N : ℕ} {T y y' : Vec K} {k j : ℕ} (h : CsDone qp N T y k j) (t : Tow1 T y y') : CsDone qp N T y' k j :=
  ⟨t.keep h.1, t.keep h.2⟩

structure CbInv (qp : OcpQp K) (N : ℕ) (T y : Vec K) (k jj : ℕ) (s : Vec K × ℕ × ℕ) : Prop where
  nbb : s.2.1 = later (nBox qp) N k + Nat.count (StaysBox qp k) jj
  nbg : s.2.2 = later (nGen qp) N k + Nat.count (fun j => ¬ StaysBox qp k j) jj
  tow : Tow1 T y s.1
  good : ∀ k' j, k' ≤ N → j < qp.dim.nb k' → (k < k' ∨ k' = k ∧ j < jj) → CsDone qp N T s.1 k' j

theorem csBoxes_inv (qp : OcpQp K) (N : ℕ) (x : ℕ → Vec K) (T y : Vec K) (hT : CsTgt qp N x T) :
    CbInv qp N T y 0 0 (csBoxes qp N (nbCond qp N) (ngCond qp N) x y) := by
  unfold csBoxes
  dsimp only
  have key := loop_inv (fun n (s : Vec K × ℕ × ℕ) => CbInv qp N T y (N - n) 0 s) N
    (fun ii (s : Vec K × ℕ × ℕ) =>
      loop (qp.dim.nb (N - ii)) (fun jj (s : Vec K × ℕ × ℕ) =>
        if qp.idxb (N - ii) jj < qp.dim.nu (N - ii) then
          (upd (upd s.1 s.2.1 (x (N - ii) jj)) (nbCond qp N + ngCond qp N + s.2.1) (x (N - ii) (qp.dim.nb (N - ii) + qp.dim.ng (N - ii) + jj)), s.2.1 + 1, s.2.2)
        else
          (upd (upd s.1 (nbCond qp N + s.2.2) (x (N - ii) jj)) (2 * nbCond qp N + ngCond qp N + s.2.2)
            (x (N - ii) (qp.dim.nb (N - ii) + qp.dim.ng (N - ii) + jj)), s.2.1, s.2.2 + 1)) s) (y, 0, 0) ?_ ?_
  · simpa using key
  · refine ⟨?_, ?_, Tow1.refl _ _, fun k' j h1 h2 h3 => by omega⟩
    · show 0 = later _ N (N - 0) + _; rw [Nat.sub_zero, later_self, Nat.count_zero]
    · show 0 = later _ N (N - 0) + _; rw [Nat.sub_zero, later_self, Nat.count_zero]
  · intro n s hn I
    set k := N - n with hk
    have hk0 : 0 < k := by omega
    have inner := loop_inv (fun jj (s : Vec K × ℕ × ℕ) => CbInv qp N T y k jj s) (qp.dim.nb k)
      (fun jj (s : Vec K × ℕ × ℕ) =>
        if qp.idxb k jj < qp.dim.nu k then
          (upd (upd s.1 s.2.1 (x k jj)) (nbCond qp N + ngCond qp N + s.2.1) (x k (qp.dim.nb k + qp.dim.ng k + jj)), s.2.1 + 1, s.2.2)
        else
          (upd (upd s.1 (nbCond qp N + s.2.2) (x k jj)) (2 * nbCond qp N + ngCond qp N + s.2.2) (x k (qp.dim.nb k + qp.dim.ng k + jj)), s.2.1, s.2.2 + 1)) s I ?_
    · refine ⟨?_, ?_, inner.tow, fun k' j h1 h2 h3 => ?_⟩
      · rw [inner.nbb, show N - (n + 1) = k - 1 by omega, later_pred _ hk0 (by omega), Nat.count_zero]
        show _ + Nat.count (StaysBox qp k) (qp.dim.nb k) = nBox qp k + _ + 0
        unfold nBox; omega
      · rw [inner.nbg, show N - (n + 1) = k - 1 by omega, later_pred _ hk0 (by omega), Nat.count_zero]
        show _ + Nat.count (fun j => ¬ StaysBox qp k j) (qp.dim.nb k) = nGen qp k + _ + 0
        unfold nGen; omega
      · refine inner.good k' j h1 h2 ?_
        by_cases e : k' = k
        · right; exact ⟨e, by rw [← e]; exact h2⟩
        · left; omega
    · intro jj s hjj J
      have hkN : k ≤ N := by omega
      obtain ⟨hlo, hup⟩ := hT k jj hkN (by omega)
      have fin : ∀ (y' : Vec K) (a b : ℕ), Tow1 T s.1 y' → CsDone qp N T y' k jj →
          a = later (nBox qp) N k + Nat.count (StaysBox qp k) (jj + 1) → b = later (nGen qp) N k + Nat.count (fun j => ¬ StaysBox qp k j) (jj + 1) →
          CbInv qp N T y k (jj + 1) (y', a, b) := by
        intro y' a b ht h1 ha hb
        refine ⟨ha, hb, J.tow.trans ht, fun k' j g1 g2 g3 => ?_⟩
        by_cases e : k' = k ∧ j = jj
        · obtain ⟨rfl, rfl⟩ := e; exact h1
        · exact (J.good k' j g1 g2 (by omega)).keep ht
      by_cases hb : qp.idxb k jj < qp.dim.nu k
      · rw [if_pos hb]
        have hst : StaysBox qp k jj := Or.inr hb
        have e : s.2.1 = conPos qp N k jj := by rw [conPos_box (N := N) hjj hst, J.nbb]
        have e2 : nbCond qp N + ngCond qp N + s.2.1 = ntCond qp N + conPos qp N k jj := by rw [e]; rfl
        obtain ⟨t1, t2, t3⟩ := tow1_put2 (T := T) (y := s.1) (a := s.2.1) (b := nbCond qp N + ngCond qp N + s.2.1)
          (u := x k jj) (w := x k (qp.dim.nb k + qp.dim.ng k + jj)) (by rw [e, hlo]) (by rw [e2, hup])
        refine fin _ _ _ t1 ?_ ?_ ?_
        · unfold CsDone; rw [← e2, ← e]; exact ⟨t2, t3⟩
        · rw [J.nbb, Nat.count_succ, if_pos hst]; omega
        · rw [J.nbg, Nat.count_succ, if_neg (not_not.mpr hst)]; omega
      · rw [if_neg hb]
        have hst : ¬ StaysBox qp k jj := by rintro (h | h) <;> omega
        have e : nbCond qp N + s.2.2 = conPos qp N k jj := by rw [conPos_gen (N := N) hjj hst, J.nbg]
        have e2 : 2 * nbCond qp N + ngCond qp N + s.2.2 = ntCond qp N + conPos qp N k jj := by rw [← e]; unfold ntCond; omega
        obtain ⟨t1, t2, t3⟩ := tow1_put2 (T := T) (y := s.1) (a := nbCond qp N + s.2.2) (b := 2 * nbCond qp N + ngCond qp N + s.2.2)
          (u := x k jj) (w := x k (qp.dim.nb k + qp.dim.ng k + jj)) (by rw [e, hlo]) (by rw [e2, hup])
        refine fin _ _ _ t1 ?_ ?_ ?_
        · unfold CsDone; rw [← e2, ← e]; exact ⟨t2, t3⟩
        · rw [J.nbb, Nat.count_succ, if_neg hst]; omega
        · rw [J.nbg, Nat.count_succ, if_pos hst]; omega

structure CgInv (qp : OcpQp K) (N : ℕ) (T y : Vec K) (k jj : ℕ) (s : Vec K × ℕ) : Prop where
  ngg : s.2 = later qp.dim.ng N k + jj
  tow : Tow1 T y s.1
  good : ∀ k' j, k' ≤ N → j < qp.dim.ng k' → (k < k' ∨ k' = k ∧ j < jj) → CsDone qp N T s.1 k' (qp.dim.nb k' + j)

theorem csGens_inv (qp : OcpQp K) (N : ℕ) (x : ℕ → Vec K) (T y : Vec K) (hT : CsTgt qp N x T) :
    CgInv qp N T y 0 0 (csGens qp N (nbCond qp N) (ngCond qp N) (nbgCond qp N) x y) := by
  unfold csGens
  dsimp only
  have key := loop_inv (fun n (s : Vec K × ℕ) => CgInv qp N T y (N - n) 0 s) N
    (fun ii (s : Vec K × ℕ) =>
      loop (qp.dim.ng (N - ii)) (fun jj (s : Vec K × ℕ) =>
        (upd (upd s.1 (nbCond qp N + nbgCond qp N + s.2) (x (N - ii) (qp.dim.nb (N - ii) + jj))) (2 * nbCond qp N + ngCond qp N + nbgCond qp N + s.2)
          (x (N - ii) (2 * qp.dim.nb (N - ii) + qp.dim.ng (N - ii) + jj)), s.2 + 1)) s) (y, 0) ?_ ?_
  · simpa using key
  · refine ⟨?_, Tow1.refl _ _, fun k' j h1 h2 h3 => by omega⟩
    show 0 = later _ N (N - 0) + 0; rw [Nat.sub_zero, later_self]
  · intro n s hn I
    set k := N - n with hk
    have hk0 : 0 < k := by omega
    have inner := loop_inv (fun jj (s : Vec K × ℕ) => CgInv qp N T y k jj s) (qp.dim.ng k)
      (fun jj (s : Vec K × ℕ) =>
        (upd (upd s.1 (nbCond qp N + nbgCond qp N + s.2) (x k (qp.dim.nb k + jj))) (2 * nbCond qp N + ngCond qp N + nbgCond qp N + s.2)
          (x k (2 * qp.dim.nb k + qp.dim.ng k + jj)), s.2 + 1)) s I ?_
    · refine ⟨?_, inner.tow, fun k' j h1 h2 h3 => ?_⟩
      · rw [inner.ngg, show N - (n + 1) = k - 1 by omega, later_pred _ hk0 (by omega)]; omega
      · refine inner.good k' j h1 h2 ?_
        by_cases e : k' = k
        · right; exact ⟨e, by rw [← e]; exact h2⟩
        · left; omega
    · intro jj s hjj J
      have hkN : k ≤ N := by omega
      obtain ⟨hlo, hup⟩ := hT k (qp.dim.nb k + jj) hkN (by omega)
      have e : nbCond qp N + nbgCond qp N + s.2 = conPos qp N k (qp.dim.nb k + jj) := by
        rw [conPos_g (by omega), J.ngg]; omega
      have e2 : 2 * nbCond qp N + ngCond qp N + nbgCond qp N + s.2 = ntCond qp N + conPos qp N k (qp.dim.nb k + jj) := by
        rw [← e]; unfold ntCond; omega
      obtain ⟨t1, t2, t3⟩ := tow1_put2 (T := T) (y := s.1) (a := nbCond qp N + nbgCond qp N + s.2) (b := 2 * nbCond qp N + ngCond qp N + nbgCond qp N + s.2)
        (u := x k (qp.dim.nb k + jj)) (w := x k (2 * qp.dim.nb k + qp.dim.ng k + jj)) (by rw [e, hlo]) (by rw [e2, hup]; congr 1; omega)
      refine ⟨?_, J.tow.trans t1, fun k' j g1 g2 g3 => ?_⟩
      · show s.2 + 1 = _; rw [J.ngg]; omega
      · by_cases h : k' = k ∧ j = jj
        · obtain ⟨rfl, rfl⟩ := h
          unfold CsDone
          rw [← e2, ← e]
          exact ⟨t2, t3⟩
        · exact (J.good k' j g1 g2 (by omega)).keep t1

/-- boxes and general constraints: every entry of the stage vectors is at the position where the expansion reads it -/
theorem csIneq_val (qp : OcpQp K) (N : ℕ) (x : ℕ → Vec K) (y : Vec K) (k j : ℕ) (hk : k ≤ N) (hj : j < 2 * (qp.dim.nb k + qp.dim.ng k)) :
    csIneq qp N (nbCond qp N) (ngCond qp N) x y (ineqPos qp N k j) = x k j := by
  obtain ⟨T, hT⟩ := ineq_target qp N x
  have B := csBoxes_inv qp N x T y hT
  unfold csIneq
  generalize csBoxes qp N (nbCond qp N) (ngCond qp N) x y = s at B
  have hbox0 : ∀ i, i < qp.dim.nb 0 → conPos qp N 0 i = s.2.1 + i := by
    intro i hi
    rw [conPos_box hi (Or.inl rfl), B.nbb, Nat.count_zero]
    have : Nat.count (StaysBox qp 0) i = i := by
      rw [Nat.count_iff_forall]; intro n _; exact Or.inl rfl
    omega
  have enbg : s.2.2 = nbgCond qp N := by
    rw [B.nbg, Nat.count_zero]
    have h := later_zero_add (nGen qp) N
    have h0 : nGen qp 0 = 0 := (nBox_zero qp).2
    unfold nbgCond; omega
  rw [enbg]
  have c1 := tow1_cp (T := T) (y := s.1) (x := x 0) (n := qp.dim.nb 0) (xi := 0) (yi := s.2.1) (fun i hi => by
    rw [← hbox0 i hi, (hT 0 i (by omega) (by omega)).1, Nat.zero_add])
  generalize hy1 : veccp (qp.dim.nb 0) (x 0) 0 s.1 s.2.1 = y1 at c1
  have c2 := tow1_cp (T := T) (y := y1) (x := x 0) (n := qp.dim.nb 0) (xi := qp.dim.nb 0 + qp.dim.ng 0) (yi := nbCond qp N + ngCond qp N + s.2.1) (fun i hi => by
    rw [Nat.add_assoc (nbCond qp N + ngCond qp N), ← hbox0 i hi]
    exact (hT 0 i (by omega) (by omega)).2.symm)
  generalize hy2 : veccp (qp.dim.nb 0) (x 0) (qp.dim.nb 0 + qp.dim.ng 0) y1 (nbCond qp N + ngCond qp N + s.2.1) = y2 at c2
  have G := csGens_inv qp N x T y2 hT
  generalize csGens qp N (nbCond qp N) (ngCond qp N) (nbgCond qp N) x y2 = g at G
  have hg0 : ∀ i, i < qp.dim.ng 0 → conPos qp N 0 (qp.dim.nb 0 + i) = nbCond qp N + nbgCond qp N + g.2 + i := by
    intro i hi
    rw [conPos_g (by omega), G.ngg]; omega
  have c3 := tow1_cp (T := T) (y := g.1) (x := x 0) (n := qp.dim.ng 0) (xi := qp.dim.nb 0) (yi := nbCond qp N + nbgCond qp N + g.2) (fun i hi => by
    rw [← hg0 i hi]
    exact (hT 0 (qp.dim.nb 0 + i) (by omega) (by omega)).1.symm)
  generalize hy3 : veccp (qp.dim.ng 0) (x 0) (qp.dim.nb 0) g.1 (nbCond qp N + nbgCond qp N + g.2) = y3 at c3
  have c4 := tow1_cp (T := T) (y := y3) (x := x 0) (n := qp.dim.ng 0) (xi := 2 * qp.dim.nb 0 + qp.dim.ng 0) (yi := 2 * nbCond qp N + ngCond qp N + nbgCond qp N + g.2)
    (fun i hi => by
      have := (hT 0 (qp.dim.nb 0 + i) (by omega) (by omega)).2
      rw [hg0 i hi] at this
      rw [show 2 * nbCond qp N + ngCond qp N + nbgCond qp N + g.2 + i = ntCond qp N + (nbCond qp N + nbgCond qp N + g.2 + i) by unfold ntCond; omega, this]
      congr 1; omega)
  generalize hy4 : veccp (qp.dim.ng 0) (x 0) (2 * qp.dim.nb 0 + qp.dim.ng 0) y3 (2 * nbCond qp N + ngCond qp N + nbgCond qp N + g.2) = y4 at c4
  have done : ∀ j, j < qp.dim.nb k + qp.dim.ng k → CsDone qp N T y4 k j := by
    intro j hj
    by_cases hb : j < qp.dim.nb k
    · by_cases e : k = 0
      · subst e
        refine ⟨?_, ?_⟩
        · refine c4.1.keep (c3.1.keep (G.tow.keep (c2.1.keep ?_)))
          rw [hbox0 j hb]; exact c1.2 j hb
        · refine c4.1.keep (c3.1.keep (G.tow.keep ?_))
          have := c2.2 j hb
          have e2 : ntCond qp N + (s.2.1 + j) = nbCond qp N + ngCond qp N + s.2.1 + j := by unfold ntCond; omega
          rw [hbox0 j hb, e2]; exact this
      · exact ((((B.good k j hk hb (by omega)).keep c1.1).keep c2.1).keep G.tow).keep c3.1 |>.keep c4.1
    · obtain ⟨i, rfl⟩ : ∃ i, j = qp.dim.nb k + i := ⟨j - qp.dim.nb k, by omega⟩
      by_cases e : k = 0
      · subst e
        refine ⟨?_, ?_⟩
        · refine c4.1.keep ?_
          rw [hg0 i (by omega)]; exact c3.2 i (by omega)
        · have := c4.2 i (by omega)
          rw [show 2 * nbCond qp N + ngCond qp N + nbgCond qp N + g.2 + i = ntCond qp N + (nbCond qp N + nbgCond qp N + g.2 + i) by unfold ntCond; omega,
            ← hg0 i (by omega)] at this
          exact this
      · exact ((G.good k i hk (by omega) (by omega)).keep c3.1).keep c4.1
  by_cases hl : j < qp.dim.nb k + qp.dim.ng k
  · rw [ineqPos_lo hl, (done j hl).1, (hT k j hk hl).1]
  · obtain ⟨i, rfl⟩ : ∃ i, j = qp.dim.nb k + qp.dim.ng k + i := ⟨j - (qp.dim.nb k + qp.dim.ng k), by omega⟩
    rw [ineqPos_up (by omega), (done i (by omega)).2, (hT k i hk (by omega)).2]

/-- what condensing a solution and expanding the result again keeps of it -/
structure CsRound (qp : OcpQp K) (N : ℕ) (cls : Bool) (sol sol' : Sol K) : Prop where
  ux : ∀ k j, k ≤ N → j < qp.dim.nu k + qp.dim.nx k → sol'.ux k j = sol.ux k j
  lam : ∀ k j, k ≤ N → j < 2 * qp.dim.nb k + 2 * qp.dim.ng k → sol'.lam k j = sol.lam k j
  t : ∀ k j, k ≤ N → j < 2 * qp.dim.nb k + 2 * qp.dim.ng k → sol'.t k j = sol.t k j
  last : cls = false → ∀ i, i < qp.dim.nx qp.dim.N → sol'.pi (qp.dim.N - 1) i = sol.pi (qp.dim.N - 1) i

/-- every expansion of the condensed solution, see `condSol_round` -/
theorem condSol_round_of (qp : OcpQp K) (arg : CondArg) (sol sol1 sol' : Sol K) (ds : DSol K) (N : ℕ)
    (htop : condTop qp.dim.N arg = some N) (hp : arg.comp_prim_sol ≠ 0) (he : arg.comp_dual_sol_eq ≠ 0) (hi : arg.comp_dual_sol_ineq ≠ 0)
    (hns : ∀ k, k ≤ N → qp.dim.ns k = 0)
    (hd : ∀ k i, k < N → i < qp.dim.nx (k + 1) → dynRes qp sol.ux k i = 0)
    (E : Expanded qp N arg.cond_last_stage (condSolFwd qp arg sol ds) sol1 sol') : CsRound qp N arg.cond_last_stage sol sol' := by
  have hN : (if arg.cond_last_stage = false then qp.dim.N - 1 else qp.dim.N) = N := by
    unfold condTop at htop
    by_cases h : arg.cond_last_stage = true
    · rw [if_pos h] at htop; rw [if_neg (by rw [h]; simp)]; exact Option.some.inj htop
    · rw [if_neg h] at htop
      split at htop
      · exact absurd htop (by simp)
      · rw [if_pos (by simpa using h)]; exact Option.some.inj htop
  have hNp : arg.cond_last_stage = false → 0 < qp.dim.N := by
    intro h
    unfold condTop at htop
    rw [if_neg (by rw [h]; simp)] at htop
    by_contra hh
    rw [if_pos (by omega)] at htop
    exact absurd htop (by simp)
  have hnv : ∀ k, nvt qp.dim k = qp.dim.nu k + qp.dim.nx k + 2 * qp.dim.ns k := fun k => by unfold nvt; omega
  have hnc : ∀ k, nct qp.dim k = 2 * qp.dim.nb k + 2 * qp.dim.ng k + 2 * qp.dim.ns k := fun k => by unfold nct; omega
  by_cases h0 : N = 0 ∧ arg.cond_last_stage = true
  · have ev : (condSolFwd qp arg sol ds).v = veccp (qp.dim.nu 0 + qp.dim.nx 0 + 2 * qp.dim.ns 0) (sol.ux 0) 0 ds.v 0 := by
      unfold condSolFwd; dsimp only; rw [hN, if_pos h0]; dsimp only; rw [if_pos hp]
    have el : (condSolFwd qp arg sol ds).lam = veccp (2 * qp.dim.nb 0 + 2 * qp.dim.ng 0 + 2 * qp.dim.ns 0) (sol.lam 0) 0 ds.lam 0 := by
      unfold condSolFwd; dsimp only; rw [hN, if_pos h0]; dsimp only; rw [if_pos hi]
    have et : (condSolFwd qp arg sol ds).t = veccp (2 * qp.dim.nb 0 + 2 * qp.dim.ng 0 + 2 * qp.dim.ns 0) (sol.t 0) 0 ds.t 0 := by
      unfold condSolFwd; dsimp only; rw [hN, if_pos h0]; dsimp only; rw [if_pos hi]
    obtain ⟨rfl, hc⟩ := h0
    refine ⟨fun k j hk hj => ?_, fun k j hk hj => ?_, fun k j hk hj => ?_, fun h => by rw [hc] at h; exact absurd h (by simp)⟩
    · obtain rfl : k = 0 := by omega
      rw [E.ux 0 j hk (by rw [hnv]; omega), stageOf_one, ev, vcp_in (by omega) (by omega)]; congr 1; omega
    · obtain rfl : k = 0 := by omega
      rw [E.lam 0 j hk (by rw [hnc]; omega), ineqPos_one qp j (by rw [hnc]; omega), el, vcp_in (by omega) (by omega)]; congr 1; omega
    · obtain rfl : k = 0 := by omega
      rw [E.t 0 j hk (by rw [hnc]; omega), ineqPos_one qp j (by rw [hnc]; omega), et, vcp_in (by omega) (by omega)]; congr 1; omega
  · have ev : (condSolFwd qp arg sol ds).v = csInputs qp N sol.ux ds.v := by
      unfold condSolFwd; dsimp only; rw [hN, if_neg h0]; dsimp only; rw [if_neg hp, csSlk_none _ _ _ _ _ _ _ hns]
    have el : (condSolFwd qp arg sol ds).lam = csIneq qp N (nbCond qp N) (ngCond qp N) sol.lam ds.lam := by
      unfold condSolFwd; dsimp only; rw [hN, if_neg h0]; dsimp only
      rw [if_neg hi, csSlk_none _ _ _ _ _ _ _ hns, nbCond_eq, nbgCond_eq, sumTo_eq]; rfl
    have et : (condSolFwd qp arg sol ds).t = csIneq qp N (nbCond qp N) (ngCond qp N) sol.t ds.t := by
      unfold condSolFwd; dsimp only; rw [hN, if_neg h0]; dsimp only
      rw [if_neg hi, csSlk_none _ _ _ _ _ _ _ hns, nbCond_eq, nbgCond_eq, sumTo_eq]; rfl
    refine ⟨fun k j hk hj => ?_, fun k j hk hj => ?_, fun k j hk hj => ?_, fun h i hix => ?_⟩
    · rw [E.ux k j hk (by rw [hnv]; omega), ev, ← stageOf_condVec qp N sol.ux hd k j hk (by rw [hnv]; omega)]
      obtain ⟨a1, a2⟩ := csInputs_val qp N sol.ux ds.v
      refine stageOf_in qp N _ _ (fun k i hk hi => ?_) (fun i hi => ?_) k j hk hj
      · rw [a1 k i hk hi]
        unfold condVec
        have : later qp.dim.nu N k + i < nuAll qp.dim N := later_lt qp.dim.nu hk hi
        rw [if_pos this, flatL_at _ _ _ _ _ hk hi]
      · rw [a2 i hi]
        unfold condVec
        rw [if_neg (by omega), if_pos (by unfold nvCond; omega), Nat.add_sub_cancel_left]
    · rw [E.lam k j hk (by rw [hnc]; omega), el]
      exact csIneq_val qp N sol.lam ds.lam k j hk (by omega)
    · rw [E.t k j hk (by rw [hnc]; omega), et]
      exact csIneq_val qp N sol.t ds.t k j hk (by omega)
    · rw [E.last (hNp h) i hix, if_pos h]
      unfold condSolFwd; dsimp only; rw [hN, if_neg h0]; dsimp only
      rw [if_neg he, if_pos h, vcp_in (by omega) (by omega)]; congr 1; omega

/-- C104: without soft constraints, expanding the condensed solution gives back every trajectory that satisfies the dynamics, the multipliers and slacks
of every inequality, and (last stage not condensed) the last equality multiplier -/
theorem condSol_round (qp : OcpQp K) (arg : CondArg) (ws : CondWs K) (sol sol0 : Sol K) (ds : DSol K) (N : ℕ)
    (htop : condTop qp.dim.N arg = some N) (hp : arg.comp_prim_sol ≠ 0) (he : arg.comp_dual_sol_eq ≠ 0) (hi : arg.comp_dual_sol_ineq ≠ 0)
    (hns : ∀ k, k ≤ N → qp.dim.ns k = 0)
    (hd : ∀ k i, k < N → i < qp.dim.nx (k + 1) → dynRes qp sol.ux k i = 0) :
    CsRound qp N arg.cond_last_stage sol (expandSol qp arg ws (condSolFwd qp arg sol ds) sol0).2 := by
  exact condSol_round_of qp arg sol sol0 _ ds N htop hp he hi hns hd (expandSol_val qp arg ws (condSolFwd qp arg sol ds) sol0 N htop hp he hi)

end
end Hpipm
