/-
C91: what the removal of linearly dependent equality constraints does not guarantee (concrete runs of the model over ℚ, checked by
the kernel, with the threshold of the code), and non-trivial cases of the theorems of LinDepProps and LinDepIncons.
-/
import Verif.LinDepIncons

namespace Hpipm
open Finset

/-- a QP with the given equality constraints and nothing else -/
def ldQp (nv : ℕ) (rows : List (List ℚ)) (b : List ℚ) : DenseQp ℚ :=
  { dim := ⟨nv, rows.length, 0, 0, 0⟩
    Hv := fun _ _ => 0
    A := fun r c => (rows.getD r []).getD c 0
    Ct := fun _ _ => 0
    gz := fun _ => 0
    b := fun r => b.getD r 0
    d := fun _ => 0
    d_mask := fun _ => 1
    m := fun _ => 0
    Z := fun _ => 0
    idxb := fun _ => 0
    idxs_rev := fun _ => -1 }

/-- a zeroed workspace (DENSE_QP_IPM_WS_CREATE zeroes the memory block, x_dense_qp_ipm.c:797-799, but not the struct: `ne_bkp = 0` here
is the favourable case) -/
def ldWs0 : LdWs ℚ := ⟨fun _ _ => 0, fun _ => 0, fun _ _ => 0, fun _ => 0, 0, fun _ _ => 0, fun _ => 0, false⟩

/-- `REAL thr = 1e-14;`, x_dense_qp_kkt.c:2927 -/
def ldThr : ℚ := 1 / 10 ^ 14

/-- number of constraints left and inconsistency flag -/
def ldOut (q : DenseQp ℚ) : Option (ℕ × Bool) := (removeLinDep ldThr q ldWs0).map (fun o => (o.1.dim.ne, o.2.incons))

/-- rows left -/
def ldRows (q : DenseQp ℚ) : Option (List (List ℚ)) :=
  (removeLinDep ldThr q ldWs0).map (fun o => (List.range o.1.dim.ne).map (fun r => (List.range o.1.dim.nv).map (o.1.A r)))

/-- the equality constraints of a concrete QP hold at a concrete point -/
def eqOkB (q : DenseQp ℚ) (x : Vec ℚ) : Bool :=
  (List.range q.dim.ne).all (fun r => decide ((∑ c ∈ range q.dim.nv, q.A r c * x c) = q.b r))

theorem eqOkB_iff (q : DenseQp ℚ) (x : Vec ℚ) : eqOkB q x = true ↔ EqSat q x := by
  unfold eqOkB EqSat
  rw [List.all_eq_true]
  constructor
  · intro h r hr; exact of_decide_eq_true (h r (List.mem_range.mpr hr))
  · intro h r hr; exact decide_eq_true (h r (List.mem_range.mp hr))

/-! ### it works -/

def ldGood : DenseQp ℚ := ldQp 3 [[1, 2, 0], [0, 1, 1], [1, 3, 1]] [1, 2, 3]

/-- the third constraint is the sum of the first two, one constraint goes; the hypotheses of `remove_rows`, `remove_feasible`
and `remove_restore` hold and the conclusions are not trivial -/
example : ∃ qp' ws', removeLinDep ldThr ldGood ldWs0 = some (qp', ws') ∧ qp'.dim.ne = 2 ∧ ws'.incons = false ∧
    restoreLinDep qp' ws' = ldGood ∧ EqSat qp' (fun c => if c = 0 then 1 else if c = 2 then 2 else 0) := by
  have h : ldOut ldGood = some (2, false) := by decide +kernel
  unfold ldOut at h
  rw [Option.map_eq_some_iff] at h
  obtain ⟨⟨qp', ws'⟩, h1, h2⟩ := h
  obtain ⟨h3, h4⟩ := Prod.mk.inj h2
  have h3 : qp'.dim.ne = 2 := h3
  exact ⟨qp', ws', h1, h3, h4, (remove_restore ldThr ldGood qp' ldWs0 ws' h1 (Nat.zero_le _) (Or.inr (by omega))).1,
    remove_feasible ldThr ldGood qp' ldWs0 ws' h1 _ ((eqOkB_iff _ _).mp (by decide +kernel))⟩

/-- the same left hand sides, inconsistent right hand sides: detected; the hypotheses of `remove_incons_sound` hold -/
example : ∃ qp' ws', removeLinDep 0 (ldQp 3 [[1, 2, 0], [0, 1, 1], [1, 3, 1]] [1, 2, 4]) ldWs0 = some (qp', ws') ∧ ws'.incons = true ∧
    ∀ x, ¬ EqSat (ldQp 3 [[1, 2, 0], [0, 1, 1], [1, 3, 1]] [1, 2, 4]) x := by
  have h : (removeLinDep 0 (ldQp 3 [[1, 2, 0], [0, 1, 1], [1, 3, 1]] [1, 2, 4]) ldWs0).map (fun o => o.2.incons) = some true := by
    decide +kernel
  rw [Option.map_eq_some_iff] at h
  obtain ⟨⟨qp', ws'⟩, h1, h2⟩ := h
  exact ⟨qp', ws', h1, h2, (remove_incons_sound _ qp' ldWs0 ws' h1 h2).1⟩

/-! ### what goes wrong -/

def ldLost : DenseQp ℚ := ldQp 4 [[0, -4, 0, 0], [0, -2, 3, 0], [0, 3, 1, 1], [0, 2, 3, 0]] [0, 0, 0, 0]

/-- **finding** A constraint that is independent of the others is removed, without a message: the solver then works on a QP whose
feasible points need not satisfy the caller's constraints. (Constraints 0, 1, 3 are kept, although they are dependent; constraint 2,
the only one with the last variable, is dropped.) -/
theorem lost_constraint : ∃ qp' ws', removeLinDep ldThr ldLost ldWs0 = some (qp', ws') ∧ ws'.incons = false ∧
    ∃ x, EqSat qp' x ∧ ¬ EqSat ldLost x := by
  have h : (removeLinDep ldThr ldLost ldWs0).map (fun o => (o.2.incons, eqOkB o.1 (fun c => if c = 3 then 1 else 0))) =
      some (false, true) := by decide +kernel
  rw [Option.map_eq_some_iff] at h
  obtain ⟨⟨qp', ws'⟩, h1, h2⟩ := h
  obtain ⟨h3, h4⟩ := Prod.mk.inj h2
  refine ⟨qp', ws', h1, h3, _, (eqOkB_iff _ _).mp h4, fun hx => ?_⟩
  rw [← eqOkB_iff] at hx
  exact absurd hx (by decide +kernel)

/-- which constraints are left in `lost_constraint` -/
example : ldRows ldLost = some [[0, -4, 0, 0], [0, -2, 3, 0], [0, 2, 3, 0]] := by decide +kernel

/-- **finding** Two equal constraints are both kept (the elimination uses the absolute value of the entry). -/
theorem dep_kept : ldRows (ldQp 2 [[0, -1], [0, -1]] [0, 0]) = some [[0, -1], [0, -1]] := by decide +kernel

/-- **finding** Inconsistent constraints `x = 0`, `x = -1` are not detected when there are more constraints than variables (the
column of the right hand side is used for pivoting). -/
theorem incons_missed : ldOut (ldQp 1 [[1], [1]] [0, -1]) = some (2, false) ∧ ∀ x, ¬ EqSat (ldQp 1 [[1], [1]] [0, -1]) x := by
  refine ⟨by decide +kernel, fun x hx => ?_⟩
  have h0 := hx 0 (by decide)
  have h1 := hx 1 (by decide)
  simp [ldQp] at h0 h1
  linarith

/-- **finding** When every constraint is removed the caller does not get the QP back: after the solve the QP has no equality
constraints, and the next solve ignores them whatever they have become. -/
theorem restore_fails : ∃ qp' ws', removeLinDep ldThr (ldQp 1 [[0]] [0]) ldWs0 = some (qp', ws') ∧ (restoreLinDep qp' ws').dim.ne = 0 := by
  have h : (removeLinDep ldThr (ldQp 1 [[0]] [0]) ldWs0).map (fun o => (restoreLinDep o.1 o.2).dim.ne) = some 0 := by decide +kernel
  rw [Option.map_eq_some_iff] at h
  obtain ⟨⟨qp', ws'⟩, h1, h2⟩ := h
  exact ⟨qp', ws', h1, h2⟩

/-- **finding** A workspace that has been used with more equality constraints corrupts a QP of which nothing was removed: RESTORE
puts the constraints of the earlier QP in its place. -/
theorem restore_stale : ∃ qp1 ws1 qp2 ws2, removeLinDep ldThr ldGood ldWs0 = some (qp1, ws1) ∧ restoreLinDep qp1 ws1 = ldGood ∧
    removeLinDep ldThr (ldQp 3 [[1, 0, 0]] [5]) ws1 = some (qp2, ws2) ∧ qp2 = ldQp 3 [[1, 0, 0]] [5] ∧
    (restoreLinDep qp2 ws2).dim.ne = 3 := by
  have h : ldOut ldGood = some (2, false) := by decide +kernel
  unfold ldOut at h
  rw [Option.map_eq_some_iff] at h
  obtain ⟨⟨qp1, ws1⟩, h1, h2⟩ := h
  obtain ⟨h3, -⟩ := Prod.mk.inj h2
  have h3 : qp1.dim.ne = 2 := h3
  have e : ((removeLinDep ldThr ldGood ldWs0).bind fun o => (removeLinDep ldThr (ldQp 3 [[1, 0, 0]] [5]) o.2).map fun o' =>
    (o'.1.dim.ne, (restoreLinDep o'.1 o'.2).dim.ne)) = some (1, 3) := by decide +kernel
  rw [h1, Option.bind_some, Option.map_eq_some_iff] at e
  obtain ⟨⟨qp2, ws2⟩, h4, h5⟩ := e
  obtain ⟨h6, h7⟩ := Prod.mk.inj h5
  refine ⟨qp1, ws1, qp2, ws2, h1, (remove_restore ldThr ldGood qp1 ldWs0 ws1 h1 (Nat.zero_le _) (Or.inr (by omega))).1, h4, ?_, h7⟩
  exact remove_none _ _ _ _ _ h4 h6

end Hpipm
