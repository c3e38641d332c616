/-
Split condensing on concrete problems; where the split functions and COND_QP_COND / EXPAND_SOL disagree.
-/
import Verif.CondSplitUser
import Verif.CondFullEx

namespace Hpipm
open Finset

/-- the problem of `CondFullEx` with other vectors -/
def exCsQp (a : ℚ) : OcpQp ℚ := { exCfQp with b := fun _ _ => a, rqz := fun _ _ => a, d := fun k j => if k = 0 then -5 - a else if j = 0 then -4 else -6 }

theorem exCs_ok (sq : ℚ → ℚ) : SplitOk sq exCfQp exCfDq exCfArg :=
  ⟨exCf_call, by decide, ⟨fun _ _ => rfl, fun _ _ _ _ => rfl⟩, rfl, exCf_sq sq, fun h => absurd rfl h⟩

theorem exCs_same (a : ℚ) : LhsSame exCfQp (exCsQp a) := ⟨rfl, fun _ _ _ _ => rfl, fun _ _ _ _ _ => rfl, rfl, rfl, rfl, rfl⟩

/-- the square-root variant (the default): the state cost of `CondFullEx` is positive definite -/
example (sq : ℚ → ℚ) (hsq : ∀ x, 0 < x → sq x * sq x = x) : SplitOk sq exCfQp exCfDq condArgDefault :=
  ⟨⟨exCf_call.wf, exCf_call.dims, exCf_call.split, rfl, Or.inl rfl, exCf_call.fresh⟩, by decide, ⟨fun _ _ => rfl, fun _ _ _ _ => rfl⟩, rfl,
    fun _ => hsq, fun _ k h1 h2 => by
      obtain rfl : k = 1 := Nat.le_antisymm h2 h1
      intro v hv
      obtain ⟨i, hi, hne⟩ := hv
      obtain rfl : i = 0 := Nat.lt_one_iff.mp hi
      have e : qform (exCfQp.dim.nx 1) (symL (exCfQp.RSQrq 1) (exCfQp.dim.nu 1) (exCfQp.dim.nu 1)) v = v 0 * v 0 := by
        unfold qform
        show ∑ i ∈ range 1, ∑ j ∈ range 1, v i * symL (exCfQp.RSQrq 1) 0 0 i j * v j = _
        rw [sum_range_one, sum_range_one]
        show v 0 * 1 * v 0 = _
        ring
      rw [e]
      exact mul_self_pos.mpr hne⟩

/-- three calls; the last vectors count -/
example (sq : ℚ → ℚ) : ∃ w' dq', splitRun sq exCfQp exCfDq exCfArg exCfWs ([exCsQp 7, exCfQp] ++ [exCsQp 2]) = some (w', dq') ∧
    ∃ c : ℚ, ∀ (w : CondWs ℚ) (ds : DqSol ℚ) (sol : Sol ℚ),
      (view (exCsQp 2)).objective (ptOf exCfDim (condQpExpand (exCsQp 2) exCfArg w ds sol).2.ux)
        = (dview dq').objective (dptOf dq'.dim ds.v) + c := by
  obtain ⟨w', dq', h1, c, h2⟩ := split_equivalent (sq := sq) (ws := exCfWs) (exCs_ok sq) exCf_all [exCsQp 7, exCfQp] (by
    intro x hx
    simp only [List.mem_cons, List.not_mem_nil, or_false] at hx
    rcases hx with rfl | rfl
    · exact exCs_same 7
    · exact exCs_same 1 |> fun _ => ⟨rfl, fun _ _ _ _ => rfl, fun _ _ _ _ _ => rfl, rfl, rfl, rfl, rfl⟩) (exCs_same 2)
  exact ⟨w', dq', h1, c, fun w ds sol => (h2 w ds sol).1⟩

/-- what is written: gradient and bounds of the last problem, Hessian of the first call -/
example : ((splitRun id exCfQp exCfDq exCfArg exCfWs [exCsQp 7, exCsQp 2]).map fun r =>
    (r.2.Hv 0 0, r.2.gz 0, r.2.d 0, r.2.d 1, r.2.Ct 0 0)) = some (2, 6, -7, -6, 1) := by decide +kernel

/-! ### disagreements -/

/-- soft constraints: one input with a soft bound at stage 0, one soft general constraint at stage 1 -/
def exCsoftDim : QpDim where
  N := 1
  nx := fun _ => 1
  nu := fun k => if k = 0 then 1 else 0
  nb := fun k => if k = 0 then 1 else 0
  nbx := fun _ => 0
  nbu := fun k => if k = 0 then 1 else 0
  ng := fun k => if k = 0 then 0 else 1
  ns := fun _ => 1

/-- slack weights `1` at stage 0 and `2` at stage 1 -/
def exCsoftQp : OcpQp ℚ where
  dim := exCsoftDim
  BAbt := fun _ r _ => if r = 0 then 1 else 0
  RSQrq := fun _ r c => if r = c then 1 else 0
  DCt := fun _ _ _ => 1
  b := fun _ _ => 0
  rqz := fun _ _ => 0
  d := fun _ _ => -5
  d_mask := fun _ _ => 1
  m := fun _ _ => 0
  Z := fun k _ => if k = 0 then 1 else 2
  idxb := fun _ _ => 0
  idxs_rev := fun _ _ => 0
  idxe := fun _ _ => 0
  diag_H_flag := fun _ => 0

/-- the dense QP as created -/
def exCsoftDq : DenseQp ℚ := { exCfDq with dim := ⟨2, 0, 1, 1, 2⟩ }

theorem exCsoft_call : CondCall exCsoftQp exCsoftDq exCfArg := by
  refine ⟨⟨fun k j hk hj => ?_, fun k j hk hj => Or.inr ⟨le_refl _, Nat.zero_lt_one⟩⟩, by decide, fun k hk => ⟨?_, fun j hj => ?_⟩, rfl, Or.inl rfl,
    fun k j _ _ h => absurd (show (0 : ℤ) = -1 from h) (by decide)⟩
  · show 0 < (if k = 0 then 1 else 0) + 1
    omega
  · show (if k = 0 then 1 else 0) = 0 + (if k = 0 then 1 else 0)
    omega
  · have hj : j < (if k = 0 then 1 else 0) := hj
    show 0 < (if k = 0 then 1 else 0) ↔ j < (if k = 0 then 1 else 0)
    omega

/-- the dense QP written by the split functions and the one written by COND_QP_COND -/
def exCsoftSplit : Option (CondWs ℚ × DenseQp ℚ) := splitRun id exCsoftQp exCsoftDq exCfArg exCfWs [exCsoftQp]
def exCsoftFull : DenseQp ℚ := condDense id exCsoftQp exCsoftDq exCfArg exCfWs

/-- **Slacks are numbered differently** (C93): the split functions number the slacks in order of appearance of the soft constraints (all
boxes first), COND_QP_COND stage by stage; the dense QPs of the same problem have different soft-constraint indices and slack weights. -/
theorem split_slack_order_differs :
    (exCsoftSplit.map fun r => (r.2.idxs_rev 0, r.2.idxs_rev 1, r.2.Z 0, r.2.Z 1)) = some (0, 1, 1, 2) ∧
    (exCsoftFull.idxs_rev 0, exCsoftFull.idxs_rev 1, exCsoftFull.Z 0, exCsoftFull.Z 1) = (1, 0, 2, 1) := by
  constructor <;> decide +kernel

/-- a dense point with one slack -/
def exCsoftSol (a : ℚ) : DqSol ℚ := ⟨fun i => if i = 2 then a else 0, fun _ => 0, fun _ => 0, fun _ => 0⟩
def exCsoftZero : Sol ℚ := ⟨fun _ _ => 0, fun _ _ => 0, fun _ _ => 0, fun _ _ => 0⟩

/-- **Split condensing of soft constraints is wrong** (C93): with soft constraints the expansion of COND_QP_EXPAND_SOL does not fit the dense
QP written by the split functions: no constant makes the costs agree. -/
theorem split_soft_wrong : ∃ (w' : CondWs ℚ) (dq' : DenseQp ℚ), splitRun id exCsoftQp exCsoftDq exCfArg exCfWs [exCsoftQp] = some (w', dq') ∧
    ¬ ∃ c : ℚ, ∀ (ds : DqSol ℚ) (sol : Sol ℚ), (view exCsoftQp).objective (ptOf exCsoftDim (condQpExpand exCsoftQp exCfArg w' ds sol).2.ux)
      = (dview dq').objective (dptOf dq'.dim ds.v) + c := by
  have key : (exCsoftSplit.map fun r =>
      ((view exCsoftQp).objective (ptOf exCsoftDim (condQpExpand exCsoftQp exCfArg r.1 (exCsoftSol 0) exCsoftZero).2.ux)
        - (dview r.2).objective (dptOf r.2.dim (exCsoftSol 0).v),
       (view exCsoftQp).objective (ptOf exCsoftDim (condQpExpand exCsoftQp exCfArg r.1 (exCsoftSol 1) exCsoftZero).2.ux)
        - (dview r.2).objective (dptOf r.2.dim (exCsoftSol 1).v))) = some (0, 1 / 2) := by decide +kernel
  unfold exCsoftSplit at key
  rcases hr : splitRun id exCsoftQp exCsoftDq exCfArg exCfWs [exCsoftQp] with _ | ⟨w', dq'⟩
  · rw [hr] at key; simp at key
  · rw [hr] at key
    simp only [Option.map_some, Option.some.injEq, Prod.mk.injEq] at key
    refine ⟨w', dq', rfl, ?_⟩
    rintro ⟨c, hc⟩
    have a := hc (exCsoftSol 0) exCsoftZero
    have b := hc (exCsoftSol 1) exCsoftZero
    obtain ⟨k1, k2⟩ := key
    rw [a] at k1
    rw [b] at k2
    linarith

/-- a concave terminal cost -/
def exCneg : OcpQp ℚ := { exCfQp with RSQrq := fun k r c => if r = c then (if k = 0 then 3 else -1) else 0 }

/-- **No fallback in the square-root variant** (C93): with the default option (square-root recursion) COND_QP_COND recognises a cost-to-go that is not
positive definite and uses the classical recursion, COND_QP_COND_LHS does not, and writes a different (wrong) Hessian. -/
theorem split_sqrt_no_fallback :
    ((condLhs id exCneg exCfDq condArgDefault exCfWs).map fun r => r.2.2.Hv 0 0) = some 3 ∧
    ((condQpCond id exCneg exCfDq condArgDefault exCfWs).map fun r => r.2.2.Hv 0 0) = some 2 := by
  constructor <;> decide +kernel

/-- **Stale complementarity right-hand side** (C93): COND_QP_COND writes `m`, the split functions do not. -/
theorem split_stale_m :
    ((splitRun id { exCfQp with m := fun _ _ => 5 } exCfDq exCfArg exCfWs [{ exCfQp with m := fun _ _ => 5 }]).map fun r => r.2.m 0) = some 0 ∧
    ((condQpCond id { exCfQp with m := fun _ _ => 5 } exCfDq exCfArg exCfWs).map fun r => r.2.2.m 0) = some 5 := by
  constructor <;> decide +kernel

end Hpipm
