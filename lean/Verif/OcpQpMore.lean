/-
More on the QP object: complementarity targets, reset of the right-hand sides, dispatch by field name.
-/
import Verif.OcpQpProps

namespace Hpipm
open OcpQp
set_option linter.unusedSectionVars false

section
variable {K : Type*} [Field K] [LinearOrder K] [IsStrictOrderedRing K]

/-- the mask field that speaks about the same constraints as a target field -/
def maskField : MField → RField
  | .lb => .lb_mask | .lbx => .lbx_mask | .lbu => .lbu_mask
  | .ub => .ub_mask | .ubx => .ubx_mask | .ubu => .ubu_mask
  | .lg => .lg_mask | .ug => .ug_mask | .lls => .lls_mask | .lus => .lus_mask

/-- **C07** A target field is stored for the same constraints as the mask field of the same name: the targets after a set are
the masks one would have got by setting the corresponding mask on an object whose masks are the old targets. -/
theorem qp_setM_pairs (f : MField) (k : ℕ) (v : ℕ → K) (qp : OcpQp K) :
    (setM f k v qp).m = (setR (maskField f) k v { qp with d_mask := qp.m }).d_mask := by
  cases f <;> rfl

/-- **C07** in terms of values: read through the layout of the corresponding mask, the targets are the user's, other fields
that share no entries keep their targets, and all other data of the QP are the same. -/
theorem qp_setM_val (f : MField) (k : ℕ) (v out : ℕ → K) (qp : OcpQp K) :
    getR (maskField f) k { qp with d_mask := (setM f k v qp).m } out = mix (userLen (maskField f) qp.dim k) v out ∧
    (∀ (g : MField) (l : ℕ), qp.dim.Ok → (l ≠ k ∨ shares (maskField f) (maskField g) = false) →
      getR (maskField g) l { qp with d_mask := (setM f k v qp).m } out = getR (maskField g) l { qp with d_mask := qp.m } out) ∧
    { setM f k v qp with m := qp.m } = qp := by
  refine ⟨?_, ?_, by cases f <;> rfl⟩
  · rw [qp_setM_pairs, ← qp_get_set_same (maskField f) k v out { qp with d_mask := qp.m }]
    cases f <;> rfl
  · intro g l hD h
    rw [qp_setM_pairs, ← qp_get_set_other (maskField f) (maskField g) k l v out { qp with d_mask := qp.m } hD h]
    cases f <;> cases g <;> rfl

/-- **C07** the target of all constraints at once -/
theorem qp_setMAll_val (v : K) (qp : OcpQp K) (k j : ℕ) :
    (setMAll v qp).m k j = if k ≤ qp.dim.N ∧ j < 2 * qp.dim.nb k + 2 * qp.dim.ng k + 2 * qp.dim.ns k then v else qp.m k j := by
  unfold setMAll vecse
  by_cases hk : k ≤ qp.dim.N <;> simp [hk]

/-- the fields that make up the right-hand side of the problem -/
def isRhs : RField → Bool
  | .b | .q | .r | .lb | .lbx | .lbu | .ub | .ubx | .ubu | .lg | .ug | .zl | .zu | .lls | .lus => true
  | _ => false

/-- **C08** After `OCP_QP_SET_RHS_ZERO` every right-hand side field reads back as zero, every other field as before, and all
targets are zero. -/
theorem qp_setRhsZero_get (qp : OcpQp K) (hD : qp.dim.Ok) (f : RField) (k : ℕ) (hk : fieldStage f qp.dim k) (out : ℕ → K) :
    getR f k (setRhsZero qp) out = if isRhs f = true then mix (userLen f qp.dim k) (fun _ => 0) out else getR f k qp out := by
  have hnb := hD k
  cases f <;> simp only [fieldStage] at hk <;> simp only [isRhs, if_true, Bool.false_eq_true, if_false] <;>
    first
    | rfl
    | (funext i
       simp only [mix]
       split
       · rename_i hi
         simp only [userLen] at hi
         simp only [getR, setRhsZero, if_pos hk, unpackVec, veccp, vecse, negArr, nct, Nat.zero_le, true_and,
           Nat.zero_add, Nat.sub_zero, if_pos hi]
         try rw [if_pos (by omega)]
         try rw [neg_zero]
       · rename_i hi
         simp only [userLen] at hi
         simp only [getR, setRhsZero, if_pos hk, unpackVec, veccp, vecse, negArr, nct, Nat.zero_le, true_and,
           Nat.zero_add, Nat.sub_zero, if_neg hi])

/-- **C08** the rest of the object under the reset of the right-hand side -/
theorem qp_setRhsZero_rest (qp : OcpQp K) :
    (∀ k j, (setRhsZero qp).m k j = if k ≤ qp.dim.N ∧ j < 2 * qp.dim.nb k + 2 * qp.dim.ng k + 2 * qp.dim.ns k then 0 else qp.m k j) ∧
    (setRhsZero qp).idxb = qp.idxb ∧ (setRhsZero qp).idxs_rev = qp.idxs_rev ∧ (setRhsZero qp).idxe = qp.idxe ∧
    (setRhsZero qp).d_mask = qp.d_mask ∧ (setRhsZero qp).dim = qp.dim := by
  refine ⟨?_, rfl, rfl, rfl, rfl, rfl⟩
  intro k j
  simp only [setRhsZero, nct]
  by_cases hk : k ≤ qp.dim.N <;> simp [hk, vecse]

/-- **C08** (defect) the copies of `b` and `r`, `q` in the last rows of the matrices are not reset -/
theorem qp_setRhsZero_rows (qp : OcpQp K) : (setRhsZero qp).BAbt = qp.BAbt ∧ (setRhsZero qp).RSQrq = qp.RSQrq := ⟨rfl, rfl⟩

/-- the names of the user manual: each field under its own name -/
def fieldName : RField → String
  | .A => "A" | .B => "B" | .b => "b" | .Q => "Q" | .S => "S" | .R => "R" | .q => "q" | .r => "r"
  | .lb => "lb" | .lb_mask => "lb_mask" | .lbx => "lbx" | .lbx_mask => "lbx_mask" | .lbu => "lbu" | .lbu_mask => "lbu_mask"
  | .ub => "ub" | .ub_mask => "ub_mask" | .ubx => "ubx" | .ubx_mask => "ubx_mask" | .ubu => "ubu" | .ubu_mask => "ubu_mask"
  | .C => "C" | .D => "D" | .lg => "lg" | .lg_mask => "lg_mask" | .ug => "ug" | .ug_mask => "ug_mask"
  | .Zl => "Zl" | .Zu => "Zu" | .zl => "zl" | .zu => "zu"
  | .lls => "lls" | .lls_mask => "lls_mask" | .lus => "lus" | .lus_mask => "lus_mask"

/-- the short names of the bounds -/
def alias? : RField → Option String
  | .lbu => some "lu" | .lbx => some "lx" | .ubu => some "uu" | .ubx => some "ux" | _ => none

/-- **C07** (dispatch) the setter by name selects a field exactly for its own name and its short name -/
theorem qp_fieldOfName (s : String) (f : RField) : fieldOfName s = some f ↔ s = fieldName f ∨ alias? f = some s := by
  constructor
  · intro h
    unfold fieldOfName at h
    split at h <;> first | (cases h; simp [fieldName, alias?]; done) | (cases h)
  · rintro (rfl | h)
    · cases f <;> rfl
    · cases f <;> simp only [alias?, reduceCtorEq, Option.some.injEq] at h <;> subst h <;> rfl

/-- OCP_QP_SET for the numeric fields, ocp_qp/x_ocp_qp.c:736-1004; `none`: not a numeric field -/
def setName (s : String) (k : ℕ) (v : ℕ → K) (qp : OcpQp K) : Option (OcpQp K) := (fieldOfName s).map fun f => setR f k v qp

/-- **C07** set by any accepted name, read by the typed getter -/
theorem qp_setName_get (f : RField) (s : String) (hs : s = fieldName f ∨ alias? f = some s) (k : ℕ) (v out : ℕ → K) (qp : OcpQp K) :
    ∃ qp', setName s k v qp = some qp' ∧ getR f k qp' out = mix (userLen f qp.dim k) v out := by
  unfold setName
  rw [(qp_fieldOfName s f).mpr hs]
  exact ⟨_, rfl, qp_get_set_same f k v out qp⟩

end

/-- targets of the lower general constraint of the example QP -/
example : (setM .lg 0 (fun _ => (3 : ℚ)) exQp).m 0 (exQp.dim.nb 0) = 3 := by decide +kernel
example : fieldOfName "lx" = some .lbx ∧ fieldOfName "xl" = none := by decide +kernel
example : ∃ qp', setName "ux" 0 (fun _ => (3 : ℚ)) exQp = some qp' ∧ getR .ubx 0 qp' (fun _ => 0) = mix (userLen .ubx exQp.dim 0) (fun _ => 3) (fun _ => 0) :=
  qp_setName_get .ubx "ux" (Or.inr rfl) 0 _ _ exQp
example : getR .q 0 (setRhsZero exQp) (fun _ => (5 : ℚ)) = mix (userLen .q exQp.dim 0) (fun _ => 0) (fun _ => 5) := by
  rw [qp_setRhsZero_get exQp (by intro k; simp [exQp, exDim]) .q 0 (Nat.zero_le _)]; rfl
end Hpipm
