/-
C68: the dense QP data object - round trips, independence of the fields, one call versus many, row
and column major data, softening map, copies, field names.
-/
import Verif.DenseQp

set_option linter.unusedSectionVars false
set_option linter.unusedVariables false
set_option linter.unusedSimpArgs false

namespace Hpipm
open DenseQp

section
variable {K : Type*} [Field K] [DecidableEq K]

/-! ### Specification vocabulary -/

/-- number of reals in the user's array for a field -/
def DField.len (f : DField) (D : DDim) : ℕ :=
  match f with
  | .H => D.nv * D.nv | .A => D.ne * D.nv | .C => D.ng * D.nv
  | .g => D.nv | .b => D.ne
  | .lb | .lb_mask | .ub | .ub_mask => D.nb
  | .lg | .lg_mask | .ug | .ug_mask => D.ng
  | .Zl | .Zu | .zl | .zu | .lls | .lls_mask | .lus | .lus_mask => D.ns

/-- the mask fields -/
def DField.isMask : DField → Bool
  | .lb_mask | .ub_mask | .lg_mask | .ug_mask | .lls_mask | .lus_mask => true
  | _ => false

/-- what the object is supposed to remember of a user array: masks are stored as 0 or 1 -/
def DField.stored (f : DField) (v : ℕ → K) : ℕ → K :=
  if f.isMask then fun i => if v i = 0 then 0 else 1 else v

/-- the name of a field in DENSE_QP_SET -/
def DField.name : DField → String
  | .H => "H" | .A => "A" | .C => "C" | .g => "g" | .b => "b"
  | .lb => "lb" | .lb_mask => "lb_mask" | .ub => "ub" | .ub_mask => "ub_mask"
  | .lg => "lg" | .lg_mask => "lg_mask" | .ug => "ug" | .ug_mask => "ug_mask"
  | .Zl => "Zl" | .Zu => "Zu" | .zl => "zl" | .zu => "zu"
  | .lls => "lls" | .lls_mask => "lls_mask" | .lus => "lus" | .lus_mask => "lus_mask"

theorem maskLoop_eq (n : ℕ) (v : ℕ → K) (x : Vec K) (off : ℕ) :
    maskLoop n v x off = packVec n (fun i => if v i = 0 then 0 else 1) x off := by
  unfold maskLoop
  rw [loop_upd_shift n off (fun i => if v i = 0 then (0 : K) else 1) x]
  funext j
  simp only [packVec, veccp, Nat.zero_add]

/-! ### one setter, one getter -/

/-- **C68** (round trip): for every field, user array and previous content, the getter returns the
array that was set - as 0/1 for masks - and touches nothing else of the output buffer. -/
theorem dqp_get_set_same (f : DField) (v out : ℕ → K) (qp : DenseQp K) :
    getF f (setF f v qp) out = mix (f.len qp.dim) (f.stored v) out := by
  cases f <;>
    simp only [getF, setF, DField.len, DField.stored, DField.isMask, maskLoop_eq, unpack_pack, neg_unpack_sc_pack,
      unpackTran_pack, unpackMat_pack, if_true, Bool.false_eq_true, if_false]

set_option maxHeartbeats 4000000 in
/-- **C68** (independence): a setter does not change what any other getter returns. -/
theorem dqp_get_set_other (f g : DField) (h : f ≠ g) (v out : ℕ → K) (qp : DenseQp K) :
    getF g (setF f v qp) out = getF g qp out := by
  cases f <;> cases g <;> first
    | exact absurd rfl h
    | rfl
    | (funext p
       simp only [getF, setF, maskLoop_eq, unpackVec, packVec, veccp, vecsc, negArr]
       by_cases hp : p < qp.dim.nb <;> by_cases hp2 : p < qp.dim.ng <;> by_cases hp3 : p < qp.dim.ns <;>
         by_cases hp4 : p < qp.dim.nv <;>
         simp (disch := omega) only [Nat.zero_add, Nat.zero_le, true_and, hp, hp2, hp3, hp4, if_true, if_false, if_neg, if_pos, Nat.sub_zero])

/-- **C68** (integers): a numeric setter changes no index list, no target and no dimension. -/
theorem dqp_set_keeps_ints (f : DField) (v : ℕ → K) (qp : DenseQp K) :
    (setF f v qp).idxb = qp.idxb ∧ (setF f v qp).idxs_rev = qp.idxs_rev ∧ (setF f v qp).m = qp.m ∧
    (setF f v qp).dim = qp.dim := by
  cases f <;> exact ⟨rfl, rfl, rfl, rfl⟩

/-- **C68** (targets): setting a complementarity target changes no getter and no index list. -/
theorem dqp_setM_get (f : DMField) (g : DField) (v out : ℕ → K) (qp : DenseQp K) :
    getF g (setM f v qp) out = getF g qp out ∧ (setM f v qp).idxb = qp.idxb ∧
    (setM f v qp).idxs_rev = qp.idxs_rev := by
  cases f <;> cases g <;> exact ⟨rfl, rfl, rfl⟩

/-! ### all fields in one call -/

/-- the argument of set_all holding a field (masks are not arguments) -/
def DenseQp.All.arg (a : All K) : DField → Option (ℕ → K)
  | .H => some a.H | .A => some a.A | .C => some a.C | .g => some a.g | .b => some a.b
  | .lb => some a.lb | .ub => some a.ub | .lg => some a.lg | .ug => some a.ug
  | .Zl => some a.Zl | .Zu => some a.Zu | .zl => some a.zl | .zu => some a.zu
  | .lls => some a.ls | .lus => some a.us
  | _ => none

/-- the column major array of the `r`×`c` matrix given row major -/
def tr (r c : ℕ) (v : ℕ → K) : ℕ → K := fun p => v (p / r + c * (p % r))

/-- the same data with column major matrices -/
def DenseQp.All.toCol (D : DDim) (a : All K) : All K :=
  { a with
    H := tr D.nv D.nv a.H
    A := tr D.ne D.nv a.A
    C := tr D.ng D.nv a.C }

theorem packTran_row {α : Type*} (m n : ℕ) (v : ℕ → α) (A : ℕ → ℕ → α) :
    packTranMat m n v m A 0 0 = packMat n m (fun p => v (p / n + m * (p % n))) n A 0 0 := by
  funext r c
  simp only [packTranMat, packMat, Nat.zero_add, Nat.zero_le, true_and, Nat.sub_zero]
  by_cases h : r < n ∧ c < m
  · rw [if_pos h, if_pos h, Nat.add_mul_mod_self_left, Nat.mod_eq_of_lt h.1,
      Nat.add_mul_div_left _ _ (by omega), Nat.div_eq_of_lt h.1, Nat.zero_add]
  · rw [if_neg h, if_neg h]

theorem pack_row {α : Type*} (m n : ℕ) (v : ℕ → α) (A : ℕ → ℕ → α) :
    packMat m n v m A 0 0 = packTranMat n m (fun p => v (p / n + m * (p % n))) n A 0 0 := by
  funext r c
  simp only [packTranMat, packMat, Nat.zero_add, Nat.zero_le, true_and, Nat.sub_zero]
  by_cases h : r < m ∧ c < n
  · rw [if_pos h, if_pos h, Nat.add_mul_mod_self_left, Nat.mod_eq_of_lt h.2,
      Nat.add_mul_div_left _ _ (by omega), Nat.div_eq_of_lt h.2, Nat.zero_add]
  · rw [if_neg h, if_neg h]

/-- **C68** (row major data): giving the matrices row major is the same as giving them column major. -/
theorem dqp_setAllRow (a : All K) (qp : DenseQp K) :
    setAllRow a qp = setAll (a.toCol qp.dim) qp := by
  simp only [setAllRow, setAll, All.toCol, setRest, tr]
  rw [packTran_row qp.dim.nv qp.dim.nv, packTran_row qp.dim.nv qp.dim.ne, pack_row qp.dim.nv qp.dim.ng]
  rfl

theorem packMat_zero_rows {α : Type*} (n : ℕ) (v : ℕ → α) (l : ℕ) (A : ℕ → ℕ → α) (i j : ℕ) :
    packMat 0 n v l A i j = A := by
  funext r c; simp only [packMat]; rw [if_neg (by omega)]
theorem packTran_zero_rows {α : Type*} (n : ℕ) (v : ℕ → α) (l : ℕ) (A : ℕ → ℕ → α) (i j : ℕ) :
    packTranMat 0 n v l A i j = A := by
  funext r c; simp only [packTranMat]; rw [if_neg (by omega)]

set_option maxHeartbeats 4000000 in
/-- **C68** (one call): set_all is the sequence of the single setters, it leaves the masks alone and
sets all complementarity targets to zero. -/
theorem dqp_setAll_eq (a : All K) (qp : DenseQp K) :
    let q := setF .lus a.us <| setF .lls a.ls <| setF .zu a.zu <| setF .zl a.zl <| setF .Zu a.Zu <|
      setF .Zl a.Zl <| setF .ug a.ug <| setF .lg a.lg <| setF .C a.C <| setF .ub a.ub <| setF .lb a.lb <|
      setF .b a.b <| setF .A a.A <| setF .g a.g <| setF .H a.H <| setMAll 0 <| setIdxb a.idxb qp
    setAll a qp = { q with idxs_rev := (setAll a qp).idxs_rev } := by
  dsimp only
  have e1 : ∀ (n : ℕ) (v x : ℕ → K) (xi : ℕ), n = 0 → packVec n v x xi = x := by
    intro n v x xi h; rw [h, packVec_zero]
  have e2 : ∀ (n : ℕ) (x : ℕ → K) (xi : ℕ), n = 0 → vecsc n (-1) x xi = x := by
    intro n x xi h; rw [h, vecsc_zero]
  have e3 : ∀ (n : ℕ) (a : K) (x : ℕ → K) (xi : ℕ), n = 0 → vecse n a x xi = x := by
    intro n a x xi h; funext i; simp only [vecse]; rw [if_neg (by omega)]
  simp only [setAll, setRest, setF, setMAll, setIdxb, DenseQp.mk.injEq, true_and, and_true]
  refine ⟨?_, ?_, ?_, ?_, ?_, ?_, ?_, ?_⟩
  · exact guard_eq _ _ _ (fun h => by rw [h, packMat_zero_rows])
  · exact guard_eq _ _ _ (fun h => by rw [h, packTran_zero_rows])
  · exact guard_eq _ _ _ (fun h => by rw [e1 _ _ _ _ h, e1 _ _ _ _ h])
  · exact guard_eq _ _ _ (fun h => by rw [e1 _ _ _ _ h])
  · rw [guard_eq qp.dim.nb _ _ (fun h => by rw [e2 _ _ _ h, e1 _ _ _ _ h, e1 _ _ _ _ h]),
      guard_eq qp.dim.ng _ _ (fun h => by rw [e2 _ _ _ h, e1 _ _ _ _ h, e1 _ _ _ _ h]),
      guard_eq qp.dim.ns _ _ (fun h => by rw [e1 _ _ _ _ h, e1 _ _ _ _ h])]
  · rw [guard_eq qp.dim.nb _ _ (fun h => by rw [e3 _ _ _ _ h, e3 _ _ _ _ h]),
      guard_eq qp.dim.ng _ _ (fun h => by rw [e3 _ _ _ _ h, e3 _ _ _ _ h]),
      guard_eq qp.dim.ns _ _ (fun h => by rw [e3 _ _ _ _ h, e3 _ _ _ _ h])]
    funext i
    have hn : qp.dim.nct = 2 * qp.dim.nb + 2 * qp.dim.ng + 2 * qp.dim.ns := rfl
    simp only [vecse]
    split_ifs <;> first | rfl | (exfalso; omega)
  · exact guard_eq _ _ _ (fun h => by rw [e1 _ _ _ _ h, e1 _ _ _ _ h])
  · exact guard_eq _ _ _ (fun h => by rw [h, loop_zero])

theorem setF_dim (f : DField) (v : ℕ → K) (qp : DenseQp K) : (setF f v qp).dim = qp.dim := by
  cases f <;> rfl

/-- the getters do not look at the softening map -/
theorem getF_idxs (g : DField) (qp : DenseQp K) (r : ℕ → ℤ) (out : ℕ → K) :
    getF g { qp with idxs_rev := r } out = getF g qp out := by cases g <;> rfl
theorem getF_setMAll (g : DField) (qp : DenseQp K) (v : K) (out : ℕ → K) :
    getF g (setMAll v qp) out = getF g qp out := by cases g <;> rfl
theorem getF_setIdxb (g : DField) (qp : DenseQp K) (v : ℕ → ℕ) (out : ℕ → K) :
    getF g (setIdxb v qp) out = getF g qp out := by cases g <;> rfl

/-- **C68** (one call): after set_all every getter returns the argument of its field; the masks are
as before the call. -/
theorem dqp_setAll_get (a : All K) (g : DField) (out : ℕ → K) (qp : DenseQp K) :
    getF g (setAll a qp) out =
      (match a.arg g with
       | some w => mix (g.len qp.dim) w out
       | none => getF g qp out) := by
  rw [dqp_setAll_eq, getF_idxs]
  have hd : (setMAll 0 (setIdxb a.idxb qp)).dim = qp.dim := rfl
  cases g <;> simp (disch := decide) only [DenseQp.All.arg, dqp_get_set_other, dqp_get_set_same, getF_setMAll,
    getF_setIdxb, setF_dim, hd, DField.stored, DField.isMask, Bool.false_eq_true, if_false]

/-- **C68** (one call): all targets are zero after set_all. -/
theorem dqp_setAll_m (a : All K) (qp : DenseQp K) (i : ℕ) (hi : i < qp.dim.nct) : (setAll a qp).m i = 0 := by
  rw [dqp_setAll_eq]
  simp only [setF, setMAll, setIdxb, vecse]
  rw [if_pos (by omega)]

/-- **C68** (one call): the bound indices given to set_all are read back. -/
theorem dqp_setAll_idxb (a : All K) (qp : DenseQp K) (out : ℕ → ℕ) :
    getIdxb (setAll a qp) out = mix qp.dim.nb a.idxb out := by
  rw [dqp_setAll_eq]
  simp only [getIdxb, setF, setMAll, setIdxb]
  rw [loop_upd, loop_upd]
  funext i
  simp only [mix]; split_ifs <;> rfl

/-- **C68** (one call): get_all fills every user array with what the getter of the field returns. -/
theorem dqp_getAll_eq (qp : DenseQp K) (o : All K) :
    (∀ f w, o.arg f = some w → (getAll qp o).arg f = some (getF f qp w)) ∧
    (getAll qp o).idxb = getIdxb qp o.idxb ∧
    (getAll qp o).idxs_rev = o.idxs_rev.map (getIdxsRev qp) ∧
    (0 < qp.dim.ns → (getAll qp o).idxs = o.idxs.map (getIdxs qp)) := by
  have e1 : ∀ (n : ℕ) (x : ℕ → K) (xi : ℕ) (o : ℕ → K), n = 0 → unpackVec n x xi o = o := by
    intro n x xi o h; funext i; simp only [unpackVec, veccp]; rw [if_neg (by omega)]
  have e2 : ∀ (n : ℕ) (o : ℕ → K), n = 0 → negArr n o = o := by
    intro n o h; funext i; simp only [negArr]; rw [if_neg (by omega)]
  refine ⟨?_, ?_, rfl, ?_⟩
  · intro f w h
    cases f <;> simp only [DenseQp.All.arg, Option.some.injEq, reduceCtorEq] at h ⊢ <;> subst h <;>
      simp only [getAll, getRest, getF] <;> first
      | rfl
      | exact guard_eq _ _ _ (fun h => by rw [e1 _ _ _ _ h, e2 _ _ h])
      | exact guard_eq _ _ _ (fun h => by rw [e1 _ _ _ _ h])
      | exact guard_eq _ _ _ (fun h => by
          funext p; simp only [unpackMat]; rw [if_neg (by omega)])
      | exact guard_eq _ _ _ (fun h => by
          funext p; simp only [unpackTranMat]; rw [if_neg (by omega)])
  · simp only [getAll, getRest, getIdxb]
    exact guard_eq _ _ _ (fun h => by rw [h, loop_zero])
  · intro h
    simp only [getAll, getRest, if_pos h, getIdxs]
    rfl

theorem unpackTran_row {α : Type*} (m n : ℕ) (A : ℕ → ℕ → α) (out : ℕ → α) (i j : ℕ) (hi : i < m) (hj : j < n) :
    unpackTranMat m n A 0 0 out n (j + n * i) = A i j := by
  simp only [unpackTranMat, Nat.zero_add]
  rw [Nat.add_mul_mod_self_left, Nat.mod_eq_of_lt hj, Nat.add_mul_div_left _ _ (by omega),
    Nat.div_eq_of_lt hj, Nat.zero_add, if_pos ⟨hj, hi⟩]
theorem unpack_col {α : Type*} (m n : ℕ) (A : ℕ → ℕ → α) (out : ℕ → α) (i j : ℕ) (hi : i < m) (hj : j < n) :
    unpackMat m n A 0 0 out m (i + m * j) = A i j := by
  simp only [unpackMat, Nat.zero_add]
  rw [Nat.add_mul_mod_self_left, Nat.mod_eq_of_lt hi, Nat.add_mul_div_left _ _ (by omega),
    Nat.div_eq_of_lt hi, Nat.zero_add, if_pos ⟨hi, hj⟩]

/-- **C68** (row major data): entry `(i,j)` of every matrix is reported by the row major getter at
`j + columns*i` and by the column major one at `i + rows*j`; the other arrays are the same. -/
theorem dqp_getAllRow (qp : DenseQp K) (o : All K) :
    (∀ i j, i < qp.dim.nv → j < qp.dim.nv →
      (getAllRow qp o).H (j + qp.dim.nv * i) = (getAll qp o).H (i + qp.dim.nv * j)) ∧
    (∀ i j, i < qp.dim.ne → j < qp.dim.nv →
      (getAllRow qp o).A (j + qp.dim.nv * i) = (getAll qp o).A (i + qp.dim.ne * j)) ∧
    (∀ i j, i < qp.dim.ng → j < qp.dim.nv →
      (getAllRow qp o).C (j + qp.dim.nv * i) = (getAll qp o).C (i + qp.dim.ng * j)) ∧
    { getAllRow qp o with H := o.H, A := o.A, C := o.C } = { getAll qp o with H := o.H, A := o.A, C := o.C } := by
  refine ⟨fun i j hi hj => ?_, fun i j hi hj => ?_, fun i j hi hj => ?_, rfl⟩
  · simp only [getAllRow, getAll]
    rw [unpackTran_row _ _ _ _ _ _ hi hj, unpack_col _ _ _ _ _ _ hi hj]
  · simp only [getAllRow, getAll]
    rw [if_pos (by omega), if_pos (by omega), unpackTran_row _ _ _ _ _ _ hi hj, unpack_col _ _ _ _ _ _ hi hj]
  · simp only [getAllRow, getAll]
    rw [if_pos (by omega), if_pos (by omega), unpack_col _ _ _ _ _ _ hj hi, unpackTran_row _ _ _ _ _ _ hj hi]

/-! ### softening map and bound indices -/

/-- the integer data in an optimal control QP with one stage, to reuse C10 and C11 -/
def intView (qp : DenseQp K) : OcpQp K where
  dim := {
    N := 0
    nx := fun _ => 0
    nu := fun _ => qp.dim.nv
    nb := fun _ => qp.dim.nb
    nbx := fun _ => 0
    nbu := fun _ => qp.dim.nb
    ng := fun _ => qp.dim.ng
    ns := fun _ => qp.dim.ns }
  BAbt := fun _ => qp.Hv
  RSQrq := fun _ => qp.Hv
  DCt := fun _ => qp.Hv
  b := fun _ => qp.b
  rqz := fun _ => qp.b
  d := fun _ => qp.b
  d_mask := fun _ => qp.b
  m := fun _ => qp.b
  Z := fun _ => qp.b
  idxb := fun _ => qp.idxb
  idxs_rev := fun _ => qp.idxs_rev
  idxe := fun _ _ => 0
  diag_H_flag := fun _ => 0

/-- **C68** (softening): starting from a QP without softened constraints, slack `i` softens exactly
constraint `v i`, and get_idxs returns the list that was given. -/
theorem dqp_getIdxs_setIdxs (v out : ℕ → ℕ) (qp : DenseQp K)
    (hinj : ∀ i j, i < qp.dim.ns → j < qp.dim.ns → v i = v j → i = j)
    (hr : ∀ i, i < qp.dim.ns → v i < qp.dim.nb + qp.dim.ng)
    (h0 : ∀ c, c < qp.dim.nb + qp.dim.ng → qp.idxs_rev c = -1) :
    getIdxs (setIdxs v qp) out = mix qp.dim.ns v out ∧
    (∀ c, c < qp.dim.nb + qp.dim.ng →
      (∀ i, i < qp.dim.ns → v i = c → (setIdxs v qp).idxs_rev c = i) ∧
      ((∀ i, i < qp.dim.ns → v i ≠ c) → (setIdxs v qp).idxs_rev c = -1)) := by
  have h1 := qp_getIdxs_setIdxs 0 v out (intView qp) hinj hr h0
  have h2 := qp_setIdxs_spec 0 v (intView qp) hinj
  have e : (OcpQp.setIdxs 0 v (intView qp)).idxs_rev 0 = (setIdxs v qp).idxs_rev := by
    simp only [OcpQp.setIdxs, upd_same]; rfl
  refine ⟨?_, fun c hc => ⟨fun i hi hv => ?_, fun hne => ?_⟩⟩
  · refine Eq.trans ?_ h1
    unfold getIdxs OcpQp.getIdxs
    rw [e]; rfl
  · rw [← e, ← hv]; exact h2.1 i hi
  · rw [← e, h2.2 c hne]; exact h0 c hc

/-- **C68** (softening): the full map is stored and read back. -/
theorem dqp_getIdxsRev_setIdxsRev (v out : ℕ → ℤ) (qp : DenseQp K) :
    getIdxsRev (setIdxsRev v qp) out = mix (qp.dim.nb + qp.dim.ng) v out := by
  unfold getIdxsRev setIdxsRev
  rw [loop_upd, loop_upd]
  funext i; simp only [mix]; split_ifs <;> rfl

/-- **C68** (selection matrices): `Jb` with exactly one 1 per row selects the bounded variables. -/
theorem dqp_setJb_spec (J : ℕ → K) (sel : ℕ → ℕ) (qp : DenseQp K)
    (hJ : Selects qp.dim.nb qp.dim.nv J sel) :
    ∀ (x : ℕ → K) i, i < qp.dim.nb →
      x ((setJb J qp).idxb i) = ∑ j ∈ Finset.range qp.dim.nv, J (i + j * qp.dim.nb) * x j := by
  have h := (qp_setJbu_spec 0 J sel (intView qp) hJ).1
  have e : (OcpQp.setJbu 0 J (intView qp)).idxb 0 = (setJb J qp).idxb := by
    simp only [OcpQp.setJbu, upd_same]; rfl
  intro x i hi
  rw [← e]; exact h x i hi

/-- **C68** (selection matrices): the first nonzero of row `i` of `Jsb` (`Jsg`) is the slack of box
constraint `i` (general constraint `i`); a zero row leaves the constraint as it was, and the two
setters do not touch each other's constraints. -/
theorem dqp_setJs_spec (J : ℕ → K) (qp : DenseQp K) :
    ((∀ i c, i < qp.dim.nb → c < qp.dim.ns → J (i + c * qp.dim.nb) ≠ 0 →
        (∀ j, j < c → J (i + j * qp.dim.nb) = 0) → (setJsb J qp).idxs_rev i = c) ∧
     (∀ i, i < qp.dim.nb → (∀ j, j < qp.dim.ns → J (i + j * qp.dim.nb) = 0) →
        (setJsb J qp).idxs_rev i = qp.idxs_rev i) ∧
     (∀ p, qp.dim.nb ≤ p → (setJsb J qp).idxs_rev p = qp.idxs_rev p)) ∧
    ((∀ i c, i < qp.dim.ng → c < qp.dim.ns → J (i + c * qp.dim.ng) ≠ 0 →
        (∀ j, j < c → J (i + j * qp.dim.ng) = 0) → (setJsg J qp).idxs_rev (qp.dim.nb + i) = c) ∧
     (∀ i, i < qp.dim.ng → (∀ j, j < qp.dim.ns → J (i + j * qp.dim.ng) = 0) →
        (setJsg J qp).idxs_rev (qp.dim.nb + i) = qp.idxs_rev (qp.dim.nb + i)) ∧
     (∀ p, p < qp.dim.nb → (setJsg J qp).idxs_rev p = qp.idxs_rev p)) := by
  have h1 := scanRows_spec qp.dim.nb qp.dim.ns J qp.dim.nb 0 (fun jj => (jj : ℤ)) qp.idxs_rev
  have h2 := scanRows_spec qp.dim.ng qp.dim.ns J qp.dim.ng qp.dim.nb (fun jj => (jj : ℤ)) qp.idxs_rev
  refine ⟨⟨fun i c a b d e => ?_, fun i a b => ?_, fun p a => ?_⟩, ⟨h2.1, h2.2.1, fun p a => h2.2.2 p (Or.inl a)⟩⟩
  · have := h1.1 i c a b d e; rw [Nat.zero_add] at this; exact this
  · have := h1.2.1 i a b; rw [Nat.zero_add] at this; exact this
  · exact h1.2.2 p (Or.inr (by omega))

/-! ### create, reset, copy -/

/-- the value a getter reports on an empty problem: ones for masks, zeros for everything else -/
def DField.blank (f : DField) : ℕ → K := fun _ => if f.isMask then 1 else 0

set_option maxHeartbeats 1000000 in
/-- **C68** (create and reset): after create and after set_all_zero all data read as zero and all
constraints as present and hard, whatever the object held before. -/
theorem dqp_blank (f : DField) (D : DDim) (qp : DenseQp K) (out : ℕ → K) :
    getF f (create D) out = mix (f.len D) f.blank out ∧
    getF f (setAllZero qp) out = mix (f.len qp.dim) f.blank out ∧
    (∀ c, c < D.nb + D.ng → (create D : DenseQp K).idxs_rev c = -1) ∧
    (∀ c, c < qp.dim.nb + qp.dim.ng → (setAllZero qp).idxs_rev c = -1) := by
  refine ⟨?_, ?_, ?_, ?_⟩
  · funext p
    cases f <;> simp only [getF, create, DField.len, DField.blank, DField.isMask, mix, unpackVec, veccp, negArr,
      unpackMat, unpackTranMat, vecse, DDim.nct, colmajor_iff, Nat.zero_add, Nat.zero_le, true_and, Nat.sub_zero] <;>
      split_ifs <;> first | rfl | contradiction | omega | (simp; done) | (simp_all; done)
  · funext p
    have key : ∀ m n, p < m * n → p % m < m ∧ p / m < n := fun m n h => (colmajor_iff p m n).2 h
    cases f <;> simp only [getF, setAllZero, DField.len, DField.blank, DField.isMask, mix, unpackVec, veccp, negArr,
      unpackMat, unpackTranMat, vecse, gese, DDim.nct, colmajor_iff, Nat.zero_add, Nat.zero_le, true_and, Nat.sub_zero] <;>
      split_ifs <;> first
        | rfl | contradiction | omega
        | (exfalso; have k1 := key _ _ (by assumption); omega)
        | (simp; done) | (simp_all; done)
  · intro c hc
    simp only [create]; rw [loop_upd _ (fun _ => (-1 : ℤ)), mix_lt _ _ hc]
  · intro c hc
    simp only [setAllZero]; rw [loop_upd _ (fun _ => (-1 : ℤ)), mix_lt _ _ hc]


theorem getF_congr (f : DField) (qp qp' : DenseQp K) (hd : qp'.dim = qp.dim)
    (h1 : ∀ i j, i < qp.dim.nv → j < qp.dim.nv → qp'.Hv i j = qp.Hv i j)
    (h2 : ∀ i j, i < qp.dim.ne → j < qp.dim.nv → qp'.A i j = qp.A i j)
    (h3 : ∀ i j, i < qp.dim.nv → j < qp.dim.ng → qp'.Ct i j = qp.Ct i j)
    (h4 : ∀ i, i < qp.dim.nv + 2 * qp.dim.ns → qp'.gz i = qp.gz i)
    (h5 : ∀ i, i < qp.dim.ne → qp'.b i = qp.b i)
    (h6 : ∀ i, i < 2 * qp.dim.nb + 2 * qp.dim.ng + 2 * qp.dim.ns → qp'.d i = qp.d i)
    (h7 : ∀ i, i < 2 * qp.dim.nb + 2 * qp.dim.ng + 2 * qp.dim.ns → qp'.d_mask i = qp.d_mask i)
    (h8 : ∀ i, i < 2 * qp.dim.ns → qp'.Z i = qp.Z i) (out : ℕ → K) :
    getF f qp' out = getF f qp out := by
  funext p
  cases f <;> simp only [getF, hd, unpackMat, unpackTranMat, unpackVec, veccp, negArr, Nat.zero_add, Nat.zero_le,
    true_and, Nat.sub_zero] <;> split_ifs <;> first
    | rfl
    | (rename_i hh; rw [h1 _ _ hh.1 hh.2]) | (rename_i hh; rw [h2 _ _ hh.1 hh.2])
    | (rename_i hh; rw [h3 _ _ hh.2 hh.1])
    | (rw [h4 _ (by omega)]) | (rw [h5 _ (by omega)]) | (rw [h6 _ (by omega)]) | (rw [h7 _ (by omega)])
    | (rw [h8 _ (by omega)])

/-- **C68** (copy): copying into an object of the same size reproduces every getter, the bound indices,
the softening map and the targets of the source. -/
theorem dqp_copyAll (src dst : DenseQp K) (hd : dst.dim = src.dim) :
    (∀ f out, getF f (copyAll src dst) out = getF f src out) ∧
    (∀ out, getIdxb (copyAll src dst) out = getIdxb src out) ∧
    (∀ out, getIdxsRev (copyAll src dst) out = getIdxsRev src out) ∧
    (∀ i, i < src.dim.nct → (copyAll src dst).m i = src.m i) := by
  have v : ∀ (n : ℕ) (x y : ℕ → K) i, i < n → veccp n x 0 y 0 i = x i := by
    intro n x y i h; simp only [veccp]; rw [if_pos (by omega)]; congr 1; omega
  have m : ∀ (r c : ℕ) (x y : ℕ → ℕ → K) i j, i < r → j < c → gecp r c x 0 0 y 0 0 i j = x i j := by
    intro r c x y i j hi hj; simp only [gecp]; rw [if_pos (by omega)]; congr 1 <;> omega
  refine ⟨fun f out => ?_, fun out => ?_, fun out => ?_, fun i hi => v _ _ _ _ hi⟩
  · apply getF_congr f src (copyAll src dst) hd
    · intro i j hi hj; exact m _ _ _ _ _ _ (by omega) hj
    · intro i j hi hj; exact m _ _ _ _ _ _ hi hj
    · intro i j hi hj; exact m _ _ _ _ _ _ hi hj
    · intro i hi; exact v _ _ _ _ hi
    · intro i hi; exact v _ _ _ _ hi
    · intro i hi; exact v _ _ _ _ hi
    · intro i hi; exact v _ _ _ _ hi
    · intro i hi; exact v _ _ _ _ hi
  · unfold getIdxb
    rw [loop_upd, loop_upd]
    have e : (copyAll src dst).dim = src.dim := hd
    rw [e]
    funext i; simp only [mix, copyAll]; split_ifs with h
    · rw [loop_upd, mix_lt _ _ h]
    · rfl
  · unfold getIdxsRev
    rw [loop_upd, loop_upd]
    have e : (copyAll src dst).dim = src.dim := hd
    rw [e]
    funext i; simp only [mix, copyAll]; split_ifs with h
    · rw [loop_upd, mix_lt _ _ h]
    · rfl

/-- **C68** (right-hand side reset): set_rhs_zero clears exactly gradient, equality right-hand side,
bounds and targets; matrices, masks, slack Hessian and index data stay. -/
theorem dqp_setRhsZero (qp : DenseQp K) :
    (∀ f out, f = .H ∨ f = .A ∨ f = .C ∨ f = .Zl ∨ f = .Zu ∨ f.isMask = true →
      getF f (setRhsZero qp) out = getF f qp out) ∧
    (∀ i, i < qp.dim.nv + 2 * qp.dim.ns → (setRhsZero qp).gz i = 0) ∧
    (∀ i, i < qp.dim.ne → (setRhsZero qp).b i = 0) ∧
    (∀ i, i < qp.dim.nct → (setRhsZero qp).d i = 0 ∧ (setRhsZero qp).m i = 0) ∧
    (setRhsZero qp).idxb = qp.idxb ∧ (setRhsZero qp).idxs_rev = qp.idxs_rev := by
  refine ⟨?_, ?_, ?_, ?_, rfl, rfl⟩
  · intro f out h
    cases f <;> first | rfl | (simp [DField.isMask] at h)
  all_goals
    intro i hi
    simp only [setRhsZero, vecse]
    rw [if_pos (by omega)]
  constructor
  · rfl
  · rw [if_pos (by omega)]

/-! ### field names -/

/-- **C68** (names): every field has its own name. -/
theorem dqp_names (f : DField) (v : ℕ → K) (qp : DenseQp K) : setReal f.name v qp = some (setF f v qp) := by
  cases f <;> rfl

/-- the names DENSE_QP_SET knows for real data -/
def realNames : List String :=
  ["H", "A", "C", "g", "b", "lb", "lb_mask", "ub", "ub_mask", "lg", "lg_mask", "ug", "ug_mask", "Zl", "Zu",
   "zl", "zu", "lls", "lls_mask", "lus", "lus_mask", "Jb", "Jsb", "Jsg", "m_all", "m_lb", "m_ub", "m_lg",
   "m_ug", "m_lls", "m_lus"]

/-- **C68** (names): a name outside the documented list ends the process, a name in it does not. -/
theorem dqp_names_only (s : String) (v : ℕ → K) (w : ℕ → ℤ) (qp : DenseQp K) :
    ((setReal s v qp).isSome = true ↔ s ∈ realNames) ∧
    ((setInt s w qp).isSome = true ↔ s ∈ ["idxb", "idxs", "idxs_rev"]) := by
  constructor
  · constructor
    · intro h
      by_contra hn
      simp only [realNames, List.mem_cons, List.not_mem_nil, or_false, not_or] at hn
      obtain ⟨h1, h2, h3, h4, h5, h6, h7, h8, h9, h10, h11, h12, h13, h14, h15, h16, h17, h18, h19, h20, h21,
        h22, h23, h24, h25, h26, h27, h28, h29, h30, h31⟩ := hn
      have e : numField s = none := by
        unfold numField
        rw [if_neg h1, if_neg h2, if_neg h3, if_neg h4, if_neg h5, if_neg h6, if_neg h7, if_neg h8, if_neg h9,
          if_neg h10, if_neg h11, if_neg h12, if_neg h13, if_neg h14, if_neg h15, if_neg h16, if_neg h17,
          if_neg h18, if_neg h19, if_neg h20, if_neg h21]
      have e2 : mField s = none := by
        unfold mField
        rw [if_neg h26, if_neg h27, if_neg h28, if_neg h29, if_neg h30, if_neg h31]
      unfold setReal at h
      rw [e] at h
      dsimp only at h
      rw [if_neg h22, if_neg h23, if_neg h24, if_neg h25, e2] at h
      simp at h
    · intro h
      simp only [realNames, List.mem_cons, List.not_mem_nil, or_false] at h
      rcases h with h | h | h | h | h | h | h | h | h | h | h | h | h | h | h | h | h | h | h | h | h | h | h |
        h | h | h | h | h | h | h | h <;> subst h <;> rfl
  · constructor
    · intro h
      by_contra hn
      simp only [List.mem_cons, List.not_mem_nil, or_false, not_or] at hn
      unfold setInt at h
      rw [if_neg hn.1, if_neg hn.2.1, if_neg hn.2.2] at h
      simp at h
    · intro h
      simp only [List.mem_cons, List.not_mem_nil, or_false] at h
      rcases h with h | h | h <;> subst h <;> rfl

/-- **C68** (names): the remaining names call the setter they are called after. -/
theorem dqp_names_rest (v : ℕ → K) (w : ℕ → ℤ) (qp : DenseQp K) :
    setReal "Jb" v qp = some (setJb v qp) ∧ setReal "Jsb" v qp = some (setJsb v qp) ∧
    setReal "Jsg" v qp = some (setJsg v qp) ∧ setReal "m_all" v qp = some (setMAll (v 0) qp) ∧
    setReal "m_lb" v qp = some (setM .lb v qp) ∧ setReal "m_ub" v qp = some (setM .ub v qp) ∧
    setReal "m_lg" v qp = some (setM .lg v qp) ∧ setReal "m_ug" v qp = some (setM .ug v qp) ∧
    setReal "m_lls" v qp = some (setM .lls v qp) ∧ setReal "m_lus" v qp = some (setM .lus v qp) ∧
    setInt "idxb" w qp = some (setIdxb (fun i => (w i).toNat) qp) ∧
    setInt "idxs" w qp = some (setIdxs (fun i => (w i).toNat) qp) ∧
    setInt "idxs_rev" w qp = some (setIdxsRev w qp) :=
  ⟨rfl, rfl, rfl, rfl, rfl, rfl, rfl, rfl, rfl, rfl, rfl, rfl, rfl⟩

/-- **C68** (targets): each target setter writes the targets of its own constraints, in the order lower
boxes, lower general, upper boxes, upper general, lower slacks, upper slacks, and no others. -/
theorem dqp_setM_spec (v : ℕ → K) (qp : DenseQp K) :
    let nb := qp.dim.nb; let ng := qp.dim.ng; let ns := qp.dim.ns
    let put := fun (off n : ℕ) (q : DenseQp K) =>
      ∀ i, q.m i = if off ≤ i ∧ i < off + n then v (i - off) else qp.m i
    put 0 nb (setM .lb v qp) ∧ put nb ng (setM .lg v qp) ∧ put (nb + ng) nb (setM .ub v qp) ∧
    put (nb + ng + nb) ng (setM .ug v qp) ∧ put (nb + ng + nb + ng) ns (setM .lls v qp) ∧
    put (nb + ng + nb + ng + ns) ns (setM .lus v qp) := by
  have e1 : 2 * qp.dim.nb + qp.dim.ng = qp.dim.nb + qp.dim.ng + qp.dim.nb := by ring
  have e2 : 2 * qp.dim.nb + 2 * qp.dim.ng = qp.dim.nb + qp.dim.ng + qp.dim.nb + qp.dim.ng := by ring
  refine ⟨?_, ?_, ?_, ?_, ?_, ?_⟩ <;> intro i <;>
    simp only [setM, packVec, veccp, Nat.zero_add, e1, e2]

end

/-! ### Concrete cases -/

section Concrete
/-- three variables, one equality, two boxes, one general constraint, one slack; every cell dirty -/
def exDQp : DenseQp ℚ where
  dim := ⟨3, 1, 2, 1, 1⟩
  Hv := fun _ _ => 7
  A := fun _ _ => 7
  Ct := fun _ _ => 7
  gz := fun _ => 7
  b := fun _ => 7
  d := fun _ => 7
  d_mask := fun _ => 7
  m := fun _ => 7
  Z := fun _ => 7
  idxb := fun _ => 0
  idxs_rev := fun _ => -1

/-- C68: the upper bound of the general constraint is stored negated, returned with the user's sign, and
does not disturb its neighbours -/
example : (setF .ug (fun _ => (3 : ℚ)) exDQp).d 5 = -3 ∧
    getF .ug (setF .ug (fun _ => (3 : ℚ)) exDQp) (fun _ => 0) 0 = 3 ∧
    getF .lls (setF .ug (fun _ => (3 : ℚ)) exDQp) (fun _ => 0) 0 = 7 := by
  refine ⟨by decide +kernel, ?_, ?_⟩
  · rw [dqp_get_set_same, mix_lt _ _ (by decide)]; rfl
  · rw [dqp_get_set_other _ _ (by decide)]; decide +kernel
/-- C68: a mask of 5 is stored as 1 -/
example : getF .lg_mask (setF .lg_mask (fun _ => (5 : ℚ)) exDQp) (fun _ => 0) 0 = 1 := by
  rw [dqp_get_set_same, mix_lt _ _ (by decide)]; decide +kernel
/-- C68: softening the general constraint (number 2) -/
example : getIdxs (setIdxs (fun _ => 2) exDQp) (fun _ => 0) = mix 1 (fun _ => 2) (fun _ => 0) :=
  (dqp_getIdxs_setIdxs (fun _ => 2) (fun _ => 0) exDQp
    (by intro i j hi hj _; simp [exDQp] at hi hj; omega) (by intro i _; decide) (by intro c _; rfl)).1
/-- C68: a selection matrix choosing variables 2, 0 -/
example : Selects 2 3 (fun p => if p = 4 ∨ p = 1 then (1:ℚ) else 0) (fun i => 2 - 2 * i) := by
  intro i hi
  refine ⟨by show 2 - 2 * i < 3; omega, ?_⟩
  intro j hj
  interval_cases i <;> interval_cases j <;> norm_num
/-- C68: a first zero row of `Jsb` keeps an old softening (no reset in the code) -/
example : (setJsb (fun _ => (0 : ℚ)) (setIdxs (fun _ => 1) exDQp)).idxs_rev 1 = 0 := by decide +kernel
/-- user arrays -/
def exDAll : All ℚ :=
  { H := fun _ => 0, g := fun _ => 0, A := fun i => (i : ℚ), b := fun _ => 0, lb := fun _ => 0,
    ub := fun _ => 0, C := fun _ => 0, lg := fun _ => 0, ug := fun _ => 0, Zl := fun _ => 0, Zu := fun _ => 0,
    zl := fun _ => 0, zu := fun _ => 0, ls := fun _ => 0, us := fun _ => 0, idxb := fun i => i, idxs := none,
    idxs_rev := none }
/-- C68: row major data -/
example : getF .A (setAllRow exDAll exDQp) (fun _ => 0) 2 = 2 := by
  rw [dqp_setAllRow, dqp_setAll_get]; decide +kernel
example : setReal "ls" (fun _ => (0 : ℚ)) exDQp = none := rfl
example : (create (K := ℚ) exDQp.dim).dim = exDQp.dim := rfl
end Concrete
end Hpipm
