/-
Properties of the OCP QP data object: C07 (round trip), C08 (frame), C10 (softening map),
C11 (selection matrices), C12 (equality flags), plus copy and set_all.
-/
import Verif.OcpQp

set_option linter.unusedSectionVars false
set_option linter.unusedVariables false
set_option linter.unusedSimpArgs false

namespace Hpipm
open OcpQp

section
variable {K : Type*} [Field K]

/-! ### Specification vocabulary -/

/-- number of reals in the user's array for a field: rows times columns for the matrices of
`x⁺ = A x + B u + b`, the cost and `C x + D u`, the number of bounds for bound fields, the number
of slacks for slack fields -/
def userLen (f : RField) (D : QpDim) (k : ℕ) : ℕ :=
  match f with
  | .A => D.nx (k+1) * D.nx k | .B => D.nx (k+1) * D.nu k | .b => D.nx (k+1)
  | .Q => D.nx k * D.nx k | .S => D.nu k * D.nx k | .R => D.nu k * D.nu k
  | .q => D.nx k | .r => D.nu k
  | .lb | .lb_mask | .ub | .ub_mask => D.nb k
  | .lbx | .lbx_mask | .ubx | .ubx_mask => D.nbx k
  | .lbu | .lbu_mask | .ubu | .ubu_mask => D.nbu k
  | .C => D.ng k * D.nx k | .D => D.ng k * D.nu k
  | .lg | .lg_mask | .ug | .ug_mask => D.ng k
  | .Zl | .Zu | .zl | .zu | .lls | .lls_mask | .lus | .lus_mask => D.ns k

/-- the atomic pieces of a field: `lb` consists of `lbu` followed by `lbx`, and so on -/
def pieces : RField → List RField
  | .lb => [.lbu, .lbx] | .lb_mask => [.lbu_mask, .lbx_mask]
  | .ub => [.ubu, .ubx] | .ub_mask => [.ubu_mask, .ubx_mask]
  | f => [f]

/-- two fields share data -/
def shares (f g : RField) : Bool := (pieces f).any (fun a => (pieces g).contains a)

/-! ### array lemmas -/

theorem veccp_at {α : Type*} (n : ℕ) (x : ℕ → α) (xi : ℕ) (y : ℕ → α) (yi i : ℕ) (h : i < n) :
    veccp n x xi y yi (yi + i) = x (xi + i) := by
  simp [veccp, h]

theorem unpack_pack {α : Type*} (n xi : ℕ) (v x out : ℕ → α) :
    unpackVec n (packVec n v x xi) xi out = mix n v out := by
  funext i
  by_cases h : i < n <;> simp [unpackVec, packVec, veccp, mix, h]

theorem neg_unpack_sc_pack (n xi : ℕ) (v x out : ℕ → K) :
    negArr n (unpackVec n (vecsc n (-1) (packVec n v x xi) xi) xi out) = mix n v out := by
  funext i
  by_cases h : i < n <;> simp [negArr, unpackVec, packVec, veccp, vecsc, mix, h]

theorem colmajor_iff (p m n : ℕ) : (p % m < m ∧ p / m < n) ↔ p < m * n := by
  rcases Nat.eq_zero_or_pos m with h | h
  · subst h; simp
  · have h1 := Nat.mod_lt p h
    rw [Nat.div_lt_iff_lt_mul h, Nat.mul_comm n m]
    exact ⟨fun h => h.2, fun h => ⟨h1, h⟩⟩

theorem unpackTran_pack {α : Type*} (m n ai aj : ℕ) (v : ℕ → α) (A : ℕ → ℕ → α) (out : ℕ → α) :
    unpackTranMat n m (packTranMat m n v m A ai aj) ai aj out m = mix (m * n) v out := by
  funext p
  unfold unpackTranMat mix
  by_cases h : p % m < m ∧ p / m < n
  · rw [if_pos h, if_pos ((colmajor_iff p m n).1 h)]
    simp [packTranMat, h.1, h.2, Nat.mod_add_div]
  · rw [if_neg h, if_neg (fun h' => h ((colmajor_iff p m n).2 h'))]

theorem unpackMat_pack {α : Type*} (m n ai aj : ℕ) (v : ℕ → α) (A : ℕ → ℕ → α) (out : ℕ → α) :
    unpackMat m n (packMat m n v m A ai aj) ai aj out m = mix (m * n) v out := by
  funext p
  unfold unpackMat mix
  by_cases h : p % m < m ∧ p / m < n
  · rw [if_pos h, if_pos ((colmajor_iff p m n).1 h)]
    simp [packMat, h.1, h.2, Nat.mod_add_div]
  · rw [if_neg h, if_neg (fun h' => h ((colmajor_iff p m n).2 h'))]

/-! ### C07 -/

/-- **C07**: for every field, stage, user array and previous content, the getter of the field
returns the array that was set (first `userLen` entries), and touches nothing else of the output
buffer; upper bounds come back with the user's sign. -/
theorem qp_get_set_same (f : RField) (k : ℕ) (v out : ℕ → K) (qp : OcpQp K) :
    getR f k (setR f k v qp) out = mix (userLen f qp.dim k) v out := by
  cases f <;>
    simp only [getR, setR, userLen, upd_same, unpack_pack, neg_unpack_sc_pack, unpackTran_pack,
      unpackMat_pack]

/-- **C07** (element setters): setting one element of the state bounds changes exactly that element
of what the getter reports. -/
theorem qp_setEl_get (k i j : ℕ) (e : K) (qp : OcpQp K) (out : ℕ → K) (hi : i < qp.dim.nbx k) :
    (getR .lbx k (setElLbx k i e qp) out j = if j = i then e else getR .lbx k qp out j) ∧
    (getR .ubx k (setElUbx k i e qp) out j = if j = i then e else getR .ubx k qp out j) := by
  constructor
  · by_cases hj : j < qp.dim.nbx k <;> by_cases hji : j = i <;>
      simp_all [getR, setElLbx, unpackVec, veccp, upd]
  · by_cases hj : j < qp.dim.nbx k <;> by_cases hji : j = i <;>
      simp_all [getR, setElUbx, unpackVec, veccp, upd, negArr]

/-! ### C08 -/

/-- one real number stored in the object -/
inductive Cell
  | BAbt (i j : ℕ) | RSQ (i j : ℕ) | DCt (i j : ℕ) | b (i : ℕ) | rqz (i : ℕ) | d (i : ℕ)
  | mask (i : ℕ) | m (i : ℕ) | Z (i : ℕ)

/-- content of a cell -/
def cellOf (qp : OcpQp K) (k : ℕ) : Cell → K
  | .BAbt i j => qp.BAbt k i j | .RSQ i j => qp.RSQrq k i j | .DCt i j => qp.DCt k i j
  | .b i => qp.b k i | .rqz i => qp.rqz k i | .d i => qp.d k i | .mask i => qp.d_mask k i
  | .m i => qp.m k i | .Z i => qp.Z k i

/-- cells a field may read or (apart from the duplicate rows of `b`, `q`, `r`) write -/
def foot (f : RField) (D : QpDim) (k : ℕ) (c : Cell) : Prop :=
  let nx := D.nx k; let nx1 := D.nx (k + 1); let nu := D.nu k
  let nb := D.nb k; let nbx := D.nbx k; let nbu := D.nbu k; let ng := D.ng k; let ns := D.ns k
  match f, c with
  | .A, .BAbt i j => nu ≤ i ∧ i < nu + nx ∧ j < nx1
  | .B, .BAbt i j => i < nu ∧ j < nx1
  | .b, .b i => i < nx1
  | .Q, .RSQ i j => nu ≤ i ∧ i < nu + nx ∧ nu ≤ j ∧ j < nu + nx
  | .S, .RSQ i j => nu ≤ i ∧ i < nu + nx ∧ j < nu
  | .R, .RSQ i j => i < nu ∧ j < nu
  | .q, .rqz i => nu ≤ i ∧ i < nu + nx
  | .r, .rqz i => i < nu
  | .lb, .d i => i < nb
  | .lbx, .d i => nbu ≤ i ∧ i < nbu + nbx
  | .lbu, .d i => i < nbu
  | .ub, .d i => nb + ng ≤ i ∧ i < nb + ng + nb
  | .ubx, .d i => nb + ng + nbu ≤ i ∧ i < nb + ng + nbu + nbx
  | .ubu, .d i => nb + ng ≤ i ∧ i < nb + ng + nbu
  | .lb_mask, .mask i => i < nb
  | .lbx_mask, .mask i => nbu ≤ i ∧ i < nbu + nbx
  | .lbu_mask, .mask i => i < nbu
  | .ub_mask, .mask i => nb + ng ≤ i ∧ i < nb + ng + nb
  | .ubx_mask, .mask i => nb + ng + nbu ≤ i ∧ i < nb + ng + nbu + nbx
  | .ubu_mask, .mask i => nb + ng ≤ i ∧ i < nb + ng + nbu
  | .C, .DCt i j => nu ≤ i ∧ i < nu + nx ∧ j < ng
  | .D, .DCt i j => i < nu ∧ j < ng
  | .lg, .d i => nb ≤ i ∧ i < nb + ng
  | .lg_mask, .mask i => nb ≤ i ∧ i < nb + ng
  | .ug, .d i => 2 * nb + ng ≤ i ∧ i < 2 * nb + ng + ng
  | .ug_mask, .mask i => 2 * nb + ng ≤ i ∧ i < 2 * nb + ng + ng
  | .Zl, .Z i => i < ns
  | .Zu, .Z i => ns ≤ i ∧ i < ns + ns
  | .zl, .rqz i => nu + nx ≤ i ∧ i < nu + nx + ns
  | .zu, .rqz i => nu + nx + ns ≤ i ∧ i < nu + nx + ns + ns
  | .lls, .d i => 2 * nb + 2 * ng ≤ i ∧ i < 2 * nb + 2 * ng + ns
  | .lls_mask, .mask i => 2 * nb + 2 * ng ≤ i ∧ i < 2 * nb + 2 * ng + ns
  | .lus, .d i => 2 * nb + 2 * ng + ns ≤ i ∧ i < 2 * nb + 2 * ng + ns + ns
  | .lus_mask, .mask i => 2 * nb + 2 * ng + ns ≤ i ∧ i < 2 * nb + 2 * ng + ns + ns
  | _, _ => False

/-- the duplicate row written by the setters of `b`, `q`, `r` and read by no getter -/
def dupRow (D : QpDim) (k : ℕ) : Cell → Prop
  | .BAbt i _ => i = D.nu k + D.nx k
  | .RSQ i _ => i = D.nu k + D.nx k
  | _ => False

theorem setR_dim (f : RField) (k : ℕ) (v : ℕ → K) (qp : OcpQp K) : (setR f k v qp).dim = qp.dim := by
  cases f <;> rfl

theorem setR_other_stage (f : RField) {k l : ℕ} (h : l ≠ k) (v : ℕ → K) (qp : OcpQp K) (c : Cell) :
    cellOf (setR f k v qp) l c = cellOf qp l c := by
  cases f <;> cases c <;> simp [setR, cellOf, upd_ne, h]

set_option maxHeartbeats 1600000 in
theorem setR_outside (f : RField) (k : ℕ) (v : ℕ → K) (qp : OcpQp K) (c : Cell)
    (h : ¬ foot f qp.dim k c) (hd : ¬ dupRow qp.dim k c) :
    cellOf (setR f k v qp) k c = cellOf qp k c := by
  cases f <;> cases c <;>
    simp only [setR, cellOf, upd_same, packTranMat, packMat, packVec, veccp, vecsc, foot, dupRow,
      not_true_eq_false, not_false_eq_true, Nat.zero_le, true_and, Nat.zero_add] at h hd ⊢
  all_goals
    repeat' rw [if_neg (by omega)]

set_option maxHeartbeats 1600000 in
theorem getR_congr (g : RField) (k : ℕ) (qp qp' : OcpQp K) (hdim : qp'.dim = qp.dim)
    (h : ∀ c, foot g qp.dim k c → cellOf qp' k c = cellOf qp k c) (out : ℕ → K) :
    getR g k qp' out = getR g k qp out := by
  have hA := fun i j => h (.BAbt i j)
  have hR := fun i j => h (.RSQ i j)
  have hD := fun i j => h (.DCt i j)
  have hb := fun i => h (.b i)
  have hr := fun i => h (.rqz i)
  have hd := fun i => h (.d i)
  have hm := fun i => h (.mask i)
  have hZ := fun i => h (.Z i)
  clear h
  funext p
  cases g <;>
    simp only [getR, cellOf, foot, unpackTranMat, unpackMat, unpackVec, veccp, negArr, hdim,
      Nat.zero_le, true_and, Nat.zero_add, Nat.sub_zero] at hA hR hD hb hr hd hm hZ ⊢ <;>
    split_ifs <;> first
      | rfl
      | (rw [hA] <;> omega) | (rw [hR] <;> omega) | (rw [hD] <;> omega)
      | (rw [hb] <;> omega) | (rw [hr] <;> omega) | (rw [hd] <;> omega) | (rw [hm] <;> omega)
      | (rw [hZ] <;> omega)
      | (rename_i hh; rw [hA]; simp [hh]) | (rename_i hh; rw [hR]; simp [hh]) | (rename_i hh; rw [hD]; simp [hh])

theorem foot_not_dup (g : RField) (D : QpDim) (k : ℕ) (c : Cell) (h : foot g D k c) : ¬ dupRow D k c := by
  cases g <;> cases c <;> simp only [foot, dupRow] at h ⊢ <;> first | exact id | omega

set_option maxHeartbeats 8000000 in
theorem foot_disjoint (f g : RField) (D : QpDim) (hD : D.Ok) (k : ℕ) (hfg : shares f g = false)
    (c : Cell) (h : foot g D k c) : ¬ foot f D k c := by
  have hk := hD k
  cases c <;> cases g <;> simp only [foot] at h <;> cases f <;> simp only [foot] <;>
    first
      | exact id
      | omega
      | exact absurd hfg (by decide)

/-- **C08**: a numeric setter does not change what any getter reports for a field that does not
share data with it, nor for any field at another stage (`lb` shares data with `lbu` and `lbx` only,
etc., see `shares`). -/
theorem qp_get_set_other (f g : RField) (k l : ℕ) (v out : ℕ → K) (qp : OcpQp K) (hD : qp.dim.Ok)
    (h : l ≠ k ∨ shares f g = false) :
    getR g l (setR f k v qp) out = getR g l qp out := by
  apply getR_congr g l _ _ (setR_dim f k v qp)
  intro c hc
  by_cases hl : l = k
  · subst hl
    exact setR_outside f l v qp c (foot_disjoint f g _ hD l (by simpa using h) c hc) (foot_not_dup g _ l c hc)
  · exact setR_other_stage f hl v qp c

/-- **C08** (integer data): a numeric setter changes no index list, no target and no dimension. -/
theorem qp_set_keeps_ints (f : RField) (k : ℕ) (v : ℕ → K) (qp : OcpQp K) :
    (setR f k v qp).idxb = qp.idxb ∧ (setR f k v qp).idxs_rev = qp.idxs_rev ∧
    (setR f k v qp).idxe = qp.idxe ∧ (setR f k v qp).diag_H_flag = qp.diag_H_flag ∧
    (setR f k v qp).m = qp.m ∧ (setR f k v qp).dim = qp.dim := by
  cases f <;> exact ⟨rfl, rfl, rfl, rfl, rfl, rfl⟩

/-- **C08** (targets): setting a complementarity target changes no numeric getter. -/
theorem qp_setM_get (f : MField) (g : RField) (k l : ℕ) (v out : ℕ → K) (qp : OcpQp K) :
    getR g l (setM f k v qp) out = getR g l qp out := by
  cases f <;> cases g <;> rfl

/-! ### set_all and copy_all -/

/-- the argument of set_all holding a field (`lb`, `ub` are given in pieces, masks are not given) -/
def argOf (a : AllArgs K) : RField → Option (ℕ → ℕ → K)
  | .A => some a.A | .B => some a.B | .b => some a.b | .Q => some a.Q | .S => some a.S
  | .R => some a.R | .q => some a.q | .r => some a.r | .lbx => some a.lbx | .lbu => some a.lbu
  | .ubx => some a.ubx | .ubu => some a.ubu | .C => some a.C | .D => some a.D | .lg => some a.lg
  | .ug => some a.ug | .Zl => some a.Zl | .Zu => some a.Zu | .zl => some a.zl | .zu => some a.zu
  | .lls => some a.ls | .lus => some a.us
  | _ => none

/-- last stage at which a field exists -/
def fieldStage (f : RField) (D : QpDim) (k : ℕ) : Prop :=
  match f with
  | .A | .B | .b => k < D.N
  | _ => k ≤ D.N

theorem packVec_in {α : Type*} {n : ℕ} (v : ℕ → α) (x : ℕ → α) {xi i : ℕ} (h : xi ≤ i ∧ i < xi + n) :
    packVec n v x xi i = v (i - xi) := by simp [packVec, veccp, h]
theorem packVec_out {α : Type*} {n : ℕ} (v : ℕ → α) (x : ℕ → α) {xi i : ℕ} (h : ¬ (xi ≤ i ∧ i < xi + n)) :
    packVec n v x xi i = x i := by simp only [packVec, veccp, if_neg h]
theorem vecsc_in {n : ℕ} (a : K) (x : ℕ → K) {xi i : ℕ} (h : xi ≤ i ∧ i < xi + n) :
    vecsc n a x xi i = a * x i := by simp [vecsc, h]
theorem vecsc_out {n : ℕ} (a : K) (x : ℕ → K) {xi i : ℕ} (h : ¬ (xi ≤ i ∧ i < xi + n)) :
    vecsc n a x xi i = x i := by simp only [vecsc, if_neg h]
theorem packVec_zero {α : Type*} (v x : ℕ → α) (xi : ℕ) : packVec 0 v x xi = x := by
  funext i; exact packVec_out v x (by omega)
theorem vecsc_zero (a : K) (x : ℕ → K) (xi : ℕ) : vecsc 0 a x xi = x := by
  funext i; exact vecsc_out a x (by omega)
theorem guard_eq {α : Type*} (n : ℕ) (x y : α) (h : n = 0 → x = y) : (if 0 < n then x else y) = x := by
  split_ifs with h0
  · rfl
  · exact (h (by omega)).symm

theorem setAll_d (a : AllArgs K) (qp : OcpQp K) (k : ℕ) (hk : k ≤ qp.dim.N) :
    let D := qp.dim
    (setAll a qp).d k =
      packVec (D.ns k) (a.us k) (packVec (D.ns k) (a.ls k)
        (vecsc (D.ng k) (-1) (packVec (D.ng k) (a.ug k) (packVec (D.ng k) (a.lg k)
          (vecsc (D.nb k) (-1)
            (packVec (D.nbx k) (a.ubx k) (packVec (D.nbx k) (a.lbx k)
              (packVec (D.nbu k) (a.ubu k) (packVec (D.nbu k) (a.lbu k) (qp.d k) 0) (D.nb k + D.ng k))
              (D.nbu k)) (D.nb k + D.ng k + D.nbu k)) (D.nb k + D.ng k)) (D.nb k))
          (2 * D.nb k + D.ng k)) (2 * D.nb k + D.ng k)) (2 * D.nb k + 2 * D.ng k))
        (2 * D.nb k + 2 * D.ng k + D.ns k) := by
  simp only [setAll, if_pos hk]
  rw [guard_eq (qp.dim.nbu k) _ _ (fun h => by rw [h, packVec_zero, packVec_zero]),
    guard_eq (qp.dim.nbx k) _ _ (fun h => by rw [h, packVec_zero, packVec_zero]),
    guard_eq (qp.dim.nb k) _ _ (fun h => by rw [h, vecsc_zero]),
    guard_eq (qp.dim.ng k) _ _ (fun h => by rw [h, vecsc_zero, packVec_zero, packVec_zero]),
    guard_eq (qp.dim.ns k) _ _ (fun h => by rw [h, packVec_zero, packVec_zero])]

/-- step through nested writes -/
local macro "walk" : tactic => `(tactic|
  (simp (disch := omega) only [packVec_in, packVec_out, vecsc_in, vecsc_out]))

set_option maxHeartbeats 4000000 in
theorem setAll_cell (a : AllArgs K) (f : RField) (w : ℕ → ℕ → K) (hw : argOf a f = some w)
    (k : ℕ) (qp : OcpQp K) (hD : qp.dim.Ok) (hk : fieldStage f qp.dim k) (c : Cell)
    (hc : foot f qp.dim k c) :
    cellOf (setAll a qp) k c = cellOf (setR f k (w k) qp) k c := by
  have hnb := hD k
  cases f <;> simp only [argOf, Option.some.injEq, reduceCtorEq] at hw <;> subst hw <;>
    cases c <;> simp only [foot] at hc <;> simp only [fieldStage] at hk <;>
    first
    | (simp only [cellOf, setR, upd_same]; rw [setAll_d a qp k hk]; walk; done)
    | (simp only [cellOf, setR, setAll, upd_same, if_pos hk]; done)
    | (simp only [cellOf, setR, setAll, upd_same, if_pos hk]
       first
       | (rw [guard_eq (qp.dim.ns k) _ _ (fun h => by rw [h, packVec_zero, packVec_zero])]; walk; done)
       | (rw [if_pos (by omega : 0 < qp.dim.ng k)]; simp only [packTranMat, Nat.zero_le, true_and, Nat.zero_add]; split_ifs <;> first | rfl | (exfalso; omega))
       | (walk; done)
       | (simp only [packTranMat, packMat, Nat.zero_le, true_and, Nat.zero_add]; split_ifs <;> first | rfl | (exfalso; omega)))

/-- **C07** (set_all): after set_all every field given to it is returned by its getter, at every
stage where it exists. -/
theorem qp_setAll_get (a : AllArgs K) (f : RField) (w : ℕ → ℕ → K) (hw : argOf a f = some w)
    (k : ℕ) (qp : OcpQp K) (hD : qp.dim.Ok) (hk : fieldStage f qp.dim k) (out : ℕ → K) :
    getR f k (setAll a qp) out = mix (userLen f qp.dim k) (w k) out := by
  rw [← qp_get_set_same f k (w k) out qp]
  apply getR_congr f k (setR f k (w k) qp) (setAll a qp) (by rw [setR_dim]; rfl)
  intro c hc
  rw [setR_dim] at hc
  exact setAll_cell a f w hw k qp hD hk c hc

theorem loop_upd_shift {α : Type*} (n off : ℕ) (g f : ℕ → α) :
    loop n (fun i a => upd a (off + i) (g i)) f = fun i => if off ≤ i ∧ i < off + n then g (i - off) else f i := by
  induction n with
  | zero => funext i; rw [loop_zero, if_neg (by omega)]
  | succ n ih =>
    rw [loop_succ, ih]
    funext i
    by_cases h : i = off + n
    · subst h; simp
    · rw [upd_ne _ _ h]; congr 1; apply propext; omega

/-- **C07** (set_all, boxes): the index list after set_all: the input boxes refer to the inputs
listed in `idxbu`, the state boxes to the states listed in `idxbx` (states come after the inputs). -/
theorem qp_setAll_idxb (a : AllArgs K) (k : ℕ) (qp : OcpQp K) (hk : k ≤ qp.dim.N) :
    (∀ j, j < qp.dim.nbu k → (setAll a qp).idxb k j = a.idxbu k j) ∧
    (∀ j, j < qp.dim.nbx k → (setAll a qp).idxb k (qp.dim.nbu k + j) = qp.dim.nu k + a.idxbx k j) := by
  constructor <;> intro j hj <;> simp only [setAll, if_pos hk, loop_upd_shift, loop_upd]
  · rw [if_neg (by omega), mix_lt _ _ hj]
  · rw [if_pos (by omega)]; simp

set_option maxHeartbeats 4000000 in
theorem copyAll_cell (src dst : OcpQp K) (hdim : dst.dim = src.dim) (f : RField) (k : ℕ)
    (hD : src.dim.Ok) (hk : fieldStage f src.dim k) (c : Cell) (hc : foot f src.dim k c) :
    cellOf (copyAll src dst) k c = cellOf src k c := by
  have hnb := hD k
  cases f <;> cases c <;> simp only [foot] at hc <;> simp only [fieldStage] at hk <;>
    simp only [copyAll, cellOf, gecp, veccp, nct, if_pos hk, Nat.zero_le, true_and, Nat.zero_add, Nat.sub_zero] <;>
    split_ifs <;> first | rfl | (exfalso; omega)

/-- **C07** (copy_all): after copying a QP onto one with the same sizes, every numeric getter of the
copy answers as that of the original. -/
theorem qp_copyAll_get (src dst : OcpQp K) (hdim : dst.dim = src.dim) (hD : src.dim.Ok) (f : RField)
    (k : ℕ) (hk : fieldStage f src.dim k) (out : ℕ → K) :
    getR f k (copyAll src dst) out = getR f k src out := by
  apply getR_congr f k src (copyAll src dst) (by simpa [copyAll] using hdim)
  intro c hc
  exact copyAll_cell src dst hdim f k hD hk c hc

/-- **C07** (copy_all, index data and targets). -/
theorem qp_copyAll_ints (src dst : OcpQp K) (hdim : dst.dim = src.dim) (k : ℕ) (hk : k ≤ src.dim.N)
    (o : ℕ → ℕ) (oz : ℕ → ℤ) :
    getIdxb k (copyAll src dst) o = getIdxb k src o ∧
    getIdxsRev k (copyAll src dst) oz = getIdxsRev k src oz ∧
    getIdxe k (copyAll src dst) o = getIdxe k src o ∧
    (copyAll src dst).diag_H_flag k = src.diag_H_flag k ∧
    (∀ i, i < src.nct k → (copyAll src dst).m k i = src.m k i) := by
  have e1 : (copyAll src dst).dim = src.dim := by simpa [copyAll] using hdim
  refine ⟨?_, ?_, ?_, ?_, ?_⟩
  · unfold getIdxb; rw [e1, loop_upd, loop_upd]
    funext i; unfold mix; split_ifs with h
    · simp only [copyAll, if_pos hk, loop_upd, mix_lt _ _ h]
    · rfl
  · unfold getIdxsRev; rw [e1, loop_upd, loop_upd]
    funext i; unfold mix; split_ifs with h
    · simp only [copyAll, if_pos hk, loop_upd, mix_lt _ _ h]
    · rfl
  · unfold getIdxe; rw [e1, loop_upd, loop_upd]
    funext i; unfold mix; split_ifs with h
    · simp only [copyAll, if_pos hk, loop_upd]
      rw [mix_lt]; omega
    · rfl
  · simp [copyAll, hk]
  · intro i hi; simp [copyAll, hk, veccp, hi]

/-! ### C10: softening map -/

/-- effect of the reverse-map loop for an injective list -/
theorem revLoop_spec (n : ℕ) (v : ℕ → ℕ) (a : ℕ → ℤ) (hinj : ∀ i j, i < n → j < n → v i = v j → i = j) :
    (∀ i, i < n → loop n (fun i a => upd a (v i) (i : ℤ)) a (v i) = i) ∧
    (∀ c, (∀ i, i < n → v i ≠ c) → loop n (fun i a => upd a (v i) (i : ℤ)) a c = a c) := by
  induction n with
  | zero => exact ⟨fun i hi => absurd hi (Nat.not_lt_zero i), fun c _ => rfl⟩
  | succ n ih =>
    obtain ⟨h1, h2⟩ := ih (fun i j hi hj => hinj i j (by omega) (by omega))
    constructor
    · intro i hi
      rw [loop_succ]
      by_cases h : i = n
      · subst h; simp
      · rw [upd_ne]
        · exact h1 i (by omega)
        · intro h'; exact h (hinj i n hi (by omega) h')
    · intro c hc
      rw [loop_succ, upd_ne _ _ (fun h => hc n (by omega) h.symm)]
      exact h2 c (fun i hi => hc i (by omega))

/-- **C10** (set): with distinct entries in the list, constraint `idxs[i]` uses slack `i`, every
constraint not in the list keeps its softening. -/
theorem qp_setIdxs_spec (k : ℕ) (v : ℕ → ℕ) (qp : OcpQp K)
    (hinj : ∀ i j, i < qp.dim.ns k → j < qp.dim.ns k → v i = v j → i = j) :
    (∀ i, i < qp.dim.ns k → (setIdxs k v qp).idxs_rev k (v i) = i) ∧
    (∀ c, (∀ i, i < qp.dim.ns k → v i ≠ c) → (setIdxs k v qp).idxs_rev k c = qp.idxs_rev k c) := by
  have := revLoop_spec (qp.dim.ns k) v (qp.idxs_rev k) hinj
  simpa [setIdxs] using this

/-- **C10** (round trip): from a QP without softened constraints (as after creation), setting the
list of softened constraints and reading it back returns the list. -/
theorem qp_getIdxs_setIdxs (k : ℕ) (v out : ℕ → ℕ) (qp : OcpQp K)
    (hinj : ∀ i j, i < qp.dim.ns k → j < qp.dim.ns k → v i = v j → i = j)
    (hr : ∀ i, i < qp.dim.ns k → v i < qp.dim.nb k + qp.dim.ng k)
    (h0 : ∀ c, c < qp.dim.nb k + qp.dim.ng k → qp.idxs_rev k c = -1) :
    getIdxs k (setIdxs k v qp) out = mix (qp.dim.ns k) v out := by
  obtain ⟨h1, h2⟩ := qp_setIdxs_spec k v qp hinj
  have hdim : (setIdxs k v qp).dim = qp.dim := rfl
  unfold getIdxs
  rw [hdim]
  generalize hrev : (setIdxs k v qp).idxs_rev k = rev at h1 h2
  set n := qp.dim.nb k + qp.dim.ng k with hn
  -- after processing the first `c` constraints the entries of slacks of those are right
  have inv := loop_inv (S := ℕ → ℕ)
    (fun c a => (∀ i, i < qp.dim.ns k → v i < c → a i = v i) ∧
      (∀ i, (qp.dim.ns k ≤ i ∨ c ≤ v i) → a i = out i)) n
    (fun i a => if rev i ≠ -1 then upd a (rev i).toNat i else a) out
    ⟨fun i _ h => absurd h (Nat.not_lt_zero _), fun i _ => rfl⟩ ?_
  · funext i
    by_cases hi : i < qp.dim.ns k
    · rw [mix_lt _ _ hi]; exact inv.1 i hi (hr i hi)
    · rw [mix_ge _ _ (by omega)]; exact inv.2 i (Or.inl (by omega))
  · intro c a hc ⟨ha, ho⟩
    by_cases hs : ∃ i, i < qp.dim.ns k ∧ v i = c
    · obtain ⟨s, hs, hsc⟩ := hs
      have hrc : rev c = s := by rw [← hsc]; exact h1 s hs
      have hne : rev c ≠ -1 := by rw [hrc]; omega
      rw [if_pos hne, hrc, Int.toNat_natCast]
      constructor
      · intro i hi hvi
        by_cases his : i = s
        · subst his; rw [upd_same]; exact hsc.symm
        · rw [upd_ne _ _ his]
          apply ha i hi
          have : v i ≠ c := fun h => his (hinj i s hi hs (by rw [h, hsc]))
          omega
      · intro i hi
        have : i ≠ s := by rintro rfl; omega
        rw [upd_ne _ _ this]; apply ho; omega
    · have hnc : ∀ i, i < qp.dim.ns k → v i ≠ c := fun i hi h => hs ⟨i, hi, h⟩
      have hrc : rev c = -1 := by rw [h2 c hnc]; exact h0 c hc
      simp only [hrc, ne_eq, not_true_eq_false, if_false]
      exact ⟨fun i hi hvi => ha i hi (by have := hnc i hi; omega), fun i hi => ho i (by omega)⟩

/-- **C10** (reset): setting the QP to zero removes the softening of the first `ns` constraints of
every stage and of no other. -/
theorem qp_setAllZero_idxs_rev (qp : OcpQp K) (k c : ℕ) (hk : k ≤ qp.dim.N) :
    (setAllZero qp).idxs_rev k c = if c < qp.dim.ns k then -1 else qp.idxs_rev k c := by
  simp only [setAllZero, if_pos hk]
  rw [loop_upd (qp.dim.ns k) (fun _ => (-1 : ℤ))]; rfl

/-- **C10** (reset): hence the reset removes every softening exactly when no constraint with number
at least `ns` was softened before. -/
theorem qp_setAllZero_removes_iff (qp : OcpQp K) (k : ℕ) (hk : k ≤ qp.dim.N) :
    (∀ c, c < qp.dim.nb k + qp.dim.ng k → (setAllZero qp).idxs_rev k c = -1) ↔
    (∀ c, qp.dim.ns k ≤ c → c < qp.dim.nb k + qp.dim.ng k → qp.idxs_rev k c = -1) := by
  constructor
  · intro h c h1 h2
    have := h c h2
    rwa [qp_setAllZero_idxs_rev qp k c hk, if_neg (by omega)] at this
  · intro h c hc
    rw [qp_setAllZero_idxs_rev qp k c hk]
    split_ifs with h1
    · rfl
    · exact h c (by omega) hc

/-- set_all_zero: all numeric data read back as zero and all masks as one. -/
theorem qp_setAllZero_get (qp : OcpQp K) (hD : qp.dim.Ok) (f : RField) (k : ℕ)
    (hk : fieldStage f qp.dim k) (out : ℕ → K) (i : ℕ) (hi : i < userLen f qp.dim k) :
    getR f k (setAllZero qp) out i =
      match f with
      | .lb_mask | .lbx_mask | .lbu_mask | .ub_mask | .ubx_mask | .ubu_mask | .lg_mask | .ug_mask
      | .lls_mask | .lus_mask => 1
      | _ => 0 := by
  have hnb := hD k
  cases f <;> simp only [fieldStage] at hk <;> simp only [userLen] at hi <;>
    first
    | (simp [getR, setAllZero, hk, unpackVec, veccp, vecse, hi]; done)
    | (simp only [getR, setAllZero, if_pos hk, unpackVec, veccp, vecse, negArr, nct, Nat.zero_le, true_and,
        Nat.zero_add, Nat.sub_zero, hi, if_true]
       split_ifs <;> first | (exfalso; omega) | simp)
    | (have h2 := (colmajor_iff i _ _).2 hi
       simp only [getR, setAllZero, if_pos hk, unpackMat, unpackTranMat, gese, h2, and_self, if_true]
       rw [if_pos]
       obtain ⟨h3, h4⟩ := h2
       have h5 := h3.le; have h6 := h4.le
       simp only [Nat.zero_add, Nat.zero_le, true_and, Nat.le_add_right, Nat.add_lt_add_iff_left, h3, h4, and_true,
         and_self]
       try exact lt_of_lt_of_le (by first | exact h4 | exact h3 | exact Nat.add_lt_add_left h4 _ | exact Nat.add_lt_add_left h3 _) (by omega)
       try exact ⟨lt_of_lt_of_le (by first | exact h4 | exact h3 | exact Nat.add_lt_add_left h4 _ | exact Nat.add_lt_add_left h3 _) (by omega), lt_of_lt_of_le (by first | exact h4 | exact h3 | exact Nat.add_lt_add_left h4 _ | exact Nat.add_lt_add_left h3 _) (by omega)⟩)

/-! ### C11: selection matrices -/

section
variable [DecidableEq K]

theorem scanRow_spec {α : Type*} (n : ℕ) (J : ℕ → K) (ii ld pos : ℕ) (val : ℕ → α) (a : ℕ → α) :
    (∀ c, c < n → J (ii + c * ld) ≠ 0 → (∀ j, j < c → J (ii + j * ld) = 0) →
      scanRow n J ii ld pos val a = upd a pos (val c)) ∧
    ((∀ j, j < n → J (ii + j * ld) = 0) → scanRow n J ii ld pos val a = a) := by
  have inv : ∀ n, (∀ c, c < n → J (ii + c * ld) ≠ 0 → (∀ j, j < c → J (ii + j * ld) = 0) →
        loop n (fun jj (s : Option ℕ × (ℕ → α)) =>
          if s.1 = none ∧ J (ii + jj * ld) ≠ 0 then (some jj, upd s.2 pos (val jj)) else s) (none, a)
          = (some c, upd a pos (val c))) ∧
      ((∀ j, j < n → J (ii + j * ld) = 0) →
        loop n (fun jj (s : Option ℕ × (ℕ → α)) =>
          if s.1 = none ∧ J (ii + jj * ld) ≠ 0 then (some jj, upd s.2 pos (val jj)) else s) (none, a)
          = (none, a)) := by
    intro n
    induction n with
    | zero => exact ⟨fun c hc => absurd hc (Nat.not_lt_zero c), fun _ => rfl⟩
    | succ n ih =>
      obtain ⟨h1, h2⟩ := ih
      constructor
      · intro c hc hJ hlt
        rw [loop_succ]
        by_cases hcn : c < n
        · rw [h1 c hcn hJ hlt]; simp
        · have : c = n := by omega
          subst this
          rw [h2 hlt]; simp [hJ]
      · intro h
        rw [loop_succ, h2 (fun j hj => h j (by omega))]
        simp [h n (by omega)]
  constructor
  · intro c hc hJ hlt
    unfold scanRow; rw [(inv n).1 c hc hJ hlt]
  · intro h
    unfold scanRow; rw [(inv n).2 h]

/-- effect of scanning all rows of a selection matrix: the row with first nonzero column `c` puts
`val c` into its position, zero rows leave their position as it was, other positions are kept -/
theorem scanRows_spec {α : Type*} (rows n : ℕ) (J : ℕ → K) (ld off : ℕ) (val : ℕ → α) (a : ℕ → α) :
    (∀ ii c, ii < rows → c < n → J (ii + c * ld) ≠ 0 → (∀ j, j < c → J (ii + j * ld) = 0) →
      loop rows (fun ii a => scanRow n J ii ld (off + ii) val a) a (off + ii) = val c) ∧
    (∀ ii, ii < rows → (∀ j, j < n → J (ii + j * ld) = 0) →
      loop rows (fun ii a => scanRow n J ii ld (off + ii) val a) a (off + ii) = a (off + ii)) ∧
    (∀ p, p < off ∨ off + rows ≤ p →
      loop rows (fun ii a => scanRow n J ii ld (off + ii) val a) a p = a p) := by
  have keep : ∀ ii (x : ℕ → α) p, p ≠ off + ii → scanRow n J ii ld (off + ii) val x p = x p := by
    intro ii x p hp
    by_cases hz : ∀ j, j < n → J (ii + j * ld) = 0
    · rw [(scanRow_spec n J ii ld (off + ii) val x).2 hz]
    · push Not at hz
      have hex : ∃ j, j < n ∧ J (ii + j * ld) ≠ 0 := hz
      classical
      have hf := Nat.find_spec hex
      rw [(scanRow_spec n J ii ld (off + ii) val x).1 (Nat.find hex) hf.1 hf.2
        (fun j hj => by
          by_contra hne
          exact Nat.find_min hex hj ⟨by omega, hne⟩)]
      exact upd_ne _ _ hp
  induction rows with
  | zero =>
    exact ⟨fun ii c h => absurd h (Nat.not_lt_zero _), fun ii h => absurd h (Nat.not_lt_zero _), fun p _ => rfl⟩
  | succ r ih =>
    obtain ⟨h1, h2, h3⟩ := ih
    refine ⟨?_, ?_, ?_⟩
    · intro ii c hii hc hJ hlt
      rw [loop_succ]
      by_cases h : ii = r
      · subst h; rw [(scanRow_spec n J ii ld (off + ii) val _).1 c hc hJ hlt, upd_same]
      · rw [keep _ _ _ (by omega)]; exact h1 ii c (by omega) hc hJ hlt
    · intro ii hii hz
      rw [loop_succ]
      by_cases h : ii = r
      · subst h; rw [(scanRow_spec n J ii ld (off + ii) val _).2 hz]; exact h3 _ (Or.inr (le_refl _))
      · rw [keep _ _ _ (by omega)]; exact h2 ii (by omega) hz
    · intro p hp
      rw [loop_succ, keep _ _ _ (by omega)]; exact h3 p (by omega)

/-- a 0/1 selection matrix, column major with `rows` rows: row `i` has its one at column `sel i` -/
def Selects (rows cols : ℕ) (J : ℕ → K) (sel : ℕ → ℕ) : Prop :=
  ∀ i, i < rows → sel i < cols ∧ ∀ j, j < cols → J (i + j * rows) = if j = sel i then 1 else 0

omit [DecidableEq K] in
theorem Selects.first {rows cols : ℕ} {J : ℕ → K} {sel : ℕ → ℕ} (h : Selects rows cols J sel) (i : ℕ)
    (hi : i < rows) : sel i < cols ∧ J (i + sel i * rows) ≠ 0 ∧ ∀ j, j < sel i → J (i + j * rows) = 0 := by
  obtain ⟨h1, h2⟩ := h i hi
  refine ⟨h1, ?_, ?_⟩
  · rw [h2 _ h1, if_pos rfl]; exact one_ne_zero
  · intro j hj; rw [h2 j (by omega), if_neg (by omega)]

/-- **C11** (state boxes): after setting the state box selection by a matrix `Jbx`, the variable
bounded by row `i` of the state boxes is the one selected by row `i` of `Jbx`: for every stage
variable `ux = [u; x]`, the bounded component equals `(Jbx x)_i`; the input boxes are untouched. -/
theorem qp_setJbx_spec (k : ℕ) (J : ℕ → K) (sel : ℕ → ℕ) (qp : OcpQp K)
    (hJ : Selects (qp.dim.nbx k) (qp.dim.nx k) J sel) :
    (∀ (ux : ℕ → K) i, i < qp.dim.nbx k →
      ux ((setJbx k J qp).idxb k (qp.dim.nbu k + i)) =
        ∑ j ∈ Finset.range (qp.dim.nx k), J (i + j * qp.dim.nbx k) * ux (qp.dim.nu k + j)) ∧
    (∀ i, i < qp.dim.nbu k → (setJbx k J qp).idxb k i = qp.idxb k i) ∧
    (∀ l i, l ≠ k → (setJbx k J qp).idxb l i = qp.idxb l i) := by
  obtain ⟨h1, _, h3⟩ := scanRows_spec (qp.dim.nbx k) (qp.dim.nx k) J (qp.dim.nbx k) (qp.dim.nbu k)
    (fun jj => qp.dim.nu k + jj) (qp.idxb k)
  refine ⟨?_, ?_, ?_⟩
  · intro ux i hi
    obtain ⟨hs, hnz, hz⟩ := hJ.first i hi
    simp only [setJbx, upd_same]
    rw [h1 i (sel i) hi hs hnz hz, Finset.sum_eq_single (sel i)]
    · rw [(hJ i hi).2 _ hs]; simp
    · intro j hj hne
      rw [(hJ i hi).2 j (Finset.mem_range.1 hj)]; simp [hne]
    · intro h; exact absurd (Finset.mem_range.2 hs) h
  · intro i hi; simp only [setJbx, upd_same]; exact h3 i (Or.inl hi)
  · intro l i hl; simp [setJbx, upd_ne, hl]

/-- **C11** (input boxes). -/
theorem qp_setJbu_spec (k : ℕ) (J : ℕ → K) (sel : ℕ → ℕ) (qp : OcpQp K)
    (hJ : Selects (qp.dim.nbu k) (qp.dim.nu k) J sel) :
    (∀ (ux : ℕ → K) i, i < qp.dim.nbu k →
      ux ((setJbu k J qp).idxb k i) =
        ∑ j ∈ Finset.range (qp.dim.nu k), J (i + j * qp.dim.nbu k) * ux j) ∧
    (∀ i, qp.dim.nbu k ≤ i → (setJbu k J qp).idxb k i = qp.idxb k i) ∧
    (∀ l i, l ≠ k → (setJbu k J qp).idxb l i = qp.idxb l i) := by
  obtain ⟨h1, _, h3⟩ := scanRows_spec (qp.dim.nbu k) (qp.dim.nu k) J (qp.dim.nbu k) 0
    (fun jj => jj) (qp.idxb k)
  simp only [Nat.zero_add] at h1 h3
  refine ⟨?_, ?_, ?_⟩
  · intro ux i hi
    obtain ⟨hs, hnz, hz⟩ := hJ.first i hi
    simp only [setJbu, upd_same]
    rw [h1 i (sel i) hi hs hnz hz, Finset.sum_eq_single (sel i)]
    · rw [(hJ i hi).2 _ hs]; simp
    · intro j hj hne
      rw [(hJ i hi).2 j (Finset.mem_range.1 hj)]; simp [hne]
    · intro h; exact absurd (Finset.mem_range.2 hs) h
  · intro i hi; simp only [setJbu, upd_same]; exact h3 i (Or.inr hi)
  · intro l i hl; simp [setJbu, upd_ne, hl]

/-- **C11** (slack selection): rows of `Jsbu`/`Jsbx`/`Jsg` with a one at column `sel i` attach slack
`sel i` to the constraint, zero rows leave the softening of the constraint as it was. -/
theorem qp_setJs_spec (k n off : ℕ) (J : ℕ → K) (qp : OcpQp K) :
    (∀ i c, i < n → c < qp.dim.ns k → J (i + c * n) ≠ 0 → (∀ j, j < c → J (i + j * n) = 0) →
      (setJs k n off J qp).idxs_rev k (off + i) = c) ∧
    (∀ i, i < n → (∀ j, j < qp.dim.ns k → J (i + j * n) = 0) →
      (setJs k n off J qp).idxs_rev k (off + i) = qp.idxs_rev k (off + i)) ∧
    (∀ p, p < off ∨ off + n ≤ p → (setJs k n off J qp).idxs_rev k p = qp.idxs_rev k p) := by
  have h := scanRows_spec n (qp.dim.ns k) J n off (fun jj => (jj : ℤ)) (qp.idxs_rev k)
  simpa only [setJs, upd_same] using h

/-! ### C12: equality flags -/

theorem markLoop_spec (n ne pos base : ℕ) (J : ℕ → K) (a : ℕ → ℕ) :
    let r := markLoop n ne pos base J a
    min n ne ≤ r.1 ∧ r.1 ≤ n ∧
    (∀ i, i < n → i < ne → r.2 (pos + i) = base + i) ∧
    (∀ p, p < pos ∨ pos + r.1 ≤ p → r.2 p = a p) ∧
    (∀ i, i < r.1 → ∃ c, c < n ∧ r.2 (pos + i) = base + c ∧ (i < ne ∨ J c ≠ 0)) ∧
    r.1 = min n ne + ((Finset.range n).filter (fun i => ne ≤ i ∧ J i ≠ 0)).card := by
  intro r
  have inv := loop_inv (S := ℕ × (ℕ → ℕ))
    (fun m s => min m ne ≤ s.1 ∧ s.1 ≤ m ∧
      (∀ i, i < m → i < ne → s.2 (pos + i) = base + i) ∧
      (∀ p, p < pos ∨ pos + s.1 ≤ p → s.2 p = a p) ∧
      (∀ i, i < s.1 → ∃ c, c < m ∧ s.2 (pos + i) = base + c ∧ (i < ne ∨ J c ≠ 0)) ∧
      s.1 = min m ne + ((Finset.range m).filter (fun i => ne ≤ i ∧ J i ≠ 0)).card) n
    (fun ii s => if s.1 < ne ∨ J ii ≠ 0 then (s.1 + 1, upd s.2 (pos + s.1) (base + ii)) else s) (0, a)
    ⟨by simp, by simp, by simp, by simp, by simp, by simp⟩ ?_
  · exact inv
  · intro m s hm ⟨h1, h2, h3, h4, h5, h6⟩
    have hsm : s.1 < ne → s.1 = m := by intro h; omega
    have hcard : ((Finset.range (m+1)).filter (fun i => ne ≤ i ∧ J i ≠ 0)).card =
        ((Finset.range m).filter (fun i => ne ≤ i ∧ J i ≠ 0)).card + if ne ≤ m ∧ J m ≠ 0 then 1 else 0 := by
      rw [Finset.range_add_one, Finset.filter_insert]
      split_ifs with h
      · rw [Finset.card_insert_of_notMem (by simp)]
      · rfl
    by_cases hc : s.1 < ne ∨ J m ≠ 0
    · simp only [hc, if_true]
      refine ⟨by omega, by omega, ?_, ?_, ?_, ?_⟩
      · intro i hi hne
        by_cases him : i = m
        · subst him
          have : s.1 = i := by omega
          rw [this, upd_same]
        · rw [upd_ne _ _ (by omega)]; exact h3 i (by omega) hne
      · intro p hp
        rw [upd_ne _ _ (by omega)]; exact h4 p (by omega)
      · intro i hi
        by_cases his : i = s.1
        · subst his
          exact ⟨m, by omega, by rw [upd_same], by tauto⟩
        · obtain ⟨c, hc1, hc2, hc3⟩ := h5 i (by omega)
          exact ⟨c, by omega, by rw [upd_ne _ _ (by omega)]; exact hc2, hc3⟩
      · rw [hcard]
        by_cases hme : ne ≤ m
        · have hJ : J m ≠ 0 := by
            rcases hc with h | h
            · exact absurd (hsm h) (by omega)
            · exact h
          rw [if_pos ⟨hme, hJ⟩]; omega
        · rw [if_neg (by tauto)]; omega
    · simp only [hc, if_false]
      have hJ : J m = 0 := by by_contra h; exact hc (Or.inr h)
      have hne : ne ≤ s.1 := by by_contra h; exact hc (Or.inl (by omega))
      refine ⟨by omega, by omega, ?_, h4, ?_, ?_⟩
      · intro i hi hi2; exact h3 i (by omega) hi2
      · intro i hi; obtain ⟨c, hc1, hc2⟩ := h5 i hi; exact ⟨c, by omega, hc2⟩
      · rw [hcard, if_neg (fun h => h.2 hJ)]; omega

/-- **C12**: what setting the input equality flags does.  The first `nbue` input boxes are marked
whatever the flags say, so the marked set is the flagged set exactly when the flags are nonzero on
exactly the first `nbue` inputs; every further nonzero flag is written past the `nbue` declared
entries of the list. -/
theorem qp_setJbue_spec (k : ℕ) (J : ℕ → K) (qp : OcpQp K) (hle : qp.dim.nbue k ≤ qp.dim.nbu k) :
    (∀ i, i < qp.dim.nbue k → (setJbue k J qp).idxe k i = i) ∧
    ((∀ c, c < qp.dim.nbu k → (J c ≠ 0 ↔ ∃ i, i < qp.dim.nbue k ∧ (setJbue k J qp).idxe k i = c)) ↔
      ∀ c, c < qp.dim.nbu k → (J c ≠ 0 ↔ c < qp.dim.nbue k)) ∧
    (∀ p, qp.dim.nbue k + ((Finset.range (qp.dim.nbu k)).filter
        (fun i => qp.dim.nbue k ≤ i ∧ J i ≠ 0)).card ≤ p →
      (setJbue k J qp).idxe k p = qp.idxe k p) := by
  obtain ⟨h1, h2, h3, h4, h5, h6⟩ := markLoop_spec (qp.dim.nbu k) (qp.dim.nbue k) 0 0 J (qp.idxe k)
  simp only [Nat.zero_add] at h3 h4 h5
  have hm : ∀ i, i < qp.dim.nbue k → (setJbue k J qp).idxe k i = i := by
    intro i hi; simp only [setJbue, upd_same]; exact h3 i (by omega) hi
  refine ⟨hm, ?_, ?_⟩
  · apply forall_congr'; intro c
    apply imp_congr_right; intro hc
    apply iff_congr Iff.rfl
    constructor
    · rintro ⟨i, hi, e⟩; rw [hm i hi] at e; omega
    · intro h; exact ⟨c, h, hm c h⟩
  · intro p hp
    simp only [setJbue, upd_same]
    apply h4; right; rw [h6]; omega

/-- **C12** (overrun): with more nonzero flags than declared equalities the entry after the declared
input equalities, which belongs to the state equalities, is overwritten with an input box. -/
theorem qp_setJbue_overrun (k : ℕ) (J : ℕ → K) (qp : OcpQp K)
    (c : ℕ) (hc : qp.dim.nbue k ≤ c) (hcu : c < qp.dim.nbu k) (hJ : J c ≠ 0) :
    ∃ i, qp.dim.nbue k ≤ i ∧ i < qp.dim.nbu k ∧ (setJbue k J qp).idxe k (qp.dim.nbue k) = i ∧ J i ≠ 0 := by
  -- generalised invariant: once past `nbue`, entry `nbue` holds a nonzero flagged index
  have inv := loop_inv (S := ℕ × (ℕ → ℕ))
    (fun m s => min m (qp.dim.nbue k) ≤ s.1 ∧ s.1 ≤ m ∧ (c < m → qp.dim.nbue k < s.1) ∧
      (qp.dim.nbue k < s.1 → ∃ i, qp.dim.nbue k ≤ i ∧ i < m ∧ s.2 (qp.dim.nbue k) = i ∧ J i ≠ 0))
    (qp.dim.nbu k)
    (fun ii s => if s.1 < qp.dim.nbue k ∨ J ii ≠ 0 then (s.1 + 1, upd s.2 (0 + s.1) (0 + ii)) else s)
    (0, qp.idxe k) ⟨by simp, by simp, by simp, by simp⟩ ?_
  · obtain ⟨_, _, h3, h4⟩ := inv
    have := h4 (h3 hcu)
    simpa only [setJbue, upd_same, markLoop] using this
  · intro m s hm ⟨h1, h2, h3, h4⟩
    by_cases hcond : s.1 < qp.dim.nbue k ∨ J m ≠ 0
    · simp only [hcond, if_true, Nat.zero_add]
      refine ⟨by clear h4; omega, by omega, by clear h4; omega, ?_⟩
      intro hlt
      by_cases hs : qp.dim.nbue k < s.1
      · obtain ⟨i, a1, a2, a3, a4⟩ := h4 hs
        exact ⟨i, a1, by omega, by rw [upd_ne _ _ (by omega)]; exact a3, a4⟩
      · have hse : s.1 = qp.dim.nbue k := by omega
        refine ⟨m, by omega, by omega, by rw [hse, upd_same], ?_⟩
        rcases hcond with h | h
        · omega
        · exact h
    · simp only [hcond, if_false]
      have hJm : J m = 0 := by by_contra h; exact hcond (Or.inr h)
      have hge : qp.dim.nbue k ≤ s.1 := by by_contra h; exact hcond (Or.inl (by omega))
      clear hcond
      refine ⟨by clear h4; omega, by omega, ?_, ?_⟩
      · intro hcm
        by_cases he : c = m
        · subst he; exact absurd hJm hJ
        · exact h3 (by omega)
      · intro hs; obtain ⟨i, a1, a2, a3⟩ := h4 hs; exact ⟨i, a1, by omega, a3⟩

/-- **C12** (index lists instead of flags are fine): setting the equalities by index lists marks
exactly the listed constraints of each group and does not disturb the other groups. -/
theorem qp_setIdxe_lists (k : ℕ) (vu vx vg : ℕ → ℕ) (qp : OcpQp K) :
    let q1 := setIdxge k vg (setIdxbxe k vx (setIdxbue k vu qp))
    (∀ i, i < qp.dim.nbue k → q1.idxe k i = vu i) ∧
    (∀ i, i < qp.dim.nbxe k → q1.idxe k (qp.dim.nbue k + i) = qp.dim.nbu k + vx i) ∧
    (∀ i, i < qp.dim.nge k → q1.idxe k (qp.dim.nbue k + qp.dim.nbxe k + i) = qp.dim.nbu k + qp.dim.nbx k + vg i) := by
  intro q1
  have e : q1.idxe k = loop (qp.dim.nge k)
      (fun i a => upd a (qp.dim.nbue k + qp.dim.nbxe k + i) (qp.dim.nbu k + qp.dim.nbx k + vg i))
      (loop (qp.dim.nbxe k) (fun i a => upd a (qp.dim.nbue k + i) (qp.dim.nbu k + vx i))
        (loop (qp.dim.nbue k) (fun i a => upd a i (vu i)) (qp.idxe k))) := by
    simp [q1, setIdxge, setIdxbxe, setIdxbue]
  rw [e, loop_upd_shift _ _ (fun i => qp.dim.nbu k + qp.dim.nbx k + vg i),
    loop_upd_shift _ _ (fun i => qp.dim.nbu k + vx i), loop_upd]
  refine ⟨?_, ?_, ?_⟩ <;> intro i hi <;> beta_reduce
  · rw [if_neg (by omega), if_neg (by omega), mix_lt _ _ hi]
  · rw [if_neg (by omega), if_pos (by omega)]; simp
  · rw [if_pos (by omega)]; simp

/-- **C07** (bound indices): the index lists given for the bounds on inputs and on states (in either order)
are read back, state indices shifted by the number of inputs; nothing else of the stage, and no other
stage, changes. -/
theorem qp_setIdxb_lists (k : ℕ) (vu vx : ℕ → ℕ) (qp : OcpQp K) (out : ℕ → ℕ)
    (hnb : qp.dim.nb k = qp.dim.nbu k + qp.dim.nbx k) :
    (∀ q1, (q1 = setIdxbx k vx (setIdxbu k vu qp) ∨ q1 = setIdxbu k vu (setIdxbx k vx qp)) →
      (∀ i, i < qp.dim.nbu k → getIdxb k q1 out i = vu i) ∧
      (∀ i, i < qp.dim.nbx k → getIdxb k q1 out (qp.dim.nbu k + i) = qp.dim.nu k + vx i) ∧
      (∀ i, qp.dim.nb k ≤ i → getIdxb k q1 out i = out i) ∧
      (∀ k' , k' ≠ k → q1.idxb k' = qp.idxb k') ∧ { q1 with idxb := qp.idxb } = qp) := by
  intro q1 h
  have hd : q1.dim = qp.dim := by rcases h with h | h <;> rw [h] <;> rfl
  have e : (∀ i, i < qp.dim.nbu k → q1.idxb k i = vu i) ∧
      (∀ i, i < qp.dim.nbx k → q1.idxb k (qp.dim.nbu k + i) = qp.dim.nu k + vx i) := by
    rcases h with h | h <;> subst h <;> simp only [setIdxbx, setIdxbu, upd_same] <;>
      rw [loop_upd_shift _ _ (fun i => qp.dim.nu k + vx i), loop_upd]
    · refine ⟨fun i hi => ?_, fun i hi => ?_⟩
      · beta_reduce; rw [if_neg (by omega), mix_lt _ _ hi]
      · beta_reduce; rw [if_pos (by omega)]; simp
    · refine ⟨fun i hi => mix_lt _ _ hi, fun i hi => ?_⟩
      unfold mix
      beta_reduce
      rw [if_neg (by omega), if_pos (by omega)]; simp
  refine ⟨fun i hi => ?_, fun i hi => ?_, fun i hi => ?_, fun k' hk' => ?_, ?_⟩
  · unfold getIdxb; rw [loop_upd, hd, mix_lt _ _ (by omega)]; exact e.1 i hi
  · unfold getIdxb; rw [loop_upd, hd, mix_lt _ _ (by omega)]; exact e.2 i hi
  · unfold getIdxb; rw [loop_upd, hd]; unfold mix; rw [if_neg (by omega)]
  · rcases h with h | h <;> subst h <;> simp only [setIdxbx, setIdxbu] <;> rw [upd_ne _ _ hk', upd_ne _ _ hk']
  · rcases h with h | h <;> subst h <;> rfl

end
end

/-! ### Concrete cases -/

section Concrete
/-- one stage after the initial one, 2 states, 3 inputs, boxes on all, one general constraint, one slack -/
def exDim : QpDim where
  N := 1
  nx := fun _ => 2
  nu := fun _ => 3
  nb := fun _ => 5
  nbx := fun _ => 2
  nbu := fun _ => 3
  ng := fun _ => 1
  ns := fun _ => 1
  nbue := fun _ => 1
def exQp : OcpQp ℚ where
  dim := exDim
  BAbt := fun _ _ _ => 7
  RSQrq := fun _ _ _ => 7
  DCt := fun _ _ _ => 7
  b := fun _ _ => 7
  rqz := fun _ _ => 7
  d := fun _ _ => 7
  d_mask := fun _ _ => 7
  m := fun _ _ => 7
  Z := fun _ _ => 7
  idxb := fun _ _ => 0
  idxs_rev := fun _ _ => -1
  idxe := fun _ _ => 9
  diag_H_flag := fun _ => 0

theorem exDim_ok : exDim.Ok := fun _ => rfl

/-- C07: the 2x3 matrix B, column major -/
example : getR .B 0 (setR .B 0 (fun i => (i : ℚ)) exQp) (fun _ => 0) 5 = 5 := by
  rw [qp_get_set_same, mix_lt _ _ (by decide : 5 < userLen .B exQp.dim 0)]; norm_num
/-- C07: upper bounds stored negated and returned with the user's sign -/
example : (setR .ub 0 (fun _ => (3 : ℚ)) exQp).d 0 6 = -3 ∧
    getR .ub 0 (setR .ub 0 (fun _ => (3 : ℚ)) exQp) (fun _ => 0) 0 = 3 := by
  constructor
  · simp [setR, vecsc, packVec, veccp, exQp, exDim]
  · rw [qp_get_set_same, mix_lt _ _ (by decide : 0 < userLen .ub exQp.dim 0)]
/-- C08 hypotheses: `lbx` and `ubu` share nothing, `lb` and `lbx` do -/
example : shares .lbx .ubu = false ∧ shares .lb .lbx = true ∧ exQp.dim.Ok := ⟨rfl, rfl, exDim_ok⟩
/-- C10: constraint 4 softened, reset leaves it softened (the code's defect) -/
theorem qp_setAllZero_keeps_softening :
    (setIdxs 0 (fun _ => 4) exQp).idxs_rev 0 4 = 0 ∧
    (setAllZero (setIdxs 0 (fun _ => 4) exQp)).idxs_rev 0 4 = 0 := by
  constructor
  · simp [setIdxs, exQp, exDim, loop, upd]
  · rw [qp_setAllZero_idxs_rev _ 0 4 (Nat.zero_le _)]; simp [setIdxs, exQp, exDim, loop, upd]
example : getIdxs 0 (setIdxs 0 (fun _ => 4) exQp) (fun _ => 0) = mix 1 (fun _ => 4) (fun _ => 0) :=
  qp_getIdxs_setIdxs 0 (fun _ => 4) (fun _ => 0) exQp
    (by intro i j hi hj _; simp [exQp, exDim] at hi hj; omega)
    (by intro i _; decide) (by intro c _; rfl)
/-- C11: a selection matrix choosing states 1, 0 -/
example : Selects 2 2 (fun p => if p = 2 then (1:ℚ) else if p = 1 then 1 else 0) (fun i => 1 - i) := by
  intro i hi
  refine ⟨by show 1 - i < 2; omega, ?_⟩
  intro j hj
  interval_cases i <;> interval_cases j <;> norm_num
/-- C12: one declared equality, input box 2 flagged: box 0 is marked and box 2 overwrites the next
entry of the list (the code's defect) -/
theorem qp_setJbue_wrong :
    (setJbue 0 (fun i => if i = 2 then (1:ℚ) else 0) exQp).idxe 0 0 = 0 ∧
    (setJbue 0 (fun i => if i = 2 then (1:ℚ) else 0) exQp).idxe 0 1 = 2 := by
  constructor <;> simp [setJbue, markLoop, exQp, exDim, loop_succ, upd]
example : exQp.dim.nbue 0 ≤ exQp.dim.nbu 0 := by decide
/-- set_all_zero hypotheses are met -/
example : fieldStage .lus_mask exQp.dim 1 ∧ fieldStage .A exQp.dim 0 ∧ 0 < userLen .lus_mask exQp.dim 1 := by
  exact ⟨le_refl _, Nat.one_pos, Nat.one_pos⟩
/-- the bound index theorem at work -/
example : getIdxb 0 (setIdxbx 0 (fun i => 1 - i) (setIdxbu 0 (fun i => 2 - i) exQp)) (fun _ => 0) 3 = 4 ∧
    getIdxb 0 (setIdxbx 0 (fun i => 1 - i) (setIdxbu 0 (fun i => 2 - i) exQp)) (fun _ => 0) 0 = 2 :=
  have h := qp_setIdxb_lists 0 (fun i => 2 - i) (fun i => 1 - i) exQp (fun _ => 0) (by decide) _ (Or.inl rfl)
  ⟨h.2.1 0 (by decide), h.1 0 (by decide)⟩

end Concrete
end Hpipm
