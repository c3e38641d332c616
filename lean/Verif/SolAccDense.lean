import Verif.SolAccProps
import Verif.DenseIpmObj

/-! **C94 (dense)** access to the solution object of a dense QP: `DENSE_QP_SOL_GET` / `_SET` by name, `_GET_ALL`, and the stored
objective (dense_qp/x_dense_qp_sol.c). -/

namespace Hpipm

/-- one scalar of a primal-dual solution of a dense QP -/
inductive DComp
  | v (i : ℕ) | sl (i : ℕ) | su (i : ℕ) | pi (i : ℕ) | lo (j : ℕ) | up (j : ℕ) | ls (i : ℕ) | us (i : ℕ)
  deriving DecidableEq

/-- the components a dense QP of dimension `D` has -/
def DComp.Valid (D : DDim) : DComp → Prop
  | .v i => i < D.nv
  | .pi i => i < D.ne
  | .sl i | .su i | .ls i | .us i => i < D.ns
  | .lo j | .up j => j < D.nb + D.ng

/-- the value of a component -/
def DComp.val {K : Type*} (p : DPt K) (m : DMult K) : DComp → K
  | .v i => p.v i
  | .sl i => p.sl i
  | .su i => p.su i
  | .pi i => m.pi i
  | .lo j => m.lo j
  | .up j => m.up j
  | .ls i => m.ls i
  | .us i => m.us i

/-- the value of a component in a solution object, through the views of the optimality theorems -/
abbrev DqSol.comp {K : Type*} (D : DDim) (s : DqSol K) (c : DComp) : K := c.val (dptOf D s.v) (dmultOf D s)

/-- the field names of a dense solution object -/
inductive DSolF
  | v | sl | su | pi | lam_lb | lam_ub | lam_lg | lam_ug | lam_ls | lam_us
  deriving DecidableEq

/-- their spelling -/
def DSolF.name : DSolF → String
  | v => "v" | sl => "sl" | su => "su" | pi => "pi" | lam_lb => "lam_lb" | lam_ub => "lam_ub" | lam_lg => "lam_lg" | lam_ug => "lam_ug"
  | lam_ls => "lam_ls" | lam_us => "lam_us"

/-- their length -/
def DSolF.len (D : DDim) : DSolF → ℕ
  | v => D.nv | pi => D.ne | sl | su | lam_ls | lam_us => D.ns | lam_lb | lam_ub => D.nb | lam_lg | lam_ug => D.ng

/-- which component the `i`-th number of the field is -/
def DSolF.comp (D : DDim) (i : ℕ) : DSolF → DComp
  | v => .v i | sl => .sl i | su => .su i | pi => .pi i | lam_lb => .lo i | lam_lg => .lo (D.nb + i) | lam_ub => .up i
  | lam_ug => .up (D.nb + i) | lam_ls => .ls i | lam_us => .us i

section
variable {K : Type*}

/-- `struct DENSE_QP_SOL` with the members `obj` and `valid_obj` (include/hpipm_d_dense_qp_sol.h) -/
structure DSolObj (K : Type*) where
  sol : DqSol K
  obj : K
  valid : ℤ

/-- DENSE_QP_SOL_GET, dense_qp/x_dense_qp_sol.c:185-236, with the bodies of the getters (240-325) inlined -/
def dsolGet (D : DDim) (field : String) (o : DSolObj K) (w : Vec K) : Out (Vec K) :=
  if field = "v" then .ok (unpackVec D.nv o.sol.v 0 w)
  else if field = "sl" then .ok (unpackVec D.ns o.sol.v D.nv w)
  else if field = "su" then .ok (unpackVec D.ns o.sol.v (D.nv + D.ns) w)
  else if field = "pi" then .ok (unpackVec D.ne o.sol.pi 0 w)
  else if field = "lam_lb" then .ok (unpackVec D.nb o.sol.lam 0 w)
  else if field = "lam_ub" then .ok (unpackVec D.nb o.sol.lam (D.nb + D.ng) w)
  else if field = "lam_lg" then .ok (unpackVec D.ng o.sol.lam D.nb w)
  else if field = "lam_ug" then .ok (unpackVec D.ng o.sol.lam (2 * D.nb + D.ng) w)
  else if field = "lam_ls" then .ok (unpackVec D.ns o.sol.lam (2 * D.nb + 2 * D.ng) w)
  else if field = "lam_us" then .ok (unpackVec D.ns o.sol.lam (2 * D.nb + 2 * D.ng + D.ns) w)
  else .exit

/-- DENSE_QP_SOL_SET, dense_qp/x_dense_qp_sol.c:343-394, with the bodies of the setters (398-482) inlined; `obj` and `valid_obj`
are not touched -/
def dsolSet (D : DDim) (field : String) (w : Vec K) (o : DSolObj K) : Out (DSolObj K) :=
  let s := o.sol
  let put := fun (s : DqSol K) => (Out.ok { o with sol := s } : Out (DSolObj K))
  if field = "v" then put { s with v := packVec D.nv w s.v 0 }
  else if field = "sl" then put { s with v := packVec D.ns w s.v D.nv }
  else if field = "su" then put { s with v := packVec D.ns w s.v (D.nv + D.ns) }
  else if field = "pi" then put { s with pi := packVec D.ne w s.pi 0 }
  else if field = "lam_lb" then put { s with lam := packVec D.nb w s.lam 0 }
  else if field = "lam_ub" then put { s with lam := packVec D.nb w s.lam (D.nb + D.ng) }
  else if field = "lam_lg" then put { s with lam := packVec D.ng w s.lam D.nb }
  else if field = "lam_ug" then put { s with lam := packVec D.ng w s.lam (2 * D.nb + D.ng) }
  else if field = "lam_ls" then put { s with lam := packVec D.ns w s.lam (2 * D.nb + 2 * D.ng) }
  else if field = "lam_us" then put { s with lam := packVec D.ns w s.lam (2 * D.nb + 2 * D.ng + D.ns) }
  else .exit

/-- DENSE_QP_COMPUTE_OBJ as the user calls it, dense_qp/x_dense_qp_kkt.c:3097-3124 -/
def dsolComputeObj [Field K] (qp : DenseQp K) (o : DSolObj K) : DSolObj K := { o with obj := denseObj qp o.sol.v, valid := 1 }

theorem packVec_eq (n : ℕ) (v x : ℕ → K) (xi i : ℕ) : packVec n v x xi i = if xi ≤ i ∧ i < xi + n then v (i - xi) else x i := by
  by_cases h : xi ≤ i ∧ i < xi + n
  · rw [packVec_in _ _ h, if_pos h]
  · rw [packVec_out _ _ h, if_neg h]

/-- **C94 (dense, reading).** -/
theorem dsol_get_field (D : DDim) (f : DSolF) (o : DSolObj K) (w : Vec K) :
    ∃ w', dsolGet D f.name o w = .ok w' ∧ (∀ i, i < f.len D → w' i = o.sol.comp D (f.comp D i)) ∧ ∀ i, f.len D ≤ i → w' i = w i := by
  cases f <;> simp only [dsolGet, DSolF.name, DSolF.len] <;> simp <;> constructor <;> intro i hi <;>
    rw [unpackVec_eq] <;> first | rw [if_neg (by omega)] | (rw [if_pos hi]; simp only [DqSol.comp, DSolF.comp, DComp.val, dptOf, dmultOf]) <;>
    congr 1 <;> omega

/-- **C94 (dense, writing).** The components of the field are set, all others, the slacks `t` and the stored objective with its flag
are unchanged. -/
theorem dsol_set_field (D : DDim) (f : DSolF) (w : Vec K) (o : DSolObj K) :
    ∃ o', dsolSet D f.name w o = .ok o' ∧ o'.sol.t = o.sol.t ∧ o'.obj = o.obj ∧ o'.valid = o.valid ∧
      (∀ i, i < f.len D → o'.sol.comp D (f.comp D i) = w i) ∧
      ∀ c : DComp, c.Valid D → (∀ i, i < f.len D → c ≠ f.comp D i) → o'.sol.comp D c = o.sol.comp D c := by
  cases f <;> simp only [dsolSet, DSolF.name, DSolF.len] <;> simp <;> refine ⟨fun i hi => ?_, fun c hc hne => ?_⟩
  all_goals try (simp only [DqSol.comp, DSolF.comp, DComp.val, dptOf, dmultOf, packVec_eq]; refine (if_pos ?_).trans (congrArg w ?_) <;> omega)
  all_goals (
    rcases c with ⟨j⟩ | ⟨j⟩ | ⟨j⟩ | ⟨j⟩ | ⟨j⟩ | ⟨j⟩ | ⟨j⟩ | ⟨j⟩ <;> simp only [DComp.Valid] at hc <;>
      simp only [DqSol.comp, DComp.val, dptOf, dmultOf, packVec_eq] <;>
      rw [if_neg] <;> rintro ⟨h1, h2⟩ <;>
      first
      | omega
      | exact hne j (by omega) rfl
      | exact hne (j - D.nb) (by omega) (by simp only [DSolF.comp]; congr 1; omega))

/-- **C94 (dense)** what is written is read back -/
theorem dsol_set_get (D : DDim) (f : DSolF) (v w : Vec K) (o o' : DSolObj K) (h : dsolSet D f.name v o = .ok o') :
    ∃ w', dsolGet D f.name o' w = .ok w' ∧ ∀ i, w' i = if i < f.len D then v i else w i := by
  obtain ⟨s1, h1, _, _, _, h2, _⟩ := dsol_set_field D f v o
  rw [h1] at h; injection h with h; subst h
  obtain ⟨w', h3, h4, h5⟩ := dsol_get_field D f s1 w
  refine ⟨w', h3, fun i => ?_⟩
  by_cases hi : i < f.len D
  · rw [if_pos hi, h4 i hi, h2 i hi]
  · rw [if_neg hi, h5 i (by omega)]

/-- **C94 (dense)** unknown names end the process -/
theorem dsol_unknown (D : DDim) (g : String) (hg : ∀ f : DSolF, g ≠ f.name) (o : DSolObj K) (w : Vec K) :
    dsolGet D g o w = .exit ∧ dsolSet D g w o = .exit := by
  have h1 := hg .v; have h2 := hg .sl; have h3 := hg .su; have h4 := hg .pi; have h5 := hg .lam_lb; have h6 := hg .lam_ub
  have h7 := hg .lam_lg; have h8 := hg .lam_ug; have h9 := hg .lam_ls; have h10 := hg .lam_us
  simp only [DSolF.name] at h1 h2 h3 h4 h5 h6 h7 h8 h9 h10
  simp only [dsolGet, dsolSet, h1, h2, h3, h4, h5, h6, h7, h8, h9, h10, if_false, and_self]

/-- the ten buffers of `DENSE_QP_SOL_GET_ALL` -/
structure DSolBuf (K : Type*) where
  v : Vec K
  ls : Vec K
  us : Vec K
  pi : Vec K
  lam_lb : Vec K
  lam_ub : Vec K
  lam_lg : Vec K
  lam_ug : Vec K
  lam_ls : Vec K
  lam_us : Vec K

/-- the buffer of a field -/
def DSolBuf.fld (b : DSolBuf K) : DSolF → Vec K
  | .v => b.v | .sl => b.ls | .su => b.us | .pi => b.pi | .lam_lb => b.lam_lb | .lam_ub => b.lam_ub | .lam_lg => b.lam_lg
  | .lam_ug => b.lam_ug | .lam_ls => b.lam_ls | .lam_us => b.lam_us

/-- DENSE_QP_SOL_GET_ALL, dense_qp/x_dense_qp_sol.c:148-181 -/
def dsolGetAll (D : DDim) (s : DqSol K) (b : DSolBuf K) : DSolBuf K :=
  let b := { b with v := unpackVec D.nv s.v 0 b.v }
  let b := if 0 < D.ne then { b with pi := unpackVec D.ne s.pi 0 b.pi } else b
  let b := if 0 < D.nb then
    { b with lam_lb := unpackVec D.nb s.lam 0 b.lam_lb, lam_ub := unpackVec D.nb s.lam (D.nb + D.ng) b.lam_ub } else b
  let b := if 0 < D.ng then
    { b with lam_lg := unpackVec D.ng s.lam D.nb b.lam_lg, lam_ug := unpackVec D.ng s.lam (2 * D.nb + D.ng) b.lam_ug } else b
  if 0 < D.ns then
    let b := { b with ls := unpackVec D.ns s.v D.nv b.ls, us := unpackVec D.ns s.v (D.nv + D.ns) b.us }
    let b := { b with lam_ls := unpackVec D.ns s.lam (2 * D.nb + 2 * D.ng) b.lam_ls }
    { b with lam_us := unpackVec D.ns s.lam (2 * D.nb + 2 * D.ng + D.ns) b.lam_us }
  else b

/-- **C94 (dense)** `DENSE_QP_SOL_GET_ALL` -/
theorem dsol_get_all (D : DDim) (s : DqSol K) (b : DSolBuf K) (f : DSolF) (i : ℕ) :
    (dsolGetAll D s b).fld f i = if i < f.len D then s.comp D (f.comp D i) else b.fld f i := by
  have key : (i < f.len D → (dsolGetAll D s b).fld f i = s.comp D (f.comp D i)) ∧ (¬ i < f.len D → (dsolGetAll D s b).fld f i = b.fld f i) := by
    unfold dsolGetAll
    by_cases he : 0 < D.ne <;> by_cases hb : 0 < D.nb <;> by_cases hg : 0 < D.ng <;> by_cases hs : 0 < D.ns <;>
      simp only [he, hb, hg, hs, if_true, if_false] <;>
      cases f <;> simp only [DSolBuf.fld, DSolF.len, unpackVec_eq, DqSol.comp, DSolF.comp, DComp.val, dptOf, dmultOf] <;>
      constructor <;> intro hi <;>
      first | trivial | (exfalso; omega) | rfl | (rw [if_pos hi]; congr 1; omega) | (rw [if_neg hi]) | exact if_pos hi | (rw [if_pos hi, Nat.zero_add])
  by_cases hi : i < f.len D
  · rw [if_pos hi]; exact key.1 hi
  · rw [if_neg hi]; exact key.2 hi

/-- **C94 (finding).** `valid_obj` is never cleared: after `DENSE_QP_COMPUTE_OBJ`, writing new primal variables leaves the flag set
and the stored objective that of the *old* variables; `DENSE_QP_SOL_GET_VALID_OBJ` answers 1 and `DENSE_QP_SOL_GET_OBJ` the stale
number. -/
theorem dsol_obj_stale [Field K] (qp : DenseQp K) (o : DSolObj K) (f : DSolF) (w : Vec K) :
    ∃ o', dsolSet qp.dim f.name w (dsolComputeObj qp o) = .ok o' ∧ o'.valid = 1 ∧ o'.obj = denseObj qp o.sol.v := by
  obtain ⟨o', h1, _, h3, h4, _⟩ := dsol_set_field qp.dim f w (dsolComputeObj qp o)
  exact ⟨o', h1, h4, h3⟩

end
end Hpipm
