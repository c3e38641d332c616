import Verif.SolAcc

/-! **C94** reading and writing solution objects. -/

namespace Hpipm
section
variable {K : Type*}

theorem setUx_at (s : Sol K) (k n : ℕ) (v : Vec K) (off k' i : ℕ) :
    (s.setUx k n v off).ux k' i = if k' = k ∧ off ≤ i ∧ i < off + n then v (i - off) else s.ux k' i := by
  by_cases hk : k' = k
  · subst hk
    by_cases h : off ≤ i ∧ i < off + n
    · simp only [Sol.setUx, upd_same, packVec_in _ _ h, true_and, if_pos h]
    · simp only [Sol.setUx, upd_same, packVec_out _ _ h, true_and, if_neg h]
  · simp only [Sol.setUx, upd, hk, false_and, if_false]

theorem setPi_at (s : Sol K) (k n : ℕ) (v : Vec K) (off k' i : ℕ) :
    (s.setPi k n v off).pi k' i = if k' = k ∧ off ≤ i ∧ i < off + n then v (i - off) else s.pi k' i := by
  by_cases hk : k' = k
  · subst hk
    by_cases h : off ≤ i ∧ i < off + n
    · simp only [Sol.setPi, upd_same, packVec_in _ _ h, true_and, if_pos h]
    · simp only [Sol.setPi, upd_same, packVec_out _ _ h, true_and, if_neg h]
  · simp only [Sol.setPi, upd, hk, false_and, if_false]

theorem setLam_at (s : Sol K) (k n : ℕ) (v : Vec K) (off k' i : ℕ) :
    (s.setLam k n v off).lam k' i = if k' = k ∧ off ≤ i ∧ i < off + n then v (i - off) else s.lam k' i := by
  by_cases hk : k' = k
  · subst hk
    by_cases h : off ≤ i ∧ i < off + n
    · simp only [Sol.setLam, upd_same, packVec_in _ _ h, true_and, if_pos h]
    · simp only [Sol.setLam, upd_same, packVec_out _ _ h, true_and, if_neg h]
  · simp only [Sol.setLam, upd, hk, false_and, if_false]

@[simp] theorem setUx_pi (s : Sol K) (k n : ℕ) (v : Vec K) (off : ℕ) : (s.setUx k n v off).pi = s.pi := rfl
@[simp] theorem setUx_lam (s : Sol K) (k n : ℕ) (v : Vec K) (off : ℕ) : (s.setUx k n v off).lam = s.lam := rfl
@[simp] theorem setUx_t (s : Sol K) (k n : ℕ) (v : Vec K) (off : ℕ) : (s.setUx k n v off).t = s.t := rfl
@[simp] theorem setPi_ux (s : Sol K) (k n : ℕ) (v : Vec K) (off : ℕ) : (s.setPi k n v off).ux = s.ux := rfl
@[simp] theorem setPi_lam (s : Sol K) (k n : ℕ) (v : Vec K) (off : ℕ) : (s.setPi k n v off).lam = s.lam := rfl
@[simp] theorem setPi_t (s : Sol K) (k n : ℕ) (v : Vec K) (off : ℕ) : (s.setPi k n v off).t = s.t := rfl
@[simp] theorem setLam_ux (s : Sol K) (k n : ℕ) (v : Vec K) (off : ℕ) : (s.setLam k n v off).ux = s.ux := rfl
@[simp] theorem setLam_pi (s : Sol K) (k n : ℕ) (v : Vec K) (off : ℕ) : (s.setLam k n v off).pi = s.pi := rfl
@[simp] theorem setLam_t (s : Sol K) (k n : ℕ) (v : Vec K) (off : ℕ) : (s.setLam k n v off).t = s.t := rfl

theorem unpackVec_eq (n : ℕ) (x : ℕ → K) (xi : ℕ) (v : ℕ → K) (i : ℕ) :
    unpackVec n x xi v i = if i < n then x (xi + i) else v i := by
  by_cases h : i < n
  · rw [unpackVec_at _ _ _ _ _ h, if_pos h]
  · rw [if_neg h]; exact veccp_out (by omega)

/-- **C94 (reading).** Reading a field by name at a stage at which it exists fills the user's buffer with the components of the
solution the field stands for -- the very components the optimality theorems speak about -- and leaves the rest of the buffer alone. -/
theorem sol_get_field (D : QpDim) (f : SolF) (k : ℕ) (hk : f.StageOk D k) (s : Sol K) (v : Vec K) :
    ∃ w, solGet D f.name k s v = .ok w ∧ (∀ i, i < f.len D k → w i = s.comp D (f.comp D k i)) ∧
      ∀ i, f.len D k ≤ i → w i = v i := by
  cases f <;> simp only [SolF.StageOk] at hk <;> simp only [solGet, SolF.name, SolF.len] <;> simp [hk] <;> constructor <;> intro i hi <;>
    rw [unpackVec_eq] <;> first | rw [if_neg (by omega)] | (rw [if_pos hi]; simp only [Sol.comp, SolF.comp, Comp.val, ptOf, multOf]) <;>
    congr 1 <;> omega

/-- **C94 (writing).** Writing a field by name at a stage at which it exists sets the components the field stands for, changes no
other component of the solution, and never touches the slacks `t` of the inequalities. -/
theorem sol_set_field (D : QpDim) (hD : D.Ok) (f : SolF) (k : ℕ) (hk : f.StageOk D k) (v : Vec K) (s : Sol K) :
    ∃ s', solSet D f.name k v s = .ok s' ∧ s'.t = s.t ∧ (∀ i, i < f.len D k → s'.comp D (f.comp D k i) = v i) ∧
      ∀ c : Comp, c.Valid D → (∀ i, i < f.len D k → c ≠ f.comp D k i) → s'.comp D c = s.comp D c := by
  have hb := hD k
  cases f <;> simp only [SolF.StageOk] at hk <;> simp only [solSet, SolF.name, SolF.len] <;> simp [hk] <;> refine ⟨fun i hi => ?_, fun c hc hne => ?_⟩
  all_goals try (simp only [Sol.comp, SolF.comp, Comp.val, ptOf, multOf, setUx_at, setPi_at, setLam_at]; refine (if_pos ?_).trans (congrArg v ?_) <;> first | omega | exact ⟨trivial, by omega, by omega⟩ | exact ⟨rfl, by omega, by omega⟩)
  all_goals (
    rcases c with ⟨kk, j⟩ | ⟨kk, j⟩ | ⟨kk, j⟩ | ⟨kk, j⟩ | ⟨kk, j⟩ | ⟨kk, j⟩ | ⟨kk, j⟩ | ⟨kk, j⟩ | ⟨kk, j⟩ <;> simp only [Comp.Valid] at hc <;>
      simp only [Sol.comp, Comp.val, ptOf, multOf, setUx_at, setPi_at, setLam_at, setUx_pi, setUx_lam, setPi_ux, setPi_lam, setLam_ux, setLam_pi] <;>
      rw [if_neg] <;> rintro ⟨hkk, h1, h2⟩ <;> subst hkk <;>
      first
      | omega
      | exact hne j (by omega) rfl
      | exact hne (j - D.nbu kk) (by omega) (by simp only [SolF.comp]; congr 1; omega)
      | exact hne (j - D.nb kk) (by omega) (by simp only [SolF.comp]; congr 1; omega))

/-- **C94** a name that is not documented ends the process, for reading and for writing -/
theorem sol_unknown (D : QpDim) (g : String) (hg : ∀ f : SolF, g ≠ f.name) (k : ℕ) (s : Sol K) (v : Vec K) :
    solGet D g k s v = .exit ∧ solSet D g k v s = .exit := by
  have h := fun f => hg f
  have h1 := h .u; have h2 := h .x; have h3 := h .sl; have h4 := h .su; have h5 := h .pi; have h6 := h .lam_lb; have h7 := h .lam_lbu
  have h8 := h .lam_lbx; have h9 := h .lam_ub; have h10 := h .lam_ubu; have h11 := h .lam_ubx; have h12 := h .lam_lg
  have h13 := h .lam_ug; have h14 := h .lam_ls; have h15 := h .lam_us
  simp only [SolF.name] at h1 h2 h3 h4 h5 h6 h7 h8 h9 h10 h11 h12 h13 h14 h15
  simp only [solGet, solSet, h1, h2, h3, h4, h5, h6, h7, h8, h9, h10, h11, h12, h13, h14, h15, if_false, and_self]

/-- **C94** beyond the last stage (the last edge for the multipliers of the dynamics) no access by name is defined: the code has no
range check -/
theorem sol_stage_range (D : QpDim) (f : SolF) (k : ℕ) (hk : ¬ f.StageOk D k) (s : Sol K) (v : Vec K) :
    solGet D f.name k s v = .ub ∧ solSet D f.name k v s = .ub := by
  cases f <;> simp only [SolF.StageOk] at hk <;> simp [solGet, solSet, SolF.name, hk]

/-- the components a field stands for exist -/
theorem SolF.comp_valid (D : QpDim) (hD : D.Ok) (f : SolF) (k i : ℕ) (hk : f.StageOk D k) (hi : i < f.len D k) : (f.comp D k i).Valid D := by
  have := hD k
  cases f <;> simp only [SolF.StageOk, SolF.len, SolF.comp, Comp.Valid] at * <;> omega

/-- **C94** what is written is read back -/
theorem sol_set_get (D : QpDim) (hD : D.Ok) (f : SolF) (k : ℕ) (hk : f.StageOk D k) (v w : Vec K) (s s' : Sol K)
    (h : solSet D f.name k v s = .ok s') :
    ∃ w', solGet D f.name k s' w = .ok w' ∧ ∀ i, w' i = if i < f.len D k then v i else w i := by
  obtain ⟨s1, h1, _, h2, _⟩ := sol_set_field D hD f k hk v s
  rw [h1] at h; injection h with h; subst h
  obtain ⟨w', h3, h4, h5⟩ := sol_get_field D f k hk s1 w
  refine ⟨w', h3, fun i => ?_⟩
  by_cases hi : i < f.len D k
  · rw [if_pos hi, h4 i hi, h2 i hi]
  · rw [if_neg hi, h5 i (by omega)]

/-- one call of `OCP_QP_SOL_SET` -/
structure SolCall (K : Type*) where
  field : SolF
  stage : ℕ
  vec : Vec K

/-- a sequence of calls of `OCP_QP_SOL_SET`; stops at the first call that does not return -/
def solSets (D : QpDim) : List (SolCall K) → Sol K → Out (Sol K)
  | [], s => .ok s
  | c :: l, s => match solSet D c.field.name c.stage c.vec s with
    | .ok s' => solSets D l s'
    | .exit => .exit
    | .ub => .ub

/-- the call covers the component, as its `i`-th number -/
def SolCall.Writes (D : QpDim) (q : SolCall K) (c : Comp) (i : ℕ) : Prop := i < q.field.len D q.stage ∧ c = q.field.comp D q.stage i

/-- **C94 (histories).** After any sequence of writes at existing stages, every component has the value given by the last call that
covered it, and the value it had before the first call if no call covered it; the slacks `t` are those of the beginning. -/
theorem sol_set_history (D : QpDim) (hD : D.Ok) (l : List (SolCall K)) (hl : ∀ q ∈ l, q.field.StageOk D q.stage) (s : Sol K) :
    ∃ s', solSets D l s = .ok s' ∧ s'.t = s.t ∧
      (∀ l1 q l2 c i, l = l1 ++ q :: l2 → c.Valid D → q.Writes D c i → (∀ q' ∈ l2, ∀ i', ¬ q'.Writes D c i') → s'.comp D c = q.vec i) ∧
      ∀ c : Comp, c.Valid D → (∀ q ∈ l, ∀ i, ¬ q.Writes D c i) → s'.comp D c = s.comp D c := by
  induction l generalizing s with
  | nil => exact ⟨s, rfl, rfl, fun l1 q l2 c i h => by simp at h, fun c _ _ => rfl⟩
  | cons q0 l ih =>
    obtain ⟨s1, h1, h2, h3, h4⟩ := sol_set_field D hD q0.field q0.stage (hl q0 (by simp)) q0.vec s
    obtain ⟨s2, g1, g2, g3, g4⟩ := ih (fun q hq => hl q (by simp [hq])) s1
    refine ⟨s2, ?_, g2.trans h2, ?_, ?_⟩
    · simp only [solSets, h1]; exact g1
    · intro l1 q l2 c i he hc hw hno
      rcases l1 with _ | ⟨q1, l1⟩
      · simp only [List.nil_append, List.cons.injEq] at he
        obtain ⟨rfl, rfl⟩ := he
        rw [g4 c hc hno, hw.2, h3 i hw.1]
      · simp only [List.cons_append, List.cons.injEq] at he
        exact g3 l1 q l2 c i he.2 hc hw hno
    · intro c hc hno
      rw [g4 c hc (fun q hq => hno q (by simp [hq]))]
      exact h4 c hc (fun i hi he => hno q0 (by simp) i ⟨hi, he⟩)

/-! ### the bulk routines -/

/-- the eleven fields of the bulk routines -/
def SolF.Bulk : SolF → Prop
  | lam_lbu | lam_lbx | lam_ubu | lam_ubx => False
  | _ => True

/-- the buffer of a field (for the eleven fields of the bulk routines) -/
def SolBuf.fld (b : SolBuf K) : SolF → ℕ → Vec K
  | .u => b.u | .x => b.x | .sl => b.ls | .su => b.us | .pi => b.pi | .lam_lg => b.lam_lg | .lam_ug => b.lam_ug
  | .lam_ls => b.lam_ls | .lam_us => b.lam_us | .lam_lb | .lam_lbu | .lam_lbx => b.lam_lb | .lam_ub | .lam_ubu | .lam_ubx => b.lam_ub

theorem solGetStage_fld (D : QpDim) (s : Sol K) (ii : ℕ) (b : SolBuf K) (f : SolF) (hf : f.Bulk) (hp : f ≠ .pi) (k i : ℕ) :
    (solGetStage D s ii b).fld f k i = if k = ii ∧ i < f.len D k then s.comp D (f.comp D k i) else b.fld f k i := by
  unfold solGetStage
  by_cases hb : 0 < D.nb ii <;> by_cases hg : 0 < D.ng ii <;> by_cases hs : 0 < D.ns ii <;> simp only [hb, hg, hs, if_true, if_false] <;>
    by_cases hk : k = ii
  all_goals first
    | (subst hk
       cases f <;> simp only [SolF.Bulk, ne_eq, not_true_eq_false, reduceCtorEq, not_false_eq_true] at hf hp <;>
        simp only [SolBuf.fld, SolF.len, upd_same, unpackVec_eq, true_and, Sol.comp, SolF.comp, Comp.val, ptOf, multOf] <;>
        split_ifs <;> first | rfl | (exfalso; omega) | (congr 1; omega))
    | (cases f <;> simp only [SolF.Bulk, ne_eq, not_true_eq_false, reduceCtorEq, not_false_eq_true] at hf hp <;>
        simp only [SolBuf.fld, upd, hk, false_and, if_false])

theorem solGetStage_pi (D : QpDim) (s : Sol K) (ii : ℕ) (b : SolBuf K) : (solGetStage D s ii b).pi = b.pi := by
  unfold solGetStage
  by_cases hb : 0 < D.nb ii <;> by_cases hg : 0 < D.ng ii <;> by_cases hs : 0 < D.ns ii <;> simp only [hb, hg, hs, if_true, if_false]

/-- **C94** `OCP_QP_SOL_GET_ALL` fills every buffer with the components its field stands for and writes nothing else -/
theorem sol_get_all (D : QpDim) (s : Sol K) (b : SolBuf K) (f : SolF) (hf : f.Bulk) (k i : ℕ) :
    (f.StageOk D k → i < f.len D k → (solGetAll D s b).fld f k i = s.comp D (f.comp D k i)) ∧
    ((¬ f.StageOk D k ∨ f.len D k ≤ i) → (solGetAll D s b).fld f k i = b.fld f k i) := by
  set b1 := loop D.N (fun ii (b : SolBuf K) => { b with pi := upd b.pi ii (unpackVec (D.nx (ii + 1)) (s.pi ii) 0 (b.pi ii)) }) b with hb1
  have h1 : (∀ k i, b1.pi k i = if k < D.N ∧ i < D.nx (k + 1) then s.pi k i else b.pi k i) ∧ ∀ f : SolF, f ≠ .pi → b1.fld f = b.fld f := by
    rw [hb1]
    apply loop_inv (fun n (b' : SolBuf K) => (∀ k i, b'.pi k i = if k < n ∧ i < D.nx (k + 1) then s.pi k i else b.pi k i) ∧
      ∀ f : SolF, f ≠ .pi → b'.fld f = b.fld f)
    · exact ⟨fun k i => by simp, fun f _ => rfl⟩
    · intro n b' hn ⟨g1, g2⟩
      refine ⟨fun k i => ?_, fun f hf => ?_⟩
      · by_cases hk : k = n
        · subst hk
          simp only [upd_same, unpackVec_eq, Nat.zero_add, g1]
          split_ifs <;> first | rfl | (exfalso; omega)
        · simp only [upd, hk, if_false, g1]
          have : (k < n + 1 ∧ i < D.nx (k + 1)) ↔ (k < n ∧ i < D.nx (k + 1)) := by omega
          simp only [this]
      · rw [← g2 f hf]; cases f <;> first | rfl | exact absurd rfl hf
  have h2 : (∀ f : SolF, f.Bulk → f ≠ .pi → ∀ k i, (solGetAll D s b).fld f k i = if k < D.N + 1 ∧ i < f.len D k then s.comp D (f.comp D k i) else b.fld f k i) ∧
      (solGetAll D s b).pi = b1.pi := by
    unfold solGetAll
    apply loop_inv (fun n (b' : SolBuf K) => (∀ f : SolF, f.Bulk → f ≠ .pi → ∀ k i, b'.fld f k i = if k < n ∧ i < f.len D k then s.comp D (f.comp D k i) else b.fld f k i) ∧
      b'.pi = b1.pi)
    · exact ⟨fun f _ hp k i => by simp only [Nat.not_lt_zero, false_and, if_false]; rw [h1.2 f hp], rfl⟩
    · intro n b' hn ⟨g1, g2⟩
      refine ⟨fun f hf hp k i => ?_, by rw [solGetStage_pi, g2]⟩
      rw [solGetStage_fld D s n b' f hf hp, g1 f hf hp]
      split_ifs <;> first | rfl | (exfalso; omega)
  by_cases hp : f = .pi
  · subst hp
    have e : (solGetAll D s b).fld .pi k i = if k < D.N ∧ i < D.nx (k + 1) then s.pi k i else b.pi k i := by
      show (solGetAll D s b).pi k i = _; rw [h2.2, h1.1]
    rw [e]
    exact ⟨fun h h' => if_pos ⟨h, h'⟩, fun h => if_neg (by simp only [SolF.StageOk, SolF.len] at h; omega)⟩
  · rw [h2.1 f hf hp]
    have hs : f.StageOk D k ↔ k < D.N + 1 := by cases f <;> first | exact absurd rfl hp | exact Nat.lt_succ_iff.symm
    exact ⟨fun h h' => if_pos ⟨hs.1 h, h'⟩, fun h => if_neg (by rw [hs] at h; omega)⟩

theorem setPis (D : QpDim) (b : SolBuf K) (s : Sol K) (n : ℕ) :
    (∀ k i, (loop n (fun ii (s : Sol K) => s.setPi ii (D.nx (ii + 1)) (b.pi ii) 0) s).pi k i =
      if k < n ∧ i < D.nx (k + 1) then b.pi k i else s.pi k i) ∧
    (loop n (fun ii (s : Sol K) => s.setPi ii (D.nx (ii + 1)) (b.pi ii) 0) s).ux = s.ux ∧
    (loop n (fun ii (s : Sol K) => s.setPi ii (D.nx (ii + 1)) (b.pi ii) 0) s).lam = s.lam ∧
    (loop n (fun ii (s : Sol K) => s.setPi ii (D.nx (ii + 1)) (b.pi ii) 0) s).t = s.t := by
  apply loop_inv (fun n (s' : Sol K) => (∀ k i, s'.pi k i = if k < n ∧ i < D.nx (k + 1) then b.pi k i else s.pi k i) ∧ s'.ux = s.ux ∧
    s'.lam = s.lam ∧ s'.t = s.t)
  · simp
  · intro m s' hm ⟨g1, g2, g3, g4⟩
    refine ⟨fun k i => ?_, g2, g3, g4⟩
    rw [setPi_at, g1]
    by_cases hk : k = m
    · subst hk
      simp only [Nat.sub_zero, Nat.zero_le, Nat.zero_add, true_and]
      split_ifs <;> first | rfl | (exfalso; omega)
    · have : (k < m + 1 ∧ i < D.nx (k + 1)) ↔ (k < m ∧ i < D.nx (k + 1)) := by omega
      simp only [hk, false_and, if_false, this]

/-- the component given by the buffers of the bulk routines -/
def SolBuf.comp (D : QpDim) (b : SolBuf K) : Comp → K
  | .u k i => b.u k i
  | .x k i => b.x k i
  | .sl k i => b.ls k i
  | .su k i => b.us k i
  | .pi k i => b.pi k i
  | .lo k j => if j < D.nb k then b.lam_lb k j else b.lam_lg k (j - D.nb k)
  | .up k j => if j < D.nb k then b.lam_ub k j else b.lam_ug k (j - D.nb k)
  | .ls k i => b.lam_ls k i
  | .us k i => b.lam_us k i

/-- the stage a component belongs to -/
def Comp.stage : Comp → ℕ
  | .u k _ | .x k _ | .sl k _ | .su k _ | .pi k _ | .lo k _ | .up k _ | .ls k _ | .us k _ => k

/-- not a multiplier of the dynamics -/
def Comp.NotPi : Comp → Prop
  | .pi _ _ => False
  | _ => True

theorem solSetStage_comp (D : QpDim) (b : SolBuf K) (ii : ℕ) (s : Sol K) :
    (∀ c : Comp, c.Valid D → c.NotPi → (solSetStage D b ii s).comp D c = if c.stage = ii then b.comp D c else s.comp D c) ∧
    (solSetStage D b ii s).pi = s.pi ∧ (solSetStage D b ii s).t = s.t := by
  unfold solSetStage
  by_cases hb : 0 < D.nb ii <;> by_cases hg : 0 < D.ng ii <;> by_cases hs : 0 < D.ns ii <;> simp only [hb, hg, hs, if_true, if_false] <;>
    refine ⟨fun c hc hp => ?_, rfl, rfl⟩ <;>
    rcases c with ⟨k, j⟩ | ⟨k, j⟩ | ⟨k, j⟩ | ⟨k, j⟩ | ⟨k, j⟩ | ⟨k, j⟩ | ⟨k, j⟩ | ⟨k, j⟩ | ⟨k, j⟩ <;>
    simp only [Comp.Valid, Comp.NotPi, Comp.stage] at hc hp ⊢ <;>
    simp only [Sol.comp, Comp.val, ptOf, multOf, setUx_at, setLam_at, setUx_lam, setLam_ux, SolBuf.comp] <;>
    rcases Decidable.em (k = ii) with hk | hk <;> (first | (subst hk; simp only [true_and, if_true]) | simp only [hk, false_and, if_false]) <;>
    first | (exfalso; omega) | (split_ifs <;> first | rfl | (exfalso; omega) | (congr 1; omega))

/-- **C94** `OCP_QP_SOL_SET_ALL` sets every component of the solution to the number in the user's buffers; `t` is not touched -/
theorem sol_set_all (D : QpDim) (b : SolBuf K) (s : Sol K) :
    (∀ c : Comp, c.Valid D → (solSetAll D b s).comp D c = b.comp D c) ∧ (solSetAll D b s).t = s.t := by
  obtain ⟨p1, p2, p3, p4⟩ := setPis D b s D.N
  have h : (∀ c : Comp, c.Valid D → c.NotPi → c.stage < D.N + 1 → (solSetAll D b s).comp D c = b.comp D c) ∧
      (solSetAll D b s).pi = (loop D.N (fun ii (s : Sol K) => s.setPi ii (D.nx (ii + 1)) (b.pi ii) 0) s).pi ∧ (solSetAll D b s).t = s.t := by
    unfold solSetAll
    apply loop_inv (fun n (s' : Sol K) => (∀ c : Comp, c.Valid D → c.NotPi → c.stage < n → s'.comp D c = b.comp D c) ∧
      s'.pi = (loop D.N (fun ii (s : Sol K) => s.setPi ii (D.nx (ii + 1)) (b.pi ii) 0) s).pi ∧ s'.t = s.t)
    · exact ⟨fun c _ _ h => absurd h (Nat.not_lt_zero _), rfl, p4⟩
    · intro n s' hn ⟨g1, g2, g3⟩
      obtain ⟨q1, q2, q3⟩ := solSetStage_comp D b n s'
      refine ⟨fun c hc hp hs => ?_, q2.trans g2, q3.trans g3⟩
      rw [q1 c hc hp]
      split_ifs with he
      · rfl
      · exact g1 c hc hp (by omega)
  refine ⟨fun c hc => ?_, h.2.2⟩
  by_cases hp : c.NotPi
  · refine h.1 c hc hp ?_
    cases c <;> simp only [Comp.Valid, Comp.stage] at hc ⊢ <;> first | omega | exact absurd hp (by simp [Comp.NotPi])
  · cases c <;> first | exact absurd trivial hp | skip
    rename_i k i
    show (solSetAll D b s).pi k i = b.pi k i
    have hc' : k < D.N ∧ i < D.nx (k + 1) := hc
    rw [h.2.1, p1, if_pos hc']

/-- **C94** `OCP_QP_SOL_COPY_ALL`: the copy has every component, and every slack `t`, of the original -/
theorem sol_copy_all (D : QpDim) (o d : Sol K) :
    (∀ c : Comp, c.Valid D → (solCopyAll D o d).comp D c = o.comp D c) ∧
    ∀ k j, k ≤ D.N → j < 2 * D.nb k + 2 * D.ng k + 2 * D.ns k → (solCopyAll D o d).t k j = o.t k j := by
  have h : (∀ k i, k ≤ D.N → i < D.nu k + D.nx k + 2 * D.ns k → (solCopyAll D o d).ux k i = o.ux k i) ∧
      (∀ k i, k < D.N → i < D.nx (k + 1) → (solCopyAll D o d).pi k i = o.pi k i) ∧
      (∀ k i, k ≤ D.N → i < 2 * D.nb k + 2 * D.ng k + 2 * D.ns k → (solCopyAll D o d).lam k i = o.lam k i) ∧
      (∀ k i, k ≤ D.N → i < 2 * D.nb k + 2 * D.ng k + 2 * D.ns k → (solCopyAll D o d).t k i = o.t k i) := by
    unfold solCopyAll
    have hl := loop_inv (fun n (d' : Sol K) => (∀ k i, k < n → i < D.nu k + D.nx k + 2 * D.ns k → d'.ux k i = o.ux k i) ∧
      (∀ k i, k < n → i < D.nx (k + 1) → d'.pi k i = o.pi k i) ∧
      (∀ k i, k < n → i < 2 * D.nb k + 2 * D.ng k + 2 * D.ns k → d'.lam k i = o.lam k i) ∧
      (∀ k i, k < n → i < 2 * D.nb k + 2 * D.ng k + 2 * D.ns k → d'.t k i = o.t k i)) D.N (fun ii (d : Sol K) =>
    let d := { d with ux := upd d.ux ii (veccp (D.nu ii + D.nx ii + 2 * D.ns ii) (o.ux ii) 0 (d.ux ii) 0) }
    let d := { d with pi := upd d.pi ii (veccp (D.nx (ii + 1)) (o.pi ii) 0 (d.pi ii) 0) }
    let d := { d with lam := upd d.lam ii (veccp (2 * D.nb ii + 2 * D.ng ii + 2 * D.ns ii) (o.lam ii) 0 (d.lam ii) 0) }
    { d with t := upd d.t ii (veccp (2 * D.nb ii + 2 * D.ng ii + 2 * D.ns ii) (o.t ii) 0 (d.t ii) 0) }) d
      ⟨fun _ _ h => absurd h (Nat.not_lt_zero _), fun _ _ h => absurd h (Nat.not_lt_zero _), fun _ _ h => absurd h (Nat.not_lt_zero _),
        fun _ _ h => absurd h (Nat.not_lt_zero _)⟩ (by
      intro n d' hn ⟨g1, g2, g3, g4⟩
      refine ⟨fun k i hk hi => ?_, fun k i hk hi => ?_, fun k i hk hi => ?_, fun k i hk hi => ?_⟩ <;>
        rcases Decidable.em (k = n) with he | he <;>
        first | (subst he; simp only [upd_same]; rw [veccp_in (by omega)]; simp; done) |
          (simp only [upd, he, if_false]; first | exact g1 k i (by omega) hi | exact g2 k i (by omega) hi | exact g3 k i (by omega) hi | exact g4 k i (by omega) hi))
    obtain ⟨g1, g2, g3, g4⟩ := hl
    refine ⟨fun k i hk hi => ?_, fun k i hk hi => ?_, fun k i hk hi => ?_, fun k i hk hi => ?_⟩
    · rcases Decidable.em (k = D.N) with he | he
      · subst he; simp only [upd_same]; rw [veccp_in (by omega)]; simp
      · simp only [upd, he, if_false]; exact g1 k i (by omega) hi
    · exact g2 k i hk hi
    · rcases Decidable.em (k = D.N) with he | he
      · subst he; simp only [upd_same]; rw [veccp_in (by omega)]; simp
      · simp only [upd, he, if_false]; exact g3 k i (by omega) hi
    · rcases Decidable.em (k = D.N) with he | he
      · subst he; simp only [upd_same]; rw [veccp_in (by omega)]; simp
      · simp only [upd, he, if_false]; exact g4 k i (by omega) hi
  obtain ⟨h1, h2, h3, h4⟩ := h
  refine ⟨fun c hc => ?_, h4⟩
  cases c <;> simp only [Comp.Valid] at hc <;> simp only [Sol.comp, Comp.val, ptOf, multOf] <;>
    first | exact h1 _ _ hc.1 (by omega) | exact h2 _ _ hc.1 (by omega) | exact h3 _ _ hc.1 (by omega)

/-- **C94** `OCP_QP_SOL_SET_ZERO`: every component and every slack is zero, whatever was there before -/
theorem sol_set_zero [Zero K] (D : QpDim) (s : Sol K) :
    (∀ c : Comp, c.Valid D → (solSetZero D s).comp D c = 0) ∧
    ∀ k j, k ≤ D.N → j < 2 * D.nb k + 2 * D.ng k + 2 * D.ns k → (solSetZero D s).t k j = 0 := by
  have e1 : ∀ (n : ℕ) (L : ℕ → ℕ) (s : Sol K), (∀ k i, k < n → i < L k →
      (loop n (fun ii (s : Sol K) => { s with ux := upd s.ux ii (vecse (L ii) 0 (s.ux ii) 0) }) s).ux k i = 0) ∧
      (loop n (fun ii (s : Sol K) => { s with ux := upd s.ux ii (vecse (L ii) 0 (s.ux ii) 0) }) s).pi = s.pi ∧
      (loop n (fun ii (s : Sol K) => { s with ux := upd s.ux ii (vecse (L ii) 0 (s.ux ii) 0) }) s).lam = s.lam := by
    intro n L s
    apply loop_inv (fun n (s' : Sol K) => (∀ k i, k < n → i < L k → s'.ux k i = 0) ∧ s'.pi = s.pi ∧ s'.lam = s.lam)
    · exact ⟨fun _ _ h => absurd h (Nat.not_lt_zero _), rfl, rfl⟩
    · intro m s' hm ⟨g, g', g''⟩
      refine ⟨fun k i hk hi => ?_, g', g''⟩
      rcases Decidable.em (k = m) with he | he
      · subst he; simp [upd_same, vecse, hi]
      · simp only [upd, he, if_false]; exact g k i (by omega) hi
  have e2 : ∀ (n : ℕ) (L : ℕ → ℕ) (s : Sol K), (∀ k i, k < n → i < L k →
      (loop n (fun ii (s : Sol K) => { s with pi := upd s.pi ii (vecse (L ii) 0 (s.pi ii) 0) }) s).pi k i = 0) ∧
      (loop n (fun ii (s : Sol K) => { s with pi := upd s.pi ii (vecse (L ii) 0 (s.pi ii) 0) }) s).ux = s.ux := by
    intro n L s
    apply loop_inv (fun n (s' : Sol K) => (∀ k i, k < n → i < L k → s'.pi k i = 0) ∧ s'.ux = s.ux)
    · exact ⟨fun _ _ h => absurd h (Nat.not_lt_zero _), rfl⟩
    · intro m s' hm ⟨g, g'⟩
      refine ⟨fun k i hk hi => ?_, g'⟩
      rcases Decidable.em (k = m) with he | he
      · subst he; simp [upd_same, vecse, hi]
      · simp only [upd, he, if_false]; exact g k i (by omega) hi
  have e3 : ∀ (n : ℕ) (L : ℕ → ℕ) (s : Sol K), (∀ k i, k < n → i < L k →
      (loop n (fun ii (s : Sol K) => { s with lam := upd s.lam ii (vecse (L ii) 0 (s.lam ii) 0) }) s).lam k i = 0) ∧
      (loop n (fun ii (s : Sol K) => { s with lam := upd s.lam ii (vecse (L ii) 0 (s.lam ii) 0) }) s).ux = s.ux ∧
      (loop n (fun ii (s : Sol K) => { s with lam := upd s.lam ii (vecse (L ii) 0 (s.lam ii) 0) }) s).pi = s.pi := by
    intro n L s
    apply loop_inv (fun n (s' : Sol K) => (∀ k i, k < n → i < L k → s'.lam k i = 0) ∧ s'.ux = s.ux ∧ s'.pi = s.pi)
    · exact ⟨fun _ _ h => absurd h (Nat.not_lt_zero _), rfl, rfl⟩
    · intro m s' hm ⟨g, g', g''⟩
      refine ⟨fun k i hk hi => ?_, g', g''⟩
      rcases Decidable.em (k = m) with he | he
      · subst he; simp [upd_same, vecse, hi]
      · simp only [upd, he, if_false]; exact g k i (by omega) hi
  have e4 : ∀ (n : ℕ) (L : ℕ → ℕ) (s : Sol K), (∀ k i, k < n → i < L k →
      (loop n (fun ii (s : Sol K) => { s with t := upd s.t ii (vecse (L ii) 0 (s.t ii) 0) }) s).t k i = 0) ∧
      (loop n (fun ii (s : Sol K) => { s with t := upd s.t ii (vecse (L ii) 0 (s.t ii) 0) }) s).ux = s.ux ∧
      (loop n (fun ii (s : Sol K) => { s with t := upd s.t ii (vecse (L ii) 0 (s.t ii) 0) }) s).pi = s.pi ∧
      (loop n (fun ii (s : Sol K) => { s with t := upd s.t ii (vecse (L ii) 0 (s.t ii) 0) }) s).lam = s.lam := by
    intro n L s
    apply loop_inv (fun n (s' : Sol K) => (∀ k i, k < n → i < L k → s'.t k i = 0) ∧ s'.ux = s.ux ∧ s'.pi = s.pi ∧ s'.lam = s.lam)
    · exact ⟨fun _ _ h => absurd h (Nat.not_lt_zero _), rfl, rfl, rfl⟩
    · intro m s' hm ⟨g, g', g'', g3⟩
      refine ⟨fun k i hk hi => ?_, g', g'', g3⟩
      rcases Decidable.em (k = m) with he | he
      · subst he; simp [upd_same, vecse, hi]
      · simp only [upd, he, if_false]; exact g k i (by omega) hi
  unfold solSetZero
  extract_lets s1 s2 s3
  obtain ⟨a1, -, -⟩ := e1 (D.N + 1) (fun ii => D.nu ii + D.nx ii + 2 * D.ns ii) s
  obtain ⟨b1, b2⟩ := e2 D.N (fun ii => D.nx (ii + 1)) s1
  obtain ⟨c1, c2, c3⟩ := e3 (D.N + 1) (fun ii => 2 * D.nb ii + 2 * D.ng ii + 2 * D.ns ii) s2
  obtain ⟨d1, d2, d3, d4⟩ := e4 (D.N + 1) (fun ii => 2 * D.nb ii + 2 * D.ng ii + 2 * D.ns ii) s3
  have hu : ∀ k i, k < D.N + 1 → i < D.nu k + D.nx k + 2 * D.ns k → _ = (0 : K) := fun k i hk hi =>
    (congrFun (congrFun (d2.trans (c2.trans b2)) k) i).trans (a1 k i hk hi)
  have hpi : ∀ k i, k < D.N → i < D.nx (k + 1) → _ = (0 : K) := fun k i hk hi =>
    (congrFun (congrFun (d3.trans c3) k) i).trans (b1 k i hk hi)
  have hlam : ∀ k i, k < D.N + 1 → i < 2 * D.nb k + 2 * D.ng k + 2 * D.ns k → _ = (0 : K) := fun k i hk hi =>
    (congrFun (congrFun d4 k) i).trans (c1 k i hk hi)
  refine ⟨fun c hc => ?_, fun k j hk hj => d1 k j (by omega) hj⟩
  cases c <;> simp only [Comp.Valid] at hc <;> simp only [Sol.comp, Comp.val, ptOf, multOf] <;>
    first | exact hu _ _ (by omega) (by omega) | exact hpi _ _ hc.1 hc.2 | exact hlam _ _ (by omega) (by omega)

/-- **C94 (tree).** Reading from the solution of the tree solver by one of its nine names gives the components of the node (edge). -/
theorem tsol_get_field (D : QpDim) (f : SolF) (hf : f.Bulk) (h1 : f ≠ .lam_ls) (h2 : f ≠ .lam_us) (k : ℕ) (hk : f.StageOk D k) (s : Sol K)
    (v : Vec K) : ∃ w, tsolGet D f.name k s v = .ok w ∧ (∀ i, i < f.len D k → w i = s.comp D (f.comp D k i)) ∧
      ∀ i, f.len D k ≤ i → w i = v i := by
  have e : tsolGet D f.name k s v = solGet D f.name k s v := by
    cases f <;> first | exact False.elim hf | exact absurd rfl h1 | exact absurd rfl h2 | (simp only [tsolGet, solGet, SolF.name]; simp)
  rw [e]; exact sol_get_field D f k hk s v

/-- **C94 (finding).** The multipliers of the slack bounds cannot be read by name from a tree solution: the documented OCP names end
the process (they are reachable only through `TREE_OCP_QP_SOL_GET_ALL`). -/
theorem tsol_slack_mult_missing (D : QpDim) (k : ℕ) (s : Sol K) (v : Vec K) :
    tsolGet D "lam_ls" k s v = .exit ∧ tsolGet D "lam_us" k s v = .exit := by simp [tsolGet]

end
end Hpipm
