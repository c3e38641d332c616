/-
Properties C01, C02, C03 of the dimension object.
-/
import Verif.Dim

namespace Hpipm
namespace DimObj

theorem addr_inj {d : DimObj} {f g : DimField} {k l : ℕ} (hk : k ≤ d.cap) (hl : l ≤ d.cap)
    (h : d.addr f k = d.addr g l) : f = g ∧ k = l := by
  unfold addr at h
  have hpos : f.pos = g.pos := by
    by_contra hne
    rcases Nat.lt_or_gt_of_ne hne with h1 | h1
    · have := Nat.mul_le_mul_right (d.cap + 1) (Nat.succ_le_of_lt h1)
      rw [Nat.succ_mul] at this; omega
    · have := Nat.mul_le_mul_right (d.cap + 1) (Nat.succ_le_of_lt h1)
      rw [Nat.succ_mul] at this; omega
  refine ⟨?_, ?_⟩
  · cases f <;> cases g <;> simp_all [DimField.pos]
  · rw [hpos] at h; omega

@[simp] theorem wr_cap (d : DimObj) (f k v) : (d.wr f k v).cap = d.cap := rfl
@[simp] theorem wr_N (d : DimObj) (f k v) : (d.wr f k v).N = d.N := rfl

theorem rd_wr {d : DimObj} {f g : DimField} {k l v : ℕ} (hk : k ≤ d.cap) (hl : l ≤ d.cap) :
    (d.wr f k v).rd g l = if g = f ∧ l = k then v else d.rd g l := by
  unfold rd wr upd
  simp only [show ({ d with mem := fun j => if j = d.addr f k then v else d.mem j } : DimObj).addr g l
    = d.addr g l from rfl]
  by_cases h : d.addr g l = d.addr f k
  · have := addr_inj hl hk h
    simp [this.1, this.2]
  · have : ¬ (g = f ∧ l = k) := by rintro ⟨rfl, rfl⟩; exact h rfl
    simp [h, this]

theorem fill_cap (d : DimObj) (f N src) : (d.fill f N src).cap = d.cap := by
  unfold fill
  exact loop_inv (S := DimObj) (fun _ e => e.cap = d.cap) _ _ _ rfl (fun i s _ h => by simpa using h)

theorem fill_N (d : DimObj) (f N src) : (d.fill f N src).N = d.N := by
  unfold fill
  exact loop_inv (S := DimObj) (fun _ e => e.N = d.N) _ _ _ rfl (fun i s _ h => by simpa using h)

theorem rd_fill {d : DimObj} {f g : DimField} {N l : ℕ} {src : ℕ → ℕ} (hN : N ≤ d.cap)
    (hl : l ≤ d.cap) :
    (d.fill f N src).rd g l = if g = f ∧ l ≤ N then src l else d.rd g l := by
  unfold fill
  have := loop_inv (S := DimObj)
    (fun i e => e.cap = d.cap ∧ e.rd g l = if g = f ∧ l < i then src l else d.rd g l)
    (N + 1) (fun ii d => d.wr f ii (src ii)) d (by simp) (by
      intro i e hi ⟨hc, he⟩
      refine ⟨by simpa using hc, ?_⟩
      rw [rd_wr (by omega) (by omega), he]
      by_cases h1 : g = f
      · subst h1
        rcases Nat.lt_trichotomy l i with h | h | h
        · simp [Nat.ne_of_lt h, h, Nat.lt_succ_of_lt h]
        · subst h; simp
        · have : ¬ l < i + 1 := by omega
          simp [Nat.ne_of_gt h, Nat.not_lt_of_gt h, this]
      · simp [h1])
  rw [this.2]
  simp only [Nat.lt_succ_iff]

/-- the state invariant of property C01: at every allocated stage `nb = nbx + nbu` -/
def Inv (d : DimObj) : Prop :=
  d.N ≤ d.cap ∧ ∀ k, k ≤ d.cap → d.rd .nb k = d.rd .nbx k + d.rd .nbu k

/-- Objects a user can obtain: created, then modified by any finite sequence of API calls whose
stage indices lie inside the created horizon (and copies between objects of fitting size). -/
inductive Reachable : DimObj → Prop
  | create (N : ℕ) : Reachable (create N)
  | set {d d' : DimObj} (name : String) (k v : ℕ) :
      Reachable d → k ≤ d.cap → d.set name k v = some d' → Reachable d'
  | setAll {d : DimObj} (nx nu nbx nbu ng ns : ℕ → ℕ) :
      Reachable d → Reachable (setAll nx nu nbx nbu ng ns d)
  | copyAll {s d : DimObj} : Reachable s → Reachable d → s.N = d.N → Reachable (copyAll s d)
  | deepcopy {s d : DimObj} : Reachable s → Reachable d → s.N ≤ d.cap → Reachable (deepcopy s d)

theorem copyLoops_cap (s : DimObj) (N : ℕ) (d : DimObj) : (copyLoops s N d).cap = d.cap := by
  simp [copyLoops, DimField.all, fill_cap]

theorem copyLoops_N (s : DimObj) (N : ℕ) (d : DimObj) : (copyLoops s N d).N = d.N := by
  simp [copyLoops, DimField.all, fill_N]

theorem rd_copyLoops {s d : DimObj} {N l : ℕ} (g : DimField) (hN : N ≤ d.cap) (hl : l ≤ d.cap) :
    (copyLoops s N d).rd g l = if l ≤ N then s.rd g l else d.rd g l := by
  simp only [copyLoops, DimField.all, List.foldl]
  simp (discharger := (first | assumption | (simp only [fill_cap]; assumption))) only [rd_fill]
  cases g <;> by_cases h : l ≤ N <;> simp [h]

theorem setField_cap (d : DimObj) (f k v) : (d.setField f k v).cap = d.cap := by
  cases f <;> simp [setField]

theorem setField_N (d : DimObj) (f k v) : (d.setField f k v).N = d.N := by
  cases f <;> simp [setField]

theorem rd_setField {d : DimObj} {f g : DimField} {k l v : ℕ} (hk : k ≤ d.cap) (hl : l ≤ d.cap)
    (hg : g ≠ .nb) :
    (d.setField f k v).rd g l = if g = f ∧ l = k then v else d.rd g l := by
  cases f <;> simp only [setField] <;>
    simp (discharger := (first | assumption | (simp only [wr_cap]; assumption))) only [rd_wr] <;>
    simp [hg]

theorem Inv.setField {d : DimObj} (h : d.Inv) (f : DimField) (hf : f ≠ .nb) {k v : ℕ}
    (hk : k ≤ d.cap) : (d.setField f k v).Inv := by
  refine ⟨by rw [setField_N, setField_cap]; exact h.1, ?_⟩
  intro l hl
  rw [setField_cap] at hl
  have h2 := h.2 l hl
  cases f <;> simp only [DimObj.setField] <;>
    simp (discharger := (first | assumption | (simp only [wr_cap]; assumption))) only [rd_wr] <;>
    by_cases hlk : l = k <;> simp_all

theorem fieldOf_ne_nb {s : String} {f : DimField} (h : fieldOf s = some f) : f ≠ .nb := by
  unfold fieldOf at h
  rintro rfl
  split_ifs at h <;> simp at h

theorem Reachable.inv {d : DimObj} (h : Reachable d) : d.Inv := by
  induction h with
  | create N => exact ⟨le_refl _, fun k _ => by simp [rd, DimObj.create]⟩
  | set name k v _ hk hs ih =>
    unfold DimObj.set at hs
    cases hf : fieldOf name with
    | none => simp [hf] at hs
    | some f =>
      simp [hf] at hs
      rw [← hs]
      exact ih.setField f (fieldOf_ne_nb hf) hk
  | @setAll d nx nu nbx nbu ng ns _ ih =>
    have hN := ih.1
    refine ⟨by simpa [DimObj.setAll, fill_cap, fill_N] using hN, ?_⟩
    intro l hl
    have hl' : l ≤ d.cap := by simpa [DimObj.setAll, fill_cap] using hl
    have h2 := ih.2 l hl'
    simp only [DimObj.setAll]
    simp (discharger := (first | assumption | (simp only [fill_cap]; assumption))) only [rd_fill]
    by_cases h : l ≤ d.N <;> simp [h, h2]
  | @copyAll s d _ _ hN ihs ihd =>
    refine ⟨by simpa [DimObj.copyAll, copyLoops_cap, copyLoops_N] using ihd.1, ?_⟩
    intro l hl
    have hl' : l ≤ d.cap := by simpa [DimObj.copyAll, copyLoops_cap] using hl
    have hsd : s.N ≤ d.cap := hN ▸ ihd.1
    simp only [DimObj.copyAll]
    rw [rd_copyLoops _ hsd hl', rd_copyLoops _ hsd hl', rd_copyLoops _ hsd hl']
    by_cases h : l ≤ s.N
    · simp only [h, if_true]; exact ihs.2 l (le_trans h ihs.1)
    · simp only [h, if_false]; exact ihd.2 l hl'
  | @deepcopy s d _ _ hN ihs ihd =>
    refine ⟨by simpa [DimObj.deepcopy, copyLoops_cap, copyLoops_N] using hN, ?_⟩
    intro l hl
    have hl' : l ≤ d.cap := by simpa [DimObj.deepcopy, copyLoops_cap] using hl
    simp only [DimObj.deepcopy]
    rw [rd_copyLoops _ (by exact hN) (by exact hl'), rd_copyLoops _ (by exact hN) (by exact hl'),
      rd_copyLoops _ (by exact hN) (by exact hl')]
    by_cases h : l ≤ s.N
    · simp only [h, if_true]; exact ihs.2 l (le_trans h ihs.1)
    · simp only [h, if_false]; exact ihd.2 l hl'

end DimObj

open DimObj

/-- **C01.**  For every object obtained by any finite history of dimension API calls, at every stage
of its horizon the number of box constraints is the number of state boxes plus input boxes. -/
theorem dim_nb_eq_nbx_add_nbu {d : DimObj} (h : Reachable d) {k : ℕ} (hk : k ≤ d.N) :
    d.view.nb k = d.view.nbx k + d.view.nbu k :=
  h.inv.2 k (le_trans hk h.inv.1)

/-- a concrete history: create(2); set nbx; set nbu; deepcopy into a longer object -/
example : ∃ d, Reachable d ∧ 1 ≤ d.N ∧ d.view.nb 1 = 5 := by
  obtain ⟨d1, h1⟩ : ∃ d1, (create 2).set "nbx" 1 3 = some d1 := ⟨_, rfl⟩
  obtain ⟨d2, h2⟩ : ∃ d2, d1.set "nbu" 1 2 = some d2 := ⟨_, rfl⟩
  have r1 : Reachable d1 := .set "nbx" 1 3 (.create 2) (by decide) h1
  have e1 : d1 = (create 2).setField .nbx 1 3 := by
    have : (create 2).set "nbx" 1 3 = some ((create 2).setField .nbx 1 3) := rfl
    rw [this] at h1; exact (Option.some.inj h1).symm
  subst e1
  have r2 : Reachable d2 := .set "nbu" 1 2 r1 (by decide) h2
  have e2 : d2 = ((create 2).setField .nbx 1 3).setField .nbu 1 2 := by
    have : ((create 2).setField .nbx 1 3).set "nbu" 1 2 =
      some (((create 2).setField .nbx 1 3).setField .nbu 1 2) := rfl
    rw [this] at h2; exact (Option.some.inj h2).symm
  subst e2
  exact ⟨_, .deepcopy (d := create 4) r2 (.create 4) (by decide), by decide, by decide⟩

/-- **C02 (round trip).**  A successful set makes get return the value. -/
theorem dim_get_set_same {d d' : DimObj} {name : String} {k v : ℕ} (hk : k ≤ d.cap)
    (hs : d.set name k v = some d') : d'.get name k = some v := by
  unfold DimObj.set at hs
  cases hf : fieldOf name with
  | none => simp [hf] at hs
  | some f =>
    simp [hf] at hs
    subst hs
    simp only [DimObj.get, hf, Option.map_some]
    rw [rd_setField hk hk (fieldOf_ne_nb hf)]; simp

/-- the documented name of each array -/
def DimField.name : DimField → String
  | .nx => "nx" | .nu => "nu" | .nb => "nb" | .nbx => "nbx" | .nbu => "nbu" | .ng => "ng"
  | .ns => "ns" | .nbxe => "nbxe" | .nbue => "nbue" | .nge => "nge"

theorem fieldOf_name {s : String} {f : DimField} (h : fieldOf s = some f) : s = f.name := by
  unfold fieldOf at h
  split_ifs at h with h1 h2 h3 h4 h5 h6 h7 h8 h9 <;>
    (obtain rfl := Option.some.inj h; assumption)

theorem fieldOf_inj {s t : String} {f : DimField} (hs : fieldOf s = some f) (ht : fieldOf t = some f) :
    s = t := (fieldOf_name hs).trans (fieldOf_name ht).symm

/-- **C02 (frame).**  A successful set changes no getter of another field or stage. -/
theorem dim_get_set_other {d d' : DimObj} {name other : String} {k l v : ℕ} (hk : k ≤ d.cap)
    (hl : l ≤ d.cap) (hs : d.set name k v = some d') (hne : other ≠ name ∨ l ≠ k) :
    d'.get other l = d.get other l ∧ d'.N = d.N := by
  unfold DimObj.set at hs
  cases hf : fieldOf name with
  | none => simp [hf] at hs
  | some f =>
    simp [hf] at hs
    subst hs
    refine ⟨?_, setField_N _ _ _ _⟩
    cases hg : fieldOf other with
    | none => simp [DimObj.get, hg]
    | some g =>
      simp only [DimObj.get, hg, Option.map_some]
      rw [rd_setField hk hl (fieldOf_ne_nb hg)]
      have : ¬ (g = f ∧ l = k) := by
        rintro ⟨rfl, rfl⟩
        rcases hne with h | h
        · exact h (fieldOf_inj hg hf)
        · exact h rfl
      simp [this]

/-- **C02 (refusal).**  set and get succeed exactly on the nine documented names; otherwise the
process exits (`none`) and no object results. -/
theorem dim_set_defined_iff (d : DimObj) (name : String) (k v : ℕ) :
    ((d.set name k v).isSome ↔
      name ∈ ["nx", "nu", "nbx", "nbu", "ng", "ns", "nbxe", "nbue", "nge"]) ∧
    ((d.get name k).isSome ↔
      name ∈ ["nx", "nu", "nbx", "nbu", "ng", "ns", "nbxe", "nbue", "nge"]) := by
  unfold DimObj.set DimObj.get fieldOf
  constructor <;> (split_ifs <;> simp_all)

example : ((create 3).set "ng" 2 7).bind (fun d => d.get "ng" 2) = some 7 ∧
    ((create 3).set "ng" 2 7).bind (fun d => d.get "ns" 2) = some 0 ∧
    (create 3).set "nz" 2 7 = none := by decide

/-- Out-of-range stages are outside the contract: a write at stage `N+1` of `nx` lands in `nu[0]`. -/
theorem dim_set_out_of_range_corrupts :
    ∃ d', (create 2).set "nx" 3 7 = some d' ∧ d'.get "nu" 0 = some 7 := ⟨_, rfl, by decide⟩

/-- **C03 (deepcopy).**  The copy answers every getter, at every stage of the source horizon, as
the source does, and has its horizon. -/
theorem dim_deepcopy_get {s d : DimObj} (hN : s.N ≤ d.cap) (name : String) {k : ℕ} (hk : k ≤ s.N) :
    (deepcopy s d).get name k = s.get name k ∧ (deepcopy s d).N = s.N ∧
      (deepcopy s d).view.nb k = s.view.nb k := by
  have key : ∀ g, (deepcopy s d).rd g k = s.rd g k := by
    intro g
    have := rd_copyLoops (s := s) (d := { d with N := s.N }) g hN (le_trans hk hN)
    simpa [DimObj.deepcopy, hk] using this
  refine ⟨?_, by simp [DimObj.deepcopy, copyLoops_N], key .nb⟩
  unfold DimObj.get
  cases fieldOf name <;> simp [key]

/-- **C03 (copy_all).** -/
theorem dim_copyAll_get {s d : DimObj} (hN : s.N ≤ d.cap) (name : String) {k : ℕ} (hk : k ≤ s.N) :
    (copyAll s d).get name k = s.get name k ∧ (copyAll s d).view.nb k = s.view.nb k := by
  have key : ∀ g, (copyAll s d).rd g k = s.rd g k := by
    intro g
    have := rd_copyLoops (s := s) (d := d) g hN (le_trans hk hN)
    simpa [DimObj.copyAll, hk] using this
  refine ⟨?_, key .nb⟩
  unfold DimObj.get
  cases fieldOf name <;> simp [key]

/-- **C03 (set_all).**  set_all stores the six arrays and leaves the three equality counts alone. -/
theorem dim_setAll_get {d : DimObj} (h : d.N ≤ d.cap) (nx nu nbx nbu ng ns : ℕ → ℕ) {k : ℕ}
    (hk : k ≤ d.N) :
    let e := setAll nx nu nbx nbu ng ns d
    e.get "nx" k = some (nx k) ∧ e.get "nu" k = some (nu k) ∧ e.get "nbx" k = some (nbx k) ∧
    e.get "nbu" k = some (nbu k) ∧ e.get "ng" k = some (ng k) ∧ e.get "ns" k = some (ns k) ∧
    e.get "nbxe" k = d.get "nbxe" k ∧ e.get "nbue" k = d.get "nbue" k ∧
    e.get "nge" k = d.get "nge" k := by
  have hk' := le_trans hk h
  have key : ∀ g, (setAll nx nu nbx nbu ng ns d).rd g k =
      match g with
      | .nx => nx k | .nu => nu k | .nb => nbx k + nbu k | .nbx => nbx k | .nbu => nbu k
      | .ng => ng k | .ns => ns k | g => d.rd g k := by
    intro g
    simp only [setAll]
    simp (discharger := (first | assumption | (simp only [fill_cap]; assumption))) only [rd_fill]
    cases g <;> simp [hk]
  simp [DimObj.get, fieldOf, key]

example : (deepcopy ((create 1).setField .ng 1 4) (create 3)).get "ng" 1 = some 4 := by decide

end Hpipm
