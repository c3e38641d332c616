/-
C91: what the removal of linearly dependent equality constraints guarantees.
-/
import Verif.LinDep

namespace Hpipm
open Finset
set_option linter.unusedSectionVars false

section
variable {K : Type*} [Field K] [LinearOrder K]

/-! ### specification -/

/-- `x` satisfies the equality constraints of the QP -/
def EqSat (qp : DenseQp K) (x : Vec K) : Prop :=
  ∀ r, r < qp.dim.ne → ∑ c ∈ range qp.dim.nv, qp.A r c * x c = qp.b r

/-- equality constraint `r` of `qp'` is constraint `q` of `qp` -/
def SameRow (qp qp' : DenseQp K) (r q : ℕ) : Prop := (∀ c, c < qp.dim.nv → qp'.A r c = qp.A q c) ∧ qp'.b r = qp.b q

/-! ### permutations -/

/-- a permutation of `0..n-1` -/
def PermOn (n : ℕ) (p : ℕ → ℕ) : Prop := (∀ i, i < n → p i < n) ∧ ∀ i j, i < n → j < n → p i = p j → i = j

theorem swapAt_val {α : Type*} (p : ℕ → α) (a b i : ℕ) : swapAt p a b i = if i = b then p a else if i = a then p b else p i := by
  unfold swapAt upd
  split <;> rfl

theorem PermOn.swap {n : ℕ} {p : ℕ → ℕ} (h : PermOn n p) {a b : ℕ} (ha : a < n) (hb : b < n) : PermOn n (swapAt p a b) := by
  have e : ∀ i, swapAt p a b i = p (if i = b then a else if i = a then b else i) := by
    intro i; rw [swapAt_val]; split_ifs <;> rfl
  refine ⟨fun i hi => ?_, fun i j hi hj he => ?_⟩
  · rw [e]; apply h.1; split_ifs <;> assumption
  · rw [e, e] at he
    have := h.2 _ _ (by split_ifs <;> assumption) (by split_ifs <;> assumption) he
    split_ifs at this <;> omega

theorem colMax_mem (m : ℕ) (W : Mat K) (j : ℕ) (hj : j < m) : j ≤ colMax m W j ∧ colMax m W j < m := by
  unfold colMax
  have := loop_inv (fun (k : ℕ) (b : ℕ) => j ≤ b ∧ b < m) (m - j) (fun k best => if |W best j| < |W (j + k) j| then j + k else best) j
    ⟨le_rfl, hj⟩ (fun k b hk hb => by split_ifs <;> omega)
  exact this

/-- the pivots of the factorisation -/
theorem getrf_piv (m n : ℕ) (W : Mat K) (ip : ℕ → ℕ) (j : ℕ) (hj : j < min m n) :
    j ≤ (getrfRp m n W ip).2 j ∧ (getrfRp m n W ip).2 j < m := by
  unfold getrfRp
  have := loop_inv (fun (k : ℕ) (s : Mat K × (ℕ → ℕ)) => ∀ j, j < k → j ≤ s.2 j ∧ s.2 j < m) (min m n) (luStep m n) (W, ip)
    (fun j hj => by omega) (fun k s hk hs => by
      intro j hj
      show j ≤ upd s.2 k _ j ∧ upd s.2 k _ j < m
      by_cases e : j = k
      · subst e; rw [upd_same]; exact colMax_mem m s.1 j (by omega)
      · rw [upd_ne _ _ e]; exact hs j (by omega))
  exact this j hj

theorem absPiv_perm (ne : ℕ) (ip : ℕ → ℕ) (h : ∀ j, j < ne → ip j < ne) : PermOn ne (absPiv ne ip) := by
  unfold absPiv
  exact loop_inv (fun (k : ℕ) (p : ℕ → ℕ) => PermOn ne p) ne (fun ll p => swapAt p ll (ip ll)) id ⟨fun i hi => hi, fun i j _ _ h => h⟩
    (fun k p hk hp => hp.swap hk (h k hk))

/-! ### the search -/

theorem ldCol_some {thr : K} {ne ii jj : ℕ} {W : Mat K} {r : ℕ} (h : ldCol thr ne ii jj W = some r) :
    ii ≤ r ∧ r < ne ∧ r ≤ jj ∧ thr < |W r jj| := by
  unfold ldCol at h
  have := loop_inv (fun (k : ℕ) (s : K × Option ℕ) => thr ≤ s.1 ∧ ∀ r, s.2 = some r → ii ≤ r ∧ r < ne ∧ r ≤ jj ∧ thr < |W r jj|)
    (min ne (jj + 1) - ii) (fun k (s : K × Option ℕ) => if |W (ii + k) jj| > s.1 then (|W (ii + k) jj|, some (ii + k)) else s) (thr, none)
    ⟨le_rfl, fun r hr => nomatch hr⟩ (fun k s hk hs => by
      split_ifs with hc
      · refine ⟨le_trans hs.1 hc.le, fun r hr => ?_⟩
        have e : ii + k = r := Option.some.inj hr
        subst e
        exact ⟨by omega, by omega, by omega, lt_of_le_of_lt hs.1 hc⟩
      · exact hs)
  exact this.2 r h

theorem ldCol_none {thr : K} {ne ii jj : ℕ} {W : Mat K} (h : ldCol thr ne ii jj W = none) (r : ℕ) (h1 : ii ≤ r) (h2 : r < ne) (h3 : r ≤ jj) :
    |W r jj| ≤ thr := by
  unfold ldCol at h
  have := loop_inv (fun (k : ℕ) (s : K × Option ℕ) => s.2 = none → s.1 = thr ∧ ∀ r, ii ≤ r → r < ii + k → |W r jj| ≤ thr)
    (min ne (jj + 1) - ii) (fun k (s : K × Option ℕ) => if |W (ii + k) jj| > s.1 then (|W (ii + k) jj|, some (ii + k)) else s) (thr, none)
    (fun _ => ⟨rfl, fun r h1 h2 => by omega⟩) (fun k s hk hs => by
      split_ifs with hc
      · intro e; exact nomatch e
      · intro e
        obtain ⟨e1, e2⟩ := hs e
        refine ⟨e1, fun r h1 h2 => ?_⟩
        by_cases er : r = ii + k
        · subst er; rw [← e1]; exact not_lt.mp hc
        · exact e2 r h1 (by omega))
  exact (this h).2 r h1 (by omega)

theorem ldSearch_some {thr : K} {ne ii : ℕ} {W : Mat K} {n jj r c : ℕ} (h : ldSearch thr ne ii W n jj = some (r, c)) :
    (ii ≤ r ∧ r < ne ∧ r ≤ c ∧ thr < |W r c|) ∧ jj ≤ c ∧ c < jj + n ∧
      ∀ c', jj ≤ c' → c' < c → ∀ r, ii ≤ r → r < ne → r ≤ c' → |W r c'| ≤ thr := by
  induction n generalizing jj with
  | zero => exact nomatch h
  | succ n ih =>
    unfold ldSearch at h
    split at h
    · rename_i r' hr
      have e := Option.some.inj h
      obtain ⟨rfl, rfl⟩ := Prod.mk.inj e
      exact ⟨ldCol_some hr, le_rfl, by omega, fun c' h1 h2 => by omega⟩
    · rename_i hr
      obtain ⟨h1, h2, h3, h4⟩ := ih h
      refine ⟨h1, by omega, by omega, fun c' a b r x y z => ?_⟩
      by_cases e : c' = jj
      · subst e; exact ldCol_none hr r x y z
      · exact h4 c' (by omega) b r x y z

theorem ldSearch_none {thr : K} {ne ii : ℕ} {W : Mat K} {n jj : ℕ} (h : ldSearch thr ne ii W n jj = none) :
    ∀ c', jj ≤ c' → c' < jj + n → ∀ r, ii ≤ r → r < ne → r ≤ c' → |W r c'| ≤ thr := by
  induction n generalizing jj with
  | zero => intro c' h1 h2; omega
  | succ n ih =>
    unfold ldSearch at h
    split at h
    · exact nomatch h
    · rename_i hr
      intro c' a b r x y z
      by_cases e : c' = jj
      · subst e; exact ldCol_none hr r x y z
      · exact ih h c' (by omega) (by omega) r x y z

/-! ### the kept rows are rows of the problem -/

/-- the first `k` kept rows -/
structure LdRows (nv ne : ℕ) (A : Mat K) (b : Vec K) (k : ℕ) (s : LdS K) : Prop where
  li : s.ne_li = k
  perm : PermOn ne s.p
  A : ∀ i c, i < k → c < nv → s.A_li i c = A (s.p i) c
  b : ∀ i, i < k → s.b_li i = b (s.p i)

theorem LdRows.keep {nv ne : ℕ} {A : Mat K} {b : Vec K} {k : ℕ} {s : LdS K} (h : LdRows nv ne A b k s) :
    LdRows nv ne A b (k + 1) (ldKeep nv A b k s) := by
  refine ⟨by show s.ne_li + 1 = _; rw [h.li], h.perm, fun i c hi hc => ?_, fun i hi => ?_⟩
  · show gecp 1 nv A (s.p k) 0 s.A_li s.ne_li 0 i c = _
    unfold gecp
    rw [h.li]
    by_cases e : i = k
    · subst e
      rw [if_pos (by omega)]
      simp [ldKeep]
    · rw [if_neg (by omega)]; exact h.A i c (by omega) hc
  · show veccp 1 b (s.p k) s.b_li s.ne_li i = _
    unfold veccp
    rw [h.li]
    by_cases e : i = k
    · subst e
      rw [if_pos (by omega)]
      simp [ldKeep]
    · rw [if_neg (by omega)]; exact h.b i (by omega)

theorem LdRows.swap {nv ne : ℕ} {A : Mat K} {b : Vec K} {k : ℕ} {s : LdS K} (h : LdRows nv ne A b k s) {r : ℕ} (hk : k < ne) (h1 : k ≤ r)
    (h2 : r < ne) (W : Mat K) (j : ℕ) : LdRows nv ne A b k { s with W := W, p := swapAt s.p k r, jj0 := j } := by
  have e : ∀ i, i < k → swapAt s.p k r i = s.p i := by
    intro i hi; rw [swapAt_val, if_neg (by omega), if_neg (by omega)]
  exact ⟨h.li, h.perm.swap hk h2, fun i c hi hc => by
      show s.A_li i c = A (swapAt s.p k r i) c
      rw [e i hi]; exact h.A i c hi hc, fun i hi => by
      show s.b_li i = b (swapAt s.p k r i)
      rw [e i hi]; exact h.b i hi⟩

theorem LdRows.frame {nv ne : ℕ} {A : Mat K} {b : Vec K} {k : ℕ} {s s' : LdS K} (h : LdRows nv ne A b k s) (h1 : s'.p = s.p)
    (h2 : s'.A_li = s.A_li) (h3 : s'.b_li = s.b_li) (h4 : s'.ne_li = s.ne_li) : LdRows nv ne A b k s' :=
  ⟨h4.trans h.li, by rw [h1]; exact h.perm, by rw [h1, h2]; exact h.A, by rw [h1, h3]; exact h.b⟩

theorem ldLoop_rows (thr : K) (nv ne : ℕ) (A : Mat K) (b : Vec K) (n ii : ℕ) (s : LdS K) (hn : ii + n = ne) (h : LdRows nv ne A b ii s) :
    ∃ k, k ≤ ne ∧ LdRows nv ne A b k (ldLoop thr nv ne A b n ii s).2 := by
  induction n generalizing ii s with
  | zero => exact ⟨ii, by omega, h⟩
  | succ n ih =>
    unfold ldLoop
    split
    · split
      · rename_i rc hsr
        obtain ⟨⟨a1, a2, -, -⟩, -⟩ := ldSearch_some (r := rc.1) (c := rc.2) hsr
        refine ih _ _ (by omega) ?_
        unfold ldPivot
        by_cases e : rc.1 ≠ ii
        · simp only [if_pos e]
          exact (h.swap (by omega) a1 a2 _ _).keep.frame rfl rfl rfl rfl
        · simp only [if_neg e]
          exact LdRows.frame (s := ldKeep nv A b ii s) h.keep rfl rfl rfl rfl
      · exact ⟨ii, by omega, h⟩
    · exact ih _ _ (by omega) h.keep

theorem remove_piv (thr : K) (qp : DenseQp K) (ws : LdWs K) (hne : qp.dim.ne ≤ qp.dim.nv + 1) (W : Mat K) :
    PermOn qp.dim.ne (absPiv qp.dim.ne (getrfRp qp.dim.ne (qp.dim.nv + 1) W ws.ipiv_e).2) :=
  absPiv_perm _ _ (fun j hj => (getrf_piv _ _ _ _ j (by omega)).2)

/-- **C91** Whatever the routine does, the equality constraints of the QP it leaves behind are distinct equality constraints of
the caller's QP, and nothing else of the QP changes. -/
theorem remove_rows (thr : K) (qp qp' : DenseQp K) (ws ws' : LdWs K) (h : removeLinDep thr qp ws = some (qp', ws')) :
    (∃ q : ℕ → ℕ, (∀ r, r < qp'.dim.ne → q r < qp.dim.ne ∧ SameRow qp qp' r (q r)) ∧
      ∀ r r', r < qp'.dim.ne → r' < qp'.dim.ne → q r = q r' → r = r') ∧
    qp'.dim.ne ≤ qp.dim.ne ∧
    qp' = { qp with
      dim := { qp.dim with ne := qp'.dim.ne }
      A := qp'.A
      b := qp'.b } := by
  have triv : ∀ q' : DenseQp K, q' = qp → (∃ q : ℕ → ℕ, (∀ r, r < q'.dim.ne → q r < qp.dim.ne ∧ SameRow qp q' r (q r)) ∧
      ∀ r r', r < q'.dim.ne → r' < q'.dim.ne → q r = q r' → r = r') ∧ q'.dim.ne ≤ qp.dim.ne ∧
      q' = { qp with
        dim := { qp.dim with ne := q'.dim.ne }
        A := q'.A
        b := q'.b } := by
    rintro q' rfl
    exact ⟨⟨id, fun r hr => ⟨hr, fun _ _ => rfl, rfl⟩, fun r r' _ _ h => h⟩, le_rfl, rfl⟩
  unfold removeLinDep at h
  extract_lets nv ne ws1 W W1 lu r ws2 at h
  split at h
  · exact triv _ (Prod.mk.inj (Option.some.inj h)).1.symm
  · split at h
    · exact nomatch h
    · split at h
      · exact triv _ (Prod.mk.inj (Option.some.inj h)).1.symm
      · split at h
        · rename_i hne hle hinc hlt
          obtain ⟨k, hk, hr⟩ := ldLoop_rows thr nv ne qp.A qp.b ne 0 ⟨lu.1, absPiv ne lu.2, 0, ws1.A_li, ws1.b_li, 0⟩ (by omega)
            ⟨rfl, absPiv_perm _ _ (fun j hj => (getrf_piv _ _ _ _ j (by omega)).2), fun i c hi => by omega, fun i hi => by omega⟩
          have e := (Prod.mk.inj (Option.some.inj h)).1
          subst e
          have hli : r.2.ne_li = k := hr.li
          refine ⟨⟨r.2.p, fun i hi => ?_, fun i j hi hj he => ?_⟩, hlt.le, rfl⟩
          · have hi : i < r.2.ne_li := hi
            exact ⟨hr.perm.1 i (by omega), fun c hc => hr.A i c (by omega) hc, hr.b i (by omega)⟩
          · have hi : i < r.2.ne_li := hi
            have hj : j < r.2.ne_li := hj
            exact hr.perm.2 i j (by omega) (by omega) he
        · exact triv _ (Prod.mk.inj (Option.some.inj h)).1.symm

/-- **C91** No feasible point is lost: a point that satisfies the caller's equality constraints satisfies those of the QP the
solver works on. -/
theorem remove_feasible (thr : K) (qp qp' : DenseQp K) (ws ws' : LdWs K) (h : removeLinDep thr qp ws = some (qp', ws')) (x : Vec K)
    (hx : EqSat qp x) : EqSat qp' x := by
  obtain ⟨⟨q, hq, -⟩, -, he⟩ := remove_rows thr qp qp' ws ws' h
  intro r hr
  obtain ⟨h1, h2, h3⟩ := hq r hr
  have hv : qp'.dim.nv = qp.dim.nv := by rw [he]
  rw [h3, hv, ← hx (q r) h1]
  exact sum_congr rfl (fun c hc => by rw [h2 c (mem_range.mp hc)])

/-- **C91** The caller gets the QP back: RESTORE after REMOVE is the identity, unless every equality constraint was removed
(`restore_fails`), for a workspace that has not been used with more equality constraints. -/
theorem remove_restore (thr : K) (qp qp' : DenseQp K) (ws ws' : LdWs K) (h : removeLinDep thr qp ws = some (qp', ws'))
    (hb : ws.ne_bkp ≤ qp.dim.ne) (hpos : qp.dim.ne = 0 ∨ 0 < qp'.dim.ne) : restoreLinDep qp' ws' = qp ∧ ws'.ne_bkp ≤ qp.dim.ne := by
  have triv : ∀ w : LdWs K, w.ne_bkp = ws.ne_bkp → restoreLinDep qp w = qp ∧ w.ne_bkp ≤ qp.dim.ne := by
    intro w hw
    unfold restoreLinDep
    rw [if_neg (by omega)]; exact ⟨rfl, by omega⟩
  unfold removeLinDep at h
  extract_lets nv ne ws1 W W1 lu r ws2 at h
  split at h
  · obtain ⟨rfl, rfl⟩ := Prod.mk.inj (Option.some.inj h); exact triv _ rfl
  · split at h
    · exact nomatch h
    · split at h
      · obtain ⟨rfl, rfl⟩ := Prod.mk.inj (Option.some.inj h); exact triv _ rfl
      · split at h
        · rename_i hne hle hinc hlt
          obtain ⟨rfl, rfl⟩ := Prod.mk.inj (Option.some.inj h)
          have h0 : 0 < r.2.ne_li := by
            rcases hpos with h | h
            · exact absurd h hne
            · exact h
          refine ⟨?_, le_rfl⟩
          unfold restoreLinDep
          rw [if_pos ⟨h0, hlt⟩]
        · obtain ⟨rfl, rfl⟩ := Prod.mk.inj (Option.some.inj h); exact triv _ rfl

/-- A QP of which no equality constraint is removed is not touched at all. -/
theorem remove_none (thr : K) (qp qp' : DenseQp K) (ws ws' : LdWs K) (h : removeLinDep thr qp ws = some (qp', ws'))
    (hn : qp'.dim.ne = qp.dim.ne) : qp' = qp := by
  unfold removeLinDep at h
  extract_lets nv ne ws1 W W1 lu r ws2 at h
  split at h
  · exact (Prod.mk.inj (Option.some.inj h)).1.symm
  · split at h
    · exact nomatch h
    · split at h
      · exact (Prod.mk.inj (Option.some.inj h)).1.symm
      · split at h
        · rename_i hlt
          have e := (Prod.mk.inj (Option.some.inj h)).1
          rw [← e] at hn
          exact absurd (show r.2.ne_li = ne from hn) (by omega)
        · exact (Prod.mk.inj (Option.some.inj h)).1.symm

end
end Hpipm
