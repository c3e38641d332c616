/-
The forward substitution of the tree KKT solver (intermediate results for C80).
-/
import Verif.TreeKktBack

namespace Hpipm
open Finset
set_option linter.unusedSectionVars false

section
variable {K : Type*} [Field K] [LinearOrder K] [IsStrictOrderedRing K]

/-- fields the forward substitution does not change -/
structure TFr (st st' : KktSt K) : Prop where
  L : st'.L = st.L
  Zs : st'.Zs = st.Zs
  BAbt : st'.BAbt = st.BAbt

theorem TFr.trans {a b c : KktSt K} (h1 : TFr a b) (h2 : TFr b c) : TFr a c :=
  ⟨h2.L.trans h1.L, h2.Zs.trans h1.Zs, h2.BAbt.trans h1.BAbt⟩

/-- effect of the part of a node before its kids -/
structure TFHead (t : TreeQp K) (k : ℕ) (ell : Vec K) (st st' : KktSt K) : Prop where
  fr : TFr st st'
  pi : st'.pi = st.pi
  uxo : ∀ q, q ≠ k → st'.ux q = st.ux q
  uxr : ∀ i, tkN t k ≤ i → st'.ux k i = st.ux k i
  solve : ∀ j, j < tkN t k → ∑ i ∈ range (t.qp.dim.nu k + t.qp.dim.nx k), low (st.L k) i j * st'.ux k i = - ell j

/-- effect of kid `c` of node `k` -/
structure TFKid (t : TreeQp K) (dual : Bool) (k c : ℕ) (P : Mat K) (p : Vec K) (st st' : KktSt K) : Prop where
  fr : TFr st st'
  uxo : ∀ q, q ≠ c → st'.ux q = st.ux q
  uxr : ∀ i, i < t.qp.dim.nu c ∨ t.qp.dim.nu c + t.qp.dim.nx c ≤ i → st'.ux c i = st.ux c i
  dyn : ∀ a, a < t.qp.dim.nx c → st'.ux c (t.qp.dim.nu c + a) =
    (∑ j ∈ range (t.qp.dim.nu k + t.qp.dim.nx k), t.qp.BAbt (c - 1) j a * st.ux k j) + t.qp.b (c - 1) a
  pi : dual = true → ∀ a, a < t.qp.dim.nx c → st'.pi (c - 1) a =
    ∑ d ∈ range (t.qp.dim.nx c), P a d * st'.ux c (t.qp.dim.nu c + d) + p a
  pio : ∀ e, e ≠ c - 1 → st'.pi e = st.pi e

/-- state after the kids `< n` of node `k` -/
structure TFKids (t : TreeQp K) (dual : Bool) (k n : ℕ) (P : ℕ → Mat K) (p : ℕ → Vec K) (st st' : KktSt K) : Prop where
  fr : TFr st st'
  uxo : ∀ q, (∀ jj, jj < n → q ≠ t.kids k jj) → st'.ux q = st.ux q
  uxr : ∀ q i, i < t.qp.dim.nu q ∨ t.qp.dim.nu q + t.qp.dim.nx q ≤ i → st'.ux q i = st.ux q i
  dyn : ∀ jj, jj < n → ∀ a, a < t.qp.dim.nx (t.kids k jj) → st'.ux (t.kids k jj) (t.qp.dim.nu (t.kids k jj) + a) =
    (∑ j ∈ range (t.qp.dim.nu k + t.qp.dim.nx k), t.qp.BAbt (t.kids k jj - 1) j a * st.ux k j) + t.qp.b (t.kids k jj - 1) a
  pi : dual = true → ∀ jj, jj < n → ∀ a, a < t.qp.dim.nx (t.kids k jj) → st'.pi (t.kids k jj - 1) a =
    ∑ d ∈ range (t.qp.dim.nx (t.kids k jj)), P (t.kids k jj) a d * st'.ux (t.kids k jj) (t.qp.dim.nu (t.kids k jj) + d) + p (t.kids k jj) a
  pio : ∀ e, (∀ jj, jj < n → e ≠ t.kids k jj - 1) → st'.pi e = st.pi e

theorem tfkids (t : TreeQp K) (ht : t.TreeOk) (dual : Bool) (k : ℕ) (hk : k ≤ t.qp.dim.N) (P : ℕ → Mat K) (p : ℕ → Vec K)
    (kid : ℕ → KktSt K → KktSt K) (st0 : KktSt K)
    (hkid : ∀ jj, jj < t.nkids k → ∀ st, TFr st0 st → st.ux (t.kids k jj) = st0.ux (t.kids k jj) →
      TFKid t dual k (t.kids k jj) (P (t.kids k jj)) (p (t.kids k jj)) st (kid (t.kids k jj) st)) :
    TFKids t dual k (t.nkids k) P p st0 (loop (t.nkids k) (fun jj st => kid (t.kids k jj) st) st0) := by
  have h := loop_inv (fun n s => n ≤ t.nkids k → TFKids t dual k n P p st0 s) (t.nkids k)
    (fun jj st => kid (t.kids k jj) st) st0
    (fun _ => ⟨⟨rfl, rfl, rfl⟩, fun _ _ => rfl, fun _ _ _ => rfl, fun jj h => by omega, fun _ jj h => by omega, fun _ _ => rfl⟩)
    (fun n s hn hs _ => ?_) (le_refl _)
  · exact h
  have hs := hs (by omega)
  have hne : ∀ jj, jj < n → t.kids k n ≠ t.kids k jj := fun jj hjj he => by
    have := ht.inj k n jj hk hn (by omega) he
    omega
  have hne1 : ∀ jj, jj < n → t.kids k jj - 1 ≠ t.kids k n - 1 := fun jj hjj he => by
    have g1 := (ht.kid k n hk hn).1
    have g2 := (ht.kid k jj hk (by omega)).1
    exact hne jj hjj (by omega)
  have hck : k ≠ t.kids k n := by have := (ht.kid k n hk hn).1; omega
  have ho := hkid n hn s hs.fr (hs.uxo _ hne)
  refine ⟨hs.fr.trans ho.fr, fun q hq => ?_, fun q i hi => ?_, fun jj hjj a ha => ?_, fun hd jj hjj a ha => ?_, fun e he => ?_⟩
  · rw [ho.uxo q (hq n (by omega))]
    exact hs.uxo q (fun jj hjj => hq jj (by omega))
  · by_cases hq : q = t.kids k n
    · subst hq
      rw [ho.uxr i hi]; exact hs.uxr _ i hi
    · rw [ho.uxo q hq]; exact hs.uxr q i hi
  · by_cases hjn : jj = n
    · subst hjn
      rw [ho.dyn a ha, hs.uxo k (fun j hj => by have := (ht.kid k j hk (by omega)).1; omega)]
    · rw [ho.uxo _ (fun h => hne jj (by omega) h.symm)]
      exact hs.dyn jj (by omega) a ha
  · by_cases hjn : jj = n
    · subst hjn
      exact ho.pi hd a ha
    · rw [ho.pio _ (hne1 jj (by omega)), ho.uxo _ (fun h => hne jj (by omega) h.symm)]
      exact hs.pi hd jj (by omega) a ha
  · rw [ho.pio e (he n (by omega))]
    exact hs.pio e (fun jj hjj => he jj (by omega))

/-- result of the forward substitution -/
structure TFDone (t : TreeQp K) (dual : Bool) (ell : ℕ → Vec K) (P : ℕ → Mat K) (p : ℕ → Vec K) (st0 st : KktSt K) : Prop where
  fr : TFr st0 st
  uxs : ∀ k i, t.qp.dim.nu k + t.qp.dim.nx k ≤ i → st.ux k i = st0.ux k i
  solve : ∀ k, k ≤ t.qp.dim.N → ∀ j, j < tkN t k →
    ∑ i ∈ range (t.qp.dim.nu k + t.qp.dim.nx k), low (st0.L k) i j * st.ux k i = - ell k j
  dyn : ∀ e, e < t.qp.dim.N → ∀ a, a < t.qp.dim.nx (e + 1) → st.ux (e + 1) (t.qp.dim.nu (e + 1) + a) =
    (∑ j ∈ range (t.qp.dim.nu (t.dad (e + 1)) + t.qp.dim.nx (t.dad (e + 1))), t.qp.BAbt e j a * st.ux (t.dad (e + 1)) j) + t.qp.b e a
  pi : dual = true → ∀ e, e < t.qp.dim.N → ∀ a, a < t.qp.dim.nx (e + 1) → st.pi e a =
    ∑ d ∈ range (t.qp.dim.nx (e + 1)), P (e + 1) a d * st.ux (e + 1) (t.qp.dim.nu (e + 1) + d) + p (e + 1) a

/-- state after the nodes `< n` -/
structure TFInv (t : TreeQp K) (dual : Bool) (ell : ℕ → Vec K) (P : ℕ → Mat K) (p : ℕ → Vec K) (st0 : KktSt K) (n : ℕ) (st : KktSt K) : Prop where
  fr : TFr st0 st
  uxs : ∀ k i, t.qp.dim.nu k + t.qp.dim.nx k ≤ i → st.ux k i = st0.ux k i
  pre : ∀ k, n ≤ k → ∀ i, i < t.qp.dim.nu k → st.ux k i = st0.ux k i
  pre2 : ∀ k, n ≤ k → k ≤ t.qp.dim.N → k = 0 ∨ n ≤ t.dad k → st.ux k = st0.ux k
  solve : ∀ k, k < n → ∀ j, j < tkN t k →
    ∑ i ∈ range (t.qp.dim.nu k + t.qp.dim.nx k), low (st0.L k) i j * st.ux k i = - ell k j
  dyn : ∀ e, e < t.qp.dim.N → t.dad (e + 1) < n → ∀ a, a < t.qp.dim.nx (e + 1) → st.ux (e + 1) (t.qp.dim.nu (e + 1) + a) =
    (∑ j ∈ range (t.qp.dim.nu (t.dad (e + 1)) + t.qp.dim.nx (t.dad (e + 1))), t.qp.BAbt e j a * st.ux (t.dad (e + 1)) j) + t.qp.b e a
  pi : dual = true → ∀ e, e < t.qp.dim.N → t.dad (e + 1) < n → ∀ a, a < t.qp.dim.nx (e + 1) → st.pi e a =
    ∑ d ∈ range (t.qp.dim.nx (e + 1)), P (e + 1) a d * st.ux (e + 1) (t.qp.dim.nu (e + 1) + d) + p (e + 1) a

theorem tfwd (t : TreeQp K) (ht : t.TreeOk) (dual : Bool) (ell : ℕ → Vec K) (P : ℕ → Mat K) (p : ℕ → Vec K) (st0 : KktSt K)
    (head : ℕ → KktSt K → KktSt K) (kid : ℕ → ℕ → KktSt K → KktSt K)
    (hhead : ∀ k, k ≤ t.qp.dim.N → ∀ st, TFr st0 st → (∀ j, j < tkN t k → st.ux k j = st0.ux k j) → TFHead t k (ell k) st (head k st))
    (hkid : ∀ k jj, k ≤ t.qp.dim.N → jj < t.nkids k → ∀ st, TFr st0 st →
      (∀ i, st.ux (t.kids k jj) i = st0.ux (t.kids k jj) i) →
      TFKid t dual k (t.kids k jj) (P (t.kids k jj)) (p (t.kids k jj)) st (kid k (t.kids k jj) st)) :
    TFDone t dual ell P p st0 (loop (t.qp.dim.N + 1) (fun k st =>
      loop (t.nkids k) (fun jj st => kid k (t.kids k jj) st) (head k st)) st0) := by
  have h := loop_inv (fun n s => n ≤ t.qp.dim.N + 1 → TFInv t dual ell P p st0 n s) (t.qp.dim.N + 1) (fun k st =>
      loop (t.nkids k) (fun jj st => kid k (t.kids k jj) st) (head k st)) st0
    (fun _ => ⟨⟨rfl, rfl, rfl⟩, fun _ _ _ => rfl, fun _ _ _ _ => rfl, fun _ _ _ _ => rfl, fun k hk => by omega,
      fun e _ he => by omega, fun _ e _ he => by omega⟩)
    (fun n s hn hs _ => ?_) (le_refl _)
  · refine ⟨h.fr, h.uxs, fun k hk => h.solve k (by omega), fun e he => h.dyn e he ?_, fun hd e he => h.pi hd e he ?_⟩ <;>
      have := (ht.all (e + 1) (by omega) (by omega)).1 <;> omega
  have hs := hs (by omega)
  have hnN : n ≤ t.qp.dim.N := by omega
  have hH := hhead n hnN s hs.fr (fun j hj => by
    unfold tkN at hj
    split_ifs at hj with h0
    · exact hs.pre n (le_refl _) j hj
    · rw [hs.pre2 n (le_refl _) hnN (Or.inl (by omega))])
  set s1 := head n s with hs1
  have hKs := tfkids t ht dual n hnN P p (kid n) s1 (fun jj hjj st hfr hux => by
    obtain ⟨g1, g2, g3⟩ := ht.kid n jj hnN hjj
    refine hkid n jj hnN hjj st ((hs.fr.trans hH.fr).trans hfr) (fun i => ?_)
    rw [hux, hH.uxo _ (by omega), hs.pre2 _ (by omega) g2 (Or.inr (by omega))])
  set s2 := loop (t.nkids n) (fun jj st => kid n (t.kids n jj) st) s1 with hs2
  -- kids of a node are those with that parent
  have hkidd : ∀ q, q ≤ t.qp.dim.N → (q = 0 ∨ t.dad q ≠ n) → ∀ jj, jj < t.nkids n → q ≠ t.kids n jj := by
    intro q hq hd jj hjj he
    obtain ⟨g1, g2, g3⟩ := ht.kid n jj hnN hjj
    subst he
    rcases hd with hd | hd
    · omega
    · exact hd g3
  have hnk : ∀ jj, jj < t.nkids n → n ≠ t.kids n jj := fun jj hjj => by have := (ht.kid n jj hnN hjj).1; omega
  have hold : ∀ q, q < n → s2.ux q = s.ux q := by
    intro q hq
    rw [hKs.uxo q (fun jj hjj => by have := (ht.kid n jj hnN hjj).1; omega), hH.uxo q (by omega)]
  have hkeep : ∀ q, q ≤ t.qp.dim.N → q ≠ n → (q = 0 ∨ t.dad q ≠ n) → s2.ux q = s.ux q := by
    intro q hq hqn hd
    rw [hKs.uxo q (hkidd q hq hd), hH.uxo q hqn]
  have hn_x : ∀ i, t.qp.dim.nu n ≤ i → n ≠ 0 → s2.ux n i = s.ux n i := by
    intro i hi h0
    rw [hKs.uxo n hnk, hH.uxr i (by unfold tkN; rw [if_pos (by omega)]; exact hi)]
  refine ⟨(hs.fr.trans hH.fr).trans hKs.fr, fun k i hi => ?_, fun k hk i hi => ?_, fun k hk hkN hd => ?_, fun k hk j hj => ?_,
    fun e he hd a ha => ?_, fun hdu e he hd a ha => ?_⟩
  · rw [hKs.uxr k i (Or.inr hi)]
    by_cases hkn : k = n
    · subst hkn
      rw [hH.uxr i (by unfold tkN; split_ifs <;> omega)]; exact hs.uxs k i hi
    · rw [hH.uxo k hkn]; exact hs.uxs k i hi
  · rw [hKs.uxr k i (Or.inl hi), hH.uxo k (by omega)]
    exact hs.pre k (by omega) i hi
  · rw [hkeep k hkN (by omega) (by rcases hd with h | h; exacts [Or.inl h, Or.inr (by omega)])]
    exact hs.pre2 k (by omega) hkN (by rcases hd with h | h; exacts [Or.inl h, Or.inr (by omega)])
  · by_cases hkn : k = n
    · subst hkn
      rw [hKs.uxo k hnk]
      have := hH.solve j hj
      rw [hs.fr.L] at this
      exact this
    · rw [hold k (by omega)]
      exact hs.solve k (by omega) j hj
  · by_cases hdn : t.dad (e + 1) = n
    · obtain ⟨h1, jj, hjj, hkj⟩ := ht.all (e + 1) (by omega) (by omega)
      rw [hdn] at hjj hkj h1 ⊢
      have := hKs.dyn jj hjj a (by rw [hkj]; exact ha)
      rw [hkj, Nat.add_sub_cancel] at this
      rw [this, hKs.uxo n hnk]
    · have h1 := (ht.all (e + 1) (by omega) (by omega)).1
      rw [hold (t.dad (e + 1)) (by omega)]
      have hx : s2.ux (e + 1) (t.qp.dim.nu (e + 1) + a) = s.ux (e + 1) (t.qp.dim.nu (e + 1) + a) := by
        by_cases hen : e + 1 = n
        · rw [hen]; exact hn_x _ (by omega) (by omega)
        · rw [hkeep (e + 1) (by omega) hen (Or.inr hdn)]
      rw [hx]
      exact hs.dyn e he (by omega) a ha
  · by_cases hdn : t.dad (e + 1) = n
    · obtain ⟨h1, jj, hjj, hkj⟩ := ht.all (e + 1) (by omega) (by omega)
      rw [hdn] at hjj hkj h1
      have := hKs.pi hdu jj hjj a (by rw [hkj]; exact ha)
      rw [hkj, Nat.add_sub_cancel] at this
      exact this
    · have h1 := (ht.all (e + 1) (by omega) (by omega)).1
      have hx : ∀ a, s2.ux (e + 1) (t.qp.dim.nu (e + 1) + a) = s.ux (e + 1) (t.qp.dim.nu (e + 1) + a) := by
        intro a
        by_cases hen : e + 1 = n
        · rw [hen]; exact hn_x _ (by omega) (by omega)
        · rw [hkeep (e + 1) (by omega) hen (Or.inr hdn)]
      have hp : s2.pi e = s.pi e := by
        rw [hKs.pio e (fun jj hjj he2 => by
          have := (ht.kid n jj hnN hjj).1
          exact hkidd (e + 1) (by omega) (Or.inr hdn) jj hjj (by omega)), hH.pi]
      rw [hp]
      simp only [hx]
      exact hs.pi hdu e he (by omega) a ha

/-- stationarity and dynamics of the condensed problem -/
structure TSolves (t : TreeQp K) (dr : ℕ → ℕ → K) (reg : K) (G g : ℕ → Vec K) (v : ℕ → Vec K) (pi : ℕ → Vec K) : Prop where
  stat : ∀ k i, k ≤ t.qp.dim.N → i < t.qp.dim.nu k + t.qp.dim.nx k →
    ∑ j ∈ range (t.qp.dim.nu k + t.qp.dim.nx k), kH t.qp dr reg G k i j * v k j + kg t.qp reg G g k i
    + ∑ jj ∈ range (t.nkids k), ∑ a ∈ range (t.qp.dim.nx (t.kids k jj)), t.qp.BAbt (t.kids k jj - 1) i a * pi (t.kids k jj - 1) a
    - (if 0 < k ∧ t.qp.dim.nu k ≤ i then pi (k - 1) (i - t.qp.dim.nu k) else 0) = 0
  dyn : ∀ e, e < t.qp.dim.N → ∀ a, a < t.qp.dim.nx (e + 1) → v (e + 1) (t.qp.dim.nu (e + 1) + a) =
    (∑ j ∈ range (t.qp.dim.nu (t.dad (e + 1)) + t.qp.dim.nx (t.dad (e + 1))), t.qp.BAbt e j a * v (t.dad (e + 1)) j) + t.qp.b e a

theorem tsolves (t : TreeQp K) (ht : t.TreeOk) (dr : ℕ → ℕ → K) (reg : K) (G g : ℕ → Vec K) (ell : ℕ → Vec K) (P : ℕ → Mat K)
    (p : ℕ → Vec K) (st0 st : KktSt K) (hP : ∀ c i j, P c i j = P c j i) (hF : TFDone t true ell P p st0 st)
    (hric : ∀ k, 0 < k → k ≤ t.qp.dim.N → RicStage (t.qp.dim.nu k) (t.qp.dim.nx k) (tM t dr reg G P k) (tm t reg G g P p k)
      (st0.L k) (ell k) (P k) (p k))
    (hroot : RicStage (t.qp.dim.nu 0 + t.qp.dim.nx 0) 0 (tM t dr reg G P 0) (tm t reg G g P p 0) (st0.L 0) (ell 0) (fun _ _ => 0) (fun _ => 0)) :
    TSolves t dr reg G g st.ux st.pi := by
  refine ⟨fun k i hk hi => ?_, hF.dyn⟩
  -- contribution of the kids
  have hkids : ∀ i, ∑ j ∈ range (t.qp.dim.nu k + t.qp.dim.nx k), tM t dr reg G P k i j * st.ux k j + tm t reg G g P p k i =
      ∑ j ∈ range (t.qp.dim.nu k + t.qp.dim.nx k), kH t.qp dr reg G k i j * st.ux k j + kg t.qp reg G g k i
      + ∑ jj ∈ range (t.nkids k), ∑ a ∈ range (t.qp.dim.nx (t.kids k jj)), t.qp.BAbt (t.kids k jj - 1) i a * st.pi (t.kids k jj - 1) a := by
    intro i
    have e1 : ∀ jj, jj < t.nkids k →
        ∑ a ∈ range (t.qp.dim.nx (t.kids k jj)), t.qp.BAbt (t.kids k jj - 1) i a * st.pi (t.kids k jj - 1) a =
        ∑ j ∈ range (t.qp.dim.nu k + t.qp.dim.nx k), kidM t P (t.kids k jj) i j * st.ux k j + kidm t P p (t.kids k jj) i := by
      intro jj hjj
      obtain ⟨g1, g2, g3⟩ := ht.kid k jj hk hjj
      obtain ⟨e, he⟩ : ∃ e, t.kids k jj = e + 1 := ⟨t.kids k jj - 1, by omega⟩
      have hpi := hF.pi rfl e (by omega)
      have hdy := hF.dyn e (by omega)
      rw [he] at g3
      rw [g3] at hdy
      simp only [kidM, kidm, he, Nat.add_sub_cancel]
      have e2 : ∀ a, a < t.qp.dim.nx (e + 1) → t.qp.BAbt e i a * st.pi e a =
          (∑ d ∈ range (t.qp.dim.nx (e + 1)), ∑ j ∈ range (t.qp.dim.nu k + t.qp.dim.nx k),
            t.qp.BAbt e i a * P (e + 1) a d * t.qp.BAbt e j d * st.ux k j)
          + t.qp.BAbt e i a * (∑ d ∈ range (t.qp.dim.nx (e + 1)), P (e + 1) a d * t.qp.b e d + p (e + 1) a) := by
        intro a ha
        rw [hpi a ha]
        have e3 : ∑ d ∈ range (t.qp.dim.nx (e + 1)), P (e + 1) a d * st.ux (e + 1) (t.qp.dim.nu (e + 1) + d) =
            (∑ d ∈ range (t.qp.dim.nx (e + 1)), ∑ j ∈ range (t.qp.dim.nu k + t.qp.dim.nx k), P (e + 1) a d * t.qp.BAbt e j d * st.ux k j)
            + ∑ d ∈ range (t.qp.dim.nx (e + 1)), P (e + 1) a d * t.qp.b e d := by
          rw [← sum_add_distrib]
          apply sum_congr rfl
          intro d hd
          rw [hdy d (mem_range.mp hd), mul_add, mul_sum]
          congr 1
          exact sum_congr rfl (fun j _ => by ring)
        rw [e3, add_assoc, mul_add, mul_sum]
        congr 1
        apply sum_congr rfl
        intro d _
        rw [mul_sum]
        exact sum_congr rfl (fun j _ => by ring)
      rw [sum_congr rfl (fun a ha => e2 a (mem_range.mp ha)), sum_add_distrib]
      congr 1
      simp only [sum_mul]
      rw [sum_comm' (s := range (t.qp.dim.nu k + t.qp.dim.nx k)) (t := fun _ => range (t.qp.dim.nx (e + 1)))
        (t' := range (t.qp.dim.nx (e + 1))) (s' := fun _ => range (t.qp.dim.nu k + t.qp.dim.nx k)) (by simp [and_comm])]
      apply sum_congr rfl
      intro a _
      rw [sum_comm]
    rw [sum_congr rfl (fun jj hjj => e1 jj (mem_range.mp hjj)), sum_add_distrib]
    simp only [tM, tm, add_mul, sum_add_distrib, sum_mul]
    rw [sum_comm (s := range (t.nkids k))]
    ring
  have hsym : ∀ i j, tM t dr reg G P k i j = tM t dr reg G P k j i := tM_sym t dr reg G P hP k
  have hsol := hF.solve k hk
  by_cases h0 : k = 0
  · subst h0
    have hsol' : ∀ j, j < t.qp.dim.nu 0 + t.qp.dim.nx 0 →
        ∑ i ∈ range (t.qp.dim.nu 0 + t.qp.dim.nx 0 + 0), low (st0.L 0) i j * st.ux 0 i = - ell 0 j := fun j hj =>
      hsol j (by unfold tkN; rw [if_neg (by omega)]; exact hj)
    have := (ric_forward hroot (fun i j _ _ => hsym i j) (st.ux 0) hsol').1 i hi
    rw [add_zero] at this
    rw [if_neg (by omega), ← hkids, this]; ring
  · have hsol' : ∀ j, j < t.qp.dim.nu k →
        ∑ i ∈ range (t.qp.dim.nu k + t.qp.dim.nx k), low (st0.L k) i j * st.ux k i = - ell k j := fun j hj =>
      hsol j (by unfold tkN; rw [if_pos (by omega)]; exact hj)
    have hf := ric_forward (hric k (by omega) hk) (fun i j _ _ => hsym i j) (st.ux k) hsol'
    by_cases hiu : i < t.qp.dim.nu k
    · rw [if_neg (by omega), ← hkids, hf.1 i hiu]; ring
    · obtain ⟨q, rfl⟩ : ∃ q, i = t.qp.dim.nu k + q := ⟨i - t.qp.dim.nu k, by omega⟩
      rw [if_pos (by omega), ← hkids, hf.2 q (by omega), Nat.add_sub_cancel_left]
      obtain ⟨e, rfl⟩ : ∃ e, k = e + 1 := ⟨k - 1, by omega⟩
      rw [Nat.add_sub_cancel, hF.pi rfl e (by omega) q (by omega)]
      ring

end
end Hpipm
