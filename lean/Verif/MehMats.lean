/-
The KKT routines of the OCP solver read the Hessian and dynamics matrices from the memory they share with the QP
(`KktSt.RSQrq`, `KktSt.BAbt`), never from the matrix fields of the QP argument.
-/
import Verif.IpmContractRun
import Verif.KktConv

namespace Hpipm
open Finset

section
variable {K : Type*} [Field K] [LinearOrder K] [IsStrictOrderedRing K]

/-- the QP with other contents of the matrices `BAbt` and `RSQrq` -/
def OcpQp.mats (q : OcpQp K) (B R : ℕ → Mat K) : OcpQp K :=
  { q with
    BAbt := B
    RSQrq := R }

variable (q : OcpQp K) (B R : ℕ → Mat K)

theorem mats_rhsStage (G g : ℕ → Vec K) (k : ℕ) (st : KktSt K) : rhsStage (q.mats B R) G g k st = rhsStage q G g k st := rfl
theorem mats_bwdSub (sqr useP : Bool) (G g : ℕ → Vec K) (n k : ℕ) (st : KktSt K) :
    bwdSub (q.mats B R) sqr useP G g n k st = bwdSub q sqr useP G g n k st := rfl
theorem mats_fwdSub (dual sqr : Bool) (n k : ℕ) (st : KktSt K) : fwdSub (q.mats B R) dual sqr n k st = fwdSub q dual sqr n k st := rfl
theorem mats_fwdSubLast (st : KktSt K) : fwdSubLast (q.mats B R) st = fwdSubLast q st := rfl
theorem mats_kktTail (G : ℕ → Vec K) (c : Core K) (st : KktSt K) : kktTail (q.mats B R) G c st = kktTail q G c st := rfl
theorem mats_sqLast (sq : K → K) (reg preg : K) (G g : ℕ → Vec K) (st : KktSt K) :
    sqLast sq (q.mats B R) reg preg G g st = sqLast sq q reg preg G g st := rfl
theorem mats_sqMid (sq : K → K) (reg preg : K) (G g : ℕ → Vec K) (k : ℕ) (st : KktSt K) :
    sqMid sq (q.mats B R) reg preg G g k st = sqMid sq q reg preg G g k st := rfl
theorem mats_clLast (sq : K → K) (reg preg : K) (G g : ℕ → Vec K) (st : KktSt K) :
    clLast sq (q.mats B R) reg preg G g st = clLast sq q reg preg G g st := rfl
theorem mats_clProp (k : ℕ) (st : KktSt K) : clProp (q.mats B R) k st = clProp q k st := rfl
theorem mats_augStage (reg : K) (dr : Mat K → Mat K) (G g : ℕ → Vec K) (k : ℕ) (st : KktSt K) :
    augStage (q.mats B R) reg dr G g k st = augStage q reg dr G g k st := rfl
theorem mats_dim : (q.mats B R).dim = q.dim := rfl
theorem mats_DCt : (q.mats B R).DCt = q.DCt := rfl
theorem mats_clAug (reg : K) (dr : Mat K → Mat K) (G g : ℕ → Vec K) (k : ℕ) (st : KktSt K) :
    clAug (q.mats B R) reg dr G g k st = clAug q reg dr G g k st := by
  unfold clAug
  rw [mats_augStage]
  generalize augStage q reg dr G g k st = w
  rfl
theorem mats_clMid (sq : K → K) (reg preg : K) (G g : ℕ → Vec K) (k : ℕ) (st : KktSt K) :
    clMid sq (q.mats B R) reg preg G g k st = clMid sq q reg preg G g k st := by
  simp only [clMid, mats_clAug, mats_clProp, mats_dim]
theorem mats_clFirst (sq : K → K) (reg preg : K) (G g : ℕ → Vec K) (k : ℕ) (st : KktSt K) :
    clFirst sq (q.mats B R) reg preg G g k st = clFirst sq q reg preg G g k st := by
  simp only [clFirst, mats_clAug, mats_clProp, mats_dim]
theorem mats_sqFwd (dual : Bool) (n k : ℕ) (st : KktSt K) : sqFwd (q.mats B R) dual n k st = sqFwd q dual n k st := rfl
theorem mats_clFwd (dual : Bool) (n k : ℕ) (st : KktSt K) : clFwd (q.mats B R) dual n k st = clFwd q dual n k st := rfl
theorem mats_fwdLast (st : KktSt K) : fwdLast (q.mats B R) st = fwdLast q st := rfl
theorem mats_d : (q.mats B R).d = q.d := rfl
theorem mats_m : (q.mats B R).m = q.m := rfl

theorem mats_sqBack (sq : K → K) (reg preg : K) (G g : ℕ → Vec K) (st : KktSt K) :
    sqBack sq (q.mats B R) reg preg G g st = sqBack sq q reg preg G g st := by
  simp only [sqBack, mats_sqLast, mats_sqMid, mats_dim]

theorem mats_clBack (sq : K → K) (reg preg : K) (G g : ℕ → Vec K) (st : KktSt K) :
    clBack sq (q.mats B R) reg preg G g st = clBack sq q reg preg G g st := by
  simp only [clBack, mats_clLast, mats_clMid, mats_clFirst, mats_dim]

theorem mats_fwd (dual sqr : Bool) (st : KktSt K) : fwd (q.mats B R) dual sqr st = fwd q dual sqr st := by
  simp only [fwd, mats_sqFwd, mats_clFwd, mats_fwdLast, mats_dim]

theorem mats_kktMain (sq : K → K) (reg pl : K) (G g : ℕ → Vec K) : ∀ (fuel : ℕ) (preg : K) (init sqr : Bool) (st : KktSt K),
    kktMain sq (q.mats B R) reg pl G g fuel preg init sqr st = kktMain sq q reg pl G g fuel preg init sqr st := by
  intro fuel
  induction fuel with
  | zero =>
    intro preg init sqr st
    unfold kktMain
    simp only [mats_sqBack, mats_clBack]
  | succ n ih =>
    intro preg init sqr st
    unfold kktMain
    simp only [mats_sqBack, mats_clBack, ih]

theorem mats_factSolve (sq : K → K) (fuel : ℕ) (dual sqr : Bool) (reg pl : K) (c : Core K) (st : KktSt K) :
    factSolveKktStep sq fuel (q.mats B R) dual sqr reg pl c st = factSolveKktStep sq fuel q dual sqr reg pl c st := by
  simp only [factSolveKktStep, mats_kktMain, mats_fwd, mats_kktTail, mats_dim, mats_d, mats_m]

theorem mats_solveKkt (dual sqr useP : Bool) (c : Core K) (st : KktSt K) :
    solveKktStep (q.mats B R) dual sqr useP c st = solveKktStep q dual sqr useP c st := by
  simp only [solveKktStep, mats_rhsStage, mats_bwdSub, mats_fwdSub, mats_fwdSubLast, mats_kktTail, mats_dim, mats_d, mats_m]

end
end Hpipm
