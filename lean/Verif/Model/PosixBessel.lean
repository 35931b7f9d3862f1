import Verif.Model.NestedJet
/-!
# The Bessel functions of jets with the functions of POSIX

The branch of jet.h:910-992 for compilers without the Bessel functions of C++17 (`CERES_HAS_POSIX_BESSEL_FUNCTIONS`). The other branch is `Op1.bessel` of `Model/Jet`. The templates apply to jets
of jets as well (see `Model/NestedJet`, also for the conversion `T(0.5)`).
-/

namespace Verif
namespace Loss

/-- the series of the Bessel function of the first kind of a natural order -/
noncomputable def seriesJ (n : ℕ) (x : ℝ) : ℝ := ∑' k : ℕ, (-1) ^ k / ((k.factorial : ℝ) * ((k + n).factorial : ℝ)) * (x / 2) ^ (2 * k + n)

/-- `jn(n, x)` of POSIX in exact arithmetic, for all orders and all arguments: `J_{-n} = (-1)^n J_n` -/
noncomputable def posixJ (n : ℤ) (x : ℝ) : ℝ := if 0 ≤ n then seriesJ n.toNat x else (-1) ^ n.natAbs * seriesJ n.natAbs x

/-- `BesselJ0`, `BesselJ1` and `BesselJn(n, ·)` -/
inductive BFun
  | j0 | j1 | jn (n : ℤ)

/-- `int`, 32 bits; the result of an addition or subtraction that leaves the range is undefined -/
def toInt (n : ℤ) : Option ℤ := if -2 ^ 31 ≤ n ∧ n < 2 ^ 31 then some n else none

/-- `BesselJ0`, `BesselJ1`, `BesselJn` of numbers (jet.h:919-947) and of jets, jets of jets and so on (jet.h:956-989). `none`: `n - 1` or `n + 1` overflows. -/
noncomputable def besselPosix {N : Nat} : (k : Nat) → BFun → Tower N k → Option (Tower N k)
  | 0, .j0, (x : ℝ) => some (posixJ 0 x : ℝ)
  | 0, .j1, (x : ℝ) => some (posixJ 1 x : ℝ)
  | 0, .jn n, (x : ℝ) => some (posixJ n x : ℝ)
  /- jet.h:958-964 -/
  | k + 1, .j0, (f : NJet (Tower N k) N) => do
    let a ← besselPosix k .j0 f.a
    let b ← besselPosix k .j1 f.a
    let d : Tower N k := JOps.neg b
    return (⟨a, fun i => JOps.mul d (f.v i)⟩ : NJet (Tower N k) N)
  /- jet.h:969-976 -/
  | k + 1, .j1, (f : NJet (Tower N k) N) => do
    let a ← besselPosix k .j1 f.a
    let b ← besselPosix k .j0 f.a
    let c ← besselPosix k (.jn 2) f.a
    let d : Tower N k := JOps.mul (JOps.const 0.5) (JOps.sub b c)
    return (⟨a, fun i => JOps.mul d (f.v i)⟩ : NJet (Tower N k) N)
  /- jet.h:981-989 -/
  | k + 1, .jn n, (f : NJet (Tower N k) N) => do
    let a ← besselPosix k (.jn n) f.a
    let down ← toInt (n - 1)
    let b ← besselPosix k (.jn down) f.a
    let up ← toInt (n + 1)
    let c ← besselPosix k (.jn up) f.a
    let d : Tower N k := JOps.mul (JOps.const 0.5) (JOps.sub b c)
    return (⟨a, fun i => JOps.mul d (f.v i)⟩ : NJet (Tower N k) N)

end Loss
end Verif
