import Verif.Model.Losses
import Mathlib.Data.Fin.VecNotation
import Mathlib.Analysis.SpecialFunctions.Exp
/-!
# The residuals of the test problems of tests/optimize_hard.cpp

Over the reals; the tests have `double` (and jets of it). The cost of a vector of residuals is the sum of their squares. Rosenbrock, Powell, the plateau and
Freudenstein-Roth are `rosen`, `powellF`, `plF` and `frF` (Props/DampingLimits, Props/TestDerivs).
-/

namespace Verif.Landscape
open Loss

/-- the cost of residuals without weights -/
def sq {n m : Nat} (r : RVec n → RVec m) (v : RVec n) : ℝ := ∑ i, r v i ^ 2

/-- tests/optimize_hard.cpp:38-45 -/
noncomputable def beale (v : RVec 2) : RVec 3 := ![3 / 2 - v 0 + v 0 * v 1, 9 / 4 - v 0 + v 0 * v 1 * v 1, 21 / 8 - v 0 + v 0 * v 1 ^ 3]

/-- tests/optimize_hard.cpp:77-84 -/
def himm (v : RVec 2) : RVec 2 := ![v 0 * v 0 + v 1 - 11, v 0 + v 1 * v 1 - 7]

/-- tests/optimize_hard.cpp:115-127 -/
noncomputable def wood (v : RVec 4) : RVec 6 :=
  ![100 * (v 1 - v 0 * v 0) ^ 2, (1 - v 0) ^ 2, 90 * (v 3 - v 2 * v 2) ^ 2, (1 - v 2) ^ 2, 10 * ((v 1 - 1) ^ 2 + (v 3 - 1) ^ 2), 99 / 5 * (v 1 - 1) * (v 3 - 1)]

/-- tests/optimize_hard.cpp:259-269; `i` counts from 0, `d_i` is `i + 1` -/
noncomputable def jennrich (v : RVec 2) : RVec 10 := fun i =>
  2 + 2 * ((i.1 : ℝ) + 1) - (Real.exp (((i.1 : ℝ) + 1) * v 0) + Real.exp (((i.1 : ℝ) + 1) * v 1))

end Verif.Landscape
