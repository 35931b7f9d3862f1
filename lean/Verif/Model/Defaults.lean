import Verif.Model.Solvers
import Verif.Model.Dispatch
import Verif.Num.Ieee
/-!
# The default options (optimizers/options.h)

`lit` turns a decimal literal of the source into a value of the arithmetic of the model.
-/

namespace Verif

/-- a literal with the suffix `f`, converted to `double`: the nearest `float`, which is a `double` -/
def litD (q : ℚ) : Fl Fmt.binary64 := Fl.mk (Fmt.binary32.rnd q)

section
variable {F W V : Type}

/-- The defaults of the part of `Options` read by the optimizer: options.h:43, 46, 66, 89-106. -/
def defaultOptions (lit : ℚ → F) : Options F W V where
  checkFinalCost := false
  useStepQuality := false
  saveLast := true
  maxIters := 50
  minError := lit (1 / 10 ^ 12)
  minRerrDec := lit (1 / 10 ^ 10)
  minStepNorm2 := lit (1 / 10 ^ 14)
  minGradNorm2 := lit (1 / 10 ^ 18)
  maxTotalFailures := 0
  maxConsecFailures := 5
  maxDurationMs := lit 0
  stopCallback := none
  stopCallback2 := none

/-- The defaults of the part of `Options` read by the solvers: options.h:49, 58-64, 75-80, 133-139, 148.
`1.0f / 3.0f` is a division of `float`s, hence the `float` nearest to one third. -/
def defaultSolverOpts (lit : ℚ → F) : SolverOpts F where
  useSquaredNorm := true
  downscaleBy2 := false
  normalize := false
  gradClip := lit 0
  useLdlt := true
  hIsFull := true
  checkMinHDiag := lit 0
  dampInit := lit (1 / 10 ^ 4)
  dampLo := lit (1 / 10 ^ 9)
  dampHi := lit (10 ^ 9)
  goodFactor := lit (1 / 3)
  badFactor := lit 2
  lr := lit (1 / 1000)

end

/-- the default of `solver_type`, options.h:30, 33 -/
def defaultSolverType : SolverType := .lm

end Verif
