import Verif.Model.Dispatch
/-!
# C48: choice of the solver
-/

namespace Verif

/-- a cost or residual function of `x` alone -/
def Signature.IsCost (s : Signature) : Prop := s.unary.isSome = true

/-- an accumulation function that fills the gradient, and that can neither fill a Hessian nor be called
with `x` alone -/
def Signature.IsGradientOnly (s : Signature) : Prop :=
  s.gradOnly = true ∧ s.unary = none ∧ s.denseH = false ∧ s.sparseH = false

/-- a function with one of the documented signatures, and only one (optimizer.h:110-124) -/
def Signature.Plain (s : Signature) : Prop :=
  (s.IsCost ∧ s.gradOnly = false ∧ s.denseH = false ∧ s.sparseH = false) ∨ s.IsGradientOnly ∨
  (s.unary = none ∧ s.gradOnly = false ∧ (s.denseH = true ∨ s.sparseH = true))

/-- **C48** (partial): for functions with one of the documented signatures, a second order solver runs exactly when it is requested and the
function is not gradient-only; Gradient Descent runs exactly when it is requested and the function is a
scalar cost function or gradient-only; in all other cases `invalid_argument` is thrown and `x` is
unchanged. The Hessian is sparse exactly if the function only accepts a sparse one.
Missing: functions with several overloads, see `C48_overloads`. -/
theorem C48_dispatch_partial {X O : Type} (run : Chosen → X → X × Res O) (t : SolverType) (s : Signature) (hs : s.Plain) (x : X) :
    (t = .lm ∧ ¬ s.IsGradientOnly ∧ ∃ d, optimizeTop run t s x = run (.lm d) x ∧ (d = false ↔ s.unary = none ∧ s.denseH = false)) ∨
    (t = .gn ∧ ¬ s.IsGradientOnly ∧ ∃ d, optimizeTop run t s x = run (.gn d) x ∧ (d = false ↔ s.unary = none ∧ s.denseH = false)) ∨
    (t = .gd ∧ (s.unary = some true ∨ s.IsGradientOnly) ∧ optimizeTop run t s x = run (.gd true) x) ∨
    (¬ ((t = .lm ∨ t = .gn) ∧ ¬ s.IsGradientOnly) ∧ ¬ (t = .gd ∧ (s.unary = some true ∨ s.IsGradientOnly)) ∧
      optimizeTop run t s x = (x, .throw)) := by
  obtain ⟨u, g, d, sp⟩ := s
  simp only [Signature.Plain, Signature.IsCost, Signature.IsGradientOnly] at hs ⊢
  cases t <;> rcases u with _ | (_ | _) <;> cases g <;> cases d <;> cases sp <;>
    simp_all [optimizeTop, choose, Signature.secondOrderValid, Signature.isDense]

/-- **C48 is violated** for overloaded functions: one that is callable both with `(x, grad)` and with `(x, grad, H)` is
rejected by the second order solvers although it is not gradient-only. -/
theorem C48_overloads {X O : Type} (run : Chosen → X → X × Res O) (x : X) :
    let s : Signature := { unary := none, gradOnly := true, denseH := true, sparseH := false }
    ¬ s.IsGradientOnly ∧ optimizeTop run .lm s x = (x, .throw) ∧ optimizeTop run .gn s x = (x, .throw) := by
  refine ⟨?_, rfl, rfl⟩
  rintro ⟨-, -, h, -⟩
  cases h

/-- For every signature: a second order solver is never run on a function callable with `(x, grad)`, Gradient Descent is
only run on scalar cost functions and on functions callable with `(x, grad)`, and whenever no solver is run, `x` is unchanged and
`invalid_argument` is thrown. -/
theorem C48_never_incompatible {X O : Type} (run : Chosen → X → X × Res O) (t : SolverType) (s : Signature) (x : X) :
    optimizeTop run t s x = (x, .throw) ∨
    (s.gradOnly = false ∧ ∃ d, (t = .lm ∧ optimizeTop run t s x = run (.lm d) x) ∨ (t = .gn ∧ optimizeTop run t s x = run (.gn d) x)) ∨
    (t = .gd ∧ (s.unary = some true ∨ (s.unary = none ∧ s.gradOnly = true)) ∧ optimizeTop run t s x = run (.gd true) x) := by
  obtain ⟨u, g, d, sp⟩ := s
  cases t <;> rcases u with _ | (_ | _) <;> cases g <;> cases d <;> cases sp <;>
    simp [optimizeTop, choose, Signature.secondOrderValid, Signature.isDense]

/-- an accumulation function with a sparse Hessian meets the hypotheses -/
example : Signature.Plain { unary := none, gradOnly := false, denseH := false, sparseH := true } := by
  simp [Signature.Plain]

end Verif
