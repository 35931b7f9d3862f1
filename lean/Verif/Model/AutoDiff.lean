import Verif.Model.Jet
import Verif.Model.NumDiff
/-!
# Optimization with automatic differentiation

`include/tinyopt/diff/optimize_autodiff.h`, in exact arithmetic, for a compile-time dimension of the parameters: the accumulation function made
from the user's function of jets (an `Expr`). The parameters are a vector (or a scalar, `n = 1`); for user-defined types the variables of the expressions are
the coordinates of the increment `dx_jet`, at 0.
-/

namespace Verif
namespace Loss

open Matrix

/-- the accumulation for one residual, optimize_autodiff.h:103-116: cost, gradient and Hessian. For a scalar parameter (lines 107-108) these are the same
formulas with `n = 1`. -/
noncomputable def accScalar {n} (isNLLS : Bool) (e : Expr n) (x : RVec n) : Option (ℝ × RVec n × RMat n n) :=
  match e.jet x with
  | .ok res =>
    let J := res.v
    let grad : RVec n := fun i => J i * res.a
    let H : RMat n n := fun i j => J i * J j
    some (if isNLLS then res.a * res.a else res.a, grad, H)
  | _ => none

/-- the accumulation for several residuals, optimize_autodiff.h:117-161: cost, number of residuals, gradient and Hessian -/
noncomputable def accVector {n m} (e : Fin m → Expr n) (x : RVec n) : Option (ℝ × Nat × RVec n × RMat n n) :=
  match evalJac e x with
  | some (res, J) => some (sqL2 res, m, Jᵀ *ᵥ res, Jᵀ * J)
  | none => none

end Loss
end Verif
