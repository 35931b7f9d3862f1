import Verif.Model.Losses
/-!
# Numerical differentiation and gradient check, in exact arithmetic

`include/tinyopt/diff/num_diff.h` and `include/tinyopt/diff/gradient_check.h`, over the real numbers. The parameters are of any type `X`, with the
update `plus` (`params_trait<X>::PlusEq`, on a copy) of `n` dimensions; the residuals are `m` numbers (a matrix is read column by column,
`reshaped()`).
-/

namespace Verif
namespace Loss

open Matrix

/-- `diff::Method`, num_diff.h:20-52 -/
inductive Method
  | forward | central | fastCentral
deriving DecidableEq

/-- the state of the loop of `NumEval`: the vector `dx`, the Jacobian, and (not in the code) the points at which the function was called -/
structure NumState (X : Type*) (m n : Nat) where
  dx : RVec n
  J : RMat m n
  calls : List X

section
variable {X : Type*} {n m : Nat} (plus : X → RVec n → X) (f : X → RVec m) (x : X) (method : Method) (h : ℝ)

/-- `J.col(r) = v` -/
def setCol (J : RMat m n) (r : Fin n) (v : RVec m) : RMat m n := fun i c => if c = r then v i else J i c

/-- one iteration of the loop of `NumEval`, num_diff.h:94-123; `res` is the value at `x` -/
noncomputable def numStep (res : RVec m) (s : NumState X m n) (r : Fin n) : NumState X m n :=
  let dx := fun i : Fin n => if i.val + 1 = r.val then 0 else s.dx i
  let dx := Function.update dx r h
  let y := plus x dx
  let resPlus := f y
  match method with
  | .central =>
    let dx := Function.update dx r (-h)
    let y' := plus x dx
    let resMinus := f y'
    { dx := dx, J := setCol s.J r fun i => (resPlus i - resMinus i) / (2 * h), calls := s.calls ++ [y, y'] }
  | .fastCentral =>
    let dx := Function.update dx r (-2 * h)
    let y' := plus y dx
    let resMinus := f y'
    { dx := dx, J := setCol s.J r fun i => (resPlus i - resMinus i) / (2 * h), calls := s.calls ++ [y, y'] }
  | .forward =>
    { dx := dx, J := setCol s.J r fun i => (resPlus i - res i) / h, calls := s.calls ++ [y] }

/-- `NumEval`, num_diff.h:56-126: the residuals, the Jacobian and the points at which the function was called. `J0` are the (indeterminate)
initial coefficients of the Jacobian. Not modelled: the forward method on residuals that are a matrix of several columns, for which
`res_plus.reshaped() - res` (num_diff.h:121) subtracts matrices of different shapes. -/
noncomputable def numEval (J0 : RMat m n) : RVec m × RMat m n × List X :=
  let res := f x
  let s := (List.finRange n).foldl (numStep plus f x method h res) { dx := 0, J := J0, calls := [x] }
  (res, s.J, s.calls)

/-- `EstimateNumJac`, num_diff.h:130-137 -/
noncomputable def estimateNumJac (J0 : RMat m n) : RMat m n := (numEval plus f x method h J0).2.1

/-- the function made by `CreateNumDiffFunc2`, num_diff.h:283-309, for vector residuals: cost, gradient and Hessian -/
noncomputable def numDiffAcc2 (J0 : RMat m n) : ℝ × RVec n × RMat n n :=
  let res := f x
  let J := estimateNumJac plus f x method h J0
  (l2 res, Jᵀ *ᵥ res, Jᵀ * J)

/-- the function made by `CreateNumDiffFunc1`, num_diff.h:197-221, for vector residuals: cost and gradient -/
noncomputable def numDiffAcc1 (J0 : RMat m n) : ℝ × RVec n :=
  let res := f x
  let J := estimateNumJac plus f x method h J0
  (l2 res, Jᵀ *ᵥ res)

end

/-- the function made by `CreateNumDiffFunc1`, num_diff.h:197-221, for a scalar function: cost and gradient -/
noncomputable def numDiffAcc1S {X : Type*} {n : Nat} (plus : X → RVec n → X) (f : X → ℝ) (x : X) (method : Method) (h : ℝ) (J0 : RMat 1 n) :
    ℝ × RVec n :=
  let res := f x
  let J := estimateNumJac plus (fun y _ => f y) x method h J0
  (|res|, fun i => J 0 i * res)

/-- `CheckGradient`, gradient_check.h:50-103: `f` is the value returned by the user's function (num. differentiated with the step `eps / 10`), `grad` the
gradient it fills in at `x`. On zero dimensions `maxCoeff` fails an assertion. -/
noncomputable def checkGradient {X : Type*} {n : Nat} (plus : X → RVec (n + 1) → X) (f : X → ℝ) (grad : RVec (n + 1)) (x : X) (eps : ℝ) (method : Method)
    (J0 : RMat 1 (n + 1)) : Prop :=
  let gradNum : RVec (n + 1) := fun i => estimateNumJac plus (fun y _ => f y) x method (eps / 10) J0 0 i
  let maxDist := maxCoeff fun i => |gradNum i - grad i|
  maxDist < eps

/-- `CheckResidualsGradient`, gradient_check.h:143-220, for a user's function with a Hessian: `res` are the residuals it returns, `grad` and `H` what it fills in at
`x`. It is assumed that it leaves `H` alone when the gradient is not requested (the lambda of gradient_check.h:195-198 passes the same `H`). A sparse Hessian is
compared by `MaxAbsDiff` instead of the maximum over the coefficients (see C33). -/
noncomputable def checkResidualsGradient {X : Type*} {n m : Nat} (plus : X → RVec (n + 1) → X) (res : X → RVec m) (grad : RVec (n + 1)) (H : RMat (n + 1) (n + 1))
    (x : X) (eps : ℝ) (method : Method) (checkH downscale : Bool) (J0 : RMat 1 (n + 1)) (J1 : RMat m (n + 1)) : Prop :=
  let s : ℝ := if downscale then 0.5 else 1.0
  checkGradient plus (fun y => s * sqL2 (res y)) grad x eps method J0 ∧
  if checkH then
    let J := estimateNumJac plus res x method (eps / 10) J1
    let Hnum := Jᵀ * J
    let maxDist := maxCoeff fun i => maxCoeff fun j => |Hnum i j - H i j|
    maxDist < eps
  else True

end Loss
end Verif
