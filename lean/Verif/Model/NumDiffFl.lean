import Verif.Model.NumDiff
import Verif.Model.Solvers
/-!
# Numerical differentiation in floating point

`NumEval` (num_diff.h:54-126) and the functions made by `CreateNumDiffFunc1/2` (num_diff.h:197-221, 283-309) as used by `Optimizer_::Optimize`
(optimizer.h:168-182), with the operations of the scalar type. `Model/NumDiff` is the same code over the real numbers. The products `J^T res` and `J^T J` and the
norm are summed from left to right.
-/

namespace Verif
open FloatOps Loss

section
variable {F R W X : Type} [FloatOps F] {n m : Nat}

/-- a matrix of `m` rows and `n` columns -/
abbrev JMat (F : Type) (m n : Nat) := Fin m → Fin n → F

section
variable (plus : X → Vec F n → X) (f : X → Vec F m) (x : X) (method : Method) (h : F)

/-- one iteration of the loop of `NumEval`, num_diff.h:94-123: the vector `dx` and the Jacobian; `res` is the value at `x` -/
def numStepF (res : Vec F m) (s : Vec F n × JMat F m n) (r : Fin n) : Vec F n × JMat F m n :=
  let dx := fun i : Fin n => if i.val + 1 = r.val then ofInt 0 else s.1 i
  let dx := Function.update dx r h
  let y := plus x dx
  let resPlus := f y
  let setCol := fun (v : Vec F m) => fun (i : Fin m) (c : Fin n) => if c = r then v i else s.2 i c
  match method with
  | .central =>
    let dx := Function.update dx r (neg h)
    let resMinus := f (plus x dx)
    (dx, setCol fun i => div (sub (resPlus i) (resMinus i)) (mul (ofInt 2) h))
  | .fastCentral =>
    let dx := Function.update dx r (mul (ofInt (-2)) h)
    let resMinus := f (plus y dx)
    (dx, setCol fun i => div (sub (resPlus i) (resMinus i)) (mul (ofInt 2) h))
  | .forward => (dx, setCol fun i => div (sub (resPlus i) (res i)) h)

/-- `NumEval`, num_diff.h:54-126: the residuals and the Jacobian. `J0` are the (indeterminate) initial coefficients of the Jacobian. Not modelled, as in
Model/NumDiff: the forward method on residuals that are a matrix of several columns. -/
def numEvalF (J0 : JMat F m n) : Vec F m × JMat F m n :=
  let res := f x
  (res, ((List.finRange n).foldl (numStepF plus f x method h res) (fun _ => ofInt 0, J0)).2)

end

/-- `params_trait<Matrix>::PlusEq` on `n` coefficients, traits.h:184-190 (vectors and matrices) -/
def vplusF (x d : Vec F n) : Vec F n := fun i => add (x i) (d i)

/-- `J.transpose() * res`, num_diff.h:207, 293 -/
def numGradF (J : JMat F m n) (res : Vec F m) : Vec F n := fun r => sumF fun i => mul (J i r) (res i)

/-- `J.transpose() * J`, num_diff.h:294 -/
def numHessF (J : JMat F m n) : Mat F n := fun r c => sumF fun i => mul (J i r) (J i c)

/-- `Cost(res.matrix().norm(), res.size())`, num_diff.h:216, 305 -/
def numCostF (ratio1 : R) (res : Vec F m) : Cost F R := { cost := sqrt (sqNorm res), num := m, inlier := ratio1 }

/-- The problem solved by `Optimizer_::Optimize` on a function of vectors without derivatives, optimizer.h:168-182 with num_diff.h:283-309 (and, ignoring the
Hessian, 197-221): method and step are the default arguments `Method::kCentral` and `FloatEpsilon<Scalar>()`. The gradient and the Hessian are
assigned, not added. -/
def numDiffProb (f : Vec F n → Vec F m) (J0 : JMat F m n) (ratio1 : R) (clock : W → F × W) (alloc : W → (k : Nat) → Option (Vec F k × Mat F k) × W) :
    Problem F R W (Vec F n) where
  acc :=
    { full := fun w x k g H =>
        let res := f x
        let J := (numEvalF vplusF f x .central eps J0).2
        ((numCostF ratio1 res, (fun i => if h : i.1 < n then numGradF J res ⟨i.1, h⟩ else g i),
          (fun i j => if h : i.1 < n ∧ j.1 < n then numHessF J ⟨i.1, h.1⟩ ⟨j.1, h.2⟩ else H i j)), w)
      eval := fun w x => (numCostF ratio1 (f x), w) }
  dims := some n
  dynDims := fun _ => n
  plusEq := fun x d => fun i => if h : i.1 < d.n then add (x i) (d.v ⟨i.1, h⟩) else x i
  clock := clock
  alloc := alloc
  ratio1 := ratio1

end
end Verif
