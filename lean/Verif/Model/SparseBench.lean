import Verif.Model.Sparse
import Mathlib.Analysis.SpecialFunctions.Pow.NNReal
import Verif.Model.Losses
/-!
# The cost function of the benchmark "Sparse", benchmarks/sparse.cpp:23-50
-/

namespace Verif.SparseBench
open FloatOps Loss

variable {n : Nat}

/-- `res = 10 * x.array() - 2`, benchmarks/sparse.cpp:24 -/
noncomputable def res (x : RVec n) : RVec n := fun i => 10 * x i - 2

/-- `J(i, i) = 10` in a zero matrix, benchmarks/sparse.cpp:27-28 -/
noncomputable def jac (n : Nat) : Fin n → Fin n → ℝ := fun i j => if i = j then 10 else 0

/-- `grad = J.transpose() * res`, benchmarks/sparse.cpp:30 -/
noncomputable def grad (x : RVec n) : RVec n := fun i => ∑ k, jac n k i * res x k

/-- `J.transpose() * J` -/
noncomputable def gramOf (J : Fin n → Fin n → ℝ) : Mat ℝ n := fun i j => ∑ k, J k i * J k j

/-- the first way to update `H`: `H.coeffRef(i, i) = 10 * 10`, benchmarks/sparse.cpp:33-34 (disabled) -/
noncomputable def hess1 (H : SpSq ℝ n) : SpSq ℝ n := H.updateDiag fun _ => 10 * 10

/-- the second way: `H.setFromTriplets`, benchmarks/sparse.cpp:36-39 (disabled): the old entries are dropped, the values of each position are summed up -/
noncomputable def hess2 (_ : SpSq ℝ n) : SpSq ℝ n := (SpSq.zero n).updateDiag fun v => v + 10 * 10

/-- the third way: `H = (J.transpose() * J).sparseView()`, benchmarks/sparse.cpp:41 (disabled) -/
noncomputable def hess3 (_ : SpSq ℝ n) : SpSq ℝ n := SpSq.ofDense (gramOf (jac n))

/-- the last way, the one that is compiled: `Js.coeffRef(i, i) = 10`, `H = Js.transpose() * Js`, benchmarks/sparse.cpp:43-45. Simplified: the product stores the coefficients that are not zero. -/
noncomputable def hess4 (_ : SpSq ℝ n) : SpSq ℝ n := SpSq.ofDense (gramOf ((SpSq.zero n).updateDiag fun _ => (10 : ℝ)).dense)

/-- `Cost(res.norm(), res.size())`, benchmarks/sparse.cpp:49: the norm, not its square -/
noncomputable def cost (x : RVec n) : ℝ := √(∑ i, res x i * res x i)

end Verif.SparseBench
