import Verif.Model.Losses
import Verif.Model.Solvers
/-!
# The cost function of the benchmark "Prior", benchmarks/dense.cpp:53-66, 85-98

`loss2` of a prior `y` with the vector `stdevs`: with derivatives it whitens the residuals with `MahaWhitened`, without it calls `MahaSquaredNorm`.
-/

namespace Verif.Prior
open Loss Matrix

variable {n : Nat}

/-- the residuals `MahaWhitened(x - y, stdevs, true).first`, benchmarks/dense.cpp:59 -/
noncomputable def res (y σ x : RVec n) : RVec n := whitenDev (x - y) σ

/-- `res.squaredNorm()`, benchmarks/dense.cpp:62 -/
noncomputable def costFull (y σ x : RVec n) : ℝ := ∑ i, res y σ x i * res y σ x i

/-- `grad = J * res`, benchmarks/dense.cpp:60 -/
noncomputable def grad (y σ x : RVec n) : RVec n := whitenDevJ σ *ᵥ res y σ x

/-- `H.diagonal() = stdevs.cwiseInverse().cwiseAbs2()`, benchmarks/dense.cpp:61: the other coefficients are left as they are -/
noncomputable def hess (σ : RVec n) (H : Mat ℝ n) : Mat ℝ n := fun i j => if i = j then (σ i)⁻¹ * (σ i)⁻¹ else H i j

/-- `MahaSquaredNorm(x - y, stdevs)`, the branch without derivatives, benchmarks/dense.cpp:64 -/
noncomputable def costEval (y σ x : RVec n) : ℝ := mahaSqVar (x - y) σ

end Verif.Prior
