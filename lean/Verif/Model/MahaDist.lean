import Verif.Model.Losses
/-!
# The Mahalanobis distance between two points, and the remaining variants of the Mahalanobis norms

`distances.h:91-104` and the branches of `losses/mahalanobis.h` that `Model/Losses` leaves out: variances in `MahaNorm`, input Jacobians with
variances, standard deviations and scalars.
-/

namespace Verif
namespace Loss

open Matrix

/-- `MahaSquaredNorm(x, var, Jx, add_scale)` of a scalar: the Jacobian, mahalanobis.h:28-30 -/
noncomputable def mahaSqSJx (eps x var Jx : ℝ) (addScale : Bool := true) : ℝ := mahaSqSJ eps x var addScale * Jx

/-- `MahaNorm(x, var, Jx)` of a scalar: the Jacobian, mahalanobis.h:94-99 -/
noncomputable def mahaSJx (eps x var Jx : ℝ) : ℝ :=
  let n := √(mahaSqS eps x var)
  let s := if n > eps then n else 1
  mahaSqSJx eps x var Jx false / s

/-- `MahaSquaredNorm(x, vars, Jx, add_scale)` with variances: the Jacobian, mahalanobis.h:60-63, 77, 80-81 -/
noncomputable def mahaSqVarJx {n k} (x v : RVec n) (A : RMat n k) (addScale : Bool := true) : RVec k := mahaSqVarJ x v addScale ᵥ* A

/-- `MahaNorm(x, vars)` with variances, mahalanobis.h:91-93 -/
noncomputable def mahaVar {n} (x v : RVec n) : ℝ := √(mahaSqVar x v)

/-- `MahaNorm(x, vars, true)` with variances: the Jacobian, mahalanobis.h:100-104 -/
noncomputable def mahaVarJ (eps : ℝ) {n} (x v : RVec n) : RVec n :=
  let nn := √(mahaSqVar x v)
  let s := if nn > eps then nn else 1
  fun i => mahaSqVarJ x v false i / s

/-- `MahaNorm(x, vars, Jx)` with variances: the Jacobian, mahalanobis.h:100-104 -/
noncomputable def mahaVarJx (eps : ℝ) {n k} (x v : RVec n) (A : RMat n k) : RVec k :=
  let nn := √(mahaSqVar x v)
  let s := if nn > eps then nn else 1
  fun i => mahaSqVarJx x v A false i / s

/-- `MahaWhitened(res, stdev, Jx)` with one standard deviation: the Jacobian, mahalanobis.h:121-122 -/
noncomputable def whitenIsoJx {n k} (σ : ℝ) (A : RMat n k) : RMat n k := fun i j => A i j / σ

/-- `MahaWhitened(res, stdevs, Jx)`: the Jacobian, mahalanobis.h:135-136 -/
noncomputable def whitenDevJx {n k} (σ : RVec n) (A : RMat n k) : RMat n k := Matrix.diagonal (fun i => (σ i)⁻¹) * A

/-- `distances::MahaNorm(a, b, var)` of scalars, distances.h:95-96 -/
noncomputable def mahaDistS (eps a b var : ℝ) : ℝ := mahaS eps (a - b) var

/-- `distances::MahaNorm(a, b, var, true)` of scalars: the two Jacobians, distances.h:97-99 -/
noncomputable def mahaDistSJ (eps a b var : ℝ) : ℝ × ℝ := (mahaSJ eps (a - b) var, -mahaSJ eps (a - b) var)

/-- `distances::MahaNorm(a, b, vars)` with variances, distances.h:95-96 -/
noncomputable def mahaDistVar {n} (a b v : RVec n) : ℝ := mahaVar (a - b) v

/-- `distances::MahaNorm(a, b, vars, true)` with variances: the two Jacobians, distances.h:101-102 -/
noncomputable def mahaDistVarJ (eps : ℝ) {n} (a b v : RVec n) : RVec n × RVec n := (mahaVarJ eps (a - b) v, -mahaVarJ eps (a - b) v)

/-- `distances::MahaNorm(a, b, cov)`, distances.h:95-96; `none` is the exception of mahalanobis.h:44-45 -/
noncomputable def mahaDist {n} (o : Fact n) (a b : RVec n) (S : RMat n n) : Option ℝ := mahaCov o (a - b) S

/-- `distances::MahaNorm(a, b, cov, true)`: the two Jacobians, distances.h:101-102 -/
noncomputable def mahaDistJ (eps : ℝ) {n} (o : Fact n) (a b : RVec n) (S : RMat n n) : Option (RVec n × RVec n) :=
  (mahaCovJ eps o (a - b) S).map fun J => (J, -J)

end Loss
end Verif
