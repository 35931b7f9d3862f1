import Verif.Model.ClassifFl
import Verif.Model.Solvers
/-!
# losses/norms.h and distances.h in floating point

`Verif.Model.Losses` has the norms and distances of real vectors. Here they are in the arithmetic `F`, with the order of the summations as a parameter.
-/

namespace Verif.Loss
open FloatOps

section
variable {F : Type} [FloatOps F] {n : Nat}

/-- `SquaredL2(x)` of a vector, norms.h:24; `t` is the order of the summation in Eigen's `squaredNorm()` -/
def sqL2F (t : SumTree n) (x : Fin n → F) : F := t.sum fun i => mul (x i) (x i)

/-- `L2(x)` of a vector, norms.h:57: Eigen's `norm()` is the root of `squaredNorm()` -/
def l2F (t : SumTree n) (x : Fin n → F) : F := sqrt (sqL2F t x)

/-- `L2(x, true)`, the Jacobian, norms.h:68-74; `ep` is `FloatEpsilon()`, math.h:297-301, a `double` whatever the type of `x` -/
def l2JF (ep : F) (t : SumTree n) (x : Fin n → F) : Fin n → F :=
  let l := l2F t x
  fun i => if lt ep l then div (x i) l else x i

/-- `L1(x)` of a vector, norms.h:89 -/
def l1F (t : SumTree n) (x : Fin n → F) : F := t.sum fun i => absF (x i)

/-- `Linf(x)` of a vector, norms.h:123; the greatest coefficient, found from left to right -/
def linfF (x : Fin (n + 1) → F) : F := maxCoeffF fun i => absF (x i)

/-- the difference of two vectors -/
def diffF (a b : Fin n → F) : Fin n → F := fun i => sub (a i) (b i)

/-- `distances::L2(a, b)`, distances.h:17-19,30-31 -/
def distL2F (t : SumTree n) (a b : Fin n → F) : F := l2F t (diffF a b)

/-- `distances::L1(a, b)`, distances.h:36-38,49-50 -/
def distL1F (t : SumTree n) (a b : Fin n → F) : F := l1F t (diffF a b)

/-- `distances::Linf(a, b)`, distances.h:55-57 -/
def distLinfF (a b : Fin (n + 1) → F) : F := linfF (diffF a b)

end

end Verif.Loss
