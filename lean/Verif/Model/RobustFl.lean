import Verif.Model.Losses
import Verif.Num.FloatOps
/-!
# losses/robust_norms.h in floating point

`Verif.Model.Losses` has the robust losses of real numbers. Here they are in the arithmetic `F`, with the functions of `libm` as parameters.
-/

namespace Verif.Loss
open FloatOps

/-- `std::exp`, `std::log`, `std::atan2` and `std::numeric_limits<T>::min()` -/
structure Libm (F : Type) where
  exp : F → F
  log : F → F
  atan2 : F → F → F
  minNorm : F

section
variable {F : Type} [FloatOps F]

/-- C++ `a <= b` -/
def leqF (a b : F) : Bool := lt a b || eq a b

/-- C++ `std::max<T>(a, b)` -/
def stdMax (a b : F) : F := if lt a b then b else a

/-- the loss `l`: Truncated robust_norms.h:41, Huber :80,90-91, Tukey :129-130,141, Arctan :178-179, Cauchy :216-217,
GemanMcClure :253-254, BlakeZisserman :291-292 -/
def robustF (m : Libm F) (k : Robust) (n2 th2 : F) : F :=
  match k with
  | .truncated => if leqF n2 th2 then n2 else th2
  | .huber => if leqF n2 th2 then n2 else
      let th := sqrt th2
      let n := sqrt n2
      sub (mul (mul (ofInt 2) th) n) th2
  | .tukey => if leqF n2 th2 then
      let s := sub (ofInt 1) (div n2 th2)
      let s2 := mul s s
      mul th2 (sub (ofInt 1) (mul s2 s))
    else th2
  | .arctan =>
      let th := sqrt th2
      mul th (m.atan2 n2 th)
  | .cauchy =>
      let s := add (ofInt 1) (div n2 th2)
      mul th2 (m.log s)
  | .gemanMcClure =>
      let e2_th2 := add n2 th2
      div n2 e2_th2
  | .blakeZisserman =>
      let epsilon := m.exp (neg th2)
      neg (m.log (add (m.exp (neg n2)) epsilon))

/-- the scale exported when `Jx_or_bool` is a `bool`: Truncated robust_norms.h:45, Huber :85,95-97, Tukey :134-136,146, Arctan :183-186,
Cauchy :221-223, GemanMcClure :258-260, BlakeZisserman :296-298 -/
def robustScaleF (m : Libm F) (k : Robust) (n2 th2 : F) : F :=
  match k with
  | .truncated => if leqF n2 th2 then ofInt 1 else ofInt 0
  | .huber => if leqF n2 th2 then ofInt 1 else
      let th := sqrt th2
      let n := sqrt n2
      stdMax m.minNorm (div th n)
  | .tukey => if leqF n2 th2 then div (mul (mul (ofInt 3) (sub th2 n2)) (sub th2 n2)) (mul th2 th2) else ofInt 0
  | .arctan =>
      let tmp := div (mul n2 n2) th2
      stdMax m.minNorm (div (ofInt 1) (add tmp (ofInt 1)))
  | .cauchy =>
      let s := add (ofInt 1) (div n2 th2)
      stdMax m.minNorm (div (ofInt 1) s)
  | .gemanMcClure =>
      let e2_th2 := add n2 th2
      div th2 (mul e2_th2 e2_th2)
  | .blakeZisserman =>
      let epsilon := m.exp (neg th2)
      div (ofInt 1) (add (mul epsilon (m.exp n2)) (ofInt 1))

end

end Verif.Loss
