import Verif.Num.Ieee
import Verif.Num.Real
import Verif.Model.Optimizer
/-!
# Accumulating costs (cost.h)
-/

namespace Verif
open FloatOps

/-- conversion of a floating point number to an integer, rounding towards zero; `none` for NaN and
infinities -/
class ToInt (R : Type) where
  trunc : R → Option Int

/-- rounding towards zero -/
def truncRat (q : ℚ) : Int := if 0 ≤ q then ⌊q⌋ else ⌈q⌉

instance {f : Fmt} : ToInt (Fl f) where
  trunc
    | .fin q _ => some (truncRat q)
    | _ => none

noncomputable instance : ToInt ℝ where
  trunc x := some (if 0 ≤ x then ⌊x⌋ else ⌈x⌉)

/-- the value of an `int` expression; signed overflow is undefined -/
def i32 (z : Int) : Res Int := if -2147483648 ≤ z ∧ z ≤ intMax then .ok z else .ub

section
variable {F R : Type} [FloatOps F] [FloatOps R] [ToInt R]

/-- conversion `(int)r`, undefined when the result does not fit -/
def toI32 (r : R) : Res Int :=
  match ToInt.trunc r with
  | some z => i32 z
  | none => .ub

/-- `Cost::NumInliers`, cost.h:84 -/
def Cost.numInliers (c : Cost F R) : Res Int := toI32 (mul (ofInt c.num) c.inlier)

/-- `Cost::NumOutliers`, cost.h:85 -/
def Cost.numOutliers (c : Cost F R) : Res Int := toI32 (mul (ofInt c.num) (sub (ofInt 1) c.inlier))

/-- `Cost::AddResiduals`, cost.h:87-91 -/
def Cost.addResiduals (c : Cost F R) (newRes newIn : Int) : Res (Cost F R) :=
  (i32 (c.num + newRes)).bind fun s =>
    if s > 0 then
      (c.numInliers).bind fun k => (i32 (k + newIn)).bind fun t =>
        .ok { c with inlier := div (ofInt t) (ofInt s), num := s }
    else .ok { c with num := s }

/-- `Cost::operator+=(const Cost &)`, cost.h:51-56 -/
def Cost.plusEq (c other : Cost F R) : Res (Cost F R) :=
  (other.numInliers).bind fun k =>
    (({ c with cost := add c.cost other.cost } : Cost F R).addResiduals other.num k).bind fun c1 =>
      .ok (if other.log.isEmpty then c1 else { c1 with log := c1.log ++ " " ++ other.log })

/-- `Cost()`, cost.h:21 with the member initialisers 93-96 -/
def Cost.dflt : Cost F R := { cost := ofInt 0, num := 0, inlier := ofInt 1 }

/-- a cost of `n` residuals of which `k` are inliers: the ratio is computed as in `AddResiduals` -/
def Cost.ofCount (v : F) (k n : Int) : Cost F R := { cost := v, num := n, inlier := div (ofInt k) (ofInt n) }

/-- `Cost::operator+=(const MatrixBase &)`, cost.h:59-64; `sq` is `residuals.squaredNorm()`, `n` their number -/
def Cost.plusEqRes (c : Cost F R) (sq : F) (n : Int) : Res (Cost F R) :=
  ({ c with cost := add c.cost sq } : Cost F R).addResiduals n n

end
end Verif
