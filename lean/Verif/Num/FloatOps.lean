/-!
# Arithmetic interface

The optimizer works on `double` (`Cost::Scalar`, `Output::Scalar`) and on the
solver's `Scalar`.  The model is written against the operations below and the
control-flow theorems only use the laws of `FloatLaws`, all of which hold for
IEEE-754 arithmetic (an instance is constructed in `Verif.Num.Fl`).
`float` option values are taken as already converted (exactly) to the wider type.
-/

namespace Verif

/-- The arithmetic operations the modelled code uses on its floating point type. -/
class FloatOps (F : Type) where
  add : F → F → F
  sub : F → F → F
  mul : F → F → F
  div : F → F → F
  neg : F → F
  /-- integer to floating point conversion, also used for literals -/
  ofInt : Int → F
  /-- the literal `0.5f` -/
  half : F
  /-- `std::sqrt` -/
  sqrt : F → F
  /-- `std::pow(·, 3.0f)` -/
  cube : F → F
  /-- the C++ operator `<` (false as soon as one operand is NaN) -/
  lt : F → F → Bool
  /-- the C++ operator `==` -/
  eq : F → F → Bool
  isNaN : F → Bool
  isInf : F → Bool
  /-- `std::numeric_limits<double>::max()`: the costs are `double` (cost.h:19, output.h:27) -/
  maxVal : F
  /-- `FloatEpsilon<Scalar>()`, math.h:297-301, for the `Scalar` of the solver -/
  eps : F
  /-- `std::numeric_limits<Scalar>::max()` for the `Scalar` of the solver, as a `double` -/
  scalarMax : F := maxVal

namespace FloatOps
variable {F : Type} [FloatOps F]

/-- neither NaN nor infinite -/
def finite (a : F) : Bool := !isNaN a && !isInf a

/-- C++ `a != b` -/
def ne (a b : F) : Bool := !eq a b

def zero : F := ofInt 0
def one : F := ofInt 1

end FloatOps

open FloatOps in
/-- Laws of comparison and subtraction that IEEE-754 arithmetic satisfies. -/
class FloatLaws (F : Type) [FloatOps F] : Prop where
  lt_irrefl : ∀ a : F, lt a a = false
  lt_trans : ∀ a b c : F, lt a b = true → lt b c = true → lt a c = true
  /-- on finite values "not less" is transitive (strict weak order) -/
  lt_negtrans : ∀ a b c : F, finite a = true → finite b = true → finite c = true →
    lt a b = false → lt b c = false → lt a c = false
  /-- gradual underflow: the sign of a difference is the comparison -/
  sub_neg : ∀ a b : F, finite a = true → finite b = true → lt (sub a b) (ofInt 0) = lt a b
  eq_spec : ∀ a b : F, finite a = true → finite b = true → eq a b = (!lt a b && !lt b a)
  max_finite : finite (maxVal : F) = true
  le_max : ∀ a : F, finite a = true → lt maxVal a = false
  /-- the largest `float` is at most the largest `double` -/
  scalarMax_le : ∀ a : F, lt a scalarMax = true → lt a maxVal = true

/-- no cost yet -/
theorem not_lt_scalarMax {F : Type} [FloatOps F] [FloatLaws F] :
    FloatOps.lt (FloatOps.maxVal : F) FloatOps.scalarMax = false := by
  cases h : FloatOps.lt (FloatOps.maxVal : F) FloatOps.scalarMax
  · rfl
  · exact absurd (FloatLaws.scalarMax_le _ h) (by rw [FloatLaws.lt_irrefl]; simp)

end Verif
