import Mathlib.Analysis.SpecialFunctions.Pow.NNReal
import Mathlib.Data.Real.Sqrt
import Verif.Num.FloatOps
/-!
# Exact arithmetic: the real numbers as an instance of the arithmetic interface

No rounding, no overflow, no NaN.  `maxVal` (the initial "no cost yet" value) is `2^1024`.
-/

namespace Verif

noncomputable instance : FloatOps ℝ where
  add a b := a + b
  sub a b := a - b
  mul a b := a * b
  div a b := a / b
  neg a := -a
  ofInt n := n
  half := 1 / 2
  sqrt := Real.sqrt
  cube a := a ^ 3
  lt a b := decide (a < b)
  eq a b := decide (a = b)
  isNaN _ := false
  isInf _ := false
  maxVal := 2 ^ 1024
  eps := 1 / 10 ^ 7

namespace RealOps
variable (a b : ℝ)
@[simp] theorem add_eq : FloatOps.add a b = a + b := rfl
@[simp] theorem sub_eq : FloatOps.sub a b = a - b := rfl
@[simp] theorem mul_eq : FloatOps.mul a b = a * b := rfl
@[simp] theorem div_eq : FloatOps.div a b = a / b := rfl
@[simp] theorem neg_eq : FloatOps.neg a = -a := rfl
@[simp] theorem ofInt_eq (n : Int) : (FloatOps.ofInt n : ℝ) = n := rfl
@[simp] theorem half_eq : (FloatOps.half : ℝ) = 1 / 2 := rfl
@[simp] theorem sqrt_eq : FloatOps.sqrt a = Real.sqrt a := rfl
@[simp] theorem cube_eq : FloatOps.cube a = a ^ 3 := rfl
@[simp] theorem lt_eq : (FloatOps.lt a b = true) = (a < b) := by
  show (decide (a < b) = true) = _
  simp
@[simp] theorem lt_eq_false : (FloatOps.lt a b = false) = (b ≤ a) := by
  show (decide (a < b) = false) = _
  simp
@[simp] theorem eq_eq : (FloatOps.eq a b = true) = (a = b) := by
  show (decide (a = b) = true) = _
  simp
@[simp] theorem eq_eq_false : (FloatOps.eq a b = false) = (a ≠ b) := by
  show (decide (a = b) = false) = _
  simp
@[simp] theorem isNaN_eq : FloatOps.isNaN a = false := rfl
@[simp] theorem isInf_eq : FloatOps.isInf a = false := rfl
@[simp] theorem scalarMax_eq : (FloatOps.scalarMax : ℝ) = FloatOps.maxVal := rfl
theorem finite_eq : FloatOps.finite a = true := rfl
end RealOps

end Verif
