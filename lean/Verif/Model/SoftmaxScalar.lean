import Verif.Model.Losses
/-!
# `Softmax` and `SafeSoftmax` of scalars (losses/classif.h)

The branch for arguments that are not matrices. The type of the result depends on the second argument.
-/

namespace Verif.Loss

/-- the second argument `Jx_or_bool`, classif.h:16, 53: none (`nullptr`), a matrix `Jx`, or something else (`true` or the derivative as a number) -/
inductive JArg (k : Nat) where
  | null
  | mat (A : RMat 1 k)
  | other (v : ℝ)

/-- what the functions return: a value, a pair with a matrix, a pair of numbers -/
inductive SoftRes (k : Nat) where
  | value (v : ℝ)
  | withMat (v : ℝ) (J : RMat 1 k)
  | withNum (v J : ℝ)

/-- `Softmax(x, Jx_or_bool)` of a scalar, classif.h:20-26 -/
noncomputable def softmaxScalar {k} (_x : ℝ) : JArg k → SoftRes k
  | .null => .value 1
  | .mat A => .withMat 1 A
  | .other _ => .withNum 1 1

/-- `SafeSoftmax(x, Jx_or_bool)` of a scalar, classif.h:57-63 -/
noncomputable def safeSoftmaxScalar {k} (_x : ℝ) : JArg k → SoftRes k
  | .null => .withNum 1 1
  | .mat A => .withMat 1 A
  | .other _ => .value 1

/-- the value in the result -/
def SoftRes.val {k} : SoftRes k → ℝ
  | .value v => v
  | .withMat v _ => v
  | .withNum v _ => v

end Verif.Loss
