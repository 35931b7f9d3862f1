import Verif.Model.Solvers
import Mathlib.Analysis.Normed.Algebra.MatrixExponential
import Mathlib.Analysis.Normed.Algebra.QuaternionExponential
import Mathlib.LinearAlgebra.Matrix.Notation
/-!
# Rotations and poses as parameters

Model of `params_trait` for `Sophus::SO3`, `Sophus::SE3` (3rdparty/traits/sophus.h) and `lieplusplus::group::SO3`,
`lieplusplus::group::SEn3` (3rdparty/traits/lieplusplus.h) over the real numbers. Not modelled: the rounding of the two
libraries, the renormalisation of the unit quaternion which Sophus applies to undo it, and their closed formulas for the
exponential map; the exponential is the one of the power series, which these formulas compute. `cast` is not used by the optimizer loop.
-/

namespace Verif
open Matrix

/-- the skew-symmetric matrix of a 3-vector (`SO3::hat`) -/
def hat3 (w : Fin 3 → ℝ) : Matrix (Fin 3) (Fin 3) ℝ := !![0, -w 2, w 1; w 2, 0, -w 0; -w 1, w 0, 0]

/-- `params_trait<SO3>::PlusEq`, sophus.h:44-46 and lieplusplus.h:58-60 (right update), on rotation matrices. The type
of `delta` is a vector of size 3: other sizes do not compile, the model leaves `x` alone. -/
noncomputable def so3Plus (x : Matrix (Fin 3) (Fin 3) ℝ) (d : DVec ℝ) : Matrix (Fin 3) (Fin 3) ℝ :=
  if h : d.n = 3 then x * NormedSpace.exp (hat3 fun i => d.v (i.cast h.symm)) else x

/-- the imaginary quaternion with half the given rotation vector -/
noncomputable def halfIm (w : Fin 3 → ℝ) : Quaternion ℝ := ⟨0, w 0 / 2, w 1 / 2, w 2 / 2⟩

/-- The same `PlusEq` on the unit quaternions in which both libraries store a rotation. -/
noncomputable def quatPlus (x : Quaternion ℝ) (d : DVec ℝ) : Quaternion ℝ :=
  if h : d.n = 3 then x * NormedSpace.exp (halfIm fun i => d.v (i.cast h.symm)) else x

/-- A pose with `k` translations as a matrix: `k = 1` is `SE3`, other `k` are `SEn3<T, k>`. -/
abbrev PoseMat (k : ℕ) := Matrix (Fin 3 ⊕ Fin k) (Fin 3 ⊕ Fin k) ℝ

/-- The matrix of a twist (`SE3::hat`). `e` gives the order of the coefficients: Sophus puts the
translation first, lie++ the rotation. -/
def hatPose {k : ℕ} (e : Fin 3 ⊕ (Fin 3 × Fin k) ≃ Fin (3 + 3 * k)) (v : Fin (3 + 3 * k) → ℝ) : PoseMat k :=
  fromBlocks (hat3 fun i => v (e (.inl i))) (of fun i j => v (e (.inr (i, j)))) 0 0

/-- `params_trait<SE3>::PlusEq`, sophus.h:24-26, and `params_trait<SEn3>::PlusEq`, lieplusplus.h:33-35 (right update) -/
noncomputable def posePlus {k : ℕ} (e : Fin 3 ⊕ (Fin 3 × Fin k) ≃ Fin (3 + 3 * k)) (x : PoseMat k) (d : DVec ℝ) : PoseMat k :=
  if h : d.n = 3 + 3 * k then x * NormedSpace.exp (hatPose e fun i => d.v (i.cast h.symm)) else x

end Verif
