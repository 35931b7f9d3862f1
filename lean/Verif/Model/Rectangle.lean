import Verif.Model.Jet
import Mathlib.Data.Fin.VecNotation
/-!
# The rectangle of tests/userdef_params_jet.cpp

Over the reals; the test has `float`. A rectangle is the vector `(p1.x, p1.y, p2.x, p2.y)`. `ε` is the constant `1e-8f`.
-/

namespace Verif.Rectangle
open Loss

/-- `PlusEq`, tests/userdef_params_jet.cpp:65-72 -/
def plusEq (r δ : RVec 4) : RVec 4 := ![r 0 + δ 0, r 1 + δ 1, r 2 + (δ 0 + δ 2), r 3 + (δ 1 + δ 3)]

/-- `width`, tests/userdef_params_jet.cpp:32 -/
def width (r : RVec 4) : ℝ := r 2 - r 0
/-- `height`, tests/userdef_params_jet.cpp:34 -/
def height (r : RVec 4) : ℝ := r 3 - r 1
/-- `area`, tests/userdef_params_jet.cpp:29 -/
noncomputable def area (r : RVec 4) : ℝ := √((r 2 - r 0) * (r 2 - r 0) + (r 3 - r 1) * (r 3 - r 1))
/-- `center`, tests/userdef_params_jet.cpp:37 -/
noncomputable def center (r : RVec 4) (i : Fin 2) : ℝ := if i = 0 then 1 / 2 * (r 0 + r 2) else 1 / 2 * (r 1 + r 3)

/-- `std::max(a, b)`: `(a < b) ? b : a` -/
noncomputable def stdMax (a b : ℝ) : ℝ := open Classical in if a < b then b else a

/-- the residuals, tests/userdef_params_jet.cpp:97-101 -/
noncomputable def loss (ε : ℝ) (r : RVec 4) : RVec 4 :=
  ![area r - 200, 100 * (width r / stdMax (height r) ε - 2), center r 0 - 1, center r 1 - 2]

/-- the coordinates of the rectangle as jets: `cast`, then `PlusEq` with `delta[i] = Jet(0, i)`, auto_diff.h:31-50 -/
def coord (r : RVec 4) : Fin 4 → Expr 4 :=
  ![.op2 .add (.const (r 0)) (.var 0), .op2 .add (.const (r 1)) (.var 1),
    .op2 .add (.const (r 2)) (.op2 .add (.var 0) (.var 2)), .op2 .add (.const (r 3)) (.op2 .add (.var 1) (.var 3))]

/-- the residuals on jets, tests/userdef_params_jet.cpp:97-101; `flat`: which argument `max` returns -/
noncomputable def lossExpr (ε : ℝ) (flat : Bool) (r : RVec 4) : Fin 4 → Expr 4 :=
  let w := Expr.op2 .sub (coord r 2) (coord r 0)
  let h := Expr.op2 .sub (coord r 3) (coord r 1)
  ![.op1 (.subS 200) (.op1 .sqrt (.op2 .add (.op2 .mul w w) (.op2 .mul h h))),
    .op1 (.sMul 100) (.op1 (.subS 2) (.op2 .div w (if flat then .const ε else h))),
    .op2 .sub (.op2 .mul (.const (1 / 2)) (.op2 .add (coord r 0) (coord r 2))) (.const 1),
    .op2 .sub (.op2 .mul (.const (1 / 2)) (.op2 .add (coord r 1) (coord r 3))) (.const 2)]

/-- the residuals and the Jacobian with automatic differentiation: `max` compares the scalar parts of the jets -/
noncomputable def lossAD (ε : ℝ) (r : RVec 4) : Option (RVec 4 × RMat 4 4) := open Classical in evalJac (lossExpr ε (decide (height r < ε)) r) 0

end Verif.Rectangle
