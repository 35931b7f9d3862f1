import Verif.Model.Sparse
import Verif.Model.Log
/-!
# `MaxStdDev` of the solvers with sparse Hessians, gn.h:175-183, lm.h:176-187
-/

namespace Verif
open FloatOps

section
variable {F R : Type} [FloatOps F]

/-- `X.coeffs().maxCoeff()` of the sparse inverse: the largest of the stored coefficients, which are those different from 0 (`sparseView` of the columns of the solution);
Eigen asserts that there is one -/
def spMaxCoeff {n : Nat} (C : Mat F n) : Res F :=
  match (List.finRange n).flatMap fun j => (viewCol C j).map Prod.snd with
  | [] => .ub
  | a :: l => .ok (l.foldl (fun a b => if lt a b then b else a) a)

/-- `SolverGN<SparseMatrix>::MaxStdDev`, gn.h:177-180; `use_damped` has no effect -/
def spGnMaxStdDev (L : SpLinAlg F) (s : SpGNState F R) : Res F :=
  match sparseInvCov L (ofInt 0) s.H with
  | none => .throw
  | some C => (spMaxCoeff C).map sqrt

/-- the end of lm.h:178-184, after the choice of the Hessian: 0 without an inverse -/
def spLmStd (L : SpLinAlg F) {n : Nat} (H : SpSq F n) : Res F :=
  match sparseInvCov L (ofInt 0) H with
  | none => .ok (ofInt 0)
  | some C => (spMaxCoeff C).map sqrt

/-- `SolverLM<SparseMatrix>::MaxStdDev`, lm.h:176-187: of the damped Hessian as stored, or of `Hessian()` -/
def spLmMaxStdDev (L : SpLinAlg F) (useDamped : Bool) (s : SpLMState F R) : Res F :=
  if useDamped then spLmStd L s.gn.H else spLmStd L (spLmHessian s).m

end
end Verif
