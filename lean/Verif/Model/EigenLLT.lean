import Verif.Model.Solvers
/-!
# The decomposition behind `MahaWhitened`, mahalanobis.h:139-153

Eigen's `LLT` (3.4.0, the version fetched by cmake/ThirdParties.cmake:15-23; `llt_inplace<Lower>::unblocked`, `LLT::compute`, `LLT::matrixL`, and `triangular_solver_unroller`), which is
not in /repo, written down from its published source. The code asks for the upper triangle: Eigen works on the transpose, so that the matrix here is the one with the upper triangle of the
covariance below the diagonal. Simplified: inner products are sums from left to right; matrices of 32 rows and more are decomposed by blocks, with the same inner products in another order.
-/

namespace Verif
open FloatOps

section
variable {F : Type} [FloatOps F] {n : Nat}

/-- `A10.squaredNorm()` (for `i = j = k`) resp. a coefficient of `A20 * A10.adjoint()`: the first `k` columns -/
def lltDot (M : Mat F n) (k : Nat) (i j : Fin n) : F :=
  ((List.finRange n).take k).foldl (fun a l => add a (mul (M i l) (M j l))) (ofInt 0)

/-- a coefficient of column `k` without the columns before it; nothing is subtracted in the first column (`k > 0`) -/
def lltRest (M : Mat F n) (k i : Fin n) : F := if k.val = 0 then M i k else sub (M i k) (lltDot M k i k)

/-- One column, in place: `none` is `x <= 0` (which is false for a NaN). -/
def lltCol (M : Mat F n) (k : Fin n) : Option (Mat F n) :=
  let x := lltRest M k k
  if lt x (ofInt 0) || eq x (ofInt 0) then none
  else
    let d := sqrt x
    some fun i j => if j = k then (if i = k then d else if k < i then div (lltRest M k i) d else M i j) else M i j

/-- The loop over the columns: the matrix that is left, and the column where it stopped (`info() == NumericalIssue`) -/
def lltGo : List (Fin n) → Mat F n → Mat F n × Option (Fin n)
  | [], M => (M, none)
  | k :: t, M => match lltCol M k with
    | none => (M, some k)
    | some M' => lltGo t M'

/-- `cov.llt()` -/
def eigenLlt (A : Mat F n) : Mat F n × Option (Fin n) := lltGo (List.finRange n) A

/-- `matrixL().solve(b)`: row by row, each unknown is subtracted from the rest (Eigen's loops for more than 8 rows, or several right-hand sides, do not divide a zero) -/
def fwdSolve (L : Mat F n) (b : Vec F n) : Vec F n :=
  (List.finRange n).foldl (fun x i =>
    let y := if i.val = 0 then x i else sub (x i) (((List.finRange n).take i).foldl (fun a l => add a (mul (L i l) (x l))) (ofInt 0))
    fun l => if l = i then div y (L i i) else x l) b

/-- `MahaWhitened(res, cov)`, mahalanobis.h:139-144: `info()` is not looked at -/
def whitenLlt (S : Mat F n) (b : Vec F n) : Vec F n :=
  fwdSolve (eigenLlt fun i j => if j ≤ i then S j i else S i j).1 b

/-- `MahaWhitened(res, cov, Jx)`, mahalanobis.h:152, resp. with the identity, :150: column by column (Eigen multiplies
by the reciprocal of the diagonal when there are several right-hand sides: the same without rounding) -/
def whitenLltJ {k : Nat} (S : Mat F n) (J : Fin n → Fin k → F) : Fin n → Fin k → F :=
  fun i j => whitenLlt S (fun l => J l j) i

end
end Verif
