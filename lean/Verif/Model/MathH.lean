import Verif.Model.Cost
/-!
# `SQRT` and `MaxAbsDiff` (math.h)
-/

namespace Verif
open FloatOps

/-- C++ integer division: undefined for a zero divisor (the quotient `INT_MIN / -1` does not occur: divisors are checked
to be positive by `C33_sqrt`) -/
def divI32 (a b : Int) : Res Int := if b = 0 then .ub else i32 (Int.tdiv a b)

/-- the loop of `SQRT`, math.h:285-293; every `int` operation is checked for overflow -/
def sqrtLoop (N : Int) : Nat → Int → Int → Int → Res Int
  | 0, _, _, _ => .fuel
  | n + 1, left, right, result =>
    if left ≤ right then
      (i32 (right - left)).bind fun w => (divI32 w 2).bind fun h => (i32 (left + h)).bind fun mid =>
        (divI32 N mid).bind fun q =>
          if mid ≤ q then (i32 (mid + 1)).bind fun l => sqrtLoop N n l right mid
          else (i32 (mid - 1)).bind fun r => sqrtLoop N n left r result
    else .ok result

/-- `SQRT`, math.h:281-295; at most `fuel` tests of the loop condition -/
def isqrtC (fuel : Nat) (N : Int) : Res Int :=
  if N ≤ 1 then .ok N
  else (divI32 N 2).bind fun right => sqrtLoop N fuel 1 right 0

/-! ### Sparse matrices -/

/-- a column of a sparse matrix: the stored entries (row, value) in storage order -/
abbrev SpCol (F : Type) := List (Nat × F)

/-- `Eigen::SparseMatrix<T>` (column major): the stored entries, column by column -/
structure SpMat (F : Type) where
  rows : Nat
  cols : Nat
  col : List (SpCol F)

/-- the class invariant of `Eigen::SparseMatrix`: one list per column, row indices in range and without
duplicates -/
structure SpMat.WF {F : Type} (A : SpMat F) : Prop where
  len : A.col.length = A.cols
  inRange : ∀ c ∈ A.col, ∀ e ∈ c, e.1 < A.rows
  nodup : ∀ c ∈ A.col, (c.map (·.1)).Nodup

section
variable {F : Type} [FloatOps F]

/-- `std::abs` -/
def absS (x : F) : F := if lt x (ofInt 0) then neg x else x

/-- `std::max(a, b)` is `(a < b) ? b : a` -/
def maxF (a b : F) : F := if lt a b then b else a

/-- the search of an entry in a column, math.h:338-343 and 358-364 -/
def findRow (c : SpCol F) (r : Nat) : Option F := (c.find? fun e => e.1 == r).map (·.2)

/-- body of the first loop for column `k`, math.h:330-346 -/
def diffPass1 (c1 c2 : SpCol F) (m : F) : F :=
  c1.foldl (fun m e => maxF m (absS (sub e.2 ((findRow c2 e.1).getD (ofInt 0))))) m

/-- body of the second loop for column `k`, math.h:352-369 -/
def diffPass2 (c1 c2 : SpCol F) (m : F) : F :=
  c2.foldl (fun m e => match findRow c1 e.1 with
    | some _ => m
    | none => maxF m (absS (sub (ofInt 0) e.2))) m

/-- `MaxAbsDiff`, math.h:321-371.  The columns are visited together: for well-formed matrices of
equal size both have `cols` columns. -/
def maxAbsDiff (A B : SpMat F) : Res F :=
  if A.rows ≠ B.rows ∨ A.cols ≠ B.cols then .throw
  else
    let m1 := (A.col.zip B.col).foldl (fun m p => diffPass1 p.1 p.2 m) (ofInt 0)
    .ok ((A.col.zip B.col).foldl (fun m p => diffPass2 p.1 p.2 m) m1)

end
end Verif
