import Verif.Model.Solvers
/-!
# The decomposition behind `SolveLDLT`, math.h:232-240, and `DenseInvCov`, math.h:43-58

Eigen's `LDLT` (3.4.0, the version fetched by cmake/ThirdParties.cmake:15-23; `ldlt_inplace<Lower>::unblocked`, `LDLT::_solve_impl`), which is not in /repo, written down from its
published source. Simplified: rows and columns keep their original indices, the list `rem` is the order that the transpositions give; `L`, `D` and the rest of the matrix are kept apart
instead of in one array; inner products are sums from left to right. The arithmetic is the same.
-/

namespace Verif
open FloatOps

/-- `SignMatrix` of `LDLT` -/
inductive LdltSign
  | zero | pos | neg | indef
deriving DecidableEq, Repr

/-- One finished column: the index of the pivot, the pivot, and the column of `L` (at the indices that come later). -/
structure LdltCol (F : Type) (n : Nat) where
  p : Fin n
  d : F
  l : Vec F n

section
variable {F : Type} [FloatOps F] {n : Nat}

/-- `A10 * temp` resp. one coefficient of `A20 * temp`, with `temp = D * A10'` -/
def ldltDot (done : List (LdltCol F n)) (i j : Fin n) : F :=
  done.foldl (fun a c => add a (mul (c.l i) (mul c.d (c.l j)))) (ofInt 0)

/-- coefficient `(i, j)` of what is left of the matrix -/
def ldltRest (A : Mat F n) (done : List (LdltCol F n)) (i j : Fin n) : F := sub (A i j) (ldltDot done i j)

/-- `mat.diagonal().tail(size-k).cwiseAbs().maxCoeff(&index)`: the first of the largest. The coefficients of the diagonal have not been updated. -/
def ldltPick (A : Mat F n) (a : Fin n) (t : List (Fin n)) : Fin n :=
  t.foldl (fun b i => if lt (absF (A b b)) (absF (A i i)) then i else b) a

/-- the indices after the pivot, when it has changed places with the first one -/
def ldltSwap (a p : Fin n) (t : List (Fin n)) : List (Fin n) := t.map fun i => if i = p then a else i

/-- the sign of the matrix after another pivot -/
def ldltSign (s : LdltSign) (d : F) : LdltSign :=
  match s with
  | .pos => if lt d (ofInt 0) then .indef else .pos
  | .neg => if lt (ofInt 0) d then .indef else .neg
  | .zero => if lt (ofInt 0) d then .pos else if lt d (ofInt 0) then .neg else .zero
  | .indef => .indef

/-- The loop over the columns. `none` is `ret == false`, `info() == NumericalIssue`. -/
def ldltGo (A : Mat F n) : Nat → List (LdltCol F n) → List (Fin n) → Bool → LdltSign → Option (List (LdltCol F n) × LdltSign)
  | k + 1, done, a :: t, found, s =>
    let p := ldltPick A a t
    let rest := ldltSwap a p t
    let d := ldltRest A done p p
    let valid := lt (ofInt 0) (absF d)
    if !valid && done.isEmpty then
      -- the entire diagonal is 0
      if (a :: t).all fun j => (a :: t).all fun i => i = j || eq (A i j) (ofInt 0) then some ((a :: t).map fun j => ⟨j, A j j, fun _ => ofInt 0⟩, .zero) else none
    else if valid then
      if found then none
      else ldltGo A k (done ++ [⟨p, d, fun i => div (ldltRest A done i p) d⟩]) rest false (ldltSign s d)
    else if rest.all fun i => eq (ldltRest A done i p) (ofInt 0) then
      ldltGo A k (done ++ [⟨p, d, fun i => ldltRest A done i p⟩]) rest true (ldltSign s d)
    else none
  | _, done, _, _, s => some (done, s)

/-- `LDLT::_solve_impl`: forward substitution on the way down, the pseudo-inverse of `D` with tolerance `tol` (`numeric_limits::min()`), backward substitution on the way up -/
def ldltSolve (tol : F) : List (LdltCol F n) → Vec F n → Vec F n
  | [], _ => fun _ => ofInt 0
  | c :: cs, b =>
    let y := b c.p
    let x := ldltSolve tol cs fun i => sub (b i) (mul y (c.l i))
    let z := if lt tol (absF c.d) then div y c.d else ofInt 0
    let xp := sub z (cs.foldl (fun a c' => add a (mul (c.l c'.p) (x c'.p))) (ofInt 0))
    fun i => if i = c.p then xp else x i

/-- `chol.info() == Success && chol.isPositive()`, then `chol.solve(b)`; `A` is the symmetric matrix -/
def eigenLdlt (tol : F) (n : Nat) (A : Mat F n) (b : Vec F n) : Option (Vec F n) :=
  match ldltGo A n [] (List.finRange n) false .zero with
  | none => none
  | some (cols, s) => if s = .pos ∨ s = .zero then some (ldltSolve tol cols b) else none

/-- the Eigen routines with this decomposition and some inverse -/
def eigenLinAlg (tol : F) (inv : (n : Nat) → Mat F n → Mat F n) : LinAlg F := ⟨eigenLdlt tol, inv⟩

end
end Verif
