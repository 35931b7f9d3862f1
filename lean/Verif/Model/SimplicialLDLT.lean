import Verif.Model.Sparse
import Mathlib.Logic.Equiv.Defs
/-!
# The decomposition behind the sparse `SolveLDLT`, math.h:266-277, and `SparseInvCov`, math.h:114-137

Eigen's `SimplicialLDLT<SparseMatrix, Upper>` (3.4.0, `SimplicialCholeskyBase::factorize_preordered`, `_solve_impl`), which is not in /repo, written down from its published source.
Row after row of `L` is computed from the rows before it. Simplified: the matrices are given by their coefficients and the loop over row `k` visits all columns `i < k` in ascending
order instead of those in the reach of the elimination tree (the others are zero); `std::map`-like storage and symbolic analysis are left out. `σ` is the fill-reducing permutation.
-/

namespace Verif
open FloatOps

section
variable {F : Type} [FloatOps F]

/-- What is known after some rows: `L` below the diagonal and the pivots. -/
structure SimpFac (F : Type) where
  L : Nat → Nat → F
  D : Nat → F

/-- Row `k` of `L`: the columns `i = 0, 1, …` one after the other. The state is the work vector `y`, the pivot `d` and the row. -/
def simpRow (S : SimpFac F) (y0 : Nat → F) (d0 : F) : Nat → (Nat → F) × F × (Nat → F)
  | 0 => (y0, d0, fun _ => ofInt 0)
  | i + 1 =>
    let (y, d, l) := simpRow S y0 d0 i
    let yi := y i
    let lki := div yi (S.D i)
    (fun j => if i < j then sub (y j) (mul (S.L j i) yi) else y j, sub d (mul lki yi), fun j => if j = i then lki else l j)

/-- `factorize_preordered` for the first `k` rows; `none` is a zero pivot, `info() == NumericalIssue`. `shift` is the argument of `setShift`. -/
def simpGo (shift : F) (A : Nat → Nat → F) : Nat → Option (SimpFac F)
  | 0 => some ⟨fun _ _ => ofInt 0, fun _ => ofInt 0⟩
  | k + 1 =>
    match simpGo shift A k with
    | none => none
    | some S =>
      let (_, d, l) := simpRow S (fun i => A i k) (add (A k k) shift) k
      if eq d (ofInt 0) then none
      else some ⟨fun i j => if i = k then l j else S.L i j, fun i => if i = k then d else S.D i⟩

/-- `matrixL().solveInPlace`: the first `m` columns have been subtracted -/
def simpFwd (L : Nat → Nat → F) (b : Nat → F) : Nat → Nat → F
  | 0 => b
  | m + 1 => fun j => if m < j then sub (simpFwd L b m j) (mul (L j m) (simpFwd L b m m)) else simpFwd L b m j

/-- `matrixU().solveInPlace`, `U = L'`, for the last `m` of `n` unknowns -/
def simpBwd (L : Nat → Nat → F) (n : Nat) (z : Nat → F) : Nat → Nat → F
  | 0 => z
  | m + 1 =>
    let x := simpBwd L n z m
    let i := n - (m + 1)
    fun j => if j = i then (List.range' (i + 1) m).foldl (fun a j => sub a (mul (L j i) (x j))) (z i) else x j

/-- coefficients of a matrix, with the rows and columns in the order `σ` -/
def permCoeff {n : Nat} (σ : Equiv.Perm (Fin n)) (M : Mat F n) (i j : Nat) : F :=
  if h : i < n ∧ j < n then M (σ ⟨i, h.1⟩) (σ ⟨j, h.2⟩) else ofInt 0

/-- `_solve_impl`: permute, solve with `L`, `D`, `L'`, permute back -/
def simpSolve {n : Nat} (σ : Equiv.Perm (Fin n)) (S : SimpFac F) (b : Vec F n) : Vec F n :=
  let y := simpFwd S.L (fun i => if h : i < n then b (σ ⟨i, h⟩) else ofInt 0) n
  let z := fun i => div (y i) (S.D i)
  let x := simpBwd S.L n z n
  fun i => x (σ.symm i)

/-- `SimplicialLDLT` with the permutations `ord`, which depend on the stored pattern -/
def simplicial (ord : (n : Nat) → SpSq F n → Equiv.Perm (Fin n)) : SpLinAlg F where
  factor := fun s n A => (simpGo s (permCoeff (ord n A) (symUpper A.dense)) n).isSome
  solve := fun s n A b => match simpGo s (permCoeff (ord n A) (symUpper A.dense)) n with
    | some S => simpSolve (ord n A) S b
    | none => b

end
end Verif
