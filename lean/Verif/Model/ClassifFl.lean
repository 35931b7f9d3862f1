import Verif.Num.FloatOps
/-!
# losses/classif.h in floating point

`Verif.Model.Losses` has the softmax of real vectors. Here it is in the arithmetic `F`, with the exponential of `libm` as a parameter.
-/

namespace Verif
open FloatOps

/-- An order of summation: Eigen's `sum()` adds the coefficients pairwise in an order that depends on the vectorisation. -/
inductive SumTree (n : Nat) where
  | leaf (i : Fin n)
  | node (l r : SumTree n)

namespace SumTree
variable {n : Nat}

/-- the coefficients in the order of the summation -/
def leaves : SumTree n → List (Fin n)
  | leaf i => [i]
  | node l r => l.leaves ++ r.leaves

/-- the number of additions a coefficient takes part in, at most -/
def height : SumTree n → Nat
  | leaf _ => 0
  | node l r => max l.height r.height + 1

/-- the sum in this order -/
def sum {F : Type} [FloatOps F] (v : Fin n → F) : SumTree n → F
  | leaf i => v i
  | node l r => add (l.sum v) (r.sum v)

/-- the same tree over more coefficients -/
def up : SumTree n → SumTree (n + 1)
  | leaf i => leaf i.castSucc
  | node l r => node l.up r.up

/-- left to right, as without vectorisation -/
def leftToRight : (n : Nat) → SumTree (n + 1)
  | 0 => leaf 0
  | n + 1 => node ((leftToRight n).up) (leaf (Fin.last _))

end SumTree

section
variable {F : Type} [FloatOps F] {n : Nat}

/-- Eigen's `maxCoeff()` of a non-empty vector of numbers -/
def maxCoeffF : {n : Nat} → (Fin (n + 1) → F) → F
  | 0, x => x 0
  | _ + 1, x =>
    let m := maxCoeffF fun i => x i.castSucc
    if lt m (x (Fin.last _)) then x (Fin.last _) else m

/-- `Softmax(x)` of a vector, classif.h:31-34; `ex` is `std::exp`, `t` the order of the summation -/
def softmaxF (ex : F → F) (t : SumTree n) (x : Fin n → F) : Fin n → F :=
  let sum := t.sum fun i => ex (x i)
  fun i => div (ex (x i)) sum

/-- `SafeSoftmax(x)` of a vector, classif.h:67-71 -/
def safeSoftmaxF (ex : F → F) (t : SumTree (n + 1)) (x : Fin (n + 1) → F) : Fin (n + 1) → F :=
  let mx := maxCoeffF x
  let sum := t.sum fun i => ex (sub (x i) mx)
  fun i => div (ex (sub (x i) mx)) sum

end
end Verif
