import Verif.Model.Solvers
/-!
# The square root example with hand written derivatives
-/

namespace Verif
open FloatOps

section
variable {F R W : Type} [FloatOps F]

/-- the residual `x * x - a` (`a` is 2), tests/sqrt2.cpp:32 -/
def sqrtRes (a x : F) : F := sub (mul x x) a

/-- The problem of tests/sqrt2.cpp:31-48: the user function sets `grad(0) = J * res` and `H(0, 0) = J * J` with `J = 2 * x`, and returns the square of the
residual. The parameter is a scalar, updated by `v += delta[0]` (traits.h:150-164, `Dims = 1`; the read outside of an empty step, which does not happen, leaves
`v`). -/
def sqrtProbF (a : F) (ratio1 : R) (clock : W → F × W) (alloc : W → (k : Nat) → Option (Vec F k × Mat F k) × W) : Problem F R W F where
  acc :=
    { full := fun w x _ g H =>
        let res := sqrtRes a x
        let J := mul (ofInt 2) x
        (({ cost := mul res res, num := 1, inlier := ratio1 }, (fun i => if i.1 = 0 then mul J res else g i),
          (fun i j => if i.1 = 0 ∧ j.1 = 0 then mul J J else H i j)), w)
      eval := fun w x => ({ cost := mul (sqrtRes a x) (sqrtRes a x), num := 1, inlier := ratio1 }, w) }
  dims := some 1
  dynDims := fun _ => 1
  plusEq := fun x d => if h : 0 < d.n then add x (d.v ⟨0, h⟩) else x
  clock := clock
  alloc := alloc
  ratio1 := ratio1

/-- the step of Gauss-Newton: the solution of the system of size 1, gn.h:150-171 with math.h:232-240 (the `LDLT` of a matrix of size 1 divides by its entry) -/
def sqrtStep (a x : F) : F := div (neg (mul (mul (ofInt 2) x) (sqrtRes a x))) (mul (mul (ofInt 2) x) (mul (ofInt 2) x))

end

end Verif
