import Verif.Model.RobustFl
/-!
# losses/activations.h in floating point

`Verif.Model.Losses` has the activations of real numbers. Here they are in the arithmetic `F`, for scalars of type `double` (for `float` the literals `1.0` make the
intermediate results `double`s).
-/

namespace Verif.Loss
open FloatOps

section
variable {F : Type} [FloatOps F]

/-- the four activations; `leaky a` is `LeakyReLU(x, a)` -/
inductive ActivF (F : Type)
  | sigmoid | tanh | relu | leaky (a : F)

/-- the activation of a scalar: Sigmoid activations.h:16, Tanh :21, ReLU :26, LeakyReLU :30, with helpers.h:27-28, 73-74 -/
def activF (m : Libm F) : ActivF F → F → F
  | .sigmoid, x => div (ofInt 1) (add (ofInt 1) (m.exp (neg x)))
  | .tanh, x => div (sub (m.exp x) (m.exp (neg x))) (add (m.exp x) (m.exp (neg x)))
  | .relu, x => if lt (ofInt 0) x then x else ofInt 0
  | .leaky a, x => if lt (ofInt 0) x then x else mul a x

/-- an element of the diagonal of the exported Jacobian: activations.h:17, 22, 27, 31; Sigmoid and Tanh read the loss -/
def activJF (m : Libm F) : ActivF F → F → F
  | .sigmoid, x =>
    let l := activF m .sigmoid x
    mul l (sub (ofInt 1) l)
  | .tanh, x =>
    let l := activF m .tanh x
    sub (ofInt 1) (mul l l)
  | .relu, x => if lt (ofInt 0) x then ofInt 1 else ofInt 0
  | .leaky a, x => if lt (ofInt 0) x then ofInt 1 else a

end

end Verif.Loss
