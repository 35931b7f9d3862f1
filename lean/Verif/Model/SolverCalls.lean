import Verif.Model.Solvers
/-!
# `SolverLM` used directly, as in tests/solvers.cpp:74-110

The methods a user can call besides `Solve`, in any order. A system of the right size is assumed, as after `resize` (tests/solvers.cpp:77) or with a fixed size.
-/

namespace Verif
open FloatOps

variable {F R W X : Type} [FloatOps F]

/-- calls of a `SolverLM`: `Build(x, loss)` (lm.h:60), `Rebuild(b)` (lm.h:55), `GoodStep(q)` (lm.h:123) and `BadStep()` (lm.h:140) -/
inductive LmCall (F X : Type)
  | build (x : X)
  | rebuild (b : Bool)
  | good (q : F)
  | bad

/-- one call (lm.h:55, 60-121, 123-148); the value returned by `Build` is not looked at -/
def lmCall (so : SolverOpts F) (P : Problem F R W X) (w : W) (s : LMState F R) : LmCall F X → Res (LMState F R × W)
  | .build x => .ok (lmBuild so P w s x).2
  | .rebuild b => .ok ({ s with rebuild := b }, w)
  | .good q => (lmGood so s q).map fun s' => (s', w)
  | .bad => (lmBad so s).map fun s' => (s', w)

/-- a sequence of calls, as tests/solvers.cpp:93-98 makes them -/
def lmCalls (so : SolverOpts F) (P : Problem F R W X) (w : W) (s : LMState F R) : List (LmCall F X) → Res (LMState F R × W)
  | [] => .ok (s, w)
  | c :: l => (lmCall so P w s c).bind fun (s', w') => lmCalls so P w' s' l

/-- the cost function of the test, for two parameters: tests/solvers.cpp:80-91. The world is `num_grad_updates`; the returned vector becomes its squared norm with as many residuals (cost.h:26-30).
The test's generic lambda also returns the residuals without derivatives (`auto &grad` a null pointer), and overwrites `grad` and `H`. -/
def skipProb (y : Vec F 2) (ratio : R) (plusEq : Vec F 2 → DVec F → Vec F 2) : Problem F R Nat (Vec F 2) :=
  let cost (x : Vec F 2) : Cost F R :=
    { cost := add (mul (sub (x 0) (y 0)) (sub (x 0) (y 0))) (mul (sub (x 1) (y 1)) (sub (x 1) (y 1))), num := 2, inlier := ratio }
  { acc := {
      full := fun w x _ _ _ => ((cost x, fun i => if h : i.val < 2 then sub (x ⟨i, h⟩) (y ⟨i, h⟩) else ofInt 0, fun i j => if i.val = j.val then ofInt 1 else ofInt 0), w + 1)
      eval := fun w x => (cost x, w) }
    dims := some 2
    dynDims := fun _ => 2
    plusEq := plusEq
    clock := fun w => (ofInt 0, w)
    alloc := fun w _ => (some (fun _ => ofInt 0, fun _ _ => ofInt 0), w)
    ratio1 := ratio }

end Verif
