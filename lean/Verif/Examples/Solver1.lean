import Verif.Examples.Toy
import Verif.Model.Solvers
/-!
# Concrete problems for the solvers

One parameter, exact arithmetic (`D`), the user function given as cost, gradient and Hessian at `x`.
-/

namespace Verif
open FloatOps

/-- exact linear algebra for systems of size one: the `LDLT` of a 1x1 matrix succeeds when it is
positive (zero is treated like Eigen's pseudo-inverse) -/
def lin1 : LinAlg D where
  ldlt := fun n A b =>
    if h : n = 1 then
      let a := A ⟨0, by omega⟩ ⟨0, by omega⟩
      if lt a (ofInt 0) then none
      else some (fun i => if eq a (ofInt 0) then ofInt 0 else div (b i) a)
    else none
  inv := fun _ A => fun i j => div (ofInt 1) (A i j)

/-- value of a one-dimensional step -/
def DVec.val (d : DVec D) : D := if h : 0 < d.n then d.v ⟨0, h⟩ else ofInt 0

/-- A one-parameter problem over `D`: `f x` = (cost, gradient, Hessian). The world counts the calls
of the user function with derivatives. -/
def prob1 (f : D → D × D × D) (num : D → Int) (dims : Option Nat) : Problem D D Nat D where
  acc :=
    { full := fun w x _ g H =>
        (({ cost := (f x).1, num := num x, inlier := ofInt 1 }, fun i => add (g i) (f x).2.1,
          fun i j => add (H i j) (f x).2.2), w + 1)
      eval := fun w x => ({ cost := (f x).1, num := num x, inlier := ofInt 1 }, w) }
  dims := dims
  dynDims := fun _ => 1
  plusEq := fun x d => add x d.val
  clock := fun w => (ofInt 1, w)
  alloc := fun w _ => (some (fun _ => ofInt 7, fun _ _ => ofInt 7), w)
  ratio1 := ofInt 1

/-- default solver options (options.h), with exact decimal values -/
def sopts1 : SolverOpts D where
  useSquaredNorm := true
  downscaleBy2 := false
  normalize := false
  gradClip := ofInt 0
  useLdlt := true
  hIsFull := true
  checkMinHDiag := ofInt 0
  dampInit := div (ofInt 1) (ofInt 10000)
  dampLo := div (ofInt 1) (ofInt 1000000000)
  dampHi := ofInt 1000000000
  goodFactor := div (ofInt 1) (ofInt 3)
  badFactor := ofInt 2
  lr := ofInt 1

/-- optimizer options: everything optional off, at most `n` iterations -/
def opts1 (n : Nat) : Options D Nat (DVec D) where
  checkFinalCost := false
  useStepQuality := false
  saveLast := true
  maxIters := n
  minError := ofInt 0
  minRerrDec := ofInt 0
  minStepNorm2 := ofInt 0
  minGradNorm2 := ofInt 0
  maxTotalFailures := 0
  maxConsecFailures := 0
  maxDurationMs := ofInt 0
  stopCallback := none
  stopCallback2 := none

/-- least squares problem with the single residual `x - 3` -/
def lin3 (dims : Option Nat) : Problem D D Nat D :=
  prob1 (fun x => (mul (sub x (ofInt 3)) (sub x (ofInt 3)), sub x (ofInt 3), ofInt 1)) (fun _ => 1) dims

def gn0 : GNState D D := ⟨0, nofun, nofun, { cost := ofInt 0, num := 0, inlier := ofInt 1 }⟩

end Verif
