import Verif.Model.Optimizer
/-!
# The solvers (solvers/base.h, gd.h, gn.h, lm.h), dense case

The gradient and the Hessian are functions on `Fin n`; the size `n` is part of the solver state so
that a solver object can be used again with parameters of another size.  One scalar type `F`
stands for `Scalar` and `double`.  Sparse Hessians are in Model/Sparse, logging and
`MaxStdDev` in Model/Log, `Covariance` in Model/Output.
-/

namespace Verif
open FloatOps

/-- dense vector / matrix of a given size -/
abbrev Vec (F : Type) (n : Nat) := Fin n → F
abbrev Mat (F : Type) (n : Nat) := Fin n → Fin n → F

/-- vector / matrix with its run-time size (`Vector<Scalar, Dynamic>`, `MatX`) -/
structure DVec (F : Type) where
  n : Nat
  v : Vec F n

structure DMat (F : Type) where
  n : Nat
  m : Mat F n

/-- The part of `Options` read by the solvers, options.h:28-71 and 112-133.
Values stored as `float` are taken as converted to `F`. -/
structure SolverOpts (F : Type) where
  /-- `cost.use_squared_norm` -/
  useSquaredNorm : Bool
  /-- `cost.downscale_by_2` -/
  downscaleBy2 : Bool
  /-- `cost.normalize` -/
  normalize : Bool
  /-- `grad_clipping` -/
  gradClip : F
  /-- `hessian.use_ldlt` -/
  useLdlt : Bool
  /-- `hessian.H_is_full` -/
  hIsFull : Bool
  /-- `hessian.check_min_H_diag` -/
  checkMinHDiag : F
  /-- `lm.damping_init` -/
  dampInit : F
  /-- `lm.damping_range` -/
  dampLo : F
  dampHi : F
  /-- `lm.good_factor` -/
  goodFactor : F
  /-- `lm.bad_factor` -/
  badFactor : F
  /-- `gd.lr` -/
  lr : F

/-- The user's accumulation function `Cost acc(x, grad, H)`: `full` is a call with real gradient and
Hessian (updated in place), `eval` a call with a `nullptr_t` gradient. -/
structure Acc (F R W X : Type) where
  full : W → X → (n : Nat) → Vec F n → Mat F n → (Cost F R × Vec F n × Mat F n) × W
  eval : W → X → Cost F R × W

/-- The Eigen routines used by `Solve`: `ldlt` is `selfadjointView<Upper>().ldlt()` followed by the
success test and `solve` (math.h:232-240; its argument is the symmetric matrix read by the view),
`inv` is `MatrixBase::inverse`. -/
structure LinAlg (F : Type) where
  ldlt : (n : Nat) → Mat F n → Vec F n → Option (Vec F n)
  inv : (n : Nat) → Mat F n → Mat F n

/-- Everything an instantiation gets from outside: user function, parameter type, clock, allocator.
`alloc w n` is the allocation of a system of size `n` (with arbitrary contents) or its failure. -/
structure Problem (F R W X : Type) where
  acc : Acc F R W X
  /-- compile time `Dims`, `none` for `Dynamic` -/
  dims : Option Nat
  dynDims : X → Int
  plusEq : X → DVec F → X
  clock : W → F × W
  alloc : W → (n : Nat) → Option (Vec F n × Mat F n) × W
  ratio1 : R

section
variable {F R W X : Type} [FloatOps F]

/-- `selfadjointView<Upper>` as a matrix -/
def symUpper {n : Nat} (H : Mat F n) : Mat F n := fun i j => if i ≤ j then H i j else H j i

/-- `cwiseAbs` of one coefficient -/
def absF (a : F) : F := if lt a (ofInt 0) then neg a else a

/-- `SolverBase::Clamp` on one coefficient, base.h:34 (`cwiseMax` is `a < b ? b : a`, `cwiseMin` is
`b < a ? b : a`) -/
def clampCoef (m a : F) : F :=
  let b := if lt a (neg m) then neg m else a
  if lt m b then m else b

/-- `SolverBase::Clamp`, base.h:30-38 -/
def clampVec {n : Nat} (m : F) (g : Vec F n) : Vec F n :=
  if eq m (ofInt 0) then g else fun i => clampCoef m (g i)

/-- `SolverBase::NormalizeCost`, base.h:41-45 -/
def normalizeCost (so : SolverOpts F) (c : Cost F R) : Cost F R :=
  let a := if so.useSquaredNorm then c.cost else sqrt c.cost
  let b := if so.downscaleBy2 then mul a half else a
  { c with cost := if so.normalize && decide (c.num > 0) then div b (ofInt c.num) else b }

/-- sum of the entries, left to right -/
def sumF : {n : Nat} → Vec F n → F
  | 0, _ => ofInt 0
  | n + 1, v => add (sumF (n := n) (fun i => v i.castSucc)) (v (Fin.last n))

/-- `squaredNorm()` -/
def sqNorm {n : Nat} (v : Vec F n) : F := sumF (fun i => mul (v i) (v i))

/-- unary minus on vectors -/
def negVec {n : Nat} (v : Vec F n) : Vec F n := fun i => neg (v i)

/-- matrix vector product -/
def mulVecF {n : Nat} (A : Mat F n) (v : Vec F n) : Vec F n := fun i => sumF (fun j => mul (A i j) (v j))

/-- `std::clamp`, undefined when `hi < lo` -/
def stdClamp (v lo hi : F) : Res F :=
  if lt hi lo then .ub else .ok (if lt v lo then lo else if lt hi v then hi else v)

/-- State of a `SolverGN` (and of a `SolverGD`, which has no `H_`): `grad_`, `H_`, `cost_`. -/
structure GNState (F R : Type) where
  n : Nat
  g : Vec F n
  H : Mat F n
  cost : Cost F R

/-- The `resize` of the solvers: gn.h:49-74, gd.h:37-62. `grad_` and `H_` always have the same size
here. A failed allocation leaves the state unchanged. -/
def gnResize (P : Problem F R W X) (w : W) (s : GNState F R) (dims : Int) :
    ResizeOut (GNState F R) × W :=
  match P.dims with
  | some d => if dims = d then (.done s, w) else (.invalidArg, w)
  | none =>
    if dims < 0 then (.invalidArg, w)
    else if (s.n : Int) = dims then (.done s, w)
    else
      match P.alloc w dims.toNat with
      | (some (g, H), w') => (.done ⟨dims.toNat, g, H, s.cost⟩, w')
      | (none, w') => (.badAlloc, w')

/-- `Accumulate` after `clear`: gn.h:77-81, 109-113. `ResizeIfNeeded(x)` (gn.h:84-94) has nothing to
do because `Optimizer_::ResizeIfNeeded` resized the solver for the same `x`. -/
def gnAccumulate (so : SolverOpts F) (P : Problem F R W X) (w : W) (s : GNState F R) (x : X) :
    GNState F R × W :=
  let ((c, g, H), w1) := P.acc.full w x s.n (fun _ => ofInt 0) (fun _ _ => ofInt 0)
  (⟨s.n, g, H, normalizeCost so c⟩, w1)

/-- `(H_.diagonal().cwiseAbs().array() < t).any()`, gn.h:131-132 -/
def lowDiag {n : Nat} (t : F) (H : Mat F n) : Bool :=
  (List.finRange n).any (fun i => lt (absF (H i i)) t)

/-- The system part of `Build` shared by gn.h:118-147 and lm.h:61-97: clear, accumulate, clip, check
the diagonal, fill the lower part. -/
def buildSystem (so : SolverOpts F) (P : Problem F R W X) (w : W) (s : GNState F R) (x : X) :
    Bool × GNState F R × W :=
  let (s1, w1) := gnAccumulate so P w s x
  if s1.cost.isValid then
    let s2 := { s1 with g := clampVec so.gradClip s1.g }
    if lt (ofInt 0) so.checkMinHDiag && lowDiag so.checkMinHDiag s2.H then (false, s2, w1)
    else
      (true, if !so.hIsFull && !so.useLdlt then { s2 with H := symUpper s2.H } else s2, w1)
  else (false, s1, w1)

/-- `SolveLDLT(H, -grad)`, math.h:232-240 (only the upper triangle is read) -/
def solveLDLT (L : LinAlg F) {n : Nat} (H : Mat F n) (b : Vec F n) : Option (Vec F n) :=
  L.ldlt n (symUpper H) b

/-- `SolverGN::Solve`, gn.h:150-171. `one` tells that `Dims == 1` at compile time. -/
def gnSolve (so : SolverOpts F) (L : LinAlg F) (one : Bool) (s : GNState F R) : Option (DVec F) :=
  if s.cost.isValid then
    if so.useLdlt then (solveLDLT L s.H (negVec s.g)).map (fun v => ⟨s.n, v⟩)
    else
      let full : DVec F := ⟨s.n, mulVecF (fun i j => neg (L.inv s.n s.H i j)) s.g⟩
      if one then
        if h : 0 < s.n then
          if lt eps (s.H ⟨0, h⟩ ⟨0, h⟩) then some full else some ⟨s.n, fun _ => ofInt 0⟩
        else some full
      else some full
  else none

/-- `SolverGN` as used by the optimizer; hooks are the no-ops of base.h:52-56 -/
def gnSolver (so : SolverOpts F) (L : LinAlg F) (P : Problem F R W X) :
    SolverI F R W (GNState F R) X (DVec F) (DMat F) where
  resize := gnResize P
  build := buildSystem so P
  solve := gnSolve so L (P.dims == some 1)
  cost := fun s => s.cost
  gradSq := fun s => sqNorm s.g
  gradient := fun s => ⟨s.n, s.g⟩
  goodStep := fun s _ => .ok s
  badStep := fun s => .ok s
  failedStep := fun s => .ok s
  rebuild := fun s _ => s
  hessian := fun s => ⟨s.n, s.H⟩

/-- `SolverGD::Build`, gd.h:107-128. There is no `H_`: the Hessian argument of the user function is
a `nullptr_t`, the model passes zeros, drops the result and keeps zeros. -/
def gdBuild (so : SolverOpts F) (P : Problem F R W X) (w : W) (s : GNState F R) (x : X) :
    Bool × GNState F R × W :=
  let (s1, w1) := gnAccumulate so P w s x
  (s1.cost.isValid, ⟨s1.n, clampVec so.gradClip s1.g, fun _ _ => ofInt 0, s1.cost⟩, w1)

/-- `SolverGD::Solve`, gd.h:131-134 -/
def gdSolve (so : SolverOpts F) (s : GNState F R) : Option (DVec F) :=
  if s.cost.isValid then some ⟨s.n, fun i => mul (neg so.lr) (s.g i)⟩ else none

/-- `SolverGD` -/
def gdSolver (so : SolverOpts F) (P : Problem F R W X) :
    SolverI F R W (GNState F R) X (DVec F) (DMat F) where
  resize := gnResize P
  build := gdBuild so P
  solve := gdSolve so
  cost := fun s => s.cost
  gradSq := fun s => sqNorm s.g
  gradient := fun s => ⟨s.n, s.g⟩
  goodStep := fun s _ => .ok s
  badStep := fun s => .ok s
  failedStep := fun s => .ok s
  rebuild := fun s _ => s
  hessian := fun s => ⟨s.n, s.H⟩

/-- State of a `SolverLM`, lm.h:190-194 on top of the state of `SolverGN`. -/
structure LMState (F R : Type) where
  gn : GNState F R
  lambda : F
  prev : F
  badF : F
  rebuild : Bool

/-- `SolverLM::reset`, lm.h:46-52 (also run by the constructor, lm.h:38-44) -/
def lmReset (so : SolverOpts F) (s : LMState F R) : LMState F R :=
  { gn := { s.gn with g := fun _ => ofInt 0, H := fun _ _ => ofInt 0 },
    lambda := so.dampInit, prev := ofInt 0, badF := so.badFactor, rebuild := true }

/-- multiply the diagonal, lm.h:112-117 -/
def scaleDiag {n : Nat} (s : F) (H : Mat F n) : Mat F n := fun i j =>
  if i = j then mul (H i j) s else H i j

/-- cost evaluation without derivatives, gn.h:98-105 -/
def lmEvaluate (so : SolverOpts F) (P : Problem F R W X) (w : W) (s : GNState F R) (x : X) :
    GNState F R × W :=
  let (c, w1) := P.acc.eval w x
  ({ s with cost := normalizeCost so c }, w1)

/-- the damping at the end of `Build`, lm.h:108-118 -/
def lmDamp (s : LMState F R) : LMState F R :=
  if lt (ofInt 0) s.lambda then
    let k := if s.rebuild then add (ofInt 1) s.lambda
      else div (add (ofInt 1) s.lambda) (add (ofInt 1) s.prev)
    { s with gn := { s.gn with H := scaleDiag k s.gn.H } }
  else s

/-- `SolverLM::Build`, lm.h:60-121 -/
def lmBuild (so : SolverOpts F) (P : Problem F R W X) (w : W) (s : LMState F R) (x : X) :
    Bool × LMState F R × W :=
  if s.rebuild then
    let (b, g1, w1) := buildSystem so P w s.gn x
    if b then (true, lmDamp { s with gn := g1 }, w1) else (false, { s with gn := g1 }, w1)
  else
    let (g1, w1) := lmEvaluate so P w s.gn x
    if g1.cost.isValid then (true, lmDamp { s with gn := g1 }, w1)
    else (false, { s with gn := g1 }, w1)

/-- the factor `s` of `GoodStep`, lm.h:124-132 -/
def goodScale (so : SolverOpts F) (q badF : F) : F :=
  let s := if ne q (ofInt 0) then
      let t := sub (ofInt 1) (cube (sub (mul (ofInt 2) q) (ofInt 1)))
      if lt so.goodFactor t then t else so.goodFactor
    else so.goodFactor
  if ne badF so.badFactor then div s badF else s

/-- `SolverLM::GoodStep`, lm.h:123-137 -/
def lmGood (so : SolverOpts F) (s : LMState F R) (q : F) : Res (LMState F R) :=
  (stdClamp (mul s.lambda (goodScale so q s.badF)) so.dampLo so.dampHi).map fun l =>
    { s with prev := s.lambda, lambda := l, badF := so.badFactor }

/-- `SolverLM::BadStep`, lm.h:140-145; `FailedStep` (148) is the same. -/
def lmBad (so : SolverOpts F) (s : LMState F R) : Res (LMState F R) :=
  (stdClamp (mul s.lambda s.badF) so.dampLo so.dampHi).map fun l =>
    { s with prev := s.lambda, lambda := l, badF := mul s.badF so.badFactor }

/-- `SolverLM::Hessian`, lm.h:157-171 -/
def lmHessian (s : LMState F R) : DMat F :=
  if lt (ofInt 0) s.prev then
    ⟨s.gn.n, fun i j => if i = j then div (s.gn.H i j) (add (ofInt 1) s.prev) else s.gn.H i j⟩
  else ⟨s.gn.n, s.gn.H⟩

/-- `SolverLM` -/
def lmSolver (so : SolverOpts F) (L : LinAlg F) (P : Problem F R W X) :
    SolverI F R W (LMState F R) X (DVec F) (DMat F) where
  resize := fun w s d =>
    match gnResize P w s.gn d with
    | (.done g, w') => (.done { s with gn := g }, w')
    | (.badAlloc, w') => (.badAlloc, w')
    | (.invalidArg, w') => (.invalidArg, w')
  build := lmBuild so P
  solve := fun s => gnSolve so L (P.dims == some 1) s.gn
  cost := fun s => s.gn.cost
  gradSq := fun s => sqNorm s.gn.g
  gradient := fun s => ⟨s.gn.n, s.gn.g⟩
  goodStep := lmGood so
  badStep := lmBad so
  failedStep := lmBad so
  rebuild := fun s b => { s with rebuild := b }
  hessian := lmHessian

/-- The optimizer instantiated with a solver on dense vectors. -/
def envOf {S : Type} (P : Problem F R W X) (sol : SolverI F R W S X (DVec F) (DMat F))
    (firstOrder : Bool) : Env F R W S X (DVec F) (DMat F) where
  sol := sol
  dimsDynamic := P.dims.isNone
  dynDims := P.dynDims
  plusEq := P.plusEq
  negV := fun d => ⟨d.n, negVec d.v⟩
  normSq := fun d => sqNorm d.v
  clock := P.clock
  firstOrder := firstOrder
  ratio1 := P.ratio1

/-- `Optimizer<SolverGN>` -/
def gnEnv (so : SolverOpts F) (L : LinAlg F) (P : Problem F R W X) := envOf P (gnSolver so L P) false
/-- `Optimizer<SolverLM>` -/
def lmEnv (so : SolverOpts F) (L : LinAlg F) (P : Problem F R W X) := envOf P (lmSolver so L P) false
/-- `Optimizer<SolverGD>` -/
def gdEnv (so : SolverOpts F) (P : Problem F R W X) := envOf P (gdSolver so P) true

/-- a newly constructed solver: size `P.dims` or 0, contents `g`, `H` arbitrary (a static size
Eigen object is not initialised by its constructor) -/
def gnFresh (P : Problem F R W X) (g : Vec F (P.dims.getD 0)) (H : Mat F (P.dims.getD 0)) : GNState F R :=
  ⟨P.dims.getD 0, g, H, { cost := ofInt 0, num := 0, inlier := P.ratio1 }⟩

/-- a newly constructed `SolverLM` (the constructor runs `reset`) -/
def lmFresh (so : SolverOpts F) (P : Problem F R W X) (g : Vec F (P.dims.getD 0))
    (H : Mat F (P.dims.getD 0)) : LMState F R :=
  lmReset so ⟨gnFresh P g H, ofInt 0, ofInt 0, ofInt 0, true⟩

end
end Verif
