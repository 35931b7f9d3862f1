import Verif.Model.Solvers
import Verif.Num.Ieee
/-!
# Solvers whose `Scalar` is not `double`

`Cost`, `Output`, the cost changes and the stop criteria are `double` for every `Scalar` (cost.h:19, output.h:27,
optimizer.h:410-433), while gradient, Hessian, steps and damping are of the type `Scalar` of the solver. Here `S` stands
for `Scalar` and `D` for `double`; `up` and `down` are the conversions of C++ between them. `float` options are
taken as converted to the type in which they are used.
-/

namespace Verif
open FloatOps

/-- conversions between `Scalar` and `double` -/
structure Conv (S D : Type) where
  up : S → D
  down : D → S

/-- The user's accumulation function with gradient and Hessian of `Scalar`s and a `Cost` (of `double`s). -/
structure MxAcc (S D R W X : Type) where
  full : W → X → (n : Nat) → Vec S n → Mat S n → (Cost D R × Vec S n × Mat S n) × W
  eval : W → X → Cost D R × W

/-- What an instantiation gets from outside, see `Problem`. -/
structure MxProblem (S D R W X : Type) where
  acc : MxAcc S D R W X
  dims : Option Nat
  dynDims : X → Int
  plusEq : X → DVec S → X
  clock : W → D × W
  alloc : W → (n : Nat) → Option (Vec S n × Mat S n) × W
  ratio1 : R

/-- `grad_`, `H_` (gn.h:199-200) and `cost_` (base.h:67) -/
structure MxGN (S D R : Type) where
  n : Nat
  g : Vec S n
  H : Mat S n
  cost : Cost D R

/-- `lambda_`, `prev_lambda_`, `bad_factor_` (lm.h:190-194) are `Scalar`s -/
structure MxLM (S D R : Type) where
  gn : MxGN S D R
  lambda : S
  prev : S
  badF : S
  rebuild : Bool

section
variable {S D R W X : Type} [FloatOps S] [FloatOps D]

/-- `SolverBase::NormalizeCost`, base.h:41-45, on `double`s -/
def mxNormalize (so : SolverOpts S) (c : Cost D R) : Cost D R :=
  let a := if so.useSquaredNorm then c.cost else sqrt c.cost
  let b := if so.downscaleBy2 then mul a half else a
  { c with cost := if so.normalize && decide (c.num > 0) then div b (ofInt c.num) else b }

/-- the `resize` of the solvers: gn.h:49-74, gd.h:37-62, see `gnResize` -/
def mxResize (P : MxProblem S D R W X) (w : W) (s : MxGN S D R) (dims : Int) : ResizeOut (MxGN S D R) × W :=
  match P.dims with
  | some d => if dims = d then (.done s, w) else (.invalidArg, w)
  | none =>
    if dims < 0 then (.invalidArg, w)
    else if (s.n : Int) = dims then (.done s, w)
    else
      match P.alloc w dims.toNat with
      | (some (g, H), w') => (.done ⟨dims.toNat, g, H, s.cost⟩, w')
      | (none, w') => (.badAlloc, w')

/-- `Accumulate` after `clear`, gn.h:77-81, 109-113 -/
def mxAccumulate (so : SolverOpts S) (P : MxProblem S D R W X) (w : W) (s : MxGN S D R) (x : X) : MxGN S D R × W :=
  let ((c, g, H), w1) := P.acc.full w x s.n (fun _ => ofInt 0) (fun _ _ => ofInt 0)
  (⟨s.n, g, H, mxNormalize so c⟩, w1)

/-- the system part of `Build`, gn.h:118-147 and lm.h:61-97 -/
def mxBuildSystem (so : SolverOpts S) (P : MxProblem S D R W X) (w : W) (s : MxGN S D R) (x : X) : Bool × MxGN S D R × W :=
  let (s1, w1) := mxAccumulate so P w s x
  if s1.cost.isValid then
    let s2 := { s1 with g := clampVec so.gradClip s1.g }
    if lt (ofInt 0) so.checkMinHDiag && lowDiag so.checkMinHDiag s2.H then (false, s2, w1)
    else
      (true, if !so.hIsFull && !so.useLdlt then { s2 with H := symUpper s2.H } else s2, w1)
  else (false, s1, w1)

/-- `SolverGN::Solve`, gn.h:150-171: everything is a `Scalar` except the cost -/
def mxSolve (so : SolverOpts S) (L : LinAlg S) (one : Bool) (s : MxGN S D R) : Option (DVec S) :=
  if s.cost.isValid then
    if so.useLdlt then (solveLDLT L s.H (negVec s.g)).map (fun v => ⟨s.n, v⟩)
    else
      let full : DVec S := ⟨s.n, mulVecF (fun i j => neg (L.inv s.n s.H i j)) s.g⟩
      if one then
        if h : 0 < s.n then
          if lt eps (s.H ⟨0, h⟩ ⟨0, h⟩) then some full else some ⟨s.n, fun _ => ofInt 0⟩
        else some full
      else some full
  else none

/-- `SolverGN`; `GradientSquaredNorm()` (gn.h:196) is a `Scalar` that optimizer.h:415 converts to `double` -/
def mxGnSolver (cv : Conv S D) (so : SolverOpts S) (L : LinAlg S) (P : MxProblem S D R W X) :
    SolverI D R W (MxGN S D R) X (DVec S) (DMat S) where
  resize := mxResize P
  build := mxBuildSystem so P
  solve := mxSolve so L (P.dims == some 1)
  cost := fun s => s.cost
  gradSq := fun s => cv.up (sqNorm s.g)
  gradient := fun s => ⟨s.n, s.g⟩
  goodStep := fun s _ => .ok s
  badStep := fun s => .ok s
  failedStep := fun s => .ok s
  rebuild := fun s _ => s
  hessian := fun s => ⟨s.n, s.H⟩

/-- `SolverGD::Build`, gd.h:107-128 -/
def mxGdBuild (so : SolverOpts S) (P : MxProblem S D R W X) (w : W) (s : MxGN S D R) (x : X) : Bool × MxGN S D R × W :=
  let (s1, w1) := mxAccumulate so P w s x
  (s1.cost.isValid, ⟨s1.n, clampVec so.gradClip s1.g, fun _ _ => ofInt 0, s1.cost⟩, w1)

/-- `SolverGD::Solve`, gd.h:131-134: a `float` times a vector of `Scalar`s -/
def mxGdSolve (so : SolverOpts S) (s : MxGN S D R) : Option (DVec S) :=
  if s.cost.isValid then some ⟨s.n, fun i => mul (neg so.lr) (s.g i)⟩ else none

/-- `SolverGD` -/
def mxGdSolver (cv : Conv S D) (so : SolverOpts S) (P : MxProblem S D R W X) :
    SolverI D R W (MxGN S D R) X (DVec S) (DMat S) where
  resize := mxResize P
  build := mxGdBuild so P
  solve := mxGdSolve so
  cost := fun s => s.cost
  gradSq := fun s => cv.up (sqNorm s.g)
  gradient := fun s => ⟨s.n, s.g⟩
  goodStep := fun s _ => .ok s
  badStep := fun s => .ok s
  failedStep := fun s => .ok s
  rebuild := fun s _ => s
  hessian := fun s => ⟨s.n, s.H⟩

/-- one coefficient `h *= s` of lm.h:114 with a `Scalar h` and a `double s`: the product is one of `double`s -/
def mxScale (cv : Conv S D) (k : D) (h : S) : S := cv.down (mul (cv.up h) k)

/-- the factor `const double s` of lm.h:110-111 -/
def mxFactor (cv : Conv S D) (rebuild : Bool) (lambda prev : S) : D :=
  if rebuild then add (ofInt 1) (cv.up lambda) else div (add (ofInt 1) (cv.up lambda)) (add (ofInt 1) (cv.up prev))

/-- the damping at the end of `Build`, lm.h:108-118; `lambda_ > 0.0` compares `double`s -/
def mxDamp (cv : Conv S D) (s : MxLM S D R) : MxLM S D R :=
  if lt (ofInt 0) (cv.up s.lambda) then
    let k := mxFactor cv s.rebuild s.lambda s.prev
    { s with gn := { s.gn with H := fun i j => if i = j then mxScale cv k (s.gn.H i j) else s.gn.H i j } }
  else s

/-- `SolverLM::Build`, lm.h:60-121; the evaluation without derivatives is gn.h:98-105 -/
def mxLmBuild (cv : Conv S D) (so : SolverOpts S) (P : MxProblem S D R W X) (w : W) (s : MxLM S D R) (x : X) :
    Bool × MxLM S D R × W :=
  if s.rebuild then
    let (b, g1, w1) := mxBuildSystem so P w s.gn x
    if b then (true, mxDamp cv { s with gn := g1 }, w1) else (false, { s with gn := g1 }, w1)
  else
    let (c, w1) := P.acc.eval w x
    let g1 := { s.gn with cost := mxNormalize so c }
    if g1.cost.isValid then (true, mxDamp cv { s with gn := g1 }, w1)
    else (false, { s with gn := g1 }, w1)

/-- `SolverLM::GoodStep`, lm.h:123-137; the `double` quality becomes a `Scalar` by the call -/
def mxGood (cv : Conv S D) (so : SolverOpts S) (s : MxLM S D R) (q : D) : Res (MxLM S D R) :=
  (stdClamp (mul s.lambda (goodScale so (cv.down q) s.badF)) so.dampLo so.dampHi).map fun l =>
    { s with prev := s.lambda, lambda := l, badF := so.badFactor }

/-- `SolverLM::BadStep`, lm.h:140-145, and `FailedStep` (148) -/
def mxBad (so : SolverOpts S) (s : MxLM S D R) : Res (MxLM S D R) :=
  (stdClamp (mul s.lambda s.badF) so.dampLo so.dampHi).map fun l =>
    { s with prev := s.lambda, lambda := l, badF := mul s.badF so.badFactor }

/-- `SolverLM::Hessian`, lm.h:157-171, with `const Scalar s` -/
def mxHessian (cv : Conv S D) (s : MxLM S D R) : DMat S :=
  if lt (ofInt 0) (cv.up s.prev) then
    ⟨s.gn.n, fun i j => if i = j then div (s.gn.H i j) (add (ofInt 1) s.prev) else s.gn.H i j⟩
  else ⟨s.gn.n, s.gn.H⟩

/-- `SolverLM` -/
def mxLmSolver (cv : Conv S D) (so : SolverOpts S) (L : LinAlg S) (P : MxProblem S D R W X) :
    SolverI D R W (MxLM S D R) X (DVec S) (DMat S) where
  resize := fun w s d =>
    match mxResize P w s.gn d with
    | (.done g, w') => (.done { s with gn := g }, w')
    | (.badAlloc, w') => (.badAlloc, w')
    | (.invalidArg, w') => (.invalidArg, w')
  build := mxLmBuild cv so P
  solve := fun s => mxSolve so L (P.dims == some 1) s.gn
  cost := fun s => s.gn.cost
  gradSq := fun s => cv.up (sqNorm s.gn.g)
  gradient := fun s => ⟨s.gn.n, s.gn.g⟩
  goodStep := mxGood cv so
  badStep := mxBad so
  failedStep := mxBad so
  rebuild := fun s b => { s with rebuild := b }
  hessian := mxHessian cv

/-- The optimizer with such a solver; `dx.squaredNorm()` is a `Scalar` that optimizer.h:411 converts to `double`. -/
def mxEnv {T : Type} (cv : Conv S D) (P : MxProblem S D R W X) (sol : SolverI D R W T X (DVec S) (DMat S))
    (firstOrder : Bool) : Env D R W T X (DVec S) (DMat S) where
  sol := sol
  dimsDynamic := P.dims.isNone
  dynDims := P.dynDims
  plusEq := P.plusEq
  negV := fun d => ⟨d.n, negVec d.v⟩
  normSq := fun d => cv.up (sqNorm d.v)
  clock := P.clock
  firstOrder := firstOrder
  ratio1 := P.ratio1

/-- `Optimizer<SolverGN>` -/
def mxGnEnv (cv : Conv S D) (so : SolverOpts S) (L : LinAlg S) (P : MxProblem S D R W X) := mxEnv cv P (mxGnSolver cv so L P) false
/-- `Optimizer<SolverLM>` -/
def mxLmEnv (cv : Conv S D) (so : SolverOpts S) (L : LinAlg S) (P : MxProblem S D R W X) := mxEnv cv P (mxLmSolver cv so L P) false
/-- `Optimizer<SolverGD>` -/
def mxGdEnv (cv : Conv S D) (so : SolverOpts S) (P : MxProblem S D R W X) := mxEnv cv P (mxGdSolver cv so P) true

/-- a newly constructed solver, see `gnFresh` -/
def mxGnFresh (P : MxProblem S D R W X) (g : Vec S (P.dims.getD 0)) (H : Mat S (P.dims.getD 0)) : MxGN S D R :=
  ⟨P.dims.getD 0, g, H, { cost := ofInt 0, num := 0, inlier := P.ratio1 }⟩

/-- a newly constructed `SolverLM`: the constructor runs `reset`, lm.h:38-52 -/
def mxLmFresh (so : SolverOpts S) (P : MxProblem S D R W X) : MxLM S D R :=
  ⟨mxGnFresh P (fun _ => ofInt 0) (fun _ _ => ofInt 0), so.dampInit, ofInt 0, so.badFactor, true⟩

end

/-! ## `float` and `double` -/

/-- conversion between formats: rounded to the nearest number of the other format, or infinite -/
def Fl.conv {f g : Fmt} : Fl f → Fl g
  | .nan => .nan
  | .pinf => .pinf
  | .ninf => .ninf
  | .fin q _ => .mk q

/-- A `float`. -/
abbrev Sgl := Fl Fmt.binary32

/-- A `double` inside an optimizer whose `Scalar` is `float`: the arithmetic is that of binary64, but `FloatEpsilon<Scalar>()`
and `std::numeric_limits<Scalar>::max()` (optimizer.h:384, 431-432) are those of `float`. -/
structure DblF where
  v : Fl Fmt.binary64

namespace DblF

instance : FloatOps DblF where
  add a b := ⟨add a.v b.v⟩
  sub a b := ⟨sub a.v b.v⟩
  mul a b := ⟨mul a.v b.v⟩
  div a b := ⟨div a.v b.v⟩
  neg a := ⟨neg a.v⟩
  ofInt n := ⟨ofInt n⟩
  half := ⟨half⟩
  sqrt a := ⟨sqrt a.v⟩
  cube a := ⟨cube a.v⟩
  lt a b := lt a.v b.v
  eq a b := eq a.v b.v
  isNaN a := isNaN a.v
  isInf a := isInf a.v
  maxVal := ⟨maxVal⟩
  eps := ⟨Fl.conv (eps : Sgl)⟩
  scalarMax := ⟨Fl.conv (maxVal : Sgl)⟩

end DblF

/-- a literal with the suffix `f`, read as a `float` -/
def litS (q : ℚ) : Sgl := Fl.mk q

/-- a literal with the suffix `f`, compared with `double`s -/
def litF (q : ℚ) : DblF := ⟨Fl.mk (Fmt.binary32.rnd q)⟩

/-- the conversions between `float` and `double` -/
def convF : Conv Sgl DblF where
  up a := ⟨Fl.conv a⟩
  down a := Fl.conv a.v

/-- The problem of `TestSqrt2`, tests/sqrt2.cpp:30-48, with `float x`: residual, derivatives and the returned square are `float`s, the `Cost` made from it is
a `double` (cost.h:22). -/
def sqrtProbMx {R W : Type} (ratio1 : R) (clock : W → DblF × W) (alloc : W → (k : Nat) → Option (Vec Sgl k × Mat Sgl k) × W) :
    MxProblem Sgl DblF R W Sgl where
  acc :=
    { full := fun w x _ g H =>
        let res : Sgl := sub (mul x x) (ofInt 2)
        let J : Sgl := mul (ofInt 2) x
        (({ cost := convF.up (mul res res), num := 1, inlier := ratio1 }, (fun i => if i.1 = 0 then mul J res else g i),
          (fun i j => if i.1 = 0 ∧ j.1 = 0 then mul J J else H i j)), w)
      eval := fun w x =>
        let res : Sgl := sub (mul x x) (ofInt 2)
        ({ cost := convF.up (mul res res), num := 1, inlier := ratio1 }, w) }
  dims := some 1
  dynDims := fun _ => 1
  plusEq := fun x d => if h : 0 < d.n then add x (d.v ⟨0, h⟩) else x
  clock := clock
  alloc := alloc
  ratio1 := ratio1

end Verif
