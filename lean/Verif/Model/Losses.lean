import Mathlib.Analysis.SpecialFunctions.Complex.Arg
import Mathlib.Analysis.SpecialFunctions.Log.Basic
import Mathlib.Analysis.SpecialFunctions.Sqrt
import Mathlib.LinearAlgebra.Matrix.NonsingularInverse
/-!
# Losses, norms, activations and distances, in exact arithmetic

`include/tinyopt/losses/*.h` and `include/tinyopt/distances.h`, over the real numbers: rounding, overflow and NaN are not
modelled here (`T` = `ℝ`). Vectors are `Fin n → ℝ`, row Jacobians too, and Jacobian matrices are `Matrix`.

Each C++ function is a template over the type of `Jx_or_bool`; the suffix tells which instance a definition models:
no suffix for `nullptr` (value only), `J` for a `bool` (value and own Jacobian, of which the definition is the Jacobian), `Jx` for an
input Jacobian `Jx` (of which the definition is the Jacobian).
-/

namespace Verif
namespace Loss

open Matrix

abbrev RVec (n : Nat) := Fin n → ℝ
abbrev RMat (m n : Nat) := Matrix (Fin m) (Fin n) ℝ

/-! ## Norms: losses/norms.h -/

/-- `SquaredL2(x)` of a vector, norms.h:18-28 -/
noncomputable def sqL2 {n} (x : RVec n) : ℝ := ∑ i, x i * x i

/-- `SquaredL2(x, true, add_scale)`, the Jacobian, norms.h:31-43 -/
noncomputable def sqL2J {n} (x : RVec n) (addScale : Bool := true) : RVec n :=
  if addScale then fun i => 2 * x i else x

/-- `SquaredL2(x, Jx, add_scale)`, the Jacobian, norms.h:31-45 -/
noncomputable def sqL2Jx {n k} (x : RVec n) (A : RMat n k) (addScale : Bool := true) : RVec k :=
  sqL2J x addScale ᵥ* A

/-- `SquaredL2(x)` of a scalar, norms.h:26 -/
noncomputable def sqL2S (x : ℝ) : ℝ := x * x

/-- `SquaredL2(x, true | Jx, add_scale)` of a scalar: the Jacobian; `Jx` is ignored, norms.h:46 -/
noncomputable def sqL2SJ (x : ℝ) (addScale : Bool := true) : ℝ := if addScale then 2 * x else x

/-- `L2(x)` of a vector, norms.h:51-62 -/
noncomputable def l2 {n} (x : RVec n) : ℝ := √(∑ i, x i * x i)

/-- `L2(x, true)`, the Jacobian, norms.h:65-75; `eps` is `FloatEpsilon()`, math.h:297-301 -/
noncomputable def l2J (eps : ℝ) {n} (x : RVec n) : RVec n :=
  if l2 x > eps then fun i => x i / l2 x else x

/-- `L2(x, Jx)`, the Jacobian, norms.h:65-77 -/
noncomputable def l2Jx (eps : ℝ) {n k} (x : RVec n) (A : RMat n k) : RVec k := l2J eps x ᵥ* A

/-- `L2(x)` of a scalar, norms.h:59-60 -/
noncomputable def l2S (x : ℝ) : ℝ := |x|

/-- `L2(x, true | Jx)` of a scalar, the Jacobian, norms.h:78 -/
noncomputable def l2SJ (_x : ℝ) : ℝ := 1

/-- Eigen's `sign()` of a coefficient -/
noncomputable def sgn (x : ℝ) : ℝ := if x > 0 then 1 else if x < 0 then -1 else 0

/-- `L1(x)` of a vector, norms.h:83-94 -/
noncomputable def l1 {n} (x : RVec n) : ℝ := ∑ i, |x i|

/-- `L1(x, true)`, the Jacobian, norms.h:97-107. The instance with `Jx` multiplies an Eigen array with a matrix, which does not
compile, and is not modelled. -/
noncomputable def l1J {n} (x : RVec n) : RVec n := fun i => sgn (x i)

/-- `L1(x)` of a scalar, norms.h:91-92 -/
noncomputable def l1S (x : ℝ) : ℝ := |x|

/-- `L1(x, true | Jx)` of a scalar, the Jacobian, norms.h:111 -/
noncomputable def l1SJ (_x : ℝ) : ℝ := 1

/-- `Linf(x)` of a vector, norms.h:116-127 (`lpNorm<Infinity>`, which is 0 for an empty vector) -/
noncomputable def linf {n} (x : RVec n) : ℝ := (List.ofFn x).foldl (fun m v => max m |v|) 0

/-- Eigen's `cwiseAbs().maxCoeff(&idx)` on a non-empty vector: visits the coefficients in order and keeps the first maximum -/
noncomputable def argmaxAbs {n} (x : RVec (n + 1)) : Fin (n + 1) :=
  (List.finRange (n + 1)).foldl (fun b i => if |x i| > |x b| then i else b) 0

/-- `Linf(x, true)`, norms.h:130-146: the value and the Jacobian -/
noncomputable def linfJ {n} (x : RVec (n + 1)) : ℝ × RVec (n + 1) :=
  (|x (argmaxAbs x)|, fun i => if i = argmaxAbs x then (if x (argmaxAbs x) ≥ 0 then 1 else -1) else 0)

/-- `Linf(x, Jx)`, norms.h:130-147: the value and the Jacobian -/
noncomputable def linfJx {n k} (x : RVec (n + 1)) (A : RMat (n + 1) k) : ℝ × RVec k :=
  ((linfJ x).1, (linfJ x).2 ᵥ* A)

/-- `Linf(x)` of a scalar, norms.h:124-125 -/
noncomputable def linfS (x : ℝ) : ℝ := |x|

/-- `Linf(x, true | Jx)` of a scalar, norms.h:148-152: the value and the Jacobian -/
noncomputable def linfSJ (x : ℝ) : ℝ × ℝ := if x ≥ 0 then (x, 1) else (-x, -1)

/-! ## Robust losses: losses/robust_norms.h -/

/-- the seven robust functions -/
inductive Robust
  | truncated | huber | tukey | arctan | cauchy | gemanMcClure | blakeZisserman
deriving DecidableEq

/-- `std::numeric_limits<double>::min()` -/
noncomputable def minPos : ℝ := 1 / 2 ^ 1022

/-- `std::atan2` -/
noncomputable def atan2 (y x : ℝ) : ℝ := Complex.arg ⟨x, y⟩

/-- the loss `l`: Truncated robust_norms.h:41, Huber :80,90-91, Tukey :129-130,141, Arctan :178-179, Cauchy :216-217,
GemanMcClure :253-254, BlakeZisserman :291-292 -/
noncomputable def robust (k : Robust) (n2 th2 : ℝ) : ℝ :=
  match k with
  | .truncated => if n2 ≤ th2 then n2 else th2
  | .huber => if n2 ≤ th2 then n2 else
      let th := √th2
      let n := √n2
      2 * th * n - th2
  | .tukey => if n2 ≤ th2 then
      let s := 1 - n2 / th2
      let s2 := s * s
      th2 * (1 - s2 * s)
    else th2
  | .arctan =>
      let th := √th2
      th * atan2 n2 th
  | .cauchy =>
      let s := 1 + n2 / th2
      th2 * Real.log s
  | .gemanMcClure =>
      let e2_th2 := n2 + th2
      n2 / e2_th2
  | .blakeZisserman =>
      let epsilon := Real.exp (-th2);
      -Real.log (Real.exp (-n2) + epsilon)

/-- the scale exported when `Jx_or_bool` is a `bool`: Truncated robust_norms.h:45, Huber :85,95-97, Tukey :134-136,146, Arctan :183-186,
Cauchy :221-223, GemanMcClure :258-260, BlakeZisserman :296-298 -/
noncomputable def robustScale (k : Robust) (n2 th2 : ℝ) : ℝ :=
  match k with
  | .truncated => if n2 ≤ th2 then 1 else 0
  | .huber => if n2 ≤ th2 then 1 else
      let th := √th2
      let n := √n2
      max minPos (th / n)
  | .tukey => if n2 ≤ th2 then 3 * (th2 - n2) * (th2 - n2) / (th2 * th2) else 0
  | .arctan =>
      let tmp := n2 * n2 / th2
      max minPos (1 / (tmp + 1))
  | .cauchy =>
      let s := 1 + n2 / th2
      max minPos (1 / s)
  | .gemanMcClure =>
      let e2_th2 := n2 + th2
      th2 / (e2_th2 * e2_th2)
  | .blakeZisserman =>
      let epsilon := Real.exp (-th2);
      1 / (epsilon * Real.exp n2 + 1)

/-- the Jacobian exported when `Jx_or_bool` is a row Jacobian: Truncated robust_norms.h:47-52, Huber :87,99, Tukey :138,148, Arctan :188,
Cauchy :225, GemanMcClure :262, BlakeZisserman :300 -/
noncomputable def robustJx (k : Robust) (n2 th2 : ℝ) {m} (J : RVec m) : RVec m :=
  match k with
  | .truncated => if n2 ≤ th2 then J else 0
  | .huber => if n2 ≤ th2 then J else
      let th := √th2
      let n := √n2
      max minPos (th / n) • J
  | .tukey => if n2 ≤ th2 then (3 * (th2 - n2) * (th2 - n2) / (th2 * th2)) • J else 0
  | .arctan =>
      let tmp := n2 * n2 / th2
      max minPos (1 / (tmp + 1)) • J
  | .cauchy =>
      let s := 1 + n2 / th2
      max minPos (1 / s) • J
  | .gemanMcClure =>
      let e2_th2 := n2 + th2
      (th2 / (e2_th2 * e2_th2)) • J
  | .blakeZisserman =>
      let epsilon := Real.exp (-th2);
      (1 / (epsilon * Real.exp n2 + 1)) • J

/-- `TruncatedLoss(x, th2)`, ... of a vector: robust_norms.h:59-63, 110-114, 157-161, 196-200, 233-237, 270-274, 308-312 -/
noncomputable def robustLoss (k : Robust) {n} (x : RVec n) (th2 : ℝ) : ℝ := robust k (sqL2 x) th2

/-- `TruncatedLoss(x, th2, true)`, ...: the Jacobian. `SquaredL2` returns a pair, so the overload for pairs is used, which passes the
Jacobian of `SquaredL2` on (robust_norms.h:37-38 and alike). -/
noncomputable def robustLossJ (k : Robust) {n} (x : RVec n) (th2 : ℝ) : RVec n := robustJx k (sqL2 x) th2 (sqL2J x)

/-- `TruncatedLoss(x, th2, Jx)`, ...: the Jacobian -/
noncomputable def robustLossJx (k : Robust) {n m} (x : RVec n) (th2 : ℝ) (A : RMat n m) : RVec m :=
  robustJx k (sqL2 x) th2 (sqL2Jx x A)

/-! ## Classification: losses/classif.h -/

/-- the Jacobian loop shared by `Softmax` and `SafeSoftmax`: classif.h:39-45, 76-82 (fill the lower triangle, then copy it to the upper one) -/
noncomputable def softmaxJo {n} (out : RVec n) : RMat n n :=
  let lower : RMat n n := fun r c => if c ≤ r then (if r = c then out c * (1 - out c) else -out r * out c) else 0
  fun r c => if r ≤ c then lower c r else lower r c

/-- `Softmax(x)` of a vector, classif.h:31-34 -/
noncomputable def softmax {n} (x : RVec n) : RVec n :=
  let sum := ∑ i, Real.exp (x i)
  fun i => Real.exp (x i) / sum

/-- `Softmax(x, Jx)`, the Jacobian, classif.h:38-46. With `true` for `Jx`, Eigen multiplies by the scalar 1: `A = 1`. -/
noncomputable def softmaxJx {n k} (x : RVec n) (A : RMat n k) : RMat n k := softmaxJo (softmax x) * A

/-- Eigen's `maxCoeff()` of a non-empty vector -/
noncomputable def maxCoeff {n} (x : RVec (n + 1)) : ℝ := (List.ofFn x).foldl max (x 0)

/-- `SafeSoftmax(x)` of a vector, classif.h:67-71 (`maxCoeff` fails an assertion on an empty vector) -/
noncomputable def safeSoftmax {n} (x : RVec (n + 1)) : RVec (n + 1) :=
  let mx := maxCoeff x
  let sum := ∑ i, Real.exp (x i - mx)
  fun i => Real.exp (x i - mx) / sum

/-- the arguments of the exponentials evaluated by `SafeSoftmax`, classif.h:69,71 -/
noncomputable def safeSoftmaxArgs {n} (x : RVec (n + 1)) : RVec (n + 1) := fun i => x i - maxCoeff x

/-- `SafeSoftmax(x, Jx)`, the Jacobian, classif.h:75-83 -/
noncomputable def safeSoftmaxJx {n k} (x : RVec (n + 1)) (A : RMat (n + 1) k) : RMat (n + 1) k := softmaxJo (safeSoftmax x) * A

/-! ## Activations: losses/activations.h and the macros of losses/helpers.h -/

/-- the four activations; `leaky a` is `LeakyReLU(x, a)` -/
inductive Activation
  | sigmoid | tanh | relu | leaky (a : ℝ)

/-- the activation of a scalar: activations.h:16-31, helpers.h:27-28, 73-74 -/
noncomputable def Activation.f : Activation → ℝ → ℝ
  | .sigmoid, x => 1 / (1 + Real.exp (-x))
  | .tanh, x => (Real.exp x - Real.exp (-x)) / (Real.exp x + Real.exp (-x))
  | .relu, x => if x > 0 then x else 0
  | .leaky a, x => if x > 0 then x else a * x

/-- the derivative exported for a scalar: helpers.h:45-51, 91-97 -/
noncomputable def Activation.scalarJ : Activation → ℝ → ℝ
  | _, _ => 0

/-- the activation of a vector: helpers.h:22-25, 68-71 -/
noncomputable def Activation.vec (k : Activation) {n} (x : RVec n) : RVec n := fun i => k.f (x i)

/-- the Jacobian exported for a vector: activations.h:18-31, helpers.h:37-44, 83-90; Sigmoid and Tanh read the loss `l` -/
noncomputable def Activation.vecJ (k : Activation) {n} (x : RVec n) : RMat n n :=
  match k with
  | .sigmoid => Matrix.diagonal fun i => k.vec x i * (1 - k.vec x i)
  | .tanh => Matrix.diagonal fun i => 1 - k.vec x i * k.vec x i
  | .relu => Matrix.diagonal fun i => if x i > 0 then 1 else 0
  | .leaky a => Matrix.diagonal fun i => if x i > 0 then 1 else a

/-- the Jacobian exported for a vector and an input Jacobian: helpers.h:39, 85 -/
noncomputable def Activation.vecJx (k : Activation) {n m} (x : RVec n) (A : RMat n m) : RMat n m := k.vecJ x * A

/-! ## Mahalanobis: losses/mahalanobis.h -/

/-- `selfadjointView<Upper>()`: only the upper triangle is read -/
def symU {n} (S : RMat n n) : RMat n n := fun i j => if i ≤ j then S i j else S j i

/-- `triangularView<Upper>()` -/
def triU {n} (S : RMat n n) : RMat n n := fun i j => if i ≤ j then S i j else 0

/-- Eigen's decompositions, as used by `DenseInvCov` (math.h:52-54: `ldlt()` and the solution of the identity; `none` when the matrix is
not positive) and by `MahaWhitened` (mahalanobis.h:143: the factor `matrixL()` of `llt()`); a parameter here, the theorems state what they need; `eigenFact` (C115) is the instance with Eigen's algorithms -/
structure Fact (n : Nat) where
  ldltInv : RMat n n → Option (RMat n n)
  lltL : RMat n n → RMat n n

/-- `MahaSquaredNorm(x, var)` of a scalar: the value, mahalanobis.h:22-24 -/
noncomputable def mahaSqS (eps x var : ℝ) : ℝ :=
  let s := if var < eps then 1 else 1 / var
  x * x * s

/-- `MahaSquaredNorm(x, var, true, add_scale)` of a scalar: the Jacobian, mahalanobis.h:25-27 -/
noncomputable def mahaSqSJ (eps x var : ℝ) (addScale : Bool := true) : ℝ :=
  let s := if var < eps then 1 else 1 / var
  if addScale then 2 * s * x else s * x

/-- `MahaNorm(x, var)` of a scalar, mahalanobis.h:91-93 -/
noncomputable def mahaS (eps x var : ℝ) : ℝ := √(mahaSqS eps x var)

/-- `MahaNorm(x, var, true)` of a scalar: the Jacobian, mahalanobis.h:94-99 -/
noncomputable def mahaSJ (eps x var : ℝ) : ℝ :=
  let n := √(mahaSqS eps x var)
  let s := if n > eps then n else 1
  mahaSqSJ eps x var false / s

/-- `MahaSquaredNorm(x, vars)` with variances, mahalanobis.h:38-40, 47-50 -/
noncomputable def mahaSqVar {n} (x v : RVec n) : ℝ := x ⬝ᵥ (Matrix.diagonal (fun i => (v i)⁻¹) *ᵥ x)

/-- `MahaSquaredNorm(x, vars, true, add_scale)` with variances: the Jacobian, mahalanobis.h:60-63, 77-79 -/
noncomputable def mahaSqVarJ {n} (x v : RVec n) (addScale : Bool := true) : RVec n :=
  let Jt := Matrix.diagonal (fun i => (v i)⁻¹) *ᵥ x
  if addScale then (2 : ℝ) • Jt else Jt

/-- `MahaSquaredNorm(x, cov)` with a covariance matrix of at least 2 columns, mahalanobis.h:42-46; `none` is the exception -/
noncomputable def mahaSqCov {n} (o : Fact n) (x : RVec n) (S : RMat n n) : Option ℝ :=
  (o.ldltInv (symU S)).map fun I => x ⬝ᵥ (I *ᵥ x)

/-- `MahaSquaredNorm(x, cov, true, add_scale)`: the Jacobian, mahalanobis.h:65-70, 77-79 -/
noncomputable def mahaSqCovJ {n} (o : Fact n) (x : RVec n) (S : RMat n n) (addScale : Bool := true) : Option (RVec n) :=
  (o.ldltInv (symU S)).map fun I =>
    let Jt := I *ᵥ x
    if addScale then (2 : ℝ) • Jt else Jt

/-- `MahaSquaredNorm(x, cov, Jx, add_scale)`: the Jacobian, mahalanobis.h:80-81 -/
noncomputable def mahaSqCovJx {n k} (o : Fact n) (x : RVec n) (S : RMat n n) (A : RMat n k) (addScale : Bool := true) : Option (RVec k) :=
  (mahaSqCovJ o x S addScale).map (· ᵥ* A)

/-- `MahaNorm(x, cov)`, mahalanobis.h:91-93 -/
noncomputable def mahaCov {n} (o : Fact n) (x : RVec n) (S : RMat n n) : Option ℝ := (mahaSqCov o x S).map fun n2 => √n2

/-- `MahaNorm(x, cov, true)`: the Jacobian, mahalanobis.h:100-104 -/
noncomputable def mahaCovJ (eps : ℝ) {n} (o : Fact n) (x : RVec n) (S : RMat n n) : Option (RVec n) :=
  (mahaSqCov o x S).bind fun n2 => (mahaSqCovJ o x S false).map fun J =>
    let nn := √n2
    let s := if nn > eps then nn else 1
    fun i => J i / s

/-- `MahaNorm(x, cov, Jx)`: the Jacobian, mahalanobis.h:100-104 -/
noncomputable def mahaCovJx (eps : ℝ) {n k} (o : Fact n) (x : RVec n) (S : RMat n n) (A : RMat n k) : Option (RVec k) :=
  (mahaSqCov o x S).bind fun n2 => (mahaSqCovJx o x S A false).map fun J =>
    let nn := √n2
    let s := if nn > eps then nn else 1
    fun i => J i / s

/-- `MahaWhitened(res, stdev)` with one standard deviation, mahalanobis.h:115 -/
noncomputable def whitenIso {n} (r : RVec n) (σ : ℝ) : RVec n := fun i => r i / σ

/-- `MahaWhitened(res, stdev, true)`: the Jacobian, mahalanobis.h:120 (a scalar, meaning that multiple of the identity) -/
noncomputable def whitenIsoJ (σ : ℝ) : ℝ := 1 / σ

/-- `MahaWhitened(res, stdevs)`, mahalanobis.h:127 -/
noncomputable def whitenDev {n} (r σ : RVec n) : RVec n := fun i => r i / σ i

/-- `MahaWhitened(res, stdevs, true)`: the Jacobian, mahalanobis.h:134 -/
noncomputable def whitenDevJ {n} (σ : RVec n) : RMat n n := Matrix.diagonal fun i => (σ i)⁻¹

/-- `MahaWhitened(res, cov)`, mahalanobis.h:143-144; the triangular solve is written with the inverse of the factor -/
noncomputable def whitenCov {n} (o : Fact n) (r : RVec n) (S : RMat n n) : RVec n := (o.lltL (symU S))⁻¹ *ᵥ r

/-- `MahaWhitened(res, cov, true)`: the Jacobian, mahalanobis.h:150 -/
noncomputable def whitenCovJ {n} (o : Fact n) (S : RMat n n) : RMat n n := (o.lltL (symU S))⁻¹ * 1

/-- `MahaWhitened(res, cov, Jx)`: the Jacobian, mahalanobis.h:152 -/
noncomputable def whitenCovJx {n k} (o : Fact n) (S : RMat n n) (A : RMat n k) : RMat n k := (o.lltL (symU S))⁻¹ * A

/-- `MahaWhitenedInfoU(res, U)`, mahalanobis.h:163-164 -/
noncomputable def whitenU {n} (r : RVec n) (U : RMat n n) : RVec n := triU U *ᵥ r

/-- `MahaWhitenedInfoU(res, U, true)`: the Jacobian, mahalanobis.h:169 -/
noncomputable def whitenUJ {n} (U : RMat n n) : RMat n n := U

/-- `MahaWhitenedInfoU(res, U, Jx)`: the Jacobian, mahalanobis.h:171 -/
noncomputable def whitenUJx {n k} (U : RMat n n) (A : RMat n k) : RMat n k := triU U * A

/-! ## Distances: distances.h -/

/-- `Euclidean(a, b)`, distances.h:18 -/
noncomputable def euclidean {n} (a b : RVec n) : ℝ := l2 (a - b)
/-- `Euclidean(a, b, true)`: the two Jacobians, distances.h:24-25 -/
noncomputable def euclideanJ (eps : ℝ) {n} (a b : RVec n) : RVec n × RVec n := (l2J eps (a - b), -l2J eps (a - b))
/-- `Manhattan(a, b)`, distances.h:37 -/
noncomputable def manhattan {n} (a b : RVec n) : ℝ := l1 (a - b)
/-- `Manhattan(a, b, true)`: the two Jacobians, distances.h:43-44 -/
noncomputable def manhattanJ {n} (a b : RVec n) : RVec n × RVec n := (l1J (a - b), -l1J (a - b))
/-- `Linf(a, b)`, distances.h:56 -/
noncomputable def linfDist {n} (a b : RVec n) : ℝ := linf (a - b)
/-- `Linf(a, b, true)`: the two Jacobians, distances.h:62-63 -/
noncomputable def linfDistJ {n} (a b : RVec (n + 1)) : RVec (n + 1) × RVec (n + 1) := ((linfJ (a - b)).2, -(linfJ (a - b)).2)

/-- `Cosine(a, b)` of scalars, distances.h:70-71 -/
noncomputable def cosineS (_a _b : ℝ) : ℝ := 0

/-- `Cosine(a, b)` of vectors of dynamic size: `TA(0)` is a vector of size 0, distances.h:70-71 -/
noncomputable def cosine {n} (_a _b : RVec n) : RVec 0 := fun i => i.elim0

/-- `Cosine(a, b, true)` of scalars, distances.h:72-73 -/
noncomputable def cosineSJ (_a _b : ℝ) : ℝ × ℝ × ℝ := (0, 0, 0)

/-- `Cosine(a, b, true)` of vectors: the value and the two Jacobians, distances.h:74-90; `eps2` is `FloatEpsilon2()` -/
noncomputable def cosineJ (eps2 : ℝ) {n} (a b : RVec n) : ℝ × RVec n × RVec n :=
  let na := l2 a
  let nb := l2 b
  if na * nb < eps2 then (0, 0, 0)
  else
    let ab := a ⬝ᵥ b
    (ab / (na * nb),
     fun i => b i / (na * nb) - ab * a i / (na * na * na * nb),
     fun i => a i / (na * nb) - ab * b i / (na * nb * nb))

end Loss
end Verif
