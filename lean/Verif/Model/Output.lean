import Verif.Model.Solvers
/-!
# What is done with an `Output`: description, covariance; the differentiation branches of `Optimize`
-/

namespace Verif
open FloatOps

section
variable {F R W S X V M : Type} [FloatOps F]

/-- a piece of text written by `StopReasonDescription` -/
inductive Piece (F : Type) where
  | text (s : String)
  | num (v : F)
  | int (n : Nat)
  deriving DecidableEq

/-- `std::vector::back`, undefined on an empty vector -/
def vecBack {α : Type} (l : List α) : Res α :=
  match l.getLast? with
  | some a => .ok a
  | none => .ub

/-- `StopReasonDescription`, stop_reasons.h:46-134; `opt = none` is the call without options.
Emojis are left out of the texts. -/
def describe (out : Output F R M) (opt : Option (Options F W V)) : Res (List (Piece F)) :=
  match out.stop with
  | .kNone => .ok [.text "Optimization not ran or used with Step() (success)"]
  | .kMinError => .ok (.text "Reached minimum error (success)" ::
      match opt with
      | none => []
      | some o => [.text " e:[", .num out.finalCost.cost, .text " < ", .num o.minError, .text "]"])
  | .kMinRelError => .ok (.text "Reached minimum relative error (success)" ::
      match opt with
      | none => []
      | some o => [.text " e:[", .num out.finalRerr, .text " < ", .num o.minRerrDec, .text "]"])
  | .kMinDeltaNorm =>
    match opt with
    | none => .ok [.text "Reached minimal delta norm (success)"]
    | some o =>
      if out.deltas2.isEmpty then
        (vecBack out.deltas2).bind fun d => .ok [.text "Reached minimal delta norm (success)", .text " |dX|:[",
          .num d, .text " < ", .num (sqrt o.minStepNorm2), .text "]"]
      else .ok [.text "Reached minimal delta norm (success)", .text " [|dX| < ", .num (sqrt o.minStepNorm2), .text "]"]
  | .kMinGradNorm => .ok (.text "Reached minimal gradient (success)" ::
      match opt with
      | none => []
      | some o => [.text " [|grad| < ", .num (sqrt o.minGradNorm2), .text "]"])
  | .kMaxIters => .ok (.text "Reached maximum number of iterations (success)" ::
      match opt with
      | none => []
      | some o => [.text " [#it == ", .int o.maxIters, .text "]"])
  | .kMaxNoDecr => .ok (.text "Failed to decrease error too many times (success)" ::
      match opt with
      | none => []
      | some o => [.text " [=", .int o.maxTotalFailures, .text "]"])
  | .kMaxConsecNoDecr => .ok (.text "Failed to decrease error consecutively too many times (success)" ::
      match opt with
      | none => []
      | some o => [.text " [=", .int o.maxConsecFailures, .text "]"])
  | .kTimedOut => .ok (.text "Reached maximum allocated time (success)" ::
      match opt with
      | none => []
      | some o => [.text " t:[", .num out.duration, .text " > ", .num o.maxDurationMs, .text "ms]"])
  | .kUserStopped => .ok [.text "User stopped the process (success)"]
  | .kOutOfMemory => .ok [.text "Out of memory when allocating the Hessian(s), use SparseMatrix? (failure)"]
  | .kSystemHasNaNOrInf => .ok [.text "Residuals or Jacobians have NaNs or Inf (failure)"]
  | .kSolverFailed => .ok [.text "Failed to solve the normal equations (failure)"]
  | .kSkipped => .ok [.text "The system has no residuals or nothing to optimize (failure)"]

/-- column `j` of the identity -/
def unitCol {n : Nat} (j : Fin n) : Vec F n := fun i => if i = j then ofInt 1 else ofInt 0

/-- `DenseInvCov` for `MatX`, math.h:41-57 (`ColsAtCompileTime` is `Dynamic`). The success test of the
decomposition is taken to be the one of `LinAlg.ldlt` on all columns of the identity. -/
def denseInvCov (L : LinAlg F) (H : DMat F) : Option (DMat F) :=
  if H.n = 1 then some ⟨H.n, L.inv H.n H.m⟩
  else if 0 < H.n then
    if h : ∀ j : Fin H.n, (L.ldlt H.n (symUpper H.m) (unitCol j)).isSome then
      some ⟨H.n, fun i j => (L.ldlt H.n (symUpper H.m) (unitCol j)).get (h j) i⟩
    else none
  else none

/-- matrix times scalar -/
def DMat.scale (H : DMat F) (k : F) : DMat F := ⟨H.n, fun i j => mul (H.m i j) k⟩

/-- `Output::Covariance<MatX>`, output.h:80-93; a `Cost` converts to its `cost` (cost.h:48) -/
def covariance (L : LinAlg F) (out : Output F R (DMat F)) (rescaled : Bool) : Option (DMat F) :=
  match out.finalHessian with
  | none => none
  | some H =>
    match denseInvCov L H with
    | none => none
    | some C =>
      if rescaled && decide (out.numResiduals > H.n) then
        some (C.scale (div (mul out.finalCost.cost out.finalCost.cost) (ofInt ((out.numResiduals : Int) - H.n))))
      else some C

/-- the three branches of `Optimizer_::Optimize` -/
inductive DiffPath where
  /-- the user's function returns a cost and accepts jets -/
  | auto
  /-- it returns a cost but does not accept jets -/
  | numeric
  /-- it fills the gradient itself -/
  | acc
  deriving DecidableEq

/-- `Optimizer_::Optimize`, optimizer.h:146-191: what it does with the `Output`. `E` is the environment
with the accumulation function of the branch. -/
def optimize (p : DiffPath) (E : Env F R W S X V M) (o : Options F W V) (fuel : Nat) (maxIters : Int)
    (w : W) (s : S) (x : X) : Res (LoopSt F R W S X V M) :=
  match p with
  | .auto => optimizeAcc E o fuel maxIters w s x
  | .acc => optimizeAcc E o fuel maxIters w s x
  | .numeric =>
    let out : Output F R M := { Output.init E.ratio1 with numDiffUsed := true }
    let assign (_ new : Output F R M) : Output F R M := new
    (optimizeAcc E o fuel maxIters w s x).bind fun st => .ok { st with out := assign out st.out }

end
end Verif
