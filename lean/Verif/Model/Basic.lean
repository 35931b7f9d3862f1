import Verif.Num.FloatOps
/-!
# Outcomes, stop reasons, cost, output, options
-/

namespace Verif

/-- Outcome of a modelled C++ function. -/
inductive Res (α : Type) where
  | ok (a : α)
  /-- undefined behaviour -/
  | ub
  /-- a C++ exception leaves the function -/
  | throw
  /-- the model ran out of fuel: the C++ loop did not end within the given number of rounds -/
  | fuel
  deriving DecidableEq, Repr

namespace Res
def bind {α β : Type} (r : Res α) (f : α → Res β) : Res β :=
  match r with
  | ok a => f a
  | ub => ub
  | throw => throw
  | fuel => fuel

def map {α β : Type} (f : α → β) (r : Res α) : Res β := r.bind (fun a => ok (f a))

@[simp] theorem bind_ok {α β : Type} (a : α) (f : α → Res β) : (ok a).bind f = f a := rfl
@[simp] theorem bind_ub {α β : Type} (f : α → Res β) : (ub : Res α).bind f = ub := rfl
@[simp] theorem bind_throw {α β : Type} (f : α → Res β) : (throw : Res α).bind f = throw := rfl
@[simp] theorem bind_fuel {α β : Type} (f : α → Res β) : (fuel : Res α).bind f = fuel := rfl

theorem bind_eq_ok {α β : Type} {r : Res α} {f : α → Res β} {b : β} :
    r.bind f = ok b ↔ ∃ a, r = ok a ∧ f a = ok b := by
  cases r <;> simp [bind]
end Res

/-- `enum StopReason`, stop_reasons.h:14-43 -/
inductive StopReason where
  | kOutOfMemory | kSolverFailed | kSystemHasNaNOrInf | kSkipped
  | kNone | kMinError | kMinRelError | kMinDeltaNorm | kMinGradNorm
  | kMaxIters | kMaxNoDecr | kMaxConsecNoDecr | kTimedOut | kUserStopped
  deriving DecidableEq, Repr

/-- the integer values of the enumerators, stop_reasons.h:20-40 -/
def StopReason.code : StopReason → Int
  | kOutOfMemory => -4
  | kSolverFailed => -3
  | kSystemHasNaNOrInf => -2
  | kSkipped => -1
  | kNone => 0
  | kMinError => 1
  | kMinRelError => 2
  | kMinDeltaNorm => 3
  | kMinGradNorm => 4
  | kMaxIters => 5
  | kMaxNoDecr => 6
  | kMaxConsecNoDecr => 7
  | kTimedOut => 8
  | kUserStopped => 9

/-- `struct Cost`, cost.h:18-97. `F` is `double`, `R` the `float` of the inlier ratio.
`num` is the C++ `int num_resisuals` (overflow of this counter is not modelled). -/
structure Cost (F R : Type) where
  cost : F
  num : Int
  inlier : R
  log : String := ""
  deriving Repr, DecidableEq

/-- `Cost::isValid`, cost.h:83 -/
def Cost.isValid {F R : Type} [FloatOps F] (c : Cost F R) : Bool :=
  decide (c.num > 0) && FloatOps.ne c.cost FloatOps.maxVal

/-- `struct Output`, output.h:26-145 (without `start_time`).
`numIters` is a `uint16_t`, `numFailures`, `numConsec` are `uint8_t`: the model only ever
stores values reduced modulo 65536 / 256 in them. Histories are in chronological order. -/
structure Output (F R M : Type) where
  finalCost : Cost F R
  finalRerr : F
  stop : StopReason
  numResiduals : Nat
  numIters : Nat
  numFailures : Nat
  numConsec : Nat
  duration : F
  finalHessian : Option M
  numDiffUsed : Bool
  errs : List F
  deltas2 : List F
  successes : List Bool

/-- The default member initialisers of `Output`, output.h:106-142.
`r1` is the literal `1.0f` (default inlier ratio). -/
def Output.init {F R M : Type} [FloatOps F] (r1 : R) : Output F R M where
  finalCost := { cost := FloatOps.maxVal, num := 0, inlier := r1 }
  finalRerr := FloatOps.maxVal
  stop := .kNone
  numResiduals := 0
  numIters := 0
  numFailures := 0
  numConsec := 0
  duration := FloatOps.ofInt 0
  finalHessian := none
  numDiffUsed := false
  errs := []
  deltas2 := []
  successes := []

/-- `Output::Succeeded`, output.h:30 -/
def Output.succeeded {F R M : Type} (o : Output F R M) : Bool :=
  decide (o.stop.code ≥ StopReason.kNone.code)

/-- `Output::Converged`, output.h:33-35 -/
def Output.converged {F R M : Type} (o : Output F R M) : Bool :=
  decide (o.stop.code ≥ StopReason.kMinError.code) && decide (o.stop.code < StopReason.kMaxIters.code)

/-- The part of `struct Options` read by the optimizer, options.h:18-156.
Callbacks receive and return the `world` so that they may be stateful. -/
structure Options (F W V : Type) where
  /-- options.h:43 -/
  checkFinalCost : Bool
  /-- options.h:46 -/
  useStepQuality : Bool
  /-- options.h:66 -/
  saveLast : Bool
  /-- `uint16_t`, options.h:89 -/
  maxIters : Nat
  minError : F
  minRerrDec : F
  minStepNorm2 : F
  minGradNorm2 : F
  /-- `uint8_t`, options.h:94 -/
  maxTotalFailures : Nat
  /-- `uint8_t`, options.h:95 -/
  maxConsecFailures : Nat
  maxDurationMs : F
  /-- options.h:98-101, `none` when the `std::function` is empty -/
  stopCallback : Option (W → F → F → F → Bool × W)
  /-- options.h:103-106 -/
  stopCallback2 : Option (W → F → V → V → Bool × W)

end Verif
