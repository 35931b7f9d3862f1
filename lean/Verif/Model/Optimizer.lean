import Verif.Model.Basic
/-!
# The optimizer loop (optimizers/optimizer.h)

`SolverI` is the interface of `SolverType` that `Optimizer_` uses.  The user's
accumulation function is hidden inside `build` (which calls it); everything
external (user function, callbacks, clock, allocator) acts on the world `W`.
-/

namespace Verif
open FloatOps

/-- outcome of `solver_.resize(dims)`, solvers/gn.h:47-74, gd.h:37-62 -/
inductive ResizeOut (S : Type) where
  | done (s : S)
  /-- `std::bad_alloc` -/
  | badAlloc
  /-- `std::invalid_argument` -/
  | invalidArg

/-- What `Optimizer_<SolverType>` uses of its solver (solvers/base.h:48-61 and the non virtual
members of the solver classes). -/
structure SolverI (F R W S X V M : Type) where
  resize : W → S → Int → ResizeOut S × W
  build : W → S → X → Bool × S × W
  solve : S → Option V
  cost : S → Cost F R
  gradSq : S → F
  gradient : S → V
  goodStep : S → F → Res S
  badStep : S → Res S
  failedStep : S → Res S
  rebuild : S → Bool → S
  hessian : S → M

/-- The parameters of one optimizer instantiation: parameter type operations
(`traits::params_trait<X_t>`), solver and clock. -/
structure Env (F R W S X V M : Type) where
  sol : SolverI F R W S X V M
  /-- `Dims == Dynamic` -/
  dimsDynamic : Bool
  /-- `traits::DynDims(x)`, traits.h:352-359 -/
  dynDims : X → Int
  /-- `params_trait<X_t>::PlusEq` -/
  plusEq : X → V → X
  /-- `-dx` -/
  negV : V → V
  /-- `dx.squaredNorm()` -/
  normSq : V → F
  /-- `toc_ms(t)` for the current iteration -/
  clock : W → F × W
  /-- `SolverType::FirstOrder` -/
  firstOrder : Bool
  /-- the literal `1.0f` for the inlier ratio of the default cost -/
  ratio1 : R

section
variable {F R W S X V M : Type} [FloatOps F]

/-- `Optimizer_::ResizeIfNeeded`, optimizer.h:60-92 -/
def resizeIfNeeded (E : Env F R W S X V M) (w : W) (s : S) (x : X) : (StopReason ⊕ S) × W :=
  let dims := E.dynDims x
  if E.dimsDynamic && dims == 0 then (.inl .kSkipped, w)
  else if dims < 0 then (.inl .kSkipped, w)
  else
    match E.sol.resize w s dims with
    | (.done s', w') => (.inr s', w')
    | (.badAlloc, w') => (.inl .kOutOfMemory, w')
    | (.invalidArg, w') => (.inl .kSkipped, w')

/-- increment of a `uint8_t` -/
def inc8 (n : Nat) : Nat := (n + 1) % 256
/-- increment of a `uint16_t` -/
def inc16 (n : Nat) : Nat := (n + 1) % 65536

/-- `max_tries`, optimizer.h:356-357 -/
def maxTries (o : Options F W V) : Nat :=
  if o.maxConsecFailures > 0 then max 1 o.maxConsecFailures else 255

/-- How the retry loop of `Step` (optimizer.h:358-393) is left. -/
inductive RetryExit (F R V : Type) where
  /-- `return status` from inside the loop -/
  | ret
  /-- loop left with `solver_failed == true` -/
  | failed
  /-- loop left with a step -/
  | got (dx : V) (cost : Cost F R)

/-- The retry loop of `Step`, optimizer.h:358-393; one unit of fuel per round. -/
def retry (E : Env F R W S X V M) (o : Options F W V) (x : X) :
    Nat → W → S → Output F R M → Res (RetryExit F R V × W × S × Output F R M)
  | 0, _, _, _ => .fuel
  | n + 1, w, s, out =>
    if out.numConsec ≤ maxTries o then
      let (built, s1, w1) := E.sol.build w s x
      match (if built then E.sol.solve s1 else none) with
      | some dx => .ok (.got dx (E.sol.cost s1), w1, s1, out)
      | none =>
        let cost := E.sol.cost s1
        let out1 := { out with
          numConsec := inc8 out.numConsec, numFailures := inc8 out.numFailures }
        if cost.num = 0 then
          .ok (.ret, w1, s1, { out1 with stop := .kSkipped })
        else if isNaN cost.cost || isInf cost.cost then
          .ok (.ret, w1, s1, { out1 with stop := .kSystemHasNaNOrInf })
        else if o.maxConsecFailures > 0 && decide (out1.numConsec ≥ o.maxConsecFailures) then
          .ok (.failed, w1, s1, if lt out1.finalCost.cost scalarMax then
            { out1 with stop := .kMaxConsecNoDecr } else out1)
        else
          (E.sol.failedStep s1).bind fun s2 => retry E o x n w1 s2 out1
    else .ok (.failed, w, s, out)

/-- `rel_derr`, optimizer.h:431-434 -/
def relDerr (final err : F) : F :=
  if lt eps final && lt final scalarMax then div (sub final err) final else ofInt 0

/-- `options_.stop_callback && options_.stop_callback(err, dx_norm2, grad_norm2)`, optimizer.h:529 -/
def callStop1 (o : Options F W V) (w : W) (err dn2 gn2 : F) : Bool × W :=
  match o.stopCallback with
  | some cb => cb w err dn2 gn2
  | none => (false, w)

/-- `options_.stop_callback2 && options_.stop_callback2(err, dx, gradient)`, optimizer.h:531-533
(the casts to `float` are part of the callback argument) -/
def callStop2 (o : Options F W V) (w : W) (err : F) (dx g : V) : Bool × W :=
  match o.stopCallback2 with
  | some cb => cb w err dx g
  | none => (false, w)

/-- The stop criteria at the end of `Step`, optimizer.h:519-534 (`solver_failed` is false here).
Returns the reason to set, if any. -/
def criteria (o : Options F W V) (w : W) (err rel dn2 gn2 : F) (dx g : V) : Option StopReason × W :=
  if lt (ofInt 0) o.minError && lt err o.minError then (some .kMinError, w)
  else if lt (ofInt 0) o.minRerrDec && lt (ofInt 0) rel && lt rel o.minRerrDec then
    (some .kMinRelError, w)
  else if lt (ofInt 0) o.minStepNorm2 && lt dn2 o.minStepNorm2 then (some .kMinDeltaNorm, w)
  else if lt (ofInt 0) o.minGradNorm2 && lt gn2 o.minGradNorm2 then (some .kMinGradNorm, w)
  else if (callStop1 o w err dn2 gn2).1 then
    (some .kUserStopped, (callStop1 o w err dn2 gn2).2)
  else if (callStop2 o (callStop1 o w err dn2 gn2).2 err dx g).1 then
    (some .kUserStopped, (callStop2 o (callStop1 o w err dn2 gn2).2 err dx g).2)
  else (none, (callStop2 o (callStop1 o w err dn2 gn2).2 err dx g).2)

/-- `has_grad_norm2`, optimizer.h:413-414 -/
def hasGradNorm2 (o : Options F W V) : Bool :=
  lt (ofInt 0) o.minGradNorm2 || o.stopCallback.isSome || o.stopCallback2.isSome

/-- The part of `Step` after the retry loop delivered a step, optimizer.h:401-538.
`iter` is `out.num_iters` at entry of `Step`. Logging is in Model/Log. -/
def afterSolve (E : Env F R W S X V M) (o : Options F W V) (dx : V) (cost : Cost F R)
    (w : W) (s : S) (out : Output F R M) : Res ((Bool × Option V) × W × S × Output F R M) :=
  let iter := out.numIters
  let err := cost.cost
  if isNaN err || isInf err then
    .ok ((false, none), w, s, { out with stop := .kSystemHasNaNOrInf })
  else
    let dn2 := E.normSq dx
    let gn2 := if hasGradNorm2 o then E.sol.gradSq s else ofInt 0
    if isNaN dn2 || isInf dn2 then
      .ok ((false, none), w, s, { out with stop := .kSystemHasNaNOrInf })
    else
      let derr := sub err out.finalCost.cost
      let good := lt derr (ofInt 0)
      let rel := relDerr out.finalCost.cost err
      let out1 := { out with
        errs := out.errs ++ [err], deltas2 := out.deltas2 ++ [dn2],
        successes := out.successes ++ [good] }
      if good || iter == 0 then
        (if iter > 0 then E.sol.goodStep s (if o.useStepQuality then rel else ofInt 0) else .ok s).bind
          fun s1 =>
            let out2 := { out1 with numConsec := 0, finalCost := cost, finalRerr := rel }
            let (r, w1) := criteria o w err rel dn2 gn2 dx (E.sol.gradient s1)
            .ok ((good, some dx), w1, s1, { out2 with stop := r.getD out2.stop })
      else
        (E.sol.badStep s).bind fun s1 =>
          let out2 := { out1 with
            numFailures := inc8 out1.numFailures, numConsec := inc8 out1.numConsec }
          if o.maxConsecFailures > 0 && decide (out2.numConsec ≥ o.maxConsecFailures) then
            .ok ((false, none), w, s1, { out2 with stop := .kMaxConsecNoDecr })
          else if o.maxTotalFailures > 0 && decide (out2.numFailures ≥ o.maxTotalFailures) then
            .ok ((false, none), w, s1, { out2 with stop := .kMaxNoDecr })
          else
            let (r, w1) := criteria o w err rel dn2 gn2 dx (E.sol.gradient s1)
            .ok ((good, some dx), w1, s1, { out2 with stop := r.getD out2.stop })

/-- `Optimizer_::Step`, optimizer.h:331-539 -/
def step (E : Env F R W S X V M) (o : Options F W V) (fuel : Nat) (w : W) (s : S) (x : X)
    (out : Output F R M) : Res ((Bool × Option V) × W × S × Output F R M) :=
  match resizeIfNeeded E w s x with
  | (.inl reason, w1) => .ok ((false, none), w1, s, { out with stop := reason })
  | (.inr s1, w1) =>
    (retry E o x fuel w1 s1 out).bind fun (e, w2, s2, out2) =>
      match e with
      | .ret => .ok ((false, none), w2, s2, out2)
      | .failed => .ok ((false, none), w2, s2, { out2 with stop := .kSolverFailed })
      | .got dx cost => afterSolve E o dx cost w2 s2 out2

/-- Ghost record of one iteration: the point at which `Step` was called, what `Step` returned,
the `Output` right after `Step`, and the point after the update of `x`. -/
structure Rec (F R X V M : Type) where
  x : X
  succ : Bool
  dx : Option V
  out : Output F R M
  xNext : X

/-- State of the loop of `OptimizeAcc`. `trace` is a ghost component: one record per finished
iteration, oldest first; it is never read by the model. -/
structure LoopSt (F R W S X V M : Type) where
  w : W
  s : S
  x : X
  out : Output F R M
  lastDx : Option V
  lastSucc : Bool
  trace : List (Rec F R X V M)

/-- One iteration of the loop of `OptimizeAcc`, optimizer.h:267-307.
`last` is `iter + 1 == max_iters`. `maybe_dx.value()` on an empty optional throws. -/
def body (E : Env F R W S X V M) (o : Options F W V) (fuel : Nat) (last : Bool)
    (st : LoopSt F R W S X V M) : Res (LoopSt F R W S X V M) :=
  (step E o fuel st.w st.s st.x st.out).bind fun ((success, maybeDx), w1, s1, out1) =>
    let upd : Res (X × Option V × Bool × Bool) :=   -- x, last_dx, last_was_success, eval_only
      if success then
        match maybeDx with
        | some dx => .ok (E.plusEq st.x dx, some dx, true, o.checkFinalCost && last)
        | none => .throw
      else
        match st.lastDx with
        | some d => .ok (E.plusEq st.x (E.negV d), none, false, !st.lastSucc)
        | none =>
          match maybeDx with
          | some dx => .ok (E.plusEq st.x dx, some dx, false, !st.lastSucc)
          | none => .ok (st.x, none, false, !st.lastSucc)
    upd.bind fun (x1, lastDx1, lastSucc1, evalOnly) =>
      let s2 := E.sol.rebuild s1 (!evalOnly)
      let (ms, w2) := E.clock w1
      let dur := add out1.duration ms
      let stop1 := if lt (ofInt 0) o.maxDurationMs && lt o.maxDurationMs dur then .kTimedOut
        else out1.stop
      .ok { w := w2, s := s2, x := x1,
            out := { out1 with duration := dur, stop := stop1, numIters := inc16 out1.numIters },
            lastDx := lastDx1, lastSucc := lastSucc1,
            trace := st.trace ++ [⟨st.x, success, maybeDx, out1, x1⟩] }

/-- The `for` loop of `OptimizeAcc`, optimizer.h:266-310; the argument is `max_iters - iter`. -/
def loop (E : Env F R W S X V M) (o : Options F W V) (fuel : Nat) :
    Nat → LoopSt F R W S X V M → Res (LoopSt F R W S X V M)
  | 0, st => .ok st
  | n + 1, st =>
    (body E o fuel (n == 0) st).bind fun st1 =>
      if st1.out.stop ≠ .kNone then .ok st1 else loop E o fuel n st1

/-- largest `int` -/
def intMax : Int := 2147483647

/-- The loop bound computed at the beginning of `OptimizeAcc`, optimizer.h:248-250;
`none` when the signed addition overflows. `reserve(max_iters + 1)` (252-254) overflows one
earlier. -/
def loopBound (o : Options F W V) (maxIters : Int) : Option Int :=
  let m := if maxIters < 0 then (o.maxIters : Int) else maxIters
  let m := m + 1
  let m := if o.checkFinalCost then m + 1 else m
  if m + 1 > intMax then none else some m

/-- initial state of the loop -/
def initSt (E : Env F R W S X V M) (w : W) (s : S) (x : X) : LoopSt F R W S X V M :=
  { w := w, s := s, x := x, out := Output.init E.ratio1, lastDx := none, lastSucc := true,
    trace := [] }

/-- `Optimizer_::OptimizeAcc`, optimizer.h:242-327. The result is the final loop state (the
caller sees `x`, the returned `Output`, the world and the solver object). -/
def optimizeAcc (E : Env F R W S X V M) (o : Options F W V) (fuel : Nat) (maxIters : Int)
    (w : W) (s : S) (x : X) : Res (LoopSt F R W S X V M) :=
  match loopBound o maxIters with
  | none => .ub
  | some m =>
    (loop E o fuel m.toNat (initSt E w s x)).bind fun st =>
      let h := if !E.firstOrder && o.saveLast then some (E.sol.hessian st.s) else st.out.finalHessian
      let stop := if st.out.stop = .kNone && decide ((st.out.numIters : Int) ≥ m) then .kMaxIters
        else st.out.stop
      .ok { st with out := { st.out with finalHessian := h, stop := stop } }

end
end Verif
