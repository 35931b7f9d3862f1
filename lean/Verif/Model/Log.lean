import Verif.Model.Output
/-!
# Logging (optimizer.h:462-517) and `MaxStdDev`

Logging writes text and reads the state of the run. The only part of it that can leave the normal path is
`solver_.MaxStdDev()`, printed after good steps when `log.print_max_stdev` is set (optimizer.h:497-500). `hook s` is this call on the
solver object `s`; the text itself is not modelled.
-/

namespace Verif
open FloatOps

section
variable {F R W S X V M : Type} [FloatOps F]

/-- `m.maxCoeff()`: the largest of all coefficients; Eigen asserts that there is one -/
def maxCoeff (H : DMat F) : Res F :=
  if h : 0 < H.n then
    .ok (((List.finRange H.n).flatMap fun j => (List.finRange H.n).map fun i => H.m i j).foldl (fun a b => if lt a b then b else a) (H.m ⟨0, h⟩ ⟨0, h⟩))
  else .ub

/-- `SolverGN::MaxStdDev`, gn.h:175-183; `use_damped` has no effect. `value()` of an empty optional throws. -/
def gnMaxStdDev (L : LinAlg F) (s : GNState F R) : Res F :=
  match denseInvCov L ⟨s.n, s.H⟩ with
  | none => .throw
  | some C => (maxCoeff C).map sqrt

/-- `SolverLM::MaxStdDev`, lm.h:176-187 -/
def lmMaxStdDev (L : LinAlg F) (useDamped : Bool) (s : LMState F R) : Res F :=
  match denseInvCov L (if useDamped then ⟨s.gn.n, s.gn.H⟩ else lmHessian s) with
  | none => .ok (ofInt 0)
  | some C => (maxCoeff C).map sqrt

/-- `Step` with logging: the log lies between the bookkeeping of the step and the stop criteria, which cannot throw; `status.first` is
true exactly when `is_good_step` holds and the end of `Step` is reached. -/
def stepLog (E : Env F R W S X V M) (hook : S → Res Unit) (o : Options F W V) (fuel : Nat) (w : W) (s : S) (x : X)
    (out : Output F R M) : Res ((Bool × Option V) × W × S × Output F R M) :=
  (step E o fuel w s x out).bind fun r => if r.1.1 then (hook r.2.2.1).bind fun _ => .ok r else .ok r

/-- `body` (Model/Optimizer) with logging -/
def bodyLog (E : Env F R W S X V M) (hook : S → Res Unit) (o : Options F W V) (fuel : Nat) (last : Bool)
    (st : LoopSt F R W S X V M) : Res (LoopSt F R W S X V M) :=
  (stepLog E hook o fuel st.w st.s st.x st.out).bind fun ((success, maybeDx), w1, s1, out1) =>
    let upd : Res (X × Option V × Bool × Bool) :=
      if success then
        match maybeDx with
        | some dx => .ok (E.plusEq st.x dx, some dx, true, o.checkFinalCost && last)
        | none => .throw
      else
        match st.lastDx with
        | some d => .ok (E.plusEq st.x (E.negV d), none, false, !st.lastSucc)
        | none =>
          match maybeDx with
          | some dx => .ok (E.plusEq st.x dx, some dx, false, !st.lastSucc)
          | none => .ok (st.x, none, false, !st.lastSucc)
    upd.bind fun (x1, lastDx1, lastSucc1, evalOnly) =>
      let s2 := E.sol.rebuild s1 (!evalOnly)
      let (ms, w2) := E.clock w1
      let dur := add out1.duration ms
      let stop1 := if lt (ofInt 0) o.maxDurationMs && lt o.maxDurationMs dur then .kTimedOut
        else out1.stop
      .ok { w := w2, s := s2, x := x1,
            out := { out1 with duration := dur, stop := stop1, numIters := inc16 out1.numIters },
            lastDx := lastDx1, lastSucc := lastSucc1,
            trace := st.trace ++ [⟨st.x, success, maybeDx, out1, x1⟩] }

/-- `loop` with logging -/
def loopLog (E : Env F R W S X V M) (hook : S → Res Unit) (o : Options F W V) (fuel : Nat) :
    Nat → LoopSt F R W S X V M → Res (LoopSt F R W S X V M)
  | 0, st => .ok st
  | n + 1, st =>
    (bodyLog E hook o fuel (n == 0) st).bind fun st1 =>
      if st1.out.stop ≠ .kNone then .ok st1 else loopLog E hook o fuel n st1

/-- `OptimizeAcc` with logging, optimizer.h:242-327 -/
def optimizeAccLog (E : Env F R W S X V M) (hook : S → Res Unit) (o : Options F W V) (fuel : Nat) (maxIters : Int)
    (w : W) (s : S) (x : X) : Res (LoopSt F R W S X V M) :=
  match loopBound o maxIters with
  | none => .ub
  | some m =>
    (loopLog E hook o fuel m.toNat (initSt E w s x)).bind fun st =>
      let h := if !E.firstOrder && o.saveLast then some (E.sol.hessian st.s) else st.out.finalHessian
      let stop := if st.out.stop = .kNone && decide ((st.out.numIters : Int) ≥ m) then .kMaxIters
        else st.out.stop
      .ok { st with out := { st.out with finalHessian := h, stop := stop } }

/-- the log of `Optimizer<SolverGN>` with `log.enable` and the given `log.print_max_stdev` -/
def gnHook (L : LinAlg F) (printMaxStdev : Bool) (s : GNState F R) : Res Unit :=
  if printMaxStdev then (gnMaxStdDev L s).map fun _ => () else .ok ()

/-- the log of `Optimizer<SolverLM>`; `MaxStdDev()` uses the damped Hessian -/
def lmHook (L : LinAlg F) (printMaxStdev : Bool) (s : LMState F R) : Res Unit :=
  if printMaxStdev then (lmMaxStdDev L true s).map fun _ => () else .ok ()

end
end Verif
