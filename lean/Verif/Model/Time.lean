import Verif.Model.Optimizer
/-!
# The clock: time.h

Time points of `std::chrono::high_resolution_clock` are integers (nanoseconds).
-/

namespace Verif
open FloatOps

/-- `std::chrono::duration_cast<std::chrono::microseconds>(d).count()` of a duration in nanoseconds: the division truncates towards zero -/
def toMicros (ns : Int) : Int := ns.tdiv 1000

/-- `toc_ms(t0)` at the time `t1`, and `dt_ms(t0, t1)`, time.h:34-38, 52-57: whole microseconds, in milliseconds. The code multiplies by the
literal `1e-3` in `double`; the optimizer rounds the result to `float` (optimizer.h:302). Here it is a division by 1000 in `F`. -/
def tocMs {F : Type} [FloatOps F] (t0 t1 : Int) : F := div (ofInt (toMicros (t1 - t0))) (ofInt 1000)

/-- What the optimizer calls takes place in time: `now w` is the time shown by the clock in the world `w`, `tic w` the time at which the current iteration
started (the local variable `t` of optimizer.h:267). Nobody but the optimizer sets `tic`, the clock never goes back, and the time is read in no time. -/
structure InTime {F R W S X V M : Type} [FloatOps F] (E : Env F R W S X V M) (o : Options F W V) (now tic : W → Int) : Prop where
  /-- optimizer.h:302 followed by 267 of the next iteration -/
  clock : ∀ w, (E.clock w).1 = tocMs (tic w) (now w) ∧ now (E.clock w).2 = now w ∧ tic (E.clock w).2 = now w
  resize : ∀ w s d, tic (E.sol.resize w s d).2 = tic w ∧ now w ≤ now (E.sol.resize w s d).2
  build : ∀ w s x, tic (E.sol.build w s x).2.2 = tic w ∧ now w ≤ now (E.sol.build w s x).2.2
  cb1 : ∀ cb, o.stopCallback = some cb → ∀ w a b c, tic (cb w a b c).2 = tic w ∧ now w ≤ now (cb w a b c).2
  cb2 : ∀ cb, o.stopCallback2 = some cb → ∀ w a b c, tic (cb w a b c).2 = tic w ∧ now w ≤ now (cb w a b c).2

end Verif
