import Verif.Num.Fl
import Verif.Model.Optimizer
/-!
# Small concrete problems

A family of one-dimensional problems over the integers, used to show that hypotheses of the
property theorems are satisfiable and as witnesses of violated properties.  The problem is given by
the cost `f x`, the number of residuals `num x` and the proposed step `step x` (`none`: the linear
solve fails).  The world counts the evaluations.
-/

namespace Verif
open FloatOps

/-- exact rational arithmetic with NaN and infinities -/
abbrev D := Fl Fmt.exact

/-- a result satisfies a decidable predicate -/
def Res.holds {α : Type} (r : Res α) (p : α → Bool) : Bool :=
  match r with
  | .ok a => p a
  | _ => false

theorem Res.exists_of_holds {α : Type} {r : Res α} {p : α → Bool} (h : r.holds p = true) :
    ∃ a, r = .ok a ∧ p a = true := by
  cases r with
  | ok a => exact ⟨a, rfl, h⟩
  | _ => cases h

instance : DecidableEq D := fun a b =>
  match a, b with
  | .nan, .nan => isTrue rfl
  | .pinf, .pinf => isTrue rfl
  | .ninf, .ninf => isTrue rfl
  | .fin p _, .fin q _ => if h : p = q then isTrue (by subst h; rfl) else isFalse (by
      intro h'; injection h' with h'; exact h h')
  | .nan, .pinf => isFalse nofun
  | .nan, .ninf => isFalse nofun
  | .nan, .fin _ _ => isFalse nofun
  | .pinf, .nan => isFalse nofun
  | .pinf, .ninf => isFalse nofun
  | .pinf, .fin _ _ => isFalse nofun
  | .ninf, .nan => isFalse nofun
  | .ninf, .pinf => isFalse nofun
  | .ninf, .fin _ _ => isFalse nofun
  | .fin _ _, .nan => isFalse nofun
  | .fin _ _, .pinf => isFalse nofun
  | .fin _ _, .ninf => isFalse nofun

structure ToyS where
  cost : Cost D D
  dx : Option Int

abbrev ToyEnv := Env D D Nat ToyS Int Int Unit

def toyEnv (f : Int → D) (num : Int → Int) (step : Int → Option Int) : ToyEnv where
  sol :=
    { resize := fun w s _ => (.done s, w)
      build := fun w _ x => (true, ⟨{ cost := f x, num := num x, inlier := ofInt 1 }, step x⟩, w + 1)
      solve := fun s => s.dx
      cost := fun s => s.cost
      gradSq := fun s => ofInt (s.dx.getD 0 * s.dx.getD 0)
      gradient := fun s => s.dx.getD 0
      goodStep := fun s _ => .ok s
      badStep := fun s => .ok s
      failedStep := fun s => .ok s
      rebuild := fun s _ => s
      hessian := fun _ => () }
  dimsDynamic := false
  dynDims := fun _ => 1
  plusEq := fun x d => x + d
  negV := fun d => -d
  normSq := fun d => ofInt (d * d)
  clock := fun w => (ofInt 1, w)
  firstOrder := true
  ratio1 := ofInt 1

def toyS0 : ToyS := ⟨{ cost := ofInt 0, num := 0, inlier := ofInt 1 }, none⟩

/-- all optional criteria and limits off -/
def toyOpts : Options D Nat Int where
  checkFinalCost := false
  useStepQuality := false
  saveLast := false
  maxIters := 5
  minError := ofInt 0
  minRerrDec := ofInt 0
  minStepNorm2 := ofInt 0
  minGradNorm2 := ofInt 0
  maxTotalFailures := 0
  maxConsecFailures := 0
  maxDurationMs := ofInt 0
  stopCallback := none
  stopCallback2 := none

/-- minimise `x^2` by steps of one towards 0 -/
def toySq : ToyEnv := toyEnv (fun x => ofInt (x * x)) (fun _ => 1)
  (fun x => some (if x > 0 then -1 else if x < 0 then 1 else 0))

end Verif
