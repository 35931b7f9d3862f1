import Verif.Model.Basic
/-!
# Choice of the solver (optimize.h)
-/

namespace Verif

/-- What the compiler finds out about a user function, optimize.h:26-30, 35 and 60-62
(`std::is_invocable_v` of the function with the given arguments). -/
structure Signature where
  /-- callable as `f(x)`; the value tells whether the result is a scalar (`traits::is_scalar_v`) -/
  unary : Option Bool
  /-- callable as `f(x, grad)` with a dense gradient -/
  gradOnly : Bool
  /-- callable as `f(x, grad, H)` with a dense Hessian -/
  denseH : Bool
  /-- callable as `f(x, grad, H)` with a sparse Hessian -/
  sparseH : Bool
  deriving DecidableEq

/-- `Options::Solver`, options.h:24-28: an unscoped enumeration without fixed underlying type; `other` stands
for the remaining values that a variable of it can hold -/
inductive SolverType where
  | lm | gn | gd | other
  deriving DecidableEq

/-- The optimizer that is run on the function, with a dense or a sparse Hessian (gradient). -/
inductive Chosen where
  | lm (dense : Bool)
  | gn (dense : Bool)
  | gd (dense : Bool)
  deriving DecidableEq

/-- `isDense`, optimize.h:26-30 -/
def Signature.isDense (s : Signature) : Bool := s.unary.isSome || s.gradOnly || s.denseH

/-- `secondOrderValid`, optimize.h:35 -/
def Signature.secondOrderValid (s : Signature) : Bool := !s.gradOnly

/-- the choice of the optimizer, optimize.h:40-76; `throw` is `std::invalid_argument` -/
def choose (t : SolverType) (s : Signature) : Res Chosen :=
  match t with
  | .gn => if s.secondOrderValid then .ok (.gn s.isDense) else .throw
  | .lm => if s.secondOrderValid then .ok (.lm s.isDense) else .throw
  | .gd => match s.unary with
    | some true => .ok (.gd s.isDense)
    | some false => .throw
    | none => if !s.secondOrderValid then .ok (.gd s.isDense)
      else .throw  -- falls through to `default`
  | .other => .throw

/-- `Optimize(x, func, options)`, optimize.h:16-77: the chosen optimizer is run on the parameters; a
pair of the parameters after the call and the outcome. -/
def optimizeTop {X O : Type} (run : Chosen → X → X × Res O) (t : SolverType) (s : Signature) (x : X) : X × Res O :=
  match choose t s with
  | .ok c => run c x
  | .throw => (x, .throw)
  | .ub => (x, .ub)
  | .fuel => (x, .fuel)

end Verif
