import Verif.Num.Fl
/-!
# `fmax`, `fmin` and `fdim` of jets over floating-point numbers, 3rdparty/ceres/jet.h:798-884

The model of the jets in `Model/Jet` is over the reals. Here the scalars have NaN, infinities and overflow. Both operands have been converted to the common type `J`.
-/

namespace Verif.JetMax
open FloatOps

variable {f : Fmt} {N : Nat}

/-- `Jet<T, N>`, jet.h:216-301 -/
structure FJet (f : Fmt) (N : Nat) where
  a : Fl f
  v : Fin N → Fl f

/-- `isnan`, jet.h:1043-1046 -/
def FJet.isnan (x : FJet f N) : Bool := isNaN x.a

/-- `isless`, jet.h:1059-1065 -/
def FJet.isless (x y : FJet f N) : Bool := lt x.a y.a

/-- `isgreater`, jet.h:1071-1077 -/
def FJet.isgreater (x y : FJet f N) : Bool := lt y.a x.a

/-- `islessgreater`, jet.h:1095-1101 -/
def FJet.islessgreater (x y : FJet f N) : Bool := lt x.a y.a || lt y.a x.a

/-- `std::midpoint` of floating-point numbers: half the sum, without overflow and with at most one rounding -/
def midpointF : Fl f → Fl f → Fl f
  | .fin a _, .fin b _ => .mk ((a + b) / 2)
  | a, b => add a b

/-- `midpoint` of jets, jet.h:1205-1215 -/
def FJet.midpoint (x y : FJet f N) : FJet f N := ⟨midpointF x.a y.a, fun i => midpointF (x.v i) (y.v i)⟩

/-- `(J{x} + J{y}) * typename J::Scalar(0.5)`, jet.h:843 -/
def FJet.halfSum (x y : FJet f N) : FJet f N := ⟨mul (add x.a y.a) half, fun i => mul (add (x.v i) (y.v i)) half⟩

/-- the average in C++20 and in C++17, jet.h:840-844 -/
def FJet.avg (cpp20 : Bool) (x y : FJet f N) : FJet f N := if cpp20 then x.midpoint y else x.halfSum y

/-- `fmax`, jet.h:832-845 -/
def FJet.fmax (cpp20 : Bool) (x y : FJet f N) : FJet f N :=
  if x.isnan || y.isnan || x.islessgreater y then if x.isnan || x.isless y then y else x else FJet.avg cpp20 x y

/-- `fmin`, jet.h:855-868 -/
def FJet.fmin (cpp20 : Bool) (x y : FJet f N) : FJet f N :=
  if x.isnan || y.isnan || x.islessgreater y then if x.isnan || x.isgreater y then y else x else FJet.avg cpp20 x y

/-- `fdim`, jet.h:878-884 -/
def FJet.fdim (x y : FJet f N) : FJet f N :=
  if x.isnan || y.isnan then ⟨.nan, fun _ => ofInt 0⟩ else if x.isgreater y then ⟨sub x.a y.a, fun i => sub (x.v i) (y.v i)⟩ else ⟨ofInt 0, fun _ => ofInt 0⟩

end Verif.JetMax
