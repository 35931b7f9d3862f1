import Verif.Num.SignedZero
/-!
# Classification, sign, `abs` and `copysign` of jets over floating-point numbers with signed zeros, 3rdparty/ceres/jet.h

`Model/Jet` has `abs` and `copysign` over the reals. Here the scalars have both zeros, infinities and NaN. The size of the derivative is known at compile time. `tiny` is `numeric_limits<T>::min()`, the
smallest normal number.
-/

namespace Verif.JetSign
open FloatOps

variable {f : Fmt} {N : Nat}

/-- the values of `std::fpclassify` -/
inductive FpClass
  | nan | inf | zero | subnormal | normal
deriving DecidableEq, Repr

/-- `std::fpclassify` -/
def fpclassify (tiny : ℚ) : SFl f → FpClass
  | .negz => .zero
  | .of .nan => .nan
  | .of .pinf => .inf
  | .of .ninf => .inf
  | .of (.fin q _) => if q = 0 then .zero else if |q| < tiny then .subnormal else .normal

/-- `std::isnormal`: finite and not smaller than the smallest normal number -/
def isnormal (tiny : ℚ) (x : SFl f) : Bool :=
  match x.num with
  | .fin q _ => !decide (|q| < tiny)
  | _ => false

/-- `std::abs`: the sign bit is cleared -/
def fabs (x : SFl f) : SFl f := if x.sgn then neg x else x

/-- `std::copysign` -/
def copysign (x y : SFl f) : SFl f := if x.sgn = y.sgn then x else neg x

/-- `Jet<T, N>`, jet.h:216-301 -/
structure ZJet (f : Fmt) (N : Nat) where
  a : SFl f
  v : Fin N → SFl f

namespace ZJet

/-- jet.h:1031-1034 -/
def isfinite (x : ZJet f N) : Bool := finite x.a
/-- jet.h:1037-1040 -/
def isinf (x : ZJet f N) : Bool := isInf x.a
/-- jet.h:1043-1046 -/
def isnan (x : ZJet f N) : Bool := isNaN x.a
/-- jet.h:1050-1053 -/
def isnormal (tiny : ℚ) (x : ZJet f N) : Bool := JetSign.isnormal tiny x.a
/-- jet.h:1127-1130 -/
def fpclassify (tiny : ℚ) (x : ZJet f N) : FpClass := JetSign.fpclassify tiny x.a
/-- jet.h:1133-1136 -/
def signbit (x : ZJet f N) : Bool := x.a.sgn

/-- `abs`, jet.h:556-559 -/
def abs (x : ZJet f N) : ZJet f N := ⟨fabs x.a, fun i => mul (copysign (ofInt 1) x.a) (x.v i)⟩

/-- `copysign`, jet.h:581-595 -/
def copysign (tiny : ℚ) (x y : ZJet f N) : ZJet f N :=
  let d : SFl f := if y.fpclassify tiny = .zero then .of .pinf else ofInt 0
  let sa := JetSign.copysign (ofInt 1) x.a
  let sb := JetSign.copysign (ofInt 1) y.a
  ⟨JetSign.copysign x.a y.a, fun i => add (mul (mul sa sb) (x.v i)) (mul (mul (fabs x.a) d) (y.v i))⟩

end ZJet
end Verif.JetSign
