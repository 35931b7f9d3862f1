import Mathlib.Data.Rat.Defs
import Mathlib.Algebra.Order.Field.Rat
/-!
# `std::numeric_limits` of jets, 3rdparty/ceres/jet.h:1416-1482

The values of a jet type are written `T × (Fin N → T)`: the scalar and the derivative part.
-/

namespace Verif.Limits

/-- The finite members of `std::numeric_limits<T>` that describe the numbers of `T`. -/
structure NumLimits (T : Type) where
  isSigned : Bool
  isInteger : Bool
  isExact : Bool
  hasInfinity : Bool
  hasQuietNaN : Bool
  isIec559 : Bool
  isBounded : Bool
  radix : Int
  digits : Int
  digits10 : Int
  maxDigits10 : Int
  minExponent : Int
  minExponent10 : Int
  maxExponent : Int
  maxExponent10 : Int
  min : T
  lowest : T
  max : T
  epsilon : T
  denormMin : T

/-- the constructor of a jet from a scalar, jet.h:231-235: no derivative -/
def ofScalar {T : Type} [Zero T] (N : Nat) (a : T) : T × (Fin N → T) := (a, fun _ => 0)

/-- jet.h:1416-1482; note `min_exponent10` in line 1445 -/
def jetLimits {T : Type} [Zero T] (N : Nat) (L : NumLimits T) : NumLimits (T × (Fin N → T)) where
  isSigned := L.isSigned
  isInteger := L.isInteger
  isExact := L.isExact
  hasInfinity := L.hasInfinity
  hasQuietNaN := L.hasQuietNaN
  isIec559 := L.isIec559
  isBounded := L.isBounded
  radix := L.radix
  digits := L.digits
  digits10 := L.digits10
  maxDigits10 := L.maxDigits10
  minExponent := L.minExponent
  minExponent10 := L.maxExponent10
  maxExponent := L.maxExponent
  maxExponent10 := L.maxExponent10
  min := ofScalar N L.min
  lowest := ofScalar N L.lowest
  max := ofScalar N L.max
  epsilon := ofScalar N L.epsilon
  denormMin := ofScalar N L.denormMin

/-- Types of jets of jets: the list of the numbers of derivatives, outermost first. -/
def JetT (T : Type) : List Nat → Type
  | [] => T
  | N :: l => JetT T l × (Fin N → JetT T l)

/-- zero of these types -/
def jetZero {T : Type} [Zero T] : (l : List Nat) → JetT T l
  | [] => (0 : T)
  | _ :: l => (jetZero l, fun _ => jetZero l)

instance {T : Type} [Zero T] (l : List Nat) : Zero (JetT T l) := ⟨jetZero l⟩

/-- the limits of jets of jets over a type with the limits `L` -/
def nestLimits {T : Type} [Zero T] (L : NumLimits T) : (l : List Nat) → NumLimits (JetT T l)
  | [] => L
  | N :: l => jetLimits N (nestLimits L l)

/-- the scalar part of the innermost jet -/
def base {T : Type} : (l : List Nat) → JetT T l → T
  | [], a => a
  | _ :: l, a => base l a.1

/-- all derivatives, of all levels, are zero -/
def NoDerivs {T : Type} [Zero T] : (l : List Nat) → JetT T l → Prop
  | [], _ => True
  | _ :: l, a => NoDerivs l a.1 ∧ ∀ i, a.2 i = jetZero l

end Verif.Limits
