import Mathlib.Data.List.Basic
/-!
# The computations with types behind the jets

3rdparty/ceres/internal/integer_sequence_algorithm.h, 3rdparty/ceres/internal/jet_traits.h and the specialisations of `std::common_type` in 3rdparty/ceres/jet.h. Templates are functions
on types here; a template that cannot be instantiated gives `none`.
-/

namespace Verif.JetTypes

/-- `ExclusiveScanImpl`, integer_sequence_algorithm.h:69-88, for an integer type with the values from `lo` to `hi`: an overflowing sum is not a constant expression. The sum `Sum + N` is
computed for the last element, too. -/
def scanImpl (lo hi : Int) : Int → List Int → List Int → Option (List Int)
  | _, [], rs => some rs
  | sum, n :: ns, rs => if lo ≤ sum + n ∧ sum + n ≤ hi then scanImpl lo hi (sum + n) ns (rs ++ [sum]) else none

/-- `ExclusiveScan`, integer_sequence_algorithm.h:94-105 -/
def exclusiveScan (lo hi : Int) (seq : List Int) : Option (List Int) := scanImpl lo hi 0 seq []

/-- `RemoveValueImpl`, integer_sequence_algorithm.h:111-143: the values kept so far, and the rest -/
def removeImpl (v : Int) : List Int → List Int → List Int
  | values, [] => values
  | head, m :: tail => if m = v then removeImpl v head tail else removeImpl v (head ++ [m]) tail

/-- `RemoveValue`, integer_sequence_algorithm.h:145-170 -/
def removeValue (seq : List Int) (v : Int) : List Int := removeImpl v [] seq

/-- `IsEmptyOrAreAllEqual`, integer_sequence_algorithm.h:172-195 -/
def isEmptyOrAllEqual : List Int → Bool
  | [] => true
  | h :: values => values.all fun v => decide (h = v)

/-- Types: the arithmetic types, ordered by the usual arithmetic conversions (`int`, `long`, `float`, `double`, `long double` for instance); other types such as `std::string`;
jets with `N` derivatives, `N = -1` for `Eigen::Dynamic`. -/
inductive Ty where
  | scalar (rank : Nat)
  | other (name : Nat)
  | jet (T : Ty) (N : Int)
  deriving DecidableEq

/-- `double` -/
def Ty.dbl : Ty := .scalar 3

/-- `AreAnyJet`, jet_traits.h:45-57 -/
def areAnyJet : List Ty → Bool
  | [] => false
  | .jet _ _ :: _ => true
  | _ :: ts => areAnyJet ts

/-- `UnderlyingScalar`, jet_traits.h:59-70 -/
def underlying : Ty → Ty
  | .jet T _ => underlying T
  | t => t

/-- `AreAllSame_v`, jet_traits.h:72-77 -/
def areAllSame : List Ty → Bool
  | [] => true
  | t :: ts => ts.all fun u => decide (t = u)

/-- `Rank`, jet_traits.h:79-97 -/
def tyRank : Ty → Int
  | .scalar _ => 0
  | .other _ => -1
  | .jet _ N => N

/-- `CompatibleJetOperands`, jet_traits.h:126-151 -/
def compatible : List Ty → Bool
  | [] => false
  | [.jet _ _] => true
  | [_] => false
  | ts => areAnyJet ts && areAllSame (ts.map underlying) && isEmptyOrAllEqual (removeValue (ts.map tyRank) 0)

/-- `PromotableJetOperands`, jet_traits.h:170-181 -/
def promotable (ts : List Ty) : Bool := areAnyJet ts && isEmptyOrAllEqual (removeValue (ts.map tyRank) 0)

/-- `std::common_type` with the specialisations of jet.h:199-212. Jets with different numbers of derivatives match the first two specialisations equally well: an error. -/
def commonType : Ty → Ty → Option Ty
  | .jet T N, .jet U M => if N = M then (commonType T U).map fun t => .jet t N else none
  | .jet T N, u => (commonType T u).map fun t => .jet t N
  | t, .jet U N => (commonType t U).map fun t => .jet t N
  | .scalar a, .scalar b => some (.scalar (max a b))
  | .other a, .other b => if a = b then some (.other a) else none
  | _, _ => none
termination_by a b => sizeOf a + sizeOf b

/-- `J{x}` with `x` of type `X` compiles: a copy, or the explicit constructor from the scalar type of the jet, jet.h:231-235, which does not convert its argument to a jet -/
def bracesOk (J X : Ty) : Bool :=
  J == X || match J, X with
    | .jet (.scalar a) _, .scalar b => decide (b ≤ a)
    | .jet T _, X => T == X
    | _, _ => false

/-- `fmax(x, y)` and `fmin(x, y)` of jet.h:829-868 can be called with arguments of the types `X` and `Y` and compile -/
def fmaxOk (X Y : Ty) : Bool := compatible [X, Y] && match commonType X Y with
  | some J => bracesOk J X && bracesOk J Y
  | none => false

end Verif.JetTypes
