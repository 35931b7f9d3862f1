import Verif.Model.Losses
import Mathlib.MeasureTheory.Integral.IntervalIntegral.Basic
import Mathlib.Analysis.SpecialFunctions.Pow.Real
import Mathlib.Analysis.SpecialFunctions.Trigonometric.Inverse
import Mathlib.Analysis.SpecialFunctions.Trigonometric.Arctan
import Mathlib.Analysis.SpecialFunctions.Log.Base
import Mathlib.Analysis.SpecialFunctions.Gamma.Basic
/-!
# Jets (dual numbers) in exact arithmetic

`include/tinyopt/3rdparty/ceres/jet.h`, with the scalar `T` the real numbers. A result with a NaN or an infinite part is the outcome `nonfinite`; an access
outside of the vector `v` (or an Eigen expression of vectors of different sizes) is the outcome `ub`.

For every operation the code computes a scalar part, and each component of the infinitesimal part from the same components of the arguments: a *rule*. The
same rules serve jets of compile-time dimension (`SJet n`) and jets of run-time dimension (`DJet`), which differ in how the components are found.

Not modelled: comparisons (they compare the scalar parts and return a `bool`); signed zeros (`copysign` and `abs` of a zero jet take the sign
of `+0`).
-/

namespace Verif
namespace Loss

open Classical

/-! ### The functions of `<cmath>` on the real numbers -/

/-- `std::cbrt` -/
noncomputable def cbrt (x : ℝ) : ℝ := if 0 ≤ x then x ^ (1 / 3 : ℝ) else -((-x) ^ (1 / 3 : ℝ))

/-- `std::erf` -/
noncomputable def erf (x : ℝ) : ℝ := 2 / Real.sqrt Real.pi * ∫ t in (0 : ℝ)..x, Real.exp (-t * t)

/-- `std::cyl_bessel_j(v, x)`, the Bessel function of the first kind of order `v`, for `x ≥ 0` or integer `v` -/
noncomputable def besselJ (v x : ℝ) : ℝ := (x / 2) ^ v * ∑' k : ℕ, (-1) ^ k / (k.factorial * Real.Gamma (k + v + 1)) * ((x / 2) * (x / 2)) ^ k

/-- `std::copysign(1, x)` -/
noncomputable def copysign1 (x : ℝ) : ℝ := if x < 0 then -1 else 1

/-- the outcome of an operation -/
inductive Out (α : Type*)
  | ok (a : α)
  | nonfinite
  | ub

/-! ### Rules -/

/-- one argument: the value, the component of the result from the component of the argument, the components of the argument that give a NaN, and
whether the result is `Jet(value)`, without infinitesimal part -/
structure Rule1 where
  val : ℝ
  comp : ℝ → ℝ
  nan : ℝ → Prop := fun _ => False
  scalar : Bool := false

/-- how jets of run-time dimension find the components of the infinitesimal part of a result of two arguments -/
inductive Shape
  /-- an empty vector is replaced by zeros -/
  | expand
  /-- an Eigen expression of both vectors -/
  | raw
  /-- the loop of `midpoint` -/
  | loop
  /-- a copy of the first argument -/
  | left
  /-- a copy of the second argument -/
  | right
  /-- none -/
  | scalar

/-- two arguments -/
structure Rule2 where
  val : ℝ
  comp : ℝ → ℝ → ℝ
  nan : ℝ → ℝ → Prop := fun _ _ => False
  shape : Shape

/-- three arguments: Eigen expressions -/
structure Rule3 where
  val : ℝ
  comp : ℝ → ℝ → ℝ → ℝ
  nan : ℝ → ℝ → ℝ → Prop := fun _ _ _ => False

/-- operations of one jet (and scalars) -/
inductive Op1
  | neg | addS (s : ℝ) | sAdd (s : ℝ) | subS (s : ℝ) | sSub (s : ℝ) | mulS (s : ℝ) | sMul (s : ℝ) | divS (s : ℝ) | sDiv (s : ℝ)
  | abs | log | log10 | log1p | exp | expm1 | sqrt | cos | acos | sin | asin | tan | atan | sinh | cosh | tanh | floor | ceil
  | cbrt | exp2 | log2 | erf | erfc | norm | powC (p : ℝ) | powB (b : ℝ) | bessel (v : ℝ)

/-- operations of two jets -/
inductive Op2
  | add | sub | mul | div | copysign | hypot | fmax | fmin | fdim | midpoint | atan2 | pow

/-- operations of three jets -/
inductive Op3
  | hypot | fma | lerp

/-- a finite value, but no finite component -/
noncomputable def Rule1.undiff (val : ℝ) : Rule1 := { val := val, comp := fun _ => 0, nan := fun _ => True }

/-- a finite value, but no finite component -/
noncomputable def Rule2.undiff (val : ℝ) (shape : Shape) : Rule2 := { val := val, comp := fun _ _ => 0, nan := fun _ _ => True, shape := shape }

/-- The operations of one jet with scalar part `a`; `none` if the value is not finite. -/
noncomputable def rule1 : Op1 → ℝ → Option Rule1
  /- jet.h:314-316 -/
  | .neg, a => some { val := -a, comp := fun u => -u }
  /- jet.h:332-334 -/
  | .addS s, a => some { val := a + s, comp := fun u => u }
  /- jet.h:338-340 -/
  | .sAdd s, a => some { val := a + s, comp := fun u => u }
  /- jet.h:356-358 -/
  | .subS s, a => some { val := a - s, comp := fun u => u }
  /- jet.h:362-364 -/
  | .sSub s, a => some { val := s - a, comp := fun u => -u }
  /- jet.h:380-382 -/
  | .mulS s, a => some { val := a * s, comp := fun u => u * s }
  /- jet.h:386-388 -/
  | .sMul s, a => some { val := a * s, comp := fun u => u * s }
  /- jet.h:420-423 -/
  | .divS s, a => if s = 0 then none else let si := 1 / s; some { val := a * si, comp := fun u => u * si }
  /- jet.h:413-416 -/
  | .sDiv s, a => if a = 0 then none else let k := -s / (a * a); some { val := s / a, comp := fun u => u * k }
  /- jet.h:558-560 -/
  | .abs, a => some { val := |a|, comp := fun u => copysign1 a * u }
  /- jet.h:606-609 -/
  | .log, a => if a ≤ 0 then none else let ai := 1 / a; some { val := Real.log a, comp := fun u => u * ai }
  /- jet.h:613-617 -/
  | .log10, a => if a ≤ 0 then none else let ai := 1 / (a * Real.log 10); some { val := Real.logb 10 a, comp := fun u => u * ai }
  /- jet.h:621-624 -/
  | .log1p, a => if a ≤ -1 then none else let ai := 1 / (1 + a); some { val := Real.log (1 + a), comp := fun u => u * ai }
  /- jet.h:628-631 -/
  | .exp, a => let t := Real.exp a; some { val := t, comp := fun u => t * u }
  /- jet.h:635-639 -/
  | .expm1, a => let t := Real.exp a - 1; let e := t + 1; some { val := t, comp := fun u => e * u }
  /- jet.h:643-647 -/
  | .sqrt, a =>
    if a < 0 then none
    else if a = 0 then some (.undiff 0)
    else let t := Real.sqrt a; let k := 1 / (2 * t); some { val := t, comp := fun u => u * k }
  /- jet.h:651-653 -/
  | .cos, a => some { val := Real.cos a, comp := fun u => -Real.sin a * u }
  /- jet.h:657-660 -/
  | .acos, a =>
    if 1 < |a| then none
    else if |a| = 1 then some (.undiff (Real.arccos a))
    else let k := -1 / Real.sqrt (1 - a * a); some { val := Real.arccos a, comp := fun u => k * u }
  /- jet.h:664-666 -/
  | .sin, a => some { val := Real.sin a, comp := fun u => Real.cos a * u }
  /- jet.h:670-673 -/
  | .asin, a =>
    if 1 < |a| then none
    else if |a| = 1 then some (.undiff (Real.arcsin a))
    else let k := 1 / Real.sqrt (1 - a * a); some { val := Real.arcsin a, comp := fun u => k * u }
  /- jet.h:677-681 -/
  | .tan, a => if Real.cos a = 0 then none else let t := Real.tan a; let k := 1 + t * t; some { val := t, comp := fun u => k * u }
  /- jet.h:685-688 -/
  | .atan, a => let k := 1 / (1 + a * a); some { val := Real.arctan a, comp := fun u => k * u }
  /- jet.h:692-694 -/
  | .sinh, a => some { val := Real.sinh a, comp := fun u => Real.cosh a * u }
  /- jet.h:698-700 -/
  | .cosh, a => some { val := Real.cosh a, comp := fun u => Real.sinh a * u }
  /- jet.h:704-708 -/
  | .tanh, a => let t := Real.tanh a; let k := 1 - t * t; some { val := t, comp := fun u => k * u }
  /- jet.h:715-717 -/
  | .floor, a => some { val := ⌊a⌋, comp := fun _ => 0, scalar := true }
  /- jet.h:724-726 -/
  | .ceil, a => some { val := ⌈a⌉, comp := fun _ => 0, scalar := true }
  /- jet.h:732-735 -/
  | .cbrt, a =>
    if a = 0 then some (.undiff 0)
    else let d := 1 / (3 * Loss.cbrt (a * a)); some { val := Loss.cbrt a, comp := fun u => u * d }
  /- jet.h:739-743 -/
  | .exp2, a => let t := (2 : ℝ) ^ a; let d := t * Real.log 2; some { val := t, comp := fun u => u * d }
  /- jet.h:747-750 -/
  | .log2, a => if a ≤ 0 then none else let d := 1 / (a * Real.log 2); some { val := Real.logb 2 a, comp := fun u => u * d }
  /- jet.h:890-899 -/
  | .erf, a => some { val := Loss.erf a, comp := fun u => u * Real.exp (-a * a) * (1 / Real.sqrt (Real.arctan 1)) }
  /- jet.h:904-908 -/
  | .erfc, a => some { val := 1 - Loss.erf a, comp := fun u => -u * Real.exp (-a * a) * (1 / Real.sqrt (Real.arctan 1)) }
  /- jet.h:1251-1253 -/
  | .norm, a => some { val := a * a, comp := fun u => 2 * a * u }
  /- jet.h:1258-1261, the exponent is a `double`; `pow(a, p)` with `a < 0` is finite for integers `p` only, `pow(0, p)` for `p ≥ 0` only -/
  | .powC p, a =>
    if (a < 0 ∧ (⌊p⌋ : ℝ) ≠ p) ∨ (a = 0 ∧ p < 0) then none
    else if a = 0 ∧ p < 1 then some (.undiff (a ^ p))
    else let t := p * a ^ (p - 1); some { val := a ^ p, comp := fun u => t * u }
  /- jet.h:1275-1299, the base is a scalar -/
  | .powB b, a =>
    if b = 0 ∧ 0 < a then some { val := 0, comp := fun _ => 0, scalar := true }
    else if b < 0 ∧ a = (⌊a⌋ : ℝ) then some { val := b ^ a, comp := fun _ => 0, nan := fun u => u ≠ 0, scalar := true }
    else if b < 0 ∨ (b = 0 ∧ a < 0) then none
    else if b = 0 then some (.undiff 1)
    else let t := b ^ a; some { val := t, comp := fun u => Real.log b * t * u }
  /- `BesselJ0`, `BesselJ1`, `BesselJn` and `cyl_bessel_j` with `CERES_HAS_CPP17_BESSEL_FUNCTIONS`, jet.h:958-1009; the library function throws a `domain_error` if
  its order or its argument is negative, which happens for `0 < v < 1` when the derivative is computed: no result -/
  | .bessel v, a =>
    if v < 0 ∨ a < 0 then none
    else if v = 0 then some { val := besselJ 0 a, comp := fun u => -besselJ 1 a * u }
    else if v - 1 < 0 then none
    else some { val := besselJ v a, comp := fun u => 1 / 2 * (besselJ (v - 1) a - besselJ (v + 1) a) * u }

/-- The operations of two jets with scalar parts `a` and `b`. -/
noncomputable def rule2 : Op2 → ℝ → ℝ → Option Rule2
  /- jet.h:320-328 -/
  | .add, a, b => some { val := a + b, comp := fun u w => u + w, shape := .expand }
  /- jet.h:344-352 -/
  | .sub, a, b => some { val := a - b, comp := fun u w => u - w, shape := .expand }
  /- jet.h:368-376 -/
  | .mul, a, b => some { val := a * b, comp := fun u w => a * w + u * b, shape := .expand }
  /- jet.h:392-409 -/
  | .div, a, b => if b = 0 then none else let bi := 1 / b; let q := a * bi; some { val := q, comp := fun u w => (u - q * w) * bi, shape := .expand }
  /- jet.h:584-602, `abs(f.a) * d` with `d` infinite if `b` is zero -/
  | .copysign, a, b =>
    if b = 0 then some (.undiff |a| .expand)
    else some { val := copysign1 b * |a|, comp := fun u w => copysign1 a * copysign1 b * u + |a| * 0 * w, shape := .expand }
  /- jet.h:757-765 -/
  | .hypot, a, b =>
    let t := Real.sqrt (a ^ 2 + b ^ 2)
    if t = 0 then some (.undiff 0 .raw) else some { val := t, comp := fun u w => a / t * u + b / t * w, shape := .raw }
  /- jet.h:832-845 -/
  | .fmax, a, b =>
    if a < b then some { val := b, comp := fun _ w => w, shape := .right }
    else if b < a then some { val := a, comp := fun u _ => u, shape := .left }
    else some { val := (a + b) / 2, comp := fun u w => (u + w) / 2, shape := .loop }
  /- jet.h:855-868 -/
  | .fmin, a, b =>
    if b < a then some { val := b, comp := fun _ w => w, shape := .right }
    else if a < b then some { val := a, comp := fun u _ => u, shape := .left }
    else some { val := (a + b) / 2, comp := fun u w => (u + w) / 2, shape := .loop }
  /- jet.h:878-884 -/
  | .fdim, a, b =>
    if b < a then some { val := a - b, comp := fun u w => u - w, shape := .expand }
    else some { val := 0, comp := fun _ _ => 0, shape := .scalar }
  /- jet.h:1206-1215 -/
  | .midpoint, a, b => some { val := (a + b) / 2, comp := fun u w => (u + w) / 2, shape := .loop }
  /- jet.h:1223-1237; the arguments are `(g, f)` -/
  | .atan2, b, a =>
    if a * a + b * b = 0 then some (.undiff 0 .expand)
    else let t := 1 / (a * a + b * b); some { val := Loss.atan2 b a, comp := fun w u => t * (-b * u + a * w), shape := .expand }
  /- jet.h:1338-1395 -/
  | .pow, a, b =>
    if a = 0 ∧ 1 ≤ b then
      if 1 < b then some { val := 0, comp := fun _ _ => 0, shape := .scalar }
      else some { val := a, comp := fun u _ => u, shape := .left }
    else if a < 0 ∧ b = (⌊b⌋ : ℝ) then
      let t := b * a ^ (b - 1)
      some { val := a ^ b, comp := fun u _ => t * u, nan := fun _ w => w ≠ 0, shape := .expand }
    else if a < 0 ∨ (a = 0 ∧ b < 0) then none
    else if a = 0 then some (.undiff (a ^ b) .expand)
    else
      let t1 := a ^ b
      let t2 := b * a ^ (b - 1)
      let t3 := t1 * Real.log a
      some { val := t1, comp := fun u w => t2 * u + t3 * w, shape := .expand }

/-- The operations of three jets. -/
noncomputable def rule3 : Op3 → ℝ → ℝ → ℝ → Option Rule3
  /- jet.h:772-785 -/
  | .hypot, a, b, c =>
    let t := Real.sqrt (a ^ 2 + b ^ 2 + c ^ 2)
    if t = 0 then some { val := 0, comp := fun _ _ _ => 0, nan := fun _ _ _ => True }
    else some { val := t, comp := fun u w z => a / t * u + b / t * w + c / t * z }
  /- jet.h:789-796 -/
  | .fma, a, b, c => some { val := a * b + c, comp := fun u w z => b * u + a * w + z }
  /- jet.h:1188-1193 -/
  | .lerp, a, b, t => some { val := a + t * (b - a), comp := fun u w z => (1 - t) * u + t * w + (b - a) * z }

/-! ### Jets of compile-time dimension -/

/-- `Jet<T, N>`, jet.h:216-301 -/
structure SJet (n : Nat) where
  a : ℝ
  v : RVec n

/-- an operation of one jet -/
noncomputable def SJet.op1 {n} (o : Op1) (f : SJet n) : Out (SJet n) :=
  match rule1 o f.a with
  | none => .nonfinite
  | some r => if ∃ i, r.nan (f.v i) then .nonfinite else .ok ⟨r.val, fun i => r.comp (f.v i)⟩

/-- an operation of two jets -/
noncomputable def SJet.op2 {n} (o : Op2) (f g : SJet n) : Out (SJet n) :=
  match rule2 o f.a g.a with
  | none => .nonfinite
  | some r => if ∃ i, r.nan (f.v i) (g.v i) then .nonfinite else .ok ⟨r.val, fun i => r.comp (f.v i) (g.v i)⟩

/-- an operation of three jets -/
noncomputable def SJet.op3 {n} (o : Op3) (f g h : SJet n) : Out (SJet n) :=
  match rule3 o f.a g.a h.a with
  | none => .nonfinite
  | some r => if ∃ i, r.nan (f.v i) (g.v i) (h.v i) then .nonfinite else .ok ⟨r.val, fun i => r.comp (f.v i) (g.v i) (h.v i)⟩

/-! ### Jets of run-time dimension -/

/-- `Jet<T, Eigen::Dynamic>`: an empty `v` counts as zeros -/
structure DJet where
  a : ℝ
  v : List ℝ

/-- an operation of one jet; a NaN is written into the result (`result.v[i]`, jet.h:1288) even if its vector is empty -/
noncomputable def DJet.op1 (o : Op1) (f : DJet) : Out DJet :=
  match rule1 o f.a with
  | none => .nonfinite
  | some r =>
    if r.scalar then (if ∃ u ∈ f.v, r.nan u then .ub else .ok ⟨r.val, []⟩)
    else if ∃ u ∈ f.v, r.nan u then .nonfinite else .ok ⟨r.val, f.v.map r.comp⟩

/-- an Eigen expression of two vectors: they must have the same size -/
noncomputable def DJet.zip2 (r : Rule2) (u w : List ℝ) : Out DJet :=
  if u.length ≠ w.length then .ub
  else if ∃ p ∈ u.zip w, r.nan p.1 p.2 then .nonfinite else .ok ⟨r.val, List.zipWith r.comp u w⟩

/-- `f.v.size() > 0 ? f.v : Zero(g.v.size())`, jet.h:324-325 -/
def orZeros (u w : List ℝ) : List ℝ := if u.length > 0 then u else List.replicate w.length 0

/-- an operation of two jets -/
noncomputable def DJet.op2 (o : Op2) (f g : DJet) : Out DJet :=
  match rule2 o f.a g.a with
  | none => .nonfinite
  | some r =>
    match r.shape with
    | .expand => DJet.zip2 r (orZeros f.v g.v) (orZeros g.v f.v)
    | .raw => DJet.zip2 r f.v g.v
    /- jet.h:1207-1214: `result.v` is empty, the loop runs over the size of `a.v` -/
    | .loop => if f.v.length > 0 then .ub else .ok ⟨r.val, []⟩
    | .left => .ok ⟨r.val, f.v⟩
    | .right => .ok ⟨r.val, g.v⟩
    | .scalar => .ok ⟨r.val, []⟩

/-- an operation of three jets: Eigen expressions -/
noncomputable def DJet.op3 (o : Op3) (f g h : DJet) : Out DJet :=
  match rule3 o f.a g.a h.a with
  | none => .nonfinite
  | some r =>
    if f.v.length ≠ g.v.length ∨ g.v.length ≠ h.v.length then .ub
    else if ∃ p ∈ f.v.zip (g.v.zip h.v), r.nan p.1 p.2.1 p.2.2 then .nonfinite
    else .ok ⟨r.val, (f.v.zip (g.v.zip h.v)).map fun p => r.comp p.1 p.2.1 p.2.2⟩

/-! ### Expressions -/

/-- an expression of `n` variables, as a user's function builds it -/
inductive Expr (n : Nat)
  | var (i : Fin n)
  | const (c : ℝ)
  | op1 (o : Op1) (e : Expr n)
  | op2 (o : Op2) (e₁ e₂ : Expr n)
  | op3 (o : Op3) (e₁ e₂ e₃ : Expr n)

/-- the rest of a computation -/
def Out.bind {α β : Type*} (x : Out α) (k : α → Out β) : Out β :=
  match x with
  | .ok a => k a
  | .nonfinite => .nonfinite
  | .ub => .ub

/-- the parameters as jets, auto_diff.h:31-50 and optimize_autodiff.h:40-69: the `i`-th has the unit vector `e_i`; a constant is `Jet(c)` -/
noncomputable def Expr.jet {n} (x : RVec n) : Expr n → Out (SJet n)
  | .var i => .ok ⟨x i, Pi.single i 1⟩
  | .const c => .ok ⟨c, 0⟩
  | .op1 o e => (e.jet x).bind (SJet.op1 o)
  | .op2 o e₁ e₂ => (e₁.jet x).bind fun f => (e₂.jet x).bind (SJet.op2 o f)
  | .op3 o e₁ e₂ e₃ => (e₁.jet x).bind fun f => (e₂.jet x).bind fun g => (e₃.jet x).bind (SJet.op3 o f g)

/-- the same with jets of run-time dimension: `x_jet[i].v = Zero(dims); x_jet[i].v[i] = 1`, and the `v` of a constant is empty -/
noncomputable def Expr.djet {n} (x : RVec n) : Expr n → Out DJet
  | .var i => .ok ⟨x i, List.ofFn (Pi.single i 1 : RVec n)⟩
  | .const c => .ok ⟨c, []⟩
  | .op1 o e => (e.djet x).bind (DJet.op1 o)
  | .op2 o e₁ e₂ => (e₁.djet x).bind fun f => (e₂.djet x).bind (DJet.op2 o f)
  | .op3 o e₁ e₂ e₃ => (e₁.djet x).bind fun f => (e₂.djet x).bind fun g => (e₃.djet x).bind (DJet.op3 o f g)

/-- the residuals and the Jacobian of `m` expressions: `Eval`, auto_diff.h:73-119, for a compile-time dimension: row `i` is the infinitesimal part of residual
`i` -/
noncomputable def evalJac {n m} (e : Fin m → Expr n) (x : RVec n) : Option (RVec m × RMat m n) :=
  if ∀ i, ∃ j, (e i).jet x = .ok j then
    some (fun i => match (e i).jet x with | .ok j => j.a | _ => 0, fun i => match (e i).jet x with | .ok j => j.v | _ => 0)
  else none

/-- a row of the Jacobian for a run-time dimension, auto_diff.h:96-109: a residual whose infinitesimal part has another size than the parameters (it is not
connected to them) has a row of zeros, if `check_residuals`; otherwise `J.row(i) = res[i].v` assigns a vector of another size -/
noncomputable def rowD {n} (check : Bool) (d : DJet) : Out (RVec n) :=
  if d.v.length ≠ n then (if check then .ok 0 else .ub)
  else .ok fun i => d.v.getD i.val 0

/-- `Eval`, auto_diff.h:73-119, for a run-time dimension, and the loop of `OptimizeWithAutoDiff` (optimize_autodiff.h:121-144, without the check) -/
noncomputable def evalJacD {n m} (check : Bool) (e : Fin m → Expr n) (x : RVec n) : Option (RVec m × RMat m n) :=
  if ∀ i, ∃ d j, (e i).djet x = .ok d ∧ (rowD check d : Out (RVec n)) = .ok j then
    some (fun i => match (e i).djet x with | .ok d => d.a | _ => 0,
      fun i => match ((e i).djet x).bind (rowD check) with | .ok j => j | _ => 0)
  else none

end Loss
end Verif
