import Verif.Model.Jet
import Verif.Lemmas.Calc
import Mathlib.Analysis.SpecialFunctions.Pow.Deriv
import Mathlib.Analysis.Calculus.Deriv.Abs
import Mathlib.Analysis.Calculus.SmoothSeries
import Mathlib.Analysis.SpecialFunctions.Trigonometric.InverseDeriv
import Mathlib.Analysis.SpecialFunctions.Trigonometric.ArctanDeriv
import Mathlib.Analysis.SpecialFunctions.Trigonometric.DerivHyp
import Mathlib.Analysis.SpecialFunctions.Complex.LogDeriv
import Mathlib.MeasureTheory.Integral.IntervalIntegral.FundThmCalculus
/-!
# C36: automatic differentiation returns the exact derivative
-/

namespace Verif
namespace Loss

open Classical Filter Topology

/-! ### The mathematical meaning of expressions -/

/-- the function of one argument -/
noncomputable def fn1 : Op1 → ℝ → ℝ
  | .neg, a => -a
  | .addS s, a => a + s
  | .sAdd s, a => s + a
  | .subS s, a => a - s
  | .sSub s, a => s - a
  | .mulS s, a => a * s
  | .sMul s, a => s * a
  | .divS s, a => a / s
  | .sDiv s, a => s / a
  | .abs, a => |a|
  | .log, a => Real.log a
  | .log10, a => Real.logb 10 a
  | .log1p, a => Real.log (1 + a)
  | .exp, a => Real.exp a
  | .expm1, a => Real.exp a - 1
  | .sqrt, a => Real.sqrt a
  | .cos, a => Real.cos a
  | .acos, a => Real.arccos a
  | .sin, a => Real.sin a
  | .asin, a => Real.arcsin a
  | .tan, a => Real.tan a
  | .atan, a => Real.arctan a
  | .sinh, a => Real.sinh a
  | .cosh, a => Real.cosh a
  | .tanh, a => Real.tanh a
  | .floor, a => ⌊a⌋
  | .ceil, a => ⌈a⌉
  | .cbrt, a => cbrt a
  | .exp2, a => 2 ^ a
  | .log2, a => Real.logb 2 a
  | .erf, a => erf a
  | .erfc, a => 1 - erf a
  | .norm, a => a ^ 2
  | .powC p, a => a ^ p
  | .powB b, a => b ^ a
  | .bessel v, a => besselJ v a

/-- the function of two arguments -/
noncomputable def fn2 : Op2 → ℝ → ℝ → ℝ
  | .add, a, b => a + b
  | .sub, a, b => a - b
  | .mul, a, b => a * b
  | .div, a, b => a / b
  | .copysign, a, b => if b < 0 then -|a| else |a|
  | .hypot, a, b => Real.sqrt (a ^ 2 + b ^ 2)
  | .fmax, a, b => max a b
  | .fmin, a, b => min a b
  | .fdim, a, b => max (a - b) 0
  | .midpoint, a, b => (a + b) / 2
  | .atan2, b, a => atan2 b a
  | .pow, a, b => a ^ b

/-- the function of three arguments -/
noncomputable def fn3 : Op3 → ℝ → ℝ → ℝ → ℝ
  | .hypot, a, b, c => Real.sqrt (a ^ 2 + b ^ 2 + c ^ 2)
  | .fma, a, b, c => a * b + c
  | .lerp, a, b, t => a + t * (b - a)

/-- the value of an expression -/
noncomputable def Expr.value {n} : Expr n → RVec n → ℝ
  | .var i, x => x i
  | .const c, _ => c
  | .op1 o e, x => fn1 o (e.value x)
  | .op2 o e₁ e₂, x => fn2 o (e₁.value x) (e₂.value x)
  | .op3 o e₁ e₂ e₃, x => fn3 o (e₁.value x) (e₂.value x) (e₃.value x)

/-- the points where the function of one argument is differentiable -/
def dom1 : Op1 → ℝ → Prop
  | .divS s, _ => s ≠ 0
  | .sDiv _, a => a ≠ 0
  | .abs, a => a ≠ 0
  | .log, a => 0 < a
  | .log10, a => 0 < a
  | .log2, a => 0 < a
  | .log1p, a => -1 < a
  | .sqrt, a => 0 < a
  | .acos, a => -1 < a ∧ a < 1
  | .asin, a => -1 < a ∧ a < 1
  | .tan, a => Real.cos a ≠ 0
  | .floor, a => ∀ k : ℤ, a ≠ k
  | .ceil, a => ∀ k : ℤ, a ≠ k
  | .cbrt, a => a ≠ 0
  | .powC p, a => 0 < a ∨ (a ≠ 0 ∧ ∃ k : ℤ, p = k) ∨ ∃ k : ℕ, p = k + 1
  | .powB b, a => 0 < b ∨ (b = 0 ∧ 0 < a)
  | .bessel v, a => 0 ≤ a ∧ (v = 0 ∨ 1 ≤ v)
  | _, _ => True

/-- the points where the function of two arguments is differentiable -/
def dom2 : Op2 → ℝ → ℝ → Prop
  | .div, _, b => b ≠ 0
  | .copysign, a, b => a ≠ 0 ∧ b ≠ 0
  | .hypot, a, b => a ≠ 0 ∨ b ≠ 0
  | .fmax, a, b => a ≠ b
  | .fmin, a, b => a ≠ b
  | .fdim, a, b => a ≠ b
  | .atan2, b, a => 0 < a ∨ b ≠ 0
  | .pow, a, _ => 0 < a
  | _, _, _ => True

/-- the points where the function of three arguments is differentiable -/
def dom3 : Op3 → ℝ → ℝ → ℝ → Prop
  | .hypot, a, b, c => a ≠ 0 ∨ b ≠ 0 ∨ c ≠ 0
  | _, _, _, _ => True

/-- the expression is constant near the point -/
def Expr.LocConst {n} (e : Expr n) (x : RVec n) : Prop := ∀ᶠ y in 𝓝 x, e.value y = e.value x

/-- Every operation of the expression is applied inside its domain. Powers also have a negative base if the exponent is an integer and does
not vary, and a zero base if this integer is positive. -/
def Expr.InDomain {n} (x : RVec n) : Expr n → Prop
  | .var _ => True
  | .const _ => True
  | .op1 o e => e.InDomain x ∧ (dom1 o (e.value x) ∨ ∃ b, o = .powB b ∧ b < 0 ∧ (∃ k : ℤ, e.value x = k) ∧ e.LocConst x)
  | .op2 o e₁ e₂ => e₁.InDomain x ∧ e₂.InDomain x ∧
      (dom2 o (e₁.value x) (e₂.value x) ∨
        (o = .pow ∧ e₂.LocConst x ∧ ((e₁.value x < 0 ∧ ∃ k : ℤ, e₂.value x = k) ∨ (e₁.value x = 0 ∧ ∃ k : ℕ, e₂.value x = k + 1))))
  | .op3 o e₁ e₂ e₃ => e₁.InDomain x ∧ e₂.InDomain x ∧ e₃.InDomain x ∧ dom3 o (e₁.value x) (e₂.value x) (e₃.value x)

/-! ### Derivatives of the functions -/

theorem copysign1_mul_self (a : ℝ) : copysign1 a * a = |a| := by
  unfold copysign1
  split
  · rw [abs_of_neg ‹_›]; ring
  · rw [abs_of_nonneg (not_lt.1 ‹_›)]; ring

theorem hasDerivAt_abs' {a : ℝ} (h : a ≠ 0) : HasDerivAt (fun t : ℝ => |t|) (copysign1 a) a := by
  rcases lt_or_gt_of_ne h with h | h
  · have := hasDerivAt_abs_neg h
    simpa [copysign1, h] using this
  · have := hasDerivAt_abs_pos h
    simpa [copysign1, not_lt.2 h.le] using this

theorem cbrt_pos {x : ℝ} (h : 0 < x) : 0 < cbrt x := by
  rw [cbrt, if_pos h.le]; exact Real.rpow_pos_of_pos h _

theorem cbrt_sq {a : ℝ} (h : 0 < a) : cbrt (a * a) = a ^ (2 / 3 : ℝ) := by
  rw [cbrt, if_pos (mul_pos h h).le, ← pow_two, ← Real.rpow_natCast, ← Real.rpow_mul h.le]; norm_num

theorem hasDerivAt_cbrt_pos {a : ℝ} (h : 0 < a) : HasDerivAt cbrt (1 / (3 * cbrt (a * a))) a := by
  have h1 := Real.hasDerivAt_rpow_const (x := a) (p := 1 / 3) (Or.inl h.ne')
  have h2 : cbrt =ᶠ[𝓝 a] fun x => x ^ (1 / 3 : ℝ) := by
    filter_upwards [eventually_gt_nhds h] with x hx
    rw [cbrt, if_pos hx.le]
  refine (h1.congr_of_eventuallyEq h2).congr_deriv ?_
  rw [cbrt_sq h, show (1 / 3 - 1 : ℝ) = -(2 / 3) by norm_num, Real.rpow_neg h.le]
  field_simp

theorem cbrt_neg (x : ℝ) : cbrt (-x) = -cbrt x := by
  unfold cbrt
  rcases lt_trichotomy x 0 with h | h | h
  · rw [if_pos (by linarith), if_neg (by linarith)]; ring
  · subst h; simp
  · rw [if_neg (by linarith), if_pos h.le]; simp

theorem hasDerivAt_cbrt {a : ℝ} (h : a ≠ 0) : HasDerivAt cbrt (1 / (3 * cbrt (a * a))) a := by
  rcases lt_or_gt_of_ne h with h | h
  · have h1 := hasDerivAt_cbrt_pos (neg_pos.2 h)
    have h2 := (HasDerivAt.comp a h1 (hasDerivAt_neg a)).neg
    have e : (-(cbrt ∘ Neg.neg) : ℝ → ℝ) = cbrt := by funext x; simp [cbrt_neg]
    rw [e] at h2
    refine h2.congr_deriv ?_
    rw [neg_mul_neg]; ring
  · exact hasDerivAt_cbrt_pos h

theorem hasDerivAt_erf (a : ℝ) : HasDerivAt erf (Real.exp (-a * a) * (1 / Real.sqrt (Real.arctan 1))) a := by
  have hc : Continuous fun t : ℝ => Real.exp (-t * t) := by fun_prop
  have h1 := intervalIntegral.integral_hasDerivAt_right (hc.intervalIntegrable 0 a) (hc.stronglyMeasurableAtFilter _ _) hc.continuousAt
  refine (h1.const_mul (2 / Real.sqrt Real.pi)).congr_deriv ?_
  have e : 2 / Real.sqrt Real.pi = 1 / Real.sqrt (Real.arctan 1) := by
    rw [Real.arctan_one, Real.sqrt_div Real.pi_pos.le, show (4 : ℝ) = 2 ^ 2 by norm_num, Real.sqrt_sq (by norm_num)]
    rw [one_div_div]
  rw [e]; ring

/-- the power series of the Bessel function of order `v` -/
noncomputable def besselS (v z : ℝ) : ℝ := ∑' k : ℕ, (-1) ^ k / (k.factorial * Real.Gamma (k + v + 1)) * z ^ k

theorem gamma_pos_of {v : ℝ} (hv : 0 ≤ v) (k : ℕ) : 0 < Real.Gamma (k + v + 1) := Real.Gamma_pos_of_pos (by positivity)

theorem gamma_le {v : ℝ} (hv : 0 ≤ v) (k : ℕ) : Real.Gamma (v + 1) ≤ Real.Gamma (k + v + 1) := by
  induction k with
  | zero => simp
  | succ k ih =>
    have h := Real.Gamma_add_one (s := k + v + 1) (by positivity)
    have h1 := gamma_pos_of hv k
    push_cast
    rw [show (k : ℝ) + 1 + v + 1 = k + v + 1 + 1 by ring, h]
    have h2 : (1 : ℝ) ≤ k + v + 1 := by have : (0 : ℝ) ≤ k := k.cast_nonneg; linarith
    nlinarith

theorem besselS_term {v : ℝ} (hv : 0 ≤ v) (z : ℝ) (k : ℕ) :
    ‖(-1) ^ k / (k.factorial * Real.Gamma (k + v + 1)) * z ^ k‖ ≤ 1 / Real.Gamma (v + 1) * (|z| ^ k / k.factorial) := by
  have h1 := gamma_pos_of hv k
  have h2 := gamma_le hv k
  have h3 : 0 < Real.Gamma (v + 1) := Real.Gamma_pos_of_pos (by linarith)
  have h4 : (0 : ℝ) < k.factorial := by positivity
  rw [norm_mul, norm_div, norm_pow, norm_neg, norm_one, one_pow, norm_mul, norm_pow, Real.norm_eq_abs, Real.norm_eq_abs, Real.norm_eq_abs, abs_of_pos h1, abs_of_pos h4]
  have h5 : 1 / Real.Gamma (k + v + 1) ≤ 1 / Real.Gamma (v + 1) := one_div_le_one_div_of_le h3 h2
  have h6 : 0 ≤ |z| ^ k / (k.factorial : ℝ) := by positivity
  calc 1 / (↑k.factorial * Real.Gamma (↑k + v + 1)) * |z| ^ k = 1 / Real.Gamma (k + v + 1) * (|z| ^ k / k.factorial) := by field_simp
    _ ≤ _ := mul_le_mul_of_nonneg_right h5 h6

theorem besselS_summable {v : ℝ} (hv : 0 ≤ v) (z : ℝ) : Summable fun k : ℕ => (-1) ^ k / (k.factorial * Real.Gamma (k + v + 1)) * z ^ k :=
  Summable.of_norm_bounded ((Real.summable_pow_div_factorial |z|).mul_left _) (besselS_term hv z)

/-- the derivative of the series of order `v` is minus the series of order `v + 1` -/
theorem hasDerivAt_besselS {v : ℝ} (hv : 0 ≤ v) (z : ℝ) : HasDerivAt (besselS v) (-besselS (v + 1) z) z := by
  set R := |z| + 1 with hR
  have hR0 : 0 < R := by positivity
  have key : ∀ (y : ℝ) (k : ℕ), (-1) ^ (k + 1) / ((k + 1).factorial * Real.Gamma (↑(k + 1) + v + 1)) * (↑(k + 1) * y ^ k) =
      -((-1) ^ k / (k.factorial * Real.Gamma (k + (v + 1) + 1)) * y ^ k) := by
    intro y k
    have h1 : Real.Gamma (↑(k + 1) + v + 1) = Real.Gamma (k + (v + 1) + 1) := by congr 1; push_cast; ring
    have h2 : Real.Gamma (k + (v + 1) + 1) ≠ 0 := (gamma_pos_of (v := v + 1) (by linarith) k).ne'
    have h3 : ((k + 1 : ℕ) : ℝ) ≠ 0 := by positivity
    have h4 : (k.factorial : ℝ) ≠ 0 := by positivity
    rw [h1, Nat.factorial_succ, Nat.cast_mul, pow_succ]
    field_simp
  have hd := hasDerivAt_tsum_of_isPreconnected (g := fun (k : ℕ) z => (-1) ^ k / (k.factorial * Real.Gamma (k + v + 1)) * z ^ k)
    (g' := fun (k : ℕ) y => (-1) ^ k / (k.factorial * Real.Gamma (k + v + 1)) * (k * y ^ (k - 1)))
    (u := fun k => if k = 0 then 0 else 1 / Real.Gamma (v + 1 + 1) * (R ^ (k - 1) / (k - 1).factorial)) (t := Metric.ball 0 R) (y₀ := 0) (y := z)
    (by
      rw [← summable_nat_add_iff 1]
      simp only [Nat.add_eq_zero_iff, one_ne_zero, and_false, if_false, Nat.add_sub_cancel]
      exact (Real.summable_pow_div_factorial R).mul_left _)
    Metric.isOpen_ball (convex_ball 0 R).isPreconnected
    (fun k y _ => (hasDerivAt_pow k y).const_mul _)
    (fun k y hy => by
      cases k with
      | zero => simp
      | succ k =>
        rw [if_neg (by simp), Nat.add_sub_cancel, key, norm_neg]
        refine (besselS_term (v := v + 1) (by linarith) y k).trans ?_
        have h3 : 0 < Real.Gamma (v + 1 + 1) := Real.Gamma_pos_of_pos (by linarith)
        have h5 : |y| ≤ R := by rw [Metric.mem_ball, dist_zero_right, Real.norm_eq_abs] at hy; exact hy.le
        gcongr)
    (by rw [Metric.mem_ball, dist_self]; exact hR0)
    (besselS_summable hv 0)
    (by rw [Metric.mem_ball, dist_zero_right, Real.norm_eq_abs]; linarith)
  refine hd.congr_deriv ?_
  have hs : Summable fun k : ℕ => (-1) ^ k / (k.factorial * Real.Gamma (k + v + 1)) * (k * z ^ (k - 1)) := by
    rw [← summable_nat_add_iff 1]
    simp only [Nat.add_sub_cancel, key]
    exact (besselS_summable (by linarith) z).neg
  rw [hs.tsum_eq_zero_add]
  simp only [Nat.add_sub_cancel, key, tsum_neg, Nat.cast_zero, zero_mul, mul_zero, zero_add]
  rfl

/-- the recurrence of the series -/
theorem besselS_rec {v : ℝ} (hv : 1 ≤ v) (z : ℝ) : v * besselS v z = besselS (v - 1) z + z * besselS (v + 1) z := by
  have h0 := besselS_summable (v := v) (by linarith) z
  have h1 := besselS_summable (v := v - 1) (by linarith) z
  have h2 := besselS_summable (v := v + 1) (by linarith) z
  have key : ∀ k : ℕ, v * ((-1) ^ k / (k.factorial * Real.Gamma (k + v + 1)) * z ^ k) - (-1) ^ k / (k.factorial * Real.Gamma (k + (v - 1) + 1)) * z ^ k =
      -((-1) ^ k * k / (k.factorial * Real.Gamma (k + v + 1)) * z ^ k) := by
    intro k
    have h3 : (k : ℝ) + v ≠ 0 := by positivity
    have h4 := Real.Gamma_add_one h3
    have h5 : 0 < Real.Gamma (k + v) := Real.Gamma_pos_of_pos (by positivity)
    have h6 : (k.factorial : ℝ) ≠ 0 := by positivity
    rw [h4, show (k : ℝ) + (v - 1) + 1 = k + v by ring]
    field_simp
    ring
  have hs : Summable fun k : ℕ => -((-1) ^ k * k / (k.factorial * Real.Gamma (k + v + 1)) * z ^ k) := by
    simp only [← key]
    exact (h0.mul_left v).sub h1
  have h3 : v * besselS v z - besselS (v - 1) z = z * besselS (v + 1) z := by
    unfold besselS
    rw [← tsum_mul_left, ← (h0.mul_left v).tsum_sub h1, ← tsum_mul_left]
    simp only [key]
    rw [hs.tsum_eq_zero_add]
    simp only [Nat.cast_zero, mul_zero, zero_div, zero_mul, neg_zero, zero_add]
    refine tsum_congr fun k => ?_
    have h1 : Real.Gamma (↑(k + 1) + v + 1) = Real.Gamma (k + (v + 1) + 1) := by congr 1; push_cast; ring
    have h2 : Real.Gamma (k + (v + 1) + 1) ≠ 0 := (gamma_pos_of (v := v + 1) (by linarith) k).ne'
    have h3 : ((k + 1 : ℕ) : ℝ) ≠ 0 := by positivity
    have h4 : (k.factorial : ℝ) ≠ 0 := by positivity
    rw [h1, Nat.factorial_succ, Nat.cast_mul, pow_succ, pow_succ]
    field_simp
  linarith

theorem besselJ_eq (v x : ℝ) : besselJ v x = (x / 2) ^ v * besselS v ((x / 2) * (x / 2)) := rfl

theorem hasDerivAt_halfsq (v : ℝ) (hv : 0 ≤ v) (x : ℝ) : HasDerivAt (fun x => besselS v ((x / 2) * (x / 2))) (-(x / 2) * besselS (v + 1) ((x / 2) * (x / 2))) x := by
  have h1 : HasDerivAt (fun x : ℝ => (x / 2) * (x / 2)) (x / 2) x := by
    have := ((hasDerivAt_id x).div_const 2).mul ((hasDerivAt_id x).div_const 2)
    refine this.congr_deriv ?_
    simp only [id_eq]; ring
  have := (hasDerivAt_besselS hv ((x / 2) * (x / 2))).comp x h1
  exact this.congr_deriv (by ring)

theorem hasDerivAt_besselJ_zero (x : ℝ) : HasDerivAt (besselJ 0) (-besselJ 1 x) x := by
  have h := hasDerivAt_halfsq 0 le_rfl x
  have e : besselJ 0 = fun x => besselS 0 ((x / 2) * (x / 2)) := by
    funext x; rw [besselJ_eq, Real.rpow_zero, one_mul]
  rw [e]
  refine h.congr_deriv ?_
  rw [besselJ_eq, Real.rpow_one, zero_add]; ring

/-- `J_v' = (J_{v-1} - J_{v+1}) / 2` -/
theorem hasDerivAt_besselJ {v x : ℝ} (hv : 1 ≤ v) (hx : (∃ n : ℕ, v = n) ∨ 0 ≤ x) :
    HasDerivAt (besselJ v) (1 / 2 * (besselJ (v - 1) x - besselJ (v + 1) x)) x := by
  have h1 := hasDerivAt_halfsq v (by linarith) x
  have h2 : HasDerivAt (fun x : ℝ => (x / 2) ^ v) (1 / 2 * (v * (x / 2) ^ (v - 1))) x := by
    have := ((hasDerivAt_id x).div_const 2).rpow_const (p := v) (Or.inr hv)
    exact this.congr_deriv (by simp only [id_eq]; ring)
  refine (h2.mul h1).congr_deriv ?_
  rw [besselJ_eq, besselJ_eq]
  have h3 := besselS_rec hv ((x / 2) * (x / 2))
  have h4 : (x / 2) ^ v * (x / 2) = (x / 2) ^ (v + 1) := by
    rcases hx with ⟨n, rfl⟩ | hx
    · rw [Real.rpow_natCast, ← Nat.cast_add_one, Real.rpow_natCast, pow_succ]
    · rw [Real.rpow_add_of_nonneg (by linarith) (by linarith) (by linarith), Real.rpow_one]
  have h5 : (x / 2) ^ (v - 1) * ((x / 2) * (x / 2)) = (x / 2) ^ (v + 1) := by
    rcases hx with ⟨n, rfl⟩ | hx
    · have hn : 1 ≤ n := by exact_mod_cast hv
      obtain ⟨m, rfl⟩ : ∃ m, n = m + 1 := ⟨n - 1, by omega⟩
      rw [show ((m + 1 : ℕ) : ℝ) - 1 = (m : ℕ) by push_cast; ring, show ((m + 1 : ℕ) : ℝ) + 1 = ((m + 2 : ℕ) : ℝ) by push_cast; ring, Real.rpow_natCast,
        Real.rpow_natCast, pow_add, pow_two]
    · rw [show v + 1 = v - 1 + 2 by ring, Real.rpow_add_of_nonneg (by linarith) (by linarith) (by norm_num), Real.rpow_two, pow_two]
  linear_combination 1 / 2 * (x / 2) ^ (v - 1) * h3 - besselS (v + 1) ((x / 2) * (x / 2)) * h4 + 1 / 2 * besselS (v + 1) ((x / 2) * (x / 2)) * h5

theorem hasDerivAt_tanh' (a : ℝ) : HasDerivAt Real.tanh (1 - Real.tanh a * Real.tanh a) a := by
  have h1 := (Real.hasDerivAt_sinh a).div (Real.hasDerivAt_cosh a) (Real.cosh_pos a).ne'
  refine (h1.congr_of_eventuallyEq (f₁ := Real.tanh) (Eventually.of_forall fun t => Real.tanh_eq_sinh_div_cosh t)).congr_deriv ?_
  rw [Real.tanh_eq_sinh_div_cosh]
  have := (Real.cosh_pos a).ne'
  field_simp

theorem floor_locConst {a : ℝ} (h : ∀ k : ℤ, a ≠ k) : ∀ᶠ t in 𝓝 a, ⌊t⌋ = ⌊a⌋ := by
  have h1 : (⌊a⌋ : ℝ) < a := lt_of_le_of_ne (Int.floor_le a) (Ne.symm (h _))
  have h2 : a < (⌊a⌋ : ℝ) + 1 := Int.lt_floor_add_one a
  filter_upwards [eventually_gt_nhds h1, eventually_lt_nhds h2] with t ht1 ht2
  exact Int.floor_eq_iff.2 ⟨ht1.le, ht2⟩

theorem ceil_locConst {a : ℝ} (h : ∀ k : ℤ, a ≠ k) : ∀ᶠ t in 𝓝 a, ⌈t⌉ = ⌈a⌉ := by
  have h1 : a < (⌈a⌉ : ℝ) := lt_of_le_of_ne (Int.le_ceil a) (h _)
  have h2 : (⌈a⌉ : ℝ) - 1 < a := by linarith [Int.ceil_lt_add_one a]
  filter_upwards [eventually_lt_nhds h1, eventually_gt_nhds h2] with t ht1 ht2
  exact Int.ceil_eq_iff.2 ⟨ht2, ht1.le⟩

theorem hasDerivAt_locConst {φ : ℝ → ℝ} {a c : ℝ} (h : ∀ᶠ t in 𝓝 a, φ t = c) : HasDerivAt φ 0 a :=
  (hasDerivAt_const a c).congr_of_eventuallyEq h

/-- an operation of one argument inside its domain: no NaN, the value of the function and its derivative -/
theorem rule1_correct (o : Op1) (a : ℝ) (h : dom1 o a) :
    ∃ r d, rule1 o a = some r ∧ (∀ u, ¬ r.nan u) ∧ r.val = fn1 o a ∧ (∀ u, r.comp u = d * u) ∧ HasDerivAt (fn1 o) d a := by
  cases o with
  | neg => exact ⟨_, -1, rfl, fun _ h => h, rfl, fun u => by ring, hasDerivAt_neg a⟩
  | addS s => exact ⟨_, 1, rfl, fun _ h => h, rfl, fun u => by ring, (hasDerivAt_id a).add_const s⟩
  | sAdd s => exact ⟨_, 1, rfl, fun _ h => h, add_comm _ _, fun u => by ring, (hasDerivAt_id a).const_add s⟩
  | subS s => exact ⟨_, 1, rfl, fun _ h => h, rfl, fun u => by ring, (hasDerivAt_id a).sub_const s⟩
  | sSub s => exact ⟨_, -1, rfl, fun _ h => h, rfl, fun u => by ring, (hasDerivAt_id a).const_sub s⟩
  | mulS s => exact ⟨_, s, rfl, fun _ h => h, rfl, fun u => by ring, ((hasDerivAt_id a).mul_const s).congr_deriv (by ring)⟩
  | sMul s => exact ⟨_, s, rfl, fun _ h => h, mul_comm _ _, fun u => by ring, ((hasDerivAt_id a).const_mul s).congr_deriv (by ring)⟩
  | divS s =>
    have hs : s ≠ 0 := h
    refine ⟨_, 1 / s, (if_neg hs), fun _ h => h, ?_, fun u => by ring, ((hasDerivAt_id a).div_const s)⟩
    simp only [fn1]; ring
  | sDiv s =>
    have ha : a ≠ 0 := h
    refine ⟨_, -s / (a * a), (if_neg ha), fun _ h => h, rfl, fun u => by ring, ?_⟩
    have := (hasDerivAt_inv ha).const_mul s
    refine (this.congr_deriv (by ring)).congr_of_eventuallyEq (Eventually.of_forall fun t => ?_)
    simp only [fn1]; ring
  | abs => exact ⟨_, copysign1 a, rfl, fun _ h => h, rfl, fun u => rfl, hasDerivAt_abs' h⟩
  | log =>
    have ha : 0 < a := h
    exact ⟨_, 1 / a, (if_neg (not_le.2 ha)), fun _ h => h, rfl, fun u => by ring,
      (Real.hasDerivAt_log ha.ne').congr_deriv (by ring)⟩
  | log10 =>
    have ha : 0 < a := h
    refine ⟨_, 1 / (a * Real.log 10), (if_neg (not_le.2 ha)), fun _ h => h, rfl, fun u => by ring, ?_⟩
    exact ((Real.hasDerivAt_log ha.ne').div_const (Real.log 10)).congr_deriv (by field_simp)
  | log1p =>
    have ha : -1 < a := h
    have ha' : 1 + a ≠ 0 := by linarith
    refine ⟨_, 1 / (1 + a), (if_neg (not_le.2 ha)), fun _ h => h, rfl, fun u => by ring, ?_⟩
    exact ((hasDerivAt_id a).const_add 1).log ha'
  | exp => exact ⟨_, Real.exp a, rfl, fun _ h => h, rfl, fun u => rfl, Real.hasDerivAt_exp a⟩
  | expm1 => exact ⟨_, Real.exp a, rfl, fun _ h => h, rfl, fun u => by ring, (Real.hasDerivAt_exp a).sub_const 1⟩
  | sqrt =>
    have ha : 0 < a := h
    exact ⟨_, 1 / (2 * Real.sqrt a), ((if_neg (not_lt.2 ha.le)).trans (if_neg ha.ne')), fun _ h => h, rfl, fun u => by ring,
      Real.hasDerivAt_sqrt ha.ne'⟩
  | cos => exact ⟨_, -Real.sin a, rfl, fun _ h => h, rfl, fun u => rfl, Real.hasDerivAt_cos a⟩
  | acos =>
    have ha : -1 < a ∧ a < 1 := h
    have h1 : |a| < 1 := abs_lt.2 ha
    refine ⟨_, -1 / Real.sqrt (1 - a * a), ((if_neg (not_lt.2 h1.le)).trans (if_neg h1.ne)), fun _ h => h, rfl, fun u => rfl, ?_⟩
    exact (Real.hasDerivAt_arccos (by linarith [ha.1]) (by linarith [ha.2])).congr_deriv (by rw [pow_two]; ring)
  | sin => exact ⟨_, Real.cos a, rfl, fun _ h => h, rfl, fun u => rfl, Real.hasDerivAt_sin a⟩
  | asin =>
    have ha : -1 < a ∧ a < 1 := h
    have h1 : |a| < 1 := abs_lt.2 ha
    refine ⟨_, 1 / Real.sqrt (1 - a * a), ((if_neg (not_lt.2 h1.le)).trans (if_neg h1.ne)), fun _ h => h, rfl, fun u => rfl, ?_⟩
    exact (Real.hasDerivAt_arcsin (by linarith [ha.1]) (by linarith [ha.2])).congr_deriv (by rw [pow_two])
  | tan =>
    have ha : Real.cos a ≠ 0 := h
    refine ⟨_, 1 + Real.tan a * Real.tan a, (if_neg ha), fun _ h => h, rfl, fun u => rfl, ?_⟩
    refine (Real.hasDerivAt_tan ha).congr_deriv ?_
    rw [Real.tan_eq_sin_div_cos]
    have := Real.sin_sq_add_cos_sq a
    field_simp
    linarith
  | atan => exact ⟨_, 1 / (1 + a * a), rfl, fun _ h => h, rfl, fun u => rfl, (Real.hasDerivAt_arctan a).congr_deriv (by rw [pow_two])⟩
  | sinh => exact ⟨_, Real.cosh a, rfl, fun _ h => h, rfl, fun u => rfl, Real.hasDerivAt_sinh a⟩
  | cosh => exact ⟨_, Real.sinh a, rfl, fun _ h => h, rfl, fun u => rfl, Real.hasDerivAt_cosh a⟩
  | tanh => exact ⟨_, 1 - Real.tanh a * Real.tanh a, rfl, fun _ h => h, rfl, fun u => rfl, hasDerivAt_tanh' a⟩
  | floor =>
    refine ⟨_, 0, rfl, fun _ h => h, rfl, fun u => by ring, hasDerivAt_locConst (c := ⌊a⌋) ?_⟩
    filter_upwards [floor_locConst h] with t ht
    simp only [fn1, ht]
  | ceil =>
    refine ⟨_, 0, rfl, fun _ h => h, rfl, fun u => by ring, hasDerivAt_locConst (c := ⌈a⌉) ?_⟩
    filter_upwards [ceil_locConst h] with t ht
    simp only [fn1, ht]
  | cbrt =>
    have ha : a ≠ 0 := h
    exact ⟨_, 1 / (3 * cbrt (a * a)), (if_neg ha), fun _ h => h, rfl, fun u => by ring, hasDerivAt_cbrt ha⟩
  | exp2 =>
    refine ⟨_, (2 : ℝ) ^ a * Real.log 2, rfl, fun _ h => h, rfl, fun u => by ring, ?_⟩
    exact (Real.hasStrictDerivAt_const_rpow (by norm_num : (0 : ℝ) < 2) a).hasDerivAt
  | log2 =>
    have ha : 0 < a := h
    refine ⟨_, 1 / (a * Real.log 2), (if_neg (not_le.2 ha)), fun _ h => h, rfl, fun u => by ring, ?_⟩
    exact ((Real.hasDerivAt_log ha.ne').div_const (Real.log 2)).congr_deriv (by field_simp)
  | erf => exact ⟨_, Real.exp (-a * a) * (1 / Real.sqrt (Real.arctan 1)), rfl, fun _ h => h, rfl, fun u => by ring, hasDerivAt_erf a⟩
  | erfc =>
    exact ⟨_, -(Real.exp (-a * a) * (1 / Real.sqrt (Real.arctan 1))), rfl, fun _ h => h, rfl, fun u => by ring, (hasDerivAt_erf a).const_sub 1⟩
  | norm =>
    exact ⟨_, 2 * a, rfl, fun _ h => h, by simp only [fn1]; ring, fun u => rfl, (hasDerivAt_pow 2 a).congr_deriv (by simp)⟩
  | powC p =>
    have hp : 0 < a ∨ (a ≠ 0 ∧ ∃ k : ℤ, p = k) ∨ ∃ k : ℕ, p = k + 1 := h
    have h1 : ¬ ((a < 0 ∧ (⌊p⌋ : ℝ) ≠ p) ∨ (a = 0 ∧ p < 0)) := by
      rintro (⟨ha, hf⟩ | ⟨ha, hf⟩)
      · rcases hp with hp | ⟨-, k, rfl⟩ | ⟨k, rfl⟩
        · linarith
        · simp at hf
        · exact hf (by rw [show ((k : ℝ) + 1) = ((k + 1 : ℤ) : ℝ) by push_cast; rfl, Int.floor_intCast])
      · rcases hp with hp | ⟨hp, -⟩ | ⟨k, rfl⟩
        · linarith
        · exact hp ha
        · have : (0 : ℝ) ≤ k := Nat.cast_nonneg k
          linarith
    have h2 : ¬ (a = 0 ∧ p < 1) := by
      rintro ⟨ha, hf⟩
      rcases hp with hp | ⟨hp, -⟩ | ⟨k, rfl⟩
      · linarith
      · exact hp ha
      · have : (0 : ℝ) ≤ k := Nat.cast_nonneg k
        linarith
    refine ⟨_, p * a ^ (p - 1), ((if_neg h1).trans (if_neg h2)), fun _ h => h, rfl, fun u => rfl, ?_⟩
    refine Real.hasDerivAt_rpow_const ?_
    by_cases ha : a = 0
    · right
      by_contra hlt
      exact h2 ⟨ha, not_le.1 hlt⟩
    · exact Or.inl ha
  | powB b =>
    have hb : 0 < b ∨ (b = 0 ∧ 0 < a) := h
    rcases hb with hb | ⟨hb, ha⟩
    · refine ⟨_, Real.log b * b ^ a, (if_neg (fun h => hb.ne' h.1)).trans ((if_neg (fun h => not_lt.2 hb.le h.1)).trans
        ((if_neg (by rintro (h | h); exacts [not_lt.2 hb.le h, hb.ne' h.1])).trans (if_neg hb.ne'))), fun _ h => h, rfl, fun u => rfl, ?_⟩
      · exact ((Real.hasStrictDerivAt_const_rpow hb a).hasDerivAt).congr_deriv (mul_comm _ _)
    · refine ⟨_, 0, if_pos ⟨hb, ha⟩, fun _ h => h, ?_, fun u => by ring, ?_⟩
      · simp only [fn1, hb]; rw [Real.zero_rpow ha.ne']
      · refine hasDerivAt_locConst (c := 0) ?_
        filter_upwards [eventually_gt_nhds ha] with t ht
        simp only [fn1, hb]; rw [Real.zero_rpow ht.ne']
  | bessel v =>
    obtain ⟨ha, hv⟩ : 0 ≤ a ∧ (v = 0 ∨ 1 ≤ v) := h
    have hv0 : 0 ≤ v := by rcases hv with h | h <;> linarith
    have h0 : ¬ (v < 0 ∨ a < 0) := by rintro (h | h) <;> linarith
    rcases hv with rfl | hv
    · exact ⟨_, -besselJ 1 a, (if_neg h0).trans (if_pos rfl), fun _ h => h, rfl, fun u => rfl, hasDerivAt_besselJ_zero a⟩
    · exact ⟨_, 1 / 2 * (besselJ (v - 1) a - besselJ (v + 1) a), (if_neg h0).trans ((if_neg (by linarith)).trans (if_neg (by linarith))), fun _ h => h, rfl,
        fun u => rfl, hasDerivAt_besselJ hv (Or.inr ha)⟩

/-- the result of a rule of two arguments is the derivative of the function -/
def Good2 (o : Op2) (a b : ℝ) (r : Rule2) : Prop :=
  r.val = fn2 o a b ∧ (∀ u w, ¬ r.nan u w) ∧
  ∀ {n : Nat} {f g : RVec n → ℝ} {J K x : RVec n}, HasGrad f J x → HasGrad g K x → f x = a → g x = b →
    HasGrad (fun y => fn2 o (f y) (g y)) (fun i => r.comp (J i) (K i)) x

theorem HasGrad.continuousAt {n} {f : RVec n → ℝ} {J x : RVec n} (h : HasGrad f J x) : ContinuousAt f x := HasFDerivAt.continuousAt h

theorem HasGrad.neg {n} {f : RVec n → ℝ} {J x : RVec n} (h : HasGrad f J x) : HasGrad (fun y => -f y) (-J) x := by
  have := h.comp_deriv (hasDerivAt_neg (f x))
  exact this.congr_J (by simp)

theorem HasGrad.sub {n} {f g : RVec n → ℝ} {J K x : RVec n} (h : HasGrad f J x) (h' : HasGrad g K x) : HasGrad (fun y => f y - g y) (J - K) x := by
  have := h.add h'.neg
  simpa [sub_eq_add_neg] using this

theorem HasGrad.congr_eq {n} {f g : RVec n → ℝ} {J x : RVec n} (h : HasGrad f J x) (e : ∀ y, g y = f y) : HasGrad g J x :=
  h.congr_near (Eventually.of_forall e)

theorem copysign1_locConst {b : ℝ} (h : b ≠ 0) : ∀ᶠ t in 𝓝 b, copysign1 t = copysign1 b := by
  rcases lt_or_gt_of_ne h with h | h
  · filter_upwards [eventually_lt_nhds h] with t ht
    simp [copysign1, h, ht]
  · filter_upwards [eventually_gt_nhds h] with t ht
    simp [copysign1, not_lt.2 h.le, not_lt.2 ht.le]

theorem hasGrad_atan2 {n} {f g : RVec n → ℝ} {J K x : RVec n} (hf : HasGrad f J x) (hg : HasGrad g K x) (h : 0 < g x ∨ f x ≠ 0) :
    HasGrad (fun y => atan2 (f y) (g y)) (fun i => 1 / (g x * g x + f x * f x) * (-f x * K i + g x * J i)) x := by
  set z : RVec n → ℂ := fun y => ⟨g y, f y⟩ with hz
  have hz' : HasFDerivAt z (Complex.ofRealCLM.comp (rowCLM K) + (Complex.I • Complex.ofRealCLM).comp (rowCLM J)) x := by
    have e : z = fun y => ((g y : ℂ)) + Complex.I * (f y : ℂ) := by
      funext y; apply Complex.ext <;> simp [hz]
    rw [e]
    have h1 : HasFDerivAt (fun y => ((g y : ℂ))) (Complex.ofRealCLM.comp (rowCLM K)) x := Complex.ofRealCLM.hasFDerivAt.comp x hg
    have h2 : HasFDerivAt (fun y => Complex.I * ((f y : ℂ))) ((Complex.I • Complex.ofRealCLM).comp (rowCLM J)) x :=
      (Complex.I • Complex.ofRealCLM).hasFDerivAt.comp x hf
    exact h1.add h2
  have hs : z x ∈ Complex.slitPlane := by
    rcases h with h | h
    · exact Or.inl h
    · exact Or.inr h
  have h3 := (Complex.hasStrictDerivAt_log hs).hasDerivAt.hasFDerivAt.restrictScalars ℝ
  have h4 := Complex.imCLM.hasFDerivAt.comp x (h3.comp x hz')
  have e2 : (Complex.imCLM ∘ Complex.log ∘ z) = fun y => atan2 (f y) (g y) := by
    funext y; simp [hz, atan2, Complex.log_im]
  unfold HasGrad
  refine (e2 ▸ h4).congr_fderiv ?_
  have hne : g x * g x + f x * f x ≠ 0 := by
    rcases h with h | h
    · nlinarith [mul_pos h h, mul_self_nonneg (f x)]
    · have := mul_self_pos.2 h
      nlinarith [mul_self_nonneg (g x)]
  ext v
  simp only [ContinuousLinearMap.comp_apply, add_apply, rowCLM_apply, FunLike.coe_smul, Pi.smul_apply,
    Complex.ofRealCLM_apply, Complex.imCLM_apply, ContinuousLinearMap.coe_restrictScalars']
  have e3 : (fun i => 1 / (g x * g x + f x * f x) * (-f x * K i + g x * J i)) =
      (1 / (g x * g x + f x * f x)) • ((-f x) • K + g x • J) := by
    funext i; simp
  rw [e3, smul_dotProduct, add_dotProduct, smul_dotProduct, smul_dotProduct]
  simp only [smul_eq_mul]
  simp [hz, Complex.inv_re, Complex.inv_im, Complex.normSq_apply]
  field_simp

theorem rule2_correct (o : Op2) (a b : ℝ) (h : dom2 o a b) : ∃ r, rule2 o a b = some r ∧ Good2 o a b r := by
  cases o with
  | add => exact ⟨_, rfl, rfl, fun _ _ h => h, fun hf hg _ _ => hf.add hg⟩
  | sub => exact ⟨_, rfl, rfl, fun _ _ h => h, fun hf hg _ _ => hf.sub hg⟩
  | mul =>
    refine ⟨_, rfl, rfl, fun _ _ h => h, fun {n f g J K x} hf hg ha hb => (hf.mul hg).congr_J ?_⟩
    funext i
    simp only [Pi.add_apply, Pi.smul_apply, smul_eq_mul, ha, hb]
    ring
  | div =>
    have hb0 : b ≠ 0 := h
    refine ⟨_, if_neg hb0, by simp only [fn2]; ring, fun _ _ h => h, fun {n f g J K x} hf hg ha hb => ?_⟩
    have h1 := hf.mul (hg.comp_deriv (hasDerivAt_inv (by rw [hb]; exact hb0)))
    refine (h1.congr_eq fun y => by simp only [fn2]; ring).congr_J ?_
    funext i
    simp only [Pi.add_apply, Pi.smul_apply, smul_eq_mul, ha, hb]
    field_simp
    ring
  | copysign =>
    obtain ⟨ha0, hb0⟩ : a ≠ 0 ∧ b ≠ 0 := h
    have e : ∀ s t : ℝ, fn2 .copysign s t = copysign1 t * |s| := by
      intro s t; simp only [fn2, copysign1]; split <;> ring
    refine ⟨_, if_neg hb0, (e a b).symm, fun _ _ h => h, fun {n f g J K x} hf hg ha hb => ?_⟩
    have h1 := hf.comp_deriv (hasDerivAt_abs' (a := f x) (by rw [ha]; exact ha0))
    have h2 := h1.comp_deriv (φ := fun t => copysign1 b * t) (d := copysign1 b) (((hasDerivAt_id _).const_mul _).congr_deriv (by simp))
    have h3 : ∀ᶠ y in 𝓝 x, copysign1 (g y) = copysign1 b := by
      have hc : Tendsto g (𝓝 x) (𝓝 b) := hb ▸ hg.continuousAt
      exact hc.eventually (copysign1_locConst hb0)
    refine (h2.congr_near ?_).congr_J ?_
    · filter_upwards [h3] with y hy
      rw [e, hy]
    · funext i
      simp only [Pi.smul_apply, smul_eq_mul, ha]
      ring
  | hypot =>
    have h0 : a ≠ 0 ∨ b ≠ 0 := h
    have hp : 0 < a ^ 2 + b ^ 2 := by
      rcases h0 with h0 | h0
      · have := pow_pos (abs_pos.2 h0) 2; rw [sq_abs] at this; nlinarith [sq_nonneg b]
      · have := pow_pos (abs_pos.2 h0) 2; rw [sq_abs] at this; nlinarith [sq_nonneg a]
    have ht := Real.sqrt_pos.2 hp
    refine ⟨_, if_neg ht.ne', rfl, fun _ _ h => h, fun {n f g J K x} hf hg ha hb => ?_⟩
    have h1 := (hf.comp_deriv (hasDerivAt_pow 2 (f x))).add (hg.comp_deriv (hasDerivAt_pow 2 (g x)))
    have h2 := h1.comp_deriv (Real.hasDerivAt_sqrt (x := f x ^ 2 + g x ^ 2) (by rw [ha, hb]; exact hp.ne'))
    refine h2.congr_J ?_
    funext i
    simp only [Pi.add_apply, Pi.smul_apply, smul_eq_mul, ha, hb]
    field_simp
    push_cast
    ring
  | fmax =>
    have h0 : a ≠ b := h
    rcases lt_or_gt_of_ne h0 with hlt | hlt
    · refine ⟨_, if_pos hlt, (max_eq_right hlt.le).symm, fun _ _ h => h, fun {n f g J K x} hf hg ha hb => ?_⟩
      refine HasGrad.congr_near (f := g) hg ?_
      have : ∀ᶠ y in 𝓝 x, f y < g y := hf.continuousAt.eventually_lt hg.continuousAt (by rw [ha, hb]; exact hlt)
      filter_upwards [this] with y hy
      exact max_eq_right hy.le
    · refine ⟨_, (if_neg (not_lt.2 hlt.le)).trans (if_pos hlt), (max_eq_left hlt.le).symm, fun _ _ h => h, fun {n f g J K x} hf hg ha hb => ?_⟩
      refine HasGrad.congr_near (f := f) hf ?_
      have : ∀ᶠ y in 𝓝 x, g y < f y := hg.continuousAt.eventually_lt hf.continuousAt (by rw [ha, hb]; exact hlt)
      filter_upwards [this] with y hy
      exact max_eq_left hy.le
  | fmin =>
    have h0 : a ≠ b := h
    rcases lt_or_gt_of_ne h0 with hlt | hlt
    · refine ⟨_, (if_neg (not_lt.2 hlt.le)).trans (if_pos hlt), (min_eq_left hlt.le).symm, fun _ _ h => h, fun {n f g J K x} hf hg ha hb => ?_⟩
      refine HasGrad.congr_near (f := f) hf ?_
      have : ∀ᶠ y in 𝓝 x, f y < g y := hf.continuousAt.eventually_lt hg.continuousAt (by rw [ha, hb]; exact hlt)
      filter_upwards [this] with y hy
      exact min_eq_left hy.le
    · refine ⟨_, if_pos hlt, (min_eq_right hlt.le).symm, fun _ _ h => h, fun {n f g J K x} hf hg ha hb => ?_⟩
      refine HasGrad.congr_near (f := g) hg ?_
      have : ∀ᶠ y in 𝓝 x, g y < f y := hg.continuousAt.eventually_lt hf.continuousAt (by rw [ha, hb]; exact hlt)
      filter_upwards [this] with y hy
      exact min_eq_right hy.le
  | fdim =>
    have h0 : a ≠ b := h
    rcases lt_or_gt_of_ne h0 with hlt | hlt
    · refine ⟨_, if_neg (not_lt.2 hlt.le), (max_eq_right (by linarith)).symm, fun _ _ h => h, fun {n f g J K x} hf hg ha hb => ?_⟩
      refine HasGrad.congr_near (f := fun _ => (0 : ℝ)) (hasGrad_const 0 x) ?_
      have : ∀ᶠ y in 𝓝 x, f y < g y := hf.continuousAt.eventually_lt hg.continuousAt (by rw [ha, hb]; exact hlt)
      filter_upwards [this] with y hy
      exact max_eq_right (by linarith)
    · refine ⟨_, if_pos hlt, (max_eq_left (by linarith)).symm, fun _ _ h => h, fun {n f g J K x} hf hg ha hb => ?_⟩
      refine HasGrad.congr_near (f := fun y => f y - g y) (hf.sub hg) ?_
      have : ∀ᶠ y in 𝓝 x, g y < f y := hg.continuousAt.eventually_lt hf.continuousAt (by rw [ha, hb]; exact hlt)
      filter_upwards [this] with y hy
      exact max_eq_left (by linarith)
  | midpoint =>
    refine ⟨_, rfl, rfl, fun _ _ h => h, fun {n f g J K x} hf hg ha hb => ?_⟩
    have h1 := (hf.add hg).comp_deriv (φ := fun t => t / 2) (d := 1 / 2) ((hasDerivAt_id _).div_const 2)
    refine h1.congr_J ?_
    funext i
    simp only [Pi.add_apply, Pi.smul_apply, smul_eq_mul]
    ring
  | atan2 =>
    have h0 : 0 < b ∨ a ≠ 0 := h
    have hne : b * b + a * a ≠ 0 := by
      rcases h0 with h | h
      · nlinarith [mul_pos h h, mul_self_nonneg a]
      · have := mul_self_pos.2 h
        nlinarith [mul_self_nonneg b]
    refine ⟨_, if_neg hne, rfl, fun _ _ h => h, fun {n f g J K x} hf hg ha hb => ?_⟩
    refine (hasGrad_atan2 hf hg (by rw [ha, hb]; exact h0)).congr_J ?_
    funext i
    simp only [ha, hb]
  | pow =>
    have ha0 : 0 < a := h
    refine ⟨_, (if_neg (fun h => ha0.ne' h.1)).trans ((if_neg (fun h => not_lt.2 ha0.le h.1)).trans
      ((if_neg (by rintro (h | h); exacts [not_lt.2 ha0.le h, ha0.ne' h.1])).trans (if_neg ha0.ne'))), rfl, fun _ _ h => h,
      fun {n f g J K x} hf hg ha hb => ?_⟩
    have h1 := HasFDerivAt.rpow hf hg (by rw [ha]; exact ha0)
    have e : (g x * f x ^ (g x - 1)) • rowCLM J + (f x ^ g x * Real.log (f x)) • rowCLM K =
        rowCLM (fun i => b * a ^ (b - 1) * J i + a ^ b * Real.log a * K i) := by
      ext v
      have e3 : (fun i => b * a ^ (b - 1) * J i + a ^ b * Real.log a * K i) = (b * a ^ (b - 1)) • J + (a ^ b * Real.log a) • K := by
        funext i; simp
      simp only [add_apply, FunLike.coe_smul, Pi.smul_apply, rowCLM_apply, e3, add_dotProduct, smul_dotProduct, ha, hb]
    rw [e] at h1
    exact h1

/-- the result of a rule of three arguments is the derivative of the function -/
def Good3 (o : Op3) (a b c : ℝ) (r : Rule3) : Prop :=
  r.val = fn3 o a b c ∧ (∀ u w z, ¬ r.nan u w z) ∧
  ∀ {n : Nat} {f g k : RVec n → ℝ} {J K L x : RVec n}, HasGrad f J x → HasGrad g K x → HasGrad k L x → f x = a → g x = b → k x = c →
    HasGrad (fun y => fn3 o (f y) (g y) (k y)) (fun i => r.comp (J i) (K i) (L i)) x

theorem rule3_correct (o : Op3) (a b c : ℝ) (h : dom3 o a b c) : ∃ r, rule3 o a b c = some r ∧ Good3 o a b c r := by
  cases o with
  | hypot =>
    have h0 : a ≠ 0 ∨ b ≠ 0 ∨ c ≠ 0 := h
    have hp : 0 < a ^ 2 + b ^ 2 + c ^ 2 := by
      rcases h0 with h0 | h0 | h0 <;>
      · have := pow_pos (abs_pos.2 h0) 2
        rw [sq_abs] at this
        nlinarith [sq_nonneg a, sq_nonneg b, sq_nonneg c]
    have ht := Real.sqrt_pos.2 hp
    refine ⟨_, if_neg ht.ne', rfl, fun _ _ _ h => h, fun {n f g k J K L x} hf hg hk ha hb hc => ?_⟩
    have h1 := ((hf.comp_deriv (hasDerivAt_pow 2 (f x))).add (hg.comp_deriv (hasDerivAt_pow 2 (g x)))).add (hk.comp_deriv (hasDerivAt_pow 2 (k x)))
    have h2 := h1.comp_deriv (Real.hasDerivAt_sqrt (x := f x ^ 2 + g x ^ 2 + k x ^ 2) (by rw [ha, hb, hc]; exact hp.ne'))
    refine h2.congr_J ?_
    funext i
    simp only [Pi.add_apply, Pi.smul_apply, smul_eq_mul, ha, hb, hc]
    field_simp
    push_cast
    ring
  | fma =>
    refine ⟨_, rfl, rfl, fun _ _ _ h => h, fun {n f g k J K L x} hf hg hk ha hb hc => ((hf.mul hg).add hk).congr_J ?_⟩
    funext i
    simp only [Pi.add_apply, Pi.smul_apply, smul_eq_mul, ha, hb]
    ring
  | lerp =>
    refine ⟨_, rfl, rfl, fun _ _ _ h => h, fun {n f g k J K L x} hf hg hk ha hb hc => (hf.add (hk.mul (hg.sub hf))).congr_J ?_⟩
    funext i
    simp only [Pi.add_apply, Pi.sub_apply, Pi.smul_apply, smul_eq_mul, ha, hb, hc]
    ring

/-- the gradient of a function that is constant near the point -/
theorem HasGrad.zero_of_locConst {n} {f : RVec n → ℝ} {J x : RVec n} (h : HasGrad f J x) {c : ℝ} (hc : ∀ᶠ y in 𝓝 x, f y = c) : J = 0 :=
  h.unique ((hasGrad_const c x).congr_near hc)

/-- **C36**. For every expression inside the domain at `x`, the jet computed from the seeded parameters is finite, its scalar part is the value and its infinitesimal
part the gradient. -/
theorem C36_gradient {n} (e : Expr n) (x : RVec n) (h : e.InDomain x) :
    ∃ J, e.jet x = .ok ⟨e.value x, J⟩ ∧ HasGrad e.value J x := by
  induction e with
  | var i => exact ⟨_, rfl, hasGrad_coord i x⟩
  | const c => exact ⟨_, rfl, hasGrad_const c x⟩
  | op1 o e ih =>
    obtain ⟨h1, h2⟩ := h
    obtain ⟨J, hj, hJ⟩ := ih h1
    rcases h2 with h2 | ⟨b, rfl, hb, ⟨k, hk⟩, hloc⟩
    · obtain ⟨r, d, hr, hn, hv, hc, hd⟩ := rule1_correct o _ h2
      refine ⟨d • J, ?_, hJ.comp_deriv hd⟩
      simp only [Expr.jet, hj, Out.bind, SJet.op1, hr]
      rw [if_neg (fun ⟨i, hi⟩ => hn _ hi)]
      have : (fun i => r.comp (J i)) = d • J := by funext i; simp [hc]
      rw [this, hv]; rfl
    · have h0 := hJ.zero_of_locConst hloc
      subst h0
      refine ⟨0, ?_, ?_⟩
      · have hr : rule1 (.powB b) (e.value x) = some { val := b ^ (e.value x), comp := fun _ => 0, nan := fun u => u ≠ 0, scalar := true } :=
          (if_neg (fun h => hb.ne h.1)).trans (if_pos ⟨hb, by rw [hk]; simp⟩)
        simp only [Expr.jet, hj, Out.bind, SJet.op1, hr]
        rw [if_neg (fun ⟨i, hi⟩ => hi rfl)]
        rfl
      · refine HasGrad.congr_near (hasGrad_const (b ^ (e.value x)) x) ?_
        filter_upwards [hloc] with y hy
        simp only [Expr.value, fn1, hy]
  | op2 o e₁ e₂ ih₁ ih₂ =>
    obtain ⟨h1, h2, h3⟩ := h
    obtain ⟨J, hj, hJ⟩ := ih₁ h1
    obtain ⟨K, hk, hK⟩ := ih₂ h2
    rcases h3 with h3 | ⟨rfl, hloc, h3⟩
    · obtain ⟨r, hr, hv, hn, hg⟩ := rule2_correct o _ _ h3
      refine ⟨_, ?_, hg hJ hK rfl rfl⟩
      simp only [Expr.jet, hj, hk, Out.bind, SJet.op2, hr]
      rw [if_neg (fun ⟨i, hi⟩ => hn _ _ hi), hv]
      rfl
    · have h0 := hK.zero_of_locConst hloc
      subst h0
      rcases h3 with ⟨hneg, k, hk'⟩ | ⟨hz, k, hk'⟩
      · have hr : rule2 .pow (e₁.value x) (e₂.value x) = some
            { val := e₁.value x ^ e₂.value x, comp := fun u _ => e₂.value x * e₁.value x ^ (e₂.value x - 1) * u, nan := fun _ w => w ≠ 0, shape := .expand } :=
          (if_neg (fun h => hneg.ne h.1)).trans (if_pos ⟨hneg, by rw [hk']; simp⟩)
        refine ⟨(e₂.value x * e₁.value x ^ (e₂.value x - 1)) • J, ?_, ?_⟩
        · simp only [Expr.jet, hj, hk, Out.bind, SJet.op2, hr]
          rw [if_neg (fun ⟨i, hi⟩ => hi rfl)]
          rfl
        · have := hJ.comp_deriv (Real.hasDerivAt_rpow_const (x := e₁.value x) (p := e₂.value x) (Or.inl hneg.ne))
          refine this.congr_near ?_
          filter_upwards [hloc] with y hy
          simp only [Expr.value, fn2, hy]
      · have hd : HasGrad (fun y => (e₁.value y) ^ (e₂.value x)) ((e₂.value x * e₁.value x ^ (e₂.value x - 1)) • J) x :=
          hJ.comp_deriv (Real.hasDerivAt_rpow_const (Or.inr (by rw [hk']; linarith [Nat.cast_nonneg (α := ℝ) k])))
        have hd' : HasGrad (Expr.value (.op2 .pow e₁ e₂)) ((e₂.value x * e₁.value x ^ (e₂.value x - 1)) • J) x := by
          refine hd.congr_near ?_
          filter_upwards [hloc] with y hy
          simp only [Expr.value, fn2, hy]
        rcases Nat.eq_zero_or_pos k with rfl | hkpos
        · have e1 : e₂.value x = 1 := by rw [hk']; simp
          refine ⟨J, ?_, hd'.congr_J ?_⟩
          · have hr : rule2 .pow (e₁.value x) (e₂.value x) = some { val := e₁.value x, comp := fun u _ => u, shape := .left } :=
              (if_pos ⟨hz, by rw [e1]⟩).trans (if_neg (by rw [e1]; exact lt_irrefl _))
            simp only [Expr.jet, hj, hk, Out.bind, SJet.op2, hr]
            rw [if_neg (fun ⟨i, hi⟩ => hi)]
            simp only [Expr.value, fn2, e1, Real.rpow_one]
          · rw [e1]; simp
        · have e1 : 1 < e₂.value x := by
            have : (1 : ℝ) ≤ k := by exact_mod_cast hkpos
            rw [hk']; linarith
          refine ⟨0, ?_, hd'.congr_J ?_⟩
          · have hr : rule2 .pow (e₁.value x) (e₂.value x) = some { val := 0, comp := fun _ _ => 0, shape := .scalar } :=
              (if_pos ⟨hz, e1.le⟩).trans (if_pos e1)
            simp only [Expr.jet, hj, hk, Out.bind, SJet.op2, hr]
            rw [if_neg (fun ⟨i, hi⟩ => hi)]
            simp only [Expr.value, fn2, hz]
            rw [Real.zero_rpow (by linarith)]
            rfl
          · rw [hz, Real.zero_rpow (by linarith)]; simp
  | op3 o e₁ e₂ e₃ ih₁ ih₂ ih₃ =>
    obtain ⟨h1, h2, h3, h4⟩ := h
    obtain ⟨J, hj, hJ⟩ := ih₁ h1
    obtain ⟨K, hk, hK⟩ := ih₂ h2
    obtain ⟨L, hl, hL⟩ := ih₃ h3
    obtain ⟨r, hr, hv, hn, hg⟩ := rule3_correct o _ _ _ h4
    refine ⟨_, ?_, hg hJ hK hL rfl rfl rfl⟩
    simp only [Expr.jet, hj, hk, hl, Out.bind, SJet.op3, hr]
    rw [if_neg (fun ⟨i, hi⟩ => hn _ _ _ hi), hv]
    rfl

theorem rule1_val (o : Op1) (a : ℝ) (r : Rule1) (h : rule1 o a = some r) : r.val = fn1 o a := by
  cases o <;> simp only [rule1, Rule1.undiff] at h <;> (repeat' split at h) <;> first | (cases h; done) | cases Option.some.inj h
  all_goals simp only [fn1]
  all_goals first | rfl | ring | skip
  · rename_i h1; rw [h1, Real.sqrt_zero]
  · rename_i h1; rw [h1, cbrt, if_pos le_rfl, Real.zero_rpow (by norm_num)]
  · rename_i h1; rw [h1.1, Real.zero_rpow h1.2.ne']
  · rename_i h1 h2 h3 h4
    have : a = 0 := by
      rcases lt_trichotomy a 0 with h | h | h
      · exact absurd (Or.inr ⟨h4, h⟩) h3
      · exact h
      · exact absurd ⟨h4, h⟩ h1
    rw [this, Real.rpow_zero]
  · rename_i h1; rw [h1]

theorem rule2_val (o : Op2) (a b : ℝ) (r : Rule2) (h : rule2 o a b = some r) : r.val = fn2 o a b := by
  cases o <;> simp only [rule2, Rule2.undiff] at h <;> (repeat' split at h) <;> first | (cases h; done) | cases Option.some.inj h
  all_goals simp only [fn2]
  all_goals first | rfl | ring | skip
  · rename_i h1; rw [h1, if_neg (lt_irrefl _)]
  · simp only [copysign1]; split <;> ring
  · rename_i h1; exact h1.symm
  · rename_i h1; exact (max_eq_right h1.le).symm
  · rename_i h1 h2; exact (max_eq_left h2.le).symm
  · rename_i h1 h2; rw [le_antisymm (not_lt.1 h2) (not_lt.1 h1)]; simp; ring
  · rename_i h1; exact (min_eq_right h1.le).symm
  · rename_i h1 h2; exact (min_eq_left h2.le).symm
  · rename_i h1 h2; rw [le_antisymm (not_lt.1 h1) (not_lt.1 h2)]; simp; ring
  · rename_i h1; exact (max_eq_left (by linarith)).symm
  · rename_i h1; exact (max_eq_right (by linarith)).symm
  · rename_i h1
    have e1 : b = 0 := by nlinarith [mul_self_nonneg a, mul_self_nonneg b]
    have e2 : a = 0 := by nlinarith [mul_self_nonneg a, mul_self_nonneg b]
    rw [e1, e2]
    exact Complex.arg_zero.symm
  · rename_i h1 h2; rw [h1.1, Real.zero_rpow (by linarith)]
  · rename_i h1 h2
    have : b = 1 := le_antisymm (not_lt.1 h2) h1.2
    rw [this, Real.rpow_one]

theorem rule3_val (o : Op3) (a b c : ℝ) (r : Rule3) (h : rule3 o a b c = some r) : r.val = fn3 o a b c := by
  cases o <;> simp only [rule3] at h <;> (repeat' split at h) <;> first | (cases h; done) | cases Option.some.inj h
  all_goals simp only [fn3]
  rename_i h1; exact h1.symm

/-- **C36**, values: wherever the computation is finite (also at the points where the function is not differentiable), the scalar part is the value
of the expression. -/
theorem C36_value {n} (e : Expr n) (x : RVec n) (j : SJet n) (h : e.jet x = .ok j) : j.a = e.value x := by
  induction e generalizing j with
  | var i => cases h; rfl
  | const c => cases h; rfl
  | op1 o e ih =>
    rcases he : e.jet x with f | _ | _ <;> simp only [Expr.jet, he, Out.bind] at h <;> try (cases h; done)
    unfold SJet.op1 at h
    rcases hr : rule1 o f.a with _ | r <;> rw [hr] at h <;> simp only at h
    · cases h
    · split at h
      · cases h
      · cases h
        rw [rule1_val o _ r hr, ih f he]; rfl
  | op2 o e₁ e₂ ih₁ ih₂ =>
    rcases he : e₁.jet x with f | _ | _ <;> simp only [Expr.jet, he, Out.bind] at h <;> try (cases h; done)
    rcases hf : e₂.jet x with g | _ | _ <;> simp only [hf] at h <;> try (cases h; done)
    unfold SJet.op2 at h
    rcases hr : rule2 o f.a g.a with _ | r <;> rw [hr] at h <;> simp only at h
    · cases h
    · split at h
      · cases h
      · cases h
        rw [rule2_val o _ _ r hr, ih₁ f he, ih₂ g hf]; rfl
  | op3 o e₁ e₂ e₃ ih₁ ih₂ ih₃ =>
    rcases he : e₁.jet x with f | _ | _ <;> simp only [Expr.jet, he, Out.bind] at h <;> try (cases h; done)
    rcases hf : e₂.jet x with g | _ | _ <;> simp only [hf] at h <;> try (cases h; done)
    rcases hg : e₃.jet x with k | _ | _ <;> simp only [hg] at h <;> try (cases h; done)
    unfold SJet.op3 at h
    rcases hr : rule3 o f.a g.a k.a with _ | r <;> rw [hr] at h <;> simp only at h
    · cases h
    · split at h
      · cases h
      · cases h
        rw [rule3_val o _ _ _ r hr, ih₁ f he, ih₂ g hf, ih₃ k hg]; rfl

/-- **C36**, several outputs: the rows of the Jacobian of `Eval` are the gradients. -/
theorem C36_jacobian {n m} (e : Fin m → Expr n) (x : RVec n) (h : ∀ i, (e i).InDomain x) :
    ∃ J, evalJac e x = some (fun i => (e i).value x, J) ∧ HasJac (fun y i => (e i).value y) J x := by
  choose J hj hJ using fun i => C36_gradient (e i) x (h i)
  refine ⟨J, ?_, hJ⟩
  unfold evalJac
  rw [if_pos fun i => ⟨_, hj i⟩]
  simp only [hj]

/-- the hypotheses are met by `pow(x₀ / hypot(x₁, 3), 2) + atan2(x₀, x₁)` at `(-1, 4)`: a negative base with a constant integer exponent -/
example : (Expr.op2 (n := 2) .add (.op2 .pow (.op2 .div (.var 0) (.op2 .hypot (.var 1) (.const 3))) (.const 2)) (.op2 .atan2 (.var 0) (.var 1))).InDomain
    ![-1, 4] := by
  have h5 : Real.sqrt ((4 : ℝ) ^ 2 + 3 ^ 2) = 5 := by
    rw [show (4 : ℝ) ^ 2 + 3 ^ 2 = 5 ^ 2 by norm_num]; exact Real.sqrt_sq (by norm_num)
  refine ⟨⟨⟨trivial, ⟨trivial, trivial, Or.inl (Or.inr (by norm_num [Expr.value]))⟩, Or.inl ?_⟩, trivial, Or.inr ⟨rfl, Eventually.of_forall fun _ => rfl, Or.inl ⟨?_, 2, ?_⟩⟩⟩,
    ⟨trivial, trivial, Or.inl (Or.inl ?_)⟩, Or.inl trivial⟩
  · simp [dom2, Expr.value, fn2, h5]
  · simp only [Expr.value, fn2, Matrix.cons_val_zero, Matrix.cons_val_one, h5]; norm_num
  · simp [Expr.value]
  · simp [Expr.value]

/-! ### Bessel functions -/

/-- the derivative for `x > 0`, for orders from zero -/
theorem hasDerivAt_besselJ_down {v x : ℝ} (hv : 0 ≤ v) (hx : 0 < x) : HasDerivAt (besselJ v) (v / x * besselJ v x - besselJ (v + 1) x) x := by
  have h1 := hasDerivAt_halfsq v hv x
  have h2 : HasDerivAt (fun x : ℝ => (x / 2) ^ v) (1 / 2 * (v * (x / 2) ^ (v - 1))) x := by
    have := ((hasDerivAt_id x).div_const 2).rpow_const (p := v) (Or.inl (by simpa using hx.ne'))
    exact this.congr_deriv (by simp only [id_eq]; ring)
  refine (h2.mul h1).congr_deriv ?_
  rw [besselJ_eq, besselJ_eq, Real.rpow_add_one (by positivity), Real.rpow_sub_one (by positivity)]
  field_simp
  ring

/-- `besselJ v` is a solution of the differential equation of Bessel: `x² y'' + x y' + (x² - v²) y = 0` for `x > 0`. -/
theorem besselJ_ode {v x : ℝ} (hv : 0 ≤ v) (hx : 0 < x) :
    x ^ 2 * deriv (deriv (besselJ v)) x + x * deriv (besselJ v) x + (x ^ 2 - v ^ 2) * besselJ v x = 0 := by
  have h1 : deriv (besselJ v) =ᶠ[𝓝 x] fun x => v / x * besselJ v x - besselJ (v + 1) x := by
    filter_upwards [eventually_gt_nhds hx] with t ht
    exact (hasDerivAt_besselJ_down hv ht).deriv
  have h2 : HasDerivAt (fun x => v / x * besselJ v x - besselJ (v + 1) x)
      (-v / x ^ 2 * besselJ v x + v / x * (v / x * besselJ v x - besselJ (v + 1) x) - (besselJ v x - (v + 1) / x * besselJ (v + 1) x)) x := by
    have h3 : HasDerivAt (fun x => v / x) (-v / x ^ 2) x := by
      have := (hasDerivAt_inv hx.ne').const_mul v
      exact (this.congr_deriv (by ring)).congr_of_eventuallyEq (Eventually.of_forall fun t => by simp only []; ring)
    have h4 := hasDerivAt_besselJ (v := v + 1) (x := x) (by linarith) (Or.inr hx.le)
    have h5 := (hasDerivAt_besselJ_down (v := v + 1) (by linarith) hx)
    have h6 : besselJ (v + 1 + 1) x = 2 * (v + 1) / x * besselJ (v + 1) x - besselJ v x := by
      have := h4.unique h5
      rw [add_sub_cancel_right] at this
      field_simp at this ⊢
      linarith
    refine ((h3.mul (hasDerivAt_besselJ_down hv hx)).sub h5).congr_deriv ?_
    rw [h6]; ring
  rw [h1.deriv_eq, h2.deriv, h1.self_of_nhds]
  field_simp
  ring

/-- `J₀(0) = 1`, and `J_v(0) = 0` for larger orders -/
theorem besselJ_at_zero {v : ℝ} (hv : 0 ≤ v) : besselJ v 0 = if v = 0 then 1 else 0 := by
  rw [besselJ_eq]
  split
  · rename_i h
    subst h
    have : besselS 0 (0 / 2 * (0 / 2)) = 1 := by
      unfold besselS
      rw [tsum_eq_single 0 (by intro k hk; simp [hk])]
      simp
    rw [this, Real.rpow_zero, one_mul]
  · rename_i h
    rw [zero_div, Real.zero_rpow h, zero_mul]

/-- **C91**, orders 0 and from 1, arguments from 0: `BesselJ0`, `BesselJ1`, `BesselJn` and `cyl_bessel_j` of a jet carry the value and the derivative (chain rule). -/
theorem C91_bessel_partial {n} (f : SJet n) (v : ℝ) (hv : v = 0 ∨ 1 ≤ v) (hf : 0 ≤ f.a) :
    SJet.op1 (.bessel v) f = .ok ⟨besselJ v f.a, fun i => deriv (besselJ v) f.a * f.v i⟩ := by
  obtain ⟨r, d, h1, h2, h3, h4, h5⟩ := rule1_correct (.bessel v) f.a ⟨hf, hv⟩
  have h6 : HasDerivAt (besselJ v) d f.a := h5
  unfold SJet.op1
  rw [h1]
  simp only
  rw [if_neg (fun ⟨i, hi⟩ => h2 _ hi), h3, h6.deriv]
  simp only [h4]
  rfl

/-- **C91** fails for orders between 0 and 1, and for negative arguments: the functions are differentiable there, but the library function that is asked for the
value or for the derivative throws. -/
theorem C91_bessel_fails {n} (f : SJet n) :
    (∀ v, 0 < v → v < 1 → 0 < f.a → SJet.op1 (.bessel v) f = .nonfinite ∧ DifferentiableAt ℝ (besselJ v) f.a) ∧
    (∀ k : ℕ, f.a < 0 → SJet.op1 (.bessel k) f = .nonfinite ∧ DifferentiableAt ℝ (besselJ k) f.a) := by
  constructor
  · intro v h0 h1 hf
    refine ⟨?_, (hasDerivAt_besselJ_down h0.le hf).differentiableAt⟩
    have : rule1 (.bessel v) f.a = none :=
      (if_neg (by rintro (h | h) <;> linarith)).trans ((if_neg h0.ne').trans (if_pos (by linarith)))
    unfold SJet.op1
    rw [this]
  · intro k hf
    constructor
    · have : rule1 (.bessel k) f.a = none := if_pos (Or.inr hf)
      unfold SJet.op1
      rw [this]
    · rcases k with _ | k
      · rw [Nat.cast_zero]; exact (hasDerivAt_besselJ_zero f.a).differentiableAt
      · exact (hasDerivAt_besselJ (by push_cast; linarith [(k.cast_nonneg : (0 : ℝ) ≤ k)]) (Or.inl ⟨k + 1, rfl⟩)).differentiableAt

/-- the hypotheses can be met: `BesselJ0` at zero has the value 1 and the derivative 0, `BesselJ1` the value 0 and the derivative 1/2 -/
example : SJet.op1 (.bessel 0) (⟨0, fun _ => 1⟩ : SJet 1) = .ok ⟨1, fun _ => 0⟩ ∧
    SJet.op1 (.bessel 1) (⟨0, fun _ => 1⟩ : SJet 1) = .ok ⟨0, fun _ => 1 / 2⟩ := by
  constructor
  · rw [C91_bessel_partial _ _ (Or.inl rfl) le_rfl, (hasDerivAt_besselJ_zero 0).deriv, besselJ_at_zero le_rfl, besselJ_at_zero zero_le_one]
    simp
  · rw [C91_bessel_partial _ _ (Or.inr le_rfl) le_rfl, (hasDerivAt_besselJ le_rfl (Or.inr le_rfl)).deriv, besselJ_at_zero zero_le_one, sub_self, besselJ_at_zero le_rfl,
      besselJ_at_zero (by norm_num)]
    norm_num

end Loss
end Verif
