import Verif.Model.Rectangle
import Verif.Props.JetProps
import Mathlib.Analysis.SpecialFunctions.Sqrt
import Mathlib.Tactic.Linarith
import Mathlib.Tactic.Positivity
import Mathlib.Tactic.FieldSimp
import Mathlib.Topology.Order.LocalExtr
/-!
# C135: the rectangle of tests/userdef_params_jet.cpp
-/

namespace Verif.Rectangle
open Loss Filter Topology

/-- C135: the update of the rectangle is an action of ℝ⁴: no step changes nothing, two steps are their sum, and from each rectangle each other one is reached by exactly one step. The third and the fourth
coordinate of the step are the changes of the width and of the height. -/
theorem C135_update (r : RVec 4) :
    plusEq r 0 = r ∧ (∀ δ δ', plusEq (plusEq r δ) δ' = plusEq r (δ + δ')) ∧ (∀ r', ∃! δ, plusEq r δ = r') ∧
      ∀ δ, width (plusEq r δ) = width r + δ 2 ∧ height (plusEq r δ) = height r + δ 3 := by
  refine ⟨?_, fun δ δ' => ?_, fun r' => ?_, fun δ => ⟨?_, ?_⟩⟩
  · funext i; fin_cases i <;> simp [plusEq]
  · funext i; fin_cases i <;> simp [plusEq] <;> ring
  · refine ⟨![r' 0 - r 0, r' 1 - r 1, r' 2 - r 2 - (r' 0 - r 0), r' 3 - r 3 - (r' 1 - r 1)], ?_, fun δ h => ?_⟩
    · funext i; fin_cases i <;> simp [plusEq]
    · subst h
      funext i; fin_cases i <;> simp [plusEq]
  · simp [width, plusEq]; ring
  · simp [height, plusEq]; ring

/-- **C135 is violated (tests/userdef_params_jet.cpp:66-68)**: the first two coordinates of the step are not the changes of the centre, as the comment says, unless the size stays the same: half of the change of
the size comes on top. -/
theorem C135_update_wrong (r δ : RVec 4) :
    center (plusEq r δ) 0 = center r 0 + δ 0 + δ 2 / 2 ∧ center (plusEq r δ) 1 = center r 1 + δ 1 + δ 3 / 2 ∧
      ((center (plusEq r δ) 0 = center r 0 + δ 0 ∧ center (plusEq r δ) 1 = center r 1 + δ 1) ↔ δ 2 = 0 ∧ δ 3 = 0) := by
  have h0 : center (plusEq r δ) 0 = center r 0 + δ 0 + δ 2 / 2 := by simp [center, plusEq]; ring
  have h1 : center (plusEq r δ) 1 = center r 1 + δ 1 + δ 3 / 2 := by simp [center, plusEq]; ring
  refine ⟨h0, h1, ?_⟩
  rw [h0, h1]
  constructor
  · rintro ⟨a, b⟩; constructor <;> linarith
  · rintro ⟨a, b⟩; rw [a, b]; constructor <;> ring

theorem area_sq (r : RVec 4) : area r ^ 2 = width r ^ 2 + height r ^ 2 := by
  rw [area, Real.sq_sqrt (by nlinarith [mul_self_nonneg (r 2 - r 0), mul_self_nonneg (r 3 - r 1)])]
  unfold width height; ring

theorem area_eq (r : RVec 4) : area r = √(width r ^ 2 + height r ^ 2) := by
  unfold area width height; congr 1; ring

theorem area_nonneg (r : RVec 4) : 0 ≤ area r := Real.sqrt_nonneg _

/-- the rectangle with width `w`, height `h` and centre `(a, b)` -/
noncomputable def rect (w h a b : ℝ) : RVec 4 := ![a - w / 2, b - h / 2, a + w / 2, b + h / 2]

theorem rect_of (r : RVec 4) : rect (width r) (height r) (center r 0) (center r 1) = r := by
  funext i; fin_cases i <;> simp [rect, width, height, center] <;> ring

@[simp] theorem width_rect (w h a b : ℝ) : width (rect w h a b) = w := by simp [rect, width]
@[simp] theorem height_rect (w h a b : ℝ) : height (rect w h a b) = h := by simp [rect, height]
@[simp] theorem center0_rect (w h a b : ℝ) : center (rect w h a b) 0 = a := by simp [rect, center]; ring
@[simp] theorem center1_rect (w h a b : ℝ) : center (rect w h a b) 1 = b := by simp [rect, center]; ring
theorem area_rect (w h a b : ℝ) : area (rect w h a b) = √(w ^ 2 + h ^ 2) := by rw [area_eq]; simp

theorem loss_zero (ε : ℝ) (r : RVec 4) :
    loss ε r = 0 ↔ area r = 200 ∧ width r / stdMax (height r) ε = 2 ∧ center r 0 = 1 ∧ center r 1 = 2 := by
  constructor
  · intro h
    have h0 := congrFun h 0
    have h1 := congrFun h 1
    have h2 := congrFun h 2
    have h3 := congrFun h 3
    simp [loss] at h0 h1 h2 h3
    refine ⟨?_, ?_, ?_, ?_⟩ <;> linarith
  · rintro ⟨h0, h1, h2, h3⟩
    funext i; fin_cases i <;> simp [loss, h0, h1, h2, h3]

/-- the rectangle that the test looks for -/
noncomputable def wanted : RVec 4 := rect (80 * √5) (40 * √5) 1 2

/-- the other zero of the residuals: nearly as thin as a line, and upside down -/
noncomputable def upsideDown (ε : ℝ) : RVec 4 := rect (2 * ε) (-√(40000 - 4 * ε ^ 2)) 1 2

theorem sqrt5 : 0 < √5 ∧ √5 ^ 2 = 5 ∧ 2 < √5 := by
  have h : √5 ^ 2 = 5 := Real.sq_sqrt (by norm_num)
  exact ⟨by positivity, h, by nlinarith [Real.sqrt_nonneg 5]⟩

/-- C135: the residuals vanish at exactly two rectangles: the one with diagonal 200, width twice the height and centre (1, 2), and one with negative height, because of the guard against a division by zero. -/
theorem C135_zeros {ε : ℝ} (hε : 0 < ε) (hε1 : ε < 80) (r : RVec 4) : loss ε r = 0 ↔ r = wanted ∨ r = upsideDown ε := by
  obtain ⟨s0, s1, s2⟩ := sqrt5
  have hpos : 0 < 40000 - 4 * ε ^ 2 := by nlinarith
  have hq := Real.sqrt_pos.2 hpos
  have hq2 := Real.sq_sqrt hpos.le
  rw [loss_zero]
  constructor
  · rintro ⟨h0, h1, h2, h3⟩
    have hA := area_sq r
    rw [h0] at hA
    unfold stdMax at h1
    split at h1
    next hh =>
      right
      have hw : width r = 2 * ε := by rw [div_eq_iff hε.ne'] at h1; exact h1
      have hz : height r = -√(40000 - 4 * ε ^ 2) := by
        rw [hw] at hA
        have e : (height r - √(40000 - 4 * ε ^ 2)) * (height r + √(40000 - 4 * ε ^ 2)) = 0 := by nlinarith
        rcases mul_eq_zero.1 e with e | e
        · exfalso
          have : height r ^ 2 < ε ^ 2 := by
            have : height r = √(40000 - 4 * ε ^ 2) := by linarith
            nlinarith
          nlinarith
        · linarith
      rw [← rect_of r, hw, hz, h2, h3]; rfl
    next hh =>
      left
      have hh0 : 0 < height r := lt_of_lt_of_le hε (not_lt.1 hh)
      have hw : width r = 2 * height r := by rw [div_eq_iff hh0.ne'] at h1; exact h1
      have hz : height r = 40 * √5 := by
        rw [hw] at hA
        have e : (height r - 40 * √5) * (height r + 40 * √5) = 0 := by nlinarith
        rcases mul_eq_zero.1 e with e | e
        · linarith
        · nlinarith
      rw [← rect_of r, hw, hz, h2, h3, wanted]
      congr 1; ring
  · rintro (rfl | rfl)
    · have hmax : stdMax (40 * √5) ε = 40 * √5 := by unfold stdMax; rw [if_neg]; nlinarith
      refine ⟨?_, ?_, by simp [wanted], by simp [wanted]⟩
      · rw [wanted, area_rect, show (80 * √5) ^ 2 + (40 * √5) ^ 2 = 200 ^ 2 by nlinarith]
        exact Real.sqrt_sq (by norm_num)
      · rw [wanted, width_rect, height_rect, hmax, div_eq_iff (by positivity)]; ring
    · have hmax : stdMax (-√(40000 - 4 * ε ^ 2)) ε = ε := by unfold stdMax; rw [if_pos]; linarith
      refine ⟨?_, ?_, by simp [upsideDown], by simp [upsideDown]⟩
      · rw [upsideDown, area_rect, show (2 * ε) ^ 2 + (-√(40000 - 4 * ε ^ 2)) ^ 2 = 200 ^ 2 by nlinarith]
        exact Real.sqrt_sq (by norm_num)
      · rw [upsideDown, width_rect, height_rect, hmax, div_eq_iff hε.ne']

/-- C135: `wanted` is what the assertions of the test describe (tests/userdef_params_jet.cpp:116-119), and no other rectangle with positive height is. -/
theorem C135_wanted (r : RVec 4) (h0 : 0 < height r) : area r = 200 ∧ center r 0 = 1 ∧ center r 1 = 2 ∧ width r = 2 * height r ↔ r = wanted := by
  have hx : 0 < min (height r) 1 := lt_min h0 one_pos
  have hmax : stdMax (height r) (min (height r) 1) = height r := by unfold stdMax; rw [if_neg (not_lt.2 (min_le_left _ _))]
  have hz := C135_zeros hx (lt_of_le_of_lt (min_le_right _ _) (by norm_num)) r
  rw [loss_zero, hmax, div_eq_iff h0.ne'] at hz
  constructor
  · rintro ⟨a, b, c, d⟩
    rcases hz.1 ⟨a, d, b, c⟩ with h | h
    · exact h
    · exfalso
      rw [h, upsideDown, height_rect] at h0
      linarith [Real.sqrt_nonneg (40000 - 4 * min (height r) 1 ^ 2)]
  · intro h
    obtain ⟨a, d, b, c⟩ := hz.2 (.inl h)
    exact ⟨a, b, c, d⟩

/-- **C135 is violated (tests/userdef_params_jet.cpp:29, 87)**: `area` is the length of the diagonal. The rectangle that the test asks for has the area 16000, not the 10 * 20 of the comment. And at the other zero of
the residuals the width is not twice the height: the test fails at a perfect minimum. -/
theorem C135_area_wrong {ε : ℝ} (hε : 0 < ε) (hε1 : ε < 80) :
    width wanted * height wanted = 16000 ∧ area wanted = 200 ∧ loss ε (upsideDown ε) = 0 ∧ width (upsideDown ε) - 2 * height (upsideDown ε) > 200 := by
  obtain ⟨s0, s1, s2⟩ := sqrt5
  refine ⟨by rw [wanted, width_rect, height_rect]; nlinarith, ?_, (C135_zeros hε hε1 _).2 (.inr rfl), ?_⟩
  · exact ((loss_zero ε _).1 ((C135_zeros hε hε1 _).2 (.inl rfl))).1
  · rw [upsideDown, width_rect, height_rect]
    have h : 100 < √(40000 - 4 * ε ^ 2) := by
      rw [Real.lt_sqrt (by norm_num)]; nlinarith
    linarith

/-! ### the derivatives -/

theorem coord_value (r δ : RVec 4) (i : Fin 4) : (coord r i).value δ = plusEq r δ i := by
  fin_cases i <;> simp [coord, Expr.value, fn2, plusEq]

/-- C135: automatic differentiation of the residuals through `PlusEq` gives their values and the derivative along the update at every rectangle that is not at the kink of `max` and not degenerate. -/
theorem C135_jets {ε : ℝ} (hε : 0 < ε) (r : RVec 4) (hk : height r ≠ ε) (hd : area r ≠ 0) :
    ∃ J, lossAD ε r = some (loss ε r, J) ∧ HasJac (fun δ => loss ε (plusEq r δ)) J 0 := by
  classical
  have hz : plusEq r 0 = r := (C135_update r).1
  have hpos : 0 < (r 2 - r 0) * (r 2 - r 0) + (r 3 - r 1) * (r 3 - r 1) := by
    have h1 : 0 ≤ (r 2 - r 0) * (r 2 - r 0) + (r 3 - r 1) * (r 3 - r 1) := add_nonneg (mul_self_nonneg _) (mul_self_nonneg _)
    rcases h1.lt_or_eq with h | h
    · exact h
    · exfalso; apply hd; rw [area, ← h, Real.sqrt_zero]
  have hval : ∀ (b : Bool) (δ : RVec 4), b = decide (height (plusEq r δ) < ε) → ∀ i, (lossExpr ε b r i).value δ = loss ε (plusEq r δ) i := by
    intro b δ hb i
    have hc := coord_value r δ
    fin_cases i
    · simp [lossExpr, Expr.value, fn1, fn2, hc, loss, area]
    · subst hb
      by_cases h : height (plusEq r δ) < ε
      · simp [lossExpr, Expr.value, fn1, fn2, hc, loss, stdMax, h, width]
      · have h' : ¬ plusEq r δ 3 - plusEq r δ 1 < ε := h
        simp [lossExpr, Expr.value, fn1, fn2, hc, loss, stdMax, h', width, height]
    · simp [lossExpr, Expr.value, fn2, hc, loss, center]
    · simp [lossExpr, Expr.value, fn2, hc, loss, center]
  have hdom : ∀ i, (lossExpr ε (decide (height r < ε)) r i).InDomain 0 := by
    have hc := coord_value r 0
    rw [hz] at hc
    have hcd : ∀ i, (coord r i).InDomain (0 : RVec 4) := by
      intro i; fin_cases i <;> simp [coord, Expr.InDomain, dom2]
    intro i
    fin_cases i
    · simp [lossExpr, Expr.InDomain, dom1, dom2, hcd, Expr.value, fn1, fn2, hc]
      exact hpos
    · by_cases h : height r < ε
      · simp [lossExpr, Expr.InDomain, dom1, dom2, hcd, h, Expr.value, fn2, hc, hε.ne']
      · have h0 : r 3 - r 1 ≠ 0 := (lt_of_lt_of_le hε (not_lt.1 h)).ne'
        simp [lossExpr, Expr.InDomain, dom1, dom2, hcd, h, Expr.value, fn2, hc, h0]
    · simp [lossExpr, Expr.InDomain, dom2, hcd]
    · simp [lossExpr, Expr.InDomain, dom2, hcd]
  obtain ⟨J, h1, h2⟩ := C36_jacobian (lossExpr ε (decide (height r < ε)) r) 0 hdom
  refine ⟨J, ?_, fun i => (h2 i).congr_near ?_⟩
  · rw [lossAD, h1]
    congr 2
    funext i
    rw [hval _ 0 (by rw [hz]) i, hz]
  · have hcont : Continuous fun δ : RVec 4 => height (plusEq r δ) := by
      have : (fun δ : RVec 4 => height (plusEq r δ)) = fun δ => height r + δ 3 := funext fun δ => ((C135_update r).2.2.2 δ).2
      rw [this]; fun_prop
    have hev : ∀ᶠ δ in 𝓝 (0 : RVec 4), decide (height r < ε) = decide (height (plusEq r δ) < ε) := by
      rcases lt_or_gt_of_ne hk with h | h
      · have := (hcont.tendsto 0).eventually_lt_const (u := ε) (by rw [hz]; exact h)
        filter_upwards [this] with δ hδ
        simp [h, hδ]
      · have := (hcont.tendsto 0).eventually_const_lt (u := ε) (by rw [hz]; exact h)
        filter_upwards [this] with δ hδ
        simp [not_lt.2 h.le, not_lt.2 hδ.le]
    filter_upwards [hev] with δ hδ
    exact (hval _ δ hδ i).symm

/-- the Jacobian for a rectangle higher than `ε` -/
noncomputable def lossJ (w h d : ℝ) : RMat 4 4 :=
  ![![0, 0, w / d, h / d], ![0, 0, 100 / h, -(100 * w / h ^ 2)], ![1, 0, 1 / 2, 0], ![0, 1, 0, 1 / 2]]

theorem loss_jac {ε : ℝ} (hε : 0 < ε) (r : RVec 4) (hk : ε < height r) : HasJac (fun δ => loss ε (plusEq r δ)) (lossJ (width r) (height r) (area r)) 0 := by
  have hh : 0 < height r := hε.trans hk
  have hu := (C135_update r).2.2.2
  have h2 : HasGrad (fun δ : RVec 4 => width r + δ 2) (0 + Pi.single 2 1) 0 := (hasGrad_const (width r) 0).add (hasGrad_coord 2 0)
  have h3 : HasGrad (fun δ : RVec 4 => height r + δ 3) (0 + Pi.single 3 1) 0 := (hasGrad_const (height r) 0).add (hasGrad_coord 3 0)
  have hA : area r = √((width r + (0 : RVec 4) 2) * (width r + (0 : RVec 4) 2) + (height r + (0 : RVec 4) 3) * (height r + (0 : RVec 4) 3)) := by
    rw [area_eq]; congr 1; simp; ring
  have hdpos : (width r + (0 : RVec 4) 2) * (width r + (0 : RVec 4) 2) + (height r + (0 : RVec 4) 3) * (height r + (0 : RVec 4) 3) ≠ 0 := by
    simp only [Pi.zero_apply, add_zero]; nlinarith [mul_self_nonneg (width r), mul_pos hh hh]
  have hA0 : area r ≠ 0 := by
    intro h0
    have := area_sq r
    rw [h0] at this
    nlinarith [sq_nonneg (width r), mul_pos hh hh]
  intro i
  fin_cases i
  · refine ((((h2.mul h2).add (h3.mul h3)).comp_deriv (Real.hasDerivAt_sqrt hdpos)).sub (hasGrad_const 200 0)).congr_eq (fun δ => ?_) |>.congr_J ?_
    · show loss ε (plusEq r δ) 0 = _
      simp only [loss, Matrix.cons_val_zero]
      rw [area_eq, (hu δ).1, (hu δ).2]
      congr 2; ring
    · rw [← hA]
      funext k
      fin_cases k <;> simp [lossJ] <;> field_simp <;> ring
  · have hinv := h3.comp_deriv (φ := fun t => t⁻¹) (hasDerivAt_inv (x := height r + (0 : RVec 4) 3) (by simpa using hh.ne'))
    refine (((hasGrad_const 100 0).mul ((h2.mul hinv).sub (hasGrad_const 2 0))).congr_near ?_).congr_J ?_
    · have hcont : Continuous fun δ : RVec 4 => height r + δ 3 := by fun_prop
      have := (hcont.tendsto 0).eventually_const_lt (u := ε) (by simpa using hk)
      filter_upwards [this] with δ hδ
      show loss ε (plusEq r δ) 1 = _
      simp only [loss, Matrix.cons_val_one, Matrix.cons_val_zero]
      rw [(hu δ).1, (hu δ).2, stdMax, if_neg (not_lt.2 hδ.le), div_eq_mul_inv]
    · funext k
      fin_cases k <;> simp [lossJ] <;> field_simp
  · have h0 : HasGrad (fun δ : RVec 4 => center r 0 - 1 + (δ 0 + 1 / 2 * δ 2)) (0 + (Pi.single 0 1 + ((fun _ => 0 : RVec 4) 0 • (0 : RVec 4) + (1 / 2 : ℝ) • Pi.single 2 1))) 0 := by
      refine ((hasGrad_const (center r 0 - 1) 0).add ((hasGrad_coord 0 0).add ((hasGrad_const (1 / 2) 0).mul (hasGrad_coord 2 0)))).congr_J ?_
      funext k; fin_cases k <;> simp
    refine (h0.congr_eq fun δ => ?_).congr_J ?_
    · show loss ε (plusEq r δ) 2 = _
      simp only [loss]
      show center (plusEq r δ) 0 - 1 = _
      rw [(C135_update_wrong r δ).1]; ring
    · funext k; fin_cases k <;> simp [lossJ]
  · have h0 : HasGrad (fun δ : RVec 4 => center r 1 - 2 + (δ 1 + 1 / 2 * δ 3)) (0 + (Pi.single 1 1 + ((fun _ => 0 : RVec 4) 0 • (0 : RVec 4) + (1 / 2 : ℝ) • Pi.single 3 1))) 0 := by
      refine ((hasGrad_const (center r 1 - 2) 0).add ((hasGrad_coord 1 0).add ((hasGrad_const (1 / 2) 0).mul (hasGrad_coord 3 0)))).congr_J ?_
      funext k; fin_cases k <;> simp
    refine (h0.congr_eq fun δ => ?_).congr_J ?_
    · show loss ε (plusEq r δ) 3 = _
      simp only [loss]
      show center (plusEq r δ) 1 - 2 = _
      rw [(C135_update_wrong r δ).2.1]; ring
    · funext k; fin_cases k <;> simp [lossJ]

/-- C135: above the kink automatic differentiation sees a nonsingular problem: the gradient `Jᵀr` that the solvers get is zero only if the residuals are, that is at the rectangle that the test looks for. -/
theorem C135_stationary {ε : ℝ} (hε : 0 < ε) (hε1 : ε < 80) (r : RVec 4) (hk : ε < height r) :
    ∃ R J, lossAD ε r = some (R, J) ∧ (∀ v : RVec 4, (∀ i, ∑ k, J i k * v k = 0) → v = 0) ∧ ((∀ k, ∑ i, J i k * R i = 0) ↔ r = wanted) := by
  have hh : 0 < height r := hε.trans hk
  have hA := area_sq r
  have hA0 : 0 < area r := by
    rcases (area_nonneg r).lt_or_eq with h | h
    · exact h
    · rw [← h] at hA; nlinarith [sq_nonneg (width r), mul_pos hh hh]
  obtain ⟨J, h1, h2⟩ := C135_jets hε r hk.ne' hA0.ne'
  obtain rfl : J = lossJ (width r) (height r) (area r) := by
    funext i; exact (h2 i).unique (loss_jac hε r hk i)
  refine ⟨_, _, h1, fun v hv => ?_, ?_, ?_⟩
  · have v0 := hv 0
    have v1 := hv 1
    have v2 := hv 2
    have v3 := hv 3
    simp [lossJ, Fin.sum_univ_four] at v0 v1 v2 v3
    have e0 : width r * v 2 + height r * v 3 = 0 := by field_simp at v0; linarith
    have e1 : height r * v 2 - width r * v 3 = 0 := by field_simp at v1; linarith
    have e2 : area r ^ 2 * v 2 = 0 := by rw [hA]; linear_combination width r * e0 + height r * e1
    have e3 : area r ^ 2 * v 3 = 0 := by rw [hA]; linear_combination height r * e0 - width r * e1
    have z2 : v 2 = 0 := (mul_eq_zero.1 e2).resolve_left (by positivity)
    have z3 : v 3 = 0 := (mul_eq_zero.1 e3).resolve_left (by positivity)
    rw [z2] at v2
    rw [z3] at v3
    funext k
    fin_cases k
    · simpa using v2
    · simpa using v3
    · exact z2
    · exact z3
  · intro hg
    have g0 := hg 0
    have g1 := hg 1
    have g2 := hg 2
    have g3 := hg 3
    generalize hR : loss ε r = R at g0 g1 g2 g3
    simp [lossJ, Fin.sum_univ_four] at g0 g1 g2 g3
    rw [g0] at g2
    rw [g1] at g3
    have e0 : width r * R 0 * height r + 100 * R 1 * area r = 0 := by field_simp at g2; linarith
    have e1 : height r ^ 3 * R 0 - 100 * width r * R 1 * area r = 0 := by field_simp at g3; linarith
    have e2 : height r * area r ^ 2 * R 0 = 0 := by rw [hA]; linear_combination width r * e0 + e1
    have z0 : R 0 = 0 := (mul_eq_zero.1 e2).resolve_left (by positivity)
    rw [z0] at e0
    have z1 : R 1 = 0 := by
      have : 100 * area r * R 1 = 0 := by linarith
      exact (mul_eq_zero.1 this).resolve_left (by positivity)
    have hz : loss ε r = 0 := by
      rw [hR]; funext k; fin_cases k
      · exact z0
      · exact z1
      · exact g0
      · exact g1
    rcases (C135_zeros hε hε1 r).1 hz with h | h
    · exact h
    · exfalso
      rw [h, upsideDown, height_rect] at hh
      linarith [Real.sqrt_nonneg (40000 - 4 * ε ^ 2)]
  · intro hw k
    rw [(C135_zeros hε hε1 r).2 (.inl hw)]
    simp

/-! ### the local minima -/

/-- the cost of a rectangle -/
noncomputable def cost (ε : ℝ) (r : RVec 4) : ℝ := ∑ i, loss ε r i ^ 2

theorem cost_rect (ε w h a b : ℝ) : cost ε (rect w h a b) = (√(w ^ 2 + h ^ 2) - 200) ^ 2 + (100 * (w / stdMax h ε - 2)) ^ 2 + (a - 1) ^ 2 + (b - 2) ^ 2 := by
  rw [cost, Fin.sum_univ_four]
  simp [loss, area_rect]

/-- a path along which the cost falls -/
theorem not_min {ε w h a b : ℝ} (W H A B : ℝ → ℝ) (cW : ContinuousAt W 0) (cH : ContinuousAt H 0) (cA : ContinuousAt A 0) (cB : ContinuousAt B 0)
    (hW : W 0 = w) (hH : H 0 = h) (hA : A 0 = a) (hB : B 0 = b) (hlt : ∀ᶠ t in 𝓝[>] (0 : ℝ), cost ε (rect (W t) (H t) (A t) (B t)) < cost ε (rect w h a b)) :
    ¬ IsLocalMin (cost ε) (rect w h a b) := by
  intro hm
  have hc : ContinuousAt (fun t => rect (W t) (H t) (A t) (B t)) 0 := by
    rw [continuousAt_pi]
    intro i
    fin_cases i <;> simp [rect] <;> fun_prop
  have h0 : rect (W 0) (H 0) (A 0) (B 0) = rect w h a b := by rw [hW, hH, hA, hB]
  have h1 : ∀ᶠ t in 𝓝 (0 : ℝ), cost ε (rect w h a b) ≤ cost ε (rect (W t) (H t) (A t) (B t)) := by
    have := hc.tendsto.eventually (p := fun y => cost ε (rect w h a b) ≤ cost ε y) (by rw [h0]; exact hm)
    exact this
  obtain ⟨t, ht1, ht2⟩ := (hlt.and (nhdsWithin_le_nhds h1)).exists
  linarith

/-- the cost above the kink, in terms of the diagonal `D` and the ratio `Q` of width and height -/
theorem cost_polar {ε D Q A B : ℝ} (hε : 0 < ε) (hD : 0 < D) (hH : ε ≤ D / √(1 + Q ^ 2)) :
    cost ε (rect (Q * (D / √(1 + Q ^ 2))) (D / √(1 + Q ^ 2)) A B) = (D - 200) ^ 2 + (100 * (Q - 2)) ^ 2 + (A - 1) ^ 2 + (B - 2) ^ 2 := by
  have hK : 0 < 1 + Q ^ 2 := by positivity
  have hK2 : √(1 + Q ^ 2) ^ 2 = 1 + Q ^ 2 := Real.sq_sqrt hK.le
  have hH0 := hε.trans_le hH
  rw [cost_rect, stdMax, if_neg (not_lt.2 hH), mul_div_cancel_right₀ _ hH0.ne']
  have : (Q * (D / √(1 + Q ^ 2))) ^ 2 + (D / √(1 + Q ^ 2)) ^ 2 = D ^ 2 := by
    rw [mul_pow, div_pow, hK2]; field_simp; ring
  rw [this, Real.sqrt_sq hD.le]

set_option maxHeartbeats 2000000 in
/-- C135: the cost has no local minimum besides its two zeros, at any rectangle, the kink of `max` and degenerate rectangles included. -/
theorem C135_minima {ε : ℝ} (hε : 0 < ε) (hε1 : ε < 80) (r : RVec 4) : IsLocalMin (cost ε) r ↔ r = wanted ∨ r = upsideDown ε := by
  rw [← C135_zeros hε hε1]
  constructor
  swap
  · intro hz
    refine Filter.Eventually.of_forall fun y => ?_
    have : cost ε r = 0 := by rw [cost, hz]; simp
    rw [this]
    exact Finset.sum_nonneg fun i _ => sq_nonneg _
  intro hm
  by_contra hz
  have hpos : 0 < cost ε r := by
    have h0 : 0 ≤ cost ε r := Finset.sum_nonneg fun i _ => sq_nonneg _
    rcases h0.lt_or_eq with h | h
    · exact h
    · exfalso
      apply hz
      funext i
      have := (Finset.sum_eq_zero_iff_of_nonneg fun i _ => sq_nonneg (loss ε r i)).1 h.symm i (Finset.mem_univ i)
      simpa using this
  rw [← rect_of r] at hm hpos
  generalize width r = w at hm hpos
  generalize height r = h at hm hpos
  generalize center r 0 = a at hm hpos
  generalize center r 1 = b at hm hpos
  -- `t` small and positive
  have small : ∀ u : ℝ, 0 < u → ∀ᶠ t in 𝓝[>] (0 : ℝ), 0 < t ∧ t < u := fun u hu => by
    filter_upwards [self_mem_nhdsWithin, nhdsWithin_le_nhds (gt_mem_nhds hu)] with t h1 h2 using ⟨h1, h2⟩
  have polar0 : ∀ h, 0 < h → √(w ^ 2 + h ^ 2) / √(1 + (w / h) ^ 2) = h ∧ w / h * (√(w ^ 2 + h ^ 2) / √(1 + (w / h) ^ 2)) = w ∧
      ∀ ε a b, ε ≤ h → cost ε (rect w h a b) = (√(w ^ 2 + h ^ 2) - 200) ^ 2 + (100 * (w / h - 2)) ^ 2 + (a - 1) ^ 2 + (b - 2) ^ 2 := by
    intro h hh
    have e : √(w ^ 2 + h ^ 2) = h * √(1 + (w / h) ^ 2) := by
      rw [show w ^ 2 + h ^ 2 = h ^ 2 * (1 + (w / h) ^ 2) by field_simp; ring, Real.sqrt_mul (by positivity), Real.sqrt_sq hh.le]
    have hK : √(1 + (w / h) ^ 2) ≠ 0 := (Real.sqrt_pos.2 (by positivity)).ne'
    have e1 : √(w ^ 2 + h ^ 2) / √(1 + (w / h) ^ 2) = h := by rw [e]; field_simp
    refine ⟨e1, by rw [e1]; field_simp, fun ε a b hle => ?_⟩
    rw [cost_rect, stdMax, if_neg (not_lt.2 hle)]
  rcases lt_trichotomy h ε with hh | hh | hh
  · -- below the kink
    have hmax : ∀ x, x < ε → stdMax x ε = ε := fun x hx => by unfold stdMax; rw [if_pos hx]
    by_cases h0 : h = 0
    · subst h0
      rcases lt_or_ge |w| 200 with hw | hw
      · refine not_min (fun _ => w) (fun t => t) (fun _ => a) (fun _ => b) (by fun_prop) (by fun_prop) (by fun_prop) (by fun_prop) rfl rfl rfl rfl ?_ hm
        have hlim : Tendsto (fun t : ℝ => √(w ^ 2 + t ^ 2)) (𝓝 0) (𝓝 √(w ^ 2 + 0 ^ 2)) := (by fun_prop : Continuous fun t : ℝ => √(w ^ 2 + t ^ 2)).tendsto 0
        have h200 := nhdsWithin_le_nhds (s := Set.Ioi (0 : ℝ)) (hlim.eventually_lt_const (u := 200) (by simpa [Real.sqrt_sq_eq_abs] using hw))
        filter_upwards [small ε hε, h200] with t ht h2
        rw [cost_rect, cost_rect, hmax t ht.2, hmax 0 hh]
        have hlt : √(w ^ 2 + 0 ^ 2) < √(w ^ 2 + t ^ 2) := Real.sqrt_lt_sqrt (by positivity) (by nlinarith [ht.1])
        generalize √(w ^ 2 + 0 ^ 2) = x at hlt ⊢
        generalize √(w ^ 2 + t ^ 2) = y at hlt h2 ⊢
        have := mul_pos (sub_pos.2 hlt) (by linarith : 0 < 400 - y - x)
        nlinarith
      · refine not_min (fun t => w * (1 - t)) (fun _ => 0) (fun _ => a) (fun _ => b) (by fun_prop) (by fun_prop) (by fun_prop) (by fun_prop) (by simp) rfl rfl rfl ?_ hm
        filter_upwards [small (1 / 100) (by norm_num)] with t ht
        rw [cost_rect, cost_rect, hmax 0 hh]
        have e1 : √((w * (1 - t)) ^ 2 + 0 ^ 2) = |w| * (1 - t) := by
          rw [show (w * (1 - t)) ^ 2 + (0 : ℝ) ^ 2 = (w * (1 - t)) ^ 2 by ring, Real.sqrt_sq_eq_abs, abs_mul, abs_of_pos (by linarith [ht.2] : 0 < 1 - t)]
        have e2 : √(w ^ 2 + 0 ^ 2) = |w| := by rw [show w ^ 2 + (0 : ℝ) ^ 2 = w ^ 2 by ring, Real.sqrt_sq_eq_abs]
        rw [e1, e2]
        obtain ⟨q, hq⟩ : ∃ q, q = w / ε := ⟨_, rfl⟩
        have e3 : w * (1 - t) / ε = q * (1 - t) := by rw [hq]; ring
        rw [e3, ← hq]
        have hqw : |w| = ε * |q| := by rw [hq, abs_div, abs_of_pos hε]; field_simp
        have hq0 : 5 / 2 < |q| := by by_contra hc; have := not_lt.1 hc; nlinarith
        have hA : |w| ^ 2 ≤ 6400 * q ^ 2 := by
          rw [hqw, mul_pow, sq_abs]
          exact mul_le_mul_of_nonneg_right (by nlinarith) (sq_nonneg q)
        have hB : q ≤ |q| := le_abs_self q
        have hC : q ^ 2 = |q| ^ 2 := (sq_abs q).symm
        have k1 : (|w| * (1 - t) - 200) ^ 2 ≤ (|w| - 200) ^ 2 + t ^ 2 * |w| ^ 2 := by nlinarith [ht.1, mul_nonneg ht.1.le (mul_nonneg (abs_nonneg w) (sub_nonneg.2 hw))]
        have k2 : (q * (1 - t) - 2) ^ 2 = (q - 2) ^ 2 - t * (2 * q * (q - 2) - t * q ^ 2) := by ring
        have k3 : q ^ 2 / 5 ≤ q * (q - 2) := by nlinarith
        have k4 : 0 < q ^ 2 := by rw [hC]; positivity
        nlinarith [mul_pos ht.1 k4, mul_nonneg ht.1.le (sub_nonneg.2 k3), mul_nonneg (mul_nonneg ht.1.le ht.1.le) (sub_nonneg.2 hA), mul_pos (mul_pos ht.1 k4) (sub_pos.2 ht.2)]
    · -- the coordinates diagonal and width
      obtain ⟨σ, hσ, hσh⟩ : ∃ σ : ℝ, σ ^ 2 = 1 ∧ σ * |h| = h := by
        rcases lt_or_gt_of_ne h0 with h1 | h1
        · exact ⟨-1, by norm_num, by rw [abs_of_neg h1]; ring⟩
        · exact ⟨1, by norm_num, by rw [abs_of_pos h1]; ring⟩
      obtain ⟨d, hd⟩ : ∃ d, d = √(w ^ 2 + h ^ 2) := ⟨_, rfl⟩
      have hd2 : d ^ 2 = w ^ 2 + h ^ 2 := by rw [hd]; exact Real.sq_sqrt (by positivity)
      have hd0 : 0 < d := by rw [hd]; exact Real.sqrt_pos.2 (by positivity)
      have cH : Continuous fun t : ℝ => σ * √((d + t * (200 - d)) ^ 2 - (w + t * (2 * ε - w)) ^ 2) := by fun_prop
      have H0 : σ * √((d + 0 * (200 - d)) ^ 2 - (w + 0 * (2 * ε - w)) ^ 2) = h := by
        rw [zero_mul, zero_mul, add_zero, add_zero, hd2, show w ^ 2 + h ^ 2 - w ^ 2 = h ^ 2 by ring, Real.sqrt_sq_eq_abs, hσh]
      refine not_min (fun t => w + t * (2 * ε - w)) _ (fun t => a + t * (1 - a)) (fun t => b + t * (2 - b)) (by fun_prop) cH.continuousAt (by fun_prop) (by fun_prop)
        (by simp) H0 (by simp) (by simp) ?_ hm
      have e1 := nhdsWithin_le_nhds (s := Set.Ioi (0 : ℝ)) ((cH.tendsto 0).eventually_lt_const (u := ε) (by rw [H0]; exact hh))
      have cD : Continuous fun t : ℝ => (d + t * (200 - d)) ^ 2 - (w + t * (2 * ε - w)) ^ 2 := by fun_prop
      have e2 := nhdsWithin_le_nhds (s := Set.Ioi (0 : ℝ)) ((cD.tendsto 0).eventually_const_lt (u := 0) (by
        rw [zero_mul, zero_mul, add_zero, add_zero, hd2]; have := pow_pos (abs_pos.2 h0) 2; rw [sq_abs] at this; linarith))
      filter_upwards [small 1 one_pos, e1, e2] with t ht h1 h2
      rw [cost_rect, hmax _ hh] at hpos
      rw [cost_rect, cost_rect, hmax _ h1, hmax _ hh]
      have hdt : 0 ≤ d + t * (200 - d) := by nlinarith [ht.1, ht.2]
      have e3 : √((w + t * (2 * ε - w)) ^ 2 + (σ * √((d + t * (200 - d)) ^ 2 - (w + t * (2 * ε - w)) ^ 2)) ^ 2) = d + t * (200 - d) := by
        rw [mul_pow, hσ, Real.sq_sqrt h2.le, show (w + t * (2 * ε - w)) ^ 2 + 1 * ((d + t * (200 - d)) ^ 2 - (w + t * (2 * ε - w)) ^ 2) = (d + t * (200 - d)) ^ 2 by ring,
          Real.sqrt_sq hdt]
      rw [e3, ← hd]
      rw [← hd] at hpos
      have e4 : (w + t * (2 * ε - w)) / ε - 2 = (1 - t) * (w / ε - 2) := by field_simp; ring
      rw [e4]
      generalize w / ε - 2 = q at hpos ⊢
      have : (d + t * (200 - d) - 200) ^ 2 + (100 * ((1 - t) * q)) ^ 2 + (a + t * (1 - a) - 1) ^ 2 + (b + t * (2 - b) - 2) ^ 2
          = (1 - t) ^ 2 * ((d - 200) ^ 2 + (100 * q) ^ 2 + (a - 1) ^ 2 + (b - 2) ^ 2) := by ring
      rw [this]
      exact mul_lt_of_lt_one_left hpos (by nlinarith [ht.1, ht.2])
  · -- at the kink
    subst hh
    rcases lt_trichotomy (√(w ^ 2 + h ^ 2)) 200 with hd | hd | hd
    · obtain ⟨D0, Q0, P0⟩ := polar0 h hε
      have hD0 : 0 < √(w ^ 2 + h ^ 2) := Real.sqrt_pos.2 (by positivity)
      refine not_min (fun t => w / h * ((√(w ^ 2 + h ^ 2) + t * (200 - √(w ^ 2 + h ^ 2))) / √(1 + (w / h) ^ 2)))
        (fun t => (√(w ^ 2 + h ^ 2) + t * (200 - √(w ^ 2 + h ^ 2))) / √(1 + (w / h) ^ 2)) (fun _ => a) (fun _ => b) (by fun_prop) (by fun_prop) (by fun_prop) (by fun_prop)
        (by rw [zero_mul, add_zero]; exact Q0) (by rw [zero_mul, add_zero]; exact D0) rfl rfl ?_ hm
      filter_upwards [small 1 one_pos] with t ht
      have hH : h ≤ (√(w ^ 2 + h ^ 2) + t * (200 - √(w ^ 2 + h ^ 2))) / √(1 + (w / h) ^ 2) := by
        conv_lhs => rw [← D0]
        exact div_le_div_of_nonneg_right (by nlinarith [ht.1]) (Real.sqrt_nonneg _)
      rw [cost_polar hε (by nlinarith [ht.1]) hH, P0 h a b le_rfl]
      have := mul_pos (mul_pos ht.1 (by linarith [ht.2] : 0 < 2 - t)) (pow_pos (sub_pos.2 hd) 2)
      nlinarith
    · obtain ⟨D0, Q0, P0⟩ := polar0 h hε
      rw [hd] at D0 Q0
      have hq2 : 4 < (w / h) ^ 2 := by
        have h1 : w ^ 2 + h ^ 2 = 40000 := by
          have := Real.sq_sqrt (show 0 ≤ w ^ 2 + h ^ 2 by positivity); rw [hd] at this; linarith
        rw [div_pow, lt_div_iff₀ (by positivity)]; nlinarith
      generalize hq : w / h = q at D0 Q0 P0 hq2
      have cK : Continuous fun t : ℝ => 200 / √(1 + (q + t * (2 - q)) ^ 2) := by
        refine Continuous.div (by fun_prop) (by fun_prop) fun t => (Real.sqrt_pos.2 (by positivity)).ne'
      refine not_min (fun t => (q + t * (2 - q)) * (200 / √(1 + (q + t * (2 - q)) ^ 2))) (fun t => 200 / √(1 + (q + t * (2 - q)) ^ 2)) (fun _ => a) (fun _ => b)
        ((by fun_prop : Continuous fun t : ℝ => q + t * (2 - q)).mul cK).continuousAt cK.continuousAt (by fun_prop) (by fun_prop)
        (by rw [zero_mul, add_zero]; exact Q0) (by rw [zero_mul, add_zero]; exact D0) rfl rfl ?_ hm
      filter_upwards [small 1 one_pos] with t ht
      have hle : (q + t * (2 - q)) ^ 2 ≤ q ^ 2 := by
        have h1 : 2 < |q| := by rw [← sq_abs] at hq2; nlinarith [abs_nonneg q]
        rw [← sq_abs, ← sq_abs q]
        have h2 : |q + t * (2 - q)| ≤ |q| := by
          rw [show q + t * (2 - q) = (1 - t) * q + t * 2 by ring]
          refine (abs_add_le _ _).trans ?_
          rw [abs_mul, abs_mul, abs_of_pos ht.1, abs_of_pos (by linarith [ht.2] : 0 < 1 - t), abs_two]
          nlinarith [ht.1]
        exact pow_le_pow_left₀ (abs_nonneg _) h2 2
      have hH : h ≤ 200 / √(1 + (q + t * (2 - q)) ^ 2) := by
        conv_lhs => rw [← D0]
        exact div_le_div_of_nonneg_left (by norm_num) (Real.sqrt_pos.2 (by positivity)) (Real.sqrt_le_sqrt (by linarith))
      rw [cost_polar hε (by norm_num) hH, P0 h a b le_rfl, hd]
      have hne : 0 < (q - 2) ^ 2 := by
        refine sq_pos_of_ne_zero fun h0 => ?_
        rw [show q = 2 by linarith] at hq2; norm_num at hq2
      have := mul_pos (mul_pos ht.1 (by linarith [ht.2] : 0 < 2 - t)) hne
      nlinarith
    · refine not_min (fun _ => w) (fun t => h - t) (fun _ => a) (fun _ => b) (by fun_prop) (by fun_prop) (by fun_prop) (by fun_prop) rfl (by simp) rfl rfl ?_ hm
      have hlim : Continuous fun t : ℝ => √(w ^ 2 + (h - t) ^ 2) := by fun_prop
      have h200 := nhdsWithin_le_nhds (s := Set.Ioi (0 : ℝ)) ((hlim.tendsto 0).eventually_const_lt (u := 200) (by simpa using hd))
      filter_upwards [small h hε, h200] with t ht h2
      rw [cost_rect, cost_rect]
      have e1 : stdMax (h - t) h = h := by unfold stdMax; rw [if_pos (by linarith [ht.1])]
      have e2 : stdMax h h = h := by unfold stdMax; rw [if_neg (lt_irrefl h)]
      rw [e1, e2]
      have hlt : √(w ^ 2 + (h - t) ^ 2) < √(w ^ 2 + h ^ 2) := Real.sqrt_lt_sqrt (by positivity) (by nlinarith [ht.1, ht.2])
      generalize √(w ^ 2 + (h - t) ^ 2) = x at hlt h2 ⊢
      generalize √(w ^ 2 + h ^ 2) = y at hlt hd ⊢
      have := mul_pos (sub_pos.2 hlt) (by linarith : 0 < y + x - 400)
      nlinarith
  · -- above the kink
    have hh0 : 0 < h := hε.trans hh
    obtain ⟨D0, Q0, P0⟩ := polar0 h hh0
    rw [P0 ε a b hh.le] at hpos
    have hD0 : 0 < √(w ^ 2 + h ^ 2) := Real.sqrt_pos.2 (by positivity)
    have hP := P0 ε a b hh.le
    generalize √(w ^ 2 + h ^ 2) = d at D0 Q0 P0 hpos hD0 hP
    generalize w / h = q at D0 Q0 P0 hpos hP
    have cK : Continuous fun t : ℝ => (d + t * (200 - d)) / √(1 + (q + t * (2 - q)) ^ 2) := by
      refine Continuous.div (by fun_prop) (by fun_prop) fun t => (Real.sqrt_pos.2 (by positivity)).ne'
    refine not_min (fun t => (q + t * (2 - q)) * ((d + t * (200 - d)) / √(1 + (q + t * (2 - q)) ^ 2))) (fun t => (d + t * (200 - d)) / √(1 + (q + t * (2 - q)) ^ 2))
      (fun t => a + t * (1 - a)) (fun t => b + t * (2 - b)) ((by fun_prop : Continuous fun t : ℝ => q + t * (2 - q)).mul cK).continuousAt cK.continuousAt (by fun_prop) (by fun_prop)
      (by rw [zero_mul, zero_mul, add_zero, add_zero]; exact Q0) (by rw [zero_mul, zero_mul, add_zero, add_zero]; exact D0) (by simp) (by simp) ?_ hm
    have e1 := nhdsWithin_le_nhds (s := Set.Ioi (0 : ℝ)) ((cK.tendsto 0).eventually_const_lt (u := ε) (by
      rw [zero_mul, zero_mul, add_zero, add_zero, D0]; exact hh))
    filter_upwards [small 1 one_pos, e1] with t ht h1
    rw [hP, cost_polar hε (by nlinarith [ht.1, ht.2]) h1.le]
    have : (d + t * (200 - d) - 200) ^ 2 + (100 * (q + t * (2 - q) - 2)) ^ 2 + (a + t * (1 - a) - 1) ^ 2 + (b + t * (2 - b) - 2) ^ 2
        = (1 - t) ^ 2 * ((d - 200) ^ 2 + (100 * (q - 2)) ^ 2 + (a - 1) ^ 2 + (b - 2) ^ 2) := by ring
    rw [this]
    exact mul_lt_of_lt_one_left hpos (by nlinarith [ht.1, ht.2])

/-- the rectangle at the start of the test, where the solvers get a nonsingular system -/
example : (1 / 10 ^ 8 : ℝ) < height ![0, 0, 1, 1] ∧ (0 : ℝ) < 1 / 10 ^ 8 ∧ (1 / 10 ^ 8 : ℝ) < 80 ∧ ![0, 0, 1, 1] ≠ wanted := by
  refine ⟨?_, by norm_num, by norm_num, fun h => ?_⟩
  · show (1 / 10 ^ 8 : ℝ) < 1 - 0
    norm_num
  have h1 := congrArg width h
  rw [wanted, width_rect] at h1
  have := sqrt5.2.2
  simp [width] at h1
  linarith

end Verif.Rectangle
