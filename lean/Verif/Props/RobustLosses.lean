import Verif.Lemmas.Calc
import Mathlib.Analysis.SpecialFunctions.Log.Deriv
import Mathlib.Analysis.SpecialFunctions.ExpDeriv
import Mathlib.Analysis.SpecialFunctions.Trigonometric.ArctanDeriv
import Mathlib.Analysis.SpecialFunctions.Trigonometric.Bounds
/-!
# C41, C42: robust losses
-/

namespace Verif
namespace Loss

open Matrix Set

theorem minPos_pos : 0 < minPos := by unfold minPos; positivity

theorem minPos_le_one : minPos ≤ 1 := by
  unfold minPos
  rw [div_le_one (by positivity)]
  exact one_le_pow₀ (by norm_num)

theorem atan2_of_pos {x y : ℝ} (hx : 0 < x) : atan2 y x = Real.arctan (y / x) := by
  unfold atan2
  rw [Complex.arg_of_re_nonneg (by simpa using hx.le), Real.arctan_eq_arcsin]
  congr 1
  have h1 : ‖(⟨x, y⟩ : ℂ)‖ = √(x ^ 2 + y ^ 2) := by
    rw [Complex.norm_def, Complex.normSq_mk]; congr 1; ring
  have h2 : (1 : ℝ) + (y / x) ^ 2 = (x ^ 2 + y ^ 2) / x ^ 2 := by
    field_simp
  rw [h1, h2, Real.sqrt_div (by positivity), Real.sqrt_sq hx.le]
  have h3 : √(x ^ 2 + y ^ 2) ≠ 0 := by positivity
  show y / √(x ^ 2 + y ^ 2) = _
  field_simp

/-- the functions whose scale is kept above the smallest normal number -/
def Robust.Floored (k : Robust) : Prop := k = .huber ∨ k = .arctan ∨ k = .cauchy

/-! ### the derivative in each case -/

theorem huber_deriv {n2 th2 : ℝ} (hth : 0 < th2) :
    HasDerivAt (fun t => robust .huber t th2) (if n2 ≤ th2 then 1 else √th2 / √n2) n2 := by
  have hR : ∀ t, 0 < t → HasDerivAt (fun t => 2 * √th2 * √t - th2) (√th2 / √t) t := by
    intro t ht
    have h := ((Real.hasDerivAt_sqrt ht.ne').const_mul (2 * √th2)).sub_const th2
    refine h.congr_deriv ?_
    have : √t ≠ 0 := by positivity
    field_simp
  rcases lt_trichotomy n2 th2 with h | h | h
  · rw [if_pos h.le]
    refine (hasDerivAt_id n2).congr_of_eventuallyEq ?_
    filter_upwards [Iio_mem_nhds h] with t ht
    simp [robust, le_of_lt (show t < th2 from ht)]
  · subst h
    rw [if_pos le_rfl]
    have hl : HasDerivWithinAt (fun t => robust .huber t n2) 1 (Iic n2) n2 :=
      (hasDerivAt_id n2).hasDerivWithinAt.congr (fun t ht => by simp [robust, show t ≤ n2 from ht]) (by simp [robust])
    have hr : HasDerivWithinAt (fun t => robust .huber t n2) 1 (Ici n2) n2 := by
      have := (hR n2 hth).hasDerivWithinAt (s := Ici n2)
      rw [div_self (by positivity)] at this
      refine this.congr (fun t ht => ?_) ?_
      · rcases eq_or_lt_of_le (show n2 ≤ t from ht) with e | e
        · subst e
          simp only [robust, le_refl, if_true]
          nlinarith [Real.mul_self_sqrt hth.le]
        · simp [robust, not_le.2 e]
      · simp only [robust, le_refl, if_true]
        nlinarith [Real.mul_self_sqrt hth.le]
    have := hl.union hr
    rwa [Iic_union_Ici, hasDerivWithinAt_univ] at this
  · rw [if_neg (not_le.2 h)]
    refine (hR n2 (hth.trans h)).congr_of_eventuallyEq ?_
    filter_upwards [Ioi_mem_nhds h] with t ht
    simp [robust, not_le.2 (show th2 < t from ht)]

theorem tukey_deriv {n2 th2 : ℝ} (hth : 0 < th2) :
    HasDerivAt (fun t => robust .tukey t th2) (robustScale .tukey n2 th2) n2 := by
  have hL : ∀ t, HasDerivAt (fun t => th2 * (1 - (1 - t / th2) * (1 - t / th2) * (1 - t / th2)))
      (3 * (th2 - t) * (th2 - t) / (th2 * th2)) t := by
    intro t
    have h0 : HasDerivAt (fun t : ℝ => 1 - t / th2) (-(1 / th2)) t := by
      have := ((hasDerivAt_id t).div_const th2).const_sub 1
      simpa using this
    have h := (((h0.mul h0).mul h0).const_sub 1).const_mul th2
    refine h.congr_deriv ?_
    simp only [Pi.mul_apply]
    field_simp
    ring
  rcases lt_trichotomy n2 th2 with h | h | h
  · simp only [robustScale, if_pos h.le]
    refine (hL n2).congr_of_eventuallyEq ?_
    filter_upwards [Iio_mem_nhds h] with t ht
    simp [robust, le_of_lt (show t < th2 from ht)]
  · subst h
    simp only [robustScale, le_refl, if_true, sub_self, mul_zero, zero_div]
    have hl : HasDerivWithinAt (fun t => robust .tukey t n2) 0 (Iic n2) n2 := by
      have := (hL n2).hasDerivWithinAt (s := Iic n2)
      simp only [sub_self, mul_zero, zero_div] at this
      exact this.congr (fun t ht => by simp [robust, show t ≤ n2 from ht]) (by simp [robust])
    have hr : HasDerivWithinAt (fun t => robust .tukey t n2) 0 (Ici n2) n2 := by
      refine (hasDerivWithinAt_const n2 (Ici n2) n2).congr (fun t ht => ?_) ?_
      · rcases eq_or_lt_of_le (show n2 ≤ t from ht) with e | e
        · subst e; simp [robust, hth.ne']
        · simp [robust, not_le.2 e]
      · simp [robust, hth.ne']
    have := hl.union hr
    rwa [Iic_union_Ici, hasDerivWithinAt_univ] at this
  · simp only [robustScale, if_neg (not_le.2 h)]
    refine (hasDerivAt_const n2 th2).congr_of_eventuallyEq ?_
    filter_upwards [Ioi_mem_nhds h] with t ht
    simp [robust, not_le.2 (show th2 < t from ht)]

theorem arctan_deriv {n2 th2 : ℝ} (hth : 0 < th2) :
    HasDerivAt (fun t => robust .arctan t th2) (1 / (n2 * n2 / th2 + 1)) n2 := by
  have hs : 0 < √th2 := Real.sqrt_pos.2 hth
  have e : (fun t => robust .arctan t th2) = fun t => √th2 * Real.arctan (t / √th2) := by
    funext t; simp only [robust]; rw [atan2_of_pos hs]
  rw [e]
  have h := (((hasDerivAt_id n2).div_const √th2).arctan).const_mul √th2
  refine h.congr_deriv ?_
  simp only [id]
  rw [div_pow, Real.sq_sqrt hth.le]
  field_simp
  ring

theorem cauchy_deriv {n2 th2 : ℝ} (hth : 0 < th2) (hn : 0 ≤ n2) :
    HasDerivAt (fun t => robust .cauchy t th2) (1 / (1 + n2 / th2)) n2 := by
  have h0 : HasDerivAt (fun t : ℝ => 1 + t / th2) (1 / th2) n2 := by
    simpa using ((hasDerivAt_id n2).div_const th2).const_add 1
  have hp : (0 : ℝ) < 1 + n2 / th2 := by positivity
  have h := (h0.log hp.ne').const_mul th2
  refine h.congr_deriv ?_
  field_simp

theorem geman_deriv {n2 th2 : ℝ} (hth : 0 < th2) (hn : 0 ≤ n2) :
    HasDerivAt (fun t => robust .gemanMcClure t th2) (th2 / ((n2 + th2) * (n2 + th2))) n2 := by
  have hp : (0 : ℝ) < n2 + th2 := by positivity
  have h := (hasDerivAt_id n2).div ((hasDerivAt_id n2).add_const th2) hp.ne'
  refine h.congr_deriv ?_
  simp only [id]
  field_simp
  ring

theorem blake_deriv {n2 th2 : ℝ} :
    HasDerivAt (fun t => robust .blakeZisserman t th2) (1 / (Real.exp (-th2) * Real.exp n2 + 1)) n2 := by
  have h0 : HasDerivAt (fun t : ℝ => Real.exp (-t) + Real.exp (-th2)) (-Real.exp (-n2)) n2 := by
    have := ((hasDerivAt_id n2).neg.exp).add_const (Real.exp (-th2))
    simpa using this
  have hp : (0 : ℝ) < Real.exp (-n2) + Real.exp (-th2) := by positivity
  have h := (h0.log hp.ne').neg
  refine h.congr_deriv ?_
  have e : Real.exp (-n2) = (Real.exp n2)⁻¹ := Real.exp_neg n2
  rw [e] at hp ⊢
  have := Real.exp_pos n2
  field_simp
  ring

/-- **C41** (partial): for every robust loss, every threshold and every squared norm (not on the kink of `Truncated`), the exported scale is
the derivative of the loss with respect to the squared norm, except that Huber, Arctan and Cauchy export the smallest normal number when
the derivative is smaller. Missing: the derivatives below that number, see `C41_scale_floor`. -/
theorem C41_scale_partial (k : Robust) (n2 th2 : ℝ) (hth : 0 < th2) (hn : 0 ≤ n2) (kink : k = .truncated → n2 ≠ th2) :
    ∃ d, HasDerivAt (fun t => robust k t th2) d n2 ∧ 0 ≤ d ∧
      (robustScale k n2 th2 = d ∨ (k.Floored ∧ d < minPos ∧ robustScale k n2 th2 = minPos)) := by
  have key : ∀ d, k.Floored → HasDerivAt (fun t => robust k t th2) d n2 → 0 ≤ d → robustScale k n2 th2 = max minPos d →
      ∃ d, HasDerivAt (fun t => robust k t th2) d n2 ∧ 0 ≤ d ∧
      (robustScale k n2 th2 = d ∨ (k.Floored ∧ d < minPos ∧ robustScale k n2 th2 = minPos)) := by
    intro d hk h1 h2 h3
    refine ⟨d, h1, h2, ?_⟩
    rcases le_or_gt minPos d with h | h
    · left; rw [h3, max_eq_right h]
    · right; exact ⟨hk, h, by rw [h3, max_eq_left h.le]⟩
  cases k with
  | truncated =>
    have hne := kink rfl
    rcases lt_or_gt_of_ne hne with h | h
    · refine ⟨1, ?_, by norm_num, Or.inl (by simp [robustScale, h.le])⟩
      refine (hasDerivAt_id n2).congr_of_eventuallyEq ?_
      filter_upwards [Iio_mem_nhds h] with t ht
      simp [robust, le_of_lt (show t < th2 from ht)]
    · refine ⟨0, ?_, le_rfl, Or.inl (by simp [robustScale, not_le.2 h])⟩
      refine (hasDerivAt_const n2 th2).congr_of_eventuallyEq ?_
      filter_upwards [Ioi_mem_nhds h] with t ht
      simp [robust, not_le.2 (show th2 < t from ht)]
  | huber =>
    refine key _ (Or.inl rfl) (huber_deriv hth) (by split <;> positivity) ?_
    simp only [robustScale]
    split
    · rw [max_eq_right minPos_le_one]
    · rfl
  | tukey =>
    refine ⟨_, tukey_deriv hth, ?_, Or.inl rfl⟩
    simp only [robustScale]
    split
    · rename_i h
      have := sub_nonneg.2 h
      positivity
    · exact le_rfl
  | arctan => exact key _ (Or.inr (Or.inl rfl)) (arctan_deriv hth) (by positivity) rfl
  | cauchy => exact key _ (Or.inr (Or.inr rfl)) (cauchy_deriv hth hn) (by positivity) rfl
  | gemanMcClure => exact ⟨_, geman_deriv hth hn, by positivity, Or.inl rfl⟩
  | blakeZisserman => exact ⟨_, blake_deriv, by positivity, Or.inl rfl⟩

/-- at least the exported scale is never below the derivative, and never more than the smallest normal number above it -/
theorem C41_scale_close (k : Robust) (n2 th2 d : ℝ) (hth : 0 < th2) (hn : 0 ≤ n2) (kink : k = .truncated → n2 ≠ th2)
    (hd : HasDerivAt (fun t => robust k t th2) d n2) : d ≤ robustScale k n2 th2 ∧ robustScale k n2 th2 ≤ d + minPos := by
  obtain ⟨d', h', h0, h⟩ := C41_scale_partial k n2 th2 hth hn kink
  have e := hd.unique h'
  subst e
  have := minPos_pos
  rcases h with h | ⟨-, h, h2⟩ <;> constructor <;> linarith

/-- **C41 is violated**, if barely: the squared norm `2^1000` and the (denormal) squared threshold `2^-1074`, both double precision
numbers, give a Huber scale that is not the derivative. -/
theorem C41_scale_floor : ¬ HasDerivAt (fun t => robust .huber t (1 / 2 ^ 1074)) (robustScale .huber (2 ^ 1000) (1 / 2 ^ 1074)) (2 ^ 1000) := by
  intro h
  have hth : (0 : ℝ) < 1 / 2 ^ 1074 := by positivity
  have e := h.unique (huber_deriv hth)
  have hgt : ¬ ((2 : ℝ) ^ 1000 ≤ 1 / 2 ^ 1074) := by
    rw [not_le, div_lt_iff₀ (by positivity), ← pow_add]
    exact one_lt_pow₀ (by norm_num) (by norm_num)
  have h1 : √((2 : ℝ) ^ 1000) = 2 ^ 500 := by
    rw [show (2 : ℝ) ^ 1000 = (2 ^ 500) ^ 2 by rw [← pow_mul]]
    exact Real.sqrt_sq (by positivity)
  have h2 : √(1 / (2 : ℝ) ^ 1074) = 1 / 2 ^ 537 := by
    rw [show 1 / (2 : ℝ) ^ 1074 = (1 / 2 ^ 537) ^ 2 by rw [div_pow, ← pow_mul, one_pow]]
    exact Real.sqrt_sq (by positivity)
  simp only [robustScale, if_neg hgt, h1, h2] at e
  have h3 := e ▸ le_max_left minPos (1 / (2 : ℝ) ^ 537 / 2 ^ 500)
  rw [div_div, ← pow_add, minPos, div_le_div_iff_of_pos_left (by norm_num) (by positivity) (by positivity)] at h3
  exact absurd h3 (not_le.2 (pow_lt_pow_right₀ (by norm_num) (by norm_num)))

theorem sqL2_grad {n} (x : RVec n) : HasGrad sqL2 (fun i => 2 * x i) x := by
  refine hasGrad_sep (φ := fun _ t => t * t) fun i => ?_
  have := (hasDerivAt_id (x i)).mul (hasDerivAt_id (x i))
  refine this.congr_deriv ?_
  simp; ring

theorem sqL2_nonneg {n} (x : RVec n) : 0 ≤ sqL2 x := Finset.sum_nonneg fun i _ => mul_self_nonneg (x i)

theorem robustJx_eq (k : Robust) (n2 th2 : ℝ) {m} (J : RVec m) : robustJx k n2 th2 J = robustScale k n2 th2 • J := by
  cases k <;> simp only [robustJx, robustScale] <;> split <;> simp

/-- **C41** (partial), the exported Jacobian: for a residual function `r` of the parameters with Jacobian `A` at `p`, the Jacobian exported by
`XLoss(r(p), th2, A)` is the gradient of `XLoss(r(·), th2)`, with the same exception as for the scale. Missing: as above. -/
theorem C41_jacobian_partial (k : Robust) {n m} (r : RVec m → RVec n) (A : RMat n m) (p : RVec m) (th2 : ℝ) (hth : 0 < th2)
    (kink : k = .truncated → sqL2 (r p) ≠ th2) (hA : HasJac r A p) :
    ∃ s, 0 ≤ s ∧ HasGrad (fun q => robustLoss k (r q) th2) (s • ((fun i => 2 * r p i) ᵥ* A)) p ∧
      (robustLossJx k (r p) th2 A = s • ((fun i => 2 * r p i) ᵥ* A) ∨
       (k.Floored ∧ s < minPos ∧ robustLossJx k (r p) th2 A = minPos • ((fun i => 2 * r p i) ᵥ* A))) := by
  obtain ⟨d, hd, h0, h⟩ := C41_scale_partial k (sqL2 (r p)) th2 hth (sqL2_nonneg _) kink
  refine ⟨d, h0, ((sqL2_grad (r p)).chain hA).comp_deriv hd, ?_⟩
  unfold robustLossJx
  rw [robustJx_eq]
  have e : sqL2Jx (r p) A = ((fun i => 2 * r p i) ᵥ* A) := by simp [sqL2Jx, sqL2J]
  rw [e]
  rcases h with h | ⟨hk, h1, h2⟩
  · left; rw [h]
  · right; exact ⟨hk, h1, by rw [h2]⟩

/-- **C41** (partial), the exported own Jacobian `XLoss(x, th2, true)`; missing: as above. -/
theorem C41_own_jacobian_partial (k : Robust) {n} (x : RVec n) (th2 : ℝ) (hth : 0 < th2) (kink : k = .truncated → sqL2 x ≠ th2) :
    ∃ s, 0 ≤ s ∧ HasGrad (fun y => robustLoss k y th2) (s • fun i => 2 * x i) x ∧
      (robustLossJ k x th2 = (s • fun i => 2 * x i) ∨ (k.Floored ∧ s < minPos ∧ robustLossJ k x th2 = minPos • fun i => 2 * x i)) := by
  obtain ⟨d, hd, h0, h⟩ := C41_scale_partial k (sqL2 x) th2 hth (sqL2_nonneg _) kink
  refine ⟨d, h0, (sqL2_grad x).comp_deriv hd, ?_⟩
  unfold robustLossJ
  rw [robustJx_eq]
  have e : sqL2J x = fun i => 2 * x i := by simp [sqL2J]
  rw [e]
  rcases h with h | ⟨hk, h1, h2⟩
  · left; rw [h]
  · right; exact ⟨hk, h1, by rw [h2]⟩

/-- the hypotheses are met by an outlier of Huber and by a point off the kink of Truncated -/
example : (0 : ℝ) < 1 ∧ (0 : ℝ) ≤ 4 ∧ ¬ ((4 : ℝ) ≤ 1) ∧ robustScale .huber 4 1 = 1 / 2 := by
  refine ⟨by norm_num, by norm_num, by norm_num, ?_⟩
  have : √(4 : ℝ) = 2 := by rw [show (4 : ℝ) = 2 ^ 2 by norm_num]; exact Real.sqrt_sq (by norm_num)
  simp only [robustScale, Real.sqrt_one, this]
  rw [if_neg (by norm_num), max_eq_right]
  unfold minPos
  rw [div_le_div_iff_of_pos_left (by norm_num) (by positivity) (by norm_num)]
  calc (2 : ℝ) = 2 ^ 1 := by norm_num
    _ ≤ 2 ^ 1022 := pow_le_pow_right₀ (by norm_num) (by norm_num)

/-! ### C42 -/

/-- **C42**, continuity: every robust loss is continuous in the squared norm. -/
theorem C42_continuous (k : Robust) (th2 : ℝ) (hth : 0 < th2) : ContinuousOn (fun t => robust k t th2) (Ici 0) := by
  intro t ht
  by_cases hk : k = .truncated
  · subst hk
    have : (fun t => robust .truncated t th2) = fun t => min t th2 := by
      funext t; simp only [robust, min_def]
    rw [this]
    exact (continuous_id.min continuous_const).continuousWithinAt
  · obtain ⟨d, hd, -⟩ := C41_scale_partial k t th2 hth ht (fun h => absurd h hk)
    exact hd.continuousAt.continuousWithinAt

/-- **C42**, monotonicity: a larger squared norm never gives a smaller loss. -/
theorem C42_monotone (k : Robust) (th2 a b : ℝ) (hth : 0 < th2) (ha : 0 ≤ a) (hab : a ≤ b) : robust k a th2 ≤ robust k b th2 := by
  by_cases hk : k = .truncated
  · subst hk
    simp only [robust]
    split <;> split <;> linarith
  · have hm : MonotoneOn (fun t => robust k t th2) (Ici 0) := by
      refine monotoneOn_of_deriv_nonneg (convex_Ici 0) (C42_continuous k th2 hth) ?_ ?_
      · intro t ht
        rw [interior_Ici] at ht
        obtain ⟨d, hd, -⟩ := C41_scale_partial k t th2 hth (le_of_lt ht) (fun h => absurd h hk)
        exact hd.differentiableAt.differentiableWithinAt
      · intro t ht
        rw [interior_Ici] at ht
        obtain ⟨d, hd, h0, -⟩ := C41_scale_partial k t th2 hth (le_of_lt ht) (fun h => absurd h hk)
        rw [hd.deriv]; exact h0
    exact hm ha (ha.trans hab) hab

/-- **C42**, no loss without error: the loss of 0 is 0, except for BlakeZisserman, where it is negative. -/
theorem C42_zero (k : Robust) (th2 : ℝ) (hth : 0 < th2) :
    (k ≠ .blakeZisserman → robust k 0 th2 = 0) ∧ (k = .blakeZisserman → robust k 0 th2 < 0) := by
  refine ⟨fun hk => ?_, ?_⟩
  · cases k <;> simp_all [robust, hth.le]
    rw [atan2_of_pos (Real.sqrt_pos.2 hth)]; simp
  · rintro rfl
    simp only [robust, neg_zero, Real.exp_zero]
    have := Real.log_pos (show (1 : ℝ) < 1 + Real.exp (-th2) by linarith [Real.exp_pos (-th2)])
    linarith

/-- **C42** (partial), upper bound: the loss does not exceed the squared norm (3 times for Tukey, divided by `th2` for GemanMcClure).
Missing: GemanMcClure with `th2 < 1`, see `C42_geman_exceeds`. -/
theorem C42_below_partial (k : Robust) (th2 t : ℝ) (hth : 0 < th2) (ht : 0 ≤ t) :
    robust k t th2 ≤ (match k with | .tukey => 3 * t | .gemanMcClure => t / th2 | _ => t) := by
  cases k with
  | truncated => simp only [robust]; split <;> linarith
  | huber =>
    simp only [robust]
    split
    · exact le_rfl
    · nlinarith [sq_nonneg (√t - √th2), Real.mul_self_sqrt hth.le, Real.mul_self_sqrt ht]
  | tukey =>
    simp only [robust]
    split
    · rename_i h
      have hu : 0 ≤ t / th2 := by positivity
      have hu1 : t / th2 ≤ 1 := (div_le_one hth).2 h
      have e : 3 * t = th2 * (3 * (t / th2)) := by field_simp
      rw [e]
      refine mul_le_mul_of_nonneg_left ?_ hth.le
      nlinarith [mul_nonneg hu (mul_nonneg hu (sub_nonneg.2 hu1)), mul_nonneg hu hu]
    · rename_i h; linarith
  | arctan =>
    simp only [robust]
    have hs := Real.sqrt_pos.2 hth
    rw [atan2_of_pos hs]
    have h0 : 0 ≤ t / √th2 := by positivity
    have h1 : Real.arctan (t / √th2) ≤ t / √th2 := by
      have := Real.le_tan (Real.arctan_nonneg.2 h0) (Real.arctan_lt_pi_div_two _)
      rwa [Real.tan_arctan] at this
    calc √th2 * Real.arctan (t / √th2) ≤ √th2 * (t / √th2) := mul_le_mul_of_nonneg_left h1 hs.le
      _ = t := by field_simp
  | cauchy =>
    simp only [robust]
    have hp : (0 : ℝ) < 1 + t / th2 := by positivity
    have h1 := Real.log_le_sub_one_of_pos hp
    calc th2 * Real.log (1 + t / th2) ≤ th2 * (t / th2) := mul_le_mul_of_nonneg_left (by linarith) hth.le
      _ = t := by field_simp
  | gemanMcClure =>
    simp only [robust]
    exact div_le_div_of_nonneg_left ht hth (by linarith)
  | blakeZisserman =>
    simp only [robust]
    have h1 : Real.log (Real.exp (-t)) ≤ Real.log (Real.exp (-t) + Real.exp (-th2)) :=
      Real.log_le_log (Real.exp_pos _) (by linarith [Real.exp_pos (-th2)])
    rw [Real.log_exp] at h1
    linarith

/-- **C42 is violated** by GemanMcClure for every threshold below 1: small errors are amplified, both the loss and the scale. -/
theorem C42_geman_exceeds (th2 : ℝ) (hth : 0 < th2) (h1 : th2 < 1) :
    ∃ t, 0 < t ∧ t < robust .gemanMcClure t th2 ∧ 1 < robustScale .gemanMcClure 0 th2 := by
  refine ⟨(1 - th2) / 2, by linarith, ?_, ?_⟩
  · simp only [robust]
    rw [lt_div_iff₀ (by linarith)]
    nlinarith
  · simp only [robustScale, zero_add]
    rw [lt_div_iff₀ (by positivity)]
    nlinarith

/-- **C42**, bounded losses: Truncated and Tukey never exceed `th2`, GemanMcClure never exceeds 1. -/
theorem C42_bounded (th2 t : ℝ) (hth : 0 < th2) (ht : 0 ≤ t) :
    robust .truncated t th2 ≤ th2 ∧ robust .tukey t th2 ≤ th2 ∧ robust .gemanMcClure t th2 < 1 := by
  refine ⟨?_, ?_, ?_⟩
  · simp only [robust]; split <;> linarith
  · simp only [robust]
    split
    · rename_i h
      have hu1 : t / th2 ≤ 1 := (div_le_one hth).2 h
      have h3 : 0 ≤ (1 - t / th2) * (1 - t / th2) * (1 - t / th2) :=
        mul_nonneg (mul_self_nonneg _) (sub_nonneg.2 hu1)
      nlinarith
    · exact le_rfl
  · simp only [robust]
    rw [div_lt_one (by linarith)]; linarith

/-- **C42** (partial), range of the scales: not negative, and at most 1 (3 for Tukey, `1 / th2` for GemanMcClure).
Missing: GemanMcClure with `th2 < 1`, see `C42_geman_exceeds`. -/
theorem C42_scale_range_partial (k : Robust) (th2 t : ℝ) (hth : 0 < th2) (ht : 0 ≤ t) :
    0 ≤ robustScale k t th2 ∧ robustScale k t th2 ≤ (match k with | .tukey => 3 | .gemanMcClure => 1 / th2 | _ => 1) := by
  have hm := minPos_pos
  have hm1 := minPos_le_one
  cases k with
  | truncated => simp only [robustScale]; split <;> norm_num
  | huber =>
    simp only [robustScale]
    split
    · norm_num
    · rename_i h
      refine ⟨le_max_of_le_left hm.le, max_le hm1 ?_⟩
      have : 0 < t := by linarith
      rw [div_le_one (Real.sqrt_pos.2 this)]
      exact Real.sqrt_le_sqrt (by linarith)
  | tukey =>
    simp only [robustScale]
    split
    · rename_i h
      have h0 := sub_nonneg.2 h
      refine ⟨by positivity, ?_⟩
      rw [div_le_iff₀ (by positivity)]
      nlinarith
    · norm_num
  | arctan =>
    simp only [robustScale]
    refine ⟨le_max_of_le_left hm.le, max_le hm1 ?_⟩
    rw [div_le_one (by positivity)]
    have : 0 ≤ t * t / th2 := by positivity
    linarith
  | cauchy =>
    simp only [robustScale]
    refine ⟨le_max_of_le_left hm.le, max_le hm1 ?_⟩
    rw [div_le_one (by positivity)]
    have : 0 ≤ t / th2 := by positivity
    linarith
  | gemanMcClure =>
    simp only [robustScale]
    refine ⟨by positivity, ?_⟩
    rw [div_le_div_iff₀ (by positivity) hth]
    nlinarith [mul_nonneg ht ht, mul_nonneg ht hth.le]
  | blakeZisserman =>
    simp only [robustScale]
    refine ⟨by positivity, ?_⟩
    rw [div_le_one (by positivity)]
    have : 0 < Real.exp (-th2) * Real.exp t := by positivity
    linarith

/-- **C42**, down-weighting: a larger squared norm never gets a larger scale. -/
theorem C42_scale_antitone (k : Robust) (th2 a b : ℝ) (hth : 0 < th2) (ha : 0 ≤ a) (hab : a ≤ b) :
    robustScale k b th2 ≤ robustScale k a th2 := by
  have hm1 := minPos_le_one
  cases k with
  | truncated => simp only [robustScale]; split <;> split <;> linarith
  | huber =>
    have h2 := C42_scale_range_partial .huber th2 b hth (ha.trans hab)
    simp only at h2
    by_cases h : a ≤ th2
    · have : robustScale .huber a th2 = 1 := by simp [robustScale, h]
      rw [this]; exact h2.2
    · have hb : ¬ b ≤ th2 := by linarith
      simp only [robustScale, if_neg h, if_neg hb]
      refine max_le_max le_rfl ?_
      have h3 : 0 < a := by linarith
      exact div_le_div_of_nonneg_left (Real.sqrt_nonneg _) (Real.sqrt_pos.2 h3) (Real.sqrt_le_sqrt hab)
  | tukey =>
    simp only [robustScale]
    split
    · rename_i h
      rw [if_pos (hab.trans h)]
      refine div_le_div_of_nonneg_right ?_ (by positivity)
      nlinarith [sub_nonneg.2 h, sub_nonneg.2 hab]
    · split
      · rename_i h
        have h0 := sub_nonneg.2 h
        positivity
      · exact le_rfl
  | arctan =>
    simp only [robustScale]
    refine max_le_max le_rfl (one_div_le_one_div_of_le (by positivity) ?_)
    have : a * a / th2 ≤ b * b / th2 := div_le_div_of_nonneg_right (mul_self_le_mul_self ha hab) hth.le
    linarith
  | cauchy =>
    simp only [robustScale]
    refine max_le_max le_rfl (one_div_le_one_div_of_le (by positivity) ?_)
    have : a / th2 ≤ b / th2 := div_le_div_of_nonneg_right hab hth.le
    linarith
  | gemanMcClure =>
    simp only [robustScale]
    exact div_le_div_of_nonneg_left hth.le (by positivity) (mul_self_le_mul_self (by positivity) (by linarith))
  | blakeZisserman =>
    simp only [robustScale]
    refine one_div_le_one_div_of_le (by positivity) ?_
    have := Real.exp_le_exp.2 hab
    have h2 := Real.exp_pos (-th2)
    nlinarith

/-- an inlier and an outlier of Tukey's loss -/
example : (0 : ℝ) < 2 ∧ (0 : ℝ) ≤ 1 ∧ (1 : ℝ) ≤ 3 ∧ robust .tukey 1 2 = 7 / 4 ∧ robust .tukey 3 2 = 2 ∧
    robustScale .tukey 1 2 = 3 / 4 ∧ robustScale .tukey 3 2 = 0 := by
  norm_num [robust, robustScale]

end Loss
end Verif
