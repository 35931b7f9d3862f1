import Verif.Props.EigenLLT
import Verif.Model.MahaDist
import Mathlib.LinearAlgebra.Matrix.Block
/-!
# C128: the Mahalanobis distance between two points
-/

namespace Verif
namespace Loss

open Matrix

/-- `Q` behaves like the square root of a sum of squares of a linear function that is injective: what a metric needs -/
theorem metric_of_linear {n m} (W : RMat m n) (hW : ∀ x : RVec n, W *ᵥ x = 0 → x = 0) (a b c : RVec n) :
    l2 (W *ᵥ (a - b)) = l2 (W *ᵥ (b - a)) ∧ l2 (W *ᵥ (a - c)) ≤ l2 (W *ᵥ (a - b)) + l2 (W *ᵥ (b - c)) ∧ (l2 (W *ᵥ (a - b)) = 0 ↔ a = b) := by
  have h := (C47_metrics (W *ᵥ a) (W *ᵥ b) (W *ᵥ c)).1
  simp only [euclidean] at h
  simp only [mulVec_sub]
  refine ⟨h.1, h.2.1, h.2.2.trans ⟨fun e => ?_, fun e => by rw [e]⟩⟩
  have := hW (a - b) (by rw [mulVec_sub, e, sub_self])
  exact sub_eq_zero.1 this

theorem posDef_sqrt {n} (S : RMat n n) (hS : S.PosDef) : ∃ W : RMat n n, (∀ x, W *ᵥ x = 0 → x = 0) ∧ ∀ x, √(x ⬝ᵥ (S⁻¹ *ᵥ x)) = l2 (W *ᵥ x) := by
  obtain ⟨o, ho⟩ := exists_fact n
  have h2 := (ho S hS).2
  have hu : IsUnit (o.lltL S) := by
    rw [Matrix.isUnit_iff_isUnit_det]
    have h3 : IsUnit S.det := hS.isUnit.map Matrix.detMonoidHom
    rw [← h2, det_mul] at h3
    exact isUnit_of_mul_isUnit_left h3
  have hdet := (Matrix.isUnit_iff_isUnit_det _).1 hu
  refine ⟨(o.lltL S)⁻¹, fun x hx => ?_, fun x => ?_⟩
  · have : o.lltL S *ᵥ ((o.lltL S)⁻¹ *ᵥ x) = 0 := by rw [hx, mulVec_zero]
    rwa [mulVec_mulVec, mul_nonsing_inv _ hdet, one_mulVec] at this
  · have e : l2 ((o.lltL S)⁻¹ *ᵥ x) = √(sqL2 ((o.lltL S)⁻¹ *ᵥ x)) := rfl
    rw [e, sq_mulVec]
    congr 3
    rw [transpose_nonsing_inv, ← Matrix.mul_inv_rev, h2]

/-- **C128**, covariance matrices: with every covariance whose upper triangle stands for a positive definite matrix, the distance is defined, it is
`√((a - b)ᵀ S⁻¹ (a - b))`, and it is a metric. -/
theorem C128_metric {n} (o : Fact n) (ho : o.Ok) (S : RMat n n) (hS : (symU S).PosDef) :
    ∃ d : RVec n → RVec n → ℝ, (∀ a b, mahaDist o a b S = some (d a b) ∧ d a b = √((a - b) ⬝ᵥ ((symU S)⁻¹ *ᵥ (a - b)))) ∧
      ∀ a b c, 0 ≤ d a b ∧ d a b = d b a ∧ d a c ≤ d a b + d b c ∧ (d a b = 0 ↔ a = b) := by
  refine ⟨fun a b => √((a - b) ⬝ᵥ ((symU S)⁻¹ *ᵥ (a - b))), fun a b => ⟨(C46_whitened o ho S hS (a - b)).2.2, rfl⟩, fun a b c => ⟨Real.sqrt_nonneg _, ?_⟩⟩
  obtain ⟨W, hW, e⟩ := posDef_sqrt _ hS
  simp only [e]
  exact metric_of_linear W hW a b c

theorem mahaVar_l2 {n} (x v : RVec n) (hv : ∀ i, 0 < v i) : mahaVar x v = l2 (Matrix.diagonal (fun i => (√(v i))⁻¹) *ᵥ x) := by
  unfold mahaVar mahaSqVar l2
  congr 1
  simp only [dotProduct, mulVec_diagonal]
  refine Finset.sum_congr rfl fun i _ => ?_
  have h1 := Real.mul_self_sqrt (hv i).le
  have h2 := (Real.sqrt_pos.2 (hv i)).ne'
  have h3 := (hv i).ne'
  field_simp
  nlinarith [h1, sq_nonneg (x i)]

/-- **C128**, variances: with positive variances the distance is a metric. -/
theorem C128_metric_variances {n} (v : RVec n) (hv : ∀ i, 0 < v i) (a b c : RVec n) :
    mahaDistVar a b v = √(∑ i, (a i - b i) ^ 2 / v i) ∧ mahaDistVar a b v = mahaDistVar b a v ∧
    mahaDistVar a c v ≤ mahaDistVar a b v + mahaDistVar b c v ∧ (mahaDistVar a b v = 0 ↔ a = b) := by
  refine ⟨?_, ?_⟩
  · unfold mahaDistVar mahaVar mahaSqVar
    congr 1
    simp only [dotProduct, mulVec_diagonal, Pi.sub_apply]
    exact Finset.sum_congr rfl fun i _ => by ring
  · unfold mahaDistVar
    simp only [mahaVar_l2 _ v hv]
    refine metric_of_linear _ (fun x hx => ?_) a b c
    funext i
    have := congrFun hx i
    rw [mulVec_diagonal] at this
    rcases mul_eq_zero.1 this with h | h
    · exact absurd (inv_eq_zero.1 h) (Real.sqrt_pos.2 (hv i)).ne'
    · exact h

/-- **C128**, scalars: the distance is a metric whatever the variance, as variances below `FloatEpsilon()`, negative ones among them, are replaced by 1. -/
theorem C128_metric_scalar (eps var : ℝ) (heps : 0 < eps) :
    (∃ s : ℝ, 0 < s ∧ (eps ≤ var → s = √var) ∧ (var < eps → s = 1) ∧ ∀ a b, mahaDistS eps a b var = |a - b| / s) ∧
    ∀ a b c, mahaDistS eps a b var = mahaDistS eps b a var ∧ mahaDistS eps a c var ≤ mahaDistS eps a b var + mahaDistS eps b c var ∧
      (mahaDistS eps a b var = 0 ↔ a = b) := by
  have key : ∃ s : ℝ, 0 < s ∧ (eps ≤ var → s = √var) ∧ (var < eps → s = 1) ∧ ∀ a b, mahaDistS eps a b var = |a - b| / s := by
    by_cases h : var < eps
    · refine ⟨1, one_pos, fun h' => absurd h (not_lt.2 h'), fun _ => rfl, fun a b => ?_⟩
      simp only [mahaDistS, mahaS, mahaSqS, if_pos h, mul_one, div_one]
      exact Real.sqrt_mul_self_eq_abs _
    · have hv : 0 < var := heps.trans_le (not_lt.1 h)
      refine ⟨√var, Real.sqrt_pos.2 hv, fun _ => rfl, fun h' => absurd h' h, fun a b => ?_⟩
      simp only [mahaDistS, mahaS, mahaSqS, if_neg h, mul_one_div]
      rw [Real.sqrt_div (mul_self_nonneg _), Real.sqrt_mul_self_eq_abs]
  refine ⟨key, fun a b c => ?_⟩
  obtain ⟨s, hs, -, -, e⟩ := key
  simp only [e]
  refine ⟨by rw [abs_sub_comm a b], ?_, ?_⟩
  · rw [← add_div]
    exact div_le_div_of_nonneg_right (abs_sub_le a b c) hs.le
  · rw [div_eq_zero_iff]
    constructor
    · rintro (h | h)
      · exact sub_eq_zero.1 (abs_eq_zero.1 h)
      · exact absurd h hs.ne'
    · rintro rfl; left; simp

theorem symU_of_symm {n} {S : RMat n n} (h : Sᵀ = S) : symU S = S := by
  ext i j
  unfold symU
  split
  · rfl
  · rw [← transpose_apply S, h]

/-- **C128**, invariance: moving both points by an invertible affine map and the covariance with them leaves the distance unchanged. -/
theorem C128_affine {n} (o : Fact n) (ho : o.Ok) (S A : RMat n n) (hS : S.PosDef) (hA : IsUnit A) (t a b : RVec n) :
    mahaDist o (A *ᵥ a + t) (A *ᵥ b + t) (A * S * Aᵀ) = mahaDist o a b S := by
  have hsym : Sᵀ = S := by simpa [conjTranspose_eq_transpose_of_trivial] using hS.isHermitian.eq
  have hsym' : (A * S * Aᵀ)ᵀ = A * S * Aᵀ := by rw [transpose_mul, transpose_mul, transpose_transpose, hsym, Matrix.mul_assoc]
  have hAd : IsUnit A.det := (Matrix.isUnit_iff_isUnit_det _).1 hA
  have hAtd : IsUnit Aᵀ.det := by rwa [det_transpose]
  have hS' : (A * S * Aᵀ).PosDef := by
    have := hS.mul_mul_conjTranspose_same (B := A) (by
      rw [Matrix.vecMul_injective_iff_isUnit]; exact hA)
    simpa [conjTranspose_eq_transpose_of_trivial] using this
  have e1 := (C46_whitened o ho S (by rw [symU_of_symm hsym]; exact hS) (a - b)).2.2
  have e2 := (C46_whitened o ho (A * S * Aᵀ) (by rw [symU_of_symm hsym']; exact hS') (A *ᵥ a + t - (A *ᵥ b + t))).2.2
  rw [symU_of_symm hsym] at e1
  rw [symU_of_symm hsym'] at e2
  unfold mahaDist
  rw [e1, e2]
  congr 2
  have hd : A *ᵥ a + t - (A *ᵥ b + t) = A *ᵥ (a - b) := by rw [mulVec_sub]; abel
  rw [hd]
  have hinv : (A * S * Aᵀ)⁻¹ = (Aᵀ)⁻¹ * (S⁻¹ * A⁻¹) := by rw [Matrix.mul_inv_rev, Matrix.mul_inv_rev]
  rw [hinv, mulVec_mulVec, Matrix.mul_assoc, Matrix.mul_assoc, nonsing_inv_mul _ hAd, Matrix.mul_one, dotProduct_mulVec, dotProduct_mulVec,
    ← vecMul_transpose, vecMul_vecMul, ← Matrix.mul_assoc, mul_nonsing_inv _ hAtd, Matrix.one_mul]

/-- **C128**, consistency: variances are the covariance with that diagonal, and with the identity as covariance the distance is the Euclidean one. -/
theorem C128_diagonal {n} (o : Fact n) (ho : o.Ok) (v : RVec n) (hv : ∀ i, 0 < v i) (a b : RVec n) :
    mahaDist o a b (Matrix.diagonal v) = some (mahaDistVar a b v) ∧ mahaDist o a b 1 = some (euclidean a b) := by
  have hd : ∀ v : RVec n, (∀ i, 0 < v i) → mahaDist o a b (Matrix.diagonal v) = some (mahaDistVar a b v) := by
    intro v hv
    have hp : (Matrix.diagonal v).PosDef := PosDef.diagonal hv
    have hs : symU (Matrix.diagonal v) = Matrix.diagonal v := symU_of_symm (diagonal_transpose v)
    have := (C46_whitened o ho (Matrix.diagonal v) (by rw [hs]; exact hp) (a - b)).2.2
    unfold mahaDist
    rw [this, hs]
    unfold mahaDistVar mahaVar mahaSqVar
    congr 4
    refine Matrix.inv_eq_right_inv ?_
    rw [diagonal_mul_diagonal]
    simp only [fun i => mul_inv_cancel₀ (hv i).ne', diagonal_one]
  refine ⟨hd v hv, ?_⟩
  have := hd (fun _ => 1) fun _ => one_pos
  rw [diagonal_one] at this
  rw [this]
  congr 1
  unfold mahaDistVar
  rw [mahaVar_l2 _ _ fun _ => one_pos]
  simp only [Real.sqrt_one, inv_one, diagonal_one, one_mulVec]
  rfl

/-! ### Jacobians -/

theorem mahaVar_grad (eps : ℝ) (heps : 0 < eps) {n} (x v : RVec n) (h : eps < mahaVar x v) : HasGrad (fun y => mahaVar y v) (mahaVarJ eps x v) x := by
  have hpos : 0 < mahaSqVar x v := Real.sqrt_pos.1 (heps.trans h)
  have hg := (quad_grad (Matrix.diagonal fun i => (v i)⁻¹) (diagonal_transpose _) x).comp_deriv (Real.hasDerivAt_sqrt (x := x ⬝ᵥ (Matrix.diagonal (fun i => (v i)⁻¹) *ᵥ x)) hpos.ne')
  refine hg.congr_J ?_
  have hs : √(mahaSqVar x v) ≠ 0 := (heps.trans h).ne'
  have h' : eps < √(mahaSqVar x v) := h
  funext i
  simp only [mahaVarJ, if_pos h', Pi.smul_apply, smul_eq_mul, mahaSqVarJ, Bool.false_eq_true, if_false]
  show 1 / (2 * √(mahaSqVar x v)) * (2 * _) = _ / √(mahaSqVar x v)
  field_simp

theorem deriv_of_diff {f : ℝ → ℝ} {J a b : ℝ} (h : HasDerivAt f J (a - b)) :
    HasDerivAt (fun y => f (y - b)) J a ∧ HasDerivAt (fun y => f (a - y)) (-J) b := by
  refine ⟨?_, ?_⟩
  · exact (HasDerivAt.comp a (h := fun y => y - b) h ((hasDerivAt_id a).sub_const b)).congr_deriv (by ring)
  · exact (HasDerivAt.comp b (h := fun y => a - y) h ((hasDerivAt_id b).const_sub a)).congr_deriv (by ring)

/-- **C128** (partial), Jacobians: at distances above `FloatEpsilon()` the two exported Jacobians are the derivatives of the distance with respect to the first and to the
second point: with a covariance, with variances, and for scalars (of any variance). Missing: smaller distances, see `C128_small_wrong`. -/
theorem C128_jacobians_partial {n} (eps : ℝ) (heps : 0 < eps) (o : Fact n) (ho : o.Ok) (S : RMat n n) (hS : (symU S).PosDef) (a b v : RVec n) (x y var : ℝ) :
    (∀ d, mahaDist o a b S = some d → eps < d → ∃ Ja Jb, mahaDistJ eps o a b S = some (Ja, Jb) ∧ HasGrad (fun p => (mahaDist o p b S).getD 0) Ja a ∧
      HasGrad (fun p => (mahaDist o a p S).getD 0) Jb b ∧ Jb = -Ja) ∧
    (eps < mahaDistVar a b v → HasGrad (fun p => mahaDistVar p b v) (mahaDistVarJ eps a b v).1 a ∧ HasGrad (fun p => mahaDistVar a p v) (mahaDistVarJ eps a b v).2 b) ∧
    (eps < mahaDistS eps x y var → HasDerivAt (fun t => mahaDistS eps t y var) (mahaDistSJ eps x y var).1 x ∧
      HasDerivAt (fun t => mahaDistS eps x t var) (mahaDistSJ eps x y var).2 y) := by
  refine ⟨fun d hd hlt => ?_, fun h => ?_, fun h => ?_⟩
  · have hv := fun z : RVec n => (C46_whitened o ho S hS z).2.2
    unfold mahaDist at hd
    rw [hv] at hd
    obtain rfl := Option.some.inj hd
    obtain ⟨⟨J, hJ, hg⟩, -⟩ := C46_norm_jacobian_partial eps heps o ho S hS (fun p => p - b) 1 a (hasJac_sub_left a b) hlt
    have e : ∀ z : RVec n, (mahaCov o z S).getD 0 = √(z ⬝ᵥ ((symU S)⁻¹ *ᵥ z)) := fun z => by rw [hv]; rfl
    refine ⟨J, -J, by simp [mahaDistJ, hJ], ?_, ?_, rfl⟩
    · simp only [mahaDist, e]; exact (grad_of_diff hg).1
    · simp only [mahaDist, e]; exact (grad_of_diff hg).2
  · exact grad_of_diff (mahaVar_grad eps heps (a - b) v h)
  · have key : HasDerivAt (fun t => mahaS eps t var) (mahaSJ eps (x - y) var) (x - y) := by
      by_cases hv : eps ≤ var
      · have h4 := (C46_scalar_partial eps (x - y) var heps hv)
        have e : (fun t => mahaS eps t var) = fun t => √(t ^ 2 / var) := by
          funext t; exact (C46_scalar_partial eps t var heps hv).2.2.1
        rw [e]
        exact h4.2.2.2 (by rw [← h4.2.2.1]; exact h)
      · have hv' : var < eps := not_le.1 hv
        have e : (fun t => mahaS eps t var) = fun t => √(t ^ 2) := by
          funext t; simp only [mahaS, mahaSqS, if_pos hv', mul_one, sq]
        have h' : eps < √((x - y) * (x - y)) := by
          have : eps < mahaS eps (x - y) var := h
          simpa only [mahaS, mahaSqS, if_pos hv', mul_one] using this
        have hpos : 0 < (x - y) ^ 2 := by rw [sq]; exact Real.sqrt_pos.1 (heps.trans h')
        rw [e]
        have h2 := HasDerivAt.comp (x - y) (h := fun t : ℝ => t ^ 2) (Real.hasDerivAt_sqrt hpos.ne') (hasDerivAt_pow 2 (x - y))
        refine h2.congr_deriv ?_
        have hs : √((x - y) * (x - y)) ≠ 0 := (heps.trans h').ne'
        simp only [mahaSJ, mahaSqS, if_pos hv', mul_one, if_pos h', mahaSqSJ, Bool.false_eq_true, if_false, one_mul, sq]
        field_simp
        simp
    exact deriv_of_diff key

/-- **C128 is violated** (Jacobians) at every pair of distinct points at a distance up to `FloatEpsilon()`: the distance is differentiable there, but neither exported Jacobian is its
derivative. -/
theorem C128_small_wrong {n} (eps : ℝ) (heps : eps < 1) (o : Fact n) (ho : o.Ok) (S : RMat n n) (hS : (symU S).PosDef) (a b : RVec n) (hab : a ≠ b)
    (d : ℝ) (hd : mahaDist o a b S = some d) (h : d ≤ eps) :
    ∃ Ja Jb, mahaDistJ eps o a b S = some (Ja, Jb) ∧ DifferentiableAt ℝ (fun p => (mahaDist o p b S).getD 0) a ∧
      ¬ HasGrad (fun p => (mahaDist o p b S).getD 0) Ja a ∧ ¬ HasGrad (fun p => (mahaDist o a p S).getD 0) Jb b := by
  have hv := fun z : RVec n => (C46_whitened o ho S hS z).2.2
  obtain ⟨d', hd', hm⟩ := C128_metric o ho S hS
  have e0 : d' a b = d := by rw [(hd' a b).1] at hd; exact Option.some.inj hd
  have hpos : 0 < d' a b := lt_of_le_of_ne (hm a b a).1 fun h0 => hab ((hm a b a).2.2.2.1 h0.symm)
  rw [(hd' a b).2] at hpos e0
  have e : ∀ z : RVec n, (mahaCov o z S).getD 0 = √(z ⬝ᵥ ((symU S)⁻¹ *ᵥ z)) := fun z => by rw [hv]; rfl
  obtain ⟨h1, -⟩ := ho _ hS
  obtain ⟨J, hJ⟩ : ∃ J, mahaCovJ eps o (a - b) S = some J := by simp [mahaCovJ, mahaSqCov, mahaSqCovJ, h1]
  have hw := C46_small_wrong eps heps o ho S hS (a - b) hpos (e0 ▸ h) J hJ
  have hback : ∀ {f : RVec n → ℝ} {K : RVec n}, HasGrad (fun p => f (p - b)) K a → HasGrad f K (a - b) := by
    intro f K hf
    have hj : HasJac (fun q : RVec n => q - (-b)) (1 : RMat n n) (a - b) := hasJac_sub_left (a - b) (-b)
    have ea : a = (a - b) - (-b) := by abel
    rw [ea] at hf
    refine ((HasGrad.chain (g := fun q : RVec n => q - (-b)) (p := a - b) hf hj).congr_J (by simp)).congr_near (Filter.Eventually.of_forall fun q => ?_)
    simp
  have hback2 : ∀ {f : RVec n → ℝ} {K : RVec n}, HasGrad (fun p => f (a - p)) K b → HasGrad f (-K) (a - b) := by
    intro f K hf
    have hj : HasJac (fun q : RVec n => a - q) (-1 : RMat n n) (a - b) := hasJac_sub_right a (a - b)
    have eb : b = a - (a - b) := by abel
    rw [eb] at hf
    refine ((HasGrad.chain (g := fun q : RVec n => a - q) (p := a - b) hf hj).congr_J (by simp [vecMul_neg])).congr_near (Filter.Eventually.of_forall fun q => ?_)
    simp
  refine ⟨J, -J, by simp [mahaDistJ, hJ], ?_, fun hg => ?_, fun hg => ?_⟩
  · simp only [mahaDist, e]
    exact DifferentiableAt.comp a (f := fun p => p - b) hw.1 (by fun_prop)
  · simp only [mahaDist, e] at hg
    exact hw.2 (hback (f := fun z => √(z ⬝ᵥ ((symU S)⁻¹ *ᵥ z))) hg)
  · simp only [mahaDist, e] at hg
    have := hback2 (f := fun z => √(z ⬝ᵥ ((symU S)⁻¹ *ᵥ z))) hg
    rw [neg_neg] at this
    exact hw.2 this

/-- **C128**, input Jacobians: given the Jacobian `A` of the residual with respect to parameters, the exported Jacobian is the one with respect to the parameters: of the whitening by
one standard deviation, of the whitening by standard deviations, and of the squared norm with variances. -/
theorem C128_input_jacobians {n k} (r : RVec k → RVec n) (A : RMat n k) (p : RVec k) (hA : HasJac r A p) (σ v : RVec n) (s : ℝ) :
    HasJac (fun q => whitenIso (r q) s) (whitenIsoJx s A) p ∧ HasJac (fun q => whitenDev (r q) σ) (whitenDevJx σ A) p ∧
    HasGrad (fun q => mahaSqVar (r q) v) (mahaSqVarJx (r p) v A) p ∧ HasGrad (fun q => mahaSqVar (r q) v) ((2 : ℝ) • mahaSqVarJx (r p) v A false) p := by
  have hdiv : ∀ σ : RVec n, HasJac (fun q => whitenDev (r q) σ) (fun i j => A i j / σ i) p := by
    intro σ i
    refine ((hA i).comp_deriv (φ := fun t => t / σ i) ((hasDerivAt_id (r p i)).div_const (σ i))).congr_J ?_
    funext j
    simp only [Pi.smul_apply, smul_eq_mul]
    ring
  have hq := (quad_grad (Matrix.diagonal fun i => (v i)⁻¹) (diagonal_transpose _) (r p)).chain hA
  refine ⟨hdiv fun _ => s, ?_, hq, ?_⟩
  · have e : whitenDevJx σ A = fun i j => A i j / σ i := by
      funext i j
      unfold whitenDevJx
      rw [diagonal_mul]
      ring
    rw [e]; exact hdiv σ
  · refine hq.congr_J ?_
    simp only [mahaSqVarJx, mahaSqVarJ, Bool.false_eq_true, if_false, smul_vecMul]

/-- **C128** (partial), input Jacobians of the norm with variances and of scalars: right for norms above `FloatEpsilon()` and variances not below it. Missing: small ones, see `C46_small_wrong`, `C46_scalar_wrong`. -/
theorem C128_input_jacobians_partial {n k} (eps : ℝ) (heps : 0 < eps) (r : RVec k → RVec n) (A : RMat n k) (p : RVec k) (hA : HasJac r A p) (v : RVec n)
    (f : ℝ → ℝ) (f' t var : ℝ) (hf : HasDerivAt f f' t) (hvar : eps ≤ var) :
    (eps < mahaVar (r p) v → HasGrad (fun q => mahaVar (r q) v) (mahaVarJx eps (r p) v A) p) ∧
    HasDerivAt (fun u => f u ^ 2 / var) (mahaSqSJx eps (f t) var f') t ∧
    (eps < √(f t ^ 2 / var) → HasDerivAt (fun u => √(f u ^ 2 / var)) (mahaSJx eps (f t) var f') t) := by
  have hs := C46_scalar_partial eps (f t) var heps hvar
  refine ⟨fun h => ?_, hs.2.1.comp t hf, fun h => ?_⟩
  · refine ((mahaVar_grad eps heps (r p) v h).chain hA).congr_J ?_
    funext j
    simp only [mahaVarJ, mahaVarJx, mahaSqVarJx, vecMul, dotProduct, Finset.sum_div]
    exact Finset.sum_congr rfl fun i _ => by ring
  · refine ((hs.2.2.2 h).comp t hf).congr_deriv ?_
    simp only [mahaSJ, mahaSJx, mahaSqSJx]
    ring

/-! ### Standard deviations and covariances -/

/-- a triangular factor with a positive diagonal of a diagonal matrix is diagonal -/
theorem chol_diagonal {n} {L : RMat n n} {d : RVec n} (hl : ∀ i j, i < j → L i j = 0) (hp : ∀ i, 0 < L i i) (h : L * Lᵀ = Matrix.diagonal d) :
    L = Matrix.diagonal fun i => √(d i) := by
  have ht : BlockTriangular L OrderDual.toDual := fun i j hij => hl i j hij
  have hdet : IsUnit L.det := by
    rw [det_of_isLowerTriangular L ht]
    exact isUnit_iff_ne_zero.2 (Finset.prod_ne_zero_iff.2 fun i _ => (hp i).ne')
  let _ := invertibleOfIsUnitDet L hdet
  have hi : BlockTriangular L⁻¹ OrderDual.toDual := blockTriangular_inv_of_blockTriangular ht
  have e : Lᵀ = L⁻¹ * Matrix.diagonal d := by rw [← h, ← Matrix.mul_assoc, nonsing_inv_mul _ hdet, Matrix.one_mul]
  have hoff : ∀ i j, j < i → L i j = 0 := by
    intro i j hij
    have h1 := congrFun (congrFun e j) i
    rw [transpose_apply, mul_diagonal, hi (show OrderDual.toDual i < OrderDual.toDual j from hij), zero_mul] at h1
    exact h1
  have hL : L = Matrix.diagonal fun i => L i i := by
    ext i j
    by_cases hij : i = j
    · subst hij; rw [diagonal_apply_eq]
    · rw [diagonal_apply_ne _ hij]
      rcases lt_or_gt_of_ne hij with h' | h'
      · exact hl i j h'
      · exact hoff i j h'
  rw [hL] at h
  rw [diagonal_transpose, diagonal_mul_diagonal, diagonal_eq_diagonal_iff] at h
  rw [hL]
  congr 1
  funext i
  rw [← h i, Real.sqrt_mul_self (hp i).le]

/-- **C128**, the two ways to whiten agree: whitening by positive standard deviations is, entry by entry, what Eigen's Cholesky decomposition gives with the covariance that has their squares on the diagonal; the same for the
exported Jacobians, own and with an input Jacobian. -/
theorem C128_whitening {n k} (σ r : RVec n) (hσ : ∀ i, 0 < σ i) (A : RMat n k) :
    whitenCov (eigenFact n) r (Matrix.diagonal fun i => σ i ^ 2) = whitenDev r σ ∧
    whitenCovJ (eigenFact n) (Matrix.diagonal fun i => σ i ^ 2) = whitenDevJ σ ∧
    whitenCovJx (eigenFact n) (Matrix.diagonal fun i => σ i ^ 2) A = whitenDevJx σ A := by
  have hp : (Matrix.diagonal fun i => σ i ^ 2 : RMat n n).PosDef := PosDef.diagonal fun i => pow_pos (hσ i) 2
  have hs : symU (Matrix.diagonal fun i => σ i ^ 2) = Matrix.diagonal fun i => σ i ^ 2 := symU_of_symm (diagonal_transpose _)
  have hf := C115_factor (pd_iff_posDef.2 hp)
  have hL : (eigenFact n).lltL (Matrix.diagonal fun i => σ i ^ 2) = Matrix.diagonal σ := by
    rw [chol_diagonal (L := (eigenFact n).lltL (Matrix.diagonal fun i => σ i ^ 2)) (d := fun i => σ i ^ 2) ?_ ?_ (C115_contract n _ hp).2]
    · congr 1; funext i; exact Real.sqrt_sq (hσ i).le
    · intro i j hij
      simp [eigenFact, lowerR, not_le.2 hij]
    · intro i
      have := hf.2 i
      simp only [eigenFact, lowerR, Matrix.of_apply, le_refl, if_true]
      exact this
  have hinv : (Matrix.diagonal σ)⁻¹ = Matrix.diagonal fun i => (σ i)⁻¹ := by
    refine Matrix.inv_eq_right_inv ?_
    rw [diagonal_mul_diagonal]
    simp only [fun i => mul_inv_cancel₀ (hσ i).ne', diagonal_one]
  refine ⟨?_, ?_, ?_⟩
  · unfold whitenCov whitenDev
    rw [hs, hL, hinv]
    funext i
    rw [mulVec_diagonal]; ring
  · unfold whitenCovJ whitenDevJ
    rw [hs, hL, hinv, Matrix.mul_one]
  · unfold whitenCovJx whitenDevJx
    rw [hs, hL, hinv]

/-- the covariances of the test (`CreateCov`, tests/distances.cpp:79-85), `A Aᵀ + ε I`, meet the hypotheses whatever the random matrix -/
theorem C128_test_cov {n} (A : RMat n n) (ε : ℝ) (hε : 0 < ε) : (symU (A * Aᵀ + ε • (1 : RMat n n))).PosDef := by
  have h1 : (A * Aᵀ).PosSemidef := by
    have := posSemidef_self_mul_conjTranspose A
    rwa [conjTranspose_eq_transpose_of_trivial] at this
  have hp : (A * Aᵀ + ε • (1 : RMat n n)).PosDef := Matrix.PosDef.posSemidef_add h1 (Matrix.PosDef.one.smul hε)
  rw [symU_of_symm]
  · exact hp
  · rw [transpose_add, transpose_mul, transpose_transpose, transpose_smul, transpose_one]

/-- a concrete distance: variances 4 and 1, between (2, 0) and (0, 0) -/
example : mahaDistVar ![2, 0] ![0, 0] ![4, 1] = 1 := by
  have h := (C128_metric_variances ![4, 1] (by intro i; fin_cases i <;> norm_num) ![2, 0] ![0, 0] ![0, 0]).1
  rw [h]
  have e : ∑ i, ((![2, 0] : RVec 2) i - (![0, 0] : RVec 2) i) ^ 2 / (![4, 1] : RVec 2) i = 1 := by
    simp [Fin.sum_univ_two]; norm_num
  rw [e, Real.sqrt_one]

/-- a concrete pair of points with wrong Jacobians: at a tenth of `FloatEpsilon()` from each other -/
example : ∃ Ja Jb, mahaDistJ 1e-8 (eigenFact 1) (fun _ => 1e-9) (fun _ => 0) 1 = some (Ja, Jb) ∧
    ¬ HasGrad (fun p => (mahaDist (eigenFact 1) p (fun _ => 0) 1).getD 0) Ja fun _ => 1e-9 := by
  have hd := (C128_diagonal (eigenFact 1) (C115_contract 1) (fun _ => 1) (fun _ => one_pos) (fun _ => 1e-9) fun _ => 0).2
  have he : euclidean (fun _ : Fin 1 => (1e-9 : ℝ)) (fun _ => 0) ≤ 1e-8 := by
    unfold euclidean l2
    refine Real.sqrt_le_iff.2 ⟨by norm_num, ?_⟩
    simp
    norm_num
  have h1 : (symU (1 : RMat 1 1)).PosDef := by rw [symU_of_symm transpose_one]; exact Matrix.PosDef.one
  obtain ⟨Ja, Jb, hJ, -, hw, -⟩ := C128_small_wrong 1e-8 (by norm_num) (eigenFact 1) (C115_contract 1) 1 h1 (fun _ => 1e-9) (fun _ => 0)
    (fun h => by have := congrFun h 0; norm_num at this) _ hd he
  exact ⟨Ja, Jb, hJ, hw⟩

/-- two points at distance 2 with the covariance 1: the hypotheses of `C128_affine` (with the map `y = 3 x + t`) and of `C128_jacobians_partial` -/
example (t : RVec 1) : mahaDist (eigenFact 1) (((3 : ℝ) • (1 : RMat 1 1)) *ᵥ (fun _ => 2) + t) (((3 : ℝ) • (1 : RMat 1 1)) *ᵥ (fun _ => 0) + t) ((3 : ℝ) • (1 : RMat 1 1) * 1 * ((3 : ℝ) • (1 : RMat 1 1))ᵀ) = some 2 ∧
    ∃ Ja Jb, mahaDistJ 1e-8 (eigenFact 1) (fun _ => 2) (fun _ => 0) 1 = some (Ja, Jb) ∧ HasGrad (fun p => (mahaDist (eigenFact 1) p (fun _ => 0) 1).getD 0) Ja fun _ => 2 := by
  have hd : mahaDist (eigenFact 1) (fun _ => 2) (fun _ => 0) 1 = some 2 := by
    rw [(C128_diagonal (eigenFact 1) (C115_contract 1) (fun _ => 1) (fun _ => one_pos) (fun _ => 2) fun _ => 0).2]
    simp [euclidean, l2]
  have h1 : (symU (1 : RMat 1 1)).PosDef := by rw [symU_of_symm transpose_one]; exact Matrix.PosDef.one
  constructor
  · rw [C128_affine (eigenFact 1) (C115_contract 1) 1 ((3 : ℝ) • 1) Matrix.PosDef.one ?_ t]
    · exact hd
    · rw [Matrix.isUnit_iff_isUnit_det]
      simp
  · obtain ⟨Ja, Jb, e1, e2, -⟩ := (C128_jacobians_partial 1e-8 (by norm_num) (eigenFact 1) (C115_contract 1) 1 h1 (fun _ => 2) (fun _ => 0) (fun _ => 1) 0 0 1).1 2 hd (by norm_num)
    exact ⟨Ja, Jb, e1, e2⟩

/-- a residual `p ↦ (p, 2 p)` of one parameter for `C128_input_jacobians`, with two standard deviations -/
example : HasJac (fun q : RVec 1 => whitenDev ![q 0, 2 * q 0] ![1, 3]) (whitenDevJx ![1, 3] !![1; 2]) fun _ => 5 := by
  have hA : HasJac (fun q : RVec 1 => ![q 0, 2 * q 0]) !![1; 2] fun _ => 5 := by
    intro i
    have h0 := hasGrad_coord (n := 1) 0 fun _ => 5
    fin_cases i
    · exact h0.congr_J (by funext j; fin_cases j; simp)
    · exact (h0.comp_deriv (φ := fun y => 2 * y) (by simpa using (hasDerivAt_id (5 : ℝ)).const_mul 2)).congr_J (by funext j; fin_cases j; simp)
  exact (C128_input_jacobians _ _ _ hA ![1, 3] ![1, 1] 1).2.1

end Loss
end Verif
