import Verif.Props.Norms
import Mathlib.Analysis.Matrix.Order
import Mathlib.LinearAlgebra.Matrix.PosDef
/-!
# C46, C47: Mahalanobis norms, whitening, distances
-/

namespace Verif
namespace Loss

open Matrix
open scoped MatrixOrder

/-- What is assumed of Eigen: on positive definite matrices, the solution of the identity is the inverse, and the factor of `llt()` is a square
root of the matrix. (That it is triangular is not needed.) -/
def Fact.Ok {n} (o : Fact n) : Prop := ∀ S : RMat n n, S.PosDef → o.ldltInv S = some S⁻¹ ∧ o.lltL S * (o.lltL S)ᵀ = S

/-- the assumption can be met, in every dimension -/
theorem exists_fact (n : Nat) : ∃ o : Fact n, o.Ok := by
  classical
  have h : ∀ S : RMat n n, S.PosDef → ∃ L : RMat n n, L * Lᵀ = S := by
    intro S hS
    obtain ⟨B, hB⟩ := CStarAlgebra.nonneg_iff_eq_star_mul_self.mp hS.posSemidef.nonneg
    refine ⟨Bᵀ, ?_⟩
    rw [hB]; simp [star_eq_conjTranspose, conjTranspose_eq_transpose_of_trivial]
  refine ⟨{ ldltInv := fun S => some S⁻¹, lltL := fun S => if hS : S.PosDef then (h S hS).choose else 0 }, fun S hS => ⟨rfl, ?_⟩⟩
  simp only [dif_pos hS]
  exact (h S hS).choose_spec

theorem sqL2_eq_dot {n} (x : RVec n) : sqL2 x = x ⬝ᵥ x := rfl

theorem sq_mulVec {n m} (M : RMat m n) (x : RVec n) : sqL2 (M *ᵥ x) = x ⬝ᵥ ((Mᵀ * M) *ᵥ x) := by
  rw [sqL2_eq_dot, ← mulVec_mulVec, dotProduct_mulVec x, vecMul_transpose]

/-- **C46**, covariance matrices: the squared Mahalanobis norm is `xᵀ S⁻¹ x`, `S` being read from its upper triangle, and so is the squared norm of
the whitened residual; `MahaNorm` is its square root. -/
theorem C46_whitened {n} (o : Fact n) (ho : o.Ok) (S : RMat n n) (hS : (symU S).PosDef) (x : RVec n) :
    mahaSqCov o x S = some (x ⬝ᵥ ((symU S)⁻¹ *ᵥ x)) ∧ ∑ i, whitenCov o x S i ^ 2 = x ⬝ᵥ ((symU S)⁻¹ *ᵥ x) ∧
    mahaCov o x S = some √(x ⬝ᵥ ((symU S)⁻¹ *ᵥ x)) := by
  obtain ⟨h1, h2⟩ := ho _ hS
  have h3 : mahaSqCov o x S = some (x ⬝ᵥ ((symU S)⁻¹ *ᵥ x)) := by simp [mahaSqCov, h1]
  refine ⟨h3, ?_, by simp [mahaCov, h3]⟩
  have e : ∑ i, whitenCov o x S i ^ 2 = sqL2 (whitenCov o x S) := Finset.sum_congr rfl fun i _ => sq _
  rw [e]
  unfold whitenCov
  rw [sq_mulVec]
  congr 2
  rw [transpose_nonsing_inv, ← Matrix.mul_inv_rev, h2]

/-- **C46**, invariance: nothing but the upper triangle of the covariance is read (for every matrix, positive or not, and whatever Eigen does). -/
theorem C46_upper {n k} (eps : ℝ) (o : Fact n) (S S' : RMat n n) (h : ∀ i j, i ≤ j → S i j = S' i j) (x : RVec n) (A : RMat n k) (b : Bool) :
    mahaSqCov o x S = mahaSqCov o x S' ∧ mahaSqCovJ o x S b = mahaSqCovJ o x S' b ∧ mahaSqCovJx o x S A b = mahaSqCovJx o x S' A b ∧
    mahaCov o x S = mahaCov o x S' ∧ mahaCovJ eps o x S = mahaCovJ eps o x S' ∧ mahaCovJx eps o x S A = mahaCovJx eps o x S' A ∧
    whitenCov o x S = whitenCov o x S' ∧ whitenCovJ o S = whitenCovJ o S' ∧ whitenCovJx o S A = whitenCovJx o S' A := by
  have e : symU S = symU S' := by
    ext i j
    unfold symU
    split
    · rename_i h'; exact h i j h'
    · rename_i h'; exact h j i (le_of_not_ge h')
  simp only [mahaSqCov, mahaSqCovJ, mahaSqCovJx, mahaCov, mahaCovJ, mahaCovJx, whitenCov, whitenCovJ, whitenCovJx, e, and_self]

theorem symU_symm {n} (S : RMat n n) : (symU S)ᵀ = symU S := by
  ext i j
  rw [transpose_apply]
  unfold symU
  rcases lt_trichotomy i j with h | h | h
  · rw [if_neg (not_le.2 h), if_pos h.le]
  · subst h; rfl
  · rw [if_pos h.le, if_neg (not_le.2 h)]

theorem quad_grad {n} (M : RMat n n) (hM : Mᵀ = M) (x : RVec n) : HasGrad (fun y => y ⬝ᵥ (M *ᵥ y)) ((2 : ℝ) • (M *ᵥ x)) x := by
  have h : HasGrad (fun y : RVec n => ∑ i, y i * (M *ᵥ y) i) (∑ i, (x i • M i + (M *ᵥ x) i • Pi.single i 1)) x :=
    HasGrad.sum Finset.univ fun i _ => (hasGrad_coord i x).mul (hasJac_linear M x i)
  refine h.congr_J ?_
  funext j
  have hj : ∑ i, x i * M i j = (M *ᵥ x) j := by
    conv_rhs => rw [← hM]
    simp only [mulVec, dotProduct, transpose_apply]
    exact Finset.sum_congr rfl fun i _ => mul_comm _ _
  simp only [Finset.sum_apply, Pi.add_apply, Pi.smul_apply, smul_eq_mul, Finset.sum_add_distrib, hj, Pi.single_apply, mul_ite, mul_one, mul_zero,
    Finset.sum_ite_eq, Finset.mem_univ, if_true]
  ring

/-- **C46**, Jacobian of the squared norm: the derivative of `xᵀ S⁻¹ x`, also through an input Jacobian; half of it without the scale. -/
theorem C46_squared_jacobian {n k} (o : Fact n) (ho : o.Ok) (S : RMat n n) (hS : (symU S).PosDef)
    (r : RVec k → RVec n) (A : RMat n k) (p : RVec k) (hA : HasJac r A p) (x : RVec n) :
    (∃ J, mahaSqCovJ o x S = some J ∧ HasGrad (fun y => y ⬝ᵥ ((symU S)⁻¹ *ᵥ y)) J x) ∧
    (∃ J, mahaSqCovJ o x S false = some J ∧ HasGrad (fun y => y ⬝ᵥ ((symU S)⁻¹ *ᵥ y)) ((2 : ℝ) • J) x) ∧
    (∃ J, mahaSqCovJx o (r p) S A = some J ∧ HasGrad (fun q => r q ⬝ᵥ ((symU S)⁻¹ *ᵥ r q)) J p) := by
  obtain ⟨h1, -⟩ := ho _ hS
  have hsym : ((symU S)⁻¹)ᵀ = (symU S)⁻¹ := by rw [transpose_nonsing_inv, symU_symm]
  refine ⟨⟨_, by simp [mahaSqCovJ, h1], quad_grad _ hsym x⟩, ⟨_, by simp [mahaSqCovJ, h1], quad_grad _ hsym x⟩,
    ⟨_, by simp [mahaSqCovJx, mahaSqCovJ, h1], (quad_grad _ hsym (r p)).chain hA⟩⟩

/-- **C46** (partial), Jacobian of the norm: the derivative of `√(xᵀ S⁻¹ x)` for norms above `FloatEpsilon()`, also through an input Jacobian.
Missing: smaller norms, see `C46_small_wrong`. -/
theorem C46_norm_jacobian_partial {n k} (eps : ℝ) (heps : 0 < eps) (o : Fact n) (ho : o.Ok) (S : RMat n n) (hS : (symU S).PosDef)
    (r : RVec k → RVec n) (A : RMat n k) (p : RVec k) (hA : HasJac r A p) (hp : eps < √(r p ⬝ᵥ ((symU S)⁻¹ *ᵥ r p))) :
    (∃ J, mahaCovJ eps o (r p) S = some J ∧ HasGrad (fun y => √(y ⬝ᵥ ((symU S)⁻¹ *ᵥ y))) J (r p)) ∧
    (∃ J, mahaCovJx eps o (r p) S A = some J ∧ HasGrad (fun q => √(r q ⬝ᵥ ((symU S)⁻¹ *ᵥ r q))) J p) := by
  obtain ⟨h1, -⟩ := ho _ hS
  have hsym : ((symU S)⁻¹)ᵀ = (symU S)⁻¹ := by rw [transpose_nonsing_inv, symU_symm]
  have hpos : 0 < r p ⬝ᵥ ((symU S)⁻¹ *ᵥ r p) := Real.sqrt_pos.1 (heps.trans hp)
  have hg := (quad_grad _ hsym (r p)).comp_deriv (Real.hasDerivAt_sqrt hpos.ne')
  have hs : √(r p ⬝ᵥ ((symU S)⁻¹ *ᵥ r p)) ≠ 0 := (heps.trans hp).ne'
  have hg' : HasGrad (fun y => √(y ⬝ᵥ ((symU S)⁻¹ *ᵥ y))) (fun i => ((symU S)⁻¹ *ᵥ r p) i / √(r p ⬝ᵥ ((symU S)⁻¹ *ᵥ r p))) (r p) := by
    refine hg.congr_J ?_
    funext i
    simp only [Pi.smul_apply, smul_eq_mul]
    field_simp
  refine ⟨⟨_, by simp [mahaCovJ, mahaSqCov, mahaSqCovJ, h1, hp], hg'⟩, ⟨_, by simp [mahaCovJx, mahaSqCov, mahaSqCovJx, mahaSqCovJ, h1, hp]; rfl, ?_⟩⟩
  refine (hg'.chain hA).congr_J ?_
  funext j
  simp only [vecMul, dotProduct, Finset.sum_div]
  exact Finset.sum_congr rfl fun i _ => by ring

/-- **C46 is violated** for every non-zero residual with a norm up to `FloatEpsilon()`: the norm is differentiable there, but the exported
Jacobian is not its derivative. -/
theorem C46_small_wrong {n} (eps : ℝ) (heps : eps < 1) (o : Fact n) (ho : o.Ok) (S : RMat n n) (hS : (symU S).PosDef) (x : RVec n)
    (h0 : 0 < √(x ⬝ᵥ ((symU S)⁻¹ *ᵥ x))) (h : √(x ⬝ᵥ ((symU S)⁻¹ *ᵥ x)) ≤ eps) (J : RVec n) (hJ : mahaCovJ eps o x S = some J) :
    DifferentiableAt ℝ (fun y => √(y ⬝ᵥ ((symU S)⁻¹ *ᵥ y))) x ∧ ¬ HasGrad (fun y => √(y ⬝ᵥ ((symU S)⁻¹ *ᵥ y))) J x := by
  obtain ⟨h1, -⟩ := ho _ hS
  have hsym : ((symU S)⁻¹)ᵀ = (symU S)⁻¹ := by rw [transpose_nonsing_inv, symU_symm]
  have hpos : 0 < x ⬝ᵥ ((symU S)⁻¹ *ᵥ x) := Real.sqrt_pos.1 h0
  have hg := (quad_grad _ hsym x).comp_deriv (Real.hasDerivAt_sqrt hpos.ne')
  refine ⟨HasFDerivAt.differentiableAt hg, fun h' => ?_⟩
  have e := hg.unique h'
  have eJ : J = (symU S)⁻¹ *ᵥ x := by
    simp [mahaCovJ, mahaSqCov, mahaSqCovJ, h1, not_lt.2 h] at hJ
    exact hJ.symm
  rw [eJ] at e
  obtain ⟨i, -, hi⟩ := Finset.exists_ne_zero_of_sum_ne_zero hpos.ne'
  have hne : ((symU S)⁻¹ *ᵥ x) i ≠ 0 := fun hz => hi (by rw [hz, mul_zero])
  have e2 := congrFun e i
  simp only [Pi.smul_apply, smul_eq_mul] at e2
  have h3 : 1 / (2 * √(x ⬝ᵥ ((symU S)⁻¹ *ᵥ x))) * 2 = 1 := by
    have : (1 / (2 * √(x ⬝ᵥ ((symU S)⁻¹ *ᵥ x))) * 2) * ((symU S)⁻¹ *ᵥ x) i = 1 * ((symU S)⁻¹ *ᵥ x) i := by
      rw [one_mul, mul_assoc]; exact e2
    exact mul_right_cancel₀ hne this
  have h4 : √(x ⬝ᵥ ((symU S)⁻¹ *ᵥ x)) = 1 := by
    field_simp at h3
    exact h3.symm
  linarith

/-- **C46**, Jacobian of the whitening by a covariance -/
theorem C46_whitened_jacobian {n k} (o : Fact n) (S : RMat n n) (r : RVec k → RVec n) (A : RMat n k) (p : RVec k) (hA : HasJac r A p) (x : RVec n) :
    HasJac (fun y => whitenCov o y S) (whitenCovJ o S) x ∧ HasJac (fun q => whitenCov o (r q) S) (whitenCovJx o S A) p := by
  refine ⟨?_, (hasJac_linear _ (r p)).chain hA⟩
  unfold whitenCovJ; rw [Matrix.mul_one]
  exact hasJac_linear _ x

/-- **C46**, variances and standard deviations: with variances that are the squares of the (non-zero) standard deviations, the squared
norm of the whitened residual is the squared Mahalanobis norm, the sum of `(x i / σ i)²`; and the Jacobians are the derivatives. -/
theorem C46_variances {n} (x σ : RVec n) (h : ∀ i, σ i ≠ 0) :
    mahaSqVar x (fun i => σ i ^ 2) = ∑ i, (x i / σ i) ^ 2 ∧ ∑ i, whitenDev x σ i ^ 2 = ∑ i, (x i / σ i) ^ 2 ∧
    HasGrad (fun y => mahaSqVar y (fun i => σ i ^ 2)) (mahaSqVarJ x (fun i => σ i ^ 2)) x ∧ HasJac (fun y => whitenDev y σ) (whitenDevJ σ) x := by
  refine ⟨?_, rfl, ?_, ?_⟩
  · simp only [mahaSqVar, dotProduct, mulVec_diagonal]
    refine Finset.sum_congr rfl fun i _ => ?_
    have := h i
    field_simp
  · have := quad_grad (Matrix.diagonal fun i => (σ i ^ 2)⁻¹) (diagonal_transpose _) x
    simpa [mahaSqVar, mahaSqVarJ] using this
  · intro r
    have h1 := (hasGrad_coord r x).comp_deriv (φ := fun t => t / σ r) ((hasDerivAt_id (x r)).div_const (σ r))
    refine h1.congr_J ?_
    funext j
    by_cases hj : r = j
    · subst hj; simp [whitenDevJ]
    · simp [whitenDevJ, Matrix.diagonal, hj, Pi.single_apply, Ne.symm hj]

/-- **C46**, one standard deviation for all coordinates: the exported scalar is the Jacobian, as a multiple of the identity. -/
theorem C46_isotropic {n} (x : RVec n) (σ : ℝ) (hσ : σ ≠ 0) :
    ∑ i, whitenIso x σ i ^ 2 = mahaSqVar x (fun _ => σ ^ 2) ∧ HasJac (fun y => whitenIso y σ) (whitenIsoJ σ • (1 : RMat n n)) x := by
  have h := C46_variances x (fun _ => σ) (fun _ => hσ)
  refine ⟨h.1.symm, ?_⟩
  have e : whitenIsoJ σ • (1 : RMat n n) = whitenDevJ (fun _ => σ) := by
    ext i j
    by_cases hij : i = j
    · subst hij; simp [whitenIsoJ, whitenDevJ]
    · simp [whitenIsoJ, whitenDevJ, hij]
  rw [e]; exact h.2.2.2

/-- **C46**, whitening by an upper factor of the information matrix: the squared norm of the whitened residual is the squared Mahalanobis norm;
the Jacobian is right through an input Jacobian. -/
theorem C46_infoU {n k} (U S : RMat n n) (hU : (triU U)ᵀ * triU U = S⁻¹) (x : RVec n) (r : RVec k → RVec n) (A : RMat n k) (p : RVec k) (hA : HasJac r A p) :
    ∑ i, whitenU x U i ^ 2 = x ⬝ᵥ (S⁻¹ *ᵥ x) ∧ HasJac (fun q => whitenU (r q) U) (whitenUJx U A) p := by
  refine ⟨?_, (hasJac_linear _ (r p)).chain hA⟩
  have e : ∑ i, whitenU x U i ^ 2 = sqL2 (whitenU x U) := Finset.sum_congr rfl fun i _ => sq _
  rw [e]
  unfold whitenU
  rw [sq_mulVec, hU]

/-- **C46 is violated** by the own Jacobian of the whitening by an upper factor: it is the derivative exactly if the lower triangle of the matrix
is zero, although only the upper one is used for the value. -/
theorem C46_infoU_jacobian_wrong {n} (U : RMat n n) (x : RVec n) : HasJac (fun y => whitenU y U) (whitenUJ U) x ↔ ∀ i j, j < i → U i j = 0 := by
  have h1 : HasJac (fun y => whitenU y U) (triU U) x := hasJac_linear _ x
  constructor
  · intro h i j hij
    have := congrFun ((h i).unique (h1 i)) j
    simpa [whitenUJ, triU, not_le.2 hij] using this
  · intro h
    have e : triU U = whitenUJ U := by
      ext i j
      unfold triU whitenUJ
      split
      · rfl
      · rename_i h'; exact (h i j (not_le.1 h')).symm
    rw [← e]; exact h1

/-- a concrete upper factor with a non-zero lower triangle -/
example (x : RVec 2) : ¬ HasJac (fun y => whitenU y !![1, 2; 3, 4]) (whitenUJ !![1, 2; 3, 4]) x := by
  rw [C46_infoU_jacobian_wrong]
  intro h
  have := h 1 0 (by decide)
  norm_num at this

/-- **C46** (partial), scalars: for variances not below `FloatEpsilon()`, the squared norm and its Jacobian are right, and so are the norm and its
Jacobian if it is above `FloatEpsilon()`. Missing: smaller variances, see `C46_scalar_wrong`. -/
theorem C46_scalar_partial (eps x v : ℝ) (heps : 0 < eps) (hv : eps ≤ v) :
    mahaSqS eps x v = x ^ 2 / v ∧ HasDerivAt (fun y => y ^ 2 / v) (mahaSqSJ eps x v) x ∧ mahaS eps x v = √(x ^ 2 / v) ∧
    (eps < √(x ^ 2 / v) → HasDerivAt (fun y => √(y ^ 2 / v)) (mahaSJ eps x v) x) := by
  have hvp : 0 < v := heps.trans_le hv
  have e1 : mahaSqS eps x v = x ^ 2 / v := by simp [mahaSqS, not_lt.2 hv]; ring
  have hd : HasDerivAt (fun y : ℝ => y ^ 2 / v) (2 * x / v) x := by
    simpa using (hasDerivAt_pow 2 x).div_const v
  refine ⟨e1, ?_, by rw [mahaS, e1], fun h => ?_⟩
  · refine hd.congr_deriv ?_
    simp [mahaSqSJ, not_lt.2 hv]; ring
  · have hpos : 0 < x ^ 2 / v := Real.sqrt_pos.1 (heps.trans h)
    have h2 := (Real.hasDerivAt_sqrt hpos.ne').comp x hd
    refine h2.congr_deriv ?_
    simp only [mahaSJ, e1, if_pos h, mahaSqSJ, if_neg (not_lt.2 hv)]
    have hs : √(x ^ 2 / v) ≠ 0 := (heps.trans h).ne'
    simp only [Bool.false_eq_true, if_false]
    field_simp

/-- **C46 is violated** for scalars with a small variance: the variance is replaced by 1, wrong for every non-zero `x`. -/
theorem C46_scalar_wrong (eps x v : ℝ) (hv : 0 < v) (h : v < eps) (heps : eps ≤ 1) (hx : x ≠ 0) : mahaSqS eps x v ≠ x ^ 2 / v := by
  simp only [mahaSqS, if_pos h, mul_one]
  intro e
  rw [eq_div_iff hv.ne'] at e
  have hx2 : x * x ≠ 0 := mul_ne_zero hx hx
  have : v = 1 := mul_left_cancel₀ hx2 (by rw [e]; ring)
  linarith

/-- a covariance that is only filled in its upper triangle meets the hypotheses -/
example : (symU (!![2, 1; 0, 1] : RMat 2 2)).PosDef := by
  have e : symU (!![2, 1; 0, 1] : RMat 2 2) = !![2, 1; 1, 1] := by
    ext i j; fin_cases i <;> fin_cases j <;> rfl
  rw [e, posDef_iff_dotProduct_mulVec]
  refine ⟨?_, fun x hx => ?_⟩
  · ext i j; fin_cases i <;> fin_cases j <;> simp
  · simp only [mulVec, dotProduct, Fin.sum_univ_two, star_trivial, Matrix.cons_val_zero, Matrix.cons_val_one, Matrix.of_apply]
    have h : x 0 ≠ 0 ∨ x 1 ≠ 0 := by
      by_contra hc
      simp only [not_or, not_not] at hc
      exact hx (by funext i; fin_cases i <;> simp [hc.1, hc.2])
    rcases h with h | h
    · have := mul_self_pos.2 h
      nlinarith [sq_nonneg (x 0 + x 1)]
    · have := mul_self_pos.2 h
      by_cases h0 : x 0 = 0
      · simp [h0]; nlinarith
      · have h0' := mul_self_pos.2 h0
        nlinarith [sq_nonneg (x 0 + x 1)]

/-! ### Distances -/

/-- **C47**, metrics: the three distances are symmetric, satisfy the triangle inequality and vanish exactly for equal points. -/
theorem C47_metrics {n} (a b c : RVec n) :
    (euclidean a b = euclidean b a ∧ euclidean a c ≤ euclidean a b + euclidean b c ∧ (euclidean a b = 0 ↔ a = b)) ∧
    (manhattan a b = manhattan b a ∧ manhattan a c ≤ manhattan a b + manhattan b c ∧ (manhattan a b = 0 ↔ a = b)) ∧
    (linfDist a b = linfDist b a ∧ linfDist a c ≤ linfDist a b + linfDist b c ∧ (linfDist a b = 0 ↔ a = b)) := by
  refine ⟨?_, ?_, ?_⟩
  · have e : ∀ a b : RVec n, euclidean a b = dist (WithLp.toLp 2 a) (WithLp.toLp 2 b) := by
      intro a b; rw [dist_eq_norm, euclidean, l2_eq_norm]; rfl
    simp only [e]
    refine ⟨dist_comm _ _, dist_triangle _ _ _, ?_⟩
    rw [dist_eq_zero]
    exact ⟨fun h => by simpa using congrArg WithLp.ofLp h, fun h => by rw [h]⟩
  · refine ⟨?_, ?_, ?_⟩
    · unfold manhattan l1
      exact Finset.sum_congr rfl fun i _ => abs_sub_comm (a i) (b i)
    · unfold manhattan l1
      rw [← Finset.sum_add_distrib]
      exact Finset.sum_le_sum fun i _ => abs_sub_le (a i) (b i) (c i)
    · unfold manhattan l1
      rw [Finset.sum_eq_zero_iff_of_nonneg fun i _ => abs_nonneg _]
      constructor
      · intro h; funext i
        exact sub_eq_zero.1 (abs_eq_zero.1 (h i (Finset.mem_univ i)))
      · rintro rfl i -; simp
  · have e : ∀ a b : RVec n, linfDist a b = dist a b := by
      intro a b; rw [dist_eq_norm, linfDist, linf_eq_norm]
    simp only [e]
    exact ⟨dist_comm _ _, dist_triangle _ _ _, dist_eq_zero⟩

theorem hasJac_sub_left {n} (a b : RVec n) : HasJac (fun y => y - b) (1 : RMat n n) a := by
  intro r
  have := (hasGrad_coord r a).add (hasGrad_const (-b r) a)
  refine (this.congr_J ?_).congr_near (Filter.Eventually.of_forall fun y => by simp [sub_eq_add_neg])
  funext j; simp [Matrix.one_apply, Pi.single_apply, eq_comm]

theorem hasJac_sub_right {n} (a b : RVec n) : HasJac (fun y => a - y) (-1 : RMat n n) b := by
  intro r
  have := ((hasGrad_coord r b).comp_deriv (φ := fun t => a r - t) ((hasDerivAt_id (b r)).const_sub (a r)))
  refine this.congr_J ?_
  funext j
  by_cases h : r = j
  · subst h; simp
  · simp [Matrix.one_apply, Pi.single_apply, h, Ne.symm h]

theorem grad_of_diff {n} {f : RVec n → ℝ} {J a b : RVec n} (h : HasGrad f J (a - b)) :
    HasGrad (fun y => f (y - b)) J a ∧ HasGrad (fun y => f (a - y)) (-J) b := by
  refine ⟨?_, ?_⟩
  · exact ((HasGrad.chain (g := fun y => y - b) (p := a) h (hasJac_sub_left a b))).congr_J (by simp)
  · exact ((HasGrad.chain (g := fun y => a - y) (p := b) h (hasJac_sub_right a b))).congr_J (by simp [vecMul_neg])

/-- **C47** (partial), Jacobians: the exported Jacobians are the derivatives with respect to the first and to the second point, wherever the distance
is differentiable (Euclidean: at distances above `FloatEpsilon()`), and they are opposite. Missing: the Jacobians of smaller Euclidean
distances, which inherit `C43_l2_small_wrong`, and the cosine, below. -/
theorem C47_jacobians_partial {n} (eps : ℝ) (heps : 0 < eps) (a b : RVec (n + 1)) :
    ((euclideanJ eps a b).2 = -(euclideanJ eps a b).1 ∧ (manhattanJ a b).2 = -(manhattanJ a b).1 ∧ (linfDistJ a b).2 = -(linfDistJ a b).1) ∧
    (eps < euclidean a b → HasGrad (fun y => euclidean y b) (euclideanJ eps a b).1 a ∧ HasGrad (fun y => euclidean a y) (euclideanJ eps a b).2 b) ∧
    (DifferentiableAt ℝ l1 (a - b) → HasGrad (fun y => manhattan y b) (manhattanJ a b).1 a ∧ HasGrad (fun y => manhattan a y) (manhattanJ a b).2 b) ∧
    (DifferentiableAt ℝ linf (a - b) → HasGrad (fun y => linfDist y b) (linfDistJ a b).1 a ∧ HasGrad (fun y => linfDist a y) (linfDistJ a b).2 b) := by
  refine ⟨⟨rfl, rfl, rfl⟩, fun h => ?_, fun h => ?_, fun h => ?_⟩
  · have h1 := (C43_l2_partial eps heps (fun y => y - b) 1 a (hasJac_sub_left a b) h).1
    exact grad_of_diff h1
  · exact grad_of_diff (C43_l1 _ h)
  · have h1 := (C43_linf (fun y => y - b) 1 a (hasJac_sub_left a b) h).2.1
    exact grad_of_diff h1

theorem inv_l2_grad {n} {x : RVec n} (h : 0 < l2 x) : HasGrad (fun y => (l2 y)⁻¹) (fun i => -(x i) / (l2 x * l2 x * l2 x)) x := by
  refine ((l2_grad h).comp_deriv (hasDerivAt_inv h.ne')).congr_J ?_
  funext i
  simp only [Pi.smul_apply, smul_eq_mul]
  field_simp

theorem cos_grad {n} {a b : RVec n} (ha : 0 < l2 a) :
    HasGrad (fun y => y ⬝ᵥ b / (l2 y * l2 b)) (fun i => b i / (l2 a * l2 b) - a ⬝ᵥ b * a i / (l2 a * l2 a * l2 a * l2 b)) a := by
  have h1 : HasGrad (fun y : RVec n => b ⬝ᵥ y) b a := hasGrad_dot b a
  have h2 := (h1.mul (inv_l2_grad ha)).comp_deriv (φ := fun t => t / l2 b) ((hasDerivAt_id _).div_const (l2 b))
  refine (h2.congr_J ?_).congr_near (Filter.Eventually.of_forall fun y => ?_)
  · funext i
    simp only [Pi.smul_apply, Pi.add_apply, smul_eq_mul, dotProduct_comm b a]
    by_cases hb : l2 b = 0
    · simp [hb]
    · field_simp
      ring
  · simp only [id]
    rw [dotProduct_comm b y, div_mul_eq_div_div]
    rfl

/-- **C47** (partial), cosine of two vectors whose product of norms is at least `FloatEpsilon2()`: the value and the Jacobian of the first vector are right;
the Jacobian of the second one is right if that is of unit norm or if the vectors are orthogonal. Missing: see `C47_cosine_second_wrong`,
`C47_cosine_small_wrong`, `C47_cosine_scalar_wrong`. -/
theorem C47_cosine_partial {n} (eps2 : ℝ) (heps : 0 < eps2) (a b : RVec n) (h : eps2 ≤ l2 a * l2 b) :
    (cosineJ eps2 a b).1 = a ⬝ᵥ b / (l2 a * l2 b) ∧ HasGrad (fun y => y ⬝ᵥ b / (l2 y * l2 b)) (cosineJ eps2 a b).2.1 a ∧
    (l2 b = 1 ∨ a ⬝ᵥ b = 0 → HasGrad (fun y => a ⬝ᵥ y / (l2 a * l2 y)) (cosineJ eps2 a b).2.2 b) := by
  have hab : 0 < l2 a * l2 b := heps.trans_le h
  have ha : 0 < l2 a := lt_of_le_of_ne (Real.sqrt_nonneg _) fun e => by rw [← e, zero_mul] at hab; exact lt_irrefl _ hab
  have hb : 0 < l2 b := lt_of_le_of_ne (Real.sqrt_nonneg _) fun e => by rw [← e, mul_zero] at hab; exact lt_irrefl _ hab
  simp only [cosineJ, if_neg (not_lt.2 h)]
  refine ⟨trivial, cos_grad ha, fun hc => ?_⟩
  have h1 := cos_grad (a := b) (b := a) hb
  refine (h1.congr_J ?_).congr_near (Filter.Eventually.of_forall fun y => ?_)
  · funext i
    rw [dotProduct_comm b a]
    rcases hc with hc | hc
    · simp [hc]
    · simp [hc, mul_comm (l2 b)]
  · simp only [dotProduct_comm a y, mul_comm (l2 a)]

/-- **C47 is violated** by the Jacobian of the cosine with respect to the second vector, whenever that is not of unit norm and the vectors are not orthogonal. -/
theorem C47_cosine_second_wrong {n} (eps2 : ℝ) (heps : 0 < eps2) (a b : RVec n) (h : eps2 ≤ l2 a * l2 b) (hb1 : l2 b ≠ 1) (hab : a ⬝ᵥ b ≠ 0) :
    DifferentiableAt ℝ (fun y => a ⬝ᵥ y / (l2 a * l2 y)) b ∧ ¬ HasGrad (fun y => a ⬝ᵥ y / (l2 a * l2 y)) (cosineJ eps2 a b).2.2 b := by
  have hp : 0 < l2 a * l2 b := heps.trans_le h
  have ha : 0 < l2 a := lt_of_le_of_ne (Real.sqrt_nonneg _) fun e => by rw [← e, zero_mul] at hp; exact lt_irrefl _ hp
  have hb : 0 < l2 b := lt_of_le_of_ne (Real.sqrt_nonneg _) fun e => by rw [← e, mul_zero] at hp; exact lt_irrefl _ hp
  have h1 : HasGrad (fun y => a ⬝ᵥ y / (l2 a * l2 y)) _ b :=
    (cos_grad (a := b) (b := a) hb).congr_near (Filter.Eventually.of_forall fun y => by simp only [dotProduct_comm a y, mul_comm (l2 a)])
  refine ⟨HasFDerivAt.differentiableAt h1, fun h' => ?_⟩
  have e := h1.unique h'
  obtain ⟨i, -, hi⟩ := Finset.exists_ne_zero_of_sum_ne_zero (show ∑ i, a i * b i ≠ 0 from hab)
  have hbi : b i ≠ 0 := fun hz => hi (by rw [hz, mul_zero])
  have e2 := congrFun e i
  simp only [cosineJ, if_neg (not_lt.2 h), dotProduct_comm b a] at e2
  have e3 : a ⬝ᵥ b * b i / (l2 b * l2 b * l2 b * l2 a) = a ⬝ᵥ b * b i / (l2 a * l2 b * l2 b) := by
    rw [mul_comm (l2 b) (l2 a)] at e2
    linarith
  rw [div_eq_div_iff (by positivity) (by positivity)] at e3
  have h4 : a ⬝ᵥ b * b i ≠ 0 := mul_ne_zero hab hbi
  have h5 := mul_left_cancel₀ h4 e3
  have h6 : l2 a * l2 b * l2 b ≠ 0 := by positivity
  apply hb1
  have : l2 a * l2 b * l2 b * l2 b = l2 a * l2 b * l2 b * 1 := by rw [mul_one]; linarith
  exact mul_left_cancel₀ h6 this

/-- **C47 is violated** by the cosine of vectors whose product of norms is below `FloatEpsilon2()`: 0 is returned even for parallel vectors, whose cosine
is 1. -/
theorem C47_cosine_small_wrong {n} (eps2 : ℝ) (a : RVec n) (h0 : 0 < l2 a) (h : l2 a * l2 a < eps2) :
    (cosineJ eps2 a a).1 = 0 ∧ a ⬝ᵥ a / (l2 a * l2 a) = 1 := by
  refine ⟨by simp [cosineJ, h], ?_⟩
  have : l2 a * l2 a = a ⬝ᵥ a := Real.mul_self_sqrt (Finset.sum_nonneg fun i _ => mul_self_nonneg _)
  rw [← this, div_self (by positivity)]

/-- **C47 is violated** by the cosine of scalars, which is always 0 instead of 1 or -1, and by the cosine of vectors without Jacobians, which is
not a number but an empty vector. -/
theorem C47_cosine_scalar_wrong (a b : ℝ) (ha : a ≠ 0) (hb : b ≠ 0) :
    cosineS a b = 0 ∧ cosineSJ a b = (0, 0, 0) ∧ |a * b / (|a| * |b|)| = 1 := by
  refine ⟨rfl, rfl, ?_⟩
  rw [abs_div, abs_mul, abs_mul, abs_abs, abs_abs, div_self]
  exact mul_ne_zero (abs_ne_zero.2 ha) (abs_ne_zero.2 hb)

/-- the hypotheses of the violation are met by a = (1, 0), b = (2, 0) -/
example : l2 ![1, 0] = 1 ∧ l2 ![2, 0] = 2 ∧ (![1, 0] : RVec 2) ⬝ᵥ ![2, 0] = 2 := by
  refine ⟨by simp [l2], ?_, by simp⟩
  simp [l2]

end Loss
end Verif
