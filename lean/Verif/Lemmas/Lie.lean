import Verif.Model.Lie
/-!
# The exponential maps of rotations and poses
-/

namespace Verif
open Matrix NormedSpace

section
variable {m : Type} [Fintype m] [DecidableEq m]

theorem exp_mul_exp_neg (A : Matrix m m ℝ) : exp A * exp (-A) = 1 := by
  rw [← Matrix.exp_add_of_commute _ _ (Commute.neg_right (Commute.refl A)), add_neg_cancel, NormedSpace.exp_zero]

theorem exp_neg_mul_exp (A : Matrix m m ℝ) : exp (-A) * exp A = 1 := by
  have := exp_mul_exp_neg (-A)
  rwa [neg_neg] at this

set_option backward.isDefEq.respectTransparency false in
theorem semiconj_exp {x a b : Matrix m m ℝ} (h : x * a = b * x) : x * exp a = exp b * x :=
  open scoped Norms.Operator in (SemiconjBy.exp_right (𝔸 := Matrix m m ℝ) (x := x) (a := a) (b := b) h)

theorem exp_det_pos (A : Matrix m m ℝ) : 0 < (exp A).det := by
  have h : exp A = exp ((1 / 2 : ℝ) • A) * exp ((1 / 2 : ℝ) • A) := by
    rw [← Matrix.exp_add_of_commute _ _ (Commute.refl _), ← add_smul]; norm_num
  have h0 : (exp ((1 / 2 : ℝ) • A)).det ≠ 0 := by
    intro h0
    have := congrArg Matrix.det (exp_mul_exp_neg ((1 / 2 : ℝ) • A))
    rw [det_mul, h0, zero_mul, det_one] at this
    exact zero_ne_one this
  rw [h, det_mul]
  exact mul_self_pos.2 h0

end

theorem hat3_transpose (w : Fin 3 → ℝ) : (hat3 w)ᵀ = -hat3 w := by
  ext i j; fin_cases i <;> fin_cases j <;> simp [hat3]

theorem hat3_neg (w : Fin 3 → ℝ) : hat3 (fun i => -w i) = -hat3 w := by
  ext i j; fin_cases i <;> fin_cases j <;> simp [hat3]

theorem exp_hat3 (w : Fin 3 → ℝ) : (exp (hat3 w))ᵀ * exp (hat3 w) = 1 ∧ (exp (hat3 w)).det = 1 := by
  have h : (exp (hat3 w))ᵀ * exp (hat3 w) = 1 := by
    rw [← Matrix.exp_transpose, hat3_transpose, exp_neg_mul_exp]
  refine ⟨h, ?_⟩
  have hd := congrArg Matrix.det h
  rw [det_mul, det_transpose, det_one] at hd
  have := exp_det_pos (hat3 w)
  nlinarith

variable {k : ℕ} {e : Fin 3 ⊕ (Fin 3 × Fin k) ≃ Fin (3 + 3 * k)}

theorem hatPose_neg (v : Fin (3 + 3 * k) → ℝ) : hatPose e (fun i => -v i) = -hatPose e v := by
  rw [hatPose, hat3_neg, hatPose, fromBlocks_neg, neg_zero, neg_zero]
  rfl

theorem exp_hatPose (v : Fin (3 + 3 * k) → ℝ) :
    ∃ (R : Matrix (Fin 3) (Fin 3) ℝ) (t : Matrix (Fin 3) (Fin k) ℝ), exp (hatPose e v) = fromBlocks R t 0 1 ∧ Rᵀ * R = 1 ∧ R.det = 1 := by
  set A := hatPose e v with hA
  set R := (exp A).toBlocks₁₁
  set t := (exp A).toBlocks₁₂
  have hbl : exp A = fromBlocks R t (exp A).toBlocks₂₁ (exp A).toBlocks₂₂ := (fromBlocks_toBlocks _).symm
  -- the lower rows
  have h1 : (fromBlocks 0 0 0 1 : PoseMat k) * exp A = fromBlocks 0 0 0 1 := by
    have := semiconj_exp (x := (fromBlocks 0 0 0 1 : PoseMat k)) (a := A) (b := 0) (by
      rw [hA, hatPose, fromBlocks_multiply]; simp)
    rwa [NormedSpace.exp_zero, one_mul] at this
  rw [hbl, fromBlocks_multiply] at h1
  simp only [zero_mul, one_mul, zero_add, Matrix.zero_mul, Matrix.one_mul] at h1
  obtain ⟨-, -, hC, hD⟩ := (fromBlocks_inj).1 h1
  rw [hC, hD] at hbl
  -- the rotation
  have h2 : (fromBlocks 1 0 0 0 : PoseMat k) * exp (-Aᵀ) = exp A * fromBlocks 1 0 0 0 := semiconj_exp (by
    rw [hA, hatPose, fromBlocks_transpose, fromBlocks_neg, fromBlocks_multiply, fromBlocks_multiply, hat3_transpose]; simp)
  have h3 : exp A * fromBlocks 1 0 0 0 * (exp A)ᵀ = (fromBlocks 1 0 0 0 : PoseMat k) := by
    rw [← h2, mul_assoc, ← Matrix.exp_transpose, exp_neg_mul_exp, mul_one]
  rw [hbl, fromBlocks_transpose, fromBlocks_multiply, fromBlocks_multiply] at h3
  have h4 := ((fromBlocks_inj).1 h3).1
  simp only [Matrix.mul_one, Matrix.mul_zero, add_zero, Matrix.zero_mul] at h4
  have h5 := exp_det_pos A
  rw [hbl, det_fromBlocks_zero₂₁, det_one, mul_one] at h5
  refine ⟨R, t, hbl, mul_eq_one_comm.1 h4, ?_⟩
  have hd := congrArg Matrix.det h4
  rw [det_mul, det_transpose, det_one] at hd
  nlinarith

theorem halfIm_neg (w : Fin 3 → ℝ) : halfIm (fun i => -w i) = -halfIm w := by
  refine QuaternionAlgebra.ext ?_ ?_ ?_ ?_
  · exact (neg_zero (G := ℝ)).symm
  · exact neg_div _ (w 0)
  · exact neg_div _ (w 1)
  · exact neg_div _ (w 2)

theorem norm_exp_halfIm (w : Fin 3 → ℝ) : ‖exp (halfIm w)‖ = 1 := by
  rw [Quaternion.norm_exp]
  have : (halfIm w).re = 0 := rfl
  rw [this, NormedSpace.exp_zero, norm_one]

theorem quat_exp_cancel (q : Quaternion ℝ) : exp q * exp (-q) = 1 := by
  let +nondep : NormedAlgebra ℚ (Quaternion ℝ) := .restrictScalars ℚ ℝ (Quaternion ℝ)
  rw [← NormedSpace.exp_add_of_commute (Commute.neg_right (Commute.refl q)), add_neg_cancel, NormedSpace.exp_zero]

end Verif
