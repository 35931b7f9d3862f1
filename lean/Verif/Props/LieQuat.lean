import Verif.Props.Lie
import Mathlib.Analysis.SpecialFunctions.Exponential
import Mathlib.Analysis.Calculus.MeanValue
/-!
# C87: quaternions and rotation matrices
-/

namespace Verif
open Matrix NormedSpace FloatOps

/-- the quaternion without real part of a 3-vector -/
def imQuat (v : Fin 3 → ℝ) : Quaternion ℝ := ⟨0, v 0, v 1, v 2⟩

/-- the rotation matrix of a unit quaternion (`Eigen::Quaternion::toRotationMatrix`, written homogeneously) -/
def quatMat (q : Quaternion ℝ) : Matrix (Fin 3) (Fin 3) ℝ :=
  !![q.re ^ 2 + q.imI ^ 2 - q.imJ ^ 2 - q.imK ^ 2, 2 * (q.imI * q.imJ - q.re * q.imK), 2 * (q.imI * q.imK + q.re * q.imJ);
     2 * (q.imI * q.imJ + q.re * q.imK), q.re ^ 2 - q.imI ^ 2 + q.imJ ^ 2 - q.imK ^ 2, 2 * (q.imJ * q.imK - q.re * q.imI);
     2 * (q.imI * q.imK - q.re * q.imJ), 2 * (q.imJ * q.imK + q.re * q.imI), q.re ^ 2 - q.imI ^ 2 - q.imJ ^ 2 + q.imK ^ 2]

section
variable (v : Fin 3 → ℝ)
@[simp] theorem imQuat_re : (imQuat v).re = 0 := rfl
@[simp] theorem imQuat_imI : (imQuat v).imI = v 0 := rfl
@[simp] theorem imQuat_imJ : (imQuat v).imJ = v 1 := rfl
@[simp] theorem imQuat_imK : (imQuat v).imK = v 2 := rfl
@[simp] theorem halfIm_re : (halfIm v).re = 0 := rfl
@[simp] theorem halfIm_imI : (halfIm v).imI = v 0 / 2 := rfl
@[simp] theorem halfIm_imJ : (halfIm v).imJ = v 1 / 2 := rfl
@[simp] theorem halfIm_imK : (halfIm v).imK = v 2 / 2 := rfl
end

/-- `quatMat q` turns `v` into `q v q̄` -/
theorem quatMat_conj (q : Quaternion ℝ) (v : Fin 3 → ℝ) : q * imQuat v * star q = imQuat (quatMat q *ᵥ v) := by
  ext <;> simp [quatMat, Matrix.mulVec, dotProduct, Fin.sum_univ_three] <;> ring

theorem imQuat_inj {u v : Fin 3 → ℝ} (h : imQuat u = imQuat v) : u = v := by
  funext i
  fin_cases i
  · exact congrArg QuaternionAlgebra.imI h
  · exact congrArg QuaternionAlgebra.imJ h
  · exact congrArg QuaternionAlgebra.imK h

theorem quatMat_mul (p q : Quaternion ℝ) : quatMat (p * q) = quatMat p * quatMat q := by
  have h : ∀ v, quatMat (p * q) *ᵥ v = (quatMat p * quatMat q) *ᵥ v := fun v => by
    apply imQuat_inj
    rw [← quatMat_conj, ← Matrix.mulVec_mulVec, ← quatMat_conj, ← quatMat_conj, star_mul]
    simp only [mul_assoc]
  exact Matrix.mulVec_injective (funext h)

theorem quatMat_one : quatMat 1 = 1 := by
  ext i j; fin_cases i <;> fin_cases j <;> simp [quatMat, Quaternion.re_one, Quaternion.imI_one, Quaternion.imJ_one, Quaternion.imK_one]

/-- the commutator with half the rotation vector is the cross product -/
theorem halfIm_comm (w v : Fin 3 → ℝ) : halfIm w * imQuat v - imQuat v * halfIm w = imQuat (hat3 w *ᵥ v) := by
  ext <;> simp [hat3, Matrix.mulVec, dotProduct, Fin.sum_univ_three] <;> ring

/-- `imQuat (A v)` as a linear function of the matrix -/
def applyL (v : Fin 3 → ℝ) : Matrix (Fin 3) (Fin 3) ℝ →ₗ[ℝ] Quaternion ℝ where
  toFun A := imQuat (A *ᵥ v)
  map_add' A B := by ext <;> simp [Matrix.add_mulVec]
  map_smul' a A := by ext <;> simp [Matrix.smul_mulVec]

set_option backward.isDefEq.respectTransparency false in
open scoped Norms.Operator in
theorem hasDerivAt_apply_exp (K : Matrix (Fin 3) (Fin 3) ℝ) (v : Fin 3 → ℝ) (t : ℝ) :
    HasDerivAt (fun t : ℝ => imQuat (exp (t • K) *ᵥ v)) (imQuat (K *ᵥ (exp (t • K) *ᵥ v))) t := by
  have h1 : HasDerivAt (fun t : ℝ => exp (t • K)) (K * exp (t • K)) t := hasDerivAt_exp_smul_const' K t
  have h2 := (LinearMap.toContinuousLinearMap (applyL v)).hasFDerivAt.comp_hasDerivAt t h1
  rw [Matrix.mulVec_mulVec]
  exact h2

theorem exp_halfIm_conj (w v : Fin 3 → ℝ) : exp (halfIm w) * imQuat (exp (-hat3 w) *ᵥ v) * exp (-halfIm w) = imQuat v := by
  let Φ : ℝ → Quaternion ℝ := fun t => exp (t • halfIm w) * imQuat (exp (t • -hat3 w) *ᵥ v) * exp (t • -halfIm w)
  have hΦ : ∀ t, HasDerivAt Φ 0 t := by
    intro t
    have h1 : HasDerivAt (fun t : ℝ => exp (t • halfIm w)) (exp (t • halfIm w) * halfIm w) t := hasDerivAt_exp_smul_const (halfIm w) t
    have h2 := hasDerivAt_apply_exp (-hat3 w) v t
    have h3 : HasDerivAt (fun t : ℝ => exp (t • -halfIm w)) (-halfIm w * exp (t • -halfIm w)) t := hasDerivAt_exp_smul_const' (-halfIm w) t
    refine ((h1.mul h2).mul h3).congr_deriv ?_
    have h4 := halfIm_comm w (exp (t • -hat3 w) *ᵥ v)
    have h5 : imQuat (-hat3 w *ᵥ (exp (t • -hat3 w) *ᵥ v)) = -imQuat (hat3 w *ᵥ (exp (t • -hat3 w) *ᵥ v)) := by
      ext <;> simp [Matrix.neg_mulVec]
    rw [h5, ← h4]
    simp only [Pi.mul_apply]
    noncomm_ring
  have hc : Φ 1 = Φ 0 := is_const_of_deriv_eq_zero (fun t => (hΦ t).differentiableAt) (fun t => (hΦ t).deriv) 1 0
  simp only [Φ, one_smul, zero_smul, NormedSpace.exp_zero, one_mul, mul_one, Matrix.one_mulVec] at hc
  exact hc

/-- the exponential of half the rotation vector, as a matrix, is the exponential of the skew-symmetric matrix -/
theorem quatMat_exp (w : Fin 3 → ℝ) : quatMat (exp (halfIm w)) = exp (hat3 w) := by
  have hs : star (exp (halfIm w)) = exp (-halfIm w) := by
    have h1 : star (halfIm w) = -halfIm w := by ext <;> simp
    rw [← h1, NormedSpace.star_exp]
  have h : ∀ v, quatMat (exp (halfIm w)) *ᵥ v = exp (hat3 w) *ᵥ v := fun v => by
    apply imQuat_inj
    rw [← quatMat_conj, hs, ← exp_halfIm_conj w (exp (hat3 w) *ᵥ v), Matrix.mulVec_mulVec, exp_neg_mul_exp, Matrix.one_mulVec]
  exact Matrix.mulVec_injective (funext h)

/-- **C87**, quaternions and matrices: the unit quaternions in which the libraries store the rotations move as the rotation matrices do. -/
theorem C87_quat_plus (q : Quaternion ℝ) (d : DVec ℝ) : so3Plus (quatMat q) d = quatMat (quatPlus q d) := by
  unfold so3Plus quatPlus
  split
  · rw [quatMat_mul, quatMat_exp]
  · rfl

theorem quatMat_star (q : Quaternion ℝ) : quatMat (star q) = (quatMat q)ᵀ := by
  ext i j; fin_cases i <;> fin_cases j <;> simp [quatMat] <;> ring

theorem quatMat_det (q : Quaternion ℝ) : (quatMat q).det = (q.re ^ 2 + q.imI ^ 2 + q.imJ ^ 2 + q.imK ^ 2) ^ 3 := by
  rw [Matrix.det_fin_three]
  simp only [quatMat, Matrix.of_apply, Matrix.cons_val]
  ring

theorem quat_normSq {q : Quaternion ℝ} : ‖q‖ ^ 2 = q.re ^ 2 + q.imI ^ 2 + q.imJ ^ 2 + q.imK ^ 2 := by
  rw [pow_two, ← Quaternion.normSq_eq_norm_mul_self, Quaternion.normSq_def']

/-- the matrix of a unit quaternion is a rotation -/
theorem quatMat_rotation {q : Quaternion ℝ} (h : ‖q‖ = 1) : IsRotation (quatMat q) := by
  have h2 : q.re ^ 2 + q.imI ^ 2 + q.imJ ^ 2 + q.imK ^ 2 = 1 := by rw [← quat_normSq, h, one_pow]
  refine ⟨?_, by rw [quatMat_det, h2, one_pow]⟩
  rw [← quatMat_star, ← quatMat_mul]
  have : star q * q = 1 := by
    rw [Quaternion.star_mul_self, Quaternion.normSq_def', h2]; rfl
  rw [this, quatMat_one]

/-- a rotation is its own matrix of cofactors -/
theorem IsRotation.cof {A : Matrix (Fin 3) (Fin 3) ℝ} (h : IsRotation A) : A.adjugate = Aᵀ := by
  have h1 := Matrix.adjugate_mul A
  rw [h.2, one_smul] at h1
  have h2 : A * Aᵀ = 1 := mul_eq_one_comm.1 h.1
  calc A.adjugate = A.adjugate * (A * Aᵀ) := by rw [h2, mul_one]
    _ = _ := by rw [← mul_assoc, h1, one_mul]

theorem rotation_trace {A : Matrix (Fin 3) (Fin 3) ℝ} (h : IsRotation A) (ht : 0 < 1 + A 0 0 + A 1 1 + A 2 2) : ∃ q : Quaternion ℝ, ‖q‖ = 1 ∧ quatMat q = A := by
  have hc := h.cof
  rw [Matrix.adjugate_fin_three] at hc
  have c : ∀ i j, _ = Aᵀ i j := fun i j => congrFun (congrFun hc i) j
  have e1 : ∀ i j, (Aᵀ * A) i j = (1 : Matrix (Fin 3) (Fin 3) ℝ) i j := fun i j => congrFun (congrFun h.1 i) j
  have hr : A * Aᵀ = 1 := mul_eq_one_comm.1 h.1
  have e2 : ∀ i j, (A * Aᵀ) i j = (1 : Matrix (Fin 3) (Fin 3) ℝ) i j := fun i j => congrFun (congrFun hr i) j
  have c00 := c 0 0; have c01 := c 0 1; have c02 := c 0 2
  have c10 := c 1 0; have c11 := c 1 1; have c12 := c 1 2
  have c20 := c 2 0; have c21 := c 2 1; have c22 := c 2 2
  have r00 := e2 0 0; have r01 := e2 0 1; have r02 := e2 0 2; have r11 := e2 1 1; have r12 := e2 1 2; have r22 := e2 2 2
  have k00 := e1 0 0; have k01 := e1 0 1; have k02 := e1 0 2; have k11 := e1 1 1; have k12 := e1 1 2; have k22 := e1 2 2
  simp [Matrix.mul_apply, Fin.sum_univ_three] at c00 c01 c02 c10 c11 c12 c20 c21 c22 r00 r01 r02 r11 r12 r22 k00 k01 k02 k11 k12 k22
  clear c e1 e2 hc
  set T := 1 + A 0 0 + A 1 1 + A 2 2 with hT
  have bb : (A 2 1 - A 1 2) * (A 2 1 - A 1 2) = T * (1 + A 0 0 - A 1 1 - A 2 2) := by rw [hT]; linear_combination r11 + r22 - k00 + 2 * c00
  have cc : (A 0 2 - A 2 0) * (A 0 2 - A 2 0) = T * (1 - A 0 0 + A 1 1 - A 2 2) := by rw [hT]; linear_combination r00 + r22 - k11 + 2 * c11
  have dd : (A 1 0 - A 0 1) * (A 1 0 - A 0 1) = T * (1 - A 0 0 - A 1 1 + A 2 2) := by rw [hT]; linear_combination r00 + r11 - k22 + 2 * c22
  have bc : (A 2 1 - A 1 2) * (A 0 2 - A 2 0) = T * (A 0 1 + A 1 0) := by rw [hT]; linear_combination c01 + c10 - k01 - r01
  have bd : (A 2 1 - A 1 2) * (A 1 0 - A 0 1) = T * (A 0 2 + A 2 0) := by rw [hT]; linear_combination c20 + c02 - k02 - r02
  have cd : (A 0 2 - A 2 0) * (A 1 0 - A 0 1) = T * (A 1 2 + A 2 1) := by rw [hT]; linear_combination c12 + c21 - k12 - r12
  have hs : 0 < √T := Real.sqrt_pos.2 ht
  have hss : √T * √T = T := Real.mul_self_sqrt ht.le
  have prod : ∀ x y z, x * y = T * z → x / (2 * √T) * (y / (2 * √T)) = z / 4 := by
    intro x y z hz
    rw [div_mul_div_comm, hz, show 2 * √T * (2 * √T) = 4 * (√T * √T) by ring, hss]
    field_simp
  have proda : ∀ x, √T / 2 * (x / (2 * √T)) = x / 4 := by
    intro x
    field_simp
    ring
  have aa : √T / 2 * (√T / 2) = T / 4 := by rw [div_mul_div_comm, hss]; norm_num
  replace bb := prod _ _ _ bb
  replace cc := prod _ _ _ cc
  replace dd := prod _ _ _ dd
  replace bc := prod _ _ _ bc
  replace bd := prod _ _ _ bd
  replace cd := prod _ _ _ cd
  have ab := proda (A 2 1 - A 1 2)
  have ac := proda (A 0 2 - A 2 0)
  have ad := proda (A 1 0 - A 0 1)
  generalize √T / 2 = qa at *
  generalize (A 2 1 - A 1 2) / (2 * √T) = qb at *
  generalize (A 0 2 - A 2 0) / (2 * √T) = qc at *
  generalize (A 1 0 - A 0 1) / (2 * √T) = qd at *
  let q : Quaternion ℝ := ⟨qa, qb, qc, qd⟩
  refine ⟨q, ?_, ?_⟩
  · have h1 : ‖q‖ ^ 2 = 1 := by
      rw [quat_normSq]
      show qa ^ 2 + qb ^ 2 + qc ^ 2 + qd ^ 2 = 1
      linear_combination aa + bb + cc + dd + hT / 4
    exact (pow_eq_one_iff_of_nonneg (norm_nonneg q) two_ne_zero).1 h1
  · have e : quatMat q = !![qa ^ 2 + qb ^ 2 - qc ^ 2 - qd ^ 2, 2 * (qb * qc - qa * qd), 2 * (qb * qd + qa * qc);
       2 * (qb * qc + qa * qd), qa ^ 2 - qb ^ 2 + qc ^ 2 - qd ^ 2, 2 * (qc * qd - qa * qb);
       2 * (qb * qd - qa * qc), 2 * (qc * qd + qa * qb), qa ^ 2 - qb ^ 2 - qc ^ 2 + qd ^ 2] := rfl
    rw [e]
    ext i j
    fin_cases i <;> fin_cases j <;> simp
    · linear_combination aa + bb - cc - dd + hT / 4
    · linear_combination 2 * (bc - ad)
    · linear_combination 2 * (bd + ac)
    · linear_combination 2 * (bc + ad)
    · linear_combination aa - bb + cc - dd + hT / 4
    · linear_combination 2 * (cd - ab)
    · linear_combination 2 * (bd - ac)
    · linear_combination 2 * (cd + ab)
    · linear_combination aa - bb - cc + dd + hT / 4

/-- every rotation matrix is the matrix of a unit quaternion -/
theorem rotation_quat {A : Matrix (Fin 3) (Fin 3) ℝ} (h : IsRotation A) : ∃ q : Quaternion ℝ, ‖q‖ = 1 ∧ quatMat q = A := by
  -- one of the four sums is positive
  have turn : ∀ p : Quaternion ℝ, ‖p‖ = 1 → (∃ q : Quaternion ℝ, ‖q‖ = 1 ∧ quatMat q = A * quatMat p) → ∃ q : Quaternion ℝ, ‖q‖ = 1 ∧ quatMat q = A := by
    rintro p hp ⟨q, hq, e⟩
    refine ⟨q * star p, by rw [norm_mul, norm_star, hq, hp, one_mul], ?_⟩
    rw [quatMat_mul, e, Matrix.mul_assoc, quatMat_star]
    have h1 : quatMat p * (quatMat p)ᵀ = 1 := mul_eq_one_comm.1 (quatMat_rotation hp).1
    rw [h1, Matrix.mul_one]
  have unit : ∀ p : Quaternion ℝ, p.re ^ 2 + p.imI ^ 2 + p.imJ ^ 2 + p.imK ^ 2 = 1 → ‖p‖ = 1 := fun p hp =>
    (pow_eq_one_iff_of_nonneg (norm_nonneg p) two_ne_zero).1 (by rw [quat_normSq, hp])
  have half : ∀ p : Quaternion ℝ, p.re ^ 2 + p.imI ^ 2 + p.imJ ^ 2 + p.imK ^ 2 = 1 →
      0 < 1 + (A * quatMat p) 0 0 + (A * quatMat p) 1 1 + (A * quatMat p) 2 2 → ∃ q : Quaternion ℝ, ‖q‖ = 1 ∧ quatMat q = A := fun p hp ht =>
    turn p (unit p hp) (rotation_trace (h.mul (quatMat_rotation (unit p hp))) ht)
  by_cases h0 : 0 < 1 + A 0 0 + A 1 1 + A 2 2
  · exact rotation_trace h h0
  by_cases h1 : 0 < 1 + A 0 0 - A 1 1 - A 2 2
  · refine half ⟨0, 1, 0, 0⟩ (by norm_num) ?_
    simp [quatMat, Matrix.mul_apply, Fin.sum_univ_three]
    linarith
  by_cases h2 : 0 < 1 - A 0 0 + A 1 1 - A 2 2
  · refine half ⟨0, 0, 1, 0⟩ (by norm_num) ?_
    simp [quatMat, Matrix.mul_apply, Fin.sum_univ_three]
    linarith
  · refine half ⟨0, 0, 0, 1⟩ (by norm_num) ?_
    simp [quatMat, Matrix.mul_apply, Fin.sum_univ_three]
    linarith

theorem norm_halfIm (w : Fin 3 → ℝ) : ‖halfIm w‖ ^ 2 = (w 0 ^ 2 + w 1 ^ 2 + w 2 ^ 2) / 4 := by
  rw [quat_normSq]
  simp
  ring

/-- every unit quaternion is the exponential of half a rotation vector whose length is twice the angle of its real part -/
theorem quat_log {q : Quaternion ℝ} (h : ‖q‖ = 1) : ∃ w : Fin 3 → ℝ, exp (halfIm w) = q ∧ w 0 ^ 2 + w 1 ^ 2 + w 2 ^ 2 = (2 * Real.arccos q.re) ^ 2 := by
  have h2 : q.re ^ 2 + q.imI ^ 2 + q.imJ ^ 2 + q.imK ^ 2 = 1 := by rw [← quat_normSq, h, one_pow]
  have ha1 : q.re ≤ 1 := by nlinarith [sq_nonneg q.imI, sq_nonneg q.imJ, sq_nonneg q.imK]
  have ha2 : -1 ≤ q.re := by nlinarith [sq_nonneg q.imI, sq_nonneg q.imJ, sq_nonneg q.imK]
  have hcos := Real.cos_arccos ha2 ha1
  have hθ0 := Real.arccos_nonneg q.re
  have hsin : Real.sin (Real.arccos q.re) ^ 2 = q.imI ^ 2 + q.imJ ^ 2 + q.imK ^ 2 := by
    have := Real.sin_sq_add_cos_sq (Real.arccos q.re)
    rw [hcos] at this
    linarith
  have hsin0 : 0 ≤ Real.sin (Real.arccos q.re) := Real.sin_nonneg_of_nonneg_of_le_pi hθ0 (Real.arccos_le_pi _)
  set θ := Real.arccos q.re
  have key : ∀ w : Fin 3 → ℝ, w 0 ^ 2 + w 1 ^ 2 + w 2 ^ 2 = (2 * θ) ^ 2 → (∀ i, Real.sin θ / θ * (w i / 2) = ![q.imI, q.imJ, q.imK] i) →
      ∃ w : Fin 3 → ℝ, exp (halfIm w) = q ∧ w 0 ^ 2 + w 1 ^ 2 + w 2 ^ 2 = (2 * θ) ^ 2 := by
    intro w hw hi
    refine ⟨w, ?_, hw⟩
    have hn : ‖halfIm w‖ = θ := by
      have := norm_halfIm w
      rw [hw] at this
      exact (pow_left_inj₀ (norm_nonneg _) hθ0 two_ne_zero).1 (by rw [this]; ring)
    rw [Quaternion.exp_of_re_eq_zero _ rfl, hn, hcos]
    have h0 := hi 0
    have h1 := hi 1
    have h2 := hi 2
    simp at h0 h1 h2
    ext <;> simp [h0, h1, h2]
  rcases hsin0.eq_or_lt with h0 | h0
  · rw [← h0] at hsin
    have hI : q.imI = 0 := by nlinarith [sq_nonneg q.imI, sq_nonneg q.imJ, sq_nonneg q.imK]
    have hJ : q.imJ = 0 := by nlinarith [sq_nonneg q.imI, sq_nonneg q.imJ, sq_nonneg q.imK]
    have hK : q.imK = 0 := by nlinarith [sq_nonneg q.imI, sq_nonneg q.imJ, sq_nonneg q.imK]
    refine key ![2 * θ, 0, 0] (by simp) fun i => ?_
    rw [← h0, hI, hJ, hK]
    fin_cases i <;> simp
  · have hθ : θ ≠ 0 := by rintro h1; rw [h1, Real.sin_zero] at h0; exact lt_irrefl _ h0
    have hs := h0.ne'
    refine key (fun i => 2 * θ / Real.sin θ * ![q.imI, q.imJ, q.imK] i) ?_ fun i => ?_
    · simp
      have : ∀ x y z : ℝ, (2 * θ / Real.sin θ * x) ^ 2 + (2 * θ / Real.sin θ * y) ^ 2 + (2 * θ / Real.sin θ * z) ^ 2 = (2 * θ) ^ 2 * ((x ^ 2 + y ^ 2 + z ^ 2) / Real.sin θ ^ 2) := by
        intros; ring
      rw [this, ← hsin, div_self (pow_ne_zero 2 hs), mul_one]
    · field_simp

theorem quatMat_neg (q : Quaternion ℝ) : quatMat (-q) = quatMat q := by
  ext i j; fin_cases i <;> fin_cases j <;> simp [quatMat]

theorem rotation_log {A : Matrix (Fin 3) (Fin 3) ℝ} (h : IsRotation A) : ∃ w : Fin 3 → ℝ, exp (hat3 w) = A ∧ w 0 ^ 2 + w 1 ^ 2 + w 2 ^ 2 ≤ Real.pi ^ 2 := by
  obtain ⟨q, hq, e, hre⟩ : ∃ q : Quaternion ℝ, ‖q‖ = 1 ∧ quatMat q = A ∧ 0 ≤ q.re := by
    obtain ⟨q, hq, e⟩ := rotation_quat h
    rcases le_total 0 q.re with h0 | h0
    · exact ⟨q, hq, e, h0⟩
    · exact ⟨-q, by rw [norm_neg, hq], by rw [quatMat_neg, e], by simpa using h0⟩
  obtain ⟨w, hw, hn⟩ := quat_log hq
  refine ⟨w, by rw [← quatMat_exp, hw, e], ?_⟩
  rw [hn]
  have h1 := Real.arccos_le_pi_div_two.2 hre
  have h2 := Real.arccos_nonneg q.re
  nlinarith [Real.pi_pos]

/-- **C87**, all rotations are within reach: from every rotation every other one is reached by one step of length at most `π`; the same for unit
quaternions with `2 π`. -/
theorem C87_reach :
    (∀ x y, IsRotation x → IsRotation y → ∃ d : Vec ℝ 3, so3Plus x ⟨3, d⟩ = y ∧ dotR d d ≤ Real.pi ^ 2) ∧
    ∀ x y : Quaternion ℝ, ‖x‖ = 1 → ‖y‖ = 1 → ∃ d : Vec ℝ 3, quatPlus x ⟨3, d⟩ = y ∧ dotR d d ≤ (2 * Real.pi) ^ 2 := by
  constructor
  · intro x y hx hy
    have hxx : x * xᵀ = 1 := mul_eq_one_comm.1 hx.1
    have hxt : IsRotation xᵀ := ⟨by rw [transpose_transpose, hxx], by rw [det_transpose, hx.2]⟩
    obtain ⟨w, hw, hn⟩ := rotation_log (hxt.mul hy)
    refine ⟨w, ?_, ?_⟩
    · simp only [so3Plus, dif_pos]
      show x * exp (hat3 w) = y
      rw [hw, ← Matrix.mul_assoc, hxx, Matrix.one_mul]
    · simpa [dotR, Fin.sum_univ_three, ← pow_two] using hn
  · intro x y hx hy
    obtain ⟨w, hw, hn⟩ := quat_log (q := star x * y) (by rw [norm_mul, norm_star, hx, hy, one_mul])
    refine ⟨w, ?_, ?_⟩
    · simp only [quatPlus, dif_pos]
      show x * exp (halfIm w) = y
      rw [hw, ← mul_assoc, Quaternion.self_mul_star, Quaternion.normSq_eq_norm_mul_self, hx]
      simp
    · have h1 := Real.arccos_le_pi (star x * y).re
      have h2 := Real.arccos_nonneg (star x * y).re
      have : dotR w w ≤ (2 * Real.arccos (star x * y).re) ^ 2 := by
        rw [← hn]; simp [dotR, Fin.sum_univ_three, ← pow_two]
      nlinarith

section
variable {R W : Type} {so : SolverOpts ℝ} {L : LinAlg ℝ} {o : Options ℝ W (DVec ℝ)}
variable {P : Problem ℝ R W (Matrix (Fin 3) (Fin 3) ℝ)} {P' : Problem ℝ R W (Quaternion ℝ)}

/-- **C87**, quaternions and matrices: a run on unit quaternions is the run on the rotation matrices they stand for: same steps, same costs, same reasons to stop. -/
theorem C87_quat_runs (hp : P.plusEq = so3Plus) (hp' : P'.plusEq = quatPlus) (hd : P.dims = P'.dims) (hy : ∀ q, P.dynDims (quatMat q) = P'.dynDims q)
    (hf : ∀ w q, P.acc.full w (quatMat q) = P'.acc.full w q) (he : ∀ w q, P.acc.eval w (quatMat q) = P'.acc.eval w q)
    (hc : P.clock = P'.clock) (ha : P.alloc = P'.alloc) (h1 : P.ratio1 = P'.ratio1) (fuel : Nat) (mi : Int) (w : W) (q : Quaternion ℝ) :
    (∀ s, optimizeAcc (gnEnv so L P) o fuel mi w s (quatMat q) = (optimizeAcc (gnEnv so L P') o fuel mi w s q).map (LoopSt.move quatMat)) ∧
    (∀ s, optimizeAcc (lmEnv so L P) o fuel mi w s (quatMat q) = (optimizeAcc (lmEnv so L P') o fuel mi w s q).map (LoopSt.move quatMat)) ∧
    ∀ s, optimizeAcc (gdEnv so P) o fuel mi w s (quatMat q) = (optimizeAcc (gdEnv so P') o fuel mi w s q).map (LoopSt.move quatMat) := by
  have h : Pulled quatMat P P' := ⟨hd, hy, fun q d => by rw [hp, hp', C87_quat_plus], hf, he, hc, ha, h1⟩
  exact ⟨fun s => C87_frame_gn h fuel mi w s q, fun s => C87_frame_lm h fuel mi w s q, fun s => C87_frame_gd h fuel mi w s q⟩

end

/-- the quarter turn around the third axis -/
example : IsRotation (quatMat (exp (halfIm ![0, 0, Real.pi / 2]))) ∧ ∃ d : Vec ℝ 3, quatPlus 1 ⟨3, d⟩ = exp (halfIm ![0, 0, Real.pi / 2]) :=
  ⟨quatMat_rotation (norm_exp_halfIm _), (C87_reach.2 1 _ norm_one (norm_exp_halfIm _)).imp fun _ h => h.1⟩

/-- the hypotheses of `C87_quat_runs` are met by residuals of the rotation matrix -/
example (L : LinAlg ℝ) (s : GNState ℝ ℝ) (q : Quaternion ℝ) :
    optimizeAcc (gnEnv soptsR L (nlsOnProb so3Plus skewVec fun _ i j => if i = j then 1 else 0)) (optsR 10) 3 (-1) () s (quatMat q) =
      (optimizeAcc (gnEnv soptsR L (nlsOnProb quatPlus (fun q => skewVec (quatMat q)) fun _ i j => if i = j then 1 else 0)) (optsR 10) 3 (-1) () s q).map
        (LoopSt.move quatMat) :=
  (C87_quat_runs rfl rfl rfl (fun _ => rfl) (fun _ _ => rfl) (fun _ _ => rfl) rfl rfl rfl 3 (-1) () q).1 s

end Verif
