import Verif.Model.AutoDiff
import Verif.Props.JetProps
import Verif.Props.NumDiffProps
import Verif.Props.Descent
/-!
# C38, C39: least squares and general costs with automatic differentiation
-/

namespace Verif
namespace Loss

open Matrix FloatOps

theorem sumSq_grad {n m} {r : RVec n → RVec m} {J : RMat m n} {x : RVec n} (h : HasJac r J x) :
    HasGrad (fun y => ∑ i, r y i ^ 2) (fun k => 2 * ∑ i, J i k * r x i) x := by
  have h1 := HasGrad.sum Finset.univ (f := fun i y => r y i ^ 2) (J := fun i => (2 * r x i) • J i) (x := x)
    (fun i _ => ((h i).comp_deriv (hasDerivAt_pow 2 (r x i))).congr_J (by simp))
  refine h1.congr_J ?_
  funext k
  simp only [Finset.sum_apply, Pi.smul_apply, smul_eq_mul, Finset.mul_sum]
  exact Finset.sum_congr rfl fun i _ => by ring

/-- **C38**, several residuals. For residuals inside the domain at `x`, with `J` their Jacobian: the cost is the sum of squares, over `m` residuals; the gradient is
`Jᵀr`, half the gradient of the cost; the Hessian is `JᵀJ`: symmetric, positive semi-definite, and its null space is that of `J`. -/
theorem C38_vector {n m} (e : Fin m → Expr n) (x : RVec n) (h : ∀ i, (e i).InDomain x) :
    ∃ (J : RMat m n) (g : RVec n) (H : RMat n n),
      accVector e x = some (∑ i, (e i).value x ^ 2, m, g, H) ∧
      HasJac (fun y i => (e i).value y) J x ∧
      (∀ k, g k = ∑ i, J i k * (e i).value x) ∧
      HasGrad (fun y => ∑ i, (e i).value y ^ 2) (fun k => 2 * g k) x ∧
      (∀ k l, H k l = ∑ i, J i k * J i l) ∧
      Hᵀ = H ∧ (∀ v : RVec n, 0 ≤ v ⬝ᵥ (H *ᵥ v)) ∧ (∀ v : RVec n, H *ᵥ v = 0 ↔ J *ᵥ v = 0) := by
  obtain ⟨J, hj, hJ⟩ := C36_jacobian e x h
  refine ⟨J, Jᵀ *ᵥ (fun i => (e i).value x), Jᵀ * J, ?_, hJ, fun k => rfl, sumSq_grad hJ, fun k l => rfl, ?_, ?_, ?_⟩
  · simp only [accVector, hj]
    have : sqL2 (fun i => (e i).value x) = ∑ i, (e i).value x ^ 2 := by simp [sqL2, pow_two]
    rw [this]
  · rw [transpose_mul, transpose_transpose]
  · intro v
    rw [← mulVec_mulVec, dotProduct_mulVec, vecMul_transpose]
    exact Finset.sum_nonneg fun i _ => mul_self_nonneg _
  · intro v
    constructor
    · intro h0
      have h1 : (J *ᵥ v) ⬝ᵥ (J *ᵥ v) = 0 := by
        have : v ⬝ᵥ ((Jᵀ * J) *ᵥ v) = 0 := by rw [h0, dotProduct_zero]
        rwa [← mulVec_mulVec, dotProduct_mulVec, vecMul_transpose] at this
      exact dotProduct_self_eq_zero.1 h1
    · intro h0
      rw [← mulVec_mulVec, h0, mulVec_zero]

/-- **C38**, one residual: the cost is its square, the gradient half the gradient of the cost, the Hessian the outer product of its gradient. -/
theorem C38_scalar {n} (e : Expr n) (x : RVec n) (h : e.InDomain x) :
    ∃ (J g : RVec n) (H : RMat n n),
      accScalar true e x = some (e.value x ^ 2, g, H) ∧ HasGrad e.value J x ∧ (∀ k, g k = J k * e.value x) ∧
      HasGrad (fun y => e.value y ^ 2) (fun k => 2 * g k) x ∧ (∀ k l, H k l = J k * J l) ∧
      Hᵀ = H ∧ (∀ v : RVec n, 0 ≤ v ⬝ᵥ (H *ᵥ v)) ∧ (∀ v : RVec n, H *ᵥ v = 0 ↔ J ⬝ᵥ v = 0) := by
  obtain ⟨J, hj, hJ⟩ := C36_gradient e x h
  have hH : ∀ v : RVec n, ((fun i j => J i * J j : RMat n n)) *ᵥ v = (J ⬝ᵥ v) • J := by
    intro v
    funext i
    simp only [mulVec, dotProduct, Pi.smul_apply, smul_eq_mul, Finset.sum_mul]
    exact Finset.sum_congr rfl fun j _ => by ring
  refine ⟨J, _, _, by simp only [accScalar, hj, pow_two]; rfl, hJ, fun k => rfl, ?_, fun k l => rfl, ?_, ?_, ?_⟩
  · refine (hJ.comp_deriv (hasDerivAt_pow 2 (e.value x))).congr_J ?_
    funext k
    simp; ring
  · funext i j; exact mul_comm _ _
  · intro v
    rw [hH, dotProduct_smul, smul_eq_mul, dotProduct_comm v J]
    exact mul_self_nonneg _
  · intro v
    rw [hH]
    constructor
    · intro h0
      rcases smul_eq_zero.1 h0 with h1 | h1
      · exact h1
      · rw [h1, zero_dotProduct]
    · intro h0; rw [h0, zero_smul]

/-- residuals in the domain -/
example : ∀ i : Fin 2, ((![.op1 .exp (.var 0), .op2 .sub (.var 1) (.const 3)] : Fin 2 → Expr 2) i).InDomain ![1, 2] := by
  intro i
  fin_cases i
  · exact ⟨trivial, Or.inl trivial⟩
  · exact ⟨trivial, trivial, Or.inl trivial⟩

/-! ### Gradient descent on a scalar cost -/

/-- moving along `dx` from `x` changes the function `f` at the rate `s` -/
def RateAlong {n} (f : RVec n → ℝ) (x dx : RVec n) (s : ℝ) : Prop := HasDerivAt (fun t : ℝ => f (x + t • dx)) s 0

theorem rateAlong_of_grad {n} {f : RVec n → ℝ} {J x : RVec n} (h : HasGrad f J x) (dx : RVec n) : RateAlong f x dx (J ⬝ᵥ dx) := by
  have h1 : HasDerivAt (fun t : ℝ => x + t • dx) dx 0 := by
    have := ((hasDerivAt_id (0 : ℝ)).smul_const dx).const_add x
    simpa using this
  have e0 : x + (0 : ℝ) • dx = x := by simp
  have h2 : HasFDerivAt f (rowCLM J) (x + (0 : ℝ) • dx) := by rw [e0]; exact h
  have := h2.comp_hasDerivAt (0 : ℝ) h1
  rw [rowCLM_apply] at this
  exact this

/-- At the world `w`, the accumulation function of `P` is the one made by automatic differentiation of the scalar cost `e`, at `x`. -/
def FromAD {R W n} (P : Problem ℝ R W (RVec n)) (e : Expr n) (w : W) (x : RVec n) : Prop :=
  ∀ g0 H0, ∃ v g H w', accScalar false e x = some (v, g, H) ∧ P.acc.full w x n g0 H0 = ((⟨v, 1, P.ratio1, ""⟩, g, H), w')

/-- the sign of a clipped coefficient -/
theorem clampCoef_sign {c a : ℝ} (hc : 0 < c) : (0 < a → 0 < clampCoef c a) ∧ (a < 0 → clampCoef c a < 0) ∧ (a = 0 → clampCoef c a = 0) := by
  refine ⟨fun h => ?_, fun h => ?_, fun h => ?_⟩ <;> simp only [clampCoef, RealOps.lt_eq, RealOps.neg_eq] <;> split_ifs <;> linarith

theorem clampVec_mul {n} {c : ℝ} (hc : 0 ≤ c) (J : Vec ℝ n) (f : ℝ) (i : Fin n) :
    (0 < f → (J i ≠ 0 → 0 < J i * clampVec c (fun i => J i * f) i) ∧ (J i = 0 → J i * clampVec c (fun i => J i * f) i = 0)) ∧
    (f < 0 → (J i ≠ 0 → J i * clampVec c (fun i => J i * f) i < 0) ∧ (J i = 0 → J i * clampVec c (fun i => J i * f) i = 0)) := by
  have hz : J i = 0 → J i * clampVec c (fun i => J i * f) i = 0 := fun h => by rw [h, zero_mul]
  refine ⟨fun hf => ⟨fun hJ => ?_, hz⟩, fun hf => ⟨fun hJ => ?_, hz⟩⟩
  · rcases hc.eq_or_lt with rfl | hc
    · have : clampVec (0 : ℝ) (fun i => J i * f) i = J i * f := by simp [clampVec]
      rw [this]
      have := mul_pos (mul_self_pos.2 hJ) hf
      linarith
    · have : clampVec c (fun i => J i * f) i = clampCoef c (J i * f) := by simp [clampVec, hc.ne']
      rw [this]
      rcases lt_or_gt_of_ne hJ with h | h
      · exact mul_pos_of_neg_of_neg h ((clampCoef_sign hc).2.1 (mul_neg_of_neg_of_pos h hf))
      · exact mul_pos h ((clampCoef_sign hc).1 (mul_pos h hf))
  · rcases hc.eq_or_lt with rfl | hc
    · have : clampVec (0 : ℝ) (fun i => J i * f) i = J i * f := by simp [clampVec]
      rw [this]
      have := mul_pos (mul_self_pos.2 hJ) (neg_pos.2 hf)
      linarith
    · have : clampVec c (fun i => J i * f) i = clampCoef c (J i * f) := by simp [clampVec, hc.ne']
      rw [this]
      rcases lt_or_gt_of_ne hJ with h | h
      · exact mul_neg_of_neg_of_pos h ((clampCoef_sign hc).1 (mul_pos_of_neg_of_neg h hf))
      · exact mul_neg_of_pos_of_neg h ((clampCoef_sign hc).2.1 (mul_neg_of_pos_of_neg h hf))

section
variable {R W : Type} {n : Nat} (so : SolverOpts ℝ) (P : Problem ℝ R W (RVec n)) (w : W) (e : Expr n) (x : RVec n)

/-- the step of Gradient Descent with automatic differentiation -/
theorem gd_step {g0 : Vec ℝ n} {H0 : Mat ℝ n} {c0 : Cost ℝ R} {s1 w1} (h : e.InDomain x) (hP : FromAD P e w x)
    (hb : gdBuild so P w ⟨n, g0, H0, c0⟩ x = (true, s1, w1)) :
    ∃ J, HasGrad e.value J x ∧ gdSolve so s1 = some ⟨n, fun i => -so.lr * clampVec so.gradClip (fun i => J i * e.value x) i⟩ := by
  obtain ⟨J, hj, hJ⟩ := C36_gradient e x h
  refine ⟨J, hJ, ?_⟩
  obtain ⟨v, g, H, w', ha, hf⟩ := hP (fun _ => ofInt 0) (fun _ _ => ofInt 0)
  have ha' : some (e.value x, (fun i => J i * e.value x : RVec n), (fun i j => J i * J j : RMat n n)) = some (v, g, H) := by
    rw [← ha]; simp only [accScalar, hj]; rfl
  obtain ⟨-, h2⟩ := Prod.mk.inj (Option.some.inj ha')
  obtain ⟨h3, -⟩ := Prod.mk.inj h2
  simp only [gdBuild, gnAccumulate, hf] at hb
  obtain ⟨h4, h5⟩ := Prod.mk.inj hb
  obtain ⟨h6, -⟩ := Prod.mk.inj h5
  subst h6
  simp only [gdSolve, h4, if_true]
  rw [← h3]
  rfl

/-- **C39** (partial): where the cost is positive and its gradient is not zero, the step of Gradient Descent (with or without gradient clipping) is a descent direction of the cost.
Missing: costs with values `≤ 0`, for which the property fails (`C39_negative_fails`, `C39_zero_fails`), because the accumulated gradient is that of `f² / 2`. -/
theorem C39_partial {g0 : Vec ℝ n} {H0 : Mat ℝ n} {c0 : Cost ℝ R} {s1 w1} (h : e.InDomain x) (hP : FromAD P e w x) (hlr : 0 < so.lr) (hclip : 0 ≤ so.gradClip)
    (hpos : 0 < e.value x) (hb : gdBuild so P w ⟨n, g0, H0, c0⟩ x = (true, s1, w1)) :
    ∃ J, HasGrad e.value J x ∧ (J ≠ 0 → ∃ v, gdSolve so s1 = some ⟨n, v⟩ ∧ ∃ r < 0, RateAlong e.value x v r) := by
  obtain ⟨J, hJ, hs⟩ := gd_step so P w e x h hP hb
  refine ⟨J, hJ, fun hne => ⟨_, hs, _, ?_, rateAlong_of_grad hJ _⟩⟩
  obtain ⟨i, hi⟩ := Function.ne_iff.1 hne
  have : 0 < ∑ i, J i * clampVec so.gradClip (fun i => J i * e.value x) i :=
    Finset.sum_pos' (fun j _ => by
      by_cases hj : J j = 0
      · exact (((clampVec_mul hclip J _ j).1 hpos).2 hj).ge
      · exact (((clampVec_mul hclip J _ j).1 hpos).1 hj).le) ⟨i, Finset.mem_univ i, ((clampVec_mul hclip J _ i).1 hpos).1 hi⟩
  have e1 : J ⬝ᵥ (fun i => -so.lr * clampVec so.gradClip (fun i => J i * e.value x) i) =
      -(so.lr * ∑ i, J i * clampVec so.gradClip (fun i => J i * e.value x) i) := by
    simp only [dotProduct, Finset.mul_sum, ← Finset.sum_neg_distrib]
    exact Finset.sum_congr rfl fun i _ => by ring
  rw [e1]
  have := mul_pos hlr this
  linarith

/-- **C39** fails: where the cost is negative, the step *ascends*, at every point whose gradient is not zero. -/
theorem C39_negative_fails {g0 : Vec ℝ n} {H0 : Mat ℝ n} {c0 : Cost ℝ R} {s1 w1} (h : e.InDomain x) (hP : FromAD P e w x) (hlr : 0 < so.lr) (hclip : 0 ≤ so.gradClip)
    (hneg : e.value x < 0) (hb : gdBuild so P w ⟨n, g0, H0, c0⟩ x = (true, s1, w1)) :
    ∃ J, HasGrad e.value J x ∧ (J ≠ 0 → ∃ v, gdSolve so s1 = some ⟨n, v⟩ ∧ ∃ r > 0, RateAlong e.value x v r) := by
  obtain ⟨J, hJ, hs⟩ := gd_step so P w e x h hP hb
  refine ⟨J, hJ, fun hne => ⟨_, hs, _, ?_, rateAlong_of_grad hJ _⟩⟩
  obtain ⟨i, hi⟩ := Function.ne_iff.1 hne
  have : ∑ i, J i * clampVec so.gradClip (fun i => J i * e.value x) i < ∑ _i : Fin n, (0 : ℝ) :=
    Finset.sum_lt_sum (fun j _ => by
      by_cases hj : J j = 0
      · exact (((clampVec_mul hclip J _ j).2 hneg).2 hj).le
      · exact (((clampVec_mul hclip J _ j).2 hneg).1 hj).le) ⟨i, Finset.mem_univ i, ((clampVec_mul hclip J _ i).2 hneg).1 hi⟩
  have e1 : J ⬝ᵥ (fun i => -so.lr * clampVec so.gradClip (fun i => J i * e.value x) i) =
      so.lr * -∑ i, J i * clampVec so.gradClip (fun i => J i * e.value x) i := by
    simp only [dotProduct, Finset.mul_sum, ← Finset.sum_neg_distrib]
    exact Finset.sum_congr rfl fun i _ => by ring
  rw [e1]
  simp only [Finset.sum_const_zero] at this
  exact mul_pos hlr (neg_pos.2 this)

/-- **C39** fails: where the cost is zero the step is zero, whatever its gradient. -/
theorem C39_zero_fails {g0 : Vec ℝ n} {H0 : Mat ℝ n} {c0 : Cost ℝ R} {s1 w1} (h : e.InDomain x) (hP : FromAD P e w x) (hclip : 0 ≤ so.gradClip) (hz : e.value x = 0)
    (hb : gdBuild so P w ⟨n, g0, H0, c0⟩ x = (true, s1, w1)) : gdSolve so s1 = some ⟨n, 0⟩ := by
  obtain ⟨J, hJ, hs⟩ := gd_step so P w e x h hP hb
  rw [hs, hz]
  have : clampVec so.gradClip (fun i => J i * 0) = 0 := by
    funext i
    rcases hclip.eq_or_lt with hc | hc
    · simp [clampVec, ← hc]
    · have := (clampCoef_sign (a := J i * 0) hc).2.2 (mul_zero _)
      simpa [clampVec, hc.ne'] using this
  rw [this]
  simp
  rfl

end

/-- the cost `x² - 2` -/
def sqMinus2 : Expr 1 := .op1 (.subS 2) (.op2 .mul (.var 0) (.var 0))

/-- Optimization of `e` with automatic differentiation and a static size. -/
noncomputable def adProb {n} (e : Expr n) : Problem ℝ ℝ Unit (RVec n) where
  acc := {
    full := fun w x k g H => if h : k = n then
        match accScalar false e x with
        | some (v, g', H') => ((⟨v, 1, 1, ""⟩, h ▸ g', h ▸ H'), w)
        | none => ((⟨0, 0, 1, ""⟩, g, H), w)
      else ((⟨0, 0, 1, ""⟩, g, H), w)
    eval := fun w x => (⟨e.value x, 1, 1, ""⟩, w) }
  dims := some n
  dynDims := fun _ => n
  plusEq := fun x v => if h : v.n = n then x + h ▸ v.v else x
  clock := fun w => (0, w)
  alloc := fun w _ => (none, w)
  ratio1 := 1

theorem adProb_fromAD {n} (e : Expr n) (x : RVec n) (h : e.InDomain x) : FromAD (adProb e) e () x := by
  intro g0 H0
  obtain ⟨J, hj, hJ⟩ := C36_gradient e x h
  have ha : accScalar false e x = some (e.value x, (fun i => J i * e.value x : RVec n), (fun i j => J i * J j : RMat n n)) := by
    simp only [accScalar, hj]; rfl
  refine ⟨_, _, _, (), ha, ?_⟩
  simp only [adProb, ha, dif_pos]
  rfl

/-- **C39** fails, a concrete cost: at `x = 1` the cost `x² - 2` has the gradient 2, so a descent step is negative; the step of Gradient Descent is `2 lr`, away from
the minimum at 0. -/
theorem C39_fails_example (lr : ℝ) : ∃ s1 w1, gdBuild { soptsR with lr := lr, useSquaredNorm := true } (adProb sqMinus2) () ⟨1, 0, 0, ⟨0, 0, 1, ""⟩⟩ (fun _ => 1) = (true, s1, w1) ∧
    gdSolve { soptsR with lr := lr, useSquaredNorm := true } s1 = some ⟨1, fun _ => 2 * lr⟩ ∧ HasGrad sqMinus2.value (fun _ => 2) (fun _ => 1) := by
  have hd : sqMinus2.InDomain (fun _ => 1) := ⟨⟨trivial, trivial, Or.inl trivial⟩, Or.inl trivial⟩
  have hJ2 : HasGrad sqMinus2.value (fun _ => 2) (fun _ => 1) := by
    have := ((hasGrad_coord (0 : Fin 1) (fun _ => (1 : ℝ))).mul (hasGrad_coord (0 : Fin 1) (fun _ => (1 : ℝ)))).comp_deriv
      (φ := fun t => t - 2) (d := 1) ((hasDerivAt_id _).sub_const 2)
    refine this.congr_J ?_
    funext i
    have : i = 0 := Subsingleton.elim _ _
    subst this; norm_num
  have hv : sqMinus2.value (fun _ => 1) = -1 := by simp [sqMinus2, Expr.value, fn1, fn2]; norm_num
  have hP := adProb_fromAD sqMinus2 (fun _ => 1) hd
  rcases hb : gdBuild { soptsR with lr := lr, useSquaredNorm := true } (adProb sqMinus2) () ⟨1, 0, 0, ⟨0, 0, 1, ""⟩⟩ (fun _ => 1) with ⟨b, s1, w1⟩
  have hbt : b = true := by
    obtain ⟨v, g, H, w', ha, hf⟩ := hP (fun _ => ofInt 0) (fun _ _ => ofInt 0)
    have hv' : v = -1 := by
      obtain ⟨J, hj, -⟩ := C36_gradient sqMinus2 _ hd
      simp only [accScalar, hj] at ha
      rw [← (Prod.mk.inj (Option.some.inj ha)).1]; exact hv
    simp only [gdBuild, gnAccumulate, hf] at hb
    rw [← (Prod.mk.inj hb).1, hv']
    have : (maxVal : ℝ) = 2 ^ 1024 := rfl
    have h0 : (0 : ℝ) < 2 ^ 1024 := by positivity
    simp only [Cost.isValid, normalizeCost, soptsR, this, ne]
    simp
    intro h
    rw [← h] at h0
    norm_num at h0
  subst hbt
  obtain ⟨J, hJ, hs⟩ := gd_step _ _ _ _ _ hd hP hb
  refine ⟨s1, w1, rfl, ?_, hJ2⟩
  rw [hs, hv, hJ.unique hJ2]
  congr 2
  funext i
  simp [clampVec, soptsR]
  ring

/-- **C39** with numerical differentiation (partial): the same, for quadratic costs with the central methods (where the difference quotients are exact): a positive cost
descends; a negative one ascends. -/
theorem C39_numdiff_partial {n} (Q : RMat n n) (a : RVec n) (b : ℝ) (x J : RVec n) (hJ : HasGrad (fun y => y ⬝ᵥ (Q *ᵥ y) + a ⬝ᵥ y + b) J x) (hne : J ≠ 0)
    (method : Method) (hm : method ≠ .forward) (h : ℝ) (hh : h ≠ 0) (J0 : RMat 1 n) {R : Type} (so : SolverOpts ℝ) (hlr : 0 < so.lr) (H : Mat ℝ n) (c : Cost ℝ R)
    (hc : c.isValid = true) :
    let f := fun y : RVec n => y ⬝ᵥ (Q *ᵥ y) + a ⬝ᵥ y + b
    ∃ v s, gdSolve so ⟨n, (numDiffAcc1S vplus f x method h J0).2, H, c⟩ = some ⟨n, v⟩ ∧ RateAlong f x v s ∧ (0 < f x → s < 0) ∧ (f x < 0 → 0 < s) := by
  intro f
  have h1 := C35_quadratic (fun _ : Fin 1 => Q) (fun _ => a) (fun _ => b) x method hm h hh J0 0
  have e : J = fun i => estimateNumJac vplus (fun y (_ : Fin 1) => f y) x method h J0 0 i := hJ.unique h1
  have hg : (numDiffAcc1S vplus f x method h J0).2 = fun i => J i * f x := by
    funext i; simp only [numDiffAcc1S, e]
  have hs : gdSolve so ⟨n, (numDiffAcc1S vplus f x method h J0).2, H, c⟩ = some ⟨n, fun i => -so.lr * (J i * f x)⟩ := by
    rw [hg]; simp only [gdSolve, hc, if_true]; rfl
  have hr := rateAlong_of_grad hJ (fun i => -so.lr * (J i * f x))
  have e1 : J ⬝ᵥ (fun i => -so.lr * (J i * f x)) = -(so.lr * f x * ∑ i, J i ^ 2) := by
    simp only [dotProduct, Finset.mul_sum, ← Finset.sum_neg_distrib]
    exact Finset.sum_congr rfl fun i _ => by ring
  rw [e1] at hr
  obtain ⟨i, hi⟩ := Function.ne_iff.1 hne
  have hS : 0 < ∑ i, J i ^ 2 :=
    Finset.sum_pos' (fun i _ => sq_nonneg _) ⟨i, Finset.mem_univ i, by
      have := pow_pos (abs_pos.2 hi) 2; rwa [sq_abs] at this⟩
  refine ⟨_, _, hs, hr, fun hp => ?_, fun hp => ?_⟩
  · have := mul_pos (mul_pos hlr hp) hS
    linarith
  · have := mul_pos (mul_pos hlr (neg_pos.2 hp)) hS
    have e1 : so.lr * -f x * ∑ i, J i ^ 2 = -(so.lr * f x * ∑ i, J i ^ 2) := by ring
    linarith

/-- **C39** fails with numerical differentiation also in the reported cost, which is `|f|`: of two points where `f` is not positive, the one with the lower `f` is
reported as costing more, so a step that decreases `f` is rejected. -/
theorem C39_numdiff_abs {X : Type*} {n} (plus : X → RVec n → X) (f : X → ℝ) (x y : X) (method : Method) (h : ℝ) (J0 J1 : RMat 1 n) (hy : f y < f x) (hx : f x ≤ 0) :
    (numDiffAcc1S plus f x method h J0).1 < (numDiffAcc1S plus f y method h J1).1 := by
  simp only [numDiffAcc1S]
  rw [abs_of_nonpos hx, abs_of_nonpos (hy.le.trans hx)]
  linarith

/-- two such points, for the cost `x² - 2` -/
example : sqMinus2.value (fun _ => 0) < sqMinus2.value (fun _ => 1) ∧ sqMinus2.value (fun _ => 1) ≤ 0 := by
  simp [sqMinus2, Expr.value, fn1, fn2]

end Loss
end Verif
