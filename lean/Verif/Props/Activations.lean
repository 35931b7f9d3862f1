import Verif.Lemmas.Calc
import Mathlib.Analysis.SpecialFunctions.ExpDeriv
import Mathlib.Analysis.Calculus.Deriv.Abs
/-!
# C44, C45: softmax and activations
-/

namespace Verif
namespace Loss

open Matrix

/-! ### Softmax -/

theorem sumexp_pos {n} (x : RVec (n + 1)) : 0 < ∑ i, Real.exp (x i) :=
  Finset.sum_pos (fun i _ => Real.exp_pos _) Finset.univ_nonempty

/-- **C44**, distribution: the entries of the softmax of a non-empty vector are positive and sum to 1. -/
theorem C44_distribution {n} (x : RVec (n + 1)) : (∀ i, 0 < softmax x i) ∧ ∑ i, softmax x i = 1 := by
  have h := sumexp_pos x
  refine ⟨fun i => div_pos (Real.exp_pos _) h, ?_⟩
  unfold softmax
  rw [← Finset.sum_div]
  exact div_self h.ne'

/-- **C44**, invariance: adding a constant to all coordinates does not change the softmax. -/
theorem C44_shift {n} (x : RVec n) (c : ℝ) : softmax (fun i => x i + c) = softmax x := by
  funext i
  unfold softmax
  simp only [Real.exp_add]
  rw [← Finset.sum_mul]
  have := Real.exp_pos c
  rw [mul_div_mul_right _ _ this.ne']

/-- **C44**, safe variant: it computes the same distribution. -/
theorem C44_safe {n} (x : RVec (n + 1)) : safeSoftmax x = softmax x := by
  have := C44_shift x (-maxCoeff x)
  rw [← this]
  funext i
  simp only [safeSoftmax, softmax, sub_eq_add_neg]

theorem foldl_max_ge (l : List ℝ) (m : ℝ) : m ≤ l.foldl max m ∧ (∀ v ∈ l, v ≤ l.foldl max m) ∧ (l.foldl max m = m ∨ l.foldl max m ∈ l) := by
  induction l generalizing m with
  | nil => simp
  | cons a l ih =>
    simp only [List.foldl_cons, List.mem_cons, forall_eq_or_imp]
    obtain ⟨h1, h2, h3⟩ := ih (max m a)
    refine ⟨(le_max_left _ _).trans h1, ⟨(le_max_right _ _).trans h1, h2⟩, ?_⟩
    rcases h3 with h3 | h3
    · rcases max_choice m a with e | e
      · left; rw [h3, e]
      · right; left; rw [h3, e]
    · right; right; exact h3

/-- **C44**, safety: all exponentials evaluated by the safe variant are of non-positive numbers (so they are at most 1: no overflow), and one of
them is of 0 (so the sum it divides by is at least 1: no division by zero). -/
theorem C44_no_overflow {n} (x : RVec (n + 1)) :
    (∀ i, safeSoftmaxArgs x i ≤ 0) ∧ (∃ i, safeSoftmaxArgs x i = 0) ∧ (∀ i, Real.exp (safeSoftmaxArgs x i) ≤ 1) ∧
    1 ≤ ∑ i, Real.exp (safeSoftmaxArgs x i) := by
  obtain ⟨h1, h2, h3⟩ := foldl_max_ge (List.ofFn x) (x 0)
  have hle : ∀ i, safeSoftmaxArgs x i ≤ 0 := fun i => sub_nonpos.2 (h2 _ (List.mem_ofFn.2 ⟨i, rfl⟩))
  have hex : ∃ i, safeSoftmaxArgs x i = 0 := by
    rcases h3 with h3 | h3
    · exact ⟨0, by simp only [safeSoftmaxArgs, maxCoeff]; rw [h3, sub_self]⟩
    · obtain ⟨i, hi⟩ := List.mem_ofFn.1 h3
      exact ⟨i, by simp only [safeSoftmaxArgs, maxCoeff]; rw [← hi, sub_self]⟩
  refine ⟨hle, hex, fun i => Real.exp_le_one_iff.2 (hle i), ?_⟩
  obtain ⟨i, hi⟩ := hex
  calc (1 : ℝ) = Real.exp (safeSoftmaxArgs x i) := by rw [hi, Real.exp_zero]
    _ ≤ _ := Finset.single_le_sum (f := fun i => Real.exp (safeSoftmaxArgs x i)) (fun j _ => (Real.exp_pos _).le) (Finset.mem_univ i)

theorem softmaxJo_apply {n} (out : RVec n) (r c : Fin n) : softmaxJo out r c = if r = c then out c * (1 - out c) else -out r * out c := by
  unfold softmaxJo
  by_cases h : r ≤ c
  · simp only [if_pos h]
    by_cases e : c = r
    · subst e; simp
    · rw [if_neg e, if_neg (Ne.symm e)]; ring
  · simp only [if_neg h]
    have hc : c ≤ r := le_of_not_ge h
    rw [if_pos hc]

theorem softmax_jac {n} (x : RVec (n + 1)) : HasJac softmax (softmaxJo (softmax x)) x := by
  intro r
  have hp := sumexp_pos x
  have h1 : HasGrad (fun y : RVec (n + 1) => Real.exp (y r)) (Real.exp (x r) • Pi.single r 1) x :=
    (hasGrad_coord r x).comp_deriv (Real.hasDerivAt_exp _)
  have h2 : HasGrad (fun y : RVec (n + 1) => ∑ i, Real.exp (y i)) (fun i => Real.exp (x i)) x :=
    hasGrad_sep (φ := fun _ t => Real.exp t) fun i => Real.hasDerivAt_exp _
  have h3 := h2.comp_deriv (φ := fun t => t⁻¹) (hasDerivAt_inv hp.ne')
  have h4 := h1.mul h3
  have e : (fun y : RVec (n + 1) => softmax y r) = fun y => Real.exp (y r) * (∑ i, Real.exp (y i))⁻¹ := by
    funext y; simp only [softmax, div_eq_mul_inv]
  rw [e]
  refine h4.congr_J ?_
  funext c
  rw [softmaxJo_apply]
  simp only [softmax, Pi.add_apply, Pi.smul_apply, smul_eq_mul, Pi.single_apply]
  by_cases hc : r = c
  · subst hc
    simp only [if_true]
    field_simp
    ring
  · rw [if_neg hc, if_neg (Ne.symm hc)]
    field_simp
    ring

/-- **C44**, Jacobian: the exported matrices are the derivatives of the two functions, also through an input Jacobian. -/
theorem C44_jacobian {n k} (r : RVec k → RVec (n + 1)) (A : RMat (n + 1) k) (p : RVec k) (hA : HasJac r A p) (x : RVec (n + 1)) :
    HasJac softmax (softmaxJx x 1) x ∧ HasJac safeSoftmax (safeSoftmaxJx x 1) x ∧
    HasJac (fun q => softmax (r q)) (softmaxJx (r p) A) p ∧ HasJac (fun q => safeSoftmax (r q)) (safeSoftmaxJx (r p) A) p := by
  have es : (safeSoftmax : RVec (n + 1) → RVec (n + 1)) = softmax := funext C44_safe
  have h : ∀ x : RVec (n + 1), HasJac softmax (softmaxJx x 1) x := by
    intro x; unfold softmaxJx; rw [Matrix.mul_one]; exact softmax_jac x
  refine ⟨h x, ?_, (softmax_jac (r p)).chain hA, ?_⟩
  · unfold safeSoftmaxJx; rw [es]; exact h x
  · unfold safeSoftmaxJx; rw [es]; exact (softmax_jac (r p)).chain hA

/-- **C44**, the Jacobian is symmetric and its rows sum to 0. -/
theorem C44_jacobian_sums {n} (x : RVec (n + 1)) :
    (softmaxJx x (1 : RMat (n + 1) (n + 1)))ᵀ = softmaxJx x 1 ∧ (∀ r, ∑ c, softmaxJx x (1 : RMat (n + 1) (n + 1)) r c = 0) ∧
    (safeSoftmaxJx x (1 : RMat (n + 1) (n + 1)))ᵀ = safeSoftmaxJx x 1 ∧ (∀ r, ∑ c, safeSoftmaxJx x (1 : RMat (n + 1) (n + 1)) r c = 0) := by
  have key : (softmaxJx x (1 : RMat (n + 1) (n + 1)))ᵀ = softmaxJx x 1 ∧ (∀ r, ∑ c, softmaxJx x (1 : RMat (n + 1) (n + 1)) r c = 0) := by
    unfold softmaxJx
    rw [Matrix.mul_one]
    refine ⟨?_, fun r => ?_⟩
    · ext r c
      rw [transpose_apply, softmaxJo_apply, softmaxJo_apply]
      by_cases h : r = c
      · subst h; simp
      · rw [if_neg h, if_neg (Ne.symm h)]; ring
    · have e : ∀ c, softmaxJo (softmax x) r c = (if r = c then softmax x r else 0) - softmax x r * softmax x c := by
        intro c
        rw [softmaxJo_apply]
        by_cases h : r = c
        · subst h; simp; ring
        · rw [if_neg h, if_neg h]; ring
      rw [Finset.sum_congr rfl fun c _ => e c, Finset.sum_sub_distrib, ← Finset.mul_sum, (C44_distribution x).2]
      simp
  refine ⟨key.1, key.2, ?_⟩
  have : safeSoftmaxJx x (1 : RMat (n + 1) (n + 1)) = softmaxJx x 1 := by unfold safeSoftmaxJx softmaxJx; rw [C44_safe]
  rw [this]; exact key

/-- a vector whose largest coordinate is not the first -/
example : safeSoftmaxArgs ![0, 3, 1] = ![-3, 0, -2] ∧ softmax ![0, 0] = ![1 / 2, 1 / 2] := by
  constructor
  · funext i
    fin_cases i <;> simp [safeSoftmaxArgs, maxCoeff, List.ofFn_succ] <;> norm_num
  · funext i
    fin_cases i <;> simp [softmax] <;> norm_num

/-! ### Activations -/

theorem sigmoid_deriv (x : ℝ) : HasDerivAt Activation.sigmoid.f (Activation.sigmoid.f x * (1 - Activation.sigmoid.f x)) x := by
  have h0 : HasDerivAt (fun t : ℝ => 1 + Real.exp (-t)) (-Real.exp (-x)) x := by
    simpa using ((hasDerivAt_id x).neg.exp).const_add 1
  have hp : (0 : ℝ) < 1 + Real.exp (-x) := by positivity
  have h := (hasDerivAt_const x (1 : ℝ)).div h0 hp.ne'
  refine h.congr_deriv ?_
  simp only [Activation.f]
  field_simp
  ring

theorem tanh_deriv (x : ℝ) : HasDerivAt Activation.tanh.f (1 - Activation.tanh.f x * Activation.tanh.f x) x := by
  have h1 : HasDerivAt (fun t : ℝ => Real.exp (-t)) (-Real.exp (-x)) x := by
    simpa using (hasDerivAt_id x).neg.exp
  have h0 := Real.hasDerivAt_exp x
  have hp : (0 : ℝ) < Real.exp x + Real.exp (-x) := by positivity
  have h := (h0.sub h1).div (h0.add h1) hp.ne'
  refine h.congr_deriv ?_
  simp only [Activation.f, Pi.add_apply, Pi.sub_apply]
  field_simp
  ring

theorem leaky_deriv {a x : ℝ} (hd : DifferentiableAt ℝ (Activation.leaky a).f x) :
    HasDerivAt (Activation.leaky a).f (if x > 0 then 1 else a) x := by
  have hl : ∀ y ≤ (0 : ℝ), (Activation.leaky a).f y = a * y := fun y hy => by simp [Activation.f, not_lt.2 hy]
  have hr : ∀ y ≥ (0 : ℝ), (Activation.leaky a).f y = y := by
    intro y hy
    rcases eq_or_lt_of_le hy with e | e
    · simp [Activation.f, ← e]
    · simp [Activation.f, e]
  rcases lt_trichotomy x 0 with h | h | h
  · rw [if_neg (not_lt.2 h.le)]
    have : HasDerivAt (fun y : ℝ => a * y) a x := by simpa using (hasDerivAt_id x).const_mul a
    refine this.congr_of_eventuallyEq ?_
    filter_upwards [Iio_mem_nhds h] with y hy using hl y (le_of_lt hy)
  · subst h
    rw [if_neg (lt_irrefl _)]
    have hd' := hd.hasDerivAt
    have h1 : HasDerivWithinAt (Activation.leaky a).f a (Set.Iic 0) 0 := by
      have : HasDerivAt (fun y : ℝ => a * y) a 0 := by simpa using (hasDerivAt_id (0 : ℝ)).const_mul a
      exact this.hasDerivWithinAt.congr (fun y hy => hl y hy) (hl 0 le_rfl)
    have e := (uniqueDiffOn_Iic (0 : ℝ) 0 Set.self_mem_Iic).eq_deriv _ hd'.hasDerivWithinAt h1
    exact hd'.congr_deriv e
  · rw [if_pos h]
    refine (hasDerivAt_id x).congr_of_eventuallyEq ?_
    filter_upwards [Ioi_mem_nhds h] with y hy using hr y (le_of_lt hy)

theorem relu_eq_leaky : Activation.relu.f = (Activation.leaky 0).f := by
  funext x; simp [Activation.f]

/-- the functions are the documented ones -/
theorem C45_values (x a : ℝ) : Activation.sigmoid.f x = 1 / (1 + Real.exp (-x)) ∧ Activation.tanh.f x = Real.tanh x ∧
    Activation.relu.f x = max 0 x ∧ (0 < x → (Activation.leaky a).f x = x) ∧ (x ≤ 0 → (Activation.leaky a).f x = a * x) := by
  refine ⟨rfl, ?_, ?_, fun h => by simp [Activation.f, h], fun h => by simp [Activation.f, not_lt.2 h]⟩
  · rw [Real.tanh_eq_sinh_div_cosh, Real.sinh_eq, Real.cosh_eq]
    simp only [Activation.f]
    have hp : (0 : ℝ) < Real.exp x + Real.exp (-x) := by positivity
    field_simp
  · simp only [Activation.f]
    split
    · rename_i h; rw [max_eq_right h.le]
    · rename_i h; rw [max_eq_left (not_lt.1 h)]

/-- **C45** (partial), vectors: at every vector at whose coordinates the activation is differentiable, the exported Jacobian is the derivative of the
activation, also through an input Jacobian. Missing: scalars, see `C45_scalar_wrong`. -/
theorem C45_vector_partial (k : Activation) {n m} (r : RVec m → RVec n) (A : RMat n m) (p : RVec m) (hA : HasJac r A p)
    (hd : ∀ i, DifferentiableAt ℝ k.f (r p i)) :
    HasJac k.vec (k.vecJ (r p)) (r p) ∧ HasJac (fun q => k.vec (r q)) (k.vecJx (r p) A) p := by
  have h : HasJac k.vec (k.vecJ (r p)) (r p) := by
    cases k with
    | sigmoid => exact hasJac_diag fun i => sigmoid_deriv _
    | tanh => exact hasJac_diag fun i => tanh_deriv _
    | relu =>
      refine hasJac_diag fun i => ?_
      rw [relu_eq_leaky] at hd ⊢
      exact leaky_deriv (hd i)
    | leaky a => exact hasJac_diag fun i => leaky_deriv (hd i)
  exact ⟨h, h.chain hA⟩

/-- where the activations are differentiable -/
theorem C45_differentiable (a x : ℝ) : DifferentiableAt ℝ Activation.sigmoid.f x ∧ DifferentiableAt ℝ Activation.tanh.f x ∧
    (x ≠ 0 → DifferentiableAt ℝ Activation.relu.f x) ∧ (x ≠ 0 → DifferentiableAt ℝ (Activation.leaky a).f x) := by
  have key : ∀ a, x ≠ 0 → DifferentiableAt ℝ (Activation.leaky a).f x := by
    intro a hx
    rcases lt_or_gt_of_ne hx with h | h
    · have : HasDerivAt (fun y : ℝ => a * y) a x := by simpa using (hasDerivAt_id x).const_mul a
      refine (this.congr_of_eventuallyEq ?_).differentiableAt
      filter_upwards [Iio_mem_nhds h] with y hy
      simp [Activation.f, not_lt.2 (le_of_lt (show y < 0 from hy))]
    · refine ((hasDerivAt_id x).congr_of_eventuallyEq ?_).differentiableAt
      filter_upwards [Ioi_mem_nhds h] with y hy
      simp [Activation.f, show 0 < y from hy]
  refine ⟨(sigmoid_deriv x).differentiableAt, (tanh_deriv x).differentiableAt, fun h => ?_, key a⟩
  rw [relu_eq_leaky]; exact key 0 h

/-- **C45 is violated** for scalars: the exported derivative is 0, wrong wherever the derivative is not: everywhere for Sigmoid and Tanh, at
positive numbers for ReLU and LeakyReLU. -/
theorem C45_scalar_wrong (x : ℝ) :
    ¬ HasDerivAt Activation.sigmoid.f (Activation.sigmoid.scalarJ x) x ∧ ¬ HasDerivAt Activation.tanh.f (Activation.tanh.scalarJ x) x ∧
    (0 < x → ¬ HasDerivAt Activation.relu.f (Activation.relu.scalarJ x) x) ∧
    (∀ a, 0 < x → ¬ HasDerivAt (Activation.leaky a).f ((Activation.leaky a).scalarJ x) x) := by
  have key : ∀ a, 0 < x → ¬ HasDerivAt (Activation.leaky a).f ((Activation.leaky a).scalarJ x) x := by
    intro a hx h
    have := h.unique (leaky_deriv h.differentiableAt)
    simp [Activation.scalarJ, hx] at this
  refine ⟨fun h => ?_, fun h => ?_, fun hx => ?_, key⟩
  · have := h.unique (sigmoid_deriv x)
    have e := Real.exp_pos (-x)
    simp only [Activation.scalarJ, Activation.f] at this
    have hne : (1 : ℝ) / (1 + Real.exp (-x)) * (1 - 1 / (1 + Real.exp (-x))) = Real.exp (-x) / (1 + Real.exp (-x)) ^ 2 := by
      field_simp; ring
    rw [hne] at this
    have : (0 : ℝ) < Real.exp (-x) / (1 + Real.exp (-x)) ^ 2 := by positivity
    linarith
  · have := h.unique (tanh_deriv x)
    simp only [Activation.scalarJ, Activation.f] at this
    have e1 := Real.exp_pos x
    have e2 := Real.exp_pos (-x)
    have hne : (1 : ℝ) - (Real.exp x - Real.exp (-x)) / (Real.exp x + Real.exp (-x)) * ((Real.exp x - Real.exp (-x)) / (Real.exp x + Real.exp (-x))) =
        4 * Real.exp x * Real.exp (-x) / (Real.exp x + Real.exp (-x)) ^ 2 := by
      field_simp; ring
    rw [hne] at this
    have : (0 : ℝ) < 4 * Real.exp x * Real.exp (-x) / (Real.exp x + Real.exp (-x)) ^ 2 := by positivity
    linarith
  · have := key 0 hx
    rw [relu_eq_leaky]; exact this

/-- **C45** (partial), scalars: the exported 0 is only right for ReLU at negative numbers (and for LeakyReLU with `a = 0`). -/
theorem C45_scalar_partial (x : ℝ) (hx : x < 0) : HasDerivAt Activation.relu.f (Activation.relu.scalarJ x) x := by
  have h := (C45_differentiable 0 x).2.2.1 hx.ne
  rw [relu_eq_leaky] at h ⊢
  have := leaky_deriv h
  simpa [not_lt.2 hx.le, Activation.scalarJ] using this

/-- a vector with positive and negative coordinates meets the hypotheses -/
example : ∀ i, DifferentiableAt ℝ (Activation.leaky (1 / 2)).f (![1, -1] i) := by
  intro i
  refine (C45_differentiable (1 / 2) _).2.2.2 ?_
  fin_cases i <;> simp

end Loss
end Verif
