import Verif.Lemmas.Calc
import Mathlib.Analysis.Calculus.LocalExtr.Basic
import Mathlib.Analysis.InnerProductSpace.PiL2
import Mathlib.Analysis.Calculus.Deriv.Abs
/-!
# C43: norms and their Jacobians
-/

namespace Verif
namespace Loss

open Matrix

/-! ### The values are the norms -/

theorem l2_eq_norm {n} (x : RVec n) : l2 x = ‖WithLp.toLp 2 x‖ := by
  rw [EuclideanSpace.norm_eq]; unfold l2; congr 1
  exact Finset.sum_congr rfl fun i _ => by simp [sq]

theorem foldl_max_le {l : List ℝ} {m c : ℝ} : l.foldl (fun m v => max m |v|) m ≤ c ↔ m ≤ c ∧ ∀ v ∈ l, |v| ≤ c := by
  induction l generalizing m with
  | nil => simp
  | cons a l ih =>
    simp only [List.foldl_cons, ih, max_le_iff, List.mem_cons, forall_eq_or_imp]
    tauto

theorem linf_eq_norm {n} (x : RVec n) : linf x = ‖x‖ := by
  apply le_antisymm
  · unfold linf
    rw [foldl_max_le]
    refine ⟨norm_nonneg x, ?_⟩
    intro v hv
    obtain ⟨i, rfl⟩ := List.mem_ofFn.1 hv
    exact norm_le_pi_norm x i
  · have h := (foldl_max_le (l := List.ofFn x) (m := 0) (c := linf x)).1 le_rfl
    refine (pi_norm_le_iff_of_nonneg h.1).2 fun i => ?_
    exact h.2 _ (List.mem_ofFn.2 ⟨i, rfl⟩)

/-- **C43**, values: the four functions return the squared Euclidean norm, the Euclidean norm, the sum of the absolute values and the largest
absolute value (of a vector; for scalars the square and the absolute value). -/
theorem C43_values {n} (x : RVec n) (y : ℝ) :
    sqL2 x = ‖WithLp.toLp 2 x‖ ^ 2 ∧ l2 x = ‖WithLp.toLp 2 x‖ ∧ l1 x = ∑ i, |x i| ∧ linf x = ‖x‖ ∧
    sqL2S y = y ^ 2 ∧ l2S y = |y| ∧ l1S y = |y| ∧ linfS y = |y| ∧ (linfSJ y).1 = |y| := by
  refine ⟨?_, l2_eq_norm x, rfl, linf_eq_norm x, (sq y).symm, rfl, rfl, rfl, ?_⟩
  · rw [EuclideanSpace.norm_sq_eq]
    exact Finset.sum_congr rfl fun i _ => by simp [sq]
  · unfold linfSJ
    split
    · rename_i h; simp [abs_of_nonneg h]
    · rename_i h; simp [abs_of_neg (not_le.1 h)]

/-! ### argmax -/

theorem foldl_argmax {ι : Type*} (g : ι → ℝ) (l : List ι) (b : ι) :
    (∀ i ∈ l, g i ≤ g (l.foldl (fun b i => if g i > g b then i else b) b)) ∧ g b ≤ g (l.foldl (fun b i => if g i > g b then i else b) b) := by
  induction l generalizing b with
  | nil => simp
  | cons a l ih =>
    simp only [List.foldl_cons]
    have h := ih (if g a > g b then a else b)
    have h1 : g a ≤ g (if g a > g b then a else b) ∧ g b ≤ g (if g a > g b then a else b) := by
      split
      · rename_i h; exact ⟨le_rfl, h.le⟩
      · rename_i h; exact ⟨not_lt.1 h, le_rfl⟩
    refine ⟨?_, h1.2.trans h.2⟩
    intro i hi
    rcases List.mem_cons.1 hi with rfl | hi
    · exact h1.1.trans h.2
    · exact h.1 i hi

theorem argmaxAbs_max {n} (x : RVec (n + 1)) (i : Fin (n + 1)) : |x i| ≤ |x (argmaxAbs x)| :=
  (foldl_argmax (fun i => |x i|) (List.finRange (n + 1)) 0).1 i (List.mem_finRange i)

theorem linf_eq_argmax {n} (x : RVec (n + 1)) : linf x = |x (argmaxAbs x)| := by
  rw [linf_eq_norm]
  apply le_antisymm
  · exact (pi_norm_le_iff_of_nonneg (abs_nonneg _)).2 fun i => argmaxAbs_max x i
  · exact norm_le_pi_norm x (argmaxAbs x)

/-- a linear function touching `f` from below at `x` is its derivative, if it has one -/
theorem hasGrad_of_touching {n} {f : RVec n → ℝ} {J x : RVec n} (hd : DifferentiableAt ℝ f x) (hle : ∀ y, J ⬝ᵥ y ≤ f y) (he : J ⬝ᵥ x = f x) :
    HasGrad f J x := by
  have h1 := hd.hasFDerivAt
  have h2 : HasFDerivAt (fun y => f y - J ⬝ᵥ y) (fderiv ℝ f x - rowCLM J) x := h1.sub (hasGrad_dot J x)
  have hmin : IsLocalMin (fun y => f y - J ⬝ᵥ y) x := by
    refine Filter.Eventually.of_forall fun y => ?_
    show f x - J ⬝ᵥ x ≤ f y - J ⬝ᵥ y
    rw [he, sub_self]
    linarith [hle y]
  have h3 := hmin.hasFDerivAt_eq_zero h2
  unfold HasGrad
  rw [← sub_eq_zero.1 h3]
  exact h1

/-! ### Jacobians -/

/-- **C43**, SquaredL2 of a vector: the exported Jacobian is the derivative, also through an input Jacobian; without the scale it is half of it. -/
theorem C43_squaredL2 {n k} (r : RVec k → RVec n) (A : RMat n k) (p : RVec k) (hA : HasJac r A p) (x : RVec n) :
    HasGrad sqL2 (sqL2J x) x ∧ HasGrad (fun q => sqL2 (r q)) (sqL2Jx (r p) A) p ∧
    HasGrad (fun y => sqL2 y / 2) (sqL2J x false) x ∧ HasGrad (fun q => sqL2 (r q) / 2) (sqL2Jx (r p) A false) p := by
  have h : ∀ x : RVec n, HasGrad sqL2 (sqL2J x) x := by
    intro x
    refine hasGrad_sep (φ := fun _ t => t * t) fun i => ?_
    refine ((hasDerivAt_id (x i)).mul (hasDerivAt_id (x i))).congr_deriv ?_
    simp [sqL2J]; ring
  have h' : ∀ x : RVec n, HasGrad (fun y => sqL2 y / 2) (sqL2J x false) x := by
    intro x
    refine ((h x).comp_deriv (φ := fun t => t / 2) ((hasDerivAt_id _).div_const 2)).congr_J ?_
    funext i
    simp [sqL2J]
  exact ⟨h x, (h (r p)).chain hA, h' x, (h' (r p)).chain hA⟩

/-- **C43**, SquaredL2 of a scalar -/
theorem C43_squaredL2_scalar (x : ℝ) : HasDerivAt sqL2S (sqL2SJ x) x ∧ HasDerivAt (fun y => sqL2S y / 2) (sqL2SJ x false) x := by
  have h : HasDerivAt sqL2S (sqL2SJ x) x := by
    refine ((hasDerivAt_id x).mul (hasDerivAt_id x)).congr_deriv ?_
    simp [sqL2SJ]; ring
  refine ⟨h, (h.div_const 2).congr_deriv ?_⟩
  simp [sqL2SJ]

/-- **C43 is violated** for scalars with an input Jacobian: `SquaredL2(r, Jx)` drops `Jx`. Witness: `r(p) = 3 p`, with `Jx = 3`. -/
theorem C43_squaredL2_scalar_Jx_wrong :
    HasDerivAt (fun p : ℝ => 3 * p) 3 1 ∧ ¬ HasDerivAt (fun p : ℝ => sqL2S (3 * p)) (sqL2SJ (3 * 1)) 1 := by
  have h3 : HasDerivAt (fun p : ℝ => 3 * p) 3 1 := by simpa using (hasDerivAt_id (1 : ℝ)).const_mul 3
  refine ⟨h3, fun h => ?_⟩
  have h1 : HasDerivAt (fun p : ℝ => sqL2S (3 * p)) _ 1 := HasDerivAt.comp 1 (C43_squaredL2_scalar (3 * 1)).1 h3
  have := h.unique h1
  norm_num [sqL2SJ] at this

theorem l2_pos {n} {x : RVec n} {eps : ℝ} (he : 0 < eps) (h : eps < l2 x) : 0 < ∑ i, x i * x i := by
  have : 0 < l2 x := he.trans h
  exact Real.sqrt_pos.1 this

theorem l2_grad {n} {x : RVec n} (h : 0 < l2 x) : HasGrad l2 (fun i => x i / l2 x) x := by
  have h0 : 0 < ∑ i, x i * x i := Real.sqrt_pos.1 h
  have h1 : HasGrad sqL2 (sqL2J x) x := (C43_squaredL2 (fun y => y) 1 x (fun r => by
    refine (hasGrad_coord r x).congr_J ?_
    funext j; simp [Matrix.one_apply, Pi.single_apply, eq_comm]) x).1
  refine (h1.comp_deriv (Real.hasDerivAt_sqrt (show sqL2 x ≠ 0 from h0.ne'))).congr_J ?_
  funext i
  have h2 : √(sqL2 x) = l2 x := rfl
  simp [sqL2J, h2]
  field_simp

/-- **C43** (partial), L2 of a vector: for norms above `FloatEpsilon()`, the exported Jacobian is the derivative, also through an input Jacobian.
Missing: smaller norms, see `C43_l2_small_wrong`. -/
theorem C43_l2_partial {n k} (eps : ℝ) (heps : 0 < eps) (r : RVec k → RVec n) (A : RMat n k) (p : RVec k) (hA : HasJac r A p)
    (h : eps < l2 (r p)) : HasGrad l2 (l2J eps (r p)) (r p) ∧ HasGrad (fun q => l2 (r q)) (l2Jx eps (r p) A) p := by
  have h1 : HasGrad l2 (l2J eps (r p)) (r p) := by
    have : l2J eps (r p) = fun i => r p i / l2 (r p) := by simp [l2J, h]
    rw [this]; exact l2_grad (heps.trans h)
  exact ⟨h1, h1.chain hA⟩

/-- **C43 is violated** for every non-zero vector with a norm up to `FloatEpsilon()`: L2 is differentiable there, but the exported Jacobian is not the
derivative. -/
theorem C43_l2_small_wrong {n} (eps : ℝ) (heps : eps < 1) (x : RVec n) (h0 : 0 < l2 x) (h : l2 x ≤ eps) :
    DifferentiableAt ℝ l2 x ∧ ¬ HasGrad l2 (l2J eps x) x := by
  have hg := l2_grad h0
  refine ⟨HasFDerivAt.differentiableAt hg, fun h' => ?_⟩
  have e := hg.unique h'
  have e2 : l2J eps x = x := by simp [l2J, not_lt.2 h]
  rw [e2] at e
  have hs : 0 < ∑ i, x i * x i := Real.sqrt_pos.1 h0
  obtain ⟨i, -, hi⟩ := Finset.exists_ne_zero_of_sum_ne_zero hs.ne'
  have hxi : x i ≠ 0 := fun hz => hi (by simp [hz])
  have := congrFun e i
  rw [div_eq_iff h0.ne'] at this
  have h1 : l2 x = 1 := by
    have := mul_left_cancel₀ hxi (this.symm.trans (mul_one (x i)).symm)
    exact this
  linarith

/-- such vectors exist -/
example : 0 < l2 (fun _ : Fin 1 => (1 / 2 ^ 30 : ℝ)) ∧ l2 (fun _ : Fin 1 => (1 / 2 ^ 30 : ℝ)) ≤ 1 / 10 ^ 7 := by
  have : l2 (fun _ : Fin 1 => (1 / 2 ^ 30 : ℝ)) = 1 / 2 ^ 30 := by
    simp only [l2, Finset.univ_unique, Finset.sum_const, Finset.card_singleton, one_smul]
    exact Real.sqrt_mul_self (by norm_num)
  rw [this]; norm_num

/-- **C43** (partial), L2 and L1 of a scalar: right for positive numbers. Missing: negative ones, see `C43_abs_negative_wrong`. -/
theorem C43_abs_partial (x : ℝ) (h : 0 < x) : HasDerivAt l2S (l2SJ x) x ∧ HasDerivAt l1S (l1SJ x) x := by
  have := hasDerivAt_abs_pos h
  exact ⟨this, this⟩

/-- **C43 is violated** for every negative scalar: L2 and L1 export the derivative 1 instead of -1. -/
theorem C43_abs_negative_wrong (x : ℝ) (h : x < 0) :
    HasDerivAt l2S (-1) x ∧ HasDerivAt l1S (-1) x ∧ ¬ HasDerivAt l2S (l2SJ x) x ∧ ¬ HasDerivAt l1S (l1SJ x) x := by
  have h1 : HasDerivAt l2S (-1) x := hasDerivAt_abs_neg h
  have h2 : HasDerivAt l1S (-1) x := hasDerivAt_abs_neg h
  refine ⟨h1, h2, fun h' => ?_, fun h' => ?_⟩
  · have := h1.unique h'; norm_num [l2SJ] at this
  · have := h2.unique h'; norm_num [l1SJ] at this

/-- **C43**, L1 of a vector: wherever L1 is differentiable, the exported Jacobian is its derivative. -/
theorem C43_l1 {n} (x : RVec n) (hd : DifferentiableAt ℝ l1 x) : HasGrad l1 (l1J x) x := by
  refine hasGrad_of_touching hd (fun y => ?_) ?_
  · refine Finset.sum_le_sum fun i _ => ?_
    simp only [l1J, sgn]
    split
    · simpa using le_abs_self (y i)
    · split
      · simpa using neg_le_abs (y i)
      · simp
  · refine Finset.sum_congr rfl fun i _ => ?_
    simp only [l1J, sgn]
    split
    · rename_i h; simp [abs_of_pos h]
    · split
      · rename_i h; simp [abs_of_neg h]
      · rename_i h1 h2
        have : x i = 0 := le_antisymm (not_lt.1 h1) (not_lt.1 h2)
        simp [this]

/-- L1 is differentiable wherever no coordinate is 0 -/
theorem C43_l1_differentiable {n} (x : RVec n) (h : ∀ i, x i ≠ 0) : DifferentiableAt ℝ l1 x := by
  have : HasGrad (fun y : RVec n => ∑ i, |y i|) (fun i => SignType.sign (x i)) x := hasGrad_sep (φ := fun _ t => |t|) fun i => hasDerivAt_abs (h i)
  exact HasFDerivAt.differentiableAt this

/-- **C43**, Linf of a vector: wherever Linf is differentiable, the exported Jacobian is its derivative, also through an input Jacobian; and the value
returned with the Jacobian is the norm. -/
theorem C43_linf {n k} (r : RVec k → RVec (n + 1)) (A : RMat (n + 1) k) (p : RVec k) (hA : HasJac r A p) (hd : DifferentiableAt ℝ linf (r p)) :
    (linfJ (r p)).1 = ‖r p‖ ∧ HasGrad linf (linfJ (r p)).2 (r p) ∧ HasGrad (fun q => linf (r q)) (linfJx (r p) A).2 p ∧
    (linfJx (r p) A).1 = ‖r p‖ := by
  have hv : (linfJ (r p)).1 = ‖r p‖ := by rw [← linf_eq_norm, linf_eq_argmax]; rfl
  have h1 : HasGrad linf (linfJ (r p)).2 (r p) := by
    have hdot : ∀ y, (linfJ (r p)).2 ⬝ᵥ y = (if r p (argmaxAbs (r p)) ≥ 0 then 1 else -1) * y (argmaxAbs (r p)) := by
      intro y
      simp [linfJ, dotProduct, ite_mul, Finset.sum_ite_eq']
    refine hasGrad_of_touching hd (fun y => ?_) ?_
    · rw [hdot, linf_eq_norm]
      refine le_trans ?_ (norm_le_pi_norm y (argmaxAbs (r p)))
      rw [Real.norm_eq_abs]
      split
      · simpa using le_abs_self _
      · simpa using neg_le_abs _
    · rw [hdot, linf_eq_argmax]
      split
      · rename_i h; simp [abs_of_nonneg h]
      · rename_i h; simp [abs_of_neg (not_le.1 h)]
  exact ⟨hv, h1, h1.chain hA, hv⟩

/-- Linf is differentiable wherever one coordinate strictly dominates the others -/
theorem C43_linf_differentiable {n} (x : RVec n) (b : Fin n) (h0 : x b ≠ 0) (h : ∀ i, i ≠ b → |x i| < |x b|) : DifferentiableAt ℝ linf x := by
  have hev : linf =ᶠ[nhds x] fun y => |y b| := by
    have hall : ∀ᶠ y in nhds x, ∀ i, i ≠ b → |y i| < |y b| := by
      refine Filter.eventually_all.2 fun i => ?_
      by_cases hi : i = b
      · exact Filter.Eventually.of_forall fun _ h => absurd hi h
      · have hc1 : Continuous fun y : RVec n => |y i| := (continuous_apply i).abs
        have hc2 : Continuous fun y : RVec n => |y b| := (continuous_apply b).abs
        filter_upwards [(isOpen_lt hc1 hc2).mem_nhds (h i hi)] with y hy _ using hy
    filter_upwards [hall] with y hy
    rw [linf_eq_norm]
    apply le_antisymm
    · refine (pi_norm_le_iff_of_nonneg (abs_nonneg _)).2 fun i => ?_
      by_cases hi : i = b
      · subst hi; exact le_rfl
      · exact (hy i hi).le
    · exact norm_le_pi_norm y b
  have h1 : HasGrad (fun y : RVec n => |y b|) _ x := (hasGrad_coord b x).comp_deriv (hasDerivAt_abs h0)
  exact (HasFDerivAt.differentiableAt h1).congr_of_eventuallyEq hev

/-- **C43**, Linf of a scalar -/
theorem C43_linf_scalar (x : ℝ) (h : x ≠ 0) : HasDerivAt linfS (linfSJ x).2 x := by
  rcases lt_or_gt_of_ne h with h | h
  · have : (linfSJ x).2 = -1 := by simp [linfSJ, not_le.2 h]
    rw [this]; exact hasDerivAt_abs_neg h
  · have : (linfSJ x).2 = 1 := by simp [linfSJ, h.le]
    rw [this]; exact hasDerivAt_abs_pos h

/-- the hypotheses are met by the vector (2, -1) -/
example : DifferentiableAt ℝ (l1 (n := 2)) ![2, -1] ∧ DifferentiableAt ℝ (linf (n := 2)) ![2, -1] := by
  refine ⟨C43_l1_differentiable _ ?_, C43_linf_differentiable _ 0 (by simp) ?_⟩
  · intro i; fin_cases i <;> simp
  · intro i hi; fin_cases i
    · exact absurd rfl hi
    · simp

end Loss
end Verif
