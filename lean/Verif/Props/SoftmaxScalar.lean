import Verif.Model.SoftmaxScalar
import Verif.Props.Activations
/-!
# C97: the softmax of a scalar

A scalar is a vector with one entry: the softmax is the constant `1`, its derivative is `0`.
-/

namespace Verif.Loss
open Matrix

/-- **C97**: the value is the softmax of the vector with one entry, whatever the second argument. -/
theorem C97_value {k} (x : ℝ) (j : JArg k) :
    (softmaxScalar x j).val = softmax (fun _ : Fin 1 => x) 0 ∧ (safeSoftmaxScalar x j).val = safeSoftmax (fun _ : Fin 1 => x) 0 := by
  have h : softmax (fun _ : Fin 1 => x) 0 = 1 := by simp [softmax, (Real.exp_pos x).ne']
  have h' : safeSoftmax (fun _ : Fin 1 => x) 0 = 1 := by rw [C44_safe, h]
  rw [h, h']
  cases j <;> exact ⟨rfl, rfl⟩

/-- **C97**, shape of the result of `Softmax`: a value without a second argument, a pair with the Jacobian with one. -/
theorem C97_shape {k} (x : ℝ) (j : JArg k) : (∃ v, softmaxScalar x j = .value v) ↔ j = .null := by
  cases j <;> simp [softmaxScalar]

/-- **C97 (violated)**, shape of the result of `SafeSoftmax`: the cases are exchanged. Called without a second argument it returns a pair, called with `true` it returns a
value without the derivative asked for, so in neither case what `Softmax` returns. -/
theorem C97_shape_wrong {k} (x v : ℝ) :
    (∃ a b, safeSoftmaxScalar x (.null : JArg k) = .withNum a b) ∧ (∃ a, safeSoftmaxScalar x (.other v : JArg k) = .value a) ∧
    safeSoftmaxScalar x (.null : JArg k) ≠ softmaxScalar x .null ∧ safeSoftmaxScalar x (.other v : JArg k) ≠ softmaxScalar x (.other v) := by
  refine ⟨⟨1, 1, rfl⟩, ⟨1, rfl⟩, by simp [softmaxScalar, safeSoftmaxScalar], by simp [softmaxScalar, safeSoftmaxScalar]⟩

/-- **C97 (violated)**, Jacobian: for a scalar `r` of the parameters `p` with the Jacobian `A`, both functions return a Jacobian that is the derivative of what they return only if
`A = 0`; the true one is the product of the derivative of the softmax of a vector with one entry and `A`. -/
theorem C97_jacobian_wrong {k} (r : RVec k → ℝ) (A : RMat 1 k) (p : RVec k) (hA : HasJac (fun q (_ : Fin 1) => r q) A p) :
    (∃ J, softmaxScalar (r p) (.mat A) = .withMat 1 J ∧ safeSoftmaxScalar (r p) (.mat A) = .withMat 1 J ∧
      (HasJac (fun q (_ : Fin 1) => (softmaxScalar (r q) (.null : JArg k)).val) J p ↔ A = 0)) ∧
    HasJac (fun q (_ : Fin 1) => (softmaxScalar (r q) (.null : JArg k)).val) (softmaxJx (fun _ : Fin 1 => r p) A) p ∧ softmaxJx (fun _ : Fin 1 => r p) A = 0 := by
  have h0 : HasJac (fun q (_ : Fin 1) => (softmaxScalar (r q) (.null : JArg k)).val) (softmaxJx (fun _ : Fin 1 => r p) A) p := by
    have h := (C44_jacobian (n := 0) (fun q _ => r q) A p hA (fun _ => 0)).2.2.1
    have e : (fun q (_ : Fin 1) => (softmaxScalar (r q) (.null : JArg k)).val) = fun q => softmax (fun _ : Fin 1 => r q) := by
      funext q i
      rw [(C97_value (r q) _).1, Subsingleton.elim i 0]
    rw [e]
    exact h
  have hz : softmaxJx (fun _ : Fin 1 => r p) A = 0 := by
    ext i j
    unfold softmaxJx
    rw [Matrix.mul_apply, Fin.sum_univ_one]
    simp [softmaxJo, softmax, (Real.exp_pos (r p)).ne', Subsingleton.elim i 0]
  refine ⟨⟨A, rfl, rfl, fun h => ?_, fun h => ?_⟩, h0, hz⟩
  · rw [← hz]
    funext i
    exact (h i).unique (h0 i)
  · rw [h]
    rw [hz] at h0
    exact h0

/-- **C97 (violated)**, with `true`: `Softmax` reports the derivative `1`, but the derivative of the value it returns is `0`. -/
theorem C97_derivative_wrong (x : ℝ) : ∃ J, softmaxScalar x (.other 1 : JArg 0) = .withNum 1 J ∧ J ≠ 0 ∧ HasDerivAt (fun y => (softmaxScalar y (.null : JArg 0)).val) 0 x :=
  ⟨1, rfl, one_ne_zero, hasDerivAt_const x 1⟩

/-- hypothesis of `C97_jacobian_wrong`, with a Jacobian that is not zero -/
example (p : RVec 2) : HasJac (fun q (_ : Fin 1) => q 0) (fun _ j => if j = 0 then 1 else 0) p ∧ (fun _ j => if j = 0 then 1 else 0 : RMat 1 2) ≠ 0 := by
  refine ⟨fun i => (hasGrad_coord 0 p).congr_J (by funext j; simp [Pi.single_apply]), fun h => ?_⟩
  have := congrFun (congrFun h 0) 0
  simp at this

end Verif.Loss
