import Verif.Model.Losses
import Mathlib.Analysis.Calculus.FDeriv.Pi
import Mathlib.Analysis.Calculus.FDeriv.Add
import Mathlib.Analysis.Calculus.FDeriv.Mul
import Mathlib.Analysis.Calculus.Deriv.Comp
import Mathlib.Analysis.Calculus.Deriv.Mul
import Mathlib.Analysis.Calculus.Deriv.Inv
import Mathlib.Analysis.SpecialFunctions.Sqrt
/-!
# Jacobians as coordinate arrays

`HasGrad f J x`: the row `J` is the derivative of the real function `f` of a vector at `x`; `HasJac f J x`: the matrix `J` is the derivative of the
vector function `f` at `x` (both in the sense of Fréchet).
-/

namespace Verif
namespace Loss

open Matrix

/-- the linear map of a row vector -/
noncomputable def rowCLM {n} (J : RVec n) : RVec n →L[ℝ] ℝ := ∑ i, J i • ContinuousLinearMap.proj i

theorem rowCLM_apply {n} (J v : RVec n) : rowCLM J v = J ⬝ᵥ v := by
  simp [rowCLM, dotProduct, ContinuousLinearMap.sum_apply]

/-- `J` is the gradient (as a row) of `f` at `x` -/
def HasGrad {n} (f : RVec n → ℝ) (J : RVec n) (x : RVec n) : Prop := HasFDerivAt f (rowCLM J) x

/-- `J` is the Jacobian matrix of `f` at `x` -/
def HasJac {n m} (f : RVec n → RVec m) (J : RMat m n) (x : RVec n) : Prop := ∀ r, HasGrad (fun y => f y r) (J r) x

theorem HasGrad.congr_J {n} {f : RVec n → ℝ} {J J' : RVec n} {x} (h : HasGrad f J x) (e : J = J') : HasGrad f J' x := e ▸ h

theorem HasGrad.congr_near {n} {f g : RVec n → ℝ} {J : RVec n} {x} (h : HasGrad f J x) (e : g =ᶠ[nhds x] f) : HasGrad g J x :=
  HasFDerivAt.congr_of_eventuallyEq h e

/-- gradients are unique -/
theorem HasGrad.unique {n} {f : RVec n → ℝ} {J J' : RVec n} {x} (h : HasGrad f J x) (h' : HasGrad f J' x) : J = J' := by
  have e := HasFDerivAt.unique h h'
  funext i
  have := congrArg (fun l : RVec n →L[ℝ] ℝ => l (Pi.single i 1)) e
  simpa [rowCLM_apply] using this

theorem hasGrad_coord {n} (i : Fin n) (x : RVec n) : HasGrad (fun y => y i) (Pi.single i 1) x := by
  have : rowCLM (Pi.single i (1 : ℝ)) = ContinuousLinearMap.proj i := by
    ext v; simp [rowCLM_apply]
  unfold HasGrad
  rw [this]
  exact hasFDerivAt_apply i x

theorem HasGrad.comp_deriv {n} {f : RVec n → ℝ} {J : RVec n} {x} {φ : ℝ → ℝ} {d : ℝ} (h : HasGrad f J x) (hφ : HasDerivAt φ d (f x)) :
    HasGrad (fun y => φ (f y)) (d • J) x := by
  have := HasDerivAt.comp_hasFDerivAt x hφ h
  have e : d • rowCLM J = rowCLM (d • J) := by
    ext v; simp [rowCLM_apply]
  unfold HasGrad
  rw [← e]; exact this

theorem HasGrad.sum {n} {ι : Type*} (s : Finset ι) {f : ι → RVec n → ℝ} {J : ι → RVec n} {x} (h : ∀ i ∈ s, HasGrad (f i) (J i) x) :
    HasGrad (fun y => ∑ i ∈ s, f i y) (∑ i ∈ s, J i) x := by
  have := HasFDerivAt.fun_sum (u := s) (fun i hi => h i hi)
  have e : ∑ i ∈ s, rowCLM (J i) = rowCLM (∑ i ∈ s, J i) := by
    ext v; simp [rowCLM_apply, ContinuousLinearMap.sum_apply, sum_dotProduct]
  unfold HasGrad
  rw [← e]; exact this

theorem HasGrad.add {n} {f g : RVec n → ℝ} {J K : RVec n} {x} (h : HasGrad f J x) (h' : HasGrad g K x) :
    HasGrad (fun y => f y + g y) (J + K) x := by
  have := HasFDerivAt.add h h'
  have e : rowCLM J + rowCLM K = rowCLM (J + K) := by
    ext v; simp [rowCLM_apply, add_dotProduct]
  unfold HasGrad
  rw [← e]; exact this

theorem HasGrad.mul {n} {f g : RVec n → ℝ} {J K : RVec n} {x} (h : HasGrad f J x) (h' : HasGrad g K x) :
    HasGrad (fun y => f y * g y) (f x • K + g x • J) x := by
  have := HasFDerivAt.mul h h'
  have e : f x • rowCLM K + g x • rowCLM J = rowCLM (f x • K + g x • J) := by
    ext v; simp [rowCLM_apply, add_dotProduct]
  unfold HasGrad
  rw [← e]; exact this

theorem hasGrad_const {n} (c : ℝ) (x : RVec n) : HasGrad (fun _ => c) 0 x := by
  have e : rowCLM (0 : RVec n) = 0 := by ext v; simp [rowCLM_apply]
  unfold HasGrad; rw [e]; exact hasFDerivAt_const c x

/-- a sum of functions of the coordinates -/
theorem hasGrad_sep {n} {φ : Fin n → ℝ → ℝ} {J : RVec n} {x : RVec n} (h : ∀ i, HasDerivAt (φ i) (J i) (x i)) :
    HasGrad (fun y => ∑ i, φ i (y i)) J x := by
  have := HasGrad.sum Finset.univ (f := fun i y => φ i (y i)) (J := fun i => J i • Pi.single i 1) (x := x)
    (fun i _ => (hasGrad_coord i x).comp_deriv (h i))
  refine this.congr_J ?_
  funext j
  simp [Finset.sum_apply, Pi.single_apply]

/-- linear functions -/
theorem hasGrad_dot {n} (J x : RVec n) : HasGrad (fun y => J ⬝ᵥ y) J x := by
  have : (fun y => J ⬝ᵥ y) = rowCLM J := by funext y; rw [rowCLM_apply]
  unfold HasGrad; rw [this]; exact (rowCLM J).hasFDerivAt

theorem hasJac_linear {n m} (A : RMat m n) (x : RVec n) : HasJac (fun y => A *ᵥ y) A x := fun r => hasGrad_dot (A r) x

/-- the chain rule -/
theorem HasGrad.chain {n k} {f : RVec n → ℝ} {J : RVec n} {g : RVec k → RVec n} {A : RMat n k} {p : RVec k}
    (h : HasGrad f J (g p)) (hg : HasJac g A p) : HasGrad (fun q => f (g q)) (J ᵥ* A) p := by
  have hg' : HasFDerivAt g (ContinuousLinearMap.pi fun r => rowCLM (A r)) p := hasFDerivAt_pi.2 hg
  have := HasFDerivAt.comp p h hg'
  have e : (rowCLM J).comp (ContinuousLinearMap.pi fun r => rowCLM (A r)) = rowCLM (J ᵥ* A) := by
    ext v
    simp only [ContinuousLinearMap.comp_apply, rowCLM_apply]
    rw [← dotProduct_mulVec]
    congr 1
    funext r
    simp [rowCLM_apply, mulVec]
  unfold HasGrad; rw [← e]; exact this

/-- the chain rule for vector functions -/
theorem HasJac.chain {n k m} {f : RVec n → RVec m} {J : RMat m n} {g : RVec k → RVec n} {A : RMat n k} {p : RVec k}
    (h : HasJac f J (g p)) (hg : HasJac g A p) : HasJac (fun q => f (g q)) (J * A) p := by
  intro r
  have := (h r).chain hg
  exact this

/-- a function acting on each coordinate -/
theorem hasJac_diag {n} {φ : ℝ → ℝ} {d : RVec n} {x : RVec n} (h : ∀ i, HasDerivAt φ (d i) (x i)) :
    HasJac (fun y i => φ (y i)) (Matrix.diagonal d) x := by
  intro r
  refine ((hasGrad_coord r x).comp_deriv (h r)).congr_J ?_
  funext j
  by_cases hj : r = j
  · subst hj; simp
  · simp [Matrix.diagonal, hj, Pi.single_apply, Ne.symm hj]

end Loss
end Verif
