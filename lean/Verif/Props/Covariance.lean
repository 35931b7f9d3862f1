import Verif.Props.Integrated
import Verif.Props.OutputStats
import Verif.Props.LmSystem
import Verif.Props.Mahalanobis
import Mathlib.MeasureTheory.Integral.Bochner.Basic
import Mathlib.Probability.ProbabilityMassFunction.Integrals
import Mathlib.Probability.Distributions.Uniform
/-!
# C89: the covariance returned with a result is the covariance of the estimate

For linear least squares (as in tests/cov.cpp): what `Covariance()` of the returned `Output` is, and what it means.
-/

set_option linter.unusedSectionVars false

namespace Verif
open FloatOps Matrix Loss

section
variable {R W : Type} {m n : Nat}
variable {so : SolverOpts ℝ} {L : LinAlg ℝ} {P : Problem ℝ R W (Vec ℝ n)} {o : Options ℝ W (DVec ℝ)}
variable {A : Fin m → Fin n → ℝ} {b : Vec ℝ m} {φ : ℝ → ℝ}

theorem saved_hessian {F R W S X V M : Type} [FloatOps F] {E : Env F R W S X V M} {o : Options F W V} {fuel : Nat} {mi : Int} {w : W} {s : S} {x : X}
    {st : LoopSt F R W S X V M} (h : optimizeAcc E o fuel mi w s x = .ok st) (hE : E.firstOrder = false) (hs : o.saveLast = true) :
    st.out.finalHessian = some (E.sol.hessian st.s) := by
  obtain ⟨k, st0, -, -, rfl⟩ := optimizeAcc_spec h
  simp [hE, hs]

/-- `C` is the inverse of `Aᵀ A` -/
theorem gram_inv_iff (A : Fin m → Fin n → ℝ) (C : Mat ℝ n) :
    (∀ v, mv (gram A) (mv C v) = v) ↔ (Matrix.of A)ᵀ * Matrix.of A * Matrix.of C = 1 := by
  have e : ∀ v, mv (gram A) (mv C v) = ((Matrix.of A)ᵀ * Matrix.of A * Matrix.of C) *ᵥ v := by
    intro v
    rw [← mulVec_mulVec]
    funext i
    simp only [mv, mulVec, dotProduct, gram, Matrix.mul_apply, transpose_apply, of_apply]
  constructor
  · intro h
    ext i j
    have := congrFun ((e (Pi.single j 1)).symm.trans (h _)) i
    rw [mulVec_single_one] at this
    rw [Matrix.one_apply, Matrix.col_apply] at *
    rw [this, Pi.single_apply]
  · intro h v
    rw [e, h, one_mulVec]

theorem cov_of_hessian (hL : ExactLinAlg L) (hA : ∀ v, mv A v = 0 → v = 0) (hn : 0 < n) {out : Output ℝ R (DMat ℝ)}
    (hH : out.finalHessian = some ⟨n, gram A⟩) :
    ∃ C, covariance L out false = some ⟨n, C⟩ ∧ (Matrix.of A)ᵀ * Matrix.of A * Matrix.of C = 1 := by
  have hs := symUpper_of_sym (gram_sym A)
  obtain ⟨C, h1, h2, -⟩ := C53_covariance_inverse L hL out n (gram A) hH hn (by rw [hs]; exact gram_pd hA)
  rw [hs] at h2
  exact ⟨C, h1, (gram_inv_iff A C).1 h2⟩

/-- **C89**, Gauss-Newton: the run on residuals `A x - b` with full column rank ends at the unique minimiser and `Covariance()` of the output is the inverse of `Aᵀ A`. -/
theorem C89_gn_covariance (h : LinLS P A b φ) (hL : ExactLinAlg L) (hA : ∀ v, mv A v = 0 → v = 0) (hn : 0 < n)
    (hone : Solves so (P.dims == some 1) (gram A)) (hmin : DiagOk so (gram A)) (hclip : so.gradClip = 0) (hsave : o.saveLast = true)
    (s : GNState ℝ R) (hs : P.dims = none ∨ s.n = n) (fuel : Nat) (mi k : Int) (hk : loopBound o mi = some k)
    (w : W) (x0 : Vec ℝ n) (hx0 : nCost so m (φ (lsCost A b x0)) < maxVal) :
    ∃ st C, optimizeAcc (gnEnv so L P) o (fuel + 1) mi w s x0 = .ok st ∧ (∀ y, y ≠ st.x → lsCost A b st.x < lsCost A b y) ∧
      covariance L st.out false = some ⟨n, C⟩ ∧ (Matrix.of A)ᵀ * Matrix.of A * Matrix.of C = 1 := by
  obtain ⟨xs, h1, st, h2, rfl, -, g, c, h3⟩ := gn_ls_run (o := o) h hL hA hone hmin hclip s hs fuel mi k hk w x0 hx0
  obtain ⟨C, h4, h5⟩ := cov_of_hessian (R := R) hL hA hn (out := st.out) (by
    rw [saved_hessian h2 rfl hsave, h3]; rfl)
  exact ⟨st, C, h2, h1, h4, h5⟩

/-- **C89** (partial), Levenberg-Marquardt: from a solver that has been reset, after two iterations or more (all of them are made if no stopping criterion is set), `Covariance()` is the inverse of `Aᵀ A`, whatever the damping.
Missing: runs of one iteration, see `C89_lm_one_iteration`. -/
theorem C89_lm_covariance_partial (h : LinLS P A b φ) (hL : ExactLinAlg L) (hA : ∀ v, mv A v = 0 → v = 0) (hn : 0 < n)
    (hone : so.useLdlt = true ∨ P.dims ≠ some 1) (hr0 : so.dampLo ≤ so.dampHi) (hlo : 0 < so.dampLo) (hin : 0 ≤ so.dampInit)
    (hmin : DiagOk so (gram A)) (hclip : so.gradClip = 0) (hsave : o.saveLast = true)
    (s : LMState ℝ R) (hs : P.dims = none ∨ s.gn.n = n) (fuel : Nat) (mi k : Int) (hk : loopBound o mi = some k) (hk2 : k ≤ 65536)
    (w : W) (x0 : Vec ℝ n) (hx0 : nCost so m (φ (lsCost A b x0)) < maxVal) :
    ∃ st, optimizeAcc (lmEnv so L P) o (fuel + 1) mi w (lmReset so s) x0 = .ok st ∧ (NoCriteria o → (st.trace.length : Int) = k) ∧
      (1 < st.trace.length → ∃ C, covariance L st.out false = some ⟨n, C⟩ ∧ (Matrix.of A)ᵀ * Matrix.of A * Matrix.of C = 1) := by
  obtain ⟨st, e, -, -, -, h1, h2⟩ := lm_ls_run (o := o) (K := fun _ _ => True) h hL (fun l hl => damped_pd' (gram_pd hA) (by
      rcases hl with rfl | hl
      · exact hin
      · exact hlo.le.trans hl)) hone hr0 hlo.le hin hmin hclip (fun _ _ _ _ _ _ => trivial) (lmReset so s)
    hs rfl (Or.inl rfl) trivial fuel mi k hk hk2 w x0 hx0
  refine ⟨st, e, h2, fun hl => cov_of_hessian (R := R) hL hA hn (out := st.out) ?_⟩
  rw [saved_hessian e rfl hsave]
  exact congrArg some (h1 hlo hl)

end

/-- **C89 is violated** by Levenberg-Marquardt after one iteration (residual `x - 3`, so `Aᵀ A = 1`, damping 1): the covariance is 1/2. -/
theorem C89_lm_one_iteration : ∃ st, run23 = .ok st ∧ st.trace.length = 1 ∧ st.out.succeeded = true ∧
    ∃ c : D, (covariance lin1 st.out false).map DMat.val = some c ∧ mul c (ofInt 2) = ofInt 1 := by
  have h : run23.holds (fun st => decide (st.trace.length = 1) && st.out.succeeded &&
      decide ((covariance lin1 st.out false).map DMat.val = some (div (ofInt 1) (ofInt 2)))) = true := by decide +kernel
  obtain ⟨st, h1, h2⟩ := Res.exists_of_holds h
  simp only [Bool.and_eq_true, decide_eq_true_eq] at h2
  exact ⟨st, h1, h2.1.1, h2.1.2, _, h2.2, by decide +kernel⟩

/-! ### weights -/

section
variable {R W : Type} {m n : Nat}
variable {so : SolverOpts ℝ} {L : LinAlg ℝ} {P : Problem ℝ R W (Vec ℝ n)} {o : Options ℝ W (DVec ℝ)}
variable {φ : ℝ → ℝ}

theorem whiten_sq {f : Fact m} (hf : f.Ok) {S : RMat m m} (hS : (symU S).PosDef) :
    ((f.lltL (symU S))⁻¹)ᵀ * (f.lltL (symU S))⁻¹ = (symU S)⁻¹ ∧ (f.lltL (symU S))⁻¹ * symU S * ((f.lltL (symU S))⁻¹)ᵀ = 1 := by
  obtain ⟨-, h2⟩ := hf _ hS
  have hu : IsUnit (f.lltL (symU S)).det := by
    have h3 : IsUnit (symU S).det := hS.isUnit.map Matrix.detMonoidHom
    rw [← h2, det_mul] at h3
    exact isUnit_of_mul_isUnit_left h3
  refine ⟨by rw [transpose_nonsing_inv, ← Matrix.mul_inv_rev, h2], ?_⟩
  generalize f.lltL (symU S) = l at h2 hu ⊢
  rw [← h2, transpose_nonsing_inv, ← Matrix.mul_assoc, Matrix.nonsing_inv_mul _ hu, Matrix.one_mul, Matrix.mul_nonsing_inv _ (by rw [det_transpose]; exact hu)]

theorem whiten_gram {f : Fact m} (hf : f.Ok) {S : RMat m m} (hS : (symU S).PosDef) (A : RMat m n) :
    (whitenCovJx f S A)ᵀ * whitenCovJx f S A = Aᵀ * (symU S)⁻¹ * A := by
  unfold whitenCovJx
  rw [transpose_mul, ← (whiten_sq hf hS).1]
  simp only [Matrix.mul_assoc]

theorem whiten_rank {f : Fact m} (hf : f.Ok) {S : RMat m m} (hS : (symU S).PosDef) (A : RMat m n) (hA : ∀ v, mv A v = 0 → v = 0) :
    ∀ v, mv (whitenCovJx f S A) v = 0 → v = 0 := by
  intro v hv
  refine hA v ?_
  have h1 : ((f.lltL (symU S))⁻¹ * symU S * ((f.lltL (symU S))⁻¹)ᵀ) = 1 := (whiten_sq hf hS).2
  have hu : IsUnit (f.lltL (symU S))⁻¹ := by
    rw [Matrix.mul_assoc] at h1
    exact IsUnit.of_mul_eq_one _ h1
  have e : (f.lltL (symU S))⁻¹ *ᵥ (A *ᵥ v) = 0 := by
    rw [mulVec_mulVec]; exact hv
  have := (Matrix.mulVec_injective_iff_isUnit.2 hu) (e.trans (mulVec_zero _).symm)
  exact this

/-- **C89**, weighted: with the residuals `A x - b` whitened by a covariance `S` (`MahaWhitened`, loss by loss what an accumulated problem then is), the run of Gauss-Newton ends at
the unique minimiser of `(A x - b)ᵀ S⁻¹ (A x - b)` and `Covariance()` is the inverse of `Aᵀ S⁻¹ A`. -/
theorem C89_gn_weighted (f : Fact m) (hf : f.Ok) (S : RMat m m) (hS : (symU S).PosDef) (A : RMat m n) (b : RVec m)
    (h : LinLS P (whitenCovJx f S A) (whitenCov f b S) φ) (hL : ExactLinAlg L) (hA : ∀ v, mv A v = 0 → v = 0) (hn : 0 < n)
    (hone : Solves so (P.dims == some 1) (gram (whitenCovJx f S A))) (hmin : DiagOk so (gram (whitenCovJx f S A))) (hclip : so.gradClip = 0) (hsave : o.saveLast = true)
    (s : GNState ℝ R) (hs : P.dims = none ∨ s.n = n) (fuel : Nat) (mi k : Int) (hk : loopBound o mi = some k)
    (w : W) (x0 : Vec ℝ n) (hx0 : nCost so m (φ (lsCost (whitenCovJx f S A) (whitenCov f b S) x0)) < maxVal) :
    ∃ st C, optimizeAcc (gnEnv so L P) o (fuel + 1) mi w s x0 = .ok st ∧
      (∀ y, y ≠ st.x → (A *ᵥ st.x - b) ⬝ᵥ ((symU S)⁻¹ *ᵥ (A *ᵥ st.x - b)) < (A *ᵥ y - b) ⬝ᵥ ((symU S)⁻¹ *ᵥ (A *ᵥ y - b))) ∧
      covariance L st.out false = some ⟨n, C⟩ ∧ Aᵀ * (symU S)⁻¹ * A * Matrix.of C = 1 := by
  obtain ⟨st, C, h1, h2, h3, h4⟩ := C89_gn_covariance (o := o) h hL (whiten_rank hf hS A hA) hn hone hmin hclip hsave s hs fuel mi k hk w x0 hx0
  refine ⟨st, C, h1, ?_, h3, ?_⟩
  · have e : ∀ y, lsCost (whitenCovJx f S A) (whitenCov f b S) y = (A *ᵥ y - b) ⬝ᵥ ((symU S)⁻¹ *ᵥ (A *ᵥ y - b)) := by
      intro y
      rw [← (C46_whitened f hf S hS (A *ᵥ y - b)).2.1]
      unfold lsCost dotR
      refine Finset.sum_congr rfl fun i _ => ?_
      have : mv (whitenCovJx f S A) y - whitenCov f b S = whitenCov f (A *ᵥ y - b) S := by
        unfold whitenCov whitenCovJx
        rw [mulVec_sub, mulVec_mulVec]; rfl
      rw [this, sq]
    simpa only [e] using h2
  · rw [← whiten_gram hf hS A]; exact h4

/-- **C89**, a prior (tests/cov.cpp): the residual `MahaWhitened(x - y, S)` with numerical differentiation (any method, any step size): the run of Gauss-Newton ends at `y` and
`Covariance()` is the covariance of the prior, `S` read from its upper triangle. -/
theorem C89_prior {P : Problem ℝ R W (RVec n)} (f : Fact n) (hf : f.Ok) (S : RMat n n) (hS : (symU S).PosDef) (y : RVec n) {method : Method} {h : ℝ} (hh : h ≠ 0)
    (hP : NumProblem P (fun x => whitenCov f (x - y) S) method h) (hV : VecParams P) (hL : ExactLinAlg L) (hn : 0 < n)
    (hone : Solves so (P.dims == some 1) (gram (whitenCovJ f S))) (hmin : DiagOk so (gram (whitenCovJ f S))) (hclip : so.gradClip = 0) (hsave : o.saveLast = true)
    (s : GNState ℝ R) (hs : P.dims = none ∨ s.n = n) (fuel : Nat) (mi k : Int) (hk : loopBound o mi = some k)
    (w : W) (x0 : RVec n) (hx0 : nCost so n √(∑ i, whitenCov f (x0 - y) S i ^ 2) < maxVal) :
    ∃ st, optimizeAcc (gnEnv so L P) o (fuel + 1) mi w s x0 = .ok st ∧ st.x = y ∧ covariance L st.out false = some ⟨n, symU S⟩ := by
  have hJ : whitenCovJ f S = whitenCovJx f S 1 := rfl
  have hr : (fun x => whitenCov f (x - y) S) = fun x => mv (whitenCovJx f S 1) x - whitenCov f y S := by
    funext x
    unfold whitenCov whitenCovJx
    rw [mulVec_sub, Matrix.mul_one]; rfl
  have hls := affine_numProblem (A := whitenCovJx f S 1) (b := whitenCov f y S) (by rw [hr] at hP; exact hP) hh hV hn
  have h1 : ∀ v, mv (1 : RMat n n) v = 0 → v = 0 := by
    intro v hv
    have : (1 : RMat n n) *ᵥ v = 0 := hv
    rwa [one_mulVec] at this
  obtain ⟨st, C, e1, e2, e3, e4⟩ := C89_gn_weighted (o := o) f hf S hS 1 y hls hL h1 hn hone hmin hclip hsave s hs fuel mi k hk w x0 (by
    have : lsCost (whitenCovJx f S 1) (whitenCov f y S) x0 = ∑ i, whitenCov f (x0 - y) S i ^ 2 := by
      unfold lsCost dotR
      refine Finset.sum_congr rfl fun i _ => ?_
      rw [← congrFun hr x0, sq]
    rw [this]; exact hx0)
  refine ⟨st, e1, ?_, ?_⟩
  · by_contra hne
    have h2 := e2 y (Ne.symm hne)
    have hpi : ((symU S)⁻¹).PosSemidef := hS.inv.posSemidef
    have h3 := hpi.dotProduct_mulVec_nonneg (1 *ᵥ st.x - y)
    simp only [star_trivial] at h3
    rw [one_mulVec, one_mulVec, sub_self, mulVec_zero, dotProduct_zero] at h2
    rw [one_mulVec] at h3
    exact absurd h2 (not_lt.2 h3)
  · rw [e3]
    have hC : Matrix.of C = symU S := by
      rw [transpose_one, Matrix.one_mul, Matrix.mul_one] at e4
      have hu : IsUnit (symU S).det := hS.isUnit.map Matrix.detMonoidHom
      calc Matrix.of C = symU S * ((symU S)⁻¹ * Matrix.of C) := by rw [← Matrix.mul_assoc, Matrix.mul_nonsing_inv _ hu, Matrix.one_mul]
        _ = symU S := by rw [e4, Matrix.mul_one]
    rw [show C = symU S from hC]

end

/-! ### meaning -/

section
open MeasureTheory

variable {R W Ω : Type} {m n : Nat} [MeasurableSpace Ω] {μ : Measure Ω} [IsProbabilityMeasure μ]
variable {so : SolverOpts ℝ} {L : LinAlg ℝ} {o : Options ℝ W (DVec ℝ)} {φ : ℝ → ℝ}

/-- linear combinations of noise: mean and second moments -/
theorem noise_lin {k : Nat} {e : Ω → Vec ℝ m} (he : ∀ i, Integrable (fun ω => e ω i) μ) (hee : ∀ i j, Integrable (fun ω => e ω i * e ω j) μ)
    (h0 : ∀ i, ∫ ω, e ω i ∂μ = 0) {S : RMat m m} (hS : ∀ i j, ∫ ω, e ω i * e ω j ∂μ = S i j) (T : RMat k m) :
    (∀ i, Integrable (fun ω => (T *ᵥ e ω) i) μ) ∧ (∀ i j, Integrable (fun ω => (T *ᵥ e ω) i * (T *ᵥ e ω) j) μ) ∧
    (∀ i, ∫ ω, (T *ᵥ e ω) i ∂μ = 0) ∧ ∀ i j, ∫ ω, (T *ᵥ e ω) i * (T *ᵥ e ω) j ∂μ = (T * S * Tᵀ) i j := by
  have e2 : ∀ i j ω, (T *ᵥ e ω) i * (T *ᵥ e ω) j = ∑ q, ∑ p, T i p * T j q * (e ω p * e ω q) := by
    intro i j ω
    simp only [mulVec, dotProduct, Finset.sum_mul_sum]
    rw [Finset.sum_comm]
    exact Finset.sum_congr rfl fun q _ => Finset.sum_congr rfl fun p _ => by ring
  have i1 : ∀ i p, Integrable (fun ω => T i p * e ω p) μ := fun i p => (he p).const_mul _
  have i2 : ∀ i j p q, Integrable (fun ω => T i p * T j q * (e ω p * e ω q)) μ := fun i j p q => (hee p q).const_mul _
  refine ⟨fun i => ?_, fun i j => ?_, fun i => ?_, fun i j => ?_⟩
  · simp only [mulVec, dotProduct]
    exact integrable_finsetSum _ fun p _ => i1 i p
  · simp only [e2]
    exact integrable_finsetSum _ fun q _ => integrable_finsetSum _ fun p _ => i2 i j p q
  · simp only [mulVec, dotProduct]
    rw [integral_finsetSum _ fun p _ => i1 i p]
    simp [integral_const_mul, h0]
  · simp only [e2]
    rw [integral_finsetSum _ fun q _ => integrable_finsetSum _ fun p _ => i2 i j p q]
    simp only [Matrix.mul_apply, Finset.sum_mul, transpose_apply]
    refine Finset.sum_congr rfl fun q _ => ?_
    rw [integral_finsetSum _ fun p _ => i2 i j p q]
    refine Finset.sum_congr rfl fun p _ => ?_
    rw [integral_const_mul, hS]; ring

/-- **C89**, meaning: observations `b = A xt + e` of the true parameters `xt`, with noise `e` of mean 0 and unit covariance (residuals are already divided by their standard
deviations). For (almost) every noise, the run of Gauss-Newton returns an estimate and a covariance; the covariance is always the same `C`; the mean of the estimates is `xt` (unbiased)
and their covariance is `C`. -/
theorem C89_estimator {P : Ω → Problem ℝ R W (Vec ℝ n)} {A : Fin m → Fin n → ℝ} (xt : Vec ℝ n) (e : Ω → Vec ℝ m)
    (he : ∀ i, Integrable (fun ω => e ω i) μ) (hee : ∀ i j, Integrable (fun ω => e ω i * e ω j) μ)
    (h0 : ∀ i, ∫ ω, e ω i ∂μ = 0) (h1 : ∀ i j, ∫ ω, e ω i * e ω j ∂μ = if i = j then 1 else 0)
    (h : ∀ ω, LinLS (P ω) A (mv A xt + e ω) φ) (hL : ExactLinAlg L) (hA : ∀ v, mv A v = 0 → v = 0) (hn : 0 < n)
    (hone : ∀ ω, Solves so ((P ω).dims == some 1) (gram A)) (hmin : DiagOk so (gram A)) (hclip : so.gradClip = 0) (hsave : o.saveLast = true)
    (s : GNState ℝ R) (hs : ∀ ω, (P ω).dims = none ∨ s.n = n) (fuel : Nat) (mi k : Int) (hk : loopBound o mi = some k)
    (w : W) (x0 : Vec ℝ n) (hx0 : ∀ᵐ ω ∂μ, nCost so m (φ (lsCost A (mv A xt + e ω) x0)) < maxVal)
    (st : Ω → LoopSt ℝ R W (GNState ℝ R) (Vec ℝ n) (DVec ℝ) (DMat ℝ))
    (hst : ∀ᵐ ω ∂μ, optimizeAcc (gnEnv so L (P ω)) o (fuel + 1) mi w s x0 = .ok (st ω)) :
    ∃ C : Mat ℝ n, (∀ᵐ ω ∂μ, covariance L (st ω).out false = some ⟨n, C⟩) ∧ (∀ i, ∫ ω, (st ω).x i ∂μ = xt i) ∧
      ∀ i j, ∫ ω, ((st ω).x i - xt i) * ((st ω).x j - xt j) ∂μ = C i j := by
  -- the inverse
  have hu : IsUnit ((Matrix.of A)ᵀ * Matrix.of A) := by
    have hpd := gram_pd hA
    rw [← Matrix.mulVec_injective_iff_isUnit]
    intro u v huv
    refine pd_inj hpd ?_
    have e : ∀ v, mv (gram A) v = ((Matrix.of A)ᵀ * Matrix.of A) *ᵥ v := by
      intro v; funext i; simp only [mv, mulVec, dotProduct, gram, Matrix.mul_apply, transpose_apply, of_apply]
    rw [e, e]; exact huv
  set M : RMat n n := (Matrix.of A)ᵀ * Matrix.of A with hM
  have hud : IsUnit M.det := hu.map Matrix.detMonoidHom
  have hMs : Mᵀ = M := by rw [hM, transpose_mul, transpose_transpose]
  obtain ⟨V, hV⟩ : ∃ V : RMat n n, V = M⁻¹ := ⟨_, rfl⟩
  set T : RMat n m := V * (Matrix.of A)ᵀ with hT
  -- every run
  have hrun : ∀ᵐ ω ∂μ, covariance L (st ω).out false = some ⟨n, V⟩ ∧ ∀ i, (st ω).x i = xt i + (T *ᵥ e ω) i := by
    filter_upwards [hx0, hst] with ω hω hr
    obtain ⟨st', C, r1, r2, r3, r4⟩ := C89_gn_covariance (o := o) (h ω) hL hA hn (hone ω) hmin hclip hsave s (hs ω) fuel mi k hk w x0 hω
    rw [hr] at r1
    injection r1 with r1
    subst r1
    have hC : Matrix.of C = V := by
      rw [hV]
      calc Matrix.of C = M⁻¹ * (M * Matrix.of C) := by rw [← Matrix.mul_assoc, Matrix.nonsing_inv_mul _ hud, Matrix.one_mul]
        _ = M⁻¹ := by rw [r4, Matrix.mul_one]
    refine ⟨by rw [r3]; rw [show C = V from hC], ?_⟩
    have hz : lsGrad A (mv A xt + e ω) (xt + T *ᵥ e ω) = 0 := by
      have e1 : mv A (xt + T *ᵥ e ω) - (mv A xt + e ω) = Matrix.of A *ᵥ (T *ᵥ e ω) - e ω := by
        rw [mv_add]
        have : mv A (T *ᵥ e ω) = Matrix.of A *ᵥ (T *ᵥ e ω) := rfl
        rw [this]; exact add_sub_add_left_eq_sub _ _ _
      unfold lsGrad
      rw [e1]
      have e2 : ∀ v : Vec ℝ m, tmv A v = (Matrix.of A)ᵀ *ᵥ v := fun v => rfl
      rw [e2, mulVec_sub, mulVec_mulVec, mulVec_mulVec, ← Matrix.mul_assoc, ← hM, hV, Matrix.mul_nonsing_inv _ hud, Matrix.one_mul, sub_self]
    have hm := min_of_grad_zero (gram_pd hA) hz
    by_contra hne
    have hne' : xt + T *ᵥ e ω ≠ (st ω).x := by
      intro heq
      exact hne fun i => by rw [← heq]; rfl
    exact lt_asymm (r2 _ hne') (hm _ hne'.symm)
  refine ⟨V, hrun.mono fun ω hω => hω.1, fun i => ?_, fun i j => ?_⟩
  · obtain ⟨i1, -, i3, -⟩ := noise_lin (S := (1 : RMat m m)) he hee h0 (fun i j => by rw [h1, Matrix.one_apply]) T
    rw [integral_congr_ae (g := fun ω => xt i + (T *ᵥ e ω) i) (hrun.mono fun ω hω => hω.2 i),
      integral_add (integrable_const _) (i1 i), i3 i]
    simp
  · obtain ⟨-, -, -, i4⟩ := noise_lin (S := (1 : RMat m m)) he hee h0 (fun i j => by rw [h1, Matrix.one_apply]) T
    rw [integral_congr_ae (g := fun ω => (T *ᵥ e ω) i * (T *ᵥ e ω) j) (hrun.mono fun ω hω => by
      simp only [hω.2, add_sub_cancel_left]), i4]
    rw [Matrix.mul_one, hT, hV, transpose_mul, transpose_transpose, transpose_nonsing_inv, hMs, Matrix.mul_assoc, ← Matrix.mul_assoc (Matrix.of A)ᵀ,
      ← hM, Matrix.mul_nonsing_inv _ hud, Matrix.mul_one]

/-- **C89**, meaning, correlated noise: noise of covariance `S` and residuals whitened by `S`. -/
theorem C89_estimator_weighted {P : Ω → Problem ℝ R W (Vec ℝ n)} (f : Fact m) (hf : f.Ok) (S : RMat m m) (hS : (symU S).PosDef) (A : RMat m n) (xt : Vec ℝ n)
    (e : Ω → Vec ℝ m) (he : ∀ i, Integrable (fun ω => e ω i) μ) (hee : ∀ i j, Integrable (fun ω => e ω i * e ω j) μ)
    (h0 : ∀ i, ∫ ω, e ω i ∂μ = 0) (h1 : ∀ i j, ∫ ω, e ω i * e ω j ∂μ = symU S i j)
    (h : ∀ ω, LinLS (P ω) (whitenCovJx f S A) (whitenCov f (A *ᵥ xt + e ω) S) φ) (hL : ExactLinAlg L) (hA : ∀ v, mv A v = 0 → v = 0) (hn : 0 < n)
    (hone : ∀ ω, Solves so ((P ω).dims == some 1) (gram (whitenCovJx f S A))) (hmin : DiagOk so (gram (whitenCovJx f S A))) (hclip : so.gradClip = 0)
    (hsave : o.saveLast = true) (s : GNState ℝ R) (hs : ∀ ω, (P ω).dims = none ∨ s.n = n) (fuel : Nat) (mi k : Int) (hk : loopBound o mi = some k)
    (w : W) (x0 : Vec ℝ n) (hx0 : ∀ᵐ ω ∂μ, nCost so m (φ (lsCost (whitenCovJx f S A) (whitenCov f (A *ᵥ xt + e ω) S) x0)) < maxVal)
    (st : Ω → LoopSt ℝ R W (GNState ℝ R) (Vec ℝ n) (DVec ℝ) (DMat ℝ))
    (hst : ∀ᵐ ω ∂μ, optimizeAcc (gnEnv so L (P ω)) o (fuel + 1) mi w s x0 = .ok (st ω)) :
    ∃ C : Mat ℝ n, (∀ᵐ ω ∂μ, covariance L (st ω).out false = some ⟨n, C⟩) ∧ (∀ i, ∫ ω, (st ω).x i ∂μ = xt i) ∧
      ∀ i j, ∫ ω, ((st ω).x i - xt i) * ((st ω).x j - xt j) ∂μ = C i j := by
  have hb : ∀ ω, whitenCov f (A *ᵥ xt + e ω) S = mv (whitenCovJx f S A) xt + whitenCov f (e ω) S := by
    intro ω
    unfold whitenCov whitenCovJx
    rw [mulVec_add, mulVec_mulVec]; rfl
  simp only [hb] at h hx0
  obtain ⟨i1, i2, i3, i4⟩ := noise_lin he hee h0 h1 (f.lltL (symU S))⁻¹
  refine C89_estimator (so := so) (o := o) xt (fun ω => whitenCov f (e ω) S) i1 i2 i3 (fun i j => ?_) h hL (whiten_rank hf hS A hA) hn hone hmin hclip hsave s hs fuel mi k hk
    w x0 hx0 st hst
  rw [show (fun ω => whitenCov f (e ω) S i * whitenCov f (e ω) S j) = fun ω => ((f.lltL (symU S))⁻¹ *ᵥ e ω) i * ((f.lltL (symU S))⁻¹ *ᵥ e ω) j from rfl]
  exact (i4 i j).trans (by rw [(whiten_sq hf hS).2, Matrix.one_apply])

end

/-! ### non-vacuity -/

theorem optsR_bound (k : Nat) (hk : k < 1000) : loopBound (optsR k) (-1) = some ((k : Int) + 1) := by
  have h6 : ¬ ((k : Int) + 1 + 1 > intMax) := by unfold intMax; omega
  simp only [loopBound, optsR]
  simp [h6]

/-- the line through three points, Gauss-Newton with any number of iterations, Levenberg-Marquardt with two or more -/
example (k : Nat) (hk : k < 1000) (s : GNState ℝ ℝ) (t : LMState ℝ ℝ) :
    (∃ st C, optimizeAcc (gnEnv soptsR someLinAlg (lsProb line3 line3b)) (optsR k) 1 (-1) () s 0 = .ok st ∧
      covariance someLinAlg st.out false = some ⟨2, C⟩ ∧ (Matrix.of line3)ᵀ * Matrix.of line3 * Matrix.of C = 1) ∧
    (0 < k → ∃ st C, optimizeAcc (lmEnv soptsR someLinAlg (lsProb line3 line3b)) (optsR k) 1 (-1) () (lmReset soptsR t) 0 = .ok st ∧
      covariance someLinAlg st.out false = some ⟨2, C⟩ ∧ (Matrix.of line3)ᵀ * Matrix.of line3 * Matrix.of C = 1) := by
  have hb := optsR_bound k hk
  have hls := lsProb_ls line3 line3b (by decide) (by decide)
  constructor
  · obtain ⟨st, C, h1, -, h2, h3⟩ := C89_gn_covariance (so := soptsR) (o := optsR k) hls someLinAlg_exact line3_rank (by decide) (Or.inl rfl) (Or.inl (le_refl _)) rfl rfl s (Or.inl rfl) 0 (-1) _ hb ()
      0 line3_start
    exact ⟨st, C, h1, h2, h3⟩
  · intro h0
    obtain ⟨st, h1, h2, h3⟩ := C89_lm_covariance_partial (so := soptsR) (o := optsR k) hls someLinAlg_exact line3_rank (by decide) (Or.inl rfl) (by norm_num [soptsR]) (by norm_num [soptsR])
      (by norm_num [soptsR]) (Or.inl (le_refl _)) rfl rfl t (Or.inl rfl) 0 (-1) _ hb (by omega) () 0 line3_start
    have := h2 (noCriteria_optsR k)
    obtain ⟨C, h4, h5⟩ := h3 (by omega)
    exact ⟨st, C, h1, h4, h5⟩

/-- the correlated prior of tests/cov.cpp (covariance `10, 2; 2, 4`, only the upper triangle filled), numerical differentiation by central differences -/
example (k : Nat) (hk : k < 1000) (s : GNState ℝ ℝ) : ∃ f : Fact 2, f.Ok ∧ ∃ st,
    optimizeAcc (gnEnv soptsR someLinAlg (numProbV (fun x => whitenCov f (x - ![1, 1]) !![10, 2; 0, 4]) .central (1 / 1000))) (optsR k) 1 (-1) () s ![1, 1] = .ok st ∧
    st.x = ![1, 1] ∧ covariance someLinAlg st.out false = some ⟨2, !![10, 2; 2, 4]⟩ := by
  obtain ⟨f, hf⟩ := exists_fact 2
  have e : symU (!![10, 2; 0, 4] : RMat 2 2) = !![10, 2; 2, 4] := by
    ext i j; fin_cases i <;> fin_cases j <;> rfl
  have hpd : (symU (!![10, 2; 0, 4] : RMat 2 2)).PosDef := by
    rw [e, posDef_iff_dotProduct_mulVec]
    refine ⟨?_, fun x hx => ?_⟩
    · ext i j; fin_cases i <;> fin_cases j <;> simp
    · simp only [mulVec, dotProduct, Fin.sum_univ_two, star_trivial, Matrix.cons_val_zero, Matrix.cons_val_one, Matrix.of_apply]
      have h : x 0 ≠ 0 ∨ x 1 ≠ 0 := by
        by_contra hc
        simp only [not_or, not_not] at hc
        exact hx (by funext i; fin_cases i <;> simp [hc.1, hc.2])
      rcases h with h | h
      · have := mul_self_pos.2 h
        nlinarith [sq_nonneg (x 0 + 2 * x 1), sq_nonneg (x 1)]
      · have := mul_self_pos.2 h
        nlinarith [sq_nonneg (2 * x 0 + x 1), sq_nonneg (x 0)]
  refine ⟨f, hf, ?_⟩
  obtain ⟨st, h1, h2, h3⟩ := C89_prior (so := soptsR) (o := optsR k) f hf !![10, 2; 0, 4] hpd ![1, 1] (h := 1 / 1000) (by norm_num)
    (numProbV_num (fun x => whitenCov f (x - ![1, 1]) !![10, 2; 0, 4]) .central (1 / 1000)) (numProbV_vec _ _ _ (by decide)) someLinAlg_exact (by decide)
    (Or.inl rfl) (Or.inl (le_refl _)) rfl rfl s (Or.inl rfl) 0 (-1) _ (optsR_bound k hk) () ![1, 1] (by
      have : ∑ i, whitenCov f (![1, 1] - ![1, 1]) !![10, 2; 0, 4] i ^ 2 = 0 := by
        rw [sub_self]; unfold whitenCov; rw [mulVec_zero]; simp
      rw [this, Real.sqrt_zero]
      show nCost soptsR 2 0 < 2 ^ 1024
      simp [nCost, normalizeCost, soptsR])
  exact ⟨st, h1, h2, by rw [h3]; rw [e]⟩

section
open MeasureTheory

/-- two equally likely outcomes: noise 1 or -1 in a direct observation of one parameter, at any true value up to 1000 -/
example (k : Nat) (hk : k < 1000) (s : GNState ℝ ℝ) (xt : Vec ℝ 1) (hxt : |xt 0| ≤ 1000) :
    ∃ (μ : Measure Bool) (_ : IsProbabilityMeasure μ) (e : Bool → Vec ℝ 1) (st : Bool → LoopSt ℝ ℝ Unit (GNState ℝ ℝ) (Vec ℝ 1) (DVec ℝ) (DMat ℝ)),
      (∀ ω, e ω 0 ≠ 0) ∧
      (∀ ω, optimizeAcc (gnEnv soptsR someLinAlg (lsProb (fun _ _ => 1) (mv (fun _ _ => 1) xt + e ω))) (optsR k) 1 (-1) () s 0 = .ok (st ω)) ∧
      ∃ C : Mat ℝ 1, (∀ᵐ ω ∂μ, covariance someLinAlg (st ω).out false = some ⟨1, C⟩) ∧ (∀ i, ∫ ω, (st ω).x i ∂μ = xt i) ∧
        ∀ i j, ∫ ω, ((st ω).x i - xt i) * ((st ω).x j - xt j) ∂μ = C i j := by
  let e : Bool → Vec ℝ 1 := fun ω _ => if ω then 1 else -1
  let A : Fin 1 → Fin 1 → ℝ := fun _ _ => 1
  have hA : ∀ v, mv A v = 0 → v = 0 := by
    intro v hv
    have := congrFun hv 0
    simp [mv, A] at this
    funext i
    rw [Subsingleton.elim i 0]; exact this
  have hstart : ∀ ω, nCost soptsR 1 (lsCost A (mv A xt + e ω) 0) < maxVal := by
    intro ω
    have h1 : lsCost A (mv A xt + e ω) 0 ≤ 1001 ^ 2 := by
      have : lsCost A (mv A xt + e ω) 0 = (xt 0 + e ω 0) ^ 2 := by
        simp [lsCost, dotR, mv, A]; ring
      rw [this]
      have h2 : |e ω 0| ≤ 1 := by simp only [e]; split <;> simp
      refine sq_le_sq' ?_ ?_ <;> rw [abs_le] at h2 hxt <;> linarith [h2.1, h2.2, hxt.1, hxt.2]
    show nCost soptsR 1 _ < 2 ^ 1024
    simp only [nCost, normalizeCost, soptsR, if_true, Bool.false_and, Bool.false_eq_true, if_false]
    refine lt_of_le_of_lt h1 (lt_of_lt_of_le (by norm_num : (1001 ^ 2 : ℝ) < 2 ^ 20) (pow_le_pow_right₀ (by norm_num) (by norm_num)))
  have hls := fun ω => lsProb_ls A (mv A xt + e ω) (by decide) (by decide)
  have hrun : ∀ ω, ∃ st, optimizeAcc (gnEnv soptsR someLinAlg (lsProb A (mv A xt + e ω))) (optsR k) (0 + 1) (-1) () s 0 = .ok st := by
    intro ω
    obtain ⟨st, C, h1, -⟩ := C89_gn_covariance (so := soptsR) (o := optsR k) (hls ω) someLinAlg_exact hA (by decide) (Or.inl rfl) (Or.inl (le_refl _)) rfl rfl s (Or.inl rfl) 0 (-1) _
      (optsR_bound k hk) () 0 (hstart ω)
    exact ⟨st, h1⟩
  choose st hst using hrun
  let p := PMF.uniformOfFintype Bool
  have hint : ∀ f : Bool → ℝ, ∫ ω, f ω ∂p.toMeasure = (f true + f false) / 2 := by
    intro f
    rw [PMF.integral_eq_sum]
    simp [p]
    ring
  refine ⟨p.toMeasure, inferInstance, e, st, fun ω => ?_, hst, ?_⟩
  · simp only [e]; split <;> norm_num
  · refine C89_estimator (so := soptsR) (o := optsR k) (μ := p.toMeasure) xt e (fun i => Integrable.of_finite) (fun i j => Integrable.of_finite) (fun i => ?_) (fun i j => ?_) hls someLinAlg_exact hA
      (by decide) (fun _ => Or.inl rfl) (Or.inl (le_refl _)) rfl rfl s (fun _ => Or.inl rfl) 0 (-1) _ (optsR_bound k hk) () 0 (Filter.Eventually.of_forall hstart) st
      (Filter.Eventually.of_forall hst)
    · rw [hint]; simp [e]
    · rw [hint, if_pos (Subsingleton.elim i j)]; norm_num [e]

/-- the same with noise 2 or -2 and residuals whitened by the variance 4 -/
example (k : Nat) (hk : k < 1000) (s : GNState ℝ ℝ) (xt : Vec ℝ 1) (hxt : |xt 0| ≤ 1000) :
    ∃ (f : Fact 1) (μ : Measure Bool) (_ : IsProbabilityMeasure μ) (e : Bool → Vec ℝ 1) (st : Bool → LoopSt ℝ ℝ Unit (GNState ℝ ℝ) (Vec ℝ 1) (DVec ℝ) (DMat ℝ)),
      (∀ ω, e ω 0 ≠ 0) ∧
      (∀ ω, optimizeAcc (gnEnv soptsR someLinAlg (lsProb (whitenCovJx f !![4] 1) (whitenCov f (1 *ᵥ xt + e ω) !![4]))) (optsR k) 1 (-1) () s 0 = .ok (st ω)) ∧
      ∃ C : Mat ℝ 1, (∀ᵐ ω ∂μ, covariance someLinAlg (st ω).out false = some ⟨1, C⟩) ∧ (∀ i, ∫ ω, (st ω).x i ∂μ = xt i) ∧
        ∀ i j, ∫ ω, ((st ω).x i - xt i) * ((st ω).x j - xt j) ∂μ = C i j := by
  obtain ⟨f, hf⟩ := exists_fact 1
  let e : Bool → Vec ℝ 1 := fun ω _ => if ω then 2 else -2
  have hsym : symU (!![4] : RMat 1 1) = !![4] := by
    ext i j; rw [Subsingleton.elim i 0, Subsingleton.elim j 0]; rfl
  have hS : (symU (!![4] : RMat 1 1)).PosDef := by
    rw [hsym, posDef_iff_dotProduct_mulVec]
    refine ⟨by ext i j; rw [Subsingleton.elim i 0, Subsingleton.elim j 0]; simp, fun x hx => ?_⟩
    have h0 : x 0 ≠ 0 := fun h => hx (by funext i; rw [Subsingleton.elim i 0]; exact h)
    simp [dotProduct, mulVec]
    nlinarith [mul_self_pos.2 h0]
  have hinv : (symU (!![4] : RMat 1 1))⁻¹ = !![1 / 4] := by
    rw [hsym]
    refine Matrix.inv_eq_left_inv ?_
    ext i j; rw [Subsingleton.elim i 0, Subsingleton.elim j 0]; simp
  have h1 : ∀ v, mv (1 : RMat 1 1) v = 0 → v = 0 := by
    intro v hv
    have : (1 : RMat 1 1) *ᵥ v = 0 := hv
    rwa [one_mulVec] at this
  have hstart : ∀ ω, nCost soptsR 1 (lsCost (whitenCovJx f !![4] (1 : RMat 1 1)) (whitenCov f (1 *ᵥ xt + e ω) !![4]) 0) < maxVal := by
    intro ω
    have h1 : lsCost (whitenCovJx f !![4] (1 : RMat 1 1)) (whitenCov f (1 *ᵥ xt + e ω) !![4]) 0 ≤ 1002 ^ 2 := by
      have : lsCost (whitenCovJx f !![4] (1 : RMat 1 1)) (whitenCov f (1 *ᵥ xt + e ω) !![4]) 0 = (xt 0 + e ω 0) ^ 2 / 4 := by
        have h2 := (C46_whitened f hf !![4] hS (xt + e ω)).2.1
        rw [hinv] at h2
        unfold lsCost
        rw [show mv (whitenCovJx f !![4] (1 : RMat 1 1)) (0 : Vec ℝ 1) - whitenCov f (1 *ᵥ xt + e ω) !![4] = -whitenCov f (xt + e ω) !![4] by
          rw [one_mulVec]; exact (congrArg (· - _) (mv_zero _)).trans (zero_sub _)]
        calc dotR (-whitenCov f (xt + e ω) !![4]) (-whitenCov f (xt + e ω) !![4]) = ∑ i, whitenCov f (xt + e ω) !![4] i ^ 2 := by
              unfold dotR; exact Finset.sum_congr rfl fun i _ => by simp [sq]
          _ = _ := by rw [h2]; simp [dotProduct, mulVec]; ring
      rw [this]
      have h2 : |e ω 0| ≤ 2 := by simp only [e]; split <;> simp
      have : (xt 0 + e ω 0) ^ 2 ≤ 1002 ^ 2 := by
        refine sq_le_sq' ?_ ?_ <;> rw [abs_le] at h2 hxt <;> linarith [h2.1, h2.2, hxt.1, hxt.2]
      linarith [sq_nonneg (xt 0 + e ω 0)]
    show nCost soptsR 1 _ < 2 ^ 1024
    simp only [nCost, normalizeCost, soptsR, if_true, Bool.false_and, Bool.false_eq_true, if_false]
    refine lt_of_le_of_lt h1 (lt_of_lt_of_le (by norm_num : (1002 ^ 2 : ℝ) < 2 ^ 20) (pow_le_pow_right₀ (by norm_num) (by norm_num)))
  have hls := fun ω => lsProb_ls (whitenCovJx f !![4] (1 : RMat 1 1)) (whitenCov f (1 *ᵥ xt + e ω) !![4]) (by decide) (by decide)
  have hrun : ∀ ω, ∃ st, optimizeAcc (gnEnv soptsR someLinAlg (lsProb (whitenCovJx f !![4] (1 : RMat 1 1)) (whitenCov f (1 *ᵥ xt + e ω) !![4]))) (optsR k) (0 + 1) (-1) () s 0 = .ok st := by
    intro ω
    obtain ⟨st, C, h1, -⟩ := C89_gn_weighted (so := soptsR) (o := optsR k) f hf !![4] hS 1 _ (hls ω) someLinAlg_exact h1 (by decide) (Or.inl rfl) (Or.inl (le_refl _)) rfl rfl s (Or.inl rfl) 0
      (-1) _ (optsR_bound k hk) () 0 (hstart ω)
    exact ⟨st, h1⟩
  choose st hst using hrun
  let p := PMF.uniformOfFintype Bool
  have hint : ∀ f : Bool → ℝ, ∫ ω, f ω ∂p.toMeasure = (f true + f false) / 2 := by
    intro f
    rw [PMF.integral_eq_sum]
    simp [p]
    ring
  refine ⟨f, p.toMeasure, inferInstance, e, st, fun ω => ?_, hst, ?_⟩
  · simp only [e]; split <;> norm_num
  · refine C89_estimator_weighted (so := soptsR) (o := optsR k) (μ := p.toMeasure) f hf !![4] hS 1 xt e (fun i => Integrable.of_finite) (fun i j => Integrable.of_finite) (fun i => ?_) (fun i j => ?_)
      hls someLinAlg_exact h1
      (by decide) (fun _ => Or.inl rfl) (Or.inl (le_refl _)) rfl rfl s (fun _ => Or.inl rfl) 0 (-1) _ (optsR_bound k hk) () 0 (Filter.Eventually.of_forall hstart) st
      (Filter.Eventually.of_forall hst)
    · rw [hint]; simp [e]
    · rw [hint, hsym, Subsingleton.elim i 0, Subsingleton.elim j 0]; norm_num [e]

end
end Verif
