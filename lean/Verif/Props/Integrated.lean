import Verif.Props.LinearLS
import Verif.Props.AutoDiffProps
/-!
# C58, C59: the solvers on residuals differentiated by the library

The accumulation functions made by `OptimizeWithAutoDiff` (diff/optimize_autodiff.h) and `CreateNumDiffFunc2` (diff/num_diff.h) together with the Gauss-Newton and
Levenberg-Marquardt solvers and the loop.
-/

set_option linter.unusedSectionVars false

namespace Verif
namespace Loss

open Matrix FloatOps

section
variable {R W : Type} {n m : Nat}

/-- The accumulation function of `P` is the one made by automatic differentiation of the residuals `e`, optimize_autodiff.h:91-166: wherever the residuals are in
their domain. The call without gradient (lines 127, 133, 164) returns the squared norm only. -/
structure ADProblem (P : Problem ℝ R W (RVec n)) (e : Fin m → Expr n) : Prop where
  full : ∀ w x g0 H0, (∀ i, (e i).InDomain x) → ∃ c g H w', accVector e x = some (c, m, g, H) ∧
    P.acc.full w x n g0 H0 = ((⟨c, m, P.ratio1, ""⟩, g, H), w')
  eval : ∀ w x, (∀ i, (e i).InDomain x) → ∃ w', P.acc.eval w x = (⟨sqL2 fun i => (e i).value x, m, P.ratio1, ""⟩, w')

/-- The accumulation function of `P` is the one made by `CreateNumDiffFunc2` of the residuals `f`, num_diff.h:279-308; the initial coefficients of the Jacobian
(`J0`) are arbitrary. -/
structure NumProblem (P : Problem ℝ R W (RVec n)) (f : RVec n → RVec m) (method : Method) (h : ℝ) : Prop where
  full : ∀ w x g0 H0, ∃ J0 w', P.acc.full w x n g0 H0 =
    ((⟨(numDiffAcc2 vplus f x method h J0).1, m, P.ratio1, ""⟩, (numDiffAcc2 vplus f x method h J0).2.1, (numDiffAcc2 vplus f x method h J0).2.2), w')
  eval : ∀ w x, ∃ w', P.acc.eval w x = (⟨l2 (f x), m, P.ratio1, ""⟩, w')

theorem HasJac.unique {f : RVec n → RVec m} {J J' : RMat m n} {x : RVec n} (h : HasJac f J x) (h' : HasJac f J' x) : J = J' := by
  funext i; exact (h i).unique (h' i)

/-- the system accumulated by automatic differentiation -/
theorem accVector_eq {e : Fin m → Expr n} {x : RVec n} (h : ∀ i, (e i).InDomain x) {J : RMat m n} (hJ : HasJac (fun y i => (e i).value y) J x)
    {c k g H} (ha : accVector e x = some (c, k, g, H)) :
    c = sqL2 (fun i => (e i).value x) ∧ g = tmv J (fun i => (e i).value x) ∧ H = gram J := by
  obtain ⟨J', g', H', h1, h2, h3, -, h4, -⟩ := C38_vector e x h
  have : J' = J := h2.unique hJ
  subst this
  rw [h1] at ha
  injection ha with ha
  injection ha with a1 a2
  injection a2 with a2 a3
  injection a3 with a3 a4
  subst a1 a3 a4
  refine ⟨?_, ?_, ?_⟩
  · simp [sqL2, pow_two]
  · funext k; exact h3 k
  · funext k l; exact h4 k l

/-- Jacobian and damping for which the damped system can be solved: every parameter acts on some residual and the damping is positive, or the parameters are
determined to first order -/
def JDampable (J : RMat m n) (l : ℝ) : Prop := (0 < l ∧ ∀ k, ∃ i, J i k ≠ 0) ∨ (0 ≤ l ∧ ∀ v, mv J v = 0 → v = 0)

theorem JDampable.dampable {J : RMat m n} {l : ℝ} (h : JDampable J l) : Dampable (gram J) l := by
  rcases h with ⟨h1, h2⟩ | ⟨h1, h2⟩
  · refine Or.inl ⟨gram_psd J, fun k => ?_, h1⟩
    obtain ⟨i, hi⟩ := h2 k
    exact Finset.sum_pos' (fun j _ => mul_self_nonneg _) ⟨i, Finset.mem_univ i, mul_self_pos.2 hi⟩
  · exact Or.inr ⟨gram_pd h2, h1⟩

theorem sumSq_rate {r : RVec n → RVec m} {J : RMat m n} {x : RVec n} (hJ : HasJac r J x) (dx : RVec n) :
    RateAlong (fun y => ∑ i, r y i ^ 2) x dx (2 * dotR (tmv J (r x)) dx) := by
  have h := rateAlong_of_grad (sumSq_grad hJ) dx
  have e : (fun k => 2 * ∑ i, J i k * r x i) ⬝ᵥ dx = 2 * dotR (tmv J (r x)) dx := by
    simp only [dotProduct, dotR, tmv, Finset.mul_sum]
    refine Finset.sum_congr rfl fun k _ => ?_
    simp only [Finset.sum_mul, Finset.mul_sum]
    exact Finset.sum_congr rfl fun i _ => by ring
  rwa [e] at h

variable {so : SolverOpts ℝ} {L : LinAlg ℝ} {P : Problem ℝ R W (RVec n)}

/-- **C58**, Levenberg-Marquardt with automatic differentiation: the step computed from a new system at `x` solves
`(JᵀJ + l diag(JᵀJ)) dx = -Jᵀr` where `J` is the true Jacobian of the residuals at `x`, and along it the sum of squared residuals decreases to first order,
unless its gradient is zero, when the step is zero. -/
theorem C58_lm_step (hL : ExactLinAlg L) {e : Fin m → Expr n} (hP : ADProblem P e) (w : W) (s : LMState ℝ R) (hs : s.gn.n = n) (hr : s.rebuild = true)
    (x : RVec n) (h : ∀ i, (e i).InDomain x) (hm : 0 < m) (hv : nCost so m (∑ i, (e i).value x ^ 2) ≠ maxVal)
    (J : RMat m n) (hJ : HasJac (fun y i => (e i).value y) J x) (hd : JDampable J s.lambda)
    (hmin : DiagOk so (gram J)) (hclip : Unclipped so (tmv J fun i => (e i).value x))
    (hone : Solves so (P.dims == some 1) (dampedR s.lambda (gram J))) :
    ∃ t w' dx, lmBuild so P w s x = (true, t, w') ∧ (lmSolver so L P).solve t = some ⟨n, dx⟩ ∧
      mv (dampedR s.lambda (gram J)) dx = -tmv J (fun i => (e i).value x) ∧
      ∃ ρ, RateAlong (fun y => ∑ i, (e i).value y ^ 2) x dx ρ ∧
        (tmv J (fun i => (e i).value x) ≠ 0 → ρ < 0) ∧ (tmv J (fun i => (e i).value x) = 0 → dx = 0) := by
  obtain ⟨⟨sn, sg, sH, sc⟩, sl, sp, sb, sr⟩ := s
  simp only at hs
  subst hs
  obtain ⟨c, g, H, w', ha, hf⟩ := hP.full w x (fun _ => 0) (fun _ _ => 0) h
  obtain ⟨e1, e2, e3⟩ := accVector_eq h hJ ha
  subst e2 e3
  have hvv : (normalizeCost so (⟨c, m, P.ratio1, ""⟩ : Cost ℝ R)).isValid = true := by
    have h0 : c = ∑ i, (e i).value x ^ 2 := by rw [e1]; simp [sqL2, pow_two]
    have h1 : eq (normalizeCost so (⟨c, m, P.ratio1, ""⟩ : Cost ℝ R)).cost maxVal = false := by
      rw [RealOps.eq_eq_false, normalizeCost_eq _ rfl]
      simpa [h0] using hv
    unfold Cost.isValid ne
    rw [h1, normalizeCost_num]
    simpa using hm
  obtain ⟨-, t, dx, h1, h2, h3, -, h5⟩ := C25_lm_descent_partial (so := so) hL w ⟨⟨sn, sg, sH, sc⟩, sl, sp, sb, sr⟩ x hr hf hvv hmin hclip hd.dampable hone
  refine ⟨t, w', dx, h1, h2, h3, _, sumSq_rate hJ dx, fun h0 => ?_, fun h0 => ?_⟩
  · have := h5 h0; linarith
  · rw [h0, neg_zero, ← mv_zero (dampedR sl (gram J))] at h3
    exact pd_inj hd.dampable.pd h3

/-- **C58**, Gauss-Newton with automatic differentiation: the same with no damping. -/
theorem C58_gn_step (hL : ExactLinAlg L) {e : Fin m → Expr n} (hP : ADProblem P e) (w : W) (s : GNState ℝ R) (hs : s.n = n)
    (x : RVec n) (h : ∀ i, (e i).InDomain x) (hm : 0 < m) (hv : nCost so m (∑ i, (e i).value x ^ 2) ≠ maxVal)
    (J : RMat m n) (hJ : HasJac (fun y i => (e i).value y) J x) (hd : ∀ v, mv J v = 0 → v = 0)
    (hmin : DiagOk so (gram J)) (hclip : Unclipped so (tmv J fun i => (e i).value x))
    (hone : Solves so (P.dims == some 1) (gram J)) :
    ∃ t w' dx, buildSystem so P w s x = (true, t, w') ∧ (gnSolver so L P).solve t = some ⟨n, dx⟩ ∧
      mv (gram J) dx = -tmv J (fun i => (e i).value x) ∧
      ∃ ρ, RateAlong (fun y => ∑ i, (e i).value y ^ 2) x dx ρ ∧
        (tmv J (fun i => (e i).value x) ≠ 0 → ρ < 0) ∧ (tmv J (fun i => (e i).value x) = 0 → dx = 0) := by
  obtain ⟨sn, sg, sH, sc⟩ := s
  simp only at hs
  subst hs
  obtain ⟨c, g, H, w', ha, hf⟩ := hP.full w x (fun _ => 0) (fun _ _ => 0) h
  obtain ⟨e1, e2, e3⟩ := accVector_eq h hJ ha
  subst e2 e3
  have hvv : (normalizeCost so (⟨c, m, P.ratio1, ""⟩ : Cost ℝ R)).isValid = true := by
    have h0 : c = ∑ i, (e i).value x ^ 2 := by rw [e1]; simp [sqL2, pow_two]
    have h1 : eq (normalizeCost so (⟨c, m, P.ratio1, ""⟩ : Cost ℝ R)).cost maxVal = false := by
      rw [RealOps.eq_eq_false, normalizeCost_eq _ rfl]
      simpa [h0] using hv
    unfold Cost.isValid ne
    rw [h1, normalizeCost_num]
    simpa using hm
  obtain ⟨t, dx, h1, h2, h3, -, h5⟩ := C25_gn_descent_partial (so := so) hL w ⟨sn, sg, sH, sc⟩ x hf hvv hmin hclip (gram_pd hd) hone
  refine ⟨t, w', dx, h1, h2, h3, _, sumSq_rate hJ dx, fun h0 => ?_, fun h0 => ?_⟩
  · have := h5 h0; linarith
  · rw [h0, neg_zero, ← mv_zero (gram J)] at h3
    exact pd_inj (gram_pd hd) h3

/-! ### affine residuals -/

theorem hasJac_affine (A : RMat m n) (b : RVec m) (x : RVec n) : HasJac (fun y => mv A y - b) A x := by
  intro i
  have := (hasGrad_dot (A i) x).add (hasGrad_const (-b i) x)
  refine HasGrad.congr_J (J := A i + 0) ?_ (add_zero _)
  convert this using 1
  funext y
  simp [mv, dotProduct, sub_eq_add_neg]

theorem affine_adProblem {e : Fin m → Expr n} {A : RMat m n} {b : RVec m} (hP : ADProblem P e) (hV : VecParams P) (hm : 0 < m)
    (he : ∀ y i, (e i).InDomain y ∧ (e i).value y = mv A y i - b i) : LinLS P A b where
  pos := hm
  nonneg := fun _ h => h
  mono := fun _ _ _ h => h
  full w x := by
    have hd : ∀ i, (e i).InDomain x := fun i => (he x i).1
    have hval : (fun y i => (e i).value y) = fun y : RVec n => mv A y - b := by funext y i; exact (he y i).2
    obtain ⟨c, g, H, w', ha, hf⟩ := hP.full w x (fun _ => 0) (fun _ _ => 0) hd
    have hJ : HasJac (fun y i => (e i).value y) A x := by rw [hval]; exact hasJac_affine A b x
    obtain ⟨e1, e2, e3⟩ := accVector_eq hd hJ ha
    have hx : (fun i => (e i).value x) = mv A x - b := congrFun hval x
    rw [hx] at e1 e2
    subst e1 e2 e3
    exact ⟨_, w', hf, rfl, rfl⟩
  eval w x := by
    obtain ⟨w', hw⟩ := hP.eval w x (fun i => (he x i).1)
    rw [hw]
    have hx : (fun i => (e i).value x) = mv A x - b := by funext i; exact (he x i).2
    rw [hx]
    exact ⟨rfl, rfl⟩
  dyn := hV.dyn
  size := hV.size
  plus := hV.plus

theorem affine_numProblem {method : Method} {h : ℝ} {A : RMat m n} {b : RVec m} (hP : NumProblem P (fun y => mv A y - b) method h) (hh : h ≠ 0)
    (hV : VecParams P) (hm : 0 < m) : LinLS P A b Real.sqrt where
  pos := hm
  nonneg := fun _ _ => Real.sqrt_nonneg _
  mono := fun _ _ h0 h => Real.sqrt_lt_sqrt h0 h
  full w x := by
    obtain ⟨J0, w', hf⟩ := hP.full w x (fun _ => 0) (fun _ _ => 0)
    have e : (fun y : RVec n => mv A y - b) = fun y => A *ᵥ y + (-b) := by
      funext y i; simp [mv, mulVec, dotProduct, sub_eq_add_neg]
    have hJ := C35_affine A (-b) x method h hh J0
    rw [← e] at hJ
    simp only [numDiffAcc2, hJ] at hf
    exact ⟨_, w', hf, rfl, rfl⟩
  eval w x := by
    obtain ⟨w', hw⟩ := hP.eval w x
    rw [hw]
    exact ⟨rfl, rfl⟩
  dyn := hV.dyn
  size := hV.size
  plus := hV.plus

variable {o : Options ℝ W (DVec ℝ)}

/-- the sum of the squared residuals -/
def sumSq (r : RVec n → RVec m) (y : RVec n) : ℝ := ∑ i, r y i ^ 2

theorem lsCost_sumSq (A : RMat m n) (b : RVec m) : lsCost A b = sumSq (fun y => mv A y - b) := by
  funext y; simp [lsCost, dotR, sumSq, pow_two]

/-- **C58**, affine residuals and automatic differentiation: if the expressions the user wrote compute the affine functions `A y - b`, with `A` of full column rank, then
every Gauss-Newton run ends at the unique global minimiser of the sum of squared residuals, and is there after the first iteration. -/
theorem C58_gn_affine_autodiff (hL : ExactLinAlg L) {e : Fin m → Expr n} {A : RMat m n} {b : RVec m} (hP : ADProblem P e) (hV : VecParams P) (hm : 0 < m)
    (he : ∀ y i, (e i).InDomain y ∧ (e i).value y = mv A y i - b i) (hA : ∀ v, mv A v = 0 → v = 0)
    (hone : Solves so (P.dims == some 1) (gram A)) (hmin : DiagOk so (gram A)) (hclip : so.gradClip = 0)
    (s : GNState ℝ R) (hs : P.dims = none ∨ s.n = n) (fuel : Nat) (mi k : Int) (hk : loopBound o mi = some k)
    (w : W) (x0 : RVec n) (hx0 : nCost so m (sumSq (fun y i => (e i).value y) x0) < maxVal) :
    ∃ xs, (∀ y, y ≠ xs → sumSq (fun y i => (e i).value y) xs < sumSq (fun y i => (e i).value y) y) ∧
      ∃ st, optimizeAcc (gnEnv so L P) o (fuel + 1) mi w s x0 = .ok st ∧ st.x = xs ∧
        ∀ i r, st.trace[i]? = some r → 0 < i → r.x = xs := by
  have hval : (fun y i => (e i).value y) = fun y : RVec n => mv A y - b := by funext y i; exact (he y i).2
  rw [hval, ← lsCost_sumSq] at hx0 ⊢
  exact C28_gn_one_step (affine_adProblem hP hV hm he) hL hA hone hmin hclip s hs fuel mi k hk w x0 hx0

/-- **C58**, affine residuals and numerical differentiation, with every method and every step size. -/
theorem C58_gn_affine_numdiff (hL : ExactLinAlg L) {f : RVec n → RVec m} {method : Method} {h : ℝ} (hh : h ≠ 0) {A : RMat m n} {b : RVec m}
    (hP : NumProblem P f method h) (hV : VecParams P) (hm : 0 < m) (hf : ∀ y i, f y i = mv A y i - b i) (hA : ∀ v, mv A v = 0 → v = 0)
    (hone : Solves so (P.dims == some 1) (gram A)) (hmin : DiagOk so (gram A)) (hclip : so.gradClip = 0)
    (s : GNState ℝ R) (hs : P.dims = none ∨ s.n = n) (fuel : Nat) (mi k : Int) (hk : loopBound o mi = some k)
    (w : W) (x0 : RVec n) (hx0 : nCost so m √(sumSq f x0) < maxVal) :
    ∃ xs, (∀ y, y ≠ xs → sumSq f xs < sumSq f y) ∧
      ∃ st, optimizeAcc (gnEnv so L P) o (fuel + 1) mi w s x0 = .ok st ∧ st.x = xs ∧
        ∀ i r, st.trace[i]? = some r → 0 < i → r.x = xs := by
  have hval : f = fun y : RVec n => mv A y - b := by funext y i; exact hf y i
  subst hval
  rw [← lsCost_sumSq] at hx0 ⊢
  exact C28_gn_one_step (affine_numProblem hP hh hV hm) hL hA hone hmin hclip s hs fuel mi k hk w x0 hx0

/-- **C58**, affine residuals with Levenberg-Marquardt (automatic or numerical differentiation): every iteration decreases the sum of squares, or is at a zero of its
gradient and stays there. -/
theorem C58_lm_affine (hL : ExactLinAlg L) {A : RMat m n} {b : RVec m} (hV : VecParams P) (hm : 0 < m)
    (hP : (∃ e : Fin m → Expr n, ADProblem P e ∧ ∀ y i, (e i).InDomain y ∧ (e i).value y = mv A y i - b i) ∨
      (∃ f method h, h ≠ 0 ∧ NumProblem P f method h ∧ ∀ y i, f y i = mv A y i - b i))
    (hA : ∀ l, Allowed so l → PD (dampedR l (gram A)))
    (hone : so.useLdlt = true ∨ P.dims ≠ some 1) (hr0 : so.dampLo ≤ so.dampHi) (hlo : 0 ≤ so.dampLo) (hin : 0 ≤ so.dampInit)
    (hmin : DiagOk so (gram A)) (hclip : so.gradClip = 0)
    (s : LMState ℝ R) (hs : P.dims = none ∨ s.gn.n = n) (hreb : s.rebuild = true) (hal : Allowed so s.lambda)
    (fuel : Nat) (mi k : Int) (hk : loopBound o mi = some k) (hk2 : k ≤ 65536)
    (w : W) (x0 : RVec n) (hx0 : nCost so m (sumSq (fun y => mv A y - b) x0) < maxVal) (hx0' : nCost so m √(sumSq (fun y => mv A y - b) x0) < maxVal) :
    ∃ st, optimizeAcc (lmEnv so L P) o (fuel + 1) mi w s x0 = .ok st ∧
      ∀ r ∈ st.trace, sumSq (fun y => mv A y - b) r.xNext < sumSq (fun y => mv A y - b) r.x ∨ (r.xNext = r.x ∧ tmv A (mv A r.x - b) = 0) := by
  rw [← lsCost_sumSq] at hx0 hx0' ⊢
  have fin : (∃ st, optimizeAcc (lmEnv so L P) o (fuel + 1) mi w s x0 = .ok st ∧ ∀ r ∈ st.trace, Downhill A b r.x r.xNext) →
      ∃ st, optimizeAcc (lmEnv so L P) o (fuel + 1) mi w s x0 = .ok st ∧
        ∀ r ∈ st.trace, lsCost A b r.xNext < lsCost A b r.x ∨ (r.xNext = r.x ∧ tmv A (mv A r.x - b) = 0) := by
    rintro ⟨st, h1, h2⟩
    refine ⟨st, h1, fun r hr => ?_⟩
    by_cases h0 : lsGrad A b r.x = 0
    · exact Or.inr ⟨(h2 r hr).2 h0, h0⟩
    · exact Or.inl ((h2 r hr).1 h0)
  apply fin
  rcases hP with ⟨e, hP, he⟩ | ⟨f, method, h, hh, hP, hf⟩
  · exact C52_lm_monotone (affine_adProblem hP hV hm he) hL hA hone hr0 hlo hin hmin hclip s hs hreb hal fuel mi k hk hk2 w x0 hx0
  · have hval : f = fun y : RVec n => mv A y - b := by funext y i; exact hf y i
    subst hval
    exact C52_lm_monotone (affine_numProblem hP hh hV hm) hL hA hone hr0 hlo hin hmin hclip s hs hreb hal fuel mi k hk hk2 w x0 hx0'

/-! ### C59: automatic against numerical differentiation -/

/-- **C59** fails: for the same residuals, automatic differentiation reports the sum of the squares as the cost and numerical differentiation its square root; the
residual `x - 1` at `x = 3` costs 4 and 2. -/
theorem C59_costs_differ :
    (∀ (e : Fin m → Expr n) (x : RVec n), (∀ i, (e i).InDomain x) → ∀ method h J0, ∃ g H,
      accVector e x = some ((numDiffAcc2 vplus (fun y i => (e i).value y) x method h J0).1 ^ 2, m, g, H)) ∧
    ∃ (e : Fin 1 → Expr 1) (x : RVec 1), (∀ i, (e i).InDomain x) ∧ (∃ g H, accVector e x = some (4, 1, g, H)) ∧
      ∀ method h J0, (numDiffAcc2 vplus (fun y i => (e i).value y) x method h J0).1 = 2 := by
  constructor
  · intro e x hd method h J0
    obtain ⟨J, g, H, h1, -⟩ := C38_vector e x hd
    refine ⟨g, H, ?_⟩
    rw [h1]
    simp only [numDiffAcc2, l2]
    rw [Real.sq_sqrt (Finset.sum_nonneg fun i _ => mul_self_nonneg _)]
    simp [pow_two]
  · refine ⟨fun _ => .op1 (.subS 1) (.var 0), fun _ => 3, fun _ => ⟨trivial, Or.inl trivial⟩, ?_, ?_⟩
    · obtain ⟨J, g, H, h1, -⟩ := C38_vector (m := 1) (n := 1) (fun _ => .op1 (.subS 1) (.var 0)) (fun _ => 3) fun _ => ⟨trivial, Or.inl trivial⟩
      refine ⟨g, H, ?_⟩
      rw [h1]
      simp [Expr.value, fn1]; norm_num
    · intro method h J0
      simp only [numDiffAcc2, l2, Expr.value, fn1]
      rw [show (∑ _i : Fin 1, ((3 : ℝ) - 1) * (3 - 1)) = 2 ^ 2 by norm_num]
      exact Real.sqrt_sq (by norm_num)

/-- **C59** (partial): on residuals that are affine (with any method) or quadratic (with a central method), automatic and numerical differentiation accumulate the same
gradient and Hessian, and compare any two points the same way. Missing: equal costs, which fails (`C59_costs_differ`); other residuals, where the
numerical Jacobian is approximate (C35). -/
theorem C59_same_system_partial (e : Fin m → Expr n) (Q : Fin m → RMat n n) (A : RMat m n) (b : RVec m) (x : RVec n) (method : Method) (h : ℝ) (hh : h ≠ 0)
    (he : ∀ y i, (e i).InDomain y ∧ (e i).value y = y ⬝ᵥ (Q i *ᵥ y) + A i ⬝ᵥ y + b i) (hm : Q = 0 ∨ method ≠ .forward) (J0 : RMat m n) :
    (∃ c, accVector e x = some (c, m, (numDiffAcc2 vplus (fun y i => (e i).value y) x method h J0).2)) ∧
    ∀ y J0' c c' g g' H H', accVector e x = some (c, m, g, H) → accVector e y = some (c', m, g', H') →
      ((numDiffAcc2 vplus (fun y i => (e i).value y) x method h J0).1 < (numDiffAcc2 vplus (fun y i => (e i).value y) y method h J0').1 ↔ c < c') := by
  have hval : (fun y i => (e i).value y) = quadratic Q A b := by funext y i; exact (he y i).2
  have hd : ∀ y, ∀ i, (e i).InDomain y := fun y i => (he y i).1
  constructor
  · obtain ⟨J, g, H, h1, h2, h3, -, h4, -⟩ := C38_vector e x (hd x)
    have hJ : J = estimateNumJac vplus (quadratic Q A b) x method h J0 := by
      rw [hval] at h2
      rcases hm with hQ | hm
      · have e1 : quadratic Q A b = fun y => A *ᵥ y + b := by
          funext y i; simp [quadratic, hQ, mulVec]
        rw [e1, C35_affine A b x method h hh J0]
        rw [e1] at h2
        refine h2.unique fun i => ?_
        have := (hasGrad_dot (A i) x).add (hasGrad_const (b i) x)
        refine HasGrad.congr_J (J := A i + 0) ?_ (add_zero _)
        exact this
      · exact h2.unique (C35_quadratic Q A b x method hm h hh J0)
    refine ⟨∑ i, (e i).value x ^ 2, h1.trans ?_⟩
    suffices hs : (g, H) = (numDiffAcc2 vplus (fun y i => (e i).value y) x method h J0).2 by rw [← hs]
    refine Prod.ext ?_ ?_
    · funext k
      show g k = _
      rw [h3 k]
      simp only [numDiffAcc2, hval, ← hJ]
      have : ∀ i, (e i).value x = quadratic Q A b x i := fun i => congrFun (congrFun hval x) i
      simp only [this]
      rfl
    · funext k l
      show H k l = _
      rw [h4 k l]
      simp only [numDiffAcc2, hval, ← hJ]
      rfl
  · intro y J0' c c' g g' H H' hx hy
    obtain ⟨_, _, _, h1, -⟩ := C38_vector e x (hd x)
    obtain ⟨_, _, _, h2, -⟩ := C38_vector e y (hd y)
    rw [h1] at hx
    rw [h2] at hy
    have e1 := (Prod.mk.inj (Option.some.inj hx)).1
    have e2 := (Prod.mk.inj (Option.some.inj hy)).1
    subst e1 e2
    simp only [numDiffAcc2, l2, ← pow_two]
    exact Real.sqrt_lt_sqrt_iff (Finset.sum_nonneg fun i _ => sq_nonneg _)

end

/-! ### non-vacuity -/

/-- optimization of the residuals `e` with automatic differentiation, for a static size -/
noncomputable def adProbV {n m} (e : Fin m → Expr n) : Problem ℝ ℝ Unit (RVec n) where
  acc := {
    full := fun w x k g H => if h : k = n then
        match accVector e x with
        | some (v, k, g', H') => ((⟨v, k, 1, ""⟩, h ▸ g', h ▸ H'), w)
        | none => ((⟨0, 0, 1, ""⟩, g, H), w)
      else ((⟨0, 0, 1, ""⟩, g, H), w)
    eval := fun w x => (⟨sqL2 fun i => (e i).value x, m, 1, ""⟩, w) }
  dims := some n
  dynDims := fun _ => n
  plusEq := fun x v => if h : v.n = n then x + h ▸ v.v else x
  clock := fun w => (0, w)
  alloc := fun w _ => (none, w)
  ratio1 := 1

theorem adProbV_ad {n m} (e : Fin m → Expr n) : ADProblem (adProbV e) e where
  full w x g0 H0 h := by
    obtain ⟨J, g, H, h1, -⟩ := C38_vector e x h
    refine ⟨_, g, H, (), h1, ?_⟩
    simp only [adProbV, h1, dif_pos]
    rfl
  eval w x h := ⟨(), rfl⟩

theorem adProbV_vec {n m} (e : Fin m → Expr n) : VecParams (adProbV e) where
  dyn _ := rfl
  size := Or.inl rfl
  plus x v := by simp [adProbV]

/-- optimization of the residuals `f` with numerical differentiation, for a dynamic size -/
noncomputable def numProbV {n m} (f : RVec n → RVec m) (method : Method) (h : ℝ) : Problem ℝ ℝ Unit (RVec n) where
  acc := {
    full := fun w x k g H => if e : k = n then
        ((⟨(numDiffAcc2 vplus f x method h 0).1, m, 1, ""⟩, e ▸ (numDiffAcc2 vplus f x method h 0).2.1, e ▸ (numDiffAcc2 vplus f x method h 0).2.2), w)
      else ((⟨0, 0, 1, ""⟩, g, H), w)
    eval := fun w x => (⟨l2 (f x), m, 1, ""⟩, w) }
  dims := none
  dynDims := fun _ => n
  plusEq := fun x v => if h : v.n = n then x + h ▸ v.v else x
  clock := fun w => (0, w)
  alloc := fun w _ => (some (fun _ => 7, fun _ _ => 7), w)
  ratio1 := 1

theorem numProbV_num {n m} (f : RVec n → RVec m) (method : Method) (h : ℝ) : NumProblem (numProbV f method h) f method h where
  full w x g0 H0 := ⟨0, (), by simp only [numProbV, dif_pos]; rfl⟩
  eval w x := ⟨(), rfl⟩

theorem numProbV_vec {n m} (f : RVec n → RVec m) (method : Method) (h : ℝ) (hn : 0 < n) : VecParams (numProbV f method h) where
  dyn _ := rfl
  size := Or.inr ⟨rfl, hn, fun _ _ => ⟨_, _, rfl⟩⟩
  plus x v := by simp [numProbV]

/-- the residuals `p + q t - y` of `line3`, as written by a user: expressions of jets -/
noncomputable def line3E : Fin 3 → Expr 2 := fun i =>
  .op1 (.subS (line3b i)) (.op2 .add (.var 0) (.op1 (.mulS (i.1 : ℝ)) (.var 1)))

/-- all hypotheses of the C58 theorems are met by the fit of a line to three points, written with jets (static size) or numerically differentiated (dynamic size);
the gradient at 0 is not zero -/
example : ADProblem (adProbV line3E) line3E ∧ VecParams (adProbV line3E) ∧
    (∀ y i, (line3E i).InDomain y ∧ (line3E i).value y = mv line3 y i - line3b i) ∧ (∀ v, mv line3 v = 0 → v = 0) ∧
    (∀ method, ∀ h : ℝ, NumProblem (numProbV (fun y => mv line3 y - line3b) method h) (fun y => mv line3 y - line3b) method h ∧
      VecParams (numProbV (fun y => mv line3 y - line3b) method h)) ∧
    HasJac (fun y i => (line3E i).value y) line3 0 ∧ JDampable line3 0 ∧ tmv line3 (fun i => (line3E i).value 0) ≠ 0 ∧
    Solves soptsR ((adProbV line3E).dims == some 1) (gram line3) ∧ DiagOk soptsR (gram line3) ∧ soptsR.gradClip = 0 ∧
    nCost soptsR 3 (sumSq (fun y i => (line3E i).value y) 0) < maxVal := by
  have hv : ∀ y i, (line3E i).value y = mv line3 y i - line3b i := by
    intro y i
    simp [line3E, Expr.value, fn1, fn2, mv, line3, Fin.sum_univ_two]
    ring
  have hv' : (fun y i => (line3E i).value y) = fun y : RVec 2 => mv line3 y - line3b := by funext y i; exact hv y i
  refine ⟨adProbV_ad _, adProbV_vec _, fun y i => ⟨⟨⟨trivial, ⟨trivial, Or.inl trivial⟩, Or.inl trivial⟩, Or.inl trivial⟩, hv y i⟩, line3_rank,
    fun method h => ⟨numProbV_num _ _ _, numProbV_vec _ _ _ (by decide)⟩, by rw [hv']; exact hasJac_affine _ _ _, Or.inr ⟨le_refl _, line3_rank⟩, ?_, Or.inl rfl,
    Or.inl (le_refl _), rfl, ?_⟩
  · intro h
    have e0 : (fun i => (line3E i).value 0) = mv line3 0 - line3b := congrFun hv' 0
    rw [e0] at h
    have := congrFun h 0
    simp [tmv, mv, line3, line3b, Fin.sum_univ_succ] at this
    norm_num at this
  · rw [hv', show sumSq (fun y : RVec 2 => mv line3 y - line3b) = lsCost line3 line3b from (lsCost_sumSq line3 line3b).symm]; exact line3_start

/-- the hypotheses of `C59_same_system_partial` are met: `line3E` with any method, and the residual `x²` with a central method -/
example : (∀ y i, (line3E i).InDomain y ∧ (line3E i).value y = y ⬝ᵥ ((0 : Fin 3 → RMat 2 2) i *ᵥ y) + line3 i ⬝ᵥ y + (-line3b) i) ∧
    ∀ (y : RVec 1) (i : Fin 1), (Expr.op2 .mul (.var 0) (.var 0)).InDomain y ∧
      (Expr.op2 .mul (.var 0) (.var 0)).value y = y ⬝ᵥ ((fun _ => 1 : Fin 1 → RMat 1 1) i *ᵥ y) + (0 : RMat 1 1) i ⬝ᵥ y + (0 : RVec 1) i := by
  refine ⟨fun y i => ⟨⟨⟨trivial, ⟨trivial, Or.inl trivial⟩, Or.inl trivial⟩, Or.inl trivial⟩, ?_⟩, fun y i => ⟨⟨trivial, trivial, Or.inl trivial⟩, ?_⟩⟩
  · simp [line3E, Expr.value, fn1, fn2, line3, dotProduct, Fin.sum_univ_two]
    ring
  · have : i = 0 := Subsingleton.elim _ _
    subst this
    simp [Expr.value, fn2, dotProduct]

end Loss
end Verif
