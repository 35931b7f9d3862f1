import Verif.Model.PriorBench
import Verif.Lemmas.QuadRun
import Verif.Lemmas.Contracting
import Verif.Props.GivesUp
/-!
# C139: the benchmark "Prior"

The two branches of the cost function do not agree: the vector is taken as standard deviations by one and as variances by the other. As long as no step is rejected the second branch is
not called, and every Levenberg-Marquardt step multiplies the error by exactly `λ / (1 + λ)`, whatever the standard deviations.
-/

namespace Verif.Prior
open Loss FloatOps

variable {n : Nat}

theorem costFull_eq (y σ x : RVec n) : costFull y σ x = ∑ i, (x i - y i) ^ 2 / σ i ^ 2 := by
  refine Finset.sum_congr rfl fun i _ => ?_
  simp only [res, whitenDev, Pi.sub_apply]
  ring

theorem costEval_eq (y σ x : RVec n) : costEval y σ x = ∑ i, (x i - y i) ^ 2 / σ i := by
  unfold costEval mahaSqVar
  refine Finset.sum_congr rfl fun i _ => ?_
  rw [Matrix.mulVec_diagonal]
  simp only [Pi.sub_apply]
  ring

theorem grad_eq (y σ x : RVec n) : grad y σ x = fun i => (x i - y i) / σ i ^ 2 := by
  funext i
  unfold grad whitenDevJ
  rw [Matrix.mulVec_diagonal]
  simp only [res, whitenDev, Pi.sub_apply]
  ring

/-- **C139, derivatives**: the branch with derivatives returns half the gradient of its cost, and with a cleared matrix `JᵀJ`. -/
theorem C139_derivs (y σ x : RVec n) : HasGrad (costFull y σ) ((2 : ℝ) • grad y σ x) x ∧ hess σ (fun _ _ => 0) = gram fun k i => whitenDevJ σ k i := by
  constructor
  · have h := hasGrad_sep (φ := fun i t => (t - y i) ^ 2 / σ i ^ 2) (J := (2 : ℝ) • grad y σ x) (x := x) fun i => by
      have h1 := ((hasDerivAt_id (x i)).sub_const (y i)).pow 2
      have h2 := h1.div_const (σ i ^ 2)
      refine h2.congr_deriv ?_
      rw [grad_eq]
      simp only [Pi.smul_apply, smul_eq_mul, id]
      norm_num
      ring
    exact h.congr_near (Filter.Eventually.of_forall fun z => costFull_eq y σ z)
  · funext i j
    unfold hess gram whitenDevJ
    by_cases h : i = j
    · subst h
      simp [Matrix.diagonal_apply]
    · rw [if_neg h]
      symm
      refine Finset.sum_eq_zero fun k _ => ?_
      by_cases hk : k = i
      · subst hk
        show Matrix.diagonal _ k k * Matrix.diagonal _ k j = 0
        rw [Matrix.diagonal_apply_ne _ h, mul_zero]
      · show Matrix.diagonal _ k i * Matrix.diagonal _ k j = 0
        rw [Matrix.diagonal_apply_ne _ hk, zero_mul]

/-- **C139 is violated (the benchmark function)**: with and without derivatives `loss2` returns different costs unless every standard deviation is 1, because `MahaWhitened` takes standard
deviations and `MahaSquaredNorm` variances; and if one of them is negative, as half of the coefficients of `Random()` are, the cost without derivatives is negative somewhere. -/
theorem C139_branches (y σ : RVec n) (hσ : ∀ i, σ i ≠ 0) :
    ((∀ x, costEval y σ x = costFull y σ x) ↔ ∀ i, σ i = 1) ∧ ((∃ i, σ i < 0) → ∃ x, costEval y σ x < 0 ∧ 0 < costFull y σ x) := by
  have key : ∀ i (p : ℝ → ℝ), (∑ j, (((y + Pi.single i 1 : RVec n) j - y j) ^ 2 / p (σ j))) = 1 / p (σ i) := by
    intro i p
    rw [Finset.sum_eq_single i]
    · simp
    · intro j _ hj
      simp [Pi.single_eq_of_ne hj]
    · simp
  refine ⟨⟨fun h i => ?_, fun h x => ?_⟩, fun ⟨i, hi⟩ => ⟨y + Pi.single i 1, ?_, ?_⟩⟩
  · have := h (y + Pi.single i 1)
    rw [costEval_eq, costFull_eq, key i (fun t => t), key i (fun t => t ^ 2)] at this
    have h1 := hσ i
    field_simp at this
    linarith
  · rw [costEval_eq, costFull_eq]
    exact Finset.sum_congr rfl fun i _ => by rw [h i]; norm_num
  · rw [costEval_eq, key i (fun t => t)]
    exact one_div_neg.2 hi
  · rw [costFull_eq, key i (fun t => t ^ 2)]
    have := hσ i
    positivity

/-- **C139, partial**: the two branches return the same cost where all parameters with a standard deviation other than 1 are at the prior. Missing: the other points, where they need not
(`C139_branches`). -/
theorem C139_branches_partial (y σ x : RVec n) (h : ∀ i, x i = y i ∨ σ i = 1) : costEval y σ x = costFull y σ x := by
  rw [costEval_eq, costFull_eq]
  refine Finset.sum_congr rfl fun i _ => ?_
  rcases h i with h | h
  · rw [h]; simp
  · rw [h]; norm_num

section
variable {R W : Type} {so : SolverOpts ℝ} {LA : LinAlg ℝ} {P : Problem ℝ R W (RVec n)} {o : Options ℝ W (DVec ℝ)} {y σ : RVec n} {m : Nat}

/-- the problem of the benchmark: the cost function `loss2`, on fixed or dynamic sizes -/
structure PriorProb (P : Problem ℝ R W (RVec n)) (y σ : RVec n) (m : Nat) : Prop extends VecParams P where
  pos : 0 < m
  full : ∀ w x g H, ∃ c w', P.acc.full w x n g H = ((c, grad y σ x, hess σ H), w') ∧ c.cost = costFull y σ x ∧ c.num = m
  eval : ∀ w x, (P.acc.eval w x).1.cost = costEval y σ x ∧ (P.acc.eval w x).1.num = m

/-- the same problem with the cost of the other branch in the evaluations -/
noncomputable def repaired (P : Problem ℝ R W (RVec n)) (y σ : RVec n) (m : Nat) : Problem ℝ R W (RVec n) :=
  { P with acc := { P.acc with eval := fun w x => (⟨costFull y σ x, m, P.ratio1, ""⟩, w) } }

theorem repaired_quad (h : PriorProb P y σ m) : UserQuad (repaired P y σ m) (fun _ => True) (costFull y σ) (grad y σ) (fun _ => hess σ fun _ _ => 0) m where
  dyn := h.dyn
  size := h.size
  plus := h.plus
  pos := h.pos
  psd x _ := by
    refine ⟨fun i j => ?_, fun v => ?_⟩
    · unfold hess
      by_cases hij : i = j
      · rw [hij]
      · rw [if_neg hij, if_neg (Ne.symm hij)]
    · refine Finset.sum_nonneg fun i _ => ?_
      simp only [mv, hess, ite_mul, zero_mul, Finset.sum_ite_eq, Finset.mem_univ, if_true]
      have : v i * ((σ i)⁻¹ * (σ i)⁻¹ * v i) = ((σ i)⁻¹ * v i) ^ 2 := by ring
      rw [this]; positivity
  full w x _ := h.full w x _ _
  eval w x _ := ⟨rfl, rfl⟩

theorem hess_pd (hσ : ∀ i, σ i ≠ 0) {l : ℝ} (hl : 0 ≤ l) : PD (dampedR l (hess σ fun _ _ => 0)) := by
  refine ⟨fun i j => ?_, fun v hv => ?_⟩
  · unfold dampedR hess
    by_cases hij : i = j
    · rw [hij]
    · rw [if_neg hij, if_neg hij, if_neg (Ne.symm hij), if_neg (Ne.symm hij)]
  · have e : ∀ i, mv (dampedR l (hess σ fun _ _ => 0)) v i = (1 + l) * ((σ i)⁻¹ * (σ i)⁻¹) * v i := by
      intro i
      unfold mv dampedR hess
      rw [Finset.sum_eq_single i]
      · simp only [if_true]; ring
      · intro j _ hj
        rw [if_neg (Ne.symm hj), if_neg (Ne.symm hj)]; ring
      · simp
    obtain ⟨i, hi⟩ : ∃ i, v i ≠ 0 := by
      by_contra hc
      push Not at hc
      exact hv (funext hc)
    refine Finset.sum_pos' (fun j _ => ?_) ⟨i, Finset.mem_univ _, ?_⟩
    · rw [e]
      have : v j * ((1 + l) * ((σ j)⁻¹ * (σ j)⁻¹) * v j) = (1 + l) * ((σ j)⁻¹ * v j) ^ 2 := by ring
      rw [this]; positivity
    · rw [e]
      have : v i * ((1 + l) * ((σ i)⁻¹ * (σ i)⁻¹) * v i) = (1 + l) * ((σ i)⁻¹ * v i) ^ 2 := by ring
      have := hσ i
      rw [‹v i * _ = _›]; positivity

theorem prior_mv (hσ : ∀ i, σ i ≠ 0) {l : ℝ} (hl : 0 ≤ l) (x : RVec n) :
    mv (dampedR l (hess σ fun _ _ => 0)) (-(1 / (1 + l)) • (x - y)) = -grad y σ x := by
  have h1 : 1 + l ≠ 0 := by positivity
  funext i
  rw [grad_eq]
  unfold mv dampedR hess
  rw [Finset.sum_eq_single i]
  · have := hσ i
    simp only [if_true, Pi.smul_apply, Pi.sub_apply, Pi.neg_apply, smul_eq_mul]
    field_simp
  · intro j _ hj
    rw [if_neg (Ne.symm hj), if_neg (Ne.symm hj)]; ring
  · simp

theorem prior_delivers (h : PriorProb P y σ m) (hσ : ∀ i, σ i ≠ 0) (hL : ExactLinAlg LA) (hr0 : so.dampLo ≤ so.dampHi) (hclip : so.gradClip = 0) (w : W) (s : LMState ℝ R)
    (hs : P.dims = none ∨ s.gn.n = n) (x : RVec n) (hreb : s.rebuild = true) (hl0 : 0 ≤ s.lambda)
    (hone : so.useLdlt = true ∨ P.dims ≠ some 1) (hmin : DiagOk so (hess σ fun _ _ => 0)) (hx : nCost so m (costFull y σ x) ≠ maxVal) :
    ∃ c, Delivers (lmEnv so LA P) w s x { s with gn := ⟨n, grad y σ x, dampedR s.lambda (hess σ fun _ _ => 0), c⟩ } ⟨n, -(1 / (1 + s.lambda)) • (x - y)⟩ ∧
      c.cost = nCost so m (costFull y σ x) := by
  have hgood : ∀ (s2 : LMState ℝ R) q, ∃ s', lmGood so s2 q = .ok s' := by
    intro s2 q; unfold lmGood; rw [stdClamp_real hr0]; exact ⟨_, rfl⟩
  have hbad : ∀ (s2 : LMState ℝ R), ∃ s', lmBad so s2 = .ok s' := by
    intro s2; unfold lmBad; rw [stdClamp_real hr0]; exact ⟨_, rfl⟩
  obtain ⟨g1, w1, hr, hn1, -⟩ := resize_works h.toVecParams w s.gn hs
  obtain ⟨c, w2, hb, hc, hvalid⟩ := quad_build (repaired_quad h) hclip w1 g1 hn1 x trivial hmin hx
  have hb0 : buildSystem so P w1 g1 x = (true, ⟨n, grad y σ x, hess σ fun _ _ => 0, c⟩, w2) := hb
  have hr' : (lmSolver so LA P).resize w s n = (.done { s with gn := g1 }, w1) := by
    simp only [lmSolver, hr]
  have hb' : lmBuild so P w1 { s with gn := g1 } x = (true, { s with gn := ⟨n, grad y σ x, dampedR s.lambda (hess σ fun _ _ => 0), c⟩ }, w2) := by
    unfold lmBuild
    simp only [hreb, if_true]
    rw [hb0]
    simp only [if_true]
    have := lmDamp_ls (R := R) (s := s) hreb hl0 (g := grad y σ x) (H := hess σ fun _ _ => 0) (c := c)
    rw [hreb] at this
    rw [this]
  have hone' : Solves so (P.dims == some 1) (dampedR s.lambda (hess σ fun _ _ => 0)) := by
    rcases hone with h1 | h1
    · exact Or.inl h1
    · right; left
      rw [beq_eq_false_iff_ne]; exact h1
  have hpd := hess_pd hσ hl0
  obtain ⟨v', h1, h2⟩ := gnSolve_pd (so := so) hL (P.dims == some 1) ⟨n, grad y σ x, dampedR s.lambda (hess σ fun _ _ => 0), c⟩ hvalid hpd hone'
  obtain rfl : v' = _ := pd_inj hpd (h2.trans (prior_mv hσ hl0 x).symm)
  exact ⟨c, ⟨⟨_, w1, w2, resizeIfNeeded_works h.toVecParams hr', hb'⟩, h1, rfl, rfl, fun q => hgood _ q, hbad _⟩, hc⟩

theorem costFull_scale (y σ x : RVec n) (c : ℝ) : costFull y σ (y + c • (x - y)) = c ^ 2 * costFull y σ x := by
  rw [costFull_eq, costFull_eq, Finset.mul_sum]
  refine Finset.sum_congr rfl fun i _ => ?_
  simp only [Pi.add_apply, Pi.smul_apply, Pi.sub_apply, smul_eq_mul]
  ring

theorem costFull_pos (hσ : ∀ i, σ i ≠ 0) {x : RVec n} (hx : x ≠ y) : 0 < costFull y σ x := by
  obtain ⟨i, hi⟩ : ∃ i, x i ≠ y i := by
    by_contra hc
    push Not at hc
    exact hx (funext hc)
  rw [costFull_eq]
  refine Finset.sum_pos' (fun j _ => by positivity) ⟨i, Finset.mem_univ _, ?_⟩
  have h1 := hσ i
  have h2 : x i - y i ≠ 0 := sub_ne_zero.2 hi
  positivity

theorem costFull_nonneg (y σ x : RVec n) : 0 ≤ costFull y σ x := by
  rw [costFull_eq]; exact Finset.sum_nonneg fun i _ => by positivity

/-- **C139, the rate.** Levenberg-Marquardt on the function of the benchmark, in exact arithmetic, with any nonzero vector of standard deviations, negative ones and badly scaled ones
included: every step is accepted, step `i` multiplies the error `x - y` by exactly `λ / (1 + λ)` with a damping `λ` of at most the initial one, and the run ends as converged. The branch without derivatives
is never called. -/
theorem C139_rate (h : PriorProb P y σ m) (hσ : ∀ i, σ i ≠ 0) (hL : ExactLinAlg LA) (hlo : 0 ≤ so.dampLo) (hr0 : so.dampLo ≤ so.dampHi)
    (hg0 : 0 ≤ so.goodFactor) (hg1 : so.goodFactor ≤ 1) (hone : so.useLdlt = true ∨ P.dims ≠ some 1) (hmin : DiagOk so (hess σ fun _ _ => 0)) (hclip : so.gradClip = 0)
    (ho : Unwatched o) (hq : o.useStepQuality = false) (hms : 0 < o.minStepNorm2)
    (s : LMState ℝ R) (hs : P.dims = none ∨ s.gn.n = n) (hreb : s.rebuild = true) (hl0 : so.dampLo ≤ s.lambda) (hbf : s.badF = so.badFactor)
    (x0 : RVec n) (hx0 : nCost so m (costFull y σ x0) < maxVal) {N : Nat}
    (hN : ((s.lambda / (1 + s.lambda)) ^ N) ^ 2 * dotR (x0 - y) (x0 - y) < o.minStepNorm2)
    {fuel : Nat} {mi k : Int} (hk : loopBound o mi = some k) (hNk : (N : Int) < k) (w : W) :
    ∃ st, optimizeAcc (lmEnv so LA P) o (fuel + 1) mi w s x0 = .ok st ∧ st.out.converged = true ∧ st.trace.length ≤ N + 1 ∧
      (∀ r ∈ st.trace, r.succ = true ∧ ∃ l, 0 ≤ l ∧ l ≤ s.lambda ∧ r.xNext - y = (l / (1 + l)) • (r.x - y)) ∧
      ∃ c, 0 ≤ c ∧ c ≤ (s.lambda / (1 + s.lambda)) ^ st.trace.length ∧ st.x - y = c • (x0 - y) := by
  have hs0 : 0 ≤ s.lambda := hlo.trans hl0
  set ρ := s.lambda / (1 + s.lambda) with hρ
  have hρ0 : 0 ≤ ρ := by positivity
  have hρ1 : ρ < 1 := by rw [hρ, div_lt_one (by positivity)]; linarith
  have hle : ∀ l : ℝ, 0 ≤ l → l ≤ s.lambda → 0 ≤ l / (1 + l) ∧ l / (1 + l) ≤ ρ := by
    intro l a b
    refine ⟨by positivity, ?_⟩
    rw [hρ, div_le_div_iff₀ (by positivity) (by positivity)]
    nlinarith
  have hnext : ∀ l : ℝ, 0 ≤ l → ∀ x : RVec n, x + -(1 / (1 + l)) • (x - y) - y = (l / (1 + l)) • (x - y) := by
    intro l hl x
    have h1 : 1 + l ≠ 0 := by positivity
    funext i
    simp only [Pi.add_apply, Pi.smul_apply, Pi.sub_apply, smul_eq_mul]
    field_simp
    ring
  have hcond : ∀ c : ℝ, 0 ≤ c → c ≤ 1 → nCost so m (costFull y σ (y + c • (x0 - y))) < maxVal := by
    intro c c0 c1
    refine lt_of_le_of_lt ?_ hx0
    by_contra hc
    push Not at hc
    rw [nCost_mono h.pos (Or.inr ⟨costFull_nonneg _ _ _, costFull_nonneg _ _ _⟩), costFull_scale] at hc
    have : c ^ 2 ≤ 1 := pow_le_one₀ c0 c1
    have := mul_le_mul_of_nonneg_right this (costFull_nonneg y σ x0)
    linarith
  let Lvl : Nat → RVec n → Prop := fun i x => ∃ c, 0 ≤ c ∧ c ≤ ρ ^ i ∧ x - y = c • (x0 - y)
  have hx : ∀ {i x}, Lvl i x → nCost so m (costFull y σ x) < maxVal := by
    rintro i x ⟨c, c0, c1, e⟩
    have := hcond c c0 (c1.trans (pow_le_one₀ hρ0 hρ1.le))
    rwa [← e, add_sub_cancel] at this
  let T : Nat → RVec n → DVec ℝ → Prop := fun _ x d => ∃ l, 0 ≤ l ∧ l ≤ s.lambda ∧ d = ⟨n, -(1 / (1 + l)) • (x - y)⟩
  have hplus : ∀ x v, (lmEnv so LA P).plusEq x ⟨n, v⟩ = x + v := fun x v => h.plus x v
  have hlvl : ∀ {i x d}, Lvl i x → T i x d → Lvl (i + 1) ((lmEnv so LA P).plusEq x d) := by
    rintro i x d ⟨c, c0, c1, e⟩ ⟨l, l0, l1, rfl⟩
    obtain ⟨q0, q1⟩ := hle l l0 l1
    refine ⟨l / (1 + l) * c, mul_nonneg q0 c0, ?_, ?_⟩
    · rw [pow_succ, mul_comm (ρ ^ i)]
      exact mul_le_mul q1 c1 c0 hρ0
    · rw [hplus, hnext l l0, e, smul_smul]
  have hn2 : ∀ v : RVec n, (lmEnv so LA P).normSq ⟨n, v⟩ = dotR v v := fun v => sqNorm_eq v
  have hshrink : ∀ (l : ℝ), 0 ≤ l → ∀ v : RVec n, dotR (-(1 / (1 + l)) • v) (-(1 / (1 + l)) • v) ≤ dotR v v := by
    intro l hl v
    have e : dotR (-(1 / (1 + l)) • v) (-(1 / (1 + l)) • v) = (1 / (1 + l)) ^ 2 * dotR v v := by
      unfold dotR
      rw [Finset.mul_sum]
      refine Finset.sum_congr rfl fun i _ => ?_
      simp only [Pi.smul_apply, smul_eq_mul]; ring
    rw [e]
    have h1 : (1 / (1 + l)) ^ 2 ≤ 1 := pow_le_one₀ (by positivity) (by rw [div_le_one (by positivity)]; linarith)
    have := mul_le_mul_of_nonneg_right h1 (dotR_self_nonneg v)
    linarith
  obtain ⟨st, e, h1, h2, r, dx, h3, h4, h5, h6⟩ := contracting_run_at (E := lmEnv so LA P) (o := o) (C := fun x => nCost so m (costFull y σ x))
    (g2 := fun x => dotR (grad y σ x) (grad y σ x)) (Lvl := Lvl) (T := T) (N := N) (x0 := x0)
    (Ok := fun _ s' => s'.rebuild = true ∧ (P.dims = none ∨ s'.gn.n = n) ∧ 0 ≤ s'.lambda ∧ s'.lambda ≤ s.lambda ∧ s'.badF = so.badFactor) ho (by simpa using hms)
    (fun i w s' x hi hl hok => by
      obtain ⟨a1, a2, a3, a4, a5⟩ := hok
      obtain ⟨c, hc, hcc⟩ := prior_delivers h hσ hL hr0 hclip w s' a2 x a1 a3 hone hmin (hx hl).ne
      refine ⟨_, _, hc, hcc, sqNorm_eq _, ⟨s'.lambda, a3, a4, rfl⟩, ⟨rfl, Or.inr rfl, a3, a4, a5⟩, fun q s3 hqq hg => ?_⟩
      have hq0 : q = 0 := by simpa using hqq hq
      subst hq0
      have hsc : goodScale so 0 s'.badF = so.goodFactor := by
        unfold goodScale; rw [a5]; simp [ne]
      change lmGood so _ 0 = .ok s3 at hg
      unfold lmGood at hg
      simp only [stdClamp_real hr0, hsc] at hg
      injection hg with hg
      subst hg
      refine ⟨rfl, Or.inr rfl, hlo.trans (le_max_left _ _), max_le hl0 ((min_le_left _ _).trans ?_), rfl⟩
      show s'.lambda * so.goodFactor ≤ s.lambda
      nlinarith)
    (fun i x dx hi hl hT hns => by
      refine ⟨hlvl hl hT, ?_⟩
      obtain ⟨l, l0, l1, rfl⟩ := hT
      rw [hn2] at hns
      rw [RealOps.lt_eq_false] at hns
      have hxy : x ≠ y := by
        rintro rfl
        rw [sub_self, smul_zero] at hns
        simp [dotR] at hns
        linarith
      have hlt : costFull y σ (x + -(1 / (1 + l)) • (x - y)) < costFull y σ x := by
        have e1 : x + -(1 / (1 + l)) • (x - y) = y + (l / (1 + l)) • (x - y) := by rw [← hnext l l0]; abel
        rw [e1, costFull_scale]
        obtain ⟨q0, q1⟩ := hle l l0 l1
        have h9 : (l / (1 + l)) ^ 2 < 1 := pow_lt_one₀ q0 (by linarith) two_ne_zero
        have := mul_lt_mul_of_pos_right h9 (costFull_pos hσ hxy)
        linarith
      rw [hplus]
      have := (nCost_mono (so := so) h.pos (Or.inr ⟨costFull_nonneg y σ _, costFull_nonneg y σ _⟩)).mpr hlt
      simpa using this)
    (fun x dx hl hT => by
      obtain ⟨l, l0, l1, rfl⟩ := hT
      obtain ⟨c, c0, c1, e⟩ := hl
      rw [hn2, RealOps.lt_eq]
      refine lt_of_le_of_lt ((hshrink l l0 _).trans ?_) hN
      have e2 : dotR (x - y) (x - y) = c ^ 2 * dotR (x0 - y) (x0 - y) := by
        rw [e]
        unfold dotR
        rw [Finset.mul_sum]
        refine Finset.sum_congr rfl fun i _ => ?_
        simp only [Pi.smul_apply, smul_eq_mul]; ring
      rw [e2]
      exact mul_le_mul_of_nonneg_right (pow_le_pow_left₀ c0 c1 2) (dotR_self_nonneg _))
    ⟨1, zero_le_one, by simp, by simp⟩ (by simpa using hx0) hk hNk (w := w) (s := s) ⟨hreb, hs, hs0, le_refl _, hbf⟩
  refine ⟨st, e, h6.converged rfl, h1, fun r hr => ?_, ?_⟩
  · obtain ⟨i, hi⟩ := List.mem_iff_getElem?.mp hr
    obtain ⟨-, a2, d, -, ⟨l, l0, l1, rfl⟩, a5, -⟩ := h2 i r hi
    refine ⟨a2, l, l0, l1, ?_⟩
    rw [a5, hplus, hnext l l0]
  · have hlast : st.trace[st.trace.length - 1]? = some r := by rw [← List.getLast?_eq_getElem?]; exact h3
    obtain ⟨b1, -, d, b3, b4, -⟩ := h2 _ _ hlast
    have hd : d = dx := Option.some.inj (b3.symm.trans h4)
    subst hd
    have := hlvl b1 b4
    rw [← h5] at this
    have hlen : 0 < st.trace.length := by
      by_contra hc
      have : st.trace = [] := List.eq_nil_of_length_eq_zero (by omega)
      rw [this] at h3; simp at h3
    rwa [Nat.sub_add_cancel hlen] at this

end

/-- the problem of the benchmark on fixed (`dims = some n`) or dynamic sizes -/
noncomputable def prob (y σ : RVec n) (dims : Option Nat) : Problem ℝ ℝ Unit (RVec n) where
  acc := {
    full := fun w x k g H => if h : k = n then
        (({ cost := costFull y σ x, num := 1, inlier := 1 }, fun i => grad y σ x (h ▸ i), fun i j => hess σ (fun a b => H (h ▸ a) (h ▸ b)) (h ▸ i) (h ▸ j)), w)
      else (({ cost := 0, num := 0, inlier := 1 }, g, H), w)
    eval := fun w x => ({ cost := costEval y σ x, num := 1, inlier := 1 }, w) }
  dims := dims
  dynDims := fun _ => n
  plusEq := fun x v => if h : v.n = n then x + h ▸ v.v else x
  clock := fun w => (0, w)
  alloc := fun w _ => (some 1, w)
  ratio1 := 1

theorem prob_prior (y σ : RVec n) {dims : Option Nat} (hd : dims = some n ∨ (dims = none ∧ 0 < n)) : PriorProb (prob y σ dims) y σ 1 where
  dyn _ := rfl
  size := hd.imp id fun h => ⟨h.1, h.2, fun w k => ⟨1, w, rfl⟩⟩
  plus x v := by simp [prob]
  pos := one_pos
  full w x g H := ⟨{ cost := costFull y σ x, num := 1, inlier := 1 }, w, by simp [prob], rfl, rfl⟩
  eval w x := ⟨rfl, rfl⟩

/-- **C139, the benchmark**: with the options of the benchmarks, up to 50 parameters, all numbers in `[-1, 1]` and standard deviations of at least `1e-10` in size: at most four iterations,
converged, all steps accepted, the error divided by at least `10000` per iteration. -/
theorem C139_benchmark {R W : Type} {LA : LinAlg ℝ} {P : Problem ℝ R W (RVec n)} {y σ : RVec n} (h : PriorProb P y σ 1) (hn : n ≤ 50) (hσ : ∀ i, 1 / 10 ^ 10 ≤ |σ i|) (hL : ExactLinAlg LA)
    (g : Vec ℝ (P.dims.getD 0)) (H : Mat ℝ (P.dims.getD 0)) (x0 : RVec n) (hy : ∀ i, |y i| ≤ 1) (hx : ∀ i, |x0 i| ≤ 1) (fuel : Nat) (w : W) :
    ∃ st, optimizeAcc (lmEnv soptsLM LA P) (optsBench W) (fuel + 1) (-1) w (lmFresh soptsLM P g H) x0 = .ok st ∧ st.out.converged = true ∧ st.trace.length ≤ 4 ∧
      (∀ r ∈ st.trace, r.succ = true) ∧ ∀ i, |st.x i - y i| ≤ (1 / 10 ^ 4) ^ st.trace.length * |x0 i - y i| := by
  have hs0 : ∀ i, σ i ≠ 0 := fun i hi => by
    have := hσ i
    rw [hi, abs_zero] at this
    norm_num at this
  have hsz : P.dims = none ∨ (lmFresh soptsLM P g H).gn.n = n := by
    rcases h.size with h | h
    · right
      show (gnFresh P g H).n = n
      simp [gnFresh, h]
    · exact Or.inl h.1
  have hb : ∀ i, (x0 i - y i) ^ 2 ≤ 4 := fun i => by
    have h1 := abs_le.1 (hx i)
    have h2 := abs_le.1 (hy i)
    nlinarith
  have hcard : ∀ (a : Fin n → ℝ) (B : ℝ), 0 ≤ B → (∀ i, a i ≤ B) → ∑ i, a i ≤ 50 * B := by
    intro a B hB ha
    refine (Finset.sum_le_card_nsmul _ _ B fun i _ => ha i).trans ?_
    rw [Finset.card_univ, Fintype.card_fin, nsmul_eq_mul]
    exact mul_le_mul_of_nonneg_right (by exact_mod_cast hn) hB
  have hlam : (lmFresh soptsLM P g H : LMState ℝ R).lambda = 1 / 10000 := by norm_num [lmFresh, lmReset, soptsLM]
  have hρ : (1 / 10000 : ℝ) / (1 + 1 / 10000) ≤ 1 / 10 ^ 4 := by norm_num
  obtain ⟨st, e, h1, h2, h3, c, c0, c1, h4⟩ := C139_rate (so := soptsLM) (LA := LA) (o := optsBench W) h hs0 hL (by norm_num [soptsLM]) (by norm_num [soptsLM])
    (by norm_num [soptsLM, soptsR]) (by norm_num [soptsLM, soptsR]) (Or.inl rfl) (Or.inl (le_refl _)) rfl ⟨by simp [optsBench, optsDef], rfl, rfl⟩ rfl (by norm_num [optsBench])
    (lmFresh soptsLM P g H) hsz rfl (by rw [hlam]; norm_num [soptsLM]) rfl x0
    (by
      rw [nCost_one rfl rfl, costFull_eq]
      refine lt_of_le_of_lt (hcard _ (4 * 10 ^ 20) (by norm_num) fun i => ?_) (lt_of_lt_of_le (by norm_num : (50 * (4 * 10 ^ 20) : ℝ) < 2 ^ 90) (pow_le_pow_right₀ (by norm_num) (by norm_num)))
      have h5 : (1 / 10 ^ 10) ^ 2 ≤ σ i ^ 2 := by rw [← sq_abs (σ i)]; exact pow_le_pow_left₀ (by norm_num) (hσ i) 2
      rw [div_le_iff₀ (by have := hs0 i; positivity)]
      have := hb i
      nlinarith)
    (N := 3) (by
      rw [hlam]
      have h6 : dotR (x0 - y) (x0 - y) ≤ 50 * 4 := hcard _ 4 (by norm_num) fun i => by
        have := hb i
        simp only [Pi.sub_apply]; nlinarith
      refine lt_of_le_of_lt (mul_le_mul_of_nonneg_left h6 (by positivity)) ?_
      norm_num [optsBench])
    (mi := -1) (k := 11) (by rfl) (by norm_num) (fuel := fuel) w
  refine ⟨st, e, h1, h2, fun r hr => (h3 r hr).1, fun i => ?_⟩
  have h7 := congrFun h4 i
  simp only [Pi.sub_apply, Pi.smul_apply, smul_eq_mul] at h7
  rw [h7, abs_mul, abs_of_nonneg c0]
  refine mul_le_mul_of_nonneg_right (c1.trans ?_) (abs_nonneg _)
  rw [hlam]
  exact pow_le_pow_left₀ (by norm_num) hρ _

/-- the hypotheses of C139: two parameters with a negative and a small standard deviation -/
example : PriorProb (prob (![1, -1] : RVec 2) ![-1 / 2, 1 / 1000] (some 2)) ![1, -1] ![-1 / 2, 1 / 1000] 1 ∧ PriorProb (prob (![1, -1] : RVec 2) ![-1 / 2, 1 / 1000] none) ![1, -1] ![-1 / 2, 1 / 1000] 1 ∧
    (∀ i, 1 / 10 ^ 10 ≤ |(![-1 / 2, 1 / 1000] : RVec 2) i|) ∧ ExactLinAlg someLinAlg :=
  ⟨prob_prior _ _ (Or.inl rfl), prob_prior _ _ (Or.inr ⟨rfl, by decide⟩), fun i => by fin_cases i <;> norm_num [abs_of_pos, abs_of_neg, abs_div], someLinAlg_exact⟩

end Verif.Prior
