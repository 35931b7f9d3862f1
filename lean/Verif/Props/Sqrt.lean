import Verif.Lemmas.QuadStop
import Verif.Props.Integrated
import Verif.Props.LmNonlin
import Verif.Props.LmGlobal
/-!
# C81: the square root (README.md:74-97)

The first example of the README: `Optimize(x, [](auto &x) { return x * x - a; })` with the default (Levenberg-Marquardt) solver and automatic differentiation, in exact
arithmetic: for every `a > 0` and every start `x0 ≥ √a / 2`.
-/

set_option linter.unusedSectionVars false

namespace Verif
open FloatOps Loss

theorem abs_lt_of_sq {x y : ℝ} (h : x ^ 2 < y) : |x| < √y := (Real.lt_sqrt (abs_nonneg _)).mpr (by rwa [sq_abs])

theorem Path.last {F R X V M : Type} {x y : X} {l : List (Rec F R X V M)} {u t : Rec F R X V M} (h : Path x (l ++ [u, t]) y) : t.x = u.xNext := by
  induction l generalizing x with
  | nil => exact h.2.1
  | cons a l ih => exact ih h.2

/-! ### One step -/

/-- The damped Gauss-Newton step of `x² - a` from a point `x ≥ s / 2`, `s = √a`. -/
theorem sqrt_step {s x d l : ℝ} (hs : 0 < s) (hx : s / 2 ≤ x) (hl0 : 0 ≤ l) (hl : l ≤ 1 / 4)
    (hd : (1 + l) * (2 * x) * d = -(x ^ 2 - s ^ 2)) :
    s / 2 ≤ x + d ∧ |x + d - s| ≤ 3 / 5 * |x - s| ∧ |(x + d) ^ 2 - s ^ 2| ≤ 3 / 4 * |x ^ 2 - s ^ 2| ∧
      |x + d - s| ≤ |x - s| * (|x - s| / s + l) := by
  have hx0 : 0 < x := by linarith
  obtain ⟨e, rfl⟩ : ∃ e, x = s + e := ⟨x - s, by ring⟩
  have hD : 0 < (1 + l) * (2 * (s + e)) := by positivity
  set D := (1 + l) * (2 * (s + e)) with hDd
  obtain ⟨θ, hθ⟩ : ∃ θ, D * θ = e + 2 * (s + e) * l := ⟨(e + 2 * (s + e) * l) / D, by field_simp⟩
  have hy : s + e + d = s + e * θ := by
    have : D * (s + e + d) = D * (s + e * θ) := by
      have : D * (e * θ) = e * (e + 2 * (s + e) * l) := by rw [← hθ]; ring
      have h2 : D * (s + e + d) = D * s + D * e - ((s + e) ^ 2 - s ^ 2) := by rw [mul_add, mul_add, hd]; ring
      rw [h2, mul_add, this, hDd]
      ring
    exact mul_left_cancel₀ hD.ne' this
  have hθ1 : -(1 / 2) ≤ θ := by
    refine le_of_mul_le_mul_left ?_ hD
    rw [hθ, hDd]; nlinarith
  have hθ2 : θ ≤ 3 / 5 := by
    refine le_of_mul_le_mul_left ?_ hD
    rw [hθ, hDd]; nlinarith [mul_nonneg hx0.le (sub_nonneg.mpr hl)]
  have hθa : |θ| ≤ 3 / 5 := abs_le.mpr ⟨by linarith, hθ2⟩
  have hθ3 : 0 ≤ e → 0 ≤ θ := fun he => by
    refine le_of_mul_le_mul_left ?_ hD
    rw [hθ, mul_zero]; positivity
  have hfac : (s + e * θ) ^ 2 - s ^ 2 = e * (θ * (2 * s + e * θ)) := by ring
  have hfac2 : (s + e) ^ 2 - s ^ 2 = e * (2 * s + e) := by ring
  rw [hy]
  refine ⟨?_, ?_, ?_, ?_⟩
  · rcases le_total 0 e with he | he
    · have := mul_nonneg he (hθ3 he); linarith
    · have : e * (3 / 5) ≤ e * θ := mul_le_mul_of_nonpos_left hθ2 he
      linarith
  · rw [add_sub_cancel_left, add_sub_cancel_left, abs_mul, mul_comm]
    exact mul_le_mul_of_nonneg_right hθa (abs_nonneg _)
  · rw [hfac, hfac2, abs_mul, abs_mul e, ← mul_assoc, mul_comm (3 / 4 : ℝ) |e|, mul_assoc]
    refine mul_le_mul_of_nonneg_left ?_ (abs_nonneg _)
    have h1 : |2 * s + e| = 2 * s + e := abs_of_pos (by linarith)
    rw [h1]
    rcases le_total 0 e with he | he
    · have h0 := hθ3 he
      have h2 : 0 ≤ e * θ := mul_nonneg he h0
      have h3 : e * θ ≤ e * 1 := mul_le_mul_of_nonneg_left (by linarith) he
      rw [abs_of_nonneg (mul_nonneg h0 (by linarith))]
      nlinarith
    · rcases le_total 0 θ with h0 | h0
      · have h2 : e * θ ≤ 0 := mul_nonpos_of_nonpos_of_nonneg he h0
        have h4 : e * (3 / 5) ≤ e * θ := mul_le_mul_of_nonpos_left hθ2 he
        have h3 : θ ≤ 1 / 5 := by
          refine le_of_mul_le_mul_left ?_ hD
          rw [hθ, hDd]; nlinarith [mul_nonneg hx0.le (sub_nonneg.mpr hl)]
        rw [abs_of_nonneg (mul_nonneg h0 (by linarith))]
        nlinarith
      · have h2 : 0 ≤ e * θ := mul_nonneg_of_nonpos_of_nonpos he h0
        rw [abs_of_nonpos (mul_nonpos_of_nonpos_of_nonneg h0 (by linarith))]
        have h3 : e * θ ≤ e * (-(1 / 2)) := mul_le_mul_of_nonpos_left hθ1 he
        nlinarith
  · rw [add_sub_cancel_left, add_sub_cancel_left, abs_mul]
    refine mul_le_mul_of_nonneg_left ?_ (abs_nonneg _)
    have h1 : D * |θ| ≤ D * (|e| / s + l) := by
      have : D * |θ| = |e + 2 * (s + e) * l| := by rw [← hθ, abs_mul, abs_of_pos hD]
      rw [this]
      have h2 : |e + 2 * (s + e) * l| ≤ |e| + 2 * (s + e) * l := by
        refine (abs_add_le _ _).trans (add_le_add le_rfl (abs_of_nonneg (by positivity)).le)
      refine h2.trans ?_
      have h3 : |e| ≤ 2 * (s + e) * (|e| / s) := by
        rw [mul_div_assoc', le_div_iff₀ hs]
        have := abs_nonneg e
        nlinarith
      have h4 : 0 ≤ |e| / s := by positivity
      rw [hDd]
      have h5 : 0 ≤ l * (2 * (s + e)) * (|e| / s) := by positivity
      have h6 : 0 ≤ l * l * (2 * (s + e)) := by positivity
      nlinarith
    exact le_of_mul_le_mul_left h1 hD

/-! ### The problem -/

section
variable {R W : Type} {n : Nat}

/-- The accumulation function of `P` is the one made by automatic differentiation of the residual `e`, optimize_autodiff.h:91-116 (nonlinear least
squares, one residual): wherever the residual is in its domain. -/
structure ADScalar (P : Problem ℝ R W (RVec n)) (e : Expr n) : Prop where
  full : ∀ w x g0 H0, e.InDomain x → ∃ c g H w', accScalar true e x = some (c, g, H) ∧
    P.acc.full w x n g0 H0 = ((⟨c, 1, P.ratio1, ""⟩, g, H), w')
  eval : ∀ w x, e.InDomain x → ∃ w', P.acc.eval w x = (⟨e.value x * e.value x, 1, P.ratio1, ""⟩, w')

/-- the residual `x * x - a`, README.md:82 -/
def sqrtExpr (a : ℝ) : Expr 1 := .op1 (.subS a) (.op2 .mul (.var 0) (.var 0))

theorem sqrtExpr_dom (a : ℝ) (x : RVec 1) : (sqrtExpr a).InDomain x ∧ (sqrtExpr a).value x = x 0 * x 0 - a :=
  ⟨⟨⟨trivial, trivial, Or.inl trivial⟩, Or.inl trivial⟩, by simp [sqrtExpr, Expr.value, fn1, fn2]⟩

/-- the only coordinate, as a function on vectors -/
theorem vec1 (x : Vec ℝ 1) : x = fun _ => x 0 := by funext i; rw [Subsingleton.elim i 0]

theorem sqrt_userQuad {P : Problem ℝ R W (RVec 1)} {a : ℝ} (hP : ADScalar P (sqrtExpr a)) (hV : VecParams P) (Ω : RVec 1 → Prop) :
    UserQuad P Ω (fun x => (x 0 ^ 2 - a) ^ 2) (fun x _ => 2 * x 0 * (x 0 ^ 2 - a)) (fun x _ _ => 4 * x 0 ^ 2) 1 where
  toVecParams := hV
  pos := one_pos
  psd x _ := by
    refine ⟨fun i j => rfl, fun v => ?_⟩
    simp only [dotR, mv, Fin.sum_univ_one]
    have : v 0 * (4 * x 0 ^ 2 * v 0) = (2 * x 0 * v 0) ^ 2 := by ring
    rw [this]; positivity
  full w x _ := by
    obtain ⟨hd, hval⟩ := sqrtExpr_dom a x
    obtain ⟨c, g, H, w', h1, h2⟩ := hP.full w x (fun _ => 0) (fun _ _ => 0) hd
    obtain ⟨J, g', H', h3, h4, h5, -, h6, -⟩ := C38_scalar (sqrtExpr a) x hd
    rw [h1] at h3
    simp only [Option.some.injEq, Prod.mk.injEq] at h3
    obtain ⟨rfl, rfl, rfl⟩ := h3
    have hJ : J 0 = 2 * x 0 := by
      have h7 : HasGrad (fun y : RVec 1 => y 0) (Pi.single 0 1) x := hasGrad_coord 0 x
      have h8 := (h7.mul h7).add (hasGrad_const (-a) x)
      have h9 : HasGrad (sqrtExpr a).value _ x := h8.congr_near (Filter.Eventually.of_forall fun y => by
        show (sqrtExpr a).value y = y 0 * y 0 + -a
        rw [(sqrtExpr_dom a y).2]; ring)
      rw [h4.unique h9]
      simp
      ring
    refine ⟨⟨(sqrtExpr a).value x ^ 2, 1, P.ratio1, ""⟩, w', ?_, ?_, rfl⟩
    · rw [h2]
      refine congrArg (fun z => (z, w')) ?_
      refine Prod.ext rfl (Prod.ext ?_ ?_)
      · funext i
        obtain rfl := Subsingleton.elim 0 i
        show g 0 = _
        rw [h5, hJ, hval]; ring
      · funext i j
        obtain rfl := Subsingleton.elim 0 i
        obtain rfl := Subsingleton.elim 0 j
        show H 0 0 = _
        rw [h6, hJ]; ring
    · show (sqrtExpr a).value x ^ 2 = _
      rw [hval]; ring
  eval w x _ := by
    obtain ⟨hd, hval⟩ := sqrtExpr_dom a x
    obtain ⟨w', h1⟩ := hP.eval w x hd
    rw [h1]
    refine ⟨?_, rfl⟩
    show (sqrtExpr a).value x * (sqrtExpr a).value x = _
    rw [hval]; ring

variable {so : SolverOpts ℝ} {LA : LinAlg ℝ} {P : Problem ℝ R W (RVec 1)} {o : Options ℝ W (DVec ℝ)}

/-- accepted steps multiply the damping by `good_factor`, inside `damping_range` -/
theorem dampAt_good (hr0 : so.dampLo ≤ so.dampHi) (hlo : 0 ≤ so.dampLo) (hg0 : 0 ≤ so.goodFactor) (hg1 : so.goodFactor ≤ 1) {l0 : ℝ} (hl0 : 0 ≤ l0)
    {i : Nat} {s2 s3 : LMState ℝ R} (h : 0 ≤ s2.lambda ∧ s2.lambda ≤ dampAt so l0 i ∧ s2.badF = so.badFactor) (hg : lmGood so s2 0 = .ok s3) :
    0 ≤ s3.lambda ∧ s3.lambda ≤ dampAt so l0 (i + 1) ∧ s3.badF = so.badFactor := by
  obtain ⟨h0, h1, h2⟩ := h
  have hsc : goodScale so 0 s2.badF = so.goodFactor := by
    unfold goodScale; rw [h2]; simp [ne]
  unfold lmGood at hg
  rw [stdClamp_real hr0, hsc] at hg
  injection hg with hg
  subst hg
  refine ⟨hlo.trans (le_max_left _ _), ?_, rfl⟩
  show max so.dampLo (min (s2.lambda * so.goodFactor) so.dampHi) ≤ max so.dampLo (l0 * so.goodFactor ^ i)
  refine max_le (le_max_left _ _) ((min_le_left _ _).trans ?_)
  refine (mul_le_mul_of_nonneg_right h1 hg0).trans ?_
  unfold dampAt
  rcases le_total so.dampLo (l0 * so.goodFactor ^ (i - 1)) with h4 | h4
  · rw [max_eq_right h4]
    refine le_max_of_le_right ?_
    cases i with
    | zero => simp; nlinarith
    | succ j => simp only [Nat.add_sub_cancel]; rw [pow_succ]; linarith
  · rw [max_eq_left h4]
    refine le_max_of_le_left ?_
    nlinarith

theorem dampAt_le_start (hg0 : 0 ≤ so.goodFactor) (hg1 : so.goodFactor ≤ 1) {l0 c : ℝ} (hl0 : 0 ≤ l0) (hc : l0 ≤ c) (hlo : so.dampLo ≤ c) (i : Nat) : dampAt so l0 i ≤ c := by
  refine max_le hlo (le_trans ?_ hc)
  have := pow_le_one₀ hg0 hg1 (n := i - 1)
  nlinarith

theorem nCost_one (hsq : so.useSquaredNorm = true) (hds : so.downscaleBy2 = false) (c : ℝ) : nCost so 1 c = c := by
  unfold nCost normalizeCost
  rw [hsq, hds]
  cases so.normalize <;> simp

theorem sqrt_solves {a l : ℝ} {x d : RVec 1} (hx : 0 < x 0) (h : mv (dampedR l fun _ _ => 4 * x 0 ^ 2) d = -(fun _ => 2 * x 0 * (x 0 ^ 2 - a))) :
    (1 + l) * (2 * x 0) * d 0 = -(x 0 ^ 2 - a) := by
  have := congrFun h 0
  simp only [mv, dampedR, Fin.sum_univ_one, if_true, Pi.neg_apply] at this
  have h2 : 2 * x 0 * ((1 + l) * (2 * x 0) * d 0) = 2 * x 0 * -(x 0 ^ 2 - a) := by linarith
  exact mul_left_cancel₀ (by positivity) h2

/-- **C81.** Levenberg-Marquardt on the residual `x * x - a` with automatic differentiation, in exact arithmetic, from any start `x0 ≥ √a / 2` and with a damping that
starts at most at `1 / 4`: the run ends normally, every step is accepted, every iteration multiplies the distance to `√a` by at most `3 / 5` and by at most
`distance / √a + damping`; the run never stops because of `min_rerr_dec`, and whichever of the four other reasons stops it, `x` is then close to `√a`. -/
theorem C81_sqrt {a : ℝ} (hP : ADScalar P (sqrtExpr a)) (hV : VecParams P) (ha : 0 < a) (hL : ExactLinAlg LA)
    (hone : so.useLdlt = true ∨ P.dims ≠ some 1) (hr0 : so.dampLo ≤ so.dampHi) (hlo : 0 ≤ so.dampLo) (hlo4 : so.dampLo ≤ 1 / 4) (hin : 0 ≤ so.dampInit)
    (hmin : so.checkMinHDiag ≤ 0) (hclip : so.gradClip = 0) (hsq : so.useSquaredNorm = true) (hds : so.downscaleBy2 = false)
    (hg0 : 0 ≤ so.goodFactor) (hg1 : so.goodFactor ≤ 1) (hq : o.useStepQuality = false)
    (herr : 0 < o.minError) (hrel : o.minRerrDec ≤ 7 / 16) (hcb1 : o.stopCallback = none) (hcb2 : o.stopCallback2 = none) (htime : o.maxDurationMs ≤ 0)
    (s : LMState ℝ R) (hs : P.dims = none ∨ s.gn.n = 1) (hreb : s.rebuild = true) (hal : Allowed so s.lambda) (hl0 : s.lambda ≤ 1 / 4)
    (hbf : s.badF = so.badFactor)
    (fuel : Nat) (mi k : Int) (hk : loopBound o mi = some k) (hk2 : k ≤ 65535)
    (w : W) (x0 : RVec 1) (hx0 : √a / 2 ≤ x0 0) (hmax : (x0 0 ^ 2 - a) ^ 2 < maxVal) :
    ∃ st, optimizeAcc (lmEnv so LA P) o (fuel + 1) mi w s x0 = .ok st ∧
      (∀ i t, st.trace[i]? = some t → t.succ = true ∧ √a / 2 ≤ t.x 0 ∧ |t.xNext 0 - √a| ≤ 3 / 5 * |t.x 0 - √a| ∧
        |t.xNext 0 - √a| ≤ |t.x 0 - √a| * (|t.x 0 - √a| / √a + dampAt so s.lambda i)) ∧
      |st.x 0 - √a| ≤ (3 / 5) ^ st.trace.length * |x0 0 - √a| ∧
      ((st.out.stop = .kMinError ∧ |st.x 0 - √a| ≤ 2 / 5 * (√o.minError / √a)) ∨
        (st.out.stop = .kMinDeltaNorm ∧ |st.x 0 - √a| ≤ 3 / 2 * √o.minStepNorm2) ∨
        (st.out.stop = .kMinGradNorm ∧ |st.x 0 - √a| ≤ 2 / 5 * (√o.minGradNorm2 / a)) ∨
        (st.out.stop = .kMaxIters ∧ (st.trace.length : Int) = k)) := by
  have hs0 : 0 < √a := Real.sqrt_pos.mpr ha
  have hsa : √a ^ 2 = a := Real.sq_sqrt ha.le
  have hnn : ∀ l, Allowed so l → 0 ≤ l := by
    rintro l (rfl | h)
    · exact hin
    · exact hlo.trans h
  have hd4 : ∀ i, dampAt so s.lambda i ≤ 1 / 4 := dampAt_le_start hg0 hg1 (hnn _ hal) hl0 hlo4
  have hc : ∀ x : RVec 1, nCost so 1 ((x 0 ^ 2 - a) ^ 2) = (x 0 ^ 2 - a) ^ 2 := fun x => nCost_one hsq hds _
  have hstep : ∀ (x y : RVec 1) l, √a / 2 ≤ x 0 → 0 ≤ l → l ≤ 1 / 4 →
      mv (dampedR l fun _ _ => 4 * x 0 ^ 2) (y - x) = -(fun _ => 2 * x 0 * (x 0 ^ 2 - a)) →
      √a / 2 ≤ y 0 ∧ |y 0 - √a| ≤ 3 / 5 * |x 0 - √a| ∧ |y 0 ^ 2 - a| ≤ 3 / 4 * |x 0 ^ 2 - a| ∧ |y 0 - √a| ≤ |x 0 - √a| * (|x 0 - √a| / √a + l) := by
    intro x y l hx h0 h4 h
    have h1 := sqrt_step (d := (y - x) 0) hs0 hx h0 h4 (by rw [hsa]; exact sqrt_solves (by linarith) h)
    rw [hsa, Pi.sub_apply, add_sub_cancel] at h1
    exact h1
  obtain ⟨st, e, hT, tr, t, htr, hxt, hst⟩ := lm_quad_stop_run (o := o) (LA := LA) (so := so) (sqrt_userQuad hP hV fun x => √a / 2 ≤ x 0) (Or.inl hsq) hL
    (fun x hx l hl => by
      have hxp : 0 < x 0 := by linarith
      have := hnn l hl
      refine ⟨fun i j => ?_, fun v hv => ?_⟩
      · rw [Subsingleton.elim i j]
      · have hv0 : v 0 ≠ 0 := fun h => hv (by rw [vec1 v, h]; rfl)
        simp only [dotR, mv, dampedR, Fin.sum_univ_one, if_true]
        have : v 0 * ((4 * x 0 ^ 2 + l * (4 * x 0 ^ 2)) * v 0) = (4 * x 0 ^ 2 + l * (4 * x 0 ^ 2)) * v 0 ^ 2 := by ring
        rw [this]
        positivity)
    hone hr0 hlo hin (fun _ _ => Or.inl hmin) hclip
    (fun i l β => 0 ≤ l ∧ l ≤ dampAt so s.lambda i ∧ β = so.badFactor) (fun l β h => h)
    (fun i s2 s3 q hq0 h hg => by
      obtain rfl := hq0 hq
      exact dampAt_good hr0 hlo hg0 hg1 (hnn _ hal) h hg)
    (fun i x d l β hx hbig _ hK h => by
      obtain ⟨h1, h2, h3, -⟩ := hstep x (x + d) l hx hK.1 (hK.2.1.trans (hd4 i)) (by rw [add_sub_cancel_left]; exact h)
      refine ⟨h1, ?_⟩
      have hr : 0 < |x 0 ^ 2 - a| := by
        rw [abs_pos]
        intro h0
        rw [hc, h0] at hbig
        norm_num at hbig
        linarith
      show ((x + d) 0 ^ 2 - a) ^ 2 < (x 0 ^ 2 - a) ^ 2
      rw [sq_lt_sq]
      linarith)
    herr hcb1 hcb2 htime s hs hreb hal ⟨hnn _ hal, le_max_of_le_right (by simp), hbf⟩ fuel mi k hk hk2 w x0 hx0 (by rw [hc]; exact hmax)
  have hrow : ∀ i t, st.trace[i]? = some t → t.succ = true ∧ √a / 2 ≤ t.x 0 ∧ |t.xNext 0 - √a| ≤ 3 / 5 * |t.x 0 - √a| ∧
      |t.xNext 0 - √a| ≤ |t.x 0 - √a| * (|t.x 0 - √a| / √a + dampAt so s.lambda i) ∧ |t.xNext 0 ^ 2 - a| ≤ 3 / 4 * |t.x 0 ^ 2 - a| := by
    intro i t hi
    obtain ⟨h1, h2, l, β, ⟨h3, h4, -⟩, -, h5⟩ := hT i t hi
    obtain ⟨h6, h7, h8, h9⟩ := hstep t.x t.xNext l h1 h3 (h4.trans (hd4 i)) h5
    refine ⟨h2, h1, h7, h9.trans (mul_le_mul_of_nonneg_left (by linarith) (abs_nonneg _)), h8⟩
  have hmem : ∀ t ∈ st.trace, √a / 2 ≤ t.x 0 ∧ |t.xNext 0 - √a| ≤ 3 / 5 * |t.x 0 - √a| ∧ |t.xNext 0 ^ 2 - a| ≤ 3 / 4 * |t.x 0 ^ 2 - a| := by
    intro t ht
    obtain ⟨i, hi⟩ := List.mem_iff_getElem?.mp ht
    obtain ⟨-, h1, h2, -, h3⟩ := hrow i t hi
    exact ⟨h1, h2, h3⟩
  have hp := run_path e
  refine ⟨st, e, fun i t hi => ?_, ?_, ?_⟩
  · obtain ⟨h1, h2, h3, h4, -⟩ := hrow i t hi
    exact ⟨h1, h2, h3, h4⟩
  · clear hT hst htr hrow hxt hmax hx0 e
    generalize st.x = y at hp ⊢
    generalize st.trace = tr at hp hmem ⊢
    induction tr generalizing x0 with
    | nil => simp only [Path] at hp; subst hp; simp
    | cons r tr ih =>
      obtain ⟨h1, h2⟩ := hp
      have h3 := ih (x0 := r.xNext) (hp := h2) (hmem := fun r hr => hmem r (List.mem_cons_of_mem _ hr))
      have h4 := (hmem r List.mem_cons_self).2.1
      rw [h1] at h4
      rw [List.length_cons, pow_succ, mul_assoc]
      exact h3.trans (mul_le_mul_of_nonneg_left h4 (by positivity))
  · obtain ⟨ht1, ht2, ht3⟩ := hmem t (by rw [htr]; simp)
    rw [← hxt] at ht2
    have hfac : |t.x 0 ^ 2 - a| = |t.x 0 - √a| * (t.x 0 + √a) := by
      have : t.x 0 ^ 2 - a = (t.x 0 - √a) * (t.x 0 + √a) := by linear_combination hsa
      rw [this, abs_mul, abs_of_pos (a := t.x 0 + √a) (by linarith)]
    have he0 := abs_nonneg (t.x 0 - √a)
    generalize hstop : st.out.stop = q at hst
    cases hst with
    | error h =>
      refine Or.inl ⟨rfl, ?_⟩
      rw [hc] at h
      have h1 := abs_lt_of_sq h
      rw [hfac] at h1
      have h2 : |t.x 0 - √a| * (3 / 2 * √a) < √o.minError := lt_of_le_of_lt (mul_le_mul_of_nonneg_left (by linarith) he0) h1
      rw [mul_div_assoc', le_div_iff₀ hs0]
      nlinarith
    | relError y hy hlt h =>
      exfalso
      obtain ⟨tr', u, rfl, hu⟩ : ∃ tr' u, tr = tr' ++ [u] ∧ u.x = y := by
        rw [htr] at hy
        generalize List.dropLast (List.dropLast _) = D at hy
        rw [List.map_append, show D ++ [y, t.x] = (D ++ [y]) ++ [t.x] by simp] at hy
        have h1 := (List.append_inj' hy rfl).1
        rcases List.eq_nil_or_concat' tr with rfl | ⟨tr', u, rfl⟩
        · simp at h1
        · rw [List.map_append] at h1
          have := (List.append_inj' h1 rfl).2
          simp only [List.map_cons, List.map_nil, List.cons.injEq, and_true] at this
          exact ⟨tr', u, rfl, this⟩
      subst hu
      have hlast : t.x = u.xNext := Path.last (l := tr') (t := t) (by rw [htr] at hp; simpa using hp)
      have h1 := (hmem u (by rw [htr]; simp)).2.2
      rw [← hlast] at h1
      rw [hc, hc] at h hlt
      have h2 : (t.x 0 ^ 2 - a) ^ 2 ≤ 9 / 16 * (u.x 0 ^ 2 - a) ^ 2 := by
        rw [← sq_abs (t.x 0 ^ 2 - a), ← sq_abs (u.x 0 ^ 2 - a)]
        have := abs_nonneg (t.x 0 ^ 2 - a)
        nlinarith
      have h3 : 0 < (u.x 0 ^ 2 - a) ^ 2 := lt_of_le_of_lt (sq_nonneg _) hlt
      rw [div_lt_iff₀ h3] at h
      nlinarith
    | step h =>
      refine Or.inr (Or.inl ⟨rfl, ?_⟩)
      have h1 : (t.xNext 0 - t.x 0) ^ 2 < o.minStepNorm2 := by simpa [dotR, pow_two] using h
      have h2 := abs_lt_of_sq h1
      have h3 : |t.x 0 - √a| ≤ |t.xNext 0 - √a| + |t.xNext 0 - t.x 0| := by
        have := abs_sub_le (t.x 0) (t.xNext 0) √a
        rw [abs_sub_comm (t.x 0) (t.xNext 0)] at this
        linarith
      rw [← hxt] at h2 h3
      linarith
    | grad h =>
      refine Or.inr (Or.inr (Or.inl ⟨rfl, ?_⟩))
      have h1 : (2 * t.x 0 * (t.x 0 ^ 2 - a)) ^ 2 < o.minGradNorm2 := by simpa [dotR, pow_two] using h
      have h2 := abs_lt_of_sq h1
      rw [abs_mul, abs_of_pos (a := 2 * t.x 0) (by linarith), hfac] at h2
      have h3 : |t.x 0 - √a| * (3 / 2 * a) ≤ 2 * t.x 0 * (|t.x 0 - √a| * (t.x 0 + √a)) := by
        have : 3 / 2 * a ≤ 2 * t.x 0 * (t.x 0 + √a) := by nlinarith
        calc |t.x 0 - √a| * (3 / 2 * a) ≤ |t.x 0 - √a| * (2 * t.x 0 * (t.x 0 + √a)) := mul_le_mul_of_nonneg_left this he0
          _ = _ := by ring
      have h4 : 3 / 5 * |t.x 0 - √a| * a ≤ 2 / 5 * √o.minGradNorm2 := by linarith
      rw [mul_div_assoc', le_div_iff₀ ha]
      exact (mul_le_mul_of_nonneg_right ht2 ha.le).trans h4
    | iters h => exact Or.inr (Or.inr (Or.inr ⟨rfl, by simpa using h⟩))

/-- the default options of the optimizer, options.h:43-46, 89-98, with the decimal values written there -/
noncomputable def optsDef (W : Type) : Options ℝ W (DVec ℝ) where
  checkFinalCost := false
  useStepQuality := false
  saveLast := true
  maxIters := 50
  minError := 1 / 10 ^ 12
  minRerrDec := 1 / 10 ^ 10
  minStepNorm2 := 1 / 10 ^ 14
  minGradNorm2 := 1 / 10 ^ 18
  maxTotalFailures := 0
  maxConsecFailures := 5
  maxDurationMs := 0
  stopCallback := none
  stopCallback2 := none

/-- **C81**, the example of the README with the default options of the solver and of the optimizer, a fresh solver and `x = 1`: in exact arithmetic the run ends normally, all
its steps are accepted, it stops for one of the reasons that count as success or after 51 iterations, and `|x - √2| ≤ 3e-7`. -/
theorem C81_readme (hP : ADScalar P (sqrtExpr 2)) (hV : VecParams P) (hL : ExactLinAlg LA) (g : Vec ℝ (P.dims.getD 0)) (H : Mat ℝ (P.dims.getD 0))
    (fuel : Nat) (w : W) :
    ∃ st, optimizeAcc (lmEnv soptsLM LA P) (optsDef W) (fuel + 1) (-1) w (lmFresh soptsLM P g H) (fun _ => 1) = .ok st ∧
      (∀ t ∈ st.trace, t.succ = true) ∧ |st.x 0 - √2| ≤ 3 / 10 ^ 7 ∧
      (st.out.stop = .kMinError ∨ st.out.stop = .kMinDeltaNorm ∨ st.out.stop = .kMinGradNorm ∨ st.out.stop = .kMaxIters) := by
  have hsz : P.dims = none ∨ (lmFresh soptsLM P g H).gn.n = 1 := by
    rcases hV.size with h | h
    · right
      show (gnFresh P g H).n = 1
      simp [gnFresh, h]
    · exact Or.inl h.1
  have hs2 : (1.4 : ℝ) ≤ √2 := Real.le_sqrt_of_sq_le (by norm_num)
  have hs3 : √2 ≤ (1.42 : ℝ) := Real.sqrt_le_iff.mpr ⟨by norm_num, by norm_num⟩
  obtain ⟨st, e, h1, h2, h3⟩ := C81_sqrt (so := soptsLM) (LA := LA) (o := optsDef W) hP hV two_pos hL (Or.inl rfl)
    (by norm_num [soptsLM]) (by norm_num [soptsLM]) (by norm_num [soptsLM]) (by norm_num [soptsLM]) (le_refl _) rfl rfl rfl
    (by norm_num [soptsLM, soptsR]) (by norm_num [soptsLM, soptsR]) rfl (by norm_num [optsDef]) (by norm_num [optsDef]) rfl rfl (by simp [optsDef])
    (lmFresh soptsLM P g H) hsz rfl (Or.inl rfl) (by norm_num [lmFresh, lmReset, soptsLM]) rfl fuel (-1) 51 (by rfl) (by decide) w (fun _ => 1)
    (by show √2 / 2 ≤ 1; linarith) (lt_of_lt_of_le (by norm_num : ((1 : ℝ) ^ 2 - 2) ^ 2 < 2 ^ 1) (pow_le_pow_right₀ (by norm_num) (by norm_num)))
  refine ⟨st, e, fun t ht => ?_, ?_, ?_⟩
  · obtain ⟨i, hi⟩ := List.mem_iff_getElem?.mp ht
    exact (h1 i t hi).1
  · rcases h3 with ⟨-, h⟩ | ⟨-, h⟩ | ⟨-, h⟩ | ⟨-, h⟩
    · refine h.trans ?_
      have : √(optsDef W).minError = 1 / 10 ^ 6 := by
        rw [show (optsDef W).minError = (1 / 10 ^ 6) ^ 2 by norm_num [optsDef]]; exact Real.sqrt_sq (by norm_num)
      rw [this, mul_div_assoc', div_le_iff₀ (by linarith)]
      linarith
    · refine h.trans ?_
      have : √(optsDef W).minStepNorm2 = 1 / 10 ^ 7 := by
        rw [show (optsDef W).minStepNorm2 = (1 / 10 ^ 7) ^ 2 by norm_num [optsDef]]; exact Real.sqrt_sq (by norm_num)
      rw [this]; norm_num
    · refine h.trans ?_
      have : √(optsDef W).minGradNorm2 = 1 / 10 ^ 9 := by
        rw [show (optsDef W).minGradNorm2 = (1 / 10 ^ 9) ^ 2 by norm_num [optsDef]]; exact Real.sqrt_sq (by norm_num)
      rw [this]; norm_num
    · refine h2.trans ?_
      have : st.trace.length = 51 := by exact_mod_cast h
      rw [this]
      have h4 : |(1 : ℝ) - √2| ≤ 1 / 2 := abs_le.mpr ⟨by linarith, by linarith⟩
      calc (3 / 5 : ℝ) ^ 51 * |(1 : ℝ) - √2| ≤ (3 / 5) ^ 51 * (1 / 2) := mul_le_mul_of_nonneg_left h4 (by positivity)
        _ ≤ _ := by norm_num
  · rcases h3 with ⟨h, -⟩ | ⟨h, -⟩ | ⟨h, -⟩ | ⟨h, -⟩ <;> simp [h]

end

/-- optimization of one residual of one parameter with automatic differentiation -/
noncomputable def adProbS (e : Expr 1) : Problem ℝ ℝ Unit (RVec 1) where
  acc := {
    full := fun w x k g H => if h : k = 1 then
        match accScalar true e x with
        | some (v, g', H') => ((⟨v, 1, 1, ""⟩, h ▸ g', h ▸ H'), w)
        | none => ((⟨0, 0, 1, ""⟩, g, H), w)
      else ((⟨0, 0, 1, ""⟩, g, H), w)
    eval := fun w x => (⟨e.value x * e.value x, 1, 1, ""⟩, w) }
  dims := some 1
  dynDims := fun _ => 1
  plusEq := fun x v => if h : v.n = 1 then x + h ▸ v.v else x
  clock := fun w => (0, w)
  alloc := fun w _ => (none, w)
  ratio1 := 1

/-- the hypotheses of C81: a problem, a linear solver, a start below the root and one far above it -/
example : ADScalar (adProbS (sqrtExpr 2)) (sqrtExpr 2) ∧ VecParams (adProbS (sqrtExpr 2)) ∧ ExactLinAlg someLinAlg ∧
    loopBound (optsDef Unit) (-1) = some 51 ∧ √2 / 2 ≤ (1 : ℝ) ∧ √2 / 2 ≤ (1000 : ℝ) ∧ (((1000 : ℝ) ^ 2 - 2) ^ 2 < maxVal) := by
  have hs3 : √2 ≤ (1.42 : ℝ) := Real.sqrt_le_iff.mpr ⟨by norm_num, by norm_num⟩
  refine ⟨⟨fun w x g0 H0 h => ?_, fun w x h => ⟨(), rfl⟩⟩, ⟨fun _ => rfl, Or.inl rfl, fun x v => by simp [adProbS]⟩, someLinAlg_exact, by decide, by linarith, by linarith, ?_⟩
  · obtain ⟨J, g, H, h1, -⟩ := C38_scalar (sqrtExpr 2) x h
    refine ⟨_, g, H, (), h1, ?_⟩
    simp only [adProbS, h1, dif_pos]
    rfl
  · exact lt_of_lt_of_le (by norm_num : ((1000 : ℝ) ^ 2 - 2) ^ 2 < 2 ^ 50) (pow_le_pow_right₀ (by norm_num) (by norm_num))

end Verif
