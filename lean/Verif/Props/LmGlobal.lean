import Verif.Props.LmNonlin
import Verif.Lemmas.QuietRun
import Mathlib.Analysis.Calculus.MeanValue
/-!
# C74: Levenberg-Marquardt far from a solution
-/

set_option linter.unusedSectionVars false

namespace Verif
open FloatOps Loss

/-! ### one step -/

section
variable {m n : Nat}

theorem diagSq_ge {H : Mat ℝ n} {δ : ℝ} (h : ∀ i, δ ≤ H i i) (v : Vec ℝ n) : δ * nrm v ^ 2 ≤ diagSq H v := by
  rw [nrm_sq]
  unfold dotR diagSq
  rw [Finset.mul_sum]
  refine Finset.sum_le_sum fun i _ => ?_
  have := mul_le_mul_of_nonneg_right (h i) (sq_nonneg (v i))
  nlinarith

theorem diagSq_le {H : Mat ℝ n} {δ : ℝ} (h : ∀ i, H i i ≤ δ) (v : Vec ℝ n) : diagSq H v ≤ δ * nrm v ^ 2 := by
  rw [nrm_sq]
  unfold dotR diagSq
  rw [Finset.mul_sum]
  refine Finset.sum_le_sum fun i _ => ?_
  have := mul_le_mul_of_nonneg_right (h i) (sq_nonneg (v i))
  nlinarith

theorem gram_diag_le {A : Fin m → Fin n → ℝ} {B : ℝ} (h : ∀ v, nrm (mv A v) ≤ B * nrm v) (i : Fin n) : gram A i i ≤ B ^ 2 := by
  have h1 := h (Pi.single i 1)
  have e1 : nrm (Pi.single i 1 : Vec ℝ n) = 1 := by
    rw [nrm]; simp [dotR, Pi.single_apply]
  have e2 : nrm (mv A (Pi.single i 1)) ^ 2 = gram A i i := by
    rw [nrm_sq]; simp [dotR, mv, gram, Pi.single_apply]
  rw [e1, mul_one] at h1
  rw [← e2]
  exact pow_le_pow_left₀ (nrm_nonneg _) h1 2

/-- `|A d|² ≤ Λ dᵀA d` for `0 ≤ A ≤ Λ` -/
theorem psd_sq {A : Mat ℝ n} (hA : PSD A) {Λ : ℝ} (hΛ : 0 < Λ) (hu : ∀ v, dotR v (mv A v) ≤ Λ * nrm v ^ 2) (d : Vec ℝ n) :
    nrm (mv A d) ^ 2 ≤ Λ * dotR d (mv A d) := by
  have h1 := hA.2 (Λ • d - mv A d)
  have h2 := hu (mv A d)
  rw [nrm_sq] at *
  have hs : ∀ u v : Vec ℝ n, dotR u (mv A v) = dotR v (mv A u) := by
    intro u v
    unfold dotR mv
    simp only [Finset.mul_sum]
    rw [Finset.sum_comm]
    refine Finset.sum_congr rfl fun i _ => Finset.sum_congr rfl fun j _ => ?_
    rw [hA.1 j i]; ring
  rw [mv_sub, mv_smul, dotR_sub, dotR_smul, dotR_comm _ (mv A d), dotR_sub, dotR_smul, dotR_comm (mv A d) d,
    dotR_comm _ (mv A (mv A d)), dotR_sub, dotR_smul, dotR_comm _ d, hs d (mv A d), dotR_comm (mv A (mv A d))] at h1
  generalize dotR d (mv A d) = a at *
  generalize dotR (mv A d) (mv A d) = b at *
  generalize dotR (mv A d) (mv A (mv A d)) = c at *
  have h3 : Λ * b ≤ Λ * (Λ * a) := by nlinarith
  exact le_of_mul_le_mul_left h3 hΛ

/-- A step with enough damping decreases the norm of the residuals, by a part of what the linear model predicts. -/
theorem damped_enough {A : Fin m → Fin n → ℝ} {r r' : Vec ℝ m} {d : Vec ℝ n} {l L δ : ℝ} (hl : 0 ≤ l) (hδ : ∀ i, δ ≤ gram A i i)
    (hd : mv (dampedR l (gram A)) d = -tmv A r) (ht : nrm (r' - r - mv A d) ≤ L / 2 * nrm d ^ 2) (hlδ : L * nrm r ≤ l * δ) :
    2 * nrm r * nrm r' ≤ 2 * nrm r ^ 2 - dotR d (mv (dampedR l (gram A)) d) := by
  obtain ⟨-, h2⟩ := damped_model hd
  have h3 := mul_le_mul_of_nonneg_left (diagSq_ge hδ d) hl
  have h4 : nrm r' ≤ nrm (r + mv A d) + L / 2 * nrm d ^ 2 := by
    have := nrm_add_le (r + mv A d) (r' - r - mv A d)
    have e : r + mv A d + (r' - r - mv A d) = r' := by abel
    rw [e] at this
    linarith
  have h5 : dotR d (mv (dampedR l (gram A)) d) = nrm (mv A d) ^ 2 + l * diagSq (gram A) d := by
    rw [damped_quad, mv_gram, dotR_tmv, ← nrm_sq]
  rw [h5]
  have hr := nrm_nonneg r
  have h6 : L * nrm r * nrm d ^ 2 ≤ l * δ * nrm d ^ 2 := mul_le_mul_of_nonneg_right hlδ (sq_nonneg _)
  have h7 : 2 * nrm r * nrm r' ≤ 2 * nrm r * (nrm (r + mv A d) + L / 2 * nrm d ^ 2) := mul_le_mul_of_nonneg_left h4 (by positivity)
  nlinarith [sq_nonneg (nrm r - nrm (r + mv A d))]

/-- the gradient is bounded by the predicted decrease -/
theorem damped_grad {A : Fin m → Fin n → ℝ} {d g : Vec ℝ n} {l B : ℝ} (hl : 0 ≤ l) (hB : 0 < B) (hA : ∀ v, nrm (mv A v) ≤ B * nrm v)
    (hd : mv (dampedR l (gram A)) d = -g) : nrm g ^ 2 ≤ B ^ 2 * (1 + l) * dotR d (mv (dampedR l (gram A)) d) := by
  have hpsd : PSD (dampedR l (gram A)) := by
    refine ⟨damped_sym (gram_psd A).1, fun v => ?_⟩
    rw [damped_quad]
    exact add_nonneg ((gram_psd A).2 v) (mul_nonneg hl (diagSq_nonneg (psd_diag (gram_psd A)) v))
  have := psd_sq hpsd (Λ := B ^ 2 * (1 + l)) (by positivity) (fun v => by
    rw [damped_quad, mv_gram, dotR_tmv, ← nrm_sq]
    have h1 := pow_le_pow_left₀ (nrm_nonneg _) (hA v) 2
    have h2 := mul_le_mul_of_nonneg_left (diagSq_le (gram_diag_le hA) v) hl
    nlinarith) d
  rw [hd, nrm_neg] at this
  rw [hd]
  exact this

end

/-! ### the run -/

section
variable {R W : Type} {m n : Nat}
variable {so : SolverOpts ℝ} {LA : LinAlg ℝ} {P : Problem ℝ R W (Vec ℝ n)} {o : Options ℝ W (DVec ℝ)}
variable {r : Vec ℝ n → Vec ℝ m} {J : Vec ℝ n → Fin m → Fin n → ℝ} {φ : ℝ → ℝ} {R0 L δ B Λ : ℝ}

/-- The residuals `r` are differentiable with Jacobian `J`, which is Lipschitz with constant `L` and, where the norm of the residuals is at most `R0`, bounded by `B` with columns of squared
norm at least `δ`. -/
structure SmoothRes (r : Vec ℝ n → Vec ℝ m) (J : Vec ℝ n → Fin m → Fin n → ℝ) (R0 L δ B : ℝ) : Prop where
  jac : ∀ x, HasJac r (J x) x
  lip : ∀ x y v, nrm (mv (J x) v - mv (J y) v) ≤ L * nrm (x - y) * nrm v
  posL : 0 ≤ L
  col : ∀ x i, nrm (r x) ≤ R0 → δ ≤ gram (J x) i i
  posδ : 0 < δ
  up : ∀ x v, nrm (r x) ≤ R0 → nrm (mv (J x) v) ≤ B * nrm v
  posB : 0 < B

theorem SmoothRes.taylor (h : SmoothRes r J R0 L δ B) (x d : Vec ℝ n) : nrm (r (x + d) - r x - mv (J x) d) ≤ L / 2 * nrm d ^ 2 :=
  taylor_of_lip h.posL (fun _ _ _ => h.jac _) fun t _ _ => by
    have := h.lip (x + t • d) x d
    rwa [add_sub_cancel_left] at this

theorem SmoothRes.step (h : SmoothRes r J R0 L δ B) {x d : Vec ℝ n} {l : ℝ} (hl : 0 < l) (hlδ : L * R0 ≤ l * δ) (hx : nrm (r x) ≤ R0)
    (hg : tmv (J x) (r x) ≠ 0) (hd : mv (dampedR l (gram (J x))) d = -tmv (J x) (r x)) :
    nrm (r (x + d)) < nrm (r x) ∧
    nrm (tmv (J x) (r x)) ^ 2 ≤ 2 * B ^ 2 * (1 + l) * (nrm (r x) * (nrm (r x) - nrm (r (x + d)))) := by
  have h1 := damped_enough hl.le (h.col x · hx) hd (h.taylor x d) ((mul_le_mul_of_nonneg_left hx h.posL).trans hlδ)
  have h2 := damped_grad hl.le h.posB (h.up x · hx) hd
  have hB := h.posB
  have h3 : nrm (tmv (J x) (r x)) ^ 2 ≤ 2 * B ^ 2 * (1 + l) * (nrm (r x) * (nrm (r x) - nrm (r (x + d)))) := by
    have : B ^ 2 * (1 + l) * dotR d (mv (dampedR l (gram (J x))) d) ≤ B ^ 2 * (1 + l) * (2 * (nrm (r x) * (nrm (r x) - nrm (r (x + d))))) :=
      mul_le_mul_of_nonneg_left (by nlinarith) (by positivity)
    linarith
  refine ⟨?_, h3⟩
  have h4 : 0 < nrm (tmv (J x) (r x)) ^ 2 := by have := nrm_pos hg; positivity
  have h5 : 0 < nrm (r x) * (nrm (r x) - nrm (r (x + d))) := by
    by_contra hc
    have : 2 * B ^ 2 * (1 + l) * (nrm (r x) * (nrm (r x) - nrm (r (x + d)))) ≤ 0 := mul_nonpos_of_nonneg_of_nonpos (by positivity) (not_lt.mp hc)
    linarith
  by_contra hc
  have : nrm (r x) * (nrm (r x) - nrm (r (x + d))) ≤ 0 := mul_nonpos_of_nonneg_of_nonpos (nrm_nonneg _) (by linarith)
  linarith

/-- **C74**, when the damping cannot be too small. Levenberg-Marquardt (exact arithmetic, at most 65536 iterations, a solver that starts with a rebuilt system) on any
nonlinear least squares problem with a Lipschitz and bounded Jacobian without small columns: if every allowed damping is at least `L |r| / δ`, then every iteration
is accepted and the squares of all gradients sum up to at most `2 B² (1 + Λ) |r(x0)|²`, where `Λ` bounds the damping; so after `N` iterations one of the gradients
was at most `sqrt (2 B² (1 + Λ) / N) |r(x0)|`. -/
theorem C74_lm_stationary_partial (h : NonlinLS P (fun x => nrm (r x) ≤ R0) r J φ) (hsm : SmoothRes r J R0 L δ B) (hL : ExactLinAlg LA)
    (hone : so.useLdlt = true ∨ P.dims ≠ some 1) (hr0 : so.dampLo ≤ so.dampHi) (hlo : 0 < so.dampLo) (hin : 0 < so.dampInit)
    (hlo' : L * R0 ≤ so.dampLo * δ) (hin' : L * R0 ≤ so.dampInit * δ)
    (hmin : ∀ x, nrm (r x) ≤ R0 → DiagOk so (gram (J x))) (hclip : so.gradClip = 0)
    (s : LMState ℝ R) (hs : P.dims = none ∨ s.gn.n = n) (hreb : s.rebuild = true) (hal : Allowed so s.lambda) (hsl : s.lambda ≤ Λ)
    (hΛ : so.dampHi ≤ Λ ∨ (o.useStepQuality = false ∧ 0 ≤ so.goodFactor ∧ so.goodFactor ≤ 1 ∧ s.badF = so.badFactor ∧ so.dampLo ≤ Λ))
    (fuel : Nat) (mi k : Int) (hk : loopBound o mi = some k) (hk2 : k ≤ 65536)
    (w : W) (x0 : Vec ℝ n) (hx0 : nrm (r x0) ≤ R0) (hc0 : nCost so m (φ (dotR (r x0) (r x0))) < maxVal) :
    ∃ st, optimizeAcc (lmEnv so LA P) o (fuel + 1) mi w s x0 = .ok st ∧
      (∀ t ∈ st.trace, tmv (J t.x) (r t.x) ≠ 0 → t.succ = true ∧ nrm (r t.xNext) < nrm (r t.x)) ∧
      (st.trace.map fun t => nrm (tmv (J t.x) (r t.x)) ^ 2).sum ≤ 2 * B ^ 2 * (1 + Λ) * nrm (r x0) ^ 2 ∧
      (st.trace ≠ [] → ∃ t ∈ st.trace, nrm (tmv (J t.x) (r t.x)) ^ 2 ≤ 2 * B ^ 2 * (1 + Λ) * nrm (r x0) ^ 2 / st.trace.length) := by
  have hall : ∀ l, Allowed so l → 0 < l ∧ L * R0 ≤ l * δ := by
    rintro l (rfl | h)
    · exact ⟨hin, hin'⟩
    · exact ⟨hlo.trans_le h, hlo'.trans (mul_le_mul_of_nonneg_right h hsm.posδ.le)⟩
  obtain ⟨st, e, -, ht⟩ := lm_nls_run (o := o) h hL (fun x hx l hl => damped_pd (gram_psd (J x)) (fun i => hsm.posδ.trans_le (hsm.col x i hx)) (hall l hl).1)
    hone hr0 hlo.le hin.le hmin hclip
    (K := fun _ l b => 0 < l ∧ l ≤ Λ ∧ (so.dampHi ≤ Λ ∨ b = so.badFactor)) (fun _ _ h => h)
    (by
      rintro i s2 s3 q hq ⟨h0, h1, h2⟩ hg
      rcases hΛ with hΛ | ⟨hq0, hg0, hg1, -, hloΛ⟩
      · unfold lmGood at hg
        rw [stdClamp_real hr0] at hg
        injection hg with hg
        subst hg
        exact ⟨hlo.trans_le (le_max_left _ _), max_le (hr0.trans hΛ) ((min_le_right _ _).trans hΛ), Or.inl hΛ⟩
      · obtain rfl := hq hq0
        unfold lmGood at hg
        rw [stdClamp_real hr0] at hg
        injection hg with hg
        subst hg
        refine ⟨hlo.trans_le (le_max_left _ _), max_le hloΛ ?_, Or.inr rfl⟩
        rcases h2 with h2 | h2
        · exact (min_le_right _ _).trans h2
        · have hsc : goodScale so 0 s2.badF = so.goodFactor := by
            unfold goodScale; rw [h2]; simp [ne]
          rw [hsc]
          refine (min_le_left _ _).trans ?_
          show s2.lambda * so.goodFactor ≤ Λ
          nlinarith)
    (fun i x d l b hx hl _ hg hd => by
      have := (hsm.step (hall l hl).1 (hall l hl).2 hx hg hd).1
      exact ⟨this.le.trans hx, this⟩)
    s hs hreb hal ⟨(hall _ hal).1, hsl, by
      rcases hΛ with h | h
      · exact Or.inl h
      · exact Or.inr h.2.2.2.1⟩ fuel mi k hk hk2 w x0 hx0 hc0
  have hB := hsm.posB
  have hΛ0 : 0 < Λ := (hall _ hal).1.trans_le hsl
  have hrow : ∀ t ∈ st.trace, (tmv (J t.x) (r t.x) ≠ 0 → t.succ = true ∧ nrm (r t.xNext) < nrm (r t.x)) ∧ nrm (r t.xNext) ≤ nrm (r t.x) ∧
      nrm (tmv (J t.x) (r t.x)) ^ 2 ≤ 2 * B ^ 2 * (1 + Λ) * (nrm (r t.x) * (nrm (r t.x) - nrm (r t.xNext))) := by
    intro t htt
    obtain ⟨i, hi⟩ := List.getElem?_of_mem htt
    obtain ⟨h1, h2, h3⟩ := ht i t hi
    by_cases hg : tmv (J t.x) (r t.x) = 0
    · rw [h2 hg, hg, nrm_zero]; simp
    · obtain ⟨h4, l, b, h5, h6, h7⟩ := h3 hg
      have := hsm.step (hall l h6).1 (hall l h6).2 h1 hg h7
      rw [add_sub_cancel] at this
      refine ⟨fun _ => ⟨h4, this.1⟩, this.1.le, this.2.trans ?_⟩
      have h8 : 0 ≤ nrm (r t.x) * (nrm (r t.x) - nrm (r t.xNext)) := mul_nonneg (nrm_nonneg _) (by linarith)
      refine mul_le_mul_of_nonneg_right ?_ h8
      have := h5.2.1
      have : 0 < 2 * B ^ 2 := by positivity
      nlinarith
  have hsum : (st.trace.map fun t => nrm (tmv (J t.x) (r t.x)) ^ 2).sum ≤ 2 * B ^ 2 * (1 + Λ) * nrm (r x0) ^ 2 := by
    have hp := run_path e
    have hgen : ∀ (tr : List _) (x y : Vec ℝ n), Path x tr y → (∀ t ∈ tr, t ∈ st.trace) → nrm (r x) ≤ nrm (r x0) →
        (tr.map fun t => nrm (tmv (J t.x) (r t.x)) ^ 2).sum ≤ 2 * B ^ 2 * (1 + Λ) * (nrm (r x0) * nrm (r x)) := by
      intro tr
      induction tr with
      | nil =>
        intro x y _ _ _
        simp only [List.map_nil, List.sum_nil]
        have := nrm_nonneg (r x0); have := nrm_nonneg (r x)
        positivity
      | cons t tr ih =>
        rintro x y ⟨h1, h2⟩ hm hle
        obtain ⟨-, h3, h4⟩ := hrow t (hm t List.mem_cons_self)
        rw [h1] at h3
        have h5 := ih t.xNext y h2 (fun q hq => hm q (List.mem_cons_of_mem _ hq)) (h3.trans hle)
        rw [List.map_cons, List.sum_cons]
        have h6 : nrm (r t.x) * (nrm (r t.x) - nrm (r t.xNext)) ≤ nrm (r x0) * (nrm (r x) - nrm (r t.xNext)) := by
          rw [h1]
          exact mul_le_mul_of_nonneg_right hle (by linarith)
        have h7 := mul_le_mul_of_nonneg_left h6 (show 0 ≤ 2 * B ^ 2 * (1 + Λ) by positivity)
        nlinarith
    have := hgen st.trace x0 st.x hp (fun _ h => h) le_rfl
    rwa [← pow_two] at this
  refine ⟨st, e, fun t h => (hrow t h).1, hsum, fun hne => ?_⟩
  by_contra hc
  push Not at hc
  have hpos : (0 : ℝ) < st.trace.length := by
    have := List.length_pos_iff.mpr hne
    exact_mod_cast this
  have := List.sum_lt_sum_of_ne_nil hne (fun _ => 2 * B ^ 2 * (1 + Λ) * nrm (r x0) ^ 2 / st.trace.length) (fun t => nrm (tmv (J t.x) (r t.x)) ^ 2) hc
  rw [List.map_const', List.sum_replicate, nsmul_eq_mul, mul_div_cancel₀ _ hpos.ne'] at this
  linarith


end

/-! ### the claim fails for the default damping -/

/-- `sqrt (sqrt (1 + x²))` -/
noncomputable def qrt (x : ℝ) : ℝ := √√(1 + x ^ 2)

theorem qrt_pow (x : ℝ) : qrt x ^ 4 = 1 + x ^ 2 := by
  have h : (0 : ℝ) ≤ 1 + x ^ 2 := by positivity
  have : qrt x ^ 4 = ((√√(1 + x ^ 2)) ^ 2) ^ 2 := by unfold qrt; ring
  rw [this, Real.sq_sqrt (Real.sqrt_nonneg _), Real.sq_sqrt h]

theorem qrt_pos (x : ℝ) : 0 < qrt x := by
  unfold qrt
  have h : (0 : ℝ) < 1 + x ^ 2 := by positivity
  exact Real.sqrt_pos.mpr (Real.sqrt_pos.mpr h)

theorem qrt_one (x : ℝ) : 1 ≤ qrt x := by
  by_contra h
  have h1 := pow_lt_one₀ (qrt_pos x).le (not_le.mp h) (n := 4) (by norm_num)
  rw [qrt_pow] at h1
  nlinarith [sq_nonneg x]

theorem qrt_deriv (x : ℝ) : HasDerivAt qrt (x / (2 * qrt x ^ 3)) x := by
  have h : (0 : ℝ) < 1 + x ^ 2 := by positivity
  have h1 : HasDerivAt (fun x : ℝ => 1 + x ^ 2) (2 * x) x := by
    have := (hasDerivAt_pow 2 x).const_add 1
    simpa using this
  have h2 := (h1.sqrt h.ne').sqrt (Real.sqrt_pos.mpr h).ne'
  refine h2.congr_deriv ?_
  have e : √(1 + x ^ 2) = qrt x ^ 2 := by unfold qrt; rw [Real.sq_sqrt (Real.sqrt_nonneg _)]
  rw [show √√(1 + x ^ 2) = qrt x from rfl, e]
  have := (qrt_pos x).ne'
  field_simp

/-- one residual with one unknown, `x / (1 + x²)^(1/4)`: it grows like the square root of `|x|` -/
noncomputable def slow : Vec ℝ 1 → Vec ℝ 1 := fun x _ => x 0 / qrt (x 0)
noncomputable def slowD (x : ℝ) : ℝ := (1 + qrt x ^ 4) / (2 * qrt x ^ 5)
noncomputable def slowJ : Vec ℝ 1 → Fin 1 → Fin 1 → ℝ := fun x _ _ => slowD (x 0)

theorem slow_deriv (x : ℝ) : HasDerivAt (fun x => x / qrt x) (slowD x) x := by
  have hp := (qrt_pos x).ne'
  have h := (hasDerivAt_id x).div (qrt_deriv x) hp
  refine h.congr_deriv ?_
  have h4 := qrt_pow x
  unfold slowD
  simp only [id]
  have hx : x ^ 2 = qrt x ^ 4 - 1 := by linarith
  field_simp
  rw [hx]
  ring

theorem slowD_deriv (x : ℝ) : HasDerivAt slowD (-(x * (5 + qrt x ^ 4)) / (4 * qrt x ^ 9)) x := by
  have hp := (qrt_pos x).ne'
  have h := (((qrt_deriv x).pow 4).const_add 1).div (((qrt_deriv x).pow 5).const_mul 2) (by
    simp only [Pi.pow_apply]; have := qrt_pos x; positivity)
  refine h.congr_deriv ?_
  simp only [Pi.pow_apply]
  field_simp
  push_cast
  ring

theorem slowD_lip (x y : ℝ) : |slowD x - slowD y| ≤ 3 / 2 * |x - y| := by
  have := Convex.norm_image_sub_le_of_norm_hasDerivWithin_le (f := slowD) (s := Set.univ) (C := 3 / 2) (x := y) (y := x)
    (fun z _ => (slowD_deriv z).hasDerivWithinAt) (fun z _ => ?_) convex_univ trivial trivial
  · simpa [Real.norm_eq_abs] using this
  · rw [Real.norm_eq_abs, abs_div, abs_neg, abs_mul]
    have h1 := qrt_one z
    have h4 := qrt_pow z
    have hp := qrt_pos z
    have hz : |z| ≤ qrt z ^ 2 := by
      refine abs_le_of_sq_le_sq ?_ (by positivity)
      nlinarith
    rw [abs_of_pos (show 0 < 5 + qrt z ^ 4 by positivity), abs_of_pos (show 0 < 4 * qrt z ^ 9 by positivity), div_le_iff₀ (by positivity)]
    have h5 : (1 : ℝ) ≤ qrt z ^ 4 := one_le_pow₀ h1
    have h6 : (1 : ℝ) ≤ qrt z ^ 3 := one_le_pow₀ h1
    calc |z| * (5 + qrt z ^ 4) ≤ qrt z ^ 2 * (6 * qrt z ^ 4) := mul_le_mul hz (by linarith) (by positivity) (by positivity)
      _ = 6 * qrt z ^ 6 * 1 := by ring
      _ ≤ 6 * qrt z ^ 6 * qrt z ^ 3 := mul_le_mul_of_nonneg_left h6 (by positivity)
      _ = 3 / 2 * (4 * qrt z ^ 9) := by ring

theorem slow_four (x : ℝ) : (x / qrt x) ^ 4 * (1 + x ^ 2) = x ^ 4 := by
  rw [← qrt_pow]
  have := (qrt_pos x).ne'
  field_simp

/-- the residual grows with `|x|` -/
theorem slow_lt {x y : ℝ} (h : |x| < |y|) : |x / qrt x| < |y / qrt y| := by
  refine lt_of_pow_lt_pow_left₀ 4 (abs_nonneg _) ?_
  have e : ∀ a : ℝ, |a| ^ 4 = a ^ 4 := fun a => by
    rw [show (4 : ℕ) = 2 * 2 from rfl, pow_mul, sq_abs, ← pow_mul]
  rw [e, e]
  have hx := slow_four x
  have hy := slow_four y
  have h2 : x ^ 2 < y ^ 2 := sq_lt_sq.mpr h
  have px : 0 < 1 + x ^ 2 := by positivity
  have py : 0 < 1 + y ^ 2 := by positivity
  rw [← sub_pos]
  have : 0 < ((y / qrt y) ^ 4 - (x / qrt x) ^ 4) * ((1 + x ^ 2) * (1 + y ^ 2)) := by
    have : ((y / qrt y) ^ 4 - (x / qrt x) ^ 4) * ((1 + x ^ 2) * (1 + y ^ 2)) = y ^ 4 * (1 + x ^ 2) - x ^ 4 * (1 + y ^ 2) := by
      rw [← hx, ← hy]; ring
    rw [this]
    have h0 := sq_nonneg x
    nlinarith [mul_nonneg h0 (sq_nonneg y), mul_nonneg (mul_nonneg h0 (sq_nonneg y)) (sub_pos.mpr h2).le]
  exact (pos_iff_pos_of_mul_pos this).mpr (by positivity)

theorem slow_range {x : ℝ} (h : |x / qrt x| ≤ √1000) : x ^ 2 ≤ 1000001 := by
  have h1 : (x / qrt x) ^ 2 ≤ 1000 := by
    rw [← sq_abs]
    calc |x / qrt x| ^ 2 ≤ √1000 ^ 2 := pow_le_pow_left₀ (abs_nonneg _) h 2
      _ = 1000 := Real.sq_sqrt (by norm_num)
  have h2 : (x / qrt x) ^ 4 ≤ 1000000 := by
    have := pow_le_pow_left₀ (sq_nonneg _) h1 2
    calc (x / qrt x) ^ 4 = ((x / qrt x) ^ 2) ^ 2 := by ring
      _ ≤ 1000 ^ 2 := this
      _ = _ := by norm_num
  have h3 := slow_four x
  have h4 : x ^ 4 ≤ 1000000 * (1 + x ^ 2) := by
    rw [← h3]; exact mul_le_mul_of_nonneg_right h2 (by positivity)
  by_contra hc
  have hc := not_le.mp hc
  nlinarith [mul_pos (show 0 < x ^ 2 by linarith) (sub_pos.mpr hc)]

theorem slow_smooth : SmoothRes slow slowJ √1000 (3 / 2) (1 / 5000) 1 where
  jac x := by
    intro i
    have h := (hasGrad_coord (n := 1) 0 x).comp_deriv (φ := fun t => t / qrt t) (slow_deriv (x 0))
    refine HasGrad.congr_J h ?_
    funext j; fin_cases j; simp [slowJ]
  lip x y v := by
    rw [nrm_one, nrm_one, nrm_one]
    simp only [Pi.sub_apply, mv, slowJ, Fin.sum_univ_succ, Fin.sum_univ_zero, add_zero]
    rw [← sub_mul, abs_mul]
    exact mul_le_mul_of_nonneg_right (slowD_lip _ _) (abs_nonneg _)
  posL := by norm_num
  col x i hx := by
    rw [nrm_one] at hx
    have h := slow_range hx
    simp only [gram, slowJ, Fin.sum_univ_succ, Fin.sum_univ_zero, add_zero]
    have hp := qrt_pos (x 0)
    have h4 := qrt_pow (x 0)
    have hs : qrt (x 0) ^ 2 ≤ 1001 := by
      refine le_of_abs_le (abs_le_of_sq_le_sq ?_ (by norm_num))
      nlinarith
    have : slowD (x 0) * slowD (x 0) = (1 + qrt (x 0) ^ 4) ^ 2 / (4 * qrt (x 0) ^ 10) := by
      unfold slowD
      field_simp
      ring
    rw [this, div_le_div_iff₀ (by norm_num) (by positivity)]
    have : qrt (x 0) ^ 10 ≤ 1001 * qrt (x 0) ^ 8 := by
      have := mul_le_mul_of_nonneg_right hs (show 0 ≤ qrt (x 0) ^ 8 by positivity)
      nlinarith
    nlinarith [show 0 < qrt (x 0) ^ 4 by positivity]
  posδ := by norm_num
  up x v hx := by
    rw [nrm_one, nrm_one]
    simp only [mv, slowJ, Fin.sum_univ_succ, Fin.sum_univ_zero, add_zero]
    rw [abs_mul]
    refine mul_le_mul_of_nonneg_right ?_ (abs_nonneg _)
    have hp := qrt_pos (x 0)
    have h1 := qrt_one (x 0)
    unfold slowD
    rw [abs_of_pos (by positivity), div_le_one (by positivity)]
    have h4 : (1 : ℝ) ≤ qrt (x 0) ^ 4 := one_le_pow₀ h1
    have : qrt (x 0) ^ 5 = qrt (x 0) ^ 4 * qrt (x 0) := by ring
    nlinarith
  posB := by norm_num

/-- far from zero the gradient is not small -/
theorem slow_grad {x : ℝ} (h : 1 ≤ x ^ 2) : 1 / 4 ≤ (slowD x * (x / qrt x)) ^ 2 := by
  have hp := qrt_pos x
  have h4 := qrt_pow x
  have e : (slowD x * (x / qrt x)) ^ 2 = (1 + qrt x ^ 4) ^ 2 * (qrt x ^ 4 - 1) / (4 * (qrt x ^ 4) ^ 3) := by
    have : qrt x ^ 4 - 1 = x ^ 2 := by linarith
    rw [this]
    unfold slowD
    field_simp
    ring
  rw [e, div_le_div_iff₀ (by norm_num) (by positivity), h4]
  nlinarith [sq_nonneg (x ^ 2), mul_nonneg (sq_nonneg x) (sub_nonneg.mpr h)]

/-- the step of Levenberg-Marquardt almost mirrors `x` at zero -/
theorem slow_step {x d l : ℝ} (hl : 0 ≤ l) (hx : x ≠ 0) (hd : slowD x * slowD x * (1 + l) * d = -(slowD x * (x / qrt x))) :
    |x + d| < |x| ∧ |x| - 2 / |x| - 2 * l * |x| ≤ |x + d| := by
  have hp := qrt_pos x
  have hD : 0 < slowD x := by unfold slowD; positivity
  have h4 := qrt_pow x
  have h1 : slowD x * (1 + l) * d = -(x / qrt x) := by
    apply mul_left_cancel₀ hD.ne'
    linarith
  have h2 : (2 + x ^ 2) * (1 + l) * d = -(2 * (1 + x ^ 2) * x) := by
    have : slowD x * (2 * qrt x ^ 5) = 2 + x ^ 2 := by
      unfold slowD
      rw [div_mul_cancel₀ _ (by positivity), h4]; ring
    rw [← this]
    have e : slowD x * (2 * qrt x ^ 5) * (1 + l) * d = (slowD x * (1 + l) * d) * (2 * qrt x ^ 5) := by ring
    rw [e, h1, ← h4]
    field_simp
  set q : ℝ := 2 * (1 + x ^ 2) / ((2 + x ^ 2) * (1 + l)) with hq
  have hpos : 0 < (2 + x ^ 2) * (1 + l) := by positivity
  have hd' : x + d = x * (1 - q) := by
    have : d = -(x * q) := by
      apply mul_left_cancel₀ hpos.ne'
      rw [h2, hq]
      field_simp
    rw [this]; ring
  have hx2 : 0 < x ^ 2 := by positivity
  have hq0 : 0 < q := by positivity
  have hq2 : q < 2 := by
    rw [hq, div_lt_iff₀ hpos]; nlinarith
  have hax : 0 < |x| := abs_pos.mpr hx
  rw [hd', abs_mul]
  constructor
  · have : |1 - q| < 1 := by rw [abs_lt]; constructor <;> linarith
    nlinarith
  · have h3 : 1 - 2 / (2 + x ^ 2) - 2 * l ≤ q - 1 := by
      have e : q - 1 - (1 - 2 / (2 + x ^ 2) - 2 * l) = 2 * l * ((1 + l) * (2 + x ^ 2) - (1 + x ^ 2)) / ((2 + x ^ 2) * (1 + l)) := by
        rw [hq]; field_simp; ring
      have : 0 ≤ q - 1 - (1 - 2 / (2 + x ^ 2) - 2 * l) := by
        rw [e]
        refine div_nonneg (mul_nonneg (by linarith) ?_) hpos.le
        nlinarith
      linarith
    have h5 : q - 1 ≤ |1 - q| := by rw [abs_sub_comm]; exact le_abs_self _
    have h6 : |x| * (2 / (2 + x ^ 2)) ≤ 2 / |x| := by
      rw [← sq_abs x, mul_div_assoc', div_le_div_iff₀ (by positivity) hax]
      nlinarith
    have := mul_le_mul_of_nonneg_left (h3.trans h5) hax.le
    nlinarith

/-- the options of Levenberg-Marquardt with the default damping of the library (options.h:133-139) -/
noncomputable def soptsLM : SolverOpts ℝ := { soptsR with dampInit := 1 / 10000, dampLo := 1 / 1000000000, dampHi := 1000000000 }

theorem optsR_quiet (k : Nat) : Quiet (optsR k) := by
  constructor <;> first | rfl | (show decide _ = false; simp [optsR])

theorem dampAt_le (i : Nat) : dampAt soptsLM (1 / 10000) i ≤ 1 / 1000000000 + 3 / 10000 * (1 / 3) ^ i := by
  have hp : (0 : ℝ) < (1 / 3) ^ i := by positivity
  refine max_le (by show (1 / 1000000000 : ℝ) ≤ _; linarith) ?_
  show (1 / 10000 : ℝ) * (1 / 3) ^ (i - 1) ≤ _
  cases i with
  | zero => norm_num
  | succ j =>
    simp only [Nat.add_sub_cancel, pow_succ]
    have hp : (0 : ℝ) < (1 / 3) ^ j := by positivity
    linarith


/-- **C74** fails for the default damping. The residual `slow` is as smooth as `C74_lm_stationary_partial` asks for, but started at `x = 1000` Levenberg-Marquardt with
the default damping does all its `N` iterations (any `N` up to 65536), accepts every step and lowers the damping, and no iterate has a squared gradient below
`1/4`: each step jumps to the other side of the minimum and gains next to nothing. The bound of `C74_lm_stationary_partial` would be below `1/32` for `N = 65536`. -/
theorem C74_lm_stalls : SmoothRes slow slowJ √1000 (3 / 2) (1 / 5000) 1 ∧ nrm (slow fun _ => 1000) ≤ √1000 ∧
    (2 * 1 ^ 2 * (1 + soptsLM.dampInit) * nrm (slow fun _ => 1000) ^ 2 / 65536 < 1 / 32) ∧
    ∀ (k : Nat) (mi b : Int) (fuel : Nat), loopBound (optsR k) mi = some b → b ≤ 65536 →
      ∃ st, optimizeAcc (lmEnv soptsLM someLinAlg (nlsProb slow slowJ)) (optsR k) (fuel + 1) mi ()
          (lmFresh soptsLM (nlsProb slow slowJ) (fun _ => 0) (fun _ _ => 0)) (fun _ => 1000) = .ok st ∧
        (st.trace.length : Int) = b ∧
        (∀ t ∈ st.trace, t.succ = true ∧ nrm (slow t.xNext) < nrm (slow t.x) ∧ 1 / 4 ≤ nrm (tmv (slowJ t.x) (slow t.x)) ^ 2) ∧
        1 / 4 ≤ nrm (tmv (slowJ st.x) (slow st.x)) ^ 2 := by
  have hn0 : nrm (slow fun _ => 1000) ^ 2 ≤ 1000 := by
    rw [nrm_one, sq_abs]
    refine le_of_abs_le (abs_le_of_sq_le_sq ?_ (by norm_num))
    have h := slow_four 1000
    show (((1000 : ℝ) / qrt 1000) ^ 2) ^ 2 ≤ _
    have h0 : 0 ≤ ((1000 : ℝ) / qrt 1000) ^ 4 := by positivity
    nlinarith
  have hR : nrm (slow fun _ => 1000) ≤ √1000 := Real.le_sqrt_of_sq_le hn0
  refine ⟨slow_smooth, hR, ?_, ?_⟩
  · rw [div_lt_iff₀ (by norm_num)]
    norm_num [soptsLM]
    nlinarith
  intro k mi b fuel hb hb2
  have hnn : ∀ l, Allowed soptsLM l → 0 ≤ l := by
    rintro l (rfl | h)
    · norm_num [soptsLM]
    · exact le_trans (by norm_num [soptsLM]) h
  have hlo : (0 : ℝ) ≤ soptsLM.dampLo := by norm_num [soptsLM]
  have hg0 : (0 : ℝ) ≤ soptsLM.goodFactor := by norm_num [soptsLM, soptsR]
  have hr0 : soptsLM.dampLo ≤ soptsLM.dampHi := by norm_num [soptsLM]
  have hgr : ∀ x, tmv (slowJ x) (slow x) ≠ 0 → x 0 ≠ 0 := by
    intro x hx h0
    apply hx
    funext j
    simp [tmv, slow, h0]
  have hstep : ∀ x d l, 0 ≤ l → x 0 ≠ 0 → mv (dampedR l (gram (slowJ x))) d = -tmv (slowJ x) (slow x) →
      |x 0 + d 0| < |x 0| ∧ |x 0| - 2 / |x 0| - 2 * l * |x 0| ≤ |x 0 + d 0| := by
    intro x d l hl hx hd
    refine slow_step hl hx ?_
    have := congrFun hd 0
    simp [mv, dampedR, gram, tmv, slowJ, slow] at this
    linarith
  obtain ⟨st, e, -, ht⟩ := lm_nls_run (o := optsR k) (so := soptsLM) (LA := someLinAlg)
    (nlsProb_nls slow slowJ (fun x => |x 0| ≤ 1000) (by decide) (by decide)) someLinAlg_exact
    (fun x hx l hl => damped_pd' (gram_pd fun v hv => by
      have hD : 0 < slowD (x 0) := by unfold slowD; have := qrt_pos (x 0); positivity
      have := congrFun hv 0
      simp [mv, slowJ, hD.ne'] at this
      funext j; fin_cases j; exact this) (hnn l hl))
    (Or.inl rfl) hr0 hlo (by norm_num [soptsLM]) (fun _ _ => Or.inl (le_refl _)) rfl
    (K := fun i l b => 0 ≤ l ∧ l ≤ dampAt soptsLM (1 / 10000) i ∧ b = soptsLM.badFactor) (fun l b hK => hK)
    (by
      rintro i s2 s3 q hq0 ⟨h0, h1, h2⟩ hg
      obtain rfl := hq0 rfl
      have hsc : goodScale soptsLM 0 s2.badF = soptsLM.goodFactor := by
        unfold goodScale; rw [h2]; simp [ne]
      unfold lmGood at hg
      rw [stdClamp_real hr0, hsc] at hg
      injection hg with hg
      subst hg
      refine ⟨hlo.trans (le_max_left _ _), ?_, rfl⟩
      show max soptsLM.dampLo (min (s2.lambda * soptsLM.goodFactor) soptsLM.dampHi) ≤ max soptsLM.dampLo (1 / 10000 * soptsLM.goodFactor ^ i)
      refine max_le (le_max_left _ _) ((min_le_left _ _).trans ?_)
      have h3 : s2.lambda * soptsLM.goodFactor ≤ dampAt soptsLM (1 / 10000) i * soptsLM.goodFactor := mul_le_mul_of_nonneg_right h1 hg0
      refine h3.trans ?_
      have hg1 : soptsLM.goodFactor ≤ 1 := by norm_num [soptsLM, soptsR]
      unfold dampAt
      rcases le_total soptsLM.dampLo (1 / 10000 * soptsLM.goodFactor ^ (i - 1)) with h4 | h4
      · rw [max_eq_right h4]
        refine le_max_of_le_right ?_
        cases i with
        | zero => simp; nlinarith
        | succ j => simp only [Nat.add_sub_cancel]; rw [pow_succ]; linarith
      · rw [max_eq_left h4]
        refine le_max_of_le_left ?_
        nlinarith)
    (fun i x d l b hx hl hK hg hd => by
      have := (hstep x d l hK.1 (hgr x hg) hd).1
      refine ⟨this.le.trans hx, ?_⟩
      rw [nrm_one, nrm_one]
      exact slow_lt this)
    (lmFresh soptsLM (nlsProb slow slowJ) (fun _ => 0) (fun _ _ => 0)) (Or.inl rfl) rfl (Or.inl rfl)
    ⟨by show (0 : ℝ) ≤ soptsLM.dampInit; norm_num [soptsLM], by
      show soptsLM.dampInit ≤ _
      refine le_max_of_le_right ?_
      norm_num [soptsLM], rfl⟩
    fuel mi b hb hb2 () (fun _ => 1000) (by norm_num) (by
      have h0 : dotR (slow fun _ => 1000) (slow fun _ => 1000) ≤ 1000 := by rw [← nrm_sq]; exact hn0
      show nCost soptsLM 1 (dotR (slow fun _ => 1000) (slow fun _ => 1000)) < 2 ^ 1024
      simp only [nCost, normalizeCost, soptsLM, soptsR]
      refine lt_of_le_of_lt (b := (2 : ℝ) ^ 10) ?_ (pow_lt_pow_right₀ (by norm_num) (by norm_num))
      simp only [Bool.not_true, Bool.false_eq_true, if_false, Bool.false_and]
      exact h0.trans (by norm_num))
  -- how far the iterates have come
  have hlen : (st.trace.length : Int) ≤ 65536 := by
    obtain ⟨m', st0, hm', -, -, hl, hst⟩ := run_inv (I := fun _ => True) (J := fun _ => True) (fun _ _ _ _ _ _ => ⟨fun _ => trivial, trivial⟩) trivial trivial e
    rw [hb] at hm'
    injection hm' with hm'
    subst hm'
    have e2 : st.trace = st0.trace := by rw [hst]
    rw [e2]
    exact hl.1.trans hb2
  have hfar : ∀ i : Nat, i ≤ 65536 → (800 : ℝ) ≤ 1000 - i * (1 / 400 + 2 / 1000000) - 9 / 10 * (1 - (1 / 3) ^ i) := by
    intro i hi
    have h1 : (i : ℝ) ≤ 65536 := by exact_mod_cast hi
    have h2 : (0 : ℝ) < (1 / 3) ^ i := by positivity
    nlinarith
  have hgrad : ∀ x : Vec ℝ 1, 800 ≤ |x 0| → 1 / 4 ≤ nrm (tmv (slowJ x) (slow x)) ^ 2 ∧ tmv (slowJ x) (slow x) ≠ 0 := by
    intro x hx
    have h1 : 1 / 4 ≤ nrm (tmv (slowJ x) (slow x)) ^ 2 := by
      rw [nrm_one, sq_abs]
      simp only [tmv, slowJ, slow, Fin.sum_univ_succ, Fin.sum_univ_zero, add_zero]
      refine slow_grad ?_
      rw [← sq_abs]; nlinarith
    refine ⟨h1, fun h0 => ?_⟩
    rw [h0, nrm_zero] at h1
    norm_num at h1
  have hp := run_path e
  have hmain : ∀ (tr : List _) (i : Nat) (x y : Vec ℝ 1), Path x tr y → (∀ j t, tr[j]? = some t → st.trace[i + j]? = some t) →
      i + tr.length ≤ 65536 → 1000 - i * (1 / 400 + 2 / 1000000) - 9 / 10 * (1 - (1 / 3) ^ i) ≤ |x 0| →
      (∀ t ∈ tr, t.succ = true ∧ nrm (slow t.xNext) < nrm (slow t.x) ∧ 1 / 4 ≤ nrm (tmv (slowJ t.x) (slow t.x)) ^ 2) ∧
      800 ≤ |y 0| := by
    intro tr
    induction tr with
    | nil =>
      intro i x y hpath _ hi hx
      simp only [Path] at hpath
      subst hpath
      exact ⟨fun t ht => by simp at ht, (hfar i (by simpa using hi)).trans hx⟩
    | cons t tr ih =>
      rintro i x y ⟨h1, h2⟩ hmem hi hx
      rw [List.length_cons] at hi
      have hx8 : 800 ≤ |x 0| := (hfar i (by omega)).trans hx
      subst h1
      obtain ⟨hg1, hg2⟩ := hgrad t.x hx8
      obtain ⟨hΩ, -, h3⟩ := ht i t (hmem 0 t rfl)
      obtain ⟨h4, l, β, hK, -, h6⟩ := h3 hg2
      have h7 := hstep t.x _ l hK.1 (hgr _ hg2) h6
      rw [Pi.sub_apply, add_sub_cancel] at h7
      have hxn : 1000 - ((i + 1 : ℕ) : ℝ) * (1 / 400 + 2 / 1000000) - 9 / 10 * (1 - (1 / 3) ^ (i + 1)) ≤ |t.xNext 0| := by
        refine le_trans ?_ h7.2
        have h8 : 2 / |t.x 0| ≤ 1 / 400 := by
          rw [div_le_div_iff₀ (by linarith) (by norm_num)]; linarith
        have h9 : l ≤ 1 / 1000000000 + 3 / 10000 * (1 / 3) ^ i := hK.2.1.trans (dampAt_le i)
        have h10 : 2 * l * |t.x 0| ≤ 2 * (1 / 1000000000 + 3 / 10000 * (1 / 3) ^ i) * 1000 :=
          mul_le_mul (by linarith) hΩ (abs_nonneg _) (by positivity)
        push_cast
        rw [pow_succ]
        linarith
      obtain ⟨h11, h12⟩ := ih (i + 1) t.xNext y h2 (fun j q hq => by
        have := hmem (j + 1) q (by simpa using hq)
        rwa [show i + 1 + j = i + (j + 1) by omega]) (by omega) hxn
      refine ⟨fun q hq => ?_, h12⟩
      rcases List.mem_cons.mp hq with rfl | hq
      · refine ⟨h4, ?_, hg1⟩
        rw [nrm_one, nrm_one]
        exact slow_lt h7.1
      · exact h11 q hq
  obtain ⟨h1, h2⟩ := hmain st.trace 0 _ _ hp (fun j t h => by simpa using h) (by omega) (by norm_num)
  exact ⟨st, e, quiet_run (optsR_quiet k) e hb fun t ht => succ_dx e t ht (h1 t ht).1, h1, (hgrad _ h2).1⟩

/-- the loop of the stalling run can be as long as the library allows -/
example : loopBound (optsR 65535) (-1) = some 65536 := by decide

/-- hypotheses of `C74_lm_stationary_partial`: one equation `x² = 4`, damping at least 1/2, started at `x = 2.2`, where the gradient is not zero -/
example (k : Nat) (hk : k < 1000) : NonlinLS (nlsProb root4 root4J) (fun x => nrm (root4 x) ≤ 1) root4 root4J ∧
    SmoothRes root4 root4J 1 2 9 5 ∧ ExactLinAlg someLinAlg ∧
    let so := { soptsR with dampLo := 1 / 2 }
    so.useLdlt = true ∧ so.dampLo ≤ so.dampHi ∧ 0 < so.dampLo ∧ 0 < so.dampInit ∧ 2 * 1 ≤ so.dampLo * 9 ∧ 2 * 1 ≤ so.dampInit * 9 ∧
    (∀ x, DiagOk so (gram (root4J x))) ∧ so.gradClip = 0 ∧ so.dampHi ≤ 1000 ∧ Allowed so so.dampInit ∧ (∃ b, loopBound (optsR k) (-1) = some b ∧ b ≤ 65536) ∧
    nrm (root4 fun _ => 22 / 10) ≤ 1 ∧ tmv (root4J fun _ => 22 / 10) (root4 fun _ => 22 / 10) ≠ 0 ∧
    nCost so 1 (dotR (root4 fun _ => 22 / 10) (root4 fun _ => 22 / 10)) < maxVal := by
  have hx : ∀ x : Vec ℝ 1, nrm (root4 x) ≤ 1 → 3 ≤ x 0 * x 0 ∧ x 0 * x 0 ≤ 5 := by
    intro x hx
    rw [nrm_one, abs_le] at hx
    simp only [root4] at hx
    constructor <;> linarith
  refine ⟨nlsProb_nls _ _ _ (by decide) (by decide), ⟨root4_reg.jac, root4_reg.lip, by norm_num, ?_, by norm_num, ?_, by norm_num⟩, someLinAlg_exact, ?_⟩
  · intro x i h
    have := hx x h
    simp [gram, root4J]; nlinarith
  · intro x v h
    have := hx x h
    rw [nrm_one, nrm_one]
    simp only [mv, root4J, Fin.sum_univ_succ, Fin.sum_univ_zero, add_zero]
    rw [abs_mul]
    refine mul_le_mul_of_nonneg_right (abs_le_of_sq_le_sq ?_ (by norm_num)) (abs_nonneg _)
    nlinarith
  refine ⟨rfl, by norm_num [soptsR], by norm_num, by norm_num [soptsR], by norm_num, by norm_num [soptsR], fun _ => Or.inl (le_refl _), rfl, by norm_num [soptsR],
    Or.inl rfl, ?_, ?_, ?_, ?_⟩
  · by_cases h0 : k = 0
    · subst h0; exact ⟨1, by decide, by decide⟩
    · have h6 : ¬ ((k : Int) + 1 + 1 > intMax) := by unfold intMax; omega
      refine ⟨(k : Int) + 1, ?_, by omega⟩
      simp only [loopBound, optsR]
      simp [h6]
  · rw [nrm_one]; norm_num [abs_le, root4]
  · intro h; have := congrFun h 0; norm_num [root4, root4J, tmv] at this
  · have : dotR (root4 fun _ => 22 / 10) (root4 fun _ => 22 / 10) = 441 / 625 := by
      simp [dotR, root4]; norm_num
    rw [this]
    show nCost _ 1 (441 / 625) < 2 ^ 1024
    simp [nCost, normalizeCost, soptsR]
    exact lt_of_lt_of_le (by norm_num : (441 / 625 : ℝ) < 2 ^ 3) (pow_le_pow_right₀ (by norm_num) (by norm_num))

end Verif
