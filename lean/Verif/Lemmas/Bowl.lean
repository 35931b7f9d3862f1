import Verif.Props.RobustRun
/-!
# Costs with a definite Hessian around a stationary point
-/

set_option linter.unusedSectionVars false

namespace Verif
open FloatOps Loss

section
variable {n : Nat}

/-- On the ball of radius `ρ` around `xs` the cost `f` is twice differentiable, with gradient `G` and Hessian `Q`; the gradient vanishes at `xs`; the Hessian is Lipschitz with
constant `L`, and its eigenvalues are between `μ > 0` and `C`. -/
structure Bowl (f : Vec ℝ n → ℝ) (G : Vec ℝ n → Vec ℝ n) (Q : Vec ℝ n → Mat ℝ n) (xs : Vec ℝ n) (ρ μ C L : ℝ) : Prop where
  grad : ∀ x, nrm (x - xs) ≤ ρ → HasGrad f (G x) x
  hess : ∀ x, nrm (x - xs) ≤ ρ → HasJac G (Q x) x
  zero : G xs = 0
  sym : ∀ x, nrm (x - xs) ≤ ρ → SymR (Q x)
  low : ∀ x v, nrm (x - xs) ≤ ρ → μ * nrm v ^ 2 ≤ dotR v (mv (Q x) v)
  up : ∀ x v, nrm (x - xs) ≤ ρ → dotR v (mv (Q x) v) ≤ C * nrm v ^ 2
  lip : ∀ x y v, nrm (x - xs) ≤ ρ → nrm (y - xs) ≤ ρ → nrm (mv (Q x) v - mv (Q y) v) ≤ L * nrm (x - y) * nrm v
  posμ : 0 < μ
  posC : 0 < C
  posL : 0 ≤ L

variable {f : Vec ℝ n → ℝ} {G : Vec ℝ n → Vec ℝ n} {Q : Vec ℝ n → Mat ℝ n} {xs : Vec ℝ n} {ρ μ C L : ℝ}

theorem Bowl.mono (h : Bowl f G Q xs ρ μ C L) {ρ' : ℝ} (hρ : ρ' ≤ ρ) : Bowl f G Q xs ρ' μ C L where
  grad x hx := h.grad x (hx.trans hρ)
  hess x hx := h.hess x (hx.trans hρ)
  zero := h.zero
  sym x hx := h.sym x (hx.trans hρ)
  low x v hx := h.low x v (hx.trans hρ)
  up x v hx := h.up x v (hx.trans hρ)
  lip x y v hx hy := h.lip x y v (hx.trans hρ) (hy.trans hρ)
  posμ := h.posμ
  posC := h.posC
  posL := h.posL

theorem Bowl.pd (h : Bowl f G Q xs ρ μ C L) {x : Vec ℝ n} (hx : nrm (x - xs) ≤ ρ) : PD (Q x) :=
  ⟨h.sym x hx, fun v hv => lt_of_lt_of_le (mul_pos h.posμ (pow_pos (nrm_pos hv) 2)) (h.low x v hx)⟩

theorem Bowl.upTo (h : Bowl f G Q xs ρ μ C L) {x : Vec ℝ n} (hx : nrm (x - xs) ≤ ρ) : UpTo C (Q x) := ⟨h.posC, fun v => h.up x v hx⟩

/-- the ball is convex -/
theorem ball_seg {x d : Vec ℝ n} (hx : nrm (x - xs) ≤ ρ) (hy : nrm (x + d - xs) ≤ ρ) {t : ℝ} (h0 : 0 ≤ t) (h1 : t ≤ 1) : nrm (x + t • d - xs) ≤ ρ := by
  have e : x + t • d - xs = (1 - t) • (x - xs) + t • (x + d - xs) := by funext i; simp; ring
  rw [e]
  refine (nrm_add_le _ _).trans ?_
  rw [nrm_smul, nrm_smul, abs_of_nonneg h0, abs_of_nonneg (by linarith)]
  nlinarith

theorem line_deriv (x d : Vec ℝ n) (t : ℝ) : HasDerivAt (fun t : ℝ => x + t • d) d t := by
  have := ((hasDerivAt_id t).smul_const d).const_add x
  simpa using this

theorem line_cost {x d : Vec ℝ n} {t : ℝ} (h : HasGrad f (G (x + t • d)) (x + t • d)) :
    HasDerivAt (fun t : ℝ => f (x + t • d)) (dotR (G (x + t • d)) d) t := by
  have h2 : HasFDerivAt f (rowCLM (G (x + t • d))) (x + t • d) := h
  have := h2.comp_hasDerivAt t (line_deriv x d t)
  rw [rowCLM_apply] at this
  exact this

theorem line_grad {x d : Vec ℝ n} {t : ℝ} (h : HasJac G (Q (x + t • d)) (x + t • d)) :
    HasDerivAt (fun t : ℝ => dotR (G (x + t • d)) d) (dotR d (mv (Q (x + t • d)) d)) t := by
  have hi : ∀ i, HasDerivAt (fun t : ℝ => G (x + t • d) i) (mv (Q (x + t • d)) d i) t := by
    intro i
    have h2 : HasFDerivAt (fun y => G y i) (rowCLM (Q (x + t • d) i)) (x + t • d) := h i
    have := h2.comp_hasDerivAt t (line_deriv x d t)
    rw [rowCLM_apply] at this
    exact this
  have := HasDerivAt.fun_sum (u := Finset.univ) fun i _ => (hi i).mul_const (d i)
  rw [dotR_comm]
  exact this

/-- a function whose derivative is at most `b` on the unit interval, with `b` the derivative of `B` -/
theorem le_of_deriv_le {a b A B : ℝ → ℝ} (hA : ∀ t, 0 ≤ t → t ≤ 1 → HasDerivAt A (a t) t) (hB : ∀ t, 0 ≤ t → t ≤ 1 → HasDerivAt B (b t) t)
    (h : ∀ t, 0 ≤ t → t ≤ 1 → a t ≤ b t) {t : ℝ} (h0 : 0 ≤ t) (h1 : t ≤ 1) : A t - A 0 ≤ B t - B 0 := by
  have hm : MonotoneOn (fun t => B t - A t) (Set.Icc 0 1) := by
    have hd : ∀ t, 0 ≤ t → t ≤ 1 → HasDerivAt (fun t => B t - A t) (b t - a t) t := fun t h0 h1 => (hB t h0 h1).sub (hA t h0 h1)
    refine monotoneOn_of_deriv_nonneg (convex_Icc 0 1) (fun t ht => (hd t ht.1 ht.2).continuousAt.continuousWithinAt) (fun t ht => ?_) fun t ht => ?_
    · rw [interior_Icc] at ht
      exact (hd t ht.1.le ht.2.le).differentiableAt.differentiableWithinAt
    · rw [interior_Icc] at ht
      rw [(hd t ht.1.le ht.2.le).deriv]
      exact sub_nonneg.mpr (h t ht.1.le ht.2.le)
  have := hm (a := 0) (b := t) (by simp) ⟨h0, h1⟩ h0
  simp only at this
  linarith

theorem deriv_quad (a b t : ℝ) : HasDerivAt (fun t : ℝ => t * a + t ^ 2 / 2 * b) (a + t * b) t := by
  have h1 := (hasDerivAt_id t).mul_const a
  have h2 := (((hasDerivAt_id t).pow 2).div_const 2).mul_const b
  refine (h1.add h2).congr_deriv ?_
  simp

theorem deriv_cubic (a b c t : ℝ) : HasDerivAt (fun t : ℝ => t * a + t ^ 2 / 2 * b + t ^ 3 / 6 * c) (a + t * b + t ^ 2 / 2 * c) t := by
  have h2 := (((hasDerivAt_id t).pow 3).div_const 6).mul_const c
  refine ((deriv_quad a b t).add h2).congr_deriv ?_
  show a + t * b + ((3 : ℕ) : ℝ) * t ^ 2 * 1 / 6 * c = _
  push_cast; ring

theorem Bowl.grad_between (h : Bowl f G Q xs ρ μ C L) {x d : Vec ℝ n} (hx : nrm (x - xs) ≤ ρ) (hy : nrm (x + d - xs) ≤ ρ) {t : ℝ} (h0 : 0 ≤ t) (h1 : t ≤ 1) :
    dotR (G x) d + t * (μ * nrm d ^ 2) ≤ dotR (G (x + t • d)) d ∧ dotR (G (x + t • d)) d ≤ dotR (G x) d + t * (C * nrm d ^ 2) := by
  have hA : ∀ t : ℝ, 0 ≤ t → t ≤ 1 → HasDerivAt (fun t : ℝ => dotR (G (x + t • d)) d) (dotR d (mv (Q (x + t • d)) d)) t := fun t h0 h1 =>
    line_grad (h.hess _ (ball_seg hx hy h0 h1))
  have hl : ∀ a t : ℝ, HasDerivAt (fun t : ℝ => t * a) a t := fun a t => by simpa using (hasDerivAt_id t).mul_const a
  have e1 := le_of_deriv_le (fun t _ _ => hl (μ * nrm d ^ 2) t) hA (fun t h0 h1 => h.low _ d (ball_seg hx hy h0 h1)) h0 h1
  have e2 := le_of_deriv_le hA (fun t _ _ => hl (C * nrm d ^ 2) t) (fun t h0 h1 => h.up _ d (ball_seg hx hy h0 h1)) h0 h1
  simp only [zero_smul, add_zero, zero_mul, sub_zero] at e1 e2
  exact ⟨by linarith, by linarith⟩

/-- strong convexity, and its upper counterpart -/
theorem Bowl.between (h : Bowl f G Q xs ρ μ C L) {x d : Vec ℝ n} (hx : nrm (x - xs) ≤ ρ) (hy : nrm (x + d - xs) ≤ ρ) :
    f x + dotR (G x) d + μ / 2 * nrm d ^ 2 ≤ f (x + d) ∧ f (x + d) ≤ f x + dotR (G x) d + C / 2 * nrm d ^ 2 := by
  have hA : ∀ t : ℝ, 0 ≤ t → t ≤ 1 → HasDerivAt (fun t : ℝ => f (x + t • d)) (dotR (G (x + t • d)) d) t := fun t h0 h1 =>
    line_cost (h.grad _ (ball_seg hx hy h0 h1))
  have e1 := le_of_deriv_le (fun t _ _ => deriv_quad (dotR (G x) d) (μ * nrm d ^ 2) t) hA (fun t h0 h1 => (h.grad_between hx hy h0 h1).1) zero_le_one le_rfl
  have e2 := le_of_deriv_le hA (fun t _ _ => deriv_quad (dotR (G x) d) (C * nrm d ^ 2) t) (fun t h0 h1 => (h.grad_between hx hy h0 h1).2) zero_le_one le_rfl
  simp only [zero_smul, one_smul, add_zero] at e1 e2
  exact ⟨by linarith, by linarith⟩

theorem Bowl.grad_taylor (h : Bowl f G Q xs ρ μ C L) {x d : Vec ℝ n} (hx : nrm (x - xs) ≤ ρ) (hy : nrm (x + d - xs) ≤ ρ) :
    nrm (G (x + d) - G x - mv (Q x) d) ≤ L / 2 * nrm d ^ 2 := by
  refine taylor_of_lip h.posL (fun t h0 h1 => h.hess _ (ball_seg hx hy h0 h1)) fun t h0 h1 => ?_
  have := h.lip (x + t • d) x d (ball_seg hx hy h0 h1) hx
  rwa [add_sub_cancel_left] at this

/-- expansion to second order -/
theorem Bowl.taylor (h : Bowl f G Q xs ρ μ C L) {x d : Vec ℝ n} (hx : nrm (x - xs) ≤ ρ) (hy : nrm (x + d - xs) ≤ ρ) :
    f (x + d) ≤ f x + dotR (G x) d + dotR d (mv (Q x) d) / 2 + L / 6 * nrm d ^ 3 := by
  have hA : ∀ t : ℝ, 0 ≤ t → t ≤ 1 → HasDerivAt (fun t : ℝ => f (x + t • d)) (dotR (G (x + t • d)) d) t := fun t h0 h1 =>
    line_cost (h.grad _ (ball_seg hx hy h0 h1))
  have hin : ∀ t : ℝ, 0 ≤ t → t ≤ 1 → dotR (G (x + t • d)) d ≤ dotR (G x) d + t * dotR d (mv (Q x) d) + t ^ 2 / 2 * (L * nrm d ^ 3) := fun t h0 h1 => by
    have e1 := h.grad_taylor hx (ball_seg hx hy h0 h1)
    have e2 := dotR_le_nrm d (G (x + t • d) - G x - mv (Q x) (t • d))
    rw [nrm_smul, abs_of_nonneg h0] at e1
    rw [dotR_sub, dotR_sub, mv_smul, dotR_smul, dotR_comm d (G (x + t • d)), dotR_comm d (G x)] at e2
    have e3 := mul_le_mul_of_nonneg_left e1 (nrm_nonneg d)
    rw [mv_smul] at e3
    nlinarith
  have e1 := le_of_deriv_le hA (fun t _ _ => deriv_cubic (dotR (G x) d) (dotR d (mv (Q x) d)) (L * nrm d ^ 3) t) hin zero_le_one le_rfl
  simp only [zero_smul, one_smul, add_zero] at e1
  linarith

/-- the point is the strict minimum in the ball -/
theorem Bowl.minimum (h : Bowl f G Q xs ρ μ C L) {x : Vec ℝ n} (hx : nrm (x - xs) ≤ ρ) : f xs + μ / 2 * nrm (x - xs) ^ 2 ≤ f x ∧ f x ≤ f xs + C / 2 * nrm (x - xs) ^ 2 := by
  have h0 : nrm (xs - xs) ≤ ρ := by rw [sub_self, nrm_zero]; exact (nrm_nonneg _).trans hx
  have := h.between h0 (d := x - xs) (by rwa [add_sub_cancel])
  rw [add_sub_cancel, h.zero] at this
  simpa [dotR] using this

/-- the gradient bounds the distance of the cost to the minimum -/
theorem Bowl.pl (h : Bowl f G Q xs ρ μ C L) {x : Vec ℝ n} (hx : nrm (x - xs) ≤ ρ) : 2 * μ * (f x - f xs) ≤ nrm (G x) ^ 2 := by
  have h0 : nrm (x + (xs - x) - xs) ≤ ρ := by rw [add_sub_cancel, sub_self, nrm_zero]; exact (nrm_nonneg _).trans hx
  have h1 := (h.between hx h0).1
  rw [add_sub_cancel] at h1
  have h2 := dotR_le_nrm (-G x) (xs - x)
  rw [nrm_neg, dotR_comm, dotR_neg, dotR_comm] at h2
  have hμ := h.posμ
  nlinarith [sq_nonneg (nrm (G x) - μ * nrm (xs - x))]

theorem Bowl.mv_low (h : Bowl f G Q xs ρ μ C L) {x : Vec ℝ n} (hx : nrm (x - xs) ≤ ρ) (v : Vec ℝ n) : μ * nrm v ≤ nrm (mv (Q x) v) := by
  have h1 := h.low x v hx
  have h2 := dotR_le_nrm v (mv (Q x) v)
  rcases (nrm_nonneg v).eq_or_lt with h0 | h0
  · rw [← h0, mul_zero]; exact nrm_nonneg _
  · nlinarith

theorem Bowl.grad_le (h : Bowl f G Q xs ρ μ C L) {x : Vec ℝ n} (hx : nrm (x - xs) ≤ ρ) : nrm (G x) ≤ (C + L / 2 * ρ) * nrm (x - xs) := by
  have h0 : nrm (xs - xs) ≤ ρ := by rw [sub_self, nrm_zero]; exact (nrm_nonneg _).trans hx
  have h1 := h.grad_taylor h0 (d := x - xs) (by rwa [add_sub_cancel])
  rw [add_sub_cancel, h.zero, sub_zero] at h1
  have h2 := psd_sq (h.pd h0).psd h.posC (h.upTo h0).2 (x - xs)
  have h3 := h.up xs (x - xs) h0
  have h4 : nrm (mv (Q xs) (x - xs)) ≤ C * nrm (x - xs) := by
    refine abs_le_of_sq_le_sq' ?_ (mul_nonneg h.posC.le (nrm_nonneg _)) |>.2
    have := mul_le_mul_of_nonneg_left h3 h.posC.le
    rw [mul_pow]; nlinarith
  have h5 := nrm_add_le (G x - mv (Q xs) (x - xs)) (mv (Q xs) (x - xs))
  rw [sub_add_cancel] at h5
  have := h.posL
  have := nrm_nonneg (x - xs)
  have h6 : L / 2 * nrm (x - xs) ^ 2 ≤ L / 2 * ρ * nrm (x - xs) := by
    rw [pow_two, ← mul_assoc]
    exact mul_le_mul_of_nonneg_right (mul_le_mul_of_nonneg_left hx (by linarith)) this
  linarith

/-- a step of Newton's method squares the distance -/
theorem Bowl.newton (h : Bowl f G Q xs ρ μ C L) {x d : Vec ℝ n} (hx : nrm (x - xs) ≤ ρ) (hd : mv (Q x) d = -G x) :
    nrm (x + d - xs) ≤ L / (2 * μ) * nrm (x - xs) ^ 2 := by
  have h0 : nrm (x + (xs - x) - xs) ≤ ρ := by rw [add_sub_cancel, sub_self, nrm_zero]; exact (nrm_nonneg _).trans hx
  have h1 := h.grad_taylor hx h0
  have e : G (x + (xs - x)) - G x - mv (Q x) (xs - x) = mv (Q x) (x + d - xs) := by
    rw [add_sub_cancel, h.zero, zero_sub, ← hd, ← mv_sub]
    congr 1; abel
  rw [e] at h1
  have h2 := h.mv_low hx (x + d - xs)
  have e2 : nrm (xs - x) = nrm (x - xs) := by rw [← nrm_neg, neg_sub]
  rw [e2] at h1
  rw [div_mul_eq_mul_div, le_div_iff₀ (by have := h.posμ; linarith)]
  linarith

/-- a damped step decreases the cost if it is short -/
theorem Bowl.damped (h : Bowl f G Q xs ρ μ C L) {x d : Vec ℝ n} {l : ℝ} (hl : 0 ≤ l) (hx : nrm (x - xs) ≤ ρ) (hy : nrm (x + d - xs) ≤ ρ) (hd : mv (dampedR l (Q x)) d = -G x)
    (hs : L * nrm d ≤ μ) : dotR d (mv (dampedR l (Q x)) d) ≤ 3 * (f x - f (x + d)) := by
  have h1 := h.taylor hx hy
  have h2 := h.low x d hx
  have h3 : dotR (G x) d = -dotR d (mv (dampedR l (Q x)) d) := by rw [hd, dotR_neg, neg_neg, dotR_comm]
  have h4 : dotR d (mv (Q x) d) ≤ dotR d (mv (dampedR l (Q x)) d) := by
    rw [damped_quad]
    have := diagSq_nonneg (fun i => (pd_diag (h.pd hx) i).le) d
    nlinarith
  have h5 : L / 6 * nrm d ^ 3 ≤ μ / 6 * nrm d ^ 2 := by
    have := mul_le_mul_of_nonneg_right hs (sq_nonneg (nrm d))
    nlinarith
  linarith

theorem Bowl.short (h : Bowl f G Q xs ρ μ C L) {x d : Vec ℝ n} {l : ℝ} (hl : 0 ≤ l) (hx : nrm (x - xs) ≤ ρ) (hd : mv (dampedR l (Q x)) d = -G x) : μ * nrm d ≤ nrm (G x) := by
  have h2 := h.low x d hx
  have h4 : dotR d (mv (Q x) d) ≤ dotR d (mv (dampedR l (Q x)) d) := by
    rw [damped_quad]
    have := diagSq_nonneg (fun i => (pd_diag (h.pd hx) i).le) d
    nlinarith
  have h5 := dotR_le_nrm d (-G x)
  rw [nrm_neg, ← hd] at h5
  rcases (nrm_nonneg d).eq_or_lt with h0 | h0
  · rw [← h0, mul_zero]; exact nrm_nonneg _
  · nlinarith

end
end Verif
