import Verif.Lemmas.DescentRun
import Verif.Props.GradientDescent
import Verif.Props.LmRate
/-!
# C70: Gauss-Newton converges quadratically to a zero residual solution
-/

set_option linter.unusedSectionVars false

namespace Verif
open FloatOps Loss

/-! ### the Euclidean norm -/

section
variable {n m : Nat}

/-- Euclidean norm -/
noncomputable def nrm (v : Vec ℝ n) : ℝ := √(dotR v v)

theorem nrm_nonneg (v : Vec ℝ n) : 0 ≤ nrm v := Real.sqrt_nonneg _

theorem nrm_sq (v : Vec ℝ n) : nrm v ^ 2 = dotR v v := Real.sq_sqrt (dotR_self_nonneg v)

theorem nrm_zero : nrm (0 : Vec ℝ n) = 0 := by simp [nrm, dotR]

theorem nrm_eq_zero {v : Vec ℝ n} (h : nrm v = 0) : v = 0 := by
  refine dotR_self_eq_zero ?_
  rw [← nrm_sq, h]; ring

theorem nrm_neg (v : Vec ℝ n) : nrm (-v) = nrm v := by simp [nrm, dotR]

theorem dotR_le_nrm (u v : Vec ℝ n) : dotR u v ≤ nrm u * nrm v := by
  have h := dotR_cauchy u v
  rw [← nrm_sq, ← nrm_sq, ← mul_pow] at h
  exact le_of_abs_le (abs_le_of_sq_le_sq h (mul_nonneg (nrm_nonneg _) (nrm_nonneg _)))

theorem nrm_add_le (u v : Vec ℝ n) : nrm (u + v) ≤ nrm u + nrm v := by
  refine le_of_abs_le (abs_le_of_sq_le_sq ?_ (add_nonneg (nrm_nonneg _) (nrm_nonneg _)))
  have e : nrm (u + v) ^ 2 = nrm u ^ 2 + 2 * dotR u v + nrm v ^ 2 := by
    rw [nrm_sq, nrm_sq, nrm_sq, add_dotR, dotR_add, dotR_add, dotR_comm v u]; ring
  have := dotR_le_nrm u v
  nlinarith

theorem nrm_sub_le (u v : Vec ℝ n) : nrm (u - v) ≤ nrm u + nrm v := by
  rw [sub_eq_add_neg, ← nrm_neg v]; exact nrm_add_le u (-v)

theorem nrm_smul (c : ℝ) (v : Vec ℝ n) : nrm (c • v) = |c| * nrm v := by
  have : dotR (c • v) (c • v) = c ^ 2 * dotR v v := by rw [dotR_smul, dotR_comm, dotR_smul]; ring
  rw [nrm, this, Real.sqrt_mul (sq_nonneg c), Real.sqrt_sq_eq_abs]; rfl

theorem nrm_pos {v : Vec ℝ n} (h : v ≠ 0) : 0 < nrm v := lt_of_le_of_ne (nrm_nonneg v) fun h0 => h (nrm_eq_zero h0.symm)

/-- The residuals `r` vanish at `xs`; on the ball of radius `ρ` around `xs` they are differentiable with Jacobian `J`, which is Lipschitz with constant `L`,
bounded by `M`, and bounded below by `1/β` (so its columns are linearly independent). -/
structure ZeroRes (r : Vec ℝ n → Vec ℝ m) (J : Vec ℝ n → Fin m → Fin n → ℝ) (xs : Vec ℝ n) (ρ β L M : ℝ) : Prop where
  zero : r xs = 0
  jac : ∀ x, nrm (x - xs) ≤ ρ → HasJac r (J x) x
  lip : ∀ x y v, nrm (x - xs) ≤ ρ → nrm (y - xs) ≤ ρ → nrm (mv (J x) v - mv (J y) v) ≤ L * nrm (x - y) * nrm v
  up : ∀ x v, nrm (x - xs) ≤ ρ → nrm (mv (J x) v) ≤ M * nrm v
  low : ∀ x v, nrm (x - xs) ≤ ρ → nrm v ≤ β * nrm (mv (J x) v)
  posL : 0 ≤ L
  posβ : 0 < β
  posM : 0 ≤ M

variable {r : Vec ℝ n → Vec ℝ m} {J : Vec ℝ n → Fin m → Fin n → ℝ} {xs : Vec ℝ n} {ρ β L M : ℝ}

theorem ZeroRes.mono (h : ZeroRes r J xs ρ β L M) {ρ' : ℝ} (hρ : ρ' ≤ ρ) : ZeroRes r J xs ρ' β L M where
  zero := h.zero
  jac x hx := h.jac x (hx.trans hρ)
  lip x y v hx hy := h.lip x y v (hx.trans hρ) (hy.trans hρ)
  up x v hx := h.up x v (hx.trans hρ)
  low x v hx := h.low x v (hx.trans hρ)
  posL := h.posL
  posβ := h.posβ
  posM := h.posM

/-- first order expansion of residuals whose Jacobian is Lipschitz on the segment from `x` to `x + d` -/
theorem taylor_of_lip {x d : Vec ℝ n} (hL : 0 ≤ L) (hjac : ∀ t : ℝ, 0 ≤ t → t ≤ 1 → HasJac r (J (x + t • d)) (x + t • d))
    (hlip : ∀ t : ℝ, 0 ≤ t → t ≤ 1 → nrm (mv (J (x + t • d)) d - mv (J x) d) ≤ L * nrm (t • d) * nrm d) :
    nrm (r (x + d) - r x - mv (J x) d) ≤ L / 2 * nrm d ^ 2 := by
  let u := r (x + d) - r x - mv (J x) d
  let ψ : ℝ → ℝ := fun t => dotR u (r (x + t • d)) - (t * dotR u (mv (J x) d) + L / 2 * t ^ 2 * (nrm u * nrm d ^ 2))
  have hφ : ∀ t : ℝ, 0 ≤ t → t ≤ 1 → HasDerivAt (fun t : ℝ => dotR u (r (x + t • d))) (dotR u (mv (J (x + t • d)) d)) t := by
    intro t h0 h1
    have hl : HasDerivAt (fun t : ℝ => x + t • d) d t := by
      have := ((hasDerivAt_id t).smul_const d).const_add x
      simpa using this
    have hi : ∀ i, HasDerivAt (fun t : ℝ => r (x + t • d) i) (mv (J (x + t • d)) d i) t := by
      intro i
      have h2 : HasFDerivAt (fun y => r y i) (rowCLM (J (x + t • d) i)) (x + t • d) := hjac t h0 h1 i
      have := h2.comp_hasDerivAt t hl
      rw [rowCLM_apply] at this
      exact this
    have : HasDerivAt (fun t : ℝ => ∑ i, u i * r (x + t • d) i) (∑ i, u i * mv (J (x + t • d)) d i) t := by
      have := HasDerivAt.fun_sum (u := Finset.univ) fun i _ => (hi i).const_mul (u i)
      exact this
    exact this
  have hψ : ∀ t : ℝ, 0 ≤ t → t ≤ 1 → HasDerivAt ψ (dotR u (mv (J (x + t • d)) d) - (dotR u (mv (J x) d) + L * t * (nrm u * nrm d ^ 2))) t := by
    intro t h0 h1
    have h1' : HasDerivAt (fun t : ℝ => t * dotR u (mv (J x) d) + L / 2 * t ^ 2 * (nrm u * nrm d ^ 2))
        (dotR u (mv (J x) d) + L * t * (nrm u * nrm d ^ 2)) t := by
      have a := (hasDerivAt_id t).mul_const (dotR u (mv (J x) d))
      have b := (((hasDerivAt_id t).pow 2).const_mul (L / 2)).mul_const (nrm u * nrm d ^ 2)
      refine (a.add b).congr_deriv ?_
      simp only [id_eq, Nat.cast_ofNat, Nat.add_one_sub_one, pow_one]
      ring
    exact (hφ t h0 h1).sub h1'
  have hanti : AntitoneOn ψ (Set.Icc 0 1) := by
    refine antitoneOn_of_deriv_nonpos (convex_Icc 0 1) (fun t ht => (hψ t ht.1 ht.2).continuousAt.continuousWithinAt)
      (fun t ht => ?_) ?_
    · rw [interior_Icc] at ht
      exact (hψ t ht.1.le ht.2.le).differentiableAt.differentiableWithinAt
    intro t ht
    rw [interior_Icc] at ht
    rw [(hψ t ht.1.le ht.2.le).deriv]
    have h1 := dotR_le_nrm u (mv (J (x + t • d)) d - mv (J x) d)
    rw [dotR_sub] at h1
    have h2 := hlip t ht.1.le ht.2.le
    rw [nrm_smul, abs_of_pos ht.1] at h2
    have h3 := mul_le_mul_of_nonneg_left h2 (nrm_nonneg u)
    nlinarith
  have h01 := hanti (a := 0) (b := 1) (by simp) (by simp) zero_le_one
  have e0 : ψ 0 = dotR u (r x) := by simp [ψ]
  have e1 : ψ 1 = dotR u (r (x + d)) - (dotR u (mv (J x) d) + L / 2 * (nrm u * nrm d ^ 2)) := by
    simp [ψ]
  rw [e0, e1] at h01
  have h4 : dotR u u = dotR u (r (x + d)) - dotR u (r x) - dotR u (mv (J x) d) := by rw [← dotR_sub, ← dotR_sub]
  rw [← nrm_sq] at h4
  have h6 : nrm u ^ 2 ≤ nrm u * (L / 2 * nrm d ^ 2) := by nlinarith
  show nrm u ≤ _
  rcases (nrm_nonneg u).eq_or_lt with h0 | h0
  · rw [← h0]; positivity
  · rw [pow_two] at h6; exact le_of_mul_le_mul_left h6 h0

/-- first order expansion at `x`, evaluated at the solution -/
theorem ZeroRes.taylor (h : ZeroRes r J xs ρ β L M) {x : Vec ℝ n} (hx : nrm (x - xs) ≤ ρ) :
    nrm (mv (J x) (x - xs) - r x) ≤ L / 2 * nrm (x - xs) ^ 2 := by
  have hin : ∀ t : ℝ, 0 ≤ t → t ≤ 1 → nrm (x + t • (xs - x) - xs) ≤ ρ := by
    intro t h0 h1
    have e : x + t • (xs - x) - xs = (1 - t) • (x - xs) := by
      funext i; simp; ring
    rw [e, nrm_smul, abs_of_nonneg (by linarith)]
    have := nrm_nonneg (x - xs)
    nlinarith
  have ht := taylor_of_lip (r := r) (J := J) (x := x) (d := xs - x) h.posL (fun t h0 h1 => h.jac _ (hin t h0 h1)) (fun t h0 h1 => by
    have := h.lip (x + t • (xs - x)) x (xs - x) (hin t h0 h1) hx
    rwa [add_sub_cancel_left] at this)
  have e1 : r (x + (xs - x)) - r x - mv (J x) (xs - x) = mv (J x) (x - xs) - r x := by
    have e2 : xs - x = (-1 : ℝ) • (x - xs) := by simp
    rw [add_sub_cancel, h.zero, e2, mv_smul]
    simp; abel
  rw [e1, ← nrm_neg (xs - x), neg_sub] at ht
  exact ht

/-- One undamped step from `x`: the distance to the solution is squared. -/
theorem C70_step (h : ZeroRes r J xs ρ β L M) {x d : Vec ℝ n} (hx : nrm (x - xs) ≤ ρ) (hd : mv (gram (J x)) d = -tmv (J x) (r x)) :
    nrm (x + d - xs) ≤ β * (L / 2) * nrm (x - xs) ^ 2 := by
  have e1 : mv (gram (J x)) (x + d - xs) = tmv (J x) (mv (J x) (x - xs) - r x) := by
    have : x + d - xs = (x - xs) + d := by abel
    rw [this, mv_add, hd, mv_gram]
    funext j
    simp only [tmv, Pi.add_apply, Pi.neg_apply, Pi.sub_apply, mul_sub, Finset.sum_sub_distrib]
    ring
  have e2 : dotR (mv (J x) (x + d - xs)) (mv (J x) (x + d - xs)) = dotR (mv (J x) (x + d - xs)) (mv (J x) (x - xs) - r x) := by
    rw [← dotR_tmv, ← mv_gram, e1, dotR_tmv]
  have h1 : nrm (mv (J x) (x + d - xs)) ≤ nrm (mv (J x) (x - xs) - r x) := by
    have h2 := dotR_le_nrm (mv (J x) (x + d - xs)) (mv (J x) (x - xs) - r x)
    rw [← e2, ← nrm_sq, pow_two] at h2
    rcases (nrm_nonneg (mv (J x) (x + d - xs))).eq_or_lt with h0 | h0
    · rw [← h0]; exact nrm_nonneg _
    · exact le_of_mul_le_mul_left h2 h0
  calc nrm (x + d - xs) ≤ β * nrm (mv (J x) (x + d - xs)) := h.low _ _ hx
    _ ≤ β * (L / 2 * nrm (x - xs) ^ 2) := mul_le_mul_of_nonneg_left (h1.trans (h.taylor hx)) h.posβ.le
    _ = _ := by ring

/-- the step decreases the norm of the residuals when the ball is small enough -/
theorem ZeroRes.decrease (h : ZeroRes r J xs ρ β L M) (hρ : β * (L / 2) * ρ * (1 + β * (M + L / 2 * ρ)) < 1) {x y : Vec ℝ n} (hx : nrm (x - xs) ≤ ρ)
    (hne : x ≠ xs) (hy : nrm (y - xs) ≤ β * (L / 2) * nrm (x - xs) ^ 2) : nrm (y - xs) ≤ nrm (x - xs) ∧ nrm (r y) < nrm (r x) := by
  have hβ := h.posβ
  have hM := h.posM
  have hL := h.posL
  have e0 : 0 < nrm (x - xs) := nrm_pos (sub_ne_zero.mpr hne)
  have hρ0 : 0 < ρ := e0.trans_le hx
  generalize he : nrm (x - xs) = e at *
  have hq0 : 0 ≤ β * (L / 2) := by positivity
  have hq : β * (L / 2) * ρ < 1 := by
    have : 0 ≤ β * (L / 2) * ρ * (β * (M + L / 2 * ρ)) := by positivity
    nlinarith
  have hqe : β * (L / 2) * e ≤ β * (L / 2) * ρ := mul_le_mul_of_nonneg_left hx hq0
  have hye : nrm (y - xs) ≤ e := by
    refine hy.trans ?_
    nlinarith
  refine ⟨hye, ?_⟩
  have t1 := h.taylor (x := y) (hye.trans hx)
  have t2 := h.taylor (x := x) (by rw [he]; exact hx)
  rw [he] at t2
  have u1 := h.up y (y - xs) (hye.trans hx)
  have l1 := h.low x (x - xs) (by rw [he]; exact hx)
  rw [he] at l1
  have a1 : nrm (r y) ≤ nrm (mv (J y) (y - xs)) + nrm (mv (J y) (y - xs) - r y) := by
    have := nrm_sub_le (mv (J y) (y - xs)) (mv (J y) (y - xs) - r y)
    rwa [sub_sub_cancel] at this
  have a2 : nrm (mv (J x) (x - xs)) ≤ nrm (mv (J x) (x - xs) - r x) + nrm (r x) := by
    have := nrm_add_le (mv (J x) (x - xs) - r x) (r x)
    rwa [sub_add_cancel] at this
  have hy0 := nrm_nonneg (y - xs)
  generalize nrm (y - xs) = f at *
  -- `|r y| ≤ (M + L/2 ρ) f` and `e ≤ β (|r x| + L/2 e^2)`
  have b1 : nrm (r y) ≤ (M + L / 2 * ρ) * f := by
    have : L / 2 * f ^ 2 ≤ L / 2 * ρ * f := by
      have : f * f ≤ ρ * f := mul_le_mul_of_nonneg_right (hye.trans hx) hy0
      nlinarith
    nlinarith
  have b2 : e ≤ β * (nrm (r x) + L / 2 * e ^ 2) := l1.trans (mul_le_mul_of_nonneg_left (by linarith) hβ.le)
  have c1 : β * nrm (r y) ≤ β * (M + L / 2 * ρ) * (β * (L / 2) * e ^ 2) := by
    calc β * nrm (r y) ≤ β * ((M + L / 2 * ρ) * f) := mul_le_mul_of_nonneg_left b1 hβ.le
      _ = β * (M + L / 2 * ρ) * f := by ring
      _ ≤ _ := mul_le_mul_of_nonneg_left hy (by positivity)
  have c2 : β * (L / 2) * e * (1 + β * (M + L / 2 * ρ)) < 1 :=
    lt_of_le_of_lt (mul_le_mul_of_nonneg_right hqe (by positivity)) hρ
  have c3 : β * nrm (r y) < β * nrm (r x) := by
    have := mul_lt_mul_of_pos_right c2 e0
    nlinarith
  exact lt_of_mul_lt_mul_left c3 hβ.le

end

/-! ### the run -/

section
variable {R W : Type} {m n : Nat}
variable {so : SolverOpts ℝ} {LA : LinAlg ℝ} {P : Problem ℝ R W (Vec ℝ n)} {o : Options ℝ W (DVec ℝ)}
variable {Ω : Vec ℝ n → Prop} {r : Vec ℝ n → Vec ℝ m} {J : Vec ℝ n → Fin m → Fin n → ℝ} {φ : ℝ → ℝ}

/-- On the region `Ω` the user's function is that of the nonlinear least squares problem with residuals `r` and Jacobian `J`: gradient `J^T r`, Hessian
`J^T J`, cost `φ (r^T r)` of `m > 0` residuals, `φ` strictly increasing. -/
structure NonlinLS (P : Problem ℝ R W (Vec ℝ n)) (Ω : Vec ℝ n → Prop) (r : Vec ℝ n → Vec ℝ m) (J : Vec ℝ n → Fin m → Fin n → ℝ) (φ : ℝ → ℝ := id) : Prop
    extends VecParams P where
  pos : 0 < m
  nonneg : ∀ c, 0 ≤ c → 0 ≤ φ c
  mono : ∀ c c', 0 ≤ c → c < c' → φ c < φ c'
  full : ∀ w x, Ω x → ∃ c w', P.acc.full w x n (fun _ => 0) (fun _ _ => 0) = ((c, tmv (J x) (r x), gram (J x)), w') ∧
    c.cost = φ (dotR (r x) (r x)) ∧ c.num = m
  eval : ∀ w x, Ω x → (P.acc.eval w x).1.cost = φ (dotR (r x) (r x)) ∧ (P.acc.eval w x).1.num = m

theorem NonlinLS.nCost_lt (h : NonlinLS P Ω r J φ) {x y : Vec ℝ n} (hlt : nrm (r x) < nrm (r y)) :
    nCost so m (φ (dotR (r x) (r x))) < nCost so m (φ (dotR (r y) (r y))) := by
  rw [Verif.nCost_lt (h.nonneg _ (dotR_self_nonneg _)) (h.nonneg _ (dotR_self_nonneg _))]
  refine h.mono _ _ (dotR_self_nonneg _) ?_
  rw [← nrm_sq, ← nrm_sq]
  exact pow_lt_pow_left₀ hlt (nrm_nonneg _) (by norm_num)

theorem nls_build (h : NonlinLS P Ω r J φ) (hclip : so.gradClip = 0) (w : W) (s : GNState ℝ R) (hs : s.n = n)
    (x : Vec ℝ n) (hΩ : Ω x) (hmin : DiagOk so (gram (J x))) (hx : nCost so m (φ (dotR (r x) (r x))) ≠ maxVal) :
    ∃ c w', buildSystem so P w s x = (true, ⟨n, tmv (J x) (r x), gram (J x), c⟩, w') ∧ c.cost = nCost so m (φ (dotR (r x) (r x))) ∧ c.isValid = true := by
  obtain ⟨sn, sg, sH, sc⟩ := s
  simp only at hs
  subst hs
  obtain ⟨c, w', hu, hc, hn⟩ := h.full w x hΩ
  have hcost : (normalizeCost so c).cost = nCost so m (φ (dotR (r x) (r x))) := by rw [normalizeCost_eq c hn, hc]
  have hv : (normalizeCost so c).isValid = true := by
    have h1 : eq (normalizeCost so c).cost maxVal = false := by rw [RealOps.eq_eq_false, hcost]; exact hx
    have h2 := h.pos
    unfold Cost.isValid ne
    rw [h1, normalizeCost_num, hn]
    simpa using h2
  refine ⟨normalizeCost so c, w', ?_, hcost, hv⟩
  unfold buildSystem gnAccumulate
  rw [show P.acc.full w x sn (fun _ => ofInt 0) (fun _ _ => ofInt 0) = _ from by simpa using hu]
  simp only [hv, if_true]
  rw [if_neg hmin.pass]
  rw [Unclipped.clamp (so := so) (Or.inl hclip), symUpper_of_sym (gram_sym (J x))]
  split <;> rfl

theorem nls_gn_delivers (h : NonlinLS P Ω r J φ) (hL : ExactLinAlg LA) (hclip : so.gradClip = 0) (w : W) (s : GNState ℝ R) (hs : P.dims = none ∨ s.n = n)
    (x : Vec ℝ n) (hΩ : Ω x) (hpd : PD (gram (J x))) (hone : Solves so (P.dims == some 1) (gram (J x))) (hmin : DiagOk so (gram (J x)))
    (hx : nCost so m (φ (dotR (r x) (r x))) ≠ maxVal) :
    ∃ s2 dx, Delivers (gnEnv so LA P) w s x s2 ⟨n, dx⟩ ∧ s2.n = n ∧ s2.cost.cost = nCost so m (φ (dotR (r x) (r x))) ∧
      mv (gram (J x)) dx = -tmv (J x) (r x) := by
  obtain ⟨s1, w1, hr, hn1, -⟩ := resize_works h.toVecParams w s hs
  obtain ⟨c, w2, hb, hc, hv⟩ := nls_build h hclip w1 s1 hn1 x hΩ hmin hx
  obtain ⟨v, h1, h2⟩ := gnSolve_pd (so := so) hL (P.dims == some 1) ⟨n, tmv (J x) (r x), gram (J x), c⟩ hv hpd hone
  refine ⟨⟨n, tmv (J x) (r x), gram (J x), c⟩, v, ⟨⟨s1, w1, w2, resizeIfNeeded_works h.toVecParams hr, hb⟩, h1, rfl, rfl, fun q => ⟨_, rfl⟩, ⟨_, rfl⟩⟩, rfl, hc, h2⟩

variable {xs : Vec ℝ n} {ρ β L M : ℝ}

/-- **C70.** Gauss-Newton, in exact arithmetic, on a nonlinear least squares problem whose residuals vanish at `xs`, started in the ball of radius `ρ` around
`xs`, where the Jacobian has linearly independent columns and is Lipschitz, and `ρ` is small enough: whatever the options and stop criteria the run ends
normally; every iteration that does not start at `xs` is accepted; each squares the distance to `xs` (up to the factor `β L / 2`). After `k` iterations
the distance `e` satisfies `q e ≤ (q e0) ^ (2 ^ k)` with `q = β L / 2`, `q e0 < 1`. -/
theorem C70_gn_quadratic (h : NonlinLS P (fun x => nrm (x - xs) ≤ ρ) r J φ) (hz : ZeroRes r J xs ρ β L M)
    (hρ : β * (L / 2) * ρ * (1 + β * (M + L / 2 * ρ)) < 1) (hL : ExactLinAlg LA)
    (hone : ∀ x, nrm (x - xs) ≤ ρ → Solves so (P.dims == some 1) (gram (J x))) (hmin : ∀ x, nrm (x - xs) ≤ ρ → DiagOk so (gram (J x)))
    (hclip : so.gradClip = 0) (s : GNState ℝ R) (hs : P.dims = none ∨ s.n = n) (fuel : Nat) (mi k : Int) (hk : loopBound o mi = some k)
    (w : W) (x0 : Vec ℝ n) (hx0 : nrm (x0 - xs) ≤ ρ) (hc0 : nCost so m (φ (dotR (r x0) (r x0))) < maxVal) :
    ∃ st, optimizeAcc (gnEnv so LA P) o (fuel + 1) mi w s x0 = .ok st ∧
      (∀ t ∈ st.trace, (t.x ≠ xs → t.succ = true ∧ nrm (r t.xNext) < nrm (r t.x)) ∧ (t.x = xs → t.xNext = xs) ∧
        nrm (t.xNext - xs) ≤ β * (L / 2) * nrm (t.x - xs) ^ 2) ∧
      β * (L / 2) * nrm (x0 - xs) < 1 ∧
      β * (L / 2) * nrm (st.x - xs) ≤ (β * (L / 2) * nrm (x0 - xs)) ^ 2 ^ st.trace.length := by
  have hpd : ∀ x, nrm (x - xs) ≤ ρ → PD (gram (J x)) := by
    intro x hx
    refine gram_pd fun v hv => ?_
    have := hz.low x v hx
    rw [hv, nrm_zero, mul_zero] at this
    exact nrm_eq_zero (le_antisymm this (nrm_nonneg v))
  have hzero : ∀ x d, nrm (x - xs) ≤ ρ → mv (gram (J x)) d = -tmv (J x) (r x) → x = xs → d = 0 := by
    intro x d hx hd he
    rw [he, hz.zero] at hd
    have : tmv (J xs) (0 : Vec ℝ m) = 0 := by funext j; simp [tmv]
    rw [this, neg_zero, ← mv_zero (gram (J xs))] at hd
    exact pd_inj (hpd xs (he ▸ hx)) hd
  obtain ⟨st, e, -, ht⟩ := descent_run (P := P) (o := o) (sol := gnSolver so LA P) (fo := false) h.toVecParams
    (Ok := fun _ s _ => P.dims = none ∨ s.n = n)
    (Ω := fun x => nrm (x - xs) ≤ ρ ∧ nCost so m (φ (dotR (r x) (r x))) < maxVal) (Stat := fun x => x = xs)
    (c := fun x => nCost so m (φ (dotR (r x) (r x)))) (Step := fun _ x d => mv (gram (J x)) d = -tmv (J x) (r x)) (k := k)
    (fun _ w s x hok hx => by
      obtain ⟨s2, dx, h1, h2, h3, h4⟩ := nls_gn_delivers h hL hclip w s hok x hx.1 (hpd x hx.1) (hone x hx.1) (hmin x hx.1) hx.2.ne
      refine ⟨s2, dx, h1, h3, h4, fun s3 h5 => ?_, fun _ s3 b h5 => ?_⟩
      · rcases h5 with ⟨rfl, -⟩ | ⟨q, -, h5⟩
        · exact Or.inr h2
        · injection h5 with h5; subst h5; exact Or.inr h2
      · rcases h5 with ⟨q, h5⟩ | h5 | ⟨h5, -⟩
        · injection h5 with h5; subst h5; exact Or.inr h2
        · injection h5 with h5; subst h5; exact Or.inr h2
        · subst h5; exact Or.inr h2)
    (fun _ x d hx hd => by
      by_cases he : x = xs
      · have := hzero x d hx.1 hd he
        subst this
        exact ⟨fun _ => rfl, by rw [add_zero]; exact hx, fun h => absurd he h⟩
      · have h1 := hz.decrease hρ hx.1 he (C70_step hz hx.1 hd)
        have h2 := h.nCost_lt (so := so) h1.2
        exact ⟨fun h => absurd h he, ⟨h1.1.trans hx.1, h2.trans hx.2⟩, fun _ => h2⟩)
    (fun x hx => hx.2) (fuel := fuel) (mi := mi) hk (w := w) (s := s) (x0 := x0) hs ⟨hx0, hc0⟩
  have hq0 : 0 ≤ β * (L / 2) := by have := hz.posβ; have := hz.posL; positivity
  have hrow : ∀ t ∈ st.trace, nrm (t.xNext - xs) ≤ β * (L / 2) * nrm (t.x - xs) ^ 2 := by
    intro t htt
    obtain ⟨i, hi⟩ := List.getElem?_of_mem htt
    obtain ⟨h1, d, h2, h3, -⟩ := ht i t hi
    rw [h3]
    exact C70_step hz h1.1 h2
  refine ⟨st, e, fun t htt => ?_, ?_, ?_⟩
  · obtain ⟨i, hi⟩ := List.getElem?_of_mem htt
    obtain ⟨h1, d, h2, h3, h4⟩ := ht i t hi
    refine ⟨fun hne => ⟨h4 hne, (hz.decrease hρ h1.1 hne (hrow t htt)).2⟩, fun he => ?_, hrow t htt⟩
    rw [h3, hzero _ _ h1.1 h2 he, add_zero, he]
  · have h0 : 0 ≤ ρ := (nrm_nonneg _).trans hx0
    have h1 : 0 ≤ β * (L / 2) * ρ * (β * (M + L / 2 * ρ)) := by
      have := hz.posβ; have := hz.posL; have := hz.posM; positivity
    have h2 := mul_le_mul_of_nonneg_left hx0 hq0
    nlinarith
  · have hp := run_path e
    clear ht hx0 hc0 e
    generalize st.x = y at hp ⊢
    generalize st.trace = tr at hp hrow ⊢
    generalize x0 = x at hp ⊢
    induction tr generalizing x with
    | nil => simp only [Path] at hp; subst hp; simp
    | cons t tr ih =>
      obtain ⟨h1, h2⟩ := hp
      have h3 := ih (fun t ht => hrow t (List.mem_cons_of_mem _ ht)) t.xNext h2
      have h4 := hrow t List.mem_cons_self
      rw [h1] at h4
      refine h3.trans ?_
      rw [List.length_cons, pow_succ 2, mul_comm _ 2, pow_mul]
      refine pow_le_pow_left₀ (mul_nonneg hq0 (nrm_nonneg _)) ?_ _
      have := mul_le_mul_of_nonneg_left h4 hq0
      nlinarith

/-- **C70**, without the constants: if the residuals vanish at `xs`, where the Jacobian has linearly independent columns, and the Jacobian is Lipschitz near `xs`,
there is a neighbourhood of `xs` from which every Gauss-Newton run ends normally and converges quadratically to `xs`. -/
theorem C70_gn_local (h : NonlinLS P (fun x => nrm (x - xs) ≤ ρ) r J φ) (hz : ZeroRes r J xs ρ β L M) (hρ : 0 < ρ) (hL : ExactLinAlg LA)
    (hone : ∀ x, nrm (x - xs) ≤ ρ → Solves so (P.dims == some 1) (gram (J x))) (hmin : ∀ x, nrm (x - xs) ≤ ρ → DiagOk so (gram (J x)))
    (hclip : so.gradClip = 0) :
    ∃ ρ' C, 0 < ρ' ∧ 0 ≤ C ∧ C * ρ' < 1 ∧ ∀ (o : Options ℝ W (DVec ℝ)) (s : GNState ℝ R) (fuel : Nat) (mi k : Int) (w : W) (x0 : Vec ℝ n),
      (P.dims = none ∨ s.n = n) → loopBound o mi = some k → nrm (x0 - xs) ≤ ρ' → nCost so m (φ (dotR (r x0) (r x0))) < maxVal →
      ∃ st, optimizeAcc (gnEnv so LA P) o (fuel + 1) mi w s x0 = .ok st ∧
        (∀ t ∈ st.trace, nrm (t.xNext - xs) ≤ C * nrm (t.x - xs) ^ 2) ∧ C * nrm (st.x - xs) ≤ (C * nrm (x0 - xs)) ^ 2 ^ st.trace.length := by
  have hβ := hz.posβ
  have hL0 := hz.posL
  have hM := hz.posM
  let K := β * (L / 2) * (1 + β * (M + L / 2))
  have hK : 0 ≤ K := by positivity
  let ρ' := min ρ (min 1 (1 / (K + 1)))
  have h1 : 0 < ρ' := lt_min hρ (lt_min one_pos (by positivity))
  have h2 : ρ' ≤ 1 := (min_le_right _ _).trans (min_le_left _ _)
  have h3 : K * ρ' < 1 := by
    have : ρ' ≤ 1 / (K + 1) := (min_le_right _ _).trans (min_le_right _ _)
    rw [le_div_iff₀ (by linarith)] at this
    nlinarith
  have h4 : β * (L / 2) * ρ' * (1 + β * (M + L / 2 * ρ')) < 1 := by
    refine lt_of_le_of_lt ?_ h3
    have : L / 2 * ρ' ≤ L / 2 := by nlinarith
    calc β * (L / 2) * ρ' * (1 + β * (M + L / 2 * ρ')) ≤ β * (L / 2) * ρ' * (1 + β * (M + L / 2)) := by gcongr
      _ = K * ρ' := by ring
  have hle : ρ' ≤ ρ := min_le_left _ _
  have h' : NonlinLS P (fun x => nrm (x - xs) ≤ ρ') r J φ := { h with
    full := fun w x hx => h.full w x (hx.trans hle)
    eval := fun w x hx => h.eval w x (hx.trans hle) }
  refine ⟨ρ', β * (L / 2), h1, by positivity, ?_, fun o s fuel mi k w x0 hs hk hx0 hc0 => ?_⟩
  · have : 0 ≤ β * (L / 2) * ρ' * (β * (M + L / 2 * ρ')) := by positivity
    linarith
  · obtain ⟨st, e, a, -, b⟩ := C70_gn_quadratic (o := o) h' (hz.mono hle) h4 hL (fun x hx => hone x (hx.trans hle)) (fun x hx => hmin x (hx.trans hle)) hclip s hs
      fuel mi k hk w x0 hx0 hc0
    exact ⟨st, e, fun t ht => (a t ht).2.2, b⟩

/-- The problem made by automatic differentiation of the residuals `e`, in their domain. -/
theorem nonlinLS_of_autodiff {e : Fin m → Expr n} (hP : ADProblem P e) (hV : VecParams P) (hm : 0 < m)
    (hd : ∀ x, Ω x → (∀ i, (e i).InDomain x) ∧ HasJac (fun y i => (e i).value y) (J x) x) :
    NonlinLS P Ω (fun y i => (e i).value y) J where
  pos := hm
  nonneg := fun _ h => h
  mono := fun _ _ _ h => h
  full w x hx := by
    obtain ⟨c, g, H, w', ha, hf⟩ := hP.full w x (fun _ => 0) (fun _ _ => 0) (hd x hx).1
    obtain ⟨e1, e2, e3⟩ := accVector_eq (hd x hx).1 (hd x hx).2 ha
    subst e1 e2 e3
    exact ⟨_, w', hf, rfl, rfl⟩
  eval w x hx := by
    obtain ⟨w', hw⟩ := hP.eval w x (hd x hx).1
    rw [hw]
    exact ⟨rfl, rfl⟩
  dyn := hV.dyn
  size := hV.size
  plus := hV.plus

/-- **C70** with automatic differentiation: the residuals are any expressions in their domain near `xs`; nothing is assumed of the Hessian or the gradient. -/
theorem C70_gn_autodiff {e : Fin m → Expr n} (hP : ADProblem P e) (hV : VecParams P) (hm : 0 < m)
    (hz : ZeroRes (fun y i => (e i).value y) J xs ρ β L M) (hdom : ∀ x, nrm (x - xs) ≤ ρ → ∀ i, (e i).InDomain x)
    (hρ : β * (L / 2) * ρ * (1 + β * (M + L / 2 * ρ)) < 1) (hL : ExactLinAlg LA)
    (hone : ∀ x, nrm (x - xs) ≤ ρ → Solves so (P.dims == some 1) (gram (J x))) (hmin : ∀ x, nrm (x - xs) ≤ ρ → DiagOk so (gram (J x)))
    (hclip : so.gradClip = 0) (s : GNState ℝ R) (hs : P.dims = none ∨ s.n = n) (fuel : Nat) (mi k : Int) (hk : loopBound o mi = some k)
    (w : W) (x0 : Vec ℝ n) (hx0 : nrm (x0 - xs) ≤ ρ) (hc0 : nCost so m (sumSq (fun y i => (e i).value y) x0) < maxVal) :
    ∃ st, optimizeAcc (gnEnv so LA P) o (fuel + 1) mi w s x0 = .ok st ∧
      (∀ t ∈ st.trace, (t.x ≠ xs → t.succ = true ∧ sumSq (fun y i => (e i).value y) t.xNext < sumSq (fun y i => (e i).value y) t.x) ∧
        nrm (t.xNext - xs) ≤ β * (L / 2) * nrm (t.x - xs) ^ 2) ∧
      β * (L / 2) * nrm (st.x - xs) ≤ (β * (L / 2) * nrm (x0 - xs)) ^ 2 ^ st.trace.length := by
  have hs2 : ∀ y, sumSq (fun y i => (e i).value y) y = nrm (fun i => (e i).value y) ^ 2 := by
    intro y; rw [nrm_sq]; simp [sumSq, dotR, pow_two]
  obtain ⟨st, e', a, -, b⟩ := C70_gn_quadratic (o := o) (nonlinLS_of_autodiff hP hV hm fun x hx => ⟨hdom x hx, hz.jac x hx⟩) hz hρ hL hone hmin hclip s hs fuel mi k hk w x0 hx0
    (by rw [hs2, nrm_sq] at hc0; exact hc0)
  refine ⟨st, e', fun t ht => ⟨fun hne => ⟨((a t ht).1 hne).1, ?_⟩, (a t ht).2.2⟩, b⟩
  rw [hs2, hs2]
  exact pow_lt_pow_left₀ ((a t ht).1 hne).2 (nrm_nonneg _) (by norm_num)

end

/-! ### the hypotheses can be met -/

/-- the residuals `(x² - 1, x - 1)` of one unknown, which vanish at `x = 1` -/
def parabola : Vec ℝ 1 → Vec ℝ 2 := fun x i => if i = 0 then x 0 * x 0 - 1 else x 0 - 1
def parabolaJ : Vec ℝ 1 → Fin 2 → Fin 1 → ℝ := fun x i _ => if i = 0 then 2 * x 0 else 1

theorem nrm_one (v : Vec ℝ 1) : nrm v = |v 0| := by
  simp [nrm, dotR, Real.sqrt_mul_self_eq_abs]

theorem parabola_nrm (x v : Vec ℝ 1) : nrm (mv (parabolaJ x) v) ^ 2 = (4 * x 0 ^ 2 + 1) * v 0 ^ 2 := by
  rw [nrm_sq]; simp [dotR, mv, parabolaJ, Fin.sum_univ_succ]; ring

theorem parabola_jac (x : Vec ℝ 1) : HasJac parabola (parabolaJ x) x := by
  have hx := hasGrad_coord (n := 1) 0 x
  intro i
  fin_cases i
  · have h := hx.comp_deriv (φ := fun t => t * t - 1) (d := 2 * x 0) (by
      have := ((hasDerivAt_id (x 0)).mul (hasDerivAt_id (x 0))).sub_const 1
      refine this.congr_deriv ?_
      simp; ring)
    refine HasGrad.congr_J h ?_
    funext j; fin_cases j; simp [parabolaJ]
  · have h := hx.comp_deriv (φ := fun t => t - 1) (d := 1) ((hasDerivAt_id (x 0)).sub_const 1)
    refine HasGrad.congr_J h ?_
    funext j; fin_cases j; simp [parabolaJ]

theorem parabola_zeroRes : ZeroRes parabola parabolaJ (fun _ => 1) (1 / 10) (1 / 2) 2 3 where
  zero := by funext i; fin_cases i <;> simp [parabola]
  jac x _ := parabola_jac x
  lip x y v _ _ := by
    refine le_of_abs_le (abs_le_of_sq_le_sq ?_ (by have := nrm_nonneg (x - y); have := nrm_nonneg v; positivity))
    rw [nrm_sq, mul_pow, mul_pow, nrm_one, nrm_one, sq_abs, sq_abs]
    simp [dotR, mv, parabolaJ, Fin.sum_univ_succ]
    nlinarith
  up x v hx := by
    refine le_of_abs_le (abs_le_of_sq_le_sq ?_ (by have := nrm_nonneg v; positivity))
    rw [parabola_nrm, mul_pow, nrm_one, sq_abs]
    rw [nrm_one, abs_le] at hx
    simp at hx
    refine mul_le_mul_of_nonneg_right ?_ (sq_nonneg _)
    nlinarith
  low x v hx := by
    refine le_of_abs_le (abs_le_of_sq_le_sq ?_ (by have := nrm_nonneg (mv (parabolaJ x) v); positivity))
    rw [mul_pow, parabola_nrm, nrm_one, sq_abs]
    rw [nrm_one, abs_le] at hx
    simp at hx
    have : 1 ≤ (1 / 2 : ℝ) ^ 2 * (4 * x 0 ^ 2 + 1) := by nlinarith
    have := mul_le_mul_of_nonneg_right this (sq_nonneg (v 0))
    linarith
  posL := by norm_num
  posβ := by norm_num
  posM := by norm_num

/-- a problem with residuals `r` and Jacobian `J`, of dynamic size -/
def nlsProb {m n : Nat} (r : Vec ℝ n → Vec ℝ m) (J : Vec ℝ n → Fin m → Fin n → ℝ) : Problem ℝ ℝ Unit (Vec ℝ n) where
  acc :=
    { full := fun w x k g H => (({ cost := dotR (r x) (r x), num := m, inlier := 1 },
        fun i => if h : i.1 < n then g i + tmv (J x) (r x) ⟨i.1, h⟩ else g i,
        fun i j => if h : i.1 < n ∧ j.1 < n then H i j + gram (J x) ⟨i.1, h.1⟩ ⟨j.1, h.2⟩ else H i j), w)
      eval := fun w x => ({ cost := dotR (r x) (r x), num := m, inlier := 1 }, w) }
  dims := none
  dynDims := fun _ => n
  plusEq := fun x d => fun i => if h : i.1 < d.n then x i + d.v ⟨i.1, h⟩ else x i
  clock := fun w => (1, w)
  alloc := fun w _ => (some (fun _ => 7, fun _ _ => 7), w)
  ratio1 := 1

theorem nlsProb_nls {m n : Nat} (r : Vec ℝ n → Vec ℝ m) (J : Vec ℝ n → Fin m → Fin n → ℝ) (Ω : Vec ℝ n → Prop) (hm : 0 < m) (hn : 0 < n) :
    NonlinLS (nlsProb r J) Ω r J where
  pos := hm
  nonneg := fun _ h => h
  mono := fun _ _ _ h => h
  full w x _ := ⟨{ cost := dotR (r x) (r x), num := m, inlier := 1 }, w, by
    simp only [nlsProb]
    congr 3
    · funext i; simp
    · funext i j; simp, rfl, rfl⟩
  eval w x _ := ⟨rfl, rfl⟩
  dyn x := rfl
  size := Or.inr ⟨rfl, hn, fun w k => ⟨_, _, rfl⟩⟩
  plus x v := by funext i; simp [nlsProb]

/-- hypotheses of `C70_gn_quadratic` and `C70_gn_local`: two nonlinear equations for one unknown, default options, started at `x = 1.1` -/
example (k : Nat) (hk : k < 1000) : NonlinLS (nlsProb parabola parabolaJ) (fun x => nrm (x - fun _ => 1) ≤ 1 / 10) parabola parabolaJ ∧
    ZeroRes parabola parabolaJ (fun _ => 1) (1 / 10) (1 / 2) 2 3 ∧ (1 / 2 * (2 / 2) * (1 / 10) * (1 + 1 / 2 * (3 + 2 / 2 * (1 / 10))) : ℝ) < 1 ∧
    ExactLinAlg someLinAlg ∧ (∀ x, Solves soptsR ((nlsProb parabola parabolaJ).dims == some 1) (gram (parabolaJ x))) ∧
    (∀ x, DiagOk soptsR (gram (parabolaJ x))) ∧ soptsR.gradClip = 0 ∧ (∃ b, loopBound (optsR k) (-1) = some b) ∧
    nrm ((fun _ => 11 / 10 : Vec ℝ 1) - fun _ => 1) ≤ 1 / 10 ∧ (fun _ => 11 / 10 : Vec ℝ 1) ≠ (fun _ => 1) ∧
    nCost soptsR 2 (dotR (parabola fun _ => 11 / 10) (parabola fun _ => 11 / 10)) < maxVal := by
  refine ⟨nlsProb_nls _ _ _ (by decide) (by decide), parabola_zeroRes, by norm_num, someLinAlg_exact, fun _ => Or.inl rfl, fun _ => Or.inl (le_refl _), rfl, ?_, ?_, ?_, ?_⟩
  · by_cases h0 : k = 0
    · subst h0; exact ⟨1, by decide⟩
    · have h6 : ¬ ((k : Int) + 1 + 1 > intMax) := by unfold intMax; omega
      refine ⟨(k : Int) + 1, ?_⟩
      simp only [loopBound, optsR]
      simp [h6]
  · rw [nrm_one]; norm_num [abs_le]
  · intro h; have := congrFun h 0; norm_num at this
  · have : dotR (parabola fun _ => 11 / 10) (parabola fun _ => 11 / 10) = 541 / 10000 := by
      simp [dotR, parabola, Fin.sum_univ_succ]; norm_num
    rw [this]
    show nCost soptsR 2 (541 / 10000) < 2 ^ 1024
    simp [nCost, normalizeCost, soptsR]
    exact lt_of_lt_of_le (by norm_num : (541 / 10000 : ℝ) < 2 ^ 3) (pow_le_pow_right₀ (by norm_num) (by norm_num))

/-- `parabola` as written by a user: expressions of jets -/
noncomputable def parabolaE : Fin 2 → Expr 1 := fun i =>
  if i = 0 then .op1 (.subS 1) (.op2 .mul (.var 0) (.var 0)) else .op1 (.subS 1) (.var 0)

/-- hypotheses of `C70_gn_autodiff`: the same two equations, differentiated with jets -/
example : ADProblem (adProbV parabolaE) parabolaE ∧ VecParams (adProbV parabolaE) ∧ (∀ x i, (parabolaE i).InDomain x) ∧
    ZeroRes (fun y i => (parabolaE i).value y) parabolaJ (fun _ => 1) (1 / 10) (1 / 2) 2 3 ∧
    (∀ x, Solves soptsR ((adProbV parabolaE).dims == some 1) (gram (parabolaJ x))) := by
  have hv : (fun y i => (parabolaE i).value y) = parabola := by
    funext y i
    fin_cases i <;> simp [parabolaE, parabola, Expr.value, fn1, fn2]
  refine ⟨adProbV_ad _, adProbV_vec _, fun x i => ?_, by rw [hv]; exact parabola_zeroRes, fun _ => Or.inl rfl⟩
  fin_cases i
  · exact ⟨⟨trivial, trivial, Or.inl trivial⟩, Or.inl trivial⟩
  · exact ⟨trivial, Or.inl trivial⟩

end Verif
