import Mathlib.Algebra.Order.Chebyshev
import Verif.Props.LinearLS
import Mathlib.Topology.MetricSpace.ProperSpace
import Mathlib.Analysis.Normed.Group.Basic
import Mathlib.Analysis.Normed.Module.FiniteDimension
/-!
# C67: Levenberg-Marquardt converges linearly on linear least squares
-/

set_option linter.unusedSectionVars false

namespace Verif
open FloatOps

/-! ### The points of a run form a path -/

section
variable {F R W S X V M : Type} [FloatOps F]
variable {E : Env F R W S X V M} {o : Options F W V}

/-- the rows lead from `x` to `y` -/
def Path (x : X) : List (Rec F R X V M) → X → Prop
  | [], y => y = x
  | r :: l, y => r.x = x ∧ Path r.xNext l y

theorem Path.snoc {x y : X} {l : List (Rec F R X V M)} {r : Rec F R X V M} (h : Path x l y) (hr : r.x = y) : Path x (l ++ [r]) r.xNext := by
  induction l generalizing x with
  | nil => simp only [Path] at h; exact ⟨hr.trans h, rfl⟩
  | cons a l ih => exact ⟨h.1, ih h.2⟩

theorem run_path {fuel : Nat} {mi : Int} {w : W} {s : S} {x : X} {st : LoopSt F R W S X V M}
    (h : optimizeAcc E o fuel mi w s x = .ok st) : Path x st.trace st.x := by
  obtain ⟨m, st0, -, hj, -, -, hst⟩ := run_inv (I := fun st => Path x st.trace st.x) (J := fun st => Path x st.trace st.x)
    (fun last st st' _ hI hb => by
      obtain ⟨succ, mdx, w1, s1, out1, ms, hstep, hs⟩ := body_spec' hb
      have : Path x st'.trace st'.x := by
        rw [hs.trace]; exact hI.snoc rfl
      exact ⟨fun _ => this, this⟩) rfl rfl h
  rw [hst]; exact hj

end

/-! ### One step -/

section
variable {R W : Type} {m n : Nat}
variable {so : SolverOpts ℝ} {L : LinAlg ℝ} {P : Problem ℝ R W (Vec ℝ n)} {o : Options ℝ W (DVec ℝ)}
variable {A : Fin m → Fin n → ℝ} {b : Vec ℝ m} {φ : ℝ → ℝ}

theorem diag_cauchy {H : Mat ℝ n} (hd : ∀ i, 0 ≤ H i i) (u v : Vec ℝ n) :
    (∑ i, H i i * (u i * v i)) ^ 2 ≤ diagSq H u * diagSq H v := by
  have h := Finset.sum_mul_sq_le_sq_mul_sq Finset.univ (fun i => √(H i i) * u i) (fun i => √(H i i) * v i)
  have e1 : ∀ i, √(H i i) * u i * (√(H i i) * v i) = H i i * (u i * v i) := fun i => by
    have := Real.mul_self_sqrt (hd i)
    calc √(H i i) * u i * (√(H i i) * v i) = (√(H i i) * √(H i i)) * (u i * v i) := by ring
      _ = _ := by rw [this]
  have e2 : ∀ w : Vec ℝ n, ∀ i, (√(H i i) * w i) ^ 2 = H i i * w i ^ 2 := fun w i => by
    rw [mul_pow, Real.sq_sqrt (hd i)]
  simp only [e1, e2] at h
  exact h

/-- A damped step contracts the distance to the minimiser, measured with the diagonal of the Hessian. -/
theorem step_contracts {H : Mat ℝ n} (hH : PSD H) {l κ : ℝ} (hl : 0 ≤ l) (hκ0 : 0 < κ) (hκ : ∀ v, diagSq H v ≤ κ * dotR v (mv H v)) {e dx : Vec ℝ n}
    (hdx : mv (dampedR l H) dx = -mv H e) : (1 + l * κ) ^ 2 * diagSq H (e + dx) ≤ (l * κ) ^ 2 * diagSq H e := by
  have hd := fun i => psd_diag hH i
  have h1 : mv (dampedR l H) (e + dx) = fun i => l * (H i i * e i) := by
    rw [mv_add, hdx]
    funext i
    simp only [Pi.add_apply, Pi.neg_apply, mv, dampedR, add_mul, Finset.sum_add_distrib, ite_mul, zero_mul]
    simp; ring
  have h2 := damped_quad l H (e + dx)
  rw [h1] at h2
  have h3 : dotR (e + dx) (fun i => l * (H i i * e i)) = l * ∑ i, H i i * ((e + dx) i * e i) := by
    unfold dotR; rw [Finset.mul_sum]; exact Finset.sum_congr rfl fun i _ => by ring
  rw [h3] at h2
  have h4 := diag_cauchy hd (e + dx) e
  have h5 := hκ (e + dx)
  have h6 := diagSq_nonneg hd (e + dx)
  have h7 := diagSq_nonneg hd e
  generalize (∑ i, H i i * ((e + dx) i * e i)) = B at h2 h4
  generalize dotR (e + dx) (mv H (e + dx)) = T at h2 h5
  generalize diagSq H (e + dx) = q at h2 h4 h5 h6 ⊢
  generalize diagSq H e = p at h4 h7 ⊢
  have h8 : (1 + l * κ) * q ≤ l * κ * B := by nlinarith
  have h9 : ((1 + l * κ) * q) ^ 2 ≤ (l * κ * B) ^ 2 := pow_le_pow_left₀ (by positivity) h8 2
  rcases h6.lt_or_eq with hq | hq
  · have h10 : (1 + l * κ) ^ 2 * q * q ≤ (l * κ) ^ 2 * p * q := by
      have : (l * κ) ^ 2 * B ^ 2 ≤ (l * κ) ^ 2 * (q * p) := mul_le_mul_of_nonneg_left h4 (by positivity)
      nlinarith
    exact le_of_mul_le_mul_right h10 hq
  · rw [← hq, mul_zero]; positivity

/-- for a positive definite Hessian there is such a `κ` -/
theorem pd_kappa {H : Mat ℝ n} (hH : PD H) : ∃ κ, 0 < κ ∧ ∀ v, diagSq H v ≤ κ * dotR v (mv H v) := by
  have hc : IsCompact (Metric.sphere (0 : Vec ℝ n) 1) := isCompact_sphere _ _
  have c1 : Continuous fun v : Vec ℝ n => dotR v (mv H v) := by unfold dotR mv; fun_prop
  have c2 : Continuous fun v : Vec ℝ n => diagSq H v := by unfold diagSq; fun_prop
  by_cases hne : (Metric.sphere (0 : Vec ℝ n) 1).Nonempty
  · obtain ⟨a, ha, hmin⟩ := hc.exists_isMinOn hne c1.continuousOn
    obtain ⟨z, hz, hmax⟩ := hc.exists_isMaxOn hne c2.continuousOn
    have hpos : 0 < dotR a (mv H a) := hH.2 a (by rintro rfl; simp at ha)
    have hq0 : 0 ≤ diagSq H z := diagSq_nonneg (fun i => (pd_diag hH i).le) z
    refine ⟨(diagSq H z + 1) / dotR a (mv H a), by positivity, fun v => ?_⟩
    by_cases hv : v = 0
    · subst hv; simp [diagSq, dotR]
    · have hn : 0 < ‖v‖ := norm_pos_iff.mpr hv
      have hu : ‖v‖⁻¹ • v ∈ Metric.sphere (0 : Vec ℝ n) 1 := by
        rw [mem_sphere_zero_iff_norm, norm_smul, norm_inv, norm_norm, inv_mul_cancel₀ hn.ne']
      have e1 : dotR v (mv H v) = ‖v‖ ^ 2 * dotR (‖v‖⁻¹ • v) (mv H (‖v‖⁻¹ • v)) := by
        rw [mv_smul, dotR_smul, dotR_comm (‖v‖⁻¹ • v), dotR_smul, dotR_comm (mv H v)]; field_simp
      have e2 : diagSq H v = ‖v‖ ^ 2 * diagSq H (‖v‖⁻¹ • v) := by
        unfold diagSq; rw [Finset.mul_sum]
        refine Finset.sum_congr rfl fun i _ => ?_
        simp only [Pi.smul_apply, smul_eq_mul]; field_simp
      have i1 : dotR a (mv H a) ≤ dotR (‖v‖⁻¹ • v) (mv H (‖v‖⁻¹ • v)) := hmin hu
      have i2 : diagSq H (‖v‖⁻¹ • v) ≤ diagSq H z := hmax hu
      rw [e1, e2, div_mul_eq_mul_div, le_div_iff₀ hpos]
      have hn2 : 0 < ‖v‖ ^ 2 := by positivity
      generalize dotR (‖v‖⁻¹ • v) (mv H (‖v‖⁻¹ • v)) = T at *
      generalize diagSq H (‖v‖⁻¹ • v) = q at *
      have : q * dotR a (mv H a) ≤ (diagSq H z + 1) * T := by nlinarith
      nlinarith
  · refine ⟨1, one_pos, fun v => ?_⟩
    have hv : v = 0 := by
      by_contra hv
      have hn : 0 < ‖v‖ := norm_pos_iff.mpr hv
      exact hne ⟨‖v‖⁻¹ • v, by rw [mem_sphere_zero_iff_norm, norm_smul, norm_inv, norm_norm, inv_mul_cancel₀ hn.ne']⟩
    subst hv; simp [diagSq, dotR]

/-- **C67.** In exact arithmetic, on a linear least squares problem whose Hessian satisfies `diag H ≤ κ H`, with the damping starting at most at
`l0` and `good_factor ≤ 1`, `use_step_quality_approx` off: every Levenberg-Marquardt run of at most 65536 iterations approaches every minimiser `z`
at least by the factor `l0 κ / (1 + l0 κ)` per iteration, in the norm weighted with the diagonal of `H`. -/
theorem C67_lm_rate (h : LinLS P A b φ) (hL : ExactLinAlg L) (hA : ∀ l, Allowed so l → PD (dampedR l (gram A)))
    (hone : so.useLdlt = true ∨ P.dims ≠ some 1) (hr0 : so.dampLo ≤ so.dampHi) (hlo : 0 ≤ so.dampLo) (hin : 0 ≤ so.dampInit)
    (hmin : DiagOk so (gram A)) (hclip : so.gradClip = 0)
    (hg0 : 0 ≤ so.goodFactor) (hg1 : so.goodFactor ≤ 1) (hq : o.useStepQuality = false)
    {l0 κ : ℝ} (hl0 : so.dampLo ≤ l0) (hκ0 : 0 < κ) (hκ : ∀ v, diagSq (gram A) v ≤ κ * dotR v (mv (gram A) v))
    (s : LMState ℝ R) (hs : P.dims = none ∨ s.gn.n = n) (hreb : s.rebuild = true) (hal : Allowed so s.lambda) (hsl : s.lambda ≤ l0)
    (hbf : s.badF = so.badFactor)
    (fuel : Nat) (mi k : Int) (hk : loopBound o mi = some k) (hk2 : k ≤ 65536)
    (w : W) (x0 : Vec ℝ n) (hx0 : nCost so m (φ (lsCost A b x0)) < maxVal) {z : Vec ℝ n} (hz : lsGrad A b z = 0) :
    ∃ st, optimizeAcc (lmEnv so L P) o (fuel + 1) mi w s x0 = .ok st ∧
      (∀ r ∈ st.trace, (lsGrad A b r.x ≠ 0 → r.succ = true) ∧
        diagSq (gram A) (r.xNext - z) ≤ (l0 * κ / (1 + l0 * κ)) ^ 2 * diagSq (gram A) (r.x - z)) ∧
      diagSq (gram A) (st.x - z) ≤ ((l0 * κ / (1 + l0 * κ)) ^ 2) ^ st.trace.length * diagSq (gram A) (x0 - z) := by
  have hnn : ∀ l, Allowed so l → 0 ≤ l := by
    rintro l (rfl | h)
    · exact hin
    · exact hlo.trans h
  have hl00 : 0 ≤ l0 := hlo.trans hl0
  obtain ⟨st, e, hT, -⟩ := lm_ls_run (o := o) (K := fun l β => 0 ≤ l ∧ l ≤ l0 ∧ β = so.badFactor) h hL hA hone hr0 hlo hin hmin hclip
    (by
      rintro s2 s3 q hq0 ⟨h0, h1, h2⟩ hg
      obtain rfl := hq0 hq
      have hsc : goodScale so 0 s2.badF = so.goodFactor := by
        unfold goodScale; rw [h2]; simp [ne]
      unfold lmGood at hg
      rw [stdClamp_real hr0, hsc] at hg
      injection hg with hg
      subst hg
      refine ⟨hlo.trans (le_max_left _ _), max_le hl0 ((min_le_left _ _).trans ?_), rfl⟩
      show s2.lambda * so.goodFactor ≤ l0
      nlinarith)
    s hs hreb hal ⟨hnn _ hal, hsl, hbf⟩ fuel mi k hk hk2 w x0 hx0
  have hstep : ∀ r ∈ st.trace, diagSq (gram A) (r.xNext - z) ≤ (l0 * κ / (1 + l0 * κ)) ^ 2 * diagSq (gram A) (r.x - z) := by
    intro r hr
    have hgx : lsGrad A b r.x = mv (gram A) (r.x - z) := by
      have := lsGrad_add (A := A) (b := b) z (r.x - z)
      rw [add_sub_cancel, hz, zero_add] at this
      exact this
    have hden : 0 < 1 + l0 * κ := by positivity
    by_cases hg : lsGrad A b r.x = 0
    · rw [(hT r hr).1.2 hg]
      have h0 := hκ (r.x - z)
      rw [← hgx, hg] at h0
      have h1 := diagSq_nonneg (fun i => psd_diag (gram_psd A) i) (r.x - z)
      have h2 : dotR (r.x - z) 0 = 0 := by simp [dotR]
      rw [h2, mul_zero] at h0
      rw [le_antisymm h0 h1, mul_zero]
    · obtain ⟨-, l, β, ⟨hl, hll, -⟩, -, hsol⟩ := (hT r hr).2 hg
      rw [hgx] at hsol
      have hc := step_contracts (gram_psd A) hl hκ0 hκ hsol
      rw [show r.x - z + (r.xNext - r.x) = r.xNext - z by abel] at hc
      have h1 := diagSq_nonneg (fun i => psd_diag (gram_psd A) i) (r.x - z)
      have hden' : 0 < 1 + l * κ := by positivity
      have hmono : l * κ / (1 + l * κ) ≤ l0 * κ / (1 + l0 * κ) := by
        rw [div_le_div_iff₀ hden' hden]; nlinarith
      calc diagSq (gram A) (r.xNext - z) ≤ (l * κ / (1 + l * κ)) ^ 2 * diagSq (gram A) (r.x - z) := by
            rw [div_pow, div_mul_eq_mul_div, le_div_iff₀ (by positivity)]; linarith
        _ ≤ _ := mul_le_mul_of_nonneg_right (pow_le_pow_left₀ (by positivity) hmono 2) h1
  refine ⟨st, e, fun r hr => ⟨fun hg => ((hT r hr).2 hg).1, hstep r hr⟩, ?_⟩
  have hp := run_path e
  generalize st.x = y at hp ⊢
  generalize st.trace = tr at hp hstep ⊢
  generalize x0 = x at hp ⊢
  induction tr generalizing x with
  | nil => simp only [Path] at hp; subst hp; simp
  | cons r tr ih =>
    obtain ⟨h1, h2⟩ := hp
    have h3 := ih (fun r hr => hstep r (List.mem_cons_of_mem _ hr)) r.xNext h2
    have h4 := hstep r List.mem_cons_self
    rw [h1] at h4
    rw [List.length_cons, pow_succ, mul_assoc]
    exact h3.trans (mul_le_mul_of_nonneg_left h4 (by positivity))

/-- the quadratic form is at most `n` times the weighted norm -/
theorem gram_le_diag (A : Fin m → Fin n → ℝ) (v : Vec ℝ n) : dotR v (mv (gram A) v) ≤ n * diagSq (gram A) v := by
  rw [mv_gram, dotR_tmv]
  have h1 : ∀ k, (mv A v k) ^ 2 ≤ n * ∑ i, (A k i * v i) ^ 2 := by
    intro k
    have := sq_sum_le_card_mul_sum_sq (s := Finset.univ) (f := fun i => A k i * v i)
    simpa [mv] using this
  have h2 : dotR (mv A v) (mv A v) = ∑ k, (mv A v k) ^ 2 := Finset.sum_congr rfl fun k _ => by ring
  have h3 : diagSq (gram A) v = ∑ k, ∑ i, (A k i * v i) ^ 2 := by
    unfold diagSq gram
    rw [Finset.sum_comm]
    refine Finset.sum_congr rfl fun i _ => ?_
    rw [Finset.sum_mul]
    exact Finset.sum_congr rfl fun k _ => by ring
  rw [h2, h3, Finset.mul_sum]
  exact Finset.sum_le_sum fun k _ => h1 k

/-- **C67**, in terms of the cost: with linearly independent columns there are constants `C` and `ρ < 1`, depending on the problem and the solver options only, such
that every run of a new solver ends with a cost above the minimum by at most `C ρ ^ iterations` times the initial excess. -/
theorem C67_lm_converges (h : LinLS P A b φ) (hL : ExactLinAlg L) (hA : ∀ v, mv A v = 0 → v = 0)
    (hone : so.useLdlt = true ∨ P.dims ≠ some 1) (hr0 : so.dampLo ≤ so.dampHi) (hlo : 0 ≤ so.dampLo) (hin : so.dampLo ≤ so.dampInit)
    (hmin : DiagOk so (gram A)) (hclip : so.gradClip = 0) (hg0 : 0 ≤ so.goodFactor) (hg1 : so.goodFactor ≤ 1)
    {z : Vec ℝ n} (hz : lsGrad A b z = 0) :
    ∃ C ρ : ℝ, 0 ≤ ρ ∧ ρ < 1 ∧ ∀ (o : Options ℝ W (DVec ℝ)) (g : Vec ℝ (P.dims.getD 0)) (H : Mat ℝ (P.dims.getD 0)) (fuel : Nat) (mi k : Int) (w : W) (x0 : Vec ℝ n),
      o.useStepQuality = false → loopBound o mi = some k → k ≤ 65536 → nCost so m (φ (lsCost A b x0)) < maxVal →
      ∃ st, optimizeAcc (lmEnv so L P) o (fuel + 1) mi w (lmFresh so P g H) x0 = .ok st ∧
        lsCost A b st.x - lsCost A b z ≤ C * ρ ^ st.trace.length * (lsCost A b x0 - lsCost A b z) := by
  have hpd := gram_pd hA
  obtain ⟨κ, hκ0, hκ⟩ := pd_kappa hpd
  have hin0 := hlo.trans hin
  have hden : 0 < 1 + so.dampInit * κ := by positivity
  have hgap : ∀ x, lsCost A b x - lsCost A b z = dotR (x - z) (mv (gram A) (x - z)) := by
    intro x
    have := lsCost_add (A := A) (b := b) z (x - z)
    rw [add_sub_cancel, hz] at this
    have h2 : dotR (0 : Vec ℝ n) (x - z) = 0 := by simp [dotR]
    rw [h2] at this
    linarith
  refine ⟨n * κ, (so.dampInit * κ / (1 + so.dampInit * κ)) ^ 2, by positivity, ?_, ?_⟩
  · have : so.dampInit * κ / (1 + so.dampInit * κ) < 1 := by rw [div_lt_one hden]; linarith
    exact pow_lt_one₀ (by positivity) this (by norm_num)
  · intro o g H fuel mi k w x0 hq hk hk2 hx0
    have hsz : P.dims = none ∨ (lmFresh so P g H).gn.n = n := by
      rcases h.size with hd | hd
      · right; show P.dims.getD 0 = n; rw [hd]; rfl
      · exact Or.inl hd.1
    obtain ⟨st, e, -, hst⟩ := C67_lm_rate h hL (fun l hl => damped_pd' hpd (by
        rcases hl with rfl | hl
        · exact hin0
        · exact hlo.trans hl)) hone hr0 hlo hin0 hmin hclip hg0 hg1 hq hin hκ0 hκ (lmFresh so P g H) hsz rfl (Or.inl rfl) (le_refl _) rfl
        fuel mi k hk hk2 w x0 hx0 hz
    refine ⟨st, e, ?_⟩
    rw [hgap, hgap]
    have h1 := gram_le_diag A (st.x - z)
    have h2 := hκ (x0 - z)
    calc dotR (st.x - z) (mv (gram A) (st.x - z)) ≤ n * diagSq (gram A) (st.x - z) := h1
      _ ≤ n * (((so.dampInit * κ / (1 + so.dampInit * κ)) ^ 2) ^ st.trace.length * (κ * dotR (x0 - z) (mv (gram A) (x0 - z)))) :=
          mul_le_mul_of_nonneg_left (hst.trans (mul_le_mul_of_nonneg_left h2 (by positivity))) (by positivity)
      _ = _ := by ring

end

/-- hypotheses of `C67_lm_converges`: fitting a line to three points, default options -/
example : LinLS (lsProb line3 line3b) line3 line3b ∧ ExactLinAlg someLinAlg ∧ (∀ v, mv line3 v = 0 → v = 0) ∧
    soptsR.useLdlt = true ∧ soptsR.dampLo ≤ soptsR.dampHi ∧ 0 ≤ soptsR.dampLo ∧ soptsR.dampLo ≤ soptsR.dampInit ∧ DiagOk soptsR (gram line3) ∧
    soptsR.gradClip = 0 ∧ 0 ≤ soptsR.goodFactor ∧ soptsR.goodFactor ≤ 1 ∧ (∀ k, (optsR k).useStepQuality = false) ∧
    lsGrad line3 line3b (fun i => if i = 0 then 3 / 2 else -1 / 2) = 0 ∧ nCost soptsR 3 (lsCost line3 line3b 0) < maxVal := by
  refine ⟨lsProb_ls _ _ (by decide) (by decide), someLinAlg_exact, line3_rank, rfl, by norm_num [soptsR], by norm_num [soptsR], by norm_num [soptsR],
    Or.inl (le_refl _), rfl, by norm_num [soptsR], by norm_num [soptsR], fun _ => rfl, ?_, line3_start⟩
  funext i
  fin_cases i <;> simp [lsGrad, tmv, mv, line3, line3b, Fin.sum_univ_succ] <;> norm_num

end Verif
