import Verif.Props.LmGlobal
import Verif.Props.GradientDescent
/-!
# C75: what `max_iters` iterations achieve when the stop criteria are switched off
-/

set_option linter.unusedSectionVars false

namespace Verif
open FloatOps Loss

section
variable {F R W S X V M : Type} [FloatOps F]
variable {E : Env F R W S X V M} {o : Options F W V}

theorem path_zero {f : X → ℝ} : ∀ {tr : List (Rec F R X V M)} {x y : X}, Path x tr y → (∀ t ∈ tr, f t.x = 0 → f t.xNext = 0) →
    (f x = 0 → f y = 0) ∧ ((∃ t ∈ tr, f t.x = 0) → f y = 0) := by
  intro tr
  induction tr with
  | nil =>
    intro x y h _
    simp only [Path] at h
    subst h
    exact ⟨id, fun ⟨t, ht, _⟩ => by simp at ht⟩
  | cons t tr ih =>
    rintro x y ⟨h1, h2⟩ hz
    subst h1
    have h3 := ih h2 fun q hq => hz q (List.mem_cons_of_mem _ hq)
    have h4 : f t.x = 0 → f y = 0 := fun h => h3.1 (hz t List.mem_cons_self h)
    refine ⟨h4, ?_⟩
    rintro ⟨q, hq, hq0⟩
    rcases List.mem_cons.mp hq with rfl | hq
    · exact h4 hq0
    · exact h3.2 ⟨q, hq, hq0⟩

/-- a run without stop criteria that accepts its steps as long as `f` is not zero: at the end `f` is zero, or all iterations were done -/
theorem quiet_done (hq : Quiet o) {f : X → ℝ} {fuel : Nat} {mi m : Int} {w : W} {s : S} {x : X} {st : LoopSt F R W S X V M}
    (e : optimizeAcc E o fuel mi w s x = .ok st) (hm : loopBound o mi = some m) (hs : ∀ t ∈ st.trace, f t.x ≠ 0 → t.succ = true)
    (hz : ∀ t ∈ st.trace, f t.x = 0 → f t.xNext = 0) : f st.x = 0 ∨ st.trace.length = m.toNat := by
  by_cases h : ∃ t ∈ st.trace, f t.x = 0
  · exact Or.inl ((path_zero (run_path e) hz).2 h)
  · push Not at h
    have := quiet_run hq e hm fun t ht => succ_dx e t ht (hs t ht (h t ht))
    exact Or.inr (by omega)

end

section
variable {R W : Type} {m n : Nat}
variable {so : SolverOpts ℝ} {LA : LinAlg ℝ} {P : Problem ℝ R W (Vec ℝ n)} {o : Options ℝ W (DVec ℝ)}

section
variable {r : Vec ℝ n → Vec ℝ m} {J : Vec ℝ n → Fin m → Fin n → ℝ} {φ : ℝ → ℝ} {xs : Vec ℝ n} {ρ β L M : ℝ}

/-- **C75**, Gauss-Newton near a zero of the residuals (hypotheses of C70): without stop criteria, `N` iterations bring the distance `e` to the zero from
`e0` to `q e ≤ (q e0) ^ (2 ^ N)`, `q = β L / 2`, `q e0 < 1`. -/
theorem C75_gn_quadratic (h : NonlinLS P (fun x => nrm (x - xs) ≤ ρ) r J φ) (hz : ZeroRes r J xs ρ β L M)
    (hρ : β * (L / 2) * ρ * (1 + β * (M + L / 2 * ρ)) < 1) (hL : ExactLinAlg LA)
    (hone : ∀ x, nrm (x - xs) ≤ ρ → Solves so (P.dims == some 1) (gram (J x))) (hmin : ∀ x, nrm (x - xs) ≤ ρ → DiagOk so (gram (J x)))
    (hclip : so.gradClip = 0) (hq : Quiet o) (s : GNState ℝ R) (hs : P.dims = none ∨ s.n = n) (fuel : Nat) (mi N : Int) (hN : loopBound o mi = some N)
    (w : W) (x0 : Vec ℝ n) (hx0 : nrm (x0 - xs) ≤ ρ) (hc0 : nCost so m (φ (dotR (r x0) (r x0))) < maxVal) :
    β * (L / 2) * nrm (x0 - xs) < 1 ∧ ∃ st, optimizeAcc (gnEnv so LA P) o (fuel + 1) mi w s x0 = .ok st ∧
      β * (L / 2) * nrm (st.x - xs) ≤ (β * (L / 2) * nrm (x0 - xs)) ^ 2 ^ N.toNat := by
  obtain ⟨st, e, h1, h2, h3⟩ := C70_gn_quadratic (o := o) h hz hρ hL hone hmin hclip s hs fuel mi N hN w x0 hx0 hc0
  refine ⟨h2, st, e, ?_⟩
  rcases quiet_done (f := fun x => nrm (x - xs)) hq e hN (fun t ht hne => ((h1 t ht).1 fun h0 => hne (by rw [h0, sub_self, nrm_zero])).1) (fun t ht h0 => by
    have h4 := (h1 t ht).2.2
    rw [h0] at h4
    exact le_antisymm (by simpa using h4) (nrm_nonneg _)) with h0 | h0
  · rw [h0, mul_zero]
    have := hz.posβ; have := hz.posL; have := nrm_nonneg (x0 - xs)
    positivity
  · rwa [h0] at h3

end

section
variable {r : Vec ℝ n → Vec ℝ n} {J : Vec ℝ n → Fin n → Fin n → ℝ} {φ : ℝ → ℝ} {R0 β L κ : ℝ}

/-- **C75**, Gauss-Newton on `n` equations with `n` unknowns (hypotheses of C71): without stop criteria, `N` iterations bring the norm of the residuals from `|r0|`
to `q |r| ≤ (q |r0|) ^ (2 ^ N)`, `q = L β² / 2`, `q |r0| < 1`. -/
theorem C75_gn_newton (h : NonlinLS P (fun x => nrm (r x) ≤ R0) r J φ) (hreg : Regular r J R0 β L) (hh : L * β ^ 2 * R0 < 2) (hL : ExactLinAlg LA)
    (hone : ∀ x, nrm (r x) ≤ R0 → Solves so (P.dims == some 1) (gram (J x))) (hmin : ∀ x, nrm (r x) ≤ R0 → DiagOk so (gram (J x))) (hclip : so.gradClip = 0)
    (hq : Quiet o) (s : GNState ℝ R) (hs : P.dims = none ∨ s.n = n) (fuel : Nat) (mi N : Int) (hN : loopBound o mi = some N)
    (w : W) (x0 : Vec ℝ n) (hx0 : nrm (r x0) ≤ R0) (hc0 : nCost so n (φ (dotR (r x0) (r x0))) < maxVal) :
    L * β ^ 2 / 2 * nrm (r x0) < 1 ∧ ∃ st, optimizeAcc (gnEnv so LA P) o (fuel + 1) mi w s x0 = .ok st ∧
      L * β ^ 2 / 2 * nrm (r st.x) ≤ (L * β ^ 2 / 2 * nrm (r x0)) ^ 2 ^ N.toNat := by
  obtain ⟨st, e, h1, h2, h3⟩ := C71_gn_newton (o := o) h hreg hh hL hone hmin hclip s hs fuel mi N hN w x0 hx0 hc0
  refine ⟨h2, st, e, ?_⟩
  rcases quiet_done (f := fun x => nrm (r x)) hq e hN (fun t ht hne => (h1 t ht).1 fun h0 => hne (by rw [h0, nrm_zero])) (fun t ht h0 => by
    have h4 := (h1 t ht).2
    rw [h0] at h4
    exact le_antisymm (by simpa using h4) (nrm_nonneg _)) with h0 | h0
  · rw [h0, mul_zero]
    have := hreg.posL; have := nrm_nonneg (r x0)
    positivity
  · rwa [h0] at h3

/-- **C75**, Levenberg-Marquardt on `n` equations with `n` unknowns (hypotheses of C71): without stop criteria, `N` iterations bring the norm of the residuals
down by the factor `ω ^ N` with `ω < 1`. -/
theorem C75_lm_newton (h : NonlinLS P (fun x => nrm (r x) ≤ R0) r J φ) (hreg : Regular r J R0 β L) (hL : ExactLinAlg LA)
    (hone : so.useLdlt = true ∨ P.dims ≠ some 1) (hr0 : so.dampLo ≤ so.dampHi) (hlo : 0 ≤ so.dampLo) (hin : 0 ≤ so.dampInit)
    (hmin : ∀ x, nrm (r x) ≤ R0 → DiagOk so (gram (J x))) (hclip : so.gradClip = 0)
    (hg0 : 0 ≤ so.goodFactor) (hg1 : so.goodFactor ≤ 1) (hq : o.useStepQuality = false) (hqu : Quiet o)
    {l0 : ℝ} (hl0 : so.dampLo ≤ l0) (hκ0 : 0 ≤ κ) (hκ : ∀ x v, nrm (r x) ≤ R0 → diagSq (gram (J x)) v ≤ κ * nrm (mv (J x) v) ^ 2)
    (hh : L * β ^ 2 * R0 * (1 + shrink l0 κ) < 2)
    (s : LMState ℝ R) (hs : P.dims = none ∨ s.gn.n = n) (hreb : s.rebuild = true) (hal : Allowed so s.lambda) (hsl : s.lambda ≤ l0)
    (hbf : s.badF = so.badFactor)
    (fuel : Nat) (mi N : Int) (hN : loopBound o mi = some N) (hN2 : N ≤ 65536)
    (w : W) (x0 : Vec ℝ n) (hx0 : nrm (r x0) ≤ R0) (hc0 : nCost so n (φ (dotR (r x0) (r x0))) < maxVal) :
    shrink l0 κ + L * β ^ 2 * R0 / 2 * (1 - shrink l0 κ ^ 2) < 1 ∧ ∃ st, optimizeAcc (lmEnv so LA P) o (fuel + 1) mi w s x0 = .ok st ∧
      nrm (r st.x) ≤ (shrink l0 κ + L * β ^ 2 * R0 / 2 * (1 - shrink l0 κ ^ 2)) ^ N.toNat * nrm (r x0) := by
  obtain ⟨st, e, h1, h2, h3⟩ := C71_lm_newton (o := o) h hreg hL hone hr0 hlo hin hmin hclip hg0 hg1 hq hl0 hκ0 hκ hh s hs hreb hal hsl hbf fuel mi N hN hN2 w x0 hx0 hc0
  refine ⟨h2, st, e, ?_⟩
  rcases quiet_done (f := fun x => nrm (r x)) hqu e hN
    (fun t ht hne => by
      obtain ⟨i, hi⟩ := List.getElem?_of_mem ht
      exact (h1 i t hi).1 fun h0 => hne (by rw [h0, nrm_zero]))
    (fun t ht h0 => by
      obtain ⟨i, hi⟩ := List.getElem?_of_mem ht
      have h4 := (h1 i t hi).2
      rw [h0] at h4
      exact le_antisymm (by simpa using h4) (nrm_nonneg _)) with h0 | h0
  · rw [h0]
    have hl00 : 0 ≤ l0 := hlo.trans hl0
    have a1 := shrink_nonneg hl00 hκ0
    have a2 := shrink_lt_one hl00 hκ0
    have a3 : 0 ≤ L * β ^ 2 * R0 := by
      have := hreg.posL
      have : 0 ≤ R0 := (nrm_nonneg _).trans hx0
      positivity
    have a4 : 0 ≤ shrink l0 κ + L * β ^ 2 * R0 / 2 * (1 - shrink l0 κ ^ 2) := by nlinarith
    have := nrm_nonneg (r x0)
    positivity
  · rwa [h0] at h3

end

section
variable {r : Vec ℝ n → Vec ℝ m} {J : Vec ℝ n → Fin m → Fin n → ℝ} {φ : ℝ → ℝ} {R0 L δ B Λ : ℝ}

/-- **C75**, Levenberg-Marquardt far from a solution (hypotheses of C74): without stop criteria, one of the first `N` iterates has a squared gradient of at most
`2 B² (1 + Λ) |r(x0)|² / N`. -/
theorem C75_lm_stationary (h : NonlinLS P (fun x => nrm (r x) ≤ R0) r J φ) (hsm : SmoothRes r J R0 L δ B) (hL : ExactLinAlg LA)
    (hone : so.useLdlt = true ∨ P.dims ≠ some 1) (hr0 : so.dampLo ≤ so.dampHi) (hlo : 0 < so.dampLo) (hin : 0 < so.dampInit)
    (hlo' : L * R0 ≤ so.dampLo * δ) (hin' : L * R0 ≤ so.dampInit * δ)
    (hmin : ∀ x, nrm (r x) ≤ R0 → DiagOk so (gram (J x))) (hclip : so.gradClip = 0) (hq : Quiet o)
    (s : LMState ℝ R) (hs : P.dims = none ∨ s.gn.n = n) (hreb : s.rebuild = true) (hal : Allowed so s.lambda) (hsl : s.lambda ≤ Λ)
    (hΛ : so.dampHi ≤ Λ ∨ (o.useStepQuality = false ∧ 0 ≤ so.goodFactor ∧ so.goodFactor ≤ 1 ∧ s.badF = so.badFactor ∧ so.dampLo ≤ Λ))
    (fuel : Nat) (mi N : Int) (hN : loopBound o mi = some N) (hN2 : N ≤ 65536)
    (w : W) (x0 : Vec ℝ n) (hx0 : nrm (r x0) ≤ R0) (hc0 : nCost so m (φ (dotR (r x0) (r x0))) < maxVal) :
    ∃ st, optimizeAcc (lmEnv so LA P) o (fuel + 1) mi w s x0 = .ok st ∧
      ∃ t ∈ st.trace, nrm (tmv (J t.x) (r t.x)) ^ 2 ≤ 2 * B ^ 2 * (1 + Λ) * nrm (r x0) ^ 2 / N := by
  obtain ⟨st, e, h1, -, h3⟩ := C74_lm_stationary_partial (o := o) h hsm hL hone hr0 hlo hin hlo' hin' hmin hclip s hs hreb hal hsl hΛ fuel mi N hN hN2 w x0 hx0 hc0
  refine ⟨st, e, ?_⟩
  obtain ⟨m', st0, hm', -, -, hl, hst⟩ := run_inv (I := fun _ => True) (J := fun _ => True) (fun _ _ _ _ _ _ => ⟨fun _ => trivial, trivial⟩) trivial trivial e
  rw [hN] at hm'
  injection hm' with hm'
  subst hm'
  have e2 : st.trace = st0.trace := by rw [hst]
  rw [← e2] at hl
  have hne : st.trace ≠ [] := List.ne_nil_of_length_pos hl.2.2
  by_cases hz : ∃ t ∈ st.trace, tmv (J t.x) (r t.x) = 0
  · obtain ⟨t, ht, h0⟩ := hz
    refine ⟨t, ht, ?_⟩
    rw [h0, nrm_zero]
    have : (0 : ℝ) < N := by
      have : (0 : Int) < N := by omega
      exact_mod_cast this
    have hΛ0 : 0 < Λ := by
      refine lt_of_lt_of_le ?_ hsl
      rcases hal with h | h
      · rw [h]; exact hin
      · exact hlo.trans_le h
    have := hsm.posB
    rw [zero_pow two_ne_zero]
    positivity
  · push Not at hz
    have hlen := quiet_run hq e hN fun t ht => succ_dx e t ht (h1 t ht (hz t ht)).1
    have hlenR : (st.trace.length : ℝ) = N := by exact_mod_cast hlen
    rw [← hlenR]
    exact h3 hne

end

section
variable {A : Fin m → Fin n → ℝ} {b : Vec ℝ m} {φ : ℝ → ℝ}

/-- **C75**, Levenberg-Marquardt on linear least squares with independent columns (hypotheses of C67): there are `C` and `ρ < 1`, depending on the problem and
the solver options only, such that without stop criteria `N` iterations of a new solver bring the cost to within `C ρ ^ N` times the initial excess of the minimum. -/
theorem C75_lm_linear (h : LinLS P A b φ) (hL : ExactLinAlg LA) (hA : ∀ v, mv A v = 0 → v = 0)
    (hone : so.useLdlt = true ∨ P.dims ≠ some 1) (hr0 : so.dampLo ≤ so.dampHi) (hlo : 0 ≤ so.dampLo) (hin : so.dampLo ≤ so.dampInit)
    (hmin : DiagOk so (gram A)) (hclip : so.gradClip = 0) (hg0 : 0 ≤ so.goodFactor) (hg1 : so.goodFactor ≤ 1)
    {z : Vec ℝ n} (hz : lsGrad A b z = 0) :
    ∃ C ρ : ℝ, 0 ≤ ρ ∧ ρ < 1 ∧ ∀ (o : Options ℝ W (DVec ℝ)) (g : Vec ℝ (P.dims.getD 0)) (H : Mat ℝ (P.dims.getD 0)) (fuel : Nat) (mi N : Int) (w : W) (x0 : Vec ℝ n),
      o.useStepQuality = false → Quiet o → loopBound o mi = some N → N ≤ 65536 → nCost so m (φ (lsCost A b x0)) < maxVal →
      ∃ st, optimizeAcc (lmEnv so LA P) o (fuel + 1) mi w (lmFresh so P g H) x0 = .ok st ∧
        lsCost A b st.x - lsCost A b z ≤ C * ρ ^ N.toNat * (lsCost A b x0 - lsCost A b z) := by
  have hpd := gram_pd hA
  obtain ⟨κ, hκ0, hκ⟩ := pd_kappa hpd
  have hin0 := hlo.trans hin
  have hden : 0 < 1 + so.dampInit * κ := by positivity
  have hgap : ∀ x, lsCost A b x - lsCost A b z = dotR (x - z) (mv (gram A) (x - z)) := by
    intro x
    have := lsCost_add (A := A) (b := b) z (x - z)
    rw [add_sub_cancel, hz] at this
    have h2 : dotR (0 : Vec ℝ n) (x - z) = 0 := by simp [dotR]
    rw [h2] at this
    linarith
  have hnn : ∀ v, 0 ≤ diagSq (gram A) v := diagSq_nonneg fun i => psd_diag (gram_psd A) i
  refine ⟨n * κ, (so.dampInit * κ / (1 + so.dampInit * κ)) ^ 2, by positivity, ?_, ?_⟩
  · have : so.dampInit * κ / (1 + so.dampInit * κ) < 1 := by rw [div_lt_one hden]; linarith
    exact pow_lt_one₀ (by positivity) this (by norm_num)
  · intro o g H fuel mi N w x0 hq hqu hN hN2 hx0
    have hsz : P.dims = none ∨ (lmFresh so P g H).gn.n = n := by
      rcases h.size with hd | hd
      · right; show P.dims.getD 0 = n; rw [hd]; rfl
      · exact Or.inl hd.1
    obtain ⟨st, e, hrow, hst⟩ := C67_lm_rate h hL (fun l hl => damped_pd' hpd (by
        rcases hl with rfl | hl
        · exact hin0
        · exact hlo.trans hl)) hone hr0 hlo hin0 hmin hclip hg0 hg1 hq hin hκ0 hκ (lmFresh so P g H) hsz rfl (Or.inl rfl) (le_refl _) rfl
        fuel mi N hN hN2 w x0 hx0 hz
    have hst' : diagSq (gram A) (st.x - z) ≤ ((so.dampInit * κ / (1 + so.dampInit * κ)) ^ 2) ^ N.toNat * diagSq (gram A) (x0 - z) := by
      rcases quiet_done (f := fun x => diagSq (gram A) (x - z)) hqu e hN
        (fun t ht hne => (hrow t ht).1 fun hg => hne (by
          have hgx : lsGrad A b t.x = mv (gram A) (t.x - z) := by
            have := lsGrad_add (A := A) (b := b) z (t.x - z)
            rw [add_sub_cancel, hz, zero_add] at this
            exact this
          have h0 := hκ (t.x - z)
          rw [← hgx, hg] at h0
          have h2 : dotR (t.x - z) 0 = 0 := by simp [dotR]
          rw [h2, mul_zero] at h0
          exact le_antisymm h0 (hnn _)))
        (fun t ht h0 => by
          have h1 := (hrow t ht).2
          rw [h0, mul_zero] at h1
          exact le_antisymm h1 (hnn _)) with h0 | h0
      · rw [h0]
        have := hnn (x0 - z)
        positivity
      · rwa [h0] at hst
    refine ⟨st, e, ?_⟩
    rw [hgap, hgap]
    have h1 := gram_le_diag A (st.x - z)
    have h2 := hκ (x0 - z)
    calc dotR (st.x - z) (mv (gram A) (st.x - z)) ≤ n * diagSq (gram A) (st.x - z) := h1
      _ ≤ n * (((so.dampInit * κ / (1 + so.dampInit * κ)) ^ 2) ^ N.toNat * (κ * dotR (x0 - z) (mv (gram A) (x0 - z)))) :=
        mul_le_mul_of_nonneg_left (hst'.trans (mul_le_mul_of_nonneg_left h2 (by positivity))) (by positivity)
      _ = _ := by ring

end

section
variable {f : Vec ℝ n → ℝ} {G : Vec ℝ n → Vec ℝ n} {K : ℝ} {k : Nat}

/-- **C75**, gradient descent (hypotheses of C60, cost bounded below by `c`): without stop criteria, one of the first `N` iterates has a (clipped) gradient with squared
norm at most `(f x0 - c) / (lr (1 - K lr / 2) N)`. -/
theorem C75_gd (h : UserGrad P f G k) (hf : Smooth f G K) (hsq : so.useSquaredNorm = true ∨ ∀ x, 0 ≤ f x)
    (hlr : 0 < so.lr) (hK : K * so.lr < 2) (hclip : 0 ≤ so.gradClip) (hq : Quiet o)
    (s : GNState ℝ R) (hs : P.dims = none ∨ s.n = n) (fuel : Nat) (mi N : Int) (hN : loopBound o mi = some N)
    (w : W) (x0 : Vec ℝ n) (hx0 : nCost so k (f x0) < maxVal) (c : ℝ) (hc : ∀ x, c ≤ f x) :
    ∃ st, optimizeAcc (gdEnv so P) o (fuel + 1) mi w s x0 = .ok st ∧ ∃ t ∈ st.trace,
      dotR (clampVec so.gradClip (G t.x)) (clampVec so.gradClip (G t.x)) ≤ (f x0 - c) / (so.lr * (1 - K * so.lr / 2)) / N := by
  have hpos : 0 < so.lr * (1 - K * so.lr / 2) := by
    have : 0 < 1 - K * so.lr / 2 := by linarith
    positivity
  obtain ⟨st, e, h1, h2⟩ := C60_gd_run h hf hsq hlr hK hclip s hs fuel mi N hN w x0 hx0
  refine ⟨st, e, ?_⟩
  have hlen1 : 1 ≤ st.trace.length := by
    obtain ⟨m', st0, -, -, -, hl, hst⟩ := run_inv (I := fun _ => True) (J := fun _ => True) (fun _ _ _ _ _ _ => ⟨fun _ => trivial, trivial⟩) trivial trivial e
    have e2 : st.trace = st0.trace := by rw [hst]
    rw [e2]; exact hl.2.2
  have hNpos : (0 : ℝ) < N := by
    obtain ⟨m', st0, hm', -, -, hl, hst⟩ := run_inv (I := fun _ => True) (J := fun _ => True) (fun _ _ _ _ _ _ => ⟨fun _ => trivial, trivial⟩) trivial trivial e
    rw [hN] at hm'
    injection hm' with hm'
    subst hm'
    have : (0 : Int) < N := by omega
    exact_mod_cast this
  by_cases hz : ∃ t ∈ st.trace, G t.x = 0
  · obtain ⟨t, ht, h0⟩ := hz
    refine ⟨t, ht, ?_⟩
    have h3 : dotR (clampVec so.gradClip (G t.x)) (clampVec so.gradClip (G t.x)) = 0 := by
      rw [(clampVec_eq_zero hclip).2 h0]; simp [dotR]
    rw [h3]
    have := hc x0
    exact div_nonneg (div_nonneg (by linarith) hpos.le) hNpos.le
  · push Not at hz
    have hlen := quiet_run hq e hN fun t ht => succ_dx e t ht ((h1 t ht).2.1 (hz t ht)).1
    have hlenR : (st.trace.length : ℝ) = N := by exact_mod_cast hlen
    by_contra hcon
    push Not at hcon
    have hne : st.trace ≠ [] := List.ne_nil_of_length_pos hlen1
    have h4 := List.sum_lt_sum_of_ne_nil hne (fun _ => (f x0 - c) / N) (fun t => gdGain so G K t.x) fun t ht => by
      have := mul_lt_mul_of_pos_left (hcon t ht) hpos
      have e1 : so.lr * (1 - K * so.lr / 2) * ((f x0 - c) / (so.lr * (1 - K * so.lr / 2)) / N) = (f x0 - c) / N := by
        rw [mul_div_assoc', mul_div_cancel₀ _ hpos.ne']
      rw [e1] at this
      exact this
    rw [List.map_const', List.sum_replicate, nsmul_eq_mul, hlenR, mul_div_cancel₀ _ hNpos.ne'] at h4
    have := hc st.x
    linarith

end
end

/-- hypotheses of the theorems above: those of C70, C71, C67, C60 (see there), and options without stop criteria and a given number of iterations -/
example (k : Nat) (hk : k < 1000) : Quiet (optsR (k + 1)) ∧ loopBound (optsR (k + 1)) (-1) = some ((k : Int) + 2) := by
  refine ⟨optsR_quiet _, ?_⟩
  have h6 : ¬ ((k : Int) + 1 + 1 + 1 > intMax) := by unfold intMax; omega
  simp only [loopBound, optsR]
  push_cast
  simp [h6]
  omega

/-- a run of Gauss-Newton on `x² = 4` from `x = 2.2`: after `N` iterations the residual is at most `9 (1/10) ^ (2 ^ N)` -/
example (k : Nat) (hk : k < 1000) : ∃ st, optimizeAcc (gnEnv soptsR someLinAlg (nlsProb root4 root4J)) (optsR (k + 1)) 1 (-1) ()
      (gnFresh (nlsProb root4 root4J) (fun _ => 0) (fun _ _ => 0)) (fun _ => 22 / 10) = .ok st ∧
    nrm (root4 st.x) ≤ 9 * (1 / 10) ^ 2 ^ (k + 2) := by
  have hl : loopBound (optsR (k + 1)) (-1) = some ((k : Int) + 2) := by
    have h6 : ¬ ((k : Int) + 1 + 1 + 1 > intMax) := by unfold intMax; omega
    simp only [loopBound, optsR]
    push_cast
    simp [h6]
    omega
  have hn : nrm (root4 fun _ => 22 / 10) = 84 / 100 := by
    rw [nrm_one]
    have : root4 (fun _ => 22 / 10) 0 = 84 / 100 := by norm_num [root4]
    rw [this]; norm_num
  obtain ⟨-, st, e, h⟩ := C75_gn_newton (o := optsR (k + 1)) (so := soptsR) (LA := someLinAlg) (nlsProb_nls root4 root4J (fun x => nrm (root4 x) ≤ 1) (by decide) (by decide))
    root4_reg (by norm_num) someLinAlg_exact (fun _ _ => Or.inl rfl) (fun _ _ => Or.inl (le_refl _)) rfl (optsR_quiet _)
    (gnFresh (nlsProb root4 root4J) (fun _ => 0) (fun _ _ => 0)) (Or.inl rfl) 0 (-1) _ hl () (fun _ => 22 / 10) (by rw [hn]; norm_num) (by
      have : dotR (root4 fun _ => 22 / 10) (root4 fun _ => 22 / 10) = 441 / 625 := by
        simp [dotR, root4]; norm_num
      show nCost soptsR 1 (dotR (root4 fun _ => 22 / 10) (root4 fun _ => 22 / 10)) < 2 ^ 1024
      rw [this]
      simp [nCost, normalizeCost, soptsR]
      exact lt_of_lt_of_le (by norm_num : (441 / 625 : ℝ) < 2 ^ 3) (pow_le_pow_right₀ (by norm_num) (by norm_num)))
  refine ⟨st, e, ?_⟩
  rw [hn, show ((k : Int) + 2).toNat = k + 2 by omega] at h
  have h2 : (2 * (1 / 3 : ℝ) ^ 2 / 2 * (84 / 100)) ^ 2 ^ (k + 2) ≤ (1 / 10) ^ 2 ^ (k + 2) := pow_le_pow_left₀ (by norm_num) (by norm_num) _
  have h3 := h.trans h2
  linarith

end Verif
