import Verif.Lemmas.Contracting
import Verif.Props.LmNonlin
import Verif.Props.LmRate
import Verif.Props.GdRuns
/-!
# C118: Levenberg-Marquardt and Gauss-Newton end as converged; the tests tests/simple.cpp and tests/sparse.cpp for all starting points
-/

set_option linter.unusedSectionVars false

namespace Verif
open FloatOps Loss

section
variable {R W : Type} {m n : Nat}
variable {so : SolverOpts ℝ} {LA : LinAlg ℝ} {P : Problem ℝ R W (Vec ℝ n)} {o : Options ℝ W (DVec ℝ)}
variable {Ω : Vec ℝ n → Prop} {r : Vec ℝ n → Vec ℝ m} {J : Vec ℝ n → Fin m → Fin n → ℝ} {φ : ℝ → ℝ}

/-- a Levenberg-Marquardt solver that builds a new system: what it delivers -/
theorem lm_rebuild_delivers (h : NonlinLS P Ω r J φ) (hL : ExactLinAlg LA) (hone : so.useLdlt = true ∨ P.dims ≠ some 1) (hr0 : so.dampLo ≤ so.dampHi)
    (hclip : so.gradClip = 0) (w : W) (s : LMState ℝ R) (hs : P.dims = none ∨ s.gn.n = n) (hreb : s.rebuild = true) (hl0 : 0 ≤ s.lambda)
    (x : Vec ℝ n) (hΩ : Ω x) (hpd : PD (dampedR s.lambda (gram (J x)))) (hmin : DiagOk so (gram (J x)))
    (hx : nCost so m (φ (dotR (r x) (r x))) ≠ maxVal) :
    ∃ c dx, Delivers (lmEnv so LA P) w s x { s with gn := ⟨n, tmv (J x) (r x), dampedR s.lambda (gram (J x)), c⟩ } ⟨n, dx⟩ ∧
      c.cost = nCost so m (φ (dotR (r x) (r x))) ∧ mv (dampedR s.lambda (gram (J x))) dx = -tmv (J x) (r x) := by
  have hone' : ∀ H : Mat ℝ n, Solves so (P.dims == some 1) H := by
    intro H
    rcases hone with h1 | h1
    · exact Or.inl h1
    · right; left
      rw [beq_eq_false_iff_ne]; exact h1
  have hgood : ∀ (s2 : LMState ℝ R) q, ∃ s', lmGood so s2 q = .ok s' := by
    intro s2 q; unfold lmGood; rw [stdClamp_real hr0]; exact ⟨_, rfl⟩
  have hbad : ∀ (s2 : LMState ℝ R), ∃ s', lmBad so s2 = .ok s' := by
    intro s2; unfold lmBad; rw [stdClamp_real hr0]; exact ⟨_, rfl⟩
  obtain ⟨g1, w1, hr, hn1, -⟩ := resize_works h.toVecParams w s.gn hs
  obtain ⟨c, w2, hb, hc, hv⟩ := nls_build h hclip w1 g1 hn1 x hΩ hmin hx
  have hr' : (lmSolver so LA P).resize w s n = (.done { s with gn := g1 }, w1) := by
    simp only [lmSolver, hr]
  have hb' : lmBuild so P w1 { s with gn := g1 } x = (true, { s with gn := ⟨n, tmv (J x) (r x), dampedR s.lambda (gram (J x)), c⟩ }, w2) := by
    unfold lmBuild
    simp only [hreb, if_true]
    rw [hb]
    simp only [if_true]
    have := lmDamp_ls (R := R) (s := s) hreb hl0 (g := tmv (J x) (r x)) (H := gram (J x)) (c := c)
    rw [hreb] at this
    rw [this]
  obtain ⟨v, h1, h2⟩ := gnSolve_pd (so := so) hL (P.dims == some 1) ⟨n, tmv (J x) (r x), dampedR s.lambda (gram (J x)), c⟩ hv hpd (hone' _)
  exact ⟨c, v, ⟨⟨_, w1, w2, resizeIfNeeded_works h.toVecParams hr', hb'⟩, h1, rfl, rfl, fun q => hgood _ q, hbad _⟩, hc, h2⟩

/-- the same for Gauss-Newton -/
theorem gn_rebuild_delivers (h : NonlinLS P Ω r J φ) (hL : ExactLinAlg LA) (hclip : so.gradClip = 0) (w : W) (s : GNState ℝ R) (hs : P.dims = none ∨ s.n = n)
    (x : Vec ℝ n) (hΩ : Ω x) (hpd : PD (gram (J x))) (hone : Solves so (P.dims == some 1) (gram (J x))) (hmin : DiagOk so (gram (J x)))
    (hx : nCost so m (φ (dotR (r x) (r x))) ≠ maxVal) :
    ∃ c dx, Delivers (gnEnv so LA P) w s x ⟨n, tmv (J x) (r x), gram (J x), c⟩ ⟨n, dx⟩ ∧ c.cost = nCost so m (φ (dotR (r x) (r x))) ∧
      mv (gram (J x)) dx = -tmv (J x) (r x) := by
  obtain ⟨s1, w1, hr, hn1, -⟩ := resize_works h.toVecParams w s hs
  obtain ⟨c, w2, hb, hc, hv⟩ := nls_build h hclip w1 s1 hn1 x hΩ hmin hx
  obtain ⟨v, h1, h2⟩ := gnSolve_pd (so := so) hL (P.dims == some 1) ⟨n, tmv (J x) (r x), gram (J x), c⟩ hv hpd hone
  exact ⟨c, v, ⟨⟨s1, w1, w2, resizeIfNeeded_works h.toVecParams hr, hb⟩, h1, rfl, rfl, fun q => ⟨_, rfl⟩, ⟨_, rfl⟩⟩, hc, h2⟩

/-- `d` solves the system at `x` with a damping of at most `l0` -/
def DampedStep (r : Vec ℝ n → Vec ℝ m) (J : Vec ℝ n → Fin m → Fin n → ℝ) (l0 : ℝ) (x d : Vec ℝ n) : Prop :=
  ∃ l, 0 ≤ l ∧ l ≤ l0 ∧ mv (dampedR l (gram (J x))) d = -tmv (J x) (r x)

/-- What is needed of the residuals on a region `Ω`: the Jacobian has linearly independent columns, steps with a damping of at most `l0` stay in the region, lower the norm of the residuals, and bring an error
measure `ε` down by the factor `q`; they are at most `K ε` long. -/
structure LsRegion (r : Vec ℝ n → Vec ℝ m) (J : Vec ℝ n → Fin m → Fin n → ℝ) (l0 : ℝ) (Ω : Vec ℝ n → Prop) (ε : Vec ℝ n → ℝ) (q K : ℝ) : Prop where
  inj : ∀ x, Ω x → ∀ v, mv (J x) v = 0 → v = 0
  stay : ∀ x d, Ω x → DampedStep r J l0 x d → Ω (x + d)
  dec : ∀ x d, Ω x → DampedStep r J l0 x d → d ≠ 0 → nrm (r (x + d)) < nrm (r x)
  con : ∀ x d, Ω x → DampedStep r J l0 x d → ε (x + d) ≤ q * ε x
  len : ∀ x d, Ω x → DampedStep r J l0 x d → nrm d ≤ K * ε x
  nonneg : ∀ x, Ω x → 0 ≤ ε x

variable {l0 q K : ℝ} {ε : Vec ℝ n → ℝ}

/-- what a run that converged looks like: at most `N + 1` iterations, all accepted, each with a step damped by at most `l0` (`r` residuals, `J` Jacobian); the criterion that is reported holds at the
last of them -/
def EndsConverged (so : SolverOpts ℝ) (o : Options ℝ W (DVec ℝ)) (φ : ℝ → ℝ) (r : Vec ℝ n → Vec ℝ m) (J : Vec ℝ n → Fin m → Fin n → ℝ) (Ω : Vec ℝ n → Prop) (l0 : ℝ) (N : Nat) (x0 : Vec ℝ n)
    (out : Output ℝ R (DMat ℝ)) (tr : List (Rec ℝ R (Vec ℝ n) (DVec ℝ) (DMat ℝ))) (x : Vec ℝ n) : Prop :=
  out.converged = true ∧ tr.length ≤ N + 1 ∧
    (∀ i t, tr[i]? = some t → Ω t.x ∧ t.succ = true ∧ DampedStep r J l0 t.x (t.xNext - t.x) ∧
      (i + 1 < tr.length → o.minStepNorm2 ≤ nrm (t.xNext - t.x) ^ 2)) ∧
    Path x0 tr x ∧
    ∃ t, tr.getLast? = some t ∧ x = t.xNext ∧
      ConvergedFrom o (bestBefore (fun x => nCost so m (φ (dotR (r x) (r x)))) tr (tr.length - 1)) (nCost so m (φ (dotR (r t.x) (r t.x)))) (nrm (t.xNext - t.x) ^ 2)
        (nrm (tmv (J t.x) (r t.x)) ^ 2) out.stop

theorem ls_region_run {S : Type} {E : Env ℝ R W S (Vec ℝ n) (DVec ℝ) (DMat ℝ)} (hplus : ∀ x v, E.plusEq x ⟨n, v⟩ = x + v) (hnorm : ∀ v : Vec ℝ n, E.normSq ⟨n, v⟩ = nrm v ^ 2)
    (h : NonlinLS P Ω r J φ) (hr : LsRegion r J l0 Ω ε q K) (ho : Unwatched o) (hms : 0 < o.minStepNorm2) (hq : 0 ≤ q) (hK : 0 ≤ K)
    {x0 : Vec ℝ n} (hx : Ω x0) (hx0 : nCost so m (φ (dotR (r x0) (r x0))) < maxVal) {N : Nat} (hN : (K * (q ^ N * ε x0)) ^ 2 < o.minStepNorm2) {Ok : S → Prop}
    (hdel : ∀ w s x, Ω x → nCost so m (φ (dotR (r x) (r x))) ≠ maxVal → Ok s → ∃ s2 d, Delivers E w s x s2 ⟨n, d⟩ ∧ (E.sol.cost s2).cost = nCost so m (φ (dotR (r x) (r x))) ∧
      E.sol.gradSq s2 = nrm (tmv (J x) (r x)) ^ 2 ∧ DampedStep r J l0 x d ∧
      Ok (E.sol.rebuild s2 true) ∧ ∀ q s3, (o.useStepQuality = false → q = 0) → E.sol.goodStep s2 q = .ok s3 → Ok (E.sol.rebuild s3 true))
    {fuel : Nat} {mi M : Int} (hm : loopBound o mi = some M) (hNm : (N : Int) < M) {w : W} {s : S} (hs : Ok s) :
    ∃ st, optimizeAcc E o (fuel + 1) mi w s x0 = .ok st ∧ EndsConverged so o φ r J Ω l0 N x0 st.out st.trace st.x ∧
      (∀ i t, st.trace[i]? = some t → ε t.x ≤ q ^ i * ε x0) := by
  obtain ⟨st, e, h1, h2, t, d, h3, h4, h5, h6⟩ := contracting_run (E := E) (o := o) (C := fun x => nCost so m (φ (dotR (r x) (r x)))) (g2 := fun x => nrm (tmv (J x) (r x)) ^ 2)
    (Ok := Ok) (T := fun x d => ∃ v, d = ⟨n, v⟩ ∧ DampedStep r J l0 x v) (N := N) (x0 := x0)
    (Lvl := fun i x => Ω x ∧ nCost so m (φ (dotR (r x) (r x))) < maxVal ∧ ε x ≤ q ^ i * ε x0) ho (by simpa using hms)
    (fun i w s x _ hl hok => by
      obtain ⟨s2, d, a1, a2, a3, a4, a5, a6⟩ := hdel w s x hl.1 hl.2.1.ne hok
      exact ⟨s2, ⟨n, d⟩, a1, a2, a3, ⟨d, rfl, a4⟩, a5, fun q s3 hq => a6 q s3 (by simpa using hq)⟩)
    (fun i x d _ hl hT hns => by
      obtain ⟨v, rfl, hv⟩ := hT
      rw [hplus]
      rw [hnorm, RealOps.lt_eq_false] at hns
      have hv0 : v ≠ 0 := by
        rintro rfl
        rw [nrm_zero] at hns
        norm_num at hns
        linarith
      have hdec := hr.dec x v hl.1 hv hv0
      have hc := h.nCost_lt (so := so) hdec
      refine ⟨⟨hr.stay x v hl.1 hv, hc.trans hl.2.1, ?_⟩, by simpa using hc⟩
      have b1 := hr.con x v hl.1 hv
      have b2 := mul_le_mul_of_nonneg_left hl.2.2 hq
      rw [pow_succ]; linarith)
    (fun x d hl hT => by
      obtain ⟨v, rfl, hv⟩ := hT
      rw [hnorm, RealOps.lt_eq]
      refine lt_of_le_of_lt (pow_le_pow_left₀ (nrm_nonneg _) ((hr.len x v hl.1 hv).trans ?_) 2) hN
      exact mul_le_mul_of_nonneg_left hl.2.2 hK)
    ⟨hx, hx0, by simp⟩ (by simpa using hx0) (fuel := fuel) hm hNm (w := w) hs
  refine ⟨st, e, ⟨h6.converged rfl, h1, fun i t ht => ?_, run_path e, t, h3, ?_, ?_⟩, fun i t ht => (h2 i t ht).1.2.2⟩
  · obtain ⟨a1, a2, d', a3, ⟨v, rfl, hv⟩, a5, a6⟩ := h2 i t ht
    rw [hplus] at a5
    rw [a5, add_sub_cancel_left]
    refine ⟨a1.1, a2, hv, fun hi => ?_⟩
    have := a6 hi
    rwa [hnorm, RealOps.lt_eq_false] at this
  all_goals
    have hl : st.trace[st.trace.length - 1]? = some t := by rw [← List.getLast?_eq_getElem?]; exact h3
    obtain ⟨-, -, d', a3, ⟨v, rfl, -⟩, a5, -⟩ := h2 _ _ hl
    rw [h4] at a3
    obtain rfl := Option.some.inj a3
  · rw [h5, a5]
  · rw [hplus] at a5
    rw [a5, add_sub_cancel_left, ← hnorm]
    exact h6

/-- **C118, Levenberg-Marquardt.** On a region where damped steps lower the norm of the residuals and contract an error measure by the factor `q`, a run of Levenberg-Marquardt with a stop criterion on the
length of the steps accepts all steps and ends as converged, within `N + 1` iterations as soon as `(K q^N ε(x0))²` is below the limit. The damping starts at most at `l0` and good steps do not raise it. -/
theorem C118_lm_converges (h : NonlinLS P Ω r J φ) (hr : LsRegion r J l0 Ω ε q K) (hL : ExactLinAlg LA) (hone : so.useLdlt = true ∨ P.dims ≠ some 1)
    (hr0 : so.dampLo ≤ so.dampHi) (hlo : 0 ≤ so.dampLo) (hl0 : so.dampLo ≤ l0) (hmin : ∀ x, Ω x → DiagOk so (gram (J x))) (hclip : so.gradClip = 0)
    (hg0 : 0 ≤ so.goodFactor) (hg1 : so.goodFactor ≤ 1) (hsq : o.useStepQuality = false)
    (ho : Unwatched o) (hms : 0 < o.minStepNorm2) (hq : 0 ≤ q) (hK : 0 ≤ K) {x0 : Vec ℝ n} (hx : Ω x0) (hx0 : nCost so m (φ (dotR (r x0) (r x0))) < maxVal)
    {N : Nat} (hN : (K * (q ^ N * ε x0)) ^ 2 < o.minStepNorm2)
    (s : LMState ℝ R) (hs : P.dims = none ∨ s.gn.n = n) (hreb : s.rebuild = true) (hs0 : 0 ≤ s.lambda) (hsl : s.lambda ≤ l0) (hbf : s.badF = so.badFactor)
    (fuel : Nat) (mi M : Int) (hm : loopBound o mi = some M) (hNm : (N : Int) < M) (w : W) :
    ∃ st, optimizeAcc (lmEnv so LA P) o (fuel + 1) mi w s x0 = .ok st ∧ EndsConverged so o φ r J Ω l0 N x0 st.out st.trace st.x ∧
      (∀ i t, st.trace[i]? = some t → ε t.x ≤ q ^ i * ε x0) := by
  have hn2 : ∀ v : Vec ℝ n, sqNorm v = nrm v ^ 2 := fun v => by rw [sqNorm_eq, nrm_sq]
  refine ls_region_run (E := lmEnv so LA P) h.plus hn2 h hr ho hms hq hK hx hx0 hN
    (Ok := fun s : LMState ℝ R => (P.dims = none ∨ s.gn.n = n) ∧ s.rebuild = true ∧ 0 ≤ s.lambda ∧ s.lambda ≤ l0 ∧ s.badF = so.badFactor)
    (fun w s x hΩ hxm hok => ?_) hm hNm ⟨hs, hreb, hs0, hsl, hbf⟩
  obtain ⟨b1, b2, b3, b4, b5⟩ := hok
  obtain ⟨c, d, hd, hc, hsol⟩ := lm_rebuild_delivers h hL hone hr0 hclip w s b1 b2 b3 x hΩ (damped_pd' (gram_pd (hr.inj x hΩ)) b3) (hmin x hΩ) hxm
  refine ⟨_, d, hd, hc, hn2 _, ⟨s.lambda, b3, b4, hsol⟩, ⟨Or.inr rfl, rfl, b3, b4, b5⟩, fun q s3 hq0 hg => ?_⟩
  obtain rfl := hq0 hsq
  have hg : lmGood so _ 0 = .ok s3 := hg
  unfold lmGood at hg
  have hsc : goodScale so 0 s.badF = so.goodFactor := by
    unfold goodScale; rw [b5]; simp [ne]
  rw [stdClamp_real hr0, hsc] at hg
  injection hg with hg
  subst hg
  refine ⟨Or.inr rfl, rfl, hlo.trans (le_max_left _ _), max_le hl0 ((min_le_left _ _).trans ?_), rfl⟩
  show s.lambda * so.goodFactor ≤ l0
  nlinarith

/-- **C118, Gauss-Newton**: the same, with steps that are not damped. -/
theorem C118_gn_converges (h : NonlinLS P Ω r J φ) (hr : LsRegion r J 0 Ω ε q K) (hL : ExactLinAlg LA) (hone : ∀ x, Ω x → Solves so (P.dims == some 1) (gram (J x)))
    (hmin : ∀ x, Ω x → DiagOk so (gram (J x))) (hclip : so.gradClip = 0)
    (ho : Unwatched o) (hms : 0 < o.minStepNorm2) (hq : 0 ≤ q) (hK : 0 ≤ K) {x0 : Vec ℝ n} (hx : Ω x0) (hx0 : nCost so m (φ (dotR (r x0) (r x0))) < maxVal)
    {N : Nat} (hN : (K * (q ^ N * ε x0)) ^ 2 < o.minStepNorm2)
    (s : GNState ℝ R) (hs : P.dims = none ∨ s.n = n) (fuel : Nat) (mi M : Int) (hm : loopBound o mi = some M) (hNm : (N : Int) < M) (w : W) :
    ∃ st, optimizeAcc (gnEnv so LA P) o (fuel + 1) mi w s x0 = .ok st ∧ EndsConverged so o φ r J Ω 0 N x0 st.out st.trace st.x ∧
      (∀ i t, st.trace[i]? = some t → ε t.x ≤ q ^ i * ε x0) := by
  have hn2 : ∀ v : Vec ℝ n, sqNorm v = nrm v ^ 2 := fun v => by rw [sqNorm_eq, nrm_sq]
  refine ls_region_run (E := gnEnv so LA P) h.plus hn2 h hr ho hms hq hK hx hx0 hN
    (Ok := fun s : GNState ℝ R => P.dims = none ∨ s.n = n) (fun w s x hΩ hxm hok => ?_) hm hNm hs
  obtain ⟨c, d, hd, hc, hsol⟩ := gn_rebuild_delivers h hL hclip w s hok x hΩ (gram_pd (hr.inj x hΩ)) (hone x hΩ) (hmin x hΩ) hxm
  refine ⟨_, d, hd, hc, hn2 _, ⟨0, le_refl _, le_refl _, by rw [damped_zero]; exact hsol⟩, Or.inr rfl, fun q s3 _ hg => ?_⟩
  injection hg with hg
  subst hg
  exact Or.inr rfl

/-! ### regions -/

variable {A : Fin m → Fin n → ℝ} {b : Vec ℝ m}

/-- linear residuals as residuals -/
theorem LinLS.toNonlin (h : LinLS P A b φ) (Ω : Vec ℝ n → Prop) : NonlinLS P Ω (fun x => mv A x - b) (fun _ => A) φ where
  toVecParams := h.toVecParams
  pos := h.pos
  nonneg := h.nonneg
  mono := h.mono
  full w x _ := h.full w x
  eval w x _ := h.eval w x

/-- a damped step on linear residuals, measured with the diagonal of the Hessian -/
theorem diag_len {H : Mat ℝ n} (hH : PSD H) {l κ : ℝ} (hl : 0 ≤ l) (hκ0 : 0 < κ) (hκ : ∀ v, diagSq H v ≤ κ * dotR v (mv H v)) {e dx : Vec ℝ n}
    (hdx : mv (dampedR l H) dx = -mv H e) : diagSq H dx ≤ 4 * diagSq H e := by
  have hd := fun i => psd_diag hH i
  have h1 := step_contracts hH hl hκ0 hκ hdx
  have h0 := diagSq_nonneg hd e
  have h2 : diagSq H (e + dx) ≤ diagSq H e := by
    have h3 : 0 ≤ l * κ := by positivity
    have h4 := diagSq_nonneg hd (e + dx)
    nlinarith
  have h5 : diagSq H dx ≤ 2 * diagSq H (e + dx) + 2 * diagSq H e := by
    unfold diagSq
    rw [Finset.mul_sum, Finset.mul_sum, ← Finset.sum_add_distrib]
    refine Finset.sum_le_sum fun i _ => ?_
    have h6 := hd i
    simp only [Pi.add_apply]
    nlinarith [mul_nonneg h6 (sq_nonneg (2 * e i + dx i))]
  linarith

/-- linear residuals: the whole space, measured with the diagonal of the Hessian -/
theorem linear_region (hA : ∀ v, mv A v = 0 → v = 0) {κ δ : ℝ} (hκ0 : 0 < κ) (hκ : ∀ v, diagSq (gram A) v ≤ κ * dotR v (mv (gram A) v))
    (hδ : 0 < δ) (hδi : ∀ i, δ ≤ gram A i i) {z : Vec ℝ n} (hz : lsGrad A b z = 0) :
    LsRegion (fun x => mv A x - b) (fun _ => A) l0 (fun _ => True) (fun x => √(diagSq (gram A) (x - z))) (shrink l0 κ) (2 / √δ) := by
  have hpd := gram_pd hA
  have hd := fun i => psd_diag (gram_psd A) i
  have hgx : ∀ x, tmv A (mv A x - b) = mv (gram A) (x - z) := by
    intro x
    have := lsGrad_add (A := A) (b := b) z (x - z)
    rw [add_sub_cancel, hz, zero_add] at this
    exact this
  refine ⟨fun _ _ => hA, fun _ _ _ _ => trivial, fun x d _ hs h0 => ?_, fun x d _ hs => ?_, fun x d _ hs => ?_, fun x _ => Real.sqrt_nonneg _⟩
  all_goals obtain ⟨l, h1, h2, h3⟩ := hs
  · have hg : lsGrad A b x ≠ 0 := by
      intro hg
      have hg : tmv A (mv A x - b) = 0 := hg
      simp only [hg, neg_zero] at h3
      rw [← mv_zero (dampedR l (gram A))] at h3
      exact h0 (pd_inj (damped_pd' hpd h1) h3)
    have := (C52_step_decreases h1 (damped_pd' hpd h1) x d h3).1 hg
    exact Real.sqrt_lt_sqrt (lsCost_nonneg _) this
  · have h3 : mv (dampedR l (gram A)) d = -tmv A (mv A x - b) := h3
    rw [hgx] at h3
    have hc := step_contracts (gram_psd A) h1 hκ0 hκ h3
    have hden : 0 < 1 + l * κ := by positivity
    have h5 := diagSq_nonneg hd (x - z)
    rw [show x + d - z = x - z + d by abel]
    have h4 : diagSq (gram A) (x - z + d) ≤ shrink l κ ^ 2 * diagSq (gram A) (x - z) := by
      unfold shrink
      rw [div_pow, div_mul_eq_mul_div, le_div_iff₀ (by positivity)]; linarith
    calc √(diagSq (gram A) (x - z + d)) ≤ √(shrink l κ ^ 2 * diagSq (gram A) (x - z)) := Real.sqrt_le_sqrt h4
      _ = shrink l κ * √(diagSq (gram A) (x - z)) := by rw [Real.sqrt_mul (sq_nonneg _), Real.sqrt_sq (shrink_nonneg h1 hκ0.le)]
      _ ≤ _ := mul_le_mul_of_nonneg_right (shrink_mono h1 h2 hκ0.le) (Real.sqrt_nonneg _)
  · have h3 : mv (dampedR l (gram A)) d = -tmv A (mv A x - b) := h3
    rw [hgx] at h3
    have hc := diag_len (gram_psd A) h1 hκ0 hκ h3
    have h4 : δ * dotR d d ≤ diagSq (gram A) d := by
      unfold dotR diagSq
      rw [Finset.mul_sum]
      refine Finset.sum_le_sum fun i _ => ?_
      have := mul_le_mul_of_nonneg_right (hδi i) (sq_nonneg (d i))
      nlinarith
    have hs : 0 < √δ := Real.sqrt_pos.2 hδ
    rw [div_mul_eq_mul_div, le_div_iff₀ hs]
    unfold nrm
    rw [← Real.sqrt_mul (dotR_self_nonneg _), show (2 : ℝ) = √4 by rw [show (4 : ℝ) = 2 ^ 2 by norm_num]; exact (Real.sqrt_sq (by norm_num)).symm,
      ← Real.sqrt_mul (by norm_num)]
    refine Real.sqrt_le_sqrt ?_
    nlinarith

/-- nonlinear equations with as many unknowns: the residuals are small with respect to the curvature (C71) -/
theorem newton_region {r : Vec ℝ n → Vec ℝ n} {J : Vec ℝ n → Fin n → Fin n → ℝ} {R0 β L κ : ℝ} (hreg : Regular r J R0 β L) (hβ : 0 ≤ β)
    (hl0 : 0 ≤ l0) (hκ0 : 0 ≤ κ) (hκ : ∀ x v, nrm (r x) ≤ R0 → diagSq (gram (J x)) v ≤ κ * nrm (mv (J x) v) ^ 2)
    (hh : L * β ^ 2 * R0 * (1 + shrink l0 κ) < 2) :
    LsRegion r J l0 (fun x => nrm (r x) ≤ R0) (fun x => nrm (r x)) (shrink l0 κ + L * β ^ 2 * R0 / 2 * (1 - shrink l0 κ ^ 2)) β ∧
      shrink l0 κ + L * β ^ 2 * R0 / 2 * (1 - shrink l0 κ ^ 2) < 1 := by
  have hτ0 := shrink_nonneg hl0 hκ0
  have hτ1 := shrink_lt_one hl0 hκ0
  have hq0 : 0 ≤ L * β ^ 2 := by have := hreg.posL; positivity
  have hω : shrink l0 κ + L * β ^ 2 * R0 / 2 * (1 - shrink l0 κ ^ 2) < 1 := by nlinarith
  have hcτ : L * β ^ 2 * R0 * shrink l0 κ ≤ 1 := by
    generalize L * β ^ 2 * R0 = c at *
    generalize shrink l0 κ = τ at *
    by_cases hc : c ≤ 1
    · nlinarith
    · nlinarith
  have hstep : ∀ x d, nrm (r x) ≤ R0 → DampedStep r J l0 x d →
      nrm (r (x + d)) ≤ (shrink l0 κ + L * β ^ 2 * R0 / 2 * (1 - shrink l0 κ ^ 2)) * nrm (r x) := by
    rintro x d hx ⟨l, h1, h2, h3⟩
    have h4 := mul_le_mul_of_nonneg_left hx hq0
    have := square_step (fun v => hreg.low x v hx) h1 hκ0 hreg.posL (fun v => hκ x v hx) h3 (hreg.taylor x d) (shrink_mono h1 h2 hκ0) hτ1.le
      ((mul_le_mul_of_nonneg_right h4 hτ0).trans hcτ)
    refine this.trans (mul_le_mul_of_nonneg_right ?_ (nrm_nonneg _))
    have h5 : 0 ≤ 1 - shrink l0 κ ^ 2 := by nlinarith
    have := mul_le_mul_of_nonneg_right h4 h5
    linarith
  have hle : ∀ x d, nrm (r x) ≤ R0 → DampedStep r J l0 x d → nrm (r (x + d)) ≤ nrm (r x) := by
    intro x d hx hd
    have := hstep x d hx hd
    have h1 := nrm_nonneg (r x)
    nlinarith
  refine ⟨⟨fun x hx => hreg.inj hx, fun x d hx hd => (hle x d hx hd).trans hx, fun x d hx hd h0 => ?_, hstep, fun x d hx hd => ?_, fun x _ => nrm_nonneg _⟩, hω⟩
  · have h1 : 0 < nrm (r x) := by
      refine nrm_pos fun hr0 => h0 ?_
      obtain ⟨l, h1, h2, h3⟩ := hd
      rw [hr0, show tmv (J x) (0 : Vec ℝ n) = 0 by funext j; simp [tmv], neg_zero, ← mv_zero (dampedR l (gram (J x)))] at h3
      exact pd_inj (damped_pd' (gram_pd (hreg.inj hx)) h1) h3
    have := hstep x d hx hd
    nlinarith
  · obtain ⟨l, h1, h2, h3⟩ := hd
    obtain ⟨-, h4⟩ := damped_model h3
    have h5 : 0 ≤ l * diagSq (gram (J x)) d := mul_nonneg h1 (diagSq_nonneg (fun i => psd_diag (gram_psd (J x)) i) d)
    have h6 : nrm (mv (J x) d) ≤ nrm (r x) := by
      refine le_of_sq_le_sq ?_ (nrm_nonneg _)
      have := sq_nonneg (nrm (r x + mv (J x) d))
      linarith
    exact (hreg.low x d hx).trans (mul_le_mul_of_nonneg_left h6 hβ)

/-! ### default options -/

theorem litR_damp : (999 / 10 ^ 7 : ℝ) ≤ litR (1 / 10 ^ 4) ∧ litR (1 / 10 ^ 4) ≤ 1001 / 10 ^ 7 := by
  have h : 999 / 10 ^ 7 ≤ Fmt.binary32.rnd (1 / 10 ^ 4) ∧ Fmt.binary32.rnd (1 / 10 ^ 4) ≤ 1001 / 10 ^ 7 := by decide +kernel
  have h1 : ((999 / 10 ^ 7 : ℚ) : ℝ) ≤ litR (1 / 10 ^ 4) := Rat.cast_le.2 h.1
  have h2 : litR (1 / 10 ^ 4) ≤ ((1001 / 10 ^ 7 : ℚ) : ℝ) := Rat.cast_le.2 h.2
  constructor
  · refine le_trans (le_of_eq ?_) h1; push_cast; ring
  · refine le_trans h2 (le_of_eq ?_); push_cast; ring

theorem litR_lo : 0 ≤ litR (1 / 10 ^ 9) ∧ litR (1 / 10 ^ 9) ≤ litR (1 / 10 ^ 4) ∧ litR (1 / 10 ^ 9) ≤ litR (10 ^ 9) := by
  have h : 0 ≤ Fmt.binary32.rnd (1 / 10 ^ 9) ∧ Fmt.binary32.rnd (1 / 10 ^ 9) ≤ Fmt.binary32.rnd (1 / 10 ^ 4) ∧ Fmt.binary32.rnd (1 / 10 ^ 9) ≤ Fmt.binary32.rnd (10 ^ 9) := by
    decide +kernel
  refine ⟨?_, Rat.cast_le.2 h.2.1, Rat.cast_le.2 h.2.2⟩
  have : ((0 : ℚ) : ℝ) ≤ litR (1 / 10 ^ 9) := Rat.cast_le.2 h.1
  simpa using this

theorem litR_good : 0 ≤ litR (1 / 3) ∧ litR (1 / 3) ≤ 1 := by
  have h : 0 ≤ Fmt.binary32.rnd (1 / 3) ∧ Fmt.binary32.rnd (1 / 3) ≤ 1 := by decide +kernel
  have h1 : ((0 : ℚ) : ℝ) ≤ litR (1 / 3) := Rat.cast_le.2 h.1
  have h2 : litR (1 / 3) ≤ ((1 : ℚ) : ℝ) := Rat.cast_le.2 h.2
  exact ⟨by simpa using h1, by simpa using h2⟩

theorem litR_rel : litR (1 / 10 ^ 10) ≤ 1 / 2 := by
  have h : Fmt.binary32.rnd (1 / 10 ^ 10) ≤ 1 / 2 := by decide +kernel
  have h2 : litR (1 / 10 ^ 10) ≤ ((1 / 2 : ℚ) : ℝ) := Rat.cast_le.2 h
  refine le_trans h2 (le_of_eq ?_); push_cast; ring

theorem litR_err : litR (1 / 10 ^ 12) ≤ 101 / 10 ^ 14 := by
  have h : Fmt.binary32.rnd (1 / 10 ^ 12) ≤ 101 / 10 ^ 14 := by decide +kernel
  have h2 : litR (1 / 10 ^ 12) ≤ ((101 / 10 ^ 14 : ℚ) : ℝ) := Rat.cast_le.2 h
  refine le_trans h2 (le_of_eq ?_); push_cast; ring

/-- the default options, with any value of `check_final_cost` -/
noncomputable def testOpts (c : Bool) : Options ℝ W (DVec ℝ) := { defaultOptions litR with checkFinalCost := c }

theorem testOpts_unwatched (c : Bool) : Unwatched (testOpts c : Options ℝ W (DVec ℝ)) :=
  ⟨by show lt (ofInt 0) (litR 0) = false; rw [litR_zero]; simp, rfl, rfl⟩

theorem testOpts_bound (c : Bool) : ∃ M, loopBound (testOpts c : Options ℝ W (DVec ℝ)) (-1) = some M ∧ 51 ≤ M := by
  cases c
  · exact ⟨51, rfl, le_refl _⟩
  · exact ⟨52, rfl, by norm_num⟩

/-- a run of a new Levenberg-Marquardt solver with the default options on linear residuals -/
theorem default_linear_run (h : LinLS P A b φ) (hL : ExactLinAlg LA) (hA : ∀ v, mv A v = 0 → v = 0)
    {κ δ : ℝ} (hκ0 : 0 < κ) (hκ : ∀ v, diagSq (gram A) v ≤ κ * dotR v (mv (gram A) v))
    (hδ : 0 < δ) (hδi : ∀ i, δ ≤ gram A i i) {z : Vec ℝ n} (hz : lsGrad A b z = 0) (c : Bool) {x0 : Vec ℝ n}
    (hx0 : nCost (defaultSolverOpts litR) m (φ (lsCost A b x0)) < maxVal) {N : Nat} (hN50 : N ≤ 50)
    (hN : 4 * (shrink (litR (1 / 10 ^ 4)) κ ^ N) ^ 2 * diagSq (gram A) (x0 - z) < 99 / 10 ^ 16 * δ)
    (g : Vec ℝ (P.dims.getD 0)) (H : Mat ℝ (P.dims.getD 0)) (fuel : Nat) (w : W) :
    ∃ st, optimizeAcc (lmEnv (defaultSolverOpts litR) LA P) (testOpts c) (fuel + 1) (-1) w (lmFresh (defaultSolverOpts litR) P g H) x0 = .ok st ∧
      EndsConverged (W := W) (defaultSolverOpts litR) (testOpts c) φ (fun x => mv A x - b) (fun _ => A) (fun _ => True) (litR (1 / 10 ^ 4)) N x0 st.out st.trace st.x ∧
      (∀ i t, st.trace[i]? = some t → √(diagSq (gram A) (t.x - z)) ≤ shrink (litR (1 / 10 ^ 4)) κ ^ i * √(diagSq (gram A) (x0 - z))) := by
  obtain ⟨hd1, hd2⟩ := litR_damp
  have hl0 : 0 ≤ litR (1 / 10 ^ 4) := le_trans (by norm_num) hd1
  obtain ⟨M, hM, hM51⟩ := testOpts_bound (W := W) c
  have hms : (0 : ℝ) < (testOpts c : Options ℝ W (DVec ℝ)).minStepNorm2 := lt_of_lt_of_le (by norm_num) litR_step.1
  have hsz : P.dims = none ∨ (lmFresh (defaultSolverOpts litR) P g H).gn.n = n := by
    rcases h.size with hd | hd
    · right; show P.dims.getD 0 = n; rw [hd]; rfl
    · exact Or.inl hd.1
  refine C118_lm_converges (h.toNonlin _) (linear_region (l0 := litR (1 / 10 ^ 4)) hA hκ0 hκ hδ hδi hz) hL (Or.inl rfl) (show litR (1 / 10 ^ 9) ≤ litR (10 ^ 9) from litR_lo.2.2)
    (show 0 ≤ litR (1 / 10 ^ 9) from litR_lo.1) (show litR (1 / 10 ^ 9) ≤ _ from litR_lo.2.1) (fun _ _ => Or.inl (show litR 0 ≤ 0 from litR_zero.le)) (show litR 0 = 0 from litR_zero)
    (show 0 ≤ litR (1 / 3) from litR_good.1) (show litR (1 / 3) ≤ 1 from litR_good.2) rfl (testOpts_unwatched c) hms (shrink_nonneg hl0 hκ0.le) (by positivity) trivial hx0
    (N := N) ?_ (lmFresh (defaultSolverOpts litR) P g H) hsz rfl hl0 (le_refl _) rfl fuel (-1) M hM (by omega) w
  have h0 := diagSq_nonneg (fun i => psd_diag (gram_psd A) i) (x0 - z)
  refine lt_of_lt_of_le ?_ litR_step.1
  rw [mul_pow, mul_pow, div_pow, Real.sq_sqrt hδ.le, Real.sq_sqrt h0, div_mul_eq_mul_div, div_lt_iff₀ hδ]
  linarith

/-- **C118, default options on linear residuals.** With the default options Levenberg-Marquardt fits every linear model whose Hessian satisfies `diag H ≤ 1000 H`, from every starting point up to
`1e40` times the length scale of the parameters away: it accepts all steps and ends as converged within its 51 iterations. -/
theorem C118_default_linear (h : LinLS P A b φ) (hL : ExactLinAlg LA) (hA : ∀ v, mv A v = 0 → v = 0)
    (hκ : ∀ v, diagSq (gram A) v ≤ 1000 * dotR v (mv (gram A) v))
    {δ : ℝ} (hδ : 0 < δ) (hδi : ∀ i, δ ≤ gram A i i) {z : Vec ℝ n} (hz : lsGrad A b z = 0) (c : Bool) {x0 : Vec ℝ n}
    (hx0 : nCost (defaultSolverOpts litR) m (φ (lsCost A b x0)) < maxVal) (hfar : diagSq (gram A) (x0 - z) ≤ 10 ^ 80 * δ)
    (g : Vec ℝ (P.dims.getD 0)) (H : Mat ℝ (P.dims.getD 0)) (fuel : Nat) (w : W) :
    ∃ st, optimizeAcc (lmEnv (defaultSolverOpts litR) LA P) (testOpts c) (fuel + 1) (-1) w (lmFresh (defaultSolverOpts litR) P g H) x0 = .ok st ∧ st.out.converged = true ∧
      st.trace.length ≤ 51 ∧ ∀ t ∈ st.trace, t.succ = true := by
  obtain ⟨hd1, hd2⟩ := litR_damp
  have hl0 : 0 ≤ litR (1 / 10 ^ 4) := le_trans (by norm_num) hd1
  have hq : shrink (litR (1 / 10 ^ 4)) 1000 ≤ 1 / 10 := by
    unfold shrink
    rw [div_le_div_iff₀ (by positivity) (by norm_num)]
    linarith
  have hq0 := shrink_nonneg hl0 (by norm_num : (0 : ℝ) ≤ 1000)
  obtain ⟨st, e, ⟨h1, h2, h3, -⟩, -⟩ := default_linear_run h hL hA (by norm_num) hκ hδ hδi hz c hx0 (N := 50) (le_refl _)
    (by
      have h1 : (shrink (litR (1 / 10 ^ 4)) 1000 ^ 50) ^ 2 ≤ 1 / 10 ^ 100 := by
        calc _ ≤ ((1 / 10 : ℝ) ^ 50) ^ 2 := pow_le_pow_left₀ (pow_nonneg hq0 50) (pow_le_pow_left₀ hq0 hq 50) 2
          _ = _ := by norm_num
      have h2 := mul_le_mul h1 hfar (diagSq_nonneg (fun i => psd_diag (gram_psd A) i) (x0 - z)) (by norm_num)
      have h3 : (1 : ℝ) / 10 ^ 100 * (10 ^ 80 * δ) = 1 / 10 ^ 20 * δ := by ring
      rw [h3] at h2
      have : (4 : ℝ) * (1 / 10 ^ 20 * δ) < 99 / 10 ^ 16 * δ := by
        have : (4 : ℝ) * (1 / 10 ^ 20) < 99 / 10 ^ 16 := by norm_num
        nlinarith
      linarith)
    g H fuel w
  refine ⟨st, e, h1, h2, fun t ht => ?_⟩
  obtain ⟨i, hi⟩ := List.getElem?_of_mem ht
  exact (h3 i t hi).2.1

end

/-! ## tests/simple.cpp and tests/sparse.cpp -/

theorem Path.next {F R X V M : Type} : ∀ {l : List (Rec F R X V M)} {x y : X} {i : Nat} {u t : Rec F R X V M}, Path x l y → l[i]? = some u → l[i + 1]? = some t → t.x = u.xNext
  | [], _, _, _, _, _, _, h, _ => by simp at h
  | a :: l, x, y, 0, u, t, hp, hu, ht => by
    obtain ⟨-, hp⟩ := hp
    simp only [List.getElem?_cons_zero, Option.some.injEq] at hu
    subst hu
    cases l with
    | nil => simp at ht
    | cons b l =>
      simp at ht
      subst ht
      exact hp.1
  | a :: l, x, y, i + 1, u, t, hp, hu, ht => by
    obtain ⟨-, hp⟩ := hp
    simp only [List.getElem?_cons_succ] at hu ht
    exact Path.next hp hu ht

section
variable {R W : Type} {n : Nat} {P : Problem ℝ R W (Vec ℝ n)} {LA : LinAlg ℝ}

/-- the Jacobian of the residuals `a x - b`: `a` on the diagonal -/
def diagA (n : Nat) (a : ℝ) : Fin n → Fin n → ℝ := fun i j => if i = j then a else 0

theorem mv_diagA (a : ℝ) (v : Vec ℝ n) : mv (diagA n a) v = a • v := by
  funext i; simp [mv, diagA]

theorem tmv_diagA (a : ℝ) (v : Vec ℝ n) : tmv (diagA n a) v = a • v := by
  funext i; simp [tmv, diagA, mul_comm]

theorem gram_diagA (a : ℝ) : gram (diagA n a) = diagA n (a * a) := by
  funext i j
  simp [gram, diagA, eq_comm]

theorem damped_diagA (l a : ℝ) : dampedR l (diagA n a) = diagA n ((1 + l) * a) := by
  funext i j
  by_cases h : i = j
  · subst h; simp [dampedR, diagA]; ring
  · simp [dampedR, diagA, h]

theorem diagSq_diagA (a : ℝ) (v : Vec ℝ n) : diagSq (diagA n a) v = a * dotR v v := by
  simp [diagSq, diagA, dotR, Finset.mul_sum]
  exact Finset.sum_congr rfl fun i _ => by ring

/-- **C118, two tests for all starting points.** `TestSimpleLM` of tests/simple.cpp (`n = 1`, `a = 1`, minimum 2) and the test `tinyopt_sparse` of tests/sparse.cpp (`n = 100`, `a = 10`, minimum
0.2) minimise the norm of residuals `a (x - z)` with the default options. From every starting point up to `1e150` away the run ends as converged, in at most 42 iterations, all accepted, and the result is within
`1e-9` of `z`; the tests require `1e-5`. -/
theorem C118_tests {a : ℝ} (ha : 1 ≤ a) {z : Vec ℝ n} (h : LinLS P (diagA n a) (a • z) Real.sqrt) (hL : ExactLinAlg LA) (c : Bool)
    {x0 : Vec ℝ n} (hfar : nrm (x0 - z) ≤ 10 ^ 150) (hx0 : a * nrm (x0 - z) < maxVal)
    (g : Vec ℝ (P.dims.getD 0)) (H : Mat ℝ (P.dims.getD 0)) (fuel : Nat) (w : W) :
    ∃ st, optimizeAcc (lmEnv (defaultSolverOpts litR) LA P) (testOpts c) (fuel + 1) (-1) w (lmFresh (defaultSolverOpts litR) P g H) x0 = .ok st ∧
      st.out.succeeded = true ∧ st.out.converged = true ∧ st.trace.length ≤ 42 ∧ (∀ t ∈ st.trace, t.succ = true) ∧ nrm (st.x - z) ≤ 1 / 10 ^ 9 := by
  obtain ⟨hd1, hd2⟩ := litR_damp
  have hl0 : 0 ≤ litR (1 / 10 ^ 4) := le_trans (by norm_num) hd1
  have ha0 : 0 < a := by linarith
  have haa : 0 < a * a := by positivity
  have hres : ∀ x : Vec ℝ n, mv (diagA n a) x - a • z = a • (x - z) := fun x => by rw [mv_diagA, smul_sub]
  have hcost : ∀ x : Vec ℝ n, √(dotR (mv (diagA n a) x - a • z) (mv (diagA n a) x - a • z)) = a * nrm (x - z) := fun x => by
    have := nrm_smul a (x - z)
    rw [abs_of_pos ha0] at this
    rw [hres]; exact this
  have hn : ∀ y, nCost (defaultSolverOpts litR) n y = y := fun y => by simp [nCost, normalizeCost, defaultSolverOpts]
  have hz : lsGrad (diagA n a) (a • z) z = 0 := by
    unfold lsGrad
    rw [hres, sub_self, smul_zero]; funext i; simp [tmv]
  have hA : ∀ v : Vec ℝ n, mv (diagA n a) v = 0 → v = 0 := fun v hv => by
    rw [mv_diagA] at hv
    exact (smul_eq_zero.1 hv).resolve_left ha0.ne'
  have hq : shrink (litR (1 / 10 ^ 4)) 1 ≤ 1001 / 10 ^ 7 := by
    unfold shrink
    rw [mul_one, div_le_iff₀ (by positivity)]
    nlinarith
  have hq0 := shrink_nonneg hl0 (by norm_num : (0 : ℝ) ≤ 1)
  have hdq : ∀ v : Vec ℝ n, diagSq (gram (diagA n a)) v = a * a * nrm v ^ 2 := fun v => by rw [gram_diagA, diagSq_diagA, nrm_sq]
  obtain ⟨st, e, ⟨h1, h2, h3, h4, t, h5, h6, h7⟩, -⟩ := default_linear_run (A := diagA n a) (z := z) (κ := 1) (δ := a * a) h hL hA one_pos
    (fun v => by rw [hdq, gram_diagA, mv_diagA, dotR_smul, ← nrm_sq, one_mul])
    haa (fun i => by rw [gram_diagA]; simp [diagA]) hz c (x0 := x0) (by rw [hn]; unfold lsCost; rw [hcost]; exact hx0) (N := 41) (by norm_num)
    (by
      rw [hdq]
      have b1 : (shrink (litR (1 / 10 ^ 4)) 1 ^ 41) ^ 2 ≤ ((1001 / 10 ^ 7 : ℝ) ^ 41) ^ 2 := pow_le_pow_left₀ (by positivity) (pow_le_pow_left₀ hq0 hq _) _
      have b2 : nrm (x0 - z) ^ 2 ≤ (10 ^ 150) ^ 2 := pow_le_pow_left₀ (nrm_nonneg _) hfar 2
      have b3 := mul_le_mul b1 b2 (by positivity) (by positivity)
      have b4 : ((1001 / 10 ^ 7 : ℝ) ^ 41) ^ 2 * (10 ^ 150) ^ 2 ≤ 1 / 10 ^ 20 := by norm_num
      have b5 := b3.trans b4
      have b6 := mul_le_mul_of_nonneg_left b5 haa.le
      nlinarith)
    g H fuel w
  have hstep : ∀ x d, DampedStep (fun x => mv (diagA n a) x - a • z) (fun _ => diagA n a) (litR (1 / 10 ^ 4)) x d →
      nrm (x + d - z) ≤ 1001 / 10 ^ 7 * nrm (x - z) ∧ nrm (x - z) ≤ 2 * nrm d := by
    rintro x d ⟨l, c1, c2, c3⟩
    simp only [hres] at c3
    rw [gram_diagA, damped_diagA, mv_diagA, tmv_diagA, smul_smul, ← smul_neg] at c3
    have c4 : (1 + l) • d = -(x - z) := by
      have : (a * a) • ((1 + l) • d) = (a * a) • (-(x - z)) := by rw [smul_smul, mul_comm]; rw [c3, smul_neg]
      exact smul_right_injective _ haa.ne' this
    have c5 : (1 + l) • (x + d - z) = l • (x - z) := by
      rw [show x + d - z = (x - z) + d by abel, smul_add, c4]; module
    have c6 := congrArg nrm c5
    have c7 := congrArg nrm c4
    rw [nrm_smul, nrm_smul, abs_of_nonneg c1, abs_of_nonneg (by linarith : 0 ≤ 1 + l)] at c6
    rw [nrm_smul, nrm_neg, abs_of_nonneg (by linarith : 0 ≤ 1 + l)] at c7
    have n1 := nrm_nonneg (x + d - z)
    have n2 := nrm_nonneg d
    have n3 := nrm_nonneg (x - z)
    constructor
    · nlinarith
    · nlinarith
  have hlast : st.trace[st.trace.length - 1]? = some t := by rw [← List.getLast?_eq_getElem?]; exact h5
  obtain ⟨-, -, h8, -⟩ := h3 _ _ hlast
  obtain ⟨h9, h10⟩ := hstep _ _ h8
  rw [add_sub_cancel, ← h6] at h9
  rw [← h6] at h10
  have hsmall : nrm (t.x - z) ≤ 1 / 10 ^ 6 := by
    rw [← h6] at h7
    simp only [hn, hcost] at h7
    revert h7
    generalize st.out.stop = q
    intro h7
    cases h7 with
    | error a1 a2 =>
      rw [RealOps.lt_eq] at a2
      have a3 : a * nrm (t.x - z) < litR (1 / 10 ^ 12) := a2
      have a4 := litR_err
      have := nrm_nonneg (t.x - z)
      nlinarith
    | rel a1 a2 a3 =>
      exfalso
      rw [RealOps.lt_eq] at a2 a3
      have a3 : relDerr _ _ < litR (1 / 10 ^ 10) := a3
      have a4 := litR_rel
      rcases Nat.lt_or_ge 1 st.trace.length with hl | hl
      · obtain ⟨i, hi⟩ : ∃ i, st.trace.length - 1 = i + 1 := ⟨st.trace.length - 2, by omega⟩
        rw [hi] at a2 a3 hlast
        have hu := List.getElem?_eq_getElem (l := st.trace) (i := i) (by omega)
        obtain ⟨-, -, k1, -⟩ := h3 _ _ hu
        obtain ⟨k2, -⟩ := hstep _ _ k1
        have k3 := h4.next hu hlast
        rw [add_sub_cancel, ← k3] at k2
        simp only [bestBefore, hu, Option.map_some, Option.getD_some] at a2 a3
        generalize nrm (st.trace[i].x - z) = B at *
        generalize nrm (t.x - z) = D at *
        unfold relDerr at a2 a3
        split at a3
        next hc =>
          simp only [Bool.and_eq_true, RealOps.lt_eq] at hc
          have hB : 0 < a * B := lt_trans (by show (0 : ℝ) < 1 / 10 ^ 7; norm_num) hc.1
          simp only [RealOps.div_eq, RealOps.sub_eq] at a3
          have := a3.trans_le a4
          rw [div_lt_iff₀ hB] at this
          nlinarith
        next hc =>
          rw [if_neg hc] at a2
          simp at a2
      · rw [show st.trace.length - 1 = 0 by omega] at a2
        simp [bestBefore, relDerr] at a2
    | step a1 a2 =>
      rw [RealOps.lt_eq] at a2
      have a3 : nrm (st.x - t.x) ^ 2 < litR (1 / 10 ^ 14) := a2
      have a4 := litR_step.2
      have a5 : nrm (st.x - t.x) ≤ 2 / 10 ^ 7 := by
        refine le_of_sq_le_sq ?_ (by norm_num)
        have : (101 / 10 ^ 16 : ℝ) ≤ (2 / 10 ^ 7) ^ 2 := by norm_num
        linarith
      linarith
    | grad a1 a2 =>
      rw [RealOps.lt_eq] at a2
      have a3 : nrm (tmv (diagA n a) (mv (diagA n a) t.x - a • z)) ^ 2 < litR (1 / 10 ^ 18) := a2
      rw [hres, tmv_diagA, smul_smul, nrm_smul, abs_of_pos haa] at a3
      have a4 := litR_grad.2
      have a5 : a * a * nrm (t.x - z) ≤ 2 / 10 ^ 9 := by
        refine le_of_sq_le_sq ?_ (by norm_num)
        have : (101 / 10 ^ 20 : ℝ) ≤ (2 / 10 ^ 9) ^ 2 := by norm_num
        linarith
      have := nrm_nonneg (t.x - z)
      have : (1 : ℝ) ≤ a * a := by nlinarith
      nlinarith
  refine ⟨st, e, ?_, h1, h2, fun t ht => ?_, ?_⟩
  · revert h7
    unfold Output.succeeded
    generalize st.out.stop = q
    intro h7
    cases h7 <;> decide
  · obtain ⟨i, hi⟩ := List.getElem?_of_mem ht
    exact (h3 i t hi).2.1
  · have := nrm_nonneg (t.x - z)
    refine h9.trans ?_
    nlinarith

end

/-! ### non-vacuity -/

/-- the problem of the two tests: cost is the norm of the residuals; size known at compile time or not -/
noncomputable def normProb {m n : Nat} (d : Option Nat) (A : Fin m → Fin n → ℝ) (b : Vec ℝ m) : Problem ℝ ℝ Unit (Vec ℝ n) :=
  { lsProb A b with
    dims := d
    acc :=
      { full := fun w x k g H => (({ cost := √(lsCost A b x), num := m, inlier := 1 },
          fun i => if h : i.1 < n then g i + lsGrad A b x ⟨i.1, h⟩ else g i,
          fun i j => if h : i.1 < n ∧ j.1 < n then H i j + gram A ⟨i.1, h.1⟩ ⟨j.1, h.2⟩ else H i j), w)
        eval := fun w x => ({ cost := √(lsCost A b x), num := m, inlier := 1 }, w) } }

theorem normProb_ls {m n : Nat} (d : Option Nat) (hd : d = none ∨ d = some n) (A : Fin m → Fin n → ℝ) (b : Vec ℝ m) (hm : 0 < m) (hn : 0 < n) :
    LinLS (normProb d A b) A b Real.sqrt where
  pos := hm
  nonneg := fun _ _ => Real.sqrt_nonneg _
  mono := fun _ _ h h' => Real.sqrt_lt_sqrt h h'
  full w x := ⟨{ cost := √(lsCost A b x), num := m, inlier := 1 }, w, by
    simp only [normProb]
    congr 3
    · funext i; simp
    · funext i j; simp, rfl, rfl⟩
  eval w x := ⟨rfl, rfl⟩
  dyn x := rfl
  size := by
    rcases hd with rfl | rfl
    · exact Or.inr ⟨rfl, hn, fun w k => ⟨_, _, rfl⟩⟩
    · exact Or.inl rfl
  plus x v := by funext i; simp [normProb, lsProb]

theorem big_start {a e : ℝ} (ha : a ≤ 10 ^ 100) (he : e ≤ 10 ^ 150) (h0 : 0 ≤ e) : a * e < (maxVal : ℝ) := by
  have h1 : a * e ≤ 10 ^ 100 * 10 ^ 150 := mul_le_mul ha he h0 (by norm_num)
  have h2 : (10 : ℝ) ^ 100 * 10 ^ 150 < (10 ^ 3) ^ 100 := by norm_num
  have h3 : ((10 : ℝ) ^ 3) ^ 100 ≤ ((2 : ℝ) ^ 10) ^ 100 := pow_le_pow_left₀ (by norm_num) (by norm_num) _
  have h4 : ((2 : ℝ) ^ 10) ^ 100 ≤ 2 ^ 1024 := by rw [← pow_mul]; exact pow_le_pow_right₀ (by norm_num) (by norm_num)
  exact lt_of_le_of_lt h1 (lt_of_lt_of_le h2 (h3.trans h4))

/-- `TestSimpleLM` of tests/simple.cpp: `x - 2`, one parameter of static size, from every starting point up to `1e150` away -/
example (x0 : Vec ℝ 1) (h : nrm (x0 - fun _ => 2) ≤ 10 ^ 150) :
    ∃ st, optimizeAcc (lmEnv (defaultSolverOpts litR) someLinAlg (normProb (some 1) (diagA 1 1) ((1 : ℝ) • fun _ => 2))) (testOpts false) 1 (-1) ()
        (lmFresh (defaultSolverOpts litR) (normProb (some 1) (diagA 1 1) ((1 : ℝ) • fun _ => 2)) (fun _ => 0) (fun _ _ => 0)) x0 = .ok st ∧ st.out.succeeded = true ∧ st.out.converged = true ∧ |st.x 0 - 2| ≤ 1 / 10 ^ 9 := by
  obtain ⟨st, e, h1, h2, -, -, h3⟩ := C118_tests (le_refl _) (normProb_ls (some 1) (Or.inr rfl) (diagA 1 1) ((1 : ℝ) • fun _ => 2) (by norm_num) (by norm_num)) someLinAlg_exact
    false h (big_start (by norm_num) h (nrm_nonneg _)) (fun _ => 0) (fun _ _ => 0) 0 ()
  rw [nrm_one] at h3
  exact ⟨st, e, h1, h2, h3⟩

/-- the first test of tests/sparse.cpp: `10 x - 2`, 100 parameters of dynamic size -/
example (x0 : Vec ℝ 100) (h : nrm (x0 - fun _ => 1 / 5) ≤ 10 ^ 150) :
    ∃ st, optimizeAcc (lmEnv (defaultSolverOpts litR) someLinAlg (normProb none (diagA 100 10) ((10 : ℝ) • fun _ => 1 / 5))) (testOpts false) 1 (-1) ()
        (lmFresh (defaultSolverOpts litR) (normProb none (diagA 100 10) ((10 : ℝ) • fun _ => 1 / 5)) (fun _ => 0) (fun _ _ => 0)) x0 = .ok st ∧ st.out.succeeded = true ∧ st.out.converged = true ∧ nrm (st.x - fun _ => 1 / 5) ≤ 1 / 10 ^ 9 := by
  obtain ⟨st, e, h1, h2, -, -, h3⟩ := C118_tests (by norm_num) (normProb_ls none (Or.inl rfl) (diagA 100 10) ((10 : ℝ) • fun _ => 1 / 5) (by norm_num) (by norm_num)) someLinAlg_exact
    false h (big_start (by norm_num) h (nrm_nonneg _)) (fun _ => 0) (fun _ _ => 0) 0 ()
  exact ⟨st, e, h1, h2, h3⟩

/-- `C118_default_linear` on the fit of a line to three points -/
example : ∃ st, optimizeAcc (lmEnv (defaultSolverOpts litR) someLinAlg (lsProb line3 line3b)) (testOpts true) 1 (-1) ()
    (lmFresh (defaultSolverOpts litR) (lsProb line3 line3b) (fun _ => 0) (fun _ _ => 0)) 0 = .ok st ∧ st.out.converged = true := by
  have hc : lsCost line3 line3b 0 = 5 := by
    simp [lsCost, dotR, mv, line3, line3b, Fin.sum_univ_succ]; norm_num
  obtain ⟨st, e, h, -⟩ := C118_default_linear (lsProb_ls line3 line3b (by decide) (by decide)) someLinAlg_exact line3_rank
    (fun v => by
      simp [diagSq, gram, dotR, mv, line3, Fin.sum_univ_succ]
      norm_num
      nlinarith [sq_nonneg (v 0 + v 1), sq_nonneg (v 0), sq_nonneg (v 1)])
    (δ := 1) one_pos (fun i => by fin_cases i <;> simp [gram, line3, Fin.sum_univ_succ])
    (z := fun i => if i = 0 then 3 / 2 else -1 / 2)
    (by funext i; fin_cases i <;> simp [lsGrad, tmv, mv, line3, line3b, Fin.sum_univ_succ] <;> norm_num)
    true (x0 := 0)
    (by
      show nCost (defaultSolverOpts litR) 3 (lsCost line3 line3b 0) < maxVal
      rw [hc]; simp only [nCost, normalizeCost, defaultSolverOpts]
      exact lt_of_lt_of_le (by norm_num : (5 : ℝ) < 2 ^ 3) (pow_le_pow_right₀ (by norm_num) (by norm_num)))
    (by simp [diagSq, gram, line3, Fin.sum_univ_succ]; norm_num)
    (fun _ => 0) (fun _ _ => 0) 0 ()
  exact ⟨st, e, h⟩

/-- `C118_lm_converges` and `C118_gn_converges` on the equation `x² = 4` started at `2.2` -/
example : ∃ st, optimizeAcc (lmEnv (defaultSolverOpts litR) someLinAlg (nlsProb root4 root4J)) (testOpts false) 1 (-1) ()
    (lmFresh (defaultSolverOpts litR) (nlsProb root4 root4J) (fun _ => 0) (fun _ _ => 0)) (fun _ => 22 / 10) = .ok st ∧ st.out.converged = true ∧
    (∃ st', optimizeAcc (gnEnv (defaultSolverOpts litR) someLinAlg (nlsProb root4 root4J)) (testOpts false) 1 (-1) () ⟨0, fun _ => 0, fun _ _ => 0, { cost := 0, num := 0, inlier := 1 }⟩
      (fun _ => 22 / 10) = .ok st' ∧ st'.out.converged = true) := by
  obtain ⟨hd1, hd2⟩ := litR_damp
  have hl0 : 0 ≤ litR (1 / 10 ^ 4) := le_trans (by norm_num) hd1
  have hκ : ∀ x v, nrm (root4 x) ≤ 1 → diagSq (gram (root4J x)) v ≤ 1 * nrm (mv (root4J x) v) ^ 2 := fun x v _ => by
    rw [nrm_sq]
    simp [diagSq, gram, dotR, mv, root4J]
    apply le_of_eq; ring
  have hq : shrink (litR (1 / 10 ^ 4)) 1 ≤ 1001 / 10 ^ 7 := by
    unfold shrink
    rw [mul_one, div_le_iff₀ (by positivity)]
    nlinarith
  have hq0 := shrink_nonneg hl0 (by norm_num : (0 : ℝ) ≤ 1)
  have hz : shrink 0 1 = 0 := by simp [shrink]
  have hms : (0 : ℝ) < (testOpts false : Options ℝ Unit (DVec ℝ)).minStepNorm2 := lt_of_lt_of_le (by norm_num) litR_step.1
  have hin : nrm (root4 fun _ => 22 / 10) ≤ 1 := by rw [nrm_one]; norm_num [abs_le, root4]
  have hst : nCost (defaultSolverOpts litR) 1 (dotR (root4 fun _ => 22 / 10) (root4 fun _ => 22 / 10)) < maxVal := by
    have : dotR (root4 fun _ => 22 / 10) (root4 fun _ => 22 / 10) = 441 / 625 := by
      simp [dotR, root4]; norm_num
    rw [this]; simp only [nCost, normalizeCost, defaultSolverOpts]
    exact lt_of_lt_of_le (by norm_num : (441 / 625 : ℝ) < 2 ^ 3) (pow_le_pow_right₀ (by norm_num) (by norm_num))
  have hsmall : ∀ q : ℝ, 0 ≤ q → q ≤ 1 / 8 → (1 / 3 * (q ^ 30 * nrm (root4 fun _ => 22 / 10))) ^ 2 < (testOpts false : Options ℝ Unit (DVec ℝ)).minStepNorm2 := by
    intro q h0 h1
    have h2 : q ^ 30 ≤ (1 / 8) ^ 30 := pow_le_pow_left₀ h0 h1 _
    have h3 := mul_le_mul h2 hin (nrm_nonneg _) (by norm_num)
    have h4 : (1 / 3 * (q ^ 30 * nrm (root4 fun _ => 22 / 10))) ^ 2 ≤ (1 / 3 * ((1 / 8) ^ 30 * 1)) ^ 2 :=
      pow_le_pow_left₀ (mul_nonneg (by norm_num) (mul_nonneg (pow_nonneg h0 _) (nrm_nonneg _))) (mul_le_mul_of_nonneg_left h3 (by norm_num)) 2
    exact lt_of_lt_of_le (lt_of_le_of_lt h4 (by norm_num)) litR_step.1
  obtain ⟨hr, -⟩ := newton_region root4_reg (by norm_num) hl0 (by norm_num) hκ (by linarith)
  obtain ⟨hr', -⟩ := newton_region root4_reg (by norm_num) (le_refl (0 : ℝ)) (by norm_num) hκ (by rw [hz]; norm_num)
  have hc : 0 ≤ shrink (litR (1 / 10 ^ 4)) 1 + 2 * (1 / 3) ^ 2 * 1 / 2 * (1 - shrink (litR (1 / 10 ^ 4)) 1 ^ 2) := by nlinarith
  have hc' : shrink (litR (1 / 10 ^ 4)) 1 + 2 * (1 / 3) ^ 2 * 1 / 2 * (1 - shrink (litR (1 / 10 ^ 4)) 1 ^ 2) ≤ 1 / 8 := by nlinarith
  obtain ⟨st, e, h, -⟩ := C118_lm_converges (nlsProb_nls root4 root4J _ (by decide) (by decide)) hr someLinAlg_exact (Or.inl rfl) (show litR (1 / 10 ^ 9) ≤ litR (10 ^ 9) from litR_lo.2.2)
    (show 0 ≤ litR (1 / 10 ^ 9) from litR_lo.1) (show litR (1 / 10 ^ 9) ≤ _ from litR_lo.2.1) (fun _ _ => Or.inl (show litR 0 ≤ 0 from litR_zero.le)) (show litR 0 = 0 from litR_zero)
    (show 0 ≤ litR (1 / 3) from litR_good.1) (show litR (1 / 3) ≤ 1 from litR_good.2) rfl (testOpts_unwatched false) hms hc (by norm_num) hin hst (N := 30) (hsmall _ hc hc')
    (lmFresh (defaultSolverOpts litR) (nlsProb root4 root4J) (fun _ => 0) (fun _ _ => 0)) (Or.inl rfl) rfl hl0 (le_refl _) rfl 0 (-1) 51 rfl (by norm_num) ()
  obtain ⟨st', e', h', -⟩ := C118_gn_converges (nlsProb_nls root4 root4J _ (by decide) (by decide)) hr' someLinAlg_exact (so := defaultSolverOpts litR) (fun _ _ => Or.inl rfl)
    (fun _ _ => Or.inl (show litR 0 ≤ 0 from litR_zero.le)) (show litR 0 = 0 from litR_zero)
    (testOpts_unwatched false) hms (by rw [hz]; norm_num) (by norm_num) hin hst (N := 30) (hsmall _ (by rw [hz]; norm_num) (by rw [hz]; norm_num))
    ⟨0, fun _ => 0, fun _ _ => 0, { cost := 0, num := 0, inlier := 1 }⟩ (Or.inl rfl) 0 (-1) 51 rfl (by norm_num) ()
  exact ⟨st, e, h.1, st', e', h'.1⟩

end Verif
