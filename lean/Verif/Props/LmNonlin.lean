import Verif.Props.GnQuadratic
/-!
# C71: Levenberg-Marquardt and Gauss-Newton on nonlinear least squares
-/

set_option linter.unusedSectionVars false

namespace Verif
open FloatOps Loss

/-! ### the run of Levenberg-Marquardt -/

section
variable {R W : Type} {m n : Nat}
variable {so : SolverOpts ℝ} {LA : LinAlg ℝ} {P : Problem ℝ R W (Vec ℝ n)} {o : Options ℝ W (DVec ℝ)}
variable {Ω : Vec ℝ n → Prop} {r : Vec ℝ n → Vec ℝ m} {J : Vec ℝ n → Fin m → Fin n → ℝ} {φ : ℝ → ℝ}

/-- what is known of the LM solver before a `Build` at `x` -/
def NlReady (r : Vec ℝ n → Vec ℝ m) (J : Vec ℝ n → Fin m → Fin n → ℝ) (s : LMState ℝ R) (x : Vec ℝ n) : Prop :=
  s.rebuild = true ∨ (tmv (J x) (r x) = 0 ∧ 0 ≤ s.prev ∧ ∃ mu c, s.gn = ⟨n, 0, dampedR mu (gram (J x)), c⟩ ∧ s.prev ≤ mu)

theorem nls_lm_delivers (h : NonlinLS P Ω r J φ) (hL : ExactLinAlg LA) (hone : so.useLdlt = true ∨ P.dims ≠ some 1) (hr0 : so.dampLo ≤ so.dampHi)
    (hlo : 0 ≤ so.dampLo) (hin : 0 ≤ so.dampInit) (hclip : so.gradClip = 0) (w : W) (s : LMState ℝ R) (hs : P.dims = none ∨ s.gn.n = n)
    (x : Vec ℝ n) (hΩ : Ω x) (hA : ∀ l, Allowed so l → PD (dampedR l (gram (J x)))) (hmin : DiagOk so (gram (J x)))
    (hx : nCost so m (φ (dotR (r x) (r x))) ≠ maxVal) (hal : Allowed so s.lambda) (hrd : NlReady r J s x) :
    ∃ s2 dx, Delivers (lmEnv so LA P) w s x s2 ⟨n, dx⟩ ∧ s2.gn.n = n ∧ s2.gn.cost.cost = nCost so m (φ (dotR (r x) (r x))) ∧
      s2.lambda = s.lambda ∧ s2.rebuild = s.rebuild ∧ (tmv (J x) (r x) = 0 → dx = 0) ∧
      (tmv (J x) (r x) = 0 → ∃ mu c, s2.gn = ⟨n, 0, dampedR mu (gram (J x)), c⟩ ∧ s.lambda ≤ mu) ∧
      s2.badF = s.badF ∧ (tmv (J x) (r x) ≠ 0 → mv (dampedR s.lambda (gram (J x))) dx = -tmv (J x) (r x)) := by
  have hl0 : 0 ≤ s.lambda := by
    rcases hal with h1 | h1
    · rw [h1]; exact hin
    · exact hlo.trans h1
  have hone' : ∀ H : Mat ℝ n, Solves so (P.dims == some 1) H := by
    intro H
    rcases hone with h1 | h1
    · exact Or.inl h1
    · right; left
      rw [beq_eq_false_iff_ne]; exact h1
  have hgood : ∀ (s2 : LMState ℝ R) q, ∃ s', lmGood so s2 q = .ok s' := by
    intro s2 q; unfold lmGood; rw [stdClamp_real hr0]; exact ⟨_, rfl⟩
  have hbad : ∀ (s2 : LMState ℝ R), ∃ s', lmBad so s2 = .ok s' := by
    intro s2; unfold lmBad; rw [stdClamp_real hr0]; exact ⟨_, rfl⟩
  by_cases hreb : s.rebuild = true
  · obtain ⟨g1, w1, hr, hn1, -⟩ := resize_works h.toVecParams w s.gn hs
    obtain ⟨c, w2, hb, hc, hv⟩ := nls_build h hclip w1 g1 hn1 x hΩ hmin hx
    have hpd := hA s.lambda hal
    have hr' : (lmSolver so LA P).resize w s n = (.done { s with gn := g1 }, w1) := by
      simp only [lmSolver, hr]
    have hb' : lmBuild so P w1 { s with gn := g1 } x = (true, { s with gn := ⟨n, tmv (J x) (r x), dampedR s.lambda (gram (J x)), c⟩ }, w2) := by
      unfold lmBuild
      simp only [hreb, if_true]
      rw [hb]
      simp only [if_true]
      have := lmDamp_ls (R := R) (s := s) hreb hl0 (g := tmv (J x) (r x)) (H := gram (J x)) (c := c)
      rw [hreb] at this
      rw [this]
    obtain ⟨v, h1, h2⟩ := gnSolve_pd (so := so) hL (P.dims == some 1) ⟨n, tmv (J x) (r x), dampedR s.lambda (gram (J x)), c⟩ hv hpd (hone' _)
    refine ⟨{ s with gn := ⟨n, tmv (J x) (r x), dampedR s.lambda (gram (J x)), c⟩ }, v,
      ⟨⟨_, w1, w2, resizeIfNeeded_works h.toVecParams hr', hb'⟩, h1, rfl, rfl, fun q => hgood _ q, hbad _⟩, rfl, hc, rfl, rfl, fun hg => ?_, ?_, rfl, fun _ => h2⟩
    · simp only [hg, neg_zero] at h2
      rw [← mv_zero (dampedR s.lambda (gram (J x)))] at h2
      exact pd_inj hpd h2
    · intro hg
      exact ⟨s.lambda, c, by rw [hg], le_refl _⟩
  · obtain ⟨hg, hp0, mu, c0, hgn, hmu⟩ := hrd.resolve_left hreb
    have hreb' : s.rebuild = false := Bool.not_eq_true _ ▸ hreb
    have hn : s.gn.n = n := by rw [hgn]
    obtain ⟨g1, w1, hr, hn1, hid⟩ := resize_works h.toVecParams w s.gn hs
    have := hid hn
    subst this
    have hr' : (lmSolver so LA P).resize w s n = (.done s, w1) := by
      simp only [lmSolver, hr]
    rcases hev : P.acc.eval w1 x with ⟨c, w2⟩
    have hE := h.eval w1 x hΩ
    rw [hev] at hE
    have hcost : (normalizeCost so c).cost = nCost so m (φ (dotR (r x) (r x))) := by rw [normalizeCost_eq c hE.2, hE.1]
    have hv : (normalizeCost so c).isValid = true := by
      have h1 : eq (normalizeCost so c).cost maxVal = false := by rw [RealOps.eq_eq_false, hcost]; exact hx
      have h2 := h.pos
      unfold Cost.isValid ne
      rw [h1, normalizeCost_num, hE.2]
      simpa using h2
    have hmu0 : 0 ≤ mu := hp0.trans hmu
    obtain ⟨mu', hmu', hpd', hdamp⟩ : ∃ mu', s.lambda ≤ mu' ∧ PD (dampedR mu' (gram (J x))) ∧
        lmDamp { s with gn := ⟨n, 0, dampedR mu (gram (J x)), normalizeCost so c⟩ } = { s with gn := ⟨n, 0, dampedR mu' (gram (J x)), normalizeCost so c⟩ } := by
      by_cases hpos : 0 < s.lambda
      · have hk : 1 + s.lambda ≤ (1 + s.lambda) / (1 + s.prev) * (1 + mu) := by
          rw [div_mul_eq_mul_div, le_div_iff₀ (by linarith)]
          exact mul_le_mul_of_nonneg_left (by linarith) (by linarith)
        refine ⟨(1 + s.lambda) / (1 + s.prev) * (1 + mu) - 1, by linarith, ?_, ?_⟩
        · exact damped_pd_mono (gram_psd _) (hA _ hal) (by linarith)
        · unfold lmDamp
          simp only [hreb', Bool.false_eq_true, if_false]
          rw [if_pos (by simpa using hpos), ← scale_damped]
          simp
      · have hz : s.lambda = 0 := le_antisymm (not_lt.mp hpos) hl0
        refine ⟨mu, by rw [hz]; exact hmu0, damped_pd_mono (gram_psd _) (hA _ hal) (by rw [hz]; exact hmu0), ?_⟩
        unfold lmDamp
        rw [if_neg (by simpa using hpos)]
    have hb' : lmBuild so P w1 s x = (true, { s with gn := ⟨n, 0, dampedR mu' (gram (J x)), normalizeCost so c⟩ }, w2) := by
      unfold lmBuild
      simp only [hreb', Bool.false_eq_true, if_false]
      have : lmEvaluate so P w1 s.gn x = (⟨n, 0, dampedR mu (gram (J x)), normalizeCost so c⟩, w2) := by
        unfold lmEvaluate; rw [hev, hgn]
      rw [this]
      simp only [hv, if_true]
      rw [hreb'] at hdamp
      rw [hdamp]
    obtain ⟨v, h1, h2⟩ := gnSolve_pd (so := so) hL (P.dims == some 1) ⟨n, 0, dampedR mu' (gram (J x)), normalizeCost so c⟩ hv hpd' (hone' _)
    have hv0 : v = 0 := by
      simp only [neg_zero] at h2
      rw [← mv_zero (dampedR mu' (gram (J x)))] at h2
      exact pd_inj hpd' h2
    refine ⟨{ s with gn := ⟨n, 0, dampedR mu' (gram (J x)), normalizeCost so c⟩ }, v,
      ⟨⟨_, w1, w2, resizeIfNeeded_works h.toVecParams hr', hb'⟩, h1, rfl, rfl, fun q => hgood _ q, hbad _⟩, rfl, hcost, rfl, rfl, fun _ => hv0, ?_, rfl, fun h => absurd hg h⟩
    intro _
    exact ⟨mu', _, rfl, hmu'⟩

/-- Runs of Levenberg-Marquardt on a region `Ω` where every damped step decreases the norm of the residuals; `K i` is any property of the damping and the factor of
bad steps at iteration `i` that good steps keep. -/
theorem lm_nls_run (h : NonlinLS P Ω r J φ) (hL : ExactLinAlg LA) (hA : ∀ x, Ω x → ∀ l, Allowed so l → PD (dampedR l (gram (J x))))
    (hone : so.useLdlt = true ∨ P.dims ≠ some 1) (hr0 : so.dampLo ≤ so.dampHi) (hlo : 0 ≤ so.dampLo) (hin : 0 ≤ so.dampInit)
    (hmin : ∀ x, Ω x → DiagOk so (gram (J x))) (hclip : so.gradClip = 0) (K : Nat → ℝ → ℝ → Prop) (hK1 : ∀ l β, K 0 l β → K 1 l β)
    (hKg : ∀ i (s2 s3 : LMState ℝ R) q, (o.useStepQuality = false → q = 0) → K i s2.lambda s2.badF → lmGood so s2 q = .ok s3 → K (i + 1) s3.lambda s3.badF)
    (hdec : ∀ i x d l β, Ω x → Allowed so l → K i l β → tmv (J x) (r x) ≠ 0 → mv (dampedR l (gram (J x))) d = -tmv (J x) (r x) →
      Ω (x + d) ∧ nrm (r (x + d)) < nrm (r x))
    (s : LMState ℝ R) (hs : P.dims = none ∨ s.gn.n = n) (hreb : s.rebuild = true) (hal : Allowed so s.lambda) (hK0 : K 0 s.lambda s.badF)
    (fuel : Nat) (mi k : Int) (hk : loopBound o mi = some k) (hk2 : k ≤ 65536)
    (w : W) (x0 : Vec ℝ n) (hΩ : Ω x0) (hx0 : nCost so m (φ (dotR (r x0) (r x0))) < maxVal) :
    ∃ st, optimizeAcc (lmEnv so LA P) o (fuel + 1) mi w s x0 = .ok st ∧ Ω st.x ∧ ∀ i t, st.trace[i]? = some t →
      Ω t.x ∧ (tmv (J t.x) (r t.x) = 0 → t.xNext = t.x) ∧
      (tmv (J t.x) (r t.x) ≠ 0 → t.succ = true ∧ ∃ l β, K i l β ∧ Allowed so l ∧
        mv (dampedR l (gram (J t.x))) (t.xNext - t.x) = -tmv (J t.x) (r t.x)) := by
  obtain ⟨st, e, h1, ht⟩ := descent_run (P := P) (o := o) (sol := lmSolver so LA P) (fo := false) h.toVecParams
    (Ok := fun i s x => (P.dims = none ∨ s.gn.n = n) ∧ Allowed so s.lambda ∧ NlReady r J s x ∧ (tmv (J x) (r x) ≠ 0 → K i s.lambda s.badF))
    (Ω := fun x => Ω x ∧ nCost so m (φ (dotR (r x) (r x))) < maxVal) (Stat := fun x => tmv (J x) (r x) = 0)
    (c := fun x => nCost so m (φ (dotR (r x) (r x))))
    (Step := fun i x d => (tmv (J x) (r x) = 0 → d = 0) ∧
      (tmv (J x) (r x) ≠ 0 → ∃ l β, K i l β ∧ Allowed so l ∧ mv (dampedR l (gram (J x))) d = -tmv (J x) (r x))) (k := k)
    (fun i w s x hok hx => by
      obtain ⟨hsz, hal, hrd, hK⟩ := hok
      obtain ⟨s2, dx, hdel, hn2, hc2, hlam, hrb, hzero, hgnz, hbf, hsolv⟩ :=
        nls_lm_delivers h hL hone hr0 hlo hin hclip w s hsz x hx.1 (hA x hx.1) (hmin x hx.1) hx.2.ne hal hrd
      refine ⟨s2, dx, hdel, hc2, ⟨hzero, fun hg => ⟨s.lambda, s.badF, hK hg, hal, hsolv hg⟩⟩, fun s3 h5 => ?_, fun hg s3 b h5 => ?_⟩
      · have key : s3.gn.n = n ∧ Allowed so s3.lambda ∧ (tmv (J (x + dx)) (r (x + dx)) ≠ 0 → K (i + 1) s3.lambda s3.badF) := by
          have hgx : tmv (J (x + dx)) (r (x + dx)) ≠ 0 → tmv (J x) (r x) ≠ 0 := by
            intro h1 h2; rw [hzero h2, add_zero] at h1; exact h1 h2
          rcases h5 with ⟨rfl, h0⟩ | ⟨q, hq, h5⟩
          · have hi : i = 0 := by rcases h0 with h0 | h0 <;> omega
            subst hi
            exact ⟨hn2, by rw [hlam]; exact hal, fun hg => by rw [hlam, hbf]; exact hK1 _ _ (hK (hgx hg))⟩
          · obtain ⟨a1, a2, a3⟩ := lm_hook hr0 (Or.inl ⟨q, h5⟩)
            exact ⟨by rw [a1]; exact hn2, Or.inr a3, fun hg => hKg i s2 s3 q hq (by rw [hlam, hbf]; exact hK (hgx hg)) h5⟩
        exact ⟨Or.inr key.1, key.2.1, Or.inl rfl, key.2.2⟩
      · have h6 : (∃ q, lmGood so s2 q = .ok s3) ∨ lmBad so s2 = .ok s3 := by
          rcases h5 with h5 | h5 | h5
          · exact Or.inl h5
          · exact Or.inr h5
          · omega
        obtain ⟨a1, a2, a3⟩ := lm_hook hr0 h6
        obtain ⟨mu, c, e1, e2⟩ := hgnz hg
        refine ⟨Or.inr (by show s3.gn.n = n; rw [a1]; exact hn2), Or.inr a3, Or.inr ⟨hg, ?_, mu, c, ?_, ?_⟩, fun h => absurd hg h⟩
        · show 0 ≤ s3.prev
          rw [a2, hlam]
          rcases hal with h1 | h1
          · rw [h1]; exact hin
          · exact hlo.trans h1
        · show s3.gn = _
          rw [a1]; exact e1
        · show s3.prev ≤ mu
          rw [a2, hlam]; exact e2)
    (fun i x d hx hd => by
      by_cases hg : tmv (J x) (r x) = 0
      · have := hd.1 hg
        subst this
        exact ⟨fun _ => rfl, by rw [add_zero]; exact hx, fun h => absurd hg h⟩
      · obtain ⟨l, β, h1, h2, h3⟩ := hd.2 hg
        obtain ⟨h4, h5⟩ := hdec i x d l β hx.1 h2 h1 hg h3
        have h6 := h.nCost_lt (so := so) h5
        exact ⟨fun h => absurd h hg, ⟨h4, h6.trans hx.2⟩, fun _ => h6⟩)
    (fun x hx => hx.2) (fuel := fuel) (mi := mi) hk (w := w) (s := s) (x0 := x0) ⟨hs, hal, Or.inl hreb, fun _ => hK0⟩ ⟨hΩ, hx0⟩
  refine ⟨st, e, h1.1, fun i t hi => ?_⟩
  obtain ⟨h2, d, h3, h4, h5⟩ := ht i t hi
  refine ⟨h2.1, fun hg => by rw [h4, h3.1 hg, add_zero], fun hg => ⟨h5 hg, ?_⟩⟩
  rw [h4, add_sub_cancel_left]
  exact h3.2 hg

end

/-! ### one step -/

section
variable {m n : Nat}

/-- `l κ / (1 + l κ)` -/
noncomputable def shrink (l κ : ℝ) : ℝ := l * κ / (1 + l * κ)

theorem shrink_nonneg {l κ : ℝ} (hl : 0 ≤ l) (hκ : 0 ≤ κ) : 0 ≤ shrink l κ := by unfold shrink; positivity

theorem shrink_lt_one {l κ : ℝ} (hl : 0 ≤ l) (hκ : 0 ≤ κ) : shrink l κ < 1 := by
  unfold shrink
  have : 0 < 1 + l * κ := by positivity
  rw [div_lt_one this]; linarith

theorem shrink_mono {l l' κ : ℝ} (hl : 0 ≤ l) (hll : l ≤ l') (hκ : 0 ≤ κ) : shrink l κ ≤ shrink l' κ := by
  unfold shrink
  have hl' := hl.trans hll
  rw [div_le_div_iff₀ (by positivity) (by positivity)]
  nlinarith [mul_le_mul_of_nonneg_right hll hκ]

/-- the linearised residuals after a damped step -/
theorem damped_model {A : Fin m → Fin n → ℝ} {r : Vec ℝ m} {d : Vec ℝ n} {l : ℝ} (hd : mv (dampedR l (gram A)) d = -tmv A r) :
    dotR (mv A d) (r + mv A d) = -(l * diagSq (gram A) d) ∧
    nrm (r + mv A d) ^ 2 + nrm (mv A d) ^ 2 + 2 * (l * diagSq (gram A) d) = nrm r ^ 2 := by
  have h1 := damped_quad l (gram A) d
  rw [hd, dotR_neg, dotR_tmv, mv_gram, dotR_tmv] at h1
  have h2 : dotR (mv A d) (r + mv A d) = -(l * diagSq (gram A) d) := by rw [dotR_add]; linarith
  refine ⟨h2, ?_⟩
  have e : nrm (r + mv A d) ^ 2 = nrm r ^ 2 + 2 * dotR (mv A d) r + nrm (mv A d) ^ 2 := by
    rw [nrm_sq, nrm_sq, nrm_sq, add_dotR, dotR_add, dotR_add, dotR_comm r (mv A d)]; ring
  rw [dotR_add, ← nrm_sq] at h2
  linarith

/-- Any damped step, on any number of residuals: if the residuals are small with respect to the curvature, the norm decreases. -/
theorem damped_decrease {A : Fin m → Fin n → ℝ} {r r' : Vec ℝ m} {d : Vec ℝ n} {l β L : ℝ} (hl : 0 ≤ l) (hL : 0 ≤ L)
    (hd : mv (dampedR l (gram A)) d = -tmv A r) (ht : nrm (r' - r - mv A d) ≤ L / 2 * nrm d ^ 2) (hlow : nrm d ≤ β * nrm (mv A d)) :
    2 * nrm r * nrm r' ≤ 2 * nrm r ^ 2 - (1 - L * β ^ 2 * nrm r) * nrm (mv A d) ^ 2 := by
  obtain ⟨-, h2⟩ := damped_model hd
  have h3 : 0 ≤ l * diagSq (gram A) d := mul_nonneg hl (diagSq_nonneg (fun i => psd_diag (gram_psd A) i) d)
  have h4 : nrm r' ≤ nrm (r + mv A d) + L / 2 * nrm d ^ 2 := by
    have := nrm_add_le (r + mv A d) (r' - r - mv A d)
    have e : r + mv A d + (r' - r - mv A d) = r' := by abel
    rw [e] at this
    linarith
  have h5 : nrm d ^ 2 ≤ β ^ 2 * nrm (mv A d) ^ 2 := by
    rw [← mul_pow]; exact pow_le_pow_left₀ (nrm_nonneg _) hlow 2
  have hr := nrm_nonneg r
  have hp := nrm_nonneg (r + mv A d)
  -- `2 |r| |p| ≤ |r|^2 + |p|^2`
  have h6 : 2 * nrm r * nrm (r + mv A d) ≤ 2 * nrm r ^ 2 - nrm (mv A d) ^ 2 := by nlinarith [sq_nonneg (nrm r - nrm (r + mv A d))]
  have h7 : 2 * nrm r * nrm r' ≤ 2 * nrm r * (nrm (r + mv A d) + L / 2 * nrm d ^ 2) := mul_le_mul_of_nonneg_left h4 (by positivity)
  have h8 : L * nrm r * nrm d ^ 2 ≤ L * nrm r * (β ^ 2 * nrm (mv A d) ^ 2) := mul_le_mul_of_nonneg_left h5 (by positivity)
  nlinarith

theorem square_surj {A : Fin n → Fin n → ℝ} (h : ∀ v, mv A v = 0 → v = 0) (b : Vec ℝ n) : ∃ v, mv A v = b := by
  let f : Vec ℝ n →ₗ[ℝ] Vec ℝ n := { toFun := mv A, map_add' := mv_add A, map_smul' := mv_smul A }
  have hi : Function.Injective f := by
    intro u v e
    have : mv A (u - v) = 0 := by rw [mv_sub]; exact sub_eq_zero.mpr e
    exact sub_eq_zero.mp (h _ this)
  exact (LinearMap.injective_iff_surjective.mp hi) b

/-- With as many residuals as unknowns the damped step shrinks the linearised residuals. -/
theorem square_model {A : Fin n → Fin n → ℝ} (hA : ∀ v, mv A v = 0 → v = 0) {r d : Vec ℝ n} {l κ : ℝ} (hl : 0 ≤ l) (hκ : 0 ≤ κ)
    (hdiag : ∀ v, diagSq (gram A) v ≤ κ * nrm (mv A v) ^ 2) (hd : mv (dampedR l (gram A)) d = -tmv A r) :
    nrm (r + mv A d) ≤ shrink l κ * nrm r := by
  obtain ⟨h1, h2⟩ := damped_model hd
  obtain ⟨y, hy⟩ := square_surj hA (r + mv A d)
  have hdg := fun i => psd_diag (gram_psd A) i
  -- `A^T p = - l D d`
  have h3 : tmv A (r + mv A d) = fun i => -(l * (gram A i i * d i)) := by
    have e1 : tmv A (r + mv A d) = tmv A r + mv (gram A) d := by
      rw [mv_gram]; funext j; simp [tmv, mul_add, Finset.sum_add_distrib]
    have e2 : tmv A r = -(mv (gram A) d + l • fun i => gram A i i * d i) := by
      rw [← damped_mv, hd, neg_neg]
    rw [e1, e2]; funext i; simp
  have h4 : nrm (r + mv A d) ^ 2 = -(l * ∑ i, gram A i i * (y i * d i)) := by
    rw [nrm_sq]
    nth_rewrite 1 [← hy]
    rw [← dotR_tmv, h3]
    simp only [dotR, Finset.mul_sum, ← Finset.sum_neg_distrib]
    exact Finset.sum_congr rfl fun i _ => by ring
  have h5 := diag_cauchy hdg y d
  have h6 := hdiag y
  rw [hy] at h6
  have hd0 := diagSq_nonneg hdg d
  have hp := nrm_nonneg (r + mv A d)
  have hb := nrm_nonneg (mv A d)
  have h7 := dotR_le_nrm (-mv A d) (r + mv A d)
  rw [nrm_neg] at h7
  have h8 : dotR (-mv A d) (r + mv A d) = l * diagSq (gram A) d := by
    rw [dotR_comm, dotR_neg, dotR_comm, h1, neg_neg]
  rw [h8] at h7
  generalize nrm (r + mv A d) = p at *
  generalize nrm (mv A d) = b at *
  generalize (∑ i, gram A i i * (y i * d i)) = S at *
  generalize diagSq (gram A) d = D at *
  generalize diagSq (gram A) y = Y at *
  -- `p^2 ≤ l^2 κ D`
  have k1 : (p ^ 2) ^ 2 ≤ l ^ 2 * (κ * p ^ 2) * D := by
    rw [h4, neg_sq, mul_pow, mul_assoc]
    rw [h4] at h6
    exact mul_le_mul_of_nonneg_left (h5.trans (mul_le_mul_of_nonneg_right h6 hd0)) (sq_nonneg l)
  have k2 : p ^ 2 ≤ l ^ 2 * κ * D := by
    rcases hp.eq_or_lt with h0 | h0
    · rw [← h0, zero_pow two_ne_zero]; positivity
    · have : 0 < p ^ 2 := by positivity
      refine le_of_mul_le_mul_right ?_ this
      nlinarith
  -- with `s = l κ`: `p^2 ≤ s (l D)` and `p ≤ s b`
  have k3 : p ^ 2 ≤ l * κ * (l * D) := by nlinarith
  have k4 : p ≤ l * κ * b := by
    rcases hp.eq_or_lt with h0 | h0
    · rw [← h0]; positivity
    · refine le_of_mul_le_mul_right ?_ h0
      have : l * κ * (l * D) ≤ l * κ * (b * p) := mul_le_mul_of_nonneg_left h7 (by positivity)
      nlinarith
  have hs : 0 ≤ l * κ := by positivity
  have k5 : ((1 + l * κ) * p) ^ 2 ≤ (l * κ * nrm r) ^ 2 := by
    have k6 : p ^ 2 ≤ (l * κ * b) ^ 2 := pow_le_pow_left₀ hp k4 2
    have k7 : l * κ * p ^ 2 ≤ l * κ * (l * κ * (l * D)) := mul_le_mul_of_nonneg_left k3 hs
    have e : (l * κ * nrm r) ^ 2 = (l * κ) ^ 2 * p ^ 2 + (l * κ * b) ^ 2 + 2 * (l * κ * (l * κ * (l * D))) := by
      rw [mul_pow, ← h2]; ring
    rw [e]
    nlinarith
  have k8 := le_of_abs_le (abs_le_of_sq_le_sq k5 (mul_nonneg hs (nrm_nonneg r)))
  unfold shrink
  rw [div_mul_eq_mul_div, le_div_iff₀ (by positivity)]
  linarith

/-- One damped step on a square system. -/
theorem square_step {A : Fin n → Fin n → ℝ} {r r' d : Vec ℝ n} {l κ β L T : ℝ} (hA : ∀ v, nrm v ≤ β * nrm (mv A v)) (hl : 0 ≤ l) (hκ : 0 ≤ κ) (hL : 0 ≤ L)
    (hdiag : ∀ v, diagSq (gram A) v ≤ κ * nrm (mv A v) ^ 2) (hd : mv (dampedR l (gram A)) d = -tmv A r)
    (ht : nrm (r' - r - mv A d) ≤ L / 2 * nrm d ^ 2) (hT : shrink l κ ≤ T) (hT1 : T ≤ 1) (hh : L * β ^ 2 * nrm r * T ≤ 1) :
    nrm r' ≤ (T + L * β ^ 2 * nrm r / 2 * (1 - T ^ 2)) * nrm r := by
  have hA0 : ∀ v, mv A v = 0 → v = 0 := by
    intro v hv
    have := hA v
    rw [hv, nrm_zero, mul_zero] at this
    exact nrm_eq_zero (le_antisymm this (nrm_nonneg v))
  have h1 := square_model hA0 hl hκ hdiag hd
  obtain ⟨-, h2⟩ := damped_model hd
  have h3 : 0 ≤ l * diagSq (gram A) d := mul_nonneg hl (diagSq_nonneg (fun i => psd_diag (gram_psd A) i) d)
  have h4 : nrm r' ≤ nrm (r + mv A d) + L / 2 * nrm d ^ 2 := by
    have := nrm_add_le (r + mv A d) (r' - r - mv A d)
    have e : r + mv A d + (r' - r - mv A d) = r' := by abel
    rw [e] at this
    linarith
  have h5 : nrm d ^ 2 ≤ β ^ 2 * nrm (mv A d) ^ 2 := by
    rw [← mul_pow]; exact pow_le_pow_left₀ (nrm_nonneg _) (hA d) 2
  have hr := nrm_nonneg r
  have hp := nrm_nonneg (r + mv A d)
  have hpT : nrm (r + mv A d) ≤ T * nrm r := h1.trans (mul_le_mul_of_nonneg_right hT hr)
  generalize nrm (r + mv A d) = p at *
  generalize nrm (mv A d) = b at *
  generalize nrm r = ρ at *
  generalize nrm d ^ 2 = e at *
  have h6 : L / 2 * e ≤ L / 2 * (β ^ 2 * (ρ ^ 2 - p ^ 2)) :=
    mul_le_mul_of_nonneg_left (h5.trans (mul_le_mul_of_nonneg_left (by linarith) (sq_nonneg β))) (by positivity)
  have h6' : L / 2 * e ≤ L * β ^ 2 / 2 * (ρ ^ 2 - p ^ 2) := h6.trans (le_of_eq (by ring))
  refine h4.trans ((add_le_add_right h6' p).trans ?_)
  -- `p + (q/2)(ρ^2 - p^2)` is increasing in `p` up to `T ρ`
  have hq : 0 ≤ L * β ^ 2 := by positivity
  generalize L * β ^ 2 = q at *
  have h7 : 0 ≤ (T * ρ - p) * (2 - q * (T * ρ + p)) := by
    refine mul_nonneg (by linarith) ?_
    have : q * p ≤ q * (T * ρ) := mul_le_mul_of_nonneg_left hpT hq
    nlinarith
  nlinarith

end

/-! ### the theorems -/

section
variable {R W : Type} {m n : Nat}
variable {so : SolverOpts ℝ} {LA : LinAlg ℝ} {P : Problem ℝ R W (Vec ℝ n)} {o : Options ℝ W (DVec ℝ)}
variable {r : Vec ℝ n → Vec ℝ m} {J : Vec ℝ n → Fin m → Fin n → ℝ} {φ : ℝ → ℝ} {R0 β L κ : ℝ}

/-- The residuals `r` are differentiable with Jacobian `J`, which is Lipschitz with constant `L` and, where the norm of the residuals is at most `R0`, bounded below by `1/β`. -/
structure Regular (r : Vec ℝ n → Vec ℝ m) (J : Vec ℝ n → Fin m → Fin n → ℝ) (R0 β L : ℝ) : Prop where
  jac : ∀ x, HasJac r (J x) x
  lip : ∀ x y v, nrm (mv (J x) v - mv (J y) v) ≤ L * nrm (x - y) * nrm v
  low : ∀ x v, nrm (r x) ≤ R0 → nrm v ≤ β * nrm (mv (J x) v)
  posL : 0 ≤ L

theorem Regular.taylor (h : Regular r J R0 β L) (x d : Vec ℝ n) : nrm (r (x + d) - r x - mv (J x) d) ≤ L / 2 * nrm d ^ 2 :=
  taylor_of_lip h.posL (fun _ _ _ => h.jac _) fun t _ _ => by
    have := h.lip (x + t • d) x d
    rwa [add_sub_cancel_left] at this

theorem Regular.inj (h : Regular r J R0 β L) {x : Vec ℝ n} (hx : nrm (r x) ≤ R0) : ∀ v, mv (J x) v = 0 → v = 0 := by
  intro v hv
  have := h.low x v hx
  rw [hv, nrm_zero, mul_zero] at this
  exact nrm_eq_zero (le_antisymm this (nrm_nonneg v))

/-- a damped step decreases the norm of the residuals by a part of what the linear model predicts -/
theorem Regular.step (h : Regular r J R0 β L) (hh : L * β ^ 2 * R0 < 1) {x d : Vec ℝ n} {l : ℝ} (hl : 0 ≤ l) (hx : nrm (r x) ≤ R0)
    (hg : tmv (J x) (r x) ≠ 0) (hd : mv (dampedR l (gram (J x))) d = -tmv (J x) (r x)) :
    nrm (r (x + d)) < nrm (r x) ∧ 2 * nrm (r x) * nrm (r (x + d)) ≤ 2 * nrm (r x) ^ 2 - (1 - L * β ^ 2 * nrm (r x)) * nrm (mv (J x) d) ^ 2 := by
  have h1 := damped_decrease hl h.posL hd (h.taylor x d) (h.low x d hx)
  refine ⟨?_, h1⟩
  have hd0 : d ≠ 0 := by
    rintro rfl
    rw [mv_zero] at hd
    exact hg (neg_eq_zero.mp hd.symm)
  have hb : 0 < nrm (mv (J x) d) := nrm_pos fun h0 => hd0 (h.inj hx d h0)
  have hr : 0 < nrm (r x) := by
    refine nrm_pos fun h0 => hg ?_
    rw [h0]; funext j; simp [tmv]
  have hc : 0 < 1 - L * β ^ 2 * nrm (r x) := by
    have := h.posL
    have : L * β ^ 2 * nrm (r x) ≤ L * β ^ 2 * R0 := mul_le_mul_of_nonneg_left hx (by positivity)
    linarith
  have h2 : 0 < (1 - L * β ^ 2 * nrm (r x)) * nrm (mv (J x) d) ^ 2 := by positivity
  nlinarith

/-- **C71**, monotonicity: Levenberg-Marquardt (exact arithmetic, at most 65536 iterations, a solver that starts with a rebuilt system) on any nonlinear least squares
problem, started where the residuals are small with respect to the curvature (`L β² |r| < 1`): the run ends normally and, whatever the damping does,
every iteration is accepted and decreases the norm of the residuals, by at least `(1 - L β² |r|) / (2 |r|)` times the squared norm of `J dx`, or is at a stationary point and
stays there. -/
theorem C71_lm_monotone (h : NonlinLS P (fun x => nrm (r x) ≤ R0) r J φ) (hreg : Regular r J R0 β L) (hh : L * β ^ 2 * R0 < 1) (hL : ExactLinAlg LA)
    (hone : so.useLdlt = true ∨ P.dims ≠ some 1) (hr0 : so.dampLo ≤ so.dampHi) (hlo : 0 ≤ so.dampLo) (hin : 0 ≤ so.dampInit)
    (hmin : ∀ x, nrm (r x) ≤ R0 → DiagOk so (gram (J x))) (hclip : so.gradClip = 0)
    (s : LMState ℝ R) (hs : P.dims = none ∨ s.gn.n = n) (hreb : s.rebuild = true) (hal : Allowed so s.lambda)
    (fuel : Nat) (mi k : Int) (hk : loopBound o mi = some k) (hk2 : k ≤ 65536)
    (w : W) (x0 : Vec ℝ n) (hx0 : nrm (r x0) ≤ R0) (hc0 : nCost so m (φ (dotR (r x0) (r x0))) < maxVal) :
    ∃ st, optimizeAcc (lmEnv so LA P) o (fuel + 1) mi w s x0 = .ok st ∧ ∀ t ∈ st.trace,
      (tmv (J t.x) (r t.x) = 0 → t.xNext = t.x) ∧
      (tmv (J t.x) (r t.x) ≠ 0 → t.succ = true ∧ nrm (r t.xNext) < nrm (r t.x) ∧
        2 * nrm (r t.x) * nrm (r t.xNext) ≤ 2 * nrm (r t.x) ^ 2 - (1 - L * β ^ 2 * nrm (r t.x)) * nrm (mv (J t.x) (t.xNext - t.x)) ^ 2) := by
  have hnn : ∀ l, Allowed so l → 0 ≤ l := by
    rintro l (rfl | h)
    · exact hin
    · exact hlo.trans h
  obtain ⟨st, e, -, ht⟩ := lm_nls_run (o := o) h hL (fun x hx l hl => damped_pd' (gram_pd (hreg.inj hx)) (hnn l hl)) hone hr0 hlo hin hmin hclip
    (K := fun _ _ _ => True) (fun _ _ _ => trivial) (fun _ _ _ _ _ _ _ => trivial)
    (fun i x d l b hx hl _ hg hd => by
      have := (hreg.step hh (hnn l hl) hx hg hd).1
      exact ⟨this.le.trans hx, this⟩)
    s hs hreb hal trivial fuel mi k hk hk2 w x0 hx0 hc0
  refine ⟨st, e, fun t htt => ?_⟩
  obtain ⟨i, hi⟩ := List.getElem?_of_mem htt
  obtain ⟨h1, h2, h3⟩ := ht i t hi
  refine ⟨h2, fun hg => ?_⟩
  obtain ⟨h4, l, b, -, h5, h6⟩ := h3 hg
  have := hreg.step hh (hnn l h5) h1 hg h6
  rw [add_sub_cancel] at this
  exact ⟨h4, this⟩

/-- the same for Gauss-Newton, with any number of iterations -/
theorem gn_nls_run {Ω : Vec ℝ n → Prop} (h : NonlinLS P Ω r J φ) (hL : ExactLinAlg LA) (hA : ∀ x, Ω x → PD (gram (J x)))
    (hone : ∀ x, Ω x → Solves so (P.dims == some 1) (gram (J x))) (hmin : ∀ x, Ω x → DiagOk so (gram (J x))) (hclip : so.gradClip = 0)
    (hdec : ∀ x d, Ω x → tmv (J x) (r x) ≠ 0 → mv (gram (J x)) d = -tmv (J x) (r x) → Ω (x + d) ∧ nrm (r (x + d)) < nrm (r x))
    (s : GNState ℝ R) (hs : P.dims = none ∨ s.n = n) (fuel : Nat) (mi k : Int) (hk : loopBound o mi = some k)
    (w : W) (x0 : Vec ℝ n) (hΩ : Ω x0) (hx0 : nCost so m (φ (dotR (r x0) (r x0))) < maxVal) :
    ∃ st, optimizeAcc (gnEnv so LA P) o (fuel + 1) mi w s x0 = .ok st ∧ ∀ t ∈ st.trace,
      Ω t.x ∧ mv (gram (J t.x)) (t.xNext - t.x) = -tmv (J t.x) (r t.x) ∧ (tmv (J t.x) (r t.x) ≠ 0 → t.succ = true) := by
  obtain ⟨st, e, -, ht⟩ := descent_run (P := P) (o := o) (sol := gnSolver so LA P) (fo := false) h.toVecParams
    (Ok := fun _ s _ => P.dims = none ∨ s.n = n)
    (Ω := fun x => Ω x ∧ nCost so m (φ (dotR (r x) (r x))) < maxVal) (Stat := fun x => tmv (J x) (r x) = 0)
    (c := fun x => nCost so m (φ (dotR (r x) (r x)))) (Step := fun _ x d => mv (gram (J x)) d = -tmv (J x) (r x)) (k := k)
    (fun _ w s x hok hx => by
      obtain ⟨s2, dx, h1, h2, h3, h4⟩ := nls_gn_delivers h hL hclip w s hok x hx.1 (hA x hx.1) (hone x hx.1) (hmin x hx.1) hx.2.ne
      refine ⟨s2, dx, h1, h3, h4, fun s3 h5 => ?_, fun _ s3 b h5 => ?_⟩
      · rcases h5 with ⟨rfl, -⟩ | ⟨q, -, h5⟩
        · exact Or.inr h2
        · injection h5 with h5; subst h5; exact Or.inr h2
      · rcases h5 with ⟨q, h5⟩ | h5 | ⟨h5, -⟩
        · injection h5 with h5; subst h5; exact Or.inr h2
        · injection h5 with h5; subst h5; exact Or.inr h2
        · subst h5; exact Or.inr h2)
    (fun _ x d hx hd => by
      by_cases he : tmv (J x) (r x) = 0
      · have : d = 0 := by
          have hd' := hd
          rw [he, neg_zero, ← mv_zero (gram (J x))] at hd'
          exact pd_inj (hA x hx.1) hd'
        subst this
        exact ⟨fun _ => rfl, by rw [add_zero]; exact hx, fun h => absurd he h⟩
      · have h1 := hdec x d hx.1 he hd
        have h2 := h.nCost_lt (so := so) h1.2
        exact ⟨fun h => absurd h he, ⟨h1.1, h2.trans hx.2⟩, fun _ => h2⟩)
    (fun x hx => hx.2) (fuel := fuel) (mi := mi) hk (w := w) (s := s) (x0 := x0) hs ⟨hΩ, hx0⟩
  refine ⟨st, e, fun t htt => ?_⟩
  obtain ⟨i, hi⟩ := List.getElem?_of_mem htt
  obtain ⟨h1, d, h2, h3, h4⟩ := ht i t hi
  refine ⟨h1.1, ?_, h4⟩
  rw [h3, add_sub_cancel_left]; exact h2

/-- **C71**, monotonicity of Gauss-Newton under the same condition -/
theorem C71_gn_monotone (h : NonlinLS P (fun x => nrm (r x) ≤ R0) r J φ) (hreg : Regular r J R0 β L) (hh : L * β ^ 2 * R0 < 1) (hL : ExactLinAlg LA)
    (hone : ∀ x, nrm (r x) ≤ R0 → Solves so (P.dims == some 1) (gram (J x))) (hmin : ∀ x, nrm (r x) ≤ R0 → DiagOk so (gram (J x))) (hclip : so.gradClip = 0)
    (s : GNState ℝ R) (hs : P.dims = none ∨ s.n = n) (fuel : Nat) (mi k : Int) (hk : loopBound o mi = some k)
    (w : W) (x0 : Vec ℝ n) (hx0 : nrm (r x0) ≤ R0) (hc0 : nCost so m (φ (dotR (r x0) (r x0))) < maxVal) :
    ∃ st, optimizeAcc (gnEnv so LA P) o (fuel + 1) mi w s x0 = .ok st ∧ ∀ t ∈ st.trace,
      (tmv (J t.x) (r t.x) = 0 → t.xNext = t.x) ∧
      (tmv (J t.x) (r t.x) ≠ 0 → t.succ = true ∧ nrm (r t.xNext) < nrm (r t.x) ∧
        2 * nrm (r t.x) * nrm (r t.xNext) ≤ 2 * nrm (r t.x) ^ 2 - (1 - L * β ^ 2 * nrm (r t.x)) * nrm (mv (J t.x) (t.xNext - t.x)) ^ 2) := by
  obtain ⟨st, e, ht⟩ := gn_nls_run (o := o) h hL (fun x hx => gram_pd (hreg.inj hx)) hone hmin hclip
    (fun x d hx hg hd => by
      rw [← damped_zero (gram (J x))] at hd
      have := (hreg.step hh (le_refl 0) hx hg hd).1
      exact ⟨this.le.trans hx, this⟩) s hs fuel mi k hk w x0 hx0 hc0
  refine ⟨st, e, fun t htt => ?_⟩
  obtain ⟨h1, h2, h3⟩ := ht t htt
  refine ⟨fun hg => ?_, fun hg => ⟨h3 hg, ?_⟩⟩
  · rw [hg, neg_zero, ← mv_zero (gram (J t.x))] at h2
    exact sub_eq_zero.mp (pd_inj (gram_pd (hreg.inj h1)) h2)
  · rw [← damped_zero (gram (J t.x))] at h2
    have := hreg.step hh (le_refl 0) h1 hg h2
    rw [add_sub_cancel] at this
    exact this

end

/-! ### as many equations as unknowns -/

section
variable {R W : Type} {n : Nat}
variable {so : SolverOpts ℝ} {LA : LinAlg ℝ} {P : Problem ℝ R W (Vec ℝ n)} {o : Options ℝ W (DVec ℝ)}
variable {r : Vec ℝ n → Vec ℝ n} {J : Vec ℝ n → Fin n → Fin n → ℝ} {φ : ℝ → ℝ} {R0 β L κ : ℝ}

theorem Regular.square_pos (hreg : Regular r J R0 β L) {x : Vec ℝ n} (hx : nrm (r x) ≤ R0) (hg : tmv (J x) (r x) = 0) : r x = 0 := by
  obtain ⟨v, hv⟩ := square_surj (hreg.inj hx) (r x)
  refine dotR_self_eq_zero ?_
  have h1 : dotR v (tmv (J x) (r x)) = dotR (mv (J x) v) (r x) := dotR_tmv _ _ _
  rw [hv, hg] at h1
  rw [← h1]; simp [dotR]

/-- **C71**, Gauss-Newton on `n` nonlinear equations with `n` unknowns (Newton-Kantorovich): started where `L β² |r| < 2`, every iteration is accepted and
`|r'| ≤ (L β² / 2) |r|²`; after `k` iterations `q |r| ≤ (q |r0|) ^ (2 ^ k)` with `q = L β² / 2`. No solution is assumed to exist. -/
theorem C71_gn_newton (h : NonlinLS P (fun x => nrm (r x) ≤ R0) r J φ) (hreg : Regular r J R0 β L) (hh : L * β ^ 2 * R0 < 2) (hL : ExactLinAlg LA)
    (hone : ∀ x, nrm (r x) ≤ R0 → Solves so (P.dims == some 1) (gram (J x))) (hmin : ∀ x, nrm (r x) ≤ R0 → DiagOk so (gram (J x))) (hclip : so.gradClip = 0)
    (s : GNState ℝ R) (hs : P.dims = none ∨ s.n = n) (fuel : Nat) (mi k : Int) (hk : loopBound o mi = some k)
    (w : W) (x0 : Vec ℝ n) (hx0 : nrm (r x0) ≤ R0) (hc0 : nCost so n (φ (dotR (r x0) (r x0))) < maxVal) :
    ∃ st, optimizeAcc (gnEnv so LA P) o (fuel + 1) mi w s x0 = .ok st ∧
      (∀ t ∈ st.trace, (r t.x ≠ 0 → t.succ = true) ∧ nrm (r t.xNext) ≤ L * β ^ 2 / 2 * nrm (r t.x) ^ 2) ∧
      L * β ^ 2 / 2 * nrm (r x0) < 1 ∧
      L * β ^ 2 / 2 * nrm (r st.x) ≤ (L * β ^ 2 / 2 * nrm (r x0)) ^ 2 ^ st.trace.length := by
  have hq0 : 0 ≤ L * β ^ 2 := by have := hreg.posL; positivity
  have hle : ∀ x, nrm (r x) ≤ R0 → L * β ^ 2 * nrm (r x) < 2 := fun x hx => lt_of_le_of_lt (mul_le_mul_of_nonneg_left hx hq0) hh
  have hstep : ∀ x d, nrm (r x) ≤ R0 → mv (gram (J x)) d = -tmv (J x) (r x) → nrm (r (x + d)) ≤ L * β ^ 2 / 2 * nrm (r x) ^ 2 := by
    intro x d hx hd
    rw [← damped_zero (gram (J x))] at hd
    obtain ⟨κ, hκ0, hκ⟩ := pd_kappa (gram_pd (hreg.inj hx))
    have := square_step (T := 0) (fun v => hreg.low x v hx) (le_refl 0) hκ0.le hreg.posL (fun v => by
      have := hκ v
      rwa [mv_gram, dotR_tmv, ← nrm_sq] at this) hd (hreg.taylor x d) (by simp [shrink]) zero_le_one (by simp)
    calc _ ≤ _ := this
      _ = _ := by ring
  obtain ⟨st, e, ht⟩ := gn_nls_run (o := o) h hL (fun x hx => gram_pd (hreg.inj hx)) hone hmin hclip
    (fun x d hx hg hd => by
      have h1 := hstep x d hx hd
      have h2 := hle x hx
      have hr : 0 < nrm (r x) := by
        refine nrm_pos fun h0 => hg ?_
        rw [h0]; funext j; simp [tmv]
      have : nrm (r (x + d)) < nrm (r x) := by nlinarith
      exact ⟨this.le.trans hx, this⟩) s hs fuel mi k hk w x0 hx0 hc0
  have hrow : ∀ t ∈ st.trace, nrm (r t.xNext) ≤ L * β ^ 2 / 2 * nrm (r t.x) ^ 2 := by
    intro t htt
    obtain ⟨h1, h2, -⟩ := ht t htt
    have := hstep t.x _ h1 h2
    rwa [add_sub_cancel] at this
  refine ⟨st, e, fun t htt => ⟨fun hne => ?_, hrow t htt⟩, ?_, ?_⟩
  · obtain ⟨h1, h2, h3⟩ := ht t htt
    exact h3 fun hg => hne (hreg.square_pos h1 hg)
  · have := hle x0 hx0; linarith
  · have hp := run_path e
    have hq0' : 0 ≤ L * β ^ 2 / 2 := by linarith
    clear ht hx0 hc0 e
    generalize st.x = y at hp ⊢
    generalize st.trace = tr at hp hrow ⊢
    generalize x0 = x at hp ⊢
    induction tr generalizing x with
    | nil => simp only [Path] at hp; subst hp; simp
    | cons t tr ih =>
      obtain ⟨h1, h2⟩ := hp
      have h3 := ih (fun t ht => hrow t (List.mem_cons_of_mem _ ht)) t.xNext h2
      have h4 := hrow t List.mem_cons_self
      rw [h1] at h4
      refine h3.trans ?_
      rw [List.length_cons, pow_succ 2, mul_comm _ 2, pow_mul]
      refine pow_le_pow_left₀ (mul_nonneg hq0' (nrm_nonneg _)) ?_ _
      have := mul_le_mul_of_nonneg_left h4 hq0'
      nlinarith

/-- upper bound of the damping at iteration `i`: it starts at `l0` and good steps multiply it by `good_factor`, down to `damping_range[0]` -/
noncomputable def dampAt (so : SolverOpts ℝ) (l0 : ℝ) (i : Nat) : ℝ := max so.dampLo (l0 * so.goodFactor ^ (i - 1))

/-- **C71**, Levenberg-Marquardt on `n` nonlinear equations with `n` unknowns. With `τ = l0 κ / (1 + l0 κ)` (`diag (JᵀJ) ≤ κ JᵀJ`), started where
`L β² |r| (1 + τ) < 2`: every iteration is accepted; iteration `i` multiplies the norm of the residuals by at most `τ_i + (L β² |r| / 2) (1 - τ_i²)`, where `τ_i` belongs to the
damping `max(damping_range[0], l0 good_factor^(i-1))`; so the norm decreases linearly, with a factor below one that depends on the start only, and faster and faster. -/
theorem C71_lm_newton (h : NonlinLS P (fun x => nrm (r x) ≤ R0) r J φ) (hreg : Regular r J R0 β L) (hL : ExactLinAlg LA)
    (hone : so.useLdlt = true ∨ P.dims ≠ some 1) (hr0 : so.dampLo ≤ so.dampHi) (hlo : 0 ≤ so.dampLo) (hin : 0 ≤ so.dampInit)
    (hmin : ∀ x, nrm (r x) ≤ R0 → DiagOk so (gram (J x))) (hclip : so.gradClip = 0)
    (hg0 : 0 ≤ so.goodFactor) (hg1 : so.goodFactor ≤ 1) (hq : o.useStepQuality = false)
    {l0 : ℝ} (hl0 : so.dampLo ≤ l0) (hκ0 : 0 ≤ κ) (hκ : ∀ x v, nrm (r x) ≤ R0 → diagSq (gram (J x)) v ≤ κ * nrm (mv (J x) v) ^ 2)
    (hh : L * β ^ 2 * R0 * (1 + shrink l0 κ) < 2)
    (s : LMState ℝ R) (hs : P.dims = none ∨ s.gn.n = n) (hreb : s.rebuild = true) (hal : Allowed so s.lambda) (hsl : s.lambda ≤ l0)
    (hbf : s.badF = so.badFactor)
    (fuel : Nat) (mi k : Int) (hk : loopBound o mi = some k) (hk2 : k ≤ 65536)
    (w : W) (x0 : Vec ℝ n) (hx0 : nrm (r x0) ≤ R0) (hc0 : nCost so n (φ (dotR (r x0) (r x0))) < maxVal) :
    ∃ st, optimizeAcc (lmEnv so LA P) o (fuel + 1) mi w s x0 = .ok st ∧
      (∀ i t, st.trace[i]? = some t → (r t.x ≠ 0 → t.succ = true) ∧
        nrm (r t.xNext) ≤ (shrink (dampAt so l0 i) κ + L * β ^ 2 * nrm (r t.x) / 2 * (1 - shrink (dampAt so l0 i) κ ^ 2)) * nrm (r t.x)) ∧
      shrink l0 κ + L * β ^ 2 * R0 / 2 * (1 - shrink l0 κ ^ 2) < 1 ∧
      nrm (r st.x) ≤ (shrink l0 κ + L * β ^ 2 * R0 / 2 * (1 - shrink l0 κ ^ 2)) ^ st.trace.length * nrm (r x0) := by
  have hnn : ∀ l, Allowed so l → 0 ≤ l := by
    rintro l (rfl | h)
    · exact hin
    · exact hlo.trans h
  have hl00 : 0 ≤ l0 := hlo.trans hl0
  have hq0 : 0 ≤ L * β ^ 2 := by have := hreg.posL; positivity
  have hR0 : 0 ≤ R0 := (nrm_nonneg _).trans hx0
  have hτ0 := shrink_nonneg hl00 hκ0
  have hτ1 := shrink_lt_one hl00 hκ0
  have hdl : ∀ i, 0 ≤ dampAt so l0 i ∧ dampAt so l0 i ≤ l0 := by
    intro i
    refine ⟨hlo.trans (le_max_left _ _), max_le hl0 ?_⟩
    have : so.goodFactor ^ (i - 1) ≤ 1 := pow_le_one₀ hg0 hg1
    nlinarith
  -- a bound of the factor by that for `l0`, `R0`
  have hfac : ∀ T ρ, 0 ≤ T → T ≤ shrink l0 κ → 0 ≤ ρ → ρ ≤ R0 → L * β ^ 2 * ρ * T ≤ 1 ∧
      T + L * β ^ 2 * ρ / 2 * (1 - T ^ 2) ≤ shrink l0 κ + L * β ^ 2 * R0 / 2 * (1 - shrink l0 κ ^ 2) := by
    intro T ρ hT0 hT hρ0 hρ
    have h1 : L * β ^ 2 * ρ ≤ L * β ^ 2 * R0 := mul_le_mul_of_nonneg_left hρ hq0
    have h2 : 0 ≤ L * β ^ 2 * ρ := mul_nonneg hq0 hρ0
    generalize L * β ^ 2 * ρ = a at *
    generalize L * β ^ 2 * R0 = c at *
    generalize shrink l0 κ = τ at *
    have h3 : a * T ≤ c * τ := mul_le_mul h1 hT hT0 (h2.trans h1)
    have h4 : c * τ ≤ 1 := by
      by_cases hc : c ≤ 1
      · nlinarith
      · nlinarith
    refine ⟨h3.trans h4, ?_⟩
    have h5 : 0 ≤ (τ - T) * (2 - c * (τ + T)) := by
      refine mul_nonneg (by linarith) ?_
      have : c * T ≤ c * τ := mul_le_mul_of_nonneg_left hT (h2.trans h1)
      nlinarith
    have h6 : a / 2 * (1 - T ^ 2) ≤ c / 2 * (1 - T ^ 2) := by
      refine mul_le_mul_of_nonneg_right (by linarith) ?_
      nlinarith
    nlinarith
  have hω : shrink l0 κ + L * β ^ 2 * R0 / 2 * (1 - shrink l0 κ ^ 2) < 1 := by nlinarith
  have hstep : ∀ i x d l, nrm (r x) ≤ R0 → 0 ≤ l → l ≤ dampAt so l0 i → mv (dampedR l (gram (J x))) d = -tmv (J x) (r x) →
      nrm (r (x + d)) ≤ (shrink (dampAt so l0 i) κ + L * β ^ 2 * nrm (r x) / 2 * (1 - shrink (dampAt so l0 i) κ ^ 2)) * nrm (r x) := by
    intro i x d l hx hl hli hd
    have hT := shrink_mono (hdl i).1 (hdl i).2 hκ0
    exact square_step (fun v => hreg.low x v hx) hl hκ0 hreg.posL (fun v => hκ x v hx) hd (hreg.taylor x d) (shrink_mono hl hli hκ0) (hT.trans hτ1.le)
      (hfac _ _ (shrink_nonneg (hdl i).1 hκ0) hT (nrm_nonneg _) hx).1
  have hlin : ∀ i x y, nrm (r x) ≤ R0 → nrm (r y) ≤ (shrink (dampAt so l0 i) κ + L * β ^ 2 * nrm (r x) / 2 * (1 - shrink (dampAt so l0 i) κ ^ 2)) * nrm (r x) →
      nrm (r y) ≤ (shrink l0 κ + L * β ^ 2 * R0 / 2 * (1 - shrink l0 κ ^ 2)) * nrm (r x) := by
    intro i x y hx hy
    exact hy.trans (mul_le_mul_of_nonneg_right
      (hfac _ _ (shrink_nonneg (hdl i).1 hκ0) (shrink_mono (hdl i).1 (hdl i).2 hκ0) (nrm_nonneg _) hx).2 (nrm_nonneg _))
  obtain ⟨st, e, -, ht⟩ := lm_nls_run (o := o) h hL (fun x hx l hl => damped_pd' (gram_pd (hreg.inj hx)) (hnn l hl)) hone hr0 hlo hin hmin hclip
    (K := fun i l b => 0 ≤ l ∧ l ≤ dampAt so l0 i ∧ b = so.badFactor) (fun l b hK => hK)
    (by
      rintro i s2 s3 q hq0 ⟨h0, h1, h2⟩ hg
      obtain rfl := hq0 hq
      have hsc : goodScale so 0 s2.badF = so.goodFactor := by
        unfold goodScale; rw [h2]; simp [ne]
      unfold lmGood at hg
      rw [stdClamp_real hr0, hsc] at hg
      injection hg with hg
      subst hg
      refine ⟨hlo.trans (le_max_left _ _), ?_, rfl⟩
      show max so.dampLo (min (s2.lambda * so.goodFactor) so.dampHi) ≤ max so.dampLo (l0 * so.goodFactor ^ i)
      refine max_le (le_max_left _ _) ((min_le_left _ _).trans ?_)
      have h3 : s2.lambda * so.goodFactor ≤ dampAt so l0 i * so.goodFactor := mul_le_mul_of_nonneg_right h1 hg0
      refine h3.trans ?_
      unfold dampAt
      rcases le_total so.dampLo (l0 * so.goodFactor ^ (i - 1)) with h4 | h4
      · rw [max_eq_right h4]
        refine le_max_of_le_right ?_
        cases i with
        | zero => simp; nlinarith
        | succ j => simp only [Nat.add_sub_cancel]; rw [pow_succ]; linarith
      · rw [max_eq_left h4]
        refine le_max_of_le_left ?_
        nlinarith)
    (fun i x d l b hx hl hK hg hd => by
      have h1 := hlin i x _ hx (hstep i x d l hx hK.1 hK.2.1 hd)
      have hr : 0 < nrm (r x) := by
        refine nrm_pos fun h0 => hg ?_
        rw [h0]; funext j; simp [tmv]
      have : nrm (r (x + d)) < nrm (r x) := by nlinarith
      exact ⟨this.le.trans hx, this⟩)
    s hs hreb hal ⟨hnn _ hal, by simpa [dampAt] using Or.inr hsl, hbf⟩ fuel mi k hk hk2 w x0 hx0 hc0
  have hrow : ∀ i t, st.trace[i]? = some t → nrm (r t.x) ≤ R0 ∧ (r t.x ≠ 0 → t.succ = true) ∧
        nrm (r t.xNext) ≤ (shrink (dampAt so l0 i) κ + L * β ^ 2 * nrm (r t.x) / 2 * (1 - shrink (dampAt so l0 i) κ ^ 2)) * nrm (r t.x) := by
    intro i t hi
    obtain ⟨h1, h2, h3⟩ := ht i t hi
    by_cases hg : tmv (J t.x) (r t.x) = 0
    · have h4 := hreg.square_pos h1 hg
      refine ⟨h1, fun h => absurd h4 h, ?_⟩
      rw [h2 hg, h4, nrm_zero]; simp
    · obtain ⟨h4, l, b, h5, h6, h7⟩ := h3 hg
      have := hstep i t.x _ l h1 h5.1 h5.2.1 h7
      rw [add_sub_cancel] at this
      exact ⟨h1, fun _ => h4, this⟩
  refine ⟨st, e, fun i t hi => (hrow i t hi).2, hω, ?_⟩
  have hstep' : ∀ t ∈ st.trace, nrm (r t.xNext) ≤ (shrink l0 κ + L * β ^ 2 * R0 / 2 * (1 - shrink l0 κ ^ 2)) * nrm (r t.x) := by
    intro t htt
    obtain ⟨i, hi⟩ := List.getElem?_of_mem htt
    obtain ⟨h1, -, h2⟩ := hrow i t hi
    exact hlin i _ _ h1 h2
  have hω0 : 0 ≤ shrink l0 κ + L * β ^ 2 * R0 / 2 * (1 - shrink l0 κ ^ 2) := by
    have : 0 ≤ L * β ^ 2 * R0 := mul_nonneg hq0 hR0
    nlinarith
  have hp := run_path e
  clear ht hrow hx0 hc0 e
  generalize st.x = y at hp ⊢
  generalize st.trace = tr at hp hstep' ⊢
  generalize x0 = x at hp ⊢
  induction tr generalizing x with
  | nil => simp only [Path] at hp; subst hp; simp
  | cons t tr ih =>
    obtain ⟨h1, h2⟩ := hp
    have h3 := ih (fun t ht => hstep' t (List.mem_cons_of_mem _ ht)) t.xNext h2
    have h4 := hstep' t List.mem_cons_self
    rw [h1] at h4
    rw [List.length_cons, pow_succ, mul_assoc]
    exact h3.trans (mul_le_mul_of_nonneg_left h4 (by positivity))

end

/-! ### the hypotheses can be met -/

/-- the equation `x² = 4` -/
def root4 : Vec ℝ 1 → Vec ℝ 1 := fun x _ => x 0 * x 0 - 4
def root4J : Vec ℝ 1 → Fin 1 → Fin 1 → ℝ := fun x _ _ => 2 * x 0

theorem root4_reg : Regular root4 root4J 1 (1 / 3) 2 where
  jac x := by
    intro i
    have h := (hasGrad_coord (n := 1) 0 x).comp_deriv (φ := fun t => t * t - 4) (d := 2 * x 0) (by
      have := ((hasDerivAt_id (x 0)).mul (hasDerivAt_id (x 0))).sub_const 4
      refine this.congr_deriv ?_
      simp; ring)
    refine HasGrad.congr_J h ?_
    funext j; fin_cases j; simp [root4J]
  lip x y v := by
    rw [nrm_one, nrm_one, nrm_one]
    simp only [Pi.sub_apply, mv, root4J, Fin.sum_univ_succ, Fin.sum_univ_zero, add_zero]
    rw [← sub_mul, ← mul_sub, abs_mul, abs_mul]; simp
  low x v hx := by
    rw [nrm_one] at *
    rw [nrm_one]
    simp only [root4, mv, root4J, Fin.sum_univ_succ, Fin.sum_univ_zero, add_zero] at *
    rw [abs_mul, abs_mul]
    have h1 : (3 / 2 : ℝ) ≤ |x 0| := by
      rw [abs_le] at hx
      refine abs_le_of_sq_le_sq' ?_ (abs_nonneg _) |>.2
      rw [sq_abs]; nlinarith
    have := abs_nonneg (v 0)
    rw [abs_two]
    nlinarith
  posL := by norm_num

/-- hypotheses of `C71_lm_newton`, `C71_gn_newton`, `C71_lm_monotone` and `C71_gn_monotone`: one equation, default damping, started at `x = 2.2` -/
example (k : Nat) (hk : k < 1000) : NonlinLS (nlsProb root4 root4J) (fun x => nrm (root4 x) ≤ 1) root4 root4J ∧
    Regular root4 root4J 1 (1 / 3) 2 ∧ (2 * (1 / 3) ^ 2 * 1 * (1 + shrink soptsR.dampInit 1) : ℝ) < 2 ∧ (2 * (1 / 3) ^ 2 * 1 : ℝ) < 1 ∧
    ExactLinAlg someLinAlg ∧ soptsR.useLdlt = true ∧ soptsR.dampLo ≤ soptsR.dampHi ∧ 0 ≤ soptsR.dampLo ∧ soptsR.dampLo ≤ soptsR.dampInit ∧
    (∀ x, Solves soptsR ((nlsProb root4 root4J).dims == some 1) (gram (root4J x))) ∧
    (∀ x, DiagOk soptsR (gram (root4J x))) ∧ soptsR.gradClip = 0 ∧ 0 ≤ soptsR.goodFactor ∧ soptsR.goodFactor ≤ 1 ∧ (optsR k).useStepQuality = false ∧
    (∀ x v, diagSq (gram (root4J x)) v ≤ 1 * nrm (mv (root4J x) v) ^ 2) ∧ (∃ b, loopBound (optsR k) (-1) = some b ∧ b ≤ 65536) ∧
    nrm (root4 fun _ => 22 / 10) ≤ 1 ∧ root4 (fun _ => 22 / 10) ≠ 0 ∧
    nCost soptsR 1 (dotR (root4 fun _ => 22 / 10) (root4 fun _ => 22 / 10)) < maxVal := by
  refine ⟨nlsProb_nls _ _ _ (by decide) (by decide), root4_reg, by norm_num [shrink, soptsR], by norm_num, someLinAlg_exact, rfl, by norm_num [soptsR],
    by norm_num [soptsR], by norm_num [soptsR], fun _ => Or.inl rfl, fun _ => Or.inl (le_refl _), rfl, by norm_num [soptsR], by norm_num [soptsR], rfl,
    fun x v => ?_, ?_, ?_, ?_, ?_⟩
  · rw [nrm_sq]
    simp [diagSq, gram, dotR, mv, root4J]
    apply le_of_eq; ring
  · by_cases h0 : k = 0
    · subst h0; exact ⟨1, by decide, by decide⟩
    · have h6 : ¬ ((k : Int) + 1 + 1 > intMax) := by unfold intMax; omega
      refine ⟨(k : Int) + 1, ?_, by omega⟩
      simp only [loopBound, optsR]
      simp [h6]
  · rw [nrm_one]; norm_num [abs_le, root4]
  · intro h; have := congrFun h 0; norm_num [root4] at this
  · have : dotR (root4 fun _ => 22 / 10) (root4 fun _ => 22 / 10) = 441 / 625 := by
      simp [dotR, root4]; norm_num
    rw [this]
    show nCost soptsR 1 (441 / 625) < 2 ^ 1024
    simp [nCost, normalizeCost, soptsR]
    exact lt_of_lt_of_le (by norm_num : (441 / 625 : ℝ) < 2 ^ 3) (pow_le_pow_right₀ (by norm_num) (by norm_num))

/-- the monotonicity theorems also apply to more equations than unknowns: `Regular` holds for `parabola` -/
theorem parabola_reg : Regular parabola parabolaJ (1 / 10) (1 / 2) 2 where
  jac x := (parabola_jac x)
  lip x y v := by
    refine le_of_abs_le (abs_le_of_sq_le_sq ?_ (by have := nrm_nonneg (x - y); have := nrm_nonneg v; positivity))
    rw [nrm_sq, mul_pow, mul_pow, nrm_one, nrm_one, sq_abs, sq_abs]
    simp [dotR, mv, parabolaJ, Fin.sum_univ_succ]
    nlinarith
  low x v hx := by
    refine parabola_zeroRes.low x v (le_trans ?_ hx)
    rw [nrm_one]
    refine le_of_abs_le (abs_le_of_sq_le_sq ?_ (nrm_nonneg _))
    rw [nrm_sq, sq_abs]
    simp [dotR, parabola, Fin.sum_univ_succ]
    nlinarith [sq_nonneg (x 0 * x 0 - 1)]
  posL := by norm_num

end Verif
