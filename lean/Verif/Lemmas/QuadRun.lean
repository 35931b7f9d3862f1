import Verif.Props.LmGlobal
import Verif.Props.GradientDescent
/-!
# Runs of Gauss-Newton and Levenberg-Marquardt with any gradient and Hessian approximation
-/

set_option linter.unusedSectionVars false

namespace Verif
open FloatOps Loss

section
variable {R W : Type} {m n : Nat}
variable {so : SolverOpts ℝ} {LA : LinAlg ℝ} {P : Problem ℝ R W (Vec ℝ n)} {o : Options ℝ W (DVec ℝ)}
variable {Ω : Vec ℝ n → Prop} {f : Vec ℝ n → ℝ} {G : Vec ℝ n → Vec ℝ n} {Q : Vec ℝ n → Mat ℝ n}

/-- The user's function returns, on `Ω`, the cost `f` of `m > 0` residuals, the gradient `G` and the positive semi-definite matrix `Q`. -/
structure UserQuad (P : Problem ℝ R W (Vec ℝ n)) (Ω : Vec ℝ n → Prop) (f : Vec ℝ n → ℝ) (G : Vec ℝ n → Vec ℝ n) (Q : Vec ℝ n → Mat ℝ n) (m : Nat) : Prop
    extends VecParams P where
  pos : 0 < m
  psd : ∀ x, Ω x → PSD (Q x)
  full : ∀ w x, Ω x → ∃ c w', P.acc.full w x n (fun _ => 0) (fun _ _ => 0) = ((c, G x, Q x), w') ∧ c.cost = f x ∧ c.num = m
  eval : ∀ w x, Ω x → (P.acc.eval w x).1.cost = f x ∧ (P.acc.eval w x).1.num = m

theorem quad_build (h : UserQuad P Ω f G Q m) (hclip : so.gradClip = 0) (w : W) (s : GNState ℝ R) (hs : s.n = n)
    (x : Vec ℝ n) (hΩ : Ω x) (hmin : DiagOk so (Q x)) (hx : nCost so m (f x) ≠ maxVal) :
    ∃ c w', buildSystem so P w s x = (true, ⟨n, G x, Q x, c⟩, w') ∧ c.cost = nCost so m (f x) ∧ c.isValid = true := by
  obtain ⟨sn, sg, sH, sc⟩ := s
  simp only at hs
  subst hs
  obtain ⟨c, w', hu, hc, hn⟩ := h.full w x hΩ
  have hcost : (normalizeCost so c).cost = nCost so m (f x) := by rw [normalizeCost_eq c hn, hc]
  have hv : (normalizeCost so c).isValid = true := by
    have h1 : eq (normalizeCost so c).cost maxVal = false := by rw [RealOps.eq_eq_false, hcost]; exact hx
    have h2 := h.pos
    unfold Cost.isValid ne
    rw [h1, normalizeCost_num, hn]
    simpa using h2
  refine ⟨normalizeCost so c, w', ?_, hcost, hv⟩
  unfold buildSystem gnAccumulate
  rw [show P.acc.full w x sn (fun _ => ofInt 0) (fun _ _ => ofInt 0) = _ from by simpa using hu]
  simp only [hv, if_true]
  rw [if_neg hmin.pass]
  rw [Unclipped.clamp (so := so) (Or.inl hclip), symUpper_of_sym ((h.psd x hΩ).1)]
  split <;> rfl

theorem quad_gn_delivers (h : UserQuad P Ω f G Q m) (hL : ExactLinAlg LA) (hclip : so.gradClip = 0) (w : W) (s : GNState ℝ R) (hs : P.dims = none ∨ s.n = n)
    (x : Vec ℝ n) (hΩ : Ω x) (hpd : PD (Q x)) (hone : Solves so (P.dims == some 1) (Q x)) (hmin : DiagOk so (Q x))
    (hx : nCost so m (f x) ≠ maxVal) :
    ∃ s2 dx, Delivers (gnEnv so LA P) w s x s2 ⟨n, dx⟩ ∧ s2.n = n ∧ s2.cost.cost = nCost so m (f x) ∧
      mv (Q x) dx = -G x := by
  obtain ⟨s1, w1, hr, hn1, -⟩ := resize_works h.toVecParams w s hs
  obtain ⟨c, w2, hb, hc, hv⟩ := quad_build h hclip w1 s1 hn1 x hΩ hmin hx
  obtain ⟨v, h1, h2⟩ := gnSolve_pd (so := so) hL (P.dims == some 1) ⟨n, G x, Q x, c⟩ hv hpd hone
  refine ⟨⟨n, G x, Q x, c⟩, v, ⟨⟨s1, w1, w2, resizeIfNeeded_works h.toVecParams hr, hb⟩, h1, rfl, rfl, fun q => ⟨_, rfl⟩, ⟨_, rfl⟩⟩, rfl, hc, h2⟩

/-- what is known of the LM solver before a `Build` at `x` -/
def QuadReady (G : Vec ℝ n → Vec ℝ n) (Q : Vec ℝ n → Mat ℝ n) (s : LMState ℝ R) (x : Vec ℝ n) : Prop :=
  s.rebuild = true ∨ (G x = 0 ∧ 0 ≤ s.prev ∧ ∃ mu c, s.gn = ⟨n, 0, dampedR mu (Q x), c⟩ ∧ s.prev ≤ mu)

theorem quad_lm_delivers (h : UserQuad P Ω f G Q m) (hL : ExactLinAlg LA) (hone : so.useLdlt = true ∨ P.dims ≠ some 1) (hr0 : so.dampLo ≤ so.dampHi)
    (hlo : 0 ≤ so.dampLo) (hin : 0 ≤ so.dampInit) (hclip : so.gradClip = 0) (w : W) (s : LMState ℝ R) (hs : P.dims = none ∨ s.gn.n = n)
    (x : Vec ℝ n) (hΩ : Ω x) (hA : ∀ l, Allowed so l → PD (dampedR l (Q x))) (hmin : DiagOk so (Q x))
    (hx : nCost so m (f x) ≠ maxVal) (hal : Allowed so s.lambda) (hrd : QuadReady G Q s x) :
    ∃ s2 dx, Delivers (lmEnv so LA P) w s x s2 ⟨n, dx⟩ ∧ s2.gn.n = n ∧ s2.gn.cost.cost = nCost so m (f x) ∧
      s2.lambda = s.lambda ∧ s2.rebuild = s.rebuild ∧ (G x = 0 → dx = 0) ∧
      (G x = 0 → ∃ mu c, s2.gn = ⟨n, 0, dampedR mu (Q x), c⟩ ∧ s.lambda ≤ mu) ∧
      s2.badF = s.badF ∧ (G x ≠ 0 → mv (dampedR s.lambda (Q x)) dx = -G x) ∧ sqNorm s2.gn.g = dotR (G x) (G x) := by
  have hl0 : 0 ≤ s.lambda := by
    rcases hal with h1 | h1
    · rw [h1]; exact hin
    · exact hlo.trans h1
  have hone' : ∀ H : Mat ℝ n, Solves so (P.dims == some 1) H := by
    intro H
    rcases hone with h1 | h1
    · exact Or.inl h1
    · right; left
      rw [beq_eq_false_iff_ne]; exact h1
  have hgood : ∀ (s2 : LMState ℝ R) q, ∃ s', lmGood so s2 q = .ok s' := by
    intro s2 q; unfold lmGood; rw [stdClamp_real hr0]; exact ⟨_, rfl⟩
  have hbad : ∀ (s2 : LMState ℝ R), ∃ s', lmBad so s2 = .ok s' := by
    intro s2; unfold lmBad; rw [stdClamp_real hr0]; exact ⟨_, rfl⟩
  by_cases hreb : s.rebuild = true
  · obtain ⟨g1, w1, hr, hn1, -⟩ := resize_works h.toVecParams w s.gn hs
    obtain ⟨c, w2, hb, hc, hv⟩ := quad_build h hclip w1 g1 hn1 x hΩ hmin hx
    have hpd := hA s.lambda hal
    have hr' : (lmSolver so LA P).resize w s n = (.done { s with gn := g1 }, w1) := by
      simp only [lmSolver, hr]
    have hb' : lmBuild so P w1 { s with gn := g1 } x = (true, { s with gn := ⟨n, G x, dampedR s.lambda (Q x), c⟩ }, w2) := by
      unfold lmBuild
      simp only [hreb, if_true]
      rw [hb]
      simp only [if_true]
      have := lmDamp_ls (R := R) (s := s) hreb hl0 (g := G x) (H := Q x) (c := c)
      rw [hreb] at this
      rw [this]
    obtain ⟨v, h1, h2⟩ := gnSolve_pd (so := so) hL (P.dims == some 1) ⟨n, G x, dampedR s.lambda (Q x), c⟩ hv hpd (hone' _)
    refine ⟨{ s with gn := ⟨n, G x, dampedR s.lambda (Q x), c⟩ }, v,
      ⟨⟨_, w1, w2, resizeIfNeeded_works h.toVecParams hr', hb'⟩, h1, rfl, rfl, fun q => hgood _ q, hbad _⟩, rfl, hc, rfl, rfl, fun hg => ?_, ?_, rfl, fun _ => h2, sqNorm_eq (G x)⟩
    · simp only [hg, neg_zero] at h2
      rw [← mv_zero (dampedR s.lambda (Q x))] at h2
      exact pd_inj hpd h2
    · intro hg
      exact ⟨s.lambda, c, by rw [hg], le_refl _⟩
  · obtain ⟨hg, hp0, mu, c0, hgn, hmu⟩ := hrd.resolve_left hreb
    have hreb' : s.rebuild = false := Bool.not_eq_true _ ▸ hreb
    have hn : s.gn.n = n := by rw [hgn]
    obtain ⟨g1, w1, hr, hn1, hid⟩ := resize_works h.toVecParams w s.gn hs
    have := hid hn
    subst this
    have hr' : (lmSolver so LA P).resize w s n = (.done s, w1) := by
      simp only [lmSolver, hr]
    rcases hev : P.acc.eval w1 x with ⟨c, w2⟩
    have hE := h.eval w1 x hΩ
    rw [hev] at hE
    have hcost : (normalizeCost so c).cost = nCost so m (f x) := by rw [normalizeCost_eq c hE.2, hE.1]
    have hv : (normalizeCost so c).isValid = true := by
      have h1 : eq (normalizeCost so c).cost maxVal = false := by rw [RealOps.eq_eq_false, hcost]; exact hx
      have h2 := h.pos
      unfold Cost.isValid ne
      rw [h1, normalizeCost_num, hE.2]
      simpa using h2
    have hmu0 : 0 ≤ mu := hp0.trans hmu
    obtain ⟨mu', hmu', hpd', hdamp⟩ : ∃ mu', s.lambda ≤ mu' ∧ PD (dampedR mu' (Q x)) ∧
        lmDamp { s with gn := ⟨n, 0, dampedR mu (Q x), normalizeCost so c⟩ } = { s with gn := ⟨n, 0, dampedR mu' (Q x), normalizeCost so c⟩ } := by
      by_cases hpos : 0 < s.lambda
      · have hk : 1 + s.lambda ≤ (1 + s.lambda) / (1 + s.prev) * (1 + mu) := by
          rw [div_mul_eq_mul_div, le_div_iff₀ (by linarith)]
          exact mul_le_mul_of_nonneg_left (by linarith) (by linarith)
        refine ⟨(1 + s.lambda) / (1 + s.prev) * (1 + mu) - 1, by linarith, ?_, ?_⟩
        · exact damped_pd_mono (h.psd x hΩ) (hA _ hal) (by linarith)
        · unfold lmDamp
          simp only [hreb', Bool.false_eq_true, if_false]
          rw [if_pos (by simpa using hpos), ← scale_damped]
          simp
      · have hz : s.lambda = 0 := le_antisymm (not_lt.mp hpos) hl0
        refine ⟨mu, by rw [hz]; exact hmu0, damped_pd_mono (h.psd x hΩ) (hA _ hal) (by rw [hz]; exact hmu0), ?_⟩
        unfold lmDamp
        rw [if_neg (by simpa using hpos)]
    have hb' : lmBuild so P w1 s x = (true, { s with gn := ⟨n, 0, dampedR mu' (Q x), normalizeCost so c⟩ }, w2) := by
      unfold lmBuild
      simp only [hreb', Bool.false_eq_true, if_false]
      have : lmEvaluate so P w1 s.gn x = (⟨n, 0, dampedR mu (Q x), normalizeCost so c⟩, w2) := by
        unfold lmEvaluate; rw [hev, hgn]
      rw [this]
      simp only [hv, if_true]
      rw [hreb'] at hdamp
      rw [hdamp]
    obtain ⟨v, h1, h2⟩ := gnSolve_pd (so := so) hL (P.dims == some 1) ⟨n, 0, dampedR mu' (Q x), normalizeCost so c⟩ hv hpd' (hone' _)
    have hv0 : v = 0 := by
      simp only [neg_zero] at h2
      rw [← mv_zero (dampedR mu' (Q x))] at h2
      exact pd_inj hpd' h2
    refine ⟨{ s with gn := ⟨n, 0, dampedR mu' (Q x), normalizeCost so c⟩ }, v,
      ⟨⟨_, w1, w2, resizeIfNeeded_works h.toVecParams hr', hb'⟩, h1, rfl, rfl, fun q => hgood _ q, hbad _⟩, rfl, hcost, rfl, rfl, fun _ => hv0, ?_, rfl, fun h => absurd hg h, by rw [hg]; exact sqNorm_eq (0 : Vec ℝ n)⟩
    intro _
    exact ⟨mu', _, rfl, hmu'⟩

/-- Runs of Levenberg-Marquardt on a region `Ω` where every damped step decreases the cost; `K i` is any property of the damping and the factor of
bad steps at iteration `i` that good steps keep. -/
theorem lm_quad_run (h : UserQuad P Ω f G Q m) (hsq : so.useSquaredNorm = true ∨ ∀ x, Ω x → 0 ≤ f x) (hL : ExactLinAlg LA) (hA : ∀ x, Ω x → ∀ l, Allowed so l → PD (dampedR l (Q x)))
    (hone : so.useLdlt = true ∨ P.dims ≠ some 1) (hr0 : so.dampLo ≤ so.dampHi) (hlo : 0 ≤ so.dampLo) (hin : 0 ≤ so.dampInit)
    (hmin : ∀ x, Ω x → DiagOk so (Q x)) (hclip : so.gradClip = 0) (K : Nat → ℝ → ℝ → Prop) (hK1 : ∀ l β, K 0 l β → K 1 l β)
    (hKg : ∀ i (s2 s3 : LMState ℝ R) q, (o.useStepQuality = false → q = 0) → K i s2.lambda s2.badF → lmGood so s2 q = .ok s3 → K (i + 1) s3.lambda s3.badF)
    (hdec : ∀ i x d l β, Ω x → Allowed so l → K i l β → G x ≠ 0 → mv (dampedR l (Q x)) d = -G x →
      Ω (x + d) ∧ f (x + d) < f x)
    (s : LMState ℝ R) (hs : P.dims = none ∨ s.gn.n = n) (hreb : s.rebuild = true) (hal : Allowed so s.lambda) (hK0 : K 0 s.lambda s.badF)
    (fuel : Nat) (mi k : Int) (hk : loopBound o mi = some k) (hk2 : k ≤ 65536)
    (w : W) (x0 : Vec ℝ n) (hΩ : Ω x0) (hx0 : nCost so m (f x0) < maxVal) :
    ∃ st, optimizeAcc (lmEnv so LA P) o (fuel + 1) mi w s x0 = .ok st ∧ Ω st.x ∧ ∀ i t, st.trace[i]? = some t →
      Ω t.x ∧ (G t.x = 0 → t.xNext = t.x) ∧
      (G t.x ≠ 0 → t.succ = true ∧ ∃ l β, K i l β ∧ Allowed so l ∧
        mv (dampedR l (Q t.x)) (t.xNext - t.x) = -G t.x) := by
  obtain ⟨st, e, h1, ht⟩ := descent_run (P := P) (o := o) (sol := lmSolver so LA P) (fo := false) h.toVecParams
    (Ok := fun i s x => (P.dims = none ∨ s.gn.n = n) ∧ Allowed so s.lambda ∧ QuadReady G Q s x ∧ (G x ≠ 0 → K i s.lambda s.badF))
    (Ω := fun x => Ω x ∧ nCost so m (f x) < maxVal) (Stat := fun x => G x = 0)
    (c := fun x => nCost so m (f x))
    (Step := fun i x d => (G x = 0 → d = 0) ∧
      (G x ≠ 0 → ∃ l β, K i l β ∧ Allowed so l ∧ mv (dampedR l (Q x)) d = -G x)) (k := k)
    (fun i w s x hok hx => by
      obtain ⟨hsz, hal, hrd, hK⟩ := hok
      obtain ⟨s2, dx, hdel, hn2, hc2, hlam, hrb, hzero, hgnz, hbf, hsolv, -⟩ :=
        quad_lm_delivers h hL hone hr0 hlo hin hclip w s hsz x hx.1 (hA x hx.1) (hmin x hx.1) hx.2.ne hal hrd
      refine ⟨s2, dx, hdel, hc2, ⟨hzero, fun hg => ⟨s.lambda, s.badF, hK hg, hal, hsolv hg⟩⟩, fun s3 h5 => ?_, fun hg s3 b h5 => ?_⟩
      · have key : s3.gn.n = n ∧ Allowed so s3.lambda ∧ (G (x + dx) ≠ 0 → K (i + 1) s3.lambda s3.badF) := by
          have hgx : G (x + dx) ≠ 0 → G x ≠ 0 := by
            intro h1 h2; rw [hzero h2, add_zero] at h1; exact h1 h2
          rcases h5 with ⟨rfl, h0⟩ | ⟨q, hq, h5⟩
          · have hi : i = 0 := by rcases h0 with h0 | h0 <;> omega
            subst hi
            exact ⟨hn2, by rw [hlam]; exact hal, fun hg => by rw [hlam, hbf]; exact hK1 _ _ (hK (hgx hg))⟩
          · obtain ⟨a1, a2, a3⟩ := lm_hook hr0 (Or.inl ⟨q, h5⟩)
            exact ⟨by rw [a1]; exact hn2, Or.inr a3, fun hg => hKg i s2 s3 q hq (by rw [hlam, hbf]; exact hK (hgx hg)) h5⟩
        exact ⟨Or.inr key.1, key.2.1, Or.inl rfl, key.2.2⟩
      · have h6 : (∃ q, lmGood so s2 q = .ok s3) ∨ lmBad so s2 = .ok s3 := by
          rcases h5 with h5 | h5 | h5
          · exact Or.inl h5
          · exact Or.inr h5
          · omega
        obtain ⟨a1, a2, a3⟩ := lm_hook hr0 h6
        obtain ⟨mu, c, e1, e2⟩ := hgnz hg
        refine ⟨Or.inr (by show s3.gn.n = n; rw [a1]; exact hn2), Or.inr a3, Or.inr ⟨hg, ?_, mu, c, ?_, ?_⟩, fun h => absurd hg h⟩
        · show 0 ≤ s3.prev
          rw [a2, hlam]
          rcases hal with h1 | h1
          · rw [h1]; exact hin
          · exact hlo.trans h1
        · show s3.gn = _
          rw [a1]; exact e1
        · show s3.prev ≤ mu
          rw [a2, hlam]; exact e2)
    (fun i x d hx hd => by
      by_cases hg : G x = 0
      · have := hd.1 hg
        subst this
        exact ⟨fun _ => rfl, by rw [add_zero]; exact hx, fun h => absurd hg h⟩
      · obtain ⟨l, β, h1, h2, h3⟩ := hd.2 hg
        obtain ⟨h4, h5⟩ := hdec i x d l β hx.1 h2 h1 hg h3
        have h6 := (nCost_mono (so := so) h.pos (hsq.imp id fun hn => ⟨hn _ h4, hn _ hx.1⟩)).mpr h5
        exact ⟨fun h => absurd h hg, ⟨h4, h6.trans hx.2⟩, fun _ => h6⟩)
    (fun x hx => hx.2) (fuel := fuel) (mi := mi) hk (w := w) (s := s) (x0 := x0) ⟨hs, hal, Or.inl hreb, fun _ => hK0⟩ ⟨hΩ, hx0⟩
  refine ⟨st, e, h1.1, fun i t hi => ?_⟩
  obtain ⟨h2, d, h3, h4, h5⟩ := ht i t hi
  refine ⟨h2.1, fun hg => by rw [h4, h3.1 hg, add_zero], fun hg => ⟨h5 hg, ?_⟩⟩
  rw [h4, add_sub_cancel_left]
  exact h3.2 hg


/-- the same for Gauss-Newton, with any number of iterations -/
theorem gn_quad_run {Ω : Vec ℝ n → Prop} (h : UserQuad P Ω f G Q m) (hsq : so.useSquaredNorm = true ∨ ∀ x, Ω x → 0 ≤ f x) (hL : ExactLinAlg LA) (hA : ∀ x, Ω x → PD (Q x))
    (hone : ∀ x, Ω x → Solves so (P.dims == some 1) (Q x)) (hmin : ∀ x, Ω x → DiagOk so (Q x)) (hclip : so.gradClip = 0)
    (hdec : ∀ x d, Ω x → G x ≠ 0 → mv (Q x) d = -G x → Ω (x + d) ∧ f (x + d) < f x)
    (s : GNState ℝ R) (hs : P.dims = none ∨ s.n = n) (fuel : Nat) (mi k : Int) (hk : loopBound o mi = some k)
    (w : W) (x0 : Vec ℝ n) (hΩ : Ω x0) (hx0 : nCost so m (f x0) < maxVal) :
    ∃ st, optimizeAcc (gnEnv so LA P) o (fuel + 1) mi w s x0 = .ok st ∧ ∀ t ∈ st.trace,
      Ω t.x ∧ mv (Q t.x) (t.xNext - t.x) = -G t.x ∧ (G t.x ≠ 0 → t.succ = true) := by
  obtain ⟨st, e, -, ht⟩ := descent_run (P := P) (o := o) (sol := gnSolver so LA P) (fo := false) h.toVecParams
    (Ok := fun _ s _ => P.dims = none ∨ s.n = n)
    (Ω := fun x => Ω x ∧ nCost so m (f x) < maxVal) (Stat := fun x => G x = 0)
    (c := fun x => nCost so m (f x)) (Step := fun _ x d => mv (Q x) d = -G x) (k := k)
    (fun _ w s x hok hx => by
      obtain ⟨s2, dx, h1, h2, h3, h4⟩ := quad_gn_delivers h hL hclip w s hok x hx.1 (hA x hx.1) (hone x hx.1) (hmin x hx.1) hx.2.ne
      refine ⟨s2, dx, h1, h3, h4, fun s3 h5 => ?_, fun _ s3 b h5 => ?_⟩
      · rcases h5 with ⟨rfl, -⟩ | ⟨q, -, h5⟩
        · exact Or.inr h2
        · injection h5 with h5; subst h5; exact Or.inr h2
      · rcases h5 with ⟨q, h5⟩ | h5 | ⟨h5, -⟩
        · injection h5 with h5; subst h5; exact Or.inr h2
        · injection h5 with h5; subst h5; exact Or.inr h2
        · subst h5; exact Or.inr h2)
    (fun _ x d hx hd => by
      by_cases he : G x = 0
      · have : d = 0 := by
          have hd' := hd
          rw [he, neg_zero, ← mv_zero (Q x)] at hd'
          exact pd_inj (hA x hx.1) hd'
        subst this
        exact ⟨fun _ => rfl, by rw [add_zero]; exact hx, fun h => absurd he h⟩
      · have h1 := hdec x d hx.1 he hd
        have h2 := (nCost_mono (so := so) h.pos (hsq.imp id fun hn => ⟨hn _ h1.1, hn _ hx.1⟩)).mpr h1.2
        exact ⟨fun h => absurd h he, ⟨h1.1, h2.trans hx.2⟩, fun _ => h2⟩)
    (fun x hx => hx.2) (fuel := fuel) (mi := mi) hk (w := w) (s := s) (x0 := x0) hs ⟨hΩ, hx0⟩
  refine ⟨st, e, fun t htt => ?_⟩
  obtain ⟨i, hi⟩ := List.getElem?_of_mem htt
  obtain ⟨h1, d, h2, h3, h4⟩ := ht i t hi
  refine ⟨h1.1, ?_, h4⟩
  rw [h3, add_sub_cancel_left]; exact h2

end
end Verif
