import Verif.Lemmas.QuadRun
import Verif.Lemmas.Contracting
import Verif.Props.GivesUp
/-!
# Levenberg-Marquardt with a constant diagonal matrix

The proof of `Prior.C139_rate` with any positive diagonal and any cost that decreases towards the minimum.
-/

namespace Verif.DiagRun
open Loss FloatOps

variable {n : Nat}

/-- diagonal matrix -/
def diagM (ω : RVec n) : Mat ℝ n := fun i j => if i = j then ω i else 0

/-- the gradient of a quadratic function with this matrix and the minimum `y` -/
def diagG (ω y : RVec n) (x : RVec n) : RVec n := fun i => ω i * (x i - y i)

section
variable {R W : Type} {so : SolverOpts ℝ} {LA : LinAlg ℝ} {P : Problem ℝ R W (RVec n)} {o : Options ℝ W (DVec ℝ)} {y ω : RVec n} {f : RVec n → ℝ} {m : Nat}

theorem diagM_pd (hω : ∀ i, 0 < ω i) {l : ℝ} (hl : 0 ≤ l) : PD (dampedR l (diagM ω)) := by
  refine ⟨fun i j => ?_, fun v hv => ?_⟩
  · unfold dampedR diagM
    by_cases hij : i = j
    · rw [hij]
    · rw [if_neg hij, if_neg hij, if_neg (Ne.symm hij), if_neg (Ne.symm hij)]
  · have e : ∀ i, mv (dampedR l (diagM ω)) v i = (1 + l) * ω i * v i := by
      intro i
      unfold mv dampedR diagM
      rw [Finset.sum_eq_single i]
      · simp only [if_true]; ring
      · intro j _ hj
        rw [if_neg (Ne.symm hj), if_neg (Ne.symm hj)]; ring
      · simp
    obtain ⟨i, hi⟩ : ∃ i, v i ≠ 0 := by
      by_contra hc
      push Not at hc
      exact hv (funext hc)
    refine Finset.sum_pos' (fun j _ => ?_) ⟨i, Finset.mem_univ _, ?_⟩
    · rw [e]
      have : v j * ((1 + l) * ω j * v j) = (1 + l) * ω j * v j ^ 2 := by ring
      have := hω j
      rw [‹v j * _ = _›]; positivity
    · rw [e]
      have : v i * ((1 + l) * ω i * v i) = (1 + l) * ω i * v i ^ 2 := by ring
      have := hω i
      rw [‹v i * _ = _›]; positivity

theorem diag_mv (hω : ∀ i, 0 < ω i) {l : ℝ} (hl : 0 ≤ l) (x : RVec n) :
    mv (dampedR l (diagM ω)) (-(1 / (1 + l)) • (x - y)) = -diagG ω y x := by
  have h1 : 1 + l ≠ 0 := by positivity
  funext i
  unfold diagG
  unfold mv dampedR diagM
  rw [Finset.sum_eq_single i]
  · have := hω i
    simp only [if_true, Pi.smul_apply, Pi.sub_apply, Pi.neg_apply, smul_eq_mul]
    field_simp
  · intro j _ hj
    rw [if_neg (Ne.symm hj), if_neg (Ne.symm hj)]; ring
  · simp

theorem diag_delivers (h : UserQuad P (fun _ => True) f (diagG ω y) (fun _ => diagM ω) m) (hω : ∀ i, 0 < ω i) (hL : ExactLinAlg LA) (hr0 : so.dampLo ≤ so.dampHi) (hclip : so.gradClip = 0) (w : W) (s : LMState ℝ R)
    (hs : P.dims = none ∨ s.gn.n = n) (x : RVec n) (hreb : s.rebuild = true) (hl0 : 0 ≤ s.lambda)
    (hone : so.useLdlt = true ∨ P.dims ≠ some 1) (hmin : DiagOk so (diagM ω)) (hx : nCost so m (f x) ≠ maxVal) :
    ∃ c, Delivers (lmEnv so LA P) w s x { s with gn := ⟨n, diagG ω y x, dampedR s.lambda (diagM ω), c⟩ } ⟨n, -(1 / (1 + s.lambda)) • (x - y)⟩ ∧
      c.cost = nCost so m (f x) := by
  have hgood : ∀ (s2 : LMState ℝ R) q, ∃ s', lmGood so s2 q = .ok s' := by
    intro s2 q; unfold lmGood; rw [stdClamp_real hr0]; exact ⟨_, rfl⟩
  have hbad : ∀ (s2 : LMState ℝ R), ∃ s', lmBad so s2 = .ok s' := by
    intro s2; unfold lmBad; rw [stdClamp_real hr0]; exact ⟨_, rfl⟩
  obtain ⟨g1, w1, hr, hn1, -⟩ := resize_works h.toVecParams w s.gn hs
  obtain ⟨c, w2, hb, hc, hvalid⟩ := quad_build h hclip w1 g1 hn1 x trivial hmin hx
  have hb0 : buildSystem so P w1 g1 x = (true, ⟨n, diagG ω y x, diagM ω, c⟩, w2) := hb
  have hr' : (lmSolver so LA P).resize w s n = (.done { s with gn := g1 }, w1) := by
    simp only [lmSolver, hr]
  have hb' : lmBuild so P w1 { s with gn := g1 } x = (true, { s with gn := ⟨n, diagG ω y x, dampedR s.lambda (diagM ω), c⟩ }, w2) := by
    unfold lmBuild
    simp only [hreb, if_true]
    rw [hb0]
    simp only [if_true]
    have := lmDamp_ls (R := R) (s := s) hreb hl0 (g := diagG ω y x) (H := diagM ω) (c := c)
    rw [hreb] at this
    rw [this]
  have hone' : Solves so (P.dims == some 1) (dampedR s.lambda (diagM ω)) := by
    rcases hone with h1 | h1
    · exact Or.inl h1
    · right; left
      rw [beq_eq_false_iff_ne]; exact h1
  have hpd := diagM_pd hω hl0
  obtain ⟨v', h1, h2⟩ := gnSolve_pd (so := so) hL (P.dims == some 1) ⟨n, diagG ω y x, dampedR s.lambda (diagM ω), c⟩ hvalid hpd hone'
  obtain rfl : v' = _ := pd_inj hpd (h2.trans (diag_mv hω hl0 x).symm)
  exact ⟨c, ⟨⟨_, w1, w2, resizeIfNeeded_works h.toVecParams hr', hb'⟩, h1, rfl, rfl, fun q => hgood _ q, hbad _⟩, hc⟩

theorem diag_rate (h : UserQuad P (fun _ => True) f (diagG ω y) (fun _ => diagM ω) m) (hω : ∀ i, 0 < ω i) (hf0 : ∀ x, 0 ≤ f x) (hfs : ∀ x, x ≠ y → ∀ c : ℝ, 0 ≤ c → c < 1 → f (y + c • (x - y)) < f x) (hL : ExactLinAlg LA) (hlo : 0 ≤ so.dampLo) (hr0 : so.dampLo ≤ so.dampHi)
    (hg0 : 0 ≤ so.goodFactor) (hg1 : so.goodFactor ≤ 1) (hone : so.useLdlt = true ∨ P.dims ≠ some 1) (hmin : DiagOk so (diagM ω)) (hclip : so.gradClip = 0)
    (ho : Unwatched o) (hq : o.useStepQuality = false) (hms : 0 < o.minStepNorm2)
    (s : LMState ℝ R) (hs : P.dims = none ∨ s.gn.n = n) (hreb : s.rebuild = true) (hl0 : so.dampLo ≤ s.lambda) (hbf : s.badF = so.badFactor)
    (x0 : RVec n) (hx0 : nCost so m (f x0) < maxVal) {N : Nat}
    (hN : ((s.lambda / (1 + s.lambda)) ^ N) ^ 2 * dotR (x0 - y) (x0 - y) < o.minStepNorm2)
    {fuel : Nat} {mi k : Int} (hk : loopBound o mi = some k) (hNk : (N : Int) < k) (w : W) :
    ∃ st, optimizeAcc (lmEnv so LA P) o (fuel + 1) mi w s x0 = .ok st ∧ st.out.converged = true ∧ st.trace.length ≤ N + 1 ∧
      (∀ r ∈ st.trace, r.succ = true ∧ ∃ l, 0 ≤ l ∧ l ≤ s.lambda ∧ r.xNext - y = (l / (1 + l)) • (r.x - y)) ∧
      ∃ c, 0 ≤ c ∧ c ≤ (s.lambda / (1 + s.lambda)) ^ st.trace.length ∧ st.x - y = c • (x0 - y) := by
  have hs0 : 0 ≤ s.lambda := hlo.trans hl0
  set ρ := s.lambda / (1 + s.lambda) with hρ
  have hρ0 : 0 ≤ ρ := by positivity
  have hρ1 : ρ < 1 := by rw [hρ, div_lt_one (by positivity)]; linarith
  have hle : ∀ l : ℝ, 0 ≤ l → l ≤ s.lambda → 0 ≤ l / (1 + l) ∧ l / (1 + l) ≤ ρ := by
    intro l a b
    refine ⟨by positivity, ?_⟩
    rw [hρ, div_le_div_iff₀ (by positivity) (by positivity)]
    nlinarith
  have hnext : ∀ l : ℝ, 0 ≤ l → ∀ x : RVec n, x + -(1 / (1 + l)) • (x - y) - y = (l / (1 + l)) • (x - y) := by
    intro l hl x
    have h1 : 1 + l ≠ 0 := by positivity
    funext i
    simp only [Pi.add_apply, Pi.smul_apply, Pi.sub_apply, smul_eq_mul]
    field_simp
    ring
  have hcond : ∀ c : ℝ, 0 ≤ c → c ≤ 1 → nCost so m (f (y + c • (x0 - y))) < maxVal := by
    intro c c0 c1
    refine lt_of_le_of_lt ?_ hx0
    by_contra hc
    push Not at hc
    rw [nCost_mono h.pos (Or.inr ⟨hf0 _, hf0 _⟩)] at hc
    rcases eq_or_ne x0 y with rfl | hne
    · simp at hc
    · rcases c1.lt_or_eq with h1 | rfl
      · exact absurd hc (not_lt.2 (hfs x0 hne c c0 h1).le)
      · simp at hc
  let Lvl : Nat → RVec n → Prop := fun i x => ∃ c, 0 ≤ c ∧ c ≤ ρ ^ i ∧ x - y = c • (x0 - y)
  have hx : ∀ {i x}, Lvl i x → nCost so m (f x) < maxVal := by
    rintro i x ⟨c, c0, c1, e⟩
    have := hcond c c0 (c1.trans (pow_le_one₀ hρ0 hρ1.le))
    rwa [← e, add_sub_cancel] at this
  let T : Nat → RVec n → DVec ℝ → Prop := fun _ x d => ∃ l, 0 ≤ l ∧ l ≤ s.lambda ∧ d = ⟨n, -(1 / (1 + l)) • (x - y)⟩
  have hplus : ∀ x v, (lmEnv so LA P).plusEq x ⟨n, v⟩ = x + v := fun x v => h.plus x v
  have hlvl : ∀ {i x d}, Lvl i x → T i x d → Lvl (i + 1) ((lmEnv so LA P).plusEq x d) := by
    rintro i x d ⟨c, c0, c1, e⟩ ⟨l, l0, l1, rfl⟩
    obtain ⟨q0, q1⟩ := hle l l0 l1
    refine ⟨l / (1 + l) * c, mul_nonneg q0 c0, ?_, ?_⟩
    · rw [pow_succ, mul_comm (ρ ^ i)]
      exact mul_le_mul q1 c1 c0 hρ0
    · rw [hplus, hnext l l0, e, smul_smul]
  have hn2 : ∀ v : RVec n, (lmEnv so LA P).normSq ⟨n, v⟩ = dotR v v := fun v => sqNorm_eq v
  have hshrink : ∀ (l : ℝ), 0 ≤ l → ∀ v : RVec n, dotR (-(1 / (1 + l)) • v) (-(1 / (1 + l)) • v) ≤ dotR v v := by
    intro l hl v
    have e : dotR (-(1 / (1 + l)) • v) (-(1 / (1 + l)) • v) = (1 / (1 + l)) ^ 2 * dotR v v := by
      unfold dotR
      rw [Finset.mul_sum]
      refine Finset.sum_congr rfl fun i _ => ?_
      simp only [Pi.smul_apply, smul_eq_mul]; ring
    rw [e]
    have h1 : (1 / (1 + l)) ^ 2 ≤ 1 := pow_le_one₀ (by positivity) (by rw [div_le_one (by positivity)]; linarith)
    have := mul_le_mul_of_nonneg_right h1 (dotR_self_nonneg v)
    linarith
  obtain ⟨st, e, h1, h2, r, dx, h3, h4, h5, h6⟩ := contracting_run_at (E := lmEnv so LA P) (o := o) (C := fun x => nCost so m (f x))
    (g2 := fun x => dotR (diagG ω y x) (diagG ω y x)) (Lvl := Lvl) (T := T) (N := N) (x0 := x0)
    (Ok := fun _ s' => s'.rebuild = true ∧ (P.dims = none ∨ s'.gn.n = n) ∧ 0 ≤ s'.lambda ∧ s'.lambda ≤ s.lambda ∧ s'.badF = so.badFactor) ho (by simpa using hms)
    (fun i w s' x hi hl hok => by
      obtain ⟨a1, a2, a3, a4, a5⟩ := hok
      obtain ⟨c, hc, hcc⟩ := diag_delivers h hω hL hr0 hclip w s' a2 x a1 a3 hone hmin (hx hl).ne
      refine ⟨_, _, hc, hcc, sqNorm_eq _, ⟨s'.lambda, a3, a4, rfl⟩, ⟨rfl, Or.inr rfl, a3, a4, a5⟩, fun q s3 hqq hg => ?_⟩
      have hz0 : q = 0 := by simpa using hqq hq
      subst hz0
      have hsc : goodScale so 0 s'.badF = so.goodFactor := by
        unfold goodScale; rw [a5]; simp [ne]
      change lmGood so _ 0 = .ok s3 at hg
      unfold lmGood at hg
      simp only [stdClamp_real hr0, hsc] at hg
      injection hg with hg
      subst hg
      refine ⟨rfl, Or.inr rfl, hlo.trans (le_max_left _ _), max_le hl0 ((min_le_left _ _).trans ?_), rfl⟩
      show s'.lambda * so.goodFactor ≤ s.lambda
      nlinarith)
    (fun i x dx hi hl hT hns => by
      refine ⟨hlvl hl hT, ?_⟩
      obtain ⟨l, l0, l1, rfl⟩ := hT
      rw [hn2] at hns
      rw [RealOps.lt_eq_false] at hns
      have hxy : x ≠ y := by
        rintro rfl
        rw [sub_self, smul_zero] at hns
        simp [dotR] at hns
        linarith
      have hlt : f (x + -(1 / (1 + l)) • (x - y)) < f x := by
        have e1 : x + -(1 / (1 + l)) • (x - y) = y + (l / (1 + l)) • (x - y) := by rw [← hnext l l0]; abel
        rw [e1]
        obtain ⟨q0, q1⟩ := hle l l0 l1
        exact hfs x hxy _ q0 (by linarith)
      rw [hplus]
      have := (nCost_mono (so := so) h.pos (Or.inr ⟨hf0 _, hf0 _⟩)).mpr hlt
      simpa using this)
    (fun x dx hl hT => by
      obtain ⟨l, l0, l1, rfl⟩ := hT
      obtain ⟨c, c0, c1, e⟩ := hl
      rw [hn2, RealOps.lt_eq]
      refine lt_of_le_of_lt ((hshrink l l0 _).trans ?_) hN
      have e2 : dotR (x - y) (x - y) = c ^ 2 * dotR (x0 - y) (x0 - y) := by
        rw [e]
        unfold dotR
        rw [Finset.mul_sum]
        refine Finset.sum_congr rfl fun i _ => ?_
        simp only [Pi.smul_apply, smul_eq_mul]; ring
      rw [e2]
      exact mul_le_mul_of_nonneg_right (pow_le_pow_left₀ c0 c1 2) (dotR_self_nonneg _))
    ⟨1, zero_le_one, by simp, by simp⟩ (by simpa using hx0) hk hNk (w := w) (s := s) ⟨hreb, hs, hs0, le_refl _, hbf⟩
  refine ⟨st, e, h6.converged rfl, h1, fun r hr => ?_, ?_⟩
  · obtain ⟨i, hi⟩ := List.mem_iff_getElem?.mp hr
    obtain ⟨-, a2, d, -, ⟨l, l0, l1, rfl⟩, a5, -⟩ := h2 i r hi
    refine ⟨a2, l, l0, l1, ?_⟩
    rw [a5, hplus, hnext l l0]
  · have hlast : st.trace[st.trace.length - 1]? = some r := by rw [← List.getLast?_eq_getElem?]; exact h3
    obtain ⟨b1, -, d, b3, b4, -⟩ := h2 _ _ hlast
    have hd : d = dx := Option.some.inj (b3.symm.trans h4)
    subst hd
    have := hlvl b1 b4
    rw [← h5] at this
    have hlen : 0 < st.trace.length := by
      by_contra hc
      have : st.trace = [] := List.eq_nil_of_length_eq_zero (by omega)
      rw [this] at h3; simp at h3
    rwa [Nat.sub_add_cancel hlen] at this

end

end Verif.DiagRun
