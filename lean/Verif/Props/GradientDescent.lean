import Verif.Props.Integrated
import Mathlib.Analysis.Calculus.Deriv.MeanValue
/-!
# C60: Gradient Descent on smooth costs
-/

set_option linter.unusedSectionVars false

namespace Verif
open FloatOps Loss

/-- `f` is differentiable everywhere, `G` is its gradient, and `G` is Lipschitz with constant `K` in the Euclidean norm -/
structure Smooth {n : Nat} (f : Vec ℝ n → ℝ) (G : Vec ℝ n → Vec ℝ n) (K : ℝ) : Prop where
  pos : 0 < K
  grad : ∀ x, HasGrad f (G x) x
  lip : ∀ x y, dotR (G x - G y) (G x - G y) ≤ K ^ 2 * dotR (x - y) (x - y)

theorem dotR_cauchy {n : Nat} (u v : Vec ℝ n) : dotR u v ^ 2 ≤ dotR u u * dotR v v := by
  have := Finset.sum_mul_sq_le_sq_mul_sq Finset.univ u v
  simp only [dotR, ← pow_two]
  exact this

theorem Smooth.dot_le {n : Nat} {f : Vec ℝ n → ℝ} {G : Vec ℝ n → Vec ℝ n} {K : ℝ} (h : Smooth f G K) (x d : Vec ℝ n) {t : ℝ} (ht : 0 ≤ t) :
    dotR (G (x + t • d)) d - dotR (G x) d ≤ K * t * dotR d d := by
  have h1 := dotR_cauchy (G (x + t • d) - G x) d
  have h2 := h.lip (x + t • d) x
  have e1 : x + t • d - x = t • d := by abel
  have e2 : dotR (t • d) (t • d) = t ^ 2 * dotR d d := by
    rw [dotR_smul, dotR_comm, dotR_smul]; ring
  rw [e1, e2] at h2
  have e3 : dotR (G (x + t • d) - G x) d = dotR (G (x + t • d)) d - dotR (G x) d := by
    rw [dotR_comm, dotR_sub, dotR_comm d, dotR_comm d]
  rw [e3] at h1
  have hd := dotR_self_nonneg d
  have h3 : (dotR (G (x + t • d)) d - dotR (G x) d) ^ 2 ≤ (K * t * dotR d d) ^ 2 := by
    refine h1.trans ?_
    have := mul_le_mul_of_nonneg_right h2 hd
    calc _ ≤ _ := this
      _ = _ := by ring
  exact le_of_abs_le (abs_le_of_sq_le_sq h3 (by have := h.pos; positivity)) |>.trans (le_refl _)

/-- the descent lemma -/
theorem Smooth.descent {n : Nat} {f : Vec ℝ n → ℝ} {G : Vec ℝ n → Vec ℝ n} {K : ℝ} (h : Smooth f G K) (x d : Vec ℝ n) :
    f (x + d) ≤ f x + dotR (G x) d + K / 2 * dotR d d := by
  have hφ : ∀ t : ℝ, HasDerivAt (fun t : ℝ => f (x + t • d)) (dotR (G (x + t • d)) d) t := by
    intro t
    have h1 : HasDerivAt (fun t : ℝ => x + t • d) d t := by
      have := ((hasDerivAt_id t).smul_const d).const_add x
      simpa using this
    have h2 : HasFDerivAt f (rowCLM (G (x + t • d))) (x + t • d) := h.grad _
    have := h2.comp_hasDerivAt t h1
    rw [rowCLM_apply] at this
    exact this
  have hψ : ∀ t : ℝ, HasDerivAt (fun t : ℝ => f (x + t • d) - (t * dotR (G x) d + K / 2 * t ^ 2 * dotR d d))
      (dotR (G (x + t • d)) d - (dotR (G x) d + K * t * dotR d d)) t := by
    intro t
    have h1 : HasDerivAt (fun t : ℝ => t * dotR (G x) d + K / 2 * t ^ 2 * dotR d d) (dotR (G x) d + K * t * dotR d d) t := by
      have a := (hasDerivAt_id t).mul_const (dotR (G x) d)
      have b := (((hasDerivAt_id t).pow 2).const_mul (K / 2)).mul_const (dotR d d)
      refine (a.add b).congr_deriv ?_
      simp only [id_eq, Nat.cast_ofNat, Nat.add_one_sub_one, pow_one]
      ring
    exact (hφ t).sub h1
  have hanti : AntitoneOn (fun t : ℝ => f (x + t • d) - (t * dotR (G x) d + K / 2 * t ^ 2 * dotR d d)) (Set.Ici 0) := by
    refine antitoneOn_of_deriv_nonpos (convex_Ici 0) (fun t _ => (hψ t).continuousAt.continuousWithinAt) (fun t _ => (hψ t).differentiableAt.differentiableWithinAt) ?_
    intro t ht
    rw [interior_Ici] at ht
    rw [(hψ t).deriv]
    have := h.dot_le x d (t := t) (le_of_lt ht)
    linarith
  have := hanti (a := 0) (b := 1) (by simp) (by simp) zero_le_one
  simp at this
  linarith

section
variable {R W : Type} {n : Nat}
variable {so : SolverOpts ℝ} {P : Problem ℝ R W (Vec ℝ n)} {o : Options ℝ W (DVec ℝ)}
variable {f : Vec ℝ n → ℝ} {G : Vec ℝ n → Vec ℝ n} {K : ℝ} {k : Nat}

/-- The user's function returns `f` and its gradient (with a fixed number `k > 0` of residuals). -/
structure UserGrad (P : Problem ℝ R W (Vec ℝ n)) (f : Vec ℝ n → ℝ) (G : Vec ℝ n → Vec ℝ n) (k : Nat) : Prop extends VecParams P where
  pos : 0 < k
  full : ∀ w x, ∃ c H w', P.acc.full w x n (fun _ => 0) (fun _ _ => 0) = ((c, G x, H), w') ∧ c.cost = f x ∧ c.num = k

/-- a clipped component keeps its sign and does not grow -/
theorem clampCoef_le {c a : ℝ} (hc : 0 < c) : clampCoef c a ^ 2 ≤ a * clampCoef c a := by
  simp only [clampCoef, RealOps.lt_eq, RealOps.neg_eq]
  split_ifs <;> nlinarith

theorem clampVec_le {c : ℝ} (hc : 0 ≤ c) (g : Vec ℝ n) : dotR (clampVec c g) (clampVec c g) ≤ dotR g (clampVec c g) := by
  rcases hc.eq_or_lt with rfl | hc
  · simp [clampVec]
  · refine Finset.sum_le_sum fun i _ => ?_
    have : clampVec c g i = clampCoef c (g i) := by simp [clampVec, hc.ne']
    rw [this, ← pow_two]
    exact clampCoef_le hc

theorem clampVec_eq_zero {c : ℝ} (hc : 0 ≤ c) {g : Vec ℝ n} : clampVec c g = 0 ↔ g = 0 := by
  rcases hc.eq_or_lt with rfl | hc
  · simp [clampVec]
  · have e : ∀ i, clampVec c g i = clampCoef c (g i) := fun i => by simp [clampVec, hc.ne']
    constructor
    · intro h
      funext i
      have h1 : clampCoef c (g i) = 0 := by rw [← e, h]; rfl
      obtain ⟨a, b, -⟩ := clampCoef_sign (a := g i) hc
      rcases lt_trichotomy (g i) 0 with h2 | h2 | h2
      · exact absurd h1 (b h2).ne
      · exact h2
      · exact absurd h1 (a h2).ne'
    · rintro rfl
      funext i
      rw [e]
      exact (clampCoef_sign hc).2.2 rfl

/-- **C60**, one step: with a learning rate in `(0, 2/K)`, with or without clipping of the gradient, a Gradient Descent step decreases the cost by at least
`lr (1 - K lr / 2)` times the squared norm of the (clipped) gradient. -/
theorem C60_step (h : Smooth f G K) (hlr : 0 < so.lr) (hclip : 0 ≤ so.gradClip) (x : Vec ℝ n) :
    f (x + fun i => -so.lr * clampVec so.gradClip (G x) i) ≤
      f x - so.lr * (1 - K * so.lr / 2) * dotR (clampVec so.gradClip (G x)) (clampVec so.gradClip (G x)) := by
  have h1 := h.descent x (-so.lr • clampVec so.gradClip (G x))
  have h2 := clampVec_le hclip (G x)
  rw [dotR_smul, dotR_smul, dotR_comm (-so.lr • _), dotR_smul] at h1
  have h3 := mul_le_mul_of_nonneg_left h2 hlr.le
  have e : (x + fun i => -so.lr * clampVec so.gradClip (G x) i) = x + -so.lr • clampVec so.gradClip (G x) := by
    funext i; simp
  rw [e]
  linarith

/-- the cost reported for `c` is strictly increasing in `c` -/
theorem nCost_mono (hk : 0 < k) {c c' : ℝ} (h : so.useSquaredNorm = true ∨ (0 ≤ c ∧ 0 ≤ c')) : nCost so k c < nCost so k c' ↔ c < c' := by
  rcases h with h | ⟨h, h'⟩
  · have hk' : (0 : ℝ) < k := by exact_mod_cast hk
    have hhalf : (half : ℝ) = 1 / 2 := by simp [half]
    unfold nCost normalizeCost
    simp only [h, if_true]
    cases so.downscaleBy2 <;> cases so.normalize <;> simp [hk, hhalf]
    · exact div_lt_div_iff_of_pos_right hk'
    · rw [div_lt_div_iff_of_pos_right hk']
      constructor <;> intro h <;> linarith
  · exact nCost_lt h h'

theorem gd_delivers (h : UserGrad P f G k) (w : W) (s : GNState ℝ R) (hs : P.dims = none ∨ s.n = n) (x : Vec ℝ n)
    (hx : nCost so k (f x) ≠ maxVal) :
    ∃ s2, Delivers (gdEnv so P) w s x s2 ⟨n, fun i => -so.lr * clampVec so.gradClip (G x) i⟩ ∧ s2.n = n ∧ s2.cost.cost = nCost so k (f x) := by
  obtain ⟨⟨sn, sg, sH, sc⟩, w1, hr, hn1, -⟩ := resize_works h.toVecParams w s hs
  simp only at hn1
  subst hn1
  obtain ⟨c, H, w2, hu, hc, hn⟩ := h.full w1 x
  have hcost : (normalizeCost so c).cost = nCost so k (f x) := by rw [normalizeCost_eq c hn, hc]
  have hv : (normalizeCost so c).isValid = true := by
    have h1 : eq (normalizeCost so c).cost maxVal = false := by rw [RealOps.eq_eq_false, hcost]; exact hx
    have h2 := h.pos
    unfold Cost.isValid ne
    rw [h1, normalizeCost_num, hn]
    simpa using h2
  have hb : gdBuild so P w1 ⟨sn, sg, sH, sc⟩ x = (true, ⟨sn, clampVec so.gradClip (G x), fun _ _ => ofInt 0, normalizeCost so c⟩, w2) := by
    unfold gdBuild gnAccumulate
    rw [show P.acc.full w1 x sn (fun _ => ofInt 0) (fun _ _ => ofInt 0) = _ from by simpa using hu]
    simp only [hv]
  have hsol : gdSolve so (⟨sn, clampVec so.gradClip (G x), fun _ _ => ofInt 0, normalizeCost so c⟩ : GNState ℝ R) =
      some ⟨sn, fun i => -so.lr * clampVec so.gradClip (G x) i⟩ := by
    unfold gdSolve
    simp only [hv, if_true]
    rfl
  exact ⟨_, ⟨⟨_, w1, w2, resizeIfNeeded_works h.toVecParams hr, hb⟩, hsol, rfl, rfl, fun q => ⟨_, rfl⟩, ⟨_, rfl⟩⟩, rfl, hcost⟩

/-- the decrease guaranteed at `x` -/
noncomputable def gdGain (so : SolverOpts ℝ) (G : Vec ℝ n → Vec ℝ n) (K : ℝ) (x : Vec ℝ n) : ℝ :=
  so.lr * (1 - K * so.lr / 2) * dotR (clampVec so.gradClip (G x)) (clampVec so.gradClip (G x))

/-- **C60**: on a cost `f` whose gradient is Lipschitz with constant `K`, with a learning rate in `(0, 2/K)`, every Gradient Descent run ends normally. Every iteration moves by
one step of size `lr` against the (clipped) gradient and decreases the cost by at least `lr (1 - K lr / 2)` times its squared norm, or is at a stationary point and
stays there. All these decreases together are at most the decrease from the first point to the last. -/
theorem C60_gd_run (h : UserGrad P f G k) (hf : Smooth f G K) (hsq : so.useSquaredNorm = true ∨ ∀ x, 0 ≤ f x)
    (hlr : 0 < so.lr) (hK : K * so.lr < 2) (hclip : 0 ≤ so.gradClip)
    (s : GNState ℝ R) (hs : P.dims = none ∨ s.n = n) (fuel : Nat) (mi b : Int) (hb : loopBound o mi = some b)
    (w : W) (x0 : Vec ℝ n) (hx0 : nCost so k (f x0) < maxVal) :
    ∃ st, optimizeAcc (gdEnv so P) o (fuel + 1) mi w s x0 = .ok st ∧
      (∀ r ∈ st.trace, r.xNext = (r.x + fun i => -so.lr * clampVec so.gradClip (G r.x) i) ∧
        (G r.x ≠ 0 → r.succ = true ∧ f r.xNext < f r.x ∧ f r.xNext ≤ f r.x - gdGain so G K r.x) ∧ (G r.x = 0 → r.xNext = r.x)) ∧
      (st.trace.map fun r => gdGain so G K r.x).sum ≤ f x0 - f st.x := by
  have hmono : ∀ x y, nCost so k (f x) < nCost so k (f y) ↔ f x < f y := by
    intro x y
    refine nCost_mono h.pos ?_
    rcases hsq with h1 | h1
    · exact Or.inl h1
    · exact Or.inr ⟨h1 x, h1 y⟩
  let D : Vec ℝ n → Vec ℝ n := fun x i => -so.lr * clampVec so.gradClip (G x) i
  have hgain : ∀ x, G x ≠ 0 → 0 < gdGain so G K x := by
    intro x hx
    have h1 : clampVec so.gradClip (G x) ≠ 0 := fun h0 => hx ((clampVec_eq_zero hclip).1 h0)
    have h2 : 0 < dotR (clampVec so.gradClip (G x)) (clampVec so.gradClip (G x)) :=
      lt_of_le_of_ne (dotR_self_nonneg _) fun h0 => h1 (dotR_self_eq_zero h0.symm)
    unfold gdGain
    have h3 : 0 < 1 - K * so.lr / 2 := by linarith
    positivity
  have hzero : ∀ x, G x = 0 → D x = 0 ∧ gdGain so G K x = 0 := by
    intro x hx
    have h1 := (clampVec_eq_zero hclip).2 hx
    constructor
    · funext i; simp [D, h1]
    · simp [gdGain, h1, dotR]
  have hstep : ∀ x, f (x + D x) ≤ f x - gdGain so G K x := fun x => C60_step hf hlr hclip x
  have hstep' : ∀ x, G x ≠ 0 → f (x + D x) < f x := fun x hx => by have := hstep x; have := hgain x hx; linarith
  let Row : Vec ℝ n → Vec ℝ n → Prop := fun x x' => x' = x + D x ∧ (G x ≠ 0 → f x' < f x ∧ f x' ≤ f x - gdGain so G K x) ∧ (G x = 0 → x' = x)
  have hrow : ∀ x, Row x (x + D x) := fun x => ⟨rfl, fun hx => ⟨hstep' x hx, hstep x⟩, fun hx => by rw [(hzero x hx).1, add_zero]⟩
  have hrow0 : ∀ x, G x = 0 → Row x x := fun x hx => ⟨by rw [(hzero x hx).1, add_zero], fun h0 => absurd hx h0, fun _ => rfl⟩
  obtain ⟨st, st0, e, hj, h1, h2, h3⟩ := run_works (E := gdEnv so P) (o := o) (fuel := fuel + 1) (mi := mi) (m := b) (w := w) (s := s) (x := x0)
    (I := fun st => st.out.numConsec ≤ maxTries o ∧ (P.dims = none ∨ st.s.n = n) ∧ nCost so k (f st.x) < maxVal ∧
      (st.trace = [] → st.lastDx = none ∧ st.out.finalCost.cost = maxVal) ∧
      (∀ d, st.lastDx = some d → (d = ⟨n, 0⟩ ∧ G st.x = 0) ∨ nCost so k (f st.x) < st.out.finalCost.cost) ∧
      (st.lastDx = none → st.trace ≠ [] → G st.x = 0) ∧ (∀ r ∈ st.trace, Row r.x r.xNext ∧ (G r.x ≠ 0 → r.succ = true)) ∧
      (st.trace.map fun r => gdGain so G K r.x).sum ≤ f x0 - f st.x)
    (J := fun st => (∀ r ∈ st.trace, Row r.x r.xNext ∧ (G r.x ≠ 0 → r.succ = true)) ∧ (st.trace.map fun r => gdGain so G K r.x).sum ≤ f x0 - f st.x)
    (fun last st _ hI => by
      obtain ⟨hc, hsz, hxm, hfirst, hl, hln, hT, hsum⟩ := hI
      obtain ⟨s2, hdel, hn2, hc2⟩ := gd_delivers (so := so) h st.w st.s hsz st.x hxm.ne
      obtain ⟨st', succ, mdx, s3, hbd, hw⟩ := body_works (o := o) (fuel := fuel) (last := last) hdel hc
      obtain ⟨r, htr, hrx, hrx', -, hrs⟩ := hw.trace
      have hs3 : s3 = s2 := by
        have := hw.hook
        split at this
        · rcases this with ⟨q, h⟩ | h
          · injection h with h; exact h.symm
          · injection h with h; exact h.symm
        · exact this
      have hup := hw.upd
      have hsu : succ = lt (sub s2.cost.cost st.out.finalCost.cost) (ofInt 0) := hw.isSucc
      rw [hc2] at hsu
      have hfail : succ = false → st.trace ≠ [] ∧ G st.x = 0 ∧ ∀ d, st.lastDx = some d → d = ⟨n, 0⟩ := by
        intro hf
        rw [hf] at hsu
        have hle : st.out.finalCost.cost ≤ nCost so k (f st.x) := by
          have := hsu.symm
          rw [RealOps.lt_eq_false] at this
          simp at this
          exact this
        have hne : st.trace ≠ [] := by
          intro h0
          rw [(hfirst h0).2] at hle
          linarith
        refine ⟨hne, ?_, ?_⟩
        · cases hld : st.lastDx with
          | none => exact hln hld hne
          | some d =>
            rcases hl d hld with ⟨-, h⟩ | h
            · exact h
            · linarith
        · intro d hd
          rcases hl d hd with ⟨h, -⟩ | h
          · exact h
          · linarith
      have hmd : ∀ d, mdx = some d → d = ⟨n, D st.x⟩ := by
        intro d hd
        rcases hw.isMdx with hm | ⟨hm, -⟩
        · rw [hm] at hd; exact (Option.some.inj hd).symm
        · rw [hm] at hd; cases hd
      have main : Row st.x st'.x ∧
          (∀ d, st'.lastDx = some d → (d = ⟨n, 0⟩ ∧ G st'.x = 0) ∨ nCost so k (f st'.x) < st'.out.finalCost.cost) ∧
          (st'.lastDx = none → G st'.x = 0) := by
        have hfc := hw.finalCost
        have hf' := hfail
        generalize st'.x = x1 at hup ⊢
        generalize st'.lastDx = l1 at hup ⊢
        generalize st'.lastSucc = b1 at hup
        cases hup with
        | succ dx' =>
          obtain rfl := hmd _ rfl
          have hfc' : st'.out.finalCost.cost = nCost so k (f st.x) := by
            rw [hfc]; simp only [Bool.true_or, if_true]; exact hc2
          have hxx : (gdEnv so P).plusEq st.x ⟨n, D st.x⟩ = st.x + D st.x := h.plus _ _
          rw [hxx]
          refine ⟨hrow _, fun d hd => ?_, fun h => by cases h⟩
          obtain rfl := Option.some.inj hd
          by_cases hg : G st.x = 0
          · left
            rw [(hzero _ hg).1, add_zero]
            exact ⟨rfl, hg⟩
          · right
            rw [hfc']
            exact (hmono _ _).mpr (hstep' _ hg)
        | roll d _ h' =>
          obtain ⟨-, hg, hd⟩ := hf' rfl
          obtain rfl := hd d h'
          have hxx : (gdEnv so P).plusEq st.x ((gdEnv so P).negV ⟨n, 0⟩) = st.x := by
            show P.plusEq st.x ⟨n, negVec 0⟩ = _
            rw [plus_neg h.toVecParams, sub_zero]
          rw [hxx]
          exact ⟨hrow0 _ hg, fun d hd => (nomatch hd), fun _ => hg⟩
        | adv dx' h' =>
          obtain ⟨-, hg, -⟩ := hf' rfl
          obtain rfl := hmd _ rfl
          have hxx : (gdEnv so P).plusEq st.x ⟨n, D st.x⟩ = st.x := by
            show P.plusEq st.x ⟨n, D st.x⟩ = _
            rw [h.plus, (hzero _ hg).1, add_zero]
          rw [hxx, (hzero _ hg).1]
          exact ⟨hrow0 _ hg, fun d hd => Or.inl ⟨(Option.some.inj hd).symm, hg⟩, fun h => by cases h⟩
        | stay h' =>
          obtain ⟨-, hg, -⟩ := hf' rfl
          exact ⟨hrow0 _ hg, fun d hd => (nomatch hd), fun _ => hg⟩
      have hT' : ∀ r ∈ st'.trace, Row r.x r.xNext ∧ (G r.x ≠ 0 → r.succ = true) := by
        intro q hq
        rw [htr, List.mem_append, List.mem_singleton] at hq
        rcases hq with hq | rfl
        · exact hT q hq
        · rw [hrx, hrx', hrs]
          refine ⟨main.1, fun hg => ?_⟩
          cases hsc : succ with
          | true => rfl
          | false => exact absurd (hfail hsc).2.1 hg
      have hsum' : (st'.trace.map fun r => gdGain so G K r.x).sum ≤ f x0 - f st'.x := by
        rw [htr, List.map_append, List.sum_append, List.map_singleton, List.sum_singleton, hrx]
        have : f st'.x ≤ f st.x - gdGain so G K st.x := by
          rw [main.1.1]; exact hstep _
        linarith
      have hxm' : nCost so k (f st'.x) < maxVal := by
        by_cases hg : G st.x = 0
        · rw [main.1.2.2 hg]; exact hxm
        · exact ((hmono _ _).mpr (main.1.2.1 hg).1).trans hxm
      refine ⟨st', hbd, fun hn _ => ⟨hw.consec hn, ?_, hxm', ?_, main.2.1, fun h _ => main.2.2 h, hT', hsum'⟩, hT', hsum'⟩
      · right
        rw [hw.solver, hs3]; exact hn2
      · intro h0; rw [htr] at h0; simp at h0)
    hb ⟨Nat.zero_le _, hs, hx0, fun _ => ⟨rfl, rfl⟩, fun d hd => (nomatch hd), fun _ h => absurd rfl h, fun r hr => (nomatch hr), by simp [initSt]⟩
  refine ⟨st, e, ?_, ?_⟩
  · rw [h2]
    exact fun r hr => ⟨(hj.1 r hr).1.1, fun hg => ⟨(hj.1 r hr).2 hg, (hj.1 r hr).1.2.1 hg⟩, (hj.1 r hr).1.2.2⟩
  · rw [h2, h1]; exact hj.2

/-- **C60**, rate: if the cost is bounded below by `m`, the squared norms of the (clipped) gradients at the starts of all iterations sum to at most
`(f x0 - m) / (lr (1 - K lr / 2))`, however long the run is; so the smallest one is at most that divided by the number of iterations. -/
theorem C60_rate (h : UserGrad P f G k) (hf : Smooth f G K) (hsq : so.useSquaredNorm = true ∨ ∀ x, 0 ≤ f x)
    (hlr : 0 < so.lr) (hK : K * so.lr < 2) (hclip : 0 ≤ so.gradClip)
    (s : GNState ℝ R) (hs : P.dims = none ∨ s.n = n) (fuel : Nat) (mi b : Int) (hb : loopBound o mi = some b)
    (w : W) (x0 : Vec ℝ n) (hx0 : nCost so k (f x0) < maxVal) (m : ℝ) (hm : ∀ x, m ≤ f x) :
    ∃ st, optimizeAcc (gdEnv so P) o (fuel + 1) mi w s x0 = .ok st ∧ ∀ q, (∀ r ∈ st.trace, q ≤ dotR (clampVec so.gradClip (G r.x)) (clampVec so.gradClip (G r.x))) →
      st.trace.length * q ≤ (f x0 - m) / (so.lr * (1 - K * so.lr / 2)) := by
  obtain ⟨st, h1, -, h3⟩ := C60_gd_run h hf hsq hlr hK hclip s hs fuel mi b hb w x0 hx0
  refine ⟨st, h1, fun q hq => ?_⟩
  have hpos : 0 < so.lr * (1 - K * so.lr / 2) := mul_pos hlr (by linarith)
  rw [le_div_iff₀ hpos]
  have : ∀ l : List (Rec ℝ R (Vec ℝ n) (DVec ℝ) (DMat ℝ)), (∀ r ∈ l, q ≤ dotR (clampVec so.gradClip (G r.x)) (clampVec so.gradClip (G r.x))) →
      l.length * q * (so.lr * (1 - K * so.lr / 2)) ≤ (l.map fun r => gdGain so G K r.x).sum := by
    intro l hl
    induction l with
    | nil => simp
    | cons r l ih =>
      have h4 := ih fun r hr => hl r (List.mem_cons_of_mem _ hr)
      have h5 := mul_le_mul_of_nonneg_left (hl r List.mem_cons_self) hpos.le
      simp only [List.map_cons, List.sum_cons, List.length_cons, Nat.cast_add, Nat.cast_one]
      unfold gdGain at h4 ⊢
      linarith
  have := this st.trace hq
  have := hm st.x
  linarith

/-! ### C58 with Gradient Descent -/

/-- a clipped gradient descends -/
theorem clipped_rate {m : Nat} {r : Vec ℝ n → Vec ℝ m} {J : Loss.RMat m n} {x : Vec ℝ n} (hJ : HasJac r J x) (hlr : 0 < so.lr) (hclip : 0 ≤ so.gradClip) :
    ∃ ρ, RateAlong (fun y => ∑ i, r y i ^ 2) x (fun i => -so.lr * clampVec so.gradClip (tmv J (r x)) i) ρ ∧ (tmv J (r x) ≠ 0 → ρ < 0) := by
  refine ⟨_, sumSq_rate hJ _, fun hg => ?_⟩
  have h1 : clampVec so.gradClip (tmv J (r x)) ≠ 0 := fun h0 => hg ((clampVec_eq_zero hclip).1 h0)
  have h2 : 0 < dotR (clampVec so.gradClip (tmv J (r x))) (clampVec so.gradClip (tmv J (r x))) :=
    lt_of_le_of_ne (dotR_self_nonneg _) fun h0 => h1 (dotR_self_eq_zero h0.symm)
  have h3 := clampVec_le hclip (tmv J (r x))
  have e : (fun i => -so.lr * clampVec so.gradClip (tmv J (r x)) i) = -so.lr • clampVec so.gradClip (tmv J (r x)) := by funext i; simp
  rw [e, dotR_smul]
  have := mul_pos hlr (h2.trans_le h3)
  linarith

/-- **C58**, Gradient Descent on residuals with automatic differentiation (with or without clipping): the step is `-lr` times the (clipped) `Jᵀr`, with the true Jacobian,
and the sum of squared residuals decreases to first order along it, unless its gradient is zero. -/
theorem C58_gd_step {m : Nat} {e : Fin m → Expr n} (hP : ADProblem P e) (hlr : 0 < so.lr) (hclip : 0 ≤ so.gradClip) (w : W) (s : GNState ℝ R) (hs : s.n = n)
    (x : Vec ℝ n) (h : ∀ i, (e i).InDomain x) (hm : 0 < m) (hv : nCost so m (∑ i, (e i).value x ^ 2) ≠ maxVal)
    (J : Loss.RMat m n) (hJ : HasJac (fun y i => (e i).value y) J x) :
    ∃ t w' dx, gdBuild so P w s x = (true, t, w') ∧ (gdSolver so P).solve t = some ⟨n, dx⟩ ∧
      dx = (fun i => -so.lr * clampVec so.gradClip (tmv J fun i => (e i).value x) i) ∧
      ∃ ρ, RateAlong (fun y => ∑ i, (e i).value y ^ 2) x dx ρ ∧ (tmv J (fun i => (e i).value x) ≠ 0 → ρ < 0) := by
  obtain ⟨sn, sg, sH, sc⟩ := s
  simp only at hs
  subst hs
  obtain ⟨c, g, H, w', ha, hf⟩ := hP.full w x (fun _ => ofInt 0) (fun _ _ => ofInt 0) h
  obtain ⟨e1, e2, e3⟩ := accVector_eq h hJ ha
  subst e2 e3
  have hvv : (normalizeCost so (⟨c, m, P.ratio1, ""⟩ : Cost ℝ R)).isValid = true := by
    have h0 : c = ∑ i, (e i).value x ^ 2 := by rw [e1]; simp [sqL2, pow_two]
    have h1 : eq (normalizeCost so (⟨c, m, P.ratio1, ""⟩ : Cost ℝ R)).cost maxVal = false := by
      rw [RealOps.eq_eq_false, normalizeCost_eq _ rfl]
      simpa [h0] using hv
    unfold Cost.isValid ne
    rw [h1, normalizeCost_num]
    simpa using hm
  refine ⟨⟨sn, clampVec so.gradClip (tmv J fun i => (e i).value x), fun _ _ => ofInt 0, normalizeCost so ⟨c, m, P.ratio1, ""⟩⟩, w',
    fun i => -so.lr * clampVec so.gradClip (tmv J fun i => (e i).value x) i, ?_, ?_, rfl, clipped_rate hJ hlr hclip⟩
  · simp only [gdBuild, gnAccumulate, hf, hvv]
  · simp only [gdSolver, gdSolve, hvv, if_true]
    rfl

/-- **C58**, Gradient Descent on residuals with numerical differentiation (`CreateNumDiffFunc1`): on quadratic residuals and with a central method (where the difference quotients are
exact) the accumulated gradient is half the gradient of the sum of squares, the reported cost its square root, and the step descends. -/
theorem C58_gd_numdiff {m : Nat} (Q : Fin m → Loss.RMat n n) (A : Loss.RMat m n) (b : Vec ℝ m) (x : Vec ℝ n) (method : Method) (hm : method ≠ .forward) (h : ℝ) (hh : h ≠ 0)
    (J0 : Loss.RMat m n) (hlr : 0 < so.lr) (hclip : 0 ≤ so.gradClip) :
    HasGrad (sumSq (quadratic Q A b)) (fun k => 2 * (numDiffAcc1 vplus (quadratic Q A b) x method h J0).2 k) x ∧
    (numDiffAcc1 vplus (quadratic Q A b) x method h J0).1 = √(sumSq (quadratic Q A b) x) ∧
    ∃ ρ, RateAlong (sumSq (quadratic Q A b)) x (fun i => -so.lr * clampVec so.gradClip (numDiffAcc1 vplus (quadratic Q A b) x method h J0).2 i) ρ ∧
      ((numDiffAcc1 vplus (quadratic Q A b) x method h J0).2 ≠ 0 → ρ < 0) := by
  have hJ := C35_quadratic Q A b x method hm h hh J0
  refine ⟨sumSq_grad hJ, ?_, clipped_rate hJ hlr hclip⟩
  simp only [numDiffAcc1, l2, sumSq, pow_two]

end

/-! ### non-vacuity -/

/-- the hypotheses of `C58_gd_step` are met by the fit of a line to three points -/
example : ADProblem (adProbV line3E) line3E ∧ (∀ i, (line3E i).InDomain 0) ∧ ∃ J, HasJac (fun y i => (line3E i).value y) J 0 ∧
    ∃ so : SolverOpts ℝ, 0 < so.lr ∧ 0 < so.gradClip := by
  have h : ∀ i, (line3E i).InDomain 0 := fun i => ⟨⟨trivial, ⟨trivial, Or.inl trivial⟩, Or.inl trivial⟩, Or.inl trivial⟩
  obtain ⟨J, -, hJ⟩ := C36_jacobian line3E 0 h
  exact ⟨adProbV_ad _, h, J, hJ, { soptsR with lr := 1, gradClip := 2 }, one_pos, by norm_num⟩

/-- a user's function returning the sum of the squares and its gradient, of any size -/
def sqProb (n : Nat) : Problem ℝ ℝ Unit (Vec ℝ n) where
  acc := {
    full := fun w x k g H => (({ cost := dotR x x, num := 1, inlier := 1 }, fun i => if h : i.1 < n then g i + 2 * x ⟨i.1, h⟩ else g i, H), w)
    eval := fun w x => ({ cost := dotR x x, num := 1, inlier := 1 }, w) }
  dims := some n
  dynDims := fun _ => n
  plusEq := fun x d => fun i => if h : i.1 < d.n then x i + d.v ⟨i.1, h⟩ else x i
  clock := fun w => (1, w)
  alloc := fun w _ => (none, w)
  ratio1 := 1

theorem sqProb_user (n : Nat) : UserGrad (sqProb n) (fun x => dotR x x) (fun x => (2 : ℝ) • x) 1 where
  dyn _ := rfl
  size := Or.inl rfl
  plus x v := by funext i; simp [sqProb]
  pos := one_pos
  full w x := ⟨{ cost := dotR x x, num := 1, inlier := 1 }, fun _ _ => 0, w, by
    simp only [sqProb]
    congr 3
    funext i; simp, rfl, rfl⟩

theorem sq_smooth (n : Nat) : Smooth (fun x : Vec ℝ n => dotR x x) (fun x => (2 : ℝ) • x) 2 where
  pos := by norm_num
  grad x := by
    have := HasGrad.sum Finset.univ (f := fun i (y : RVec n) => y i * y i) (J := fun i => x i • Pi.single i 1 + x i • Pi.single i 1) (x := x)
      (fun i _ => (hasGrad_coord i x).mul (hasGrad_coord i x))
    refine this.congr_J ?_
    funext j
    simp [Finset.sum_apply, Pi.single_apply, Finset.sum_add_distrib]
    ring
  lip x y := by
    have e : (2 : ℝ) • x - (2 : ℝ) • y = (2 : ℝ) • (x - y) := by rw [smul_sub]
    rw [e, dotR_smul, dotR_comm, dotR_smul]
    linarith [dotR_self_nonneg (x - y)]

/-- the hypotheses of the C60 theorems are met on the sum of squares, with the learning rate 1/4 and the gradient clipped at 1; the gradient at the start is not zero -/
example : UserGrad (sqProb 2) (fun x => dotR x x) (fun x => (2 : ℝ) • x) 1 ∧ Smooth (fun x : Vec ℝ 2 => dotR x x) (fun x => (2 : ℝ) • x) 2 ∧
    (∃ so : SolverOpts ℝ, so.useSquaredNorm = true ∧ 0 < so.lr ∧ 2 * so.lr < 2 ∧ so.gradClip = 1 ∧ nCost so 1 (dotR (fun _ : Fin 2 => (1 : ℝ)) fun _ => 1) < maxVal) ∧
    ((2 : ℝ) • fun _ : Fin 2 => (1 : ℝ)) ≠ 0 ∧ loopBound (optsR 20) (-1) = some 21 ∧ ∀ x : Vec ℝ 2, 0 ≤ dotR x x := by
  refine ⟨sqProb_user 2, sq_smooth 2, ⟨{ soptsR with lr := 1 / 4, gradClip := 1, useSquaredNorm := true }, rfl, by norm_num, by norm_num, rfl, ?_⟩, ?_, by decide,
    fun x => dotR_self_nonneg x⟩
  · have : nCost { soptsR with lr := 1 / 4, gradClip := 1, useSquaredNorm := true } 1 (dotR (fun _ : Fin 2 => (1 : ℝ)) fun _ => 1) = 2 := by
      simp [nCost, normalizeCost, soptsR, dotR]
    rw [this]
    show (2 : ℝ) < 2 ^ 1024
    exact lt_of_lt_of_le (by norm_num : (2 : ℝ) < 2 ^ 2) (pow_le_pow_right₀ (by norm_num) (by norm_num))
  · intro h
    have := congrFun h 0
    simp at this

end Verif
