import Verif.Lemmas.Convergent
import Verif.Props.GdConvex
import Verif.Props.Defaults
/-!
# C117: Gradient Descent on costs that are smooth on a region only; the test of tests/unconstrained.cpp for all starting points
-/

set_option linter.unusedSectionVars false

namespace Verif
open FloatOps Loss

section
variable {R W : Type} {n : Nat}
variable {so : SolverOpts ℝ} {P : Problem ℝ R W (Vec ℝ n)} {o : Options ℝ W (DVec ℝ)}
variable {f : Vec ℝ n → ℝ} {G : Vec ℝ n → Vec ℝ n} {k : Nat}

/-- the Gradient Descent step at `x` -/
noncomputable def gdDir (so : SolverOpts ℝ) (G : Vec ℝ n → Vec ℝ n) (x : Vec ℝ n) : Vec ℝ n := fun i => -so.lr * clampVec so.gradClip (G x) i

theorem gd_deliversAt (h : UserGrad P f G k) {x : Vec ℝ n} (hx : nCost so k (f x) ≠ maxVal) :
    DeliversAt (gdEnv so P) (fun s : GNState ℝ R => P.dims = none ∨ s.n = n) (fun x => ⟨n, gdDir so G x⟩) (fun x => nCost so k (f x))
      (fun x => sqNorm (clampVec so.gradClip (G x))) x := by
  intro w s hs
  obtain ⟨⟨sn, sg, sH, sc⟩, w1, hr, hn1, -⟩ := resize_works h.toVecParams w s hs
  simp only at hn1
  subst hn1
  obtain ⟨c, H, w2, hu, hc, hn⟩ := h.full w1 x
  have hcost : (normalizeCost so c).cost = nCost so k (f x) := by rw [normalizeCost_eq c hn, hc]
  have hv : (normalizeCost so c).isValid = true := by
    have h1 : eq (normalizeCost so c).cost maxVal = false := by rw [RealOps.eq_eq_false, hcost]; exact hx
    have h2 := h.pos
    unfold Cost.isValid ne
    rw [h1, normalizeCost_num, hn]
    simpa using h2
  have hb : gdBuild so P w1 ⟨sn, sg, sH, sc⟩ x = (true, ⟨sn, clampVec so.gradClip (G x), fun _ _ => ofInt 0, normalizeCost so c⟩, w2) := by
    unfold gdBuild gnAccumulate
    rw [show P.acc.full w1 x sn (fun _ => ofInt 0) (fun _ _ => ofInt 0) = _ from by simpa using hu]
    simp only [hv]
  have hsol : gdSolve so (⟨sn, clampVec so.gradClip (G x), fun _ _ => ofInt 0, normalizeCost so c⟩ : GNState ℝ R) = some ⟨sn, gdDir so G x⟩ := by
    unfold gdSolve
    simp only [hv, if_true]
    rfl
  refine ⟨_, ⟨⟨_, w1, w2, resizeIfNeeded_works h.toVecParams hr, hb⟩, hsol, rfl, rfl, fun q => ⟨_, rfl⟩, ⟨_, rfl⟩⟩, hcost, rfl, ?_⟩
  rintro s3 b (rfl | ⟨q, h3⟩ | h3)
  · exact Or.inr rfl
  · injection h3 with h3; subst h3; exact Or.inr rfl
  · injection h3 with h3; subst h3; exact Or.inr rfl

/-- `x0`, `x0` plus its step, ... -/
noncomputable def gdIter (so : SolverOpts ℝ) (G : Vec ℝ n → Vec ℝ n) (x0 : Vec ℝ n) : Nat → Vec ℝ n
  | 0 => x0
  | i + 1 => gdIter so G x0 i + gdDir so G (gdIter so G x0 i)

theorem gdIter_eq (h : VecParams P) (x0 : Vec ℝ n) : ∀ i, iter (gdEnv so P) (fun x => ⟨n, gdDir so G x⟩) x0 i = gdIter so G x0 i
  | 0 => rfl
  | i + 1 => by
    rw [iter, gdIter, gdIter_eq h x0 i]
    exact h.plus _ _

/-- What is needed of a cost on a region `Ω`: Gradient Descent steps stay in the region, do not raise the cost, and bring an error measure `ε` down by the factor `q`; the step is at most `L ε` long. -/
structure GdRegion (so : SolverOpts ℝ) (f : Vec ℝ n → ℝ) (G : Vec ℝ n → Vec ℝ n) (Ω : Vec ℝ n → Prop) (ε : Vec ℝ n → ℝ) (q L : ℝ) : Prop where
  stay : ∀ x, Ω x → Ω (x + gdDir so G x)
  dec : ∀ x, Ω x → gdDir so G x ≠ 0 → f (x + gdDir so G x) < f x
  con : ∀ x, Ω x → ε (x + gdDir so G x) ≤ q * ε x
  len : ∀ x, Ω x → dotR (gdDir so G x) (gdDir so G x) ≤ (L * ε x) ^ 2
  nonneg : ∀ x, Ω x → 0 ≤ ε x

variable {Ω : Vec ℝ n → Prop} {ε : Vec ℝ n → ℝ} {q L : ℝ}

theorem GdRegion.iter_mem (h : GdRegion so f G Ω ε q L) {x0 : Vec ℝ n} (hx : Ω x0) : ∀ i, Ω (gdIter so G x0 i)
  | 0 => hx
  | i + 1 => h.stay _ (h.iter_mem hx i)

theorem GdRegion.iter_le (h : GdRegion so f G Ω ε q L) (hq : 0 ≤ q) {x0 : Vec ℝ n} (hx : Ω x0) : ∀ i, ε (gdIter so G x0 i) ≤ q ^ i * ε x0
  | 0 => by simp [gdIter]
  | i + 1 => by
    have h1 := h.con _ (h.iter_mem hx i)
    have h2 := mul_le_mul_of_nonneg_left (h.iter_le hq hx i) hq
    rw [gdIter, pow_succ]
    linarith

theorem GdRegion.iter_cost (h : GdRegion so f G Ω ε q L) {x0 : Vec ℝ n} (hx : Ω x0) : ∀ i, f (gdIter so G x0 i) ≤ f x0
  | 0 => le_refl _
  | i + 1 => by
    refine le_trans ?_ (h.iter_cost hx i)
    by_cases h0 : gdDir so G (gdIter so G x0 i) = 0
    · rw [gdIter, h0, add_zero]
    · exact (h.dec _ (h.iter_mem hx i) h0).le

/-- **C117, convergence.** On a region where Gradient Descent steps lower the cost and contract an error measure by the factor `q`, a run with a stop criterion on the
length of the steps accepts all steps and ends as converged, within `N + 1` iterations as soon as `(L q^N ε(x0))²` is below the limit and `N` below the number of iterations. The criterion that is
reported holds at the point of the last iteration. -/
theorem C117_gd_converges (h : UserGrad P f G k) (hr : GdRegion so f G Ω ε q L) (hsq : so.useSquaredNorm = true ∨ ∀ x, 0 ≤ f x)
    (ho : Unwatched o) (hms : 0 < o.minStepNorm2) (hq : 0 ≤ q) (hL : 0 ≤ L) {x0 : Vec ℝ n} (hx : Ω x0) (hx0 : nCost so k (f x0) < maxVal)
    {N : Nat} (hN : (L * (q ^ N * ε x0)) ^ 2 < o.minStepNorm2)
    (s : GNState ℝ R) (hs : P.dims = none ∨ s.n = n) (fuel : Nat) (mi m : Int) (hm : loopBound o mi = some m) (hNm : (N : Int) < m) (w : W) :
    ∃ st, optimizeAcc (gdEnv so P) o (fuel + 1) mi w s x0 = .ok st ∧ st.out.converged = true ∧ st.trace.length ≤ N + 1 ∧
      ε st.x ≤ q ^ st.trace.length * ε x0 ∧
      (∀ r ∈ st.trace, Ω r.x ∧ r.xNext = r.x + gdDir so G r.x ∧ r.succ = true) ∧
      ∃ r, st.trace.getLast? = some r ∧ st.x = r.xNext ∧
        ConvergedAt o (fun x => dotR (gdDir so G x) (gdDir so G x)) (fun x => nCost so k (f x)) (fun x => dotR (clampVec so.gradClip (G x)) (clampVec so.gradClip (G x)))
          r.x st.out.stop := by
  have hmono : ∀ x y, nCost so k (f x) < nCost so k (f y) ↔ f x < f y := by
    intro x y
    refine nCost_mono h.pos ?_
    rcases hsq with h1 | h1
    · exact Or.inl h1
    · exact Or.inr ⟨h1 x, h1 y⟩
  have hle : ∀ i, nCost so k (f (gdIter so G x0 i)) < maxVal := fun i => by
    refine lt_of_le_of_lt ?_ hx0
    by_contra hc
    push Not at hc
    exact absurd ((hmono _ _).1 hc) (not_lt.2 (hr.iter_cost hx i))
  have hn2 : ∀ x, (gdEnv so P).normSq ⟨n, gdDir so G x⟩ = dotR (gdDir so G x) (gdDir so G x) := fun x => sqNorm_eq _
  obtain ⟨st, e, h1, h2, h3, h4, h5⟩ := converging_run (E := gdEnv so P) (o := o) (D := fun x => ⟨n, gdDir so G x⟩) (C := fun x => nCost so k (f x))
    (g2 := fun x => sqNorm (clampVec so.gradClip (G x))) (Ok := fun s : GNState ℝ R => P.dims = none ∨ s.n = n) (x0 := x0) (N := N) ho (by simpa using hms)
    (fun i _ => gd_deliversAt h (by rw [gdIter_eq h.toVecParams]; exact (hle i).ne)) (by simpa using hx0)
    (fun i _ hl => by
      rw [gdIter_eq h.toVecParams] at hl
      rw [gdIter_eq h.toVecParams, gdIter_eq h.toVecParams]
      rw [hn2, RealOps.lt_eq_false] at hl
      have h0 : gdDir so G (gdIter so G x0 i) ≠ 0 := by
        intro h0
        rw [h0] at hl
        simp [dotR] at hl
        linarith
      have := (hmono _ _).2 (hr.dec _ (hr.iter_mem hx i) h0)
      simpa [gdIter] using this)
    (by
      rw [gdIter_eq h.toVecParams, hn2, RealOps.lt_eq]
      refine lt_of_le_of_lt ((hr.len _ (hr.iter_mem hx N)).trans ?_) hN
      refine pow_le_pow_left₀ (mul_nonneg hL (hr.nonneg _ (hr.iter_mem hx N))) ?_ 2
      exact mul_le_mul_of_nonneg_left (hr.iter_le hq hx N) hL)
    (fuel := fuel) hm hNm (w := w) hs
  have hrow : ∀ r ∈ st.trace, Ω r.x ∧ r.xNext = r.x + gdDir so G r.x ∧ r.succ = true := by
    intro r hr'
    obtain ⟨i, hi⟩ := List.getElem?_of_mem hr'
    obtain ⟨a, b, c⟩ := h4 i r hi
    rw [gdIter_eq h.toVecParams] at a b
    refine ⟨by rw [a]; exact hr.iter_mem hx i, ?_, c⟩
    rw [a, b, gdIter]
  refine ⟨st, e, h5.converged rfl, h2, ?_, hrow, ?_⟩
  · rw [h3, gdIter_eq h.toVecParams]; exact hr.iter_le hq hx _
  · have hl : st.trace.length - 1 < st.trace.length := by omega
    refine ⟨st.trace[st.trace.length - 1], by rw [List.getLast?_eq_getElem?, List.getElem?_eq_getElem hl], ?_, ?_⟩
    · rw [(h4 _ _ (List.getElem?_eq_getElem hl)).2.1, Nat.sub_add_cancel h1]; exact h3
    · rw [(h4 _ _ (List.getElem?_eq_getElem hl)).1]
      revert h5
      generalize st.out.stop = q
      intro h5
      cases h5 with
      | error a b => exact .error a b
      | rel q a b c => exact .rel q a b c
      | step a b => rw [hn2] at b; exact .step a b
      | grad a b => rw [sqNorm_eq] at b; exact .grad a b

/-- the region of a smooth and dominated cost (a strongly convex one, for example) is the whole space; the error measure is the square root of the excess of the cost -/
theorem gdRegion_dominated {K μ m : ℝ} (hf : Smooth f G K) (hd : Dominated f G μ m) (hm : ∀ x, m ≤ f x) (hlr : 0 < so.lr) (hK : K * so.lr < 2) (hclip : so.gradClip = 0)
    (hq : 0 ≤ gdFactor so.lr K μ) :
    GdRegion so f G (fun _ => True) (fun x => √(f x - m)) √(gdFactor so.lr K μ) (so.lr * √(2 * K)) := by
  have hcl : ∀ x, clampVec so.gradClip (G x) = G x := fun x => by rw [hclip]; simp [clampVec]
  have hdir : ∀ x, gdDir so G x = -so.lr • G x := fun x => by unfold gdDir; rw [hcl]; rfl
  have hpos : 0 < so.lr * (1 - K * so.lr / 2) := mul_pos hlr (by linarith)
  have hstep : ∀ x, f (x + gdDir so G x) ≤ f x - so.lr * (1 - K * so.lr / 2) * dotR (G x) (G x) := fun x => by
    have := C60_step (so := so) hf hlr hclip.ge x
    rw [hcl] at this
    rw [hdir]; exact this
  refine ⟨fun _ _ => trivial, fun x _ h0 => ?_, fun x _ => ?_, fun x _ => ?_, fun _ _ => Real.sqrt_nonneg _⟩
  · have h1 : 0 < dotR (G x) (G x) := lt_of_le_of_ne (dotR_self_nonneg _) fun h => h0 (by rw [hdir, dotR_self_eq_zero h.symm, smul_zero])
    have := hstep x
    have := mul_pos hpos h1
    linarith
  · rw [← Real.sqrt_mul hq]
    refine Real.sqrt_le_sqrt ?_
    have h3 := mul_le_mul_of_nonneg_left (hd x) hpos.le
    have := hstep x
    unfold gdFactor
    linarith
  · have h1 := hf.grad_le hm x
    rw [hdir, dotR_smul, dotR_comm, dotR_smul, mul_pow, mul_pow, Real.sq_sqrt (by have := hf.pos; positivity), Real.sq_sqrt (sub_nonneg.2 (hm x))]
    have := mul_le_mul_of_nonneg_left h1 (sq_nonneg so.lr)
    linarith

/-- **C117, dominated costs**: Gradient Descent with a learning rate below `2 / K` on a cost with a `K`-Lipschitz gradient and squared gradient norm at least `2 μ` times the excess of the cost ends as converged, provided enough
iterations are allowed. -/
theorem C117_gd_dominated {K μ m : ℝ} (h : UserGrad P f G k) (hf : Smooth f G K) (hd : Dominated f G μ m) (hm : ∀ x, m ≤ f x) (hsq : so.useSquaredNorm = true ∨ ∀ x, 0 ≤ f x)
    (hlr : 0 < so.lr) (hK : K * so.lr < 2) (hclip : so.gradClip = 0) (hq : 0 ≤ gdFactor so.lr K μ) (ho : Unwatched o) (hms : 0 < o.minStepNorm2) {x0 : Vec ℝ n} (hx0 : nCost so k (f x0) < maxVal)
    {N : Nat} (hN : so.lr ^ 2 * (2 * K) * (gdFactor so.lr K μ ^ N * (f x0 - m)) < o.minStepNorm2)
    (s : GNState ℝ R) (hs : P.dims = none ∨ s.n = n) (fuel : Nat) (mi M : Int) (hM : loopBound o mi = some M) (hNM : (N : Int) < M) (w : W) :
    ∃ st, optimizeAcc (gdEnv so P) o (fuel + 1) mi w s x0 = .ok st ∧ st.out.converged = true ∧ st.trace.length ≤ N + 1 ∧ (∀ r ∈ st.trace, r.succ = true) ∧
      f st.x - m ≤ gdFactor so.lr K μ ^ st.trace.length * (f x0 - m) := by
  have hKp := hf.pos
  obtain ⟨st, e, h1, h2, h3, h4, -⟩ := C117_gd_converges h (gdRegion_dominated hf hd hm hlr hK hclip hq) hsq ho hms (Real.sqrt_nonneg _) (by positivity) (x0 := x0) trivial hx0
    (N := N) (by
      rw [mul_pow, mul_pow, mul_pow, Real.sq_sqrt (by positivity), Real.sq_sqrt (sub_nonneg.2 (hm x0)), ← pow_mul, mul_comm N 2, pow_mul, Real.sq_sqrt hq]
      exact hN) s hs fuel mi M hM hNM w
  refine ⟨st, e, h1, h2, fun r hr => (h4 r hr).2.2, ?_⟩
  have := pow_le_pow_left₀ (Real.sqrt_nonneg _) h3 2
  rwa [mul_pow, Real.sq_sqrt (sub_nonneg.2 (hm st.x)), Real.sq_sqrt (sub_nonneg.2 (hm x0)), ← pow_mul, mul_comm _ 2, pow_mul, Real.sq_sqrt hq] at this

/-- **C117, no convergence.** If the first Gradient Descent step does not lower the cost, and no stop criterion holds at its two ends, the run ends where it started, after
`max_consec_failures + 1` iterations, with `kMaxConsecNoDecr`: it counts as succeeded (output.h:30) but not as converged (output.h:33-35). -/
theorem C117_gd_stuck (h : UserGrad P f G k) (hsq : so.useSquaredNorm = true ∨ ∀ x, 0 ≤ f x)
    (ho : Unwatched o) (ht : o.maxTotalFailures = 0) (hf0 : 0 < o.maxConsecFailures) (hf1 : o.maxConsecFailures < 256) {x0 : Vec ℝ n}
    (hx0 : nCost so k (f x0) ≠ maxVal) (hx1 : nCost so k (f (x0 + gdDir so G x0)) ≠ maxVal)
    (hc : ∀ x, x = x0 ∨ x = x0 + gdDir so G x0 → (0 < o.minError → o.minError ≤ nCost so k (f x)) ∧
      o.minStepNorm2 ≤ dotR (gdDir so G x) (gdDir so G x) ∧ o.minGradNorm2 ≤ dotR (clampVec so.gradClip (G x)) (clampVec so.gradClip (G x)))
    (hbad : f x0 ≤ f (x0 + gdDir so G x0))
    (s : GNState ℝ R) (hs : P.dims = none ∨ s.n = n) (fuel : Nat) (mi m : Int) (hm : loopBound o mi = some m) (hNm : (o.maxConsecFailures : Int) < m) (w : W) :
    ∃ st, optimizeAcc (gdEnv so P) o (fuel + 1) mi w s x0 = .ok st ∧ st.x = x0 ∧ st.out.stop = .kMaxConsecNoDecr ∧ st.out.converged = false ∧
      st.trace.length = o.maxConsecFailures + 1 ∧ ∀ i r, st.trace[i]? = some r → r.x = (if i % 2 = 0 then x0 else x0 + gdDir so G x0) ∧ (0 < i → r.succ = false) := by
  have hp : (gdEnv so P).plusEq x0 ⟨n, gdDir so G x0⟩ = x0 + gdDir so G x0 := h.plus _ _
  have hn2 : ∀ x, (gdEnv so P).normSq ⟨n, gdDir so G x⟩ = dotR (gdDir so G x) (gdDir so G x) := fun x => sqNorm_eq _
  have hunc : ∀ x, x = x0 ∨ x = x0 + gdDir so G x0 → Unconverged (gdEnv so P) o (fun x => ⟨n, gdDir so G x⟩) (fun x => nCost so k (f x))
      (fun x => sqNorm (clampVec so.gradClip (G x))) x := by
    intro x hx
    obtain ⟨a, b, c⟩ := hc x hx
    refine ⟨fun h0 => ?_, fun _ => ?_, fun _ => ?_⟩
    · rw [RealOps.lt_eq_false]; exact a (by simpa using h0)
    · rw [RealOps.lt_eq_false, hn2]; exact b
    · rw [RealOps.lt_eq_false, sqNorm_eq]; exact c
  obtain ⟨st, e, h1, h2, h3, -, h4⟩ := stuck_run (E := gdEnv so P) (o := o) (D := fun x => ⟨n, gdDir so G x⟩) (C := fun x => nCost so k (f x))
    (g2 := fun x => sqNorm (clampVec so.gradClip (G x))) (Ok := fun s : GNState ℝ R => P.dims = none ∨ s.n = n) (x0 := x0) ho ht hf0 hf1
    (fun best err hb => by
      rw [RealOps.lt_eq_false] at hb ⊢
      simp at hb
      unfold relDerr
      split
      next hc =>
        simp at hc
        simp only [RealOps.div_eq, RealOps.sub_eq, RealOps.ofInt_eq]
        have : (0 : ℝ) < best := lt_trans (by show (0 : ℝ) < 1 / 10 ^ 7; norm_num) hc.1
        have := div_nonpos_of_nonpos_of_nonneg (by linarith : best - err ≤ 0) this.le
        simpa using this
      · exact le_refl _)
    (fun err => by simp [relDerr]) (fun a => by simp) (gd_deliversAt h hx0) (by rw [hp]; exact gd_deliversAt h hx1)
    (hunc _ (Or.inl rfl)) (by rw [hp]; exact hunc _ (Or.inr rfl))
    (by
      rw [hp]
      show P.plusEq _ ⟨n, negVec (gdDir so G x0)⟩ = _
      rw [plus_neg h.toVecParams]; abel)
    (by
      rw [hp, RealOps.lt_eq_false]
      have : nCost so k (f x0) ≤ nCost so k (f (x0 + gdDir so G x0)) := by
        by_contra hc
        push Not at hc
        rw [nCost_mono h.pos (by
          rcases hsq with h1 | h1
          · exact Or.inl h1
          · exact Or.inr ⟨h1 _, h1 _⟩)] at hc
        linarith
      simpa using this)
    (fuel := fuel) hm hNm (w := w) hs
  rw [hp] at h4
  exact ⟨st, e, h2, h3, by unfold Output.converged; rw [h3]; decide, h1, h4⟩

end

/-! ## tests/unconstrained.cpp -/

/-- the cost of `TestSimpleGradientDescent`, tests/unconstrained.cpp:21-22 -/
def testCost (x : Vec ℝ 1) : ℝ := 3 * (x 0 - 42) ^ 2 + (x 0 - 42) ^ 4 - 2

/-- its gradient, tests/unconstrained.cpp:25 -/
def testGrad (x : Vec ℝ 1) : Vec ℝ 1 := fun _ => 2 * 3 * (x 0 - 42) + 4 * (x 0 - 42) ^ 3

/-- tests/unconstrained.cpp:20-28 as a user's function: the gradient is assigned, the returned number becomes a cost of one residual -/
def gdTestProb : Problem ℝ ℝ Unit (Vec ℝ 1) where
  acc := {
    full := fun w x _ _ H => (({ cost := testCost x, num := 1, inlier := 1 }, fun _ => testGrad x 0, H), w)
    eval := fun w x => ({ cost := testCost x, num := 1, inlier := 1 }, w) }
  dims := some 1
  dynDims := fun _ => 1
  plusEq := fun x d => fun i => if h : i.1 < d.n then x i + d.v ⟨i.1, h⟩ else x i
  clock := fun w => (1, w)
  alloc := fun w _ => (none, w)
  ratio1 := 1

/-- tests/unconstrained.cpp:32, 34-36 -/
noncomputable def gdTestOpts : Options ℝ Unit (DVec ℝ) := { defaultOptions litR with maxIters := 1000, minError := litR 0, minRerrDec := litR 0 }

/-- tests/unconstrained.cpp:32, 37 -/
noncomputable def gdTestSolver : SolverOpts ℝ := { defaultSolverOpts litR with lr := litR (1 / 100) }

theorem gdTest_user : UserGrad gdTestProb testCost testGrad 1 where
  dyn _ := rfl
  size := Or.inl rfl
  plus x v := by funext i; fin_cases i; simp [gdTestProb]
  pos := one_pos
  full w x := ⟨{ cost := testCost x, num := 1, inlier := 1 }, fun _ _ => 0, w, by
    simp only [gdTestProb]
    congr 3, rfl, rfl⟩

/-- the gradient is the gradient of the cost -/
theorem gdTest_grad (x : Vec ℝ 1) : HasGrad testCost (testGrad x) x := by
  have := (hasGrad_coord (0 : Fin 1) x).comp_deriv (φ := fun t => 3 * (t - 42) ^ 2 + (t - 42) ^ 4 - 2) (d := 2 * 3 * (x 0 - 42) + 4 * (x 0 - 42) ^ 3) (by
    have h := (hasDerivAt_id (x 0)).sub_const 42
    refine ((((h.pow 2).const_mul 3).add (h.pow 4)).sub_const 2).congr_deriv ?_
    simp; ring)
  refine this.congr_J ?_
  funext i
  fin_cases i
  simp [testGrad]

theorem litR_lr01 : litR (1 / 100) = 10737418 / 2 ^ 30 := by
  unfold litR
  rw [show Fmt.binary32.rnd (1 / 100) = 10737418 / 2 ^ 30 by decide +kernel]
  push_cast; ring

theorem lr01_bounds : (99999 / 10 ^ 7 : ℝ) ≤ litR (1 / 100) ∧ litR (1 / 100) ≤ 1 / 100 := by
  rw [litR_lr01]; norm_num

theorem litR_step : (99 / 10 ^ 16 : ℝ) ≤ litR (1 / 10 ^ 14) ∧ litR (1 / 10 ^ 14) ≤ 101 / 10 ^ 16 := by
  have h : 99 / 10 ^ 16 ≤ Fmt.binary32.rnd (1 / 10 ^ 14) ∧ Fmt.binary32.rnd (1 / 10 ^ 14) ≤ 101 / 10 ^ 16 := by decide +kernel
  have h1 : ((99 / 10 ^ 16 : ℚ) : ℝ) ≤ litR (1 / 10 ^ 14) := Rat.cast_le.2 h.1
  have h2 : litR (1 / 10 ^ 14) ≤ ((101 / 10 ^ 16 : ℚ) : ℝ) := Rat.cast_le.2 h.2
  constructor
  · refine le_trans (le_of_eq ?_) h1; push_cast; ring
  · refine le_trans h2 (le_of_eq ?_); push_cast; ring

theorem litR_grad : (99 / 10 ^ 20 : ℝ) ≤ litR (1 / 10 ^ 18) ∧ litR (1 / 10 ^ 18) ≤ 101 / 10 ^ 20 := by
  have h : 99 / 10 ^ 20 ≤ Fmt.binary32.rnd (1 / 10 ^ 18) ∧ Fmt.binary32.rnd (1 / 10 ^ 18) ≤ 101 / 10 ^ 20 := by decide +kernel
  have h1 : ((99 / 10 ^ 20 : ℚ) : ℝ) ≤ litR (1 / 10 ^ 18) := Rat.cast_le.2 h.1
  have h2 : litR (1 / 10 ^ 18) ≤ ((101 / 10 ^ 20 : ℚ) : ℝ) := Rat.cast_le.2 h.2
  constructor
  · refine le_trans (le_of_eq ?_) h1; push_cast; ring
  · refine le_trans h2 (le_of_eq ?_); push_cast; ring

/-- the test's step, with `y` the distance to 42 -/
theorem gdTest_dir (x : Vec ℝ 1) : gdDir gdTestSolver testGrad x 0 = -litR (1 / 100) * ((x 0 - 42) * (6 + 4 * (x 0 - 42) ^ 2)) := by
  have : gdTestSolver.gradClip = 0 := litR_zero
  unfold gdDir
  rw [this]
  simp only [clampVec, RealOps.eq_eq, RealOps.ofInt_eq]
  have e : gdTestSolver.lr = litR (1 / 100) := rfl
  rw [if_pos (by simp), e]
  unfold testGrad
  ring

theorem dotR_one (v : Vec ℝ 1) : dotR v v = v 0 ^ 2 := by simp [dotR, pow_two]

theorem testCost_mono {x x' : Vec ℝ 1} : testCost x < testCost x' ↔ (x 0 - 42) ^ 2 < (x' 0 - 42) ^ 2 := by
  unfold testCost
  have e : ∀ y : ℝ, y ^ 4 = (y ^ 2) ^ 2 := fun y => by ring
  rw [e, e]
  have h1 := sq_nonneg (x 0 - 42)
  have h2 := sq_nonneg (x' 0 - 42)
  constructor <;> intro h <;> nlinarith

/-- the test's cost on the ball of radius 6.8 around 42 -/
theorem gdTest_region : GdRegion gdTestSolver testCost testGrad (fun x => (x 0 - 42) ^ 2 ≤ 47) (fun x => |x 0 - 42|) (9401 / 10000) 2 := by
  obtain ⟨hl1, hl2⟩ := lr01_bounds
  have hy : ∀ x : Vec ℝ 1, (x + gdDir gdTestSolver testGrad x) 0 - 42 = (x 0 - 42) * (1 - litR (1 / 100) * (6 + 4 * (x 0 - 42) ^ 2)) := by
    intro x
    rw [Pi.add_apply, gdTest_dir]; ring
  have hg : ∀ x : Vec ℝ 1, (x 0 - 42) ^ 2 ≤ 47 → |1 - litR (1 / 100) * (6 + 4 * (x 0 - 42) ^ 2)| ≤ 9401 / 10000 := by
    intro x hx
    have h0 := sq_nonneg (x 0 - 42)
    rw [abs_le]
    constructor
    · have := mul_le_mul hl2 (by linarith : 6 + 4 * (x 0 - 42) ^ 2 ≤ 194) (by positivity) (by norm_num)
      linarith
    · have := mul_le_mul hl1 (by linarith : 6 ≤ 6 + 4 * (x 0 - 42) ^ 2) (by norm_num) (by linarith)
      linarith
  have hcon : ∀ x : Vec ℝ 1, (x 0 - 42) ^ 2 ≤ 47 → |(x + gdDir gdTestSolver testGrad x) 0 - 42| ≤ 9401 / 10000 * |x 0 - 42| := by
    intro x hx
    rw [hy, abs_mul, mul_comm]
    exact mul_le_mul_of_nonneg_right (hg x hx) (abs_nonneg _)
  have hsq : ∀ x : Vec ℝ 1, (x 0 - 42) ^ 2 ≤ 47 → ((x + gdDir gdTestSolver testGrad x) 0 - 42) ^ 2 ≤ (9401 / 10000) ^ 2 * (x 0 - 42) ^ 2 := by
    intro x hx
    have := pow_le_pow_left₀ (abs_nonneg _) (hcon x hx) 2
    rwa [mul_pow, sq_abs, sq_abs] at this
  refine ⟨fun x hx => ?_, fun x hx h0 => ?_, hcon, fun x hx => ?_, fun x _ => abs_nonneg _⟩
  · have := hsq x hx
    have := sq_nonneg (x 0 - 42)
    show ((x + gdDir gdTestSolver testGrad x) 0 - 42) ^ 2 ≤ 47
    linarith
  · rw [testCost_mono]
    have h1 : x 0 - 42 ≠ 0 := by
      intro h1
      apply h0
      funext i
      fin_cases i
      show gdDir gdTestSolver testGrad x 0 = 0
      rw [gdTest_dir, h1]; ring
    have h2 : 0 < (x 0 - 42) ^ 2 := by positivity
    have := hsq x hx
    linarith
  · rw [dotR_one, gdTest_dir]
    have h0 := sq_nonneg (x 0 - 42)
    have e : -litR (1 / 100) * ((x 0 - 42) * (6 + 4 * (x 0 - 42) ^ 2)) = -((litR (1 / 100) * (6 + 4 * (x 0 - 42) ^ 2)) * (x 0 - 42)) := by ring
    rw [e, neg_sq, mul_pow, mul_pow 2, sq_abs]
    have h1 := mul_le_mul hl2 (by linarith : 6 + 4 * (x 0 - 42) ^ 2 ≤ 194) (by positivity) (by norm_num)
    refine mul_le_mul_of_nonneg_right ?_ h0
    refine pow_le_pow_left₀ (mul_nonneg (by linarith) (by positivity)) (by linarith) 2

theorem gdTest_bound : loopBound gdTestOpts (-1) = some 1001 := rfl

theorem gdTest_unwatched : Unwatched gdTestOpts := ⟨by
  have : gdTestOpts.maxDurationMs = 0 := litR_zero
  rw [this]; simp, rfl, rfl⟩

theorem gdTest_nCost (c : ℝ) : nCost gdTestSolver 1 c = c := by
  simp [nCost, normalizeCost, gdTestSolver, defaultSolverOpts]

theorem big_lt_max {a : ℝ} (h : a ≤ 10 ^ 70) : a < (maxVal : ℝ) := by
  refine lt_of_le_of_lt h ?_
  show (10 : ℝ) ^ 70 < 2 ^ 1024
  exact lt_of_lt_of_le (by norm_num : (10 : ℝ) ^ 70 < 2 ^ 250) (pow_le_pow_right₀ (by norm_num) (by norm_num))

/-- **C117, the test for all starting points.** With the options of `TestSimpleGradientDescent` Gradient Descent started at any point at most 6.8 from 42 (the test starts at 40.1) ends as
converged, because of the length of the step or of the gradient, within 311 of its 1001 iterations, at a point within `2e-6` of 42; the test requires `1e-5`. -/
theorem C117_test (x0 : Vec ℝ 1) (hx : |x0 0 - 42| ≤ 68 / 10) (s : GNState ℝ ℝ) (hs : s.n = 1) (fuel : Nat) :
    ∃ st, optimizeAcc (gdEnv gdTestSolver gdTestProb) gdTestOpts (fuel + 1) (-1) () s x0 = .ok st ∧ st.out.converged = true ∧
      (st.out.stop = .kMinDeltaNorm ∨ st.out.stop = .kMinGradNorm) ∧ st.trace.length ≤ 311 ∧ (∀ r ∈ st.trace, r.succ = true) ∧ |st.x 0 - 42| ≤ 2 / 10 ^ 6 := by
  obtain ⟨hs1, hs2⟩ := litR_step
  obtain ⟨hg1, hg2⟩ := litR_grad
  obtain ⟨hl1, hl2⟩ := lr01_bounds
  have hx2 : (x0 0 - 42) ^ 2 ≤ 47 := by
    have := pow_le_pow_left₀ (abs_nonneg _) hx 2
    rw [sq_abs] at this
    norm_num at this
    linarith
  have h0 := sq_nonneg (x0 0 - 42)
  obtain ⟨st, e, h1, h2, -, h4, r, hr, hrx, h5⟩ := C117_gd_converges (o := gdTestOpts) gdTest_user gdTest_region (Or.inl rfl) gdTest_unwatched
    (lt_of_lt_of_le (by norm_num) hs1) (by norm_num) (by norm_num) (x0 := x0) hx2
    (by rw [gdTest_nCost]; refine big_lt_max ?_; unfold testCost; nlinarith)
    (N := 310) (by
      refine lt_of_lt_of_le ?_ hs1
      have h6 : 2 * ((9401 / 10000 : ℝ) ^ 310 * |x0 0 - 42|) ≤ 9 / 10 ^ 8 := by
        have h7 : (9401 / 10000 : ℝ) ^ 310 ≤ 6 / 10 ^ 9 := by
          rw [show 310 = 155 * 2 from rfl, pow_mul]
          norm_num
        have h8 := mul_le_mul h7 hx (abs_nonneg _) (by norm_num)
        generalize (9401 / 10000 : ℝ) ^ 310 * |x0 0 - 42| = a at h8 ⊢
        linarith
      refine lt_of_le_of_lt (pow_le_pow_left₀ (by positivity) h6 2) ?_
      norm_num)
    s (Or.inr hs) fuel (-1) 1001 gdTest_bound (by norm_num) ()
  have hmem : r ∈ st.trace := List.mem_of_getLast? hr
  obtain ⟨hrΩ, hrn, -⟩ := h4 r hmem
  have hcon := gdTest_region.con r.x hrΩ
  have hpos : (0 : ℝ) ≤ (r.x 0 - 42) ^ 2 := sq_nonneg _
  have hcl : ∀ x, clampVec gdTestSolver.gradClip (testGrad x) = testGrad x := fun x => by
    have : gdTestSolver.gradClip = 0 := litR_zero
    rw [this]; simp [clampVec]
  have hclose : (6 * (r.x 0 - 42)) ^ 2 * litR (1 / 100) ^ 2 ≤ 101 / 10 ^ 16 → |st.x 0 - 42| ≤ 2 / 10 ^ 6 := by
    intro h
    rw [hrx, hrn]
    have h8 : |r.x 0 - 42| ≤ 2 / 10 ^ 6 := by
      have h9 : (r.x 0 - 42) ^ 2 * (36 * litR (1 / 100) ^ 2) ≤ 101 / 10 ^ 16 := by linarith
      have h10 : (99998 / 10 ^ 9 : ℝ) ≤ litR (1 / 100) ^ 2 := by
        have := pow_le_pow_left₀ (by norm_num) hl1 2
        refine le_trans ?_ this
        norm_num
      have h11 := mul_le_mul_of_nonneg_left h10 hpos
      have h12 : (r.x 0 - 42) ^ 2 ≤ (2 / 10 ^ 6) ^ 2 := by
        have : (36 * (99998 / 10 ^ 9) : ℝ) * (r.x 0 - 42) ^ 2 ≤ 101 / 10 ^ 16 := by linarith
        norm_num at this ⊢
        linarith
      exact abs_le_of_sq_le_sq h12 (by norm_num)
    have := abs_nonneg (r.x 0 - 42)
    have hcon' : |(r.x + gdDir gdTestSolver testGrad r.x) 0 - 42| ≤ 9401 / 10000 * |r.x 0 - 42| := hcon
    linarith
  have hz : gdTestOpts.minError = 0 := litR_zero
  have hz' : gdTestOpts.minRerrDec = 0 := litR_zero
  have main : (st.out.stop = .kMinDeltaNorm ∨ st.out.stop = .kMinGradNorm) ∧ |st.x 0 - 42| ≤ 2 / 10 ^ 6 := by
    revert h5
    generalize st.out.stop = q
    intro h5
    have hge : (6 * (r.x 0 - 42)) ^ 2 ≤ ((r.x 0 - 42) * (6 + 4 * (r.x 0 - 42) ^ 2)) ^ 2 := by
      rw [mul_pow, mul_pow, mul_comm]
      refine mul_le_mul_of_nonneg_left ?_ hpos
      exact pow_le_pow_left₀ (by norm_num) (by linarith) 2
    cases h5 with
    | error a b => rw [hz] at a; simp at a
    | rel q a b c => rw [hz'] at a; simp at a
    | step a b =>
      refine ⟨Or.inl rfl, hclose ?_⟩
      rw [RealOps.lt_eq, dotR_one, gdTest_dir] at b
      have b : (-litR (1 / 100) * ((r.x 0 - 42) * (6 + 4 * (r.x 0 - 42) ^ 2))) ^ 2 < litR (1 / 10 ^ 14) := b
      rw [mul_pow, neg_sq] at b
      have := mul_le_mul_of_nonneg_right hge (sq_nonneg (litR (1 / 100)))
      linarith
    | grad a b =>
      refine ⟨Or.inr rfl, hclose ?_⟩
      rw [RealOps.lt_eq, hcl, dotR_one] at b
      have b : (2 * 3 * (r.x 0 - 42) + 4 * (r.x 0 - 42) ^ 3) ^ 2 < litR (1 / 10 ^ 18) := b
      have e1 : 2 * 3 * (r.x 0 - 42) + 4 * (r.x 0 - 42) ^ 3 = (r.x 0 - 42) * (6 + 4 * (r.x 0 - 42) ^ 2) := by ring
      rw [e1] at b
      have h6 : litR (1 / 100) ^ 2 ≤ 1 := pow_le_one₀ (by linarith) (by linarith)
      have := mul_le_mul_of_nonneg_left h6 (sq_nonneg (6 * (r.x 0 - 42)))
      have : (101 / 10 ^ 20 : ℝ) ≤ 101 / 10 ^ 16 := by norm_num
      linarith
  exact ⟨st, e, h1, main.1, h2, fun r hr => (h4 r hr).2.2, main.2⟩

/-- **C117, the test's radius is sharp.** With the same options, from any point at least 7 (and at most `10^6`) from 42 the first step does not lower the cost: the run ends where it started after six
iterations, is not reported as converged, and the distance of the test is not reached. -/
theorem C117_test_far (x0 : Vec ℝ 1) (hx : 7 ≤ |x0 0 - 42|) (hx' : |x0 0 - 42| ≤ 10 ^ 6) (s : GNState ℝ ℝ) (hs : s.n = 1) (fuel : Nat) :
    ∃ st, optimizeAcc (gdEnv gdTestSolver gdTestProb) gdTestOpts (fuel + 1) (-1) () s x0 = .ok st ∧ st.x = x0 ∧ st.out.stop = .kMaxConsecNoDecr ∧
      st.out.converged = false ∧ st.trace.length = 6 := by
  obtain ⟨hs1, hs2⟩ := litR_step
  obtain ⟨hg1, hg2⟩ := litR_grad
  obtain ⟨hl1, hl2⟩ := lr01_bounds
  have hy : (x0 + gdDir gdTestSolver testGrad x0) 0 - 42 = (x0 0 - 42) * (1 - litR (1 / 100) * (6 + 4 * (x0 0 - 42) ^ 2)) := by
    rw [Pi.add_apply, gdTest_dir]; ring
  have hsq : 49 ≤ (x0 0 - 42) ^ 2 := by
    have := pow_le_pow_left₀ (by norm_num) hx 2
    rw [sq_abs] at this
    linarith
  have hsq' : (x0 0 - 42) ^ 2 ≤ 10 ^ 12 := by
    have := pow_le_pow_left₀ (abs_nonneg _) hx' 2
    rw [sq_abs] at this
    linarith
  have hup : (x0 0 - 42) ^ 2 ≤ ((x0 + gdDir gdTestSolver testGrad x0) 0 - 42) ^ 2 := by
    rw [hy, mul_pow]
    have h1 := mul_le_mul hl1 (by linarith : (202 : ℝ) ≤ 6 + 4 * (x0 0 - 42) ^ 2) (by norm_num) (by linarith)
    have h2 : 1 ≤ (1 - litR (1 / 100) * (6 + 4 * (x0 0 - 42) ^ 2)) ^ 2 := by nlinarith
    have := mul_le_mul_of_nonneg_left h2 (sq_nonneg (x0 0 - 42))
    linarith
  have hcost : ∀ x : Vec ℝ 1, (x 0 - 42) ^ 2 ≤ 10 ^ 34 → nCost gdTestSolver 1 (testCost x) < maxVal := by
    intro x hx
    rw [gdTest_nCost]
    refine big_lt_max ?_
    unfold testCost
    have e : (x 0 - 42) ^ 4 = (x 0 - 42) ^ 2 * (x 0 - 42) ^ 2 := by ring
    have := mul_le_mul hx hx (sq_nonneg _) (by norm_num)
    rw [e]
    norm_num at this ⊢
    linarith
  have hx1 : ((x0 + gdDir gdTestSolver testGrad x0) 0 - 42) ^ 2 ≤ 10 ^ 34 := by
    rw [hy, mul_pow]
    have h0 : 0 ≤ litR (1 / 100) * (6 + 4 * (x0 0 - 42) ^ 2) := mul_nonneg (by linarith) (by positivity)
    have h1 := mul_le_mul hl2 (by linarith : 6 + 4 * (x0 0 - 42) ^ 2 ≤ 5 * 10 ^ 12) (by positivity) (by norm_num)
    have h2 : (1 - litR (1 / 100) * (6 + 4 * (x0 0 - 42) ^ 2)) ^ 2 ≤ (10 ^ 11) ^ 2 := by
      refine sq_le_sq' ?_ ?_ <;> norm_num at h1 ⊢ <;> linarith
    have := mul_le_mul hsq' h2 (sq_nonneg _) (by norm_num)
    refine this.trans ?_
    norm_num
  have hcl : ∀ x, clampVec gdTestSolver.gradClip (testGrad x) = testGrad x := fun x => by
    have : gdTestSolver.gradClip = 0 := litR_zero
    rw [this]; simp [clampVec]
  obtain ⟨st, e, h1, h2, h3, h4, -⟩ := C117_gd_stuck (o := gdTestOpts) gdTest_user (so := gdTestSolver) (Or.inl rfl) gdTest_unwatched rfl (by decide) (by decide) (x0 := x0)
    (hcost _ (by linarith)).ne (hcost _ hx1).ne
    (fun x hx => by
      have hb : 49 ≤ (x 0 - 42) ^ 2 := by
        rcases hx with rfl | rfl
        · exact hsq
        · exact hsq.trans hup
      have h5 : (49 * 36 : ℝ) ≤ ((x 0 - 42) * (6 + 4 * (x 0 - 42) ^ 2)) ^ 2 := by
        rw [mul_pow]
        have := pow_le_pow_left₀ (by norm_num) (by linarith : (6 : ℝ) ≤ 6 + 4 * (x 0 - 42) ^ 2) 2
        have := mul_le_mul hb this (by norm_num) (sq_nonneg _)
        linarith
      refine ⟨fun h0 => ?_, ?_, ?_⟩
      · have hz : gdTestOpts.minError = 0 := litR_zero
        rw [hz] at h0; exact absurd h0 (lt_irrefl _)
      · rw [dotR_one, gdTest_dir, mul_pow, neg_sq]
        have h6 := pow_le_pow_left₀ (by norm_num) hl1 2
        have := mul_le_mul h6 h5 (by norm_num) (sq_nonneg _)
        refine le_trans (le_trans hs2 ?_) this
        norm_num
      · rw [hcl, dotR_one]
        have e1 : testGrad x 0 = (x 0 - 42) * (6 + 4 * (x 0 - 42) ^ 2) := by unfold testGrad; ring
        rw [e1]
        refine le_trans (le_trans hg2 ?_) h5
        norm_num)
    (by
      by_contra hc
      push Not at hc
      rw [testCost_mono] at hc
      linarith)
    s (Or.inr hs) fuel (-1) 1001 gdTest_bound (by decide) ()
  exact ⟨st, e, h1, h2, h3, h4⟩

/-- hypotheses of `C117_gd_dominated`: the sum of squares, learning rate `1/4`, where the excess shrinks by the factor 1/4; the limit `10^-6` of the squared step is
reached from `(1, 1)` after 10 iterations -/
example : Smooth (fun x : Vec ℝ 2 => dotR x x) (fun x => (2 : ℝ) • x) 2 ∧ Dominated (fun x : Vec ℝ 2 => dotR x x) (fun x => (2 : ℝ) • x) 2 0 ∧ gdFactor (1 / 4) 2 2 = 1 / 4 ∧
    ((1 / 4 : ℝ) ^ 2 * (2 * 2) * (gdFactor (1 / 4) 2 2 ^ 10 * (dotR (fun _ : Fin 2 => (1 : ℝ)) (fun _ => 1) - 0)) < 1 / 10 ^ 6) := by
  have e : gdFactor (1 / 4) 2 2 = 1 / 4 := by unfold gdFactor; norm_num
  refine ⟨sq_smooth 2, fun x => ?_, e, ?_⟩
  · show 2 * 2 * (dotR x x - 0) ≤ dotR ((2 : ℝ) • x) ((2 : ℝ) • x)
    simp only [dotR_smul, dotR_comm ((2 : ℝ) • x) x]; linarith
  · rw [e]; simp [dotR]; norm_num

/-- the starting point of the test, and one on the other side that is as far away as allowed -/
example : |((fun _ => 40.1 : Vec ℝ 1)) 0 - 42| ≤ 68 / 10 ∧ |((fun _ => 48.8 : Vec ℝ 1)) 0 - 42| ≤ 68 / 10 ∧ 7 ≤ |((fun _ => 0 : Vec ℝ 1)) 0 - 42| := by
  norm_num [abs_of_nonneg, abs_of_nonpos]

end Verif
