import Verif.Props.FullRuns
import Verif.Props.Converged
import Mathlib.Analysis.Convex.Deriv
/-!
# C112: rates of Gradient Descent on convex costs
-/

set_option linter.unusedSectionVars false

namespace Verif
open FloatOps Loss

/-- `f` minus `μ / 2` times the squared norm is convex: convex (`μ = 0`) or strongly convex (`μ > 0`) -/
def StronglyConvex {n : Nat} (f : Vec ℝ n → ℝ) (μ : ℝ) : Prop := ConvexOn ℝ Set.univ fun x => f x - μ / 2 * dotR x x

/-- the gradient dominates the excess of the cost over `m` (the Polyak-Łojasiewicz inequality) -/
def Dominated {n : Nat} (f : Vec ℝ n → ℝ) (G : Vec ℝ n → Vec ℝ n) (μ m : ℝ) : Prop := ∀ x, 2 * μ * (f x - m) ≤ dotR (G x) (G x)

section
variable {n : Nat} {f : Vec ℝ n → ℝ} {G : Vec ℝ n → Vec ℝ n} {K μ m : ℝ}

theorem hasDerivAt_line {g : Vec ℝ n} {x d : Vec ℝ n} {F : Vec ℝ n → ℝ} (h : HasGrad F g x) : HasDerivAt (fun t : ℝ => F (x + t • d)) (dotR g d) 0 := by
  have h1 : HasDerivAt (fun t : ℝ => x + t • d) d 0 := by
    have := ((hasDerivAt_id (0 : ℝ)).smul_const d).const_add x
    simpa using this
  have h2 : HasFDerivAt F (rowCLM g) (x + (0 : ℝ) • d) := by rw [zero_smul, add_zero]; exact h
  have := h2.comp_hasDerivAt (0 : ℝ) h1
  rw [rowCLM_apply] at this
  exact this

/-- a strongly convex function lies above its tangent parabolas -/
theorem StronglyConvex.above (h : StronglyConvex f μ) (hG : ∀ x, HasGrad f (G x) x) (x y : Vec ℝ n) :
    f x + dotR (G x) (y - x) + μ / 2 * dotR (y - x) (y - x) ≤ f y := by
  set d := y - x with hd
  have hy : y = x + (1 : ℝ) • d := by rw [one_smul, hd]; abel
  have e : ∀ t : ℝ, dotR (x + t • d) (x + t • d) = dotR x x + 2 * t * dotR x d + t ^ 2 * dotR d d := by
    intro t
    simp only [dotR, Finset.mul_sum, ← Finset.sum_add_distrib]
    refine Finset.sum_congr rfl fun i _ => ?_
    simp
    ring
  have hc : ConvexOn ℝ Set.univ fun t : ℝ => f (x + t • d) - μ / 2 * dotR (x + t • d) (x + t • d) := by
    have h1 := h.comp_affineMap (AffineMap.lineMap x (x + d))
    have e1 : (fun x => f x - μ / 2 * dotR x x) ∘ (AffineMap.lineMap x (x + d) : ℝ →ᵃ[ℝ] Vec ℝ n) = fun t : ℝ => f (x + t • d) - μ / 2 * dotR (x + t • d) (x + t • d) := by
      funext t
      have : (AffineMap.lineMap x (x + d) : ℝ →ᵃ[ℝ] Vec ℝ n) t = x + t • d := by
        rw [AffineMap.lineMap_apply]
        simp [add_comm]
      simp [this]
    rw [e1] at h1
    exact h1
  have hder : HasDerivAt (fun t : ℝ => f (x + t • d) - μ / 2 * dotR (x + t • d) (x + t • d)) (dotR (G x) d - μ * dotR x d) 0 := by
    simp only [e]
    have h1 := hasDerivAt_line (d := d) (hG x)
    have h2 : HasDerivAt (fun t : ℝ => μ / 2 * (dotR x x + 2 * t * dotR x d + t ^ 2 * dotR d d)) (μ * dotR x d) 0 := by
      have a := (((hasDerivAt_id (0 : ℝ)).const_mul 2).mul_const (dotR x d)).const_add (dotR x x)
      have b := ((hasDerivAt_id (0 : ℝ)).pow 2).mul_const (dotR d d)
      refine ((a.add b).const_mul (μ / 2)).congr_deriv ?_
      simp
      ring
    exact h1.sub h2
  have h3 := hc.le_slope_of_hasDerivAt (Set.mem_univ 0) (Set.mem_univ 1) one_pos hder
  rw [slope_def_field] at h3
  simp only [e] at h3
  rw [hy]
  simp only [zero_smul, add_zero] at h3
  norm_num at h3
  simp only [one_smul]
  linarith

/-- strong convexity gives dominance, with the value at any stationary point -/
theorem StronglyConvex.dominated (h : StronglyConvex f μ) (hμ : 0 < μ) (hG : ∀ x, HasGrad f (G x) x) (xs : Vec ℝ n) : Dominated f G μ (f xs) := by
  intro x
  have h1 := h.above hG x xs
  have h2 := dotR_self_nonneg (G x + μ • (xs - x))
  have e : dotR (G x + μ • (xs - x)) (G x + μ • (xs - x)) = dotR (G x) (G x) + 2 * μ * dotR (G x) (xs - x) + μ ^ 2 * dotR (xs - x) (xs - x) := by
    simp only [dotR, Finset.mul_sum, ← Finset.sum_add_distrib]
    refine Finset.sum_congr rfl fun i _ => ?_
    simp
    ring
  rw [e] at h2
  nlinarith

/-- the squared gradient is at most `2 K` times the excess of the cost -/
theorem Smooth.grad_le (h : Smooth f G K) (hm : ∀ x, m ≤ f x) (x : Vec ℝ n) : dotR (G x) (G x) ≤ 2 * K * (f x - m) := by
  have h1 := h.descent x (-(1 / K) • G x)
  have h2 := hm (x + -(1 / K) • G x)
  rw [dotR_smul, dotR_smul, dotR_comm (-(1 / K) • G x), dotR_smul] at h1
  have hK := h.pos
  have h3 : m ≤ f x - 1 / (2 * K) * dotR (G x) (G x) := by
    refine (h2.trans h1).trans (le_of_eq ?_)
    field_simp
    ring
  have h4 : 1 / (2 * K) * dotR (G x) (G x) * (2 * K) = dotR (G x) (G x) := by field_simp
  nlinarith

end

/-! ### The states from which the steps of a run are taken -/

section
variable {F R W S X V M : Type} [FloatOps F]
variable {E : Env F R W S X V M} {o : Options F W V} {Px : X → Prop} {I Z : S → Prop} {B N A : X → S → Prop}

theorem Path.getLast : ∀ {l : List (Rec F R X V M)} {x y : X} {r : Rec F R X V M}, Path x l y → l.getLast? = some r → y = r.xNext
  | [], _, _, _, _, h => by simp at h
  | [a], _, _, _, hp, h => by
    simp at h
    subst h
    exact hp.2
  | a :: b :: l, _, _, _, hp, h => Path.getLast (l := b :: l) hp.2 (by rwa [List.getLast?_cons_cons] at h)

theorem run_rows_inv (h : RunInv E Px I Z B N A) {fuel : Nat} {mi : Int} {w : W} {s : S} {x : X} {st : LoopSt F R W S X V M} (hx : Px x) (hI : I s)
    (hh : optimizeAcc E o fuel mi w s x = .ok st) :
    ∀ r ∈ st.trace, ∃ w s out w1 s1, Px r.x ∧ I s ∧ out.stop = .kNone ∧ step E o fuel w s r.x out = .ok ((r.succ, r.dx), w1, s1, r.out) := by
  obtain ⟨m, st0, -, hj, -, hst⟩ := run_inv2 (E := E) (o := o)
    (I := fun st => Px st.x ∧ I st.s ∧ ∀ r ∈ st.trace, ∃ w s out w1 s1, Px r.x ∧ I s ∧ out.stop = .kNone ∧ step E o fuel w s r.x out = .ok ((r.succ, r.dx), w1, s1, r.out))
    (J := fun st => ∀ r ∈ st.trace, ∃ w s out w1 s1, Px r.x ∧ I s ∧ out.stop = .kNone ∧ step E o fuel w s r.x out = .ok ((r.succ, r.dx), w1, s1, r.out))
    (fun last st st' h0 h1 hb => by
      obtain ⟨succ, mdx, w1, s1, out1, ms, hstep, hs⟩ := body_spec' hb
      have hrows : ∀ r ∈ st'.trace, ∃ w s out w1 s1, Px r.x ∧ I s ∧ out.stop = .kNone ∧ step E o fuel w s r.x out = .ok ((r.succ, r.dx), w1, s1, r.out) := by
        intro r hr
        rw [hs.trace, List.mem_append, List.mem_singleton] at hr
        rcases hr with hr | rfl
        · exact h1.2.2 r hr
        · exact ⟨_, _, _, _, _, h1.1, h1.2.1, h0, hstep⟩
      have h2 := step_runinv h.toStepInv h1.1 h1.2.1 hstep
      obtain ⟨b, hb⟩ := hs.solver
      refine ⟨fun hn _ => ⟨?_, ?_, hrows⟩, hrows⟩
      · have := hs.upd
        revert this
        generalize st'.x = x1
        generalize st'.lastDx = l1
        generalize st'.lastSucc = b1
        intro this
        cases this with
        | succ dx => exact h.plus _ _ h1.1
        | roll d _ _ => exact h.plus _ _ h1.1
        | adv dx _ => exact h.plus _ _ h1.1
        | stay _ => exact h1.1
      · have hn1 : out1.stop = .kNone := by
          rw [hs.out] at hn
          simp only [timeStop] at hn
          split at hn
          · cases hn
          · exact hn
        rw [hb]
        rcases h2 with ⟨-, h2, -⟩ | ⟨t, dx', hB, hsol, hp, -, -, -, hA⟩
        · rw [hn1] at h2; exact absurd h2 (by decide)
        · split at hA
          · exact h.rebuildA _ _ _ hA
          · subst hA; exact h.rebuildB _ _ _ hB)
    ⟨hx, hI, by simp [initSt]⟩ (by simp [initSt]) hh
  rw [hst]; exact hj

end

/-! ### Runs -/

section
variable {R W : Type} {n : Nat}
variable {so : SolverOpts ℝ} {P : Problem ℝ R W (Vec ℝ n)} {o : Options ℝ W (DVec ℝ)}
variable {f : Vec ℝ n → ℝ} {G : Vec ℝ n → Vec ℝ n} {K μ m : ℝ} {k : Nat}

/-- the factor by which a Gradient Descent step shrinks the excess of a dominated cost -/
noncomputable def gdFactor (lr K μ : ℝ) : ℝ := 1 - 2 * μ * (lr * (1 - K * lr / 2))

theorem gdFactor_nonneg (hf : Smooth f G K) (hd : Dominated f G μ m) (hm : ∀ x, m ≤ f x) {lr : ℝ} (hlr : 0 < lr) (hK : K * lr < 2) {z : Vec ℝ n} (hz : m < f z) :
    0 ≤ gdFactor lr K μ := by
  have hpos : 0 < lr * (1 - K * lr / 2) := mul_pos hlr (by linarith)
  have hμK : μ ≤ K := by
    have h2 := (hd z).trans (hf.grad_le hm z)
    nlinarith
  unfold gdFactor
  nlinarith [mul_le_mul_of_nonneg_right hμK hpos.le, sq_nonneg (1 - K * lr)]

/-- a Gradient Descent run takes the gradient step in all its iterations -/
theorem gd_rows (h : UserGrad P f G k) (hf : Smooth f G K) (hsq : so.useSquaredNorm = true ∨ ∀ x, 0 ≤ f x)
    (hlr : 0 < so.lr) (hK : K * so.lr < 2) (hclip : so.gradClip = 0)
    (s : GNState ℝ R) (hs : P.dims = none ∨ s.n = n) (fuel : Nat) (mi b : Int) (hb : loopBound o mi = some b)
    (w : W) (x0 : Vec ℝ n) (hx0 : nCost so k (f x0) < maxVal) :
    ∃ st, optimizeAcc (gdEnv so P) o (fuel + 1) mi w s x0 = .ok st ∧ Path x0 st.trace st.x ∧
      ∀ r ∈ st.trace, r.xNext = r.x + -so.lr • G r.x ∧ f r.xNext ≤ f r.x - so.lr * (1 - K * so.lr / 2) * dotR (G r.x) (G r.x) ∧ (G r.x ≠ 0 → r.succ = true) := by
  obtain ⟨st, e, h1, -⟩ := C60_gd_run h hf hsq hlr hK hclip.ge s hs fuel mi b hb w x0 hx0
  refine ⟨st, e, run_path e, fun r hr => ?_⟩
  have hcl : clampVec so.gradClip (G r.x) = G r.x := by rw [hclip]; simp [clampVec]
  obtain ⟨h2, h3, -⟩ := h1 r hr
  have h4 := C60_step (so := so) hf hlr hclip.ge r.x
  rw [hcl] at h2 h4
  refine ⟨by rw [h2]; rfl, ?_, fun hg => (h3 hg).1⟩
  rw [h2]; exact h4

/-- excesses that shrink by a factor along a path -/
theorem path_factor {F R X V M : Type} {E : X → ℝ} {q : ℝ} (hq : 0 ≤ q) : ∀ {l : List (Rec F R X V M)} {x y : X}, Path x l y → (∀ r ∈ l, E r.xNext ≤ q * E r.x) →
    E y ≤ q ^ l.length * E x
  | [], x, y, h, _ => by simp only [Path] at h; rw [h]; simp
  | r :: l, x, y, h, hr => by
    have h1 := path_factor hq h.2 fun t ht => hr t (List.mem_cons_of_mem _ ht)
    have h2 := hr r List.mem_cons_self
    rw [h.1] at h2
    rw [List.length_cons, pow_succ, mul_assoc]
    exact h1.trans (mul_le_mul_of_nonneg_left h2 (pow_nonneg hq _))

/-- **C112**, dominated costs (strongly convex ones are, see `StronglyConvex.dominated`; so are some that are not convex): every iteration multiplies the excess of
the cost over its lower bound `m` by at most `1 - 2 μ lr (1 - K lr / 2)`. -/
theorem C112_linear (h : UserGrad P f G k) (hf : Smooth f G K) (hd : Dominated f G μ m) (hm : ∀ x, m ≤ f x) (hsq : so.useSquaredNorm = true ∨ ∀ x, 0 ≤ f x)
    (hlr : 0 < so.lr) (hK : K * so.lr < 2) (hclip : so.gradClip = 0)
    (s : GNState ℝ R) (hs : P.dims = none ∨ s.n = n) (fuel : Nat) (mi b : Int) (hb : loopBound o mi = some b)
    (w : W) (x0 : Vec ℝ n) (hx0 : nCost so k (f x0) < maxVal) :
    ∃ st, optimizeAcc (gdEnv so P) o (fuel + 1) mi w s x0 = .ok st ∧ f st.x - m ≤ gdFactor so.lr K μ ^ st.trace.length * (f x0 - m) := by
  obtain ⟨st, e, hp, h1⟩ := gd_rows h hf hsq hlr hK hclip s hs fuel mi b hb w x0 hx0
  refine ⟨st, e, ?_⟩
  have hpos : 0 < so.lr * (1 - K * so.lr / 2) := mul_pos hlr (by linarith)
  have hstep : ∀ r ∈ st.trace, f r.xNext - m ≤ gdFactor so.lr K μ * (f r.x - m) := by
    intro r hr
    have h2 := (h1 r hr).2.1
    have h3 := mul_le_mul_of_nonneg_left (hd r.x) hpos.le
    unfold gdFactor
    linarith
  by_cases hz : ∃ x, m < f x
  · obtain ⟨z, hz⟩ := hz
    exact path_factor (E := fun x => f x - m) (gdFactor_nonneg hf hd hm hlr hK hz) hp hstep
  · push Not at hz
    have e0 : ∀ x, f x - m = 0 := fun x => by linarith [hz x, hm x]
    rw [e0, e0, mul_zero]

/-- **C112**, strongly convex costs: the squared distance to the minimiser shrinks at the same rate. -/
theorem C112_distance (h : UserGrad P f G k) (hf : Smooth f G K) (hc : StronglyConvex f μ) (hμ : 0 < μ) (xs : Vec ℝ n) (hxs : G xs = 0)
    (hsq : so.useSquaredNorm = true ∨ ∀ x, 0 ≤ f x) (hlr : 0 < so.lr) (hK : K * so.lr < 2) (hclip : so.gradClip = 0)
    (s : GNState ℝ R) (hs : P.dims = none ∨ s.n = n) (fuel : Nat) (mi b : Int) (hb : loopBound o mi = some b)
    (w : W) (x0 : Vec ℝ n) (hx0 : nCost so k (f x0) < maxVal) :
    ∃ st, optimizeAcc (gdEnv so P) o (fuel + 1) mi w s x0 = .ok st ∧
      dotR (st.x - xs) (st.x - xs) ≤ K / μ * gdFactor so.lr K μ ^ st.trace.length * dotR (x0 - xs) (x0 - xs) ∧ gdFactor so.lr K μ < 1 := by
  have habove : ∀ x, f xs + μ / 2 * dotR (x - xs) (x - xs) ≤ f x := fun x => by
    have := hc.above hf.grad xs x
    rw [hxs] at this
    have e : dotR (0 : Vec ℝ n) (x - xs) = 0 := by simp [dotR]
    rw [e] at this
    linarith
  have hm : ∀ x, f xs ≤ f x := fun x => by
    have := habove x
    have := mul_nonneg (half_pos hμ).le (dotR_self_nonneg (x - xs))
    linarith
  obtain ⟨st, e, h1⟩ := C112_linear h hf (hc.dominated hμ hf.grad xs) hm hsq hlr hK hclip s hs fuel mi b hb w x0 hx0
  refine ⟨st, e, ?_, ?_⟩
  · have h2 := habove st.x
    have h3 := hf.descent xs (x0 - xs)
    rw [hxs, add_sub_cancel] at h3
    have e0 : dotR (0 : Vec ℝ n) (x0 - xs) = 0 := by simp [dotR]
    rw [e0] at h3
    have hq : 0 ≤ gdFactor so.lr K μ ^ st.trace.length ∨ x0 = xs := by
      by_cases hx : x0 = xs
      · exact Or.inr hx
      · left
        have h4 := habove x0
        have h5 : 0 < dotR (x0 - xs) (x0 - xs) := lt_of_le_of_ne (dotR_self_nonneg _) fun h0 => hx (sub_eq_zero.1 (dotR_self_eq_zero h0.symm))
        exact pow_nonneg (gdFactor_nonneg hf (hc.dominated hμ hf.grad xs) hm hlr hK (z := x0) (by nlinarith)) _
    have h6 : f st.x - f xs ≤ gdFactor so.lr K μ ^ st.trace.length * (K / 2 * dotR (x0 - xs) (x0 - xs)) := by
      rcases hq with hq | hq
      · exact h1.trans (mul_le_mul_of_nonneg_left (by linarith) hq)
      · rw [hq] at h1 ⊢
        simpa [dotR] using h1
    have h7 : dotR (st.x - xs) (st.x - xs) ≤ 2 / μ * (gdFactor so.lr K μ ^ st.trace.length * (K / 2 * dotR (x0 - xs) (x0 - xs))) := by
      have h8 : μ / 2 * dotR (st.x - xs) (st.x - xs) ≤ gdFactor so.lr K μ ^ st.trace.length * (K / 2 * dotR (x0 - xs) (x0 - xs)) := by linarith
      have h9 := mul_le_mul_of_nonneg_left h8 (div_pos two_pos hμ).le
      have e9 : 2 / μ * (μ / 2 * dotR (st.x - xs) (st.x - xs)) = dotR (st.x - xs) (st.x - xs) := by field_simp
      rwa [e9] at h9
    refine h7.trans (le_of_eq ?_)
    field_simp
  · unfold gdFactor
    have hpos : 0 < so.lr * (1 - K * so.lr / 2) := mul_pos hlr (by linarith)
    have := mul_pos hμ hpos
    linarith

/-- **C112**, convex costs, learning rates up to `1 / K`: no iteration moves away from any minimiser `xs`, and after `N` iterations the excess of the cost is at most
`|x0 - xs|² / (2 lr N)`, however ill-conditioned the cost is. -/
theorem C112_convex (h : UserGrad P f G k) (hf : Smooth f G K) (hc : ConvexOn ℝ Set.univ f) (xs : Vec ℝ n) (hxs : G xs = 0)
    (hsq : so.useSquaredNorm = true ∨ ∀ x, 0 ≤ f x) (hlr : 0 < so.lr) (hK : K * so.lr ≤ 1) (hclip : so.gradClip = 0)
    (s : GNState ℝ R) (hs : P.dims = none ∨ s.n = n) (fuel : Nat) (mi b : Int) (hb : loopBound o mi = some b)
    (w : W) (x0 : Vec ℝ n) (hx0 : nCost so k (f x0) < maxVal) :
    ∃ st, optimizeAcc (gdEnv so P) o (fuel + 1) mi w s x0 = .ok st ∧
      (∀ r ∈ st.trace, dotR (r.xNext - xs) (r.xNext - xs) ≤ dotR (r.x - xs) (r.x - xs)) ∧ f xs ≤ f st.x ∧
      st.trace.length * (2 * so.lr) * (f st.x - f xs) ≤ dotR (x0 - xs) (x0 - xs) - dotR (st.x - xs) (st.x - xs) := by
  have hc' : StronglyConvex f 0 := by
    unfold StronglyConvex
    simpa using hc
  have hm : ∀ x, f xs ≤ f x := fun x => by
    have := hc'.above hf.grad xs x
    rw [hxs] at this
    simpa [dotR] using this
  obtain ⟨st, e, hp, h1⟩ := gd_rows h hf hsq hlr (by linarith) hclip s hs fuel mi b hb w x0 hx0
  have hstep : ∀ r ∈ st.trace, f r.xNext ≤ f r.x ∧ 2 * so.lr * (f r.xNext - f xs) ≤ dotR (r.x - xs) (r.x - xs) - dotR (r.xNext - xs) (r.xNext - xs) := by
    intro r hr
    obtain ⟨h2, h3, -⟩ := h1 r hr
    have h4 := hc'.above hf.grad r.x xs
    have h5 := dotR_self_nonneg (G r.x)
    have e5 : dotR (r.xNext - xs) (r.xNext - xs) = dotR (r.x - xs) (r.x - xs) + 2 * so.lr * dotR (G r.x) (xs - r.x) + so.lr ^ 2 * dotR (G r.x) (G r.x) := by
      rw [h2]
      simp only [dotR, Finset.mul_sum, ← Finset.sum_add_distrib]
      refine Finset.sum_congr rfl fun i _ => ?_
      simp
      ring
    have h6 : so.lr / 2 * dotR (G r.x) (G r.x) ≤ so.lr * (1 - K * so.lr / 2) * dotR (G r.x) (G r.x) := by
      refine mul_le_mul_of_nonneg_right ?_ h5
      nlinarith
    have h7 : 0 ≤ so.lr / 2 * dotR (G r.x) (G r.x) := mul_nonneg (half_pos hlr).le h5
    refine ⟨by linarith, ?_⟩
    rw [e5]
    have h8 : f r.xNext - f xs ≤ - dotR (G r.x) (xs - r.x) - so.lr / 2 * dotR (G r.x) (G r.x) := by linarith
    have := mul_le_mul_of_nonneg_left h8 (mul_pos two_pos hlr).le
    nlinarith
  refine ⟨st, e, fun r hr => ?_, hm _, ?_⟩
  · have := (hstep r hr).2
    have := mul_nonneg (mul_pos two_pos hlr).le (sub_nonneg.2 (hm r.xNext))
    linarith
  · have key : ∀ {l : List (Rec ℝ R (Vec ℝ n) (DVec ℝ) (DMat ℝ))} {x y : Vec ℝ n}, Path x l y →
        (∀ r ∈ l, f r.xNext ≤ f r.x ∧ 2 * so.lr * (f r.xNext - f xs) ≤ dotR (r.x - xs) (r.x - xs) - dotR (r.xNext - xs) (r.xNext - xs)) →
        f y ≤ f x ∧ l.length * (2 * so.lr) * (f y - f xs) ≤ dotR (x - xs) (x - xs) - dotR (y - xs) (y - xs) := by
      intro l
      induction l with
      | nil => intro x y hp _; simp only [Path] at hp; subst hp; simp
      | cons r l ih =>
        intro x y hp hr
        obtain ⟨h2, h3⟩ := ih hp.2 fun t ht => hr t (List.mem_cons_of_mem _ ht)
        obtain ⟨h4, h5⟩ := hr r List.mem_cons_self
        rw [hp.1] at h4 h5
        refine ⟨h2.trans h4, ?_⟩
        have h6 : 2 * so.lr * (f y - f xs) ≤ 2 * so.lr * (f r.xNext - f xs) := mul_le_mul_of_nonneg_left (by linarith) (mul_pos two_pos hlr).le
        push_cast [List.length_cons]
        linarith
    exact (key hp hstep).2

/-- **C112**, all iterations done: without stop criteria, `N` iterations achieve at least these rates. -/
theorem C112_quiet (h : UserGrad P f G k) (hf : Smooth f G K) (xs : Vec ℝ n) (hxs : G xs = 0) (hq : Quiet o)
    (hsq : so.useSquaredNorm = true ∨ ∀ x, 0 ≤ f x) (hlr : 0 < so.lr) (hK : K * so.lr < 2) (hclip : so.gradClip = 0)
    (s : GNState ℝ R) (hs : P.dims = none ∨ s.n = n) (fuel : Nat) (mi N : Int) (hb : loopBound o mi = some N)
    (w : W) (x0 : Vec ℝ n) (hx0 : nCost so k (f x0) < maxVal) :
    ∃ st, optimizeAcc (gdEnv so P) o (fuel + 1) mi w s x0 = .ok st ∧
      (0 < μ → StronglyConvex f μ → f st.x - f xs ≤ gdFactor so.lr K μ ^ N.toNat * (f x0 - f xs)) ∧
      (ConvexOn ℝ Set.univ f → K * so.lr ≤ 1 → f st.x - f xs ≤ dotR (x0 - xs) (x0 - xs) / (2 * so.lr * N)) := by
  obtain ⟨st, e, hp, h1⟩ := gd_rows h hf hsq hlr hK hclip s hs fuel mi N hb w x0 hx0
  have hNpos : (0 : Int) < N := by
    obtain ⟨m', st0, hm', -, -, hl, hst⟩ := run_inv (I := fun _ => True) (J := fun _ => True) (fun _ _ _ _ _ _ => ⟨fun _ => trivial, trivial⟩) trivial trivial e
    rw [hb] at hm'
    injection hm' with hm'
    subst hm'
    omega
  have hdone := quiet_done (f := fun x => dotR (G x) (G x)) hq e hb
    (fun t ht h0 => (h1 t ht).2.2 fun hg => h0 (by simp [hg, dotR]))
    (fun t ht h0 => by
      have hg := dotR_self_eq_zero h0
      have : t.xNext = t.x := by rw [(h1 t ht).1, hg, smul_zero, add_zero]
      rw [this]; exact h0)
  refine ⟨st, e, fun hμ hc => ?_, fun hc hK1 => ?_⟩
  · have hd := hc.dominated hμ hf.grad xs
    have hab : ∀ y x, G y = 0 → f y ≤ f x := fun y x hy => by
      have := hc.above hf.grad y x
      rw [hy] at this
      have e0 : dotR (0 : Vec ℝ n) (x - y) = 0 := by simp [dotR]
      have := mul_nonneg (half_pos hμ).le (dotR_self_nonneg (x - y))
      linarith
    rcases hdone with h0 | h0
    · have h2 := hab st.x xs (dotR_self_eq_zero h0)
      have h3 := hab xs x0 hxs
      rcases h3.eq_or_lt with h4 | h4
      · rw [← h4, sub_self, mul_zero]; linarith
      · have := mul_nonneg (pow_nonneg (gdFactor_nonneg hf hd (fun x => hab xs x hxs) hlr hK h4) N.toNat) (sub_nonneg.2 h3)
        linarith
    · obtain ⟨st', e', h2⟩ := C112_linear h hf hd (fun x => hab xs x hxs) hsq hlr hK hclip s hs fuel mi N hb w x0 hx0
      rw [e] at e'
      injection e' with e'
      subst e'
      rwa [h0] at h2
  · obtain ⟨st', e', -, h2, h3⟩ := C112_convex h hf hc xs hxs hsq hlr hK1 hclip s hs fuel mi N hb w x0 hx0
    rw [e] at e'
    injection e' with e'
    subst e'
    have hN : (0 : ℝ) < N := by exact_mod_cast hNpos
    have hden : 0 < 2 * so.lr * N := by positivity
    rw [le_div_iff₀ hden]
    rcases hdone with h0 | h0
    · have hc' : StronglyConvex f 0 := by
        unfold StronglyConvex
        simpa using hc
      have h4 := hc'.above hf.grad st.x xs
      rw [dotR_self_eq_zero h0] at h4
      have h5 : f st.x ≤ f xs := by simpa [dotR] using h4
      have h6 : f st.x - f xs = 0 := by linarith
      rw [h6, zero_mul]
      exact dotR_self_nonneg _
    · have hl : (st.trace.length : ℝ) = N := by
        have : (st.trace.length : Int) = N := by omega
        exact_mod_cast this
      rw [hl] at h3
      have := dotR_self_nonneg (st.x - xs)
      linarith

/-- the states of Gradient Descent on the user's function -/
theorem gd_grad_inv (h : UserGrad P f G k) : RunInv (gdEnv so P) (fun _ => True) (fun s : GNState ℝ R => P.dims = none ∨ s.n = n) (fun s => s.n = n)
    (fun x t => ∃ c, t = ⟨n, clampVec so.gradClip (G x), fun _ _ => ofInt 0, c⟩) (fun _ t => t.n = n) (fun _ t => t.n = n) where
  resize w s x s' w' _ _ hI hr := by
    obtain ⟨s2, w2, e, hn, -⟩ := resize_works h.toVecParams w s hI
    have hr : gnResize P w s (P.dynDims x) = (.done s', w') := hr
    rw [h.dyn, e] at hr
    injection hr with hr _
    injection hr with hr
    rw [← hr]; exact hn
  build w s x b s' w' _ hZ hb := by
    obtain ⟨c, g, H, e, -, rfl⟩ := gdBuild_spec hb
    obtain ⟨sn, sg, sH, sc⟩ := s
    simp only at hZ
    subst hZ
    obtain ⟨c2, H2, w2, e2, -, -⟩ := h.full w x
    have e : P.acc.full w x sn (fun _ => (0 : ℝ)) (fun _ _ => 0) = ((c, g, H), w') := by
      have z : (ofInt 0 : ℝ) = 0 := by simp
      simpa [z] using e
    rw [e2] at e
    obtain ⟨⟨-, hg, -⟩, -⟩ := (Prod.mk.injEq _ _ _ _ ▸ e : _)
    cases b with
    | true => exact ⟨_, rfl⟩
    | false => rfl
  good x s q s' hB _ hs := by
    obtain ⟨c, rfl⟩ := hB
    injection hs with hs; rw [← hs]
  bad x s s' hB hs := by
    obtain ⟨c, rfl⟩ := hB
    injection hs with hs; rw [← hs]
  failedB x s s' hB hs := by
    obtain ⟨c, rfl⟩ := hB
    injection hs with hs; rw [← hs]
  failedN x s s' hB hs := by injection hs with hs; rw [← hs]; exact hB
  plus _ _ _ := trivial
  rebuildB x s b hB := by obtain ⟨c, rfl⟩ := hB; exact Or.inr rfl
  rebuildA x s b hA := Or.inr hA

/-- **C112**, what a reason to stop guarantees: on a dominated cost, when the run stops because the gradient (or the step) is short, the cost is within `min_grad_norm2 / (2 μ)`
(or `min_step_norm2 / (2 μ lr²)`) of its minimum. -/
theorem C112_certificate (h : UserGrad P f G k) (hf : Smooth f G K) (hd : Dominated f G μ m) (hμ : 0 < μ) (hsq : so.useSquaredNorm = true ∨ ∀ x, 0 ≤ f x)
    (hlr : 0 < so.lr) (hK : K * so.lr < 2) (hclip : so.gradClip = 0)
    (s : GNState ℝ R) (hs : P.dims = none ∨ s.n = n) (fuel : Nat) (mi b : Int) (hb : loopBound o mi = some b)
    (w : W) (x0 : Vec ℝ n) (hx0 : nCost so k (f x0) < maxVal) :
    ∃ st, optimizeAcc (gdEnv so P) o (fuel + 1) mi w s x0 = .ok st ∧
      (st.out.stop = .kMinGradNorm → f st.x - m < o.minGradNorm2 / (2 * μ)) ∧
      (st.out.stop = .kMinDeltaNorm → f st.x - m < o.minStepNorm2 / (2 * μ * so.lr ^ 2)) := by
  obtain ⟨st, e, hp, h1⟩ := gd_rows h hf hsq hlr hK hclip s hs fuel mi b hb w x0 hx0
  refine ⟨st, e, ?_⟩
  have hlast : (st.out.stop = .kMinDeltaNorm ∨ st.out.stop = .kMinGradNorm) → ∃ r ∈ st.trace, st.x = r.xNext ∧
      (st.out.stop = .kMinDeltaNorm → so.lr ^ 2 * dotR (G r.x) (G r.x) < o.minStepNorm2) ∧ (st.out.stop = .kMinGradNorm → dotR (G r.x) (G r.x) < o.minGradNorm2) := by
    intro hS
    obtain ⟨r, h2, h3, -⟩ := run_last e hS
    have hr := List.mem_of_getLast? h2
    obtain ⟨w', s', out, w1, s1, -, h4, h5, h6⟩ := run_rows_inv (gd_grad_inv h) trivial hs e r hr
    obtain ⟨t, dx, ⟨c, rfl⟩, hsol, hdx, hsh⟩ := step_short (gd_grad_inv h).toStepInv trivial h4 h5 h6 (h3 ▸ hS)
    have hcl : clampVec so.gradClip (G r.x) = G r.x := by rw [hclip]; simp [clampVec]
    have hsol : gdSolve so ⟨n, clampVec so.gradClip (G r.x), fun _ _ => ofInt 0, c⟩ = some dx := hsol
    unfold gdSolve at hsol
    split at hsol
    · obtain rfl := Option.some.inj hsol
      rw [h3] at hsh
      refine ⟨r, hr, ?_, fun h0 => ?_, fun h0 => ?_⟩
      · exact hp.getLast h2
      · have h7 : sqNorm (fun i => mul (neg so.lr) (clampVec so.gradClip (G r.x) i)) < o.minStepNorm2 := by
          exact of_decide_eq_true (hsh.1 h0)
        rw [hcl] at h7
        have e7 : sqNorm (fun i => mul (neg so.lr) (G r.x i)) = so.lr ^ 2 * dotR (G r.x) (G r.x) := by
          rw [sqNorm_eq]
          simp only [dotR, Finset.mul_sum]
          refine Finset.sum_congr rfl fun i _ => ?_
          simp
          ring
        rwa [e7] at h7
      · have h7 : sqNorm (clampVec so.gradClip (G r.x)) < o.minGradNorm2 := by
          exact of_decide_eq_true (hsh.2 h0)
        rwa [hcl, sqNorm_eq] at h7
    · cases hsol
  have hle : ∀ r ∈ st.trace, f r.xNext - m ≤ dotR (G r.x) (G r.x) / (2 * μ) := by
    intro r hr
    rw [le_div_iff₀ (by linarith)]
    have h2 := (h1 r hr).2.1
    have h3 := hd r.x
    have h4 : 0 ≤ so.lr * (1 - K * so.lr / 2) * dotR (G r.x) (G r.x) := mul_nonneg (mul_nonneg hlr.le (by linarith)) (dotR_self_nonneg _)
    nlinarith
  refine ⟨fun hS => ?_, fun hS => ?_⟩
  · obtain ⟨r, hr, h2, -, h3⟩ := hlast (Or.inr hS)
    rw [h2]
    exact (hle r hr).trans_lt (div_lt_div_of_pos_right (h3 hS) (by linarith))
  · obtain ⟨r, hr, h2, h3, -⟩ := hlast (Or.inl hS)
    rw [h2]
    refine (hle r hr).trans_lt ?_
    rw [div_lt_div_iff₀ (by linarith) (by positivity)]
    have := h3 hS
    have h5 := mul_lt_mul_of_pos_left this (mul_pos two_pos hμ)
    linarith

/-- **C112**, overshooting: if the first step does not decrease the cost (the learning rate is too large there), the whole run changes between the start and the point after that
step, whatever its options: the learning rate never changes, so nothing else is ever tried. -/
theorem C112_overshoot (h : UserGrad P f G k) (hsq : so.useSquaredNorm = true ∨ ∀ x, 0 ≤ f x)
    (s : GNState ℝ R) (hs : P.dims = none ∨ s.n = n) (fuel : Nat) (mi b : Int) (hb : loopBound o mi = some b) (w : W) (x0 x1 : Vec ℝ n)
    (hx1 : x1 = x0 + fun i => -so.lr * clampVec so.gradClip (G x0) i) (hover : f x0 ≤ f x1) (hm0 : nCost so k (f x0) ≠ maxVal) (hm1 : nCost so k (f x1) ≠ maxVal) :
    ∃ st, optimizeAcc (gdEnv so P) o (fuel + 1) mi w s x0 = .ok st ∧ (∀ r ∈ st.trace, r.x = x0 ∨ r.x = x1) ∧ (st.x = x0 ∨ st.x = x1) ∧ f x0 ≤ f st.x := by
  have hle : nCost so k (f x0) ≤ nCost so k (f x1) := by
    by_contra hcon
    push Not at hcon
    have := (nCost_mono (so := so) h.pos (by
      rcases hsq with h1 | h1
      · exact Or.inl h1
      · exact Or.inr ⟨h1 _, h1 _⟩)).1 hcon
    linarith
  set D : Vec ℝ n := fun i => -so.lr * clampVec so.gradClip (G x0) i with hD
  have hsx : ∀ x : Vec ℝ n, (gdEnv so P).plusEq x ⟨n, D⟩ = x + D := fun x => h.plus _ _
  obtain ⟨st, st0, e, hj, h1, h2, -⟩ := run_works (E := gdEnv so P) (o := o) (fuel := fuel + 1) (mi := mi) (m := b) (w := w) (s := s) (x := x0)
    (I := fun st => st.out.numConsec ≤ maxTries o ∧ (P.dims = none ∨ st.s.n = n) ∧ (∀ r ∈ st.trace, r.x = x0 ∨ r.x = x1) ∧
      ((st.x = x0 ∧ st.lastDx = none) ∨ (st.x = x1 ∧ st.lastDx = some ⟨n, D⟩ ∧ st.out.finalCost.cost ≤ nCost so k (f x1))))
    (J := fun st => (∀ r ∈ st.trace, r.x = x0 ∨ r.x = x1) ∧ (st.x = x0 ∨ st.x = x1))
    (fun last st _ hI => by
      obtain ⟨hc, hsz, hT, hpos⟩ := hI
      have hne : nCost so k (f st.x) ≠ maxVal := by
        rcases hpos with ⟨h0, -⟩ | ⟨h0, -⟩
        · rw [h0]; exact hm0
        · rw [h0]; exact hm1
      obtain ⟨s2, hdel, hn2, hc2⟩ := gd_delivers (so := so) h st.w st.s hsz st.x hne
      obtain ⟨st', succ, mdx, s3, hbd, hw⟩ := body_works (o := o) (fuel := fuel) (last := last) hdel hc
      obtain ⟨r, htr, hrx, hrx', -, hrs⟩ := hw.trace
      have hs3 : s3 = s2 := by
        have := hw.hook
        split at this
        · rcases this with ⟨q, h⟩ | h
          · injection h with h; exact h.symm
          · injection h with h; exact h.symm
        · exact this
      have hup := hw.upd
      have hsu : succ = lt (sub s2.cost.cost st.out.finalCost.cost) (ofInt 0) := hw.isSucc
      rw [hc2] at hsu
      have hfail : succ = false → st.out.finalCost.cost ≤ nCost so k (f st.x) := by
        intro hf
        rw [hf] at hsu
        have := hsu.symm
        rw [RealOps.lt_eq_false] at this
        simp at this
        exact this
      have hfc : st'.out.finalCost.cost ≤ nCost so k (f st.x) := by
        rw [hw.finalCost]
        cases hsc : succ with
        | true => simp only [Bool.true_or, if_true]; exact hc2.le
        | false =>
          split
          · exact hc2.le
          · exact hfail hsc
      have hmd : ∀ d, mdx = some d → d = ⟨n, fun i => -so.lr * clampVec so.gradClip (G st.x) i⟩ := by
        intro d hd
        rcases hw.isMdx with hm | ⟨hm, -⟩
        · rw [hm] at hd; exact (Option.some.inj hd).symm
        · rw [hm] at hd; cases hd
      have hT' : ∀ r ∈ st'.trace, r.x = x0 ∨ r.x = x1 := by
        intro q hq
        rw [htr, List.mem_append, List.mem_singleton] at hq
        rcases hq with hq | rfl
        · exact hT q hq
        · rw [hrx]
          rcases hpos with ⟨h0, -⟩ | ⟨h0, -⟩
          · exact Or.inl h0
          · exact Or.inr h0
      have main : (st'.x = x0 ∧ st'.lastDx = none) ∨ (st'.x = x1 ∧ st'.lastDx = some ⟨n, D⟩ ∧ st'.out.finalCost.cost ≤ nCost so k (f x1)) := by
        rcases hpos with ⟨h0, hl⟩ | ⟨h0, hl, hcl⟩
        · rw [h0] at hfc hmd
          generalize st'.x = y1 at hup ⊢
          generalize st'.lastDx = l1 at hup ⊢
          generalize st'.lastSucc = b1 at hup
          cases hup with
          | succ dx' =>
            obtain rfl := hmd _ rfl
            exact Or.inr ⟨by rw [h0, hx1]; exact hsx _, rfl, hfc.trans hle⟩
          | roll d _ h' => rw [hl] at h'; cases h'
          | adv dx' h' =>
            obtain rfl := hmd _ rfl
            exact Or.inr ⟨by rw [h0, hx1]; exact hsx _, rfl, hfc.trans hle⟩
          | stay h' => exact Or.inl ⟨h0, rfl⟩
        · have hsf : succ = false := by
            rw [hsu, RealOps.lt_eq_false]
            simp
            rw [h0]; exact hcl
          subst hsf
          left
          generalize st'.x = y1 at hup ⊢
          generalize st'.lastDx = l1 at hup ⊢
          generalize st'.lastSucc = b1 at hup
          cases hup with
          | roll d _ h' =>
            rw [hl] at h'
            obtain rfl := Option.some.inj h'
            refine ⟨?_, rfl⟩
            show P.plusEq st.x ⟨n, negVec D⟩ = _
            rw [plus_neg h.toVecParams, h0, hx1]
            exact add_sub_cancel_right x0 D
          | adv dx' h' => rw [hl] at h'; cases h'
          | stay h' => rw [hl] at h'; cases h'
      refine ⟨st', hbd, fun hn _ => ⟨hw.consec hn, Or.inr (by rw [hw.solver, hs3]; exact hn2), hT', main⟩, hT', ?_⟩
      rcases main with ⟨h0, -⟩ | ⟨h0, -⟩
      · exact Or.inl h0
      · exact Or.inr h0)
    hb ⟨Nat.zero_le _, hs, fun r hr => (nomatch hr), Or.inl ⟨rfl, rfl⟩⟩
  refine ⟨st, e, by rw [h2]; exact hj.1, by rw [h1]; exact hj.2, ?_⟩
  rw [h1]
  rcases hj.2 with h0 | h0
  · rw [h0]
  · rw [h0]; exact hover

end

/-! ### non-vacuity -/

theorem sq_strong (n : Nat) : StronglyConvex (fun x : Vec ℝ n => dotR x x) 2 := by
  unfold StronglyConvex
  have : (fun x : Vec ℝ n => dotR x x - 2 / 2 * dotR x x) = fun _ => 0 := by funext x; ring
  rw [this]
  exact convexOn_const 0 convex_univ

/-- with the learning rate 1/4 the sum of squares, from any start below the largest number, shrinks by a factor of 4 in each iteration -/
example (x0 : Vec ℝ 2) (hx0 : dotR x0 x0 < 2 ^ 1024) (k : Nat) (hk : k < 1000) (s : GNState ℝ ℝ) (hs : s.n = 2) :
    ∃ st, optimizeAcc (gdEnv { soptsR with lr := 1 / 4, gradClip := 0, useSquaredNorm := true } (sqProb 2)) (optsR (k + 1)) 1 (-1) () s x0 = .ok st ∧
      dotR st.x st.x ≤ (1 / 4) ^ (k + 2) * dotR x0 x0 := by
  have hl : loopBound (optsR (k + 1)) (-1) = some ((k : Int) + 2) := by
    have h6 : ¬ ((k : Int) + 1 + 1 + 1 > intMax) := by unfold intMax; omega
    simp only [loopBound, optsR]
    push_cast
    simp [h6]
    omega
  obtain ⟨st, e, h1, -⟩ := C112_quiet (μ := 2) (so := { soptsR with lr := 1 / 4, gradClip := 0, useSquaredNorm := true }) (sqProb_user 2) (sq_smooth 2) 0 (smul_zero _) (optsR_quiet (k + 1))
    (Or.inl rfl) (by norm_num) (by norm_num) rfl s (Or.inr hs) 0 (-1) _ hl () x0 (by
      have : nCost { soptsR with lr := 1 / 4, gradClip := 0, useSquaredNorm := true } 1 (dotR x0 x0) = dotR x0 x0 := by simp [nCost, normalizeCost, soptsR]
      rw [this]; exact hx0)
  refine ⟨st, e, ?_⟩
  have h2 := h1 two_pos (sq_strong 2)
  have e1 : gdFactor (1 / 4) 2 2 = 1 / 4 := by unfold gdFactor; norm_num
  have e2 : ((k : Int) + 2).toNat = k + 2 := by omega
  have e0 : dotR (0 : Vec ℝ 2) 0 = 0 := by simp [dotR]
  simp only [e2, e0, sub_zero] at h2
  rwa [show gdFactor ({ soptsR with lr := 1 / 4, gradClip := 0, useSquaredNorm := true } : SolverOpts ℝ).lr 2 2 = 1 / 4 from e1] at h2

/-- with the learning rate 1 (twice the inverse of the Lipschitz constant) the sum of squares does not decrease at all -/
example (x0 : Vec ℝ 2) (hx0 : dotR x0 x0 < 2 ^ 1024) (s : GNState ℝ ℝ) (hs : s.n = 2) :
    ∃ st, optimizeAcc (gdEnv { soptsR with lr := 1, gradClip := 0, useSquaredNorm := true } (sqProb 2)) (optsR 20) 1 (-1) () s x0 = .ok st ∧ (st.x = x0 ∨ st.x = -x0) := by
  have hn : ∀ c : ℝ, nCost { soptsR with lr := 1, gradClip := 0, useSquaredNorm := true } 1 c = c := fun c => by simp [nCost, normalizeCost, soptsR]
  have e1 : dotR (-x0) (-x0) = dotR x0 x0 := by simp [dotR]
  have hmx : (maxVal : ℝ) = 2 ^ 1024 := rfl
  obtain ⟨st, e, -, h1, -⟩ := C112_overshoot (so := { soptsR with lr := 1, gradClip := 0, useSquaredNorm := true }) (o := optsR 20) (sqProb_user 2) (Or.inl rfl) s (Or.inr hs) 0 (-1) 21
    (by decide) () x0 (-x0) (by funext i; simp [clampVec]; ring) (by rw [e1]) (by rw [hn]; exact hx0.ne) (by rw [hn, e1]; exact hx0.ne)
  exact ⟨st, e, h1⟩

end Verif
