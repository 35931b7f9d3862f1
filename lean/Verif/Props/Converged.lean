import Verif.Props.LmSystem
import Verif.Props.Stopping
import Verif.Props.Descent
import Verif.Examples.Solver1
/-!
# C83: what a reported convergence says about the gradient
-/

set_option linter.unusedSectionVars false

namespace Verif
open FloatOps

section
variable {F R W S X V M : Type} [FloatOps F]
variable {E : Env F R W S X V M} {o : Options F W V}

/-- the reason says that the step `dx`, or the gradient held by the state `t`, is short -/
def ShortBy (E : Env F R W S X V M) (o : Options F W V) (t : S) (dx : V) (r : StopReason) : Prop :=
  (r = .kMinDeltaNorm → lt (E.normSq dx) o.minStepNorm2 = true) ∧ (r = .kMinGradNorm → lt (E.sol.gradSq t) o.minGradNorm2 = true)

/-- the two reasons -/
def Short (r : StopReason) : Prop := r = .kMinDeltaNorm ∨ r = .kMinGradNorm

theorem afterSolve_short {dx : V} {c : Cost F R} {w : W} {s : S} {out : Output F R M} {p w' s' out'} (h0 : out.stop = .kNone)
    (hh : afterSolve E o dx c w s out = .ok (p, w', s', out')) (hS : Short out'.stop) : p.2 = some dx ∧ ShortBy E o s dx out'.stop := by
  have key : ∀ (w2 : W) (err rel : F) (g : V) r w3, criteria o w2 err rel (E.normSq dx) (if hasGradNorm2 o then E.sol.gradSq s else ofInt 0) dx g = (r, w3) →
      Short (r.getD out.stop) → ShortBy E o s dx (r.getD out.stop) := by
    intro w2 err rel g r w3 hcr hS
    cases r with
    | none => rw [Option.getD_none, h0] at hS; rcases hS with h | h <;> cases h
    | some r =>
      rcases criteria_just hcr with ⟨rfl, _⟩ | ⟨rfl, _⟩ | ⟨rfl, h1, h2⟩ | ⟨rfl, h1, h2⟩ | ⟨rfl, _⟩
      · rcases hS with h | h <;> cases h
      · rcases hS with h | h <;> cases h
      · exact ⟨fun _ => h2, fun h => by cases h⟩
      · refine ⟨fun h => (by cases h), fun _ => ?_⟩
        rw [if_pos (by unfold hasGradNorm2; simp [h1])] at h2
        exact h2
      · rcases hS with h | h <;> cases h
  unfold afterSolve at hh
  simp only at hh
  split at hh
  · injection hh with hh; obtain ⟨rfl, -, rfl, rfl⟩ := hh; rcases hS with h | h <;> cases h
  split at hh
  · injection hh with hh; obtain ⟨rfl, -, rfl, rfl⟩ := hh; rcases hS with h | h <;> cases h
  split at hh
  · rw [Res.bind_eq_ok] at hh
    obtain ⟨s1, h1, hh⟩ := hh
    injection hh with hh; obtain ⟨rfl, -, rfl, rfl⟩ := hh
    exact ⟨rfl, key _ _ _ _ _ _ (Prod.eta _).symm hS⟩
  · rw [Res.bind_eq_ok] at hh
    obtain ⟨s1, h1, hh⟩ := hh
    split at hh
    · injection hh with hh; obtain ⟨rfl, -, rfl, rfl⟩ := hh; rcases hS with h | h <;> cases h
    split at hh
    · injection hh with hh; obtain ⟨rfl, -, rfl, rfl⟩ := hh; rcases hS with h | h <;> cases h
    · injection hh with hh; obtain ⟨rfl, -, rfl, rfl⟩ := hh
      exact ⟨rfl, key _ _ _ _ _ _ (Prod.eta _).symm hS⟩

variable {Px : X → Prop} {I Z : S → Prop} {B N A : X → S → Prop}

theorem step_short (h : StepInv E Px I Z B N A) {fuel : Nat} {w : W} {s : S} {x : X} {out : Output F R M} {p w' s' out'} (hx : Px x) (hI : I s)
    (h0 : out.stop = .kNone) (hh : step E o fuel w s x out = .ok (p, w', s', out')) (hS : Short out'.stop) :
    ∃ t dx, B x t ∧ E.sol.solve t = some dx ∧ p.2 = some dx ∧ ShortBy E o t dx out'.stop := by
  have neg : ∀ {r : StopReason}, r.code < 0 → ¬ Short r := by
    rintro r hr (rfl | rfl) <;> exact absurd hr (by decide)
  unfold step at hh
  split at hh
  next r w1 hr =>
    injection hh with hh; obtain ⟨rfl, -, rfl, rfl⟩ := hh
    exact absurd hS (neg (FailCause.code (resizeIfNeeded_cause (o := o) (out := out) (a := 0) hr)))
  next s1 w1 hr =>
    rw [Res.bind_eq_ok] at hh
    obtain ⟨⟨e, w2, s2, out2⟩, h1, hh⟩ := hh
    obtain ⟨-, -, h3⟩ := retry_runinv h hx (resizeIfNeeded_runinv h hx hI hr) h1
    obtain ⟨a, b, r, ho, hs⟩ := retry_spec h1
    cases e with
    | ret =>
      injection hh with hh; obtain ⟨rfl, -, rfl, rfl⟩ := hh
      refine absurd hS (neg ?_)
      have h5 := FailCause.code hs
      rw [ho]; exact h5
    | failed =>
      injection hh with hh; obtain ⟨rfl, -, rfl, rfl⟩ := hh
      exact absurd hS (neg (show StopReason.kSolverFailed.code < 0 by decide))
    | got dx c =>
      obtain ⟨hB, hsol, hc, hst⟩ := h3
      obtain ⟨h4, h5⟩ := afterSolve_short (hst.trans h0) hh hS
      exact ⟨s2, dx, hB, hsol, h4, h5⟩

/-- The final stop reason is the one of the last record, and an accepted step of it has been applied. -/
theorem run_last {fuel : Nat} {mi : Int} {w : W} {s : S} {x : X} {st : LoopSt F R W S X V M} (hh : optimizeAcc E o fuel mi w s x = .ok st) (hS : Short st.out.stop) :
    ∃ r, st.trace.getLast? = some r ∧ r.out.stop = st.out.stop ∧ ∀ dx, r.dx = some dx → r.succ = true → st.x = E.plusEq r.x dx := by
  obtain ⟨m, st0, -, hj, -, hst⟩ := run_inv2 (E := E) (o := o) (I := fun _ => True)
    (J := fun st => Short st.out.stop → ∃ r, st.trace.getLast? = some r ∧ r.out.stop = st.out.stop ∧
      ∀ dx, r.dx = some dx → r.succ = true → st.x = E.plusEq r.x dx)
    (fun last st st' _ _ hb => by
      refine ⟨fun _ _ => trivial, fun hS => ?_⟩
      obtain ⟨succ, mdx, w1, s1, out1, ms, hstep, hs⟩ := body_spec' hb
      refine ⟨_, by rw [hs.trace, List.getLast?_concat], ?_, ?_⟩
      · rw [hs.out] at hS ⊢
        simp only [timeStop] at hS ⊢
        split at hS
        · rcases hS with h | h <;> cases h
        · rw [if_neg (by assumption)]
      · intro dx hdx hsucc
        simp only at hdx hsucc
        subst hdx hsucc
        have := hs.upd
        revert this
        generalize st'.x = x1
        generalize st'.lastDx = l1
        generalize st'.lastSucc = b1
        intro this
        cases this
        rfl)
    trivial (fun h => by rcases h with h | h <;> simp [initSt, Output.init] at h) hh
  have e : st0.out.stop = st.out.stop := by
    rw [hst] at hS ⊢
    simp only at hS ⊢
    split at hS
    · rcases hS with h | h <;> cases h
    · rw [if_neg (by assumption)]
  obtain ⟨r, h1, h2, h3⟩ := hj (e ▸ hS)
  exact ⟨r, by rw [hst]; exact h1, h2.trans e, by rw [hst]; exact h3⟩

/-- every record of a run comes from a call of `Step` without a stop reason -/
theorem run_rows {fuel : Nat} {mi : Int} {w : W} {s : S} {x : X} {st : LoopSt F R W S X V M} (hh : optimizeAcc E o fuel mi w s x = .ok st) :
    ∀ r ∈ st.trace, ∃ w s out w1 s1, out.stop = .kNone ∧ step E o fuel w s r.x out = .ok ((r.succ, r.dx), w1, s1, r.out) := by
  obtain ⟨m, st0, -, hj, -, hst⟩ := run_inv2 (E := E) (o := o)
    (I := fun st => ∀ r ∈ st.trace, ∃ w s out w1 s1, out.stop = .kNone ∧ step E o fuel w s r.x out = .ok ((r.succ, r.dx), w1, s1, r.out))
    (J := fun st => ∀ r ∈ st.trace, ∃ w s out w1 s1, out.stop = .kNone ∧ step E o fuel w s r.x out = .ok ((r.succ, r.dx), w1, s1, r.out))
    (fun last st st' h0 hI hb => by
      have : ∀ r ∈ st'.trace, ∃ w s out w1 s1, out.stop = .kNone ∧ step E o fuel w s r.x out = .ok ((r.succ, r.dx), w1, s1, r.out) := by
        obtain ⟨succ, mdx, w1, s1, out1, ms, hstep, hs⟩ := body_spec' hb
        intro r hr
        rw [hs.trace, List.mem_append, List.mem_singleton] at hr
        rcases hr with hr | rfl
        · exact hI r hr
        · exact ⟨_, _, _, _, _, h0, hstep⟩
      exact ⟨fun _ _ => this, this⟩)
    (by simp [initSt]) (by simp [initSt]) hh
  rw [hst]; exact hj

end

section
variable {F R W X : Type} [FloatOps F]
variable {so : SolverOpts F} {L : LinAlg F} {P : Problem F R W X} {o : Options F W (DVec F)}

theorem gn_user_inv : StepInv (gnEnv so L P) (fun _ => True) (fun _ => True) (fun _ => True) (fun x t => UserSystem so P x t) (fun _ _ => True) (fun _ _ => True) where
  resize _ _ _ _ _ _ _ _ _ := trivial
  build w s x b s' w' _ _ h := by
    cases b with
    | true => exact buildSystem_user h
    | false => trivial
  good _ _ _ _ _ _ _ := trivial
  bad _ _ _ _ _ := trivial
  failedB _ _ _ _ _ := trivial
  failedN _ _ _ _ _ := trivial

/-- the gradient that the user's function returns at `x`, clipped -/
def UserGradient (so : SolverOpts F) (P : Problem F R W X) (x : X) (g : DVec F) : Prop :=
  ∃ w0 w1 n c g0 H, P.acc.full w0 x n (fun _ => ofInt 0) (fun _ _ => ofInt 0) = ((c, g0, H), w1) ∧ g = ⟨n, clampVec so.gradClip g0⟩

theorem gd_user_inv : StepInv (gdEnv so P) (fun _ => True) (fun _ => True) (fun _ => True) (fun x t => UserGradient so P x ⟨t.n, t.g⟩)
    (fun _ _ => True) (fun _ _ => True) where
  resize _ _ _ _ _ _ _ _ _ := trivial
  build w s x b s' w' _ _ h := by
    cases b with
    | true =>
      obtain ⟨c, g, H, e, -, rfl⟩ := gdBuild_spec h
      exact ⟨_, _, _, c, g, H, e, rfl⟩
    | false => trivial
  good _ _ _ _ _ _ _ := trivial
  bad _ _ _ _ _ := trivial
  failedB _ _ _ _ _ := trivial
  failedN _ _ _ _ _ := trivial

/-- **C83** (partial), gradient descent: if the run stops because the step or the gradient is short, then the gradient of the user's function at the last point
visited times the learning rate, or that gradient itself, is shorter than the threshold; and if the last step was accepted, the result is that point moved by that
short step. Missing: that the last step was accepted, see `C83_rejected`. -/
theorem C83_gd_partial (fuel : Nat) (mi : Int) (w : W) (s : GNState F R) (x : X) (st) (hh : optimizeAcc (gdEnv so P) o fuel mi w s x = .ok st)
    (hS : st.out.stop = .kMinDeltaNorm ∨ st.out.stop = .kMinGradNorm) :
    ∃ r g, st.trace.getLast? = some r ∧ UserGradient so P r.x g ∧
      (st.out.stop = .kMinDeltaNorm → lt (sqNorm fun i => mul (neg so.lr) (g.v i)) o.minStepNorm2 = true) ∧
      (st.out.stop = .kMinGradNorm → lt (sqNorm g.v) o.minGradNorm2 = true) ∧
      (r.succ = true → st.x = P.plusEq r.x ⟨g.n, fun i => mul (neg so.lr) (g.v i)⟩) := by
  obtain ⟨r, h1, h2, h3⟩ := run_last hh hS
  obtain ⟨w', s', out, w1, s1, h4, h5⟩ := run_rows hh r (List.mem_of_getLast? h1)
  obtain ⟨t, dx, hB, hsol, hdx, hsh⟩ := step_short gd_user_inv trivial trivial h4 h5 (h2 ▸ hS)
  simp only at hdx
  have hsol : gdSolve so t = some dx := hsol
  unfold gdSolve at hsol
  split at hsol
  · obtain rfl := Option.some.inj hsol
    rw [← h2]
    exact ⟨r, ⟨t.n, t.g⟩, h1, hB, hsh.1, hsh.2, fun hs => h3 _ hdx hs⟩
  · cases hsol

/-- **C83** (partial), Gauss-Newton: if the run stops because the step or the gradient is short, then the step of the user's gradient and Hessian at the last point
visited, or that gradient, is shorter than the threshold; and if the last step was accepted, the result is that point moved by that step. Missing: that the last
step was accepted, see `C83_rejected`. -/
theorem C83_gn_partial (fuel : Nat) (mi : Int) (w : W) (s : GNState F R) (x : X) (st) (hh : optimizeAcc (gnEnv so L P) o fuel mi w s x = .ok st)
    (hS : st.out.stop = .kMinDeltaNorm ∨ st.out.stop = .kMinGradNorm) :
    ∃ r gn dx, st.trace.getLast? = some r ∧ UserSystem so P r.x gn ∧ gnSolve so L (P.dims == some 1) gn = some dx ∧
      (st.out.stop = .kMinDeltaNorm → lt (sqNorm dx.v) o.minStepNorm2 = true) ∧
      (st.out.stop = .kMinGradNorm → lt (sqNorm gn.g) o.minGradNorm2 = true) ∧ (r.succ = true → st.x = P.plusEq r.x dx) := by
  obtain ⟨r, h1, h2, h3⟩ := run_last hh hS
  obtain ⟨w', s', out, w1, s1, h4, h5⟩ := run_rows hh r (List.mem_of_getLast? h1)
  obtain ⟨t, dx, hB, hsol, hdx, hsh⟩ := step_short gn_user_inv trivial trivial h4 h5 (h2 ▸ hS)
  rw [← h2]
  exact ⟨r, t, dx, h1, hB, hsol, hsh.1, hsh.2, fun hs => h3 _ hdx hs⟩

theorem lm_short {Q : LMState F R → Prop} (hQ : SolInv (lmEnv so L P) Q) {fuel : Nat} {mi : Int} {w : W} {s : LMState F R} {x : X} {st}
    (hs : s.rebuild = true) (hq : Q s) (hh : optimizeAcc (lmEnv so L P) o fuel mi w s x = .ok st)
    (hS : st.out.stop = .kMinDeltaNorm ∨ st.out.stop = .kMinGradNorm) (hr : Rebuilt st.trace (st.trace.length - 1)) :
    ∃ r gn dx t, st.trace.getLast? = some r ∧ UserSystem so P r.x gn ∧ Q t ∧
      gnSolve so L (P.dims == some 1) { gn with H := dampH t.lambda gn.H } = some dx ∧
      (st.out.stop = .kMinDeltaNorm → lt (sqNorm dx.v) o.minStepNorm2 = true) ∧
      (st.out.stop = .kMinGradNorm → lt (sqNorm gn.g) o.minGradNorm2 = true) ∧ (r.succ = true → st.x = P.plusEq r.x dx) := by
  obtain ⟨r, h1, h2, h3⟩ := run_last hh hS
  have h4 := lm_row_run hQ (Good := fun r => Short r.out.stop → ∃ gn dx t, UserSystem so P r.x gn ∧ Q t ∧
      gnSolve so L (P.dims == some 1) { gn with H := dampH t.lambda gn.H } = some dx ∧ r.dx = some dx ∧
      (r.out.stop = .kMinDeltaNorm → lt (sqNorm dx.v) o.minStepNorm2 = true) ∧
      (r.out.stop = .kMinGradNorm → lt (sqNorm gn.g) o.minGradNorm2 = true))
    (fun w s x out succ mdx w1 s1 out1 x' hr hq h0 hstep hS => by
      obtain ⟨t, dx, hB, hsol, hdx, hsh⟩ := step_short (lm_fresh_inv hQ) trivial ⟨hr, hq⟩ h0 hstep hS
      obtain ⟨⟨-, hqt⟩, gn, hu, hgn⟩ := hB
      have hsol : gnSolve so L (P.dims == some 1) t.gn = some dx := hsol
      have hg : ∀ (h : out1.stop = .kMinGradNorm), lt (sqNorm t.gn.g) o.minGradNorm2 = true := hsh.2
      rw [hgn] at hsol hg
      exact ⟨gn, dx, t, hu, hqt, hsol, hdx, hsh.1, hg⟩) hs hq hh (st.trace.length - 1) r (by rw [← List.getLast?_eq_getElem?]; exact h1) hr
  obtain ⟨gn, dx, t, a1, a2, a3, a4, a5, a6⟩ := h4 (h2 ▸ hS)
  rw [← h2]
  exact ⟨r, gn, dx, t, h1, a1, a2, a3, a5, a6, fun hs => h3 _ a4 hs⟩

/-- **C83** (partial), Levenberg-Marquardt: the same as Gauss-Newton with the damped Hessian, provided that the last iteration is one of the first two or one of the
two iterations before it was accepted. Missing: the other iterations (the step may come from another point, see `C50_stale_step`), and that the last step was
accepted, see `C83_rejected`. -/
theorem C83_lm_partial (fuel : Nat) (mi : Int) (w : W) (s : LMState F R) (hs : s.rebuild = true) (x : X) (st) (hh : optimizeAcc (lmEnv so L P) o fuel mi w s x = .ok st)
    (hS : st.out.stop = .kMinDeltaNorm ∨ st.out.stop = .kMinGradNorm) (hr : Rebuilt st.trace (st.trace.length - 1)) :
    ∃ r gn dx l, st.trace.getLast? = some r ∧ UserSystem so P r.x gn ∧ gnSolve so L (P.dims == some 1) { gn with H := dampH l gn.H } = some dx ∧
      (st.out.stop = .kMinDeltaNorm → lt (sqNorm dx.v) o.minStepNorm2 = true) ∧
      (st.out.stop = .kMinGradNorm → lt (sqNorm gn.g) o.minGradNorm2 = true) ∧ (r.succ = true → st.x = P.plusEq r.x dx) := by
  obtain ⟨r, gn, dx, t, h1, h2, -, h3⟩ := lm_short (solInv_true _) hs trivial hh hS hr
  exact ⟨r, gn, dx, t.lambda, h1, h2, h3⟩

end

/-! ### Exact arithmetic: the gradient is short -/

section
variable {R W X : Type} {so : SolverOpts ℝ} {L : LinAlg ℝ} {P : Problem ℝ R W X} {o : Options ℝ W (DVec ℝ)}

/-- sum of the squares of the coefficients -/
def frob {n : Nat} (H : Mat ℝ n) : ℝ := ∑ i, ∑ j, H i j ^ 2

theorem mv_frob {n : Nat} (H : Mat ℝ n) (v : Vec ℝ n) : dotR (mv H v) (mv H v) ≤ frob H * dotR v v := by
  unfold dotR frob mv
  rw [Finset.sum_mul]
  refine Finset.sum_le_sum fun i _ => ?_
  have := Finset.sum_mul_sq_le_sq_mul_sq Finset.univ (fun j => H i j) v
  simpa only [pow_two] using this

theorem frob_nonneg {n : Nat} (H : Mat ℝ n) : 0 ≤ frob H := Finset.sum_nonneg fun _ _ => Finset.sum_nonneg fun _ _ => sq_nonneg _

theorem frob_damped {n : Nat} (H : Mat ℝ n) {l m : ℝ} (hl : 0 ≤ l) (hm : l ≤ m) : frob (dampedR l H) ≤ (1 + m) ^ 2 * frob H := by
  unfold frob
  rw [Finset.mul_sum]
  refine Finset.sum_le_sum fun i _ => ?_
  rw [Finset.mul_sum]
  refine Finset.sum_le_sum fun j _ => ?_
  unfold dampedR
  have h1 : (1 : ℝ) ≤ (1 + m) ^ 2 := by nlinarith
  split
  next h =>
    subst h
    have : H i i + l * H i i = (1 + l) * H i i := by ring
    rw [this, mul_pow]
    refine mul_le_mul_of_nonneg_right ?_ (sq_nonneg _)
    nlinarith
  · rw [add_zero]; exact le_mul_of_one_le_left (sq_nonneg _) h1

theorem gnSolve_solution (hL : ExactLinAlg L) {one : Bool} {s : GNState ℝ R} {dx : DVec ℝ} (hpd : PD s.H) (hone : Solves so one s.H)
    (h : gnSolve so L one s = some dx) : ∃ v, dx = ⟨s.n, v⟩ ∧ mv s.H v = -s.g := by
  have hv : s.cost.isValid = true := by
    by_contra hv
    unfold gnSolve at h
    rw [if_neg hv] at h
    cases h
  obtain ⟨v, h1, h2⟩ := gnSolve_pd hL one s hv hpd hone
  rw [h1] at h
  exact ⟨v, (Option.some.inj h).symm, h2⟩

theorem short_gradient {n : Nat} {H : Mat ℝ n} {g v : Vec ℝ n} (h : mv H v = -g) : sqNorm g ≤ frob H * sqNorm v := by
  have h1 := mv_frob H v
  rw [h] at h1
  rw [sqNorm_eq, sqNorm_eq]
  simpa [dotR] using h1

/-- **C83** (partial), Gauss-Newton in exact arithmetic: if the run stops because the step or the gradient is short and the Hessian at the last point visited is
positive definite, the squared norm of the user's gradient there is at most the threshold times the squared Frobenius norm of the Hessian, or below the threshold.
Missing: that this point is the result up to the step, see `C83_rejected`. -/
theorem C83_gn_gradient_partial (hL : ExactLinAlg L) (fuel : Nat) (mi : Int) (w : W)
    (s : GNState ℝ R) (x : X) (st) (hh : optimizeAcc (gnEnv so L P) o fuel mi w s x = .ok st)
    (hS : st.out.stop = .kMinDeltaNorm ∨ st.out.stop = .kMinGradNorm) :
    ∃ r gn dx, st.trace.getLast? = some r ∧ UserSystem so P r.x gn ∧
      (st.out.stop = .kMinDeltaNorm → sqNorm dx.v < o.minStepNorm2 ∧
        (PD gn.H → Solves so (P.dims == some 1) gn.H → sqNorm gn.g ≤ frob gn.H * o.minStepNorm2)) ∧
      (st.out.stop = .kMinGradNorm → sqNorm gn.g < o.minGradNorm2) ∧ (r.succ = true → st.x = P.plusEq r.x dx) := by
  obtain ⟨r, gn, dx, h1, h2, h3, h4, h5, h6⟩ := C83_gn_partial fuel mi w s x st hh hS
  refine ⟨r, gn, dx, h1, h2, fun hS => ?_, fun hS => by simpa using h5 hS, h6⟩
  have hd : sqNorm dx.v < o.minStepNorm2 := by simpa using h4 hS
  refine ⟨hd, fun p1 p2 => ?_⟩
  obtain ⟨v, rfl, hv⟩ := gnSolve_solution hL p1 p2 h3
  exact (short_gradient hv).trans (mul_le_mul_of_nonneg_left hd.le (frob_nonneg _))

theorem clamp_real {v lo hi l : ℝ} (h : stdClamp v lo hi = .ok l) : lo ≤ l ∧ l ≤ hi := by
  unfold stdClamp at h
  split at h
  · cases h
  next h1 =>
    injection h with h
    subst h
    have h1 : lo ≤ hi := by simpa using h1
    split
    · exact ⟨le_refl _, h1⟩
    next h2 =>
      have h2 : lo ≤ v := by simpa using h2
      split
      · exact ⟨h1, le_refl _⟩
      next h3 => exact ⟨h2, by simpa using h3⟩

theorem lm_lambda_inv {m : ℝ} (hlo : 0 ≤ so.dampLo) (hhi : so.dampHi ≤ m) : SolInv (lmEnv so L P) (fun s => 0 ≤ s.lambda ∧ s.lambda ≤ m) where
  resize w s d s' w' h e := by obtain ⟨g, -, rfl⟩ := lmResize_spec e; exact h
  build w s x b s' w' h e := by rw [(lmBuild_damping e).1]; exact h
  good s q s' h _ e := by
    obtain ⟨l, hl, rfl⟩ := lmGood_spec e
    exact ⟨hlo.trans (clamp_real hl).1, (clamp_real hl).2.trans hhi⟩
  bad s s' h e := by
    obtain ⟨l, hl, rfl⟩ := lmBad_spec e
    exact ⟨hlo.trans (clamp_real hl).1, (clamp_real hl).2.trans hhi⟩
  failed s s' h e := by
    obtain ⟨l, hl, rfl⟩ := lmBad_spec e
    exact ⟨hlo.trans (clamp_real hl).1, (clamp_real hl).2.trans hhi⟩
  rebuild s b h := h

/-- **C83** (partial), Levenberg-Marquardt in exact arithmetic: as for Gauss-Newton, with the factor `(1 + m)^2` where `m` bounds the damping. -/
theorem C83_lm_gradient_partial (hL : ExactLinAlg L) (hone : so.useLdlt = true ∨ P.dims ≠ some 1)
    {m : ℝ} (hlo : 0 ≤ so.dampLo) (hhi : so.dampHi ≤ m) (fuel : Nat) (mi : Int) (w : W) (s : LMState ℝ R) (hs : s.rebuild = true) (hl0 : 0 ≤ s.lambda)
    (hl1 : s.lambda ≤ m) (x : X) (st) (hh : optimizeAcc (lmEnv so L P) o fuel mi w s x = .ok st)
    (hS : st.out.stop = .kMinDeltaNorm ∨ st.out.stop = .kMinGradNorm) (hr : Rebuilt st.trace (st.trace.length - 1)) :
    ∃ r gn dx, st.trace.getLast? = some r ∧ UserSystem so P r.x gn ∧
      (st.out.stop = .kMinDeltaNorm → sqNorm dx.v < o.minStepNorm2 ∧ (PD gn.H → sqNorm gn.g ≤ (1 + m) ^ 2 * frob gn.H * o.minStepNorm2)) ∧
      (st.out.stop = .kMinGradNorm → sqNorm gn.g < o.minGradNorm2) ∧ (r.succ = true → st.x = P.plusEq r.x dx) := by
  obtain ⟨r, gn, dx, t, h1, h2, ⟨ht0, ht1⟩, h3, h4, h5, h6⟩ := lm_short (lm_lambda_inv hlo hhi) hs ⟨hl0, hl1⟩ hh hS hr
  refine ⟨r, gn, dx, h1, h2, fun hS => ?_, fun hS => by simpa using h5 hS, h6⟩
  have hd : sqNorm dx.v < o.minStepNorm2 := by simpa using h4 hS
  refine ⟨hd, fun hpd => ?_⟩
  have hpd' : PD (dampH t.lambda gn.H) := by rw [dampH_eq ht0]; exact damped_pd' hpd ht0
  have hsol : Solves so (P.dims == some 1) (dampH t.lambda gn.H) := by
    rcases hone with h | h
    · exact Or.inl h
    · exact Or.inr (Or.inl (by simpa using h))
  obtain ⟨v, rfl, hv⟩ := gnSolve_solution hL (s := { gn with H := dampH t.lambda gn.H }) hpd' hsol h3
  have h0 : 0 ≤ sqNorm v := by rw [sqNorm_eq]; exact Finset.sum_nonneg fun _ _ => mul_self_nonneg _
  have hf : frob (dampH t.lambda gn.H) ≤ (1 + m) ^ 2 * frob gn.H := by rw [dampH_eq ht0]; exact frob_damped _ ht0 ht1
  exact (short_gradient hv).trans ((mul_le_mul_of_nonneg_right hf h0).trans
    (mul_le_mul_of_nonneg_left hd.le (mul_nonneg (sq_nonneg _) (frob_nonneg _))))

end

/-! ### Violations -/

/-- the residual `x^2 - 2` with the truncated loss of the library (`TruncatedL2`, robust_norms.h) and threshold 2: cost, gradient and Hessian of the accumulation
with the weight of the loss -/
def truncF (x : D) : D × D × D :=
  let r := sub (mul x x) (ofInt 2)
  let s : D := if lt (mul r r) (ofInt 4) then ofInt 1 else ofInt 0
  (if lt (mul r r) (ofInt 4) then mul r r else ofInt 4, mul s (mul (mul (ofInt 2) x) r), mul s (mul (mul (ofInt 2) x) (mul (ofInt 2) x)))

/-- the residual `x^2 - 5` -/
def sqrt5F (x : D) : D × D × D :=
  let r := sub (mul x x) (ofInt 5)
  (mul r r, mul (mul (ofInt 2) x) r, mul (mul (ofInt 2) x) (mul (ofInt 2) x))

/-- the default options of the optimizer (options.h) -/
def opts83 : Options D Nat (DVec D) :=
  { opts1 50 with
    minError := div (ofInt 1) (ofInt (10 ^ 12)), minRerrDec := div (ofInt 1) (ofInt (10 ^ 10)), minStepNorm2 := div (ofInt 1) (ofInt (10 ^ 14)),
    minGradNorm2 := div (ofInt 1) (ofInt (10 ^ 18)), maxConsecFailures := 5 }

def run83 : Res (LoopSt D D Nat (LMState D D) D (DVec D) (DMat D)) :=
  optimizeAcc (lmEnv sopts1 lin1 (prob1 truncF (fun _ => 1) (some 1))) opts83 10 (-1) 0
    (lmFresh sopts1 (prob1 truncF (fun _ => 1) (some 1)) (fun _ => ofInt 0) (fun _ _ => ofInt 0)) (div (ofInt 1) (ofInt 10))

def run83r : Res (LoopSt D D Nat (GNState D D) D (DVec D) (DMat D)) :=
  optimizeAcc (gnEnv sopts1 lin1 (prob1 sqrt5F (fun _ => 1) (some 1))) opts83 10 (-1) 0
    (gnFresh (prob1 sqrt5F (fun _ => 1) (some 1)) (fun _ => ofInt 0) (fun _ _ => ofInt 0)) (add (ofInt 1) (div (ofInt 1) (ofInt (10 ^ 12))))

/-- **C83 is violated** (defect): the criteria are also applied to rejected steps. Levenberg-Marquardt with the default options minimises `x^2 - 2` under a truncated
loss from 1/10: the first step overshoots to where the loss is constant, there the cost is higher and the next step is zero; the step is rejected, the run stops with
`kMinDeltaNorm`, a success, and returns the start, where the gradient is not small. -/
theorem C83_rejected : ∃ st, run83 = .ok st ∧ st.out.stop = .kMinDeltaNorm ∧ st.trace.map (·.succ) = [true, false] ∧
    st.x = div (ofInt 1) (ofInt 10) ∧ lt (truncF st.x).2.1 (div (ofInt (-39)) (ofInt 100)) = true := by
  have h : run83.holds (fun st => decide (st.out.stop = .kMinDeltaNorm) && decide (st.trace.map (·.succ) = [true, false]) &&
      decide (st.x = div (ofInt 1) (ofInt 10)) && lt (truncF st.x).2.1 (div (ofInt (-39)) (ofInt 100))) = true := by decide +kernel
  obtain ⟨st, h1, h2⟩ := Res.exists_of_holds h
  simp only [Bool.and_eq_true, decide_eq_true_eq] at h2
  exact ⟨st, h1, h2.1.1.1, h2.1.1.2, h2.1.2, h2.2⟩

/-- **C83 is violated** for the relative decrease: two successive costs that happen to be nearly equal end the run. Gauss-Newton with the default options on `x^2 - 5`
from `1 + 10^-12` goes to 3, where the cost is the same up to `10^-10`, and stops with `kMinRelError`, a success, after two accepted steps at about 7/3, where the
gradient is above 2. -/
theorem C83_relative : ∃ st, run83r = .ok st ∧ st.out.stop = .kMinRelError ∧ st.trace.map (·.succ) = [true, true] ∧
    lt (div (ofInt 233) (ofInt 100)) st.x = true ∧ lt (ofInt 2) (sqrt5F st.x).2.1 = true := by
  have h : run83r.holds (fun st => decide (st.out.stop = .kMinRelError) && decide (st.trace.map (·.succ) = [true, true]) &&
      lt (div (ofInt 233) (ofInt 100)) st.x && lt (ofInt 2) (sqrt5F st.x).2.1) = true := by decide +kernel
  obtain ⟨st, h1, h2⟩ := Res.exists_of_holds h
  simp only [Bool.and_eq_true, decide_eq_true_eq] at h2
  exact ⟨st, h1, h2.1.1.1, h2.1.1.2, h2.1.2, h2.2⟩

/-! ### Runs meeting the hypotheses -/

/-- stops by the norm of the step only -/
def opts83d : Options D Nat (DVec D) := { opts83 with minError := ofInt 0, minRerrDec := ofInt 0 }

/-- stops by the norm of the gradient only -/
def opts83g : Options D Nat (DVec D) := { opts83d with minStepNorm2 := ofInt 0 }

example : (optimizeAcc (gnEnv sopts1 lin1 (lin3 (some 1))) opts83d 10 (-1) 0 (gnFresh (lin3 (some 1)) (fun _ => ofInt 0) (fun _ _ => ofInt 0)) (ofInt 0)).holds
    (fun st => decide (st.out.stop = .kMinDeltaNorm) && decide (st.trace.map (·.succ) = [true, true]) && decide (st.x = ofInt 3)) = true := by decide +kernel

example : (optimizeAcc (gnEnv sopts1 lin1 (lin3 (some 1))) opts83g 10 (-1) 0 (gnFresh (lin3 (some 1)) (fun _ => ofInt 0) (fun _ _ => ofInt 0)) (ofInt 0)).holds
    (fun st => decide (st.out.stop = .kMinGradNorm) && decide (st.trace.map (·.succ) = [true, true])) = true := by decide +kernel

example : (optimizeAcc (lmEnv sopts1 lin1 (lin3 (some 1))) opts83d 10 (-1) 0 (lmFresh sopts1 (lin3 (some 1)) (fun _ => ofInt 0) (fun _ _ => ofInt 0)) (ofInt 0)).holds
    (fun st => decide (st.out.stop = .kMinDeltaNorm) && decide (st.trace.map (·.succ) = [true, true, true])) = true := by decide +kernel

example : (optimizeAcc (gdEnv { sopts1 with lr := div (ofInt 9) (ofInt 10) } (lin3 (some 1))) opts83d 10 (-1) 0
    (gnFresh (lin3 (some 1)) (fun _ => ofInt 0) (fun _ _ => ofInt 0)) (ofInt 0)).holds
    (fun st => decide (st.out.stop = .kMinDeltaNorm) && decide (st.trace.length = 9)) = true := by decide +kernel

end Verif
