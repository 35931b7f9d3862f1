import Verif.Props.Converged
import Verif.Props.Sqrt
import Verif.Props.GradientDescent

/-!
# C84: a run started at a stationary point stops at once, there

`Step` (optimizer.h:331-539) applies the stop criteria (519-534) in the first iteration too. A solver that finds a zero gradient at the start returns a zero step, whose norm is below
`min_step_norm2`, so that the run ends after one iteration, with a success and the values it was given.
-/

namespace Verif
open FloatOps Loss

section
variable {F R W S X V M : Type} [FloatOps F] {E : Env F R W S X V M} {o : Options F W V}

/-- The first iteration got a step, and a criterion stops the run whatever the callbacks say: the run is that iteration. -/
theorem first_stop {w : W} {s s2 : S} {x : X} {dx : V} (hd : Delivers E w s x s2 dx) (fuel : Nat) {mi m : Int} (hm : loopBound o mi = some m)
    (htime : lt (ofInt 0) o.maxDurationMs = false)
    (hstop : ∀ w2 g, ∃ r, (criteria o w2 (E.sol.cost s2).cost (relDerr maxVal (E.sol.cost s2).cost) (E.normSq dx) (gn2Of E o s2) dx g).1 = some r ∧ r ≠ .kNone) :
    ∃ st, optimizeAcc E o (fuel + 1) mi w s x = .ok st ∧ st.x = E.plusEq x dx ∧ st.trace.length = 1 ∧ (∀ t ∈ st.trace, t.x = x ∧ t.dx = some dx) ∧
      st.out.finalCost = E.sol.cost s2 ∧ st.out.numIters = 1 ∧
      ∃ w2 g, (criteria o w2 (E.sol.cost s2).cost (relDerr maxVal (E.sol.cost s2).cost) (E.normSq dx) (gn2Of E o s2) dx g).1 = some st.out.stop := by
  obtain ⟨n, hn⟩ : ∃ n, m.toNat = n + 1 := ⟨m.toNat - 1, by have := loopBound_pos hm; omega⟩
  obtain ⟨st', succ, mdx, s3, e, hw⟩ := body_works (E := E) (o := o) (st := initSt E w s x) (fuel := fuel) (last := n == 0) hd (Nat.zero_le _)
  obtain ⟨w2, g, hc⟩ := hw.crit (Or.inr rfl)
  obtain ⟨r, hr, hr0⟩ := hstop w2 g
  have hc' : st'.out.stop = r := by
    rw [hc]
    show timeStop o _ ((criteria o w2 _ (relDerr maxVal _) _ _ dx g).1.getD _) = r
    rw [hr]
    simp [timeStop, htime]
  have hmdx : mdx = some dx := by
    rcases hw.isMdx with h | ⟨-, -, h, -⟩
    · exact h
    · exact absurd h (by simp [initSt, Output.init])
  have hx : st'.x = E.plusEq x dx := by
    have hu := hw.upd
    rw [hmdx] at hu
    generalize hx3 : st'.x = x3 at hu ⊢
    generalize st'.lastDx = l3 at hu
    generalize st'.lastSucc = b3 at hu
    cases hu with
    | succ => rfl
    | roll d _ h => exact absurd h (by simp [initSt])
    | adv => rfl
  have hl : loop E o (fuel + 1) m.toNat (initSt E w s x) = .ok st' := by
    rw [hn]
    unfold loop
    rw [e, Res.bind_ok, if_pos (by rw [hc']; exact hr0)]
  obtain ⟨t, ht, ht1, -, ht3, -⟩ := hw.trace
  have ht' : st'.trace = [t] := ht
  unfold optimizeAcc
  rw [hm]
  simp only
  rw [hl, Res.bind_ok]
  refine ⟨_, rfl, hx, by simp [ht'], fun t' h' => ?_, ?_, ?_, w2, g, ?_⟩
  · simp only [ht', List.mem_singleton] at h'
    subst h'
    exact ⟨ht1, by rw [ht3, hmdx]⟩
  · rw [hw.finalCost]; simp [initSt, Output.init]
  · rw [hw.numIters]; simp [initSt, Output.init, inc16]
  · rw [hr]
    simp [hc', hr0]

end

section
variable {R W : Type} {n : Nat} {so : SolverOpts ℝ} {LA : LinAlg ℝ} {P : Problem ℝ R W (Vec ℝ n)} {o : Options ℝ W (DVec ℝ)}
variable {Ω : Vec ℝ n → Prop} {f : Vec ℝ n → ℝ} {G : Vec ℝ n → Vec ℝ n} {Q : Vec ℝ n → Mat ℝ n} {m : Nat}

theorem zero_step_stops (hmin : 0 < o.minStepNorm2) (w : W) (err rel gn2 : ℝ) (dx g : DVec ℝ) :
    ∃ r, (criteria o w err rel (0 : ℝ) gn2 dx g).1 = some r ∧
      ((r = .kMinError ∧ 0 < o.minError ∧ err < o.minError) ∨ (r = .kMinRelError ∧ 0 < o.minRerrDec ∧ rel < o.minRerrDec) ∨ r = .kMinDeltaNorm) := by
  unfold criteria
  split
  next h => exact ⟨_, rfl, Or.inl ⟨rfl, by simpa using h⟩⟩
  split
  next h =>
    simp only [Bool.and_eq_true, RealOps.lt_eq, RealOps.ofInt_eq, Int.cast_zero] at h
    exact ⟨_, rfl, Or.inr (Or.inl ⟨rfl, h.1.1, h.2⟩)⟩
  rw [if_pos (by simpa using hmin)]
  exact ⟨_, rfl, by simp⟩

/-- **C84**, Gauss-Newton. At a start where the gradient is zero and the Hessian positive definite, the run does one iteration, with a zero step, and ends with a success, the start
unchanged and the cost of the start. -/
theorem C84_gn (h : UserQuad P Ω f G Q m) (hL : ExactLinAlg LA) (hclip : so.gradClip = 0) (s : GNState ℝ R) (hs : P.dims = none ∨ s.n = n)
    (x : Vec ℝ n) (hΩ : Ω x) (hpd : PD (Q x)) (hone : Solves so (P.dims == some 1) (Q x)) (hmin : DiagOk so (Q x)) (hx : nCost so m (f x) ≠ maxVal)
    (hG : G x = 0) (hstep : 0 < o.minStepNorm2) (htime : o.maxDurationMs ≤ 0) (fuel : Nat) (mi k : Int) (hk : loopBound o mi = some k) (w : W) :
    ∃ st, optimizeAcc (gnEnv so LA P) o (fuel + 1) mi w s x = .ok st ∧ st.x = x ∧ st.trace.length = 1 ∧ (∀ t ∈ st.trace, t.x = x) ∧ st.out.numIters = 1 ∧
      st.out.finalCost.cost = nCost so m (f x) ∧
      ((st.out.stop = .kMinError ∧ 0 < o.minError ∧ nCost so m (f x) < o.minError) ∨
        (st.out.stop = .kMinRelError ∧ 0 < o.minRerrDec ∧ relDerr maxVal (nCost so m (f x)) < o.minRerrDec) ∨ st.out.stop = .kMinDeltaNorm) := by
  obtain ⟨s2, dx, hd, -, hc, hdx⟩ := quad_gn_delivers h hL hclip w s hs x hΩ hpd hone hmin hx
  have h0 : dx = 0 := by
    by_contra hne
    have := hpd.2 dx hne
    rw [hdx, hG, neg_zero] at this
    simp [dotR] at this
  subst h0
  have hn : (gnEnv so LA P).normSq (⟨n, 0⟩ : DVec ℝ) = 0 := by
    show sqNorm (0 : Vec ℝ n) = 0
    rw [sqNorm_eq]; simp [dotR]
  have hz := fun w2 g => zero_step_stops (o := o) hstep w2 ((gnEnv so LA P).sol.cost s2).cost (relDerr maxVal ((gnEnv so LA P).sol.cost s2).cost) (gn2Of (gnEnv so LA P) o s2) ⟨n, 0⟩ g
  obtain ⟨st, e, h1, h2, h3, h4, h5, w2, g, h6⟩ := first_stop (o := o) hd fuel hk (by simpa using htime) fun w2 g => by
    rw [hn]
    obtain ⟨r, hr, hr'⟩ := hz w2 g
    exact ⟨r, hr, by rcases hr' with ⟨rfl, -⟩ | ⟨rfl, -⟩ | rfl <;> simp⟩
  refine ⟨st, e, ?_, h2, fun t ht => (h3 t ht).1, h5, by rw [h4]; exact hc, ?_⟩
  · rw [h1]
    show P.plusEq x ⟨n, 0⟩ = x
    rw [h.plus, add_zero]
  · rw [hn] at h6
    obtain ⟨r, hr, hr'⟩ := hz w2 g
    rw [hr] at h6
    cases h6
    rw [← hc]
    exact hr'

/-- **C84**, Levenberg-Marquardt. -/
theorem C84_lm (h : UserQuad P Ω f G Q m) (hL : ExactLinAlg LA) (hone : so.useLdlt = true ∨ P.dims ≠ some 1) (hr0 : so.dampLo ≤ so.dampHi)
    (hlo : 0 ≤ so.dampLo) (hin : 0 ≤ so.dampInit) (hclip : so.gradClip = 0) (s : LMState ℝ R) (hs : P.dims = none ∨ s.gn.n = n)
    (hreb : s.rebuild = true) (hal : Allowed so s.lambda)
    (x : Vec ℝ n) (hΩ : Ω x) (hA : ∀ l, Allowed so l → PD (dampedR l (Q x))) (hmin : DiagOk so (Q x)) (hx : nCost so m (f x) ≠ maxVal)
    (hG : G x = 0) (hstep : 0 < o.minStepNorm2) (htime : o.maxDurationMs ≤ 0) (fuel : Nat) (mi k : Int) (hk : loopBound o mi = some k) (w : W) :
    ∃ st, optimizeAcc (lmEnv so LA P) o (fuel + 1) mi w s x = .ok st ∧ st.x = x ∧ st.trace.length = 1 ∧ (∀ t ∈ st.trace, t.x = x) ∧ st.out.numIters = 1 ∧
      st.out.finalCost.cost = nCost so m (f x) ∧
      ((st.out.stop = .kMinError ∧ 0 < o.minError ∧ nCost so m (f x) < o.minError) ∨
        (st.out.stop = .kMinRelError ∧ 0 < o.minRerrDec ∧ relDerr maxVal (nCost so m (f x)) < o.minRerrDec) ∨ st.out.stop = .kMinDeltaNorm) := by
  obtain ⟨s2, dx, hd, -, hc, -, -, h0, -⟩ := quad_lm_delivers h hL hone hr0 hlo hin hclip w s hs x hΩ hA hmin hx hal (Or.inl hreb)
  obtain rfl := h0 hG
  have hn : (lmEnv so LA P).normSq (⟨n, 0⟩ : DVec ℝ) = 0 := by
    show sqNorm (0 : Vec ℝ n) = 0
    rw [sqNorm_eq]; simp [dotR]
  have hz := fun w2 g => zero_step_stops (o := o) hstep w2 ((lmEnv so LA P).sol.cost s2).cost (relDerr maxVal ((lmEnv so LA P).sol.cost s2).cost) (gn2Of (lmEnv so LA P) o s2) ⟨n, 0⟩ g
  obtain ⟨st, e, h1, h2, h3, h4, h5, w2, g, h6⟩ := first_stop (o := o) hd fuel hk (by simpa using htime) fun w2 g => by
    rw [hn]
    obtain ⟨r, hr, hr'⟩ := hz w2 g
    exact ⟨r, hr, by rcases hr' with ⟨rfl, -⟩ | ⟨rfl, -⟩ | rfl <;> simp⟩
  refine ⟨st, e, ?_, h2, fun t ht => (h3 t ht).1, h5, by rw [h4]; exact hc, ?_⟩
  · rw [h1]
    show P.plusEq x ⟨n, 0⟩ = x
    rw [h.plus, add_zero]
  · rw [hn] at h6
    obtain ⟨r, hr, hr'⟩ := hz w2 g
    rw [hr] at h6
    cases h6
    rw [← hc]
    exact hr'

/-- **C84**, gradient descent. Nothing is asked of the Hessian, and the gradient may be clipped. -/
theorem C84_gd {k : Nat} (h : UserGrad P f G k) (s : GNState ℝ R) (hs : P.dims = none ∨ s.n = n) (hclip : 0 ≤ so.gradClip)
    (x : Vec ℝ n) (hx : nCost so k (f x) ≠ maxVal) (hG : G x = 0) (hstep : 0 < o.minStepNorm2) (htime : o.maxDurationMs ≤ 0)
    (fuel : Nat) (mi b : Int) (hk : loopBound o mi = some b) (w : W) :
    ∃ st, optimizeAcc (gdEnv so P) o (fuel + 1) mi w s x = .ok st ∧ st.x = x ∧ st.trace.length = 1 ∧ (∀ t ∈ st.trace, t.x = x) ∧ st.out.numIters = 1 ∧
      st.out.finalCost.cost = nCost so k (f x) ∧
      ((st.out.stop = .kMinError ∧ 0 < o.minError ∧ nCost so k (f x) < o.minError) ∨
        (st.out.stop = .kMinRelError ∧ 0 < o.minRerrDec ∧ relDerr maxVal (nCost so k (f x)) < o.minRerrDec) ∨ st.out.stop = .kMinDeltaNorm) := by
  obtain ⟨s2, hd, -, hc⟩ := gd_delivers (so := so) h w s hs x hx
  have h0 : (fun i => -so.lr * clampVec so.gradClip (G x) i) = (0 : Vec ℝ n) := by
    funext i
    have : clampVec so.gradClip (G x) i = 0 := by
      rw [hG]
      unfold clampVec
      split
      · rfl
      · show clampCoef so.gradClip (0 : ℝ) = 0
        simp only [clampCoef, RealOps.lt_eq, RealOps.neg_eq]
        rw [if_neg (not_lt.mpr (neg_nonpos.mpr hclip)), if_neg (not_lt.mpr hclip)]
    rw [this]; simp
  rw [h0] at hd
  have hn : (gdEnv so P).normSq (⟨n, 0⟩ : DVec ℝ) = 0 := by
    show sqNorm (0 : Vec ℝ n) = 0
    rw [sqNorm_eq]; simp [dotR]
  have hz := fun w2 g => zero_step_stops (o := o) hstep w2 ((gdEnv so P).sol.cost s2).cost (relDerr maxVal ((gdEnv so P).sol.cost s2).cost) (gn2Of (gdEnv so P) o s2) ⟨n, 0⟩ g
  obtain ⟨st, e, h1, h2, h3, h4, h5, w2, g, h6⟩ := first_stop (o := o) hd fuel hk (by simpa using htime) fun w2 g => by
    rw [hn]
    obtain ⟨r, hr, hr'⟩ := hz w2 g
    exact ⟨r, hr, by rcases hr' with ⟨rfl, -⟩ | ⟨rfl, -⟩ | rfl <;> simp⟩
  refine ⟨st, e, ?_, h2, fun t ht => (h3 t ht).1, h5, by rw [h4]; exact hc, ?_⟩
  · rw [h1]
    show P.plusEq x ⟨n, 0⟩ = x
    rw [h.plus, add_zero]
  · rw [hn] at h6
    obtain ⟨r, hr, hr'⟩ := hz w2 g
    rw [hr] at h6
    cases h6
    rw [← hc]
    exact hr'

end

/-! ### Examples: the square root of the README, started at the root -/

theorem adProbS_ad (e : Expr 1) : ADScalar (adProbS e) e := by
  refine ⟨fun w x g0 H0 h => ?_, fun w x h => ⟨(), rfl⟩⟩
  obtain ⟨J, g, H, h1, -⟩ := C38_scalar e x h
  refine ⟨_, g, H, (), h1, ?_⟩
  simp only [adProbS, h1, dif_pos]
  rfl

theorem adProbS_vec (e : Expr 1) : VecParams (adProbS e) := ⟨fun _ => rfl, Or.inl rfl, fun x v => by simp [adProbS]⟩

/-- the two roots -/
noncomputable def root2 (b : Bool) : RVec 1 := fun _ => if b then √2 else -√2

theorem root2_sq (b : Bool) : root2 b 0 ^ 2 = 2 := by cases b <;> simp [root2]

theorem root2_pd (b : Bool) : PD (fun _ _ => 4 * root2 b 0 ^ 2 : Mat ℝ 1) := by
  refine ⟨fun i j => rfl, fun v hv => ?_⟩
  have h0 : v 0 ≠ 0 := fun h => hv (by rw [vec1 v]; funext i; exact h)
  simp only [dotR, mv, Fin.sum_univ_one, root2_sq]
  have := mul_self_pos.mpr h0
  nlinarith

theorem root2_cost (b : Bool) : nCost soptsLM 1 ((root2 b 0 ^ 2 - 2) ^ 2) ≠ maxVal := by
  rw [root2_sq]
  have : nCost soptsLM 1 ((2 - 2) ^ 2) = 0 := by simp [nCost, normalizeCost, soptsLM]
  rw [this]
  show (0 : ℝ) ≠ 2 ^ 1024
  positivity

theorem root2_size (g H) : (adProbS (sqrtExpr 2)).dims = none ∨ (gnFresh (adProbS (sqrtExpr 2)) g H).n = 1 := Or.inr rfl

theorem root2_grad (b : Bool) : (fun _ => 2 * root2 b 0 * (root2 b 0 ^ 2 - 2) : RVec 1) = 0 := by
  rw [root2_sq]; funext i; simp

/-- the run stops for the zero step if the criteria on the cost are off -/
noncomputable def opts84 : Options ℝ Unit (DVec ℝ) := { optsDef Unit with minError := 0, minRerrDec := 0 }

theorem opts84_stop {c : ℝ} {r : StopReason} (hs : (r = .kMinError ∧ 0 < opts84.minError ∧ c < opts84.minError) ∨
    (r = .kMinRelError ∧ 0 < opts84.minRerrDec ∧ relDerr maxVal c < opts84.minRerrDec) ∨ r = .kMinDeltaNorm) : r = .kMinDeltaNorm := by
  rcases hs with ⟨-, h, -⟩ | ⟨-, h, -⟩ | h
  · simp [opts84] at h
  · simp [opts84] at h
  · exact h

/-- hypotheses of `C84_gn` and of `C83_gn_gradient_partial` -/
example (b : Bool) (g H) : ∃ st, optimizeAcc (gnEnv soptsLM someLinAlg (adProbS (sqrtExpr 2))) opts84 1 (-1) () (gnFresh (adProbS (sqrtExpr 2)) g H) (root2 b) = .ok st ∧
    st.x = root2 b ∧ st.out.stop = .kMinDeltaNorm := by
  obtain ⟨st, h1, h2, -, -, -, -, h3⟩ := C84_gn (o := opts84) (so := soptsLM) (sqrt_userQuad (adProbS_ad (sqrtExpr 2)) (adProbS_vec _) fun _ => True) someLinAlg_exact rfl
    (gnFresh (adProbS (sqrtExpr 2)) g H) (root2_size g H) (root2 b) trivial (root2_pd b) (Or.inl rfl) (Or.inl (le_refl _)) (root2_cost b) (root2_grad b)
    (by norm_num [opts84, optsDef]) (le_refl _) 0 (-1) 51 (by decide) ()
  exact ⟨st, h1, h2, opts84_stop h3⟩

/-- hypotheses of `C84_lm` and of `C83_lm_gradient_partial` -/
example (b : Bool) (g H) : ∃ st, optimizeAcc (lmEnv soptsLM someLinAlg (adProbS (sqrtExpr 2))) opts84 1 (-1) () (lmFresh soptsLM (adProbS (sqrtExpr 2)) g H) (root2 b) = .ok st ∧
    st.x = root2 b ∧ st.out.stop = .kMinDeltaNorm ∧ Rebuilt st.trace (st.trace.length - 1) := by
  obtain ⟨st, h1, h2, h4, -, -, -, h3⟩ := C84_lm (o := opts84) (so := soptsLM) (sqrt_userQuad (adProbS_ad (sqrtExpr 2)) (adProbS_vec _) fun _ => True) someLinAlg_exact (Or.inl rfl)
    (by norm_num [soptsLM]) (by norm_num [soptsLM]) (by norm_num [soptsLM]) rfl
    (lmFresh soptsLM (adProbS (sqrtExpr 2)) g H) (root2_size g H) rfl (Or.inl rfl) (root2 b) trivial
    (fun l hl => damped_pd' (root2_pd b) (by rcases hl with rfl | hl; (· norm_num [soptsLM]); exact le_trans (by norm_num [soptsLM]) hl)) (Or.inl (le_refl _)) (root2_cost b) (root2_grad b)
    (by norm_num [opts84, optsDef]) (le_refl _) 0 (-1) 51 (by decide) ()
  refine ⟨st, h1, h2, opts84_stop h3, ?_⟩
  rw [h4]
  exact Or.inl (Nat.zero_le _)

/-- hypotheses of `C84_gd`: the same function, of which gradient descent uses the gradient only; 0 is a local maximum of the cost -/
example (g H) : ∃ st, optimizeAcc (gdEnv soptsLM (adProbS (sqrtExpr 2))) opts84 1 (-1) () (gnFresh (adProbS (sqrtExpr 2)) g H) (fun _ => 0) = .ok st ∧
    (st.x = fun _ => 0) ∧ st.out.stop = .kMinDeltaNorm := by
  have h := sqrt_userQuad (adProbS_ad (sqrtExpr 2)) (adProbS_vec _) fun _ => True
  obtain ⟨st, h1, h2, -, -, -, -, h3⟩ := C84_gd (o := opts84) (so := soptsLM) (f := fun x => (x 0 ^ 2 - 2) ^ 2) (G := fun x _ => 2 * x 0 * (x 0 ^ 2 - 2))
    ⟨h.toVecParams, one_pos, fun w x => by obtain ⟨c, w', h1⟩ := h.full w x trivial; exact ⟨c, _, w', h1⟩⟩
    (gnFresh (adProbS (sqrtExpr 2)) g H) (root2_size g H) (le_refl _) (fun _ => 0) (by
      have : nCost soptsLM 1 (((0 : ℝ) ^ 2 - 2) ^ 2) = 4 := by norm_num [nCost, normalizeCost, soptsLM, soptsR]
      rw [this]
      show (4 : ℝ) ≠ 2 ^ 1024
      exact (lt_of_lt_of_le (by norm_num : (4 : ℝ) < 2 ^ 3) (pow_le_pow_right₀ (by norm_num) (by norm_num))).ne) (by funext i; simp)
    (by norm_num [opts84, optsDef]) (le_refl _) 0 (-1) 51 (by decide) ()
  exact ⟨st, h1, h2, opts84_stop h3⟩

end Verif
