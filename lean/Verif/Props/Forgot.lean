import Verif.Lemmas.QuadRun
import Verif.Props.StationaryStart
import Verif.Props.DampingLimits
import Verif.Props.EigenLDLT
import Verif.Props.History
/-!
# C142: a cost function that forgets its derivatives
-/

namespace Verif.Forgot
open FloatOps

variable {R W : Type} {n m : Nat} {so : SolverOpts ℝ} {LA : LinAlg ℝ} {P : Problem ℝ R W (Vec ℝ n)} {o : Options ℝ W (DVec ℝ)} {f : Vec ℝ n → ℝ}

/-- The user's function returns the cost `f` of `m > 0` residuals and leaves the gradient and the Hessian that it is given alone, as in tests/basic.cpp:219-233. -/
structure Forgets (P : Problem ℝ R W (Vec ℝ n)) (f : Vec ℝ n → ℝ) (m : Nat) : Prop extends VecParams P where
  npos : 0 < n
  pos : 0 < m
  full : ∀ w x g H, ∃ c w', P.acc.full w x n g H = ((c, g, H), w') ∧ c.cost = f x ∧ c.num = m
  eval : ∀ w x, (P.acc.eval w x).1.cost = f x ∧ (P.acc.eval w x).1.num = m

theorem Forgets.quad (h : Forgets P f m) : UserQuad P (fun _ => True) f (fun _ => 0) (fun _ => 0) m where
  toVecParams := h.toVecParams
  pos := h.pos
  psd := fun _ _ => ⟨fun _ _ => rfl, fun v => by simp [dotR, mv]⟩
  full := fun w x _ => h.full w x _ _
  eval := fun w x _ => h.eval w x

/-! ### The check of the diagonal -/

theorem low_zero (hn : 0 < n) (ht : 0 < so.checkMinHDiag) : (lt (ofInt 0) so.checkMinHDiag && lowDiag so.checkMinHDiag (0 : Mat ℝ n)) = true := by
  simp only [Bool.and_eq_true, RealOps.lt_eq, RealOps.ofInt_eq, lowDiag, List.any_eq_true, absF_real]
  exact ⟨by simpa using ht, ⟨0, hn⟩, List.mem_finRange _, by simpa using ht⟩

theorem build_refused (h : Forgets P f m) (ht : 0 < so.checkMinHDiag) (w : W) (s : GNState ℝ R) (hs : s.n = n) (x : Vec ℝ n) :
    ∃ s1 w1, buildSystem so P w s x = (false, s1, w1) ∧ s1.n = n ∧ s1.cost.num = m := by
  obtain ⟨sn, sg, sH, sc⟩ := s
  simp only at hs
  subst hs
  obtain ⟨c, w', hu, hc, hn⟩ := h.full w x (fun _ => 0) (fun _ _ => 0)
  unfold buildSystem gnAccumulate
  rw [show P.acc.full w x sn (fun _ => ofInt 0) (fun _ _ => ofInt 0) = _ from by simpa using hu]
  simp only
  split
  · rw [if_pos (show (lt (ofInt 0) so.checkMinHDiag && lowDiag so.checkMinHDiag (fun _ _ => (0 : ℝ) : Mat ℝ sn)) = true from low_zero h.npos ht)]
    exact ⟨_, _, rfl, rfl, by simpa [normalizeCost_num] using hn⟩
  · exact ⟨_, _, rfl, rfl, by simpa [normalizeCost_num] using hn⟩

/-- What the test asks of a run, tests/basic.cpp:147-156: no success, nothing recorded; and the parameters unchanged. -/
structure Refused (x : Vec ℝ n) {S : Type} (st : LoopSt ℝ R W S (Vec ℝ n) (DVec ℝ) (DMat ℝ)) : Prop where
  stop : st.out.stop = .kSolverFailed
  failed : st.out.succeeded = false ∧ st.out.converged = false
  x : st.x = x
  history : st.out.errs = [] ∧ st.out.successes = [] ∧ st.out.deltas2 = []
  iters : st.out.numIters = 1

theorem Refused.of {S : Type} {E : Env ℝ R W S (Vec ℝ n) (DVec ℝ) (DMat ℝ)} {x : Vec ℝ n} {w w' : W} {fuel : Nat} {mi : Int} (hmi : budget o mi ≤ 65535) {s : S} {st} (hrun : optimizeAcc E o fuel mi w s x = .ok st)
    (h : FailedAtOnce E x w' .kSolverFailed st) : Refused x st := by
  obtain ⟨h1, h2, -⟩ := C03_histories_aligned hmi hrun
  rw [h.errs] at h1 h2
  exact ⟨h.stop, by unfold Output.succeeded Output.converged; rw [h.stop]; decide, h.x, ⟨h.errs, List.length_eq_zero_iff.1 h2, List.length_eq_zero_iff.1 h1⟩, h.iters⟩

/-- **C142** (partial), Gauss-Newton. With a positive `check_min_H_diag` such a function is found out: whatever the decomposition, the run ends with `kSolverFailed` in its first iteration, the parameters unchanged. Missing: without that check,
the default, it is not, see `C142_gn_converges`. -/
theorem C142_gn_partial (h : Forgets P f m) (ht : 0 < so.checkMinHDiag) (s : GNState ℝ R) (hs : P.dims = none ∨ s.n = n) (x : Vec ℝ n)
    (hmc : 0 < o.maxConsecFailures) (hmc8 : o.maxConsecFailures < 256) (hnt : o.maxDurationMs ≤ 0) {mi : Int} (hmi : budget o mi ≤ 65535) {fuel : Nat} (hfu : o.maxConsecFailures ≤ fuel) (w : W) :
    ∃ st, optimizeAcc (gnEnv so LA P) o fuel mi w s x = .ok st ∧ Refused x st := by
  obtain ⟨g, w1, hg, hgn, -⟩ := resize_works h.toVecParams w s hs
  have hd : (gnEnv so LA P).dynDims x = n := h.dyn x
  have hready : Ready (gnEnv so LA P) w s x w1 g := by
    refine ⟨by rw [hd]; exact_mod_cast h.npos, ?_⟩
    rw [hd]; exact hg
  have hm0 := h.pos
  have row : ∀ (k : Nat) (w : W) (s : GNState ℝ R), s.n = n → ∃ w', FailsInARow (gnEnv so LA P) x (k + 1) w s w' := by
    intro k
    induction k with
    | zero =>
      intro w s hs
      obtain ⟨s1, w', h1, h2, h3⟩ := build_refused h ht w s hs x
      exact ⟨w', .one w s false s1 w' h1 (Or.inl rfl) (by show s1.cost.num ≠ 0; omega) (RealOps.finite_eq _)⟩
    | succ k ih =>
      intro w s hs
      obtain ⟨s1, w', h1, h2, h3⟩ := build_refused h ht w s hs x
      obtain ⟨w2, h5⟩ := ih w' s1 h2
      exact ⟨w2, .more (k + 1) w s false s1 w' s1 w2 h1 (Or.inl rfl) (by show s1.cost.num ≠ 0; omega) (RealOps.finite_eq _) rfl h5⟩
  obtain ⟨k, hk⟩ : ∃ k, o.maxConsecFailures = k + 1 := ⟨o.maxConsecFailures - 1, by omega⟩
  obtain ⟨w2, hrow⟩ := row k w1 g hgn
  rw [← hk] at hrow
  obtain ⟨st, h1, h2⟩ := solver_failed_run (by simp) (lt_of_le_of_lt hmi (by decide)) (by simpa using hnt) hmc hmc8 hfu hready hrow
  exact ⟨st, h1, .of hmi h1 h2⟩

/-- **C142** (partial), Levenberg-Marquardt: the same, whatever the damping. -/
theorem C142_lm_partial (h : Forgets P f m) (ht : 0 < so.checkMinHDiag) (hr : so.dampLo ≤ so.dampHi) (s : LMState ℝ R) (hreb : s.rebuild = true) (hs : P.dims = none ∨ s.gn.n = n) (x : Vec ℝ n)
    (hmc : 0 < o.maxConsecFailures) (hmc8 : o.maxConsecFailures < 256) (hnt : o.maxDurationMs ≤ 0) {mi : Int} (hmi : budget o mi ≤ 65535) {fuel : Nat} (hfu : o.maxConsecFailures ≤ fuel) (w : W) :
    ∃ st, optimizeAcc (lmEnv so LA P) o fuel mi w s x = .ok st ∧ Refused x st := by
  obtain ⟨g, w1, hg, hgn, -⟩ := resize_works h.toVecParams w s.gn hs
  have hd : (lmEnv so LA P).dynDims x = n := h.dyn x
  have hready : Ready (lmEnv so LA P) w s x w1 { s with gn := g } := by
    refine ⟨by rw [hd]; exact_mod_cast h.npos, ?_⟩
    rw [hd]
    simp only [lmEnv, envOf, lmSolver, hg]
  have hm0 := h.pos
  have one : ∀ (w : W) (s : LMState ℝ R), s.rebuild = true → s.gn.n = n → ∃ s1 w', (lmEnv so LA P).sol.build w s x = (false, s1, w') ∧ s1.rebuild = true ∧ s1.gn.n = n ∧ s1.gn.cost.num = m := by
    intro w s hb hs
    obtain ⟨s1, w', h1, h2, h3⟩ := build_refused h ht w s.gn hs x
    refine ⟨{ s with gn := s1 }, w', ?_, hb, h2, h3⟩
    show lmBuild so P w s x = _
    unfold lmBuild
    simp only [hb, if_true]
    rw [h1]
    simp [hb]
  have row : ∀ (k : Nat) (w : W) (s : LMState ℝ R), s.rebuild = true → s.gn.n = n → ∃ w', FailsInARow (lmEnv so LA P) x (k + 1) w s w' := by
    intro k
    induction k with
    | zero =>
      intro w s hb hs
      obtain ⟨s1, w', h1, h2, h3, h4⟩ := one w s hb hs
      exact ⟨w', .one w s false s1 w' h1 (Or.inl rfl) (by show s1.gn.cost.num ≠ 0; omega) (RealOps.finite_eq _)⟩
    | succ k ih =>
      intro w s hb hs
      obtain ⟨s1, w', h1, h2, h3, h4⟩ := one w s hb hs
      obtain ⟨s2, h6, h7, h8⟩ : ∃ s2, lmBad so s1 = .ok s2 ∧ s2.rebuild = true ∧ s2.gn.n = n := by
        unfold lmBad
        rw [stdClamp_real hr]
        exact ⟨_, rfl, h2, h3⟩
      obtain ⟨w2, h5⟩ := ih w' s2 h7 h8
      exact ⟨w2, .more (k + 1) w s false s1 w' s2 w2 h1 (Or.inl rfl) (by show s1.gn.cost.num ≠ 0; omega) (RealOps.finite_eq _) h6 h5⟩
  obtain ⟨k, hk⟩ : ∃ k, o.maxConsecFailures = k + 1 := ⟨o.maxConsecFailures - 1, by omega⟩
  obtain ⟨w2, hrow⟩ := row k w1 { s with gn := g } hreb hgn
  rw [← hk] at hrow
  obtain ⟨st, h1, h2⟩ := solver_failed_run (by simp) (lt_of_le_of_lt hmi (by decide)) (by simpa using hnt) hmc hmc8 hfu hready hrow
  exact ⟨st, h1, .of hmi h1 h2⟩

/-! ### Without the check -/

/-- Eigen accepts the zero matrix and solves with it to zero. -/
theorem eigen_zero (tol : ℝ) (b : Vec ℝ n) (h0 : 0 ≤ tol) : eigenLdlt tol n 0 b = some 0 := by
  have hs : ∀ (l : List (Fin n)) (b : Vec ℝ n), ldltSolve tol (l.map fun j => (⟨j, 0, fun _ => 0⟩ : LdltCol ℝ n)) b = 0 := by
    intro l
    induction l with
    | nil => intro b; funext i; simp [ldltSolve]
    | cons a t ih =>
      intro b
      rw [List.map_cons]
      unfold ldltSolve
      simp only [ih]
      have hf : ∀ (l : List (LdltCol ℝ n)), l.foldl (fun (a : ℝ) c' => add a (mul (0 : ℝ) ((0 : Vec ℝ n) c'.p))) 0 = 0 := by
        intro l
        induction l with
        | nil => rfl
        | cons c t ih => rw [List.foldl_cons]; simpa using ih
      funext i
      have := hf (t.map fun j => (⟨j, 0, fun _ => 0⟩ : LdltCol ℝ n))
      simp only [RealOps.ofInt_eq, Int.cast_zero, this]
      simp [absF_real, not_lt.2 h0]
  cases n with
  | zero => unfold eigenLdlt; simp only [ldltGo]; rw [if_pos (Or.inr trivial)]; congr 1; funext i; exact i.elim0
  | succ k =>
    have hgo : ldltGo (0 : Mat ℝ (k + 1)) (k + 1) [] (List.finRange (k + 1)) false .zero = some ((List.finRange (k + 1)).map fun j => ⟨j, 0, fun _ => 0⟩, .zero) := by
      rw [List.finRange_succ]
      unfold ldltGo
      simp [ldltRest, ldltDot, absF_real]
    unfold eigenLdlt
    rw [hgo]
    simp only
    rw [if_pos (Or.inr trivial), hs]

theorem solve_zero {tol : ℝ} {inv} (h0 : 0 ≤ tol) (hl : so.useLdlt = true) (one : Bool) {c : Cost ℝ R} (hv : c.isValid = true) :
    gnSolve so (eigenLinAlg tol inv) one (⟨n, 0, 0, c⟩ : GNState ℝ R) = some ⟨n, 0⟩ := by
  unfold gnSolve solveLDLT
  simp only [hv, hl, if_true]
  have : symUpper (0 : Mat ℝ n) = 0 := by funext i j; simp [symUpper]
  rw [this]
  show (eigenLdlt tol n 0 _).map _ = _
  rw [eigen_zero tol _ h0]
  rfl

/-- what a run reports that has not moved from `x` and takes that for a minimum -/
structure Accepted (x : Vec ℝ n) {S : Type} (st : LoopSt ℝ R W S (Vec ℝ n) (DVec ℝ) (DMat ℝ)) : Prop where
  converged : st.out.converged = true
  x : st.x = x
  iters : st.out.numIters = 1
  len : st.trace.length = 1

theorem accepted {S : Type} {E : Env ℝ R W S (Vec ℝ n) (DVec ℝ) (DMat ℝ)} (hp : ∀ x, E.plusEq x ⟨n, 0⟩ = x) (hn : E.normSq ⟨n, 0⟩ = 0) {w : W} {s s2 : S} {x : Vec ℝ n} (hd : Delivers E w s x s2 ⟨n, 0⟩)
    (hstep : 0 < o.minStepNorm2) (htime : o.maxDurationMs ≤ 0) (fuel : Nat) {mi k : Int} (hk : loopBound o mi = some k) :
    ∃ st, optimizeAcc E o (fuel + 1) mi w s x = .ok st ∧ Accepted x st := by
  have hz := fun w2 g => zero_step_stops (o := o) hstep w2 (E.sol.cost s2).cost (relDerr maxVal (E.sol.cost s2).cost) (gn2Of E o s2) ⟨n, 0⟩ g
  obtain ⟨st, e, h1, h2, h3, h4, h5, w2, g, h6⟩ := first_stop (o := o) hd fuel hk (by simpa using htime) fun w2 g => by
    rw [hn]
    obtain ⟨r, hr, hr'⟩ := hz w2 g
    exact ⟨r, hr, by rcases hr' with ⟨rfl, -⟩ | ⟨rfl, -⟩ | rfl <;> simp⟩
  refine ⟨st, e, ?_, by rw [h1, hp], h5, h2⟩
  rw [hn] at h6
  obtain ⟨r, hr, hr'⟩ := hz w2 g
  rw [hr] at h6
  have h7 := Option.some.inj h6
  unfold Output.converged
  rw [← h7]
  rcases hr' with ⟨rfl, -⟩ | ⟨rfl, -⟩ | rfl <;> decide

/-- **C142 is violated** (Gauss-Newton without `check_min_H_diag`): from any start, whatever its cost, the run is reported as converged after one iteration, at that start. -/
theorem C142_gn_converges {tol : ℝ} {inv} (h0 : 0 ≤ tol) (h : Forgets P f m) (ht : so.checkMinHDiag ≤ 0) (hl : so.useLdlt = true) (hclip : so.gradClip = 0) (s : GNState ℝ R) (hs : P.dims = none ∨ s.n = n)
    (x : Vec ℝ n) (hx : nCost so m (f x) ≠ maxVal) (hstep : 0 < o.minStepNorm2) (htime : o.maxDurationMs ≤ 0) (fuel : Nat) {mi k : Int} (hk : loopBound o mi = some k) (w : W) :
    ∃ st, optimizeAcc (gnEnv so (eigenLinAlg tol inv) P) o (fuel + 1) mi w s x = .ok st ∧ Accepted x st := by
  obtain ⟨s1, w1, hr, hn1, -⟩ := resize_works h.toVecParams w s hs
  obtain ⟨c, w2, hb, hc, hv⟩ := quad_build h.quad hclip w1 s1 hn1 x trivial (Or.inl ht) hx
  have hd : Delivers (gnEnv so (eigenLinAlg tol inv) P) w s x ⟨n, 0, 0, c⟩ ⟨n, 0⟩ :=
    ⟨⟨s1, w1, w2, resizeIfNeeded_works h.toVecParams hr, hb⟩, solve_zero h0 hl _ hv, rfl, rfl, fun q => ⟨_, rfl⟩, ⟨_, rfl⟩⟩
  exact accepted (fun x => (h.plus x 0).trans (add_zero x)) (by show sqNorm (0 : Vec ℝ n) = 0; rw [sqNorm_eq]; simp [dotR]) hd hstep htime fuel hk

/-- **C142 is violated** (Levenberg-Marquardt without `check_min_H_diag`): the damping scales the diagonal, so the matrix stays zero. -/
theorem C142_lm_converges {tol : ℝ} {inv} (h0 : 0 ≤ tol) (h : Forgets P f m) (ht : so.checkMinHDiag ≤ 0) (hl : so.useLdlt = true) (hclip : so.gradClip = 0) (hr0 : so.dampLo ≤ so.dampHi) (s : LMState ℝ R)
    (hreb : s.rebuild = true) (hl0 : 0 ≤ s.lambda) (hs : P.dims = none ∨ s.gn.n = n)
    (x : Vec ℝ n) (hx : nCost so m (f x) ≠ maxVal) (hstep : 0 < o.minStepNorm2) (htime : o.maxDurationMs ≤ 0) (fuel : Nat) {mi k : Int} (hk : loopBound o mi = some k) (w : W) :
    ∃ st, optimizeAcc (lmEnv so (eigenLinAlg tol inv) P) o (fuel + 1) mi w s x = .ok st ∧ Accepted x st := by
  obtain ⟨g1, w1, hr, hn1, -⟩ := resize_works h.toVecParams w s.gn hs
  obtain ⟨c, w2, hb, hc, hv⟩ := quad_build h.quad hclip w1 g1 hn1 x trivial (Or.inl ht) hx
  have hr' : (lmSolver so (eigenLinAlg tol inv) P).resize w s n = (.done { s with gn := g1 }, w1) := by
    simp only [lmSolver, hr]
  have hz : dampedR s.lambda (0 : Mat ℝ n) = 0 := by funext i j; simp [dampedR]
  have hb' : lmBuild so P w1 { s with gn := g1 } x = (true, { s with gn := ⟨n, 0, 0, c⟩ }, w2) := by
    unfold lmBuild
    simp only [hreb, if_true]
    rw [hb]
    simp only [if_true]
    have := lmDamp_ls (R := R) (s := s) hreb hl0 (g := 0) (H := (0 : Mat ℝ n)) (c := c)
    rw [hreb, hz] at this
    rw [this]
  have hd : Delivers (lmEnv so (eigenLinAlg tol inv) P) w s x { s with gn := ⟨n, 0, 0, c⟩ } ⟨n, 0⟩ := by
    refine ⟨⟨_, w1, w2, resizeIfNeeded_works h.toVecParams hr', hb'⟩, solve_zero h0 hl _ hv, rfl, rfl, fun q => ?_, ?_⟩
    · show ∃ s', lmGood so _ q = .ok s'
      unfold lmGood; rw [stdClamp_real hr0]; exact ⟨_, rfl⟩
    · show ∃ s', lmBad so _ = .ok s'
      unfold lmBad; rw [stdClamp_real hr0]; exact ⟨_, rfl⟩
  exact accepted (fun x => (h.plus x 0).trans (add_zero x)) (by show sqNorm (0 : Vec ℝ n) = 0; rw [sqNorm_eq]; simp [dotR]) hd hstep htime fuel hk

/-- **C142 is violated** (gradient descent, which has no Hessian to check): the same, with any options of the solver and any learning rate. -/
theorem C142_gd_converges (h : Forgets P f m) (hclip : 0 ≤ so.gradClip) (s : GNState ℝ R) (hs : P.dims = none ∨ s.n = n)
    (x : Vec ℝ n) (hx : nCost so m (f x) ≠ maxVal) (hstep : 0 < o.minStepNorm2) (htime : o.maxDurationMs ≤ 0) (fuel : Nat) {mi k : Int} (hk : loopBound o mi = some k) (w : W) :
    ∃ st, optimizeAcc (gdEnv so P) o (fuel + 1) mi w s x = .ok st ∧ Accepted x st := by
  have hg : UserGrad P f (fun _ => 0) m := ⟨h.toVecParams, h.pos, fun w x => by
    obtain ⟨c, w', e, h1, h2⟩ := h.full w x (fun _ => 0) (fun _ _ => 0)
    exact ⟨c, _, w', e, h1, h2⟩⟩
  obtain ⟨st, e, h1, h2, -, h3, -, h4⟩ := C84_gd (so := so) (o := o) hg s hs hclip x hx rfl hstep htime fuel mi k hk w
  refine ⟨st, e, ?_, h1, h3, h2⟩
  unfold Output.converged
  rcases h4 with ⟨h5, -⟩ | ⟨h5, -⟩ | h5 <;> rw [h5] <;> decide

/-! ### The function of the test -/

/-- tests/basic.cpp:222-226 -/
noncomputable def testProb : Problem ℝ ℝ Unit (Vec ℝ 1) where
  acc := {
    full := fun w x _ g H => ((⟨|x 0 - 2|, 1, 1, ""⟩, g, H), w)
    eval := fun w x => (⟨|x 0 - 2|, 1, 1, ""⟩, w) }
  dims := some 1
  dynDims := fun _ => 1
  plusEq := fun x v => if h : v.n = 1 then x + h ▸ v.v else x
  clock := fun w => (0, w)
  alloc := fun w _ => (none, w)
  ratio1 := 1

theorem testProb_forgets : Forgets testProb (fun x => |x 0 - 2|) 1 where
  dyn := fun _ => rfl
  size := Or.inl rfl
  plus := fun x v => by simp [testProb]
  npos := Nat.one_pos
  pos := Nat.one_pos
  full := fun w x g H => ⟨_, _, rfl, rfl, rfl⟩
  eval := fun w x => ⟨rfl, rfl⟩

/-- **C142, the test** with its options and without its `check_min_H_diag`, started at 1 where the cost is 1: the first run fails as the test asks, the second one claims to have converged, with Levenberg-Marquardt also. -/
theorem C142_test (g H) : (∃ st, optimizeAcc (gnEnv { soptsLM with checkMinHDiag := 1 / 10000000 } (eigenLinAlg 0 fun _ A => A) testProb) (optsDef Unit) 5 (-1) () (gnFresh testProb g H) (fun _ => 1) = .ok st ∧ Refused (fun _ => 1) st) ∧
    (∃ st, optimizeAcc (gnEnv soptsLM (eigenLinAlg 0 fun _ A => A) testProb) (optsDef Unit) 5 (-1) () (gnFresh testProb g H) (fun _ => 1) = .ok st ∧ Accepted (fun _ => 1) st) ∧
    ∃ st, optimizeAcc (lmEnv soptsLM (eigenLinAlg 0 fun _ A => A) testProb) (optsDef Unit) 5 (-1) () (lmFresh soptsLM testProb g H) (fun _ => 1) = .ok st ∧ Accepted (fun _ => 1) st := by
  have hx : nCost soptsLM 1 (|(1 : ℝ) - 2|) ≠ maxVal := by
    have : nCost soptsLM 1 (|(1 : ℝ) - 2|) = 1 := by norm_num [nCost, normalizeCost, soptsLM, soptsR]
    rw [this]
    exact (one_lt_pow₀ (by norm_num : (1 : ℝ) < 2) (by norm_num : (1024 : ℕ) ≠ 0)).ne
  refine ⟨?_, ?_, ?_⟩
  · exact C142_gn_partial testProb_forgets (by norm_num) _ (Or.inr rfl) _ (by decide +kernel) (by decide +kernel) (by simp [optsDef]) (by decide) (le_refl _) ()
  · exact C142_gn_converges (le_refl _) testProb_forgets (by simp [soptsLM, soptsR]) rfl rfl _ (Or.inr rfl) _ hx (by norm_num [optsDef]) (by simp [optsDef]) 4 (k := 51) (by rfl) ()
  · exact C142_lm_converges (le_refl _) testProb_forgets (by simp [soptsLM, soptsR]) rfl rfl (by norm_num [soptsLM]) _ rfl (by norm_num [lmFresh, lmReset, soptsLM]) (Or.inr rfl) _ hx (by norm_num [optsDef]) (by simp [optsDef]) 4 (k := 51) (by rfl) ()

/-- hypotheses of `C142_gd_converges` -/
example (g H) : ∃ st, optimizeAcc (gdEnv soptsLM testProb) (optsDef Unit) 5 (-1) () (gnFresh testProb g H) (fun _ => 1) = .ok st ∧ Accepted (fun _ => 1) st :=
  C142_gd_converges testProb_forgets (by simp [soptsLM, soptsR]) _ (Or.inr rfl) _ (by
    have : nCost soptsLM 1 (|(1 : ℝ) - 2|) = 1 := by norm_num [nCost, normalizeCost, soptsLM, soptsR]
    rw [this]
    exact (one_lt_pow₀ (by norm_num : (1 : ℝ) < 2) (by norm_num : (1024 : ℕ) ≠ 0)).ne) (by norm_num [optsDef]) (by simp [optsDef]) 4 (k := 51) (by rfl) ()

/-- hypotheses of `C142_lm_partial` -/
example (g H) : ∃ st, optimizeAcc (lmEnv { soptsLM with checkMinHDiag := 1 / 10000000 } someLinAlg testProb) (optsDef Unit) 5 (-1) () (lmFresh soptsLM testProb g H) (fun _ => 1) = .ok st ∧ Refused (fun _ => 1) st :=
  C142_lm_partial testProb_forgets (by norm_num) (by norm_num [soptsLM]) _ rfl (Or.inr rfl) _ (by decide +kernel) (by decide +kernel) (by simp [optsDef]) (by decide) (le_refl _) ()

end Verif.Forgot
