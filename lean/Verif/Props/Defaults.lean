import Verif.Model.Defaults
import Verif.Model.EigenLDLT
import Verif.Lemmas.Tries
import Verif.Props.Termination
import Verif.Props.Limits
import Verif.Props.Hooks
import Verif.Props.Damping
import Verif.Props.GdConvex
/-!
# C114: what the default options guarantee, and what they do not
-/

set_option linter.unusedSectionVars false

namespace Verif
open FloatOps

section
variable {F R W S X V M : Type} [FloatOps F]
variable {E : Env F R W S X V M} {o : Options F W V}

/-! ## The failures are counted exactly -/

/-- a call of `Build` -/
def Ev.isTry {F : Type} : Ev F → Bool
  | .attempt _ => true
  | _ => false

theorem tries_pot (E : Env F R W S X V M) : BuildPot (logEnv E) (fun s => s.2.countP Ev.isTry) where
  build w s x := by simp [logEnv, logSolver, List.countP_append, Ev.isTry]
  resize w s d s' w' h := by
    simp only [logEnv, logSolver] at h
    split at h
    · obtain ⟨h, -⟩ := Prod.mk.inj h
      injection h with h
      rw [← h]; simp [List.countP_append, Ev.isTry]
    · cases (Prod.mk.inj h).1
    · cases (Prod.mk.inj h).1
  good s q s' h := by
    simp only [logEnv, logSolver] at h
    rw [Res.bind_eq_ok] at h
    obtain ⟨t, -, h⟩ := h
    injection h with h
    rw [← h]; simp [List.countP_append, Ev.isTry]
  bad s s' h := by
    simp only [logEnv, logSolver] at h
    rw [Res.bind_eq_ok] at h
    obtain ⟨t, -, h⟩ := h
    injection h with h
    rw [← h]; simp [List.countP_append, Ev.isTry]
  failed s s' h := by
    simp only [logEnv, logSolver] at h
    rw [Res.bind_eq_ok] at h
    obtain ⟨t, -, h⟩ := h
    injection h with h
    rw [← h]; simp [List.countP_append, Ev.isTry]
  rebuild s b := by simp [logEnv, logSolver, List.countP_append, Ev.isTry]

theorem countP_try_tries (k : Nat) : (failedTries F k).countP Ev.isTry = k := by
  induction k with
  | zero => rfl
  | succ k ih => simp [failedTries, List.countP_cons, Ev.isTry] at ih ⊢

/-- **C114, number of failures.** With a limit on the consecutive failures, `num_failures` is the number of failed solves
and rejected steps of the run, without wrapping around, if the limit times the number of iterations is less than 256. -/
theorem C114_failures_exact (hmc : 0 < o.maxConsecFailures) (hmc8 : o.maxConsecFailures < 256) {fuel : Nat} {mi : Int}
    (hb : o.maxConsecFailures * budget o mi < 256) {w : W} {s : S} {x : X}
    {st : LoopSt F R W (S × List (Ev F)) X V M}
    (h : optimizeAcc (logEnv E) o fuel mi w (s, []) x = .ok st) :
    st.out.numFailures = st.s.2.countP Ev.isFailure ∧
      st.s.2.countP Ev.isFailure ≤ o.maxConsecFailures * st.trace.length := by
  have h256 := C13_counts_failures_partial h
  obtain ⟨st0, ⟨-, -, h1, h2, -⟩, hlen, hs, ht, -, -, -, hc, hf⟩ := run_inv_len
    (I := fun st => st.out.numConsec = st.out.numConsec % 256 ∧ st.out.numFailures = st.out.numFailures % 256 ∧
      st.s.2.countP Ev.isFailure ≤ st.s.2.countP Ev.isTry ∧
      st.s.2.countP Ev.isTry ≤ o.maxConsecFailures * st.trace.length ∧
      (st.out.stop = .kNone → st.out.numConsec < o.maxConsecFailures))
    (fun st st' h0 _ hI hb => by
      obtain ⟨i1, i2, i3, i4, i5⟩ := hI
      obtain ⟨p1, p2⟩ := body_pot (tries_pot E) hmc8 (i5 h0) hb
      obtain ⟨succ, l1, out1, dx, x', hsl, hl, -, htr, -, -, -, -, e1, e2⟩ := body_log i1 i2 hb
      have key : l1.countP Ev.isFailure ≤ l1.countP Ev.isTry ∧ out1.numConsec < 256 ∧ out1.numFailures < 256 := by
        have a1 : ∀ k, (failedTries F k).countP Ev.isFailure = k := countP_tries
        cases hsl with
        | fail l a out' he hs hstop hl h1 h2 =>
          refine ⟨?_, by omega, by omega⟩
          rcases hl with ⟨rfl, rfl⟩ | ⟨n, rfl, rfl, -⟩ | ⟨n, k, rfl, rfl⟩ | ⟨n, k, rfl, rfl⟩ <;>
            simp [List.countP_append, List.countP_cons, a1, countP_try_tries, Ev.isFailure, Ev.isTry]
        | good n k g e out' hg he hs hf h1 h2 =>
          refine ⟨?_, by omega, by omega⟩
          split <;> simp [List.countP_append, List.countP_cons, a1, countP_try_tries, Ev.isFailure, Ev.isTry]
        | bad n k e out' hi he hs hf h1 h2 =>
          refine ⟨?_, by omega, by omega⟩
          simp [List.countP_append, List.countP_cons, a1, countP_try_tries, Ev.isFailure, Ev.isTry]
      obtain ⟨k1, k2, k3⟩ := key
      refine ⟨by rw [e1]; omega, by rw [e2]; omega, ?_, ?_, p2⟩
      · rw [hl]
        simp only [List.countP_append]
        generalize (if succ then _ else _ : Bool) = bb
        have r1 : List.countP Ev.isFailure [(Ev.rebuild bb : Ev F)] = 0 := rfl
        omega
      · rw [htr, List.length_append, List.length_singleton, Nat.mul_add]
        omega)
    ⟨rfl, rfl, le_refl _, by simp [initSt], fun _ => hmc⟩ h
  rw [hs, ht]
  rw [hs] at h256
  have h3 : o.maxConsecFailures * st0.trace.length < 256 := by
    have : (o.maxConsecFailures : Int) * st0.trace.length ≤ o.maxConsecFailures * budget o mi :=
      mul_le_mul_of_nonneg_left hlen (by omega)
    have h4 : ((o.maxConsecFailures * st0.trace.length : Nat) : Int) < 256 := by push_cast; omega
    exact_mod_cast h4
  exact ⟨by omega, by omega⟩

end

/-! ## Work and report -/

section
variable {F R W X : Type} [FloatOps F]

/-- `P` with a count of the calls of the user's function in the world -/
def counted (P : Problem F R W X) : Problem F R (W × Nat) X where
  acc := {
    full := fun w x n g H => let (r, w') := P.acc.full w.1 x n g H; (r, (w', w.2 + 1))
    eval := fun w x => let (r, w') := P.acc.eval w.1 x; (r, (w', w.2 + 1)) }
  dims := P.dims
  dynDims := P.dynDims
  plusEq := P.plusEq
  clock := fun w => let (t, w') := P.clock w.1; (t, (w', w.2))
  alloc := fun w n => let (r, w') := P.alloc w.1 n; (r, (w', w.2))
  ratio1 := P.ratio1

variable {so : SolverOpts F} {L : LinAlg F} {P : Problem F R W X}

theorem gnResize_cnt (w : W × Nat) (s : GNState F R) (d : Int) : (gnResize (counted P) w s d).2.2 = w.2 := by
  unfold gnResize
  simp only [counted]
  split
  · split <;> rfl
  · split
    · rfl
    split
    · rfl
    · split
      next h => exact (congrArg (fun p => p.2.2) h).symm
      next h => exact (congrArg (fun p => p.2.2) h).symm

theorem gnAccumulate_cnt (w : W × Nat) (s : GNState F R) (x : X) :
    (gnAccumulate so (counted P) w s x).2.2 = w.2 + 1 := rfl

theorem buildSystem_cnt (w : W × Nat) (s : GNState F R) (x : X) :
    (buildSystem so (counted P) w s x).2.2.2 = w.2 + 1 := by
  unfold buildSystem
  have h := gnAccumulate_cnt (so := so) (P := P) w s x
  generalize gnAccumulate so (counted P) w s x = r at h ⊢
  obtain ⟨s1, w1⟩ := r
  simp only at h ⊢
  split
  · split <;> exact h
  · exact h

theorem lmBuild_cnt (w : W × Nat) (s : LMState F R) (x : X) : (lmBuild so (counted P) w s x).2.2.2 = w.2 + 1 := by
  unfold lmBuild
  split
  · have h := buildSystem_cnt (so := so) (P := P) w s.gn x
    generalize buildSystem so (counted P) w s.gn x = r at h ⊢
    obtain ⟨b, s1, w1⟩ := r
    simp only at h ⊢
    split <;> exact h
  · simp only
    split <;> rfl

theorem lmResize_cnt (w : W × Nat) (s : LMState F R) (d : Int) : ((lmSolver so L (counted P)).resize w s d).2.2 = w.2 := by
  have h := gnResize_cnt (P := P) w s.gn d
  simp only [lmSolver]
  generalize gnResize (counted P) w s.gn d = r at h ⊢
  obtain ⟨r, w1⟩ := r
  cases r <;> exact h

theorem gnEnv_counts (o : Options F (W × Nat) (DVec F)) (h1 : o.stopCallback = none) (h2 : o.stopCallback2 = none) :
    Counts (gnEnv so L (counted P)) o (fun w => w.2) where
  build w s x := (buildSystem_cnt (so := so) (P := P) w s x).le
  resize w s d := gnResize_cnt w s d
  clock w := rfl
  cb1 f h := by rw [h1] at h; cases h
  cb2 f h := by rw [h2] at h; cases h

theorem gdEnv_counts (o : Options F (W × Nat) (DVec F)) (h1 : o.stopCallback = none) (h2 : o.stopCallback2 = none) :
    Counts (gdEnv so (counted P)) o (fun w => w.2) where
  build w s x := le_refl _
  resize w s d := gnResize_cnt w s d
  clock w := rfl
  cb1 f h := by rw [h1] at h; cases h
  cb2 f h := by rw [h2] at h; cases h

theorem lmEnv_counts (o : Options F (W × Nat) (DVec F)) (h1 : o.stopCallback = none) (h2 : o.stopCallback2 = none) :
    Counts (lmEnv so L (counted P)) o (fun w => w.2) where
  build w s x := (lmBuild_cnt (so := so) (P := P) w s x).le
  resize w s d := lmResize_cnt (so := so) (L := L) w s d
  clock w := rfl
  cb1 f h := by rw [h1] at h; cases h
  cb2 f h := by rw [h2] at h; cases h

end

section
variable {R W X : Type}

theorem litD_range : lt (litD (10 ^ 9)) (litD (1 / 10 ^ 9)) = false := by decide +kernel

theorem lm_hooks {L : LinAlg (Fl Fmt.binary64)} {P : Problem (Fl Fmt.binary64) R W X} :
    HooksDefined (lmEnv (defaultSolverOpts litD) L P) := by
  have h : ∀ v, ∃ l, stdClamp v (defaultSolverOpts litD).dampLo (defaultSolverOpts litD).dampHi = .ok l := by
    intro v
    unfold stdClamp
    rw [show lt (defaultSolverOpts litD).dampHi (defaultSolverOpts litD).dampLo = false from litD_range]
    exact ⟨_, rfl⟩
  refine ⟨fun s q => ?_, fun s => ?_, fun s => ?_⟩
  · show ∃ s', lmGood _ s q = .ok s'
    unfold lmGood
    obtain ⟨l, hl⟩ := h (mul s.lambda (goodScale (defaultSolverOpts litD) q s.badF))
    rw [hl]; exact ⟨_, rfl⟩
  · show ∃ s', lmBad _ s = .ok s'
    unfold lmBad
    obtain ⟨l, hl⟩ := h (mul s.lambda s.badF)
    rw [hl]; exact ⟨_, rfl⟩
  · show ∃ s', lmBad _ s = .ok s'
    unfold lmBad
    obtain ⟨l, hl⟩ := h (mul s.lambda s.badF)
    rw [hl]; exact ⟨_, rfl⟩

theorem default_budget {F W V : Type} (lit : ℚ → F) : budget (defaultOptions lit : Options F W V) (-1) = 51 := rfl

/-- What every run with the default options does: it returns after 1 to 51 iterations, having called the user's
function at most 255 times, reports a stop reason and the number of its iterations. -/
def DefaultRun {S : Type} (E : Env (Fl Fmt.binary64) R (W × Nat) S X (DVec (Fl Fmt.binary64)) (DMat (Fl Fmt.binary64))) (s : S) : Prop :=
  ∀ (fuel : Nat) (w : W) (k : Nat) (x : X), 5 ≤ fuel →
    ∃ st, optimizeAcc E (defaultOptions litD) fuel (-1) (w, k) s x = .ok st ∧
      1 ≤ st.trace.length ∧ st.trace.length ≤ 51 ∧ st.w.2 ≤ k + 255 ∧
      st.out.stop ≠ .kNone ∧ st.out.numIters = st.trace.length

theorem defaultRun {S : Type} {E : Env (Fl Fmt.binary64) R (W × Nat) S X (DVec (Fl Fmt.binary64)) (DMat (Fl Fmt.binary64))}
    (hh : HooksDefined E) (hc : Counts E (defaultOptions litD) (fun w => w.2)) (s : S) : DefaultRun E s := by
  intro fuel w k x hf
  obtain ⟨st, e, h1, h2, h3⟩ := C01_bounded_work hh hc (show 0 < 5 by decide) (show 5 < 256 by decide) (mi := -1)
    (by rw [default_budget]; decide) hf (w, k) s x
  obtain ⟨h4, h5⟩ := C08_reports_stop_partial (by rw [default_budget]; decide) e
  rw [default_budget] at h2
  refine ⟨st, e, h1, by omega, ?_, h4, h5⟩
  have : (defaultOptions litD : Options (Fl Fmt.binary64) (W × Nat) (DVec (Fl Fmt.binary64))).maxConsecFailures = 5 := rfl
  rw [this] at h3
  simp only at h3
  omega

/-- **C114, work.** With the default options in double precision every run of Gauss-Newton, Levenberg-Marquardt and
Gradient Descent, on any function, state and starting point, behaves as `DefaultRun` says. -/
theorem C114_work (L : LinAlg (Fl Fmt.binary64)) (P : Problem (Fl Fmt.binary64) R W X) :
    (∀ s, DefaultRun (gnEnv (defaultSolverOpts litD) L (counted P)) s) ∧
    (∀ s, DefaultRun (lmEnv (defaultSolverOpts litD) L (counted P)) s) ∧
    (∀ s, DefaultRun (gdEnv (defaultSolverOpts litD) (counted P)) s) :=
  ⟨fun s => defaultRun ⟨fun s _ => ⟨s, rfl⟩, fun s => ⟨s, rfl⟩, fun s => ⟨s, rfl⟩⟩ (gnEnv_counts _ rfl rfl) s,
   fun s => defaultRun lm_hooks (lmEnv_counts _ rfl rfl) s,
   fun s => defaultRun ⟨fun s _ => ⟨s, rfl⟩, fun s => ⟨s, rfl⟩, fun s => ⟨s, rfl⟩⟩ (gdEnv_counts _ rfl rfl) s⟩

/-- **C114, failures.** With the default options `num_failures` does not wrap around: 51 iterations of at most 5 failures. -/
theorem C114_failures {S : Type} (E : Env (Fl Fmt.binary64) R W S X (DVec (Fl Fmt.binary64)) (DMat (Fl Fmt.binary64))) {fuel : Nat} {w : W} {s : S} {x : X} {st}
    (h : optimizeAcc (logEnv E) (defaultOptions litD) fuel (-1) w (s, []) x = .ok st) :
    st.out.numFailures = st.s.2.countP Ev.isFailure :=
  (C114_failures_exact (show 0 < 5 by decide) (show 5 < 256 by decide) (show (5 : Int) * 51 < 256 by decide) h).1

theorem default_damp : DampOpts (defaultSolverOpts litD) where
  lo := Fl.finPos_of (by decide +kernel)
  hi := by decide +kernel
  range := litD_range
  good := Fl.finPos_of (by decide +kernel)
  bad := Fl.finPos_of (by decide +kernel)

/-- **C114, damping.** With the default options the damping of Levenberg-Marquardt is positive and in the range
from `1e-9f` to `1e9f` at the end of every run on a new or reset object. -/
theorem C114_damping {L : LinAlg (Fl Fmt.binary64)} {P : Problem (Fl Fmt.binary64) R W X} {fuel : Nat} {mi : Int} {w : W} {x : X}
    {s0 : LMState (Fl Fmt.binary64) R} {st}
    (h : optimizeAcc (lmEnv (defaultSolverOpts litD) L P) (defaultOptions litD) fuel mi w (lmReset (defaultSolverOpts litD) s0) x = .ok st) :
    lt (ofInt 0) st.s.lambda = true ∧ lt st.s.lambda (litD (1 / 10 ^ 9)) = false ∧ lt (litD (10 ^ 9)) st.s.lambda = false := by
  obtain ⟨h1, h2⟩ := C20_run hasTwo_binary64 (by decide +kernel) default_damp (Fl.finPos_of (by decide +kernel)) h
  refine ⟨h1, ?_⟩
  rcases h2 with h2 | h2
  · rw [h2]; decide +kernel
  · exact ⟨h2.1, h2.2.1⟩

end

/-! ## Gradient Descent is slow -/

section
variable {n : Nat} {R W : Type}

/-- a literal with the suffix `f` as a real number -/
noncomputable def litR (q : ℚ) : ℝ := (Fmt.binary32.rnd q : ℚ)

theorem path_lower {F R X V M : Type} {E : X → ℝ} {q : ℝ} (hq : 0 ≤ q) : ∀ {l : List (Rec F R X V M)} {x y : X}, Path x l y → (∀ r ∈ l, q * E r.x ≤ E r.xNext) →
    q ^ l.length * E x ≤ E y
  | [], x, y, h, _ => by simp only [Path] at h; rw [h]; simp
  | r :: l, x, y, h, hr => by
    have h1 := path_lower hq h.2 fun t ht => hr t (List.mem_cons_of_mem _ ht)
    have h2 := hr r List.mem_cons_self
    rw [h.1] at h2
    rw [List.length_cons, pow_succ, mul_assoc]
    exact le_trans (mul_le_mul_of_nonneg_left h2 (pow_nonneg hq _)) h1

theorem litR_lr : litR (1 / 1000) = 8589935 / 2 ^ 33 := by
  unfold litR
  rw [show Fmt.binary32.rnd (1 / 1000) = 8589935 / 2 ^ 33 by decide +kernel]
  push_cast; ring

theorem litR_zero : litR 0 = 0 := by
  unfold litR
  rw [show Fmt.binary32.rnd 0 = 0 by decide +kernel]; simp

/-- **C114, Gradient Descent.** With the default options (learning rate `1e-3f`, 51 iterations) a run of Gradient Descent
on a cost with a `K`-Lipschitz gradient, `K ≤ 999`, keeps at least the fraction `(1 - K / 999)^51` of the distance to any
critical point. -/
theorem C114_gd_slow {P : Problem ℝ R W (Vec ℝ n)} {f : Vec ℝ n → ℝ} {G : Vec ℝ n → Vec ℝ n} {k : Nat} {K : ℝ}
    (h : UserGrad P f G k) (hf : Smooth f G K) (hK : K ≤ 999) (m : Vec ℝ n) (hm : G m = 0)
    (s : GNState ℝ R) (hs : P.dims = none ∨ s.n = n) (fuel : Nat) (w : W) (x0 : Vec ℝ n)
    (hx0 : nCost (defaultSolverOpts litR) k (f x0) < maxVal) :
    ∃ st, optimizeAcc (gdEnv (defaultSolverOpts litR) P) (defaultOptions litR) (fuel + 1) (-1) w s x0 = .ok st ∧
      (1 - K / 999) ^ 51 * nrm (x0 - m) ≤ nrm (st.x - m) := by
  have hlr : (defaultSolverOpts litR).lr = 8589935 / 2 ^ 33 := litR_lr
  have hl0 : 0 < (defaultSolverOpts litR).lr := by rw [hlr]; norm_num
  have hl1 : (defaultSolverOpts litR).lr ≤ 1 / 999 := by rw [hlr]; norm_num
  have hKp := hf.pos
  have hKl : K * (defaultSolverOpts litR).lr ≤ K / 999 := by
    have := mul_le_mul_of_nonneg_left hl1 hKp.le
    linarith
  obtain ⟨st, e, hp, hr⟩ := gd_rows h hf (Or.inl rfl) hl0 (by have : K / 999 ≤ 1 := by linarith
                                                              linarith)
    (show (defaultSolverOpts litR).gradClip = 0 from litR_zero) s hs fuel (-1) 51 (o := defaultOptions litR) rfl w x0 hx0
  refine ⟨st, e, ?_⟩
  have hq0 : 0 ≤ 1 - K / 999 := by linarith
  have hq1 : 1 - K / 999 ≤ 1 := by have : 0 ≤ K / 999 := by positivity
                                   linarith
  have h1 := path_lower (E := fun x => nrm (x - m)) hq0 hp fun r hrm => by
    obtain ⟨e1, -, -⟩ := hr r hrm
    have hL := hf.lip r.x m
    rw [hm, sub_zero, ← nrm_sq, ← nrm_sq, ← mul_pow] at hL
    have hL' : nrm (G r.x) ≤ K * nrm (r.x - m) :=
      (sq_le_sq₀ (nrm_nonneg _) (mul_nonneg hKp.le (nrm_nonneg _))).1 hL
    have h3 : nrm (r.x - m) ≤ nrm (r.xNext - m) + (defaultSolverOpts litR).lr * nrm (G r.x) := by
      have e2 : r.x - m = (r.xNext - m) + (defaultSolverOpts litR).lr • G r.x := by rw [e1]; module
      have := nrm_add_le (r.xNext - m) ((defaultSolverOpts litR).lr • G r.x)
      rw [nrm_smul, abs_of_pos hl0, ← e2] at this
      exact this
    have h4 := mul_le_mul_of_nonneg_left hL' hl0.le
    have h5 := mul_le_mul_of_nonneg_right hKl (nrm_nonneg (r.x - m))
    show (1 - K / 999) * nrm (r.x - m) ≤ nrm (r.xNext - m)
    linarith
  have hlen : st.trace.length ≤ 51 := by
    obtain ⟨st0, -, hl, -, ht, -⟩ := run_inv_len (I := fun _ => True) (fun _ _ _ _ _ _ => trivial) trivial e
    rw [ht]
    have : budget (defaultOptions litR : Options ℝ W (DVec ℝ)) (-1) = 51 := rfl
    omega
  have h2 : (1 - K / 999) ^ 51 ≤ (1 - K / 999) ^ st.trace.length := pow_le_pow_of_le_one hq0 hq1 hlen
  exact le_trans (mul_le_mul_of_nonneg_right h2 (nrm_nonneg _)) h1

/-- the squared norm in the plane from any starting point: at least 90 percent of the distance is left -/
example (x0 : Vec ℝ 2) (hx0 : dotR x0 x0 < 2 ^ 1024) (s : GNState ℝ ℝ) (hs : s.n = 2) :
    ∃ st, optimizeAcc (gdEnv (defaultSolverOpts litR) (sqProb 2)) (defaultOptions litR) 1 (-1) () s x0 = .ok st ∧
      9 / 10 * nrm x0 ≤ nrm st.x := by
  obtain ⟨st, e, h⟩ := C114_gd_slow (sqProb_user 2) (sq_smooth 2) (by norm_num) 0 (smul_zero _) s (Or.inr hs) 0 () x0
    (by rw [show nCost (defaultSolverOpts litR) 1 (dotR x0 x0) = dotR x0 x0 by simp [nCost, normalizeCost, defaultSolverOpts]]
        exact hx0)
  refine ⟨st, e, ?_⟩
  simp only [sub_zero] at h
  refine le_trans (mul_le_mul_of_nonneg_right ?_ (nrm_nonneg _)) h
  norm_num

end

/-! ## What is not guaranteed -/

/-- a line that ends at a wall: the cost `100 - x` up to `x = 50.5`, `10^6` behind it -/
def wall : Problem (Fl Fmt.binary64) (Fl Fmt.binary64) Unit (Fl Fmt.binary64) where
  acc := {
    full := fun w x _ g H => (({ cost := wallCost x, num := 1, inlier := ofInt 1 },
      fun i => sub (g i) (ofInt 1), fun i j => add (H i j) (ofInt 1)), w)
    eval := fun w x => ({ cost := wallCost x, num := 1, inlier := ofInt 1 }, w) }
  dims := some 1
  dynDims := fun _ => 1
  plusEq := fun x d => if h : 0 < d.n then add x (d.v ⟨0, h⟩) else x
  clock := fun w => (ofInt 1, w)
  alloc := fun w _ => (none, w)
  ratio1 := ofInt 1
where
  /-- the cost -/
  wallCost (x : Fl Fmt.binary64) : Fl Fmt.binary64 :=
    if lt (div (ofInt 101) (ofInt 2)) x then ofInt (10 ^ 6) else sub (ofInt 100) x

/-- **C114, the last step is not checked.** With the default options Levenberg-Marquardt returns a point of cost `10^6`
and reports a final cost below 51, on a function with cost 100 at the starting point. -/
theorem C114_last_step :
    (optimizeAcc (lmEnv (defaultSolverOpts litD) (eigenLinAlg (ofInt 0) fun _ A => A) wall) (defaultOptions litD) 5 (-1) ()
      (lmFresh (defaultSolverOpts litD) wall (fun _ => ofInt 0) (fun _ _ => ofInt 0)) (ofInt 0)).holds (fun st =>
        eq (wall.wallCost st.x) (ofInt (10 ^ 6)) && lt st.out.finalCost.cost (ofInt 51) &&
          decide (st.out.stop = .kMaxIters)) = true := by
  decide +kernel

/-- from `x = 50` the run fails five times in a row; the count of the failures and the damping are as stated -/
example : ∃ st, optimizeAcc (logEnv (lmEnv (defaultSolverOpts litD) (eigenLinAlg (ofInt 0) fun _ A => A) wall)) (defaultOptions litD) 5 (-1) ()
      (lmFresh (defaultSolverOpts litD) wall (fun _ => ofInt 0) (fun _ _ => ofInt 0), []) (ofInt 50) = .ok st ∧
      st.out.numFailures = 5 ∧ st.s.2.countP Ev.isFailure = 5 := by
  have h : (optimizeAcc (logEnv (lmEnv (defaultSolverOpts litD) (eigenLinAlg (ofInt 0) fun _ A => A) wall)) (defaultOptions litD) 5 (-1) ()
      (lmFresh (defaultSolverOpts litD) wall (fun _ => ofInt 0) (fun _ _ => ofInt 0), []) (ofInt 50)).holds
      (fun st => decide (st.out.numFailures = 5)) = true := by decide +kernel
  obtain ⟨st, e, h1⟩ := Res.exists_of_holds h
  refine ⟨st, e, of_decide_eq_true h1, ?_⟩
  rw [← C114_failures _ e]; exact of_decide_eq_true h1

/-- **C114, gradient-only functions.** A function of the parameters and the gradient, as in the example of the
documentation (API.md:209-220), is refused with the default options: `std::invalid_argument` is thrown and the parameters
are unchanged. -/
theorem C114_gradient_only {X O : Type} (run : Chosen → X → X × Res O) (sig : Signature) (hg : sig.gradOnly = true) (x : X) :
    optimizeTop run defaultSolverType sig x = (x, .throw) := by
  simp [optimizeTop, choose, defaultSolverType, Signature.secondOrderValid, hg]

/-- the example of the documentation: callable with parameters and gradient only -/
example {X O : Type} (run : Chosen → X → X × Res O) (x : X) :
    optimizeTop run defaultSolverType ⟨none, true, false, false⟩ x = (x, .throw) := C114_gradient_only run _ rfl x

end Verif
