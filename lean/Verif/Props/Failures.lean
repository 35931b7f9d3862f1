import Verif.Props.Callbacks
/-!
# C10: classification of failures at the start of a run
-/

set_option linter.unusedSectionVars false

namespace Verif
open FloatOps

section
variable {F R W S X V M : Type} [FloatOps F]
variable {E : Env F R W S X V M} {o : Options F W V}

/-- What the caller sees of a run that failed in its first iteration: the reason, `x` untouched, no
history, one iteration; the clock was read in world `w1` (so `w1` is the world after all user code). -/
structure FailedAtOnce (E : Env F R W S X V M) (x : X) (w1 : W) (r : StopReason)
    (st : LoopSt F R W S X V M) : Prop where
  stop : st.out.stop = r
  x : st.x = x
  errs : st.out.errs = []
  iters : st.out.numIters = 1
  w : st.w = (E.clock w1).2

private theorem first_fail {fuel : Nat} {mi : Int} {w w1 : W} {s s1 : S} {x : X} {out1 : Output F R M}
    (hmi : budget o mi < intMax)
    (hnt : lt (ofInt 0) o.maxDurationMs = false)
    (h : step E o fuel w s x (Output.init E.ratio1) = .ok ((false, none), w1, s1, out1))
    (hstop : out1.stop.code < 0) :
    ∃ st, optimizeAcc E o fuel mi w s x = .ok st ∧ FailedAtOnce E x w1 out1.stop st := by
  have hne : out1.stop ≠ .kNone := by intro h; rw [h] at hstop; exact absurd hstop (by decide)
  have hm : ∃ n : Nat, (budget o mi).toNat = n + 1 := by
    have := (loopBound_spec (loopBound_eq_budget hmi)).2.1
    exact ⟨(budget o mi).toNat - 1, by omega⟩
  obtain ⟨n, hn⟩ := hm
  have hb := body_of_step (last := (n == 0)) (st := initSt E w s x) h
  obtain ⟨st1, hb, -⟩ := hb
  obtain ⟨succ, mdx, w1', s1', out1', ms, hstep, hs⟩ := body_spec' hb
  rw [show step E o fuel (initSt E w s x).w (initSt E w s x).s (initSt E w s x).x (initSt E w s x).out
    = _ from h] at hstep
  injection hstep with hstep
  obtain ⟨⟨rfl, rfl⟩, rfl, rfl, rfl⟩ := hstep
  have hst1 : st1.out.stop = out1.stop := by
    rw [hs.out]; simp only; unfold timeStop; rw [hnt]; rfl
  have herr : st1.out.errs = [] := by
    rcases hs.step.push_code rfl with ⟨_, _, e, _⟩ | ⟨hc, _⟩
    · rw [hs.out]; exact e
    · omega
  have hit : st1.out.numIters = 1 := by
    rw [hs.out]; simp only; rw [hs.step.numIters.1]; rfl
  have hx : st1.x = x := by
    have hu := hs.upd
    revert hu
    generalize st1.x = y
    generalize st1.lastDx = ld
    generalize st1.lastSucc = lsu
    intro hu
    cases hu with
    | roll d _ h => cases h
    | stay => rfl
  have hl : loop E o fuel (budget o mi).toNat (initSt E w s x) = .ok st1 := by
    rw [hn]; unfold loop; rw [hb, Res.bind_ok, if_pos (by rw [hst1]; exact hne)]
  refine ⟨_, by unfold optimizeAcc; rw [loopBound_eq_budget hmi]; simp only; rw [hl, Res.bind_ok], ?_⟩
  refine ⟨?_, hx, herr, hit, ?_⟩
  · simp only [Bool.and_eq_true, decide_eq_true_eq]
    rw [if_neg (by rw [hst1]; exact fun h => hne h.1), hst1]
  · simp only; rw [hs.clock]

/-- **C10 (1).** Parameters without dimension: `kSkipped`, and the user's function is not called (the
only external call of the run is one reading of the clock). -/
theorem C10_no_dims {fuel : Nat} {mi : Int} (hmi : budget o mi < intMax)
    (hnt : lt (ofInt 0) o.maxDurationMs = false) {x : X}
    (hd : (E.dimsDynamic = true ∧ E.dynDims x = 0) ∨ E.dynDims x < 0) (w : W) (s : S) :
    ∃ st, optimizeAcc E o fuel mi w s x = .ok st ∧ FailedAtOnce E x w .kSkipped st := by
  refine first_fail (s1 := s) (out1 := { Output.init E.ratio1 with stop := .kSkipped }) hmi hnt
    ?_ (by simp only; decide)
  have : resizeIfNeeded E w s x = (.inl .kSkipped, w) := by
    unfold resizeIfNeeded
    rcases hd with ⟨h1, h2⟩ | h
    · simp [h1, h2]
    · by_cases h1 : (E.dimsDynamic && E.dynDims x == 0) = true
      · simp only; rw [if_pos h1]
      · simp only; rw [if_neg h1, if_pos h]
  unfold step; rw [this]

/-- **C10 (1b).** A size the solver refuses (`std::invalid_argument`): `kSkipped`, and the user's function is not called. -/
theorem C10_invalid_size {fuel : Nat} {mi : Int} (hmi : budget o mi < intMax)
    (hnt : lt (ofInt 0) o.maxDurationMs = false) {x : X} {w w1 : W} {s : S}
    (hr : E.sol.resize w s (E.dynDims x) = (.invalidArg, w1)) (hw : w1 = w) :
    ∃ st, optimizeAcc E o fuel mi w s x = .ok st ∧ FailedAtOnce E x w .kSkipped st := by
  subst hw
  refine first_fail (s1 := s) (out1 := { Output.init E.ratio1 with stop := .kSkipped }) hmi hnt
    ?_ (by simp only; decide)
  have : resizeIfNeeded E w1 s x = (.inl .kSkipped, w1) := by
    unfold resizeIfNeeded
    simp only
    split
    · rfl
    · split
      · rfl
      · rw [hr]
  unfold step; rw [this]

/-- **C10 (2).** Allocation failure: `kOutOfMemory`, and the user's function is not called. -/
theorem C10_out_of_memory {fuel : Nat} {mi : Int} (hmi : budget o mi < intMax)
    (hnt : lt (ofInt 0) o.maxDurationMs = false) {x : X} (hd : 0 < E.dynDims x) {w w1 : W} {s : S}
    (hr : E.sol.resize w s (E.dynDims x) = (.badAlloc, w1)) :
    ∃ st, optimizeAcc E o fuel mi w s x = .ok st ∧ FailedAtOnce E x w1 .kOutOfMemory st := by
  refine first_fail (s1 := s) (out1 := { Output.init E.ratio1 with stop := .kOutOfMemory }) hmi hnt
    ?_ (by simp only; decide)
  have : resizeIfNeeded E w s x = (.inl .kOutOfMemory, w1) := by
    unfold resizeIfNeeded
    have h0 : (E.dynDims x == 0) = false := by simp; omega
    simp only
    rw [h0, Bool.and_false, if_neg (by decide), if_neg (by omega), hr]
  unfold step; rw [this]

/-- the dimensions are fine and the solver is ready: `w1`, `s1` are the world and the solver at the
first call of `Build` -/
def Ready (E : Env F R W S X V M) (w : W) (s : S) (x : X) (w1 : W) (s1 : S) : Prop :=
  0 < E.dynDims x ∧ E.sol.resize w s (E.dynDims x) = (.done s1, w1)

theorem Ready.resize {w : W} {s : S} {x : X} {w1 s1} (h : Ready E w s x w1 s1) :
    resizeIfNeeded E w s x = (.inr s1, w1) := by
  have h1 := h.1
  unfold resizeIfNeeded
  have h0 : (E.dynDims x == 0) = false := by simp; omega
  simp only
  rw [h0, Bool.and_false, if_neg (by decide), if_neg (by omega), h.2]

/-- **C10 (3).** If the first evaluation reports no residuals (so that the solver's `Build` or `Solve` fails)
the run stops at once with `kSkipped`, whatever the cost value is. -/
theorem C10_no_residuals {fuel : Nat} {mi : Int} (hmi : budget o mi < intMax)
    (hnt : lt (ofInt 0) o.maxDurationMs = false) {x : X} {w w1 w2 : W} {s s1 s2 : S} {b : Bool}
    (hr : Ready E w s x w1 s1) (hb : E.sol.build w1 s1 x = (b, s2, w2))
    (hfail : b = false ∨ E.sol.solve s2 = none) (hnum : (E.sol.cost s2).num = 0) :
    ∃ st, optimizeAcc E o (fuel + 1) mi w s x = .ok st ∧ FailedAtOnce E x w2 .kSkipped st := by
  refine first_fail (s1 := s2) (out1 := { Output.init E.ratio1 with numConsec := 1, numFailures := 1, stop := .kSkipped })
    hmi hnt ?_ (by simp only; decide)
  unfold step
  rw [hr.resize]
  simp only
  have hdx : (if b = true then E.sol.solve s2 else none) = none := by
    rcases hfail with rfl | h
    · rfl
    · cases b <;> simp [h]
  unfold retry
  rw [if_pos (by simp [Output.init]), hb]
  simp only
  rw [hdx]
  simp only
  rw [if_pos hnum]
  rfl

/-- **C10 (4).** If the first evaluation returns residuals with a NaN or infinite cost, the run stops at once
with `kSystemHasNaNOrInf`, whatever the solver says. -/
theorem C10_bad_cost {fuel : Nat} {mi : Int} (hmi : budget o mi < intMax)
    (hnt : lt (ofInt 0) o.maxDurationMs = false) {x : X} {w w1 w2 : W} {s s1 s2 : S} {b : Bool}
    (hr : Ready E w s x w1 s1) (hb : E.sol.build w1 s1 x = (b, s2, w2)) (hnum : (E.sol.cost s2).num ≠ 0)
    (hbad : isNaN (E.sol.cost s2).cost = true ∨ isInf (E.sol.cost s2).cost = true) :
    ∃ st, optimizeAcc E o (fuel + 1) mi w s x = .ok st ∧ FailedAtOnce E x w2 .kSystemHasNaNOrInf st := by
  have hbad' : (isNaN (E.sol.cost s2).cost || isInf (E.sol.cost s2).cost) = true := by simpa using hbad
  cases hdx : (if b = true then E.sol.solve s2 else none) with
  | none =>
    refine first_fail (s1 := s2) (out1 := { Output.init E.ratio1 with numConsec := 1, numFailures := 1, stop := .kSystemHasNaNOrInf }) hmi hnt ?_ (by simp only; decide)
    unfold step
    rw [hr.resize]
    simp only
    unfold retry
    rw [if_pos (by simp [Output.init]), hb]
    simp only
    rw [hdx]
    simp only
    rw [if_neg hnum, if_pos hbad']
    rfl
  | some dx =>
    refine first_fail (s1 := s2) (out1 := { Output.init E.ratio1 with stop := .kSystemHasNaNOrInf }) hmi hnt ?_ (by simp only; decide)
    unfold step
    rw [hr.resize]
    simp only
    unfold retry
    rw [if_pos (by simp [Output.init]), hb]
    simp only
    rw [hdx]
    simp only
    unfold afterSolve
    simp only [Res.bind_ok]
    rw [if_pos hbad']

/-- **C10 (4b).** If the first cost is finite and the solver gives a step whose squared length is NaN or infinite, the run stops at once
with `kSystemHasNaNOrInf`: the step is not applied. -/
theorem C10_bad_step {fuel : Nat} {mi : Int} (hmi : budget o mi < intMax)
    (hnt : lt (ofInt 0) o.maxDurationMs = false) {x : X} {w w1 w2 : W} {s s1 s2 : S} {dx : V}
    (hr : Ready E w s x w1 s1) (hb : E.sol.build w1 s1 x = (true, s2, w2)) (hdx : E.sol.solve s2 = some dx)
    (hfin : finite (E.sol.cost s2).cost = true) (hbad : finite (E.normSq dx) = false) :
    ∃ st, optimizeAcc E o (fuel + 1) mi w s x = .ok st ∧ FailedAtOnce E x w2 .kSystemHasNaNOrInf st := by
  have hbad' : (isNaN (E.normSq dx) || isInf (E.normSq dx)) = true := by
    unfold finite at hbad; revert hbad; cases isNaN (E.normSq dx) <;> cases isInf (E.normSq dx) <;> simp
  have hfin' : (isNaN (E.sol.cost s2).cost || isInf (E.sol.cost s2).cost) = false := by
    unfold finite at hfin; revert hfin; cases isNaN (E.sol.cost s2).cost <;> cases isInf (E.sol.cost s2).cost <;> simp
  refine first_fail (s1 := s2) (out1 := { Output.init E.ratio1 with stop := .kSystemHasNaNOrInf }) hmi hnt ?_ (by simp only; decide)
  unfold step
  rw [hr.resize]
  simp only
  unfold retry
  rw [if_pos (by simp [Output.init]), hb]
  simp only [if_true]
  rw [hdx]
  simp only
  unfold afterSolve
  simp only [Res.bind_ok]
  rw [if_neg (by rw [hfin']; decide), if_pos hbad']

/-- `n` attempts in a row to build and solve the system at `x` fail although the cost is valid; `w'` is the
world after them -/
inductive FailsInARow (E : Env F R W S X V M) (x : X) : Nat → W → S → W → Prop
  | one (w s b s1 w1) (hb : E.sol.build w s x = (b, s1, w1)) (hf : b = false ∨ E.sol.solve s1 = none)
      (hn : (E.sol.cost s1).num ≠ 0) (hc : finite (E.sol.cost s1).cost = true) : FailsInARow E x 1 w s w1
  | more (n w s b s1 w1 s2 w') (hb : E.sol.build w s x = (b, s1, w1)) (hf : b = false ∨ E.sol.solve s1 = none)
      (hn : (E.sol.cost s1).num ≠ 0) (hc : finite (E.sol.cost s1).cost = true)
      (hs2 : E.sol.failedStep s1 = .ok s2) (h : FailsInARow E x n w1 s2 w') : FailsInARow E x (n + 1) w s w'

theorem not_nan_of_finite {a : F} (h : finite a = true) : (isNaN a || isInf a) = false := by
  unfold finite at h; revert h; cases isNaN a <;> cases isInf a <;> simp

private theorem retry_fails (hmc : 0 < o.maxConsecFailures) (hmc8 : o.maxConsecFailures < 256) {x : X} {n : Nat}
    {w w' : W} {s : S} (h : FailsInARow E x n w s w') : ∀ {fuel : Nat} {out : Output F R M}, n ≤ fuel →
      out.numConsec + n = o.maxConsecFailures → out.finalCost.cost = maxVal → lt (maxVal : F) scalarMax = false →
      ∃ s' out', retry E o x fuel w s out = .ok (.failed, w', s', out') ∧ out'.errs = out.errs := by
  induction h with
  | one w s b s1 w1 hb hf hn hc =>
    intro fuel out hfu hcnt hfc hirr
    cases fuel with
    | zero => omega
    | succ fuel =>
      have hdx : (if b = true then E.sol.solve s1 else none) = none := by
        rcases hf with rfl | h
        · rfl
        · cases b <;> simp [h]
      unfold retry
      rw [if_pos (by unfold maxTries; rw [if_pos hmc]; omega), hb]
      simp only
      rw [hdx]
      simp only
      rw [if_neg hn, not_nan_of_finite hc, if_neg (by decide), if_pos, hfc, hirr]
      · exact ⟨_, _, rfl, rfl⟩
      · simp only [Bool.and_eq_true, decide_eq_true_eq]
        refine ⟨hmc, ?_⟩
        unfold inc8; omega
  | more n w s b s1 w1 s2 w' hb hf hn hc hs2 h ih =>
    intro fuel out hfu hcnt hfc hirr
    have hn0 : 0 < n := by cases h <;> omega
    cases fuel with
    | zero => omega
    | succ fuel =>
      have hdx : (if b = true then E.sol.solve s1 else none) = none := by
        rcases hf with rfl | h
        · rfl
        · cases b <;> simp [h]
      unfold retry
      rw [if_pos (by unfold maxTries; rw [if_pos hmc]; omega), hb]
      simp only
      rw [hdx]
      simp only
      rw [if_neg hn, not_nan_of_finite hc, if_neg (by decide), if_neg, hs2, Res.bind_ok]
      · refine ih (by omega) ?_ hfc hirr
        simp only
        unfold inc8; omega
      · simp only [Bool.and_eq_true, decide_eq_true_eq, not_and]
        intro _
        unfold inc8; omega

/-- `C10_solver_failed` below with the only law of comparison that is needed -/
theorem solver_failed_run (hirr : lt (maxVal : F) scalarMax = false) {fuel : Nat} {mi : Int} (hmi : budget o mi < intMax)
    (hnt : lt (ofInt 0) o.maxDurationMs = false) (hmc : 0 < o.maxConsecFailures)
    (hmc8 : o.maxConsecFailures < 256) (hfu : o.maxConsecFailures ≤ fuel) {x : X} {w w1 w2 : W} {s s1 : S}
    (hr : Ready E w s x w1 s1) (hf : FailsInARow E x o.maxConsecFailures w1 s1 w2) :
    ∃ st, optimizeAcc E o fuel mi w s x = .ok st ∧ FailedAtOnce E x w2 .kSolverFailed st := by
  obtain ⟨s2, out2, hret, _⟩ := retry_fails hmc hmc8 hf (fuel := fuel) (out := Output.init E.ratio1) hfu
    (by simp [Output.init]) rfl hirr
  refine first_fail (s1 := s2) (out1 := { out2 with stop := .kSolverFailed }) hmi hnt ?_
    (by simp only; decide)
  unfold step
  rw [hr.resize]
  simp only
  rw [hret, Res.bind_ok]

/-- **C10 (5).** If at the start point the linear solve fails `max_consec_failures` times in a row (with a
valid cost) the run stops with `kSolverFailed` after exactly these attempts. -/
theorem C10_solver_failed [FloatLaws F] {fuel : Nat} {mi : Int} (hmi : budget o mi < intMax)
    (hnt : lt (ofInt 0) o.maxDurationMs = false) (hmc : 0 < o.maxConsecFailures)
    (hmc8 : o.maxConsecFailures < 256) (hfu : o.maxConsecFailures ≤ fuel) {x : X} {w w1 w2 : W} {s s1 : S}
    (hr : Ready E w s x w1 s1) (hf : FailsInARow E x o.maxConsecFailures w1 s1 w2) :
    ∃ st, optimizeAcc E o fuel mi w s x = .ok st ∧ FailedAtOnce E x w2 .kSolverFailed st :=
  solver_failed_run not_lt_scalarMax hmi hnt hmc hmc8 hfu hr hf

/-- The hypotheses of `C10_solver_failed` are met by `stuckEnv` with a limit of 2. -/
example : Ready stuckEnv 0 toyS0 7 0 toyS0 ∧ FailsInARow stuckEnv 7 2 0 toyS0 2 := by
  refine ⟨⟨Int.zero_lt_one, rfl⟩, .more 1 0 toyS0 true _ 1 _ 2 rfl (Or.inr rfl) (by decide +kernel) (by decide +kernel) rfl
    (.one 1 _ true _ 2 rfl (Or.inr rfl) (by decide +kernel) (by decide +kernel))⟩

/-- concrete failing runs: no residuals, NaN, failing solver -/
example : (∃ st, optimizeAcc (toyEnv (fun _ => ofInt 1) (fun _ => 0) (fun _ => none)) toyOpts 3 (-1) 0 toyS0 7 = .ok st ∧
      (st.out.stop == .kSkipped && st.x == 7) = true) ∧
    (∃ st, optimizeAcc (toyEnv (fun _ => .nan) (fun _ => 1) (fun _ => some 1)) toyOpts 3 (-1) 0 toyS0 7 = .ok st ∧
      (st.out.stop == .kSystemHasNaNOrInf && st.x == 7) = true) ∧
    (∃ st, optimizeAcc stuckEnv { toyOpts with maxConsecFailures := 2 } 3 (-1) 0 toyS0 7 = .ok st ∧
      (st.out.stop == .kSolverFailed && st.x == 7 && st.w == 2) = true) :=
  ⟨Res.exists_of_holds (by decide +kernel), Res.exists_of_holds (by decide +kernel),
    Res.exists_of_holds (by decide +kernel)⟩

end
end Verif
