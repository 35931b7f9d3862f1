import Verif.Lemmas.CallLog
import Verif.Lemmas.RunInv
import Verif.Props.Control
/-!
# C13, C55, C56: the calls to the solver and the failure counters

The statements are about the run of `logEnv E`, whose solver state carries the list of the calls made;
`C55_log_faithful` shows that it is the run of `E`.
-/

set_option linter.unusedSectionVars false

namespace Verif
open FloatOps

section
variable {F R W S X V M : Type} [FloatOps F]
variable {E : Env F R W S X V M} {o : Options F W V}

/-! ## Specification -/

/-- The relative decrease `(best - e) / best`; 0 if there is no usable best cost. -/
def relativeDecrease (best e : F) : F :=
  if lt eps best = true ∧ lt best scalarMax = true then div (sub best e) best else ofInt 0

/-- The judgements due for a history of costs and success flags after an accepted cost `best`: one
`GoodStep` per improvement, with its relative decrease as quality if `use_step_quality`, one
`BadStep` per step without improvement. -/
def judgements (useQuality : Bool) (best : F) : List (F × Bool) → List (Ev F)
  | [] => []
  | (e, true) :: r => .good (if useQuality then relativeDecrease best e else ofInt 0) :: judgements useQuality e r
  | (_, false) :: r => .bad :: judgements useQuality best r

/-- The judgements due for a whole run: the first evaluation is not judged. -/
def allJudgements (useQuality : Bool) : List (F × Bool) → List (Ev F)
  | [] => []
  | (e, _) :: r => judgements useQuality e r

/-- The calls of one iteration; `first` and `last` tell whether it is the first or last one. -/
inductive IterCalls (first last : Prop) : List (Ev F) → Prop
  /-- no usable dimension or no memory -/
  | skipped (b : Bool) (h : last) : IterCalls first last [.rebuild b]
  /-- the last attempt failed: no call of a hook for it -/
  | gaveUp (n : Int) (k : Nat) (b : Bool) (h : last) :
      IterCalls first last ([.resize n] ++ failedTries F k ++ [.attempt false, .rebuild b])
  /-- the first evaluation, or NaN/Inf in cost or step -/
  | unjudged (n : Int) (k : Nat) (b : Bool) (h : first ∨ last) :
      IterCalls first last ([.resize n] ++ failedTries F k ++ [.attempt true, .rebuild b])
  /-- an improvement -/
  | good (n : Int) (k : Nat) (q : F) (b : Bool) (h : ¬ first) :
      IterCalls first last ([.resize n] ++ failedTries F k ++ [.attempt true, .good q, .rebuild b])
  /-- no improvement -/
  | bad (n : Int) (k : Nat) (b : Bool) (h : ¬ first) :
      IterCalls first last ([.resize n] ++ failedTries F k ++ [.attempt true, .bad, .rebuild b])

/-- the arguments of the calls of `Rebuild` -/
def rebuildArgs : List (Ev F) → List Bool
  | [] => []
  | .rebuild b :: r => b :: rebuildArgs r
  | _ :: r => rebuildArgs r

/-- The arguments of `Rebuild` due for the success flags of the iterations, the first of them being
iteration `i` (of at most `n`) after an iteration with success flag `prev`: derivatives are needed after a
success, except for the final cost check, and after the first failure in a row (roll back), not after the following ones. -/
def dueRebuilds (checkFinalCost : Bool) (n : Int) : Nat → Bool → List Bool → List Bool
  | _, _, [] => []
  | i, prev, succ :: r =>
    (if succ then !(checkFinalCost && decide ((i : Int) + 1 = n)) else prev) ::
      dueRebuilds checkFinalCost n (i + 1) succ r

/-- The number of failures since the last accepted step, the first evaluation being accepted. -/
def failuresSince : List (Ev F) → Bool × Nat → Bool × Nat
  | [], a => a
  | .attempt true :: r, (seen, n) => failuresSince r (true, if seen then n else 0)
  | .attempt false :: r, (seen, n) => failuresSince r (seen, n + 1)
  | .bad :: r, (seen, n) => failuresSince r (seen, n + 1)
  | .good _ :: r, (seen, _) => failuresSince r (seen, 0)
  | .failed :: r, a => failuresSince r a
  | .resize _ :: r, a => failuresSince r a
  | .rebuild _ :: r, a => failuresSince r a

/-! ## Lemmas -/

theorem failuresSince_append (l1 l2 : List (Ev F)) : ∀ a, failuresSince (l1 ++ l2) a = failuresSince l2 (failuresSince l1 a) := by
  induction l1 with
  | nil => intro a; rfl
  | cons e l ih =>
    rintro ⟨b, n⟩
    cases e with
    | attempt ok => cases ok <;> exact ih _
    | _ => exact ih _

theorem failuresSince_tries (k : Nat) : ∀ b n, failuresSince (failedTries F k) (b, n) = (b, n + k) := by
  induction k with
  | zero => intro b n; rfl
  | succ k ih =>
    intro b n
    rw [failedTries_succ, failuresSince_append]
    show failuresSince (failedTries F k) (b, n + 1) = _
    rw [ih]; congr 1; omega

theorem countP_tries (k : Nat) : (failedTries F k).countP Ev.isFailure = k := by
  induction k with
  | zero => rfl
  | succ k ih => rw [failedTries_succ, List.countP_append, ih]; simp [Ev.isFailure, List.countP_cons]; omega

theorem filter_tries (k : Nat) : (failedTries F k).filter Ev.isJudge = [] := by
  induction k with
  | zero => rfl
  | succ k ih => rw [failedTries_succ, List.filter_append, ih]; rfl

theorem rebuildArgs_append (l1 l2 : List (Ev F)) : rebuildArgs (l1 ++ l2) = rebuildArgs l1 ++ rebuildArgs l2 := by
  induction l1 with
  | nil => rfl
  | cons e l ih => cases e <;> simp [rebuildArgs, ih]

theorem rebuildArgs_tries (k : Nat) : rebuildArgs (failedTries F k) = [] := by
  induction k with
  | zero => rfl
  | succ k ih => rw [failedTries_succ, rebuildArgs_append, ih]; rfl

/-- the last accepted cost -/
def lastAccepted (best : F) : List (F × Bool) → F
  | [] => best
  | (e, true) :: r => lastAccepted e r
  | (_, false) :: r => lastAccepted best r

theorem judgements_snoc (u : Bool) (e : F) (g : Bool) (r : List (F × Bool)) : ∀ best,
    judgements u best (r ++ [(e, g)]) = judgements u best r ++
      [if g then .good (if u then relativeDecrease (lastAccepted best r) e else ofInt 0) else .bad] ∧
    lastAccepted best (r ++ [(e, g)]) = if g then e else lastAccepted best r := by
  induction r with
  | nil => intro best; cases g <;> exact ⟨rfl, rfl⟩
  | cons a r ih =>
    intro best
    obtain ⟨e1, g1⟩ := a
    cases g1 <;> simp [judgements, lastAccepted, ih]

theorem dueRebuilds_snoc (c : Bool) (n : Int) (b : Bool) (l : List Bool) : ∀ i prev,
    dueRebuilds c n i prev (l ++ [b]) = dueRebuilds c n i prev l ++
      [if b then !(c && decide (((i + l.length : Nat) : Int) + 1 = n)) else l.getLast?.getD prev] := by
  induction l with
  | nil => intro i prev; simp [dueRebuilds]
  | cons a l ih =>
    intro i prev
    simp only [List.cons_append, dueRebuilds, ih, List.length_cons]
    congr 3
    rw [Nat.add_assoc, Nat.add_comm 1]
    congr 1
    cases l with
    | nil => rfl
    | cons b l => rw [List.getLast?_cons_cons]; simp [List.getLast?_eq_some_getLast]

theorem relDerr_eq_spec (best e : F) : relDerr best e = relativeDecrease best e := by
  unfold relDerr relativeDecrease
  simp only [Bool.and_eq_true]

/-- Induction over the iterations with access to the iteration number. -/
theorem loop_inv_len {I : LoopSt F R W S X V M → Prop} {fuel m : Nat}
    (hI : ∀ st st', st.out.stop = .kNone → st.trace.length < m → I st →
      body E o fuel (st.trace.length + 1 == m) st = .ok st' → I st') :
    ∀ {n : Nat} {st st' : LoopSt F R W S X V M}, st.out.stop = .kNone → st.trace.length + n = m → I st →
      loop E o fuel n st = .ok st' → I st' := by
  intro n
  induction n with
  | zero =>
    intro st st' h0 hn h1 h
    simp only [loop] at h
    injection h with h; subst h
    exact h1
  | succ n ih =>
    intro st st' h0 hn h1 h
    unfold loop at h
    rw [Res.bind_eq_ok] at h
    obtain ⟨st1, hb, h⟩ := h
    have hl : (n == 0) = (st.trace.length + 1 == m) := by
      rw [Bool.eq_iff_iff, beq_iff_eq, beq_iff_eq]; omega
    rw [hl] at hb
    have h2 := hI _ _ h0 (by omega) h1 hb
    obtain ⟨_, _, _, _, _, _, hs⟩ := body_spec hb
    have hlen : st1.trace.length = st.trace.length + 1 := by rw [hs.trace]; simp
    split at h
    · injection h with h; subst h; exact h2
    next hne =>
      refine ih ?_ (by omega) h2 h
      by_cases h : st1.out.stop = .kNone
      · exact h
      · exact absurd h hne

/-- induction over a whole run, with the iteration number -/
theorem run_inv_len {I : LoopSt F R W S X V M → Prop} {fuel : Nat} {mi : Int}
    (hI : ∀ st st', st.out.stop = .kNone → (st.trace.length : Int) < budget o mi → I st →
      body E o fuel (decide ((st.trace.length : Int) + 1 = budget o mi)) st = .ok st' → I st')
    {w : W} {s : S} {x : X} {st : LoopSt F R W S X V M} (h0 : I (initSt E w s x))
    (h : optimizeAcc E o fuel mi w s x = .ok st) :
    ∃ st0, I st0 ∧ (st0.trace.length : Int) ≤ budget o mi ∧ st.s = st0.s ∧ st.trace = st0.trace ∧
      (st.out.stop = .kNone → st0.out.stop = .kNone) ∧
      st.out.errs = st0.out.errs ∧ st.out.successes = st0.out.successes ∧
      st.out.numConsec = st0.out.numConsec ∧ st.out.numFailures = st0.out.numFailures := by
  obtain ⟨m, st0, hm, hl, hst⟩ := optimizeAcc_spec h
  have hlen := loop_length (st := initSt E w s x) rfl hl
  have hb := loopBound_spec hm
  obtain rfl := budget_of_loopBound hm
  refine ⟨st0, ?_, ?_, ?_⟩
  · refine loop_inv_len (m := (budget o mi).toNat) ?_ rfl (by simp [initSt]) h0 hl
    intro st st' h1 h2 h3 h4
    refine hI st st' h1 (by omega) h3 ?_
    rw [← h4]; congr 1
    rw [Bool.eq_iff_iff, decide_eq_true_eq, beq_iff_eq]; omega
  · have := hlen.1; simp only [initSt, List.length_nil] at this; omega
  · rw [hst]
    refine ⟨rfl, rfl, ?_, rfl, rfl, rfl, rfl⟩
    intro hk
    simp only at hk
    split at hk
    · cases hk
    · exact hk

/-- The calls of one iteration. -/
theorem body_log {fuel : Nat} {last : Bool} {st st' : LoopSt F R W (S × List (Ev F)) X V M} {c d : Nat}
    (hc : st.out.numConsec = c % 256) (hd : st.out.numFailures = d % 256)
    (h : body (logEnv E) o fuel last st = .ok st') :
    ∃ succ l1 out1 dx x', StepLog o st.out c d succ l1 out1 ∧
      st'.s.2 = st.s.2 ++ (l1 ++ [.rebuild (if succ then !(o.checkFinalCost && last) else st.lastSucc)]) ∧
      st'.lastSucc = succ ∧ st'.trace = st.trace ++ [⟨st.x, succ, dx, out1, x'⟩] ∧
      (st'.out.stop = .kNone → out1.stop = .kNone ∧ ConsecOk o st'.out) ∧
      st'.out.errs = out1.errs ∧ st'.out.successes = out1.successes ∧ st'.out.finalCost = out1.finalCost ∧
      st'.out.numConsec = out1.numConsec ∧ st'.out.numFailures = out1.numFailures := by
  obtain ⟨succ, mdx, w1, s1, out1, ms, hstep, hs, hre, hls⟩ := body_flag h
  rcases hss : st.s with ⟨s, l⟩
  rw [hss] at hstep
  obtain ⟨t1, l1⟩ := s1
  obtain ⟨l2, rfl, hsl⟩ := step_log hc hd hstep
  refine ⟨succ, l2, out1, mdx, _, hsl, ?_, hls, hs.trace, ?_, ?_⟩
  · rw [hre]; simp [logEnv, logSolver]
  · intro hn
    have hn1 : out1.stop = .kNone := by rw [hs.out] at hn; exact timeStop_none hn
    refine ⟨hn1, ?_⟩
    have := ConsecOk.step hs.step hn1
    unfold ConsecOk at this ⊢
    rw [hs.out]; exact this
  · rw [hs.out]; exact ⟨rfl, rfl, rfl, rfl, rfl⟩

/-! ## C13 -/

/-- **C13, partial (3).** `num_failures` counts, modulo 256, the failed linear solves and the rejected
steps of the whole run (for every run). Missing: the modulus, see `C13_count_wraps`, and the stop, see
`C13_limit_missed`. -/
theorem C13_counts_failures_partial {fuel : Nat} {mi : Int} {w : W} {s : S} {x : X}
    {st : LoopSt F R W (S × List (Ev F)) X V M}
    (h : optimizeAcc (logEnv E) o fuel mi w (s, []) x = .ok st) :
    st.out.numFailures = st.s.2.countP Ev.isFailure % 256 := by
  obtain ⟨st0, hI, -, hs, -, -, -, -, hc, hf⟩ := run_inv_len
    (I := fun st => st.out.numConsec = st.out.numConsec % 256 ∧
      st.out.numFailures = st.s.2.countP Ev.isFailure % 256)
    (fun st st' h0 _ hI hb => by
      obtain ⟨succ, l1, out1, dx, x', hsl, hl, -, -, -, -, -, -, e1, e2⟩ := body_log hI.1 hI.2 hb
      rw [hl, e1, e2]
      generalize (if succ then _ else _ : Bool) = bb
      have hreb : ∀ l : List (Ev F), (l ++ [Ev.rebuild bb]).countP Ev.isFailure = l.countP Ev.isFailure := by
        intro l; simp [List.countP_append, Ev.isFailure]
      rw [List.countP_append, hreb]
      cases hsl with
      | fail l a out' he hs hstop hl h1 h2 =>
        rw [h1, h2]
        refine ⟨by omega, ?_⟩
        have : l1.countP Ev.isFailure = a := by
          rcases hl with ⟨rfl, rfl⟩ | ⟨n, rfl, rfl, -⟩ | ⟨n, k, rfl, rfl⟩ | ⟨n, k, rfl, rfl⟩ <;>
            simp [List.countP_append, List.countP_cons, countP_tries, Ev.isFailure]
        rw [this]
      | good n k g e out' hg he hs hf h1 h2 =>
        rw [h1, h2]
        refine ⟨by omega, ?_⟩
        split <;> simp [List.countP_append, List.countP_cons, countP_tries, Ev.isFailure]
      | bad n k e out' hi he hs hf h1 h2 =>
        rw [h1, h2]
        refine ⟨by omega, ?_⟩
        simp [List.countP_append, List.countP_cons, countP_tries, Ev.isFailure, Nat.add_assoc])
    (by exact ⟨rfl, rfl⟩) h
  rw [hs, hf]; exact hI.2

/-! ## C56 -/

/-- **C56.** Unless the run failed in its first iteration, `num_consec_failures` is (modulo 256) the
number of failed linear solves and rejected steps since the last accepted step. -/
theorem C56_consecutive_failures {fuel : Nat} {mi : Int} (hmi : budget o mi ≤ 65536) {w : W} {s : S} {x : X}
    {st : LoopSt F R W (S × List (Ev F)) X V M}
    (h : optimizeAcc (logEnv E) o fuel mi w (s, []) x = .ok st) (hne : st.out.errs ≠ []) :
    st.out.numConsec = (failuresSince st.s.2 (false, 0)).2 % 256 := by
  obtain ⟨st0, hI, hle, hs, htr, -, he, -, hc, hf⟩ := run_inv_len
    (I := fun st => (st.out.stop = .kNone → st.out.numIters = st.trace.length % 65536 ∧
        (failuresSince st.s.2 (false, 0)).1 = decide (st.trace ≠ [])) ∧
      st.out.numFailures = st.out.numFailures % 256 ∧ (st.trace = [] → st.out.errs = [] ∧ st.out.numConsec = 0) ∧
      ((st.out.errs ≠ [] ∨ st.trace = []) → st.out.numConsec = (failuresSince st.s.2 (false, 0)).2 % 256) ∧
      (st.out.stop = .kNone → st.trace ≠ [] → st.out.errs ≠ []))
    (fun st st' h0 hlt hI hb => by
      obtain ⟨i1, i2, i3, i4, i5⟩ := hI
      obtain ⟨i1a, i1b⟩ := i1 h0
      have hni : st.out.numIters = 0 ↔ st.trace = [] := by
        rw [i1a, ← List.length_eq_zero_iff]
        constructor
        · intro h; omega
        · intro h; rw [h]
      have hcons : st.out.numConsec = (failuresSince st.s.2 (false, 0)).2 % 256 := by
        by_cases h : st.trace = []
        · exact i4 (Or.inr h)
        · exact i4 (Or.inl (i5 h0 h))
      have hn' := numIters_inv hb i1a
      obtain ⟨succ, l1, out1, dx, x', hsl, hl, -, htr, hst, e3, e4, -, e1, e2⟩ := body_log hcons i2 hb
      have hne : st'.trace ≠ [] := by rw [htr]; simp
      rw [hl, e1, e2, failuresSince_append, failuresSince_append]
      generalize (if succ then _ else _ : Bool) = bb
      have hreb : ∀ a, failuresSince ([Ev.rebuild bb] : List (Ev F)) a = a := fun _ => rfl
      rw [hreb, e3]
      generalize hfs : failuresSince st.s.2 (false, 0) = a at *
      obtain ⟨seen, c⟩ := a
      simp only at i1b
      have hres : ∀ n b n', failuresSince ([Ev.resize n] : List (Ev F)) (b, n') = (b, n') := fun _ _ _ => rfl
      cases hsl with
      | fail l a out' he hs hstop hl h1 h2 =>
        have hk : st'.out.stop ≠ .kNone := by
          intro hk; rw [(hst hk).1] at hstop; exact absurd hstop (by decide)
        refine ⟨fun h => absurd h hk, by rw [h2]; omega, fun h => absurd h hne, ?_, fun h => absurd h hk⟩
        rintro (h | h)
        · rw [he] at h
          have hst1 : st.trace ≠ [] := fun hh => h (i3 hh).1
          have hseen : seen = true := by rw [i1b]; simp [hst1]
          subst hseen
          rw [h1]
          rcases hl with ⟨rfl, rfl⟩ | ⟨n, rfl, rfl, -⟩ | ⟨n, k, rfl, rfl⟩ | ⟨n, k, rfl, rfl⟩
          · rfl
          · rfl
          · simp only [failuresSince_append, hres, failuresSince_tries]; rfl
          · simp only [failuresSince_append, hres, failuresSince_tries]; rfl
        · exact absurd h hne
      | good n k g e out' hg he hs hf h1 h2 =>
        have hval : failuresSince ([Ev.resize n] ++ failedTries F k ++ [Ev.attempt true] ++
            if st.out.numIters = 0 then [] else
              [Ev.good (if o.useStepQuality = true then relDerr st.out.finalCost.cost e else ofInt 0)]) (seen, c)
            = (true, 0) := by
          simp only [failuresSince_append, hres, failuresSince_tries]
          split
          next h0 =>
            have : seen = false := by rw [i1b]; simp [hni.1 h0]
            subst this; rfl
          · rfl
        rw [hval, h1, he]
        exact ⟨fun _ => ⟨hn', by simp [hne]⟩, by rw [h2]; omega, fun h => absurd h hne, fun _ => rfl, fun _ _ => by simp⟩
      | bad n k e out' hi he hs hf h1 h2 =>
        have hst1 : st.trace ≠ [] := fun hh => hi (hni.2 hh)
        have hseen : seen = true := by rw [i1b]; simp [hst1]
        subst hseen
        have hval : failuresSince ([Ev.resize n] ++ failedTries F k ++ [Ev.attempt true] ++ [Ev.bad]) (true, c)
            = (true, c + k + 1) := by
          simp only [failuresSince_append, hres, failuresSince_tries]; rfl
        rw [hval, h1, he]
        exact ⟨fun _ => ⟨hn', by simp [hne]⟩, by rw [h2]; omega, fun h => absurd h hne, fun _ => rfl, fun _ _ => by simp⟩)
    (by exact ⟨fun _ => ⟨rfl, rfl⟩, rfl, fun _ => ⟨rfl, rfl⟩, fun _ => rfl, fun _ h => absurd rfl h⟩) h
  rw [hs, hc]
  exact hI.2.2.2.1 (Or.inl (by rwa [he] at hne))

/-! ## C55 -/

/-- **C55 (0).** The log is faithful: the logged run has the same results as the run itself. -/
theorem C55_log_faithful {fuel : Nat} {mi : Int} {w : W} {s : S} {x : X} {st : LoopSt F R W S X V M}
    (h : optimizeAcc E o fuel mi w s x = .ok st) :
    ∃ lst, optimizeAcc (logEnv E) o fuel mi w (s, []) x = .ok lst ∧ st.w = lst.w ∧ st.x = lst.x ∧
      st.trace = lst.trace ∧ st.out.errs = lst.out.errs ∧ st.out.successes = lst.out.successes ∧
      st.out.numConsec = lst.out.numConsec ∧ st.out.numFailures = lst.out.numFailures ∧
      st.out.stop = lst.out.stop := by
  obtain ⟨lst, h1, h2, h3, h4, -, -, h5⟩ := logged_run h
  refine ⟨lst, h1, h2, h3, h5, ?_, ?_, ?_, ?_, ?_⟩
  · have := congrArg Output.errs h4; exact this
  · have := congrArg Output.successes h4; exact this
  · have := congrArg Output.numConsec h4; exact this
  · have := congrArg Output.numFailures h4; exact this
  · have := congrArg Output.stop h4; exact this

/-- **C55 (1).** The solver is told about every step after the first evaluation: the calls of `GoodStep`
and `BadStep` of a run are exactly those due for the reported costs and success flags. -/
theorem C55_judgements {fuel : Nat} {mi : Int} (hmi : budget o mi ≤ 65536) {w : W} {s : S} {x : X}
    {st : LoopSt F R W (S × List (Ev F)) X V M}
    (h : optimizeAcc (logEnv E) o fuel mi w (s, []) x = .ok st) :
    st.s.2.filter Ev.isJudge = allJudgements o.useStepQuality (st.out.errs.zip st.out.successes) := by
  obtain ⟨st0, hI, hle, hs, htr, -, he, hsu, -, -⟩ := run_inv_len
    (I := fun st => st.out.numConsec = st.out.numConsec % 256 ∧ st.out.numFailures = st.out.numFailures % 256 ∧
      st.out.errs.length = st.out.successes.length ∧
      (st.out.stop = .kNone → st.out.numIters = st.trace.length % 65536 ∧ st.out.errs.length = st.trace.length) ∧
      st.s.2.filter Ev.isJudge = allJudgements o.useStepQuality (st.out.errs.zip st.out.successes) ∧
      (st.out.stop = .kNone → ∀ e b r, st.out.errs.zip st.out.successes = (e, b) :: r →
        st.out.finalCost.cost = lastAccepted e r))
    (fun st st' h0 hlt hI hb => by
      have h0' := h0
      obtain ⟨i1, i2, i3, i4, i5, i6⟩ := hI
      obtain ⟨i4a, i4b⟩ := i4 h0
      have hn' := numIters_inv hb i4a
      obtain ⟨succ, l1, out1, dx, x', hsl, hl, -, htr, hst, e3, e4, e5, e1, e2⟩ := body_log i1 i2 hb
      have hlen : st'.trace.length = st.trace.length + 1 := by rw [htr]; simp
      rw [hl, e1, e2, e3, e4, e5, List.filter_append, List.filter_append, i5, hlen]
      generalize (if succ then _ else _ : Bool) = bb
      rw [show ([Ev.rebuild bb] : List (Ev F)).filter Ev.isJudge = [] from rfl, List.append_nil]
      have hni : st.out.numIters = 0 ↔ st.out.errs = [] := by
        rw [i4a, ← List.length_eq_zero_iff, i4b]
        constructor
        · intro h; omega
        · intro h; rw [h]
      rw [hlen] at hn'
      cases hsl with
      | fail l a out' he hs hstop hl h1 h2 =>
        have hk : st'.out.stop ≠ .kNone := by
          intro hk; rw [(hst hk).1] at hstop; exact absurd hstop (by decide)
        have hfil : l1.filter Ev.isJudge = [] := by
          rcases hl with ⟨rfl, rfl⟩ | ⟨n, rfl, rfl, -⟩ | ⟨n, k, rfl, rfl⟩ | ⟨n, k, rfl, rfl⟩
          · rfl
          · rfl
          · rw [List.filter_append, List.filter_append, filter_tries]; rfl
          · rw [List.filter_append, List.filter_append, filter_tries]; rfl
        rw [h1, h2, he, hs, hfil, List.append_nil]
        exact ⟨by omega, by omega, i3, fun h => absurd h hk, rfl, fun h => absurd h hk⟩
      | good n k g e out' hg he hs hf h1 h2 =>
        rw [h1, h2, he, hs, hf, List.zip_append i3]
        refine ⟨rfl, by omega, by simp [i3], fun _ => ⟨hn', by simp [i4b]⟩, ?_, ?_⟩
        · rw [List.filter_append, List.filter_append, List.filter_append, filter_tries]
          by_cases h0 : st.out.errs = []
          · have h1 : st.out.successes = [] := List.length_eq_zero_iff.1 (by rw [← i3, h0]; rfl)
            rw [if_pos (hni.2 h0), h0, h1]; rfl
          · rw [if_neg (fun h => h0 (hni.1 h))]
            have hgt : succ = true := hg.resolve_right (fun h => h0 (hni.1 h))
            rw [hgt]
            cases hz : st.out.errs.zip st.out.successes with
            | nil =>
              have := congrArg List.length hz
              rw [List.length_zip, i3, Nat.min_self] at this
              exact absurd (List.length_eq_zero_iff.1 (i3.trans this)) h0
            | cons a r =>
              obtain ⟨e0, b0⟩ := a
              have hf0 := i6 h0' e0 b0 r hz
              simp only [allJudgements, List.cons_append, List.zip_cons_cons, List.zip_nil_left,
                (judgements_snoc _ _ _ _ _).1, hf0, relDerr_eq_spec]
              rfl
        · intro _ e0 b0 r hz
          cases hz' : st.out.errs.zip st.out.successes with
          | nil =>
            rw [hz'] at hz
            injection hz with hz hr
            injection hz with hz1 hz2
            subst hr
            exact hz1
          | cons a r' =>
            rw [hz'] at hz
            simp only [List.cons_append, List.cons.injEq] at hz
            obtain ⟨hz, hr⟩ := hz
            subst hz
            have hnn : st.out.errs ≠ [] := by intro h; rw [h] at hz'; cases hz'
            have hgt : succ = true := hg.resolve_right (fun h => hnn (hni.1 h))
            rw [← hr]
            simp only [List.zip_cons_cons, List.zip_nil_left, (judgements_snoc o.useStepQuality _ _ _ _).2, hgt, if_true]
      | bad n k e out' hi he hs hf h1 h2 =>
        rw [h1, h2, he, hs, hf, List.zip_append i3]
        have h0 : st.out.errs ≠ [] := fun h => hi (hni.2 h)
        refine ⟨by omega, by omega, by simp [i3], fun _ => ⟨hn', by simp [i4b]⟩, ?_, ?_⟩
        · rw [List.filter_append, List.filter_append, List.filter_append, filter_tries]
          cases hz : st.out.errs.zip st.out.successes with
          | nil =>
            have := congrArg List.length hz
            rw [List.length_zip, i3, Nat.min_self] at this
            exact absurd (List.length_eq_zero_iff.1 (i3.trans this)) h0
          | cons a r =>
            obtain ⟨e0, b0⟩ := a
            simp only [allJudgements, List.cons_append, List.zip_cons_cons, List.zip_nil_left,
              (judgements_snoc _ _ _ _ _).1]
            rfl
        · intro _ e0 b0 r hz
          cases hz' : st.out.errs.zip st.out.successes with
          | nil =>
            have := congrArg List.length hz'
            rw [List.length_zip, i3, Nat.min_self] at this
            exact absurd (List.length_eq_zero_iff.1 (i3.trans this)) h0
          | cons a r' =>
            obtain ⟨e1, b1⟩ := a
            rw [hz'] at hz
            simp only [List.cons_append, List.cons.injEq, Prod.mk.injEq] at hz
            obtain ⟨⟨hz1, hz2⟩, hr⟩ := hz
            rw [← hr, i6 h0' e1 b1 r' hz', hz1]
            simp only [List.zip_cons_cons, List.zip_nil_left, (judgements_snoc o.useStepQuality _ _ _ _).2]
            simp)
    (by exact ⟨rfl, rfl, rfl, fun _ => ⟨rfl, rfl⟩, rfl, fun _ _ _ _ h => (nomatch h)⟩) h
  rw [hs, he, hsu]
  exact hI.2.2.2.2.1

/-- **C55 (2).** The calls of a run are those of its iterations, and each iteration has the documented
form: `resize`, attempts to build and solve with `FailedStep` after each failed one that is repeated,
one judgement, one `Rebuild`. -/
theorem C55_iterations {fuel : Nat} {mi : Int} (hmi : budget o mi ≤ 65536) {w : W} {s : S} {x : X}
    {st : LoopSt F R W (S × List (Ev F)) X V M}
    (h : optimizeAcc (logEnv E) o fuel mi w (s, []) x = .ok st) :
    ∃ ws : List (List (Ev F)), st.s.2 = ws.flatten ∧ ws.length = st.trace.length ∧
      ∀ i (hi : i < ws.length), IterCalls (i = 0) (i + 1 = ws.length ∧ st.out.stop ≠ .kNone) ws[i] := by
  obtain ⟨st0, hI, hle, hs, htr, hstop, -, -, -, -⟩ := run_inv_len
    (I := fun st => st.out.numConsec = st.out.numConsec % 256 ∧ st.out.numFailures = st.out.numFailures % 256 ∧
      (st.out.stop = .kNone → st.out.numIters = st.trace.length % 65536 ∧ ConsecOk o st.out) ∧
      ∃ ws : List (List (Ev F)), st.s.2 = ws.flatten ∧ ws.length = st.trace.length ∧
      ∀ i (hi : i < ws.length), IterCalls (i = 0) (i + 1 = ws.length ∧ st.out.stop ≠ .kNone) ws[i])
    (fun st st' h0 hlt hI hb => by
      obtain ⟨i1, i2, i3, ws, i4, i5, i6⟩ := hI
      obtain ⟨i3a, i3b⟩ := i3 h0
      have hn' := numIters_inv hb i3a
      have hni : st.out.numIters = 0 ↔ st.trace.length = 0 := by
        rw [i3a]; constructor <;> intro h <;> omega
      obtain ⟨succ, l1, out1, dx, x', hsl, hl, -, htr, hst, e3, e4, e5, e1, e2⟩ := body_log i1 i2 hb
      have hlen : st'.trace.length = st.trace.length + 1 := by rw [htr]; simp
      refine ⟨?_, ?_, fun h => ⟨hn', (hst h).2⟩, ws ++ [l1 ++ [.rebuild
        (if succ then !(o.checkFinalCost && decide ((st.trace.length : Int) + 1 = budget o mi)) else st.lastSucc)]],
        ?_, by simp [hlen, i5], ?_⟩
      · rw [e1]; cases hsl with
        | fail l a out' he hs hstop hl h1 h2 => rw [h1]; omega
        | good n k g e out' hg he hs hf h1 h2 => rw [h1]
        | bad n k e out' hi he hs hf h1 h2 => rw [h1]; omega
      · rw [e2]; cases hsl with
        | fail l a out' he hs hstop hl h1 h2 => rw [h2]; omega
        | good n k g e out' hg he hs hf h1 h2 => rw [h2]; omega
        | bad n k e out' hi he hs hf h1 h2 => rw [h2]; omega
      · rw [hl, i4, List.flatten_append, List.flatten_singleton]
      · intro i hi
        rw [List.length_append, List.length_singleton] at hi ⊢
        rcases Nat.lt_succ_iff_lt_or_eq.1 hi with hi' | rfl
        · rw [List.getElem_append_left hi']
          have := i6 i hi'
          rw [h0] at this
          have e : (i + 1 = ws.length ∧ StopReason.kNone ≠ .kNone) = (i + 1 = ws.length + 1 ∧ st'.out.stop ≠ .kNone) := by
            apply propext; constructor
            · rintro ⟨-, h⟩; exact absurd rfl h
            · rintro ⟨h, -⟩; omega
          rwa [e] at this
        · rw [List.getElem_concat_length rfl]
          generalize (if succ then _ else _ : Bool) = bb
          cases hsl with
          | fail l a out' he hs hstop hl h1 h2 =>
            have hk : st'.out.stop ≠ .kNone := by
              intro hk; rw [(hst hk).1] at hstop; exact absurd hstop (by decide)
            rcases hl with ⟨rfl, -⟩ | ⟨n, rfl, -, ht⟩ | ⟨n, k, rfl, -⟩ | ⟨n, k, rfl, -⟩
            · exact .skipped bb ⟨rfl, hk⟩
            · exact absurd ht i3b.tries
            · have := IterCalls.unjudged (F := F) (first := ws.length = 0)
                (last := ws.length + 1 = ws.length + 1 ∧ st'.out.stop ≠ .kNone) n k bb (Or.inr ⟨rfl, hk⟩)
              simpa using this
            · have := IterCalls.gaveUp (F := F) (first := ws.length = 0)
                (last := ws.length + 1 = ws.length + 1 ∧ st'.out.stop ≠ .kNone) n k bb ⟨rfl, hk⟩
              simpa using this
          | good n k g e out' hg he hs hf h1 h2 =>
            split
            next hz =>
              have := IterCalls.unjudged (F := F) (first := ws.length = 0)
                (last := ws.length + 1 = ws.length + 1 ∧ st'.out.stop ≠ .kNone) n k bb
                (Or.inl (by rw [i5]; exact hni.1 hz))
              simpa using this
            next hz =>
              have := IterCalls.good (F := F) (first := ws.length = 0)
                (last := ws.length + 1 = ws.length + 1 ∧ st'.out.stop ≠ .kNone) n k
                (if o.useStepQuality = true then relDerr st.out.finalCost.cost e else ofInt 0) bb
                (by rw [i5]; exact fun h => hz (hni.2 h))
              simpa using this
          | bad n k e out' hnz he hs hf h1 h2 =>
            have := IterCalls.bad (F := F) (first := ws.length = 0)
              (last := ws.length + 1 = ws.length + 1 ∧ st'.out.stop ≠ .kNone) n k bb
              (by rw [i5]; exact fun h => hnz (hni.2 h))
            simpa using this)
    (by exact ⟨rfl, rfl, fun _ => ⟨rfl, by unfold ConsecOk; split <;> simp [initSt, Output.init] <;> assumption⟩,
          [], rfl, rfl, fun i hi => absurd hi (Nat.not_lt_zero _)⟩) h
  obtain ⟨-, -, -, ws, h1, h2, h3⟩ := hI
  refine ⟨ws, by rw [hs]; exact h1, by rw [htr]; exact h2, ?_⟩
  intro i hi
  have := h3 i hi
  have weaken : ∀ {f a b : Prop} {l : List (Ev F)}, (a → b) → IterCalls f a l → IterCalls f b l := by
    intro f a b l hab hh
    cases hh with
    | skipped b h => exact .skipped b (hab h)
    | gaveUp n k b h => exact .gaveUp n k b (hab h)
    | unjudged n k b h => exact .unjudged n k b (h.imp id hab)
    | good n k q b h => exact .good n k q b h
    | bad n k b h => exact .bad n k b h
  exact weaken (fun h => ⟨h.1, fun hk => h.2 (hstop hk)⟩) this

/-- **C55 (3).** The solver is asked to compute derivatives again exactly when due. -/
theorem C55_rebuilds {fuel : Nat} {mi : Int} {w : W} {s : S} {x : X}
    {st : LoopSt F R W (S × List (Ev F)) X V M}
    (h : optimizeAcc (logEnv E) o fuel mi w (s, []) x = .ok st) :
    rebuildArgs st.s.2 = dueRebuilds o.checkFinalCost (budget o mi) 0 true (st.trace.map Rec.succ) := by
  obtain ⟨st0, hI, hle, hs, htr, -, -, -, -, -⟩ := run_inv_len
    (I := fun st => st.out.numConsec = st.out.numConsec % 256 ∧ st.out.numFailures = st.out.numFailures % 256 ∧
      st.lastSucc = (st.trace.map Rec.succ).getLast?.getD true ∧
      rebuildArgs st.s.2 = dueRebuilds o.checkFinalCost (budget o mi) 0 true (st.trace.map Rec.succ))
    (fun st st' h0 hlt hI hb => by
      obtain ⟨i1, i2, i3, i4⟩ := hI
      obtain ⟨succ, l1, out1, dx, x', hsl, hl, hls, htr, hst, e3, e4, e5, e1, e2⟩ := body_log i1 i2 hb
      have hre : rebuildArgs l1 = [] := by
        cases hsl with
        | fail l a out' he hs hstop hl h1 h2 =>
          rcases hl with ⟨rfl, rfl⟩ | ⟨n, rfl, rfl, ht⟩ | ⟨n, k, rfl, rfl⟩ | ⟨n, k, rfl, rfl⟩
          · rfl
          · rfl
          · simp only [rebuildArgs_append, rebuildArgs_tries]; rfl
          · simp only [rebuildArgs_append, rebuildArgs_tries]; rfl
        | good n k g e out' hg he hs hf h1 h2 =>
          simp only [rebuildArgs_append, rebuildArgs_tries]; split <;> rfl
        | bad n k e out' hi he hs hf h1 h2 => simp only [rebuildArgs_append, rebuildArgs_tries]; rfl
      refine ⟨?_, ?_, ?_, ?_⟩
      · rw [e1]; cases hsl with
        | fail l a out' he hs hstop hl h1 h2 => rw [h1]; omega
        | good n k g e out' hg he hs hf h1 h2 => rw [h1]
        | bad n k e out' hi he hs hf h1 h2 => rw [h1]; omega
      · rw [e2]; cases hsl with
        | fail l a out' he hs hstop hl h1 h2 => rw [h2]; omega
        | good n k g e out' hg he hs hf h1 h2 => rw [h2]; omega
        | bad n k e out' hi he hs hf h1 h2 => rw [h2]; omega
      · rw [hls, htr]; simp
      · rw [hl, htr, rebuildArgs_append, rebuildArgs_append, hre, List.map_append, List.map_singleton,
          dueRebuilds_snoc, i4, i3]
        simp [rebuildArgs])
    (by exact ⟨rfl, rfl, rfl, rfl⟩) h
  rw [hs, htr]; exact hI.2.2.2

/-! ### Examples -/

/-- a code for the calls, to compare logs -/
def Ev.code : Ev F → Nat
  | .resize _ => 0
  | .attempt false => 1
  | .attempt true => 2
  | .good _ => 3
  | .bad => 4
  | .failed => 5
  | .rebuild false => 6
  | .rebuild true => 7

/-- a run whose first linear solve fails: the failed solve is retried, then every step improves the cost -/
example : ∃ st, optimizeAcc (logEnv flakyEnv) { toyOpts with maxIters := 2 } 3 (-1) 0 (toyS0, []) 0 = .ok st ∧
    (st.s.2.map Ev.code == [0, 1, 5, 2, 7, 0, 2, 3, 7, 0, 2, 3, 7] && st.out.numFailures == 1 &&
      st.out.numConsec == 0 && st.out.successes == [true, true, true] && st.out.stop == .kMaxIters) = true :=
  Res.exists_of_holds (by decide +kernel)

/-- a run in which no step improves the cost: after two failures the derivatives are not computed -/
example : ∃ st, optimizeAcc (logEnv flatEnv) { toyOpts with maxIters := 3 } 3 (-1) 0 (toyS0, []) 0 = .ok st ∧
    (st.s.2.map Ev.code == [0, 2, 7, 0, 2, 4, 7, 0, 2, 4, 6, 0, 2, 4, 6] && st.out.numFailures == 3 &&
      st.out.numConsec == 3 && !st.out.errs.isEmpty) = true :=
  Res.exists_of_holds (by decide +kernel)

/-- the second step quality of the first run is `(9 - 8) / 9`, passed if `use_step_quality` is set -/
example : ∃ st, optimizeAcc (logEnv flakyEnv) { toyOpts with maxIters := 2, useStepQuality := true } 3 (-1) 0
      (toyS0, []) 0 = .ok st ∧
    (st.s.2.any (fun e => match e with
      | .good q => !lt q (div (sub (ofInt 9) (ofInt 8)) (ofInt 9)) && !lt (div (sub (ofInt 9) (ofInt 8)) (ofInt 9)) q
      | _ => false)) = true :=
  Res.exists_of_holds (by decide +kernel)

example : budget { toyOpts with maxIters := 2 } (-1) ≤ 65536 := by decide

end
end Verif
