import Verif.Lemmas.Sim
/-!
# A log of the calls the optimizer makes to its solver

`logEnv E` behaves as `E`; its solver state carries the list of the calls made so far.
-/

set_option linter.unusedSectionVars false

namespace Verif
open FloatOps

/-- A call of the optimizer to its solver. -/
inductive Ev (F : Type) where
  /-- a successful `resize(dims)` -/
  | resize (dims : Int)
  /-- one `Build` followed, if it succeeded, by one `Solve`; `ok` tells whether a step was obtained -/
  | attempt (ok : Bool)
  /-- `GoodStep(quality)` -/
  | good (quality : F)
  /-- `BadStep()` -/
  | bad
  /-- `FailedStep()` -/
  | failed
  /-- `Rebuild(b)` -/
  | rebuild (b : Bool)

/-- the calls that tell the solver whether a step was good -/
def Ev.isJudge {F : Type} : Ev F → Bool
  | .good _ => true
  | .bad => true
  | _ => false

/-- a failure: no step was obtained, or a step was rejected -/
def Ev.isFailure {F : Type} : Ev F → Bool
  | .attempt false => true
  | .bad => true
  | _ => false

section
variable {F R W S X V M : Type} [FloatOps F]
variable {E : Env F R W S X V M} {o : Options F W V}

/-- The solver of `E` with a log of the calls in its state. -/
def logSolver (I : SolverI F R W S X V M) : SolverI F R W (S × List (Ev F)) X V M where
  resize w s d := match I.resize w s.1 d with
    | (.done t, w') => (.done (t, s.2 ++ [.resize d]), w')
    | (.badAlloc, w') => (.badAlloc, w')
    | (.invalidArg, w') => (.invalidArg, w')
  build w s x := ((I.build w s.1 x).1,
    ((I.build w s.1 x).2.1,
      s.2 ++ [.attempt ((I.build w s.1 x).1 && (I.solve (I.build w s.1 x).2.1).isSome)]),
    (I.build w s.1 x).2.2)
  solve s := I.solve s.1
  cost s := I.cost s.1
  gradSq s := I.gradSq s.1
  gradient s := I.gradient s.1
  goodStep s q := (I.goodStep s.1 q).bind fun t => .ok (t, s.2 ++ [.good q])
  badStep s := (I.badStep s.1).bind fun t => .ok (t, s.2 ++ [.bad])
  failedStep s := (I.failedStep s.1).bind fun t => .ok (t, s.2 ++ [.failed])
  rebuild s b := (I.rebuild s.1 b, s.2 ++ [.rebuild b])
  hessian s := I.hessian s.1

/-- `E` with a log of the calls to the solver. -/
def logEnv (E : Env F R W S X V M) : Env F R W (S × List (Ev F)) X V M where
  sol := logSolver E.sol
  dimsDynamic := E.dimsDynamic
  dynDims := E.dynDims
  plusEq := E.plusEq
  negV := E.negV
  normSq := E.normSq
  clock := E.clock
  firstOrder := E.firstOrder
  ratio1 := E.ratio1

theorem Res.rel_log {T : Type} (r : Res S) (f : S → T) :
    Res.Rel (fun (s : S) (s' : S × T) => s'.1 = s) r (r.bind fun t => .ok (t, f t)) := by
  cases r <;> first | trivial | rfl

/-- The log does not influence the run. -/
theorem logEnv_sim (E : Env F R W S X V M) : Sim E (logEnv E) (fun s s' => s'.1 = s)
    (fun s s' => s'.1 = s) (fun s s' => s'.1 = s) (fun s s' => s'.1 = s) where
  dimsDynamic := fun _ => rfl
  dynDims := rfl
  plusEq := rfl
  negV := rfl
  normSq := rfl
  clock := rfl
  ratio1 := rfl
  firstOrder := rfl
  resize := by
    rintro w s s' x rfl
    rcases h : E.sol.resize w s'.1 (E.dynDims x) with ⟨r, w'⟩
    cases r with
    | done t => exact Or.inl ⟨_, _, _, rfl, by simp only [logEnv, logSolver, h]; rfl, rfl⟩
    | badAlloc => exact Or.inr (Or.inl ⟨_, rfl, by simp only [logEnv, logSolver, h]⟩)
    | invalidArg => exact Or.inr (Or.inr ⟨_, rfl, by simp only [logEnv, logSolver, h]⟩)
  build := by
    rintro w s s' x rfl
    refine ⟨_, _, _, _, rfl, rfl, rfl, ?_⟩
    split <;> rfl
  solve := by rintro s s' rfl; rfl
  gradSq := by rintro s s' rfl; rfl
  gradient := by rintro s s' rfl; rfl
  good := by rintro s s' q rfl; exact Res.rel_log _ _
  bad := by rintro s s' rfl; exact Res.rel_log _ _
  failedB := by rintro s s' rfl; exact Res.rel_log _ _
  failedF := by rintro s s' rfl; exact Res.rel_log _ _
  rebuild := by rintro s s' b rfl; rfl

/-- Every run has a logged version with the same results. -/
theorem logged_run {fuel : Nat} {mi : Int} {w : W} {s : S} {x : X} {st : LoopSt F R W S X V M}
    (h : optimizeAcc E o fuel mi w s x = .ok st) :
    ∃ lst, optimizeAcc (logEnv E) o fuel mi w (s, []) x = .ok lst ∧ FinalRel st lst := by
  have := run_sim (o := o) (logEnv_sim E) fuel mi w s (s, []) x rfl
  rw [h] at this
  cases h2 : optimizeAcc (logEnv E) o fuel mi w (s, []) x with
  | ok lst => rw [h2] at this; exact ⟨lst, rfl, this⟩
  | ub => rw [h2] at this; exact this.elim
  | throw => rw [h2] at this; exact this.elim
  | fuel => rw [h2] at this; exact this.elim

/-- `k` failed attempts, each followed by `FailedStep` -/
def failedTries (F : Type) (k : Nat) : List (Ev F) := (List.replicate k [Ev.attempt false, Ev.failed]).flatten

theorem failedTries_succ (k : Nat) :
    failedTries F (k + 1) = [Ev.attempt false, Ev.failed] ++ failedTries F k := by
  simp [failedTries, List.replicate_succ]

theorem inc8_mod (c : Nat) : inc8 (c % 256) = (c + 1) % 256 := by unfold inc8; omega

/-- The calls of the retry loop and its effect on the failure counters. -/
theorem retry_log {x : X} : ∀ {n : Nat} {w : W} {s : S} {l : List (Ev F)} {out : Output F R M} {e w' s' l' out'}
    {c d : Nat}, out.numConsec = c % 256 → out.numFailures = d % 256 →
    retry (logEnv E) o x n w (s, l) out = .ok (e, w', (s', l'), out') →
    out'.errs = out.errs ∧ out'.successes = out.successes ∧ out'.finalCost = out.finalCost ∧
    out'.numIters = out.numIters ∧
    ∃ k, match e with
      | .got _ _ => l' = l ++ failedTries F k ++ [.attempt true] ∧
          out'.numConsec = (c + k) % 256 ∧ out'.numFailures = (d + k) % 256
      | _ => (l' = l ++ failedTries F k ++ [.attempt false] ∧
            out'.numConsec = (c + k + 1) % 256 ∧ out'.numFailures = (d + k + 1) % 256) ∨
          (l' = l ∧ maxTries o < out.numConsec ∧ out'.numConsec = c % 256 ∧ out'.numFailures = d % 256) := by
  intro n
  induction n with
  | zero => intro w s l out e w' s' l' out' c d _ _ h; cases h
  | succ n ih =>
    intro w s l out e w' s' l' out' c d hc hd h
    unfold retry at h
    split at h
    next hle =>
      have eb : (logEnv E).sol.build w (s, l) x = ((E.sol.build w s x).1, ((E.sol.build w s x).2.1,
          l ++ [.attempt ((E.sol.build w s x).1 && (E.sol.solve (E.sol.build w s x).2.1).isSome)]),
          (E.sol.build w s x).2.2) := rfl
      rw [eb] at h
      generalize hb : E.sol.build w s x = p at h
      obtain ⟨b, s1, w1⟩ := p
      simp only at h
      have es : (logEnv E).sol.solve (s1, l ++ [.attempt (b && (E.sol.solve s1).isSome)]) = E.sol.solve s1 := rfl
      rw [es] at h
      split at h
      next dx hdx =>
        injection h with h
        simp only [Prod.mk.injEq] at h
        obtain ⟨rfl, -, ⟨-, rfl⟩, rfl⟩ := h
        refine ⟨rfl, rfl, rfl, rfl, 0, ?_⟩
        cases b
        · simp at hdx
        · simp only [if_true] at hdx
          simp [hdx, failedTries, hc, hd]
      next hdx =>
        have hok : (b && (E.sol.solve s1).isSome) = false := by
          cases b
          · rfl
          · simp only [if_true] at hdx; simp [hdx]
        rw [hok] at h
        have e1 : inc8 out.numConsec = (c + 1) % 256 := by rw [hc, inc8_mod]
        have e2 : inc8 out.numFailures = (d + 1) % 256 := by rw [hd, inc8_mod]
        split at h
        · injection h with h
          simp only [Prod.mk.injEq] at h
          obtain ⟨rfl, -, ⟨-, rfl⟩, rfl⟩ := h
          exact ⟨rfl, rfl, rfl, rfl, 0, Or.inl ⟨by simp [failedTries], e1, e2⟩⟩
        · split at h
          · injection h with h
            simp only [Prod.mk.injEq] at h
            obtain ⟨rfl, -, ⟨-, rfl⟩, rfl⟩ := h
            exact ⟨rfl, rfl, rfl, rfl, 0, Or.inl ⟨by simp [failedTries], e1, e2⟩⟩
          · split at h
            · injection h with h
              simp only [Prod.mk.injEq] at h
              obtain ⟨rfl, -, ⟨-, rfl⟩, rfl⟩ := h
              refine ⟨by split <;> rfl, by split <;> rfl, by split <;> rfl, by split <;> rfl, 0, Or.inl ⟨by simp [failedTries], ?_, ?_⟩⟩
              · split <;> exact e1
              · split <;> exact e2
            next hmc =>
              have hle' : inc8 out.numConsec ≤ maxTries o := by
                simp only [Bool.and_eq_true, decide_eq_true_eq, gt_iff_lt, ge_iff_le] at hmc
                unfold maxTries
                by_cases h0 : o.maxConsecFailures > 0
                · rw [if_pos h0]; omega
                · rw [if_neg h0]; unfold inc8; omega
              rw [Res.bind_eq_ok] at h
              obtain ⟨⟨s2, l2⟩, hs2, h⟩ := h
              have ef : (logEnv E).sol.failedStep (s1, l ++ [.attempt false]) =
                (E.sol.failedStep s1).bind fun t => .ok (t, (l ++ [.attempt false]) ++ [.failed]) := rfl
              rw [ef, Res.bind_eq_ok] at hs2
              obtain ⟨t, -, hs2⟩ := hs2
              injection hs2 with hs2
              obtain ⟨-, rfl⟩ := Prod.mk.inj hs2
              obtain ⟨h1, h2, h3, h4, k, h5⟩ := ih (c := c + 1) (d := d + 1) e1 e2 h
              refine ⟨h1, h2, h3, h4, k + 1, ?_⟩
              have ec : c + 1 + k = c + (k + 1) := by omega
              have ed : d + 1 + k = d + (k + 1) := by omega
              cases e with
              | got dx cc =>
                simp only at h5 ⊢
                rw [ec, ed] at h5
                simp only [failedTries_succ]; simpa using h5
              | ret =>
                rcases h5 with h5 | ⟨-, h5, -⟩
                · rw [ec, ed] at h5
                  refine Or.inl ?_
                  simp only [failedTries_succ]; simpa using h5
                · exact absurd h5 (Nat.not_lt.2 hle')
              | failed =>
                rcases h5 with h5 | ⟨-, h5, -⟩
                · rw [ec, ed] at h5
                  refine Or.inl ?_
                  simp only [failedTries_succ]; simpa using h5
                · exact absurd h5 (Nat.not_lt.2 hle')
    next hle =>
      injection h with h
      simp only [Prod.mk.injEq] at h
      obtain ⟨rfl, -, ⟨-, rfl⟩, rfl⟩ := h
      exact ⟨rfl, rfl, rfl, rfl, 0, Or.inr ⟨rfl, by omega, hc, hd⟩⟩

/-- The calls of the part of `Step` after the retry loop. -/
theorem afterSolve_log {dx : V} {cst : Cost F R} {w : W} {s : S} {l : List (Ev F)} {out : Output F R M}
    {p w' s' l' out'} {c d : Nat} (hc : out.numConsec = c % 256) (hd : out.numFailures = d % 256)
    (h : afterSolve (logEnv E) o dx cst w (s, l) out = .ok (p, w', (s', l'), out')) :
    (l' = l ∧ out'.numConsec = c % 256 ∧ out'.numFailures = d % 256 ∧ out'.errs = out.errs ∧
      out'.successes = out.successes ∧ p.1 = false ∧ out'.stop = .kSystemHasNaNOrInf) ∨
    (∃ g, (g = true ∨ out.numIters = 0) ∧
      l' = l ++ (if out.numIters = 0 then [] else
        [.good (if o.useStepQuality then relDerr out.finalCost.cost cst.cost else ofInt 0)]) ∧
      out'.numConsec = 0 ∧ out'.numFailures = d % 256 ∧ out'.errs = out.errs ++ [cst.cost] ∧
      out'.successes = out.successes ++ [g] ∧ out'.finalCost = cst ∧ p.1 = g) ∨
    (out.numIters ≠ 0 ∧ l' = l ++ [.bad] ∧ out'.numConsec = (c + 1) % 256 ∧ out'.numFailures = (d + 1) % 256 ∧
      out'.errs = out.errs ++ [cst.cost] ∧ out'.successes = out.successes ++ [false] ∧
      out'.finalCost = out.finalCost ∧ p.1 = false) := by
  unfold afterSolve at h
  simp only at h
  split at h
  · injection h with h
    simp only [Prod.mk.injEq] at h
    obtain ⟨rfl, -, ⟨-, rfl⟩, rfl⟩ := h
    exact Or.inl ⟨rfl, hc, hd, rfl, rfl, rfl, rfl⟩
  · split at h
    · injection h with h
      simp only [Prod.mk.injEq] at h
      obtain ⟨rfl, -, ⟨-, rfl⟩, rfl⟩ := h
      exact Or.inl ⟨rfl, hc, hd, rfl, rfl, rfl, rfl⟩
    · split at h
      next hg =>
        rw [Res.bind_eq_ok] at h
        obtain ⟨⟨s3, l3⟩, h3, h⟩ := h
        injection h with h
        simp only [Prod.mk.injEq] at h
        obtain ⟨rfl, -, ⟨-, rfl⟩, rfl⟩ := h
        refine Or.inr (Or.inl ⟨_, by simpa using hg, ?_, rfl, hd, rfl, rfl, rfl, rfl⟩)
        split at h3
        next h0 =>
          have eg : ∀ q, (logEnv E).sol.goodStep (s, l) q =
            (E.sol.goodStep s q).bind fun t => .ok (t, l ++ [.good q]) := fun _ => rfl
          rw [eg, Res.bind_eq_ok] at h3
          obtain ⟨t, -, h3⟩ := h3
          injection h3 with h3
          rw [if_neg (by omega)]
          exact (Prod.mk.inj h3).2.symm
        next h0 =>
          injection h3 with h3
          rw [if_pos (by omega), List.append_nil]
          exact (Prod.mk.inj h3).2.symm
      next hg =>
        simp only [Bool.or_eq_true, beq_iff_eq, not_or, Bool.not_eq_true] at hg
        rw [Res.bind_eq_ok] at h
        obtain ⟨⟨s3, l3⟩, h3, h⟩ := h
        have eg : (logEnv E).sol.badStep (s, l) =
          (E.sol.badStep s).bind fun t => .ok (t, l ++ [.bad]) := rfl
        rw [eg, Res.bind_eq_ok] at h3
        obtain ⟨t, -, h3⟩ := h3
        injection h3 with h3
        obtain ⟨-, rfl⟩ := Prod.mk.inj h3
        have e1 : inc8 out.numConsec = (c + 1) % 256 := by rw [hc, inc8_mod]
        have e2 : inc8 out.numFailures = (d + 1) % 256 := by rw [hd, inc8_mod]
        right; right
        split at h
        · injection h with h
          simp only [Prod.mk.injEq] at h
          obtain ⟨rfl, -, ⟨-, rfl⟩, rfl⟩ := h
          exact ⟨hg.2, rfl, e1, e2, rfl, by simp only [hg.1], rfl, rfl⟩
        · split at h
          · injection h with h
            simp only [Prod.mk.injEq] at h
            obtain ⟨rfl, -, ⟨-, rfl⟩, rfl⟩ := h
            exact ⟨hg.2, rfl, e1, e2, rfl, by simp only [hg.1], rfl, rfl⟩
          · injection h with h
            simp only [Prod.mk.injEq] at h
            obtain ⟨rfl, -, ⟨-, rfl⟩, rfl⟩ := h
            exact ⟨hg.2, rfl, e1, e2, rfl, by simp only [hg.1], rfl, hg.1⟩

/-- The calls of one `Step` and its effect on counters and history. -/
inductive StepLog (o : Options F W V) (out : Output F R M) (c d : Nat) :
    Bool → List (Ev F) → Output F R M → Prop
  /-- no step was judged -/
  | fail (l a out') (he : out'.errs = out.errs) (hs : out'.successes = out.successes)
      (hstop : out'.stop.code < 0)
      (hl : (l = [] ∧ a = 0) ∨ (∃ n, l = [.resize n] ∧ a = 0 ∧ maxTries o < out.numConsec) ∨
        (∃ n k, l = [.resize n] ++ failedTries F k ++ [.attempt true] ∧ a = k) ∨
        (∃ n k, l = [.resize n] ++ failedTries F k ++ [.attempt false] ∧ a = k + 1))
      (h1 : out'.numConsec = (c + a) % 256) (h2 : out'.numFailures = (d + a) % 256) :
      StepLog o out c d false l out'
  /-- the step was accepted -/
  | good (n : Int) (k g e out') (hg : g = true ∨ out.numIters = 0)
      (he : out'.errs = out.errs ++ [e]) (hs : out'.successes = out.successes ++ [g])
      (hf : out'.finalCost.cost = e) (h1 : out'.numConsec = 0) (h2 : out'.numFailures = (d + k) % 256) :
      StepLog o out c d g ([.resize n] ++ failedTries F k ++ [.attempt true] ++
        (if out.numIters = 0 then [] else
          [.good (if o.useStepQuality then relDerr out.finalCost.cost e else ofInt 0)])) out'
  /-- the step was rejected -/
  | bad (n : Int) (k e out') (hi : out.numIters ≠ 0)
      (he : out'.errs = out.errs ++ [e]) (hs : out'.successes = out.successes ++ [false])
      (hf : out'.finalCost = out.finalCost)
      (h1 : out'.numConsec = (c + k + 1) % 256) (h2 : out'.numFailures = (d + k + 1) % 256) :
      StepLog o out c d false ([.resize n] ++ failedTries F k ++ [.attempt true] ++ [.bad]) out'

theorem step_log {fuel : Nat} {w : W} {s : S} {l : List (Ev F)} {x : X} {out : Output F R M}
    {p w' s' l' out'} {c d : Nat} (hc : out.numConsec = c % 256) (hd : out.numFailures = d % 256)
    (h : step (logEnv E) o fuel w (s, l) x out = .ok (p, w', (s', l'), out')) :
    ∃ l1, l' = l ++ l1 ∧ StepLog o out c d p.1 l1 out' := by
  unfold step at h
  split at h
  next r w1 hr =>
    injection h with h
    simp only [Prod.mk.injEq] at h
    obtain ⟨rfl, -, ⟨-, rfl⟩, rfl⟩ := h
    exact ⟨[], by simp, .fail _ 0 _ rfl rfl
      (resizeIfNeeded_cause (o := o) (out := out) (a := 0) hr).code (Or.inl ⟨rfl, rfl⟩) hc hd⟩
  next s1 w1 hr =>
    obtain ⟨n, hl1⟩ : ∃ n, s1.2 = l ++ [.resize n] := by
      unfold resizeIfNeeded at hr
      simp only at hr
      split at hr
      · cases (Prod.mk.inj hr).1
      · split at hr
        · cases (Prod.mk.inj hr).1
        · have er : (logEnv E).sol.resize w (s, l) ((logEnv E).dynDims x) = _ := rfl
          simp only [logEnv, logSolver] at hr
          split at hr
          next t w2 hh =>
            split at hh
            · obtain ⟨hh, -⟩ := Prod.mk.inj hh
              injection hh with hh; subst hh
              obtain ⟨hr, -⟩ := Prod.mk.inj hr
              injection hr with hr; subst hr
              exact ⟨_, rfl⟩
            · cases (Prod.mk.inj hh).1
            · cases (Prod.mk.inj hh).1
          · cases (Prod.mk.inj hr).1
          · cases (Prod.mk.inj hr).1
    obtain ⟨t1, l1⟩ := s1
    simp only at hl1
    subst hl1
    rw [Res.bind_eq_ok] at h
    obtain ⟨⟨e, w2, ⟨s2, l2⟩, out2⟩, h1, h⟩ := h
    obtain ⟨a, b, r, ho, hrs⟩ := retry_spec h1
    obtain ⟨g1, g2, g3, g4, k, g5⟩ := retry_log hc hd h1
    cases e with
    | ret =>
      injection h with h
      simp only [Prod.mk.injEq] at h
      obtain ⟨rfl, -, ⟨-, rfl⟩, rfl⟩ := h
      have hcode : out2.stop.code < 0 := by rw [ho]; exact FailCause.code hrs
      rcases g5 with ⟨g5, g6, g7⟩ | ⟨g5, g6, g7, g8⟩
      · exact ⟨_, by rw [g5]; simp only [List.append_assoc]; rfl, .fail _ (k + 1) _ g1 g2 hcode
          (Or.inr (Or.inr (Or.inr ⟨n, k, by simp, rfl⟩))) g6 g7⟩
      · exact ⟨_, g5, .fail _ 0 _ g1 g2 hcode
          (Or.inr (Or.inl ⟨n, rfl, rfl, g6⟩)) g7 g8⟩
    | failed =>
      injection h with h
      simp only [Prod.mk.injEq] at h
      obtain ⟨rfl, -, ⟨-, rfl⟩, rfl⟩ := h
      rcases g5 with ⟨g5, g6, g7⟩ | ⟨g5, g6, g7, g8⟩
      · exact ⟨_, by rw [g5]; simp only [List.append_assoc]; rfl, .fail _ (k + 1) _ g1 g2 (by show (-3 : Int) < 0; decide)
          (Or.inr (Or.inr (Or.inr ⟨n, k, by simp, rfl⟩))) g6 g7⟩
      · exact ⟨_, g5, .fail _ 0 _ g1 g2 (by show (-3 : Int) < 0; decide)
          (Or.inr (Or.inl ⟨n, rfl, rfl, g6⟩)) g7 g8⟩
    | got dx cc =>
      simp only at h g5
      obtain ⟨g5, g6, g7⟩ := g5
      rcases afterSolve_log g6 g7 h with ⟨a1, a2, a3, a4, a5, a6, a7⟩ | ⟨g, a0, a1, a2, a3, a4, a5, a6, a7⟩ |
        ⟨a0, a1, a2, a3, a4, a5, a6, a7⟩
      · rw [a6]
        exact ⟨_, by rw [a1, g5]; simp only [List.append_assoc]; rfl,
          .fail _ k _ (a4.trans g1) (a5.trans g2) (by rw [a7]; decide)
            (Or.inr (Or.inr (Or.inl ⟨n, k, by simp, rfl⟩))) a2 a3⟩
      · rw [a7]
        refine ⟨_, ?_, .good n k g cc.cost out' (by rwa [g4] at a0) (by rw [a4, g1]) (by rw [a5, g2])
          (by rw [a6]) a2 a3⟩
        rw [a1, g5, g4, g3]; simp only [List.append_assoc]
      · rw [a7]
        refine ⟨_, ?_, .bad n k cc.cost out' (by rwa [g4] at a0) (by rw [a4, g1]) (by rw [a5, g2])
          (by rw [a6, g3]) a2 a3⟩
        rw [a1, g5]; simp only [List.append_assoc]

end
end Verif
