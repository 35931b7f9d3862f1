import Verif.Lemmas.Total
import Verif.Examples.Toy
/-!
# C01, C02: termination and amount of work
-/

set_option linter.unusedSectionVars false

namespace Verif
open FloatOps

section
variable {F R W S X V M : Type} [FloatOps F]

/-- Specification: the number of outer iterations allowed by `max_iters` (argument of `Optimize` if
non-negative, option otherwise), one more for the roll-back, one more for the final cost check. -/
def budget (o : Options F W V) (mi : Int) : Int :=
  (if mi < 0 then (o.maxIters : Int) else mi) + 1 + (if o.checkFinalCost then 1 else 0)

theorem loopBound_eq_budget {o : Options F W V} {mi : Int} (h : budget o mi < intMax) :
    loopBound o mi = some (budget o mi) := by
  unfold budget at *
  unfold loopBound
  generalize (if mi < 0 then (o.maxIters : Int) else mi) = k at h
  cases hc : o.checkFinalCost <;>
    simp only [hc, Bool.false_eq_true, if_false, if_true] at h ⊢ <;>
    (rw [if_neg (by omega)]; try simp)

theorem budget_of_loopBound {o : Options F W V} {mi m : Int} (h : loopBound o mi = some m) :
    m = budget o mi := (loopBound_spec h).1

variable {E : Env F R W S X V M} {o : Options F W V}

private theorem c01_body (hh : HooksDefined E) {cnt : W → Nat} (hc : Counts E o cnt)
    (hmc8 : o.maxConsecFailures < 256) {fuel : Nat} (hf : o.maxConsecFailures ≤ fuel) (last : Bool)
    {st : LoopSt F R W S X V M} (h : st.out.numConsec < o.maxConsecFailures) :
    ∃ st', body E o fuel last st = .ok st' ∧ cnt st'.w ≤ cnt st.w + o.maxConsecFailures ∧
      (st'.out.stop = .kNone → st'.out.numConsec < o.maxConsecFailures) := by
  have hstep : ∃ p w1 s1 out1, step E o fuel st.w st.s st.x st.out = .ok (p, w1, s1, out1) ∧
      cnt w1 ≤ cnt st.w + o.maxConsecFailures := by
    unfold step
    have hr := resizeIfNeeded_cnt hc st.w st.s st.x
    rcases hrr : resizeIfNeeded E st.w st.s st.x with ⟨r | s1, w1⟩
    · rw [hrr] at hr
      exact ⟨_, _, _, _, rfl, by simp only at hr; omega⟩
    · rw [hrr] at hr
      simp only at hr ⊢
      obtain ⟨e, w', s', out', hret, hcnt, -⟩ := retry_total hh hc hmc8 (x := st.x) (n := fuel)
        (w := w1) (s := s1) h (by omega)
      rw [hret, Res.bind_ok]
      cases e with
      | ret => exact ⟨_, _, _, _, rfl, by show cnt w' ≤ _; omega⟩
      | failed => exact ⟨_, _, _, _, rfl, by show cnt w' ≤ _; omega⟩
      | got dx c =>
        obtain ⟨p, w2, s2, out2, h2, hc2⟩ := afterSolve_total hh hc dx c w' s' out'
        exact ⟨p, w2, s2, out2, h2, by omega⟩
  obtain ⟨p, w1, s1, out1, hs, hcnt⟩ := hstep
  obtain ⟨st', hb, hw⟩ := body_of_step (last := last) hs
  refine ⟨st', hb, by rw [hw, hc.clock]; exact hcnt, ?_⟩
  obtain ⟨succ, mdx, w1', s1', out1', ms, hstep', hsp⟩ := body_spec' hb
  rw [hsp.out]
  simp only
  intro hstop
  have hstop1 : out1'.stop = .kNone := by
    unfold timeStop at hstop
    split at hstop
    · cases hstop
    · exact hstop
  have hsst := hsp.step
  revert hstop1
  cases hsst with
  | fail a b c d r hr => intro h; simp only [retryOut] at h; subst h; exact absurd hr.code (by decide)
  | good => intro _; show 0 < _; omega
  | badStop w2 s2 dx c a b s3 r ev _ _ _ _ _ hr =>
    intro h; simp only at h
    rcases hr with ⟨rfl, _⟩ | ⟨rfl, _⟩ <;> cases h
  | bad w2 s2 dx c a b s3 w3 r ev _ _ _ _ _ hmc hmt hcr =>
    intro _; simp only
    rcases hmc with h0 | h0
    · omega
    · exact h0

/-- **C01.** With `max_consec_failures > 0` every run returns normally (no divergence, no exception,
no undefined behaviour in the optimizer itself), after at least one and at most
`budget` iterations and at most `max_consec_failures` calls of the user function per iteration. -/
theorem C01_bounded_work (hh : HooksDefined E) {cnt : W → Nat} (hc : Counts E o cnt)
    (hmc : 0 < o.maxConsecFailures) (hmc8 : o.maxConsecFailures < 256)
    {mi : Int} (hmi : budget o mi < intMax) {fuel : Nat} (hf : o.maxConsecFailures ≤ fuel)
    (w : W) (s : S) (x : X) :
    ∃ st, optimizeAcc E o fuel mi w s x = .ok st ∧
      1 ≤ st.trace.length ∧ (st.trace.length : Int) ≤ budget o mi ∧
      cnt st.w ≤ cnt w + o.maxConsecFailures * st.trace.length := by
  have key : ∀ (n : Nat) (st : LoopSt F R W S X V M), st.out.numConsec < o.maxConsecFailures →
      ∃ st', loop E o fuel n st = .ok st' ∧
        cnt st'.w + o.maxConsecFailures * st.trace.length
          ≤ cnt st.w + o.maxConsecFailures * st'.trace.length := by
    intro n
    induction n with
    | zero => intro st _; exact ⟨st, rfl, by omega⟩
    | succ n ih =>
      intro st hst
      obtain ⟨st1, hb, hcnt, hnext⟩ := c01_body hh hc hmc8 hf (n == 0) hst
      obtain ⟨_, _, _, _, _, _, hsp⟩ := body_spec hb
      have hlen : st1.trace.length = st.trace.length + 1 := by rw [hsp.trace]; simp
      have hmul : o.maxConsecFailures * st1.trace.length
          = o.maxConsecFailures * st.trace.length + o.maxConsecFailures := by
        rw [hlen, Nat.mul_add, Nat.mul_one]
      unfold loop
      rw [hb, Res.bind_ok]
      by_cases hstop : st1.out.stop = .kNone
      · rw [if_neg (by simpa using hstop)]
        obtain ⟨st', hl, hcnt'⟩ := ih st1 (hnext hstop)
        exact ⟨st', hl, by omega⟩
      · rw [if_pos hstop]
        exact ⟨st1, rfl, by omega⟩
  obtain ⟨st0, hl, hcnt⟩ := key (budget o mi).toNat (initSt E w s x) hmc
  have hb := loopBound_eq_budget hmi
  have hopt : ∃ st, optimizeAcc E o fuel mi w s x = .ok st := by
    unfold optimizeAcc
    rw [hb]; simp only; rw [hl, Res.bind_ok]; exact ⟨_, rfl⟩
  obtain ⟨st, hst⟩ := hopt
  refine ⟨st, hst, ?_⟩
  obtain ⟨m, st0', hm, hl', rfl⟩ := optimizeAcc_spec hst
  have : m = budget o mi := budget_of_loopBound hm
  subst this
  rw [hl] at hl'
  injection hl' with hl'; subst hl'
  have hlen := loop_length (st := initSt E w s x) rfl hl
  have h1 := (loopBound_spec hm).2.1
  simp only [initSt, List.length_nil] at hlen hcnt
  refine ⟨by simp only; omega, by simp only; omega, by simp only; omega⟩

/-- The hypotheses of `C01_bounded_work` are met by a concrete problem. -/
example : ∃ st, optimizeAcc toySq { toyOpts with maxConsecFailures := 3 } 3 (-1) 0 toyS0 4 = .ok st ∧
    1 ≤ st.trace.length ∧ (st.trace.length : Int) ≤ 6 ∧ st.w ≤ 0 + 3 * st.trace.length :=
  C01_bounded_work (E := toySq) (o := { toyOpts with maxConsecFailures := 3 }) (cnt := id)
    ⟨fun _ _ => ⟨_, rfl⟩, fun _ => ⟨_, rfl⟩, fun _ => ⟨_, rfl⟩⟩
    ⟨fun _ _ _ => Nat.le_refl _, fun _ _ _ => rfl, fun _ => rfl, fun _ h => (nomatch h),
      fun _ h => (nomatch h)⟩
    (by decide) (by decide) (by decide) (Nat.le_refl _) 0 toyS0 4

/-! ## C02 -/

/-- a problem whose linear solve always fails, with a finite cost -/
def stuckEnv : ToyEnv := toyEnv (fun _ => ofInt 1) (fun _ => 1) (fun _ => none)

/-- **C02 is violated**: with `max_consec_failures = 0` (limit disabled) a run may never return:
whatever the number of rounds, the retry loop of the first iteration is still running. -/
theorem C02_diverges_without_limit (x : Int) (fuel : Nat) :
    optimizeAcc stuckEnv toyOpts fuel (-1) 0 toyS0 x = .fuel := by
  have key : ∀ n w s (out : Output D D Unit), out.numConsec ≤ 255 →
      retry stuckEnv toyOpts x n w s out = .fuel := by
    intro n
    induction n with
    | zero => intro w s out _; rfl
    | succ n ih =>
      intro w s out hle
      unfold retry
      rw [if_pos (by simpa [maxTries, toyOpts] using hle)]
      simp only [stuckEnv, toyEnv, if_true]
      rw [if_neg (by decide), if_neg (by decide +kernel), if_neg (by simp [toyOpts])]
      rw [Res.bind_ok]
      apply ih
      show inc8 _ ≤ 255
      unfold inc8; omega
  have hres : ∀ w s, resizeIfNeeded stuckEnv w s x = (.inr s, w) := by intro w s; rfl
  have hbound : loopBound toyOpts (-1) = some 6 := by decide +kernel
  have hstep : step stuckEnv toyOpts fuel (initSt stuckEnv 0 toyS0 x).w (initSt stuckEnv 0 toyS0 x).s
      (initSt stuckEnv 0 toyS0 x).x (initSt stuckEnv 0 toyS0 x).out = .fuel := by
    unfold step
    show (match resizeIfNeeded stuckEnv 0 toyS0 x with
      | _ => _) = _
    rw [hres]
    simp only
    show Res.bind (retry stuckEnv toyOpts x fuel 0 toyS0 _) _ = _
    rw [key _ _ _ _ (by simp [initSt, Output.init])]
    rfl
  have hbody : body stuckEnv toyOpts fuel (5 == 0) (initSt stuckEnv 0 toyS0 x) = .fuel := by
    unfold body; rw [hstep]; rfl
  unfold optimizeAcc
  rw [hbound]
  simp only
  show Res.bind (loop stuckEnv toyOpts fuel 6 _) _ = _
  unfold loop
  rw [hbody]
  rfl

/-- the run of the linear solver at `x` from world `w` and state `s` delivers a step, or a
failure that ends the run, within `n` rounds -/
def SolvesWithin (E : Env F R W S X V M) (x : X) : Nat → W → S → Prop
  | 0, _, _ => False
  | n + 1, w, s =>
    let (built, s1, w1) := E.sol.build w s x
    (built = true ∧ (E.sol.solve s1).isSome) ∨ (E.sol.cost s1).num = 0 ∨
      finite (E.sol.cost s1).cost = false ∨
      ∃ s2, E.sol.failedStep s1 = .ok s2 ∧ SolvesWithin E x n w1 s2

private theorem c02_retry {x : X} :
    ∀ {n : Nat} {w : W} {s : S} {out : Output F R M}, SolvesWithin E x n w s →
      ∃ e w' s' out', retry E o x n w s out = .ok (e, w', s', out') := by
  intro n
  induction n with
  | zero => intro w s out h; exact h.elim
  | succ n ih =>
    intro w s out h
    unfold retry
    split
    · unfold SolvesWithin at h
      rcases hb : E.sol.build w s x with ⟨built, s1, w1⟩
      rw [hb] at h
      simp only at h ⊢
      cases hdx : (if built = true then E.sol.solve s1 else none) with
      | some dx => exact ⟨_, _, _, _, rfl⟩
      | none =>
        simp only
        split
        · exact ⟨_, _, _, _, rfl⟩
        next hnum =>
          split
          · exact ⟨_, _, _, _, rfl⟩
          next hfin =>
            split
            · exact ⟨_, _, _, _, rfl⟩
            · have hfin' := finite_of_not hfin
              rcases h with ⟨h1, h2⟩ | h | h | ⟨s2, hs2, h⟩
              · rw [h1, if_pos rfl] at hdx; rw [hdx] at h2; cases h2
              · exact absurd h hnum
              · rw [hfin'] at h; cases h
              · rw [hs2, Res.bind_ok]
                exact ih h
    · exact ⟨_, _, _, _, rfl⟩

/-- **C02, partial.** For every option value, in particular with the limit on consecutive failures
disabled: a run returns provided that at every point the solver delivers a step (or an invalid cost)
after at most `K` failed attempts. (Without this proviso the property is false, see
`C02_diverges_without_limit`; with an active limit it holds, see `C01_bounded_work`.) -/
theorem C02_terminates_partial (hh : HooksDefined E) {K : Nat}
    (hK : ∀ x w s, SolvesWithin E x K w s) {mi : Int} (hmi : budget o mi < intMax)
    (w : W) (s : S) (x : X) :
    ∃ st, optimizeAcc E o K mi w s x = .ok st := by
  have hbody : ∀ last (st : LoopSt F R W S X V M), ∃ st', body E o K last st = .ok st' := by
    intro last st
    have hstep : ∃ p w1 s1 out1, step E o K st.w st.s st.x st.out = .ok (p, w1, s1, out1) := by
      unfold step
      rcases resizeIfNeeded E st.w st.s st.x with ⟨r | s1, w1⟩
      · exact ⟨_, _, _, _, rfl⟩
      · simp only
        obtain ⟨e, w', s', out', hret⟩ := c02_retry (o := o) (out := st.out) (hK st.x w1 s1)
        rw [hret, Res.bind_ok]
        cases e with
        | ret => exact ⟨_, _, _, _, rfl⟩
        | failed => exact ⟨_, _, _, _, rfl⟩
        | got dx c =>
          obtain ⟨p, w2, s2, out2, h2, _⟩ := afterSolve_total (o := o) hh (cnt := fun _ => 0)
            ⟨fun _ _ _ => Nat.zero_le _, fun _ _ _ => rfl, fun _ => rfl, fun _ _ _ _ _ _ => rfl,
              fun _ _ _ _ _ _ => rfl⟩ dx c w' s' out'
          exact ⟨p, w2, s2, out2, h2⟩
    obtain ⟨p, w1, s1, out1, hs⟩ := hstep
    obtain ⟨st', hb, _⟩ := body_of_step (last := last) hs
    exact ⟨st', hb⟩
  have key : ∀ (n : Nat) (st : LoopSt F R W S X V M), ∃ st', loop E o K n st = .ok st' := by
    intro n
    induction n with
    | zero => intro st; exact ⟨st, rfl⟩
    | succ n ih =>
      intro st
      obtain ⟨st1, hb⟩ := hbody (n == 0) st
      unfold loop
      rw [hb, Res.bind_ok]
      split
      · exact ⟨_, rfl⟩
      · exact ih st1
  obtain ⟨st0, hl⟩ := key (budget o mi).toNat (initSt E w s x)
  unfold optimizeAcc
  rw [loopBound_eq_budget hmi]; simp only; rw [hl, Res.bind_ok]; exact ⟨_, rfl⟩

/-- `C02_terminates_partial` applies to a run with all limits off. -/
example : ∃ st, optimizeAcc toySq toyOpts 1 (-1) 0 toyS0 4 = .ok st :=
  C02_terminates_partial (E := toySq) (o := toyOpts) (K := 1) ⟨fun _ _ => ⟨_, rfl⟩, fun _ => ⟨_, rfl⟩, fun _ => ⟨_, rfl⟩⟩
    (fun _ _ _ => Or.inl ⟨rfl, rfl⟩) (by decide) 0 toyS0 4

end
end Verif
