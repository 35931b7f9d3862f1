import Verif.Props.Stopping
/-!
# C08, C09, C13, C14: iteration, failure and time limits, success flags
-/

set_option linter.unusedSectionVars false

namespace Verif
open FloatOps

section
variable {F R W S X V M : Type} [FloatOps F]
variable {E : Env F R W S X V M} {o : Options F W V}

/-- Only the last call of `Step` of a run sets a stop reason, and the final stop reason is that one, a
time-out, or (if it set none) the exhausted budget. -/
theorem run_stops {fuel : Nat} {mi : Int} {w : W} {s : S} {x : X} {st : LoopSt F R W S X V M}
    (h : optimizeAcc E o fuel mi w s x = .ok st) :
    ∃ r, st.trace.getLast? = some r ∧ (∀ r ∈ st.trace.dropLast, r.out.stop = .kNone) ∧
      (st.out.stop = r.out.stop ∨ st.out.stop = .kTimedOut ∧ lt (ofInt 0) o.maxDurationMs = true ∨
       st.out.stop = .kMaxIters ∧ r.out.stop = .kNone) := by
  let I : LoopSt F R W S X V M → Prop := fun st => ∀ r ∈ st.trace, r.out.stop = .kNone
  let J : LoopSt F R W S X V M → Prop := fun st =>
    (∀ r ∈ st.trace.dropLast, r.out.stop = .kNone) ∧ (st.trace ≠ [] → ∃ r, st.trace.getLast? = some r ∧
      (st.out.stop = r.out.stop ∨ st.out.stop = .kTimedOut ∧ lt (ofInt 0) o.maxDurationMs = true))
  obtain ⟨m, st0, hm, hj, hi, ⟨hl1, hl2, hl3⟩, rfl⟩ := run_inv (I := I) (J := J) (E := E) (o := o) (by
    intro last st st' h0 hI hb
    obtain ⟨succ, mdx, w1, s1, out1, ms, hs⟩ := body_spec hb
    have hstop : st'.out.stop = timeStop o (add out1.duration ms) out1.stop := by rw [hs.out]
    refine ⟨?_, ?_, ?_⟩
    · intro hno r hr
      rw [hs.trace, List.mem_append, List.mem_singleton] at hr
      rcases hr with hr | rfl
      · exact hI r hr
      · rw [hstop] at hno; exact timeStop_none hno
    · rw [hs.trace, List.dropLast_concat]; exact hI
    · intro _
      refine ⟨_, by rw [hs.trace]; simp; rfl, ?_⟩
      rw [hstop]
      unfold timeStop
      split
      next ht => simp only [Bool.and_eq_true] at ht; exact Or.inr ⟨rfl, ht.1⟩
      · exact Or.inl rfl) (fun r hr => (nomatch hr)) ⟨fun r hr => (nomatch hr), fun h => absurd rfl h⟩ h
  have hne : st0.trace ≠ [] := by intro h; rw [h] at hl3; simp at hl3
  obtain ⟨h1, h2⟩ := hj
  obtain ⟨r, hr, hc⟩ := h2 hne
  refine ⟨r, hr, h1, ?_⟩
  simp only
  split
  next hk =>
    right; right
    refine ⟨rfl, ?_⟩
    rcases hc with hc | ⟨hc, _⟩
    · rw [← hc]; exact hk.1
    · rw [hk.1] at hc; cases hc
  · rcases hc with hc | hc
    · exact Or.inl hc
    · exact Or.inr (Or.inl hc)

/-! ## C08 -/

/-- a constant cost function: every step after the first one is rejected -/
def flatEnv : ToyEnv := toyEnv (fun _ => ofInt 1) (fun _ => 1) (fun _ => some 1)

theorem flat_build {w : Nat} {s : ToyS} {x : Int} {b s' w'} (h : flatEnv.sol.build w s x = (b, s', w')) :
    b = true ∧ (⟨{ cost := ofInt 1, num := 1, inlier := ofInt 1 }, some 1⟩ : ToyS) = s' :=
  ⟨(Prod.mk.inj h).1.symm, (Prod.mk.inj (Prod.mk.inj h).2).1⟩

theorem flat_no_fail {o : Options D Nat Int} {x : Int} {out : Output D D Unit} {a r}
    (hr : FailCause flatEnv o x out a r) (hmc : o.maxConsecFailures = 0) (hco : ConsecOk o out) : False := by
  cases hr with
  | noDims h => rcases h with ⟨h, _⟩ | h
                · exact Bool.noConfusion (show false = true from h)
                · exact absurd (show (1 : Int) < 0 from h) (by decide)
  | badDims w s w' h => exact ResizeOut.noConfusion rfl (heq_of_eq (Prod.mk.inj h).1)
  | oom w s w' h => exact ResizeOut.noConfusion rfl (heq_of_eq (Prod.mk.inj h).1)
  | noResiduals w s b s' w' h hn =>
    rw [← (flat_build h).2] at hn; exact absurd (show (1 : Int) = 0 from hn) (by decide)
  | badCost w s b s' w' h hn =>
    rw [← (flat_build h).2] at hn; exact absurd hn (by decide +kernel)
  | badDx w s s' w' dx h hs hn =>
    rw [← (flat_build h).2] at hs
    have hdx : (1 : Int) = dx := Option.some.inj hs
    rw [← hdx] at hn; exact absurd hn (by decide +kernel)
  | solver w s b s' w' h hs hm ha => omega
  | tries h => exact hco.tries h

/-- all limits off except `max_iters = 65535` -/
def longOpts : Options D Nat Int := { toyOpts with maxIters := 65535 }

/-- **C08 is violated**: with `max_iters = 65535` (a legal value of the 16 bit option) and all other
limits off, a run on a constant cost goes through 65536 iterations and returns
with `stop_reason == kNone` and `num_iters == 0`. -/
theorem C08_max_iters_wraps : ∃ st : LoopSt D D Nat ToyS Int Int Unit,
    optimizeAcc flatEnv longOpts 1 (-1) 0 toyS0 0 = .ok st ∧
    st.trace.length = 65536 ∧ st.out.stop = .kNone ∧ st.out.numIters = 0 := by
  obtain ⟨st, h⟩ := C02_terminates_partial (E := flatEnv) (o := longOpts) (K := 1)
    ⟨fun _ _ => ⟨_, rfl⟩, fun _ => ⟨_, rfl⟩, fun _ => ⟨_, rfl⟩⟩
    (fun _ _ _ => Or.inl ⟨rfl, rfl⟩) (mi := -1) (by decide) 0 toyS0 0
  let I : LoopSt D D Nat ToyS Int Int Unit → Prop := fun st =>
    st.out.stop = .kNone ∧ st.out.numIters = st.trace.length % 65536 ∧
      ConsecOk longOpts st.out
  have hz : lt (ofInt 0 : D) (ofInt 0) = false := by decide +kernel
  have hcrit : ∀ (w : Nat) (a b c d : D) (e g : Int),
      criteria longOpts w a b c d e g = (none, w) := by
    intro w a b c d e g
    unfold criteria
    simp [longOpts, toyOpts, callStop1, callStop2, hz]
  obtain ⟨m, st0, hm, hj, -, ⟨hl1, hl2, hl3⟩, rfl⟩ := run_inv (I := I) (J := I) (E := flatEnv)
    (o := longOpts) (by
    intro last st st' h0 hI hb
    have hn' := numIters_inv hb hI.2.1
    obtain ⟨succ, mdx, w1, s1, out1, ms, hs⟩ := body_spec hb
    have hstop : st'.out.stop = .kNone := by
      rw [hs.out]
      simp only
      have htime : timeStop longOpts (add out1.duration ms) out1.stop = out1.stop := by
        unfold timeStop; rw [if_neg (by simp [longOpts, toyOpts, hz])]
      rw [htime]
      have hst := hs.step
      generalize hp : (succ, mdx) = p at hst
      cases hst with
      | fail w' s' a b r hr =>
        exact (flat_no_fail hr rfl hI.2.2).elim
      | good w2 s2 dx c a b g s3 w3 r ev hc hd hg hgi hs3 hcr =>
        rw [hcrit] at hcr; cases hcr; exact h0
      | badStop w2 s2 dx c a b s3 r ev hc hd hg hi' hs3 hr =>
        rcases hr with ⟨_, h1, _⟩ | ⟨_, _, h1, _⟩ <;> exact absurd h1 (by decide)
      | bad w2 s2 dx c a b s3 w3 r ev hc hd hg hi' hs3 hmc hmt hcr =>
        rw [hcrit] at hcr; cases hcr; exact h0
    have hco : ConsecOk longOpts st'.out := by
      have h1 : out1.stop = .kNone := by
        have e : st'.out.stop = timeStop longOpts (add out1.duration ms) out1.stop := by rw [hs.out]
        exact timeStop_none (e.symm.trans hstop)
      have := ConsecOk.step hs.step h1
      unfold ConsecOk at this ⊢
      rw [hs.out]; exact this
    exact ⟨fun _ => ⟨hstop, hn', hco⟩, hstop, hn', hco⟩)
    ⟨rfl, rfl, Nat.zero_lt_succ _⟩ ⟨rfl, rfl, Nat.zero_lt_succ _⟩ h
  have hmv : m = 65536 := (budget_of_loopBound hm).trans (by decide +kernel)
  have hlen : st0.trace.length = 65536 := by have := hl2 hj.1; omega
  have hni : st0.out.numIters = 0 := by rw [hj.2.1, hlen]
  refine ⟨_, h, hlen, ?_, hni⟩
  simp only
  rw [if_neg (by rw [hni, hmv]; simp), hj.1]

/-- **C08, partial.** If the iteration budget is at most 65535 (that is `max_iters` at most 65534, or 65533
with `check_final_cost`), a finished run reports a stop reason and the number of its iterations. For larger
values it may not, see `C08_max_iters_wraps`. -/
theorem C08_reports_stop_partial {fuel : Nat} {mi : Int} (hmi : budget o mi ≤ 65535)
    {w : W} {s : S} {x : X} {st : LoopSt F R W S X V M}
    (h : optimizeAcc E o fuel mi w s x = .ok st) :
    st.out.stop ≠ .kNone ∧ st.out.numIters = st.trace.length := by
  let I : LoopSt F R W S X V M → Prop := fun st => st.out.numIters = st.trace.length % 65536
  obtain ⟨m, st0, hm, hj, -, ⟨hl1, hl2, hl3⟩, rfl⟩ := run_inv (I := I) (J := I) (E := E)
    (o := o) (fun last st st' h0 hI hb => ⟨fun _ => numIters_inv hb hI, numIters_inv hb hI⟩) rfl rfl h
  have hm' := budget_of_loopBound hm
  have hn : st0.out.numIters = st0.trace.length := by
    have : st0.out.numIters = st0.trace.length % 65536 := hj
    omega
  refine ⟨?_, hn⟩
  simp only
  split
  · decide
  next hk =>
    intro hno
    exact hk ⟨hno, by have := hl2 hno; omega⟩

/-- a run that stops because its budget is used up -/
example : ∃ st, optimizeAcc flatEnv toyOpts 1 (-1) 0 toyS0 0 = .ok st ∧
    (st.out.stop == .kMaxIters && st.out.numIters == 6 && decide (budget toyOpts (-1) ≤ 65535)) = true :=
  Res.exists_of_holds (by decide +kernel)

/-! ## C09 -/

/-- **C09 is violated**: a first evaluation that returns NaN and takes longer than the time limit ends with
`Succeeded() == true`, although no step was ever made and `final_cost` is still the largest double. -/
theorem C09_timeout_hides_failure : ∃ st r,
    optimizeAcc (toyEnv (fun _ => .nan) (fun _ => 1) (fun _ => some 1))
      { toyOpts with maxDurationMs := div (ofInt 1) (ofInt 2) } 1 (-1) 0 toyS0 0 = .ok st ∧
    st.trace.getLast? = some r ∧ r.out.stop = .kSystemHasNaNOrInf ∧
    st.out.succeeded = true ∧ st.out.finalCost.cost = maxVal := by
  obtain ⟨st, h, hp⟩ := Res.exists_of_holds (p := fun (st : LoopSt D D Nat ToyS Int Int Unit) =>
      st.trace.length == 1 && st.trace.all (fun r => r.out.stop == .kSystemHasNaNOrInf) &&
      st.out.succeeded && st.out.finalCost.cost == maxVal)
    (r := optimizeAcc (toyEnv (fun _ => .nan) (fun _ => 1) (fun _ => some 1))
      { toyOpts with maxDurationMs := div (ofInt 1) (ofInt 2) } 1 (-1) 0 toyS0 0) (by decide +kernel)
  simp only [Bool.and_eq_true, beq_iff_eq, List.all_eq_true] at hp
  obtain ⟨⟨⟨h1, h2⟩, h3⟩, h4⟩ := hp
  obtain ⟨r, ht⟩ := List.length_eq_one_iff.1 h1
  exact ⟨st, r, h, by rw [ht]; rfl, h2 r (by rw [ht]; exact List.mem_singleton.2 rfl), h3, h4⟩

/-- **C09, partial.** `Converged()` holds exactly for the four convergence reasons, `Succeeded()` exactly if
the reason is not one of the four failures. If there is no time limit (or the run did not end by it)
`Succeeded()` is false exactly if the last iteration failed, that is, did not measure an error.
Missing: a time-out replaces the failure, see `C09_timeout_hides_failure`. -/
theorem C09_flags_faithful_partial {fuel : Nat} {mi : Int} {w : W} {s : S} {x : X}
    {st : LoopSt F R W S X V M} (h : optimizeAcc E o fuel mi w s x = .ok st) :
    (st.out.converged = true ↔ st.out.stop ∈
      [StopReason.kMinError, .kMinRelError, .kMinDeltaNorm, .kMinGradNorm]) ∧
    (st.out.succeeded = false ↔ st.out.stop ∈
      [StopReason.kOutOfMemory, .kSolverFailed, .kSystemHasNaNOrInf, .kSkipped]) ∧
    (lt (ofInt 0) o.maxDurationMs = false ∨ st.out.stop ≠ .kTimedOut →
        (st.out.succeeded = false ↔ st.out.errs.length < st.trace.length)) := by
  refine ⟨?_, ?_, ?_⟩
  · unfold Output.converged
    generalize st.out.stop = r
    cases r <;> simp [StopReason.code]
  · unfold Output.succeeded
    generalize st.out.stop = r
    cases r <;> simp [StopReason.code]
  · let I : LoopSt F R W S X V M → Prop := fun st => st.out.errs.length = st.trace.length
    let J : LoopSt F R W S X V M → Prop := fun st =>
      lt (ofInt 0) o.maxDurationMs = false ∨ st.out.stop ≠ .kTimedOut →
        (st.out.stop.code < 0 ↔ st.out.errs.length < st.trace.length)
    obtain ⟨m, st0, hm, hj, hi, ⟨hl1, hl2, hl3⟩, rfl⟩ := run_inv (I := I) (J := J) (E := E) (o := o) (by
      intro last st st' h0 hI hb
      obtain ⟨succ, mdx, w1, s1, out1, ms, hs⟩ := body_spec hb
      have hI : st.out.errs.length = st.trace.length := hI
      have hlen : st'.trace.length = st.trace.length + 1 := by rw [hs.trace]; simp
      have hstop : st'.out.stop = timeStop o (add out1.duration ms) out1.stop := by rw [hs.out]
      have herr : st'.out.errs = out1.errs := by rw [hs.out]
      rcases hs.step.push_code h0 with ⟨hc, _, e1, e2, e3⟩ | ⟨hc, hct, e1, e2, e3⟩
      · refine ⟨?_, ?_⟩
        · intro hno
          rw [hstop] at hno
          rw [timeStop_none hno] at hc
          exact absurd hc (by decide)
        · intro ht
          have hs1 : st'.out.stop = out1.stop := by
            rw [hstop] at ht ⊢
            unfold timeStop at ht ⊢
            split
            next hk =>
              rw [if_pos hk] at ht
              simp only [Bool.and_eq_true] at hk
              rcases ht with ht | ht
              · rw [ht] at hk; cases hk.1
              · exact absurd rfl ht
            · rfl
          rw [hs1, herr, e1, hlen]
          exact ⟨fun _ => by omega, fun _ => hc⟩
      · have he : st'.out.errs.length = st'.trace.length := by rw [herr]; omega
        refine ⟨fun _ => he, fun _ => ?_⟩
        rw [he]
        refine ⟨fun hneg => ?_, fun hlt => absurd hlt (Nat.lt_irrefl _)⟩
        exfalso
        rw [hstop] at hneg
        rcases timeStop_or (o := o) (add out1.duration ms) out1.stop with h | h
        · rw [h] at hneg; omega
        · rw [h] at hneg; exact absurd hneg (by decide))
      rfl (fun _ => ⟨fun h => absurd (show (0 : Int) < 0 from h) (by decide), fun h => absurd h (Nat.lt_irrefl _)⟩) h
    intro ht
    simp only at ht ⊢
    unfold Output.succeeded
    simp only
    by_cases hk : st0.out.stop = .kNone ∧ (st0.out.numIters : Int) ≥ m
    · rw [if_pos hk]
      have he : st0.out.errs.length = st0.trace.length := hi hk.1
      rw [he]; simp [StopReason.code]
    · rw [if_neg hk] at ht ⊢
      rw [← hj ht]
      simp [StopReason.code]

/-- Without time limit the failure of `C09_timeout_hides_failure` is reported. -/
example : ∃ st, optimizeAcc (toyEnv (fun _ => .nan) (fun _ => 1) (fun _ => some 1))
      toyOpts 1 (-1) 0 toyS0 0 = .ok st ∧
    (!st.out.succeeded && st.out.errs.length == 0 && st.trace.length == 1) = true :=
  Res.exists_of_holds (by decide +kernel)

end
end Verif
