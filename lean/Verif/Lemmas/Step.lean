import Verif.Model.Optimizer
/-!
# Case analysis of one call of `Step`
-/

set_option linter.unusedSectionVars false

namespace Verif
open FloatOps

section
variable {F R W S X V M : Type} [FloatOps F]
variable {E : Env F R W S X V M} {o : Options F W V}

/-- `Step` obtained the step `dx` and the cost `c` from a successful build and solve at `x`. -/
structure Evald (E : Env F R W S X V M) (x : X) (w2 : W) (s2 : S) (dx : V) (c : Cost F R) : Prop where
  built : ∃ wb sb, E.sol.build wb sb x = (true, s2, w2)
  solved : E.sol.solve s2 = some dx
  cost : c = E.sol.cost s2

/-- What the retry loop may change in the output. -/
def retryOut (out : Output F R M) (a b : Nat) (r : StopReason) : Output F R M :=
  { out with numConsec := a, numFailures := b, stop := r }

theorem retryOut_self (out : Output F R M) :
    out = retryOut out out.numConsec out.numFailures out.stop := rfl

/-- Why an iteration failed before producing a step. `a` is the resulting number of consecutive
failures. -/
inductive FailCause (E : Env F R W S X V M) (o : Options F W V) (x : X) (out : Output F R M) (a : Nat) :
    StopReason → Prop
  | noDims (h : (E.dimsDynamic = true ∧ E.dynDims x = 0) ∨ E.dynDims x < 0) : FailCause E o x out a .kSkipped
  | badDims (w s w') (h : E.sol.resize w s (E.dynDims x) = (.invalidArg, w')) :
      FailCause E o x out a .kSkipped
  | oom (w s w') (h : E.sol.resize w s (E.dynDims x) = (.badAlloc, w')) :
      FailCause E o x out a .kOutOfMemory
  | noResiduals (w s b s' w') (h : E.sol.build w s x = (b, s', w')) (hn : (E.sol.cost s').num = 0) :
      FailCause E o x out a .kSkipped
  | badCost (w s b s' w') (h : E.sol.build w s x = (b, s', w')) (hn : finite (E.sol.cost s').cost = false) :
      FailCause E o x out a .kSystemHasNaNOrInf
  | badDx (w s s' w' dx) (h : E.sol.build w s x = (true, s', w')) (hs : E.sol.solve s' = some dx)
      (hn : finite (E.normSq dx) = false) : FailCause E o x out a .kSystemHasNaNOrInf
  | solver (w s b s' w') (h : E.sol.build w s x = (b, s', w')) (hs : b = false ∨ E.sol.solve s' = none)
      (hm : 0 < o.maxConsecFailures) (ha : o.maxConsecFailures ≤ a) :
      FailCause E o x out a .kSolverFailed
  | tries (h : maxTries o < out.numConsec) : FailCause E o x out a .kSolverFailed

theorem FailCause.code {x : X} {out : Output F R M} {a r} (h : FailCause E o x out a r) : r.code < 0 := by
  cases h <;> decide

theorem not_finite_of {a : F} (h : (isNaN a || isInf a) = true) : finite a = false := by
  unfold finite; revert h; cases isNaN a <;> cases isInf a <;> simp

theorem retry_spec {x : X} : ∀ {n : Nat} {w : W} {s : S} {out : Output F R M} {e w' s' out'},
    retry E o x n w s out = .ok (e, w', s', out') →
    ∃ a b r, out' = retryOut out a b r ∧
      match e with
      | .ret => FailCause E o x out a r
      | .failed => FailCause E o x out a .kSolverFailed
      | .got dx c => r = out.stop ∧ Evald E x w' s' dx c := by
  intro n
  induction n with
  | zero => intro w s out e w' s' out' h; simp [retry] at h
  | succ n ih =>
    intro w s out e w' s' out' h
    unfold retry at h
    split at h
    next hle =>
      rcases hb : E.sol.build w s x with ⟨built, s1, w1⟩
      rw [hb] at h
      simp only at h
      split at h
      next dx hdx =>
        injection h with h; obtain ⟨rfl, rfl, rfl, rfl⟩ := h
        refine ⟨_, _, _, retryOut_self _, rfl, ⟨w, s, ?_⟩, ?_, rfl⟩
        · cases built
          · simp at hdx
          · exact hb
        · cases built
          · simp at hdx
          · simpa using hdx
      next hdx =>
        split at h
        next hnum =>
          injection h with h; obtain ⟨rfl, rfl, rfl, rfl⟩ := h
          exact ⟨_, _, _, rfl, .noResiduals _ _ _ _ _ hb hnum⟩
        · split at h
          next hnan =>
            injection h with h; obtain ⟨rfl, rfl, rfl, rfl⟩ := h
            exact ⟨_, _, _, rfl, .badCost _ _ _ _ _ hb (not_finite_of hnan)⟩
          · split at h
            next hmc =>
              have hsf : built = false ∨ E.sol.solve s1 = none := by
                cases built
                · exact Or.inl rfl
                · right; simpa using hdx
              injection h with h; obtain ⟨rfl, rfl, rfl, rfl⟩ := h
              simp only [Bool.and_eq_true, decide_eq_true_eq, gt_iff_lt, ge_iff_le] at hmc
              split
              · exact ⟨_, _, _, rfl, .solver _ _ _ _ _ hb hsf hmc.1 hmc.2⟩
              · exact ⟨_, _, _, rfl, .solver _ _ _ _ _ hb hsf hmc.1 hmc.2⟩
            next hmc =>
              rw [Res.bind_eq_ok] at h
              obtain ⟨s2, hs2, h⟩ := h
              obtain ⟨a, b, r, rfl, hr⟩ := ih h
              refine ⟨a, b, r, rfl, ?_⟩
              simp only [Bool.and_eq_true, decide_eq_true_eq, gt_iff_lt, ge_iff_le] at hmc
              have hle' : inc8 out.numConsec ≤ maxTries o := by
                unfold maxTries
                by_cases h0 : o.maxConsecFailures > 0
                · rw [if_pos h0]; omega
                · rw [if_neg h0]; unfold inc8; omega
              have lift : ∀ r, FailCause E o x { out with
                    numConsec := inc8 out.numConsec, numFailures := inc8 out.numFailures } a r →
                  FailCause E o x out a r := by
                intro r h
                cases h with
                | noDims h => exact .noDims h
                | badDims _ _ _ h => exact .badDims _ _ _ h
                | oom _ _ _ h => exact .oom _ _ _ h
                | noResiduals _ _ _ _ _ h1 h2 => exact .noResiduals _ _ _ _ _ h1 h2
                | badCost _ _ _ _ _ h1 h2 => exact .badCost _ _ _ _ _ h1 h2
                | badDx _ _ _ _ _ h1 h2 h3 => exact .badDx _ _ _ _ _ h1 h2 h3
                | solver _ _ _ _ _ h1 h2 h3 h4 => exact .solver _ _ _ _ _ h1 h2 h3 h4
                | tries h => simp only at h; omega
              cases e with
              | ret => exact lift _ hr
              | failed => exact lift _ hr
              | got dx c => exact hr
    next hle =>
      injection h with h; obtain ⟨rfl, rfl, rfl, rfl⟩ := h
      exact ⟨_, _, _, retryOut_self _, .tries (by omega)⟩

/-- the output with the histories extended by one entry -/
def pushOut (out : Output F R M) (err dn2 : F) (good : Bool) : Output F R M :=
  { out with errs := out.errs ++ [err], deltas2 := out.deltas2 ++ [dn2],
             successes := out.successes ++ [good] }

/-- the gradient norm passed to the criteria -/
def gn2Of (E : Env F R W S X V M) (o : Options F W V) (s : S) : F :=
  if hasGradNorm2 o then E.sol.gradSq s else ofInt 0

/-- All possible results of `Step`. -/
inductive StepSpec (E : Env F R W S X V M) (o : Options F W V) (x : X) (out : Output F R M) :
    Bool × Option V → W → S → Output F R M → Prop
  /-- the iteration failed before producing a step -/
  | fail (w' s' a b r) (hr : FailCause E o x out a r) : StepSpec E o x out (false, none) w' s' (retryOut out a b r)
  /-- a good step (or the first iteration) -/
  | good (w2 s2 dx c a b g s3 w3 r)
      (ev : Evald E x w2 s2 dx c) (hc : finite c.cost = true) (hd : finite (E.normSq dx) = true)
      (hg : g = lt (sub c.cost out.finalCost.cost) (ofInt 0))
      (hgi : g = true ∨ out.numIters = 0)
      (hs3 : if out.numIters > 0 then
          E.sol.goodStep s2 (if o.useStepQuality then relDerr out.finalCost.cost c.cost else ofInt 0)
            = .ok s3 else s2 = s3)
      (hcr : criteria o w2 c.cost (relDerr out.finalCost.cost c.cost) (E.normSq dx) (gn2Of E o s2) dx
          (E.sol.gradient s3) = (r, w3)) :
      StepSpec E o x out (g, some dx) w3 s3
        { pushOut (retryOut out a b out.stop) c.cost (E.normSq dx) g with
          numConsec := 0, finalCost := c, finalRerr := relDerr out.finalCost.cost c.cost,
          stop := r.getD out.stop }
  /-- a bad step that reaches a failure limit -/
  | badStop (w2 s2 dx c a b s3 r)
      (ev : Evald E x w2 s2 dx c) (hc : finite c.cost = true) (hd : finite (E.normSq dx) = true)
      (hg : lt (sub c.cost out.finalCost.cost) (ofInt 0) = false) (hi : out.numIters ≠ 0)
      (hs3 : E.sol.badStep s2 = .ok s3)
      (hr : r = .kMaxConsecNoDecr ∧ 0 < o.maxConsecFailures ∧ o.maxConsecFailures ≤ inc8 a ∨
            r = .kMaxNoDecr ∧ (o.maxConsecFailures = 0 ∨ inc8 a < o.maxConsecFailures) ∧
            0 < o.maxTotalFailures ∧ o.maxTotalFailures ≤ inc8 b) :
      StepSpec E o x out (false, none) w2 s3
        { pushOut (retryOut out a b out.stop) c.cost (E.normSq dx) false with
          numConsec := inc8 a, numFailures := inc8 b, stop := r }
  /-- a bad step that does not reach a failure limit -/
  | bad (w2 s2 dx c a b s3 w3 r)
      (ev : Evald E x w2 s2 dx c) (hc : finite c.cost = true) (hd : finite (E.normSq dx) = true)
      (hg : lt (sub c.cost out.finalCost.cost) (ofInt 0) = false) (hi : out.numIters ≠ 0)
      (hs3 : E.sol.badStep s2 = .ok s3)
      (hmc : o.maxConsecFailures = 0 ∨ inc8 a < o.maxConsecFailures)
      (hmt : o.maxTotalFailures = 0 ∨ inc8 b < o.maxTotalFailures)
      (hcr : criteria o w2 c.cost (relDerr out.finalCost.cost c.cost) (E.normSq dx) (gn2Of E o s2) dx
          (E.sol.gradient s3) = (r, w3)) :
      StepSpec E o x out (false, some dx) w3 s3
        { pushOut (retryOut out a b out.stop) c.cost (E.normSq dx) false with
          numConsec := inc8 a, numFailures := inc8 b, stop := r.getD out.stop }

theorem finite_of_not {a : F} (h : ¬ (isNaN a || isInf a) = true) : finite a = true := by
  unfold finite; revert h; cases isNaN a <;> cases isInf a <;> simp

theorem resizeIfNeeded_cause {w : W} {s : S} {x : X} {r w1} {out : Output F R M} {a : Nat}
    (h : resizeIfNeeded E w s x = (.inl r, w1)) : FailCause E o x out a r := by
  unfold resizeIfNeeded at h
  simp only at h
  split at h
  next hd =>
    obtain ⟨h, _⟩ := Prod.mk.inj h; injection h with h; subst h
    exact .noDims (Or.inl (by simpa using hd))
  · split at h
    next hd =>
      obtain ⟨h, _⟩ := Prod.mk.inj h; injection h with h; subst h
      exact .noDims (Or.inr hd)
    · split at h
      · obtain ⟨h, _⟩ := Prod.mk.inj h; cases h
      next hd => obtain ⟨h, _⟩ := Prod.mk.inj h; injection h with h; subst h; exact .oom _ _ _ hd
      next hd => obtain ⟨h, _⟩ := Prod.mk.inj h; injection h with h; subst h; exact .badDims _ _ _ hd

theorem step_spec {fuel : Nat} {w : W} {s : S} {x : X} {out : Output F R M} {p w' s' out'}
    (h : step E o fuel w s x out = .ok (p, w', s', out')) : StepSpec E o x out p w' s' out' := by
  unfold step at h
  split at h
  next reason w1 hr =>
    injection h with h; obtain ⟨rfl, rfl, rfl, rfl⟩ := h
    exact .fail _ _ out.numConsec out.numFailures reason (resizeIfNeeded_cause hr)
  next s1 w1 hr =>
    rw [Res.bind_eq_ok] at h
    obtain ⟨⟨e, w2, s2, out2⟩, h1, h⟩ := h
    obtain ⟨a, b, r, rfl, hr⟩ := retry_spec h1
    cases e with
    | ret =>
      simp only at h hr
      injection h with h; obtain ⟨rfl, rfl, rfl, rfl⟩ := h
      exact .fail _ _ a b r hr
    | failed =>
      simp only at h hr
      injection h with h; obtain ⟨rfl, rfl, rfl, rfl⟩ := h
      exact .fail _ _ a b .kSolverFailed hr
    | got dx c =>
      simp only at h hr
      obtain ⟨rfl, ev⟩ := hr
      obtain ⟨wb, sb, hbuilt⟩ := ev.built
      unfold afterSolve at h
      simp only at h
      split at h
      next hnan =>
        injection h with h; obtain ⟨rfl, rfl, rfl, rfl⟩ := h
        exact .fail _ _ a b .kSystemHasNaNOrInf
          (.badCost _ _ _ _ _ hbuilt (by rw [← ev.cost]; exact not_finite_of hnan))
      next hc =>
        split at h
        next hnan =>
          injection h with h; obtain ⟨rfl, rfl, rfl, rfl⟩ := h
          exact .fail _ _ a b .kSystemHasNaNOrInf
            (.badDx _ _ _ _ _ hbuilt ev.solved (not_finite_of hnan))
        next hd =>
          have hc := finite_of_not hc
          have hd := finite_of_not hd
          split at h
          next hgi =>
            rw [Res.bind_eq_ok] at h
            obtain ⟨s3, hs3, h⟩ := h
            injection h with h; obtain ⟨rfl, rfl, rfl, rfl⟩ := h
            refine .good w2 s2 dx c a b _ _ _ _ ev hc hd rfl ?_ ?_ ?_
            · simpa [retryOut] using hgi
            · by_cases h0 : out.numIters > 0
              · rw [if_pos h0]; simpa [retryOut, h0] using hs3
              · rw [if_neg h0]; simpa [retryOut, h0] using hs3
            · rfl
          next hgi =>
            rw [Res.bind_eq_ok] at h
            obtain ⟨s3, hs3, h⟩ := h
            have hgi' : lt (sub c.cost out.finalCost.cost) (ofInt 0) = false ∧ out.numIters ≠ 0 := by
              simpa [retryOut] using hgi
            split at h
            next hmc =>
              injection h with h; obtain ⟨rfl, rfl, rfl, rfl⟩ := h
              rw [show lt (sub c.cost (retryOut out a b out.stop).finalCost.cost) (ofInt 0) = false
                from hgi'.1]
              exact .badStop _ s2 dx c a b _ .kMaxConsecNoDecr ev hc hd hgi'.1 hgi'.2 hs3
                (Or.inl ⟨rfl, by simpa [retryOut] using hmc⟩)
            next hmc =>
              have hmc' : o.maxConsecFailures = 0 ∨ inc8 a < o.maxConsecFailures := by
                simp only [retryOut, Bool.and_eq_true, decide_eq_true_eq, gt_iff_lt, ge_iff_le] at hmc
                omega
              split at h
              next hmt =>
                injection h with h; obtain ⟨rfl, rfl, rfl, rfl⟩ := h
                rw [show lt (sub c.cost (retryOut out a b out.stop).finalCost.cost) (ofInt 0) = false
                  from hgi'.1]
                exact .badStop _ s2 dx c a b _ .kMaxNoDecr ev hc hd hgi'.1 hgi'.2 hs3
                  (Or.inr ⟨rfl, hmc', by simpa [retryOut] using hmt⟩)
              next hmt =>
                have hmt' : o.maxTotalFailures = 0 ∨ inc8 b < o.maxTotalFailures := by
                  simp only [retryOut, Bool.and_eq_true, decide_eq_true_eq, gt_iff_lt, ge_iff_le] at hmt
                  omega
                injection h with h; obtain ⟨rfl, rfl, rfl, rfl⟩ := h
                rw [show lt (sub c.cost (retryOut out a b out.stop).finalCost.cost) (ofInt 0) = false
                  from hgi'.1]
                exact .bad w2 s2 dx c a b _ _ _ ev hc hd hgi'.1 hgi'.2 hs3 hmc' hmt' rfl

end
end Verif
