import Verif.Props.Position
/-!
# C07, C08, C09: stop reasons
-/

set_option linter.unusedSectionVars false

namespace Verif
open FloatOps

section
variable {F R W S X V M : Type} [FloatOps F]
variable {E : Env F R W S X V M} {o : Options F W V}

/-- Specification of C07: what the user may conclude from a stop reason. `x` is the point of the last
iteration, `m` the iteration budget. -/
def Justified (E : Env F R W S X V M) (o : Options F W V) (m : Int) (x : X) (out : Output F R M) :
    StopReason → Prop
  | .kNone => False
  | .kMinError => lt (ofInt 0) o.minError = true ∧
      ∃ e, out.errs.getLast? = some e ∧ lt e o.minError = true
  | .kMinRelError => lt (ofInt 0) o.minRerrDec = true ∧
      ∃ e best, out.errs.getLast? = some e ∧ IsMinOf best out.errs.dropLast ∧
        lt eps best = true ∧ lt best scalarMax = true ∧ lt (ofInt 0) (div (sub best e) best) = true ∧ lt (div (sub best e) best) o.minRerrDec = true
  | .kMinDeltaNorm => lt (ofInt 0) o.minStepNorm2 = true ∧
      ∃ d, out.deltas2.getLast? = some d ∧ lt d o.minStepNorm2 = true
  | .kMinGradNorm => lt (ofInt 0) o.minGradNorm2 = true ∧
      ∃ w s s' w', E.sol.build w s x = (true, s', w') ∧ lt (E.sol.gradSq s') o.minGradNorm2 = true
  | .kMaxIters => (out.numIters : Int) = m
  | .kMaxNoDecr => 0 < o.maxTotalFailures ∧ o.maxTotalFailures ≤ out.numFailures
  | .kMaxConsecNoDecr => 0 < o.maxConsecFailures ∧ o.maxConsecFailures ≤ out.numConsec
  | .kTimedOut => lt (ofInt 0) o.maxDurationMs = true ∧ lt o.maxDurationMs out.duration = true
  | .kUserStopped => ∃ e d, out.errs.getLast? = some e ∧ out.deltas2.getLast? = some d ∧
      ((∃ cb w g, o.stopCallback = some cb ∧ (cb w e d g).1 = true) ∨
       (∃ cb w dx g, o.stopCallback2 = some cb ∧ E.normSq dx = d ∧ (cb w e dx g).1 = true))
  | .kSkipped => (E.dimsDynamic = true ∧ E.dynDims x = 0) ∨ E.dynDims x < 0 ∨
      (∃ w s w', E.sol.resize w s (E.dynDims x) = (.invalidArg, w')) ∨
      (∃ w s b s' w', E.sol.build w s x = (b, s', w') ∧ (E.sol.cost s').num = 0)
  | .kOutOfMemory => ∃ w s w', E.sol.resize w s (E.dynDims x) = (.badAlloc, w')
  | .kSystemHasNaNOrInf => ∃ w s b s' w', E.sol.build w s x = (b, s', w') ∧
      (finite (E.sol.cost s').cost = false ∨
       ∃ dx, E.sol.solve s' = some dx ∧ finite (E.normSq dx) = false)
  | .kSolverFailed => 0 < o.maxConsecFailures ∧ o.maxConsecFailures ≤ out.numConsec ∧
      ∃ w s b s' w', E.sol.build w s x = (b, s', w') ∧ (b = false ∨ E.sol.solve s' = none)

/-- what fired, if a criterion fired -/
theorem criteria_just {w : W} {err rel dn2 gn2 : F} {dx g : V} {r w'}
    (h : criteria o w err rel dn2 gn2 dx g = (some r, w')) :
    (r = .kMinError ∧ lt (ofInt 0) o.minError = true ∧ lt err o.minError = true) ∨
    (r = .kMinRelError ∧ lt (ofInt 0) o.minRerrDec = true ∧ lt (ofInt 0) rel = true ∧
      lt rel o.minRerrDec = true) ∨
    (r = .kMinDeltaNorm ∧ lt (ofInt 0) o.minStepNorm2 = true ∧ lt dn2 o.minStepNorm2 = true) ∨
    (r = .kMinGradNorm ∧ lt (ofInt 0) o.minGradNorm2 = true ∧ lt gn2 o.minGradNorm2 = true) ∨
    (r = .kUserStopped ∧ ((∃ cb w, o.stopCallback = some cb ∧ (cb w err dn2 gn2).1 = true) ∨
      (∃ cb w, o.stopCallback2 = some cb ∧ (cb w err dx g).1 = true))) := by
  unfold criteria at h
  split at h
  next hc => cases h; simp only [Bool.and_eq_true] at hc; exact Or.inl ⟨rfl, hc⟩
  split at h
  next hc =>
    cases h; simp only [Bool.and_eq_true] at hc
    exact Or.inr (Or.inl ⟨rfl, hc.1.1, hc.1.2, hc.2⟩)
  split at h
  next hc => cases h; simp only [Bool.and_eq_true] at hc; exact Or.inr (Or.inr (Or.inl ⟨rfl, hc⟩))
  split at h
  next hc =>
    cases h; simp only [Bool.and_eq_true] at hc; exact Or.inr (Or.inr (Or.inr (Or.inl ⟨rfl, hc⟩)))
  split at h
  next hc =>
    cases h
    refine Or.inr (Or.inr (Or.inr (Or.inr ⟨rfl, Or.inl ?_⟩)))
    unfold callStop1 at hc
    cases hcb : o.stopCallback with
    | none => rw [hcb] at hc; cases hc
    | some cb => rw [hcb] at hc; exact ⟨cb, w, rfl, hc⟩
  split at h
  next hc =>
    cases h
    refine Or.inr (Or.inr (Or.inr (Or.inr ⟨rfl, Or.inr ?_⟩)))
    unfold callStop2 at hc
    cases hcb : o.stopCallback2 with
    | none => rw [hcb] at hc; cases hc
    | some cb => rw [hcb] at hc; exact ⟨cb, _, rfl, hc⟩
  · cases h

/-- `Step` itself never reports `kMaxIters` or `kTimedOut`. -/
theorem StepSpec.stop_ne {x : X} {out out' : Output F R M} {p w s}
    (h : StepSpec E o x out p w s out') (h0 : out.stop = .kNone) :
    out'.stop ≠ .kMaxIters ∧ out'.stop ≠ .kTimedOut := by
  have crit : ∀ (w2 : W) (c : Cost F R) (rel d g : F) (dx gr : V) (r : Option StopReason) (w3 : W),
      criteria o w2 c.cost rel d g dx gr = (r, w3) →
      r.getD out.stop ≠ .kMaxIters ∧ r.getD out.stop ≠ .kTimedOut := by
    intro w2 c rel d g dx gr r w3 hcr
    cases r with
    | none => simp [h0]
    | some r =>
      rcases criteria_just hcr with ⟨rfl, _⟩ | ⟨rfl, _⟩ | ⟨rfl, _⟩ | ⟨rfl, _⟩ | ⟨rfl, _⟩ <;> simp
  cases h with
  | fail a b c d r hr => simp only [retryOut]; cases hr <;> simp
  | good w2 s2 dx c a b g s3 w3 r ev hc hd hg hgi hs3 hcr => exact crit _ _ _ _ _ _ _ _ _ hcr
  | badStop w2 s2 dx c a b s3 r ev hc hd hg hi' hs3 hr =>
    rcases hr with ⟨rfl, _⟩ | ⟨rfl, _⟩ <;> simp
  | bad w2 s2 dx c a b s3 w3 r ev hc hd hg hi' hs3 hmc hmt hcr => exact crit _ _ _ _ _ _ _ _ _ hcr

/-- consecutive failures between iterations -/
def ConsecOk (o : Options F W V) (out : Output F R M) : Prop :=
  if o.maxConsecFailures > 0 then out.numConsec < o.maxConsecFailures else out.numConsec < 256

theorem ConsecOk.tries {out : Output F R M} (h : ConsecOk o out) : ¬ maxTries o < out.numConsec := by
  unfold ConsecOk at h
  unfold maxTries
  split at h
  next hp => rw [if_pos hp]; omega
  next hp => rw [if_neg hp]; omega

theorem ConsecOk.step {x : X} {out out' : Output F R M} {p w s}
    (h : StepSpec E o x out p w s out') (hn : out'.stop = .kNone) : ConsecOk o out' := by
  unfold ConsecOk
  cases h with
  | fail a b c d r hr => simp only [retryOut] at hn; subst hn; exact absurd hr.code (by decide)
  | good => simp only; split <;> omega
  | badStop w2 s2 dx c a b s3 r ev hc hd hg hi hs3 hr =>
    simp only at hn; rcases hr with ⟨rfl, _⟩ | ⟨rfl, _⟩ <;> cases hn
  | bad w2 s2 dx c a b s3 w3 r ev hc hd hg hi hs3 hmc hmt hcr =>
    simp only
    split
    · omega
    · unfold inc8; omega

section
variable [FloatLaws F]

theorem relDerr_pos {best err : F} (h : lt (ofInt 0) (relDerr best err) = true) :
    relDerr best err = div (sub best err) best ∧ lt eps best = true ∧ lt best scalarMax = true := by
  unfold relDerr at *
  split at h
  next hc =>
    simp only [Bool.and_eq_true] at hc
    rw [if_pos (by simp [hc])]; exact ⟨rfl, hc.1, hc.2⟩
  · rw [FloatLaws.lt_irrefl] at h; cases h

theorem step_justified {x : X} {out out' : Output F R M} {p w s} {m : Int}
    (h : StepSpec E o x out p w s out') (h0 : out.stop = .kNone) (hi : HistInv out)
    (hco : ConsecOk o out) (hne : out'.stop ≠ .kNone) : Justified E o m x out' out'.stop := by
  -- the two branches that end with the criteria
  have crit : ∀ (w2 : W) (s2 s3 : S) (w3 : W) (dx : V) (c : Cost F R) (r : Option StopReason)
      (out' : Output F R M), Evald E x w2 s2 dx c →
      out'.errs = out.errs ++ [c.cost] → out'.deltas2 = out.deltas2 ++ [E.normSq dx] →
      criteria o w2 c.cost (relDerr out.finalCost.cost c.cost) (E.normSq dx) (gn2Of E o s2) dx
        (E.sol.gradient s3) = (r, w3) → out'.stop = r.getD out.stop → out'.stop ≠ .kNone →
      Justified E o m x out' out'.stop := by
    intro w2 s2 s3 w3 dx c r out' ev he hd hcr hstop hne
    have hle : out'.errs.getLast? = some c.cost := by rw [he]; simp
    have hld : out'.deltas2.getLast? = some (E.normSq dx) := by rw [hd]; simp
    cases r with
    | none => simp only [Option.getD] at hstop; rw [hstop, h0] at hne; exact absurd rfl hne
    | some r =>
      simp only [Option.getD] at hstop
      rw [hstop]
      rcases criteria_just hcr with ⟨rfl, h1, h2⟩ | ⟨rfl, h1, h2, h3⟩ | ⟨rfl, h1, h2⟩ | ⟨rfl, h1, h2⟩ | ⟨rfl, h1⟩
      · exact ⟨h1, _, hle, h2⟩
      · obtain ⟨e1, e2, e3⟩ := relDerr_pos h2
        have hnil : out.errs ≠ [] := by
          intro hnil
          rw [hi.init hnil, not_lt_scalarMax] at e3; cases e3
        refine ⟨h1, _, out.finalCost.cost, hle, ?_, e2, e3, ?_, ?_⟩
        · rw [he, List.dropLast_concat]; exact hi.best hnil
        · rw [← e1]; exact h2
        · rw [← e1]; exact h3
      · exact ⟨h1, _, hld, h2⟩
      · obtain ⟨wb, sb, hb⟩ := ev.built
        refine ⟨h1, wb, sb, s2, w2, hb, ?_⟩
        unfold gn2Of at h2
        rw [if_pos (by unfold hasGradNorm2; simp [h1])] at h2
        exact h2
      · refine ⟨_, _, hle, hld, ?_⟩
        rcases h1 with ⟨cb, w, hcb, h⟩ | ⟨cb, w, hcb, h⟩
        · exact Or.inl ⟨cb, w, _, hcb, h⟩
        · exact Or.inr ⟨cb, w, dx, _, hcb, rfl, h⟩
  cases h with
  | fail w' s' a b r hr =>
    simp only [retryOut]
    cases hr with
    | noDims h => rcases h with h | h
                  · exact Or.inl h
                  · exact Or.inr (Or.inl h)
    | badDims w s w' h => exact Or.inr (Or.inr (Or.inl ⟨w, s, w', h⟩))
    | oom w s w' h => exact ⟨w, s, w', h⟩
    | noResiduals w s b s' w' h hn => exact Or.inr (Or.inr (Or.inr ⟨w, s, b, s', w', h, hn⟩))
    | badCost w s b s' w' h hn => exact ⟨w, s, b, s', w', h, Or.inl hn⟩
    | badDx w s s' w' dx h hs hn => exact ⟨w, s, true, s', w', h, Or.inr ⟨dx, hs, hn⟩⟩
    | solver w s b s' w' h hs hm ha => exact ⟨hm, ha, w, s, b, s', w', h, hs⟩
    | tries h => exact absurd h hco.tries
  | good w2 s2 dx c a b g s3 w3 r ev hc hd hg hgi hs3 hcr =>
    exact crit w2 s2 _ _ dx c r _ ev rfl rfl hcr rfl hne
  | badStop w2 s2 dx c a b s3 r ev hc hd hg hi' hs3 hr =>
    rcases hr with ⟨rfl, h1, h2⟩ | ⟨rfl, _, h1, h2⟩
    · exact ⟨h1, h2⟩
    · exact ⟨h1, h2⟩
  | bad w2 s2 dx c a b s3 w3 r ev hc hd hg hi' hs3 hmc hmt hcr =>
    exact crit w2 s2 _ _ dx c r _ ev rfl rfl hcr rfl hne

/-- **C07.** Every stop reason of a run of at most 65535 iterations is justified. -/
theorem C07_stop_reason_justified {fuel : Nat} {mi : Int} (hmi : budget o mi ≤ 65535)
    {w : W} {s : S} {x : X} {st : LoopSt F R W S X V M}
    (h : optimizeAcc E o fuel mi w s x = .ok st) :
    ∃ r, st.trace.getLast? = some r ∧ Justified E o (budget o mi) r.x st.out st.out.stop := by
  let Q : LoopSt F R W S X V M → Prop := fun st =>
    st.trace ≠ [] → ∃ r, st.trace.getLast? = some r ∧
      (st.out.stop ≠ .kNone → Justified E o (budget o mi) r.x st.out st.out.stop)
  have key : ∀ (n : Nat) (st st' : LoopSt F R W S X V M), st.out.stop = .kNone →
      st.trace.length + n ≤ 65535 →
      HistInv st.out → st.out.numIters = st.trace.length % 65536 →
      st.out.errs.length = st.trace.length → ConsecOk o st.out → Q st →
      loop E o fuel n st = .ok st' →
      Q st' ∧ st'.out.numIters = st'.trace.length % 65536 := by
    intro n
    induction n with
    | zero =>
      intro st st' _ _ _ hn _ _ hQ h
      simp only [loop] at h; injection h with h; subst h
      exact ⟨hQ, hn⟩
    | succ n ih =>
      intro st st' h0 hlen hH hn he hco hQ h
      unfold loop at h
      rw [Res.bind_eq_ok] at h
      obtain ⟨st1, hb, h⟩ := h
      have hn' := numIters_inv hb hn
      obtain ⟨succ, mdx, w1, s1, out1, ms, hs⟩ := body_spec hb
      have h00 : st.out.numIters = 0 ↔ st.out.errs = [] := by
        rw [hn, ← List.length_eq_zero_iff, he]; omega
      obtain ⟨hH1, _⟩ := HistInv.step hs.step hH h00
      have hH' : HistInv st1.out := by
        rw [hs.out]; exact hH1.congr rfl rfl rfl rfl
      have hstop : st1.out.stop = timeStop o (add out1.duration ms) out1.stop := by rw [hs.out]
      have hQ1 : Q st1 := by
        intro _
        refine ⟨_, by rw [hs.trace]; simp; rfl, ?_⟩
        intro hne
        simp only
        have hj := fun hne1 => step_justified (m := budget o mi) hs.step h0 hH hco hne1
        rw [hstop]
        unfold timeStop at hstop ⊢
        split
        next ht =>
          simp only [Bool.and_eq_true] at ht
          refine ⟨ht.1, ?_⟩
          rw [hs.out]; exact ht.2
        next ht =>
          rw [if_neg ht] at hstop
          rw [hstop] at hne
          have hj := hj hne
          have hnm := hs.step.stop_ne h0
          rw [hs.out]
          generalize out1.stop = r at *
          cases r
          case kMaxIters => exact absurd rfl hnm.1
          case kTimedOut => exact absurd rfl hnm.2
          all_goals exact hj
      split at h
      · injection h with h; subst h
        exact ⟨hQ1, hn'⟩
      next hne =>
        have hnone : st1.out.stop = .kNone := by
          by_cases h : st1.out.stop = .kNone
          · exact h
          · exact absurd h hne
        have hnn : out1.stop = .kNone := timeStop_none (by rw [← hstop]; exact hnone)
        refine ih st1 st' hnone ?_ hH' hn' ?_ ?_ hQ1 h
        · rw [hs.trace]; simp; omega
        · rw [hs.trace]
          rcases hs.step.push_code h0 with ⟨hc, _⟩ | ⟨_, _, e1, _⟩
          · rw [hnn] at hc; exact absurd hc (by decide)
          · rw [show st1.out.errs = out1.errs by rw [hs.out], e1]; simp [he]
        · have := ConsecOk.step hs.step hnn
          unfold ConsecOk at this ⊢
          rw [hs.out]; exact this
  obtain ⟨m, st0, hm, hl, rfl⟩ := optimizeAcc_spec h
  have hm' := budget_of_loopBound hm
  have hlen := loop_length (st := initSt E w s x) rfl hl
  have h1 := (loopBound_spec hm).2.1
  have hc0 : ConsecOk o (initSt E w s x).out := by
    unfold ConsecOk; split
    · assumption
    · exact Nat.zero_lt_succ _
  obtain ⟨hQ, hn⟩ := key _ (initSt E w s x) _ rfl (by simp [initSt]; omega)
    (HistInv.initial _) rfl rfl hc0 (fun h => absurd rfl h) hl
  simp only [initSt, List.length_nil] at hlen
  have hne : st0.trace ≠ [] := by
    intro h; rw [h] at hlen; simp at hlen; omega
  obtain ⟨r, hr, hj⟩ := hQ hne
  refine ⟨r, hr, ?_⟩
  simp only
  by_cases hnone : st0.out.stop = .kNone
  · have := hlen.2.1 hnone
    have hnm : (st0.out.numIters : Int) = m := by omega
    rw [if_pos ⟨hnone, by omega⟩]
    show (st0.out.numIters : Int) = budget o mi
    omega
  · rw [if_neg (fun h => hnone h.1)]
    have hj := hj hnone
    generalize st0.out.stop = q at *
    cases q <;> exact hj
end

/-- Concrete runs that end by the minimum error, the relative decrease, the step norm and the gradient norm. -/
example : (∃ st, optimizeAcc toySq { toyOpts with minError := ofInt 5 } 3 (-1) 0 toyS0 4 = .ok st ∧
      (st.out.stop == .kMinError && st.out.errs == [ofInt 16, ofInt 9, ofInt 4]) = true) ∧
    (∃ st, optimizeAcc toySq { toyOpts with minRerrDec := div (ofInt 1) (ofInt 2) } 3 (-1) 0 toyS0 4 = .ok st ∧
      (st.out.stop == .kMinRelError && st.out.errs == [ofInt 16, ofInt 9]) = true) ∧
    (∃ st, optimizeAcc toySq { toyOpts with minStepNorm2 := ofInt 1 } 3 (-1) 0 toyS0 2 = .ok st ∧
      (st.out.stop == .kMinDeltaNorm && st.out.errs == [ofInt 4, ofInt 1, ofInt 0]) = true) ∧
    (∃ st, optimizeAcc toySq { toyOpts with minGradNorm2 := ofInt 1 } 3 (-1) 0 toyS0 2 = .ok st ∧
      (st.out.stop == .kMinGradNorm && st.out.errs == [ofInt 4, ofInt 1, ofInt 0]) = true) :=
  ⟨Res.exists_of_holds (by decide +kernel), Res.exists_of_holds (by decide +kernel),
    Res.exists_of_holds (by decide +kernel), Res.exists_of_holds (by decide +kernel)⟩

end
end Verif
