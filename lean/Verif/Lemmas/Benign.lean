import Verif.Model.Solvers
/-!
# Runs that use up their budget

Used to show that hypotheses about runs can be met: if every system can be built and solved with finite values
and no stop criterion is enabled, a run takes all its iterations.
-/

set_option linter.unusedSectionVars false

namespace Verif
open FloatOps

section
variable {F R W S X V M : Type} [FloatOps F]

/-- no limit and no criterion enabled -/
structure NoCriteria (o : Options F W V) : Prop where
  minError : lt (ofInt 0) o.minError = false
  minRerrDec : lt (ofInt 0) o.minRerrDec = false
  minStepNorm2 : lt (ofInt 0) o.minStepNorm2 = false
  minGradNorm2 : lt (ofInt 0) o.minGradNorm2 = false
  maxDurationMs : lt (ofInt 0) o.maxDurationMs = false
  total : o.maxTotalFailures = 0
  consec : o.maxConsecFailures = 0
  cb1 : o.stopCallback = none
  cb2 : o.stopCallback2 = none

/-- `G`: solver states from which everything works -/
structure Benign (E : Env F R W S X V M) (Px : X → Prop) (G : S → Prop) : Prop where
  plus : ∀ x v, Px x → Px (E.plusEq x v)
  resize : ∀ w s x, Px x → G s → ∃ s' w', resizeIfNeeded E w s x = (.inr s', w') ∧ G s'
  build : ∀ w s x, Px x → G s → ∃ s' w' dx, E.sol.build w s x = (true, s', w') ∧ G s' ∧ E.sol.solve s' = some dx ∧
    finite (E.sol.cost s').cost = true ∧ finite (E.normSq dx) = true
  good : ∀ s q, G s → ∃ s', E.sol.goodStep s q = .ok s' ∧ G s'
  bad : ∀ s, G s → ∃ s', E.sol.badStep s = .ok s' ∧ G s'
  rebuild : ∀ s b, G s → G (E.sol.rebuild s b)

variable {E : Env F R W S X V M} {o : Options F W V} {Px : X → Prop} {G : S → Prop}

theorem criteria_none (ho : NoCriteria o) (w : W) (err rel dn2 gn2 : F) (dx g : V) :
    criteria o w err rel dn2 gn2 dx g = (none, w) := by
  simp [criteria, ho.minError, ho.minRerrDec, ho.minStepNorm2, ho.minGradNorm2, callStop1, callStop2, ho.cb1, ho.cb2]

theorem not_bad_of_finite {a : F} (h : finite a = true) : (isNaN a || isInf a) = false := by
  unfold finite at h; revert h; cases isNaN a <;> cases isInf a <;> simp

theorem step_benign (ho : NoCriteria o) (h : Benign E Px G) {fuel : Nat} {w : W} {s : S} {x : X} {out : Output F R M}
    (hx : Px x) (hs : G s) (hc : out.numConsec ≤ 255) (h0 : out.stop = .kNone) :
    ∃ g dx w' s' out', step E o (fuel + 1) w s x out = .ok ((g, some dx), w', s', out') ∧ G s' ∧ out'.stop = .kNone ∧
      out'.numConsec ≤ 255 ∧ out'.numIters = out.numIters := by
  obtain ⟨s1, w1, hr, h1⟩ := h.resize w s x hx hs
  obtain ⟨s2, w2, dx, hb, h2, hsol, hf, hn⟩ := h.build w1 s1 x hx h1
  have hre : retry E o x (fuel + 1) w1 s1 out = .ok (.got dx (E.sol.cost s2), w2, s2, out) := by
    unfold retry
    rw [if_pos (by simp only [maxTries, ho.consec]; exact hc), hb]
    simp [hsol]
  unfold step
  rw [hr]
  simp only
  rw [hre, Res.bind_ok]
  simp only
  unfold afterSolve
  simp only [not_bad_of_finite hf, not_bad_of_finite hn, Bool.false_eq_true, if_false]
  split
  · have : ∃ s3, (if out.numIters > 0 then E.sol.goodStep s2 (if o.useStepQuality then relDerr out.finalCost.cost (E.sol.cost s2).cost else ofInt 0)
        else .ok s2) = .ok s3 ∧ G s3 := by
      split
      · exact h.good _ _ h2
      · exact ⟨s2, rfl, h2⟩
    obtain ⟨s3, e3, h3⟩ := this
    rw [e3, Res.bind_ok]
    simp only [criteria_none ho]
    exact ⟨_, _, _, _, _, rfl, h3, h0, by simp, rfl⟩
  · obtain ⟨s3, e3, h3⟩ := h.bad _ h2
    rw [e3, Res.bind_ok]
    simp only [criteria_none ho, ho.consec, ho.total]
    refine ⟨_, _, _, _, _, rfl, h3, h0, ?_, rfl⟩
    simp only [inc8]; omega

theorem body_benign (ho : NoCriteria o) (h : Benign E Px G) {fuel : Nat} {last : Bool} {st : LoopSt F R W S X V M}
    (hx : Px st.x) (hs : G st.s) (hc : st.out.numConsec ≤ 255) (h0 : st.out.stop = .kNone) :
    ∃ st' r, body E o (fuel + 1) last st = .ok st' ∧ Px st'.x ∧ G st'.s ∧ st'.out.numConsec ≤ 255 ∧ st'.out.stop = .kNone ∧
      st'.out.numIters = inc16 st.out.numIters ∧ st'.trace = st.trace ++ [r] ∧ r.out.stop = .kNone ∧
      r.out.numIters = st.out.numIters ∧ r.dx.isSome = true := by
  obtain ⟨g, dx, w', s', out', e, h1, h2, h3, h4⟩ := step_benign ho h (fuel := fuel) (w := st.w) hx hs hc h0
  unfold body
  rw [e, Res.bind_ok]
  simp only [ho.maxDurationMs, Bool.false_and, Bool.false_eq_true, if_false]
  cases g with
  | true =>
    simp only [if_true, Res.bind_ok]
    exact ⟨_, _, rfl, h.plus _ _ hx, h.rebuild _ _ h1, h3, h2, by rw [h4], rfl, h2, h4, rfl⟩
  | false =>
    simp only [Bool.false_eq_true, if_false]
    cases st.lastDx with
    | some d =>
      simp only [Res.bind_ok]
      exact ⟨_, _, rfl, h.plus _ _ hx, h.rebuild _ _ h1, h3, h2, by rw [h4], rfl, h2, h4, rfl⟩
    | none =>
      simp only [Res.bind_ok]
      exact ⟨_, _, rfl, h.plus _ _ hx, h.rebuild _ _ h1, h3, h2, by rw [h4], rfl, h2, h4, rfl⟩

theorem loop_benign (ho : NoCriteria o) (h : Benign E Px G) {fuel : Nat} : ∀ {n : Nat} {st : LoopSt F R W S X V M},
    Px st.x → G st.s → st.out.numConsec ≤ 255 → st.out.stop = .kNone → st.out.numIters = st.trace.length % 65536 →
    (∀ r ∈ st.trace, r.out.stop = .kNone ∧ r.dx.isSome = true) →
    (∀ i r, st.trace[i]? = some r → r.out.numIters = i % 65536) →
    ∃ st', loop E o (fuel + 1) n st = .ok st' ∧ st'.trace.length = st.trace.length + n ∧
      (∀ r ∈ st'.trace, r.out.stop = .kNone ∧ r.dx.isSome = true) ∧ (∀ i r, st'.trace[i]? = some r → r.out.numIters = i % 65536) := by
  intro n
  induction n with
  | zero => intro st _ _ _ _ _ h6 h7; exact ⟨st, rfl, rfl, h6, h7⟩
  | succ n ih =>
    intro st h1 h2 h3 h4 h5 h6 h7
    obtain ⟨st1, r, e, a1, a2, a3, a4, a5, a6, a7, a8, a9⟩ := body_benign ho h (fuel := fuel) (last := n == 0) h1 h2 h3 h4
    unfold loop
    rw [e, Res.bind_ok, if_neg (by simp [a4])]
    obtain ⟨st', e', hl, hr, hi⟩ := ih (st := st1) a1 a2 a3 a4
      (by rw [a5, h5, a6]; simp [inc16])
      (by
        intro q hq
        rw [a6, List.mem_append, List.mem_singleton] at hq
        rcases hq with hq | rfl
        · exact h6 q hq
        · exact ⟨a7, a9⟩)
      (by
        intro i q hq
        rw [a6] at hq
        by_cases hi : i < st.trace.length
        · rw [List.getElem?_append_left hi] at hq; exact h7 i q hq
        · have : i = st.trace.length := by
            have := (List.getElem?_eq_some_iff.mp hq).1
            simp at this; omega
          subst this
          rw [List.getElem?_append_right (Nat.le_refl _)] at hq
          simp only [Nat.sub_self, List.getElem?_cons_zero] at hq
          rw [← Option.some.inj hq, a8, h5])
    exact ⟨st', e', by rw [hl, a6]; simp; omega, hr, hi⟩

/-- A benign run takes all its iterations. -/
theorem run_benign (ho : NoCriteria o) (h : Benign E Px G) {fuel : Nat} {mi m : Int} (hm : loopBound o mi = some m)
    {w : W} {s : S} {x : X} (hx : Px x) (hs : G s) :
    ∃ st, optimizeAcc E o (fuel + 1) mi w s x = .ok st ∧ st.trace.length = m.toNat ∧
      (∀ r ∈ st.trace, r.out.stop = .kNone ∧ r.dx.isSome = true) ∧ (∀ i r, st.trace[i]? = some r → r.out.numIters = i % 65536) := by
  obtain ⟨st, e, hl, hr, hi⟩ := loop_benign ho h (fuel := fuel) (n := m.toNat) (st := initSt E w s x) hx hs (by simp [initSt, Output.init]) rfl rfl
    (by simp [initSt]) (by simp [initSt])
  unfold optimizeAcc
  rw [hm]
  simp only
  rw [e, Res.bind_ok]
  refine ⟨_, rfl, ?_, hr, hi⟩
  simpa [initSt] using hl

end
end Verif
