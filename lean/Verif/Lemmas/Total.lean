import Verif.Lemmas.Loop
/-!
# Progress: when the modelled functions return
-/

set_option linter.unusedSectionVars false

namespace Verif
open FloatOps

section
variable {F R W S X V M : Type} [FloatOps F]
variable {E : Env F R W S X V M} {o : Options F W V}

/-- The solver hooks have no undefined behaviour and do not throw. -/
structure HooksDefined (E : Env F R W S X V M) : Prop where
  good : ∀ s q, ∃ s', E.sol.goodStep s q = .ok s'
  bad : ∀ s, ∃ s', E.sol.badStep s = .ok s'
  failed : ∀ s, ∃ s', E.sol.failedStep s = .ok s'

/-- `cnt` counts (at least) the calls of `build`: a build adds at most one, nothing else changes it. -/
structure Counts (E : Env F R W S X V M) (o : Options F W V) (cnt : W → Nat) : Prop where
  build : ∀ w s x, cnt (E.sol.build w s x).2.2 ≤ cnt w + 1
  resize : ∀ w s d, cnt (E.sol.resize w s d).2 = cnt w
  clock : ∀ w, cnt (E.clock w).2 = cnt w
  cb1 : ∀ f, o.stopCallback = some f → ∀ w a b c, cnt (f w a b c).2 = cnt w
  cb2 : ∀ f, o.stopCallback2 = some f → ∀ w a b c, cnt (f w a b c).2 = cnt w

theorem criteria_cnt {cnt : W → Nat} (hc : Counts E o cnt) {w : W} {err rel dn2 gn2 : F} {dx g : V} {r w'}
    (h : criteria o w err rel dn2 gn2 dx g = (r, w')) : cnt w' = cnt w := by
  unfold criteria at h
  have aux : ∀ (r1 : Option StopReason) (w1 : W), (r1, w1) = (r, w') → cnt w1 = cnt w → cnt w' = cnt w := by
    intro r1 w1 h1 h2; obtain ⟨_, rfl⟩ := Prod.mk.inj h1; exact h2
  split at h
  · exact aux _ _ h rfl
  split at h
  · exact aux _ _ h rfl
  split at h
  · exact aux _ _ h rfl
  split at h
  · exact aux _ _ h rfl
  have h1 : cnt (callStop1 o w err dn2 gn2).2 = cnt w := by
    unfold callStop1
    cases hcb : o.stopCallback with
    | none => rfl
    | some f => exact hc.cb1 f hcb _ _ _ _
  split at h
  · exact aux _ _ h h1
  have h2 : ∀ w1, cnt (callStop2 o w1 err dx g).2 = cnt w1 := by
    intro w1
    unfold callStop2
    cases hcb : o.stopCallback2 with
    | none => rfl
    | some f => exact hc.cb2 f hcb _ _ _ _
  split at h
  · exact aux _ _ h ((h2 _).trans h1)
  · exact aux _ _ h ((h2 _).trans h1)

/-- With an active limit on consecutive failures the retry loop is left after at most
`max_consec_failures - num_consec_failures` rounds. -/
theorem retry_total (hh : HooksDefined E) {cnt : W → Nat} (hc : Counts E o cnt)
    (hmc8 : o.maxConsecFailures < 256) {x : X} :
    ∀ {n : Nat} {w : W} {s : S} {out : Output F R M}, out.numConsec < o.maxConsecFailures →
      o.maxConsecFailures - out.numConsec ≤ n →
      ∃ e w' s' out', retry E o x n w s out = .ok (e, w', s', out') ∧
        cnt w' + out.numConsec ≤ cnt w + o.maxConsecFailures ∧
        ((∃ dx c, e = .got dx c) → out'.numConsec < o.maxConsecFailures) := by
  intro n
  induction n with
  | zero => intro w s out h1 h2; omega
  | succ n ih =>
    intro w s out h1 h2
    unfold retry
    have hmt : maxTries o = o.maxConsecFailures := by
      unfold maxTries; rw [if_pos (by omega)]; omega
    rw [hmt, if_pos (by omega)]
    have hb := hc.build w s x
    rcases hbb : E.sol.build w s x with ⟨built, s1, w1⟩
    rw [hbb] at hb
    simp only at hb ⊢
    cases (if built = true then E.sol.solve s1 else none) with
    | some dx => exact ⟨_, _, _, _, rfl, by omega, fun _ => h1⟩
    | none =>
      simp only
      split
      · exact ⟨_, _, _, _, rfl, by omega, by rintro ⟨_, _, h⟩; cases h⟩
      split
      · exact ⟨_, _, _, _, rfl, by omega, by rintro ⟨_, _, h⟩; cases h⟩
      split
      · exact ⟨_, _, _, _, rfl, by omega, by rintro ⟨_, _, h⟩; cases h⟩
      next hlt =>
        obtain ⟨s2, hs2⟩ := hh.failed s1
        rw [hs2, Res.bind_ok]
        have hi : inc8 out.numConsec = out.numConsec + 1 := by unfold inc8; omega
        have hlt' : inc8 out.numConsec < o.maxConsecFailures := by
          simp only [Bool.and_eq_true, decide_eq_true_eq, gt_iff_lt, ge_iff_le] at hlt
          omega
        obtain ⟨e, w', s', out', h, hcnt, hg⟩ := ih (w := w1) (s := s2)
          (out := { out with numConsec := inc8 out.numConsec, numFailures := inc8 out.numFailures })
          hlt' (by show _ - inc8 out.numConsec ≤ n; omega)
        refine ⟨e, w', s', out', h, ?_, hg⟩
        simp only at hcnt
        omega

theorem resizeIfNeeded_cnt {cnt : W → Nat} (hc : Counts E o cnt) (w : W) (s : S) (x : X) :
    cnt (resizeIfNeeded E w s x).2 = cnt w := by
  unfold resizeIfNeeded
  simp only
  split
  · rfl
  split
  · rfl
  have := hc.resize w s (E.dynDims x)
  split <;> (rename_i h; rw [h] at this; exact this)

/-- `afterSolve` always returns and does not call the user function. -/
theorem afterSolve_total (hh : HooksDefined E) {cnt : W → Nat} (hc : Counts E o cnt)
    (dx : V) (c : Cost F R) (w : W) (s : S) (out : Output F R M) :
    ∃ r w' s' out', afterSolve E o dx c w s out = .ok (r, w', s', out') ∧ cnt w' = cnt w := by
  unfold afterSolve
  simp only
  split
  · exact ⟨_, _, _, _, rfl, rfl⟩
  split
  · exact ⟨_, _, _, _, rfl, rfl⟩
  split
  · have hgs : ∃ s1, (if out.numIters > 0 then E.sol.goodStep s (if o.useStepQuality then
        relDerr out.finalCost.cost c.cost else ofInt 0) else .ok s) = .ok s1 := by
      split
      · exact hh.good _ _
      · exact ⟨_, rfl⟩
    obtain ⟨s1, hs1⟩ := hgs
    rw [hs1, Res.bind_ok]
    exact ⟨_, _, _, _, rfl, criteria_cnt hc rfl⟩
  · obtain ⟨s1, hs1⟩ := hh.bad s
    rw [hs1, Res.bind_ok]
    split
    · exact ⟨_, _, _, _, rfl, rfl⟩
    split
    · exact ⟨_, _, _, _, rfl, rfl⟩
    · exact ⟨_, _, _, _, rfl, criteria_cnt hc rfl⟩

/-- `body` returns as soon as `step` does. -/
theorem body_of_step {fuel : Nat} {last : Bool} {st : LoopSt F R W S X V M} {p w1 s1 out1}
    (h : step E o fuel st.w st.s st.x st.out = .ok (p, w1, s1, out1)) :
    ∃ st', body E o fuel last st = .ok st' ∧ st'.w = (E.clock w1).2 := by
  have hs := step_spec h
  obtain ⟨succ, mdx⟩ := p
  unfold body
  rw [h, Res.bind_ok]
  simp only
  have hdx : succ = true → ∃ dx, mdx = some dx := by
    intro hsu
    cases hs with
    | fail => cases hsu
    | good => exact ⟨_, rfl⟩
    | badStop => cases hsu
    | bad => cases hsu
  cases succ with
  | true =>
    obtain ⟨dx, rfl⟩ := hdx rfl
    exact ⟨_, rfl, rfl⟩
  | false =>
    cases st.lastDx with
    | some d => exact ⟨_, rfl, rfl⟩
    | none =>
      cases mdx with
      | some dx => exact ⟨_, rfl, rfl⟩
      | none => exact ⟨_, rfl, rfl⟩

end
end Verif
