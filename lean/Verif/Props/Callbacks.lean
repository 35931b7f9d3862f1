import Verif.Props.Control
/-!
# C14, C15: time limit, user callbacks
-/

set_option linter.unusedSectionVars false

namespace Verif
open FloatOps

section
variable {F R W S X V M : Type} [FloatOps F]
variable {E : Env F R W S X V M} {o : Options F W V}

/-! ## C14 -/

/-- Specification: the durations recorded by consecutive iterations start at 0, and each one is the previous
one plus one reading of the clock; `final` is the last one plus one reading. -/
def DurationsAccumulate (E : Env F R W S X V M) (t : List (Rec F R X V M)) (final : F) : Prop :=
  ∀ pre r, pre ++ [r] <+: t →
    (pre = [] → r.out.duration = ofInt 0) ∧
    (∃ w, (pre ++ [r] = t ∧ final = add r.out.duration (E.clock w).1) ∨
      (∃ r', pre ++ [r, r'] <+: t ∧ r'.out.duration = add r.out.duration (E.clock w).1))

theorem StepSpec.duration {x : X} {out out' : Output F R M} {p w s}
    (h : StepSpec E o x out p w s out') : out'.duration = out.duration := by
  cases h <;> rfl

/-- **C14.** The run ends with the first iteration after which the accumulated duration exceeds
`max_duration_ms > 0`, and then reports `kTimedOut`: no iteration starts when the accumulated duration is
already above the limit. Without time limit `kTimedOut` is never reported. -/
theorem C14_time_limit [FloatLaws F] {fuel : Nat} {mi : Int} {w : W} {s : S} {x : X} {st : LoopSt F R W S X V M}
    (h : optimizeAcc E o fuel mi w s x = .ok st) :
    DurationsAccumulate E st.trace st.out.duration ∧
    (lt (ofInt 0) o.maxDurationMs = true →
      (∀ r ∈ st.trace, lt o.maxDurationMs r.out.duration = false) ∧
      (st.out.stop = .kTimedOut ↔ lt o.maxDurationMs st.out.duration = true)) ∧
    (lt (ofInt 0) o.maxDurationMs = false → st.out.stop ≠ .kTimedOut) := by
  let D : LoopSt F R W S X V M → Prop := fun st =>
    DurationsAccumulate E st.trace st.out.duration ∧ (st.trace = [] → st.out.duration = ofInt 0)
  let T : LoopSt F R W S X V M → Prop := fun st =>
    lt (ofInt 0) o.maxDurationMs = true → (∀ r ∈ st.trace, lt o.maxDurationMs r.out.duration = false)
  let I : LoopSt F R W S X V M → Prop := fun st => D st ∧ T st ∧
    (lt (ofInt 0) o.maxDurationMs = true → lt o.maxDurationMs st.out.duration = false)
  let J : LoopSt F R W S X V M → Prop := fun st => D st ∧ T st ∧
    (lt (ofInt 0) o.maxDurationMs = true →
      (st.out.stop = .kTimedOut ↔ lt o.maxDurationMs st.out.duration = true)) ∧
    (lt (ofInt 0) o.maxDurationMs = false → st.out.stop ≠ .kTimedOut)
  have hinit0 : lt (ofInt 0) o.maxDurationMs = true → lt o.maxDurationMs (ofInt 0) = false := by
    intro hp
    cases hc : lt o.maxDurationMs (ofInt 0) with
    | false => rfl
    | true =>
      have := FloatLaws.lt_trans _ _ _ hp hc
      rw [FloatLaws.lt_irrefl] at this; cases this
  have hD0 : D (initSt E w s x) := ⟨fun pre r hp => by
    have := List.prefix_nil.1 hp
    simp at this, fun _ => rfl⟩
  obtain ⟨m, st0, hm, hj, hi, ⟨hl1, hl2, hl3⟩, rfl⟩ := run_inv (I := I) (J := J) (E := E) (o := o) (by
    intro last st st' h0 ⟨⟨hD, hDn⟩, hT, hL⟩ hb
    obtain ⟨succ, mdx, w1, s1, out1, ms, hs⟩ := body_spec hb
    have hd1 := hs.step.duration
    have e1 : st'.out.duration = add out1.duration ms := by rw [hs.out]
    have e3 : st'.out.stop = timeStop o (add out1.duration ms) out1.stop := by rw [hs.out]
    have hD' : D st' := by
      refine ⟨?_, fun hn => by rw [hs.trace] at hn; simp at hn⟩
      intro pre r hp
      rw [hs.trace] at hp ⊢
      rcases prefix_concat_cases hp with hp' | ⟨heq, hr⟩
      · obtain ⟨h1, w2, h2⟩ := hD pre r hp'
        refine ⟨h1, w2, Or.inr ?_⟩
        rcases h2 with ⟨h2, h3⟩ | ⟨r', h2, h3⟩
        · refine ⟨⟨st.x, succ, mdx, out1, st'.x⟩, ?_, ?_⟩
          · rw [← h2]; simp
          · simp only; rw [hd1, h3]
        · exact ⟨r', h2.trans (List.prefix_append _ _), h3⟩
      · subst heq; subst hr
        refine ⟨fun hn => ?_, w1, Or.inl ⟨rfl, ?_⟩⟩
        · rw [hd1]; exact hDn hn
        · simp only; rw [e1, hs.clock]
    have hT' : T st' := by
      intro hp r hr
      rw [hs.trace, List.mem_append, List.mem_singleton] at hr
      rcases hr with hr | rfl
      · exact hT hp r hr
      · simp only; rw [hd1]; exact hL hp
    have hne := hs.step.stop_ne h0
    refine ⟨fun hno => ⟨hD', hT', fun hp => ?_⟩, hD', hT', fun hp => ?_, fun hp => ?_⟩
    · rw [e3] at hno
      unfold timeStop at hno
      split at hno
      · cases hno
      next hk => rw [e1]; simpa [hp] using hk
    · rw [e3, e1]
      unfold timeStop
      rw [hp]
      cases hc : lt o.maxDurationMs (add out1.duration ms) with
      | true => simp
      | false => simp [hne.2]
    · rw [e3]
      unfold timeStop
      rw [hp]
      simpa using hne.2) ⟨hD0, fun _ r hr => (nomatch hr), hinit0⟩
    ⟨hD0, fun _ r hr => (nomatch hr), fun hp => ⟨fun h => (nomatch h), fun h => by
      have h' : lt o.maxDurationMs (ofInt 0) = true := h
      rw [hinit0 hp] at h'; cases h'⟩, fun _ h => (nomatch h)⟩ h
  obtain ⟨⟨hD, _⟩, hT, hL, hN⟩ := hj
  refine ⟨hD, fun hp => ⟨hT hp, ?_⟩, fun hp => ?_⟩
  · simp only
    rw [← hL hp]
    split
    next hk => rw [hk.1]; simp
    · rfl
  · simp only
    split
    · decide
    · exact hN hp

/-- a run that is stopped by the time limit (every iteration takes 1 ms, limit 2 ms) after 3 iterations -/
example : ∃ st, optimizeAcc flatEnv { toyOpts with maxDurationMs := ofInt 2 } 3 (-1) 0 toyS0 0 = .ok st ∧
    (st.out.stop == .kTimedOut && st.trace.length == 3 && st.out.duration == ofInt 3) = true :=
  Res.exists_of_holds (by decide +kernel)

/-! ## C15 -/

/-- Specification device for C15: observers of the world. `said w` tells that a stop callback has returned
true, `late w` counts the calls of user code (loss function or callbacks) made after that. -/
structure Observes (E : Env F R W S X V M) (o : Options F W V) (said : W → Bool) (late : W → Nat) : Prop where
  build : ∀ w s x, said (E.sol.build w s x).2.2 = said w ∧ (said w = false → late (E.sol.build w s x).2.2 = late w)
  resize : ∀ w s n, said (E.sol.resize w s n).2 = said w ∧ late (E.sol.resize w s n).2 = late w
  clock : ∀ w, said (E.clock w).2 = said w ∧ late (E.clock w).2 = late w
  cb1 : ∀ cb, o.stopCallback = some cb → ∀ w a b c, said w = false →
    late (cb w a b c).2 = late w ∧ said (cb w a b c).2 = (cb w a b c).1
  cb2 : ∀ cb, o.stopCallback2 = some cb → ∀ w a b c, said w = false →
    late (cb w a b c).2 = late w ∧ said (cb w a b c).2 = (cb w a b c).1

theorem callStop1_obs {said : W → Bool} {late : W → Nat} (hO : Observes E o said late) {w : W} {err dn2 gn2 : F}
    (h0 : said w = false) : late (callStop1 o w err dn2 gn2).2 = late w ∧
      said (callStop1 o w err dn2 gn2).2 = (callStop1 o w err dn2 gn2).1 := by
  unfold callStop1
  cases hcb : o.stopCallback with
  | none => exact ⟨rfl, h0⟩
  | some cb => exact hO.cb1 cb hcb w err dn2 gn2 h0

theorem callStop2_obs {said : W → Bool} {late : W → Nat} (hO : Observes E o said late) {w : W} {err : F} {dx g : V}
    (h0 : said w = false) : late (callStop2 o w err dx g).2 = late w ∧
      said (callStop2 o w err dx g).2 = (callStop2 o w err dx g).1 := by
  unfold callStop2
  cases hcb : o.stopCallback2 with
  | none => exact ⟨rfl, h0⟩
  | some cb => exact hO.cb2 cb hcb w err dx g h0

theorem criteria_obs {said : W → Bool} {late : W → Nat} (hO : Observes E o said late) {w : W}
    {err rel dn2 gn2 : F} {dx g : V} {r w'} (h0 : said w = false)
    (h : criteria o w err rel dn2 gn2 dx g = (r, w')) :
    late w' = late w ∧ (said w' = true ↔ r = some .kUserStopped) := by
  have h1 := callStop1_obs hO (w := w) (err := err) (dn2 := dn2) (gn2 := gn2) h0
  unfold criteria at h
  split at h
  · cases h; simp [h0]
  split at h
  · cases h; simp [h0]
  split at h
  · cases h; simp [h0]
  split at h
  · cases h; simp [h0]
  split at h
  next hc => cases h; simp [h1, hc]
  next hc =>
    have hc' : (callStop1 o w err dn2 gn2).1 = false := by simpa using hc
    have h2 := callStop2_obs hO (w := (callStop1 o w err dn2 gn2).2) (err := err) (dx := dx) (g := g)
      (by rw [h1.2, hc'])
    split at h
    next hd => cases h; simp [h1, h2, hd]
    next hd => cases h; simp [h1, h2, hd]

theorem retry_obs {said : W → Bool} {late : W → Nat} (hO : Observes E o said late) {x : X} :
    ∀ {n : Nat} {w : W} {s : S} {out : Output F R M} {e w' s' out'}, said w = false →
    retry E o x n w s out = .ok (e, w', s', out') → said w' = false ∧ late w' = late w := by
  intro n
  induction n with
  | zero => intro w s out e w' s' out' _ h; cases h
  | succ n ih =>
    intro w s out e w' s' out' h0 h
    unfold retry at h
    split at h
    · have hb := hO.build w s x
      rcases hbb : E.sol.build w s x with ⟨b, s1, w1⟩
      rw [hbb] at h hb
      simp only at h hb
      have hw1 : said w1 = false ∧ late w1 = late w := ⟨by rw [hb.1, h0], hb.2 h0⟩
      split at h
      · injection h with h; obtain ⟨rfl, rfl, rfl, rfl⟩ := h; exact hw1
      · split at h
        · injection h with h; obtain ⟨rfl, rfl, rfl, rfl⟩ := h; exact hw1
        · split at h
          · injection h with h; obtain ⟨rfl, rfl, rfl, rfl⟩ := h; exact hw1
          · split at h
            · injection h with h; obtain ⟨rfl, rfl, rfl, rfl⟩ := h; exact hw1
            · rw [Res.bind_eq_ok] at h
              obtain ⟨s2, _, h⟩ := h
              have := ih hw1.1 h
              exact ⟨this.1, by rw [this.2, hw1.2]⟩
    · injection h with h; obtain ⟨rfl, rfl, rfl, rfl⟩ := h; exact ⟨h0, rfl⟩

theorem resizeIfNeeded_obs {said : W → Bool} {late : W → Nat} (hO : Observes E o said late) (w : W) (s : S) (x : X) :
    said (resizeIfNeeded E w s x).2 = said w ∧ late (resizeIfNeeded E w s x).2 = late w := by
  unfold resizeIfNeeded
  simp only
  split
  · exact ⟨rfl, rfl⟩
  split
  · exact ⟨rfl, rfl⟩
  have := hO.resize w s (E.dynDims x)
  split <;> rename_i heq <;> rw [heq] at this <;> exact this

theorem step_obs {said : W → Bool} {late : W → Nat} (hO : Observes E o said late) {fuel : Nat} {w : W} {s : S}
    {x : X} {out : Output F R M} {p w' s' out'} (h0 : said w = false) (hstop : out.stop = .kNone)
    (h : step E o fuel w s x out = .ok (p, w', s', out')) :
    late w' = late w ∧ (said w' = true ↔ out'.stop = .kUserStopped) := by
  unfold step at h
  have hres := resizeIfNeeded_obs hO w s x
  split at h
  next r w1 hr =>
    injection h with h; obtain ⟨rfl, rfl, rfl, rfl⟩ := h
    rw [hr] at hres
    have hcode := (resizeIfNeeded_cause (o := o) (out := out) (a := 0) hr).code
    refine ⟨hres.2, ?_⟩
    simp only at hres ⊢
    rw [hres.1, h0]
    refine ⟨fun h => (nomatch h), fun h => ?_⟩
    rw [h] at hcode; exact absurd hcode (by decide)
  next s1 w1 hr =>
    rw [hr] at hres
    simp only at hres
    rw [Res.bind_eq_ok] at h
    obtain ⟨⟨e, w2, s2, out2⟩, h1, h⟩ := h
    obtain ⟨a, b, r, rfl, hspec⟩ := retry_spec h1
    have hw2 := retry_obs hO (by rw [hres.1, h0]) h1
    have hl : late w2 = late w := by rw [hw2.2, hres.2]
    cases e with
    | ret =>
      simp only at h hspec
      injection h with h; obtain ⟨rfl, rfl, rfl, rfl⟩ := h
      refine ⟨hl, ?_⟩
      rw [hw2.1]
      refine ⟨fun h => (nomatch h), fun h => ?_⟩
      simp only [retryOut] at h; subst h
      exact absurd hspec.code (by decide)
    | failed =>
      simp only at h
      injection h with h; obtain ⟨rfl, rfl, rfl, rfl⟩ := h
      refine ⟨hl, ?_⟩
      rw [hw2.1]; simp
    | got dx c =>
      simp only at h hspec
      obtain ⟨rfl, _⟩ := hspec
      unfold afterSolve at h
      simp only at h
      split at h
      · injection h with h; obtain ⟨rfl, rfl, rfl, rfl⟩ := h
        exact ⟨hl, by rw [hw2.1]; simp⟩
      split at h
      · injection h with h; obtain ⟨rfl, rfl, rfl, rfl⟩ := h
        exact ⟨hl, by rw [hw2.1]; simp⟩
      have fin : ∀ (w3 : W) (r : Option StopReason) (a b c d : F) (e g : V),
          criteria o w2 a b c d e g = (r, w3) →
          late w3 = late w ∧ (said w3 = true ↔ r.getD out.stop = .kUserStopped) := by
        intro w3 r a b c d e g hcr
        obtain ⟨k1, k2⟩ := criteria_obs hO hw2.1 hcr
        refine ⟨by rw [k1, hl], ?_⟩
        rw [k2]
        cases r with
        | none => simp [hstop]
        | some r => simp
      split at h
      · rw [Res.bind_eq_ok] at h
        obtain ⟨s3, hs3, h⟩ := h
        injection h with h; obtain ⟨rfl, rfl, rfl, rfl⟩ := h
        exact fin _ _ _ _ _ _ _ _ rfl
      · rw [Res.bind_eq_ok] at h
        obtain ⟨s3, hs3, h⟩ := h
        split at h
        · injection h with h; obtain ⟨rfl, rfl, rfl, rfl⟩ := h
          exact ⟨hl, by rw [hw2.1]; simp⟩
        split at h
        · injection h with h; obtain ⟨rfl, rfl, rfl, rfl⟩ := h
          exact ⟨hl, by rw [hw2.1]; simp⟩
        injection h with h; obtain ⟨rfl, rfl, rfl, rfl⟩ := h
        exact fin _ _ _ _ _ _ _ _ rfl

/-- **C15 (1).** Once a stop callback has returned true, no user code (loss function or callback) is called
any more in the run, and the run reports `kUserStopped` (or `kTimedOut`); conversely `kUserStopped` is only
reported if a callback returned true. -/
theorem C15_callback_ends_run {said : W → Bool} {late : W → Nat} (hO : Observes E o said late)
    {fuel : Nat} {mi : Int} {w : W} {s : S} {x : X} {st : LoopSt F R W S X V M} (h0 : said w = false)
    (h : optimizeAcc E o fuel mi w s x = .ok st) :
    late st.w = late w ∧
    (said st.w = true → st.out.stop = .kUserStopped ∨ st.out.stop = .kTimedOut) ∧
    (st.out.stop = .kUserStopped → said st.w = true) := by
  let I : LoopSt F R W S X V M → Prop := fun st => said st.w = false ∧ late st.w = late w
  let J : LoopSt F R W S X V M → Prop := fun st => late st.w = late w ∧
    (said st.w = true → st.out.stop = .kUserStopped ∨ st.out.stop = .kTimedOut) ∧
    (st.out.stop = .kUserStopped → said st.w = true)
  obtain ⟨m, st0, hm, hj, hi, -, rfl⟩ := run_inv (I := I) (J := J) (E := E) (o := o) (by
    intro last st st' hst ⟨hI1, hI2⟩ hb
    obtain ⟨succ, mdx, w1, s1, out1, ms, hstep, hs⟩ := body_spec' hb
    obtain ⟨k1, k2⟩ := step_obs hO hI1 hst hstep
    have hck := hO.clock w1
    rw [hs.clock] at hck
    simp only at hck
    have e3 : st'.out.stop = timeStop o (add out1.duration ms) out1.stop := by rw [hs.out]
    have hl : late st'.w = late w := by rw [hck.2, k1, hI2]
    refine ⟨fun hno => ⟨?_, hl⟩, hl, fun hsd => ?_, fun hu => ?_⟩
    · rw [e3] at hno
      have h1 := timeStop_none hno
      rw [hck.1]
      cases hc : said w1 with
      | false => rfl
      | true => rw [k2.1 hc] at h1; cases h1
    · rw [hck.1] at hsd
      have := k2.1 hsd
      rw [e3]
      rcases timeStop_or (o := o) (add out1.duration ms) out1.stop with ht | ht
      · rw [ht]; exact Or.inl this
      · exact Or.inr ht
    · rw [hck.1, k2]
      rw [e3] at hu
      rcases timeStop_or (o := o) (add out1.duration ms) out1.stop with ht | ht
      · rw [ht] at hu; exact hu
      · rw [ht] at hu; cases hu) ⟨h0, rfl⟩
    ⟨rfl, fun h => absurd (h0.symm.trans h) (by decide), fun h => (nomatch h)⟩ h
  refine ⟨hj.1, fun hsd => ?_, fun hu => hj.2.2 ?_⟩
  · simp only at hsd ⊢
    have := hj.2.1 hsd
    rw [if_neg]
    · exact this
    · rintro ⟨hk, _⟩; rw [hk] at this; rcases this with h | h <;> cases h
  · simp only at hu
    split at hu
    · cases hu
    · exact hu

/-- Observers for C15 (2): `calls` counts the calls of stop callbacks. -/
structure CountsCalls (E : Env F R W S X V M) (calls : W → Nat) : Prop where
  build : ∀ w s x, calls (E.sol.build w s x).2.2 = calls w
  resize : ∀ w s n, calls (E.sol.resize w s n).2 = calls w

theorem retry_calls {calls : W → Nat} (hC : CountsCalls E calls) {x : X} :
    ∀ {n : Nat} {w : W} {s : S} {out : Output F R M} {e w' s' out'},
    retry E o x n w s out = .ok (e, w', s', out') → calls w' = calls w := by
  intro n
  induction n with
  | zero => intro w s out e w' s' out' h; cases h
  | succ n ih =>
    intro w s out e w' s' out' h
    unfold retry at h
    split at h
    · have hb := hC.build w s x
      rcases hbb : E.sol.build w s x with ⟨b, s1, w1⟩
      rw [hbb] at h hb
      simp only at h hb
      split at h
      · injection h with h; obtain ⟨rfl, rfl, rfl, rfl⟩ := h; exact hb
      · split at h
        · injection h with h; obtain ⟨rfl, rfl, rfl, rfl⟩ := h; exact hb
        · split at h
          · injection h with h; obtain ⟨rfl, rfl, rfl, rfl⟩ := h; exact hb
          · split at h
            · injection h with h; obtain ⟨rfl, rfl, rfl, rfl⟩ := h; exact hb
            · rw [Res.bind_eq_ok] at h
              obtain ⟨s2, _, h⟩ := h
              rw [ih h, hb]
    · injection h with h; obtain ⟨rfl, rfl, rfl, rfl⟩ := h; rfl

/-- **C15 (2).** If an iteration called a stop callback then it produced a step that may be applied (no failure,
no failure limit reached) and its measured error, relative decrease, step and gradient did not meet any
enabled numerical criterion. -/
theorem C15_callback_consulted_last {calls : W → Nat} (hC : CountsCalls E calls) {fuel : Nat} {w : W} {s : S}
    {x : X} {out : Output F R M} {p w' s' out'}
    (h : step E o fuel w s x out = .ok (p, w', s', out')) (hcalled : calls w' ≠ calls w) :
    ∃ dx e wb sb s2 w2, p.2 = some dx ∧ E.sol.build wb sb x = (true, s2, w2) ∧ E.sol.solve s2 = some dx ∧
      e = (E.sol.cost s2).cost ∧
      out'.errs = out.errs ++ [e] ∧ out'.deltas2 = out.deltas2 ++ [E.normSq dx] ∧
      isNaN e = false ∧ isInf e = false ∧
      ¬ (lt (ofInt 0) o.minError = true ∧ lt e o.minError = true) ∧
      ¬ (lt (ofInt 0) o.minRerrDec = true ∧ lt eps out.finalCost.cost = true ∧
          lt out.finalCost.cost scalarMax = true ∧
          lt (ofInt 0) (div (sub out.finalCost.cost e) out.finalCost.cost) = true ∧
          lt (div (sub out.finalCost.cost e) out.finalCost.cost) o.minRerrDec = true) ∧
      ¬ (lt (ofInt 0) o.minStepNorm2 = true ∧ lt (E.normSq dx) o.minStepNorm2 = true) ∧
      ¬ (lt (ofInt 0) o.minGradNorm2 = true ∧ lt (E.sol.gradSq s2) o.minGradNorm2 = true) := by
  have crit : ∀ (w2 w3 : W) (r : Option StopReason) (a b c d : F) (e g : V), calls w2 = calls w →
      calls w3 ≠ calls w → criteria o w2 a b c d e g = (r, w3) →
      ¬ (lt (ofInt 0) o.minError = true ∧ lt a o.minError = true) ∧
      ¬ (lt (ofInt 0) o.minRerrDec = true ∧ lt (ofInt 0) b = true ∧ lt b o.minRerrDec = true) ∧
      ¬ (lt (ofInt 0) o.minStepNorm2 = true ∧ lt c o.minStepNorm2 = true) ∧
      ¬ (lt (ofInt 0) o.minGradNorm2 = true ∧ lt d o.minGradNorm2 = true) := by
    intro w2 w3 r a b c d e g hw2 hw3 hcr
    unfold criteria at hcr
    split at hcr
    · cases hcr; exact absurd hw2 hw3
    next h1 =>
    split at hcr
    · cases hcr; exact absurd hw2 hw3
    next h2 =>
    split at hcr
    · cases hcr; exact absurd hw2 hw3
    next h3 =>
    split at hcr
    · cases hcr; exact absurd hw2 hw3
    next h4 =>
    simp only [Bool.and_eq_true] at h1 h2 h3 h4
    exact ⟨h1, fun h => h2 ⟨⟨h.1, h.2.1⟩, h.2.2⟩, h3, h4⟩
  have finish : ∀ (w2 w3 : W) (s2 : S) (r : Option StopReason) (c : Cost F R) (dx g : V), calls w2 = calls w →
      Evald E x w2 s2 dx c → finite c.cost = true → calls w3 ≠ calls w →
      criteria o w2 c.cost (relDerr out.finalCost.cost c.cost) (E.normSq dx) (gn2Of E o s2) dx g = (r, w3) →
      ∀ (p : Bool × Option V) (out' : Output F R M), p.2 = some dx → out'.errs = out.errs ++ [c.cost] →
        out'.deltas2 = out.deltas2 ++ [E.normSq dx] →
      ∃ dx e wb sb s2 w2, p.2 = some dx ∧ E.sol.build wb sb x = (true, s2, w2) ∧ E.sol.solve s2 = some dx ∧
      e = (E.sol.cost s2).cost ∧
      out'.errs = out.errs ++ [e] ∧ out'.deltas2 = out.deltas2 ++ [E.normSq dx] ∧
      isNaN e = false ∧ isInf e = false ∧
      ¬ (lt (ofInt 0) o.minError = true ∧ lt e o.minError = true) ∧
      ¬ (lt (ofInt 0) o.minRerrDec = true ∧ lt eps out.finalCost.cost = true ∧
          lt out.finalCost.cost scalarMax = true ∧
          lt (ofInt 0) (div (sub out.finalCost.cost e) out.finalCost.cost) = true ∧
          lt (div (sub out.finalCost.cost e) out.finalCost.cost) o.minRerrDec = true) ∧
      ¬ (lt (ofInt 0) o.minStepNorm2 = true ∧ lt (E.normSq dx) o.minStepNorm2 = true) ∧
      ¬ (lt (ofInt 0) o.minGradNorm2 = true ∧ lt (E.sol.gradSq s2) o.minGradNorm2 = true) := by
    intro w2 w3 s2 r c dx g hw2 ev hfin hw3 hcr p out' hp he hd
    obtain ⟨k1, k2, k3, k4⟩ := crit _ _ _ _ _ _ _ _ _ hw2 hw3 hcr
    obtain ⟨wb, sb, hb⟩ := ev.built
    have hf : isNaN c.cost = false ∧ isInf c.cost = false := by
      unfold finite at hfin; revert hfin
      cases isNaN c.cost <;> cases isInf c.cost <;> simp
    refine ⟨dx, c.cost, wb, sb, s2, w2, hp, hb, ev.solved, by rw [ev.cost], he, hd, hf.1, hf.2, k1, ?_, k3, ?_⟩
    · rintro ⟨a1, a2, a3, a4, a5⟩
      apply k2
      have : relDerr out.finalCost.cost c.cost = div (sub out.finalCost.cost c.cost) out.finalCost.cost := by
        unfold relDerr; rw [a2, a3]; rfl
      rw [this]; exact ⟨a1, a4, a5⟩
    · rintro ⟨a1, a2⟩
      apply k4
      refine ⟨a1, ?_⟩
      unfold gn2Of
      rw [if_pos (by unfold hasGradNorm2; simp [a1])]
      exact a2
  unfold step at h
  split at h
  next r w1 hr =>
    exfalso
    injection h with h; obtain ⟨rfl, rfl, rfl, rfl⟩ := h
    apply hcalled
    have := hC.resize w s (E.dynDims x)
    unfold resizeIfNeeded at hr
    simp only at hr
    split at hr
    · cases hr; rfl
    split at hr
    · cases hr; rfl
    split at hr <;> rename_i heq <;> rw [heq] at this
    · cases hr
    · cases hr; exact this
    · cases hr; exact this
  next s1 w1 hr =>
    have hw1 : calls w1 = calls w := by
      have := hC.resize w s (E.dynDims x)
      unfold resizeIfNeeded at hr
      simp only at hr
      split at hr
      · cases hr
      split at hr
      · cases hr
      split at hr <;> rename_i heq <;> rw [heq] at this
      · cases hr; exact this
      · cases hr
      · cases hr
    rw [Res.bind_eq_ok] at h
    obtain ⟨⟨e, w2, s2, out2⟩, h1, h⟩ := h
    obtain ⟨a, b, r, rfl, hspec⟩ := retry_spec h1
    have hw2 : calls w2 = calls w := (retry_calls hC h1).trans hw1
    cases e with
    | ret =>
      simp only at h
      injection h with h; obtain ⟨rfl, rfl, rfl, rfl⟩ := h
      exact absurd hw2 hcalled
    | failed =>
      simp only at h
      injection h with h; obtain ⟨rfl, rfl, rfl, rfl⟩ := h
      exact absurd hw2 hcalled
    | got dx c =>
      simp only at h hspec
      obtain ⟨rfl, hev⟩ := hspec
      unfold afterSolve at h
      simp only at h
      split at h
      · injection h with h; obtain ⟨rfl, rfl, rfl, rfl⟩ := h
        exact absurd hw2 hcalled
      next hfin =>
      split at h
      · injection h with h; obtain ⟨rfl, rfl, rfl, rfl⟩ := h
        exact absurd hw2 hcalled
      have hfin := finite_of_not hfin
      split at h
      · rw [Res.bind_eq_ok] at h
        obtain ⟨s3, hs3, h⟩ := h
        injection h with h; obtain ⟨rfl, rfl, rfl, rfl⟩ := h
        exact finish _ _ _ _ c dx _ hw2 hev hfin hcalled rfl _ _ rfl rfl rfl
      · rw [Res.bind_eq_ok] at h
        obtain ⟨s3, hs3, h⟩ := h
        split at h
        · injection h with h; obtain ⟨rfl, rfl, rfl, rfl⟩ := h
          exact absurd hw2 hcalled
        split at h
        · injection h with h; obtain ⟨rfl, rfl, rfl, rfl⟩ := h
          exact absurd hw2 hcalled
        injection h with h; obtain ⟨rfl, rfl, rfl, rfl⟩ := h
        exact finish _ _ _ _ c dx _ hw2 hev hfin hcalled rfl _ _ rfl rfl rfl

/-- A problem whose world records if a stop callback has returned true, and counts the calls of user code after
that and the calls of callbacks: the hypotheses of C15 can be met. -/
def obsEnv : Env D D (Bool × Nat × Nat) ToyS Int Int Unit where
  sol :=
    { resize := fun w s _ => (.done s, w)
      build := fun w _ x => (true, ⟨{ cost := ofInt (x * x), num := 1, inlier := ofInt 1 }, some (-1)⟩,
        (w.1, w.2.1 + (if w.1 then 1 else 0), w.2.2))
      solve := fun s => s.dx
      cost := fun s => s.cost
      gradSq := fun _ => ofInt 1
      gradient := fun s => s.dx.getD 0
      goodStep := fun s _ => .ok s
      badStep := fun s => .ok s
      failedStep := fun s => .ok s
      rebuild := fun s _ => s
      hessian := fun _ => () }
  dimsDynamic := false
  dynDims := fun _ => 1
  plusEq := fun x d => x + d
  negV := fun d => -d
  normSq := fun d => ofInt (d * d)
  clock := fun w => (ofInt 1, w)
  firstOrder := true
  ratio1 := ofInt 1

/-- a callback that stops when the error is below 5 -/
def obsOpts : Options D (Bool × Nat × Nat) Int where
  checkFinalCost := false
  useStepQuality := false
  saveLast := false
  maxIters := 5
  minError := ofInt 0
  minRerrDec := ofInt 0
  minStepNorm2 := ofInt 0
  minGradNorm2 := ofInt 0
  maxTotalFailures := 0
  maxConsecFailures := 0
  maxDurationMs := ofInt 0
  stopCallback := some fun w e _ _ =>
    (lt e (ofInt 5), (w.1 || lt e (ofInt 5), w.2.1 + (if w.1 then 1 else 0), w.2.2 + 1))
  stopCallback2 := none

example : Observes obsEnv obsOpts (fun w => w.1) (fun w => w.2.1) where
  build := fun w s x => ⟨rfl, fun h => by simp [obsEnv, h]⟩
  resize := fun w s n => ⟨rfl, rfl⟩
  clock := fun w => ⟨rfl, rfl⟩
  cb1 := by
    intro cb hcb w a b c h
    cases Option.some.inj hcb
    exact ⟨by simp [h], by simp [h]⟩
  cb2 := fun cb hcb => (nomatch hcb)

example : CountsCalls obsEnv (fun w => w.2.2) := ⟨fun _ _ _ => rfl, fun _ _ _ => rfl⟩

example : ∃ st, optimizeAcc obsEnv obsOpts 3 (-1) (false, 0, 0) toyS0 4 = .ok st ∧
    (st.out.stop == .kUserStopped && st.trace.length == 3 && st.w == (true, 0, 3)) = true :=
  Res.exists_of_holds (by decide +kernel)

end
end Verif
