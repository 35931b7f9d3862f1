import Verif.Model.Time
import Verif.Lemmas.RealLin
import Verif.Props.Stopping
import Verif.Lemmas.Works
import Verif.Examples.Toy
/-!
# C80: the time limit against real time
-/

set_option linter.unusedSectionVars false

namespace Verif
open FloatOps

section
variable {F R W S X V M : Type} [FloatOps F] {E : Env F R W S X V M} {o : Options F W V} {T : W → W → Prop}

/-- a relation between worlds that every external operation respects -/
structure Flows (E : Env F R W S X V M) (o : Options F W V) (T : W → W → Prop) : Prop where
  refl : ∀ w, T w w
  trans : ∀ {a b c}, T a b → T b c → T a c
  resize : ∀ w s d, T w (E.sol.resize w s d).2
  build : ∀ w s x, T w (E.sol.build w s x).2.2
  cb1 : ∀ cb, o.stopCallback = some cb → ∀ w a b c, T w (cb w a b c).2
  cb2 : ∀ cb, o.stopCallback2 = some cb → ∀ w a b c, T w (cb w a b c).2

theorem Flows.criteria (h : Flows E o T) (w : W) (err rel dn2 gn2 : F) (dx g : V) : T w (criteria o w err rel dn2 gn2 dx g).2 := by
  have h1 : ∀ w, T w (callStop1 o w err dn2 gn2).2 := by
    intro w
    unfold callStop1
    split
    · exact h.cb1 _ (by assumption) _ _ _ _
    · exact h.refl w
  have h2 : ∀ w, T w (callStop2 o w err dx g).2 := by
    intro w
    unfold callStop2
    split
    · exact h.cb2 _ (by assumption) _ _ _ _
    · exact h.refl w
  unfold Verif.criteria
  split_ifs
  all_goals first | exact h.refl w | exact h1 w | exact h.trans (h1 w) (h2 _)

theorem Flows.retry (h : Flows E o T) {x : X} : ∀ {fuel : Nat} {w : W} {s : S} {out : Output F R M} {e w' s' out'},
    retry E o x fuel w s out = .ok (e, w', s', out') → T w w' := by
  intro fuel
  induction fuel with
  | zero => intro w s out e w' s' out' hr; cases hr
  | succ n ih =>
    intro w s out e w' s' out' hr
    unfold Verif.retry at hr
    have hb := h.build w s x
    rcases hbd : E.sol.build w s x with ⟨built, s1, w1⟩
    rw [hbd] at hr hb
    simp only at hr hb
    split at hr
    · split at hr
      · injection hr with hr; injection hr with _ hr; injection hr with hr _; rw [← hr]; exact hb
      · split at hr
        · injection hr with hr; injection hr with _ hr; injection hr with hr _; rw [← hr]; exact hb
        · split at hr
          · injection hr with hr; injection hr with _ hr; injection hr with hr _; rw [← hr]; exact hb
          · split at hr
            · injection hr with hr; injection hr with _ hr; injection hr with hr _; rw [← hr]; exact hb
            · rw [Res.bind_eq_ok] at hr
              obtain ⟨s2, -, hr⟩ := hr
              exact h.trans hb (ih hr)
    · injection hr with hr; injection hr with _ hr; injection hr with hr _; rw [← hr]; exact h.refl w

theorem Flows.step (h : Flows E o T) {fuel : Nat} {w : W} {s : S} {x : X} {out : Output F R M} {p w' s' out'}
    (hs : step E o fuel w s x out = .ok (p, w', s', out')) : T w w' := by
  unfold Verif.step at hs
  have h0 : T w (resizeIfNeeded E w s x).2 := by
    unfold resizeIfNeeded
    have hr := h.resize w s (E.dynDims x)
    simp only
    split_ifs
    · exact h.refl w
    · exact h.refl w
    · rcases hrd : E.sol.resize w s (E.dynDims x) with ⟨ro, w1⟩
      rw [hrd] at hr
      cases ro <;> exact hr
  rcases hrz : resizeIfNeeded E w s x with ⟨r | s1, w1⟩
  · rw [hrz] at hs h0
    simp only at hs
    injection hs with hs; injection hs with _ hs; injection hs with hs _
    rw [← hs]; exact h0
  · rw [hrz] at hs h0
    simp only at hs h0
    rw [Res.bind_eq_ok] at hs
    obtain ⟨⟨e, w2, s2, out2⟩, hre, hs⟩ := hs
    have h1 := h.trans h0 (h.retry hre)
    cases e with
    | ret => injection hs with hs; injection hs with _ hs; injection hs with hs _; rw [← hs]; exact h1
    | failed => injection hs with hs; injection hs with _ hs; injection hs with hs _; rw [← hs]; exact h1
    | got dx cost =>
      refine h.trans h1 ?_
      simp only at hs
      unfold afterSolve at hs
      simp only at hs
      split at hs
      · injection hs with hs; injection hs with _ hs; injection hs with hs _; rw [← hs]; exact h.refl _
      · split at hs
        · injection hs with hs; injection hs with _ hs; injection hs with hs _; rw [← hs]; exact h.refl _
        · split at hs
          · rw [Res.bind_eq_ok] at hs
            obtain ⟨s3, -, hs⟩ := hs
            injection hs with hs; injection hs with _ hs; injection hs with hs _
            rw [← hs]; exact h.criteria ..
          · rw [Res.bind_eq_ok] at hs
            obtain ⟨s3, -, hs⟩ := hs
            split at hs
            · injection hs with hs; injection hs with _ hs; injection hs with hs _; rw [← hs]; exact h.refl _
            · split at hs
              · injection hs with hs; injection hs with _ hs; injection hs with hs _; rw [← hs]; exact h.refl _
              · injection hs with hs; injection hs with _ hs; injection hs with hs _
                rw [← hs]; exact h.criteria ..

variable {now tic : W → Int}

theorem InTime.flows (h : InTime E o now tic) : Flows E o (fun w w' => tic w' = tic w ∧ now w ≤ now w') where
  refl w := ⟨rfl, le_rfl⟩
  trans := fun h1 h2 => ⟨h2.1.trans h1.1, h1.2.trans h2.2⟩
  resize := h.resize
  build := h.build
  cb1 := h.cb1
  cb2 := h.cb2

end

section
variable {R W S X V M : Type} {E : Env ℝ R W S X V M} {o : Options ℝ W V} {now tic : W → Int}

theorem toMicros_bounds {a : Int} (h : 0 ≤ a) : 1000 * toMicros a ≤ a ∧ a ≤ 1000 * toMicros a + 999 := by
  unfold toMicros
  rw [Int.tdiv_eq_ediv_of_nonneg h]
  omega

/-- **C80** (partial): the duration reported by a run (in exact arithmetic) never exceeds the real duration and falls short of it by at most 999 ns per iteration.
If there is a time limit: a run that reports `kTimedOut` took longer than the limit, and a run that does not took at most the limit plus 999 ns per iteration.
Missing: the limit itself, without the 999 ns per iteration, see `C80_short_iterations`. -/
theorem C80_real_time_partial (hE : InTime E o now tic) {fuel : Nat} {mi : Int} {w : W} {s : S} {x : X} {st : LoopSt ℝ R W S X V M} (h0 : tic w = now w)
    (h : optimizeAcc E o fuel mi w s x = .ok st) :
    1000000 * st.out.duration ≤ (now st.w - now w : Int) ∧ ((now st.w - now w : Int) : ℝ) ≤ 1000000 * st.out.duration + 999 * st.trace.length ∧
    (0 < o.maxDurationMs →
      (st.out.stop = .kTimedOut → 1000000 * o.maxDurationMs < (now st.w - now w : Int)) ∧
      (st.out.stop ≠ .kTimedOut → ((now st.w - now w : Int) : ℝ) ≤ 1000000 * o.maxDurationMs + 999 * st.trace.length)) := by
  let J : LoopSt ℝ R W S X V M → Prop := fun st =>
    tic st.w = now st.w ∧ 1000000 * st.out.duration ≤ (now st.w - now w : Int) ∧
      ((now st.w - now w : Int) : ℝ) ≤ 1000000 * st.out.duration + 999 * st.trace.length ∧
      (0 < o.maxDurationMs → (st.out.stop = .kTimedOut ↔ o.maxDurationMs < st.out.duration))
  obtain ⟨m, st0, hm, hj, hi, ⟨hl1, hl2, hl3⟩, rfl⟩ := run_inv (I := J) (J := J) (E := E) (o := o) (by
    intro last st st' h0 ⟨h1, h2, h3, h4⟩ hb
    obtain ⟨succ, mdx, w1, s1, out1, ms, hstep, hs⟩ := body_spec' hb
    obtain ⟨f1, f2⟩ := hE.flows.step hstep
    have hc := hE.clock w1
    rw [hs.clock] at hc
    obtain ⟨c1, c2, c3⟩ := hc
    simp only at c1 c2 c3
    have hd1 : out1.duration = st.out.duration := by cases hs.step <;> rfl
    have hns : out1.stop ≠ .kTimedOut := by
      intro e
      have := (hs.step.stop_ne h0).2
      exact this e
    have hdur : st'.out.duration = st.out.duration + ((toMicros (now w1 - now st.w) : Int) : ℝ) / 1000 := by
      rw [hs.out]
      show out1.duration + ms = _
      rw [hd1, c1, f1, h1]
      simp [tocMs]
    have hb := toMicros_bounds (sub_nonneg.mpr f2)
    have hlen : st'.trace.length = st.trace.length + 1 := by rw [hs.trace]; simp
    have hb1 : (1000 : ℝ) * (toMicros (now w1 - now st.w) : Int) ≤ (now w1 - now st.w : Int) := by exact_mod_cast hb.1
    have hb2 : ((now w1 - now st.w : Int) : ℝ) ≤ 1000 * (toMicros (now w1 - now st.w) : Int) + 999 := by exact_mod_cast hb.2
    have hJ : J st' := by
      refine ⟨by rw [c2, c3], ?_, ?_, fun hp => ?_⟩
      · rw [hdur, c2]; push_cast at *; linarith
      · rw [hdur, c2, hlen]; push_cast at *; linarith
      · have e1 : st'.out.stop = timeStop o st'.out.duration out1.stop := by
          rw [hs.out]
        rw [e1]
        unfold timeStop
        by_cases hlt : o.maxDurationMs < st'.out.duration
        · simp [hp, hlt]
        · simp [hlt, hns]
    exact ⟨fun _ => hJ, hJ⟩)
    ⟨h0, by simp [initSt, Output.init], by simp [initSt, Output.init], fun hp => by simp [initSt, Output.init]; exact hp.le⟩
    ⟨h0, by simp [initSt, Output.init], by simp [initSt, Output.init], fun hp => by simp [initSt, Output.init]; exact hp.le⟩ h
  obtain ⟨-, j1, j2, j3⟩ := hj
  refine ⟨j1, j2, fun hp => ?_⟩
  have hiff := j3 hp
  have hstop : (if st0.out.stop = .kNone ∧ (st0.out.numIters : Int) ≥ m then StopReason.kMaxIters else st0.out.stop) = .kTimedOut ↔ o.maxDurationMs < st0.out.duration := by
    rw [← hiff]
    split
    next hc => rw [hc.1]; decide
    next => exact Iff.rfl
  refine ⟨fun hst => ?_, fun hst => ?_⟩
  · have := hstop.mp hst
    linarith
  · have := fun h => hst (hstop.mpr h)
    have := not_lt.mp this
    linarith

/-- In particular a run all of whose iterations take less than a microsecond records no time at all and never times out, however long it takes. -/
theorem C80_short_iterations (hE : InTime E o now tic) (hshort : ∀ fuel w s x out p w' s' out', step E o fuel w s x out = .ok (p, w', s', out') → now w' - now w < 1000)
    {fuel : Nat} {mi : Int} {w : W} {s : S} {x : X} {st : LoopSt ℝ R W S X V M} (h0 : tic w = now w) (h : optimizeAcc E o fuel mi w s x = .ok st)
    (hL : 0 < o.maxDurationMs) : st.out.duration = 0 ∧ st.out.stop ≠ .kTimedOut := by
  let J : LoopSt ℝ R W S X V M → Prop := fun st => tic st.w = now st.w ∧ st.out.duration = 0 ∧ st.out.stop ≠ .kTimedOut
  have hi : J (initSt E w s x) := ⟨h0, by simp [initSt, Output.init], by simp [initSt, Output.init]⟩
  obtain ⟨m, st0, hm, ⟨-, hd, hst⟩, -, -, rfl⟩ := run_inv (I := J) (J := J) (E := E) (o := o) (by
    intro last st st' h0 ⟨h1, h2, h3⟩ hb
    obtain ⟨succ, mdx, w1, s1, out1, ms, hstep, hs⟩ := body_spec' hb
    obtain ⟨f1, f2⟩ := hE.flows.step hstep
    have hc := hE.clock w1
    rw [hs.clock] at hc
    obtain ⟨c1, c2, c3⟩ := hc
    simp only at c1 c2 c3
    have hd1 : out1.duration = st.out.duration := by cases hs.step <;> rfl
    have hlt := hshort _ _ _ _ _ _ _ _ _ hstep
    have hb := toMicros_bounds (sub_nonneg.mpr f2)
    have hz : toMicros (now w1 - now st.w) = 0 := by
      unfold toMicros
      rw [Int.tdiv_eq_ediv_of_nonneg (sub_nonneg.mpr f2)]
      omega
    have hdur : st'.out.duration = 0 := by
      rw [hs.out]
      show out1.duration + ms = _
      rw [hd1, c1, f1, h1, h2]
      simp [tocMs, hz]
    have hJ : J st' := by
      refine ⟨by rw [c2, c3], hdur, ?_⟩
      have e1 : st'.out.stop = timeStop o st'.out.duration out1.stop := by rw [hs.out]
      rw [e1, hdur]
      unfold timeStop
      have : ¬ o.maxDurationMs < 0 := not_lt.mpr hL.le
      simp [this, (hs.step.stop_ne h0).2]
    exact ⟨fun _ => hJ, hJ⟩) hi hi h
  refine ⟨hd, ?_⟩
  simp only
  split
  · decide
  · exact hst

end

/-! ## A problem whose iterations take `ns` nanoseconds -/

/-- the world: the time and the time of the last `tic()` -/
structure TimedW where
  now : Int
  tic : Int

/-- the cost decreases by one in every step -/
def timedEnv (F : Type) [FloatOps F] (ns : Int) : Env F F TimedW (Cost F F) Int Int Unit where
  sol :=
    { resize := fun w s _ => (.done s, w)
      build := fun w _ x => (true, { cost := ofInt (-x), num := 1, inlier := ofInt 1 }, { w with now := w.now + ns })
      solve := fun _ => some 1
      cost := fun s => s
      gradSq := fun _ => ofInt 1
      gradient := fun _ => -1
      goodStep := fun s _ => .ok s
      badStep := fun s => .ok s
      failedStep := fun s => .ok s
      rebuild := fun s _ => s
      hessian := fun _ => () }
  dimsDynamic := false
  dynDims := fun _ => 1
  plusEq := fun x d => x + d
  negV := fun d => -d
  normSq := fun d => ofInt (d * d)
  clock := fun w => (tocMs w.tic w.now, { w with tic := w.now })
  firstOrder := true
  ratio1 := ofInt 1

/-- no criterion but the time limit -/
def timedOpts {F : Type} [FloatOps F] (limit : F) : Options F TimedW Int where
  checkFinalCost := false
  useStepQuality := false
  saveLast := false
  maxIters := 5
  minError := ofInt 0
  minRerrDec := ofInt 0
  minStepNorm2 := ofInt 0
  minGradNorm2 := ofInt 0
  maxTotalFailures := 0
  maxConsecFailures := 0
  maxDurationMs := limit
  stopCallback := none
  stopCallback2 := none

theorem timed_inTime {F : Type} [FloatOps F] {ns : Int} (h : 0 ≤ ns) (limit : F) : InTime (timedEnv F ns) (timedOpts limit) TimedW.now TimedW.tic where
  clock w := ⟨rfl, rfl, rfl⟩
  resize w s d := ⟨rfl, le_rfl⟩
  build w s x := ⟨rfl, by simp [timedEnv, h]⟩
  cb1 cb h := by cases h
  cb2 cb h := by cases h

theorem timed_body {ns : Int} {L : ℝ} {fuel : Nat} {last : Bool} {st : LoopSt ℝ ℝ TimedW (Cost ℝ ℝ) Int Int Unit}
    (h0 : st.out.stop = .kNone) (h1 : -(st.x : ℝ) < st.out.finalCost.cost) (h2 : st.out.numConsec = 0) :
    ∃ st', body (timedEnv ℝ ns) (timedOpts L) (fuel + 1) last st = .ok st' ∧ st'.w.now = st.w.now + ns ∧ st'.x = st.x + 1 ∧ st'.out.finalCost.cost = -st.x ∧
      st'.out.numConsec = 0 ∧ st'.w.tic = st'.w.now ∧ st'.out.duration = st.out.duration + tocMs st.w.tic (st.w.now + ns) ∧ (st'.out.stop = if 0 < L ∧ L < st'.out.duration then .kTimedOut else .kNone) := by
  have hcrit : ∀ (w : TimedW) (a b c d : ℝ) (e g : Int), criteria (timedOpts L) w a b c d e g = (none, w) := by
    intro w a b c d e g
    simp [criteria, timedOpts, callStop1, callStop2]
  have hretry : retry (timedEnv ℝ ns) (timedOpts L) st.x (fuel + 1) st.w st.s st.out =
      .ok (.got 1 { cost := ofInt (-st.x), num := 1, inlier := ofInt 1 }, { st.w with now := st.w.now + ns }, { cost := ofInt (-st.x), num := 1, inlier := ofInt 1 }, st.out) := by
    unfold retry
    rw [if_pos (by rw [h2]; exact Nat.zero_le _)]
    rfl
  have hrz : resizeIfNeeded (timedEnv ℝ ns) st.w st.s st.x = (.inr st.s, st.w) := rfl
  have hgood : lt (sub (ofInt (-st.x)) st.out.finalCost.cost) (ofInt 0) = true := by
    rw [RealOps.lt_eq]
    simp
    linarith
  have hstep : ∃ out', step (timedEnv ℝ ns) (timedOpts L) (fuel + 1) st.w st.s st.x st.out =
      .ok ((true, some 1), { st.w with now := st.w.now + ns }, { cost := ofInt (-st.x), num := 1, inlier := ofInt 1 }, out') ∧
      out'.finalCost.cost = -st.x ∧ out'.numConsec = 0 ∧ out'.duration = st.out.duration ∧ out'.stop = .kNone := by
    unfold step
    rw [hrz]
    simp only [hretry, Res.bind_ok]
    unfold afterSolve
    simp only [hgood, hcrit, RealOps.isNaN_eq, RealOps.isInf_eq]
    simp [timedEnv, h0]
  obtain ⟨out', hst, a1, a2, a4, a3⟩ := hstep
  unfold body
  rw [hst, Res.bind_ok]
  refine ⟨_, rfl, ?_, ?_, ?_, ?_, rfl, ?_, ?_⟩
  · simp [timedEnv]
  · simp [timedEnv]
  · simp [a1]
  · simp [a2]
  · simp [timedEnv, a4]
  · simp only [timedOpts, a3]
    simp

/-- **C80**, violated: for every number of iterations and every time limit there is a run with iterations of 900 ns that does all its iterations,
takes 900 ns for each of them, records the duration 0 and never times out. -/
theorem C80_never_stops {N : Nat} (hN : (N : Int) + 2 ≤ intMax) (L : ℝ) :
    InTime (timedEnv ℝ 900) (timedOpts L) TimedW.now TimedW.tic ∧
    ∃ st, optimizeAcc (timedEnv ℝ 900) (timedOpts L) 1 N ⟨0, 0⟩ { cost := 0, num := 0, inlier := 0 } 0 = .ok st ∧
      st.trace.length = N + 1 ∧ st.w.now = 900 * (N + 1) ∧ st.out.duration = 0 ∧ st.out.stop ≠ .kTimedOut := by
  refine ⟨timed_inTime (by decide) L, ?_⟩
  have hb : loopBound (timedOpts L) (N : Int) = some ((N : Int) + 1) := by
    have h1 : ¬ (N : Int) < 0 := by omega
    have h2 : ¬ (N : Int) + 1 + 1 > intMax := by omega
    simp [loopBound, timedOpts, h1, h2]
  let J : LoopSt ℝ ℝ TimedW (Cost ℝ ℝ) Int Int Unit → Prop := fun st =>
    st.out.stop = .kNone ∧ -(st.x : ℝ) < st.out.finalCost.cost ∧ st.out.numConsec = 0 ∧ st.w.tic = st.w.now ∧ st.out.duration = 0 ∧ st.w.now = 900 * st.trace.length
  have hbody : ∀ last st, J st → ∃ st', body (timedEnv ℝ 900) (timedOpts L) 1 last st = .ok st' ∧ J st' := by
    intro last st ⟨j1, j2, j3, j4, j5, j6⟩
    obtain ⟨st', e, b1, b2, b3, b4, b5, b6, b7⟩ := timed_body (ns := 900) (L := L) (fuel := 0) (last := last) j1 j2 j3
    have hd : st'.out.duration = 0 := by
      rw [b6, j5, j4]
      have : toMicros 900 = 0 := by decide
      simp [tocMs, this]
    obtain ⟨succ, mdx, w1, s1, out1, ms, hs⟩ := body_spec e
    refine ⟨st', e, ?_, ?_, b4, b5, hd, ?_⟩
    · rw [b7, hd, if_neg (fun h => absurd h.2 (not_lt.mpr h.1.le))]
    · rw [b3, b2]; push_cast; linarith
    · rw [b1, hs.trace, j6]; simp; ring
  have hi : J (initSt (timedEnv ℝ 900) ⟨0, 0⟩ { cost := 0, num := 0, inlier := 0 } 0) := by
    refine ⟨rfl, ?_, rfl, rfl, by simp [initSt, Output.init], rfl⟩
    show -((0 : Int) : ℝ) < maxVal
    have : (maxVal : ℝ) = 2 ^ 1024 := rfl
    rw [this]; norm_num
  obtain ⟨st, st0, e, -⟩ := run_works (E := timedEnv ℝ 900) (o := timedOpts L) (fuel := 1) (I := J) (J := fun _ => True)
    (fun last st _ hj => by
      obtain ⟨st', e, hj'⟩ := hbody last st hj
      exact ⟨st', e, fun _ _ => hj', trivial⟩) hb hi
  refine ⟨st, e, ?_⟩
  obtain ⟨m, st1, hm, ⟨j1, j2, j3, j4, j5, j6⟩, -, ⟨-, hl, -⟩, rfl⟩ := run_inv (I := J) (J := J) (fun last st st' _ hj hbd => by
    obtain ⟨st'', e, hj'⟩ := hbody last st hj
    rw [hbd] at e
    obtain rfl := Res.ok.inj e
    exact ⟨fun _ => hj', hj'⟩) hi hi e
  rw [hb] at hm
  obtain rfl := Option.some.inj hm
  have hlen := hl j1
  refine ⟨by simp only; omega, ?_, j5, ?_⟩
  · simp only; rw [j6, hlen]
  · simp only
    rw [j1]
    split <;> decide

/-- iterations of 1.9 µs and a limit of 2 µs: the limit stops the run after the third iteration, which ended at 5.7 µs, when the recorded duration is 3 µs -/
example : ∃ st, optimizeAcc (timedEnv D 1900) (timedOpts (div (ofInt 2) (ofInt 1000))) 1 20 ⟨0, 0⟩ { cost := ofInt 0, num := 0, inlier := ofInt 0 } 0 = .ok st ∧
    (st.out.stop == .kTimedOut && st.trace.length == 3 && st.w.now == 5700 && st.out.duration == div (ofInt 3) (ofInt 1000)) = true :=
  Res.exists_of_holds (by decide +kernel)

end Verif
