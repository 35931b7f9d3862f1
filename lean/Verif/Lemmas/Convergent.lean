import Verif.Lemmas.Works
import Verif.Lemmas.NoisyRun
import Verif.Props.Stopping
/-!
# Runs that are decided by their first steps

A solver without memory: the step and the cost are functions of the parameters. Either the steps lower the cost until one of them is short, and
the run ends as converged, or the first step does not lower the cost, and the run ends where it started.
-/

set_option linter.unusedSectionVars false

namespace Verif
open FloatOps

section
variable {F R W S X V M : Type} [FloatOps F]
variable {E : Env F R W S X V M} {o : Options F W V} {Ok : S → Prop} {D : X → V} {C g2 : X → F}

/-- the solver delivers the step `D x` at `x`, of cost `C x` and squared gradient norm `g2 x`, from any acceptable state, and the state stays acceptable -/
def DeliversAt (E : Env F R W S X V M) (Ok : S → Prop) (D : X → V) (C g2 : X → F) (x : X) : Prop :=
  ∀ w s, Ok s → ∃ s2, Delivers E w s x s2 (D x) ∧ (E.sol.cost s2).cost = C x ∧ E.sol.gradSq s2 = g2 x ∧
    ∀ s3 b, (s3 = s2 ∨ (∃ q, E.sol.goodStep s2 q = .ok s3) ∨ E.sol.badStep s2 = .ok s3) → Ok (E.sol.rebuild s3 b)

/-- the points of a run whose steps are all accepted -/
def iter (E : Env F R W S X V M) (D : X → V) (x0 : X) : Nat → X
  | 0 => x0
  | i + 1 => E.plusEq (iter E D x0 i) (D (iter E D x0 i))

/-- no time limit and no callbacks -/
structure Unwatched (o : Options F W V) : Prop where
  time : lt (ofInt 0) o.maxDurationMs = false
  cb1 : o.stopCallback = none
  cb2 : o.stopCallback2 = none

/-- what the four numerical stop criteria say of the point `x` of the last iteration -/
inductive ConvergedAt (o : Options F W V) (D2 C g2 : X → F) (x : X) : StopReason → Prop
  | error (h0 : lt (ofInt 0) o.minError = true) (h : lt (C x) o.minError = true) : ConvergedAt o D2 C g2 x .kMinError
  | rel (best : F) (h0 : lt (ofInt 0) o.minRerrDec = true) (h : lt (ofInt 0) (relDerr best (C x)) = true) (h' : lt (relDerr best (C x)) o.minRerrDec = true) :
    ConvergedAt o D2 C g2 x .kMinRelError
  | step (h0 : lt (ofInt 0) o.minStepNorm2 = true) (h : lt (D2 x) o.minStepNorm2 = true) : ConvergedAt o D2 C g2 x .kMinDeltaNorm
  | grad (h0 : lt (ofInt 0) o.minGradNorm2 = true) (h : lt (g2 x) o.minGradNorm2 = true) : ConvergedAt o D2 C g2 x .kMinGradNorm

theorem ConvergedAt.converged {D2 : X → F} {x : X} {r : StopReason} (h : ConvergedAt o D2 C g2 x r) {out : Output F R M} (e : out.stop = r) :
    out.converged = true := by
  unfold Output.converged
  rw [e]
  cases h <;> decide

/-- the criteria without callbacks -/
theorem criteria_unwatched (ho : Unwatched o) {w : W} {best : F} {s2 : S} {dx g : V} {x : X} {q : StopReason} {r : StopReason}
    (hg : E.sol.gradSq s2 = g2 x) (h : (criteria o w (C x) (relDerr best (C x)) (E.normSq dx) (gn2Of E o s2) dx g).1.getD q = r) :
    (r = q ∧ (lt (ofInt 0) o.minStepNorm2 = true → lt (E.normSq dx) o.minStepNorm2 = false)) ∨ ConvergedAt o (fun _ => E.normSq dx) C g2 x r := by
  rcases hcr : criteria o w (C x) (relDerr best (C x)) (E.normSq dx) (gn2Of E o s2) dx g with ⟨c, w'⟩
  rw [hcr] at h
  cases c with
  | none =>
    left
    refine ⟨h.symm, fun h0 => ?_⟩
    unfold criteria at hcr
    split at hcr
    · cases hcr
    split at hcr
    · cases hcr
    split at hcr
    · cases hcr
    next hs =>
      rw [h0, Bool.true_and] at hs
      exact Bool.not_eq_true _ ▸ hs
  | some c =>
    right
    have h : c = r := h
    subst h
    rcases criteria_just hcr with ⟨rfl, h1, h2⟩ | ⟨rfl, h1, h2, h3⟩ | ⟨rfl, h1, h2⟩ | ⟨rfl, h1, h2⟩ | ⟨rfl, ⟨cb, w, h1, -⟩ | ⟨cb, w, h1, -⟩⟩
    · exact .error h1 h2
    · exact .rel best h1 h2 h3
    · exact .step h1 h2
    · refine .grad h1 ?_
      have : gn2Of E o s2 = g2 x := by
        unfold gn2Of hasGradNorm2
        rw [h1]; simpa using hg
      rwa [this] at h2
    · rw [ho.cb1] at h1; cases h1
    · rw [ho.cb2] at h1; cases h1

theorem timeStop_unwatched (ho : Unwatched o) (d : F) (r : StopReason) : timeStop o d r = r := by
  simp [timeStop, ho.time]

/-- **A run that converges.** The steps from `x0` lower the cost as long as they are not short, and the `N`-th point has a short step; `N` is below the number
of iterations. Then the run accepts all steps, ends as converged after at most `N + 1` iterations, and the criterion it reports holds at the point
of the last iteration. -/
theorem converging_run (ho : Unwatched o) (hms : lt (ofInt 0) o.minStepNorm2 = true) {x0 : X} {N : Nat}
    (hdel : ∀ i, i ≤ N → DeliversAt E Ok D C g2 (iter E D x0 i)) (hfirst : lt (sub (C x0) maxVal) (ofInt 0) = true)
    (hdec : ∀ i, i < N → lt (E.normSq (D (iter E D x0 i))) o.minStepNorm2 = false →
      lt (sub (C (iter E D x0 (i + 1))) (C (iter E D x0 i))) (ofInt 0) = true)
    (hshort : lt (E.normSq (D (iter E D x0 N))) o.minStepNorm2 = true)
    {fuel : Nat} {mi m : Int} (hm : loopBound o mi = some m) (hN : (N : Int) < m) {w : W} {s : S} (hs : Ok s) :
    ∃ st, optimizeAcc E o (fuel + 1) mi w s x0 = .ok st ∧ 0 < st.trace.length ∧ st.trace.length ≤ N + 1 ∧ st.x = iter E D x0 st.trace.length ∧
      (∀ i r, st.trace[i]? = some r → r.x = iter E D x0 i ∧ r.xNext = iter E D x0 (i + 1) ∧ r.succ = true) ∧
      ConvergedAt o (fun x => E.normSq (D x)) C g2 (iter E D x0 (st.trace.length - 1)) st.out.stop := by
  obtain ⟨st, st0, e, ⟨hj1, hj2, hj3, hj4, hj5, hj6⟩, h1, h2, -, h4, h5⟩ := run_works_out (E := E) (o := o) (fuel := fuel + 1) (mi := mi) (m := m) (w := w) (s := s) (x := x0)
    (I := fun left st => st.out.numConsec ≤ maxTries o ∧ st.trace.length ≤ N ∧ Ok st.s ∧ st.x = iter E D x0 st.trace.length ∧
      lt (sub (C st.x) st.out.finalCost.cost) (ofInt 0) = true ∧
      (∀ i r, st.trace[i]? = some r → r.x = iter E D x0 i ∧ r.xNext = iter E D x0 (i + 1) ∧ r.succ = true))
    (J := fun st => 0 < st.trace.length ∧ st.trace.length ≤ N + 1 ∧ st.x = iter E D x0 st.trace.length ∧
      (∀ i r, st.trace[i]? = some r → r.x = iter E D x0 i ∧ r.xNext = iter E D x0 (i + 1) ∧ r.succ = true) ∧
      (st.out.stop = .kNone → st.trace.length ≤ N) ∧
      (st.out.stop ≠ .kNone → ConvergedAt o (fun x => E.normSq (D x)) C g2 (iter E D x0 (st.trace.length - 1)) st.out.stop))
    (fun left st hst hI => by
      obtain ⟨hc, hlen, hok, hx, hlow, hT⟩ := hI
      obtain ⟨s2, hd, hc2, hg2, hok2⟩ := hdel _ hlen st.w st.s hok
      rw [← hx] at hd hc2 hg2
      obtain ⟨st', succ, mdx, s3, hb, hw⟩ := body_works (o := o) (fuel := fuel) (last := left == 0) hd hc
      obtain ⟨r, htr, hrx, hrx', hrd, hrs⟩ := hw.trace
      have hsu : succ = true := by rw [hw.isSucc, hc2]; exact hlow
      subst hsu
      have hmd : mdx = some (D st.x) := by
        rcases hw.isMdx with h | ⟨-, h, -⟩
        · exact h
        · cases h
      subst hmd
      have hlen' : st'.trace.length = st.trace.length + 1 := by rw [htr]; simp
      have hx' : st'.x = iter E D x0 st'.trace.length := by
        rw [hlen']
        show _ = E.plusEq (iter E D x0 st.trace.length) (D (iter E D x0 st.trace.length))
        rw [← hx]
        have := hw.upd
        revert this
        generalize st'.x = x1
        generalize st'.lastDx = l1
        generalize st'.lastSucc = b1
        intro this
        cases this
        rfl
      obtain ⟨w2, g, hcr⟩ := hw.crit (Or.inl rfl)
      rw [timeStop_unwatched ho, hst, hc2] at hcr
      have hcrit := criteria_unwatched (E := E) (C := C) (g2 := g2) ho hg2 hcr.symm
      have hT' : ∀ i r, st'.trace[i]? = some r → r.x = iter E D x0 i ∧ r.xNext = iter E D x0 (i + 1) ∧ r.succ = true := by
        intro i q hq
        rw [htr] at hq
        rcases Nat.lt_or_ge i st.trace.length with h | h
        · rw [List.getElem?_append_left h] at hq; exact hT i q hq
        · rw [List.getElem?_append_right h] at hq
          have hi : i = st.trace.length := by
            by_contra hne
            rw [List.getElem?_eq_none (by simp; omega)] at hq
            cases hq
          rw [hi, Nat.sub_self] at hq
          simp only [List.getElem?_cons_zero, Option.some.injEq] at hq
          subst hq
          rw [hi, hrx, hrx', hrs, hx', hlen']
          exact ⟨hx, rfl, rfl⟩
      have hgo : st'.out.stop = .kNone → lt (E.normSq (D st.x)) o.minStepNorm2 = false := by
        intro h0
        rcases hcrit with ⟨-, h⟩ | h
        · exact h hms
        · rw [h0] at h; cases h
      have hleN : st'.out.stop = .kNone → st'.trace.length ≤ N := by
        intro h0
        have h1 := hgo h0
        rw [hlen']
        rcases Nat.lt_or_ge st.trace.length N with h | h
        · exact h
        · have : st.trace.length = N := by omega
          rw [hx, this, hshort] at h1
          cases h1
      refine ⟨st', hb, fun h0 _ => ⟨hw.consec h0, hleN h0, ?_, hx', ?_, hT'⟩, by omega, by omega, hx', hT', hleN, fun h0 => ?_⟩
      · rw [hw.solver]
        refine hok2 _ _ ?_
        have := hw.hook
        split at this
        · exact Or.inr this
        · exact Or.inl this
      · have hfc : st'.out.finalCost.cost = C st.x := by
          rw [hw.finalCost]; simp only [Bool.true_or, if_true]; exact hc2
        rw [hfc, hx', hlen', hx]
        refine hdec _ ?_ (by rw [← hx]; exact hgo h0)
        have := hleN h0
        omega
      · rcases hcrit with ⟨h, -⟩ | h
        · exact absurd h h0
        · rw [hlen', Nat.add_sub_cancel, ← hx]
          revert h
          generalize st'.out.stop = q
          intro h
          cases h with
          | error a b => exact .error a b
          | rel q a b c => exact .rel q a b c
          | step a b => exact .step a b
          | grad a b => exact .grad a b)
    hm ⟨Nat.zero_le _, Nat.zero_le _, hs, rfl, hfirst, fun i r hr => by simp [initSt] at hr⟩
  have hstop : st0.out.stop ≠ .kNone := by
    intro h0
    have := h4 h0
    have := hj5 h0
    omega
  refine ⟨st, e, by rw [h2]; exact hj1, by rw [h2]; exact hj2, by rw [h1, h2]; exact hj3, by rw [h2]; exact hj4, ?_⟩
  rw [h2, h5, if_neg (fun h => hstop h.1)]
  exact hj6 hstop

/-- an iteration that is rejected -/
theorem step_rejected {w : W} {s : S} {x : X} {s2 : S} {dx : V} (h : Delivers E w s x s2 dx) {fuel : Nat} {out : Output F R M}
    (hc : out.numConsec ≤ maxTries o) (hi : 0 < out.numIters) (hr : lt (sub (E.sol.cost s2).cost out.finalCost.cost) (ofInt 0) = false)
    (ht : o.maxTotalFailures = 0) {succ : Bool} {mdx : Option V} {w' : W} {s3 : S} {out' : Output F R M}
    (hh : step E o (fuel + 1) w s x out = .ok ((succ, mdx), w', s3, out')) :
    E.sol.badStep s2 = .ok s3 ∧ succ = false ∧ out'.numConsec = inc8 out.numConsec ∧ out'.finalCost = out.finalCost ∧ out'.numIters = out.numIters ∧
      (if o.maxConsecFailures > 0 ∧ inc8 out.numConsec ≥ o.maxConsecFailures then mdx = none ∧ out'.stop = .kMaxConsecNoDecr
       else mdx = some dx ∧ ∃ w2 g, out'.stop =
        (criteria o w2 (E.sol.cost s2).cost (relDerr out.finalCost.cost (E.sol.cost s2).cost) (E.normSq dx) (gn2Of E o s2) dx g).1.getD out.stop) := by
  obtain ⟨s1, w1, w2, hr', hb⟩ := h.built
  have hre : retry E o x (fuel + 1) w1 s1 out = .ok (.got dx (E.sol.cost s2), w2, s2, out) := by
    unfold retry
    rw [if_pos hc, hb]
    simp [h.solved]
  unfold step at hh
  rw [hr'] at hh
  simp only at hh
  rw [hre, Res.bind_ok] at hh
  simp only at hh
  unfold afterSolve at hh
  simp only [not_bad_of_finite h.cost, not_bad_of_finite h.norm, Bool.false_eq_true, if_false] at hh
  have hi' : (out.numIters == 0) = false := by simp; omega
  rw [hr, hi'] at hh
  simp only [Bool.or_false, Bool.false_eq_true, if_false] at hh
  rw [Res.bind_eq_ok] at hh
  obtain ⟨s4, h4, hh⟩ := hh
  split at hh
  next hm =>
    injection hh with hh
    simp only [Prod.mk.injEq] at hh
    obtain ⟨⟨rfl, rfl⟩, -, rfl, rfl⟩ := hh
    rw [if_pos (by simpa using hm)]
    exact ⟨h4, rfl, rfl, rfl, rfl, rfl, rfl⟩
  next hm =>
    rw [ht] at hh
    simp only [gt_iff_lt, Nat.lt_irrefl, decide_false, Bool.false_and, Bool.false_eq_true, if_false] at hh
    rcases hcr : criteria o w2 (E.sol.cost s2).cost (relDerr out.finalCost.cost (E.sol.cost s2).cost) (E.normSq dx) (gn2Of E o s2) dx (E.sol.gradient s4)
      with ⟨r, w3⟩
    have hcr' := hcr
    unfold gn2Of at hcr'
    rw [hcr'] at hh
    injection hh with hh
    simp only [Prod.mk.injEq] at hh
    obtain ⟨⟨rfl, rfl⟩, -, rfl, rfl⟩ := hh
    rw [if_neg (by simpa using hm)]
    exact ⟨h4, rfl, rfl, rfl, rfl, rfl, w2, E.sol.gradient s4, by rw [hcr]⟩

/-- no criterion of the step, the gradient or the error holds at `x` -/
structure Unconverged (E : Env F R W S X V M) (o : Options F W V) (D : X → V) (C g2 : X → F) (x : X) : Prop where
  error : lt (ofInt 0) o.minError = true → lt (C x) o.minError = false
  step : lt (ofInt 0) o.minStepNorm2 = true → lt (E.normSq (D x)) o.minStepNorm2 = false
  grad : lt (ofInt 0) o.minGradNorm2 = true → lt (g2 x) o.minGradNorm2 = false

/-- the result of the loop is the result of the run -/
theorem run_works_fin {I : Nat → LoopSt F R W S X V M → Prop} {J : LoopSt F R W S X V M → Prop} {fuel : Nat}
    (hI : ∀ n st, st.out.stop = .kNone → I (n + 1) st →
      ∃ st', body E o fuel (n == 0) st = .ok st' ∧ (st'.out.stop = .kNone → 0 < n → I n st') ∧ J st')
    {mi m : Int} {w : W} {s : S} {x : X} (hm : loopBound o mi = some m) (h0 : I m.toNat (initSt E w s x)) :
    ∃ st st0, optimizeAcc E o fuel mi w s x = .ok st ∧ J st0 ∧ st.x = st0.x ∧ st.trace = st0.trace ∧ st.out.finalCost = st0.out.finalCost ∧
      (st0.out.stop = .kNone → (st0.trace.length : Int) = m) ∧
      st.out.stop = if st0.out.stop = .kNone ∧ (st0.out.numIters : Int) ≥ m then .kMaxIters else st0.out.stop := by
  obtain ⟨st0, e, hj⟩ := loop_works_left hI (n := m.toNat) (st := initSt E w s x) rfl h0 (Or.inl (loopBound_pos hm))
  have hl := loop_length (st := initSt E w s x) rfl e
  have hp := loopBound_pos hm
  simp only [initSt, List.length_nil] at hl
  unfold optimizeAcc
  rw [hm]
  simp only
  rw [e, Res.bind_ok]
  refine ⟨_, st0, rfl, hj, rfl, rfl, rfl, fun h => ?_, by simp only [Bool.and_eq_true, decide_eq_true_eq]⟩
  have := hl.2.1 h
  omega

/-- **A run whose first step does not lower the cost.** It rejects the step, evaluates the starting point and the point after the step in turns until
`max_consec_failures` iterations in a row were rejected, and ends at the starting point. -/
theorem stuck_run (ho : Unwatched o) (ht : o.maxTotalFailures = 0) (hf0 : 0 < o.maxConsecFailures) (hf1 : o.maxConsecFailures < 256) {x0 : X}
    (hrel : ∀ best err : F, lt (sub err best) (ofInt 0) = false → lt (ofInt 0) (relDerr best err) = false) (hrel0 : ∀ err : F, lt (ofInt 0) (relDerr maxVal err) = false)
    (hself : ∀ a : F, lt (sub a a) (ofInt 0) = false)
    (hd0 : DeliversAt E Ok D C g2 x0) (hd1 : DeliversAt E Ok D C g2 (E.plusEq x0 (D x0)))
    (hc0 : Unconverged E o D C g2 x0) (hc1 : Unconverged E o D C g2 (E.plusEq x0 (D x0)))
    (hundo : E.plusEq (E.plusEq x0 (D x0)) (E.negV (D x0)) = x0)
    (hbad : lt (sub (C (E.plusEq x0 (D x0))) (C x0)) (ofInt 0) = false)
    {fuel : Nat} {mi m : Int} (hm : loopBound o mi = some m) (hN : (o.maxConsecFailures : Int) < m) {w : W} {s : S} (hs : Ok s) :
    ∃ st, optimizeAcc E o (fuel + 1) mi w s x0 = .ok st ∧ st.trace.length = o.maxConsecFailures + 1 ∧ st.x = x0 ∧ st.out.stop = .kMaxConsecNoDecr ∧
      st.out.finalCost.cost = C x0 ∧ ∀ i r, st.trace[i]? = some r → r.x = (if i % 2 = 0 then x0 else E.plusEq x0 (D x0)) ∧ (0 < i → r.succ = false) := by
  have hquiet : ∀ {x : X} {best : F} {q : StopReason} {w : W} {s2 : S} {g : V}, Unconverged E o D C g2 x → E.sol.gradSq s2 = g2 x →
      lt (ofInt 0) (relDerr best (C x)) = false →
      (criteria o w (C x) (relDerr best (C x)) (E.normSq (D x)) (gn2Of E o s2) (D x) g).1.getD q = q := by
    intro x best q w s2 g hu hg hr
    rcases hcr : criteria o w (C x) (relDerr best (C x)) (E.normSq (D x)) (gn2Of E o s2) (D x) g with ⟨c, w'⟩
    cases c with
    | none => rfl
    | some c =>
      exfalso
      rcases criteria_just hcr with ⟨rfl, h1, h2⟩ | ⟨rfl, h1, h2, h3⟩ | ⟨rfl, h1, h2⟩ | ⟨rfl, h1, h2⟩ | ⟨rfl, ⟨cb, w, h1, -⟩ | ⟨cb, w, h1, -⟩⟩
      · rw [hu.error h1] at h2; cases h2
      · rw [hr] at h2; cases h2
      · rw [hu.step h1] at h2; cases h2
      · have : gn2Of E o s2 = g2 x := by
          unfold gn2Of hasGradNorm2
          rw [h1]; simpa using hg
        rw [this, hu.grad h1] at h2; cases h2
      · rw [ho.cb1] at h1; cases h1
      · rw [ho.cb2] at h1; cases h1
  have hmt : ∀ {c : Nat}, c < o.maxConsecFailures → c ≤ maxTries o := fun {c} hc => by
    unfold maxTries; rw [if_pos hf0]; omega
  let Row : Nat → Rec F R X V M → Prop := fun i r => r.x = (if i % 2 = 0 then x0 else E.plusEq x0 (D x0)) ∧ (0 < i → r.succ = false)
  obtain ⟨st, st0, e, ⟨hj1, hj2, hj3, hj4, hj5⟩, h1, h2, hfin, h4, h5⟩ := run_works_fin (E := E) (o := o) (fuel := fuel + 1) (mi := mi) (m := m) (w := w) (s := s) (x := x0)
    (I := fun left st => st.trace.length ≤ o.maxConsecFailures ∧ st.out.numIters = st.trace.length ∧ st.out.numConsec = st.trace.length - 1 ∧ Ok st.s ∧
      (st.trace = [] ∧ st.x = x0 ∧ st.lastDx = none ∧ st.out.finalCost.cost = maxVal ∨
        0 < st.trace.length ∧ st.out.finalCost.cost = C x0 ∧
          (if st.trace.length % 2 = 0 then st.x = x0 ∧ st.lastDx = none else st.x = E.plusEq x0 (D x0) ∧ st.lastDx = some (D x0))) ∧
      (∀ i r, st.trace[i]? = some r → Row i r))
    (J := fun st => (st.out.stop ≠ .kNone → st.out.stop = .kMaxConsecNoDecr ∧ st.trace.length = o.maxConsecFailures + 1 ∧ st.x = x0) ∧
      (st.out.stop = .kNone → st.trace.length ≤ o.maxConsecFailures) ∧ st.out.finalCost.cost = C x0 ∧ (∀ i r, st.trace[i]? = some r → Row i r) ∧ True)
    (fun left st hst hI => by
      obtain ⟨hlen, hni, hnc, hok, hpos, hT⟩ := hI
      have hD : ∃ s2, Delivers E st.w st.s st.x s2 (D st.x) ∧ (E.sol.cost s2).cost = C st.x ∧ E.sol.gradSq s2 = g2 st.x ∧
          ∀ s3 b, (s3 = s2 ∨ (∃ q, E.sol.goodStep s2 q = .ok s3) ∨ E.sol.badStep s2 = .ok s3) → Ok (E.sol.rebuild s3 b) := by
        rcases hpos with ⟨-, hx, -⟩ | ⟨-, -, hx⟩
        · rw [hx]; exact hd0 _ _ hok
        · split at hx
          · rw [hx.1]; exact hd0 _ _ hok
          · rw [hx.1]; exact hd1 _ _ hok
      have hU : Unconverged E o D C g2 st.x := by
        rcases hpos with ⟨-, hx, -⟩ | ⟨-, -, hx⟩
        · rw [hx]; exact hc0
        · split at hx
          · rw [hx.1]; exact hc0
          · rw [hx.1]; exact hc1
      obtain ⟨s2, hd, hc2, hg2, hok2⟩ := hD
      have hcm : st.out.numConsec ≤ maxTries o := hmt (by omega)
      obtain ⟨st', succ, mdx, s3, hb, hw⟩ := body_works (o := o) (fuel := fuel) (last := left == 0) hd hcm
      obtain ⟨r, htr, hrx, hrx', hrd, hrs⟩ := hw.trace
      have hlen' : st'.trace.length = st.trace.length + 1 := by rw [htr]; simp
      have hni' : st'.out.numIters = st'.trace.length := by
        rw [hw.numIters, hni, hlen']; unfold inc16; omega
      have hok' : Ok st'.s := by
        rw [hw.solver]
        refine hok2 _ _ ?_
        have := hw.hook
        split at this
        · exact Or.inr this
        · exact Or.inl this
      have hTx : ∀ (h : Row st.trace.length r), ∀ i r, st'.trace[i]? = some r → Row i r := by
        intro h i q hq
        rw [htr] at hq
        rcases Nat.lt_or_ge i st.trace.length with h' | h'
        · rw [List.getElem?_append_left h'] at hq; exact hT i q hq
        · rw [List.getElem?_append_right h'] at hq
          have hi : i = st.trace.length := by
            by_contra hne
            rw [List.getElem?_eq_none (by simp; omega)] at hq
            cases hq
          rw [hi, Nat.sub_self] at hq
          simp only [List.getElem?_cons_zero, Option.some.injEq] at hq
          subst hq
          rw [hi]; exact h
      obtain ⟨succ', mdx', w1, s1, out1, ms, hstep, hbs⟩ := body_spec' hb
      have hsd : succ' = succ ∧ mdx' = mdx := by
        have h1 := hbs.trace
        rw [htr, List.append_cancel_left_eq] at h1
        simp only [List.cons.injEq, and_true] at h1
        subst h1
        exact ⟨hrs, hrd⟩
      obtain ⟨rfl, rfl⟩ := hsd
      have hcons := step_consec hd hcm hstep
      have hnc' : st'.out.numConsec = out1.numConsec := by rw [hbs.out]
      have hst' : st'.out.stop = out1.stop := by rw [hbs.out]; exact timeStop_unwatched ho _ _
      have hup := hw.upd
      rcases hpos with ⟨h0, hx, hld, hfc⟩ | ⟨h0, hfc, hx⟩
      · -- the first iteration
        have hni0 : st.out.numIters = 0 := by rw [hni, h0]; rfl
        have hl0 : st.trace.length = 0 := by rw [h0]; rfl
        obtain ⟨w2, g, hcr⟩ := hw.crit (Or.inr hni0)
        rw [timeStop_unwatched ho, hst, hc2, hfc, hquiet hU hg2 (hrel0 _)] at hcr
        have hfc' : st'.out.finalCost.cost = C x0 := by
          rw [hw.finalCost, hni0]; simp only [beq_self_eq_true, Bool.or_true, if_true]; rw [hc2, hx]
        have hrow : Row st.trace.length r := by
          rw [hl0]; exact ⟨by rw [hrx, hx]; simp, fun h => absurd h (Nat.lt_irrefl 0)⟩
        have hmd : mdx' = some (D x0) := by
          rcases hw.isMdx with h | ⟨-, -, h, -⟩
          · rw [h, hx]
          · omega
        have hx' : st'.x = E.plusEq x0 (D x0) ∧ st'.lastDx = some (D x0) := by
          rw [hx, hld, hmd] at hup
          revert hup
          generalize st'.x = x1
          generalize st'.lastDx = l1
          generalize st'.lastSucc = b1
          generalize hq : (none : Option V) = q
          intro hup
          cases hup with
          | succ dx => exact ⟨rfl, rfl⟩
          | roll d _ h3 => rw [← hq] at h3; cases h3
          | adv dx _ => exact ⟨rfl, rfl⟩
        refine ⟨st', hb, fun h _ => ⟨by omega, hni', ?_, hok', Or.inr ⟨by omega, hfc', ?_⟩, hTx hrow⟩, fun h => absurd hcr h, fun _ => by omega, hfc', hTx hrow, trivial⟩
        · rw [hnc', hcons.1, hni0, hlen', hl0]; simp
        · rw [hlen', hl0, if_neg (by decide)]; exact hx'
      · -- a rejected iteration
        have hnp : 0 < st.out.numIters := by omega
        have hrj : lt (sub (C st.x) (C x0)) (ofInt 0) = false := by
          split at hx
          · rw [hx.1]; exact hself _
          · rw [hx.1]; exact hbad
        obtain ⟨-, rfl, hk, hfin, -, hif⟩ := step_rejected hd hcm hnp (by rw [hc2, hfc]; exact hrj) ht hstep
        have hfc' : st'.out.finalCost.cost = C x0 := by rw [hbs.out]; show out1.finalCost.cost = _; rw [hfin]; exact hfc
        have hinc : inc8 st.out.numConsec = st.trace.length := by
          rw [hnc]; unfold inc8; rw [Nat.sub_add_cancel h0, Nat.mod_eq_of_lt (by omega)]
        have hrow : Row st.trace.length r := by
          refine ⟨?_, fun _ => hrs⟩
          rw [hrx]
          split at hx
          next h => rw [if_pos h]; exact hx.1
          next h => rw [if_neg h]; exact hx.1
        rw [hinc] at hif
        by_cases hlast : st.trace.length ≥ o.maxConsecFailures
        · rw [if_pos ⟨hf0, hlast⟩] at hif
          obtain ⟨rfl, hs1⟩ := hif
          have hx' : st'.x = x0 := by
            split at hx
            · rw [hx.1, hx.2] at hup
              revert hup
              generalize st'.x = x1
              generalize st'.lastDx = l1
              generalize st'.lastSucc = b1
              generalize hq : (none : Option V) = q
              intro hup
              cases hup with
              | roll d _ h3 => rw [← hq] at h3; cases h3
              | adv dx _ => cases hq
              | stay _ => rfl
            · rw [hx.1, hx.2] at hup
              revert hup
              generalize st'.x = x1
              generalize st'.lastDx = l1
              generalize st'.lastSucc = b1
              intro hup
              cases hup with
              | roll d _ h3 => obtain rfl := Option.some.inj h3; exact hundo
              | stay h3 => cases h3
          refine ⟨st', hb, fun h _ => ?_, fun _ => ⟨hst'.trans hs1, by omega, hx'⟩, fun h => ?_, hfc', hTx hrow, trivial⟩
          · rw [hst', hs1] at h; cases h
          · rw [hst', hs1] at h; cases h
        · rw [if_neg (fun h => hlast h.2)] at hif
          obtain ⟨rfl, w2, g, hs1⟩ := hif
          rw [hc2, hst, hquiet hU hg2 (hrel _ _ (by rw [hfc]; exact hrj))] at hs1
          have hx' : if st'.trace.length % 2 = 0 then st'.x = x0 ∧ st'.lastDx = none else st'.x = E.plusEq x0 (D x0) ∧ st'.lastDx = some (D x0) := by
            rw [hlen']
            split at hx
            next hev =>
              rw [if_neg (by omega)]
              rw [hx.1, hx.2] at hup
              revert hup
              generalize st'.x = x1
              generalize st'.lastDx = l1
              generalize st'.lastSucc = b1
              generalize hq : (none : Option V) = q
              intro hup
              cases hup with
              | roll d _ h3 => rw [← hq] at h3; cases h3
              | adv dx _ => exact ⟨rfl, rfl⟩
            next hev =>
              rw [if_pos (by omega)]
              rw [hx.1, hx.2] at hup
              revert hup
              generalize st'.x = x1
              generalize st'.lastDx = l1
              generalize st'.lastSucc = b1
              intro hup
              cases hup with
              | roll d _ h3 => obtain rfl := Option.some.inj h3; exact ⟨hundo, rfl⟩
              | adv dx h3 => cases h3
          refine ⟨st', hb, fun h _ => ⟨by omega, hni', ?_, hok', Or.inr ⟨by omega, hfc', hx'⟩, hTx hrow⟩, fun h => absurd (hst'.trans hs1) h, fun _ => by omega, hfc', hTx hrow, trivial⟩
          rw [hnc', hk, hinc, hlen']; omega)
    hm ⟨Nat.zero_le _, rfl, rfl, hs, Or.inl ⟨rfl, rfl, rfl, rfl⟩, fun i r hr => by simp [initSt] at hr⟩
  have hstop : st0.out.stop ≠ .kNone := by
    intro h0
    have := h4 h0
    have := hj2 h0
    omega
  obtain ⟨ha, hb, hc⟩ := hj1 hstop
  refine ⟨st, e, by rw [h2]; exact hb, by rw [h1]; exact hc, by rw [h5, if_neg (fun h => hstop h.1)]; exact ha, by rw [hfin]; exact hj3, by rw [h2]; exact hj4⟩

end
end Verif
