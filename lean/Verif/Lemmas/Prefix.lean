import Verif.Lemmas.Loop
/-!
# Two runs that differ in their stop criteria only
-/

set_option linter.unusedSectionVars false

namespace Verif
open FloatOps

section
variable {F R W S X V M : Type} [FloatOps F]

/-- `o'` stops only where `o` stops as well. Everything that acts on the iterates is the same. -/
structure Looser (o o' : Options F W V) : Prop where
  quality : o'.useStepQuality = o.useStepQuality
  consec : o'.maxConsecFailures = o.maxConsecFailures
  total : 0 < o'.maxTotalFailures → 0 < o.maxTotalFailures ∧ o.maxTotalFailures ≤ o'.maxTotalFailures
  cb1 : o'.stopCallback = o.stopCallback
  cb2 : o'.stopCallback2 = o.stopCallback2
  err : ∀ e, lt (ofInt 0) o'.minError = true → lt e o'.minError = true →
    lt (ofInt 0) o.minError = true ∧ lt e o.minError = true
  rel : ∀ e, lt (ofInt 0) o'.minRerrDec = true → lt e o'.minRerrDec = true →
    lt (ofInt 0) o.minRerrDec = true ∧ lt e o.minRerrDec = true
  dx : ∀ e, lt (ofInt 0) o'.minStepNorm2 = true → lt e o'.minStepNorm2 = true →
    lt (ofInt 0) o.minStepNorm2 = true ∧ lt e o.minStepNorm2 = true
  grad : ∀ e, lt (ofInt 0) o'.minGradNorm2 = true → lt e o'.minGradNorm2 = true →
    lt (ofInt 0) o.minGradNorm2 = true ∧ lt e o.minGradNorm2 = true
  time : ∀ e, lt (ofInt 0) o'.maxDurationMs = true → lt o'.maxDurationMs e = true →
    lt (ofInt 0) o.maxDurationMs = true ∧ lt o.maxDurationMs e = true

variable {E : Env F R W S X V M} {o o' : Options F W V}

theorem Looser.criteria (h : Looser o o') {w : W} {e r d gs : F} {dx g : V}
    (hn : (criteria o w e r d (if hasGradNorm2 o then gs else ofInt 0) dx g).1 = none) :
    Verif.criteria o' w e r d (if hasGradNorm2 o' then gs else ofInt 0) dx g =
      Verif.criteria o w e r d (if hasGradNorm2 o then gs else ofInt 0) dx g := by
  have c1 : ∀ w a b c, callStop1 o' w a b c = callStop1 o w a b c := by intro w a b c; unfold callStop1; rw [h.cb1]
  have c2 : ∀ w a b c, callStop2 o' w a b c = callStop2 o w a b c := by intro w a b c; unfold callStop2; rw [h.cb2]
  -- the gradient norm is computed by both or used by none of the callbacks
  have hg : ∀ w, callStop1 o w e d (if hasGradNorm2 o' then gs else ofInt 0) =
      callStop1 o w e d (if hasGradNorm2 o then gs else ofInt 0) := by
    intro w
    unfold callStop1
    cases hc : o.stopCallback with
    | none => rfl
    | some cb =>
      have h1 : hasGradNorm2 o = true := by simp [hasGradNorm2, hc]
      have h2 : hasGradNorm2 o' = true := by simp [hasGradNorm2, h.cb1, hc]
      rw [h1, h2]
  have hgr : ∀ {A : Prop}, lt (ofInt 0) o'.minGradNorm2 = true →
      lt (if hasGradNorm2 o' then gs else ofInt 0) o'.minGradNorm2 = true →
      ¬ (lt (ofInt 0) o.minGradNorm2 && lt (if hasGradNorm2 o then gs else ofInt 0) o.minGradNorm2) = true → A := by
    intro A a b n4
    have h' := h.grad _ a b
    have h1 : hasGradNorm2 o = true := by simp [hasGradNorm2, h'.1]
    have h2 : hasGradNorm2 o' = true := by simp [hasGradNorm2, a]
    rw [h2] at h'
    rw [h1] at n4
    exact absurd (by rw [Bool.and_eq_true]; exact h') n4
  generalize (if hasGradNorm2 o then gs else ofInt 0) = G at hn hg hgr ⊢
  generalize (if hasGradNorm2 o' then gs else ofInt 0) = G' at hg hgr ⊢
  unfold Verif.criteria at hn ⊢
  simp only [c1, c2, hg]
  split at hn
  · cases hn
  next n1 =>
  split at hn
  · cases hn
  next n2 =>
  split at hn
  · cases hn
  next n3 =>
  split at hn
  · cases hn
  next n4 =>
  rw [if_neg n1, if_neg n2, if_neg n3, if_neg n4]
  rw [if_neg, if_neg, if_neg, if_neg]
  · intro hc
    rw [Bool.and_eq_true] at hc
    exact hgr hc.1 hc.2 n4
  · intro hc
    rw [Bool.and_eq_true] at hc
    exact n3 (by rw [Bool.and_eq_true]; exact h.dx _ hc.1 hc.2)
  · intro hc
    rw [Bool.and_eq_true, Bool.and_eq_true] at hc
    have h' := h.rel _ hc.1.1 hc.2
    exact n2 (by rw [Bool.and_eq_true, Bool.and_eq_true]; exact ⟨⟨h'.1, hc.1.2⟩, h'.2⟩)
  · intro hc
    rw [Bool.and_eq_true] at hc
    exact n1 (by rw [Bool.and_eq_true]; exact h.err _ hc.1 hc.2)

theorem criteria_ne {w : W} {e r d gs : F} {dx g : V} {q w'} (h : criteria o w e r d gs dx g = (some q, w')) :
    q ≠ .kNone := by
  unfold criteria at h
  repeat (split at h; · cases h; decide)
  cases h

theorem Looser.retry (h : Looser o o') (x : X) : ∀ (n : Nat) (w : W) (s : S) (out : Output F R M),
    retry E o' x n w s out = Verif.retry E o x n w s out := by
  intro n
  induction n with
  | zero => intros; rfl
  | succ n ih =>
    intro w s out
    have ht : maxTries o' = maxTries o := by unfold maxTries; rw [h.consec]
    unfold Verif.retry
    simp only [ht, h.consec, ih]

/-- equal up to the stop reason -/
def SameOut (a b : Output F R M) : Prop := a = { b with stop := a.stop }

theorem SameOut.rfl' {a : Output F R M} : SameOut a a := rfl

/-- How a call of `Step` with the stricter criteria relates to the one with the looser criteria. -/
inductive StepEarly : (Bool × Option V) × W × S × Output F R M → (Bool × Option V) × W × S × Output F R M → Prop
  | same (a) : StepEarly a a
  | stop (p w w' s out out') (h : SameOut out out') (hn : out.stop ≠ .kNone) : StepEarly (p, w, s, out) (p, w', s, out')
  | total (p w w' s out out') (h : SameOut out out') (hn : out.stop = .kMaxNoDecr) (hp : p.1 = false) :
      StepEarly ((false, none), w, s, out) (p, w', s, out')

theorem Looser.finish (h : Looser o o') {w : W} {e r d gs : F} {dx g : V} {p : Bool × Option V} {s : S} {out : Output F R M}
    {p' : (Bool × Option V) × W × S × Output F R M}
    (hp : (Res.ok (p, (Verif.criteria o' w e r d (if hasGradNorm2 o' then gs else ofInt 0) dx g).2, s,
        { out with stop := (Verif.criteria o' w e r d (if hasGradNorm2 o' then gs else ofInt 0) dx g).1.getD out.stop }) :
        Res ((Bool × Option V) × W × S × Output F R M)) = .ok p') :
    ∃ q, (Res.ok (p, (Verif.criteria o w e r d (if hasGradNorm2 o then gs else ofInt 0) dx g).2, s,
        { out with stop := (Verif.criteria o w e r d (if hasGradNorm2 o then gs else ofInt 0) dx g).1.getD out.stop }) :
        Res ((Bool × Option V) × W × S × Output F R M)) = .ok q ∧
      StepEarly q p' := by
  injection hp with hp
  subst hp
  refine ⟨_, rfl, ?_⟩
  cases hc : (Verif.criteria o w e r d (if hasGradNorm2 o then gs else ofInt 0) dx g).1 with
  | none => rw [h.criteria hc, hc]; exact .same _
  | some q =>
    refine .stop _ _ _ _ _ _ rfl ?_
    simp only [Option.getD_some]
    exact criteria_ne (w' := (Verif.criteria o w e r d (if hasGradNorm2 o then gs else ofInt 0) dx g).2)
      (Prod.ext hc rfl)

theorem Looser.afterSolve (h : Looser o o') {dx : V} {c : Cost F R} {w : W} {s : S} {out : Output F R M}
    {p : (Bool × Option V) × W × S × Output F R M} (hp : afterSolve E o' dx c w s out = .ok p) :
    ∃ q, Verif.afterSolve E o dx c w s out = .ok q ∧ StepEarly q p := by
  unfold Verif.afterSolve at hp ⊢
  simp only at hp ⊢
  split at hp
  · rename_i hc
    rw [if_pos hc]
    exact ⟨_, hp, .same _⟩
  rename_i hc
  rw [if_neg hc]
  split at hp
  · rename_i hd
    rw [if_pos hd]
    exact ⟨_, hp, .same _⟩
  rename_i hd
  rw [if_neg hd]
  split at hp
  · rename_i hg
    rw [if_pos hg]
    rw [h.quality] at hp
    rw [Res.bind_eq_ok] at hp
    obtain ⟨s1, hs1, hp⟩ := hp
    rw [hs1]
    exact h.finish (out := { out with
      errs := out.errs ++ [c.cost], deltas2 := out.deltas2 ++ [E.normSq dx],
      successes := out.successes ++ [lt (sub c.cost out.finalCost.cost) (ofInt 0)], numConsec := 0, finalCost := c,
      finalRerr := relDerr out.finalCost.cost c.cost }) hp
  rename_i hg
  rw [if_neg hg]
  rw [Res.bind_eq_ok] at hp
  obtain ⟨s1, hs1, hp⟩ := hp
  rw [hs1]
  simp only [Res.bind]
  rw [h.consec] at hp
  split at hp
  · rename_i hk
    rw [if_pos hk]
    exact ⟨_, hp, .same _⟩
  rename_i hk
  rw [if_neg hk]
  by_cases ht : (decide (o.maxTotalFailures > 0) && decide (inc8 out.numFailures ≥ o.maxTotalFailures)) = true
  · rw [if_pos ht]
    refine ⟨_, rfl, ?_⟩
    split at hp
    · injection hp with hp; subst hp; exact .total _ _ _ _ _ _ rfl rfl rfl
    · injection hp with hp; subst hp
      exact .total _ _ _ _ _ _ rfl rfl (by
        have := hg
        simp only [Bool.or_eq_true, not_or, Bool.not_eq_true] at this
        exact this.1)
  · rw [if_neg ht]
    rw [if_neg] at hp
    · exact h.finish (out := { out with
        errs := out.errs ++ [c.cost], deltas2 := out.deltas2 ++ [E.normSq dx],
        successes := out.successes ++ [lt (sub c.cost out.finalCost.cost) (ofInt 0)],
        numFailures := inc8 out.numFailures, numConsec := inc8 out.numConsec }) hp
    · intro hc
      apply ht
      simp only [Bool.and_eq_true, decide_eq_true_eq] at hc ⊢
      have := h.total hc.1
      exact ⟨this.1, Nat.le_trans this.2 hc.2⟩

theorem Looser.step (h : Looser o o') {fuel : Nat} {w : W} {s : S} {x : X} {out : Output F R M}
    {p : (Bool × Option V) × W × S × Output F R M} (hp : step E o' fuel w s x out = .ok p) :
    ∃ q, Verif.step E o fuel w s x out = .ok q ∧ StepEarly q p := by
  unfold Verif.step at hp ⊢
  split at hp
  next r w1 hr => exact ⟨_, hp, .same _⟩
  next s1 w1 hr =>
    rw [h.retry, Res.bind_eq_ok] at hp
    obtain ⟨⟨e, w2, s2, out2⟩, h1, h2⟩ := hp
    rw [h1]
    simp only [Res.bind]
    cases e with
    | ret => exact ⟨_, h2, .same _⟩
    | failed => exact ⟨_, h2, .same _⟩
    | got dx c => exact h.afterSolve h2

/-- How an iteration of the stricter run (`r`) relates to the same iteration of the looser run (`r'`): the point, the
decision and everything recorded except the stop reason are the same. The step and the next point are the same as
well, unless the stricter run stopped here because of its limit for the number of failures. -/
structure SameRec (r r' : Rec F R X V M) : Prop where
  x : r.x = r'.x
  succ : r.succ = r'.succ
  out : SameOut r.out r'.out
  next : r.out.stop ≠ .kMaxNoDecr → r.dx = r'.dx ∧ r.xNext = r'.xNext

/-- end of a rejected iteration -/
def finIt (E : Env F R W S X V M) (o : Options F W V) (st : LoopSt F R W S X V M) (w1 : W) (s1 : S) (out1 : Output F R M)
    (mdx : Option V) (x1 : X) (ld : Option V) (ls ev : Bool) : LoopSt F R W S X V M :=
  { w := (E.clock w1).2, s := E.sol.rebuild s1 (!ev), x := x1,
    out := { out1 with
      duration := add out1.duration (E.clock w1).1,
      stop := if lt (ofInt 0) o.maxDurationMs && lt o.maxDurationMs (add out1.duration (E.clock w1).1) then .kTimedOut
        else out1.stop,
      numIters := inc16 out1.numIters },
    lastDx := ld, lastSucc := ls, trace := st.trace ++ [⟨st.x, false, mdx, out1, x1⟩] }

theorem Looser.body (h : Looser o o') {fuel : Nat} {l l' : Bool} {st st1' : LoopSt F R W S X V M}
    (hb : body E o' fuel l' st = .ok st1') :
    ∃ st1, Verif.body E o fuel l st = .ok st1 ∧
      (∃ r r', st1.trace = st.trace ++ [r] ∧ st1'.trace = st.trace ++ [r'] ∧ SameRec r r' ∧
        st1.out.errs = r.out.errs ∧ st1'.out.errs = r'.out.errs) ∧
      (l = false → l' = false → st1.out.stop = .kNone → st1 = st1') := by
  unfold Verif.body at hb ⊢
  rw [Res.bind_eq_ok] at hb
  obtain ⟨⟨⟨succ, mdx⟩, w1, s1, out1⟩, hstep, hb⟩ := hb
  obtain ⟨q, hq, hrel⟩ := h.step hstep
  rw [hq]
  simp only [Res.bind]
  rw [Res.bind_eq_ok] at hb
  obtain ⟨⟨x1, ld, ls, ev⟩, hupd, hb⟩ := hb
  simp only at hupd hb
  injection hb with hb
  subst hb
  cases hrel with
  | same =>
    simp only
    cases succ with
    | true =>
      rw [if_pos rfl] at hupd ⊢
      cases mdx with
      | none => cases hupd
      | some dx =>
        simp only at hupd ⊢
        injection hupd with hupd
        obtain ⟨rfl, rfl, rfl, rfl⟩ := hupd
        refine ⟨_, rfl, ⟨_, _, rfl, rfl, ⟨rfl, rfl, rfl, fun _ => ⟨rfl, rfl⟩⟩, rfl, rfl⟩, ?_⟩
        rintro rfl rfl hs
        simp only [Bool.and_false] at hs ⊢
        congr 2
        split at hs
        · cases hs
        · rename_i ht
          rw [if_neg ht, if_neg]
          intro hc
          rw [Bool.and_eq_true] at hc
          exact ht (by rw [Bool.and_eq_true]; exact h.time _ hc.1 hc.2)
    | false =>
      rw [if_neg (by decide)] at hupd ⊢
      have fin : ∀ x1 ld ls ev, ∃ st1 : LoopSt F R W S X V M,
          (Res.ok (finIt E o st w1 s1 out1 mdx x1 ld ls ev) : Res (LoopSt F R W S X V M)) = .ok st1 ∧
          (∃ r r', st1.trace = st.trace ++ [r] ∧ (finIt E o' st w1 s1 out1 mdx x1 ld ls ev).trace = st.trace ++ [r'] ∧
            SameRec r r' ∧ st1.out.errs = r.out.errs ∧ out1.errs = r'.out.errs) ∧
          (l = false → l' = false → st1.out.stop = .kNone → st1 = finIt E o' st w1 s1 out1 mdx x1 ld ls ev) := by
        intro x1 ld ls ev
        refine ⟨_, rfl, ⟨_, _, rfl, rfl, ⟨rfl, rfl, rfl, fun _ => ⟨rfl, rfl⟩⟩, rfl, rfl⟩, ?_⟩
        rintro rfl rfl hs
        simp only [finIt] at hs ⊢
        congr 2
        split at hs
        · cases hs
        · rename_i ht
          rw [if_neg ht, if_neg]
          intro hc
          rw [Bool.and_eq_true] at hc
          exact ht (by rw [Bool.and_eq_true]; exact h.time _ hc.1 hc.2)
      cases hld : st.lastDx with
      | some d =>
        rw [hld] at hupd
        simp only at hupd ⊢
        injection hupd with hupd
        obtain ⟨rfl, rfl, rfl, rfl⟩ := hupd
        exact fin _ _ _ _
      | none =>
        rw [hld] at hupd
        cases mdx with
        | some dx =>
          simp only at hupd ⊢
          injection hupd with hupd
          obtain ⟨rfl, rfl, rfl, rfl⟩ := hupd
          exact fin _ _ _ _
        | none =>
          simp only at hupd ⊢
          injection hupd with hupd
          obtain ⟨rfl, rfl, rfl, rfl⟩ := hupd
          exact fin _ _ _ _
  | stop p w w' s out out' hso hn =>
    have herr : ∀ {A : Prop} {r : StopReason} {c : Bool}, (if c = true then StopReason.kTimedOut else r) = .kNone →
        r ≠ .kNone → A := by
      intro A r c h1 h2
      split at h1
      · cases h1
      · exact absurd h1 h2
    cases succ with
    | true =>
      rw [if_pos rfl] at hupd
      simp only [if_true]
      cases mdx with
      | none => cases hupd
      | some dx =>
        simp only at hupd ⊢
        injection hupd with hupd
        obtain ⟨rfl, rfl, rfl, rfl⟩ := hupd
        refine ⟨_, rfl, ⟨_, _, rfl, rfl, ⟨rfl, rfl, hso, fun _ => ⟨rfl, rfl⟩⟩, rfl, rfl⟩, ?_⟩
        intro _ _ hs
        exact herr hs hn
    | false =>
      rw [if_neg (by decide)] at hupd
      simp only [Bool.false_eq_true, if_false]
      cases hld : st.lastDx with
      | some d =>
        rw [hld] at hupd
        simp only at hupd ⊢
        injection hupd with hupd
        obtain ⟨rfl, rfl, rfl, rfl⟩ := hupd
        refine ⟨_, rfl, ⟨_, _, rfl, rfl, ⟨rfl, rfl, hso, fun _ => ⟨rfl, rfl⟩⟩, rfl, rfl⟩, ?_⟩
        intro _ _ hs
        exact herr hs hn
      | none =>
        rw [hld] at hupd
        cases mdx with
        | some dx =>
          simp only at hupd ⊢
          injection hupd with hupd
          obtain ⟨rfl, rfl, rfl, rfl⟩ := hupd
          refine ⟨_, rfl, ⟨_, _, rfl, rfl, ⟨rfl, rfl, hso, fun _ => ⟨rfl, rfl⟩⟩, rfl, rfl⟩, ?_⟩
          intro _ _ hs
          exact herr hs hn
        | none =>
          simp only at hupd ⊢
          injection hupd with hupd
          obtain ⟨rfl, rfl, rfl, rfl⟩ := hupd
          refine ⟨_, rfl, ⟨_, _, rfl, rfl, ⟨rfl, rfl, hso, fun _ => ⟨rfl, rfl⟩⟩, rfl, rfl⟩, ?_⟩
          intro _ _ hs
          exact herr hs hn
  | total p w w' s out out' hso hn hp =>
    simp only at hp
    subst hp
    rw [if_neg (by decide)] at hupd
    simp only [Bool.false_eq_true, if_false]
    have herr : ∀ {A : Prop} {c : Bool}, (if c = true then StopReason.kTimedOut else out.stop) = .kNone → A := by
      intro A c h1
      split at h1
      · cases h1
      · rw [hn] at h1; cases h1
    cases hld : st.lastDx with
    | some d =>
      refine ⟨_, rfl, ⟨_, _, rfl, rfl, ⟨rfl, rfl, hso, fun hne => absurd hn hne⟩, rfl, rfl⟩, ?_⟩
      intro _ _ hs
      exact herr hs
    | none =>
      refine ⟨_, rfl, ⟨_, _, rfl, rfl, ⟨rfl, rfl, hso, fun hne => absurd hn hne⟩, rfl, rfl⟩, ?_⟩
      intro _ _ hs
      exact herr hs

end
end Verif
