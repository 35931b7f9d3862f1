import Verif.Props.History
import Verif.Lemmas.Prefix
/-!
# C93: looser stop criteria only continue the same run
-/

set_option linter.unusedSectionVars false

namespace Verif
open FloatOps

section
variable {F R W S X V M : Type} [FloatOps F]
variable {E : Env F R W S X V M} {o o' : Options F W V}

/-- The run that ended in `a` is an initial part of the run that ended in `b`: iteration by iteration the point, the
decision and the recorded values are the same, and its history of costs is an initial part. -/
structure InitialPart (a b : LoopSt F R W S X V M) : Prop where
  recs : ∀ (i : Nat) (r : Rec F R X V M), a.trace[i]? = some r → ∃ r', b.trace[i]? = some r' ∧ SameRec r r'
  errs : a.out.errs <+: b.out.errs

/-- what later iterations keep -/
structure Grown (a b : LoopSt F R W S X V M) : Prop where
  trace : a.trace <+: b.trace
  errs : a.out.errs <+: b.out.errs

theorem SameRec.refl (r : Rec F R X V M) : SameRec r r := ⟨rfl, rfl, rfl, fun _ => ⟨rfl, rfl⟩⟩

theorem body_grown {fuel : Nat} {l : Bool} {st st' : LoopSt F R W S X V M} (h : body E o fuel l st = .ok st') :
    Grown st st' := by
  obtain ⟨succ, mdx, w1, s1, out1, ms, hs⟩ := body_spec h
  refine ⟨by rw [hs.trace]; exact List.prefix_append _ _, ?_⟩
  have : st'.out.errs = out1.errs := by rw [hs.out]
  rw [this]
  rcases hs.step.push with ⟨_, _, e, _⟩ | ⟨c, dx, g, e, _⟩
  · rw [e]
  · rw [e]; exact List.prefix_append _ _

theorem loop_grown {fuel : Nat} : ∀ {n : Nat} {st st' : LoopSt F R W S X V M}, loop E o fuel n st = .ok st' →
    Grown st st' := by
  intro n
  induction n with
  | zero =>
    intro st st' h
    simp only [loop] at h
    injection h with h; subst h
    exact ⟨List.prefix_rfl, List.prefix_rfl⟩
  | succ n ih =>
    intro st st' h
    unfold loop at h
    rw [Res.bind_eq_ok] at h
    obtain ⟨st1, hb, h⟩ := h
    have h1 := body_grown hb
    split at h
    · injection h with h; subst h; exact h1
    · have h2 := ih h
      exact ⟨h1.trace.trans h2.trace, h1.errs.trans h2.errs⟩

theorem Grown.initial {a b : LoopSt F R W S X V M} (h : Grown a b) : InitialPart a b := by
  refine ⟨fun i r hr => ⟨r, ?_, .refl r⟩, h.errs⟩
  obtain ⟨l, hl⟩ := h.trace
  rw [← hl, List.getElem?_append_left (by
    obtain ⟨hi, -⟩ := List.getElem?_eq_some_iff.mp hr
    exact hi)]
  exact hr

theorem Looser.loop (h : Looser o o') {fuel : Nat} : ∀ {n n' : Nat} {st st' : LoopSt F R W S X V M}, n ≤ n' →
    loop E o' fuel n' st = .ok st' → ∃ st1, Verif.loop E o fuel n st = .ok st1 ∧ InitialPart st1 st' := by
  intro n
  induction n with
  | zero =>
    intro n' st st' _ hl
    exact ⟨st, rfl, (loop_grown hl).initial⟩
  | succ n ih =>
    intro n' st st' hn hl
    obtain ⟨n', rfl⟩ : ∃ k, n' = k + 1 := ⟨n' - 1, by omega⟩
    unfold Verif.loop at hl
    rw [Res.bind_eq_ok] at hl
    obtain ⟨st1', hb, hl⟩ := hl
    obtain ⟨st1, hb1, ⟨r, r', t1, t2, hrec, e1, e2⟩, hsame⟩ := h.body (l := n == 0) hb
    have hg : Grown st1' st' := by
      split at hl
      · injection hl with hl; subst hl; exact ⟨List.prefix_rfl, List.prefix_rfl⟩
      · exact loop_grown hl
    have hp : InitialPart st1 st' := by
      have heq : st1.out.errs = st1'.out.errs := by
        have := congrArg (·.errs) hrec.out
        rw [e1, e2]
        exact this
      refine ⟨fun i q hq => ?_, by rw [heq]; exact hg.errs⟩
      have h1 : ∃ q', st1'.trace[i]? = some q' ∧ SameRec q q' := by
        rw [t1] at hq
        rw [t2]
        rcases Nat.lt_trichotomy i st.trace.length with hi | hi | hi
        · rw [List.getElem?_append_left hi] at hq ⊢
          exact ⟨q, hq, .refl q⟩
        · subst hi
          simp only [List.getElem?_concat_length, Option.some.injEq] at hq ⊢
          subst hq
          exact ⟨_, rfl, hrec⟩
        · rw [List.getElem?_eq_none (by simp; omega)] at hq
          cases hq
      obtain ⟨q', hq', hr⟩ := h1
      obtain ⟨q'', hq'', hr'⟩ := hg.initial.recs i q' hq'
      refine ⟨q', ?_, hr⟩
      obtain ⟨l, hl⟩ := hg.trace
      rw [← hl, List.getElem?_append_left (by
        obtain ⟨hi, -⟩ := List.getElem?_eq_some_iff.mp hq'
        exact hi)]
      exact hq'
    unfold Verif.loop
    rw [hb1]
    simp only [Res.bind]
    by_cases hs : st1.out.stop = .kNone
    · rw [if_neg (by simp [hs])]
      cases n with
      | zero => exact ⟨st1, rfl, hp⟩
      | succ n =>
        obtain ⟨n', rfl⟩ : ∃ k, n' = k + 1 := ⟨n' - 1, by omega⟩
        have he := hsame (by simp) (by simp) hs
        subst he
        rw [if_neg (by simp [hs])] at hl
        exact ih (by omega) hl
    · rw [if_pos hs]
      exact ⟨st1, rfl, hp⟩

/-- the point returned is the one after the last iteration -/
theorem x_last {fuel : Nat} {mi : Int} {w : W} {s : S} {x : X} {st : LoopSt F R W S X V M}
    (h : optimizeAcc E o fuel mi w s x = .ok st) : ∃ r, st.trace.getLast? = some r ∧ st.x = r.xNext := by
  obtain ⟨m, st0, hm, hj, -, hlen, hst⟩ := run_inv (I := fun _ => True)
    (J := fun st => st.trace ≠ [] → ∃ r, st.trace.getLast? = some r ∧ st.x = r.xNext)
    (fun last st st' h0 _ hb => by
      refine ⟨fun _ => trivial, fun _ => ?_⟩
      obtain ⟨succ, mdx, w1, s1, out1, ms, hs⟩ := body_spec hb
      exact ⟨⟨st.x, succ, mdx, out1, st'.x⟩, by rw [hs.trace]; simp, rfl⟩)
    trivial (fun h => absurd rfl h) h
  rw [hst]
  refine hj ?_
  intro h0
  have := hlen.2.2
  rw [h0] at this
  simp at this

variable [FloatLaws F]

/-- **C93.** Looser stop criteria only continue the same run. Let `o'` differ from `o` in stop criteria only, each of
them at least as loose (`Looser`), and allow at least as many iterations. Whenever the run with `o'` returns, so does
the run with `o`. The run with `o` is an initial part of the run with `o'`: iteration by iteration they evaluate at the
same points, take the same decisions and record the same values. The point it returns is one the longer run passes
through, unless it was stopped by its limit for the number of failures. The longer run never ends with a worse cost. -/
theorem C93_looser {fuel : Nat} {mi mi' : Int} {w : W} {s : S} {x : X} {st' : LoopSt F R W S X V M} (h : Looser o o')
    (hb : budget o mi ≤ budget o' mi') (hb' : budget o' mi' ≤ 65536)
    (hrun : optimizeAcc E o' fuel mi' w s x = .ok st') :
    ∃ st, optimizeAcc E o fuel mi w s x = .ok st ∧ st.trace.length ≤ st'.trace.length ∧
      InitialPart st st' ∧
      (∀ r, st.trace.getLast? = some r → r.out.stop ≠ .kMaxNoDecr → ∃ r' ∈ st'.trace, r'.xNext = st.x) ∧
      lt st.out.finalCost.cost st'.out.finalCost.cost = false := by
  obtain ⟨m', st0', hm', hl', hst'⟩ := optimizeAcc_spec hrun
  have hbm' := budget_of_loopBound hm'
  have hm : loopBound o mi = some (budget o mi) := loopBound_eq_budget (by
    have : (65536 : Int) < intMax := by decide
    omega)
  obtain ⟨st0, hl, hp⟩ := h.loop (n := (budget o mi).toNat) (n' := m'.toNat) (by omega) hl'
  have hr : ∃ st, optimizeAcc E o fuel mi w s x = .ok st ∧ st.trace = st0.trace ∧ st.out.errs = st0.out.errs := by
    unfold optimizeAcc
    rw [hm]
    simp only
    rw [hl]
    exact ⟨_, rfl, rfl, rfl⟩
  obtain ⟨st, hst, ht, he⟩ := hr
  have ht' : st'.trace = st0'.trace := by rw [hst']
  have he' : st'.out.errs = st0'.out.errs := by rw [hst']
  have hip : InitialPart st st' := ⟨by rw [ht, ht']; exact hp.recs, by rw [he, he']; exact hp.errs⟩
  refine ⟨st, hst, ?_, hip, ?_, ?_⟩
  · by_contra hlt
    have hlt := Nat.lt_of_not_le hlt
    obtain ⟨r', hr', -⟩ := hip.recs st'.trace.length st.trace[st'.trace.length] (by simp [hlt])
    simp at hr'
  · intro r hr hne
    obtain ⟨q, hq, hx⟩ := x_last hst
    rw [hr] at hq
    injection hq with hq
    subst hq
    rw [List.getLast?_eq_getElem?] at hr
    obtain ⟨r', hr', hsame⟩ := hip.recs _ r hr
    exact ⟨r', List.mem_of_getElem? hr', by rw [hx, (hsame.next hne).2]⟩
  · have h1 := (hist_run (by omega) hst).1
    have h2 := (hist_run hb' hrun).1
    by_cases hnil : st.out.errs = []
    · rw [h1.init hnil]
      exact FloatLaws.le_max _ h2.finC
    · have hmem := hip.errs.subset (h1.best hnil).1
      exact (h2.best (List.ne_nil_of_mem hmem)).2 _ hmem

/-- a threshold that is switched off, the same, or smaller -/
def OffOrBelow (m' m : F) : Prop := lt (ofInt 0) m' = false ∨ m' = m ∨ lt m' m = true

theorem OffOrBelow.fires {m m' : F} (h : OffOrBelow m' m) (e : F) (h0 : lt (ofInt 0) m' = true) (he : lt e m' = true) :
    lt (ofInt 0) m = true ∧ lt e m = true := by
  rcases h with h | rfl | h
  · rw [h] at h0; cases h0
  · exact ⟨h0, he⟩
  · exact ⟨FloatLaws.lt_trans _ _ _ h0 h, FloatLaws.lt_trans _ _ _ he h⟩

/-- Thresholds that are switched off or smaller, a longer time limit, a larger limit for the total number of failures:
all of these loosen the criteria. -/
theorem Looser.of_thresholds (hq : o'.useStepQuality = o.useStepQuality)
    (hc : o'.maxConsecFailures = o.maxConsecFailures)
    (ht : o'.maxTotalFailures = 0 ∨ 0 < o.maxTotalFailures ∧ o.maxTotalFailures ≤ o'.maxTotalFailures)
    (h1 : o'.stopCallback = o.stopCallback) (h2 : o'.stopCallback2 = o.stopCallback2)
    (he : OffOrBelow o'.minError o.minError) (hr : OffOrBelow o'.minRerrDec o.minRerrDec)
    (hd : OffOrBelow o'.minStepNorm2 o.minStepNorm2) (hg : OffOrBelow o'.minGradNorm2 o.minGradNorm2)
    (htime : lt (ofInt 0) o'.maxDurationMs = false ∨ o'.maxDurationMs = o.maxDurationMs ∨
      lt (ofInt 0) o.maxDurationMs = true ∧ lt o.maxDurationMs o'.maxDurationMs = true) : Looser o o' where
  quality := hq
  consec := hc
  total := by
    intro hp
    rcases ht with ht | ht
    · omega
    · exact ht
  cb1 := h1
  cb2 := h2
  err := he.fires
  rel := hr.fires
  dx := hd.fires
  grad := hg.fires
  time := by
    intro e h0 hlt
    rcases htime with h | h | ⟨h, h'⟩
    · rw [h] at h0; cases h0
    · rw [← h]; exact ⟨h0, hlt⟩
    · exact ⟨h, FloatLaws.lt_trans _ _ _ h' hlt⟩

end

/-! Example: on `x²` from 2, a minimal error of 2 stops the run after two iterations with cost 1. -/

def strictEx : Options D Nat Int := { toyOpts with minError := ofInt 2 }

example : ∃ st, optimizeAcc toySq strictEx 3 (-1) 0 toyS0 2 = .ok st ∧
    (st.out.errs == [ofInt 4, ofInt 1] && st.out.stop == .kMinError) = true :=
  Res.exists_of_holds (by decide +kernel)

example : ∃ st, optimizeAcc toySq { toyOpts with maxIters := 7 } 3 (-1) 0 toyS0 2 = .ok st ∧
    (st.out.errs == [ofInt 4, ofInt 1, ofInt 0, ofInt 0, ofInt 0, ofInt 0, ofInt 0, ofInt 0] &&
      st.out.finalCost.cost == ofInt 0) = true :=
  Res.exists_of_holds (by decide +kernel)

/-- `C93_looser` applies to the two. -/
example {st' : LoopSt D D Nat ToyS Int Int Unit}
    (h : optimizeAcc toySq { toyOpts with maxIters := 7 } 3 (-1) 0 toyS0 2 = .ok st') :
    ∃ st, optimizeAcc toySq strictEx 3 (-1) 0 toyS0 2 = .ok st ∧ st.trace.length ≤ st'.trace.length ∧
      InitialPart st st' ∧
      (∀ r, st.trace.getLast? = some r → r.out.stop ≠ .kMaxNoDecr → ∃ r' ∈ st'.trace, r'.xNext = st.x) ∧
      lt st.out.finalCost.cost st'.out.finalCost.cost = false :=
by
  have hl : Looser strictEx { toyOpts with maxIters := 7 } :=
    Looser.of_thresholds rfl rfl (Or.inl rfl) rfl rfl (Or.inl (by decide +kernel))
      (Or.inr (Or.inl (by simp only [strictEx]))) (Or.inr (Or.inl (by simp only [strictEx])))
      (Or.inr (Or.inl (by simp only [strictEx]))) (Or.inr (Or.inl (by simp only [strictEx])))
  have h1 : budget strictEx (-1) ≤ budget { toyOpts with maxIters := 7 } (-1) := by decide +kernel
  have h2 : budget { toyOpts with maxIters := 7 } (-1) ≤ 65536 := by decide +kernel
  exact C93_looser hl h1 h2 h

end Verif
