import Verif.Lemmas.Convergent
/-!
# Runs of solvers with a state, whose steps all succeed

As `converging_run`, for solvers whose steps depend on a state (the damping of Levenberg-Marquardt): the parameters pass through levels, and on the last level every step is short.
-/

set_option linter.unusedSectionVars false

namespace Verif
open FloatOps

section
variable {F R W S X V M : Type} [FloatOps F]
variable {E : Env F R W S X V M} {o : Options F W V} {C g2 : X → F}

/-- what the four numerical stop criteria say: `best` is the best cost before the iteration, `err` the cost, `n2` the squared length of the step, `gn2` that of the gradient. The reported
criterion is the first that holds. -/
inductive ConvergedFrom (o : Options F W V) (best err n2 gn2 : F) : StopReason → Prop
  | error (h0 : lt (ofInt 0) o.minError = true) (h : lt err o.minError = true) : ConvergedFrom o best err n2 gn2 .kMinError
  | rel (h0 : lt (ofInt 0) o.minRerrDec = true) (h : lt (ofInt 0) (relDerr best err) = true) (h' : lt (relDerr best err) o.minRerrDec = true)
      (n1 : (lt (ofInt 0) o.minError && lt err o.minError) = false) : ConvergedFrom o best err n2 gn2 .kMinRelError
  | step (h0 : lt (ofInt 0) o.minStepNorm2 = true) (h : lt n2 o.minStepNorm2 = true) (n1 : (lt (ofInt 0) o.minError && lt err o.minError) = false)
      (n2' : (lt (ofInt 0) o.minRerrDec && lt (ofInt 0) (relDerr best err) && lt (relDerr best err) o.minRerrDec) = false) : ConvergedFrom o best err n2 gn2 .kMinDeltaNorm
  | grad (h0 : lt (ofInt 0) o.minGradNorm2 = true) (h : lt gn2 o.minGradNorm2 = true) (n1 : (lt (ofInt 0) o.minError && lt err o.minError) = false)
      (n2' : (lt (ofInt 0) o.minRerrDec && lt (ofInt 0) (relDerr best err) && lt (relDerr best err) o.minRerrDec) = false)
      (n3 : (lt (ofInt 0) o.minStepNorm2 && lt n2 o.minStepNorm2) = false) : ConvergedFrom o best err n2 gn2 .kMinGradNorm

theorem ConvergedFrom.converged {best err n2 gn2 : F} {r : StopReason} (h : ConvergedFrom o best err n2 gn2 r) {out : Output F R M} (e : out.stop = r) :
    out.converged = true := by
  unfold Output.converged
  rw [e]
  cases h <;> decide

/-- the criteria without callbacks -/
theorem criteria_from (ho : Unwatched o) {w : W} {best err : F} {s2 : S} {dx g : V} {q : StopReason} {r : StopReason}
    (h : (criteria o w err (relDerr best err) (E.normSq dx) (gn2Of E o s2) dx g).1.getD q = r) :
    (r = q ∧ (lt (ofInt 0) o.minStepNorm2 = true → lt (E.normSq dx) o.minStepNorm2 = false)) ∨ ConvergedFrom o best err (E.normSq dx) (E.sol.gradSq s2) r := by
  have hgn : lt (ofInt 0) o.minGradNorm2 = true → gn2Of E o s2 = E.sol.gradSq s2 := fun h1 => by
    unfold gn2Of hasGradNorm2
    rw [h1]; simp
  unfold criteria at h
  split at h
  next h1 =>
    obtain ⟨a, b⟩ := Bool.and_eq_true_iff.1 h1
    obtain rfl : StopReason.kMinError = r := h
    exact Or.inr (.error a b)
  next h1 =>
  have n1 := Bool.eq_false_iff.2 h1
  split at h
  next h2 =>
    obtain ⟨ab, c⟩ := Bool.and_eq_true_iff.1 h2
    obtain ⟨a, b⟩ := Bool.and_eq_true_iff.1 ab
    obtain rfl : StopReason.kMinRelError = r := h
    exact Or.inr (.rel a b c n1)
  next h2 =>
  have n2 := Bool.eq_false_iff.2 h2
  split at h
  next h3 =>
    obtain ⟨a, b⟩ := Bool.and_eq_true_iff.1 h3
    obtain rfl : StopReason.kMinDeltaNorm = r := h
    exact Or.inr (.step a b n1 n2)
  next h3 =>
  have n3 := Bool.eq_false_iff.2 h3
  split at h
  next h4 =>
    obtain ⟨a, b⟩ := Bool.and_eq_true_iff.1 h4
    obtain rfl : StopReason.kMinGradNorm = r := h
    exact Or.inr (.grad a (by rwa [hgn a] at b) n1 n2 n3)
  next h4 =>
  have c1 : ∀ w, (callStop1 o w err (E.normSq dx) (gn2Of E o s2)).1 = false := fun w => by simp [callStop1, ho.cb1]
  have c2 : ∀ w, (callStop2 o w err dx g).1 = false := fun w => by simp [callStop2, ho.cb2]
  rw [c1, c2] at h
  simp only [Bool.false_eq_true, if_false] at h
  refine Or.inl ⟨h.symm, fun h0 => ?_⟩
  rw [h0, Bool.true_and] at n3
  exact n3

variable {Ok : S → Prop} {Lvl : Nat → X → Prop} {T : X → V → Prop} {N : Nat} {x0 : X}

/-- the best cost before iteration `i`: of the point before, if there is one -/
def bestBefore (C : X → F) (tr : List (Rec F R X V M)) : Nat → F
  | 0 => maxVal
  | i + 1 => ((tr[i]?).map fun r => C r.x).getD maxVal

theorem bestBefore_append (tr : List (Rec F R X V M)) (r : Rec F R X V M) {i : Nat} (hi : i ≤ tr.length) :
    bestBefore C (tr ++ [r]) i = bestBefore C tr i := by
  cases i with
  | zero => rfl
  | succ i => simp only [bestBefore]; rw [List.getElem?_append_left (by omega)]

/-- **A run that converges, with a state.** From a point of level `i` and a state of the kind `Ok i` the solver delivers a step of the kind `T i`; if it is not short, it leads to level `i + 1` and lowers the cost; steps at level
`N` are short. Then all steps are accepted, and the run ends as converged after at most `N + 1` iterations. -/
theorem contracting_run_at {Ok : Nat → S → Prop} {T : Nat → X → V → Prop} (ho : Unwatched o) (hms : lt (ofInt 0) o.minStepNorm2 = true)
    (hdel : ∀ i w s x, i ≤ N → Lvl i x → Ok i s → ∃ s2 dx, Delivers E w s x s2 dx ∧ (E.sol.cost s2).cost = C x ∧ E.sol.gradSq s2 = g2 x ∧ T i x dx ∧
      Ok (i + 1) (E.sol.rebuild s2 true) ∧ ∀ q s3, (o.useStepQuality = false → q = ofInt 0) → E.sol.goodStep s2 q = .ok s3 → Ok (i + 1) (E.sol.rebuild s3 true))
    (hstep : ∀ i x dx, i < N → Lvl i x → T i x dx → lt (E.normSq dx) o.minStepNorm2 = false →
      Lvl (i + 1) (E.plusEq x dx) ∧ lt (sub (C (E.plusEq x dx)) (C x)) (ofInt 0) = true)
    (hshort : ∀ x dx, Lvl N x → T N x dx → lt (E.normSq dx) o.minStepNorm2 = true)
    (h0 : Lvl 0 x0) (hfirst : lt (sub (C x0) maxVal) (ofInt 0) = true)
    {fuel : Nat} {mi m : Int} (hm : loopBound o mi = some m) (hN : (N : Int) < m) {w : W} {s : S} (hs : Ok 0 s) :
    ∃ st, optimizeAcc E o (fuel + 1) mi w s x0 = .ok st ∧ st.trace.length ≤ N + 1 ∧
      (∀ i r, st.trace[i]? = some r → Lvl i r.x ∧ r.succ = true ∧ ∃ dx, r.dx = some dx ∧ T i r.x dx ∧ r.xNext = E.plusEq r.x dx ∧
        (i + 1 < st.trace.length → lt (E.normSq dx) o.minStepNorm2 = false)) ∧
      ∃ r dx, st.trace.getLast? = some r ∧ r.dx = some dx ∧ st.x = E.plusEq r.x dx ∧
        ConvergedFrom o (bestBefore C st.trace (st.trace.length - 1)) (C r.x) (E.normSq dx) (g2 r.x) st.out.stop := by
  let Row : List (Rec F R X V M) → Nat → Rec F R X V M → Prop := fun tr i r => Lvl i r.x ∧ r.succ = true ∧ ∃ dx, r.dx = some dx ∧ T i r.x dx ∧ r.xNext = E.plusEq r.x dx ∧
        (i + 1 < tr.length → lt (E.normSq dx) o.minStepNorm2 = false)
  obtain ⟨st, st0, e, ⟨hj1, hj2, hj3, hj4⟩, h1, h2, -, h4, h5⟩ := run_works_out (E := E) (o := o) (fuel := fuel + 1) (mi := mi) (m := m) (w := w) (s := s) (x := x0)
    (I := fun left st => st.out.numConsec ≤ maxTries o ∧ st.trace.length ≤ N ∧ Ok st.trace.length st.s ∧ Lvl st.trace.length st.x ∧
      lt (sub (C st.x) st.out.finalCost.cost) (ofInt 0) = true ∧ st.out.finalCost.cost = bestBefore C st.trace st.trace.length ∧
      (∀ r dx, st.trace.getLast? = some r → r.dx = some dx → lt (E.normSq dx) o.minStepNorm2 = false) ∧
      (∀ i r, st.trace[i]? = some r → Row st.trace i r))
    (J := fun st => st.trace.length ≤ N + 1 ∧ (∀ i r, st.trace[i]? = some r → Row st.trace i r) ∧
      (st.out.stop = .kNone → st.trace.length ≤ N) ∧
      (st.out.stop ≠ .kNone → ∃ r dx, st.trace.getLast? = some r ∧ r.dx = some dx ∧ st.x = E.plusEq r.x dx ∧
        ConvergedFrom o (bestBefore C st.trace (st.trace.length - 1)) (C r.x) (E.normSq dx) (g2 r.x) st.out.stop))
    (fun left st hst hI => by
      obtain ⟨hc, hlen, hok, hx, hlow, hbest, hlast, hT⟩ := hI
      obtain ⟨s2, dx, hd, hc2, hg2, hTd, hok2, hok3⟩ := hdel _ st.w st.s st.x hlen hx hok
      obtain ⟨st', succ, mdx, s3, hb, hw⟩ := body_works (o := o) (fuel := fuel) (last := left == 0) hd hc
      obtain ⟨r, htr, hrx, hrx', hrd, hrs⟩ := hw.trace
      have hsu : succ = true := by rw [hw.isSucc, hc2]; exact hlow
      subst hsu
      have hmd : mdx = some dx := by
        rcases hw.isMdx with h | ⟨-, h, -⟩
        · exact h
        · cases h
      subst hmd
      have hlen' : st'.trace.length = st.trace.length + 1 := by rw [htr]; simp
      have hgl : st'.trace.getLast? = some r := by rw [htr]; simp
      have hx' : st'.x = E.plusEq st.x dx := by
        have := hw.upd
        revert this
        generalize st'.x = x1
        generalize st'.lastDx = l1
        generalize st'.lastSucc = b1
        intro this
        cases this
        rfl
      obtain ⟨w2, g, hcr⟩ := hw.crit (Or.inl rfl)
      rw [timeStop_unwatched ho, hst, hc2, hbest] at hcr
      have hcrit := criteria_from (E := E) ho hcr.symm
      rw [hg2] at hcrit
      have hT' : ∀ i r, st'.trace[i]? = some r → Row st'.trace i r := by
        intro i q hq
        rw [htr] at hq
        rcases Nat.lt_or_ge i st.trace.length with h | h
        · rw [List.getElem?_append_left h] at hq
          obtain ⟨a1, a2, d, a3, a4, a5, a6⟩ := hT i q hq
          refine ⟨a1, a2, d, a3, a4, a5, fun hi => ?_⟩
          rcases Nat.lt_or_ge (i + 1) st.trace.length with h' | h'
          · exact a6 h'
          · refine hlast q d ?_ a3
            rw [List.getLast?_eq_getElem?, show st.trace.length - 1 = i by omega]; exact hq
        · rw [List.getElem?_append_right h] at hq
          have hi : i = st.trace.length := by
            by_contra hne
            rw [List.getElem?_eq_none (by simp; omega)] at hq
            cases hq
          rw [hi, Nat.sub_self] at hq
          simp only [List.getElem?_cons_zero, Option.some.injEq] at hq
          subst hq
          rw [hi]
          refine ⟨by rw [hrx]; exact hx, hrs, dx, hrd, by rw [hrx]; exact hTd, by rw [hrx, hrx']; exact hx', fun h => by omega⟩
      have hgo : st'.out.stop = .kNone → lt (E.normSq dx) o.minStepNorm2 = false := by
        intro h0
        rcases hcrit with ⟨-, h⟩ | h
        · exact h hms
        · rw [h0] at h; cases h
      have hleN : st'.out.stop = .kNone → st.trace.length < N := by
        intro h0
        have h1 := hgo h0
        rcases Nat.lt_or_ge st.trace.length N with h | h
        · exact h
        · have : st.trace.length = N := by omega
          rw [this] at hx hTd
          rw [hshort _ _ hx hTd] at h1
          cases h1
      refine ⟨st', hb, fun h0 hl => ?_, by omega, hT', fun h0 => by have := hleN h0; omega, fun h0 => ?_⟩
      · have hnext := hstep _ _ _ (hleN h0) hx hTd (hgo h0)
        have hfc : st'.out.finalCost.cost = C st.x := by
          rw [hw.finalCost]; simp only [Bool.true_or, if_true]; exact hc2
        refine ⟨hw.consec h0, by have := hleN h0; omega, ?_, ?_, ?_, ?_, ?_, hT'⟩
        · have hlb : (left == 0) = false := by simp; omega
          rw [hlen', hw.solver, hlb, Bool.and_false]
          simp only [Bool.not_false, if_true]
          by_cases hi : st.out.numIters > 0
          · refine hok3 _ _ (fun hq => ?_) (hw.hookGood hi rfl)
            rw [hq]; simp
          · have := hw.hook
            rw [if_neg hi] at this
            rw [this]; exact hok2
        · rw [hlen', hx']; exact hnext.1
        · rw [hfc, hx']; exact hnext.2
        · rw [hfc, hlen', bestBefore, htr, List.getElem?_append_right (le_refl _), Nat.sub_self, List.getElem?_cons_zero, Option.map_some, Option.getD_some, hrx]
        · intro q d hq hqd
          rw [hgl] at hq
          cases hq
          rw [hrd] at hqd
          cases hqd
          exact hgo h0
      · refine ⟨r, dx, hgl, hrd, by rw [hrx]; exact hx', ?_⟩
        rw [hlen', Nat.add_sub_cancel, htr, bestBefore_append _ _ (le_refl _), hrx]
        rcases hcrit with ⟨h, -⟩ | h
        · exact absurd h h0
        · exact h)
    hm ⟨Nat.zero_le _, Nat.zero_le _, hs, h0, hfirst, rfl, fun r dx hr => by simp [initSt] at hr, fun i r hr => by simp [initSt] at hr⟩
  have hstop : st0.out.stop ≠ .kNone := by
    intro h0
    have := h4 h0
    have := hj3 h0
    omega
  refine ⟨st, e, by rw [h2]; exact hj1, by rw [h2]; exact hj2, ?_⟩
  rw [h2, h1, h5, if_neg (fun h => hstop h.1)]
  exact hj4 hstop


/-- `contracting_run_at` with states and steps of one kind -/
theorem contracting_run (ho : Unwatched o) (hms : lt (ofInt 0) o.minStepNorm2 = true)
    (hdel : ∀ i w s x, i ≤ N → Lvl i x → Ok s → ∃ s2 dx, Delivers E w s x s2 dx ∧ (E.sol.cost s2).cost = C x ∧ E.sol.gradSq s2 = g2 x ∧ T x dx ∧
      Ok (E.sol.rebuild s2 true) ∧ ∀ q s3, (o.useStepQuality = false → q = ofInt 0) → E.sol.goodStep s2 q = .ok s3 → Ok (E.sol.rebuild s3 true))
    (hstep : ∀ i x dx, i < N → Lvl i x → T x dx → lt (E.normSq dx) o.minStepNorm2 = false →
      Lvl (i + 1) (E.plusEq x dx) ∧ lt (sub (C (E.plusEq x dx)) (C x)) (ofInt 0) = true)
    (hshort : ∀ x dx, Lvl N x → T x dx → lt (E.normSq dx) o.minStepNorm2 = true)
    (h0 : Lvl 0 x0) (hfirst : lt (sub (C x0) maxVal) (ofInt 0) = true)
    {fuel : Nat} {mi m : Int} (hm : loopBound o mi = some m) (hN : (N : Int) < m) {w : W} {s : S} (hs : Ok s) :
    ∃ st, optimizeAcc E o (fuel + 1) mi w s x0 = .ok st ∧ st.trace.length ≤ N + 1 ∧
      (∀ i r, st.trace[i]? = some r → Lvl i r.x ∧ r.succ = true ∧ ∃ dx, r.dx = some dx ∧ T r.x dx ∧ r.xNext = E.plusEq r.x dx ∧
        (i + 1 < st.trace.length → lt (E.normSq dx) o.minStepNorm2 = false)) ∧
      ∃ r dx, st.trace.getLast? = some r ∧ r.dx = some dx ∧ st.x = E.plusEq r.x dx ∧
        ConvergedFrom o (bestBefore C st.trace (st.trace.length - 1)) (C r.x) (E.normSq dx) (g2 r.x) st.out.stop :=
  contracting_run_at (Ok := fun _ => Ok) (T := fun _ => T) ho hms hdel hstep hshort h0 hfirst hm hN hs

end

end Verif
