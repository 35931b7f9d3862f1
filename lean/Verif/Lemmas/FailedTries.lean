import Verif.Lemmas.Convergent
/-!
# Runs that give up: no try, whatever the damping has become, lowers the cost of the start
-/

set_option linter.unusedSectionVars false

namespace Verif
open FloatOps

section
variable {F R W S X V M : Type} [FloatOps F]
variable {E : Env F R W S X V M} {o : Options F W V} {Ok : Nat → S → Prop} {D : Nat → V} {C : X → F} {g2 : Nat → F}

/-- the point of iteration `i`: the start and the point after the step tried there, in turns -/
def tryPt (E : Env F R W S X V M) (D : Nat → V) (x0 : X) (i : Nat) : X := if i % 2 = 0 then x0 else E.plusEq x0 (D (i - 1))

/-- no criterion of the error, the step or the gradient holds in iteration `i` -/
structure TryUnconverged (E : Env F R W S X V M) (o : Options F W V) (D : Nat → V) (C : X → F) (g2 : Nat → F) (x0 : X) (i : Nat) : Prop where
  error : lt (ofInt 0) o.minError = true → lt (C (tryPt E D x0 i)) o.minError = false
  step : lt (ofInt 0) o.minStepNorm2 = true → lt (E.normSq (D i)) o.minStepNorm2 = false
  grad : lt (ofInt 0) o.minGradNorm2 = true → lt (g2 i) o.minGradNorm2 = false

/-- **A run none of whose tries lowers the cost.** The steps may depend on what the solver has learnt from the earlier tries (iteration `i` delivers `D i`). Each
rejected step is undone, the start is evaluated again, and the next step is tried from there, until `max_consec_failures` iterations in a row were rejected; the run
ends at the start. -/
theorem tries_run (ho : Unwatched o) (ht : o.maxTotalFailures = 0) (hf0 : 0 < o.maxConsecFailures) (hf1 : o.maxConsecFailures < 256) {x0 : X}
    (hrel : ∀ best err : F, lt (sub err best) (ofInt 0) = false → lt (ofInt 0) (relDerr best err) = false) (hrel0 : ∀ err : F, lt (ofInt 0) (relDerr maxVal err) = false)
    (hself : ∀ a : F, lt (sub a a) (ofInt 0) = false) (hfirst : lt (sub (C x0) maxVal) (ofInt 0) = true)
    (hD : ∀ i, i ≤ o.maxConsecFailures → ∀ w s, Ok i s → ∃ s2, Delivers E w s (tryPt E D x0 i) s2 (D i) ∧ (E.sol.cost s2).cost = C (tryPt E D x0 i) ∧
      E.sol.gradSq s2 = g2 i ∧ (i = 0 → Ok 1 (E.sol.rebuild s2 true)) ∧ (0 < i → ∀ s3, E.sol.badStep s2 = .ok s3 → Ok (i + 1) (E.sol.rebuild s3 (i == 1))))
    (hU : ∀ i, i ≤ o.maxConsecFailures → TryUnconverged E o D C g2 x0 i)
    (hundo : ∀ i, E.plusEq (E.plusEq x0 (D i)) (E.negV (D i)) = x0)
    (hbad : ∀ i, i % 2 = 0 → i < o.maxConsecFailures → lt (sub (C (E.plusEq x0 (D i))) (C x0)) (ofInt 0) = false)
    {fuel : Nat} {mi m : Int} (hm : loopBound o mi = some m) (hN : (o.maxConsecFailures : Int) < m) {w : W} {s : S} (hs : Ok 0 s) :
    ∃ st, optimizeAcc E o (fuel + 1) mi w s x0 = .ok st ∧ st.trace.length = o.maxConsecFailures + 1 ∧ st.x = x0 ∧ st.out.stop = .kMaxConsecNoDecr ∧
      st.out.finalCost.cost = C x0 ∧ ∀ i r, st.trace[i]? = some r → r.x = tryPt E D x0 i ∧ (0 < i → r.succ = false) := by
  have hquiet : ∀ {i : Nat} {best : F} {q : StopReason} {w : W} {s2 : S} {g : V}, TryUnconverged E o D C g2 x0 i → E.sol.gradSq s2 = g2 i →
      lt (ofInt 0) (relDerr best (C (tryPt E D x0 i))) = false →
      (criteria o w (C (tryPt E D x0 i)) (relDerr best (C (tryPt E D x0 i))) (E.normSq (D i)) (gn2Of E o s2) (D i) g).1.getD q = q := by
    intro i best q w s2 g hu hg hr
    rcases hcr : criteria o w (C (tryPt E D x0 i)) (relDerr best (C (tryPt E D x0 i))) (E.normSq (D i)) (gn2Of E o s2) (D i) g with ⟨c, w'⟩
    cases c with
    | none => rfl
    | some c =>
      exfalso
      rcases criteria_just hcr with ⟨rfl, h1, h2⟩ | ⟨rfl, h1, h2, h3⟩ | ⟨rfl, h1, h2⟩ | ⟨rfl, h1, h2⟩ | ⟨rfl, ⟨cb, w, h1, -⟩ | ⟨cb, w, h1, -⟩⟩
      · rw [hu.error h1] at h2; cases h2
      · rw [hr] at h2; cases h2
      · rw [hu.step h1] at h2; cases h2
      · have : gn2Of E o s2 = g2 i := by
          unfold gn2Of hasGradNorm2
          rw [h1]; simpa using hg
        rw [this, hu.grad h1] at h2; cases h2
      · rw [ho.cb1] at h1; cases h1
      · rw [ho.cb2] at h1; cases h1
  have hmt : ∀ {c : Nat}, c < o.maxConsecFailures → c ≤ maxTries o := fun {c} hc => by
    unfold maxTries; rw [if_pos hf0]; omega
  let Row : Nat → Rec F R X V M → Prop := fun i r => r.x = tryPt E D x0 i ∧ (0 < i → r.succ = false)
  obtain ⟨st, st0, e, ⟨hj1, hj2, hj3, hj4⟩, h1, h2, hfin, h4, h5⟩ := run_works_fin (E := E) (o := o) (fuel := fuel + 1) (mi := mi) (m := m) (w := w) (s := s) (x := x0)
    (I := fun left st => st.trace.length ≤ o.maxConsecFailures ∧ st.trace.length + left = m.toNat ∧ st.out.numIters = st.trace.length ∧
      st.out.numConsec = st.trace.length - 1 ∧ Ok st.trace.length st.s ∧ st.x = tryPt E D x0 st.trace.length ∧
      st.lastDx = (if st.trace.length % 2 = 0 then none else some (D (st.trace.length - 1))) ∧ (0 < st.trace.length → st.lastSucc = (st.trace.length == 1)) ∧
      st.out.finalCost.cost = (if st.trace.length = 0 then maxVal else C x0) ∧ (∀ i r, st.trace[i]? = some r → Row i r))
    (J := fun st => (st.out.stop ≠ .kNone → st.out.stop = .kMaxConsecNoDecr ∧ st.trace.length = o.maxConsecFailures + 1 ∧ st.x = x0) ∧
      (st.out.stop = .kNone → st.trace.length ≤ o.maxConsecFailures) ∧ st.out.finalCost.cost = C x0 ∧ (∀ i r, st.trace[i]? = some r → Row i r))
    (fun left st hst hI => by
      obtain ⟨hlen, hleft, hni, hnc, hok, hx, hld, hls, hfc, hT⟩ := hI
      obtain ⟨s2, hd, hc2, hg2, hok0, hok1⟩ := hD _ hlen st.w st.s hok
      have hu := hU _ hlen
      rw [← hx] at hd
      have hcm : st.out.numConsec ≤ maxTries o := hmt (by omega)
      obtain ⟨st', succ, mdx, s3, hb, hw⟩ := body_works (o := o) (fuel := fuel) (last := left == 0) hd hcm
      obtain ⟨r, htr, hrx, hrx', hrd, hrs⟩ := hw.trace
      have hlen' : st'.trace.length = st.trace.length + 1 := by rw [htr]; simp
      have hni' : st'.out.numIters = st'.trace.length := by
        rw [hw.numIters, hni, hlen']; unfold inc16; omega
      have hTx : ∀ (h : Row st.trace.length r), ∀ i r, st'.trace[i]? = some r → Row i r := by
        intro h i q hq
        rw [htr] at hq
        rcases Nat.lt_or_ge i st.trace.length with h' | h'
        · rw [List.getElem?_append_left h'] at hq; exact hT i q hq
        · rw [List.getElem?_append_right h'] at hq
          have hi : i = st.trace.length := by
            by_contra hne
            rw [List.getElem?_eq_none (by simp; omega)] at hq
            cases hq
          rw [hi, Nat.sub_self] at hq
          simp only [List.getElem?_cons_zero, Option.some.injEq] at hq
          subst hq
          rw [hi]; exact h
      obtain ⟨succ', mdx', w1, s1, out1, ms, hstep, hbs, hsol, -⟩ := body_flag hb
      have hsd : succ' = succ ∧ mdx' = mdx := by
        have h1 := hbs.trace
        rw [htr, List.append_cancel_left_eq] at h1
        simp only [List.cons.injEq, and_true] at h1
        subst h1
        exact ⟨hrs, hrd⟩
      obtain ⟨rfl, rfl⟩ := hsd
      have hcons := step_consec hd hcm hstep
      have hnc' : st'.out.numConsec = out1.numConsec := by rw [hbs.out]
      have hst' : st'.out.stop = out1.stop := by rw [hbs.out]; exact timeStop_unwatched ho _ _
      have hup := hw.upd
      rcases Nat.eq_zero_or_pos st.trace.length with h0 | h0
      · -- the first iteration
        have hx0 : st.x = x0 := by rw [hx, h0]; rfl
        have hpt : tryPt E D x0 0 = x0 := rfl
        rw [h0] at hc2 hg2 hok0 hok1 hu hfc hld hd
        rw [if_pos rfl] at hfc
        rw [if_pos rfl] at hld
        have hni0 : st.out.numIters = 0 := by rw [hni, h0]
        obtain ⟨w2, g, hcr⟩ := hw.crit (Or.inr hni0)
        have hq := hquiet (best := maxVal) (q := .kNone) (w := w2) (s2 := s2) (g := g) hu hg2 (hrel0 _)
        rw [timeStop_unwatched ho, hst, hc2, hfc, h0, hq] at hcr
        have hfc' : st'.out.finalCost.cost = C x0 := by
          rw [hw.finalCost, hni0]; simp only [beq_self_eq_true, Bool.or_true, if_true]; rw [hc2, hpt]
        have hrow : Row st.trace.length r := ⟨by rw [hrx, hx], fun h => absurd h (by omega)⟩
        have hsc : succ' = true := by rw [hw.isSucc, hfc, hc2, hpt]; exact hfirst
        have hmd : mdx' = some (D 0) := by
          rcases hw.isMdx with h | ⟨-, -, h, -⟩
          · rw [h, h0]
          · omega
        have hx' : st'.x = E.plusEq x0 (D 0) ∧ st'.lastDx = some (D 0) := by
          rw [hx0, hld, hmd] at hup
          revert hup
          generalize st'.x = x1
          generalize st'.lastDx = l1
          generalize st'.lastSucc = b1
          generalize hq : (none : Option V) = q
          intro hup
          cases hup with
          | succ dx => exact ⟨rfl, rfl⟩
          | roll d _ h3 => rw [← hq] at h3; cases h3
          | adv dx _ => exact ⟨rfl, rfl⟩
        refine ⟨st', hb, fun h hn => ⟨by omega, by omega, hni', ?_, ?_, ?_, ?_, fun _ => ?_, ?_, hTx hrow⟩, fun h => absurd hcr h, fun _ => by omega, hfc', hTx hrow⟩
        · rw [hnc', hcons.1, hni0, hlen', h0]; simp
        · have h3 : s3 = s2 := by
            have := hw.hook
            rwa [if_neg (by omega)] at this
          have hlast : (left == 0) = false := by simp; omega
          rw [hw.solver, hsc, h3, hlen', h0, hlast]
          simpa using hok0 rfl
        · rw [hlen', h0]; exact hx'.1
        · rw [hlen', h0]; exact hx'.2
        · rw [hw.lastSucc, hsc, hlen', h0]; rfl
        · rw [hlen', h0, hfc']; rfl
      · -- a rejected iteration
        have hnp : 0 < st.out.numIters := by omega
        rw [if_neg (by omega)] at hfc
        have hrj : lt (sub (C (tryPt E D x0 st.trace.length)) (C x0)) (ofInt 0) = false := by
          unfold tryPt
          split
          · exact hself _
          · exact hbad _ (by omega) (by omega)
        obtain ⟨hbs3, rfl, hk, hfin, -, hif⟩ := step_rejected hd hcm hnp (by rw [hc2, hfc]; exact hrj) ht hstep
        have hfc' : st'.out.finalCost.cost = C x0 := by rw [hbs.out]; show out1.finalCost.cost = _; rw [hfin]; exact hfc
        have hinc : inc8 st.out.numConsec = st.trace.length := by
          rw [hnc]; unfold inc8; rw [Nat.sub_add_cancel h0, Nat.mod_eq_of_lt (by omega)]
        have hrow : Row st.trace.length r := ⟨by rw [hrx, hx], fun _ => hrs⟩
        rw [hinc] at hif
        by_cases hlast : st.trace.length ≥ o.maxConsecFailures
        · rw [if_pos ⟨hf0, hlast⟩] at hif
          obtain ⟨rfl, hs1⟩ := hif
          have hx' : st'.x = x0 := by
            rw [hx, hld] at hup
            unfold tryPt at hup
            split at hup
            next hev =>
              revert hup
              generalize st'.x = x1
              generalize st'.lastDx = l1
              generalize st'.lastSucc = b1
              generalize hq : (none : Option V) = q
              intro hup
              cases hup with
              | roll d _ h3 => rw [← hq] at h3; cases h3
              | adv dx _ => cases hq
              | stay _ => rfl
            next hev =>
              revert hup
              generalize st'.x = x1
              generalize st'.lastDx = l1
              generalize st'.lastSucc = b1
              intro hup
              cases hup with
              | roll d _ h3 => obtain rfl := Option.some.inj h3; exact hundo _
              | stay h3 => cases h3
          refine ⟨st', hb, fun h _ => ?_, fun _ => ⟨hst'.trans hs1, by omega, hx'⟩, fun h => ?_, hfc', hTx hrow⟩
          · rw [hst', hs1] at h; cases h
          · rw [hst', hs1] at h; cases h
        · rw [if_neg (fun h => hlast h.2)] at hif
          obtain ⟨rfl, w2, g, hs1⟩ := hif
          rw [hc2, hst, hquiet hu hg2 (hrel _ _ (by rw [hfc]; exact hrj))] at hs1
          have hx' : st'.x = tryPt E D x0 (st.trace.length + 1) ∧ st'.lastDx = (if (st.trace.length + 1) % 2 = 0 then none else some (D st.trace.length)) := by
            rw [hx, hld] at hup
            unfold tryPt at hup ⊢
            split at hup
            next hev =>
              rw [if_neg (by omega), if_neg (by omega), Nat.add_sub_cancel]
              revert hup
              generalize st'.x = x1
              generalize st'.lastDx = l1
              generalize st'.lastSucc = b1
              generalize hq : (none : Option V) = q
              intro hup
              cases hup with
              | roll d _ h3 => rw [← hq] at h3; cases h3
              | adv dx _ => exact ⟨rfl, rfl⟩
            next hev =>
              rw [if_pos (by omega), if_pos (by omega)]
              revert hup
              generalize st'.x = x1
              generalize st'.lastDx = l1
              generalize st'.lastSucc = b1
              intro hup
              cases hup with
              | roll d _ h3 => obtain rfl := Option.some.inj h3; exact ⟨hundo _, rfl⟩
              | adv dx h3 => cases h3
          refine ⟨st', hb, fun h _ => ⟨by omega, by omega, hni', ?_, ?_, ?_, ?_, fun _ => ?_, ?_, hTx hrow⟩, fun h => absurd (hst'.trans hs1) h, fun _ => by omega, hfc', hTx hrow⟩
          · rw [hnc', hk, hinc, hlen']; omega
          · rw [hsol, hlen', hls h0]
            exact hok1 h0 _ hbs3
          · rw [hlen']; exact hx'.1
          · rw [hlen']; exact hx'.2
          · rw [hw.lastSucc, hlen']; symm; simpa using Nat.ne_of_gt h0
          · rw [hlen', hfc']; rfl)
    hm ⟨Nat.zero_le _, by simp [initSt], rfl, rfl, hs, rfl, rfl, fun h => by simp [initSt] at h, rfl, fun i r hr => by simp [initSt] at hr⟩
  have hstop : st0.out.stop ≠ .kNone := by
    intro h0
    have := h4 h0
    have := hj2 h0
    omega
  obtain ⟨ha, hb, hc⟩ := hj1 hstop
  refine ⟨st, e, by rw [h2]; exact hb, by rw [h1]; exact hc, by rw [h5, if_neg (fun h => hstop h.1)]; exact ha, by rw [hfin]; exact hj3, by rw [h2]; exact hj4⟩

end
end Verif
