import Verif.Props.History
/-!
# C05, C06, C12: where `x` is
-/

set_option linter.unusedSectionVars false

namespace Verif
open FloatOps

section
variable {F R W S X V M : Type} [FloatOps F]
variable {E : Env F R W S X V M} {o : Options F W V}

/-- Specification: the solver measured the cost `c` when it was built at `p`. -/
def MeasuredAt (E : Env F R W S X V M) (p : X) (c : Cost F R) : Prop :=
  ∃ w s s' w', E.sol.build w s p = (true, s', w') ∧ E.sol.cost s' = c

/-- Specification: `y` is `p` moved forth and back `k` times, each time by a step of which `A` holds. In exact
arithmetic `y` is `p`; in floating point `(p + d) - d` differs from `p` by rounding errors. -/
inductive RoundTrips (E : Env F R W S X V M) (A : V → Prop) (p : X) : X → Nat → Prop
  | refl : RoundTrips E A p p 0
  | back {y d k} : RoundTrips E A p y k → A d → RoundTrips E A p (E.plusEq (E.plusEq y d) (E.negV d)) (k + 1)

theorem RoundTrips.mono {A B : V → Prop} (hAB : ∀ d, A d → B d) {p y : X} {k : Nat} (h : RoundTrips E A p y k) :
    RoundTrips E B p y k := by
  induction h with
  | refl => exact .refl
  | back _ hd ih => exact .back ih (hAB _ hd)

theorem RoundTrips.eq (hinv : ∀ x d, E.plusEq (E.plusEq x d) (E.negV d) = x) {A : V → Prop} {p y : X} {k : Nat}
    (h : RoundTrips E A p y k) : y = p := by
  induction h with
  | refl => rfl
  | back _ _ ih => rw [hinv, ih]

/-- `d` was proposed in one of the iterations `t` -/
def Proposed (t : List (Rec F R X V M)) (d : V) : Prop := ∃ r ∈ t, r.dx = some d

/-- Specification of C05 without assumptions on the parameters: like `AtBestOrOneStep` below, but `p` may have been
moved forth and back by proposed steps, less often than there are iterations. -/
def NearBestOrOneStep (E : Env F R W S X V M) (x0 : X) (t : List (Rec F R X V M)) (c : Cost F R) (x : X) : Prop :=
  x = x0 ∧ (∀ r ∈ t, r.dx = none) ∨
  ∃ p, (∃ r ∈ t, r.x = p) ∧ MeasuredAt E p c ∧
    ∃ q k, RoundTrips E (Proposed t) p q k ∧ k < t.length ∧ (x = q ∨ ∃ d, Proposed t d ∧ x = E.plusEq q d)

/-- Specification: `x` is the point of the best cost moved forth and back by proposed steps (or the start point). -/
def NearBest (E : Env F R W S X V M) (x0 : X) (t : List (Rec F R X V M)) (c : Cost F R) (x : X) : Prop :=
  x = x0 ∧ (∀ r ∈ t, r.dx = none) ∨
  ∃ p, (∃ r ∈ t, r.x = p) ∧ MeasuredAt E p c ∧ ∃ k, RoundTrips E (Proposed t) p x k ∧ k < t.length

/-- Specification of C05 for the position `x` after the iterations `t` with best cost `c`:
either nothing was evaluated yet and `x` is the start point, or there is an evaluated point `p` of cost `c` and
`x` is `p`, or `p` moved by one step proposed in one of the iterations. -/
def AtBestOrOneStep (E : Env F R W S X V M) (x0 : X) (t : List (Rec F R X V M)) (c : Cost F R) (x : X) :
    Prop :=
  x = x0 ∧ (∀ r ∈ t, r.dx = none) ∨
  ∃ p, (∃ r ∈ t, r.x = p) ∧ MeasuredAt E p c ∧
    (x = p ∨ ∃ d, (∃ r ∈ t, r.dx = some d) ∧ x = E.plusEq p d)

/-- Specification: `x` is the point of the best cost (or the start point if nothing was evaluated). -/
def AtBest (E : Env F R W S X V M) (x0 : X) (t : List (Rec F R X V M)) (c : Cost F R) (x : X) : Prop :=
  x = x0 ∧ (∀ r ∈ t, r.dx = none) ∨ ∃ p, (∃ r ∈ t, r.x = p) ∧ MeasuredAt E p c ∧ x = p

private structure PosInv (E : Env F R W S X V M) (x0 : X) (st : LoopSt F R W S X V M) : Prop where
  pos : (st.trace = [] ∧ st.x = x0 ∧ st.lastDx = none) ∨
    (st.trace ≠ [] ∧ ∃ p, (∃ r ∈ st.trace, r.x = p) ∧ MeasuredAt E p st.out.finalCost ∧
      ∃ q k, RoundTrips E (Proposed st.trace) p q k ∧ k < st.trace.length ∧
      (st.lastDx = none ∧ st.x = q ∨
       ∃ d, st.lastDx = some d ∧ (∃ r ∈ st.trace, r.dx = some d) ∧ st.x = E.plusEq q d))
  all : ∀ pre r, pre ++ [r] <+: st.trace →
    NearBestOrOneStep E x0 (pre ++ [r]) r.out.finalCost r.xNext ∧
    (r.dx = none → NearBest E x0 (pre ++ [r]) r.out.finalCost r.xNext)

theorem prefix_concat_cases {α : Type} {pre t : List α} {r a : α} (h : pre ++ [r] <+: t ++ [a]) :
    pre ++ [r] <+: t ∨ pre = t ∧ r = a := by
  obtain ⟨suf, hs⟩ := h
  rcases List.eq_nil_or_concat suf with rfl | ⟨suf', b, rfl⟩
  · right
    rw [List.append_nil] at hs
    have := List.append_inj' hs rfl
    exact ⟨this.1, by simpa using this.2⟩
  · left
    rw [List.concat_eq_append, ← List.append_assoc] at hs
    have := List.append_inj' hs rfl
    exact ⟨suf', this.1⟩

theorem pos_run {fuel : Nat} {mi : Int} (hmi : budget o mi ≤ 65536)
    {w : W} {s : S} {x : X} {st : LoopSt F R W S X V M}
    (h : optimizeAcc E o fuel mi w s x = .ok st) :
    (∀ pre r, pre ++ [r] <+: st.trace →
      NearBestOrOneStep E x (pre ++ [r]) r.out.finalCost r.xNext ∧
      (r.dx = none → NearBest E x (pre ++ [r]) r.out.finalCost r.xNext)) ∧
    ∃ r, st.trace.getLast? = some r ∧ st.x = r.xNext ∧ st.out.finalCost = r.out.finalCost ∧
      (st.out.stop = r.out.stop ∨ st.out.stop = .kTimedOut ∨
        st.out.stop = .kMaxIters ∧ r.out.stop = .kNone) := by
  let P : LoopSt F R W S X V M → Prop := fun st' =>
    (∀ pre r, pre ++ [r] <+: st'.trace →
      NearBestOrOneStep E x (pre ++ [r]) r.out.finalCost r.xNext ∧
      (r.dx = none → NearBest E x (pre ++ [r]) r.out.finalCost r.xNext)) ∧
    (st'.trace ≠ [] → ∃ r, st'.trace.getLast? = some r ∧ st'.x = r.xNext ∧ st'.out.finalCost = r.out.finalCost ∧
      (st'.out.stop = r.out.stop ∨ st'.out.stop = .kTimedOut))
  have key : ∀ (n : Nat) (st st' : LoopSt F R W S X V M), st.out.stop = .kNone →
      st.trace.length + n ≤ 65536 → PosInv E x st → st.out.numIters = st.trace.length % 65536 →
      P st → loop E o fuel n st = .ok st' → P st' := by
    intro n
    induction n with
    | zero =>
      intro st st' _ _ hI hn hP h
      simp only [loop] at h; injection h with h; subst h
      exact hP
    | succ n ih =>
      intro st st' h0 hlen hI hn hP h
      unfold loop at h
      rw [Res.bind_eq_ok] at h
      obtain ⟨st1, hb, h⟩ := h
      have hn' := numIters_inv hb hn
      obtain ⟨succ, mdx, w1, s1, out1, ms, hs⟩ := body_spec hb
      have hfc : st1.out.finalCost = out1.finalCost := by rw [hs.out]
      have hmemx : ∃ r ∈ st1.trace, r.x = st.x := ⟨_, by rw [hs.trace]; exact List.mem_append_right _ (List.mem_singleton.2 rfl), rfl⟩
      have hlast : st1.trace.getLast? = some ⟨st.x, succ, mdx, out1, st1.x⟩ := by rw [hs.trace]; simp
      have hne : st1.trace ≠ [] := by rw [hs.trace]; simp
      have hsub : ∀ r ∈ st.trace, r ∈ st1.trace := by
        intro r hr; rw [hs.trace]; exact List.mem_append_left _ hr
      have hdxm : ∀ d, mdx = some d → ∃ r ∈ st1.trace, r.dx = some d := by
        intro d hd; exact ⟨_, by rw [hs.trace]; exact List.mem_append_right _ (List.mem_singleton.2 rfl), hd⟩
      have h0i : st.out.numIters = 0 → st.trace = [] := by
        intro h; rw [← List.length_eq_zero_iff]; omega
      have hl1 : st1.trace.length = st.trace.length + 1 := by rw [hs.trace]; simp
      have hprop : ∀ d, Proposed st.trace d → Proposed st1.trace d := fun d ⟨r, hr, h⟩ => ⟨r, hsub r hr, h⟩
      -- position after the iteration
      have hpos : (st1.x = x ∧ (∀ r ∈ st1.trace, r.dx = none) ∧ out1.stop.code < 0) ∨
          ∃ p, (∃ r ∈ st1.trace, r.x = p) ∧ MeasuredAt E p st1.out.finalCost ∧
          ∃ q k, RoundTrips E (Proposed st1.trace) p q k ∧ k < st1.trace.length ∧
          (st1.lastDx = none ∧ st1.x = q ∨
           mdx ≠ none ∧ ∃ d, st1.lastDx = some d ∧ (∃ r ∈ st1.trace, r.dx = some d) ∧ st1.x = E.plusEq q d) := by
        have hupd := hs.upd
        rcases hs.step.push with ⟨hcode, hp, _, _, _, e4⟩ | ⟨c, dx, g, _, _, _, _, _, _, e4, ⟨w2, s2, ev⟩, hpg, hpd⟩
        · -- failure: roll back or stay
          obtain ⟨rfl, rfl⟩ := Prod.mk.inj hp
          rcases hI.pos with ⟨ht, hx, hl⟩ | ⟨ht, p, hpm, hmeas, q, k, hrt, hk, hcase⟩
          · left
            refine ⟨?_, ?_, hcode⟩
            · generalize st1.x = y at hupd; generalize st1.lastDx = l at hupd
              generalize st1.lastSucc = b at hupd
              cases hupd with
              | roll d _ hd => rw [hl] at hd; cases hd
              | stay _ => exact hx
            · rw [hs.trace, ht]; simp
          · right
            refine ⟨p, ?_, by rw [hfc, e4]; exact hmeas, ?_⟩
            · obtain ⟨r, hr, hrx⟩ := hpm; exact ⟨r, hsub r hr, hrx⟩
            · generalize st1.x = y at hupd ⊢; generalize st1.lastDx = l at hupd ⊢
              generalize st1.lastSucc = b at hupd
              cases hupd with
              | roll d _ hd =>
                rcases hcase with ⟨hl, hx⟩ | ⟨d', hl, hm, hx⟩
                · rw [hl] at hd; cases hd
                · rw [hl] at hd; injection hd with hd; subst hd
                  exact ⟨_, k + 1, .back (hrt.mono hprop) (hprop _ hm), by omega, Or.inl ⟨rfl, by rw [hx]⟩⟩
              | stay hd =>
                rcases hcase with ⟨hl, hx⟩ | ⟨d', hl, _, hx⟩
                · exact ⟨q, k, hrt.mono hprop, by omega, Or.inl ⟨rfl, hx⟩⟩
                · rw [hl] at hd; cases hd
        · -- evaluated at st.x
          right
          obtain ⟨wb, sb, hbuild⟩ := ev.built
          have hmx : MeasuredAt E st.x c := ⟨wb, sb, s2, w2, hbuild, ev.cost.symm⟩
          simp only at hpg hpd
          by_cases hgt : g = true
          · rw [if_pos (Or.inl hgt)] at e4
            refine ⟨st.x, hmemx, by rw [hfc, e4]; exact hmx, ?_⟩
            have hmd : mdx = some dx := by
              rcases hpd with h | ⟨_, h, _⟩
              · exact h
              · rw [hgt] at h; cases h
            subst hmd
            rw [hgt] at hpg; subst hpg
            refine ⟨st.x, 0, .refl, by omega, ?_⟩
            right
            have hd := hdxm dx rfl
            generalize st1.x = y at hupd ⊢; generalize st1.lastDx = l at hupd ⊢
            generalize st1.lastSucc = b at hupd
            cases hupd with
            | succ _ => exact ⟨by simp, dx, rfl, hd, rfl⟩
          · have hgf : g = false := by simpa using hgt
            rw [hgf] at hpg; subst hpg
            rcases hI.pos with ⟨ht, hx, hl⟩ | ⟨ht, p, hpm, hmeas, q, k, hrt, hk, hcase⟩
            · -- first iteration with a non-decreasing cost
              have hz : st.out.numIters = 0 := by rw [hn, ht]; rfl
              rw [if_pos (Or.inr hz)] at e4
              refine ⟨st.x, hmemx, by rw [hfc, e4]; exact hmx, ?_⟩
              have hmd : mdx = some dx := by
                rcases hpd with h | ⟨_, _, h, _⟩
                · exact h
                · exact absurd hz h
              subst hmd
              refine ⟨st.x, 0, .refl, by omega, ?_⟩
              right
              have hd := hdxm dx rfl
              generalize st1.x = y at hupd ⊢; generalize st1.lastDx = l at hupd ⊢
              generalize st1.lastSucc = b at hupd
              cases hupd with
              | roll d _ hd' => rw [hl] at hd'; cases hd'
              | adv _ _ => exact ⟨by simp, dx, rfl, hd, rfl⟩
            · have hz : st.out.numIters ≠ 0 := fun h => ht (h0i h)
              rw [if_neg (by simp [hgf, hz])] at e4
              refine ⟨p, ?_, by rw [hfc, e4]; exact hmeas, ?_⟩
              · obtain ⟨r, hr, hrx⟩ := hpm; exact ⟨r, hsub r hr, hrx⟩
              · generalize st1.x = y at hupd ⊢; generalize st1.lastDx = l at hupd ⊢
                generalize st1.lastSucc = b at hupd
                cases hupd with
                | roll d _ hd =>
                  rcases hcase with ⟨hl, hx⟩ | ⟨d', hl, hm, hx⟩
                  · rw [hl] at hd; cases hd
                  · rw [hl] at hd; injection hd with hd; subst hd
                    exact ⟨_, k + 1, .back (hrt.mono hprop) (hprop _ hm), by omega, Or.inl ⟨rfl, by rw [hx]⟩⟩
                | adv dx' hd =>
                  rcases hcase with ⟨hl, hx⟩ | ⟨d', hl, _, hx⟩
                  · exact ⟨q, k, hrt.mono hprop, by omega, Or.inr ⟨by simp, dx', rfl, hdxm dx' rfl, by rw [hx]⟩⟩
                  · rw [hl] at hd; cases hd
                | stay hd =>
                  rcases hcase with ⟨hl, hx⟩ | ⟨d', hl, _, hx⟩
                  · exact ⟨q, k, hrt.mono hprop, by omega, Or.inl ⟨rfl, hx⟩⟩
                  · rw [hl] at hd; cases hd
      have hall : ∀ pre r, pre ++ [r] <+: st1.trace →
          NearBestOrOneStep E x (pre ++ [r]) r.out.finalCost r.xNext ∧
          (r.dx = none → NearBest E x (pre ++ [r]) r.out.finalCost r.xNext) := by
        intro pre r hpre
        rw [hs.trace] at hpre
        rcases prefix_concat_cases hpre with hpre | ⟨rfl, rfl⟩
        · exact hI.all pre r hpre
        · rw [← hs.trace]
          simp only
          rw [← hfc]
          rcases hpos with ⟨h1, h2, _⟩ | ⟨p, h1, h2, q, k, hr, hk, h3⟩
          · exact ⟨Or.inl ⟨h1, h2⟩, fun _ => Or.inl ⟨h1, h2⟩⟩
          · constructor
            · refine Or.inr ⟨p, h1, h2, q, k, hr, hk, ?_⟩
              rcases h3 with ⟨_, h⟩ | ⟨_, d, _, h, h'⟩
              · exact Or.inl h
              · exact Or.inr ⟨d, h, h'⟩
            · intro hnone
              refine Or.inr ⟨p, h1, h2, k, ?_, hk⟩
              rcases h3 with ⟨_, h⟩ | ⟨h', _⟩
              · rw [h]; exact hr
              · exact absurd hnone h'
      have hP1 : P st1 := by
        refine ⟨hall, fun _ => ⟨_, hlast, rfl, hfc, ?_⟩⟩
        rw [hs.out]
        exact timeStop_or _ _
      split at h
      · injection h with h; subst h
        exact hP1
      next hne' =>
        have hnone : st1.out.stop = .kNone := by
          by_cases h : st1.out.stop = .kNone
          · exact h
          · exact absurd h hne'
        refine ih st1 st' hnone ?_ ⟨Or.inr ⟨hne, ?_⟩, hall⟩ hn' hP1 h
        · rw [hs.trace]; simp; omega
        · rcases hpos with ⟨_, _, h1⟩ | ⟨p, h1, h2, q, k, hr, hk, h3⟩
          · have hstop : st1.out.stop = timeStop o (add out1.duration ms) out1.stop := by rw [hs.out]
            rw [hnone] at hstop
            rw [timeStop_none hstop.symm] at h1
            exact absurd h1 (by decide)
          · refine ⟨p, h1, h2, q, k, hr, hk, ?_⟩
            rcases h3 with h | ⟨_, h⟩
            · exact Or.inl h
            · exact Or.inr h
  obtain ⟨m, st0, hm, hl, rfl⟩ := optimizeAcc_spec h
  have hm' := budget_of_loopBound hm
  have hpre0 : ∀ pre (r : Rec F R X V M), ¬ (pre ++ [r] <+: []) := by
    intro pre r hpre
    have := List.prefix_nil.1 hpre
    simp at this
  have hP := key _ (initSt E w s x) _ rfl (by simp [initSt]; omega)
    ⟨Or.inl ⟨rfl, rfl, rfl⟩, fun pre r hpre => absurd hpre (hpre0 pre r)⟩ rfl
    ⟨fun pre r hpre => absurd hpre (hpre0 pre r), fun h => absurd rfl h⟩ hl
  refine ⟨hP.1, ?_⟩
  have hlen := loop_length (st := initSt E w s x) rfl hl
  have h1 := (loopBound_spec hm).2.1
  have hne : st0.trace ≠ [] := by
    intro h; rw [h] at hlen; simp [initSt] at hlen; omega
  obtain ⟨r, h1, h2, h3, h4⟩ := hP.2 hne
  refine ⟨r, h1, h2, h3, ?_⟩
  simp only
  split
  next hc =>
    rcases h4 with h4 | h4
    · right; right; exact ⟨rfl, by rw [← h4]; exact hc.1⟩
    · rw [hc.1] at h4; cases h4
  · rcases h4 with h4 | h4
    · exact Or.inl h4
    · exact Or.inr (Or.inl h4)

theorem NearBestOrOneStep.exact (hinv : ∀ x d, E.plusEq (E.plusEq x d) (E.negV d) = x) {x0 : X}
    {t : List (Rec F R X V M)} {c : Cost F R} {x : X} (h : NearBestOrOneStep E x0 t c x) : AtBestOrOneStep E x0 t c x := by
  rcases h with h | ⟨p, h1, h2, q, k, hr, -, h⟩
  · exact Or.inl h
  · rw [hr.eq hinv] at h
    exact Or.inr ⟨p, h1, h2, h⟩

theorem NearBest.exact (hinv : ∀ x d, E.plusEq (E.plusEq x d) (E.negV d) = x) {x0 : X}
    {t : List (Rec F R X V M)} {c : Cost F R} {x : X} (h : NearBest E x0 t c x) : AtBest E x0 t c x := by
  rcases h with h | ⟨p, h1, h2, k, hr, -⟩
  · exact Or.inl h
  · exact Or.inr ⟨p, h1, h2, hr.eq hinv⟩

/-- **C05** for all parameter types (rounding included): at the end of every iteration `x` is the point at which the
best cost was measured, moved forth and back by some proposed steps (those that were rolled back) and then possibly by
exactly one more proposed step; there is no such last step when the iteration failed without proposing one. -/
theorem C05_best_or_one_step_roundtrips {fuel : Nat} {mi : Int} (hmi : budget o mi ≤ 65536)
    {w : W} {s : S} {x : X} {st : LoopSt F R W S X V M}
    (h : optimizeAcc E o fuel mi w s x = .ok st) :
    ∀ pre r, pre ++ [r] <+: st.trace →
      NearBestOrOneStep E x (pre ++ [r]) r.out.finalCost r.xNext ∧
      (r.dx = none → NearBest E x (pre ++ [r]) r.out.finalCost r.xNext) :=
  (pos_run hmi h).1

/-- **C05** (partial): at the end of every iteration `x` is the point at which the best cost was measured, or
that point moved by exactly one step proposed by the solver; it is exactly the best point whenever the
iteration failed without proposing a step.

Missing: parameters for which `(x + d) - d` is not `x`, see `C05_rollback_rounds` (Props/Rollback). -/
theorem C05_best_or_one_step_partial (hinv : ∀ x d, E.plusEq (E.plusEq x d) (E.negV d) = x)
    {fuel : Nat} {mi : Int} (hmi : budget o mi ≤ 65536)
    {w : W} {s : S} {x : X} {st : LoopSt F R W S X V M}
    (h : optimizeAcc E o fuel mi w s x = .ok st) :
    ∀ pre r, pre ++ [r] <+: st.trace →
      AtBestOrOneStep E x (pre ++ [r]) r.out.finalCost r.xNext ∧
      (r.dx = none → AtBest E x (pre ++ [r]) r.out.finalCost r.xNext) := fun pre r hpre =>
  have := (pos_run hmi h).1 pre r hpre
  ⟨this.1.exact hinv, fun hr => (this.2 hr).exact hinv⟩

/-- A step that reports a failure or reaches a failure limit proposes no step. -/
theorem StepSpec.dx_none {x : X} {out out' : Output F R M} {p w s}
    (h : StepSpec E o x out p w s out') (h0 : out.stop = .kNone)
    (hr : out'.stop.code < 0 ∨ out'.stop = .kMaxNoDecr ∨ out'.stop = .kMaxConsecNoDecr) : p.2 = none := by
  cases h with
  | fail => rfl
  | badStop => rfl
  | good w2 s2 dx c a b g s3 w3 r ev hc hd hg hgi hs3 hcr =>
    exfalso
    cases r with
    | none => simp [h0, StopReason.code] at hr
    | some r =>
      have := criteria_code hcr
      simp only [Option.getD] at hr
      rcases hr with hr | rfl | rfl
      · omega
      · exact absurd this (by decide)
      · exact absurd this (by decide)
  | bad w2 s2 dx c a b s3 w3 r ev hc hd hg hi hs3 hmc hmt hcr =>
    exfalso
    cases r with
    | none => simp [h0, StopReason.code] at hr
    | some r =>
      have := criteria_code hcr
      simp only [Option.getD] at hr
      rcases hr with hr | rfl | rfl
      · omega
      · exact absurd this (by decide)
      · exact absurd this (by decide)

/-- in every record of a run, a failing step proposes no step -/
theorem trace_dx_none {fuel : Nat} {mi : Int}
    {w : W} {s : S} {x : X} {st : LoopSt F R W S X V M}
    (h : optimizeAcc E o fuel mi w s x = .ok st) :
    ∀ r ∈ st.trace, (r.out.stop.code < 0 ∨ r.out.stop = .kMaxNoDecr ∨ r.out.stop = .kMaxConsecNoDecr) →
      r.dx = none := by
  let I : LoopSt F R W S X V M → Prop := fun st =>
    ∀ r ∈ st.trace, (r.out.stop.code < 0 ∨ r.out.stop = .kMaxNoDecr ∨ r.out.stop = .kMaxConsecNoDecr) →
      r.dx = none
  obtain ⟨m, st0, hm, hj, hi, _, rfl⟩ := run_inv (I := I) (J := I) (E := E) (o := o) (by
    intro last st st' h0 hI hb
    obtain ⟨succ, mdx, w1, s1, out1, ms, hs⟩ := body_spec hb
    have : I st' := by
      intro r hr hcode
      rw [hs.trace] at hr
      rcases List.mem_append.1 hr with hr | hr
      · exact hI r hr hcode
      · rw [List.mem_singleton.1 hr] at hcode ⊢
        exact hs.step.dx_none h0 hcode
    exact ⟨fun _ => this, this⟩)
    (fun _ h => (nomatch h)) (fun _ h => (nomatch h)) h
  exact hj

/-- **C05 (final position)** for all parameter types: the position returned to the caller is the best point, moved forth
and back by rolled back steps, or one step from there; if the run ended because a step failed (failure reason,
`kMaxNoDecr`, `kMaxConsecNoDecr`) there is no such last step. -/
theorem C05_returned_x_roundtrips {fuel : Nat} {mi : Int} (hmi : budget o mi ≤ 65536)
    {w : W} {s : S} {x : X} {st : LoopSt F R W S X V M}
    (h : optimizeAcc E o fuel mi w s x = .ok st) :
    NearBestOrOneStep E x st.trace st.out.finalCost st.x ∧
    (st.out.stop.code < 0 ∨ st.out.stop = .kMaxNoDecr ∨ st.out.stop = .kMaxConsecNoDecr →
      NearBest E x st.trace st.out.finalCost st.x) := by
  obtain ⟨hall, r, hlast, hx, hf, hstop⟩ := pos_run hmi h
  obtain ⟨pre, hpre⟩ := List.getLast?_eq_some_iff.1 hlast
  have := hall pre r (by rw [hpre])
  rw [← hpre, ← hx, ← hf] at this
  refine ⟨this.1, fun hc => this.2 ?_⟩
  refine trace_dx_none h r (by rw [hpre]; simp) ?_
  rcases hstop with h | h | ⟨h, _⟩
  · rw [← h]; exact hc
  · rw [h] at hc; exact absurd hc (by decide)
  · rw [h] at hc; exact absurd hc (by decide)

/-- **C05 (final position)** (partial): the position returned to the caller is the best point or one step from it;
if the run ended because a step failed (failure reason, `kMaxNoDecr`, `kMaxConsecNoDecr`) it is
exactly the best point. Missing: parameters for which `(x + d) - d` is not `x`. -/
theorem C05_returned_x_partial (hinv : ∀ x d, E.plusEq (E.plusEq x d) (E.negV d) = x)
    {fuel : Nat} {mi : Int} (hmi : budget o mi ≤ 65536)
    {w : W} {s : S} {x : X} {st : LoopSt F R W S X V M}
    (h : optimizeAcc E o fuel mi w s x = .ok st) :
    AtBestOrOneStep E x st.trace st.out.finalCost st.x ∧
    (st.out.stop.code < 0 ∨ st.out.stop = .kMaxNoDecr ∨ st.out.stop = .kMaxConsecNoDecr →
      AtBest E x st.trace st.out.finalCost st.x) :=
  have := C05_returned_x_roundtrips hmi h
  ⟨this.1.exact hinv, fun hc => (this.2 hc).exact hinv⟩

/-- `toySq` meets the hypotheses, and a run that over-shoots is rolled back to the best point. -/
example : ∀ x d, toySq.plusEq (toySq.plusEq x d) (toySq.negV d) = x := by
  intro x d; show x + d + -d = x; omega

example : ∃ st, optimizeAcc (toyEnv (fun x => ofInt (x * x)) (fun _ => 1)
      (fun _ => some (-2))) { toyOpts with maxConsecFailures := 1 } 3 (-1) 0 toyS0 3 = .ok st ∧
    (st.out.errs == [ofInt 9, ofInt 1, ofInt 1] && st.out.stop == .kMaxConsecNoDecr && st.x == 1) = true :=
  Res.exists_of_holds (by decide +kernel)

/-! ## C06 -/

/-- The user's cost is a deterministic function `f` of the parameters. -/
def CostIs (E : Env F R W S X V M) (f : X → F) : Prop :=
  ∀ w s x s' w', E.sol.build w s x = (true, s', w') → (E.sol.cost s').cost = f x

/-- **C06 is violated**: with `check_final_cost` on, for the deterministic cost `f` below, the run ends with
`kMaxIters`, reports `final_cost = 5`, but returns a point of cost 100: the step of the last iteration is
applied and never evaluated. -/
theorem C06_returned_x_not_checked :
    let f : Int → D := fun x => if x = 0 then ofInt 10 else if x = 1 then ofInt 5 else ofInt 100
    let E := toyEnv f (fun _ => 1) (fun _ => some 1)
    let o := { toyOpts with checkFinalCost := true, maxIters := 0 }
    CostIs E f ∧ ∃ st, optimizeAcc E o 3 (-1) 0 toyS0 0 = .ok st ∧
      st.out.stop = .kMaxIters ∧ lt st.out.finalCost.cost (f st.x) = true := by
  refine ⟨?_, ?_⟩
  · intro w s x s' w' h
    cases h
    rfl
  · have := Res.exists_of_holds (r := optimizeAcc (toyEnv
      (fun x => if x = 0 then ofInt 10 else if x = 1 then ofInt 5 else ofInt 100) (fun _ => 1)
      (fun _ => some 1)) { toyOpts with checkFinalCost := true, maxIters := 0 } 3 (-1) 0 toyS0 0)
      (p := fun st => decide (st.out.stop = .kMaxIters) && lt st.out.finalCost.cost
        (if st.x = 0 then ofInt 10 else if st.x = 1 then ofInt 5 else (ofInt 100 : D)))
      (by decide +kernel)
    obtain ⟨st, h1, h2⟩ := this
    refine ⟨st, h1, ?_⟩
    simpa using h2

/-- **C06, partial.** If the run ends because a step failed (failure reason or failure limit) after at
least one evaluation, the returned `x` has exactly the reported cost. (For the other reasons the last
step is not evaluated, see `C06_returned_x_not_checked`.) -/
theorem C06_returned_x_has_final_cost_partial (hinv : ∀ x d, E.plusEq (E.plusEq x d) (E.negV d) = x)
    {f : X → F} (hf : CostIs E f)
    {fuel : Nat} {mi : Int} (hmi : budget o mi ≤ 65536)
    {w : W} {s : S} {x : X} {st : LoopSt F R W S X V M}
    (h : optimizeAcc E o fuel mi w s x = .ok st)
    (hc : st.out.stop.code < 0 ∨ st.out.stop = .kMaxNoDecr ∨ st.out.stop = .kMaxConsecNoDecr)
    (hev : ∃ r ∈ st.trace, r.dx ≠ none) : f st.x = st.out.finalCost.cost := by
  rcases (C05_returned_x_partial hinv hmi h).2 hc with ⟨_, h1⟩ | ⟨p, _, ⟨w1, s1, s2, w2, h1, h2⟩, rfl⟩
  · obtain ⟨r, hr, hd⟩ := hev
    exact absurd (h1 r hr) hd
  · rw [← h2, hf _ _ _ _ _ h1]

/-! ## C12 -/

/-- **C12 is violated**: `max_iters = 0` moves `x`. -/
theorem C12_max_iters_zero_moves :
    ∃ st, optimizeAcc toySq { toyOpts with maxIters := 0 } 3 (-1) 0 toyS0 4 = .ok st ∧ st.x = 3 := by
  obtain ⟨st, h1, h2⟩ := Res.exists_of_holds (r := optimizeAcc toySq { toyOpts with maxIters := 0 } 3
    (-1) 0 toyS0 4) (p := fun st => decide (st.x = 3)) (by decide +kernel)
  exact ⟨st, h1, by simpa using h2⟩

/-- number of iterations that moved `x` -/
def moves [DecidableEq X] (t : List (Rec F R X V M)) : Nat := (t.filter fun r => r.x ≠ r.xNext).length

/-- **C12, partial.** `x` is moved at most `max_iters + 1` times (`+ 2` with `check_final_cost`), one more
than stated: every iteration moves `x` at most once and the positions recorded are consecutive. -/
theorem C12_moves_bounded_partial [DecidableEq X] {fuel : Nat} {mi : Int}
    {w : W} {s : S} {x : X} {st : LoopSt F R W S X V M}
    (h : optimizeAcc E o fuel mi w s x = .ok st) :
    (moves st.trace : Int) ≤ (if mi < 0 then (o.maxIters : Int) else mi) + 1 +
      (if o.checkFinalCost then 1 else 0) ∧
    (st.trace.head?.map (·.x) = some x) ∧ (st.trace.getLast?.map (·.xNext) = some st.x) ∧
    st.trace.IsChain (fun a b => a.xNext = b.x) := by
  let I : LoopSt F R W S X V M → Prop := fun st =>
    st.trace.IsChain (fun a b => a.xNext = b.x) ∧
    (st.trace = [] ∧ st.x = x ∨ st.trace.head?.map (·.x) = some x ∧
      st.trace.getLast?.map (·.xNext) = some st.x)
  obtain ⟨m, st0, hm, hj, hi, ⟨hl1, _, hl3⟩, rfl⟩ := run_inv (I := I) (J := I) (E := E) (o := o) (by
    intro last st st' h0 ⟨hI1, hI2⟩ hb
    obtain ⟨succ, mdx, w1, s1, out1, ms, hs⟩ := body_spec hb
    have : I st' := by
      refine ⟨?_, Or.inr ⟨?_, ?_⟩⟩
      · rw [hs.trace]
        rw [List.isChain_append]
        refine ⟨hI1, List.isChain_singleton _, ?_⟩
        intro a ha b hb
        simp only [List.head?_cons, Option.mem_def, Option.some.injEq] at hb
        subst hb
        rcases hI2 with ⟨h, _⟩ | ⟨_, h⟩
        · rw [h] at ha; simp at ha
        · rw [Option.mem_def] at ha
          rw [ha] at h; simpa using h
      · rw [hs.trace]
        rcases hI2 with ⟨h, hx⟩ | ⟨h, _⟩
        · rw [h]; simp [hx]
        · rw [List.head?_append]
          cases hh : st.trace.head? with
          | none => rw [hh] at h; cases h
          | some a => rw [hh] at h; simpa using h
      · rw [hs.trace]; simp
    exact ⟨fun _ => this, this⟩)
    ⟨List.isChain_nil, Or.inl ⟨rfl, rfl⟩⟩ ⟨List.isChain_nil, Or.inl ⟨rfl, rfl⟩⟩ h
  have hb := budget_of_loopBound hm
  refine ⟨?_, ?_⟩
  · have : moves st0.trace ≤ st0.trace.length := List.length_filter_le _ _
    show (moves st0.trace : Int) ≤ budget o mi
    omega
  · rcases hj.2 with ⟨h, _⟩ | h
    · rw [h] at hl3; simp at hl3
    · exact ⟨h.1, h.2, hj.1⟩

end
end Verif
