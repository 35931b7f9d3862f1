import Verif.Lemmas.Works
import Verif.Lemmas.QuietRun
import Mathlib.Data.Real.Basic
import Mathlib.Tactic.Linarith
/-!
# Runs with inexact steps

A solver without memory delivers at every point of a region a step that brings an error measure `ε` down, up to a
limit below which nothing is known, in any arithmetic. Steps may be rejected close to the solution, and rolling back is inexact too.
-/

set_option linter.unusedSectionVars false

namespace Verif
open FloatOps

section
variable {F R W S X V M : Type} [FloatOps F]
variable {E : Env F R W S X V M} {o : Options F W V}

/-- the number of consecutive failures after an iteration that got a step -/
theorem step_consec {w : W} {s : S} {x : X} {s2 : S} {dx : V} (h : Delivers E w s x s2 dx) {fuel : Nat} {out : Output F R M}
    (hc : out.numConsec ≤ maxTries o) {succ : Bool} {mdx : Option V} {w' : W} {s3 : S} {out' : Output F R M}
    (hh : step E o (fuel + 1) w s x out = .ok ((succ, mdx), w', s3, out')) :
    (out'.numConsec = if succ || out.numIters == 0 then 0 else inc8 out.numConsec) ∧
      (out'.stop = .kNone → 0 < o.maxConsecFailures → out'.numConsec < o.maxConsecFailures) := by
  obtain ⟨s1, w1, w2, hr, hb⟩ := h.built
  have hre : retry E o x (fuel + 1) w1 s1 out = .ok (.got dx (E.sol.cost s2), w2, s2, out) := by
    unfold retry
    rw [if_pos hc, hb]
    simp [h.solved]
  unfold step at hh
  rw [hr] at hh
  simp only at hh
  rw [hre, Res.bind_ok] at hh
  simp only at hh
  unfold afterSolve at hh
  simp only [not_bad_of_finite h.cost, not_bad_of_finite h.norm, Bool.false_eq_true, if_false] at hh
  split at hh
  next hg =>
    rw [Res.bind_eq_ok] at hh
    obtain ⟨s4, -, hh⟩ := hh
    injection hh with hh
    simp only [Prod.mk.injEq] at hh
    obtain ⟨⟨rfl, -⟩, -, -, rfl⟩ := hh
    rw [if_pos hg]
    exact ⟨rfl, fun _ h => h⟩
  next hg =>
    rw [Res.bind_eq_ok] at hh
    obtain ⟨s4, -, hh⟩ := hh
    have hgood : lt (sub (E.sol.cost s2).cost out.finalCost.cost) (ofInt 0) = false ∧ (out.numIters == 0) = false := by
      rw [Bool.or_eq_true, not_or] at hg; exact ⟨Bool.not_eq_true _ ▸ hg.1, Bool.not_eq_true _ ▸ hg.2⟩
    split at hh
    next hm =>
      injection hh with hh
      simp only [Prod.mk.injEq] at hh
      obtain ⟨⟨rfl, -⟩, -, -, rfl⟩ := hh
      rw [hgood.2]
      exact ⟨rfl, fun h => nomatch h⟩
    next hm =>
      split at hh
      · injection hh with hh
        simp only [Prod.mk.injEq] at hh
        obtain ⟨⟨rfl, -⟩, -, -, rfl⟩ := hh
        rw [hgood.2]
        exact ⟨rfl, fun h => nomatch h⟩
      · injection hh with hh
        simp only [Prod.mk.injEq] at hh
        obtain ⟨⟨rfl, -⟩, -, -, rfl⟩ := hh
        rw [if_neg hg]
        refine ⟨rfl, fun _ h => ?_⟩
        simp only [Bool.and_eq_true, decide_eq_true_eq, not_and] at hm
        exact Nat.lt_of_not_ge (hm h)

variable {Ok : S → Prop} {Ω : X → Prop} {D : X → V} {C : X → F} {ε : X → ℝ} {G : Nat → ℝ} {T ρ : ℝ} {N : Nat}

/-- What is needed of a problem: `D x` is the step computed at `x`, `C x` the computed cost. -/
structure NoisyDescent (E : Env F R W S X V M) (Ok : S → Prop) (Ω : X → Prop) (D : X → V) (C : X → F) (ε : X → ℝ) (G : Nat → ℝ) (T ρ : ℝ) (N : Nat) : Prop where
  /-- the solver delivers, and has no memory -/
  del : ∀ w s x, Ok s → Ω x → ∃ s2, Delivers E w s x s2 (D x) ∧ (E.sol.cost s2).cost = C x ∧
    ∀ s3 b, (s3 = s2 ∨ (∃ q, E.sol.goodStep s2 q = .ok s3) ∨ E.sol.badStep s2 = .ok s3) → Ok (E.sol.rebuild s3 b)
  stay : ∀ x, Ω x → Ω (E.plusEq x (D x))
  /-- steps reduce the error along `G` until the limit -/
  con : ∀ i x, Ω x → ε x ≤ max (G i) (T + N * ρ) → ε (E.plusEq x (D x)) ≤ max (G (i + 1)) (T + N * ρ)
  near : ∀ x, Ω x → ε x ≤ T + N * ρ → ε (E.plusEq x (D x)) ≤ T + N * ρ
  /-- the computed cost goes down as long as the error is above `T` -/
  dec : ∀ x, Ω x → T ≤ ε x → lt (sub (C (E.plusEq x (D x))) (C x)) (ofInt 0) = true
  /-- undoing a step close to the solution -/
  roll : ∀ x, Ω x → ε x ≤ T + N * ρ → Ω (E.plusEq (E.plusEq x (D x)) (E.negV (D x))) ∧
    ε (E.plusEq (E.plusEq x (D x)) (E.negV (D x))) ≤ ε x + ρ

/-- A run with inexact steps ends normally, with the error after `i` iterations bounded by `G i` or by the limit `T + N ρ`, where `N` is the largest
possible number of consecutive failures; and it only ends early because of a criterion, or because it is at the limit. -/
theorem noisy_run (h : NoisyDescent E Ok Ω D C ε G T ρ N) (hρ : 0 ≤ ρ) {fuel : Nat} {mi k : Int} (hk : loopBound o mi = some k) (hk2 : k ≤ 65536)
    (hN : (0 < o.maxConsecFailures ∧ o.maxConsecFailures ≤ N ∧ o.maxConsecFailures ≤ 255) ∨ k ≤ N) {w : W} {s : S} {x0 : X} (hs : Ok s) (hx : Ω x0) (h0 : ε x0 ≤ G 0) :
    ∃ st, optimizeAcc E o (fuel + 1) mi w s x0 = .ok st ∧ Ω st.x ∧ ε st.x ≤ max (G st.trace.length) (T + N * ρ) ∧
      (∀ i r, st.trace[i]? = some r → Ω r.x ∧ ε r.x ≤ max (G i) (T + N * ρ)) ∧
      (Quiet o → (st.trace.length : Int) = k ∨ ε st.x ≤ T + N * ρ) := by
  have hmono : ∀ c : Nat, c ≤ N → T + c * ρ ≤ T + N * ρ := fun c hc => by
    have : (c : ℝ) * ρ ≤ N * ρ := mul_le_mul_of_nonneg_right (by exact_mod_cast hc) hρ
    linarith
  obtain ⟨st, st0, e, hj, h1, h2, -, h4, -⟩ := run_works_out (E := E) (o := o) (fuel := fuel + 1) (mi := mi) (m := k) (w := w) (s := s) (x := x0)
    (I := fun left st => st.out.numConsec ≤ maxTries o ∧ (left + st.trace.length : Int) = k ∧ st.out.numIters = st.trace.length ∧ Ok st.s ∧ Ω st.x ∧
      ε st.x ≤ max (G st.trace.length) (T + N * ρ) ∧ (st.trace = [] → st.lastDx = none) ∧
      (∃ c : Nat, c ≤ st.trace.length ∧ (0 < o.maxConsecFailures ∧ o.maxConsecFailures ≤ N ∧ o.maxConsecFailures ≤ 255 → c ≤ st.out.numConsec ∧ st.out.numConsec < o.maxConsecFailures) ∧
        (∀ d, st.lastDx = some d → ∃ y, Ω y ∧ d = D y ∧ st.x = E.plusEq y (D y) ∧ (st.out.finalCost.cost = C y ∨ ε y ≤ T + c * ρ)) ∧
        (st.lastDx = none → st.trace = [] ∨ ε st.x ≤ T + c * ρ)) ∧
      ∀ i r, st.trace[i]? = some r → Ω r.x ∧ ε r.x ≤ max (G i) (T + N * ρ))
    (J := fun st => Ω st.x ∧ ε st.x ≤ max (G st.trace.length) (T + N * ρ) ∧ (∀ i r, st.trace[i]? = some r → Ω r.x ∧ ε r.x ≤ max (G i) (T + N * ρ)) ∧
      (Quiet o → st.out.stop = .kNone ∨ ε st.x ≤ T + N * ρ))
    (fun left st hst hI => by
      obtain ⟨hc, hlen, hni, hok, hom, herr, hfirst, ⟨c, hcl, hcc, hsome, hnone⟩, hT⟩ := hI
      obtain ⟨s2, hdel, hc2, hok1⟩ := h.del st.w st.s st.x hok hom
      obtain ⟨st', succ, mdx, s3, hb, hw⟩ := body_works (o := o) (fuel := fuel) (last := left == 0) hdel hc
      obtain ⟨r, htr, hrx, hrx', hrd, hrs⟩ := hw.trace
      obtain ⟨succ', mdx', w1, s1, out1, ms, hstep, hbs⟩ := body_spec' hb
      have hcons := step_consec hdel hc hstep
      have hsd : succ' = succ ∧ mdx' = mdx := by
        have h1 := hbs.trace
        rw [htr] at h1
        have h2 := List.append_cancel_left h1
        simp only [List.cons.injEq, and_true] at h2
        rw [h2] at hrd hrs
        exact ⟨hrs, hrd⟩
      obtain ⟨rfl, rfl⟩ := hsd
      have hout1 : st'.out.numConsec = out1.numConsec := by rw [hbs.out]
      have hstop1 : st'.out.stop = .kNone → out1.stop = .kNone := by
        rw [hbs.out]; simp only [timeStop]; split
        · intro h; cases h
        · exact id
      have hlen' : st'.trace.length = st.trace.length + 1 := by rw [htr]; simp
      have hrow : ∀ i r, st'.trace[i]? = some r → Ω r.x ∧ ε r.x ≤ max (G i) (T + N * ρ) := by
        intro i r' hr
        rw [htr] at hr
        rcases Nat.lt_or_ge i st.trace.length with hi | hi
        · rw [List.getElem?_append_left hi] at hr; exact hT i r' hr
        · rw [List.getElem?_append_right hi] at hr
          have hi0 : i - st.trace.length = 0 := by
            by_contra hne
            rw [List.getElem?_eq_none (by simp; omega)] at hr
            cases hr
          rw [hi0] at hr
          simp only [List.getElem?_cons_zero, Option.some.injEq] at hr
          subst hr
          rw [hrx, show i = st.trace.length by omega]
          exact ⟨hom, herr⟩
      have hmd : ∀ d, mdx' = some d → d = D st.x := by
        intro d hd
        rcases hw.isMdx with hm | ⟨hm, -⟩
        · rw [hm] at hd; exact (Option.some.inj hd).symm
        · rw [hm] at hd; cases hd
      have hsu : succ' = lt (sub (C st.x) st.out.finalCost.cost) (ofInt 0) := by rw [← hc2]; exact hw.isSucc
      -- the number of failures after a failure
      have hfail : succ' = false → st.trace ≠ [] → c + 1 ≤ N ∧ (0 < o.maxConsecFailures ∧ o.maxConsecFailures ≤ N ∧ o.maxConsecFailures ≤ 255 →
          c + 1 ≤ st'.out.numConsec) := by
        intro hf hne
        have hl0 : 0 < st.trace.length := List.length_pos_iff.mpr hne
        have hin : st'.out.numConsec = inc8 st.out.numConsec := by
          rw [hout1, hcons.1, hf, hni]
          have : (st.trace.length == 0) = false := by simp [hne]
          rw [this]; simp
        have h2 : 0 < o.maxConsecFailures ∧ o.maxConsecFailures ≤ N ∧ o.maxConsecFailures ≤ 255 → c + 1 ≤ st'.out.numConsec := by
          intro hA
          have := hcc hA
          rw [hin]; unfold inc8; omega
        refine ⟨?_, h2⟩
        rcases hN with hA | hkN
        · have := hcc hA
          omega
        · omega
      have hcT : c ≤ N := by
        rcases hN with hA | hkN
        · have := hcc hA
          omega
        · omega
      have main : Ω st'.x ∧ ε st'.x ≤ max (G st'.trace.length) (T + N * ρ) ∧ st'.trace ≠ [] ∧
          (∃ c' : Nat, c' ≤ st'.trace.length ∧ c' ≤ N ∧ (0 < o.maxConsecFailures ∧ o.maxConsecFailures ≤ N ∧ o.maxConsecFailures ≤ 255 → c' ≤ st'.out.numConsec) ∧
            (∀ d, st'.lastDx = some d → ∃ y, Ω y ∧ d = D y ∧ st'.x = E.plusEq y (D y) ∧ (st'.out.finalCost.cost = C y ∨ ε y ≤ T + c' * ρ)) ∧
            (st'.lastDx = none → ε st'.x ≤ T + c' * ρ)) := by
        have hup := hw.upd
        have hfc := hw.finalCost
        have hnc := hfail
        have hne' : st'.trace ≠ [] := by rw [htr]; simp
        rw [hlen']
        rw [hni] at hfc
        generalize st'.x = x1 at hup ⊢
        generalize st'.lastDx = l1 at hup ⊢
        generalize st'.lastSucc = b1 at hup
        cases hup with
        | succ dx' =>
          obtain rfl := hmd _ rfl
          refine ⟨h.stay _ hom, h.con _ _ hom herr, hne', 0, Nat.zero_le _, Nat.zero_le _, fun _ => Nat.zero_le _, fun d hd => ?_, fun hd => nomatch hd⟩
          obtain rfl := Option.some.inj hd
          refine ⟨st.x, hom, rfl, rfl, Or.inl ?_⟩
          rw [hfc]
          simp only [Bool.true_or, if_true]
          exact hc2
        | roll d _ hd =>
          have hne : st.trace ≠ [] := fun h0 => by rw [hfirst h0] at hd; cases hd
          obtain ⟨hn1, hn2⟩ := hnc rfl hne
          obtain ⟨y, hy, rfl, hxy, hcy⟩ := hsome d hd
          have hey : ε y ≤ T + c * ρ := by
            rcases hcy with hcy | hcy
            · by_contra hlt
              have hTy : T ≤ ε y := by
                have : (0 : ℝ) ≤ c * ρ := by positivity
                push Not at hlt; linarith
              have := h.dec y hy hTy
              rw [← hxy, ← hcy, ← hsu] at this
              cases this
            · exact hcy
          have hB : ε y ≤ T + N * ρ := hey.trans (hmono c hcT)
          obtain ⟨hr1, hr2⟩ := h.roll y hy hB
          rw [hxy]
          have hle : ε (E.plusEq (E.plusEq y (D y)) (E.negV (D y))) ≤ T + ((c + 1 : Nat) : ℝ) * ρ := by push_cast; linarith
          exact ⟨hr1, le_max_of_le_right (hle.trans (hmono _ hn1)), hne', c + 1, by omega, hn1, hn2, fun d hd => (nomatch hd), fun _ => hle⟩
        | adv dx' hd =>
          obtain rfl := hmd _ rfl
          rcases hnone hd with h0 | h0
          · refine ⟨h.stay _ hom, h.con _ _ hom herr, hne', 0, Nat.zero_le _, Nat.zero_le _, fun _ => Nat.zero_le _, fun d hd => ?_, fun hd => nomatch hd⟩
            obtain rfl := Option.some.inj hd
            refine ⟨st.x, hom, rfl, rfl, Or.inl ?_⟩
            rw [hfc, h0]
            simp only [List.length_nil, beq_self_eq_true, Bool.or_true, if_true]
            exact hc2
          · rcases eq_or_ne st.trace [] with hne | hne
            · refine ⟨h.stay _ hom, h.con _ _ hom herr, hne', 0, Nat.zero_le _, Nat.zero_le _, fun _ => Nat.zero_le _, fun d hd => ?_, fun hd => nomatch hd⟩
              obtain rfl := Option.some.inj hd
              refine ⟨st.x, hom, rfl, rfl, Or.inl ?_⟩
              rw [hfc, hne]
              simp only [List.length_nil, beq_self_eq_true, Bool.or_true, if_true]
              exact hc2
            · obtain ⟨hn1, hn2⟩ := hnc rfl hne
              refine ⟨h.stay _ hom, le_max_of_le_right (h.near _ hom (h0.trans (hmono c hcT))), hne', c, by omega, hcT, fun hA => (hn2 hA).trans' (Nat.le_succ c), fun d hd => ?_, fun hd => nomatch hd⟩
              obtain rfl := Option.some.inj hd
              exact ⟨st.x, hom, rfl, rfl, Or.inr h0⟩
        | stay hd =>
          rcases hw.isMdx with hm | ⟨-, -, hit, -⟩
          · cases hm
          have hne : st.trace ≠ [] := fun h0 => by rw [hni, h0] at hit; simp at hit
          obtain ⟨hn1, hn2⟩ := hnc rfl hne
          have h0 := (hnone hd).resolve_left hne
          exact ⟨hom, le_max_of_le_right (h0.trans (hmono c hcT)), hne', c, by omega, hcT, fun hA => (hn2 hA).trans' (Nat.le_succ c), fun d hd => (nomatch hd), fun _ => h0⟩
      obtain ⟨hom', herr', hne', c', hc1, hc2', hc3, hsome', hnone'⟩ := main
      refine ⟨st', hb, fun hs' hl0 => ⟨hw.consec hs', ?_, ?_, ?_, hom', herr', fun h0 => absurd h0 hne', ⟨c', hc1, fun hA => ⟨hc3 hA, ?_⟩, hsome', fun hd => Or.inr (hnone' hd)⟩, hrow⟩, hom', herr', hrow, fun hq => ?_⟩
      · rw [hlen']; push_cast at hlen ⊢; omega
      · rw [hw.numIters, hni, hlen']
        unfold inc16; omega
      · rw [hw.solver]
        refine hok1 _ _ ?_
        have := hw.hook
        split at this
        · exact Or.inr this
        · exact Or.inl this
      · rw [hout1]; exact hcons.2 (hstop1 hs') hA.1
      · by_cases hs' : st'.out.stop = .kNone
        · exact Or.inl hs'
        · right
          have hld : st'.lastDx = none := by
            rcases Option.eq_none_or_eq_some mdx' with hm | ⟨d, hm⟩
            · have := hw.upd
              rw [hm] at this
              generalize st'.x = x1 at this
              generalize st'.lastDx = l1 at this ⊢
              generalize st'.lastSucc = b1 at this
              cases this <;> rfl
            · exfalso
              have hst2 := hbs.step
              apply hs'
              rw [hbs.out]
              refine (hq.timeStop _ _).trans ?_
              rw [hm] at hst2
              cases hst2 with
              | good w2 s2 dx c a b g s3 w3 r ev hc hdd hg hgi hs3 hcr =>
                rw [hq.criteria] at hcr
                obtain ⟨rfl, -⟩ := Prod.mk.inj hcr
                exact hst
              | bad w2 s2 dx c a b s3 w3 r ev hc hdd hg hi hs3 hmc hmt hcr =>
                rw [hq.criteria] at hcr
                obtain ⟨rfl, -⟩ := Prod.mk.inj hcr
                exact hst
          exact (hnone' hld).trans (hmono c' hc2'))
    hk (by
      have := loopBound_pos hk
      refine ⟨Nat.zero_le _, by simp [initSt]; omega, rfl, hs, hx, le_max_of_le_left h0, fun _ => rfl, ⟨0, Nat.zero_le _, fun h => ⟨Nat.zero_le _, h.1⟩, fun d hd => (nomatch hd), fun _ => Or.inl rfl⟩, fun i r hr => (nomatch hr)⟩)
  refine ⟨st, e, by rw [h1]; exact hj.1, by rw [h1, h2]; exact hj.2.1, by rw [h2]; exact hj.2.2.1, fun hq => ?_⟩
  rw [h1, h2]
  rcases hj.2.2.2 hq with h | h
  · exact Or.inl (h4 h)
  · exact Or.inr h

end
end Verif
