import Verif.Props.Limits
/-!
# C13, C14, C15: failure limit, time limit, user callbacks
-/

set_option linter.unusedSectionVars false

namespace Verif
open FloatOps

section
variable {F R W S X V M : Type} [FloatOps F]
variable {E : Env F R W S X V M} {o : Options F W V}

/-! ## C13 -/

/-- like `flatEnv`, but the first linear solve of the run fails -/
def flakyEnv : ToyEnv := { flatEnv with
  sol := { flatEnv.sol with
    build := fun w _ _ => (true, ⟨{ cost := ofInt (10 - w), num := 1, inlier := ofInt 1 },
      if w = 0 then none else some 1⟩, w + 1) } }

/-- **C13 is violated** (1): with `max_total_failures = 1` a run goes on after `num_failures` has reached 1. -/
theorem C13_limit_missed : ∃ st : LoopSt D D Nat ToyS Int Int Unit,
    optimizeAcc flakyEnv { toyOpts with maxTotalFailures := 1 } 3 (-1) 0 toyS0 0 = .ok st ∧
    (∀ r ∈ st.trace, 1 ≤ r.out.numFailures) ∧ st.trace.length = 6 ∧ st.out.stop = .kMaxIters := by
  obtain ⟨st, h, hp⟩ := Res.exists_of_holds (p := fun (st : LoopSt D D Nat ToyS Int Int Unit) =>
      st.trace.all (fun r => decide (1 ≤ r.out.numFailures)) && st.trace.length == 6 && st.out.stop == .kMaxIters)
    (r := optimizeAcc flakyEnv { toyOpts with maxTotalFailures := 1 } 3 (-1) 0 toyS0 0) (by decide +kernel)
  simp only [Bool.and_eq_true, beq_iff_eq, List.all_eq_true, decide_eq_true_eq] at hp
  exact ⟨st, h, hp.1.1, hp.1.2, hp.2⟩

/-- **C13 is violated** (2): after 256 rejected steps `num_failures` is 0 again. -/
theorem C13_count_wraps : ∃ st : LoopSt D D Nat ToyS Int Int Unit,
    optimizeAcc flatEnv { toyOpts with maxIters := 256 } 3 (-1) 0 toyS0 0 = .ok st ∧
    st.out.successes.count false = 256 ∧ st.out.numFailures = 0 := by
  obtain ⟨st, h, hp⟩ := Res.exists_of_holds (p := fun (st : LoopSt D D Nat ToyS Int Int Unit) =>
      st.out.successes.count false == 256 && st.out.numFailures == 0)
    (r := optimizeAcc flatEnv { toyOpts with maxIters := 256 } 3 (-1) 0 toyS0 0) (by decide +kernel)
  simp only [Bool.and_eq_true, beq_iff_eq] at hp
  exact ⟨st, h, hp⟩

/-- **C13, partial (1).** After a rejected step with `num_failures ≥ max_total_failures > 0` the run
ends: every iteration but the last one whose step was rejected has `num_failures` below the limit.
Missing: failed linear solves followed by an accepted step, see `C13_limit_missed`. -/
theorem C13_rejected_step_limit_partial {fuel : Nat} {mi : Int} {w : W} {s : S} {x : X}
    {st : LoopSt F R W S X V M} (hmt : 0 < o.maxTotalFailures)
    (h : optimizeAcc E o fuel mi w s x = .ok st) :
    ∀ r ∈ st.trace.dropLast, r.succ = false → r.out.numIters ≠ 0 → r.out.numFailures < o.maxTotalFailures := by
  let I : LoopSt F R W S X V M → Prop := fun st => ∀ r ∈ st.trace,
    r.succ = false → r.out.numIters ≠ 0 → r.out.numFailures < o.maxTotalFailures
  let J : LoopSt F R W S X V M → Prop := fun st => ∀ r ∈ st.trace.dropLast,
    r.succ = false → r.out.numIters ≠ 0 → r.out.numFailures < o.maxTotalFailures
  obtain ⟨m, st0, hm, hj, hi, ⟨hl1, hl2, hl3⟩, rfl⟩ := run_inv (I := I) (J := J) (E := E) (o := o) (by
    intro last st st' h0 hI hb
    obtain ⟨succ, mdx, w1, s1, out1, ms, hs⟩ := body_spec hb
    refine ⟨?_, ?_⟩
    · intro hno r hr hsu hni
      have hn1 : out1.stop = .kNone := by
        rw [hs.out] at hno; exact timeStop_none hno
      rw [hs.trace, List.mem_append, List.mem_singleton] at hr
      rcases hr with hr | rfl
      · exact hI r hr hsu hni
      · simp only at hsu hni ⊢
        have hst := hs.step
        generalize hp : (succ, mdx) = p at hst
        cases hst with
        | fail w' s' a b r hr => simp only [retryOut] at hn1; subst hn1; exact absurd hr.code (by decide)
        | good w2 s2 dx c a b g s3 w3 r ev hc hd hg hgi hs3 hcr =>
          cases hp
          rcases hgi with rfl | hgi
          · cases hsu
          · exact absurd hgi hni
        | badStop w2 s2 dx c a b s3 r ev hc hd hg hi' hs3 hr =>
          simp only at hn1
          rcases hr with ⟨rfl, _⟩ | ⟨rfl, _⟩ <;> cases hn1
        | bad w2 s2 dx c a b s3 w3 r ev hc hd hg hi' hs3 hmc hmt' hcr =>
          simp only; omega
    · rw [show J st' = ∀ r ∈ st'.trace.dropLast, _ from rfl, hs.trace, List.dropLast_concat]; exact hI)
    (fun r hr => (nomatch hr)) (fun r hr => (nomatch hr)) h
  exact hj

/-- the linear solver never fails -/
def NeverFails (E : Env F R W S X V M) : Prop :=
  ∀ w s x b s' w', E.sol.build w s x = (b, s', w') → b = true ∧ (E.sol.solve s').isSome = true

theorem afterSolve_failures {dx : V} {c : Cost F R} {w : W} {s : S} {out : Output F R M} {p w' s' out'}
    (h : afterSolve E o dx c w s out = .ok (p, w', s', out')) :
    (out'.successes = out.successes ∧ out'.numFailures = out.numFailures ∧ out'.stop.code < 0) ∨
    (∃ g, out'.successes = out.successes ++ [g] ∧ (g = true ∨ out.numIters = 0) ∧
      out'.numFailures = out.numFailures) ∨
    (out'.successes = out.successes ++ [false] ∧ out.numIters ≠ 0 ∧ out'.numFailures = inc8 out.numFailures ∧
      (out'.stop = .kMaxConsecNoDecr ∨ out'.stop = .kMaxNoDecr ∨ o.maxTotalFailures = 0 ∨
        out'.numFailures < o.maxTotalFailures)) := by
  unfold afterSolve at h
  simp only at h
  split at h
  · injection h with h; obtain ⟨rfl, rfl, rfl, rfl⟩ := h
    exact Or.inl ⟨rfl, rfl, by simp only; decide⟩
  split at h
  · injection h with h; obtain ⟨rfl, rfl, rfl, rfl⟩ := h
    exact Or.inl ⟨rfl, rfl, by simp only; decide⟩
  split at h
  next hgi =>
    rw [Res.bind_eq_ok] at h
    obtain ⟨s3, hs3, h⟩ := h
    injection h with h; obtain ⟨rfl, rfl, rfl, rfl⟩ := h
    exact Or.inr (Or.inl ⟨_, rfl, by simpa using hgi, rfl⟩)
  next hgi =>
    rw [Res.bind_eq_ok] at h
    obtain ⟨s3, hs3, h⟩ := h
    simp only [Bool.or_eq_true, beq_iff_eq, not_or, Bool.not_eq_true] at hgi
    right; right
    split at h
    · injection h with h; obtain ⟨rfl, rfl, rfl, rfl⟩ := h
      exact ⟨by simp only; rw [hgi.1], hgi.2, rfl, Or.inl rfl⟩
    · split at h
      · injection h with h; obtain ⟨rfl, rfl, rfl, rfl⟩ := h
        exact ⟨by simp only; rw [hgi.1], hgi.2, rfl, Or.inr (Or.inl rfl)⟩
      next hmt =>
        injection h with h; obtain ⟨rfl, rfl, rfl, rfl⟩ := h
        refine ⟨by simp only; rw [hgi.1], hgi.2, rfl, Or.inr (Or.inr ?_)⟩
        simp only [Bool.and_eq_true, decide_eq_true_eq, gt_iff_lt, ge_iff_le] at hmt ⊢
        omega

theorem step_failures (hns : NeverFails E) {fuel : Nat} {w : W} {s : S} {x : X} {out : Output F R M}
    {p w' s' out'} (h : step E o fuel w s x out = .ok (p, w', s', out')) :
    (out'.successes = out.successes ∧ out'.numFailures = out.numFailures ∧ out'.stop.code < 0) ∨
    (∃ g, out'.successes = out.successes ++ [g] ∧ (g = true ∨ out.numIters = 0) ∧
      out'.numFailures = out.numFailures) ∨
    (out'.successes = out.successes ++ [false] ∧ out.numIters ≠ 0 ∧ out'.numFailures = inc8 out.numFailures ∧
      (out'.stop = .kMaxConsecNoDecr ∨ out'.stop = .kMaxNoDecr ∨ o.maxTotalFailures = 0 ∨
        out'.numFailures < o.maxTotalFailures)) := by
  unfold step at h
  split at h
  next r w1 hr =>
    injection h with h; obtain ⟨rfl, rfl, rfl, rfl⟩ := h
    exact Or.inl ⟨rfl, rfl,
      (resizeIfNeeded_cause (o := o) (out := out) (a := 0) hr).code⟩
  · rw [Res.bind_eq_ok] at h
    obtain ⟨⟨e, w2, s2, out2⟩, h1, h⟩ := h
    cases fuel with
    | zero => cases h1
    | succ n =>
      unfold retry at h1
      split at h1
      · rename_i s1 w1 _ _
        rcases hb : E.sol.build w1 s1 x with ⟨b, s3, w3⟩
        obtain ⟨hb1, hb2⟩ := hns _ _ _ _ _ _ hb
        rw [hb] at h1
        simp only [hb1, if_true] at h1
        rw [Option.isSome_iff_exists] at hb2
        obtain ⟨dx, hdx⟩ := hb2
        rw [hdx] at h1
        simp only at h1
        injection h1 with h1; obtain ⟨rfl, rfl, rfl, rfl⟩ := h1
        exact afterSolve_failures h
      · injection h1 with h1; obtain ⟨rfl, rfl, rfl, rfl⟩ := h1
        injection h with h; obtain ⟨rfl, rfl, rfl, rfl⟩ := h
        exact Or.inl ⟨rfl, rfl, by simp only; decide⟩

/-- **C13, partial (2).** If the linear solver never fails, `num_failures` counts the rejected steps
(modulo 256; the first step cannot be rejected), and with `0 < max_total_failures` the run ends with the
iteration in which it reaches the limit. -/
theorem C13_total_failures_partial (hns : NeverFails E) {fuel : Nat} {mi : Int} (hmi : budget o mi ≤ 65536)
    {w : W} {s : S} {x : X} {st : LoopSt F R W S X V M} (h : optimizeAcc E o fuel mi w s x = .ok st) :
    st.out.numFailures = st.out.successes.tail.count false % 256 ∧
    (0 < o.maxTotalFailures →
      (∀ r ∈ st.trace.dropLast, r.out.numFailures < o.maxTotalFailures) ∧
      (o.maxTotalFailures ≤ st.out.numFailures →
        st.out.stop ∈ [StopReason.kMaxNoDecr, .kMaxConsecNoDecr, .kTimedOut])) := by
  let C : LoopSt F R W S X V M → Prop := fun st =>
    st.out.numFailures = st.out.successes.tail.count false % 256
  let I : LoopSt F R W S X V M → Prop := fun st => st.trace.length ≤ 65536 →
    C st ∧ st.out.numIters = st.trace.length % 65536 ∧ st.out.successes.length = st.trace.length ∧
    (0 < o.maxTotalFailures → st.out.numFailures < o.maxTotalFailures ∧
      ∀ r ∈ st.trace, r.out.numFailures < o.maxTotalFailures)
  let J : LoopSt F R W S X V M → Prop := fun st => st.trace.length ≤ 65536 → C st ∧
    (0 < o.maxTotalFailures → (∀ r ∈ st.trace.dropLast, r.out.numFailures < o.maxTotalFailures) ∧
      (o.maxTotalFailures ≤ st.out.numFailures →
        st.out.stop ∈ [StopReason.kMaxNoDecr, .kMaxConsecNoDecr, .kTimedOut]))
  obtain ⟨m, st0, hm, hj, hi, ⟨hl1, hl2, hl3⟩, rfl⟩ := run_inv (I := I) (J := J) (E := E) (o := o) (by
    intro last st st' h0 hI hb
    obtain ⟨succ, mdx, w1, s1, out1, ms, hstep, hs⟩ := body_spec' hb
    have hlen : st'.trace.length = st.trace.length + 1 := by rw [hs.trace]; simp
    have hn' := fun h => numIters_inv hb h
    have e1 : st'.out.numFailures = out1.numFailures := by rw [hs.out]
    have e2 : st'.out.successes = out1.successes := by rw [hs.out]
    have e3 : st'.out.stop = timeStop o (add out1.duration ms) out1.stop := by rw [hs.out]
    have key : st'.trace.length ≤ 65536 → C st' ∧
        (out1.stop.code < 0 ∨ st'.out.successes.length = st'.trace.length) ∧
        (0 < o.maxTotalFailures → st'.out.numFailures < o.maxTotalFailures ∨
          out1.stop = .kMaxConsecNoDecr ∨ out1.stop = .kMaxNoDecr) := by
      intro hle
      obtain ⟨hC, hn, hsl, hlim⟩ := hI (by omega)
      have hC : st.out.numFailures = st.out.successes.tail.count false % 256 := hC
      rcases step_failures hns hstep with ⟨h1, h2, h3⟩ | ⟨g, h1, h2, h3⟩ | ⟨h1, h2, h3, h4⟩
      · refine ⟨?_, Or.inl h3, fun hp => Or.inl ?_⟩
        · show st'.out.numFailures = _; rw [e1, e2, h1, h2]; exact hC
        · rw [e1, h2]; exact (hlim hp).1
      · refine ⟨?_, Or.inr ?_, fun hp => Or.inl ?_⟩
        · show st'.out.numFailures = _
          rw [e1, e2, h1, h3]
          rcases h2 with rfl | h2
          · cases hsucc : st.out.successes with
            | nil => rw [hC, hsucc]; rfl
            | cons a l => rw [hC, hsucc]; simp [List.count_append]
          · have : st.trace.length = 0 := by omega
            have hnil : st.out.successes = [] := List.length_eq_zero_iff.1 (by omega)
            rw [hC, hnil]; rfl
        · rw [e2, h1]; simp; omega
        · rw [e1, h3]; exact (hlim hp).1
      · refine ⟨?_, Or.inr ?_, fun hp => ?_⟩
        · show st'.out.numFailures = _
          rw [e1, e2, h1, h3, hC]
          cases hsucc : st.out.successes with
          | nil =>
            rw [hsucc] at hsl; simp at hsl
            rw [← hsl] at hn; exact absurd hn h2
          | cons a l => simp [List.count_append, inc8]
        · rw [e2, h1]; simp; omega
        · rw [e1]
          rcases h4 with h4 | h4 | h4 | h4
          · exact Or.inr (Or.inl h4)
          · exact Or.inr (Or.inr h4)
          · omega
          · exact Or.inl h4
    refine ⟨?_, ?_⟩
    · intro hno hle
      rw [e3] at hno
      have hno1 := timeStop_none hno
      obtain ⟨k1, k2, k3⟩ := key hle
      obtain ⟨hC, hn, hsl, hlim⟩ := hI (by omega)
      refine ⟨k1, hn' hn, ?_, fun hp => ?_⟩
      · rcases k2 with k2 | k2
        · rw [hno1] at k2; exact absurd k2 (by decide)
        · exact k2
      · have hlt : st'.out.numFailures < o.maxTotalFailures := by
          rcases k3 hp with k | k | k
          · exact k
          · rw [hno1] at k; cases k
          · rw [hno1] at k; cases k
        refine ⟨hlt, fun r hr => ?_⟩
        rw [hs.trace, List.mem_append, List.mem_singleton] at hr
        rcases hr with hr | rfl
        · exact (hlim hp).2 r hr
        · rw [← e1]; exact hlt
    · intro hle
      obtain ⟨k1, k2, k3⟩ := key hle
      obtain ⟨hC, hn, hsl, hlim⟩ := hI (by omega)
      refine ⟨k1, fun hp => ⟨?_, fun hge => ?_⟩⟩
      · rw [hs.trace, List.dropLast_concat]; exact (hlim hp).2
      · rw [e3]
        rcases timeStop_or (o := o) (add out1.duration ms) out1.stop with ht | ht
        · rw [ht]
          rcases k3 hp with k | k | k
          · omega
          · rw [k]; simp
          · rw [k]; simp
        · rw [ht]; simp)
    (fun _ => ⟨rfl, rfl, rfl, fun hp => ⟨hp, fun r hr => (nomatch hr)⟩⟩)
    (fun _ => ⟨rfl, fun hp => ⟨fun r hr => (nomatch hr), fun hge => absurd hge (Nat.not_le.2 hp)⟩⟩) h
  have hm' := budget_of_loopBound hm
  obtain ⟨k1, k2⟩ := hj (by omega)
  refine ⟨k1, fun hp => ⟨(k2 hp).1, fun hge => ?_⟩⟩
  have := (k2 hp).2 hge
  simp only
  rw [if_neg]
  · exact this
  · rintro ⟨hk, _⟩; rw [hk] at this; simp at this

example : ∃ st, optimizeAcc flatEnv { toyOpts with maxTotalFailures := 3 } 3 (-1) 0 toyS0 0 = .ok st ∧
    (st.out.stop == .kMaxNoDecr && st.out.successes == [true, false, false, false] &&
      st.out.numFailures == 3) = true :=
  Res.exists_of_holds (by decide +kernel)

example : NeverFails flatEnv := by
  intro w s x b s' w' h
  obtain ⟨rfl, rfl⟩ := flat_build h
  exact ⟨rfl, rfl⟩

end
end Verif
