import Verif.Lemmas.Loop
/-!
# A quantity that grows with the calls of `Build` only: its growth in one iteration
-/

set_option linter.unusedSectionVars false

namespace Verif
open FloatOps

section
variable {F R W S X V M : Type} [FloatOps F]
variable {E : Env F R W S X V M} {o : Options F W V}

/-- `φ` grows by at most one with a call of `build` and by no other call of the solver. -/
structure BuildPot (E : Env F R W S X V M) (φ : S → Nat) : Prop where
  build : ∀ w s x, φ (E.sol.build w s x).2.1 ≤ φ s + 1
  resize : ∀ w s d s' w', E.sol.resize w s d = (.done s', w') → φ s' = φ s
  good : ∀ s q s', E.sol.goodStep s q = .ok s' → φ s' = φ s
  bad : ∀ s s', E.sol.badStep s = .ok s' → φ s' = φ s
  failed : ∀ s s', E.sol.failedStep s = .ok s' → φ s' = φ s
  rebuild : ∀ s b, φ (E.sol.rebuild s b) = φ s

theorem retry_pot {φ : S → Nat} (hp : BuildPot E φ) (hmc8 : o.maxConsecFailures < 256) {x : X} :
    ∀ {n : Nat} {w : W} {s : S} {out : Output F R M} {e w' s' out'}, out.numConsec < o.maxConsecFailures →
      retry E o x n w s out = .ok (e, w', s', out') → φ s' + out.numConsec ≤ φ s + o.maxConsecFailures := by
  intro n
  induction n with
  | zero => intro w s out e w' s' out' _ h; cases h
  | succ n ih =>
    intro w s out e w' s' out' h1 h
    have hb := hp.build w s x
    unfold retry at h
    split at h
    · rcases hbb : E.sol.build w s x with ⟨built, s1, w1⟩
      rw [hbb] at hb
      simp only [hbb] at h hb
      cases hm : (if built = true then E.sol.solve s1 else none) with
      | some dx =>
        rw [hm] at h; injection h with h; obtain ⟨-, -, rfl, -⟩ := h; omega
      | none =>
        rw [hm] at h; simp only at h
        split at h
        · injection h with h; obtain ⟨-, -, rfl, -⟩ := h; omega
        split at h
        · injection h with h; obtain ⟨-, -, rfl, -⟩ := h; omega
        split at h
        · injection h with h; obtain ⟨-, -, rfl, -⟩ := h; omega
        next hlt =>
          rw [Res.bind_eq_ok] at h
          obtain ⟨s2, hs2, h⟩ := h
          have hi : inc8 out.numConsec = out.numConsec + 1 := by unfold inc8; omega
          have h2 := ih (by
            show inc8 out.numConsec < _
            simp only [Bool.and_eq_true, decide_eq_true_eq, gt_iff_lt, ge_iff_le] at hlt
            omega) h
          have h3 := hp.failed _ _ hs2
          simp only [hi] at h2
          omega
    · injection h with h; obtain ⟨-, -, rfl, -⟩ := h; omega

theorem afterSolve_pot {φ : S → Nat} (hp : BuildPot E φ) {dx : V} {c : Cost F R} {w : W} {s : S}
    {out : Output F R M} {p w' s' out'} (hh : afterSolve E o dx c w s out = .ok (p, w', s', out')) : φ s' = φ s := by
  unfold afterSolve at hh
  simp only at hh
  split at hh
  · injection hh with hh; obtain ⟨-, -, rfl, -⟩ := hh; rfl
  split at hh
  · injection hh with hh; obtain ⟨-, -, rfl, -⟩ := hh; rfl
  split at hh
  · rw [Res.bind_eq_ok] at hh
    obtain ⟨s1, h1, hh⟩ := hh
    injection hh with hh; obtain ⟨-, -, rfl, -⟩ := hh
    split at h1
    · exact hp.good _ _ _ h1
    · injection h1 with h1; rw [h1]
  · rw [Res.bind_eq_ok] at hh
    obtain ⟨s1, h1, hh⟩ := hh
    have := hp.bad _ _ h1
    split at hh
    · injection hh with hh; obtain ⟨-, -, rfl, -⟩ := hh; exact this
    split at hh
    · injection hh with hh; obtain ⟨-, -, rfl, -⟩ := hh; exact this
    · injection hh with hh; obtain ⟨-, -, rfl, -⟩ := hh; exact this

theorem resizeIfNeeded_pot {φ : S → Nat} (hp : BuildPot E φ) {w : W} {s : S} {x : X} {s1 w1}
    (hh : resizeIfNeeded E w s x = (.inr s1, w1)) : φ s1 = φ s := by
  unfold resizeIfNeeded at hh
  simp only at hh
  split at hh
  · cases (Prod.mk.inj hh).1
  split at hh
  · cases (Prod.mk.inj hh).1
  split at hh
  next h => 
    obtain ⟨h1, -⟩ := Prod.mk.inj hh
    injection h1 with h1
    rw [← h1]; exact hp.resize _ _ _ _ _ h
  · cases (Prod.mk.inj hh).1
  · cases (Prod.mk.inj hh).1

theorem step_pot {φ : S → Nat} (hp : BuildPot E φ) (hmc8 : o.maxConsecFailures < 256) {fuel : Nat} {w : W} {s : S} {x : X}
    {out : Output F R M} {p w' s' out'} (hc : out.numConsec < o.maxConsecFailures)
    (hh : step E o fuel w s x out = .ok (p, w', s', out')) : φ s' ≤ φ s + o.maxConsecFailures := by
  unfold step at hh
  split at hh
  · injection hh with hh; obtain ⟨-, -, rfl, -⟩ := hh; omega
  next s1 w1 hr =>
    rw [Res.bind_eq_ok] at hh
    obtain ⟨⟨e, w2, s2, out2⟩, h1, hh⟩ := hh
    have h2 := retry_pot hp hmc8 hc h1
    have h3 := resizeIfNeeded_pot hp hr
    cases e with
    | ret => injection hh with hh; obtain ⟨-, -, rfl, -⟩ := hh; omega
    | failed => injection hh with hh; obtain ⟨-, -, rfl, -⟩ := hh; omega
    | got dx c => have := afterSolve_pot hp hh; omega

/-- In one iteration `φ` grows by at most `max_consec_failures`, and the count of consecutive failures stays below
that limit as long as the run goes on. -/
theorem body_pot {φ : S → Nat} (hp : BuildPot E φ) (hmc8 : o.maxConsecFailures < 256) {fuel : Nat} {last : Bool}
    {st st' : LoopSt F R W S X V M} (hc : st.out.numConsec < o.maxConsecFailures)
    (hb : body E o fuel last st = .ok st') :
    φ st'.s ≤ φ st.s + o.maxConsecFailures ∧ (st'.out.stop = .kNone → st'.out.numConsec < o.maxConsecFailures) := by
  obtain ⟨succ, mdx, w1', s1', out1', ms, hstep', hsp⟩ := body_spec' hb
  constructor
  · have h1 := step_pot hp hmc8 hc hstep'
    unfold body at hb
    rw [hstep', Res.bind_ok] at hb
    simp only at hb
    rw [Res.bind_eq_ok] at hb
    obtain ⟨⟨x1, d1, l1, e1⟩, -, hb⟩ := hb
    injection hb with hb
    rw [← hb]
    simp only [hp.rebuild]
    exact h1
  · rw [hsp.out]
    simp only
    intro hstop
    have hstop1 : out1'.stop = .kNone := by
      unfold timeStop at hstop
      split at hstop
      · cases hstop
      · exact hstop
    have hsst := hsp.step
    revert hstop1
    cases hsst with
    | fail a b c d r hr => intro h; simp only [retryOut] at h; subst h; exact absurd hr.code (by decide)
    | good => intro _; show 0 < _; omega
    | badStop w2 s2 dx c a b s3 r ev _ _ _ _ _ hr =>
      intro h; simp only at h
      rcases hr with ⟨rfl, _⟩ | ⟨rfl, _⟩ <;> cases h
    | bad w2 s2 dx c a b s3 w3 r ev _ _ _ _ _ hmc hmt hcr =>
      intro _; simp only
      rcases hmc with h0 | h0
      · omega
      · exact h0

end
end Verif
