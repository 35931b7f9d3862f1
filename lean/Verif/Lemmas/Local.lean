import Verif.Props.Prefix
/-!
# A run depends on the user's function only at the points it visits
-/

set_option linter.unusedSectionVars false

namespace Verif
open FloatOps

section
variable {F R W S X V M : Type} [FloatOps F]

/-- the same optimizer with another `Build` -/
def Env.withBuild (E : Env F R W S X V M) (b : W → S → X → Bool × S × W) : Env F R W S X V M :=
  { E with sol := { E.sol with build := b } }

variable {E : Env F R W S X V M} {o : Options F W V} {b : W → S → X → Bool × S × W}

theorem retry_local {x : X} (h : ∀ w s, b w s x = E.sol.build w s x) : ∀ (n : Nat) (w : W) (s : S) (out : Output F R M),
    retry (E.withBuild b) o x n w s out = retry E o x n w s out := by
  intro n
  induction n with
  | zero => intros; rfl
  | succ n ih =>
    intro w s out
    unfold retry
    have : (E.withBuild b).sol.build w s x = E.sol.build w s x := h w s
    rw [this]
    simp only [ih]
    rfl

theorem step_local {x : X} (h : ∀ w s, b w s x = E.sol.build w s x) (fuel : Nat) (w : W) (s : S) (out : Output F R M) :
    step (E.withBuild b) o fuel w s x out = step E o fuel w s x out := by
  unfold step
  simp only [retry_local h]
  rfl

theorem body_local {st : LoopSt F R W S X V M} (h : ∀ w s, b w s st.x = E.sol.build w s st.x) (fuel : Nat) (l : Bool) :
    body (E.withBuild b) o fuel l st = body E o fuel l st := by
  unfold body
  rw [step_local h]
  rfl

theorem loop_local {fuel : Nat} : ∀ {n : Nat} {st st' : LoopSt F R W S X V M}, loop E o fuel n st = .ok st' →
    (∀ r ∈ st'.trace, ∀ w s, b w s r.x = E.sol.build w s r.x) → loop (E.withBuild b) o fuel n st = .ok st' := by
  intro n
  induction n with
  | zero => intro st st' h _; exact h
  | succ n ih =>
    intro st st' h hb
    unfold loop at h ⊢
    rw [Res.bind_eq_ok] at h
    obtain ⟨st1, h1, h2⟩ := h
    obtain ⟨succ, mdx, w1, s1, out1, ms, hs⟩ := body_spec h1
    have hg : Grown st1 st' := by
      split at h2
      · injection h2 with h2; subst h2; exact ⟨List.prefix_rfl, List.prefix_rfl⟩
      · exact loop_grown h2
    have hx : ∀ w s, b w s st.x = E.sol.build w s st.x :=
      hb ⟨st.x, succ, mdx, out1, st1.x⟩ (hg.trace.subset (by rw [hs.trace]; simp))
    rw [body_local hx, h1]
    simp only [Res.bind]
    split at h2
    next hne => rw [if_pos hne]; exact h2
    next hne => rw [if_neg hne]; exact ih h2 hb

theorem run_local {fuel : Nat} {mi : Int} {w : W} {s : S} {x : X} {st : LoopSt F R W S X V M}
    (h : optimizeAcc E o fuel mi w s x = .ok st) (hb : ∀ r ∈ st.trace, ∀ w s, b w s r.x = E.sol.build w s r.x) :
    optimizeAcc (E.withBuild b) o fuel mi w s x = .ok st := by
  unfold optimizeAcc at h ⊢
  cases hm : loopBound o mi with
  | none => rw [hm] at h; cases h
  | some m =>
    rw [hm] at h
    simp only at h ⊢
    rw [Res.bind_eq_ok] at h
    obtain ⟨st0, h1, h2⟩ := h
    have ht : st.trace = st0.trace := by
      injection h2 with h2
      rw [← h2]
    have := loop_local (b := b) h1 (by rw [← ht]; exact hb)
    have e : initSt (E.withBuild b) w s x = initSt E w s x := rfl
    rw [e, this]
    exact h2

end
end Verif
