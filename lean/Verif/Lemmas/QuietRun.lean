import Verif.Lemmas.Loop
/-!
# Runs without stop criteria
-/

set_option linter.unusedSectionVars false

namespace Verif
open FloatOps

section
variable {F R W S X V M : Type} [FloatOps F]
variable {E : Env F R W S X V M} {o : Options F W V}

/-- all stop criteria except the number of iterations are switched off -/
structure Quiet (o : Options F W V) : Prop where
  err : lt (ofInt 0) o.minError = false
  rel : lt (ofInt 0) o.minRerrDec = false
  dx : lt (ofInt 0) o.minStepNorm2 = false
  grad : lt (ofInt 0) o.minGradNorm2 = false
  cb1 : o.stopCallback = none
  cb2 : o.stopCallback2 = none
  time : lt (ofInt 0) o.maxDurationMs = false

theorem Quiet.criteria (h : Quiet o) (w : W) (a b c d : F) (e g : V) : criteria o w a b c d e g = (none, w) := by
  unfold Verif.criteria
  simp [h.err, h.rel, h.dx, h.grad, callStop1, callStop2, h.cb1, h.cb2]

theorem Quiet.timeStop (h : Quiet o) (d : F) (r : StopReason) : timeStop o d r = r := by
  unfold Verif.timeStop
  simp [h.time]

/-- A run without stop criteria whose iterations all delivered a step (accepted or not) does all its iterations. -/
theorem quiet_run {fuel : Nat} {mi m : Int} {w : W} {s : S} {x : X} {st : LoopSt F R W S X V M} (hq : Quiet o)
    (h : optimizeAcc E o fuel mi w s x = .ok st) (hm : loopBound o mi = some m) (ht : ∀ t ∈ st.trace, t.dx ≠ none) :
    (st.trace.length : Int) = m := by
  obtain ⟨m', st0, hm', hj, -, hlen, hst⟩ := run_inv (I := fun _ => True)
    (J := fun st => (∀ t ∈ st.trace, t.dx ≠ none) → st.out.stop = .kNone)
    (fun last st st' h0 _ hb => by
      refine ⟨fun _ => trivial, fun hall => ?_⟩
      obtain ⟨succ, mdx, w1, s1, out1, ms, hs⟩ := body_spec hb
      have hd : mdx ≠ none := hall ⟨st.x, succ, mdx, out1, st'.x⟩ (by rw [hs.trace]; simp)
      rw [hs.out]
      refine (hq.timeStop _ _).trans ?_
      cases hs.step with
      | fail => exact absurd rfl hd
      | badStop => exact absurd rfl hd
      | good w2 s2 dx c a b g s3 w3 r ev hc hdd hg hgi hs3 hcr =>
        rw [hq.criteria] at hcr
        obtain ⟨rfl, -⟩ := Prod.mk.inj hcr
        exact h0
      | bad w2 s2 dx c a b s3 w3 r ev hc hdd hg hi hs3 hmc hmt hcr =>
        rw [hq.criteria] at hcr
        obtain ⟨rfl, -⟩ := Prod.mk.inj hcr
        exact h0)
    trivial (fun _ => rfl) h
  rw [hm] at hm'
  injection hm' with hm'
  subst hm'
  have e : st.trace = st0.trace := by rw [hst]
  rw [e] at ht ⊢
  exact hlen.2.1 (hj ht)

/-- accepted iterations delivered a step -/
theorem succ_dx {fuel : Nat} {mi : Int} {w : W} {s : S} {x : X} {st : LoopSt F R W S X V M}
    (h : optimizeAcc E o fuel mi w s x = .ok st) : ∀ t ∈ st.trace, t.succ = true → t.dx ≠ none := by
  obtain ⟨m', st0, hm', hj, -, hlen, hst⟩ := run_inv (I := fun st => ∀ t ∈ st.trace, t.succ = true → t.dx ≠ none)
    (J := fun st => ∀ t ∈ st.trace, t.succ = true → t.dx ≠ none)
    (fun last st st' h0 hI hb => by
      have : ∀ t ∈ st'.trace, t.succ = true → t.dx ≠ none := by
        obtain ⟨succ, mdx, w1, s1, out1, ms, hs⟩ := body_spec hb
        rw [hs.trace]
        intro t ht
        rcases List.mem_append.mp ht with ht | ht
        · exact hI t ht
        · obtain rfl := List.mem_singleton.mp ht
          simp only
          cases hs.step <;> simp
      exact ⟨fun _ => this, this⟩)
    (fun t ht => by simp [initSt] at ht) (fun t ht => by simp [initSt] at ht) h
  rw [hst]; exact hj

end
end Verif
