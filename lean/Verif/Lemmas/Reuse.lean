import Verif.Lemmas.Sim
import Verif.Model.Solvers
/-!
# Runs that do not depend on the state of the solver object
-/

set_option linter.unusedSectionVars false

namespace Verif
open FloatOps

section
variable {F R W S X V M : Type} [FloatOps F]
variable {E : Env F R W S X V M} {o : Options F W V}

theorem zero_le_maxTries (o : Options F W V) : 0 ≤ maxTries o := Nat.zero_le _

theorem step_eq_of_build {fuel : Nat} {w w1 : W} {s s' t t' : S} {x : X} {out : Output F R M}
    (h : resizeIfNeeded E w s x = (.inr t, w1)) (h' : resizeIfNeeded E w s' x = (.inr t', w1))
    (hb : E.sol.build w1 t x = E.sol.build w1 t' x) (hc : out.numConsec ≤ maxTries o) :
    step E o fuel w s x out = step E o fuel w s' x out := by
  unfold step
  rw [h, h']
  simp only
  have : retry E o x fuel w1 t out = retry E o x fuel w1 t' out := by
    cases fuel with
    | zero => rfl
    | succ n => unfold retry; rw [if_pos hc, if_pos hc, hb]
  rw [this]

theorem body_eq_of_step {fuel : Nat} {last : Bool} {w : W} {s s' : S} {x : X}
    (h : step E o fuel w s x (Output.init E.ratio1) = step E o fuel w s' x (Output.init E.ratio1)) :
    body E o fuel last (initSt E w s x) = body E o fuel last (initSt E w s' x) := by
  unfold body initSt
  simp only
  rw [h]

theorem run_eq_of_step {fuel : Nat} {mi : Int} {w : W} {s s' : S} {x : X}
    (h : step E o fuel w s x (Output.init E.ratio1) = step E o fuel w s' x (Output.init E.ratio1)) :
    optimizeAcc E o fuel mi w s x = optimizeAcc E o fuel mi w s' x := by
  unfold optimizeAcc
  cases hm : loopBound o mi with
  | none => rfl
  | some m =>
    have h1 := (loopBound_spec hm).2.1
    obtain ⟨k, hk⟩ : ∃ k, m.toNat = k + 1 := ⟨m.toNat - 1, by omega⟩
    simp only
    rw [hk]
    unfold loop
    rw [body_eq_of_step h]

/-- same outcome of two runs, up to the solver objects and the saved Hessian -/
def SameButHessian (st st' : LoopSt F R W S X V M) : Prop :=
  st.w = st'.w ∧ st.x = st'.x ∧ st.lastDx = st'.lastDx ∧ st.lastSucc = st'.lastSucc ∧ st.trace = st'.trace ∧
    ({ st.out with finalHessian := none } : Output F R M) = { st'.out with finalHessian := none }

theorem SameButHessian.refl (st : LoopSt F R W S X V M) : SameButHessian st st :=
  ⟨rfl, rfl, rfl, rfl, rfl, rfl⟩

theorem Res.Rel.refl {α : Type} {r : α → α → Prop} (h : ∀ a, r a a) : ∀ a : Res α, Res.Rel r a a
  | .ok a => h a
  | .ub => trivial
  | .throw => trivial
  | .fuel => trivial

theorem step_resize_fail {fuel : Nat} {w w1 : W} {s : S} {x : X} {out : Output F R M} {r : StopReason}
    (h : resizeIfNeeded E w s x = (.inl r, w1)) :
    step E o fuel w s x out = .ok ((false, none), w1, s, { out with stop := r }) := by
  unfold step; rw [h]

theorem resizeIfNeeded_code {w w1 : W} {s : S} {x : X} {r : StopReason}
    (h : resizeIfNeeded E w s x = (.inl r, w1)) : r ≠ .kNone := by
  have := (resizeIfNeeded_cause (o := ({ checkFinalCost := false, useStepQuality := false, saveLast := false, maxIters := 0, minError := ofInt 0, minRerrDec := ofInt 0, minStepNorm2 := ofInt 0, minGradNorm2 := ofInt 0, maxTotalFailures := 0, maxConsecFailures := 0, maxDurationMs := ofInt 0, stopCallback := none, stopCallback2 := none } : Options F W V)) (out := Output.init E.ratio1) (a := 0) h).code
  rintro rfl; cases this

theorem run_of_resize_fail {fuel : Nat} {mi : Int} {w w1 : W} {s s' : S} {x : X} {r : StopReason}
    (h : resizeIfNeeded E w s x = (.inl r, w1)) (h' : resizeIfNeeded E w s' x = (.inl r, w1)) :
    Res.Rel SameButHessian (optimizeAcc E o fuel mi w s x) (optimizeAcc E o fuel mi w s' x) := by
  have hne := resizeIfNeeded_code h
  unfold optimizeAcc
  cases hm : loopBound o mi with
  | none => trivial
  | some m =>
    have h1 := (loopBound_spec hm).2.1
    obtain ⟨k, hk⟩ : ∃ k, m.toNat = k + 1 := ⟨m.toNat - 1, by omega⟩
    simp only
    rw [hk]
    unfold loop
    have e1 : step E o fuel (initSt E w s x).w (initSt E w s x).s (initSt E w s x).x (initSt E w s x).out = _ :=
      step_resize_fail (o := o) (fuel := fuel) (out := Output.init E.ratio1) h
    have e2 : step E o fuel (initSt E w s' x).w (initSt E w s' x).s (initSt E w s' x).x (initSt E w s' x).out = _ :=
      step_resize_fail (o := o) (fuel := fuel) (out := Output.init E.ratio1) h'
    unfold body
    rw [e1, e2]
    simp only [Res.bind_ok, initSt, Bool.false_eq_true, if_false]
    by_cases hc : (lt (ofInt 0) o.maxDurationMs && lt o.maxDurationMs
        (add (Output.init (F := F) (M := M) E.ratio1).duration (E.clock w1).1)) = true
    · simp only [if_pos hc]
      exact ⟨rfl, rfl, rfl, rfl, rfl, rfl⟩
    · simp only [if_neg hc, if_pos hne]
      exact ⟨rfl, rfl, rfl, rfl, rfl, rfl⟩

end

section
variable {F R W X : Type} [FloatOps F]

/-- the solver has the size fixed at compile time, if there is one -/
def SizeOk (P : Problem F R W X) (s : GNState F R) : Prop := ∀ d, P.dims = some d → s.n = d

/-- memory can be allocated and allocation is not observable by the user -/
def AllocFine (P : Problem F R W X) : Prop := ∀ w n, ∃ g H, P.alloc w n = (some (g, H), w)

theorem gnResize_same {P : Problem F R W X} (ha : AllocFine P) {s s' : GNState F R} (hs : SizeOk P s)
    (hs' : SizeOk P s') (w : W) (d : Int) :
    (∃ t t', gnResize P w s d = (.done t, w) ∧ gnResize P w s' d = (.done t', w) ∧ t.n = t'.n ∧
      SizeOk P t ∧ SizeOk P t') ∨
    (gnResize P w s d = (.invalidArg, w) ∧ gnResize P w s' d = (.invalidArg, w)) := by
  have hd0 : ∀ d0, P.dims = some d0 → s.n = d0 ∧ s'.n = d0 := fun d0 h => ⟨hs d0 h, hs' d0 h⟩
  unfold gnResize
  cases hd : P.dims with
  | some d0 =>
    obtain ⟨e1, e2⟩ := hd0 d0 hd
    by_cases h : d = d0
    · simp only [if_pos h]
      exact Or.inl ⟨s, s', rfl, rfl, e1.trans e2.symm, hs, hs'⟩
    · simp only [if_neg h]; simp
  | none =>
    have triv : ∀ t : GNState F R, SizeOk P t := fun t d h => by rw [hd] at h; cases h
    by_cases hneg : d < 0
    · simp only [if_pos hneg]; simp
    · simp only [if_neg hneg]
      left
      obtain ⟨g, H, hal⟩ := ha w d.toNat
      rw [hal]
      by_cases h1 : (s.n : Int) = d <;> by_cases h2 : (s'.n : Int) = d
      · rw [if_pos h1, if_pos h2]; exact ⟨_, _, rfl, rfl, by omega, triv _, triv _⟩
      · rw [if_pos h1, if_neg h2]; refine ⟨_, _, rfl, rfl, ?_, triv _, triv _⟩; simp only; omega
      · rw [if_neg h1, if_pos h2]; refine ⟨_, _, rfl, rfl, ?_, triv _, triv _⟩; simp only; omega
      · rw [if_neg h1, if_neg h2]; exact ⟨_, _, rfl, rfl, rfl, triv _, triv _⟩

theorem gnAccumulate_indep (so : SolverOpts F) (P : Problem F R W X) (w : W) {t t' : GNState F R} (x : X)
    (h : t.n = t'.n) : gnAccumulate so P w t x = gnAccumulate so P w t' x := by
  obtain ⟨n, g, H, c⟩ := t
  obtain ⟨n', g', H', c'⟩ := t'
  simp only at h
  subst h
  rfl

theorem buildSystem_indep (so : SolverOpts F) (P : Problem F R W X) (w : W) {t t' : GNState F R} (x : X)
    (h : t.n = t'.n) : buildSystem so P w t x = buildSystem so P w t' x := by
  unfold buildSystem; rw [gnAccumulate_indep so P w x h]

theorem gdBuild_indep (so : SolverOpts F) (P : Problem F R W X) (w : W) {t t' : GNState F R} (x : X)
    (h : t.n = t'.n) : gdBuild so P w t x = gdBuild so P w t' x := by
  unfold gdBuild; rw [gnAccumulate_indep so P w x h]

theorem gn_resizeIfNeeded_same {P : Problem F R W X} (ha : AllocFine P) {s s' : GNState F R}
    (hs : SizeOk P s) (hs' : SizeOk P s') (w : W) (x : X)
    {sol : SolverI F R W (GNState F R) X (DVec F) (DMat F)} (hsol : sol.resize = gnResize P) {b : Bool} :
    (∃ t t', resizeIfNeeded (envOf P sol b) w s x = (.inr t, w) ∧
      resizeIfNeeded (envOf P sol b) w s' x = (.inr t', w) ∧ t.n = t'.n) ∨
    (∃ r, resizeIfNeeded (envOf P sol b) w s x = (.inl r, w) ∧
      resizeIfNeeded (envOf P sol b) w s' x = (.inl r, w)) := by
  unfold resizeIfNeeded
  simp only
  split
  · exact Or.inr ⟨_, rfl, rfl⟩
  · split
    · exact Or.inr ⟨_, rfl, rfl⟩
    · have e : (envOf P sol b).sol.resize = gnResize P := hsol
      rw [e]
      rcases gnResize_same ha hs hs' w ((envOf P sol b).dynDims x) with ⟨t, t', e1, e2, hn, -, -⟩ | ⟨e1, e2⟩
      · rw [e1, e2]; exact Or.inl ⟨t, t', rfl, rfl, hn⟩
      · rw [e1, e2]; exact Or.inr ⟨_, rfl, rfl⟩

/-- what `Build` reads of the LM state apart from gradient, Hessian and cost -/
def SameDamping (s s' : LMState F R) : Prop :=
  s.lambda = s'.lambda ∧ s.prev = s'.prev ∧ s.badF = s'.badF ∧ s.rebuild = true ∧ s'.rebuild = true

theorem lmBuild_indep (so : SolverOpts F) (P : Problem F R W X) (w : W) {s s' : LMState F R} (x : X)
    (hn : s.gn.n = s'.gn.n) (h : SameDamping s s') : lmBuild so P w s x = lmBuild so P w s' x := by
  obtain ⟨g, l, p, b, r⟩ := s
  obtain ⟨g', l', p', b', r'⟩ := s'
  obtain ⟨h1, h2, h3, h4, h5⟩ := h
  simp only at h1 h2 h3 h4 h5
  subst h1; subst h2; subst h3; subst h4; subst h5
  unfold lmBuild
  simp only [if_true]
  rw [buildSystem_indep so P w x hn]

theorem lm_resizeIfNeeded_same {so : SolverOpts F} {L : LinAlg F} {P : Problem F R W X} (ha : AllocFine P)
    {s s' : LMState F R} (hs : SizeOk P s.gn) (hs' : SizeOk P s'.gn) (w : W) (x : X) :
    (∃ t t', resizeIfNeeded (lmEnv so L P) w s x = (.inr { s with gn := t }, w) ∧
      resizeIfNeeded (lmEnv so L P) w s' x = (.inr { s' with gn := t' }, w) ∧ t.n = t'.n) ∨
    (∃ r, resizeIfNeeded (lmEnv so L P) w s x = (.inl r, w) ∧
      resizeIfNeeded (lmEnv so L P) w s' x = (.inl r, w)) := by
  unfold resizeIfNeeded
  simp only
  split
  · exact Or.inr ⟨_, rfl, rfl⟩
  · split
    · exact Or.inr ⟨_, rfl, rfl⟩
    · simp only [lmEnv, envOf, lmSolver]
      rcases gnResize_same ha hs hs' w (P.dynDims x) with ⟨t, t', e1, e2, hn, -, -⟩ | ⟨e1, e2⟩
      · rw [e1, e2]; exact Or.inl ⟨t, t', rfl, rfl, hn⟩
      · rw [e1, e2]; exact Or.inr ⟨_, rfl, rfl⟩

end
end Verif
