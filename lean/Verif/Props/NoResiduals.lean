import Verif.Props.Failures
import Verif.Examples.Solver1

/-!
# C10 for the solvers: the user's function returns no residuals

`C10_no_residuals` (any solver) assumes that `Build` or `Solve` fails. Here this is proved for the solvers of tinyopt: the only assumption is on what the user's
function returns.
-/

set_option linter.unusedSectionVars false

namespace Verif
open FloatOps

section
variable {F R W X : Type} [FloatOps F] {so : SolverOpts F} {L : LinAlg F} {P : Problem F R W X} {o : Options F W (DVec F)}

theorem normalizeCost_num' (c : Cost F R) : (normalizeCost so c).num = c.num := rfl

theorem not_valid_of_num {c : Cost F R} (h : c.num = 0) : c.isValid = false := by
  unfold Cost.isValid
  rw [h]
  rfl

/-- what `buildSystem` does without residuals -/
theorem buildSystem_no_residuals {w w2 : W} {s : GNState F R} {x : X} {c : Cost F R} {g H}
    (hf : P.acc.full w x s.n (fun _ => ofInt 0) (fun _ _ => ofInt 0) = ((c, g, H), w2)) (h : c.num = 0) :
    buildSystem so P w s x = (false, ⟨s.n, g, H, normalizeCost so c⟩, w2) := by
  unfold buildSystem gnAccumulate
  rw [hf]
  simp only
  rw [not_valid_of_num (by rw [normalizeCost_num', h])]
  rfl

/-- **C10 (3)**, Gauss-Newton: if the user's function returns no residuals at the start, the run stops at once with `kSkipped`, after this one call. -/
theorem C10_gn_no_residuals {fuel : Nat} {mi : Int} (hmi : budget o mi < intMax) (hnt : lt (ofInt 0) o.maxDurationMs = false) {x : X} {w w1 w2 : W}
    {s s1 : GNState F R} (hr : Ready (gnEnv so L P) w s x w1 s1) {c : Cost F R} {g H}
    (hf : P.acc.full w1 x s1.n (fun _ => ofInt 0) (fun _ _ => ofInt 0) = ((c, g, H), w2)) (h : c.num = 0) :
    ∃ st, optimizeAcc (gnEnv so L P) o (fuel + 1) mi w s x = .ok st ∧ FailedAtOnce (gnEnv so L P) x w2 .kSkipped st :=
  C10_no_residuals hmi hnt hr (b := false) (s2 := ⟨s1.n, g, H, normalizeCost so c⟩) (buildSystem_no_residuals hf h) (Or.inl rfl) h

/-- **C10 (3)**, Gradient Descent. -/
theorem C10_gd_no_residuals {fuel : Nat} {mi : Int} (hmi : budget o mi < intMax) (hnt : lt (ofInt 0) o.maxDurationMs = false) {x : X} {w w1 w2 : W}
    {s s1 : GNState F R} (hr : Ready (gdEnv so P) w s x w1 s1) {c : Cost F R} {g H}
    (hf : P.acc.full w1 x s1.n (fun _ => ofInt 0) (fun _ _ => ofInt 0) = ((c, g, H), w2)) (h : c.num = 0) :
    ∃ st, optimizeAcc (gdEnv so P) o (fuel + 1) mi w s x = .ok st ∧ FailedAtOnce (gdEnv so P) x w2 .kSkipped st := by
  refine C10_no_residuals hmi hnt hr (b := false) (s2 := ⟨s1.n, clampVec so.gradClip g, fun _ _ => ofInt 0, normalizeCost so c⟩) (w2 := w2) ?_ (Or.inl rfl) h
  show gdBuild so P w1 s1 x = _
  unfold gdBuild gnAccumulate
  rw [hf]
  simp only
  rw [not_valid_of_num (by rw [normalizeCost_num', h])]

/-- **C10 (3)**, Levenberg-Marquardt (a solver that has to evaluate the system, as every new one). -/
theorem C10_lm_no_residuals {fuel : Nat} {mi : Int} (hmi : budget o mi < intMax) (hnt : lt (ofInt 0) o.maxDurationMs = false) {x : X} {w w1 w2 : W}
    {s s1 : LMState F R} (hr : Ready (lmEnv so L P) w s x w1 s1) (hb : s1.rebuild = true) {c : Cost F R} {g H}
    (hf : P.acc.full w1 x s1.gn.n (fun _ => ofInt 0) (fun _ _ => ofInt 0) = ((c, g, H), w2)) (h : c.num = 0) :
    ∃ st, optimizeAcc (lmEnv so L P) o (fuel + 1) mi w s x = .ok st ∧ FailedAtOnce (lmEnv so L P) x w2 .kSkipped st := by
  refine C10_no_residuals hmi hnt hr (b := false) (s2 := { s1 with gn := ⟨s1.gn.n, g, H, normalizeCost so c⟩ }) (w2 := w2) ?_ (Or.inl rfl) h
  show lmBuild so P w1 s1 x = _
  unfold lmBuild
  rw [if_pos hb, buildSystem_no_residuals hf h]
  rfl

/-- the same after a rejected step, when Levenberg-Marquardt only asks for the cost -/
theorem C10_lm_no_residuals_eval {fuel : Nat} {mi : Int} (hmi : budget o mi < intMax) (hnt : lt (ofInt 0) o.maxDurationMs = false) {x : X} {w w1 w2 : W}
    {s s1 : LMState F R} (hr : Ready (lmEnv so L P) w s x w1 s1) (hb : s1.rebuild = false) {c : Cost F R}
    (hf : P.acc.eval w1 x = (c, w2)) (h : c.num = 0) :
    ∃ st, optimizeAcc (lmEnv so L P) o (fuel + 1) mi w s x = .ok st ∧ FailedAtOnce (lmEnv so L P) x w2 .kSkipped st := by
  refine C10_no_residuals hmi hnt hr (b := false) (s2 := { s1 with gn := { s1.gn with cost := normalizeCost so c } }) (w2 := w2) ?_ (Or.inl rfl) h
  show lmBuild so P w1 s1 x = _
  unfold lmBuild lmEvaluate
  rw [if_neg (by rw [hb]; decide), hf]
  simp only
  rw [not_valid_of_num (by rw [normalizeCost_num', h])]
  rfl

end

/-- a problem without residuals (the gradient is not zero: a step would be taken if it was not refused) -/
def noRes : Problem D D Nat D := prob1 (fun x => (ofInt 0, x, ofInt 1)) (fun _ => 0) none

def lm0 : LMState D D := ⟨gn0, sopts1.dampInit, ofInt 0, sopts1.badFactor, true⟩

/-- the hypotheses are met by this problem, with the three solvers -/
example : (∃ st, optimizeAcc (gnEnv sopts1 lin1 noRes) (opts1 5) 1 (-1) 0 gn0 (ofInt 7) = .ok st ∧ FailedAtOnce (gnEnv sopts1 lin1 noRes) (ofInt 7) 1 .kSkipped st) ∧
    (∃ st, optimizeAcc (gdEnv sopts1 noRes) (opts1 5) 1 (-1) 0 gn0 (ofInt 7) = .ok st ∧ FailedAtOnce (gdEnv sopts1 noRes) (ofInt 7) 1 .kSkipped st) ∧
    (∃ st, optimizeAcc (lmEnv sopts1 lin1 noRes) (opts1 5) 1 (-1) 0 lm0 (ofInt 7) = .ok st ∧ FailedAtOnce (lmEnv sopts1 lin1 noRes) (ofInt 7) 1 .kSkipped st) ∧
    (∃ st, optimizeAcc (lmEnv sopts1 lin1 noRes) (opts1 5) 1 (-1) 0 { lm0 with rebuild := false } (ofInt 7) = .ok st ∧
      FailedAtOnce (lmEnv sopts1 lin1 noRes) (ofInt 7) 0 .kSkipped st) :=
  ⟨C10_gn_no_residuals (by decide +kernel) (by decide +kernel) ⟨by decide, rfl⟩ rfl rfl,
   C10_gd_no_residuals (by decide +kernel) (by decide +kernel) ⟨by decide, rfl⟩ rfl rfl,
   C10_lm_no_residuals (by decide +kernel) (by decide +kernel) ⟨by decide, rfl⟩ rfl rfl rfl,
   C10_lm_no_residuals_eval (by decide +kernel) (by decide +kernel) ⟨by decide, rfl⟩ rfl rfl rfl⟩

end Verif
