import Verif.Model.Solvers
/-!
# Case analysis of the solver functions
-/

set_option linter.unusedSectionVars false

namespace Verif
open FloatOps

section
variable {F R W X : Type} [FloatOps F]
variable {so : SolverOpts F} {L : LinAlg F} {P : Problem F R W X}

/-- All results of `buildSystem`, in terms of the values `c`, `g`, `H` produced by the user. -/
inductive SystemSpec (so : SolverOpts F) {n : Nat} (c : Cost F R) (g : Vec F n) (H : Mat F n) :
    Bool × GNState F R → Prop
  | invalid (h : (normalizeCost so c).isValid = false) : SystemSpec so c g H (false, ⟨n, g, H, normalizeCost so c⟩)
  | low (h : (normalizeCost so c).isValid = true)
      (hl : (lt (ofInt 0) so.checkMinHDiag && lowDiag so.checkMinHDiag H) = true) :
      SystemSpec so c g H (false, ⟨n, clampVec so.gradClip g, H, normalizeCost so c⟩)
  | ok (h : (normalizeCost so c).isValid = true)
      (hl : (lt (ofInt 0) so.checkMinHDiag && lowDiag so.checkMinHDiag H) = false) :
      SystemSpec so c g H (true, ⟨n, clampVec so.gradClip g,
        if !so.hIsFull && !so.useLdlt then symUpper H else H, normalizeCost so c⟩)

theorem buildSystem_spec {w : W} {s : GNState F R} {x : X} {b s' w'}
    (h : buildSystem so P w s x = (b, s', w')) :
    ∃ c g H, P.acc.full w x s.n (fun _ => ofInt 0) (fun _ _ => ofInt 0) = ((c, g, H), w') ∧
      SystemSpec so c g H (b, s') := by
  rcases e : P.acc.full w x s.n (fun _ => ofInt 0) (fun _ _ => ofInt 0) with ⟨⟨c, g, H⟩, w1⟩
  unfold buildSystem gnAccumulate at h
  rw [e] at h
  simp only at h
  split at h
  next hv =>
    split at h
    next hl =>
      obtain ⟨rfl, rfl, rfl⟩ := h
      exact ⟨c, g, H, rfl, .low hv hl⟩
    next hl =>
      simp only [Prod.mk.injEq] at h
      obtain ⟨rfl, rfl, rfl⟩ := h
      refine ⟨c, g, H, rfl, ?_⟩
      have := SystemSpec.ok (so := so) (g := g) hv (Bool.not_eq_true _ ▸ hl)
      split
      next hf => rw [if_pos hf] at this; exact this
      next hf => rw [if_neg hf] at this; exact this
  next hv =>
    obtain ⟨rfl, rfl, rfl⟩ := h
    exact ⟨c, g, H, rfl, .invalid (Bool.not_eq_true _ ▸ hv)⟩

theorem SystemSpec.n_eq {n : Nat} {c : Cost F R} {g : Vec F n} {H : Mat F n} {p : Bool × GNState F R}
    (h : SystemSpec so c g H p) : p.2.n = n := by cases h <;> rfl

theorem buildSystem_n {w : W} {s : GNState F R} {x : X} {b s' w'}
    (h : buildSystem so P w s x = (b, s', w')) : s'.n = s.n := by
  obtain ⟨c, g, H, -, hs⟩ := buildSystem_spec h
  exact hs.n_eq

theorem gdBuild_spec {w : W} {s : GNState F R} {x : X} {b s' w'} (h : gdBuild so P w s x = (b, s', w')) :
    ∃ c g H, P.acc.full w x s.n (fun _ => ofInt 0) (fun _ _ => ofInt 0) = ((c, g, H), w') ∧
      b = (normalizeCost so c).isValid ∧
      s' = ⟨s.n, clampVec so.gradClip g, fun _ _ => ofInt 0, normalizeCost so c⟩ := by
  rcases e : P.acc.full w x s.n (fun _ => ofInt 0) (fun _ _ => ofInt 0) with ⟨⟨c, g, H⟩, w1⟩
  unfold gdBuild gnAccumulate at h
  rw [e] at h
  simp only at h
  obtain ⟨rfl, rfl, rfl⟩ := h
  exact ⟨c, g, H, rfl, rfl, rfl⟩

/-- All results of `lmBuild`. -/
inductive LmBuildSpec (so : SolverOpts F) (P : Problem F R W X) (w : W) (s : LMState F R) (x : X) :
    Bool × LMState F R × W → Prop
  | rebuilt (g1 w1) (hr : s.rebuild = true) (hb : buildSystem so P w s.gn x = (true, g1, w1)) :
      LmBuildSpec so P w s x (true, lmDamp { s with gn := g1 }, w1)
  | rebuildFail (g1 w1) (hr : s.rebuild = true) (hb : buildSystem so P w s.gn x = (false, g1, w1)) :
      LmBuildSpec so P w s x (false, { s with gn := g1 }, w1)
  | evald (c w1) (hr : s.rebuild = false) (he : P.acc.eval w x = (c, w1))
      (hv : (normalizeCost so c).isValid = true) :
      LmBuildSpec so P w s x (true, lmDamp { s with gn := { s.gn with cost := normalizeCost so c } }, w1)
  | evalFail (c w1) (hr : s.rebuild = false) (he : P.acc.eval w x = (c, w1))
      (hv : (normalizeCost so c).isValid = false) :
      LmBuildSpec so P w s x (false, { s with gn := { s.gn with cost := normalizeCost so c } }, w1)

theorem lmBuild_spec {w : W} {s : LMState F R} {x : X} {p} (h : lmBuild so P w s x = p) :
    LmBuildSpec so P w s x p := by
  subst h
  unfold lmBuild
  split
  next hr =>
    rcases e : buildSystem so P w s.gn x with ⟨b, g1, w1⟩
    simp only
    cases b
    · exact .rebuildFail g1 w1 hr e
    · exact .rebuilt g1 w1 hr e
  next hr =>
    have hr : s.rebuild = false := Bool.not_eq_true _ ▸ hr
    unfold lmEvaluate
    rcases e : P.acc.eval w x with ⟨c, w1⟩
    simp only
    split
    next hv => exact .evald c w1 hr e hv
    next hv => exact .evalFail c w1 hr e (Bool.not_eq_true _ ▸ hv)

theorem lmDamp_spec (s : LMState F R) : ∃ H, lmDamp s = { s with gn := { s.gn with H := H } } := by
  unfold lmDamp
  split
  · exact ⟨_, rfl⟩
  · exact ⟨s.gn.H, rfl⟩

theorem lmBuild_n {w : W} {s : LMState F R} {x : X} {b s' w'} (h : lmBuild so P w s x = (b, s', w')) :
    s'.gn.n = s.gn.n := by
  have := lmBuild_spec h
  generalize hp : (b, s', w') = p at this
  cases this with
  | rebuilt g1 w1 hr hb =>
    obtain ⟨-, rfl, -⟩ := hp
    obtain ⟨H, e⟩ := lmDamp_spec { s with gn := g1 }
    rw [e]; have := buildSystem_n hb; exact this
  | rebuildFail g1 w1 hr hb => obtain ⟨-, rfl, -⟩ := hp; exact buildSystem_n hb
  | evald c w1 hr he hv =>
    obtain ⟨-, rfl, -⟩ := hp
    obtain ⟨H, e⟩ := lmDamp_spec { s with gn := { s.gn with cost := normalizeCost so c } }
    rw [e]
  | evalFail c w1 hr he hv => obtain ⟨-, rfl, -⟩ := hp; rfl

/-- the damping part of the state is not touched by `Build` -/
theorem lmBuild_damping {w : W} {s : LMState F R} {x : X} {b s' w'} (h : lmBuild so P w s x = (b, s', w')) :
    s'.lambda = s.lambda ∧ s'.prev = s.prev ∧ s'.badF = s.badF ∧ s'.rebuild = s.rebuild := by
  have := lmBuild_spec h
  generalize hp : (b, s', w') = p at this
  cases this with
  | rebuilt g1 w1 hr hb =>
    obtain ⟨-, rfl, -⟩ := hp
    obtain ⟨H, e⟩ := lmDamp_spec { s with gn := g1 }
    rw [e]; exact ⟨rfl, rfl, rfl, rfl⟩
  | rebuildFail g1 w1 hr hb => obtain ⟨-, rfl, -⟩ := hp; exact ⟨rfl, rfl, rfl, rfl⟩
  | evald c w1 hr he hv =>
    obtain ⟨-, rfl, -⟩ := hp
    obtain ⟨H, e⟩ := lmDamp_spec { s with gn := { s.gn with cost := normalizeCost so c } }
    rw [e]; exact ⟨rfl, rfl, rfl, rfl⟩
  | evalFail c w1 hr he hv => obtain ⟨-, rfl, -⟩ := hp; exact ⟨rfl, rfl, rfl, rfl⟩

theorem lmGood_spec {s s' : LMState F R} {q : F} (h : lmGood so s q = .ok s') :
    ∃ l, stdClamp (mul s.lambda (goodScale so q s.badF)) so.dampLo so.dampHi = .ok l ∧
      s' = { s with prev := s.lambda, lambda := l, badF := so.badFactor } := by
  unfold lmGood Res.map at h
  rw [Res.bind_eq_ok] at h
  obtain ⟨l, hl, h⟩ := h
  injection h with h
  exact ⟨l, hl, h.symm⟩

theorem lmBad_spec {s s' : LMState F R} (h : lmBad so s = .ok s') :
    ∃ l, stdClamp (mul s.lambda s.badF) so.dampLo so.dampHi = .ok l ∧
      s' = { s with prev := s.lambda, lambda := l, badF := mul s.badF so.badFactor } := by
  unfold lmBad Res.map at h
  rw [Res.bind_eq_ok] at h
  obtain ⟨l, hl, h⟩ := h
  injection h with h
  exact ⟨l, hl, h.symm⟩

/-- `resize` of `SolverLM` only touches the system. -/
theorem lmResize_spec {w : W} {s s' : LMState F R} {d : Int} {w'}
    (h : (lmSolver so L P).resize w s d = (.done s', w')) :
    ∃ g, gnResize P w s.gn d = (.done g, w') ∧ s' = { s with gn := g } := by
  simp only [lmSolver] at h
  rcases e : gnResize P w s.gn d with ⟨r, w1⟩
  rw [e] at h
  cases r with
  | done g => obtain ⟨h1, rfl⟩ := Prod.mk.inj h; injection h1 with h1; exact ⟨g, rfl, h1.symm⟩
  | badAlloc => cases (Prod.mk.inj h).1
  | invalidArg => cases (Prod.mk.inj h).1

end
end Verif
