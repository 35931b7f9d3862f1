import Verif.Lemmas.Reuse
import Verif.Lemmas.Solvers
import Verif.Examples.Solver1
/-!
# C16, C17, C18: using an optimizer object again
-/

set_option linter.unusedSectionVars false

namespace Verif
open FloatOps

section
variable {F R W X : Type} [FloatOps F]
variable {so : SolverOpts F} {L : LinAlg F} {P : Problem F R W X} {o : Options F W (DVec F)}

theorem gnResize_sizeOk {w : W} {s s' : GNState F R} {d : Int} {w'} (h : SizeOk P s)
    (e : gnResize P w s d = (.done s', w')) : SizeOk P s' := by
  intro d0 hd
  have h0 := h d0 hd
  simp only [gnResize, hd] at e
  by_cases hdd : d = d0
  · rw [if_pos hdd] at e
    obtain ⟨e, -⟩ := Prod.mk.inj e; injection e with e; subst e; exact h0
  · rw [if_neg hdd] at e
    cases (Prod.mk.inj e).1

/-- Whatever was done before with a solver object, its size is the compile time one if there is one. -/
theorem sizeOk_lm (so : SolverOpts F) (L : LinAlg F) (P : Problem F R W X) :
    SolInv (lmEnv so L P) (fun s => SizeOk P s.gn) where
  resize w s d s' w' h e := by
    obtain ⟨g, hg, rfl⟩ := lmResize_spec e
    exact gnResize_sizeOk h hg
  build w s x b s' w' h e := fun d0 hd => (lmBuild_n e).trans (h d0 hd)
  good s q s' h _ e := by obtain ⟨l, -, rfl⟩ := lmGood_spec e; exact h
  bad s s' h e := by obtain ⟨l, -, rfl⟩ := lmBad_spec e; exact h
  failed s s' h e := by obtain ⟨l, -, rfl⟩ := lmBad_spec e; exact h
  rebuild s b h := h

theorem sizeOk_gn (so : SolverOpts F) (L : LinAlg F) (P : Problem F R W X) :
    SolInv (gnEnv so L P) (fun s => SizeOk P s) where
  resize w s d s' w' h e := gnResize_sizeOk h e
  build w s x b s' w' h e := fun d0 hd => (buildSystem_n e).trans (h d0 hd)
  good s q s' h _ e := by injection e with e; subst e; exact h
  bad s s' h e := by injection e with e; subst e; exact h
  failed s s' h e := by injection e with e; subst e; exact h
  rebuild s b h := h

theorem sizeOk_gd (so : SolverOpts F) (P : Problem F R W X) :
    SolInv (gdEnv so P) (fun s => SizeOk P s) where
  resize w s d s' w' h e := gnResize_sizeOk h e
  build w s x b s' w' h e := by
    obtain ⟨c, g, H, -, -, rfl⟩ := gdBuild_spec e
    exact h
  good s q s' h _ e := by injection e with e; subst e; exact h
  bad s s' h e := by injection e with e; subst e; exact h
  failed s s' h e := by injection e with e; subst e; exact h
  rebuild s b h := h

/-- An object on which any number of earlier runs (of possibly different problems `Q` of the same
compile time size, with any options) was done. -/
inductive UsedLM (so : SolverOpts F) (L : LinAlg F) (dims : Option Nat) : LMState F R → Prop
  | fresh (P : Problem F R W X) (hP : P.dims = dims) (g H) : UsedLM so L dims (lmFresh so P g H)
  | run (s) (h : UsedLM so L dims s) (Q : Problem F R W X) (hQ : Q.dims = dims) (o : Options F W (DVec F)) (fuel mi w x st)
      (hr : optimizeAcc (lmEnv so L Q) o fuel mi w s x = .ok st) : UsedLM so L dims st.s
  | reset (s) (h : UsedLM so L dims s) : UsedLM so L dims (lmReset so s)

theorem SizeOk.congr {P Q : Problem F R W X} (h : P.dims = Q.dims) {s : GNState F R} (hs : SizeOk P s) :
    SizeOk Q s := fun d hd => hs d (h.trans hd)

theorem sizeOk_fresh (P : Problem F R W X) (g H) : SizeOk P (gnFresh P g H) := by
  intro d hd; simp [gnFresh, hd]

theorem UsedLM.sizeOk {dims : Option Nat} {s : LMState F R}
    (h : UsedLM (W := W) (X := X) so L dims s) (hP : P.dims = dims) : SizeOk P s.gn := by
  induction h with
  | fresh P0 hP0 g H =>
    have := sizeOk_fresh P0 g H
    exact SizeOk.congr (hP0.trans hP.symm) this
  | run s _ Q hQ o fuel mi w x st hr ih =>
    exact SizeOk.congr (hQ.trans hP.symm) (run_solinv (sizeOk_lm so L Q) (SizeOk.congr (hP.trans hQ.symm) ih) hr)
  | reset s _ ih => exact ih

/-- a run that fails before the first system is built does so for any state of the object -/
theorem run_indep_lm (ha : AllocFine P) {s s' : LMState F R} (hs : SizeOk P s.gn) (hs' : SizeOk P s'.gn)
    (hd : SameDamping s s') (fuel : Nat) (mi : Int) (w : W) (x : X) :
    optimizeAcc (lmEnv so L P) o fuel mi w s x = optimizeAcc (lmEnv so L P) o fuel mi w s' x ∨
    (∃ r w1, resizeIfNeeded (lmEnv so L P) w s x = (.inl r, w1)) ∧
    Res.Rel SameButHessian (optimizeAcc (lmEnv so L P) o fuel mi w s x)
      (optimizeAcc (lmEnv so L P) o fuel mi w s' x) := by
  rcases lm_resizeIfNeeded_same (so := so) (L := L) ha hs hs' w x with ⟨t, t', e, e', hn⟩ | ⟨r, e, e'⟩
  · exact Or.inl (run_eq_of_step (step_eq_of_build e e'
      (lmBuild_indep so P w (s := { s with gn := t }) (s' := { s' with gn := t' }) x hn hd) (Nat.zero_le _)))
  · exact Or.inr ⟨⟨r, w, e⟩, run_of_resize_fail e e'⟩

/-- **C16** (Levenberg-Marquardt). An optimizer object after any history and then `reset()` gives
the same result as a new one: position, output, callbacks and user calls (`w`, `trace`).  Only the
saved Hessian of a run that ends before a system is built may differ (see `C16_hessian_leaks`). -/
theorem C16_lm_reset_partial (ha : AllocFine P) (s : LMState F R)
    (hs : UsedLM (W := W) (X := X) so L P.dims s) (g H) (fuel : Nat) (mi : Int) (w : W) (x : X) :
    Res.Rel SameButHessian (optimizeAcc (lmEnv so L P) o fuel mi w (lmReset so s) x)
      (optimizeAcc (lmEnv so L P) o fuel mi w (lmFresh so P g H) x) ∧
    (0 < P.dynDims x → (∀ d, P.dims = some d → P.dynDims x = d) →
      optimizeAcc (lmEnv so L P) o fuel mi w (lmReset so s) x =
      optimizeAcc (lmEnv so L P) o fuel mi w (lmFresh so P g H) x) := by
  have h1 : SizeOk P (lmReset so s).gn := hs.sizeOk rfl
  have h2 : SizeOk P (lmFresh so P g H).gn := sizeOk_fresh P g H
  have h3 : SameDamping (lmReset so s) (lmFresh so P g H) := ⟨rfl, rfl, rfl, rfl, rfl⟩
  rcases run_indep_lm (so := so) (L := L) (o := o) ha h1 h2 h3 fuel mi w x with h | ⟨⟨r, w1, hr⟩, h⟩
  · exact ⟨h ▸ Res.Rel.refl SameButHessian.refl _, fun _ _ => h⟩
  · refine ⟨h, fun hp hd => ?_⟩
    exfalso
    unfold resizeIfNeeded at hr
    have hp : 0 < (lmEnv so L P).dynDims x := hp
    simp only at hr
    rw [if_neg (by simp; omega), if_neg (by omega)] at hr
    rcases gnResize_same ha h1 h1 w (P.dynDims x) with ⟨t, t', e1, -⟩ | ⟨e1, -⟩
    · simp only [lmEnv, envOf, lmSolver] at hr
      rw [e1] at hr
      cases (Prod.mk.inj hr).1
    · unfold gnResize at e1
      cases hdm : P.dims with
      | some d => rw [hdm] at e1; simp only at e1; rw [if_pos (hd d hdm)] at e1; cases (Prod.mk.inj e1).1
      | none =>
        rw [hdm] at e1
        simp only at e1
        rw [if_neg (show ¬ P.dynDims x < 0 by have : 0 < P.dynDims x := hp; omega)] at e1
        split at e1
        · cases (Prod.mk.inj e1).1
        · obtain ⟨g, H, e⟩ := ha w (P.dynDims x).toNat
          rw [e] at e1; cases (Prod.mk.inj e1).1

/-- `finalHessian` is only written at the end of a second order run. -/
theorem finalHessian_none {S V M : Type} {E : Env F R W S X V M} {o : Options F W V} (hf : E.firstOrder = true)
    {fuel : Nat} {mi : Int} {w : W} {s : S} {x : X} {st} (hst : optimizeAcc E o fuel mi w s x = .ok st) :
    st.out.finalHessian = none := by
  obtain ⟨m, st0, -, hj, -, -, hst⟩ := run_inv
    (I := fun st => st.out.finalHessian = none) (J := fun st => st.out.finalHessian = none)
    (fun last st st' _ h1 hb => by
      obtain ⟨succ, mdx, w1, s1, out1, ms, hstep, hs⟩ := body_spec' hb
      have h2 : out1.finalHessian = none := by
        cases hs.step <;> exact h1
      have h3 : st'.out.finalHessian = none := by rw [hs.out]; exact h2
      exact ⟨fun _ => h3, h3⟩) (by rfl) (by rfl) hst
  rw [hst]
  simp only [hf, Bool.not_true, Bool.false_and, Bool.false_eq_true, if_false]
  exact hj

/-- **C16** (Gradient Descent, full claim). Two solver objects of the right size, whatever their
contents (so also a used and a new one), give the same result, without `reset()`. -/
theorem C16_gd_stateless (ha : AllocFine P) (s s' : GNState F R) (hs : SizeOk P s) (hs' : SizeOk P s')
    (fuel : Nat) (mi : Int) (w : W) (x : X) :
    Res.Rel (fun st st' => st.x = st'.x ∧ st.out = st'.out ∧ st.w = st'.w ∧ st.trace = st'.trace)
      (optimizeAcc (gdEnv so P) o fuel mi w s x) (optimizeAcc (gdEnv so P) o fuel mi w s' x) := by
  rcases gn_resizeIfNeeded_same ha hs hs' w x (sol := gdSolver so P) rfl (b := true) with
    ⟨t, t', e, e', hn⟩ | ⟨r, e, e'⟩
  · have h2 : optimizeAcc (gdEnv so P) o fuel mi w s x = optimizeAcc (gdEnv so P) o fuel mi w s' x :=
      run_eq_of_step (mi := mi) (step_eq_of_build (o := o) (fuel := fuel)
        (out := Output.init P.ratio1) e e' (gdBuild_indep so P w x hn) (Nat.zero_le _))
    rw [h2]
    exact Res.Rel.refl (fun a => ⟨rfl, rfl, rfl, rfl⟩) _
  · have hh : Res.Rel SameButHessian (optimizeAcc (gdEnv so P) o fuel mi w s x)
      (optimizeAcc (gdEnv so P) o fuel mi w s' x) := run_of_resize_fail (o := o) (fuel := fuel) (mi := mi) e e'
    cases h : optimizeAcc (gdEnv so P) o fuel mi w s x <;> cases h' : optimizeAcc (gdEnv so P) o fuel mi w s' x <;>
      rw [h, h'] at hh <;> first | exact hh.elim | trivial | skip
    next st st' =>
    obtain ⟨h1, h2, -, -, h5, h6⟩ := hh
    refine ⟨h2, ?_, h1, h5⟩
    have f1 : st.out.finalHessian = none := finalHessian_none rfl h
    have f2 : st'.out.finalHessian = none := finalHessian_none rfl h'
    rcases st with ⟨_, _, _, out, _, _, _⟩
    rcases st' with ⟨_, _, _, out', _, _, _⟩
    cases out; cases out'
    simp only at f1 f2 h6
    subst f1; subst f2; exact h6

/-- **C16** (Gauss-Newton): as for Gradient Descent, without `reset()`, except for the saved Hessian
of a run that ends before a system is built. -/
theorem C16_gn_stateless_partial (ha : AllocFine P) (s s' : GNState F R) (hs : SizeOk P s) (hs' : SizeOk P s')
    (fuel : Nat) (mi : Int) (w : W) (x : X) :
    Res.Rel SameButHessian
      (optimizeAcc (gnEnv so L P) o fuel mi w s x) (optimizeAcc (gnEnv so L P) o fuel mi w s' x) ∧
    (0 < P.dynDims x → (∀ d, P.dims = some d → P.dynDims x = d) →
      optimizeAcc (gnEnv so L P) o fuel mi w s x = optimizeAcc (gnEnv so L P) o fuel mi w s' x) := by
  rcases gn_resizeIfNeeded_same ha hs hs' w x (sol := gnSolver so L P) rfl (b := false) with
    ⟨t, t', e, e', hn⟩ | ⟨r, e, e'⟩
  · have h2 : optimizeAcc (gnEnv so L P) o fuel mi w s x = optimizeAcc (gnEnv so L P) o fuel mi w s' x :=
      run_eq_of_step (mi := mi) (step_eq_of_build (o := o) (fuel := fuel)
        (out := Output.init P.ratio1) e e' (buildSystem_indep so P w x hn) (Nat.zero_le _))
    exact ⟨h2 ▸ Res.Rel.refl SameButHessian.refl _, fun _ _ => h2⟩
  · refine ⟨run_of_resize_fail (o := o) (fuel := fuel) (mi := mi) e e', fun hp hd => ?_⟩
    exfalso
    unfold resizeIfNeeded at e
    have hp : 0 < (envOf P (gnSolver so L P) false).dynDims x := hp
    simp only at e
    rw [if_neg (by simp; omega), if_neg (by omega)] at e
    have hp : 0 < P.dynDims x := hp
    rcases hg : gnResize P w s (P.dynDims x) with ⟨rr, w'⟩
    have hg' : (envOf P (gnSolver so L P) false).sol.resize w s
      ((envOf P (gnSolver so L P) false).dynDims x) = (rr, w') := hg
    rw [hg'] at e
    unfold gnResize at hg
    cases hdm : P.dims with
    | some d =>
      rw [hdm] at hg; simp only at hg; rw [if_pos (hd d hdm)] at hg
      obtain ⟨rfl, rfl⟩ := hg
      cases (Prod.mk.inj e).1
    | none =>
      rw [hdm] at hg
      simp only at hg
      rw [if_neg (show ¬ P.dynDims x < 0 by omega)] at hg
      split at hg
      · obtain ⟨rfl, rfl⟩ := hg; cases (Prod.mk.inj e).1
      · obtain ⟨g, H, e2⟩ := ha w (P.dynDims x).toNat
        rw [e2] at hg; obtain ⟨rfl, rfl⟩ := hg; cases (Prod.mk.inj e).1

/-- **C17** (what holds): a re-used LM object without `reset()` gives the same result as a new one
if its damping state happens to be the initial one and it is not in evaluation-only mode. -/
theorem C17_lm_reuse_partial (ha : AllocFine P) (s : LMState F R)
    (hs : UsedLM (W := W) (X := X) so L P.dims s) (g H)
    (h1 : s.lambda = so.dampInit) (h2 : s.prev = ofInt 0) (h3 : s.badF = so.badFactor) (h4 : s.rebuild = true)
    (fuel : Nat) (mi : Int) (w : W) (x : X) :
    Res.Rel SameButHessian (optimizeAcc (lmEnv so L P) o fuel mi w s x)
      (optimizeAcc (lmEnv so L P) o fuel mi w (lmFresh so P g H) x) := by
  have hd : SameDamping s (lmFresh so P g H) := ⟨h1, h2, h3, h4, rfl⟩
  rcases run_indep_lm (so := so) (L := L) (o := o) ha (hs.sizeOk rfl) (sizeOk_fresh P g H) hd fuel mi w x with
    h | ⟨-, h⟩
  · exact h ▸ Res.Rel.refl SameButHessian.refl _
  · exact h

/-- **C18**. Two user functions that do the same on an all-zero gradient and Hessian (and without
derivatives) cannot be told apart by any run of any of the solvers, whatever the state of the
solver object: the function is only ever called on zeros. -/
theorem C18_acc_gets_zeros (acc' : Acc F R W X)
    (hf : ∀ w x n, P.acc.full w x n (fun _ => ofInt 0) (fun _ _ => ofInt 0) =
      acc'.full w x n (fun _ => ofInt 0) (fun _ _ => ofInt 0))
    (he : ∀ w x, P.acc.eval w x = acc'.eval w x)
    (fuel : Nat) (mi : Int) (w : W) (x : X) :
    (∀ s, optimizeAcc (lmEnv so L P) o fuel mi w s x =
      optimizeAcc (lmEnv so L { P with acc := acc' }) o fuel mi w s x) ∧
    (∀ s, optimizeAcc (gnEnv so L P) o fuel mi w s x =
      optimizeAcc (gnEnv so L { P with acc := acc' }) o fuel mi w s x) ∧
    (∀ s, optimizeAcc (gdEnv so P) o fuel mi w s x =
      optimizeAcc (gdEnv so { P with acc := acc' }) o fuel mi w s x) := by
  have ha : ∀ w s x, gnAccumulate so P w s x = gnAccumulate so { P with acc := acc' } w s x := by
    intro w s x; unfold gnAccumulate; rw [hf]
  have hb : ∀ w s x, buildSystem so P w s x = buildSystem so { P with acc := acc' } w s x := by
    intro w s x; unfold buildSystem; rw [ha]
  have hev : ∀ w s x, lmEvaluate so P w s x = lmEvaluate so { P with acc := acc' } w s x := by
    intro w s x; unfold lmEvaluate; rw [he]
  have h1 : lmBuild so P = lmBuild so { P with acc := acc' } := by
    funext w s x; unfold lmBuild; rw [hb, hev]
  have h2 : buildSystem so P = buildSystem so { P with acc := acc' } := by funext w s x; exact hb w s x
  have h3 : gdBuild so P = gdBuild so { P with acc := acc' } := by
    funext w s x; unfold gdBuild; rw [ha]
  refine ⟨fun s => ?_, fun s => ?_, fun s => ?_⟩
  · have : lmEnv so L P = lmEnv so L { P with acc := acc' } := by
      unfold lmEnv envOf lmSolver; rw [h1]; rfl
    rw [this]
  · have : gnEnv so L P = gnEnv so L { P with acc := acc' } := by
      unfold gnEnv envOf gnSolver; rw [h2]; rfl
    rw [this]
  · have : gdEnv so P = gdEnv so { P with acc := acc' } := by
      unfold gdEnv envOf gdSolver; rw [h3]; rfl
    rw [this]

end

/-- adding to zero is exact -/
theorem fl_zero_add {f : Fmt} (a : Fl f) : add (ofInt 0) a = a := by
  rw [Fl.ofInt_zero]
  cases a with
  | nan => rfl
  | pinf => rfl
  | ninf => rfl
  | fin q h =>
    show Fl.mk (0 + q) = _
    unfold Fl.mk Fl.ofGrid
    have : f.rnd (0 + q) = q := by rw [_root_.zero_add]; exact f.rnd_id q h.1
    simp only [this]
    rw [dif_pos h.2]

/-- **C18** (`+=` is as good as `=`), for floating point numbers of any format, overflow and NaN
included. `val w x n` are the values the user computes. -/
theorem C18_accumulate_like_assign {f : Fmt} {R W X : Type} {so : SolverOpts (Fl f)} {L : LinAlg (Fl f)}
    {P : Problem (Fl f) R W X} {o : Options (Fl f) W (DVec (Fl f))}
    (val : W → X → (n : Nat) → Cost (Fl f) R × Vec (Fl f) n × Mat (Fl f) n) (wnext : W → X → W)
    (ev : W → X → Cost (Fl f) R × W) (fuel : Nat) (mi : Int) (w : W) (x : X)
    (s : LMState (Fl f) R) :
    optimizeAcc (lmEnv so L { P with acc :=
      { full := fun w x n g H => (((val w x n).1, fun i => add (g i) ((val w x n).2.1 i),
          fun i j => add (H i j) ((val w x n).2.2 i j)), wnext w x), eval := ev } }) o fuel mi w s x =
    optimizeAcc (lmEnv so L { P with acc :=
      { full := fun w x n _ _ => (val w x n, wnext w x), eval := ev } }) o fuel mi w s x := by
  refine (C18_acc_gets_zeros (P := { P with acc := _ }) (acc' := { full := fun w x n _ _ => (val w x n, wnext w x), eval := ev }) ?_ ?_ fuel mi w x).1 s
  · intro w x n
    simp only [fl_zero_add]
  · intro w x; rfl

/-! ### Non-vacuity and violations -/

/-- fresh LM object for `lin3` with dynamic size -/
def lmNew : LMState D D := lmFresh sopts1 (lin3 none) nofun nofun

/-- first run of the witness: two iterations from 0 -/
def lmRun1 : Res (LoopSt D D Nat (LMState D D) D (DVec D) (DMat D)) :=
  optimizeAcc (lmEnv sopts1 lin1 (lin3 none)) (opts1 2) 10 (-1) 0 lmNew (ofInt 0)

example : AllocFine (lin3 none) := fun _ _ => ⟨_, _, rfl⟩

/-- the first run succeeds, so the history below is not empty -/
theorem lmRun1_ok : lmRun1.holds (fun st => decide (st.out.stop = .kMaxIters) && decide (st.out.errs.length = 3)) = true := by
  decide +kernel

example : ∃ s : LMState D D, UsedLM (W := Nat) (X := D) sopts1 lin1 (lin3 none).dims s ∧ s.lambda ≠ sopts1.dampInit := by
  obtain ⟨st, h, -⟩ := Res.exists_of_holds lmRun1_ok
  have hl : lmRun1.holds (fun st => decide (st.s.lambda ≠ sopts1.dampInit)) = true := by decide +kernel
  refine ⟨st.s, .run _ (.fresh (lin3 none) rfl _ _) (lin3 none) rfl (opts1 2) 10 (-1) 0 (ofInt 0) st h, ?_⟩
  rw [h] at hl
  simpa [Res.holds] using hl

/-- the state that a run leaves in the solver object, used for a second run from `x` -/
def secondRun (n : Nat) (P2 : Problem D D Nat D) (x : D) : Res (LoopSt D D Nat (LMState D D) D (DVec D) (DMat D)) :=
  lmRun1.bind fun st => optimizeAcc (lmEnv sopts1 lin1 P2) (opts1 n) 10 (-1) 0 st.s x

/-- **C17 is violated**: the same problem started at the same point on the same object gives another
result the second time, because the damping of the first run is kept. -/
theorem C17_damping_leaks :
    ∃ st st', lmRun1 = .ok st ∧ secondRun 2 (lin3 none) (ofInt 0) = .ok st' ∧ st.x ≠ st'.x := by
  have h : (lmRun1.bind fun st => (secondRun 2 (lin3 none) (ofInt 0)).map fun st' => (st, st')).holds
      (fun p => decide (p.1.x ≠ p.2.x)) = true := by decide +kernel
  obtain ⟨⟨st, st'⟩, h1, h2⟩ := Res.exists_of_holds h
  rw [Res.bind_eq_ok] at h1
  obtain ⟨a, ha, h1⟩ := h1
  unfold Res.map at h1
  rw [Res.bind_eq_ok] at h1
  obtain ⟨b, hb, h1⟩ := h1
  injection h1 with h1
  obtain ⟨rfl, rfl⟩ := Prod.mk.inj h1
  exact ⟨a, b, ha, hb, by simpa using h2⟩

/-- least squares problem whose cost never decreases -/
def flat1 : Problem D D Nat D := prob1 (fun _ => (ofInt 1, ofInt 5, ofInt 1)) (fun _ => 1) none

/-- a run on `flat1` followed, on the same object, by one iteration on `lin3` -/
def staleRun : Res (LoopSt D D Nat (LMState D D) D (DVec D) (DMat D)) :=
  (optimizeAcc (lmEnv sopts1 lin1 flat1) (opts1 2) 10 (-1) 0 lmNew (ofInt 0)).bind fun st =>
    optimizeAcc (lmEnv sopts1 lin1 (lin3 none)) (opts1 0) 10 (-1) 0 st.s (ofInt 0)

/-- **C17 is violated** (worse case): the object may be left in evaluation-only mode. The second run
then makes a step without ever asking the user for derivatives (`w` counts these calls): the step is
computed from the gradient and Hessian of the previous problem. -/
theorem C17_stale_system :
    ∃ st, staleRun = .ok st ∧ st.w = 0 ∧ st.trace.length = 1 ∧ st.x ≠ ofInt 0 := by
  have h : staleRun.holds (fun st => decide (st.w = 0) && decide (st.trace.length = 1) &&
      decide (st.x ≠ ofInt 0)) = true := by decide +kernel
  obtain ⟨st, h1, h2⟩ := Res.exists_of_holds h
  simp only [Bool.and_eq_true, decide_eq_true_eq] at h2
  exact ⟨st, h1, h2.1.1, h2.1.2, h2.2⟩

/-- `lin3` on a parameter that has no dimension -/
def empty1 : Problem D D Nat D := { lin3 none with dynDims := fun _ => 0 }

/-- **C16 is violated** in one corner: after `reset()` the run of a problem without parameters
reports the (zeroed) Hessian of the earlier run, of size 1, a new object one of size 0. -/
theorem C16_hessian_leaks :
    ∃ s : LMState D D, UsedLM (W := Nat) (X := D) sopts1 lin1 empty1.dims s ∧
    ∃ st st', optimizeAcc (lmEnv sopts1 lin1 empty1) (opts1 2) 10 (-1) 0 (lmReset sopts1 s) (ofInt 0) = .ok st ∧
      optimizeAcc (lmEnv sopts1 lin1 empty1) (opts1 2) 10 (-1) 0 (lmFresh sopts1 empty1 nofun nofun) (ofInt 0) = .ok st' ∧
      st.out.finalHessian.map DMat.n = some 1 ∧ st'.out.finalHessian.map DMat.n = some 0 := by
  obtain ⟨st0, h0, -⟩ := Res.exists_of_holds lmRun1_ok
  refine ⟨st0.s, .run _ (.fresh (lin3 none) rfl _ _) (lin3 none) rfl (opts1 2) 10 (-1) 0 (ofInt 0) st0 h0, ?_⟩
  have h : (lmRun1.bind fun st0 =>
      (optimizeAcc (lmEnv sopts1 lin1 empty1) (opts1 2) 10 (-1) 0 (lmReset sopts1 st0.s) (ofInt 0)).bind fun st =>
      (optimizeAcc (lmEnv sopts1 lin1 empty1) (opts1 2) 10 (-1) 0 (lmFresh sopts1 empty1 nofun nofun) (ofInt 0)).map
        fun st' => (st, st')).holds
      (fun p => decide (p.1.out.finalHessian.map DMat.n = some 1) &&
        decide (p.2.out.finalHessian.map DMat.n = some 0)) = true := by decide +kernel
  rw [h0] at h
  obtain ⟨⟨st, st'⟩, h1, h2⟩ := Res.exists_of_holds h
  rw [Res.bind_ok, Res.bind_eq_ok] at h1
  obtain ⟨a, ha, h1⟩ := h1
  unfold Res.map at h1
  rw [Res.bind_eq_ok] at h1
  obtain ⟨b, hb, h1⟩ := h1
  injection h1 with h1
  obtain ⟨rfl, rfl⟩ := Prod.mk.inj h1
  simp only [Bool.and_eq_true, decide_eq_true_eq] at h2
  exact ⟨a, b, ha, hb, h2.1, h2.2⟩

end Verif
