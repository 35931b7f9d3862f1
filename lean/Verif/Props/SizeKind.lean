import Verif.Lemmas.Sim
import Verif.Lemmas.Solvers
import Verif.Examples.Solver1
/-!
# C77: sizes known at compile time and at run time
-/

set_option linter.unusedSectionVars false

namespace Verif
open FloatOps

section
variable {F R W X : Type} [FloatOps F] {n : Nat} {P P' : Problem F R W X} {so : SolverOpts F} {L : LinAlg F} {o : Options F W (DVec F)}

/-- `P` and `P'` are the same problem with parameters of size `n`, known at compile time for `P` and at run time for `P'`, and memory for
the system of `P'` is available. -/
structure SameButSize (P P' : Problem F R W X) (n : Nat) : Prop where
  static : P.dims = some n
  dynamic : P'.dims = none
  pos : 0 < n
  dyn : ∀ x, P.dynDims x = n
  dynDims : P'.dynDims = P.dynDims
  acc : P'.acc = P.acc
  plusEq : P'.plusEq = P.plusEq
  clock : P'.clock = P.clock
  ratio1 : P'.ratio1 = P.ratio1
  alloc : ∀ w, ∃ a, P'.alloc w n = (some a, w)

theorem gnResize_size (h : SameButSize P P' n) (w : W) (s s' : GNState F R) (hs : s.n = n) :
    ∃ t', gnResize P w s n = (.done s, w) ∧ gnResize P' w s' n = (.done t', w) ∧ s.n = n ∧ t'.n = n ∧ (s'.n = n → t' = s') := by
  obtain ⟨a, ha⟩ := h.alloc w
  have h1 : gnResize P w s n = (.done s, w) := by unfold gnResize; rw [h.static]; simp
  have h0 : ¬ ((n : Int) < 0) := by omega
  by_cases e : (s'.n : Int) = n
  · refine ⟨s', h1, ?_, hs, by exact_mod_cast e, fun _ => rfl⟩
    unfold gnResize; rw [h.dynamic]; simp only [h0, e, if_false, if_true]
  · refine ⟨⟨n, a.1, a.2, s'.cost⟩, h1, ?_, hs, rfl, fun h2 => absurd (by exact_mod_cast h2) e⟩
    unfold gnResize; rw [h.dynamic]; simp only [h0, e, if_false, Int.toNat_natCast, ha]

theorem gnAccumulate_size (h : SameButSize P P' n) (w : W) (s s' : GNState F R) (x : X) (hs : s.n = n) (hs' : s'.n = n) :
    gnAccumulate so P' w s' x = gnAccumulate so P w s x := by
  obtain ⟨k, g, H, c⟩ := s
  obtain ⟨k', g', H', c'⟩ := s'
  simp only at hs hs'
  subst hs; subst hs'
  unfold gnAccumulate
  rw [h.acc]

theorem gnAccumulate_n (w : W) (s : GNState F R) (x : X) : (gnAccumulate so P w s x).1.n = s.n := rfl

theorem buildSystem_size (h : SameButSize P P' n) (w : W) (s s' : GNState F R) (x : X) (hs : s.n = n) (hs' : s'.n = n) :
    buildSystem so P' w s' x = buildSystem so P w s x := by
  unfold buildSystem
  rw [gnAccumulate_size h w s s' x hs hs']

theorem gnSolve_size (h : SameButSize P P' n) (hl : so.useLdlt = true ∨ n ≠ 1) (s : GNState F R) :
    gnSolve so L (P.dims == some 1) s = gnSolve so L (P'.dims == some 1) s := by
  have h2 : (P'.dims == some 1) = false := by rw [h.dynamic]; rfl
  rw [h2]
  rcases hl with hl | hl
  · unfold gnSolve; simp only [hl, if_true]
  · have h1 : (P.dims == some 1) = false := by rw [h.static]; simpa using hl
    rw [h1]

theorem gn_size_sim (h : SameButSize P P' n) (hl : so.useLdlt = true ∨ n ≠ 1) :
    Sim (gnEnv so L P) (gnEnv so L P') (fun s _ => s.n = n) (fun s s' => s.n = n ∧ s'.n = n) (fun s s' => s.n = n ∧ s = s')
      (fun s s' => s.n = n ∧ s = s') where
  dimsDynamic x := by
    have : n ≠ 0 := h.pos.ne'
    simp [gnEnv, envOf, h.static, h.dynamic, h.dyn, this]
  dynDims := h.dynDims.symm
  plusEq := h.plusEq.symm
  negV := rfl
  normSq := rfl
  clock := h.clock.symm
  ratio1 := h.ratio1.symm
  firstOrder := rfl
  resize w s s' x hs := by
    have e : (gnEnv so L P).dynDims x = n := h.dyn x
    rw [e]
    obtain ⟨t', e1, e2, h1, h2, -⟩ := gnResize_size h w s s' hs
    exact Or.inl ⟨_, _, _, e1, e2, h1, h2⟩
  build w s s' x hs := by
    rcases hb : buildSystem so P w s x with ⟨b, t, w'⟩
    refine ⟨b, t, t, w', hb, (buildSystem_size h w s s' x hs.1 hs.2).trans hb, rfl, ?_⟩
    have := (buildSystem_n hb).trans hs.1
    cases b <;> exact ⟨this, rfl⟩
  solve := by rintro s _ ⟨-, rfl⟩; exact gnSolve_size h hl s
  gradSq := by rintro s _ ⟨-, rfl⟩; rfl
  gradient := by rintro s _ ⟨-, rfl⟩; rfl
  good := fun s s' q hs => hs
  bad := fun s s' hs => hs
  failedB := by rintro s _ ⟨h1, rfl⟩; exact ⟨h1, h1⟩
  failedF := by rintro s _ ⟨h1, rfl⟩; exact ⟨h1, h1⟩
  rebuild := by rintro s _ b ⟨h1, rfl⟩; exact h1

theorem gd_size_sim (h : SameButSize P P' n) :
    Sim (gdEnv so P) (gdEnv so P') (fun s _ => s.n = n) (fun s s' => s.n = n ∧ s'.n = n) (fun s s' => s.n = n ∧ s = s')
      (fun s s' => s.n = n ∧ s = s') where
  dimsDynamic x := by
    have : n ≠ 0 := h.pos.ne'
    simp [gdEnv, envOf, h.static, h.dynamic, h.dyn, this]
  dynDims := h.dynDims.symm
  plusEq := h.plusEq.symm
  negV := rfl
  normSq := rfl
  clock := h.clock.symm
  ratio1 := h.ratio1.symm
  firstOrder := rfl
  resize w s s' x hs := by
    have e : (gdEnv so P).dynDims x = n := h.dyn x
    rw [e]
    obtain ⟨t', e1, e2, h1, h2, -⟩ := gnResize_size h w s s' hs
    exact Or.inl ⟨_, _, _, e1, e2, h1, h2⟩
  build w s s' x hs := by
    have hk : gdBuild so P' w s' x = gdBuild so P w s x := by
      unfold gdBuild
      rw [gnAccumulate_size h w s s' x hs.1 hs.2]
    have hn : (gdBuild so P w s x).2.1.n = n := hs.1
    rcases hb : gdBuild so P w s x with ⟨b, t, w'⟩
    rw [hb] at hn
    refine ⟨b, t, t, w', hb, hk.trans hb, rfl, ?_⟩
    cases b <;> exact ⟨hn, rfl⟩
  solve := by rintro s _ ⟨-, rfl⟩; rfl
  gradSq := by rintro s _ ⟨-, rfl⟩; rfl
  gradient := by rintro s _ ⟨-, rfl⟩; rfl
  good := fun s s' q hs => hs
  bad := fun s s' hs => hs
  failedB := by rintro s _ ⟨h1, rfl⟩; exact ⟨h1, h1⟩
  failedF := by rintro s _ ⟨h1, rfl⟩; exact ⟨h1, h1⟩
  rebuild := by rintro s _ b ⟨h1, rfl⟩; exact h1

/-- states of two `SolverLM`: equal, or about to be rebuilt from the same damping -/
def LmSame (s s' : LMState F R) : Prop :=
  s.lambda = s'.lambda ∧ s.prev = s'.prev ∧ s.badF = s'.badF ∧ s.rebuild = s'.rebuild ∧ (s.rebuild = true ∨ s.gn = s'.gn)

theorem LmSame.refl (s : LMState F R) : LmSame s s := ⟨rfl, rfl, rfl, rfl, Or.inr rfl⟩

theorem lmDamp_n (s : LMState F R) : (lmDamp s).gn.n = s.gn.n := by unfold lmDamp; split <;> rfl

theorem lm_hook_size (v : F) (f : F → LMState F R) (hf : ∀ l, (f l).gn.n = n) :
    Res.Rel (fun s s' => s.gn.n = n ∧ s = s') ((stdClamp v so.dampLo so.dampHi).map f) ((stdClamp v so.dampLo so.dampHi).map f) := by
  unfold stdClamp
  split
  · trivial
  · exact ⟨hf _, rfl⟩

theorem lm_failed_size (s : LMState F R) (hs : s.gn.n = n) :
    Res.Rel (fun s s' => LmSame s s' ∧ s.gn.n = n ∧ s'.gn.n = n) (lmBad so s) (lmBad so s) := by
  unfold lmBad stdClamp
  split
  · trivial
  · exact ⟨LmSame.refl _, hs, hs⟩

theorem lm_size_sim (h : SameButSize P P' n) (hl : so.useLdlt = true ∨ n ≠ 1) :
    Sim (lmEnv so L P) (lmEnv so L P') (fun s s' => LmSame s s' ∧ s.gn.n = n) (fun s s' => LmSame s s' ∧ s.gn.n = n ∧ s'.gn.n = n)
      (fun s s' => s.gn.n = n ∧ s = s') (fun s s' => s.gn.n = n ∧ s = s') where
  dimsDynamic x := by
    have : n ≠ 0 := h.pos.ne'
    simp [lmEnv, envOf, h.static, h.dynamic, h.dyn, this]
  dynDims := h.dynDims.symm
  plusEq := h.plusEq.symm
  negV := rfl
  normSq := rfl
  clock := h.clock.symm
  ratio1 := h.ratio1.symm
  firstOrder := rfl
  resize w s s' x hs := by
    obtain ⟨⟨a1, a2, a3, a4, a5⟩, hn⟩ := hs
    have e : (lmEnv so L P).dynDims x = n := h.dyn x
    rw [e]
    simp only [lmEnv, envOf, lmSolver]
    obtain ⟨t', e1, e2, h1, h2, h3⟩ := gnResize_size h w s.gn s'.gn hn
    refine Or.inl ⟨{ s with gn := s.gn }, { s' with gn := t' }, w, by rw [e1], by rw [e2], ⟨a1, a2, a3, a4, ?_⟩, h1, h2⟩
    rcases a5 with a5 | a5
    · exact Or.inl a5
    · exact Or.inr (by rw [h3 (by rw [← a5]; exact hn)]; exact a5)
  build w s s' x hs := by
    obtain ⟨gs, l, p, b, r⟩ := s
    obtain ⟨gs', l', p', b', r'⟩ := s'
    obtain ⟨⟨a1, a2, a3, a4, a5⟩, hn, hn'⟩ := hs
    simp only at a1 a2 a3 a4 a5 hn hn'
    subst a1; subst a2; subst a3; subst a4
    have key : lmBuild so P' w ⟨gs', l, p, b, r⟩ x = lmBuild so P w ⟨gs, l, p, b, r⟩ x := by
      unfold lmBuild
      cases r with
      | true => simp only [if_true]; rw [buildSystem_size h w gs gs' x hn hn']
      | false =>
        obtain rfl := a5.resolve_left (by simp)
        unfold lmEvaluate
        simp only [h.acc, Bool.false_eq_true, if_false]
    have hn2 : (lmBuild so P w ⟨gs, l, p, b, r⟩ x).2.1.gn.n = n := by
      unfold lmBuild
      cases r with
      | true =>
        simp only [if_true]
        rcases hb : buildSystem so P w gs x with ⟨bb, g1, w1⟩
        have := (buildSystem_n hb).trans hn
        simp only
        split
        · rw [lmDamp_n]; exact this
        · exact this
      | false =>
        unfold lmEvaluate
        rcases P.acc.eval w x with ⟨c, w1⟩
        simp only [Bool.false_eq_true, if_false]
        split
        · rw [lmDamp_n]; exact hn
        · exact hn
    rcases hb : lmBuild so P w ⟨gs, l, p, b, r⟩ x with ⟨bb, t, w'⟩
    rw [hb] at hn2
    refine ⟨bb, t, t, w', hb, key.trans hb, rfl, ?_⟩
    cases bb <;> exact ⟨hn2, rfl⟩
  solve := by rintro s _ ⟨-, rfl⟩; exact gnSolve_size h hl s.gn
  gradSq := by rintro s _ ⟨-, rfl⟩; rfl
  gradient := by rintro s _ ⟨-, rfl⟩; rfl
  good := by rintro s _ q ⟨h1, rfl⟩; exact lm_hook_size _ _ fun _ => h1
  bad := by rintro s _ ⟨h1, rfl⟩; exact lm_hook_size _ _ fun _ => h1
  failedB := by rintro s _ ⟨h1, rfl⟩; exact lm_failed_size s h1
  failedF := by rintro s _ ⟨h1, rfl⟩; exact lm_failed_size s h1
  rebuild := by rintro s _ b ⟨h1, rfl⟩; exact ⟨LmSame.refl _, h1⟩

/-- **C77.** For Gauss-Newton, Levenberg-Marquardt and gradient descent: parameters of a size known at compile time and of the same size
known at run time give the same run, from newly constructed solvers and for every arithmetic. (Gauss-Newton and Levenberg-Marquardt for one parameter
need LDLT.) -/
theorem C77_static_dynamic_partial (h : SameButSize P P' n) (fuel : Nat) (mi : Int) (w : W) (x : X)
    (g : Vec F (P.dims.getD 0)) (H : Mat F (P.dims.getD 0)) (g' : Vec F (P'.dims.getD 0)) (H' : Mat F (P'.dims.getD 0)) :
    (so.useLdlt = true ∨ n ≠ 1 →
      Res.Rel FinalRel (optimizeAcc (gnEnv so L P) o fuel mi w (gnFresh P g H) x)
        (optimizeAcc (gnEnv so L P') o fuel mi w (gnFresh P' g' H') x) ∧
      Res.Rel FinalRel (optimizeAcc (lmEnv so L P) o fuel mi w (lmFresh so P g H) x)
        (optimizeAcc (lmEnv so L P') o fuel mi w (lmFresh so P' g' H') x)) ∧
    Res.Rel FinalRel (optimizeAcc (gdEnv so P) o fuel mi w (gnFresh P g H) x)
      (optimizeAcc (gdEnv so P') o fuel mi w (gnFresh P' g' H') x) := by
  have hn : (gnFresh P g H).n = n := by simp [gnFresh, h.static]
  refine ⟨fun hl => ⟨run_sim (gn_size_sim h hl) fuel mi w _ _ x hn, ?_⟩, run_sim (gd_size_sim h) fuel mi w _ _ x hn⟩
  exact run_sim (lm_size_sim h hl) fuel mi w _ _ x ⟨⟨rfl, rfl, rfl, rfl, Or.inl rfl⟩, hn⟩

end

/-- hypotheses of `C77_static_dynamic_partial` -/
example : SameButSize (prob1 (fun x => (mul x x, x, ofInt 1)) (fun _ => 1) (some 1))
    (prob1 (fun x => (mul x x, x, ofInt 1)) (fun _ => 1) none) 1 ∧ (sopts1.useLdlt = true ∨ (1 : Nat) ≠ 1) where
  left :=
    { static := rfl
      dynamic := rfl
      pos := Nat.one_pos
      dyn := fun _ => rfl
      dynDims := rfl
      acc := rfl
      plusEq := rfl
      clock := rfl
      ratio1 := rfl
      alloc := fun _ => ⟨_, rfl⟩ }
  right := Or.inl rfl

/-- reason for which the run stops and number of accepted or rejected steps -/
def Res.reason {F R W S X V M : Type} : Res (LoopSt F R W S X V M) → Option (StopReason × Nat)
  | .ok st => some (st.out.stop, st.out.errs.length)
  | _ => none

/-- **One parameter without LDLT**: the code for `Dims == 1` (gn.h:158-160) guards against a zero Hessian, the code for sizes known at run time does not.
Where the cost is flat, the first run returns a zero step and goes on to the last iteration, the second one stops with an error. -/
theorem C77_one_without_ldlt :
    (optimizeAcc (gnEnv { sopts1 with useLdlt := false } lin1 (prob1 (fun _ => (ofInt 1, ofInt 0, ofInt 0)) (fun _ => 1) (some 1)))
      (opts1 2) 1000 (-1) 0 (gnFresh (prob1 (fun _ => (ofInt 1, ofInt 0, ofInt 0)) (fun _ => 1) (some 1)) (fun _ => ofInt 0) (fun _ _ => ofInt 0))
      (ofInt 1)).reason = some (.kMaxIters, 3) ∧
    (optimizeAcc (gnEnv { sopts1 with useLdlt := false } lin1 (prob1 (fun _ => (ofInt 1, ofInt 0, ofInt 0)) (fun _ => 1) none))
      (opts1 2) 1000 (-1) 0 gn0 (ofInt 1)).reason = some (.kSystemHasNaNOrInf, 0) := by
  decide +kernel

end Verif
