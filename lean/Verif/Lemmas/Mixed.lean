import Verif.Model.Mixed
import Verif.Lemmas.Hom
import Verif.Num.Round
/-!
# Solvers whose `Scalar` is not `double`: lemmas
-/

namespace Verif
open FloatOps

/-! ## `double`s in an optimizer on `float`s -/

namespace DblF

/-- the largest `float` is a `double` -/
theorem scalarMax_val : ∃ h, (scalarMax : DblF).v = .fin Fmt.binary32.max h := by
  have hg : Fmt.binary64.Grid Fmt.binary32.max := ⟨2 ^ 24 - 1, 104, by norm_num, by norm_num, by norm_num [Fmt.binary32, Fmt.ieee]⟩
  have hm : |Fmt.binary32.max| ≤ Fmt.binary64.max := by decide +kernel
  refine ⟨⟨hg, hm⟩, ?_⟩
  show (Fl.mk Fmt.binary32.max : Fl Fmt.binary64) = _
  unfold Fl.mk Fl.ofGrid
  have e := Fmt.binary64.rnd_id _ hg
  simp only [e]
  rw [dif_pos hm]

instance : FloatLaws DblF where
  lt_irrefl a := FloatLaws.lt_irrefl a.v
  lt_trans a b c := FloatLaws.lt_trans a.v b.v c.v
  lt_negtrans a b c := FloatLaws.lt_negtrans a.v b.v c.v
  sub_neg a b := FloatLaws.sub_neg a.v b.v
  eq_spec a b := FloatLaws.eq_spec a.v b.v
  max_finite := FloatLaws.max_finite (F := Fl Fmt.binary64)
  le_max a := FloatLaws.le_max a.v
  scalarMax_le a h := by
    obtain ⟨hh, e⟩ := scalarMax_val
    have h : Fl.lt a.v (scalarMax : DblF).v = true := h
    rw [e] at h
    show Fl.lt a.v _ = true
    cases hv : a.v with
    | nan => rw [hv] at h; cases h
    | pinf => rw [hv] at h; cases h
    | ninf => rfl
    | fin q hq =>
      rw [hv] at h
      have h : q < Fmt.binary32.max := by simpa [Fl.lt] using h
      show decide (q < Fmt.binary64.max) = true
      have : Fmt.binary32.max ≤ Fmt.binary64.max := (le_abs_self _).trans hh.2
      simpa using h.trans_le this

end DblF

/-! ## One type for everything -/

section
variable {F R W X : Type} [FloatOps F]

/-- no conversion -/
def Conv.refl (F : Type) : Conv F F := ⟨id, id⟩

/-- the solver state with one type -/
def MxGN.one (s : MxGN F F R) : GNState F R := ⟨s.n, s.g, s.H, s.cost⟩

/-- the solver state with one type -/
def MxLM.one (s : MxLM F F R) : LMState F R := ⟨s.gn.one, s.lambda, s.prev, s.badF, s.rebuild⟩

/-- the problem with one type -/
def MxProblem.one (P : MxProblem F F R W X) : Problem F R W X :=
  ⟨⟨P.acc.full, P.acc.eval⟩, P.dims, P.dynDims, P.plusEq, P.clock, P.alloc, P.ratio1⟩

variable {so : SolverOpts F} {L : LinAlg F} {P : MxProblem F F R W X}

theorem mxResize_one (w : W) (s : MxGN F F R) (d : Int) :
    gnResize P.one w s.one d = ((mxResize P w s d).1.map MxGN.one, (mxResize P w s d).2) := by
  unfold gnResize mxResize
  show (match P.dims with | some d' => _ | none => _) = _
  cases P.dims with
  | some d' => simp only; split <;> rfl
  | none =>
    simp only
    split
    · rfl
    · split
      · next h => rw [if_pos (show (s.n : Int) = d from h)]; rfl
      · next h =>
        rw [if_neg (show ¬ (s.n : Int) = d from h)]
        show (match P.alloc w d.toNat with | (some (g, H), w') => _ | (none, w') => _) = _
        rcases P.alloc w d.toNat with ⟨_ | ⟨g, H⟩, w'⟩ <;> rfl

theorem mxNormalize_one (c : Cost F R) : mxNormalize so c = normalizeCost so c := rfl

theorem mxBuildSystem_one (w : W) (s : MxGN F F R) (x : X) :
    buildSystem so P.one w s.one x = ((mxBuildSystem so P w s x).1, (mxBuildSystem so P w s x).2.1.one, (mxBuildSystem so P w s x).2.2) := by
  obtain ⟨⟨full, eval⟩, a1, a2, a3, a4, a5, a6⟩ := P
  obtain ⟨n, g0, H0, c0⟩ := s
  rcases hf : full w x n (fun _ => ofInt 0) (fun _ _ => ofInt 0) with ⟨⟨c, g, H⟩, w1⟩
  have e0 : buildSystem so (MxProblem.one ⟨⟨full, eval⟩, a1, a2, a3, a4, a5, a6⟩) w (MxGN.one ⟨n, g0, H0, c0⟩) x =
    if (normalizeCost so c).isValid then
      if lt (ofInt 0) so.checkMinHDiag && lowDiag so.checkMinHDiag H then (false, (⟨n, clampVec so.gradClip g, H, normalizeCost so c⟩ : GNState F R), w1)
      else (true, if !so.hIsFull && !so.useLdlt then ⟨n, clampVec so.gradClip g, symUpper H, normalizeCost so c⟩ else ⟨n, clampVec so.gradClip g, H, normalizeCost so c⟩, w1)
    else (false, ⟨n, g, H, normalizeCost so c⟩, w1) := by
    unfold buildSystem gnAccumulate
    simp only [MxProblem.one, MxGN.one, hf]
  have e1 : mxBuildSystem so ⟨⟨full, eval⟩, a1, a2, a3, a4, a5, a6⟩ w ⟨n, g0, H0, c0⟩ x =
    if (normalizeCost so c).isValid then
      if lt (ofInt 0) so.checkMinHDiag && lowDiag so.checkMinHDiag H then (false, (⟨n, clampVec so.gradClip g, H, normalizeCost so c⟩ : MxGN F F R), w1)
      else (true, if !so.hIsFull && !so.useLdlt then ⟨n, clampVec so.gradClip g, symUpper H, normalizeCost so c⟩ else ⟨n, clampVec so.gradClip g, H, normalizeCost so c⟩, w1)
    else (false, ⟨n, g, H, normalizeCost so c⟩, w1) := by
    unfold mxBuildSystem mxAccumulate
    simp only [mxNormalize_one, hf]
  rw [e0, e1]
  split
  · split
    · rfl
    · split <;> rfl
  · rfl

theorem mxDamp_one (s : MxLM F F R) : lmDamp s.one = (mxDamp (Conv.refl F) s).one := by
  unfold lmDamp mxDamp
  show (if lt (ofInt 0) s.lambda = true then _ else _) = MxLM.one (if lt (ofInt 0) s.lambda = true then _ else _)
  split <;> rfl

theorem mxGn_hom : Hom (mxGnEnv (Conv.refl F) so L P) (gnEnv so L P.one) MxGN.one id where
  dimsDynamic := rfl
  dynDims := rfl
  plusEq := rfl
  negV := rfl
  normSq := rfl
  clock := rfl
  ratio1 := rfl
  firstOrder := rfl
  resize := mxResize_one
  build := mxBuildSystem_one
  solve _ := rfl
  cost _ := rfl
  gradSq _ := rfl
  gradient _ := rfl
  good _ _ := rfl
  bad _ := rfl
  failed _ := rfl
  rebuild _ _ := rfl
  hessian _ := rfl

theorem mxGd_hom : Hom (mxGdEnv (Conv.refl F) so P) (gdEnv so P.one) MxGN.one id where
  dimsDynamic := rfl
  dynDims := rfl
  plusEq := rfl
  negV := rfl
  normSq := rfl
  clock := rfl
  ratio1 := rfl
  firstOrder := rfl
  resize := mxResize_one
  build w s x := by
    show gdBuild so P.one w s.one x = ((mxGdBuild so P w s x).1, (mxGdBuild so P w s x).2.1.one, (mxGdBuild so P w s x).2.2)
    obtain ⟨⟨full, eval⟩, a1, a2, a3, a4, a5, a6⟩ := P
    obtain ⟨n, g0, H0, c0⟩ := s
    unfold gdBuild mxGdBuild gnAccumulate mxAccumulate
    simp only [MxProblem.one, MxGN.one]
    rcases full w x n (fun _ => ofInt 0) (fun _ _ => ofInt 0) with ⟨⟨c, g, H⟩, w1⟩
    rfl
  solve _ := rfl
  cost _ := rfl
  gradSq _ := rfl
  gradient _ := rfl
  good _ _ := rfl
  bad _ := rfl
  failed _ := rfl
  rebuild _ _ := rfl
  hessian _ := rfl

theorem mxLm_hom : Hom (mxLmEnv (Conv.refl F) so L P) (lmEnv so L P.one) MxLM.one id where
  dimsDynamic := rfl
  dynDims := rfl
  plusEq := rfl
  negV := rfl
  normSq := rfl
  clock := rfl
  ratio1 := rfl
  firstOrder := rfl
  resize w s d := by
    simp only [lmEnv, envOf, lmSolver, mxLmEnv, mxEnv, mxLmSolver]
    have e : s.one.gn = s.gn.one := rfl
    rw [e, mxResize_one]
    rcases mxResize P w s.gn d with ⟨_ | _ | _, w'⟩ <;> rfl
  build w s x := by
    show lmBuild so P.one w s.one x = ((mxLmBuild (Conv.refl F) so P w s x).1, (mxLmBuild (Conv.refl F) so P w s x).2.1.one, (mxLmBuild (Conv.refl F) so P w s x).2.2)
    unfold lmBuild mxLmBuild
    have e : s.one.rebuild = s.rebuild := rfl
    rw [e]
    split
    · have e : s.one.gn = s.gn.one := rfl
      rw [e, mxBuildSystem_one]
      rcases mxBuildSystem so P w s.gn x with ⟨b, g1, w1⟩
      cases b
      · rfl
      · simp only [if_true]
        exact congrArg (fun t => (true, t, w1)) (mxDamp_one { s with gn := g1 })
    · obtain ⟨⟨full, eval⟩, a1, a2, a3, a4, a5, a6⟩ := P
      rcases hf : eval w x with ⟨c, w1⟩
      unfold lmEvaluate
      simp only [MxProblem.one, hf]
      show (if (normalizeCost so c).isValid = true then _ else _) = ((if (normalizeCost so c).isValid = true then _ else _ : _ × _ × _).1,
        MxLM.one (if (normalizeCost so c).isValid = true then _ else _ : _ × _ × _).2.1, (if (normalizeCost so c).isValid = true then _ else _ : _ × _ × _).2.2)
      split
      · exact congrArg (fun t => (true, t, w1)) (mxDamp_one { s with gn := { s.gn with cost := normalizeCost so c } })
      · rfl
  solve _ := rfl
  cost _ := rfl
  gradSq _ := rfl
  gradient _ := rfl
  good s q := by
    show lmGood so s.one q = (mxGood (Conv.refl F) so s q).map _
    unfold lmGood mxGood
    show Res.map _ (stdClamp (mul s.lambda (goodScale so q s.badF)) so.dampLo so.dampHi) = Res.map _ (Res.map _ (stdClamp (mul s.lambda (goodScale so q s.badF)) so.dampLo so.dampHi))
    cases stdClamp (mul s.lambda (goodScale so q s.badF)) so.dampLo so.dampHi <;> rfl
  bad s := by
    show lmBad so s.one = (mxBad so s).map _
    unfold lmBad mxBad
    show Res.map _ (stdClamp (mul s.lambda s.badF) so.dampLo so.dampHi) = _
    cases stdClamp (mul s.lambda s.badF) so.dampLo so.dampHi <;> rfl
  failed s := by
    show lmBad so s.one = (mxBad so s).map _
    unfold lmBad mxBad
    show Res.map _ (stdClamp (mul s.lambda s.badF) so.dampLo so.dampHi) = _
    cases stdClamp (mul s.lambda s.badF) so.dampLo so.dampHi <;> rfl
  rebuild _ _ := rfl
  hessian s := by
    show lmHessian s.one = mxHessian (Conv.refl F) s
    unfold lmHessian mxHessian
    rfl

end
end Verif
