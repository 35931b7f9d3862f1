import Verif.Lemmas.Twin
import Verif.Props.Sqrt
import Mathlib.LinearAlgebra.Matrix.NonsingularInverse
/-!
# Order of the parameters (C85) and units of the residuals (C86)

The user of the second problem numbers the parameters in another order, or measures the residuals in another unit. In exact arithmetic the runs
are the same up to the order, and up to the factor if the thresholds of the options are adapted.
-/

set_option linter.unusedSectionVars false

namespace Verif
open FloatOps Finset

section
variable {R W X X' : Type} {m n : Nat}

/-! ## Linear solvers -/

/-- LDLT is exact on positive definite matrices and refuses the others, the inverse is that of the matrix (and 0 for a singular one) -/
structure TrueLinAlg (L : LinAlg ℝ) : Prop extends PDLinAlg L where
  inv : ∀ n (A : Mat ℝ n) i j, L.inv n A i j = (Matrix.of A)⁻¹ i j

theorem MatTwin.symm {σ : Equiv.Perm (Fin n)} {k : ℝ} (hk : 0 < k) {A A' : Mat ℝ n} (h : MatTwin σ k A A') : MatTwin σ.symm k⁻¹ A' A := fun i j => by
  have := h (σ.symm i) (σ.symm j)
  simp only [Equiv.apply_symm_apply] at this
  rw [this, inv_mul_cancel_left₀ hk.ne']

theorem MatTwin.mv {σ : Equiv.Perm (Fin n)} {k a : ℝ} {A A' : Mat ℝ n} {v v' : Vec ℝ n} (h : MatTwin σ k A A') (hv : VecTwin σ a v v') :
    VecTwin σ (k * a) (Verif.mv A v) (Verif.mv A' v') := by
  intro i
  simp only [Verif.mv, mul_sum]
  rw [← Equiv.sum_comp σ]
  exact sum_congr rfl fun j _ => by rw [h i j, hv j]; ring

theorem VecTwin.dotR {σ : Equiv.Perm (Fin n)} {a b : ℝ} {u u' v v' : Vec ℝ n} (hu : VecTwin σ a u u') (hv : VecTwin σ b v v') :
    Verif.dotR u' v' = a * b * Verif.dotR u v := by
  simp only [Verif.dotR, mul_sum]
  rw [← Equiv.sum_comp σ]
  exact sum_congr rfl fun j _ => by rw [hu j, hv j]; ring

theorem MatTwin.pd {σ : Equiv.Perm (Fin n)} {k : ℝ} (hk : 0 < k) {A A' : Mat ℝ n} (h : MatTwin σ k A A') (hp : PD A) : PD A' := by
  refine ⟨fun i j => ?_, fun v hv => ?_⟩
  · obtain ⟨a, rfl⟩ := σ.surjective i
    obtain ⟨b, rfl⟩ := σ.surjective j
    rw [h a b, h b a, hp.1 a b]
  · have hv' : VecTwin σ 1 (fun i => v (σ i)) v := fun i => (one_mul _).symm
    rw [hv'.dotR (h.mv hv')]
    have : (fun i => v (σ i)) ≠ 0 := fun h0 => hv (funext fun i => by
      have := congrFun h0 (σ.symm i)
      simpa using this)
    have := hp.2 _ this
    positivity

theorem linTwin_of_true {L : LinAlg ℝ} (hL : TrueLinAlg L) (σ : Equiv.Perm (Fin n)) {k : ℝ} (hk : 0 < k) : LinTwin L σ k where
  ldlt A A' b b' _ _ hA hb := by
    by_cases hp : PD A
    · have hp' := hA.pd hk hp
      obtain ⟨v, e, hv⟩ := hL.exact n A b hp
      obtain ⟨v', e', hv'⟩ := hL.exact n A' b' hp'
      rw [e, e']
      refine .some ?_
      have ht : VecTwin σ 1 v (fun i => v (σ.symm i)) := fun i => by simp
      have h1 := hA.mv ht
      have h2 : (fun i => v (σ.symm i)) = v' := by
        refine pd_inj hp' ?_
        rw [hv']
        funext i
        obtain ⟨a, rfl⟩ := σ.surjective i
        rw [h1 a, hb a, hv, mul_one]
      rw [← h2]; exact ht
    · have hp' : ¬ PD A' := fun h => hp ((hA.symm hk).pd (inv_pos.mpr hk) h)
      rw [hL.refuse n A b hp, hL.refuse n A' b' hp']
      exact .none
  inv A A' hA := by
    have e : Matrix.of A' = k • (Matrix.of A).submatrix σ.symm σ.symm := by
      funext i j
      obtain ⟨a, rfl⟩ := σ.surjective i
      obtain ⟨b, rfl⟩ := σ.surjective j
      simp [hA a b]
    have e2 : (Matrix.of A')⁻¹ = k⁻¹ • ((Matrix.of A)⁻¹).submatrix σ.symm σ.symm := by
      rw [← Matrix.inv_submatrix_equiv, e]
      by_cases hu : IsUnit (((Matrix.of A).submatrix σ.symm σ.symm).det)
      · exact Matrix.inv_smul' _ (Units.mk0 k hk.ne') hu
      · rw [Matrix.nonsing_inv_apply_not_isUnit _ hu, smul_zero]
        refine Matrix.nonsing_inv_apply_not_isUnit _ fun h => hu ?_
        rw [Matrix.det_smul, isUnit_iff_ne_zero] at h
        rw [isUnit_iff_ne_zero]
        exact right_ne_zero_of_mul h
    intro i j
    rw [hL.inv, hL.inv, e2]
    simp

/-- an instance of the assumption -/
noncomputable def trueLinAlg : LinAlg ℝ where
  ldlt := someLinAlg.ldlt
  inv := fun _ A => fun i j => (Matrix.of A)⁻¹ i j

theorem trueLinAlg_true : TrueLinAlg trueLinAlg where
  exact := someLinAlg_pd.exact
  refuse := someLinAlg_pd.refuse
  inv _ _ _ _ := rfl

/-! ## Options -/

/-- options for costs `κ` times and gradients `k` times as large, with the entries of steps and gradients in the order `σ` -/
structure OptTwin (σ : Equiv.Perm (Fin n)) (k κ : ℝ) (o o' : Options ℝ W (DVec ℝ)) : Prop where
  checkFinalCost : o'.checkFinalCost = o.checkFinalCost
  useStepQuality : o'.useStepQuality = o.useStepQuality
  maxIters : o'.maxIters = o.maxIters
  maxTotalFailures : o'.maxTotalFailures = o.maxTotalFailures
  maxConsecFailures : o'.maxConsecFailures = o.maxConsecFailures
  maxDurationMs : o'.maxDurationMs = o.maxDurationMs
  minError : o'.minError = κ * o.minError
  minRerrDec : o'.minRerrDec = o.minRerrDec
  minStepNorm2 : o'.minStepNorm2 = o.minStepNorm2
  minGradNorm2 : o'.minGradNorm2 = k ^ 2 * o.minGradNorm2
  cb1 : Option.Rel (fun cb cb' => ∀ w e dn gn, cb w e dn gn = cb' w (κ * e) dn (k ^ 2 * gn)) o.stopCallback o'.stopCallback
  cb2 : Option.Rel (fun cb cb' => ∀ w e d d' g g', StepTwin σ 1 d d' → StepTwin σ k g g' → cb w e d g = cb' w (κ * e) d' g')
    o.stopCallback2 o'.stopCallback2

/-- the run uses the relative decrease of the cost -/
def UsesRel (o : Options ℝ W (DVec ℝ)) : Prop := o.useStepQuality = true ∨ 0 < o.minRerrDec

/-- Costs with the factor `κ`. If the factor is not 1, both are less than the largest number, and larger than the threshold of the relative decrease
if that is used (`big`). -/
def CostTwin (κ : ℝ) (big : Prop) (c c' : Cost ℝ R) : Prop :=
  c' = { c with cost := κ * c.cost } ∧ (κ = 1 ∨ (c.cost < maxVal ∧ κ * c.cost < maxVal ∧ (big → eps < c.cost ∧ eps < κ * c.cost)))

/-- best costs so far: with the factor, or both the initial value -/
def BestTwin (κ : ℝ) (big : Prop) (c c' : Cost ℝ R) : Prop := CostTwin κ big c c' ∨ (c' = c ∧ c.cost = maxVal)

/-- relative decreases agree, if used (or if the factor is 1) -/
def RelTwin (κ : ℝ) (big : Prop) (a b : ℝ) : Prop := κ = 1 ∨ big → a = b

theorem CostTwin.valid {κ : ℝ} {big : Prop} {c c' : Cost ℝ R} (h : CostTwin κ big c c') : c.isValid = c'.isValid := by
  obtain ⟨rfl, h1 | ⟨h1, h2, -⟩⟩ := h
  · simp [Cost.isValid, h1]
  · simp only [Cost.isValid]
    have a : ne c.cost maxVal = true := by simp [FloatOps.ne, h1.ne]
    have b : ne (κ * c.cost) maxVal = true := by simp [FloatOps.ne, h2.ne]
    rw [a, b]

theorem relDerr_twin {κ : ℝ} (hκ : 0 < κ) {big : Prop} {c c' f f' : Cost ℝ R} (hc : CostTwin κ big c c') (hf : BestTwin κ big f f') :
    RelTwin κ big (relDerr f.cost c.cost) (relDerr f'.cost c'.cost) := by
  rintro (rfl | hb)
  · have h1 : c'.cost = c.cost := by rw [hc.1]; exact one_mul _
    have h2 : f'.cost = f.cost := by
      rcases hf with hf | hf
      · rw [hf.1]; exact one_mul _
      · rw [hf.1]
    rw [h1, h2]
  · by_cases h1 : κ = 1
    · subst h1
      have h1 : c'.cost = c.cost := by rw [hc.1]; exact one_mul _
      have h2 : f'.cost = f.cost := by
        rcases hf with hf | hf
        · rw [hf.1]; exact one_mul _
        · rw [hf.1]
      rw [h1, h2]
    · have hc1 : c'.cost = κ * c.cost := by rw [hc.1]
      rcases hf with hf | ⟨rfl, hf⟩
      · have hf1 : f'.cost = κ * f.cost := by rw [hf.1]
        obtain ⟨a, b, d⟩ := hf.2.resolve_left h1
        obtain ⟨d1, d2⟩ := d hb
        unfold relDerr
        rw [hc1, hf1, if_pos (by simp only [Bool.and_eq_true, RealOps.lt_eq]; exact ⟨d1, a⟩), if_pos (by simp only [Bool.and_eq_true, RealOps.lt_eq]; exact ⟨d2, b⟩)]
        simp only [RealOps.div_eq, RealOps.sub_eq]
        rw [← mul_sub, mul_div_mul_left _ _ hκ.ne']
      · unfold relDerr
        rw [if_neg (by simp [hf]), if_neg (by simp [hf])]

theorem optSim_twin {σ : Equiv.Perm (Fin n)} {k κ : ℝ} (hk : 0 < k) (hκ : 0 < κ) {o o' : Options ℝ W (DVec ℝ)} (h : OptTwin σ k κ o o') {tx : X' → X} :
    OptSim o o' (twinRels σ k (CostTwin (R := R) κ (UsesRel o)) (BestTwin κ (UsesRel o)) (RelTwin κ (UsesRel o)) tx) where
  checkFinalCost := h.checkFinalCost.symm
  useStepQuality := h.useStepQuality.symm
  maxIters := h.maxIters.symm
  maxTotalFailures := h.maxTotalFailures.symm
  maxConsecFailures := h.maxConsecFailures.symm
  maxDurationMs := h.maxDurationMs.symm
  gradNorm := by
    have h1 : o.stopCallback.isSome = o'.stopCallback.isSome := by
      have := h.cb1
      generalize o.stopCallback = p at this ⊢
      generalize o'.stopCallback = p' at this ⊢
      cases this <;> rfl
    have h2 : o.stopCallback2.isSome = o'.stopCallback2.isSome := by
      have := h.cb2
      generalize o.stopCallback2 = p at this ⊢
      generalize o'.stopCallback2 = p' at this ⊢
      cases this <;> rfl
    have h3 : lt (ofInt 0) o'.minGradNorm2 = lt (ofInt 0) o.minGradNorm2 := by
      rw [Bool.eq_iff_iff, RealOps.lt_eq, RealOps.lt_eq, h.minGradNorm2]
      simp [hk]
    simp only [hasGradNorm2, h1, h2, h3]
  gnZero := by simp [twinRels]
  final := fun _ _ hc => Or.inl hc
  num := fun _ _ hc => by rw [hc.1]
  bad := fun _ _ _ => rfl
  started := by
    rintro f f' (⟨rfl, rfl | ⟨h1, h2, -⟩⟩ | ⟨rfl, -⟩)
    · simp
    · rw [Bool.eq_iff_iff, RealOps.lt_eq, RealOps.lt_eq]; exact iff_of_true h1 h2
    · rfl
  init := fun r => Or.inr ⟨rfl, rfl⟩
  relInit := fun _ => rfl
  less := by
    intro c c' f f' hc hf
    rw [Bool.eq_iff_iff, RealOps.lt_eq, RealOps.lt_eq]
    have hc1 : c'.cost = κ * c.cost := by rw [hc.1]
    simp only [RealOps.sub_eq, hc1]
    rcases hf with hf | ⟨rfl, hf⟩
    · have hf1 : f'.cost = κ * f.cost := by rw [hf.1]
      rw [hf1, ← mul_sub]
      simp [mul_neg_iff, hκ, not_lt.mpr hκ.le]
    · rcases hc.2 with rfl | ⟨h1, h2, -⟩
      · simp
      · rw [← hf] at h1 h2
        simp only [RealOps.ofInt_eq, Int.cast_zero, sub_neg]
        exact iff_of_true h1 h2
  rel := fun _ _ _ _ hc hf => relDerr_twin hκ hc hf
  quality := fun a b hab hu => hab (Or.inr (Or.inl hu))
  criteria := by
    rintro w c c' f f' dn dn' gn gn' dx dx' g g' hc hf rfl hgn hdx hg
    have hr := relDerr_twin hκ hc hf
    have hc1 : c'.cost = κ * c.cost := by rw [hc.1]
    have hgn' : gn' = k ^ 2 * gn := hgn
    subst hgn'
    rw [hc1] at hr
    rw [hc1]
    revert hr
    generalize relDerr f.cost c.cost = a
    generalize relDerr f'.cost (κ * c.cost) = b
    intro hr
    have e1 : (lt (ofInt 0) o'.minError && lt (κ * c.cost) o'.minError) = (lt (ofInt 0) o.minError && lt c.cost o.minError) := by
      rw [Bool.eq_iff_iff]
      simp only [Bool.and_eq_true, RealOps.lt_eq, h.minError]
      simp [hκ]
    have e2 : (lt (ofInt 0) o'.minRerrDec && lt (ofInt 0) b && lt b o'.minRerrDec) = (lt (ofInt 0) o.minRerrDec && lt (ofInt 0) a && lt a o.minRerrDec) := by
      rw [h.minRerrDec]
      by_cases hp : 0 < o.minRerrDec
      · rw [hr (Or.inr (Or.inr hp))]
      · have : lt (ofInt 0) o.minRerrDec = false := by simpa using hp
        rw [this]; rfl
    have hk2 : 0 < k ^ 2 := by positivity
    have e4 : (lt (ofInt 0) o'.minGradNorm2 && lt (k ^ 2 * gn) o'.minGradNorm2) = (lt (ofInt 0) o.minGradNorm2 && lt gn o.minGradNorm2) := by
      rw [Bool.eq_iff_iff]
      simp only [Bool.and_eq_true, RealOps.lt_eq, h.minGradNorm2]
      rw [mul_lt_mul_iff_right₀ hk2]
      simp [hk]
    have e5 : callStop1 o' w (κ * c.cost) dn (k ^ 2 * gn) = callStop1 o w c.cost dn gn := by
      have := h.cb1
      unfold callStop1
      revert this
      generalize o.stopCallback = p
      generalize o'.stopCallback = p'
      intro this
      cases this with
      | none => rfl
      | some hab => exact (hab _ _ _ _).symm
    have e6 : ∀ w, callStop2 o' w (κ * c.cost) dx' g' = callStop2 o w c.cost dx g := by
      intro w
      have := h.cb2
      unfold callStop2
      revert this
      generalize o.stopCallback2 = p
      generalize o'.stopCallback2 = p'
      intro this
      cases this with
      | none => rfl
      | some hab => exact (hab _ _ _ _ _ _ hdx hg).symm
    unfold criteria
    rw [e1, e2, e4, e5, e6, h.minStepNorm2]

/-! ## C85: order of the parameters -/

theorem costTwin_one {big : Prop} : CostTwin (R := R) 1 big = Eq := by
  funext c c'
  refine propext ⟨fun h => ?_, fun h => ⟨?_, Or.inl rfl⟩⟩
  · rw [h.1]; simp
  · rw [h]; simp

theorem bestTwin_one {big : Prop} : BestTwin (R := R) 1 big = Eq := by
  funext c c'
  refine propext ⟨fun h => ?_, fun h => Or.inl (by rw [costTwin_one]; exact h)⟩
  rcases h with h | h
  · rw [costTwin_one] at h; exact h
  · exact h.1.symm

theorem relTwin_one {big : Prop} : RelTwin 1 big = Eq := by
  funext a b
  exact propext ⟨fun h => h (Or.inl rfl), fun h _ => h⟩

/-- `P'` is the problem `P` with the parameters in another order: the parameter `i` of `P` is the parameter `σ i` of `P'`, where `x = tx y`. -/
structure Renumbered (σ : Equiv.Perm (Fin n)) (so : SolverOpts ℝ) (tx : X' → X) (P : Problem ℝ R W X) (P' : Problem ℝ R W X') : Prop where
  dims : P.dims = P'.dims
  dyn : ∀ y, P.dynDims (tx y) = n
  dyn' : ∀ y, P'.dynDims y = n
  plus : ∀ y v v', (∀ i, v' (σ i) = v i) → P.plusEq (tx y) ⟨n, v⟩ = tx (P'.plusEq y ⟨n, v'⟩)
  clock : P.clock = P'.clock
  ratio1 : P.ratio1 = P'.ratio1
  alloc : ∀ w j, (P.alloc w j).1.isSome = (P'.alloc w j).1.isSome ∧ (P.alloc w j).2 = (P'.alloc w j).2
  full : ∀ w y, ∃ c g g' H H' w1, P.acc.full w (tx y) n (fun _ => 0) (fun _ _ => 0) = ((c, g, H), w1) ∧
    P'.acc.full w y n (fun _ => 0) (fun _ _ => 0) = ((c, g', H'), w1) ∧
    (∀ i, g' (σ i) = g i) ∧ ∀ i j, viewH so H' (σ i) (σ j) = viewH so H i j
  eval : ∀ w y, P.acc.eval w (tx y) = P'.acc.eval w y

theorem Renumbered.twin {σ : Equiv.Perm (Fin n)} {so : SolverOpts ℝ} {tx : X' → X} {P : Problem ℝ R W X} {P' : Problem ℝ R W X'}
    (h : Renumbered σ so tx P P') : Twin σ 1 so so Eq tx P P' where
  pos := one_pos
  useLdlt := rfl
  hIsFull := rfl
  gradClip := (one_mul _).symm
  checkMinHDiag := (one_mul _).symm
  dampInit := rfl
  dampLo := rfl
  dampHi := rfl
  goodFactor := rfl
  badFactor := rfl
  dims := h.dims
  dyn := h.dyn
  dyn' := h.dyn'
  plus y v v' hv := h.plus y v v' fun i => (hv i).trans (one_mul _)
  clock := h.clock
  ratio1 := h.ratio1
  alloc := h.alloc
  full w y := by
    obtain ⟨c, g, g', H, H', w1, e, e', hg, hH⟩ := h.full w y
    exact ⟨c, c, g, g', H, H', w1, e, e', rfl, fun i => (hg i).trans (one_mul _).symm, fun i j => (hH i j).trans (one_mul _).symm⟩
  eval w y := ⟨_, _, _, rfl, (h.eval w y).symm ▸ rfl, rfl⟩
  valid _ _ h := h ▸ rfl

/-- the same options, with a callback on steps and gradients that takes the other order into account -/
structure SameOpts (σ : Equiv.Perm (Fin n)) (o o' : Options ℝ W (DVec ℝ)) : Prop where
  same : o' = { o with stopCallback2 := o'.stopCallback2 }
  cb2 : Option.Rel (fun cb cb' => ∀ w e d d' g g', StepTwin σ 1 d d' → StepTwin σ 1 g g' → cb w e d g = cb' w e d' g') o.stopCallback2 o'.stopCallback2

theorem SameOpts.twin {σ : Equiv.Perm (Fin n)} {o o' : Options ℝ W (DVec ℝ)} (h : SameOpts σ o o') : OptTwin σ 1 1 o o' := by
  obtain ⟨a1, a2, a3, a4, a5, a6, a7, a8, a9, a10, a11, a12, a13⟩ := o
  obtain ⟨b1, b2, b3, b4, b5, b6, b7, b8, b9, b10, b11, b12, b13⟩ := o'
  obtain ⟨h1, h2⟩ := h
  simp only [Options.mk.injEq] at h1 h2
  obtain ⟨rfl, rfl, rfl, rfl, rfl, rfl, rfl, rfl, rfl, rfl, rfl, rfl, -⟩ := h1
  refine ⟨rfl, rfl, rfl, rfl, rfl, rfl, (one_mul _).symm, rfl, rfl, by simp, ?_, ?_⟩
  · cases b12 with
    | none => exact .none
    | some cb => exact .some fun w e dn gn => by simp
  · cases h2 with
    | none => exact .none
    | some hab => exact .some fun w e d d' g g' hd hg => by simpa using hab w e d d' g g' hd hg

/-- What two runs with the parameters in the orders of the two users have in common: everything but the saved Hessian, with the points and the steps in the respective orders. -/
def SameRun (σ : Equiv.Perm (Fin n)) (tx : X' → X) {S S' : Type} (st : LoopSt ℝ R W S X (DVec ℝ) (DMat ℝ)) (st' : LoopSt ℝ R W S' X' (DVec ℝ) (DMat ℝ)) : Prop :=
  st.w = st'.w ∧ st.x = tx st'.x ∧ ({ st.out with finalHessian := none } : Output ℝ R (DMat ℝ)) = { st'.out with finalHessian := none } ∧
    List.Forall₂ (fun r r' => r.x = tx r'.x ∧ r.succ = r'.succ ∧ Option.Rel (StepTwin σ 1) r.dx r'.dx ∧ r.xNext = tx r'.xNext) st.trace st'.trace

theorem sameRun_of_final {σ : Equiv.Perm (Fin n)} {tx : X' → X} {S S' : Type} {a : Res (LoopSt ℝ R W S X (DVec ℝ) (DMat ℝ))}
    {b : Res (LoopSt ℝ R W S' X' (DVec ℝ) (DMat ℝ))} (h : Res.Rel (FinalSim (twinRels σ 1 Eq Eq Eq tx)) a b) : Res.Rel (SameRun σ tx) a b := by
  refine Res.Rel.mono h ?_
  rintro ⟨w, s, x, out, ld, ls, tr⟩ ⟨w', s', x', out', ld', ls', tr'⟩ ⟨h1, h2, h3, h4⟩
  refine ⟨h1, h2, ?_, h4.imp fun r r' hr => ⟨hr.x, hr.succ, hr.dx, hr.xNext⟩⟩
  obtain ⟨a1, a2, a3, a4, a5, a6, a7, a8, a9, a10, a11, a12, a13⟩ := out
  obtain ⟨b1, b2, b3, b4, b5, b6, b7, b8, b9, b10, b11, b12, b13⟩ := out'
  obtain ⟨h1, h2, h3, h4, h5, h6, h7, h8, h9, h10, h11, h12⟩ := h3
  simp only at h1 h2 h3 h4 h5 h6 h7 h8 h9 h10 h11 h12
  have e : a11 = b11 := by
    have := h10.imp (S := Eq) (fun e e' ⟨c, c', hc, h1, h2⟩ => by have : c = c' := hc; rw [h1, h2, this])
    exact List.forall₂_eq_eq_eq ▸ this
  have e2 : a12 = b12 := by
    have h11 : List.Forall₂ Eq a12 b12 := h11
    exact List.forall₂_eq_eq_eq ▸ h11
  have f1 : a1 = b1 := h1
  have f2 : a2 = b2 := h2
  simp only [Output.mk.injEq]
  exact ⟨f1, f2, h3, h4, h5, h6, h7, h8, trivial, h9, e, e2, h12⟩

section
variable {σ : Equiv.Perm (Fin n)} {so : SolverOpts ℝ} {tx : X' → X} {P : Problem ℝ R W X} {P' : Problem ℝ R W X'} {L : LinAlg ℝ} {o o' : Options ℝ W (DVec ℝ)}

/-- **C85, Gauss-Newton.** Numbering the parameters in another order gives the same run: the same outcome, and if the runs return, the same costs, norms, decisions,
counters and stop reason, with the points and the steps of all iterations in the respective orders. All stop criteria may be on. -/
theorem C85_gn (h : Renumbered σ so tx P P') (hL : TrueLinAlg L) (ho : SameOpts σ o o') (fuel : Nat) (mi : Int)
    (w : W) (y : X') (s s' : GNState ℝ R) (hn : s.n = s'.n) (hd : ∀ d, P.dims = some d → s.n = d) :
    Res.Rel (SameRun σ tx) (optimizeAcc (gnEnv so L P) o fuel mi w s (tx y)) (optimizeAcc (gnEnv so L P') o' fuel mi w s' y) := by
  have hs := optSim_twin (R := R) (tx := tx) one_pos one_pos ho.twin
  rw [costTwin_one, bestTwin_one, relTwin_one] at hs
  exact sameRun_of_final (run_runsim (gn_runsim h.twin (linTwin_of_true hL σ one_pos) (Or.inr (Or.inr rfl))) hs fuel mi w s s' _ _ rfl ⟨hn, hd⟩ (Or.inl fun _ _ h => h))

/-- **C85, Levenberg-Marquardt**, for freshly constructed solvers. -/
theorem C85_lm (h : Renumbered σ so tx P P') (hL : TrueLinAlg L) (ho : SameOpts σ o o') (fuel : Nat) (mi : Int)
    (w : W) (y : X') (g : Vec ℝ (P.dims.getD 0)) (H : Mat ℝ (P.dims.getD 0)) (g' : Vec ℝ (P'.dims.getD 0)) (H' : Mat ℝ (P'.dims.getD 0)) :
    Res.Rel (SameRun σ tx) (optimizeAcc (lmEnv so L P) o fuel mi w (lmFresh so P g H) (tx y))
      (optimizeAcc (lmEnv so L P') o' fuel mi w (lmFresh so P' g' H') y) := by
  have hs := optSim_twin (R := R) (tx := tx) one_pos one_pos ho.twin
  rw [costTwin_one, bestTwin_one, relTwin_one] at hs
  refine sameRun_of_final (run_runsim (lm_runsim h.twin (linTwin_of_true hL σ one_pos) (Or.inr (Or.inr rfl))) hs fuel mi w _ _ _ _ rfl
    ⟨⟨rfl, rfl, rfl, rfl, Or.inl rfl⟩, ?_, ?_⟩ (Or.inl fun _ _ h => h))
  · simp only [lmFresh, lmReset, gnFresh, h.dims]
  · intro d hd
    simp only [lmFresh, lmReset, gnFresh, hd, Option.getD_some]

/-- **C85, gradient descent.** -/
theorem C85_gd (h : Renumbered σ so tx P P') (ho : SameOpts σ o o') (fuel : Nat) (mi : Int)
    (w : W) (y : X') (s s' : GNState ℝ R) (hn : s.n = s'.n) (hd : ∀ d, P.dims = some d → s.n = d) :
    Res.Rel (SameRun σ tx) (optimizeAcc (gdEnv so P) o fuel mi w s (tx y)) (optimizeAcc (gdEnv so P') o' fuel mi w s' y) := by
  have hs := optSim_twin (R := R) (tx := tx) one_pos one_pos ho.twin
  rw [costTwin_one, bestTwin_one, relTwin_one] at hs
  exact sameRun_of_final (run_runsim (gd_runsim h.twin (by rw [inv_one, one_mul])) hs fuel mi w s s' _ _ rfl ⟨hn, hd⟩ (Or.inl fun _ _ h => h))

end

/-- residuals with the parameters in another order -/
theorem nlsProb_renumbered (r : Vec ℝ n → Vec ℝ m) (J : Vec ℝ n → Fin m → Fin n → ℝ) (σ : Equiv.Perm (Fin n)) (so : SolverOpts ℝ) :
    Renumbered σ so (fun y i => y (σ i)) (nlsProb r J) (nlsProb (fun y => r fun i => y (σ i)) (fun y a j => J (fun i => y (σ i)) a (σ.symm j))) where
  dims := rfl
  dyn _ := rfl
  dyn' _ := rfl
  plus y v v' hv := by funext i; simp [nlsProb, hv]
  clock := rfl
  ratio1 := rfl
  alloc _ _ := ⟨rfl, rfl⟩
  full w y := by
    refine ⟨_, _, _, _, _, _, rfl, rfl, ?_, ?_⟩
    · intro i; simp [tmv]
    · intro i j
      unfold viewH
      have e : ∀ A : Fin m → Fin n → ℝ, symUpper (fun i j : Fin n => if h : i.1 < n ∧ j.1 < n then (0 : ℝ) + gram A ⟨i.1, h.1⟩ ⟨j.1, h.2⟩ else 0) = gram A := by
        intro A
        have : (fun i j : Fin n => if h : i.1 < n ∧ j.1 < n then (0 : ℝ) + gram A ⟨i.1, h.1⟩ ⟨j.1, h.2⟩ else 0) = gram A := by
          funext i j; simp
        rw [this, symUpper_of_sym (gram_sym _)]
      split
      · simp [gram]
      · rw [e, e]; simp [gram]
  eval _ _ := rfl

/-- hypotheses of `C85_gn`, `C85_lm`, `C85_gd`: two parameters are exchanged, with the default thresholds and a callback that looks at the first entry of the step -/
example : (∃ P' : Problem ℝ ℝ Unit (Vec ℝ 2), Renumbered (Equiv.swap (0 : Fin 2) 1) soptsR (fun (y : Vec ℝ 2) i => y (Equiv.swap 0 1 i))
      (nlsProb (fun x => (fun i => if i = 0 then x 0 * x 0 - 1 else x 1 + x 0 : Vec ℝ 2)) (fun x i j => if i = 0 then (if j = 0 then 2 * x 0 else 0) else 1)) P') ∧
    TrueLinAlg trueLinAlg ∧
    SameOpts (Equiv.swap (0 : Fin 2) 1) { optsDef Unit with stopCallback2 := some fun w _ d _ => (decide (∃ h : 1 < d.n, d.v ⟨0, by omega⟩ = 5), w) }
      { optsDef Unit with stopCallback2 := some fun w _ d _ => (decide (∃ h : 1 < d.n, d.v ⟨1, h⟩ = 5), w) } := by
  refine ⟨⟨_, nlsProb_renumbered _ _ _ _⟩, trueLinAlg_true, rfl, .some ?_⟩
  rintro w e d d' g g' ⟨v, v', rfl, rfl, hv⟩ -
  have := hv 0
  simp only [Equiv.swap_apply_left, one_mul] at this
  simp [this]

/-! ## C86: units of the residuals -/

/-- What the runs of two users who measure the residuals in different units have in common: the same world, points, steps, decisions, counters and stop
reason; the costs have the factor `κ`. -/
def ScaledRun (κ : ℝ) {S S' : Type} (st : LoopSt ℝ R W S X (DVec ℝ) (DMat ℝ)) (st' : LoopSt ℝ R W S' X (DVec ℝ) (DMat ℝ)) : Prop :=
  st'.w = st.w ∧ st'.x = st.x ∧ st'.out.stop = st.out.stop ∧ st'.out.numIters = st.out.numIters ∧ st'.out.numFailures = st.out.numFailures ∧
    st'.out.numConsec = st.out.numConsec ∧ st'.out.numResiduals = st.out.numResiduals ∧ st'.out.duration = st.out.duration ∧
    st'.out.successes = st.out.successes ∧ st'.out.deltas2 = st.out.deltas2 ∧ st'.out.errs = st.out.errs.map (κ * ·) ∧
    (st'.out.finalCost = { st.out.finalCost with cost := κ * st.out.finalCost.cost } ∨ st'.out.finalCost = st.out.finalCost ∧ st.out.finalCost.cost = maxVal) ∧
    st'.trace.map (fun r => (r.x, r.succ, r.dx, r.xNext)) = st.trace.map (fun r => (r.x, r.succ, r.dx, r.xNext))

theorem stepTwin_refl {d d' : DVec ℝ} (h : StepTwin (Equiv.refl (Fin n)) 1 d d') : d' = d := by
  obtain ⟨v, v', rfl, rfl, hv⟩ := h
  congr 1
  funext i
  have := hv i
  simpa using this

theorem map_eq_of_forall₂ {α β γ : Type} {f : α → γ} {g : β → γ} {q : α → β → Prop} (hq : ∀ a b, q a b → g b = f a) :
    ∀ {l : List α} {l' : List β}, List.Forall₂ q l l' → l'.map g = l.map f
  | _, _, .nil => rfl
  | _, _, .cons h t => by rw [List.map_cons, List.map_cons, hq _ _ h, map_eq_of_forall₂ hq t]

theorem scaledRun_of_final {k κ : ℝ} {big : Prop} {S S' : Type} {a : Res (LoopSt ℝ R W S X (DVec ℝ) (DMat ℝ))}
    {b : Res (LoopSt ℝ R W S' X (DVec ℝ) (DMat ℝ))}
    (h : Res.Rel (FinalSim (twinRels (Equiv.refl (Fin n)) k (CostTwin κ big) (BestTwin κ big) (RelTwin κ big) (id : X → X))) a b) : Res.Rel (ScaledRun κ) a b := by
  refine Res.Rel.mono h ?_
  rintro st st' ⟨h1, h2, h3, h4⟩
  refine ⟨h1.symm, h2.symm, h3.stop.symm, h3.numIters.symm, h3.numFailures.symm, h3.numConsec.symm, h3.numResiduals.symm, h3.duration.symm, h3.successes.symm, ?_, ?_, ?_, ?_⟩
  · have := map_eq_of_forall₂ (f := id) (g := id) (fun a b (hab : a = b) => hab.symm) h3.deltas2
    simpa using this
  · have := map_eq_of_forall₂ (f := (κ * ·)) (g := id) (fun e e' he => by
      obtain ⟨c, c', hc, h1, h2⟩ := he
      have hc : CostTwin κ big c c' := hc
      simp only [id, h1, h2, hc.1]) h3.errs
    simpa using this
  · rcases (h3.finalCost : BestTwin κ big _ _) with hc | hc
    · exact Or.inl hc.1
    · exact Or.inr hc
  · refine map_eq_of_forall₂ (fun r r' hr => ?_) h4
    have e1 : r.x = r'.x := hr.x
    have e2 : r.xNext = r'.xNext := hr.xNext
    have e3 : r'.dx = r.dx := by
      have := hr.dx
      generalize r.dx = p at this ⊢
      generalize r'.dx = p' at this ⊢
      cases this with
      | none => rfl
      | some hab => rw [stepTwin_refl hab]
    rw [e1, hr.succ, e3, e2]

section
variable {k κ : ℝ} {so so' : SolverOpts ℝ} {P P' : Problem ℝ R W X} {L : LinAlg ℝ} {o o' : Options ℝ W (DVec ℝ)}

/-- **C86, Gauss-Newton.** `P'` has gradients and Hessians `k` times and costs `κ` times those of `P`, and the thresholds of the options are adapted: the runs
are the same up to the factors. Without LDLT the number of parameters must not be known at compile time to be 1 (see `C86_conditions`). -/
theorem C86_gn_partial (h : Twin (Equiv.refl (Fin n)) k so so' (CostTwin κ (UsesRel o)) id P P') (hκ : 0 < κ) (hL : TrueLinAlg L)
    (ho : OptTwin (Equiv.refl (Fin n)) k κ o o') (h1 : so.useLdlt = true ∨ P.dims ≠ some 1) (fuel : Nat) (mi : Int) (w : W) (x : X)
    (s s' : GNState ℝ R) (hn : s.n = s'.n) (hd : ∀ d, P.dims = some d → s.n = d) :
    Res.Rel (ScaledRun κ) (optimizeAcc (gnEnv so L P) o fuel mi w s x) (optimizeAcc (gnEnv so' L P') o' fuel mi w s' x) :=
  scaledRun_of_final (run_runsim (gn_runsim h (linTwin_of_true hL _ h.pos) (h1.imp_right Or.inl)) (optSim_twin h.pos hκ ho) fuel mi w s s' x x rfl ⟨hn, hd⟩ (Or.inl fun _ _ h => h))

/-- **C86, Levenberg-Marquardt.** -/
theorem C86_lm_partial (h : Twin (Equiv.refl (Fin n)) k so so' (CostTwin κ (UsesRel o)) id P P') (hκ : 0 < κ) (hL : TrueLinAlg L)
    (ho : OptTwin (Equiv.refl (Fin n)) k κ o o') (h1 : so.useLdlt = true ∨ P.dims ≠ some 1) (fuel : Nat) (mi : Int) (w : W) (x : X)
    (g : Vec ℝ (P.dims.getD 0)) (H : Mat ℝ (P.dims.getD 0)) (g' : Vec ℝ (P'.dims.getD 0)) (H' : Mat ℝ (P'.dims.getD 0)) :
    Res.Rel (ScaledRun κ) (optimizeAcc (lmEnv so L P) o fuel mi w (lmFresh so P g H) x)
      (optimizeAcc (lmEnv so' L P') o' fuel mi w (lmFresh so' P' g' H') x) := by
  refine scaledRun_of_final (run_runsim (lm_runsim h (linTwin_of_true hL _ h.pos) (h1.imp_right Or.inl)) (optSim_twin h.pos hκ ho) fuel mi w _ _ x x rfl
    ⟨⟨h.dampInit.symm, rfl, h.badFactor.symm, rfl, Or.inl rfl⟩, ?_, ?_⟩ (Or.inl fun _ _ h => h))
  · simp only [lmFresh, lmReset, gnFresh, h.dims]
  · intro d hd
    simp only [lmFresh, lmReset, gnFresh, hd, Option.getD_some]

/-- **C86, gradient descent**, with the learning rate divided by `k`. -/
theorem C86_gd_partial (h : Twin (Equiv.refl (Fin n)) k so so' (CostTwin κ (UsesRel o)) id P P') (hκ : 0 < κ) (hlr : so'.lr = k⁻¹ * so.lr)
    (ho : OptTwin (Equiv.refl (Fin n)) k κ o o') (fuel : Nat) (mi : Int) (w : W) (x : X)
    (s s' : GNState ℝ R) (hn : s.n = s'.n) (hd : ∀ d, P.dims = some d → s.n = d) :
    Res.Rel (ScaledRun κ) (optimizeAcc (gdEnv so P) o fuel mi w s x) (optimizeAcc (gdEnv so' P') o' fuel mi w s' x) :=
  scaledRun_of_final (run_runsim (gd_runsim h hlr) (optSim_twin h.pos hκ ho) fuel mi w s s' x x rfl ⟨hn, hd⟩ (Or.inl fun _ _ h => h))

end

/-- the factor of the cost for residuals `c` times as large -/
noncomputable def costFactor (so : SolverOpts ℝ) (c : ℝ) : ℝ := if so.useSquaredNorm then c ^ 2 else |c|

/-- the options of the solver for residuals `c` times as large -/
noncomputable def unitSo (so : SolverOpts ℝ) (c : ℝ) : SolverOpts ℝ :=
  { so with gradClip := c ^ 2 * so.gradClip, checkMinHDiag := c ^ 2 * so.checkMinHDiag, lr := (c ^ 2)⁻¹ * so.lr }

/-- the options of the optimizer for residuals `c` times as large -/
noncomputable def unitOpts (so : SolverOpts ℝ) (o : Options ℝ W (DVec ℝ)) (c : ℝ) : Options ℝ W (DVec ℝ) :=
  { o with minError := costFactor so c * o.minError, minGradNorm2 := (c ^ 2) ^ 2 * o.minGradNorm2 }

/-- the residuals `c r` -/
noncomputable def scaledProb (r : Vec ℝ n → Vec ℝ m) (J : Vec ℝ n → Fin m → Fin n → ℝ) (c : ℝ) : Problem ℝ ℝ Unit (Vec ℝ n) :=
  nlsProb (fun x i => c * r x i) (fun x i j => c * J x i j)

/-- the costs of both users are representable, and above the threshold of the relative decrease if the options use it -/
def UnitRange (so : SolverOpts ℝ) (o : Options ℝ W (DVec ℝ)) (r : Vec ℝ n → Vec ℝ m) (c : ℝ) : Prop :=
  ∀ x, nCost so m (dotR (r x) (r x)) < maxVal ∧ costFactor so c * nCost so m (dotR (r x) (r x)) < maxVal ∧
    (UsesRel o → eps < nCost so m (dotR (r x) (r x)) ∧ eps < costFactor so c * nCost so m (dotR (r x) (r x)))

theorem costFactor_pos (so : SolverOpts ℝ) {c : ℝ} (hc : c ≠ 0) : 0 < costFactor so c := by
  unfold costFactor; split <;> positivity

theorem normalizeCost_factor (so : SolverOpts ℝ) (c q : ℝ) :
    (normalizeCost (unitSo so c) ({ cost := c ^ 2 * q, num := m, inlier := 1 } : Cost ℝ ℝ)) =
      { normalizeCost so ({ cost := q, num := m, inlier := 1 } : Cost ℝ ℝ) with
        cost := costFactor so c * (normalizeCost so ({ cost := q, num := m, inlier := 1 } : Cost ℝ ℝ)).cost } := by
  unfold normalizeCost costFactor unitSo
  have hs : Real.sqrt (c ^ 2 * q) = |c| * Real.sqrt q := by rw [Real.sqrt_mul (by positivity), Real.sqrt_sq_eq_abs]
  by_cases h1 : so.useSquaredNorm = true <;> by_cases h2 : so.downscaleBy2 = true <;> by_cases h3 : (so.normalize && decide ((m : Int) > 0)) = true <;>
    simp only [h1, h2, h3, if_true, RealOps.mul_eq, RealOps.div_eq, RealOps.sqrt_eq, hs, Bool.false_eq_true, if_false, Cost.mk.injEq, and_true] <;> ring

theorem scaledProb_twin (r : Vec ℝ n → Vec ℝ m) (J : Vec ℝ n → Fin m → Fin n → ℝ) {c : ℝ} (hc : c ≠ 0) {so : SolverOpts ℝ} {o : Options ℝ Unit (DVec ℝ)}
    (hr : UnitRange so o r c) :
    Twin (Equiv.refl (Fin n)) (c ^ 2) so (unitSo so c) (CostTwin (costFactor so c) (UsesRel o)) id (nlsProb r J) (scaledProb r J c) where
  pos := by positivity
  useLdlt := rfl
  hIsFull := rfl
  gradClip := rfl
  checkMinHDiag := rfl
  dampInit := rfl
  dampLo := rfl
  dampHi := rfl
  goodFactor := rfl
  badFactor := rfl
  dims := rfl
  dyn _ := rfl
  dyn' _ := rfl
  plus y v v' hv := by
    funext i
    have := fun i => hv i
    simp only [Equiv.refl_apply, one_mul] at this
    simp [nlsProb, scaledProb, this]
  clock := rfl
  ratio1 := rfl
  alloc _ _ := ⟨rfl, rfl⟩
  full w y := by
    refine ⟨_, _, _, _, _, _, _, rfl, rfl, ?_, ?_, ?_⟩
    · have e : dotR (fun i => c * r y i) (fun i => c * r y i) = c ^ 2 * dotR (r y) (r y) := by
        simp only [dotR, mul_sum]; exact sum_congr rfl fun i _ => by ring
      simp only [e, id]
      exact ⟨normalizeCost_factor so c _, Or.inr (hr y)⟩
    · intro i
      simp only [tmv, mul_sum, Fin.is_lt, dif_pos, zero_add, Equiv.refl_apply, id]
      exact sum_congr rfl fun j _ => by ring
    · have e : ∀ A : Fin m → Fin n → ℝ, (fun i j : Fin n => if h : i.1 < n ∧ j.1 < n then (0 : ℝ) + gram A ⟨i.1, h.1⟩ ⟨j.1, h.2⟩ else 0) = gram A := by
        intro A; funext i j; simp
      have e2 : ∀ A : Fin m → Fin n → ℝ, viewH so (gram A) = gram A := by
        intro A; unfold viewH; split
        · rfl
        · rw [symUpper_of_sym (gram_sym _)]
      simp only [e, e2]
      intro i j
      simp only [gram, mul_sum, Equiv.refl_apply, id]
      exact sum_congr rfl fun j _ => by ring
  eval w y := by
    refine ⟨_, _, _, rfl, rfl, ?_⟩
    have e : dotR (fun i => c * r y i) (fun i => c * r y i) = c ^ 2 * dotR (r y) (r y) := by
      simp only [dotR, mul_sum]; exact sum_congr rfl fun i _ => by ring
    simp only [e, id]
    exact ⟨normalizeCost_factor so c _, Or.inr (hr y)⟩
  valid _ _ h := h.valid

theorem unitOpts_twin (so : SolverOpts ℝ) (o : Options ℝ W (DVec ℝ)) (c : ℝ) (h1 : o.stopCallback = none) (h2 : o.stopCallback2 = none) :
    OptTwin (Equiv.refl (Fin n)) (c ^ 2) (costFactor so c) o (unitOpts so o c) := by
  refine ⟨rfl, rfl, rfl, rfl, rfl, rfl, rfl, rfl, rfl, rfl, ?_, ?_⟩
  · show Option.Rel _ o.stopCallback o.stopCallback
    rw [h1]; exact .none
  · show Option.Rel _ o.stopCallback2 o.stopCallback2
    rw [h2]; exact .none

section
variable (r : Vec ℝ n → Vec ℝ m) (J : Vec ℝ n → Fin m → Fin n → ℝ) {c : ℝ} {so : SolverOpts ℝ} {o : Options ℝ Unit (DVec ℝ)}

/-- **C86, residuals, Gauss-Newton**: residuals in another unit, i.e. `c r` instead of `r`. -/
theorem C86_gn_residuals_partial (hc : c ≠ 0) (hr : UnitRange so o r c) (h1 : o.stopCallback = none) (h2 : o.stopCallback2 = none) {L : LinAlg ℝ} (hL : TrueLinAlg L)
    (fuel : Nat) (mi : Int) (x : Vec ℝ n) (s s' : GNState ℝ ℝ) (hn : s.n = s'.n) :
    Res.Rel (ScaledRun (costFactor so c)) (optimizeAcc (gnEnv so L (nlsProb r J)) o fuel mi () s x)
      (optimizeAcc (gnEnv (unitSo so c) L (scaledProb r J c)) (unitOpts so o c) fuel mi () s' x) :=
  C86_gn_partial (scaledProb_twin r J hc hr) (costFactor_pos so hc) hL (unitOpts_twin so o c h1 h2) (Or.inr (by simp [nlsProb])) fuel mi () x s s' hn
    (fun d hd => by simp [nlsProb] at hd)

/-- **C86, residuals, Levenberg-Marquardt** -/
theorem C86_lm_residuals_partial (hc : c ≠ 0) (hr : UnitRange so o r c) (h1 : o.stopCallback = none) (h2 : o.stopCallback2 = none) {L : LinAlg ℝ} (hL : TrueLinAlg L)
    (fuel : Nat) (mi : Int) (x : Vec ℝ n) (g g' : Vec ℝ 0) (H H' : Mat ℝ 0) :
    Res.Rel (ScaledRun (costFactor so c)) (optimizeAcc (lmEnv so L (nlsProb r J)) o fuel mi () (lmFresh so (nlsProb r J) g H) x)
      (optimizeAcc (lmEnv (unitSo so c) L (scaledProb r J c)) (unitOpts so o c) fuel mi () (lmFresh (unitSo so c) (scaledProb r J c) g' H') x) :=
  C86_lm_partial (scaledProb_twin r J hc hr) (costFactor_pos so hc) hL (unitOpts_twin so o c h1 h2) (Or.inr (by simp [nlsProb])) fuel mi () x g H g' H'

/-- **C86, residuals, gradient descent** -/
theorem C86_gd_residuals_partial (hc : c ≠ 0) (hr : UnitRange so o r c) (h1 : o.stopCallback = none) (h2 : o.stopCallback2 = none)
    (fuel : Nat) (mi : Int) (x : Vec ℝ n) (s s' : GNState ℝ ℝ) (hn : s.n = s'.n) :
    Res.Rel (ScaledRun (costFactor so c)) (optimizeAcc (gdEnv so (nlsProb r J)) o fuel mi () s x)
      (optimizeAcc (gdEnv (unitSo so c) (scaledProb r J c)) (unitOpts so o c) fuel mi () s' x) :=
  C86_gd_partial (scaledProb_twin r J hc hr) (costFactor_pos so hc) rfl (unitOpts_twin so o c h1 h2) fuel mi () x s s' hn
    (fun d hd => by simp [nlsProb] at hd)

end

end

theorem big1024 : (100 : ℝ) < 2 ^ 1024 :=
  lt_of_lt_of_le (by norm_num : (100 : ℝ) < 2 ^ 7) (pow_le_pow_right₀ (by norm_num) (by norm_num))

/-- hypotheses of `C86_gn_residuals_partial`, `C86_lm_residuals_partial`, `C86_gd_residuals_partial`: pixels and thousands of pixels, with the default options (which use
the relative decrease) and residuals that do not vanish -/
example : UnitRange soptsR (optsDef Unit) (fun x : Vec ℝ 1 => (fun i => if i = 0 then 2 + Real.sin (x 0) else 1 : Vec ℝ 2)) (1 / 1000) ∧ (1 / 1000 : ℝ) ≠ 0 ∧
    (optsDef Unit).stopCallback = none ∧ (optsDef Unit).stopCallback2 = none ∧ UsesRel (optsDef Unit) ∧ TrueLinAlg trueLinAlg := by
  refine ⟨fun x => ?_, by norm_num, rfl, rfl, Or.inr ?_, trueLinAlg_true⟩
  · have h1 := Real.sin_le_one (x 0)
    have h2 := Real.neg_one_le_sin (x 0)
    have e : nCost soptsR 2 (dotR (fun i => if i = 0 then 2 + Real.sin (x 0) else 1 : Vec ℝ 2) (fun i => if i = 0 then 2 + Real.sin (x 0) else 1)) =
        (2 + Real.sin (x 0)) ^ 2 + 1 := by
      simp [nCost, normalizeCost, soptsR, dotR, Fin.sum_univ_two]; ring
    have ef : costFactor soptsR (1 / 1000) = 1 / 1000000 := by simp [costFactor, soptsR]; norm_num
    have b1 : (2 + Real.sin (x 0)) ^ 2 ≤ 9 := by nlinarith
    have b2 : 0 ≤ (2 + Real.sin (x 0)) ^ 2 := sq_nonneg _
    rw [e, ef]
    refine ⟨?_, ?_, fun _ => ⟨?_, ?_⟩⟩
    · refine lt_trans ?_ big1024; linarith
    · refine lt_trans ?_ big1024; linarith
    · show (1 / 10 ^ 7 : ℝ) < _; norm_num; nlinarith
    · show (1 / 10 ^ 7 : ℝ) < _; norm_num; nlinarith
  · simp only [optsDef]; norm_num

/-! The conditions are needed. -/

/-- residual `c x` of one parameter -/
def unit1 (c : D) (dims : Option Nat) : Problem D D Nat D :=
  prob1 (fun x => (mul (mul c x) (mul c x), mul c (mul c x), mul c c)) (fun _ => 1) dims

/-- residuals `(c x, c)` of one parameter -/
def unit2 (c : D) : Problem D D Nat D :=
  prob1 (fun x => (mul (mul c c) (add (mul x x) (ofInt 1)), mul c (mul c x), mul c c)) (fun _ => 2) none

/-- parameters at the end of a run -/
def Res.xOf {F R W S X V M : Type} : Res (LoopSt F R W S X V M) → Option X
  | .ok st => some st.x
  | _ => none

/-- a fresh solver of static size one -/
def gn1 : GNState D D := ⟨1, fun _ => ofInt 7, fun _ _ => ofInt 7, gn0.cost⟩

/-- **The units matter without the conditions** (the second run of each pair has the residuals in another unit): the threshold `min_error` must be adapted; the learning rate of gradient descent must be adapted;
with one parameter known at compile time and without LDLT `Solve` does not move `x` if the squared derivative is below a fixed threshold;
the criterion on the relative decrease is off below a fixed cost. -/
theorem C86_conditions :
    (optimizeAcc (gnEnv sopts1 lin1 (unit2 (ofInt 1))) { opts1 5 with minError := div (ofInt 1) (ofInt 1000) } 1000 (-1) 0 gn0 (ofInt 1)).stopOf ≠
      (optimizeAcc (gnEnv sopts1 lin1 (unit2 (div (ofInt 1) (ofInt 100)))) { opts1 5 with minError := div (ofInt 1) (ofInt 1000) } 1000 (-1) 0 gn0 (ofInt 1)).stopOf ∧
    (optimizeAcc (gdEnv { sopts1 with lr := div (ofInt 1) (ofInt 4) } (unit1 (ofInt 1) none)) (opts1 2) 1000 (-1) 0 gn0 (ofInt 1)).xOf ≠
      (optimizeAcc (gdEnv { sopts1 with lr := div (ofInt 1) (ofInt 4) } (unit1 (ofInt 2) none)) (opts1 2) 1000 (-1) 0 gn0 (ofInt 1)).xOf ∧
    (optimizeAcc (gnEnv { sopts1 with useLdlt := false } lin1 (unit1 (ofInt 1) (some 1))) (opts1 2) 1000 (-1) 0 gn1 (ofInt 1)).xOf = some (ofInt 0) ∧
    (optimizeAcc (gnEnv { sopts1 with useLdlt := false } lin1 (unit1 (div (ofInt 1) (ofInt 10000000000)) (some 1))) (opts1 2) 1000 (-1) 0 gn1 (ofInt 1)).xOf = some (ofInt 1) ∧
    (optimizeAcc (gdEnv { sopts1 with lr := div (ofInt 1) (ofInt 4) } (unit2 (ofInt 1))) { opts1 20 with minRerrDec := div (ofInt 1) (ofInt 8) } 1000 (-1) 0 gn0 (ofInt 1)).stopOf ≠
      (optimizeAcc (gdEnv { sopts1 with lr := mul (ofInt 2500000000000000000) (ofInt 10) } (unit2 (div (ofInt 1) (ofInt 10000000000)))) { opts1 20 with minRerrDec := div (ofInt 1) (ofInt 8) } 1000 (-1) 0 gn0 (ofInt 1)).stopOf := by
  decide +kernel

end Verif
