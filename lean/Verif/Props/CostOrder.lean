import Verif.Props.Units
import Verif.Props.CostScaling
/-!
# Only the order of the costs matters (C111)

Two problems have the same gradients and Hessians, and their costs at any two evaluations compare in the same way. In exact arithmetic the two runs take the same steps and
decisions, unless the options look at the size of the costs.
-/

set_option linter.unusedSectionVars false

namespace Verif
open FloatOps Finset

section
variable {R W X ι : Type} {m n p : Nat}

/-- costs of the same evaluation `i` of two problems -/
def OrderCost (A B : ι → ℝ) (c c' : Cost ℝ R) : Prop := ∃ i, c.cost = A i ∧ c'.cost = B i ∧ c.num.sign = c'.num.sign

/-- best costs so far: of the same evaluation, or both the initial value -/
def OrderBest (A B : ι → ℝ) (c c' : Cost ℝ R) : Prop := (∃ i, c.cost = A i ∧ c'.cost = B i) ∨ c.cost = maxVal ∧ c'.cost = maxVal

/-- The costs `A` and `B` of the evaluations are representable and ordered in the same way. -/
structure SameOrder (A B : ι → ℝ) : Prop where
  lt : ∀ i j, A i < A j ↔ B i < B j
  left : ∀ i, A i < maxVal
  right : ∀ i, B i < maxVal

/-- `P` and `P'` are the same problem with costs `A i` and `B i` in the evaluation `i` (after `NormalizeCost`). -/
structure CostsDiffer (so so' : SolverOpts ℝ) (n : Nat) (A B : ι → ℝ) (P P' : Problem ℝ R W X) : Prop where
  dims : P.dims = P'.dims
  dyn : ∀ x, P.dynDims x = n
  dyn' : ∀ x, P'.dynDims x = n
  plus : P.plusEq = P'.plusEq
  clock : P.clock = P'.clock
  ratio1 : P.ratio1 = P'.ratio1
  alloc : P.alloc = P'.alloc
  full : ∀ w x, (P.acc.full w x n (fun _ => 0) (fun _ _ => 0)).1.2 = (P'.acc.full w x n (fun _ => 0) (fun _ _ => 0)).1.2 ∧
    (P.acc.full w x n (fun _ => 0) (fun _ _ => 0)).2 = (P'.acc.full w x n (fun _ => 0) (fun _ _ => 0)).2 ∧
    OrderCost A B (normalizeCost so (P.acc.full w x n (fun _ => 0) (fun _ _ => 0)).1.1) (normalizeCost so' (P'.acc.full w x n (fun _ => 0) (fun _ _ => 0)).1.1)
  eval : ∀ w x, (P.acc.eval w x).2 = (P'.acc.eval w x).2 ∧ OrderCost A B (normalizeCost so (P.acc.eval w x).1) (normalizeCost so' (P'.acc.eval w x).1)

/-- solver options that agree, except for the scaling of the costs -/
def SameButScaling (so so' : SolverOpts ℝ) : Prop :=
  so' = { so with useSquaredNorm := so'.useSquaredNorm, downscaleBy2 := so'.downscaleBy2, normalize := so'.normalize }

/-- Options that agree and do not look at the size of the costs; a threshold of the cost is allowed if it separates the same evaluations. -/
structure OrderOpts (A B : ι → ℝ) (o o' : Options ℝ W (DVec ℝ)) : Prop where
  same : o' = { o with minError := o'.minError }
  minError : ∀ i, (0 < o.minError ∧ A i < o.minError) ↔ (0 < o'.minError ∧ B i < o'.minError)
  minRerrDec : o.minRerrDec ≤ 0
  quality : o.useStepQuality = false
  cb1 : ∀ cb ∈ o.stopCallback, ∀ w e e' dn gn, cb w e dn gn = cb w e' dn gn
  cb2 : ∀ cb ∈ o.stopCallback2, ∀ w e e' d g, cb w e d g = cb w e' d g

/-- What the two runs have in common: world, parameters, steps, decisions, counters, stop reason. The costs are those of the same evaluations. -/
def OrderRun (A B : ι → ℝ) {S S' : Type} (st : LoopSt ℝ R W S X (DVec ℝ) (DMat ℝ)) (st' : LoopSt ℝ R W S' X (DVec ℝ) (DMat ℝ)) : Prop :=
  st'.w = st.w ∧ st'.x = st.x ∧ st'.out.stop = st.out.stop ∧ st'.out.numIters = st.out.numIters ∧ st'.out.numFailures = st.out.numFailures ∧
    st'.out.numConsec = st.out.numConsec ∧ st'.out.duration = st.out.duration ∧ st'.out.successes = st.out.successes ∧ st'.out.deltas2 = st.out.deltas2 ∧
    List.Forall₂ (fun e e' => ∃ i, e = A i ∧ e' = B i) st.out.errs st'.out.errs ∧
    ((∃ i, st.out.finalCost.cost = A i ∧ st'.out.finalCost.cost = B i) ∨ st.out.finalCost.cost = maxVal ∧ st'.out.finalCost.cost = maxVal) ∧
    st'.trace.map (fun r => (r.x, r.succ, r.dx, r.xNext)) = st.trace.map (fun r => (r.x, r.succ, r.dx, r.xNext))

namespace CostOrder
variable {A B : ι → ℝ} {so so' : SolverOpts ℝ} {P P' : Problem ℝ R W X} {L : LinAlg ℝ} {o o' : Options ℝ W (DVec ℝ)}

theorem valid (h : SameOrder A B) {c c' : Cost ℝ R} (hc : OrderCost A B c c') : c.isValid = c'.isValid := by
  obtain ⟨i, h1, h2, h3⟩ := hc
  have a : ne c.cost maxVal = true := by rw [h1]; simp [FloatOps.ne, (h.left i).ne]
  have b : ne c'.cost maxVal = true := by rw [h2]; simp [FloatOps.ne, (h.right i).ne]
  have e : (c.num > 0) ↔ (c'.num > 0) := by
    show 0 < c.num ↔ 0 < c'.num
    rw [← Int.sign_eq_one_iff_pos, ← Int.sign_eq_one_iff_pos, h3]
  simp only [Cost.isValid, a, b, e]

theorem vecTwin_refl {v v' : Vec ℝ n} (h : VecTwin (Equiv.refl (Fin n)) 1 v v') : v' = v := by
  funext i
  have := h i
  simpa using this

theorem linTwin : LinTwin L (Equiv.refl (Fin n)) 1 where
  ldlt M M' b b' _ _ hM hb := by
    have e1 : M' = M := by funext i j; have := hM i j; simpa using this
    rw [e1, vecTwin_refl hb]
    cases L.ldlt n M b with
    | none => exact .none
    | some v => exact .some fun i => by simp
  inv M M' hM := by
    have e1 : M' = M := by funext i j; have := hM i j; simpa using this
    rw [e1]
    intro i j; simp

theorem twin (hso : SameButScaling so so') (h : SameOrder A B) (hP : CostsDiffer so so' n A B P P') :
    Twin (Equiv.refl (Fin n)) 1 so so' (OrderCost A B) id P P' where
  pos := one_pos
  useLdlt := by rw [hso]
  hIsFull := by rw [hso]
  gradClip := by rw [hso, one_mul]
  checkMinHDiag := by rw [hso, one_mul]
  dampInit := by rw [hso]
  dampLo := by rw [hso]
  dampHi := by rw [hso]
  goodFactor := by rw [hso]
  badFactor := by rw [hso]
  dims := hP.dims
  dyn y := hP.dyn y
  dyn' y := hP.dyn' y
  plus y v v' hv := by rw [vecTwin_refl hv, hP.plus]; rfl
  clock := hP.clock
  ratio1 := hP.ratio1
  alloc w j := by rw [hP.alloc]; exact ⟨rfl, rfl⟩
  full w y := by
    obtain ⟨h1, h2, h3⟩ := hP.full w y
    exact ⟨_, _, (P.acc.full w y n (fun _ => 0) (fun _ _ => 0)).1.2.1, (P'.acc.full w y n (fun _ => 0) (fun _ _ => 0)).1.2.1,
      (P.acc.full w y n (fun _ => 0) (fun _ _ => 0)).1.2.2, (P'.acc.full w y n (fun _ => 0) (fun _ _ => 0)).1.2.2, (P.acc.full w y n (fun _ => 0) (fun _ _ => 0)).2, rfl, by rw [h2], h3,
      fun i => by simp [h1], fun i j => by simp [h1]⟩
  eval w y := by
    obtain ⟨h1, h2⟩ := hP.eval w y
    exact ⟨_, _, (P.acc.eval w y).2, rfl, by rw [h1], h2⟩
  valid _ _ hc := valid h hc

theorem optSim (h : SameOrder A B) (ho : OrderOpts A B o o') :
    OptSim o o' (twinRels (Equiv.refl (Fin n)) 1 (OrderCost (R := R) A B) (OrderBest A B) (fun _ _ => True) (id : X → X)) where
  checkFinalCost := by rw [ho.same]
  useStepQuality := by rw [ho.same]
  maxIters := by rw [ho.same]
  maxTotalFailures := by rw [ho.same]
  maxConsecFailures := by rw [ho.same]
  maxDurationMs := by rw [ho.same]
  gradNorm := by rw [ho.same]; rfl
  gnZero := by simp [twinRels]
  final := by rintro c c' ⟨i, h1, h2, -⟩; exact Or.inl ⟨i, h1, h2⟩
  num := by
    rintro c c' ⟨i, -, -, h3⟩
    rw [← Int.sign_eq_zero_iff_zero (a := c.num), h3, Int.sign_eq_zero_iff_zero]
  bad := fun _ _ _ => rfl
  started := by
    rintro f f' (⟨i, h1, h2⟩ | ⟨h1, h2⟩)
    · rw [Bool.eq_iff_iff, RealOps.lt_eq, RealOps.lt_eq, h1, h2]; exact iff_of_true (h.left i) (h.right i)
    · rw [h1, h2]
  init := fun r => Or.inr ⟨rfl, rfl⟩
  relInit := trivial
  less := by
    rintro c c' f f' ⟨i, h1, h2, -⟩ hf
    rw [Bool.eq_iff_iff, RealOps.lt_eq, RealOps.lt_eq]
    simp only [RealOps.sub_eq, RealOps.ofInt_eq, Int.cast_zero, sub_neg, h1, h2]
    rcases hf with ⟨j, h3, h4⟩ | ⟨h3, h4⟩
    · rw [h3, h4]; exact h.lt i j
    · rw [h3, h4]; exact iff_of_true (h.left i) (h.right i)
  rel := fun _ _ _ _ _ _ => trivial
  quality := fun _ _ _ hu => by rw [ho.quality] at hu; cases hu
  criteria := by
    rintro w c c' f f' dn dn' gn gn' dx dx' g g' ⟨i, h1, h2, -⟩ - rfl hgn hdx hg
    have hgn' : gn' = gn := by have : gn' = 1 ^ 2 * gn := hgn; simpa using this
    have hdx' : dx' = dx := stepTwin_refl hdx
    have hg' : g' = g := stepTwin_refl hg
    subst hgn' hdx' hg'
    have e1 : (lt (ofInt 0) o'.minError && lt c'.cost o'.minError) = (lt (ofInt 0) o.minError && lt c.cost o.minError) := by
      rw [Bool.eq_iff_iff]
      simp only [Bool.and_eq_true, RealOps.lt_eq, RealOps.ofInt_eq, Int.cast_zero, h1, h2]
      exact (ho.minError i).symm
    have e2 : lt (ofInt 0) o.minRerrDec = false := by
      have := ho.minRerrDec
      simpa using this
    have e5 : callStop1 o w c'.cost dn gn' = callStop1 o w c.cost dn gn' := by
      unfold callStop1
      have := ho.cb1
      revert this
      cases o.stopCallback with
      | none => intro _; rfl
      | some cb => intro this; exact this cb rfl _ _ _ _ _
    have e6 : ∀ w, callStop2 o w c'.cost dx' g' = callStop2 o w c.cost dx' g' := by
      intro w
      unfold callStop2
      have := ho.cb2
      revert this
      cases o.stopCallback2 with
      | none => intro _; rfl
      | some cb => intro this; exact this cb rfl _ _ _ _ _
    have f1 : ∀ w e a b, callStop1 o' w e a b = callStop1 o w e a b := fun _ _ _ _ => by rw [ho.same]; rfl
    have f2 : ∀ w e a b, callStop2 o' w e a b = callStop2 o w e a b := fun _ _ _ _ => by rw [ho.same]; rfl
    have f3 : o'.minRerrDec = o.minRerrDec := by rw [ho.same]
    have f4 : o'.minStepNorm2 = o.minStepNorm2 := by rw [ho.same]
    have f5 : o'.minGradNorm2 = o.minGradNorm2 := by rw [ho.same]
    unfold criteria
    rw [e1, f3, f4, f5, e2, f1, f2, e5, e6]
    rfl

theorem orderRun {S S' : Type} {a : Res (LoopSt ℝ R W S X (DVec ℝ) (DMat ℝ))} {b : Res (LoopSt ℝ R W S' X (DVec ℝ) (DMat ℝ))}
    (h : Res.Rel (FinalSim (twinRels (Equiv.refl (Fin n)) 1 (OrderCost A B) (OrderBest A B) (fun _ _ => True) (id : X → X))) a b) : Res.Rel (OrderRun A B) a b := by
  refine Res.Rel.mono h ?_
  rintro st st' ⟨h1, h2, h3, h4⟩
  refine ⟨h1.symm, h2.symm, h3.stop.symm, h3.numIters.symm, h3.numFailures.symm, h3.numConsec.symm, h3.duration.symm, h3.successes.symm, ?_, ?_, h3.finalCost, ?_⟩
  · have := map_eq_of_forall₂ (f := id) (g := id) (fun a b (hab : a = b) => hab.symm) h3.deltas2
    simpa using this
  · refine h3.errs.imp fun e e' he => ?_
    obtain ⟨c, c', ⟨i, h1, h2, -⟩, h3, h4⟩ := he
    exact ⟨i, h3.trans h1, h4.trans h2⟩
  · refine map_eq_of_forall₂ (fun r r' hr => ?_) h4
    have e1 : r.x = r'.x := hr.x
    have e2 : r.xNext = r'.xNext := hr.xNext
    have e3 : r'.dx = r.dx := by
      have := hr.dx
      generalize r.dx = p at this ⊢
      generalize r'.dx = p' at this ⊢
      cases this with
      | none => rfl
      | some hab => rw [stepTwin_refl hab]
    rw [e1, hr.succ, e3, e2]

end CostOrder

section
variable {A B : ι → ℝ} {so so' : SolverOpts ℝ} {P P' : Problem ℝ R W X} {L : LinAlg ℝ} {o o' : Options ℝ W (DVec ℝ)}

/-- **C111, Gauss-Newton**: runs on problems that differ in the costs only, ordered in the same way, are the same, whatever the linear solver does. -/
theorem C111_gn (hso : SameButScaling so so') (h : SameOrder A B) (hP : CostsDiffer so so' n A B P P') (ho : OrderOpts A B o o') (fuel : Nat) (mi : Int) (w : W) (x : X)
    (s s' : GNState ℝ R) (hn : s.n = s'.n) (hd : ∀ d, P.dims = some d → s.n = d) :
    Res.Rel (OrderRun A B) (optimizeAcc (gnEnv so L P) o fuel mi w s x) (optimizeAcc (gnEnv so' L P') o' fuel mi w s' x) :=
  CostOrder.orderRun (run_runsim (gn_runsim (CostOrder.twin hso h hP) CostOrder.linTwin (Or.inr (Or.inr rfl))) (CostOrder.optSim h ho) fuel mi w s s' x x rfl ⟨hn, hd⟩ (Or.inl fun _ _ h => h))

/-- **C111, Levenberg-Marquardt** -/
theorem C111_lm (hso : SameButScaling so so') (h : SameOrder A B) (hP : CostsDiffer so so' n A B P P') (ho : OrderOpts A B o o') (fuel : Nat) (mi : Int) (w : W) (x : X)
    (g : Vec ℝ (P.dims.getD 0)) (H : Mat ℝ (P.dims.getD 0)) (g' : Vec ℝ (P'.dims.getD 0)) (H' : Mat ℝ (P'.dims.getD 0)) :
    Res.Rel (OrderRun A B) (optimizeAcc (lmEnv so L P) o fuel mi w (lmFresh so P g H) x) (optimizeAcc (lmEnv so' L P') o' fuel mi w (lmFresh so' P' g' H') x) := by
  have ht := CostOrder.twin hso h hP
  refine CostOrder.orderRun (run_runsim (lm_runsim ht CostOrder.linTwin (Or.inr (Or.inr rfl))) (CostOrder.optSim h ho) fuel mi w _ _ x x rfl
    ⟨⟨ht.dampInit.symm, rfl, ht.badFactor.symm, rfl, Or.inl rfl⟩, ?_, ?_⟩ (Or.inl fun _ _ h => h))
  · simp only [lmFresh, lmReset, gnFresh, hP.dims]
  · intro d hd
    simp only [lmFresh, lmReset, gnFresh, hd, Option.getD_some]

/-- **C111, gradient descent** -/
theorem C111_gd (hso : SameButScaling so so') (h : SameOrder A B) (hP : CostsDiffer so so' n A B P P') (ho : OrderOpts A B o o') (fuel : Nat) (mi : Int) (w : W) (x : X)
    (s s' : GNState ℝ R) (hn : s.n = s'.n) (hd : ∀ d, P.dims = some d → s.n = d) :
    Res.Rel (OrderRun A B) (optimizeAcc (gdEnv so P) o fuel mi w s x) (optimizeAcc (gdEnv so' P') o' fuel mi w s' x) :=
  CostOrder.orderRun (run_runsim (gd_runsim (CostOrder.twin hso h hP) (by rw [hso]; simp)) (CostOrder.optSim h ho) fuel mi w s s' x x rfl ⟨hn, hd⟩ (Or.inl fun _ _ h => h))

end

/-! ## Constant residuals, scaled costs -/

/-- the residuals `r` and further ones with the constant values `c` -/
noncomputable def withConst (r : Vec ℝ n → Vec ℝ m) (J : Vec ℝ n → Fin m → Fin n → ℝ) (c : Vec ℝ p) : Problem ℝ ℝ Unit (Vec ℝ n) :=
  nlsProb (fun x => Fin.append (r x) c) (fun x => Fin.append (J x) fun _ _ => 0)

/-- options that do not look at the size of the costs -/
structure NoSize (o : Options ℝ W (DVec ℝ)) : Prop where
  minError : o.minError ≤ 0
  minRerrDec : o.minRerrDec ≤ 0
  quality : o.useStepQuality = false
  cb1 : ∀ cb ∈ o.stopCallback, ∀ w e e' dn gn, cb w e dn gn = cb w e' dn gn
  cb2 : ∀ cb ∈ o.stopCallback2, ∀ w e e' d g, cb w e d g = cb w e' d g

namespace CostOrder
variable {so so' : SolverOpts ℝ} {r : Vec ℝ n → Vec ℝ m} {J : Vec ℝ n → Fin m → Fin n → ℝ} {c : Vec ℝ p} {o : Options ℝ W (DVec ℝ)}

theorem opts {A B : ι → ℝ} (h : NoSize o) : OrderOpts A B o o where
  same := rfl
  minError _ := iff_of_false (fun h' => absurd h'.1 (not_lt.mpr h.minError)) (fun h' => absurd h'.1 (not_lt.mpr h.minError))
  minRerrDec := h.minRerrDec
  quality := h.quality
  cb1 := h.cb1
  cb2 := h.cb2

theorem dotR_append (u : Vec ℝ m) (c : Vec ℝ p) : dotR (Fin.append u c) (Fin.append u c) = dotR u u + dotR c c := by
  simp [dotR, Fin.sum_univ_add]

theorem tmv_append (M : Fin m → Fin n → ℝ) (u : Vec ℝ m) (c : Vec ℝ p) : tmv (Fin.append M fun _ _ => 0) (Fin.append u c) = tmv M u := by
  funext i; simp [tmv, Fin.sum_univ_add]

theorem gram_append (M : Fin m → Fin n → ℝ) : gram (Fin.append M (fun (_ : Fin p) _ => 0)) = gram M := by
  funext i j; simp [gram, Fin.sum_univ_add]

theorem normalizeCost_num (so : SolverOpts ℝ) (c : Cost ℝ R) : (normalizeCost so c).num = c.num := by
  unfold normalizeCost
  dsimp only

theorem nCost_le_iff {so so' : SolverOpts ℝ} {m m' : Nat} {a b t : ℝ} (ha : 0 ≤ a) (hb : 0 ≤ b) (ht : 0 ≤ t) :
    nCost so m a < nCost so m b ↔ nCost so' m' (a + t) < nCost so' m' (b + t) := by
  rw [nCost_lt ha hb, nCost_lt (by positivity) (by positivity)]
  exact (add_lt_add_iff_right t).symm

theorem const_differ (hm : 0 < m) :
    CostsDiffer so so' n (fun x => nCost so m (dotR (r x) (r x))) (fun x => nCost so' (m + p) (dotR (r x) (r x) + dotR c c)) (nlsProb r J) (withConst r J c) where
  dims := rfl
  dyn _ := rfl
  dyn' _ := rfl
  plus := rfl
  clock := rfl
  ratio1 := rfl
  alloc := rfl
  full w x := by
    refine ⟨?_, rfl, x, ?_, ?_, ?_⟩
    · simp only [nlsProb, withConst, tmv_append, gram_append]
    · exact normalizeCost_eq _ rfl
    · rw [normalizeCost_eq (m := m + p) _ rfl]
      simp only [nlsProb, withConst, dotR_append]
    · rw [normalizeCost_num, normalizeCost_num]
      simp only [nlsProb, withConst]
      rw [Int.sign_eq_one_of_pos (by exact_mod_cast hm), Int.sign_eq_one_of_pos (by push_cast; omega)]
  eval w x := by
    refine ⟨rfl, x, ?_, ?_, ?_⟩
    · exact normalizeCost_eq _ rfl
    · rw [normalizeCost_eq (m := m + p) _ rfl]
      simp only [nlsProb, withConst, dotR_append]
    · rw [normalizeCost_num, normalizeCost_num]
      simp only [nlsProb, withConst]
      rw [Int.sign_eq_one_of_pos (by exact_mod_cast hm), Int.sign_eq_one_of_pos (by push_cast; omega)]

theorem scaling_differ :
    CostsDiffer so so' n (fun x => nCost so m (dotR (r x) (r x))) (fun x => nCost so' m (dotR (r x) (r x))) (nlsProb r J) (nlsProb r J) where
  dims := rfl
  dyn _ := rfl
  dyn' _ := rfl
  plus := rfl
  clock := rfl
  ratio1 := rfl
  alloc := rfl
  full w x := ⟨rfl, rfl, x, normalizeCost_eq _ rfl, normalizeCost_eq _ rfl, by rw [normalizeCost_num, normalizeCost_num]⟩
  eval w x := ⟨rfl, x, normalizeCost_eq _ rfl, normalizeCost_eq _ rfl, by rw [normalizeCost_num, normalizeCost_num]⟩

theorem const_order (h : ∀ x, nCost so m (dotR (r x) (r x)) < maxVal ∧ nCost so' (m + p) (dotR (r x) (r x) + dotR c c) < maxVal) :
    SameOrder (fun x => nCost so m (dotR (r x) (r x))) (fun x => nCost so' (m + p) (dotR (r x) (r x) + dotR c c)) where
  lt _ _ := nCost_le_iff (dotR_self_nonneg _) (dotR_self_nonneg _) (dotR_self_nonneg _)
  left x := (h x).1
  right x := (h x).2

theorem scaling_order (h : ∀ x, nCost so m (dotR (r x) (r x)) < maxVal ∧ nCost so' m (dotR (r x) (r x)) < maxVal) :
    SameOrder (fun x => nCost so m (dotR (r x) (r x))) (fun x => nCost so' m (dotR (r x) (r x))) where
  lt x y := by
    have := nCost_le_iff (so := so) (so' := so') (m := m) (m' := m) (dotR_self_nonneg (r x)) (dotR_self_nonneg (r y)) le_rfl
    simpa only [add_zero] using this
  left x := (h x).1
  right x := (h x).2

end CostOrder

section
variable (r : Vec ℝ n → Vec ℝ m) (J : Vec ℝ n → Fin m → Fin n → ℝ) (c : Vec ℝ p) {so so' : SolverOpts ℝ} {o : Options ℝ Unit (DVec ℝ)} {L : LinAlg ℝ}
open CostOrder

/-- **C111, constant residuals**: residuals that do not depend on the parameters change the costs only, with any scaling of the costs. -/
theorem C111_constant (hm : 0 < m) (hr : ∀ x, nCost so m (dotR (r x) (r x)) < maxVal ∧ nCost so (m + p) (dotR (r x) (r x) + dotR c c) < maxVal) (ho : NoSize o) (fuel : Nat) (mi : Int)
    (x : Vec ℝ n) :
    (∀ s, Res.Rel (OrderRun (fun x => nCost so m (dotR (r x) (r x))) fun x => nCost so (m + p) (dotR (r x) (r x) + dotR c c))
      (optimizeAcc (gnEnv so L (nlsProb r J)) o fuel mi () s x) (optimizeAcc (gnEnv so L (withConst r J c)) o fuel mi () s x)) ∧
    (∀ g H g' H', Res.Rel (OrderRun (fun x => nCost so m (dotR (r x) (r x))) fun x => nCost so (m + p) (dotR (r x) (r x) + dotR c c))
      (optimizeAcc (lmEnv so L (nlsProb r J)) o fuel mi () (lmFresh so (nlsProb r J) g H) x) (optimizeAcc (lmEnv so L (withConst r J c)) o fuel mi () (lmFresh so (withConst r J c) g' H') x)) ∧
    (∀ s, Res.Rel (OrderRun (fun x => nCost so m (dotR (r x) (r x))) fun x => nCost so (m + p) (dotR (r x) (r x) + dotR c c))
      (optimizeAcc (gdEnv so (nlsProb r J)) o fuel mi () s x) (optimizeAcc (gdEnv so (withConst r J c)) o fuel mi () s x)) :=
  ⟨fun s => C111_gn (rfl : SameButScaling so so) (const_order hr) (const_differ hm) (opts ho) fuel mi () x s s rfl (fun d hd => by simp [nlsProb] at hd),
    fun g H g' H' => C111_lm (rfl : SameButScaling so so) (const_order hr) (const_differ hm) (opts ho) fuel mi () x g H g' H',
    fun s => C111_gd (rfl : SameButScaling so so) (const_order hr) (const_differ hm) (opts ho) fuel mi () x s s rfl (fun d hd => by simp [nlsProb] at hd)⟩

/-- **C111, scaling of the costs** (and C29 for whole runs): with the squared norm, the norm, half of it, or divided by the number of residuals, the run is the same. -/
theorem C111_scaling (hso : SameButScaling so so') (hr : ∀ x, nCost so m (dotR (r x) (r x)) < maxVal ∧ nCost so' m (dotR (r x) (r x)) < maxVal) (ho : NoSize o) (fuel : Nat) (mi : Int)
    (x : Vec ℝ n) :
    (∀ s, Res.Rel (OrderRun (fun x => nCost so m (dotR (r x) (r x))) fun x => nCost so' m (dotR (r x) (r x)))
      (optimizeAcc (gnEnv so L (nlsProb r J)) o fuel mi () s x) (optimizeAcc (gnEnv so' L (nlsProb r J)) o fuel mi () s x)) ∧
    (∀ g H g' H', Res.Rel (OrderRun (fun x => nCost so m (dotR (r x) (r x))) fun x => nCost so' m (dotR (r x) (r x)))
      (optimizeAcc (lmEnv so L (nlsProb r J)) o fuel mi () (lmFresh so (nlsProb r J) g H) x) (optimizeAcc (lmEnv so' L (nlsProb r J)) o fuel mi () (lmFresh so' (nlsProb r J) g' H') x)) ∧
    (∀ s, Res.Rel (OrderRun (fun x => nCost so m (dotR (r x) (r x))) fun x => nCost so' m (dotR (r x) (r x)))
      (optimizeAcc (gdEnv so (nlsProb r J)) o fuel mi () s x) (optimizeAcc (gdEnv so' (nlsProb r J)) o fuel mi () s x)) :=
  ⟨fun s => C111_gn hso (scaling_order hr) scaling_differ (opts ho) fuel mi () x s s rfl (fun d hd => by simp [nlsProb] at hd),
    fun g H g' H' => C111_lm hso (scaling_order hr) scaling_differ (opts ho) fuel mi () x g H g' H',
    fun s => C111_gd hso (scaling_order hr) scaling_differ (opts ho) fuel mi () x s s rfl (fun d hd => by simp [nlsProb] at hd)⟩

end

end

/-- hypotheses of `C111_constant` and `C111_scaling`: the residuals `2 + sin x` and 1, and a constant residual 3; the norm instead of the squared norm; default options without the
criteria on the costs, and a callback that looks at the step -/
example : (∀ x : Vec ℝ 1, nCost soptsR 2 (dotR (fun i => if i = 0 then 2 + Real.sin (x 0) else 1 : Vec ℝ 2) (fun i => if i = 0 then 2 + Real.sin (x 0) else 1)) < maxVal ∧
      nCost soptsR (2 + 1) (dotR (fun i => if i = 0 then 2 + Real.sin (x 0) else 1 : Vec ℝ 2) (fun i => if i = 0 then 2 + Real.sin (x 0) else 1) + dotR ![3] ![3]) < maxVal ∧
      nCost { soptsR with useSquaredNorm := false } 2 (dotR (fun i => if i = 0 then 2 + Real.sin (x 0) else 1 : Vec ℝ 2) (fun i => if i = 0 then 2 + Real.sin (x 0) else 1)) < maxVal) ∧
    SameButScaling soptsR { soptsR with useSquaredNorm := false } ∧
    NoSize { optsDef Unit with minError := 0, minRerrDec := 0, stopCallback2 := some fun w _ d _ => (decide (d.n = 2), w) } := by
  refine ⟨fun x => ?_, rfl, ⟨le_rfl, le_rfl, rfl, ?_, ?_⟩⟩
  · have h1 := Real.sin_le_one (x 0)
    have h2 := Real.neg_one_le_sin (x 0)
    have e : dotR (fun i => if i = 0 then 2 + Real.sin (x 0) else 1 : Vec ℝ 2) (fun i => if i = 0 then 2 + Real.sin (x 0) else 1) = (2 + Real.sin (x 0)) ^ 2 + 1 := by
      simp [dotR, Fin.sum_univ_two]; ring
    have b1 : (2 + Real.sin (x 0)) ^ 2 ≤ 9 := by nlinarith
    have b2 : 0 ≤ (2 + Real.sin (x 0)) ^ 2 := sq_nonneg _
    have e1 : ∀ k t, nCost soptsR k t = t := fun k t => by simp [nCost, normalizeCost, soptsR]
    have e2 : ∀ t, nCost { soptsR with useSquaredNorm := false } 2 t = Real.sqrt t := fun t => by simp [nCost, normalizeCost, soptsR]
    have e3 : dotR ![(3 : ℝ)] ![3] = 9 := by simp [dotR]; norm_num
    rw [e, e1, e1, e2, e3]
    refine ⟨lt_trans ?_ big1024, lt_trans ?_ big1024, lt_trans ?_ big1024⟩
    · linarith
    · linarith
    · rw [Real.sqrt_lt' (by norm_num)]; linarith
  · intro cb hcb; cases hcb
  · intro cb hcb w e e' d g
    simp only [Option.mem_def, Option.some.injEq] at hcb
    rw [← hcb]

/-- **The conditions are needed**: with a threshold of the cost, or of its relative decrease, a constant residual changes the stop reason. -/
theorem C111_conditions :
    (optimizeAcc (gdEnv { sopts1 with lr := div (ofInt 1) (ofInt 4) } (unit1 (ofInt 1) none)) { opts1 20 with minError := div (ofInt 1) (ofInt 8) } 1000 (-1) 0 gn0 (ofInt 1)).stopOf ≠
      (optimizeAcc (gdEnv { sopts1 with lr := div (ofInt 1) (ofInt 4) } (unit2 (ofInt 1))) { opts1 20 with minError := div (ofInt 1) (ofInt 8) } 1000 (-1) 0 gn0 (ofInt 1)).stopOf ∧
    (optimizeAcc (gdEnv { sopts1 with lr := div (ofInt 1) (ofInt 4) } (unit1 (ofInt 1) none)) { opts1 5 with minRerrDec := div (ofInt 1) (ofInt 8) } 1000 (-1) 0 gn0 (ofInt 1)).stopOf ≠
      (optimizeAcc (gdEnv { sopts1 with lr := div (ofInt 1) (ofInt 4) } (unit2 (ofInt 1))) { opts1 5 with minRerrDec := div (ofInt 1) (ofInt 8) } 1000 (-1) 0 gn0 (ofInt 1)).stopOf := by
  decide +kernel

/-- the residual `x`, and perhaps a constant residual 1, in double precision -/
def offset64 (one : Bool) : Problem (Fl Fmt.binary64) (Fl Fmt.binary64) Nat (Fl Fmt.binary64) where
  acc :=
    { full := fun w x _ g H =>
        (({ cost := if one then add (mul x x) (ofInt 1) else mul x x, num := if one then 2 else 1, inlier := ofInt 1 }, fun i => add (g i) x, fun i j => add (H i j) (ofInt 1)), w + 1)
      eval := fun w x => ({ cost := if one then add (mul x x) (ofInt 1) else mul x x, num := if one then 2 else 1, inlier := ofInt 1 }, w) }
  dims := some 1
  dynDims := fun _ => 1
  plusEq := fun x d => if h : 0 < d.n then add x (d.v ⟨0, h⟩) else x
  clock := fun w => (ofInt 1, w)
  alloc := fun w _ => (some (fun _ => ofInt 0, fun _ _ => ofInt 0), w)
  ratio1 := ofInt 1

/-- **In double precision constant residuals matter**: `x^2` decreases, `x^2 + 1` is rounded to 1 and does not. -/
theorem C111_rounding :
    (optimizeAcc (gdEnv { soptsGd64 with lr := div (ofInt 1) (ofInt 4) } (offset64 false)) { optsGd64 with maxIters := 1 } 10 (-1) 0
      (gnFresh (offset64 false) (fun _ => ofInt 0) (fun _ _ => ofInt 0)) (div (ofInt 1) (ofInt (2 ^ 30)))).holds (fun st => decide (st.out.successes = [true, true])) = true ∧
    (optimizeAcc (gdEnv { soptsGd64 with lr := div (ofInt 1) (ofInt 4) } (offset64 true)) { optsGd64 with maxIters := 1 } 10 (-1) 0
      (gnFresh (offset64 true) (fun _ => ofInt 0) (fun _ _ => ofInt 0)) (div (ofInt 1) (ofInt (2 ^ 30)))).holds (fun st => decide (st.out.successes = [true, false])) = true := by
  decide +kernel

end Verif
