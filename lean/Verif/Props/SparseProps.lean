import Verif.Model.Sparse
import Verif.Lemmas.Hom
import Verif.Props.LinearLS
import Verif.Examples.Toy
/-!
# C61: sparse and dense Hessians
-/

set_option linter.unusedSectionVars false

namespace Verif
open FloatOps

section
variable {F R W X V : Type} [FloatOps F]

/-- `Pd` is the function of `Ps` with a dense Hessian: same cost, same gradient, and the Hessian has the coefficients `φ H` where `H` are the
coefficients of the sparse one. Memory for the dense Hessian is zeroed by the allocator. -/
structure SameFunction (Ps : SpProblem F R W X) (Pd : Problem F R W X) (φ : ∀ n, Mat F n → Mat F n) : Prop where
  dims : Pd.dims = none
  dynDims : Pd.dynDims = Ps.dynDims
  plusEq : Pd.plusEq = Ps.plusEq
  clock : Pd.clock = Ps.clock
  ratio1 : Pd.ratio1 = Ps.ratio1
  alloc : ∀ w n, Pd.alloc w n = ((Ps.alloc w n).1.map fun g => (g, fun _ _ => ofInt 0), (Ps.alloc w n).2)
  eval : Pd.acc.eval = Ps.acc.eval
  full : ∀ w x n c g H w', Ps.acc.full w x n (fun _ => ofInt 0) (SpSq.zero n) = ((c, g, H), w') →
    Pd.acc.full w x n (fun _ => ofInt 0) (fun _ _ => ofInt 0) = ((c, g, φ n H.dense), w')

/-- the sparse factorisation gives what the dense one gives on the same symmetric matrix -/
def SameLDLT (Ls : SpLinAlg F) (Ld : LinAlg F) : Prop :=
  ∀ n (A : SpSq F n) b, Ld.ldlt n (symUpper A.dense) b = spSolveLDLT Ls A b

/-- the dense solver state with the same numbers, the Hessian changed by `φ` -/
def SpGNState.toDense (φ : ∀ n, Mat F n → Mat F n) (s : SpGNState F R) : GNState F R := ⟨s.n, s.g, φ s.n s.H.dense, s.cost⟩
def SpLMState.toDense (s : SpLMState F R) : LMState F R :=
  ⟨s.gn.toDense fun _ H => H, s.lambda, s.prev, s.badF, s.rebuild⟩

theorem dense_zero (n : Nat) : (SpSq.zero n : SpSq F n).dense = fun _ _ => ofInt 0 := by
  funext i j; exact SpMat.zero_coeff n i j

theorem dense_updateDiag {n : Nat} (A : SpSq F n) (f : F → F) (i j : Fin n) :
    (A.updateDiag f).dense i j = if i = j then f (A.dense i j) else A.dense i j := by
  show (A.m.updateDiag f).coeff i j = _
  rw [SpMat.updateDiag_coeff A.ok f i j j.2]
  by_cases h : i = j
  · subst h; simp [SpSq.dense]
  · have : ¬ (i : Nat) = j := fun h' => h (Fin.ext h')
    simp [h, this, SpSq.dense]

theorem dense_symUpper {n : Nat} (A : SpSq F n) : A.symUpper.dense = symUpper A.dense := by
  funext i j
  show A.m.symUpper.coeff i j = _
  rw [SpMat.symUpper_coeff A.ok i j i.2 j.2]
  unfold symUpper SpSq.dense
  by_cases h : i ≤ j
  · have : (i : Nat) ≤ j := h
    simp [h, this]
  · have : ¬ (i : Nat) ≤ j := h
    simp [h, this]

theorem dense_lowDiag {n : Nat} (A : SpSq F n) (t : F) : A.m.lowDiag t = lowDiag t A.dense := by
  unfold SpMat.lowDiag lowDiag
  rw [A.ok.2.1, A.ok.2.2, Nat.min_self]
  rw [Bool.eq_iff_iff, List.any_eq_true, List.any_eq_true]
  constructor
  · rintro ⟨i, hi, h⟩
    exact ⟨⟨i, List.mem_range.1 hi⟩, List.mem_finRange _, h⟩
  · rintro ⟨i, -, h⟩
    exact ⟨i, List.mem_range.2 i.2, h⟩

theorem symUpper_symUpper {n : Nat} (H : Mat F n) : symUpper (symUpper H) = symUpper H := by
  funext i j
  unfold symUpper
  rcases lt_trichotomy i j with h | h | h
  · simp [h.le]
  · simp [h]
  · simp [h.le, not_le.2 h]

theorem lowDiag_symUpper {n : Nat} (H : Mat F n) (t : F) : lowDiag t (symUpper H) = lowDiag t H := by
  unfold lowDiag symUpper; simp

theorem symUpper_zero (n : Nat) : symUpper (fun _ _ : Fin n => (ofInt 0 : F)) = fun _ _ => ofInt 0 := by
  funext i j; simp [symUpper]

variable {so : SolverOpts F} {Ls : SpLinAlg F} {Ld : LinAlg F} {Ps : SpProblem F R W X} {Pd : Problem F R W X} {o : Options F W (DVec F)}

theorem spResize_hom {φ : ∀ n, Mat F n → Mat F n} (h : SameFunction Ps Pd φ) (h0 : ∀ n, φ n (fun _ _ => ofInt 0) = fun _ _ => ofInt 0)
    (w : W) (s : SpGNState F R) (d : Int) :
    gnResize Pd w (s.toDense φ) d = ((spResize Ps w s d).1.map (SpGNState.toDense φ), (spResize Ps w s d).2) := by
  unfold gnResize spResize
  rw [h.dims]
  simp only
  split
  · rfl
  · have e : (s.toDense φ).n = s.n := rfl
    rw [e]
    split
    · rfl
    · rw [h.alloc]
      rcases Ps.alloc w d.toNat with ⟨a, w'⟩
      cases a with
      | none => rfl
      | some g => simp [ResizeOut.map, SpGNState.toDense, dense_zero, h0]

/-- The system is built in the same way. `φ` is the identity (nothing filled) or the symmetric completion. -/
theorem spBuild_hom {φ : ∀ n, Mat F n → Mat F n} (h : SameFunction Ps Pd φ) (fill : Bool)
    (hφ : ∀ n (A : SpSq F n) t, lowDiag t (φ n A.dense) = A.m.lowDiag t)
    (hf : fill = true → ∀ n (A : SpSq F n), φ n (A.symUpper).dense = φ n A.dense) (w : W) (s : SpGNState F R) (x : X) :
    buildSystem { so with useLdlt := true } Pd w (s.toDense φ) x =
      ((spBuildSystem so Ps fill w s x).1, (spBuildSystem so Ps fill w s x).2.1.toDense φ, (spBuildSystem so Ps fill w s x).2.2) := by
  obtain ⟨n, g0, H0, c0⟩ := s
  rcases e : Ps.acc.full w x n (fun _ => ofInt 0) (SpSq.zero n) with ⟨⟨c, g, H⟩, w'⟩
  have e' := h.full _ _ _ _ _ _ _ e
  have hs : spBuildSystem so Ps fill w ⟨n, g0, H0, c0⟩ x = if (normalizeCost so c).isValid then
      if lt (ofInt 0) so.checkMinHDiag && H.m.lowDiag so.checkMinHDiag then
        (false, ⟨n, clampVec so.gradClip g, H, normalizeCost so c⟩, w')
      else (true, if fill then ⟨n, clampVec so.gradClip g, H.symUpper, normalizeCost so c⟩ else
        ⟨n, clampVec so.gradClip g, H, normalizeCost so c⟩, w')
      else (false, ⟨n, g, H, normalizeCost so c⟩, w') := by
    simp only [spBuildSystem, e]
  have hd : buildSystem { so with useLdlt := true } Pd w ⟨n, g0, φ n H0.dense, c0⟩ x = if (normalizeCost so c).isValid then
      if lt (ofInt 0) so.checkMinHDiag && lowDiag so.checkMinHDiag (φ n H.dense) then
        (false, ⟨n, clampVec so.gradClip g, φ n H.dense, normalizeCost so c⟩, w')
      else (true, ⟨n, clampVec so.gradClip g, φ n H.dense, normalizeCost so c⟩, w')
      else (false, ⟨n, g, φ n H.dense, normalizeCost so c⟩, w') := by
    simp only [buildSystem, gnAccumulate, e']
    have ev : (normalizeCost { so with useLdlt := true } c : Cost F R) = normalizeCost so c := rfl
    rw [ev]
    simp
  show buildSystem { so with useLdlt := true } Pd w ⟨n, g0, φ n H0.dense, c0⟩ x = _
  rw [hs, hd, hφ]
  split
  · split
    · rfl
    · cases fill with
      | false => rfl
      | true => simp [SpGNState.toDense, hf rfl]
  · rfl

theorem spSolve_hom {φ : ∀ n, Mat F n → Mat F n} (hL : SameLDLT Ls Ld)
    (hφ : ∀ n (H : Mat F n), symUpper (φ n H) = symUpper H) (one : Bool) (s : SpGNState F R) :
    gnSolve { so with useLdlt := true } Ld one (s.toDense φ) = spSolve Ls s := by
  unfold gnSolve spSolve
  have e : (s.toDense φ).cost = s.cost := rfl
  rw [e]
  split
  · simp only [if_true]
    show Option.map _ (solveLDLT Ld (φ s.n s.H.dense) (negVec s.g)) = _
    unfold solveLDLT
    rw [hφ, hL]
    rfl
  · rfl

theorem spGn_hom {φ : ∀ n, Mat F n → Mat F n} (hP : SameFunction Ps Pd φ) (hL : SameLDLT Ls Ld)
    (h0 : ∀ n, φ n (fun _ _ => ofInt 0) = fun _ _ => ofInt 0) (hd : ∀ n (A : SpSq F n) t, lowDiag t (φ n A.dense) = A.m.lowDiag t)
    (hf : (!so.hIsFull && !so.useLdlt) = true → ∀ n (A : SpSq F n), φ n (A.symUpper).dense = φ n A.dense)
    (hφ : ∀ n (H : Mat F n), symUpper (φ n H) = symUpper H) :
    Hom (spGnEnv so Ls Ps) (gnEnv { so with useLdlt := true } Ld Pd) (SpGNState.toDense φ) (fun H => ⟨H.n, φ H.n H.m.dense⟩) where
  dimsDynamic := by simp [gnEnv, envOf, spGnEnv, spEnvOf, hP.dims]
  dynDims := hP.dynDims
  plusEq := hP.plusEq
  negV := rfl
  normSq := rfl
  clock := hP.clock
  ratio1 := hP.ratio1
  firstOrder := rfl
  resize := spResize_hom hP h0
  build := spBuild_hom hP _ hd hf
  solve s := spSolve_hom hL hφ _ s
  cost _ := rfl
  gradSq _ := rfl
  gradient _ := rfl
  good _ _ := rfl
  bad _ := rfl
  failed _ := rfl
  rebuild _ _ := rfl
  hessian _ := rfl

theorem spDamp_hom (s : SpLMState F R) : lmDamp s.toDense = (spDamp s).toDense := by
  unfold lmDamp spDamp
  have e : s.toDense.lambda = s.lambda := rfl
  rw [e]
  split
  · simp only [SpLMState.toDense, SpGNState.toDense]
    congr 2
    funext i j
    rw [dense_updateDiag]
    rfl
  · rfl

theorem spLm_hom (hP : SameFunction Ps Pd fun _ H => H) (hL : SameLDLT Ls Ld) :
    Hom (spLmEnv so Ls Ps) (lmEnv { so with useLdlt := true } Ld Pd) SpLMState.toDense DSp.dense where
  dimsDynamic := by simp [lmEnv, envOf, spLmEnv, spEnvOf, hP.dims]
  dynDims := hP.dynDims
  plusEq := hP.plusEq
  negV := rfl
  normSq := rfl
  clock := hP.clock
  ratio1 := hP.ratio1
  firstOrder := rfl
  resize w s d := by
    simp only [lmEnv, envOf, lmSolver, spLmEnv, spEnvOf, spLmSolver]
    have e : s.toDense.gn = s.gn.toDense fun _ H => H := rfl
    rw [e, spResize_hom hP (fun _ => rfl)]
    rcases spResize Ps w s.gn d with ⟨r, w'⟩
    cases r <;> rfl
  build w s x := by
    show lmBuild _ Pd w s.toDense x = ((spLmBuild so Ps w s x).1, (spLmBuild so Ps w s x).2.1.toDense, (spLmBuild so Ps w s x).2.2)
    unfold lmBuild spLmBuild
    have e : s.toDense.rebuild = s.rebuild := rfl
    rw [e]
    split
    · have e : s.toDense.gn = s.gn.toDense fun _ H => H := rfl
      rw [e, spBuild_hom hP false (fun n A t => (dense_lowDiag A t).symm) (fun h => by cases h)]
      rcases spBuildSystem so Ps false w s.gn x with ⟨b, g1, w1⟩
      cases b
      · rfl
      · simp only [if_true]
        exact congrArg (fun t => (true, t, w1)) (spDamp_hom { s with gn := g1 })
    · unfold lmEvaluate
      rw [hP.eval]
      rcases Ps.acc.eval w x with ⟨c, w1⟩
      simp only
      have ev : (normalizeCost { so with useLdlt := true } c : Cost F R) = normalizeCost so c := rfl
      rw [ev]
      split
      · exact congrArg (fun t => (true, t, w1)) (spDamp_hom { s with gn := { s.gn with cost := normalizeCost so c } })
      · rfl
  solve s := spSolve_hom hL (fun _ _ => rfl) _ s.gn
  cost _ := rfl
  gradSq _ := rfl
  gradient _ := rfl
  good s q := by
    show lmGood _ s.toDense q = (spGood so s q).map _
    unfold lmGood spGood
    show Res.map _ (stdClamp (mul s.lambda (goodScale so q s.badF)) so.dampLo so.dampHi) = _
    cases stdClamp (mul s.lambda (goodScale so q s.badF)) so.dampLo so.dampHi <;> rfl
  bad s := by
    show lmBad _ s.toDense = (spBad so s).map _
    unfold lmBad spBad
    show Res.map _ (stdClamp (mul s.lambda s.badF) so.dampLo so.dampHi) = _
    cases stdClamp (mul s.lambda s.badF) so.dampLo so.dampHi <;> rfl
  failed s := by
    show lmBad _ s.toDense = (spBad so s).map _
    unfold lmBad spBad
    show Res.map _ (stdClamp (mul s.lambda s.badF) so.dampLo so.dampHi) = _
    cases stdClamp (mul s.lambda s.badF) so.dampLo so.dampHi <;> rfl
  rebuild _ _ := rfl
  hessian s := by
    show lmHessian s.toDense = (spLmHessian s).dense
    unfold lmHessian spLmHessian
    have e : s.toDense.prev = s.prev := rfl
    rw [e]
    split
    · simp only [SpLMState.toDense, SpGNState.toDense, DSp.dense]
      congr 1
      funext i j
      rw [dense_updateDiag]
      rfl
    · rfl

/-- **C61**, Levenberg-Marquardt: a run with a sparse Hessian is, step for step, the run with the dense Hessian and `use_ldlt`: same outcome
(also undefined behaviour and exceptions), same points, same steps, same output, same calls of the user's functions,
and the saved Hessian has the same coefficients. In every arithmetic; `use_ldlt` and `H_is_full` of the sparse run do not matter. -/
theorem C61_lm (hP : SameFunction Ps Pd fun _ H => H) (hL : SameLDLT Ls Ld) (fuel : Nat) (mi : Int) (w : W) (s : SpLMState F R) (x : X) :
    optimizeAcc (lmEnv { so with useLdlt := true } Ld Pd) o fuel mi w s.toDense x =
      (optimizeAcc (spLmEnv so Ls Ps) o fuel mi w s x).map (LoopSt.mapSt SpLMState.toDense DSp.dense) :=
  run_hom (spLm_hom hP hL) fuel mi w s x

/-- **C61**, Gauss-Newton, when the user fills the whole Hessian or `use_ldlt` is set (nothing is mirrored). -/
theorem C61_gn (hP : SameFunction Ps Pd fun _ H => H) (hL : SameLDLT Ls Ld) (hfill : so.useLdlt = true ∨ so.hIsFull = true) (fuel : Nat)
    (mi : Int) (w : W) (s : SpGNState F R) (x : X) :
    optimizeAcc (gnEnv { so with useLdlt := true } Ld Pd) o fuel mi w (s.toDense fun _ H => H) x =
      (optimizeAcc (spGnEnv so Ls Ps) o fuel mi w s x).map (LoopSt.mapSt (SpGNState.toDense fun _ H => H) DSp.dense) :=
  run_hom (spGn_hom hP hL (fun _ => rfl) (fun n A t => (dense_lowDiag A t).symm)
    (fun h => by rcases hfill with h' | h' <;> simp [h'] at h) (fun _ _ => rfl)) fuel mi w s x

/-- **C61**, Gauss-Newton, all options: the run is the dense one on the function that returns the symmetric completion of the upper triangle,
and the saved Hessian has the same upper triangle. -/
theorem C61_gn_upper (hP : SameFunction Ps Pd fun _ H => symUpper H) (hL : SameLDLT Ls Ld) (fuel : Nat)
    (mi : Int) (w : W) (s : SpGNState F R) (x : X) :
    optimizeAcc (gnEnv { so with useLdlt := true } Ld Pd) o fuel mi w (s.toDense fun _ H => symUpper H) x =
      (optimizeAcc (spGnEnv so Ls Ps) o fuel mi w s x).map
        (LoopSt.mapSt (SpGNState.toDense fun _ H => symUpper H) fun H => ⟨H.n, symUpper H.m.dense⟩) :=
  run_hom (spGn_hom hP hL (fun n => symUpper_zero n) (fun n A t => by rw [lowDiag_symUpper, dense_lowDiag])
    (fun _ n A => by rw [dense_symUpper, symUpper_symUpper]) (fun _ H => symUpper_symUpper H)) fuel mi w s x

/-- `sparseView()` keeps the coefficients -/
theorem dense_ofDense {n : Nat} (M : Mat F n) (h : ∀ i j, eq (M i j) (ofInt 0) = true → M i j = ofInt 0) : (SpSq.ofDense M).dense = M := by
  funext i j
  show ((SpSq.ofDense M).m.col[j.1]?.bind fun c => findRow c i).getD (ofInt 0) = M i j
  have e : (SpSq.ofDense M).m.col[j.1]? = some (viewCol M j) := by simp [SpSq.ofDense, List.getElem?_map, List.finRange]
  rw [e]
  have key : ∀ l : List (Fin n), findRow (l.filterMap fun i => if eq (M i j) (ofInt 0) then none else some (i.1, M i j)) i =
      if i ∈ l ∧ eq (M i j) (ofInt 0) = false then some (M i j) else none := by
    intro l
    induction l with
    | nil => rfl
    | cons k l ih =>
      rw [List.filterMap_cons]
      by_cases hk : k = i
      · subst hk
        cases hz : eq (M k j) (ofInt 0) with
        | true => simp only [if_true]; rw [ih]; simp [hz]
        | false => simp [findRow_cons]
      · have h1 : ¬ i = k := fun h => hk h.symm
        have h2 : ¬ (k : Nat) = i := fun h => hk (Fin.ext h)
        cases hz : eq (M k j) (ofInt 0) with
        | true => simp only [if_true]; rw [ih]; simp [h1]
        | false => simp only [Bool.false_eq_true, if_false, findRow_cons, h2]; rw [ih]; simp [h1]
  simp only [Option.bind_some, viewCol]
  rw [key]
  cases hz : eq (M i j) (ofInt 0) with
  | true => simp [h i j hz]
  | false => simp [List.mem_finRange]

end

/-! ### Exact arithmetic -/

section
variable {R W : Type} {m n : Nat}
variable {so : SolverOpts ℝ} {Ls : SpLinAlg ℝ} {Ps : SpProblem ℝ R W (Vec ℝ n)} {P : Problem ℝ R W (Vec ℝ n)} {o : Options ℝ W (DVec ℝ)}
variable {A : Fin m → Fin n → ℝ} {b : Vec ℝ m} {φ : ℝ → ℝ}

/-- What is assumed of the sparse factorisation over the reals: it depends on the coefficients of the upper triangle only (fixed order of elimination)
and solves positive definite systems. -/
structure ExactSparse (Ls : SpLinAlg ℝ) : Prop where
  upper : ∀ n (A B : SpSq ℝ n) v, symUpper A.dense = symUpper B.dense → spSolveLDLT Ls A v = spSolveLDLT Ls B v
  solves : ∀ n (A : SpSq ℝ n) v, PD (symUpper A.dense) → Ls.factor 0 n A = true ∧ mv (symUpper A.dense) (Ls.solve 0 n A v) = v

open Classical in
/-- the dense factorisation that gives the same results -/
theorem exact_dense (h : ExactSparse Ls) : ∃ Ld, ExactLinAlg Ld ∧ SameLDLT Ls Ld := by
  refine ⟨⟨fun n M v => if hM : ∃ A : SpSq ℝ n, symUpper A.dense = M then spSolveLDLT Ls hM.choose v else someLinAlg.ldlt n M v,
    someLinAlg.inv⟩, ⟨fun n M v hpd => ?_, fun n M v hpd => someLinAlg_exact.inv n M v hpd⟩, fun n A v => ?_⟩
  · by_cases hM : ∃ A : SpSq ℝ n, symUpper A.dense = M
    · have hs := h.solves n hM.choose v (by rw [hM.choose_spec]; exact hpd)
      rw [hM.choose_spec] at hs
      refine ⟨_, ?_, hs.2⟩
      simp only [dif_pos hM, spSolveLDLT, RealOps.ofInt_eq, Int.cast_zero]
      exact if_pos hs.1
    · obtain ⟨u, hu, hu2⟩ := someLinAlg_exact.ldlt n M v hpd
      exact ⟨u, by simp only [dif_neg hM]; exact hu, hu2⟩
  · have hM : ∃ B : SpSq ℝ n, symUpper B.dense = symUpper A.dense := ⟨A, rfl⟩
    simp only [dif_pos hM]
    exact h.upper n _ _ v hM.choose_spec

/-- **C61**, consequence for C52: on a linear least squares problem with a sparse Hessian every iteration of Levenberg-Marquardt strictly decreases
the sum of squared residuals or stays at a point with zero gradient. `P` is the same problem with a dense Hessian. -/
theorem C61_lm_linear (hP : SameFunction Ps P fun _ H => H) (h : LinLS P A b φ) (hL : ExactSparse Ls)
    (hA : ∀ l, Allowed so l → PD (dampedR l (gram A))) (hr0 : so.dampLo ≤ so.dampHi) (hlo : 0 ≤ so.dampLo) (hin : 0 ≤ so.dampInit)
    (hmin : DiagOk so (gram A)) (hclip : so.gradClip = 0) (s : SpLMState ℝ R) (hreb : s.rebuild = true) (hal : Allowed so s.lambda)
    (fuel : Nat) (mi k : Int) (hk : loopBound o mi = some k) (hk2 : k ≤ 65536)
    (w : W) (x0 : Vec ℝ n) (hx0 : nCost so m (φ (lsCost A b x0)) < maxVal) :
    ∃ st, optimizeAcc (spLmEnv so Ls Ps) o (fuel + 1) mi w s x0 = .ok st ∧ ∀ r ∈ st.trace, Downhill A b r.x r.xNext := by
  obtain ⟨Ld, hLd, hsame⟩ := exact_dense hL
  obtain ⟨st, he, hd⟩ := C52_lm_monotone (so := { so with useLdlt := true }) (o := o) h hLd hA (Or.inl rfl) hr0 hlo hin hmin hclip s.toDense
    (Or.inl hP.dims) hreb hal fuel mi k hk hk2 w x0 hx0
  rw [C61_lm hP hsame] at he
  cases hrun : optimizeAcc (spLmEnv so Ls Ps) o (fuel + 1) mi w s x0 with
  | ok st1 =>
    rw [hrun] at he
    injection he with he
    refine ⟨st1, rfl, fun r hr => ?_⟩
    have he2 : st.trace = st1.trace.map (Rec.mapH DSp.dense) := by rw [← he]; rfl
    have h2 := hd (r.mapH DSp.dense) (by rw [he2]; exact List.mem_map_of_mem hr)
    simpa only [Rec.mapH] using h2
  | ub => rw [hrun] at he; cases he
  | throw => rw [hrun] at he; cases he
  | fuel => rw [hrun] at he; cases he

end

/-! ### Examples -/

/-- The user's function of `P` with `H = (...).sparseView()` at the end, as in tests/sparse.cpp:40. -/
def sparsify {F R W X : Type} [FloatOps F] (P : Problem F R W X) : SpProblem F R W X where
  acc :=
    { full := fun w x n g H =>
        (((P.acc.full w x n g H.dense).1.1, (P.acc.full w x n g H.dense).1.2.1, SpSq.ofDense (P.acc.full w x n g H.dense).1.2.2),
          (P.acc.full w x n g H.dense).2)
      eval := P.acc.eval }
  dynDims := P.dynDims
  plusEq := P.plusEq
  clock := P.clock
  alloc := fun w n => ((P.alloc w n).1.map (·.1), (P.alloc w n).2)
  ratio1 := P.ratio1

/-- `P` with a dynamic size and an allocator that returns zeroed memory for the Hessian -/
def zeroed {F R W X : Type} [FloatOps F] (P : Problem F R W X) : Problem F R W X :=
  { P with dims := none, alloc := fun w n => ((P.alloc w n).1.map fun p => (p.1, fun _ _ => ofInt 0), (P.alloc w n).2) }

theorem sparsify_same {R W X : Type} (P : Problem ℝ R W X) : SameFunction (sparsify P) (zeroed P) fun _ H => H where
  dims := rfl
  dynDims := rfl
  plusEq := rfl
  clock := rfl
  ratio1 := rfl
  alloc w n := by simp only [zeroed, sparsify]; cases (P.alloc w n).1 <;> rfl
  eval := rfl
  full w x n c g H w' h := by
    simp only [sparsify, dense_zero] at h
    obtain ⟨h1, h2⟩ := Prod.mk.inj h
    obtain ⟨h3, h4⟩ := Prod.mk.inj h1
    obtain ⟨h5, h6⟩ := Prod.mk.inj h4
    have : H.dense = (P.acc.full w x n (fun _ => ofInt 0) (fun _ _ => ofInt 0)).1.2.2 := by
      rw [← h6]
      exact dense_ofDense _ fun i j hz => by simpa using hz
    show P.acc.full w x n (fun _ => ofInt 0) (fun _ _ => ofInt 0) = _
    rw [this, ← h3, ← h5, ← h2]

open Classical in
/-- a sparse factorisation meeting the assumptions -/
noncomputable def someSparse : SpLinAlg ℝ where
  factor := fun s _ A => decide (s = 0 ∧ PD (symUpper A.dense))
  solve := fun _ n A v => (someLinAlg.ldlt n (symUpper A.dense) v).getD 0

theorem someSparse_exact : ExactSparse someSparse where
  upper n A B v h := by
    have e : ∀ s, someSparse.factor s n A = someSparse.factor s n B := fun s => by unfold someSparse; simp only; congr 1; rw [h]
    have e2 : ∀ s, someSparse.solve s n A v = someSparse.solve s n B v := fun s => by simp only [someSparse, h]
    simp only [spSolveLDLT, e, e2]
  solves n A v h := by
    obtain ⟨u, hu, hu2⟩ := someLinAlg_exact.ldlt n (symUpper A.dense) v h
    refine ⟨by simp [someSparse, h], ?_⟩
    simp only [someSparse, hu]
    exact hu2

/-- fitting a line through three points with a sparse Hessian: the hypotheses of `C61_lm_linear` hold (the remaining ones are those of the example
at the end of LinearLS) -/
example : SameFunction (sparsify (lsProb line3 line3b)) (zeroed (lsProb line3 line3b)) (fun _ H => H) ∧
    LinLS (zeroed (lsProb line3 line3b)) line3 line3b ∧ ExactSparse someSparse ∧ ∃ Ld, ExactLinAlg Ld ∧ SameLDLT someSparse Ld := by
  have h := lsProb_ls line3 line3b (by decide) (by decide)
  refine ⟨sparsify_same _, ⟨⟨h.dyn, Or.inr ⟨rfl, by decide, fun w k => ⟨_, _, rfl⟩⟩, h.plus⟩, h.pos, h.nonneg, h.mono, h.full, h.eval⟩, someSparse_exact,
    exact_dense someSparse_exact⟩

end Verif
