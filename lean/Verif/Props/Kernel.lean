import Verif.Props.Integrated
/-!
# C98: runs see the residuals only through their inner products

The order of the residuals, their signs, the choice of the square root of an information matrix: none of this changes a run, in exact arithmetic.
-/

set_option linter.unusedSectionVars false

namespace Verif
open FloatOps Loss Matrix

/-- the residuals `r` and `r'` have the same inner products, at all pairs of points -/
def SameInner {n m : Nat} (r r' : RVec n → RVec m) : Prop := ∀ x y, dotR (r x) (r y) = dotR (r' x) (r' y)

section
variable {n m : Nat} {r r' : RVec n → RVec m}

/-- a permutation -/
theorem sameInner_perm (σ : Equiv.Perm (Fin m)) : SameInner r (fun x i => r x (σ i)) := fun x y =>
  (Equiv.sum_comp σ fun i => r x i * r y i).symm

/-- two square roots of the same matrix -/
theorem sameInner_factor {k : Nat} (f : RVec n → RVec k) {L L' : RMat m k} (hL : Lᵀ * L = L'ᵀ * L') : SameInner (fun x => mv L (f x)) (fun x => mv L' (f x)) := by
  have h : ∀ (M : RMat m k) (u v : RVec k), dotR (mv M u) (mv M v) = u ⬝ᵥ ((Mᵀ * M) *ᵥ v) := by
    intro M u v
    rw [← Matrix.mulVec_mulVec, Matrix.dotProduct_mulVec, Matrix.vecMul_transpose]
    rfl
  intro x y
  rw [h, h, hL]

/-- an orthogonal matrix -/
theorem sameInner_orth {Q : RMat m m} (hQ : Qᵀ * Q = 1) : SameInner r (fun x => mv Q (r x)) := by
  have := sameInner_factor r (L := (1 : RMat m m)) (L' := Q) (by rw [hQ]; simp)
  intro x y
  rw [← this x y]
  show dotR (r x) (r y) = dotR ((1 : RMat m m) *ᵥ r x) ((1 : RMat m m) *ᵥ r y)
  rw [Matrix.one_mulVec, Matrix.one_mulVec]

/-- the two gradients and the two approximate Hessians are the same -/
theorem SameInner.system (h : SameInner r r') {J J' : RVec n → RMat m n} (hJ : ∀ x, HasJac r (J x) x) (hJ' : ∀ x, HasJac r' (J' x) x) (x : RVec n) :
    tmv (J x) (r x) = tmv (J' x) (r' x) ∧ gram (J x) = gram (J' x) := by
  have dx : ∀ (s : RVec n → RVec m) (K : RMat m n) (x : RVec n), HasJac s K x → ∀ u : RVec m, HasGrad (fun z => dotR (s z) u) (fun k => ∑ i, K i k * u i) x := by
    intro s K x hK u
    have := HasGrad.sum Finset.univ (f := fun i z => s z i * u i) (J := fun i k => K i k * u i) (x := x) fun i _ => by
      have h1 := (hK i).comp_deriv (φ := fun t => t * u i) (d := u i) (by simpa using (hasDerivAt_id (s x i)).mul_const (u i))
      exact h1.congr_J (by funext k; simp [mul_comm])
    exact this.congr_J (by funext k; simp)
  -- derivative with respect to the first point
  have h1 : ∀ x y k, ∑ i, J x i k * r y i = ∑ i, J' x i k * r' y i := by
    intro x y k
    have a := dx r _ x (hJ x) (r y)
    have b := dx r' _ x (hJ' x) (r' y)
    have e : (fun z => dotR (r z) (r y)) = fun z => dotR (r' z) (r' y) := funext fun z => h z y
    rw [e] at a
    exact congrFun (a.unique b) k
  -- derivative with respect to the second one
  refine ⟨funext fun k => h1 x x k, funext fun k => funext fun l => ?_⟩
  have a := dx r _ x (hJ x) fun i => J x i k
  have b := dx r' _ x (hJ' x) fun i => J' x i k
  have e : (fun z => dotR (r z) fun i => J x i k) = fun z => dotR (r' z) fun i => J' x i k := by
    funext z
    have := h1 x z k
    simpa [dotR, mul_comm] using this
  rw [e] at a
  have := congrFun (a.unique b) l
  show ∑ i, J x i k * J x i l = ∑ i, J' x i k * J' x i l
  simpa [mul_comm] using this

/-- inner products of numerical derivatives -/
theorem SameInner.quotient (h : SameInner r r') (method : Method) (x y : RVec n) (s : ℝ) (k l : Fin n) :
    dotR (method.quotient vplus r x s k) (r y) = dotR (method.quotient vplus r' x s k) (r' y) ∧
    dotR (method.quotient vplus r x s k) (method.quotient vplus r y s l) = dotR (method.quotient vplus r' x s k) (method.quotient vplus r' y s l) := by
  have hsub : ∀ (a b c : RVec m) (t : ℝ), dotR (fun i => (a i - b i) / t) c = (dotR a c - dotR b c) / t := by
    intro a b c t
    unfold dotR
    rw [← Finset.sum_sub_distrib, Finset.sum_div]
    exact Finset.sum_congr rfl fun i _ => by ring
  have hcomm : ∀ a b : RVec m, dotR a b = dotR b a := fun a b => by unfold dotR; exact Finset.sum_congr rfl fun i _ => mul_comm _ _
  have q : ∀ (x : RVec n) (k : Fin n), ∃ y z t, ∀ s' : RVec n → RVec m, (method.quotient vplus s' x s k) = fun i => (s' y i - s' z i) / t := by
    intro x k
    cases method with
    | forward => exact ⟨_, _, _, fun _ => rfl⟩
    | central => exact ⟨_, _, _, fun _ => rfl⟩
    | fastCentral => exact ⟨_, _, _, fun _ => rfl⟩
  obtain ⟨a, b, t, e1⟩ := q x k
  obtain ⟨a', b', t', e2⟩ := q y l
  constructor
  · rw [e1, e1, hsub, hsub, h, h]
  · rw [e1, e1, e2, e2, hsub, hsub, hcomm (r a), hcomm (r b), hcomm (r' a), hcomm (r' b), hsub, hsub, hsub, hsub, h, h, h, h]

theorem SameInner.num (h : SameInner r r') (method : Method) (x : RVec n) (s : ℝ) (J0 J1 : RMat m n) :
    numDiffAcc2 vplus r x method s J0 = numDiffAcc2 vplus r' x method s J1 := by
  have q := (numEval_spec vplus r x method s J0).2.1
  have q' := (numEval_spec vplus r' x method s J1).2.1
  unfold numDiffAcc2
  simp only [Prod.mk.injEq]
  refine ⟨?_, funext fun k => ?_, Matrix.ext fun k l => ?_⟩
  · have := h x x
    unfold l2
    exact congrArg Real.sqrt this
  · have := (h.quotient method x x s k k).1
    simp only [Matrix.mulVec, dotProduct, Matrix.transpose_apply, q, q']
    exact this
  · have := (h.quotient method x x s k l).2
    simp only [Matrix.mul_apply, Matrix.transpose_apply, q, q']
    exact this

end

section
variable {R W : Type} {n m : Nat}

/-- The problem `B` (parameters, clock, memory) with the residuals `e` and automatic differentiation; each call of the user's function changes the world by `tick`. -/
noncomputable def adProbG (B : Problem ℝ R W (RVec n)) (tick : W → W) (e : Fin m → Expr n) : Problem ℝ R W (RVec n) :=
  { B with acc := {
      full := fun w x k g H => if h : k = n then
          match accVector e x with
          | some (v, k, g', H') => ((⟨v, k, B.ratio1, ""⟩, h ▸ g', h ▸ H'), tick w)
          | none => ((⟨0, 0, B.ratio1, ""⟩, g, H), w)
        else ((⟨0, 0, B.ratio1, ""⟩, g, H), w)
      eval := fun w x => (⟨sqL2 fun i => (e i).value x, m, B.ratio1, ""⟩, tick w) } }

/-- it is a problem with automatic differentiation in the sense of the other properties -/
theorem adProbG_ad (B : Problem ℝ R W (RVec n)) (tick : W → W) (e : Fin m → Expr n) : ADProblem (adProbG B tick e) e where
  full w x g0 H0 h := by
    obtain ⟨J, g, H, h1, -⟩ := C38_vector e x h
    refine ⟨_, g, H, tick w, h1, ?_⟩
    simp only [adProbG, h1, dif_pos]
    rfl
  eval w x h := ⟨tick w, rfl⟩

/-- The problem `B` with the residuals `f` and numerical differentiation; `J0` are the initial coefficients of the Jacobian, num_diff.h:279-308. -/
noncomputable def numProbG (B : Problem ℝ R W (RVec n)) (tick : W → W) (f : RVec n → RVec m) (method : Method) (h : ℝ) (J0 : W → RMat m n) : Problem ℝ R W (RVec n) :=
  { B with acc := {
      full := fun w x k g H => if e : k = n then
          ((⟨(numDiffAcc2 vplus f x method h (J0 w)).1, m, B.ratio1, ""⟩, e ▸ (numDiffAcc2 vplus f x method h (J0 w)).2.1, e ▸ (numDiffAcc2 vplus f x method h (J0 w)).2.2), tick w)
        else ((⟨0, 0, B.ratio1, ""⟩, g, H), w)
      eval := fun w x => (⟨l2 (f x), m, B.ratio1, ""⟩, tick w) } }

theorem numProbG_num (B : Problem ℝ R W (RVec n)) (tick : W → W) (f : RVec n → RVec m) (method : Method) (h : ℝ) (J0 : W → RMat m n) :
    NumProblem (numProbG B tick f method h J0) f method h where
  full w x g0 H0 := ⟨J0 w, tick w, by simp only [numProbG, dif_pos]; rfl⟩
  eval w x := ⟨tick w, rfl⟩

variable {so : SolverOpts ℝ} {LA : LinAlg ℝ} {o : Options ℝ W (DVec ℝ)} {B : Problem ℝ R W (RVec n)} {tick : W → W} {fuel : Nat} {mi : Int}

/-- **C98**, automatic differentiation: residuals with the same inner products give the same runs of Gauss-Newton and of Levenberg-Marquardt, with all options, from all starts
and all states of the solver: the same result, the same outputs, the same records of all iterations. -/
theorem C98_autodiff {e e' : Fin m → Expr n} (hd : ∀ x i, (e i).InDomain x) (hd' : ∀ x i, (e' i).InDomain x)
    (h : ∀ x y, ∑ i, (e i).value x * (e i).value y = ∑ i, (e' i).value x * (e' i).value y) (w : W) (x : RVec n) :
    (∀ s, optimizeAcc (gnEnv so LA (adProbG B tick e)) o fuel mi w s x = optimizeAcc (gnEnv so LA (adProbG B tick e')) o fuel mi w s x) ∧
    (∀ s, optimizeAcc (lmEnv so LA (adProbG B tick e)) o fuel mi w s x = optimizeAcc (lmEnv so LA (adProbG B tick e')) o fuel mi w s x) := by
  have hS : SameInner (fun x i => (e i).value x) (fun x i => (e' i).value x) := h
  have hacc : ∀ x, accVector e x = accVector e' x := by
    intro x
    choose J hJ using fun x => C36_jacobian e x (hd x)
    choose J' hJ' using fun x => C36_jacobian e' x (hd' x)
    have hs := hS.system (fun x => (hJ x).2) (fun x => (hJ' x).2) x
    obtain ⟨_, g, H, h1, -⟩ := C38_vector e x (hd x)
    obtain ⟨_, g', H', h1', -⟩ := C38_vector e' x (hd' x)
    obtain ⟨-, a2, a3⟩ := accVector_eq (hd x) (hJ x).2 h1
    obtain ⟨-, b2, b3⟩ := accVector_eq (hd' x) (hJ' x).2 h1'
    rw [h1, h1', a2, a3, b2, b3, hs.1, hs.2]
    have := h x x
    simp only [← pow_two] at this
    rw [this]
  have hP : adProbG B tick e = adProbG B tick e' := by
    unfold adProbG
    congr 2
    · funext w x k g H
      rw [hacc x]
    · funext w x
      have : sqL2 (fun i => (e i).value x) = sqL2 fun i => (e' i).value x := hS x x
      rw [this]
  rw [hP]
  exact ⟨fun _ => rfl, fun _ => rfl⟩

/-- **C98**, numerical differentiation, with any step and any initial coefficients of the Jacobian. -/
theorem C98_numdiff {f f' : RVec n → RVec m} {method : Method} {t : ℝ} {J0 J1 : W → RMat m n} (h : ∀ x y, ∑ i, f x i * f y i = ∑ i, f' x i * f' y i) (w : W) (x : RVec n) :
    (∀ s, optimizeAcc (gnEnv so LA (numProbG B tick f method t J0)) o fuel mi w s x = optimizeAcc (gnEnv so LA (numProbG B tick f' method t J1)) o fuel mi w s x) ∧
    (∀ s, optimizeAcc (lmEnv so LA (numProbG B tick f method t J0)) o fuel mi w s x = optimizeAcc (lmEnv so LA (numProbG B tick f' method t J1)) o fuel mi w s x) := by
  have hS : SameInner f f' := h
  have hP : numProbG B tick f method t J0 = numProbG B tick f' method t J1 := by
    unfold numProbG
    congr 2
    · funext w x k g H
      rw [hS.num method x t (J0 w) (J1 w)]
    · funext w x
      have : l2 (f x) = l2 (f' x) := congrArg Real.sqrt (hS x x)
      rw [this]
  rw [hP]
  exact ⟨fun _ => rfl, fun _ => rfl⟩

/-- **C98**, order: the residuals in another order give the same runs. -/
theorem C98_order {e : Fin m → Expr n} (σ : Equiv.Perm (Fin m)) (hd : ∀ x i, (e i).InDomain x) (w : W) (x : RVec n) :
    (∀ s, optimizeAcc (gnEnv so LA (adProbG B tick e)) o fuel mi w s x = optimizeAcc (gnEnv so LA (adProbG B tick fun i => e (σ i))) o fuel mi w s x) ∧
    (∀ s, optimizeAcc (lmEnv so LA (adProbG B tick e)) o fuel mi w s x = optimizeAcc (lmEnv so LA (adProbG B tick fun i => e (σ i))) o fuel mi w s x) :=
  C98_autodiff hd (fun x i => hd x (σ i)) (sameInner_perm σ) w x

/-- **C98**, whitening: residuals `L f` and `L' f`, with two square roots of the same information matrix, give the same runs. -/
theorem C98_whitening {k : Nat} {f : RVec n → RVec k} {L L' : RMat m k} (hL : Lᵀ * L = L'ᵀ * L') {method : Method} {t : ℝ} {J0 J1 : W → RMat m n} {e e' : Fin m → Expr n}
    (he : ∀ x i, (e i).InDomain x ∧ (e i).value x = ∑ j, L i j * f x j) (he' : ∀ x i, (e' i).InDomain x ∧ (e' i).value x = ∑ j, L' i j * f x j) (w : W) (x : RVec n) :
    (∀ s, optimizeAcc (gnEnv so LA (adProbG B tick e)) o fuel mi w s x = optimizeAcc (gnEnv so LA (adProbG B tick e')) o fuel mi w s x) ∧
    (∀ s, optimizeAcc (lmEnv so LA (adProbG B tick e)) o fuel mi w s x = optimizeAcc (lmEnv so LA (adProbG B tick e')) o fuel mi w s x) ∧
    (∀ s, optimizeAcc (gnEnv so LA (numProbG B tick (fun x i => ∑ j, L i j * f x j) method t J0)) o fuel mi w s x =
      optimizeAcc (gnEnv so LA (numProbG B tick (fun x i => ∑ j, L' i j * f x j) method t J1)) o fuel mi w s x) ∧
    (∀ s, optimizeAcc (lmEnv so LA (numProbG B tick (fun x i => ∑ j, L i j * f x j) method t J0)) o fuel mi w s x =
      optimizeAcc (lmEnv so LA (numProbG B tick (fun x i => ∑ j, L' i j * f x j) method t J1)) o fuel mi w s x) := by
  have h := sameInner_factor f hL
  have h1 := C98_autodiff (so := so) (LA := LA) (o := o) (B := B) (tick := tick) (fuel := fuel) (mi := mi) (fun x i => (he x i).1) (fun x i => (he' x i).1)
    (fun a b => by simp only [fun x i => (he x i).2, fun x i => (he' x i).2]; exact h a b) w x
  have h2 := C98_numdiff (so := so) (LA := LA) (o := o) (B := B) (tick := tick) (fuel := fuel) (mi := mi) (method := method) (t := t) (J0 := J0) (J1 := J1)
    (f := fun x i => ∑ j, L i j * f x j) (f' := fun x i => ∑ j, L' i j * f x j) h w x
  exact ⟨h1.1, h1.2, h2.1, h2.2⟩

end

/-- hypotheses of the C98 theorems: a rotation by 3-4-5 of two residuals; two square roots of the same matrix that differ by it -/
example : (!![3 / 5, 4 / 5; -4 / 5, 3 / 5] : RMat 2 2)ᵀ * !![3 / 5, 4 / 5; -4 / 5, 3 / 5] = (1 : RMat 2 2)ᵀ * (1 : RMat 2 2) := by
  ext i j
  fin_cases i <;> fin_cases j <;> simp [Matrix.mul_apply, Fin.sum_univ_two] <;> norm_num

/-- the number of residuals alone does not matter for inner products, but their sum of squares does: one residual that is twice as large gives other inner products -/
example : ¬ SameInner (fun x : RVec 1 => (fun _ : Fin 1 => x 0)) (fun x _ => 2 * x 0) := by
  intro h
  have := h (fun _ => 1) (fun _ => 1)
  simp [dotR] at this
  norm_num at this

end Verif
