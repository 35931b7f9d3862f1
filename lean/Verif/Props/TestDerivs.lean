import Verif.Props.DampingLimits
import Verif.Props.JetProps
import Mathlib.Analysis.Real.Pi.Bounds
/-!
# C122: the derivatives written by hand in the tests
-/

set_option linter.unusedSectionVars false

namespace Verif
open FloatOps Loss

/-- `G` is the gradient and `H` the Hessian of `f` at every point -/
structure Derivs {n : Nat} (f : Vec ℝ n → ℝ) (G : Vec ℝ n → Vec ℝ n) (H : Vec ℝ n → Mat ℝ n) : Prop where
  grad : ∀ x, HasGrad f (G x) x
  hess : ∀ x i, HasGrad (fun y => G y i) (H x i) x

section
variable {n : Nat} {f g : Vec ℝ n → ℝ} {J K x : Vec ℝ n}

theorem Loss.HasGrad.smulc (h : HasGrad f J x) (c : ℝ) : HasGrad (fun y => c * f y) (c • J) x :=
  h.comp_deriv (φ := fun t => c * t) (by simpa using (hasDerivAt_id (f x)).const_mul c)

theorem Loss.HasGrad.addc (h : HasGrad f J x) (c : ℝ) : HasGrad (fun y => f y + c) J x :=
  (h.comp_deriv (φ := fun t => t + c) (d := 1) ((hasDerivAt_id (f x)).add_const c)).congr_J (one_smul _ _)

theorem Loss.HasGrad.powk (h : HasGrad f J x) (k : ℕ) : HasGrad (fun y => f y ^ k) ((k * f x ^ (k - 1)) • J) x :=
  h.comp_deriv (hasDerivAt_pow k (f x))

theorem hasGrad_of {f f' : Vec ℝ n → ℝ} {J J' x : Vec ℝ n} (h : HasGrad f J x) (e : ∀ y, f' y = f y) (e' : J = J') : HasGrad f' J' x :=
  (h.congr_eq e).congr_J e'

end

/-! ### Rosenbrock, tests/optimize_easy.cpp:40-60 -/

theorem rosen_derivs : Derivs rosen rosenG rosenH where
  grad x := by
    have h0 := hasGrad_coord (0 : Fin 2) x
    have h1 := hasGrad_coord (1 : Fin 2) x
    refine hasGrad_of ((((h0.smulc (-1)).addc 1).powk 2).add (((h1.sub (h0.powk 2)).powk 2).smulc 100)) (fun y => by unfold rosen; ring) ?_
    funext i
    fin_cases i <;> simp [rosenG] <;> ring
  hess x i := by
    have h0 := hasGrad_coord (0 : Fin 2) x
    have h1 := hasGrad_coord (1 : Fin 2) x
    fin_cases i
    · refine hasGrad_of (((((h0.smulc (-1)).addc 1).smulc (-2))).add (((h0.mul (h1.sub (h0.powk 2))).smulc (-400)))) (fun y => by simp [rosenG]; ring) ?_
      funext j
      fin_cases j <;> simp [rosenH] <;> ring
    · refine hasGrad_of ((h1.sub (h0.powk 2)).smulc 200) (fun y => by simp [rosenG]) ?_
      funext j
      fin_cases j <;> simp [rosenH] <;> ring

/-! ### Powell's singular function, tests/optimize_easy.cpp:158-200 -/

/-- the terms `t1` to `t4`, tests/optimize_easy.cpp:161-164 -/
def powT (x : Vec ℝ 4) : Vec ℝ 4 := ![x 0 + 10 * x 1, x 2 - x 3, x 1 - 2 * x 2, x 0 - x 3]

/-- tests/optimize_easy.cpp:199 -/
def powellF (x : Vec ℝ 4) : ℝ := powT x 0 * powT x 0 + 5 * powT x 1 * powT x 1 + powT x 2 ^ 4 + powT x 3 ^ 4 * 10

/-- tests/optimize_easy.cpp:168-171 -/
def powellG (x : Vec ℝ 4) : Vec ℝ 4 :=
  ![2 * powT x 0 + 40 * powT x 3 ^ 3, 20 * powT x 0 + 4 * powT x 2 ^ 3, 10 * powT x 1 - 8 * powT x 2 ^ 3, -10 * powT x 1 - 40 * powT x 3 ^ 3]

/-- tests/optimize_easy.cpp:174-196: the coefficients after all `+=`; `d3`, `d4` are lines 186 and 192 -/
def powellH (x : Vec ℝ 4) : Mat ℝ 4 :=
  let d3 := 12 * powT x 2 * powT x 2
  let d4 := 120 * powT x 3 * powT x 3
  ![![2 + d4, 20, 0, -d4], ![20, 200 + d3, -2 * d3, 0], ![0, -2 * d3, 10 + 4 * d3, -10], ![-d4, 0, -10, 10 + d4]]

theorem powT_grads (x : Vec ℝ 4) : HasGrad (fun y => powT y 0) ![1, 10, 0, 0] x ∧ HasGrad (fun y => powT y 1) ![0, 0, 1, -1] x ∧
    HasGrad (fun y => powT y 2) ![0, 1, -2, 0] x ∧ HasGrad (fun y => powT y 3) ![1, 0, 0, -1] x := by
  have h0 := hasGrad_coord (0 : Fin 4) x
  have h1 := hasGrad_coord (1 : Fin 4) x
  have h2 := hasGrad_coord (2 : Fin 4) x
  have h3 := hasGrad_coord (3 : Fin 4) x
  refine ⟨hasGrad_of (h0.add (h1.smulc 10)) (fun y => by simp [powT]) ?_, hasGrad_of (h2.sub h3) (fun y => by simp [powT]) ?_,
    hasGrad_of (h1.sub (h2.smulc 2)) (fun y => by simp [powT]) ?_, hasGrad_of (h0.sub h3) (fun y => by simp [powT]) ?_⟩ <;>
  · funext i
    fin_cases i <;> simp

theorem powell_derivs : Derivs powellF powellG powellH where
  grad x := by
    obtain ⟨t1, t2, t3, t4⟩ := powT_grads x
    refine hasGrad_of ((((t1.powk 2).add ((t2.powk 2).smulc 5)).add (t3.powk 4)).add ((t4.powk 4).smulc 10)) (fun y => by unfold powellF; ring) ?_
    funext i
    fin_cases i <;> simp [powellG] <;> ring
  hess x i := by
    obtain ⟨t1, t2, t3, t4⟩ := powT_grads x
    fin_cases i
    · refine hasGrad_of ((t1.smulc 2).add ((t4.powk 3).smulc 40)) (fun y => by simp [powellG]) ?_
      funext j
      fin_cases j <;> simp [powellH] <;> ring
    · refine hasGrad_of ((t1.smulc 20).add ((t3.powk 3).smulc 4)) (fun y => by simp [powellG]) ?_
      funext j
      fin_cases j <;> simp [powellH] <;> ring
    · refine hasGrad_of ((t2.smulc 10).sub ((t3.powk 3).smulc 8)) (fun y => by simp [powellG]) ?_
      funext j
      fin_cases j <;> simp [powellH] <;> ring
    · refine hasGrad_of ((t2.smulc (-10)).sub ((t4.powk 3).smulc 40)) (fun y => by simp [powellG]) ?_
      funext j
      fin_cases j <;> simp [powellH] <;> ring

/-! ### Freudenstein and Roth, tests/optimize_hard.cpp:157-183 -/

/-- the residuals, tests/optimize_hard.cpp:161-162 -/
def frR1 (x : Vec ℝ 2) : ℝ := x 0 - 13 + ((5 - x 1) * x 1 - 2) * x 1
@[inherit_doc frR1] def frR2 (x : Vec ℝ 2) : ℝ := x 0 - 29 + ((x 1 + 1) * x 1 - 14) * x 1

/-- their derivatives by `x2`, tests/optimize_hard.cpp:166-167 -/
def frD1 (x : Vec ℝ 2) : ℝ := 10 * x 1 - 3 * x 1 * x 1 - 2
@[inherit_doc frD1] def frD2 (x : Vec ℝ 2) : ℝ := 3 * x 1 * x 1 + 2 * x 1 - 14

/-- tests/optimize_hard.cpp:182 -/
def frF (x : Vec ℝ 2) : ℝ := frR1 x * frR1 x + frR2 x * frR2 x

/-- tests/optimize_hard.cpp:169-170 -/
def frG (x : Vec ℝ 2) : Vec ℝ 2 := ![2 * (frR1 x + frR2 x), 2 * (frR1 x * frD1 x + frR2 x * frD2 x)]

/-- tests/optimize_hard.cpp:174-180 -/
def frH (x : Vec ℝ 2) : Mat ℝ 2 :=
  ![![4, 2 * (frD1 x + frD2 x)], ![2 * (frD1 x + frD2 x), 2 * (frD1 x * frD1 x + frD2 x * frD2 x + frR1 x * (10 - 6 * x 1) + frR2 x * (6 * x 1 + 2))]]

theorem fr_grads (x : Vec ℝ 2) : HasGrad frR1 ![1, frD1 x] x ∧ HasGrad frR2 ![1, frD2 x] x ∧ HasGrad frD1 ![0, 10 - 6 * x 1] x ∧ HasGrad frD2 ![0, 6 * x 1 + 2] x := by
  have h0 := hasGrad_coord (0 : Fin 2) x
  have h1 := hasGrad_coord (1 : Fin 2) x
  refine ⟨hasGrad_of ((h0.add ((((h1.powk 2).smulc 5).sub (h1.powk 3)).sub (h1.smulc 2))).addc (-13)) (fun y => by unfold frR1; ring) ?_,
    hasGrad_of ((h0.add (((h1.powk 3).add (h1.powk 2)).sub (h1.smulc 14))).addc (-29)) (fun y => by unfold frR2; ring) ?_,
    hasGrad_of ((((h1.smulc 10).sub ((h1.powk 2).smulc 3))).addc (-2)) (fun y => by unfold frD1; ring) ?_,
    hasGrad_of ((((h1.powk 2).smulc 3).add (h1.smulc 2)).addc (-14)) (fun y => by unfold frD2; ring) ?_⟩ <;>
  · funext i
    fin_cases i <;> simp [frD1, frD2] <;> ring

theorem fr_derivs : Derivs frF frG frH where
  grad x := by
    obtain ⟨a, b, c, d⟩ := fr_grads x
    refine hasGrad_of ((a.mul a).add (b.mul b)) (fun y => rfl) ?_
    funext i
    fin_cases i <;> simp [frG] <;> ring
  hess x i := by
    obtain ⟨a, b, c, d⟩ := fr_grads x
    fin_cases i
    · refine hasGrad_of ((a.add b).smulc 2) (fun y => by simp [frG]) ?_
      funext j
      fin_cases j <;> simp [frH] <;> ring
    · refine hasGrad_of (((a.mul c).add (b.mul d)).smulc 2) (fun y => by simp [frG]) ?_
      funext j
      fin_cases j <;> simp [frH] <;> ring

/-! ### the plateau, tests/optimize_easy.cpp:93-127 -/

/-- the terms `cx`, `sx`, `dx` and `ex`, tests/optimize_easy.cpp:94-100 -/
noncomputable def plE (x : Vec ℝ 2) : ℝ := Real.exp (-((x 0 - Real.pi) * (x 0 - Real.pi) + (x 1 - Real.pi) * (x 1 - Real.pi)))

/-- tests/optimize_easy.cpp:102 -/
noncomputable def plF (x : Vec ℝ 2) : ℝ := 1 - Real.cos (x 0) * Real.cos (x 1) * plE x

/-- tests/optimize_easy.cpp:108-112 -/
noncomputable def plG (x : Vec ℝ 2) : Vec ℝ 2 :=
  ![Real.cos (x 1) * plE x * (Real.sin (x 0) + 2 * (x 0 - Real.pi) * Real.cos (x 0)), Real.cos (x 0) * plE x * (Real.sin (x 1) + 2 * (x 1 - Real.pi) * Real.cos (x 1))]

/-- the coefficient outside the diagonal as the test computes it, tests/optimize_easy.cpp:122 -/
noncomputable def plOff (x : Vec ℝ 2) : ℝ :=
  plE x * (Real.sin (x 0) + 2 * (x 0 - Real.pi) * Real.cos (x 0)) * (Real.sin (x 1) + 2 * (x 1 - Real.pi) * Real.cos (x 1))

/-- the diagonal, tests/optimize_easy.cpp:120-121 -/
noncomputable def plDiag (x : Vec ℝ 2) : Vec ℝ 2 :=
  ![Real.cos (x 1) * plE x * (Real.cos (x 0) - 4 * (x 0 - Real.pi) * Real.sin (x 0) + (2 - 4 * (x 0 - Real.pi) * (x 0 - Real.pi)) * Real.cos (x 0)),
    Real.cos (x 0) * plE x * (Real.cos (x 1) - 4 * (x 1 - Real.pi) * Real.sin (x 1) + (2 - 4 * (x 1 - Real.pi) * (x 1 - Real.pi)) * Real.cos (x 1))]

/-- the matrix of the test, tests/optimize_easy.cpp:120-123 -/
noncomputable def plH (x : Vec ℝ 2) : Mat ℝ 2 := ![![plDiag x 0, plOff x], ![plOff x, plDiag x 1]]

/-- the Hessian of the cost -/
noncomputable def plHTrue (x : Vec ℝ 2) : Mat ℝ 2 := ![![plDiag x 0, -plOff x], ![-plOff x, plDiag x 1]]

theorem plE_grad (x : Vec ℝ 2) : HasGrad plE ![-2 * (x 0 - Real.pi) * plE x, -2 * (x 1 - Real.pi) * plE x] x := by
  have h0 := (hasGrad_coord (0 : Fin 2) x).addc (-Real.pi)
  have h1 := (hasGrad_coord (1 : Fin 2) x).addc (-Real.pi)
  refine hasGrad_of ((((h0.mul h0).add (h1.mul h1)).smulc (-1)).comp_deriv (Real.hasDerivAt_exp _)) (fun y => by unfold plE; congr 1; ring) ?_
  have e : Real.exp (-1 * ((x 0 + -Real.pi) * (x 0 + -Real.pi) + (x 1 + -Real.pi) * (x 1 + -Real.pi))) = plE x := by unfold plE; congr 1; ring
  rw [e]
  funext i
  fin_cases i <;> simp <;> ring

theorem plateau_derivs : Derivs plF plG plHTrue := by
  have e0 : ∀ c : ℝ, c • (Pi.single 0 1 : Vec ℝ 2) = ![c, 0] := fun c => by funext i; fin_cases i <;> simp
  have e1 : ∀ c : ℝ, c • (Pi.single 1 1 : Vec ℝ 2) = ![0, c] := fun c => by funext i; fin_cases i <;> simp
  have c0 : ∀ x : Vec ℝ 2, HasGrad (fun y => Real.cos (y 0)) ![-Real.sin (x 0), 0] x := fun x => ((hasGrad_coord 0 x).comp_deriv (Real.hasDerivAt_cos _)).congr_J (e0 _)
  have c1 : ∀ x : Vec ℝ 2, HasGrad (fun y => Real.cos (y 1)) ![0, -Real.sin (x 1)] x := fun x => ((hasGrad_coord 1 x).comp_deriv (Real.hasDerivAt_cos _)).congr_J (e1 _)
  have s0 : ∀ x : Vec ℝ 2, HasGrad (fun y => Real.sin (y 0)) ![Real.cos (x 0), 0] x := fun x => ((hasGrad_coord 0 x).comp_deriv (Real.hasDerivAt_sin _)).congr_J (e0 _)
  have s1 : ∀ x : Vec ℝ 2, HasGrad (fun y => Real.sin (y 1)) ![0, Real.cos (x 1)] x := fun x => ((hasGrad_coord 1 x).comp_deriv (Real.hasDerivAt_sin _)).congr_J (e1 _)
  have d0 : ∀ x : Vec ℝ 2, HasGrad (fun y => y 0 + -Real.pi) ![1, 0] x := fun x => ((hasGrad_coord 0 x).addc _).congr_J (by rw [← e0, one_smul])
  have d1 : ∀ x : Vec ℝ 2, HasGrad (fun y => y 1 + -Real.pi) ![0, 1] x := fun x => ((hasGrad_coord 1 x).addc _).congr_J (by rw [← e1, one_smul])
  constructor
  · intro x
    refine hasGrad_of (((((c0 x).mul (c1 x)).mul (plE_grad x)).smulc (-1)).addc 1) (fun y => by unfold plF; ring) ?_
    funext i
    fin_cases i <;> simp [plG] <;> ring
  · intro x i
    fin_cases i
    · refine hasGrad_of (((c1 x).mul (plE_grad x)).mul ((s0 x).add (((d0 x).mul (c0 x)).smulc 2)))
        (fun y => by show Real.cos (y 1) * plE y * (Real.sin (y 0) + 2 * (y 0 - Real.pi) * Real.cos (y 0)) = _; ring) ?_
      funext j
      fin_cases j <;> simp [plHTrue, plDiag, plOff] <;> ring
    · refine hasGrad_of (((c0 x).mul (plE_grad x)).mul ((s1 x).add (((d1 x).mul (c1 x)).smulc 2)))
        (fun y => by show Real.cos (y 0) * plE y * (Real.sin (y 1) + 2 * (y 1 - Real.pi) * Real.cos (y 1)) = _; ring) ?_
      funext j
      fin_cases j <;> simp [plHTrue, plDiag, plOff] <;> ring

/-- the start of the test, tests/optimize_easy.cpp:91 -/
def plStart : Vec ℝ 2 := fun _ => 3

theorem plOff_start : 0 < plOff plStart := by
  have h3 := Real.pi_gt_three
  have h4 := Real.pi_le_four
  have hs : 0 < Real.sin 3 := Real.sin_pos_of_pos_of_lt_pi (by norm_num) h3
  have hc : Real.cos 3 < 0 := Real.cos_neg_of_pi_div_two_lt_of_lt (by linarith) (by linarith)
  have h5 : 0 < Real.sin 3 + 2 * (3 - Real.pi) * Real.cos 3 := by
    have := mul_pos_of_neg_of_neg (show 3 - Real.pi < 0 by linarith) hc
    linarith
  unfold plOff plStart
  exact mul_pos (mul_pos (Real.exp_pos _) h5) h5

/-- **C122 is violated** by the plateau of tests/optimize_easy.cpp: the gradient is right, but the coefficient of its Hessian outside the diagonal has the wrong sign. At the start (3, 3) of the
test the matrix is not the Hessian. (`CheckGradient`, called by the test, only looks at the gradient.) -/
theorem C122_plateau_hessian : Derivs plF plG plHTrue ∧ (∀ x i, plH x i i = plHTrue x i i) ∧ (∀ x, plH x 0 1 = -plHTrue x 0 1 ∧ plH x 1 0 = -plHTrue x 1 0) ∧ ¬ Derivs plF plG plH := by
  refine ⟨plateau_derivs, fun x i => by fin_cases i <;> rfl, fun x => ⟨by simp [plH, plHTrue], by simp [plH, plHTrue]⟩, fun h => ?_⟩
  have h1 := (h.hess plStart 0).unique (plateau_derivs.hess plStart 0)
  have h2 : plOff plStart = -plOff plStart := congrFun h1 1
  have := plOff_start
  linarith

/-- What saves the test: with every damping the wrong matrix is positive definite where the Hessian is, so the steps of Levenberg-Marquardt are still descent directions (C25), and at
the minimum (pi, pi) both agree. -/
theorem C122_plateau_definite (x : Vec ℝ 2) (l : ℝ) : (PD (dampedR l (symUpper (plH x))) ↔ PD (dampedR l (plHTrue x))) ∧ plH (fun _ => Real.pi) = plHTrue (fun _ => Real.pi) := by
  have key : ∀ (A B : Mat ℝ 2), A 0 0 = B 0 0 → A 1 1 = B 1 1 → A 0 1 = -B 0 1 → A 1 0 = -B 1 0 → PD A → PD B := by
    intro A B h0 h1 h2 h3 hA
    have hs : A 0 1 = A 1 0 := hA.1 0 1
    refine ⟨fun i j => ?_, fun v hv => ?_⟩
    · fin_cases i <;> fin_cases j
      · rfl
      · show B 0 1 = B 1 0; linarith
      · show B 1 0 = B 0 1; linarith
      · rfl
    · have h4 := hA.2 ![v 0, -v 1] (fun h => hv (by
        funext i
        have e0 := congrFun h 0
        have e1 := congrFun h 1
        simp only [Matrix.cons_val_zero, Matrix.cons_val_one, Pi.zero_apply, neg_eq_zero] at e0 e1
        fin_cases i
        · exact e0
        · exact e1))
      simp only [dotR, mv, Fin.sum_univ_two, Matrix.cons_val_zero, Matrix.cons_val_one, h0, h1, h2, h3] at h4 ⊢
      linarith
  constructor
  · constructor
    · exact key _ _ (by simp [dampedR, symUpper, plH, plHTrue]) (by simp [dampedR, symUpper, plH, plHTrue]) (by simp [dampedR, symUpper, plH, plHTrue]) (by simp [dampedR, symUpper, plH, plHTrue])
    · exact key _ _ (by simp [dampedR, symUpper, plH, plHTrue]) (by simp [dampedR, symUpper, plH, plHTrue]) (by simp [dampedR, symUpper, plH, plHTrue]) (by simp [dampedR, symUpper, plH, plHTrue])
  · have h : plOff (fun _ => Real.pi) = 0 := by simp [plOff]
    unfold plH plHTrue
    rw [h, neg_zero]

/-- **C122** (partial: the plateau's Hessian is wrong, `C122_plateau_hessian`): the other derivatives written by hand in tests/optimize_easy.cpp and tests/optimize_hard.cpp are those of the costs next to them. -/
theorem C122_derivs_partial : Derivs rosen rosenG rosenH ∧ Derivs powellF powellG powellH ∧ Derivs frF frG frH ∧ ∀ x, HasGrad plF (plG x) x :=
  ⟨rosen_derivs, powell_derivs, fr_derivs, plateau_derivs.grad⟩

/-! ### the perceptron, tests/nn.cpp -/

section
variable {N B : Nat}

/-- `Linear` for a batch, tests/nn.cpp:103-110: the parameters are the weights and then the bias, the samples the columns of `X` -/
def percLin (X : Fin N → Fin B → ℝ) (p : Vec ℝ (N + 1)) (b : Fin B) : ℝ := (∑ i, X i b * p (Fin.castSucc i)) + p (Fin.last N)

/-- its Jacobian `Jy`, tests/nn.cpp:113-115 -/
def percLinJ (X : Fin N → Fin B → ℝ) (b : Fin B) : Vec ℝ (N + 1) := Fin.snoc (fun i => X i b) 1

/-- the scalar `Sigmoid` of the test, tests/nn.cpp:39 -/
noncomputable def percSig (x : ℝ) : ℝ := 1 / (1 + Real.exp (-x))

/-- `Forward`, tests/nn.cpp:94-96 -/
noncomputable def percOut (X : Fin N → Fin B → ℝ) (p : Vec ℝ (N + 1)) (b : Fin B) : ℝ := percSig (percLin X p b)

/-- the Jacobian of `Forward`: `Js * Jx` with `Js` the diagonal matrix of `v - v v`, tests/nn.cpp:43-46 -/
noncomputable def percJ (X : Fin N → Fin B → ℝ) (p : Vec ℝ (N + 1)) (b : Fin B) : Vec ℝ (N + 1) := fun i => (percOut X p b - percOut X p b * percOut X p b) * percLinJ X b i

/-- the residuals of the training step, tests/nn.cpp:255-259 -/
noncomputable def percRes (c : ℝ) (X : Fin N → Fin B → ℝ) (p : Vec ℝ (N + 1)) (b : Fin B) : ℝ := c * percOut X p b - 1 / 2

/-- its gradient, `J.transpose() * res` with `J = Jl * Jz`, tests/nn.cpp:264-267 -/
noncomputable def percGrad (c : ℝ) (X : Fin N → Fin B → ℝ) (p : Vec ℝ (N + 1)) : Vec ℝ (N + 1) := fun i => ∑ b, c * percJ X p b i * percRes c X p b

/-- the cost, `res.norm()`, tests/nn.cpp:268 -/
noncomputable def percCost (c : ℝ) (X : Fin N → Fin B → ℝ) (p : Vec ℝ (N + 1)) : ℝ := Real.sqrt (∑ b, percRes c X p b ^ 2)

theorem percLin_grad (X : Fin N → Fin B → ℝ) (p : Vec ℝ (N + 1)) (b : Fin B) : HasGrad (fun q => percLin X q b) (percLinJ X b) p := by
  refine hasGrad_of (hasGrad_dot (percLinJ X b) p) (fun q => ?_) rfl
  rw [dotProduct, Fin.sum_univ_castSucc]
  simp [percLin, percLinJ]

theorem percSig_deriv (x : ℝ) : HasDerivAt percSig (percSig x - percSig x * percSig x) x := by
  have h0 : 0 < 1 + Real.exp (-x) := by positivity
  have h1 : HasDerivAt (fun t : ℝ => 1 + Real.exp (-t)) (-Real.exp (-x)) x := by
    have := ((Real.hasDerivAt_exp (-x)).comp x (hasDerivAt_neg x)).const_add 1
    simpa using this
  refine ((hasDerivAt_const x (1 : ℝ)).div h1 h0.ne').congr_deriv ?_
  unfold percSig
  field_simp
  ring

/-- **C122**, the perceptron: the Jacobians of the layers are right for every batch, -/
theorem C122_perceptron (X : Fin N → Fin B → ℝ) (p : Vec ℝ (N + 1)) (b : Fin B) : HasGrad (fun q => percLin X q b) (percLinJ X b) p ∧ HasGrad (fun q => percOut X q b) (percJ X p b) p :=
  ⟨percLin_grad X p b, ((percLin_grad X p b).comp_deriv (percSig_deriv _)).congr_J rfl⟩

/-- and the gradient that the training step assigns is not that of the returned cost `‖res‖` but that of `‖res‖² / 2`. It is the product of the cost and its gradient wherever the cost
has one, which is what automatic differentiation passes to Gradient Descent for the same cost (C39): the reason why the test sees the same result with both. -/
theorem C122_training (c : ℝ) (X : Fin N → Fin B → ℝ) (p : Vec ℝ (N + 1)) : HasGrad (fun q => percCost c X q ^ 2 / 2) (percGrad c X p) p ∧
    ∀ K, HasGrad (percCost c X) K p → percGrad c X p = percCost c X p • K := by
  have hr : ∀ b, HasGrad (fun q => percRes c X q b) (c • percJ X p b) p := fun b =>
    hasGrad_of (((C122_perceptron X p b).2.smulc c).addc (-(1 / 2))) (fun q => by unfold percRes; ring) rfl
  have hs := HasGrad.sum Finset.univ (f := fun b q => percRes c X q b ^ 2) (fun b _ => (hr b).powk 2)
  have he : ∀ q, percCost c X q ^ 2 = ∑ b, percRes c X q b ^ 2 := fun q => Real.sq_sqrt (Finset.sum_nonneg fun b _ => sq_nonneg _)
  have h1 : HasGrad (fun q => percCost c X q ^ 2 / 2) (percGrad c X p) p := by
    refine hasGrad_of (hs.smulc (1 / 2)) (fun q => by rw [he]; ring) ?_
    funext i
    simp only [Pi.smul_apply, Finset.sum_apply, smul_eq_mul, percGrad, Finset.mul_sum]
    refine Finset.sum_congr rfl fun b _ => ?_
    push_cast
    ring
  refine ⟨h1, fun K hK => h1.unique (hasGrad_of ((hK.powk 2).smulc (1 / 2)) (fun q => by ring) ?_)⟩
  funext i
  simp only [Pi.smul_apply, smul_eq_mul]
  push_cast
  ring

end

/-- where the training cost has a gradient: one sample, all parameters zero, residual -1/2 + 1/4 with `c = 1/2` -/
example : percRes (1 / 2) (fun (_ : Fin 1) (_ : Fin 1) => (3 : ℝ)) 0 0 = -1 / 4 ∧ ∃ K, HasGrad (percCost (1 / 2) (fun (_ : Fin 1) (_ : Fin 1) => (3 : ℝ))) K 0 := by
  have h0 : percRes (1 / 2) (fun (_ : Fin 1) (_ : Fin 1) => (3 : ℝ)) 0 0 = -1 / 4 := by norm_num [percRes, percOut, percSig, percLin]
  refine ⟨h0, ?_⟩
  have h1 : HasGrad (fun q => ∑ b : Fin 1, percRes (1 / 2) (fun (_ : Fin 1) (_ : Fin 1) => (3 : ℝ)) q b ^ 2) _ 0 := HasGrad.sum Finset.univ fun b _ =>
    (hasGrad_of (((C122_perceptron (fun (_ : Fin 1) (_ : Fin 1) => (3 : ℝ)) 0 b).2.smulc (1 / 2)).addc (-(1 / 2)))
      (f' := fun q => percRes (1 / 2) (fun (_ : Fin 1) (_ : Fin 1) => (3 : ℝ)) q b) (fun q => by unfold percRes; ring) rfl).powk 2
  refine ⟨_, h1.comp_deriv (Real.hasDerivAt_sqrt ?_)⟩
  rw [Fin.sum_univ_one, h0]
  norm_num

end Verif
