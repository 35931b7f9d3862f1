import Verif.Model.NumDiff
import Verif.Lemmas.Calc
import Verif.Props.Activations
import Verif.Props.Mahalanobis
import Mathlib.Analysis.Calculus.MeanValue
import Mathlib.Analysis.Calculus.Deriv.Pi
import Mathlib.Analysis.Calculus.Deriv.Prod
/-!
# C35, C40: numerical differentiation
-/

namespace Verif
namespace Loss

open Matrix

/-- `t` times the `r`-th unit vector -/
def unit {n} (r : Fin n) (t : ℝ) : RVec n := Pi.single r t

section
variable {X : Type*} {n m : Nat} (plus : X → RVec n → X) (f : X → RVec m) (x : X) (method : Method) (h : ℝ)

/-- the points at which a column is evaluated -/
def Method.points (r : Fin n) : List X :=
  match method with
  | .forward => [plus x (unit r h)]
  | .central => [plus x (unit r h), plus x (unit r (-h))]
  | .fastCentral => [plus x (unit r h), plus (plus x (unit r h)) (unit r (-2 * h))]

/-- the difference quotient of a column -/
noncomputable def Method.quotient (r : Fin n) (i : Fin m) : ℝ :=
  match method with
  | .forward => (f (plus x (unit r h)) i - f x i) / h
  | .central => (f (plus x (unit r h)) i - f (plus x (unit r (-h))) i) / (2 * h)
  | .fastCentral => (f (plus x (unit r h)) i - f (plus (plus x (unit r h)) (unit r (-2 * h))) i) / (2 * h)

theorem numLoop_spec (res : RVec m) (hres : res = f x) (k : Nat) (hk : k ≤ n) (J0 : RMat m n) :
    let s := ((List.finRange n).take k).foldl (numStep plus f x method h res) { dx := 0, J := J0, calls := [x] }
    (∀ i : Fin n, i.val + 1 ≠ k → s.dx i = 0) ∧
    (∀ i (c : Fin n), s.J i c = if c.val < k then method.quotient plus f x h c i else J0 i c) ∧
    s.calls = x :: ((List.finRange n).take k).flatMap (method.points plus x h) := by
  induction k with
  | zero => simp
  | succ k ih =>
    have hk' : k < n := hk
    obtain ⟨h1, h2, h3⟩ := ih (Nat.le_of_lt hk')
    have hlen : k < (List.finRange n).length := by simpa using hk'
    rw [List.take_succ_eq_append_getElem hlen, List.foldl_append]
    simp only [List.foldl_cons, List.foldl_nil, List.getElem_finRange, List.flatMap_append, List.flatMap_cons, List.flatMap_nil, List.append_nil]
    set s := ((List.finRange n).take k).foldl (numStep plus f x method h res) { dx := 0, J := J0, calls := [x] } with hs
    set r : Fin n := Fin.cast (by simp) (⟨k, by simpa using hk'⟩ : Fin (List.finRange n).length) with hr
    have hrv : r.val = k := rfl
    have hclear : ∀ v, Function.update (fun i : Fin n => if i.val + 1 = r.val then 0 else s.dx i) r v = unit r v := by
      intro v
      funext i
      by_cases hi : i = r
      · subst hi; simp [unit]
      · rw [Function.update_of_ne hi]
        simp only [unit, Pi.single_apply, if_neg hi]
        split
        · rfl
        · rename_i hne
          exact h1 i (by rw [hrv] at hne; exact hne)
    have hup : ∀ u v, Function.update (unit r u) r v = unit r v := by
      intro u v
      unfold unit Pi.single
      exact Function.update_idem _ _ _
    have hJ : ∀ (q : RVec m), (∀ i, q i = method.quotient plus f x h r i) → ∀ i (c : Fin n),
        setCol s.J r q i c = if c.val < k + 1 then method.quotient plus f x h c i else J0 i c := by
      intro q hq i c
      unfold setCol
      by_cases hc : c = r
      · subst hc
        rw [if_pos rfl, if_pos (by rw [hrv]; omega)]
        exact hq i
      · have hcv : c.val ≠ k := fun e => hc (Fin.ext (e.trans hrv.symm))
        rw [if_neg hc, h2]
        by_cases hlt : c.val < k
        · rw [if_pos hlt, if_pos (by omega)]
        · rw [if_neg hlt, if_neg (by omega)]
    have hdx : ∀ v, ∀ i : Fin n, i.val + 1 ≠ k + 1 → unit r v i = 0 := by
      intro v i hi
      have : i ≠ r := fun e => hi (by rw [e, hrv])
      simp [unit, Pi.single_apply, this]
    cases method with
    | forward =>
      refine ⟨?_, ?_, ?_⟩
      · simp only [numStep, hclear]; exact hdx _
      · simp only [numStep, hclear]
        exact hJ _ (fun i => by simp [Method.quotient, hres])
      · simp only [numStep, hclear, h3]; rfl
    | central =>
      refine ⟨?_, ?_, ?_⟩
      · simp only [numStep, hclear, hup]; exact hdx _
      · simp only [numStep, hclear, hup]
        exact hJ _ (fun i => by simp [Method.quotient])
      · simp only [numStep, hclear, hup, h3]; rfl
    | fastCentral =>
      refine ⟨?_, ?_, ?_⟩
      · simp only [numStep, hclear, hup]; exact hdx _
      · simp only [numStep, hclear, hup]
        exact hJ _ (fun i => by simp [Method.quotient])
      · simp only [numStep, hclear, hup, h3]; rfl

theorem numEval_spec (J0 : RMat m n) :
    (numEval plus f x method h J0).1 = f x ∧
    (∀ i r, estimateNumJac plus f x method h J0 i r = method.quotient plus f x h r i) ∧
    (numEval plus f x method h J0).2.2 = x :: (List.finRange n).flatMap (method.points plus x h) := by
  have key := numLoop_spec plus f x method h (f x) rfl n le_rfl J0
  have ht : (List.finRange n).take n = List.finRange n := List.take_of_length_le (by simp)
  rw [ht] at key
  obtain ⟨-, h2, h3⟩ := key
  refine ⟨rfl, fun i r => ?_, h3⟩
  rw [estimateNumJac, numEval]
  simp only [h2, r.isLt, if_true]

end

/-- the update of vectors -/
def vplus {n} (x d : RVec n) : RVec n := x + d

theorem quotient_eq {n m} (f : RVec n → RVec m) (x : RVec n) (method : Method) (h : ℝ) (r : Fin n) (i : Fin m) :
    method.quotient vplus f x h r i =
      match method with
      | .forward => (f (x + unit r h) i - f x i) / h
      | _ => (f (x + unit r h) i - f (x + unit r (-h)) i) / (2 * h) := by
  cases method with
  | forward => rfl
  | central => rfl
  | fastCentral =>
    have e : vplus (vplus x (unit r h)) (unit r (-2 * h)) = x + unit r (-h) := by
      unfold vplus
      rw [add_assoc, unit, unit, ← Pi.single_add, unit]
      congr 2; ring
    simp only [Method.quotient, e]
    rfl

/-- **C35**, evaluations: the function is called at `x` first, then, for each direction `r` in order, at `x + h e_r` and, except for the forward
method, at `x - h e_r`; nowhere else. The returned residuals are those at `x`. (That `x` is not modified is visible in the signature:
every update is made on a copy.) -/
theorem C35_evaluations {n m} (f : RVec n → RVec m) (x : RVec n) (method : Method) (h : ℝ) (J0 : RMat m n) :
    (numEval vplus f x method h J0).1 = f x ∧
    (numEval vplus f x method h J0).2.2 = x :: (List.finRange n).flatMap fun r =>
      match method with
      | .forward => [fun i => if i = r then x i + h else x i]
      | _ => [fun i => if i = r then x i + h else x i, fun i => if i = r then x i - h else x i] := by
  obtain ⟨h1, -, h3⟩ := numEval_spec vplus f x method h J0
  refine ⟨h1, h3.trans ?_⟩
  congr 1
  have e1 : ∀ (r : Fin n) (t : ℝ), vplus x (unit r t) = fun i => if i = r then x i + t else x i := by
    intro r t; funext i
    by_cases hi : i = r <;> simp [vplus, unit, Pi.single_apply, hi]
  have e2 : ∀ r : Fin n, vplus (vplus x (unit r h)) (unit r (-2 * h)) = fun i => if i = r then x i - h else x i := by
    intro r; funext i
    by_cases hi : i = r
    · simp [vplus, unit, hi]; ring
    · simp [vplus, unit, hi]
  congr 1
  funext r
  cases method with
  | forward => simp only [Method.points, e1]
  | central => simp only [Method.points, e1, sub_eq_add_neg]
  | fastCentral => simp only [Method.points, e2]; simp only [e1]

/-- the update of user-defined parameters: the points are `x ⊞ h e_r`, `x ⊞ (-h) e_r` (central) -/
theorem C35_evaluations_manifold {X : Type*} {n m} (plus : X → RVec n → X) (f : X → RVec m) (x : X) (h : ℝ) (J0 : RMat m n) :
    (numEval plus f x .central h J0).2.2 = x :: (List.finRange n).flatMap (fun r => [plus x (unit r h), plus x (unit r (-h))]) ∧
    ∀ i r, (numEval plus f x .central h J0).2.1 i r = (f (plus x (unit r h)) i - f (plus x (unit r (-h))) i) / (2 * h) := by
  obtain ⟨-, h2, h3⟩ := numEval_spec plus f x .central h J0
  exact ⟨h3, h2⟩

/-- **C35**, affine functions: every method returns the exact Jacobian. -/
theorem C35_affine {n m} (A : RMat m n) (b : RVec m) (x : RVec n) (method : Method) (h : ℝ) (hh : h ≠ 0) (J0 : RMat m n) :
    estimateNumJac vplus (fun y => A *ᵥ y + b) x method h J0 = A := by
  ext i r
  rw [(numEval_spec vplus _ x method h J0).2.1, quotient_eq]
  have e : ∀ t, (A *ᵥ (x + unit r t)) i = (A *ᵥ x) i + A i r * t := by
    intro t
    rw [mulVec_add, Pi.add_apply]
    congr 1
    simp [unit, mulVec, dotProduct_single]
  cases method with
  | forward =>
    simp only [Pi.add_apply, e]
    field_simp; ring
  | central =>
    simp only [Pi.add_apply, e]
    field_simp; ring
  | fastCentral =>
    simp only [Pi.add_apply, e]
    field_simp; ring

/-- a vector of quadratic functions -/
def quadratic {n m} (Q : Fin m → RMat n n) (A : RMat m n) (b : RVec m) (y : RVec n) : RVec m :=
  fun i => y ⬝ᵥ (Q i *ᵥ y) + A i ⬝ᵥ y + b i

theorem quadratic_line {n m} (Q : Fin m → RMat n n) (A : RMat m n) (b : RVec m) (x : RVec n) (r : Fin n) (i : Fin m) (t : ℝ) :
    quadratic Q A b (x + unit r t) i =
      quadratic Q A b x i + t * ((Q i *ᵥ x) r + (x ᵥ* Q i) r + A i r) + t * t * Q i r r := by
  have h1 : Q i *ᵥ unit r t = fun j => Q i j r * t := by
    funext j; simp [unit, mulVec, dotProduct_single]
  have h2 : unit r t ⬝ᵥ (Q i *ᵥ x) = t * (Q i *ᵥ x) r := by simp [unit, single_dotProduct]
  have h3 : x ⬝ᵥ (Q i *ᵥ unit r t) = (x ᵥ* Q i) r * t := by
    rw [dotProduct_mulVec]; simp [unit, dotProduct_single]
  have h4 : unit r t ⬝ᵥ (Q i *ᵥ unit r t) = t * (Q i r r * t) := by
    rw [h1]; simp [unit, single_dotProduct]
  have h5 : A i ⬝ᵥ unit r t = A i r * t := by simp [unit, dotProduct_single]
  simp only [quadratic, mulVec_add, add_dotProduct, dotProduct_add, h2, h3, h4, h5]
  ring

theorem quadratic_jac {n m} (Q : Fin m → RMat n n) (A : RMat m n) (b : RVec m) (x : RVec n) :
    HasJac (quadratic Q A b) (fun i r => (Q i *ᵥ x) r + (x ᵥ* Q i) r + A i r) x := by
  intro i
  have h1 : HasGrad (fun y : RVec n => ∑ j, y j * (Q i *ᵥ y) j) (∑ j, (x j • Q i j + (Q i *ᵥ x) j • Pi.single j 1)) x :=
    HasGrad.sum Finset.univ fun j _ => (hasGrad_coord j x).mul (hasJac_linear (Q i) x j)
  have h2 := (h1.add (hasGrad_dot (A i) x)).add (hasGrad_const (b i) x)
  refine h2.congr_J ?_
  funext r
  simp only [Pi.add_apply, Finset.sum_apply, Pi.smul_apply, smul_eq_mul, Finset.sum_add_distrib, Pi.single_apply, mul_ite, mul_one, mul_zero,
    Finset.sum_ite_eq, Finset.mem_univ, if_true, Pi.zero_apply, add_zero, vecMul, dotProduct]
  ring

/-- **C35**, quadratic functions: the central methods return the exact Jacobian. -/
theorem C35_quadratic {n m} (Q : Fin m → RMat n n) (A : RMat m n) (b : RVec m) (x : RVec n) (method : Method) (hm : method ≠ .forward)
    (h : ℝ) (hh : h ≠ 0) (J0 : RMat m n) :
    HasJac (quadratic Q A b) (estimateNumJac vplus (quadratic Q A b) x method h J0) x := by
  have e : estimateNumJac vplus (quadratic Q A b) x method h J0 = fun i r => (Q i *ᵥ x) r + (x ᵥ* Q i) r + A i r := by
    ext i r
    rw [(numEval_spec vplus _ x method h J0).2.1, quotient_eq]
    cases method with
    | forward => exact absurd rfl hm
    | central =>
      simp only [quadratic_line]
      field_simp; ring
    | fastCentral =>
      simp only [quadratic_line]
      field_simp; ring
  rw [e]
  exact quadratic_jac Q A b x

/-! ### Error bounds -/

/-- a function starting at 0 whose derivative is at most `C (k+1) t^k` -/
theorem growth {u u' : ℝ → ℝ} {C h : ℝ} {k : Nat} (hh : 0 ≤ h) (h0 : u 0 = 0) (hd : ∀ t ∈ Set.Icc 0 h, HasDerivAt u (u' t) t)
    (hb : ∀ t ∈ Set.Icc 0 h, |u' t| ≤ C * ((k + 1 : Nat) * t ^ k)) : ∀ t ∈ Set.Icc 0 h, |u t| ≤ C * t ^ (k + 1) := by
  have hB : ∀ t, HasDerivAt (fun t : ℝ => C * t ^ (k + 1)) (C * ((k + 1 : Nat) * t ^ k)) t := by
    intro t
    have := (hasDerivAt_pow (k + 1) t).const_mul C
    simpa using this
  intro t ht
  have := image_norm_le_of_norm_deriv_right_le_deriv_boundary (f := u) (f' := u') (a := 0) (b := h) (B := fun t => C * t ^ (k + 1))
    (B' := fun t => C * ((k + 1 : Nat) * t ^ k)) (fun t ht => (hd t ht).continuousAt.continuousWithinAt)
    (fun t ht => (hd t ⟨ht.1, ht.2.le⟩).hasDerivWithinAt) (by simp [h0]) hB (fun t ht => hb t ⟨ht.1, ht.2.le⟩) ht
  exact this

theorem forward_error {g g1 g2 : ℝ → ℝ} {M h : ℝ} (hh : 0 < h) (h1 : ∀ t ∈ Set.Icc 0 h, HasDerivAt g (g1 t) t)
    (h2 : ∀ t ∈ Set.Icc 0 h, HasDerivAt g1 (g2 t) t) (hM : ∀ t ∈ Set.Icc 0 h, |g2 t| ≤ M) : |(g h - g 0) / h - g1 0| ≤ M * h / 2 := by
  have e1 := growth (u := fun t => g1 t - g1 0) (u' := g2) (C := M) (k := 0) hh.le (by simp) (fun t ht => (h2 t ht).sub_const _)
    (fun t ht => by simpa using hM t ht)
  have e2 := growth (u := fun t => g t - g 0 - g1 0 * t) (u' := fun t => g1 t - g1 0) (C := M / 2) (k := 1) hh.le (by simp)
    (fun t ht => by
      have := ((h1 t ht).sub_const (g 0)).sub ((hasDerivAt_id t).const_mul (g1 0))
      exact this.congr_deriv (by simp))
    (fun t ht => by
      have := e1 t ht
      push_cast at this ⊢
      linarith)
  have e3 := e2 h ⟨hh.le, le_rfl⟩
  have e4 : (g h - g 0) / h - g1 0 = (g h - g 0 - g1 0 * h) / h := by field_simp
  rw [e4, abs_div, abs_of_pos hh, div_le_iff₀ hh]
  calc _ ≤ M / 2 * h ^ (1 + 1) := e3
    _ = M * h / 2 * h := by ring

theorem central_error {g g1 g2 g3 : ℝ → ℝ} {M h : ℝ} (hh : 0 < h) (h1 : ∀ t ∈ Set.Icc (-h) h, HasDerivAt g (g1 t) t)
    (h2 : ∀ t ∈ Set.Icc (-h) h, HasDerivAt g1 (g2 t) t) (h3 : ∀ t ∈ Set.Icc (-h) h, HasDerivAt g2 (g3 t) t) (hM : ∀ t ∈ Set.Icc (-h) h, |g3 t| ≤ M) :
    |(g h - g (-h)) / (2 * h) - g1 0| ≤ M * h ^ 2 / 6 := by
  have mem : ∀ t ∈ Set.Icc 0 h, t ∈ Set.Icc (-h) h ∧ -t ∈ Set.Icc (-h) h := by
    intro t ht; exact ⟨⟨by linarith [ht.1], ht.2⟩, ⟨by linarith [ht.2], by linarith [ht.1]⟩⟩
  have neg : ∀ {u u' : ℝ → ℝ} {t : ℝ}, HasDerivAt u (u' (-t)) (-t) → HasDerivAt (fun t => u (-t)) (-(u' (-t))) t := by
    intro u u' t hu
    have := HasDerivAt.comp t hu (hasDerivAt_neg t)
    simpa [Function.comp_def] using this
  have e1 := growth (u := fun t => g2 t - g2 (-t)) (u' := fun t => g3 t + g3 (-t)) (C := 2 * M) (k := 0) hh.le (by simp)
    (fun t ht => by
      have := (h3 t (mem t ht).1).sub (neg (u' := g3) (h3 _ (mem t ht).2))
      exact this.congr_deriv (by ring))
    (fun t ht => by
      have a := abs_le.1 (hM t (mem t ht).1)
      have b := abs_le.1 (hM _ (mem t ht).2)
      simp only [pow_zero, mul_one, zero_add, Nat.cast_one]
      exact abs_le.2 ⟨by linarith [a.1, b.1], by linarith [a.2, b.2]⟩)
  have e2 := growth (u := fun t => g1 t + g1 (-t) - 2 * g1 0) (u' := fun t => g2 t - g2 (-t)) (C := M) (k := 1) hh.le (by simp; ring)
    (fun t ht => by
      have := ((h2 t (mem t ht).1).add (neg (u' := g2) (h2 _ (mem t ht).2))).sub_const (2 * g1 0)
      exact this.congr_deriv (by ring))
    (fun t ht => by
      have := e1 t ht
      push_cast at this ⊢
      linarith)
  have e3 := growth (u := fun t => g t - g (-t) - 2 * g1 0 * t) (u' := fun t => g1 t + g1 (-t) - 2 * g1 0) (C := M / 3) (k := 2) hh.le (by simp)
    (fun t ht => by
      have := ((h1 t (mem t ht).1).sub (neg (u' := g1) (h1 _ (mem t ht).2))).sub ((hasDerivAt_id t).const_mul (2 * g1 0))
      exact this.congr_deriv (by ring))
    (fun t ht => by
      have := e2 t ht
      push_cast at this ⊢
      linarith)
  have e4 := e3 h ⟨hh.le, le_rfl⟩
  have e5 : (g h - g (-h)) / (2 * h) - g1 0 = (g h - g (-h) - 2 * g1 0 * h) / (2 * h) := by field_simp
  have h2h : 0 < 2 * h := by linarith
  rw [e5, abs_div, abs_of_pos h2h, div_le_iff₀ h2h]
  calc _ ≤ M / 3 * h ^ (2 + 1) := e4
    _ = M * h ^ 2 / 6 * (2 * h) := by ring

theorem line_deriv {n m} {f : RVec n → RVec m} {A : RMat m n} {x : RVec n} (hA : HasJac f A x) (i : Fin m) (r : Fin n) :
    HasDerivAt (fun t => f (x + unit r t) i) (A i r) 0 := by
  have h1 : HasDerivAt (fun t : ℝ => x + unit r t) (Pi.single r 1) 0 := by
    have : HasDerivAt (fun t : ℝ => (Pi.single r t : RVec n)) (Pi.single r 1) 0 := by
      refine hasDerivAt_pi.2 fun j => ?_
      by_cases hj : j = r
      · subst hj; simpa using hasDerivAt_id' (0 : ℝ)
      · simpa [Pi.single_apply, hj] using hasDerivAt_const (0 : ℝ) (0 : ℝ)
    simpa [unit] using this.const_add x
  have e0 : x + unit r 0 = x := by simp [unit]
  have h2 : HasFDerivAt (fun y => f y i) (rowCLM (A i)) (x + unit r 0) := by rw [e0]; exact hA i
  have := h2.comp_hasDerivAt (0 : ℝ) h1
  simpa [rowCLM_apply, Function.comp_def] using this

/-- **C35**, forward error: for a function with Jacobian `A` at `x`, whose second derivative along the coordinate `r` (`g'' = g2`, where
`g(t) = f(x + t e_r)`) is at most `M` on the evaluated segment, the error of the forward method is at most `M h / 2`. -/
theorem C35_forward_error {n m} (f : RVec n → RVec m) (A : RMat m n) (x : RVec n) (hA : HasJac f A x) (h : ℝ) (hh : 0 < h) (J0 : RMat m n)
    (i : Fin m) (r : Fin n) (g1 g2 : ℝ → ℝ) (M : ℝ)
    (h1 : ∀ t ∈ Set.Icc 0 h, HasDerivAt (fun t => f (x + unit r t) i) (g1 t) t) (h2 : ∀ t ∈ Set.Icc 0 h, HasDerivAt g1 (g2 t) t)
    (hM : ∀ t ∈ Set.Icc 0 h, |g2 t| ≤ M) : |estimateNumJac vplus f x .forward h J0 i r - A i r| ≤ M * h / 2 := by
  have e := forward_error hh h1 h2 hM
  have e0 : g1 0 = A i r := (h1 0 ⟨le_rfl, hh.le⟩).unique (line_deriv hA i r)
  rw [(numEval_spec vplus f x .forward h J0).2.1, quotient_eq, ← e0]
  have ex : x + unit r 0 = x := by simp [unit]
  simpa [ex] using e

/-- **C35**, central error: with a third derivative along the coordinate of at most `M` on the evaluated segment, the error of both central methods is at
most `M h² / 6`. -/
theorem C35_central_error {n m} (f : RVec n → RVec m) (A : RMat m n) (x : RVec n) (hA : HasJac f A x) (method : Method) (hm : method ≠ .forward)
    (h : ℝ) (hh : 0 < h) (J0 : RMat m n) (i : Fin m) (r : Fin n) (g1 g2 g3 : ℝ → ℝ) (M : ℝ)
    (h1 : ∀ t ∈ Set.Icc (-h) h, HasDerivAt (fun t => f (x + unit r t) i) (g1 t) t) (h2 : ∀ t ∈ Set.Icc (-h) h, HasDerivAt g1 (g2 t) t)
    (h3 : ∀ t ∈ Set.Icc (-h) h, HasDerivAt g2 (g3 t) t) (hM : ∀ t ∈ Set.Icc (-h) h, |g3 t| ≤ M) :
    |estimateNumJac vplus f x method h J0 i r - A i r| ≤ M * h ^ 2 / 6 := by
  have e := central_error hh h1 h2 h3 hM
  have e0 : g1 0 = A i r := (h1 0 ⟨by linarith, hh.le⟩).unique (line_deriv hA i r)
  rw [(numEval_spec vplus f x method h J0).2.1, quotient_eq, ← e0]
  cases method with
  | forward => exact absurd rfl hm
  | central => exact e
  | fastCentral => exact e

/-- the hypotheses of the error bounds are met, with the optimal constants, by `f(y) = y³` in one dimension: the central error is exactly `h²` -/
example (x h : ℝ) (hh : 0 < h) (J0 : RMat 1 1) :
    estimateNumJac (n := 1) (m := 1) vplus (fun y _ => y 0 ^ 3) (fun _ => x) .central h J0 0 0 - 3 * x ^ 2 = 6 * h ^ 2 / 6 := by
  rw [(numEval_spec vplus _ _ .central h J0).2.1, quotient_eq]
  simp only [unit, Pi.add_apply, Pi.single_eq_same]
  field_simp
  ring

/-! ### CheckGradient -/

theorem maxCoeff_lt {n} (v : RVec (n + 1)) (c : ℝ) : maxCoeff v < c ↔ ∀ i, v i < c := by
  obtain ⟨h1, h2, h3⟩ := foldl_max_ge (List.ofFn v) (v 0)
  constructor
  · intro h i
    exact lt_of_le_of_lt (h2 _ (List.mem_ofFn.2 ⟨i, rfl⟩)) h
  · intro h
    rcases h3 with e | e
    · unfold maxCoeff; rw [e]; exact h 0
    · obtain ⟨i, hi⟩ := List.mem_ofFn.1 e
      unfold maxCoeff; rw [← hi]; exact h i

/-- **C40**, decision: `CheckGradient` returns true exactly if every component of the user's gradient is within `eps` of the difference quotient with
the step `eps / 10`. -/
theorem C40_decision {n} (f : RVec (n + 1) → ℝ) (grad x : RVec (n + 1)) (eps : ℝ) (J0 : RMat 1 (n + 1)) :
    (checkGradient vplus f grad x eps .forward J0 ↔ ∀ r, |(f (x + unit r (eps / 10)) - f x) / (eps / 10) - grad r| < eps) ∧
    (checkGradient vplus f grad x eps .central J0 ↔ ∀ r, |(f (x + unit r (eps / 10)) - f (x + unit r (-(eps / 10)))) / (2 * (eps / 10)) - grad r| < eps) ∧
    (checkGradient vplus f grad x eps .fastCentral J0 ↔ ∀ r, |(f (x + unit r (eps / 10)) - f (x + unit r (-(eps / 10)))) / (2 * (eps / 10)) - grad r| < eps) := by
  refine ⟨?_, ?_, ?_⟩ <;>
  · unfold checkGradient
    simp only [maxCoeff_lt, (numEval_spec vplus _ x _ _ J0).2.1, quotient_eq]

/-- **C40**, acceptance: the exact gradient of every quadratic cost is accepted by the central methods. -/
theorem C40_accepts_quadratic {n} (Q : RMat (n + 1) (n + 1)) (a : RVec (n + 1)) (b : ℝ) (grad x : RVec (n + 1))
    (hg : HasGrad (fun y => y ⬝ᵥ (Q *ᵥ y) + a ⬝ᵥ y + b) grad x) (eps : ℝ) (heps : 0 < eps) (method : Method) (hm : method ≠ .forward) (J0 : RMat 1 (n + 1)) :
    checkGradient vplus (fun y => y ⬝ᵥ (Q *ᵥ y) + a ⬝ᵥ y + b) grad x eps method J0 := by
  have h1 := C35_quadratic (fun _ => Q) (fun _ => a) (fun _ => b) x method hm (eps / 10) (by positivity) J0 0
  have e := hg.unique h1
  unfold checkGradient
  rw [maxCoeff_lt]
  intro i
  have : estimateNumJac vplus (fun y _ => y ⬝ᵥ (Q *ᵥ y) + a ⬝ᵥ y + b) x method (eps / 10) J0 0 i = grad i := (congrFun e i).symm
  show |estimateNumJac vplus (fun y _ => y ⬝ᵥ (Q *ᵥ y) + a ⬝ᵥ y + b) x method (eps / 10) J0 0 i - grad i| < eps
  rw [this, sub_self, abs_zero]
  exact heps

/-- **C40**, acceptance of smooth costs: the exact gradient is accepted by the central methods if the third derivatives along the coordinates are
at most `M` with `M (eps/10)² / 6 < eps`. -/
theorem C40_accepts_smooth {n} (f : RVec (n + 1) → ℝ) (x G : RVec (n + 1)) (hG : HasGrad f G x) (eps M : ℝ) (heps : 0 < eps) (hM : M * (eps / 10) ^ 2 / 6 < eps)
    (method : Method) (hm : method ≠ .forward) (J0 : RMat 1 (n + 1)) (g1 g2 g3 : Fin (n + 1) → ℝ → ℝ)
    (h1 : ∀ r, ∀ t ∈ Set.Icc (-(eps / 10)) (eps / 10), HasDerivAt (fun t => f (x + unit r t)) (g1 r t) t)
    (h2 : ∀ r, ∀ t ∈ Set.Icc (-(eps / 10)) (eps / 10), HasDerivAt (g1 r) (g2 r t) t)
    (h3 : ∀ r, ∀ t ∈ Set.Icc (-(eps / 10)) (eps / 10), HasDerivAt (g2 r) (g3 r t) t)
    (hb : ∀ r, ∀ t ∈ Set.Icc (-(eps / 10)) (eps / 10), |g3 r t| ≤ M) : checkGradient vplus f G x eps method J0 := by
  unfold checkGradient
  rw [maxCoeff_lt]
  intro i
  have hA : HasJac (fun y (_ : Fin 1) => f y) (fun _ => G) x := fun _ => hG
  exact lt_of_le_of_lt (C35_central_error (fun y _ => f y) (fun _ => G) x hA method hm (eps / 10) (by positivity) J0 0 i (g1 i) (g2 i) (g3 i) M
    (h1 i) (h2 i) (h3 i) (hb i)) hM

/-- **C40**, soundness: if `CheckGradient` (central) accepts, for a cost with true gradient `G` and third derivatives along the coordinates of at most `M`,
then the user's gradient is within `eps + M (eps/10)² / 6` of the true one. -/
theorem C40_sound {n} (f : RVec (n + 1) → ℝ) (grad x G : RVec (n + 1)) (hG : HasGrad f G x) (eps M : ℝ) (heps : 0 < eps)
    (method : Method) (hm : method ≠ .forward) (J0 : RMat 1 (n + 1)) (g1 g2 g3 : Fin (n + 1) → ℝ → ℝ)
    (h1 : ∀ r, ∀ t ∈ Set.Icc (-(eps / 10)) (eps / 10), HasDerivAt (fun t => f (x + unit r t)) (g1 r t) t)
    (h2 : ∀ r, ∀ t ∈ Set.Icc (-(eps / 10)) (eps / 10), HasDerivAt (g1 r) (g2 r t) t)
    (h3 : ∀ r, ∀ t ∈ Set.Icc (-(eps / 10)) (eps / 10), HasDerivAt (g2 r) (g3 r t) t)
    (hb : ∀ r, ∀ t ∈ Set.Icc (-(eps / 10)) (eps / 10), |g3 r t| ≤ M) (hc : checkGradient vplus f grad x eps method J0) :
    ∀ r, |grad r - G r| < eps + M * (eps / 10) ^ 2 / 6 := by
  intro r
  unfold checkGradient at hc
  rw [maxCoeff_lt] at hc
  have hA : HasJac (fun y (_ : Fin 1) => f y) (fun _ => G) x := fun _ => hG
  have e := C35_central_error (fun y _ => f y) (fun _ => G) x hA method hm (eps / 10) (by positivity) J0 0 r (g1 r) (g2 r) (g3 r) M
    (h1 r) (h2 r) (h3 r) (hb r)
  have e2 := hc r
  have e3 := abs_sub_comm (estimateNumJac vplus (fun y _ => f y) x method (eps / 10) J0 0 r) (grad r)
  calc |grad r - G r| = |(grad r - estimateNumJac vplus (fun y _ => f y) x method (eps / 10) J0 0 r) +
        (estimateNumJac vplus (fun y _ => f y) x method (eps / 10) J0 0 r - G r)| := by congr 1; ring
    _ ≤ _ := abs_add_le _ _
    _ < _ := by rw [← e3]; exact add_lt_add_of_lt_of_le e2 e

/-- a wrong gradient is rejected: the cost `y²` at 1 with the gradient 3 -/
example (J0 : RMat 1 1) : ¬ checkGradient (n := 0) vplus (fun y => y 0 ^ 2) (fun _ => 3) (fun _ => 1) (1 / 2) .central J0 := by
  rw [(C40_decision _ _ _ _ J0).2.1]
  intro h
  have := h 0
  simp only [unit, Pi.add_apply, Pi.single_eq_same] at this
  norm_num [abs_lt] at this

/-! ### CheckResidualsGradient -/

/-- **C54**, decision: `CheckResidualsGradient` (central, with Hessian) returns true exactly if every component of the user's gradient is within `eps` of the
difference quotient of `s ‖r‖²`, and every coefficient of the user's Hessian is within `eps` of `JᵀJ`, with `J` the difference quotients of the residuals. -/
theorem C54_decision {n m} (res : RVec (n + 1) → RVec m) (grad x : RVec (n + 1)) (H : RMat (n + 1) (n + 1)) (eps : ℝ) (checkH downscale : Bool)
    (J0 : RMat 1 (n + 1)) (J1 : RMat m (n + 1)) :
    let h := eps / 10
    let c : RVec (n + 1) → ℝ := fun y => (if downscale then 1 / 2 else 1) * ∑ i, res y i ^ 2
    let J : RMat m (n + 1) := fun i r => (res (x + unit r h) i - res (x + unit r (-h)) i) / (2 * h)
    checkResidualsGradient vplus res grad H x eps .central checkH downscale J0 J1 ↔
      (∀ r, |(c (x + unit r h) - c (x + unit r (-h))) / (2 * h) - grad r| < eps) ∧
      (checkH = true → ∀ i j, |∑ k, J k i * J k j - H i j| < eps) := by
  have hc : ∀ y, (if downscale then (0.5 : ℝ) else 1.0) * sqL2 (res y) = (if downscale then 1 / 2 else 1) * ∑ i, res y i ^ 2 := by
    intro y
    have : sqL2 (res y) = ∑ i, res y i ^ 2 := by simp [sqL2, dotProduct, pow_two]
    rw [this]
    cases downscale <;> norm_num
  have hJ : estimateNumJac vplus res x .central (eps / 10) J1 =
      fun i r => (res (x + unit r (eps / 10)) i - res (x + unit r (-(eps / 10))) i) / (2 * (eps / 10)) := by
    ext i r
    rw [(numEval_spec vplus res x _ _ J1).2.1, quotient_eq]
  simp only [checkResidualsGradient, hc, (C40_decision _ _ _ _ J0).2.1, hJ, maxCoeff_lt]
  refine and_congr_right fun _ => ?_
  cases checkH
  · simp
  · simp only [if_true, forall_const]
    rfl

/-- **C54**, acceptance: for residuals that are affine, `r(y) = A y + b`, the exact `Aᵀr` and `AᵀA` are accepted. -/
theorem C54_accepts_linear {n m} (A : RMat m (n + 1)) (b : RVec m) (x : RVec (n + 1)) (eps : ℝ) (heps : 0 < eps) (method : Method) (hm : method ≠ .forward)
    (checkH : Bool) (J0 : RMat 1 (n + 1)) (J1 : RMat m (n + 1)) :
    checkResidualsGradient vplus (fun y => A *ᵥ y + b) (Aᵀ *ᵥ (A *ᵥ x + b)) (Aᵀ * A) x eps method checkH true J0 J1 := by
  have hq : ∀ y, (0.5 : ℝ) * sqL2 (A *ᵥ y + b) = y ⬝ᵥ (((1 / 2 : ℝ) • (Aᵀ * A)) *ᵥ y) + (Aᵀ *ᵥ b) ⬝ᵥ y + (1 / 2) * (b ⬝ᵥ b) := by
    intro y
    have e1 : (A *ᵥ y) ⬝ᵥ (A *ᵥ y) = y ⬝ᵥ ((Aᵀ * A) *ᵥ y) := by
      rw [← mulVec_mulVec, dotProduct_mulVec y, vecMul_transpose]
    have e2 : (Aᵀ *ᵥ b) ⬝ᵥ y = b ⬝ᵥ (A *ᵥ y) := by
      rw [mulVec_transpose, dotProduct_mulVec]
    have e0 : sqL2 (A *ᵥ y + b) = (A *ᵥ y + b) ⬝ᵥ (A *ᵥ y + b) := rfl
    rw [e0, add_dotProduct, dotProduct_add, dotProduct_add, e1, e2, dotProduct_comm (A *ᵥ y) b, smul_mulVec, dotProduct_smul, smul_eq_mul]
    ring
  have hg : HasGrad (fun y => (0.5 : ℝ) * sqL2 (A *ᵥ y + b)) (Aᵀ *ᵥ (A *ᵥ x + b)) x := by
    have h1 := quadratic_jac (fun _ : Fin 1 => (1 / 2 : ℝ) • (Aᵀ * A)) (fun _ => Aᵀ *ᵥ b) (fun _ => (1 / 2) * (b ⬝ᵥ b)) x 0
    have h2 : HasGrad (fun y => (0.5 : ℝ) * sqL2 (A *ᵥ y + b)) (fun r => (((1 / 2 : ℝ) • (Aᵀ * A)) *ᵥ x) r + (x ᵥ* ((1 / 2 : ℝ) • (Aᵀ * A))) r + (Aᵀ *ᵥ b) r) x := by
      simp only [hq]; exact h1
    refine h2.congr_J ?_
    funext r
    have e3 : x ᵥ* (Aᵀ * A) = (Aᵀ * A) *ᵥ x := by
      rw [← mulVec_transpose, transpose_mul, transpose_transpose]
    rw [vecMul_smul, e3, smul_mulVec, mulVec_add, mulVec_mulVec]
    simp only [Pi.smul_apply, Pi.add_apply, smul_eq_mul]
    ring
  have hJ := C35_affine A b x method (eps / 10) (by positivity) J1
  refine ⟨?_, ?_⟩
  · simp only [if_true]
    have := C40_accepts_quadratic ((1 / 2 : ℝ) • (Aᵀ * A)) (Aᵀ *ᵥ b) ((1 / 2) * (b ⬝ᵥ b)) (Aᵀ *ᵥ (A *ᵥ x + b)) x
      (by simpa only [hq] using hg) eps heps method hm J0
    simpa only [hq] using this
  · cases checkH
    · trivial
    · simp only [if_true, hJ, maxCoeff_lt]
      intro i j
      simpa using heps

/-- a wrong Hessian is rejected: one residual `y`, with Hessian 2 instead of 1 -/
example (J0 J1 : RMat 1 1) : ¬ checkResidualsGradient (n := 0) (m := 1) vplus (fun y => y) (fun _ => 1) (fun _ _ => 2) (fun _ => 1) (1 / 2) .central true true J0 J1 := by
  intro h
  have := ((C54_decision _ _ _ _ _ _ _ J0 J1).1 h).2 rfl 0 0
  simp only [unit, Pi.add_apply, Pi.single_eq_same, Finset.univ_unique, Finset.sum_singleton] at this
  norm_num [abs_lt, Pi.single_apply] at this

/-- the square of one parameter meets the hypotheses of `C35_forward_error` with `M = 2` -/
example (x h : ℝ) (hh : 0 < h) (J0 : RMat 1 1) (A : RMat 1 1) (hA : HasJac (fun (y : RVec 1) (_ : Fin 1) => y 0 ^ 2) A fun _ => x) :
    |estimateNumJac vplus (fun (y : RVec 1) (_ : Fin 1) => y 0 ^ 2) (fun _ => x) .forward h J0 0 0 - A 0 0| ≤ 2 * h / 2 := by
  refine C35_forward_error _ A _ hA h hh J0 0 0 (fun t => 2 * (x + t)) (fun _ => 2) 2 (fun t _ => ?_) (fun t _ => ?_) fun t _ => by norm_num
  · have h1 : HasDerivAt (fun t => x + t) 1 t := by simpa using (hasDerivAt_id t).const_add x
    have h2 := h1.fun_mul h1
    refine (h2.congr_deriv (by ring)).congr_of_eventuallyEq (Filter.Eventually.of_forall fun t => ?_)
    simp [unit, sq]
  · simpa using ((hasDerivAt_id t).const_add x).const_mul 2

end Loss
end Verif
