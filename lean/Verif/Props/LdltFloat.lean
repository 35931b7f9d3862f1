import Mathlib.Algebra.Order.Chebyshev
import Verif.Lemmas.LdltRoundSolve
/-!
# C113: the steps of a computer

`SolveLDLT` (math.h:232-240) with rounding errors.
-/

set_option linter.unusedSectionVars false

namespace Verif
open FloatOps

section
variable {n : Nat}

/-- the norm weighted by the diagonal, squared -/
def diagNorm (A : Mat ℝ n) (x : Vec ℝ n) : ℝ := ∑ i, A i i * x i ^ 2

/-- the numbers of a vector -/
def vecV {u : ℝ} {r : Rnd u} (x : Vec (Rd r) n) : Vec ℝ n := fun i => (x i).v

theorem diagNorm_nonneg {A : Mat ℝ n} (h : ∀ i, 0 < A i i) (x : Vec ℝ n) : 0 ≤ diagNorm A x :=
  Finset.sum_nonneg fun i _ => mul_nonneg (h i).le (sq_nonneg _)

theorem diagNorm_pos {A : Mat ℝ n} (h : ∀ i, 0 < A i i) {x : Vec ℝ n} (hx : x ≠ 0) : 0 < diagNorm A x := by
  obtain ⟨i, hi⟩ := Function.ne_iff.1 hx
  exact Finset.sum_pos' (fun i _ => mul_nonneg (h i).le (sq_nonneg _)) ⟨i, Finset.mem_univ _, mul_pos (h i) (sq_pos_of_ne_zero hi)⟩

/-- the sum of the weighted coefficients -/
theorem diagSum_sq {A : Mat ℝ n} (h : ∀ i, 0 < A i i) (x : Vec ℝ n) : (∑ i, √(A i i) * |x i|) ^ 2 ≤ n * diagNorm A x := by
  have h1 := sq_sum_le_card_mul_sum_sq (s := Finset.univ) (f := fun i => √(A i i) * |x i|)
  rw [Finset.card_univ, Fintype.card_fin] at h1
  refine h1.trans (le_of_eq ?_)
  unfold diagNorm
  congr 1
  exact Finset.sum_congr rfl fun i _ => by rw [mul_pow, sq_abs, Real.sq_sqrt (h i).le]

theorem diagSum_le {A : Mat ℝ n} (h : ∀ i, 0 < A i i) (x : Vec ℝ n) : ∑ i, √(A i i) * |x i| ≤ √(n * diagNorm A x) :=
  Real.le_sqrt_of_sq_le (diagSum_sq h x)

/-- a residual measured along a direction -/
theorem resid_along {A : Mat ℝ n} (h : ∀ i, 0 < A i i) {ε : ℝ} (hε : 0 ≤ ε) {x b : Vec ℝ n}
    (hr : ∀ i, |b i - mv A x i| ≤ ε * (√(A i i) * ∑ j, √(A j j) * |x j|)) (e : Vec ℝ n) :
    |∑ i, e i * (b i - mv A x i)| ≤ ε * n * (√(diagNorm A e) * √(diagNorm A x)) := by
  have h1 : |∑ i, e i * (b i - mv A x i)| ≤ ∑ i, ε * (∑ j, √(A j j) * |x j|) * (√(A i i) * |e i|) := by
    refine (Finset.abs_sum_le_sum_abs _ _).trans (Finset.sum_le_sum fun i _ => ?_)
    rw [abs_mul]
    have := mul_le_mul_of_nonneg_left (hr i) (abs_nonneg (e i))
    linarith
  rw [← Finset.mul_sum] at h1
  have hx := diagSum_le h x
  have he := diagSum_le h e
  have h0 : 0 ≤ ∑ j, √(A j j) * |x j| := Finset.sum_nonneg fun j _ => mul_nonneg (Real.sqrt_nonneg _) (abs_nonneg _)
  have h0' : 0 ≤ ∑ j, √(A j j) * |e j| := Finset.sum_nonneg fun j _ => mul_nonneg (Real.sqrt_nonneg _) (abs_nonneg _)
  have h2 : (∑ j, √(A j j) * |x j|) * (∑ j, √(A j j) * |e j|) ≤ √(n * diagNorm A x) * √(n * diagNorm A e) := mul_le_mul hx he h0' (Real.sqrt_nonneg _)
  rw [Real.sqrt_mul (Nat.cast_nonneg n), Real.sqrt_mul (Nat.cast_nonneg n)] at h2
  have h3 := mul_le_mul_of_nonneg_left h2 hε
  have h4 : √(n : ℝ) * √(n : ℝ) = n := Real.mul_self_sqrt (Nat.cast_nonneg n)
  calc |∑ i, e i * (b i - mv A x i)| ≤ ε * ((∑ j, √(A j j) * |x j|) * (∑ j, √(A j j) * |e j|)) := by linarith
    _ ≤ ε * (√(n : ℝ) * √(diagNorm A x) * (√(n : ℝ) * √(diagNorm A e))) := h3
    _ = ε * (√(n : ℝ) * √(n : ℝ)) * (√(diagNorm A e) * √(diagNorm A x)) := by ring
    _ = _ := by rw [h4]

end

section
variable {n : Nat} {u : ℝ} {r : Rnd u} {μ : ℝ} {A : Mat (Rd r) n} {tol : Rd r}

/-- **C113**: the decomposition succeeds, and the result solves the system up to an error of each coefficient of the matrix that is a few roundings large, measured by the diagonal. -/
theorem C113_solves (hu : 0 ≤ u) (hu2 : u ≤ 1 / 2) (hA : Coercive μ (matV A)) (hμ : 4 * (n + 1) * solErr u n ≤ μ) (hμ0 : 0 < μ) (hμ1 : μ ≤ 1)
    (htol : ∀ i, tol.v < μ / 4 * (A i i).v) (b : Vec (Rd r) n) :
    ∃ x, eigenLdlt tol n A b = some x ∧
      ∀ i, |(b i).v - mv (matV A) (vecV x) i| ≤ 3 * solErr u n * (√(matV A i i) * ∑ j, √(matV A j j) * |vecV x j|) := by
  have hG0 := facErr_nonneg hu n
  have hGS := facErr_le_solErr hu n
  have hS0 := solErr_nonneg hu n
  have hμ' : 2 * (n + 1) * facErr u n ≤ μ := by
    have : (0 : ℝ) ≤ n := Nat.cast_nonneg n
    nlinarith
  obtain ⟨cols, s, hgo, hs, hinv, hlen, hall⟩ := ldltGo_rounded hu hu2 hA hμ' hμ0 hμ1 n [] (List.finRange n) .zero List.length_finRange (List.nodup_finRange n) (Or.inr rfl)
    (fun i => by simp) (by simp) ldInv_nil
  refine ⟨ldltSolve tol cols b, ?_, fun i => ?_⟩
  · unfold eigenLdlt
    rw [hgo]
    simp only [if_pos hs]
  · set x := vecV (ldltSolve tol cols b) with hx
    set ws := fullCols [] cols with hws
    have hn : (1 : ℝ) ≤ n := by
      have : 0 < n := i.pos
      exact_mod_cast this
    have hS8 : solErr u n ≤ 1 / 8 := by nlinarith
    have hcpos : ∀ c ∈ cols, 0 < c.d.v ∧ tol.v < c.d.v := by
      intro c hc
      have h1 := hinv.big c hc
      have h2 : 0 < (A c.p c.p).v := hA.diag c.p
      exact ⟨lt_of_lt_of_le (by positivity) h1, (htol _).trans_le h1⟩
    have h1 := ldltSolve_rounded hu hu2 cols [] b hinv.nodup (by simp) hcpos i (hall i)
    rw [hlen] at h1
    have h2 : ∀ i, ldM ws i i ≤ 8 / 7 * matV A i i := by
      intro i
      have h3 := (abs_le.1 (hinv.near i i (Or.inl (hall i)))).1
      rw [ldM_diag hinv.pos] at h3
      have h4 := ldM_diag_nonneg hinv.pos i
      have h5 : facErr u n * ldM ws i i ≤ 1 / 8 * ldM ws i i := mul_le_mul_of_nonneg_right (by linarith) h4
      have h6 : (A i i).v = matV A i i := rfl
      rw [h6] at h3
      linarith
    have h3 : ∀ j, ldAbs ws i j ≤ 8 / 7 * (√(matV A i i) * √(matV A j j)) := by
      intro j
      refine (ldAbs_cs hinv.pos i j).trans ?_
      have ha := Real.sqrt_le_sqrt (h2 i)
      have hb := Real.sqrt_le_sqrt (h2 j)
      rw [Real.sqrt_mul (by norm_num)] at ha hb
      calc √(ldM ws i i) * √(ldM ws j j) ≤ (√(8 / 7) * √(matV A i i)) * (√(8 / 7) * √(matV A j j)) := mul_le_mul ha hb (Real.sqrt_nonneg _) (by positivity)
        _ = (√(8 / 7) * √(8 / 7)) * (√(matV A i i) * √(matV A j j)) := by ring
        _ = _ := by rw [Real.mul_self_sqrt (by norm_num)]
    set Q := √(matV A i i) * ∑ j, √(matV A j j) * |x j| with hQ
    have hQ0 : 0 ≤ Q := mul_nonneg (Real.sqrt_nonneg _) (Finset.sum_nonneg fun j _ => mul_nonneg (Real.sqrt_nonneg _) (abs_nonneg _))
    have h4 : ldMulAbs ws x i ≤ 8 / 7 * Q := by
      rw [ldMulAbs_eq, hQ, Finset.mul_sum, Finset.mul_sum]
      refine Finset.sum_le_sum fun j _ => ?_
      have := mul_le_mul_of_nonneg_right (h3 j) (abs_nonneg (x j))
      linarith
    have h5 : |ldMul ws x i - mv (matV A) x i| ≤ facErr u n * ldMulAbs ws x i := by
      rw [ldMul_eq, ldMulAbs_eq, mv, ← Finset.sum_sub_distrib, Finset.mul_sum]
      refine (Finset.abs_sum_le_sum_abs _ _).trans (Finset.sum_le_sum fun j _ => ?_)
      rw [← sub_mul, abs_mul, abs_sub_comm]
      have := mul_le_mul_of_nonneg_right (hinv.near i j (Or.inl (hall i))) (abs_nonneg (x j))
      have h6 : (A i j).v = matV A i j := rfl
      rw [h6] at this
      linarith
    have h6 : |(b i).v - mv (matV A) x i| ≤ |(b i).v - ldMul ws x i| + |ldMul ws x i - mv (matV A) x i| := by
      have := abs_add_le ((b i).v - ldMul ws x i) (ldMul ws x i - mv (matV A) x i)
      rwa [sub_add_sub_cancel] at this
    have h7 : |(b i).v - ldMul ws x i| ≤ solErr u n * ldMulAbs ws x i := h1
    have h8 : facErr u n * ldMulAbs ws x i ≤ solErr u n * ldMulAbs ws x i := mul_le_mul_of_nonneg_right hGS (ldMulAbs_nonneg _ _ _)
    have h9 : solErr u n * ldMulAbs ws x i ≤ solErr u n * (8 / 7 * Q) := mul_le_mul_of_nonneg_left h4 hS0
    have h10 : 0 ≤ solErr u n * Q := mul_nonneg hS0 hQ0
    linarith

/-- **C113**: the result points in the right direction: for `b = -g` it is a descent direction. -/
theorem C113_descent (hu : 0 ≤ u) (hu2 : u ≤ 1 / 2) (hA : Coercive μ (matV A)) (hμ : 4 * (n + 1) * solErr u n ≤ μ) (hμ0 : 0 < μ) (hμ1 : μ ≤ 1)
    (htol : ∀ i, tol.v < μ / 4 * (A i i).v) (b : Vec (Rd r) n) :
    ∃ x, eigenLdlt tol n A b = some x ∧ μ / 4 * diagNorm (matV A) (vecV x) ≤ dotR (vecV x) (vecV b) ∧ (vecV b ≠ 0 → 0 < dotR (vecV x) (vecV b)) := by
  obtain ⟨x, hx, hr⟩ := C113_solves hu hu2 hA hμ hμ0 hμ1 htol b
  have hS0 := solErr_nonneg hu n
  have h1 := resid_along hA.diag (by positivity) (x := vecV x) (b := vecV b) hr (vecV x)
  rw [Real.mul_self_sqrt (diagNorm_nonneg hA.diag _)] at h1
  have h2 := hA.bound (vecV x)
  have h3 : ∑ i, vecV x i * (vecV b i - mv (matV A) (vecV x) i) = dotR (vecV x) (vecV b) - dotR (vecV x) (mv (matV A) (vecV x)) := by
    unfold dotR
    rw [← Finset.sum_sub_distrib]
    exact Finset.sum_congr rfl fun i _ => by ring
  rw [h3] at h1
  have h4 := (abs_le.1 h1).1
  have hD := diagNorm_nonneg hA.diag (vecV x)
  have h5 : 3 * solErr u n * n * diagNorm (matV A) (vecV x) ≤ 3 / 4 * μ * diagNorm (matV A) (vecV x) := by
    refine mul_le_mul_of_nonneg_right ?_ hD
    nlinarith
  have h6 : μ * diagNorm (matV A) (vecV x) ≤ dotR (vecV x) (mv (matV A) (vecV x)) := h2
  have h7 : μ / 4 * diagNorm (matV A) (vecV x) ≤ dotR (vecV x) (vecV b) := by linarith
  refine ⟨x, hx, h7, fun hb => ?_⟩
  have hx0 : vecV x ≠ 0 := by
    intro h0
    apply hb
    funext i
    have := hr i
    rw [h0] at this
    simp [mv] at this
    exact this
  exact lt_of_lt_of_le (mul_pos (by positivity) (diagNorm_pos hA.diag hx0)) h7

/-- **C113**: the result is close to the solution. -/
theorem C113_accuracy (hu : 0 ≤ u) (hu2 : u ≤ 1 / 2) (hA : Coercive μ (matV A)) (hμ : 4 * (n + 1) * solErr u n ≤ μ) (hμ0 : 0 < μ) (hμ1 : μ ≤ 1)
    (htol : ∀ i, tol.v < μ / 4 * (A i i).v) (b : Vec (Rd r) n) {y : Vec ℝ n} (hy : mv (matV A) y = vecV b) :
    ∃ x, eigenLdlt tol n A b = some x ∧ √(diagNorm (matV A) (vecV x - y)) ≤ 3 * n * solErr u n / μ * √(diagNorm (matV A) (vecV x)) := by
  obtain ⟨x, hx, hr⟩ := C113_solves hu hu2 hA hμ hμ0 hμ1 htol b
  refine ⟨x, hx, ?_⟩
  have hS0 := solErr_nonneg hu n
  set e := vecV x - y with he
  have h1 := resid_along hA.diag (by positivity) (x := vecV x) (b := vecV b) hr e
  have h2 : ∑ i, e i * (vecV b i - mv (matV A) (vecV x) i) = -dotR e (mv (matV A) e) := by
    unfold dotR
    rw [← Finset.sum_neg_distrib]
    refine Finset.sum_congr rfl fun i _ => ?_
    have h3 : mv (matV A) e i = mv (matV A) (vecV x) i - vecV b i := by
      rw [← hy]
      simp only [mv, he, Pi.sub_apply, mul_sub, Finset.sum_sub_distrib]
    rw [h3]; ring
  rw [h2, abs_neg] at h1
  have h4 := hA.bound e
  have h5 : μ * diagNorm (matV A) e ≤ 3 * solErr u n * n * (√(diagNorm (matV A) e) * √(diagNorm (matV A) (vecV x))) := h4.trans ((le_abs_self _).trans h1)
  have hD := diagNorm_nonneg hA.diag e
  rcases (Real.sqrt_nonneg (diagNorm (matV A) e)).eq_or_lt with h0 | h0
  · rw [← h0]; positivity
  · rw [div_mul_eq_mul_div, le_div_iff₀ hμ0]
    have h6 : μ * (√(diagNorm (matV A) e) * √(diagNorm (matV A) e)) ≤ 3 * solErr u n * n * (√(diagNorm (matV A) e) * √(diagNorm (matV A) (vecV x))) := by
      rw [Real.mul_self_sqrt hD]; exact h5
    refine le_of_mul_le_mul_right ?_ h0
    linarith

end
end Verif
