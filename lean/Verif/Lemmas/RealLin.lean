import Verif.Model.Solvers
import Verif.Num.Real
import Mathlib.LinearAlgebra.FiniteDimensional.Basic
import Mathlib.LinearAlgebra.FiniteDimensional.Lemmas
import Mathlib.Algebra.BigOperators.Fin
import Mathlib.Algebra.Order.BigOperators.Ring.Finset
import Mathlib.Tactic.Linarith
import Mathlib.Tactic.Ring
/-!
# Linear systems over the reals: positive definiteness, descent, monotonicity in the damping
-/

set_option linter.unusedSectionVars false

namespace Verif
open FloatOps Finset

/-- matrix times vector -/
def mv {m n : Nat} (A : Fin m → Fin n → ℝ) (v : Vec ℝ n) : Vec ℝ m := fun i => ∑ j, A i j * v j
/-- transposed matrix times vector -/
def tmv {m n : Nat} (A : Fin m → Fin n → ℝ) (v : Vec ℝ m) : Vec ℝ n := fun j => ∑ i, A i j * v i
/-- inner product -/
def dotR {n : Nat} (u v : Vec ℝ n) : ℝ := ∑ i, u i * v i
/-- `A^T A` -/
def gram {m n : Nat} (A : Fin m → Fin n → ℝ) : Mat ℝ n := fun i j => ∑ k, A k i * A k j
/-- symmetric -/
def SymR {n : Nat} (H : Mat ℝ n) : Prop := ∀ i j, H i j = H j i
/-- symmetric positive semi-definite -/
def PSD {n : Nat} (H : Mat ℝ n) : Prop := SymR H ∧ ∀ v, 0 ≤ dotR v (mv H v)
/-- symmetric positive definite -/
def PD {n : Nat} (H : Mat ℝ n) : Prop := SymR H ∧ ∀ v, v ≠ 0 → 0 < dotR v (mv H v)
/-- `H + l * diag(H)` -/
def dampedR {n : Nat} (l : ℝ) (H : Mat ℝ n) : Mat ℝ n := fun i j => H i j + if i = j then l * H i i else 0
/-- squared norm weighted with the diagonal of `H` -/
def diagSq {n : Nat} (H : Mat ℝ n) (v : Vec ℝ n) : ℝ := ∑ i, H i i * v i ^ 2

section
variable {m n : Nat}

theorem sumF_eq_sum : ∀ {n : Nat} (v : Vec ℝ n), sumF v = ∑ i, v i
  | 0, v => by simp [sumF]
  | n + 1, v => by simp only [sumF, RealOps.add_eq]; rw [sumF_eq_sum, Fin.sum_univ_castSucc]

theorem mulVecF_eq (A : Mat ℝ n) (v : Vec ℝ n) : mulVecF A v = mv A v := by
  funext i; simp [mulVecF, mv, sumF_eq_sum]

theorem sqNorm_eq (v : Vec ℝ n) : sqNorm v = dotR v v := by simp [sqNorm, dotR, sumF_eq_sum]

theorem symUpper_of_sym {H : Mat ℝ n} (h : SymR H) : symUpper H = H := by
  funext i j; unfold symUpper; split
  · rfl
  · exact h j i

theorem mv_add (A : Fin m → Fin n → ℝ) (u v : Vec ℝ n) : mv A (u + v) = mv A u + mv A v := by
  funext i; simp [mv, mul_add, sum_add_distrib]

theorem mv_sub (A : Fin m → Fin n → ℝ) (u v : Vec ℝ n) : mv A (u - v) = mv A u - mv A v := by
  funext i; simp [mv, mul_sub, sum_sub_distrib]

theorem mv_smul (A : Fin m → Fin n → ℝ) (c : ℝ) (v : Vec ℝ n) : mv A (c • v) = c • mv A v := by
  funext i
  simp only [mv, Pi.smul_apply, smul_eq_mul, mul_sum]
  exact sum_congr rfl fun j _ => by ring

theorem mv_zero (A : Fin m → Fin n → ℝ) : mv A 0 = 0 := by funext i; simp [mv]

theorem dotR_comm (u v : Vec ℝ n) : dotR u v = dotR v u := by
  simp [dotR, mul_comm]

theorem dotR_add (u v w : Vec ℝ n) : dotR u (v + w) = dotR u v + dotR u w := by
  simp [dotR, mul_add, sum_add_distrib]

theorem dotR_sub (u v w : Vec ℝ n) : dotR u (v - w) = dotR u v - dotR u w := by
  simp [dotR, mul_sub, sum_sub_distrib]

theorem dotR_smul (u v : Vec ℝ n) (c : ℝ) : dotR u (c • v) = c * dotR u v := by
  simp only [dotR, Pi.smul_apply, smul_eq_mul, mul_sum]
  exact sum_congr rfl fun j _ => by ring

theorem dotR_neg (u v : Vec ℝ n) : dotR u (-v) = - dotR u v := by
  simp [dotR]

theorem add_dotR (u v w : Vec ℝ n) : dotR (u + v) w = dotR u w + dotR v w := by
  rw [dotR_comm, dotR_add, dotR_comm w, dotR_comm w]

theorem dotR_self_nonneg (v : Vec ℝ n) : 0 ≤ dotR v v := sum_nonneg fun i _ => mul_self_nonneg _

theorem dotR_self_eq_zero {v : Vec ℝ n} (h : dotR v v = 0) : v = 0 := by
  funext i
  have := (sum_eq_zero_iff_of_nonneg (fun i _ => mul_self_nonneg (v i))).mp h i (mem_univ i)
  simpa using this

theorem dotR_tmv (A : Fin m → Fin n → ℝ) (u : Vec ℝ n) (v : Vec ℝ m) : dotR u (tmv A v) = dotR (mv A u) v := by
  simp only [dotR, tmv, mv, mul_sum, sum_mul]
  rw [sum_comm]
  exact sum_congr rfl fun i _ => sum_congr rfl fun j _ => by ring

theorem mv_gram (A : Fin m → Fin n → ℝ) (v : Vec ℝ n) : mv (gram A) v = tmv A (mv A v) := by
  funext i
  simp only [mv, gram, tmv, sum_mul, mul_sum]
  rw [sum_comm]
  exact sum_congr rfl fun k _ => sum_congr rfl fun j _ => by ring

theorem gram_sym (A : Fin m → Fin n → ℝ) : SymR (gram A) := fun i j => sum_congr rfl fun k _ => mul_comm _ _

theorem gram_psd (A : Fin m → Fin n → ℝ) : PSD (gram A) := by
  refine ⟨gram_sym A, fun v => ?_⟩
  rw [mv_gram, dotR_tmv]; exact dotR_self_nonneg _

theorem gram_pd {A : Fin m → Fin n → ℝ} (h : ∀ v, mv A v = 0 → v = 0) : PD (gram A) := by
  refine ⟨gram_sym A, fun v hv => ?_⟩
  rw [mv_gram, dotR_tmv]
  refine lt_of_le_of_ne (dotR_self_nonneg _) fun h0 => hv (h v (dotR_self_eq_zero h0.symm))

theorem sym_dot {H : Mat ℝ n} (h : SymR H) (u v : Vec ℝ n) : dotR u (mv H v) = dotR v (mv H u) := by
  simp only [dotR, mv, mul_sum]
  rw [sum_comm]
  exact sum_congr rfl fun j _ => sum_congr rfl fun i _ => by rw [h i j]; ring

theorem damped_mv (l : ℝ) (H : Mat ℝ n) (v : Vec ℝ n) : mv (dampedR l H) v = mv H v + l • fun i => H i i * v i := by
  funext i
  simp only [mv, dampedR, Pi.add_apply, Pi.smul_apply, smul_eq_mul, add_mul, sum_add_distrib, ite_mul, zero_mul]
  rw [sum_ite_eq]
  simp [mul_assoc]

theorem damped_quad (l : ℝ) (H : Mat ℝ n) (v : Vec ℝ n) :
    dotR v (mv (dampedR l H) v) = dotR v (mv H v) + l * diagSq H v := by
  rw [damped_mv, dotR_add, dotR_smul]
  congr 2
  exact sum_congr rfl fun i _ => by ring

theorem damped_sym {l : ℝ} {H : Mat ℝ n} (h : SymR H) : SymR (dampedR l H) := by
  intro i j
  unfold dampedR
  rw [h i j]
  by_cases e : i = j
  · subst e; rfl
  · rw [if_neg e, if_neg (Ne.symm e)]

theorem diagSq_nonneg {H : Mat ℝ n} (h : ∀ i, 0 ≤ H i i) (v : Vec ℝ n) : 0 ≤ diagSq H v :=
  sum_nonneg fun i _ => mul_nonneg (h i) (sq_nonneg _)

theorem diagSq_pos {H : Mat ℝ n} (h : ∀ i, 0 < H i i) {v : Vec ℝ n} (hv : v ≠ 0) : 0 < diagSq H v := by
  refine lt_of_le_of_ne (diagSq_nonneg (fun i => (h i).le) v) fun h0 => hv ?_
  funext i
  have := (sum_eq_zero_iff_of_nonneg (fun i _ => mul_nonneg (h i).le (sq_nonneg (v i)))).mp h0.symm i (mem_univ i)
  rcases mul_eq_zero.mp this with h1 | h1
  · exact absurd h1 (h i).ne'
  · simpa using h1

theorem psd_diag {H : Mat ℝ n} (h : PSD H) (i : Fin n) : 0 ≤ H i i := by
  have := h.2 (Pi.single i 1)
  simpa [dotR, mv, Pi.single_apply] using this

theorem pd_diag {H : Mat ℝ n} (h : PD H) (i : Fin n) : 0 < H i i := by
  have := h.2 (Pi.single i 1) (by simp)
  simpa [dotR, mv, Pi.single_apply] using this

theorem PD.psd {H : Mat ℝ n} (h : PD H) : PSD H := by
  refine ⟨h.1, fun v => ?_⟩
  by_cases hv : v = 0
  · subst hv; simp [dotR]
  · exact (h.2 v hv).le

/-- damping makes a positive semi-definite matrix with positive diagonal positive definite -/
theorem damped_pd {H : Mat ℝ n} (h : PSD H) (hd : ∀ i, 0 < H i i) {l : ℝ} (hl : 0 < l) : PD (dampedR l H) := by
  refine ⟨damped_sym h.1, fun v hv => ?_⟩
  rw [damped_quad]
  have := h.2 v
  have := mul_pos hl (diagSq_pos hd hv)
  linarith

/-- damping keeps a positive definite matrix positive definite -/
theorem damped_pd' {H : Mat ℝ n} (h : PD H) {l : ℝ} (hl : 0 ≤ l) : PD (dampedR l H) := by
  refine ⟨damped_sym h.1, fun v hv => ?_⟩
  rw [damped_quad]
  have := h.2 v hv
  have := mul_nonneg hl (diagSq_nonneg (fun i => (pd_diag h i).le) v)
  linarith

theorem pd_inj {H : Mat ℝ n} (h : PD H) {u v : Vec ℝ n} (e : mv H u = mv H v) : u = v := by
  by_contra hne
  have h1 := h.2 (u - v) (sub_ne_zero.mpr hne)
  rw [mv_sub, e, sub_self] at h1
  simp [dotR] at h1

theorem pd_surj {H : Mat ℝ n} (h : PD H) (b : Vec ℝ n) : ∃ v, mv H v = b := by
  let f : Vec ℝ n →ₗ[ℝ] Vec ℝ n :=
    { toFun := mv H, map_add' := mv_add H, map_smul' := mv_smul H }
  have hi : Function.Injective f := fun u v e => pd_inj h e
  exact (LinearMap.injective_iff_surjective.mp hi) b

theorem scaleDiag_damped (l : ℝ) (H : Mat ℝ n) : scaleDiag (1 + l) H = dampedR l H := by
  funext i j
  unfold scaleDiag dampedR
  by_cases h : i = j
  · subst h; simp; ring
  · simp [h]

theorem damped_zero (H : Mat ℝ n) : dampedR 0 H = H := by
  funext i j; simp [dampedR]

end

/-- What is assumed of Eigen over the reals: on a symmetric positive definite matrix the LDLT solution is
exact, and `inverse()` is the inverse. -/
structure ExactLinAlg (L : LinAlg ℝ) : Prop where
  ldlt : ∀ n A b, PD A → ∃ v, L.ldlt n A b = some v ∧ mv A v = b
  inv : ∀ n A b, PD A → mv A (mv (L.inv n A) b) = b

open Classical in
/-- an instance of the assumption -/
noncomputable def someLinAlg : LinAlg ℝ where
  ldlt := fun _ A b => if h : PD A then some (pd_surj h b).choose else none
  inv := fun n A => if h : PD A then fun i j => (pd_surj h (Pi.single j 1)).choose i else fun _ _ => 0

theorem someLinAlg_exact : ExactLinAlg someLinAlg where
  ldlt n A b h := by
    refine ⟨(pd_surj h b).choose, ?_, (pd_surj h b).choose_spec⟩
    simp [someLinAlg, h]
  inv n A b h := by
    have hc : ∀ j, mv A (fun i => someLinAlg.inv n A i j) = Pi.single j 1 := by
      intro j
      have : (fun i => someLinAlg.inv n A i j) = (pd_surj h (Pi.single j 1)).choose := by
        funext i; simp [someLinAlg, h]
      rw [this]; exact (pd_surj h (Pi.single j 1)).choose_spec
    funext i
    have h1 : mv A (mv (someLinAlg.inv n A) b) i = ∑ j, mv A (fun i => someLinAlg.inv n A i j) i * b j := by
      simp only [mv, mul_sum, sum_mul]
      rw [sum_comm]
      exact sum_congr rfl fun k _ => sum_congr rfl fun j _ => by ring
    rw [h1]
    simp only [hc]
    simp [Pi.single_apply]

end Verif
