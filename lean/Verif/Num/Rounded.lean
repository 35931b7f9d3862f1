import Mathlib.Analysis.SpecialFunctions.Pow.NNReal
import Mathlib.Data.Real.Sqrt
import Verif.Num.FloatOps
/-!
# Arithmetic with a relative rounding error

The model of floating point numbers of textbooks: every operation returns the exact result with a relative error of at most `u`.  It describes IEEE arithmetic (`u = 2^-53` for `double`)
as long as nothing overflows or underflows: `Verif.Num.RoundedBin`.  The rounding function is any function with that error.
-/

namespace Verif

/-- a rounding function with relative error `u` -/
structure Rnd (u : ℝ) where
  rnd : ℝ → ℝ
  err : ∀ x, |rnd x - x| ≤ u * |x|

/-- the numbers computed with, rounded by `r` -/
structure Rd {u : ℝ} (r : Rnd u) where
  v : ℝ

namespace Rd
variable {u : ℝ} {r : Rnd u}

/-- every operation is rounded; signs and comparisons are exact -/
noncomputable instance : FloatOps (Rd r) where
  add a b := ⟨r.rnd (a.v + b.v)⟩
  sub a b := ⟨r.rnd (a.v - b.v)⟩
  mul a b := ⟨r.rnd (a.v * b.v)⟩
  div a b := ⟨r.rnd (a.v / b.v)⟩
  neg a := ⟨-a.v⟩
  ofInt n := ⟨r.rnd n⟩
  half := ⟨r.rnd (1 / 2)⟩
  sqrt a := ⟨r.rnd (Real.sqrt a.v)⟩
  cube a := ⟨r.rnd (a.v ^ 3)⟩
  lt a b := decide (a.v < b.v)
  eq a b := decide (a.v = b.v)
  isNaN _ := false
  isInf _ := false
  maxVal := ⟨2 ^ 1024⟩
  eps := ⟨r.rnd (1 / 10 ^ 7)⟩

@[simp] theorem add_v (a b : Rd r) : (FloatOps.add a b).v = r.rnd (a.v + b.v) := rfl
@[simp] theorem sub_v (a b : Rd r) : (FloatOps.sub a b).v = r.rnd (a.v - b.v) := rfl
@[simp] theorem mul_v (a b : Rd r) : (FloatOps.mul a b).v = r.rnd (a.v * b.v) := rfl
@[simp] theorem div_v (a b : Rd r) : (FloatOps.div a b).v = r.rnd (a.v / b.v) := rfl
@[simp] theorem neg_v (a : Rd r) : (FloatOps.neg a).v = -a.v := rfl
@[simp] theorem lt_iff (a b : Rd r) : (FloatOps.lt a b = true) = (a.v < b.v) := by
  show (decide (a.v < b.v) = true) = _
  simp
@[simp] theorem lt_false (a b : Rd r) : (FloatOps.lt a b = false) = (b.v ≤ a.v) := by
  show (decide (a.v < b.v) = false) = _
  simp
theorem rnd_zero : r.rnd 0 = 0 := by
  have := r.err 0
  simpa using this
@[simp] theorem ofInt_zero_v : (FloatOps.ofInt 0 : Rd r).v = 0 := by
  show r.rnd ((0 : ℤ) : ℝ) = 0
  rw [Int.cast_zero, rnd_zero]
theorem ofInt_v (k : ℤ) : (FloatOps.ofInt k : Rd r).v = r.rnd k := rfl

end Rd

/-! ### Accumulated errors -/

/-- `a` is `b` up to the error of `k` roundings of something of the size of `s` -/
def Near (u : ℝ) (k : ℕ) (a b s : ℝ) : Prop := |b| ≤ s ∧ |a - b| ≤ ((1 + u) ^ k - 1) * s

section
variable {u : ℝ} {k l : ℕ} {a b s a' b' s' : ℝ}

theorem one_le_pow_u (hu : 0 ≤ u) (k : ℕ) : 1 ≤ (1 + u) ^ k := one_le_pow₀ (by linarith)

theorem pow_u_mono (hu : 0 ≤ u) (h : k ≤ l) : (1 + u) ^ k ≤ (1 + u) ^ l := pow_le_pow_right₀ (by linarith) h

theorem Near.nonneg (h : Near u k a b s) : 0 ≤ s := (abs_nonneg _).trans h.1

theorem Near.mono (hu : 0 ≤ u) (h : Near u k a b s) (hk : k ≤ l) : Near u l a b s :=
  ⟨h.1, h.2.trans (mul_le_mul_of_nonneg_right (by linarith [pow_u_mono hu hk]) h.nonneg)⟩

theorem Near.exact (k : ℕ) (hu : 0 ≤ u) (a : ℝ) : Near u k a a |a| :=
  ⟨le_rfl, by rw [sub_self, abs_zero]; exact mul_nonneg (by linarith [one_le_pow_u hu k]) (abs_nonneg _)⟩

theorem Near.size (h : Near u k a b s) : |a| ≤ (1 + u) ^ k * s := by
  have : |a| ≤ |a - b| + |b| := by
    have := abs_add_le (a - b) b
    rwa [sub_add_cancel] at this
  have := h.1; have := h.2
  nlinarith

theorem Near.rnd (hu : 0 ≤ u) (r : Rnd u) (h : Near u k a b s) : Near u (k + 1) (r.rnd a) b s := by
  refine ⟨h.1, ?_⟩
  have h1 := r.err a
  have h2 : u * |a| ≤ u * ((1 + u) ^ k * s) := mul_le_mul_of_nonneg_left h.size hu
  have h3 : |r.rnd a - b| ≤ |r.rnd a - a| + |a - b| := by
    have := abs_add_le (r.rnd a - a) (a - b)
    rwa [sub_add_sub_cancel] at this
  have := h.2
  calc |r.rnd a - b| ≤ u * ((1 + u) ^ k * s) + ((1 + u) ^ k - 1) * s := by linarith
    _ = ((1 + u) ^ (k + 1) - 1) * s := by ring

theorem Near.add (h : Near u k a b s) (h' : Near u k a' b' s') : Near u k (a + a') (b + b') (s + s') := by
  refine ⟨(abs_add_le _ _).trans (add_le_add h.1 h'.1), ?_⟩
  have : a + a' - (b + b') = (a - b) + (a' - b') := by ring
  rw [this, mul_add]
  exact (abs_add_le _ _).trans (add_le_add h.2 h'.2)

theorem Near.neg (h : Near u k a b s) : Near u k (-a) (-b) s := by
  refine ⟨by rw [abs_neg]; exact h.1, ?_⟩
  rw [show -a - -b = -(a - b) by ring, abs_neg]; exact h.2

theorem Near.sub (h : Near u k a b s) (h' : Near u k a' b' s') : Near u k (a - a') (b - b') (s + s') := by
  rw [sub_eq_add_neg, sub_eq_add_neg]; exact h.add h'.neg

theorem Near.const_mul (t : ℝ) (h : Near u k a b s) : Near u k (t * a) (t * b) (|t| * s) := by
  refine ⟨by rw [abs_mul]; exact mul_le_mul_of_nonneg_left h.1 (abs_nonneg _), ?_⟩
  rw [← mul_sub, abs_mul]
  calc |t| * |a - b| ≤ |t| * (((1 + u) ^ k - 1) * s) := mul_le_mul_of_nonneg_left h.2 (abs_nonneg _)
    _ = ((1 + u) ^ k - 1) * (|t| * s) := by ring

/-- a rounded number against its rounding: two roundings measured by the result -/
theorem Rnd.back (r : Rnd u) (hu : 0 ≤ u) (hu2 : u ≤ 1 / 2) (x : ℝ) : |x - r.rnd x| ≤ ((1 + u) ^ 2 - 1) * |r.rnd x| := by
  have h := r.err x
  have h1 : |x| ≤ |r.rnd x| + u * |x| := by
    have := abs_add_le (r.rnd x) (x - r.rnd x)
    rw [add_sub_cancel, abs_sub_comm x] at this
    linarith
  rw [abs_sub_comm]
  have h2 : (1 - u) * |x| ≤ |r.rnd x| := by linarith
  have h3 : u ≤ ((1 + u) ^ 2 - 1) * (1 - u) := by
    have h5 : 0 ≤ u * (1 - u - u ^ 2) := mul_nonneg hu (by nlinarith)
    linarith
  have h4 : 0 ≤ (1 + u) ^ 2 - 1 := by nlinarith
  calc |r.rnd x - x| ≤ u * |x| := h
    _ ≤ ((1 + u) ^ 2 - 1) * (1 - u) * |x| := mul_le_mul_of_nonneg_right h3 (abs_nonneg _)
    _ = ((1 + u) ^ 2 - 1) * ((1 - u) * |x|) := by ring
    _ ≤ _ := mul_le_mul_of_nonneg_left h2 h4

/-- the sign survives -/
theorem Rnd.pos (r : Rnd u) (hu2 : u ≤ 1 / 2) {x : ℝ} (h : 0 < x) : (1 - u) * x ≤ r.rnd x ∧ 0 < r.rnd x := by
  have := r.err x
  rw [abs_of_pos h] at this
  have h2 := abs_le.1 this
  constructor
  · linarith
  · nlinarith [h2.1]

end
end Verif
