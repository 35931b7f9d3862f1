import Mathlib.Data.Real.Basic
import Mathlib.Algebra.Order.Field.Basic
import Mathlib.Tactic.Linarith
import Mathlib.Tactic.Positivity
import Mathlib.Tactic.FieldSimp
import Mathlib.Tactic.Ring
import Mathlib.Tactic.NormNum
/-!
# Newton's method for the square root with relative errors in every operation

Everything is divided by the exact root: `X` is the parameter, the root is 1, `u` the unit roundoff.
-/

namespace Verif
namespace SqrtNoise

theorem mul_near {a b α β : ℝ} (ha : |a - 1| ≤ α) (hb : |b - 1| ≤ β) : |a * b - 1| ≤ α + β + α * β := by
  have e : a * b - 1 = (a - 1) * (b - 1) + (a - 1) + (b - 1) := by ring
  have h1 : |(a - 1) * (b - 1)| ≤ α * β := by
    rw [abs_mul]; exact mul_le_mul ha hb (abs_nonneg _) ((abs_nonneg _).trans ha)
  rw [e]
  have := abs_add_le ((a - 1) * (b - 1) + (a - 1)) (b - 1)
  have := abs_add_le ((a - 1) * (b - 1)) (a - 1)
  linarith

theorem inv_near {δ v : ℝ} (h : |δ| ≤ v) (hv : v ≤ 1 / 500) : |1 / (1 + δ) - 1| ≤ 1003 / 1000 * v := by
  have hd := abs_le.mp h
  have h1 : 0 < 1 + δ := by linarith
  have e : 1 / (1 + δ) - 1 = -δ / (1 + δ) := by field_simp; ring
  rw [e, abs_div, abs_neg, abs_of_pos h1, div_le_iff₀ h1]
  have hv0 : 0 ≤ v := (abs_nonneg _).trans h
  nlinarith

/-- the operations of one Gauss-Newton step, with their errors -/
structure Noisy (u X R d X' : ℝ) : Prop where
  u0 : 0 ≤ u
  u1 : u ≤ 1 / 1024
  /-- residual -/
  res : ∃ δ1 δ2, |δ1| ≤ 17 / 16 * u ∧ |δ2| ≤ 17 / 16 * u ∧ R = (X ^ 2 * (1 + δ1) - 1) * (1 + δ2)
  /-- step -/
  step : ∃ δ3 δ4 δ5 η3 η5, |δ3| ≤ 17 / 16 * u ∧ |δ4| ≤ 17 / 16 * u ∧ |δ5| ≤ 17 / 16 * u ∧ |η3| ≤ u / 16 ∧ |η5| ≤ u / 16 ∧
    d = -(2 * X * R * (1 + δ3) + η3) / (4 * X ^ 2 * (1 + δ4)) * (1 + δ5) + η5
  /-- update -/
  upd : ∃ δ6, |δ6| ≤ 17 / 16 * u ∧ X' = (X + d) * (1 + δ6)

variable {u X R d X' : ℝ}

/-- the computed point against the exact Newton step -/
theorem Noisy.newton (h : Noisy u X R d X') (h1 : 1 / 2 ≤ X) (h2 : X ≤ 2) :
    |X + d - (X ^ 2 + 1) / (2 * X)| ≤ 43 / 10 * u * |(X ^ 2 - 1) / (2 * X)| + 27 / 50 * u * X + 7 / 50 * u ∧
    |X' - (X + d)| ≤ 17 / 16 * u * |X + d| := by
  obtain ⟨δ1, δ2, hδ1, hδ2, eR⟩ := h.res
  obtain ⟨δ3, δ4, δ5, η3, η5, hδ3, hδ4, hδ5, hη3, hη5, ed⟩ := h.step
  obtain ⟨δ6, hδ6, eX'⟩ := h.upd
  have hu0 := h.u0
  have hu1 := h.u1
  have hX0 : 0 < X := by linarith
  constructor
  swap
  · rw [eX', show (X + d) * (1 + δ6) - (X + d) = δ6 * (X + d) by ring, abs_mul]
    exact mul_le_mul_of_nonneg_right hδ6 (abs_nonneg _)
  set v := 17 / 16 * u with hv
  have hv1 : v ≤ 1 / 500 := by rw [hv]; linarith
  have hv0 : 0 ≤ v := by positivity
  have n2 : |(1 + δ2) - 1| ≤ v := by simpa using hδ2
  have n3 : |(1 + δ3) - 1| ≤ v := by simpa using hδ3
  have n5 : |(1 + δ5) - 1| ≤ v := by simpa using hδ5
  have n4 := inv_near hδ4 hv1
  have hd4 := abs_le.mp hδ4
  have hd5 := abs_le.mp hδ5
  have hp4 : 0 < 1 + δ4 := by linarith
  obtain ⟨m, hm⟩ : ∃ m, m = (1 + δ2) * (1 + δ3) * (1 + δ5) * (1 / (1 + δ4)) := ⟨_, rfl⟩
  have hm1 : |m - 1| ≤ 43 / 10 * u := by
    have e1 : v * v ≤ 11 / 10000 * v := mul_le_mul_of_nonneg_right (by rw [hv]; linarith) hv0
    have a1 : |(1 + δ2) * (1 + δ3) - 1| ≤ 2002 / 1000 * v := (mul_near n2 n3).trans (by linarith)
    have a2 : |(1 + δ2) * (1 + δ3) * (1 + δ5) - 1| ≤ 3006 / 1000 * v := (mul_near a1 n5).trans (by linarith)
    have a3 : |m - 1| ≤ 4014 / 1000 * v := by rw [hm]; exact (mul_near a2 n4).trans (by linarith)
    rw [hv] at a3
    linarith
  have hmm : |m| ≤ 101 / 100 := by
    have := abs_le.mp hm1
    rw [abs_le]; constructor <;> linarith
  -- the step in terms of m
  have key : X + d - (X ^ 2 + 1) / (2 * X) = -((X ^ 2 - 1) / (2 * X)) * (m - 1) - X * δ1 / 2 * m + (-(η3 * (1 + δ5) / (4 * X ^ 2 * (1 + δ4))) + η5) := by
    rw [ed, eR, hm]
    field_simp
    ring
  have b1 : |-((X ^ 2 - 1) / (2 * X)) * (m - 1)| ≤ 43 / 10 * u * |(X ^ 2 - 1) / (2 * X)| := by
    rw [abs_mul, abs_neg, mul_comm]
    exact mul_le_mul_of_nonneg_right hm1 (abs_nonneg _)
  have b2 : |X * δ1 / 2 * m| ≤ 27 / 50 * u * X := by
    rw [abs_mul, abs_div, abs_mul, abs_of_pos hX0, abs_of_pos (two_pos : (0 : ℝ) < 2)]
    have : X * |δ1| / 2 ≤ X * v / 2 := by
      have := mul_le_mul_of_nonneg_left hδ1 hX0.le
      linarith
    calc X * |δ1| / 2 * |m| ≤ X * v / 2 * (101 / 100) := mul_le_mul this hmm (abs_nonneg _) (by positivity)
      _ ≤ _ := by rw [hv]; have := mul_nonneg hX0.le hu0; linarith
  have b3 : |-(η3 * (1 + δ5) / (4 * X ^ 2 * (1 + δ4))) + η5| ≤ 7 / 50 * u := by
    have hden : (99 / 100 : ℝ) ≤ 4 * X ^ 2 * (1 + δ4) := by
      have h4 : 1 ≤ 4 * X ^ 2 := by
        have := mul_le_mul h1 h1 (by norm_num) hX0.le
        rw [pow_two]; linarith
      have := mul_le_mul h4 (show (998 / 1000 : ℝ) ≤ 1 + δ4 by linarith) (by norm_num) (by positivity)
      linarith
    have hq : |η3 * (1 + δ5) / (4 * X ^ 2 * (1 + δ4))| ≤ u / 15 := by
      rw [abs_div, abs_mul, abs_of_pos (show 0 < 4 * X ^ 2 * (1 + δ4) by linarith), div_le_iff₀ (by linarith)]
      have h5 : |1 + δ5| ≤ 1003 / 1000 := by rw [abs_le]; constructor <;> linarith
      calc |η3| * |1 + δ5| ≤ u / 16 * (1003 / 1000) := mul_le_mul hη3 h5 (abs_nonneg _) (by positivity)
        _ ≤ u / 15 * (99 / 100) := by linarith
        _ ≤ _ := mul_le_mul_of_nonneg_left hden (by positivity)
    have := abs_add_le (-(η3 * (1 + δ5) / (4 * X ^ 2 * (1 + δ4)))) η5
    rw [abs_neg] at this
    linarith
  rw [key]
  have t1 := abs_add_le (-((X ^ 2 - 1) / (2 * X)) * (m - 1) - X * δ1 / 2 * m) (-(η3 * (1 + δ5) / (4 * X ^ 2 * (1 + δ4))) + η5)
  have t2 := abs_sub (-((X ^ 2 - 1) / (2 * X)) * (m - 1)) (X * δ1 / 2 * m)
  linarith

theorem newton_sub (hX : X ≠ 0) : (X ^ 2 + 1) / (2 * X) - 1 = (X - 1) ^ 2 / (2 * X) := by field_simp; ring
theorem newton_sq (hX : X ≠ 0) : ((X ^ 2 + 1) / (2 * X)) ^ 2 - 1 = ((X ^ 2 - 1) / (2 * X)) ^ 2 := by field_simp; ring

/-- the computed point, from anywhere between half and twice the root -/
theorem Noisy.far (h : Noisy u X R d X') (h1 : 1 / 2 ≤ X) (h2 : X ≤ 2) :
    |X' - (X ^ 2 + 1) / (2 * X)| ≤ 6 * u ∧ 1 ≤ (X ^ 2 + 1) / (2 * X) ∧ (X ^ 2 + 1) / (2 * X) ≤ 5 / 4 := by
  have hX0 : 0 < X := by linarith
  have hu0 := h.u0
  have hu1 := h.u1
  obtain ⟨n1, n2⟩ := h.newton h1 h2
  have hA : |(X ^ 2 - 1) / (2 * X)| ≤ 3 / 4 := by
    rw [abs_le, le_div_iff₀ (by positivity), div_le_iff₀ (by positivity)]
    constructor <;> nlinarith
  have hN1 : 1 ≤ (X ^ 2 + 1) / (2 * X) := by
    rw [le_div_iff₀ (by positivity)]; nlinarith [sq_nonneg (X - 1)]
  have hN2 : (X ^ 2 + 1) / (2 * X) ≤ 5 / 4 := by
    rw [div_le_iff₀ (by positivity)]; nlinarith
  set N := (X ^ 2 + 1) / (2 * X)
  have hb : |X + d - N| ≤ 9 / 2 * u := by
    have a1 : 43 / 10 * u * |(X ^ 2 - 1) / (2 * X)| ≤ 43 / 10 * u * (3 / 4) := mul_le_mul_of_nonneg_left hA (by positivity)
    have a2 : 27 / 50 * u * X ≤ 27 / 50 * u * 2 := mul_le_mul_of_nonneg_left h2 (by positivity)
    linarith
  have hY : |X + d| ≤ 63 / 50 := by
    have := abs_le.mp hb
    rw [abs_le]; constructor <;> linarith
  have hc : |X' - (X + d)| ≤ 17 / 16 * u * (63 / 50) := n2.trans (mul_le_mul_of_nonneg_left hY (by positivity))
  refine ⟨?_, hN1, hN2⟩
  have := abs_sub_le X' (X + d) N
  linarith

/-- close to the root -/
theorem Noisy.near (h : Noisy u X R d X') (h1 : |X - 1| ≤ 13 / 50) :
    |X' - (X ^ 2 + 1) / (2 * X)| ≤ u * (26 / 5 * |X - 1| + 2) ∧ (X ^ 2 + 1) / (2 * X) - 1 ≤ 17 / 25 * (X - 1) ^ 2 := by
  have hX := abs_le.mp h1
  have hX0 : 0 < X := by linarith
  have hu0 := h.u0
  have hu1 := h.u1
  obtain ⟨n1, n2⟩ := h.newton (by linarith) (by linarith)
  have hA : |(X ^ 2 - 1) / (2 * X)| ≤ 6 / 5 * |X - 1| := by
    rw [show (X ^ 2 - 1) / (2 * X) = (X + 1) / (2 * X) * (X - 1) by field_simp; ring, abs_mul]
    refine mul_le_mul_of_nonneg_right ?_ (abs_nonneg _)
    rw [abs_of_pos (by positivity), div_le_iff₀ (by positivity)]
    linarith
  have hN3 : (X ^ 2 + 1) / (2 * X) - 1 ≤ 17 / 25 * (X - 1) ^ 2 := by
    rw [newton_sub hX0.ne', div_le_iff₀ (by positivity)]
    have := mul_le_mul_of_nonneg_left (show (1 : ℝ) ≤ 17 / 25 * (2 * X) by linarith) (sq_nonneg (X - 1))
    linarith
  refine ⟨?_, hN3⟩
  have hN1 : 1 ≤ (X ^ 2 + 1) / (2 * X) := by
    rw [le_div_iff₀ (by positivity)]; nlinarith [sq_nonneg (X - 1)]
  have hN2 : (X ^ 2 + 1) / (2 * X) ≤ 105 / 100 := by
    have : (X - 1) ^ 2 ≤ (13 / 50) ^ 2 := sq_le_sq' hX.1 hX.2
    linarith
  set N := (X ^ 2 + 1) / (2 * X)
  have hb : |X + d - N| ≤ u * (129 / 25 * |X - 1|) + 83 / 100 * u := by
    have a1 : 43 / 10 * u * |(X ^ 2 - 1) / (2 * X)| ≤ 43 / 10 * u * (6 / 5 * |X - 1|) := mul_le_mul_of_nonneg_left hA (by positivity)
    have a2 : 27 / 50 * u * X ≤ 27 / 50 * u * (63 / 50) := mul_le_mul_of_nonneg_left (by linarith) (by positivity)
    linarith
  have hY : |X + d| ≤ 53 / 50 := by
    have h3 : u * (129 / 25 * |X - 1|) ≤ 1 / 1024 * (129 / 25 * (13 / 50)) :=
      mul_le_mul hu1 (by linarith) (by positivity) (by norm_num)
    have := abs_le.mp hb
    rw [abs_le]; constructor <;> linarith
  have hc : |X' - (X + d)| ≤ 17 / 16 * u * (53 / 50) := n2.trans (mul_le_mul_of_nonneg_left hY (by positivity))
  have := abs_sub_le X' (X + d) N
  have : 0 ≤ u * |X - 1| := by positivity
  linarith

/-- after one step the point is close to the root -/
theorem Noisy.into (h : Noisy u X R d X') (h1 : 1 / 2 ≤ X) (h2 : X ≤ 2) : |X' - 1| ≤ 13 / 50 := by
  obtain ⟨a, b, c⟩ := h.far h1 h2
  have := abs_le.mp a
  have hu1 := h.u1
  rw [abs_le]; constructor <;> linarith

/-- quadratic convergence until the limit -/
theorem Noisy.rate (h : Noisy u X R d X') (h1 : |X - 1| ≤ 13 / 50) {B : ℝ} (hB : 16 * u ≤ B) : |X' - 1| ≤ max ((X - 1) ^ 2) B := by
  obtain ⟨a, b⟩ := h.near h1
  have hu0 := h.u0
  have hX := abs_le.mp h1
  have hN1 : 1 ≤ (X ^ 2 + 1) / (2 * X) := by
    rw [le_div_iff₀ (by linarith)]; nlinarith [sq_nonneg (X - 1)]
  have hm : |X' - 1| ≤ 17 / 25 * (X - 1) ^ 2 + u * (26 / 5 * |X - 1| + 2) := by
    have := abs_le.mp a
    have hp : 0 ≤ u * (26 / 5 * |X - 1| + 2) := by positivity
    rw [abs_le]; constructor <;> nlinarith [sq_nonneg (X - 1)]
  have hu : u * (26 / 5 * |X - 1| + 2) ≤ u * (17 / 5) := mul_le_mul_of_nonneg_left (by linarith) hu0
  rcases le_total (16 * u) ((X - 1) ^ 2) with hc | hc
  · exact le_max_of_le_left (by linarith)
  · exact le_max_of_le_right (by linarith)

theorem res_noise {u X R : ℝ} (hu0 : 0 ≤ u) (hu1 : u ≤ 1 / 1024) (h : ∃ δ1 δ2, |δ1| ≤ 17 / 16 * u ∧ |δ2| ≤ 17 / 16 * u ∧ R = (X ^ 2 * (1 + δ1) - 1) * (1 + δ2)) :
    |R - (X ^ 2 - 1)| ≤ 27 / 25 * u * X ^ 2 + 17 / 16 * u * |X ^ 2 - 1| := by
  obtain ⟨δ1, δ2, h1, h2, rfl⟩ := h
  have e : (X ^ 2 * (1 + δ1) - 1) * (1 + δ2) - (X ^ 2 - 1) = X ^ 2 * δ1 * (1 + δ2) + (X ^ 2 - 1) * δ2 := by ring
  rw [e]
  have hd2 := abs_le.mp h2
  have a1 : |X ^ 2 * δ1 * (1 + δ2)| ≤ 27 / 25 * u * X ^ 2 := by
    rw [abs_mul, abs_mul, abs_of_nonneg (sq_nonneg X)]
    have b1 : |1 + δ2| ≤ 1003 / 1000 := by rw [abs_le]; constructor <;> linarith
    calc X ^ 2 * |δ1| * |1 + δ2| ≤ X ^ 2 * (17 / 16 * u) * (1003 / 1000) :=
          mul_le_mul (mul_le_mul_of_nonneg_left h1 (sq_nonneg _)) b1 (abs_nonneg _) (by positivity)
      _ ≤ _ := by have : 0 ≤ u * X ^ 2 := by positivity
                  linarith
  have a2 : |(X ^ 2 - 1) * δ2| ≤ 17 / 16 * u * |X ^ 2 - 1| := by
    rw [abs_mul, mul_comm]; exact mul_le_mul_of_nonneg_right h2 (abs_nonneg _)
  exact (abs_add_le _ _).trans (add_le_add a1 a2)

/-- the computed residual decreases as long as the error is at least `16 u` -/
theorem Noisy.decrease (h : Noisy u X R d X') (h1 : 1 / 2 ≤ X) (h2 : X ≤ 2) (hT : 16 * u ≤ |X - 1|) {R' : ℝ}
    (hR' : ∃ δ1 δ2, |δ1| ≤ 17 / 16 * u ∧ |δ2| ≤ 17 / 16 * u ∧ R' = (X' ^ 2 * (1 + δ1) - 1) * (1 + δ2)) :
    |R'| ≤ 9 / 10 * |R| ∧ 16 * u ≤ |R| := by
  have hX0 : 0 < X := by linarith
  have hu0 := h.u0
  have hu1 := h.u1
  have q1 := res_noise hu0 hu1 h.res
  have q2 := res_noise hu0 hu1 hR'
  obtain ⟨f1, f2, f3⟩ := h.far h1 h2
  have hin := abs_le.mp (h.into h1 h2)
  have hX2 : X ^ 2 ≤ 2 ^ 2 := pow_le_pow_left₀ hX0.le h2 2
  have hX2' : (1 / 2) ^ 2 ≤ X ^ 2 := pow_le_pow_left₀ (by norm_num) h1 2
  have hr3 : |X ^ 2 - 1| ≤ 3 := by rw [abs_le]; constructor <;> linarith
  have hX'2 : X' ^ 2 ≤ (63 / 50) ^ 2 := by
    exact pow_le_pow_left₀ (by linarith) (by linarith) 2
  have hNsq := newton_sq hX0.ne'
  have key : |X' ^ 2 - 1| ≤ ((X ^ 2 - 1) / (2 * X)) ^ 2 + |X' - (X ^ 2 + 1) / (2 * X)| * (X' + (X ^ 2 + 1) / (2 * X)) := by
    have e : X' ^ 2 - 1 = ((X ^ 2 - 1) / (2 * X)) ^ 2 + (X' - (X ^ 2 + 1) / (2 * X)) * (X' + (X ^ 2 + 1) / (2 * X)) := by
      rw [← hNsq]; ring
    rw [e]
    refine (abs_add_le _ _).trans ?_
    rw [abs_of_nonneg (sq_nonneg _), abs_mul, abs_of_nonneg (by linarith : 0 ≤ X' + (X ^ 2 + 1) / (2 * X))]
  have hAsq : ((X ^ 2 - 1) / (2 * X)) ^ 2 = |X ^ 2 - 1| / (4 * X ^ 2) * |X ^ 2 - 1| := by
    rw [div_pow, ← sq_abs (X ^ 2 - 1)]; field_simp; ring
  have tR : |R| ≥ |X ^ 2 - 1| - (27 / 25 * u * X ^ 2 + 17 / 16 * u * |X ^ 2 - 1|) := by
    have := abs_sub_abs_le_abs_sub (X ^ 2 - 1) R
    rw [abs_sub_comm (X ^ 2 - 1) R] at this
    linarith
  have tR' : |R'| ≤ |X' ^ 2 - 1| + (27 / 25 * u * X' ^ 2 + 17 / 16 * u * |X' ^ 2 - 1|) := by
    have := abs_sub_abs_le_abs_sub R' (X' ^ 2 - 1)
    linarith
  have m1 : u * X' ^ 2 ≤ u * (63 / 50) ^ 2 := mul_le_mul_of_nonneg_left hX'2 hu0
  rcases le_total (|X - 1|) (13 / 50) with hc | hc
  · -- near
    have hX := abs_le.mp hc
    obtain ⟨n1, -⟩ := h.near hc
    have hr : 87 / 50 * |X - 1| ≤ |X ^ 2 - 1| := by
      rw [show X ^ 2 - 1 = (X + 1) * (X - 1) by ring, abs_mul, abs_of_pos (by linarith : 0 < X + 1)]
      exact mul_le_mul_of_nonneg_right (by linarith) (abs_nonneg _)
    have hX3 : X ^ 2 ≤ (63 / 50) ^ 2 := pow_le_pow_left₀ hX0.le (by linarith) 2
    have hX3' : (37 / 50) ^ 2 ≤ X ^ 2 := pow_le_pow_left₀ (by norm_num) (by linarith) 2
    have hr2 : |X ^ 2 - 1| ≤ 3 / 5 := by rw [abs_le]; constructor <;> linarith
    have hq : |X ^ 2 - 1| / (4 * X ^ 2) ≤ 11 / 50 := by
      rw [div_le_iff₀ (by positivity), abs_le]
      constructor <;> linarith
    have hA : ((X ^ 2 - 1) / (2 * X)) ^ 2 ≤ 11 / 50 * |X ^ 2 - 1| := by
      rw [hAsq]; exact mul_le_mul_of_nonneg_right hq (abs_nonneg _)
    have hs : |X' - (X ^ 2 + 1) / (2 * X)| * (X' + (X ^ 2 + 1) / (2 * X)) ≤ u * (17 / 5) * (252 / 100) := by
      refine mul_le_mul (n1.trans (mul_le_mul_of_nonneg_left (by linarith) hu0)) (by linarith) (by linarith) (by positivity)
    have m2 : u * |X ^ 2 - 1| ≤ u * (3 / 5) := mul_le_mul_of_nonneg_left hr2 hu0
    have m3 : u * X ^ 2 ≤ u * (8 / 5) := mul_le_mul_of_nonneg_left (by linarith) hu0
    have hr' : |X' ^ 2 - 1| ≤ 11 / 50 * |X ^ 2 - 1| + 43 / 5 * u := by linarith
    have m4 : u * |X' ^ 2 - 1| ≤ u * (3 / 5) := mul_le_mul_of_nonneg_left (by linarith) hu0
    constructor <;> linarith
  · -- far
    have hr : 45 / 100 ≤ |X ^ 2 - 1| := by
      rcases le_abs.mp hc with hc | hc
      · exact le_abs.mpr (Or.inl (by nlinarith))
      · exact le_abs.mpr (Or.inr (by nlinarith))
    have hq : |X ^ 2 - 1| / (4 * X ^ 2) ≤ 3 / 4 := by
      rw [div_le_iff₀ (by positivity), abs_le]
      constructor <;> linarith
    have hA : ((X ^ 2 - 1) / (2 * X)) ^ 2 ≤ 3 / 4 * |X ^ 2 - 1| := by
      rw [hAsq]; exact mul_le_mul_of_nonneg_right hq (abs_nonneg _)
    have hs : |X' - (X ^ 2 + 1) / (2 * X)| * (X' + (X ^ 2 + 1) / (2 * X)) ≤ 6 * u * (252 / 100) := by
      refine mul_le_mul f1 (by linarith) (by linarith) (by positivity)
    have m2 : u * |X ^ 2 - 1| ≤ u * 3 := mul_le_mul_of_nonneg_left hr3 hu0
    have m3 : u * X ^ 2 ≤ u * 4 := mul_le_mul_of_nonneg_left (by linarith) hu0
    have m4 : u * |X' ^ 2 - 1| ≤ u * 1 := mul_le_mul_of_nonneg_left (by rw [abs_le]; have := sq_nonneg X'; constructor <;> linarith) hu0
    constructor <;> linarith

end SqrtNoise
end Verif
