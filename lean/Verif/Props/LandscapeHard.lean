import Verif.Props.Landscape
import Mathlib.Analysis.SpecialFunctions.Log.Basic
import Mathlib.Analysis.Complex.Exponential
import Mathlib.Tactic.IntervalCases
/-!
# C136, continued: Himmelblau, Beale, Wood, Jennrich and Sampson
-/

namespace Verif.Landscape
open Loss Filter Topology

/-- a path along which the function falls quadratically -/
theorem not_localMin_quad {n : Nat} {f : RVec n → ℝ} {v : RVec n} (γ : ℝ → RVec n) (hc : ∀ i, ContinuousAt (fun t => γ t i) 0) (h0 : γ 0 = v) {g : ℝ → ℝ} (hg : ContinuousAt g 0)
    (hg0 : g 0 < 0) (he : ∀ t, f (γ t) = f v + t ^ 2 * g t) : ¬ IsLocalMin f v := by
  obtain ⟨u, hu, h⟩ := Metric.eventually_nhds_iff.1 (hg.tendsto.eventually_lt_const hg0)
  refine not_localMin γ hc h0 hu fun t t0 t1 => ?_
  have := h (y := t) (by rw [Real.dist_eq, sub_zero, abs_of_pos t0]; exact t1)
  have : t ^ 2 * g t < 0 := mul_neg_of_pos_of_neg (by positivity) this
  rw [he]; linarith

/-! ### Himmelblau -/

theorem himm_grad (v : RVec 2) : HasGrad (sq himm) ![2 * (2 * v 0 * himm v 0 + himm v 1), 2 * (himm v 0 + 2 * v 1 * himm v 1)] v := by
  have h0 := hasGrad_coord (0 : Fin 2) v
  have h1 := hasGrad_coord (1 : Fin 2) v
  have a := ((h0.mul h0).add h1).addc (-11)
  have b := (h0.add (h1.mul h1)).addc (-7)
  refine hasGrad_of ((a.powk 2).add (b.powk 2)) (fun y => by simp [sq, Fin.sum_univ_two, himm]; ring) ?_
  funext i
  fin_cases i <;> simp [himm] <;> ring

/-- a point where the gradient vanishes but not the residuals -/
theorem himm_saddle {x t : ℝ} (hx : x ≠ 0) (hq : 32 * x ^ 5 - 336 * x ^ 3 - 104 * x ^ 2 + 1 = 0) (ht : 4 * x * t = 4 * x ^ 3 + 1 - 44 * x) : t * (1 - 8 * x ^ 3) < 0 := by
  have hx2 : 0 < x ^ 2 := by positivity
  rcases lt_or_gt_of_ne hx with h | h
  · -- `x < 0`: the residual is negative
    have hb : -3.3 < x := by
      by_contra hc
      have hc' := not_lt.1 hc
      have : 32 * x ^ 3 - 336 * x - 104 ≤ -100 := by nlinarith [mul_nonneg (sub_nonneg.2 hc') (sq_nonneg x), sq_nonneg (x + 3.3)]
      nlinarith
    have : 0 < 4 * x ^ 3 + 1 - 44 * x := by nlinarith [mul_pos (neg_pos.2 h) (sub_pos.2 hb), mul_pos (mul_pos (neg_pos.2 h) (sub_pos.2 hb)) (by linarith : 0 < 3.3 - x)]
    have ht0 : t < 0 := by
      by_contra hc
      have := mul_nonneg (neg_pos.2 h).le (not_lt.1 hc)
      linarith
    have : 0 < 1 - 8 * x ^ 3 := by nlinarith
    exact mul_neg_of_neg_of_pos ht0 this
  · have hlt : x < 7 / 2 := by
      by_contra hc
      have hc' := not_lt.1 hc
      have : 100 ≤ 32 * x ^ 3 - 336 * x - 104 := by nlinarith [mul_nonneg (sub_nonneg.2 hc') (sq_nonneg x)]
      nlinarith
    rcases lt_trichotomy x (1 / 2) with h2 | h2 | h2
    · have hb : 1 / 44 < x := by
        by_contra hc
        have hc' := not_lt.1 hc
        have : x ^ 2 ≤ (1 / 44) ^ 2 := by nlinarith
        have : x ^ 3 ≤ (1 / 44) ^ 2 := by nlinarith
        have : 0 < x ^ 5 := by positivity
        linarith
      have h3 : x ^ 3 < 1 / 2 * (1 / 2) * x := by nlinarith [mul_pos h (sub_pos.2 h2)]
      have h4 : 4 * x ^ 3 + 1 - 44 * x < 0 := by
        by_contra hc
        have hc' := not_lt.1 hc
        have hx3 : 43 * x ≤ 1 := by linarith
        have hx4 : x ^ 2 ≤ (1 / 43) ^ 2 := by nlinarith
        have : x ^ 3 ≤ (1 / 43) ^ 2 := by nlinarith
        have : 0 < x ^ 5 := by positivity
        linarith
      have ht0 : t < 0 := by
        by_contra hc
        have := mul_nonneg h.le (not_lt.1 hc)
        linarith
      exact mul_neg_of_neg_of_pos ht0 (by nlinarith)
    · rw [h2] at hq; norm_num at hq
    · have h4 : 0 < 4 * x ^ 3 + 1 - 44 * x := by
        have : 8 * x ^ 2 * (4 * x ^ 3 + 1 - 44 * x) = 112 * x ^ 2 - 16 * x ^ 3 - 1 := by linear_combination hq
        have h5 : 0 < 112 * x ^ 2 - 16 * x ^ 3 - 1 := by nlinarith [mul_pos hx2 (sub_pos.2 hlt)]
        by_contra hc
        have := mul_nonneg hx2.le (by linarith [not_lt.1 hc] : 0 ≤ -(4 * x ^ 3 + 1 - 44 * x))
        linarith
      have ht0 : 0 < t := by
        by_contra hc
        have := mul_nonneg h.le (by linarith [not_lt.1 hc] : 0 ≤ -t)
        linarith
      exact mul_neg_of_pos_of_neg ht0 (by nlinarith)

theorem himm_minima (v : RVec 2) : IsLocalMin (sq himm) v ↔ himm v = 0 := by
  refine ⟨fun hm => ?_, localMin_of_zero⟩
  by_contra hz
  have hg := grad_zero hm (himm_grad v)
  have g0 := congrFun hg 0
  have g1 := congrFun hg 1
  simp only [Matrix.cons_val_zero, Matrix.cons_val_one, Pi.zero_apply] at g0 g1
  obtain ⟨x, y, rfl⟩ : ∃ x y, v = ![x, y] := ⟨_, _, vec2 v⟩
  simp only [himm, Matrix.cons_val_zero, Matrix.cons_val_one] at g0 g1
  obtain ⟨t, ht⟩ : ∃ t, t = x * x + y - 11 := ⟨_, rfl⟩
  obtain ⟨s, hs⟩ : ∃ s, s = x + y * y - 7 := ⟨_, rfl⟩
  rw [← ht, ← hs] at g0 g1
  have e1 : s = -2 * x * t := by linarith
  have e2 : t * (1 - 4 * x * y) = 0 := by rw [e1] at g1; linarith
  rcases mul_eq_zero.1 e2 with h | h
  · apply hz
    have hs0 : s = 0 := by rw [e1, h]; ring
    funext i
    fin_cases i
    · show x * x + y - 11 = 0; rw [← ht]; exact h
    · show x + y * y - 7 = 0; rw [← hs]; exact hs0
  · have hx : x ≠ 0 := by rintro rfl; norm_num at h
    have hxy : 4 * x * y = 1 := by linarith
    have k1 : 4 * x * t = 4 * x ^ 3 + 1 - 44 * x := by rw [ht]; linear_combination hxy
    have k2 : 32 * x ^ 5 - 336 * x ^ 3 - 104 * x ^ 2 + 1 = 0 := by
      have : 16 * x ^ 2 * (s + 2 * x * t) = 0 := by rw [e1]; ring
      rw [hs, ht] at this
      linear_combination this - (4 * x * y + 1 + 8 * x ^ 2) * hxy
    have k3 := himm_saddle hx k2 k1
    refine not_localMin_quad (fun r => ![x + r, y - 2 * x * r]) ?_ (by simp) (g := fun r => 2 * (t * (1 - 8 * x ^ 3)) + r ^ 2 * (1 + 16 * x ^ 4)) (by fun_prop) (by simp; linarith) ?_ hm
    · intro i; fin_cases i <;> simp <;> fun_prop
    · intro r
      simp only [sq, Fin.sum_univ_two, himm, Matrix.cons_val_zero, Matrix.cons_val_one]
      have a : (x + r) * (x + r) + (y - 2 * x * r) - 11 = t + r ^ 2 := by rw [ht]; ring
      have b : x + r + (y - 2 * x * r) * (y - 2 * x * r) - 7 = s + 4 * x ^ 2 * r ^ 2 := by rw [hs]; linear_combination (-r) * hxy
      rw [a, b, ← ht, ← hs, e1]; ring

/-- C136, Himmelblau: the residuals vanish at exactly four points, (3, 2) and one point each with `x` between -4 and -3, -3 and -2, 3 and 4; the cost has no other local minimum. -/
theorem C136_himmelblau : (∀ v, IsLocalMin (sq himm) v ↔ himm v = 0) ∧ {v | himm v = 0}.ncard = 4 ∧
    ∃ a b c : ℝ, -4 < a ∧ a < -3 ∧ -3 < b ∧ b < -2 ∧ 3 < c ∧ c < 4 ∧ ∀ v, himm v = 0 ↔ v = ![3, 2] ∨ v = ![a, 11 - a ^ 2] ∨ v = ![b, 11 - b ^ 2] ∨ v = ![c, 11 - c ^ 2] := by
  have key : ∃ a b c : ℝ, -4 < a ∧ a < -3 ∧ -3 < b ∧ b < -2 ∧ 3 < c ∧ c < 4 ∧ ∀ v, himm v = 0 ↔ v = ![3, 2] ∨ v = ![a, 11 - a ^ 2] ∨ v = ![b, 11 - b ^ 2] ∨ v = ![c, 11 - c ^ 2] := by
    let p : ℝ → ℝ := fun x => x ^ 3 + 3 * x ^ 2 - 13 * x - 38
    have hp : Continuous p := by fun_prop
    obtain ⟨a, ha, ha0⟩ := intermediate_value_Ioo (by norm_num : (-4 : ℝ) ≤ -3) hp.continuousOn (show (0 : ℝ) ∈ Set.Ioo (p (-4)) (p (-3)) by constructor <;> norm_num [p])
    obtain ⟨b, hb, hb0⟩ := intermediate_value_Ioo' (by norm_num : (-3 : ℝ) ≤ -2) hp.continuousOn (show (0 : ℝ) ∈ Set.Ioo (p (-2)) (p (-3)) by constructor <;> norm_num [p])
    obtain ⟨c, hc, hc0⟩ := intermediate_value_Ioo (by norm_num : (3 : ℝ) ≤ 4) hp.continuousOn (show (0 : ℝ) ∈ Set.Ioo (p 3) (p 4) by constructor <;> norm_num [p])
    simp only [p] at ha0 hb0 hc0
    refine ⟨a, b, c, ha.1, ha.2, hb.1, hb.2, hc.1, hc.2, fun v => ?_⟩
    have fac : ∀ x y : ℝ, himm ![x, y] = 0 ↔ y = 11 - x ^ 2 ∧ (x - 3) * p x = 0 := fun x y => by
      constructor
      · intro h
        have h0 := congrFun h 0
        have h1 := congrFun h 1
        simp only [himm, Matrix.cons_val_zero, Matrix.cons_val_one, Pi.zero_apply] at h0 h1
        have hy : y = 11 - x ^ 2 := by linarith
        refine ⟨hy, ?_⟩
        rw [hy] at h1
        simp only [p]
        linear_combination h1
      · rintro ⟨rfl, h⟩
        simp only [p] at h
        funext i
        fin_cases i
        · simp [himm]; ring
        · simp [himm]; linear_combination h
    have root : ∀ x, p x = 0 ↔ x = a ∨ x = b ∨ x = c := fun x => by
      constructor
      · intro h
        simp only [p] at h
        by_contra hn
        push Not at hn
        obtain ⟨n1, n2, n3⟩ := hn
        have q1 : x ^ 2 + x * a + a ^ 2 + 3 * (x + a) - 13 = 0 := mul_left_cancel₀ (sub_ne_zero.2 n1) (by linear_combination h - ha0)
        have q2 : b ^ 2 + b * a + a ^ 2 + 3 * (b + a) - 13 = 0 := mul_left_cancel₀ (sub_ne_zero.2 (by linarith [ha.2, hb.1] : b ≠ a)) (by linear_combination hb0 - ha0)
        have q3 : c ^ 2 + c * a + a ^ 2 + 3 * (c + a) - 13 = 0 := mul_left_cancel₀ (sub_ne_zero.2 (by linarith [ha.2, hc.1] : c ≠ a)) (by linear_combination hc0 - ha0)
        have r1 : x + b + a + 3 = 0 := mul_left_cancel₀ (sub_ne_zero.2 n2) (by linear_combination q1 - q2)
        have r2 : c + b + a + 3 = 0 := mul_left_cancel₀ (sub_ne_zero.2 (by linarith [hb.2, hc.1] : c ≠ b)) (by linear_combination q3 - q2)
        exact n3 (by linarith)
      · rintro (rfl | rfl | rfl) <;> assumption
    obtain ⟨x, y, rfl⟩ : ∃ x y, v = ![x, y] := ⟨_, _, vec2 v⟩
    have pt : ∀ z w : ℝ, (![x, y] : RVec 2) = ![z, w] ↔ x = z ∧ y = w := fun z w => by
      constructor
      · intro h; exact ⟨by simpa using congrFun h 0, by simpa using congrFun h 1⟩
      · rintro ⟨rfl, rfl⟩; rfl
    rw [fac, mul_eq_zero, root, pt, pt, pt, pt, sub_eq_zero]
    constructor
    · rintro ⟨hy, h | h | h | h⟩
      · left; refine ⟨h, ?_⟩; rw [hy, h]; norm_num
      · right; left; exact ⟨h, by rw [hy, h]⟩
      · right; right; left; exact ⟨h, by rw [hy, h]⟩
      · right; right; right; exact ⟨h, by rw [hy, h]⟩
    · rintro (⟨rfl, rfl⟩ | ⟨rfl, rfl⟩ | ⟨rfl, rfl⟩ | ⟨rfl, rfl⟩)
      · exact ⟨by norm_num, Or.inl rfl⟩
      · exact ⟨rfl, Or.inr (Or.inl rfl)⟩
      · exact ⟨rfl, Or.inr (Or.inr (Or.inl rfl))⟩
      · exact ⟨rfl, Or.inr (Or.inr (Or.inr rfl))⟩
  refine ⟨himm_minima, ?_, key⟩
  obtain ⟨a, b, c, a1, a2, b1, b2, c1, c2, h⟩ := key
  have hset : {v | himm v = 0} = {![3, 2], ![a, 11 - a ^ 2], ![b, 11 - b ^ 2], ![c, 11 - c ^ 2]} := by
    ext v; simp only [Set.mem_setOf_eq, h, Set.mem_insert_iff, Set.mem_singleton_iff]
  have ne : ∀ {z w z' w' : ℝ}, z ≠ z' → (![z, w] : RVec 2) ≠ ![z', w'] := fun hz h => hz (by simpa using congrFun h 0)
  rw [hset, Set.ncard_insert_of_notMem, Set.ncard_insert_of_notMem, Set.ncard_pair]
  · exact ne (by linarith)
  · simp only [Set.mem_insert_iff, Set.mem_singleton_iff, not_or]; exact ⟨ne (by linarith), ne (by linarith)⟩
  · simp only [Set.mem_insert_iff, Set.mem_singleton_iff, not_or]; exact ⟨ne (by linarith), ne (by linarith), ne (by linarith)⟩

/-! ### Beale -/

theorem beale_jac (v : RVec 2) : HasJac beale ![![-1 + v 1, v 0], ![-1 + v 1 ^ 2, 2 * v 0 * v 1], ![-1 + v 1 ^ 3, 3 * v 0 * v 1 ^ 2]] v := by
  have h0 := hasGrad_coord (0 : Fin 2) v
  have h1 := hasGrad_coord (1 : Fin 2) v
  intro r
  fin_cases r
  · refine hasGrad_of (((h0.smulc (-1)).add (h0.mul h1)).addc (3 / 2)) (fun y => by simp [beale]; ring) ?_
    funext i; fin_cases i <;> simp
  · refine hasGrad_of (((h0.smulc (-1)).add (h0.mul (h1.powk 2))).addc (9 / 4)) (fun y => by simp [beale]; ring) ?_
    funext i; fin_cases i <;> simp <;> ring
  · refine hasGrad_of (((h0.smulc (-1)).add (h0.mul (h1.powk 3))).addc (21 / 8)) (fun y => by simp [beale]; ring) ?_
    funext i; fin_cases i <;> simp <;> ring

theorem beale_grad (v : RVec 2) : HasGrad (sq beale) ![2 * (beale v 0 * (v 1 - 1) + beale v 1 * (v 1 ^ 2 - 1) + beale v 2 * (v 1 ^ 3 - 1)),
    2 * v 0 * (beale v 0 + 2 * v 1 * beale v 1 + 3 * v 1 ^ 2 * beale v 2)] v := by
  have h := beale_jac v
  refine hasGrad_of ((((h 0).powk 2).add ((h 1).powk 2)).add ((h 2).powk 2)) (fun y => by simp [sq, Fin.sum_univ_three]) ?_
  funext i
  fin_cases i <;> simp <;> ring

set_option maxHeartbeats 1000000 in
theorem beale_third {x y : ℝ} (hk : 3 * y ^ 3 + 11 * y ^ 2 + 10 * y + 5 = 0)
    (hA : (3 / 2 - x + x * y) + (1 + y) * (9 / 4 - x + x * y * y) + (1 + y + y ^ 2) * (21 / 8 - x + x * y ^ 3) = 0) :
    2 * x * ((9 / 4 - x + x * y * y) + 3 * y * (21 / 8 - x + x * y ^ 3)) + (x - 13 / 125 * (1 - y)) ^ 2 + (2 * x * y - 13 / 125 * (1 - y ^ 2)) ^ 2 +
      (3 * x * y ^ 2 - 13 / 125 * (1 - y ^ 3)) ^ 2 < 0 := by
  have y1 : y < -2.644 := by
    by_contra hc
    nlinarith [mul_nonneg (sub_nonneg.2 (not_lt.1 hc)) (by nlinarith [sq_nonneg (y + 0.5)] : 0 ≤ 3 * y ^ 2 + 3.068 * y + 1.888208)]
  have y2 : -2.645 < y := by
    by_contra hc
    nlinarith [mul_nonneg (sub_nonneg.2 (not_lt.1 hc)) (by nlinarith [sq_nonneg (y + 0.5)] : 0 ≤ 3 * y ^ 2 + 3.065 * y + 1.893075)]
  obtain ⟨z, hz⟩ : ∃ z, z = y ^ 2 := ⟨_, rfl⟩
  obtain ⟨w, hw⟩ : ∃ w, w = y ^ 3 := ⟨_, rfl⟩
  have z1 : 6.990 < z := by rw [hz]; nlinarith
  have z2 : z < 6.9961 := by rw [hz]; nlinarith
  have w1 : -18.505 < w := by rw [hw, show y ^ 3 = y * y ^ 2 by ring, ← hz]; nlinarith
  have w2 : w < -18.481 := by rw [hw, show y ^ 3 = y * y ^ 2 by ring, ← hz]; nlinarith
  have hx : x * ((1 - y) * (1 + (1 + y) ^ 2 + (1 + y + z) ^ 2)) = 3 / 2 + 9 / 4 * (1 + y) + 21 / 8 * (1 + y + z) := by rw [hz]; linear_combination -hA
  have s1 : 5.345 < 1 + y + z := by linarith
  have s2 : 1 + y + z < 5.3525 := by linarith
  have b1 : 32.27 < 1 + (1 + y) ^ 2 + (1 + y + z) ^ 2 := by nlinarith
  have b2 : 1 + (1 + y) ^ 2 + (1 + y + z) ^ 2 < 32.36 := by nlinarith
  have d1 : 117.59 < (1 - y) * (1 + (1 + y) ^ 2 + (1 + y + z) ^ 2) := by nlinarith
  have d2 : (1 - y) * (1 + (1 + y) ^ 2 + (1 + y + z) ^ 2) < 117.96 := by nlinarith
  generalize (1 - y) * (1 + (1 + y) ^ 2 + (1 + y + z) ^ 2) = D at hx d1 d2
  have x1 : 0.1002 < x := by by_contra hc; nlinarith [not_lt.1 hc]
  have x2 : x < 0.1008 := by by_contra hc; nlinarith [not_lt.1 hc]
  rw [show x * y * y = x * z by rw [hz]; ring, ← hz, ← hw]
  have r2 : 9 / 4 - x + x * z < 2.8545 := by nlinarith
  have r3 : 0.6584 < 21 / 8 - x + x * w := by nlinarith
  have m1 : x - 13 / 125 * (1 - y) < -0.2779 := by linarith
  have m1' : -0.279 < x - 13 / 125 * (1 - y) := by linarith
  have m2 : 0.0892 < 2 * x * y - 13 / 125 * (1 - z) := by nlinarith
  have m2' : 2 * x * y - 13 / 125 * (1 - z) < 0.0939 := by nlinarith
  have m3 : 0.0725 < 3 * x * z - 13 / 125 * (1 - w) := by nlinarith
  have m3' : 3 * x * z - 13 / 125 * (1 - w) < 0.0899 := by nlinarith
  generalize 9 / 4 - x + x * z = R2 at r2
  generalize 21 / 8 - x + x * w = R3 at r3
  generalize x - 13 / 125 * (1 - y) = M1 at m1 m1'
  generalize 2 * x * y - 13 / 125 * (1 - z) = M2 at m2 m2'
  generalize 3 * x * z - 13 / 125 * (1 - w) = M3 at m3 m3'
  have q1 : M1 ^ 2 < 0.279 ^ 2 := sq_lt_sq' (by linarith) (by linarith)
  have q2 : M2 ^ 2 < 0.0939 ^ 2 := sq_lt_sq' (by linarith) (by linarith)
  have q3 : M3 ^ 2 < 0.0899 ^ 2 := sq_lt_sq' (by linarith) (by linarith)
  have q4 : 2.644 * 0.6584 < -y * R3 := mul_lt_mul'' (by linarith) r3 (by norm_num) (by norm_num)
  have q5 : 0.1002 * 2.36 < x * -(R2 + 3 * y * R3) := mul_lt_mul'' x1 (by linarith) (by norm_num) (by norm_num)
  norm_num at q1 q2 q3
  linarith

/-- C136, Beale: (3, 1/2) is the only zero of the residuals and the only local minimum of the cost; the gradient vanishes in (0, 1) too, which is not a minimum. At the start (1, 1) of the test the first column
of the Jacobian is zero, so with no damping `λ` the matrix of the step is positive definite. -/
theorem C136_beale (v : RVec 2) : (beale v = 0 ↔ v = ![3, 1 / 2]) ∧ (IsLocalMin (sq beale) v ↔ v = ![3, 1 / 2]) ∧
    HasGrad (sq beale) 0 ![0, 1] ∧ HasJac beale ![![0, 1], ![0, 2], ![0, 3]] ![1, 1] ∧ ∀ l, ¬ PD (dampedR l (gram (![![0, 1], ![0, 2], ![0, 3]] : RMat 3 2))) := by
  have hz : ∀ v, beale v = 0 ↔ v = ![3, 1 / 2] := fun v => by
    constructor
    · intro h
      have h0 := congrFun h 0
      have h1 := congrFun h 1
      simp only [beale, Matrix.cons_val_zero, Matrix.cons_val_one, Pi.zero_apply] at h0 h1
      have e : v 1 = 1 / 2 := by linear_combination (2 / 3) * (1 + v 1) * h0 - (2 / 3) * h1
      rw [vec2 v, e]
      rw [e] at h0
      rw [show v 0 = 3 by linarith]
    · rintro rfl
      funext i
      fin_cases i <;> simp [beale] <;> norm_num
  refine ⟨hz v, ⟨fun hm => ?_, fun h => localMin_of_zero ((hz v).2 h)⟩, (beale_grad _).congr_J ?_, ?_, ?_⟩
  · have hg := grad_zero hm (beale_grad v)
    have g0 := congrFun hg 0
    have g1 := congrFun hg 1
    obtain ⟨x, y, rfl⟩ : ∃ x y, v = ![x, y] := ⟨_, _, vec2 v⟩
    simp only [beale, Matrix.cons_val_zero, Matrix.cons_val_one, Matrix.cons_val, Pi.zero_apply] at g0 g1
    by_cases hx : x = 0
    · subst hx
      have hy : y = 1 := by
        have : (y - 1) * (21 / 8 * y ^ 2 + 39 / 8 * y + 51 / 8) = 0 := by linear_combination g0 / 2
        rcases mul_eq_zero.1 this with h | h
        · linarith
        · nlinarith [sq_nonneg (y + 39 / 42)]
      subst hy
      exfalso
      refine not_localMin_quad (fun s => ![s, 1 - s]) ?_ (by simp) (g := fun s => (-(3) + s ^ 2) + (2 - s) * (-(9 / 2) + s ^ 2 * (2 - s)) + (3 - 3 * s + s ^ 2) * (-(21 / 4) + s ^ 2 * (3 - 3 * s + s ^ 2)))
        (by fun_prop) (by norm_num) ?_ hm
      · intro i; fin_cases i <;> simp <;> fun_prop
      · intro s
        simp only [sq, Fin.sum_univ_three, beale, Matrix.cons_val_zero, Matrix.cons_val_one, Matrix.cons_val]
        ring
    · have B : (3 / 2 - x + x * y) + 2 * y * (9 / 4 - x + x * y * y) + 3 * y ^ 2 * (21 / 8 - x + x * y ^ 3) = 0 := by
        rcases mul_eq_zero.1 g1 with h | h
        · exact absurd (by linarith) hx
        · exact h
      have hy : y - 1 ≠ 0 := fun h => by
        have : y = 1 := by linarith
        rw [this] at B; norm_num at B
      have A : (3 / 2 - x + x * y) + (1 + y) * (9 / 4 - x + x * y * y) + (1 + y + y ^ 2) * (21 / 8 - x + x * y ^ 3) = 0 :=
        mul_left_cancel₀ hy (by linear_combination g0 / 2)
      have k : (y - 1) * ((2 * y - 1) * (3 * y ^ 3 + 11 * y ^ 2 + 10 * y + 5)) = 0 := by
        linear_combination (8 / 3) * (1 * (1 + (1 + y) * (2 * y) + (1 + y + y ^ 2) * (3 * y ^ 2))) * A - (8 / 3) * (1 + (1 + y) ^ 2 + (1 + y + y ^ 2) ^ 2) * B
      rcases mul_eq_zero.1 k with h | h
      · exact absurd h hy
      rcases mul_eq_zero.1 h with h | h
      · have e : y = 1 / 2 := by linarith
        rw [e] at A ⊢
        rw [show x = 3 by linarith]
      · exfalso
        have h3 := beale_third h A
        refine not_localMin_quad (fun s => ![x + 13 / 125 * s, y + s]) ?_ (by simp)
          (g := fun s => 2 * ((3 / 2 - x + x * y) * (13 / 125) + (9 / 4 - x + x * y * y) * (x + 2 * (13 / 125) * y + 13 / 125 * s) +
              (21 / 8 - x + x * y ^ 3) * (3 * x * y + x * s + 3 * (13 / 125) * y ^ 2 + 3 * (13 / 125) * y * s + 13 / 125 * s ^ 2)) +
            ((x - 13 / 125 * (1 - y) + 13 / 125 * s) ^ 2 + (-(13 / 125) * (1 - y ^ 2) + (x + 13 / 125 * s) * (2 * y + s)) ^ 2 +
              (-(13 / 125) * (1 - y ^ 3) + (x + 13 / 125 * s) * (3 * y ^ 2 + 3 * y * s + s ^ 2)) ^ 2)) (by fun_prop) ?_ ?_ hm
        · intro i; fin_cases i <;> simp <;> fun_prop
        · show 2 * ((3 / 2 - x + x * y) * (13 / 125) + (9 / 4 - x + x * y * y) * (x + 2 * (13 / 125) * y + 13 / 125 * 0) +
              (21 / 8 - x + x * y ^ 3) * (3 * x * y + x * 0 + 3 * (13 / 125) * y ^ 2 + 3 * (13 / 125) * y * 0 + 13 / 125 * 0 ^ 2)) +
            ((x - 13 / 125 * (1 - y) + 13 / 125 * 0) ^ 2 + (-(13 / 125) * (1 - y ^ 2) + (x + 13 / 125 * 0) * (2 * y + 0)) ^ 2 +
              (-(13 / 125) * (1 - y ^ 3) + (x + 13 / 125 * 0) * (3 * y ^ 2 + 3 * y * 0 + 0 ^ 2)) ^ 2) < 0
          refine lt_of_eq_of_lt ?_ h3
          linear_combination (2 * (13 / 125)) * B
        · intro s
          simp only [sq, Fin.sum_univ_three, beale, Matrix.cons_val_zero, Matrix.cons_val_one, Matrix.cons_val]
          linear_combination (2 * s * x) * B - (2 * s * (13 / 125)) * (1 - y) * A
  · funext i
    fin_cases i <;> simp
  · intro r
    refine (beale_jac ![1, 1] r).congr_J ?_
    fin_cases r <;> funext i <;> fin_cases i <;> simp
  · intro l h
    have := h.2 ![1, 0] (fun e => by simpa using congrFun e 0)
    simp [dotR, mv, dampedR, gram, Fin.sum_univ_two, Fin.sum_univ_three] at this

/-! ### Wood -/

/-- C136, Wood: the residuals of the test vanish at (1, 1, 1, 1) only, which is also the only zero of their sum, a function with no negative values. But there the Jacobian is zero: the test takes the
summands of Wood's function, which are squares already, as residuals. So with no damping the matrix of the step is positive definite at the solution, whose cost is flat to fourth order. (The test is
commented out: "TODO: use Trust Region".) -/
theorem C136_wood (v : RVec 4) : (wood v = 0 ↔ v = fun _ => 1) ∧ 0 ≤ ∑ i, wood v i ∧ (∑ i, wood v i = 0 ↔ v = fun _ => 1) ∧
    HasJac wood (fun _ _ => 0) (fun _ => 1) ∧ ∀ l, ¬ PD (dampedR l (gram (fun _ _ => 0 : Fin 6 → Fin 4 → ℝ))) := by
  have hs : ∑ i, wood v i = 100 * (v 1 - v 0 * v 0) ^ 2 + (1 - v 0) ^ 2 + 90 * (v 3 - v 2 * v 2) ^ 2 + (1 - v 2) ^ 2 + (1 / 10) * ((v 1 - 1) ^ 2 + (v 3 - 1) ^ 2) +
      99 / 10 * ((v 1 - 1) + (v 3 - 1)) ^ 2 := by
    rw [Fin.sum_univ_six]
    simp [wood]; ring
  have hz : ∑ i, wood v i = 0 → v = fun _ => 1 := fun h => by
    rw [hs] at h
    have a0 := sq_nonneg (v 1 - v 0 * v 0)
    have a1 := sq_nonneg (1 - v 0)
    have a2 := sq_nonneg (v 3 - v 2 * v 2)
    have a3 := sq_nonneg (1 - v 2)
    have a4 := sq_nonneg (v 1 - 1)
    have a5 := sq_nonneg (v 3 - 1)
    have a6 := sq_nonneg ((v 1 - 1) + (v 3 - 1))
    have z : ∀ x : ℝ, x ^ 2 ≤ 0 → x = 0 := fun x hx => (pow_eq_zero_iff (n := 2) two_ne_zero).1 (le_antisymm hx (sq_nonneg x))
    have b0 := z _ (by linarith : (1 - v 0) ^ 2 ≤ 0)
    have b1 := z _ (by linarith : (v 1 - 1) ^ 2 ≤ 0)
    have b2 := z _ (by linarith : (1 - v 2) ^ 2 ≤ 0)
    have b3 := z _ (by linarith : (v 3 - 1) ^ 2 ≤ 0)
    funext i
    fin_cases i
    · show v 0 = 1; linarith
    · show v 1 = 1; linarith
    · show v 2 = 1; linarith
    · show v 3 = 1; linarith
  have h1 : wood (fun _ => 1) = 0 := by
    funext i
    fin_cases i <;> simp [wood]
  refine ⟨⟨fun h => hz (by rw [h]; simp), ?_⟩, by rw [hs]; positivity, ⟨hz, ?_⟩, ?_, ?_⟩
  · rintro rfl; exact h1
  · rintro rfl; rw [h1]; simp
  · have g0 := hasGrad_coord (0 : Fin 4) (fun _ => (1 : ℝ))
    have g1 := hasGrad_coord (1 : Fin 4) (fun _ => (1 : ℝ))
    have g2 := hasGrad_coord (2 : Fin 4) (fun _ => (1 : ℝ))
    have g3 := hasGrad_coord (3 : Fin 4) (fun _ => (1 : ℝ))
    intro r
    fin_cases r
    · refine hasGrad_of (((g1.sub (g0.mul g0)).powk 2).smulc 100) (fun y => by simp [wood]) ?_
      funext i; simp
    · refine hasGrad_of (((g0.smulc (-1)).addc 1).powk 2) (fun y => by simp [wood]; ring) ?_
      funext i; simp
    · refine hasGrad_of (((g3.sub (g2.mul g2)).powk 2).smulc 90) (fun y => by simp [wood]) ?_
      funext i; simp
    · refine hasGrad_of (((g2.smulc (-1)).addc 1).powk 2) (fun y => by simp [wood]; ring) ?_
      funext i; simp
    · refine hasGrad_of ((((g1.addc (-1)).powk 2).add ((g3.addc (-1)).powk 2)).smulc 10) (fun y => by simp [wood]; ring) ?_
      funext i; simp
    · refine hasGrad_of (((g1.addc (-1)).mul (g3.addc (-1))).smulc (99 / 5)) (fun y => by simp [wood]; ring) ?_
      funext i; simp
  · intro l h
    have := h.2 ![1, 0, 0, 0] (fun e => by simpa using congrFun e 0)
    simp [dotR, mv, dampedR, gram] at this

/-! ### Jennrich and Sampson -/

/-- the Jacobian -/
noncomputable def jennrichJ (v : RVec 2) : RMat 10 2 := fun i j => -(((i.1 : ℝ) + 1) * Real.exp (((i.1 : ℝ) + 1) * v j))

theorem jennrich_jac (v : RVec 2) : HasJac jennrich (jennrichJ v) v := by
  intro r
  have h0 := ((hasGrad_coord (0 : Fin 2) v).smulc ((r.1 : ℝ) + 1)).comp_deriv (Real.hasDerivAt_exp _)
  have h1 := ((hasGrad_coord (1 : Fin 2) v).smulc ((r.1 : ℝ) + 1)).comp_deriv (Real.hasDerivAt_exp _)
  refine hasGrad_of (((h0.add h1).smulc (-1)).addc (2 + 2 * ((r.1 : ℝ) + 1))) (fun y => by simp only [jennrich]; ring) ?_
  funext j
  fin_cases j <;> simp [jennrichJ] <;> ring

theorem jennrich_grad (v : RVec 2) : HasGrad (sq jennrich) (fun j => ∑ i, 2 * jennrich v i * jennrichJ v i j) v := by
  refine hasGrad_of (HasGrad.sum Finset.univ (fun i _ => (jennrich_jac v i).powk 2)) (fun y => rfl) ?_
  funext j
  simp

/-- the derivative along the diagonal, up to a negative factor, in `u = exp a` -/
def jsPos (u : ℝ) : ℝ := 2 * u + 5 * u ^ 2 + 12 * u ^ 3 + 18 * u ^ 4 + 30 * u ^ 5 + 39 * u ^ 6 + 56 * u ^ 7 + 68 * u ^ 8 + 90 * u ^ 9 + 105 * u ^ 10
@[inherit_doc jsPos] def jsNeg (u : ℝ) : ℝ := 6 * u ^ 12 + 7 * u ^ 14 + 8 * u ^ 16 + 9 * u ^ 18 + 10 * u ^ 20

theorem js_grad (a : ℝ) (j : Fin 2) : (∑ i, 2 * jennrich ![a, a] i * jennrichJ ![a, a] i j) = -4 * (jsPos (Real.exp a) - jsNeg (Real.exp a)) := by
  have e : ∀ k : ℕ, Real.exp (((k : ℝ) + 1) * a) = Real.exp a ^ (k + 1) := fun k => by rw [← Real.exp_nat_mul]; push_cast; rfl
  have h : ∀ i : Fin 10, 2 * jennrich ![a, a] i * jennrichJ ![a, a] i j =
      -4 * (((i.1 : ℝ) + 2 - Real.exp a ^ (i.1 + 1)) * (((i.1 : ℝ) + 1) * Real.exp a ^ (i.1 + 1))) := fun i => by
    have : (![a, a] : RVec 2) j = a := by fin_cases j <;> rfl
    simp only [jennrich, jennrichJ, this, Matrix.cons_val_zero, Matrix.cons_val_one, e]
    ring
  simp_rw [h]
  generalize Real.exp a = u
  simp only [Fin.sum_univ_succ, Finset.univ_eq_empty, Finset.sum_empty, jsPos, jsNeg, Fin.val_zero, Fin.val_succ]
  push_cast
  ring

theorem js_mono {u w : ℝ} (hu : 0 < u) (hw : u < w) (h : jsPos u ≤ jsNeg u) : jsPos w < jsNeg w := by
  obtain ⟨c, hc, rfl⟩ : ∃ c, 1 < c ∧ w = c * u := ⟨w / u, (one_lt_div hu).2 hw, by field_simp⟩
  have hc0 : 0 < c := by linarith
  have lo : ∀ k ≤ 10, (c * u) ^ k ≤ c ^ 10 * u ^ k := fun k hk => by
    rw [mul_pow]; exact mul_le_mul_of_nonneg_right (pow_le_pow_right₀ hc.le hk) (by positivity)
  have hi : ∀ k, 10 < k → c ^ 10 * u ^ k < (c * u) ^ k := fun k hk => by
    rw [mul_pow]; exact mul_lt_mul_of_pos_right (pow_lt_pow_right₀ hc hk) (by positivity)
  have a : jsPos (c * u) ≤ c ^ 10 * jsPos u := by
    have := lo 1 (by norm_num); have := lo 2 (by norm_num); have := lo 3 (by norm_num); have := lo 4 (by norm_num); have := lo 5 (by norm_num)
    have := lo 6 (by norm_num); have := lo 7 (by norm_num); have := lo 8 (by norm_num); have := lo 9 (by norm_num); have := lo 10 (by norm_num)
    unfold jsPos
    linarith
  have b : c ^ 10 * jsNeg u < jsNeg (c * u) := by
    have := hi 12 (by norm_num); have := hi 14 (by norm_num); have := hi 16 (by norm_num); have := hi 18 (by norm_num); have := hi 20 (by norm_num)
    unfold jsNeg
    linarith
  have := mul_le_mul_of_nonneg_left h (by positivity : 0 ≤ c ^ 10)
  linarith

theorem js_root {u : ℝ} (hu : 0 < u) (h : jsPos u = jsNeg u) : 1.294 < u ∧ u < 1.2943 := by
  have p1 : jsNeg 1.294 < jsPos 1.294 := by norm_num [jsPos, jsNeg]
  have p2 : jsPos 1.2943 < jsNeg 1.2943 := by norm_num [jsPos, jsNeg]
  constructor
  · by_contra hc
    rcases (not_lt.1 hc).lt_or_eq with h1 | h1
    · have := js_mono hu h1 h.le
      linarith
    · rw [h1] at h; linarith
  · by_contra hc
    rcases (not_lt.1 hc).lt_or_eq with h1 | h1
    · have := js_mono (by norm_num) h1 p2.le
      linarith
    · rw [← h1] at h; linarith

/-- C136, Jennrich and Sampson: the residuals have no zero. On the diagonal, where the test expects the result, the gradient vanishes at exactly one point, with coordinates between 0.2577 and 0.258 (the
comment of the test says 0.2578); the matrix `J^T J` is singular on the whole diagonal, but with any positive damping positive definite. -/
theorem C136_jennrich : (∀ v, jennrich v ≠ 0) ∧ (∃! a : ℝ, HasGrad (sq jennrich) 0 ![a, a]) ∧ (∀ a : ℝ, HasGrad (sq jennrich) 0 ![a, a] → 0.2577 < a ∧ a < 0.258) ∧
    (∀ a : ℝ, ¬ PD (gram (jennrichJ ![a, a]))) ∧ ∀ v l, 0 < l → PD (dampedR l (gram (jennrichJ v))) := by
  have hst : ∀ a : ℝ, HasGrad (sq jennrich) 0 ![a, a] ↔ jsPos (Real.exp a) = jsNeg (Real.exp a) := fun a => by
    constructor
    · intro h
      have e := congrFun (h.unique (jennrich_grad ![a, a])) 0
      rw [js_grad] at e
      simp only [Pi.zero_apply] at e
      linarith
    · intro h
      refine (jennrich_grad ![a, a]).congr_J ?_
      funext j
      rw [js_grad, h]; simp
  have e1 : Real.exp 0.2577 < 1.294 := by
    refine lt_of_le_of_lt (Real.exp_bound' (by norm_num) (by norm_num) (n := 8) (by norm_num)) ?_
    norm_num [Finset.sum_range_succ, Nat.factorial]
  have e2 : 1.2943 < Real.exp 0.258 := by
    refine lt_of_lt_of_le ?_ (Real.sum_le_exp_of_nonneg (by norm_num) 8)
    norm_num [Finset.sum_range_succ, Nat.factorial]
  refine ⟨fun v h => ?_, ?_, fun a h => ?_, fun a h => ?_, fun v l hl => ?_⟩
  · have h0 := congrFun h 0
    have h1 := congrFun h 1
    simp only [jennrich, Pi.zero_apply, Fin.val_zero, Fin.val_one] at h0 h1
    push_cast at h0 h1
    rw [show ((1 : ℝ) + 1) * v 0 = v 0 + v 0 by ring, show ((1 : ℝ) + 1) * v 1 = v 1 + v 1 by ring, Real.exp_add, Real.exp_add] at h1
    rw [zero_add, one_mul, one_mul] at h0
    nlinarith [sq_nonneg (Real.exp (v 0) - Real.exp (v 1))]
  · have hcont : ContinuousOn (fun u => jsPos u - jsNeg u) (Set.Icc 1.294 1.2943) := by
      apply Continuous.continuousOn
      unfold jsPos jsNeg
      fun_prop
    obtain ⟨u, hu, hu0⟩ := intermediate_value_Icc' (by norm_num) hcont (show (0 : ℝ) ∈ Set.Icc _ _ from
      ⟨by norm_num [jsPos, jsNeg], by norm_num [jsPos, jsNeg]⟩)
    have hu1 : (0 : ℝ) < u := by have := hu.1; norm_num at this; linarith
    refine ⟨Real.log u, (hst _).2 (by rw [Real.exp_log hu1]; simpa [sub_eq_zero] using hu0), fun b hb => ?_⟩
    have h1 := (hst b).1 hb
    have h2 : jsPos u = jsNeg u := by simpa [sub_eq_zero] using hu0
    have : Real.exp b = u := by
      rcases lt_trichotomy (Real.exp b) u with h | h | h
      · have := js_mono (Real.exp_pos b) h h1.le; linarith
      · exact h
      · have := js_mono hu1 h h2.le; linarith
    rw [← this, Real.log_exp]
  · obtain ⟨a1, a2⟩ := js_root (Real.exp_pos a) ((hst a).1 h)
    exact ⟨Real.exp_lt_exp.1 (e1.trans a1), Real.exp_lt_exp.1 (a2.trans e2)⟩
  · have := h.2 ![1, -1] (fun e => by simpa using congrFun e 0)
    have e : ∀ i j k l, gram (jennrichJ ![a, a]) i j = gram (jennrichJ ![a, a]) k l := fun i j k l => by
      unfold gram jennrichJ
      refine Finset.sum_congr rfl fun r _ => ?_
      have : ∀ m : Fin 2, (![a, a] : RVec 2) m = a := fun m => by fin_cases m <;> rfl
      simp only [this]
    simp only [dotR, mv, Fin.sum_univ_two, Matrix.cons_val_zero, Matrix.cons_val_one] at this
    rw [e 0 1 0 0, e 1 0 0 0, e 1 1 0 0] at this
    linarith
  · refine damped_pd (gram_psd _) (fun i => ?_) hl
    unfold gram jennrichJ
    refine Finset.sum_pos (fun k _ => ?_) Finset.univ_nonempty
    have : 0 < ((k.1 : ℝ) + 1) * Real.exp (((k.1 : ℝ) + 1) * v i) := by positivity
    nlinarith

end Verif.Landscape
