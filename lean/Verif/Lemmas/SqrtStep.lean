import Verif.Props.FloatRun
/-!
# One damped step for the equation x² = 2 in IEEE `double`, in rational arithmetic
-/

namespace Verif

/-- the residual: `ρ` is computed for `q² - 2` -/
theorem root_res {q p ρ : ℚ} (hQ : 1 ≤ q * q) (hp : |p - q * q| ≤ |q * q| / 2 ^ 53 + 1 / 2 ^ 1075) (hρ : |ρ - (p - 2)| ≤ |p - 2| / 2 ^ 53) : |ρ - (q * q - 2)| ≤ 3 / 10 ^ 16 * (q * q) := by
  have ht : (1 : ℚ) / 2 ^ 1075 ≤ 1 / 10 ^ 20 := tiny_le.trans (one_div_le_one_div_of_le (by positivity) (big_ten (by norm_num)))
  generalize (1 : ℚ) / 2 ^ 1075 = T at *
  generalize q * q = Q at *
  rw [abs_of_nonneg (by linarith : 0 ≤ Q)] at hp
  have h1 : Q / 2 ^ 53 ≤ 112 / 10 ^ 18 * Q := by
    rw [div_eq_mul_one_div, mul_comm]
    exact mul_le_mul_of_nonneg_right (by norm_num) (by linarith)
  have h2 : |p - 2| / 2 ^ 53 ≤ 112 / 10 ^ 18 * |p - 2| := by
    rw [div_eq_mul_one_div, mul_comm]
    exact mul_le_mul_of_nonneg_right (by norm_num) (abs_nonneg _)
  have h3 : |p - 2| ≤ 11 / 10 * Q := by
    have := abs_le.1 hp
    rw [abs_le]; constructor <;> linarith
  have h4 := abs_add_le (ρ - (p - 2)) (p - Q)
  rw [show ρ - (p - 2) + (p - Q) = ρ - (Q - 2) by ring] at h4
  linarith

set_option maxHeartbeats 1000000 in
/-- the step `δ` with damping `l` -/
theorem root_step {q l ρ γ h κ m δ : ℚ} (hQ : 1 ≤ q * q) (hl0 : 0 ≤ l) (hl : l ≤ 1001 / 10 ^ 7) (hρ : |ρ - (q * q - 2)| ≤ 3 / 10 ^ 16 * (q * q))
    (hγ : |γ - 2 * q * ρ| ≤ |2 * q * ρ| / 2 ^ 53 + 1 / 2 ^ 1075) (hh : |h - 2 * q * (2 * q)| ≤ |2 * q * (2 * q)| / 2 ^ 53 + 1 / 2 ^ 1075) (hκ : |κ - (1 + l)| ≤ |1 + l| / 2 ^ 53)
    (hm : |m - h * κ| ≤ |h * κ| / 2 ^ 53 + 1 / 2 ^ 1075) (hδ : |δ - -γ / m| ≤ |-γ / m| / 2 ^ 53 + 1 / 2 ^ 1075) :
    2 ≤ m ∧ m ≤ 5 * (q * q) ∧ |2 * q * δ * (1 + l) + (q * q - 2)| ≤ 1 / 10 ^ 14 * (q * q) := by
  have ht : (1 : ℚ) / 2 ^ 1075 ≤ 1 / 10 ^ 20 := tiny_le.trans (one_div_le_one_div_of_le (by positivity) (big_ten (by norm_num)))
  have ht0 : (0 : ℚ) ≤ 1 / 2 ^ 1075 := by positivity
  generalize (1 : ℚ) / 2 ^ 1075 = T at *
  have hu : ∀ a : ℚ, |a| / 2 ^ 53 ≤ 112 / 10 ^ 18 * |a| := fun a => by
    rw [div_eq_mul_one_div, mul_comm]
    exact mul_le_mul_of_nonneg_right (by norm_num) (abs_nonneg _)
  replace hγ := hγ.trans (add_le_add (hu _) ht)
  replace hh := hh.trans (add_le_add (hu _) ht)
  replace hm := hm.trans (add_le_add (hu _) ht)
  replace hδ := hδ.trans (add_le_add (hu _) ht)
  replace hκ := hκ.trans (hu _)
  have ha1 : 1 ≤ |q| := by
    by_contra hn
    have h0 := abs_nonneg q
    have : |q| * |q| < 1 := by nlinarith
    rw [abs_mul_abs_self] at this
    linarith
  have haa : |q| * |q| = q * q := abs_mul_abs_self q
  have hL : 0 ≤ 1 + l := by linarith
  rw [abs_of_nonneg hL] at hκ
  have e4 : |2 * q * (2 * q)| = 4 * (q * q) := by rw [abs_of_nonneg (by nlinarith)]; ring
  have e5 : |2 * q * ρ| = 2 * |q| * |ρ| := by rw [abs_mul, abs_mul]; norm_num
  rw [e4] at hh
  rw [e5] at hγ
  -- the quantities relative to Q
  have hρ2 : |ρ| ≤ 101 / 100 * (q * q) := by
    have := abs_le.1 hρ
    rw [abs_le]; constructor <;> linarith
  have hh' : |h - 4 * (q * q)| ≤ 115 / 10 ^ 18 * (4 * (q * q)) := by
    rw [show 4 * (q * q) = 2 * q * (2 * q) by ring] at hh ⊢
    refine hh.trans ?_
    linarith
  have hh2 := abs_le.1 hh'
  have hκ2 := abs_le.1 hκ
  have hκ0 : 0 ≤ κ := by linarith
  have hh0 : 0 ≤ h := by linarith
  have hD : |h * κ - 4 * (q * q) * (1 + l)| ≤ 24 / 10 ^ 17 * (4 * (q * q) * (1 + l)) := by
    have : h * κ - 4 * (q * q) * (1 + l) = (h - 4 * (q * q)) * κ + 4 * (q * q) * (κ - (1 + l)) := by ring
    rw [this]
    refine (abs_add_le _ _).trans ?_
    rw [abs_mul, abs_mul, abs_of_nonneg hκ0, abs_of_nonneg (by linarith : 0 ≤ 4 * (q * q))]
    have h1 : |h - 4 * (q * q)| * κ ≤ 115 / 10 ^ 18 * (4 * (q * q)) * (1001 / 1000 * (1 + l)) := mul_le_mul hh' (by linarith) hκ0 (by positivity)
    have h2 : 4 * (q * q) * |κ - (1 + l)| ≤ 4 * (q * q) * (112 / 10 ^ 18 * (1 + l)) := mul_le_mul_of_nonneg_left hκ (by positivity)
    have h3 : 0 ≤ q * q * (1 + l) := by positivity
    linarith
  have hD0 : 4 ≤ 4 * (q * q) * (1 + l) := by nlinarith
  have hD5 : 4 * (q * q) * (1 + l) ≤ 4 * (q * q) * (1 + 1001 / 10 ^ 7) := mul_le_mul_of_nonneg_left (by linarith) (by positivity)
  obtain ⟨D, eD⟩ : ∃ D, 4 * (q * q) * (1 + l) = D := ⟨_, rfl⟩
  rw [eD] at hD hD0 hD5
  have hD2 := abs_le.1 hD
  have hm' : |m - D| ≤ 4 / 10 ^ 16 * D := by
    rw [abs_of_nonneg (mul_nonneg hh0 hκ0)] at hm
    have := abs_add_le (m - h * κ) (h * κ - D)
    rw [show m - h * κ + (h * κ - D) = m - D by ring] at this
    linarith
  have hm2 := abs_le.1 hm'
  have hm0 : 0 < m := by linarith
  refine ⟨by linarith, by linarith, ?_⟩
  have hf : |q * q - 2| ≤ q * q := by rw [abs_le]; constructor <;> linarith
  -- the exact quotient
  have k1 : |2 * q * (-γ / m) * (1 + l) + (q * q - 2)| ≤ 1 / 10 ^ 15 * (q * q) := by
    have : 2 * q * (-γ / m) * (1 + l) + (q * q - 2) = (-(D * (ρ - (q * q - 2))) - 2 * q * (1 + l) * (γ - 2 * q * ρ) + (q * q - 2) * (m - D)) / m := by
      rw [← eD]; field_simp; ring
    rw [this, abs_div, abs_of_pos hm0, div_le_iff₀ hm0]
    refine (abs_add_le _ _).trans ?_
    have a1 := abs_sub (-(D * (ρ - (q * q - 2)))) (2 * q * (1 + l) * (γ - 2 * q * ρ))
    rw [abs_neg, abs_mul, abs_of_nonneg (by linarith : 0 ≤ D)] at a1
    have a2 : D * |ρ - (q * q - 2)| ≤ D * (3 / 10 ^ 16 * (q * q)) := mul_le_mul_of_nonneg_left hρ (by linarith)
    have a3 : |2 * q * (1 + l) * (γ - 2 * q * ρ)| ≤ 114 / 10 ^ 18 * (D * (q * q)) := by
      rw [abs_mul, abs_mul, abs_mul, abs_two, abs_of_nonneg hL]
      have b1 : 2 * |q| * |ρ| ≤ 2 * |q| * (101 / 100 * (q * q)) := mul_le_mul_of_nonneg_left hρ2 (by positivity)
      have b3 : (1 : ℚ) ≤ 2 * |q| * (q * q) := by have := one_le_mul_of_one_le_of_one_le ha1 hQ; linarith
      have b2 : |γ - 2 * q * ρ| ≤ 1132 / 10 ^ 19 * (2 * |q| * (q * q)) + 1 / 10 ^ 20 := by linarith
      have b4 : |γ - 2 * q * ρ| ≤ 114 / 10 ^ 18 * (2 * |q| * (q * q)) := by linarith
      have b5 := mul_le_mul_of_nonneg_left b4 (by positivity : 0 ≤ 2 * |q| * (1 + l))
      refine b5.trans (le_of_eq ?_)
      rw [← eD]
      have : 2 * |q| * (1 + l) * (114 / 10 ^ 18 * (2 * |q| * (q * q))) = 114 / 10 ^ 18 * (4 * (|q| * |q|) * (1 + l) * (q * q)) := by ring
      rw [this, haa]
    have a4 : |(q * q - 2) * (m - D)| ≤ q * q * (4 / 10 ^ 16 * D) := by
      rw [abs_mul]
      exact mul_le_mul hf hm' (abs_nonneg _) (by positivity)
    have a5 : 1 / 10 ^ 15 * (q * q) * (999 / 1000 * D) ≤ 1 / 10 ^ 15 * (q * q) * m := mul_le_mul_of_nonneg_left (by linarith) (by positivity)
    have a6 : 0 ≤ D * (q * q) := mul_nonneg (by linarith) (by linarith)
    linarith
  -- the rounding of the quotient
  have k2 : |-γ / m| ≤ 52 / 100 * |q| := by
    rw [abs_div, abs_neg, abs_of_pos hm0, div_le_iff₀ hm0]
    have b1 : 2 * |q| * |ρ| ≤ 2 * |q| * (101 / 100 * (q * q)) := mul_le_mul_of_nonneg_left hρ2 (by positivity)
    have b2 := abs_add_le (γ - 2 * q * ρ) (2 * q * ρ)
    rw [sub_add_cancel, e5] at b2
    have b3 : (1 : ℚ) ≤ |q| * (q * q) := one_le_mul_of_one_le_of_one_le ha1 hQ
    have b4 : 4 * (q * q) ≤ D := by rw [← eD]; nlinarith
    have b5 : |q| * (39999 / 10000 * (q * q)) ≤ |q| * m := mul_le_mul_of_nonneg_left (by linarith) (by positivity)
    linarith
  have k3 : |2 * q * (1 + l) * (δ - -γ / m)| ≤ 2 / 10 ^ 16 * (q * q) := by
    rw [abs_mul, abs_mul, abs_mul, abs_two, abs_of_nonneg hL]
    have b1 : |δ - -γ / m| ≤ 6 / 10 ^ 17 * |q| := by linarith
    have b2 := mul_le_mul_of_nonneg_left b1 (by positivity : 0 ≤ 2 * |q| * (1 + l))
    refine b2.trans ?_
    have : 2 * |q| * (1 + l) * (6 / 10 ^ 17 * |q|) = 12 / 10 ^ 17 * (1 + l) * (|q| * |q|) := by ring
    rw [this, haa]
    nlinarith
  have k4 := abs_add_le (2 * q * (-γ / m) * (1 + l) + (q * q - 2)) (2 * q * (1 + l) * (δ - -γ / m))
  rw [show 2 * q * (-γ / m) * (1 + l) + (q * q - 2) + 2 * q * (1 + l) * (δ - -γ / m) = 2 * q * δ * (1 + l) + (q * q - 2) by ring] at k4
  linarith

/-- the next point `y` -/
theorem root_nextq {q L δ y : ℚ} (hQ : 1 ≤ q * q) (hQ2 : q * q ≤ 10 ^ 5) (hL : 1 ≤ L) (hL2 : L ≤ 1 + 1001 / 10 ^ 7) (hδ : |2 * q * δ * L + (q * q - 2)| ≤ 1 / 10 ^ 14 * (q * q))
    (hy : |y - (q + δ)| ≤ |q + δ| / 2 ^ 53) :
    |y * y - 2| ≤ 2503 / 10000 * |q * q - 2| + 1 / 10 ^ 13 ∧ 1 ≤ y * y ∧ 0 < q * y := by
  have hu : |q + δ| / 2 ^ 53 ≤ 112 / 10 ^ 18 * |q + δ| := by
    rw [div_eq_mul_one_div, mul_comm]
    exact mul_le_mul_of_nonneg_right (by norm_num) (abs_nonneg _)
  replace hy := hy.trans hu
  have hf : |q * q - 2| ≤ q * q := by rw [abs_le]; constructor <;> linarith
  have hf0 := abs_nonneg (q * q - 2)
  have hf1 : -1 ≤ q * q - 2 := by linarith
  have hQf : q * q ≤ |q * q - 2| + 2 := by have := le_abs_self (q * q - 2); linarith
  obtain ⟨f, ef⟩ : ∃ f, q * q - 2 = f := ⟨_, rfl⟩
  obtain ⟨Q, eQ⟩ : ∃ Q, q * q = Q := ⟨_, rfl⟩
  obtain ⟨s, es⟩ : ∃ s, 2 * q * δ = s := ⟨_, rfl⟩
  obtain ⟨τ, eτ⟩ : ∃ τ, s * L + f = τ := ⟨_, rfl⟩
  have hz : (q + δ) * (q + δ) - 2 = f + s + s * s / (4 * Q) := by
    have : q ≠ 0 := by rintro rfl; linarith
    rw [← ef, ← es, ← eQ]; field_simp; ring
  have hqs : q * (q + δ) = Q + s / 2 := by rw [← eQ, ← es]; ring
  rw [ef, es] at hδ
  rw [eτ] at hδ
  rw [ef] at hf hf0 hf1 hQf ⊢
  rw [eQ] at hδ hQ hQ2 hf hQf
  have hL0 : 0 < L := by linarith
  have hτ := abs_le.1 hδ
  have hs : s = (τ - f) / L := by rw [← eτ]; field_simp; ring
  have hfs : f + s = (f * (L - 1) + τ) / L := by rw [hs]; field_simp; ring
  have hfabs := abs_le.1 (le_refl |f|)
  -- the linear part
  have h1 : |f + s| ≤ 1001 / 10 ^ 7 * |f| + 1 / 10 ^ 14 * Q := by
    rw [hfs, abs_div, abs_of_pos hL0, div_le_iff₀ hL0]
    refine (abs_add_le _ _).trans ?_
    rw [abs_mul, abs_of_nonneg (by linarith : 0 ≤ L - 1)]
    have a1 : |f| * (L - 1) ≤ |f| * (1001 / 10 ^ 7) := mul_le_mul_of_nonneg_left (by linarith) hf0
    have a2 : 0 ≤ 1001 / 10 ^ 7 * |f| + 1 / 10 ^ 14 * Q := by positivity
    nlinarith
  have h1' : -(2 / 10 ^ 4) ≤ f + s := by
    rw [hfs, le_div_iff₀ hL0]
    have a1 : -(1001 / 10 ^ 7) ≤ f * (L - 1) := by nlinarith
    nlinarith
  -- the quadratic part
  have hs2 : |s| ≤ |f| + 1 / 10 ^ 14 * Q := by
    rw [hs, abs_div, abs_of_pos hL0, div_le_iff₀ hL0]
    have a1 := abs_sub τ f
    have a2 : 0 ≤ |f| + 1 / 10 ^ 14 * Q := by positivity
    nlinarith
  have h2 : s * s / (4 * Q) ≤ 1 / 4 * |f| + 1 / 10 ^ 14 * Q := by
    rw [div_le_iff₀ (by positivity), ← abs_mul_abs_self]
    have a1 := mul_le_mul hs2 hs2 (abs_nonneg _) (by positivity)
    have a2 : |f| * |f| ≤ |f| * Q := mul_le_mul_of_nonneg_left hf hf0
    have a3 : |f| * Q ≤ Q * Q := mul_le_mul_of_nonneg_right hf (by linarith)
    have a4 : 0 ≤ Q * Q := by positivity
    have a5 : (|f| + 1 / 10 ^ 14 * Q) * (|f| + 1 / 10 ^ 14 * Q) = |f| * |f| + 2 / 10 ^ 14 * (|f| * Q) + 1 / 10 ^ 28 * (Q * Q) := by ring
    have a6 : (1 / 4 * |f| + 1 / 10 ^ 14 * Q) * (4 * Q) = |f| * Q + 4 / 10 ^ 14 * (Q * Q) := by ring
    linarith
  have h3 : 0 ≤ s * s / (4 * Q) := div_nonneg (mul_self_nonneg _) (by linarith)
  obtain ⟨w, ew⟩ : ∃ w, q + δ = w := ⟨_, rfl⟩
  rw [ew] at hz hqs hy
  have hfs2 := abs_le.1 h1
  have hz1 : -(2 / 10 ^ 4) ≤ w * w - 2 := by rw [hz]; linarith
  have hz2 : |w * w - 2| ≤ 25011 / 10 ^ 5 * |f| + 2 / 10 ^ 14 * Q := by
    rw [hz, abs_le]; constructor <;> linarith
  have hww : w * w ≤ |w * w - 2| + 2 := by have := le_abs_self (w * w - 2); linarith
  -- the rounding
  have h4 : |y * y - w * w| ≤ 3 / 10 ^ 16 * (w * w) := by
    have : y * y - w * w = (y - w) * (2 * w + (y - w)) := by ring
    rw [this, abs_mul]
    have a1 := abs_add_le (2 * w) (y - w)
    rw [abs_mul, abs_two] at a1
    have a2 : |2 * w + (y - w)| ≤ 2001 / 1000 * |w| := by have := abs_nonneg w; linarith
    have a3 := mul_le_mul hy a2 (abs_nonneg _) (by positivity)
    have a4 : 112 / 10 ^ 18 * |w| * (2001 / 1000 * |w|) = 112 / 10 ^ 18 * (2001 / 1000) * (w * w) := by rw [← abs_mul_abs_self w]; ring
    have a5 := mul_self_nonneg w
    linarith
  have h4' := abs_le.1 h4
  refine ⟨?_, by linarith, ?_⟩
  · have := abs_add_le (y * y - w * w) (w * w - 2)
    rw [show y * y - w * w + (w * w - 2) = y * y - 2 by ring] at this
    linarith
  · have h5 : 0 < q * w := by
      have := abs_le.1 hs2
      rw [hqs]; linarith
    have h6 : |q * (y - w)| ≤ 112 / 10 ^ 18 * (q * w) := by
      rw [abs_mul]
      have a1 := mul_le_mul_of_nonneg_left hy (abs_nonneg q)
      have a2 : |q| * |w| = q * w := by rw [← abs_mul, abs_of_pos h5]
      calc |q| * |y - w| ≤ |q| * (112 / 10 ^ 18 * |w|) := a1
        _ = 112 / 10 ^ 18 * (|q| * |w|) := by ring
        _ = _ := by rw [a2]
    have h7 := abs_le.1 h6
    have : q * y = q * w + q * (y - w) := by ring
    rw [this]; linarith

end Verif
