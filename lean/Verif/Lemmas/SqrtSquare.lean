import Verif.Lemmas.SqrtProd
/-!
# The rounded square root of a rounded square

In a binary format it is not below the number squared, unless the square underflows.
-/

namespace Verif

/-- the rounding error of a number between `2 ^ j` and `2 ^ (j + 1)` -/
theorem rndBin_err_exp {p : ℕ} {emin j : ℤ} {q : ℚ} (h1 : (2 : ℚ) ^ j ≤ q) (h2 : q < 2 ^ (j + 1)) (he : emin ≤ j + 1 - p) :
    |rndBin p emin q - q| ≤ 2 ^ (j + 1 - p) / 2 := by
  have hq : 0 < q := lt_of_lt_of_le (two_zpow_pos j) h1
  have hl : Int.log 2 |q| = j := by
    rw [abs_of_pos hq]
    apply le_antisymm
    · have := (Int.lt_zpow_iff_log_lt (b := 2) (by norm_num) hq (x := j + 1)).1 (by exact_mod_cast h2)
      omega
    · exact (Int.zpow_le_iff_le_log (b := 2) (by norm_num) hq).1 (by exact_mod_cast h1)
  have hu : ulpExp p emin q = j + 1 - p := by
    unfold ulpExp
    rw [hl, max_eq_right (by omega)]
    ring
  have := rndBin_half_ulp (p := p) (emin := emin) q
  rwa [hu] at this

set_option maxHeartbeats 1000000 in
/-- `fl(sqrt(fl(x * x))) >= x` -/
theorem sqrt_square {p : ℕ} (hp : p ≠ 0) {emin : ℤ} (hem : emin ≤ -emin - 2 * p + 3) (eps : ℚ) {x : ℚ} (hx : GridBin p emin x) (h0 : 0 ≤ x)
    (hlo : x = 0 ∨ (2 : ℚ) ^ (emin + p) ≤ x * x) (hm : rndBin p emin (x * x) ≤ (Fmt.ieee p hp emin hem eps).max) :
    x ≤ (Fmt.ieee p hp emin hem eps).sqrtq (rndBin p emin (x * x)) := by
  set f := Fmt.ieee p hp emin hem eps with hf
  rcases hlo with rfl | hlo
  · exact f.sqrt_nonneg _
  have hx0 : 0 < x := by
    rcases h0.lt_or_eq with h | h
    · exact h
    · rw [← h] at hlo
      have := two_zpow_pos (emin + p)
      linarith
  set k := Int.log 2 x with hk
  have hk1 : (2 : ℚ) ^ k ≤ x := by exact_mod_cast Int.zpow_log_le_self (b := 2) (by norm_num) hx0
  have hk2 : x < (2 : ℚ) ^ (k + 1) := by exact_mod_cast Int.lt_zpow_succ_log_self (b := 2) (by norm_num) x
  set A : ℚ := 2 ^ k with hA
  have hA0 : 0 < A := two_zpow_pos k
  have eA1 : (2 : ℚ) ^ (k + 1) = 2 * A := by rw [zpow_add₀ (by norm_num), zpow_one]; ring
  rw [eA1] at hk2
  have eAA : (2 : ℚ) ^ (2 * k) = A * A := by rw [hA, ← zpow_add₀ (by norm_num)]; congr 1; ring
  have eAA1 : (2 : ℚ) ^ (2 * k + 1) = 2 * (A * A) := by rw [zpow_add₀ (by norm_num), eAA, zpow_one]; ring
  have eAA2 : (2 : ℚ) ^ (2 * k + 1 + 1) = 4 * (A * A) := by rw [zpow_add₀ (by norm_num), eAA1, zpow_one]; ring
  have hke : emin ≤ 2 * k + 1 - p := by
    have h1 : x * x < 4 * (A * A) := by nlinarith
    rw [← eAA2] at h1
    have := (zpow_lt_zpow_iff_right₀ (by norm_num : (1 : ℚ) < 2)).1 (lt_of_le_of_lt hlo h1)
    omega
  set V : ℚ := 2 ^ (k + 1 - p) with hV
  have hV0 : 0 < V := two_zpow_pos _
  have hVA : V ≤ A := zpow_le_zpow_right₀ (by norm_num) (by omega)
  have eVA : (2 : ℚ) ^ (2 * k + 1 - p) = V * A := by
    rw [hA, hV, ← zpow_add₀ (by norm_num)]; congr 1; ring
  have eVA2 : (2 : ℚ) ^ (2 * k + 1 + 1 - p) = 2 * (V * A) := by
    rw [← eVA, show 2 * k + 1 + 1 - (p : ℤ) = 2 * k + 1 - p + 1 by ring, zpow_add₀ (by norm_num), zpow_one]; ring
  set y := rndBin p emin (x * x) with hy
  have hy0 : 0 ≤ y := rndBin_nonneg (by positivity)
  have gy : GridBin p emin y := rndBin_grid hp _
  have hn := ieee_sqrt_nearest p hp emin hem eps hy0 gy hm hx
  rw [← hf] at hn
  have gs : GridBin p emin (f.sqrtq y) := f.sqrt_grid y
  by_contra hc
  have hc := not_le.1 hc
  set s := f.sqrtq y with hs
  clear_value s
  have hsx : (s : ℝ) < x := by exact_mod_cast hc
  -- the root of y is nearer to s
  have hr : √(y : ℝ) ≤ ((s : ℝ) + x) / 2 := by
    by_contra h
    have h := not_le.1 h
    rw [abs_of_neg (by linarith)] at hn
    rcases abs_cases ((x : ℝ) - √(y : ℝ)) with ⟨e, -⟩ | ⟨e, -⟩ <;> rw [e] at hn <;> linarith
  have hys : ∀ b : ℚ, 0 ≤ b → s ≤ 2 * b - x → y ≤ b * b := by
    intro b hb hsb
    have h1 : √(y : ℝ) ≤ b := by
      have : (s : ℝ) ≤ 2 * b - x := by exact_mod_cast hsb
      linarith
    have h2 : (y : ℝ) ≤ b ^ 2 := (Real.sqrt_le_left (by exact_mod_cast hb)).1 h1
    have : y ≤ b ^ 2 := by exact_mod_cast h2
    linarith
  rcases hk1.lt_or_eq with h | h
  · have hgap := grid_below (p := p) (emin := emin) (Nat.pos_of_ne_zero hp) gs hx h hc
    rw [← hV] at hgap
    have hyb := hys (x - V / 2) (by linarith) (by linarith)
    rcases lt_or_ge (x * x) (2 * (A * A)) with hcase | hcase
    · have he := rndBin_err_exp (p := p) (emin := emin) (j := 2 * k) (q := x * x) (by rw [eAA]; nlinarith) (by rw [eAA1]; exact hcase) hke
      rw [eVA, ← hy, abs_le] at he
      nlinarith [he.1]
    · have he := rndBin_err_exp (p := p) (emin := emin) (j := 2 * k + 1) (q := x * x) (by rw [eAA1]; exact hcase) (by rw [eAA2]; nlinarith) (by omega)
      rw [eVA2, ← hy, abs_le] at he
      have h3 : x ≤ A + V / 4 := by
        have : V * x ≤ V * (A + V / 4) := by nlinarith [he.1]
        exact le_of_mul_le_mul_left this hV0
      nlinarith
  · have he : y = x * x := by
      rw [hy]
      apply rndBin_id
      rw [← h, ← eAA]
      refine ⟨1, 2 * k, ?_, by omega, by simp⟩
      rw [abs_one]; exact one_lt_pow₀ (by norm_num) hp
    have hb0 : 0 ≤ (s + x) / 2 := by
      have := f.sqrt_nonneg y
      rw [← hs] at this
      linarith
    have h1 := hys ((s + x) / 2) hb0 (by linarith)
    rw [he] at h1
    have h2 : (s + x) / 2 < x := by linarith
    exact absurd h1 (not_le.2 (mul_self_lt_mul_self hb0 h2))

set_option maxHeartbeats 1000000 in
/-- the square root of a number of the format has a relative error of at most `2 ^ -p`: roots do not underflow -/
theorem sqrt_rel {p : ℕ} (hp : p ≠ 0) {emin : ℤ} (hem : emin ≤ -emin - 2 * p + 3) (h2p : 2 * (p : ℤ) ≤ -emin) (eps : ℚ) {y : ℚ} (hy : GridBin p emin y) (h0 : 0 ≤ y)
    (hm : y ≤ (Fmt.ieee p hp emin hem eps).max) :
    |((Fmt.ieee p hp emin hem eps).sqrtq y : ℝ) - √(y : ℝ)| ≤ √(y : ℝ) * (1 / 2 ^ p) := by
  rcases h0.lt_or_eq with hy0 | rfl
  swap
  · have := ieee_sqrt_nearest p hp emin hem eps le_rfl hy hm hy
    simpa using this
  set r := √(y : ℝ) with hr
  have hr0 : 0 < r := Real.sqrt_pos.2 (by exact_mod_cast hy0)
  have hrr : r * r = y := Real.mul_self_sqrt (by exact_mod_cast hy0.le)
  set k := Int.log 2 r with hk
  have hk1 : (2 : ℝ) ^ k ≤ r := by exact_mod_cast Int.zpow_log_le_self (b := 2) (by norm_num) hr0
  have hk2 : r < (2 : ℝ) ^ (k + 1) := by exact_mod_cast Int.lt_zpow_succ_log_self (b := 2) (by norm_num) r
  have hke : emin ≤ k + 1 - p := by
    obtain ⟨m, hm'⟩ := gridBin_mul hy
    have hm1 : (1 : ℚ) ≤ m := by
      have h : (0 : ℚ) < m := by
        rw [hm'] at hy0
        exact pos_of_mul_pos_left hy0 (two_zpow_pos emin).le
      have : (0 : ℤ) < m := by exact_mod_cast h
      exact_mod_cast this
    have h1 : (2 : ℚ) ^ emin ≤ y := by rw [hm']; nlinarith [two_zpow_pos emin]
    have h1' : (2 : ℝ) ^ emin ≤ y := by
      have : (((2 : ℚ) ^ emin : ℚ) : ℝ) ≤ y := by exact_mod_cast h1
      simpa using this
    have h2 : (y : ℝ) < 2 ^ (2 * (k + 1)) := by
      rw [← hrr, two_mul, zpow_add₀ (by norm_num)]
      exact mul_self_lt_mul_self hr0.le hk2
    have h3 := (zpow_lt_zpow_iff_right₀ (by norm_num : (1 : ℝ) < 2)).1 (lt_of_le_of_lt h1' h2)
    omega
  set V : ℝ := 2 ^ (k + 1 - p) with hV
  have hV0 : 0 < V := by positivity
  have hVr : V / 2 ≤ r * (1 / 2 ^ p) := by
    have e : V / 2 = 2 ^ k * (1 / 2 ^ p) := by
      rw [hV, zpow_sub₀ (by norm_num), zpow_add₀ (by norm_num), zpow_one, zpow_natCast]
      field_simp
    rw [e]
    exact mul_le_mul_of_nonneg_right hk1 (by positivity)
  set m := ⌊r / V⌋ with hmd
  have hm0 : 0 ≤ m := Int.floor_nonneg.2 (by positivity)
  have m1 : (m : ℝ) * V ≤ r := by
    have := Int.floor_le (r / V)
    rwa [le_div_iff₀ hV0] at this
  have m2 : r < (m + 1) * V := by
    have := Int.lt_floor_add_one (r / V)
    rwa [div_lt_iff₀ hV0] at this
  have hm2 : m + 1 ≤ 2 ^ p := by
    have h1 : (m : ℝ) * V < 2 ^ (k + 1) := lt_of_le_of_lt m1 hk2
    have h2 : (2 : ℝ) ^ (k + 1) = 2 ^ p * V := by
      rw [hV, ← zpow_natCast, ← zpow_add₀ (by norm_num)]; congr 1; ring
    rw [h2] at h1
    have h3 : (m : ℝ) < 2 ^ p := lt_of_mul_lt_mul_right h1 hV0.le
    have : m < 2 ^ p := by exact_mod_cast h3
    omega
  have g1 := mult_grid (p := p) hp hke hm0 (a := m) (by omega)
  have g2 := mult_grid (p := p) hp hke (a := m + 1) (by omega) hm2
  have n1 := ieee_sqrt_nearest p hp emin hem eps h0 hy hm g1
  have n2 := ieee_sqrt_nearest p hp emin hem eps h0 hy hm g2
  push_cast at n1 n2
  rw [← hr, ← hV] at n1 n2
  rw [abs_of_nonpos (a := (m : ℝ) * V - r) (by linarith)] at n1
  rw [abs_of_nonneg (a := ((m : ℝ) + 1) * V - r) (by linarith)] at n2
  have e : (m + 1 : ℝ) * V = m * V + V := by ring
  rw [e] at n2
  linarith

end Verif
