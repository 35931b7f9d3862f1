import Mathlib.Analysis.Real.Sqrt
import Verif.Num.Ieee
/-!
# Rounding errors of the IEEE formats

The roundings of `Fmt.ieee` are to nearest, the sum of two floating point numbers has a relative error of at most
`2^-p` (also below the normal range), and the square root is correctly rounded.
-/

namespace Verif

section
variable {p : ℕ} {emin : ℤ}

theorem rndBin_half_ulp (q : ℚ) : |rndBin p emin q - q| ≤ 2 ^ ulpExp p emin q / 2 := by
  have h := rne_near (q / 2 ^ ulpExp p emin q)
  have hu := two_zpow_pos (ulpExp p emin q)
  have e : rndBin p emin q - q = (rne (q / 2 ^ ulpExp p emin q) - q / 2 ^ ulpExp p emin q) * 2 ^ ulpExp p emin q := by
    unfold rndBin; field_simp
  rw [e, abs_mul, abs_of_pos hu]
  nlinarith

/-- the rounding error of a sum -/
theorem rndBin_add_err {a b : ℚ} (ha : GridBin p emin a) (hb : GridBin p emin b) :
    |rndBin p emin (a + b) - (a + b)| ≤ |a + b| / 2 ^ p := by
  obtain ⟨m, hm⟩ := gridBin_mul ha
  obtain ⟨n, hn⟩ := gridBin_mul hb
  have hs : a + b = ((m + n : ℤ) : ℚ) * 2 ^ emin := by rw [hm, hn]; push_cast; ring
  rcases eq_or_ne (a + b) 0 with h0 | h0
  · rw [h0, rndBin_zero]; simp
  have hpos : 0 < |a + b| := abs_pos.mpr h0
  rcases le_or_gt (Int.log 2 |a + b| - (p - 1)) emin with hle | hlt
  · have hu : ulpExp p emin (a + b) = emin := max_eq_left hle
    have : rndBin p emin (a + b) = a + b := by
      unfold rndBin
      rw [hu]
      have : (a + b) / 2 ^ emin = ((m + n : ℤ) : ℚ) := by
        rw [hs, mul_div_assoc, div_self (two_zpow_pos _).ne', mul_one]
      rw [this, rne_int]
      exact hs.symm
    rw [this, sub_self, abs_zero]; positivity
  · have hu : ulpExp p emin (a + b) = Int.log 2 |a + b| - (p - 1) := max_eq_right hlt.le
    refine (rndBin_half_ulp _).trans ?_
    have hlog := Int.zpow_log_le_self (b := 2) (by norm_num) hpos
    have e : (2 : ℚ) ^ ulpExp p emin (a + b) / 2 = 2 ^ Int.log 2 |a + b| / 2 ^ p := by
      rw [hu, zpow_sub₀ (by norm_num), zpow_sub₀ (by norm_num), zpow_one, zpow_natCast]; field_simp
    rw [e]
    exact div_le_div_of_nonneg_right (by exact_mod_cast hlog) (by positivity)

/-- nearest integer -/
theorem rne_nearest (x : ℚ) (n : ℤ) : |(rne x : ℚ) - x| ≤ |(n : ℚ) - x| := by
  by_cases h : n = rne x
  · rw [h]
  · have h1 := rne_near x
    have h2 : (1 : ℚ) ≤ |(n : ℚ) - rne x| := by
      have : (1 : ℤ) ≤ |n - rne x| := Int.one_le_abs (sub_ne_zero.mpr h)
      exact_mod_cast this
    have h3 : |(n : ℚ) - rne x| ≤ |(n : ℚ) - x| + |(rne x : ℚ) - x| := by
      have := abs_sub_le (n : ℚ) x (rne x)
      rwa [abs_sub_comm x] at this
    linarith

private theorem rndBin_nearest_pos (hp : p ≠ 0) {q g : ℚ} (hq : 0 < q) (hg : GridBin p emin g) :
    |rndBin p emin q - q| ≤ |g - q| := by
  set u := ulpExp p emin q with hu
  have hup := two_zpow_pos u
  have key : ∀ n : ℤ, |rndBin p emin q - q| ≤ |(n : ℚ) * 2 ^ u - q| := by
    intro n
    have h := rne_nearest (q / 2 ^ u) n
    have e1 : rndBin p emin q - q = (rne (q / 2 ^ u) - q / 2 ^ u) * 2 ^ u := by
      unfold rndBin; rw [← hu]; field_simp
    have e2 : (n : ℚ) * 2 ^ u - q = (n - q / 2 ^ u) * 2 ^ u := by field_simp
    rw [e1, e2, abs_mul, abs_mul]
    exact mul_le_mul_of_nonneg_right h (abs_nonneg _)
  obtain ⟨m, e, hm, he, rfl⟩ := hg
  rcases le_or_gt u e with hue | hue
  · obtain ⟨k, rfl⟩ := Int.le.dest hue
    have : (m : ℚ) * 2 ^ (u + (k : ℤ)) = ((m * 2 ^ k : ℤ) : ℚ) * 2 ^ u := by
      rw [zpow_add₀ (by norm_num), zpow_natCast]; push_cast; ring
    rw [this]
    exact key _
  · have hul : u = Int.log 2 q - (p - 1) := by
      rw [hu]; unfold ulpExp; rw [abs_of_pos hq]
      apply max_eq_right
      by_contra hc
      have : ulpExp p emin q = emin := by unfold ulpExp; rw [abs_of_pos hq]; exact max_eq_left (by omega)
      omega
    have h1 : (m : ℚ) * 2 ^ e ≤ 2 ^ Int.log 2 q := by
      have hm' : (m : ℚ) ≤ 2 ^ (p : ℤ) := by
        rw [zpow_natCast]
        exact_mod_cast (le_abs_self m).trans hm.le
      calc (m : ℚ) * 2 ^ e ≤ 2 ^ (p : ℤ) * 2 ^ e := mul_le_mul_of_nonneg_right hm' (two_zpow_pos e).le
        _ = 2 ^ ((p : ℤ) + e) := by rw [zpow_add₀ (by norm_num)]
        _ ≤ _ := zpow_le_zpow_right₀ (by norm_num) (by omega)
    have h2 : (2 : ℚ) ^ Int.log 2 q ≤ q := by exact_mod_cast Int.zpow_log_le_self (b := 2) (by norm_num) hq
    have h3 := key (2 ^ (p - 1))
    have h4 : ((2 ^ (p - 1) : ℤ) : ℚ) * 2 ^ u = 2 ^ Int.log 2 q := by
      push_cast
      rw [← zpow_natCast, ← zpow_add₀ (by norm_num), hul]
      congr 1; omega
    rw [h4] at h3
    refine h3.trans ?_
    rw [abs_of_nonpos (by linarith), abs_of_nonpos (by linarith)]
    linarith

/-- **rounding is to nearest** -/
theorem rndBin_nearest (hp : p ≠ 0) (q : ℚ) {g : ℚ} (hg : GridBin p emin g) :
    |rndBin p emin q - q| ≤ |g - q| := by
  rcases lt_trichotomy q 0 with h | rfl | h
  · have := rndBin_nearest_pos hp (q := -q) (by linarith) (gridBin_neg hg)
    rw [rndBin_neg] at this
    rw [← abs_neg, ← abs_neg (g - q)]
    convert this using 2 <;> ring
  · rw [rndBin_zero]; simp
  · exact rndBin_nearest_pos hp h hg

end

/-- **the square root is correctly rounded**: no floating point number is closer to `√q` -/
theorem ieee_sqrt_nearest (p : ℕ) (hp : p ≠ 0) (emin : ℤ) (hem : emin ≤ -emin - 2 * p + 3) (eps : ℚ) {q g : ℚ}
    (h0 : 0 ≤ q) (hq : GridBin p emin q) (hm : q ≤ (Fmt.ieee p hp emin hem eps).max) (hg : GridBin p emin g) :
    |(((Fmt.ieee p hp emin hem eps).sqrtq q : ℚ) : ℝ) - √(q : ℝ)| ≤ |(g : ℝ) - √(q : ℝ)| := by
  set k := (8 - 3 * emin).toNat with hk
  set t := sqrtTrunc k q with ht
  set r := rndBin p emin t with hr
  show |((r : ℚ) : ℝ) - √(q : ℝ)| ≤ |(g : ℝ) - √(q : ℝ)|
  have hemin : emin ≤ 0 := by omega
  have ht0 : 0 ≤ t := sqrtTrunc_nonneg k q
  obtain ⟨h1, h2⟩ := sqrtTrunc_spec k h0
  rw [← ht] at h1 h2
  have hnear := rndBin_nearest hp t hg
  rw [← hr] at hnear
  have hrg : GridBin p emin r := rndBin_grid hp t
  have hs0 : (0 : ℝ) ≤ √(q : ℝ) := Real.sqrt_nonneg _
  have hsq : √(q : ℝ) ^ 2 = q := Real.sq_sqrt (by exact_mod_cast h0)
  have hts : (t : ℝ) ≤ √(q : ℝ) := by
    apply Real.le_sqrt_of_sq_le
    exact_mod_cast h1
  by_contra hc
  rw [not_le] at hc
  have hne : g ≠ r := fun h => by rw [h] at hc; exact lt_irrefl _ hc
  have habs : |((r : ℚ) : ℝ) - t| ≤ |(g : ℝ) - t| := by exact_mod_cast hnear
  have hq1 := sq_lt_sq.mpr hc
  have hq2 := sq_le_sq.mpr habs
  rcases lt_or_gt_of_ne hne with hlt | hgt
  · have hlt' : (g : ℝ) < r := by exact_mod_cast hlt
    have e1 : √(q : ℝ) < (r + g) / 2 := by nlinarith
    have e2 : ((r + g) / 2 : ℝ) ≤ t := by nlinarith
    linarith
  · have hgt' : (r : ℝ) < g := by exact_mod_cast hgt
    have e1 : ((r + g) / 2 : ℝ) < √(q : ℝ) := by nlinarith
    have e2 : (t : ℝ) ≤ ((r + g) / 2 : ℝ) := by nlinarith
    have hm0 : t ≤ (r + g) / 2 := by exact_mod_cast e2
    have hm1 : ((r + g) / 2) ^ 2 < q := by
      have : ((r + g) / 2 : ℝ) ^ 2 < q := by
        rw [← hsq]
        have : (0 : ℝ) ≤ t := by exact_mod_cast ht0
        nlinarith
      exact_mod_cast this
    obtain ⟨a, ha⟩ := gridBin_mul hrg
    obtain ⟨b, hb⟩ := gridBin_mul hg
    obtain ⟨c, hc'⟩ := gridBin_mul hq
    have hE : (0 : ℚ) < 2 ^ emin := two_zpow_pos emin
    -- the difference is a multiple of `4^(emin-1)`
    have hd : ((2 : ℚ) ^ emin) ^ 2 / 4 ≤ q - ((r + g) / 2) ^ 2 := by
      have hi : q - ((r + g) / 2) ^ 2 = ((c * 2 ^ (2 - emin).toNat - (a + b) ^ 2 : ℤ) : ℚ) * (((2 : ℚ) ^ emin) ^ 2 / 4) := by
        have h2e : ((2 : ℚ) ^ (2 - emin).toNat) * 2 ^ emin = 4 := by
          rw [← zpow_natCast, ← zpow_add₀ (by norm_num), Int.toNat_of_nonneg (by omega)]
          norm_num
        rw [ha, hb]
        conv_lhs => rw [hc']
        push_cast
        have : (c : ℚ) * 2 ^ emin = c * (2 ^ (2 - emin).toNat * 2 ^ emin) * 2 ^ emin / 4 := by rw [h2e]; ring
        rw [this]; ring
      have hpos : (0 : ℚ) < ((c * 2 ^ (2 - emin).toNat - (a + b) ^ 2 : ℤ) : ℚ) := by
        have h3 : 0 < q - ((r + g) / 2) ^ 2 := by linarith
        rw [hi] at h3
        exact pos_of_mul_pos_left h3 (by positivity)
      have : (1 : ℚ) ≤ ((c * 2 ^ (2 - emin).toNat - (a + b) ^ 2 : ℤ) : ℚ) := by
        have h3 : (0 : ℤ) < c * 2 ^ (2 - emin).toNat - (a + b) ^ 2 := by exact_mod_cast hpos
        have h4 : (1 : ℤ) ≤ c * 2 ^ (2 - emin).toNat - (a + b) ^ 2 := h3
        exact_mod_cast h4
      rw [hi]
      have h4 : (0 : ℚ) < ((2 : ℚ) ^ emin) ^ 2 / 4 := by positivity
      nlinarith
    -- but it is less than the truncation error allows
    set m := (r + g) / 2 with hmdef
    have hm0' : 0 ≤ m := ht0.trans hm0
    have hK : (0 : ℚ) < 1 / 2 ^ k := by positivity
    have hup : q < (m + 1 / 2 ^ k) ^ 2 := lt_of_lt_of_le h2 (by nlinarith)
    have hK1 : (1 : ℚ) / 2 ^ k ≤ 1 := by
      rw [div_le_one (by positivity)]; exact one_le_pow₀ (by norm_num)
    have hmq : 2 * m ≤ 1 + q := by nlinarith [sq_nonneg (m - 1)]
    have hqmax : q ≤ 2 ^ (2 - emin) := by
      refine hm.trans ?_
      show (((2 ^ p - 1 : ℤ) : ℚ)) * 2 ^ (-emin - 2 * (p : ℤ) + 3) ≤ _
      have h5 : (((2 ^ p - 1 : ℤ) : ℚ)) ≤ 2 ^ (p : ℤ) := by push_cast; rw [zpow_natCast]; linarith
      calc (((2 ^ p - 1 : ℤ) : ℚ)) * 2 ^ (-emin - 2 * (p : ℤ) + 3)
          ≤ 2 ^ (p : ℤ) * 2 ^ (-emin - 2 * (p : ℤ) + 3) := mul_le_mul_of_nonneg_right h5 (two_zpow_pos _).le
        _ = 2 ^ ((p : ℤ) + (-emin - 2 * (p : ℤ) + 3)) := (zpow_add₀ (by norm_num) _ _).symm
        _ ≤ _ := zpow_le_zpow_right₀ (by norm_num) (by omega)
    have hone : (1 : ℚ) ≤ 2 ^ (-emin) := one_le_zpow₀ (by norm_num) (by omega)
    have h2m : (2 : ℚ) ^ (2 - emin) = 4 * 2 ^ (-emin) := by
      rw [sub_eq_add_neg, zpow_add₀ (by norm_num)]; norm_cast
    have hkv : (1 : ℚ) / 2 ^ k = 2 ^ emin * 2 ^ emin * 2 ^ emin / 256 := by
      rw [← zpow_natCast, hk, Int.toNat_of_nonneg (by omega), zpow_sub₀ (by norm_num), mul_comm (3 : ℤ), zpow_mul]
      have : ((2 : ℚ) ^ emin) ^ (3 : ℤ) = 2 ^ emin * 2 ^ emin * 2 ^ emin := by
        rw [show (3 : ℤ) = ((3 : ℕ) : ℤ) by rfl, zpow_natCast]; ring
      rw [this]; norm_num
    have hinv : (2 : ℚ) ^ emin * 2 ^ (-emin) = 1 := by rw [← zpow_add₀ (by norm_num)]; simp
    have hlast : (m + 1 / 2 ^ k) ^ 2 - m ^ 2 ≤ ((2 : ℚ) ^ emin) ^ 2 / 4 := by
      have h6 : (m + 1 / 2 ^ k) ^ 2 - m ^ 2 ≤ (1 / 2 ^ k) * (2 + q) := by nlinarith
      have h7 : 2 + q ≤ 6 * 2 ^ (-emin) := by linarith
      have h8 : (1 : ℚ) / 2 ^ k * (2 + q) ≤ 1 / 2 ^ k * (6 * 2 ^ (-emin)) := mul_le_mul_of_nonneg_left h7 hK.le
      have h9 : (1 : ℚ) / 2 ^ k * (6 * 2 ^ (-emin)) = (2 ^ emin * 2 ^ emin) * 6 / 256 := by
        rw [hkv]
        calc _ = (2 : ℚ) ^ emin * 2 ^ emin * (2 ^ emin * 2 ^ (-emin)) * 6 / 256 := by ring
          _ = _ := by rw [hinv]; ring
      have h10 : (0 : ℚ) < 2 ^ emin * 2 ^ emin := by positivity
      nlinarith
    linarith

end Verif
