import Mathlib.Tactic.Zify
import Verif.Lemmas.Mixed
import Verif.Num.Round
/-!
# Conversions between `float` and `double`
-/

namespace Verif
open FloatOps

/-- every `float` is a `double` -/
theorem grid32_64 {q : ℚ} (h : GridBin 24 (-149) q) : GridBin 53 (-1074) q := by
  obtain ⟨m, e, hm, he, rfl⟩ := h
  exact ⟨m, e, hm.trans (by norm_num), by omega, rfl⟩

theorem max32_64 : Fmt.binary32.max ≤ Fmt.binary64.max := by decide +kernel

/-- `float` to `double` is exact -/
theorem up_fin {q : ℚ} (h : Fmt.binary32.Grid q ∧ |q| ≤ Fmt.binary32.max) :
    ∃ h', (convF.up (.fin q h)).v = .fin q h' := by
  have hg : Fmt.binary64.Grid q := grid32_64 h.1
  have hm : |q| ≤ Fmt.binary64.max := h.2.trans max32_64
  refine ⟨⟨hg, hm⟩, ?_⟩
  show (Fl.mk q : Fl Fmt.binary64) = _
  unfold Fl.mk Fl.ofGrid
  have e := Fmt.binary64.rnd_id _ hg
  simp only [e]
  rw [dif_pos hm]

/-- a rational that rounds to a number in the range of the format -/
theorem mk_of_rnd {f : Fmt} {q r : ℚ} (e : f.rnd q = r) (hm : |r| ≤ f.max) : ∃ h, (Fl.mk q : Fl f) = .fin r h := by
  subst e
  refine ⟨⟨f.rnd_grid q, hm⟩, ?_⟩
  unfold Fl.mk Fl.ofGrid
  rw [dif_pos hm]

theorem mk_grid {f : Fmt} {q : ℚ} (hg : f.Grid q) (hm : |q| ≤ f.max) : ∃ h, (Fl.mk q : Fl f) = .fin q h :=
  mk_of_rnd (f.rnd_id q hg) hm

/-- the distance of a positive number of a format to the next one -/
theorem grid_gap {p : ℕ} {emin : ℤ} {q r : ℚ} (hq : GridBin p emin q) (hr : GridBin p emin r) (h0 : 0 < q) (h : q < r) :
    q < (r - q) * 2 ^ p := by
  obtain ⟨m, e, hm, -, rfl⟩ := hq
  obtain ⟨m', e', hm', -, rfl⟩ := hr
  have key : ∀ k : ℤ, ∀ a b : ℤ, ((m : ℚ) * 2 ^ e = a * 2 ^ k) → ((m' : ℚ) * 2 ^ e' = b * 2 ^ k) →
      (2 : ℚ) ^ k ≤ (m' : ℚ) * 2 ^ e' - (m : ℚ) * 2 ^ e := by
    intro k a b ha hb
    have h2 := two_zpow_pos k
    rw [ha, hb] at h ⊢
    have hab : a < b := by
      have := lt_of_mul_lt_mul_right h h2.le
      exact_mod_cast this
    have : (a : ℚ) + 1 ≤ b := by exact_mod_cast hab
    nlinarith
  have up : ∀ a b : ℤ, a ≤ b → ∀ n : ℤ, (n : ℚ) * 2 ^ b = ((n * 2 ^ (b - a).toNat : ℤ) : ℚ) * 2 ^ a := by
    intro a b hab n
    push_cast
    rw [mul_assoc, ← zpow_natCast, ← zpow_add₀ (by norm_num : (2 : ℚ) ≠ 0)]
    congr 2
    omega
  have hmr : ((|m| : ℤ) : ℚ) < 2 ^ p := by exact_mod_cast hm
  have hmr' : ((|m'| : ℤ) : ℚ) < 2 ^ p := by exact_mod_cast hm'
  push_cast at hmr hmr'
  have le1 := (le_abs_self (m : ℚ)).trans_lt hmr
  have le2 := (le_abs_self (m' : ℚ)).trans_lt hmr'
  have hp2 : (0 : ℚ) < 2 ^ p := by positivity
  rcases le_total e e' with hle | hle
  · have h1 := key e m _ rfl (up e e' hle m')
    have h2 := two_zpow_pos e
    calc (m : ℚ) * 2 ^ e < 2 ^ p * 2 ^ e := mul_lt_mul_of_pos_right le1 h2
      _ ≤ 2 ^ p * ((m' : ℚ) * 2 ^ e' - (m : ℚ) * 2 ^ e) := mul_le_mul_of_nonneg_left h1 hp2.le
      _ = _ := mul_comm _ _
  · have h1 := key e' _ m' (up e' e hle m) rfl
    have h2 := two_zpow_pos e'
    calc (m : ℚ) * 2 ^ e < (m' : ℚ) * 2 ^ e' := h
      _ < 2 ^ p * 2 ^ e' := mul_lt_mul_of_pos_right le2 h2
      _ ≤ 2 ^ p * ((m' : ℚ) * 2 ^ e' - (m : ℚ) * 2 ^ e) := mul_le_mul_of_nonneg_left h1 hp2.le
      _ = _ := mul_comm _ _

/-- a number slightly above a positive `float` is rounded to it -/
theorem round_back {q r : ℚ} (hq : GridBin 24 (-149) q) (h0 : 0 < q) (h1 : q ≤ r) (h2 : r ≤ q * (1 + 1 / 2 ^ 26)) :
    rndBin 24 (-149) r = q := by
  have hr : q ≤ rndBin 24 (-149) r := by
    have := rndBin_mono (p := 24) (emin := -149) (by norm_num) h1
    rwa [rndBin_id hq] at this
  have hn := rndBin_nearest (p := 24) (emin := -149) (by norm_num) r hq
  rcases eq_or_lt_of_le hr with h | h
  · exact h.symm
  · exfalso
    have hg := grid_gap hq (rndBin_grid (by norm_num) r) h0 h
    rw [abs_of_nonpos (by linarith : q - r ≤ 0)] at hn
    have := (abs_le.1 hn).2
    linarith

/-- the diagonal of a system of `float`s is damped in vain: the `double` product is rounded back -/
theorem scale_back {q k : ℚ} (hq : GridBin 24 (-149) q) (h1 : 1 ≤ k) (h2 : k ≤ 1 + 1 / 2 ^ 26) :
    rndBin 24 (-149) (rndBin 53 (-1074) (q * k)) = q := by
  have pos : ∀ q : ℚ, GridBin 24 (-149) q → 0 < q → rndBin 24 (-149) (rndBin 53 (-1074) (q * k)) = q := by
    intro q hq h0
    apply round_back hq h0
    · have := rndBin_mono (p := 53) (emin := -1074) (by norm_num) (show q ≤ q * k by nlinarith)
      rwa [rndBin_id (grid32_64 hq)] at this
    · have hg : GridBin 53 (-1074) (q * (1 + 1 / 2 ^ 26)) := by
        obtain ⟨m, e, hm, he, rfl⟩ := hq
        refine ⟨m * (2 ^ 26 + 1), e - 26, ?_, by omega, ?_⟩
        · rw [abs_mul]
          have : |(2 ^ 26 + 1 : ℤ)| = 2 ^ 26 + 1 := by norm_num
          rw [this]
          calc |m| * (2 ^ 26 + 1) ≤ 2 ^ 24 * (2 ^ 26 + 1) := mul_le_mul_of_nonneg_right hm.le (by norm_num)
            _ < 2 ^ 53 := by norm_num
        · rw [zpow_sub₀ (by norm_num : (2 : ℚ) ≠ 0)]
          push_cast
          ring
      have := rndBin_mono (p := 53) (emin := -1074) (by norm_num) (show q * k ≤ q * (1 + 1 / 2 ^ 26) from mul_le_mul_of_nonneg_left h2 h0.le)
      rwa [rndBin_id hg] at this
  rcases lt_trichotomy q 0 with h | h | h
  · have := pos (-q) (Fmt.binary32.grid_neg hq) (by linarith)
    rw [neg_mul, rndBin_neg, rndBin_neg] at this
    linarith
  · subst h; rw [zero_mul, rndBin_zero, rndBin_zero]
  · exact pos q hq h

end Verif
