import Verif.Lemmas.Double
import Mathlib.Algebra.BigOperators.Fin
/-!
# `squaredNorm()` and `norm()` in `double` arithmetic
-/

set_option linter.unusedSectionVars false

namespace Verif
open FloatOps

/-- `n` roundings, `n` up to a billion -/
theorem pow_u {n : ℕ} (hn : n ≤ 10 ^ 9) : (1 + 1 / 2 ^ 53 : ℚ) ^ n ≤ 1 + 1 / 10 ^ 6 := by
  have key : ∀ m : ℕ, m ≤ 10 ^ 9 → (1 + 1 / 2 ^ 53 : ℚ) ^ m ≤ 1 + 2 * m * (1 / 2 ^ 53) := by
    intro m
    induction m with
    | zero => intro _; norm_num
    | succ m ih =>
      intro hm
      have h := ih (by omega)
      have hm' : (m : ℚ) ≤ 10 ^ 9 := by exact_mod_cast (by omega : m ≤ 10 ^ 9)
      rw [pow_succ]
      push_cast
      have h2 := mul_le_mul_of_nonneg_right h (by norm_num : (0 : ℚ) ≤ 1 + 1 / 2 ^ 53)
      refine h2.trans ?_
      have h3 : 2 * (m : ℚ) * (1 / 2 ^ 53) ≤ 1 := by norm_num; linarith
      nlinarith
  have hn' : (n : ℚ) ≤ 10 ^ 9 := by exact_mod_cast hn
  refine (key n hn).trans ?_
  norm_num
  linarith

/-- a sum of numbers that are not negative -/
theorem sumF_val {n : ℕ} (hn : n ≤ 10 ^ 9) {v : Vec F64 n} {t : Fin n → ℚ} (hv : ∀ i, Val (v i) (t i)) (h0 : ∀ i, 0 ≤ t i) (hs : ∑ i, t i ≤ 10 ^ 307) :
    ∃ s, Val (sumF v) s ∧ 0 ≤ s ∧ |s - ∑ i, t i| ≤ ((1 + 1 / 2 ^ 53) ^ n - 1) * ∑ i, t i := by
  induction n with
  | zero => exact ⟨0, val_zero, le_refl _, by simp⟩
  | succ n ih =>
    rw [Fin.sum_univ_castSucc] at hs ⊢
    have hp0 : 0 ≤ ∑ i : Fin n, t i.castSucc := Finset.sum_nonneg fun i _ => h0 _
    have hl0 := h0 (Fin.last n)
    have hvl := hv (Fin.last n)
    obtain ⟨s, hsv, hs0, hse⟩ := ih (by omega) (v := fun i => v i.castSucc) (t := fun i => t i.castSucc) (fun i => hv _) (fun i => h0 _) (by linarith)
    have hpu := pow_u (n := n) (by omega)
    have hp1 : (1 : ℚ) ≤ (1 + 1 / 2 ^ 53) ^ n := one_le_pow₀ (by norm_num)
    rw [pow_succ]
    generalize (1 + 1 / 2 ^ 53 : ℚ) ^ n = p at *
    generalize ∑ i : Fin n, t i.castSucc = S at *
    generalize t (Fin.last n) = e at *
    have hse' := abs_le.1 hse
    have hsS : s ≤ p * S := by linarith
    have hb : s + e ≤ 2 * (S + e) := by nlinarith
    have hB : |s + e| ≤ 10 ^ 308 := by
      rw [abs_of_nonneg (by linarith)]
      have e1 : (10 : ℚ) ^ 308 = 10 * 10 ^ 307 := by rw [pow_succ _ 307, mul_comm]
      have e2 : (0 : ℚ) < 10 ^ 307 := pow_pos (by norm_num) _
      rw [e1]
      clear e1
      generalize (10 : ℚ) ^ 307 = B at *
      linarith
    obtain ⟨y, hy, hye⟩ := hsv.add hvl hB
    rw [abs_of_nonneg (by linarith : 0 ≤ s + e)] at hye
    have hye' := abs_le.1 hye
    refine ⟨y, hy, ?_, ?_⟩
    · have : (s + e) / 2 ^ 53 ≤ s + e := div_le_self (by linarith) (one_le_pow₀ (by norm_num))
      linarith
    · have h1 : (s + e) / 2 ^ 53 = (s + e) * (1 / 2 ^ 53) := by ring
      rw [h1] at hye'
      have h2 : (s + e) * (1 / 2 ^ 53) ≤ (p * S + e) * (1 / 2 ^ 53) := mul_le_mul_of_nonneg_right (by linarith) (by norm_num)
      have h4 : (0 : ℚ) ≤ 1 / 2 ^ 53 := by norm_num
      generalize (1 / 2 ^ 53 : ℚ) = u at *
      have h3 : (0 : ℚ) ≤ e * (p - 1) := mul_nonneg hl0 (by linarith)
      have h5 : (p * (1 + u) - 1) * (S + e) = (p - 1) * S + (p - 1) * e + u * p * S + u * p * e := by ring
      have h6 : 0 ≤ u * (e * (p - 1)) := mul_nonneg h4 h3
      rw [h5, abs_le]
      constructor <;> nlinarith

/-- **`squaredNorm()`** of a vector of up to a billion numbers: the sum of the squares up to a thousandth, and to underflow -/
theorem sqNorm_val {n : ℕ} (hn : n ≤ 10 ^ 9) {v : Vec F64 n} {δ : Fin n → ℚ} (hv : ∀ i, Val (v i) (δ i)) (hb : ∀ i, |δ i| ≤ 10 ^ 141) :
    ∃ s, Val (sqNorm v) s ∧ 0 ≤ s ∧ |s - ∑ i, δ i ^ 2| ≤ 1 / 1000 * ∑ i, δ i ^ 2 + 1 / 10 ^ 290 := by
  have hn' : (n : ℚ) ≤ 10 ^ 9 := by exact_mod_cast hn
  have hsq : ∀ i, δ i ^ 2 ≤ 10 ^ 282 := fun i => by
    rw [← sq_abs]
    calc |δ i| ^ 2 ≤ (10 ^ 141) ^ 2 := pow_le_pow_left₀ (abs_nonneg _) (hb i) 2
      _ = 10 ^ 282 := by rw [← pow_mul]
  have hS : ∑ i, δ i ^ 2 ≤ 10 ^ 291 := by
    calc ∑ i, δ i ^ 2 ≤ ∑ _i : Fin n, (10 : ℚ) ^ 282 := Finset.sum_le_sum fun i _ => hsq i
      _ = n * 10 ^ 282 := by rw [Finset.sum_const, Finset.card_univ, Fintype.card_fin, nsmul_eq_mul]
      _ ≤ 10 ^ 9 * 10 ^ 282 := mul_le_mul_of_nonneg_right hn' (pow_nonneg (by norm_num) _)
      _ = 10 ^ 291 := by rw [← pow_add]
  have hS0 : 0 ≤ ∑ i, δ i ^ 2 := Finset.sum_nonneg fun i _ => sq_nonneg _
  have hval : ∀ i, Val (mul (v i) (v i)) (rndBin 53 (-1074) (δ i * δ i)) := fun i => (hv i).mul (hv i) (by
    rw [← sq, abs_of_nonneg (sq_nonneg _)]
    exact (hsq i).trans (pow_le_pow_right₀ (by norm_num) (by norm_num)))
  have herr : ∀ i, |rndBin 53 (-1074) (δ i * δ i) - δ i ^ 2| ≤ δ i ^ 2 * (1 / 2 ^ 53) + 1 / 2 ^ 1075 := fun i => by
    have := dbl_err (δ i * δ i)
    rw [← sq, abs_of_nonneg (sq_nonneg (δ i))] at this
    rw [← sq, ← div_eq_mul_one_div]; exact this
  have htiny : (n : ℚ) * (1 / 2 ^ 1075) ≤ 1 / 10 ^ 291 := by
    have h1 : (1 : ℚ) / 2 ^ 1075 ≤ 1 / 10 ^ 300 := by
      refine one_div_le_one_div_of_le (pow_pos (by norm_num) _) ?_
      calc (10 : ℚ) ^ 300 = (10 ^ 3) ^ 100 := by rw [← pow_mul]
        _ ≤ (2 ^ 10) ^ 100 := pow_le_pow_left₀ (by norm_num) (by norm_num) _
        _ = 2 ^ 1000 := by rw [← pow_mul]
        _ ≤ _ := pow_le_pow_right₀ (by norm_num) (by norm_num)
    calc (n : ℚ) * (1 / 2 ^ 1075) ≤ 10 ^ 9 * (1 / 10 ^ 300) := mul_le_mul hn' h1 (by positivity) (by norm_num)
      _ = 1 / 10 ^ 291 := by rw [show (300 : ℕ) = 9 + 291 by norm_num, pow_add]; field_simp
  have hT : |∑ i, rndBin 53 (-1074) (δ i * δ i) - ∑ i, δ i ^ 2| ≤ (∑ i, δ i ^ 2) * (1 / 2 ^ 53) + 1 / 10 ^ 291 := by
    rw [← Finset.sum_sub_distrib]
    refine (Finset.abs_sum_le_sum_abs _ _).trans ((Finset.sum_le_sum fun i _ => herr i).trans ?_)
    rw [Finset.sum_add_distrib, ← Finset.sum_mul, Finset.sum_const, Finset.card_univ, Fintype.card_fin, nsmul_eq_mul]
    linarith
  have e291 : (1 : ℚ) / 10 ^ 290 = 10 * (1 / 10 ^ 291) := by rw [pow_succ _ 290]; field_simp
  have h291 : (0 : ℚ) ≤ 1 / 10 ^ 291 := by positivity
  have h307 : (10 : ℚ) ^ 307 = 10 ^ 16 * 10 ^ 291 := by rw [← pow_add]
  have hbig : (1 : ℚ) ≤ 10 ^ 291 := one_le_pow₀ (by norm_num)
  have h291' : (1 : ℚ) / 10 ^ 291 ≤ 1 := by
    rw [div_le_one (by positivity)]; exact hbig
  have hT' := abs_le.1 hT
  obtain ⟨s, h1, h2, h3⟩ := sumF_val hn hval (fun i => rndBin_nonneg (mul_self_nonneg _)) (by
    rw [h307]
    clear h307 e291
    generalize (1 : ℚ) / 10 ^ 291 = ε at *
    generalize (10 : ℚ) ^ 291 = B at *
    norm_num at hT'
    linarith)
  refine ⟨s, h1, h2, ?_⟩
  rw [e291]
  have hpu := pow_u hn
  have hT0 : 0 ≤ ∑ i, rndBin 53 (-1074) (δ i * δ i) := Finset.sum_nonneg fun i _ => rndBin_nonneg (mul_self_nonneg _)
  clear e291 h307 hS hbig htiny
  generalize (1 : ℚ) / 10 ^ 291 = ε at *
  generalize ∑ i, rndBin 53 (-1074) (δ i * δ i) = T at *
  generalize ∑ i, δ i ^ 2 = S at *
  have h4 : ((1 + 1 / 2 ^ 53 : ℚ) ^ n - 1) * T ≤ 1 / 10 ^ 6 * T := mul_le_mul_of_nonneg_right (by linarith) hT0
  have h5 := abs_le.1 (h3.trans h4)
  norm_num at hT' h5 ⊢
  rw [abs_le]
  constructor <;> linarith

/-- **`std::sqrt`** of a number up to `1e300` -/
theorem Val.sqrt {a : F64} {q : ℚ} (ha : Val a q) (h0 : 0 ≤ q) (hb : q ≤ 10 ^ 300) :
    ∃ y, Val (FloatOps.sqrt a) y ∧ 0 ≤ y ∧ y ^ 2 ≤ 1001 / 1000 * q + 1 / 10 ^ 290 ∧ q ≤ 1001 / 1000 * y ^ 2 + 1 / 10 ^ 290 ∧ (q = 0 → y = 0) := by
  obtain ⟨hg, rfl⟩ := ha
  obtain ⟨t1, t2⟩ := sqrtTrunc_spec 3230 h0
  have t0 := sqrtTrunc_nonneg 3230 q
  have herr := dbl_err (sqrtTrunc 3230 q)
  have hy0 : 0 ≤ rndBin 53 (-1074) (sqrtTrunc 3230 q) := rndBin_nonneg t0
  have hz : q = 0 → rndBin 53 (-1074) (sqrtTrunc 3230 q) = 0 := fun e => by
    have : sqrtTrunc 3230 q = 0 := by
      rw [e] at t1 t0 ⊢
      nlinarith
    rw [this, rndBin_zero]
  have hη : (1 : ℚ) / 2 ^ 1075 ≤ 1 / 10 ^ 300 := by
    refine one_div_le_one_div_of_le (pow_pos (by norm_num) _) ?_
    calc (10 : ℚ) ^ 300 = (10 ^ 3) ^ 100 := by rw [← pow_mul]
      _ ≤ (2 ^ 10) ^ 100 := pow_le_pow_left₀ (by norm_num) (by norm_num) _
      _ = 2 ^ 1000 := by rw [← pow_mul]
      _ ≤ _ := pow_le_pow_right₀ (by norm_num) (by norm_num)
  have hε : (1 : ℚ) / 2 ^ 3230 ≤ 1 / 10 ^ 300 := by
    refine le_trans (one_div_le_one_div_of_le (pow_pos (by norm_num) _) ?_) hη
    exact pow_le_pow_right₀ (by norm_num) (by norm_num)
  have hε0 : (0 : ℚ) ≤ 1 / 2 ^ 3230 := by positivity
  have h300 : (1 : ℚ) / 10 ^ 300 ≤ 1 / 10 ^ 10 := one_div_le_one_div_of_le (by norm_num) (pow_le_pow_right₀ (by norm_num) (by norm_num))
  have e290 : (1 : ℚ) / 10 ^ 290 = 10 ^ 10 * (1 / 10 ^ 300) := by rw [show (300 : ℕ) = 10 + 290 by norm_num, pow_add]; field_simp
  have hp : (0 : ℚ) ≤ 1 / 10 ^ 300 := by positivity
  have hτ : sqrtTrunc 3230 q ≤ 10 ^ 150 := by
    by_contra hn
    have hn := not_le.1 hn
    have : (10 ^ 150 : ℚ) ^ 2 < sqrtTrunc 3230 q ^ 2 := pow_lt_pow_left₀ hn (pow_nonneg (by norm_num) _) (by norm_num)
    rw [← pow_mul, show 150 * 2 = 300 by norm_num] at this
    exact absurd (this.trans_le (t1.trans hb)) (lt_irrefl _)
  have hmax : |rndBin 53 (-1074) (sqrtTrunc 3230 q)| ≤ Fmt.binary64.max := by
    refine le_trans ?_ dbl_max
    have h1 : (10 : ℚ) ^ 308 = 10 ^ 158 * 10 ^ 150 := by rw [← pow_add]
    have h2 : (1 : ℚ) ≤ 10 ^ 150 := one_le_pow₀ (by norm_num)
    rw [abs_of_nonneg t0] at herr
    have h3 := (abs_le.1 herr).2
    rw [abs_of_nonneg hy0, h1]
    have h4 : (100 : ℚ) ≤ 10 ^ 158 := by
      calc (100 : ℚ) = 10 ^ 2 := by norm_num
        _ ≤ _ := pow_le_pow_right₀ (by norm_num) (by norm_num)
    have h5 : (100 : ℚ) * 10 ^ 150 ≤ 10 ^ 158 * 10 ^ 150 := mul_le_mul_of_nonneg_right h4 (by linarith)
    have h6 : sqrtTrunc 3230 q / 2 ^ 53 ≤ sqrtTrunc 3230 q := div_le_self t0 (one_le_pow₀ (by norm_num))
    refine le_trans ?_ h5
    clear h5 h1 h4
    generalize (10 : ℚ) ^ 150 = B at *
    generalize (1 : ℚ) / 10 ^ 300 = η at *
    generalize (1 : ℚ) / 2 ^ 1075 = η' at *
    norm_num at h300
    linarith
  have hval : Val (FloatOps.sqrt (.fin q hg : F64)) (rndBin 53 (-1074) (sqrtTrunc 3230 q)) := by
    show Val (if q < 0 then Fl.nan else Fl.ofGrid (Fmt.binary64.sqrtq q) (Fmt.binary64.sqrt_grid q)) _
    rw [if_neg (not_lt.2 h0)]
    unfold Fl.ofGrid
    have e : Fmt.binary64.sqrtq q = rndBin 53 (-1074) (sqrtTrunc 3230 q) := rfl
    rw [dif_pos (by rw [e]; exact hmax)]
    exact ⟨_, rfl⟩
  refine ⟨_, hval, hy0, ?_, ?_, hz⟩
  all_goals
    rw [abs_of_nonneg t0] at herr
    have h3 := abs_le.1 herr
    clear hval hmax hz herr
    rw [e290]
    clear e290
    generalize rndBin 53 (-1074) (sqrtTrunc 3230 q) = y at *
    generalize sqrtTrunc 3230 q = τ at *
    generalize (1 : ℚ) / 2 ^ 3230 = ε at *
    generalize (1 : ℚ) / 2 ^ 1075 = η' at *
    generalize (1 : ℚ) / 10 ^ 300 = η at *
    norm_num at h3 h300 ⊢
  · have h4 : y ≤ 10001 / 10000 * τ + η := by linarith
    have h5 : y ^ 2 ≤ (10001 / 10000 * τ + η) ^ 2 := pow_le_pow_left₀ hy0 h4 2
    nlinarith [sq_nonneg (τ - 10000 * η), mul_nonneg hp (sub_nonneg.2 h300)]
  · have h4 : τ + ε ≤ 10001 / 10000 * y + 10 * η := by linarith
    have h5 : (τ + ε) ^ 2 ≤ (10001 / 10000 * y + 10 * η) ^ 2 := pow_le_pow_left₀ (by linarith) h4 2
    nlinarith [sq_nonneg (y - 100000 * η), mul_nonneg hp (sub_nonneg.2 h300)]

end Verif
