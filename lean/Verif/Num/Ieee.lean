import Mathlib.Algebra.Order.Field.Power
import Mathlib.Data.Int.Log
import Mathlib.Data.Rat.Floor
import Mathlib.Algebra.Order.Round
import Mathlib.Tactic.Ring
import Mathlib.Tactic.FieldSimp
import Verif.Num.Fl
/-!
# IEEE-754 binary formats with round-to-nearest, ties-to-even
-/

namespace Verif

/-- round to the nearest integer, ties to even -/
def rne (x : ℚ) : ℤ :=
  if x - ⌊x⌋ < 1 / 2 then ⌊x⌋
  else if 1 / 2 < x - ⌊x⌋ then ⌊x⌋ + 1
  else if ⌊x⌋ % 2 = 0 then ⌊x⌋ else ⌊x⌋ + 1

theorem rne_ge (x : ℚ) : ⌊x⌋ ≤ rne x := by
  unfold rne; split_ifs <;> omega

theorem rne_le (x : ℚ) : rne x ≤ ⌊x⌋ + 1 := by
  unfold rne; split_ifs <;> omega

theorem rne_int (n : ℤ) : rne (n : ℚ) = n := by
  unfold rne; norm_num

theorem rne_mono {x y : ℚ} (h : x ≤ y) : rne x ≤ rne y := by
  rcases eq_or_lt_of_le (Int.floor_le_floor h) with he | hl
  · unfold rne
    rw [he]
    split_ifs <;> first | omega | (exfalso; linarith)
  · have := rne_le x
    have := rne_ge y
    omega

theorem rne_neg (x : ℚ) : rne (-x) = -rne x := by
  by_cases hx : ((⌊x⌋ : ℤ) : ℚ) = x
  · rw [← hx, ← Int.cast_neg, rne_int, rne_int]
  · have h1 := Int.floor_le x
    have h2 := Int.lt_floor_add_one x
    have h3 : (⌊x⌋ : ℚ) < x := lt_of_le_of_ne h1 hx
    have hf : ⌊-x⌋ = -⌊x⌋ - 1 := by
      rw [Int.floor_eq_iff]; push_cast; constructor <;> linarith
    unfold rne
    rw [hf]; push_cast
    split_ifs <;> first | omega | (exfalso; linarith)

theorem rne_near (x : ℚ) : |(rne x : ℚ) - x| ≤ 1 / 2 := by
  unfold rne
  have h1 := Int.floor_le x
  have h2 := Int.lt_floor_add_one x
  have h3 := Int.fract_add_floor x
  rw [abs_le]
  split_ifs <;> first
    | (push_cast; constructor <;> linarith)
    | (constructor <;> linarith)

theorem rne_nonneg {x : ℚ} (h : 0 ≤ x) : 0 ≤ rne x := by
  have := rne_mono h
  have h0 := rne_int 0
  simp only [Int.cast_zero] at h0
  omega

/-- exponent of the unit in the last place of `q` (precision `p`, least exponent `emin`) -/
def ulpExp (p : ℕ) (emin : ℤ) (q : ℚ) : ℤ := max emin (Int.log 2 |q| - (p - 1))

/-- round to precision `p` with least exponent `emin` -/
def rndBin (p : ℕ) (emin : ℤ) (q : ℚ) : ℚ :=
  rne (q / 2 ^ ulpExp p emin q) * 2 ^ ulpExp p emin q

/-- numbers `m * 2^e` with `|m| < 2^p` and `e ≥ emin` -/
def GridBin (p : ℕ) (emin : ℤ) (q : ℚ) : Prop :=
  ∃ m e : ℤ, |m| < 2 ^ p ∧ emin ≤ e ∧ q = m * 2 ^ e

section
variable {p : ℕ} {emin : ℤ}

theorem two_zpow_pos (e : ℤ) : (0 : ℚ) < 2 ^ e := by positivity

theorem ulpExp_neg (q : ℚ) : ulpExp p emin (-q) = ulpExp p emin q := by
  unfold ulpExp; rw [abs_neg]

theorem rndBin_neg (q : ℚ) : rndBin p emin (-q) = -rndBin p emin q := by
  unfold rndBin
  rw [ulpExp_neg, neg_div, rne_neg]; push_cast; ring

theorem rndBin_zero : rndBin p emin 0 = 0 := by
  unfold rndBin
  have h0 := rne_int 0
  simp only [Int.cast_zero] at h0
  rw [zero_div, h0]; simp

theorem lt_zpow_ulp {q : ℚ} (hq : 0 < q) : q / 2 ^ ulpExp p emin q < 2 ^ (p : ℤ) := by
  have h1 := Int.lt_zpow_succ_log_self (b := 2) (by norm_num) |q|
  rw [abs_of_pos hq] at h1
  rw [div_lt_iff₀ (two_zpow_pos _), ← zpow_add₀ (by norm_num)]
  refine lt_of_lt_of_le (by exact_mod_cast h1) ?_
  apply zpow_le_zpow_right₀ (by norm_num)
  unfold ulpExp
  rw [abs_of_pos hq]
  have := le_max_right emin (Int.log 2 q - (p - 1))
  omega

theorem rne_ulp_le {q : ℚ} (hq : 0 < q) : rne (q / 2 ^ ulpExp p emin q) ≤ 2 ^ p := by
  have h := rne_mono (lt_zpow_ulp (p := p) (emin := emin) hq).le
  have h2 : ((2 : ℚ) ^ (p : ℤ)) = ((2 ^ p : ℤ) : ℚ) := by push_cast; rw [zpow_natCast]
  rwa [h2, rne_int] at h

theorem rndBin_nonneg {q : ℚ} (hq : 0 ≤ q) : 0 ≤ rndBin p emin q := by
  unfold rndBin
  have : 0 ≤ rne (q / 2 ^ ulpExp p emin q) := rne_nonneg (by positivity)
  have h : (0 : ℚ) ≤ rne (q / 2 ^ ulpExp p emin q) := by exact_mod_cast this
  positivity

theorem rndBin_mono_pos (hp : p ≠ 0) {q r : ℚ} (hq : 0 < q) (h : q ≤ r) :
    rndBin p emin q ≤ rndBin p emin r := by
  have hr : 0 < r := lt_of_lt_of_le hq h
  have hlog : Int.log 2 q ≤ Int.log 2 r := Int.log_mono_right hq h
  have hle : ulpExp p emin q ≤ ulpExp p emin r := by
    unfold ulpExp; rw [abs_of_pos hq, abs_of_pos hr]
    apply max_le_max le_rfl; omega
  rcases eq_or_lt_of_le hle with he | hl
  · unfold rndBin
    rw [he]
    have := rne_mono (x := q / 2 ^ ulpExp p emin r) (y := r / 2 ^ ulpExp p emin r)
      (by apply div_le_div_of_nonneg_right h (two_zpow_pos _).le)
    have : (rne (q / 2 ^ ulpExp p emin r) : ℚ) ≤ rne (r / 2 ^ ulpExp p emin r) := by
      exact_mod_cast this
    exact mul_le_mul_of_nonneg_right this (two_zpow_pos _).le
  · have her : ulpExp p emin r = Int.log 2 r - (p - 1) := by
      unfold ulpExp at hl ⊢
      rw [abs_of_pos hq, abs_of_pos hr] at hl
      rw [abs_of_pos hr]
      have := le_max_left emin (Int.log 2 q - (p - 1))
      omega
    have h1 : rndBin p emin q ≤ 2 ^ (p + ulpExp p emin q) := by
      unfold rndBin
      rw [zpow_add₀ (by norm_num)]
      apply mul_le_mul_of_nonneg_right _ (two_zpow_pos _).le
      have := rne_ulp_le (p := p) (emin := emin) hq
      rw [zpow_natCast]; exact_mod_cast this
    have h2 : (2 : ℚ) ^ (p + ulpExp p emin q) ≤ 2 ^ (Int.log 2 r) := by
      apply zpow_le_zpow_right₀ (by norm_num); omega
    have h3 : (2 : ℚ) ^ (Int.log 2 r) ≤ rndBin p emin r := by
      have hlr := Int.zpow_log_le_self (b := 2) (by norm_num) hr
      · unfold rndBin
        have hx : ((2 ^ (p - 1) : ℤ) : ℚ) ≤ r / 2 ^ ulpExp p emin r := by
          rw [le_div_iff₀ (two_zpow_pos _), her]
          push_cast
          rw [← zpow_natCast, ← zpow_add₀ (by norm_num)]
          have e : ((p - 1 : ℕ) : ℤ) + (Int.log 2 r - (p - 1)) = Int.log 2 r := by omega
          rw [e]; exact_mod_cast hlr
        have := rne_mono hx
        rw [rne_int] at this
        have h4 : ((2 ^ (p - 1) : ℤ) : ℚ) ≤ rne (r / 2 ^ ulpExp p emin r) := by exact_mod_cast this
        calc (2 : ℚ) ^ (Int.log 2 r)
            = ((2 ^ (p - 1) : ℤ) : ℚ) * 2 ^ ulpExp p emin r := by
              push_cast
              rw [← zpow_natCast, ← zpow_add₀ (by norm_num), her]
              congr 1; omega
          _ ≤ _ := mul_le_mul_of_nonneg_right h4 (two_zpow_pos _).le
    exact h1.trans (h2.trans h3)

theorem rndBin_mono (hp : p ≠ 0) {q r : ℚ} (h : q ≤ r) : rndBin p emin q ≤ rndBin p emin r := by
  rcases lt_or_ge 0 q with hq | hq
  · exact rndBin_mono_pos hp hq h
  · rcases le_or_gt 0 r with hr | hr
    · have h1 := rndBin_nonneg (p := p) (emin := emin) hr
      have h2 := rndBin_nonneg (p := p) (emin := emin) (q := -q) (by linarith)
      rw [rndBin_neg] at h2; linarith
    · have h1 := rndBin_mono_pos (emin := emin) hp (q := -r) (r := -q) (by linarith) (by linarith)
      rw [rndBin_neg, rndBin_neg] at h1; linarith

theorem gridBin_neg {q : ℚ} (h : GridBin p emin q) : GridBin p emin (-q) := by
  obtain ⟨m, e, hm, he, rfl⟩ := h
  exact ⟨-m, e, by rwa [abs_neg], he, by push_cast; ring⟩

theorem rndBin_grid_pos (hp : p ≠ 0) {q : ℚ} (hq : 0 < q) : GridBin p emin (rndBin p emin q) := by
  have h1 := rne_ulp_le (p := p) (emin := emin) hq
  have h0 : 0 ≤ rne (q / 2 ^ ulpExp p emin q) := rne_nonneg (by positivity)
  have hemin : emin ≤ ulpExp p emin q := le_max_left _ _
  rcases eq_or_lt_of_le h1 with he | hl
  · refine ⟨2 ^ (p - 1), ulpExp p emin q + 1, ?_, by omega, ?_⟩
    · rw [abs_of_nonneg (by positivity)]
      apply pow_lt_pow_right₀ (by norm_num); omega
    · unfold rndBin
      rw [he, zpow_add₀ (by norm_num)]
      obtain ⟨k, rfl⟩ : ∃ k, p = k + 1 := ⟨p - 1, by omega⟩
      push_cast
      simp only [pow_succ]; ring
  · exact ⟨_, _, by rwa [abs_of_nonneg h0], hemin, rfl⟩

theorem rndBin_grid (hp : p ≠ 0) (q : ℚ) : GridBin p emin (rndBin p emin q) := by
  rcases lt_trichotomy q 0 with h | h | h
  · have := gridBin_neg (rndBin_grid_pos (emin := emin) hp (q := -q) (by linarith))
    rwa [rndBin_neg, neg_neg] at this
  · subst h
    rw [rndBin_zero]
    exact ⟨0, emin, by simp, le_rfl, by simp⟩
  · exact rndBin_grid_pos hp h

/-- if the unit in the last place of `q` divides `q`, rounding does nothing -/
theorem rndBin_id {q : ℚ} (h : GridBin p emin q) : rndBin p emin q = q := by
  obtain ⟨m, e, hm, he, rfl⟩ := h
  by_cases hm0 : m = 0
  · subst hm0; simp [rndBin_zero]
  have hpos : (0 : ℚ) < |(m : ℚ) * 2 ^ e| := by
    rw [abs_pos]; exact mul_ne_zero (by exact_mod_cast hm0) (two_zpow_pos e).ne'
  have hlog : Int.log 2 |(m : ℚ) * 2 ^ e| < p + e := by
    rw [← Int.lt_zpow_iff_log_lt (by norm_num) hpos, abs_mul, abs_of_pos (two_zpow_pos e)]
    push_cast
    rw [zpow_add₀ (by norm_num)]
    apply mul_lt_mul_of_pos_right _ (two_zpow_pos e)
    rw [zpow_natCast]; exact_mod_cast hm
  have hle : ulpExp p emin ((m : ℚ) * 2 ^ e) ≤ e := by
    unfold ulpExp; rw [max_le_iff]; exact ⟨he, by omega⟩
  unfold rndBin
  generalize ulpExp p emin ((m : ℚ) * 2 ^ e) = u at hle
  obtain ⟨k, rfl⟩ := Int.le.dest hle
  have : (m : ℚ) * 2 ^ (u + (k : ℤ)) / 2 ^ u = ((m * 2 ^ k : ℤ) : ℚ) := by
    rw [zpow_add₀ (by norm_num), zpow_natCast]; push_cast; field_simp
  rw [this, rne_int]
  rw [zpow_add₀ (by norm_num), zpow_natCast]; push_cast; ring

theorem gridBin_mul {q : ℚ} (h : GridBin p emin q) : ∃ m : ℤ, q = m * 2 ^ emin := by
  obtain ⟨m, e, _, he, rfl⟩ := h
  obtain ⟨k, rfl⟩ := Int.le.dest he
  refine ⟨m * 2 ^ k, ?_⟩
  rw [zpow_add₀ (by norm_num), zpow_natCast]; push_cast; ring

theorem rndBin_sub_ne (hp : p ≠ 0) {a b : ℚ} (ha : GridBin p emin a) (hb : GridBin p emin b)
    (hab : a ≠ b) : rndBin p emin (a - b) ≠ 0 := by
  obtain ⟨m, hm⟩ := gridBin_mul ha
  obtain ⟨n, hn⟩ := gridBin_mul hb
  have hs : a - b = ((m - n : ℤ) : ℚ) * 2 ^ emin := by rw [hm, hn]; push_cast; ring
  have hmn : m - n ≠ 0 := by
    intro h0; rw [h0] at hs; simp at hs; exact hab (by linarith)
  have hg : GridBin p emin (2 ^ emin) :=
    ⟨1, emin, by simp only [abs_one]; exact one_lt_pow₀ (by norm_num) hp, le_rfl, by simp⟩
  have key : ∀ k : ℤ, 0 < k → rndBin p emin (k * 2 ^ emin) ≠ 0 := by
    intro k hk
    have h1 : (2 : ℚ) ^ emin ≤ k * 2 ^ emin := by
      have : (1 : ℚ) ≤ k := by exact_mod_cast hk
      nlinarith [two_zpow_pos emin]
    have h2 := rndBin_mono (emin := emin) hp h1
    rw [rndBin_id hg] at h2
    have := two_zpow_pos emin
    linarith
  rw [hs]
  rcases lt_or_gt_of_ne hmn with h | h
  · have := key (-(m - n)) (by omega)
    intro h0
    apply this
    have : ((-(m - n) : ℤ) : ℚ) * 2 ^ emin = -(((m - n : ℤ) : ℚ) * 2 ^ emin) := by
      push_cast; ring
    rw [this, rndBin_neg, h0, neg_zero]
  · exact key _ h

end

/-- The IEEE binary format with precision `p` and least exponent `emin`, largest finite number
`(2^p - 1) * 2^(-emin - 2 p + 3)`, and `FloatEpsilon` constant `eps`. -/
def Fmt.ieee (p : ℕ) (hp : p ≠ 0) (emin : ℤ) (hem : emin ≤ -emin - 2 * p + 3) (eps : ℚ) : Fmt where
  Grid := GridBin p emin
  rnd := rndBin p emin
  sqrtq q := rndBin p emin (sqrtTrunc (8 - 3 * emin).toNat q)
  max := (2 ^ p - 1 : ℤ) * 2 ^ (-emin - 2 * (p : ℤ) + 3)
  epsq := eps
  rnd_grid := rndBin_grid hp
  rnd_id _ h := rndBin_id h
  rnd_mono _ _ h := rndBin_mono hp h
  rnd_neg := rndBin_neg
  sqrt_grid _ := rndBin_grid hp _
  sqrt_mono _ _ h := rndBin_mono hp (sqrtTrunc_mono _ h)
  sqrt_nonneg _ := rndBin_nonneg (sqrtTrunc_nonneg _ _)
  grid_max := by
    have h1 : (1 : ℤ) ≤ 2 ^ p := one_le_pow₀ (by norm_num)
    exact ⟨2 ^ p - 1, _, by rw [abs_of_nonneg (by omega)]; omega, hem, rfl⟩
  max_pos := by
    have h1 : (1 : ℤ) < 2 ^ p := one_lt_pow₀ (by norm_num) hp
    have h2 : (0 : ℚ) < ((2 ^ p - 1 : ℤ) : ℚ) := by exact_mod_cast (by omega : (0 : ℤ) < 2 ^ p - 1)
    exact mul_pos h2 (two_zpow_pos _)
  sub_ne _ _ ha hb h := rndBin_sub_ne hp ha hb h

/-- `double`; `FloatEpsilon<double>()` is `1e-7f` (math.h:297-301) -/
def Fmt.binary64 : Fmt := Fmt.ieee 53 (by norm_num) (-1074) (by norm_num) (14073749 / 2 ^ 47)

/-- `float`; `FloatEpsilon<float>()` is `1e-4f` -/
def Fmt.binary32 : Fmt := Fmt.ieee 24 (by norm_num) (-149) (by norm_num) (13743895 / 2 ^ 37)

end Verif
