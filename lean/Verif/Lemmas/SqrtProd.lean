import Mathlib.Data.Int.Log
import Mathlib.Tactic.Linarith
import Mathlib.Tactic.Positivity
import Mathlib.Tactic.FieldSimp
import Verif.Num.Round
/-!
# The rounded product of two rounded square roots

`fl(2 * fl(sqrt t) * fl(sqrt x)) >= 2 * t` for numbers `t < x` of a binary format: no rounding takes the product below.
-/

namespace Verif

/-- a number of the format of `2 ^ k` or more is a multiple of `2 ^ (k + 1 - p)` -/
theorem grid_mult {p : ℕ} {emin : ℤ} {y : ℚ} (hy : GridBin p emin y) {k : ℤ} (hk : (2 : ℚ) ^ k ≤ y) : ∃ a : ℤ, y = a * 2 ^ (k + 1 - p) := by
  obtain ⟨m, e, hm, -, rfl⟩ := hy
  have he : k + 1 - p ≤ e := by
    by_contra hc
    have h1 : (m : ℚ) < 2 ^ (p : ℤ) := by
      have : m < 2 ^ p := lt_of_le_of_lt (le_abs_self m) hm
      rw [zpow_natCast]
      exact_mod_cast this
    have h2 : (m : ℚ) * 2 ^ e < 2 ^ (p : ℤ) * 2 ^ e := mul_lt_mul_of_pos_right h1 (two_zpow_pos e)
    rw [← zpow_add₀ (by norm_num)] at h2
    have h3 : (2 : ℚ) ^ ((p : ℤ) + e) ≤ 2 ^ k := zpow_le_zpow_right₀ (by norm_num) (by omega)
    linarith
  refine ⟨m * 2 ^ (e - (k + 1 - p)).toNat, ?_⟩
  push_cast
  rw [mul_assoc, ← zpow_natCast, ← zpow_add₀ (by norm_num)]
  congr 2
  omega

/-- small multiples are numbers of the format -/
theorem mult_grid {p : ℕ} {emin e : ℤ} (hp : p ≠ 0) (he : emin ≤ e) {a : ℤ} (h0 : 0 ≤ a) (h1 : a ≤ 2 ^ p) : GridBin p emin (a * 2 ^ e) := by
  rcases lt_or_eq_of_le h1 with h | rfl
  · exact ⟨a, e, by rwa [abs_of_nonneg h0], he, rfl⟩
  · refine ⟨1, e + p, ?_, by omega, ?_⟩
    · rw [abs_one]; exact one_lt_pow₀ (by norm_num) hp
    · push_cast
      rw [one_mul, zpow_add₀ (by norm_num), zpow_natCast, mul_comm]

theorem mult_gap {v y z : ℚ} (hv : 0 < v) {a b : ℤ} (ha : y = a * v) (hb : z = b * v) (h : y < z) : v ≤ z - y := by
  rw [ha, hb] at *
  have : a < b := by
    have := lt_of_mul_lt_mul_right h hv.le
    exact_mod_cast this
  have : (a : ℚ) + 1 ≤ b := by exact_mod_cast this
  nlinarith

/-- the distance to smaller numbers of the format -/
theorem grid_below {p : ℕ} {emin : ℤ} (hp : 0 < p) {y z : ℚ} (hy : GridBin p emin y) (hz : GridBin p emin z) {k : ℤ} (hk : (2 : ℚ) ^ k < z) (h : y < z) : (2 : ℚ) ^ (k + 1 - p) ≤ z - y := by
  obtain ⟨b, hb⟩ := grid_mult hz hk.le
  have hv := two_zpow_pos (k + 1 - p)
  by_cases hy' : (2 : ℚ) ^ k ≤ y
  · obtain ⟨a, ha⟩ := grid_mult hy hy'
    exact mult_gap hv ha hb h
  · have e : (2 : ℚ) ^ k = ((2 ^ (p - 1) : ℤ) : ℚ) * 2 ^ (k + 1 - p) := by
      push_cast
      rw [← zpow_natCast, ← zpow_add₀ (by norm_num)]
      congr 1
      omega
    have := mult_gap hv e hb hk
    linarith [not_le.1 hy']

/-- the nearest number of a format is not below a number of the format that is below the value -/
theorem near_ge {T g s : ℝ} (h : |T - s| ≤ |g - s|) (hg : g ≤ s) : g ≤ T := by
  by_contra hc
  rw [abs_of_nonpos (by linarith), abs_of_nonpos (by linarith)] at h
  linarith

theorem near_le {T g s : ℝ} (h : |T - s| ≤ |g - s|) (hg : s ≤ g) : T ≤ g := by
  by_contra hc
  rw [abs_of_nonneg (by linarith), abs_of_nonneg (by linarith)] at h
  linarith

theorem near_up {T v s : ℝ} (hv : 0 < v) (h : |T - s| ≤ |T + v - s|) : s ≤ T + v / 2 := by
  by_contra hc
  have h1 : |T - s| = s - T := by rw [abs_of_nonpos (by linarith)]; ring
  rw [h1] at h
  rcases abs_cases (T + v - s) with ⟨h2, -⟩ | ⟨h2, -⟩ <;> rw [h2] at h
  · linarith
  · linarith

/-- the arithmetic: `T` and `N` are square roots of `t < x` rounded to multiples of `V` -/
theorem prod_bound {A V T N t x : ℝ} (hA : 0 < A) (hV : 0 < V) (hVA : V ≤ A / 32) (ht : A ^ 2 < t) (hT : A ≤ T) (hup : √t ≤ T + V / 2)
    (hcase : T + V ≤ N ∨ (N = T ∧ √x ≤ T + V / 2)) (hxt : t < x) (h1 : t < 2 * A ^ 2 → t + V * A ≤ x ∧ T + V / 4 < 3 / 2 * A) (h2 : 2 * A ^ 2 ≤ t → t + 2 * V * A ≤ x ∧ T ≤ 2 * A) :
    t - V * A / 2 < T * N := by
  have ht0 : 0 ≤ t := by nlinarith [sq_nonneg A]
  have hsq : ∀ y : ℝ, 0 ≤ y → √y ≤ T + V / 2 → y ≤ (T + V / 2) ^ 2 := by
    intro y hy h
    calc y = √y ^ 2 := (Real.sq_sqrt hy).symm
      _ ≤ _ := pow_le_pow_left₀ (Real.sqrt_nonneg _) h 2
  have hVV : V ^ 2 / 4 < V * A / 2 := by nlinarith
  have e : (T + V / 2) ^ 2 = T * T + V * T + V ^ 2 / 4 := by ring
  rcases hcase with h | ⟨rfl, h⟩
  · have := hsq t ht0 hup
    have h3 : T * (T + V) ≤ T * N := mul_le_mul_of_nonneg_left h (by linarith)
    nlinarith
  · have hx := hsq x (by linarith) h
    rw [e] at hx
    rcases lt_or_ge t (2 * A ^ 2) with hc | hc
    · obtain ⟨a, b⟩ := h1 hc
      have : V * (N + V / 4) < V * (3 / 2 * A) := mul_lt_mul_of_pos_left b hV
      nlinarith
    · obtain ⟨a, b⟩ := h2 hc
      have : V * N ≤ V * (2 * A) := mul_le_mul_of_nonneg_left b hV.le
      nlinarith

set_option maxHeartbeats 1000000 in
/-- the product of the rounded square roots, doubled and rounded, is not below twice the smaller number -/
theorem two_sqrt_prod {p : ℕ} (hp : p ≠ 0) (h6 : 6 ≤ p) {emin : ℤ} (hem : emin ≤ -emin - 2 * p + 3) (h2p : 2 * (p : ℤ) ≤ -emin) (eps : ℚ) {t x : ℚ} (ht : GridBin p emin t) (hx : GridBin p emin x)
    (h0 : 0 < t) (htx : t < x) (hxm : x ≤ (Fmt.ieee p hp emin hem eps).max) :
    2 * t ≤ rndBin p emin (2 * (Fmt.ieee p hp emin hem eps).sqrtq t * (Fmt.ieee p hp emin hem eps).sqrtq x) := by
  set f := Fmt.ieee p hp emin hem eps with hf
  -- the power of 4 below t
  set k := Int.log 4 t with hk
  have hk1 : ((4 : ℕ) : ℚ) ^ k ≤ t := Int.zpow_log_le_self (by norm_num) h0
  have hk2 : t < ((4 : ℕ) : ℚ) ^ (k + 1) := Int.lt_zpow_succ_log_self (by norm_num) t
  have h4 : ∀ j : ℤ, ((4 : ℕ) : ℚ) ^ j = 2 ^ (2 * j) := by
    intro j
    rw [zpow_mul]
    norm_num
  rw [h4] at hk1 hk2
  have hke : emin ≤ k + 1 - p := by
    obtain ⟨m, hm⟩ := gridBin_mul ht
    have hm1 : (1 : ℚ) ≤ m := by
      have h : (0 : ℚ) < m := by
        rw [hm] at h0
        exact pos_of_mul_pos_left h0 (two_zpow_pos emin).le
      have : (0 : ℤ) < m := by exact_mod_cast h
      exact_mod_cast this
    have h1 : (2 : ℚ) ^ emin ≤ t := by rw [hm]; nlinarith [two_zpow_pos emin]
    have h2 : (2 : ℚ) ^ emin < 2 ^ (2 * (k + 1)) := lt_of_le_of_lt h1 hk2
    have h3 := (zpow_lt_zpow_iff_right₀ (by norm_num : (1 : ℚ) < 2)).1 h2
    omega
  set T := f.sqrtq t with hT
  set N := f.sqrtq x with hN
  have gT : GridBin p emin T := f.sqrt_grid t
  have gN : GridBin p emin N := f.sqrt_grid x
  have hTN : T ≤ N := f.sqrt_mono t x htx.le
  have nt : ∀ g : ℚ, GridBin p emin g → |(T : ℝ) - √(t : ℝ)| ≤ |(g : ℝ) - √(t : ℝ)| := fun g hg =>
    ieee_sqrt_nearest p hp emin hem eps h0.le ht (htx.le.trans hxm) hg
  have nx : ∀ g : ℚ, GridBin p emin g → |(N : ℝ) - √(x : ℝ)| ≤ |(g : ℝ) - √(x : ℝ)| := fun g hg =>
    ieee_sqrt_nearest p hp emin hem eps (h0.trans htx).le hx hxm hg
  clear_value T N
  set A : ℚ := 2 ^ k with hA
  set V : ℚ := 2 ^ (k + 1 - p) with hV
  have hA0 : 0 < A := two_zpow_pos k
  have hV0 : 0 < V := two_zpow_pos _
  have eA : A = ((2 ^ (p - 1) : ℤ) : ℚ) * V := by
    rw [hA, hV]
    push_cast
    rw [← zpow_natCast, ← zpow_add₀ (by norm_num)]
    congr 1
    omega
  have hVA : V ≤ A / 32 := by
    have : (32 : ℚ) ≤ ((2 ^ (p - 1) : ℤ) : ℚ) := by
      have h : (2 : ℤ) ^ 5 ≤ 2 ^ (p - 1) := pow_le_pow_right₀ (by norm_num) (by omega)
      have : (32 : ℤ) ≤ 2 ^ (p - 1) := by linarith
      exact_mod_cast this
    rw [eA]
    nlinarith
  have eAA : (2 : ℚ) ^ (2 * k) = A ^ 2 := by rw [hA, mul_comm, zpow_mul]; norm_cast
  have eAA1 : (2 : ℚ) ^ (2 * k + 1) = 2 * A ^ 2 := by rw [zpow_add₀ (by norm_num), eAA, zpow_one]; ring
  have eAA2 : (2 : ℚ) ^ (2 * (k + 1)) = 4 * A ^ 2 := by
    rw [show 2 * (k + 1) = 2 * k + 2 by ring, zpow_add₀ (by norm_num), eAA]
    norm_num
    ring
  have eVA : (2 : ℚ) ^ (2 * k + 1 - p) = V * A := by
    rw [hA, hV, ← zpow_add₀ (by norm_num)]; congr 1; ring
  have eVA2 : (2 : ℚ) ^ (2 * k + 1 + 1 - p) = 2 * (V * A) := by
    rw [← eVA, show 2 * k + 1 + 1 - (p : ℤ) = 2 * k + 1 - p + 1 by ring, zpow_add₀ (by norm_num), zpow_one]; ring
  rw [eAA] at hk1
  rw [eAA2] at hk2
  have hp2 : (2 : ℤ) ^ p = 2 * 2 ^ (p - 1) := by
    rw [← pow_succ']; congr 1; omega
  have hpp : (0 : ℤ) < 2 ^ (p - 1) := by positivity
  have gA : GridBin p emin A := by
    rw [eA]
    exact mult_grid hp hke hpp.le (by rw [hp2]; linarith)
  have gA2 : GridBin p emin (2 * A) := by
    have : 2 * A = ((2 * 2 ^ (p - 1) : ℤ) : ℚ) * V := by rw [eA]; push_cast; ring
    rw [this]
    exact mult_grid hp hke (by linarith) (by rw [hp2])
  have hsA : ∀ y : ℚ, A ^ 2 ≤ y → (A : ℝ) ≤ √(y : ℝ) := by
    intro y hy
    apply Real.le_sqrt_of_sq_le
    exact_mod_cast hy
  have hT1 : A ≤ T := by
    have := near_ge (nt A gA) (hsA t hk1)
    exact_mod_cast this
  have hsA2 : √(t : ℝ) ≤ ((2 * A : ℚ) : ℝ) := by
    apply Real.sqrt_le_iff.2
    refine ⟨by exact_mod_cast (by positivity), ?_⟩
    have : t ≤ (2 * A) ^ 2 := by nlinarith
    exact_mod_cast this
  have hT2 : T ≤ 2 * A := by
    have := near_le (nt _ gA2) hsA2
    exact_mod_cast this
  -- if the exact product is large enough nothing is to be shown
  have g2t : GridBin p emin (2 * t) := by
    obtain ⟨m, e, hm, he, rfl⟩ := ht
    refine ⟨m, e + 1, hm, by omega, ?_⟩
    rw [zpow_add₀ (by norm_num), zpow_one]; ring
  have big : t ≤ T * N → 2 * t ≤ rndBin p emin (2 * T * N) := by
    intro h
    have := rndBin_mono (emin := emin) hp (show 2 * t ≤ 2 * T * N by linarith)
    rwa [rndBin_id g2t] at this
  rcases eq_or_lt_of_le hk1 with hk1 | hk1
  · apply big
    rw [← hk1]
    nlinarith
  rcases le_or_gt (2 * A) T with hT3 | hT3
  · apply big
    nlinarith
  obtain ⟨a, ha⟩ := grid_mult gT (k := k) hT1
  obtain ⟨b, hb⟩ := grid_mult gN (k := k) (hT1.trans hTN)
  have haV : T = a * V := ha
  have hbV : N = b * V := hb
  have ha0 : 0 ≤ a := by
    have : (0 : ℚ) < a * V := by rw [← haV]; linarith
    have := pos_of_mul_pos_left this hV0.le
    exact_mod_cast this.le
  have ha1 : a + 1 ≤ 2 ^ p := by
    have h1 : (a : ℚ) * V < ((2 * 2 ^ (p - 1) : ℤ) : ℚ) * V := by
      rw [← haV]
      push_cast at eA ⊢
      rw [eA] at hT3
      linarith
    have h2 := lt_of_mul_lt_mul_right h1 hV0.le
    have h3 : a < 2 * 2 ^ (p - 1) := by exact_mod_cast h2
    rw [hp2]
    omega
  have gU : GridBin p emin (T + V) := by
    have : T + V = ((a + 1 : ℤ) : ℚ) * V := by rw [haV]; push_cast; ring
    rw [this]
    exact mult_grid hp hke (by omega) ha1
  have hup : √(t : ℝ) ≤ (T : ℝ) + (V : ℝ) / 2 := by
    have := nt _ gU
    push_cast at this
    exact near_up (by exact_mod_cast hV0) this
  have hVA0 : 0 < V * A := mul_pos hV0 hA0
  have gap1 : t + V * A ≤ x := by
    have := grid_below (by omega) ht hx (k := 2 * k) (by rw [eAA]; linarith) htx
    rw [eVA] at this
    linarith
  have hb3 : ((t - V * A / 2 : ℚ) : ℝ) < ((T * N : ℚ) : ℝ) := by
    push_cast
    refine prod_bound (A := (A : ℝ)) (V := (V : ℝ)) (T := (T : ℝ)) (N := (N : ℝ)) (t := (t : ℝ)) (x := (x : ℝ)) (by exact_mod_cast hA0) (by exact_mod_cast hV0) ?_ (by exact_mod_cast hk1)
      (by exact_mod_cast hT1) hup ?_ (by exact_mod_cast htx) ?_ ?_
    · have : ((V : ℚ) : ℝ) ≤ ((A / 32 : ℚ) : ℝ) := by exact_mod_cast hVA
      push_cast at this
      exact this
    · by_cases hab : a + 1 ≤ b
      · left
        have : T + V ≤ N := by
          rw [haV, hbV]
          have : (a : ℚ) + 1 ≤ b := by exact_mod_cast hab
          nlinarith
        exact_mod_cast this
      · right
        have hba : N = T := by
          apply le_antisymm _ hTN
          rw [haV, hbV]
          have : (b : ℚ) ≤ a := by exact_mod_cast (by omega : b ≤ a)
          nlinarith
        refine ⟨by rw [hba], ?_⟩
        have h := nx _ gU
        push_cast at h
        rw [hba] at h
        exact near_up (by exact_mod_cast hV0) h
    · intro hc
      have hc' : t < 2 * A ^ 2 := by exact_mod_cast hc
      refine ⟨by exact_mod_cast gap1, ?_⟩
      by_contra hcon
      have hp3 : (2 : ℤ) ^ (p - 1) = 2 * 2 ^ (p - 2) := by rw [← pow_succ']; congr 1; omega
      have hp4 : (1 : ℤ) ≤ 2 ^ (p - 2) := one_le_pow₀ (by norm_num)
      have eg : 3 / 2 * A - V = ((3 * 2 ^ (p - 2) - 1 : ℤ) : ℚ) * V := by
        rw [eA, hp3]; push_cast; ring
      have gg : GridBin p emin (3 / 2 * A - V) := by
        rw [eg]
        exact mult_grid hp hke (by linarith) (by rw [hp2, hp3]; linarith)
      have hs : √(t : ℝ) ≤ ((3 / 2 * A - V : ℚ) : ℝ) := by
        apply Real.sqrt_le_iff.2
        constructor
        · have : (0 : ℚ) ≤ 3 / 2 * A - V := by linarith
          exact_mod_cast this
        · have : t ≤ (3 / 2 * A - V) ^ 2 := by nlinarith
          exact_mod_cast this
      have h1 := near_le (nt _ gg) hs
      push_cast at h1
      have hV' : (0 : ℝ) < V := by exact_mod_cast hV0
      linarith
    · intro hc
      have hc' : 2 * A ^ 2 ≤ t := by exact_mod_cast hc
      refine ⟨?_, by exact_mod_cast hT2⟩
      obtain ⟨b1, hb1⟩ := grid_mult ht (k := 2 * k + 1) (by rw [eAA1]; exact hc')
      obtain ⟨b2, hb2⟩ := grid_mult hx (k := 2 * k + 1) (by rw [eAA1]; linarith)
      have := mult_gap (two_zpow_pos _) hb1 hb2 htx
      rw [eVA2] at this
      have h3 : t + 2 * V * A ≤ x := by linarith
      exact_mod_cast h3
  have hb4 : t - V * A / 2 < T * N := by exact_mod_cast hb3
  by_contra hc
  have hc := not_le.1 hc
  have hP : T * N < t := by
    by_contra h
    exact absurd (big (not_lt.1 h)) (not_le.2 hc)
  have hgap := grid_below (by omega) (rndBin_grid hp (2 * T * N)) g2t (k := 2 * k + 1) (by rw [eAA1]; linarith) hc
  rw [eVA2] at hgap
  have hn := rndBin_nearest (emin := emin) hp (2 * T * N) g2t
  rw [abs_of_nonneg (by linarith : 0 ≤ 2 * t - 2 * T * N)] at hn
  have := (abs_le.1 hn).1
  linarith

end Verif
