import Verif.Lemmas.SqrtNoise
import Verif.Props.NumDiffFloat
import Verif.Model.SqrtProb
import Mathlib.Analysis.SpecialFunctions.Pow.Real
/-!
# One Gauss-Newton step for a square root in IEEE floating point
-/

set_option linter.unusedSectionVars false

namespace Verif
open FloatOps

namespace SqrtNoise

theorem rel_of_err {r q A : ℝ} (hA : 0 ≤ A) (h : |r - q| ≤ |q| * A) : ∃ δ, |δ| ≤ A ∧ r = q * (1 + δ) := by
  rcases eq_or_ne q 0 with rfl | h0
  · rw [abs_zero, zero_mul, sub_zero, abs_nonpos_iff] at h
    exact ⟨0, by simpa using hA, by rw [h]; ring⟩
  · refine ⟨(r - q) / q, ?_, by field_simp; ring⟩
    rw [abs_div, div_le_iff₀ (abs_pos.mpr h0)]
    linarith

theorem relabs_of_err {r q A e : ℝ} (hA : 0 ≤ A) (he : 0 < e) (h : |r - q| ≤ |q| * A + e) : ∃ δ η, |δ| ≤ A ∧ |η| ≤ e ∧ r = q * (1 + δ) + η := by
  have hq := abs_nonneg q
  have hs : 0 < |q| * A + e := by positivity
  rcases eq_or_ne q 0 with rfl | h0
  · refine ⟨0, r, by simpa using hA, by simpa using h, by ring⟩
  have ht : |(r - q) / (|q| * A + e)| ≤ 1 := by
    rw [abs_div, abs_of_pos hs, div_le_one hs]; exact h
  refine ⟨(r - q) / (|q| * A + e) * A * (|q| / q), (r - q) / (|q| * A + e) * e, ?_, ?_, ?_⟩
  · rw [abs_mul, abs_mul, abs_div |q| q, abs_abs, div_self (abs_pos.mpr h0).ne', mul_one, abs_of_nonneg hA]
    exact mul_le_of_le_one_left hA ht
  · rw [abs_mul, abs_of_pos he]
    exact mul_le_of_le_one_left he.le ht
  · have e1 : q * (1 + (r - q) / (|q| * A + e) * A * (|q| / q)) + (r - q) / (|q| * A + e) * e
        = q + (r - q) / (|q| * A + e) * (|q| * A + e) := by field_simp; ring
    rw [e1, div_mul_cancel₀ _ hs.ne']; ring

end SqrtNoise

section
variable {p : ℕ} {hp : p ≠ 0} {emin : ℤ} {hem : emin ≤ -emin - 2 * p + 3} {ep : ℚ}

/-- no overflow up to the largest number -/
theorem Fl.mk_le {q : ℚ} (hle : |(q : ℝ)| ≤ ((Fmt.ieee p hp emin hem ep).max : ℝ)) :
    ∃ h, (Fl.mk q : Fl (Fmt.ieee p hp emin hem ep)) = .fin (rndBin p emin q) h := by
  have hle : |q| ≤ (Fmt.ieee p hp emin hem ep).max := by exact_mod_cast hle
  have hr : |(Fmt.ieee p hp emin hem ep).rnd q| ≤ (Fmt.ieee p hp emin hem ep).max := by
    have h1 := abs_le.mp hle
    have h2 := (Fmt.ieee p hp emin hem ep).rnd_mono _ _ h1.2
    have h3 := (Fmt.ieee p hp emin hem ep).rnd_mono _ _ h1.1
    rw [(Fmt.ieee p hp emin hem ep).rnd_id _ (Fmt.ieee p hp emin hem ep).grid_max] at h2
    rw [(Fmt.ieee p hp emin hem ep).rnd_neg, (Fmt.ieee p hp emin hem ep).rnd_id _ (Fmt.ieee p hp emin hem ep).grid_max] at h3
    exact abs_le.mpr ⟨h3, h2⟩
  refine ⟨⟨(Fmt.ieee p hp emin hem ep).rnd_grid _, hr⟩, ?_⟩
  unfold Fl.mk Fl.ofGrid
  rw [dif_pos hr]
  rfl

theorem rnd_err_real (q : ℚ) : |(rndBin p emin q : ℝ) - q| ≤ |(q : ℝ)| * (1 / 2 ^ p) + (2 : ℝ) ^ emin / 2 := by
  have h := rndBin_err (p := p) (emin := emin) q
  have h' : ((|rndBin p emin q - q| : ℚ) : ℝ) ≤ ((|q| / 2 ^ p + 2 ^ emin / 2 : ℚ) : ℝ) := by exact_mod_cast h
  push_cast at h'
  rw [mul_one_div]
  exact h'

theorem rnd_add_err_real {a b : ℚ} (ha : GridBin p emin a) (hb : GridBin p emin b) :
    |(rndBin p emin (a + b) : ℝ) - (a + b)| ≤ |(a + b : ℝ)| * (1 / 2 ^ p) := by
  have h := rndBin_add_err ha hb
  have h' : ((|rndBin p emin (a + b) - (a + b)| : ℚ) : ℝ) ≤ ((|a + b| / 2 ^ p : ℚ) : ℝ) := by exact_mod_cast h
  push_cast at h'
  rw [mul_one_div]
  exact h'

/-- a product that does not overflow -/
theorem Fl.mul_err {a b : ℚ} {ha hb} (h : |(a * b : ℝ)| ≤ ((Fmt.ieee p hp emin hem ep).max : ℝ)) :
    ∃ y hy, FloatOps.mul (.fin a ha : Fl (Fmt.ieee p hp emin hem ep)) (.fin b hb) = .fin y hy ∧
      |(y : ℝ) - a * b| ≤ |(a * b : ℝ)| * (1 / 2 ^ p) + (2 : ℝ) ^ emin / 2 := by
  obtain ⟨hy, ey⟩ := Fl.mk_le (hp := hp) (hem := hem) (ep := ep) (q := a * b) (by push_cast; exact h)
  have := rnd_err_real (p := p) (emin := emin) (a * b)
  push_cast at this
  exact ⟨_, hy, ey, this⟩

/-- a quotient that does not overflow -/
theorem Fl.div_err {a b : ℚ} {ha hb} (h0 : b ≠ 0) (h : |(a / b : ℝ)| ≤ ((Fmt.ieee p hp emin hem ep).max : ℝ)) :
    ∃ y hy, FloatOps.div (.fin a ha : Fl (Fmt.ieee p hp emin hem ep)) (.fin b hb) = .fin y hy ∧
      |(y : ℝ) - a / b| ≤ |(a / b : ℝ)| * (1 / 2 ^ p) + (2 : ℝ) ^ emin / 2 := by
  obtain ⟨hy, ey⟩ := Fl.mk_le (hp := hp) (hem := hem) (ep := ep) (q := a / b) (by push_cast; exact h)
  have := rnd_err_real (p := p) (emin := emin) (a / b)
  push_cast at this
  refine ⟨_, hy, ?_, this⟩
  show (if b = 0 then Fl.infSign a else Fl.mk (a / b)) = _
  rw [if_neg h0]; exact ey

/-- a sum that does not overflow -/
theorem Fl.add_err {a b : ℚ} {ha hb} (h : |(a + b : ℝ)| ≤ ((Fmt.ieee p hp emin hem ep).max : ℝ)) :
    ∃ y hy, FloatOps.add (.fin a ha : Fl (Fmt.ieee p hp emin hem ep)) (.fin b hb) = .fin y hy ∧ |(y : ℝ) - (a + b)| ≤ |(a + b : ℝ)| * (1 / 2 ^ p) := by
  obtain ⟨hy, ey⟩ := Fl.mk_le (hp := hp) (hem := hem) (ep := ep) (q := a + b) (by push_cast; exact h)
  exact ⟨_, hy, ey, rnd_add_err_real ha.1 hb.1⟩

/-- a difference that does not overflow -/
theorem Fl.sub_err {a b : ℚ} {ha hb} (h : |(a - b : ℝ)| ≤ ((Fmt.ieee p hp emin hem ep).max : ℝ)) :
    ∃ y hy, FloatOps.sub (.fin a ha : Fl (Fmt.ieee p hp emin hem ep)) (.fin b hb) = .fin y hy ∧ |(y : ℝ) - (a - b)| ≤ |(a - b : ℝ)| * (1 / 2 ^ p) := by
  obtain ⟨hy, ey⟩ := Fl.mk_le (hp := hp) (hem := hem) (ep := ep) (q := a - b) (by push_cast; exact h)
  have := rnd_add_err_real ha.1 (gridBin_neg hb.1)
  rw [← sub_eq_add_neg] at this
  push_cast at this
  rw [← sub_eq_add_neg] at this
  exact ⟨_, hy, ey, this⟩

theorem gridBin_two_mul {q : ℚ} (h : GridBin p emin q) : GridBin p emin (2 * q) := by
  obtain ⟨m, e, h1, h2, rfl⟩ := h
  refine ⟨m, e + 1, h1, by omega, ?_⟩
  rw [zpow_add_one₀ (by norm_num)]; ring

/-- doubling is exact -/
theorem Fl.two_mul (hem2 : emin ≤ -(2 * p)) {q : ℚ} {hq} (h : |(2 * q : ℝ)| ≤ ((Fmt.ieee p hp emin hem ep).max : ℝ)) :
    ∃ h', FloatOps.mul (ofInt 2) (.fin q hq : Fl (Fmt.ieee p hp emin hem ep)) = .fin (2 * q) h' := by
  have e := (ieee_hasTwo (hp := hp) (hem := hem) (ep := ep) (by omega)).two
  obtain ⟨hj, ej⟩ := Fl.mk_le (hp := hp) (hem := hem) (ep := ep) (q := 2 * q) (by push_cast; exact h)
  have ej1 : rndBin p emin (2 * q) = 2 * q := rndBin_id (gridBin_two_mul hq.1)
  rw [e]
  refine ⟨ej1 ▸ hj, ?_⟩
  show Fl.mk (2 * q) = _
  rw [ej]
  congr 1

end

/-- The number `aq` and its square are far from the limits of the format, and the format has enough digits. -/
structure SqrtFmt (p : ℕ) (hp : p ≠ 0) (emin : ℤ) (hem : emin ≤ -emin - 2 * p + 3) (ep : ℚ) (aq : ℚ) (N : ℕ) : Prop where
  pos : 0 < aq
  prec : 64 * (16 + 3 * N) ≤ 2 ^ p
  under : (2 : ℚ) ^ emin ≤ 1 / 2 ^ (2 * p)
  under2 : (2 : ℚ) ^ emin ≤ aq ^ 2 / 2 ^ (2 * p)
  over : 1024 ≤ (Fmt.ieee p hp emin hem ep).max
  over2 : 1024 * aq ^ 2 ≤ (Fmt.ieee p hp emin hem ep).max

section
variable {p : ℕ} {hp : p ≠ 0} {emin : ℤ} {hem : emin ≤ -emin - 2 * p + 3} {ep : ℚ} {aq : ℚ} {N : ℕ}

/-- the conditions in terms of the root -/
theorem SqrtFmt.real (h : SqrtFmt p hp emin hem ep aq N) {s : ℝ} (hs : 0 < s) (hsa : s ^ 2 = aq) :
    (1 / 2 ^ p : ℝ) ≤ 1 / 1024 ∧ (16 + 3 * (N : ℝ)) * (1 / 2 ^ p) ≤ 1 / 64 ∧ emin ≤ -(2 * p) ∧
    (∀ k ≤ 4, (2 : ℝ) ^ emin ≤ s ^ k * (1 / 2 ^ p) ^ 2) ∧ (∀ k ≤ 4, 1024 * s ^ k ≤ ((Fmt.ieee p hp emin hem ep).max : ℝ)) := by
  have h2 : (0 : ℝ) < 2 ^ p := by positivity
  have hprec : 64 * (16 + 3 * (N : ℝ)) ≤ 2 ^ p := by exact_mod_cast h.prec
  have hN : (0 : ℝ) ≤ N := Nat.cast_nonneg N
  have hu : (2 : ℝ) ^ emin ≤ (1 / 2 ^ p) ^ 2 := by
    have := h.under
    have h' : (((2 : ℚ) ^ emin : ℚ) : ℝ) ≤ ((1 / 2 ^ (2 * p) : ℚ) : ℝ) := by exact_mod_cast this
    push_cast at h'
    rwa [div_pow, one_pow, ← pow_mul, mul_comm p 2]
  have hu2 : (2 : ℝ) ^ emin ≤ s ^ 4 * (1 / 2 ^ p) ^ 2 := by
    have := h.under2
    have h' : (((2 : ℚ) ^ emin : ℚ) : ℝ) ≤ ((aq ^ 2 / 2 ^ (2 * p) : ℚ) : ℝ) := by exact_mod_cast this
    push_cast at h'
    rw [div_pow, one_pow, ← pow_mul, mul_comm p 2, mul_one_div, show s ^ 4 = (s ^ 2) ^ 2 by ring, hsa]
    exact h'
  have ho : (1024 : ℝ) ≤ ((Fmt.ieee p hp emin hem ep).max : ℝ) := by exact_mod_cast h.over
  have ho2 : 1024 * s ^ 4 ≤ ((Fmt.ieee p hp emin hem ep).max : ℝ) := by
    rw [show s ^ 4 = (s ^ 2) ^ 2 by ring, hsa]; exact_mod_cast h.over2
  refine ⟨?_, ?_, ?_, ?_, ?_⟩
  · rw [div_le_div_iff_of_pos_left one_pos h2 (by norm_num)]; linarith
  · rw [mul_one_div, div_le_div_iff₀ h2 (by norm_num)]; linarith
  · have h3 : (2 : ℚ) ^ emin ≤ 2 ^ (-(2 * p : ℤ)) := by
      rw [zpow_neg, ← one_div]
      exact_mod_cast h.under
    exact (zpow_le_zpow_iff_right₀ (by norm_num)).mp h3
  · intro k hk
    rcases le_total s 1 with h1 | h1
    · refine hu2.trans (mul_le_mul_of_nonneg_right (pow_le_pow_of_le_one hs.le h1 hk) (by positivity))
    · refine hu.trans (le_mul_of_one_le_left (by positivity) (one_le_pow₀ h1))
  · intro k hk
    rcases le_total s 1 with h1 | h1
    · exact (mul_le_of_le_one_right (by norm_num) (pow_le_one₀ hs.le h1)).trans ho
    · exact (mul_le_mul_of_nonneg_left (pow_le_pow_right₀ h1 hk) (by norm_num)).trans ho2

set_option maxHeartbeats 1000000 in
/-- All operations of one iteration, from a point between half and twice the root. -/
theorem sqrt_stepF (h : SqrtFmt p hp emin hem ep aq N) {s : ℝ} (hs : 0 < s) (hsa : s ^ 2 = aq) {a x : Fl (Fmt.ieee p hp emin hem ep)} {q : ℚ} {ha hq}
    (ea : a = .fin aq ha) (ex : x = .fin q hq) (h1 : 1 / 2 ≤ (q : ℝ) / s) (h2 : (q : ℝ) / s ≤ 2) :
    ∃ r hr H hH d hd x' hx' c hc dd hdd, sqrtRes a x = .fin r hr ∧ mul (mul (ofInt 2) x) (mul (ofInt 2) x) = .fin H hH ∧ 0 < H ∧
      sqrtStep a x = .fin d hd ∧ add x (.fin d hd) = .fin x' hx' ∧ mul (sqrtRes a x) (sqrtRes a x) = .fin c hc ∧
      mul (sqrtStep a x) (sqrtStep a x) = .fin dd hdd ∧
      |(c : ℝ) - r ^ 2| ≤ r ^ 2 * (1 / 2 ^ p) + (2 : ℝ) ^ emin / 2 ∧ c < (Fmt.ieee p hp emin hem ep).max ∧
      SqrtNoise.Noisy (1 / 2 ^ p) (q / s) (r / s ^ 2) (d / s) (x' / s) := by
  obtain ⟨u1, -, hem2, hE, hM⟩ := h.real hs hsa
  set u : ℝ := 1 / 2 ^ p with hu
  set E : ℝ := (2 : ℝ) ^ emin with hEdef
  set M : ℝ := ((Fmt.ieee p hp emin hem ep).max : ℝ) with hMdef
  have u0 : 0 < u := by positivity
  have E0 : 0 < E := by positivity
  have M1 : 1024 * s ≤ M := by simpa using hM 1 (by norm_num)
  have M2 := hM 2 (by norm_num)
  have M3 := hM 3 (by norm_num)
  have M4 := hM 4 le_rfl
  have E1 : E ≤ s * u ^ 2 := by simpa using hE 1 (by norm_num)
  have E2 := hE 2 (by norm_num)
  have E3 := hE 3 (by norm_num)
  have E4 := hE 4 le_rfl
  have huu : u ^ 2 ≤ u / 1024 := by nlinarith
  have s2 : 0 < s ^ 2 := by positivity
  have s3 : 0 < s ^ 3 := by positivity
  have s4 : 0 < s ^ 4 := by positivity
  have e1 : E ≤ s * (u / 1024) := E1.trans (mul_le_mul_of_nonneg_left huu hs.le)
  have e2 : E ≤ s ^ 2 * (u / 1024) := E2.trans (mul_le_mul_of_nonneg_left huu s2.le)
  have e3 : E ≤ s ^ 3 * (u / 1024) := E3.trans (mul_le_mul_of_nonneg_left huu s3.le)
  have e4 : E ≤ s ^ 4 * (u / 1024) := E4.trans (mul_le_mul_of_nonneg_left huu s4.le)
  set X : ℝ := (q : ℝ) / s with hX
  have eq1 : (q : ℝ) = s * X := by rw [hX]; field_simp
  have X0 : 0 < X := by linarith
  have Xsq : X ^ 2 ≤ 4 := by nlinarith
  have Xsq' : 1 / 4 ≤ X ^ 2 := by nlinarith
  subst ea ex
  -- the square
  have b1 : |(q * q : ℝ)| ≤ M := by
    rw [eq1, show s * X * (s * X) = s ^ 2 * X ^ 2 by ring, abs_of_nonneg (by positivity)]
    have := mul_le_mul_of_nonneg_left Xsq s2.le
    linarith
  obtain ⟨y, hy, ey, ey1⟩ := Fl.mul_err (ha := hq) (hb := hq) b1
  obtain ⟨δ1, hδ1, ed1⟩ : ∃ δ, |δ| ≤ 17 / 16 * u ∧ (y : ℝ) = (q * q : ℝ) * (1 + δ) := by
    refine SqrtNoise.rel_of_err (by positivity) (ey1.trans ?_)
    rw [eq1, show s * X * (s * X) = s ^ 2 * X ^ 2 by ring, abs_of_nonneg (by positivity)]
    have : s ^ 2 * (1 / 4) ≤ s ^ 2 * X ^ 2 := mul_le_mul_of_nonneg_left Xsq' s2.le
    have := mul_le_mul_of_nonneg_right this u0.le
    linarith
  -- the residual
  have hδ1' := abs_le.mp hδ1
  have eyr : (y : ℝ) = s ^ 2 * (X ^ 2 * (1 + δ1)) := by rw [ed1, eq1]; ring
  have hT : |X ^ 2 * (1 + δ1) - 1| ≤ 302 / 100 := by
    have : X ^ 2 * (1 + δ1) ≤ 4 * (1 + 17 / 16 / 1024) := mul_le_mul Xsq (by linarith) (by linarith) (by norm_num)
    have : 0 ≤ X ^ 2 * (1 + δ1) := mul_nonneg (by positivity) (by linarith)
    rw [abs_le]; constructor <;> linarith
  have b2 : |(y - aq : ℝ)| ≤ M := by
    rw [eyr, ← hsa, show s ^ 2 * (X ^ 2 * (1 + δ1)) - s ^ 2 = s ^ 2 * (X ^ 2 * (1 + δ1) - 1) by ring, abs_mul, abs_of_pos s2]
    have := mul_le_mul_of_nonneg_left hT s2.le
    linarith
  obtain ⟨r, hr, er, er1⟩ := Fl.sub_err (ha := hy) (hb := ha) b2
  obtain ⟨δ2, hδ2, ed2⟩ := SqrtNoise.rel_of_err u0.le er1
  have hδ2' := abs_le.mp hδ2
  have err : (r : ℝ) = s ^ 2 * ((X ^ 2 * (1 + δ1) - 1) * (1 + δ2)) := by rw [ed2, eyr, ← hsa]; ring
  have hR : |(X ^ 2 * (1 + δ1) - 1) * (1 + δ2)| ≤ 31 / 10 := by
    rw [abs_mul]
    have : |1 + δ2| ≤ 1025 / 1024 := by rw [abs_le]; constructor <;> linarith
    calc _ ≤ 302 / 100 * (1025 / 1024) := mul_le_mul hT this (abs_nonneg _) (by norm_num)
      _ ≤ 31 / 10 := by norm_num
  have hrs : sqrtRes (.fin aq ha) (.fin q hq) = (.fin r hr : Fl (Fmt.ieee p hp emin hem ep)) := by
    unfold sqrtRes
    rw [ey]; exact er
  generalize hRdef : (X ^ 2 * (1 + δ1) - 1) * (1 + δ2) = R at *
  -- the derivative
  have b3 : |(2 * q : ℝ)| ≤ M := by
    rw [eq1, abs_of_pos (by positivity)]
    have := mul_le_mul_of_nonneg_left h2 hs.le
    linarith
  obtain ⟨hj, ej⟩ := Fl.two_mul hem2 (hq := hq) b3
  -- gradient
  have b4 : |(((2 * q : ℚ) : ℝ) * r : ℝ)| ≤ 124 / 10 * s ^ 3 := by
    push_cast
    rw [err, eq1, show 2 * (s * X) * (s ^ 2 * R) = s ^ 3 * (2 * X * R) by ring, abs_mul, abs_of_pos s3, abs_mul, abs_of_pos (by positivity : (0 : ℝ) < 2 * X)]
    have : 2 * X * |R| ≤ 4 * (31 / 10) := mul_le_mul (by linarith) hR (abs_nonneg _) (by norm_num)
    have := mul_le_mul_of_nonneg_left this s3.le
    linarith
  obtain ⟨g, hg, eg, eg1⟩ := Fl.mul_err (ha := hj) (hb := hr) (b4.trans (by linarith) : _ ≤ M)
  obtain ⟨δ3, η3, hδ3, hη3, ed3⟩ := SqrtNoise.relabs_of_err u0.le (by positivity : 0 < E / 2) eg1
  have b4' : |(g : ℝ)| ≤ 13 * s ^ 3 := by
    rw [ed3]
    refine (abs_add_le _ _).trans ?_
    rw [abs_mul]
    have hd := abs_le.mp hδ3
    have : |1 + δ3| ≤ 1025 / 1024 := by rw [abs_le]; constructor <;> linarith
    have := mul_le_mul b4 this (abs_nonneg _) (by positivity)
    have : s ^ 3 * (u / 1024) ≤ s ^ 3 * (1 / 1024) := mul_le_mul_of_nonneg_left (by linarith) s3.le
    linarith
  -- Hessian
  have e5 : (((2 * q : ℚ) : ℝ) * ((2 * q : ℚ) : ℝ)) = s ^ 2 * (4 * X ^ 2) := by push_cast; rw [eq1]; ring
  have b5 : |(((2 * q : ℚ) : ℝ) * ((2 * q : ℚ) : ℝ))| ≤ M := by
    rw [e5, abs_of_nonneg (by positivity)]
    have := mul_le_mul_of_nonneg_left Xsq s2.le
    linarith
  obtain ⟨H, hH, eH, eH1⟩ := Fl.mul_err (ha := hj) (hb := hj) b5
  rw [e5] at eH1
  obtain ⟨δ4, hδ4, ed4⟩ : ∃ δ, |δ| ≤ 17 / 16 * u ∧ (H : ℝ) = s ^ 2 * (4 * X ^ 2) * (1 + δ) := by
    refine SqrtNoise.rel_of_err (by positivity) (eH1.trans ?_)
    rw [abs_of_nonneg (by positivity)]
    have : s ^ 2 * (4 * (1 / 4)) ≤ s ^ 2 * (4 * X ^ 2) := mul_le_mul_of_nonneg_left (by linarith) s2.le
    have := mul_le_mul_of_nonneg_right this u0.le
    linarith
  have hδ4' := abs_le.mp hδ4
  have b5' : s ^ 2 * (99 / 100) ≤ (H : ℝ) := by
    rw [ed4, mul_assoc]
    refine mul_le_mul_of_nonneg_left ?_ s2.le
    calc (99 / 100 : ℝ) ≤ 1 * (99 / 100) := by norm_num
      _ ≤ 4 * X ^ 2 * (1 + δ4) := mul_le_mul (by linarith) (by linarith) (by norm_num) (by positivity)
  have H0 : (0 : ℝ) < H := by linarith
  have H0' : (0 : ℚ) < H := by exact_mod_cast H0
  -- step
  have b6 : |(((-g : ℚ) : ℝ) / H)| ≤ 14 * s := by
    push_cast
    rw [abs_div, abs_neg, abs_of_pos H0, div_le_iff₀ H0]
    have : 14 * s * (s ^ 2 * (99 / 100)) ≤ 14 * s * H := mul_le_mul_of_nonneg_left b5' (by positivity)
    linarith
  obtain ⟨d, hd, edd, edd1⟩ := Fl.div_err (ha := ⟨gridBin_neg hg.1, by rw [abs_neg]; exact hg.2⟩) (hb := hH) H0'.ne' (b6.trans (by linarith) : _ ≤ M)
  obtain ⟨δ5, η5, hδ5, hη5, ed5⟩ := SqrtNoise.relabs_of_err u0.le (by positivity : 0 < E / 2) edd1
  have b6' : |(d : ℝ)| ≤ 15 * s := by
    rw [ed5]
    refine (abs_add_le _ _).trans ?_
    rw [abs_mul]
    have hd := abs_le.mp hδ5
    have : |1 + δ5| ≤ 1025 / 1024 := by rw [abs_le]; constructor <;> linarith
    have := mul_le_mul b6 this (abs_nonneg _) (by positivity)
    have : s * (u / 1024) ≤ s * (1 / 1024) := mul_le_mul_of_nonneg_left (by linarith) hs.le
    linarith
  have eds : sqrtStep (.fin aq ha) (.fin q hq) = (.fin d hd : Fl (Fmt.ieee p hp emin hem ep)) := by
    unfold sqrtStep
    rw [hrs, ej, eg, eH]
    exact edd
  -- update
  have b7 : |(q + d : ℝ)| ≤ M := by
    refine (abs_add_le _ _).trans ?_
    rw [eq1, abs_of_pos (by positivity : 0 < s * X)]
    have : s * X ≤ s * 2 := mul_le_mul_of_nonneg_left h2 hs.le
    linarith
  obtain ⟨x', hx', ex', ex1⟩ := Fl.add_err (ha := hq) (hb := hd) b7
  obtain ⟨δ6, hδ6, ed6⟩ := SqrtNoise.rel_of_err u0.le ex1
  -- cost
  have hrr : (r * r : ℝ) ≤ 961 / 100 * s ^ 4 := by
    rw [err, show s ^ 2 * R * (s ^ 2 * R) = R ^ 2 * s ^ 4 by ring]
    refine mul_le_mul_of_nonneg_right ?_ s4.le
    rw [← sq_abs]
    calc |R| ^ 2 ≤ (31 / 10) ^ 2 := pow_le_pow_left₀ (abs_nonneg _) hR 2
      _ = 961 / 100 := by norm_num
  have b8 : |(r * r : ℝ)| ≤ M := by
    rw [abs_of_nonneg (mul_self_nonneg _)]
    linarith
  obtain ⟨c, hc, ec, ec1⟩ := Fl.mul_err (ha := hr) (hb := hr) b8
  rw [abs_of_nonneg (mul_self_nonneg (r : ℝ))] at ec1
  -- squared norm
  have b9 : |(d * d : ℝ)| ≤ M := by
    rw [abs_mul]
    have := mul_le_mul b6' b6' (abs_nonneg _) (by positivity)
    linarith
  obtain ⟨dd, hdd, edd2, -⟩ := Fl.mul_err (ha := hd) (hb := hd) b9
  have u16 : u ≤ 17 / 16 * u := by linarith
  refine ⟨r, hr, H, hH, d, hd, x', hx', c, hc, dd, hdd, hrs, ?_, H0', eds, ex', ?_, ?_, ?_, ?_, ?_⟩
  · rw [ej]; exact eH
  · rw [hrs]; exact ec
  · rw [eds]; exact edd2
  · rw [sq]; exact ec1
  · have h1 := abs_le.mp ec1
    have h2 : (r * r : ℝ) * u ≤ 961 / 100 * s ^ 4 * 1 := mul_le_mul hrr (by linarith) u0.le (by positivity)
    have h3 : s ^ 4 * (u / 1024) ≤ s ^ 4 * 1 := mul_le_mul_of_nonneg_left (by linarith) s4.le
    have : (c : ℝ) < M := by linarith
    rw [hMdef] at this
    exact_mod_cast this
  · refine ⟨u0.le, u1, ⟨δ1, δ2, hδ1, hδ2.trans u16, ?_⟩, ⟨δ3, δ4, δ5, η3 / s ^ 3, η5 / s, hδ3.trans u16, hδ4, hδ5.trans u16, ?_, ?_, ?_⟩,
      ⟨δ6, hδ6.trans u16, ?_⟩⟩
    · rw [err, hRdef]; field_simp
    · rw [abs_div, abs_of_pos s3, div_le_iff₀ s3]
      have : s ^ 3 * (u / 1024) ≤ s ^ 3 * (u / 16) := mul_le_mul_of_nonneg_left (by linarith) s3.le
      linarith
    · rw [abs_div, abs_of_pos hs, div_le_iff₀ hs]
      have : s * (u / 1024) ≤ s * (u / 16) := mul_le_mul_of_nonneg_left (by linarith) hs.le
      linarith
    · have h4 : (1 + δ4) ≠ 0 := by linarith
      rw [ed5, ed4]
      push_cast
      rw [ed3]
      push_cast
      rw [eq1, err]
      have := X0.ne'
      field_simp
    · rw [ed6, eq1]
      field_simp
end

end Verif
