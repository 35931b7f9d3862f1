import Verif.Lemmas.SqrtFl
import Verif.Model.EigenLDLT
import Verif.Num.RoundedBin
/-!
# Operations on `double` with error bounds
-/

namespace Verif
open FloatOps

/-- the numbers of type `double` -/
abbrev F64 := Fl Fmt.binary64

/-- the number `a` is finite and has the value `q` -/
def Val (a : F64) (q : ℚ) : Prop := ∃ h, a = .fin q h

theorem Val.unique {a : F64} {p q : ℚ} (h : Val a p) (h' : Val a q) : p = q := by
  obtain ⟨_, rfl⟩ := h
  obtain ⟨_, h'⟩ := h'
  injection h'

theorem Val.eq_of {a b : F64} {q : ℚ} (ha : Val a q) (hb : Val b q) : a = b := by
  obtain ⟨_, rfl⟩ := ha
  obtain ⟨_, rfl⟩ := hb
  rfl

theorem Val.finite {a : F64} {q : ℚ} (h : Val a q) : finite a = true := by
  obtain ⟨_, rfl⟩ := h; rfl

theorem Val.grid {a : F64} {q : ℚ} (h : Val a q) : GridBin 53 (-1074) q := by
  obtain ⟨h, -⟩ := h; exact h.1

theorem dbl_max : (10 : ℚ) ^ 308 ≤ Fmt.binary64.max := by decide +kernel

theorem val_of_le {q : ℚ} (h : |q| ≤ 10 ^ 308) : Val (Fl.mk q) (rndBin 53 (-1074) q) := by
  obtain ⟨h, e⟩ := Fl.mk_le (p := 53) (hp := by norm_num) (emin := -1074) (hem := by norm_num) (ep := 14073749 / 2 ^ 47) (q := q)
    (by have := h.trans dbl_max; exact_mod_cast this)
  exact ⟨h, e⟩

theorem dbl_err (q : ℚ) : |rndBin 53 (-1074) q - q| ≤ |q| / 2 ^ 53 + 1 / 2 ^ 1075 := by
  have h := rndBin_err (p := 53) (emin := -1074) q
  have e : (2 : ℚ) ^ (-1074 : ℤ) / 2 = 1 / 2 ^ 1075 := by
    rw [zpow_neg, show (1074 : ℤ) = ((1074 : ℕ) : ℤ) by norm_num, zpow_natCast, pow_succ _ 1074]
    field_simp
  rwa [e] at h

theorem Val.add {a b : F64} {p q : ℚ} (ha : Val a p) (hb : Val b q) (h : |p + q| ≤ 10 ^ 308) :
    ∃ y, Val (FloatOps.add a b) y ∧ |y - (p + q)| ≤ |p + q| / 2 ^ 53 := by
  refine ⟨_, ?_, rndBin_add_err ha.grid hb.grid⟩
  obtain ⟨_, rfl⟩ := ha
  obtain ⟨_, rfl⟩ := hb
  exact val_of_le h

theorem Val.sub {a b : F64} {p q : ℚ} (ha : Val a p) (hb : Val b q) (h : |p - q| ≤ 10 ^ 308) :
    ∃ y, Val (FloatOps.sub a b) y ∧ |y - (p - q)| ≤ |p - q| / 2 ^ 53 := by
  refine ⟨_, ?_, relOk_sub ha.grid hb.grid⟩
  obtain ⟨_, rfl⟩ := ha
  obtain ⟨_, rfl⟩ := hb
  exact val_of_le h

theorem Val.mul {a b : F64} {p q : ℚ} (ha : Val a p) (hb : Val b q) (h : |p * q| ≤ 10 ^ 308) :
    Val (FloatOps.mul a b) (rndBin 53 (-1074) (p * q)) := by
  obtain ⟨_, rfl⟩ := ha
  obtain ⟨_, rfl⟩ := hb
  exact val_of_le h

theorem Val.div {a b : F64} {p q : ℚ} (ha : Val a p) (hb : Val b q) (h0 : q ≠ 0) (h : |p / q| ≤ 10 ^ 308) :
    Val (FloatOps.div a b) (rndBin 53 (-1074) (p / q)) := by
  obtain ⟨_, rfl⟩ := ha
  obtain ⟨_, rfl⟩ := hb
  have := val_of_le h
  show Val (if q = 0 then Fl.infSign p else Fl.mk (p / q)) _
  rw [if_neg h0]; exact this

theorem Val.neg {a : F64} {p : ℚ} (ha : Val a p) : Val (FloatOps.neg a) (-p) := by
  obtain ⟨_, rfl⟩ := ha
  exact ⟨_, rfl⟩

theorem Val.lt {a b : F64} {p q : ℚ} (ha : Val a p) (hb : Val b q) : FloatOps.lt a b = decide (p < q) := by
  obtain ⟨_, rfl⟩ := ha
  obtain ⟨_, rfl⟩ := hb
  rfl

theorem val_zero : Val (ofInt 0) 0 := ⟨_, Fl.ofInt_zero⟩

theorem val_grid {q : ℚ} (hg : GridBin 53 (-1074) q) (h : |q| ≤ 10 ^ 308) : Val (Fl.mk q) q := by
  have := val_of_le h
  rwa [rndBin_id hg] at this

theorem val_one : Val (ofInt 1) 1 := by
  refine val_grid (q := 1) ⟨1, 0, by norm_num, by norm_num, by norm_num⟩ (by rw [abs_one]; exact one_le_pow₀ (by norm_num))

theorem Val.absF {a : F64} {p : ℚ} (ha : Val a p) : Val (Verif.absF a) |p| := by
  unfold Verif.absF
  rw [ha.lt val_zero]
  by_cases h : p < 0
  · simp only [h, decide_true, if_true]
    rw [abs_of_neg h]; exact ha.neg
  · simp only [h, decide_false, Bool.false_eq_true, if_false]
    rw [abs_of_nonneg (not_lt.1 h)]; exact ha

/-- adding and subtracting zero changes nothing -/
theorem Val.zero_add {a : F64} {p : ℚ} (ha : Val a p) : FloatOps.add (ofInt 0) a = a := by
  obtain ⟨h, rfl⟩ := ha
  rw [Fl.ofInt_zero]
  show Fl.mk (0 + p) = _
  rw [_root_.zero_add]
  unfold Fl.mk Fl.ofGrid
  have : Fmt.binary64.rnd p = p := Fmt.binary64.rnd_id _ h.1
  simp only [this]
  rw [dif_pos h.2]

theorem Val.sub_zero {a : F64} {p : ℚ} (ha : Val a p) : FloatOps.sub a (ofInt 0) = a := by
  obtain ⟨h, rfl⟩ := ha
  rw [Fl.ofInt_zero]
  show Fl.mk (p - 0) = _
  rw [_root_.sub_zero]
  unfold Fl.mk Fl.ofGrid
  have : Fmt.binary64.rnd p = p := Fmt.binary64.rnd_id _ h.1
  simp only [this]
  rw [dif_pos h.2]

theorem Val.one_mul {a : F64} {p : ℚ} (ha : Val a p) : FloatOps.mul (ofInt 1) a = a := by
  obtain ⟨h1, e1⟩ := val_one
  obtain ⟨h, rfl⟩ := ha
  rw [e1]
  show Fl.mk (1 * p) = _
  rw [_root_.one_mul]
  unfold Fl.mk Fl.ofGrid
  have : Fmt.binary64.rnd p = p := Fmt.binary64.rnd_id _ h.1
  simp only [this]
  rw [dif_pos h.2]

theorem rndBin64_mono {q r : ℚ} (h : q ≤ r) : rndBin 53 (-1074) q ≤ rndBin 53 (-1074) r := rndBin_mono (by norm_num) h

end Verif
