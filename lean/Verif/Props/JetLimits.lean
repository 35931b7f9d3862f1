import Verif.Model.JetLimits
import Mathlib.Tactic.NormNum
import Mathlib.Tactic.Linarith
import Mathlib.Tactic.NormNum.Pow
/-!
# C101: the numeric limits of jets

The requirements on `std::numeric_limits` of a binary floating-point type are those of the C++ standard ([numeric.limits.members]), written for the numbers themselves.
-/

namespace Verif.Limits

/-- What the C++ standard says of the members for a floating-point type; `v` reads the number off a value. -/
structure Standard {T : Type} (v : T → ℚ) (L : NumLimits T) : Prop where
  radix : L.radix = 2
  flags : L.isSigned = true ∧ L.isInteger = false ∧ L.isExact = false ∧ L.isBounded = true
  /-- the smallest normal number -/
  min : v L.min = 2 ^ (L.minExponent - 1)
  /-- the largest number -/
  max : v L.max = (1 - 2 ^ (-L.digits)) * 2 ^ L.maxExponent
  lowest : v L.lowest = -v L.max
  epsilon : v L.epsilon = 2 ^ (1 - L.digits)
  denormMin : v L.denormMin = 2 ^ (L.minExponent - L.digits)
  /-- the number of decimal digits that survive -/
  digits10 : (10 : ℚ) ^ L.digits10 ≤ 2 ^ (L.digits - 1) ∧ (2 : ℚ) ^ (L.digits - 1) < 10 ^ (L.digits10 + 1)
  /-- the number of decimal digits that distinguish all numbers -/
  maxDigits10 : (2 : ℚ) ^ L.digits ≤ 10 ^ (L.maxDigits10 - 1) ∧ (10 : ℚ) ^ (L.maxDigits10 - 2) < 2 ^ L.digits
  /-- the largest power of ten that is a finite number -/
  maxExponent10 : (10 : ℚ) ^ L.maxExponent10 ≤ v L.max ∧ v L.max < 10 ^ (L.maxExponent10 + 1)

/-- The clause on `min_exponent10`: the smallest power of ten that is a normal number. -/
def StandardMin10 {T : Type} (v : T → ℚ) (L : NumLimits T) : Prop := v L.min ≤ (10 : ℚ) ^ L.minExponent10 ∧ (10 : ℚ) ^ (L.minExponent10 - 1) < v L.min

variable {T : Type} [Zero T]

theorem nest_fields (L : NumLimits T) (l : List Nat) : (nestLimits L l).radix = L.radix ∧ (nestLimits L l).digits = L.digits ∧ (nestLimits L l).digits10 = L.digits10 ∧
    (nestLimits L l).maxDigits10 = L.maxDigits10 ∧ (nestLimits L l).minExponent = L.minExponent ∧ (nestLimits L l).maxExponent = L.maxExponent ∧
    (nestLimits L l).maxExponent10 = L.maxExponent10 ∧ (nestLimits L l).isSigned = L.isSigned ∧ (nestLimits L l).isInteger = L.isInteger ∧
    (nestLimits L l).isExact = L.isExact ∧ (nestLimits L l).isBounded = L.isBounded := by
  induction l with
  | nil => simp [nestLimits]
  | cons N l ih => exact ih

theorem nest_values (L : NumLimits T) (l : List Nat) : base l (nestLimits L l).min = L.min ∧ base l (nestLimits L l).max = L.max ∧ base l (nestLimits L l).lowest = L.lowest ∧
    base l (nestLimits L l).epsilon = L.epsilon ∧ base l (nestLimits L l).denormMin = L.denormMin := by
  induction l with
  | nil => exact ⟨rfl, rfl, rfl, rfl, rfl⟩
  | cons N l ih => exact ih

theorem nest_min10 (L : NumLimits T) (l : List Nat) (hl : l ≠ []) : (nestLimits L l).minExponent10 = L.maxExponent10 := by
  cases l with
  | nil => exact absurd rfl hl
  | cons N l => exact (nest_fields L l).2.2.2.2.2.2.1

/-- **C101**, all clauses but one: for jets, and jets of jets, over a type that satisfies the standard, the limits satisfy it, and the constants have no derivatives. -/
theorem C101_standard_partial {v : T → ℚ} {L : NumLimits T} (h : Standard v L) (l : List Nat) : Standard (fun a => v (base l a)) (nestLimits L l) ∧
    NoDerivs l (nestLimits L l).min ∧ NoDerivs l (nestLimits L l).max ∧ NoDerivs l (nestLimits L l).lowest ∧ NoDerivs l (nestLimits L l).epsilon ∧
    NoDerivs l (nestLimits L l).denormMin := by
  obtain ⟨f1, f2, f3, f4, f5, f6, f7, f8, f9, f10, f11⟩ := nest_fields L l
  obtain ⟨v1, v2, v3, v4, v5⟩ := nest_values L l
  refine ⟨⟨by rw [f1]; exact h.radix, by rw [f8, f9, f10, f11]; exact h.flags, by rw [v1, f5]; exact h.min, by rw [v2, f2, f6]; exact h.max,
    by rw [v3, v2]; exact h.lowest, by rw [v4, f2]; exact h.epsilon, by rw [v5, f5, f2]; exact h.denormMin, by rw [f2, f3]; exact h.digits10,
    by rw [f2, f4]; exact h.maxDigits10, by rw [v2, f7]; exact h.maxExponent10⟩, ?_⟩
  clear f1 f2 f3 f4 f5 f6 f7 f8 f9 f10 f11 v1 v2 v3 v4 v5
  induction l with
  | nil => exact ⟨trivial, trivial, trivial, trivial, trivial⟩
  | cons N l ih => exact ⟨⟨ih.1, fun _ => rfl⟩, ⟨ih.2.1, fun _ => rfl⟩, ⟨ih.2.2.1, fun _ => rfl⟩, ⟨ih.2.2.2.1, fun _ => rfl⟩, ⟨ih.2.2.2.2, fun _ => rfl⟩⟩

/-- **C101**, the exception: `min_exponent10` is that of the largest power of ten, so the clause on it fails for every jet type whose scalar type has a smallest normal
number below one. -/
theorem C101_min_exponent10_wrong {v : T → ℚ} {L : NumLimits T} (h : Standard v L) (h0 : L.minExponent ≤ 0) (h1 : 1 ≤ L.maxExponent10) {l : List Nat} (hl : l ≠ []) :
    (nestLimits L l).minExponent10 = (nestLimits L l).maxExponent10 ∧ ¬StandardMin10 (fun a => v (base l a)) (nestLimits L l) := by
  refine ⟨by rw [nest_min10 L l hl, (nest_fields L l).2.2.2.2.2.2.1], fun hs => ?_⟩
  have h2 := hs.2
  simp only [nest_min10 L l hl, (nest_values L l).1, h.min] at h2
  have h3 : (2 : ℚ) ^ (L.minExponent - 1) ≤ 2 ^ (0 : ℤ) := zpow_le_zpow_right₀ (by norm_num) (by omega)
  have h4 : (10 : ℚ) ^ (0 : ℤ) ≤ 10 ^ (L.maxExponent10 - 1) := zpow_le_zpow_right₀ (by norm_num) (by omega)
  rw [zpow_zero] at h3 h4
  linarith

/-! ### The limits of `double` and `float` -/

/-- IEC 60559 binary64 -/
def limits64 : NumLimits ℚ where
  isSigned := true
  isInteger := false
  isExact := false
  hasInfinity := true
  hasQuietNaN := true
  isIec559 := true
  isBounded := true
  radix := 2
  digits := 53
  digits10 := 15
  maxDigits10 := 17
  minExponent := -1021
  minExponent10 := -307
  maxExponent := 1024
  maxExponent10 := 308
  min := 1 / 2 ^ 1022
  lowest := -((2 ^ 53 - 1) * 2 ^ 971)
  max := (2 ^ 53 - 1) * 2 ^ 971
  epsilon := 1 / 2 ^ 52
  denormMin := 1 / 2 ^ 1074

set_option exponentiation.threshold 2000 in
theorem limits64_standard : Standard id limits64 where
  radix := rfl
  flags := ⟨rfl, rfl, rfl, rfl⟩
  min := by simp only [limits64, id]; norm_num
  max := by simp only [limits64, id]; norm_num
  lowest := rfl
  epsilon := by simp only [limits64, id]; norm_num
  denormMin := by simp only [limits64, id]; norm_num
  digits10 := by simp only [limits64]; norm_num
  maxDigits10 := by simp only [limits64]; norm_num
  maxExponent10 := by simp only [limits64, id]; constructor <;> norm_num

set_option exponentiation.threshold 2000 in
/-- `double` itself satisfies the clause -/
theorem limits64_min10 : StandardMin10 id limits64 := by
  simp only [StandardMin10, limits64, id]
  constructor <;> norm_num

/-- so a jet of two derivatives, and a jet of such jets, over `double`: all clauses but that of `min_exponent10`, which is 308 -/
example : Standard (fun a => base [2] a) (nestLimits limits64 [2]) ∧ Standard (fun a => base [3, 2] a) (nestLimits limits64 [3, 2]) ∧
    (nestLimits limits64 [3, 2]).minExponent10 = 308 ∧ ¬StandardMin10 (fun a => base [2] a) (nestLimits limits64 [2]) :=
  ⟨(C101_standard_partial limits64_standard [2]).1, (C101_standard_partial limits64_standard [3, 2]).1, rfl,
    (C101_min_exponent10_wrong limits64_standard (by decide) (by decide) (by decide)).2⟩

end Verif.Limits
