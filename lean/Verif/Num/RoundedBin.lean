import Verif.Num.Round
import Verif.Num.Rounded
/-!
# IEEE arithmetic is arithmetic with a relative rounding error

`binRnd` is a rounding function of the kind of `Verif.Num.Rounded` with `u = 2^-p`, and the operations of `Fl (Fmt.ieee ..)` are those of `Rd binRnd` unless the result overflows or a
product or quotient underflows.
-/

namespace Verif

section
variable {p : ℕ} {emin : ℤ}

/-- the rounding of `q` has a small relative error: it does not underflow -/
def RelOk (p : ℕ) (emin : ℤ) (q : ℚ) : Prop := |rndBin p emin q - q| ≤ |q| / 2 ^ p

/-- normal numbers -/
theorem relOk_normal {q : ℚ} (h : emin ≤ Int.log 2 |q| - (p - 1)) : RelOk p emin q := by
  unfold RelOk
  rcases eq_or_ne q 0 with h0 | h0
  · rw [h0, rndBin_zero]; simp
  have hpos : 0 < |q| := abs_pos.mpr h0
  have hu : ulpExp p emin q = Int.log 2 |q| - (p - 1) := max_eq_right h
  refine (rndBin_half_ulp _).trans ?_
  have hlog := Int.zpow_log_le_self (b := 2) (by norm_num) hpos
  have e : (2 : ℚ) ^ ulpExp p emin q / 2 = 2 ^ Int.log 2 |q| / 2 ^ p := by
    rw [hu, zpow_sub₀ (by norm_num), zpow_sub₀ (by norm_num), zpow_one, zpow_natCast]; field_simp
  rw [e]
  exact div_le_div_of_nonneg_right (by exact_mod_cast hlog) (by positivity)

theorem relOk_add {a b : ℚ} (ha : GridBin p emin a) (hb : GridBin p emin b) : RelOk p emin (a + b) := rndBin_add_err ha hb

theorem relOk_sub {a b : ℚ} (ha : GridBin p emin a) (hb : GridBin p emin b) : RelOk p emin (a - b) := by
  rw [sub_eq_add_neg]; exact rndBin_add_err ha (gridBin_neg hb)

open Classical in
/-- Round to nearest even where that has a small relative error. Other numbers (results that underflow, irrational numbers) stay as they are. -/
noncomputable def binRnd (p : ℕ) (emin : ℤ) : Rnd ((2 : ℝ) ^ (-(p : ℤ))) where
  rnd x := if h : ∃ q : ℚ, (q : ℝ) = x ∧ RelOk p emin q then (rndBin p emin h.choose : ℝ) else x
  err x := by
    split
    · rename_i h
      have h1 := h.choose_spec.1
      have h2 := h.choose_spec.2
      generalize h.choose = q at h1 h2
      subst h1
      unfold RelOk at h2
      have h3 : ((|rndBin p emin q - q| : ℚ) : ℝ) ≤ ((|q| / 2 ^ p : ℚ) : ℝ) := by exact_mod_cast h2
      push_cast at h3
      rw [zpow_neg, zpow_natCast, inv_mul_eq_div]
      exact h3
    · rw [sub_self, abs_zero]; positivity

open Classical in
theorem binRnd_eq {q : ℚ} (h : RelOk p emin q) : (binRnd p emin).rnd (q : ℝ) = (rndBin p emin q : ℝ) := by
  have hex : ∃ q' : ℚ, (q' : ℝ) = (q : ℝ) ∧ RelOk p emin q' := ⟨q, rfl, h⟩
  show (if h : ∃ q' : ℚ, (q' : ℝ) = (q : ℝ) ∧ RelOk p emin q' then (rndBin p emin h.choose : ℝ) else (q : ℝ)) = _
  rw [dif_pos hex]
  have : hex.choose = q := by exact_mod_cast hex.choose_spec.1
  rw [this]

/-- numbers of the format are not changed -/
theorem binRnd_id {q : ℚ} (h : GridBin p emin q) : (binRnd p emin).rnd (q : ℝ) = q := by
  rw [binRnd_eq (by unfold RelOk; rw [rndBin_id h, sub_self, abs_zero]; positivity), rndBin_id h]

theorem binRnd_one (hp : p ≠ 0) (he : emin ≤ 0) : (binRnd p emin).rnd 1 = 1 := by
  have := binRnd_id (p := p) (emin := emin) (q := 1) ⟨1, 0, by simp only [abs_one]; exact one_lt_pow₀ (by norm_num) hp, he, by simp⟩
  exact_mod_cast this

end

/-! ### The operations -/

section
variable {p : ℕ} {hp : p ≠ 0} {emin : ℤ} {hem : emin ≤ -emin - 2 * p + 3} {eps : ℚ}

/-- the same number -/
def SameNum (a : Fl (Fmt.ieee p hp emin hem eps)) (b : Rd (binRnd p emin)) : Prop := ∃ q h, a = .fin q h ∧ (q : ℝ) = b.v

theorem mk_same {q : ℚ} (h : RelOk p emin q) (hf : FloatOps.finite (Fl.mk q : Fl (Fmt.ieee p hp emin hem eps)) = true) :
    SameNum (Fl.mk q : Fl (Fmt.ieee p hp emin hem eps)) ⟨(binRnd p emin).rnd (q : ℝ)⟩ := by
  obtain ⟨q', h', e⟩ := (Fl.finite_iff _).1 hf
  refine ⟨q', h', e, ?_⟩
  rw [binRnd_eq h]
  unfold Fl.mk Fl.ofGrid at e
  split at e
  · injection e with e
    rw [← e]; rfl
  · split at e <;> cases e

variable {a b : Fl (Fmt.ieee p hp emin hem eps)} {a' b' : Rd (binRnd p emin)}

theorem add_same (ha : SameNum a a') (hb : SameNum b b') (hf : FloatOps.finite (FloatOps.add a b) = true) : SameNum (FloatOps.add a b) (FloatOps.add a' b') := by
  obtain ⟨x, hx, rfl, ex⟩ := ha
  obtain ⟨y, hy, rfl, ey⟩ := hb
  have := mk_same (relOk_add hx.1 hy.1) hf
  push_cast at this
  rw [ex, ey] at this
  exact this

theorem sub_same (ha : SameNum a a') (hb : SameNum b b') (hf : FloatOps.finite (FloatOps.sub a b) = true) : SameNum (FloatOps.sub a b) (FloatOps.sub a' b') := by
  obtain ⟨x, hx, rfl, ex⟩ := ha
  obtain ⟨y, hy, rfl, ey⟩ := hb
  have := mk_same (relOk_sub hx.1 hy.1) hf
  push_cast at this
  rw [ex, ey] at this
  exact this

theorem mul_same {x y : ℚ} {hx hy} (ha : SameNum a a') (hb : SameNum b b') (ex : a = .fin x hx) (ey : b = .fin y hy) (hn : RelOk p emin (x * y))
    (hf : FloatOps.finite (FloatOps.mul a b) = true) : SameNum (FloatOps.mul a b) (FloatOps.mul a' b') := by
  obtain ⟨x', hx', e1, ex'⟩ := ha
  obtain ⟨y', hy', e2, ey'⟩ := hb
  subst ex ey
  injection e1 with e1
  injection e2 with e2
  subst e1 e2
  have := mk_same hn hf
  push_cast at this
  rw [ex', ey'] at this
  exact this

theorem div_same {x y : ℚ} {hx hy} (ha : SameNum a a') (hb : SameNum b b') (ex : a = .fin x hx) (ey : b = .fin y hy) (hn : RelOk p emin (x / y))
    (hf : FloatOps.finite (FloatOps.div a b) = true) : SameNum (FloatOps.div a b) (FloatOps.div a' b') := by
  obtain ⟨x', hx', e1, ex'⟩ := ha
  obtain ⟨y', hy', e2, ey'⟩ := hb
  subst ex ey
  injection e1 with e1
  injection e2 with e2
  subst e1 e2
  by_cases h0 : y = 0
  · exfalso
    have : FloatOps.div (Fl.fin x hx : Fl (Fmt.ieee p hp emin hem eps)) (.fin y hy) = Fl.infSign x := by
      show (if y = 0 then Fl.infSign x else Fl.mk (x / y)) = _
      rw [if_pos h0]
    rw [this] at hf
    unfold Fl.infSign at hf
    split at hf
    · cases hf
    · split at hf <;> cases hf
  · have hy0 : y ≠ 0 := h0
    have e : FloatOps.div (Fl.fin x hx : Fl (Fmt.ieee p hp emin hem eps)) (.fin y hy) = Fl.mk (x / y) := by
      show (if y = 0 then Fl.infSign x else Fl.mk (x / y)) = _
      rw [if_neg hy0]
    rw [e] at hf ⊢
    have := mk_same hn hf
    push_cast at this
    rw [ex', ey'] at this
    exact this

theorem neg_same (ha : SameNum a a') : SameNum (FloatOps.neg a) (FloatOps.neg a') := by
  obtain ⟨x, hx, rfl, ex⟩ := ha
  exact ⟨-x, _, rfl, by push_cast; rw [ex]; rfl⟩

theorem lt_same (ha : SameNum a a') (hb : SameNum b b') : FloatOps.lt a b = FloatOps.lt a' b' := by
  obtain ⟨x, hx, rfl, ex⟩ := ha
  obtain ⟨y, hy, rfl, ey⟩ := hb
  show decide (x < y) = decide (a'.v < b'.v)
  rw [← ex, ← ey]
  exact decide_eq_decide.2 (by exact_mod_cast Iff.rfl)

end
end Verif
