import Verif.Num.SignedZero
import Verif.Lemmas.Double
/-!
# C132: signed zeros
-/

namespace Verif
open FloatOps

namespace SFl
variable {f : Fmt}

theorem finite_num (a : SFl f) : finite a = finite a.num := rfl

theorem finite_iff' (a : SFl f) : finite a = true ↔ ∃ q h, a.num = .fin q h := by
  rw [finite_num, Fl.finite_iff]

theorem ofInt_num (n : ℤ) : (ofInt n : SFl f).num = ofInt n := rfl

end SFl

open SFl in
/-- **C132, the laws.** The laws of comparison and subtraction that the theorems about the optimizer use hold with signed zeros too. -/
theorem C132_laws (f : Fmt) : FloatLaws (SFl f) where
  lt_irrefl a := FloatLaws.lt_irrefl a.num
  lt_trans a b c := FloatLaws.lt_trans a.num b.num c.num
  lt_negtrans a b c := FloatLaws.lt_negtrans a.num b.num c.num
  sub_neg a b ha hb := by
    show Fl.lt (SFl.sub a b).num _ = _
    rw [num_sub]
    exact FloatLaws.sub_neg a.num b.num ha hb
  eq_spec a b := FloatLaws.eq_spec a.num b.num
  max_finite := FloatLaws.max_finite (F := Fl f)
  le_max a := FloatLaws.le_max a.num
  scalarMax_le a := FloatLaws.scalarMax_le a.num

instance (f : Fmt) : FloatLaws (SFl f) := C132_laws f

section
variable {f : Fmt}
open SFl (negz num sgn)

/-- **C132, the same numbers.** Forgetting the sign of zeros commutes with every operation, except with a division by `-0`: for all numbers, infinities and NaNs included, the result with signed zeros
is the result of the model with one zero, up to the sign of a zero; comparisons and classifications are the same. -/
theorem C132_same (h0 : f.sqrtq 0 = 0) (x y : SFl f) :
    (add x y).num = add x.num y.num ∧ (sub x y).num = sub x.num y.num ∧ (mul x y).num = mul x.num y.num ∧ (neg x).num = neg x.num ∧ (FloatOps.sqrt x).num = FloatOps.sqrt x.num ∧
      (cube x).num = cube x.num ∧ lt x y = lt x.num y.num ∧ FloatOps.eq x y = FloatOps.eq x.num y.num ∧ isNaN x = isNaN x.num ∧ isInf x = isInf x.num ∧
      (y ≠ negz → (div x y).num = div x.num y.num) :=
  ⟨SFl.num_add x y, SFl.num_sub x y, SFl.num_mul x y, SFl.num_neg x, SFl.num_sqrt h0 x, by
    show (SFl.mul (SFl.mul x x) x).num = _
    rw [SFl.num_mul, SFl.num_mul]; rfl, rfl, rfl, rfl, rfl, SFl.num_div x y⟩

end

namespace SFl
variable {f : Fmt}

theorem sgn_withSign (s : Bool) (a : Fl f) : sgn (withSign s a) = if isZ a then s else sgn (of a) := by
  unfold withSign
  cases h : isZ a <;> cases s <;> simp [sgn]
  cases a with
  | fin q hq => simp only [isZ, decide_eq_true_eq] at h; simp [h]
  | _ => simp [isZ] at h

theorem isNaN_mk (q : ℚ) : Fl.isNaN (Fl.mk q : Fl f) = false := by
  unfold Fl.mk Fl.ofGrid
  split
  · rfl
  · split <;> rfl

/-- the sign of a rounded number that is not zero -/
theorem sgn_mk {q : ℚ} (h : isZ (Fl.mk q : Fl f) = false) : sgn (of (Fl.mk q : Fl f)) = decide (q < 0) := by
  unfold Fl.mk Fl.ofGrid at *
  have h1 := fun h : 0 ≤ q => f.rnd_nonneg h
  have h2 := fun h : q ≤ 0 => f.rnd_nonpos h
  split
  next h' =>
    rw [dif_pos h'] at h
    simp only [isZ, decide_eq_false_iff_not] at h
    simp only [sgn, decide_eq_decide]
    constructor
    · intro h3; by_contra h4; exact absurd (h1 (not_lt.1 h4)) (not_le.2 h3)
    · intro h3; exact lt_of_le_of_ne (h2 h3.le) h
  next h' =>
    split
    next h3 =>
      simp only [sgn]
      symm
      rw [decide_eq_false_iff_not]
      intro h4; exact absurd (h2 h4.le) (not_le.2 h3)
    next h3 =>
      simp only [sgn]
      symm
      rw [decide_eq_true_eq]
      by_contra h4
      have h5 := le_antisymm (not_lt.1 h3) (h1 (not_lt.1 h4))
      exact h' (by rw [h5, abs_zero]; exact f.max_pos.le)

theorem isZ_mk_of {q : ℚ} (h : isZ (Fl.mk q : Fl f) = false) : q ≠ 0 := by
  rintro rfl
  have : (Fl.mk 0 : Fl f) = zeroFl := by
    unfold Fl.mk Fl.ofGrid zeroFl
    simp only [f.rnd_zero, abs_zero]
    rw [dif_pos f.max_pos.le]
  rw [this] at h
  simp [isZ, zeroFl] at h

theorem sgn_of_ne {x : SFl f} {q : ℚ} {h : f.Grid q ∧ |q| ≤ f.max} (hx : x.num = .fin q h) (hq : q ≠ 0) : sgn x = decide (q < 0) := by
  cases x with
  | negz =>
    simp only [num, zeroFl, Fl.fin.injEq] at hx
    exact absurd hx.symm hq
  | of a => obtain rfl : a = .fin q h := hx; rfl

theorem sgn_of_inf {x : SFl f} : (x.num = .pinf → sgn x = false) ∧ (x.num = .ninf → sgn x = true) := by
  cases x with
  | negz => exact ⟨fun h => by simp [num, zeroFl] at h, fun _ => rfl⟩
  | of a => exact ⟨fun h => by obtain rfl : a = _ := h; rfl, fun h => by obtain rfl : a = _ := h; rfl⟩

theorem xor_neg_mul {a b : ℚ} (ha : a ≠ 0) (hb : b ≠ 0) : decide (a * b < 0) = (decide (a < 0) != decide (b < 0)) := by
  rcases lt_or_gt_of_ne ha with h1 | h1 <;> rcases lt_or_gt_of_ne hb with h2 | h2
  · simp [h1, h2, (mul_pos_of_neg_of_neg h1 h2).le]
  · simp [h1, h2.le, mul_neg_of_neg_of_pos h1 h2]
  · simp [h1.le, h2, mul_neg_of_pos_of_neg h1 h2]
  · simp [not_lt.2 (le_of_lt h1), not_lt.2 (le_of_lt h2), not_lt.2 (le_of_lt (mul_pos h1 h2))]

theorem sgn_infSign {q : ℚ} (h : Fl.isNaN (Fl.infSign q : Fl f) = false) : q ≠ 0 ∧ isZ (Fl.infSign q : Fl f) = false ∧ sgn (of (Fl.infSign q : Fl f)) = decide (q < 0) := by
  unfold Fl.infSign at *
  rcases lt_trichotomy q 0 with h1 | rfl | h1
  · simp [h1, not_lt.2 h1.le, h1.ne, isZ, sgn]
  · simp [Fl.isNaN] at h
  · simp [h1, h1.le, h1.ne', isZ, sgn]

theorem sgn_mul {x y : SFl f} (h : isNaN (mul x y) = false) : sgn (mul x y) = (sgn x != sgn y) := by
  have h : Fl.isNaN (Fl.mul x.num y.num) = false := by rw [← num_mul]; exact h
  unfold mul
  rw [sgn_withSign]
  split
  · rfl
  next hz =>
    have hz := Bool.eq_false_iff.2 hz
    cases hx : x.num with
    | nan => rw [hx] at h; cases y.num <;> simp [Fl.mul, Fl.isNaN] at h
    | pinf =>
      rw [hx] at h hz
      rw [sgn_of_inf.1 hx]
      cases hy : y.num with
      | nan => rw [hy] at h; simp [Fl.mul, Fl.isNaN] at h
      | pinf => rw [sgn_of_inf.1 hy]; rfl
      | ninf => rw [sgn_of_inf.2 hy]; rfl
      | fin b hb =>
        rw [hy] at h
        obtain ⟨h1, h2, h3⟩ := sgn_infSign h
        rw [sgn_of_ne hy h1]
        exact h3.trans (by simp)
    | ninf =>
      rw [hx] at h hz
      rw [sgn_of_inf.2 hx]
      cases hy : y.num with
      | nan => rw [hy] at h; simp [Fl.mul, Fl.isNaN] at h
      | pinf => rw [sgn_of_inf.1 hy]; rfl
      | ninf => rw [sgn_of_inf.2 hy]; rfl
      | fin b hb =>
        rw [hy] at h
        obtain ⟨h1, h2, h3⟩ := sgn_infSign h
        have hb0 : b ≠ 0 := fun e => h1 (by rw [e, neg_zero])
        rw [sgn_of_ne hy hb0]
        refine h3.trans ?_
        rcases lt_or_gt_of_ne hb0 with h | h <;> simp [h, h.le]
    | fin a ha =>
      rw [hx] at h hz
      cases hy : y.num with
      | nan => rw [hy] at h; simp [Fl.mul, Fl.isNaN] at h
      | pinf =>
        rw [hy] at h
        obtain ⟨h1, h2, h3⟩ := sgn_infSign h
        rw [sgn_of_ne hx h1, sgn_of_inf.1 hy]
        exact h3.trans (by simp)
      | ninf =>
        rw [hy] at h
        obtain ⟨h1, h2, h3⟩ := sgn_infSign h
        have ha0 : a ≠ 0 := fun e => h1 (by rw [e, neg_zero])
        rw [sgn_of_ne hx ha0, sgn_of_inf.2 hy]
        refine h3.trans ?_
        rcases lt_or_gt_of_ne ha0 with h | h <;> simp [h, h.le]
      | fin b hb =>
        rw [hy] at hz
        have h1 := isZ_mk_of (q := a * b) hz
        rw [sgn_of_ne hx (left_ne_zero_of_mul h1), sgn_of_ne hy (right_ne_zero_of_mul h1), ← xor_neg_mul (left_ne_zero_of_mul h1) (right_ne_zero_of_mul h1)]
        exact sgn_mk hz

theorem sgn_neg {x : SFl f} (h : isNaN x = false) : sgn (neg x) = !sgn x := by
  unfold neg
  rw [sgn_withSign]
  split
  · rfl
  next hz =>
    cases x with
    | negz => rw [show (negz : SFl f).num = zeroFl from rfl, neg_zeroFl] at hz; simp [isZ, zeroFl] at hz
    | of a =>
      cases a with
      | nan => cases h
      | pinf => rfl
      | ninf => rfl
      | fin q hq =>
        simp only [num_of, Fl.neg, isZ, decide_eq_true_eq, neg_eq_zero] at hz
        simp only [num_of, Fl.neg, sgn]
        rcases lt_or_gt_of_ne hz with h | h <;> simp [h, h.le]

theorem sgn_add {x y : SFl f} (h : isNaN (add x y) = false) (hs : sgn x = sgn y) : sgn (add x y) = sgn x := by
  have h : Fl.isNaN (Fl.add x.num y.num) = false := by rw [← num_add]; exact h
  unfold add
  rw [sgn_withSign, ← hs, Bool.and_self]
  split
  · rfl
  next hz =>
    have hz := Bool.eq_false_iff.2 hz
    cases hx : x.num with
    | nan => rw [hx] at h; cases y.num <;> simp [Fl.add, Fl.isNaN] at h
    | pinf =>
      rw [hx] at h
      rw [sgn_of_inf.1 hx]
      cases hy : y.num <;> rw [hy] at h <;> simp [Fl.add, Fl.isNaN, sgn] at h ⊢
    | ninf =>
      rw [hx] at h
      rw [sgn_of_inf.2 hx]
      cases hy : y.num <;> rw [hy] at h <;> simp [Fl.add, Fl.isNaN, sgn] at h ⊢
    | fin a ha =>
      rw [hx] at h hz
      cases hy : y.num with
      | nan => rw [hy] at h; simp [Fl.add, Fl.isNaN] at h
      | pinf => rw [hs, sgn_of_inf.1 hy]; rfl
      | ninf => rw [hs, sgn_of_inf.2 hy]; rfl
      | fin b hb =>
        rw [hy] at hz
        have h1 := isZ_mk_of (q := a + b) hz
        refine (sgn_mk hz).trans ?_
        by_cases ha0 : a = 0
        · rw [ha0, zero_add, hs]
          rw [ha0, zero_add] at h1
          exact (sgn_of_ne hy h1).symm
        · rw [sgn_of_ne hx ha0]
          rw [sgn_of_ne hx ha0] at hs
          by_cases hb0 : b = 0
          · rw [hb0, add_zero]
          · rw [sgn_of_ne hy hb0, decide_eq_decide] at hs
            rw [decide_eq_decide]
            constructor
            · intro h3; by_contra h4
              exact absurd h3 (not_lt.2 (add_nonneg (not_lt.1 h4) (not_lt.1 fun h5 => h4 (hs.2 h5))))
            · intro h3; exact add_neg h3 (hs.1 h3)

theorem sgn_div {x y : SFl f} (h : isNaN (div x y) = false) : sgn (div x y) = (sgn x != sgn y) := by
  have key : ∀ b : Fl f, Fl.isNaN (Fl.div x.num b) = false → isZ (Fl.div x.num b) = false → sgn (of (Fl.div x.num b)) = (sgn x != sgn (of b)) := by
    intro b h hz
    cases hx : x.num with
    | nan => rw [hx] at h; cases b <;> simp [Fl.div, Fl.isNaN] at h
    | pinf =>
      rw [hx] at h
      rw [sgn_of_inf.1 hx]
      cases b with
      | fin b hb =>
        simp only [Fl.div]
        split <;> simp_all [sgn]
      | _ => simp [Fl.div, Fl.isNaN] at h
    | ninf =>
      rw [hx] at h
      rw [sgn_of_inf.2 hx]
      cases b with
      | fin b hb =>
        simp only [Fl.div]
        split <;> simp_all [sgn]
      | _ => simp [Fl.div, Fl.isNaN] at h
    | fin a ha =>
      rw [hx] at h hz
      cases b with
      | nan => simp [Fl.div, Fl.isNaN] at h
      | pinf => exact absurd rfl (isZ_mk_of (q := 0) hz)
      | ninf => exact absurd rfl (isZ_mk_of (q := 0) hz)
      | fin b hb =>
        simp only [Fl.div] at h hz ⊢
        split
        next hb0 =>
          rw [if_pos hb0] at h
          obtain ⟨h1, h2, h3⟩ := sgn_infSign h
          rw [sgn_of_ne hx h1, h3]
          simp [sgn, hb0]
        next hb0 =>
          rw [if_neg hb0] at hz
          have h1 := isZ_mk_of hz
          have ha0 : a ≠ 0 := fun e => h1 (by rw [e, zero_div])
          rw [sgn_mk hz, sgn_of_ne hx ha0, div_eq_mul_inv, xor_neg_mul ha0 (inv_ne_zero hb0)]
          simp [sgn]
  cases y with
  | of b =>
    have h : Fl.isNaN (Fl.div x.num b) = false := by
      have := h
      rwa [show isNaN (div x (of b)) = Fl.isNaN (div x (of b)).num from rfl, num_div _ _ (by simp)] at this
    show sgn (withSign _ _) = _
    rw [sgn_withSign]
    split
    · rfl
    next hz => exact key b h (Bool.eq_false_iff.2 hz)
  | negz =>
    have h : Fl.isNaN (Fl.neg (Fl.div x.num zeroFl)) = false := h
    have hn : Fl.isNaN (Fl.div x.num (zeroFl : Fl f)) = false := by cases hd : Fl.div x.num (zeroFl : Fl f) <;> simp_all [Fl.neg, Fl.isNaN]
    have hz : isZ (Fl.div x.num (zeroFl : Fl f)) = false := by
      cases hx : x.num with
      | fin a ha => 
        simp only [zeroFl, Fl.div, if_true, Fl.infSign]
        split
        · rfl
        · split <;> rfl
      | _ => rfl
    have h1 := key zeroFl hn hz
    have h2 := sgn_neg (x := of (Fl.div x.num zeroFl)) hn
    have h3 : neg (of (Fl.div x.num (zeroFl : Fl f))) = of (Fl.neg (Fl.div x.num zeroFl)) := by
      unfold neg withSign
      rw [num_of]
      have : isZ (Fl.neg (Fl.div x.num (zeroFl : Fl f))) = false := by
        cases hd : Fl.div x.num (zeroFl : Fl f) <;> simp_all [Fl.neg, isZ]
      rw [this]; rfl
    rw [h3, h1] at h2
    show sgn (of _) = _
    rw [h2]
    simp [sgn, zeroFl]

theorem ext_num {x y : SFl f} (h : x.num = y.num) (hs : sgn x = sgn y) : x = y := by
  cases x with
  | negz =>
    cases y with
    | negz => rfl
    | of b => obtain rfl : zeroFl = b := h; simp [sgn, zeroFl] at hs
  | of a =>
    cases y with
    | negz => obtain rfl : a = zeroFl := h; simp [sgn, zeroFl] at hs
    | of b => exact congrArg of h

end SFl

section
variable {f : Fmt}
open SFl (negz num sgn)

/-- **C132, the signs** (IEEE 754-2019, 6.3). Negation flips the sign; the sign of a product or quotient that is a number is the exclusive or of the signs, zeros and infinities included; a sum of two
numbers of the same sign has that sign; `x - x` is `+0` for every finite `x`, and adding `-0` changes nothing, not even a `-0`; the square root is negative only for `-0`, where it is `-0`. -/
theorem C132_signs (x y : SFl f) :
    (isNaN x = false → sgn (neg x) = !sgn x) ∧ (isNaN (mul x y) = false → sgn (mul x y) = (sgn x != sgn y)) ∧ (isNaN (div x y) = false → sgn (div x y) = (sgn x != sgn y)) ∧
      (isNaN (add x y) = false → sgn x = sgn y → sgn (add x y) = sgn x) ∧ (finite x = true → sub x x = ofInt 0) ∧ add x negz = x ∧ FloatOps.sqrt (negz : SFl f) = negz ∧ (sgn (FloatOps.sqrt x) = true → x = negz) := by
  refine ⟨SFl.sgn_neg, SFl.sgn_mul, SFl.sgn_div, SFl.sgn_add, fun h => ?_, ?_, rfl, fun h => ?_⟩
  · obtain ⟨q, hq, hx⟩ := (SFl.finite_iff' x).1 h
    have hn : isNaN x = false := by show Fl.isNaN x.num = false; rw [hx]; rfl
    have h1 : (sub x x).num = (ofInt 0 : Fl f) := by
      refine (SFl.num_sub x x).trans ?_
      rw [hx]
      show Fl.mk (q - q) = Fl.mk ((0 : ℤ) : ℚ)
      rw [sub_self, Int.cast_zero]
    refine SFl.ext_num h1 ?_
    have h2 : sgn (ofInt 0 : SFl f) = false := by
      show sgn (SFl.of (ofInt 0 : Fl f)) = false
      rw [Fl.ofInt_zero]; simp [SFl.sgn]
    rw [h2]
    show sgn (SFl.add x (SFl.neg x)) = false
    unfold SFl.add
    rw [SFl.sgn_withSign, SFl.sgn_neg hn]
    split
    · cases sgn x <;> rfl
    next hz =>
      exfalso
      apply hz
      have : Fl.add x.num (SFl.neg x).num = (ofInt 0 : Fl f) := by rw [SFl.num_neg, SFl.add_neg_eq_sub, ← SFl.num_sub]; exact h1
      rw [this, Fl.ofInt_zero]
      simp [SFl.isZ]
  · have h1 : (add x negz).num = x.num := by
      refine (SFl.num_add x negz).trans ?_
      cases x.num with
      | fin q hq =>
        show Fl.mk (q + 0) = _
        rw [add_zero]
        unfold Fl.mk Fl.ofGrid
        have := f.rnd_id _ hq.1
        simp only [this]
        rw [dif_pos hq.2]
      | _ => rfl
    refine SFl.ext_num h1 ?_
    have h2 : Fl.add x.num (negz : SFl f).num = x.num := (SFl.num_add x negz).symm.trans h1
    show sgn (SFl.add x negz) = _
    unfold SFl.add
    rw [SFl.sgn_withSign, h2]
    split
    · cases sgn x <;> rfl
    next hz =>
      cases x with
      | negz => simp [SFl.isZ, SFl.num, SFl.zeroFl] at hz
      | of a => rfl
  · cases x with
    | negz => rfl
    | of a =>
      have h : sgn (SFl.of (Fl.sqrt a)) = true := h
      cases a with
      | fin q hq =>
        have h0 := f.sqrt_nonneg q
        exfalso
        revert h
        show sgn (SFl.of (if q < 0 then Fl.nan else Fl.ofGrid (f.sqrtq q) (f.sqrt_grid q))) = true → False
        split
        · simp [SFl.sgn]
        · unfold Fl.ofGrid
          split
          · simp [SFl.sgn, h0]
          next h1 =>
            split
            · simp [SFl.sgn]
            next h2 =>
              have h3 := le_antisymm (not_lt.1 h2) h0
              exact absurd (by rw [h3, abs_zero]; exact f.max_pos.le) h1
      | _ => cases h

/-- `-0`, with `-0 == +0`, and the case that `C132_same` leaves out: `1 / -0` is `-inf`, and with one zero it is `inf` -/
theorem C132_division : FloatOps.eq (negz : SFl Fmt.binary64) (ofInt 0) = true ∧ (div (ofInt 1) negz : SFl Fmt.binary64) = .of .ninf ∧
    (div (ofInt 1) (negz : SFl Fmt.binary64).num : Fl Fmt.binary64) = .pinf := by
  obtain ⟨h, e⟩ := val_one
  refine ⟨?_, ?_, ?_⟩
  · show Fl.eq SFl.zeroFl (ofInt 0) = true
    rw [Fl.ofInt_zero]
    simp [Fl.eq, SFl.zeroFl]
  · show SFl.of (Fl.neg (Fl.div (ofInt 1) SFl.zeroFl)) = _
    rw [e]
    simp [Fl.div, SFl.zeroFl, Fl.infSign, Fl.neg]
  · rw [e]
    show Fl.div _ SFl.zeroFl = _
    simp [Fl.div, SFl.zeroFl, Fl.infSign]

/-- `-1 * 0 = -0`, `-0 + -0 = -0`, `-0 + 0 = 0`, `1 - 1 = 0`, `sqrt(-0) = -0` in `double` -/
example : sgn (mul (neg (ofInt 1)) (ofInt 0) : SFl Fmt.binary64) = true ∧ sgn (add negz negz : SFl Fmt.binary64) = true ∧ sgn (add negz (ofInt 0) : SFl Fmt.binary64) = false ∧
    sgn (sub (ofInt 1) (ofInt 1) : SFl Fmt.binary64) = false ∧ FloatOps.sqrt (negz : SFl Fmt.binary64) = negz :=
  ⟨by decide +kernel, by decide +kernel, by decide +kernel, by decide +kernel, rfl⟩

example : sgn (mul (neg (ofInt 1)) (ofInt 0) : SFl Fmt.binary64) = (sgn (neg (ofInt 1) : SFl Fmt.binary64) != sgn (ofInt 0 : SFl Fmt.binary64)) :=
  (C132_signs _ _).2.1 (by decide +kernel)

end
end Verif
