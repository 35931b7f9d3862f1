import Verif.Model.JetSign
import Verif.Props.SignedZero
/-!
# C133: classification, sign, `abs` and `copysign` of jets in double, with signed zeros
-/

namespace Verif.JetSign
open FloatOps
open SFl (num negz sgn)

/-- a number of the format with its value -/
abbrev Z64 := SFl Fmt.binary64

theorem one64 : ∃ h, (ofInt 1 : Z64) = .of (.fin 1 h) := by
  obtain ⟨h, e⟩ := val_one
  exact ⟨h, congrArg SFl.of e⟩

theorem mk_grid {q : ℚ} (h : Fmt.binary64.Grid q ∧ |q| ≤ Fmt.binary64.max) : (Fl.mk q : Fl Fmt.binary64) = .fin q h := by
  unfold Fl.mk Fl.ofGrid
  have := Fmt.binary64.rnd_id _ h.1
  simp only [this]
  rw [dif_pos h.2]

/-- multiplication by one is exact -/
theorem one_mul' (x : Z64) : mul (ofInt 1) x = x := by
  obtain ⟨h1, e1⟩ := one64
  rw [e1]
  show SFl.mul _ _ = _
  unfold SFl.mul
  cases x with
  | negz =>
    have : Fl.mul (SFl.of (Fl.fin 1 h1)).num (negz : Z64).num = SFl.zeroFl := by
      show Fl.mk (1 * 0) = _
      rw [mul_zero]; exact mk_grid _
    rw [this]
    simp [sgn, SFl.withSign, SFl.isZ, SFl.zeroFl]
  | of a =>
    cases a with
    | fin q hq =>
      have : Fl.mul (SFl.of (Fl.fin 1 h1)).num (SFl.of (Fl.fin q hq)).num = .fin q hq := by
        show Fl.mk (1 * q) = _
        rw [one_mul]; exact mk_grid _
      rw [this]
      by_cases h : q = 0
      · subst h; simp [sgn, SFl.withSign, SFl.isZ]
      · simp [SFl.withSign, SFl.isZ, h]
    | nan => rfl
    | pinf => simp [SFl.num, Fl.mul, Fl.infSign, SFl.withSign, SFl.isZ]
    | ninf =>
      have : ¬(1 : ℚ) < 0 := by norm_num
      simp [SFl.num, Fl.mul, Fl.infSign, SFl.withSign, SFl.isZ, this]

theorem sgn_one : sgn (ofInt 1 : Z64) = false := by obtain ⟨h, e⟩ := one64; rw [e]; simp [sgn]

/-- multiplication by minus one is negation -/
theorem mone_mul (x : Z64) : mul (neg (ofInt 1)) x = neg x := by
  have hm : sgn (neg (ofInt 1) : Z64) = true := by
    have := SFl.sgn_neg (x := (ofInt 1 : Z64)) (by obtain ⟨h, e⟩ := one64; rw [e]; rfl)
    rw [sgn_one] at this; exact this
  obtain ⟨h1, e1⟩ := one64
  have hn : (neg (ofInt 1) : Z64).num = Fl.neg (.fin 1 h1) := by
    refine (SFl.num_neg _).trans ?_
    rw [e1]; rfl
  show SFl.withSign (sgn (neg (ofInt 1) : Z64) != sgn x) (Fl.mul (neg (ofInt 1) : Z64).num x.num) = SFl.withSign (!sgn x) (Fl.neg x.num)
  rw [hm, hn]
  have : Fl.mul (Fl.neg (.fin 1 h1)) x.num = Fl.neg x.num := by
    cases x.num with
    | fin q hq =>
      show Fl.mk (-1 * q) = _
      rw [neg_one_mul]
      exact mk_grid ⟨Fmt.grid_neg _ hq.1, by rw [abs_neg]; exact hq.2⟩
    | nan => rfl
    | pinf => simp [Fl.mul, Fl.neg, Fl.infSign]
    | ninf => simp [Fl.mul, Fl.neg, Fl.infSign]
  rw [this]
  cases sgn x <;> rfl

variable {N : ℕ}

/-- **C133, classification.** The classes of `fpclassify` of a jet are decided by its scalar part and are exclusive, and the other predicates are unions of them: a zero (of either sign) is what compares
equal to zero, `isnormal` is the class `normal`, and the finite jets are the zero, subnormal and normal ones. -/
theorem C133_classify {f : Fmt} {tiny : ℚ} (ht : 0 < tiny) (x : ZJet f N) :
    (x.fpclassify tiny = .nan ↔ x.isnan = true) ∧ (x.fpclassify tiny = .inf ↔ x.isinf = true) ∧ (x.fpclassify tiny = .zero ↔ FloatOps.eq x.a (ofInt 0) = true) ∧
      (x.fpclassify tiny = .normal ↔ x.isnormal tiny = true) ∧
      (x.fpclassify tiny = .subnormal ↔ x.isfinite = true ∧ FloatOps.eq x.a (ofInt 0) = false ∧ x.isnormal tiny = false) := by
  obtain ⟨a, v⟩ := x
  have e : ∀ b : SFl f, FloatOps.eq b (ofInt 0) = Fl.eq b.num (ofInt 0) := fun _ => rfl
  simp only [e, Fl.ofInt_zero]
  cases a with
  | negz => simp [ZJet.fpclassify, fpclassify, ZJet.isnan, ZJet.isinf, ZJet.isnormal, isnormal, ZJet.isfinite, FloatOps.finite, FloatOps.isNaN, FloatOps.isInf, SFl.num, SFl.zeroFl, Fl.isNaN, Fl.isInf, Fl.eq, ht]
  | of a =>
    cases a with
    | fin q hq =>
      simp only [ZJet.fpclassify, fpclassify, ZJet.isnan, ZJet.isinf, ZJet.isnormal, isnormal, ZJet.isfinite, FloatOps.finite, FloatOps.isNaN, FloatOps.isInf, SFl.num, Fl.isNaN, Fl.isInf, Fl.eq]
      by_cases h : q = 0
      · subst h; simp [ht]
      · by_cases h2 : |q| < tiny <;> simp [h, h2]
    | _ => simp [ZJet.fpclassify, fpclassify, ZJet.isnan, ZJet.isinf, ZJet.isnormal, isnormal, ZJet.isfinite, FloatOps.finite, FloatOps.isNaN, FloatOps.isInf, SFl.num, Fl.isNaN, Fl.isInf, Fl.eq]

theorem sgn_fabs {f : Fmt} {x : SFl f} (h : isNaN x = false) : sgn (fabs x) = false := by
  unfold fabs
  split
  next hs => exact (SFl.sgn_neg h).trans (by rw [hs]; rfl)
  next hs => exact Bool.eq_false_iff.2 hs

theorem sgn_copysign {f : Fmt} {x : SFl f} (h : isNaN x = false) (y : SFl f) : sgn (copysign x y) = sgn y := by
  unfold copysign
  split
  next hs => exact hs
  next hs =>
    refine (SFl.sgn_neg h).trans ?_
    cases hx : sgn x <;> cases hy : sgn y <;> simp_all

theorem num_fabs {f : Fmt} {x : SFl f} {q : ℚ} {h : f.Grid q ∧ |q| ≤ f.max} (hx : x.num = .fin q h) : ∃ h', (fabs x).num = .fin |q| h' := by
  unfold fabs
  by_cases hq : q = 0
  · subst hq
    have : ∀ y : Fl f, y = .fin 0 h → ∃ h', y = .fin |0| h' := fun y hy => ⟨by rw [abs_zero]; exact h, by rw [hy]; simp⟩
    apply this
    split
    · refine (SFl.num_neg x).trans ?_
      rw [hx]; simp [Fl.neg]
    · exact hx
  · have hs := SFl.sgn_of_ne hx hq
    rcases lt_or_gt_of_ne hq with h1 | h1
    · rw [hs, if_pos (by simpa using h1)]
      refine ⟨by rw [abs_of_neg h1]; exact ⟨f.grid_neg h.1, by rw [abs_neg]; exact h.2⟩, ?_⟩
      refine (SFl.num_neg x).trans ?_
      rw [hx]
      simp [Fl.neg, abs_of_neg h1]
    · rw [hs, if_neg (by simpa using h1.le), hx]
      exact ⟨by rw [abs_of_pos h1]; exact h, by simp [abs_of_pos h1]⟩

/-- the factor `copysign(1, x)` of a derivative -/
theorem unit_mul (x y : Z64) : mul (copysign (ofInt 1) x) y = if sgn x then neg y else y := by
  unfold copysign
  rw [sgn_one]
  cases sgn x
  · rw [if_pos rfl, one_mul']; rfl
  · rw [if_neg (by simp), mone_mul]; rfl

/-- **C133, `abs`.** For every jet of doubles that is not NaN `abs` clears the sign bit and keeps the magnitude, and its partial derivatives are those of the argument, all negated exactly if the sign
bit of the argument is set: that of `-0` is, so that `abs(-0 + h)` has the derivative `-h` and `abs(+0 + h)` has `h`. -/
theorem C133_abs (x : ZJet Fmt.binary64 N) (hx : x.isnan = false) :
    x.abs.signbit = false ∧ (∀ q h, x.a.num = .fin q h → ∃ h', x.abs.a.num = .fin |q| h') ∧ (x.isinf = true → x.abs.a = .of .pinf) ∧
      ∀ i, x.abs.v i = if x.signbit then neg (x.v i) else x.v i := by
  refine ⟨sgn_fabs hx, fun q h e => num_fabs e, fun h => ?_, fun i => unit_mul _ _⟩
  obtain ⟨a, v⟩ := x
  cases a with
  | negz => cases h
  | of a =>
    cases a with
    | fin q hq => cases h
    | nan => cases hx
    | pinf => rfl
    | ninf => rfl

/-- the products of the two signs -/
theorem signs_mul (x y z : Z64) : mul (mul (copysign (ofInt 1) x) (copysign (ofInt 1) y)) z = if sgn x = sgn y then z else neg z := by
  rw [unit_mul]
  have hc : copysign (ofInt 1) y = if sgn y then neg (ofInt 1) else (ofInt 1 : Z64) := by
    unfold copysign; rw [sgn_one]; cases sgn y <;> rfl
  have hnn : neg (neg (ofInt 1)) = (ofInt 1 : Z64) := by
    have h1 := sgn_one
    obtain ⟨h, e⟩ := one64
    refine SFl.ext_num ?_ ?_
    · refine (SFl.num_neg _).trans ?_
      rw [show (neg (ofInt 1) : Z64).num = Fl.neg (ofInt 1 : Z64).num from SFl.num_neg _, e]
      simp [SFl.num, Fl.neg]
    · have hn : isNaN (ofInt 1 : Z64) = false := by rw [e]; rfl
      have h2 := SFl.sgn_neg hn
      have hn2 : isNaN (neg (ofInt 1) : Z64) = false := by
        show Fl.isNaN (neg (ofInt 1) : Z64).num = false
        rw [show (neg (ofInt 1) : Z64).num = Fl.neg (ofInt 1 : Z64).num from SFl.num_neg _, e]; rfl
      have h3 := SFl.sgn_neg hn2
      refine h3.trans ?_
      rw [h1] at h2 ⊢
      exact congrArg Bool.not h2
  rw [hc]
  cases sgn x <;> cases sgn y
  · exact one_mul' z
  · exact mone_mul z
  · exact mone_mul z
  · show mul (neg (neg (ofInt 1))) z = z
    rw [hnn]; exact one_mul' z

theorem num_mul_fin {x y : Z64} {p q : ℚ} (hx : Val x.num p) (hy : Val y.num q) : (mul x y).num = Fl.mk (p * q) := by
  obtain ⟨_, hx⟩ := hx
  obtain ⟨_, hy⟩ := hy
  refine (SFl.num_mul x y).trans ?_
  rw [hx, hy]; rfl

/-- **C133, `copysign`.** For jets of doubles with a finite first scalar part, a second one that is neither zero nor NaN, and finite derivatives of the second: the value has the magnitude of the first and the sign
bit of the second, and the partial derivatives are those of the first, exactly, negated if the sign bits differ (up to the sign of a zero). -/
theorem C133_copysign {tiny : ℚ} (x y : ZJet Fmt.binary64 N) (hx : x.isfinite = true) (hy0 : y.fpclassify tiny ≠ .zero) (hv : ∀ i, finite (y.v i) = true) :
    (x.copysign tiny y).signbit = y.signbit ∧ (fabs (x.copysign tiny y).a).num = (fabs x.a).num ∧
      ∀ i, ((x.copysign tiny y).v i).num = num (if x.signbit = y.signbit then x.v i else neg (x.v i)) := by
  obtain ⟨p, hp, ep⟩ := (SFl.finite_iff' _).1 hx
  have hn : isNaN x.a = false := by show Fl.isNaN x.a.num = false; rw [ep]; rfl
  refine ⟨sgn_copysign hn _, ?_, fun i => ?_⟩
  · show (fabs (copysign x.a y.a)).num = _
    unfold copysign
    split
    · rfl
    · have e2 : (neg x.a).num = Fl.neg (.fin p hp) := by refine (SFl.num_neg _).trans ?_; rw [ep]
      obtain ⟨h1, e3⟩ := num_fabs (x := neg x.a) e2
      obtain ⟨h2, e4⟩ := num_fabs ep
      rw [e3, e4]
      simp
  · show num (add (mul (mul _ _) (x.v i)) (mul (mul (fabs x.a) (if y.fpclassify tiny = .zero then _ else ofInt 0)) (y.v i))) = _
    rw [if_neg hy0, signs_mul]
    show num (add (if x.signbit = y.signbit then x.v i else neg (x.v i)) _) = _
    generalize (if x.signbit = y.signbit then x.v i else neg (x.v i)) = u
    obtain ⟨q, hq, eq⟩ := (SFl.finite_iff' _).1 (hv i)
    obtain ⟨h1, e1⟩ := num_fabs ep
    have e2 : (mul (fabs x.a) (ofInt 0)).num = SFl.zeroFl := by
      rw [num_mul_fin ⟨h1, e1⟩ (y := ofInt 0) (q := 0) (show Val (ofInt 0 : Fl Fmt.binary64) 0 from val_zero), mul_zero]
      exact mk_grid _
    have e3 : (mul (mul (fabs x.a) (ofInt 0)) (y.v i)).num = SFl.zeroFl := by
      rw [num_mul_fin (p := 0) ⟨_, e2⟩ ⟨hq, eq⟩, zero_mul]
      exact mk_grid _
    refine (SFl.num_add _ _).trans ?_
    rw [e3]
    cases u.num with
    | fin r hr =>
      show Fl.mk (r + 0) = _
      rw [add_zero]; exact mk_grid _
    | _ => rfl

/-- **C133, `copysign` with a zero second argument.** If the second scalar part is a zero of either sign, the value is still right, but a partial derivative of the result is NaN as soon as the first scalar part
is a zero or that partial derivative of the second argument is; in particular for every second argument that is a constant zero. Where both are finite and nonzero it is an infinity with the sign
of the derivative of the second argument (if that of the first is finite). -/
theorem C133_copysign_zero {tiny : ℚ} (x y : ZJet Fmt.binary64 N) (hx : x.isfinite = true) (hy0 : y.fpclassify tiny = .zero) (i : Fin N) (hv : finite (y.v i) = true) :
    (x.copysign tiny y).signbit = y.signbit ∧
      (FloatOps.eq x.a (ofInt 0) = true ∨ FloatOps.eq (y.v i) (ofInt 0) = true → isNaN ((x.copysign tiny y).v i) = true) ∧
      (FloatOps.eq x.a (ofInt 0) = false → FloatOps.eq (y.v i) (ofInt 0) = false → finite (x.v i) = true →
        (x.copysign tiny y).v i = if sgn (y.v i) then .of .ninf else .of .pinf) := by
  obtain ⟨p, hp, ep⟩ := (SFl.finite_iff' _).1 hx
  obtain ⟨q, hq, eq⟩ := (SFl.finite_iff' _).1 hv
  have hn : isNaN x.a = false := by show Fl.isNaN x.a.num = false; rw [ep]; rfl
  obtain ⟨h1, e1⟩ := num_fabs ep
  have hv' : (x.copysign tiny y).v i = add (if sgn x.a = sgn y.a then x.v i else neg (x.v i)) (mul (mul (fabs x.a) (.of .pinf)) (y.v i)) := by
    show add (mul (mul _ _) (x.v i)) (mul (mul (fabs x.a) (if y.fpclassify tiny = .zero then _ else ofInt 0)) (y.v i)) = _
    rw [if_pos hy0, signs_mul]
  have hz : ∀ (u : Z64) (r : ℚ) h, u.num = .fin r h → (FloatOps.eq u (ofInt 0) = true ↔ r = 0) := by
    intro u r h e
    show Fl.eq u.num (ofInt 0) = true ↔ _
    rw [e, Fl.ofInt_zero]
    simp [Fl.eq]
  have e2 : (mul (fabs x.a) (.of .pinf)).num = Fl.infSign |p| := by
    refine (SFl.num_mul _ _).trans ?_
    rw [e1]; rfl
  have e3 : (mul (mul (fabs x.a) (.of .pinf)) (y.v i)).num = Fl.mul (Fl.infSign |p|) (.fin q hq) := by
    refine (SFl.num_mul _ _).trans ?_
    rw [e2, eq]
  have e4 : ((x.copysign tiny y).v i).num = Fl.add (if sgn x.a = sgn y.a then x.v i else neg (x.v i)).num (Fl.mul (Fl.infSign |p|) (.fin q hq)) := by
    rw [hv', ← e3]; exact SFl.num_add _ _
  refine ⟨sgn_copysign hn _, fun h => ?_, fun ha hb hf => ?_⟩
  · show Fl.isNaN _ = true
    rw [e4]
    have : Fl.mul (Fl.infSign |p|) (.fin q hq) = (.nan : Fl Fmt.binary64) := by
      rcases h with h | h
      · rw [(hz _ _ _ ep).1 h]; simp [Fl.infSign, Fl.mul]
      · obtain rfl := (hz _ _ _ eq).1 h
        by_cases hp0 : p = 0
        · rw [hp0]; simp [Fl.infSign, Fl.mul]
        · simp [Fl.infSign, Fl.mul, abs_pos.2 hp0]
    rw [this]
    cases (if sgn x.a = sgn y.a then x.v i else neg (x.v i)).num <;> rfl
  · have hp0 : p ≠ 0 := fun h => by rw [(hz _ _ _ ep).2 h] at ha; cases ha
    have hq0 : q ≠ 0 := fun h => by rw [(hz _ _ _ eq).2 h] at hb; cases hb
    obtain ⟨r, hr, er⟩ := (SFl.finite_iff' _).1 hf
    have e5 : ∃ r' h', (if sgn x.a = sgn y.a then x.v i else neg (x.v i)).num = .fin r' h' := by
      split
      · exact ⟨r, hr, er⟩
      · exact ⟨-r, ⟨Fmt.grid_neg _ hr.1, by rw [abs_neg]; exact hr.2⟩, (SFl.num_neg _).trans (by rw [er]; rfl)⟩
    obtain ⟨r', hr', er'⟩ := e5
    have e6 : ((x.copysign tiny y).v i).num = Fl.infSign q := by
      rw [e4, er']
      have : (Fl.infSign |p| : Fl Fmt.binary64) = .pinf := by simp [Fl.infSign, abs_pos.2 hp0]
      rw [this]
      show Fl.add (.fin r' hr') (Fl.infSign q) = _
      rcases lt_or_gt_of_ne hq0 with h | h
      · simp [Fl.infSign, h, not_lt.2 (le_of_lt h), Fl.add]
      · simp [Fl.infSign, h, Fl.add]
    have e7 : ∀ u : Z64, ∀ b : Fl Fmt.binary64, u.num = b → (b = .pinf ∨ b = .ninf) → u = .of b := by
      intro u b hu hb
      cases u with
      | negz => rcases hb with rfl | rfl <;> cases hu
      | of a => exact congrArg SFl.of hu
    rw [SFl.sgn_of_ne eq hq0]
    rcases lt_or_gt_of_ne hq0 with h | h
    · rw [if_pos (by simpa using h)]
      exact e7 _ _ (by rw [e6]; simp [Fl.infSign, h, not_lt.2 (le_of_lt h)]) (Or.inr rfl)
    · rw [if_neg (by simpa using le_of_lt h)]
      exact e7 _ _ (by rw [e6]; simp [Fl.infSign, h]) (Or.inl rfl)

/-- **C133, `copysign` of an infinity.** If the first scalar part is infinite and the second is not zero, every partial derivative of the result is NaN (`inf * 0`), though the function is locally `±x`. -/
theorem C133_copysign_inf {tiny : ℚ} (x y : ZJet Fmt.binary64 N) (hx : x.isinf = true) (hy0 : y.fpclassify tiny ≠ .zero) (i : Fin N) : isNaN ((x.copysign tiny y).v i) = true := by
  have e1 : (fabs x.a).num = .pinf := by
    obtain ⟨a, v⟩ := x
    cases a with
    | negz => cases hx
    | of a => cases a <;> first | (cases hx; done) | rfl
  have e2 : (mul (fabs x.a) (ofInt 0)).num = .nan := by
    refine (SFl.num_mul _ _).trans ?_
    rw [e1, show (ofInt 0 : Z64).num = (ofInt 0 : Fl Fmt.binary64) from rfl, Fl.ofInt_zero]
    simp [Fl.mul, Fl.infSign]
  show Fl.isNaN (num (add (mul (mul _ _) (x.v i)) (mul (mul (fabs x.a) (if y.fpclassify tiny = .zero then _ else ofInt 0)) (y.v i)))) = true
  rw [if_neg hy0]
  have e3 : (mul (mul (fabs x.a) (ofInt 0)) (y.v i)).num = .nan := by
    refine (SFl.num_mul _ _).trans ?_
    rw [e2]; rfl
  rw [show ∀ u w : Z64, (add u w).num = Fl.add u.num w.num from SFl.num_add, e3]
  generalize (mul _ (x.v i) : Z64).num = u
  cases u <;> rfl

/-- smallest normal `double` -/
def tiny64 : ℚ := 1 / 2 ^ 1022

/-- the classes of `0`, `-0`, `1`, the smallest positive `double` and infinity -/
example : fpclassify tiny64 (ofInt 0 : Z64) = .zero ∧ fpclassify tiny64 (negz : Z64) = .zero ∧ fpclassify tiny64 (ofInt 1 : Z64) = .normal ∧
    fpclassify tiny64 (.of (Fl.mk (1 / 2 ^ 1074)) : Z64) = .subnormal ∧ fpclassify tiny64 (.of .ninf : Z64) = .inf :=
  ⟨by decide +kernel, rfl, by decide +kernel, by decide +kernel, rfl⟩

/-- `abs(-0 + h)` has the derivative `-h` and `abs(+0 + h)` the derivative `h`; the classification does not see the difference -/
example : (⟨negz, fun _ => ofInt 1⟩ : ZJet Fmt.binary64 1).abs.v 0 = neg (ofInt 1) ∧ (⟨ofInt 0, fun _ => ofInt 1⟩ : ZJet Fmt.binary64 1).abs.v 0 = ofInt 1 := by
  refine ⟨(C133_abs _ (by rfl)).2.2.2 0, ?_⟩
  refine ((C133_abs (⟨ofInt 0, fun _ => ofInt 1⟩ : ZJet Fmt.binary64 1) (by decide +kernel)).2.2.2 0).trans ?_
  rw [if_neg (by decide +kernel)]

/-- `copysign(1 + h, -1)` has the derivative `-h`; with the constant `-0` as second argument it is NaN -/
example : (((⟨ofInt 1, fun _ => ofInt 1⟩ : ZJet Fmt.binary64 1).copysign tiny64 ⟨neg (ofInt 1), fun _ => ofInt 0⟩).v 0).num = num (neg (ofInt 1) : Z64) ∧
    isNaN (((⟨ofInt 1, fun _ => ofInt 1⟩ : ZJet Fmt.binary64 1).copysign tiny64 ⟨negz, fun _ => ofInt 0⟩).v 0) = true := by
  constructor
  · refine ((C133_copysign (tiny := tiny64) (⟨ofInt 1, fun _ => ofInt 1⟩ : ZJet Fmt.binary64 1) ⟨neg (ofInt 1), fun _ => ofInt 0⟩ (by decide +kernel) (by decide +kernel) fun _ => show finite (ofInt 0 : Z64) = true by decide +kernel).2.2 0).trans ?_
    rw [if_neg (by decide +kernel)]
  · exact (C133_copysign_zero (⟨ofInt 1, fun _ => ofInt 1⟩ : ZJet Fmt.binary64 1) ⟨negz, fun _ => ofInt 0⟩ (by decide +kernel) rfl 0 (by decide +kernel)).2.1 (Or.inr (by decide +kernel))

example : isNaN (((⟨.of .ninf, fun _ => ofInt 1⟩ : ZJet Fmt.binary64 1).copysign tiny64 ⟨ofInt 1, fun _ => ofInt 0⟩).v 0) = true :=
  C133_copysign_inf _ _ rfl (by decide +kernel) 0

end Verif.JetSign
