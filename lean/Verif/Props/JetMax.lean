import Verif.Model.JetMax
import Verif.Num.Ieee
/-!
# C109: `fmax`, `fmin` and `fdim` of jets over floating-point numbers
-/

namespace Verif.JetMax
open FloatOps

variable {f : Fmt} {N : Nat}

theorem fl_ext {a b : ℚ} {ha hb} (h : a = b) : (Fl.fin a ha : Fl f) = .fin b hb := by subst h; rfl

/-- numbers that are neither smaller nor larger are equal -/
theorem fl_eq_of_not_lt {a b : Fl f} (ha : isNaN a = false) (hb : isNaN b = false) (h : lt a b = false) (h' : lt b a = false) : a = b := by
  cases a <;> cases b <;> simp [FloatOps.isNaN, Fl.isNaN, FloatOps.lt, Fl.lt] at ha hb h h'
  · rfl
  · rfl
  · exact fl_ext (le_antisymm h' h)

theorem fl_lt_asymm {a b : Fl f} (h : lt a b = true) : lt b a = false := by
  cases hb : lt b a with
  | false => rfl
  | true => exact absurd (FloatLaws.lt_trans a b a h hb) (by rw [FloatLaws.lt_irrefl]; simp)

theorem fl_lt_nan {a b : Fl f} (h : lt a b = true) : isNaN a = false ∧ isNaN b = false := by
  cases a <;> cases b <;> simp [FloatOps.isNaN, Fl.isNaN, FloatOps.lt, Fl.lt] at h ⊢

theorem fl_add_comm (a b : Fl f) : add a b = add b a := by
  cases a <;> cases b <;> simp [FloatOps.add, Fl.add, add_comm]

theorem midpoint_comm (a b : Fl f) : midpointF a b = midpointF b a := by
  cases a <;> cases b <;> simp [midpointF, fl_add_comm, add_comm]

theorem avg_comm (c : Bool) (x y : FJet f N) : FJet.avg c x y = FJet.avg c y x := by
  cases c
  · simp [FJet.avg, FJet.halfSum, fl_add_comm x.a, fl_add_comm (x.v _)]
  · simp [FJet.avg, FJet.midpoint, midpoint_comm x.a, midpoint_comm (x.v _)]

theorem mk_fin {q : ℚ} (h : |q| ≤ f.max) : ∃ h', (Fl.mk q : Fl f) = .fin (f.rnd q) h' := by
  have hr : |f.rnd q| ≤ f.max := by
    obtain ⟨h1, h2⟩ := abs_le.mp h
    refine abs_le.mpr ⟨?_, ?_⟩
    · have := f.rnd_mono _ _ h1
      rwa [f.rnd_neg, f.rnd_id _ f.grid_max] at this
    · have := f.rnd_mono _ _ h2
      rwa [f.rnd_id _ f.grid_max] at this
  exact ⟨⟨f.rnd_grid q, hr⟩, by rw [Fl.mk, Fl.ofGrid, dif_pos hr]⟩

theorem mk_grid {q : ℚ} (h : f.Grid q ∧ |q| ≤ f.max) : (Fl.mk q : Fl f) = .fin q h := by
  obtain ⟨h', e⟩ := mk_fin (f := f) h.2
  rw [e]
  exact fl_ext (f.rnd_id q h.1)

theorem midpoint_self {a : Fl f} : midpointF a a = a := by
  cases a with
  | nan => rfl
  | pinf => rfl
  | ninf => rfl
  | fin q h =>
    show (Fl.mk _ : Fl f) = _
    rw [show (q + q) / 2 = q by ring]
    exact mk_grid h

theorem midpoint_finite {a b : Fl f} (ha : finite a = true) (hb : finite b = true) : finite (midpointF a b) = true := by
  obtain ⟨p, hp, rfl⟩ := (Fl.finite_iff a).1 ha
  obtain ⟨q, hq, rfl⟩ := (Fl.finite_iff b).1 hb
  have h : |(p + q) / 2| ≤ f.max := by
    rw [abs_div, abs_two, div_le_iff₀ (by norm_num)]
    linarith [abs_add_le p q, hp.2, hq.2]
  obtain ⟨h', e⟩ := mk_fin (f := f) h
  exact (Fl.finite_iff _).2 ⟨_, h', e⟩

/-- **C109**: `fmax` and `fmin` treat NaN as missing: if one argument is NaN, the result is the other one, with its derivatives. -/
theorem C109_missing (c : Bool) (x y : FJet f N) :
    (isNaN x.a = true → FJet.fmax c x y = y ∧ FJet.fmin c x y = y) ∧ (isNaN y.a = true → isNaN x.a = false → FJet.fmax c x y = x ∧ FJet.fmin c x y = x) := by
  constructor
  · intro h
    simp [FJet.fmax, FJet.fmin, FJet.isnan, h]
  · intro hy hx
    have h1 : lt x.a y.a = false := by
      cases e : lt x.a y.a with
      | false => rfl
      | true => exact absurd (fl_lt_nan e).2 (by rw [hy]; simp)
    have h2 : lt y.a x.a = false := by
      cases e : lt y.a x.a with
      | false => rfl
      | true => exact absurd (fl_lt_nan e).1 (by rw [hy]; simp)
    simp [FJet.fmax, FJet.fmin, FJet.isnan, FJet.isless, FJet.isgreater, hy, hx, h1, h2]

/-- **C109**: with numbers (also infinite ones) `fmax` gives the argument with the larger value and `fmin` the one with the smaller value, with their derivatives. -/
theorem C109_select (c : Bool) {x y : FJet f N} (h : lt x.a y.a = true) :
    FJet.fmax c x y = y ∧ FJet.fmax c y x = y ∧ FJet.fmin c x y = x ∧ FJet.fmin c y x = x := by
  have h' := fl_lt_asymm h
  obtain ⟨hx, hy⟩ := fl_lt_nan h
  simp [FJet.fmax, FJet.fmin, FJet.isnan, FJet.isless, FJet.isgreater, FJet.islessgreater, h, h', hx, hy]

/-- **C109**, C++20: for equal values the result has this value, and its derivatives are the means of the two derivatives, up to one rounding and without overflow. -/
theorem C109_equal_cpp20 {x y : FJet f N} (hx : isNaN x.a = false) (hxy : x.a = y.a) :
    ∀ r, r = FJet.fmax true x y ∨ r = FJet.fmin true x y → r.a = x.a ∧
      ∀ i p q hp hq, x.v i = .fin p hp → y.v i = .fin q hq → ∃ h, r.v i = .fin (f.rnd ((p + q) / 2)) h := by
  have e : FJet.fmax true x y = x.midpoint y ∧ FJet.fmin true x y = x.midpoint y := by
    simp [FJet.fmax, FJet.fmin, FJet.isnan, FJet.islessgreater, FJet.avg, ← hxy, hx, FloatLaws.lt_irrefl]
  intro r hr
  have er : r = x.midpoint y := by rcases hr with rfl | rfl; exacts [e.1, e.2]
  subst er
  refine ⟨by show midpointF x.a y.a = _; rw [← hxy, midpoint_self], fun i p q hp hq h1 h2 => ?_⟩
  show ∃ h, midpointF (x.v i) (y.v i) = _
  rw [h1, h2]
  refine mk_fin ?_
  rw [abs_div, abs_two, div_le_iff₀ (by norm_num)]
  linarith [abs_add_le p q, hp.2, hq.2]

/-- **C109**: `fmax` and `fmin` do not depend on the order of their arguments, unless both are NaN. -/
theorem C109_symmetric_partial (c : Bool) {x y : FJet f N} (h : isNaN x.a = false ∨ isNaN y.a = false) : FJet.fmax c x y = FJet.fmax c y x ∧ FJet.fmin c x y = FJet.fmin c y x := by
  cases hx : isNaN x.a with
  | true =>
    have hy : isNaN y.a = false := h.resolve_left (by rw [hx]; simp)
    have e1 := (C109_missing c x y).1 hx
    have e2 := (C109_missing c y x).2 hx hy
    exact ⟨e1.1.trans e2.1.symm, e1.2.trans e2.2.symm⟩
  | false =>
    cases hy : isNaN y.a with
    | true =>
      have e1 := (C109_missing c x y).2 hy hx
      have e2 := (C109_missing c y x).1 hy
      exact ⟨e1.1.trans e2.1.symm, e1.2.trans e2.2.symm⟩
    | false =>
      cases h1 : lt x.a y.a with
      | true => have := C109_select c h1; exact ⟨this.1.trans this.2.1.symm, this.2.2.1.trans this.2.2.2.symm⟩
      | false =>
        cases h2 : lt y.a x.a with
        | true => have := C109_select c h2; exact ⟨this.2.1.trans this.1.symm, this.2.2.2.trans this.2.2.1.symm⟩
        | false => simp [FJet.fmax, FJet.fmin, FJet.isnan, FJet.islessgreater, hx, hy, h1, h2, avg_comm c x y]

/-- **C109**, violation: of two NaNs the second is returned, with its derivatives. -/
theorem C109_both_nan (c : Bool) : ∃ x y : FJet f 1, FJet.fmax c x y ≠ FJet.fmax c y x := by
  refine ⟨⟨.nan, fun _ => .pinf⟩, ⟨.nan, fun _ => .ninf⟩, fun h => ?_⟩
  rw [((C109_missing c _ _).1 rfl).1, ((C109_missing c _ _).1 rfl).1] at h
  have := congrFun (congrArg FJet.v h) 0
  simp at this

/-- **C109**, C++17: for equal values `q` the result is that value as long as `2 q` does not overflow (`2 q` and 1/2 being numbers of the format). -/
theorem C109_equal_cpp17_partial {x y : FJet f N} {q : ℚ} {hq} (hx : x.a = .fin q hq) (hy : y.a = .fin q hq) (h2 : f.Grid (2 * q)) (hm : 2 * |q| ≤ f.max)
    (hh : f.Grid (1 / 2)) (hh' : 1 / 2 ≤ f.max) : (FJet.fmax false x y).a = x.a ∧ (FJet.fmin false x y).a = x.a := by
  have e : FJet.fmax false x y = x.halfSum y ∧ FJet.fmin false x y = x.halfSum y := by
    simp [FJet.fmax, FJet.fmin, FJet.isnan, FJet.islessgreater, FJet.avg, hx, hy, FloatLaws.lt_irrefl, FloatOps.isNaN, Fl.isNaN]
  have hhalf : (half : Fl f) = .fin (1 / 2) ⟨hh, by rw [abs_of_pos (by norm_num)]; exact hh'⟩ := mk_grid _
  have v : (x.halfSum y).a = x.a := by
    show mul (add x.a y.a) half = _
    rw [hx, hy, hhalf]
    have e1 : (add (Fl.fin q hq) (Fl.fin q hq) : Fl f) = .fin (2 * q) ⟨h2, by rw [abs_mul, abs_two]; exact hm⟩ := by
      show (Fl.mk (q + q) : Fl f) = _
      rw [← two_mul]; exact mk_grid _
    rw [e1]
    show (Fl.mk (2 * q * (1 / 2)) : Fl f) = _
    rw [show 2 * q * (1 / 2) = q by ring]
    exact mk_grid _
  rw [e.1, e.2]
  exact ⟨v, v⟩

/-- **C109**, violation in C++17: for equal values of more than half the largest number the result is infinite. -/
theorem C109_overflow_cpp17 {x y : FJet f N} {q : ℚ} {hq} (hx : x.a = .fin q hq) (hy : y.a = .fin q hq) (h2 : f.Grid (2 * q)) (hm : f.max < 2 * |q|)
    (hh : f.Grid (1 / 2)) (hh' : 1 / 2 ≤ f.max) : isInf (FJet.fmax false x y).a = true ∧ isInf (FJet.fmin false x y).a = true := by
  have e : FJet.fmax false x y = x.halfSum y ∧ FJet.fmin false x y = x.halfSum y := by
    simp [FJet.fmax, FJet.fmin, FJet.isnan, FJet.islessgreater, FJet.avg, hx, hy, FloatLaws.lt_irrefl, FloatOps.isNaN, Fl.isNaN]
  have hhalf : (half : Fl f) = .fin (1 / 2) ⟨hh, by rw [abs_of_pos (by norm_num)]; exact hh'⟩ := mk_grid _
  have v : isInf (x.halfSum y).a = true := by
    show isInf (mul (add x.a y.a) half) = _
    rw [hx, hy, hhalf]
    have e1 : (add (Fl.fin q hq) (Fl.fin q hq) : Fl f) = if 0 < 2 * q then .pinf else .ninf := by
      show (Fl.mk (q + q) : Fl f) = _
      rw [← two_mul, Fl.mk, Fl.ofGrid, dif_neg]
      · rw [f.rnd_id _ h2]
      · rw [f.rnd_id _ h2, abs_mul, abs_two]; exact not_le.mpr hm
    rw [e1]
    split
    · show isInf (Fl.infSign (1 / 2) : Fl f) = true
      simp [Fl.infSign, FloatOps.isInf, Fl.isInf]
    · show isInf (Fl.infSign (-(1 / 2)) : Fl f) = true
      norm_num [Fl.infSign, FloatOps.isInf, Fl.isInf]
  rw [e.1, e.2]
  exact ⟨v, v⟩

/-- **C109**, `fdim`: NaN if an argument is NaN; zero, without derivatives, unless the first argument is larger; else the difference, which is positive, with the difference of the
derivatives. -/
theorem C109_fdim (x y : FJet f N) :
    (isNaN x.a = true ∨ isNaN y.a = true → isNaN (x.fdim y).a = true) ∧
    (isNaN x.a = false → isNaN y.a = false → lt y.a x.a = false → x.fdim y = ⟨ofInt 0, fun _ => ofInt 0⟩) ∧
    (lt y.a x.a = true → x.fdim y = ⟨sub x.a y.a, fun i => sub (x.v i) (y.v i)⟩ ∧ lt (ofInt 0) (x.fdim y).a = true) := by
  refine ⟨fun h => ?_, fun hx hy h => ?_, fun h => ?_⟩
  · have : (x.isnan || y.isnan) = true := by rcases h with h | h <;> simp [FJet.isnan, h]
    rw [FJet.fdim, if_pos this]; rfl
  · simp [FJet.fdim, FJet.isnan, FJet.isgreater, hx, hy, h]
  · obtain ⟨hy, hx⟩ := fl_lt_nan h
    have e : x.fdim y = ⟨sub x.a y.a, fun i => sub (x.v i) (y.v i)⟩ := by simp [FJet.fdim, FJet.isnan, FJet.isgreater, hx, hy, h]
    refine ⟨e, ?_⟩
    rw [e]
    show lt (ofInt 0) (sub x.a y.a) = true
    rw [Fl.ofInt_zero]
    generalize x.a = a at *
    generalize y.a = b at *
    cases a with
    | nan => simp [FloatOps.isNaN, Fl.isNaN] at hx
    | ninf => cases b <;> simp [FloatOps.lt, Fl.lt] at h
    | pinf => cases b <;> first | rfl | simp [FloatOps.lt, Fl.lt, FloatOps.isNaN, Fl.isNaN] at h hy
    | fin p hp =>
      cases b with
      | nan => simp [FloatOps.isNaN, Fl.isNaN] at hy
      | ninf => rfl
      | pinf => simp [FloatOps.lt, Fl.lt] at h
      | fin q hq =>
        simp only [FloatOps.lt, Fl.lt, decide_eq_true_eq] at h
        have h1 : 0 ≤ f.rnd (p - q) := f.rnd_nonneg (by linarith)
        have h2 := f.sub_ne p q hp.1 hq.1 (ne_of_gt h)
        have h3 : 0 < f.rnd (p - q) := lt_of_le_of_ne h1 (Ne.symm h2)
        show Fl.lt _ (Fl.mk (p - q)) = true
        rw [Fl.mk, Fl.ofGrid]
        split <;> simp [Fl.lt, h3]

/-- the doubles of the numbers of an IEEE format are numbers of the format, up to overflow -/
theorem grid_double {p : ℕ} {emin : ℤ} {q : ℚ} (h : GridBin p emin q) : GridBin p emin (2 * q) := by
  obtain ⟨m, e, hm, he, rfl⟩ := h
  refine ⟨m, e + 1, hm, by omega, ?_⟩
  rw [zpow_add_one₀ (by norm_num)]
  ring

theorem grid_half64 : Fmt.binary64.Grid (1 / 2) ∧ 1 / 2 ≤ Fmt.binary64.max := by
  refine ⟨⟨1, -1, by norm_num, by norm_num, by norm_num⟩, ?_⟩
  show (1 / 2 : ℚ) ≤ ((2 ^ 53 - 1 : ℤ) : ℚ) * 2 ^ (-(-1074 : ℤ) - 2 * ((53 : ℕ) : ℤ) + 3)
  norm_num
  have : (1 : ℚ) ≤ 2 ^ 971 := one_le_pow₀ (by norm_num)
  generalize (2 : ℚ) ^ 971 = t at *
  linarith

/-- **C109** for `double` in C++17: `fmax` and `fmin` of equal finite values are that value up to half the largest number, and infinite beyond. -/
theorem C109_double_cpp17 {x y : FJet Fmt.binary64 N} {q : ℚ} {hq} (hx : x.a = .fin q hq) (hy : y.a = .fin q hq) :
    (2 * |q| ≤ Fmt.binary64.max → (FJet.fmax false x y).a = x.a ∧ (FJet.fmin false x y).a = x.a) ∧
    (Fmt.binary64.max < 2 * |q| → isInf (FJet.fmax false x y).a = true ∧ isInf (FJet.fmin false x y).a = true) :=
  ⟨fun h => C109_equal_cpp17_partial hx hy (grid_double hq.1) h grid_half64.1 grid_half64.2, fun h => C109_overflow_cpp17 hx hy (grid_double hq.1) h grid_half64.1 grid_half64.2⟩

/-- `fmax` of two jets with the largest `double` as value is infinite in C++17, and the largest `double` in C++20 -/
example : isInf (FJet.fmax (N := 0) (f := Fmt.binary64) false ⟨maxVal, Fin.elim0⟩ ⟨maxVal, Fin.elim0⟩).a = true ∧
    (FJet.fmax (N := 0) (f := Fmt.binary64) true ⟨maxVal, Fin.elim0⟩ ⟨maxVal, Fin.elim0⟩).a = maxVal :=
  ⟨((C109_double_cpp17 rfl rfl).2 (by have := Fmt.binary64.max_pos; rw [abs_of_pos this]; linarith)).1, (C109_equal_cpp20 rfl rfl _ (Or.inl rfl)).1⟩

/-- a missing value, with a derivative that is not lost -/
example : FJet.fmax (N := 1) (f := Fmt.exact) true ⟨.nan, fun _ => ofInt 5⟩ ⟨ofInt 2, fun _ => ofInt 1⟩ = ⟨ofInt 2, fun _ => ofInt 1⟩ := ((C109_missing _ _ _).1 rfl).1

/-- the hypotheses of `C109_select` and of the last part of `C109_fdim` -/
example : lt (ofInt 1 : Fl Fmt.exact) (ofInt 2) = true ∧ lt (.ninf : Fl Fmt.exact) (ofInt 2) = true := by decide +kernel

end Verif.JetMax
