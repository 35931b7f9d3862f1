import Mathlib.Analysis.Complex.ExponentialBounds
import Mathlib.Analysis.SpecialFunctions.Trigonometric.Arctan
import Verif.Model.RobustFl
import Verif.Num.FlSign
import Verif.Num.Real
import Verif.Lemmas.SumDouble
import Verif.Lemmas.SqrtProd
import Verif.Props.Damping
import Verif.Props.NumDiffFloat
import Verif.Props.Failures
import Verif.Props.SqrtFloat
/-!
# C125: the robust losses in floating point
-/

namespace Verif.Loss
open FloatOps

/-! ## The same code as in exact arithmetic -/

/-- the functions of `libm` on real numbers -/
noncomputable def realLibm : Libm ℝ := ⟨Real.exp, Real.log, atan2, minPos⟩

theorem leqF_real (a b : ℝ) : leqF a b = true ↔ a ≤ b := by
  unfold leqF
  rw [Bool.or_eq_true]
  simp only [RealOps.lt_eq, RealOps.eq_eq]
  exact le_iff_lt_or_eq.symm

theorem stdMax_real (a b : ℝ) : stdMax a b = max a b := by
  unfold stdMax
  by_cases h : a < b
  · rw [if_pos (by simpa using h), max_eq_right h.le]
  · rw [if_neg (by simpa using h), max_eq_left (not_lt.1 h)]

/-- **C125, the model.** On real numbers the losses are those of C41 and C42. -/
theorem C125_same (k : Robust) (n2 th2 : ℝ) : robustF realLibm k n2 th2 = robust k n2 th2 ∧ robustScaleF realLibm k n2 th2 = robustScale k n2 th2 := by
  have hi : ∀ (α : Type) (a b : α), (if leqF n2 th2 = true then a else b) = if n2 ≤ th2 then a else b := by
    intro α a b
    by_cases h : n2 ≤ th2
    · rw [if_pos h, if_pos ((leqF_real _ _).2 h)]
    · rw [if_neg h, if_neg (fun h' => h ((leqF_real _ _).1 h'))]
  cases k <;> constructor <;> simp only [robustF, robustScaleF, robust, robustScale, hi, stdMax_real, realLibm, RealOps.add_eq, RealOps.sub_eq, RealOps.mul_eq, RealOps.div_eq,
    RealOps.neg_eq, RealOps.ofInt_eq, RealOps.sqrt_eq, Int.cast_ofNat, Int.cast_one, Int.cast_zero]

/-! ## Losses with a bound -/

section
variable {f : Fmt}

theorem mk_upto {q b : ℚ} (h0 : 0 ≤ q) (hq : q ≤ b) (hb : f.Grid b) (hm : b ≤ f.max) :
    ∃ h, (Fl.mk q : Fl f) = .fin (f.rnd q) h ∧ 0 ≤ f.rnd q ∧ f.rnd q ≤ b := by
  have h1 := f.rnd_nonneg h0
  have h2 : f.rnd q ≤ b := by
    have := f.rnd_mono _ _ hq
    rwa [f.rnd_id b hb] at this
  refine ⟨⟨f.rnd_grid q, by rw [abs_of_nonneg h1]; exact h2.trans hm⟩, ?_, h1, h2⟩
  unfold Fl.mk Fl.ofGrid
  rw [dif_pos (by rw [abs_of_nonneg h1]; exact h2.trans hm)]

theorem leqF_fin {a b : ℚ} {ha hb} : leqF (.fin a ha : Fl f) (.fin b hb) = decide (a ≤ b) := by
  show (decide (a < b) || decide (a = b)) = _
  rw [← Bool.decide_or, decide_eq_decide]
  exact le_iff_lt_or_eq.symm

/-- the value of the Tukey loss of an inlier -/
def tukeyQ (f : Fmt) (q t : ℚ) : ℚ :=
  f.rnd (t * f.rnd (1 - f.rnd (f.rnd (f.rnd (1 - f.rnd (q / t)) * f.rnd (1 - f.rnd (q / t))) * f.rnd (1 - f.rnd (q / t)))))

variable (h2 : Fl.HasTwo f)
include h2

theorem rnd_unit {q : ℚ} (h0 : 0 ≤ q) (h1 : q ≤ 1) : 0 ≤ f.rnd q ∧ f.rnd q ≤ 1 := by
  obtain ⟨-, -, a, b⟩ := mk_upto h0 h1 h2.1 (by linarith [h2.2.2])
  exact ⟨a, b⟩

theorem tukey_val (m : Libm (Fl f)) {q t : ℚ} {hq ht} (h0 : 0 ≤ q) (ht0 : 0 < t) (hqt : q ≤ t) :
    ∃ h, robustF m .tukey (.fin q hq) (.fin t ht) = .fin (tukeyQ f q t) h ∧ 0 ≤ tukeyQ f q t ∧ tukeyQ f q t ≤ t := by
  have hm1 : (1 : ℚ) ≤ f.max := by linarith [h2.2.2]
  obtain ⟨g1, e1, a1, b1⟩ := mk_upto (f := f) (div_nonneg h0 ht0.le) ((div_le_one ht0).2 hqt) h2.1 hm1
  obtain ⟨g2, e2, a2, b2⟩ := mk_upto (f := f) (q := 1 - f.rnd (q / t)) (b := 1) (by linarith) (by linarith) h2.1 hm1
  set s := f.rnd (1 - f.rnd (q / t)) with hs
  obtain ⟨g3, e3, a3, b3⟩ := mk_upto (f := f) (q := s * s) (b := 1) (by positivity) (by nlinarith) h2.1 hm1
  obtain ⟨g4, e4, a4, b4⟩ := mk_upto (f := f) (q := f.rnd (s * s) * s) (b := 1) (by positivity) (by nlinarith) h2.1 hm1
  obtain ⟨g5, e5, a5, b5⟩ := mk_upto (f := f) (q := 1 - f.rnd (f.rnd (s * s) * s)) (b := 1) (by linarith) (by linarith) h2.1 hm1
  obtain ⟨g6, e6, a6, b6⟩ := mk_upto (f := f) (q := t * f.rnd (1 - f.rnd (f.rnd (s * s) * s))) (b := t) (by positivity) (by nlinarith) ht.1 ((le_abs_self t).trans ht.2)
  refine ⟨g6, ?_, a6, b6⟩
  unfold robustF
  simp only [leqF_fin, hqt, decide_true, if_true]
  have d1 : (div (.fin q hq) (.fin t ht) : Fl f) = .fin (f.rnd (q / t)) g1 := by
    show (if t = 0 then Fl.infSign q else Fl.mk (q / t)) = _
    rw [if_neg ht0.ne', e1]
  rw [d1, h2.one]
  have d2 : ∀ a b ha hb, (sub (.fin a ha) (.fin b hb) : Fl f) = Fl.mk (a - b) := fun _ _ _ _ => rfl
  have d3 : ∀ a b ha hb, (mul (.fin a ha) (.fin b hb) : Fl f) = Fl.mk (a * b) := fun _ _ _ _ => rfl
  rw [d2, e2, d3, e3, d3, e4, d2, e5, d3, e6]
  rfl

theorem tukeyQ_mono {q q' t : ℚ} (h0 : 0 ≤ q) (ht0 : 0 < t) (hq : q ≤ q') (hqt : q' ≤ t) : tukeyQ f q t ≤ tukeyQ f q' t := by
  have u1 := rnd_unit h2 (div_nonneg h0 ht0.le) ((div_le_one ht0).2 (hq.trans hqt))
  have u1' := rnd_unit h2 (div_nonneg (h0.trans hq) ht0.le) ((div_le_one ht0).2 hqt)
  have m1 := f.rnd_mono _ _ (div_le_div_of_nonneg_right hq ht0.le)
  unfold tukeyQ
  have u2 := rnd_unit h2 (q := 1 - f.rnd (q / t)) (by linarith) (by linarith)
  have u2' := rnd_unit h2 (q := 1 - f.rnd (q' / t)) (by linarith) (by linarith)
  have m2 := f.rnd_mono (1 - f.rnd (q' / t)) (1 - f.rnd (q / t)) (by linarith)
  generalize f.rnd (1 - f.rnd (q / t)) = s at *
  generalize f.rnd (1 - f.rnd (q' / t)) = s' at *
  have u3 := rnd_unit h2 (q := s * s) (by nlinarith) (by nlinarith)
  have u3' := rnd_unit h2 (q := s' * s') (by nlinarith) (by nlinarith)
  have m3 := f.rnd_mono (s' * s') (s * s) (by nlinarith)
  apply f.rnd_mono
  apply mul_le_mul_of_nonneg_left _ ht0.le
  apply f.rnd_mono
  have : f.rnd (f.rnd (s' * s') * s') ≤ f.rnd (f.rnd (s * s) * s) := by
    apply f.rnd_mono
    exact mul_le_mul m3 m2 u2'.1 u3.1
  linarith

/-- **C125, Truncated and Tukey.** In every floating point format (rounding only has to be monotone): for a finite positive threshold and squared norms `a <= b`, not
negative and possibly infinite after an overflow, the losses are finite, between 0 and the threshold, and the loss of `a` is at most that of `b`. -/
theorem C125_bounded (m : Libm (Fl f)) {k : Robust} (hk : k = .truncated ∨ k = .tukey) {t : ℚ} {ht} (ht0 : 0 < t) {a b : Fl f} (ha : Fl.NonNeg a) (hb : Fl.NonNeg b)
    (hab : leqF a b = true) :
    ∃ p q hp hq, robustF m k a (.fin t ht) = .fin p hp ∧ robustF m k b (.fin t ht) = .fin q hq ∧ 0 ≤ p ∧ p ≤ q ∧ q ≤ t := by
  have hinf : leqF (.pinf : Fl f) (.fin t ht) = false := rfl
  have hout : ∀ c : Fl f, Fl.NonNeg c → leqF c (.fin t ht) = false → robustF m k c (.fin t ht) = .fin t ht := by
    intro c _ hc
    rcases hk with rfl | rfl <;> simp only [robustF, hc, Bool.false_eq_true, if_false]
  have hin : ∀ (q : ℚ) (hq : _), 0 ≤ q → leqF (.fin q hq : Fl f) (.fin t ht) = true →
      ∃ p hp, robustF m k (.fin q hq) (.fin t ht) = .fin p hp ∧ 0 ≤ p ∧ p ≤ t ∧ (k = .truncated → p = q) ∧ (k = .tukey → p = tukeyQ f q t) := by
    intro q hq h0 hle
    rcases hk with rfl | rfl
    · refine ⟨q, hq, by simp only [robustF, hle, if_true], h0, ?_, fun _ => rfl, fun h => (by cases h)⟩
      rw [leqF_fin] at hle
      simpa using hle
    · rw [leqF_fin] at hle
      obtain ⟨h, e, p0, p1⟩ := tukey_val h2 m (hq := hq) (ht := ht) h0 ht0 (by simpa using hle)
      exact ⟨_, h, e, p0, p1, fun h => (by cases h), fun _ => rfl⟩
  cases hb' : leqF b (.fin t ht)
  · have eb := hout b hb hb'
    cases ha' : leqF a (.fin t ht)
    · exact ⟨t, t, ht, ht, hout a ha ha', eb, ht0.le, le_rfl, le_rfl⟩
    · cases a with
      | nan => exact ha.elim
      | ninf => exact ha.elim
      | pinf => rw [hinf] at ha'; cases ha'
      | fin q hq =>
        obtain ⟨p, hp, e, p0, p1, -⟩ := hin q hq ha ha'
        exact ⟨p, t, hp, ht, e, eb, p0, p1, le_rfl⟩
  · cases b with
    | nan => exact hb.elim
    | ninf => exact hb.elim
    | pinf => rw [hinf] at hb'; cases hb'
    | fin q' hq' =>
      cases a with
      | nan => exact ha.elim
      | ninf => exact ha.elim
      | pinf => cases hab
      | fin q hq =>
        rw [leqF_fin] at hab
        have hab : q ≤ q' := by simpa using hab
        have hqt : q' ≤ t := by rw [leqF_fin] at hb'; simpa using hb'
        obtain ⟨p, hp, e, p0, p1, c1, c2⟩ := hin q hq ha (by rw [leqF_fin]; simpa using hab.trans hqt)
        obtain ⟨p', hp', e', p0', p1', c1', c2'⟩ := hin q' hq' hb (by rw [leqF_fin]; simpa using hqt)
        refine ⟨p, p', hp, hp', e, e', p0, ?_, p1'⟩
        rcases hk with rfl | rfl
        · rw [c1 rfl, c1' rfl]; exact hab
        · rw [c2 rfl, c2' rfl]; exact tukeyQ_mono h2 ha ht0 hab hqt

/-- **C125, GemanMcClure.** For a finite squared norm and a finite positive threshold whose sum does not overflow, the loss is between 0 and 1. Missing: sums that overflow
and infinite squared norms (`C125_gm_nan`, `C125_gm_zero`). -/
theorem C125_gm_partial (m : Libm (Fl f)) {q t : ℚ} {hq ht} (h0 : 0 ≤ q) (ht0 : 0 < t) (hs : q + t ≤ f.max) :
    ∃ r hr, robustF m .gemanMcClure (.fin q hq) (.fin t ht) = .fin r hr ∧ 0 ≤ r ∧ r ≤ 1 := by
  obtain ⟨g1, e1, a1, b1⟩ := mk_upto (f := f) (q := q + t) (b := f.max) (by linarith) hs f.grid_max le_rfl
  have hge : q ≤ f.rnd (q + t) := by
    have := f.rnd_mono q (q + t) (by linarith)
    rwa [f.rnd_id q hq.1] at this
  have hpos : 0 < f.rnd (q + t) := by
    have := f.rnd_mono t (q + t) (by linarith)
    rw [f.rnd_id t ht.1] at this
    linarith
  obtain ⟨g2, e2, a2, b2⟩ := mk_upto (f := f) (q := q / f.rnd (q + t)) (b := 1) (div_nonneg h0 hpos.le) ((div_le_one hpos).2 hge) h2.1 (by linarith [h2.2.2])
  refine ⟨_, g2, ?_, a2, b2⟩
  show div (.fin q hq) (Fl.mk (q + t)) = _
  rw [e1]
  show (if f.rnd (q + t) = 0 then Fl.infSign q else Fl.mk (q / f.rnd (q + t))) = _
  rw [if_neg hpos.ne', e2]

/-! ## Scales -/

omit h2 in
/-- the larger of the least normal number and a scale -/
theorem stdMax_unit {μ : ℚ} {hμ} (h1 : μ ≤ 1) {x : Fl f} (hx : ∀ q h, x = .fin q h → q ≤ 1) (hp : x ≠ .pinf) :
    ∃ r hr, stdMax (.fin μ hμ) x = .fin r hr ∧ μ ≤ r ∧ r ≤ 1 := by
  unfold stdMax
  cases x with
  | nan => exact ⟨μ, hμ, rfl, le_rfl, h1⟩
  | ninf => exact ⟨μ, hμ, rfl, le_rfl, h1⟩
  | pinf => exact absurd rfl hp
  | fin q h =>
    by_cases hlt : μ < q
    · refine ⟨q, h, ?_, hlt.le, hx q h rfl⟩
      rw [if_pos (show lt (Fl.fin μ hμ) (Fl.fin q h) = true by simpa [FloatOps.lt, Fl.lt] using hlt)]
    · refine ⟨μ, hμ, ?_, le_rfl, h1⟩
      rw [if_neg (show ¬ lt (Fl.fin μ hμ) (Fl.fin q h) = true by simpa [FloatOps.lt, Fl.lt] using hlt)]

/-- 1 divided by a number that is at least 1 -/
theorem inv_unit {y : Fl f} (hy : ∀ q h, y = .fin q h → 1 ≤ q) (hn : y ≠ .ninf) : (∀ q h, div (ofInt 1) y = .fin q h → q ≤ 1) ∧ div (ofInt 1) y ≠ .pinf := by
  rw [h2.one]
  cases y with
  | nan => exact ⟨fun q h e => (by cases e), fun e => (by cases e)⟩
  | ninf => exact absurd rfl hn
  | pinf =>
    obtain ⟨g, e, a, b⟩ := mk_upto (f := f) (q := 0) (b := 1) le_rfl (by norm_num) h2.1 (by linarith [h2.2.2])
    have e' : (div (.fin 1 ⟨h2.1, by rw [abs_one]; linarith [h2.2.2]⟩) .pinf : Fl f) = Fl.mk 0 := rfl
    rw [e', e]
    exact ⟨fun q h e => (by injection e with e; rw [← e]; exact b), fun e => (by cases e)⟩
  | fin r hr =>
    have h1 := hy r hr rfl
    obtain ⟨g, e, a, b⟩ := mk_upto (f := f) (q := 1 / r) (b := 1) (by positivity) ((div_le_one (by linarith)).2 h1) h2.1 (by linarith [h2.2.2])
    have e' : (div (.fin 1 ⟨h2.1, by rw [abs_one]; linarith [h2.2.2]⟩) (.fin r hr) : Fl f) = Fl.mk (1 / r) := by
      show (if r = 0 then _ else _) = _
      rw [if_neg (by linarith)]
    rw [e', e]
    exact ⟨fun q h e => (by injection e with e; rw [← e]; exact b), fun e => (by cases e)⟩

/-- a sum of 1 and a number that is not negative -/
theorem add_one_ge {y : Fl f} (hy : Fl.NonNeg y) : (∀ q h, add (ofInt 1) y = .fin q h → 1 ≤ q) ∧ add (ofInt 1) y ≠ .ninf ∧ add y (ofInt 1) = add (ofInt 1) y := by
  rw [h2.one]
  cases y with
  | nan => exact hy.elim
  | ninf => exact hy.elim
  | pinf => exact ⟨fun q h e => (by cases e), fun e => (by cases e), rfl⟩
  | fin r hr =>
    have hr0 : 0 ≤ r := hy
    have e1 : (add (.fin 1 ⟨h2.1, by rw [abs_one]; linarith [h2.2.2]⟩) (.fin r hr) : Fl f) = Fl.mk (1 + r) := rfl
    have e2 : (add (.fin r hr) (.fin 1 ⟨h2.1, by rw [abs_one]; linarith [h2.2.2]⟩) : Fl f) = Fl.mk (1 + r) := by
      show Fl.mk (r + 1) = _
      rw [add_comm]
    rw [e1, e2]
    have h1 : 1 ≤ f.rnd (1 + r) := by
      have := f.rnd_mono 1 (1 + r) (by linarith)
      rwa [f.rnd_id 1 h2.1] at this
    refine ⟨fun q h e => ?_, fun e => ?_, rfl⟩
    · unfold Fl.mk Fl.ofGrid at e
      split at e
      · injection e with e; rw [← e]; exact h1
      · split at e <;> cases e
    · unfold Fl.mk Fl.ofGrid at e
      split at e
      · cases e
      · rw [if_pos (by linarith)] at e; cases e

omit h2 in
/-- the square of a number that is not negative -/
theorem sq_nonNeg {a : Fl f} (ha : Fl.NonNeg a) : Fl.NonNeg (mul a a) := by
  cases a with
  | nan => exact ha.elim
  | ninf => exact ha.elim
  | pinf => trivial
  | fin q h => exact Fl.mk_nonNeg (mul_self_nonneg q)

omit h2 in
theorem sqrt_ratio {q t : ℚ} {hq ht} (ht0 : 0 ≤ t) (hqt : t ≤ q) (h1 : f.Grid 1) (hm : 1 ≤ f.max) :
    (∀ r h, div (sqrt (.fin t ht : Fl f)) (sqrt (.fin q hq)) = .fin r h → r ≤ 1) ∧ div (sqrt (.fin t ht : Fl f)) (sqrt (.fin q hq)) ≠ .pinf := by
  have es : ∀ (x : ℚ) (hx : _), 0 ≤ x → sqrt (.fin x hx : Fl f) = Fl.ofGrid (f.sqrtq x) (f.sqrt_grid x) := by
    intro x hx h0
    show (if x < 0 then Fl.nan else _) = _
    rw [if_neg (by linarith)]
  rw [es t ht ht0, es q hq (ht0.trans hqt)]
  suffices H : ∀ (A B : ℚ) (gA : f.Grid A) (gB : f.Grid B), 0 ≤ A → 0 ≤ B → A ≤ B →
      (∀ r h, div (Fl.ofGrid A gA : Fl f) (Fl.ofGrid B gB) = .fin r h → r ≤ 1) ∧ div (Fl.ofGrid A gA : Fl f) (Fl.ofGrid B gB) ≠ .pinf from
    H _ _ _ _ (f.sqrt_nonneg t) (f.sqrt_nonneg q) (f.sqrt_mono t q hqt)
  intro A B gA gB a0 b0 hab
  by_cases hBm : B ≤ f.max
  · have hAm : A ≤ f.max := hab.trans hBm
    have eA : (Fl.ofGrid A gA : Fl f) = .fin A ⟨gA, by rw [abs_of_nonneg a0]; exact hAm⟩ := by
      unfold Fl.ofGrid; rw [dif_pos (by rw [abs_of_nonneg a0]; exact hAm)]
    have eB : (Fl.ofGrid B gB : Fl f) = .fin B ⟨gB, by rw [abs_of_nonneg b0]; exact hBm⟩ := by
      unfold Fl.ofGrid; rw [dif_pos (by rw [abs_of_nonneg b0]; exact hBm)]
    rw [eA, eB]
    show (∀ r h, (if B = 0 then Fl.infSign A else Fl.mk (A / B)) = Fl.fin r h → r ≤ 1) ∧ (if B = 0 then Fl.infSign A else Fl.mk (A / B)) ≠ Fl.pinf
    by_cases hB0 : B = 0
    · have hA0 : A = 0 := le_antisymm (hB0 ▸ hab) a0
      rw [if_pos hB0, hA0]
      have : (Fl.infSign 0 : Fl f) = .nan := by unfold Fl.infSign; simp
      rw [this]
      exact ⟨fun r h e => (by cases e), fun e => (by cases e)⟩
    · rw [if_neg hB0]
      have hBp : 0 < B := lt_of_le_of_ne b0 (Ne.symm hB0)
      obtain ⟨g, e, a, b⟩ := mk_upto (f := f) (q := A / B) (b := 1) (div_nonneg a0 b0) ((div_le_one hBp).2 hab) h1 hm
      rw [e]
      exact ⟨fun r h e => (by injection e with e; rw [← e]; exact b), fun e => (by cases e)⟩
  · have eB : (Fl.ofGrid B gB : Fl f) = .pinf := by
      unfold Fl.ofGrid
      rw [dif_neg (by rw [abs_of_nonneg b0]; exact hBm), if_pos (by linarith [f.max_pos, not_le.1 hBm])]
    rw [eB]
    unfold Fl.ofGrid
    split
    · obtain ⟨g, e, a, b⟩ := mk_upto (f := f) (q := 0) (b := 1) le_rfl (by norm_num) h1 hm
      show (∀ r h, (Fl.mk 0 : Fl f) = Fl.fin r h → r ≤ 1) ∧ (Fl.mk 0 : Fl f) ≠ Fl.pinf
      rw [e]
      exact ⟨fun r h e => (by injection e with e; rw [← e]; exact b), fun e => (by cases e)⟩
    · split
      · exact ⟨fun r h e => (by cases e), fun e => (by cases e)⟩
      · exact ⟨fun r h e => (by cases e), fun e => (by cases e)⟩

/-- **C125, scales.** For a finite positive threshold and a squared norm that is not negative (or infinite after an overflow), the scales of Huber, Arctan and Cauchy
are numbers between `numeric_limits::min()` and 1. -/
theorem C125_scales (m : Libm (Fl f)) {μ : ℚ} {hμ} (hm : m.minNorm = .fin μ hμ) (hμ1 : μ ≤ 1) {k : Robust} (hk : k = .huber ∨ k = .arctan ∨ k = .cauchy) {t : ℚ} {ht} (ht0 : 0 < t)
    {a : Fl f} (ha : Fl.NonNeg a) : ∃ r hr, robustScaleF m k a (.fin t ht) = .fin r hr ∧ μ ≤ r ∧ r ≤ 1 := by
  have htp : Fl.FinPos (.fin t ht : Fl f) := ⟨t, ht, rfl, ht0⟩
  have hm1 : (1 : ℚ) ≤ f.max := by linarith [h2.2.2]
  rcases hk with rfl | rfl | rfl
  · unfold robustScaleF
    simp only
    split
    · exact ⟨1, ⟨h2.1, by rw [abs_one]; exact hm1⟩, h2.one, hμ1, le_rfl⟩
    next hgt =>
      rw [hm]
      cases a with
      | nan => exact ha.elim
      | ninf => exact ha.elim
      | pinf =>
        apply stdMax_unit hμ1
        · intro q h e
          have hs : sqrt (.fin t ht : Fl f) = Fl.ofGrid (f.sqrtq t) (f.sqrt_grid t) := by
            show (if t < 0 then Fl.nan else _) = _
            rw [if_neg (by linarith)]
          rw [hs] at e
          unfold Fl.ofGrid at e
          obtain ⟨g, e0, a0, b0⟩ := mk_upto (f := f) (q := 0) (b := 1) le_rfl (by norm_num) h2.1 hm1
          split at e
          · change (Fl.mk 0 : Fl f) = _ at e
            rw [e0] at e; injection e with e; rw [← e]; exact b0
          · split at e <;> cases e
        · intro e
          have hs : sqrt (.fin t ht : Fl f) = Fl.ofGrid (f.sqrtq t) (f.sqrt_grid t) := by
            show (if t < 0 then Fl.nan else _) = _
            rw [if_neg (by linarith)]
          rw [hs] at e
          unfold Fl.ofGrid at e
          obtain ⟨g, e0, a0, b0⟩ := mk_upto (f := f) (q := 0) (b := 1) le_rfl (by norm_num) h2.1 hm1
          split at e
          · change (Fl.mk 0 : Fl f) = _ at e
            rw [e0] at e; cases e
          · split at e <;> cases e
      | fin q hq =>
        rw [leqF_fin] at hgt
        obtain ⟨c1, c2⟩ := sqrt_ratio (f := f) (hq := hq) (ht := ht) ht0.le (by simpa using (le_of_not_ge (by simpa using hgt))) h2.1 hm1
        exact stdMax_unit hμ1 c1 c2
  · unfold robustScaleF
    simp only
    rw [hm]
    obtain ⟨c1, c2, c3⟩ := add_one_ge h2 ((sq_nonNeg ha).div_pos htp)
    have c3' : add (div (mul a a) (.fin t ht)) (ofInt 1) = add (ofInt 1) (div (mul a a) (.fin t ht)) := c3
    rw [c3']
    obtain ⟨d1, d2⟩ := inv_unit h2 c1 c2
    exact stdMax_unit hμ1 d1 d2
  · unfold robustScaleF
    simp only
    rw [hm]
    obtain ⟨c1, c2, -⟩ := add_one_ge h2 (ha.div_pos htp)
    obtain ⟨d1, d2⟩ := inv_unit h2 c1 c2
    exact stdMax_unit hμ1 d1 d2

/-! ## Order -/

omit h2 in
theorem ofGrid_leq {a b : ℚ} (ha : f.Grid a) (hb : f.Grid b) (h : a ≤ b) : leqF (Fl.ofGrid a ha : Fl f) (Fl.ofGrid b hb) = true := by
  unfold Fl.ofGrid
  have hm := f.max_pos
  split
  next h1 =>
    split
    · rw [leqF_fin]; simpa using h
    next h2 =>
      rw [if_pos]
      · rfl
      · rw [abs_le] at h1 h2
        by_contra hc
        exact h2 ⟨by linarith, by linarith⟩
  next h1 =>
    by_cases ha0 : 0 < a
    · rw [if_pos ha0, dif_neg (fun hb' => h1 (by rw [abs_of_pos ha0]; exact h.trans ((le_abs_self b).trans hb'))), if_pos (by linarith)]
      rfl
    · rw [if_neg ha0]
      split
      · rfl
      · split <;> rfl

omit h2 in
theorem mk_leq {a b : ℚ} (h : a ≤ b) : leqF (Fl.mk a : Fl f) (Fl.mk b) = true := ofGrid_leq _ _ (f.rnd_mono _ _ h)

omit h2 in
theorem mk_ne_nan (a : ℚ) : (Fl.mk a : Fl f) ≠ .nan := by
  unfold Fl.mk Fl.ofGrid
  split
  · exact fun e => (by cases e)
  · split <;> exact fun e => (by cases e)

omit h2 in
/-- every number that is not NaN is at most `+∞` -/
theorem leq_pinf {a : Fl f} (h : a ≠ .nan) : leqF a .pinf = true := by
  cases a with
  | nan => exact absurd rfl h
  | _ => rfl

omit h2 in
theorem NonNeg.ne_nan {a : Fl f} (h : Fl.NonNeg a) : a ≠ .nan := by rintro rfl; exact h

omit h2 in
theorem div_leq {a b c : Fl f} (ha : Fl.NonNeg a) (hb : Fl.NonNeg b) (hc : Fl.FinPos c) (h : leqF a b = true) : leqF (div a c) (div b c) = true := by
  have hd := ha.div_pos hc
  obtain ⟨t, ht, rfl, ht0⟩ := hc
  have hp : (div .pinf (.fin t ht) : Fl f) = .pinf := by
    show (if t < 0 then _ else _) = _
    rw [if_neg (by linarith)]
  cases b with
  | nan => exact hb.elim
  | ninf => exact hb.elim
  | pinf => rw [hp]; exact leq_pinf (NonNeg.ne_nan hd)
  | fin q hq =>
    cases a with
    | nan => exact ha.elim
    | ninf => exact ha.elim
    | pinf => cases h
    | fin r hr =>
      rw [leqF_fin] at h
      have hf : ∀ x hx, (div (.fin x hx) (.fin t ht) : Fl f) = Fl.mk (x / t) := by
        intro x hx
        show (if t = 0 then _ else _) = _
        rw [if_neg ht0.ne']
      rw [hf, hf]
      exact mk_leq (div_le_div_of_nonneg_right (by simpa using h) ht0.le)

omit h2 in
theorem mul_leq {a b c : Fl f} (ha : Fl.NonNeg a) (hb : Fl.NonNeg b) (hc : Fl.FinPos c) (h : leqF a b = true) : leqF (mul c a) (mul c b) = true := by
  have hd := Fl.mul_nonNeg hc ha
  obtain ⟨t, ht, rfl, ht0⟩ := hc
  have hp : (mul (.fin t ht) .pinf : Fl f) = .pinf := by
    show Fl.infSign t = _
    unfold Fl.infSign
    rw [if_pos ht0]
  cases b with
  | nan => exact hb.elim
  | ninf => exact hb.elim
  | pinf => rw [hp]; exact leq_pinf (NonNeg.ne_nan hd)
  | fin q hq =>
    cases a with
    | nan => exact ha.elim
    | ninf => exact ha.elim
    | pinf => cases h
    | fin r hr =>
      rw [leqF_fin] at h
      exact mk_leq (mul_le_mul_of_nonneg_left (by simpa using h) ht0.le)

omit h2 in
theorem add_leq {a b c : Fl f} (ha : Fl.NonNeg a) (hb : Fl.NonNeg b) (hc : Fl.NonNeg c) (h : leqF a b = true) :
    leqF (add c a) (add c b) = true ∧ leqF (add a c) (add b c) = true ∧ Fl.NonNeg (add c a) ∧ Fl.NonNeg (add a c) := by
  cases c with
  | nan => exact hc.elim
  | ninf => exact hc.elim
  | pinf =>
    cases a with
    | nan => exact ha.elim
    | ninf => exact ha.elim
    | _ =>
      cases b with
      | nan => exact hb.elim
      | ninf => exact hb.elim
      | _ => exact ⟨rfl, rfl, trivial, trivial⟩
  | fin t ht =>
    have ht0 : 0 ≤ t := hc
    cases b with
    | nan => exact hb.elim
    | ninf => exact hb.elim
    | pinf =>
      cases a with
      | nan => exact ha.elim
      | ninf => exact ha.elim
      | pinf => exact ⟨rfl, rfl, trivial, trivial⟩
      | fin r hr =>
        have hr0 : 0 ≤ r := ha
        exact ⟨leq_pinf (mk_ne_nan _), leq_pinf (mk_ne_nan _), Fl.mk_nonNeg (by linarith), Fl.mk_nonNeg (by linarith)⟩
    | fin q hq =>
      cases a with
      | nan => exact ha.elim
      | ninf => exact ha.elim
      | pinf => cases h
      | fin r hr =>
        rw [leqF_fin] at h
        have h : r ≤ q := by simpa using h
        have hr0 : 0 ≤ r := ha
        exact ⟨mk_leq (by linarith), mk_leq (by linarith), Fl.mk_nonNeg (by linarith), Fl.mk_nonNeg (by linarith)⟩

omit h2 in
theorem neg_leq {a b : Fl f} (h : leqF a b = true) : leqF (neg b) (neg a) = true := by
  cases a <;> cases b <;> first | rfl | (cases h; done) | skip
  next q hq r hr =>
    rw [leqF_fin] at h
    have h : q ≤ r := by simpa using h
    show leqF (Fl.fin (-r) _) (Fl.fin (-q) _) = true
    rw [leqF_fin]
    simpa using h

omit h2 in
theorem sqrt_leq {a b : Fl f} (ha : Fl.NonNeg a) (hb : Fl.NonNeg b) (h : leqF a b = true) :
    leqF (sqrt a) (sqrt b) = true ∧ Fl.NonNeg (sqrt a) := by
  have es : ∀ (x : ℚ) (hx : _), 0 ≤ x → sqrt (.fin x hx : Fl f) = Fl.ofGrid (f.sqrtq x) (f.sqrt_grid x) := by
    intro x hx h0
    show (if x < 0 then Fl.nan else _) = _
    rw [if_neg (by linarith)]
  have hp : (sqrt .pinf : Fl f) = .pinf := rfl
  have hn : Fl.NonNeg (sqrt a) := by
    cases a with
    | nan => exact ha.elim
    | ninf => exact ha.elim
    | pinf => trivial
    | fin q hq => rw [es q hq ha]; exact Fl.ofGrid_nonNeg _ (f.sqrt_nonneg q)
  refine ⟨?_, hn⟩
  cases b with
  | nan => exact hb.elim
  | ninf => exact hb.elim
  | pinf => rw [hp]; exact leq_pinf (NonNeg.ne_nan hn)
  | fin q hq =>
    cases a with
    | nan => exact ha.elim
    | ninf => exact ha.elim
    | pinf => cases h
    | fin r hr =>
      rw [leqF_fin] at h
      rw [es r hr ha, es q hq hb]
      exact ofGrid_leq _ _ (f.sqrt_mono _ _ (by simpa using h))

omit h2 in
theorem sub_leq {a b : Fl f} {t : ℚ} {ht} (h : leqF a b = true) : leqF (sub a (.fin t ht)) (sub b (.fin t ht)) = true := by
  cases a <;> cases b <;> first | rfl | (cases h; done) | skip
  next r hr =>
    cases hx : (sub (Fl.fin r hr) (Fl.fin t ht) : Fl f) with
    | nan => exact absurd hx (mk_ne_nan _)
    | _ => rfl
  next r hr => exact leq_pinf (mk_ne_nan _)
  next q hq r hr =>
    rw [leqF_fin] at h
    have h : q ≤ r := by simpa using h
    exact mk_leq (by linarith)

omit h2 in
theorem leq_zero {a : Fl f} (h : leqF (ofInt 0) a = true) : Fl.NonNeg a := by
  rw [Fl.ofInt_zero] at h
  cases a with
  | nan => cases h
  | ninf => cases h
  | pinf => trivial
  | fin q hq => rw [leqF_fin] at h; show 0 ≤ q; simpa using h

omit h2 in
theorem NonNeg.leq {a : Fl f} (h : Fl.NonNeg a) : leqF (ofInt 0) a = true := by
  rw [Fl.ofInt_zero]
  cases a with
  | nan => exact h.elim
  | ninf => exact h.elim
  | pinf => rfl
  | fin q hq => rw [leqF_fin]; have h : 0 ≤ q := h; simpa using h

omit h2 in
theorem leqF_refl {a : Fl f} (h : a ≠ .nan) : leqF a a = true := by
  cases a with
  | nan => exact absurd rfl h
  | fin q hq => rw [leqF_fin]; simp
  | _ => rfl

/-- what is used of `libm`: the functions are monotone and exact at one point -/
structure LibmMono (m : Libm (Fl f)) : Prop where
  log_one : m.log (ofInt 1) = ofInt 0
  log : ∀ x y, Fl.NonNeg x → leqF x y = true → leqF (m.log x) (m.log y) = true
  exp : ∀ x y, leqF x y = true → leqF (m.exp x) (m.exp y) = true
  exp_pos : ∀ x, x ≠ .nan → Fl.NonNeg (m.exp x)
  atan2 : ∀ x y c, Fl.FinPos c → Fl.NonNeg x → leqF x y = true → leqF (m.atan2 x c) (m.atan2 y c) = true
  atan2_zero : ∀ c, Fl.FinPos c → m.atan2 (ofInt 0) c = ofInt 0

/-- **C125, order.** In every floating point format and for every `libm` whose functions are monotone: for a finite positive threshold (with a positive finite square
root) and squared norms `a <= b`, not negative and possibly infinite, the losses Truncated, Tukey, Arctan and Cauchy of `a` are at most those of `b` and not negative, without any
exception from rounding, underflow or overflow. -/
theorem C125_monotone (m : Libm (Fl f)) (hm : LibmMono m) {k : Robust} (hk : k = .truncated ∨ k = .tukey ∨ k = .arctan ∨ k = .cauchy) {t : Fl f} (ht : Fl.FinPos t)
    (hs : Fl.FinPos (sqrt t)) {a b : Fl f} (ha : Fl.NonNeg a) (hb : Fl.NonNeg b) (hab : leqF a b = true) :
    Fl.NonNeg (robustF m k a t) ∧ leqF (robustF m k a t) (robustF m k b t) = true := by
  have htr : (k = .truncated ∨ k = .tukey) → Fl.NonNeg (robustF m k a t) ∧ leqF (robustF m k a t) (robustF m k b t) = true := by
    intro hk
    obtain ⟨q, hq, rfl, hq0⟩ := ht
    obtain ⟨p, r, hp, hr, e1, e2, h0, h1, -⟩ := C125_bounded h2 m hk (ht := hq) hq0 ha hb hab
    rw [e1, e2]
    exact ⟨h0, by rw [leqF_fin]; simpa using h1⟩
  rcases hk with h | h | rfl | rfl
  · exact htr (Or.inl h)
  · exact htr (Or.inr h)
  · have hz : Fl.NonNeg (ofInt 0 : Fl f) := by rw [Fl.ofInt_zero]; exact le_rfl
    have n1 : ∀ x : Fl f, Fl.NonNeg x → Fl.NonNeg (m.atan2 x (sqrt t)) := by
      intro x hx
      apply leq_zero
      rw [← hm.atan2_zero _ hs]
      exact hm.atan2 _ _ _ hs hz (NonNeg.leq hx)
    exact ⟨Fl.mul_nonNeg hs (n1 a ha), mul_leq (n1 a ha) (n1 b hb) hs (hm.atan2 _ _ _ hs ha hab)⟩
  · have h1 : Fl.NonNeg (ofInt 1 : Fl f) := by rw [h2.one]; show (0 : ℚ) ≤ 1; norm_num
    have hda := ha.div_pos ht
    have hdb := hb.div_pos ht
    obtain ⟨c1, -, c3, -⟩ := add_leq hda hdb h1 (div_leq ha hb ht hab)
    have hge : ∀ x : Fl f, Fl.NonNeg x → leqF (ofInt 1) (add (ofInt 1) x) = true := by
      intro x hx
      have hz : Fl.NonNeg (ofInt 0 : Fl f) := by rw [Fl.ofInt_zero]; exact le_rfl
      have := (add_leq hz hx h1 (NonNeg.leq hx)).1
      have e : (add (ofInt 1) (ofInt 0) : Fl f) = ofInt 1 := by
        rw [h2.one, Fl.ofInt_zero]
        show Fl.mk (1 + 0) = _
        have e : f.rnd (1 + 0) = 1 := by rw [add_zero]; exact f.rnd_id 1 h2.1
        unfold Fl.mk Fl.ofGrid
        simp only [e, abs_one]
        rw [dif_pos (by linarith [h2.2.2])]
      rwa [e] at this
    have n1 : ∀ x : Fl f, Fl.NonNeg x → Fl.NonNeg (m.log (add (ofInt 1) x)) := by
      intro x hx
      apply leq_zero
      rw [← hm.log_one]
      exact hm.log _ _ h1 (hge x hx)
    exact ⟨Fl.mul_nonNeg ht (n1 _ hda), mul_leq (n1 _ hda) (n1 _ hdb) ht (hm.log _ _ c3 c1)⟩

omit h2 in
/-- **C125, order of BlakeZisserman.** The loss of `a` is at most that of `b`. -/
theorem C125_blake_monotone (m : Libm (Fl f)) (hm : LibmMono m) {t a b : Fl f} (ht : t ≠ .nan) (hab : leqF a b = true) :
    leqF (robustF m .blakeZisserman a t) (robustF m .blakeZisserman b t) = true := by
  have hn : leqF (neg b) (neg a) = true := neg_leq hab
  have hna : a ≠ .nan := by rintro rfl; cases hab
  have hnb : b ≠ .nan := by rintro rfl; cases a <;> cases hab
  have hneg : ∀ x : Fl f, x ≠ .nan → neg x ≠ .nan := by
    intro x hx
    cases x with
    | nan => exact absurd rfl hx
    | _ => exact fun e => (by cases e)
  have ha' := hm.exp_pos _ (hneg a hna)
  have hb' := hm.exp_pos _ (hneg b hnb)
  obtain ⟨-, c2, -, c4⟩ := add_leq hb' ha' (hm.exp_pos _ (hneg t ht)) (hm.exp _ _ hn)
  exact neg_leq (hm.log _ _ c4 c2)

omit h2 in
/-- Huber on one side of the threshold -/
theorem huber_side (m : Libm (Fl f)) {t : Fl f} (ht : Fl.FinPos t) (hs : Fl.FinPos (mul (ofInt 2) (sqrt t))) {a b : Fl f} (ha : Fl.NonNeg a) (hb : Fl.NonNeg b) (hab : leqF a b = true)
    (hside : leqF a t = leqF b t) : leqF (robustF m .huber a t) (robustF m .huber b t) = true := by
  obtain ⟨q, hq, rfl, hq0⟩ := ht
  cases hb' : leqF b (.fin q hq)
  · rw [hb'] at hside
    simp only [robustF, hside, hb', Bool.false_eq_true, if_false]
    obtain ⟨c1, c2⟩ := sqrt_leq ha hb hab
    have c3 := (sqrt_leq hb hb (leqF_refl (NonNeg.ne_nan hb))).2
    exact sub_leq (mul_leq c2 c3 hs c1)
  · rw [hb'] at hside
    simpa only [robustF, hside, hb', if_true] using hab

/-! ## What goes wrong -/

omit h2 in
/-- **C125 is violated (NaN).** A residual that is NaN is an outlier like others for Truncated and Tukey: the loss is the threshold, a good number, and the scale is 0; and
Huber, Arctan and Cauchy export a good scale. -/
theorem C125_nan (m : Libm (Fl f)) (t : Fl f) :
    robustF m .truncated .nan t = t ∧ robustScaleF m .truncated .nan t = ofInt 0 ∧ robustF m .tukey .nan t = t ∧ robustScaleF m .tukey .nan t = ofInt 0 ∧
      robustScaleF m .huber .nan t = m.minNorm ∧ robustScaleF m .arctan .nan t = m.minNorm ∧ robustScaleF m .cauchy .nan t = m.minNorm := by
  have e : leqF (.nan : Fl f) t = false := by cases t <;> rfl
  have n1 : ∀ x : Fl f, (div x .nan : Fl f) = .nan := fun x => by cases x <;> rfl
  have n2 : ∀ x : Fl f, (add x .nan : Fl f) = .nan := fun x => by cases x <;> rfl
  have n2' : ∀ x : Fl f, (add .nan x : Fl f) = .nan := fun x => by cases x <;> rfl
  have n3 : (div .nan t : Fl f) = .nan := by cases t <;> rfl
  have n4 : ∀ x : Fl f, stdMax x .nan = x := by
    intro x
    unfold stdMax
    rw [if_neg (by cases x <;> (intro h; cases h))]
  have ns : (sqrt .nan : Fl f) = .nan := rfl
  have nm : (mul .nan .nan : Fl f) = .nan := rfl
  refine ⟨?_, ?_, ?_, ?_, ?_, ?_, ?_⟩ <;> simp only [robustF, robustScaleF, e, Bool.false_eq_true, if_false, n1, n2, n2', n3, n4, ns, nm]

omit h2 in
/-- **C125 is violated (GemanMcClure).** An infinite squared norm has a loss that is NaN. -/
theorem C125_gm_nan (m : Libm (Fl f)) {t : Fl f} (ht : Fl.FinPos t) : robustF m .gemanMcClure .pinf t = .nan := by
  obtain ⟨q, hq, rfl, -⟩ := ht
  rfl

omit h2 in
/-- **C125 is violated (GemanMcClure).** When the squared norm plus the threshold overflows the loss of this worst of all residuals is 0. -/
theorem C125_gm_zero (m : Libm (Fl f)) {q t : ℚ} {hq ht} (hs : f.max < f.rnd (q + t)) : robustF m .gemanMcClure (.fin q hq) (.fin t ht) = ofInt 0 := by
  have e : (Fl.mk (q + t) : Fl f) = .pinf := by
    unfold Fl.mk Fl.ofGrid
    rw [dif_neg (not_le.2 (hs.trans_le (le_abs_self _))), if_pos (by linarith [f.max_pos])]
  show div (.fin q hq) (Fl.mk (q + t)) = _
  rw [e]
  show (Fl.mk 0 : Fl f) = Fl.mk _
  norm_num

omit h2 in
/-- **C125 is violated (small thresholds).** When the square of the threshold underflows, the Tukey scale of every inlier is infinite or NaN, and so is the GemanMcClure scale of a
residual that is 0. -/
theorem C125_small_threshold (m : Libm (Fl f)) {t : ℚ} {ht} (ht0 : f.rnd (t * t) = 0) :
    (∀ a : Fl f, leqF a (.fin t ht) = true → finite (robustScaleF m .tukey a (.fin t ht)) = false) ∧ finite (robustScaleF m .gemanMcClure (ofInt 0) (.fin t ht)) = false := by
  have hz : (mul (.fin t ht) (.fin t ht) : Fl f) = ofInt 0 := by
    rw [Fl.ofInt_zero]
    show Fl.mk (t * t) = _
    unfold Fl.mk Fl.ofGrid
    simp only [ht0, abs_zero]
    rw [dif_pos f.max_pos.le]
  have hd : ∀ x : Fl f, finite (div x (ofInt 0)) = false := by
    intro x
    rw [Fl.ofInt_zero]
    cases x with
    | nan => rfl
    | pinf => show finite (if (0 : ℚ) < 0 then Fl.ninf else Fl.pinf : Fl f) = false; split <;> rfl
    | ninf => show finite (if (0 : ℚ) < 0 then Fl.pinf else Fl.ninf : Fl f) = false; split <;> rfl
    | fin q h =>
      show finite (if (0 : ℚ) = 0 then Fl.infSign q else Fl.mk (q / 0) : Fl f) = false
      rw [if_pos rfl]
      unfold Fl.infSign
      split
      · rfl
      · split <;> rfl
  constructor
  · intro a ha
    simp only [robustScaleF, ha, if_true]
    rw [hz]
    exact hd _
  · have e : (add (ofInt 0) (.fin t ht) : Fl f) = .fin t ht := by
      rw [Fl.ofInt_zero]
      show Fl.mk (0 + t) = _
      have e : f.rnd (0 + t) = t := by rw [zero_add]; exact f.rnd_id t ht.1
      unfold Fl.mk Fl.ofGrid
      simp only [e]
      rw [dif_pos ht.2]
    simp only [robustScaleF]
    rw [e, hz]
    exact hd _

end

/-! ## Huber across the threshold -/

theorem leqF_trans {f : Fmt} {a b c : Fl f} (h : leqF a b = true) (h' : leqF b c = true) : leqF a c = true := by
  cases a <;> cases b <;> first | (cases h; done) | skip
  all_goals cases c <;> first | rfl | (cases h'; done) | skip
  next q hq r hr s hs =>
    rw [leqF_fin] at h h' ⊢
    have h : q ≤ r := by simpa using h
    have h' : r ≤ s := by simpa using h'
    simpa using h.trans h'

section
variable {p : ℕ} {hp : p ≠ 0} {emin : ℤ} {hem : emin ≤ -emin - 2 * p + 3} {eps : ℚ}

local notation "𝔽" => Fmt.ieee p hp emin hem eps

/-- twice the square root of a positive number is a positive number -/
theorem two_sqrt_fin (h2p : 2 * (p : ℤ) ≤ -emin) (hm4 : 4 ≤ (𝔽).max) (hmg : GridBin p emin ((𝔽).max / 2)) {t : ℚ} {ht} (h0 : 0 < t) :
    ∃ h1 h2, sqrt (.fin t ht : Fl 𝔽) = .fin ((𝔽).sqrtq t) h1 ∧ mul (ofInt 2) (sqrt (.fin t ht : Fl 𝔽)) = .fin (2 * (𝔽).sqrtq t) h2 ∧ 0 < (𝔽).sqrtq t := by
  have htm : t ≤ (𝔽).max := (le_abs_self t).trans ht.2
  have gt : GridBin p emin t := ht.1
  have nt : ∀ g : ℚ, GridBin p emin g → |((𝔽).sqrtq t : ℝ) - √(t : ℝ)| ≤ |(g : ℝ) - √(t : ℝ)| := fun g hg =>
    ieee_sqrt_nearest p hp emin hem eps h0.le gt htm hg
  have hT2 : (𝔽).sqrtq t ≤ (𝔽).max / 2 := by
    have h : √(t : ℝ) ≤ (((𝔽).max / 2 : ℚ) : ℝ) := by
      apply Real.sqrt_le_iff.2
      constructor
      · have : (0 : ℚ) ≤ (𝔽).max / 2 := by linarith
        exact_mod_cast this
      · have : t ≤ ((𝔽).max / 2) ^ 2 := by nlinarith
        exact_mod_cast this
    have := near_le (nt _ hmg) h
    exact_mod_cast this
  have hT0 : 0 < (𝔽).sqrtq t := by
    have g0 : GridBin p emin (2 ^ emin) := ⟨1, emin, by rw [abs_one]; exact one_lt_pow₀ (by norm_num) hp, le_rfl, by push_cast; ring⟩
    obtain ⟨m, hm⟩ := gridBin_mul gt
    have hm1 : (1 : ℚ) ≤ m := by
      have h : (0 : ℚ) < m := by
        rw [hm] at h0
        exact pos_of_mul_pos_left h0 (two_zpow_pos emin).le
      have : (0 : ℤ) < m := by exact_mod_cast h
      exact_mod_cast this
    have h1 : (2 : ℚ) ^ emin ≤ t := by rw [hm]; nlinarith [two_zpow_pos emin]
    have h3 : (2 : ℚ) ^ emin ≤ 1 := zpow_le_one_of_nonpos₀ (by norm_num) (by omega)
    have h4 : ((2 ^ emin : ℚ) : ℝ) ≤ √(t : ℝ) := by
      apply Real.le_sqrt_of_sq_le
      have : ((2 : ℚ) ^ emin) ^ 2 ≤ t := by nlinarith [two_zpow_pos emin]
      exact_mod_cast this
    have h5 := near_ge (nt _ g0) h4
    have h6 : (2 : ℚ) ^ emin ≤ (𝔽).sqrtq t := by exact_mod_cast h5
    linarith [two_zpow_pos emin]
  have gT : GridBin p emin ((𝔽).sqrtq t) := (𝔽).sqrt_grid t
  have g2T : (𝔽).Grid (2 * (𝔽).sqrtq t) := by
    obtain ⟨m, e, hm, he, h⟩ := gT
    refine ⟨m, e + 1, hm, by omega, ?_⟩
    rw [h, zpow_add₀ (by norm_num), zpow_one]; ring
  have f1 : |(𝔽).sqrtq t| ≤ (𝔽).max := by rw [abs_of_pos hT0]; linarith
  have f2 : |2 * (𝔽).sqrtq t| ≤ (𝔽).max := by rw [abs_of_pos (by linarith)]; linarith
  have e1 : sqrt (.fin t ht : Fl 𝔽) = .fin ((𝔽).sqrtq t) ⟨gT, f1⟩ := by
    show (if t < 0 then Fl.nan else Fl.ofGrid _ _) = _
    rw [if_neg (by linarith)]
    unfold Fl.ofGrid
    rw [dif_pos f1]
  refine ⟨⟨gT, f1⟩, ⟨g2T, f2⟩, e1, ?_, hT0⟩
  rw [e1, (ieee_hasTwo h2p).two]
  show Fl.mk (2 * (𝔽).sqrtq t) = _
  have e := (𝔽).rnd_id _ g2T
  unfold Fl.mk Fl.ofGrid
  simp only [e]
  rw [dif_pos f2]

/-- an outlier costs at least the threshold -/
theorem huber_outlier (h6 : 6 ≤ p) (h2p : 2 * (p : ℤ) ≤ -emin) (hm4 : 4 ≤ (𝔽).max) (hmg : GridBin p emin ((𝔽).max / 2)) (m : Libm (Fl 𝔽)) {t : ℚ} {ht} (h0 : 0 < t) {b : Fl 𝔽} (hb : Fl.NonNeg b)
    (hout : leqF b (.fin t ht) = false) : leqF (.fin t ht) (robustF m .huber b (.fin t ht)) = true := by
  obtain ⟨g1, g2, e1, e2, hT0⟩ := two_sqrt_fin h2p hm4 hmg (ht := ht) h0
  simp only [robustF, hout, Bool.false_eq_true, if_false]
  rw [e2]
  have hp' : (mul (.fin (2 * (𝔽).sqrtq t) g2) .pinf : Fl 𝔽) = .pinf := by
    show Fl.infSign (2 * (𝔽).sqrtq t) = _
    unfold Fl.infSign
    rw [if_pos (by linarith)]
  have hpp : leqF (.fin t ht : Fl 𝔽) (sub .pinf (.fin t ht)) = true := rfl
  cases b with
  | nan => exact hb.elim
  | ninf => exact hb.elim
  | pinf =>
    have : (sqrt .pinf : Fl 𝔽) = .pinf := rfl
    rw [this, hp']; exact hpp
  | fin x hx =>
    rw [leqF_fin] at hout
    have htx : t < x := by simpa using hout
    obtain ⟨g1x, -, e1x, -, hN0⟩ := two_sqrt_fin h2p hm4 hmg (ht := hx) (h0.trans htx)
    rw [e1x]
    have key := two_sqrt_prod hp h6 hem h2p eps ht.1 hx.1 h0 htx ((le_abs_self x).trans hx.2)
    have e3 : (mul (.fin (2 * (𝔽).sqrtq t) g2) (.fin ((𝔽).sqrtq x) g1x) : Fl 𝔽) = Fl.mk (2 * (𝔽).sqrtq t * (𝔽).sqrtq x) := rfl
    rw [e3]
    have hr : 2 * t ≤ (𝔽).rnd (2 * (𝔽).sqrtq t * (𝔽).sqrtq x) := key
    unfold Fl.mk Fl.ofGrid
    split
    · show leqF (.fin t ht) (Fl.mk _) = true
      have := mk_leq (f := 𝔽) (a := t) (b := (𝔽).rnd (2 * (𝔽).sqrtq t * (𝔽).sqrtq x) - t) (by linarith)
      have e : (Fl.mk t : Fl 𝔽) = .fin t ht := by
        have e := (𝔽).rnd_id _ ht.1
        unfold Fl.mk Fl.ofGrid
        simp only [e]
        rw [dif_pos ht.2]
      rwa [e] at this
    · rw [if_pos (by linarith)]
      exact hpp

/-- **C125, order of Huber.** In every binary format of 6 or more bits with correctly rounded square roots: for a finite positive threshold and squared norms `a <= b`, not negative and
possibly infinite, the loss of `a` is at most that of `b`, on both sides of the threshold and across it, and it is not negative. -/
theorem C125_huber_monotone (h6 : 6 ≤ p) (h2p : 2 * (p : ℤ) ≤ -emin) (hm4 : 4 ≤ (𝔽).max) (hmg : GridBin p emin ((𝔽).max / 2)) (m : Libm (Fl 𝔽)) {t : Fl 𝔽} (ht : Fl.FinPos t) {a b : Fl 𝔽}
    (ha : Fl.NonNeg a) (hb : Fl.NonNeg b) (hab : leqF a b = true) :
    Fl.NonNeg (robustF m .huber a t) ∧ leqF (robustF m .huber a t) (robustF m .huber b t) = true := by
  obtain ⟨q, hq, rfl, hq0⟩ := ht
  have hin : ∀ c : Fl 𝔽, leqF c (.fin q hq) = true → robustF m .huber c (.fin q hq) = c := by
    intro c hc
    simp only [robustF, hc, if_true]
  have hs : Fl.FinPos (mul (ofInt 2) (sqrt (.fin q hq : Fl 𝔽))) := by
    obtain ⟨-, g2, -, e2, h0⟩ := two_sqrt_fin h2p hm4 hmg (ht := hq) hq0
    exact ⟨_, g2, e2, by linarith⟩
  have hz : Fl.NonNeg (.fin q hq : Fl 𝔽) := hq0.le
  cases ha' : leqF a (.fin q hq)
  · have h1 := huber_outlier h6 h2p hm4 hmg m hq0 ha ha'
    refine ⟨leq_zero (leqF_trans (NonNeg.leq hz) h1), ?_⟩
    have hb' : leqF b (.fin q hq) = false := by
      cases h : leqF b (.fin q hq)
      · rfl
      · rw [leqF_trans hab h] at ha'; exact ha'
    exact huber_side m ⟨q, hq, rfl, hq0⟩ hs ha hb hab (by rw [ha', hb'])
  · refine ⟨by rw [hin a ha']; exact ha, ?_⟩
    rw [hin a ha']
    cases hb' : leqF b (.fin q hq)
    · exact leqF_trans ha' (huber_outlier h6 h2p hm4 hmg m hq0 hb hb')
    · rwa [hin b hb']

end

/-- **C125, Huber in double.** -/
theorem C125_huber_double (m : Libm (Fl Fmt.binary64)) {t a b : Fl Fmt.binary64} (ht : Fl.FinPos t) (ha : Fl.NonNeg a) (hb : Fl.NonNeg b) (hab : leqF a b = true) :
    Fl.NonNeg (robustF m .huber a t) ∧ leqF (robustF m .huber a t) (robustF m .huber b t) = true :=
  C125_huber_monotone (p := 53) (emin := -1074) (by norm_num) (by norm_num) (by decide +kernel)
    (by rw [show (Fmt.ieee 53 (by norm_num) (-1074) (by norm_num) (14073749 / 2 ^ 47)).max / 2 = rndBin 53 (-1074) (Fmt.binary64.max / 2) by decide +kernel]; exact rndBin_grid (by norm_num) _)
    m ht ha hb hab

/-- **C125, Huber in float.** -/
theorem C125_huber_float (m : Libm (Fl Fmt.binary32)) {t a b : Fl Fmt.binary32} (ht : Fl.FinPos t) (ha : Fl.NonNeg a) (hb : Fl.NonNeg b) (hab : leqF a b = true) :
    Fl.NonNeg (robustF m .huber a t) ∧ leqF (robustF m .huber a t) (robustF m .huber b t) = true :=
  C125_huber_monotone (p := 24) (emin := -149) (by norm_num) (by norm_num) (by decide +kernel)
    (by rw [show (Fmt.ieee 24 (by norm_num) (-149) (by norm_num) (13743895 / 2 ^ 37)).max / 2 = rndBin 24 (-149) (Fmt.binary32.max / 2) by decide +kernel]; exact rndBin_grid (by norm_num) _)
    m ht ha hb hab

/-! ## BlakeZisserman overflows -/

/-- `exp` that underflows to 0 below half of the least number `2 ^ -lo` and overflows from `2 ^ hi` on, and `log 0 = -∞` -/
structure ExpSat {f : Fmt} (m : Libm (Fl f)) (lo hi : ℕ) : Prop where
  under : ∀ (q : ℚ) h, Real.exp (q : ℝ) < 1 / 2 ^ lo → m.exp (.fin q h) = ofInt 0
  over : ∀ (q : ℚ) h, (2 : ℝ) ^ hi ≤ Real.exp (q : ℝ) → m.exp (.fin q h) = .pinf
  inf : m.exp .pinf = .pinf
  ninf : m.exp .ninf = ofInt 0
  log : m.log (ofInt 0) = .ninf

theorem exp_big {lo : ℕ} {q : ℚ} (hq : (6931472 / 10000000 : ℚ) * lo < q) : (2 : ℝ) ^ lo < Real.exp (q : ℝ) := by
  have h2 := Real.log_two_lt_d9
  have hq' : (6931472 / 10000000 : ℝ) * lo < q := by
    have : (((6931472 / 10000000 : ℚ) * lo : ℚ) : ℝ) < q := by exact_mod_cast hq
    push_cast at this
    exact this
  rw [← Real.exp_log (show (0 : ℝ) < 2 by norm_num), ← Real.exp_nat_mul]
  apply Real.exp_lt_exp.2
  have : (lo : ℝ) * Real.log 2 ≤ lo * (6931472 / 10000000) := mul_le_mul_of_nonneg_left (by linarith) (Nat.cast_nonneg _)
  linarith

/-- **C125 is violated (BlakeZisserman).** When the threshold and the squared norm are so large that `exp` underflows, the loss is `+∞` and the scale is NaN. -/
theorem C125_blake {f : Fmt} (m : Libm (Fl f)) {lo hi : ℕ} (hm : ExpSat m lo hi) (hhi : hi ≤ lo) {t : ℚ} {ht} (ht0 : (6931472 / 10000000 : ℚ) * lo < t)
    {a : Fl f} (ha : ∀ q h, a = .fin q h → (6931472 / 10000000 : ℚ) * lo < q) (hnn : Fl.NonNeg a) :
    robustF m .blakeZisserman a (.fin t ht) = .pinf ∧ robustScaleF m .blakeZisserman a (.fin t ht) = .nan := by
  have hu : ∀ (q : ℚ) h, (6931472 / 10000000 : ℚ) * lo < q → m.exp (neg (.fin q h)) = ofInt 0 := by
    intro q h hq
    refine hm.under (-q) _ ?_
    push_cast
    rw [Real.exp_neg, one_div]
    exact inv_strictAnti₀ (by positivity) (exp_big hq)
  have e1 := hu t ht ht0
  have e2 : m.exp (neg a) = ofInt 0 ∧ m.exp a = .pinf := by
    cases a with
    | nan => exact hnn.elim
    | ninf => exact hnn.elim
    | pinf => exact ⟨hm.ninf, hm.inf⟩
    | fin q h =>
      refine ⟨hu q h (ha q h rfl), hm.over q h ?_⟩
      exact (pow_le_pow_right₀ (by norm_num) hhi).trans (exp_big (ha q h rfl)).le
  have hz : (add (ofInt 0) (ofInt 0) : Fl f) = ofInt 0 := by
    rw [Fl.ofInt_zero]
    show Fl.mk (0 + 0) = _
    unfold Fl.mk Fl.ofGrid
    simp only [add_zero, f.rnd_zero, abs_zero]
    rw [dif_pos f.max_pos.le]
  have hn : (mul (ofInt 0) .pinf : Fl f) = .nan := by
    rw [Fl.ofInt_zero]
    show Fl.infSign 0 = _
    unfold Fl.infSign
    simp
  have hn2 : ∀ x : Fl f, (add .nan x : Fl f) = .nan := fun x => by cases x <;> rfl
  have hn3 : ∀ x : Fl f, (div x .nan : Fl f) = .nan := fun x => by cases x <;> rfl
  constructor
  · simp only [robustF, e1, e2.1, hz, hm.log]
    rfl
  · simp only [robustScaleF, e1, e2.2, hn, hn2, hn3]

/-- **C125 is violated (BlakeZisserman in double).** From a threshold of 746 (th of 27.4) on, a residual with squared norm 746 or more has an infinite loss. -/
theorem C125_blake_double (m : Libm (Fl Fmt.binary64)) (hm : ExpSat m 1075 1024) {t : ℚ} {ht} (ht0 : 746 ≤ t) {a : Fl Fmt.binary64} (ha : ∀ q h, a = .fin q h → 746 ≤ q) (hnn : Fl.NonNeg a) :
    robustF m .blakeZisserman a (.fin t ht) = .pinf ∧ robustScaleF m .blakeZisserman a (.fin t ht) = .nan :=
  C125_blake m hm (by norm_num) (lt_of_lt_of_le (by norm_num) ht0) (fun q h e => lt_of_lt_of_le (by norm_num) (ha q h e)) hnn

/-- **C125 is violated (BlakeZisserman in float).** The same from 104 on (th of 10.2). -/
theorem C125_blake_float (m : Libm (Fl Fmt.binary32)) (hm : ExpSat m 150 128) {t : ℚ} {ht} (ht0 : 104 ≤ t) {a : Fl Fmt.binary32} (ha : ∀ q h, a = .fin q h → 104 ≤ q) (hnn : Fl.NonNeg a) :
    robustF m .blakeZisserman a (.fin t ht) = .pinf ∧ robustScaleF m .blakeZisserman a (.fin t ht) = .nan :=
  C125_blake m hm (by norm_num) (lt_of_lt_of_le (by norm_num) ht0) (fun q h e => lt_of_lt_of_le (by norm_num) (ha q h e)) hnn

/-- **C125 is violated (a run).** If the cost of the first evaluation is the BlakeZisserman loss of such a residual, the run stops at once with `kSystemHasNaNOrInf` and leaves the
starting point as it is. -/
theorem C125_blake_run {W S X V M : Type} {E : Env (Fl Fmt.binary64) (Fl Fmt.binary64) W S X V M} {o : Options (Fl Fmt.binary64) W V} (m : Libm (Fl Fmt.binary64)) (hm : ExpSat m 1075 1024) {t : ℚ} {ht} (ht0 : 746 ≤ t)
    {a : Fl Fmt.binary64} (ha : ∀ q h, a = .fin q h → 746 ≤ q) (hnn : Fl.NonNeg a) {fuel : Nat} {mi : Int} (hmi : budget o mi < intMax) (hnt : lt (ofInt 0) o.maxDurationMs = false) {x : X}
    {w w1 w2 : W} {s s1 s2 : S} {b : Bool} (hr : Ready E w s x w1 s1) (hb : E.sol.build w1 s1 x = (b, s2, w2)) (hnum : (E.sol.cost s2).num ≠ 0)
    (hc : (E.sol.cost s2).cost = robustF m .blakeZisserman a (.fin t ht)) :
    ∃ st, optimizeAcc E o (fuel + 1) mi w s x = .ok st ∧ FailedAtOnce E x w2 .kSystemHasNaNOrInf st := by
  refine C10_bad_cost hmi hnt hr hb hnum (Or.inr ?_)
  rw [hc, (C125_blake_double m hm ht0 ha hnn).1]
  rfl

/-! ## Examples -/

section
abbrev D := Fl Fmt.binary64

/-- a real number in double precision, by way of a multiple of `2 ^ -1200` -/
noncomputable def flR (r : ℝ) : D := Fl.mk ((⌊r * 2 ^ 1200⌋ : ℚ) / 2 ^ 1200)

/-- a `libm` -/
noncomputable def rExp : D → D
  | .nan => .nan
  | .pinf => .pinf
  | .ninf => ofInt 0
  | .fin q _ => flR (Real.exp q)

noncomputable def rLog : D → D
  | .nan => .nan
  | .pinf => .pinf
  | .ninf => .nan
  | .fin q _ => if q < 0 then .nan else if q = 0 then .ninf else flR (Real.log q)

noncomputable def rAtan2 : D → D → D
  | .fin q _, .fin c _ => flR (Real.arctan ((q : ℝ) / c))
  | .pinf, .fin _ _ => flR (Real.pi / 2)
  | _, _ => .nan

noncomputable def refLibm : Libm D := ⟨rExp, rLog, rAtan2, .fin (1 / 2 ^ 1022) ⟨⟨1, -1022, by norm_num, by norm_num, by norm_num [zpow_neg]⟩, by decide +kernel⟩⟩

theorem flR_ne_nan (r : ℝ) : flR r ≠ .nan := mk_ne_nan _

theorem flR_mono {a b : ℝ} (h : a ≤ b) : leqF (flR a) (flR b) = true := by
  apply mk_leq
  have hp : (0 : ℝ) < 2 ^ 1200 := pow_pos (by norm_num) _
  have hp' : (0 : ℚ) < 2 ^ 1200 := pow_pos (by norm_num) _
  apply div_le_div_of_nonneg_right _ hp'.le
  exact_mod_cast Int.floor_le_floor (mul_le_mul_of_nonneg_right h hp.le)

theorem flR_zero : flR 0 = ofInt 0 := by
  unfold flR
  rw [zero_mul, Int.floor_zero]
  show _ = Fl.mk _
  norm_num

theorem flR_nonneg {a : ℝ} (h : 0 ≤ a) : Fl.NonNeg (flR a) := by
  apply Fl.mk_nonNeg
  have hp : (0 : ℝ) ≤ 2 ^ 1200 := pow_nonneg (by norm_num) _
  have hp' : (0 : ℚ) ≤ 2 ^ 1200 := pow_nonneg (by norm_num) _
  apply div_nonneg _ hp'
  exact_mod_cast Int.floor_nonneg.2 (mul_nonneg h hp)

theorem zero_nonNeg : Fl.NonNeg (ofInt 0 : D) := by rw [Fl.ofInt_zero]; exact le_rfl

theorem rExp_nonNeg (x : D) (h : x ≠ .nan) : Fl.NonNeg (rExp x) := by
  cases x with
  | nan => exact absurd rfl h
  | pinf => trivial
  | ninf => exact zero_nonNeg
  | fin q hq => exact flR_nonneg (Real.exp_pos _).le

theorem rExp_mono (x y : D) (h : leqF x y = true) : leqF (rExp x) (rExp y) = true := by
  cases x with
  | nan => cases y <;> cases h
  | pinf =>
    cases y with
    | pinf => rfl
    | _ => cases h
  | ninf =>
    cases y with
    | nan => cases h
    | ninf => exact NonNeg.leq zero_nonNeg
    | pinf => rw [rExp, rExp]; exact leq_pinf (NonNeg.ne_nan zero_nonNeg)
    | fin q hq => exact NonNeg.leq (rExp_nonNeg _ (fun e => by cases e))
  | fin q hq =>
    cases y with
    | nan => cases h
    | ninf => cases h
    | pinf => rw [rExp, rExp]; exact leq_pinf (flR_ne_nan _)
    | fin r hr =>
      rw [leqF_fin] at h
      have h : q ≤ r := by simpa using h
      rw [rExp, rExp]
      apply flR_mono
      apply Real.exp_le_exp.2
      exact_mod_cast h

theorem rLog_fin (z : ℚ) (hz) (h0 : 0 ≤ z) : rLog (.fin z hz) = if z = 0 then .ninf else flR (Real.log z) := by
  rw [rLog, if_neg (not_lt.2 h0)]

theorem rLog_mono (x y : D) (hx : Fl.NonNeg x) (h : leqF x y = true) : leqF (rLog x) (rLog y) = true := by
  have hy : Fl.NonNeg y := leq_zero (leqF_trans (NonNeg.leq hx) h)
  cases x with
  | nan => exact hx.elim
  | ninf => exact hx.elim
  | pinf =>
    cases y with
    | pinf => rfl
    | _ => cases h
  | fin q hq =>
    have hq0 : 0 ≤ q := hx
    rw [rLog_fin q hq hq0]
    cases y with
    | nan => cases h
    | ninf => cases h
    | pinf =>
      apply leq_pinf
      split
      · exact fun e => (by cases e)
      · exact flR_ne_nan _
    | fin r hr =>
      have hr0 : 0 ≤ r := hy
      rw [leqF_fin] at h
      have h : q ≤ r := by simpa using h
      rw [rLog_fin r hr hr0]
      by_cases h1 : q = 0
      · rw [if_pos h1]
        split
        · rfl
        · cases h2 : flR (Real.log r) with
          | nan => exact absurd h2 (flR_ne_nan _)
          | _ => rfl
      · have hqp : 0 < q := lt_of_le_of_ne hq0 (Ne.symm h1)
        rw [if_neg h1, if_neg (by linarith)]
        apply flR_mono
        apply Real.log_le_log
        · exact_mod_cast hqp
        · exact_mod_cast h

theorem rAtan2_mono (x y c : D) (hc : Fl.FinPos c) (hx : Fl.NonNeg x) (h : leqF x y = true) : leqF (rAtan2 x c) (rAtan2 y c) = true := by
  obtain ⟨c, hc, rfl, hc0⟩ := hc
  cases x with
  | nan => exact hx.elim
  | ninf => exact hx.elim
  | pinf =>
    cases y with
    | pinf => exact leqF_refl (flR_ne_nan _)
    | _ => cases h
  | fin q hq =>
    cases y with
    | nan => cases h
    | ninf => cases h
    | pinf => exact flR_mono (Real.arctan_lt_pi_div_two _).le
    | fin r hr =>
      rw [leqF_fin] at h
      have h : q ≤ r := by simpa using h
      rw [rAtan2, rAtan2]
      apply flR_mono
      apply Real.arctan_strictMono.monotone
      apply div_le_div_of_nonneg_right
      · exact_mod_cast h
      · exact_mod_cast hc0.le

theorem refLibm_mono : LibmMono refLibm where
  log_one := by
    show rLog (ofInt 1) = _
    rw [hasTwo_binary64.one, rLog_fin 1 _ (by norm_num), if_neg (by norm_num), Rat.cast_one, Real.log_one, flR_zero]
  log := rLog_mono
  exp := rExp_mono
  exp_pos := rExp_nonNeg
  atan2 := rAtan2_mono
  atan2_zero := by
    rintro _ ⟨c, hc, rfl, hc0⟩
    show rAtan2 _ _ = _
    rw [Fl.ofInt_zero, rAtan2, Rat.cast_zero, zero_div, Real.arctan_zero, flR_zero, Fl.ofInt_zero]

theorem refLibm_sat : ExpSat refLibm 1075 1024 where
  under := by
    intro q h hq
    show flR (Real.exp q) = _
    unfold flR
    have hp : (0 : ℝ) < 2 ^ 1200 := pow_pos (by norm_num) _
    have hp' : (0 : ℚ) < 2 ^ 1200 := pow_pos (by norm_num) _
    set z : ℚ := (⌊Real.exp q * 2 ^ 1200⌋ : ℚ) / 2 ^ 1200 with hz
    have h0 : 0 ≤ z := by
      apply div_nonneg _ hp'.le
      exact_mod_cast Int.floor_nonneg.2 (mul_nonneg (Real.exp_pos _).le hp.le)
    have h1 : z < 1 / 2 ^ 1075 := by
      have h3 : ((z : ℚ) : ℝ) ≤ Real.exp q := by
        rw [hz]
        push_cast
        rw [div_le_iff₀ hp]
        exact Int.floor_le _
      have h4 : ((z : ℚ) : ℝ) < ((1 / 2 ^ 1075 : ℚ) : ℝ) := by
        push_cast
        exact lt_of_le_of_lt h3 hq
      exact_mod_cast h4
    clear_value z
    have g0 : GridBin 53 (-1074) 0 := Fmt.binary64.grid_zero
    have hr0 : 0 ≤ rndBin 53 (-1074) z := rndBin_nonneg h0
    have hn := rndBin_nearest (p := 53) (emin := -1074) (by norm_num) z g0
    obtain ⟨k, hk⟩ := gridBin_mul (rndBin_grid (p := 53) (emin := -1074) (by norm_num) z)
    have e2 : (2 : ℚ) ^ (-1074 : ℤ) = 2 * (1 / 2 ^ 1075) := by
      rw [zpow_neg, show (1074 : ℤ) = ((1074 : ℕ) : ℤ) by norm_num, zpow_natCast, pow_succ _ 1074]
      field_simp
    have hlt : rndBin 53 (-1074) z < 2 ^ (-1074 : ℤ) := by
      rw [zero_sub, abs_neg, abs_of_nonneg h0] at hn
      have := (abs_le.1 hn).2
      rw [e2]
      linarith
    have hr : rndBin 53 (-1074) z = 0 := by
      rw [hk] at hlt hr0 ⊢
      have hpos := two_zpow_pos (-1074)
      have h5 : (k : ℚ) < 1 := by
        by_contra hc
        have := mul_le_mul_of_nonneg_right (not_lt.1 hc) hpos.le
        linarith
      have h6 : (0 : ℚ) ≤ k := nonneg_of_mul_nonneg_left hr0 hpos
      have h7 : k = 0 := by
        have a : k < 1 := by exact_mod_cast h5
        have b : 0 ≤ k := by exact_mod_cast h6
        omega
      rw [h7]; simp
    rw [Fl.ofInt_zero]
    unfold Fl.mk Fl.ofGrid
    have hr' : Fmt.binary64.rnd z = 0 := hr
    simp only [hr', abs_zero]
    rw [dif_pos Fmt.binary64.max_pos.le]
  over := by
    intro q h hq
    show flR (Real.exp q) = _
    unfold flR
    have hp : (0 : ℝ) < 2 ^ 1200 := pow_pos (by norm_num) _
    have hp' : (0 : ℚ) < 2 ^ 1200 := pow_pos (by norm_num) _
    have h1 : (2 : ℚ) ^ 1024 ≤ (⌊Real.exp q * 2 ^ 1200⌋ : ℚ) / 2 ^ 1200 := by
      rw [le_div_iff₀ hp']
      have : ((2 ^ 1024 * 2 ^ 1200 : ℤ)) ≤ ⌊Real.exp q * 2 ^ 1200⌋ := by
        apply Int.le_floor.2
        push_cast
        exact mul_le_mul_of_nonneg_right hq hp.le
      exact_mod_cast this
    have h2 := Fmt.binary64.rnd_mono _ _ h1
    have h3 : Fmt.binary64.max < Fmt.binary64.rnd (2 ^ 1024) := by decide +kernel
    unfold Fl.mk Fl.ofGrid
    rw [dif_neg (not_le.2 (h3.trans_le (h2.trans (le_abs_self _)))), if_pos (by linarith [Fmt.binary64.max_pos])]
  inf := rfl
  ninf := rfl
  log := by
    show rLog (ofInt 0) = _
    rw [Fl.ofInt_zero, rLog_fin 0 _ le_rfl, if_pos rfl]

/-- small integers -/
noncomputable def dn (n : ℤ) (h : |n| < 2 ^ 53) : D := .fin n ⟨⟨n, 0, h, by norm_num, by norm_num⟩, by
  have h1 : ((|n| : ℤ) : ℚ) ≤ 2 ^ 53 := by exact_mod_cast h.le
  have h2 : (2 : ℚ) ^ 53 ≤ Fmt.binary64.max := by decide +kernel
  push_cast at h1
  exact h1.trans h2⟩

/-- Cauchy, Tukey and Huber with threshold 9 and squared norms 4, 100 and infinity -/
example : leqF (robustF refLibm .cauchy (dn 4 (by norm_num)) (dn 9 (by norm_num))) (robustF refLibm .cauchy (dn 100 (by norm_num)) (dn 9 (by norm_num))) = true :=
  (C125_monotone hasTwo_binary64 refLibm refLibm_mono (by simp) (t := dn 9 (by norm_num)) ⟨9, _, rfl, by norm_num⟩
    (by
      obtain ⟨g, -, e, -, h⟩ := two_sqrt_fin (p := 53) (hp := by norm_num) (emin := -1074) (hem := by norm_num) (eps := 14073749 / 2 ^ 47) (t := 9) (ht := ⟨⟨9, 0, by norm_num, by norm_num, by norm_num⟩, by decide +kernel⟩)
        (by norm_num) (by decide +kernel) (by
          rw [show (Fmt.ieee 53 (by norm_num) (-1074) (by norm_num) (14073749 / 2 ^ 47)).max / 2 = rndBin 53 (-1074) (Fmt.binary64.max / 2) by decide +kernel]; exact rndBin_grid (by norm_num) _) (by norm_num)
      exact ⟨_, g, e, h⟩)
    (by show (0 : ℚ) ≤ 4; norm_num) (by show (0 : ℚ) ≤ 100; norm_num) (by unfold dn; rw [leqF_fin]; norm_num)).2

example : leqF (robustF refLibm .huber (dn 4 (by norm_num)) (dn 9 (by norm_num))) (robustF refLibm .huber .pinf (dn 9 (by norm_num))) = true :=
  (C125_huber_double refLibm ⟨9, _, rfl, by norm_num⟩ (by show (0 : ℚ) ≤ 4; norm_num) (show Fl.NonNeg (.pinf : D) from trivial) rfl).2

/-- a threshold of 30 and a residual of 28: the loss is infinite -/
example : robustF refLibm .blakeZisserman (dn 784 (by norm_num)) (dn 900 (by norm_num)) = .pinf :=
  (C125_blake_double refLibm refLibm_sat (by norm_num) (fun q h e => by injection e with e; rw [← e]; norm_num) (by show (0 : ℚ) ≤ 784; norm_num)).1

/-- the Tukey loss of 4 with threshold 9 is not 0 and not the threshold -/
example : 0 < tukeyQ Fmt.binary64 4 9 ∧ tukeyQ Fmt.binary64 4 9 < 9 := by decide +kernel

/-- Huber just above the threshold 3: the product of the square roots is rounded, to the threshold and not below -/
example : flVal (robustF (⟨id, id, fun a _ => a, .nan⟩ : Libm D) .huber (Fl.mk (3 + 1 / 2 ^ 51)) (Fl.mk 3)) = 3 := by decide +kernel

/-- the scale of Cauchy of an infinite squared norm -/
example : ∃ r hr, robustScaleF refLibm .cauchy .pinf (dn 9 (by norm_num)) = .fin r hr ∧ 1 / 2 ^ 1022 ≤ r ∧ r ≤ 1 :=
  C125_scales hasTwo_binary64 refLibm rfl (by decide +kernel) (by simp) (by norm_num) (show Fl.NonNeg (.pinf : D) from trivial)

/-- a squared norm and a threshold whose sum overflows -/
example : Fmt.binary64.max < Fmt.binary64.rnd (Fmt.binary64.max + Fmt.binary64.max) := by decide +kernel

/-- a Tukey threshold of `2 ^ -80` in float -/
example : Fmt.binary32.rnd (1 / 2 ^ 80 * (1 / 2 ^ 80)) = 0 := by decide +kernel

end

end Verif.Loss
