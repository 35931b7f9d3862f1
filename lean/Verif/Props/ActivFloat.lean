import Verif.Model.ActivFl
import Verif.Props.RobustFloat
/-!
# C126: the activations in floating point
-/

namespace Verif.Loss
open FloatOps

/-- the activations on real numbers -/
def ActivF.toReal : ActivF ℝ → Activation
  | .sigmoid => .sigmoid
  | .tanh => .tanh
  | .relu => .relu
  | .leaky a => .leaky a

/-- **C126, the model.** On real numbers the activations and their derivatives are those of C45. -/
theorem C126_same (k : ActivF ℝ) {n : ℕ} (x : RVec n) (i : Fin n) :
    activF realLibm k (x i) = k.toReal.vec x i ∧ activJF realLibm k (x i) = k.toReal.vecJ x i i := by
  cases k <;> simp [activF, activJF, ActivF.toReal, Activation.vec, Activation.f, Activation.vecJ, realLibm, RealOps.add_eq, RealOps.sub_eq, RealOps.mul_eq, RealOps.div_eq, RealOps.neg_eq,
    RealOps.ofInt_eq, RealOps.lt_eq]

section
variable {f : Fmt} (h2 : Fl.HasTwo f)

include h2 in
/-- `1 / y` for `y` not below 1 -/
theorem inv_between {y : Fl f} (hy : leqF (ofInt 1) y = true) : ∃ q h, div (ofInt 1) y = .fin q h ∧ 0 ≤ q ∧ q ≤ 1 := by
  have hm1 : (1 : ℚ) ≤ f.max := by linarith [h2.2.2]
  rw [h2.one] at hy ⊢
  cases y with
  | nan => cases hy
  | ninf => cases hy
  | pinf =>
    obtain ⟨g, e, a, b⟩ := mk_upto (f := f) (q := 0) (b := 1) le_rfl (by norm_num) h2.1 hm1
    exact ⟨_, g, e, a, b⟩
  | fin r hr =>
    rw [leqF_fin] at hy
    have h1 : 1 ≤ r := by simpa using hy
    obtain ⟨g, e, a, b⟩ := mk_upto (f := f) (q := 1 / r) (b := 1) (by positivity) ((div_le_one (by linarith)).2 h1) h2.1 hm1
    refine ⟨_, g, ?_, a, b⟩
    show (if r = 0 then _ else _) = _
    rw [if_neg (by linarith), e]

include h2 in
theorem inv_leq {y z : Fl f} (hy : leqF (ofInt 1) y = true) (h : leqF y z = true) : leqF (div (ofInt 1) z) (div (ofInt 1) y) = true := by
  have hz := leqF_trans hy h
  have hm1 : (1 : ℚ) ≤ f.max := by linarith [h2.2.2]
  obtain ⟨q, hq, e, h0, -⟩ := inv_between h2 hy
  rw [h2.one] at hy hz
  cases z with
  | nan => cases hz
  | ninf => cases hz
  | pinf =>
    rw [e, h2.one]
    have : (div (.fin 1 ⟨h2.1, by rw [abs_one]; linarith [h2.2.2]⟩) .pinf : Fl f) = Fl.mk 0 := rfl
    rw [this, ← e]
    rw [e]
    have e0 : (Fl.mk 0 : Fl f) = .fin 0 ⟨f.grid_zero, by rw [abs_zero]; exact f.max_pos.le⟩ := by
      unfold Fl.mk Fl.ofGrid
      simp only [f.rnd_zero, abs_zero]
      rw [dif_pos f.max_pos.le]
    rw [e0, leqF_fin]
    simpa using h0
  | fin r hr =>
    cases y with
    | nan => cases hy
    | ninf => cases hy
    | pinf => cases h
    | fin s hs =>
      rw [leqF_fin] at hy hz h
      have hs1 : 1 ≤ s := by simpa using hy
      have hr1 : 1 ≤ r := by simpa using hz
      have hsr : s ≤ r := by simpa using h
      have d : ∀ z hz, (1 : ℚ) ≤ z → (div (ofInt 1) (.fin z hz) : Fl f) = Fl.mk (1 / z) := by
        intro z hz h1
        rw [h2.one]
        show (if z = 0 then _ else _) = _
        rw [if_neg (by linarith)]
      rw [d _ _ hs1, d _ _ hr1]
      exact mk_leq (one_div_le_one_div_of_le (by linarith) hsr)

include h2 in
theorem one_add_ge {x : Fl f} (hx : Fl.NonNeg x) : leqF (ofInt 1) (add (ofInt 1) x) = true := by
  have h1 : Fl.NonNeg (ofInt 1 : Fl f) := by rw [h2.one]; show (0 : ℚ) ≤ 1; norm_num
  have hz : Fl.NonNeg (ofInt 0 : Fl f) := by rw [Fl.ofInt_zero]; exact le_rfl
  have := (add_leq hz hx h1 (NonNeg.leq hx)).1
  have e : (add (ofInt 1) (ofInt 0) : Fl f) = ofInt 1 := by
    rw [h2.one, Fl.ofInt_zero]
    show Fl.mk (1 + 0) = _
    have e : f.rnd (1 + 0) = 1 := by rw [add_zero]; exact f.rnd_id 1 h2.1
    unfold Fl.mk Fl.ofGrid
    simp only [e, abs_one]
    rw [dif_pos (by linarith [h2.2.2])]
  rwa [e] at this

theorem neg_ne_nan {x : Fl f} (hx : x ≠ .nan) : neg x ≠ .nan := by
  cases x with
  | nan => exact absurd rfl hx
  | _ => exact fun e => (by cases e)

include h2 in
/-- **C126, Sigmoid.** For every `x` that is not NaN (infinities included) the value is a number between 0 and 1, also where `exp` overflows or underflows, and so is the exported derivative,
at most 1/2. -/
theorem C126_sigmoid (hh : f.Grid (1 / 2)) (m : Libm (Fl f)) (hm : ∀ x, x ≠ .nan → Fl.NonNeg (m.exp x)) {x : Fl f} (hx : x ≠ .nan) :
    (∃ q h, activF m .sigmoid x = .fin q h ∧ 0 ≤ q ∧ q ≤ 1) ∧ ∃ q h, activJF m .sigmoid x = .fin q h ∧ 0 ≤ q ∧ q ≤ 1 / 2 := by
  have hm1 : (1 : ℚ) ≤ f.max := by linarith [h2.2.2]
  obtain ⟨q, h, e, h0, h1⟩ := inv_between h2 (one_add_ge h2 (hm _ (neg_ne_nan hx)))
  have e' : activF m .sigmoid x = .fin q h := e
  refine ⟨⟨q, h, e, h0, h1⟩, ?_⟩
  obtain ⟨g1, e1, a1, b1⟩ := mk_upto (f := f) (q := 1 - q) (b := 1) (by linarith) (by linarith) h2.1 hm1
  have hprod : q * f.rnd (1 - q) ≤ 1 / 2 := by
    rcases le_total q (1 / 2) with hq | hq
    · nlinarith
    · have := f.rnd_mono (1 - q) (1 / 2) (by linarith)
      rw [f.rnd_id _ hh] at this
      nlinarith
  obtain ⟨g2, e2, a2, b2⟩ := mk_upto (f := f) (q := q * f.rnd (1 - q)) (b := 1 / 2) (mul_nonneg h0 a1) hprod hh (by linarith)
  refine ⟨_, g2, ?_, a2, b2⟩
  simp only [activJF]
  rw [e', h2.one]
  have d2 : ∀ a b ha hb, (sub (.fin a ha) (.fin b hb) : Fl f) = Fl.mk (a - b) := fun _ _ _ _ => rfl
  have d3 : ∀ a b ha hb, (mul (.fin a ha) (.fin b hb) : Fl f) = Fl.mk (a * b) := fun _ _ _ _ => rfl
  rw [d2, e1, d3, e2]

include h2 in
/-- **C126, order.** Sigmoid never decreases: if `x <= y` its value at `x` is at most that at `y` (for a monotone `exp`). -/
theorem C126_sigmoid_monotone (m : Libm (Fl f)) (hm : ∀ x, x ≠ .nan → Fl.NonNeg (m.exp x)) (hmono : ∀ x y, leqF x y = true → leqF (m.exp x) (m.exp y) = true) {x y : Fl f}
    (h : leqF x y = true) : leqF (activF m .sigmoid x) (activF m .sigmoid y) = true := by
  have hx : x ≠ .nan := by rintro rfl; cases y <;> cases h
  have hy : y ≠ .nan := by rintro rfl; cases x <;> cases h
  have h1 : Fl.NonNeg (ofInt 1 : Fl f) := by rw [h2.one]; show (0 : ℚ) ≤ 1; norm_num
  have ny := hm _ (neg_ne_nan hy)
  have nx := hm _ (neg_ne_nan hx)
  exact inv_leq h2 (one_add_ge h2 ny) (add_leq ny nx h1 (hmono _ _ (neg_leq h))).1

include h2 in
/-- **C126, Tanh.** Where neither the exponentials nor their sum overflow, the value is between -1 and 1, the derivative between 0 and 1. Missing: overflow
(`C126_tanh_nan`). -/
theorem C126_tanh_partial (m : Libm (Fl f)) {x : Fl f} {a b : ℚ} {ha hb} (h0 : 0 ≤ a) (h0' : 0 ≤ b) (hpos : 0 < f.rnd (a + b)) (hs : a + b ≤ f.max) (ea : m.exp x = .fin a ha) (eb : m.exp (neg x) = .fin b hb) :
    (∃ q h, activF m .tanh x = .fin q h ∧ -1 ≤ q ∧ q ≤ 1) ∧ ∃ q h, activJF m .tanh x = .fin q h ∧ 0 ≤ q ∧ q ≤ 1 := by
  have hm1 : (1 : ℚ) ≤ f.max := by linarith [h2.2.2]
  obtain ⟨g1, e1, a1, b1⟩ := mk_upto (f := f) (q := a + b) (b := f.max) (by linarith) hs f.grid_max le_rfl
  have hd : |f.rnd (a - b)| ≤ f.rnd (a + b) := by
    rw [abs_le]
    constructor
    · rw [← f.rnd_neg]; exact f.rnd_mono _ _ (by linarith)
    · exact f.rnd_mono _ _ (by linarith)
  have e2 : (Fl.mk (a - b) : Fl f) = .fin (f.rnd (a - b)) ⟨f.rnd_grid _, hd.trans b1⟩ := by
    unfold Fl.mk Fl.ofGrid
    rw [dif_pos (hd.trans b1)]
  have gm1 : f.Grid (-1) := f.grid_neg h2.1
  have hq : |f.rnd (a - b) / f.rnd (a + b)| ≤ 1 := by
    rw [abs_div, abs_of_pos hpos]
    exact (div_le_one hpos).2 hd
  have hr : |f.rnd (f.rnd (a - b) / f.rnd (a + b))| ≤ 1 := by
    rw [abs_le] at hq ⊢
    constructor
    · have := f.rnd_mono _ _ hq.1
      rwa [f.rnd_id _ gm1] at this
    · have := f.rnd_mono _ _ hq.2
      rwa [f.rnd_id _ h2.1] at this
  have e3 : activF m .tanh x = .fin (f.rnd (f.rnd (a - b) / f.rnd (a + b))) ⟨f.rnd_grid _, hr.trans hm1⟩ := by
    simp only [activF]
    rw [ea, eb]
    show div (Fl.mk (a - b)) (Fl.mk (a + b)) = _
    rw [e1, e2]
    show (if f.rnd (a + b) = 0 then _ else Fl.mk _) = _
    rw [if_neg hpos.ne']
    unfold Fl.mk Fl.ofGrid
    rw [dif_pos (hr.trans hm1)]
  refine ⟨⟨_, _, e3, (abs_le.1 hr).1, (abs_le.1 hr).2⟩, ?_⟩
  simp only [activJF]
  rw [e3, h2.one]
  set l := f.rnd (f.rnd (a - b) / f.rnd (a + b))
  obtain ⟨g4, e4, a4, b4⟩ := mk_upto (f := f) (q := l * l) (b := 1) (mul_self_nonneg l) (by rw [← sq]; exact (sq_le_one_iff_abs_le_one l).2 hr) h2.1 hm1
  obtain ⟨g5, e5, a5, b5⟩ := mk_upto (f := f) (q := 1 - f.rnd (l * l)) (b := 1) (by linarith) (by linarith) h2.1 hm1
  refine ⟨_, g5, ?_, a5, b5⟩
  have d2 : ∀ a b ha hb, (sub (.fin a ha) (.fin b hb) : Fl f) = Fl.mk (a - b) := fun _ _ _ _ => rfl
  have d3 : ∀ a b ha hb, (mul (.fin a ha) (.fin b hb) : Fl f) = Fl.mk (a * b) := fun _ _ _ _ => rfl
  rw [d3, e4, d2, e5]

/-- **C126 is violated (Tanh).** Where `exp(x)` overflows, Tanh is NaN instead of 1, and so is the exported derivative. -/
theorem C126_tanh_nan (m : Libm (Fl f)) {x : Fl f} (h : m.exp x = .pinf ∨ m.exp (neg x) = .pinf) (hn : m.exp x ≠ .ninf ∧ m.exp (neg x) ≠ .ninf) :
    activF m .tanh x = .nan ∧ activJF m .tanh x = .nan := by
  have e : activF m .tanh x = .nan := by
    simp only [activF]
    revert h hn
    generalize m.exp x = a
    generalize m.exp (neg x) = b
    intro h hn
    rcases h with rfl | rfl
    · cases b with
      | ninf => exact absurd rfl hn.2
      | _ => rfl
    · cases a with
      | ninf => exact absurd rfl hn.1
      | _ => rfl
  refine ⟨e, ?_⟩
  simp only [activJF]
  rw [e]
  have n2 : ∀ x : Fl f, (sub x .nan : Fl f) = .nan := fun x => by cases x <;> rfl
  exact n2 _

/-- **C126 is violated (Tanh at small numbers).** Where both exponentials round to 1 the value is 0, whatever `x` is. -/
theorem C126_tanh_zero (m : Libm (Fl f)) (h2 : Fl.HasTwo f) {x : Fl f} (h : m.exp x = ofInt 1) (h' : m.exp (neg x) = ofInt 1) : activF m .tanh x = ofInt 0 := by
  simp only [activF]
  rw [h, h', h2.one]
  have d : (sub (.fin 1 ⟨h2.1, by rw [abs_one]; linarith [h2.2.2]⟩) (.fin 1 ⟨h2.1, by rw [abs_one]; linarith [h2.2.2]⟩) : Fl f) = .fin 0 ⟨f.grid_zero, by rw [abs_zero]; exact f.max_pos.le⟩ := by
    show Fl.mk (1 - 1) = _
    have e : f.rnd (1 - 1) = 0 := by rw [sub_self]; exact f.rnd_zero
    unfold Fl.mk Fl.ofGrid
    simp only [e, abs_zero]
    rw [dif_pos f.max_pos.le]
  have a : (add (.fin 1 ⟨h2.1, by rw [abs_one]; linarith [h2.2.2]⟩) (.fin 1 ⟨h2.1, by rw [abs_one]; linarith [h2.2.2]⟩) : Fl f) = .fin 2 ⟨h2.2.1, by rw [abs_of_pos (by norm_num)]; exact h2.2.2⟩ := by
    show Fl.mk (1 + 1) = _
    have e : f.rnd (1 + 1) = 2 := by rw [one_add_one_eq_two]; exact f.rnd_id 2 h2.2.1
    unfold Fl.mk Fl.ofGrid
    simp only [e]
    rw [dif_pos (by rw [abs_of_pos (by norm_num)]; exact h2.2.2)]
  rw [d, a, Fl.ofInt_zero]
  show (if (2 : ℚ) = 0 then Fl.infSign 0 else Fl.mk (0 / 2) : Fl f) = _
  rw [if_neg (by norm_num), zero_div]
  unfold Fl.mk Fl.ofGrid
  simp only [f.rnd_zero, abs_zero]
  rw [dif_pos f.max_pos.le]

/-- **C126, ReLU and LeakyReLU.** They never decrease: `x <= y` implies `f(x) <= f(y)`, with a finite positive slope. -/
theorem C126_relu_monotone (m : Libm (Fl f)) {k : ActivF (Fl f)} (hk : k = .relu ∨ ∃ a, Fl.FinPos a ∧ k = .leaky a) {x y : Fl f} (h : leqF x y = true) :
    leqF (activF m k x) (activF m k y) = true := by
  have hx : x ≠ .nan := by rintro rfl; cases y <;> cases h
  have hy : y ≠ .nan := by rintro rfl; cases x <;> cases h
  have pos : ∀ z : Fl f, lt (ofInt 0) z = true → Fl.NonNeg z := fun z hz => ((Fl.lt_zero_iff z).1 hz).nonNeg
  have npos : ∀ z : Fl f, z ≠ .nan → lt (ofInt 0) z = false → Fl.NonNeg (neg z) := by
    intro z hz h
    rw [Fl.ofInt_zero] at h
    cases z with
    | nan => exact absurd rfl hz
    | pinf => cases h
    | ninf => trivial
    | fin q hq =>
      show 0 ≤ -q
      have : ¬ (0 < q) := by
        intro hc
        have : decide (0 < q) = false := h
        simp [hc] at this
      linarith
  have up : lt (ofInt 0) x = true → lt (ofInt 0) y = true := by
    intro hx'
    rw [Fl.lt_zero_iff] at hx' ⊢
    rcases hx' with rfl | ⟨q, hq, rfl, hq0⟩
    · cases y with
      | pinf => exact Or.inl rfl
      | _ => cases h
    · cases y with
      | nan => cases h
      | ninf => cases h
      | pinf => exact Or.inl rfl
      | fin r hr =>
        rw [leqF_fin] at h
        have h : q ≤ r := by simpa using h
        exact Or.inr ⟨r, hr, rfl, by linarith⟩
  cases hxc : lt (ofInt 0) x
  · have nx := npos x hx hxc
    rcases hk with rfl | ⟨a, ha, rfl⟩
    · simp only [activF, hxc, Bool.false_eq_true, if_false]
      cases hyc : lt (ofInt 0) y
      · simp only [Bool.false_eq_true, if_false]
        exact NonNeg.leq (by rw [Fl.ofInt_zero]; exact le_rfl)
      · simp only [if_true]
        exact NonNeg.leq (pos y hyc)
    · have hmul : ∀ z : Fl f, z ≠ .nan → mul a (neg z) = neg (mul a z) := by
        intro z hz
        obtain ⟨q, hq, rfl, hq0⟩ := ha
        cases z with
        | nan => exact absurd rfl hz
        | pinf => show Fl.infSign (-q) = neg (Fl.infSign q); unfold Fl.infSign; rw [if_neg (by linarith), if_pos (by linarith), if_pos hq0]; rfl
        | ninf => show Fl.infSign q = neg (Fl.infSign (-q)); unfold Fl.infSign; rw [if_pos hq0, if_neg (by linarith), if_pos (by linarith)]; rfl
        | fin r hr =>
          show Fl.mk (q * -r) = neg (Fl.mk (q * r))
          rw [show q * -r = -(q * r) by ring]
          unfold Fl.mk Fl.ofGrid
          simp only [f.rnd_neg, abs_neg]
          by_cases hc : |f.rnd (q * r)| ≤ f.max
          · rw [dif_pos hc, dif_pos hc]; rfl
          · rw [dif_neg hc, dif_neg hc]
            have hm := f.max_pos
            by_cases hp : 0 < f.rnd (q * r)
            · rw [if_pos hp, if_neg (by linarith)]; rfl
            · rw [if_neg hp, if_pos]
              · rfl
              · have : f.rnd (q * r) ≠ 0 := by
                  intro h0; apply hc; rw [h0, abs_zero]; exact hm.le
                have := lt_of_le_of_ne (not_lt.1 hp) this
                linarith
      have nn : ∀ z : Fl f, neg (neg z) = z := by
        intro z
        cases z with
        | fin q hq => show Fl.fin (- -q) _ = _; simp only [neg_neg]
        | _ => rfl
      have hn := Fl.mul_nonNeg ha nx
      have hle : leqF (mul a x) (ofInt 0) = true := by
        have h1 : leqF (ofInt 0) (mul a (neg x)) = true := NonNeg.leq hn
        rw [hmul x hx] at h1
        have h2 := neg_leq h1
        rw [nn] at h2
        have h3 : (neg (ofInt 0) : Fl f) = ofInt 0 := by
          rw [Fl.ofInt_zero]
          show Fl.fin (-0) _ = _
          simp only [neg_zero]
        rwa [h3] at h2
      simp only [activF, hxc, Bool.false_eq_true, if_false]
      cases hyc : lt (ofInt 0) y
      · simp only [Bool.false_eq_true, if_false]
        have h1 := mul_leq (npos y hy hyc) nx ha (neg_leq h)
        rw [hmul x hx, hmul y hy] at h1
        have h2 := neg_leq h1
        rwa [nn, nn] at h2
      · simp only [if_true]
        exact leqF_trans hle (NonNeg.leq (pos y hyc))
  · have hyc := up hxc
    rcases hk with rfl | ⟨a, ha, rfl⟩ <;> simpa only [activF, hxc, hyc, if_true] using h

/-- **C126 is violated (ReLU of NaN).** ReLU replaces NaN by 0, with derivative 0: the NaN of an earlier layer is not seen in the cost. LeakyReLU keeps it. -/
theorem C126_relu_nan (m : Libm (Fl f)) (a : Fl f) :
    activF m .relu .nan = ofInt 0 ∧ activJF m .relu .nan = ofInt 0 ∧ activF m (.leaky a) .nan = .nan := by
  have e : lt (ofInt 0 : Fl f) .nan = false := by rw [Fl.ofInt_zero]; rfl
  refine ⟨?_, ?_, ?_⟩ <;> simp only [activF, activJF, e, Bool.false_eq_true, if_false]
  cases a <;> rfl

end

/-- **C126 is violated (Tanh in double).** Tanh is NaN for every `x` of absolute value 710 or more. -/
theorem C126_tanh_double (m : Libm (Fl Fmt.binary64)) (hm : ExpSat m 1075 1024) (hp : ∀ x, x ≠ .nan → Fl.NonNeg (m.exp x)) {q : ℚ} {h} (hq : 710 ≤ |q|) :
    activF m .tanh (.fin q h) = .nan ∧ activJF m .tanh (.fin q h) = .nan := by
  have over : ∀ (r : ℚ) (hr : _), 710 ≤ r → m.exp (.fin r hr) = .pinf := fun r hr h1 => hm.over r hr (exp_big (lt_of_lt_of_le (by norm_num) h1)).le
  have nn : ∀ x, x ≠ .nan → m.exp x ≠ .ninf := by
    intro x hx e
    have := hp x hx
    rw [e] at this
    exact this
  apply C126_tanh_nan m
  · rcases le_abs.1 hq with h1 | h1
    · exact Or.inl (over q h h1)
    · exact Or.inr (over (-q) _ h1)
  · exact ⟨nn _ (fun e => by cases e), nn _ (fun e => by cases e)⟩

/-- **C126 is violated (Tanh at small numbers in double).** For an `exp` that rounds to nearest around 1, Tanh of every `x` below `2 ^ -55` is 0: the relative error is 1. -/
theorem C126_tanh_small (m : Libm (Fl Fmt.binary64)) (hm : ∀ (q : ℚ) h, |Real.exp (q : ℝ) - 1| < 1 / 2 ^ 54 → m.exp (.fin q h) = ofInt 1) {q : ℚ} {h} (hq : |q| < 1 / 2 ^ 55) :
    activF m .tanh (.fin q h) = ofInt 0 := by
  have key : ∀ r : ℚ, |r| < 1 / 2 ^ 55 → |Real.exp (r : ℝ) - 1| < 1 / 2 ^ 54 := by
    intro r hr
    have hr' : |(r : ℝ)| < 1 / 2 ^ 55 := by
      have : ((|r| : ℚ) : ℝ) < ((1 / 2 ^ 55 : ℚ) : ℝ) := by exact_mod_cast hr
      push_cast at this
      exact this
    have := Real.abs_exp_sub_one_le (x := (r : ℝ)) (hr'.le.trans (by norm_num))
    linarith
  refine C126_tanh_zero m hasTwo_binary64 (hm q h (key q hq)) ?_
  exact hm (-q) _ (key (-q) (by rwa [abs_neg]))

/-- Tanh of `2 ^ -60` -/
example : ∃ m : Libm (Fl Fmt.binary64), (∀ (q : ℚ) h, |Real.exp (q : ℝ) - 1| < 1 / 2 ^ 54 → m.exp (.fin q h) = ofInt 1) ∧
    activF m .tanh (Fl.fin (1 / 2 ^ 60) ⟨⟨1, -60, by norm_num, by norm_num, by norm_num [zpow_neg]⟩, by decide +kernel⟩) = ofInt 0 := by
  classical
  let m : Libm (Fl Fmt.binary64) := { refLibm with exp := fun x => match x with
    | .fin q h => if |Real.exp (q : ℝ) - 1| < 1 / 2 ^ 54 then ofInt 1 else rExp (.fin q h)
    | x => rExp x }
  have hm : ∀ (q : ℚ) h, |Real.exp (q : ℝ) - 1| < 1 / 2 ^ 54 → m.exp (.fin q h) = ofInt 1 := fun q h hq => if_pos hq
  exact ⟨m, hm, C126_tanh_small m hm (by rw [abs_of_pos (by positivity)]; norm_num)⟩

/-- Tanh of 800 with the `libm` of the examples of C125 -/
example : activF refLibm .tanh (dn 800 (by norm_num)) = .nan :=
  (C126_tanh_double refLibm refLibm_sat refLibm_mono.exp_pos (by norm_num)).1

/-- Tanh of a number whose exponentials are 3 and 1 -/
example : ∃ q h, activF (⟨fun x => if lt (ofInt 0) x then dn 3 (by norm_num) else dn 1 (by norm_num), id, fun a _ => a, .nan⟩ : Libm D) .tanh (dn 1 (by norm_num)) = .fin q h ∧ -1 ≤ q ∧ q ≤ 1 :=
  (C126_tanh_partial hasTwo_binary64 _ (a := 3) (b := 1) (ha := ⟨⟨3, 0, by norm_num, by norm_num, by norm_num⟩, by decide +kernel⟩) (hb := ⟨⟨1, 0, by norm_num, by norm_num, by norm_num⟩, by decide +kernel⟩)
    (by norm_num) (by norm_num) (by decide +kernel) (by decide +kernel)
    (by
      have : lt (ofInt 0 : D) (dn 1 (by norm_num)) = true := by
        rw [Fl.ofInt_zero]
        unfold dn
        show decide ((0 : ℚ) < ((1 : ℤ) : ℚ)) = true
        norm_num
      simp only [this, if_true]
      unfold dn
      simp only [Int.cast_ofNat])
    (by
      have : lt (ofInt 0 : D) (neg (dn 1 (by norm_num))) = false := by
        rw [Fl.ofInt_zero]
        unfold dn
        show decide ((0 : ℚ) < -((1 : ℤ) : ℚ)) = false
        norm_num
      simp only [this, Bool.false_eq_true, if_false]
      unfold dn
      simp only [Int.cast_one])).1

/-- Sigmoid of -800 and of infinity -/
example : ∃ q h, activF refLibm .sigmoid (dn (-800) (by norm_num)) = .fin q h ∧ 0 ≤ q ∧ q ≤ 1 :=
  (C126_sigmoid hasTwo_binary64 ⟨1, -1, by norm_num, by norm_num, by norm_num⟩ refLibm refLibm_mono.exp_pos (fun e => by cases e)).1

example : leqF (activF refLibm .sigmoid (dn 2 (by norm_num))) (activF refLibm .sigmoid .pinf) = true :=
  C126_sigmoid_monotone hasTwo_binary64 refLibm refLibm_mono.exp_pos refLibm_mono.exp rfl

end Verif.Loss
