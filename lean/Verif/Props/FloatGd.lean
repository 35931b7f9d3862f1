import Verif.Props.FloatGn
/-!
# C121: the test of tests/unconstrained.cpp (Gradient Descent) in IEEE `double` arithmetic, for all starting points
-/

set_option linter.unusedSectionVars false

namespace Verif
open FloatOps

section
variable {R W : Type} {P : Problem F64 R W (Vec F64 1)} {pow3 pow4 : F64 → F64}

/-- `std::pow(y, k)` on `double`: a relative error of 8 units in the last place (2^-50), an absolute error of 2^-1000 where the power is below the normal numbers. The C++ standard does
not bound this error; libm's is below one unit. -/
def PowOk (k : ℕ) (pw : F64 → F64) : Prop :=
  ∀ a q, Val a q → |q| ≤ 10 → ∃ r, Val (pw a) r ∧ |r - q ^ k| ≤ |q ^ k| / 2 ^ 50 + 1 / 2 ^ 1000

/-- `x - 42.0`, tests/unconstrained.cpp:21 -/
def gdY (x : Vec F64 1) : F64 := sub (x 0) (ofInt 42)

/-- `3 * y * y + std::pow(y, 4.0) - 2.0`, tests/unconstrained.cpp:22 -/
def gdCostD (pow4 : F64 → F64) (x : Vec F64 1) : F64 := sub (add (mul (mul (ofInt 3) (gdY x)) (gdY x)) (pow4 (gdY x))) (ofInt 2)

/-- `2 * 3 * y + 4 * std::pow(y, 3.0)`, tests/unconstrained.cpp:25; `2 * 3` is a product of integers -/
def gdGradD (pow3 : F64 → F64) (x : Vec F64 1) : F64 := add (mul (ofInt 6) (gdY x)) (mul (ofInt 4) (pow3 (gdY x)))

/-- tests/unconstrained.cpp:20-28 as a user's function in `double` arithmetic -/
structure GdTestD (P : Problem F64 R W (Vec F64 1)) (pow3 pow4 : F64 → F64) : Prop where
  dims : P.dims = some 1
  dyn : ∀ x, P.dynDims x = 1
  plus : ∀ x v, P.plusEq x ⟨1, v⟩ = fun i => add (x i) (v i)
  full : ∀ w x g H, ∃ c H' w', P.acc.full w x 1 g H = ((c, fun _ => gdGradD pow3 x, H'), w') ∧ c.cost = gdCostD pow4 x ∧ c.num = 1

/-- tests/unconstrained.cpp:32, 34-36; with and without the check of the final cost -/
def gdOptsD (b : Bool) : Options F64 W (DVec F64) := { defaultOptions litD with maxIters := 1000, minError := litD 0, minRerrDec := litD 0, checkFinalCost := b }

/-- tests/unconstrained.cpp:32, 37 -/
def gdSolverD : SolverOpts F64 := { defaultSolverOpts litD with lr := litD (1 / 100) }

theorem lit_lr : ∃ v, Val (litD (1 / 100)) v ∧ 99999 / 10 ^ 7 ≤ v ∧ v ≤ 1 / 100 := val_lit (by decide +kernel) (by decide +kernel) (by decide +kernel)

theorem val_int {n : ℕ} (h : n < 2 ^ 53) : Val (ofInt n) n := by
  refine val_grid (q := n) ⟨n, 0, ?_, by norm_num, by simp⟩ ?_
  · rw [abs_of_nonneg (by positivity)]; exact_mod_cast h
  · rw [abs_of_nonneg (by positivity)]
    calc (n : ℚ) ≤ 2 ^ 53 := by exact_mod_cast h.le
      _ ≤ 10 ^ 16 := by norm_num
      _ ≤ _ := big_ten (by norm_num)

theorem ten_le {q : ℚ} (h : q ≤ 10 ^ 10) : q ≤ 10 ^ 308 := h.trans (big_ten (by norm_num))

/-- the rounding of products of moderate size, with a harmless bound for the underflow -/
theorem Val.mul_err {a b : F64} {p q : ℚ} (ha : Val a p) (hb : Val b q) (h : |p * q| ≤ 10 ^ 10) :
    ∃ y, Val (FloatOps.mul a b) y ∧ |y - p * q| ≤ |p * q| / 2 ^ 53 + 1 / 10 ^ 30 := by
  refine ⟨_, ha.mul hb (ten_le h), (dbl_err _).trans ?_⟩
  have : (1 : ℚ) / 2 ^ 1075 ≤ 1 / 10 ^ 30 := by
    refine one_div_le_one_div_of_le (by norm_num) ?_
    calc (10 : ℚ) ^ 30 ≤ 2 ^ 100 := by norm_num
      _ ≤ _ := pow_le_pow_right₀ (by norm_num) (by norm_num)
  linarith

theorem PowOk.err {k : ℕ} {pw : F64 → F64} (h : PowOk k pw) {a : F64} {q : ℚ} (ha : Val a q) (hq : |q| ≤ 10) :
    ∃ r, Val (pw a) r ∧ |r - q ^ k| ≤ |q ^ k| / 2 ^ 50 + 1 / 10 ^ 30 := by
  obtain ⟨r, h1, h2⟩ := h a q ha hq
  refine ⟨r, h1, h2.trans ?_⟩
  have : (1 : ℚ) / 2 ^ 1000 ≤ 1 / 10 ^ 30 := by
    refine one_div_le_one_div_of_le (by norm_num) ?_
    calc (10 : ℚ) ^ 30 ≤ 2 ^ 100 := by norm_num
      _ ≤ _ := pow_le_pow_right₀ (by norm_num) (by norm_num)
  linarith

/-- near 42 the difference is exact -/
theorem gdY_val {x : Vec F64 1} {q : ℚ} (hx : Val (x 0) q) (h : |q - 42| ≤ 7) : Val (gdY x) (q - 42) := by
  have h42 : Val (ofInt 42) 42 := by have := val_int (n := 42) (by norm_num); exact_mod_cast this
  have hg := sterbenz hx.grid h42.grid (by rw [abs_of_pos (by norm_num : (0 : ℚ) < 42)]; linarith)
  unfold gdY
  obtain ⟨_, e1⟩ := hx
  obtain ⟨_, e2⟩ := h42
  rw [e1, e2]
  have := val_of_le (q := q - 42) (h.trans (ten_le (by norm_num)))
  rwa [rndBin_id hg] at this

/-- the parts `6 e` and `4 e³` of the gradient have the same sign -/
theorem grad_abs (e : ℚ) : |6 * e + 4 * e ^ 3| = 6 * |e| + 4 * |e| ^ 3 := by
  rw [show 6 * e + 4 * e ^ 3 = e * (6 + 4 * e ^ 2) by ring, abs_mul, abs_of_pos (by positivity : 0 < 6 + 4 * e ^ 2), ← sq_abs e]; ring

theorem cube_le {a : ℚ} (h0 : 0 ≤ a) (h : a ^ 2 ≤ 47) : a ^ 3 ≤ 47 * a := by nlinarith

/-- the computed gradient -/
theorem gdGrad_val (h3 : PowOk 3 pow3) {x : Vec F64 1} {q : ℚ} (hx : Val (x 0) q) (h : (q - 42) ^ 2 ≤ 47) :
    ∃ g, Val (gdGradD pow3 x) g ∧ |g - (6 * (q - 42) + 4 * (q - 42) ^ 3)| ≤ 1 / 10 ^ 14 * |6 * (q - 42) + 4 * (q - 42) ^ 3| + 1 / 10 ^ 28 := by
  have h7 : |q - 42| ≤ 7 := abs_le_of_sq_le_sq (by linarith) (by norm_num)
  have hy := gdY_val hx h7
  rw [grad_abs]
  have hsq : |q - 42| ^ 2 ≤ 47 := by rw [sq_abs]; exact h
  generalize he : q - 42 = e at *
  have h0 := abs_nonneg e
  have hc := cube_le h0 hsq
  have hc0 : 0 ≤ |e| ^ 3 := by positivity
  have h6 : Val (ofInt 6) 6 := by have := val_int (n := 6) (by norm_num); exact_mod_cast this
  have h4 : Val (ofInt 4) 4 := by have := val_int (n := 4) (by norm_num); exact_mod_cast this
  have e6 : |6 * e| = 6 * |e| := by rw [abs_mul]; norm_num
  obtain ⟨a, ha, hae⟩ := h6.mul_err hy (by rw [e6]; linarith)
  obtain ⟨r, hr, hre⟩ := h3.err hy (by linarith)
  rw [abs_pow] at hre
  have hr' : |r| ≤ 2 * |e| ^ 3 + 1 / 10 ^ 30 := by
    have := abs_sub_abs_le_abs_sub r (e ^ 3)
    rw [abs_pow] at this
    linarith
  have e4 : |4 * r| = 4 * |r| := by rw [abs_mul]; norm_num
  obtain ⟨b, hb, hbe⟩ := h4.mul_err hr (by rw [e4]; linarith)
  rw [e6] at hae
  rw [e4] at hbe
  have hab : |a + b| ≤ 7 * |e| + 9 * |e| ^ 3 + 1 / 10 ^ 29 := by
    have a1 := abs_add_le a b
    have a2 := abs_sub_abs_le_abs_sub a (6 * e)
    have a3 := abs_sub_abs_le_abs_sub b (4 * r)
    rw [e6] at a2
    rw [e4] at a3
    linarith
  obtain ⟨g, hg, hge⟩ := ha.add hb (ten_le (by linarith))
  refine ⟨g, hg, ?_⟩
  have t : g - (6 * e + 4 * e ^ 3) = (g - (a + b)) + ((a - 6 * e) + ((b - 4 * r) + 4 * (r - e ^ 3))) := by ring
  rw [t]
  refine (abs_add_le _ _).trans ?_
  have b1 := abs_add_le (a - 6 * e) ((b - 4 * r) + 4 * (r - e ^ 3))
  have b2 := abs_add_le (b - 4 * r) (4 * (r - e ^ 3))
  have b3 : |4 * (r - e ^ 3)| = 4 * |r - e ^ 3| := by rw [abs_mul]; norm_num
  linarith

/-- the computed cost -/
theorem gdCost_val (h4 : PowOk 4 pow4) {x : Vec F64 1} {q : ℚ} (hx : Val (x 0) q) (h : (q - 42) ^ 2 ≤ 47) :
    ∃ c, Val (gdCostD pow4 x) c ∧ |c - (3 * (q - 42) ^ 2 + (q - 42) ^ 4 - 2)| ≤ 1 / 10 ^ 14 * (3 * (q - 42) ^ 2 + (q - 42) ^ 4 + 2) := by
  have h7 : |q - 42| ≤ 7 := abs_le_of_sq_le_sq (by linarith) (by norm_num)
  have hy := gdY_val hx h7
  generalize he : q - 42 = e at *
  have h0 := abs_nonneg e
  have hs0 := sq_nonneg e
  have h40 : 0 ≤ e ^ 4 := by positivity
  have h4' : e ^ 4 ≤ 2209 := by
    rw [show e ^ 4 = e ^ 2 * e ^ 2 by ring]; nlinarith
  have hee : |e| * |e| = e ^ 2 := by rw [abs_mul_abs_self]; ring
  have v3 : Val (ofInt 3) 3 := by have := val_int (n := 3) (by norm_num); exact_mod_cast this
  have e3 : |3 * e| = 3 * |e| := by rw [abs_mul]; norm_num
  obtain ⟨a, ha, hae⟩ := v3.mul_err hy (by rw [e3]; linarith)
  rw [e3] at hae
  have ha' : |a| ≤ 4 * |e| + 1 / 10 ^ 30 := by
    have := abs_sub_abs_le_abs_sub a (3 * e)
    rw [e3] at this
    linarith
  have hae' : |a * e| ≤ 4 * e ^ 2 + 1 / 10 ^ 29 := by
    rw [abs_mul]
    have := mul_le_mul_of_nonneg_right ha' h0
    linarith
  obtain ⟨b, hb, hbe⟩ := ha.mul_err hy (by linarith)
  obtain ⟨r, hr, hre⟩ := h4.err hy (by linarith)
  rw [abs_of_nonneg h40] at hre
  have hae2 : |a * e - 3 * e ^ 2| ≤ 3 * e ^ 2 / 2 ^ 53 + 1 / 10 ^ 29 := by
    rw [show a * e - 3 * e ^ 2 = (a - 3 * e) * e by ring, abs_mul]
    have := mul_le_mul_of_nonneg_right hae h0
    have t : (3 * |e| / 2 ^ 53 + 1 / 10 ^ 30) * |e| = 3 * (|e| * |e|) / 2 ^ 53 + 1 / 10 ^ 30 * |e| := by ring
    rw [t, hee] at this
    linarith
  have hbr : |b + r| ≤ 6 * e ^ 2 + 2 * e ^ 4 + 1 / 10 ^ 28 := by
    have a1 := abs_add_le b r
    have a2 := abs_sub_abs_le_abs_sub b (a * e)
    have a3 := abs_sub_abs_le_abs_sub r (e ^ 4)
    rw [abs_of_nonneg h40] at a3
    linarith
  obtain ⟨s, hs, hse⟩ := hb.add hr (ten_le (by linarith))
  have hs2 : |s - 2| ≤ 7 * e ^ 2 + 3 * e ^ 4 + 3 := by
    have a1 := abs_sub s 2
    have a2 := abs_sub_abs_le_abs_sub s (b + r)
    rw [abs_of_pos (by norm_num : (0 : ℚ) < 2)] at a1
    linarith
  obtain ⟨c, hc, hce⟩ := hs.sub val_two (ten_le (by linarith))
  refine ⟨c, hc, ?_⟩
  have t : c - (3 * e ^ 2 + e ^ 4 - 2) = (c - (s - 2)) + ((s - (b + r)) + ((b - a * e) + ((a * e - 3 * e ^ 2) + (r - e ^ 4)))) := by ring
  rw [t]
  have b1 := abs_add_le (c - (s - 2)) ((s - (b + r)) + ((b - a * e) + ((a * e - 3 * e ^ 2) + (r - e ^ 4))))
  have b2 := abs_add_le (s - (b + r)) ((b - a * e) + ((a * e - 3 * e ^ 2) + (r - e ^ 4)))
  have b3 := abs_add_le (b - a * e) ((a * e - 3 * e ^ 2) + (r - e ^ 4))
  have b4 := abs_add_le (a * e - 3 * e ^ 2) (r - e ^ 4)
  linarith

/-- the step at `x` -/
def GdStepD (x : Vec F64 1) (d : DVec F64) : Prop :=
  ∃ q l v δ, Val (x 0) q ∧ d = ⟨1, fun _ => v⟩ ∧ Val v δ ∧ 99999 / 10 ^ 7 ≤ l ∧ l ≤ 1 / 100 ∧ |δ + l * ((q - 42) * (6 + 4 * (q - 42) ^ 2))| ≤ 1 / 10 ^ 11 * |q - 42| + 1 / 10 ^ 27

theorem gdD_delivers (h : GdTestD P pow3 pow4) (h3 : PowOk 3 pow3) (h4 : PowOk 4 pow4) (w : W) (s : GNState F64 R) (hs : s.n = 1) (x : Vec F64 1) {q : ℚ} (hx : Val (x 0) q)
    (hq : (q - 42) ^ 2 ≤ 47) :
    ∃ s2 dx, Delivers (gdEnv gdSolverD P) w s x s2 dx ∧ s2.cost.cost = gdCostD pow4 x ∧
      sqNorm s2.g = sqNorm (n := 1) (fun _ => gdGradD pow3 x) ∧ GdStepD x dx ∧ s2.n = 1 := by
  obtain ⟨g, hg, hge⟩ := gdGrad_val h3 hx hq
  obtain ⟨κ, hκ, hκe⟩ := gdCost_val h4 hx hq
  obtain ⟨l, hl, hl1, hl2⟩ := lit_lr
  have h0 := abs_nonneg (q - 42)
  have hsq : |q - 42| ^ 2 ≤ 47 := by rw [sq_abs]; exact hq
  have hm : |6 * (q - 42) + 4 * (q - 42) ^ 3| ≤ 194 * |q - 42| := by
    rw [grad_abs]
    have := cube_le h0 hsq
    linarith
  have h7 : |q - 42| ≤ 7 := abs_le_of_sq_le_sq (by linarith) (by norm_num)
  have hg' : |g| ≤ 200 * |q - 42| + 1 / 10 ^ 28 := by
    have := abs_sub_abs_le_abs_sub g (6 * (q - 42) + 4 * (q - 42) ^ 3)
    linarith
  have hlg : |-l * g| ≤ 2 * |q - 42| + 1 / 10 ^ 29 := by
    rw [abs_mul, abs_neg, abs_of_pos (by linarith)]
    have := mul_le_mul hl2 hg' (abs_nonneg _) (by norm_num)
    linarith
  obtain ⟨δ, hδ, hδe⟩ := hl.neg.mul_err hg (by linarith)
  have hδ' : |δ| ≤ 100 := by
    have := abs_sub_abs_le_abs_sub δ (-l * g)
    linarith
  obtain ⟨c0, H', w1, hf, hc1, hc2⟩ := h.full w x (fun _ => ofInt 0) (fun _ _ => ofInt 0)
  obtain ⟨n0, g0, H0, c00⟩ := s
  obtain rfl : n0 = 1 := hs
  have h40 : (q - 42) ^ 4 ≤ 2209 := by
    rw [show (q - 42) ^ 4 = (q - 42) ^ 2 * (q - 42) ^ 2 by ring]
    have := sq_nonneg (q - 42)
    nlinarith
  have hκ' : κ ≤ 3000 := by
    have := abs_le.1 hκe
    linarith [this.2]
  have hcv : c0.isValid = true := by
    unfold Cost.isValid
    rw [hc2, hc1]
    have : FloatOps.eq (gdCostD pow4 x) maxVal = false := by
      rw [FloatLaws.eq_spec _ _ hκ.finite FloatLaws.max_finite]
      have hm : Val maxVal Fmt.binary64.max := ⟨_, rfl⟩
      rw [hκ.lt hm]
      have : κ < Fmt.binary64.max := by
        refine lt_of_le_of_lt hκ' (lt_of_lt_of_le ?_ dbl_max)
        calc (3000 : ℚ) < 10 ^ 4 := by norm_num
          _ ≤ _ := big_ten (by norm_num)
      simp [this]
    simp [ne, this]
  have hnc : normalizeCost gdSolverD c0 = c0 := by
    unfold normalizeCost; simp [gdSolverD, defaultSolverOpts]
  have hb : gdBuild gdSolverD P w ⟨1, g0, H0, c00⟩ x = (true, ⟨1, fun _ => gdGradD pow3 x, fun _ _ => ofInt 0, c0⟩, w1) := by
    unfold gdBuild gnAccumulate
    simp only [hf, hnc, hcv]
    have e1 : gdSolverD.gradClip = ofInt 0 := lit_zero
    have e3 : FloatOps.eq (ofInt 0 : F64) (ofInt 0) = true := by
      rw [FloatLaws.eq_spec _ _ val_zero.finite val_zero.finite]; simp [FloatLaws.lt_irrefl]
    rw [e1]
    simp only [clampVec, e3, if_true]
  refine ⟨⟨1, fun _ => gdGradD pow3 x, fun _ _ => ofInt 0, c0⟩, ⟨1, fun _ => mul (neg (litD (1 / 100))) (gdGradD pow3 x)⟩, ⟨⟨⟨1, g0, H0, c00⟩, w, w1, ?_, hb⟩, ?_, ?_, ?_, fun _ => ⟨_, rfl⟩, ⟨_, rfl⟩⟩,
    hc1, rfl, ⟨q, l, _, δ, hx, rfl, hδ, hl1, hl2, ?_⟩, rfl⟩
  · unfold resizeIfNeeded
    have hd : (gdEnv gdSolverD P).dynDims x = 1 := h.dyn x
    simp only [hd]
    rw [if_neg (by simp), if_neg (by norm_num)]
    have : (gdEnv gdSolverD P).sol.resize w ⟨1, g0, H0, c00⟩ 1 = (.done ⟨1, g0, H0, c00⟩, w) := by
      show gnResize P w ⟨1, g0, H0, c00⟩ 1 = (.done ⟨1, g0, H0, c00⟩, w)
      unfold gnResize; rw [h.dims]; simp
    rw [this]
  · show gdSolve _ _ = _
    unfold gdSolve
    simp only [hcv, if_true]
    rfl
  · show finite c0.cost = true
    rw [hc1]; exact hκ.finite
  · refine (sq_one hδ (hδ'.trans ?_)).finite
    calc (100 : ℚ) = 10 ^ 2 := by norm_num
      _ ≤ _ := big_ten (by norm_num)
  · have t : δ + l * ((q - 42) * (6 + 4 * (q - 42) ^ 2)) = (δ - -l * g) + -l * (g - (6 * (q - 42) + 4 * (q - 42) ^ 3)) := by ring
    rw [t]
    have a1 := abs_add_le (δ - -l * g) (-l * (g - (6 * (q - 42) + 4 * (q - 42) ^ 3)))
    have a2 : |-l * (g - (6 * (q - 42) + 4 * (q - 42) ^ 3))| ≤ 1 / 100 * |g - (6 * (q - 42) + 4 * (q - 42) ^ 3)| := by
      rw [abs_mul, abs_neg, abs_of_pos (by linarith)]
      exact mul_le_mul_of_nonneg_right hl2 (abs_nonneg _)
    linarith

/-- `1 - l (6 + 4 e²)`, the factor of the exact step -/
theorem gd_factor {e l : ℚ} (hl1 : 99999 / 10 ^ 7 ≤ l) (hl2 : l ≤ 1 / 100) (he : e ^ 2 ≤ 47) :
    |e - l * (e * (6 + 4 * e ^ 2))| ≤ 94001 / 100000 * |e| ∧ |l * (e * (6 + 4 * e ^ 2))| ≤ 2 * |e| ∧ 5999 / 100000 * |e| ≤ |l * (e * (6 + 4 * e ^ 2))| := by
  have h0 := sq_nonneg e
  have b1 := mul_le_mul hl2 (by linarith : 6 + 4 * e ^ 2 ≤ 194) (by positivity) (by norm_num)
  have b2 := mul_le_mul hl1 (by linarith : 6 ≤ 6 + 4 * e ^ 2) (by norm_num) (by linarith)
  have t : l * (e * (6 + 4 * e ^ 2)) = l * (6 + 4 * e ^ 2) * e := by ring
  have hp : 0 ≤ l * (6 + 4 * e ^ 2) := by linarith
  refine ⟨?_, ?_, ?_⟩
  · rw [show e - l * (e * (6 + 4 * e ^ 2)) = (1 - l * (6 + 4 * e ^ 2)) * e by ring, abs_mul]
    refine mul_le_mul_of_nonneg_right ?_ (abs_nonneg _)
    rw [abs_le]
    constructor <;> linarith
  · rw [t, abs_mul, abs_of_nonneg hp]
    exact mul_le_mul_of_nonneg_right (by linarith) (abs_nonneg _)
  · rw [t, abs_mul, abs_of_nonneg hp]
    exact mul_le_mul_of_nonneg_right (by linarith) (abs_nonneg _)

/-- near the minimum the step is `0.06` of the distance -/
theorem gd_factor_near {e l : ℚ} (hl1 : 99999 / 10 ^ 7 ≤ l) (hl2 : l ≤ 1 / 100) (he : |e| ≤ 1 / 1000) : |l * (e * (6 + 4 * e ^ 2))| ≤ 6001 / 100000 * |e| := by
  have h1 : e ^ 2 ≤ 1 / 10 ^ 6 := by
    rw [← sq_abs]
    have := abs_nonneg e
    nlinarith
  have h0 := sq_nonneg e
  have b1 := mul_le_mul hl2 (by linarith : 6 + 4 * e ^ 2 ≤ 60001 / 10000) (by positivity) (by norm_num)
  rw [show l * (e * (6 + 4 * e ^ 2)) = l * (6 + 4 * e ^ 2) * e by ring, abs_mul, abs_of_nonneg (mul_nonneg (by linarith) (by positivity))]
  exact mul_le_mul_of_nonneg_right (by linarith) (abs_nonneg _)

/-- the step and the next point -/
theorem gdD_next (h : GdTestD P pow3 pow4) {x : Vec F64 1} {q : ℚ} (hx : Val (x 0) q) (hq : (q - 42) ^ 2 ≤ 47) {d : DVec F64} (hd : GdStepD x d) :
    ∃ v δ y, d = ⟨1, fun _ => v⟩ ∧ Val v δ ∧ Val (P.plusEq x d 0) y ∧ |δ| ≤ 100 ∧ |y - 42| ≤ 94002 / 100000 * |q - 42| + 1 / 10 ^ 14 ∧ 5998 / 100000 * |q - 42| ≤ |δ| + 1 / 10 ^ 27 ∧
      (|q - 42| ≤ 1 / 1000 → |δ| ≤ 6002 / 100000 * |q - 42| + 1 / 10 ^ 27) := by
  obtain ⟨q', l, v, δ, hx', rfl, hv, hl1, hl2, he⟩ := hd
  obtain rfl := hx.unique hx'
  have h7 : |q - 42| ≤ 7 := abs_le_of_sq_le_sq (by linarith) (by norm_num)
  have h0 := abs_nonneg (q - 42)
  obtain ⟨f1, f2, f3⟩ := gd_factor hl1 hl2 hq
  have hδ : |δ| ≤ 100 := by
    have a1 := abs_sub (δ + l * ((q - 42) * (6 + 4 * (q - 42) ^ 2))) (l * ((q - 42) * (6 + 4 * (q - 42) ^ 2)))
    rw [add_sub_cancel_right] at a1
    linarith
  have hp : |q + δ - 42| ≤ 94001 / 100000 * |q - 42| + (1 / 10 ^ 11 * |q - 42| + 1 / 10 ^ 27) := by
    have a1 := abs_add_le ((q - 42) - l * ((q - 42) * (6 + 4 * (q - 42) ^ 2))) (δ + l * ((q - 42) * (6 + 4 * (q - 42) ^ 2)))
    rw [show (q - 42) - l * ((q - 42) * (6 + 4 * (q - 42) ^ 2)) + (δ + l * ((q - 42) * (6 + 4 * (q - 42) ^ 2))) = q + δ - 42 by ring] at a1
    linarith
  have hp2 : |q + δ| ≤ 50 := by
    have a1 := abs_add_le (q + δ - 42) 42
    rw [sub_add_cancel, abs_of_pos (by norm_num : (0 : ℚ) < 42)] at a1
    linarith
  obtain ⟨y, hy, hye⟩ := hx.add hv (ten_le (by linarith))
  refine ⟨v, δ, y, rfl, hv, by rw [h.plus]; exact hy, hδ, ?_, ?_, fun hs => ?_⟩
  · have a1 := abs_add_le (y - (q + δ)) (q + δ - 42)
    rw [sub_add_sub_cancel] at a1
    linarith
  · have a1 := abs_sub (δ + l * ((q - 42) * (6 + 4 * (q - 42) ^ 2))) δ
    rw [add_sub_cancel_left] at a1
    linarith
  · have f4 := gd_factor_near hl1 hl2 hs
    have a1 := abs_sub (δ + l * ((q - 42) * (6 + 4 * (q - 42) ^ 2))) (l * ((q - 42) * (6 + 4 * (q - 42) ^ 2)))
    rw [add_sub_cancel_right] at a1
    linarith

/-- a step that is not short contracts the distance to 42 and lowers the computed cost -/
theorem gdD_lower (h : GdTestD P pow3 pow4) (h4 : PowOk 4 pow4) {x : Vec F64 1} {q : ℚ} (hx : Val (x 0) q) (hq : (q - 42) ^ 2 ≤ 47) {d : DVec F64} (hd : GdStepD x d)
    (hns : lt (sqNorm d.v) (litD (1 / 10 ^ 14)) = false) :
    ∃ y, Val (P.plusEq x d 0) y ∧ |y - 42| ≤ 9401 / 10000 * |q - 42| ∧ lt (sub (gdCostD pow4 (P.plusEq x d)) (gdCostD pow4 x)) (ofInt 0) = true ∧ 15 / 10 ^ 7 ≤ |q - 42| := by
  obtain ⟨v, δ, y, rfl, hv, hy, hδ, hyl, hlo, hhi⟩ := gdD_next h hx hq hd
  obtain ⟨sv, hsv, hs1, hs2⟩ := lit_step
  rw [(sq_one hv (hδ.trans (by calc (100 : ℚ) = 10 ^ 2 := by norm_num
      _ ≤ _ := big_ten (by norm_num)))).lt hsv, decide_eq_false_iff_not] at hns
  have hbig : 98 / 10 ^ 9 < |δ| := by
    by_contra hn
    exact hns ((short_iff hs1 hs2).2 (not_lt.1 hn))
  have h0 := abs_nonneg (q - 42)
  have hee : 15 / 10 ^ 7 ≤ |q - 42| := by
    by_contra hn
    have := hhi (by linarith)
    linarith
  have hc : |y - 42| ≤ 9401 / 10000 * |q - 42| := by linarith
  have hy2 : (y - 42) ^ 2 ≤ 884 / 1000 * (q - 42) ^ 2 := by
    rw [← sq_abs (y - 42), ← sq_abs (q - 42)]
    refine (pow_le_pow_left₀ (abs_nonneg _) hc 2).trans ?_
    rw [mul_pow]
    exact mul_le_mul_of_nonneg_right (by norm_num) (by positivity)
  have hs0 := sq_nonneg (q - 42)
  have hy0 := sq_nonneg (y - 42)
  have hy4 : (y - 42) ^ 4 ≤ 8 / 10 * (q - 42) ^ 4 := by
    rw [show (y - 42) ^ 4 = (y - 42) ^ 2 * (y - 42) ^ 2 by ring, show (q - 42) ^ 4 = (q - 42) ^ 2 * (q - 42) ^ 2 by ring]
    have := mul_le_mul hy2 hy2 hy0 (by positivity)
    have h9 := mul_nonneg hs0 hs0
    linarith
  have h40 : 0 ≤ (q - 42) ^ 4 := by positivity
  have he2 : 2 / 10 ^ 12 ≤ (q - 42) ^ 2 := by
    rw [← sq_abs (q - 42)]
    have := pow_le_pow_left₀ (by norm_num) hee 2
    refine le_trans (by norm_num) this
  obtain ⟨κ, hκ, hκe⟩ := gdCost_val h4 hx hq
  obtain ⟨κ', hκ', hκe'⟩ := gdCost_val h4 hy (by linarith)
  refine ⟨y, hy, hc, ?_, hee⟩
  refine (FloatLaws.sub_neg _ _ hκ'.finite hκ.finite).trans ?_
  rw [hκ'.lt hκ, decide_eq_true_eq]
  have b1 := abs_le.1 hκe
  have b2 := abs_le.1 hκe'
  linarith [b1.1, b2.2]

theorem gdOptsD_unwatched (b : Bool) : Unwatched (gdOptsD b : Options F64 W (DVec F64)) :=
  ⟨by show lt (ofInt 0) (litD 0) = false; rw [lit_zero, val_zero.lt val_zero]; simp, rfl, rfl⟩

/-- the contraction over 250 steps -/
theorem gd_levels : (68 / 10 : ℚ) * (9401 / 10000) ^ 250 ≤ 16 / 10 ^ 7 := by
  have h1 : (9401 / 10000 : ℚ) ^ 25 ≤ 2136 / 10000 := by norm_num
  have h2 : (9401 / 10000 : ℚ) ^ 250 ≤ (2136 / 10000) ^ 10 := by
    rw [show (250 : ℕ) = 25 * 10 by norm_num, pow_mul]
    exact pow_le_pow_left₀ (by positivity) h1 10
  have h3 : (2136 / 10000 : ℚ) ^ 10 ≤ 2 / 10 ^ 7 := by norm_num
  linarith

/-- **C121.** `TestSimpleGradientDescent` (tests/unconstrained.cpp) in IEEE `double` arithmetic, for every starting point at most 6.8 from 42 (the test starts at 40.1) and every `std::pow` with
relative error at most `2^-50`: the run ends as converged with the reason `kMinDeltaNorm`, after at most 251 of its 1001 iterations, every step is accepted and lowers the computed cost, every
step contracts the distance to 42 by the factor 0.9401, and the result is within `2e-6` of 42 (the test asks for `1e-5`). -/
theorem C121_gd_test (h : GdTestD P pow3 pow4) (h3 : PowOk 3 pow3) (h4 : PowOk 4 pow4) (b : Bool) {x0 : Vec F64 1} {q0 : ℚ} (hx0 : Val (x0 0) q0) (hq0 : |q0 - 42| ≤ 68 / 10)
    (s : GNState F64 R) (hs : s.n = 1) (fuel : Nat) (w : W) :
    ∃ st, optimizeAcc (gdEnv gdSolverD P) (gdOptsD b) (fuel + 1) (-1) w s x0 = .ok st ∧ st.out.converged = true ∧ st.out.stop = .kMinDeltaNorm ∧ st.trace.length ≤ 251 ∧
      (∀ r ∈ st.trace, r.succ = true) ∧ (∀ i r, st.trace[i]? = some r → ∃ q, Val (r.x 0) q ∧ |q - 42| ≤ 68 / 10 * (9401 / 10000) ^ i) ∧
      ∃ y, Val (st.x 0) y ∧ |y - 42| ≤ 2 / 10 ^ 6 := by
  obtain ⟨M, hM, hM51⟩ : ∃ M, loopBound (gdOptsD b : Options F64 W (DVec F64)) (-1) = some M ∧ 1001 ≤ M := by
    cases b
    · exact ⟨1001, rfl, le_refl _⟩
    · exact ⟨1002, rfl, by norm_num⟩
  obtain ⟨sv, hsv, hs1, hs2⟩ := lit_step
  have hsq : ∀ {i : ℕ} {q : ℚ}, |q - 42| ≤ 68 / 10 * (9401 / 10000) ^ i → (q - 42) ^ 2 ≤ 47 := fun {i q} hq => by
    have h1 : ((9401 / 10000 : ℚ)) ^ i ≤ 1 := pow_le_one₀ (by norm_num) (by norm_num)
    have h2 : |q - 42| ≤ 68 / 10 := by linarith
    rw [← sq_abs]
    have := pow_le_pow_left₀ (abs_nonneg _) h2 2
    refine this.trans (by norm_num)
  have h100 : (100 : ℚ) ≤ 10 ^ 153 := by
    calc (100 : ℚ) = 10 ^ 2 := by norm_num
      _ ≤ _ := big_ten (by norm_num)
  obtain ⟨st, e, h1, h2, r, d, h5, h6, h7, h8⟩ := contracting_run (E := gdEnv gdSolverD P) (o := gdOptsD b)
    (C := gdCostD pow4) (g2 := fun x => sqNorm (n := 1) fun _ => gdGradD pow3 x) (Ok := fun s => s.n = 1) (T := GdStepD) (N := 250) (x0 := x0)
    (Lvl := fun i x => ∃ q, Val (x 0) q ∧ |q - 42| ≤ 68 / 10 * (9401 / 10000) ^ i) (gdOptsD_unwatched b)
    (by show lt (ofInt 0) (litD (1 / 10 ^ 14)) = true; rw [val_zero.lt hsv]; simp; linarith)
    (fun i w s x _ hl hok => by
      obtain ⟨q, hx, hq⟩ := hl
      obtain ⟨s2, dx, a1, a2, a3, a4, a5⟩ := gdD_delivers h h3 h4 w s hok x hx (hsq hq)
      refine ⟨s2, dx, a1, a2, a3, a4, a5, fun qq s3 _ hg => ?_⟩
      have hg : (Res.ok s2 : Res (GNState F64 R)) = .ok s3 := hg
      injection hg with hg
      subst hg
      exact a5)
    (fun i x dx hi hl hT hns => by
      obtain ⟨q, hx, hq⟩ := hl
      obtain ⟨y, b1, b2, b3, b4⟩ := gdD_lower h h4 hx (hsq hq) hT hns
      refine ⟨⟨y, b1, ?_⟩, b3⟩
      rw [pow_succ]
      linarith)
    (fun x dx hl hT => by
      obtain ⟨q, hx, hq⟩ := hl
      obtain ⟨v, δ, y, rfl, hv, -, hδ, -, -, hhi⟩ := gdD_next h hx (hsq hq) hT
      have hq' := hq.trans gd_levels
      have := hhi (by linarith)
      refine ((sq_one hv (hδ.trans h100)).lt hsv).trans ?_
      rw [decide_eq_true_eq]
      exact (short_iff hs1 hs2).2 (by linarith))
    ⟨q0, hx0, by simpa using hq0⟩
    (by
      have hq1 := hsq (i := 0) (q := q0) (by simpa using hq0)
      obtain ⟨κ, hκ, hκe⟩ := gdCost_val h4 hx0 hq1
      have h40 : (q0 - 42) ^ 4 ≤ 2209 := by
        rw [show (q0 - 42) ^ 4 = (q0 - 42) ^ 2 * (q0 - 42) ^ 2 by ring]
        have := sq_nonneg (q0 - 42)
        nlinarith
      have hm : Val maxVal Fmt.binary64.max := ⟨_, rfl⟩
      refine (FloatLaws.sub_neg _ _ hκ.finite hm.finite).trans ?_
      rw [hκ.lt hm, decide_eq_true_eq]
      have := (abs_le.1 hκe).2
      refine lt_of_lt_of_le ?_ dbl_max
      calc κ < 10 ^ 4 := by linarith
        _ ≤ _ := big_ten (by norm_num))
    (fuel := fuel) hM (by push_cast; omega) (w := w) (s := s) hs
  have hlast : st.trace[st.trace.length - 1]? = some r := by rw [← List.getLast?_eq_getElem?]; exact h5
  obtain ⟨⟨q, hx, hq⟩, -, d', h9, hT, -⟩ := h2 _ _ hlast
  rw [h6] at h9
  injection h9 with h9
  subst h9
  obtain ⟨v, δ, y, rfl, hv, hy, hδ, hyl, hlo, hhi⟩ := gdD_next h hx (hsq hq) hT
  have hz : lt (ofInt 0) (litD 0) = false := by rw [lit_zero, val_zero.lt val_zero]; simp
  have hsh : lt (sqNorm (n := 1) fun _ => v) (litD (1 / 10 ^ 14)) = true ∧ st.out.stop = .kMinDeltaNorm := by
    generalize st.out.stop = rs at h8
    cases h8 with
    | error a1 _ => exact absurd (hz.symm.trans a1) (by simp)
    | rel a1 _ _ _ => exact absurd (hz.symm.trans a1) (by simp)
    | step a1 a2 _ _ => exact ⟨a2, rfl⟩
    | grad a1 a2 _ _ n3 =>
      exfalso
      obtain ⟨gv, hgv, hg1, hg2⟩ := lit_grad
      obtain ⟨g, hg, hge⟩ := gdGrad_val h3 hx (hsq hq)
      have n3 : (lt (ofInt 0) (litD (1 / 10 ^ 14)) && lt (sqNorm (n := 1) fun _ => v) (litD (1 / 10 ^ 14))) = false := n3
      have hpos : lt (ofInt 0) (litD (1 / 10 ^ 14)) = true := by rw [val_zero.lt hsv]; simp; linarith
      rw [hpos, Bool.true_and] at n3
      obtain ⟨-, -, -, -, hee⟩ := gdD_lower h h4 hx (hsq hq) hT n3
      have a2 : lt (sqNorm (n := 1) fun _ => gdGradD pow3 r.x) (litD (1 / 10 ^ 18)) = true := a2
      have hlow : 6 * |q - 42| ≤ |6 * (q - 42) + 4 * (q - 42) ^ 3| := by
        rw [grad_abs]
        have : 0 ≤ |q - 42| ^ 3 := by positivity
        linarith
      have hup : |6 * (q - 42) + 4 * (q - 42) ^ 3| ≤ 2000 := by
        rw [grad_abs]
        have h0 := abs_nonneg (q - 42)
        have h7 : |q - 42| ≤ 7 := abs_le_of_sq_le_sq (by have := hsq hq; linarith) (by norm_num)
        have := cube_le h0 (by rw [sq_abs]; exact hsq hq)
        linarith
      have c1 := abs_sub_abs_le_abs_sub (6 * (q - 42) + 4 * (q - 42) ^ 3) g
      have c2 := abs_sub_abs_le_abs_sub g (6 * (q - 42) + 4 * (q - 42) ^ 3)
      rw [abs_sub_comm] at c1
      have hgb : 1 / 10 ^ 6 ≤ |g| := by linarith
      have hgu : |g| ≤ 10 ^ 153 := by
        refine le_trans ?_ (big_ten (by norm_num : 4 ≤ 153))
        linarith
      rw [(sq_one hg hgu).lt hgv, decide_eq_true_eq] at a2
      have h9 : (1 / 10 ^ 12 : ℚ) ≤ g * g := by
        rw [← abs_mul_abs_self]
        nlinarith
      have e2 : (101 / 10 ^ 20 : ℚ) < rndBin 53 (-1074) (1 / 10 ^ 12) := by decide +kernel
      have := rndBin64_mono h9
      linarith
  obtain ⟨hsh, hstop⟩ := hsh
  rw [(sq_one hv (hδ.trans h100)).lt hsv, decide_eq_true_eq] at hsh
  have hd := (short_iff hs1 hs2).1 hsh
  refine ⟨st, e, by unfold Output.converged; rw [hstop]; decide, hstop, h1, fun r hr => ?_, fun i r hr => (h2 i r hr).1, y, ?_, by linarith⟩
  · obtain ⟨i, hi⟩ := List.mem_iff_getElem?.1 hr
    exact (h2 i r hi).2.1
  · rw [h7]; exact hy

/-! ### the test itself -/

/-- a correctly rounded `pow` -/
def powRnd (k : ℕ) : F64 → F64
  | .fin q _ => Fl.mk (q ^ k)
  | a => a

theorem powRnd_ok (k : ℕ) (hk : k ≤ 10) : PowOk k (powRnd k) := by
  intro a q ha hq
  obtain ⟨_, rfl⟩ := ha
  have h1 : |q ^ k| ≤ 10 ^ 10 := by
    rw [abs_pow]
    calc |q| ^ k ≤ 10 ^ k := pow_le_pow_left₀ (abs_nonneg _) hq k
      _ ≤ _ := big_ten hk
  refine ⟨_, val_of_le (h1.trans (big_ten (by norm_num))), (dbl_err _).trans ?_⟩
  have h2 : |q ^ k| / 2 ^ 53 ≤ |q ^ k| / 2 ^ 50 := div_le_div_of_nonneg_left (abs_nonneg _) (by norm_num) (by norm_num)
  have h3 : (1 : ℚ) / 2 ^ 1075 ≤ 1 / 2 ^ 1000 := one_div_le_one_div_of_le (pow_pos (by norm_num) _) (pow_le_pow_right₀ (by norm_num) (by norm_num))
  linarith

/-- tests/unconstrained.cpp:20-28; the world counts the calls -/
def gdTestDProb : Problem F64 F64 Nat (Vec F64 1) where
  dims := some 1
  dynDims := fun _ => 1
  plusEq := fun x d i => if h : i.1 < d.n then add (x i) (d.v ⟨i.1, h⟩) else x i
  clock := fun w => (ofInt 0, w)
  alloc := fun w _ => (some (fun _ => ofInt 0, fun _ _ => ofInt 0), w)
  ratio1 := ofInt 1
  acc := {
    full := fun w x _ _ H => (({ cost := gdCostD (powRnd 4) x, num := 1, inlier := ofInt 1 }, fun _ => gdGradD (powRnd 3) x, H), w + 1)
    eval := fun w x => ({ cost := gdCostD (powRnd 4) x, num := 1, inlier := ofInt 1 }, w + 1) }

theorem gdTestDProb_ok : GdTestD gdTestDProb (powRnd 3) (powRnd 4) where
  dims := rfl
  dyn _ := rfl
  plus x v := by funext i; fin_cases i; simp [gdTestDProb]
  full w x g H := ⟨_, _, _, rfl, rfl, rfl⟩

/-- the test: from 40.1 -/
example (fuel : Nat) : ∃ st, optimizeAcc (gdEnv gdSolverD gdTestDProb) (gdOptsD false) (fuel + 1) (-1) 0 (gnFresh gdTestDProb (fun _ => ofInt 0) fun _ _ => ofInt 0) (fun _ => Fl.mk (401 / 10)) = .ok st ∧
    st.out.converged = true ∧ st.out.stop = .kMinDeltaNorm ∧ st.trace.length ≤ 251 ∧ ∃ y, Val (st.x 0) y ∧ |y - 42| ≤ 1 / 10 ^ 5 := by
  have hv : Val (Fl.mk (401 / 10)) (rndBin 53 (-1074) (401 / 10)) := val_of_le (ten_le (by rw [abs_of_pos (by norm_num)]; norm_num))
  have hb : |rndBin 53 (-1074) (401 / 10) - 42| ≤ 68 / 10 := by decide +kernel
  obtain ⟨st, e, h1, h2, h3, -, -, y, h4, h5⟩ := C121_gd_test gdTestDProb_ok (powRnd_ok 3 (by norm_num)) (powRnd_ok 4 (by norm_num)) false (x0 := fun _ => Fl.mk (401 / 10)) hv hb
    (gnFresh gdTestDProb (fun _ => ofInt 0) fun _ _ => ofInt 0) rfl fuel 0
  exact ⟨st, e, h1, h2, h3, y, h4, h5.trans (by norm_num)⟩

end
end Verif
