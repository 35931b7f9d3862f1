import Verif.Lemmas.SqrtStep
/-!
# C129: tests/sqrt2.cpp with Levenberg-Marquardt in IEEE `double` arithmetic, for all starts of magnitude 1 to 100
-/

set_option linter.unusedSectionVars false

namespace Verif
open FloatOps

/-- `x * x - 2.0`: tests/sqrt2.cpp:59, 92 -/
def rootRes (x : Vec F64 1) : F64 := sub (mul (x 0) (x 0)) (ofInt 2)

/-- the derivative part of the jet `x * x - 2.0`: the product rule of jet.h:368-370 with the derivative 1 of `x`; the constant does not change it -/
def rootJac (x : Vec F64 1) : F64 := add (mul (x 0) (ofInt 1)) (mul (ofInt 1) (x 0))

/-- the cost after `NormalizeCost`: the squared residual, halved if `downscale_by_2` -/
def rootCost (d : Bool) (x : Vec F64 1) : F64 := if d then mul (mul (rootRes x) (rootRes x)) half else mul (rootRes x) (rootRes x)

/-- the default solver options with any value of `cost.downscale_by_2`: tests/sqrt2.cpp:64 -/
def rootSolver (d : Bool) : SolverOpts F64 := { defaultSolverOpts litD with downscaleBy2 := d }

section
variable {R W : Type} {P : Problem F64 R W (Vec F64 1)} {tol : F64} {inv : (n : Nat) → Mat F64 n → Mat F64 n} {d : Bool}

/-- `CreateOptions()` of tests/sqrt2.cpp:22-28, with any value of `check_final_cost` -/
def rootOpts (b : Bool) : Options F64 W (DVec F64) := { defaultOptions litD with maxIters := 20, maxConsecFailures := 0, checkFinalCost := b }

/-- One parameter, residual `x² - 2`, differentiated automatically: optimize_autodiff.h:108-121 (gradient `J r`, Hessian `J²`, cost `r²`). -/
structure RootTest (P : Problem F64 R W (Vec F64 1)) : Prop where
  dims : P.dims = some 1
  dyn : ∀ x, P.dynDims x = 1
  plus : ∀ x v, P.plusEq x ⟨1, v⟩ = fun i => add (x i) (v i)
  full : ∀ w x g H, ∃ c w', P.acc.full w x 1 g H = ((c, fun _ => mul (rootJac x) (rootRes x), fun _ _ => mul (rootJac x) (rootJac x)), w') ∧
    c.cost = mul (rootRes x) (rootRes x) ∧ c.num = 1

theorem le_huge {a : ℚ} (h : a ≤ 10 ^ 15) : a ≤ 10 ^ 308 := h.trans (big_ten (by norm_num))

theorem abs_le_of_sq {a b : ℚ} (hb : 0 ≤ b) (h : a * a ≤ b * b) : |a| ≤ b := by
  rw [← abs_mul_abs_self] at h
  by_contra hn
  have := abs_nonneg a
  nlinarith

theorem val_half : Val (half : F64) (1 / 2) := val_grid (q := 1 / 2) ⟨1, -1, by norm_num, by norm_num, by norm_num⟩ (by norm_num [abs_of_pos]; exact le_trans (by norm_num) (one_le_pow₀ (by norm_num : (1 : ℚ) ≤ 10)))

theorem Val.mul_one {a : F64} {p : ℚ} (ha : Val a p) (h : |p| ≤ 10 ^ 308) : Val (FloatOps.mul a (ofInt 1)) p := by
  have := ha.mul val_one (by rwa [_root_.mul_one])
  rwa [_root_.mul_one, rndBin_id ha.grid] at this

theorem grid_dbl {q : ℚ} (h : GridBin 53 (-1074) q) : GridBin 53 (-1074) (q + q) := by
  obtain ⟨m, e, h1, h2, h3⟩ := h
  refine ⟨m, e + 1, h1, by omega, ?_⟩
  rw [h3, zpow_add₀ (by norm_num), zpow_one]; ring

theorem rootJac_val {x : Vec F64 1} {q : ℚ} (hx : Val (x 0) q) (hq : |q| ≤ 10 ^ 3) : Val (rootJac x) (2 * q) := by
  have h1 := hx.mul_one (le_huge (hq.trans (by norm_num)))
  have h2 : mul (ofInt 1) (x 0) = x 0 := hx.one_mul
  unfold rootJac
  rw [h2]
  have hg := hx.grid
  obtain ⟨_, e1⟩ := h1
  obtain ⟨_, e2⟩ := hx
  have : Val (Fl.mk (q + q) : F64) (q + q) := val_grid (grid_dbl hg) (by
    refine le_huge ((abs_add_le q q).trans ?_)
    linarith)
  rw [e1, e2, show 2 * q = q + q by ring]
  exact this

/-- the residual and the cost at a point -/
theorem rootRes_val {x : Vec F64 1} {q : ℚ} (hx : Val (x 0) q) (hQ : 1 ≤ q * q) (hq : q * q ≤ 10 ^ 5) : ∃ ρ, Val (rootRes x) ρ ∧ |ρ - (q * q - 2)| ≤ 3 / 10 ^ 16 * (q * q) := by
  have h1 := hx.mul hx (le_huge (by rw [abs_of_nonneg (by linarith)]; linarith))
  have he := dbl_err (q * q)
  have h2 : |rndBin 53 (-1074) (q * q) - 2| ≤ 10 ^ 6 := by
    have a1 := tiny_le
    have a2 : (1 : ℚ) / 10 ^ 300 ≤ 1 := by rw [div_le_one (by positivity)]; exact one_le_pow₀ (by norm_num)
    have a3 : |q * q| / 2 ^ 53 ≤ |q * q| := div_le_self (abs_nonneg _) (one_le_pow₀ (by norm_num))
    rw [abs_of_nonneg (by linarith : 0 ≤ q * q)] at he a3
    have := abs_le.1 he
    generalize (1 : ℚ) / 10 ^ 300 = T at *
    generalize (1 : ℚ) / 2 ^ 1075 = T' at *
    rw [abs_le]; constructor <;> linarith
  obtain ⟨ρ, hρ, hρe⟩ := h1.sub val_two (le_huge (h2.trans (by norm_num)))
  exact ⟨ρ, hρ, root_res hQ he hρe⟩

/-- the factor of the cost -/
def rootK (d : Bool) : ℚ := if d then 1 / 2 else 1

theorem rootCost_val (d : Bool) {x : Vec F64 1} {ρ : ℚ} (h : Val (rootRes x) ρ) (hρ : |ρ| ≤ 10 ^ 6) :
    ∃ c, Val (rootCost d x) c ∧ rootK d * (999 / 1000 * (ρ * ρ)) - 1 / 10 ^ 20 ≤ c ∧ c ≤ rootK d * (1001 / 1000 * (ρ * ρ)) + 1 / 10 ^ 20 ∧ 0 ≤ c := by
  have hs : 0 ≤ ρ * ρ := mul_self_nonneg ρ
  have hs2 : ρ * ρ ≤ 10 ^ 12 := by
    rw [← abs_mul_abs_self]
    have := abs_nonneg ρ
    nlinarith
  have ht : (1 : ℚ) / 2 ^ 1075 ≤ 1 / 10 ^ 21 := tiny_le.trans (one_div_le_one_div_of_le (by positivity) (big_ten (by norm_num)))
  have hu : ∀ a : ℚ, 0 ≤ a → |rndBin 53 (-1074) a - a| ≤ 1 / 10 ^ 15 * a + 1 / 10 ^ 21 := fun a ha => by
    refine (dbl_err a).trans (add_le_add ?_ ht)
    rw [abs_of_nonneg ha, div_eq_mul_one_div, mul_comm]
    exact mul_le_mul_of_nonneg_right (by norm_num) ha
  have h0 : rndBin 53 (-1074) 0 = 0 := rndBin_id val_zero.grid
  have h1 := h.mul h (le_huge (by rw [abs_of_nonneg hs]; linarith))
  have e1 := abs_le.1 (hu _ hs)
  have p1 : 0 ≤ rndBin 53 (-1074) (ρ * ρ) := by rw [← h0]; exact rndBin64_mono hs
  cases d with
  | false =>
    refine ⟨_, h1, ?_, ?_, p1⟩ <;> simp only [rootK, Bool.false_eq_true, if_false] <;> linarith
  | true =>
    have h2 := h1.mul val_half (le_huge (by rw [abs_of_nonneg (by positivity)]; linarith))
    have p2 : 0 ≤ rndBin 53 (-1074) (ρ * ρ) * (1 / 2) := by positivity
    have e2 := abs_le.1 (hu _ p2)
    refine ⟨_, h2, ?_, ?_, by rw [← h0]; exact rndBin64_mono p2⟩ <;> simp only [rootK, if_true] <;> linarith

/-- what a state of the solver must satisfy -/
def RootOk (s : LMState F64 R) : Prop :=
  s.gn.n = 1 ∧ s.rebuild = true ∧ s.badF = litD 2 ∧ ∃ l, Val s.lambda l ∧ 9 / 10 ^ 10 ≤ l ∧ l ≤ 1001 / 10 ^ 7

/-- the step at `x`: nearly the damped Gauss-Newton step, with damping `L - 1` -/
def RootStep (x : Vec F64 1) (dx : DVec F64) : Prop :=
  ∃ q v δ L, Val (x 0) q ∧ dx = ⟨1, fun _ => v⟩ ∧ Val v δ ∧ 1 ≤ L ∧ L ≤ 1 + 1001 / 10 ^ 7 ∧ |2 * q * δ * L + (q * q - 2)| ≤ 1 / 10 ^ 14 * (q * q)

theorem root_abs_le {q : ℚ} (hq : q * q ≤ 10 ^ 5) : |q| ≤ 10 ^ 3 := abs_le_of_sq (by norm_num) (hq.trans (by norm_num))

/-- the size of such a step -/
theorem RootStep.size {q δ L : ℚ} (hQ : 1 ≤ q * q) (hL : 1 ≤ L) (hδ : |2 * q * δ * L + (q * q - 2)| ≤ 1 / 10 ^ 14 * (q * q)) :
    2 * |q| * |δ| ≤ |q * q - 2| + 1 / 10 ^ 14 * (q * q) ∧ |δ| ≤ |q| * |δ| := by
  have ha1 : 1 ≤ |q| := by
    by_contra hn
    have h0 := abs_nonneg q
    have : |q| * |q| < 1 := by nlinarith
    rw [abs_mul_abs_self] at this
    linarith
  have h1 := abs_sub (2 * q * δ * L + (q * q - 2)) (q * q - 2)
  rw [add_sub_cancel_right, abs_mul, abs_mul, abs_mul, abs_two, abs_of_pos (by linarith : 0 < L)] at h1
  have h2 : 2 * |q| * |δ| * 1 ≤ 2 * |q| * |δ| * L := mul_le_mul_of_nonneg_left hL (by positivity)
  exact ⟨by linarith, le_mul_of_one_le_left (abs_nonneg _) ha1⟩

set_option maxHeartbeats 1000000 in
/-- building and solving the system at `x` -/
theorem root_system (h : RootTest P) {t : ℚ} (ht : Val tol t) (ht2 : t < 1 / 2) (w : W) (s : LMState F64 R) (hs : RootOk s) (x : Vec F64 1) {q : ℚ} (hx : Val (x 0) q) (hQ : 1 ≤ q * q)
    (hq : q * q ≤ 10 ^ 5) :
    ∃ s2 dx w1, Ready (lmEnv (rootSolver d) (eigenLinAlg tol inv) P) w s x w s ∧
      (lmEnv (rootSolver d) (eigenLinAlg tol inv) P).sol.build w s x = (true, s2, w1) ∧
      (lmEnv (rootSolver d) (eigenLinAlg tol inv) P).sol.solve s2 = some dx ∧ RootStep x dx ∧
      s2.gn.cost.cost = rootCost d x ∧ sqNorm s2.gn.g = sqNorm (n := 1) (fun _ => mul (rootJac x) (rootRes x)) ∧ RootOk s2 := by
  obtain ⟨hn, hreb, hbf, l, hl, hl1, hl2⟩ := hs
  have hqa := root_abs_le hq
  have hJ := rootJac_val hx hqa
  obtain ⟨ρ, hρ, hρe⟩ := rootRes_val hx hQ hq
  have hρ2 : |ρ| ≤ 11 / 10 * 10 ^ 5 := by
    have := abs_le.1 hρe
    rw [abs_le]; constructor <;> linarith
  have hγ := hJ.mul hρ (le_huge (by
    rw [abs_mul, abs_mul, abs_two]
    have := mul_le_mul hqa hρ2 (abs_nonneg _) (by norm_num)
    linarith))
  have hh := hJ.mul hJ (le_huge (by rw [show 2 * q * (2 * q) = 4 * (q * q) by ring, abs_of_nonneg (by linarith)]; linarith))
  obtain ⟨κ, hκ, hκe⟩ := val_one.add hl (le_huge (by rw [abs_of_nonneg (by linarith)]; linarith))
  have hγe := dbl_err (2 * q * ρ)
  have hhe := dbl_err (2 * q * (2 * q))
  generalize rndBin 53 (-1074) (2 * q * ρ) = γ at hγ hγe
  generalize rndBin 53 (-1074) (2 * q * (2 * q)) = hv at hh hhe
  have ht1 : (1 : ℚ) / 2 ^ 1075 ≤ 1 := by rw [div_le_one (by positivity)]; exact one_le_pow₀ (by norm_num)
  have big : ∀ {a b M : ℚ}, |a - b| ≤ |b| / 2 ^ 53 + 1 / 2 ^ 1075 → |b| ≤ M → |a| ≤ 2 * M + 1 := fun {a b M} h1 h2 => by
    have a1 : |b| / 2 ^ 53 ≤ |b| := div_le_self (abs_nonneg _) (one_le_pow₀ (by norm_num))
    have a2 := abs_sub_abs_le_abs_sub a b
    generalize (1 : ℚ) / 2 ^ 1075 = T' at *
    linarith
  have hh5 : |hv| ≤ 2 * (4 * 10 ^ 5) + 1 := big hhe (by rw [show 2 * q * (2 * q) = 4 * (q * q) by ring, abs_of_nonneg (by linarith)]; linarith)
  have hγ5 : |γ| ≤ 2 * (2 * 10 ^ 3 * (11 / 10 * 10 ^ 5)) + 1 := big hγe (by
    rw [abs_mul, abs_mul, abs_two]
    have := mul_le_mul hqa hρ2 (abs_nonneg _) (by norm_num)
    linarith)
  have hκ5 : |κ| ≤ 3 := by
    have a1 : |1 + l| / 2 ^ 53 ≤ |1 + l| := div_le_self (abs_nonneg _) (one_le_pow₀ (by norm_num))
    rw [abs_of_nonneg (by linarith : 0 ≤ 1 + l)] at a1 hκe
    have := abs_le.1 hκe
    rw [abs_le]; constructor <;> linarith
  have hm := hh.mul hκ (le_huge (by
    rw [abs_mul]
    have := mul_le_mul hh5 hκ5 (abs_nonneg _) (by norm_num)
    linarith))
  have hme := dbl_err (hv * κ)
  generalize rndBin 53 (-1074) (hv * κ) = m at hm hme
  have hst := fun δ hδ => root_step (δ := δ) hQ (by linarith) hl2 hρe hγe hhe hκe hme hδ
  obtain ⟨hm2, -, -⟩ := hst _ (dbl_err (-γ / m))
  have hdiv := hγ.neg.div hm (by linarith) (le_huge (by
    rw [abs_div, abs_neg, abs_of_pos (by linarith : 0 < m), div_le_iff₀ (by linarith)]
    nlinarith))
  obtain ⟨c0, w1, hf, hc1, hc2⟩ := h.full w x (fun _ => ofInt 0) (fun _ _ => ofInt 0)
  obtain ⟨⟨n0, g0, H0, c00⟩, lam, prev, badF, reb⟩ := s
  obtain rfl : n0 = 1 := hn
  obtain rfl : reb = true := hreb
  obtain rfl : badF = litD 2 := hbf
  have hl : Val lam l := hl
  have hlam : lt (ofInt 0) lam = true := by rw [val_zero.lt hl]; simp; linarith
  obtain ⟨cv, hcv, hc3, hc4, hc5⟩ := rootCost_val d hρ (hρ2.trans (by norm_num))
  obtain ⟨c1, ec1⟩ : ∃ c1, normalizeCost (rootSolver d) c0 = c1 := ⟨_, rfl⟩
  have hc1c : c1.cost = rootCost d x := by
    rw [← ec1]
    unfold normalizeCost rootCost
    simp [rootSolver, defaultSolverOpts, hc1]
  have hc1n : c1.num = 1 := by rw [← ec1]; exact hc2
  have hval : c1.isValid = true := by
    unfold Cost.isValid
    rw [hc1n, hc1c]
    have : FloatOps.eq (rootCost d x) maxVal = false := by
      rw [FloatLaws.eq_spec _ _ hcv.finite FloatLaws.max_finite]
      have hmx : Val maxVal Fmt.binary64.max := ⟨_, rfl⟩
      rw [hcv.lt hmx]
      have hk : rootK d ≤ 1 := by cases d <;> norm_num [rootK]
      have hk0 : 0 ≤ rootK d := by cases d <;> norm_num [rootK]
      have : cv < Fmt.binary64.max := by
        refine lt_of_lt_of_le ?_ dbl_max
        refine lt_of_lt_of_le (b := 10 ^ 15) ?_ (big_ten (by norm_num))
        have a1 : ρ * ρ ≤ 10 ^ 12 := by
          rw [← abs_mul_abs_self]
          have := mul_le_mul hρ2 hρ2 (abs_nonneg _) (by norm_num)
          linarith
        have a2 := mul_self_nonneg ρ
        have a3 : rootK d * (1001 / 1000 * (ρ * ρ)) ≤ 1 * (1001 / 1000 * (ρ * ρ)) := mul_le_mul_of_nonneg_right hk (by positivity)
        linarith
      simp [this]
    simp [ne, this]
  have hb : buildSystem (rootSolver d) P w ⟨1, g0, H0, c00⟩ x =
      (true, ⟨1, fun _ => mul (rootJac x) (rootRes x), fun _ _ => mul (rootJac x) (rootJac x), c1⟩, w1) := by
    unfold buildSystem gnAccumulate
    simp only [hf, ec1, hval, if_true]
    have e1 : (rootSolver d).gradClip = ofInt 0 := lit_zero
    have e2 : (rootSolver d).checkMinHDiag = ofInt 0 := lit_zero
    have e3 : FloatOps.eq (ofInt 0 : F64) (ofInt 0) = true := by
      rw [FloatLaws.eq_spec _ _ val_zero.finite val_zero.finite]; simp [FloatLaws.lt_irrefl]
    rw [e1, e2]
    simp only [clampVec, e3, if_true, FloatLaws.lt_irrefl, Bool.false_and, Bool.false_eq_true, if_false]
    rfl
  refine ⟨⟨⟨1, fun _ => mul (rootJac x) (rootRes x), fun _ _ => mul (mul (rootJac x) (rootJac x)) (add (ofInt 1) lam), c1⟩, lam, prev, litD 2, true⟩,
    ⟨1, fun _ => div (neg (mul (rootJac x) (rootRes x))) (mul (mul (rootJac x) (rootJac x)) (add (ofInt 1) lam))⟩, w1, ⟨?_, ?_⟩, ?_, ?_,
    ⟨q, _, _, 1 + l, hx, rfl, hdiv, by linarith, by linarith, (hst _ (dbl_err (-γ / m))).2.2⟩, hc1c, rfl, rfl, rfl, rfl, l, hl, hl1, hl2⟩
  · have hd : (lmEnv (rootSolver d) (eigenLinAlg tol inv) P).dynDims x = 1 := h.dyn x
    rw [hd]; norm_num
  · have hd : (lmEnv (rootSolver d) (eigenLinAlg tol inv) P).dynDims x = 1 := h.dyn x
    rw [hd]
    have : gnResize P w ⟨1, g0, H0, c00⟩ 1 = (.done ⟨1, g0, H0, c00⟩, w) := by
      unfold gnResize; rw [h.dims]; simp
    simp only [lmEnv, envOf, lmSolver, this]
  · simp only [lmEnv, envOf, lmSolver, lmBuild, if_true, hb]
    unfold lmDamp
    simp only [hlam, if_true]
    congr 4
    funext i j
    unfold scaleDiag
    rw [if_pos (Subsingleton.elim i j)]
  · show gnSolve _ _ _ _ = _
    unfold gnSolve
    simp only [hval, if_true]
    have e1 : (rootSolver d).useLdlt = true := rfl
    rw [e1]
    simp only [if_true]
    unfold solveLDLT
    have := ldlt_one (tol := tol) (A := symUpper fun _ _ => mul (mul (rootJac x) (rootJac x)) (add (ofInt 1) lam)) (b := negVec fun _ => mul (rootJac x) (rootRes x)) (a := m) hm (by linarith) ht ht2 hdiv
    show Option.map _ (eigenLdlt tol 1 _ _) = _
    rw [this]
    rfl

theorem root_delivers (h : RootTest P) {t : ℚ} (ht : Val tol t) (ht2 : t < 1 / 2) (w : W) (s : LMState F64 R) (hs : RootOk s) (x : Vec F64 1) {q : ℚ} (hx : Val (x 0) q) (hQ : 1 ≤ q * q)
    (hq : q * q ≤ 10 ^ 5) :
    ∃ s2 dx, Delivers (lmEnv (rootSolver d) (eigenLinAlg tol inv) P) w s x s2 dx ∧ s2.gn.cost.cost = rootCost d x ∧
      sqNorm s2.gn.g = sqNorm (n := 1) (fun _ => mul (rootJac x) (rootRes x)) ∧ RootStep x dx ∧ RootOk { s2 with rebuild := true } ∧
      ∀ s3, lmGood (rootSolver d) s2 (ofInt 0) = .ok s3 → RootOk { s3 with rebuild := true } := by
  obtain ⟨s2, dx, w1, hr, hb, hsol, hstep, hcost, hg, hok⟩ := root_system (d := d) (inv := inv) h ht ht2 w s hs x hx hQ hq
  obtain ⟨hn, hreb, hbf, l, hl, hl1, hl2⟩ := hok
  obtain ⟨lv, hlv, hlv1, hlv2⟩ := lit_lo
  obtain ⟨hv', hhv, hhv1, hhv2⟩ := lit_hi
  obtain ⟨gv, hgv, hgv1, hgv2⟩ := lit_good
  have hcl : ∀ v, ∃ l, stdClamp v (litD (1 / 10 ^ 9)) (litD (10 ^ 9)) = .ok l := fun v => by
    unfold stdClamp
    rw [hhv.lt hlv]
    simp only [decide_eq_true_eq]
    rw [if_neg (by linarith)]
    exact ⟨_, rfl⟩
  have hcf : finite s2.gn.cost.cost = true := by
    rw [hcost]
    obtain ⟨ρ, hρ, hρe⟩ := rootRes_val hx hQ hq
    obtain ⟨c, hc, -⟩ := rootCost_val d hρ (by
      have := abs_le.1 hρe
      rw [abs_le]; constructor <;> linarith)
    exact hc.finite
  have hfin : finite (sqNorm dx.v) = true := by
    obtain ⟨q', v, δ, L, hx', rfl, hv, hL, -, hδ⟩ := hstep
    obtain rfl := hx.unique hx'
    obtain ⟨a1, a2⟩ := RootStep.size hQ hL hδ
    refine (sq_one hv (le_trans ?_ (big_ten (by norm_num : 6 ≤ 153)))).finite
    have a3 : |q * q - 2| ≤ q * q := by rw [abs_le]; constructor <;> linarith
    linarith
  refine ⟨s2, _, ⟨⟨s, w, w1, hr.resize, hb⟩, hsol, hcf, hfin, ?_, ?_⟩, hcost, hg, hstep, ⟨hn, rfl, hbf, l, hl, hl1, hl2⟩, ?_⟩
  · intro qq
    show ∃ s', lmGood _ _ qq = .ok s'
    unfold lmGood
    obtain ⟨l', e'⟩ := hcl (mul s2.lambda (goodScale (rootSolver d) qq s2.badF))
    have e'' : stdClamp (mul s2.lambda (goodScale (rootSolver d) qq s2.badF)) (rootSolver d).dampLo (rootSolver d).dampHi = .ok l' := e'
    simp only [e'']
    exact ⟨_, rfl⟩
  · show ∃ s', lmBad _ _ = .ok s'
    unfold lmBad
    obtain ⟨l', e'⟩ := hcl (mul s2.lambda s2.badF)
    have e'' : stdClamp (mul s2.lambda s2.badF) (rootSolver d).dampLo (rootSolver d).dampHi = .ok l' := e'
    simp only [e'']
    exact ⟨_, rfl⟩
  · intro s3 hg
    unfold lmGood at hg
    have hsc : goodScale (rootSolver d) (ofInt 0) (litD 2) = litD (1 / 3) := by
      unfold goodScale
      have e1 : ne (ofInt 0 : F64) (ofInt 0) = false := by
        unfold ne; rw [FloatLaws.eq_spec _ _ val_zero.finite val_zero.finite]; simp [FloatLaws.lt_irrefl]
      have e2 : ne (litD 2) (rootSolver d).badFactor = false := by
        show ne (litD 2) (defaultSolverOpts litD).badFactor = false
        decide +kernel
      rw [e1, e2]
      simp [rootSolver, defaultSolverOpts]
    rw [hbf, hsc] at hg
    have hm := hl.mul hgv (by
      rw [abs_of_nonneg (by nlinarith)]
      exact le_trans (by nlinarith) (one_le_pow₀ (by norm_num) : (1 : ℚ) ≤ 10 ^ 308))
    have hmv : rndBin 53 (-1074) (l * gv) ≤ 1001 / 10 ^ 7 := by
      have h1 : rndBin 53 (-1074) (l * gv) ≤ rndBin 53 (-1074) l := rndBin64_mono (by nlinarith)
      rw [rndBin_id hl.grid] at h1
      linarith
    have hcl2 : stdClamp (mul s2.lambda (litD (1 / 3))) (rootSolver d).dampLo (rootSolver d).dampHi =
        .ok (if rndBin 53 (-1074) (l * gv) < lv then litD (1 / 10 ^ 9) else mul s2.lambda (litD (1 / 3))) := by
      show stdClamp (mul s2.lambda (litD (1 / 3))) (litD (1 / 10 ^ 9)) (litD (10 ^ 9)) = _
      unfold stdClamp
      rw [hhv.lt hlv, hm.lt hlv, hhv.lt hm]
      simp only [decide_eq_true_eq]
      rw [if_neg (by linarith), if_neg (show ¬ hv' < rndBin 53 (-1074) (l * gv) by linarith)]
    simp only [hcl2] at hg
    injection hg with hg
    subst hg
    refine ⟨hn, rfl, rfl, ?_⟩
    show ∃ l', Val (if rndBin 53 (-1074) (l * gv) < lv then litD (1 / 10 ^ 9) else mul s2.lambda (litD (1 / 3))) l' ∧ _
    split
    next => exact ⟨lv, hlv, by linarith, by linarith⟩
    next h' => exact ⟨_, hm, by linarith, hmv⟩

/-! ### the run -/

theorem root_next (h : RootTest P) {x : Vec F64 1} {q : ℚ} (hx : Val (x 0) q) (hQ : 1 ≤ q * q) (hq : q * q ≤ 10 ^ 5) {dx : DVec F64} (hd : RootStep x dx) :
    ∃ y, Val (P.plusEq x dx 0) y ∧ |y * y - 2| ≤ 2503 / 10000 * |q * q - 2| + 1 / 10 ^ 13 ∧ 1 ≤ y * y ∧ 0 < q * y := by
  obtain ⟨q', v, δ, L, hx', rfl, hv, hL, hL2, hδ⟩ := hd
  obtain rfl := hx.unique hx'
  rw [h.plus]
  obtain ⟨a1, a2⟩ := RootStep.size hQ hL hδ
  have a3 : |q * q - 2| ≤ q * q := by rw [abs_le]; constructor <;> linarith
  have a4 := root_abs_le hq
  obtain ⟨y, hy, he⟩ := hx.add hv (le_huge ((abs_add_le q δ).trans (by linarith)))
  exact ⟨y, hy, root_nextq hQ hq hL hL2 hδ he⟩

/-- not a short step: the cost goes down by a factor 10 -/
theorem root_lower (h : RootTest P) {x : Vec F64 1} {q : ℚ} (hx : Val (x 0) q) (hQ : 1 ≤ q * q) (hq : q * q ≤ 2 * 10 ^ 4) {dx : DVec F64} (hd : RootStep x dx)
    (hns : lt (sqNorm dx.v) (litD (1 / 10 ^ 14)) = false) :
    ∃ c c', Val (rootCost d x) c ∧ Val (rootCost d (P.plusEq x dx)) c' ∧ 0 < c ∧ 0 ≤ c' ∧ c ≤ 10 ^ 300 ∧ c' ≤ c / 10 := by
  obtain ⟨y, hy, hy1, hy2, -⟩ := root_next h hx hQ (hq.trans (by norm_num)) hd
  obtain ⟨q', v, δ, L, hx', rfl, hv, hL, hL2, hδ⟩ := hd
  obtain rfl := hx.unique hx'
  obtain ⟨sv, hsv, hs1, hs2⟩ := lit_step
  obtain ⟨a1, a2⟩ := RootStep.size hQ hL hδ
  have a3 : |q * q - 2| ≤ q * q := by rw [abs_le]; constructor <;> linarith
  have hsq := sq_one hv (le_trans (by linarith) (big_ten (by norm_num : 6 ≤ 153)))
  rw [hsq.lt hsv, decide_eq_false_iff_not] at hns
  have hbig : 98 / 10 ^ 9 < |δ| := by
    by_contra hn
    exact hns ((short_iff hs1 hs2).2 (not_lt.1 hn))
  have hQf : q * q ≤ |q * q - 2| + 2 := by have := le_abs_self (q * q - 2); linarith
  have hf : 19 / 10 ^ 8 ≤ |q * q - 2| := by linarith
  obtain ⟨ρ, hρ, hρe⟩ := rootRes_val hx hQ (hq.trans (by norm_num))
  have hyy : y * y ≤ |y * y - 2| + 2 := by have := le_abs_self (y * y - 2); linarith
  obtain ⟨ρ', hρ', hρe'⟩ := rootRes_val (x := P.plusEq x ⟨1, fun _ => v⟩) hy hy2 (by linarith)
  have b1 : |ρ| ≤ |q * q - 2| + 3 / 10 ^ 16 * (q * q) := by
    have := abs_sub_abs_le_abs_sub ρ (q * q - 2)
    linarith
  have b2 : |q * q - 2| ≤ |ρ| + 3 / 10 ^ 16 * (q * q) := by
    have := abs_sub_abs_le_abs_sub (q * q - 2) ρ
    rw [abs_sub_comm (q * q - 2) ρ] at this
    linarith
  have b3 : |ρ'| ≤ |y * y - 2| + 3 / 10 ^ 16 * (y * y) := by
    have := abs_sub_abs_le_abs_sub ρ' (y * y - 2)
    linarith
  have b4 : |ρ'| ≤ 26 / 100 * |ρ| := by linarith
  have b5 : 18 / 10 ^ 8 ≤ |ρ| := by linarith
  obtain ⟨c, hc, c1, c2, c3⟩ := rootCost_val d hρ (by linarith)
  obtain ⟨c', hc', c1', c2', c3'⟩ := rootCost_val d hρ' (by linarith)
  have hk : 1 / 2 ≤ rootK d ∧ rootK d ≤ 1 := by cases d <;> norm_num [rootK]
  have d1 : ρ' * ρ' ≤ 676 / 10000 * (ρ * ρ) := by
    rw [← abs_mul_abs_self ρ', ← abs_mul_abs_self ρ]
    have := mul_le_mul b4 b4 (abs_nonneg _) (by positivity)
    linarith
  have d2 : 3 / 10 ^ 14 ≤ ρ * ρ := by
    rw [← abs_mul_abs_self ρ]
    nlinarith
  have d3 : ρ * ρ ≤ 10 ^ 12 := by
    rw [← abs_mul_abs_self ρ]
    have b6 : |ρ| ≤ 10 ^ 6 := by linarith
    have := mul_le_mul b6 b6 (abs_nonneg _) (by norm_num)
    linarith
  have d4 : rootK d * (ρ' * ρ') ≤ rootK d * (676 / 10000 * (ρ * ρ)) := mul_le_mul_of_nonneg_left d1 (by linarith)
  have d5 : 1 / 2 * (3 / 10 ^ 14) ≤ rootK d * (ρ * ρ) := mul_le_mul hk.1 d2 (by norm_num) (by linarith)
  have d6 : rootK d * (ρ * ρ) ≤ 1 * 10 ^ 12 := mul_le_mul hk.2 d3 (mul_self_nonneg _) (by norm_num)
  exact ⟨c, c', hc, hc', by linarith, c3', le_trans (by linarith) (big_ten (by norm_num : 13 ≤ 300)), by linarith⟩

/-- the levels of the run -/
def rootB (i : ℕ) : ℚ := (26 / 100) ^ i * 10 ^ 4 + 1 / 10 ^ 12

theorem rootB_le (i : ℕ) : rootB i ≤ 10001 := by
  unfold rootB
  have h1 : (26 / 100 : ℚ) ^ i ≤ 1 := pow_le_one₀ (by norm_num) (by norm_num)
  linarith

theorem rootB_succ (i : ℕ) : 2503 / 10000 * rootB i + 1 / 10 ^ 13 ≤ rootB (i + 1) := by
  unfold rootB
  rw [pow_succ (26 / 100 : ℚ) i]
  have : (0 : ℚ) ≤ (26 / 100) ^ i * 10 ^ 4 := by positivity
  linarith

theorem rootB_last : rootB 19 ≤ 8 / 10 ^ 8 := by unfold rootB; norm_num

/-- a point of level `i`, of the sign of `q0` -/
def RootLvl (q0 : ℚ) (i : ℕ) (x : Vec F64 1) : Prop := ∃ q, Val (x 0) q ∧ 1 ≤ q * q ∧ |q * q - 2| ≤ rootB i ∧ 0 < q0 * q

theorem rootB_sq {q : ℚ} {i : ℕ} (h : |q * q - 2| ≤ rootB i) : q * q ≤ 2 * 10 ^ 4 := by
  have := le_abs_self (q * q - 2)
  have := rootB_le i
  linarith

theorem rootOpts_unwatched (b : Bool) : Unwatched (rootOpts b : Options F64 W (DVec F64)) :=
  ⟨by show lt (ofInt 0) (litD 0) = false; rw [lit_zero, val_zero.lt val_zero]; simp, rfl, rfl⟩

/-- if a criterion other than that on the relative decrease holds at `x`, then `x² - 2` is small -/
theorem root_near {q : ℚ} {dx : DVec F64} {x : Vec F64 1} {b : Bool} {best : F64} {r : StopReason} (hx : Val (x 0) q) (hQ : 1 ≤ q * q) (hq : q * q ≤ 2 * 10 ^ 4) (hT : RootStep x dx)
    (hcv : ConvergedFrom (rootOpts b : Options F64 W (DVec F64)) best (rootCost d x) (sqNorm dx.v) (sqNorm (n := 1) fun _ => mul (rootJac x) (rootRes x)) r) (hr : r ≠ .kMinRelError) :
    |q * q - 2| ≤ 15 / 10 ^ 7 ∧ (r = .kMinError ∨ r = .kMinDeltaNorm ∨ r = .kMinGradNorm) := by
  have hq5 : q * q ≤ 10 ^ 5 := hq.trans (by norm_num)
  obtain ⟨ρ, hρ, hρe⟩ := rootRes_val hx hQ hq5
  have b2 : |q * q - 2| ≤ |ρ| + 3 / 10 ^ 16 * (q * q) := by
    have := abs_sub_abs_le_abs_sub (q * q - 2) ρ
    rw [abs_sub_comm (q * q - 2) ρ] at this
    linarith
  have a3 : |q * q - 2| ≤ q * q := by rw [abs_le]; constructor <;> linarith
  have hρ6 : |ρ| ≤ 10 ^ 5 := by
    have := abs_le.1 hρe
    rw [abs_le]; constructor <;> linarith
  have hQf : q * q ≤ |q * q - 2| + 2 := by have := le_abs_self (q * q - 2); linarith
  cases hcv with
  | error a1 a2 =>
    refine ⟨?_, Or.inl rfl⟩
    obtain ⟨ev, hev, he1, he2⟩ := lit_err
    obtain ⟨c, hc, c1, c2, c3⟩ := rootCost_val d hρ (hρ6.trans (by norm_num))
    have a2 : lt (rootCost d x) (litD (1 / 10 ^ 12)) = true := a2
    rw [hc.lt hev, decide_eq_true_eq] at a2
    have hk : 1 / 2 ≤ rootK d := by cases d <;> norm_num [rootK]
    have k1 : 1 / 2 * (999 / 1000 * (ρ * ρ)) ≤ rootK d * (999 / 1000 * (ρ * ρ)) := mul_le_mul_of_nonneg_right hk (mul_nonneg (by norm_num) (mul_self_nonneg _))
    have k2 : |ρ| ≤ 1425 / 10 ^ 9 := abs_le_of_sq (by norm_num) (by linarith)
    linarith
  | rel a1 a2 a3 => exact absurd rfl hr
  | step a1 a2 =>
    refine ⟨?_, Or.inr (Or.inl rfl)⟩
    obtain ⟨q', v, δ, L, hx', rfl, hv, hL, hL2, hδ⟩ := hT
    obtain rfl := hx.unique hx'
    obtain ⟨sv, hsv, hs1, hs2⟩ := lit_step
    obtain ⟨k1, k2⟩ := RootStep.size hQ hL hδ
    have a2 : lt (sqNorm (n := 1) fun _ => v) (litD (1 / 10 ^ 14)) = true := a2
    rw [(sq_one hv (le_trans (by linarith) (big_ten (by norm_num : 6 ≤ 153)))).lt hsv, decide_eq_true_eq] at a2
    have k3 := (short_iff hs1 hs2).1 a2
    have k4 := abs_sub (2 * q * δ * L + (q * q - 2)) (2 * q * δ * L)
    rw [add_sub_cancel_left, abs_mul, abs_mul, abs_mul, abs_two, abs_of_pos (by linarith : 0 < L)] at k4
    have k5 : ∀ A : ℚ, |q| ≤ A → |q * q - 2| ≤ 1 / 10 ^ 14 * (q * q) + 205 / 10 ^ 9 * A := fun A hA => by
      have m1 : |q| * |δ| ≤ A * (102 / 10 ^ 9) := mul_le_mul hA k3 (abs_nonneg _) ((abs_nonneg _).trans hA)
      have m2 : 2 * |q| * |δ| * L ≤ 2 * |q| * |δ| * (1002 / 1000) := mul_le_mul_of_nonneg_left (by linarith) (by positivity)
      have m3 : 0 ≤ A := (abs_nonneg _).trans hA
      linarith
    have k6 := k5 _ (root_abs_le hq5)
    have k7 := k5 (3 / 2) (abs_le_of_sq (by norm_num) (by linarith))
    linarith
  | grad a1 a2 n1 n2 n3 =>
    refine ⟨?_, Or.inr (Or.inr rfl)⟩
    obtain ⟨gv, hgv, hg1, hg2⟩ := lit_grad
    have hqa := root_abs_le hq5
    have hJ := rootJac_val hx hqa
    have hp : |2 * q * ρ| ≤ 10 ^ 9 := by
      rw [abs_mul, abs_mul, abs_two]
      have := mul_le_mul hqa hρ6 (abs_nonneg _) (by norm_num)
      linarith
    have hγ := hJ.mul hρ (le_huge (hp.trans (by norm_num)))
    have he := dbl_err (2 * q * ρ)
    generalize rndBin 53 (-1074) (2 * q * ρ) = γ at hγ he
    have ht : (1 : ℚ) / 2 ^ 1075 ≤ 1 / 10 ^ 20 := tiny_le.trans (one_div_le_one_div_of_le (by positivity) (big_ten (by norm_num)))
    have hu : |2 * q * ρ| / 2 ^ 53 ≤ 1 / 1000 * |2 * q * ρ| := by
      rw [div_eq_mul_one_div, mul_comm]
      exact mul_le_mul_of_nonneg_right (by norm_num) (abs_nonneg _)
    generalize (1 : ℚ) / 2 ^ 1075 = T at *
    have h1 := abs_sub_abs_le_abs_sub γ (2 * q * ρ)
    have h2 := abs_sub_abs_le_abs_sub (2 * q * ρ) γ
    rw [abs_sub_comm (2 * q * ρ) γ] at h2
    have a2 : lt (sqNorm (n := 1) fun _ => mul (rootJac x) (rootRes x)) (litD (1 / 10 ^ 18)) = true := a2
    rw [(sq_one hγ (le_trans (by linarith) (big_ten (by norm_num : 10 ≤ 153)))).lt hgv, decide_eq_true_eq] at a2
    have hg : |γ| ≤ 2 / 10 ^ 9 := by
      by_contra hn
      have h9 : (4 / 10 ^ 18 : ℚ) ≤ γ * γ := by
        rw [← abs_mul_abs_self]
        have := not_le.1 hn
        nlinarith
      have e2 : (101 / 10 ^ 20 : ℚ) < rndBin 53 (-1074) (4 / 10 ^ 18) := by decide +kernel
      have := rndBin64_mono h9
      linarith
    have ha1 : 1 ≤ |q| := by
      by_contra hn
      have h0 := abs_nonneg q
      have : |q| * |q| < 1 := by nlinarith
      rw [abs_mul_abs_self] at this
      linarith
    have h3 : |ρ| ≤ |q| * |ρ| := le_mul_of_one_le_left (abs_nonneg _) ha1
    have h4 : |2 * q * ρ| = 2 * (|q| * |ρ|) := by rw [abs_mul, abs_mul, abs_two]; ring
    rw [h4] at h1 h2 hu he
    linarith

theorem root_maxVal (d : Bool) {x : Vec F64 1} {q : ℚ} (hx : Val (x 0) q) (hQ : 1 ≤ q * q) (hq : q * q ≤ 10 ^ 5) : lt (sub (rootCost d x) maxVal) (ofInt 0) = true := by
  obtain ⟨ρ, hρ, hρe⟩ := rootRes_val hx hQ hq
  have hρ6 : |ρ| ≤ 2 * 10 ^ 5 := by
    have := abs_le.1 hρe
    rw [abs_le]; constructor <;> linarith
  obtain ⟨c, hc, c1, c2, c3⟩ := rootCost_val d hρ (hρ6.trans (by norm_num))
  have hm : Val maxVal Fmt.binary64.max := ⟨_, rfl⟩
  refine (FloatLaws.sub_neg _ _ hc.finite hm.finite).trans ?_
  rw [hc.lt hm, decide_eq_true_eq]
  refine lt_of_lt_of_le ?_ dbl_max
  refine lt_of_lt_of_le (b := 10 ^ 15) ?_ (big_ten (by norm_num))
  have hk : rootK d ≤ 1 := by cases d <;> norm_num [rootK]
  have a1 : ρ * ρ ≤ 10 ^ 12 := by
    rw [← abs_mul_abs_self]
    have := mul_le_mul hρ6 hρ6 (abs_nonneg _) (by norm_num)
    linarith
  have a3 : rootK d * (1001 / 1000 * (ρ * ρ)) ≤ 1 * (1001 / 1000 * (ρ * ρ)) := mul_le_mul_of_nonneg_right hk (mul_nonneg (by norm_num) (mul_self_nonneg ρ))
  linarith

/-- the run of C129, with all its iterations -/
theorem root_run (h : RootTest P) {t : ℚ} (ht : Val tol t) (ht2 : t < 1 / 2) (d b : Bool) {x0 : Vec F64 1} {q0 : ℚ} (hx0 : Val (x0 0) q0) (h1 : 1 ≤ |q0|) (h100 : |q0| ≤ 100)
    (g : Vec F64 (P.dims.getD 0)) (H : Mat F64 (P.dims.getD 0)) (fuel : Nat) (w : W) :
    ∃ st, optimizeAcc (lmEnv (rootSolver d) (eigenLinAlg tol inv) P) (rootOpts b) (fuel + 1) (-1) w (lmFresh (rootSolver d) P g H) x0 = .ok st ∧
      st.trace.length ≤ 20 ∧
      (∀ i r, st.trace[i]? = some r → RootLvl q0 i r.x ∧ r.succ = true ∧ ∃ dx, r.dx = some dx ∧ RootStep r.x dx ∧ r.xNext = P.plusEq r.x dx ∧
        (i + 1 < st.trace.length → lt (sqNorm dx.v) (litD (1 / 10 ^ 14)) = false)) ∧
      ∃ r dx, st.trace[st.trace.length - 1]? = some r ∧ r.dx = some dx ∧ st.x = P.plusEq r.x dx ∧ st.out.stop ≠ .kMinRelError ∧
        ConvergedFrom (rootOpts b : Options F64 W (DVec F64)) (bestBefore (rootCost d) st.trace (st.trace.length - 1)) (rootCost d r.x) (sqNorm dx.v)
          (sqNorm (n := 1) fun _ => mul (rootJac r.x) (rootRes r.x)) st.out.stop := by
  obtain ⟨M, hM, hM21⟩ : ∃ M, loopBound (rootOpts b : Options F64 W (DVec F64)) (-1) = some M ∧ 21 ≤ M := by
    cases b
    · exact ⟨21, rfl, le_refl _⟩
    · exact ⟨22, rfl, by norm_num⟩
  obtain ⟨sv, hsv, hs1, hs2⟩ := lit_step
  obtain ⟨dv, hdv, hd1, hd2⟩ := lit_damp
  have hqq : 1 ≤ q0 * q0 := by rw [← abs_mul_abs_self]; nlinarith
  have hqq2 : q0 * q0 ≤ 10 ^ 4 := by
    rw [← abs_mul_abs_self]
    have := abs_nonneg q0
    nlinarith
  have h0 : RootLvl q0 0 x0 := ⟨q0, hx0, hqq, by unfold rootB; rw [pow_zero, abs_le]; constructor <;> linarith, by linarith⟩
  obtain ⟨st, e, h1, h2, r, dx, h3, h4, h5, h6⟩ := contracting_run_at (E := lmEnv (rootSolver d) (eigenLinAlg tol inv) P) (o := rootOpts b)
    (C := rootCost d) (g2 := fun x => sqNorm (n := 1) fun _ => mul (rootJac x) (rootRes x)) (Ok := fun _ => RootOk) (T := fun _ => RootStep) (N := 19) (x0 := x0)
    (Lvl := RootLvl q0) (rootOpts_unwatched b)
    (by show lt (ofInt 0) (litD (1 / 10 ^ 14)) = true; rw [val_zero.lt hsv]; simp; linarith)
    (fun i w s x _ hl hok => by
      obtain ⟨q, hx, hQ, hq, -⟩ := hl
      obtain ⟨s2, dx, a1, a2, a3, a4, a5, a6⟩ := root_delivers (d := d) (inv := inv) h ht ht2 w s hok x hx hQ ((rootB_sq hq).trans (by norm_num))
      refine ⟨s2, dx, a1, a2, a3, a4, a5, fun qq s3 hqq hg => ?_⟩
      obtain rfl := hqq rfl
      exact a6 s3 hg)
    (fun i x dx _ hl hT hns => by
      obtain ⟨q, hx, hQ, hq, hsg⟩ := hl
      obtain ⟨y, hy, hy1, hy2, hy3⟩ := root_next h hx hQ ((rootB_sq hq).trans (by norm_num)) hT
      refine ⟨⟨y, hy, hy2, hy1.trans ?_, ?_⟩, ?_⟩
      · have := rootB_succ i
        linarith
      · have := mul_pos hsg hy3
        have e : q0 * q * (q * y) = (q * q) * (q0 * y) := by ring
        rw [e] at this
        exact (pos_iff_pos_of_mul_pos this).1 (by linarith)
      · obtain ⟨c, c', b1, b2, b3, b4, b5, b6⟩ := root_lower (d := d) h hx hQ (rootB_sq hq) hT hns
        have := FloatLaws.sub_neg _ _ b2.finite b1.finite
        refine this.trans ?_
        rw [b2.lt b1, decide_eq_true_eq]
        linarith)
    (fun x dx hl hT => by
      obtain ⟨q, hx, hQ, hq, -⟩ := hl
      obtain ⟨q', v, δ, L, hx', rfl, hv, hL, hL2, hδ⟩ := hT
      obtain rfl := hx.unique hx'
      obtain ⟨k1, k2⟩ := RootStep.size hQ hL hδ
      have := rootB_last
      have := rootB_sq hq
      have hδ : |δ| ≤ 5 / 10 ^ 8 := by linarith
      have hsq := sq_one hv (hδ.trans (le_trans (by norm_num) (one_le_pow₀ (by norm_num) : (1 : ℚ) ≤ 10 ^ 153)))
      refine (hsq.lt hsv).trans ?_
      rw [decide_eq_true_eq]
      exact (short_iff hs1 hs2).2 (by linarith))
    h0 (root_maxVal d hx0 hqq (hqq2.trans (by norm_num)))
    (fuel := fuel) hM (by push_cast; linarith) (w := w) (s := lmFresh (rootSolver d) P g H)
    ⟨by show P.dims.getD 0 = 1; rw [h.dims]; rfl, rfl, rfl, dv, hdv, by linarith, hd2⟩
  have hlast : st.trace[st.trace.length - 1]? = some r := by rw [← List.getLast?_eq_getElem?]; exact h3
  refine ⟨st, e, h1, h2, r, dx, hlast, h4, h5, fun hr => ?_, h6⟩
  rw [hr] at h6
  cases h6 with
  | rel a1 a2 a3 =>
    rcases Nat.lt_or_ge 1 st.trace.length with hl | hl
    · obtain ⟨i, hi⟩ : ∃ i, st.trace.length - 1 = i + 1 := ⟨st.trace.length - 2, by omega⟩
      rw [hi] at a2 a3 hlast
      have hu := List.getElem?_eq_getElem (l := st.trace) (i := i) (by omega)
      obtain ⟨⟨qu, hxu, hQu, hqu, -⟩, -, du, k1, k2, k3, k4⟩ := h2 _ _ hu
      have hns := k4 (by omega)
      have k5 := (run_path e).next hu hlast
      obtain ⟨c, c', b1, b2, b3, b4, b5, b6⟩ := root_lower (d := d) h hxu hQu (rootB_sq hqu) k2 hns
      have k6 : r.x = P.plusEq st.trace[i].x du := by rw [k5, k3]; rfl
      rw [← k6] at b2
      simp only [bestBefore, hu, Option.map_some, Option.getD_some] at a2 a3
      exact rel_large b1 b2 b3 b4 b5 b6 a2 a3
    · rw [show st.trace.length - 1 = 0 by omega] at a2
      have : relDerr (bestBefore (rootCost d) st.trace 0) (rootCost d r.x) = ofInt 0 := by
        unfold relDerr bestBefore
        rw [not_lt_scalarMax]; simp
      rw [this, val_zero.lt val_zero] at a2
      simp at a2

/-- **C129.** `TestSqrt2Jet` (`d = true`) and `TestSqrt2Jet2GN` (`d = false`) of tests/sqrt2.cpp in IEEE `double` arithmetic with Eigen's `LDLT`: from every `double` of magnitude 1 to 100 the
Levenberg-Marquardt run with the options of the test succeeds and ends as converged after at most 20 iterations, all accepted, because of the error, the step or the gradient; the result has the sign of the start and
its magnitude is within `2e-7` of the square root of 2; the test requires `1e-5` and 20 iterations are its limit. -/
theorem C129_sqrt (h : RootTest P) {t : ℚ} (ht : Val tol t) (ht2 : t < 1 / 2) (d b : Bool) {x0 : Vec F64 1} {q0 : ℚ} (hx0 : Val (x0 0) q0) (h1 : 1 ≤ |q0|) (h100 : |q0| ≤ 100)
    (g : Vec F64 (P.dims.getD 0)) (H : Mat F64 (P.dims.getD 0)) (fuel : Nat) (w : W) :
    ∃ st, optimizeAcc (lmEnv (rootSolver d) (eigenLinAlg tol inv) P) (rootOpts b) (fuel + 1) (-1) w (lmFresh (rootSolver d) P g H) x0 = .ok st ∧
      st.out.succeeded = true ∧ st.out.converged = true ∧ (st.out.stop = .kMinError ∨ st.out.stop = .kMinDeltaNorm ∨ st.out.stop = .kMinGradNorm) ∧
      st.trace.length ≤ 20 ∧ (∀ r ∈ st.trace, r.succ = true) ∧
      ∃ q, Val (st.x 0) q ∧ 0 < q0 * q ∧ |q * q - 2| ≤ 4 / 10 ^ 7 ∧ |(|(q : ℝ)|) - √2| ≤ 2 / 10 ^ 7 := by
  obtain ⟨st, e, hlen, h2, r, dx, hlast, h4, h5, hnr, h6⟩ := root_run (inv := inv) h ht ht2 d b hx0 h1 h100 g H fuel w
  obtain ⟨⟨q, hx, hQ, hq, hsg⟩, -, d', h7, hT, -⟩ := h2 _ _ hlast
  rw [h4] at h7
  obtain rfl := Option.some.inj h7
  obtain ⟨hsmall, hwhy⟩ := root_near hx hQ (rootB_sq hq) hT h6 hnr
  obtain ⟨y, hy, hy1, hy2, hy3⟩ := root_next h hx hQ ((rootB_sq hq).trans (by norm_num)) hT
  have hy4 : |y * y - 2| ≤ 4 / 10 ^ 7 := by linarith
  refine ⟨st, e, ?_, h6.converged rfl, hwhy, hlen, fun r hr => ?_, y, by rw [h5]; exact hy, ?_, hy4, ?_⟩
  · unfold Output.succeeded
    rcases hwhy with h | h | h <;> rw [h] <;> decide
  · obtain ⟨i, hi⟩ := List.getElem?_of_mem hr
    exact (h2 i r hi).2.1
  · have := mul_pos hsg hy3
    have e : q0 * q * (q * y) = (q * q) * (q0 * y) := by ring
    rw [e] at this
    exact (pos_iff_pos_of_mul_pos this).1 (by linarith)
  · have k1 : |(y : ℝ) * y - 2| ≤ 4 / 10 ^ 7 := by
      have : ((|y * y - 2| : ℚ) : ℝ) ≤ ((4 / 10 ^ 7 : ℚ) : ℝ) := Rat.cast_le.2 hy4
      push_cast at this
      exact this
    have k2 : (1 : ℝ) ≤ y * y := by exact_mod_cast hy2
    have k3 : (1 : ℝ) ≤ √2 := by rw [Real.one_le_sqrt]; norm_num
    have k4 : √2 * √2 = (2 : ℝ) := Real.mul_self_sqrt (by norm_num)
    have k5 : (1 : ℝ) ≤ |(y : ℝ)| := by
      rw [← abs_mul_abs_self] at k2
      by_contra hn
      have := abs_nonneg (y : ℝ)
      nlinarith
    have k6 : (|(y : ℝ)| - √2) * (|(y : ℝ)| + √2) = y * y - 2 := by
      calc (|(y : ℝ)| - √2) * (|(y : ℝ)| + √2) = |(y : ℝ)| * |(y : ℝ)| - √2 * √2 := by ring
        _ = _ := by rw [abs_mul_abs_self, k4]
    rw [← k6, abs_mul, abs_of_pos (by linarith : 0 < |(y : ℝ)| + √2)] at k1
    have k7 := abs_nonneg (|(y : ℝ)| - √2)
    nlinarith

/-- the function of tests/sqrt2.cpp:92 -/
def rootProblem : Problem F64 F64 Nat (Vec F64 1) where
  dims := some 1
  dynDims := fun _ => 1
  plusEq := fun x d i => if h : i.1 < d.n then add (x i) (d.v ⟨i.1, h⟩) else x i
  clock := fun w => (ofInt 0, w)
  alloc := fun w n => (some (fun _ => ofInt 0, fun _ _ => ofInt 0), w)
  ratio1 := ofInt 1
  acc :=
    { full := fun w x _ _ _ => (({ cost := mul (rootRes x) (rootRes x), num := 1, inlier := ofInt 1 }, fun _ => mul (rootJac x) (rootRes x), fun _ _ => mul (rootJac x) (rootJac x)), w)
      eval := fun w x => ({ cost := mul (rootRes x) (rootRes x), num := 1, inlier := ofInt 1 }, w) }

theorem rootProblem_test : RootTest rootProblem where
  dims := rfl
  dyn := fun _ => rfl
  plus := fun x v => by
    funext i
    show (if h : i.1 < 1 then add (x i) (v ⟨i.1, h⟩) else x i) = _
    rw [dif_pos i.2]
  full := fun w x g H => ⟨_, w, rfl, rfl, rfl⟩

/-- two starts of the test, 1 and 3.2 -/
example (inv : (n : Nat) → Mat F64 n → Mat F64 n) (fuel : Nat) (d : Bool) :
    (∃ st, optimizeAcc (lmEnv (rootSolver d) (eigenLinAlg (Fl.mk (1 / 2 ^ 1022)) inv) rootProblem) (rootOpts false) (fuel + 1) (-1) 0
        (lmFresh (rootSolver d) rootProblem (fun _ => ofInt 0) fun _ _ => ofInt 0) (fun _ => ofInt 1) = .ok st ∧ st.out.succeeded = true ∧ st.out.converged = true ∧
      ∃ q, Val (st.x 0) q ∧ 0 < 1 * q ∧ |(|(q : ℝ)|) - √2| ≤ 2 / 10 ^ 7) ∧
    ∃ st, optimizeAcc (lmEnv (rootSolver d) (eigenLinAlg (Fl.mk (1 / 2 ^ 1022)) inv) rootProblem) (rootOpts false) (fuel + 1) (-1) 0
        (lmFresh (rootSolver d) rootProblem (fun _ => ofInt 0) fun _ _ => ofInt 0) (fun _ => Fl.mk (32 / 10)) = .ok st ∧ st.out.succeeded = true ∧ st.out.converged = true := by
  obtain ⟨t, ht, ht2⟩ := val_tol
  constructor
  · obtain ⟨st, e, a1, a2, -, -, -, q, a3, a4, -, a5⟩ := C129_sqrt (inv := inv) rootProblem_test ht ht2 d false (x0 := fun _ => ofInt 1) val_one (by norm_num) (by norm_num) (fun _ => ofInt 0)
      (fun _ _ => ofInt 0) fuel 0
    exact ⟨st, e, a1, a2, q, a3, a4, a5⟩
  · have h32 : |(32 / 10 : ℚ)| ≤ 10 ^ 308 := le_huge (by norm_num [abs_of_pos])
    obtain ⟨st, e, a1, a2, -⟩ := C129_sqrt (inv := inv) rootProblem_test ht ht2 d false (x0 := fun _ => Fl.mk (32 / 10)) (val_of_le h32) (by decide +kernel) (by decide +kernel) (fun _ => ofInt 0)
      (fun _ _ => ofInt 0) fuel 0
    exact ⟨st, e, a1, a2⟩

/-- is the square within `4e-7` of 2? -/
def nearRoot : F64 → Bool
  | .fin q _ => decide (|q * q - 2| ≤ 4 / 10 ^ 7)
  | _ => false

/-- the third start of the test, `-0.3f`, is outside of the range of C129: there the first steps are rejected; this one run also passes the test -/
example : (match optimizeAcc (lmEnv (rootSolver true) (eigenLinAlg (Fl.mk (1 / 2 ^ 1022)) fun _ a => a) rootProblem) (rootOpts false) 30 (-1) 0
        (lmFresh (rootSolver true) rootProblem (fun _ => ofInt 0) fun _ _ => ofInt 0) (fun _ => Fl.mk (Fmt.binary32.rnd (-3 / 10))) with
    | .ok st => st.out.succeeded && st.out.converged && nearRoot (st.x 0) && st.trace.any (fun r => !r.succ)
    | _ => false) = true := by decide +kernel

end
end Verif
