import Verif.Lemmas.Double
import Verif.Props.LsRuns
import Verif.Model.Defaults
import Verif.Props.Failures
/-!
# C119: the test tests/simple.cpp in IEEE `double` arithmetic, for all starting points
-/

set_option linter.unusedSectionVars false

namespace Verif
open FloatOps

section
variable {R W : Type} {P : Problem F64 R W (Vec F64 1)} {z : F64} {tol : F64} {inv : (n : Nat) → Mat F64 n → Mat F64 n}

/-- One parameter, residual `x - z`, gradient `x - z`, Hessian 1, cost `|x - z|`, computed in `double`: tests/simple.cpp:21-29. -/
structure LocTest (P : Problem F64 R W (Vec F64 1)) (z : F64) : Prop where
  dims : P.dims = some 1
  dyn : ∀ x, P.dynDims x = 1
  plus : ∀ x v, P.plusEq x ⟨1, v⟩ = fun i => add (x i) (v i)
  full : ∀ w x g H, ∃ c w', P.acc.full w x 1 g H = ((c, fun _ => sub (x 0) z, fun _ _ => ofInt 1), w') ∧ c.cost = absF (sub (x 0) z) ∧ c.num = 1

/-! ### the values of the options -/

theorem val_lit {q a b : ℚ} (h1 : a ≤ rndBin 53 (-1074) (Fmt.binary32.rnd q)) (h2 : rndBin 53 (-1074) (Fmt.binary32.rnd q) ≤ b) (h3 : |Fmt.binary32.rnd q| ≤ 10 ^ 100) :
    ∃ v, Val (litD q) v ∧ a ≤ v ∧ v ≤ b :=
  ⟨_, val_of_le (h3.trans (pow_le_pow_right₀ (by norm_num) (by norm_num))), h1, h2⟩

theorem lit_damp : ∃ v, Val (litD (1 / 10 ^ 4)) v ∧ 999 / 10 ^ 7 ≤ v ∧ v ≤ 1001 / 10 ^ 7 := val_lit (by decide +kernel) (by decide +kernel) (by decide +kernel)
theorem lit_lo : ∃ v, Val (litD (1 / 10 ^ 9)) v ∧ 999 / 10 ^ 12 ≤ v ∧ v ≤ 1001 / 10 ^ 12 := val_lit (by decide +kernel) (by decide +kernel) (by decide +kernel)
theorem lit_hi : ∃ v, Val (litD (10 ^ 9)) v ∧ 999 * 10 ^ 6 ≤ v ∧ v ≤ 1001 * 10 ^ 6 := val_lit (by decide +kernel) (by decide +kernel) (by decide +kernel)
theorem lit_good : ∃ v, Val (litD (1 / 3)) v ∧ 333 / 1000 ≤ v ∧ v ≤ 334 / 1000 := val_lit (by decide +kernel) (by decide +kernel) (by decide +kernel)
theorem lit_err : ∃ v, Val (litD (1 / 10 ^ 12)) v ∧ 99 / 10 ^ 14 ≤ v ∧ v ≤ 101 / 10 ^ 14 := val_lit (by decide +kernel) (by decide +kernel) (by decide +kernel)
theorem lit_rel : ∃ v, Val (litD (1 / 10 ^ 10)) v ∧ 99 / 10 ^ 12 ≤ v ∧ v ≤ 101 / 10 ^ 12 := val_lit (by decide +kernel) (by decide +kernel) (by decide +kernel)
theorem lit_step : ∃ v, Val (litD (1 / 10 ^ 14)) v ∧ 99 / 10 ^ 16 ≤ v ∧ v ≤ 101 / 10 ^ 16 := val_lit (by decide +kernel) (by decide +kernel) (by decide +kernel)
theorem lit_grad : ∃ v, Val (litD (1 / 10 ^ 18)) v ∧ 99 / 10 ^ 20 ≤ v ∧ v ≤ 101 / 10 ^ 20 := val_lit (by decide +kernel) (by decide +kernel) (by decide +kernel)
theorem lit_zero : litD 0 = ofInt 0 := by
  unfold litD
  rw [Fmt.rnd_zero]
  show Fl.mk 0 = Fl.mk ((0 : ℤ) : ℚ)
  norm_num

/-! ### one step -/

/-- `SolveLDLT` of a 1x1 system -/
theorem ldlt_one {A : Mat F64 1} {b : Vec F64 1} {a t d : ℚ} (hA : Val (A 0 0) a) (ha : 1 / 2 ≤ a) (ht : Val tol t) (ht2 : t < 1 / 2) (hd : Val (div (b 0) (A 0 0)) d) :
    eigenLdlt tol 1 A b = some fun _ => div (b 0) (A 0 0) := by
  have h0 : (0 : ℚ) < a := by linarith
  have e1 : ldltRest A [] 0 0 = A 0 0 := by
    unfold ldltRest ldltDot
    exact hA.sub_zero
  have e2 : lt (ofInt 0) (absF (A 0 0)) = true := by
    rw [val_zero.lt hA.absF, abs_of_pos h0]; simpa using h0
  have e3 : lt (ofInt 0) (A 0 0) = true := by
    rw [val_zero.lt hA]; simpa using h0
  have e4 : lt tol (absF (A 0 0)) = true := by
    rw [ht.lt hA.absF, abs_of_pos h0]; simp; linarith
  have hl : List.finRange 1 = [0] := rfl
  unfold eigenLdlt
  rw [hl]
  simp only [ldltGo, ldltPick, List.foldl_nil, e1, e2, Bool.not_true, Bool.false_and, Bool.false_eq_true, if_false, if_true, ldltSign, e3, List.nil_append, true_or, ldltSolve, e4]
  congr 1
  funext i
  rw [if_pos (Subsingleton.elim i 0)]
  exact hd.sub_zero

theorem tiny_le : (1 : ℚ) / 2 ^ 1075 ≤ 1 / 10 ^ 300 := by
  refine one_div_le_one_div_of_le (by positivity) ?_
  calc (10 : ℚ) ^ 300 = (10 ^ 3) ^ 100 := by rw [← pow_mul]
    _ ≤ (2 ^ 10) ^ 100 := pow_le_pow_left₀ (by norm_num) (by norm_num) _
    _ = 2 ^ 1000 := by rw [← pow_mul]
    _ ≤ _ := pow_le_pow_right₀ (by norm_num) (by norm_num)

theorem step_arith {e l ρ κ d : ℚ} (hl : 0 ≤ l) (hl2 : l ≤ 1001 / 10 ^ 7) (hρ : |ρ - e| ≤ |e| / 2 ^ 53) (hκ : |κ - (1 + l)| ≤ |1 + l| / 2 ^ 53)
    (hd : |d - -ρ / κ| ≤ |-ρ / κ| / 2 ^ 53 + 1 / 2 ^ 1075) : |e + d| ≤ 101 / 10 ^ 6 * |e| + 1 / 10 ^ 300 ∧ (9 / 10 ^ 10 ≤ l → 999 / 1000 * l * |e| ≤ |e + d| + 1 / 10 ^ 300) := by
  have hu := tiny_le
  have hu' : (1 : ℚ) / 2 ^ 53 ≤ 1 / 10 ^ 15 := by norm_num
  rw [abs_of_nonneg (by linarith : (0 : ℚ) ≤ 1 + l)] at hκ
  have hκ' := abs_le.1 hκ
  have k1 : (9999 / 10000 : ℚ) ≤ κ := by
    have : (1 + l) / 2 ^ 53 ≤ 1 / 10000 := by rw [div_le_iff₀ (by positivity)]; norm_num; linarith
    linarith
  have k2 : |κ - 1| ≤ 10012 / 10 ^ 8 := by
    have : (1 + l) / 2 ^ 53 ≤ 1 / 10 ^ 8 := by rw [div_le_iff₀ (by positivity)]; norm_num; linarith
    rw [abs_le]; constructor <;> linarith
  have k0 : 0 < κ := by linarith
  have e0 := abs_nonneg e
  have r1 : |ρ - e| ≤ 1 / 10 ^ 15 * |e| := by
    refine hρ.trans ?_
    rw [div_eq_mul_one_div, mul_comm]
    exact mul_le_mul_of_nonneg_right hu' e0
  have r2 : |ρ / κ| ≤ 1001 / 1000 * |e| := by
    rw [abs_div, abs_of_pos k0, div_le_iff₀ k0]
    have : |ρ| ≤ |e| + 1 / 10 ^ 15 * |e| := by
      have := abs_sub_abs_le_abs_sub ρ e
      linarith
    nlinarith
  have r3 : |e - ρ / κ| ≤ 10016 / 10 ^ 8 * |e| := by
    have : e - ρ / κ = ((κ - 1) * e - (ρ - e)) / κ := by field_simp; ring
    rw [this, abs_div, abs_of_pos k0, div_le_iff₀ k0]
    have h1 := abs_sub ((κ - 1) * e) (ρ - e)
    rw [abs_mul] at h1
    have h2 := mul_le_mul_of_nonneg_right k2 e0
    nlinarith
  rw [neg_div, abs_neg, sub_neg_eq_add] at hd
  have h3 : |ρ / κ| / 2 ^ 53 ≤ 1 / 10 ^ 14 * |e| := by
    rw [div_eq_mul_one_div]
    have := mul_le_mul r2 hu' (by positivity) (by positivity)
    linarith
  have h4 : e + d = (e - ρ / κ) + (d + ρ / κ) := by ring
  refine ⟨?_, fun hl3 => ?_⟩
  · rw [h4]
    have := abs_add_le (e - ρ / κ) (d + ρ / κ)
    linarith
  · have k3 : κ - 1 ≤ 11 / 10 ^ 5 := by have := (abs_le.1 k2).2; linarith
    have k4 : l - 1 / 10 ^ 15 * (11 / 10) ≤ κ - 1 := by
      have : (1 + l) / 2 ^ 53 ≤ 1 / 10 ^ 15 * (11 / 10) := by rw [div_le_iff₀ (by positivity)]; norm_num; linarith
      linarith
    have r4 : (9995 / 10000 * l) * |e| - 1 / 10 ^ 14 * |e| ≤ |e - ρ / κ| := by
      have : e - ρ / κ = ((κ - 1) * e - (ρ - e)) / κ := by field_simp; ring
      rw [this, abs_div, abs_of_pos k0, le_div_iff₀ k0]
      have h1 := abs_sub_abs_le_abs_sub ((κ - 1) * e) (ρ - e)
      have h5 : 0 ≤ κ - 1 := by linarith
      rw [abs_mul, abs_of_nonneg h5] at h1
      have h2 := mul_le_mul_of_nonneg_right k4 e0
      have h6 : (9995 / 10000 * l) * κ ≤ 9997 / 10000 * l := by
        have := mul_le_mul_of_nonneg_left (show κ ≤ 10002 / 10000 by linarith) hl
        linarith
      have h7 := mul_le_mul_of_nonneg_right h6 e0
      have h8 : |e| * (9999 / 10000) ≤ |e| * κ := mul_le_mul_of_nonneg_left k1 e0
      have h9 : (9995 / 10000 * l * |e| - 1 / 10 ^ 14 * |e|) * κ = 9995 / 10000 * l * κ * |e| - 1 / 10 ^ 14 * (|e| * κ) := by ring
      rw [h9]
      nlinarith
    have h5 := abs_sub_abs_le_abs_sub (e - ρ / κ) (-(d + ρ / κ))
    rw [sub_neg_eq_add, ← h4, abs_neg] at h5
    have h6 := mul_le_mul_of_nonneg_right hl3 e0
    linarith

/-- a lower bound of the damping of iteration `i` -/
def locMu (i : ℕ) : ℚ := 999 / 10 ^ 7 * (332 / 1000) ^ i

/-- what a state of the solver must satisfy in iteration `i` -/
def LocOk (i : ℕ) (s : LMState F64 R) : Prop :=
  s.gn.n = 1 ∧ s.rebuild = true ∧ s.badF = litD 2 ∧ ∃ l, Val s.lambda l ∧ 9 / 10 ^ 10 ≤ l ∧ l ≤ 1001 / 10 ^ 7 ∧ locMu i ≤ l

/-- the step at `x` in iteration `i`: a finite number, with what it leaves of the distance to `c` -/
def LocStep (c : ℚ) (i : ℕ) (x : Vec F64 1) (d : DVec F64) : Prop :=
  ∃ q v δ, Val (x 0) q ∧ d = ⟨1, fun _ => v⟩ ∧ Val v δ ∧ |q + δ - c| ≤ 101 / 10 ^ 6 * |q - c| + 1 / 10 ^ 300 ∧ 999 / 1000 * locMu i * |q - c| ≤ |q + δ - c| + 1 / 10 ^ 300

theorem big_ten {a b : ℕ} (h : a ≤ b) : (10 : ℚ) ^ a ≤ 10 ^ b := pow_le_pow_right₀ (by norm_num) h

theorem sq_one {v : F64} {δ : ℚ} (hv : Val v δ) (h : |δ| ≤ 10 ^ 153) : Val (sqNorm (n := 1) fun _ => v) (rndBin 53 (-1074) (δ * δ)) := by
  have h1 : |δ * δ| ≤ 10 ^ 308 := by
    rw [abs_mul]
    calc |δ| * |δ| ≤ 10 ^ 153 * 10 ^ 153 := mul_le_mul h h (abs_nonneg _) (by positivity)
      _ = 10 ^ 306 := by rw [← pow_add]
      _ ≤ _ := big_ten (by norm_num)
  have h2 := hv.mul hv h1
  have : sqNorm (n := 1) (fun _ => v) = mul v v := by
    unfold sqNorm
    simp only [sumF]
    exact h2.zero_add
  rw [this]; exact h2

/-- building and solving the system at `x` -/
theorem loc_system (h : LocTest P z) {c : ℚ} (hz : Val z c) {t : ℚ} (ht : Val tol t) (ht2 : t < 1 / 2) (w : W) {i : ℕ} (s : LMState F64 R) (hs : LocOk i s) (x : Vec F64 1) {q : ℚ} (hx : Val (x 0) q)
    (hq : |q - c| ≤ 10 ^ 306) :
    ∃ s2 v δ w1, Ready (lmEnv (defaultSolverOpts litD) (eigenLinAlg tol inv) P) w s x w s ∧
      (lmEnv (defaultSolverOpts litD) (eigenLinAlg tol inv) P).sol.build w s x = (true, s2, w1) ∧
      (lmEnv (defaultSolverOpts litD) (eigenLinAlg tol inv) P).sol.solve s2 = some ⟨1, fun _ => v⟩ ∧ Val v δ ∧ |q + δ - c| ≤ 101 / 10 ^ 6 * |q - c| + 1 / 10 ^ 300 ∧
      999 / 1000 * locMu i * |q - c| ≤ |q + δ - c| + 1 / 10 ^ 300 ∧
      s2.gn.cost.cost = absF (sub (x 0) z) ∧ finite s2.gn.cost.cost = true ∧ sqNorm s2.gn.g = sqNorm (n := 1) (fun _ => sub (x 0) z) ∧ LocOk i s2 := by
  obtain ⟨hn, hreb, hbf, l, hl, hl1, hl2, hl3⟩ := hs
  obtain ⟨ρ, hρ, hρe⟩ := hx.sub hz (hq.trans (big_ten (by norm_num)))
  have hρ2 : |ρ| ≤ 2 * 10 ^ 306 := by
    have := abs_sub_abs_le_abs_sub ρ (q - c)
    have h0 := abs_nonneg (q - c)
    have : |q - c| / 2 ^ 53 ≤ |q - c| := div_le_self h0 (one_le_pow₀ (by norm_num))
    generalize (10 : ℚ) ^ 306 = B at *
    linarith
  obtain ⟨κ, hκ, hκe⟩ := val_one.add hl (by
    rw [abs_of_nonneg (by linarith)]
    exact le_trans (by linarith : 1 + l ≤ 10) (by have := big_ten (a := 1) (b := 308) (by norm_num); simpa using this))
  have hκ1 : 1 / 2 ≤ κ := by
    rw [abs_of_nonneg (by linarith : (0 : ℚ) ≤ 1 + l)] at hκe
    have := (abs_le.1 hκe).1
    have h2 : (1 + l) / 2 ^ 53 ≤ 1 / 10000 := by rw [div_le_iff₀ (by positivity)]; norm_num; linarith
    linarith
  have h308 : (10 : ℚ) ^ 308 = 100 * 10 ^ 306 := by rw [show (308 : ℕ) = 2 + 306 by norm_num, pow_add]; norm_num
  have h306 : (0 : ℚ) < 10 ^ 306 := pow_pos (by norm_num) _
  have hdiv := hρ.neg.div hκ (by linarith) (by
    rw [abs_div, abs_neg, abs_of_pos (by linarith : 0 < κ), div_le_iff₀ (by linarith), h308]
    clear h308
    generalize (10 : ℚ) ^ 306 = B at *
    nlinarith)
  have hst := step_arith (e := q - c) (by linarith) hl2 hρe hκe (dbl_err (-ρ / κ))
  obtain ⟨c0, w1, hf, hc1, hc2⟩ := h.full w x (fun _ => ofInt 0) (fun _ _ => ofInt 0)
  obtain ⟨⟨n0, g0, H0, c00⟩, lam, prev, badF, reb⟩ := s
  obtain rfl : n0 = 1 := hn
  obtain rfl : reb = true := hreb
  obtain rfl : badF = litD 2 := hbf
  have hl : Val lam l := hl
  have hlam : lt (ofInt 0) lam = true := by rw [val_zero.lt hl]; simp; linarith
  have hcv : c0.isValid = true := by
    unfold Cost.isValid
    rw [hc2, hc1]
    have : FloatOps.eq (absF (sub (x 0) z)) maxVal = false := by
      rw [FloatLaws.eq_spec _ _ hρ.absF.finite FloatLaws.max_finite]
      have hm : Val maxVal Fmt.binary64.max := ⟨_, rfl⟩
      rw [hρ.absF.lt hm]
      have : |ρ| < Fmt.binary64.max := by
        refine lt_of_le_of_lt hρ2 (lt_of_lt_of_le ?_ dbl_max)
        rw [h308]
        clear h308
        generalize (10 : ℚ) ^ 306 = B at *
        linarith
      simp [this]
    simp [ne, this]
  have hnc : normalizeCost (defaultSolverOpts litD) c0 = c0 := by
    unfold normalizeCost; simp [defaultSolverOpts]
  have hb : buildSystem (defaultSolverOpts litD) P w ⟨1, g0, H0, c00⟩ x = (true, ⟨1, fun _ => sub (x 0) z, fun _ _ => ofInt 1, c0⟩, w1) := by
    unfold buildSystem gnAccumulate
    simp only [hf, hnc, hcv, if_true]
    have e1 : (defaultSolverOpts litD).gradClip = ofInt 0 := lit_zero
    have e2 : (defaultSolverOpts litD).checkMinHDiag = ofInt 0 := lit_zero
    have e3 : FloatOps.eq (ofInt 0 : F64) (ofInt 0) = true := by
      rw [FloatLaws.eq_spec _ _ val_zero.finite val_zero.finite]; simp [FloatLaws.lt_irrefl]
    rw [e1, e2]
    simp only [clampVec, e3, if_true, FloatLaws.lt_irrefl, Bool.false_and, Bool.false_eq_true, if_false]
    rfl
  refine ⟨⟨⟨1, fun _ => sub (x 0) z, fun _ _ => add (ofInt 1) lam, c0⟩, lam, prev, litD 2, true⟩, div (neg (sub (x 0) z)) (add (ofInt 1) lam), _, w1, ⟨?_, ?_⟩, ?_, ?_, hdiv, ?_, ?_, hc1, ?_, rfl,
    rfl, rfl, rfl, l, hl, hl1, hl2, hl3⟩
  · have hd : (lmEnv (defaultSolverOpts litD) (eigenLinAlg tol inv) P).dynDims x = 1 := h.dyn x
    rw [hd]; norm_num
  · have hd : (lmEnv (defaultSolverOpts litD) (eigenLinAlg tol inv) P).dynDims x = 1 := h.dyn x
    rw [hd]
    have : gnResize P w ⟨1, g0, H0, c00⟩ 1 = (.done ⟨1, g0, H0, c00⟩, w) := by
      unfold gnResize; rw [h.dims]; simp
    simp only [lmEnv, envOf, lmSolver, this]
  · simp only [lmEnv, envOf, lmSolver, lmBuild, if_true, hb]
    unfold lmDamp
    simp only [hlam, if_true]
    congr 4
    funext i j
    unfold scaleDiag
    rw [if_pos (Subsingleton.elim i j), hκ.one_mul]
  · show gnSolve _ _ _ _ = _
    unfold gnSolve
    simp only [hcv, if_true]
    have e1 : (defaultSolverOpts litD).useLdlt = true := rfl
    rw [e1]
    simp only [if_true]
    unfold solveLDLT
    have := ldlt_one (tol := tol) (A := symUpper fun _ _ => add (ofInt 1) lam) (b := negVec fun _ => sub (x 0) z) (a := κ) hκ hκ1 ht ht2 hdiv
    show Option.map _ (eigenLdlt tol 1 _ _) = _
    rw [this]
    rfl
  · rw [show q + rndBin 53 (-1074) (-ρ / κ) - c = q - c + rndBin 53 (-1074) (-ρ / κ) by ring]; exact hst.1
  · rw [show q + rndBin 53 (-1074) (-ρ / κ) - c = q - c + rndBin 53 (-1074) (-ρ / κ) by ring]
    refine le_trans (mul_le_mul_of_nonneg_right ?_ (abs_nonneg _)) (hst.2 hl1)
    linarith
  · show finite c0.cost = true
    rw [hc1]; exact hρ.absF.finite

theorem loc_delivers (h : LocTest P z) {c : ℚ} (hz : Val z c) {t : ℚ} (ht : Val tol t) (ht2 : t < 1 / 2) (w : W) {i : ℕ} (s : LMState F64 R) (hs : LocOk i s) (x : Vec F64 1) {q : ℚ} (hx : Val (x 0) q)
    (hq : |q - c| ≤ 10 ^ 151) :
    ∃ s2 dx, Delivers (lmEnv (defaultSolverOpts litD) (eigenLinAlg tol inv) P) w s x s2 dx ∧ s2.gn.cost.cost = absF (sub (x 0) z) ∧
      sqNorm s2.gn.g = sqNorm (n := 1) (fun _ => sub (x 0) z) ∧ LocStep c i x dx ∧ LocOk (i + 1) { s2 with rebuild := true } ∧
      ∀ s3, lmGood (defaultSolverOpts litD) s2 (ofInt 0) = .ok s3 → LocOk (i + 1) { s3 with rebuild := true } := by
  obtain ⟨s2, v, δ, w1, hr, hb, hsol, hv, hst, hst2, hcost, hcf, hg, hok⟩ := loc_system (inv := inv) h hz ht ht2 w s hs x hx (hq.trans (big_ten (by norm_num)))
  obtain ⟨hn, hreb, hbf, l, hl, hl1, hl2, hl3⟩ := hok
  have hmu0 : 0 ≤ locMu i := by unfold locMu; positivity
  have hmu : locMu (i + 1) = locMu i * (332 / 1000) := by unfold locMu; rw [pow_succ]; ring
  obtain ⟨lv, hlv, hlv1, hlv2⟩ := lit_lo
  obtain ⟨hv', hhv, hhv1, hhv2⟩ := lit_hi
  obtain ⟨gv, hgv, hgv1, hgv2⟩ := lit_good
  have hcl : ∀ v, ∃ l, stdClamp v (litD (1 / 10 ^ 9)) (litD (10 ^ 9)) = .ok l := fun v => by
    unfold stdClamp
    rw [hhv.lt hlv]
    simp only [decide_eq_true_eq]
    rw [if_neg (by linarith)]
    exact ⟨_, rfl⟩
  refine ⟨s2, _, ⟨⟨s, w, w1, hr.resize, hb⟩, hsol, hcf, ?_, ?_, ?_⟩, hcost, hg, ⟨q, v, δ, hx, rfl, hv, hst, hst2⟩, ⟨hn, rfl, hbf, l, hl, hl1, hl2, by rw [hmu]; linarith⟩, ?_⟩
  · refine (sq_one hv ?_).finite
    have h2 := abs_sub (q + δ - c) (q - c)
    rw [show q + δ - c - (q - c) = δ by ring] at h2
    have h3 : (1 : ℚ) / 10 ^ 300 ≤ 1 := by rw [div_le_one (by positivity)]; exact one_le_pow₀ (by norm_num)
    have h4 : (1 : ℚ) ≤ 10 ^ 151 := one_le_pow₀ (by norm_num)
    have h5 : (10 : ℚ) ^ 153 = 100 * 10 ^ 151 := by rw [show (153 : ℕ) = 2 + 151 by norm_num, pow_add]; norm_num
    rw [h5]
    generalize (10 : ℚ) ^ 151 = B at hq h4
    linarith
  · intro qq
    show ∃ s', lmGood _ _ qq = .ok s'
    unfold lmGood
    obtain ⟨l', e'⟩ := hcl (mul s2.lambda (goodScale (defaultSolverOpts litD) qq s2.badF))
    have e'' : stdClamp (mul s2.lambda (goodScale (defaultSolverOpts litD) qq s2.badF)) (defaultSolverOpts litD).dampLo (defaultSolverOpts litD).dampHi = .ok l' := e'
    simp only [e'']
    exact ⟨_, rfl⟩
  · show ∃ s', lmBad _ _ = .ok s'
    unfold lmBad
    obtain ⟨l', e'⟩ := hcl (mul s2.lambda s2.badF)
    have e'' : stdClamp (mul s2.lambda s2.badF) (defaultSolverOpts litD).dampLo (defaultSolverOpts litD).dampHi = .ok l' := e'
    simp only [e'']
    exact ⟨_, rfl⟩
  · intro s3 hg
    unfold lmGood at hg
    have hsc : goodScale (defaultSolverOpts litD) (ofInt 0) (litD 2) = litD (1 / 3) := by
      unfold goodScale
      have e1 : ne (ofInt 0 : F64) (ofInt 0) = false := by
        unfold ne; rw [FloatLaws.eq_spec _ _ val_zero.finite val_zero.finite]; simp [FloatLaws.lt_irrefl]
      have e2 : ne (litD 2) (defaultSolverOpts litD).badFactor = false := by decide +kernel
      rw [e1, e2]
      simp [defaultSolverOpts]
    rw [hbf, hsc] at hg
    have hm := hl.mul hgv (by
      rw [abs_of_nonneg (by nlinarith)]
      exact le_trans (by nlinarith) (one_le_pow₀ (by norm_num) : (1 : ℚ) ≤ 10 ^ 308))
    have hmv : rndBin 53 (-1074) (l * gv) ≤ 1001 / 10 ^ 7 := by
      have h1 : rndBin 53 (-1074) (l * gv) ≤ rndBin 53 (-1074) l := rndBin64_mono (by nlinarith)
      rw [rndBin_id hl.grid] at h1
      linarith
    have hcl2 : stdClamp (mul s2.lambda (litD (1 / 3))) (defaultSolverOpts litD).dampLo (defaultSolverOpts litD).dampHi =
        .ok (if rndBin 53 (-1074) (l * gv) < lv then litD (1 / 10 ^ 9) else mul s2.lambda (litD (1 / 3))) := by
      show stdClamp (mul s2.lambda (litD (1 / 3))) (litD (1 / 10 ^ 9)) (litD (10 ^ 9)) = _
      unfold stdClamp
      rw [hhv.lt hlv, hm.lt hlv, hhv.lt hm]
      simp only [decide_eq_true_eq]
      rw [if_neg (by linarith), if_neg (show ¬ hv' < rndBin 53 (-1074) (l * gv) by linarith)]
    simp only [hcl2] at hg
    injection hg with hg
    subst hg
    have hmv2 : locMu (i + 1) ≤ rndBin 53 (-1074) (l * gv) := by
      have h1 := (abs_le.1 (dbl_err (l * gv))).1
      have h2 : 0 ≤ l * gv := by nlinarith
      rw [abs_of_nonneg h2] at h1
      have h3 := tiny_le
      have h4 : (1 : ℚ) / 10 ^ 300 ≤ 1 / 10 ^ 100 := one_div_le_one_div_of_le (by positivity) (big_ten (by norm_num))
      have h5 : l * gv / 2 ^ 53 ≤ 1 / 10 ^ 6 * (l * gv) := by
        rw [div_eq_mul_one_div, mul_comm]
        exact mul_le_mul_of_nonneg_right (by norm_num) h2
      have h6 : l * (333 / 1000) ≤ l * gv := mul_le_mul_of_nonneg_left hgv1 (by linarith)
      have h7 : (1 : ℚ) / 10 ^ 100 ≤ 1 / 10 ^ 20 := by norm_num
      generalize (1 : ℚ) / 10 ^ 300 = T at *
      generalize (1 : ℚ) / 10 ^ 100 = T' at *
      rw [hmu]
      linarith
    refine ⟨hn, rfl, rfl, ?_⟩
    show ∃ l', Val (if rndBin 53 (-1074) (l * gv) < lv then litD (1 / 10 ^ 9) else mul s2.lambda (litD (1 / 3))) l' ∧ _
    split
    next => exact ⟨lv, hlv, by linarith, by linarith, by linarith⟩
    next h' => exact ⟨_, hm, by linarith, hmv, hmv2⟩

/-! ### the run -/

/-- the cost at a point -/
theorem loc_cost {c : ℚ} (hz : Val z c) {x : Vec F64 1} {q : ℚ} (hx : Val (x 0) q) (hq : |q - c| ≤ 10 ^ 152) :
    ∃ ρ, Val (sub (x 0) z) ρ ∧ 999 / 1000 * |q - c| ≤ |ρ| ∧ |ρ| ≤ 1001 / 1000 * |q - c| := by
  obtain ⟨ρ, hρ, he⟩ := hx.sub hz (hq.trans (big_ten (by norm_num)))
  have h0 := abs_nonneg (q - c)
  have h1 : |q - c| / 2 ^ 53 ≤ 1 / 1000 * |q - c| := by
    rw [div_eq_mul_one_div, mul_comm]
    exact mul_le_mul_of_nonneg_right (by norm_num) h0
  have h2 := abs_sub_abs_le_abs_sub ρ (q - c)
  have h3 := abs_sub_abs_le_abs_sub (q - c) ρ
  rw [abs_sub_comm (q - c) ρ] at h3
  exact ⟨ρ, hρ, by linarith, by linarith⟩

/-- the next point -/
theorem loc_next (h : LocTest P z) {c : ℚ} (hc : |c| ≤ 10 ^ 6) {x : Vec F64 1} {q : ℚ} (hx : Val (x 0) q) (hq : |q - c| ≤ 10 ^ 151) {i : ℕ} {d : DVec F64} (hd : LocStep c i x d) :
    ∃ y, Val (P.plusEq x d 0) y ∧ |y - c| ≤ 102 / 10 ^ 6 * |q - c| + 112 / 10 ^ 12 ∧ (|c| ≤ 100 → |y - c| ≤ 102 / 10 ^ 6 * |q - c| + 112 / 10 ^ 16) ∧
      (|c| ≤ 100 → 9989 / 10000 * locMu i * |q - c| ≤ |y - c| + 113 / 10 ^ 16 + 1 / 10 ^ 15 * |q - c|) := by
  obtain ⟨q', v, δ, hx', rfl, hv, hl, hlow⟩ := hd
  obtain rfl := hx.unique hx'
  rw [h.plus]
  have hu : (1 : ℚ) / 2 ^ 53 ≤ 111023 / 10 ^ 21 := by norm_num
  have ht : (1 : ℚ) / 10 ^ 300 ≤ 1 / 10 ^ 100 := one_div_le_one_div_of_le (by positivity) (big_ten (by norm_num))
  have h0 := abs_nonneg (q - c)
  have h1 : |q + δ| ≤ |q + δ - c| + |c| := by
    have := abs_add_le (q + δ - c) c
    rwa [sub_add_cancel] at this
  have h2 : |q + δ| ≤ 10 ^ 308 := by
    have a1 : (10 : ℚ) ^ 152 = 10 * 10 ^ 151 := by rw [pow_succ]; ring
    have a2 : (10 : ℚ) ^ 152 ≤ 10 ^ 308 := big_ten (by norm_num)
    have a3 : (10 : ℚ) ^ 6 ≤ 10 ^ 151 := big_ten (by norm_num)
    have a4 : (1 : ℚ) / 10 ^ 100 ≤ 10 ^ 151 := by norm_num
    refine le_trans ?_ a2
    rw [a1]
    linarith
  obtain ⟨y, hy, he⟩ := hx.add hv h2
  have h3 : |q + δ| / 2 ^ 53 ≤ 111023 / 10 ^ 21 * (|q + δ - c| + |c|) := by
    rw [div_eq_mul_one_div, mul_comm]
    exact mul_le_mul hu h1 (abs_nonneg _) (by norm_num)
  have h4 := abs_add_le (y - (q + δ)) (q + δ - c)
  rw [show y - (q + δ) + (q + δ - c) = y - c by ring] at h4
  have h5 := abs_sub (y - c) (y - (q + δ))
  rw [show y - c - (y - (q + δ)) = q + δ - c by ring] at h5
  have h6 : (1 : ℚ) / 10 ^ 100 ≤ 1 / 10 ^ 20 := by norm_num
  have h7 : 0 ≤ locMu i * |q - c| := mul_nonneg (by unfold locMu; positivity) h0
  rw [show 999 / 1000 * locMu i * |q - c| = 999 / 1000 * (locMu i * |q - c|) by ring] at hlow
  refine ⟨y, hy, by linarith, fun hc2 => by linarith, fun hc2 => ?_⟩
  rw [show 9989 / 10000 * locMu i * |q - c| = 9989 / 10000 * (locMu i * |q - c|) by ring]
  linarith

/-- squared steps: the criterion on the length of the step -/
theorem short_iff {δ v : ℚ} (hv1 : 99 / 10 ^ 16 ≤ v) (hv2 : v ≤ 101 / 10 ^ 16) :
    (rndBin 53 (-1074) (δ * δ) < v → |δ| ≤ 102 / 10 ^ 9) ∧ (|δ| ≤ 98 / 10 ^ 9 → rndBin 53 (-1074) (δ * δ) < v) := by
  have e1 : rndBin 53 (-1074) (98 / 10 ^ 16) < 99 / 10 ^ 16 := by decide +kernel
  have e2 : (101 / 10 ^ 16 : ℚ) < rndBin 53 (-1074) (102 / 10 ^ 16) := by decide +kernel
  constructor
  · intro h
    by_contra hn
    have h1 : (102 / 10 ^ 16 : ℚ) ≤ δ * δ := by
      rw [← abs_mul_abs_self]; nlinarith
    have := rndBin64_mono h1
    linarith
  · intro h
    have h1 : δ * δ ≤ 98 / 10 ^ 16 := by
      rw [← abs_mul_abs_self]
      have := abs_nonneg δ
      nlinarith
    have := rndBin64_mono h1
    linarith

/-- the levels of the run -/
def locB (i : ℕ) : ℚ := (11 / 10 ^ 5) ^ i * 10 ^ 150 + 13 / 10 ^ 11

theorem locB_le (i : ℕ) : locB i ≤ 10 ^ 151 := by
  unfold locB
  have h1 : (11 / 10 ^ 5 : ℚ) ^ i ≤ 1 := pow_le_one₀ (by norm_num) (by norm_num)
  have h2 : (11 / 10 ^ 5 : ℚ) ^ i * 10 ^ 150 ≤ 1 * 10 ^ 150 := mul_le_mul_of_nonneg_right h1 (by positivity)
  have h3 : (10 : ℚ) ^ 151 = 10 * 10 ^ 150 := by rw [pow_succ]; ring
  have h4 : (1 : ℚ) ≤ 10 ^ 150 := one_le_pow₀ (by norm_num)
  rw [h3]
  generalize (10 : ℚ) ^ 150 = B at *
  linarith

theorem locB_succ (i : ℕ) : 102 / 10 ^ 6 * locB i + 112 / 10 ^ 12 ≤ locB (i + 1) := by
  unfold locB
  rw [pow_succ (11 / 10 ^ 5 : ℚ) i]
  have : (0 : ℚ) ≤ (11 / 10 ^ 5) ^ i * 10 ^ 150 := by positivity
  linarith

theorem locB_last : locB 40 ≤ 1 / 10 ^ 8 := by unfold locB; norm_num

/-- not a short step: the cost goes down by a factor 10 -/
theorem loc_lower (h : LocTest P z) {c : ℚ} (hz : Val z c) (hc : |c| ≤ 10 ^ 6) {x : Vec F64 1} {q : ℚ} (hx : Val (x 0) q) (hq : |q - c| ≤ 10 ^ 151) {i : ℕ} {d : DVec F64} (hd : LocStep c i x d)
    (hns : lt (sqNorm d.v) (litD (1 / 10 ^ 14)) = false) :
    ∃ ρ ρ', Val (absF (sub (x 0) z)) ρ ∧ Val (absF (sub (P.plusEq x d 0) z)) ρ' ∧ 0 < ρ ∧ ρ' ≤ ρ / 10 ∧ 97 / 10 ^ 9 ≤ |q - c| := by
  obtain ⟨y, hy, hyl, -⟩ := loc_next h hc hx hq hd
  have hd' := hd
  obtain ⟨q', v, δ, hx', rfl, hv, hl, -⟩ := hd'
  obtain rfl := hx.unique hx'
  obtain ⟨sv, hsv, hs1, hs2⟩ := lit_step
  have ht : (1 : ℚ) / 10 ^ 300 ≤ 1 / 10 ^ 100 := one_div_le_one_div_of_le (by positivity) (big_ten (by norm_num))
  have h0 := abs_nonneg (q - c)
  have a3 : (1 : ℚ) ≤ 10 ^ 151 := one_le_pow₀ (by norm_num)
  have hδ : |δ| ≤ 1001 / 1000 * |q - c| + 1 / 10 ^ 100 := by
    have := abs_sub (q + δ - c) (q - c)
    rw [show q + δ - c - (q - c) = δ by ring] at this
    linarith
  have a1 : (10 : ℚ) ^ 152 = 10 * 10 ^ 151 := by rw [pow_succ]; ring
  have a2 : (10 : ℚ) ^ 153 = 100 * 10 ^ 151 := by rw [show (153 : ℕ) = 2 + 151 by norm_num, pow_add]; norm_num
  have hsq := sq_one hv (by
    rw [a2]
    have : (1 : ℚ) / 10 ^ 100 ≤ 1 := by norm_num
    generalize (10 : ℚ) ^ 151 = B at *
    linarith)
  rw [hsq.lt hsv, decide_eq_false_iff_not] at hns
  have hbig : 98 / 10 ^ 9 < |δ| := by
    by_contra hn
    exact hns ((short_iff hs1 hs2).2 (not_lt.1 hn))
  have hee : 97 / 10 ^ 9 ≤ |q - c| := by
    have : (1 : ℚ) / 10 ^ 100 ≤ 1 / 10 ^ 20 := by norm_num
    linarith
  obtain ⟨ρ, hρ, hρ1, hρ2⟩ := loc_cost hz hx (hq.trans (big_ten (by norm_num)))
  obtain ⟨ρ', hρ', hρ1', hρ2'⟩ := loc_cost (x := P.plusEq x ⟨1, fun _ => v⟩) hz hy (by
    rw [a1]
    generalize (10 : ℚ) ^ 151 = B at *
    linarith)
  exact ⟨|ρ|, |ρ'|, hρ.absF, hρ'.absF, by linarith, by linarith, hee⟩

theorem eps_pos : ∃ v, Val (eps : F64) v ∧ 0 < v :=
  ⟨_, val_of_le (q := Fmt.binary64.epsq) (by decide +kernel), by decide +kernel⟩

/-- the criterion on the relative decrease does not hold after such a step -/
theorem rel_large {a b : F64} {ρ ρ' : ℚ} (ha : Val a ρ) (hb : Val b ρ') (h0 : 0 < ρ) (h0' : 0 ≤ ρ') (hρ : ρ ≤ 10 ^ 300) (h : ρ' ≤ ρ / 10) (h1 : lt (ofInt 0) (relDerr a b) = true)
    (h2 : lt (relDerr a b) (litD (1 / 10 ^ 10)) = true) : False := by
  unfold relDerr at h1 h2
  split at h1
  next hcc =>
    rw [if_pos hcc] at h2
    have hb1 : |ρ - ρ'| ≤ 10 ^ 308 := by
      rw [abs_of_nonneg (by linarith)]
      have : (10 : ℚ) ^ 300 ≤ 10 ^ 308 := big_ten (by norm_num)
      exact (sub_le_self _ h0').trans (hρ.trans this)
    obtain ⟨y, hy, he⟩ := ha.sub hb hb1
    rw [abs_of_nonneg (by linarith : 0 ≤ ρ - ρ')] at he
    have hu : (ρ - ρ') / 2 ^ 53 ≤ 1 / 1000 * (ρ - ρ') := by
      rw [div_eq_mul_one_div, mul_comm]
      exact mul_le_mul_of_nonneg_right (by norm_num) (by linarith)
    have he' := abs_le.1 he
    have hq1 : 1 / 4 ≤ y / ρ := by rw [le_div_iff₀ h0]; linarith
    have hq2 : y / ρ ≤ 2 := by rw [div_le_iff₀ h0]; linarith
    have hd := hy.div ha h0.ne' (by
      rw [abs_of_nonneg (by linarith)]
      refine hq2.trans ?_
      calc (2 : ℚ) ≤ 10 ^ 1 := by norm_num
        _ ≤ _ := big_ten (by norm_num))
    obtain ⟨rv, hrv, hr1, hr2⟩ := lit_rel
    rw [hd.lt hrv, decide_eq_true_eq] at h2
    have e : (1 / 8 : ℚ) ≤ rndBin 53 (-1074) (1 / 4) := by decide +kernel
    have := rndBin64_mono hq1
    linarith
  next hcc =>
    rw [val_zero.lt val_zero] at h1
    simp at h1

/-- the default options, with any value of `check_final_cost` -/
def testOptsD (b : Bool) : Options F64 W (DVec F64) := { defaultOptions litD with checkFinalCost := b }

theorem testOptsD_unwatched (b : Bool) : Unwatched (testOptsD b : Options F64 W (DVec F64)) :=
  ⟨by show lt (ofInt 0) (litD 0) = false; rw [lit_zero, val_zero.lt val_zero]; simp, rfl, rfl⟩

/-- what the criteria say of a step at `x`: if one holds, and not the one on the relative decrease, then the point is near the minimum, and the criterion is that on the error or the step -/
theorem loc_near {c q ρ : ℚ} {i : ℕ} {d : DVec F64} {x : Vec F64 1} {b : Bool} {best : F64} {r : StopReason} (hx : Val (x 0) q) (hρ : Val (sub (x 0) z) ρ) (hρ1 : 999 / 1000 * |q - c| ≤ |ρ|)
    (hρ2 : |ρ| ≤ 1001 / 1000 * |q - c|) (hT : LocStep c i x d) (hq' : |q - c| ≤ 10 ^ 151)
    (hcv : ConvergedFrom (testOptsD b : Options F64 W (DVec F64)) best (absF (sub (x 0) z)) (sqNorm d.v) (sqNorm (n := 1) fun _ => sub (x 0) z) r) (hr : r ≠ .kMinRelError) :
    |q - c| ≤ 11 / 10 ^ 8 ∧ (r = .kMinError ∧ |ρ| < 101 / 10 ^ 14 ∨ r = .kMinDeltaNorm) := by
  obtain ⟨q', v, δ, hx', rfl, hv, hle, -⟩ := hT
  obtain rfl := hx.unique hx'
  obtain ⟨sv, hsv, hs1, hs2⟩ := lit_step
  have h0 := abs_nonneg (q - c)
  have ht1 : (1 : ℚ) / 10 ^ 300 ≤ 1 / 10 ^ 100 := one_div_le_one_div_of_le (by positivity) (big_ten (by norm_num))
  have ht3 : (1 : ℚ) / 10 ^ 100 ≤ 1 / 10 ^ 22 := by norm_num
  have ht4 : (1 : ℚ) / 10 ^ 22 ≤ 1 := by norm_num
  generalize (1 : ℚ) / 10 ^ 300 = T at *
  generalize (1 : ℚ) / 10 ^ 100 = T' at *
  have e153 : (10 : ℚ) ^ 153 = 100 * 10 ^ 151 := by rw [show (153 : ℕ) = 2 + 151 by norm_num, pow_add]; norm_num
  have e151 : (1 : ℚ) ≤ 10 ^ 151 := one_le_pow₀ (by norm_num)
  have hδ : |q - c| ≤ 1001 / 1000 * |δ| + 1 / 10 ^ 20 := by
    have := abs_sub (q + δ - c) δ
    rw [show q + δ - c - δ = q - c by ring] at this
    linarith
  have hδ3 : |δ| ≤ 1001 / 1000 * |q - c| + 1 / 10 ^ 22 := by
    have := abs_sub (q + δ - c) (q - c)
    rw [show q + δ - c - (q - c) = δ by ring] at this
    linarith
  have hδ2 : |δ| ≤ 10 ^ 153 := by
    rw [e153]
    generalize (10 : ℚ) ^ 151 = B at *
    linarith
  have hρ3 : |ρ| ≤ 10 ^ 153 := by
    rw [e153]
    generalize (10 : ℚ) ^ 151 = B at *
    linarith
  cases hcv with
  | error a1 a2 =>
    obtain ⟨ev, hev, he1, he2⟩ := lit_err
    have a2 : lt (absF (sub (x 0) z)) (litD (1 / 10 ^ 12)) = true := a2
    rw [hρ.absF.lt hev, decide_eq_true_eq] at a2
    exact ⟨by linarith, Or.inl ⟨rfl, by linarith⟩⟩
  | rel a1 a2 a3 => exact absurd rfl hr
  | step a1 a2 =>
    have a2 : lt (sqNorm (n := 1) fun _ => v) (litD (1 / 10 ^ 14)) = true := a2
    rw [(sq_one hv hδ2).lt hsv, decide_eq_true_eq] at a2
    have := (short_iff hs1 hs2).1 a2
    exact ⟨by linarith, Or.inr rfl⟩
  | grad a1 a2 n1 n2 n3 =>
    exfalso
    obtain ⟨gv, hgv, hg1, hg2⟩ := lit_grad
    have a2 : lt (sqNorm (n := 1) fun _ => sub (x 0) z) (litD (1 / 10 ^ 18)) = true := a2
    rw [(sq_one hρ hρ3).lt hgv, decide_eq_true_eq] at a2
    have n3 : (lt (ofInt 0) (litD (1 / 10 ^ 14)) && lt (sqNorm (n := 1) fun _ => v) (litD (1 / 10 ^ 14))) = false := n3
    have hpos : lt (ofInt 0) (litD (1 / 10 ^ 14)) = true := by rw [val_zero.lt hsv]; simp; linarith
    rw [hpos, Bool.true_and, (sq_one hv hδ2).lt hsv, decide_eq_false_iff_not] at n3
    have hbig : 98 / 10 ^ 9 < |δ| := by
      by_contra hn
      exact n3 ((short_iff hs1 hs2).2 (not_lt.1 hn))
    have h9 : (9 / 10 ^ 15 : ℚ) ≤ ρ * ρ := by
      rw [← abs_mul_abs_self]
      have : 96 / 10 ^ 9 ≤ |ρ| := by linarith
      nlinarith
    have e2 : (101 / 10 ^ 20 : ℚ) < rndBin 53 (-1074) (9 / 10 ^ 15) := by decide +kernel
    have := rndBin64_mono h9
    linarith

/-- the run of C119, with all its iterations -/
theorem loc_run (h : LocTest P z) {c : ℚ} (hz : Val z c) (hc : |c| ≤ 10 ^ 6) {t : ℚ} (ht : Val tol t) (ht2 : t < 1 / 2) (b : Bool) {x0 : Vec F64 1} {q0 : ℚ} (hx0 : Val (x0 0) q0)
    (hfar : |q0 - c| ≤ 10 ^ 150) (g : Vec F64 (P.dims.getD 0)) (H : Mat F64 (P.dims.getD 0)) (fuel : Nat) (w : W) :
    ∃ st, optimizeAcc (lmEnv (defaultSolverOpts litD) (eigenLinAlg tol inv) P) (testOptsD b) (fuel + 1) (-1) w (lmFresh (defaultSolverOpts litD) P g H) x0 = .ok st ∧
      st.trace.length ≤ 41 ∧
      (∀ i r, st.trace[i]? = some r → (∃ q, Val (r.x 0) q ∧ |q - c| ≤ locB i) ∧ r.succ = true ∧ ∃ dx, r.dx = some dx ∧ LocStep c i r.x dx ∧ r.xNext = P.plusEq r.x dx ∧
        (i + 1 < st.trace.length → lt (sqNorm dx.v) (litD (1 / 10 ^ 14)) = false)) ∧
      ∃ r dx, st.trace[st.trace.length - 1]? = some r ∧ r.dx = some dx ∧ st.x = P.plusEq r.x dx ∧ st.out.stop ≠ .kMinRelError ∧
        ConvergedFrom (testOptsD b : Options F64 W (DVec F64)) (bestBefore (fun x => absF (sub (x 0) z)) st.trace (st.trace.length - 1)) (absF (sub (r.x 0) z)) (sqNorm dx.v)
          (sqNorm (n := 1) fun _ => sub (r.x 0) z) st.out.stop := by
  obtain ⟨M, hM, hM51⟩ : ∃ M, loopBound (testOptsD b : Options F64 W (DVec F64)) (-1) = some M ∧ 51 ≤ M := by
    cases b
    · exact ⟨51, rfl, le_refl _⟩
    · exact ⟨52, rfl, by norm_num⟩
  obtain ⟨sv, hsv, hs1, hs2⟩ := lit_step
  obtain ⟨dv, hdv, hd1, hd2⟩ := lit_damp
  have ht1 : (1 : ℚ) / 10 ^ 300 ≤ 1 / 10 ^ 100 := one_div_le_one_div_of_le (by positivity) (big_ten (by norm_num))
  have h0 : Val (x0 0) q0 ∧ |q0 - c| ≤ locB 0 := ⟨hx0, hfar.trans (by unfold locB; norm_num)⟩
  obtain ⟨st, e, h1, h2, r, d, h3, h4, h5, h6⟩ := contracting_run_at (E := lmEnv (defaultSolverOpts litD) (eigenLinAlg tol inv) P) (o := testOptsD b)
    (C := fun x => absF (sub (x 0) z)) (g2 := fun x => sqNorm (n := 1) fun _ => sub (x 0) z) (Ok := LocOk) (T := LocStep c) (N := 40) (x0 := x0)
    (Lvl := fun i x => ∃ q, Val (x 0) q ∧ |q - c| ≤ locB i) (testOptsD_unwatched b)
    (by show lt (ofInt 0) (litD (1 / 10 ^ 14)) = true; rw [val_zero.lt hsv]; simp; linarith)
    (fun i w s x _ hl hok => by
      obtain ⟨q, hx, hq⟩ := hl
      obtain ⟨s2, dx, a1, a2, a3, a4, a5, a6⟩ := loc_delivers (inv := inv) h hz ht ht2 w s hok x hx (hq.trans (locB_le i))
      refine ⟨s2, dx, a1, a2, a3, a4, a5, fun qq s3 hqq hg => ?_⟩
      obtain rfl := hqq rfl
      exact a6 s3 hg)
    (fun i x dx _ hl hT hns => by
      obtain ⟨q, hx, hq⟩ := hl
      have hq' := hq.trans (locB_le i)
      obtain ⟨y, hy, hyl, -⟩ := loc_next h hc hx hq' hT
      refine ⟨⟨y, hy, hyl.trans ?_⟩, ?_⟩
      · have := locB_succ i
        linarith
      · obtain ⟨ρ, ρ', b1, b2, b3, b4, -⟩ := loc_lower h hz hc hx hq' hT hns
        have := FloatLaws.sub_neg _ _ b2.finite b1.finite
        refine this.trans ?_
        rw [b2.lt b1, decide_eq_true_eq]
        linarith)
    (fun x dx hl hT => by
      obtain ⟨q, hx, hq⟩ := hl
      obtain ⟨q', v, δ, hx', rfl, hv, hle, -⟩ := hT
      obtain rfl := hx.unique hx'
      have := locB_last
      have hδ : |δ| ≤ 2 / 10 ^ 8 := by
        have := abs_sub (q + δ - c) (q - c)
        rw [show q + δ - c - (q - c) = δ by ring] at this
        have : (1 : ℚ) / 10 ^ 100 ≤ 1 / 10 ^ 20 := by norm_num
        linarith
      have hsq := sq_one hv (hδ.trans (le_trans (by norm_num) (one_le_pow₀ (by norm_num) : (1 : ℚ) ≤ 10 ^ 153)))
      refine (hsq.lt hsv).trans ?_
      rw [decide_eq_true_eq]
      exact (short_iff hs1 hs2).2 (by linarith))
    ⟨q0, h0⟩
    (by
      obtain ⟨ρ, hρ, -, hρ2⟩ := loc_cost hz hx0 (hfar.trans (big_ten (by norm_num)))
      have hm : Val maxVal Fmt.binary64.max := ⟨_, rfl⟩
      refine (FloatLaws.sub_neg _ _ hρ.absF.finite hm.finite).trans ?_
      rw [hρ.absF.lt hm, decide_eq_true_eq]
      refine lt_of_le_of_lt hρ2 (lt_of_lt_of_le ?_ dbl_max)
      calc 1001 / 1000 * |q0 - c| ≤ 1001 / 1000 * 10 ^ 150 := mul_le_mul_of_nonneg_left hfar (by norm_num)
        _ < 10 ^ 152 := by norm_num
        _ ≤ _ := big_ten (by norm_num))
    (fuel := fuel) hM (by push_cast; linarith) (w := w) (s := lmFresh (defaultSolverOpts litD) P g H)
    ⟨by show P.dims.getD 0 = 1; rw [h.dims]; rfl, rfl, rfl, dv, hdv, by linarith, hd2, by unfold locMu; linarith⟩
  have hlast : st.trace[st.trace.length - 1]? = some r := by rw [← List.getLast?_eq_getElem?]; exact h3
  refine ⟨st, e, h1, h2, r, d, hlast, h4, h5, fun hr => ?_, h6⟩
  obtain ⟨⟨q, hx, hq⟩, -, d', h7, hT, -⟩ := h2 _ _ hlast
  obtain ⟨ρ, hρ, hρ1, hρ2⟩ := loc_cost hz hx ((hq.trans (locB_le _)).trans (big_ten (by norm_num)))
  rw [hr] at h6
  cases h6 with
  | rel a1 a2 a3 =>
    rcases Nat.lt_or_ge 1 st.trace.length with hl | hl
    · obtain ⟨i, hi⟩ : ∃ i, st.trace.length - 1 = i + 1 := ⟨st.trace.length - 2, by omega⟩
      rw [hi] at a2 a3 hlast
      have hu := List.getElem?_eq_getElem (l := st.trace) (i := i) (by omega)
      obtain ⟨⟨qu, hxu, hqu⟩, -, du, k1, k2, k3, k4⟩ := h2 _ _ hu
      have hns := k4 (by omega)
      have k5 := (run_path e).next hu hlast
      obtain ⟨ρu, ρ', b1, b2, b3, b4, -⟩ := loc_lower h hz hc hxu (hqu.trans (locB_le _)) k2 hns
      have k6 : r.x = P.plusEq st.trace[i].x du := by rw [k5, k3]; rfl
      rw [← k6] at b2
      simp only [bestBefore, hu, Option.map_some, Option.getD_some] at a2 a3
      obtain ⟨ρv, c1, c2, c3⟩ := loc_cost hz hxu ((hqu.trans (locB_le _)).trans (big_ten (by norm_num)))
      have c4 := c1.absF.unique b1
      refine rel_large b1 b2 b3 ?_ ?_ b4 a2 a3
      · have := hρ.absF.unique b2
        rw [← this]; exact abs_nonneg _
      · rw [← c4]
        refine c3.trans ?_
        calc 1001 / 1000 * |qu - c| ≤ 10 * 10 ^ 151 := by
              have := hqu.trans (locB_le _)
              have h9 := abs_nonneg (qu - c)
              generalize (10 : ℚ) ^ 151 = B at *
              linarith
          _ = 10 ^ 152 := by rw [pow_succ]; ring
          _ ≤ _ := big_ten (by norm_num)
    · rw [show st.trace.length - 1 = 0 by omega] at a2
      have : relDerr (bestBefore (fun x : Vec F64 1 => absF (sub (x 0) z)) st.trace 0) (absF (sub (r.x 0) z)) = ofInt 0 := by
        unfold relDerr bestBefore
        rw [not_lt_scalarMax]; simp
      rw [this, val_zero.lt val_zero] at a2
      simp at a2

/-- **C119.** `TestSimpleLM` of tests/simple.cpp in IEEE `double` arithmetic with Eigen's `LDLT`: from every `double` up to `1e150` away from the minimum `c` (a `double` of magnitude at most `1e6`; 2 in the
test), with the default options, the run ends as converged after at most 41 iterations, all accepted, because of the error or the length of the step, and the result is within `1e-9` of `c`; the test requires `1e-5`. -/
theorem C119_simple (h : LocTest P z) {c : ℚ} (hz : Val z c) (hc : |c| ≤ 10 ^ 6) {t : ℚ} (ht : Val tol t) (ht2 : t < 1 / 2) (b : Bool) {x0 : Vec F64 1} {q0 : ℚ} (hx0 : Val (x0 0) q0)
    (hfar : |q0 - c| ≤ 10 ^ 150) (g : Vec F64 (P.dims.getD 0)) (H : Mat F64 (P.dims.getD 0)) (fuel : Nat) (w : W) :
    ∃ st, optimizeAcc (lmEnv (defaultSolverOpts litD) (eigenLinAlg tol inv) P) (testOptsD b) (fuel + 1) (-1) w (lmFresh (defaultSolverOpts litD) P g H) x0 = .ok st ∧
      st.out.succeeded = true ∧ st.out.converged = true ∧ (st.out.stop = .kMinError ∨ st.out.stop = .kMinDeltaNorm) ∧ st.trace.length ≤ 41 ∧ (∀ r ∈ st.trace, r.succ = true) ∧
      ∃ q, Val (st.x 0) q ∧ |q - c| ≤ 1 / 10 ^ 9 := by
  obtain ⟨st, e, h1, h2, r, d, hlast, h4, h5, hnr, h6⟩ := loc_run (inv := inv) h hz hc ht ht2 b hx0 hfar g H fuel w
  obtain ⟨⟨q, hx, hq⟩, -, d', h7, hT, -⟩ := h2 _ _ hlast
  rw [h4] at h7
  obtain rfl := Option.some.inj h7
  have hq' := hq.trans (locB_le _)
  obtain ⟨y, hy, hyl, -⟩ := loc_next h hc hx hq' hT
  obtain ⟨ρ, hρ, hρ1, hρ2⟩ := loc_cost hz hx (hq'.trans (big_ten (by norm_num)))
  obtain ⟨hsmall, hwhy⟩ := loc_near hx hρ hρ1 hρ2 hT hq' h6 hnr
  refine ⟨st, e, ?_, h6.converged rfl, hwhy.imp And.left id, h1, fun r hr => ?_, y, by rw [h5]; exact hy, by linarith⟩
  · unfold Output.succeeded
    rcases hwhy with ⟨h, -⟩ | h <;> rw [h] <;> decide
  · obtain ⟨i, hi⟩ := List.getElem?_of_mem hr
    exact (h2 i r hi).2.1

theorem Path.head {F R X V M : Type} {l : List (Rec F R X V M)} {x y : X} {r : Rec F R X V M} (h : Path x l y) (hr : l[0]? = some r) : r.x = x := by
  cases l with
  | nil => simp at hr
  | cons a l =>
    simp only [List.getElem?_cons_zero, Option.some.injEq] at hr
    subst hr
    exact h.1

/-- **C119, the criterion.** If `z` is at most 100 and the start is between `2e-7` and `9e4` away from it, the run takes 2, 3 or 4 iterations and ends because of the length of the step
(`kMinDeltaNorm`): the first case of tests/basic.cpp (41-54) for all these starts; it requires 2 to 5 iterations. -/
theorem C119_reason (h : LocTest P z) {c : ℚ} (hz : Val z c) (hc : |c| ≤ 100) {t : ℚ} (ht : Val tol t) (ht2 : t < 1 / 2) (b : Bool) {x0 : Vec F64 1} {q0 : ℚ} (hx0 : Val (x0 0) q0)
    (hlo : 2 / 10 ^ 7 ≤ |q0 - c|) (hhi : |q0 - c| ≤ 9 * 10 ^ 4) (g : Vec F64 (P.dims.getD 0)) (H : Mat F64 (P.dims.getD 0)) (fuel : Nat) (w : W) :
    ∃ st, optimizeAcc (lmEnv (defaultSolverOpts litD) (eigenLinAlg tol inv) P) (testOptsD b) (fuel + 1) (-1) w (lmFresh (defaultSolverOpts litD) P g H) x0 = .ok st ∧
      st.out.stop = .kMinDeltaNorm ∧ 2 ≤ st.trace.length ∧ st.trace.length ≤ 4 := by
  have hc6 : |c| ≤ 10 ^ 6 := hc.trans (by norm_num)
  have e150 : (9 * 10 ^ 4 : ℚ) ≤ 10 ^ 150 := by
    calc (9 * 10 ^ 4 : ℚ) ≤ 10 ^ 5 := by norm_num
      _ ≤ _ := big_ten (by norm_num)
  obtain ⟨st, e, h1, h2, r, d, hlast, h4, h5, hnr, h6⟩ := loc_run (inv := inv) h hz hc6 ht ht2 b hx0 (hhi.trans e150) g H fuel w
  obtain ⟨sv, hsv, hs1, hs2⟩ := lit_step
  have hp := run_path e
  have hpos : 0 < st.trace.length := by
    rcases Nat.eq_zero_or_pos st.trace.length with h0 | h0
    · rw [List.eq_nil_of_length_eq_zero h0] at hlast; simp at hlast
    · exact h0
  -- the distances along the run
  have hrow : ∀ i r, st.trace[i]? = some r → ∃ q, Val (r.x 0) q ∧ |q - c| ≤ (102 / 10 ^ 6) ^ i * (9 * 10 ^ 4) + 113 / 10 ^ 16 ∧ (i = 0 → q = q0) ∧
      (0 < i → i ≤ 3 → 105 / 10 ^ 14 ≤ |q - c|) := by
    intro i
    induction i with
    | zero =>
      intro r hr
      have : r.x = x0 := hp.head hr
      exact ⟨q0, by rw [this]; exact hx0, by rw [pow_zero]; linarith, fun _ => rfl, fun h => absurd h (by omega)⟩
    | succ i ih =>
      intro r hr
      have hi : i + 1 < st.trace.length := by
        by_contra hn
        rw [List.getElem?_eq_none (by omega)] at hr; cases hr
      have hu := List.getElem?_eq_getElem (l := st.trace) (i := i) (by omega)
      obtain ⟨q, hx, hq, -, -⟩ := ih _ hu
      obtain ⟨⟨qu, hxu, hqu⟩, -, du, k1, k2, k3, k4⟩ := h2 _ _ hu
      obtain rfl := hx.unique hxu
      have hq' := hqu.trans (locB_le _)
      obtain ⟨y, hy, -, hyl, hyl2⟩ := loc_next h hc6 hx hq' k2
      have k5 : r.x = P.plusEq st.trace[i].x du := by rw [hp.next hu hr, k3]
      obtain ⟨-, -, -, -, -, -, hbig⟩ := loc_lower h hz hc6 hx hq' k2 (k4 hi)
      refine ⟨y, by rw [k5]; exact hy, ?_, fun h => absurd h (by omega), fun _ hi3 => ?_⟩
      · have := hyl hc
        have h9 : (102 / 10 ^ 6 : ℚ) * ((102 / 10 ^ 6) ^ i * (9 * 10 ^ 4)) = (102 / 10 ^ 6) ^ (i + 1) * (9 * 10 ^ 4) := by rw [pow_succ]; ring
        linarith
      · have := hyl2 hc
        have hmu : 110 / 10 ^ 7 ≤ locMu i := by
          unfold locMu
          have : (332 / 1000 : ℚ) ^ 2 ≤ (332 / 1000) ^ i := pow_le_pow_of_le_one (by norm_num) (by norm_num) (by omega)
          norm_num at this ⊢
          linarith
        have h8 : 9989 / 10000 * (110 / 10 ^ 7) * |q - c| ≤ 9989 / 10000 * locMu i * |q - c| := mul_le_mul_of_nonneg_right (by linarith) (abs_nonneg _)
        linarith
  have hlen : st.trace.length ≤ 4 := by
    by_contra hn
    have hu := List.getElem?_eq_getElem (l := st.trace) (i := 3) (by omega)
    obtain ⟨q, hx, hq, -⟩ := hrow _ _ hu
    obtain ⟨⟨qu, hxu, hqu⟩, -, du, k1, k2, k3, k4⟩ := h2 _ _ hu
    obtain rfl := hx.unique hxu
    obtain ⟨-, -, -, -, -, -, hbig⟩ := loc_lower h hz hc6 hx (hqu.trans (locB_le _)) k2 (k4 (by omega))
    norm_num at hq
    linarith
  obtain ⟨⟨q, hx, hq⟩, -, d', h7, hT, -⟩ := h2 _ _ hlast
  rw [h4] at h7
  obtain rfl := Option.some.inj h7
  obtain ⟨q', hx', -, hz0, hlow⟩ := hrow _ _ hlast
  obtain rfl := hx.unique hx'
  have hq' := hq.trans (locB_le _)
  obtain ⟨ρ, hρ, hρ1, hρ2⟩ := loc_cost hz hx (hq'.trans (big_ten (by norm_num)))
  obtain ⟨hsmall, hwhy⟩ := loc_near hx hρ hρ1 hρ2 hT hq' h6 hnr
  have hlen2 : 2 ≤ st.trace.length := by
    by_contra hn
    have := hz0 (by omega)
    rw [this] at hsmall
    linarith
  refine ⟨st, e, ?_, hlen2, hlen⟩
  rcases hwhy with ⟨-, h⟩ | h
  · have := hlow (by omega) (by omega)
    linarith
  · exact h

/-- a square beyond the largest `double` -/
theorem sq_over {v : F64} {δ : ℚ} (hv : Val v δ) (h : 2 * 10 ^ 154 ≤ |δ|) : finite (sqNorm (n := 1) fun _ => v) = false := by
  obtain ⟨hg, rfl⟩ := hv
  have e0 : Fmt.binary64.max < rndBin 53 (-1074) (4 * 10 ^ 308) := by decide +kernel
  have h1 : (4 * 10 ^ 308 : ℚ) ≤ δ * δ := by
    rw [← abs_mul_abs_self]
    calc (4 * 10 ^ 308 : ℚ) = (2 * 10 ^ 154) * (2 * 10 ^ 154) := by
          rw [mul_mul_mul_comm, ← pow_add]; norm_num
      _ ≤ _ := mul_le_mul h h (mul_nonneg (by norm_num) (pow_nonneg (by norm_num) _)) (abs_nonneg _)
  have h2 := lt_of_lt_of_le e0 (rndBin64_mono h1)
  have h3 : (mul (.fin δ hg) (.fin δ hg) : F64) = .pinf := by
    show Fl.mk (δ * δ) = _
    unfold Fl.mk Fl.ofGrid
    have hr : Fmt.binary64.rnd (δ * δ) = rndBin 53 (-1074) (δ * δ) := rfl
    have hm : (0 : ℚ) < Fmt.binary64.max := lt_of_lt_of_le (pow_pos (by norm_num) _) dbl_max
    simp only [hr]
    rw [dif_neg (by rw [abs_of_pos (hm.trans h2)]; exact not_le.2 h2), if_pos (hm.trans h2)]
  unfold sqNorm
  simp only [sumF, h3]
  rw [Fl.ofInt_zero]
  rfl

/-- **C119, beyond.** From a `double` more than `3e154` (and at most `1e306`) away from the minimum the squared length of the step overflows: the run stops at once with `kSystemHasNaNOrInf` and
does not move, although cost, gradient and step are finite. -/
theorem C119_far (h : LocTest P z) {c : ℚ} (hz : Val z c) {t : ℚ} (ht : Val tol t) (ht2 : t < 1 / 2) (b : Bool) {x0 : Vec F64 1} {q0 : ℚ} (hx0 : Val (x0 0) q0)
    (hfar : 3 * 10 ^ 154 ≤ |q0 - c|) (hmax : |q0 - c| ≤ 10 ^ 306) (g : Vec F64 (P.dims.getD 0)) (H : Mat F64 (P.dims.getD 0)) (fuel : Nat) (w : W) :
    ∃ st, optimizeAcc (lmEnv (defaultSolverOpts litD) (eigenLinAlg tol inv) P) (testOptsD b) (fuel + 1) (-1) w (lmFresh (defaultSolverOpts litD) P g H) x0 = .ok st ∧
      st.out.stop = .kSystemHasNaNOrInf ∧ st.x = x0 ∧ st.out.numIters = 1 := by
  obtain ⟨dv, hdv, hd1, hd2⟩ := lit_damp
  obtain ⟨s2, v, δ, w1, hr, hb, hsol, hv, hst, -, hcost, hcf, hg, hok⟩ := loc_system (i := 0) (inv := inv) h hz ht ht2 w (lmFresh (defaultSolverOpts litD) P g H)
    ⟨by show P.dims.getD 0 = 1; rw [h.dims]; rfl, rfl, rfl, dv, hdv, by linarith, hd2, by unfold locMu; linarith⟩ x0 hx0 hmax
  have hδ : 2 * 10 ^ 154 ≤ |δ| := by
    have h2 := abs_sub (q0 + δ - c) δ
    rw [show q0 + δ - c - δ = q0 - c by ring] at h2
    have h3 : (1 : ℚ) / 10 ^ 300 ≤ 1 := by rw [div_le_one (pow_pos (by norm_num) _)]; exact one_le_pow₀ (by norm_num)
    have h4 : (10 : ℚ) ≤ 10 ^ 154 := by have := big_ten (a := 1) (b := 154) (by norm_num); simpa using this
    generalize (1 : ℚ) / 10 ^ 300 = T at *
    generalize (10 : ℚ) ^ 154 = B at *
    linarith
  obtain ⟨st, e, hst⟩ := C10_bad_step (o := testOptsD b) (fuel := fuel) (mi := -1) (by unfold budget testOptsD defaultOptions; cases b <;> norm_num [intMax]) (testOptsD_unwatched b).1 hr hb hsol hcf (sq_over hv hδ)
  exact ⟨st, e, hst.stop, hst.x, hst.iters⟩

/-- the function of tests/simple.cpp:21-29 with the minimum at `z` -/
def simpleTest (z : F64) : Problem F64 F64 Nat (Vec F64 1) where
  dims := some 1
  dynDims := fun _ => 1
  plusEq := fun x d i => if h : i.1 < d.n then add (x i) (d.v ⟨i.1, h⟩) else x i
  clock := fun w => (ofInt 0, w)
  alloc := fun w n => (some (fun _ => ofInt 0, fun _ _ => ofInt 0), w)
  ratio1 := ofInt 1
  acc :=
    { full := fun w x _ _ _ => (({ cost := absF (sub (x 0) z), num := 1, inlier := ofInt 1 }, fun _ => sub (x 0) z, fun _ _ => ofInt 1), w)
      eval := fun w x => ({ cost := absF (sub (x 0) z), num := 1, inlier := ofInt 1 }, w) }

theorem simpleTest_loc (z : F64) : LocTest (simpleTest z) z where
  dims := rfl
  dyn := fun _ => rfl
  plus := fun x v => by
    funext i
    show (if h : i.1 < 1 then add (x i) (v ⟨i.1, h⟩) else x i) = _
    rw [dif_pos i.2]
  full := fun w x g H => ⟨_, w, rfl, rfl, rfl⟩

theorem val_two : Val (ofInt 2) 2 := by
  refine val_grid (q := 2) ⟨1, 1, by norm_num, by norm_num, by norm_num⟩ ?_
  rw [abs_of_pos (by norm_num)]
  calc (2 : ℚ) ≤ 10 ^ 1 := by norm_num
    _ ≤ _ := big_ten (by norm_num)

/-- the smallest normal `double`, the tolerance of `LDLT::solve` -/
theorem val_tol : ∃ t, Val (Fl.mk (1 / 2 ^ 1022)) t ∧ t < 1 / 2 :=
  ⟨_, val_of_le (by
    rw [abs_of_pos (div_pos one_pos (pow_pos (by norm_num) _))]
    exact le_trans ((div_le_one (pow_pos (by norm_num) _)).2 (one_le_pow₀ (by norm_num))) (one_le_pow₀ (by norm_num))), by decide +kernel⟩

/-- `TestSimpleLM`: `x = 1.4` and `z = 2`; the result is within `1e-5` of 2 -/
example (inv : (n : Nat) → Mat F64 n → Mat F64 n) (fuel : Nat) :
    ∃ st, optimizeAcc (lmEnv (defaultSolverOpts litD) (eigenLinAlg (Fl.mk (1 / 2 ^ 1022)) inv) (simpleTest (ofInt 2))) (testOptsD false) (fuel + 1) (-1) 0
        (lmFresh (defaultSolverOpts litD) (simpleTest (ofInt 2)) (fun _ => ofInt 0) fun _ _ => ofInt 0) (fun _ => Fl.mk (14 / 10)) = .ok st ∧
      st.out.succeeded = true ∧ st.out.converged = true ∧ ∃ q, Val (st.x 0) q ∧ |q - 2| ≤ 1 / 10 ^ 5 := by
  obtain ⟨t, ht, ht2⟩ := val_tol
  have h14 : |(14 / 10 : ℚ)| ≤ 10 ^ 308 := by
    rw [abs_of_pos (by norm_num)]
    exact le_trans (by norm_num : (14 / 10 : ℚ) ≤ 10 ^ 1) (big_ten (by norm_num))
  have hb : |rndBin 53 (-1074) (14 / 10) - 2| ≤ 1 := by decide +kernel
  obtain ⟨st, e, h1, h2, -, -, -, q, h3, h4⟩ := C119_simple (inv := inv) (simpleTest_loc (ofInt 2)) val_two (by norm_num) ht ht2 false (x0 := fun _ => Fl.mk (14 / 10)) (val_of_le h14)
    (hb.trans (one_le_pow₀ (by norm_num))) (fun _ => ofInt 0) (fun _ _ => ofInt 0) fuel 0
  exact ⟨st, e, h1, h2, q, h3, h4.trans (by norm_num)⟩

/-- the first case of tests/basic.cpp: from `x = 1`, 2 to 4 iterations and `kMinDeltaNorm` -/
example (inv : (n : Nat) → Mat F64 n → Mat F64 n) (fuel : Nat) :
    ∃ st, optimizeAcc (lmEnv (defaultSolverOpts litD) (eigenLinAlg (Fl.mk (1 / 2 ^ 1022)) inv) (simpleTest (ofInt 2))) (testOptsD false) (fuel + 1) (-1) 0
        (lmFresh (defaultSolverOpts litD) (simpleTest (ofInt 2)) (fun _ => ofInt 0) fun _ _ => ofInt 0) (fun _ => ofInt 1) = .ok st ∧
      st.out.stop = .kMinDeltaNorm ∧ 2 ≤ st.trace.length ∧ st.trace.length ≤ 4 := by
  obtain ⟨t, ht, ht2⟩ := val_tol
  exact C119_reason (inv := inv) (simpleTest_loc (ofInt 2)) val_two (by norm_num) ht ht2 false (x0 := fun _ => ofInt 1) val_one (by norm_num) (by norm_num) (fun _ => ofInt 0) (fun _ _ => ofInt 0) fuel 0

/-- from `1e200` the same test stops at once with `kSystemHasNaNOrInf` -/
example (inv : (n : Nat) → Mat F64 n → Mat F64 n) (fuel : Nat) :
    ∃ st, optimizeAcc (lmEnv (defaultSolverOpts litD) (eigenLinAlg (Fl.mk (1 / 2 ^ 1022)) inv) (simpleTest (ofInt 2))) (testOptsD false) (fuel + 1) (-1) 0
        (lmFresh (defaultSolverOpts litD) (simpleTest (ofInt 2)) (fun _ => ofInt 0) fun _ _ => ofInt 0) (fun _ => Fl.mk (10 ^ 200)) = .ok st ∧
      st.out.stop = .kSystemHasNaNOrInf ∧ st.x = fun _ => Fl.mk (10 ^ 200) := by
  obtain ⟨t, ht, ht2⟩ := val_tol
  have h200 : |(10 ^ 200 : ℚ)| ≤ 10 ^ 308 := by
    rw [abs_of_pos (pow_pos (by norm_num) _)]
    exact big_ten (by norm_num)
  have hb : 3 * 10 ^ 154 ≤ |rndBin 53 (-1074) (10 ^ 200) - 2| ∧ |rndBin 53 (-1074) (10 ^ 200) - 2| ≤ 10 ^ 306 := by decide +kernel
  obtain ⟨st, e, h1, h2, -⟩ := C119_far (inv := inv) (simpleTest_loc (ofInt 2)) val_two ht ht2 false (x0 := fun _ => Fl.mk (10 ^ 200)) (val_of_le h200)
    hb.1 hb.2 (fun _ => ofInt 0) (fun _ _ => ofInt 0) fuel 0
  exact ⟨st, e, h1, h2⟩

end
end Verif
