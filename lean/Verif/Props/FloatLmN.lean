import Verif.Props.FloatGnN
import Verif.Lemmas.NumDiffFl
/-!
# C131: Levenberg-Marquardt on the residuals `x - z` in `double` arithmetic, in up to a thousand dimensions
-/

set_option linter.unusedSectionVars false

namespace Verif
open FloatOps

section
variable {R W : Type} {n : ℕ} {P : Problem F64 R W (Vec F64 n)} {z : Vec F64 n} {C : Vec F64 n → F64} {tol : F64} {inv : (n : Nat) → Mat F64 n → Mat F64 n}

/-- what the cost must satisfy: it is a number from 0 to `1e300`, it falls to a tenth when the sum of the squared residuals falls to `1/400`, it is small only if that sum is -/
structure CostS (C : Vec F64 n → F64) : Prop where
  val : ∀ r ρ, Vals r ρ → ∃ y, Val (C r) y ∧ 0 ≤ y ∧ y ≤ 10 ^ 300
  drop : ∀ r ρ r' ρ' y y', Vals r ρ → Vals r' ρ' → Val (C r) y → Val (C r') y' → ∑ i, ρ' i ^ 2 ≤ 1 / 400 * ∑ i, ρ i ^ 2 → 1 / 10 ^ 15 ≤ ∑ i, ρ i ^ 2 → 0 < y ∧ y' ≤ y / 10
  small : ∀ r ρ y, Vals r ρ → Val (C r) y → y ≤ 2 / 10 ^ 12 → ∑ i, ρ i ^ 2 ≤ 1 / 10 ^ 11

/-- what a state of the solver must satisfy -/
def FlmOk (n : ℕ) (s : LMState F64 R) : Prop :=
  s.gn.n = n ∧ s.rebuild = true ∧ s.badF = litD 2 ∧ ∃ l, Val s.lambda l ∧ 9 / 10 ^ 10 ≤ l ∧ l ≤ 1001 / 10 ^ 7

/-- the step at `x`: finite numbers, with what they leave of the distances to `c` -/
def FlmStep (c : Fin n → ℚ) (x : Vec F64 n) (d : DVec F64) : Prop :=
  ∃ (q δ : Fin n → ℚ) (v : Vec F64 n), (∀ i, Val (x i) (q i)) ∧ d = ⟨n, v⟩ ∧ ∀ i, Val (v i) (δ i) ∧ |q i + δ i - c i| ≤ 101 / 10 ^ 6 * |q i - c i| + 1 / 10 ^ 300

/-- the length of a step, one coefficient -/
theorem flm_step_abs {q δ c : ℚ} (h : |q + δ - c| ≤ 101 / 10 ^ 6 * |q - c| + 1 / 10 ^ 300) :
    |δ| ≤ 1000101 / 10 ^ 6 * |q - c| + 1 / 10 ^ 300 ∧ 999 / 1000 * |q - c| ≤ |δ| + 1 / 10 ^ 300 := by
  have h2 := abs_sub (q + δ - c) (q - c)
  rw [show q + δ - c - (q - c) = δ by ring] at h2
  have h3 := abs_sub (q + δ - c) δ
  rw [show q + δ - c - δ = q - c by ring] at h3
  have h0 := abs_nonneg (q - c)
  generalize (1 : ℚ) / 10 ^ 300 = T at *
  constructor <;> linarith

theorem flm_step_le {q δ c : ℚ} (h : |q + δ - c| ≤ 101 / 10 ^ 6 * |q - c| + 1 / 10 ^ 300) (hq : |q - c| ≤ 10 ^ 140) : |δ| ≤ 10 ^ 141 := by
  have h2 := (flm_step_abs h).1
  have h3 : (1 : ℚ) / 10 ^ 300 ≤ 1 := by rw [div_le_one (pow_pos (by norm_num) _)]; exact one_le_pow₀ (by norm_num)
  have h4 : (1 : ℚ) ≤ 10 ^ 140 := one_le_pow₀ (by norm_num)
  rw [pow_succ _ 140]
  generalize (10 : ℚ) ^ 140 = B at hq h4 ⊢
  generalize (1 : ℚ) / 10 ^ 300 = T at *
  linarith

/-- the damping after an accepted step -/
theorem flm_good {s2 s3 : LMState F64 R} (h : FlmOk n s2) (hg : lmGood (defaultSolverOpts litD) s2 (ofInt 0) = .ok s3) : FlmOk n { s3 with rebuild := true } := by
  obtain ⟨hn, hreb, hbf, l, hl, hl1, hl2⟩ := h
  obtain ⟨lv, hlv, hlv1, hlv2⟩ := lit_lo
  obtain ⟨hv', hhv, hhv1, hhv2⟩ := lit_hi
  obtain ⟨gv, hgv, hgv1, hgv2⟩ := lit_good
  unfold lmGood at hg
  have hsc : goodScale (defaultSolverOpts litD) (ofInt 0) (litD 2) = litD (1 / 3) := by
    unfold goodScale
    have e1 : ne (ofInt 0 : F64) (ofInt 0) = false := by
      unfold ne; rw [FloatLaws.eq_spec _ _ val_zero.finite val_zero.finite]; simp [FloatLaws.lt_irrefl]
    have e2 : ne (litD 2) (defaultSolverOpts litD).badFactor = false := by decide +kernel
    rw [e1, e2]
    simp [defaultSolverOpts]
  rw [hbf, hsc] at hg
  have hm := hl.mul hgv (by
    rw [abs_of_nonneg (by nlinarith)]
    exact le_trans (by nlinarith) (one_le_pow₀ (by norm_num) : (1 : ℚ) ≤ 10 ^ 308))
  have hmv : rndBin 53 (-1074) (l * gv) ≤ 1001 / 10 ^ 7 := by
    have h1 : rndBin 53 (-1074) (l * gv) ≤ rndBin 53 (-1074) l := rndBin64_mono (by nlinarith)
    rw [rndBin_id hl.grid] at h1
    linarith
  have hcl2 : stdClamp (mul s2.lambda (litD (1 / 3))) (defaultSolverOpts litD).dampLo (defaultSolverOpts litD).dampHi =
      .ok (if rndBin 53 (-1074) (l * gv) < lv then litD (1 / 10 ^ 9) else mul s2.lambda (litD (1 / 3))) := by
    show stdClamp (mul s2.lambda (litD (1 / 3))) (litD (1 / 10 ^ 9)) (litD (10 ^ 9)) = _
    unfold stdClamp
    rw [hhv.lt hlv, hm.lt hlv, hhv.lt hm]
    simp only [decide_eq_true_eq]
    rw [if_neg (by linarith), if_neg (show ¬ hv' < rndBin 53 (-1074) (l * gv) by linarith)]
  simp only [hcl2] at hg
  injection hg with hg
  subst hg
  refine ⟨hn, rfl, rfl, ?_⟩
  show ∃ l', Val (if rndBin 53 (-1074) (l * gv) < lv then litD (1 / 10 ^ 9) else mul s2.lambda (litD (1 / 3))) l' ∧ _
  split
  next => exact ⟨lv, hlv, by linarith, by linarith⟩
  next h' => exact ⟨_, hm, by linarith, hmv⟩

/-- building and solving the system at `x` -/
theorem flm_delivers (h : LocTestN P z C) (hC : CostS C) (hn : n ≤ 10 ^ 9) {c : Fin n → ℚ} (hz : ∀ i, Val (z i) (c i)) {t : ℚ} (ht : Val tol t) (ht2 : t < 1 / 2) (w : W) (s : LMState F64 R) (hs : FlmOk n s) (x : Vec F64 n)
    {q : Fin n → ℚ} (hx : ∀ i, Val (x i) (q i)) (hq : ∀ i, |q i - c i| ≤ 10 ^ 140) :
    ∃ s2 dx, Delivers (lmEnv (defaultSolverOpts litD) (eigenLinAlg tol inv) P) w s x s2 dx ∧ s2.gn.cost.cost = C (resN z x) ∧
      sqNorm s2.gn.g = sqNorm (resN z x) ∧ FlmStep c x dx ∧ FlmOk n s2 := by
  choose ρ hρ hρb hρe hρx using fun i => resN_val (hz i) (hx i) (hq i)
  have hvals : Vals (resN z x) ρ := fun i => ⟨hρ i, hρb i⟩
  obtain ⟨hnn, hreb, hbf, l, hl, hl1, hl2⟩ := hs
  obtain ⟨κ, hκ, hκe⟩ := val_one.add hl (by
    rw [abs_of_nonneg (by linarith)]
    exact le_trans (by linarith : 1 + l ≤ 10) (by have := big_ten (a := 1) (b := 308) (by norm_num); simpa using this))
  have hκ1 : 1 / 2 ≤ κ := by
    have hκe := hκe
    rw [abs_of_nonneg (by linarith : (0 : ℚ) ≤ 1 + l)] at hκe
    have := (abs_le.1 hκe).1
    have h2 : (1 + l) / 2 ^ 53 ≤ 1 / 10000 := by rw [div_le_iff₀ (by positivity)]; norm_num; linarith
    linarith
  have hquo : ∀ i, |-ρ i / κ| ≤ 10 ^ 308 := fun i => by
    rw [abs_div, abs_neg, abs_of_pos (by linarith : 0 < κ), div_le_iff₀ (by linarith)]
    have h1 := hρb i
    have h2 : (10 : ℚ) ^ 308 = 10 ^ 167 * 10 ^ 141 := by rw [← pow_add]
    have h3 : (10 : ℚ) ^ 1 ≤ 10 ^ 167 := big_ten (by norm_num)
    have h4 : (0 : ℚ) < 10 ^ 141 := pow_pos (by norm_num) _
    rw [h2]
    clear h2
    generalize (10 : ℚ) ^ 141 = B at *
    generalize (10 : ℚ) ^ 167 = D at *
    have : 10 * B ≤ D * B := mul_le_mul_of_nonneg_right (by linarith) h4.le
    nlinarith
  have hdiv : ∀ i, Val (div (neg (resN z x i)) (add (ofInt 1) s.lambda)) (rndBin 53 (-1074) (-ρ i / κ)) := fun i => (hρ i).neg.div hκ (by linarith) (hquo i)
  have hst : ∀ i, |q i + rndBin 53 (-1074) (-ρ i / κ) - c i| ≤ 101 / 10 ^ 6 * |q i - c i| + 1 / 10 ^ 300 := fun i => by
    rw [show q i + rndBin 53 (-1074) (-ρ i / κ) - c i = q i - c i + rndBin 53 (-1074) (-ρ i / κ) by ring]
    exact (step_arith (e := q i - c i) (by linarith) hl2 (hρe i) hκe (dbl_err (-ρ i / κ))).1
  obtain ⟨c0, w1, hf, hc1, hc2⟩ := h.full w x (fun _ => ofInt 0) (fun _ _ => ofInt 0) fun i => (hρ i).finite
  obtain ⟨y, hy, hy0, hyb⟩ := hC.val _ _ hvals
  obtain ⟨⟨n0, g0, H0, c00⟩, lam, prev, badF, reb⟩ := s
  obtain rfl : n0 = n := hnn
  obtain rfl : reb = true := hreb
  obtain rfl : badF = litD 2 := hbf
  have hl : Val lam l := hl
  have hlam : lt (ofInt 0) lam = true := by rw [val_zero.lt hl]; simp; linarith
  have hcv : c0.isValid = true := by
    unfold Cost.isValid
    rw [hc1]
    have : FloatOps.eq (C (resN z x)) maxVal = false := by
      rw [FloatLaws.eq_spec _ _ hy.finite FloatLaws.max_finite]
      have hm : Val maxVal Fmt.binary64.max := ⟨_, rfl⟩
      rw [hy.lt hm]
      have : y < Fmt.binary64.max := by
        refine lt_of_le_of_lt hyb (lt_of_lt_of_le ?_ dbl_max)
        exact pow_lt_pow_right₀ (by norm_num) (by norm_num)
      simp [this]
    simp [ne, this, hc2]
  have hnc : normalizeCost (defaultSolverOpts litD) c0 = c0 := by
    unfold normalizeCost; simp [defaultSolverOpts]
  have hb : buildSystem (defaultSolverOpts litD) P w ⟨n0, g0, H0, c00⟩ x = (true, ⟨n0, resN z x, fun i j => if i = j then ofInt 1 else ofInt 0, c0⟩, w1) := by
    unfold buildSystem gnAccumulate
    simp only [hf, hnc, hcv, if_true]
    have e1 : (defaultSolverOpts litD).gradClip = ofInt 0 := lit_zero
    have e2 : (defaultSolverOpts litD).checkMinHDiag = ofInt 0 := lit_zero
    have e3 : FloatOps.eq (ofInt 0 : F64) (ofInt 0) = true := by
      rw [FloatLaws.eq_spec _ _ val_zero.finite val_zero.finite]; simp [FloatLaws.lt_irrefl]
    rw [e1, e2]
    simp only [clampVec, e3, if_true, FloatLaws.lt_irrefl, Bool.false_and, Bool.false_eq_true, if_false]
    rfl
  have hdiag : DiagD (fun i j : Fin n0 => if i = j then add (ofInt 1) lam else ofInt 0) fun _ => κ :=
    ⟨fun i => by simp only [if_true]; exact hκ, fun _ => hκ1, fun i j hij => if_neg hij⟩
  obtain ⟨lv, hlv, hlv1, hlv2⟩ := lit_lo
  obtain ⟨hv', hhv, hhv1, hhv2⟩ := lit_hi
  have hcl : ∀ v, ∃ l, stdClamp v (litD (1 / 10 ^ 9)) (litD (10 ^ 9)) = .ok l := fun v => by
    unfold stdClamp
    rw [hhv.lt hlv]
    simp only [decide_eq_true_eq]
    rw [if_neg (by linarith)]
    exact ⟨_, rfl⟩
  refine ⟨⟨⟨n0, resN z x, fun i j => if i = j then add (ofInt 1) lam else ofInt 0, c0⟩, lam, prev, litD 2, true⟩, ⟨n0, fun i => div (neg (resN z x i)) (add (ofInt 1) lam)⟩,
    ⟨⟨⟨⟨n0, g0, H0, c00⟩, lam, prev, litD 2, true⟩, w, w1, ?_, ?_⟩, ?_, ?_, ?_, ?_, ?_⟩,
    hc1, rfl, ⟨q, _, _, hx, rfl, fun i => ⟨hdiv i, hst i⟩⟩, rfl, rfl, rfl, l, hl, hl1, hl2⟩
  · have hr : Ready (lmEnv (defaultSolverOpts litD) (eigenLinAlg tol inv) P) w ⟨⟨n0, g0, H0, c00⟩, lam, prev, litD 2, true⟩ x w ⟨⟨n0, g0, H0, c00⟩, lam, prev, litD 2, true⟩ := by
      have hd : (lmEnv (defaultSolverOpts litD) (eigenLinAlg tol inv) P).dynDims x = n0 := h.dyn x
      have := h.pos
      refine ⟨by rw [hd]; omega, ?_⟩
      rw [hd]
      have : gnResize P w ⟨n0, g0, H0, c00⟩ n0 = (.done ⟨n0, g0, H0, c00⟩, w) := by
        unfold gnResize; rw [h.dims]; simp
      simp only [lmEnv, envOf, lmSolver, this]
    exact hr.resize
  · simp only [lmEnv, envOf, lmSolver, lmBuild, if_true, hb]
    unfold lmDamp
    simp only [hlam, if_true]
    congr 4
    funext i j
    unfold scaleDiag
    beta_reduce
    by_cases hij : i = j
    · rw [if_pos hij, if_pos hij, if_pos hij, hκ.one_mul]
    · rw [if_neg hij, if_neg hij, if_neg hij]
  · show gnSolve _ _ _ _ = _
    unfold gnSolve
    simp only [hcv, if_true]
    have e1 : (defaultSolverOpts litD).useLdlt = true := rfl
    rw [e1]
    simp only [if_true]
    unfold solveLDLT
    have := ldlt_diag (tol := tol) hdiag.sym (b := negVec (resN z x)) (β := fun i => -ρ i) ht ht2 (fun i => (hρ i).neg) hquo
    show Option.map _ (eigenLdlt tol n0 _ _) = _
    rw [this]
    simp [symUpper, negVec]
  · show finite c0.cost = true
    rw [hc1]; exact hy.finite
  · obtain ⟨sv, hs, -, -⟩ := sqNorm_val hn hdiv (fun i => flm_step_le (hst i) (hq i))
    exact hs.finite
  · intro qq
    show ∃ s', lmGood _ _ qq = .ok s'
    unfold lmGood
    obtain ⟨l', e'⟩ := hcl (mul lam (goodScale (defaultSolverOpts litD) qq (litD 2)))
    have e'' : stdClamp (mul lam (goodScale (defaultSolverOpts litD) qq (litD 2))) (defaultSolverOpts litD).dampLo (defaultSolverOpts litD).dampHi = .ok l' := e'
    simp only [e'']
    exact ⟨_, rfl⟩
  · show ∃ s', lmBad _ _ = .ok s'
    unfold lmBad
    obtain ⟨l', e'⟩ := hcl (mul lam (litD 2))
    have e'' : stdClamp (mul lam (litD 2)) (defaultSolverOpts litD).dampLo (defaultSolverOpts litD).dampHi = .ok l' := e'
    simp only [e'']
    exact ⟨_, rfl⟩

/-- the next point, one coefficient -/
theorem flm_coeff {c q δ : ℚ} {x v : F64} (hc : |c| ≤ 10 ^ 6) (hx : Val x q) (hq : |q - c| ≤ 10 ^ 140) (hv : Val v δ) (hl : |q + δ - c| ≤ 101 / 10 ^ 6 * |q - c| + 1 / 10 ^ 300) :
    ∃ y, Val (add x v) y ∧ |y - c| ≤ 102 / 10 ^ 6 * |q - c| + 112 / 10 ^ 12 := by
  have hu : (1 : ℚ) / 2 ^ 53 ≤ 111023 / 10 ^ 21 := by norm_num
  have ht : (1 : ℚ) / 10 ^ 300 ≤ 1 / 10 ^ 100 := one_div_le_one_div_of_le (by positivity) (big_ten (by norm_num))
  have h0 := abs_nonneg (q - c)
  have h1 : |q + δ| ≤ |q + δ - c| + |c| := by
    have := abs_add_le (q + δ - c) c
    rwa [sub_add_cancel] at this
  have h2 : |q + δ| ≤ 10 ^ 308 := by
    have a1 : (10 : ℚ) ^ 141 = 10 * 10 ^ 140 := by rw [pow_succ]; ring
    have a2 : (10 : ℚ) ^ 141 ≤ 10 ^ 308 := big_ten (by norm_num)
    have a3 : (10 : ℚ) ^ 6 ≤ 10 ^ 140 := big_ten (by norm_num)
    have a4 : (1 : ℚ) / 10 ^ 100 ≤ 10 ^ 140 := by norm_num
    refine le_trans ?_ a2
    rw [a1]
    linarith
  obtain ⟨y, hy, he⟩ := hx.add hv h2
  have h3 : |q + δ| / 2 ^ 53 ≤ 111023 / 10 ^ 21 * (|q + δ - c| + |c|) := by
    rw [div_eq_mul_one_div, mul_comm]
    exact mul_le_mul hu h1 (abs_nonneg _) (by norm_num)
  have h4 := abs_add_le (y - (q + δ)) (q + δ - c)
  rw [show y - (q + δ) + (q + δ - c) = y - c by ring] at h4
  have h6 : (1 : ℚ) / 10 ^ 100 ≤ 1 / 10 ^ 20 := by norm_num
  exact ⟨y, hy, by linarith⟩

/-- all coefficients of the next point -/
theorem flm_next (h : LocTestN P z C) {c : Fin n → ℚ} (hc : ∀ i, |c i| ≤ 10 ^ 6) {x : Vec F64 n} {q : Fin n → ℚ} (hx : ∀ i, Val (x i) (q i)) (hq : ∀ i, |q i - c i| ≤ 10 ^ 140) {d : DVec F64}
    (hd : FlmStep c x d) : ∃ y : Fin n → ℚ, ∀ i, Val (P.plusEq x d i) (y i) ∧ |y i - c i| ≤ 102 / 10 ^ 6 * |q i - c i| + 112 / 10 ^ 12 := by
  obtain ⟨q', δ, v, hx', rfl, hv⟩ := hd
  obtain rfl : q = q' := funext fun i => (hx i).unique (hx' i)
  rw [h.plus]
  choose y h1 h2 using fun i => flm_coeff (hc i) (hx i) (hq i) (hv i).1 (hv i).2
  exact ⟨y, fun i => ⟨h1 i, h2 i⟩⟩

/-- a sum of squares that is bounded coefficient by coefficient up to a small constant -/
theorem flm_sum {a b : Fin n → ℚ} {α β ε : ℚ} (hn : n ≤ 1000) (hε : 0 ≤ ε) (h : ∀ i, a i ^ 2 ≤ α * b i ^ 2 + ε) (hβ : 1000 * ε ≤ β) : ∑ i, a i ^ 2 ≤ α * ∑ i, b i ^ 2 + β := by
  have hn' : (n : ℚ) ≤ 1000 := by exact_mod_cast hn
  have h1 : ∑ i, a i ^ 2 ≤ ∑ i, (α * b i ^ 2 + ε) := Finset.sum_le_sum fun i _ => h i
  rw [Finset.sum_add_distrib, ← Finset.mul_sum, Finset.sum_const, Finset.card_univ, Fintype.card_fin, nsmul_eq_mul] at h1
  have h2 : (n : ℚ) * ε ≤ 1000 * ε := mul_le_mul_of_nonneg_right hn' hε
  linarith

/-- the levels of the run -/
def flmB (i : ℕ) : ℚ := (11 / 10 ^ 5) ^ i * 10 ^ 139 + 13 / 10 ^ 11

theorem flmB_le (i : ℕ) : flmB i ≤ 10 ^ 140 := by
  unfold flmB
  have h1 : (11 / 10 ^ 5 : ℚ) ^ i ≤ 1 := pow_le_one₀ (by norm_num) (by norm_num)
  have h2 : (11 / 10 ^ 5 : ℚ) ^ i * 10 ^ 139 ≤ 1 * 10 ^ 139 := mul_le_mul_of_nonneg_right h1 (by positivity)
  have h3 : (10 : ℚ) ^ 140 = 10 * 10 ^ 139 := by rw [pow_succ]; ring
  have h4 : (1 : ℚ) ≤ 10 ^ 139 := one_le_pow₀ (by norm_num)
  rw [h3]
  generalize (10 : ℚ) ^ 139 = B at *
  linarith

theorem flmB_succ (i : ℕ) : 102 / 10 ^ 6 * flmB i + 112 / 10 ^ 12 ≤ flmB (i + 1) := by
  unfold flmB
  rw [pow_succ (11 / 10 ^ 5 : ℚ) i]
  have : (0 : ℚ) ≤ (11 / 10 ^ 5) ^ i * 10 ^ 139 := by positivity
  linarith

theorem flmB_last : flmB 38 ≤ 2 / 10 ^ 10 := by unfold flmB; norm_num

theorem sq_le_of_abs {a b : ℚ} (h : |a| ≤ b) : a ^ 2 ≤ b ^ 2 := by
  rw [← sq_abs]; exact pow_le_pow_left₀ (abs_nonneg _) h 2

theorem tiny300 : (1 : ℚ) / 10 ^ 300 ≤ 1 / 10 ^ 40 := one_div_le_one_div_of_le (by norm_num) (big_ten (by norm_num))

/-- the step is not short: the point is not near the minimum, and the cost falls to a tenth -/
theorem flm_lower (h : LocTestN P z C) (hC : CostS C) (hn : n ≤ 1000) {c : Fin n → ℚ} (hz : ∀ i, Val (z i) (c i)) (hc : ∀ i, |c i| ≤ 10 ^ 6) {x : Vec F64 n} {q : Fin n → ℚ} (hx : ∀ i, Val (x i) (q i))
    (hq : ∀ i, |q i - c i| ≤ 10 ^ 140) {d : DVec F64} (hd : FlmStep c x d) (hns : lt (sqNorm d.v) (litD (1 / 10 ^ 14)) = false) :
    ∃ y y', Val (C (resN z x)) y ∧ Val (C (resN z (P.plusEq x d))) y' ∧ 0 < y ∧ 0 ≤ y' ∧ y ≤ 10 ^ 300 ∧ y' ≤ y / 10 ∧ 97 / 10 ^ 16 ≤ ∑ i, (q i - c i) ^ 2 := by
  have hn9 : n ≤ 10 ^ 9 := hn.trans (by norm_num)
  obtain ⟨y, hy⟩ := flm_next h hc hx hq hd
  obtain ⟨q', δ, v, hx', rfl, hv⟩ := hd
  obtain rfl : q = q' := funext fun i => (hx i).unique (hx' i)
  obtain ⟨sv, hsv, hs1, hs2⟩ := lit_step
  obtain ⟨s, hs, hs0, hse⟩ := sqNorm_val hn9 (fun i => (hv i).1) fun i => flm_step_le (hv i).2 (hq i)
  rw [hs.lt hsv, decide_eq_false_iff_not] at hns
  have h290 := tiny290
  have h300 := tiny300
  have hT0 : (0 : ℚ) ≤ 1 / 10 ^ 300 := by positivity
  have hE : 97 / 10 ^ 16 ≤ ∑ i, (q i - c i) ^ 2 := by
    have hδ : ∑ i, δ i ^ 2 ≤ 1002 / 1000 * ∑ i, (q i - c i) ^ 2 + 1 / 10 ^ 20 := by
      refine flm_sum hn (ε := 1 / 10 ^ 40) (by norm_num) (fun i => ?_) (by norm_num)
      have h1 := sq_le_of_abs (flm_step_abs (hv i).2).1
      rw [← sq_abs (q i - c i)]
      have h0 := abs_nonneg (q i - c i)
      generalize |q i - c i| = e at *
      generalize (1 : ℚ) / 10 ^ 300 = T at *
      have h2 : (1000101 / 10 ^ 6 * e + T) ^ 2 ≤ 1002 / 1000 * e ^ 2 + 2000 * T ^ 2 := by
        nlinarith [sq_nonneg (1 / 1000 * e - 1000101 / 10 ^ 6 * 1000 * T), sq_nonneg e, sq_nonneg T]
      have h3 : T ^ 2 ≤ 1 / 10 ^ 80 := by
        calc T ^ 2 ≤ (1 / 10 ^ 40) ^ 2 := pow_le_pow_left₀ hT0 h300 2
          _ = 1 / 10 ^ 80 := by norm_num
      have h4 : (2000 : ℚ) * (1 / 10 ^ 80) ≤ 1 / 10 ^ 40 := by norm_num
      linarith
    have h1 := (abs_le.1 hse).2
    clear hse
    generalize (1 : ℚ) / 10 ^ 290 = η at *
    norm_num at h290 hs1 hδ ⊢
    linarith
  have hq' : ∀ i, |y i - c i| ≤ 10 ^ 140 := fun i => by
    have h0 := abs_nonneg (q i - c i)
    have h1 : (1 : ℚ) ≤ 10 ^ 140 := one_le_pow₀ (by norm_num)
    have h2 := (hy i).2
    have h3 := hq i
    generalize (10 : ℚ) ^ 140 = B at *
    norm_num at h2
    linarith
  choose ρ hρ hρb hρe hρx using fun i => resN_val (hz i) (hx i) (hq i)
  choose ρ' hρ' hρb' hρe' hρx' using fun i => resN_val (hz i) (hy i).1 (hq' i)
  have hvals : Vals (resN z x) ρ := fun i => ⟨hρ i, hρb i⟩
  have hvals' : Vals (resN z (P.plusEq x ⟨n, v⟩)) ρ' := fun i => ⟨hρ' i, hρb' i⟩
  obtain ⟨u, hu, hu0, hub⟩ := hC.val _ _ hvals
  obtain ⟨u', hu', hu0', hub'⟩ := hC.val _ _ hvals'
  have k1 : ∑ i, (q i - c i) ^ 2 ≤ 1003 / 1000 * ∑ i, ρ i ^ 2 + 0 := flm_sum hn (le_refl 0) (fun i => by
    have h1 := sq_le_of_abs (a := q i - c i) (b := 1000 / 999 * |ρ i|) (by linarith [(near_abs (hρe i)).1])
    rw [mul_pow, sq_abs] at h1
    nlinarith [sq_nonneg (ρ i)]) (by norm_num)
  have k2 : ∑ i, ρ' i ^ 2 ≤ 1003 / 1000 * ∑ i, (y i - c i) ^ 2 + 0 := flm_sum hn (le_refl 0) (fun i => by
    have h1 := sq_le_of_abs (near_abs (hρe' i)).2
    rw [mul_pow, sq_abs] at h1
    nlinarith [sq_nonneg (y i - c i)]) (by norm_num)
  have k3 : ∑ i, (y i - c i) ^ 2 ≤ 12 / 10 ^ 8 * ∑ i, (q i - c i) ^ 2 + 14 / 10 ^ 18 := by
    refine flm_sum hn (ε := 14 / 10 ^ 21) (by norm_num) (fun i => ?_) (by norm_num)
    have h1 := sq_le_of_abs (hy i).2
    rw [← sq_abs (q i - c i)]
    have h0 := abs_nonneg (q i - c i)
    generalize |q i - c i| = e at *
    nlinarith [sq_nonneg (10 * (102 / 10 ^ 6 * e) - 112 / 10 ^ 12), sq_nonneg e]
  obtain ⟨d1, d2⟩ := hC.drop _ _ _ _ _ _ hvals hvals' hu hu' (by norm_num at k1 k2 k3 hE ⊢; linarith) (by norm_num at k1 hE ⊢; linarith)
  exact ⟨u, u', hu, hu', d1, hu0', hub, d2, hE⟩

/-- what the criteria say of a step at `x`: if one holds, and not the one on the relative decrease, then the point is near the minimum -/
theorem flm_near (hC : CostS C) (hn : n ≤ 1000) {c : Fin n → ℚ} (hz : ∀ i, Val (z i) (c i)) {x : Vec F64 n} {q : Fin n → ℚ} (hx : ∀ i, Val (x i) (q i)) (hq : ∀ i, |q i - c i| ≤ 10 ^ 140) {d : DVec F64}
    (hd : FlmStep c x d) (hlow : lt (sqNorm d.v) (litD (1 / 10 ^ 14)) = false → 97 / 10 ^ 16 ≤ ∑ i, (q i - c i) ^ 2) {b : Bool} {best : F64} {r : StopReason}
    (hcv : ConvergedFrom (testOptsD b : Options F64 W (DVec F64)) best (C (resN z x)) (sqNorm d.v) (sqNorm (resN z x)) r) (hr : r ≠ .kMinRelError) :
    (∀ i, |q i - c i| ≤ 45 / 10 ^ 7) ∧ (r = .kMinError ∨ r = .kMinDeltaNorm) := by
  have hn9 : n ≤ 10 ^ 9 := hn.trans (by norm_num)
  obtain ⟨q', δ, v, hx', rfl, hv⟩ := hd
  obtain rfl : q = q' := funext fun i => (hx i).unique (hx' i)
  choose ρ hρ hρb hρe hρx using fun i => resN_val (hz i) (hx i) (hq i)
  have hvals : Vals (resN z x) ρ := fun i => ⟨hρ i, hρb i⟩
  obtain ⟨sv, hsv, hs1, hs2⟩ := lit_step
  obtain ⟨ev, hev, he1, he2⟩ := lit_err
  obtain ⟨u, hu, hu0, hub⟩ := hC.val _ _ hvals
  obtain ⟨s, hs, hs0, hse⟩ := sqNorm_val hn9 (fun i => (hv i).1) fun i => flm_step_le (hv i).2 (hq i)
  have h290 := tiny290
  have h300 := tiny300
  have key : ∀ a : Fin n → ℚ, ∑ i, a i ^ 2 ≤ 1 / 10 ^ 11 → ∀ i, |a i| ≤ 4 / 10 ^ 6 := fun a hS i => by
    have h1 : a i ^ 2 ≤ 1 / 10 ^ 11 := le_trans (Finset.single_le_sum (f := fun i => a i ^ 2) (fun i _ => sq_nonneg _) (Finset.mem_univ i)) hS
    rw [← sq_abs] at h1
    by_contra hne
    have hne := not_le.1 hne
    have : (4 / 10 ^ 6 : ℚ) ^ 2 < |a i| ^ 2 := pow_lt_pow_left₀ hne (by norm_num) (by norm_num)
    norm_num at this h1
    linarith
  have hse' := abs_le.1 hse
  clear hse
  cases hcv with
  | error a1 a2 =>
    have a2 : lt (C (resN z x)) (litD (1 / 10 ^ 12)) = true := a2
    rw [hu.lt hev, decide_eq_true_eq] at a2
    refine ⟨fun i => ?_, Or.inl rfl⟩
    have h1 := key ρ (hC.small _ _ _ hvals hu (by norm_num at he2 ⊢; linarith)) i
    have := (near_abs (hρe i)).1
    norm_num at h1 ⊢
    linarith
  | rel a1 a2 a3 => exact absurd rfl hr
  | step a1 a3 n1 =>
    have a3 : lt (sqNorm v) (litD (1 / 10 ^ 14)) = true := a3
    rw [hs.lt hsv, decide_eq_true_eq] at a3
    refine ⟨fun i => ?_, Or.inr rfl⟩
    have h1 := key δ (by
      generalize (1 : ℚ) / 10 ^ 290 = η at *
      norm_num at h290 hs2 ⊢
      linarith [hse'.1]) i
    have h2 := (flm_step_abs (hv i).2).2
    generalize (1 : ℚ) / 10 ^ 300 = T at *
    norm_num at h1 h300 ⊢
    linarith
  | grad a1 a3 n1 n2 n3 =>
    exfalso
    obtain ⟨gv, hgv, hg1, hg2⟩ := lit_grad
    obtain ⟨s', hs', hs0', hse2⟩ := sqNorm_val hn9 (fun i => (hvals i).1) fun i => (hvals i).2
    have a3 : lt (sqNorm (resN z x)) (litD (1 / 10 ^ 18)) = true := a3
    rw [hs'.lt hgv, decide_eq_true_eq] at a3
    have n3 : (lt (ofInt 0) (litD (1 / 10 ^ 14)) && lt (sqNorm v) (litD (1 / 10 ^ 14))) = false := n3
    have hpos : lt (ofInt 0) (litD (1 / 10 ^ 14)) = true := by rw [val_zero.lt hsv]; simp; linarith
    rw [hpos, Bool.true_and] at n3
    have hE := hlow n3
    have k1 : ∑ i, (q i - c i) ^ 2 ≤ 1003 / 1000 * ∑ i, ρ i ^ 2 + 0 := flm_sum hn (le_refl 0) (fun i => by
      have h1 := sq_le_of_abs (a := q i - c i) (b := 1000 / 999 * |ρ i|) (by linarith [(near_abs (hρe i)).1])
      rw [mul_pow, sq_abs] at h1
      nlinarith [sq_nonneg (ρ i)]) (by norm_num)
    have h1 := (abs_le.1 hse2).1
    clear hse2
    generalize (1 : ℚ) / 10 ^ 290 = η at *
    norm_num at h290 hE hg2 k1
    linarith

/-- **C131.** Levenberg-Marquardt with the default options on the residuals `x - z` of up to a thousand parameters in IEEE `double` arithmetic, with a cost that measures the residuals: for every `z`
of magnitude up to `1e6` and every start that is at most `1e139` away from `z` in each coefficient the run ends as converged, because of the error or the step, after at most 39 iterations, all of
them accepted, and the result is within `1e-9` of `z` in every coefficient. -/
theorem C131_lm (h : LocTestN P z C) (hC : CostS C) (hn : n ≤ 1000) {c : Fin n → ℚ} (hz : ∀ i, Val (z i) (c i)) (hc : ∀ i, |c i| ≤ 10 ^ 6) {t : ℚ} (ht : Val tol t)
    (ht2 : t < 1 / 2) (b : Bool) {x0 : Vec F64 n} {q0 : Fin n → ℚ} (hx0 : ∀ i, Val (x0 i) (q0 i)) (hfar : ∀ i, |q0 i - c i| ≤ 10 ^ 139)
    (g : Vec F64 (P.dims.getD 0)) (H : Mat F64 (P.dims.getD 0)) (fuel : Nat) (w : W) :
    ∃ st, optimizeAcc (lmEnv (defaultSolverOpts litD) (eigenLinAlg tol inv) P) (testOptsD b) (fuel + 1) (-1) w (lmFresh (defaultSolverOpts litD) P g H) x0 = .ok st ∧
      st.out.succeeded = true ∧ st.out.converged = true ∧ (st.out.stop = .kMinError ∨ st.out.stop = .kMinDeltaNorm) ∧ st.trace.length ≤ 39 ∧ (∀ r ∈ st.trace, r.succ = true) ∧
      ∃ y : Fin n → ℚ, ∀ i, Val (st.x i) (y i) ∧ |y i - c i| ≤ 1 / 10 ^ 9 := by
  obtain ⟨M, hM, hM51⟩ : ∃ M, loopBound (testOptsD b : Options F64 W (DVec F64)) (-1) = some M ∧ 51 ≤ M := by
    cases b
    · exact ⟨51, rfl, le_refl _⟩
    · exact ⟨52, rfl, by norm_num⟩
  have hn9 : n ≤ 10 ^ 9 := hn.trans (by norm_num)
  obtain ⟨sv, hsv, hs1, hs2⟩ := lit_step
  obtain ⟨dv, hdv, hd1, hd2⟩ := lit_damp
  have h300 := tiny300
  obtain ⟨st, e, h1, h2, r, d, h3, h4, h5, h6⟩ := contracting_run (E := lmEnv (defaultSolverOpts litD) (eigenLinAlg tol inv) P) (o := testOptsD b)
    (C := fun x => C (resN z x)) (g2 := fun x => sqNorm (resN z x)) (Ok := FlmOk n) (T := FlmStep c) (N := 38) (x0 := x0)
    (Lvl := fun i x => ∃ q : Fin n → ℚ, ∀ j, Val (x j) (q j) ∧ |q j - c j| ≤ flmB i) (testOptsD_unwatched b)
    (by show lt (ofInt 0) (litD (1 / 10 ^ 14)) = true; rw [val_zero.lt hsv]; simp; linarith)
    (fun i w s x _ hl hok => by
      obtain ⟨q, hl⟩ := hl
      obtain ⟨s2, dx, a1, a2, a3, a4, a5⟩ := flm_delivers (inv := inv) h hC hn9 hz ht ht2 w s hok x (fun j => (hl j).1) fun j => (hl j).2.trans (flmB_le i)
      refine ⟨s2, dx, a1, a2, a3, a4, ⟨a5.1, rfl, a5.2.2⟩, fun qq s3 hqq hg => ?_⟩
      obtain rfl := hqq rfl
      exact flm_good a5 hg)
    (fun i x dx _ hl hT hns => by
      obtain ⟨q, hl⟩ := hl
      have hq := fun j => (hl j).2.trans (flmB_le i)
      obtain ⟨y, hy⟩ := flm_next h hc (fun j => (hl j).1) hq hT
      obtain ⟨u, u', b1, b2, b3, b4, b5, b6, -⟩ := flm_lower h hC hn hz hc (fun j => (hl j).1) hq hT hns
      refine ⟨⟨y, fun j => ⟨(hy j).1, (hy j).2.trans ?_⟩⟩, ?_⟩
      · have := flmB_succ i
        linarith [(hl j).2]
      · have := FloatLaws.sub_neg _ _ b2.finite b1.finite
        refine this.trans ?_
        rw [b2.lt b1, decide_eq_true_eq]
        linarith)
    (fun x dx hl hT => by
      by_contra hns
      obtain ⟨q, hl⟩ := hl
      have hns : lt (sqNorm dx.v) (litD (1 / 10 ^ 14)) = false := Bool.eq_false_iff.2 hns
      obtain ⟨-, -, -, -, -, -, -, -, hE⟩ := flm_lower h hC hn hz hc (fun j => (hl j).1) (fun j => (hl j).2.trans (flmB_le 38)) hT hns
      have h7 : ∑ i, (q i - c i) ^ 2 ≤ 0 * ∑ i, (q i - c i) ^ 2 + 4 / 10 ^ 17 := flm_sum hn (ε := 4 / 10 ^ 20) (by norm_num) (fun i => by
        have := sq_le_of_abs ((hl i).2.trans flmB_last)
        norm_num at this ⊢
        linarith) (by norm_num)
      norm_num at h7 hE
      linarith)
    ⟨q0, fun j => ⟨hx0 j, (hfar j).trans (by unfold flmB; norm_num)⟩⟩
    (by
      choose ρ hρ hρb hρe hρx using fun i => resN_val (hz i) (hx0 i) ((hfar i).trans (big_ten (by norm_num)))
      obtain ⟨u, hu, hu0, hub⟩ := hC.val (resN z x0) ρ fun i => ⟨hρ i, hρb i⟩
      have hm : Val maxVal Fmt.binary64.max := ⟨_, rfl⟩
      refine (FloatLaws.sub_neg _ _ hu.finite hm.finite).trans ?_
      rw [hu.lt hm, decide_eq_true_eq]
      refine lt_of_le_of_lt hub (lt_of_lt_of_le ?_ dbl_max)
      exact pow_lt_pow_right₀ (by norm_num) (by norm_num))
    (fuel := fuel) hM (by push_cast; omega) (w := w) (s := lmFresh (defaultSolverOpts litD) P g H)
    (by
      refine ⟨?_, rfl, rfl, dv, hdv, ?_, ?_⟩
      · show P.dims.getD 0 = n; rw [h.dims]; rfl
      · norm_num at hd1 ⊢; linarith
      · exact hd2)
  have hlast : st.trace[st.trace.length - 1]? = some r := by rw [← List.getLast?_eq_getElem?]; exact h3
  have hnr : st.out.stop ≠ .kMinRelError := by
    intro hr
    rw [hr] at h6
    cases h6 with
    | rel a1 a2 a3 =>
      rcases Nat.lt_or_ge 1 st.trace.length with hl | hl
      · obtain ⟨i, hi⟩ : ∃ i, st.trace.length - 1 = i + 1 := ⟨st.trace.length - 2, by omega⟩
        rw [hi] at a2 a3 hlast
        have hu := List.getElem?_eq_getElem (l := st.trace) (i := i) (by omega)
        obtain ⟨⟨qu, hlu⟩, -, du, k1, k2, k3, k4⟩ := h2 _ _ hu
        have hns := k4 (by omega)
        have k5 := (run_path e).next hu hlast
        obtain ⟨u, u', b1, b2, b3, b4, b5, b6, -⟩ := flm_lower h hC hn hz hc (fun j => (hlu j).1) (fun j => (hlu j).2.trans (flmB_le i)) k2 hns
        have k6 : r.x = P.plusEq st.trace[i].x du := by rw [k5, k3]; rfl
        rw [← k6] at b2
        simp only [bestBefore, hu, Option.map_some, Option.getD_some] at a2 a3
        exact rel_large b1 b2 b3 b4 b5 b6 a2 a3
      · rw [show st.trace.length - 1 = 0 by omega] at a2
        have : relDerr (bestBefore (fun x : Vec F64 n => C (resN z x)) st.trace 0) (C (resN z r.x)) = ofInt 0 := by
          unfold relDerr bestBefore
          rw [not_lt_scalarMax]; simp
        rw [this, val_zero.lt val_zero] at a2
        simp at a2
  obtain ⟨⟨q, hl⟩, -, d', h7, hT, -⟩ := h2 _ _ hlast
  rw [h4] at h7
  obtain rfl := Option.some.inj h7
  have hq := fun j => (hl j).2.trans (flmB_le (st.trace.length - 1))
  obtain ⟨y, hy⟩ := flm_next h hc (fun j => (hl j).1) hq hT
  obtain ⟨hsmall, hwhy⟩ := flm_near hC hn hz (fun j => (hl j).1) hq hT (fun hns => by
    obtain ⟨-, -, -, -, -, -, -, -, hE⟩ := flm_lower h hC hn hz hc (fun j => (hl j).1) hq hT hns
    exact hE) h6 hnr
  refine ⟨st, e, ?_, h6.converged rfl, hwhy, h1, fun r hr => ?_, y, fun i => ⟨?_, ?_⟩⟩
  · unfold Output.succeeded
    rcases hwhy with h | h <;> rw [h] <;> decide
  · obtain ⟨i, hi⟩ := List.getElem?_of_mem hr
    exact (h2 i r hi).2.1
  · rw [h5]; exact (hy i).1
  · have a1 := (hy i).2
    have a2 := hsmall i
    norm_num at a1 a2 ⊢
    linarith

end

/-! ### the costs of the code: `squaredNorm()` and `norm()` -/

section
variable {n : ℕ}

/-- the cost `res.squaredNorm()` -/
theorem costS_sqNorm (hn : n ≤ 10 ^ 9) : CostS (n := n) sqNorm where
  val := (costN_sqNorm hn).val
  drop := fun r ρ r' ρ' y y' h h' hy hy' h4 hS => by
    obtain ⟨s, h1, h2, h3⟩ := sqNorm_val hn (fun i => (h i).1) fun i => (h i).2
    obtain ⟨s', h1', h2', h3'⟩ := sqNorm_val hn (fun i => (h' i).1) fun i => (h' i).2
    obtain rfl := h1.unique hy
    obtain rfl := h1'.unique hy'
    have h5 := tiny290
    have h6 := (abs_le.1 h3).1
    have h7 := (abs_le.1 h3').2
    generalize (1 : ℚ) / 10 ^ 290 = η at *
    norm_num at h5 hS
    constructor <;> linarith
  small := (costN_sqNorm hn).small

/-- the cost `res.norm()` -/
theorem costS_norm (hn : n ≤ 10 ^ 9) : CostS (n := n) fun r => FloatOps.sqrt (sqNorm r) where
  val := (costN_norm hn).val
  drop := fun r ρ r' ρ' y y' h h' hy hy' h4 hS => by
    obtain ⟨s, h1, h2, h3⟩ := sqNorm_val hn (fun i => (h i).1) fun i => (h i).2
    obtain ⟨s', h1', h2', h3'⟩ := sqNorm_val hn (fun i => (h' i).1) fun i => (h' i).2
    obtain ⟨sb, g1, -, g2⟩ := (costN_sqNorm hn).val r ρ h
    obtain ⟨sb', g1', -, g2'⟩ := (costN_sqNorm hn).val r' ρ' h'
    obtain rfl := h1.unique g1
    obtain rfl := h1'.unique g1'
    obtain ⟨u, a1, a2, a3, a4, a5⟩ := h1.sqrt h2 g2
    obtain ⟨u', a1', a2', a3', a4', a5'⟩ := h1'.sqrt h2' g2'
    obtain rfl := a1.unique hy
    obtain rfl := a1'.unique hy'
    have h5 := tiny290
    have h6 := (abs_le.1 h3).1
    have h7 := (abs_le.1 h3').2
    clear g2 g2'
    generalize (1 : ℚ) / 10 ^ 290 = η at *
    norm_num at h5 hS
    have hu2 : u' ^ 2 ≤ 1 / 100 * u ^ 2 := by linarith
    have hu0 : 0 < u := by
      rcases eq_or_lt_of_le a2 with he | he
      · rw [← he] at a4; norm_num at a4; linarith
      · exact he
    refine ⟨hu0, ?_⟩
    by_contra hne
    have hne := not_le.1 hne
    have : (u / 10) ^ 2 < u' ^ 2 := pow_lt_pow_left₀ hne (by positivity) (by norm_num)
    rw [div_pow] at this
    norm_num at this
    linarith
  small := (costN_norm hn).small

theorem le_big139 {q : ℚ} (h : q ≤ 10) : q ≤ 10 ^ 139 := by
  have := big_ten (a := 1) (b := 139) (by norm_num)
  rw [pow_one] at this
  exact h.trans this

/-- the prior of tests/optimizers.cpp: `x = 0`, `z = (3, 2, 1)` -/
example (inv : (n : Nat) → Mat F64 n → Mat F64 n) (fuel : Nat) :
    ∃ st, optimizeAcc (lmEnv (defaultSolverOpts litD) (eigenLinAlg (Fl.mk (1 / 2 ^ 1022)) inv) (priorN prior321)) (testOptsD false) (fuel + 1) (-1) 0
        (lmFresh (defaultSolverOpts litD) (priorN prior321) (fun _ => ofInt 0) fun _ _ => ofInt 0) (fun _ => ofInt 0) = .ok st ∧
      st.out.converged = true ∧ ∃ y : Fin 3 → ℚ, ∀ i, Val (st.x i) (y i) ∧ |y i - ![3, 2, 1] i| ≤ 1 / 10 ^ 9 := by
  obtain ⟨t, ht, ht2⟩ := val_tol
  obtain ⟨st, e, -, h1, -, -, -, h2⟩ := C131_lm (inv := inv) (priorN_loc prior321 (by norm_num)) (costS_norm (by norm_num)) (by norm_num) prior321_val
    (fun i => by fin_cases i <;> simp <;> norm_num) ht ht2 false (x0 := fun _ => ofInt 0) (q0 := fun _ => 0) (fun _ => val_zero)
    (fun i => le_big139 (by fin_cases i <;> simp <;> norm_num)) (fun _ => ofInt 0) (fun _ _ => ofInt 0) fuel 0
  exact ⟨st, e, h1, h2⟩

/-- residuals `x - z` with the Jacobian `J = I`, the gradient `J^T r` and the Hessian `J^T J` computed as products, cost `squaredNorm()`: tests/userdef_params.cpp:66-85 (with `x` the two points one after
the other, `PlusEq` :54-57) and, with the derivatives from jets, tests/types.cpp:44-49 and :74-90 -/
def jacTest (z : Vec F64 n) : Problem F64 F64 Nat (Vec F64 n) where
  dims := some n
  dynDims := fun _ => n
  plusEq := fun x d i => if h : i.1 < d.n then add (x i) (d.v ⟨i.1, h⟩) else x i
  clock := fun w => (ofInt 0, w)
  alloc := fun w n => (some (fun _ => ofInt 0, fun _ _ => ofInt 0), w)
  ratio1 := ofInt 1
  acc :=
    { full := fun w x m _ _ =>
        let J : Fin n → Fin m → F64 := fun k i => if k.1 = i.1 then ofInt 1 else ofInt 0
        (({ cost := sqNorm (resN z x), num := n, inlier := ofInt 1 }, fun i => sumF fun k => mul (J k i) (resN z x k), fun i j => sumF fun k => mul (J k i) (J k j)), w)
      eval := fun w x => ({ cost := sqNorm (resN z x), num := n, inlier := ofInt 1 }, w) }

theorem val_of_finite {a : F64} (h : finite a = true) : ∃ q, Val a q := by
  cases a with
  | fin q hq => exact ⟨q, hq, rfl⟩
  | _ => cases h

theorem Val.add_zero {a : F64} {p : ℚ} (ha : Val a p) : FloatOps.add a (ofInt 0) = a := by
  obtain ⟨h, rfl⟩ := ha
  rw [Fl.ofInt_zero]
  show Fl.mk (p + 0) = _
  rw [_root_.add_zero]
  unfold Fl.mk Fl.ofGrid
  have : Fmt.binary64.rnd p = p := Fmt.binary64.rnd_id _ h.1
  simp only [this]
  rw [dif_pos h.2]

/-- a sum with one term -/
theorem sumF_one {n : ℕ} (i : Fin n) {a : F64} {p : ℚ} (ha : Val a p) : sumF (fun k : Fin n => if k = i then a else ofInt 0) = a := by
  induction n with
  | zero => exact i.elim0
  | succ n ih =>
    rw [sumF]
    by_cases h : i = Fin.last n
    · subst h
      have : (fun k : Fin n => if k.castSucc = Fin.last n then a else (ofInt 0 : F64)) = fun _ => ofInt 0 := by
        funext k; rw [if_neg (Fin.castSucc_lt_last k).ne]
      rw [this, sumF_zero _ fun _ => rfl, if_pos rfl, ha.zero_add]
    · obtain ⟨j, rfl⟩ := Fin.exists_castSucc_eq.2 h
      have : (fun k : Fin n => if k.castSucc = j.castSucc then a else (ofInt 0 : F64)) = fun k => if k = j then a else ofInt 0 := by
        funext k; simp [Fin.castSucc_inj]
      rw [this, ih j, if_neg (fun e => h e.symm), ha.add_zero]

theorem jacTest_loc (z : Vec F64 n) (hn : 0 < n) : LocTestN (jacTest z) z sqNorm where
  pos := hn
  dims := rfl
  dyn := fun _ => rfl
  plus := fun x v => by
    funext i
    show (if h : i.1 < n then add (x i) (v ⟨i.1, h⟩) else x i) = _
    rw [dif_pos i.2]
  full := fun w x g H hf => by
    refine ⟨{ cost := sqNorm (resN z x), num := n, inlier := ofInt 1 }, w, ?_, rfl, Int.natCast_pos.2 hn⟩
    simp only [jacTest]
    congr 3
    · funext i
      obtain ⟨p, hp⟩ := val_of_finite (hf i)
      rw [← sumF_one i hp]
      congr 1
      funext k
      obtain ⟨pk, hpk⟩ := val_of_finite (hf k)
      by_cases h : k = i
      · subst h; rw [if_pos rfl, if_pos rfl, hpk.one_mul]
      · rw [if_neg (fun e => h (Fin.ext e)), if_neg h, hpk.zero_mul]
    · funext i j
      by_cases hij : i = j
      · subst hij
        rw [if_pos rfl]
        refine Eq.trans ?_ (sumF_one i val_one)
        congr 1
        funext k
        by_cases h : k = i
        · subst h; rw [if_pos rfl, if_pos rfl, val_one.one_mul]
        · rw [if_neg (fun e => h (Fin.ext e)), if_neg h, val_zero.zero_mul]
      · rw [if_neg hij]
        refine sumF_zero _ fun k => ?_
        by_cases h : k = i
        · subst h
          rw [if_pos rfl, if_neg (fun e => hij (Fin.ext e)), val_zero.one_mul]
        · rw [if_neg (fun e => h (Fin.ext e))]
          split
          · exact val_one.zero_mul
          · exact val_zero.zero_mul

/-- the two points `(1, 2)` and `(3, 4)` of tests/userdef_params.cpp -/
def rect1234 : Vec F64 4 := ![ofInt 1, ofInt 2, ofInt 3, ofInt 4]

theorem val_nat {k : ℕ} (hk : k < 2 ^ 53) : Val (ofInt (k : ℤ)) (k : ℚ) := by
  refine val_grid (q := ((k : ℤ) : ℚ)) ⟨k, 0, by rw [abs_of_nonneg (by positivity)]; exact_mod_cast hk, by norm_num, by simp⟩ ?_
  push_cast
  rw [abs_of_nonneg (by positivity)]
  calc (k : ℚ) ≤ 2 ^ 53 := by exact_mod_cast hk.le
    _ ≤ 10 ^ 16 := by norm_num
    _ ≤ _ := big_ten (by norm_num)

theorem rect1234_val : ∀ i, Val (rect1234 i) (![1, 2, 3, 4] i) := by
  intro i
  fin_cases i
  · exact val_one
  · exact val_two
  · exact val_nat (k := 3) (by norm_num)
  · exact val_nat (k := 4) (by norm_num)

/-- tests/userdef_params.cpp:66-112: from the rectangle with the points `(0, 0)` and `(1, 1)` the run succeeds and every coefficient is within `1e-9` of its target (the test asks for `1e-5`) -/
example (inv : (n : Nat) → Mat F64 n → Mat F64 n) (fuel : Nat) :
    ∃ st, optimizeAcc (lmEnv (defaultSolverOpts litD) (eigenLinAlg (Fl.mk (1 / 2 ^ 1022)) inv) (jacTest rect1234)) (testOptsD false) (fuel + 1) (-1) 0
        (lmFresh (defaultSolverOpts litD) (jacTest rect1234) (fun _ => ofInt 0) fun _ _ => ofInt 0) ![ofInt 0, ofInt 0, ofInt 1, ofInt 1] = .ok st ∧
      st.out.succeeded = true ∧ ∃ y : Fin 4 → ℚ, ∀ i, Val (st.x i) (y i) ∧ |y i - ![1, 2, 3, 4] i| ≤ 1 / 10 ^ 9 := by
  obtain ⟨t, ht, ht2⟩ := val_tol
  obtain ⟨st, e, h1, -, -, -, -, h2⟩ := C131_lm (inv := inv) (jacTest_loc rect1234 (by norm_num)) (costS_sqNorm (by norm_num)) (by norm_num) rect1234_val
    (fun i => by fin_cases i <;> simp <;> norm_num) ht ht2 false (x0 := ![ofInt 0, ofInt 0, ofInt 1, ofInt 1]) (q0 := ![0, 0, 1, 1])
    (fun i => by
      fin_cases i
      · exact val_zero
      · exact val_zero
      · exact val_one
      · exact val_one)
    (fun i => le_big139 (by fin_cases i <;> simp <;> norm_num)) (fun _ => ofInt 0) (fun _ _ => ofInt 0) fuel 0
  exact ⟨st, e, h1, h2⟩

end
end Verif
