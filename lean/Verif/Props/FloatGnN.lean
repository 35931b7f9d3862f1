import Verif.Props.FloatGn
import Verif.Lemmas.LdltDiag
import Verif.Lemmas.SumDouble
/-!
# C123: Gauss-Newton finds the minimum of `x - z` to the last bit in `double` arithmetic, in every dimension
-/

set_option linter.unusedSectionVars false

namespace Verif
open FloatOps

section
variable {R W : Type} {n : ℕ} {P : Problem F64 R W (Vec F64 n)} {z : Vec F64 n} {C : Vec F64 n → F64} {tol : F64} {inv : (n : Nat) → Mat F64 n → Mat F64 n}

/-- `x - z`, computed coefficient by coefficient -/
def resN (z x : Vec F64 n) : Vec F64 n := fun i => sub (x i) (z i)

/-- `n` parameters, residuals `x - z`, gradient `x - z`, Hessian `I`, and as cost some function of the residuals, computed in `double`, wherever the residuals are finite: the prior of tests/optimizers.cpp:99-113,
with the derivatives of `x - z`. -/
structure LocTestN (P : Problem F64 R W (Vec F64 n)) (z : Vec F64 n) (C : Vec F64 n → F64) : Prop where
  pos : 0 < n
  dims : P.dims = some n
  dyn : ∀ x, P.dynDims x = n
  plus : ∀ x v, P.plusEq x ⟨n, v⟩ = fun i => add (x i) (v i)
  full : ∀ w x g H, (∀ i, finite (resN z x i) = true) →
    ∃ c w', P.acc.full w x n g H = ((c, resN z x, fun i j => if i = j then ofInt 1 else ofInt 0), w') ∧ c.cost = C (resN z x) ∧ 0 < c.num

/-- the values of a vector, with a bound -/
def Vals (r : Vec F64 n) (ρ : Fin n → ℚ) : Prop := ∀ i, Val (r i) (ρ i) ∧ |ρ i| ≤ 10 ^ 141

/-- what the cost must satisfy: it is a number from 0 to `1e300`, it decreases with the residuals, it is small only if they are -/
structure CostN (C : Vec F64 n → F64) : Prop where
  val : ∀ r ρ, Vals r ρ → ∃ y, Val (C r) y ∧ 0 ≤ y ∧ y ≤ 10 ^ 300
  drop : ∀ r ρ r' ρ' y y', Vals r ρ → Vals r' ρ' → Val (C r) y → Val (C r') y' → (∀ i, |ρ' i| ≤ |ρ i| / 100) → 1 / 10 ^ 15 ≤ ∑ i, ρ i ^ 2 → 0 < y ∧ y' ≤ y / 10
  small : ∀ r ρ y, Vals r ρ → Val (C r) y → y ≤ 2 / 10 ^ 12 → ∑ i, ρ i ^ 2 ≤ 1 / 10 ^ 11
  zero : ∀ r, (∀ i, Val (r i) 0) → Val (C r) 0

/-- the Gauss-Newton step at `x` -/
def GnStepN (z : Vec F64 n) (c : Fin n → ℚ) (x : Vec F64 n) (d : DVec F64) : Prop :=
  ∃ (q ρ : Fin n → ℚ) (v : Vec F64 n), (∀ i, Val (x i) (q i)) ∧ Vals (resN z x) ρ ∧ (∀ i, |ρ i - (q i - c i)| ≤ |q i - c i| / 2 ^ 53) ∧ d = ⟨n, v⟩ ∧ (∀ i, Val (v i) (-ρ i)) ∧
    ∀ i, |q i - c i| ≤ |c i| / 2 → ρ i = q i - c i

theorem big140 : (11 / 10 : ℚ) * 10 ^ 140 ≤ 10 ^ 141 := by
  rw [pow_succ _ 140]
  have : (0 : ℚ) < 10 ^ 140 := pow_pos (by norm_num) _
  linarith

theorem resN_val {c q : ℚ} {z x : F64} (hz : Val z c) (hx : Val x q) (hq : |q - c| ≤ 10 ^ 140) :
    ∃ ρ, Val (sub x z) ρ ∧ |ρ| ≤ 10 ^ 141 ∧ |ρ - (q - c)| ≤ |q - c| / 2 ^ 53 ∧ (|q - c| ≤ |c| / 2 → ρ = q - c) := by
  have hq8 : |q - c| ≤ 10 ^ 308 := hq.trans (big_ten (by norm_num))
  obtain ⟨ρ, hρ, hρe⟩ := hx.sub hz hq8
  refine ⟨ρ, hρ, ?_, hρe, fun hc => ?_⟩
  · have h1 := abs_sub_abs_le_abs_sub ρ (q - c)
    have h0 := abs_nonneg (q - c)
    have h2 : |q - c| / 2 ^ 53 ≤ 1 / 10 * |q - c| := by
      rw [div_le_iff₀ (by positivity)]; norm_num; linarith
    have := big140
    linarith
  · have hg := sterbenz hx.grid hz.grid hc
    have h1 : Val (sub x z) (rndBin 53 (-1074) (q - c)) := by
      obtain ⟨_, e1⟩ := hx
      obtain ⟨_, e2⟩ := hz
      rw [e1, e2]
      exact val_of_le hq8
    rw [rndBin_id hg] at h1
    exact hρ.unique h1

theorem gnN_delivers (h : LocTestN P z C) (hC : CostN C) (hn : n ≤ 10 ^ 9) {c : Fin n → ℚ} (hz : ∀ i, Val (z i) (c i)) {t : ℚ} (ht : Val tol t) (ht2 : t < 1 / 2) (w : W) (s : GNState F64 R) (hs : s.n = n) (x : Vec F64 n)
    {q : Fin n → ℚ} (hx : ∀ i, Val (x i) (q i)) (hq : ∀ i, |q i - c i| ≤ 10 ^ 140) :
    ∃ s2 dx, Delivers (gnEnv (defaultSolverOpts litD) (eigenLinAlg tol inv) P) w s x s2 dx ∧ s2.cost.cost = C (resN z x) ∧
      sqNorm s2.g = sqNorm (resN z x) ∧ GnStepN z c x dx ∧ s2.n = n := by
  choose ρ hρ hρb hρe hρx using fun i => resN_val (hz i) (hx i) (hq i)
  have hvals : Vals (resN z x) ρ := fun i => ⟨hρ i, hρb i⟩
  have hdiv : ∀ i, Val (div (neg (resN z x i)) (ofInt 1)) (-ρ i) := fun i => by
    have := (hρ i).neg.div val_one (by norm_num) (by
      rw [div_one, abs_neg]
      exact (hρb i).trans (big_ten (by norm_num)))
    rwa [div_one, rndBin_id (gridBin_neg (hρ i).grid)] at this
  obtain ⟨c0, w1, hf, hc1, hc2⟩ := h.full w x (fun _ => ofInt 0) (fun _ _ => ofInt 0) fun i => (hρ i).finite
  obtain ⟨y, hy, hy0, hyb⟩ := hC.val _ _ hvals
  obtain ⟨n0, g0, H0, c00⟩ := s
  obtain rfl : n0 = n := hs
  have hcv : c0.isValid = true := by
    unfold Cost.isValid
    rw [hc1]
    have : FloatOps.eq (C (resN z x)) maxVal = false := by
      rw [FloatLaws.eq_spec _ _ hy.finite FloatLaws.max_finite]
      have hm : Val maxVal Fmt.binary64.max := ⟨_, rfl⟩
      rw [hy.lt hm]
      have : y < Fmt.binary64.max := by
        refine lt_of_le_of_lt hyb (lt_of_lt_of_le ?_ dbl_max)
        exact pow_lt_pow_right₀ (by norm_num) (by norm_num)
      simp [this]
    simp [ne, this, hc2]
  have hnc : normalizeCost (defaultSolverOpts litD) c0 = c0 := by
    unfold normalizeCost; simp [defaultSolverOpts]
  have hb : buildSystem (defaultSolverOpts litD) P w ⟨n0, g0, H0, c00⟩ x = (true, ⟨n0, resN z x, fun i j => if i = j then ofInt 1 else ofInt 0, c0⟩, w1) := by
    unfold buildSystem gnAccumulate
    simp only [hf, hnc, hcv, if_true]
    have e1 : (defaultSolverOpts litD).gradClip = ofInt 0 := lit_zero
    have e2 : (defaultSolverOpts litD).checkMinHDiag = ofInt 0 := lit_zero
    have e3 : FloatOps.eq (ofInt 0 : F64) (ofInt 0) = true := by
      rw [FloatLaws.eq_spec _ _ val_zero.finite val_zero.finite]; simp [FloatLaws.lt_irrefl]
    rw [e1, e2]
    simp only [clampVec, e3, if_true, FloatLaws.lt_irrefl, Bool.false_and, Bool.false_eq_true, if_false]
    rfl
  have hdiag : DiagD (fun i j : Fin n0 => if i = j then (ofInt 1 : F64) else ofInt 0) fun _ => 1 :=
    ⟨fun i => by simp only [if_true]; exact val_one, fun _ => by norm_num, fun i j hij => if_neg hij⟩
  refine ⟨⟨n0, resN z x, fun i j => if i = j then ofInt 1 else ofInt 0, c0⟩, ⟨n0, fun i => div (neg (resN z x i)) (ofInt 1)⟩, ⟨⟨⟨n0, g0, H0, c00⟩, w, w1, ?_, hb⟩, ?_, ?_, ?_, fun _ => ⟨_, rfl⟩, ⟨_, rfl⟩⟩,
    hc1, rfl, ⟨q, ρ, _, hx, hvals, hρe, rfl, hdiv, hρx⟩, rfl⟩
  · unfold resizeIfNeeded
    have hd : (gnEnv (defaultSolverOpts litD) (eigenLinAlg tol inv) P).dynDims x = n0 := h.dyn x
    have := h.pos
    simp only [hd]
    rw [if_neg (by rw [Bool.and_eq_true, beq_iff_eq]; omega), if_neg (by omega)]
    have : (gnEnv (defaultSolverOpts litD) (eigenLinAlg tol inv) P).sol.resize w ⟨n0, g0, H0, c00⟩ n0 = (.done ⟨n0, g0, H0, c00⟩, w) := by
      show gnResize P w ⟨n0, g0, H0, c00⟩ n0 = (.done ⟨n0, g0, H0, c00⟩, w)
      unfold gnResize; rw [h.dims]; simp
    rw [this]
  · show gnSolve _ _ _ _ = _
    unfold gnSolve
    simp only [hcv, if_true]
    have e1 : (defaultSolverOpts litD).useLdlt = true := rfl
    rw [e1]
    simp only [if_true]
    unfold solveLDLT
    have := ldlt_diag (tol := tol) hdiag.sym (b := negVec (resN z x)) (β := fun i => -ρ i) ht ht2 (fun i => (hρ i).neg) (fun i => by
      rw [div_one, abs_neg]
      exact (hρb i).trans (big_ten (by norm_num)))
    show Option.map _ (eigenLdlt tol n0 _ _) = _
    rw [this]
    simp [symUpper, negVec]
  · show finite c0.cost = true
    rw [hc1]; exact hy.finite
  · obtain ⟨sv, hs, -, -⟩ := sqNorm_val hn hdiv (fun i => by rw [abs_neg]; exact hρb i)
    exact hs.finite

/-- the next point of Gauss-Newton, one coefficient -/
theorem gnN_coeff {c q ρ : ℚ} {z x v : F64} (hz : Val z c) (hc : |c| ≤ 10 ^ 140) (hx : Val x q) (hq : |q - c| ≤ 10 ^ 140) (hρ : |ρ - (q - c)| ≤ |q - c| / 2 ^ 53) (hv : Val v (-ρ))
    (hex : |q - c| ≤ |c| / 2 → ρ = q - c) :
    ∃ y, Val (add x v) y ∧ |y - c| ≤ 11 / 10 / 2 ^ 53 * |q - c| + |c| / 2 ^ 53 ∧ (|q - c| ≤ |c| / 2 → add x v = z) ∧ |y - c| ≤ 1 / 1000 * |q - c| := by
  obtain ⟨y, h1, h2, h3⟩ := locGn_next (simpleTest_loc z) hz (hc.trans (big_ten (by norm_num))) (x := fun _ => x) hx (hq.trans (big_ten (by norm_num))) (d := ⟨1, fun _ => v⟩)
    ⟨q, v, -ρ, hx, rfl, hv, by rw [show q + -ρ - c = -(ρ - (q - c)) by ring, abs_neg]; exact hρ, fun h => by rw [hex h]; ring⟩
  have e : (simpleTest z).plusEq (fun _ => x) ⟨1, fun _ => v⟩ 0 = add x v := by rw [(simpleTest_loc z).plus]
  rw [e] at h1 h3
  refine ⟨y, h1, h2, h3, ?_⟩
  have h0 := abs_nonneg (q - c)
  rcases le_total |q - c| (|c| / 2) with hcc | hcc
  · rw [h3 hcc] at h1
    rw [h1.unique hz, sub_self, abs_zero]; linarith
  · have b1 : (11 / 10 / 2 ^ 53 : ℚ) * |q - c| ≤ 1 / 10000 * |q - c| := mul_le_mul_of_nonneg_right (by norm_num) h0
    have b2 : |c| / 2 ^ 53 ≤ 1 / 10000 * |q - c| := by
      rw [div_le_iff₀ (by positivity)]
      norm_num
      linarith
    linarith

theorem near_abs {e ρ : ℚ} (h : |ρ - e| ≤ |e| / 2 ^ 53) : 999 / 1000 * |e| ≤ |ρ| ∧ |ρ| ≤ 1001 / 1000 * |e| := by
  have h0 := abs_nonneg e
  have h1 : |e| / 2 ^ 53 ≤ 1 / 1000 * |e| := by
    rw [div_le_iff₀ (by positivity)]; norm_num; linarith
  have h2 := abs_sub_abs_le_abs_sub ρ e
  have h3 := abs_sub_abs_le_abs_sub e ρ
  rw [abs_sub_comm e ρ] at h3
  constructor <;> linarith

/-- all coefficients of the next point -/
theorem gnN_next (h : LocTestN P z C) {c : Fin n → ℚ} (hz : ∀ i, Val (z i) (c i)) (hc : ∀ i, |c i| ≤ 10 ^ 140) {x : Vec F64 n} {q : Fin n → ℚ} (hx : ∀ i, Val (x i) (q i))
    (hq : ∀ i, |q i - c i| ≤ 10 ^ 140) {d : DVec F64} (hd : GnStepN z c x d) :
    ∃ y : Fin n → ℚ, ∀ i, Val (P.plusEq x d i) (y i) ∧ |y i - c i| ≤ 11 / 10 / 2 ^ 53 * |q i - c i| + |c i| / 2 ^ 53 ∧ (|q i - c i| ≤ |c i| / 2 → P.plusEq x d i = z i) ∧
      |y i - c i| ≤ 1 / 1000 * |q i - c i| := by
  obtain ⟨q', ρ, v, hx', hvals, hρe, rfl, hv, hex⟩ := hd
  obtain rfl : q = q' := funext fun i => (hx i).unique (hx' i)
  rw [h.plus]
  choose y h1 h2 h3 h4 using fun i => gnN_coeff (hz i) (hc i) (hx i) (hq i) (hρe i) (hv i) (hex i)
  exact ⟨y, fun i => ⟨h1 i, h2 i, h3 i, h4 i⟩⟩

/-- the step is not short: the residuals are not small, and the cost falls to a tenth -/
theorem gnN_lower (h : LocTestN P z C) (hC : CostN C) (hn : n ≤ 10 ^ 9) {c : Fin n → ℚ} (hz : ∀ i, Val (z i) (c i)) (hc : ∀ i, |c i| ≤ 10 ^ 140) {x : Vec F64 n} {q : Fin n → ℚ} (hx : ∀ i, Val (x i) (q i))
    (hq : ∀ i, |q i - c i| ≤ 10 ^ 140) {d : DVec F64} (hd : GnStepN z c x d) (hns : lt (sqNorm d.v) (litD (1 / 10 ^ 14)) = false) :
    ∃ y y', Val (C (resN z x)) y ∧ Val (C (resN z (P.plusEq x d))) y' ∧ 0 < y ∧ 0 ≤ y' ∧ y ≤ 10 ^ 300 ∧ y' ≤ y / 10 ∧ ∃ i, q i ≠ c i := by
  obtain ⟨y, hy⟩ := gnN_next h hz hc hx hq hd
  obtain ⟨q', ρ, v, hx', hvals, hρe, rfl, hv, hex⟩ := hd
  obtain rfl : q = q' := funext fun i => (hx i).unique (hx' i)
  obtain ⟨sv, hsv, hs1, hs2⟩ := lit_step
  obtain ⟨s, hs, hs0, hse⟩ := sqNorm_val hn hv fun i => by rw [abs_neg]; exact (hvals i).2
  rw [hs.lt hsv, decide_eq_false_iff_not] at hns
  have h290 : (1 : ℚ) / 10 ^ 290 ≤ 1 / 10 ^ 20 := one_div_le_one_div_of_le (by norm_num) (big_ten (by norm_num))
  have hS : 1 / 10 ^ 15 ≤ ∑ i, ρ i ^ 2 := by
    simp only [neg_sq] at hse
    have := (abs_le.1 hse).2
    generalize (1 : ℚ) / 10 ^ 290 = η at *
    norm_num at h290 hs1 ⊢
    linarith
  have hq' : ∀ i, |y i - c i| ≤ 10 ^ 140 := fun i => by
    have h0 := abs_nonneg (q i - c i)
    linarith [(hy i).2.2.2, hq i]
  choose ρ' hρ' hρb' hρe' hρx' using fun i => resN_val (hz i) (hy i).1 (hq' i)
  have hvals' : Vals (resN z (P.plusEq x ⟨n, v⟩)) ρ' := fun i => ⟨hρ' i, hρb' i⟩
  obtain ⟨u, hu, hu0, hub⟩ := hC.val _ _ hvals
  obtain ⟨u', hu', hu0', hub'⟩ := hC.val _ _ hvals'
  obtain ⟨d1, d2⟩ := hC.drop _ _ _ _ _ _ hvals hvals' hu hu' (fun i => by
    have := (near_abs (hρe i)).1
    have := (near_abs (hρe' i)).2
    have := (hy i).2.2.2
    linarith [abs_nonneg (q i - c i)]) hS
  refine ⟨u, u', hu, hu', d1, hu0', hub, d2, ?_⟩
  by_contra hne
  push Not at hne
  have hz0 : ∀ i, ρ i = 0 := fun i => by
    have := hρe i
    rw [hne i, sub_self, abs_zero, zero_div, sub_zero] at this
    exact abs_nonpos_iff.1 this
  simp only [hz0] at hS
  norm_num at hS

/-- what the criteria say of a step at `x`: if one holds, and not the one on the relative decrease, then the point is near the minimum -/
theorem gnN_near (hC : CostN C) (hn : n ≤ 10 ^ 9) {c : Fin n → ℚ} {x : Vec F64 n} {q : Fin n → ℚ} (hx : ∀ i, Val (x i) (q i)) {d : DVec F64} (hd : GnStepN z c x d) {b : Bool} {best : F64} {r : StopReason}
    (hcv : ConvergedFrom (testOptsD b : Options F64 W (DVec F64)) best (C (resN z x)) (sqNorm d.v) (sqNorm (resN z x)) r) (hr : r ≠ .kMinRelError) :
    (∀ i, |q i - c i| ≤ 45 / 10 ^ 7) ∧ (r = .kMinError ∨ r = .kMinDeltaNorm ∧ lt (C (resN z x)) (litD (1 / 10 ^ 12)) = false) := by
  obtain ⟨q', ρ, v, hx', hvals, hρe, rfl, hv, hex⟩ := hd
  obtain rfl : q = q' := funext fun i => (hx i).unique (hx' i)
  obtain ⟨sv, hsv, hs1, hs2⟩ := lit_step
  obtain ⟨ev, hev, he1, he2⟩ := lit_err
  obtain ⟨u, hu, hu0, hub⟩ := hC.val _ _ hvals
  obtain ⟨s, hs, hs0, hse⟩ := sqNorm_val hn hv fun i => by rw [abs_neg]; exact (hvals i).2
  simp only [neg_sq] at hse
  have h290 : (1 : ℚ) / 10 ^ 290 ≤ 1 / 10 ^ 20 := one_div_le_one_div_of_le (by norm_num) (big_ten (by norm_num))
  have hS0 : 0 ≤ ∑ i, ρ i ^ 2 := Finset.sum_nonneg fun i _ => sq_nonneg _
  have key : ∑ i, ρ i ^ 2 ≤ 1 / 10 ^ 11 → ∀ i, |q i - c i| ≤ 45 / 10 ^ 7 := fun hS i => by
    have h1 : ρ i ^ 2 ≤ 1 / 10 ^ 11 := le_trans (Finset.single_le_sum (f := fun i => ρ i ^ 2) (fun i _ => sq_nonneg _) (Finset.mem_univ i)) hS
    rw [← sq_abs] at h1
    have h2 : |ρ i| ≤ 4 / 10 ^ 6 := by
      by_contra hne
      have hne := not_le.1 hne
      have : (4 / 10 ^ 6 : ℚ) ^ 2 < |ρ i| ^ 2 := pow_lt_pow_left₀ hne (by norm_num) (by norm_num)
      norm_num at this h1
      linarith
    have := (near_abs (hρe i)).1
    norm_num at h2 ⊢
    linarith
  have hse' := abs_le.1 hse
  cases hcv with
  | error a1 a2 =>
    have a2 : lt (C (resN z x)) (litD (1 / 10 ^ 12)) = true := a2
    rw [hu.lt hev, decide_eq_true_eq] at a2
    exact ⟨key (hC.small _ _ _ hvals hu (by norm_num at he2 ⊢; linarith)), Or.inl rfl⟩
  | rel a1 a2 a3 => exact absurd rfl hr
  | step a1 a3 n1 =>
    have a3 : lt (sqNorm v) (litD (1 / 10 ^ 14)) = true := a3
    rw [hs.lt hsv, decide_eq_true_eq] at a3
    have n1 : (lt (ofInt 0) (litD (1 / 10 ^ 12)) && lt (C (resN z x)) (litD (1 / 10 ^ 12))) = false := n1
    have hpos : lt (ofInt 0) (litD (1 / 10 ^ 12)) = true := by rw [val_zero.lt hev]; simp; linarith
    rw [hpos, Bool.true_and] at n1
    refine ⟨key ?_, Or.inr ⟨rfl, n1⟩⟩
    generalize (1 : ℚ) / 10 ^ 290 = η at *
    norm_num at h290 hs2 ⊢
    linarith [hse'.1]
  | grad a1 a3 n1 n2 n3 =>
    exfalso
    obtain ⟨gv, hgv, hg1, hg2⟩ := lit_grad
    obtain ⟨s', hs', hs0', hse2⟩ := sqNorm_val hn (fun i => (hvals i).1) fun i => (hvals i).2
    have a3 : lt (sqNorm (resN z x)) (litD (1 / 10 ^ 18)) = true := a3
    rw [hs'.lt hgv, decide_eq_true_eq] at a3
    have n3 : (lt (ofInt 0) (litD (1 / 10 ^ 14)) && lt (sqNorm v) (litD (1 / 10 ^ 14))) = false := n3
    have hpos : lt (ofInt 0) (litD (1 / 10 ^ 14)) = true := by rw [val_zero.lt hsv]; simp; linarith
    rw [hpos, Bool.true_and, hs.lt hsv, decide_eq_false_iff_not] at n3
    have h1 := (abs_le.1 hse2).1
    have h2 := hse'.2
    generalize (1 : ℚ) / 10 ^ 290 = η at *
    norm_num at h290 hs1 hg2
    linarith

/-- the run of C123, with all its iterations -/
theorem gnN_run (h : LocTestN P z C) (hC : CostN C) (hn : n ≤ 10 ^ 9) {c : Fin n → ℚ} (hz : ∀ i, Val (z i) (c i)) (hc : ∀ i, |c i| ≤ 10 ^ 140) {t : ℚ} (ht : Val tol t) (ht2 : t < 1 / 2) (b : Bool)
    {x0 : Vec F64 n} {q0 : Fin n → ℚ} (hx0 : ∀ i, Val (x0 i) (q0 i)) (hfar : ∀ i, |q0 i - c i| ≤ 10 ^ 140) {k : ℕ} (hk : k ≤ 40) (hq0 : ∀ i, |q0 i - c i| ≤ 2 ^ (52 * k) / 4 * |c i|)
    (g : Vec F64 (P.dims.getD 0)) (H : Mat F64 (P.dims.getD 0)) (fuel : Nat) (w : W) :
    ∃ st, optimizeAcc (gnEnv (defaultSolverOpts litD) (eigenLinAlg tol inv) P) (testOptsD b) (fuel + 1) (-1) w (gnFresh P g H) x0 = .ok st ∧
      st.trace.length ≤ k + 2 ∧
      (∀ i r, st.trace[i]? = some r → (∃ q : Fin n → ℚ, ∀ j, Val (r.x j) (q j) ∧ |q j - c j| ≤ 10 ^ 140 ∧ gnB (c j) k i (q j - c j)) ∧ r.succ = true ∧
        ∃ dx, r.dx = some dx ∧ GnStepN z c r.x dx ∧ r.xNext = P.plusEq r.x dx ∧ (i + 1 < st.trace.length → lt (sqNorm dx.v) (litD (1 / 10 ^ 14)) = false)) ∧
      ∃ r dx, st.trace[st.trace.length - 1]? = some r ∧ r.dx = some dx ∧ st.x = P.plusEq r.x dx ∧ st.out.stop ≠ .kMinRelError ∧
        ConvergedFrom (testOptsD b : Options F64 W (DVec F64)) (bestBefore (fun x => C (resN z x)) st.trace (st.trace.length - 1)) (C (resN z r.x)) (sqNorm dx.v) (sqNorm (resN z r.x)) st.out.stop := by
  obtain ⟨M, hM, hM51⟩ : ∃ M, loopBound (testOptsD b : Options F64 W (DVec F64)) (-1) = some M ∧ 51 ≤ M := by
    cases b
    · exact ⟨51, rfl, le_refl _⟩
    · exact ⟨52, rfl, by norm_num⟩
  obtain ⟨sv, hsv, hs1, hs2⟩ := lit_step
  obtain ⟨st, e, h1, h2, r, d, h3, h4, h5, h6⟩ := contracting_run (E := gnEnv (defaultSolverOpts litD) (eigenLinAlg tol inv) P) (o := testOptsD b)
    (C := fun x => C (resN z x)) (g2 := fun x => sqNorm (resN z x)) (Ok := fun s => s.n = n) (T := GnStepN z c) (N := k + 1) (x0 := x0)
    (Lvl := fun i x => ∃ q : Fin n → ℚ, ∀ j, Val (x j) (q j) ∧ |q j - c j| ≤ 10 ^ 140 ∧ gnB (c j) k i (q j - c j)) (testOptsD_unwatched b)
    (by show lt (ofInt 0) (litD (1 / 10 ^ 14)) = true; rw [val_zero.lt hsv]; simp; linarith)
    (fun i w s x _ hl hok => by
      obtain ⟨q, hl⟩ := hl
      obtain ⟨s2, dx, a1, a2, a3, a4, a5⟩ := gnN_delivers (inv := inv) h hC hn hz ht ht2 w s hok x (fun j => (hl j).1) fun j => (hl j).2.1
      refine ⟨s2, dx, a1, a2, a3, a4, a5, fun qq s3 _ hg => ?_⟩
      have hg : (Res.ok s2 : Res (GNState F64 R)) = .ok s3 := hg
      injection hg with hg
      subst hg
      exact a5)
    (fun i x dx hi hl hT hns => by
      obtain ⟨q, hl⟩ := hl
      obtain ⟨y, hy⟩ := gnN_next h hz hc (fun j => (hl j).1) (fun j => (hl j).2.1) hT
      obtain ⟨u, u', b1, b2, b3, b4, b5, b6, -⟩ := gnN_lower h hC hn hz hc (fun j => (hl j).1) (fun j => (hl j).2.1) hT hns
      refine ⟨⟨y, fun j => ⟨(hy j).1, ?_, gnB_succ (hl j).2.2 (by omega) (hy j).2.1 fun hcc => ?_⟩⟩, ?_⟩
      · linarith [(hy j).2.2.2, (hl j).2.1, abs_nonneg (q j - c j)]
      · have hy' : Val (z j) (y j) := by rw [← (hy j).2.2.1 hcc]; exact (hy j).1
        rw [hy'.unique (hz j), sub_self]
      · have := FloatLaws.sub_neg _ _ b2.finite b1.finite
        refine this.trans ?_
        rw [b2.lt b1, decide_eq_true_eq]
        linarith)
    (fun x dx hl hT => by
      by_contra hns
      obtain ⟨q, hl⟩ := hl
      have hns : lt (sqNorm dx.v) (litD (1 / 10 ^ 14)) = false := Bool.eq_false_iff.2 hns
      obtain ⟨-, -, -, -, -, -, -, -, j, hj⟩ := gnN_lower h hC hn hz hc (fun j => (hl j).1) (fun j => (hl j).2.1) hT hns
      have := (hl j).2.2.2 (by omega)
      exact hj (by linarith))
    ⟨q0, fun j => ⟨hx0 j, hfar j, fun _ => hq0 j, fun h => absurd h (by omega)⟩⟩
    (by
      choose ρ hρ hρb hρe hρx using fun i => resN_val (hz i) (hx0 i) (hfar i)
      obtain ⟨u, hu, hu0, hub⟩ := hC.val (resN z x0) ρ fun i => ⟨hρ i, hρb i⟩
      have hm : Val maxVal Fmt.binary64.max := ⟨_, rfl⟩
      refine (FloatLaws.sub_neg _ _ hu.finite hm.finite).trans ?_
      rw [hu.lt hm, decide_eq_true_eq]
      refine lt_of_le_of_lt hub (lt_of_lt_of_le ?_ dbl_max)
      exact pow_lt_pow_right₀ (by norm_num) (by norm_num))
    (fuel := fuel) hM (by push_cast; omega) (w := w) (s := gnFresh P g H)
    (by show P.dims.getD 0 = n; rw [h.dims]; rfl)
  have hlast : st.trace[st.trace.length - 1]? = some r := by rw [← List.getLast?_eq_getElem?]; exact h3
  have hnr : st.out.stop ≠ .kMinRelError := by
    intro hr
    rw [hr] at h6
    cases h6 with
    | rel a1 a2 a3 =>
      rcases Nat.lt_or_ge 1 st.trace.length with hl | hl
      · obtain ⟨i, hi⟩ : ∃ i, st.trace.length - 1 = i + 1 := ⟨st.trace.length - 2, by omega⟩
        rw [hi] at a2 a3 hlast
        have hu := List.getElem?_eq_getElem (l := st.trace) (i := i) (by omega)
        obtain ⟨⟨qu, hlu⟩, -, du, k1, k2, k3, k4⟩ := h2 _ _ hu
        have hns := k4 (by omega)
        have k5 := (run_path e).next hu hlast
        obtain ⟨u, u', b1, b2, b3, b4, b5, b6, -⟩ := gnN_lower h hC hn hz hc (fun j => (hlu j).1) (fun j => (hlu j).2.1) k2 hns
        have k6 : r.x = P.plusEq st.trace[i].x du := by rw [k5, k3]; rfl
        rw [← k6] at b2
        simp only [bestBefore, hu, Option.map_some, Option.getD_some] at a2 a3
        exact rel_large b1 b2 b3 b4 b5 b6 a2 a3
      · rw [show st.trace.length - 1 = 0 by omega] at a2
        have : relDerr (bestBefore (fun x : Vec F64 n => C (resN z x)) st.trace 0) (C (resN z r.x)) = ofInt 0 := by
          unfold relDerr bestBefore
          rw [not_lt_scalarMax]; simp
        rw [this, val_zero.lt val_zero] at a2
        simp at a2
  exact ⟨st, e, by omega, h2, r, d, hlast, h4, h5, hnr, h6⟩

/-- **C123.** Gauss-Newton with the default options on the residuals `x - z` of up to a billion parameters in IEEE `double` arithmetic, with a cost that measures the residuals: from every start
that is at most `1e140` away from `z` in each coefficient the run ends as converged, and the result is `z`, to the last bit of each coefficient. If the distances are at most `2^(52 k) / 4 |z_i|`
the run takes at most `k + 2` iterations. -/
theorem C123_gn_exact (h : LocTestN P z C) (hC : CostN C) (hn : n ≤ 10 ^ 9) {c : Fin n → ℚ} (hz : ∀ i, Val (z i) (c i)) (hc1 : ∀ i, 1 / 10 ^ 5 ≤ |c i|) (hc : ∀ i, |c i| ≤ 10 ^ 140) {t : ℚ} (ht : Val tol t)
    (ht2 : t < 1 / 2) (b : Bool) {x0 : Vec F64 n} {q0 : Fin n → ℚ} (hx0 : ∀ i, Val (x0 i) (q0 i)) (hfar : ∀ i, |q0 i - c i| ≤ 10 ^ 140) {k : ℕ} (hk : k ≤ 40)
    (hq0 : ∀ i, |q0 i - c i| ≤ 2 ^ (52 * k) / 4 * |c i|) (g : Vec F64 (P.dims.getD 0)) (H : Mat F64 (P.dims.getD 0)) (fuel : Nat) (w : W) :
    ∃ st, optimizeAcc (gnEnv (defaultSolverOpts litD) (eigenLinAlg tol inv) P) (testOptsD b) (fuel + 1) (-1) w (gnFresh P g H) x0 = .ok st ∧
      st.out.succeeded = true ∧ st.out.converged = true ∧ (st.out.stop = .kMinError ∨ st.out.stop = .kMinDeltaNorm) ∧ st.trace.length ≤ k + 2 ∧ (∀ r ∈ st.trace, r.succ = true) ∧ st.x = z := by
  obtain ⟨st, e, h1, h2, r, d, hlast, h4, h5, hnr, h6⟩ := gnN_run (inv := inv) h hC hn hz hc ht ht2 b hx0 hfar hk hq0 g H fuel w
  obtain ⟨⟨q, hl⟩, -, d', h7, hT, -⟩ := h2 _ _ hlast
  rw [h4] at h7
  obtain rfl := Option.some.inj h7
  obtain ⟨y, hy⟩ := gnN_next h hz hc (fun j => (hl j).1) (fun j => (hl j).2.1) hT
  obtain ⟨hsmall, hwhy⟩ := gnN_near hC hn (fun j => (hl j).1) hT h6 hnr
  refine ⟨st, e, ?_, h6.converged rfl, hwhy.imp id And.left, h1, fun r hr => ?_, ?_⟩
  · unfold Output.succeeded
    rcases hwhy with h | ⟨h, -⟩ <;> rw [h] <;> decide
  · obtain ⟨i, hi⟩ := List.getElem?_of_mem hr
    exact (h2 i r hi).2.1
  · rw [h5]
    funext j
    refine (hy j).2.2.1 ?_
    have h8 := hsmall j
    have h9 := hc1 j
    norm_num at h8 h9
    linarith

/-- **C123, the criterion.** From a start between `5e-6` (in some coefficient) and `|z_i| / 2` (in all of them) away from `z` the run takes exactly 2 iterations and ends because of the error, at `z`. -/
theorem C123_two (h : LocTestN P z C) (hC : CostN C) (hn : n ≤ 10 ^ 9) {c : Fin n → ℚ} (hz : ∀ i, Val (z i) (c i)) (hc1 : ∀ i, 1 / 10 ^ 5 ≤ |c i|) (hc : ∀ i, |c i| ≤ 10 ^ 140) {t : ℚ} (ht : Val tol t)
    (ht2 : t < 1 / 2) (b : Bool) {x0 : Vec F64 n} {q0 : Fin n → ℚ} (hx0 : ∀ i, Val (x0 i) (q0 i)) (hlo : ∃ i, 5 / 10 ^ 6 ≤ |q0 i - c i|) (hhi : ∀ i, |q0 i - c i| ≤ |c i| / 2)
    (g : Vec F64 (P.dims.getD 0)) (H : Mat F64 (P.dims.getD 0)) (fuel : Nat) (w : W) :
    ∃ st, optimizeAcc (gnEnv (defaultSolverOpts litD) (eigenLinAlg tol inv) P) (testOptsD b) (fuel + 1) (-1) w (gnFresh P g H) x0 = .ok st ∧
      st.out.stop = .kMinError ∧ st.trace.length = 2 ∧ st.x = z := by
  have hfar : ∀ i, |q0 i - c i| ≤ 10 ^ 140 := fun i => by linarith [hhi i, hc i, abs_nonneg (c i)]
  obtain ⟨st, e, h1, h2, r, d, hlast, h4, h5, hnr, h6⟩ := gnN_run (inv := inv) h hC hn hz hc ht ht2 b hx0 hfar (k := 1) (by norm_num) (fun i => by
    have := hhi i; have := abs_nonneg (c i); norm_num; linarith) g H fuel w
  have hp := run_path e
  have hpos : 0 < st.trace.length := by
    rcases Nat.eq_zero_or_pos st.trace.length with h0 | h0
    · rw [List.eq_nil_of_length_eq_zero h0] at hlast; simp at hlast
    · exact h0
  obtain ⟨⟨q, hl⟩, -, d', h7, hT, -⟩ := h2 _ _ hlast
  rw [h4] at h7
  obtain rfl := Option.some.inj h7
  obtain ⟨y, hy⟩ := gnN_next h hz hc (fun j => (hl j).1) (fun j => (hl j).2.1) hT
  obtain ⟨hsmall, hwhy⟩ := gnN_near hC hn (fun j => (hl j).1) hT h6 hnr
  have hlen2 : 2 ≤ st.trace.length := by
    by_contra hne
    rw [show st.trace.length - 1 = 0 by omega] at hlast
    have hr0 : r.x = x0 := hp.head hlast
    obtain ⟨j, hj⟩ := hlo
    have hv := (hl j).1
    rw [hr0] at hv
    have h8 := hsmall j
    rw [hv.unique (hx0 j)] at h8
    norm_num at h8 hj
    linarith
  have hr0 := List.getElem?_eq_getElem (l := st.trace) (i := 0) (by omega)
  have hr1 := List.getElem?_eq_getElem (l := st.trace) (i := 1) (by omega)
  have hx1 : (st.trace[1]).x = z := by
    obtain ⟨⟨qu, hlu⟩, -, du, k1, k2, k3, k4⟩ := h2 _ _ hr0
    have hu0 : (st.trace[0]).x = x0 := hp.head hr0
    simp only [hu0] at hlu k2 k3
    obtain ⟨y, hy⟩ := gnN_next h hz hc (fun j => (hlu j).1) (fun j => (hlu j).2.1) k2
    rw [hp.next hr0 hr1, k3]
    funext j
    refine (hy j).2.2.1 ?_
    rw [(hlu j).1.unique (hx0 j)]; exact hhi j
  have hlen : st.trace.length = 2 := by
    by_contra hne
    obtain ⟨⟨qu, hlu⟩, -, du, k1, k2, k3, k4⟩ := h2 _ _ hr1
    obtain ⟨-, -, -, -, -, -, -, -, j, hj⟩ := gnN_lower h hC hn hz hc (fun j => (hlu j).1) (fun j => (hlu j).2.1) k2 (k4 (by omega))
    have := (hlu j).1
    rw [hx1] at this
    exact hj (this.unique (hz j))
  have hr : r.x = z := by
    rw [hlen] at hlast
    rw [hr1] at hlast
    rw [← Option.some.inj hlast]; exact hx1
  refine ⟨st, e, ?_, hlen, ?_⟩
  · rcases hwhy with h | ⟨-, h⟩
    · exact h
    · exfalso
      obtain ⟨ev, hev, he1, he2⟩ := lit_err
      have h0 := hC.zero (resN z r.x) fun i => by rw [hr]; exact val_self (hz i)
      rw [h0.lt hev, decide_eq_false_iff_not] at h
      exact h (by linarith)
  · rw [h5]
    funext j
    refine (hy j).2.2.1 ?_
    have h8 := hsmall j
    have h9 := hc1 j
    norm_num at h8 h9
    linarith

end

/-! ### the costs of the code: `squaredNorm()` and `norm()` -/

section
variable {n : ℕ}

theorem sum_sq_le (hn : n ≤ 10 ^ 9) {ρ : Fin n → ℚ} (hb : ∀ i, |ρ i| ≤ 10 ^ 141) : ∑ i, ρ i ^ 2 ≤ 10 ^ 291 := by
  have hn' : (n : ℚ) ≤ 10 ^ 9 := by exact_mod_cast hn
  calc ∑ i, ρ i ^ 2 ≤ ∑ _i : Fin n, (10 : ℚ) ^ 282 := Finset.sum_le_sum fun i _ => by
        rw [← sq_abs]
        calc |ρ i| ^ 2 ≤ (10 ^ 141) ^ 2 := pow_le_pow_left₀ (abs_nonneg _) (hb i) 2
          _ = 10 ^ 282 := by rw [← pow_mul]
    _ = n * 10 ^ 282 := by rw [Finset.sum_const, Finset.card_univ, Fintype.card_fin, nsmul_eq_mul]
    _ ≤ 10 ^ 9 * 10 ^ 282 := mul_le_mul_of_nonneg_right hn' (pow_nonneg (by norm_num) _)
    _ = 10 ^ 291 := by rw [← pow_add]

theorem sum_sq_drop {ρ ρ' : Fin n → ℚ} (h : ∀ i, |ρ' i| ≤ |ρ i| / 100) : ∑ i, ρ' i ^ 2 ≤ 1 / 10000 * ∑ i, ρ i ^ 2 := by
  rw [Finset.mul_sum]
  refine Finset.sum_le_sum fun i _ => ?_
  rw [← sq_abs, ← sq_abs (ρ i)]
  have := pow_le_pow_left₀ (abs_nonneg _) (h i) 2
  rw [div_pow] at this
  norm_num at this ⊢
  linarith

theorem sqNorm_valz {r : Vec F64 n} (hn : n ≤ 10 ^ 9) (h : ∀ i, Val (r i) 0) : Val (sqNorm r) 0 := by
  obtain ⟨s, h1, h2, h3⟩ := sumF_val hn (v := fun i => mul (r i) (r i)) (t := fun _ => 0) (fun i => by
    have := (h i).mul (h i) (by rw [mul_zero, abs_zero]; exact pow_nonneg (by norm_num) _)
    rwa [mul_zero, rndBin_zero] at this) (fun _ => le_refl _) (by simp)
  simp only [Finset.sum_const_zero, mul_zero, sub_zero] at h3
  rw [abs_nonpos_iff.1 h3] at h1
  exact h1

theorem tiny290 : (1 : ℚ) / 10 ^ 290 ≤ 1 / 10 ^ 40 := one_div_le_one_div_of_le (by norm_num) (big_ten (by norm_num))

/-- the cost `res.squaredNorm()` -/
theorem costN_sqNorm (hn : n ≤ 10 ^ 9) : CostN (n := n) sqNorm where
  val := fun r ρ h => by
    obtain ⟨s, h1, h2, h3⟩ := sqNorm_val hn (fun i => (h i).1) fun i => (h i).2
    refine ⟨s, h1, h2, ?_⟩
    have h4 := sum_sq_le hn fun i => (h i).2
    have h5 := tiny290
    have h6 : (1 : ℚ) ≤ 10 ^ 291 := one_le_pow₀ (by norm_num)
    have h7 : (10 : ℚ) ^ 300 = 10 ^ 9 * 10 ^ 291 := by rw [← pow_add]
    have h8 := (abs_le.1 h3).2
    rw [h7]
    clear h7 h3
    generalize (1 : ℚ) / 10 ^ 290 = η at *
    generalize (10 : ℚ) ^ 291 = B at *
    norm_num at h5
    linarith
  drop := fun r ρ r' ρ' y y' h h' hy hy' hd hS => by
    obtain ⟨s, h1, h2, h3⟩ := sqNorm_val hn (fun i => (h i).1) fun i => (h i).2
    obtain ⟨s', h1', h2', h3'⟩ := sqNorm_val hn (fun i => (h' i).1) fun i => (h' i).2
    obtain rfl := h1.unique hy
    obtain rfl := h1'.unique hy'
    have h4 := sum_sq_drop hd
    have h5 := tiny290
    have h6 := (abs_le.1 h3).1
    have h7 := (abs_le.1 h3').2
    generalize (1 : ℚ) / 10 ^ 290 = η at *
    norm_num at h5 hS
    constructor <;> linarith
  small := fun r ρ y h hy hs => by
    obtain ⟨s, h1, h2, h3⟩ := sqNorm_val hn (fun i => (h i).1) fun i => (h i).2
    obtain rfl := h1.unique hy
    have h5 := tiny290
    have h6 := (abs_le.1 h3).1
    generalize (1 : ℚ) / 10 ^ 290 = η at *
    norm_num at h5 hs ⊢
    linarith
  zero := fun r h => sqNorm_valz hn h

/-- the cost `res.norm()` -/
theorem costN_norm (hn : n ≤ 10 ^ 9) : CostN (n := n) fun r => FloatOps.sqrt (sqNorm r) where
  val := fun r ρ h => by
    obtain ⟨s, h1, h2, h3⟩ := (costN_sqNorm hn).val r ρ h
    obtain ⟨y, a1, a2, a3, a4, a5⟩ := h1.sqrt h2 h3
    refine ⟨y, a1, a2, ?_⟩
    by_contra hne
    have hne := not_le.1 hne
    have h7 : (1 : ℚ) ≤ 10 ^ 300 := one_le_pow₀ (by norm_num)
    have h10 : (10 : ℚ) ≤ 10 ^ 300 := by
      have := big_ten (a := 1) (b := 300) (by norm_num)
      rwa [pow_one] at this
    have h5 := tiny290
    generalize (1 : ℚ) / 10 ^ 290 = η at *
    generalize (10 : ℚ) ^ 300 = B at *
    norm_num at h5
    nlinarith
  drop := fun r ρ r' ρ' y y' h h' hy hy' hd hS => by
    obtain ⟨s, h1, h2, h3⟩ := sqNorm_val hn (fun i => (h i).1) fun i => (h i).2
    obtain ⟨s', h1', h2', h3'⟩ := sqNorm_val hn (fun i => (h' i).1) fun i => (h' i).2
    obtain ⟨sb, g1, -, g2⟩ := (costN_sqNorm hn).val r ρ h
    obtain ⟨sb', g1', -, g2'⟩ := (costN_sqNorm hn).val r' ρ' h'
    obtain rfl := h1.unique g1
    obtain rfl := h1'.unique g1'
    obtain ⟨u, a1, a2, a3, a4, a5⟩ := h1.sqrt h2 g2
    obtain ⟨u', a1', a2', a3', a4', a5'⟩ := h1'.sqrt h2' g2'
    obtain rfl := a1.unique hy
    obtain rfl := a1'.unique hy'
    have h4 := sum_sq_drop hd
    have h5 := tiny290
    have h6 := (abs_le.1 h3).1
    have h7 := (abs_le.1 h3').2
    clear g2 g2'
    generalize (1 : ℚ) / 10 ^ 290 = η at *
    norm_num at h5 hS
    have hu2 : u' ^ 2 ≤ 1 / 100 * u ^ 2 := by linarith
    have hu0 : 0 < u := by
      rcases eq_or_lt_of_le a2 with he | he
      · rw [← he] at a4; norm_num at a4; linarith
      · exact he
    refine ⟨hu0, ?_⟩
    by_contra hne
    have hne := not_le.1 hne
    have : (u / 10) ^ 2 < u' ^ 2 := pow_lt_pow_left₀ hne (by positivity) (by norm_num)
    rw [div_pow] at this
    norm_num at this
    linarith
  small := fun r ρ y h hy hs => by
    obtain ⟨s, h1, h2, h3⟩ := sqNorm_val hn (fun i => (h i).1) fun i => (h i).2
    obtain ⟨sb, g1, -, g2⟩ := (costN_sqNorm hn).val r ρ h
    obtain rfl := h1.unique g1
    obtain ⟨u, a1, a2, a3, a4, a5⟩ := h1.sqrt h2 g2
    obtain rfl := a1.unique hy
    have h5 := tiny290
    have h6 := (abs_le.1 h3).1
    have h7 : u ^ 2 ≤ (2 / 10 ^ 12) ^ 2 := pow_le_pow_left₀ a2 hs 2
    clear g2
    generalize (1 : ℚ) / 10 ^ 290 = η at *
    norm_num at h5 h7 ⊢
    linarith
  zero := fun r h => by
    have h1 := sqNorm_valz hn h
    obtain ⟨y, a1, a2, a3, a4, a5⟩ := h1.sqrt (le_refl _) (pow_nonneg (by norm_num) _)
    rw [a5 rfl] at a1
    exact a1

/-- the prior of tests/optimizers.cpp:99-113, with any number of parameters: residuals `x - z`, cost `norm()` -/
def priorN (z : Vec F64 n) : Problem F64 F64 Nat (Vec F64 n) where
  dims := some n
  dynDims := fun _ => n
  plusEq := fun x d i => if h : i.1 < d.n then add (x i) (d.v ⟨i.1, h⟩) else x i
  clock := fun w => (ofInt 0, w)
  alloc := fun w n => (some (fun _ => ofInt 0, fun _ _ => ofInt 0), w)
  ratio1 := ofInt 1
  acc :=
    { full := fun w x m _ _ => (({ cost := FloatOps.sqrt (sqNorm (resN z x)), num := n, inlier := ofInt 1 }, fun i => if h : i.1 < n then resN z x ⟨i.1, h⟩ else ofInt 0,
        fun i j => if i = j then ofInt 1 else ofInt 0), w)
      eval := fun w x => ({ cost := FloatOps.sqrt (sqNorm (resN z x)), num := n, inlier := ofInt 1 }, w) }

theorem priorN_loc (z : Vec F64 n) (hn : 0 < n) : LocTestN (priorN z) z fun r => FloatOps.sqrt (sqNorm r) where
  pos := hn
  dims := rfl
  dyn := fun _ => rfl
  plus := fun x v => by
    funext i
    show (if h : i.1 < n then add (x i) (v ⟨i.1, h⟩) else x i) = _
    rw [dif_pos i.2]
  full := fun w x g H _ => by
    refine ⟨{ cost := FloatOps.sqrt (sqNorm (resN z x)), num := n, inlier := ofInt 1 }, w, ?_, rfl, Int.natCast_pos.2 hn⟩
    simp only [priorN]
    congr 3
    funext i
    rw [dif_pos i.2]

/-- `z = (3, 2, 1)` -/
def prior321 : Vec F64 3 := ![ofInt 3, ofInt 2, ofInt 1]

theorem prior321_val : ∀ i, Val (prior321 i) (![3, 2, 1] i) := by
  have key : ∀ k : ℕ, k < 2 ^ 53 → Val (ofInt (k : ℤ)) (k : ℚ) := fun k hk => by
    refine val_grid (q := ((k : ℤ) : ℚ)) ⟨k, 0, by rw [abs_of_nonneg (by positivity)]; exact_mod_cast hk, by norm_num, by simp⟩ ?_
    push_cast
    rw [abs_of_nonneg (by positivity)]
    calc (k : ℚ) ≤ 2 ^ 53 := by exact_mod_cast hk.le
      _ ≤ 10 ^ 16 := by norm_num
      _ ≤ _ := big_ten (by norm_num)
  intro i
  fin_cases i
  · exact key 3 (by norm_num)
  · exact key 2 (by norm_num)
  · exact key 1 (by norm_num)

theorem le_big140 {q : ℚ} (h : q ≤ 10) : q ≤ 10 ^ 140 := by
  have := big_ten (a := 1) (b := 140) (by norm_num)
  rw [pow_one] at this
  exact h.trans this

/-- the prior of tests/optimizers.cpp: `x = 0`, `z = (3, 2, 1)` -/
example (inv : (n : Nat) → Mat F64 n → Mat F64 n) (fuel : Nat) :
    ∃ st, optimizeAcc (gnEnv (defaultSolverOpts litD) (eigenLinAlg (Fl.mk (1 / 2 ^ 1022)) inv) (priorN prior321)) (testOptsD false) (fuel + 1) (-1) 0
        (gnFresh (priorN prior321) (fun _ => ofInt 0) fun _ _ => ofInt 0) (fun _ => ofInt 0) = .ok st ∧
      st.out.converged = true ∧ st.trace.length ≤ 3 ∧ st.x = prior321 := by
  obtain ⟨t, ht, ht2⟩ := val_tol
  obtain ⟨st, e, -, h1, -, h2, -, h3⟩ := C123_gn_exact (inv := inv) (priorN_loc prior321 (by norm_num)) (costN_norm (by norm_num)) (by norm_num) prior321_val
    (fun i => by fin_cases i <;> simp <;> norm_num) (fun i => le_big140 (by fin_cases i <;> simp <;> norm_num)) ht ht2 false (x0 := fun _ => ofInt 0) (q0 := fun _ => 0) (fun _ => val_zero)
    (fun i => le_big140 (by fin_cases i <;> simp <;> norm_num)) (k := 1) (by norm_num) (fun i => by fin_cases i <;> simp <;> norm_num) (fun _ => ofInt 0) (fun _ _ => ofInt 0) fuel 0
  exact ⟨st, e, h1, h2, h3⟩

/-- from `(2, 2, 1)` the same run takes 2 iterations and ends because of the error -/
example (inv : (n : Nat) → Mat F64 n → Mat F64 n) (fuel : Nat) :
    ∃ st, optimizeAcc (gnEnv (defaultSolverOpts litD) (eigenLinAlg (Fl.mk (1 / 2 ^ 1022)) inv) (priorN prior321)) (testOptsD false) (fuel + 1) (-1) 0
        (gnFresh (priorN prior321) (fun _ => ofInt 0) fun _ _ => ofInt 0) (fun i => if i = 0 then ofInt 2 else prior321 i) = .ok st ∧
      st.out.stop = .kMinError ∧ st.trace.length = 2 ∧ st.x = prior321 := by
  obtain ⟨t, ht, ht2⟩ := val_tol
  exact C123_two (inv := inv) (priorN_loc prior321 (by norm_num)) (costN_norm (by norm_num)) (by norm_num) prior321_val
    (fun i => by fin_cases i <;> simp <;> norm_num) (fun i => le_big140 (by fin_cases i <;> simp <;> norm_num)) ht ht2 false (q0 := ![2, 2, 1])
    (fun i => by
      by_cases h : i = 0
      · subst h; exact val_two
      · rw [if_neg h]
        have := prior321_val i
        fin_cases i
        · exact absurd rfl h
        · exact this
        · exact this)
    ⟨0, by simp; norm_num⟩ (fun i => by fin_cases i <;> simp <;> norm_num) (fun _ => ofInt 0) (fun _ _ => ofInt 0) fuel 0

end
end Verif
