import Verif.Props.EigenLLT
/-!
# Rounding errors of the LLT decomposition and of the forward substitution
-/

set_option linter.unusedSectionVars false

namespace Verif
open FloatOps

section
variable {n : Nat} {u : ℝ} {r : Rnd u}

/-- the relative error of the factor -/
def lltErr (u : ℝ) (n : ℕ) : ℝ := (1 + u) ^ (n + 5) - 1

theorem lltErr_nonneg (hu : 0 ≤ u) (n : ℕ) : 0 ≤ lltErr u n := by unfold lltErr; linarith [one_le_pow_u hu (n + 5)]

theorem lltErr_le (hu : 0 ≤ u) {n k : ℕ} (h : k ≤ n + 5) : (1 + u) ^ k - 1 ≤ lltErr u n := by unfold lltErr; linarith [pow_u_mono hu h]

theorem lltDot_near (hu : 0 ≤ u) (M : Mat (Rd r) n) {k i j : Fin n} (hi : k ≤ i) (hj : k ≤ j) :
    |(lltDot M k i j).v - ldM (lcols (matV M) k) i j| ≤ lltErr u n * ldAbs (lcols (matV M) k) i j := by
  obtain ⟨h1, h2⟩ := lcols_out (matV M) (Fin.le_def.1 hi) (Fin.le_def.1 hj)
  have h0 : Near u 1 (ofInt 0 : Rd r).v 0 0 := by
    rw [Rd.ofInt_zero_v]
    simpa using Near.exact (u := u) 1 hu 0
  have := foldl_near2 hu (fun l => M i l) (fun l => M j l) ((List.finRange n).take k) 1 (ofInt 0) 0 0 le_rfl h0
  rw [h1, h2]
  have h3 := this.2
  rw [zero_add, zero_add] at h3
  refine h3.trans (mul_le_mul_of_nonneg_right (lltErr_le hu ?_) ?_)
  · have := k.isLt
    simp; omega
  · refine List.sum_nonneg fun y hy => ?_
    obtain ⟨l, -, rfl⟩ := List.mem_map.1 hy
    exact abs_nonneg _

/-- a coefficient without the columns before it -/
theorem lltRest_near (hu : 0 ≤ u) (hu2 : u ≤ 1 / 2) (M : Mat (Rd r) n) {k i : Fin n} (hi : k ≤ i) :
    |(M i k).v - ldM (lcols (matV M) k) i k - (lltRest M k i).v| ≤ lltErr u n * ldAbs (lcols (matV M) k) i k + ((1 + u) ^ 2 - 1) * |(lltRest M k i).v| := by
  have h2 : 0 ≤ (1 + u) ^ 2 - 1 := by nlinarith
  unfold lltRest
  split
  next h0 =>
    have e : ldM (lcols (matV M) k) i k = 0 := by rw [h0]; simp [lcols, ldM]
    rw [e, sub_zero, sub_self, abs_zero]
    exact add_nonneg (mul_nonneg (lltErr_nonneg hu n) (ldAbs_nonneg _ _ _)) (mul_nonneg h2 (abs_nonneg _))
  · have h3 := lltDot_near hu M hi le_rfl
    have h4 := r.back hu hu2 ((M i k).v - (lltDot M k i k).v)
    rw [Rd.sub_v]
    have e : (M i k).v - ldM (lcols (matV M) k) i k - r.rnd ((M i k).v - (lltDot M k i k).v) =
        ((lltDot M k i k).v - ldM (lcols (matV M) k) i k) + ((M i k).v - (lltDot M k i k).v - r.rnd ((M i k).v - (lltDot M k i k).v)) := by ring
    rw [e]
    exact (abs_add_le _ _).trans (add_le_add h3 h4)

/-- a square root against its square -/
theorem sqrt_back (hu : 0 ≤ u) (hu2 : u ≤ 1 / 2) {x : ℝ} (hx : 0 < x) :
    0 < r.rnd √x ∧ |x - r.rnd √x * r.rnd √x| ≤ ((1 + u) ^ 4 - 1) * (r.rnd √x * r.rnd √x) := by
  have hs : 0 < √x := Real.sqrt_pos.2 hx
  have hp := (r.pos hu2 hs).2
  have hb := r.back hu hu2 √x
  rw [abs_of_pos hp] at hb
  refine ⟨hp, ?_⟩
  set d := r.rnd √x with hd
  have e : x - d * d = (√x - d) * (√x + d) := by nlinarith [Real.mul_self_sqrt hx.le]
  have h1 : |√x + d| ≤ ((1 + u) ^ 2 + 1) * d := by
    rw [abs_of_pos (by linarith)]
    have := (abs_le.1 hb).2
    linarith
  rw [e, abs_mul]
  calc |√x - d| * |√x + d| ≤ (((1 + u) ^ 2 - 1) * d) * (((1 + u) ^ 2 + 1) * d) := mul_le_mul hb h1 (abs_nonneg _) (mul_nonneg (by nlinarith) hp.le)
    _ = _ := by ring

/-- a column with rounding -/
theorem LltInv.col_round (hu : 0 ≤ u) (hu2 : u ≤ 1 / 2) {A M M' : Mat (Rd r) n} (hA : SymR (matV A)) {k : Fin n} (h : LltInv (lltErr u n) (matV A) k (matV M))
    (hc : lltCol M k = some M') : LltInv (lltErr u n) (matV A) (k + 1) (matV M') := by
  obtain ⟨h1, h2, h3, h4⟩ := lltCol_some hc
  have hx : 0 < (lltRest M k k).v := by
    rw [Bool.or_eq_false_iff] at h1
    have a := h1.1; have b := h1.2
    rw [Rd.lt_false, Rd.ofInt_zero_v] at a
    have b' : ¬ (lltRest M k k).v = (ofInt 0 : Rd r).v := of_decide_eq_false b
    rw [Rd.ofInt_zero_v] at b'
    exact lt_of_le_of_ne a (fun e => b' e.symm)
  obtain ⟨hs, hb⟩ := sqrt_back (r := r) hu hu2 hx
  have hkk : matV M' k k = r.rnd √(lltRest M k k).v := by unfold matV; rw [h3]; rfl
  refine h.step hA rfl (fun i j hj => by unfold matV; rw [h2 i j hj]) (by rw [hkk]; exact hs) fun i hi => ?_
  have hrest := lltRest_near hu hu2 M hi
  rw [show (M i k).v = matV A i k from h.keep i k le_rfl] at hrest
  have h2' : 0 ≤ (1 + u) ^ 2 - 1 := by nlinarith
  have hone : 1 ≤ (1 + u) ^ 2 := by linarith
  -- what is left against the product
  have hl : |(lltRest M k i).v - matV M' i k * matV M' k k| ≤ ((1 + u) ^ 4 - 1) * |matV M' i k * matV M' k k| := by
    rcases eq_or_lt_of_le hi with rfl | hlt
    · rw [hkk, abs_of_pos (mul_pos hs hs)]
      exact hb
    · have e4 : matV M' i k = r.rnd ((lltRest M k i).v / matV M' k k) := by
        rw [hkk]; unfold matV; rw [h4 i hlt]; rfl
      have hq := r.back hu hu2 ((lltRest M k i).v / matV M' k k)
      rw [← e4] at hq
      have hd : 0 < matV M' k k := by rw [hkk]; exact hs
      have e : (lltRest M k i).v - matV M' i k * matV M' k k = ((lltRest M k i).v / matV M' k k - matV M' i k) * matV M' k k := by field_simp
      rw [e, abs_mul, abs_mul, ← mul_assoc]
      refine (mul_le_mul_of_nonneg_right hq (abs_nonneg _)).trans ?_
      refine mul_le_mul_of_nonneg_right (mul_le_mul_of_nonneg_right ?_ (abs_nonneg _)) (abs_nonneg _)
      linarith [pow_u_mono hu (show 2 ≤ 4 by norm_num)]
  set p := matV M' i k * matV M' k k with hp
  have hsz : |(lltRest M k i).v| ≤ (1 + u) ^ 4 * |p| := by
    have := abs_add_le ((lltRest M k i).v - p) p
    rw [sub_add_cancel] at this
    linarith
  have hsz2 := mul_le_mul_of_nonneg_left hsz h2'
  have e : matV A i k - (ldM (lcols (matV M) k) i k + p) = (matV A i k - ldM (lcols (matV M) k) i k - (lltRest M k i).v) + ((lltRest M k i).v - p) := by ring
  rw [e]
  have h6 : ((1 + u) ^ 6 - 1) * |p| ≤ lltErr u n * |p| := by
    refine mul_le_mul_of_nonneg_right (lltErr_le hu ?_) (abs_nonneg _)
    have := k.pos
    omega
  have h7 : ((1 + u) ^ 2 - 1) * ((1 + u) ^ 4 * |p|) + ((1 + u) ^ 4 - 1) * |p| = ((1 + u) ^ 6 - 1) * |p| := by ring
  have h8 := abs_add_le (matV A i k - ldM (lcols (matV M) k) i k - (lltRest M k i).v) ((lltRest M k i).v - p)
  rw [mul_add]
  linarith

/-- the pivot -/
theorem LltInv.pivot_round (hu : 0 ≤ u) (hu2 : u ≤ 1 / 2) {μ : ℝ} {A M : Mat (Rd r) n} (hA : Coercive μ (matV A)) (hμ : 2 * (n + 1) * lltErr u n ≤ μ) (hμ0 : 0 < μ) (hμ1 : μ ≤ 1)
    {k : Fin n} (h : LltInv (lltErr u n) (matV A) k (matV M)) : 0 < (lltRest M k k).v := by
  have ht := taken_core (D := fun i : Fin n => i.val < k.val) hA (lltErr_nonneg hu n) hμ hμ1 (lcols_pos (matV M) k) h.near (k := k) (by omega) (h.elim k (by omega))
  have hd := lltDot_near hu M (k := k) (i := k) (j := k) le_rfl le_rfl
  rw [ldM_diag (lcols_pos _ _)] at hd
  have hM0 : 0 ≤ ldM (lcols (matV M) k) k k := ldM_diag_nonneg (lcols_pos _ _) k
  set Q := ldM (lcols (matV M) k) k k with hQ
  set G := lltErr u n with hG
  have hG0 : 0 ≤ G := lltErr_nonneg hu n
  have hn : (1 : ℝ) ≤ n := by
    have : 0 < n := k.pos
    exact_mod_cast this
  have hakk : 0 < matV A k k := hA.diag k
  unfold lltRest
  split
  · rw [show (M k k).v = matV A k k from h.keep k k le_rfl]; exact hakk
  · have hd2 : (lltDot M k k k).v ≤ (1 + G) * Q := by
      have := (abs_le.1 hd).2
      linarith
    have hnG : n * G ≤ 1 / 2 := by nlinarith
    have h1 : (1 + G) * Q * (1 - n * G) ≤ (1 - μ / 2) * matV A k k * (1 - n * G) := by
      have h2 : (1 + G) * ((1 - μ) * matV A k k) ≤ (1 - μ / 2) * (1 - n * G) * matV A k k := by
        have h3 : (1 + G) * (1 - μ) ≤ (1 - μ / 2) * (1 - n * G) := by nlinarith [mul_nonneg hG0 hμ0.le, mul_nonneg (mul_nonneg hG0 hμ0.le) (by linarith : (0:ℝ) ≤ n)]
        nlinarith
      have := mul_le_mul_of_nonneg_left ht (show 0 ≤ 1 + G by linarith)
      linarith
    have h4 : (1 + G) * Q ≤ (1 - μ / 2) * matV A k k := le_of_mul_le_mul_right h1 (by linarith)
    have h6 : 0 < (M k k).v - (lltDot M k k k).v := by
      rw [show (M k k).v = matV A k k from h.keep k k le_rfl]
      have : 0 < μ / 2 * matV A k k := by positivity
      linarith
    exact (r.pos hu2 h6).2

/-- the decomposition of a matrix that is not too badly conditioned succeeds, and the product of the factors is close to the matrix -/
theorem eigenLlt_rounded (hu : 0 ≤ u) (hu2 : u ≤ 1 / 2) {μ : ℝ} {A : Mat (Rd r) n} (hA : Coercive μ (matV A)) (hμ : 2 * (n + 1) * lltErr u n ≤ μ) (hμ0 : 0 < μ) (hμ1 : μ ≤ 1) :
    (eigenLlt A).2 = none ∧ LltInv (lltErr u n) (matV A) n (matV (eigenLlt A).1) := by
  have h := eigenLlt_inv (I := fun m M => LltInv (lltErr u n) (matV A) m (matV M)) A (lltInv_zero _ _) fun _ _ _ h hc => h.col_round hu hu2 hA.sym hc
  match e : (eigenLlt A).2 with
  | none => rw [e] at h; exact ⟨rfl, h⟩
  | some k =>
    rw [e] at h
    have hp := h.1.pivot_round hu hu2 hA hμ hμ0 hμ1
    have hn := h.2
    unfold lltCol at hn
    simp only at hn
    rw [if_neg] at hn
    · cases hn
    · rw [Bool.or_eq_true, not_or]
      constructor
      · rw [Rd.lt_iff, Rd.ofInt_zero_v]; exact not_lt.2 hp.le
      · intro e
        have : (lltRest (eigenLlt A).1 k k).v = (ofInt 0 : Rd r).v := of_decide_eq_true e
        rw [Rd.ofInt_zero_v] at this
        exact hp.ne' this

/-- the forward substitution: each row up to rounding -/
theorem fwdSolve_rounded (hu : 0 ≤ u) (hu2 : u ≤ 1 / 2) {M : Mat (Rd r) n} (hd : ∀ i, (M i i).v ≠ 0) (b : Vec (Rd r) n) (i : Fin n) :
    |(b i).v - mv (lowerR (matV M)) (fun l => (fwdSolve M b l).v) i| ≤ lltErr u n * ∑ l, |lowerR (matV M) i l| * |(fwdSolve M b l).v| := by
  have hrow := fwdSolve_row M b i
  set x := fwdSolve M b with hx
  have e2 : ∑ l, |lowerR (matV M) i l| * |(x l).v| = (((List.finRange n).take i).map fun l => |(M i l).v * (x l).v|).sum + |(M i i).v * (x i).v| := by
    have := lower_row (fun i l => |(M i l).v|) (fun l => |(x l).v|) i
    have e3 : mv (lowerR fun i l => |(M i l).v|) (fun l => |(x l).v|) i = ∑ l, |lowerR (matV M) i l| * |(x l).v| := by
      unfold mv
      refine Finset.sum_congr rfl fun l _ => ?_
      unfold lowerR matV
      split <;> simp
    rw [← e3, this]
    simp only [abs_mul]
  rw [lower_row, e2]
  have h0 : Near u 1 (ofInt 0 : Rd r).v 0 0 := by
    rw [Rd.ofInt_zero_v]
    simpa using Near.exact (u := u) 1 hu 0
  have hdot := (foldl_near2 hu (fun l => M i l) (fun l => x l) ((List.finRange n).take i) 1 (ofInt 0) 0 0 le_rfl h0).2
  rw [zero_add, zero_add] at hdot
  have hS : 0 ≤ (((List.finRange n).take i).map fun l => |(M i l).v * (x l).v|).sum := by
    refine List.sum_nonneg fun y hy => ?_
    obtain ⟨l, -, rfl⟩ := List.mem_map.1 hy
    exact abs_nonneg _
  replace hdot := hdot.trans (mul_le_mul_of_nonneg_right (lltErr_le (n := n) hu (by have := i.isLt; simp; omega)) hS)
  unfold fwdRow at hrow
  set dt := ((List.finRange n).take i).foldl (fun a l => add a (mul (M i l) (x l))) (ofInt 0) with hdt
  set T := (((List.finRange n).take i).map fun l => (M i l).v * (x l).v).sum with hT
  set U := (((List.finRange n).take i).map fun l => |(M i l).v * (x l).v|).sum with hU
  set y := (if i.val = 0 then b i else sub (b i) dt) with hy
  have hT' : (((List.finRange n).take i).map fun l => matV M i l * (x l).v).sum = T := rfl
  rw [hT', show matV M i i = (M i i).v from rfl]
  have h2 : 0 ≤ (1 + u) ^ 2 - 1 := by nlinarith
  have hyb : |(b i).v - T - y.v| ≤ lltErr u n * U + ((1 + u) ^ 2 - 1) * |y.v| := by
    rw [hy]
    split
    next h0 =>
      have e : T = 0 := by rw [hT, h0]; simp
      rw [e, sub_zero, sub_self, abs_zero]
      exact add_nonneg (mul_nonneg (lltErr_nonneg hu n) hS) (mul_nonneg h2 (abs_nonneg _))
    · have h4 := r.back hu hu2 ((b i).v - dt.v)
      rw [Rd.sub_v]
      have e : (b i).v - T - r.rnd ((b i).v - dt.v) = (dt.v - T) + ((b i).v - dt.v - r.rnd ((b i).v - dt.v)) := by ring
      rw [e]
      exact (abs_add_le _ _).trans (add_le_add hdot h4)
  have hxi : (x i).v = r.rnd (y.v / (M i i).v) := by
    conv_lhs => rw [hrow]
    rfl
  have hq := r.back hu hu2 (y.v / (M i i).v)
  rw [← hxi] at hq
  have hdi := hd i
  have hl : |y.v - (M i i).v * (x i).v| ≤ ((1 + u) ^ 2 - 1) * |(M i i).v * (x i).v| := by
    have e : y.v - (M i i).v * (x i).v = (M i i).v * (y.v / (M i i).v - (x i).v) := by field_simp
    rw [e, abs_mul, abs_mul]
    have := mul_le_mul_of_nonneg_left hq (abs_nonneg (M i i).v)
    linarith
  set p := (M i i).v * (x i).v with hp
  have hsz : |y.v| ≤ (1 + u) ^ 2 * |p| := by
    have := abs_add_le (y.v - p) p
    rw [sub_add_cancel] at this
    linarith
  have hsz2 := mul_le_mul_of_nonneg_left hsz h2
  have e : (b i).v - (T + p) = ((b i).v - T - y.v) + (y.v - p) := by ring
  rw [e]
  have h8 := abs_add_le ((b i).v - T - y.v) (y.v - p)
  have h6 : ((1 + u) ^ 4 - 1) * |p| ≤ lltErr u n * |p| := mul_le_mul_of_nonneg_right (lltErr_le hu (by omega)) (abs_nonneg _)
  have h7 : ((1 + u) ^ 2 - 1) * ((1 + u) ^ 2 * |p|) + ((1 + u) ^ 2 - 1) * |p| = ((1 + u) ^ 4 - 1) * |p| := by ring
  rw [mul_add]
  linarith

end
end Verif
