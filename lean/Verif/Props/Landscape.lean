import Verif.Model.Landscape
import Verif.Props.TestDerivs
import Mathlib.Topology.Order.LocalExtr
import Mathlib.Topology.Order.IntermediateValue
import Mathlib.Analysis.Calculus.LocalExtr.Basic
import Mathlib.Analysis.Real.Pi.Bounds
import Mathlib.Tactic.Linarith
import Mathlib.Tactic.LinearCombination
import Mathlib.Tactic.Positivity
import Mathlib.Data.Set.Card
/-!
# C136: the minima of the test problems of tests/optimize_easy.cpp and tests/optimize_hard.cpp
-/

namespace Verif.Landscape
open Loss Filter Topology

theorem sq_nonneg' {n m : Nat} (r : RVec n → RVec m) (v : RVec n) : 0 ≤ sq r v := Finset.sum_nonneg fun i _ => sq_nonneg _

theorem sq_zero {n m : Nat} (r : RVec n → RVec m) (v : RVec n) : sq r v = 0 ↔ r v = 0 := by
  rw [sq, Finset.sum_eq_zero_iff_of_nonneg fun i _ => sq_nonneg _]
  simp [funext_iff]

theorem localMin_of_zero {n m : Nat} {r : RVec n → RVec m} {v : RVec n} (h : r v = 0) : IsLocalMin (sq r) v :=
  Filter.Eventually.of_forall fun y => by rw [(sq_zero r v).2 h]; exact sq_nonneg' r y

/-- at a local minimum the gradient vanishes -/
theorem grad_zero {n : Nat} {f : RVec n → ℝ} {J v : RVec n} (hm : IsLocalMin f v) (h : HasGrad f J v) : J = 0 := by
  have e := hm.hasFDerivAt_eq_zero h
  funext i
  have := congrArg (fun l : RVec n →L[ℝ] ℝ => l (Pi.single i 1)) e
  simpa [rowCLM_apply] using this

/-- a path along which the function falls -/
theorem not_localMin {n : Nat} {f : RVec n → ℝ} {v : RVec n} (γ : ℝ → RVec n) (hc : ∀ i, ContinuousAt (fun t => γ t i) 0) (h0 : γ 0 = v) {u : ℝ} (hu : 0 < u)
    (hlt : ∀ t, 0 < t → t < u → f (γ t) < f v) : ¬ IsLocalMin f v := by
  intro hm
  have hc' : ContinuousAt γ 0 := continuousAt_pi.2 hc
  have h1 : ∀ᶠ t in 𝓝 (0 : ℝ), f v ≤ f (γ t) := hc'.tendsto.eventually (p := fun y => f v ≤ f y) (by rw [h0]; exact hm)
  have h2 : ∀ᶠ t in 𝓝[>] (0 : ℝ), 0 < t ∧ t < u := by
    filter_upwards [self_mem_nhdsWithin, nhdsWithin_le_nhds (gt_mem_nhds hu)] with t h1 h2 using ⟨h1, h2⟩
  obtain ⟨t, ht, ht2⟩ := (h2.and (nhdsWithin_le_nhds h1)).exists
  have := hlt t ht.1 ht.2
  linarith

theorem vec2 (v : RVec 2) : v = ![v 0, v 1] := by funext i; fin_cases i <;> rfl

/-! ### Rosenbrock -/

/-- C136, Rosenbrock: (1, 1) is the only point with vanishing gradient, the only zero of the cost and its only local minimum; and the Hessian is positive definite
exactly at the points below the parabola `y = x² + 1/200`. -/
theorem C136_rosenbrock (v : Vec ℝ 2) : (rosen v = 0 ↔ v = ![1, 1]) ∧ (rosenG v = 0 ↔ v = ![1, 1]) ∧ (IsLocalMin rosen v ↔ v = ![1, 1]) ∧
    (PD (rosenH v) ↔ v 1 < v 0 ^ 2 + 1 / 200) := by
  have hst : rosenG v = 0 ↔ v = ![1, 1] := by
    rw [rosen_stationary]
    constructor
    · rintro ⟨h0, h1⟩; rw [vec2 v, h0, h1]
    · rintro rfl; simp
  refine ⟨?_, hst, ⟨fun hm => hst.1 (grad_zero hm (rosen_derivs.grad v)), ?_⟩, ?_⟩
  · constructor
    · intro h
      unfold rosen at h
      have h0 : 1 - v 0 = 0 := by nlinarith [sq_nonneg (1 - v 0), sq_nonneg (v 1 - v 0 ^ 2)]
      have h1 : v 1 - v 0 ^ 2 = 0 := by nlinarith [sq_nonneg (1 - v 0), sq_nonneg (v 1 - v 0 ^ 2)]
      have h2 : v 0 = 1 := by linarith
      rw [vec2 v, h2]
      rw [h2] at h1
      rw [show v 1 = 1 by linarith]
    · rintro rfl; simp [rosen]
  · rintro rfl
    refine Filter.Eventually.of_forall fun y => ?_
    have : rosen ![1, 1] = 0 := by simp [rosen]
    rw [this]
    unfold rosen; positivity
  · have hq : ∀ w : Vec ℝ 2, dotR w (mv (rosenH v) w) = 200 * (w 1 - 2 * v 0 * w 0) ^ 2 + (2 + 400 * (v 0 ^ 2 - v 1)) * w 0 ^ 2 := fun w => by
      simp [dotR, mv, Fin.sum_univ_two, rosenH]; ring
    constructor
    · intro h
      have := h.2 ![1, 2 * v 0] (fun e => by simpa using congrFun e 0)
      rw [hq] at this
      simp at this
      linarith
    · intro h
      refine ⟨fun i j => by fin_cases i <;> fin_cases j <;> simp [rosenH], fun w hw => ?_⟩
      rw [hq]
      have hp : 0 < 2 + 400 * (v 0 ^ 2 - v 1) := by linarith
      by_cases h0 : w 0 = 0
      · have h1 : w 1 ≠ 0 := fun h1 => hw (by rw [vec2 w, h0, h1]; funext i; fin_cases i <;> rfl)
        rw [h0]
        have : 0 < w 1 ^ 2 := by positivity
        nlinarith
      · have : 0 < w 0 ^ 2 := by positivity
        nlinarith [sq_nonneg (w 1 - 2 * v 0 * w 0), mul_pos hp this]

/-- the start of the test lies below, so its first damped system can be solved -/
example : PD (rosenH ![-6 / 5, 1]) := ((C136_rosenbrock _).2.2.2).2 (by norm_num)

/-! ### Powell -/

/-- C136, Powell: the origin is the only point with vanishing gradient and the only local minimum. The Hessian is positive semidefinite everywhere; at the origin it is singular,
with every positive damping it is positive definite there and everywhere. -/
theorem C136_powell (v : Vec ℝ 4) : (powellF v = 0 ↔ v = 0) ∧ (powellG v = 0 ↔ v = 0) ∧ (IsLocalMin powellF v ↔ v = 0) ∧
    PSD (powellH v) ∧ ¬ PD (powellH 0) ∧ ∀ l, 0 < l → PD (dampedR l (powellH v)) := by
  have hz : (∀ i, powT v i = 0) → v = 0 := fun h => by
    have h0 := h 0; have h1 := h 1; have h2 := h 2; have h3 := h 3
    simp [powT] at h0 h1 h2 h3
    funext i
    fin_cases i <;> simp <;> linarith
  have hF : ∀ w, 0 ≤ powellF w := fun w => by
    unfold powellF
    nlinarith [mul_self_nonneg (powT w 0), mul_self_nonneg (powT w 1), sq_nonneg (powT w 2 ^ 2), sq_nonneg (powT w 3 ^ 2)]
  have hT0 : ∀ i, powT 0 i = 0 := fun i => by fin_cases i <;> simp [powT]
  have hG : powellG v = 0 ↔ v = 0 := by
    constructor
    · intro h
      have e : 2 * powT v 0 ^ 2 + 10 * powT v 1 ^ 2 + 4 * (powT v 2 ^ 2) ^ 2 + 40 * (powT v 3 ^ 2) ^ 2 = ∑ i, v i * powellG v i := by
        rw [Fin.sum_univ_four]; simp [powellG, powT]; ring
      rw [h] at e
      simp at e
      refine hz fun i => ?_
      have p0 := sq_nonneg (powT v 0)
      have p1 := sq_nonneg (powT v 1)
      have p2 := sq_nonneg (powT v 2 ^ 2)
      have p3 := sq_nonneg (powT v 3 ^ 2)
      fin_cases i
      · show powT v 0 = 0; exact (pow_eq_zero_iff (n := 2) two_ne_zero).1 (by linarith)
      · show powT v 1 = 0; exact (pow_eq_zero_iff (n := 2) two_ne_zero).1 (by linarith)
      · show powT v 2 = 0; exact (pow_eq_zero_iff (n := 2) two_ne_zero).1 (pow_eq_zero_iff (n := 2) two_ne_zero |>.1 (by linarith))
      · show powT v 3 = 0; exact (pow_eq_zero_iff (n := 2) two_ne_zero).1 (pow_eq_zero_iff (n := 2) two_ne_zero |>.1 (by linarith))
    · rintro rfl
      funext i
      fin_cases i <;> simp [powellG, hT0]
  have h0 : powellF 0 = 0 := by simp [powellF, hT0]
  have hq : ∀ u w : Vec ℝ 4, dotR w (mv (powellH u) w) = 2 * (w 0 + 10 * w 1) ^ 2 + 10 * (w 2 - w 3) ^ 2 + 12 * (powT u 2 * (w 1 - 2 * w 2)) ^ 2 +
      120 * (powT u 3 * (w 0 - w 3)) ^ 2 := fun u w => by
    simp [dotR, mv, Fin.sum_univ_four, powellH]; ring
  have hpsd : PSD (powellH v) := by
    refine ⟨fun i j => by fin_cases i <;> fin_cases j <;> simp [powellH], fun w => ?_⟩
    rw [hq]; positivity
  refine ⟨⟨fun h => hG.1 (grad_zero (Filter.Eventually.of_forall fun y => by rw [h]; exact hF y) (powell_derivs.grad v)), ?_⟩, hG, ⟨fun hm => hG.1 (grad_zero hm (powell_derivs.grad v)), ?_⟩, hpsd, ?_, ?_⟩
  · rintro rfl; exact h0
  · rintro rfl
    exact Filter.Eventually.of_forall fun y => by rw [h0]; exact hF y
  · intro h
    have := h.2 ![10, -1, 0, 0] (fun e => by simpa using congrFun e 1)
    rw [hq] at this
    simp [hT0] at this
  · intro l hl
    refine damped_pd hpsd (fun i => ?_) hl
    fin_cases i <;> simp [powellH] <;> nlinarith [mul_self_nonneg (powT v 2), mul_self_nonneg (powT v 3)]

/-! ### the plateau -/

/-- C136, plateau: the cost is never negative and vanishes at (pi, pi) only. -/
theorem C136_plateau (v : Vec ℝ 2) : 0 ≤ plF v ∧ (plF v = 0 ↔ v = fun _ => Real.pi) := by
  have hE : plE v ≤ 1 := by
    unfold plE
    rw [Real.exp_le_one_iff]
    nlinarith [mul_self_nonneg (v 0 - Real.pi), mul_self_nonneg (v 1 - Real.pi)]
  have hE0 : 0 < plE v := Real.exp_pos _
  have hc : Real.cos (v 0) * Real.cos (v 1) ≤ 1 := by
    have h0 := abs_le.1 (Real.abs_cos_le_one (v 0))
    have h1 := abs_le.1 (Real.abs_cos_le_one (v 1))
    nlinarith
  have hle : Real.cos (v 0) * Real.cos (v 1) * plE v ≤ plE v := by nlinarith
  refine ⟨by unfold plF; linarith, fun h => ?_, ?_⟩
  · unfold plF at h
    have h1 : plE v = 1 := by linarith
    unfold plE at h1
    rw [Real.exp_eq_one_iff] at h1
    have a0 : v 0 - Real.pi = 0 := by nlinarith [mul_self_nonneg (v 0 - Real.pi), mul_self_nonneg (v 1 - Real.pi)]
    have a1 : v 1 - Real.pi = 0 := by nlinarith [mul_self_nonneg (v 0 - Real.pi), mul_self_nonneg (v 1 - Real.pi)]
    funext i
    fin_cases i
    · exact sub_eq_zero.1 a0
    · exact sub_eq_zero.1 a1
  · rintro rfl
    simp [plF, plE]

/-! ### Freudenstein and Roth -/

/-- the difference of the residuals, which only depends on the second coordinate -/
def frDiff (y : ℝ) : ℝ := 16 + 12 * y + 4 * y ^ 2 - 2 * y ^ 3
/-- the first coordinate at which the sum of the residuals vanishes -/
def frX (y : ℝ) : ℝ := 21 + 8 * y - 3 * y ^ 2
/-- the stationary points of the difference -/
noncomputable def frLo : ℝ := (2 - √22) / 3
@[inherit_doc frLo] noncomputable def frHi : ℝ := (2 + √22) / 3

theorem frF_eq (v : Vec ℝ 2) : frF v = 2 * (v 0 - frX (v 1)) ^ 2 + frDiff (v 1) ^ 2 / 2 := by
  unfold frF frR1 frR2 frX frDiff; ring

theorem sqrt22 : √22 ^ 2 = 22 ∧ 4.69 < √22 ∧ √22 < 4.7 := by
  refine ⟨Real.sq_sqrt (by norm_num), Real.lt_sqrt_of_sq_lt (by norm_num), ?_⟩
  rw [Real.sqrt_lt' (by norm_num)]; norm_num

theorem frDiff_near {m : ℝ} (hm : 12 + 8 * m - 6 * m ^ 2 = 0) (y : ℝ) : frDiff y = frDiff m + (y - m) ^ 2 * (4 - 4 * m - 2 * y) := by
  unfold frDiff
  linear_combination (y - m) * hm

theorem frCrit (s : ℝ) (hs : s ^ 2 = 22) : 12 + 8 * ((2 + s) / 3) - 6 * ((2 + s) / 3) ^ 2 = 0 ∧ frDiff ((2 + s) / 3) = (680 + 88 * s) / 27 := by
  unfold frDiff
  constructor
  · linear_combination (-2 / 3) * hs
  · linear_combination (-(2 / 27) * s) * hs

theorem frLo_eq : frLo = (2 + -√22) / 3 := by unfold frLo; ring

/-- C136, Freudenstein and Roth: the gradient vanishes at exactly three points, of which exactly two are local minima. One is (5, 4), the only zero; the other has the second coordinate
`(2 - √22)/3 ≈ -0.897` and the cost `((680 - 88 √22)/27)²/2 ≈ 48.98`. -/
theorem C136_freudenstein_roth (v : Vec ℝ 2) : (frF v = 0 ↔ v = ![5, 4]) ∧ (frG v = 0 ↔ v = ![5, 4] ∨ v = ![frX frLo, frLo] ∨ v = ![frX frHi, frHi]) ∧
    (IsLocalMin frF v ↔ v = ![5, 4] ∨ v = ![frX frLo, frLo]) ∧ frF ![frX frLo, frLo] = ((680 - 88 * √22) / 27) ^ 2 / 2 := by
  obtain ⟨s2, s3, s4⟩ := sqrt22
  obtain ⟨cH, dH⟩ := frCrit (√22) s2
  obtain ⟨cL, dL⟩ := frCrit (-√22) (by rw [neg_sq]; exact s2)
  rw [← frLo_eq] at cL dL
  change 12 + 8 * frHi - 6 * frHi ^ 2 = 0 at cH
  change frDiff frHi = _ at dH
  have hLo : -0.9 < frLo ∧ frLo < -0.89 := by unfold frLo; constructor <;> linarith
  have hHi : 2.23 < frHi ∧ frHi < 2.24 := by unfold frHi; constructor <;> linarith
  have hG : frG v = 0 ↔ v 0 = frX (v 1) ∧ frDiff (v 1) * (12 + 8 * v 1 - 6 * v 1 ^ 2) = 0 := by
    have e0 : frG v 0 = 4 * (v 0 - frX (v 1)) := by simp [frG, frR1, frR2, frX]; ring
    have e1 : frG v 1 = frDiff (v 1) * (12 + 8 * v 1 - 6 * v 1 ^ 2) + 4 * (v 0 - frX (v 1)) * (6 * v 1 - 8) := by
      simp [frG, frR1, frR2, frD1, frD2, frX, frDiff]; ring
    constructor
    · intro h
      have h0 := congrFun h 0
      have h1 := congrFun h 1
      rw [e0, Pi.zero_apply] at h0
      rw [e1, h0, Pi.zero_apply] at h1
      exact ⟨by linarith, by linarith⟩
    · rintro ⟨h0, h1⟩
      funext i
      fin_cases i
      · show frG v 0 = 0; rw [e0, h0]; ring
      · show frG v 1 = 0; rw [e1, h1, h0]; ring
  have hd : frDiff (v 1) = 0 ↔ v 1 = 4 := by
    have : frDiff (v 1) = 2 * (4 - v 1) * ((v 1 + 1) ^ 2 + 1) := by unfold frDiff; ring
    rw [this]
    constructor
    · intro h
      rcases mul_eq_zero.1 h with h | h
      · linarith
      · nlinarith [sq_nonneg (v 1 + 1)]
    · intro h; rw [h]; ring
  have hc : 12 + 8 * v 1 - 6 * v 1 ^ 2 = 0 ↔ v 1 = frLo ∨ v 1 = frHi := by
    have : 12 + 8 * v 1 - 6 * v 1 ^ 2 = -6 * ((v 1 - frLo) * (v 1 - frHi)) := by
      unfold frLo frHi; linear_combination (-(2 / 3)) * s2
    rw [this]
    constructor
    · intro h
      rcases mul_eq_zero.1 (by linarith : (v 1 - frLo) * (v 1 - frHi) = 0) with h | h
      · exact Or.inl (sub_eq_zero.1 h)
      · exact Or.inr (sub_eq_zero.1 h)
    · rintro (h | h) <;> rw [h] <;> ring
  have pt : ∀ y, (v 0 = frX (v 1) ∧ v 1 = y) ↔ v = ![frX y, y] := fun y => by
    constructor
    · rintro ⟨h, rfl⟩; rw [← h]; exact vec2 v
    · rintro rfl; simp
  have p4 : (![frX 4, 4] : RVec 2) = ![5, 4] := by congr 1; unfold frX; norm_num
  have hG' : frG v = 0 ↔ v = ![5, 4] ∨ v = ![frX frLo, frLo] ∨ v = ![frX frHi, frHi] := by
    rw [hG, mul_eq_zero, hd, hc, ← p4, ← pt, ← pt, ← pt]
    tauto
  have hzero : frF v = 0 ↔ v = ![5, 4] := by
    rw [← p4, ← pt, ← hd, frF_eq]
    constructor
    · intro h
      have a := sq_nonneg (v 0 - frX (v 1))
      have b := sq_nonneg (frDiff (v 1))
      exact ⟨sub_eq_zero.1 (pow_eq_zero_iff (n := 2) two_ne_zero |>.1 (by linarith)), pow_eq_zero_iff (n := 2) two_ne_zero |>.1 (by linarith)⟩
    · rintro ⟨h, h'⟩; rw [← h, h']; ring
  have hnn : ∀ w, 0 ≤ frF w := fun w => by rw [frF_eq]; positivity
  refine ⟨hzero, hG', ⟨fun hm => ?_, ?_⟩, ?_⟩
  · rcases hG'.1 (grad_zero hm (fr_derivs.grad v)) with h | h | h
    · exact Or.inl h
    · exact Or.inr h
    · exfalso
      subst h
      refine not_localMin (fun t => ![frX (frHi + t), frHi + t]) ?_ (by simp) (u := 1) one_pos ?_ hm
      · intro i; fin_cases i <;> simp [frX] <;> fun_prop
      · intro t h0 h1
        rw [frF_eq, frF_eq]
        simp only [Matrix.cons_val_zero, Matrix.cons_val_one]
        rw [frDiff_near cH (frHi + t), dH]
        have k : (frHi + t - frHi) ^ 2 * (4 - 4 * frHi - 2 * (frHi + t)) = t ^ 2 * (4 - 6 * frHi - 2 * t) := by ring
        rw [k]
        have q0 : 0 < t ^ 2 := by positivity
        have q1 : t ^ 2 < 1 := by nlinarith
        obtain ⟨z, hz⟩ : ∃ z, z = t ^ 2 * (4 - 6 * frHi - 2 * t) := ⟨_, rfl⟩
        rw [← hz]
        have z0 : z < 0 := by rw [hz]; exact mul_neg_of_pos_of_neg q0 (by linarith [hHi.1])
        have z1 : -12 < z := by
          have : t ^ 2 * (6 * frHi + 2 * t - 4) < 1 * 12 := by
            apply mul_lt_mul' q1.le (by linarith [hHi.2]) (by linarith [hHi.1]) one_pos
          linarith
        nlinarith
  · rintro (h | h)
    · exact Filter.Eventually.of_forall fun y => by rw [hzero.2 h]; exact hnn y
    · have hev : ∀ᶠ y in 𝓝 v, y 1 < 2 := by
        have : ContinuousAt (fun y : RVec 2 => y 1) v := (continuous_apply 1).continuousAt
        refine this.tendsto.eventually_lt_const ?_
        rw [h]; simp; linarith [hLo.2]
      filter_upwards [hev] with y hy
      have e : frF v = frDiff frLo ^ 2 / 2 := by rw [frF_eq, h]; simp
      rw [e, frF_eq y, frDiff_near cL (y 1)]
      have : 0 ≤ (y 1 - frLo) ^ 2 * (4 - 4 * frLo - 2 * y 1) := mul_nonneg (sq_nonneg _) (by linarith [hLo.2])
      have hp : 0 < frDiff frLo := by rw [dL]; linarith
      nlinarith [sq_nonneg (y 0 - frX (y 1))]
  · rw [frF_eq]
    simp only [Matrix.cons_val_zero, Matrix.cons_val_one]
    rw [dL]; ring

/-- C136, why the test of Freudenstein and Roth is commented out in tests/optimize_hard.cpp ("TODO: fix local minima"): no path from its start (0.5, -2), along which the cost never exceeds that
of the start, leaves the side `y < (2 + √22)/3` on which the wrong minimum lies. So (5, 4) is only reached by jumping over the ridge. -/
theorem C136_freudenstein_barrier (γ : ℝ → Vec ℝ 2) (hγ : ContinuousOn γ (Set.Icc 0 1)) (h0 : γ 0 = ![1 / 2, -2]) (hle : ∀ t ∈ Set.Icc (0 : ℝ) 1, frF (γ t) ≤ frF (γ 0)) :
    γ 1 1 < frHi ∧ γ 1 ≠ ![5, 4] := by
  obtain ⟨s2, s3, s4⟩ := sqrt22
  obtain ⟨cH, dH⟩ := frCrit (√22) s2
  have hHi : 2.23 < frHi ∧ frHi < 2.24 := by unfold frHi; constructor <;> linarith
  change frDiff frHi = _ at dH
  have h1 : γ 1 1 < frHi := by
    by_contra hc
    have hc' := not_lt.1 hc
    have hcont : ContinuousOn (fun t => γ t 1) (Set.Icc 0 1) := fun t ht => (continuous_apply 1).continuousAt.comp_continuousWithinAt (hγ t ht)
    have hi := intermediate_value_Icc (zero_le_one' ℝ) hcont
    obtain ⟨t, ht, he⟩ := hi ⟨by rw [h0]; simp; linarith [hHi.1], hc'⟩
    have := hle t ht
    rw [frF_eq, frF_eq, h0] at this
    simp only [Matrix.cons_val_zero, Matrix.cons_val_one] at this he
    rw [he, dH] at this
    have e : 2 * ((1 : ℝ) / 2 - frX (-2)) ^ 2 + frDiff (-2) ^ 2 / 2 = 801 / 2 := by unfold frX frDiff; norm_num
    rw [e] at this
    nlinarith [sq_nonneg (γ t 0 - frX frHi)]
  refine ⟨h1, fun h => ?_⟩
  rw [h] at h1
  simp at h1
  linarith [hHi.2]

/-- such a path: from the start to the bottom of the valley at `y = -2` -/
example : ∃ γ : ℝ → Vec ℝ 2, ContinuousOn γ (Set.Icc 0 1) ∧ γ 0 = ![1 / 2, -2] ∧ (∀ t ∈ Set.Icc (0 : ℝ) 1, frF (γ t) ≤ frF (γ 0)) ∧ frF (γ 1) < frF (γ 0) := by
  have e : ∀ t : ℝ, frF ![1 / 2 - 15 / 2 * t, -2] = 225 / 2 * (1 - t) ^ 2 + 288 := fun t => by
    rw [frF_eq]; simp [frX, frDiff]; ring
  refine ⟨fun t => ![1 / 2 - 15 / 2 * t, -2], ?_, by simp, fun t ht => ?_, ?_⟩
  · refine Continuous.continuousOn (continuous_pi fun i => ?_)
    fin_cases i <;> simp <;> fun_prop
  · rw [e, e]; nlinarith [ht.1, ht.2]
  · rw [e, e]; norm_num

end Verif.Landscape
