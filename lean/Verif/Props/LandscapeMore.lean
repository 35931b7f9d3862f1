import Verif.Props.LandscapeHard
import Mathlib.Analysis.SpecialFunctions.Trigonometric.Series
import Mathlib.Analysis.Calculus.Deriv.MeanValue
import Mathlib.Topology.Order.Compact
/-!
# C136, continued: further local minima of the plateau, the minimum of Jennrich and Sampson
-/

namespace Verif.Landscape
open Loss Filter Topology

/-! ### the plateau -/

/-- one factor of the plateau -/
noncomputable def plPhi (x : ℝ) : ℝ := Real.cos x * Real.exp (-((x - Real.pi) * (x - Real.pi)))

theorem plF_phi (v : Vec ℝ 2) : plF v = 1 - plPhi (v 0) * plPhi (v 1) := by
  unfold plF plE plPhi
  rw [neg_add, Real.exp_add]; ring

theorem plPhi_max (n : ℕ) : ∃ m, n * (2 * Real.pi) - Real.pi / 2 < m ∧ m < n * (2 * Real.pi) + Real.pi / 2 ∧ 0 < plPhi m ∧
    ∀ x, n * (2 * Real.pi) - Real.pi / 2 ≤ x → x ≤ n * (2 * Real.pi) + Real.pi / 2 → 0 ≤ plPhi x ∧ plPhi x ≤ plPhi m := by
  have hpi := Real.pi_pos
  have cshift : ∀ x : ℝ, Real.cos x = Real.cos (x - n * (2 * Real.pi)) := fun x => (Real.cos_sub_nat_mul_two_pi x n).symm
  have hc : Continuous plPhi := by unfold plPhi; fun_prop
  obtain ⟨m, hm, hmax⟩ := isCompact_Icc.exists_isMaxOn (s := Set.Icc (n * (2 * Real.pi) - Real.pi / 2) (n * (2 * Real.pi) + Real.pi / 2)) (Set.nonempty_Icc.2 (by linarith)) hc.continuousOn
  have h0 : 0 < plPhi (n * (2 * Real.pi)) := by
    unfold plPhi
    rw [cshift, sub_self, Real.cos_zero, one_mul]
    exact Real.exp_pos _
  have h1 : 0 < plPhi m := h0.trans_le (hmax ⟨by linarith, by linarith⟩)
  have hb : ∀ x, Real.cos (x - n * (2 * Real.pi)) = 0 → plPhi x = 0 := fun x hx => by unfold plPhi; rw [cshift, hx, zero_mul]
  refine ⟨m, lt_of_le_of_ne hm.1 fun e => ?_, lt_of_le_of_ne hm.2 fun e => ?_, h1, fun x x1 x2 => ⟨?_, hmax ⟨x1, x2⟩⟩⟩
  · rw [hb m (by rw [← e, show n * (2 * Real.pi) - Real.pi / 2 - n * (2 * Real.pi) = -(Real.pi / 2) by ring, Real.cos_neg, Real.cos_pi_div_two])] at h1
    exact lt_irrefl _ h1
  · rw [hb m (by rw [e, show n * (2 * Real.pi) + Real.pi / 2 - n * (2 * Real.pi) = Real.pi / 2 by ring, Real.cos_pi_div_two])] at h1
    exact lt_irrefl _ h1
  · unfold plPhi
    rw [cshift]
    exact mul_nonneg (Real.cos_nonneg_of_neg_pi_div_two_le_of_le (by linarith) (by linarith)) (Real.exp_pos _).le

/-- C136, the plateau is not flat: its cost has infinitely many local minima with positive cost, on the diagonal alone. The start (3, 3) of the test is close to (pi, pi); from other starts a run may end in one of them. -/
theorem C136_plateau_minima : {v | IsLocalMin plF v ∧ 0 < plF v}.Infinite := by
  choose m h1 h2 h3 h4 using plPhi_max
  have hpi := Real.pi_pos
  refine Set.infinite_of_injective_forall_mem (f := fun n => (fun _ => m n : Vec ℝ 2)) ?_ fun n => ?_
  · intro a b hab
    have e : m a = m b := congrFun hab 0
    by_contra hne
    rcases lt_or_gt_of_ne hne with h | h
    · have : (a : ℝ) + 1 ≤ b := by exact_mod_cast h
      have := h2 a; have := h1 b
      nlinarith
    · have : (b : ℝ) + 1 ≤ a := by exact_mod_cast h
      have := h2 b; have := h1 a
      nlinarith
  · constructor
    · have c0 : ContinuousAt (fun y : Vec ℝ 2 => y 0) (fun _ => m n) := (continuous_apply 0).continuousAt
      have c1 : ContinuousAt (fun y : Vec ℝ 2 => y 1) (fun _ => m n) := (continuous_apply 1).continuousAt
      filter_upwards [c0.tendsto.eventually_lt_const (h2 n), c0.tendsto.eventually_const_lt (h1 n), c1.tendsto.eventually_lt_const (h2 n), c1.tendsto.eventually_const_lt (h1 n)] with y a1 a2 a3 a4
      rw [plF_phi, plF_phi]
      have b0 := h4 n (y 0) a2.le a1.le
      have b1 := h4 n (y 1) a4.le a3.le
      have := mul_le_mul b0.2 b1.2 b1.1 (h3 n).le
      linarith
    · refine lt_of_le_of_ne (C136_plateau _).1 fun e => ?_
      have : m n = Real.pi := congrFun ((C136_plateau _).2.1 e.symm) 0
      have a := h1 n
      have b := h2 n
      rw [this] at a b
      rcases Nat.eq_zero_or_pos n with h | h
      · rw [h] at b; norm_num at b; linarith
      · have : (1 : ℝ) ≤ n := by exact_mod_cast h
        nlinarith

/-! ### Jennrich and Sampson -/

theorem cosh_scale {c : ℝ} (h0 : 0 ≤ c) (h1 : c ≤ 1) (x : ℝ) : Real.cosh (c * x) - 1 ≤ c ^ 2 * (Real.cosh x - 1) := by
  have hs := ((Real.hasSum_cosh x).mul_left (c ^ 2)).sub (Real.hasSum_cosh (c * x))
  have := le_hasSum hs 0 fun j hj => by
    rw [mul_pow, ← mul_div_assoc, ← sub_div]
    refine div_nonneg (sub_nonneg.2 ?_) (by positivity)
    refine mul_le_mul_of_nonneg_right (pow_le_pow_of_le_one h0 h1 (by omega)) ?_
    rw [pow_mul]; positivity
  simp at this
  linarith

theorem exp_nat (k : ℕ) (a : ℝ) : Real.exp (((k : ℝ) + 1) * a) = Real.exp a ^ (k + 1) := by rw [← Real.exp_nat_mul]; push_cast; rfl

/-- the residuals in terms of mean `m` and half difference `d` of the coordinates -/
theorem jennrich_mean (m d : ℝ) (i : Fin 10) :
    jennrich ![m + d, m - d] i = 2 * ((i.1 : ℝ) + 2) - 2 * Real.exp m ^ (i.1 + 1) * Real.cosh (((i.1 : ℝ) + 1) * d) := by
  simp only [jennrich, Matrix.cons_val_zero, Matrix.cons_val_one]
  rw [show ((i.1 : ℝ) + 1) * (m + d) = ((i.1 : ℝ) + 1) * m + ((i.1 : ℝ) + 1) * d by ring,
    show ((i.1 : ℝ) + 1) * (m - d) = ((i.1 : ℝ) + 1) * m + -(((i.1 : ℝ) + 1) * d) by ring, Real.exp_add, Real.exp_add, exp_nat, Real.cosh_eq]
  ring

/-- leaving the diagonal does not decrease the cost -/
theorem jennrich_across {m d : ℝ} (h1 : 1.2939 < Real.exp m) (h2 : Real.exp m < 1.2944) : sq jennrich ![m, m] ≤ sq jennrich ![m + d, m - d] := by
  have h0 : ∀ i : Fin 10, jennrich ![m, m] i = 2 * ((i.1 : ℝ) + 2) - 2 * Real.exp m ^ (i.1 + 1) := fun i => by
    have := jennrich_mean m 0 i
    simpa using this
  unfold sq
  simp_rw [jennrich_mean, h0]
  generalize Real.exp m = u at h1 h2
  let κ : ℝ → ℝ := fun k => Real.cosh (k * d) - 1
  let w : Fin 10 → ℝ := fun i => ((i.1 : ℝ) + 2 - u ^ (i.1 + 1)) * u ^ (i.1 + 1)
  have hu0 : 0 < u := by norm_num at h1; linarith
  have hk9 : 0 ≤ κ 9 := sub_nonneg.2 (Real.one_le_cosh _)
  have lo : ∀ k : ℕ, (1.2939 : ℝ) ^ k ≤ u ^ k := fun k => pow_le_pow_left₀ (by norm_num) h1.le k
  have hi : ∀ k : ℕ, u ^ k ≤ (1.2944 : ℝ) ^ k := fun k => pow_le_pow_left₀ hu0.le h2.le k
  have scale : ∀ k : ℝ, 0 ≤ k → k ≤ 9 → κ k ≤ k ^ 2 / 81 * κ 9 := fun k k0 k9 => by
    have := cosh_scale (c := k / 9) (by positivity) (by linarith) (9 * d)
    rw [show k / 9 * (9 * d) = k * d by ring, show (k / 9) ^ 2 = k ^ 2 / 81 by ring] at this
    exact this
  have pos : ∀ i : Fin 10, i.1 ≤ 7 → 0 ≤ w i := fun i h => by
    refine mul_nonneg ?_ (by positivity)
    have := hi (i.1 + 1)
    fin_cases i <;> simp at h this ⊢ <;> norm_num at this ⊢ <;> linarith
  have neg : w 9 ≤ 0 := by
    refine mul_nonpos_of_nonpos_of_nonneg ?_ (by positivity)
    have := lo 10
    have e : ((9 : Fin 10).1 : ℝ) = 9 := by norm_num
    show ((9 : Fin 10).1 : ℝ) + 2 - u ^ 10 ≤ 0
    rw [e]
    norm_num at this
    linarith
  have term : ∀ i : Fin 10, w i * κ ((i.1 : ℝ) + 1) ≤ w i * (((i.1 : ℝ) + 1) ^ 2 / 81 * κ 9) := fun i => by
    rcases Nat.lt_or_ge i.1 8 with h | h
    · have : (i.1 : ℝ) ≤ 7 := by exact_mod_cast (by omega : i.1 ≤ 7)
      exact mul_le_mul_of_nonneg_left (scale _ (by positivity) (by linarith)) (pos i (by omega))
    · rcases (by omega : i.1 = 8 ∨ i.1 = 9) with h | h
      · rw [h]; norm_num
      · have hi9 : i = 9 := Fin.ext h
        rw [hi9]
        refine mul_le_mul_of_nonpos_left ?_ neg
        have := cosh_scale (c := 9 / 10) (by norm_num) (by norm_num) (10 * d)
        rw [show 9 / 10 * (10 * d) = 9 * d by ring] at this
        have e : (((9 : Fin 10).1 : ℝ) + 1) = 10 := by norm_num
        rw [e]
        show 10 ^ 2 / 81 * (Real.cosh (9 * d) - 1) ≤ Real.cosh (10 * d) - 1
        linarith
  have tot : ∑ i, w i * (((i.1 : ℝ) + 1) ^ 2) ≤ 0 := by
    have l := fun k => lo k
    have g := fun k => hi k
    simp only [Fin.sum_univ_succ, Finset.univ_eq_empty, Finset.sum_empty, Fin.val_zero, Fin.val_succ, w]
    have a1 := g 1; have a2 := g 2; have a3 := g 3; have a4 := g 4; have a5 := g 5; have a6 := g 6; have a7 := g 7; have a8 := g 8; have a9 := g 9; have a10 := g 10
    have b1 := l 2; have b2 := l 4; have b3 := l 6; have b4 := l 8; have b5 := l 10; have b6 := l 12; have b7 := l 14; have b8 := l 16; have b9 := l 18; have b10 := l 20
    norm_num at a1 a2 a3 a4 a5 a6 a7 a8 a9 a10 b1 b2 b3 b4 b5 b6 b7 b8 b9 b10 ⊢
    ring_nf
    linarith
  have sum : ∑ i, w i * κ ((i.1 : ℝ) + 1) ≤ 0 := by
    refine (Finset.sum_le_sum fun i _ => term i).trans ?_
    have e : ∑ i, w i * (((i.1 : ℝ) + 1) ^ 2 / 81 * κ 9) = κ 9 / 81 * ∑ i, w i * (((i.1 : ℝ) + 1) ^ 2) := by
      rw [Finset.mul_sum]; refine Finset.sum_congr rfl fun i _ => ?_; ring
    rw [e]
    exact mul_nonpos_of_nonneg_of_nonpos (by positivity) tot
  have each : ∀ i : Fin 10, (2 * ((i.1 : ℝ) + 2) - 2 * u ^ (i.1 + 1)) ^ 2 - 8 * (w i * κ ((i.1 : ℝ) + 1)) ≤
      (2 * ((i.1 : ℝ) + 2) - 2 * u ^ (i.1 + 1) * Real.cosh (((i.1 : ℝ) + 1) * d)) ^ 2 := fun i => by
    simp only [w, κ]
    nlinarith [sq_nonneg (2 * u ^ (i.1 + 1) * (Real.cosh (((i.1 : ℝ) + 1) * d) - 1))]
  have := Finset.sum_le_sum fun i (_ : i ∈ Finset.univ) => each i
  rw [Finset.sum_sub_distrib, ← Finset.mul_sum] at this
  linarith

theorem jennrich_along (m : ℝ) : HasDerivAt (fun t => sq jennrich ![t, t]) (-8 * (jsPos (Real.exp m) - jsNeg (Real.exp m))) m := by
  have hv : HasDerivAt (fun t : ℝ => (![t, t] : RVec 2)) ![1, 1] m := by
    rw [hasDerivAt_pi]
    intro i
    fin_cases i <;> exact hasDerivAt_id m
  have h : HasFDerivAt (sq jennrich) (rowCLM (fun j => ∑ i, 2 * jennrich ![m, m] i * jennrichJ ![m, m] i j)) ![m, m] := jennrich_grad ![m, m]
  have := h.comp_hasDerivAt m hv
  rw [rowCLM_apply, dotProduct, Fin.sum_univ_two, js_grad, js_grad] at this
  have e : -4 * (jsPos (Real.exp m) - jsNeg (Real.exp m)) * (![1, 1] : RVec 2) 0 + -4 * (jsPos (Real.exp m) - jsNeg (Real.exp m)) * (![1, 1] : RVec 2) 1 =
      -8 * (jsPos (Real.exp m) - jsNeg (Real.exp m)) := by simp; ring
  rw [e] at this
  exact this

/-- C136, Jennrich and Sampson: the stationary point of the diagonal is a local minimum. -/
theorem C136_jennrich_min {a : ℝ} (h : HasGrad (sq jennrich) 0 ![a, a]) : IsLocalMin (sq jennrich) ![a, a] := by
  have hst : jsPos (Real.exp a) = jsNeg (Real.exp a) := by
    have e := congrFun (h.unique (jennrich_grad ![a, a])) 0
    rw [js_grad] at e
    simp only [Pi.zero_apply] at e
    linarith
  obtain ⟨u1, u2⟩ := js_root (Real.exp_pos a) hst
  have hd : ∀ m, sq jennrich ![a, a] ≤ sq jennrich ![m, m] := fun m => by
    have hdiff : Differentiable ℝ (fun t => sq jennrich ![t, t]) := fun t => (jennrich_along t).differentiableAt
    rcases le_total m a with hm | hm
    · refine antitoneOn_of_deriv_nonpos (convex_Icc m a) hdiff.continuous.continuousOn hdiff.differentiableOn (fun x hx => ?_) (Set.left_mem_Icc.2 hm) (Set.right_mem_Icc.2 hm) hm
      rw [interior_Icc] at hx
      rw [(jennrich_along x).deriv]
      by_contra hc
      have := js_mono (Real.exp_pos x) (Real.exp_lt_exp.2 hx.2) (by linarith [not_le.1 hc])
      linarith
    · refine monotoneOn_of_deriv_nonneg (convex_Icc a m) hdiff.continuous.continuousOn hdiff.differentiableOn (fun x hx => ?_) (Set.left_mem_Icc.2 hm) (Set.right_mem_Icc.2 hm) hm
      rw [interior_Icc] at hx
      rw [(jennrich_along x).deriv]
      have := js_mono (Real.exp_pos a) (Real.exp_lt_exp.2 hx.1) hst.le
      linarith
  have hc : ContinuousAt (fun y : RVec 2 => Real.exp ((y 0 + y 1) / 2)) ![a, a] := by fun_prop
  have e : Real.exp (((![a, a] : RVec 2) 0 + (![a, a] : RVec 2) 1) / 2) = Real.exp a := by
    congr 1; simp
  have l1 := hc.tendsto.eventually_const_lt (u := 1.2939) (by rw [e]; norm_num at u1 ⊢; linarith)
  have l2 := hc.tendsto.eventually_lt_const (u := 1.2944) (by rw [e]; norm_num at u2 ⊢; linarith)
  filter_upwards [l1, l2] with y y1 y2
  have := jennrich_across (d := (y 0 - y 1) / 2) y1 y2
  rw [show (y 0 + y 1) / 2 + (y 0 - y 1) / 2 = y 0 by ring, show (y 0 + y 1) / 2 - (y 0 - y 1) / 2 = y 1 by ring, ← vec2 y] at this
  exact (hd _).trans this

/-- there is such a point -/
example : ∃ a : ℝ, 0.2577 < a ∧ a < 0.258 ∧ IsLocalMin (sq jennrich) ![a, a] := by
  obtain ⟨a, ha, _⟩ := C136_jennrich.2.1
  exact ⟨a, (C136_jennrich.2.2.1 a ha).1, (C136_jennrich.2.2.1 a ha).2, C136_jennrich_min ha⟩

end Verif.Landscape
