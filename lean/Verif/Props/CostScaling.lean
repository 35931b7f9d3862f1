import Verif.Props.System
import Verif.Props.Rollback
/-!
# C29: cost scaling, with rounding
-/

namespace Verif
open FloatOps

namespace Fl
variable {f : Fmt}

theorem lt_nan (a : Fl f) : Fl.lt a .nan = false := by cases a <;> rfl
theorem lt_ninf (a : Fl f) : Fl.lt a .ninf = false := by cases a <;> rfl
theorem pinf_lt (a : Fl f) : Fl.lt .pinf a = false := by cases a <;> rfl

theorem lt_ofGrid {q r : ℚ} {hq : f.Grid q} {hr : f.Grid r} (h : Fl.lt (ofGrid q hq) (ofGrid r hr) = true) : q < r := by
  by_contra hc
  rw [not_lt] at hc
  have hm := f.max_pos
  unfold ofGrid at h
  by_cases h1 : |q| ≤ f.max
  · rw [dif_pos h1] at h
    rw [abs_le] at h1
    by_cases h2 : |r| ≤ f.max
    · rw [dif_pos h2] at h
      exact absurd (of_decide_eq_true h) (not_lt.mpr hc)
    · rw [dif_neg h2] at h
      rw [abs_le, not_and_or, not_le, not_le] at h2
      by_cases h3 : 0 < r
      · rcases h2 with h2 | h2 <;> linarith
      · rw [if_neg h3, lt_ninf] at h; cases h
  · rw [dif_neg h1] at h
    by_cases h4 : 0 < q
    · rw [if_pos h4, pinf_lt] at h; cases h
    · rw [if_neg h4] at h
      rw [abs_le, not_and_or, not_le, not_le] at h1
      by_cases h2 : |r| ≤ f.max
      · rw [abs_le] at h2
        rcases h1 with h1 | h1 <;> linarith
      · rw [dif_neg h2, if_neg (by linarith), lt_ninf] at h; cases h

theorem lt_mk {q r : ℚ} (h : Fl.lt (Fl.mk q : Fl f) (Fl.mk r) = true) : q < r := by
  by_contra hc
  exact absurd (lt_ofGrid h) (not_lt.mpr (f.rnd_mono _ _ (not_lt.mp hc)))

/-- `g` never makes a number smaller than another that was not smaller before -/
def Reflects (g : Fl f → Fl f) : Prop := ∀ a b, Fl.lt (g a) (g b) = true → Fl.lt a b = true

theorem reflects_sqrt : Reflects (Fl.sqrt : Fl f → Fl f) := by
  intro a b h
  cases a with
  | nan => exact absurd h (by simp [Fl.sqrt, Fl.lt])
  | pinf => exact absurd h (by rw [show Fl.sqrt (.pinf : Fl f) = .pinf from rfl, pinf_lt]; simp)
  | ninf => exact absurd h (by simp [Fl.sqrt, Fl.lt])
  | fin a ha =>
    cases b with
    | nan => exact absurd h (by rw [show Fl.sqrt (.nan : Fl f) = .nan from rfl, lt_nan]; simp)
    | pinf => rfl
    | ninf => exact absurd h (by rw [show Fl.sqrt (.ninf : Fl f) = .nan from rfl, lt_nan]; simp)
    | fin b hb =>
      refine decide_eq_true ?_
      simp only [Fl.sqrt] at h
      split at h
      · exact absurd h (by simp [Fl.lt])
      · split at h
        · exact absurd h (by cases (ofGrid (f.sqrtq a) (f.sqrt_grid a) : Fl f) <;> simp [Fl.lt])
        · have := lt_ofGrid h
          by_contra hc
          exact absurd this (not_lt.mpr (f.sqrt_mono _ _ (not_lt.mp hc)))

/-- multiplication by a number that is not negative -/
theorem reflects_mul {c : ℚ} (h0 : 0 ≤ c) (hc : f.Grid c ∧ |c| ≤ f.max) : Reflects (fun a : Fl f => Fl.mul a (.fin c hc)) := by
  intro a b h
  have hnc : ¬ c < 0 := not_lt.mpr h0
  have hnc' : ¬ -c > 0 := by rw [gt_iff_lt, not_lt]; linarith
  cases a <;> cases b <;> simp only [Fl.mul, lt_nan] at h <;> try (cases h; done)
  all_goals try rfl
  all_goals try (unfold infSign at h; split_ifs at h <;> first | (cases h; done) | (exfalso; rw [lt_ninf] at h; cases h; done) | (exfalso; rw [pinf_lt] at h; cases h; done) | (exfalso; rw [lt_nan] at h; cases h; done) | linarith)
  · rename_i a ha b hb
    have := lt_mk h
    refine decide_eq_true ?_
    nlinarith

/-- division by a positive integer -/
theorem reflects_div (n : Int) (hn : 0 < n) : Reflects (fun a : Fl f => Fl.div a (FloatOps.ofInt n)) := by
  intro a b h
  have hr : 0 ≤ f.rnd n := f.rnd_nonneg (by exact_mod_cast hn.le)
  have e : (FloatOps.ofInt n : Fl f) = ofGrid (f.rnd n) (f.rnd_grid n) := rfl
  simp only [e] at h
  unfold ofGrid at h
  by_cases hm : |f.rnd (n : ℚ)| ≤ f.max
  · rw [dif_pos hm] at h
    clear e
    revert hm h hr
    generalize f.rnd_grid (n : ℚ) = hg
    revert hg
    generalize f.rnd (n : ℚ) = c
    intro hg hr hm h
    have hnc : ¬ c < 0 := not_lt.mpr hr
    cases a <;> cases b <;> simp only [Fl.div, lt_nan, if_neg hnc] at h <;> try (cases h; done)
    all_goals try rfl
    all_goals try (exfalso; first | (rw [lt_ninf] at h; cases h; done) | (rw [pinf_lt] at h; cases h; done))
    rename_i a ha b hb
    refine decide_eq_true ?_
    split at h
    · unfold infSign at h
      split_ifs at h <;> first | (cases h; done) | linarith | (exfalso; first | (rw [lt_ninf] at h; cases h; done) | (rw [pinf_lt] at h; cases h; done) | (rw [lt_nan] at h; cases h; done))
    · rename_i hc0
      have hcp : 0 < c := lt_of_le_of_ne hr (Ne.symm hc0)
      have := lt_mk h
      rwa [div_lt_div_iff_of_pos_right hcp] at this
  · rw [dif_neg hm, if_pos (lt_of_le_of_ne hr (fun h0 => hm (by rw [← h0, abs_zero]; exact f.max_pos.le)))] at h
    cases a <;> cases b <;> simp only [Fl.div, lt_nan] at h <;> try (cases h; done)
    all_goals try rfl
    rename_i a ha b hb
    exact absurd (lt_mk h) (lt_irrefl _)

end Fl

/-- **C29** (partial), with rounding, NaN and infinities: whatever the format and the options, if a cost is smaller than another after
the scaling then it was smaller before. So a step that is accepted
also decreases the raw cost. Missing: the converse, which is false (`C29_rounding_ties`). -/
theorem C29_scaled_decrease_partial {f : Fmt} {R : Type} (so : SolverOpts (Fl f)) (c1 c2 : Cost (Fl f) R) (hn : c1.num = c2.num)
    (h : lt (normalizeCost so c1).cost (normalizeCost so c2).cost = true) : lt c1.cost c2.cost = true := by
  have hhalf : Fl.Reflects (fun a : Fl f => FloatOps.mul a half) := by
    have e : (half : Fl f) = Fl.ofGrid (f.rnd (1 / 2)) (f.rnd_grid _) := rfl
    have hr : 0 ≤ f.rnd (1 / 2) := f.rnd_nonneg (by norm_num)
    rw [e]
    unfold Fl.ofGrid
    by_cases hm : |f.rnd (1 / 2)| ≤ f.max
    · rw [dif_pos hm]; exact Fl.reflects_mul hr _
    · rw [dif_neg hm, if_pos (lt_of_le_of_ne hr (fun h0 => hm (by rw [← h0, abs_zero]; exact f.max_pos.le)))]
      intro a b h
      cases a <;> cases b <;> simp only [FloatOps.mul, Fl.mul, Fl.lt_nan] at h <;> try (cases h; done)
      all_goals try rfl
      all_goals (unfold Fl.infSign at h; split_ifs at h <;> first | (cases h; done) | (refine decide_eq_true ?_; linarith) | (exfalso; first | (rw [Fl.lt_ninf] at h; cases h; done) | (rw [Fl.pinf_lt] at h; cases h; done) | (rw [Fl.lt_nan] at h; cases h; done)))
  unfold normalizeCost at h
  simp only at h
  rw [← hn] at h
  have h1 : lt (if so.downscaleBy2 then mul (if so.useSquaredNorm then c1.cost else sqrt c1.cost) half else (if so.useSquaredNorm then c1.cost else sqrt c1.cost))
      (if so.downscaleBy2 then mul (if so.useSquaredNorm then c2.cost else sqrt c2.cost) half else (if so.useSquaredNorm then c2.cost else sqrt c2.cost)) = true := by
    split at h
    · rename_i hb
      exact Fl.reflects_div c1.num (of_decide_eq_true (Bool.and_eq_true _ _ ▸ hb).2) _ _ h
    · exact h
  have h2 : lt (if so.useSquaredNorm then c1.cost else sqrt c1.cost) (if so.useSquaredNorm then c2.cost else sqrt c2.cost) = true := by
    split at h1
    · exact hhalf _ _ h1
    · exact h1
  split at h2
  · exact h2
  · exact Fl.reflects_sqrt _ _ h2

/-! ### Two costs that become equal -/

/-- one parameter in double precision with gradient 1; the cost is 1 at `x = 0` and `1 + 2^-52` elsewhere -/
def tie64 : Problem (Fl Fmt.binary64) (Fl Fmt.binary64) Nat (Fl Fmt.binary64) where
  acc :=
    { full := fun w x _ g H =>
        (({ cost := if eq x (ofInt 0) then ofInt 1 else add (ofInt 1) (div (ofInt 1) (ofInt (2 ^ 52))), num := 1, inlier := ofInt 1 },
          fun i => add (g i) (ofInt 1), H), w + 1)
      eval := fun w x => ({ cost := if eq x (ofInt 0) then ofInt 1 else add (ofInt 1) (div (ofInt 1) (ofInt (2 ^ 52))), num := 1, inlier := ofInt 1 }, w) }
  dims := some 1
  dynDims := fun _ => 1
  plusEq := fun x d => if h : 0 < d.n then add x (d.v ⟨0, h⟩) else x
  clock := fun w => (ofInt 1, w)
  alloc := fun w _ => (some (fun _ => ofInt 7, fun _ _ => ofInt 7), w)
  ratio1 := ofInt 1

/-- **C29 is violated** in double precision: the costs `1` and `1 + 2^-52` have the same square root, so that the step of
Gradient Descent from `x = 1` to `x = 0` is accepted with `use_squared_norm` and rejected without. -/
theorem C29_rounding_ties :
    (optimizeAcc (gdEnv { soptsGd64 with lr := ofInt 1 } tie64) { optsGd64 with maxIters := 1 } 10 (-1) 0
      (gnFresh tie64 (fun _ => ofInt 0) (fun _ _ => ofInt 0)) (ofInt 1)).holds
        (fun st => decide (st.out.successes = [true, true])) = true ∧
    (optimizeAcc (gdEnv { soptsGd64 with lr := ofInt 1, useSquaredNorm := false } tie64) { optsGd64 with maxIters := 1 } 10 (-1) 0
      (gnFresh tie64 (fun _ => ofInt 0) (fun _ _ => ofInt 0)) (ofInt 1)).holds
        (fun st => decide (st.out.successes = [true, false])) = true := by decide +kernel

/-! ### The reported value -/

/-- **C29**, the value reported (exact arithmetic): multiplied by 2 if `downscale_by_2` and by the number of residuals if
`normalize`, it is the raw cost or, without `use_squared_norm`, its non-negative square root. -/
theorem C29_value {R : Type} (so : SolverOpts ℝ) (c : Cost ℝ R) (h0 : 0 ≤ c.cost) (hn : 0 < c.num) :
    let k : ℝ := (if so.downscaleBy2 then 2 else 1) * (if so.normalize then (c.num : ℝ) else 1)
    let v := (normalizeCost so c).cost
    0 ≤ v ∧ (if so.useSquaredNorm then k * v = c.cost else (k * v) ^ 2 = c.cost) ∧
      (normalizeCost so c).num = c.num ∧ (normalizeCost so c).inlier = c.inlier ∧ (normalizeCost so c).log = c.log := by
  have hn' : (0 : ℝ) < c.num := by exact_mod_cast hn
  have hne := hn'.ne'
  have hs := Real.sq_sqrt h0
  have hs0 := Real.sqrt_nonneg c.cost
  refine ⟨?_, ?_, rfl, rfl, rfl⟩
  · unfold normalizeCost
    rcases so.useSquaredNorm <;> rcases so.downscaleBy2 <;> rcases so.normalize <;> simp [hn] <;> positivity
  · unfold normalizeCost
    rcases so.useSquaredNorm <;> rcases so.downscaleBy2 <;> rcases so.normalize <;> simp [hn] <;> field_simp <;> linarith

/-- hypotheses of the theorems above are met by costs of a least squares problem: 9 for 4 residuals gives 3 / 2 / 4 -/
example : (normalizeCost { sopts1 with useSquaredNorm := false, downscaleBy2 := true, normalize := true }
    ({ cost := ofInt 9, num := 4, inlier := ofInt 1 } : Cost D D)).cost = div (ofInt 3) (ofInt 8) ∧
    lt (normalizeCost { sopts1 with useSquaredNorm := false } ({ cost := ofInt 4, num := 4, inlier := ofInt 1 } : Cost D D)).cost
      (normalizeCost { sopts1 with useSquaredNorm := false } ({ cost := ofInt 9, num := 4, inlier := ofInt 1 } : Cost D D)).cost = true := by
  decide +kernel

end Verif
