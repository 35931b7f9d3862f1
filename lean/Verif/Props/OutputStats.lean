import Verif.Lemmas.Loop
import Verif.Lemmas.RealLin
import Verif.Examples.Solver1
import Verif.Props.LmSystem
import Verif.Model.Output
/-!
# C19, C49, C53: the statistics, the description and the covariance of a returned `Output`
-/

set_option linter.unusedSectionVars false

namespace Verif
open FloatOps

section
variable {F R W S X V M : Type} [FloatOps F]
variable {E : Env F R W S X V M} {o : Options F W V}

theorem optimize_eq (p : DiffPath) (fuel : Nat) (mi : Int) (w : W) (s : S) (x : X) :
    optimize p E o fuel mi w s x = optimizeAcc E o fuel mi w s x := by
  cases p <;> simp [optimize]
  cases optimizeAcc E o fuel mi w s x <;> rfl

theorem step_stats {x : X} {out : Output F R M} {p w s out'} (h : StepSpec E o x out p w s out') :
    out'.numResiduals = out.numResiduals ∧ out'.numDiffUsed = out.numDiffUsed := by
  cases h <;> exact ⟨rfl, rfl⟩

theorem run_stats {fuel : Nat} {mi : Int} {w : W} {s : S} {x : X} {st : LoopSt F R W S X V M}
    (h : optimizeAcc E o fuel mi w s x = .ok st) : st.out.numResiduals = 0 ∧ st.out.numDiffUsed = false := by
  obtain ⟨m, st0, -, hj, -, -, e⟩ := run_inv (I := fun st => st.out.numResiduals = 0 ∧ st.out.numDiffUsed = false)
    (J := fun st => st.out.numResiduals = 0 ∧ st.out.numDiffUsed = false)
    (fun last st st' _ hI hb => by
      obtain ⟨_, _, _, _, _, _, hs⟩ := body_spec hb
      have h1 := step_stats hs.step
      have : st'.out.numResiduals = 0 ∧ st'.out.numDiffUsed = false := by
        rw [hs.out]; exact ⟨h1.1.trans hI.1, h1.2.trans hI.2⟩
      exact ⟨fun _ => this, this⟩) ⟨rfl, rfl⟩ ⟨rfl, rfl⟩ h
  rw [e]
  exact hj

/-- **C19 is violated** by every run: no run ever reports a number of residuals or the use of numerical
differentiation. -/
theorem C19_never_reported (p : DiffPath) {fuel : Nat} {mi : Int} {w : W} {s : S} {x : X} {st : LoopSt F R W S X V M}
    (h : optimize p E o fuel mi w s x = .ok st) : st.out.numResiduals = 0 ∧ st.out.numDiffUsed = false := by
  rw [optimize_eq] at h
  exact run_stats h

/-- **C19** (partial): `num_diff_used` is right unless numerical differentiation was used. -/
theorem C19_num_diff_partial (p : DiffPath) (hp : p ≠ .numeric) {fuel : Nat} {mi : Int} {w : W} {s : S} {x : X} {st : LoopSt F R W S X V M}
    (h : optimize p E o fuel mi w s x = .ok st) : (st.out.numDiffUsed = true ↔ p = .numeric) := by
  rw [(C19_never_reported p h).2]
  exact ⟨fun h => (nomatch h), fun h => absurd h hp⟩

/-- **C19 is violated**: `Covariance(true)` of the output of a run is never rescaled. -/
theorem C19_never_rescaled {E : Env F R W S X V (DMat F)} (L : LinAlg F) (p : DiffPath) {fuel : Nat} {mi : Int} {w : W} {s : S} {x : X}
    {st : LoopSt F R W S X V (DMat F)} (h : optimize p E o fuel mi w s x = .ok st) :
    covariance L st.out true = covariance L st.out false := by
  unfold covariance
  rw [(C19_never_reported p h).1]
  simp

/-- **C19** (partial): if somebody else stores in `num_residuals` a number larger than the number of parameters, and
`final_cost` is the norm of the residuals (`use_squared_norm = false`, exact arithmetic), then
`Covariance(true)` is the covariance times the residual variance `ssr / (m - n)`.
Missing: the code never sets `num_residuals`, and by default `final_cost` is already squared, see
`C19_variance_squared`. -/
theorem C19_rescale_partial (L : LinAlg ℝ) (out : Output ℝ R (DMat ℝ)) (H C : DMat ℝ) (ssr : ℝ)
    (hH : out.finalHessian = some H) (hC : covariance L out false = some C) (hm : H.n < out.numResiduals)
    (h0 : 0 ≤ ssr) (hc : out.finalCost.cost = Real.sqrt ssr) :
    ∃ C', covariance L out true = some C' ∧ ∃ hn : C'.n = C.n, ∀ i j, C'.m i j = C.m (hn ▸ i) (hn ▸ j) * (ssr / ((out.numResiduals : ℝ) - H.n)) := by
  unfold covariance at hC ⊢
  rw [hH] at hC ⊢
  simp only at hC ⊢
  cases hi : denseInvCov L H with
  | none => rw [hi] at hC; cases hC
  | some D =>
    rw [hi] at hC
    simp only [Bool.false_and, Bool.false_eq_true, if_false] at hC
    obtain rfl := Option.some.inj hC
    simp only [Bool.true_and, gt_iff_lt, hm, decide_true, if_true]
    refine ⟨_, rfl, rfl, fun i j => ?_⟩
    simp only [DMat.scale, RealOps.mul_eq, RealOps.div_eq, RealOps.ofInt_eq, hc, Real.mul_self_sqrt h0]
    push_cast
    rfl

/-! ### C49 -/

/-- stopping because of a small step means that a step was recorded -/
def DeltaKnown (out : Output F R M) : Prop := out.stop = .kMinDeltaNorm → out.deltas2 ≠ []

theorem step_delta {x : X} {out : Output F R M} {p w s out'} (h0 : out.stop = .kNone) (h : StepSpec E o x out p w s out') :
    DeltaKnown out' := by
  cases h with
  | fail w' s' a b r hr =>
    intro h
    have := hr.code
    have h' : r = .kMinDeltaNorm := h
    rw [h'] at this
    exact absurd this (by decide)
  | good => intro _; simp [pushOut]
  | badStop => intro _; simp [pushOut]
  | bad => intro _; simp [pushOut]

theorem run_delta {fuel : Nat} {mi : Int} {w : W} {s : S} {x : X} {st : LoopSt F R W S X V M}
    (h : optimizeAcc E o fuel mi w s x = .ok st) : DeltaKnown st.out := by
  obtain ⟨m, st0, -, hj, -, -, e⟩ := run_inv (I := fun st => DeltaKnown st.out) (J := fun st => DeltaKnown st.out)
    (fun last st st' h0 hI hb => by
      obtain ⟨_, _, _, _, out1, _, hs⟩ := body_spec hb
      have h1 := step_delta h0 hs.step
      have : DeltaKnown st'.out := by
        rw [hs.out]
        intro h
        simp only [timeStop] at h
        split at h
        · cases h
        · exact h1 h
      exact ⟨fun _ => this, this⟩) (fun h => by cases h) (fun h => by cases h) h
  rw [e]
  intro h
  simp only at h
  split at h
  · cases h
  · exact hj h

theorem describe_ok {out : Output F R M} (h : DeltaKnown out) (opt : Option (Options F W V)) : ∃ l, describe out opt = .ok l := by
  unfold describe
  split <;> try exact ⟨_, rfl⟩
  next hs =>
    split
    · exact ⟨_, rfl⟩
    · have := h hs
      rw [if_neg (by simpa using this)]
      exact ⟨_, rfl⟩

/-- **C49**: describing the output of a run, with or without options (of this or another run), reads no
empty history; nor does describing a default constructed output. -/
theorem C49_description_safe {W' V' : Type} (p : DiffPath) {fuel : Nat} {mi : Int} {w : W} {s : S} {x : X} {st : LoopSt F R W S X V M}
    (h : optimize p E o fuel mi w s x = .ok st) (opt : Option (Options F W' V')) (r1 : R) :
    (∃ l, describe st.out opt = .ok l) ∧ ∃ l, describe (Output.init r1 : Output F R M) opt = .ok l := by
  rw [optimize_eq] at h
  exact ⟨describe_ok (run_delta h) opt, describe_ok (fun h => by cases h) opt⟩

end

/-! ### witnesses -/

/-- a run whose final cost has one residual, computed with numerical differentiation -/
def run19 : Res (LoopSt D D Nat (GNState D D) D (DVec D) (DMat D)) :=
  optimize .numeric (gnEnv sopts1 lin1 (lin3 none)) (opts1 3) 300 (-1) 0 gn0 (ofInt 0)

/-- **C19 is violated**: the run uses numerical differentiation and ends with a cost of one residual, it
reports neither. -/
theorem C19_violated : ∃ st, run19 = .ok st ∧ st.out.finalCost.num = 1 ∧ st.out.numResiduals = 0 ∧ st.out.numDiffUsed = false := by
  have h : run19.holds (fun st => decide (st.out.finalCost.num = 1)) = true := by decide +kernel
  obtain ⟨st, h1, h2⟩ := Res.exists_of_holds h
  exact ⟨st, h1, by simpa using h2, C19_never_reported _ h1⟩

/-- an output with 3 residuals, one parameter, Hessian 1 and final cost `c` -/
noncomputable def out19 (c : ℝ) : Output ℝ ℝ (DMat ℝ) :=
  { (Output.init (1 : ℝ) : Output ℝ ℝ (DMat ℝ)) with finalCost := { cost := c, num := 3, inlier := 1 }, numResiduals := 3, finalHessian := some ⟨1, fun _ _ => 1⟩ }

/-- **C19 is violated**: with the default cost (the sum of squared residuals, here 4 from 3 residuals), one parameter
and Hessian 1, the rescaled covariance is 8 instead of the residual variance 4 / (3 - 1) = 2. -/
theorem C19_variance_squared :
    ∃ C, covariance linR (out19 4) true = some C ∧ ∃ h : C.n = 1, ∀ i j, C.m (h ▸ i) (h ▸ j) = 8 := by
  refine ⟨_, rfl, rfl, fun i j => ?_⟩
  simp [DMat.scale, linR, out19]
  norm_num

/-- the hypotheses of `C19_rescale_partial` are met: 3 residuals with sum of squares 4, one parameter -/
example : ∃ C, covariance linR (out19 2) false = some C ∧ (out19 2).finalCost.cost = Real.sqrt 4 ∧ 1 < (out19 2).numResiduals := by
  refine ⟨_, rfl, ?_, Nat.lt_of_lt_of_le (by decide : 1 < 3) (Nat.le_refl 3)⟩
  show (2 : ℝ) = _
  rw [show (4 : ℝ) = 2 ^ 2 by norm_num, Real.sqrt_sq (by norm_num)]

/-- a run stopping because of a small step (C49) -/
def run49 : Res (LoopSt D D Nat (GNState D D) D (DVec D) (DMat D)) :=
  optimize .acc (gnEnv sopts1 lin1 (lin3 none)) { opts1 3 with minStepNorm2 := ofInt 1 } 300 (-1) 0 gn0 (ofInt 0)

example : ∃ st, run49 = .ok st ∧ st.out.stop = .kMinDeltaNorm := by
  have h : run49.holds (fun st => decide (st.out.stop = .kMinDeltaNorm)) = true := by decide +kernel
  obtain ⟨st, h1, h2⟩ := Res.exists_of_holds h
  exact ⟨st, h1, by simpa using h2⟩

/-- The test for an empty history is the wrong way round: an output made by hand that claims a small step
without a history is read out of bounds. -/
theorem C49_handmade_ub : describe ({ Output.init (ofInt 1 : D) with stop := .kMinDeltaNorm } : Output D D (DMat D)) (some (opts1 3)) = .ub := rfl

/-! ### C53: the covariance is the inverse of the Hessian -/

theorem symUpper_sym {n : Nat} (H : Mat ℝ n) : SymR (symUpper H) := by
  intro i j
  unfold symUpper
  rcases lt_trichotomy i j with h | h | h
  · rw [if_pos h.le, if_neg (not_le.mpr h)]
  · rw [h]
  · rw [if_neg (not_le.mpr h), if_pos h.le]

theorem denseInvCov_pd (L : LinAlg ℝ) (hL : ExactLinAlg L) (n : Nat) (H : Mat ℝ n) (hn : 0 < n) (hpd : PD (symUpper H)) :
    ∃ C : Mat ℝ n, denseInvCov L ⟨n, H⟩ = some ⟨n, C⟩ ∧ ∀ v, mv (symUpper H) (mv C v) = v := by
  unfold denseInvCov
  simp only
  by_cases h1 : n = 1
  · subst h1
    rw [if_pos rfl]
    have hs : symUpper H = H := by
      funext i j
      rw [Subsingleton.elim i j]
      simp [symUpper]
    refine ⟨_, rfl, fun v => ?_⟩
    rw [hs] at hpd ⊢
    exact hL.inv 1 H v hpd
  · rw [if_neg h1, if_pos hn]
    have hall : ∀ j : Fin n, (L.ldlt n (symUpper H) (unitCol j)).isSome := by
      intro j
      obtain ⟨v, hv, -⟩ := hL.ldlt n (symUpper H) (unitCol j) hpd
      rw [hv]; rfl
    rw [dif_pos hall]
    refine ⟨_, rfl, fun v => ?_⟩
    have hcol : ∀ j, mv (symUpper H) (fun i => (L.ldlt n (symUpper H) (unitCol j)).get (hall j) i) = unitCol j := by
      intro j
      obtain ⟨u, hu, hu2⟩ := hL.ldlt n (symUpper H) (unitCol j) hpd
      have e : (L.ldlt n (symUpper H) (unitCol j)).get (hall j) = u := Option.get_of_eq_some _ hu
      rw [e]
      exact hu2
    funext i
    have hs : mv (symUpper H) (mv (fun i j => (L.ldlt n (symUpper H) (unitCol j)).get (hall j) i) v) i =
        ∑ j, mv (symUpper H) (fun i => (L.ldlt n (symUpper H) (unitCol j)).get (hall j) i) i * v j := by
      simp only [mv, Finset.mul_sum, Finset.sum_mul]
      rw [Finset.sum_comm]
      exact Finset.sum_congr rfl fun k _ => Finset.sum_congr rfl fun j _ => by ring
    rw [hs]
    simp only [hcol]
    simp [unitCol]

/-- **C53**: if the Hessian stored in an output is positive definite (its upper triangle, read as a symmetric
matrix; for one parameter the Hessian itself), `Covariance()` returns its inverse, which is unique. -/
theorem C53_covariance_inverse {R : Type} (L : LinAlg ℝ) (hL : ExactLinAlg L) (out : Output ℝ R (DMat ℝ)) (n : Nat) (H : Mat ℝ n)
    (hH : out.finalHessian = some ⟨n, H⟩) (hn : 0 < n) (hpd : PD (symUpper H)) :
    ∃ C : Mat ℝ n, covariance L out false = some ⟨n, C⟩ ∧ (∀ v, mv (symUpper H) (mv C v) = v) ∧
      ∀ C' : Mat ℝ n, (∀ v, mv (symUpper H) (mv C' v) = v) → C' = C := by
  have huniq : ∀ C C' : Mat ℝ n, (∀ v, mv (symUpper H) (mv C v) = v) → (∀ v, mv (symUpper H) (mv C' v) = v) → C' = C := by
    intro C C' h1 h2
    funext i j
    have := congrFun (pd_inj hpd ((h2 (Pi.single j 1)).trans (h1 (Pi.single j 1)).symm)) i
    simpa [mv, Pi.single_apply] using this
  obtain ⟨C, h1, h2⟩ := denseInvCov_pd L hL n H hn hpd
  refine ⟨C, ?_, h2, fun C' h3 => huniq C C' h2 h3⟩
  unfold covariance
  rw [hH]
  simp only
  rw [h1]
  simp

/-- a Hessian of which only the upper triangle is filled -/
example : PD (symUpper (fun i j : Fin 2 => if i = j then (2 : ℝ) else if i < j then 1 else 0)) := by
  refine ⟨symUpper_sym _, fun v hv => ?_⟩
  have : dotR v (mv (symUpper (fun i j : Fin 2 => if i = j then (2 : ℝ) else if i < j then 1 else 0)) v) = v 0 ^ 2 + v 1 ^ 2 + (v 0 + v 1) ^ 2 := by
    simp [dotR, mv, Fin.sum_univ_two, symUpper]; ring
  rw [this]
  by_contra h
  have h0 : v 0 = 0 := by nlinarith [sq_nonneg (v 0), sq_nonneg (v 1), sq_nonneg (v 0 + v 1)]
  have h1 : v 1 = 0 := by nlinarith [sq_nonneg (v 0), sq_nonneg (v 1), sq_nonneg (v 0 + v 1)]
  exact hv (by funext i; fin_cases i <;> simp [h0, h1])

end Verif
