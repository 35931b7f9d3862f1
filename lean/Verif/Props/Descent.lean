import Verif.Lemmas.RealLin
import Verif.Props.LmSystem
/-!
# C25: steps are descent directions
-/

set_option linter.unusedSectionVars false

namespace Verif
open FloatOps

section
variable {R W X : Type}
variable {so : SolverOpts ℝ} {L : LinAlg ℝ} {P : Problem ℝ R W X}

/-- the linear system is really solved: `LDLT`, or the inverse and not the special case of one
static dimension with a tiny Hessian (gn.h:158-160) -/
def Solves (so : SolverOpts ℝ) (one : Bool) {n : Nat} (H : Mat ℝ n) : Prop :=
  so.useLdlt = true ∨ one = false ∨ ∀ h : 0 < n, eps < H ⟨0, h⟩ ⟨0, h⟩

/-- the diagonal test of gn.h:129-135 and lm.h:72-78 passes: it is off, or no coefficient is below the threshold -/
def DiagOk (so : SolverOpts ℝ) {n : Nat} (H : Mat ℝ n) : Prop := so.checkMinHDiag ≤ 0 ∨ ∀ i, so.checkMinHDiag ≤ |H i i|

/-- gradient clipping leaves `g` alone: it is off, or all components are in the range -/
def Unclipped (so : SolverOpts ℝ) {n : Nat} (g : Vec ℝ n) : Prop := so.gradClip = 0 ∨ ∀ i, |g i| ≤ so.gradClip

theorem absF_real (a : ℝ) : absF a = |a| := by
  unfold absF
  by_cases h : a < 0
  · rw [if_pos (by simpa using h), abs_of_neg h]; simp
  · rw [if_neg (by simpa using h), abs_of_nonneg (not_lt.mp h)]

theorem DiagOk.pass {n : Nat} {H : Mat ℝ n} (h : DiagOk so H) :
    ¬ ((lt (ofInt 0) so.checkMinHDiag && lowDiag so.checkMinHDiag H) = true) := by
  simp only [Bool.and_eq_true, RealOps.lt_eq, RealOps.ofInt_eq, lowDiag, List.any_eq_true, absF_real, not_and, not_exists]
  rintro h0 i - h1
  rcases h with h | h
  · norm_num at h0; linarith
  · exact absurd h1 (not_lt.mpr (h i))

theorem Unclipped.clamp {n : Nat} {g : Vec ℝ n} (h : Unclipped so g) : clampVec so.gradClip g = g := by
  unfold clampVec
  by_cases h0 : so.gradClip = 0
  · rw [h0, if_pos (by simp)]
  · rw [if_neg (by simpa using h0)]
    funext i
    have := abs_le.mp (h.resolve_left h0 i)
    unfold clampCoef
    have h1 : ¬ (lt (g i) (neg so.gradClip) = true) := by simp; exact this.1
    have h2 : ¬ (lt so.gradClip (g i) = true) := by simp; exact this.2
    simp only [if_neg h1, if_neg h2]

theorem mv_neg_inv {n : Nat} (A : Mat ℝ n) (g : Vec ℝ n) : mv (fun i j => -A i j) g = mv A (-g) := by
  funext i; simp [mv]

theorem gnSolve_pd (hL : ExactLinAlg L) (one : Bool) (s : GNState ℝ R) (hv : s.cost.isValid = true) (hpd : PD s.H)
    (hone : Solves so one s.H) : ∃ v, gnSolve so L one s = some ⟨s.n, v⟩ ∧ mv s.H v = -s.g := by
  have hng : negVec s.g = -s.g := by funext i; simp [negVec]
  by_cases hl : so.useLdlt = true
  · obtain ⟨v, h1, h2⟩ := hL.ldlt s.n s.H (-s.g) hpd
    refine ⟨v, ?_, h2⟩
    unfold gnSolve solveLDLT
    rw [hv, hl, symUpper_of_sym hpd.1, hng, h1]
    rfl
  · have hl' : so.useLdlt = false := Bool.not_eq_true _ ▸ hl
    have h2 := hL.inv s.n s.H (-s.g) hpd
    refine ⟨mv (L.inv s.n s.H) (-s.g), ?_, h2⟩
    have h3 : (⟨s.n, mulVecF (fun i j => neg (L.inv s.n s.H i j)) s.g⟩ : DVec ℝ) = ⟨s.n, mv (L.inv s.n s.H) (-s.g)⟩ := by
      rw [mulVecF_eq, ← mv_neg_inv]; rfl
    unfold gnSolve
    rw [hv, hl']
    simp only [if_true, Bool.false_eq_true, if_false]
    rw [h3]
    split
    next h1 =>
      split
      next h0 =>
        rcases hone with h | h | h
        · rw [hl'] at h; cases h
        · rw [h] at h1; cases h1
        · rw [if_pos (by simpa using h h0)]
      · rfl
    · rfl

theorem descent_of_solution {n : Nat} {H : Mat ℝ n} {g v : Vec ℝ n} (hpd : PD H) (h : mv H v = -g) (hg : g ≠ 0) : dotR g v < 0 := by
  have hv : v ≠ 0 := by
    rintro rfl
    rw [mv_zero] at h
    exact hg (neg_eq_zero.mp h.symm)
  have h1 := hpd.2 v hv
  rw [h, dotR_neg, dotR_comm] at h1
  linarith

theorem dampH_eq {n : Nat} {l : ℝ} (hl : 0 ≤ l) (H : Mat ℝ n) : dampH l H = dampedR l H := by
  rw [dampH_def]
  by_cases h : 0 < l
  · rw [if_pos (by simpa using h)]
    simpa using scaleDiag_damped l H
  · rw [if_neg (by simpa using h)]
    rw [le_antisymm (not_lt.mp h) hl, damped_zero]

/-- the Hessians and dampings the property is about -/
def Dampable {n : Nat} (H : Mat ℝ n) (l : ℝ) : Prop := (PSD H ∧ (∀ i, 0 < H i i) ∧ 0 < l) ∨ (PD H ∧ 0 ≤ l)

theorem Dampable.pd {n : Nat} {H : Mat ℝ n} {l : ℝ} (h : Dampable H l) : PD (dampedR l H) := by
  rcases h with ⟨h1, h2, h3⟩ | ⟨h1, h2⟩
  · exact damped_pd h1 h2 h3
  · exact damped_pd' h1 h2

theorem Dampable.nonneg {n : Nat} {H : Mat ℝ n} {l : ℝ} (h : Dampable H l) : 0 ≤ l := by
  rcases h with ⟨h1, h2, h3⟩ | ⟨h1, h2⟩
  · exact h3.le
  · exact h2

/-- **C25** (partial), Levenberg-Marquardt: let the user's function return at `x` the gradient `g` and a
Hessian `H` that is positive semi-definite with positive diagonal, and the damping `l` be positive; or `H` be
positive definite and `l` nonnegative. Then the `Build` that computes the system succeeds
(if the cost is usable, the diagonal test does not reject `H` and clipping does not change `g`), the damped matrix is positive definite, `Solve`
returns the unique solution of `(H + l diag H) dx = -g`, and `g . dx < 0` unless `g = 0`.
Missing: a static size of one with `use_ldlt = false` and a Hessian at most `FloatEpsilon`, see
`C25_tiny_hessian`. -/
theorem C25_lm_descent_partial (hL : ExactLinAlg L) (w : W) (s : LMState ℝ R) (x : X) (hr : s.rebuild = true)
    {c g H w'} (hu : P.acc.full w x s.gn.n (fun _ => 0) (fun _ _ => 0) = ((c, g, H), w'))
    (hv : (normalizeCost so c).isValid = true) (hmin : DiagOk so H) (hclip : Unclipped so g)
    (hd : Dampable H s.lambda) (hone : Solves so (P.dims == some 1) (dampedR s.lambda H)) :
    PD (dampedR s.lambda H) ∧ ∃ t dx, lmBuild so P w s x = (true, t, w') ∧
      gnSolve so L (P.dims == some 1) t.gn = some ⟨s.gn.n, dx⟩ ∧ mv (dampedR s.lambda H) dx = -g ∧
      (∀ y, mv (dampedR s.lambda H) y = -g → y = dx) ∧ (g ≠ 0 → dotR g dx < 0) := by
  have hpd := hd.pd
  have hsym : SymR H := by
    rcases hd with ⟨h, -, -⟩ | ⟨h, -⟩
    · exact h.1
    · exact h.1
  refine ⟨hpd, ?_⟩
  have hb : buildSystem so P w s.gn x = (true, ⟨s.gn.n, g, H, normalizeCost so c⟩, w') := by
    unfold buildSystem gnAccumulate
    rw [show P.acc.full w x s.gn.n (fun _ => ofInt 0) (fun _ _ => ofInt 0) = _ from by simpa using hu]
    simp only [hv, if_true]
    rw [if_neg hmin.pass]
    rw [hclip.clamp, symUpper_of_sym hsym]
    split <;> rfl
  have ht : lmBuild so P w s x = (true, lmDamp { s with gn := ⟨s.gn.n, g, H, normalizeCost so c⟩ }, w') := by
    unfold lmBuild
    rw [hr, hb]; rfl
  have hgn : (lmDamp { s with gn := ⟨s.gn.n, g, H, normalizeCost so c⟩ }).gn =
      ⟨s.gn.n, g, dampedR s.lambda H, normalizeCost so c⟩ := by
    rw [← dampH_eq hd.nonneg]
    rw [dampH_def]; unfold lmDamp
    simp only [hr, if_true]
    split <;> rfl
  obtain ⟨v, h1, h2⟩ := gnSolve_pd (so := so) hL (P.dims == some 1) ⟨s.gn.n, g, dampedR s.lambda H, normalizeCost so c⟩ hv hpd hone
  refine ⟨_, v, ht, by rw [hgn]; exact h1, h2, fun y hy => pd_inj hpd (hy.trans h2.symm), descent_of_solution hpd h2⟩

/-- **C25** (partial), Gauss-Newton on a positive definite Hessian. Same gap as above. -/
theorem C25_gn_descent_partial (hL : ExactLinAlg L) (w : W) (s : GNState ℝ R) (x : X)
    {c g H w'} (hu : P.acc.full w x s.n (fun _ => 0) (fun _ _ => 0) = ((c, g, H), w'))
    (hv : (normalizeCost so c).isValid = true) (hmin : DiagOk so H) (hclip : Unclipped so g)
    (hd : PD H) (hone : Solves so (P.dims == some 1) H) :
    ∃ t dx, buildSystem so P w s x = (true, t, w') ∧
      gnSolve so L (P.dims == some 1) t = some ⟨s.n, dx⟩ ∧ mv H dx = -g ∧
      (∀ y, mv H y = -g → y = dx) ∧ (g ≠ 0 → dotR g dx < 0) := by
  have hb : buildSystem so P w s x = (true, ⟨s.n, g, H, normalizeCost so c⟩, w') := by
    unfold buildSystem gnAccumulate
    rw [show P.acc.full w x s.n (fun _ => ofInt 0) (fun _ _ => ofInt 0) = _ from by simpa using hu]
    simp only [hv, if_true]
    rw [if_neg hmin.pass]
    rw [hclip.clamp, symUpper_of_sym hd.1]
    split <;> rfl
  obtain ⟨v, h1, h2⟩ := gnSolve_pd (so := so) hL (P.dims == some 1) ⟨s.n, g, H, normalizeCost so c⟩ hv hd hone
  exact ⟨_, v, hb, h1, h2, fun y hy => pd_inj hd (hy.trans h2.symm), descent_of_solution hd h2⟩

/-- **C25**, monotonicity: with the same gradient and Hessian a larger damping gives a step that is
strictly shorter in the norm weighted with the diagonal of `H` (unless the gradient is zero, when both are 0). -/
theorem C25_step_shrinks {n : Nat} {H : Mat ℝ n} {g : Vec ℝ n} {l l' : ℝ} (hll : l < l') (h : Dampable H l)
    (dx dx' : Vec ℝ n) (e : mv (dampedR l H) dx = -g) (e' : mv (dampedR l' H) dx' = -g) :
    (g = 0 → dx = 0 ∧ dx' = 0) ∧ (g ≠ 0 → diagSq H dx' < diagSq H dx) := by
  have hdiag : ∀ i, 0 < H i i := by
    rcases h with ⟨-, h, -⟩ | ⟨h, -⟩
    · exact h
    · exact pd_diag h
  have h' : Dampable H l' := by
    rcases h with ⟨h1, h2, h3⟩ | ⟨h1, h2⟩
    · exact Or.inl ⟨h1, h2, h3.trans hll⟩
    · exact Or.inr ⟨h1, h2.trans hll.le⟩
  constructor
  · rintro rfl
    rw [neg_zero, ← mv_zero (dampedR l H)] at e
    rw [neg_zero, ← mv_zero (dampedR l' H)] at e'
    exact ⟨pd_inj h.pd e, pd_inj h'.pd e'⟩
  · intro hg
    have hdx' : dx' ≠ 0 := by
      rintro rfl
      rw [mv_zero] at e'
      exact hg (neg_eq_zero.mp e'.symm)
    -- e := dx - dx' solves (H + l D) e = (l' - l) D dx'
    have key : mv (dampedR l H) (dx - dx') = (l' - l) • fun i => H i i * dx' i := by
      have h1 := damped_mv l H dx'
      have h2 := damped_mv l' H dx'
      rw [mv_sub, e, ← e', h1, h2, sub_smul]
      abel
    have hne : dx - dx' ≠ 0 := by
      intro h0
      rw [h0, mv_zero] at key
      apply hdx'
      funext i
      have := congrFun key i
      simp only [Pi.zero_apply, Pi.smul_apply, smul_eq_mul] at this
      have h3 : (l' - l) * H i i ≠ 0 := mul_ne_zero (by linarith) (hdiag i).ne'
      rw [← mul_assoc] at this
      exact (mul_eq_zero.mp this.symm).resolve_left h3
    have hq := h.pd.2 _ hne
    rw [key, dotR_smul] at hq
    have hpos : 0 < dotR (dx - dx') (fun i => H i i * dx' i) := by
      by_contra hle
      have : (l' - l) * dotR (dx - dx') (fun i => H i i * dx' i) ≤ 0 :=
        mul_nonpos_of_nonneg_of_nonpos (by linarith) (not_lt.mp hle)
      linarith
    have hsum : diagSq H dx = diagSq H dx' + 2 * dotR (dx - dx') (fun i => H i i * dx' i) + diagSq H (dx - dx') := by
      simp only [diagSq, dotR, Finset.mul_sum, ← Finset.sum_add_distrib]
      refine Finset.sum_congr rfl fun i _ => ?_
      simp only [Pi.sub_apply]
      ring
    have := diagSq_pos hdiag hne
    linarith
end

/-! ### the gap, and non-vacuity -/

/-- one static parameter, gradient -1, Hessian `h` everywhere -/
def flatH (h : ℝ) : Problem ℝ ℝ Unit ℝ where
  acc :=
    { full := fun w _ _ g H => (({ cost := 1, num := 1, inlier := 1 }, fun i => g i - 1, fun i j => H i j + h), w)
      eval := fun w _ => ({ cost := 1, num := 1, inlier := 1 }, w) }
  dims := some 1
  dynDims := fun _ => 1
  plusEq := fun x d => if h : 0 < d.n then x + d.v ⟨0, h⟩ else x
  clock := fun w => (1, w)
  alloc := fun w _ => (none, w)
  ratio1 := 1

noncomputable def soptsInv : SolverOpts ℝ := { soptsR with useLdlt := false }

theorem pd_one {h : ℝ} (hh : 0 < h) : PD (fun _ _ : Fin 1 => h) := by
  refine ⟨fun _ _ => rfl, fun v hv => ?_⟩
  have hv0 : v 0 ≠ 0 := fun h0 => hv (by funext i; rw [Subsingleton.elim i 0]; exact h0)
  have : dotR v (mv (fun _ _ : Fin 1 => h) v) = h * v 0 ^ 2 := by simp [dotR, mv]; ring
  rw [this]
  positivity

theorem one_lt_maxVal : (1 : ℝ) < maxVal := by
  show (1 : ℝ) < 2 ^ 1024
  exact one_lt_pow₀ (by norm_num) (by norm_num)

theorem flatH_valid : (normalizeCost soptsInv ({ cost := 1, num := 1, inlier := 1 } : Cost ℝ ℝ)).isValid = true := by
  have h : eq (1 : ℝ) maxVal = false := by rw [RealOps.eq_eq_false]; exact one_lt_maxVal.ne
  simp [normalizeCost, soptsInv, soptsR, Cost.isValid, ne, h]

/-- **C25 is violated** for a static size of one without LDLT: the Hessian 1e-8 is positive definite
and the gradient is -1, but the "step" is zero, hence neither the solution nor a descent direction. -/
theorem C25_tiny_hessian (L : LinAlg ℝ) :
    PD (fun _ _ : Fin 1 => (1 / 10 ^ 8 : ℝ)) ∧
    ∃ t, buildSystem soptsInv (flatH (1 / 10 ^ 8)) () ⟨1, fun _ => 0, fun _ _ => 0, { cost := 0, num := 0, inlier := 1 }⟩ 0 = (true, t, ()) ∧
      gnSolve soptsInv L ((flatH (1 / 10 ^ 8)).dims == some 1) t = some ⟨1, 0⟩ ∧
      t = ⟨1, fun _ => -1, fun _ _ => 1 / 10 ^ 8, { cost := 1, num := 1, inlier := 1 }⟩ ∧
      dotR (fun _ : Fin 1 => (-1 : ℝ)) 0 = 0 := by
  refine ⟨pd_one (by norm_num), _, ?_, ?_, rfl, by simp [dotR]⟩
  · have := flatH_valid
    unfold buildSystem gnAccumulate
    simp only [flatH, RealOps.ofInt_eq]
    simp only [this, if_true]
    simp [soptsInv, soptsR, clampVec, normalizeCost]
  · have hv := flatH_valid
    unfold gnSolve
    rw [show (Cost.isValid ({ cost := 1, num := 1, inlier := 1 } : Cost ℝ ℝ)) = true from hv]
    have h1 : lt (eps : ℝ) (1 / 10 ^ 8) = false := by
      rw [RealOps.lt_eq_false]; show (1 / 10 ^ 8 : ℝ) ≤ 1 / 10 ^ 7; norm_num
    simp only [if_true, soptsInv, Bool.false_eq_true, if_false, flatH]
    simp only [beq_self_eq_true, if_true, h1, Bool.false_eq_true, if_false]
    rw [dif_pos (by decide)]
    simp
    rfl

/-- a function of two parameters with the gradient (1, 10) and the Hessian ((1, 3), (3, 10)) -/
def skewed : Problem ℝ ℝ Unit ℝ where
  acc :=
    { full := fun w _ _ g H => (({ cost := 1, num := 1, inlier := 1 }, fun i => g i + if i.1 = 0 then 1 else 10,
        fun i j => H i j + if i.1 = 0 then (if j.1 = 0 then 1 else 3) else (if j.1 = 0 then 3 else 10)), w)
      eval := fun w _ => ({ cost := 1, num := 1, inlier := 1 }, w) }
  dims := none
  dynDims := fun _ => 2
  plusEq := fun x _ => x
  clock := fun w => (1, w)
  alloc := fun w _ => (none, w)
  ratio1 := 1

/-- **C25 is violated** with gradient clipping: the Hessian is positive definite and the gradient is (1, 10), clipped to (1, 1); the step is
(-7, 2), along which the cost grows. -/
theorem C25_clipping_ascends {L : LinAlg ℝ} (hL : ExactLinAlg L) :
    ∃ (g : Vec ℝ 2) (H : Mat ℝ 2), PD H ∧ (∃ c, skewed.acc.full () 0 2 (fun _ => 0) (fun _ _ => 0) = ((c, g, H), ())) ∧
      ∃ t dx, buildSystem { soptsR with gradClip := 1 } skewed () ⟨2, fun _ => 0, fun _ _ => 0, { cost := 0, num := 0, inlier := 1 }⟩ 0 = (true, t, ()) ∧
        gnSolve { soptsR with gradClip := 1 } L (skewed.dims == some 1) t = some ⟨2, dx⟩ ∧ 0 < dotR g dx := by
  let H : Mat ℝ 2 := fun i j => if i.1 = 0 then (if j.1 = 0 then 1 else 3) else (if j.1 = 0 then 3 else 10)
  have hsym : SymR H := by intro i j; fin_cases i <;> fin_cases j <;> rfl
  have hpd : PD H := by
    refine ⟨hsym, fun v hv => ?_⟩
    have e : dotR v (mv H v) = (v 0 + 3 * v 1) ^ 2 + v 1 ^ 2 := by
      simp [dotR, mv, H, Fin.sum_univ_two]; ring
    rw [e]
    by_contra hle
    have h1 : v 1 = 0 := by nlinarith [sq_nonneg (v 0 + 3 * v 1), sq_nonneg (v 1)]
    have h0 : v 0 = 0 := by rw [h1] at hle; nlinarith [sq_nonneg (v 0)]
    exact hv (by funext i; fin_cases i <;> assumption)
  have hv : (normalizeCost { soptsR with gradClip := 1 } ({ cost := 1, num := 1, inlier := 1 } : Cost ℝ ℝ)).isValid = true := flatH_valid
  have hb : buildSystem { soptsR with gradClip := 1 } skewed () ⟨2, fun _ => 0, fun _ _ => 0, { cost := 0, num := 0, inlier := 1 }⟩ 0 =
      (true, ⟨2, fun _ => 1, H, normalizeCost { soptsR with gradClip := 1 } { cost := 1, num := 1, inlier := 1 }⟩, ()) := by
    have hg : clampVec (1 : ℝ) (fun i : Fin 2 => (0 : ℝ) + if i.1 = 0 then 1 else 10) = fun _ => 1 := by
      funext i
      fin_cases i <;> simp [clampVec, clampCoef] <;> norm_num
    have hH : (fun i j : Fin 2 => (0 : ℝ) + if i.1 = 0 then (if j.1 = 0 then 1 else 3) else (if j.1 = 0 then 3 else 10)) = H := by
      funext i j; exact zero_add _
    unfold buildSystem gnAccumulate
    simp only [skewed, RealOps.ofInt_eq, Int.cast_zero, hH, hg]
    simp only [hv, if_true]
    rw [if_neg (by simp [soptsR])]
    rw [symUpper_of_sym hsym]
    split <;> rfl
  obtain ⟨v, h1, h2⟩ := gnSolve_pd (so := { soptsR with gradClip := 1 }) hL (skewed.dims == some 1)
    ⟨2, fun _ => 1, H, normalizeCost { soptsR with gradClip := 1 } ({ cost := 1, num := 1, inlier := 1 } : Cost ℝ ℝ)⟩ hv hpd (Or.inl rfl)
  refine ⟨fun i => if i.1 = 0 then 1 else 10, H, hpd, ⟨_, by simp [skewed, H]; rfl⟩, _, v, hb, h1, ?_⟩
  have e0 := congrFun h2 0
  have e1 := congrFun h2 1
  simp [mv, H, Fin.sum_univ_two] at e0 e1
  simp [dotR, Fin.sum_univ_two]
  nlinarith

example : ExactLinAlg someLinAlg := someLinAlg_exact

/-- the hypotheses of `C25_lm_descent_partial` are met by a singular Hessian of size two with damping 1 -/
example : Dampable (fun _ _ : Fin 2 => (1 : ℝ)) 1 ∧ ¬ PD (fun _ _ : Fin 2 => (1 : ℝ)) ∧ ExactLinAlg someLinAlg ∧
    ∃ so : SolverOpts ℝ, so.checkMinHDiag = 1 / 2 ∧ so.gradClip = 1 ∧ Solves so false (dampedR 1 (fun _ _ : Fin 2 => (1 : ℝ))) ∧
    ∃ P : Problem ℝ ℝ Unit ℝ, ∃ c : Cost ℝ ℝ,
      P.acc.full () 0 2 (fun _ => 0) (fun _ _ => 0) = ((c, fun _ => -1, fun _ _ => 1), ()) ∧
      (normalizeCost so c).isValid = true ∧ DiagOk so (fun _ _ : Fin 2 => (1 : ℝ)) ∧
      Unclipped so (fun _ : Fin 2 => (-1 : ℝ)) ∧ (P.dims == some 1) = false := by
  refine ⟨Or.inl ⟨⟨fun _ _ => rfl, fun v => ?_⟩, fun _ => one_pos, one_pos⟩, fun h => ?_, someLinAlg_exact, { soptsR with checkMinHDiag := 1 / 2, gradClip := 1 }, rfl, rfl, Or.inl rfl,
    { flatH 1 with dims := none }, { cost := 1, num := 1, inlier := 1 }, ?_, flatH_valid, Or.inr fun i => ?_, Or.inr fun i => ?_, rfl⟩
  · have : dotR v (mv (fun _ _ : Fin 2 => (1 : ℝ)) v) = (v 0 + v 1) ^ 2 := by
      simp [dotR, mv, Fin.sum_univ_two]; ring
    rw [this]; positivity
  · have := h.2 (fun i => if i = 0 then 1 else -1) (fun h0 => by have := congrFun h0 0; simp at this)
    simp [dotR, mv, Fin.sum_univ_two] at this
  · simp [flatH]
  · norm_num
  · norm_num

/-- the hypotheses of `C25_step_shrinks` are met -/
example : Dampable (fun _ _ : Fin 1 => (1 : ℝ)) 1 ∧ mv (dampedR 1 (fun _ _ : Fin 1 => (1 : ℝ))) (fun _ => 1 / 2) = -(fun _ => -1) ∧
    mv (dampedR 3 (fun _ _ : Fin 1 => (1 : ℝ))) (fun _ => 1 / 4) = -(fun _ => -1) := by
  refine ⟨Or.inr ⟨pd_one one_pos, zero_le_one⟩, ?_, ?_⟩ <;>
  · funext i
    have : i = 0 := Subsingleton.elim _ _
    subst this
    simp [mv, dampedR]; norm_num

end Verif
