import Verif.Lemmas.RunIndexed
import Verif.Model.NumDiffFl
import Verif.Num.RoundedBin
import Verif.Props.LdltFloat
import Verif.Props.Termination
/-!
# C113: Levenberg-Marquardt with rounding errors

`SolverLM` (lm.h:60-145) with the arithmetic of `Verif.Num.Rounded`: the damping makes up for the rounding errors of the Hessian and of the decomposition.
-/

set_option linter.unusedSectionVars false

namespace Verif
open FloatOps

section
variable {n : Nat} {u : ℝ} {r : Rnd u} {μ ν κ : ℝ}

/-- positive semidefinite up to `ν` times the diagonal -/
structure SlackPSD (ν : ℝ) (S : Mat ℝ n) : Prop where
  diag : ∀ i, 0 < S i i
  bound : ∀ v : Vec ℝ n, -ν * ∑ i, S i i * v i ^ 2 ≤ dotR v (mv S v)

/-- `H` is `S` with a diagonal that is `κ` times larger or more -/
structure Boosted (κ : ℝ) (H S : Mat (Rd r) n) : Prop where
  off : ∀ i j, i ≠ j → H i j = S i j
  diag : ∀ i, κ * (S i i).v ≤ (H i i).v

theorem symUpper_symV (H : Mat (Rd r) n) : SymR (matV (symUpper H)) := by
  intro i j
  unfold matV symUpper
  rcases lt_trichotomy i j with h | h | h
  · rw [if_pos h.le, if_neg (not_le.2 h)]
  · rw [h]
  · rw [if_neg (not_le.2 h), if_pos h.le]

theorem symUpper_diagV (H : Mat (Rd r) n) (i : Fin n) : matV (symUpper H) i i = (H i i).v := by
  unfold matV symUpper
  rw [if_pos le_rfl]

/-- a larger diagonal makes up for the slack -/
theorem Boosted.coercive {H S : Mat (Rd r) n} (h : Boosted κ H S) (hS : SlackPSD ν (matV (symUpper S))) (hν : 0 ≤ ν) (hμ0 : 0 < μ) (hμ1 : μ ≤ 1) (hκ : 1 + ν ≤ (1 - μ) * κ) :
    Coercive μ (matV (symUpper H)) ∧ ∀ i, (S i i).v ≤ (H i i).v := by
  have hdS : ∀ i, 0 < (S i i).v := fun i => by have := hS.diag i; rwa [symUpper_diagV] at this
  have hκ1 : 1 ≤ κ := by
    by_contra hc
    have : (1 - μ) * κ ≤ (1 - μ) * 1 := mul_le_mul_of_nonneg_left (not_le.1 hc).le (by linarith)
    linarith
  have hle : ∀ i, (S i i).v ≤ (H i i).v := fun i => by
    have h1 := h.diag i
    have h2 := hdS i
    nlinarith
  refine ⟨⟨symUpper_symV H, fun i => by rw [symUpper_diagV]; exact (hdS i).trans_le (hle i), fun v => ?_⟩, hle⟩
  have hb := hS.bound v
  have e : dotR v (mv (matV (symUpper H)) v) = dotR v (mv (matV (symUpper S)) v) + ∑ i, ((H i i).v - (S i i).v) * v i ^ 2 := by
    unfold dotR mv
    rw [← Finset.sum_add_distrib]
    refine Finset.sum_congr rfl fun i _ => ?_
    have h1 : ∑ j, matV (symUpper H) i j * v j = ∑ j, matV (symUpper S) i j * v j + ((H i i).v - (S i i).v) * v i := by
      have h2 : ∀ j, matV (symUpper H) i j * v j = matV (symUpper S) i j * v j + if j = i then ((H i i).v - (S i i).v) * v i else 0 := by
        intro j
        split
        · rename_i hj
          subst hj
          rw [symUpper_diagV, symUpper_diagV]; ring
        · rename_i hj
          have : matV (symUpper H) i j = matV (symUpper S) i j := by
            unfold matV symUpper
            split
            · rw [h.off i j (Ne.symm hj)]
            · rw [h.off j i hj]
          rw [this, add_zero]
      rw [Finset.sum_congr rfl fun j _ => h2 j, Finset.sum_add_distrib]
      simp
    rw [h1]; ring
  rw [e]
  simp only [symUpper_diagV] at hb ⊢
  rw [Finset.mul_sum] at hb ⊢
  have h3 : ∑ i, μ * ((H i i).v * v i ^ 2) ≤ ∑ i, -ν * ((S i i).v * v i ^ 2) + ∑ i, ((H i i).v - (S i i).v) * v i ^ 2 := by
    rw [← Finset.sum_add_distrib]
    refine Finset.sum_le_sum fun i _ => ?_
    have h4 : (1 + ν) * (S i i).v ≤ (1 - μ) * (H i i).v :=
      (mul_le_mul_of_nonneg_right hκ (hdS i).le).trans (by
        rw [mul_assoc]
        exact mul_le_mul_of_nonneg_left (h.diag i) (by linarith))
    have h5 := mul_le_mul_of_nonneg_right h4 (sq_nonneg (v i))
    linarith
  linarith

end

/-! ### Damping -/

section
variable {n : Nat} {u : ℝ} {r : Rnd u} {κ : ℝ} {R : Type}

/-- the first damping of a Hessian -/
theorem damp_first (hu2 : u ≤ 1 / 2) (hr1 : r.rnd 1 = 1) {H : Mat (Rd r) n} (hd : ∀ i, 0 < (H i i).v) {l : Rd r} (hl : 0 < l.v) :
    Boosted ((1 - u) ^ 2 * (1 + l.v)) (scaleDiag (add (ofInt 1) l) H) H := by
  refine ⟨fun i j h => by unfold scaleDiag; rw [if_neg h], fun i => ?_⟩
  unfold scaleDiag
  rw [if_pos rfl]
  simp only [Rd.mul_v, Rd.add_v, Rd.ofInt_v, Int.cast_one, hr1]
  have h1 := r.pos hu2 (x := 1 + l.v) (by linarith)
  have h2 := r.pos hu2 (mul_pos (hd i) h1.2)
  have h3 : (1 - u) * ((1 - u) * (1 + l.v)) * (H i i).v ≤ (1 - u) * ((H i i).v * r.rnd (1 + l.v)) := by
    have := mul_le_mul_of_nonneg_left h1.1 (hd i).le
    have := mul_le_mul_of_nonneg_left this (show (0 : ℝ) ≤ 1 - u by linarith)
    linarith
  calc (1 - u) ^ 2 * (1 + l.v) * (H i i).v = (1 - u) * ((1 - u) * (1 + l.v)) * (H i i).v := by ring
    _ ≤ _ := h3.trans h2.1

/-- another damping of a damped Hessian -/
theorem damp_again (hu : 0 ≤ u) (hu2 : u ≤ 1 / 2) (hr1 : r.rnd 1 = 1) {H S : Mat (Rd r) n} (hd : ∀ i, 0 < (S i i).v) {l p : Rd r} (hl : 0 < l.v) (hp : 0 ≤ p.v)
    {a : ℝ} (ha : 0 < a) (hH : Boosted (a * (1 + p.v)) H S) :
    Boosted ((1 - u) ^ 4 * a * (1 + l.v)) (scaleDiag (div (add (ofInt 1) l) (add (ofInt 1) p)) H) S := by
  refine ⟨fun i j h => by unfold scaleDiag; rw [if_neg h]; exact hH.off i j h, fun i => ?_⟩
  unfold scaleDiag
  rw [if_pos rfl]
  simp only [Rd.mul_v, Rd.add_v, Rd.div_v, Rd.ofInt_v, Int.cast_one, hr1]
  have h1 := r.pos hu2 (x := 1 + l.v) (by linarith)
  have h2 := r.pos hu2 (x := 1 + p.v) (by linarith)
  have h2' : r.rnd (1 + p.v) ≤ (1 + u) * (1 + p.v) := by
    have := (abs_le.1 (r.err (1 + p.v))).2
    rw [abs_of_pos (by linarith : (0 : ℝ) < 1 + p.v)] at this
    linarith
  have h3 := r.pos hu2 (div_pos h1.2 h2.2)
  have hHi := hH.diag i
  have hpos : 0 < a * (1 + p.v) * (S i i).v := mul_pos (mul_pos ha (by linarith)) (hd i)
  have hH0 : 0 < (H i i).v := hpos.trans_le hHi
  have h4 := r.pos hu2 (mul_pos hH0 h3.2)
  have hq : 0 ≤ 1 - u := by linarith
  have h5 : (1 - u) ^ 2 * (1 + l.v) / (1 + p.v) ≤ r.rnd (1 + l.v) / r.rnd (1 + p.v) := by
    rw [div_le_div_iff₀ (by linarith) h2.2]
    have h6 : (1 - u) ^ 2 * (1 + l.v) * r.rnd (1 + p.v) ≤ (1 - u) ^ 2 * (1 + l.v) * ((1 + u) * (1 + p.v)) :=
      mul_le_mul_of_nonneg_left h2' (mul_nonneg (sq_nonneg _) (by linarith))
    have h7 : (1 - u) * (1 + u) ≤ 1 := by nlinarith
    have h8 : (1 - u) ^ 2 * (1 + l.v) * ((1 + u) * (1 + p.v)) ≤ (1 - u) * (1 + l.v) * (1 + p.v) := by
      have h9 : 0 ≤ (1 - u) * (1 + l.v) * (1 + p.v) := mul_nonneg (mul_nonneg hq (by linarith)) (by linarith)
      have := mul_le_mul_of_nonneg_right h7 h9
      linarith
    have h10 := mul_le_mul_of_nonneg_right h1.1 (show (0 : ℝ) ≤ 1 + p.v by linarith)
    linarith
  have h11 : (1 - u) ^ 3 * (1 + l.v) / (1 + p.v) ≤ r.rnd (r.rnd (1 + l.v) / r.rnd (1 + p.v)) := by
    have := mul_le_mul_of_nonneg_left h5 hq
    have e : (1 - u) ^ 3 * (1 + l.v) / (1 + p.v) = (1 - u) * ((1 - u) ^ 2 * (1 + l.v) / (1 + p.v)) := by ring
    rw [e]; exact this.trans h3.1
  have h12 : a * (1 + p.v) * (S i i).v * ((1 - u) ^ 3 * (1 + l.v) / (1 + p.v)) ≤ (H i i).v * r.rnd (r.rnd (1 + l.v) / r.rnd (1 + p.v)) :=
    mul_le_mul hHi h11 (div_nonneg (mul_nonneg (pow_nonneg hq 3) (by linarith)) (by linarith)) hH0.le
  have hne : 1 + p.v ≠ 0 := by linarith
  calc (1 - u) ^ 4 * a * (1 + l.v) * (S i i).v = (1 - u) * (a * (1 + p.v) * (S i i).v * ((1 - u) ^ 3 * (1 + l.v) / (1 + p.v))) := by field_simp
    _ ≤ (1 - u) * ((H i i).v * r.rnd (r.rnd (1 + l.v) / r.rnd (1 + p.v))) := mul_le_mul_of_nonneg_left h12 hq
    _ ≤ _ := h4.1

end

/-! ### Runs -/

/-- What is asked of the user's function, away from the points `Bad`: the costs are valid, the Hessians positive semidefinite up to `ν`, their diagonals larger than `τ`. -/
structure FlSystem {u : ℝ} {r : Rnd u} {R W X : Type} (so : SolverOpts (Rd r)) (P : Problem (Rd r) R W X) (n : Nat) (ν τ : ℝ) (Bad : X → Prop) : Prop where
  dyn : ∀ x, P.dynDims x = n
  size : P.dims = some n ∨ (P.dims = none ∧ 0 < n ∧ ∀ w k, ∃ a w', P.alloc w k = (some a, w'))
  full : ∀ w x, ¬Bad x → ∃ c g H w', P.acc.full w x n (fun _ => ofInt 0) (fun _ _ => ofInt 0) = ((c, g, H), w') ∧ (normalizeCost so c).isValid = true ∧
    SlackPSD ν (matV (symUpper H)) ∧ ∀ i, τ < (H i i).v
  eval : ∀ w x, ¬Bad x → (normalizeCost so (P.acc.eval w x).1).isValid = true

section
variable {n : Nat} {u : ℝ} {r : Rnd u} {μ ν τ l0 : ℝ} {R W X : Type} {so : SolverOpts (Rd r)} {P : Problem (Rd r) R W X} {Bad : X → Prop}
variable {tol : Rd r} {inv : (n : Nat) → Mat (Rd r) n → Mat (Rd r) n} {o : Options (Rd r) W (DVec (Rd r))}

theorem FlSystem.resize (h : FlSystem so P n ν τ Bad) (w : W) (s : GNState (Rd r) R) (hs : P.dims = none ∨ s.n = n) :
    ∃ s' w', gnResize P w s n = (.done s', w') ∧ s'.n = n ∧ (s.n = n → s' = s) := by
  unfold gnResize
  rcases h.size with hd | ⟨hd, h0, ha⟩
  · have hn : s.n = n := hs.resolve_left (by rw [hd]; simp)
    rw [hd]
    exact ⟨s, w, by simp, hn, fun _ => rfl⟩
  · rw [hd]
    simp only
    rw [if_neg (by omega)]
    by_cases he : (s.n : Int) = n
    · rw [if_pos he]
      exact ⟨s, w, rfl, by exact_mod_cast he, fun _ => rfl⟩
    · rw [if_neg he]
      obtain ⟨⟨g, H⟩, w', e⟩ := ha w (n : Int).toNat
      rw [e]
      exact ⟨_, _, rfl, by simp, fun h => absurd (by exact_mod_cast h) he⟩

theorem FlSystem.resizeIf {S : Type} {sol : SolverI (Rd r) R W S X (DVec (Rd r)) (DMat (Rd r))} {fo : Bool} (h : FlSystem so P n ν τ Bad) {w : W} {s s' : S} {w' x}
    (hr : sol.resize w s n = (.done s', w')) : resizeIfNeeded (envOf P sol fo) w s x = (.inr s', w') := by
  unfold resizeIfNeeded
  have hd : (envOf P sol fo).dynDims x = n := h.dyn x
  simp only [hd]
  rw [if_neg, if_neg (by omega)]
  · have hr' : (envOf P sol fo).sol.resize w s n = (.done s', w') := hr
    rw [hr']
  · rcases h.size with hs | ⟨hs, h0, -⟩
    · simp [envOf, hs]
    · simp; intro _; omega

theorem stdClamp_rd {v lo hi : Rd r} (h : lo.v ≤ hi.v) : ∃ l, stdClamp v lo hi = .ok l ∧ lo.v ≤ l.v := by
  unfold stdClamp
  rw [if_neg (by simpa using h)]
  refine ⟨_, rfl, ?_⟩
  split
  · exact le_rfl
  · rename_i h1
    split
    · exact h
    · simpa using h1

/-- `g` is the gradient of the user's function at `x`, clipped -/
def GradAt (so : SolverOpts (Rd r)) (P : Problem (Rd r) R W X) (x : X) (g : Vec (Rd r) n) : Prop :=
  ∃ w w' c g' H, P.acc.full w x n (fun _ => ofInt 0) (fun _ _ => ofInt 0) = ((c, g', H), w') ∧ g = clampVec so.gradClip g'

/-- the step of a system: solved, and a descent direction of its gradient -/
def FlStep (g dx : Vec (Rd r) n) : Prop :=
  (vecV g ≠ 0 → dotR (vecV dx) (vecV g) < 0) ∧ (vecV g = 0 → vecV dx = 0)

theorem gnSolve_rd (hu : 0 ≤ u) (hu2 : u ≤ 1 / 2) (hμ : 4 * (n + 1) * solErr u n ≤ μ) (hμ0 : 0 < μ) (hμ1 : μ ≤ 1) (hν : 0 ≤ ν) (htol : tol.v ≤ μ / 4 * τ) (hl : so.useLdlt = true)
    {one : Bool} {κ : ℝ} {g : Vec (Rd r) n} {H S : Mat (Rd r) n} {c : Cost (Rd r) R} (hc : c.isValid = true) (hS : SlackPSD ν (matV (symUpper S))) (hτ : ∀ i, τ < (S i i).v)
    (hH : Boosted κ H S) (hκ : 1 + ν ≤ (1 - μ) * κ) :
    ∃ dx, gnSolve so (eigenLinAlg tol inv) one ⟨n, g, H, c⟩ = some ⟨n, dx⟩ ∧ FlStep g dx := by
  obtain ⟨hco, hle⟩ := hH.coercive hS hν hμ0 hμ1 hκ
  obtain ⟨x, hx, hd, hd'⟩ := C113_descent hu hu2 hco hμ hμ0 hμ1 (tol := tol) (fun i => by
    have h1 := symUpper_diagV H i
    unfold matV at h1
    rw [h1]
    have h2 := (hτ i).trans_le (hle i)
    have : μ / 4 * τ < μ / 4 * (H i i).v := mul_lt_mul_of_pos_left h2 (by linarith)
    linarith) (negVec g)
  have hneg : vecV (negVec g) = -vecV g := rfl
  rw [hneg] at hd hd'
  refine ⟨x, ?_, fun h => ?_, fun h => ?_⟩
  · unfold gnSolve
    simp only [hc, hl, if_true]
    unfold solveLDLT
    have : (eigenLinAlg tol inv).ldlt n (symUpper H) (negVec g) = some x := hx
    rw [this]; rfl
  · have := hd' (neg_ne_zero.2 h)
    rw [dotR_neg] at this
    linarith
  · by_contra h0
    have h1 := diagNorm_pos hco.diag h0
    rw [h, neg_zero] at hd
    have h2 : dotR (vecV x) (0 : Vec ℝ n) = 0 := by simp [dotR]
    rw [h2] at hd
    have : 0 < μ / 4 * diagNorm (matV (symUpper H)) (vecV x) := mul_pos (by linarith) h1
    linarith

/-- what is known of the solver after `j` iterations: it will build a new system, or the Hessian is a damped one -/
def LmFl (so : SolverOpts (Rd r)) (P : Problem (Rd r) R W X) (n : Nat) (ν τ : ℝ) (j : Nat) (s : LMState (Rd r) R) : Prop :=
  s.rebuild = true ∨ (0 ≤ s.prev.v ∧ ∃ g H S c, s.gn = ⟨n, g, H, c⟩ ∧ SlackPSD ν (matV (symUpper S)) ∧ (∀ i, τ < (S i i).v) ∧ Boosted ((1 - u) ^ (4 * j + 2) * (1 + s.prev.v)) H S ∧
    ∃ y, GradAt so P y g)

/-- Levenberg-Marquardt gets a step, from a new system or from that of the last iteration. -/
theorem lm_fl_delivers (h : FlSystem so P n ν τ Bad) (hu : 0 ≤ u) (hu2 : u ≤ 1 / 2) (hr1 : r.rnd 1 = 1) (hμ : 4 * (n + 1) * solErr u n ≤ μ) (hμ0 : 0 < μ) (hμ1 : μ ≤ 1) (hν : 0 ≤ ν)
    (htol : tol.v ≤ μ / 4 * τ) (hmin : so.checkMinHDiag.v ≤ τ) (hl : so.useLdlt = true) (hr0 : so.dampLo.v ≤ so.dampHi.v) (hl0 : 0 < l0)
    (j : Nat) (hκ : 1 + ν ≤ (1 - μ) * ((1 - u) ^ (4 * (j + 1) + 2) * (1 + l0))) (w : W) (s : LMState (Rd r) R) (hs : P.dims = none ∨ s.gn.n = n) (hlam : l0 ≤ s.lambda.v)
    (x : X) (hx : ¬Bad x) (hrd : LmFl so P n ν τ j s) :
    ∃ s2 dx, Delivers (lmEnv so (eigenLinAlg tol inv) P) w s x s2 ⟨n, dx⟩ ∧ s2.lambda = s.lambda ∧ s2.prev = s.prev ∧
      (∃ g H S c, s2.gn = ⟨n, g, H, c⟩ ∧ SlackPSD ν (matV (symUpper S)) ∧ (∀ i, τ < (S i i).v) ∧ Boosted ((1 - u) ^ (4 * (j + 1) + 2) * (1 + s.lambda.v)) H S ∧ FlStep g dx ∧
        ∃ y, GradAt so P y g ∧ (s.rebuild = true → y = x)) := by
  have hq0 : 0 ≤ 1 - u := by linarith
  have hq1 : 1 - u ≤ 1 := by linarith
  have hlp : 0 < s.lambda.v := by linarith
  have hgood : ∀ (s2 : LMState (Rd r) R) q, ∃ s', lmGood so s2 q = .ok s' := by
    intro s2 q
    obtain ⟨l, e, -⟩ := stdClamp_rd (v := mul s2.lambda (goodScale so q s2.badF)) hr0
    unfold lmGood; rw [e]; exact ⟨_, rfl⟩
  have hbad : ∀ (s2 : LMState (Rd r) R), ∃ s', lmBad so s2 = .ok s' := by
    intro s2
    obtain ⟨l, e, -⟩ := stdClamp_rd (v := mul s2.lambda s2.badF) hr0
    unfold lmBad; rw [e]; exact ⟨_, rfl⟩
  have hκ' : 1 + ν ≤ (1 - μ) * ((1 - u) ^ (4 * (j + 1) + 2) * (1 + s.lambda.v)) :=
    hκ.trans (mul_le_mul_of_nonneg_left (mul_le_mul_of_nonneg_left (by linarith) (pow_nonneg hq0 _)) (by linarith))
  by_cases hreb : s.rebuild = true
  · obtain ⟨g1, w1, hr, hn1, -⟩ := h.resize w s.gn hs
    obtain ⟨c, g, H, w2, hf, hv, hS, hτ⟩ := h.full w1 x hx
    have hdS : ∀ i, 0 < (H i i).v := fun i => by have := hS.diag i; rwa [symUpper_diagV] at this
    have hr' : (lmSolver so (eigenLinAlg tol inv) P).resize w s n = (.done { s with gn := g1 }, w1) := by
      simp only [lmSolver, hr]
    have hB : buildSystem so P w1 g1 x = (true, ⟨n, clampVec so.gradClip g, H, normalizeCost so c⟩, w2) := by
      obtain ⟨sn, sg, sH, sc⟩ := g1
      simp only at hn1
      subst hn1
      unfold buildSystem gnAccumulate
      rw [hf]
      simp only [hv, if_true]
      rw [if_neg, hl]
      · simp
      · rw [Bool.and_eq_true, not_and]
        intro _ hlow
        unfold lowDiag at hlow
        rw [List.any_eq_true] at hlow
        obtain ⟨i, -, hi⟩ := hlow
        rw [Rd.lt_iff] at hi
        have h1 : absF (H i i) = H i i := by
          unfold absF
          rw [if_neg]
          rw [Rd.lt_iff, Rd.ofInt_zero_v]
          exact not_lt.2 (hdS i).le
        rw [h1] at hi
        linarith [hτ i]
    have hb' : lmBuild so P w1 { s with gn := g1 } x =
        (true, { s with gn := ⟨n, clampVec so.gradClip g, scaleDiag (add (ofInt 1) s.lambda) H, normalizeCost so c⟩ }, w2) := by
      unfold lmBuild
      simp only [hreb, if_true]
      rw [hB]
      simp only [if_true]
      unfold lmDamp
      simp only [if_true]
      rw [if_pos (by rw [Rd.lt_iff, Rd.ofInt_zero_v]; exact hlp)]
    have hbo := damp_first hu2 hr1 hdS hlp
    have hbo' : Boosted ((1 - u) ^ (4 * (j + 1) + 2) * (1 + s.lambda.v)) (scaleDiag (add (ofInt 1) s.lambda) H) H := by
      refine ⟨hbo.off, fun i => (mul_le_mul_of_nonneg_right ?_ (hdS i).le).trans (hbo.diag i)⟩
      exact mul_le_mul_of_nonneg_right (pow_le_pow_of_le_one hq0 hq1 (by omega)) (by linarith)
    obtain ⟨dx, h1, h2⟩ := gnSolve_rd (so := so) (inv := inv) hu hu2 hμ hμ0 hμ1 hν htol hl (one := P.dims == some 1) (g := clampVec so.gradClip g) hv hS hτ hbo' hκ'
    exact ⟨{ s with gn := ⟨n, clampVec so.gradClip g, scaleDiag (add (ofInt 1) s.lambda) H, normalizeCost so c⟩ }, dx,
      ⟨⟨_, w1, w2, h.resizeIf hr', hb'⟩, h1, rfl, rfl, fun q => hgood _ q, hbad _⟩, rfl, rfl,
      ⟨_, _, H, _, rfl, hS, hτ, hbo', h2, x, ⟨w1, w2, c, g, H, hf, rfl⟩, fun _ => rfl⟩⟩
  · obtain ⟨hp0, g, H, S, c0, hgn, hS, hτ, hbo, y, hy⟩ := hrd.resolve_left hreb
    have hdS : ∀ i, 0 < (S i i).v := fun i => by have := hS.diag i; rwa [symUpper_diagV] at this
    have hreb' : s.rebuild = false := Bool.not_eq_true _ ▸ hreb
    have hn : s.gn.n = n := by rw [hgn]
    obtain ⟨g1, w1, hr, hn1, hid⟩ := h.resize w s.gn hs
    have := hid hn
    subst this
    have hr' : (lmSolver so (eigenLinAlg tol inv) P).resize w s n = (.done s, w1) := by
      simp only [lmSolver, hr]
    have hv := h.eval w1 x hx
    rcases hev : P.acc.eval w1 x with ⟨c, w2⟩
    rw [hev] at hv
    have hb' : lmBuild so P w1 s x = (true, { s with gn := ⟨n, g, scaleDiag (div (add (ofInt 1) s.lambda) (add (ofInt 1) s.prev)) H, normalizeCost so c⟩ }, w2) := by
      unfold lmBuild
      simp only [hreb', Bool.false_eq_true, if_false]
      have : lmEvaluate so P w1 s.gn x = (⟨n, g, H, normalizeCost so c⟩, w2) := by
        unfold lmEvaluate; rw [hev, hgn]
      rw [this]
      simp only [hv, if_true]
      unfold lmDamp
      simp only [Bool.false_eq_true, if_false]
      rw [if_pos (by rw [Rd.lt_iff, Rd.ofInt_zero_v]; exact hlp)]
    have hbo' := damp_again hu hu2 hr1 hdS hlp hp0 (pow_pos (by linarith : 0 < 1 - u) (4 * j + 2)) hbo
    have e : (1 - u) ^ 4 * (1 - u) ^ (4 * j + 2) = (1 - u) ^ (4 * (j + 1) + 2) := by rw [← pow_add]; congr 1; omega
    rw [e] at hbo'
    obtain ⟨dx, h1, h2⟩ := gnSolve_rd (so := so) (inv := inv) hu hu2 hμ hμ0 hμ1 hν htol hl (one := P.dims == some 1) (g := g) hv hS hτ hbo' hκ'
    exact ⟨{ s with gn := ⟨n, g, scaleDiag (div (add (ofInt 1) s.lambda) (add (ofInt 1) s.prev)) H, normalizeCost so c⟩ }, dx,
      ⟨⟨_, w1, w2, h.resizeIf hr', hb'⟩, h1, rfl, rfl, fun q => hgood _ q, hbad _⟩, rfl, rfl,
      ⟨_, _, S, _, rfl, hS, hτ, hbo', h2, y, hy, fun h => absurd h hreb⟩⟩

/-- **C113**: a run of Levenberg-Marquardt in rounded arithmetic never fails if the damping is larger than the errors, unless it comes to a point where the user's function fails. -/
theorem C113_run (h : FlSystem so P n ν τ Bad) (hu : 0 ≤ u) (hu2 : u ≤ 1 / 2) (hr1 : r.rnd 1 = 1) (hμ : 4 * (n + 1) * solErr u n ≤ μ) (hμ0 : 0 < μ) (hμ1 : μ ≤ 1) (hν : 0 ≤ ν)
    (htol : tol.v ≤ μ / 4 * τ) (hmin : so.checkMinHDiag.v ≤ τ) (hl : so.useLdlt = true) (hr0 : so.dampLo.v ≤ so.dampHi.v) (hl0 : 0 < l0) (hlo : l0 ≤ so.dampLo.v)
    (fuel : Nat) (mi : Int) (k : Nat) (hk : loopBound o mi = some (k : Int)) (hk2 : k ≤ 65536) (hκ : 1 + ν ≤ (1 - μ) * ((1 - u) ^ (4 * k + 2) * (1 + l0)))
    (s : LMState (Rd r) R) (hs : P.dims = none ∨ s.gn.n = n) (hreb : s.rebuild = true) (hlam : l0 ≤ s.lambda.v) (hp0 : 0 ≤ s.prev.v) (hpl : s.prev.v ≤ s.lambda.v) (w : W) (x0 : X) {st}
    (hr : optimizeAcc (lmEnv so (eigenLinAlg tol inv) P) o (fuel + 1) mi w s x0 = .ok st) :
    (∃ t ∈ st.trace, Bad t.x) ∨ (st.out.succeeded = true ∧ ∀ t ∈ st.trace, ∀ d, t.dx = some d → ∃ (g dx : Vec (Rd r) n) (y : X), d = ⟨n, dx⟩ ∧ GradAt so P y g ∧ FlStep g dx) := by
  have hq0 : 0 ≤ 1 - u := by linarith
  have hq1 : 1 - u ≤ 1 := by linarith
  have key := run_succeeds_idx (E := lmEnv so (eigenLinAlg tol inv) P) (o := o) (k := k) (by exact_mod_cast hk2)
    (Ok := fun j s => (P.dims = none ∨ s.gn.n = n) ∧ l0 ≤ s.lambda.v ∧ LmFl so P n ν τ j s ∧ (j = 0 → 0 ≤ s.prev.v ∧ s.prev.v ≤ s.lambda.v))
    (Bad := Bad) (Row := fun _ d => ∃ (g dx : Vec (Rd r) n) (y : X), d = ⟨n, dx⟩ ∧ GradAt so P y g ∧ FlStep g dx)
    (fun j w s x hj hok hx => by
      obtain ⟨hsz, hla, hfl, hz⟩ := hok
      have hj' : j < k := by exact_mod_cast hj
      obtain ⟨s2, dx, hd, hla2, hpr2, g, H, S, c, hgn, hS, hτ, hbo, hst, y, hy, -⟩ := lm_fl_delivers (inv := inv) h hu hu2 hr1 hμ hμ0 hμ1 hν htol hmin hl hr0 hl0 j
        (hκ.trans (mul_le_mul_of_nonneg_left (mul_le_mul_of_nonneg_right (pow_le_pow_of_le_one hq0 hq1 (by omega)) (by linarith)) (by linarith))) w s hsz hla x hx hfl
      have hdS : ∀ i, 0 < (S i i).v := fun i => by have := hS.diag i; rwa [symUpper_diagV] at this
      refine ⟨s2, ⟨n, dx⟩, hd, ⟨g, dx, y, rfl, hy, hst⟩, fun s3 b h5 => ?_⟩
      have fin : ∀ s3 : LMState (Rd r) R, s3.gn = s2.gn → l0 ≤ s3.lambda.v → 0 ≤ s3.prev.v → s3.prev.v ≤ s2.lambda.v →
          (P.dims = none ∨ ({ s3 with rebuild := b } : LMState (Rd r) R).gn.n = n) ∧ l0 ≤ ({ s3 with rebuild := b } : LMState (Rd r) R).lambda.v ∧
            LmFl so P n ν τ (j + 1) { s3 with rebuild := b } ∧ (j + 1 = 0 → 0 ≤ s3.prev.v ∧ s3.prev.v ≤ s3.lambda.v) := by
        intro s3 e1 e2 e3 e4
        refine ⟨Or.inr (by show s3.gn.n = n; rw [e1, hgn]), e2, Or.inr ⟨e3, g, H, S, c, by show s3.gn = _; rw [e1, hgn], hS, hτ, ⟨hbo.off, fun i => ?_⟩, y, hy⟩, fun h => absurd h (by omega)⟩
        refine (mul_le_mul_of_nonneg_right ?_ (hdS i).le).trans (hbo.diag i)
        rw [hla2] at e4
        exact mul_le_mul_of_nonneg_left (by linarith) (pow_nonneg hq0 _)
      have hl2 : 0 ≤ s2.lambda.v := by rw [hla2]; linarith
      rcases h5 with ⟨q, h5⟩ | h5 | ⟨h5, h6⟩
      · obtain ⟨l, e, e'⟩ := stdClamp_rd (v := mul s2.lambda (goodScale so q s2.badF)) hr0
        have h5 : lmGood so s2 q = .ok s3 := h5
        unfold lmGood at h5
        rw [e] at h5
        injection h5 with h5
        subst h5
        exact fin _ rfl (hlo.trans e') hl2 le_rfl
      · obtain ⟨l, e, e'⟩ := stdClamp_rd (v := mul s2.lambda s2.badF) hr0
        have h5 : lmBad so s2 = .ok s3 := h5
        unfold lmBad at h5
        rw [e] at h5
        injection h5 with h5
        subst h5
        exact fin _ rfl (hlo.trans e') hl2 le_rfl
      · subst h5
        obtain ⟨z1, z2⟩ := hz h6
        exact fin _ rfl (by rw [hla2]; exact hla) (by rw [hpr2]; exact z1) (by rw [hpr2, hla2]; exact z2))
    hk ⟨hs, hlam, Or.inl hreb, fun _ => ⟨hp0, hpl⟩⟩ hr
  rcases key with key | ⟨k1, k2⟩
  · exact Or.inl key
  · exact Or.inr ⟨decide_eq_true k1, k2⟩

end

/-! ### Least squares -/

section
variable {n m : Nat} {u : ℝ} {r : Rnd u}

theorem sumF_near (hu : 0 ≤ u) : ∀ {m : Nat} (f g : Vec (Rd r) m),
    Near u (m + 1) (sumF fun i => mul (f i) (g i)).v (∑ i, (f i).v * (g i).v) (∑ i, |(f i).v * (g i).v|)
  | 0, f, g => by
    simp only [sumF, Finset.univ_eq_empty, Finset.sum_empty, Rd.ofInt_zero_v]
    simpa using Near.exact 1 hu (0 : ℝ)
  | m + 1, f, g => by
    have ih := sumF_near hu (fun i : Fin m => f i.castSucc) (fun i => g i.castSucc)
    rw [Fin.sum_univ_castSucc, Fin.sum_univ_castSucc]
    have h1 : Near u 1 (mul (f (Fin.last m)) (g (Fin.last m))).v ((f (Fin.last m)).v * (g (Fin.last m)).v) |(f (Fin.last m)).v * (g (Fin.last m)).v| :=
      (Near.exact 0 hu _).rnd hu r
    exact (ih.add (h1.mono hu (by omega))).rnd hu r

/-- **C113**: the product `J^T J` as computed is positive semidefinite up to the rounding errors. -/
theorem C113_hessian (hu : 0 ≤ u) (J : JMat (Rd r) m n) (hd : ∀ i, 0 < (numHessF J i i).v) {ν : ℝ} (hγ : (1 + u) ^ (m + 1) - 1 < 1)
    (hν : n * ((1 + u) ^ (m + 1) - 1) ≤ ν * (1 - ((1 + u) ^ (m + 1) - 1))) : SlackPSD ν (matV (symUpper (numHessF J))) := by
  set γ := (1 + u) ^ (m + 1) - 1 with hγe
  have hγ0 : 0 ≤ γ := by linarith [one_le_pow_u hu (m + 1)]
  have hsym : symUpper (numHessF J) = numHessF J := by
    funext i j
    unfold symUpper
    split
    · rfl
    · unfold numHessF
      congr 1
      funext k
      show (⟨r.rnd _⟩ : Rd r) = ⟨r.rnd _⟩
      rw [mul_comm]
  rw [hsym]
  have hdv : ∀ i, matV (numHessF J) i i = (numHessF J i i).v := fun _ => rfl
  refine ⟨fun i => hd i, fun v => ?_⟩
  set G : Mat ℝ n := fun i j => ∑ k, (J k i).v * (J k j).v with hG
  have hG0 : ∀ i, 0 ≤ G i i := fun i => Finset.sum_nonneg fun k _ => mul_self_nonneg _
  have near : ∀ i j, |matV (numHessF J) i j - G i j| ≤ γ * ∑ k, |(J k i).v * (J k j).v| := fun i j => (sumF_near hu (fun k => J k i) (fun k => J k j)).2
  have cs : ∀ i j, ∑ k, |(J k i).v * (J k j).v| ≤ √(G i i) * √(G j j) := by
    intro i j
    rw [← Real.sqrt_mul (hG0 i)]
    refine Real.le_sqrt_of_sq_le ?_
    have := Finset.sum_mul_sq_le_sq_mul_sq Finset.univ (fun k => |(J k i).v|) (fun k => |(J k j).v|)
    simp only [sq_abs] at this
    simp only [abs_mul, hG, ← pow_two]
    exact this
  have hGH : ∀ i, (1 - γ) * G i i ≤ matV (numHessF J) i i := by
    intro i
    have h1 := (abs_le.1 (near i i)).1
    have h2 : ∑ k, |(J k i).v * (J k i).v| = G i i := Finset.sum_congr rfl fun k _ => abs_of_nonneg (mul_self_nonneg _)
    rw [h2] at h1
    linarith
  have hquad : 0 ≤ ∑ i, ∑ j, v i * (G i j * v j) := by
    have : ∑ i, ∑ j, v i * (G i j * v j) = ∑ k, (∑ i, (J k i).v * v i) ^ 2 := by
      simp only [hG, pow_two, Finset.sum_mul_sum, Finset.sum_mul, Finset.mul_sum]
      rw [Finset.sum_comm' (t' := Finset.univ) (s' := fun _ => Finset.univ) (by simp)]
      rw [Finset.sum_congr rfl fun i _ => Finset.sum_comm]
      rw [Finset.sum_comm]
      refine Finset.sum_congr rfl fun k _ => ?_
      rw [Finset.sum_comm]
      exact Finset.sum_congr rfl fun i _ => Finset.sum_congr rfl fun j _ => by ring
    rw [this]
    exact Finset.sum_nonneg fun k _ => sq_nonneg _
  have hdiff : ∑ i, ∑ j, v i * (G i j * v j) - γ * (∑ i, √(G i i) * |v i|) ^ 2 ≤ dotR v (mv (matV (numHessF J)) v) := by
    unfold dotR mv
    rw [pow_two, Finset.sum_mul_sum, Finset.mul_sum, ← Finset.sum_sub_distrib]
    refine Finset.sum_le_sum fun i _ => ?_
    rw [Finset.mul_sum, Finset.mul_sum, ← Finset.sum_sub_distrib]
    refine Finset.sum_le_sum fun j _ => ?_
    have h1 : |matV (numHessF J) i j - G i j| ≤ γ * (√(G i i) * √(G j j)) := (near i j).trans (mul_le_mul_of_nonneg_left (cs i j) hγ0)
    have h2 : |v i * v j * (matV (numHessF J) i j - G i j)| ≤ |v i| * |v j| * (γ * (√(G i i) * √(G j j))) := by
      rw [abs_mul, abs_mul]
      exact mul_le_mul_of_nonneg_left h1 (by positivity)
    have h3 := (abs_le.1 h2).1
    linarith
  have hsum : (∑ i, √(G i i) * |v i|) ^ 2 ≤ n * ∑ i, G i i * v i ^ 2 := by
    have h1 := sq_sum_le_card_mul_sum_sq (s := Finset.univ) (f := fun i => √(G i i) * |v i|)
    rw [Finset.card_univ, Fintype.card_fin] at h1
    refine h1.trans (le_of_eq ?_)
    congr 1
    exact Finset.sum_congr rfl fun i _ => by rw [mul_pow, sq_abs, Real.sq_sqrt (hG0 i)]
  have hGsum : (1 - γ) * ∑ i, G i i * v i ^ 2 ≤ ∑ i, matV (numHessF J) i i * v i ^ 2 := by
    rw [Finset.mul_sum]
    refine Finset.sum_le_sum fun i _ => ?_
    have := mul_le_mul_of_nonneg_right (hGH i) (sq_nonneg (v i))
    linarith
  have hν0 : 0 ≤ ν := by
    by_contra hc
    have h1 : (0 : ℝ) ≤ n * γ := by positivity
    have h2 : ν * (1 - γ) < 0 := mul_neg_of_neg_of_pos (not_le.1 hc) (by linarith)
    linarith
  set T := ∑ i, G i i * v i ^ 2 with hT
  have hT0 : 0 ≤ T := Finset.sum_nonneg fun i _ => mul_nonneg (hG0 i) (sq_nonneg _)
  have e1 : γ * (∑ i, √(G i i) * |v i|) ^ 2 ≤ γ * (n * T) := mul_le_mul_of_nonneg_left hsum hγ0
  have e2 : n * γ * T ≤ ν * (1 - γ) * T := mul_le_mul_of_nonneg_right hν hT0
  have e3 := mul_le_mul_of_nonneg_left hGsum hν0
  linarith

/-- `k` roundings -/
theorem roundings_le (hu : 0 ≤ u) (k : ℕ) (h : k * u ≤ 1) : (1 + u) ^ k - 1 ≤ 2 * k * u := by
  have h1 : (1 + u) ^ k ≤ Real.exp (k * u) := by
    rw [mul_comm, Real.exp_mul, Real.rpow_natCast]
    exact pow_le_pow_left₀ (by linarith) (by linarith [Real.add_one_le_exp u]) k
  have h0 : 0 ≤ (k : ℝ) * u := by positivity
  have h2 := Real.abs_exp_sub_one_le (x := k * u) (by rw [abs_of_nonneg h0]; exact h)
  rw [abs_of_nonneg h0] at h2
  have h3 := le_abs_self (Real.exp (k * u) - 1)
  linarith

/-- the numbers of `C113_double` -/
theorem double_bounds {n m k : ℕ} (hu0 : 0 ≤ u) (hu1 : u ≤ 12 / 10 ^ 17) (hn : n ≤ 100) (hm : m ≤ 10000) (hk : k ≤ 65536) :
    (1 + u) ^ (m + 1) - 1 < 1 ∧ 4 * (n + 1) * solErr u n ≤ 3 / 10 ^ 11 ∧ 1 + 26 / 10 ^ 11 ≤ (1 - 3 / 10 ^ 11) * ((1 - u) ^ (4 * k + 2) * (1 + 9 / 10 ^ 10)) ∧
      n * ((1 + u) ^ (m + 1) - 1) ≤ 26 / 10 ^ 11 * (1 - ((1 + u) ^ (m + 1) - 1)) := by
  have hn' : (n : ℝ) ≤ 100 := by exact_mod_cast hn
  have hm' : (m : ℝ) ≤ 10000 := by exact_mod_cast hm
  have hk' : (k : ℝ) ≤ 65536 := by exact_mod_cast hk
  have hn0 : (0 : ℝ) ≤ n := Nat.cast_nonneg n
  have hm1 : ((m : ℝ) + 1) * u ≤ 10001 * (12 / 10 ^ 17) := mul_le_mul (by linarith) hu1 hu0 (by norm_num)
  have hn1 : (2 * (n : ℝ) + 4) * u ≤ 204 * (12 / 10 ^ 17) := mul_le_mul (by linarith) hu1 hu0 (by norm_num)
  have hk1 : (4 * (k : ℝ) + 2) * u ≤ 262146 * (12 / 10 ^ 17) := mul_le_mul (by linarith) hu1 hu0 (by norm_num)
  have hγ : (1 + u) ^ (m + 1) - 1 ≤ 2 * (10001 * (12 / 10 ^ 17)) := by
    have := roundings_le hu0 (m + 1) (by push_cast; linarith)
    push_cast at this
    linarith
  have hγ0 : 0 ≤ (1 + u) ^ (m + 1) - 1 := by linarith [one_le_pow_u hu0 (m + 1)]
  have hθ : solErr u n ≤ 2 * (204 * (12 / 10 ^ 17)) := by
    have := roundings_le hu0 (2 * n + 4) (by push_cast; linarith)
    push_cast at this
    unfold solErr
    linarith
  have hθ0 := solErr_nonneg hu0 n
  have hpow : 1 - (4 * k + 2) * u ≤ (1 - u) ^ (4 * k + 2) := by
    have := one_add_mul_le_pow (a := -u) (by linarith) (4 * k + 2)
    push_cast at this
    rw [← sub_eq_add_neg] at this
    linarith
  refine ⟨by linarith, ?_, ?_, ?_⟩
  · have : 4 * ((n : ℝ) + 1) * solErr u n ≤ 404 * (2 * (204 * (12 / 10 ^ 17))) := mul_le_mul (by linarith) hθ hθ0 (by norm_num)
    linarith
  · linarith
  · have : (n : ℝ) * ((1 + u) ^ (m + 1) - 1) ≤ 100 * (2 * (10001 * (12 / 10 ^ 17))) := mul_le_mul hn' hγ hγ0 (by norm_num)
    linarith

end

/-- What is asked of the user's function, away from the points `Bad`: valid costs, and Hessians `J^T J`, computed as such, of some Jacobians whose columns are not tiny. -/
structure FlLeastSquares {u : ℝ} {r : Rnd u} {R W X : Type} (so : SolverOpts (Rd r)) (P : Problem (Rd r) R W X) (m n : Nat) (Bad : X → Prop) : Prop where
  dyn : ∀ x, P.dynDims x = n
  size : P.dims = some n ∨ (P.dims = none ∧ 0 < n ∧ ∀ w k, ∃ a w', P.alloc w k = (some a, w'))
  full : ∀ w x, ¬Bad x → ∃ c g w', ∃ J : JMat (Rd r) m n, P.acc.full w x n (fun _ => ofInt 0) (fun _ _ => ofInt 0) = ((c, g, numHessF J), w') ∧
    (normalizeCost so c).isValid = true ∧ ∀ i, (2 : ℝ) ^ (-900 : ℤ) < (numHessF J i i).v ∧ so.checkMinHDiag.v < (numHessF J i i).v
  eval : ∀ w x, ¬Bad x → (normalizeCost so (P.acc.eval w x).1).isValid = true

section
variable {n m : Nat} {r : Rnd ((2 : ℝ) ^ (-53 : ℤ))} {R W X : Type} {so : SolverOpts (Rd r)} {P : Problem (Rd r) R W X} {Bad : X → Prop}
variable {tol : Rd r} {inv : (n : Nat) → Mat (Rd r) n → Mat (Rd r) n} {o : Options (Rd r) W (DVec (Rd r))}

/-- **C113**, numbers: least squares in `double` with at most 100 parameters and 10000 residuals. A damping of no less than 9e-10 (the default lower end is `1e-9f`) makes up for all
rounding errors, those of the Hessian, of the damping, and of the decomposition: no run fails. -/
theorem C113_double (h : FlLeastSquares so P m n Bad) (hr1 : r.rnd 1 = 1) (hn : n ≤ 100) (hm : m ≤ 10000) (htol : tol.v ≤ 2 ^ (-1022 : ℤ)) (hl : so.useLdlt = true)
    (hr0 : so.dampLo.v ≤ so.dampHi.v) (hlo : 9 / 10 ^ 10 ≤ so.dampLo.v)
    (fuel : Nat) (mi : Int) (k : Nat) (hk : loopBound o mi = some (k : Int)) (hk2 : k ≤ 65536)
    (s : LMState (Rd r) R) (hs : P.dims = none ∨ s.gn.n = n) (hreb : s.rebuild = true) (hlam : 9 / 10 ^ 10 ≤ s.lambda.v) (hp0 : 0 ≤ s.prev.v) (hpl : s.prev.v ≤ s.lambda.v) (w : W) (x0 : X) {st}
    (hr : optimizeAcc (lmEnv so (eigenLinAlg tol inv) P) o (fuel + 1) mi w s x0 = .ok st) :
    (∃ t ∈ st.trace, Bad t.x) ∨ (st.out.succeeded = true ∧ ∀ t ∈ st.trace, ∀ d, t.dx = some d → ∃ (g dx : Vec (Rd r) n) (y : X), d = ⟨n, dx⟩ ∧ GradAt so P y g ∧ FlStep g dx) := by
  have hu0 : (0 : ℝ) ≤ 2 ^ (-53 : ℤ) := by positivity
  have hu1 : (2 : ℝ) ^ (-53 : ℤ) ≤ 12 / 10 ^ 17 := by norm_num [zpow_neg]
  obtain ⟨hγ, hθ, hpow, hd⟩ := double_bounds hu0 hu1 hn hm hk2
  refine C113_run (μ := 3 / 10 ^ 11) (ν := 26 / 10 ^ 11) (τ := max (2 ^ (-900 : ℤ)) so.checkMinHDiag.v) (l0 := 9 / 10 ^ 10)
    ⟨h.dyn, h.size, fun w x hx => ?_, h.eval⟩ hu0 (hu1.trans (by norm_num)) hr1 ?_ (by norm_num) (by norm_num) (by norm_num) ?_ (le_max_right _ _) hl hr0 (by norm_num) hlo fuel mi k hk hk2 ?_ s hs hreb hlam hp0 hpl w x0 hr
  · obtain ⟨c, g, w', J, h1, h2, h3⟩ := h.full w x hx
    refine ⟨c, g, _, w', h1, h2, C113_hessian hu0 J (fun i => lt_trans (by positivity) (h3 i).1) hγ ?_, fun i => max_lt (h3 i).1 (h3 i).2⟩
    exact hd
  · exact hθ
  · refine htol.trans (le_trans ?_ (mul_le_mul_of_nonneg_left (le_max_left _ _) (by norm_num)))
    rw [show (-1022 : ℤ) = -122 + -900 by norm_num, zpow_add₀ (by norm_num)]
    exact mul_le_mul_of_nonneg_right (by norm_num [zpow_neg]) (by positivity)
  · exact hpow

end

/-! ### Non-vacuity -/

section

/-- the rounding of `double` -/
noncomputable def rnd64 : Rnd ((2 : ℝ) ^ (-53 : ℤ)) := binRnd 53 (-1074)

theorem rnd64_one : rnd64.rnd 1 = 1 := binRnd_one (by norm_num) (by norm_num)

/-- a matrix of `double`s -/
noncomputable def twoOne : Mat (Rd rnd64) 2 := fun i j => if i = j then ⟨2⟩ else ⟨1⟩

theorem twoOne_coercive : Coercive (1 / 2) (matV twoOne) where
  sym i j := by unfold matV twoOne; simp only [eq_comm]
  diag i := by simp [matV, twoOne]
  bound v := by
    simp [matV, twoOne, dotR, mv, Fin.sum_univ_two]
    nlinarith [sq_nonneg (v 0 + v 1)]

/-- hypotheses of `C113_solves`, `C113_descent`, `C113_accuracy`: the matrix with rows (2 1), (1 2), in `double` -/
example (b : Vec (Rd rnd64) 2) : ∃ x, eigenLdlt ⟨2 ^ (-1022 : ℤ)⟩ 2 twoOne b = some x ∧ (vecV b ≠ 0 → 0 < dotR (vecV x) (vecV b)) := by
  obtain ⟨x, h1, -, h2⟩ := C113_descent (tol := ⟨2 ^ (-1022 : ℤ)⟩) (by positivity) (by norm_num [zpow_neg]) twoOne_coercive (by
    have := roundings_le (u := (2 : ℝ) ^ (-53 : ℤ)) (by positivity) (2 * 2 + 4) (by norm_num [zpow_neg])
    unfold solErr
    have h2 : (2 : ℝ) ^ (-53 : ℤ) ≤ 12 / 10 ^ 17 := by norm_num [zpow_neg]
    push_cast at this ⊢
    linarith) (by norm_num) (by norm_num) (fun i => by
      have h1 : (2 : ℝ) ^ (-1022 : ℤ) ≤ 2 ^ (-3 : ℤ) := zpow_le_zpow_right₀ (by norm_num) (by norm_num)
      have h2 : (twoOne i i).v = 2 := by simp [twoOne]
      rw [h2]
      show (2 : ℝ) ^ (-1022 : ℤ) < _
      norm_num [zpow_neg] at h1 ⊢
      linarith) b
  exact ⟨x, h1, h2⟩

/-- the residual `x + y - 2` -/
noncomputable def sumRes (x : Vec (Rd rnd64) 2) : Rd rnd64 := sub (add (x 0) (x 1)) (ofInt 2)

/-- its least squares problem: the Hessian is singular -/
noncomputable def sumProb : Problem (Rd rnd64) Unit Unit (Vec (Rd rnd64) 2) where
  acc :=
    { full := fun w x k _ _ => (({ cost := mul (sumRes x) (sumRes x), num := 1, inlier := () }, numGradF (fun (_ : Fin 1) (_ : Fin k) => ⟨1⟩) (fun _ => sumRes x),
        numHessF (fun (_ : Fin 1) (_ : Fin k) => ⟨1⟩)), w)
      eval := fun w x => ({ cost := mul (sumRes x) (sumRes x), num := 1, inlier := () }, w) }
  dims := some 2
  dynDims := fun _ => 2
  plusEq := fun x d => fun i => if h : i.1 < d.n then add (x i) (d.v ⟨i.1, h⟩) else x i
  clock := fun w => (⟨1⟩, w)
  alloc := fun w _ => (some (fun _ => ⟨7⟩, fun _ _ => ⟨7⟩), w)
  ratio1 := ()

/-- the default options of Levenberg-Marquardt, up to the rounding of the constants -/
noncomputable def soptsRd : SolverOpts (Rd rnd64) where
  useSquaredNorm := true
  downscaleBy2 := false
  normalize := false
  gradClip := ⟨0⟩
  useLdlt := true
  hIsFull := true
  checkMinHDiag := ⟨0⟩
  dampInit := ⟨1 / 10 ^ 4⟩
  dampLo := ⟨99 / 10 ^ 11⟩
  dampHi := ⟨10 ^ 9⟩
  goodFactor := ⟨1 / 3⟩
  badFactor := ⟨2⟩
  lr := ⟨1⟩

noncomputable def optsRd : Options (Rd rnd64) Unit (DVec (Rd rnd64)) where
  checkFinalCost := false
  useStepQuality := false
  saveLast := true
  maxIters := 50
  minError := ⟨0⟩
  minRerrDec := ⟨0⟩
  minStepNorm2 := ⟨0⟩
  minGradNorm2 := ⟨0⟩
  maxTotalFailures := 0
  maxConsecFailures := 3
  maxDurationMs := ⟨0⟩
  stopCallback := none
  stopCallback2 := none

theorem ones_hess (k : Nat) (i j : Fin k) : (numHessF (fun (_ : Fin 1) (_ : Fin k) => (⟨1⟩ : Rd rnd64)) i j).v = 1 := by
  show rnd64.rnd ((FloatOps.ofInt 0 : Rd rnd64).v + rnd64.rnd (1 * 1)) = 1
  rw [Rd.ofInt_zero_v, mul_one, rnd64_one, zero_add, rnd64_one]

theorem sumProb_ls : FlLeastSquares soptsRd sumProb 1 2 (fun x => (mul (sumRes x) (sumRes x)).v = (maxVal : Rd rnd64).v) where
  dyn _ := rfl
  size := Or.inl rfl
  full w x hx := ⟨_, _, _, _, rfl, by
    have : eq (mul (sumRes x) (sumRes x)) maxVal = false := decide_eq_false hx
    simp [normalizeCost, soptsRd, Cost.isValid, ne, this], fun i => by
    rw [ones_hess]
    exact ⟨zpow_lt_one_of_neg₀ (by norm_num) (by norm_num), by simp [soptsRd]⟩⟩
  eval w x hx := by
    have : eq (mul (sumRes x) (sumRes x)) maxVal = false := decide_eq_false hx
    simp [normalizeCost, soptsRd, Cost.isValid, ne, this, sumProb]

/-- hypotheses of `C113_double` (and so of `C113_run`, `C113_hessian`): a singular problem in `double` -/
example (x0 : Vec (Rd rnd64) 2) : ∃ st, optimizeAcc (lmEnv soptsRd (eigenLinAlg ⟨2 ^ (-1022 : ℤ)⟩ fun _ A => A) sumProb) optsRd 4 (-1) () (lmFresh soptsRd sumProb (fun _ => ⟨0⟩) fun _ _ => ⟨0⟩) x0 = .ok st ∧
    ((∃ t ∈ st.trace, (mul (sumRes t.x) (sumRes t.x)).v = (maxVal : Rd rnd64).v) ∨ st.out.succeeded = true) := by
  have hr0 : soptsRd.dampLo.v ≤ soptsRd.dampHi.v := by simp only [soptsRd]; norm_num
  obtain ⟨st, h, -⟩ := C01_bounded_work (E := lmEnv soptsRd (eigenLinAlg ⟨2 ^ (-1022 : ℤ)⟩ fun _ A => A) sumProb) (o := optsRd) (cnt := fun _ => 0)
    ⟨fun s q => by
      obtain ⟨l, e, -⟩ := stdClamp_rd (v := mul s.lambda (goodScale soptsRd q s.badF)) hr0
      exact ⟨_, by show lmGood soptsRd s q = _; unfold lmGood; rw [e]; rfl⟩, fun s => by
      obtain ⟨l, e, -⟩ := stdClamp_rd (v := mul s.lambda s.badF) hr0
      exact ⟨_, by show lmBad soptsRd s = _; unfold lmBad; rw [e]; rfl⟩, fun s => by
      obtain ⟨l, e, -⟩ := stdClamp_rd (v := mul s.lambda s.badF) hr0
      exact ⟨_, by show lmBad soptsRd s = _; unfold lmBad; rw [e]; rfl⟩⟩
    ⟨fun _ _ _ => Nat.zero_le _, fun _ _ _ => rfl, fun _ => rfl, fun _ h => (nomatch h), fun _ h => (nomatch h)⟩
    (by decide) (by decide) (mi := -1) (by decide) (fuel := 4) (by decide) () (lmFresh soptsRd sumProb (fun _ => ⟨0⟩) fun _ _ => ⟨0⟩) x0
  refine ⟨st, h, ?_⟩
  rcases C113_double (tol := ⟨2 ^ (-1022 : ℤ)⟩) sumProb_ls rnd64_one (by norm_num) (by norm_num) le_rfl rfl hr0 (by simp only [soptsRd]; norm_num) 3 (-1) 51 (by rfl) (by norm_num)
    (lmFresh soptsRd sumProb (fun _ => ⟨0⟩) fun _ _ => ⟨0⟩) (Or.inr rfl) rfl (by simp only [lmFresh, lmReset, soptsRd]; norm_num) (by simp [lmFresh, lmReset])
    (by simp only [lmFresh, lmReset, soptsRd, Rd.ofInt_zero_v]; norm_num) () x0 h with h1 | h1
  · exact Or.inl h1
  · exact Or.inr h1.1

end
end Verif
