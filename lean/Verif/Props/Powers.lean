import Verif.Props.LmNonlin
import Verif.Props.LmRate
import Verif.Props.Circle
/-!
# C100: returning powers of residuals

tests/optimize_hard.cpp:119-124 returns squares as residuals; the library squares what is returned. Exact arithmetic.
-/

set_option linter.unusedSectionVars false

namespace Verif
open FloatOps Loss

section
variable {m n : Nat}

/-- the residuals raised to the power `p` -/
def powR (p : Nat) (q : Vec ℝ m) : Vec ℝ m := fun i => q i ^ p

/-- and their Jacobian -/
def powJ (p : Nat) (q : Vec ℝ m) (J : Fin m → Fin n → ℝ) : Fin m → Fin n → ℝ := fun i j => p * q i ^ (p - 1) * J i j

theorem tmv_negR (J : Fin m → Fin n → ℝ) (v : Vec ℝ m) : tmv J (-v) = -tmv J v := by
  funext j
  simp [tmv]

theorem powJ_mv (p : Nat) (q : Vec ℝ m) (J : Fin m → Fin n → ℝ) (v : Vec ℝ n) : mv (powJ p q J) v = fun i => p * q i ^ (p - 1) * mv J v i := by
  funext i
  simp only [mv, powJ, Finset.mul_sum]
  exact Finset.sum_congr rfl fun j _ => by ring

theorem powR_jac {q : Vec ℝ n → Vec ℝ m} {J : Fin m → Fin n → ℝ} {x : Vec ℝ n} (p : Nat) (h : HasJac q J x) : HasJac (fun y => powR p (q y)) (powJ p (q x) J) x := by
  intro i
  have := (h i).comp_deriv (φ := fun t => t ^ p) (d := p * q x i ^ (p - 1)) (hasDerivAt_pow p (q x i))
  exact this.congr_J (by funext j; simp [powJ])

theorem powJ_inj {p : Nat} (hp : 0 < p) {q : Vec ℝ m} {J : Fin m → Fin n → ℝ} (hJ : ∀ v, mv J v = 0 → v = 0) (hq : ∀ i, q i ≠ 0) (v : Vec ℝ n)
    (h : mv (powJ p q J) v = 0) : v = 0 := by
  refine hJ v (funext fun i => ?_)
  rw [powJ_mv] at h
  have h1 := congrFun h i
  have hp' : (p : ℝ) ≠ 0 := by exact_mod_cast hp.ne'
  exact (mul_eq_zero.mp h1).resolve_left (mul_ne_zero hp' (pow_ne_zero _ (hq i)))

/-- **C100**, one step: for as many residuals as parameters the Gauss-Newton step for their `p`-th powers is the `p`-th part of the one for the residuals. -/
theorem C100_step {p : Nat} (hp : 0 < p) {q d d' : Vec ℝ n} {J : Fin n → Fin n → ℝ} (hJ : ∀ v, mv J v = 0 → v = 0) (hq : ∀ i, q i ≠ 0)
    (hd : mv (gram J) d = -tmv J q) (hd' : mv (gram (powJ p q J)) d' = -tmv (powJ p q J) (powR p q)) : d' = (1 / p : ℝ) • d := by
  have hp' : (p : ℝ) ≠ 0 := by exact_mod_cast hp.ne'
  obtain ⟨d0, h0⟩ := square_surj hJ (-q)
  have e1 : d = d0 := by
    refine pd_inj (gram_pd hJ) ?_
    rw [hd, mv_gram, h0, tmv_negR]
  subst e1
  refine pd_inj (gram_pd (powJ_inj hp hJ hq)) ?_
  rw [hd', mv_gram, powJ_mv, ← tmv_negR]
  congr 1
  funext i
  have h1 := congrFun h0 i
  rw [mv_smul]
  simp only [Pi.smul_apply, smul_eq_mul, Pi.neg_apply, powR] at h1 ⊢
  rw [h1]
  obtain ⟨k, rfl⟩ : ∃ k, p = k + 1 := ⟨p - 1, by omega⟩
  rw [Nat.add_sub_cancel, pow_succ]
  field_simp

end

section
variable {R W : Type} {n p : Nat} {so : SolverOpts ℝ} {LA : LinAlg ℝ} {P : Problem ℝ R W (Vec ℝ n)} {o : Options ℝ W (DVec ℝ)} {e : Fin n → Expr n}
variable {A : Fin n → Fin n → ℝ} {b : Vec ℝ n}

theorem path_scale {xs : Vec ℝ n} {q : ℝ} {x y : Vec ℝ n} {l : List (Rec ℝ R (Vec ℝ n) (DVec ℝ) (DMat ℝ))} (h : Path x l y)
    (hs : ∀ t ∈ l, t.xNext - xs = q • (t.x - xs)) : y - xs = q ^ l.length • (x - xs) := by
  induction l generalizing x with
  | nil => cases h; simp
  | cons t l ih =>
    obtain ⟨h1, h2⟩ := h
    have := ih h2 fun t' ht' => hs t' (List.mem_cons_of_mem _ ht')
    rw [this, hs t List.mem_cons_self, ← h1, smul_smul, List.length_cons, pow_succ]

/-- **C100.** The user returns the `p`-th powers, `p ≥ 2`, of `n` affine residuals in `n` unknowns: the run ends normally, every iteration is accepted, but multiplies the
error by `1 - 1 / p` only: squares halve it. The residuals themselves would need one iteration (C58). -/
theorem C100_powers (hP : ADProblem P e) (hV : VecParams P) (hn : 0 < n) (hp : 2 ≤ p) (hA : ∀ v, mv A v = 0 → v = 0)
    (he : ∀ y i, (e i).InDomain y ∧ (e i).value y = (mv A y i - b i) ^ p) (hL : ExactLinAlg LA)
    (hone : so.useLdlt = true ∨ P.dims ≠ some 1) (hmin : so.checkMinHDiag ≤ 0) (hclip : so.gradClip = 0)
    (s : GNState ℝ R) (hs : P.dims = none ∨ s.n = n) (fuel : Nat) (mi k : Int) (hk : loopBound o mi = some k)
    (w : W) (x0 : Vec ℝ n) (hx0 : ∀ i, mv A x0 i ≠ b i) (hc0 : nCost so n (sumSq (fun y i => (e i).value y) x0) < maxVal) :
    ∃ xs, mv A xs = b ∧ ∃ st, optimizeAcc (gnEnv so LA P) o (fuel + 1) mi w s x0 = .ok st ∧
      (∀ t ∈ st.trace, t.succ = true ∧ t.xNext - xs = (1 - 1 / p : ℝ) • (t.x - xs)) ∧
      st.x - xs = ((1 - 1 / p : ℝ) ^ st.trace.length) • (x0 - xs) ∧ st.x ≠ xs := by
  have hp0 : 0 < p := by omega
  have hp' : (p : ℝ) ≠ 0 := by exact_mod_cast hp0.ne'
  have hp2 : (2 : ℝ) ≤ p := by exact_mod_cast hp
  have hf0 : 0 < (1 - 1 / p : ℝ) := by
    have : (1 / p : ℝ) ≤ 1 / 2 := one_div_le_one_div_of_le (by norm_num) hp2
    linarith
  have hf1 : (1 - 1 / p : ℝ) < 1 := by
    have : (0 : ℝ) < 1 / p := by positivity
    linarith
  obtain ⟨xs, hxs⟩ := square_surj hA b
  have hval : (fun y i => (e i).value y) = fun y : Vec ℝ n => powR p (mv A y - b) := by funext y i; exact (he y i).2
  have hres : ∀ x, mv A x - b = mv A (x - xs) := by intro x; rw [mv_sub, hxs]
  have h : NonlinLS P (fun x => ∀ i, mv A x i ≠ b i) (fun y => powR p (mv A y - b)) (fun x => powJ p (mv A x - b) A) := by
    rw [← hval]
    refine nonlinLS_of_autodiff hP hV hn fun x _ => ⟨fun i => (he x i).1, ?_⟩
    rw [hval]
    exact powR_jac p (hasJac_affine A b x)
  have hq : ∀ x, (∀ i, mv A x i ≠ b i) → ∀ i, (mv A x - b) i ≠ 0 := fun x hx i => sub_ne_zero.2 (hx i)
  have hstep : ∀ x d, (∀ i, mv A x i ≠ b i) →
      mv (gram (powJ p (mv A x - b) A)) d = -tmv (powJ p (mv A x - b) A) (powR p (mv A x - b)) → d = (1 / p : ℝ) • (xs - x) := by
    intro x d hx hd
    refine C100_step hp0 hA (hq x hx) ?_ hd
    rw [mv_gram, ← tmv_negR]
    congr 1
    rw [mv_sub, hxs]; abel
  have hnext : ∀ x, x + (1 / p : ℝ) • (xs - x) - xs = (1 - 1 / p : ℝ) • (x - xs) := by intro x; module
  have hnextA : ∀ x, mv A (x + (1 / p : ℝ) • (xs - x)) - b = (1 - 1 / p : ℝ) • (mv A x - b) := by
    intro x; rw [hres, hres, hnext, mv_smul]
  have hc0' : nCost so n (id (dotR (powR p (mv A x0 - b)) (powR p (mv A x0 - b)))) < maxVal := by
    have : dotR (powR p (mv A x0 - b)) (powR p (mv A x0 - b)) = sumSq (fun y i => (e i).value y) x0 := by
      rw [hval]; simp [sumSq, dotR, pow_two]
    rw [id, this]; exact hc0
  obtain ⟨st, e1, ht⟩ := gn_nls_run (o := o) h hL (fun x hx => gram_pd (powJ_inj hp0 hA (hq x hx)))
    (fun x _ => by
      rcases hone with h1 | h1
      · exact Or.inl h1
      · right; left
        rw [beq_eq_false_iff_ne]; exact h1)
    (fun _ _ => Or.inl hmin) hclip
    (fun x d hx _ hd => by
      have := hstep x d hx hd
      subst this
      refine ⟨fun i hi => ?_, ?_⟩
      · have h1 := congrFun (hnextA x) i
        simp only [Pi.sub_apply, Pi.smul_apply, smul_eq_mul] at h1
        rw [hi, sub_self] at h1
        exact (mul_ne_zero hf0.ne' (hq x hx i)) h1.symm
      · have h1 : powR p (mv A (x + (1 / p : ℝ) • (xs - x)) - b) = (1 - 1 / p : ℝ) ^ p • powR p (mv A x - b) := by
          rw [hnextA]
          funext i
          simp [powR, mul_pow]
        rw [h1, nrm_smul, abs_of_nonneg (pow_nonneg hf0.le _)]
        have h2 : 0 < nrm (powR p (mv A x - b)) := by
          refine lt_of_le_of_ne (nrm_nonneg _) fun h0 => ?_
          have := congrFun (nrm_eq_zero h0.symm) ⟨0, hn⟩
          exact pow_ne_zero p (hq x hx ⟨0, hn⟩) this
        have h3 : (1 - 1 / p : ℝ) ^ p < 1 := pow_lt_one₀ hf0.le hf1 hp0.ne'
        nlinarith)
    s hs fuel mi k hk w x0 hx0 hc0'
  have hall : ∀ t ∈ st.trace, t.succ = true ∧ t.xNext - xs = (1 - 1 / p : ℝ) • (t.x - xs) := by
    intro t htt
    obtain ⟨h1, h2, h3⟩ := ht t htt
    have h4 := hstep t.x _ h1 h2
    refine ⟨h3 fun h0 => ?_, ?_⟩
    · have h5 : mv (gram (powJ p (mv A t.x - b) A)) 0 = -tmv (powJ p (mv A t.x - b) A) (powR p (mv A t.x - b)) := by rw [h0, mv_zero, neg_zero]
      have h6 := hstep t.x 0 h1 h5
      have h7 : xs = t.x := by
        have := (smul_eq_zero.mp h6.symm).resolve_left (one_div_ne_zero hp')
        exact sub_eq_zero.mp this
      refine h1 ⟨0, hn⟩ ?_
      rw [← h7, hxs]
    · rw [← hnext, ← h4, add_sub_cancel]
  have hpath := path_scale (run_path e1) fun t htt => (hall t htt).2
  refine ⟨xs, hxs, st, e1, hall, hpath, fun h0 => ?_⟩
  rw [h0, sub_self] at hpath
  have h7 := (smul_eq_zero.mp hpath.symm).resolve_left (pow_ne_zero _ hf0.ne')
  refine hx0 ⟨0, hn⟩ ?_
  rw [sub_eq_zero.mp h7, hxs]

end

/-! ### Non-vacuity -/

/-- squares of two affine residuals, as in the Wood function -/
noncomputable def squares2 : Fin 2 → Expr 2 := fun i =>
  if i = 0 then .op1 (.powC 2) (.op1 (.sSub 1) (.var 0)) else .op1 (.powC 2) (.op2 .sub (.var 1) (.var 0))

/-- from (-3, -1) the error is halved by every iteration -/
example (g H) : ∃ st, optimizeAcc (gnEnv soptsR someLinAlg (adProbV squares2)) (optsR 9) 1 (-1) () (gnFresh (adProbV squares2) g H) ![-3, -1] = .ok st ∧
    ∀ t ∈ st.trace, t.xNext - (fun _ => 1) = (1 / 2 : ℝ) • (t.x - fun _ => 1) := by
  have he : ∀ (y : Vec ℝ 2) i, (squares2 i).InDomain y ∧ (squares2 i).value y = (mv ![![-1, 0], ![-1, 1]] y i - ![-1, 0] i) ^ 2 := by
    intro y i
    fin_cases i
    · refine ⟨⟨⟨trivial, Or.inl trivial⟩, Or.inl (Or.inr (Or.inr ⟨1, by norm_num⟩))⟩, ?_⟩
      simp [squares2, Expr.value, fn1, mv, Fin.sum_univ_succ]; ring
    · refine ⟨⟨⟨trivial, trivial, Or.inl trivial⟩, Or.inl (Or.inr (Or.inr ⟨1, by norm_num⟩))⟩, ?_⟩
      simp [squares2, Expr.value, fn1, fn2, mv, Fin.sum_univ_succ]; ring
  have hA : ∀ v : Vec ℝ 2, mv ![![-1, 0], ![-1, 1]] v = 0 → v = 0 := by
    intro v hv
    have h0 := congrFun hv 0
    have h1 := congrFun hv 1
    simp [mv, Fin.sum_univ_succ] at h0 h1
    funext i
    fin_cases i
    · exact h0
    · simp [h0] at h1; exact h1
  obtain ⟨xs, h1, st, h2, h3, -, -⟩ := C100_powers (o := optsR 9) (so := soptsR) (LA := someLinAlg) (b := ![-1, 0]) (adProbV_ad squares2) (adProbV_vec _) (by norm_num) (le_refl 2) hA he
    someLinAlg_exact (Or.inl rfl) (le_refl _) rfl (gnFresh (adProbV squares2) g H) (Or.inr rfl) 0 (-1) _ (loopBound_optsR 9 (by norm_num) (by norm_num)) () ![-3, -1]
    (by intro i; fin_cases i <;> norm_num [mv, Fin.sum_univ_succ])
    (by
      have : sumSq (fun y i => (squares2 i).value y) ![-3, -1] = 272 := by
        rw [show (fun y i => (squares2 i).value y) = fun y i => (mv ![![-1, 0], ![-1, 1]] y i - ![-1, 0] i) ^ 2 from by funext y i; exact (he y i).2]
        simp [sumSq, mv, Fin.sum_univ_succ]; norm_num
      rw [this]
      show nCost soptsR 2 272 < 2 ^ 1024
      simp [nCost, normalizeCost, soptsR]
      exact lt_of_lt_of_le (by norm_num : (272 : ℝ) < 2 ^ 9) (pow_le_pow_right₀ (by norm_num) (by norm_num)))
  have : xs = fun _ => 1 := by
    have h0 : mv ![![-1, 0], ![-1, 1]] (xs - fun _ => 1) = 0 := by
      rw [mv_sub, h1]
      funext i
      fin_cases i <;> simp [mv, Fin.sum_univ_succ]
    exact sub_eq_zero.mp (hA _ h0)
  subst this
  refine ⟨st, h2, fun t ht => ?_⟩
  rw [(h3 t ht).2]
  norm_num

end Verif
