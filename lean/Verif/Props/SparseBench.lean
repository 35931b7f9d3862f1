import Verif.Model.SparseBench
import Verif.Lemmas.DiagRate
import Verif.Props.SparseProps
/-!
# C141: the benchmark "Sparse"
-/

namespace Verif.SparseBench
open FloatOps Loss DiagRun

variable {n : Nat}

/-- the minimum -/
noncomputable def sol (n : Nat) : RVec n := fun _ => 1 / 5

theorem gram_jac : gramOf (jac n) = diagM fun _ => 100 := by
  funext i j
  unfold gramOf jac diagM
  by_cases h : i = j
  · subst h
    simp; norm_num
  · have h' : ¬ j = i := fun e => h e.symm
    simp [h, h']

theorem dense_js : ((SpSq.zero n).updateDiag fun _ => (10 : ℝ)).dense = jac n := by
  funext i j
  rw [dense_updateDiag, dense_zero]
  simp [jac]

theorem dense_view (M : Mat ℝ n) : (SpSq.ofDense M).dense = M := dense_ofDense M fun i j h => by simpa using h

theorem grad_eq (x : RVec n) : grad x = diagG (fun _ => 100) (sol n) x := by
  funext i
  unfold grad diagG jac res sol
  simp only [ite_mul, zero_mul, Finset.sum_ite_eq', Finset.mem_univ, if_true]
  ring

/-- **C141, the Hessians.** From the empty matrix that the solver passes, the four ways of the benchmark to write `H` give the same coefficients, those of `J^T J` with the Jacobian `J` of the residuals; the last three
from any matrix, the first only from matrices without other entries. The gradient is half the one of the square of the returned cost, which vanishes only at the minimum. -/
theorem C141_derivs (x : RVec n) (H : SpSq ℝ n) : HasJac res (jac n) x ∧ (hess1 (SpSq.zero n)).dense = gram (jac n) ∧ (hess2 H).dense = gram (jac n) ∧ (hess3 H).dense = gram (jac n) ∧ (hess4 H).dense = gram (jac n) ∧
    ((hess1 H).dense = gram (jac n) ↔ ∀ i j, i ≠ j → H.dense i j = 0) ∧ HasGrad (fun x => cost x ^ 2) ((2 : ℝ) • grad x) x ∧ (cost x = 0 ↔ x = sol n) := by
  have hg : gram (jac n) = diagM fun _ => 100 := gram_jac
  refine ⟨?_, ?_, ?_, ?_, ?_, ?_, ?_, ?_⟩
  · intro r
    have h1 : HasDerivAt (fun t : ℝ => 10 * t - 2) 10 (x r) := by simpa using ((hasDerivAt_id (x r)).const_mul 10).sub_const 2
    refine ((hasGrad_coord r x).comp_deriv h1).congr_J ?_
    funext j
    by_cases hrj : r = j
    · subst hrj; simp [jac]
    · simp [jac, hrj, Pi.single_apply, Ne.symm hrj]
  · rw [hg]
    funext i j
    rw [hess1, dense_updateDiag, dense_zero]
    unfold diagM
    split <;> norm_num
  · rw [hg]
    funext i j
    rw [hess2, dense_updateDiag, dense_zero]
    unfold diagM
    split <;> norm_num
  · rw [hg, hess3, dense_view, gram_jac]
  · rw [hg, hess4, dense_view, dense_js, gram_jac]
  · rw [hg]
    constructor
    · intro h i j hij
      have := congrFun (congrFun h i) j
      rw [hess1, dense_updateDiag, if_neg hij] at this
      rw [this, diagM, if_neg hij]
    · intro h
      funext i j
      rw [hess1, dense_updateDiag]
      unfold diagM
      by_cases hij : i = j
      · rw [if_pos hij, if_pos hij]; norm_num
      · rw [if_neg hij, if_neg hij, h i j hij]
  · have e : (fun x : RVec n => cost x ^ 2) = fun x => ∑ i, (10 * x i - 2) ^ 2 := by
      funext x
      unfold cost
      rw [Real.sq_sqrt (Finset.sum_nonneg fun i _ => mul_self_nonneg _)]
      exact Finset.sum_congr rfl fun i _ => by unfold res; ring
    rw [e]
    refine hasGrad_sep (φ := fun _ t => (10 * t - 2) ^ 2) fun i => ?_
    have h1 : HasDerivAt (fun t : ℝ => 10 * t - 2) 10 (x i) := by simpa using ((hasDerivAt_id (x i)).const_mul 10).sub_const 2
    refine (h1.pow 2).congr_deriv ?_
    rw [Pi.smul_apply, smul_eq_mul, grad_eq]
    unfold diagG sol
    push_cast
    ring
  · unfold cost
    rw [Real.sqrt_eq_zero (Finset.sum_nonneg fun i _ => mul_self_nonneg _), Finset.sum_eq_zero_iff_of_nonneg fun i _ => mul_self_nonneg _]
    constructor
    · intro h
      funext i
      have := mul_self_eq_zero.1 (h i (Finset.mem_univ i))
      unfold res at this
      unfold sol
      linarith
    · rintro rfl i -
      unfold res sol
      norm_num

theorem cost_eq (x : RVec n) : cost x = 10 * √(dotR (x - sol n) (x - sol n)) := by
  have e : ∑ i, res x i * res x i = 10 ^ 2 * dotR (x - sol n) (x - sol n) := by
    unfold dotR
    rw [Finset.mul_sum]
    refine Finset.sum_congr rfl fun i _ => ?_
    simp only [res, sol, Pi.sub_apply]
    ring
  unfold cost
  rw [e, Real.sqrt_mul (by norm_num), Real.sqrt_sq (by norm_num)]

theorem cost_shrinks (x : RVec n) (hx : x ≠ sol n) (c : ℝ) (c0 : 0 ≤ c) (c1 : c < 1) : cost (sol n + c • (x - sol n)) < cost x := by
  have e : dotR (sol n + c • (x - sol n) - sol n) (sol n + c • (x - sol n) - sol n) = c ^ 2 * dotR (x - sol n) (x - sol n) := by
    rw [add_sub_cancel_left]
    unfold dotR
    rw [Finset.mul_sum]
    refine Finset.sum_congr rfl fun i _ => ?_
    simp only [Pi.smul_apply, smul_eq_mul]; ring
  rw [cost_eq, cost_eq, e, Real.sqrt_mul (by positivity), Real.sqrt_sq c0]
  have h1 : 0 < √(dotR (x - sol n) (x - sol n)) :=
    Real.sqrt_pos.2 (lt_of_le_of_ne (dotR_self_nonneg _) fun h => hx (sub_eq_zero.1 (dotR_self_eq_zero h.symm)))
  nlinarith

section
variable {R W : Type} {so : SolverOpts ℝ} {Ls : SpLinAlg ℝ} {P : SpProblem ℝ R W (RVec n)} {o : Options ℝ W (DVec ℝ)}

/-- the problem of the benchmark: `VecX` parameters, the function `simple_loss`, memory that does not run out -/
structure BenchProb (P : SpProblem ℝ R W (RVec n)) : Prop where
  pos : 0 < n
  dyn : ∀ x, P.dynDims x = n
  alloc : ∀ w k, ∃ g w', P.alloc w k = (some g, w')
  plus : ∀ x v, P.plusEq x ⟨n, v⟩ = x + v
  full : ∀ w x g H, ∃ c w', P.acc.full w x n g H = ((c, grad x, hess4 H), w') ∧ c.cost = cost x ∧ c.num = n
  eval : ∀ w x, (P.acc.eval w x).1.cost = cost x ∧ (P.acc.eval w x).1.num = n

/-- the same function with a dense Hessian -/
noncomputable def twin (P : SpProblem ℝ R W (RVec n)) : Problem ℝ R W (RVec n) where
  acc := {
    full := fun w x k g _ => (((P.acc.full w x k g (SpSq.zero k)).1.1, (P.acc.full w x k g (SpSq.zero k)).1.2.1, (P.acc.full w x k g (SpSq.zero k)).1.2.2.dense), (P.acc.full w x k g (SpSq.zero k)).2)
    eval := P.acc.eval }
  dims := none
  dynDims := P.dynDims
  plusEq := P.plusEq
  clock := P.clock
  alloc := fun w n => ((P.alloc w n).1.map fun g => (g, fun _ _ => ofInt 0), (P.alloc w n).2)
  ratio1 := P.ratio1

theorem twin_same (P : SpProblem ℝ R W (RVec n)) : SameFunction P (twin P) fun _ H => H where
  dims := rfl
  dynDims := rfl
  plusEq := rfl
  clock := rfl
  ratio1 := rfl
  alloc _ _ := rfl
  eval := rfl
  full w x k c g H w' h := by simp only [twin, h]

theorem twin_quad (h : BenchProb P) : UserQuad (twin P) (fun _ => True) cost (diagG (fun _ => 100) (sol n)) (fun _ => diagM fun _ => 100) n where
  dyn := h.dyn
  size := Or.inr ⟨rfl, h.pos, fun w k => by
    obtain ⟨g, w', e⟩ := h.alloc w k
    exact ⟨_, w', by simp only [twin, e]; rfl⟩⟩
  plus := h.plus
  pos := h.pos
  psd x _ := by
    refine ⟨fun i j => ?_, fun v => Finset.sum_nonneg fun i _ => ?_⟩
    · unfold diagM
      by_cases hij : i = j
      · rw [hij]
      · rw [if_neg hij, if_neg (Ne.symm hij)]
    · simp only [mv, diagM, ite_mul, zero_mul, Finset.sum_ite_eq, Finset.mem_univ, if_true]
      nlinarith [mul_self_nonneg (v i)]
  full w x _ := by
    obtain ⟨c, w', e, hc, hn⟩ := h.full w x (fun _ => 0) (SpSq.zero n)
    refine ⟨c, w', ?_, hc, hn⟩
    simp only [twin, e]
    rw [grad_eq, hess4, dense_view, dense_js, gram_jac]
  eval w x _ := h.eval w x

/-- **C141, the rate.** Levenberg-Marquardt on the function of the benchmark with a sparse Hessian, in exact arithmetic: every step is accepted, each multiplies the error `x - 1/5` by exactly `λ / (1 + λ)` with a
damping `λ` of at most the initial one, and the run ends as converged. -/
theorem C141_rate (h : BenchProb P) (hL : ExactSparse Ls) (hlo : 0 ≤ so.dampLo) (hr0 : so.dampLo ≤ so.dampHi) (hg0 : 0 ≤ so.goodFactor) (hg1 : so.goodFactor ≤ 1) (hmin : so.checkMinHDiag ≤ 100)
    (hclip : so.gradClip = 0) (ho : Unwatched o) (hq : o.useStepQuality = false) (hms : 0 < o.minStepNorm2)
    (s : SpLMState ℝ R) (hreb : s.rebuild = true) (hl0 : so.dampLo ≤ s.lambda) (hbf : s.badF = so.badFactor) (x0 : RVec n) (hx0 : nCost so n (cost x0) < maxVal) {N : Nat}
    (hN : ((s.lambda / (1 + s.lambda)) ^ N) ^ 2 * dotR (x0 - sol n) (x0 - sol n) < o.minStepNorm2)
    {fuel : Nat} {mi k : Int} (hk : loopBound o mi = some k) (hNk : (N : Int) < k) (w : W) :
    ∃ st, optimizeAcc (spLmEnv so Ls P) o (fuel + 1) mi w s x0 = .ok st ∧ st.out.converged = true ∧ st.trace.length ≤ N + 1 ∧
      (∀ r ∈ st.trace, r.succ = true ∧ ∃ l, 0 ≤ l ∧ l ≤ s.lambda ∧ r.xNext - sol n = (l / (1 + l)) • (r.x - sol n)) ∧
      ∃ c, 0 ≤ c ∧ c ≤ (s.lambda / (1 + s.lambda)) ^ st.trace.length ∧ st.x - sol n = c • (x0 - sol n) := by
  obtain ⟨Ld, hLd, hsame⟩ := exact_dense hL
  obtain ⟨st, he, h1, h2, h3, h4⟩ := diag_rate (so := { so with useLdlt := true }) (o := o) (twin_quad h) (fun _ => by norm_num) (fun x => Real.sqrt_nonneg _) cost_shrinks hLd hlo hr0 hg0 hg1 (Or.inl rfl)
    (Or.inr fun i => by simpa [diagM] using hmin) hclip ho hq hms s.toDense (Or.inl rfl) hreb hl0 hbf x0 hx0 (N := N) hN (fuel := fuel) hk hNk w
  rw [C61_lm (twin_same P) hsame] at he
  cases hrun : optimizeAcc (spLmEnv so Ls P) o (fuel + 1) mi w s x0 with
  | ok st1 =>
    rw [hrun] at he
    injection he with he
    subst he
    have hlen : (LoopSt.mapSt SpLMState.toDense DSp.dense st1).trace.length = st1.trace.length := List.length_map _
    rw [hlen] at h2 h4
    refine ⟨st1, rfl, h1, h2, fun r hr => ?_, h4⟩
    have h5 := h3 (r.mapH DSp.dense) (List.mem_map_of_mem hr)
    exact h5
  | ub => rw [hrun] at he; cases he
  | throw => rw [hrun] at he; cases he
  | fuel => rw [hrun] at he; cases he

/-- **C141, the benchmark**: up to 1000 parameters in `[-1, 1]`, a new solver and the options of the benchmarks: at most four iterations, converged, all steps accepted, the error divided by at least `10000` per
iteration. -/
theorem C141_benchmark (h : BenchProb P) (hn : n ≤ 1000) (hL : ExactSparse Ls) (gn : SpGNState ℝ R) (x0 : RVec n) (hx : ∀ i, |x0 i| ≤ 1) (fuel : Nat) (w : W) :
    ∃ st, optimizeAcc (spLmEnv soptsLM Ls P) (optsBench W) (fuel + 1) (-1) w ⟨gn, soptsLM.dampInit, 0, soptsLM.badFactor, true⟩ x0 = .ok st ∧ st.out.converged = true ∧ st.trace.length ≤ 4 ∧
      (∀ r ∈ st.trace, r.succ = true) ∧ ∀ i, |st.x i - 1 / 5| ≤ (1 / 10 ^ 4) ^ st.trace.length * |x0 i - 1 / 5| := by
  have hsum : dotR (x0 - sol n) (x0 - sol n) ≤ 1000 * 2 := by
    have h1 : ∀ i ∈ Finset.univ, (x0 - sol n) i * (x0 - sol n) i ≤ 2 := fun i _ => by
      have := abs_le.1 (hx i)
      simp only [Pi.sub_apply, sol]
      nlinarith
    refine (Finset.sum_le_card_nsmul _ _ 2 h1).trans ?_
    rw [Finset.card_univ, Fintype.card_fin, nsmul_eq_mul]
    exact mul_le_mul_of_nonneg_right (by exact_mod_cast hn) (by norm_num)
  have hlam : soptsLM.dampInit = 1 / 10000 := rfl
  have hρ : (1 / 10000 : ℝ) / (1 + 1 / 10000) ≤ 1 / 10 ^ 4 := by norm_num
  obtain ⟨st, e, h1, h2, h3, c, c0, c1, h4⟩ := C141_rate (so := soptsLM) (Ls := Ls) (o := optsBench W) h hL (by norm_num [soptsLM]) (by norm_num [soptsLM])
    (by norm_num [soptsLM, soptsR]) (by norm_num [soptsLM, soptsR]) (by norm_num [soptsLM, soptsR]) rfl ⟨by simp [optsBench, optsDef], rfl, rfl⟩ rfl (by norm_num [optsBench])
    ⟨gn, soptsLM.dampInit, 0, soptsLM.badFactor, true⟩ rfl (by norm_num [soptsLM]) rfl x0
    (by
      have e : nCost soptsLM n (cost x0) = cost x0 := by simp [nCost, normalizeCost, soptsLM, soptsR]
      have h5 : √(dotR (x0 - sol n) (x0 - sol n)) ≤ 2000 := Real.sqrt_le_iff.2 ⟨by norm_num, by linarith⟩
      rw [e, cost_eq]
      exact lt_of_lt_of_le (by linarith : _ < (2 : ℝ) ^ 20) (pow_le_pow_right₀ (by norm_num) (by norm_num)))
    (N := 3) (by
      rw [hlam]
      refine lt_of_le_of_lt (mul_le_mul_of_nonneg_left hsum (by positivity)) ?_
      norm_num [optsBench])
    (mi := -1) (k := 11) (by rfl) (by norm_num) (fuel := fuel) w
  refine ⟨st, e, h1, h2, fun r hr => (h3 r hr).1, fun i => ?_⟩
  have h7 := congrFun h4 i
  simp only [Pi.sub_apply, Pi.smul_apply, smul_eq_mul, sol] at h7
  rw [h7, abs_mul, abs_of_nonneg c0]
  refine mul_le_mul_of_nonneg_right (c1.trans ?_) (abs_nonneg _)
  rw [hlam]
  exact pow_le_pow_left₀ (by norm_num) hρ _

end

/-- the problem of the benchmark -/
noncomputable def prob (n : Nat) : SpProblem ℝ ℝ Unit (RVec n) where
  acc := {
    full := fun w x k g H => if h : k = n then
        (({ cost := cost x, num := n, inlier := 1 }, fun i => grad x (h ▸ i), hess4 H), w)
      else (({ cost := 0, num := 0, inlier := 1 }, g, H), w)
    eval := fun w x => ({ cost := cost x, num := n, inlier := 1 }, w) }
  dynDims := fun _ => n
  plusEq := fun x v => if h : v.n = n then x + h ▸ v.v else x
  clock := fun w => (0, w)
  alloc := fun w _ => (some fun _ => 0, w)
  ratio1 := 1

/-- the hypotheses of C141: the sizes of the benchmark -/
example : BenchProb (prob 10) ∧ BenchProb (prob 1000) ∧ ExactSparse someSparse := by
  have key : ∀ n, 0 < n → BenchProb (prob n) := fun n hn =>
    { pos := hn
      dyn := fun _ => rfl
      alloc := fun w k => ⟨_, w, rfl⟩
      plus := fun x v => by simp [prob]
      full := fun w x g H => ⟨{ cost := cost x, num := n, inlier := 1 }, w, by simp [prob], rfl, rfl⟩
      eval := fun w x => ⟨rfl, rfl⟩ }
  exact ⟨key _ (by norm_num), key _ (by norm_num), someSparse_exact⟩

end Verif.SparseBench
