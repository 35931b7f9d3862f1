import Mathlib.Analysis.InnerProductSpace.Projection.Submodule
import Mathlib.Analysis.InnerProductSpace.PiL2
import Verif.Props.LmRate
import Verif.Props.EigenLDLT
import Verif.Props.Stuck
/-!
# C103: rank-deficient linear least squares
-/

set_option linter.unusedSectionVars false

namespace Verif
open FloatOps

/-! ### Linear algebra -/

section
variable {m n : Nat}

theorem psd_kernel {H : Mat ℝ n} (hH : PSD H) {v : Vec ℝ n} (h : dotR v (mv H v) = 0) : mv H v = 0 := by
  have hs : ∀ u w : Vec ℝ n, dotR u (mv H w) = dotR w (mv H u) := by
    intro u w
    simp only [dotR, mv, Finset.mul_sum]
    rw [Finset.sum_comm]
    refine Finset.sum_congr rfl fun i _ => Finset.sum_congr rfl fun j _ => ?_
    rw [hH.1 j i]; ring
  set w := mv H v with hw
  by_contra hne
  have hp : 0 < dotR w w := (dotR_self_nonneg w).lt_of_ne' fun h0 => hne (dotR_self_eq_zero h0)
  have key : ∀ t : ℝ, 0 ≤ 2 * t * dotR w w + t ^ 2 * dotR w (mv H w) := by
    intro t
    have h1 := hH.2 (v + t • w)
    have e : dotR (v + t • w) (mv H (v + t • w)) = dotR v (mv H v) + 2 * t * dotR w w + t ^ 2 * dotR w (mv H w) := by
      rw [mv_add, mv_smul, ← hw]
      have e1 : dotR (v + t • w) (w + t • mv H w) = dotR v w + t * dotR v (mv H w) + t * dotR w w + t * (t * dotR w (mv H w)) := by
        simp only [dotR, Pi.add_apply, Pi.smul_apply, smul_eq_mul, Finset.mul_sum, ← Finset.sum_add_distrib]
        exact Finset.sum_congr rfl fun i _ => by ring
      rw [e1, hs v w, ← hw]; ring
    rw [e, h, zero_add] at h1
    exact h1
  have hq := hH.2 w
  have h2 := key (-(dotR w w) / (dotR w (mv H w) + 1))
  have hd : 0 < dotR w (mv H w) + 1 := by linarith
  have e : 2 * (-(dotR w w) / (dotR w (mv H w) + 1)) * dotR w w + (-(dotR w w) / (dotR w (mv H w) + 1)) ^ 2 * dotR w (mv H w) =
      -(dotR w w) ^ 2 * (dotR w (mv H w) + 2) / (dotR w (mv H w) + 1) ^ 2 := by field_simp; ring
  rw [e] at h2
  have : (0 : ℝ) < (dotR w w) ^ 2 * (dotR w (mv H w) + 2) / (dotR w (mv H w) + 1) ^ 2 := by positivity
  have e2 : -(dotR w w) ^ 2 * (dotR w (mv H w) + 2) / (dotR w (mv H w) + 1) ^ 2 = -((dotR w w) ^ 2 * (dotR w (mv H w) + 2) / (dotR w (mv H w) + 1) ^ 2) := by ring
  rw [e2] at h2
  linarith

/-- Orthogonal decomposition with respect to a subspace given by closure under sums and multiples. -/
theorem split_orth {k : Nat} (N : Vec ℝ k → Prop) (h0 : N 0) (ha : ∀ u v, N u → N v → N (u + v)) (hs : ∀ (c : ℝ) u, N u → N (c • u)) (v : Vec ℝ k) :
    ∃ y, N y ∧ ∀ u, N u → dotR u (v - y) = 0 := by
  let K : Submodule ℝ (EuclideanSpace ℝ (Fin k)) :=
    { carrier := {e | N e.ofLp}, add_mem' := fun h1 h2 => ha _ _ h1 h2, zero_mem' := h0, smul_mem' := fun c _ h => hs c _ h }
  obtain ⟨y, hy, z, hz, e⟩ := K.exists_add_mem_mem_orthogonal (WithLp.toLp 2 v)
  refine ⟨y.ofLp, hy, fun u hu => ?_⟩
  have h1 := (Submodule.mem_orthogonal K z).1 hz (WithLp.toLp 2 u) hu
  have h2 : v - y.ofLp = z.ofLp := by
    have := congrArg WithLp.ofLp e
    simp only [WithLp.ofLp_add] at this
    rw [this]; abel
  rw [h2]
  rw [PiLp.inner_apply] at h1
  simpa [dotR, mul_comm] using h1

/-- the normal equations are consistent -/
theorem normal_consistent (A : Fin m → Fin n → ℝ) (r : Vec ℝ m) : ∃ y, mv (gram A) y = tmv A r := by
  obtain ⟨q, ⟨y, rfl⟩, hq⟩ := split_orth (fun u => ∃ y, u = mv A y) ⟨0, (mv_zero A).symm⟩
    (fun u v ⟨a, ha⟩ ⟨b, hb⟩ => ⟨a + b, by rw [mv_add, ha, hb]⟩) (fun c u ⟨a, ha⟩ => ⟨c • a, by rw [mv_smul, ha]⟩) r
  refine ⟨y, ?_⟩
  have h1 : tmv A (r - mv A y) = 0 := by
    apply dotR_self_eq_zero
    rw [dotR_tmv]
    exact hq _ ⟨_, rfl⟩
  rw [mv_gram]
  have h2 : tmv A (r - mv A y) = tmv A r - tmv A (mv A y) := by
    funext i
    simp only [tmv, Pi.sub_apply, mul_sub, Finset.sum_sub_distrib]
  rw [h2] at h1
  exact (sub_eq_zero.mp h1).symm

variable {A : Fin m → Fin n → ℝ} {b : Vec ℝ m}

/-- a point without gradient is a global minimiser, whatever the rank -/
theorem min_of_grad {x : Vec ℝ n} (hg : lsGrad A b x = 0) (y : Vec ℝ n) : lsCost A b x ≤ lsCost A b y := by
  have h := lsCost_add (A := A) (b := b) x (y - x)
  rw [add_sub_cancel, hg] at h
  have h1 := (gram_psd A).2 (y - x)
  have h2 : dotR (0 : Vec ℝ n) (y - x) = 0 := by simp [dotR]
  rw [h2] at h
  linarith

/-- and conversely -/
theorem grad_of_min {x : Vec ℝ n} (h : ∀ y, lsCost A b x ≤ lsCost A b y) : lsGrad A b x = 0 := by
  obtain ⟨y, hy⟩ := normal_consistent A (mv A x - b)
  have h1 := lsCost_add (A := A) (b := b) x (-y)
  have h2 := h (x + -y)
  have e : lsGrad A b x = mv (gram A) y := hy.symm
  have e2 : dotR (-y) (mv (gram A) (-y)) = dotR y (mv (gram A) y) := by
    have : mv (gram A) (-y) = -mv (gram A) y := by
      have := mv_smul (gram A) (-1) y
      simpa using this
    rw [this]; simp [dotR]
  have e3 : dotR (mv (gram A) y) (-y) = -dotR y (mv (gram A) y) := by rw [dotR_neg, dotR_comm]
  rw [e, e2, e3] at h1
  have h3 := (gram_psd A).2 y
  rw [e]
  exact psd_kernel (gram_psd A) (by linarith)

end

/-! ### Gauss-Newton -/

/-- What Eigen's `LDLT` does with symmetric positive semidefinite matrices in exact arithmetic (`eigenLinAlg_semi`): it is successful or not, depending on the matrix only; if it is, it
finds a solution of consistent systems, and 0 for the right hand side 0. -/
structure SemiLDLT (L : LinAlg ℝ) : Prop where
  always : ∀ n A b b', PSD A → (L.ldlt n A b).isSome → (L.ldlt n A b').isSome
  solves : ∀ n A b v y, PSD A → L.ldlt n A b = some v → b = mv A y → mv A v = b
  zero : ∀ n A v, PSD A → L.ldlt n A 0 = some v → v = 0

theorem eigenLinAlg_semi {inv : (n : Nat) → Mat ℝ n → Mat ℝ n} : SemiLDLT (eigenLinAlg 0 inv) := by
  refine ⟨fun n A b b' hA h => ?_, fun n A b v y hA h hy => (C104_consistent hA.1 h).2 ⟨y, hy⟩, fun n A v hA h => (eigenLinAlg_pos (inv := inv) (le_refl 0)).zero n A 0 v hA.1 h (by simp [dotR])⟩
  obtain ⟨x, hx⟩ := Option.isSome_iff_exists.mp h
  exact (C104_consistent hA.1 hx).1 b'

section
variable {R W : Type} {m n : Nat}
variable {so : SolverOpts ℝ} {L : LinAlg ℝ} {P : Problem ℝ R W (Vec ℝ n)} {o : Options ℝ W (DVec ℝ)}
variable {A : Fin m → Fin n → ℝ} {b : Vec ℝ m} {φ : ℝ → ℝ}

theorem gn_delivers_semi (h : LinLS P A b φ) (hL : SemiLDLT L) (hok : (L.ldlt n (gram A) 0).isSome) (hl : so.useLdlt = true)
    (hmin : DiagOk so (gram A)) (hclip : so.gradClip = 0) (w : W) (s : GNState ℝ R) (hs : P.dims = none ∨ s.n = n)
    (x : Vec ℝ n) (hx : nCost so m (φ (lsCost A b x)) ≠ maxVal) :
    ∃ s2 dx, Delivers (gnEnv so L P) w s x s2 ⟨n, dx⟩ ∧ s2.n = n ∧ s2.cost.cost = nCost so m (φ (lsCost A b x)) ∧
      L.ldlt n (gram A) (-lsGrad A b x) = some dx := by
  obtain ⟨s1, w1, hr, hn1, -⟩ := resize_works h.toVecParams w s hs
  obtain ⟨c, w2, hb, hc, hv⟩ := ls_build h hmin hclip w1 s1 hn1 x hx
  obtain ⟨v, h1⟩ := Option.isSome_iff_exists.mp (hL.always n _ _ (-lsGrad A b x) (gram_psd A) hok)
  have h3 : gnSolve so L (P.dims == some 1) (⟨n, lsGrad A b x, gram A, c⟩ : GNState ℝ R) = some ⟨n, v⟩ := by
    unfold gnSolve
    rw [if_pos hv, if_pos hl]
    unfold solveLDLT
    have hng : negVec (lsGrad A b x) = -lsGrad A b x := by funext i; simp [negVec]
    simp only [symUpper_of_sym (gram_sym A), hng, h1, Option.map_some]
  exact ⟨⟨n, lsGrad A b x, gram A, c⟩, v, ⟨⟨s1, w1, w2, resizeIfNeeded_works h.toVecParams hr, hb⟩, h3, rfl, rfl, fun q => ⟨_, rfl⟩, ⟨_, rfl⟩⟩, rfl, hc, h1⟩

/-- **C103** (partial), Gauss-Newton: on every linear least squares problem, of any rank, whose Hessian is decomposed successfully, a run with `use_ldlt` ends normally at a global minimiser
of the sum of squared residuals, and is there from the second iteration on. Missing: Hessians that the decomposition refuses, see `C103_gn_refused`. -/
theorem C103_gn_partial (h : LinLS P A b φ) (hL : SemiLDLT L) (hok : (L.ldlt n (gram A) 0).isSome) (hl : so.useLdlt = true) (hmin : DiagOk so (gram A)) (hclip : so.gradClip = 0)
    (s : GNState ℝ R) (hs : P.dims = none ∨ s.n = n) (fuel : Nat) (mi k : Int) (hk : loopBound o mi = some k)
    (w : W) (x0 : Vec ℝ n) (hx0 : nCost so m (φ (lsCost A b x0)) < maxVal) :
    ∃ xs, (∀ y, lsCost A b xs ≤ lsCost A b y) ∧
      ∃ st, optimizeAcc (gnEnv so L P) o (fuel + 1) mi w s x0 = .ok st ∧ st.x = xs ∧
        ∀ i r, st.trace[i]? = some r → 0 < i → r.x = xs := by
  obtain ⟨d0, hd0, hd1⟩ : ∃ d, L.ldlt n (gram A) (-lsGrad A b x0) = some d ∧ mv (gram A) d = -lsGrad A b x0 := by
    obtain ⟨y, hy⟩ := normal_consistent A (mv A x0 - b)
    obtain ⟨v, h1⟩ := Option.isSome_iff_exists.mp (hL.always n _ _ (-lsGrad A b x0) (gram_psd A) hok)
    have e : mv (gram A) (-y) = -lsGrad A b x0 := by
      have := mv_smul (gram A) (-1) y
      rw [neg_one_smul, neg_one_smul, hy] at this
      exact this
    exact ⟨v, h1, hL.solves n _ _ v (-y) (gram_psd A) h1 e.symm⟩
  have hgs : lsGrad A b (x0 + d0) = 0 := by rw [lsGrad_add, hd1]; exact add_neg_cancel _
  have hmin' := min_of_grad hgs
  refine ⟨x0 + d0, hmin', ?_⟩
  have hsame : lsGrad A b x0 = 0 → d0 = 0 := by
    intro h0
    rw [h0, neg_zero] at hd0
    exact hL.zero n _ _ (gram_psd A) hd0
  generalize hxs : x0 + d0 = xs at hgs hmin'
  have hle : nCost so m (φ (lsCost A b xs)) < nCost so m (φ (lsCost A b x0)) ∨ d0 = 0 := by
    rcases (hmin' x0).lt_or_eq with h1 | h1
    · exact Or.inl ((h.nCost_lt).mpr h1)
    · exact Or.inr (hsame (grad_of_min fun y => h1 ▸ hmin' y))
  have hxsmax : nCost so m (φ (lsCost A b xs)) < maxVal := by
    rcases hle with h1 | h1
    · exact h1.trans hx0
    · rw [← hxs, h1, add_zero]; exact hx0
  have zero_step : ∀ dx : Vec ℝ n, L.ldlt n (gram A) (-lsGrad A b xs) = some dx → dx = 0 := by
    intro dx hdx
    rw [hgs, neg_zero] at hdx
    exact hL.zero n _ _ (gram_psd A) hdx
  let T : LoopSt ℝ R W (GNState ℝ R) (Vec ℝ n) (DVec ℝ) (DMat ℝ) → Prop :=
    fun st => ∀ i r, st.trace[i]? = some r → 0 < i → r.x = xs
  obtain ⟨st, st0, e, hj, h1, h2, h3⟩ := run_works (E := gnEnv so L P) (o := o) (fuel := fuel + 1) (mi := mi) (m := k) (w := w) (s := s) (x := x0)
    (I := fun st => st.out.numConsec ≤ maxTries o ∧ (P.dims = none ∨ st.s.n = n) ∧
      ((st.trace = [] ∧ st.x = x0 ∧ st.lastDx = none ∧ st.out.numIters = 0) ∨
       (st.trace ≠ [] ∧ st.x = xs ∧ T st ∧ ∀ d, st.lastDx = some d → d = ⟨n, 0⟩ ∨ nCost so m (φ (lsCost A b xs)) < st.out.finalCost.cost)))
    (J := fun st => st.x = xs ∧ T st)
    (fun last st _ hI => by
      obtain ⟨hc, hsz, hI⟩ := hI
      have hnm : nCost so m (φ (lsCost A b st.x)) ≠ maxVal := by
        rcases hI with ⟨-, hx, -⟩ | ⟨-, hx, -⟩
        · rw [hx]; exact hx0.ne
        · rw [hx]; exact hxsmax.ne
      obtain ⟨s2, dx, hdel, hn2, hc2, hdx⟩ := gn_delivers_semi h hL hok hl hmin hclip st.w st.s hsz st.x hnm
      obtain ⟨st', succ, mdx, s3, hb, hw⟩ := body_works (o := o) (fuel := fuel) (last := last) hdel hc
      have hs3 : s3 = s2 := by
        have := hw.hook
        split at this
        · rcases this with ⟨q, h⟩ | h
          · injection h with h; exact h.symm
          · injection h with h; exact h.symm
        · exact this
      have hsz' : P.dims = none ∨ st'.s.n = n := by
        right
        rw [hw.solver, hs3]; exact hn2
      obtain ⟨r, htr, hrx, -, -, -⟩ := hw.trace
      have hne' : st'.trace ≠ [] := by rw [htr]; simp
      have hT : st.x = xs ∧ T st ∨ st.trace = [] → T st' := by
        intro h0 i q hq hi
        rw [htr] at hq
        rcases h0 with ⟨hx, hT⟩ | h0
        · by_cases hlt : i < st.trace.length
          · rw [List.getElem?_append_left hlt] at hq; exact hT i q hq hi
          · have : i = st.trace.length := by
              have := (List.getElem?_eq_some_iff.mp hq).1
              simp at this; omega
            subst this
            rw [List.getElem?_append_right (le_refl _)] at hq
            simp only [Nat.sub_self, List.getElem?_cons_zero] at hq
            rw [← Option.some.inj hq, hrx, hx]
        · rw [h0] at hq
          have := (List.getElem?_eq_some_iff.mp hq).1
          simp at this; omega
      have hup := hw.upd
      suffices hmain : st'.x = xs ∧ (∀ d, st'.lastDx = some d → d = ⟨n, 0⟩ ∨ nCost so m (φ (lsCost A b xs)) < st'.out.finalCost.cost) by
        refine ⟨st', hb, fun hn _ => ⟨hw.consec hn, hsz', Or.inr ⟨hne', hmain.1, ?_, hmain.2⟩⟩, hmain.1, ?_⟩
        · rcases hI with ⟨h0, -⟩ | ⟨-, hx, hT', -⟩
          · exact hT (Or.inr h0)
          · exact hT (Or.inl ⟨hx, hT'⟩)
        · rcases hI with ⟨h0, -⟩ | ⟨-, hx, hT', -⟩
          · exact hT (Or.inr h0)
          · exact hT (Or.inl ⟨hx, hT'⟩)
      rcases hI with ⟨h0, hx, hl, hit⟩ | ⟨-, hx, -, hl⟩
      · -- first iteration
        rw [hx] at hdx hc2
        have hdd : dx = d0 := Option.some.inj (hdx.symm.trans hd0)
        have hm' : mdx = some ⟨n, dx⟩ := hw.isMdx.resolve_right (by rintro ⟨-, -, h, -⟩; omega)
        have hfc : st'.out.finalCost.cost = nCost so m (φ (lsCost A b x0)) := by
          rw [hw.finalCost, hit]
          simp only [beq_self_eq_true, Bool.or_true, if_true]
          exact hc2
        have hxx : P.plusEq st.x ⟨n, dx⟩ = xs := by rw [h.plus, hx, hdd, hxs]
        have hlast : (⟨n, dx⟩ : DVec ℝ) = ⟨n, 0⟩ ∨ nCost so m (φ (lsCost A b xs)) < st'.out.finalCost.cost := by
          rw [hfc]
          rcases hle with h1 | h1
          · exact Or.inr h1
          · left; rw [hdd, h1]
        rw [hm', hl] at hup
        generalize st'.x = x1 at hup ⊢
        generalize st'.lastDx = l1 at hup ⊢
        generalize st'.lastSucc = b1 at hup
        generalize hsd : (some (⟨n, dx⟩ : DVec ℝ)) = sd at hup
        cases hup with
        | succ dx' =>
          obtain rfl := Option.some.inj hsd
          exact ⟨hxx, fun d hd => by rw [← Option.some.inj hd]; exact hlast⟩
        | roll d _ h' => cases h'
        | adv dx' h' =>
          obtain rfl := Option.some.inj hsd
          exact ⟨hxx, fun d hd => by rw [← Option.some.inj hd]; exact hlast⟩
        | stay h' => cases hsd
      · -- later iterations
        rw [hx] at hdx hc2
        have hdx0 := zero_step dx hdx
        subst hdx0
        have hp : P.plusEq st.x ⟨n, 0⟩ = xs := by rw [h.plus, hx, add_zero]
        have hmd : ∀ d, mdx = some d → d = ⟨n, 0⟩ := by
          intro d hd
          rcases hw.isMdx with hm | ⟨hm, -⟩
          · rw [hm] at hd; exact (Option.some.inj hd).symm
          · rw [hm] at hd; cases hd
        have hsu := hw.isSucc
        generalize st'.x = x1 at hup ⊢
        generalize st'.lastDx = l1 at hup ⊢
        generalize st'.lastSucc = b1 at hup
        cases hup with
        | succ dx' =>
          have := hmd _ rfl
          subst this
          exact ⟨hp, fun d hd => Or.inl (Option.some.inj hd).symm⟩
        | roll d _ h' =>
          rcases hl d h' with rfl | hlt
          · refine ⟨?_, fun d hd => by cases hd⟩
            show P.plusEq st.x ⟨n, negVec 0⟩ = xs
            rw [plus_neg h.toVecParams, sub_zero, hx]
          · have h5 : lt (sub (s2.cost).cost st.out.finalCost.cost) (ofInt 0) = true := by
              rw [hc2]; simp; linarith
            have h6 : false = lt (sub (s2.cost).cost st.out.finalCost.cost) (ofInt 0) := hsu
            rw [h5] at h6; cases h6
        | adv dx' h' =>
          have := hmd _ rfl
          subst this
          exact ⟨hp, fun d hd => Or.inl (Option.some.inj hd).symm⟩
        | stay h' => exact ⟨hx, fun d hd => by cases hd⟩)
    hk ⟨Nat.zero_le _, hs, Or.inl ⟨rfl, rfl, rfl, rfl⟩⟩
  refine ⟨st, e, by rw [h1]; exact hj.1, ?_⟩
  rw [h2]; exact hj.2

end

/-! ### Levenberg-Marquardt -/

section
variable {R W : Type} {m n : Nat}
variable {so : SolverOpts ℝ} {L : LinAlg ℝ} {P : Problem ℝ R W (Vec ℝ n)} {o : Options ℝ W (DVec ℝ)}
variable {A : Fin m → Fin n → ℝ} {b : Vec ℝ m} {φ : ℝ → ℝ}

/-- `v` is orthogonal to the kernel of `H`, in the inner product of the diagonal of `H` -/
def DOrth (H : Mat ℝ n) (v : Vec ℝ n) : Prop := ∀ u, mv H u = 0 → ∑ i, H i i * (u i * v i) = 0

theorem damped_pd_of_diag {H : Mat ℝ n} (hH : PSD H) (hd : ∀ i, 0 < H i i) {l : ℝ} (hl : 0 < l) : PD (dampedR l H) := by
  refine ⟨damped_sym hH.1, fun v hv => ?_⟩
  have h1 := damped_quad l H v
  have h2 := hH.2 v
  obtain ⟨i, hi⟩ := Function.ne_iff.mp hv
  have h3 : 0 < diagSq H v := by
    unfold diagSq
    refine Finset.sum_pos' (fun j _ => mul_nonneg (hd j).le (sq_nonneg _)) ⟨i, Finset.mem_univ _, mul_pos (hd i) ?_⟩
    exact lt_of_le_of_ne (sq_nonneg _) (Ne.symm (pow_ne_zero 2 hi))
  rw [h1]
  have := mul_pos hl h3
  linarith

/-- on the complement of the kernel the quadratic form dominates the weighted norm -/
theorem semi_kappa {H : Mat ℝ n} (hH : PSD H) (hd : ∀ i, 0 < H i i) : ∃ κ, 0 < κ ∧ ∀ v, DOrth H v → diagSq H v ≤ κ * dotR v (mv H v) := by
  have hcl : IsClosed {v : Vec ℝ n | DOrth H v} := by
    have : {v : Vec ℝ n | DOrth H v} = ⋂ u : {u // mv H u = 0}, {v | ∑ i, H i i * (u.1 i * v i) = 0} := by
      ext v; simp [DOrth]
    rw [this]
    exact isClosed_iInter fun u => isClosed_eq (by fun_prop) continuous_const
  have hc : IsCompact (Metric.sphere (0 : Vec ℝ n) 1 ∩ {v | DOrth H v}) := (isCompact_sphere _ _).inter_right hcl
  have c1 : Continuous fun v : Vec ℝ n => dotR v (mv H v) := by unfold dotR mv; fun_prop
  have c2 : Continuous fun v : Vec ℝ n => diagSq H v := by unfold diagSq; fun_prop
  have hsm : ∀ (c : ℝ) v, DOrth H v → DOrth H (c • v) := by
    intro c v hv u hu
    have := hv u hu
    calc ∑ i, H i i * (u i * (c • v) i) = c * ∑ i, H i i * (u i * v i) := by
          rw [Finset.mul_sum]; exact Finset.sum_congr rfl fun i _ => by simp only [Pi.smul_apply, smul_eq_mul]; ring
      _ = 0 := by rw [this, mul_zero]
  by_cases hne : (Metric.sphere (0 : Vec ℝ n) 1 ∩ {v | DOrth H v}).Nonempty
  · obtain ⟨a, ⟨ha, ha'⟩, hmin⟩ := hc.exists_isMinOn hne c1.continuousOn
    obtain ⟨z, hz, hmax⟩ := hc.exists_isMaxOn hne c2.continuousOn
    have hpos : 0 < dotR a (mv H a) := by
      refine (hH.2 a).lt_of_ne' fun h0 => ?_
      have h1 := ha' a (psd_kernel hH h0)
      have h2 : a = 0 := by
        funext i
        have h3 := (Finset.sum_eq_zero_iff_of_nonneg (fun i _ => mul_nonneg (hd i).le (mul_self_nonneg (a i)))).1 h1 i (Finset.mem_univ _)
        rcases mul_eq_zero.mp h3 with h4 | h4
        · exact absurd h4 (hd i).ne'
        · exact mul_self_eq_zero.mp h4
      rw [h2] at ha; simp at ha
    have hq0 : 0 ≤ diagSq H z := diagSq_nonneg (fun i => (hd i).le) z
    refine ⟨(diagSq H z + 1) / dotR a (mv H a), by positivity, fun v hv' => ?_⟩
    by_cases hv : v = 0
    · subst hv; simp [diagSq, dotR]
    · have hn : 0 < ‖v‖ := norm_pos_iff.mpr hv
      have hu : ‖v‖⁻¹ • v ∈ Metric.sphere (0 : Vec ℝ n) 1 ∩ {v | DOrth H v} := by
        refine ⟨?_, hsm _ _ hv'⟩
        rw [mem_sphere_zero_iff_norm, norm_smul, norm_inv, norm_norm, inv_mul_cancel₀ hn.ne']
      have e1 : dotR v (mv H v) = ‖v‖ ^ 2 * dotR (‖v‖⁻¹ • v) (mv H (‖v‖⁻¹ • v)) := by
        rw [mv_smul, dotR_smul, dotR_comm (‖v‖⁻¹ • v), dotR_smul, dotR_comm (mv H v)]; field_simp
      have e2 : diagSq H v = ‖v‖ ^ 2 * diagSq H (‖v‖⁻¹ • v) := by
        unfold diagSq; rw [Finset.mul_sum]
        refine Finset.sum_congr rfl fun i _ => ?_
        simp only [Pi.smul_apply, smul_eq_mul]; field_simp
      have i1 : dotR a (mv H a) ≤ dotR (‖v‖⁻¹ • v) (mv H (‖v‖⁻¹ • v)) := hmin hu
      have i2 : diagSq H (‖v‖⁻¹ • v) ≤ diagSq H z := hmax hu
      rw [e1, e2, div_mul_eq_mul_div, le_div_iff₀ hpos]
      have hn2 : 0 < ‖v‖ ^ 2 := by positivity
      generalize dotR (‖v‖⁻¹ • v) (mv H (‖v‖⁻¹ • v)) = T at *
      generalize diagSq H (‖v‖⁻¹ • v) = q at *
      have : q * dotR a (mv H a) ≤ (diagSq H z + 1) * T := by nlinarith
      nlinarith
  · refine ⟨1, one_pos, fun v hv' => ?_⟩
    have hv : v = 0 := by
      by_contra hv
      have hn : 0 < ‖v‖ := norm_pos_iff.mpr hv
      exact hne ⟨‖v‖⁻¹ • v, by rw [mem_sphere_zero_iff_norm, norm_smul, norm_inv, norm_norm, inv_mul_cancel₀ hn.ne'], hsm _ _ hv'⟩
    subst hv; simp [diagSq, dotR]

/-- a damped step keeps the error in the complement of the kernel -/
theorem step_orth {H : Mat ℝ n} (hH : PSD H) {l : ℝ} (hl : 0 < l) {e dx : Vec ℝ n} (hdx : mv (dampedR l H) dx = -mv H e) (he : DOrth H e) :
    DOrth H (e + dx) := by
  intro u hu
  have h1 : ∀ i, mv H (e + dx) i + l * (H i i * dx i) = 0 := by
    intro i
    have := congrFun hdx i
    rw [mv_add]
    simp only [Pi.neg_apply, mv, dampedR, add_mul, Finset.sum_add_distrib, ite_mul, zero_mul] at this
    simp at this
    simp only [Pi.add_apply, mv]
    linarith
  have h2 : dotR u (mv H (e + dx)) = 0 := by
    have hs : dotR u (mv H (e + dx)) = dotR (e + dx) (mv H u) := by
      simp only [dotR, mv, Finset.mul_sum]
      rw [Finset.sum_comm]
      refine Finset.sum_congr rfl fun i _ => Finset.sum_congr rfl fun j _ => ?_
      rw [hH.1 j i]; ring
    rw [hs, hu]; simp [dotR]
  have h3 : dotR u (mv H (e + dx)) + l * ∑ i, H i i * (u i * dx i) = 0 := by
    unfold dotR
    rw [Finset.mul_sum, ← Finset.sum_add_distrib]
    refine Finset.sum_eq_zero fun i _ => ?_
    have := h1 i
    calc u i * mv H (e + dx) i + l * (H i i * (u i * dx i)) = u i * (mv H (e + dx) i + l * (H i i * dx i)) := by ring
      _ = 0 := by rw [this, mul_zero]
  rw [h2, zero_add] at h3
  have h4 := (mul_eq_zero.mp h3).resolve_left hl.ne'
  have h5 := he u hu
  calc ∑ i, H i i * (u i * (e + dx) i) = ∑ i, H i i * (u i * e i) + ∑ i, H i i * (u i * dx i) := by
        rw [← Finset.sum_add_distrib]; exact Finset.sum_congr rfl fun i _ => by simp only [Pi.add_apply]; ring
    _ = 0 := by rw [h4, h5, add_zero]

/-- `step_contracts` needs the inequality at the new error only -/
theorem step_contracts_at {H : Mat ℝ n} (hH : PSD H) {l κ : ℝ} (hl : 0 ≤ l) (hκ0 : 0 < κ) {e dx : Vec ℝ n}
    (hκ : diagSq H (e + dx) ≤ κ * dotR (e + dx) (mv H (e + dx)))
    (hdx : mv (dampedR l H) dx = -mv H e) : (1 + l * κ) ^ 2 * diagSq H (e + dx) ≤ (l * κ) ^ 2 * diagSq H e := by
  have hd := fun i => psd_diag hH i
  have h1 : mv (dampedR l H) (e + dx) = fun i => l * (H i i * e i) := by
    rw [mv_add, hdx]
    funext i
    simp only [Pi.add_apply, Pi.neg_apply, mv, dampedR, add_mul, Finset.sum_add_distrib, ite_mul, zero_mul]
    simp; ring
  have h2 := damped_quad l H (e + dx)
  rw [h1] at h2
  have h3 : dotR (e + dx) (fun i => l * (H i i * e i)) = l * ∑ i, H i i * ((e + dx) i * e i) := by
    unfold dotR; rw [Finset.mul_sum]; exact Finset.sum_congr rfl fun i _ => by ring
  rw [h3] at h2
  have h4 := diag_cauchy hd (e + dx) e
  have h6 := diagSq_nonneg hd (e + dx)
  have h7 := diagSq_nonneg hd e
  generalize (∑ i, H i i * ((e + dx) i * e i)) = B at h2 h4
  generalize dotR (e + dx) (mv H (e + dx)) = T at h2 hκ
  generalize diagSq H (e + dx) = q at h2 h4 hκ h6 ⊢
  generalize diagSq H e = p at h4 h7 ⊢
  have h8 : (1 + l * κ) * q ≤ l * κ * B := by nlinarith
  have h9 : ((1 + l * κ) * q) ^ 2 ≤ (l * κ * B) ^ 2 := pow_le_pow_left₀ (by positivity) h8 2
  rcases h6.lt_or_eq with hq | hq
  · have h10 : (1 + l * κ) ^ 2 * q * q ≤ (l * κ) ^ 2 * p * q := by
      have : (l * κ) ^ 2 * B ^ 2 ≤ (l * κ) ^ 2 * (q * p) := mul_le_mul_of_nonneg_left h4 (by positivity)
      nlinarith
    exact le_of_mul_le_mul_right h10 hq
  · rw [← hq, mul_zero]; positivity

/-- the minimiser nearest to `x`, in the norm weighted with the diagonal of the Hessian -/
theorem nearest_min (hd : ∀ i, 0 < gram A i i) (x : Vec ℝ n) :
    ∃ z, lsGrad A b z = 0 ∧ DOrth (gram A) (x - z) ∧ ∀ z', lsGrad A b z' = 0 → diagSq (gram A) (x - z) ≤ diagSq (gram A) (x - z') := by
  obtain ⟨y, hy⟩ := normal_consistent A (mv A x - b)
  have hg0 : lsGrad A b (x + -y) = 0 := by
    rw [lsGrad_add]
    have := mv_smul (gram A) (-1) y
    rw [neg_one_smul, neg_one_smul, hy] at this
    rw [this]; exact add_neg_cancel _
  let q : Fin n → ℝ := fun i => √(gram A i i)
  have hq : ∀ i, q i ≠ 0 := fun i => (Real.sqrt_pos.2 (hd i)).ne'
  have hqq : ∀ i, q i * q i = gram A i i := fun i => Real.mul_self_sqrt (hd i).le
  obtain ⟨s, ⟨u, hu, hs⟩, horth⟩ := split_orth (fun s : Vec ℝ n => ∃ u, mv (gram A) u = 0 ∧ s = fun i => q i * u i) ⟨0, mv_zero _, by funext i; simp⟩
    (fun s t ⟨u, hu, hs⟩ ⟨v, hv, ht⟩ => ⟨u + v, by rw [mv_add, hu, hv, add_zero], by funext i; simp [hs, ht, mul_add]⟩)
    (fun c s ⟨u, hu, hs⟩ => ⟨c • u, by rw [mv_smul, hu, smul_zero], by funext i; simp [hs]; ring⟩) (fun i => q i * y i)
  rw [← sub_eq_add_neg] at hg0
  have hz : lsGrad A b (x - y + u) = 0 := by rw [lsGrad_add, hg0, hu, add_zero]
  have ho : DOrth (gram A) (x - (x - y + u)) := by
    intro v hv
    have := horth (fun i => q i * v i) ⟨v, hv, rfl⟩
    rw [← this]
    unfold dotR
    refine Finset.sum_congr rfl fun i _ => ?_
    rw [← hqq i, hs]
    simp only [Pi.sub_apply, Pi.add_apply]; ring
  refine ⟨x - y + u, hz, ho, fun z' hz' => ?_⟩
  have hk : mv (gram A) (x - y + u - z') = 0 := by
    have := lsGrad_add (A := A) (b := b) z' (x - y + u - z')
    rw [add_sub_cancel, hz, hz', zero_add] at this
    exact this.symm
  have h1 := ho _ hk
  have e : diagSq (gram A) (x - z') = diagSq (gram A) (x - (x - y + u)) + 2 * ∑ i, gram A i i * ((x - y + u - z') i * (x - (x - y + u)) i) + diagSq (gram A) (x - y + u - z') := by
    unfold diagSq
    rw [Finset.mul_sum, ← Finset.sum_add_distrib, ← Finset.sum_add_distrib]
    refine Finset.sum_congr rfl fun i _ => ?_
    simp only [Pi.sub_apply, Pi.add_apply]; ring
  have h2 := diagSq_nonneg (fun i => (hd i).le) (x - y + u - z')
  rw [e, h1]; linarith

/-- **C103**, Levenberg-Marquardt: on every linear least squares problem without zero columns, of any rank, there are constants `C` and `ρ < 1` such that every run of a new solver with
positive dampings approaches the minimiser nearest to its start, in the norm weighted with the diagonal of the Hessian, by the factor `ρ` per iteration, and the cost
approaches the minimum. -/
theorem C103_lm (h : LinLS P A b φ) (hL : ExactLinAlg L) (hcol : ∀ j, ∃ i, A i j ≠ 0)
    (hone : so.useLdlt = true ∨ P.dims ≠ some 1) (hr0 : so.dampLo ≤ so.dampHi) (hlo : 0 < so.dampLo) (hin : so.dampLo ≤ so.dampInit)
    (hmin : DiagOk so (gram A)) (hclip : so.gradClip = 0) (hg0 : 0 ≤ so.goodFactor) (hg1 : so.goodFactor ≤ 1) :
    ∃ C ρ : ℝ, 0 ≤ ρ ∧ ρ < 1 ∧ ∀ (o : Options ℝ W (DVec ℝ)) (g : Vec ℝ (P.dims.getD 0)) (H : Mat ℝ (P.dims.getD 0)) (fuel : Nat) (mi k : Int) (w : W) (x0 : Vec ℝ n),
      o.useStepQuality = false → loopBound o mi = some k → k ≤ 65536 → nCost so m (φ (lsCost A b x0)) < maxVal →
      ∃ st z, optimizeAcc (lmEnv so L P) o (fuel + 1) mi w (lmFresh so P g H) x0 = .ok st ∧ (∀ y, lsCost A b z ≤ lsCost A b y) ∧
        (∀ z', (∀ y, lsCost A b z' ≤ lsCost A b y) → diagSq (gram A) (x0 - z) ≤ diagSq (gram A) (x0 - z')) ∧
        diagSq (gram A) (st.x - z) ≤ ρ ^ st.trace.length * diagSq (gram A) (x0 - z) ∧
        lsCost A b st.x - lsCost A b z ≤ C * ρ ^ st.trace.length * (lsCost A b x0 - lsCost A b z) := by
  have hd : ∀ i, 0 < gram A i i := by
    intro j
    obtain ⟨i, hi⟩ := hcol j
    unfold gram
    exact Finset.sum_pos' (fun k _ => mul_self_nonneg _) ⟨i, Finset.mem_univ _, mul_self_pos.mpr hi⟩
  have hpsd := gram_psd A
  obtain ⟨κ, hκ0, hκ⟩ := semi_kappa hpsd hd
  have hin0 : 0 < so.dampInit := hlo.trans_le hin
  have hden : 0 < 1 + so.dampInit * κ := by positivity
  set l0 := so.dampInit with hl0
  have hρ : (l0 * κ / (1 + l0 * κ)) ^ 2 < 1 := by
    have : l0 * κ / (1 + l0 * κ) < 1 := by rw [div_lt_one hden]; linarith
    exact pow_lt_one₀ (by positivity) this (by norm_num)
  refine ⟨n * κ, (l0 * κ / (1 + l0 * κ)) ^ 2, by positivity, hρ, ?_⟩
  intro o g H fuel mi k w x0 hq hk hk2 hx0
  have hsz : P.dims = none ∨ (lmFresh so P g H).gn.n = n := by
    rcases h.size with hd | hd
    · right; show P.dims.getD 0 = n; rw [hd]; rfl
    · exact Or.inl hd.1
  obtain ⟨z, hz, hoz, hnear⟩ := nearest_min (A := A) (b := b) hd x0
  have hpdl : ∀ l, Allowed so l → PD (dampedR l (gram A)) := by
    rintro l (rfl | hl)
    · exact damped_pd_of_diag hpsd hd hin0
    · exact damped_pd_of_diag hpsd hd (hlo.trans_le hl)
  obtain ⟨st, e, hT, -⟩ := lm_ls_run (o := o) (K := fun l β => 0 < l ∧ l ≤ l0 ∧ β = so.badFactor) h hL hpdl hone hr0 hlo.le hin0.le hmin hclip
    (by
      rintro s2 s3 q hq0 ⟨h0, h1, h2⟩ hg
      obtain rfl := hq0 hq
      have hsc : goodScale so 0 s2.badF = so.goodFactor := by
        unfold goodScale; rw [h2]; simp [ne]
      unfold lmGood at hg
      rw [stdClamp_real hr0, hsc] at hg
      injection hg with hg
      subst hg
      refine ⟨hlo.trans_le (le_max_left _ _), max_le hin ((min_le_left _ _).trans ?_), rfl⟩
      show s2.lambda * so.goodFactor ≤ l0
      nlinarith)
    (lmFresh so P g H) hsz rfl (Or.inl rfl) ⟨hin0, le_refl _, rfl⟩ fuel mi k hk hk2 w x0 hx0
  have hgap : ∀ x, lsCost A b x - lsCost A b z = dotR (x - z) (mv (gram A) (x - z)) := by
    intro x
    have := lsCost_add (A := A) (b := b) z (x - z)
    rw [add_sub_cancel, hz] at this
    have h2 : dotR (0 : Vec ℝ n) (x - z) = 0 := by simp [dotR]
    rw [h2] at this
    linarith
  have hstep : ∀ r ∈ st.trace, DOrth (gram A) (r.x - z) → DOrth (gram A) (r.xNext - z) ∧
      diagSq (gram A) (r.xNext - z) ≤ (l0 * κ / (1 + l0 * κ)) ^ 2 * diagSq (gram A) (r.x - z) := by
    intro r hr ho
    have hgx : lsGrad A b r.x = mv (gram A) (r.x - z) := by
      have := lsGrad_add (A := A) (b := b) z (r.x - z)
      rw [add_sub_cancel, hz, zero_add] at this
      exact this
    by_cases hg : lsGrad A b r.x = 0
    · rw [(hT r hr).1.2 hg]
      refine ⟨ho, ?_⟩
      have h0 := hκ (r.x - z) ho
      rw [← hgx, hg] at h0
      have h1 := diagSq_nonneg (fun i => psd_diag hpsd i) (r.x - z)
      have h2 : dotR (r.x - z) 0 = 0 := by simp [dotR]
      rw [h2, mul_zero] at h0
      rw [le_antisymm h0 h1, mul_zero]
    · obtain ⟨-, l, β, ⟨hl, hll, -⟩, -, hsol⟩ := (hT r hr).2 hg
      rw [hgx] at hsol
      have ho' := step_orth hpsd hl hsol ho
      have hc := step_contracts_at hpsd hl.le hκ0 (hκ _ ho') hsol
      rw [show r.x - z + (r.xNext - r.x) = r.xNext - z by abel] at hc ho'
      refine ⟨ho', ?_⟩
      have h1 := diagSq_nonneg (fun i => psd_diag hpsd i) (r.x - z)
      have hden' : 0 < 1 + l * κ := by positivity
      have hmono : l * κ / (1 + l * κ) ≤ l0 * κ / (1 + l0 * κ) := by
        rw [div_le_div_iff₀ hden' hden]; nlinarith
      calc diagSq (gram A) (r.xNext - z) ≤ (l * κ / (1 + l * κ)) ^ 2 * diagSq (gram A) (r.x - z) := by
            rw [div_pow, div_mul_eq_mul_div, le_div_iff₀ (by positivity)]; linarith
        _ ≤ _ := mul_le_mul_of_nonneg_right (pow_le_pow_left₀ (by positivity) hmono 2) h1
  have hrun : diagSq (gram A) (st.x - z) ≤ ((l0 * κ / (1 + l0 * κ)) ^ 2) ^ st.trace.length * diagSq (gram A) (x0 - z) := by
    have hp := run_path e
    clear hT e hnear hx0
    generalize st.x = y at hp ⊢
    generalize st.trace = tr at hp hstep ⊢
    generalize x0 = x at hp hoz ⊢
    induction tr generalizing x with
    | nil => simp only [Path] at hp; subst hp; simp
    | cons r tr ih =>
      obtain ⟨h1, h2⟩ := hp
      obtain ⟨h5, h4⟩ := hstep r List.mem_cons_self (by rw [h1]; exact hoz)
      have h3 := ih (fun r hr => hstep r (List.mem_cons_of_mem _ hr)) r.xNext h2 h5
      rw [h1] at h4
      rw [List.length_cons, pow_succ, mul_assoc]
      exact h3.trans (mul_le_mul_of_nonneg_left h4 (by positivity))
  refine ⟨st, z, e, min_of_grad hz, fun z' hz' => hnear z' (grad_of_min hz'), hrun, ?_⟩
  rw [hgap, hgap]
  have h1 := gram_le_diag A (st.x - z)
  have h2 := hκ (x0 - z) hoz
  calc dotR (st.x - z) (mv (gram A) (st.x - z)) ≤ n * diagSq (gram A) (st.x - z) := h1
    _ ≤ n * (((l0 * κ / (1 + l0 * κ)) ^ 2) ^ st.trace.length * (κ * dotR (x0 - z) (mv (gram A) (x0 - z)))) :=
        mul_le_mul_of_nonneg_left (hrun.trans (mul_le_mul_of_nonneg_left h2 (by positivity))) (by positivity)
    _ = _ := by ring

end

/-! ### A Hessian that is refused -/

section
variable {F R W S X V M : Type} [FloatOps F] {E : Env F R W S X V M} {o : Options F W V} {Px : X → Prop} {I Z : S → Prop} {B N A : X → S → Prop} {C : X → F} {D : X → Option V}

/-- a solver without step at the start: the run ends there, after one iteration -/
theorem run_no_step (h : RunInv E Px I Z B N A) (hB : ∀ x s, B x s → (E.sol.cost s).cost = C x ∧ E.sol.solve s = D x)
    {fuel : Nat} {mi : Int} {w : W} {s : S} {x : X} {st : LoopSt F R W S X V M} (hx : Px x) (hI : I s) (hd : D x = none)
    (hr : optimizeAcc E o fuel mi w s x = .ok st) : st.x = x ∧ st.trace.length = 1 ∧ ∀ r ∈ st.trace, r.succ = false := by
  obtain ⟨m, st0, hm, hj, -, hlen, hst⟩ := run_inv
    (I := fun st => st.trace = [] ∧ st.lastDx = none ∧ st.x = x ∧ I st.s)
    (J := fun st => st.x = x ∧ st.trace.length ≤ 1 ∧ ∀ r ∈ st.trace, r.succ = false)
    (fun last st st' hno h1 hb => by
      obtain ⟨h0, hl, hx1, hIs⟩ := h1
      obtain ⟨succ, mdx, w1, s1, out1, ms, hstep, hs⟩ := body_spec' hb
      have hmem := step_memoryless h.toStepInv hB (by rw [hx1]; exact hx) hIs hstep
      rcases hmem with ⟨rfl, rfl, h2, -⟩ | ⟨d, h2, -⟩
      · refine ⟨fun hn => absurd (timeStop_none (by rw [hs.out] at hn; exact hn)) h2, ?_, by rw [hs.trace, h0]; simp, ?_⟩
        · have hup := hs.upd
          rw [hl] at hup
          generalize st'.x = x1 at hup ⊢
          generalize st'.lastDx = l1 at hup
          generalize st'.lastSucc = b1 at hup
          cases hup with
          | roll d _ h' => cases h'
          | stay _ => exact hx1
        · rw [hs.trace, h0]; simp
      · rw [hx1, hd] at h2; cases h2)
    ⟨rfl, rfl, rfl, hI⟩ ⟨rfl, Nat.zero_le 1, fun r hr => by cases hr⟩ hr
  rw [hst]
  exact ⟨hj.1, le_antisymm hj.2.1 hlen.2.2, hj.2.2⟩

end

/-- two parameters with the same effect, `2 (x + y)`, and a third one -/
def twinA : Fin 2 → Fin 3 → ℝ := ![![2, 2, 0], ![0, 0, 1]]

theorem gram_twin : gram twinA = twin3 := by
  funext i j
  fin_cases i <;> fin_cases j <;> simp [gram, twinA, twin3, Fin.sum_univ_succ] <;> norm_num

/-- **C103 is violated** by Gauss-Newton: on the problem `2 (x + y) = b 0`, `z = b 1` the decomposition refuses the Hessian, and no run moves from its start, not even `z` is found. -/
theorem C103_gn_refused {tol : ℝ} {inv : (n : Nat) → Mat ℝ n → Mat ℝ n} {so : SolverOpts ℝ} {o : Options ℝ Unit (DVec ℝ)} (hl : so.useLdlt = true) (b : Vec ℝ 2)
    {fuel : Nat} {mi : Int} {s : GNState ℝ ℝ} {x : Vec ℝ 3} {st : LoopSt ℝ ℝ Unit (GNState ℝ ℝ) (Vec ℝ 3) (DVec ℝ) (DMat ℝ)}
    (hr : optimizeAcc (gnEnv so (eigenLinAlg tol inv) (lsProb twinA b)) o fuel mi () s x = .ok st) :
    st.x = x ∧ st.trace.length = 1 ∧ ∀ r ∈ st.trace, r.succ = false := by
  have hdet : Deterministic (lsProb twinA b) 3 := fun w w' x => rfl
  refine run_no_step (gn_memoryless (so := so) (L := eigenLinAlg tol inv) hdet (fun x v => rfl) ()) (C := fun x => (buildSystem so (lsProb twinA b) () (sizedState (lsProb twinA b) 3) x).2.1.cost.cost)
    (D := fun x => gnSolve so (eigenLinAlg tol inv) ((lsProb twinA b).dims == some 1) (buildSystem so (lsProb twinA b) () (sizedState (lsProb twinA b) 3) x).2.1)
    (fun x s h => by rw [h.1]; exact ⟨rfl, rfl⟩) rfl (fun d h => by cases h) ?_ hr
  have hH : ∃ g c, (buildSystem so (lsProb twinA b) () (sizedState (lsProb twinA b) 3) x).2.1 = ⟨3, g, twin3, c⟩ := by
    have ha : ∃ g c, (gnAccumulate so (lsProb twinA b) () (sizedState (lsProb twinA b) 3) x).1 = ⟨3, g, twin3, c⟩ := by
      have e : (gnAccumulate so (lsProb twinA b) () (sizedState (lsProb twinA b) 3) x).1.H = twin3 := by
        rw [← gram_twin]
        funext i j
        have hi : i.1 < 3 := i.2
        have hj : j.1 < 3 := j.2
        simp [gnAccumulate, lsProb, sizedState, hi, hj]
      exact ⟨_, _, by rw [← e]; rfl⟩
    obtain ⟨g, c, ha⟩ := ha
    unfold buildSystem
    rw [← Prod.mk.eta (p := gnAccumulate so (lsProb twinA b) () (sizedState (lsProb twinA b) 3) x), ha]
    simp only [hl]
    split
    · split
      · exact ⟨_, _, rfl⟩
      · exact ⟨clampVec so.gradClip g, c, by simp⟩
    · exact ⟨_, _, rfl⟩
  obtain ⟨g, c, hH⟩ := hH
  simp only [hH]
  unfold gnSolve
  rw [if_pos hl]
  split
  · have hs : symUpper twin3 = twin3 := by funext i j; fin_cases i <;> fin_cases j <;> rfl
    unfold solveLDLT
    rw [hs]
    show Option.map _ (eigenLdlt tol 3 twin3 _) = none
    rw [(C104_refuses _).2]; rfl
  · rfl

/-- runs on it end: the third parameter is not found, though its residual is 5 at the start -/
example : ∃ st, optimizeAcc (gnEnv soptsR (eigenLinAlg 0 someLinAlg.inv) (lsProb twinA ![0, 5])) { optsR 10 with maxConsecFailures := 3 } 3 (-1) () (gnFresh (lsProb twinA ![0, 5]) 0 0) 0 = .ok st ∧
    st.x = 0 ∧ lsCost twinA ![0, 5] st.x = 25 ∧ lsCost twinA ![0, 5] ![0, 0, 5] = 0 := by
  obtain ⟨st, h, -⟩ := C01_bounded_work (E := gnEnv soptsR (eigenLinAlg 0 someLinAlg.inv) (lsProb twinA ![0, 5])) (o := { optsR 10 with maxConsecFailures := 3 }) (cnt := fun _ => 0)
    ⟨fun s q => ⟨_, rfl⟩, fun s => ⟨_, rfl⟩, fun s => ⟨_, rfl⟩⟩
    ⟨fun _ _ _ => Nat.zero_le _, fun _ _ _ => rfl, fun _ => rfl, fun _ h => (nomatch h), fun _ h => (nomatch h)⟩
    (by decide) (by decide) (mi := -1) (by decide) (fuel := 3) (by decide) () (gnFresh (lsProb twinA ![0, 5]) 0 0) 0
  have h1 := (C103_gn_refused rfl ![0, 5] h).1
  refine ⟨st, h, h1, ?_, ?_⟩
  · rw [h1]; simp [lsCost, dotR, mv, twinA, Fin.sum_univ_succ]; norm_num
  · simp [lsCost, dotR, mv, twinA, Fin.sum_univ_succ]

/-! ### Non-vacuity -/

/-- a residual of the sum of two parameters: rank 1 -/
def sum2 : Fin 1 → Fin 2 → ℝ := fun _ _ => 1

/-- hypotheses of `C103_gn_partial` and `C103_lm`: one residual `x + y - 2`, default options -/
example : LinLS (lsProb sum2 fun _ => 2) sum2 (fun _ => 2) ∧ SemiLDLT (eigenLinAlg 0 someLinAlg.inv) ∧ ExactLinAlg (eigenLinAlg 0 someLinAlg.inv) ∧ ((eigenLinAlg 0 someLinAlg.inv).ldlt 2 (gram sum2) 0).isSome ∧ soptsR.useLdlt = true ∧ DiagOk soptsR (gram sum2) ∧
    soptsR.gradClip = 0 ∧ (∀ j, ∃ i, sum2 i j ≠ 0) ∧ soptsR.dampLo ≤ soptsR.dampHi ∧ 0 < soptsR.dampLo ∧ soptsR.dampLo ≤ soptsR.dampInit ∧
    0 ≤ soptsR.goodFactor ∧ soptsR.goodFactor ≤ 1 ∧ ¬ PD (gram sum2) ∧ nCost soptsR 1 (lsCost sum2 (fun _ => 2) 0) < maxVal := by
  refine ⟨lsProb_ls _ _ (by decide) (by decide), eigenLinAlg_semi, eigenLinAlg_exact someLinAlg_exact.inv, ?_, rfl, Or.inl (le_refl _), rfl, fun j => ⟨0, by simp [sum2]⟩,
    by norm_num [soptsR], by norm_num [soptsR], by norm_num [soptsR], by norm_num [soptsR], by norm_num [soptsR], fun h => ?_, ?_⟩
  · obtain ⟨x, hx, -⟩ := C104_wrong_answer (tol := 0) 0 (le_refl _) one_pos
    have e : gram sum2 = fun _ _ => 1 := by funext i j; simp [gram, sum2]
    have := (C104_consistent (fun _ _ => rfl) hx).1 0
    rw [e]; exact this
  · have := h.2 ![1, -1] (by intro h; have := congrFun h 0; simp at this)
    simp [dotR, mv, gram, sum2, Fin.sum_univ_succ] at this
  · have : lsCost sum2 (fun _ => 2) 0 = 4 := by simp [lsCost, dotR, mv, sum2]; norm_num
    rw [this]
    show nCost soptsR 1 4 < 2 ^ 1024
    simp [nCost, normalizeCost, soptsR]
    exact lt_of_lt_of_le (by norm_num : (4 : ℝ) < 2 ^ 3) (pow_le_pow_right₀ (by norm_num) (by norm_num))

end Verif
