import Verif.Lemmas.Works
import Verif.Props.Descent
/-!
# C28, C52: linear least squares
-/

set_option linter.unusedSectionVars false

namespace Verif
open FloatOps

section
variable {R W : Type} {m n : Nat}
variable {so : SolverOpts ℝ} {L : LinAlg ℝ} {P : Problem ℝ R W (Vec ℝ n)} {o : Options ℝ W (DVec ℝ)}
variable {A : Fin m → Fin n → ℝ} {b : Vec ℝ m} {φ : ℝ → ℝ}

/-- sum of the squared residuals `A x - b` -/
def lsCost (A : Fin m → Fin n → ℝ) (b : Vec ℝ m) (x : Vec ℝ n) : ℝ := dotR (mv A x - b) (mv A x - b)

/-- its gradient (without the factor 2), `A^T (A x - b)` -/
def lsGrad (A : Fin m → Fin n → ℝ) (b : Vec ℝ m) (x : Vec ℝ n) : Vec ℝ n := tmv A (mv A x - b)

/-- The parameters form a vector of size `n` (static or dynamic) and memory suffices. -/
structure VecParams (P : Problem ℝ R W (Vec ℝ n)) : Prop where
  dyn : ∀ x, P.dynDims x = n
  size : P.dims = some n ∨ (P.dims = none ∧ 0 < n ∧ ∀ w k, ∃ a w', P.alloc w k = (some a, w'))
  plus : ∀ x v, P.plusEq x ⟨n, v⟩ = x + v

/-- The problem handed to the optimizer is the linear least squares problem with residuals `A x - b`: the
user's function accumulates gradient `A^T r`, Hessian `A^T A`, cost `φ (r^T r)` of `m > 0` residuals, where `φ` is strictly increasing
(the sum of squares itself, half of it, or the norm of the residuals). -/
structure LinLS (P : Problem ℝ R W (Vec ℝ n)) (A : Fin m → Fin n → ℝ) (b : Vec ℝ m) (φ : ℝ → ℝ := id) : Prop extends VecParams P where
  pos : 0 < m
  nonneg : ∀ c, 0 ≤ c → 0 ≤ φ c
  mono : ∀ c c', 0 ≤ c → c < c' → φ c < φ c'
  full : ∀ w x, ∃ c w', P.acc.full w x n (fun _ => 0) (fun _ _ => 0) = ((c, lsGrad A b x, gram A), w') ∧
    c.cost = φ (lsCost A b x) ∧ c.num = m
  eval : ∀ w x, (P.acc.eval w x).1.cost = φ (lsCost A b x) ∧ (P.acc.eval w x).1.num = m

/-- the cost after `NormalizeCost` -/
noncomputable def nCost (so : SolverOpts ℝ) (m : Nat) (c : ℝ) : ℝ :=
  (normalizeCost so ({ cost := c, num := m, inlier := () } : Cost ℝ Unit)).cost

theorem nCost_lt {c c' : ℝ} (h : 0 ≤ c) (h' : 0 ≤ c') : nCost so m c < nCost so m c' ↔ c < c' := by
  have := C29_scaling_monotone_partial so ({ cost := c, num := m, inlier := () } : Cost ℝ Unit) { cost := c', num := m, inlier := () } h h' rfl
  rw [Bool.eq_iff_iff, RealOps.lt_eq, RealOps.lt_eq] at this
  exact this

theorem normalizeCost_eq (c : Cost ℝ R) (h : c.num = m) : (normalizeCost so c).cost = nCost so m c.cost := by
  unfold nCost normalizeCost
  simp only [h]

theorem normalizeCost_num (c : Cost ℝ R) : (normalizeCost so c).num = c.num := rfl

theorem lsCost_nonneg (x : Vec ℝ n) : 0 ≤ lsCost A b x := dotR_self_nonneg _

theorem LinLS.nCost_lt (h : LinLS P A b φ) {x y : Vec ℝ n} :
    nCost so m (φ (lsCost A b x)) < nCost so m (φ (lsCost A b y)) ↔ lsCost A b x < lsCost A b y := by
  rw [Verif.nCost_lt (h.nonneg _ (lsCost_nonneg _)) (h.nonneg _ (lsCost_nonneg _))]
  constructor
  · intro hlt
    by_contra hle
    rcases (not_lt.mp hle).eq_or_lt with e | e
    · rw [e] at hlt; exact lt_irrefl _ hlt
    · exact lt_irrefl _ (hlt.trans (h.mono _ _ (lsCost_nonneg _) e))
  · exact h.mono _ _ (lsCost_nonneg _)

/-- expansion of the cost -/
theorem lsCost_add (x d : Vec ℝ n) :
    lsCost A b (x + d) = lsCost A b x + 2 * dotR (lsGrad A b x) d + dotR d (mv (gram A) d) := by
  have h1 : mv A (x + d) - b = (mv A x - b) + mv A d := by rw [mv_add]; abel
  have h2 : dotR (lsGrad A b x) d = dotR (mv A d) (mv A x - b) := by rw [dotR_comm, lsGrad, dotR_tmv]
  have h3 : dotR d (mv (gram A) d) = dotR (mv A d) (mv A d) := by rw [mv_gram, dotR_tmv]
  rw [h2, h3]
  unfold lsCost
  rw [h1, add_dotR, dotR_add, dotR_add, dotR_comm (mv A x - b) (mv A d)]
  ring

theorem lsGrad_add (x d : Vec ℝ n) : lsGrad A b (x + d) = lsGrad A b x + mv (gram A) d := by
  rw [mv_gram]
  have h1 : mv A (x + d) - b = (mv A x - b) + mv A d := by rw [mv_add]; abel
  unfold lsGrad
  rw [h1]
  funext j
  simp [tmv, mul_add, Finset.sum_add_distrib]

/-- **C52**, one step: a step solving the damped system of the current point strictly decreases the sum of
squared residuals, unless the gradient is zero. -/
theorem C52_step_decreases {l : ℝ} (hl : 0 ≤ l) (hpd : PD (dampedR l (gram A))) (x dx : Vec ℝ n)
    (hdx : mv (dampedR l (gram A)) dx = -lsGrad A b x) :
    (lsGrad A b x ≠ 0 → lsCost A b (x + dx) < lsCost A b x) ∧ (lsGrad A b x = 0 → dx = 0) := by
  constructor
  · intro hg
    have hne : dx ≠ 0 := by
      rintro rfl
      rw [mv_zero] at hdx
      exact hg (neg_eq_zero.mp hdx.symm)
    have h1 := hpd.2 dx hne
    have h2 := damped_quad l (gram A) dx
    rw [hdx, dotR_neg, dotR_comm] at h2
    rw [hdx, dotR_neg, dotR_comm] at h1
    have h3 := mul_nonneg hl (diagSq_nonneg (fun i => psd_diag (gram_psd A) i) dx)
    rw [lsCost_add]
    linarith
  · intro hg
    rw [hg, neg_zero, ← mv_zero (dampedR l (gram A))] at hdx
    exact pd_inj hpd hdx

/-- with full column rank the gradient vanishes only at the unique minimiser -/
theorem min_of_grad_zero (hpd : PD (gram A)) {x : Vec ℝ n} (hg : lsGrad A b x = 0) :
    ∀ y, y ≠ x → lsCost A b x < lsCost A b y := by
  intro y hy
  have h := lsCost_add (A := A) (b := b) x (y - x)
  rw [add_sub_cancel, hg] at h
  have h1 := hpd.2 (y - x) (sub_ne_zero.mpr hy)
  have h2 : dotR (0 : Vec ℝ n) (y - x) = 0 := by simp [dotR]
  rw [h2] at h
  linarith

/-! ### the solvers on such a problem -/

theorem resize_works (h : VecParams P) (w : W) (s : GNState ℝ R) (hs : P.dims = none ∨ s.n = n) :
    ∃ s' w', gnResize P w s n = (.done s', w') ∧ s'.n = n ∧ (s.n = n → s' = s) := by
  unfold gnResize
  rcases h.size with hd | ⟨hd, h0, ha⟩
  · have hn : s.n = n := hs.resolve_left (by rw [hd]; simp)
    rw [hd]
    exact ⟨s, w, by simp, hn, fun _ => rfl⟩
  · rw [hd]
    simp only
    rw [if_neg (by omega)]
    by_cases he : (s.n : Int) = n
    · rw [if_pos he]
      exact ⟨s, w, rfl, by exact_mod_cast he, fun _ => rfl⟩
    · rw [if_neg he]
      obtain ⟨⟨g, H⟩, w', e⟩ := ha w (n : Int).toNat
      rw [e]
      exact ⟨_, _, rfl, by simp, fun h => absurd (by exact_mod_cast h) he⟩

theorem resizeIfNeeded_works {S : Type} {sol : SolverI ℝ R W S (Vec ℝ n) (DVec ℝ) (DMat ℝ)} {fo : Bool} (h : VecParams P) {w : W} {s s' : S} {w' x}
    (hr : sol.resize w s n = (.done s', w')) : resizeIfNeeded (envOf P sol fo) w s x = (.inr s', w') := by
  unfold resizeIfNeeded
  have hd : (envOf P sol fo).dynDims x = n := h.dyn x
  simp only [hd]
  rw [if_neg, if_neg (by omega)]
  · have hr' : (envOf P sol fo).sol.resize w s n = (.done s', w') := hr
    rw [hr']
  · rcases h.size with hs | ⟨hs, h0, -⟩
    · simp [envOf, hs]
    · simp; intro _; omega

theorem ls_build (h : LinLS P A b φ) (hmin : DiagOk so (gram A)) (hclip : so.gradClip = 0) (w : W) (s : GNState ℝ R) (hs : s.n = n)
    (x : Vec ℝ n) (hx : nCost so m (φ (lsCost A b x)) ≠ maxVal) :
    ∃ c w', buildSystem so P w s x = (true, ⟨n, lsGrad A b x, gram A, c⟩, w') ∧ c.cost = nCost so m (φ (lsCost A b x)) ∧ c.isValid = true := by
  obtain ⟨sn, sg, sH, sc⟩ := s
  simp only at hs
  subst hs
  obtain ⟨c, w', hu, hc, hn⟩ := h.full w x
  have hcost : (normalizeCost so c).cost = nCost so m (φ (lsCost A b x)) := by rw [normalizeCost_eq c hn, hc]
  have hv : (normalizeCost so c).isValid = true := by
    have h1 : eq (normalizeCost so c).cost maxVal = false := by rw [RealOps.eq_eq_false, hcost]; exact hx
    have h2 := h.pos
    unfold Cost.isValid ne
    rw [h1, normalizeCost_num, hn]
    simpa using h2
  refine ⟨normalizeCost so c, w', ?_, hcost, hv⟩
  unfold buildSystem gnAccumulate
  rw [show P.acc.full w x sn (fun _ => ofInt 0) (fun _ _ => ofInt 0) = _ from by simpa using hu]
  simp only [hv, if_true]
  rw [if_neg hmin.pass]
  rw [Unclipped.clamp (so := so) (Or.inl hclip), symUpper_of_sym (gram_sym A)]
  split <;> rfl

/-! ### C28 -/

theorem gn_delivers (h : LinLS P A b φ) (hL : ExactLinAlg L) (hpd : PD (gram A)) (hone : Solves so (P.dims == some 1) (gram A))
    (hmin : DiagOk so (gram A)) (hclip : so.gradClip = 0) (w : W) (s : GNState ℝ R) (hs : P.dims = none ∨ s.n = n)
    (x : Vec ℝ n) (hx : nCost so m (φ (lsCost A b x)) ≠ maxVal) :
    ∃ s2 dx, Delivers (gnEnv so L P) w s x s2 ⟨n, dx⟩ ∧ s2.n = n ∧ s2.cost.cost = nCost so m (φ (lsCost A b x)) ∧
      mv (gram A) dx = -lsGrad A b x ∧ ∃ g c, s2 = ⟨n, g, gram A, c⟩ := by
  obtain ⟨s1, w1, hr, hn1, -⟩ := resize_works h.toVecParams w s hs
  obtain ⟨c, w2, hb, hc, hv⟩ := ls_build h hmin hclip w1 s1 hn1 x hx
  obtain ⟨v, h1, h2⟩ := gnSolve_pd (so := so) hL (P.dims == some 1) ⟨n, lsGrad A b x, gram A, c⟩ hv hpd hone
  refine ⟨⟨n, lsGrad A b x, gram A, c⟩, v, ⟨⟨s1, w1, w2, resizeIfNeeded_works h.toVecParams hr, hb⟩, h1, rfl, rfl, fun q => ⟨_, rfl⟩, ⟨_, rfl⟩⟩, rfl, hc, h2, _, _, rfl⟩

theorem plus_neg (h : VecParams P) (x v : Vec ℝ n) : P.plusEq x ⟨n, negVec v⟩ = x - v := by
  rw [h.plus]; funext i; simp [negVec, sub_eq_add_neg]

/-- Gauss-Newton runs on linear least squares, with the state of the solver at the end -/
theorem gn_ls_run (h : LinLS P A b φ) (hL : ExactLinAlg L) (hA : ∀ v, mv A v = 0 → v = 0)
    (hone : Solves so (P.dims == some 1) (gram A)) (hmin : DiagOk so (gram A)) (hclip : so.gradClip = 0)
    (s : GNState ℝ R) (hs : P.dims = none ∨ s.n = n) (fuel : Nat) (mi k : Int) (hk : loopBound o mi = some k)
    (w : W) (x0 : Vec ℝ n) (hx0 : nCost so m (φ (lsCost A b x0)) < maxVal) :
    ∃ xs, (∀ y, y ≠ xs → lsCost A b xs < lsCost A b y) ∧
      ∃ st, optimizeAcc (gnEnv so L P) o (fuel + 1) mi w s x0 = .ok st ∧ st.x = xs ∧
        (∀ i r, st.trace[i]? = some r → 0 < i → r.x = xs) ∧ ∃ g c, st.s = ⟨n, g, gram A, c⟩ := by
  have hpd := gram_pd hA
  obtain ⟨d0, hd0⟩ := pd_surj hpd (-lsGrad A b x0)
  have hgs : lsGrad A b (x0 + d0) = 0 := by rw [lsGrad_add, hd0]; exact add_neg_cancel _
  have hmin' := min_of_grad_zero hpd hgs
  refine ⟨x0 + d0, hmin', ?_⟩
  generalize hxs : x0 + d0 = xs at hgs hmin'
  have hle : ∀ y, nCost so m (φ (lsCost A b xs)) < nCost so m (φ (lsCost A b y)) ∨ y = xs := by
    intro y
    by_cases hy : y = xs
    · exact Or.inr hy
    · exact Or.inl ((h.nCost_lt).mpr (hmin' y hy))
  have hxsmax : nCost so m (φ (lsCost A b xs)) < maxVal := by
    rcases hle x0 with h1 | h1
    · exact h1.trans hx0
    · rw [← h1]; exact hx0
  have zero_step : ∀ dx : Vec ℝ n, mv (gram A) dx = -lsGrad A b xs → dx = 0 := by
    intro dx hdx
    rw [hgs, neg_zero, ← mv_zero (gram A)] at hdx
    exact pd_inj hpd hdx
  let T : LoopSt ℝ R W (GNState ℝ R) (Vec ℝ n) (DVec ℝ) (DMat ℝ) → Prop :=
    fun st => ∀ i r, st.trace[i]? = some r → 0 < i → r.x = xs
  obtain ⟨st, st0, e, hj, h1, h2, h3⟩ := run_works (E := gnEnv so L P) (o := o) (fuel := fuel + 1) (mi := mi) (m := k) (w := w) (s := s) (x := x0)
    (I := fun st => st.out.numConsec ≤ maxTries o ∧ (P.dims = none ∨ st.s.n = n) ∧
      ((st.trace = [] ∧ st.x = x0 ∧ st.lastDx = none ∧ st.out.numIters = 0) ∨
       (st.trace ≠ [] ∧ st.x = xs ∧ T st ∧ ∀ d, st.lastDx = some d → d = ⟨n, 0⟩ ∨ nCost so m (φ (lsCost A b xs)) < st.out.finalCost.cost)))
    (J := fun st => st.x = xs ∧ T st ∧ ∃ g c, st.s = ⟨n, g, gram A, c⟩)
    (fun last st _ hI => by
      obtain ⟨hc, hsz, hI⟩ := hI
      have hnm : nCost so m (φ (lsCost A b st.x)) ≠ maxVal := by
        rcases hI with ⟨-, hx, -⟩ | ⟨-, hx, -⟩
        · rw [hx]; exact hx0.ne
        · rw [hx]; exact hxsmax.ne
      obtain ⟨s2, dx, hdel, hn2, hc2, hdx, gS, cS, hS⟩ := gn_delivers h hL hpd hone hmin hclip st.w st.s hsz st.x hnm
      obtain ⟨st', succ, mdx, s3, hb, hw⟩ := body_works (o := o) (fuel := fuel) (last := last) hdel hc
      have hs3 : s3 = s2 := by
        have := hw.hook
        split at this
        · rcases this with ⟨q, h⟩ | h
          · injection h with h; exact h.symm
          · injection h with h; exact h.symm
        · exact this
      have hsz' : P.dims = none ∨ st'.s.n = n := by
        right
        rw [hw.solver, hs3]; exact hn2
      obtain ⟨r, htr, hrx, -, -, -⟩ := hw.trace
      have hne' : st'.trace ≠ [] := by rw [htr]; simp
      have hT : st.x = xs ∧ T st ∨ st.trace = [] → T st' := by
        intro h0 i q hq hi
        rw [htr] at hq
        rcases h0 with ⟨hx, hT⟩ | h0
        · by_cases hlt : i < st.trace.length
          · rw [List.getElem?_append_left hlt] at hq; exact hT i q hq hi
          · have : i = st.trace.length := by
              have := (List.getElem?_eq_some_iff.mp hq).1
              simp at this; omega
            subst this
            rw [List.getElem?_append_right (le_refl _)] at hq
            simp only [Nat.sub_self, List.getElem?_cons_zero] at hq
            rw [← Option.some.inj hq, hrx, hx]
        · rw [h0] at hq
          have := (List.getElem?_eq_some_iff.mp hq).1
          simp at this; omega
      have hup := hw.upd
      suffices hmain : st'.x = xs ∧ (∀ d, st'.lastDx = some d → d = ⟨n, 0⟩ ∨ nCost so m (φ (lsCost A b xs)) < st'.out.finalCost.cost) by
        refine ⟨st', hb, fun hn _ => ⟨hw.consec hn, hsz', Or.inr ⟨hne', hmain.1, ?_, hmain.2⟩⟩, hmain.1, ?_, gS, cS, by rw [hw.solver, hs3]; exact hS⟩
        · rcases hI with ⟨h0, -⟩ | ⟨-, hx, hT', -⟩
          · exact hT (Or.inr h0)
          · exact hT (Or.inl ⟨hx, hT'⟩)
        · rcases hI with ⟨h0, -⟩ | ⟨-, hx, hT', -⟩
          · exact hT (Or.inr h0)
          · exact hT (Or.inl ⟨hx, hT'⟩)
      rcases hI with ⟨h0, hx, hl, hit⟩ | ⟨-, hx, -, hl⟩
      · -- first iteration
        rw [hx] at hdx hc2
        have hdd : dx = d0 := pd_inj hpd (hdx.trans hd0.symm)
        have hm' : mdx = some ⟨n, dx⟩ := hw.isMdx.resolve_right (by rintro ⟨-, -, h, -⟩; omega)
        have hfc : st'.out.finalCost.cost = nCost so m (φ (lsCost A b x0)) := by
          rw [hw.finalCost, hit]
          simp only [beq_self_eq_true, Bool.or_true, if_true]
          exact hc2
        have hxx : P.plusEq st.x ⟨n, dx⟩ = xs := by rw [h.plus, hx, hdd, hxs]
        have hlast : (⟨n, dx⟩ : DVec ℝ) = ⟨n, 0⟩ ∨ nCost so m (φ (lsCost A b xs)) < st'.out.finalCost.cost := by
          rw [hfc]
          rcases hle x0 with h1 | h1
          · exact Or.inr h1
          · left
            have : dx = 0 := zero_step dx (by rw [← h1]; exact hdx)
            rw [this]
        rw [hm', hl] at hup
        generalize st'.x = x1 at hup ⊢
        generalize st'.lastDx = l1 at hup ⊢
        generalize st'.lastSucc = b1 at hup
        generalize hsd : (some (⟨n, dx⟩ : DVec ℝ)) = sd at hup
        cases hup with
        | succ dx' =>
          obtain rfl := Option.some.inj hsd
          exact ⟨hxx, fun d hd => by rw [← Option.some.inj hd]; exact hlast⟩
        | roll d _ h' => cases h'
        | adv dx' h' =>
          obtain rfl := Option.some.inj hsd
          exact ⟨hxx, fun d hd => by rw [← Option.some.inj hd]; exact hlast⟩
        | stay h' => cases hsd
      · -- later iterations
        rw [hx] at hdx hc2
        have hdx0 := zero_step dx hdx
        subst hdx0
        have hp : P.plusEq st.x ⟨n, 0⟩ = xs := by rw [h.plus, hx, add_zero]
        have hmd : ∀ d, mdx = some d → d = ⟨n, 0⟩ := by
          intro d hd
          rcases hw.isMdx with hm | ⟨hm, -⟩
          · rw [hm] at hd; exact (Option.some.inj hd).symm
          · rw [hm] at hd; cases hd
        have hsu := hw.isSucc
        generalize st'.x = x1 at hup ⊢
        generalize st'.lastDx = l1 at hup ⊢
        generalize st'.lastSucc = b1 at hup
        cases hup with
        | succ dx' =>
          have := hmd _ rfl
          subst this
          exact ⟨hp, fun d hd => Or.inl (Option.some.inj hd).symm⟩
        | roll d _ h' =>
          rcases hl d h' with rfl | hlt
          · refine ⟨?_, fun d hd => by cases hd⟩
            show P.plusEq st.x ⟨n, negVec 0⟩ = xs
            rw [plus_neg h.toVecParams, sub_zero, hx]
          · have h5 : lt (sub (s2.cost).cost st.out.finalCost.cost) (ofInt 0) = true := by
              rw [hc2]; simp; linarith
            have h6 : false = lt (sub (s2.cost).cost st.out.finalCost.cost) (ofInt 0) := hsu
            rw [h5] at h6; cases h6
        | adv dx' h' =>
          have := hmd _ rfl
          subst this
          exact ⟨hp, fun d hd => Or.inl (Option.some.inj hd).symm⟩
        | stay h' => exact ⟨hx, fun d hd => by cases hd⟩)
    hk ⟨Nat.zero_le _, hs, Or.inl ⟨rfl, rfl, rfl, rfl⟩⟩
  refine ⟨st, e, by rw [h1]; exact hj.1, ?_, by rw [h3]; exact hj.2.2⟩
  rw [h2]; exact hj.2.1

/-- **C28**: on a linear least squares problem with full column rank, in exact arithmetic, a Gauss-Newton run
(whatever the options and stop criteria) ends normally, at the unique global minimiser `xs` of the sum of squared residuals; all
iterations but the first start at `xs`. -/
theorem C28_gn_one_step (h : LinLS P A b φ) (hL : ExactLinAlg L) (hA : ∀ v, mv A v = 0 → v = 0)
    (hone : Solves so (P.dims == some 1) (gram A)) (hmin : DiagOk so (gram A)) (hclip : so.gradClip = 0)
    (s : GNState ℝ R) (hs : P.dims = none ∨ s.n = n) (fuel : Nat) (mi k : Int) (hk : loopBound o mi = some k)
    (w : W) (x0 : Vec ℝ n) (hx0 : nCost so m (φ (lsCost A b x0)) < maxVal) :
    ∃ xs, (∀ y, y ≠ xs → lsCost A b xs < lsCost A b y) ∧
      ∃ st, optimizeAcc (gnEnv so L P) o (fuel + 1) mi w s x0 = .ok st ∧ st.x = xs ∧
        ∀ i r, st.trace[i]? = some r → 0 < i → r.x = xs := by
  obtain ⟨xs, h1, st, h2, h3, h4, -⟩ := gn_ls_run (o := o) h hL hA hone hmin hclip s hs fuel mi k hk w x0 hx0
  exact ⟨xs, h1, st, h2, h3, h4⟩

/-! ### C52 -/

theorem damped_pd_mono {H : Mat ℝ n} {l l' : ℝ} (hpsd : PSD H) (h : PD (dampedR l H)) (hl : l ≤ l') : PD (dampedR l' H) := by
  refine ⟨damped_sym hpsd.1, fun v hv => ?_⟩
  have h1 := h.2 v hv
  rw [damped_quad] at h1 ⊢
  have := mul_nonneg (sub_nonneg.mpr hl) (diagSq_nonneg (fun i => psd_diag hpsd i) v)
  linarith

theorem scale_damped {H : Mat ℝ n} (mu k : ℝ) : scaleDiag k (dampedR mu H) = dampedR (k * (1 + mu) - 1) H := by
  funext i j
  by_cases hij : i = j
  · subst hij; simp [scaleDiag, dampedR]; ring
  · simp [scaleDiag, dampedR, hij]

/-- damping values that can occur -/
def Allowed (so : SolverOpts ℝ) (l : ℝ) : Prop := l = so.dampInit ∨ so.dampLo ≤ l

/-- what is known of the LM solver before a `Build` at `x` -/
def LmReady (so : SolverOpts ℝ) (A : Fin m → Fin n → ℝ) (b : Vec ℝ m) (s : LMState ℝ R) (x : Vec ℝ n) : Prop :=
  s.rebuild = true ∨ (lsGrad A b x = 0 ∧ 0 ≤ s.prev ∧ ∃ mu c, s.gn = ⟨n, 0, dampedR mu (gram A), c⟩ ∧ s.prev ≤ mu ∧
    (0 < so.dampLo → 0 < s.lambda ∧ s.prev = mu))

theorem lmDamp_ls {s : LMState ℝ R} (hr : s.rebuild = true) (hl : 0 ≤ s.lambda) {g : Vec ℝ n} {H : Mat ℝ n} {c : Cost ℝ R} :
    lmDamp { s with gn := ⟨n, g, H, c⟩ } = { s with gn := ⟨n, g, dampedR s.lambda H, c⟩ } := by
  rw [← dampH_eq hl]
  rw [dampH_def]; unfold lmDamp
  simp only [hr, if_true]
  split <;> rfl

theorem lm_delivers (h : LinLS P A b φ) (hL : ExactLinAlg L) (hA : ∀ l, Allowed so l → PD (dampedR l (gram A)))
    (hone : so.useLdlt = true ∨ P.dims ≠ some 1) (hr0 : so.dampLo ≤ so.dampHi) (hlo : 0 ≤ so.dampLo) (hin : 0 ≤ so.dampInit)
    (hmin : DiagOk so (gram A)) (hclip : so.gradClip = 0) (w : W) (s : LMState ℝ R) (hs : P.dims = none ∨ s.gn.n = n)
    (x : Vec ℝ n) (hx : nCost so m (φ (lsCost A b x)) ≠ maxVal) (hal : Allowed so s.lambda) (hrd : LmReady so A b s x) :
    ∃ s2 dx, Delivers (lmEnv so L P) w s x s2 ⟨n, dx⟩ ∧ s2.gn.n = n ∧ s2.gn.cost.cost = nCost so m (φ (lsCost A b x)) ∧
      s2.lambda = s.lambda ∧ s2.rebuild = s.rebuild ∧
      (lsGrad A b x ≠ 0 → lsCost A b (x + dx) < lsCost A b x) ∧ (lsGrad A b x = 0 → dx = 0) ∧
      (∃ mu c, s2.gn = ⟨n, lsGrad A b x, dampedR mu (gram A), c⟩ ∧ s.lambda ≤ mu ∧ (0 < so.dampLo → s.lambda = mu)) ∧
      s2.badF = s.badF ∧ (lsGrad A b x ≠ 0 → mv (dampedR s.lambda (gram A)) dx = -lsGrad A b x) := by
  have hl0 : 0 ≤ s.lambda := by
    rcases hal with h1 | h1
    · rw [h1]; exact hin
    · exact hlo.trans h1
  have hone' : ∀ H : Mat ℝ n, Solves so (P.dims == some 1) H := by
    intro H
    rcases hone with h1 | h1
    · exact Or.inl h1
    · right; left
      rw [beq_eq_false_iff_ne]; exact h1
  have hgood : ∀ (s2 : LMState ℝ R) q, ∃ s', lmGood so s2 q = .ok s' := by
    intro s2 q; unfold lmGood; rw [stdClamp_real hr0]; exact ⟨_, rfl⟩
  have hbad : ∀ (s2 : LMState ℝ R), ∃ s', lmBad so s2 = .ok s' := by
    intro s2; unfold lmBad; rw [stdClamp_real hr0]; exact ⟨_, rfl⟩
  by_cases hreb : s.rebuild = true
  · obtain ⟨g1, w1, hr, hn1, -⟩ := resize_works h.toVecParams w s.gn hs
    obtain ⟨c, w2, hb, hc, hv⟩ := ls_build h hmin hclip w1 g1 hn1 x hx
    have hpd := hA s.lambda hal
    have hr' : (lmSolver so L P).resize w s n = (.done { s with gn := g1 }, w1) := by
      simp only [lmSolver, hr]
    have hb' : lmBuild so P w1 { s with gn := g1 } x = (true, { s with gn := ⟨n, lsGrad A b x, dampedR s.lambda (gram A), c⟩ }, w2) := by
      unfold lmBuild
      simp only [hreb, if_true]
      rw [hb]
      simp only [if_true]
      have := lmDamp_ls (R := R) (s := s) hreb hl0 (g := lsGrad A b x) (H := gram A) (c := c)
      rw [hreb] at this
      rw [this]
    obtain ⟨v, h1, h2⟩ := gnSolve_pd (so := so) hL (P.dims == some 1) ⟨n, lsGrad A b x, dampedR s.lambda (gram A), c⟩ hv hpd (hone' _)
    have hstep := C52_step_decreases hl0 hpd x v h2
    refine ⟨{ s with gn := ⟨n, lsGrad A b x, dampedR s.lambda (gram A), c⟩ }, v,
      ⟨⟨_, w1, w2, resizeIfNeeded_works h.toVecParams hr', hb'⟩, h1, rfl, rfl, fun q => hgood _ q, hbad _⟩, rfl, hc, rfl, rfl, hstep.1, hstep.2, ?_, rfl, fun _ => h2⟩
    exact ⟨s.lambda, c, rfl, le_refl _, fun _ => rfl⟩
  · obtain ⟨hg, hp0, mu, c0, hgn, hmu, hmu1⟩ := hrd.resolve_left hreb
    have hreb' : s.rebuild = false := Bool.not_eq_true _ ▸ hreb
    have hn : s.gn.n = n := by rw [hgn]
    obtain ⟨g1, w1, hr, hn1, hid⟩ := resize_works h.toVecParams w s.gn hs
    have := hid hn
    subst this
    have hr' : (lmSolver so L P).resize w s n = (.done s, w1) := by
      simp only [lmSolver, hr]
    rcases hev : P.acc.eval w1 x with ⟨c, w2⟩
    have hE := h.eval w1 x
    rw [hev] at hE
    have hcost : (normalizeCost so c).cost = nCost so m (φ (lsCost A b x)) := by rw [normalizeCost_eq c hE.2, hE.1]
    have hv : (normalizeCost so c).isValid = true := by
      have h1 : eq (normalizeCost so c).cost maxVal = false := by rw [RealOps.eq_eq_false, hcost]; exact hx
      have h2 := h.pos
      unfold Cost.isValid ne
      rw [h1, normalizeCost_num, hE.2]
      simpa using h2
    have hmu0 : 0 ≤ mu := hp0.trans hmu
    obtain ⟨mu', hmu', hmu2, hpd', hdamp⟩ : ∃ mu', s.lambda ≤ mu' ∧ (0 < so.dampLo → s.lambda = mu') ∧ PD (dampedR mu' (gram A)) ∧
        lmDamp { s with gn := ⟨n, 0, dampedR mu (gram A), normalizeCost so c⟩ } = { s with gn := ⟨n, 0, dampedR mu' (gram A), normalizeCost so c⟩ } := by
      by_cases hpos : 0 < s.lambda
      · have hk : 1 + s.lambda ≤ (1 + s.lambda) / (1 + s.prev) * (1 + mu) := by
          rw [div_mul_eq_mul_div, le_div_iff₀ (by linarith)]
          exact mul_le_mul_of_nonneg_left (by linarith) (by linarith)
        refine ⟨(1 + s.lambda) / (1 + s.prev) * (1 + mu) - 1, by linarith, fun h0 => ?_, ?_, ?_⟩
        · rw [(hmu1 h0).2, div_mul_cancel₀ _ (by linarith)]; ring
        · exact damped_pd_mono (gram_psd A) (hA _ hal) (by linarith)
        · unfold lmDamp
          simp only [hreb', Bool.false_eq_true, if_false]
          rw [if_pos (by simpa using hpos), ← scale_damped]
          simp
      · have hz : s.lambda = 0 := le_antisymm (not_lt.mp hpos) hl0
        refine ⟨mu, by rw [hz]; exact hmu0, fun h0 => absurd (hmu1 h0).1 hpos, damped_pd_mono (gram_psd A) (hA _ hal) (by rw [hz]; exact hmu0), ?_⟩
        unfold lmDamp
        rw [if_neg (by simpa using hpos)]
    have hb' : lmBuild so P w1 s x = (true, { s with gn := ⟨n, 0, dampedR mu' (gram A), normalizeCost so c⟩ }, w2) := by
      unfold lmBuild
      simp only [hreb', Bool.false_eq_true, if_false]
      have : lmEvaluate so P w1 s.gn x = (⟨n, 0, dampedR mu (gram A), normalizeCost so c⟩, w2) := by
        unfold lmEvaluate; rw [hev, hgn]
      rw [this]
      simp only [hv, if_true]
      rw [hreb'] at hdamp
      rw [hdamp]
    obtain ⟨v, h1, h2⟩ := gnSolve_pd (so := so) hL (P.dims == some 1) ⟨n, 0, dampedR mu' (gram A), normalizeCost so c⟩ hv hpd' (hone' _)
    have hv0 : v = 0 := by
      simp only [neg_zero] at h2
      rw [← mv_zero (dampedR mu' (gram A))] at h2
      exact pd_inj hpd' h2
    refine ⟨{ s with gn := ⟨n, 0, dampedR mu' (gram A), normalizeCost so c⟩ }, v,
      ⟨⟨_, w1, w2, resizeIfNeeded_works h.toVecParams hr', hb'⟩, h1, rfl, rfl, fun q => hgood _ q, hbad _⟩, rfl, hcost, rfl, rfl, fun h => absurd hg h, fun _ => hv0, ?_, rfl, fun h => absurd hg h⟩
    exact ⟨mu', _, by rw [hg], hmu', hmu2⟩

/-- one row of the trace went downhill -/
def Downhill (A : Fin m → Fin n → ℝ) (b : Vec ℝ m) (x x' : Vec ℝ n) : Prop :=
  (lsGrad A b x ≠ 0 → lsCost A b x' < lsCost A b x) ∧ (lsGrad A b x = 0 → x' = x)

theorem lm_hook {s2 s3 : LMState ℝ R} (hr0 : so.dampLo ≤ so.dampHi) (h : (∃ q, lmGood so s2 q = .ok s3) ∨ lmBad so s2 = .ok s3) :
    s3.gn = s2.gn ∧ s3.prev = s2.lambda ∧ so.dampLo ≤ s3.lambda := by
  rcases h with ⟨q, h⟩ | h
  · unfold lmGood at h
    rw [stdClamp_real hr0] at h
    injection h with h
    subst h
    exact ⟨rfl, rfl, le_max_left _ _⟩
  · unfold lmBad at h
    rw [stdClamp_real hr0] at h
    injection h with h
    subst h
    exact ⟨rfl, rfl, le_max_left _ _⟩

/-- One row of the trace of a Levenberg-Marquardt run: downhill; and where the gradient is not zero the step was accepted and solves the
system damped by some `l` that satisfies `K`. -/
def LmRow (so : SolverOpts ℝ) (K : ℝ → ℝ → Prop) (A : Fin m → Fin n → ℝ) (b : Vec ℝ m) (r : Rec ℝ R (Vec ℝ n) (DVec ℝ) (DMat ℝ)) : Prop :=
  Downhill A b r.x r.xNext ∧ (lsGrad A b r.x ≠ 0 → r.succ = true ∧ ∃ l β, K l β ∧ Allowed so l ∧
    mv (dampedR l (gram A)) (r.xNext - r.x) = -lsGrad A b r.x)

/-- the un-damped matrix of a system damped by the factor the solver remembers -/
theorem lmHessian_damped {n : Nat} {s : LMState ℝ R} {g : Vec ℝ n} {H : Mat ℝ n} {c : Cost ℝ R} {mu : ℝ}
    (hg : s.gn = ⟨n, g, dampedR mu H, c⟩) (hp : s.prev = mu) (h0 : 0 ≤ mu) : lmHessian s = ⟨n, H⟩ := by
  obtain ⟨gn, lam, prev, bf, reb⟩ := s
  simp only at hg hp
  subst hg hp
  unfold lmHessian
  by_cases hp0 : 0 < prev
  · rw [if_pos (by simpa using hp0)]
    simp only
    congr 1
    funext i j
    have hne : 1 + prev ≠ 0 := by positivity
    by_cases hij : i = j
    · subst hij
      simp only [if_true, dampedR, RealOps.div_eq, RealOps.add_eq, RealOps.ofInt_eq]
      push_cast
      field_simp
    · simp [dampedR, hij]
  · rw [if_neg (by simpa using hp0)]
    rw [show prev = 0 from le_antisymm (not_lt.mp hp0) h0, damped_zero]

/-- Runs of Levenberg-Marquardt on linear least squares; `K` is any property of the damping and the factor of bad steps that good steps
keep. -/
theorem lm_ls_run (h : LinLS P A b φ) (hL : ExactLinAlg L) (hA : ∀ l, Allowed so l → PD (dampedR l (gram A)))
    (hone : so.useLdlt = true ∨ P.dims ≠ some 1) (hr0 : so.dampLo ≤ so.dampHi) (hlo : 0 ≤ so.dampLo) (hin : 0 ≤ so.dampInit)
    (hmin : DiagOk so (gram A)) (hclip : so.gradClip = 0) (K : ℝ → ℝ → Prop)
    (hKg : ∀ (s2 s3 : LMState ℝ R) q, (o.useStepQuality = false → q = 0) → K s2.lambda s2.badF → lmGood so s2 q = .ok s3 → K s3.lambda s3.badF)
    (s : LMState ℝ R) (hs : P.dims = none ∨ s.gn.n = n) (hreb : s.rebuild = true) (hal : Allowed so s.lambda) (hK0 : K s.lambda s.badF)
    (fuel : Nat) (mi k : Int) (hk : loopBound o mi = some k) (hk2 : k ≤ 65536)
    (w : W) (x0 : Vec ℝ n) (hx0 : nCost so m (φ (lsCost A b x0)) < maxVal) :
    ∃ st, optimizeAcc (lmEnv so L P) o (fuel + 1) mi w s x0 = .ok st ∧ (∀ r ∈ st.trace, LmRow so K A b r) ∧
      (∀ r ∈ st.trace, nCost so m (φ (lsCost A b r.x)) < maxVal) ∧ (∃ r, st.trace.getLast? = some r ∧ r.out.succeeded = true) ∧
      (0 < so.dampLo → 1 < st.trace.length → lmHessian st.s = ⟨n, gram A⟩) ∧ (NoCriteria o → (st.trace.length : Int) = k) := by
  have hkn : k.toNat ≤ 65536 := by omega
  obtain ⟨st, st0, e, hj, h1, h2, h3, h4, -⟩ := run_works_out (E := lmEnv so L P) (o := o) (fuel := fuel + 1) (mi := mi) (m := k) (w := w) (s := s) (x := x0)
    (I := fun left st => st.out.numConsec ≤ maxTries o ∧ left + st.trace.length ≤ 65536 ∧ st.out.numIters = st.trace.length ∧
      (P.dims = none ∨ st.s.gn.n = n) ∧ Allowed so st.s.lambda ∧ nCost so m (φ (lsCost A b st.x)) < maxVal ∧ LmReady so A b st.s st.x ∧
      (st.trace = [] → st.lastDx = none ∧ st.out.finalCost.cost = maxVal) ∧
      (∀ d, st.lastDx = some d → (d = ⟨n, 0⟩ ∧ lsGrad A b st.x = 0) ∨ nCost so m (φ (lsCost A b st.x)) < st.out.finalCost.cost) ∧
      (st.lastDx = none → st.trace ≠ [] → lsGrad A b st.x = 0) ∧ (lsGrad A b st.x ≠ 0 → K st.s.lambda st.s.badF) ∧ ∀ r ∈ st.trace, LmRow so K A b r ∧ nCost so m (φ (lsCost A b r.x)) < maxVal)
    (J := fun st => (∀ r ∈ st.trace, LmRow so K A b r ∧ nCost so m (φ (lsCost A b r.x)) < maxVal) ∧ (∃ r, st.trace.getLast? = some r ∧ 0 ≤ r.out.stop.code) ∧
      (0 < so.dampLo → 1 < st.trace.length → lmHessian st.s = ⟨n, gram A⟩) ∧ (NoCriteria o → st.out.stop = .kNone))
    (fun left st hnone hI => by
      obtain ⟨hc, hlen, hit, hsz, hal, hxm, hrd, hfirst, hl, hln, hKi, hT⟩ := hI
      obtain ⟨s2, dx, hdel, hn2, hc2, hlam, hrb, hdec, hzero, hgnz, hbf, hsolv⟩ := lm_delivers h hL hA hone hr0 hlo hin hmin hclip st.w st.s hsz st.x hxm.ne hal hrd
      obtain ⟨st', succ, mdx, s3, hb, hw⟩ := body_works (o := o) (fuel := fuel) (last := left == 0) hdel hc
      obtain ⟨r, htr, hrx, hrx', -, hrs⟩ := hw.trace
      have hs3 : s3.gn = s2.gn ∧ Allowed so s3.lambda ∧ (0 < st.out.numIters → s3.prev = s2.lambda) := by
        have := hw.hook
        split at this
        · obtain ⟨a1, a2, a3⟩ := lm_hook hr0 this
          exact ⟨a1, Or.inr a3, fun _ => a2⟩
        next h0 =>
          rw [this, hlam]
          exact ⟨rfl, hal, fun h => absurd h h0⟩
      have hup := hw.upd
      have hsu : succ = lt (sub s2.gn.cost.cost st.out.finalCost.cost) (ofInt 0) := hw.isSucc
      rw [hc2] at hsu
      have hxm' : ∀ x', Downhill A b st.x x' → nCost so m (φ (lsCost A b x')) < maxVal := by
        intro x' hd
        by_cases hg : lsGrad A b st.x = 0
        · rw [hd.2 hg]; exact hxm
        · exact ((h.nCost_lt).mpr (hd.1 hg)).trans hxm
      -- not a success: the gradient is zero
      have hfail : succ = false → st.trace ≠ [] ∧ lsGrad A b st.x = 0 ∧ ∀ d, st.lastDx = some d → d = ⟨n, 0⟩ := by
        intro hf
        rw [hf] at hsu
        have hle : st.out.finalCost.cost ≤ nCost so m (φ (lsCost A b st.x)) := by
          have := hsu.symm
          rw [RealOps.lt_eq_false] at this
          simp at this
          exact this
        have hne : st.trace ≠ [] := by
          intro h0
          rw [(hfirst h0).2] at hle
          linarith
        refine ⟨hne, ?_, ?_⟩
        · cases hld : st.lastDx with
          | none => exact hln hld hne
          | some d =>
            rcases hl d hld with ⟨-, h⟩ | h
            · exact h
            · linarith
        · intro d hd
          rcases hl d hd with ⟨h, -⟩ | h
          · exact h
          · linarith
      have hmd : ∀ d, mdx = some d → d = ⟨n, dx⟩ := by
        intro d hd
        rcases hw.isMdx with hm | ⟨hm, -⟩
        · rw [hm] at hd; exact (Option.some.inj hd).symm
        · rw [hm] at hd; cases hd
      have hDown : Downhill A b st.x (st.x + dx) := ⟨hdec, fun hg => by rw [hzero hg, add_zero]⟩
      have hxn : lsGrad A b st.x ≠ 0 → st'.x = st.x + dx := by
        intro hg
        have hf' := hfail
        have hup' := hup
        generalize st'.x = x1 at hup' ⊢
        generalize st'.lastDx = l1 at hup'
        generalize st'.lastSucc = b1 at hup'
        cases hup' with
        | succ dx' => obtain rfl := hmd _ rfl; exact h.plus _ _
        | roll d _ h' => exact absurd (hf' rfl).2.1 hg
        | adv dx' h' => exact absurd (hf' rfl).2.1 hg
        | stay h' => exact absurd (hf' rfl).2.1 hg
      have main : Downhill A b st.x st'.x ∧
          (∀ d, st'.lastDx = some d → (d = ⟨n, 0⟩ ∧ lsGrad A b st'.x = 0) ∨ nCost so m (φ (lsCost A b st'.x)) < st'.out.finalCost.cost) ∧
          (st'.lastDx = none → lsGrad A b st'.x = 0) := by
        have hfc := hw.finalCost
        have hf' := hfail
        generalize st'.x = x1 at hup ⊢
        generalize st'.lastDx = l1 at hup ⊢
        generalize st'.lastSucc = b1 at hup
        cases hup with
        | succ dx' =>
          obtain rfl := hmd _ rfl
          have hfc' : st'.out.finalCost.cost = nCost so m (φ (lsCost A b st.x)) := by
            rw [hfc]; simp only [Bool.true_or, if_true]; exact hc2
          have hxx : (lmEnv so L P).plusEq st.x ⟨n, dx⟩ = st.x + dx := h.plus _ _
          rw [hxx]
          refine ⟨hDown, fun d hd => ?_, fun h => by cases h⟩
          obtain rfl := Option.some.inj hd
          by_cases hg : lsGrad A b st.x = 0
          · left
            rw [hzero hg, add_zero]
            exact ⟨rfl, hg⟩
          · right
            rw [hfc']
            exact (h.nCost_lt).mpr (hdec hg)
        | roll d _ h' =>
          obtain ⟨-, hg, hd⟩ := hf' rfl
          obtain rfl := hd d h'
          have hxx : (lmEnv so L P).plusEq st.x ((lmEnv so L P).negV ⟨n, 0⟩) = st.x := by
            show P.plusEq st.x ⟨n, negVec 0⟩ = _
            rw [plus_neg h.toVecParams, sub_zero]
          rw [hxx]
          exact ⟨⟨fun h => absurd hg h, fun _ => rfl⟩, fun d hd => (nomatch hd), fun _ => hg⟩
        | adv dx' h' =>
          obtain ⟨-, hg, -⟩ := hf' rfl
          obtain rfl := hmd _ rfl
          have hxx : (lmEnv so L P).plusEq st.x ⟨n, dx⟩ = st.x := by
            show P.plusEq st.x ⟨n, dx⟩ = _
            rw [h.plus, hzero hg, add_zero]
          rw [hxx, hzero hg]
          refine ⟨⟨fun h => absurd hg h, fun _ => rfl⟩, fun d hd => Or.inl ⟨(Option.some.inj hd).symm, hg⟩, fun h => by cases h⟩
        | stay h' =>
          obtain ⟨-, hg, -⟩ := hf' rfl
          exact ⟨⟨fun h => absurd hg h, fun _ => rfl⟩, fun d hd => (nomatch hd), fun _ => hg⟩
      have hsucc : lsGrad A b st.x ≠ 0 → succ = true := fun hg => by
        cases hsv : succ with
        | true => rfl
        | false => exact absurd (hfail hsv).2.1 hg
      have hrow : LmRow so K A b r := by
        refine ⟨by rw [hrx, hrx']; exact main.1, fun hg => ?_⟩
        rw [hrx] at hg
        rw [hrs]
        refine ⟨hsucc hg, st.s.lambda, st.s.badF, hKi hg, hal, ?_⟩
        rw [hrx, hrx', hxn hg, add_sub_cancel_left]
        exact hsolv hg
      have hKn : lsGrad A b st'.x ≠ 0 → K s3.lambda s3.badF := by
        intro hg'
        have hg : lsGrad A b st.x ≠ 0 := fun hg => hg' (by rw [main.1.2 hg]; exact hg)
        have hk2 : K s2.lambda s2.badF := by rw [hlam, hbf]; exact hKi hg
        by_cases hpos : 0 < st.out.numIters
        · refine hKg s2 s3 _ (fun hq => ?_) hk2 (hw.hookGood hpos (hsucc hg))
          rw [hq]; simp
        · have := hw.hook
          rw [if_neg hpos] at this
          rw [this]; exact hk2
      have hT' : ∀ r ∈ st'.trace, LmRow so K A b r ∧ nCost so m (φ (lsCost A b r.x)) < maxVal := by
        intro q hq
        rw [htr, List.mem_append, List.mem_singleton] at hq
        rcases hq with hq | rfl
        · exact hT q hq
        · exact ⟨hrow, by rw [hrx]; exact hxm⟩
      have hlen' : st'.trace.length = st.trace.length + 1 := by rw [htr]; simp
      refine ⟨st', hb, fun hn hleft => ?_, hT', hw.code hnone, fun h0 h1 => ?_, fun ho => hw.nostop ho hnone⟩
      rotate_left
      · obtain ⟨mu, c, e1, -, e2⟩ := hgnz
        obtain ⟨a1, -, a2⟩ := hs3
        rw [hw.solver]
        show lmHessian { s3 with rebuild := _ } = _
        have hp : s3.prev = mu := by rw [a2 (by omega), hlam, e2 h0]
        have hmu0 : 0 ≤ mu := by
          rw [← e2 h0]
          rcases hal with h1 | h1
          · rw [h1]; exact hin
          · exact hlo.trans h1
        exact lmHessian_damped (s := { s3 with rebuild := _ }) (a1.trans e1) hp hmu0
      have hl0 : (left == 0) = false := by simp; omega
      refine ⟨hw.consec hn, by omega, ?_, ?_, ?_, hxm' _ main.1, ?_, ?_, main.2.1, fun h _ => main.2.2 h, ?_, hT'⟩
      · rw [hw.numIters, hit, hlen']
        unfold inc16
        rw [Nat.mod_eq_of_lt (by omega)]
      · right
        rw [hw.solver]
        show s3.gn.n = n
        rw [hs3.1]; exact hn2
      · rw [hw.solver]; exact hs3.2.1
      · unfold LmReady
        rw [hw.solver]
        show (if succ then !(o.checkFinalCost && (left == 0)) else st.lastSucc) = true ∨ _
        rw [hl0, Bool.and_false]
        cases hsv : succ with
        | true => exact Or.inl rfl
        | false =>
          right
          obtain ⟨hne, hg, hd⟩ := hfail hsv
          have hx' := main.1.2 hg
          have hpos : 0 < st.out.numIters := by
            rw [hit]; exact List.length_pos_iff.mpr hne
          obtain ⟨mu, c, e1, e2, e3⟩ := hgnz
          refine ⟨by rw [hx']; exact hg, ?_, mu, c, ?_, ?_, fun h0 => ⟨?_, ?_⟩⟩
          · show 0 ≤ s3.prev
            rw [hs3.2.2 hpos, hlam]
            rcases hal with h1 | h1
            · rw [h1]; exact hin
            · exact hlo.trans h1
          · show s3.gn = _
            rw [hs3.1, e1, hg]
          · show s3.prev ≤ mu
            rw [hs3.2.2 hpos, hlam]; exact e2
          · have := hw.hook
            rw [if_pos hpos] at this
            exact lt_of_lt_of_le h0 (lm_hook hr0 this).2.2
          · show s3.prev = mu
            rw [hs3.2.2 hpos, hlam]; exact e3 h0
      · intro h0; rw [h0] at hlen'; simp at hlen'
      · intro hg'; rw [hw.solver]; exact hKn hg')
    hk ⟨Nat.zero_le _, by simpa [initSt] using hkn, rfl, hs, hal, hx0, Or.inl hreb, fun _ => ⟨rfl, rfl⟩, fun d hd => (nomatch hd), fun _ h => absurd rfl h, fun _ => hK0, fun r hr => (nomatch hr)⟩
  obtain ⟨hj, ⟨r, hr, hcode⟩, hH, hN⟩ := hj
  refine ⟨st, e, by rw [h2]; exact fun r hr => (hj r hr).1, by rw [h2]; exact fun r hr => (hj r hr).2, ⟨r, by rw [h2]; exact hr, ?_⟩, by rw [h2, h3]; exact hH, fun ho => by rw [h2]; exact h4 (hN ho)⟩
  simpa [Output.succeeded, StopReason.code] using hcode

/-- **C52**: on a linear least squares problem, in exact arithmetic, with all damped Hessians that can occur
positive definite, every iteration of every Levenberg-Marquardt run (at most 65536 iterations, started from a solver that
will build a new system) strictly decreases the sum of squared residuals, or the gradient is zero and the
point stays. -/
theorem C52_lm_monotone (h : LinLS P A b φ) (hL : ExactLinAlg L) (hA : ∀ l, Allowed so l → PD (dampedR l (gram A)))
    (hone : so.useLdlt = true ∨ P.dims ≠ some 1) (hr0 : so.dampLo ≤ so.dampHi) (hlo : 0 ≤ so.dampLo) (hin : 0 ≤ so.dampInit)
    (hmin : DiagOk so (gram A)) (hclip : so.gradClip = 0)
    (s : LMState ℝ R) (hs : P.dims = none ∨ s.gn.n = n) (hreb : s.rebuild = true) (hal : Allowed so s.lambda)
    (fuel : Nat) (mi k : Int) (hk : loopBound o mi = some k) (hk2 : k ≤ 65536)
    (w : W) (x0 : Vec ℝ n) (hx0 : nCost so m (φ (lsCost A b x0)) < maxVal) :
    ∃ st, optimizeAcc (lmEnv so L P) o (fuel + 1) mi w s x0 = .ok st ∧ ∀ r ∈ st.trace, Downhill A b r.x r.xNext := by
  obtain ⟨st, e, hT, -⟩ := lm_ls_run (K := fun _ _ => True) h hL hA hone hr0 hlo hin hmin hclip (fun _ _ _ _ _ _ => trivial) s hs hreb hal trivial fuel mi k hk hk2 w x0 hx0
  exact ⟨st, e, fun r hr => (hT r hr).1⟩

end

/-! ### non-vacuity: the problem of any `A`, `b`, and one with a run -/

/-- the linear least squares problem with dynamic size -/
def lsProb {m n : Nat} (A : Fin m → Fin n → ℝ) (b : Vec ℝ m) : Problem ℝ ℝ Unit (Vec ℝ n) where
  acc :=
    { full := fun w x k g H => (({ cost := lsCost A b x, num := m, inlier := 1 },
        fun i => if h : i.1 < n then g i + lsGrad A b x ⟨i.1, h⟩ else g i,
        fun i j => if h : i.1 < n ∧ j.1 < n then H i j + gram A ⟨i.1, h.1⟩ ⟨j.1, h.2⟩ else H i j), w)
      eval := fun w x => ({ cost := lsCost A b x, num := m, inlier := 1 }, w) }
  dims := none
  dynDims := fun _ => n
  plusEq := fun x d => fun i => if h : i.1 < d.n then x i + d.v ⟨i.1, h⟩ else x i
  clock := fun w => (1, w)
  alloc := fun w _ => (some (fun _ => 7, fun _ _ => 7), w)
  ratio1 := 1

theorem lsProb_ls {m n : Nat} (A : Fin m → Fin n → ℝ) (b : Vec ℝ m) (hm : 0 < m) (hn : 0 < n) : LinLS (lsProb A b) A b where
  pos := hm
  nonneg := fun _ h => h
  mono := fun _ _ _ h => h
  full w x := ⟨{ cost := lsCost A b x, num := m, inlier := 1 }, w, by
    simp only [lsProb]
    congr 3
    · funext i; simp
    · funext i j; simp, rfl, rfl⟩
  eval w x := ⟨rfl, rfl⟩
  dyn x := rfl
  size := Or.inr ⟨rfl, hn, fun w k => ⟨_, _, rfl⟩⟩
  plus x v := by funext i; simp [lsProb]

/-- fit of the line `p + q t` to three points (t, y) = (0,1), (1,2), (2,0), starting at 0: all hypotheses of
`C28_gn_one_step` and `C52_lm_monotone` hold -/
def line3 : Fin 3 → Fin 2 → ℝ := fun i j => if j = 0 then 1 else (i.1 : ℝ)
def line3b : Vec ℝ 3 := fun i => if i = 0 then 1 else if i = 1 then 2 else 0

theorem line3_rank : ∀ v, mv line3 v = 0 → v = 0 := by
  intro v h
  have h0 := congrFun h 0
  have h1 := congrFun h 1
  simp [mv, line3, Fin.sum_univ_two] at h0 h1
  funext j
  fin_cases j
  · simpa using h0
  · simp [h0] at h1; simpa using h1

theorem line3_start : nCost soptsR 3 (lsCost line3 line3b 0) < maxVal := by
  have : lsCost line3 line3b 0 = 5 := by
    simp [lsCost, dotR, mv, line3, line3b, Fin.sum_univ_succ]; norm_num
  rw [this]
  show nCost soptsR 3 5 < 2 ^ 1024
  simp [nCost, normalizeCost, soptsR]
  exact lt_of_lt_of_le (by norm_num : (5 : ℝ) < 2 ^ 3) (pow_le_pow_right₀ (by norm_num) (by norm_num))

example (k : Nat) (hk : k < 1000) : LinLS (lsProb line3 line3b) line3 line3b ∧ ExactLinAlg someLinAlg ∧ (∀ v, mv line3 v = 0 → v = 0) ∧
    lsGrad line3 line3b 0 ≠ 0 ∧
    Solves soptsR ((lsProb line3 line3b).dims == some 1) (gram line3) ∧ DiagOk soptsR (gram line3) ∧ DiagOk { soptsR with checkMinHDiag := 2 } (gram line3) ∧ soptsR.gradClip = 0 ∧
    (∀ l, Allowed soptsR l → PD (dampedR l (gram line3))) ∧ soptsR.dampLo ≤ soptsR.dampHi ∧ 0 ≤ soptsR.dampLo ∧ 0 ≤ soptsR.dampInit ∧
    (∀ s : LMState ℝ ℝ, (lmReset soptsR s).rebuild = true ∧ Allowed soptsR (lmReset soptsR s).lambda) ∧
    (∃ b, loopBound (optsR k) (-1) = some b ∧ b ≤ 65536) ∧
    nCost soptsR 3 (lsCost line3 line3b 0) < maxVal := by
  refine ⟨lsProb_ls _ _ (by decide) (by decide), someLinAlg_exact, line3_rank, ?_, Or.inl rfl, Or.inl (le_refl _), Or.inr ?_, rfl, fun l hl => ?_, by norm_num [soptsR], by norm_num [soptsR], by norm_num [soptsR],
    fun s => ⟨rfl, Or.inl rfl⟩, ?_, line3_start⟩
  · intro h
    have := congrFun h 0
    simp [lsGrad, tmv, mv, line3, line3b, Fin.sum_univ_succ] at this
    norm_num at this
  · intro i
    fin_cases i <;> simp [gram, line3, Fin.sum_univ_succ] <;> norm_num
  · refine damped_pd' (gram_pd line3_rank) ?_
    rcases hl with rfl | h
    · norm_num [soptsR]
    · exact le_trans (by norm_num [soptsR]) h
  · by_cases h0 : k = 0
    · subst h0; exact ⟨1, by decide, by decide⟩
    · have h6 : ¬ ((k : Int) + 1 + 1 > intMax) := by unfold intMax; omega
      refine ⟨(k : Int) + 1, ?_, by omega⟩
      simp only [loopBound, optsR]
      simp [h6]
end Verif
