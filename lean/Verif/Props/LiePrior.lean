import Verif.Props.Lie
import Verif.Props.LinearLS
import Verif.Props.LmGlobal
import Mathlib.Analysis.SpecialFunctions.Complex.Log
import Mathlib.Analysis.Calculus.Deriv.Comp
import Mathlib.Analysis.Calculus.Deriv.Mul
import Mathlib.Analysis.Calculus.Deriv.Add
/-!
# C88: a prior on rotations and poses

tests/sophus.cpp and tests/lieplusplus.cpp minimise the logarithm of `prior^-1 x`. Although this is not a linear problem, one Gauss-Newton step finds the prior.
-/

set_option linter.unusedSectionVars false

namespace Verif
open FloatOps Filter Topology

section
variable {R W X : Type} {m n : Nat}
variable {so : SolverOpts ℝ} {L : LinAlg ℝ} {P : Problem ℝ R W X} {o : Options ℝ W (DVec ℝ)} {r : X → Vec ℝ m} {J : X → Fin m → Fin n → ℝ} {φ : ℝ → ℝ}

/-- The user's function accumulates the gradient `J^T r`, the Hessian `J^T J` and the cost `φ (r^T r)` of `m > 0` residuals (`φ` strictly increasing: the sum of squares
or the norm), for parameters with `n` degrees of freedom, static or dynamic; memory suffices. -/
structure NlsOn (P : Problem ℝ R W X) (r : X → Vec ℝ m) (J : X → Fin m → Fin n → ℝ) (φ : ℝ → ℝ) : Prop where
  dyn : ∀ x, P.dynDims x = n
  size : P.dims = some n ∨ (P.dims = none ∧ 0 < n ∧ ∀ w k, ∃ a w', P.alloc w k = (some a, w'))
  pos : 0 < m
  nonneg : ∀ c, 0 ≤ c → 0 ≤ φ c
  mono : ∀ c c', 0 ≤ c → c < c' → φ c < φ c'
  full : ∀ w x, ∃ c w', P.acc.full w x n (fun _ => 0) (fun _ _ => 0) = ((c, tmv (J x) (r x), gram (J x)), w') ∧
    c.cost = φ (dotR (r x) (r x)) ∧ c.num = m

theorem NlsOn.resize (h : NlsOn P r J φ) (w : W) (s : GNState ℝ R) (hs : P.dims = none ∨ s.n = n) (fo : Bool)
    {sol : SolverI ℝ R W (GNState ℝ R) X (DVec ℝ) (DMat ℝ)} (hsol : sol.resize = gnResize P) (x : X) :
    ∃ s' w', resizeIfNeeded (envOf P sol fo) w s x = (.inr s', w') ∧ s'.n = n := by
  have hr : ∃ s' w', gnResize P w s n = (.done s', w') ∧ s'.n = n := by
    unfold gnResize
    rcases h.size with hd | ⟨hd, h0, ha⟩
    · have hn : s.n = n := hs.resolve_left (by rw [hd]; simp)
      rw [hd]
      exact ⟨s, w, by simp, hn⟩
    · rw [hd]
      simp only
      rw [if_neg (by omega)]
      by_cases he : (s.n : Int) = n
      · rw [if_pos he]
        exact ⟨s, w, rfl, by exact_mod_cast he⟩
      · rw [if_neg he]
        obtain ⟨⟨g, H⟩, w', e⟩ := ha w (n : Int).toNat
        rw [e]
        exact ⟨_, _, rfl, by simp⟩
  obtain ⟨s', w', e, hn⟩ := hr
  refine ⟨s', w', ?_, hn⟩
  unfold resizeIfNeeded
  have hd : (envOf P sol fo).dynDims x = n := h.dyn x
  simp only [hd]
  rw [if_neg, if_neg (by omega)]
  · have hr' : (envOf P sol fo).sol.resize w s n = (.done s', w') := by
      show sol.resize w s n = _
      rw [hsol]; exact e
    rw [hr']
  · rcases h.size with hs | ⟨hs, h0, -⟩
    · simp [envOf, hs]
    · simp; intro _; omega

theorem NlsOn.gn_delivers (h : NlsOn P r J φ) (hL : ExactLinAlg L) (hclip : so.gradClip = 0) (x : X) (hJ : ∀ v, mv (J x) v = 0 → v = 0)
    (hone : Solves so (P.dims == some 1) (gram (J x))) (hmin : DiagOk so (gram (J x))) (w : W) (s : GNState ℝ R) (hs : P.dims = none ∨ s.n = n)
    (hx : nCost so m (φ (dotR (r x) (r x))) ≠ maxVal) :
    ∃ s2 dx, Delivers (gnEnv so L P) w s x s2 ⟨n, dx⟩ ∧ s2.n = n ∧ s2.cost.cost = nCost so m (φ (dotR (r x) (r x))) ∧
      mv (gram (J x)) dx = -tmv (J x) (r x) := by
  obtain ⟨⟨sn, sg, sH, sc⟩, w1, hr, hn1⟩ := h.resize w s hs false (sol := gnSolver so L P) rfl x
  simp only at hn1
  subst hn1
  obtain ⟨c, w2, hu, hc, hn⟩ := h.full w1 x
  have hcost : (normalizeCost so c).cost = nCost so m (φ (dotR (r x) (r x))) := by rw [normalizeCost_eq c hn, hc]
  have hv : (normalizeCost so c).isValid = true := by
    have h1 : eq (normalizeCost so c).cost maxVal = false := by rw [RealOps.eq_eq_false, hcost]; exact hx
    have h2 := h.pos
    unfold Cost.isValid ne
    rw [h1, normalizeCost_num, hn]
    simpa using h2
  have hb : buildSystem so P w1 ⟨sn, sg, sH, sc⟩ x = (true, ⟨sn, tmv (J x) (r x), gram (J x), normalizeCost so c⟩, w2) := by
    unfold buildSystem gnAccumulate
    rw [show P.acc.full w1 x sn (fun _ => ofInt 0) (fun _ _ => ofInt 0) = _ from by simpa using hu]
    simp only [hv, if_true]
    rw [if_neg hmin.pass]
    rw [Unclipped.clamp (so := so) (Or.inl hclip), symUpper_of_sym (gram_sym (J x))]
    split <;> rfl
  obtain ⟨v, h1, h2⟩ := gnSolve_pd (so := so) hL (P.dims == some 1) ⟨sn, tmv (J x) (r x), gram (J x), normalizeCost so c⟩ hv (gram_pd hJ) hone
  exact ⟨⟨sn, tmv (J x) (r x), gram (J x), normalizeCost so c⟩, v, ⟨⟨_, w1, w2, hr, hb⟩, h1, rfl, rfl, fun q => ⟨_, rfl⟩, ⟨_, rfl⟩⟩, rfl, hcost, h2⟩

/-- Gauss-Newton ends at `p`, a zero of the residuals, if the step to the zero of the linearised residuals leads there. -/
theorem gn_lands (h : NlsOn P r J φ) (hp1 : OneParam P.plusEq n) (hL : ExactLinAlg L) (hclip : so.gradClip = 0) {x0 p : X}
    (hJ : ∀ x, x = x0 ∨ x = p → (∀ v, mv (J x) v = 0 → v = 0) ∧ Solves so (P.dims == some 1) (gram (J x)) ∧ DiagOk so (gram (J x)))
    {d0 : Vec ℝ n} (hd0 : mv (J x0) d0 = -r x0) (hland : P.plusEq x0 ⟨n, d0⟩ = p) (hrp : r p = 0)
    (s : GNState ℝ R) (hs : P.dims = none ∨ s.n = n) (fuel : Nat) (mi k : Int) (hk : loopBound o mi = some k)
    (w : W) (hx0 : nCost so m (φ (dotR (r x0) (r x0))) < maxVal) :
    ∃ st, optimizeAcc (gnEnv so L P) o (fuel + 1) mi w s x0 = .ok st ∧ st.x = p ∧ ∀ i t, st.trace[i]? = some t → 0 < i → t.x = p := by
  have hpd : ∀ x, x = x0 ∨ x = p → PD (gram (J x)) := fun x hx => gram_pd (hJ x hx).1
  have h00 : dotR (r p) (r p) = 0 := by rw [hrp]; simp [dotR]
  have htm : ∀ v : Vec ℝ m, ∀ A : Fin m → Fin n → ℝ, tmv A (-v) = -tmv A v := fun v A => by funext j; simp [tmv]
  have hgram0 : mv (gram (J x0)) d0 = -tmv (J x0) (r x0) := by rw [mv_gram, hd0, htm]
  have hlt : nCost so m (φ (dotR (r p) (r p))) < nCost so m (φ (dotR (r x0) (r x0))) ∨ d0 = 0 := by
    by_cases hr0 : r x0 = 0
    · right
      exact (hJ x0 (Or.inl rfl)).1 d0 (by rw [hd0, hr0, neg_zero])
    · left
      rw [nCost_lt (h.nonneg _ (dotR_self_nonneg _)) (h.nonneg _ (dotR_self_nonneg _))]
      refine h.mono _ _ (dotR_self_nonneg _) ?_
      rw [h00]
      exact lt_of_le_of_ne (dotR_self_nonneg _) fun e => hr0 (dotR_self_eq_zero e.symm)
  have hxp : nCost so m (φ (dotR (r p) (r p))) < maxVal := by
    rcases hlt with h1 | h1
    · exact h1.trans hx0
    · rw [h1, hp1.zero] at hland
      rw [← hland]; exact hx0
  have hzero : ∀ dx : Vec ℝ n, mv (gram (J p)) dx = -tmv (J p) (r p) → dx = 0 := by
    intro dx hdx
    have : tmv (J p) (r p) = 0 := by rw [hrp]; funext j; simp [tmv]
    rw [this, neg_zero, ← mv_zero (gram (J p))] at hdx
    exact pd_inj (hpd p (Or.inr rfl)) hdx
  have hback : P.plusEq p ⟨n, negVec 0⟩ = p := by
    have : negVec (0 : Vec ℝ n) = 0 := by funext i; simp [negVec]
    rw [this, hp1.zero]
  let T : LoopSt ℝ R W (GNState ℝ R) X (DVec ℝ) (DMat ℝ) → Prop := fun st => ∀ i t, st.trace[i]? = some t → 0 < i → t.x = p
  obtain ⟨st, st0, e, hj, h1, h2, h3⟩ := run_works (E := gnEnv so L P) (o := o) (fuel := fuel + 1) (mi := mi) (m := k) (w := w) (s := s) (x := x0)
    (I := fun st => st.out.numConsec ≤ maxTries o ∧ (P.dims = none ∨ st.s.n = n) ∧
      ((st.trace = [] ∧ st.x = x0 ∧ st.lastDx = none ∧ st.out.numIters = 0) ∨
       (st.trace ≠ [] ∧ st.x = p ∧ T st ∧ ∀ d, st.lastDx = some d → d = ⟨n, 0⟩ ∨ nCost so m (φ (dotR (r p) (r p))) < st.out.finalCost.cost)))
    (J := fun st => st.x = p ∧ T st)
    (fun last st _ hI => by
      obtain ⟨hc, hsz, hI⟩ := hI
      have hat : st.x = x0 ∨ st.x = p := by
        rcases hI with ⟨-, hx, -⟩ | ⟨-, hx, -⟩
        · exact Or.inl hx
        · exact Or.inr hx
      have hnm : nCost so m (φ (dotR (r st.x) (r st.x))) ≠ maxVal := by
        rcases hat with hx | hx
        · rw [hx]; exact hx0.ne
        · rw [hx]; exact hxp.ne
      obtain ⟨a1, a2, a3⟩ := hJ _ hat
      obtain ⟨s2, dx, hdel, hn2, hc2, hdx⟩ := h.gn_delivers hL hclip st.x a1 a2 a3 st.w st.s hsz hnm
      obtain ⟨st', succ, mdx, s3, hb, hw⟩ := body_works (o := o) (fuel := fuel) (last := last) hdel hc
      have hs3 : s3 = s2 := by
        have := hw.hook
        split at this
        · rcases this with ⟨q, h⟩ | h
          · injection h with h; exact h.symm
          · injection h with h; exact h.symm
        · exact this
      have hsz' : P.dims = none ∨ st'.s.n = n := by
        right
        rw [hw.solver, hs3]; exact hn2
      obtain ⟨q, htr, hrx, -, -, -⟩ := hw.trace
      have hne' : st'.trace ≠ [] := by rw [htr]; simp
      have hT : st.x = p ∧ T st ∨ st.trace = [] → T st' := by
        intro h0 i t hq hi
        rw [htr] at hq
        rcases h0 with ⟨hx, hT⟩ | h0
        · by_cases hlt : i < st.trace.length
          · rw [List.getElem?_append_left hlt] at hq; exact hT i t hq hi
          · have : i = st.trace.length := by
              have := (List.getElem?_eq_some_iff.mp hq).1
              simp at this; omega
            subst this
            rw [List.getElem?_append_right (le_refl _)] at hq
            simp only [Nat.sub_self, List.getElem?_cons_zero] at hq
            rw [← Option.some.inj hq, hrx, hx]
        · rw [h0] at hq
          have := (List.getElem?_eq_some_iff.mp hq).1
          simp at this; omega
      have hup := hw.upd
      suffices hmain : st'.x = p ∧ (∀ d, st'.lastDx = some d → d = ⟨n, 0⟩ ∨ nCost so m (φ (dotR (r p) (r p))) < st'.out.finalCost.cost) by
        refine ⟨st', hb, fun hn _ => ⟨hw.consec hn, hsz', Or.inr ⟨hne', hmain.1, ?_, hmain.2⟩⟩, hmain.1, ?_⟩
        · rcases hI with ⟨h0, -⟩ | ⟨-, hx, hT', -⟩
          · exact hT (Or.inr h0)
          · exact hT (Or.inl ⟨hx, hT'⟩)
        · rcases hI with ⟨h0, -⟩ | ⟨-, hx, hT', -⟩
          · exact hT (Or.inr h0)
          · exact hT (Or.inl ⟨hx, hT'⟩)
      rcases hI with ⟨h0, hx, hl, hit⟩ | ⟨-, hx, -, hl⟩
      · -- first iteration
        rw [hx] at hdx hc2
        have hdd : dx = d0 := pd_inj (hpd x0 (Or.inl rfl)) (hdx.trans hgram0.symm)
        have hm' : mdx = some ⟨n, dx⟩ := hw.isMdx.resolve_right (by rintro ⟨-, -, h, -⟩; omega)
        have hfc : st'.out.finalCost.cost = nCost so m (φ (dotR (r x0) (r x0))) := by
          rw [hw.finalCost, hit]
          simp only [beq_self_eq_true, Bool.or_true, if_true]
          exact hc2
        have hxx : P.plusEq st.x ⟨n, dx⟩ = p := by rw [hx, hdd, hland]
        have hlast : (⟨n, dx⟩ : DVec ℝ) = ⟨n, 0⟩ ∨ nCost so m (φ (dotR (r p) (r p))) < st'.out.finalCost.cost := by
          rw [hfc]
          rcases hlt with h1 | h1
          · exact Or.inr h1
          · left; rw [hdd, h1]
        rw [hm', hl] at hup
        generalize st'.x = x1 at hup ⊢
        generalize st'.lastDx = l1 at hup ⊢
        generalize st'.lastSucc = b1 at hup
        generalize hsd : (some (⟨n, dx⟩ : DVec ℝ)) = sd at hup
        cases hup with
        | succ dx' =>
          obtain rfl := Option.some.inj hsd
          exact ⟨hxx, fun d hd => by rw [← Option.some.inj hd]; exact hlast⟩
        | roll d _ h' => cases h'
        | adv dx' h' =>
          obtain rfl := Option.some.inj hsd
          exact ⟨hxx, fun d hd => by rw [← Option.some.inj hd]; exact hlast⟩
        | stay h' => cases hsd
      · -- later iterations
        rw [hx] at hdx hc2
        have hdx0 := hzero dx hdx
        subst hdx0
        have hpp : P.plusEq st.x ⟨n, 0⟩ = p := by rw [hp1.zero, hx]
        have hmd : ∀ d, mdx = some d → d = ⟨n, 0⟩ := by
          intro d hd
          rcases hw.isMdx with hm | ⟨hm, -⟩
          · rw [hm] at hd; exact (Option.some.inj hd).symm
          · rw [hm] at hd; cases hd
        have hsu := hw.isSucc
        generalize st'.x = x1 at hup ⊢
        generalize st'.lastDx = l1 at hup ⊢
        generalize st'.lastSucc = b1 at hup
        cases hup with
        | succ dx' =>
          have := hmd _ rfl
          subst this
          exact ⟨hpp, fun d hd => Or.inl (Option.some.inj hd).symm⟩
        | roll d _ h' =>
          rcases hl d h' with rfl | hlt
          · refine ⟨?_, fun d hd => by cases hd⟩
            show P.plusEq st.x ⟨n, negVec 0⟩ = p
            rw [hx]; exact hback
          · have h5 : lt (sub (s2.cost).cost st.out.finalCost.cost) (ofInt 0) = true := by
              rw [hc2]; simp; linarith
            have h6 : false = lt (sub (s2.cost).cost st.out.finalCost.cost) (ofInt 0) := hsu
            rw [h5] at h6; cases h6
        | adv dx' h' =>
          have := hmd _ rfl
          subst this
          exact ⟨hpp, fun d hd => Or.inl (Option.some.inj hd).symm⟩
        | stay h' => exact ⟨hx, fun d hd => by cases hd⟩)
    hk ⟨Nat.zero_le _, hs, Or.inl ⟨rfl, rfl, rfl, rfl⟩⟩
  refine ⟨st, e, by rw [h1]; exact hj.1, ?_⟩
  rw [h2]; exact hj.2

end

/-! ### The logarithm -/

section
variable {R W X : Type} {n : Nat}

/-- `r` is the logarithm of `p^-1 x`: where `x` is `p` moved by a small `v`, `r` is `v`. -/
structure IsLog (plus : X → DVec ℝ → X) (p : X) (r : X → Vec ℝ n) (U : Set (Vec ℝ n)) : Prop where
  isOpen : IsOpen U
  zero : (0 : Vec ℝ n) ∈ U
  log : ∀ v ∈ U, r (plus p ⟨n, v⟩) = v

/-- the Jacobian is the derivative of the residuals with respect to the update (what automatic and numerical differentiation compute) -/
def IsJac {m : Nat} (plus : X → DVec ℝ → X) (r : X → Vec ℝ m) (J : X → Fin m → Fin n → ℝ) (x : X) : Prop :=
  ∀ v : Vec ℝ n, HasDerivAt (fun t : ℝ => r (plus x ⟨n, t • v⟩)) (mv (J x) v) 0

/-- the derivative of a logarithm maps the logarithm to itself -/
theorem jac_log {plus : X → DVec ℝ → X} (h1 : OneParam plus n) {p : X} {r : X → Vec ℝ n} {U : Set (Vec ℝ n)} (h : IsLog plus p r U)
    {J : X → Fin n → Fin n → ℝ} {v : Vec ℝ n} (hv : v ∈ U) (hJ : IsJac plus r J (plus p ⟨n, v⟩)) : mv (J (plus p ⟨n, v⟩)) v = v := by
  have hd := hJ v
  have he : (fun t : ℝ => r (plus (plus p ⟨n, v⟩) ⟨n, t • v⟩)) =ᶠ[𝓝 0] fun t => (1 + t) • v := by
    have hc : ContinuousAt (fun t : ℝ => (1 + t) • v) 0 := by fun_prop
    have : ∀ᶠ t : ℝ in 𝓝 0, (1 + t) • v ∈ U := hc.eventually (by simpa using h.isOpen.mem_nhds hv)
    refine this.mono fun t ht => ?_
    have := h1.add p v 1 t
    rw [one_smul] at this
    simp only
    rw [this, h.log _ ht]
  have hd' : HasDerivAt (fun t : ℝ => (1 + t) • v) v 0 := by
    have := ((hasDerivAt_id (0 : ℝ)).const_add 1).smul_const v
    simpa using this
  exact (hd.congr_of_eventuallyEq he.symm).unique hd'

variable {so : SolverOpts ℝ} {L : LinAlg ℝ} {P : Problem ℝ R W X} {o : Options ℝ W (DVec ℝ)} {r : X → Vec ℝ n} {J : X → Fin n → Fin n → ℝ} {φ : ℝ → ℝ}

/-- **C88**: with the logarithm of `p^-1 x` as residuals, in exact arithmetic, a Gauss-Newton run (whatever the options and stop criteria) that starts where the
logarithm is defined ends normally at the prior `p`; all iterations but the first start there. The Jacobian need not be the derivative: it must not change the logarithm itself. -/
theorem C88_prior_one_step (h : NlsOn P r J φ) (h1 : OneParam P.plusEq n) {p : X} {U : Set (Vec ℝ n)} (hlog : IsLog P.plusEq p r U)
    {v : Vec ℝ n} (hv : v ∈ U) (hjac : mv (J (P.plusEq p ⟨n, v⟩)) v = v) (hL : ExactLinAlg L) (hclip : so.gradClip = 0)
    (hJ : ∀ x, x = P.plusEq p ⟨n, v⟩ ∨ x = p → (∀ u, mv (J x) u = 0 → u = 0) ∧ Solves so (P.dims == some 1) (gram (J x)) ∧ DiagOk so (gram (J x)))
    (s : GNState ℝ R) (hs : P.dims = none ∨ s.n = n) (fuel : Nat) (mi k : Int) (hk : loopBound o mi = some k)
    (w : W) (hx0 : nCost so n (φ (dotR v v)) < maxVal) :
    ∃ st, optimizeAcc (gnEnv so L P) o (fuel + 1) mi w s (P.plusEq p ⟨n, v⟩) = .ok st ∧ st.x = p ∧ ∀ i t, st.trace[i]? = some t → 0 < i → t.x = p := by
  have hr : r (P.plusEq p ⟨n, v⟩) = v := hlog.log v hv
  have hrp : r p = 0 := by
    have := hlog.log 0 hlog.zero
    rwa [h1.zero] at this
  refine gn_lands h h1 hL hclip hJ (d0 := -v) ?_ ?_ hrp s hs fuel mi k hk w (by rw [hr]; exact hx0)
  · have : mv (J (P.plusEq p ⟨n, v⟩)) (-v) = -mv (J (P.plusEq p ⟨n, v⟩)) v := by funext i; simp [mv]
    rw [this, hjac, hr]
  · have := h1.add p v 1 (-1)
    rw [one_smul, add_neg_cancel, zero_smul, h1.zero, neg_one_smul] at this
    exact this

/-- **C88** with the Jacobian of automatic or numerical differentiation. -/
theorem C88_prior_derivative (h : NlsOn P r J φ) (h1 : OneParam P.plusEq n) {p : X} {U : Set (Vec ℝ n)} (hlog : IsLog P.plusEq p r U)
    {v : Vec ℝ n} (hv : v ∈ U) (hjac : IsJac P.plusEq r J (P.plusEq p ⟨n, v⟩)) (hL : ExactLinAlg L) (hclip : so.gradClip = 0)
    (hJ : ∀ x, x = P.plusEq p ⟨n, v⟩ ∨ x = p → (∀ u, mv (J x) u = 0 → u = 0) ∧ Solves so (P.dims == some 1) (gram (J x)) ∧ DiagOk so (gram (J x)))
    (s : GNState ℝ R) (hs : P.dims = none ∨ s.n = n) (fuel : Nat) (mi k : Int) (hk : loopBound o mi = some k)
    (w : W) (hx0 : nCost so n (φ (dotR v v)) < maxVal) :
    ∃ st, optimizeAcc (gnEnv so L P) o (fuel + 1) mi w s (P.plusEq p ⟨n, v⟩) = .ok st ∧ st.x = p ∧ ∀ i t, st.trace[i]? = some t → 0 < i → t.x = p :=
  C88_prior_one_step h h1 hlog hv (jac_log h1 hlog hv hjac) hL hclip hJ s hs fuel mi k hk w hx0

end

/-! ### Example: angles -/

/-- rotations of the plane as complex numbers of norm 1 -/
noncomputable def circPlus (x : ℂ) (d : DVec ℝ) : ℂ := if h : d.n = 1 then x * Complex.exp (d.v (Fin.cast h.symm 0) * Complex.I) else x

theorem circPlus_one (x : ℂ) (v : Vec ℝ 1) : circPlus x ⟨1, v⟩ = x * Complex.exp (v 0 * Complex.I) := by
  simp only [circPlus, dif_pos]
  rfl

theorem oneParam_circ : OneParam circPlus 1 where
  add x v a b := by
    rw [circPlus_one, circPlus_one, circPlus_one, mul_assoc, ← Complex.exp_add]
    congr 2
    simp only [Pi.smul_apply, smul_eq_mul, Complex.ofReal_mul, Complex.ofReal_add]
    ring
  zero x := by rw [circPlus_one]; simp
  other x d h := by rw [circPlus, dif_neg h]

theorem arg_exp {a : ℝ} (h : |a| < Real.pi) : (Complex.exp (a * Complex.I)).arg = a := by
  rw [Complex.arg_exp_mul_I, toIocMod_eq_self]
  have := abs_lt.1 h
  exact ⟨this.1, by linarith [this.2]⟩

theorem isLog_circ : IsLog circPlus 1 (fun x (_ : Fin 1) => x.arg) {v | |v 0| < Real.pi} where
  isOpen := isOpen_lt (by fun_prop) continuous_const
  zero := by simpa using Real.pi_pos
  log v hv := by
    funext i
    rw [circPlus_one, one_mul, arg_exp hv, Fin.fin_one_eq_zero i]

theorem isJac_circ (v : Vec ℝ 1) (hv : |v 0| < Real.pi) :
    IsJac circPlus (fun x (_ : Fin 1) => x.arg) (fun _ _ (_ : Fin 1) => (1 : ℝ)) (circPlus 1 ⟨1, v⟩) := by
  intro u
  have he : (fun (t : ℝ) (_ : Fin 1) => (circPlus (circPlus 1 ⟨1, v⟩) ⟨1, t • u⟩).arg) =ᶠ[𝓝 0] fun t _ => v 0 + t * u 0 := by
    have hc : ContinuousAt (fun t : ℝ => |v 0 + t * u 0|) 0 := by fun_prop
    have : ∀ᶠ t : ℝ in 𝓝 0, |v 0 + t * u 0| < Real.pi := hc.eventually_lt_const (by simpa using hv)
    refine this.mono fun t ht => ?_
    funext i
    show (circPlus (circPlus 1 ⟨1, v⟩) ⟨1, t • u⟩).arg = v 0 + t * u 0
    rw [circPlus_one, circPlus_one, one_mul, ← Complex.exp_add, ← add_mul]
    have : ((v 0 : ℝ) : ℂ) + (((t • u) 0 : ℝ) : ℂ) = ((v 0 + t * u 0 : ℝ) : ℂ) := by
      simp only [Pi.smul_apply, smul_eq_mul, Complex.ofReal_mul, Complex.ofReal_add]
    rw [this, arg_exp ht]
  refine HasDerivAt.congr_of_eventuallyEq ?_ he
  have e : mv (fun (_ : Fin 1) (_ : Fin 1) => (1 : ℝ)) u = fun _ => u 0 := by funext i; simp [mv]
  rw [e, hasDerivAt_pi]
  intro i
  have := ((hasDerivAt_id (0 : ℝ)).mul_const (u 0)).const_add (v 0)
  simpa using this

/-- From an angle of one radian Gauss-Newton finds the angle 0. -/
example (k : Nat) (hk : k < 100) : ∃ st, optimizeAcc (gnEnv soptsR someLinAlg (nlsOnProb circPlus (fun x (_ : Fin 1) => x.arg) fun _ _ (_ : Fin 1) => (1 : ℝ)))
    (optsR k) 1 (-1) () ⟨1, fun _ => 7, fun _ _ => 7, { cost := 0, num := 0, inlier := 1 }⟩ (Complex.exp (1 * Complex.I)) = .ok st ∧ st.x = 1 := by
  have hN : NlsOn (nlsOnProb circPlus (fun x (_ : Fin 1) => x.arg) fun _ _ (_ : Fin 1) => (1 : ℝ)) (fun x (_ : Fin 1) => x.arg) (fun _ _ (_ : Fin 1) => (1 : ℝ)) id :=
    { dyn := fun _ => rfl
      size := Or.inl rfl
      pos := by norm_num
      nonneg := fun _ h => h
      mono := fun _ _ _ h => h
      full := fun w x => ⟨{ cost := dotR (fun _ => x.arg) fun _ => x.arg, num := 1, inlier := 1 }, w, by
        simp only [nlsOnProb, Prod.mk.injEq, and_true]
        refine ⟨rfl, ?_, ?_⟩
        · funext i; rw [Fin.fin_one_eq_zero i]; simp
        · funext i j; rw [Fin.fin_one_eq_zero i, Fin.fin_one_eq_zero j]; simp, rfl, rfl⟩ }
  have h1 : |((fun _ => 1 : Vec ℝ 1) 0)| < Real.pi := by
    have := Real.two_le_pi
    simp only [abs_one]; linarith
  have hb : loopBound (optsR k) (-1) = some ((k : Int) + 1) := by
    simp only [loopBound, optsR, intMax]
    norm_num
    omega
  obtain ⟨st, e, hx, -⟩ := C88_prior_derivative (so := soptsR) (o := optsR k) (v := fun _ => 1) hN oneParam_circ isLog_circ h1 (isJac_circ _ h1) someLinAlg_exact rfl
    (fun x _ => ⟨fun u hu => by
      have := congrFun hu 0
      simp only [mv, Finset.univ_unique, Finset.sum_singleton, one_mul] at this
      funext i
      rw [Fin.fin_one_eq_zero i]; exact this, Or.inl rfl, Or.inl le_rfl⟩)
    ⟨1, fun _ => 7, fun _ _ => 7, { cost := 0, num := 0, inlier := 1 }⟩ (Or.inr rfl) 0 (-1) _ hb () (by
      have : nCost soptsR 1 (dotR (fun _ : Fin 1 => (1 : ℝ)) fun _ => 1) = 1 := by
        simp [nCost, normalizeCost, soptsR, dotR]
      rw [id, this]
      exact one_lt_pow₀ (by norm_num) (by norm_num))
  refine ⟨st, ?_, hx⟩
  rw [← e]
  congr 1
  show _ = circPlus 1 ⟨1, fun _ => 1⟩
  rw [circPlus_one, one_mul]
  simp

end Verif
