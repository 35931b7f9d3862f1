import Verif.Props.LmNonlin
import Verif.Props.History
import Verif.Props.Circle
/-!
# C99: with a prior on all parameters every system can be solved

The usual remedy for problems that do not determine all parameters: residuals `κ_j (x_j - μ_j)` in addition to those of the user. Exact arithmetic.
-/

set_option linter.unusedSectionVars false

namespace Verif
open FloatOps Loss

/-! ### Runs of a solver that delivers -/

section
variable {F R W S X V M : Type} [FloatOps F] {E : Env F R W S X V M} {o : Options F W V}

/-- If the solver delivers a step with `Row` at all points that are not in `Bad`, a run does not fail unless it visits `Bad`. `Ok0` is what is known of the solver at
the start, `Ok` later. -/
theorem run_succeeds {Ok0 Ok : S → Prop} {Bad : X → Prop} {Row : X → V → Prop} {k : Int}
    (hdel : ∀ w s x, (Ok0 s ∨ Ok s) → ¬Bad x → ∃ s2 dx, Delivers E w s x s2 dx ∧ Row x dx ∧
      ∀ s3 b, ((∃ q, E.sol.goodStep s2 q = .ok s3) ∨ E.sol.badStep s2 = .ok s3 ∨ (s3 = s2 ∧ (Ok0 s ∨ 65536 < k))) → Ok (E.sol.rebuild s3 b))
    {fuel : Nat} {mi : Int} (hk : loopBound o mi = some k) {w : W} {s : S} {x : X} {st : LoopSt F R W S X V M} (hs : Ok0 s)
    (hr : optimizeAcc E o (fuel + 1) mi w s x = .ok st) :
    (∃ t ∈ st.trace, Bad t.x) ∨ (0 ≤ st.out.stop.code ∧ ∀ t ∈ st.trace, ∀ d, t.dx = some d → Row t.x d) := by
  obtain ⟨m, st0, hm, hj, -, hlen, hst⟩ := run_inv
    (I := fun st => st.out.numIters = st.trace.length % 65536 ∧ ((k ≤ 65536 ∧ 65536 ≤ st.trace.length) ∨ (∃ t ∈ st.trace, Bad t.x) ∨
      (((Ok0 st.s ∧ st.trace = []) ∨ (Ok st.s ∧ st.trace ≠ [])) ∧ st.out.numConsec ≤ maxTries o ∧ ∀ t ∈ st.trace, ∀ d, t.dx = some d → Row t.x d)))
    (J := fun st => (k ≤ 65536 ∧ 65536 < st.trace.length) ∨ (∃ t ∈ st.trace, Bad t.x) ∨
      (0 ≤ st.out.stop.code ∧ ∀ t ∈ st.trace, ∀ d, t.dx = some d → Row t.x d))
    (fun last st st' hno hI hb => by
      obtain ⟨hni, h1⟩ := hI
      have hni' := numIters_inv hb hni
      obtain ⟨succ, mdx, w1, s1, out1, ms, hstep, hbs⟩ := body_spec' hb
      have hlen' : st'.trace.length = st.trace.length + 1 := by rw [hbs.trace]; simp
      have hpast : (∃ t ∈ st.trace, Bad t.x) → ∃ t ∈ st'.trace, Bad t.x := by
        rintro ⟨t, ht, h⟩
        exact ⟨t, by rw [hbs.trace]; exact List.mem_append_left _ ht, h⟩
      rcases h1 with ⟨hk2, h1⟩ | h1 | ⟨hok, hc, hrow⟩
      · exact ⟨fun _ => ⟨hni', Or.inl ⟨hk2, by omega⟩⟩, Or.inl ⟨hk2, by omega⟩⟩
      · exact ⟨fun _ => ⟨hni', Or.inr (Or.inl (hpast h1))⟩, Or.inr (Or.inl (hpast h1))⟩
      by_cases hbad : Bad st.x
      · have : ∃ t ∈ st'.trace, Bad t.x := by
          rw [hbs.trace]
          exact ⟨_, List.mem_append_right _ (List.mem_singleton.2 rfl), hbad⟩
        exact ⟨fun _ => ⟨hni', Or.inr (Or.inl this)⟩, Or.inr (Or.inl this)⟩
      by_cases hlate : k ≤ 65536 ∧ 65536 ≤ st.trace.length
      · exact ⟨fun _ => ⟨hni', Or.inl ⟨hlate.1, by omega⟩⟩, Or.inl ⟨hlate.1, by omega⟩⟩
      obtain ⟨s2, dx, hd, hrw, hkeep⟩ := hdel st.w st.s st.x (by rcases hok with h | h; exacts [Or.inl h.1, Or.inr h.1]) hbad
      obtain ⟨succ', mdx', w', s3, out', e, -, hmdx, h3, -, -, -, h6, -, h8, -⟩ := step_works (o := o) (fuel := fuel) hd hc
      rw [e] at hstep
      injection hstep with hstep
      simp only [Prod.mk.injEq] at hstep
      obtain ⟨⟨rfl, rfl⟩, rfl, rfl, rfl⟩ := hstep
      have hrow' : ∀ t ∈ st'.trace, ∀ d, t.dx = some d → Row t.x d := by
        intro t ht d hd'
        rw [hbs.trace] at ht
        rcases List.mem_append.1 ht with ht | ht
        · exact hrow t ht d hd'
        · rw [List.mem_singleton] at ht
          subst ht
          rcases hmdx with h | ⟨h, -⟩
          · rw [h] at hd'
            injection hd' with hd'
            rw [← hd']; exact hrw
          · rw [h] at hd'; cases hd'
      constructor
      · intro hn
        have hn' : out'.stop = .kNone := timeStop_none (by rw [hbs.out] at hn; exact hn)
        refine ⟨hni', Or.inr (Or.inr ⟨Or.inr ⟨?_, by intro h; rw [h] at hlen'; simp at hlen'⟩, ?_, hrow'⟩)⟩
        · obtain ⟨b, hb⟩ := hbs.solver
          rw [hb]
          refine hkeep s3 b ?_
          split at h3
          · rcases h3 with h3 | h3
            · exact Or.inl h3
            · exact Or.inr (Or.inl h3)
          · rename_i h0
            refine Or.inr (Or.inr ⟨h3, ?_⟩)
            rcases hok with h | h
            · exact Or.inl h.1
            · right
              by_contra hk3
              have hl : st.trace.length ≠ 0 := fun h' => h.2 (List.length_eq_zero_iff.1 h')
              have : st.trace.length < 65536 := by
                by_contra h'
                exact hlate ⟨by omega, by omega⟩
              omega
        · have := h6 hn'
          rw [hbs.out]; exact this
      · refine Or.inr (Or.inr ⟨?_, hrow'⟩)
        have := h8 hno
        rw [hbs.out]
        show 0 ≤ (timeStop o _ out'.stop).code
        unfold timeStop
        split
        · simp [StopReason.code]
        · exact this)
    (show _ from ⟨rfl, Or.inr (Or.inr ⟨Or.inl ⟨hs, rfl⟩, Nat.zero_le _, by intro t ht; cases ht⟩)⟩)
    (show _ from Or.inr (Or.inr ⟨le_refl _, by intro t ht; cases ht⟩)) hr
  rw [hk] at hm
  injection hm with hm
  subst hm
  rw [hst]
  rcases hj with hj | hj | hj
  · have := hlen.1
    omega
  · exact Or.inl hj
  · right
    refine ⟨?_, hj.2⟩
    show 0 ≤ (if st0.out.stop = .kNone ∧ (st0.out.numIters : Int) ≥ k then StopReason.kMaxIters else st0.out.stop).code
    split
    · simp [StopReason.code]
    · exact hj.1

end

/-! ### The residuals with the prior -/

section
variable {m n : Nat}

/-- the residuals of the user, then those of the prior with the means `μ` and the weights `κ` (inverse standard deviations) -/
noncomputable def withPrior (e : Fin m → Expr n) (κ μ : Vec ℝ n) : Fin (m + n) → Expr n :=
  Fin.append e fun j => .op1 (.sMul (κ j)) (.op1 (.subS (μ j)) (.var j))

/-- the Jacobian -/
noncomputable def priorJ (J : Fin m → Fin n → ℝ) (κ : Vec ℝ n) : Fin (m + n) → Fin n → ℝ := Fin.append J fun j => Pi.single j (κ j)

variable {e : Fin m → Expr n} {κ μ : Vec ℝ n}

theorem withPrior_left (i : Fin m) : withPrior e κ μ (Fin.castAdd n i) = e i := Fin.append_left _ _ i

theorem withPrior_right (j : Fin n) (x : Vec ℝ n) :
    (withPrior e κ μ (Fin.natAdd m j)).InDomain x ∧ (withPrior e κ μ (Fin.natAdd m j)).value x = κ j * (x j - μ j) := by
  have : withPrior e κ μ (Fin.natAdd m j) = .op1 (.sMul (κ j)) (.op1 (.subS (μ j)) (.var j)) := Fin.append_right _ _ j
  rw [this]
  simp [Expr.InDomain, dom1, Expr.value, fn1]

theorem withPrior_dom {x : Vec ℝ n} (h : ∀ i, (e i).InDomain x) (i : Fin (m + n)) : (withPrior e κ μ i).InDomain x := by
  refine Fin.addCases (fun i => ?_) (fun j => ?_) i
  · rw [withPrior_left]; exact h i
  · exact (withPrior_right j x).1

theorem withPrior_jac {x : Vec ℝ n} {J : Fin m → Fin n → ℝ} (hJ : HasJac (fun y i => (e i).value y) J x) :
    HasJac (fun y i => (withPrior e κ μ i).value y) (priorJ J κ) x := by
  intro i
  refine Fin.addCases (fun i => ?_) (fun j => ?_) i
  · simp only [withPrior_left]
    have : priorJ J κ (Fin.castAdd n i) = J i := Fin.append_left _ _ i
    rw [this]
    exact hJ i
  · simp only [fun x => (withPrior_right (e := e) (κ := κ) (μ := μ) j x).2]
    have : priorJ J κ (Fin.natAdd m j) = Pi.single j (κ j) := Fin.append_right _ _ j
    rw [this]
    have h1 := (hasGrad_coord j x).comp_deriv (φ := fun t => κ j * (t - μ j)) (d := κ j) (by simpa using ((hasDerivAt_id (x j)).sub_const (μ j)).const_mul (κ j))
    exact h1.congr_J (by funext k; by_cases h : k = j <;> simp [Pi.single_apply, h])

theorem priorJ_mv (J : Fin m → Fin n → ℝ) (κ v : Vec ℝ n) : mv (priorJ J κ) v = Fin.append (mv J v) fun j => κ j * v j := by
  funext i
  refine Fin.addCases (fun i => ?_) (fun j => ?_) i
  · rw [Fin.append_left]
    have : priorJ J κ (Fin.castAdd n i) = J i := Fin.append_left _ _ i
    simp only [mv, this]
  · rw [Fin.append_right]
    have : priorJ J κ (Fin.natAdd m j) = Pi.single j (κ j) := Fin.append_right _ _ j
    simp only [mv, this, Pi.single_apply]
    simp

theorem priorJ_inj (J : Fin m → Fin n → ℝ) (hκ : ∀ j, κ j ≠ 0) (v : Vec ℝ n) (h : mv (priorJ J κ) v = 0) : v = 0 := by
  rw [priorJ_mv] at h
  funext j
  have := congrFun h (Fin.natAdd m j)
  rw [Fin.append_right] at this
  exact (mul_eq_zero.mp this).resolve_left (hκ j)

theorem dot_append (a c : Vec ℝ m) (b d : Vec ℝ n) : dotR (n := m + n) (Fin.append a b) (Fin.append c d) = dotR a c + dotR b d := by
  unfold dotR
  rw [Fin.sum_univ_add]
  simp only [Fin.append_left, Fin.append_right]

/-- a damped step, weighted with the prior, is not longer than the distance to the mean plus half of the norm of the residuals of the user -/
theorem prior_step_le {J : Fin m → Fin n → ℝ} {r : Vec ℝ m} {x d : Vec ℝ n} {l : ℝ} (hl : 0 ≤ l)
    (hd : mv (dampedR l (gram (priorJ J κ))) d = -tmv (priorJ J κ) (Fin.append r fun j => κ j * (x j - μ j))) :
    nrm (fun j => κ j * d j) ≤ nrm (fun j => κ j * (x j - μ j)) + nrm r / 2 := by
  have h1 : dotR d (mv (dampedR l (gram (priorJ J κ))) d) = -dotR (mv (priorJ J κ) d) (Fin.append r fun j => κ j * (x j - μ j)) := by
    rw [hd, dotR_neg, dotR_tmv]
  rw [damped_quad, mv_gram, dotR_tmv, priorJ_mv, dot_append, dot_append] at h1
  have hD : 0 ≤ diagSq (gram (priorJ J κ)) d := Finset.sum_nonneg fun i _ => mul_nonneg (Finset.sum_nonneg fun k _ => mul_self_nonneg _) (sq_nonneg _)
  rw [← nrm_sq, ← nrm_sq] at h1
  have h2 := dotR_le_nrm (mv J d) (-r)
  have h3 := dotR_le_nrm (fun j => κ j * d j) (-fun j => κ j * (x j - μ j))
  rw [dotR_neg, nrm_neg] at h2 h3
  have hlD := mul_nonneg hl hD
  have n1 := nrm_nonneg (mv J d)
  have n2 := nrm_nonneg r
  generalize nrm (mv J d) = a at *
  generalize nrm (fun j => κ j * d j) = k at *
  generalize nrm r = ρ at *
  have n3 := nrm_nonneg (fun j => κ j * (x j - μ j))
  generalize nrm (fun j => κ j * (x j - μ j)) = q at *
  by_contra hlt
  push Not at hlt
  have h4 : k ^ 2 ≤ ρ ^ 2 / 4 + k * q := by nlinarith [sq_nonneg (a - ρ / 2)]
  nlinarith

end

/-! ### The solvers -/

section
variable {R W : Type} {m n : Nat} {so : SolverOpts ℝ} {LA : LinAlg ℝ} {P : Problem ℝ R W (Vec ℝ n)} {o : Options ℝ W (DVec ℝ)} {e : Fin m → Expr n} {κ μ : Vec ℝ n}

/-- the cost with the prior -/
noncomputable def priorCost (e : Fin m → Expr n) (κ μ x : Vec ℝ n) : ℝ := ∑ i, (e i).value x ^ 2 + ∑ j, (κ j * (x j - μ j)) ^ 2

theorem priorCost_eq (x : Vec ℝ n) : dotR (fun i => (withPrior e κ μ i).value x) (fun i => (withPrior e κ μ i).value x) = priorCost e κ μ x := by
  have : (fun i => (withPrior e κ μ i).value x) = Fin.append (fun i => (e i).value x) fun j => κ j * (x j - μ j) := by
    funext i
    refine Fin.addCases (fun i => ?_) (fun j => ?_) i
    · rw [Fin.append_left, withPrior_left]
    · rw [Fin.append_right, (withPrior_right j x).2]
  rw [this, dot_append]
  unfold priorCost dotR
  simp only [pow_two]

theorem prior_value (x : Vec ℝ n) : (fun i => (withPrior e κ μ i).value x) = Fin.append (fun i => (e i).value x) fun j => κ j * (x j - μ j) := by
  funext i
  refine Fin.addCases (fun i => ?_) (fun j => ?_) i
  · rw [Fin.append_left, withPrior_left]
  · rw [Fin.append_right, (withPrior_right j x).2]

/-- the Jacobian of expressions in their domain -/
theorem expr_jac (e : Fin m → Expr n) : ∃ J : Vec ℝ n → Fin m → Fin n → ℝ, ∀ x, (∀ i, (e i).InDomain x) → HasJac (fun y i => (e i).value y) (J x) x := by
  classical
  have : ∀ x, ∃ J : Fin m → Fin n → ℝ, (∀ i, (e i).InDomain x) → HasJac (fun y i => (e i).value y) J x := by
    intro x
    by_cases h : ∀ i, (e i).InDomain x
    · obtain ⟨J, -, hJ⟩ := C36_jacobian e x h
      exact ⟨J, fun _ => hJ⟩
    · exact ⟨0, fun h' => absurd h' h⟩
  choose J hJ using this
  exact ⟨J, hJ⟩

theorem prior_diag (J : Fin m → Fin n → ℝ) (κ : Vec ℝ n) (j : Fin n) : κ j ^ 2 ≤ gram (priorJ J κ) j j := by
  unfold gram
  refine le_trans (le_of_eq ?_) (Finset.single_le_sum (f := fun k => priorJ J κ k j * priorJ J κ k j) (fun k _ => mul_self_nonneg _) (Finset.mem_univ (Fin.natAdd m j)))
  have : priorJ J κ (Fin.natAdd m j) = Pi.single j (κ j) := Fin.append_right _ _ j
  simp only [this, Pi.single_eq_same]
  ring

theorem prior_nls (hP : ADProblem P (withPrior e κ μ)) (hV : VecParams P) (hm : 0 < m + n) {J : Vec ℝ n → Fin m → Fin n → ℝ}
    (hJ : ∀ x, (∀ i, (e i).InDomain x) → HasJac (fun y i => (e i).value y) (J x) x) :
    NonlinLS P (fun x => ∀ i, (e i).InDomain x) (fun y i => (withPrior e κ μ i).value y) (fun x => priorJ (J x) κ) :=
  nonlinLS_of_autodiff hP hV hm fun x hx => ⟨withPrior_dom hx, withPrior_jac (hJ x hx)⟩

/-- Where a run with a prior can fail: a point where a residual of the user is not defined, or the cost is the largest number, by which the library marks invalid costs. -/
def PriorBad (so : SolverOpts ℝ) (e : Fin m → Expr n) (κ μ x : Vec ℝ n) : Prop :=
  (∃ i, ¬(e i).InDomain x) ∨ nCost so (m + n) (priorCost e κ μ x) = maxVal

/-- **C99**, Gauss-Newton. Whatever the residuals of the user, with the prior no run fails, except at points where they are not defined or the cost is the largest number;
no step, weighted with the prior, is longer than the weighted distance to the mean plus half of the norm of the residuals. -/
theorem C99_gn (hP : ADProblem P (withPrior e κ μ)) (hV : VecParams P) (hκ : ∀ j, κ j ≠ 0) (hL : ExactLinAlg LA) (hclip : so.gradClip = 0) (hm : 0 < m + n)
    (hmin : ∀ j, so.checkMinHDiag ≤ κ j ^ 2) (hone : so.useLdlt = true ∨ P.dims ≠ some 1 ∨ ∀ j, eps < κ j ^ 2)
    (s : GNState ℝ R) (hs : P.dims = none ∨ s.n = n) (fuel : Nat) (mi : Int) (w : W) (x0 : Vec ℝ n) {st}
    (hr : optimizeAcc (gnEnv so LA P) o (fuel + 1) mi w s x0 = .ok st) :
    (∃ t ∈ st.trace, PriorBad so e κ μ t.x) ∨
    (st.out.succeeded = true ∧ ∀ t ∈ st.trace, ∀ d : Vec ℝ n, t.dx = some ⟨n, d⟩ →
      nrm (fun j => κ j * d j) ≤ nrm (fun j => κ j * (t.x j - μ j)) + nrm (fun i => (e i).value t.x) / 2) := by
  obtain ⟨J, hJ⟩ := expr_jac e
  have h := prior_nls hP hV hm hJ
  obtain ⟨k, -, hk, -⟩ := optimizeAcc_spec hr
  have key := run_succeeds (E := gnEnv so LA P) (o := o) (k := k) (Ok0 := fun s => P.dims = none ∨ s.n = n) (Ok := fun s => P.dims = none ∨ s.n = n)
    (Bad := PriorBad so e κ μ)
    (Row := fun x d => ∀ d' : Vec ℝ n, d = ⟨n, d'⟩ →
      nrm (fun j => κ j * d' j) ≤ nrm (fun j => κ j * (x j - μ j)) + nrm (fun i => (e i).value x) / 2)
    (fun w s x hok hx => by
      unfold PriorBad at hx
      push Not at hx
      obtain ⟨s2, dx, h1, h2, h3, h4⟩ := nls_gn_delivers h hL hclip w s (or_self_iff.1 hok) x hx.1 (gram_pd (priorJ_inj _ hκ))
        (by
          rcases hone with h | h | h
          · exact Or.inl h
          · right; left
            rw [beq_eq_false_iff_ne]; exact h
          · exact Or.inr (Or.inr fun h0 => (h _).trans_le (prior_diag _ _ _)))
        (Or.inr fun j => (hmin j).trans ((prior_diag _ _ _).trans (le_abs_self _)))
        (by rw [id, priorCost_eq]; exact hx.2)
      refine ⟨s2, ⟨n, dx⟩, h1, ?_, fun s3 b h5 => ?_⟩
      · intro d' hd'
        cases hd'
        refine prior_step_le (J := J x) (l := 0) (le_refl _) ?_
        have h0 : dampedR 0 (gram (priorJ (J x) κ)) = gram (priorJ (J x) κ) := by funext i j; simp [dampedR]
        rw [h0, h4]
        simp only [prior_value]
      · right
        rcases h5 with ⟨q, h5⟩ | h5 | ⟨h5, -⟩
        · injection h5 with h5; subst h5; exact h2
        · injection h5 with h5; subst h5; exact h2
        · subst h5; exact h2) hk hs hr
  rcases key with key | ⟨k1, k2⟩
  · exact Or.inl key
  · refine Or.inr ⟨?_, fun t ht d hd => k2 t ht _ hd d rfl⟩
    exact decide_eq_true k1

/-- what is known of the LM solver before an iteration: it will build a new system, or that of the last iteration is the damped one of some point -/
def LmAny (n : Nat) (J : Vec ℝ n → Fin m → Fin n → ℝ) (s : LMState ℝ R) : Prop :=
  s.rebuild = true ∨ (0 ≤ s.prev ∧ ∃ y mu c g, s.gn = ⟨n, g, dampedR mu (gram (J y)), c⟩ ∧ s.prev ≤ mu)

/-- Levenberg-Marquardt gets a step at every point, from a new system or from that of the last iteration. -/
theorem lm_any_delivers {Ω : Vec ℝ n → Prop} {r : Vec ℝ n → Vec ℝ m} {J : Vec ℝ n → Fin m → Fin n → ℝ} {φ : ℝ → ℝ} (h : NonlinLS P Ω r J φ) (hL : ExactLinAlg LA)
    (hone : so.useLdlt = true ∨ P.dims ≠ some 1)
    (hr0 : so.dampLo ≤ so.dampHi) (hlo : 0 ≤ so.dampLo) (hin : 0 ≤ so.dampInit) (hclip : so.gradClip = 0) (w : W) (s : LMState ℝ R) (hs : P.dims = none ∨ s.gn.n = n)
    (x : Vec ℝ n) (hΩ : Ω x) (hA : ∀ y, PD (gram (J y))) (hmin : DiagOk so (gram (J x)))
    (hx : nCost so m (φ (dotR (r x) (r x))) ≠ maxVal) (hal : Allowed so s.lambda) (hrd : LmAny n J s) :
    ∃ s2 dx, Delivers (lmEnv so LA P) w s x s2 ⟨n, dx⟩ ∧ s2.gn.n = n ∧ s2.lambda = s.lambda ∧ s2.prev = s.prev ∧
      (∃ y mu c g, s2.gn = ⟨n, g, dampedR mu (gram (J y)), c⟩ ∧ s.lambda ≤ mu) ∧
      (s.rebuild = true → mv (dampedR s.lambda (gram (J x))) dx = -tmv (J x) (r x)) := by
  have hl0 : 0 ≤ s.lambda := by
    rcases hal with h1 | h1
    · rw [h1]; exact hin
    · exact hlo.trans h1
  have hpd0 : ∀ y (l : ℝ), 0 ≤ l → PD (dampedR l (gram (J y))) := by
    intro y l hl
    refine damped_pd_mono (gram_psd _) (l := 0) ?_ hl
    have h0 : dampedR 0 (gram (J y)) = gram (J y) := by funext i j; simp [dampedR]
    rw [h0]; exact hA y
  have hone' : ∀ H : Mat ℝ n, Solves so (P.dims == some 1) H := by
    intro H
    rcases hone with h1 | h1
    · exact Or.inl h1
    · right; left
      rw [beq_eq_false_iff_ne]; exact h1
  have hgood : ∀ (s2 : LMState ℝ R) q, ∃ s', lmGood so s2 q = .ok s' := by
    intro s2 q; unfold lmGood; rw [stdClamp_real hr0]; exact ⟨_, rfl⟩
  have hbad : ∀ (s2 : LMState ℝ R), ∃ s', lmBad so s2 = .ok s' := by
    intro s2; unfold lmBad; rw [stdClamp_real hr0]; exact ⟨_, rfl⟩
  by_cases hreb : s.rebuild = true
  · obtain ⟨g1, w1, hr, hn1, -⟩ := resize_works h.toVecParams w s.gn hs
    obtain ⟨c, w2, hb, hc, hv⟩ := nls_build h hclip w1 g1 hn1 x hΩ hmin hx
    have hr' : (lmSolver so LA P).resize w s n = (.done { s with gn := g1 }, w1) := by
      simp only [lmSolver, hr]
    have hb' : lmBuild so P w1 { s with gn := g1 } x = (true, { s with gn := ⟨n, tmv (J x) (r x), dampedR s.lambda (gram (J x)), c⟩ }, w2) := by
      unfold lmBuild
      simp only [hreb, if_true]
      rw [hb]
      simp only [if_true]
      have := lmDamp_ls (R := R) (s := s) hreb hl0 (g := tmv (J x) (r x)) (H := gram (J x)) (c := c)
      rw [hreb] at this
      rw [this]
    obtain ⟨v, h1, h2⟩ := gnSolve_pd (so := so) hL (P.dims == some 1) ⟨n, tmv (J x) (r x), dampedR s.lambda (gram (J x)), c⟩ hv (hpd0 x _ hl0) (hone' _)
    exact ⟨{ s with gn := ⟨n, tmv (J x) (r x), dampedR s.lambda (gram (J x)), c⟩ }, v,
      ⟨⟨_, w1, w2, resizeIfNeeded_works h.toVecParams hr', hb'⟩, h1, rfl, rfl, fun q => hgood _ q, hbad _⟩, rfl, rfl, rfl, ⟨x, s.lambda, c, _, rfl, le_refl _⟩, fun _ => h2⟩
  · obtain ⟨hp0, y, mu, c0, g, hgn, hmu⟩ := hrd.resolve_left hreb
    have hreb' : s.rebuild = false := Bool.not_eq_true _ ▸ hreb
    have hn : s.gn.n = n := by rw [hgn]
    obtain ⟨g1, w1, hr, hn1, hid⟩ := resize_works h.toVecParams w s.gn hs
    have := hid hn
    subst this
    have hr' : (lmSolver so LA P).resize w s n = (.done s, w1) := by
      simp only [lmSolver, hr]
    rcases hev : P.acc.eval w1 x with ⟨c, w2⟩
    have hE := h.eval w1 x hΩ
    rw [hev] at hE
    have hcost : (normalizeCost so c).cost = nCost so m (φ (dotR (r x) (r x))) := by rw [normalizeCost_eq c hE.2, hE.1]
    have hv : (normalizeCost so c).isValid = true := by
      have h1 : eq (normalizeCost so c).cost maxVal = false := by rw [RealOps.eq_eq_false, hcost]; exact hx
      have h2 := h.pos
      unfold Cost.isValid ne
      rw [h1, normalizeCost_num, hE.2]
      simpa using h2
    have hmu0 : 0 ≤ mu := hp0.trans hmu
    obtain ⟨mu', hmu', hdamp⟩ : ∃ mu', s.lambda ≤ mu' ∧
        lmDamp { s with gn := ⟨n, g, dampedR mu (gram (J y)), normalizeCost so c⟩ } = { s with gn := ⟨n, g, dampedR mu' (gram (J y)), normalizeCost so c⟩ } := by
      by_cases hpos : 0 < s.lambda
      · have hk : 1 + s.lambda ≤ (1 + s.lambda) / (1 + s.prev) * (1 + mu) := by
          rw [div_mul_eq_mul_div, le_div_iff₀ (by linarith)]
          exact mul_le_mul_of_nonneg_left (by linarith) (by linarith)
        refine ⟨(1 + s.lambda) / (1 + s.prev) * (1 + mu) - 1, by linarith, ?_⟩
        unfold lmDamp
        simp only [hreb', Bool.false_eq_true, if_false]
        rw [if_pos (by simpa using hpos), ← scale_damped]
        simp
      · have hz : s.lambda = 0 := le_antisymm (not_lt.mp hpos) hl0
        refine ⟨mu, by rw [hz]; exact hmu0, ?_⟩
        unfold lmDamp
        rw [if_neg (by simpa using hpos)]
    have hb' : lmBuild so P w1 s x = (true, { s with gn := ⟨n, g, dampedR mu' (gram (J y)), normalizeCost so c⟩ }, w2) := by
      unfold lmBuild
      simp only [hreb', Bool.false_eq_true, if_false]
      have : lmEvaluate so P w1 s.gn x = (⟨n, g, dampedR mu (gram (J y)), normalizeCost so c⟩, w2) := by
        unfold lmEvaluate; rw [hev, hgn]
      rw [this]
      simp only [hv, if_true]
      rw [hreb'] at hdamp
      rw [hdamp]
    obtain ⟨v, h1, h2⟩ := gnSolve_pd (so := so) hL (P.dims == some 1) ⟨n, g, dampedR mu' (gram (J y)), normalizeCost so c⟩ hv (hpd0 y _ (hl0.trans hmu')) (hone' _)
    exact ⟨{ s with gn := ⟨n, g, dampedR mu' (gram (J y)), normalizeCost so c⟩ }, v,
      ⟨⟨_, w1, w2, resizeIfNeeded_works h.toVecParams hr', hb'⟩, h1, rfl, rfl, fun q => hgood _ q, hbad _⟩, rfl, rfl, rfl, ⟨y, mu', _, _, rfl, hmu'⟩, fun h => absurd h hreb⟩

/-- **C99**, Levenberg-Marquardt, also if all dampings are zero (`damping_init` and the lower end of the range may be zero). -/
theorem C99_lm (hP : ADProblem P (withPrior e κ μ)) (hV : VecParams P) (hκ : ∀ j, κ j ≠ 0) (hL : ExactLinAlg LA) (hclip : so.gradClip = 0) (hm : 0 < m + n)
    (hmin : ∀ j, so.checkMinHDiag ≤ κ j ^ 2) (hone : so.useLdlt = true ∨ P.dims ≠ some 1) (hr0 : so.dampLo ≤ so.dampHi) (hlo : 0 ≤ so.dampLo) (hin : 0 ≤ so.dampInit)
    (s : LMState ℝ R) (hs : P.dims = none ∨ s.gn.n = n) (hreb : s.rebuild = true) (hal : Allowed so s.lambda) (hp0 : 0 ≤ s.prev) (hpl : s.prev ≤ s.lambda)
    (fuel : Nat) (mi k : Int) (hk : loopBound o mi = some k) (hk2 : k ≤ 65536) (w : W) (x0 : Vec ℝ n) {st}
    (hr : optimizeAcc (lmEnv so LA P) o (fuel + 1) mi w s x0 = .ok st) :
    (∃ t ∈ st.trace, PriorBad so e κ μ t.x) ∨ st.out.succeeded = true := by
  obtain ⟨J, hJ⟩ := expr_jac e
  have h := prior_nls hP hV hm hJ
  have key := run_succeeds (E := lmEnv so LA P) (o := o) (k := k)
    (Ok0 := fun s => (P.dims = none ∨ s.gn.n = n) ∧ Allowed so s.lambda ∧ s.rebuild = true ∧ 0 ≤ s.prev ∧ s.prev ≤ s.lambda)
    (Ok := fun s => (P.dims = none ∨ s.gn.n = n) ∧ Allowed so s.lambda ∧ LmAny n (fun x => priorJ (J x) κ) s)
    (Bad := PriorBad so e κ μ) (Row := fun _ _ => True)
    (fun w s x hok hx => by
      unfold PriorBad at hx
      push Not at hx
      have hok' : (P.dims = none ∨ s.gn.n = n) ∧ Allowed so s.lambda ∧ LmAny n (fun x => priorJ (J x) κ) s := by
        rcases hok with ⟨a, b, c, -⟩ | h
        · exact ⟨a, b, Or.inl c⟩
        · exact h
      have hl0 : 0 ≤ s.lambda := by
        rcases hok'.2.1 with h1 | h1
        · rw [h1]; exact hin
        · exact hlo.trans h1
      obtain ⟨s2, dx, h1, h2, h3, h4, ⟨y, mu, c, g, h5, h6⟩, -⟩ := lm_any_delivers h hL hone hr0 hlo hin hclip w s hok'.1 x hx.1 (fun y => gram_pd (priorJ_inj _ hκ))
        (Or.inr fun j => (hmin j).trans ((prior_diag _ _ _).trans (le_abs_self _)))
        (by rw [id, priorCost_eq]; exact hx.2) hok'.2.1 hok'.2.2
      refine ⟨s2, ⟨n, dx⟩, h1, trivial, fun s3 b h7 => ?_⟩
      have key : s3.gn = s2.gn ∧ Allowed so s3.lambda ∧ 0 ≤ s3.prev ∧ s3.prev ≤ s.lambda := by
        have hook : ((∃ q, lmGood so s2 q = .ok s3) ∨ lmBad so s2 = .ok s3) → s3.gn = s2.gn ∧ Allowed so s3.lambda ∧ 0 ≤ s3.prev ∧ s3.prev ≤ s.lambda := by
          intro h7
          obtain ⟨a1, a2, a3⟩ := lm_hook hr0 h7
          exact ⟨a1, Or.inr a3, by rw [a2, h3]; exact hl0, by rw [a2, h3]⟩
        rcases h7 with h7 | h7 | ⟨rfl, h7⟩
        · exact hook (Or.inl h7)
        · exact hook (Or.inr h7)
        · rcases h7 with ⟨-, -, -, h8, h9⟩ | h7
          · exact ⟨rfl, by rw [h3]; exact hok'.2.1, by rw [h4]; exact h8, by rw [h4]; exact h9⟩
          · omega
      exact ⟨Or.inr (by show s3.gn.n = n; rw [key.1]; exact h2), key.2.1, Or.inr ⟨key.2.2.1, y, mu, c, g, by show s3.gn = _; rw [key.1]; exact h5, key.2.2.2.trans h6⟩⟩)
    hk ⟨hs, hal, hreb, hp0, hpl⟩ hr
  rcases key with key | ⟨k1, -⟩
  · exact Or.inl key
  · exact Or.inr (decide_eq_true k1)

/-- **C99**, affine residuals of any rank (there may be fewer of them than parameters, or none): with the prior the first Gauss-Newton step reaches the only minimum. -/
theorem C99_linear {A : Fin m → Fin n → ℝ} {b : Vec ℝ m} (hP : ADProblem P (withPrior e κ μ)) (hV : VecParams P) (hκ : ∀ j, κ j ≠ 0) (hL : ExactLinAlg LA)
    (he : ∀ y i, (e i).InDomain y ∧ (e i).value y = mv A y i - b i) (hclip : so.gradClip = 0) (hm : 0 < m + n)
    (hmin : ∀ j, so.checkMinHDiag ≤ κ j ^ 2) (hone : so.useLdlt = true ∨ P.dims ≠ some 1 ∨ ∀ j, eps < κ j ^ 2)
    (s : GNState ℝ R) (hs : P.dims = none ∨ s.n = n) (fuel : Nat) (mi k : Int) (hk : loopBound o mi = some k)
    (w : W) (x0 : Vec ℝ n) (hx0 : nCost so (m + n) (priorCost e κ μ x0) < maxVal) :
    ∃ xs, (∀ y, y ≠ xs → priorCost e κ μ xs < priorCost e κ μ y) ∧
      ∃ st, optimizeAcc (gnEnv so LA P) o (fuel + 1) mi w s x0 = .ok st ∧ st.x = xs ∧ ∀ i r, st.trace[i]? = some r → 0 < i → r.x = xs := by
  have hc : ∀ y, sumSq (fun y i => (withPrior e κ μ i).value y) y = priorCost e κ μ y := by
    intro y
    rw [← priorCost_eq]
    simp [sumSq, dotR, pow_two]
  have hv : ∀ y i, (withPrior e κ μ i).InDomain y ∧ (withPrior e κ μ i).value y = mv (priorJ A κ) y i - (Fin.append b fun j => κ j * μ j : Vec ℝ (m + n)) i := by
    intro y i
    refine ⟨withPrior_dom (fun i => (he y i).1) i, ?_⟩
    rw [priorJ_mv]
    refine Fin.addCases (fun i => ?_) (fun j => ?_) i
    · rw [Fin.append_left, Fin.append_left, withPrior_left]; exact (he y i).2
    · rw [Fin.append_right, Fin.append_right, (withPrior_right j y).2]; ring
  have := C58_gn_affine_autodiff (o := o) (so := so) hL hP hV hm hv (priorJ_inj A hκ)
    (by
      rcases hone with h | h | h
      · exact Or.inl h
      · right; left
        rw [beq_eq_false_iff_ne]; exact h
      · exact Or.inr (Or.inr fun h0 => (h _).trans_le (prior_diag _ _ _)))
    (Or.inr fun j => (hmin j).trans ((prior_diag _ _ _).trans (le_abs_self _))) hclip s hs fuel mi k hk w x0 (by rw [hc]; exact hx0)
  simp only [hc] at this
  exact this

end

/-! ### Non-vacuity -/

/-- one residual for two parameters: the product of both -/
def prodE : Fin 1 → Expr 2 := fun _ => .op2 .mul (.var 0) (.var 1)

/-- one affine residual for two parameters -/
noncomputable def sumE : Fin 1 → Expr 2 := fun _ => .op1 (.subS 3) (.op2 .add (.var 0) (.var 1))

/-- without the prior no system of either problem can be solved -/
example (J : Fin 1 → Fin 2 → ℝ) : ¬PD (gram J) := by
  intro h
  have h2 := h.2 ![J 0 1, -J 0 0]
  rw [mv_gram, dotR_tmv] at h2
  by_cases h0 : (![J 0 1, -J 0 0] : Vec ℝ 2) = 0
  · have h3 := h.2 ![1, 1] (by intro h; have := congrFun h 0; simp at this)
    have a := congrFun h0 0
    have b := congrFun h0 1
    simp at a b
    rw [mv_gram, dotR_tmv] at h3
    simp [dotR, mv, Fin.sum_univ_succ, a, b] at h3
  · have h3 := h2 h0
    simp [dotR, mv, Fin.sum_univ_succ] at h3
    have : J 0 0 * J 0 1 + -(J 0 1 * J 0 0) = 0 := by ring
    simp [this] at h3

/-- with it the hypotheses of `C99_gn` and `C99_lm` hold, and the points with residuals that are not defined are none -/
example : ADProblem (adProbV (withPrior prodE (fun _ => 1 / 10) fun _ => 1)) (withPrior prodE (fun _ => 1 / 10) fun _ => 1) ∧
    VecParams (adProbV (withPrior prodE (fun _ => 1 / 10) fun _ => 1)) ∧ ExactLinAlg someLinAlg ∧ soptsLM.gradClip = 0 ∧ soptsLM.checkMinHDiag ≤ (1 / 10) ^ 2 ∧
    soptsLM.useLdlt = true ∧ soptsLM.dampLo ≤ soptsLM.dampHi ∧ 0 ≤ soptsLM.dampLo ∧ 0 ≤ soptsLM.dampInit ∧ (∀ (x : Vec ℝ 2) i, (prodE i).InDomain x) ∧
    ∀ g H, let s := lmFresh soptsLM (adProbV (withPrior prodE (fun _ => 1 / 10) fun _ => 1)) g H
      s.gn.n = 2 ∧ s.rebuild = true ∧ Allowed soptsLM s.lambda ∧ 0 ≤ s.prev ∧ s.prev ≤ s.lambda := by
  refine ⟨adProbV_ad _, adProbV_vec _, someLinAlg_exact, rfl, ?_, rfl, ?_, ?_, ?_, fun x i => ⟨trivial, trivial, Or.inl trivial⟩, fun g H => ⟨rfl, rfl, Or.inl rfl, ?_, ?_⟩⟩
  · norm_num [soptsLM, soptsR]
  · norm_num [soptsLM]
  · norm_num [soptsLM]
  · norm_num [soptsLM]
  · simp [lmFresh, lmReset]
  · simp [lmFresh, lmReset, soptsLM]

/-- a run on the affine residual: one equation for two parameters, and the run ends at the only minimum, which is (7/6, 7/6) -/
example (g H) : ∃ st, optimizeAcc (gnEnv soptsR someLinAlg (adProbV (withPrior sumE (fun _ => 1) fun _ => 1 / 2))) (optsR 10) 1 (-1) ()
      (gnFresh (adProbV (withPrior sumE (fun _ => 1) fun _ => 1 / 2)) g H) (fun _ => 0) = .ok st ∧ st.x = fun _ => 7 / 6 := by
  have hv : ∀ (y : Vec ℝ 2) i, (sumE i).InDomain y ∧ (sumE i).value y = mv (fun (_ : Fin 1) (_ : Fin 2) => (1 : ℝ)) y i - (fun _ => 3 : Vec ℝ 1) i := by
    intro y i
    refine ⟨⟨⟨trivial, trivial, Or.inl trivial⟩, Or.inl trivial⟩, ?_⟩
    simp [sumE, Expr.value, fn1, fn2, mv, Fin.sum_univ_succ]
  have hc : ∀ y : Vec ℝ 2, priorCost sumE (fun _ => 1) (fun _ => 1 / 2) y = (y 0 + y 1 - 3) ^ 2 + ((y 0 - 1 / 2) ^ 2 + (y 1 - 1 / 2) ^ 2) := by
    intro y
    simp [priorCost, sumE, Expr.value, fn1, fn2, Fin.sum_univ_succ]
  obtain ⟨xs, h1, st, h2, h3, -⟩ := C99_linear (o := optsR 10) (so := soptsR) (LA := someLinAlg) (adProbV_ad (withPrior sumE (fun _ => 1) fun _ => 1 / 2)) (adProbV_vec _)
    (fun _ => one_ne_zero) someLinAlg_exact hv rfl (by norm_num) (fun _ => by norm_num [soptsR]) (Or.inl rfl)
    (gnFresh (adProbV (withPrior sumE (fun _ => 1) fun _ => 1 / 2)) g H) (Or.inr rfl) 0 (-1) _ (loopBound_optsR 10 (by norm_num) (by norm_num)) () (fun _ => 0) (by
      rw [hc]
      show nCost soptsR _ _ < 2 ^ 1024
      norm_num [nCost, normalizeCost, soptsR]
      exact lt_of_lt_of_le (by norm_num : (19 / 2 : ℝ) < 2 ^ 4) (pow_le_pow_right₀ (by norm_num) (by norm_num)))
  refine ⟨st, h2, ?_⟩
  rw [h3]
  by_contra hne
  have := h1 (fun _ => 7 / 6) (Ne.symm hne)
  rw [hc, hc] at this
  nlinarith [sq_nonneg (xs 0 - xs 1), sq_nonneg (xs 0 + xs 1 - 7 / 3)]

end Verif
