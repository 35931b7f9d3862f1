import Verif.Props.Failures
import Verif.Props.Indefinite
import Verif.Props.LinearLS
import Verif.Props.Newton
import Verif.Props.Defaults
/-!
# C116: what the damping can and cannot repair
-/

set_option linter.unusedSectionVars false

namespace Verif
open FloatOps Loss Finset

/-! ### Matrices -/

section
variable {n : Nat}

/-- sum of the absolute values of a row without the diagonal entry -/
def offRow (A : Mat ℝ n) (i : Fin n) : ℝ := ∑ j ∈ univ.erase i, |A i j|

theorem quad_dominant {A : Mat ℝ n} (hA : SymR A) (v : Vec ℝ n) : ∑ i, (A i i - offRow A i) * v i ^ 2 ≤ dotR v (mv A v) := by
  have h1 : dotR v (mv A v) = ∑ i, (A i i * v i ^ 2 + ∑ j ∈ univ.erase i, A i j * v i * v j) := by
    unfold dotR mv
    refine sum_congr rfl fun i _ => ?_
    rw [← add_sum_erase _ _ (mem_univ i), mul_add, mul_sum]
    congr 1
    · ring
    · exact sum_congr rfl fun j _ => by ring
  have h2 : ∀ i, ∀ j ∈ univ.erase i, -(|A i j| * (v i ^ 2 + v j ^ 2) / 2) ≤ A i j * v i * v j := by
    intro i j _
    have h3 := neg_abs_le (A i j * v i * v j)
    have h4 : |A i j * v i * v j| ≤ |A i j| * (v i ^ 2 + v j ^ 2) / 2 := by
      rw [mul_assoc, abs_mul, mul_div_assoc]
      refine mul_le_mul_of_nonneg_left ?_ (abs_nonneg _)
      rw [abs_mul]
      nlinarith [sq_nonneg (|v i| - |v j|), sq_abs (v i), sq_abs (v j)]
    linarith
  have hsw : ∑ i, ∑ j ∈ univ.erase i, |A i j| * v j ^ 2 = ∑ i, ∑ j ∈ univ.erase i, |A i j| * v i ^ 2 := by
    have e : ∀ f : Fin n → Fin n → ℝ, ∑ i, ∑ j ∈ univ.erase i, f i j = ∑ i, ∑ j, if j = i then 0 else f i j := by
      intro f
      refine sum_congr rfl fun i _ => ?_
      rw [← add_sum_erase univ _ (mem_univ i), if_pos rfl, zero_add]
      exact sum_congr rfl fun j hj => by rw [if_neg (ne_of_mem_erase hj)]
    rw [e, e, sum_comm]
    refine sum_congr rfl fun i _ => sum_congr rfl fun j _ => ?_
    by_cases h : i = j
    · rw [if_pos h, if_pos h.symm]
    · rw [if_neg h, if_neg (Ne.symm h), hA i j]
  have h5 : ∑ i, ∑ j ∈ univ.erase i, |A i j| * (v i ^ 2 + v j ^ 2) / 2 = ∑ i, offRow A i * v i ^ 2 := by
    have : ∀ i, ∑ j ∈ univ.erase i, |A i j| * (v i ^ 2 + v j ^ 2) / 2 =
        (∑ j ∈ univ.erase i, |A i j| * v i ^ 2) / 2 + (∑ j ∈ univ.erase i, |A i j| * v j ^ 2) / 2 := by
      intro i
      rw [sum_div, sum_div, ← sum_add_distrib]
      exact sum_congr rfl fun j _ => by ring
    rw [sum_congr rfl fun i _ => this i, sum_add_distrib, ← sum_div, ← sum_div, hsw, add_halves]
    exact sum_congr rfl fun i _ => by rw [offRow, sum_mul]
  rw [h1]
  have h6 : ∑ i, (A i i * v i ^ 2 + ∑ j ∈ univ.erase i, -(|A i j| * (v i ^ 2 + v j ^ 2) / 2)) ≤
      ∑ i, (A i i * v i ^ 2 + ∑ j ∈ univ.erase i, A i j * v i * v j) :=
    sum_le_sum fun i _ => add_le_add_right (sum_le_sum fun j hj => h2 i j hj) _
  refine le_trans (le_of_eq ?_) h6
  rw [sum_add_distrib]
  simp only [sum_neg_distrib]
  rw [h5, ← sum_neg_distrib, ← sum_add_distrib]
  exact sum_congr rfl fun i _ => by ring

theorem offRow_damped (l : ℝ) (H : Mat ℝ n) (i : Fin n) : offRow (dampedR l H) i = offRow H i := by
  unfold offRow
  refine sum_congr rfl fun j hj => ?_
  rw [dampedR, if_neg (ne_of_mem_erase hj).symm, add_zero]

theorem dampedR_symR {H : Mat ℝ n} (h : SymR H) (l : ℝ) : SymR (dampedR l H) := by
  intro i j
  unfold dampedR
  by_cases e : i = j
  · subst e; rfl
  · rw [if_neg e, if_neg (Ne.symm e), h i j]

/-- diagonal entries that damping makes dominant -/
theorem damped_pd_of_dom {H : Mat ℝ n} (h : SymR H) {l : ℝ} (hd : ∀ i, offRow H i < (1 + l) * H i i) : PD (dampedR l H) := by
  refine ⟨dampedR_symR h l, fun v hv => lt_of_lt_of_le ?_ (quad_dominant (dampedR_symR h l) v)⟩
  obtain ⟨i, hi⟩ : ∃ i, v i ≠ 0 := by by_contra hc; push Not at hc; exact hv (funext hc)
  have hp : ∀ i, 0 < dampedR l H i i - offRow (dampedR l H) i := fun i => by
    rw [offRow_damped, dampedR, if_pos rfl]; have := hd i; linarith
  refine sum_pos' (fun j _ => mul_nonneg (hp j).le (sq_nonneg _)) ⟨i, mem_univ i, mul_pos (hp i) (by positivity)⟩

theorem dotR_single (A : Mat ℝ n) (i : Fin n) : dotR (Pi.single i 1) (mv A (Pi.single i 1)) = A i i := by
  unfold dotR mv
  simp [Pi.single_apply]

theorem psd_zero_row {A : Mat ℝ n} (h : PSD A) {i : Fin n} (h0 : A i i = 0) (j : Fin n) : A i j = 0 := by
  by_cases hij : i = j
  · rw [← hij]; exact h0
  by_contra hne
  -- v = t e_i + e_j
  have key : ∀ t : ℝ, 0 ≤ 2 * t * A i j + A j j := by
    intro t
    have := h.2 (fun k => if k = i then t else if k = j then 1 else 0)
    have e : dotR (fun k => if k = i then t else if k = j then 1 else 0) (mv A (fun k => if k = i then t else if k = j then 1 else 0)) =
        2 * t * A i j + A j j := by
      have e1 : ∀ f : Fin n → ℝ, ∑ k, (if k = i then t else if k = j then (1 : ℝ) else 0) * f k = t * f i + f j := by
        intro f
        have : ∀ k, (if k = i then t else if k = j then (1 : ℝ) else 0) * f k = (if k = i then t * f k else 0) + (if k = j then f k else 0) := by
          intro k
          by_cases h1 : k = i
          · subst h1; simp [hij]
          · by_cases h2 : k = j
            · subst h2; simp [h1]
            · simp [h1, h2]
        rw [sum_congr rfl fun k _ => this k, sum_add_distrib]; simp
      unfold dotR mv
      rw [e1]
      have e2 : ∀ k, ∑ l, A k l * (if l = i then t else if l = j then (1 : ℝ) else 0) = t * A k i + A k j := by
        intro k; rw [← e1]; exact sum_congr rfl fun l _ => mul_comm _ _
      rw [e2, e2, h0, h.1 j i]; ring
    rwa [e] at this
  have h1 := key (-(A j j + 1) / (2 * A i j))
  have h2 : 2 * (-(A j j + 1) / (2 * A i j)) * A i j = -(A j j + 1) := by field_simp
  rw [h2] at h1
  linarith

/-- **C116**, the damping of Levenberg-Marquardt multiplies the diagonal, `H + λ diag(H)`. A symmetric matrix can be made positive definite this way if and only if
all its diagonal entries are positive; from `1 + λ > Σ_{j≠i} |H i j| / H i i` on it always is. -/
theorem C116_damping_pd {H : Mat ℝ n} (h : SymR H) :
    ((∃ l, 0 ≤ l ∧ PD (dampedR l H)) ↔ ∀ i, 0 < H i i) ∧
    ∀ l, (∀ i, 0 < H i i ∧ offRow H i / H i i < 1 + l) → PD (dampedR l H) := by
  have key : ∀ l, (∀ i, 0 < H i i ∧ offRow H i / H i i < 1 + l) → PD (dampedR l H) := by
    intro l hl
    refine damped_pd_of_dom h fun i => ?_
    have := (div_lt_iff₀ (hl i).1).mp (hl i).2
    linarith
  refine ⟨⟨?_, fun hd => ?_⟩, key⟩
  · rintro ⟨l, hl, hp⟩ i
    have h1 := hp.2 (Pi.single i 1) (by
      intro h0
      have := congrFun h0 i
      simp at this)
    rw [dotR_single, dampedR, if_pos rfl] at h1
    by_contra hc
    have : H i i ≤ 0 := not_lt.mp hc
    nlinarith
  · have hpos : ∀ i, 0 ≤ offRow H i / H i i := fun i => div_nonneg (sum_nonneg fun j _ => abs_nonneg _) (hd i).le
    refine ⟨∑ i, offRow H i / H i i, sum_nonneg fun i _ => hpos i, key _ fun i => ⟨hd i, ?_⟩⟩
    have := single_le_sum (fun i _ => hpos i) (mem_univ i)
    linarith

/-- **C116**, positive semi-definite: no damping helps if and only if a diagonal entry is negative, or is zero in a row that is not zero. -/
theorem C116_damping_psd {H : Mat ℝ n} (h : SymR H) :
    (∀ l, 0 ≤ l → ¬ PSD (dampedR l H)) ↔ ∃ i, H i i < 0 ∨ H i i = 0 ∧ ∃ j, H i j ≠ 0 := by
  constructor
  · intro hn
    by_contra hc
    push Not at hc
    have hpos : ∀ i, 0 ≤ offRow H i / H i i := fun i => div_nonneg (sum_nonneg fun j _ => abs_nonneg _) (hc i).1
    refine hn (∑ i, offRow H i / H i i) (sum_nonneg fun i _ => hpos i) ⟨dampedR_symR h _, fun v => ?_⟩
    refine le_trans (sum_nonneg fun i _ => mul_nonneg ?_ (sq_nonneg _)) (quad_dominant (dampedR_symR h _) v)
    rw [offRow_damped, dampedR, if_pos rfl]
    have h1 := single_le_sum (fun i _ => hpos i) (mem_univ i)
    rcases (hc i).1.lt_or_eq with hi | hi
    · have := (div_le_iff₀ hi).mp h1
      linarith
    · have : offRow H i = 0 := sum_eq_zero fun j _ => by rw [(hc i).2 hi.symm j, abs_zero]
      rw [this, ← hi]; simp
  · rintro ⟨i, hi⟩ l hl hp
    rcases hi with hi | ⟨hi, j, hj⟩
    · have := psd_diag hp i
      rw [dampedR, if_pos rfl] at this
      nlinarith
    · have hij : i ≠ j := fun e => hj (by rw [← e]; exact hi)
      refine hj ?_
      have := psd_zero_row hp (i := i) (by rw [dampedR, if_pos rfl, hi]; ring) j
      rwa [dampedR, if_neg hij, add_zero] at this

/-- the two theorems tell matrices apart: the Hessian of `x² + 4xy + y²` can be repaired (from `λ = 1` on), that of `x² - y²` cannot -/
example : (∀ l, (1 : ℝ) < l → PD (dampedR l (fun i j => if i = j then (2 : ℝ) else 4 : Mat ℝ 2))) ∧
    ∀ l, 0 ≤ l → ¬ PSD (dampedR l (fun i j => if i = j then (if i = 0 then (2 : ℝ) else -2) else 0 : Mat ℝ 2)) := by
  constructor
  · intro l hl
    refine (C116_damping_pd (fun i j => by simp [eq_comm])).2 l fun i => ⟨by simp, ?_⟩
    have : offRow (fun i j => if i = j then (2 : ℝ) else 4 : Mat ℝ 2) i = 4 := by
      unfold offRow
      fin_cases i <;> simp [show (univ : Finset (Fin 2)) = {0, 1} from rfl]
    rw [this]; simp; linarith
  · refine (C116_damping_psd fun i j => ?_).2 ⟨1, Or.inl (by norm_num)⟩
    by_cases e : i = j
    · subst e; rfl
    · simp [e, Ne.symm e]

end

/-! ### Runs -/

section
variable {R W : Type} {n : Nat}
variable {so : SolverOpts ℝ} {LA : LinAlg ℝ} {P : Problem ℝ R W (Vec ℝ n)} {o : Options ℝ W (DVec ℝ)}
variable {x : Vec ℝ n} {H : Mat ℝ n}

/-- At `x` the user's function reports at least one residual and the Hessian `H`. -/
structure HessAt (P : Problem ℝ R W (Vec ℝ n)) (x : Vec ℝ n) (H : Mat ℝ n) : Prop extends VecParams P where
  pos : 0 < n
  full : ∀ w, ∃ c g w', P.acc.full w x n (fun _ => 0) (fun _ _ => 0) = ((c, g, H), w') ∧ 0 < c.num

/-- damping and factor of bad steps after one more failed attempt, lm.h:140-148 -/
noncomputable def nextTry (so : SolverOpts ℝ) (p : ℝ × ℝ) : ℝ × ℝ := (max so.dampLo (min (p.1 * p.2) so.dampHi), p.2 * so.badFactor)

/-- The damping of attempt `k` (counted from 0) of an iteration that starts with the damping `l` and the factor `b`; a negative damping is not applied (lm.h:109). -/
noncomputable def tryDamping (so : SolverOpts ℝ) (l b : ℝ) (k : Nat) : ℝ := max 0 ((nextTry so)^[k] (l, b)).1

theorem symUpper_dampH (l : ℝ) (H : Mat ℝ n) : symUpper (dampH l H) = dampedR (max 0 l) (symUpper H) := by
  funext i j
  unfold symUpper dampH dampedR
  by_cases hl : 0 < l
  · have h1 : lt (ofInt 0) l = true := by simpa using hl
    simp only [h1, true_and, max_eq_right hl.le, RealOps.mul_eq, RealOps.add_eq]
    by_cases e : i = j
    · subst e; simp; ring
    · simp [e, Ne.symm e]
  · have h1 : lt (ofInt 0) l = false := by simpa using hl
    simp only [h1, max_eq_left (not_lt.mp hl)]
    simp

/-- states of the solver in attempt `k` -/
def OnTry (so : SolverOpts ℝ) (n : Nat) (l b : ℝ) (k : Nat) (s : LMState ℝ R) : Prop :=
  s.rebuild = true ∧ s.gn.n = n ∧ (s.lambda, s.badF) = (nextTry so)^[k] (l, b)

theorem lmBuild_trying (h : HessAt P x H) (hl : so.useLdlt = true) {l b : ℝ} {k : Nat} {s : LMState ℝ R} (hs : OnTry so n l b k s) (w : W) :
    ∃ c g w' ok s1, P.acc.full w x n (fun _ => 0) (fun _ _ => 0) = ((c, g, H), w') ∧ 0 < c.num ∧ lmBuild so P w s x = (ok, s1, w') ∧ OnTry so n l b k s1 ∧
      s1.gn.cost = normalizeCost so c ∧
      (ok = true → s1.gn = ⟨n, clampVec so.gradClip g, dampH s.lambda H, normalizeCost so c⟩ ∧ s1.lambda = s.lambda) ∧
      ((normalizeCost so c).isValid = true → DiagOk so H → ok = true) := by
  obtain ⟨⟨sn, sg, sH, sc⟩, sl, sp, sb, sr⟩ := s
  obtain ⟨h1, h2, h3⟩ := hs
  simp only at h1 h2 h3
  subst h1 h2
  obtain ⟨c, g, w', hf, hn⟩ := h.full w
  refine ⟨c, g, w', ?_⟩
  rcases hb : lmBuild so P w ⟨⟨sn, sg, sH, sc⟩, sl, sp, sb, true⟩ x with ⟨ok, s1, w1⟩
  have hsp := lmBuild_spec hb
  have hf' : P.acc.full w x sn (fun _ => ofInt 0) (fun _ _ => ofInt 0) = ((c, g, H), w') := by simpa using hf
  cases hsp with
  | rebuilt g1 w1 hr hb =>
    obtain ⟨c', g', H', e, hs⟩ := buildSystem_spec hb
    simp only at e
    rw [hf'] at e
    simp only [Prod.mk.injEq] at e
    obtain ⟨⟨rfl, rfl, rfl⟩, rfl⟩ := e
    cases hs with
    | ok hv hlow =>
      rw [hl, Bool.not_true, Bool.and_false]
      have e : lmDamp ({ gn := ⟨sn, clampVec so.gradClip g, H, normalizeCost so c⟩, lambda := sl, prev := sp, badF := sb, rebuild := true } : LMState ℝ R) =
          { gn := ⟨sn, clampVec so.gradClip g, dampH sl H, normalizeCost so c⟩, lambda := sl, prev := sp, badF := sb, rebuild := true } := by
        unfold lmDamp
        rw [dampH_def]
        simp only [if_true]
        split <;> rfl
      refine ⟨true, _, hf, hn, rfl, ?_⟩
      simp only [Bool.false_eq_true, if_false]
      rw [e]
      exact ⟨⟨rfl, rfl, h3⟩, rfl, fun _ => ⟨rfl, rfl⟩, fun _ _ => trivial⟩
  | rebuildFail g1 w1 hr hb =>
    obtain ⟨c', g', H', e, hs⟩ := buildSystem_spec hb
    simp only at e
    rw [hf'] at e
    simp only [Prod.mk.injEq] at e
    obtain ⟨⟨rfl, rfl, rfl⟩, rfl⟩ := e
    cases hs with
    | invalid hv =>
      exact ⟨false, _, hf, hn, rfl, ⟨rfl, rfl, h3⟩, rfl, by simp, fun h => by rw [hv] at h; cases h⟩
    | low hv hlow =>
      refine ⟨false, _, hf, hn, rfl, ⟨rfl, rfl, h3⟩, rfl, by simp, fun _ hd => ?_⟩
      exfalso
      simp only [Bool.and_eq_true, RealOps.lt_eq, RealOps.ofInt_eq, Int.cast_zero, lowDiag, List.any_eq_true, absF_real] at hlow
      obtain ⟨h4, i, -, h5⟩ := hlow
      rcases hd with hd | hd
      · linarith
      · have := hd i; linarith
  | evald c w1 hr => cases hr
  | evalFail c w1 hr => cases hr

theorem lmBad_trying (hr : so.dampLo ≤ so.dampHi) {l b : ℝ} {k : Nat} {s : LMState ℝ R} (hs : OnTry so n l b k s) :
    ∃ s', lmBad so s = .ok s' ∧ OnTry so n l b (k + 1) s' := by
  obtain ⟨h1, h2, h3⟩ := hs
  unfold lmBad
  rw [stdClamp_real hr]
  refine ⟨_, rfl, h1, h2, ?_⟩
  rw [Function.iterate_succ_apply', ← h3]
  rfl

theorem lm_attempts_fail (h : HessAt P x H) (hL : PosLDLT LA) (hl : so.useLdlt = true) (hr : so.dampLo ≤ so.dampHi) {l b : ℝ} :
    ∀ (m k : Nat) (w : W) (s : LMState ℝ R), OnTry so n l b k s → (∀ i, k ≤ i → i ≤ k + m → ¬ PSD (dampedR (tryDamping so l b i) (symUpper H))) →
      ∃ w', FailsInARow (lmEnv so LA P) x (m + 1) w s w' := by
  intro m
  have one : ∀ (k : Nat) (w : W) (s : LMState ℝ R), OnTry so n l b k s → ¬ PSD (dampedR (tryDamping so l b k) (symUpper H)) →
      ∃ ok s1 w', lmBuild so P w s x = (ok, s1, w') ∧ (ok = false ∨ gnSolve so LA (P.dims == some 1) s1.gn = none) ∧ s1.gn.cost.num ≠ 0 ∧ OnTry so n l b k s1 := by
    intro k w s hs hp
    obtain ⟨c, g, w', ok, s1, -, hn, hb, ht, hc, hok, -⟩ := lmBuild_trying h hl hs w
    refine ⟨ok, s1, w', hb, ?_, by rw [hc, normalizeCost_num]; omega, ht⟩
    cases ok with
    | false => exact Or.inl rfl
    | true =>
      right
      obtain ⟨h1, -⟩ := hok rfl
      cases hsol : gnSolve so LA (P.dims == some 1) s1.gn with
      | none => rfl
      | some dx =>
        rw [h1] at hsol
        obtain ⟨d, -, hpsd, -⟩ := gnSolve_notUphill hL hl hsol
        rw [symUpper_dampH] at hpsd
        refine absurd ?_ hp
        have h3 := (Prod.mk.inj (hs.2.2.trans rfl : (s.lambda, s.badF) = (((nextTry so)^[k] (l, b)).1, ((nextTry so)^[k] (l, b)).2))).1
        unfold tryDamping
        rwa [← h3]
  induction m with
  | zero =>
    intro k w s hs hp
    obtain ⟨ok, s1, w', hb, hf, hn, ht⟩ := one k w s hs (hp k (le_refl _) (by omega))
    exact ⟨w', .one w s ok s1 w' hb hf hn (RealOps.finite_eq _)⟩
  | succ m ih =>
    intro k w s hs hp
    obtain ⟨ok, s1, w', hb, hf, hn, ht⟩ := one k w s hs (hp k (le_refl _) (by omega))
    obtain ⟨s2, hs2, ht2⟩ := lmBad_trying hr ht
    obtain ⟨w2, hrow⟩ := ih (k + 1) w' s2 ht2 fun i h1 h2 => hp i (by omega) (by omega)
    exact ⟨w2, .more (m + 1) w s ok s1 w' s2 w2 hb hf hn (RealOps.finite_eq _) hs2 hrow⟩

theorem lm_ready (h : HessAt P x H) {s : LMState ℝ R} (hs : s.rebuild = true) (hn : P.dims = none ∨ s.gn.n = n) (w : W) :
    ∃ w1 s1, Ready (lmEnv so LA P) w s x w1 s1 ∧ OnTry so n s.lambda s.badF 0 s1 := by
  obtain ⟨g, w1, hg, hgn, -⟩ := resize_works h.toVecParams w s.gn hn
  have hd : (lmEnv so LA P).dynDims x = n := h.dyn x
  refine ⟨w1, { s with gn := g }, ⟨by rw [hd]; exact_mod_cast h.pos, ?_⟩, hs, hgn, rfl⟩
  rw [hd]
  simp only [lmEnv, envOf, lmSolver, hg]

/-- **C116**, Levenberg-Marquardt gives up in its first iteration if none of the `max_consec_failures` values of the damping that it tries makes the Hessian
positive semi-definite: the run ends with `kSolverFailed` and the parameters it was given. -/
theorem C116_gives_up (h : HessAt P x H) (hL : PosLDLT LA) (hl : so.useLdlt = true) (hr : so.dampLo ≤ so.dampHi) {s : LMState ℝ R} (hs : s.rebuild = true)
    (hn : P.dims = none ∨ s.gn.n = n) (hmc : 0 < o.maxConsecFailures) (hmc8 : o.maxConsecFailures < 256)
    (hp : ∀ k < o.maxConsecFailures, ¬ PSD (dampedR (tryDamping so s.lambda s.badF k) (symUpper H)))
    (hnt : o.maxDurationMs ≤ 0) {mi : Int} (hmi : budget o mi < intMax) {fuel : Nat} (hfu : o.maxConsecFailures ≤ fuel) (w : W) :
    ∃ st, optimizeAcc (lmEnv so LA P) o fuel mi w s x = .ok st ∧ st.out.stop = .kSolverFailed ∧ st.x = x ∧ st.out.errs = [] := by
  obtain ⟨w1, s1, hready, ht⟩ := lm_ready (LA := LA) h hs hn w
  obtain ⟨m, hm⟩ : ∃ m, o.maxConsecFailures = m + 1 := ⟨o.maxConsecFailures - 1, by omega⟩
  obtain ⟨w2, hrow⟩ := lm_attempts_fail h hL hl hr m 0 w1 s1 ht fun i _ hi => hp i (by omega)
  rw [← hm] at hrow
  obtain ⟨st, h1, h2⟩ := solver_failed_run (by simp) hmi (by simpa using hnt) hmc hmc8 hfu hready hrow
  exact ⟨st, h1, h2.stop, h2.x, h2.errs⟩

end

section
variable {R W : Type} {n : Nat}
variable {so : SolverOpts ℝ} {LA : LinAlg ℝ} {P : Problem ℝ R W (Vec ℝ n)} {o : Options ℝ W (DVec ℝ)}
variable {x : Vec ℝ n} {H : Mat ℝ n}

theorem tryDamping_nonneg (l b : ℝ) (k : Nat) : 0 ≤ tryDamping so l b k := le_max_left _ _

theorem symUpper_symR (H : Mat ℝ n) : SymR (symUpper H) := by
  intro i j
  unfold symUpper
  rcases lt_trichotomy i j with h | rfl | h
  · rw [if_pos h.le, if_neg (not_le.mpr h)]
  · rfl
  · rw [if_neg (not_le.mpr h), if_pos h.le]

/-- What no damping repairs: a diagonal entry is negative, or zero in a row with another entry in the upper triangle (or column above). -/
def Unrepairable (H : Mat ℝ n) : Prop := ∃ i, H i i < 0 ∨ H i i = 0 ∧ ∃ j, symUpper H i j ≠ 0

theorem Unrepairable.not_psd (h : Unrepairable H) {l : ℝ} (hl : 0 ≤ l) : ¬ PSD (dampedR l (symUpper H)) := by
  refine (C116_damping_psd (symUpper_symR H)).2 ?_ l hl
  obtain ⟨i, hi⟩ := h
  have : symUpper H i i = H i i := by unfold symUpper; rw [if_pos (le_refl i)]
  exact ⟨i, by rw [this]; exact hi⟩

theorem lm_diverges (h : HessAt P x H) (hL : PosLDLT LA) (hl : so.useLdlt = true) (hr : so.dampLo ≤ so.dampHi) (hH : Unrepairable H) (hmc : o.maxConsecFailures = 0)
    {l b : ℝ} : ∀ (fuel k : Nat) (w : W) (s : LMState ℝ R) (out : Output ℝ R (DMat ℝ)), OnTry so n l b k s → out.numConsec < 256 →
      retry (lmEnv so LA P) o x fuel w s out = .fuel := by
  intro fuel
  induction fuel with
  | zero => intros; rfl
  | succ fuel ih =>
    intro k w s out hs hout
    obtain ⟨w', hrow⟩ := lm_attempts_fail h hL hl hr 0 k w s hs fun i _ _ => hH.not_psd (tryDamping_nonneg _ _ _)
    obtain ⟨c, g, w1, ok, s1, -, hn, hb, ht, hc, -⟩ := lmBuild_trying h hl hs w
    obtain ⟨s2, hs2, ht2⟩ := lmBad_trying hr ht
    have hdx : (if ok = true then (lmEnv so LA P).sol.solve s1 else none) = none := by
      cases hrow with
      | one _ _ b' s1' w1' hb' hf =>
        have e : (ok, s1, w1) = (b', s1', w') := hb.symm.trans hb'
        simp only [Prod.mk.injEq] at e
        obtain ⟨rfl, rfl, rfl⟩ := e
        rcases hf with rfl | hf
        · rfl
        · cases ok <;> simp [hf]
      | more m _ _ b' s1' w1' s2' _ hb' hf _ _ _ hm => cases hm
    unfold retry
    rw [if_pos (by unfold maxTries; rw [if_neg (by omega)]; omega)]
    rw [show (lmEnv so LA P).sol.build w s x = (ok, s1, w1) from hb]
    simp only
    rw [hdx]
    simp only
    have hn' : ((lmEnv so LA P).sol.cost s1).num ≠ 0 := by
      show s1.gn.cost.num ≠ 0
      rw [hc, normalizeCost_num]; omega
    rw [if_neg hn', not_nan_of_finite (RealOps.finite_eq _), if_neg (by decide), if_neg (by simp [hmc]),
      show (lmEnv so LA P).sol.failedStep s1 = .ok s2 from hs2, Res.bind_ok]
    exact ih (k + 1) w1 s2 _ ht2 (by simp only; unfold inc8; omega)

/-- **C116 is violated**: at a point where a diagonal entry of the Hessian is negative (or zero in a row that is not) the damping cannot help, and every run of
Levenberg-Marquardt with LDLT that starts there fails, whatever the damping, its limits and its factors are. With a limit on consecutive failures it ends with
`kSolverFailed` at the given parameters; without (`max_consec_failures = 0`) it never ends. -/
theorem C116_never_leaves (h : HessAt P x H) (hL : PosLDLT LA) (hl : so.useLdlt = true) (hr : so.dampLo ≤ so.dampHi) (hH : Unrepairable H)
    {s : LMState ℝ R} (hs : s.rebuild = true) (hn : P.dims = none ∨ s.gn.n = n) {mi : Int} (hmi : budget o mi < intMax) (w : W) :
    (0 < o.maxConsecFailures → o.maxConsecFailures < 256 → o.maxDurationMs ≤ 0 → ∀ fuel, o.maxConsecFailures ≤ fuel →
      ∃ st, optimizeAcc (lmEnv so LA P) o fuel mi w s x = .ok st ∧ st.out.stop = .kSolverFailed ∧ st.x = x ∧ st.out.errs = []) ∧
    (o.maxConsecFailures = 0 → ∀ fuel, optimizeAcc (lmEnv so LA P) o fuel mi w s x = .fuel) := by
  refine ⟨fun h1 h2 h3 fuel h4 => C116_gives_up h hL hl hr hs hn h1 h2 (fun k _ => hH.not_psd (tryDamping_nonneg _ _ _)) h3 hmi h4 w, fun h1 fuel => ?_⟩
  obtain ⟨w1, s1, hready, ht⟩ := lm_ready (LA := LA) h hs hn w
  have hb1 : ∃ m : Nat, (budget o mi).toNat = m + 1 := by
    have := (loopBound_spec (loopBound_eq_budget hmi)).2.1
    exact ⟨(budget o mi).toNat - 1, by omega⟩
  obtain ⟨m, hm⟩ := hb1
  unfold optimizeAcc
  rw [loopBound_eq_budget hmi]
  simp only
  rw [hm]
  have : step (lmEnv so LA P) o fuel w s x (Output.init (lmEnv so LA P).ratio1) = .fuel := by
    unfold step
    rw [hready.resize]
    simp only
    rw [lm_diverges h hL hl hr hH h1 fuel 0 w1 s1 _ ht (by simp [Output.init])]
    rfl
  unfold loop body
  rw [show step (lmEnv so LA P) o fuel (initSt (lmEnv so LA P) w s x).w (initSt (lmEnv so LA P) w s x).s (initSt (lmEnv so LA P) w s x).x
    (initSt (lmEnv so LA P) w s x).out = .fuel from this]
  rfl

/-- the same for Gauss-Newton, which has no damping: at a point where the Hessian is not positive semi-definite -/
theorem C116_gn_gives_up (h : HessAt P x H) (hL : PosLDLT LA) (hl : so.useLdlt = true) (hH : ¬ PSD (symUpper H)) {s : GNState ℝ R}
    (hn : P.dims = none ∨ s.n = n) (hmc : 0 < o.maxConsecFailures) (hmc8 : o.maxConsecFailures < 256)
    (hnt : o.maxDurationMs ≤ 0) {mi : Int} (hmi : budget o mi < intMax) {fuel : Nat} (hfu : o.maxConsecFailures ≤ fuel) (w : W) :
    ∃ st, optimizeAcc (gnEnv so LA P) o fuel mi w s x = .ok st ∧ st.out.stop = .kSolverFailed ∧ st.x = x ∧ st.out.errs = [] := by
  obtain ⟨g, w1, hg, hgn, -⟩ := resize_works h.toVecParams w s hn
  have hd : (gnEnv so LA P).dynDims x = n := h.dyn x
  have hready : Ready (gnEnv so LA P) w s x w1 g := ⟨by rw [hd]; exact_mod_cast h.pos, by rw [hd]; exact hg⟩
  have one : ∀ (w : W) (s : GNState ℝ R), s.n = n → ∃ ok s1 w', buildSystem so P w s x = (ok, s1, w') ∧
      (ok = false ∨ gnSolve so LA (P.dims == some 1) s1 = none) ∧ s1.cost.num ≠ 0 ∧ s1.n = n := by
    intro w s hs
    subst hs
    obtain ⟨c, g, w', hf, hc⟩ := h.full w
    rcases hb : buildSystem so P w s x with ⟨ok, s1, w2⟩
    have hn1 := buildSystem_n hb
    obtain ⟨c', g', H', e, hsp⟩ := buildSystem_spec hb
    rw [show P.acc.full w x s.n (fun _ => ofInt 0) (fun _ _ => ofInt 0) = ((c, g, H), w') by simpa using hf] at e
    simp only [Prod.mk.injEq] at e
    obtain ⟨⟨rfl, rfl, rfl⟩, rfl⟩ := e
    refine ⟨ok, s1, w', rfl, ?_, ?_, hn1⟩
    · cases hsp with
      | invalid => exact Or.inl rfl
      | low => exact Or.inl rfl
      | ok hv hlow =>
        right
        cases hsol : gnSolve so LA (P.dims == some 1) (⟨s.n, clampVec so.gradClip g, if (!so.hIsFull && !so.useLdlt) = true then symUpper H else H, normalizeCost so c⟩) with
        | none => rfl
        | some dx =>
          obtain ⟨d, -, hpsd, -⟩ := gnSolve_notUphill hL hl hsol
          rw [hl, Bool.not_true, Bool.and_false] at hpsd
          exact absurd hpsd hH
    · cases hsp <;> (rw [normalizeCost_num]; omega)
  have row : ∀ (m : Nat) (w : W) (s : GNState ℝ R), s.n = n → ∃ w', FailsInARow (gnEnv so LA P) x (m + 1) w s w' := by
    intro m
    induction m with
    | zero =>
      intro w s hs
      obtain ⟨ok, s1, w', h1, h2, h3, -⟩ := one w s hs
      exact ⟨w', .one w s ok s1 w' h1 h2 h3 (RealOps.finite_eq _)⟩
    | succ m ih =>
      intro w s hs
      obtain ⟨ok, s1, w', h1, h2, h3, h4⟩ := one w s hs
      obtain ⟨w2, h5⟩ := ih w' s1 h4
      exact ⟨w2, .more (m + 1) w s ok s1 w' s1 w2 h1 h2 h3 (RealOps.finite_eq _) rfl h5⟩
  obtain ⟨m, hm⟩ : ∃ m, o.maxConsecFailures = m + 1 := ⟨o.maxConsecFailures - 1, by omega⟩
  obtain ⟨w2, hrow⟩ := row m w1 g hgn
  rw [← hm] at hrow
  obtain ⟨st, h1, h2⟩ := solver_failed_run (by simp) hmi (by simpa using hnt) hmc hmc8 hfu hready hrow
  exact ⟨st, h1, h2.stop, h2.x, h2.errs⟩

/-! ### A step is found -/

theorem lm_attempt_works (h : HessAt P x H) (hL : ExactLinAlg LA) (hl : so.useLdlt = true) (hr : so.dampLo ≤ so.dampHi) (hd : DiagOk so H)
    (hv : ∀ w c g w', P.acc.full w x n (fun _ => 0) (fun _ _ => 0) = ((c, g, H), w') → (normalizeCost so c).cost ≠ maxVal) {l b : ℝ} :
    ∀ (j k fuel : Nat) (w : W) (s : LMState ℝ R) (out : Output ℝ R (DMat ℝ)), OnTry so n l b k s → PD (dampedR (tryDamping so l b (k + j)) (symUpper H)) →
      out.numConsec < 256 → (o.maxConsecFailures = 0 ∨ out.numConsec + j < o.maxConsecFailures ∧ o.maxConsecFailures < 256) → j < fuel →
      ∃ dx c w' s' out', retry (lmEnv so LA P) o x fuel w s out = .ok (.got dx c, w', s', out') ∧ out'.errs = out.errs ∧ out'.stop = out.stop := by
  intro j
  induction j with
  | zero =>
    intro k fuel w s out hs hp h256 hmc hfu
    obtain ⟨fuel, rfl⟩ : ∃ f, fuel = f + 1 := ⟨fuel - 1, by omega⟩
    obtain ⟨c, g, w1, ok, s1, hf, hn, hb, ht, hc, hok, hval⟩ := lmBuild_trying h hl hs w
    have hv1 : (normalizeCost so c).isValid = true := by
      have h1 : eq (normalizeCost so c).cost maxVal = false := by rw [RealOps.eq_eq_false]; exact hv w c g w1 hf
      unfold Cost.isValid ne
      rw [h1, normalizeCost_num]; simpa using hn
    have hok1 := hval hv1 hd
    subst hok1
    obtain ⟨h1, h2⟩ := hok rfl
    have hlam := (Prod.mk.inj (hs.2.2.trans rfl : (s.lambda, s.badF) = (((nextTry so)^[k] (l, b)).1, ((nextTry so)^[k] (l, b)).2))).1
    obtain ⟨v, hv2, -⟩ := hL.ldlt n _ (negVec (clampVec so.gradClip g)) hp
    have hsol : (lmEnv so LA P).sol.solve s1 = some ⟨n, v⟩ := by
      show gnSolve so LA (P.dims == some 1) s1.gn = _
      rw [h1]
      unfold gnSolve solveLDLT
      simp only [hv1, if_true, hl]
      rw [symUpper_dampH, hlam]
      have : max 0 ((nextTry so)^[k] (l, b)).1 = tryDamping so l b (k + 0) := rfl
      rw [this, hv2]
      rfl
    unfold retry
    rw [if_pos (by unfold maxTries; split <;> omega), show (lmEnv so LA P).sol.build w s x = (true, s1, w1) from hb]
    simp only [if_true]
    rw [hsol]
    exact ⟨_, _, _, _, _, rfl, rfl, rfl⟩
  | succ j ih =>
    intro k fuel w s out hs hp h256 hmc hfu
    obtain ⟨fuel, rfl⟩ : ∃ f, fuel = f + 1 := ⟨fuel - 1, by omega⟩
    obtain ⟨c, g, w1, ok, s1, hf, hn, hb, ht, hc, hok, hval⟩ := lmBuild_trying h hl hs w
    unfold retry
    rw [if_pos (by unfold maxTries; split <;> omega), show (lmEnv so LA P).sol.build w s x = (ok, s1, w1) from hb]
    simp only
    cases hsol : (if ok = true then (lmEnv so LA P).sol.solve s1 else none) with
    | some dx => exact ⟨_, _, _, _, _, rfl, rfl, rfl⟩
    | none =>
      simp only
      obtain ⟨s2, hs2, ht2⟩ := lmBad_trying hr ht
      have hn' : ((lmEnv so LA P).sol.cost s1).num ≠ 0 := by
        show s1.gn.cost.num ≠ 0
        rw [hc, normalizeCost_num]; omega
      rw [if_neg hn', not_nan_of_finite (RealOps.finite_eq _), if_neg (by decide), if_neg (by
        simp only [Bool.and_eq_true, decide_eq_true_eq, not_and]
        intro h0
        unfold inc8; omega), show (lmEnv so LA P).sol.failedStep s1 = .ok s2 from hs2, Res.bind_ok]
      have h8 : inc8 out.numConsec < 256 := by unfold inc8; omega
      obtain ⟨dx, c, w', s', out', h1, h2, h3⟩ := ih (k + 1) fuel w1 s2 { out with numConsec := inc8 out.numConsec, numFailures := inc8 out.numFailures } ht2
        (by rw [show k + 1 + j = k + (j + 1) by omega]; exact hp) h8 (by
          rcases hmc with h | ⟨h, h'⟩
          · exact Or.inl h
          · refine Or.inr ⟨?_, h'⟩
            simp only
            unfold inc8; omega) (by omega)
      exact ⟨dx, c, w', s', out', h1, h2, h3⟩

/-- **C116** (partial): if one of the values of the damping that are tried makes the Hessian positive definite, then the first iteration finds a step, and the
history of the run is not empty. Missing: points at which no damping does, see `C116_never_leaves`. -/
theorem C116_finds_step_partial (h : HessAt P x H) (hL : ExactLinAlg LA) (hl : so.useLdlt = true) (hr : so.dampLo ≤ so.dampHi) (hd : DiagOk so H)
    (hv : ∀ w c g w', P.acc.full w x n (fun _ => 0) (fun _ _ => 0) = ((c, g, H), w') → (normalizeCost so c).cost ≠ maxVal) {s : LMState ℝ R} (hs : s.rebuild = true)
    (hn : P.dims = none ∨ s.gn.n = n) {k : Nat} (hk : o.maxConsecFailures = 0 ∨ k < o.maxConsecFailures ∧ o.maxConsecFailures < 256)
    (hp : PD (dampedR (tryDamping so s.lambda s.badF k) (symUpper H))) {mi : Int} {fuel : Nat} (hfu : k < fuel) {w : W} {st}
    (hrun : optimizeAcc (lmEnv so LA P) o fuel mi w s x = .ok st) : st.out.errs ≠ [] := by
  obtain ⟨w1, s1, hready, ht⟩ := lm_ready (LA := LA) h hs hn w
  obtain ⟨dx, c, w', s', out', hret, he, hstop⟩ := lm_attempt_works (o := o) h hL hl hr hd hv k 0 fuel w1 s1 (Output.init (lmEnv so LA P).ratio1) ht
    (by rw [Nat.zero_add]; exact hp) (by simp [Output.init]) (by simpa [Output.init] using hk) hfu
  have hfirst : ∀ p w2 s2 out2, step (lmEnv so LA P) o fuel w s x (Output.init (lmEnv so LA P).ratio1) = .ok (p, w2, s2, out2) → out2.errs ≠ [] := by
    intro p w2 s2 out2 hstep
    unfold step at hstep
    rw [hready.resize] at hstep
    simp only at hstep
    rw [hret, Res.bind_ok] at hstep
    simp only at hstep
    unfold afterSolve at hstep
    simp only [not_nan_of_finite (RealOps.finite_eq _), Bool.false_eq_true, if_false] at hstep
    split at hstep
    · rw [Res.bind_eq_ok] at hstep
      obtain ⟨s1', -, hh⟩ := hstep
      injection hh with hh; obtain ⟨-, -, -, rfl⟩ := hh
      simp
    · rw [Res.bind_eq_ok] at hstep
      obtain ⟨s1', -, hh⟩ := hstep
      split at hh
      · injection hh with hh; obtain ⟨-, -, -, rfl⟩ := hh; simp
      · split at hh
        · injection hh with hh; obtain ⟨-, -, -, rfl⟩ := hh; simp
        · injection hh with hh; obtain ⟨-, -, -, rfl⟩ := hh; simp
  obtain ⟨m, st0, -, hj, -, hlen, hst⟩ := run_inv (E := lmEnv so LA P) (o := o)
    (I := fun st => st = initSt (lmEnv so LA P) w s x ∨ st.out.errs ≠ [])
    (J := fun st => st.trace ≠ [] → st.out.errs ≠ [])
    (fun last st st' hno hI hb => by
      obtain ⟨succ, mdx, w1, s1, out1, ms, hstep, hs⟩ := body_spec' hb
      have : st'.out.errs ≠ [] := by
        rw [hs.out]
        show out1.errs ≠ []
        rcases hI with rfl | hI
        · exact hfirst _ _ _ _ hstep
        · rcases hs.step.push_code hno with ⟨_, _, e, _⟩ | ⟨_, _, e, _⟩
          · rw [e]; exact hI
          · intro h0; rw [h0] at e; simp at e
      exact ⟨fun _ => Or.inr this, fun _ => this⟩) (Or.inl rfl) (fun h => absurd rfl h) hrun
  rw [hst]
  exact hj (by intro h0; rw [h0] at hlen; simp at hlen)

/-- **C116** (partial), in terms of the Hessian: positive diagonal entries, and a damping that can grow until they dominate within the attempts. -/
theorem C116_finds_step_diag_partial (h : HessAt P x H) (hH : SymR H) (hL : ExactLinAlg LA) (hl : so.useLdlt = true) (hr : so.dampLo ≤ so.dampHi) (hd : DiagOk so H)
    (hv : ∀ w c g w', P.acc.full w x n (fun _ => 0) (fun _ _ => 0) = ((c, g, H), w') → (normalizeCost so c).cost ≠ maxVal) {s : LMState ℝ R} (hs : s.rebuild = true)
    (hn : P.dims = none ∨ s.gn.n = n) {k : Nat} (hk : o.maxConsecFailures = 0 ∨ k < o.maxConsecFailures ∧ o.maxConsecFailures < 256)
    (hp : ∀ i, 0 < H i i ∧ offRow H i / H i i < 1 + tryDamping so s.lambda s.badF k) {mi : Int} {fuel : Nat} (hfu : k < fuel) {w : W} {st}
    (hrun : optimizeAcc (lmEnv so LA P) o fuel mi w s x = .ok st) : st.out.errs ≠ [] :=
  C116_finds_step_partial h hL hl hr hd hv hs hn hk (by rw [symUpper_of_sym hH]; exact (C116_damping_pd hH).2 _ hp) hfu hrun

end

/-! ### Default options -/

section
variable {R W : Type} {n : Nat}

theorem psd_damped_mono {H : Mat ℝ n} (h : SymR H) {l m : ℝ} (hl : 0 ≤ l) (hlm : l ≤ m) (hp : PSD (dampedR l H)) : PSD (dampedR m H) := by
  refine ⟨dampedR_symR h m, fun v => le_trans (hp.2 v) ?_⟩
  have hd : ∀ i, 0 ≤ H i i := by
    intro i
    have := psd_diag hp i
    rw [dampedR, if_pos rfl] at this
    nlinarith
  have e : dotR v (mv (dampedR m H) v) = dotR v (mv (dampedR l H) v) + ∑ i, (m - l) * H i i * v i ^ 2 := by
    unfold dotR mv
    rw [← sum_add_distrib]
    refine sum_congr rfl fun i _ => ?_
    have : ∀ j, dampedR m H i j * v j = dampedR l H i j * v j + if i = j then (m - l) * H i i * v j else 0 := by
      intro j; unfold dampedR
      by_cases hij : i = j
      · subst hij; simp; ring
      · simp [hij]
    rw [sum_congr rfl fun j _ => this j, sum_add_distrib, mul_add]
    simp
    ring
  rw [e]
  have : 0 ≤ ∑ i, (m - l) * H i i * v i ^ 2 := sum_nonneg fun i _ => mul_nonneg (mul_nonneg (by linarith) (hd i)) (sq_nonneg _)
  linarith

/-- a rational literal as a real number -/
noncomputable def realLit (q : ℚ) : ℝ := (q : ℝ)

/-- with the default options the five attempts of an iteration use `λ = 10⁻⁴ 2^(k (k + 1) / 2)` -/
theorem default_tries : (fun k => tryDamping (defaultSolverOpts realLit) (1 / 10 ^ 4) 2 k) 0 = 1 / 10 ^ 4 ∧
    tryDamping (defaultSolverOpts realLit) (1 / 10 ^ 4) 2 1 = 2 / 10 ^ 4 ∧ tryDamping (defaultSolverOpts realLit) (1 / 10 ^ 4) 2 2 = 8 / 10 ^ 4 ∧
    tryDamping (defaultSolverOpts realLit) (1 / 10 ^ 4) 2 3 = 64 / 10 ^ 4 ∧ tryDamping (defaultSolverOpts realLit) (1 / 10 ^ 4) 2 4 = 1024 / 10 ^ 4 := by
  have hlo : (defaultSolverOpts realLit).dampLo = 1 / 10 ^ 9 := by simp [defaultSolverOpts, realLit]
  have hhi : (defaultSolverOpts realLit).dampHi = 10 ^ 9 := by simp [defaultSolverOpts, realLit]
  have hb : (defaultSolverOpts realLit).badFactor = 2 := by simp [defaultSolverOpts, realLit]
  have nt : ∀ a b : ℝ, 1 / 10 ^ 9 ≤ a * b → a * b ≤ 10 ^ 9 → nextTry (defaultSolverOpts realLit) (a, b) = (a * b, b * 2) := by
    intro a b h1 h2
    unfold nextTry
    rw [hlo, hhi, hb]
    simp only
    rw [min_eq_left h2, max_eq_right h1]
  have t0 : (nextTry (defaultSolverOpts realLit))^[0] (1 / 10 ^ 4, 2) = (1 / 10 ^ 4, 2) := rfl
  have t1 : (nextTry (defaultSolverOpts realLit))^[1] (1 / 10 ^ 4, 2) = (2 / 10 ^ 4, 4) := by
    rw [Function.iterate_succ_apply', t0, nt _ _ (by norm_num) (by norm_num)]; norm_num
  have t2 : (nextTry (defaultSolverOpts realLit))^[2] (1 / 10 ^ 4, 2) = (8 / 10 ^ 4, 8) := by
    rw [Function.iterate_succ_apply', t1, nt _ _ (by norm_num) (by norm_num)]; norm_num
  have t3 : (nextTry (defaultSolverOpts realLit))^[3] (1 / 10 ^ 4, 2) = (64 / 10 ^ 4, 16) := by
    rw [Function.iterate_succ_apply', t2, nt _ _ (by norm_num) (by norm_num)]; norm_num
  have t4 : (nextTry (defaultSolverOpts realLit))^[4] (1 / 10 ^ 4, 2) = (1024 / 10 ^ 4, 32) := by
    rw [Function.iterate_succ_apply', t3, nt _ _ (by norm_num) (by norm_num)]; norm_num
  unfold tryDamping
  refine ⟨?_, ?_, ?_, ?_, ?_⟩
  · simp only [t0]; norm_num
  · rw [t1]; norm_num
  · rw [t2]; norm_num
  · rw [t3]; norm_num
  · rw [t4]; norm_num

/-- **C116 is violated** with the default options already where the Hessian, with 10.24 per cent added to its diagonal, is not positive semi-definite: a new
Levenberg-Marquardt optimizer gives up in its first iteration (after five attempts), also if a larger damping would help. -/
theorem C116_default_gives_up {LA : LinAlg ℝ} {P : Problem ℝ R W (Vec ℝ n)} {x : Vec ℝ n} {H : Mat ℝ n} (h : HessAt P x H) (hL : PosLDLT LA)
    (hp : ¬ PSD (dampedR (1024 / 10 ^ 4) (symUpper H))) (s : LMState ℝ R) (hn : P.dims = none ∨ s.gn.n = n) {fuel : Nat} (hfu : 5 ≤ fuel) (w : W) :
    ∃ st, optimizeAcc (lmEnv (defaultSolverOpts realLit) LA P) (defaultOptions realLit) fuel (-1) w (lmReset (defaultSolverOpts realLit) s) x = .ok st ∧
      st.out.stop = .kSolverFailed ∧ st.x = x ∧ st.out.errs = [] := by
  refine C116_gives_up (o := defaultOptions realLit) (s := lmReset (defaultSolverOpts realLit) s) h hL rfl ?_ rfl hn (Nat.succ_pos 4) (by show 5 < 256; decide) ?_ ?_ (by rw [default_budget]; decide) hfu w
  · simp [defaultSolverOpts, realLit]; norm_num
  · intro k hk hpsd
    have hle : tryDamping (defaultSolverOpts realLit) (lmReset (defaultSolverOpts realLit) s).lambda (lmReset (defaultSolverOpts realLit) s).badF k ≤ 1024 / 10 ^ 4 := by
      have e1 : (lmReset (defaultSolverOpts realLit) s).lambda = 1 / 10 ^ 4 := by simp [lmReset, defaultSolverOpts, realLit]
      have e2 : (lmReset (defaultSolverOpts realLit) s).badF = 2 := by simp [lmReset, defaultSolverOpts, realLit]
      rw [e1, e2]
      obtain ⟨t0, t1, t2, t3, t4⟩ := default_tries
      have hk : k < 5 := hk
      interval_cases k
      · simp only at t0; rw [t0]; norm_num
      · rw [t1]; norm_num
      · rw [t2]; norm_num
      · rw [t3]; norm_num
      · rw [t4]
    exact hp (psd_damped_mono (symUpper_symR H) (tryDamping_nonneg _ _ _) hle hpsd)
  · simp [defaultOptions, realLit]

end

/-! ### The Rosenbrock function of tests/optimize_easy.cpp -/

/-- cost, gradient and Hessian, tests/optimize_easy.cpp:40-60 -/
noncomputable def rosen (x : Vec ℝ 2) : ℝ := (1 - x 0) ^ 2 + 100 * (x 1 - x 0 ^ 2) ^ 2
noncomputable def rosenG (x : Vec ℝ 2) : Vec ℝ 2 := fun i =>
  if i = 0 then -2 * (1 - x 0) - 400 * x 0 * (x 1 - x 0 ^ 2) else 200 * (x 1 - x 0 ^ 2)
noncomputable def rosenH (x : Vec ℝ 2) : Mat ℝ 2 := fun i j =>
  if i = j then (if i = 0 then 2 - 400 * x 1 + 1200 * x 0 ^ 2 else 200) else -400 * x 0

/-- the optimization problem of the test: `Vec2` parameters, the function writes the gradient and the Hessian and returns the cost -/
noncomputable def rosenProb : Problem ℝ ℝ Unit (Vec ℝ 2) where
  acc :=
    { full := fun w x _ g H => (({ cost := rosen x, num := 1, inlier := 1 },
        fun i => if h : i.1 < 2 then rosenG x ⟨i.1, h⟩ else g i,
        fun i j => if h : i.1 < 2 ∧ j.1 < 2 then rosenH x ⟨i.1, h.1⟩ ⟨j.1, h.2⟩ else H i j), w)
      eval := fun w x => ({ cost := rosen x, num := 1, inlier := 1 }, w) }
  dims := some 2
  dynDims := fun _ => 2
  plusEq := fun x d => fun i => if h : i.1 < d.n then x i + d.v ⟨i.1, h⟩ else x i
  clock := fun w => (1, w)
  alloc := fun w _ => (some (fun _ => 7, fun _ _ => 7), w)
  ratio1 := 1

theorem rosenProb_hess (x : Vec ℝ 2) : HessAt rosenProb x (rosenH x) where
  dyn _ := rfl
  size := Or.inl rfl
  plus x v := by
    funext i
    simp only [rosenProb, i.2, dite_true, Pi.add_apply]
  pos := by decide
  full w := by
    refine ⟨{ cost := rosen x, num := 1, inlier := 1 }, rosenG x, w, ?_, by simp⟩
    simp only [rosenProb, Fin.is_lt, dite_true, and_self]

/-- the options of the test, tests/optimize_easy.cpp:65-69 -/
noncomputable def rosenOpts : Options ℝ Unit (DVec ℝ) := { defaultOptions realLit with maxIters := 200, minRerrDec := 0, maxConsecFailures := 20 }

/-- (1, 1) is the only point where the gradient vanishes -/
theorem rosen_stationary (x : Vec ℝ 2) : rosenG x = 0 ↔ x 0 = 1 ∧ x 1 = 1 := by
  constructor
  · intro h
    have h0 := congrFun h 0
    have h1 := congrFun h 1
    simp only [rosenG, if_true, Pi.zero_apply, show (1 : Fin 2) ≠ 0 by decide, if_false] at h0 h1
    have h2 : x 1 - x 0 ^ 2 = 0 := by linarith
    rw [h2] at h0
    have h3 : x 0 = 1 := by linarith
    refine ⟨h3, ?_⟩
    rw [h3] at h2; linarith
  · rintro ⟨h0, h1⟩
    funext i
    fin_cases i <;> simp [rosenG, h0, h1]

/-- **C116 is violated** on the library's own test problem: from every start above the parabola `y = 3 x² + 1/200` the run of the test fails in its first iteration
and returns the start, although neither the gradient vanishes there nor the cost is at a minimum. The test starts at (-1.2, 1). -/
theorem C116_rosenbrock {LA : LinAlg ℝ} (hL : PosLDLT LA) (x : Vec ℝ 2) (hx : 3 * x 0 ^ 2 + 1 / 200 < x 1) (s : LMState ℝ ℝ) (hs : s.gn.n = 2)
    {fuel : Nat} (hfu : 20 ≤ fuel) :
    rosenG x ≠ 0 ∧ ∃ st, optimizeAcc (lmEnv (defaultSolverOpts realLit) LA rosenProb) rosenOpts fuel (-1) () (lmReset (defaultSolverOpts realLit) s) x = .ok st ∧
      st.out.stop = .kSolverFailed ∧ st.x = x := by
  constructor
  · rw [Ne, rosen_stationary]
    rintro ⟨h0, h1⟩
    rw [h0, h1] at hx; norm_num at hx
  · have hlo : (defaultSolverOpts realLit).dampLo ≤ (defaultSolverOpts realLit).dampHi := by simp [defaultSolverOpts, realLit]; norm_num
    have hU : Unrepairable (rosenH x) := ⟨0, Or.inl (by simp only [rosenH, if_true]; linarith)⟩
    obtain ⟨st, h1, h2, h3, -⟩ := (C116_never_leaves (o := rosenOpts) (mi := -1) (rosenProb_hess x) hL rfl hlo hU (s := lmReset (defaultSolverOpts realLit) s) rfl
      (Or.inr hs) (by decide) ()).1 (by decide) (by decide) (by simp [rosenOpts, defaultOptions, realLit]) fuel hfu
    exact ⟨st, h1, h2, h3⟩

/-- hypotheses of `C116_rosenbrock` and `C116_never_leaves`: the start (0, 1); and of `C116_finds_step_partial`: the start (-1.2, 1) of the test, where the first
attempt works -/
example : PosLDLT someLinAlg ∧ ExactLinAlg someLinAlg ∧ 3 * (![0, 1] : Vec ℝ 2) 0 ^ 2 + 1 / 200 < (![0, 1] : Vec ℝ 2) 1 ∧
    PD (dampedR (tryDamping (defaultSolverOpts realLit) (1 / 10 ^ 4) 2 0) (symUpper (rosenH ![-6 / 5, 1]))) ∧ DiagOk (defaultSolverOpts realLit) (rosenH ![-6 / 5, 1]) ∧
    (normalizeCost (defaultSolverOpts realLit) ({ cost := rosen ![-6 / 5, 1], num := 1, inlier := () } : Cost ℝ Unit)).cost ≠ maxVal := by
  refine ⟨someLinAlg_pos, someLinAlg_exact, by norm_num, ?_, Or.inl (by simp [defaultSolverOpts, realLit]), ?_⟩
  · rw [show tryDamping (defaultSolverOpts realLit) (1 / 10 ^ 4) 2 0 = 1 / 10 ^ 4 from default_tries.1]
    refine ⟨dampedR_symR (symUpper_symR _) _, fun v hv => ?_⟩
    have hv' : v 0 ≠ 0 ∨ v 1 ≠ 0 := by
      by_contra hc
      push Not at hc
      exact hv (funext fun i => by fin_cases i; exacts [hc.1, hc.2])
    simp only [dotR, mv, dampedR, symUpper, rosenH, Fin.sum_univ_two]
    norm_num
    rcases hv' with h | h
    · nlinarith [sq_nonneg (v 1 + 12 / 5 * v 0), sq_nonneg (v 1), mul_self_pos.mpr h]
    · nlinarith [sq_nonneg (v 0 + 480 / 1330 * v 1), sq_nonneg (v 0), mul_self_pos.mpr h]
  · have h1 : (2 : ℝ) ^ 5 ≤ 2 ^ 1024 := pow_le_pow_right₀ (by norm_num) (by norm_num)
    have h2 : (maxVal : ℝ) = 2 ^ 1024 := rfl
    simp only [normalizeCost, defaultSolverOpts]
    norm_num [rosen, h2]
    intro h3
    rw [← h3] at h1
    norm_num at h1

/-- hypotheses of `C116_default_gives_up`: the Hessian of `x² + 4 x y + y²`, which a damping above 1 would repair -/
example : ¬ PSD (dampedR (1024 / 10 ^ 4) (symUpper (fun i j => if i = j then (2 : ℝ) else 4 : Mat ℝ 2))) := by
  intro h
  have := h.2 ![1, -1]
  simp only [dotR, mv, dampedR, symUpper, Fin.sum_univ_two] at this
  norm_num at this

end Verif
