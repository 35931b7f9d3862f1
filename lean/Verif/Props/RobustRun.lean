import Verif.Lemmas.QuadRun
import Verif.Props.RobustLosses
/-!
# C79: robust least squares with the exported scales
-/

set_option linter.unusedSectionVars false

namespace Verif
open FloatOps Loss

/-! ### the losses lie below their tangents -/

/-- the derivative of each robust function, without the floor of the exported scale -/
noncomputable def slope (k : Robust) (t th2 : ℝ) : ℝ :=
  match k with
  | .huber => if t ≤ th2 then 1 else √th2 / √t
  | .arctan => 1 / (t * t / th2 + 1)
  | .cauchy => 1 / (1 + t / th2)
  | k => robustScale k t th2

theorem slope_deriv (k : Robust) {t th2 : ℝ} (hth : 0 < th2) (ht : 0 ≤ t) (hk : k ≠ .truncated) :
    HasDerivAt (fun t => robust k t th2) (slope k t th2) t := by
  cases k with
  | truncated => exact absurd rfl hk
  | huber => exact huber_deriv hth
  | tukey => exact tukey_deriv hth
  | arctan => exact arctan_deriv hth
  | cauchy => exact cauchy_deriv hth ht
  | gemanMcClure => exact geman_deriv hth ht
  | blakeZisserman => exact blake_deriv

theorem slope_antitone (k : Robust) {a b th2 : ℝ} (hth : 0 < th2) (ha : 0 ≤ a) (hab : a ≤ b) : slope k b th2 ≤ slope k a th2 := by
  cases k with
  | truncated => exact C42_scale_antitone .truncated _ _ _ hth ha hab
  | tukey => exact C42_scale_antitone .tukey _ _ _ hth ha hab
  | gemanMcClure => exact C42_scale_antitone .gemanMcClure _ _ _ hth ha hab
  | blakeZisserman => exact C42_scale_antitone .blakeZisserman _ _ _ hth ha hab
  | huber =>
    simp only [slope]
    have hs : 0 < √th2 := Real.sqrt_pos.2 hth
    split_ifs with h1 h2 h2
    · exact le_rfl
    · exact absurd (hab.trans h1) h2
    · rw [div_le_one (Real.sqrt_pos.2 (hth.trans (not_le.1 h1)))]
      exact Real.sqrt_le_sqrt (not_le.1 h1).le
    · exact div_le_div_of_nonneg_left hs.le (Real.sqrt_pos.2 (hth.trans (not_le.1 h2))) (Real.sqrt_le_sqrt hab)
  | arctan =>
    simp only [slope]
    refine one_div_le_one_div_of_le (by positivity) ?_
    have : a * a / th2 ≤ b * b / th2 := div_le_div_of_nonneg_right (by nlinarith) hth.le
    linarith
  | cauchy =>
    simp only [slope]
    refine one_div_le_one_div_of_le (by positivity) ?_
    have : a / th2 ≤ b / th2 := div_le_div_of_nonneg_right hab hth.le
    linarith

/-- The exported scale of the squared norm `t` is the derivative of the robust function; at the kink of the truncated loss, the derivative from the left. By
`C41_scale_partial` this fails only where the scale is below the smallest normal number. -/
def ExactScale (k : Robust) (t th2 : ℝ) : Prop := k = .truncated ∨ HasDerivAt (fun t => robust k t th2) (robustScale k t th2) t

/-- **C79**, the reason: each robust function lies below its tangents, whose slopes are the exported scales. -/
theorem C79_tangent (k : Robust) {a b th2 : ℝ} (hth : 0 < th2) (ha : 0 ≤ a) (hb : 0 ≤ b) (he : ExactScale k a th2) :
    robust k b th2 ≤ robust k a th2 + robustScale k a th2 * (b - a) := by
  by_cases hk : k = .truncated
  · subst hk
    simp only [robust, robustScale]
    split_ifs <;> linarith
  · have hd := he.resolve_left hk
    rw [hd.unique (slope_deriv k hth ha hk)]
    rcases lt_trichotomy a b with h | h | h
    · obtain ⟨c, ⟨hc1, hc2⟩, hc⟩ := exists_hasDerivAt_eq_slope (fun t => robust k t th2) (fun t => slope k t th2) h
        (fun t ht => (slope_deriv k hth (ha.trans ht.1) hk).continuousAt.continuousWithinAt)
        (fun t ht => slope_deriv k hth (ha.trans ht.1.le) hk)
      rw [eq_div_iff (by linarith)] at hc
      have := mul_le_mul_of_nonneg_right (slope_antitone k hth ha hc1.le) (show 0 ≤ b - a by linarith)
      linarith
    · subst h; simp
    · obtain ⟨c, ⟨hc1, hc2⟩, hc⟩ := exists_hasDerivAt_eq_slope (fun t => robust k t th2) (fun t => slope k t th2) h
        (fun t ht => (slope_deriv k hth (hb.trans ht.1) hk).continuousAt.continuousWithinAt)
        (fun t ht => slope_deriv k hth (hb.trans ht.1.le) hk)
      rw [eq_div_iff (by linarith)] at hc
      have := mul_le_mul_of_nonneg_right (slope_antitone k hth (hb.trans hc1.le) hc2.le) (show 0 ≤ a - b by linarith)
      linarith

theorem robustScale_pos (k : Robust) {t th2 : ℝ} (hth : 0 < th2) (ht : 0 ≤ t) (h1 : k ≠ .truncated) (h2 : k ≠ .tukey) : 0 < robustScale k t th2 := by
  have hm := minPos_pos
  cases k with
  | truncated => exact absurd rfl h1
  | tukey => exact absurd rfl h2
  | huber =>
    simp only [robustScale]
    split_ifs
    · exact one_pos
    · exact lt_max_of_lt_left hm
  | arctan => exact lt_max_of_lt_left hm
  | cauchy => exact lt_max_of_lt_left hm
  | gemanMcClure => simp only [robustScale]; positivity
  | blakeZisserman => simp only [robustScale]; positivity

/-! ### costs with a quadratic bound -/

section
variable {n : Nat}

/-- At `x` the cost `f` is bounded by the quadratic function with gradient `2 g` and matrix `H` that touches it there. -/
def BoundedBy (f : Vec ℝ n → ℝ) (g : Vec ℝ n) (H : Mat ℝ n) (x : Vec ℝ n) : Prop :=
  ∀ d, f (x + d) ≤ f x + 2 * dotR g d + dotR d (mv H d)

/-- a damped step decreases such a cost -/
theorem BoundedBy.step {f : Vec ℝ n → ℝ} {g : Vec ℝ n} {H : Mat ℝ n} {x d : Vec ℝ n} (h : BoundedBy f g H x) (hH : PSD H) {l : ℝ} (hl : 0 ≤ l)
    (hd : mv (dampedR l H) d = -g) : f (x + d) ≤ f x - dotR d (mv (dampedR l H) d) := by
  have h1 := h d
  have h2 := damped_quad l H d
  have h3 := mul_nonneg hl (diagSq_nonneg (fun i => psd_diag hH i) d)
  have h4 : dotR d (mv (dampedR l H) d) = -dotR g d := by rw [hd, dotR_neg, dotR_comm]
  linarith

theorem BoundedBy.decreases {f : Vec ℝ n → ℝ} {g : Vec ℝ n} {H : Mat ℝ n} {x d : Vec ℝ n} (h : BoundedBy f g H x) (hH : PSD H) {l : ℝ} (hl : 0 ≤ l)
    (hpd : PD (dampedR l H)) (hg : g ≠ 0) (hd : mv (dampedR l H) d = -g) : f (x + d) < f x := by
  have h1 := h.step hH hl hd
  have h2 : d ≠ 0 := by
    rintro rfl
    rw [mv_zero] at hd
    exact hg (neg_eq_zero.mp hd.symm)
  linarith [hpd.2 d h2]

end

/-! ### robust costs -/

section
variable {n N : Nat}

/-- a block of residuals `A x - b` under a robust loss with threshold `th2` -/
structure Block (n : Nat) where
  m : Nat
  A : Fin m → Fin n → ℝ
  b : Vec ℝ m
  k : Robust
  th2 : ℝ
  pos : 0 < th2

/-- its residuals -/
def Block.r (B : Block n) (x : Vec ℝ n) : Vec ℝ B.m := mv B.A x - B.b

/-- the scale exported for them, `X(r.squaredNorm(), th2, true).second` -/
noncomputable def Block.scale (B : Block n) (x : Vec ℝ n) : ℝ := robustScale B.k (sqL2 (B.r x)) B.th2

/-- the robust cost, the sum of `X(r.squaredNorm(), th2)` over the blocks -/
noncomputable def robCost (Bs : Fin N → Block n) (x : Vec ℝ n) : ℝ := ∑ i, robustLoss (Bs i).k ((Bs i).r x) (Bs i).th2

/-- the gradient `s J^T r`, summed over the blocks (robust_norms.h:21-24) -/
noncomputable def robGrad (Bs : Fin N → Block n) (x : Vec ℝ n) : Vec ℝ n := ∑ i, (Bs i).scale x • tmv (Bs i).A ((Bs i).r x)

/-- the matrix `s J^T J`, summed over the blocks -/
noncomputable def robHess (Bs : Fin N → Block n) (x : Vec ℝ n) : Mat ℝ n := fun p q => ∑ i, (Bs i).scale x * gram (Bs i).A p q

/-- the matrix `J^T J`, without the scales: the system of the comment in robust_norms.h:23 -/
noncomputable def plainHess (Bs : Fin N → Block n) : Mat ℝ n := fun p q => ∑ i, gram (Bs i).A p q

theorem sum_quad (w : Fin N → ℝ) (H : Fin N → Mat ℝ n) (d : Vec ℝ n) :
    dotR d (mv (fun p q => ∑ i, w i * H i p q) d) = ∑ i, w i * dotR d (mv (H i) d) := by
  unfold dotR mv
  simp only [Finset.mul_sum, Finset.sum_mul]
  have e : ∀ p : Fin n, (∑ q, ∑ i, d p * (w i * H i p q * d q)) = ∑ i, ∑ q, w i * (d p * (H i p q * d q)) := by
    intro p
    rw [Finset.sum_comm]
    refine Finset.sum_congr rfl fun i _ => Finset.sum_congr rfl fun q _ => by ring
  rw [Finset.sum_congr rfl fun p _ => e p, Finset.sum_comm]

theorem sum_smul_dot (w : Fin N → ℝ) (v : Fin N → Vec ℝ n) (d : Vec ℝ n) : dotR (∑ i, w i • v i) d = ∑ i, w i * dotR (v i) d := by
  unfold dotR
  simp only [Finset.sum_apply, Pi.smul_apply, smul_eq_mul, Finset.sum_mul, Finset.mul_sum]
  rw [Finset.sum_comm]
  refine Finset.sum_congr rfl fun i _ => Finset.sum_congr rfl fun p _ => by ring

theorem Block.scale_nonneg (B : Block n) (x : Vec ℝ n) : 0 ≤ B.scale x := (C42_scale_range_partial B.k B.th2 _ B.pos (sqL2_nonneg _)).1

theorem gram_quad {m : Nat} (A : Fin m → Fin n → ℝ) (d : Vec ℝ n) : dotR d (mv (gram A) d) = dotR (mv A d) (mv A d) := by
  rw [mv_gram, dotR_tmv]

theorem weighted_psd (Bs : Fin N → Block n) (w : Fin N → ℝ) (hw : ∀ i, 0 ≤ w i) : PSD (fun p q => ∑ i, w i * gram (Bs i).A p q : Mat ℝ n) := by
  refine ⟨fun p q => Finset.sum_congr rfl fun i _ => by rw [gram_sym], fun v => ?_⟩
  rw [sum_quad]
  exact Finset.sum_nonneg fun i _ => mul_nonneg (hw i) ((gram_psd _).2 v)

theorem robHess_psd (Bs : Fin N → Block n) (x : Vec ℝ n) : PSD (robHess Bs x) := weighted_psd Bs _ fun i => (Bs i).scale_nonneg x

theorem plainHess_eq (Bs : Fin N → Block n) : plainHess Bs = fun p q => ∑ i, 1 * gram (Bs i).A p q := by
  funext p q; simp [plainHess]

theorem plainHess_psd (Bs : Fin N → Block n) : PSD (plainHess Bs) := by
  rw [plainHess_eq]; exact weighted_psd Bs _ fun _ => zero_le_one

/-- the columns of the stacked Jacobian are independent -/
def FullRank (Bs : Fin N → Block n) : Prop := ∀ v, (∀ i, mv (Bs i).A v = 0) → v = 0

theorem weighted_pd (Bs : Fin N → Block n) (hA : FullRank Bs) (w : Fin N → ℝ) (hw : ∀ i, 0 < w i) : PD (fun p q => ∑ i, w i * gram (Bs i).A p q : Mat ℝ n) := by
  refine ⟨(weighted_psd Bs w fun i => (hw i).le).1, fun v hv => ?_⟩
  rw [sum_quad]
  have h1 : ∃ i, mv (Bs i).A v ≠ 0 := by
    by_contra h
    push Not at h
    exact hv (hA v h)
  obtain ⟨i, hi⟩ := h1
  refine Finset.sum_pos' (fun i _ => mul_nonneg (hw i).le ((gram_psd _).2 v)) ⟨i, Finset.mem_univ i, mul_pos (hw i) ?_⟩
  rw [gram_quad]
  refine lt_of_le_of_ne (dotR_self_nonneg _) fun h => hi (dotR_self_eq_zero h.symm)

theorem block_add (B : Block n) (x d : Vec ℝ n) :
    sqL2 (B.r (x + d)) - sqL2 (B.r x) = 2 * dotR (tmv B.A (B.r x)) d + dotR d (mv (gram B.A) d) := by
  have h := lsCost_add (A := B.A) (b := B.b) x d
  have e : ∀ x, lsCost B.A B.b x = sqL2 (B.r x) := fun x => rfl
  rw [e, e] at h
  rw [h]
  unfold lsGrad Block.r
  ring

/-- where the exported scales are exact, the weighted quadratic function bounds the robust cost -/
theorem rob_bounded (Bs : Fin N → Block n) {x : Vec ℝ n} (he : ∀ i, ExactScale (Bs i).k (sqL2 ((Bs i).r x)) (Bs i).th2) :
    BoundedBy (robCost Bs) (robGrad Bs x) (robHess Bs x) x := by
  intro d
  have h : robCost Bs (x + d) ≤ ∑ i, (robustLoss (Bs i).k ((Bs i).r x) (Bs i).th2 +
      (Bs i).scale x * (2 * dotR (tmv (Bs i).A ((Bs i).r x)) d + dotR d (mv (gram (Bs i).A) d))) := by
    refine Finset.sum_le_sum fun i _ => ?_
    rw [← block_add]
    exact C79_tangent (Bs i).k (Bs i).pos (sqL2_nonneg _) (sqL2_nonneg _) (he i)
  refine h.trans (le_of_eq ?_)
  unfold robGrad robHess robCost
  rw [sum_quad, sum_smul_dot, Finset.mul_sum, ← Finset.sum_add_distrib, ← Finset.sum_add_distrib]
  refine Finset.sum_congr rfl fun i _ => by ring

/-- ... and so does the one without scales, if they are at most one -/
theorem rob_bounded_plain (Bs : Fin N → Block n) {x : Vec ℝ n} (he : ∀ i, ExactScale (Bs i).k (sqL2 ((Bs i).r x)) (Bs i).th2) (h1 : ∀ i, (Bs i).scale x ≤ 1) :
    BoundedBy (robCost Bs) (robGrad Bs x) (plainHess Bs) x := by
  intro d
  refine (rob_bounded Bs he d).trans ?_
  rw [plainHess_eq]
  unfold robHess
  rw [sum_quad, sum_quad]
  have := Finset.sum_le_sum (s := Finset.univ) fun i (_ : i ∈ Finset.univ) => mul_le_mul_of_nonneg_right (h1 i) ((gram_psd (Bs i).A).2 d)
  linarith

end

/-! ### runs on costs with a quadratic bound -/

theorem path_sum {R X : Type} {V M : Type} {a f : X → ℝ} {C : ℝ} :
    ∀ (tr : List (Rec ℝ R X V M)) (x y : X), Path x tr y → (∀ t ∈ tr, a t.x ≤ C * (f t.x - f t.xNext)) →
      (tr.map fun t => a t.x).sum ≤ C * (f x - f y) := by
  intro tr
  induction tr with
  | nil => rintro x y h _; cases h; simp
  | cons t tr ih =>
    rintro x y ⟨h1, h2⟩ hm
    have h3 := ih t.xNext y h2 fun q hq => hm q (List.mem_cons_of_mem _ hq)
    have h4 := hm t List.mem_cons_self
    rw [List.map_cons, List.sum_cons]
    subst h1
    linarith

section
variable {R W : Type} {m n : Nat}
variable {so : SolverOpts ℝ} {LA : LinAlg ℝ} {P : Problem ℝ R W (Vec ℝ n)} {o : Options ℝ W (DVec ℝ)}
variable {f : Vec ℝ n → ℝ} {G : Vec ℝ n → Vec ℝ n} {Q : Vec ℝ n → Mat ℝ n}

/-- `0 < C` bounds the eigenvalues of `H` -/
def UpTo (C : ℝ) (H : Mat ℝ n) : Prop := 0 < C ∧ ∀ v, dotR v (mv H v) ≤ C * nrm v ^ 2

theorem UpTo.diag {C : ℝ} {H : Mat ℝ n} (h : UpTo C H) (i : Fin n) : H i i ≤ C := by
  have h1 := h.2 (Pi.single i 1)
  rw [nrm_sq] at h1
  simpa [dotR, mv, Pi.single_apply] using h1

theorem UpTo.damped {C l : ℝ} {H : Mat ℝ n} (h : UpTo C H) (hl : 0 ≤ l) : UpTo (C * (1 + l)) (dampedR l H) := by
  refine ⟨mul_pos h.1 (by linarith), fun v => ?_⟩
  rw [damped_quad]
  have h1 := h.2 v
  have h2 := mul_le_mul_of_nonneg_left (diagSq_le h.diag v) hl
  linarith

theorem BoundedBy.gain {g d x : Vec ℝ n} {H : Mat ℝ n} (h : BoundedBy f g H x) (hH : PSD H) {l C : ℝ} (hl : 0 ≤ l) (hC : UpTo C H)
    (hpd : PD (dampedR l H)) (hd : mv (dampedR l H) d = -g) : nrm g ^ 2 ≤ C * (1 + l) * (f x - f (x + d)) := by
  have h1 := h.step hH hl hd
  have h2 := psd_sq hpd.psd (hC.damped hl).1 (hC.damped hl).2 d
  have e : nrm (mv (dampedR l H) d) ^ 2 = nrm g ^ 2 := by rw [hd, nrm_sq, nrm_sq, dotR_neg, dotR_comm, dotR_neg, neg_neg]
  rw [e] at h2
  refine h2.trans (mul_le_mul_of_nonneg_left (by linarith) (hC.damped hl).1.le)

/-- Gauss-Newton on a cost with a quadratic bound at each point below the start -/
theorem bounded_gn_run {x0 : Vec ℝ n} (h : UserQuad P (fun x => f x ≤ f x0) f G Q m) (hsq : so.useSquaredNorm = true ∨ ∀ x, f x ≤ f x0 → 0 ≤ f x)
    (hB : ∀ x, f x ≤ f x0 → BoundedBy f (G x) (Q x) x) (hL : ExactLinAlg LA) (hA : ∀ x, f x ≤ f x0 → PD (Q x))
    (hone : ∀ x, f x ≤ f x0 → Solves so (P.dims == some 1) (Q x)) (hmin : ∀ x, f x ≤ f x0 → DiagOk so (Q x)) (hclip : so.gradClip = 0)
    {C : ℝ} (hC : ∀ x, f x ≤ f x0 → UpTo C (Q x))
    (s : GNState ℝ R) (hs : P.dims = none ∨ s.n = n) (fuel : Nat) (mi k : Int) (hk : loopBound o mi = some k)
    (w : W) (hx0 : nCost so m (f x0) < maxVal) :
    ∃ st, optimizeAcc (gnEnv so LA P) o (fuel + 1) mi w s x0 = .ok st ∧
      (∀ t ∈ st.trace, (G t.x ≠ 0 → t.succ = true ∧ f t.xNext < f t.x) ∧ (G t.x = 0 → t.xNext = t.x)) ∧
      (st.trace.map fun t => nrm (G t.x) ^ 2).sum ≤ C * (f x0 - f st.x) := by
  have hst : ∀ x d, f x ≤ f x0 → mv (Q x) d = -G x → mv (dampedR 0 (Q x)) d = -G x := fun x d _ hd => by rw [damped_zero]; exact hd
  obtain ⟨st, e, ht⟩ := gn_quad_run (o := o) h hsq hL hA hone hmin hclip
    (fun x d hx hg hd => by
      have := (hB x hx).decreases (hA x hx).psd le_rfl (by rw [damped_zero]; exact hA x hx) hg (hst x d hx hd)
      exact ⟨this.le.trans hx, this⟩) s hs fuel mi k hk w x0 le_rfl hx0
  have hrow : ∀ t ∈ st.trace, ((G t.x ≠ 0 → t.succ = true ∧ f t.xNext < f t.x) ∧ (G t.x = 0 → t.xNext = t.x)) ∧
      nrm (G t.x) ^ 2 ≤ C * (f t.x - f t.xNext) := by
    intro t htt
    obtain ⟨h1, h2, h3⟩ := ht t htt
    have hpd : PD (dampedR 0 (Q t.x)) := by rw [damped_zero]; exact hA _ h1
    refine ⟨⟨fun hg => ⟨h3 hg, ?_⟩, fun hg => ?_⟩, ?_⟩
    · have := (hB _ h1).decreases (hA _ h1).psd le_rfl hpd hg (hst _ _ h1 h2)
      rwa [add_sub_cancel] at this
    · rw [hg, neg_zero, ← mv_zero (Q t.x)] at h2
      exact sub_eq_zero.mp (pd_inj (hA _ h1) h2)
    · have := (hB _ h1).gain (hA _ h1).psd le_rfl (hC _ h1) hpd (hst _ _ h1 h2)
      rwa [add_sub_cancel, add_zero, mul_one] at this
  exact ⟨st, e, fun t htt => (hrow t htt).1, path_sum (f := f) (a := fun x => nrm (G x) ^ 2) st.trace x0 st.x (run_path e) fun t htt => (hrow t htt).2⟩

/-- the same for Levenberg-Marquardt -/
theorem bounded_lm_run {x0 : Vec ℝ n} (h : UserQuad P (fun x => f x ≤ f x0) f G Q m) (hsq : so.useSquaredNorm = true ∨ ∀ x, f x ≤ f x0 → 0 ≤ f x)
    (hB : ∀ x, f x ≤ f x0 → BoundedBy f (G x) (Q x) x) (hL : ExactLinAlg LA) (hA : ∀ x, f x ≤ f x0 → ∀ l, Allowed so l → PD (dampedR l (Q x)))
    (hone : so.useLdlt = true ∨ P.dims ≠ some 1) (hr0 : so.dampLo ≤ so.dampHi) (hlo : 0 ≤ so.dampLo) (hin : 0 ≤ so.dampInit)
    (hmin : ∀ x, f x ≤ f x0 → DiagOk so (Q x)) (hclip : so.gradClip = 0) {C Λ : ℝ} (hC : ∀ x, f x ≤ f x0 → UpTo C (Q x))
    (s : LMState ℝ R) (hs : P.dims = none ∨ s.gn.n = n) (hreb : s.rebuild = true) (hal : Allowed so s.lambda) (hsl : s.lambda ≤ Λ) (hΛ : so.dampHi ≤ Λ)
    (fuel : Nat) (mi k : Int) (hk : loopBound o mi = some k) (hk2 : k ≤ 65536) (w : W) (hx0 : nCost so m (f x0) < maxVal) :
    ∃ st, optimizeAcc (lmEnv so LA P) o (fuel + 1) mi w s x0 = .ok st ∧
      (∀ t ∈ st.trace, (G t.x ≠ 0 → t.succ = true ∧ f t.xNext < f t.x) ∧ (G t.x = 0 → t.xNext = t.x)) ∧
      (st.trace.map fun t => nrm (G t.x) ^ 2).sum ≤ C * (1 + Λ) * (f x0 - f st.x) := by
  have hnn : ∀ l, Allowed so l → 0 ≤ l := by
    rintro l (rfl | h)
    · exact hin
    · exact hlo.trans h
  obtain ⟨st, e, -, ht⟩ := lm_quad_run (o := o) h hsq hL hA hone hr0 hlo hin hmin hclip (K := fun _ l _ => l ≤ Λ) (fun _ _ h => h)
    (by
      rintro i s2 s3 q - - hg
      unfold lmGood at hg
      rw [stdClamp_real hr0] at hg
      injection hg with hg
      subst hg
      exact max_le (hr0.trans hΛ) ((min_le_right _ _).trans hΛ))
    (fun i x d l b hx hl _ hg hd => by
      have := (hB x hx).decreases (h.psd x hx) (hnn l hl) (hA x hx l hl) hg hd
      exact ⟨this.le.trans hx, this⟩)
    s hs hreb hal hsl fuel mi k hk hk2 w x0 le_rfl hx0
  have hrow : ∀ t ∈ st.trace, ((G t.x ≠ 0 → t.succ = true ∧ f t.xNext < f t.x) ∧ (G t.x = 0 → t.xNext = t.x)) ∧
      nrm (G t.x) ^ 2 ≤ C * (1 + Λ) * (f t.x - f t.xNext) := by
    intro t htt
    obtain ⟨i, hi⟩ := List.getElem?_of_mem htt
    obtain ⟨h1, h2, h3⟩ := ht i t hi
    by_cases hg : G t.x = 0
    · rw [h2 hg, hg, nrm_zero]; simp
    · obtain ⟨h4, l, b, h5, h6, h7⟩ := h3 hg
      have h8 := (hB _ h1).decreases (h.psd _ h1) (hnn l h6) (hA _ h1 l h6) hg h7
      have h9 := (hB _ h1).gain (h.psd _ h1) (hnn l h6) (hC _ h1) (hA _ h1 l h6) h7
      rw [add_sub_cancel] at h8 h9
      refine ⟨⟨fun _ => ⟨h4, h8⟩, fun h => absurd h hg⟩, h9.trans (mul_le_mul_of_nonneg_right ?_ (by linarith))⟩
      have := (hC _ h1).1
      nlinarith
  exact ⟨st, e, fun t htt => (hrow t htt).1, path_sum (f := f) (a := fun x => nrm (G x) ^ 2) st.trace x0 st.x (run_path e) fun t htt => (hrow t htt).2⟩

end

/-! ### robust least squares -/

section
variable {R W : Type} {m n N : Nat}
variable {so : SolverOpts ℝ} {LA : LinAlg ℝ} {P : Problem ℝ R W (Vec ℝ n)} {o : Options ℝ W (DVec ℝ)}
variable {Bs : Fin N → Block n}

/-- The user's function sums, over the blocks `Bs`, the robust losses and the gradients `s J^T r`; it returns the matrix `Q`. -/
structure RobustLS (P : Problem ℝ R W (Vec ℝ n)) (Bs : Fin N → Block n) (Q : Vec ℝ n → Mat ℝ n) (m : Nat) : Prop extends VecParams P where
  pos : 0 < m
  full : ∀ w x, ∃ c w', P.acc.full w x n (fun _ => 0) (fun _ _ => 0) = ((c, robGrad Bs x, Q x), w') ∧ c.cost = robCost Bs x ∧ c.num = m
  eval : ∀ w x, (P.acc.eval w x).1.cost = robCost Bs x ∧ (P.acc.eval w x).1.num = m

theorem RobustLS.quad {Q : Vec ℝ n → Mat ℝ n} (h : RobustLS P Bs Q m) {Ω : Vec ℝ n → Prop} (hQ : ∀ x, Ω x → PSD (Q x)) :
    UserQuad P Ω (robCost Bs) (robGrad Bs) Q m :=
  { h.toVecParams with pos := h.pos, psd := hQ, full := fun w x _ => h.full w x, eval := fun w x _ => h.eval w x }

/-- At every point of robust cost at most `c`: the exported scales are exact. -/
def ScalesBelow (Bs : Fin N → Block n) (c : ℝ) : Prop := ∀ x, robCost Bs x ≤ c → ∀ i, ExactScale (Bs i).k (sqL2 ((Bs i).r x)) (Bs i).th2

/-- the accumulated gradient is half the derivative of the robust cost (away from the kink of truncated losses) -/
theorem C79_gradient (x : Vec ℝ n) (he : ∀ i, ExactScale (Bs i).k (sqL2 ((Bs i).r x)) (Bs i).th2) (kink : ∀ i, (Bs i).k = .truncated → sqL2 ((Bs i).r x) ≠ (Bs i).th2) :
    HasGrad (robCost Bs) ((2 : ℝ) • robGrad Bs x) x := by
  have h1 : ∀ i, HasGrad (fun y => robustLoss (Bs i).k ((Bs i).r y) (Bs i).th2) ((Bs i).scale x • (2 : ℝ) • tmv (Bs i).A ((Bs i).r x)) x := by
    intro i
    have hj : HasJac (Bs i).r (Matrix.of (Bs i).A) x := by
      intro a
      have h := HasGrad.sum (x := x) Finset.univ (f := fun j y => (Bs i).A a j * y j) (J := fun j => (Bs i).A a j • Pi.single j (1 : ℝ)) fun j _ => by
        refine (hasGrad_coord j x).comp_deriv (φ := fun t => (Bs i).A a j * t) ?_
        simpa using (hasDerivAt_id (x j)).const_mul ((Bs i).A a j)
      have h2 := h.comp_deriv (φ := fun t => t - (Bs i).b a) (d := 1) ((hasDerivAt_id _).sub_const _)
      refine h2.congr_J ?_
      funext q
      simp [Pi.single_apply, Matrix.of_apply]
    have hd : HasDerivAt (fun t => robust (Bs i).k t (Bs i).th2) ((Bs i).scale x) (sqL2 ((Bs i).r x)) := by
      rcases he i with hk | hk
      · obtain ⟨d, hd, -, h⟩ := C41_scale_partial (Bs i).k (sqL2 ((Bs i).r x)) (Bs i).th2 (Bs i).pos (sqL2_nonneg _) (kink i)
        rcases h with h | ⟨h, -⟩
        · unfold Block.scale; rw [h]; exact hd
        · rw [hk] at h; simp [Robust.Floored] at h
      · exact hk
    refine (((sqL2_grad ((Bs i).r x)).chain hj).comp_deriv hd).congr_J ?_
    congr 1
    funext q
    simp only [Matrix.vecMul, dotProduct, Matrix.of_apply, tmv, Pi.smul_apply, smul_eq_mul, Finset.mul_sum]
    refine Finset.sum_congr rfl fun a _ => by ring
  refine (HasGrad.sum Finset.univ fun i _ => h1 i).congr_J ?_
  unfold robGrad
  rw [Finset.smul_sum]
  refine Finset.sum_congr rfl fun i _ => ?_
  rw [smul_comm]

/-- **C79**, Gauss-Newton: in exact arithmetic, on linear residuals under robust losses, with gradient and Hessian weighted by the exported scales: whatever the options and
stop criteria, a run from `x0` ends normally; every iteration that does not start at a stationary point is accepted and decreases the robust cost, and the
squared norms of the gradients at all iterates together are at most `C` times the decrease. Any mix of the seven losses is allowed,
as long as the weighted Hessian is positive definite where the cost is not above that of the start. -/
theorem C79_gn_robust {x0 : Vec ℝ n} (h : RobustLS P Bs (robHess Bs) m) (hsq : so.useSquaredNorm = true ∨ ∀ x, 0 ≤ robCost Bs x)
    (hex : ScalesBelow Bs (robCost Bs x0)) (hL : ExactLinAlg LA) (hA : ∀ x, robCost Bs x ≤ robCost Bs x0 → PD (robHess Bs x))
    (hone : ∀ x, robCost Bs x ≤ robCost Bs x0 → Solves so (P.dims == some 1) (robHess Bs x))
    (hmin : ∀ x, robCost Bs x ≤ robCost Bs x0 → DiagOk so (robHess Bs x)) (hclip : so.gradClip = 0)
    {C : ℝ} (hC : ∀ x, robCost Bs x ≤ robCost Bs x0 → UpTo C (robHess Bs x))
    (s : GNState ℝ R) (hs : P.dims = none ∨ s.n = n) (fuel : Nat) (mi k : Int) (hk : loopBound o mi = some k)
    (w : W) (hx0 : nCost so m (robCost Bs x0) < maxVal) :
    ∃ st, optimizeAcc (gnEnv so LA P) o (fuel + 1) mi w s x0 = .ok st ∧
      (∀ t ∈ st.trace, (robGrad Bs t.x ≠ 0 → t.succ = true ∧ robCost Bs t.xNext < robCost Bs t.x) ∧ (robGrad Bs t.x = 0 → t.xNext = t.x)) ∧
      (st.trace.map fun t => nrm (robGrad Bs t.x) ^ 2).sum ≤ C * (robCost Bs x0 - robCost Bs st.x) :=
  bounded_gn_run (h.quad fun x _ => robHess_psd Bs x) (hsq.imp id fun hn x _ => hn x) (fun x hx => rob_bounded Bs (hex x hx)) hL hA hone hmin hclip hC
    s hs fuel mi k hk w hx0

/-- **C79**, Levenberg-Marquardt: the same. -/
theorem C79_lm_robust {x0 : Vec ℝ n} (h : RobustLS P Bs (robHess Bs) m) (hsq : so.useSquaredNorm = true ∨ ∀ x, 0 ≤ robCost Bs x)
    (hex : ScalesBelow Bs (robCost Bs x0)) (hL : ExactLinAlg LA)
    (hA : ∀ x, robCost Bs x ≤ robCost Bs x0 → ∀ l, Allowed so l → PD (dampedR l (robHess Bs x)))
    (hone : so.useLdlt = true ∨ P.dims ≠ some 1) (hr0 : so.dampLo ≤ so.dampHi) (hlo : 0 ≤ so.dampLo) (hin : 0 ≤ so.dampInit)
    (hmin : ∀ x, robCost Bs x ≤ robCost Bs x0 → DiagOk so (robHess Bs x)) (hclip : so.gradClip = 0)
    {C Λ : ℝ} (hC : ∀ x, robCost Bs x ≤ robCost Bs x0 → UpTo C (robHess Bs x))
    (s : LMState ℝ R) (hs : P.dims = none ∨ s.gn.n = n) (hreb : s.rebuild = true) (hal : Allowed so s.lambda) (hsl : s.lambda ≤ Λ) (hΛ : so.dampHi ≤ Λ)
    (fuel : Nat) (mi k : Int) (hk : loopBound o mi = some k) (hk2 : k ≤ 65536) (w : W) (hx0 : nCost so m (robCost Bs x0) < maxVal) :
    ∃ st, optimizeAcc (lmEnv so LA P) o (fuel + 1) mi w s x0 = .ok st ∧
      (∀ t ∈ st.trace, (robGrad Bs t.x ≠ 0 → t.succ = true ∧ robCost Bs t.xNext < robCost Bs t.x) ∧ (robGrad Bs t.x = 0 → t.xNext = t.x)) ∧
      (st.trace.map fun t => nrm (robGrad Bs t.x) ^ 2).sum ≤ C * (1 + Λ) * (robCost Bs x0 - robCost Bs st.x) :=
  bounded_lm_run (h.quad fun x _ => robHess_psd Bs x) (hsq.imp id fun hn x _ => hn x) (fun x hx => rob_bounded Bs (hex x hx)) hL hA hone hr0 hlo hin hmin hclip hC
    s hs hreb hal hsl hΛ fuel mi k hk hk2 w hx0

/-- the losses whose scale never vanishes: with these, linear independence of the columns of the stacked Jacobian suffices for the Hessians above -/
theorem C79_full_rank (hA : FullRank Bs) (hk : ∀ i, (Bs i).k ≠ .truncated ∧ (Bs i).k ≠ .tukey) (x : Vec ℝ n) {l : ℝ} (hl : 0 ≤ l) :
    PD (robHess Bs x) ∧ PD (dampedR l (robHess Bs x)) := by
  have h : PD (robHess Bs x) := weighted_pd Bs hA _ fun i => robustScale_pos _ (Bs i).pos (sqL2_nonneg _) (hk i).1 (hk i).2
  exact ⟨h, damped_pd' h hl⟩

/-- **C79** (partial), the system of the comment in robust_norms.h:23, `J^T J dx = -s J^T r`: for the losses whose scale is at most one, the same holds for Gauss-Newton.
Missing: Tukey and Geman-McClure, for which it fails, see `C79_recipe_tukey` and `C79_recipe_geman`. -/
theorem C79_recipe_partial {x0 : Vec ℝ n} (h : RobustLS P Bs (fun _ => plainHess Bs) m) (hsq : so.useSquaredNorm = true ∨ ∀ x, 0 ≤ robCost Bs x)
    (hkind : ∀ i, (Bs i).k ≠ .tukey ∧ (Bs i).k ≠ .gemanMcClure) (hA : FullRank Bs)
    (hex : ScalesBelow Bs (robCost Bs x0)) (hL : ExactLinAlg LA)
    (hone : Solves so (P.dims == some 1) (plainHess Bs)) (hmin : DiagOk so (plainHess Bs)) (hclip : so.gradClip = 0)
    {C : ℝ} (hC : UpTo C (plainHess Bs))
    (s : GNState ℝ R) (hs : P.dims = none ∨ s.n = n) (fuel : Nat) (mi k : Int) (hk : loopBound o mi = some k)
    (w : W) (hx0 : nCost so m (robCost Bs x0) < maxVal) :
    ∃ st, optimizeAcc (gnEnv so LA P) o (fuel + 1) mi w s x0 = .ok st ∧
      (∀ t ∈ st.trace, (robGrad Bs t.x ≠ 0 → t.succ = true ∧ robCost Bs t.xNext < robCost Bs t.x) ∧ (robGrad Bs t.x = 0 → t.xNext = t.x)) ∧
      (st.trace.map fun t => nrm (robGrad Bs t.x) ^ 2).sum ≤ C * (robCost Bs x0 - robCost Bs st.x) := by
  have h1 : ∀ x i, (Bs i).scale x ≤ 1 := by
    intro x i
    have h2 := (C42_scale_range_partial (Bs i).k (Bs i).th2 _ (Bs i).pos (sqL2_nonneg ((Bs i).r x))).2
    have h3 := hkind i
    unfold Block.scale
    revert h2 h3
    cases (Bs i).k <;> simp
  refine bounded_gn_run (h.quad fun x _ => plainHess_psd Bs) (hsq.imp id fun hn x _ => hn x) (fun x hx => rob_bounded_plain Bs (hex x hx) (h1 x)) hL (fun x _ => ?_)
    (fun _ _ => hone) (fun _ _ => hmin) hclip (fun _ _ => hC) s hs fuel mi k hk w hx0
  rw [plainHess_eq]
  exact weighted_pd Bs hA _ fun _ => one_pos

end

/-! ### the recipe of the comment fails for two losses -/

/-- one residual `x` under the loss `k` -/
noncomputable def oneRes (k : Robust) (th2 : ℝ) (h : 0 < th2) : Fin 1 → Block 1 := fun _ => ⟨1, fun _ _ => 1, fun _ => 0, k, th2, h⟩

theorem oneRes_sq (k : Robust) (th2 : ℝ) (h : 0 < th2) (x : Vec ℝ 1) (i : Fin 1) : sqL2 ((oneRes k th2 h i).r x) = x 0 ^ 2 := by
  show ∑ j : Fin 1, (mv (fun _ _ => 1 : Fin 1 → Fin 1 → ℝ) x j - 0) * (mv (fun _ _ => 1 : Fin 1 → Fin 1 → ℝ) x j - 0) = _
  simp [mv, pow_two]

theorem oneRes_cost (k : Robust) (th2 : ℝ) (h : 0 < th2) (x : Vec ℝ 1) : robCost (oneRes k th2 h) x = robust k (x 0 ^ 2) th2 := by
  unfold robCost robustLoss
  rw [Fin.sum_univ_one, oneRes_sq]
  rfl

theorem oneRes_step (k : Robust) (th2 : ℝ) (h : 0 < th2) {x d : Vec ℝ 1} (hd : mv (plainHess (oneRes k th2 h)) d = -robGrad (oneRes k th2 h) x) :
    (x + d) 0 ^ 2 = x 0 ^ 2 * (1 - robustScale k (x 0 ^ 2) th2) ^ 2 := by
  have h1 : mv (plainHess (oneRes k th2 h)) d 0 = d 0 := by
    unfold plainHess
    simp only [mv, Fin.sum_univ_one]
    have : gram (oneRes k th2 h 0).A 0 0 = 1 := by
      show ∑ j : Fin 1, (1 : ℝ) * 1 = 1
      simp
    rw [this, one_mul]
  have h2 : robGrad (oneRes k th2 h) x 0 = robustScale k (x 0 ^ 2) th2 * x 0 := by
    unfold robGrad Block.scale
    rw [Fin.sum_univ_one, oneRes_sq]
    have : tmv (oneRes k th2 h 0).A ((oneRes k th2 h 0).r x) 0 = x 0 := by
      show ∑ j : Fin 1, (1 : ℝ) * (mv (fun _ _ => 1 : Fin 1 → Fin 1 → ℝ) x j - 0) = _
      simp [mv]
    rw [Pi.smul_apply, this]
    rfl
  have h3 := congrFun hd 0
  rw [h1, Pi.neg_apply, h2] at h3
  rw [Pi.add_apply, h3]
  ring

/-- **C79 is violated** by the recipe `J^T J dx = -s J^T r` of robust_norms.h:23 with the Tukey loss, whose scale is close to 3 for good residuals: the Gauss-Newton step from every
nonzero residual up to about a third of the threshold increases the robust cost (the iterates are driven away from the minimum). -/
theorem C79_recipe_tukey (th2 : ℝ) (hth : 0 < th2) (x d : Vec ℝ 1) (hx : x 0 ≠ 0) (hs : x 0 ^ 2 ≤ th2 / 10)
    (hd : mv (plainHess (oneRes .tukey th2 hth)) d = -robGrad (oneRes .tukey th2 hth) x) :
    robCost (oneRes .tukey th2 hth) x < robCost (oneRes .tukey th2 hth) (x + d) := by
  rw [oneRes_cost, oneRes_cost, oneRes_step _ _ _ hd]
  generalize hq : x 0 ^ 2 = q at hs ⊢
  have hq0 : 0 < q := by rw [← hq]; positivity
  have hin : q ≤ th2 := by linarith
  have hsc : robustScale .tukey q th2 = 3 * (1 - q / th2) ^ 2 := by
    simp only [robustScale, if_pos hin]
    field_simp
  rw [hsc]
  generalize hu : q / th2 = u
  have hqu : q = u * th2 := by rw [← hu]; field_simp
  have hu0 : 0 < u := by rw [← hu]; positivity
  have hu1 : u ≤ 1 / 10 := by rw [← hu, div_le_iff₀ hth]; linarith
  have h2 : 81 / 100 ≤ (1 - u) ^ 2 ∧ (1 - u) ^ 2 ≤ 1 := ⟨by nlinarith, by nlinarith⟩
  generalize (1 - u) ^ 2 = v at h2
  have h3 : 2 ≤ (1 - 3 * v) ^ 2 ∧ (1 - 3 * v) ^ 2 ≤ 4 := ⟨by nlinarith, by nlinarith⟩
  generalize (1 - 3 * v) ^ 2 = y at h3
  have hin2 : q * y ≤ th2 := by nlinarith
  simp only [robust, if_pos hin, if_pos hin2]
  have e1 : q * y / th2 = u * y := by rw [hqu]; field_simp
  rw [hu, e1]
  have hlt : (1 - u * y) * (1 - u * y) * (1 - u * y) < (1 - u) * (1 - u) * (1 - u) := by
    have a : u < u * y := by nlinarith
    have b : 0 ≤ 1 - u * y := by nlinarith
    have c := pow_lt_pow_left₀ (show 1 - u * y < 1 - u by linarith) b (show (3 : ℕ) ≠ 0 by norm_num)
    nlinarith
  nlinarith

/-- ... and with the Geman-McClure loss for thresholds up to one half (`th2 ≤ 1/4`) -/
theorem C79_recipe_geman (th2 : ℝ) (hth : 0 < th2) (h4 : th2 ≤ 1 / 4) (x d : Vec ℝ 1) (hx : x 0 ≠ 0) (hs : x 0 ^ 2 ≤ th2 / 10)
    (hd : mv (plainHess (oneRes .gemanMcClure th2 hth)) d = -robGrad (oneRes .gemanMcClure th2 hth) x) :
    robCost (oneRes .gemanMcClure th2 hth) x < robCost (oneRes .gemanMcClure th2 hth) (x + d) := by
  rw [oneRes_cost, oneRes_cost, oneRes_step _ _ _ hd]
  generalize hq : x 0 ^ 2 = q at hs ⊢
  have hq0 : 0 < q := by rw [← hq]; positivity
  have hsc : 3 ≤ robustScale .gemanMcClure q th2 := by
    simp only [robustScale]
    rw [le_div_iff₀ (by positivity)]
    nlinarith
  generalize robustScale .gemanMcClure q th2 = v at hsc
  have hy : 4 ≤ (1 - v) ^ 2 := by nlinarith
  generalize (1 - v) ^ 2 = y at hy
  simp only [robust]
  rw [div_lt_div_iff₀ (by positivity) (by positivity)]
  nlinarith [mul_pos hq0 hth]

/-! ### non-vacuity -/

/-- the problem of robust least squares with blocks `Bs` and matrix `Q`, of dynamic size -/
noncomputable def robProb {n N : Nat} (Bs : Fin N → Block n) (Q : Vec ℝ n → Mat ℝ n) : Problem ℝ ℝ Unit (Vec ℝ n) where
  acc :=
    { full := fun w x k g H => (({ cost := robCost Bs x, num := N, inlier := 1 },
        fun i => if h : i.1 < n then g i + robGrad Bs x ⟨i.1, h⟩ else g i,
        fun i j => if h : i.1 < n ∧ j.1 < n then H i j + Q x ⟨i.1, h.1⟩ ⟨j.1, h.2⟩ else H i j), w)
      eval := fun w x => ({ cost := robCost Bs x, num := N, inlier := 1 }, w) }
  dims := none
  dynDims := fun _ => n
  plusEq := fun x d => fun i => if h : i.1 < d.n then x i + d.v ⟨i.1, h⟩ else x i
  clock := fun w => (1, w)
  alloc := fun w _ => (some (fun _ => 7, fun _ _ => 7), w)
  ratio1 := 1

theorem robProb_rob {n N : Nat} (Bs : Fin N → Block n) (Q : Vec ℝ n → Mat ℝ n) (hN : 0 < N) (hn : 0 < n) : RobustLS (robProb Bs Q) Bs Q N where
  pos := hN
  full w x := ⟨{ cost := robCost Bs x, num := N, inlier := 1 }, w, by
    simp only [robProb]
    congr 3
    · funext i; simp
    · funext i j; simp, rfl, rfl⟩
  eval w x := ⟨rfl, rfl⟩
  dyn x := rfl
  size := Or.inr ⟨rfl, hn, fun w k => ⟨_, _, rfl⟩⟩
  plus x v := by funext i; simp [robProb]

/-- a location from measurements `0`, `1` and the outlier `100`: the residuals `x`, `x - 1` and `x - 100` under Huber losses -/
noncomputable def outlier : Fin 3 → Block 1 := fun i =>
  ⟨1, fun _ _ => 1, fun _ => if i = 0 then 0 else if i = 1 then 1 else 100, .huber, 1, one_pos⟩

theorem outlier_sq (x : Vec ℝ 1) (i : Fin 3) : sqL2 ((outlier i).r x) = (x 0 - if i = 0 then 0 else if i = 1 then 1 else 100) ^ 2 := by
  show ∑ j : Fin 1, (mv (fun _ _ => 1 : Fin 1 → Fin 1 → ℝ) x j - _) * (mv (fun _ _ => 1 : Fin 1 → Fin 1 → ℝ) x j - _) = _
  simp [mv, pow_two]
  rfl

theorem huber_le {t : ℝ} (ht : 0 ≤ t) : 2 * √t - 1 ≤ robust .huber t 1 := by
  simp only [robust]
  have := Real.sq_sqrt ht
  split_ifs
  · nlinarith [sq_nonneg (√t - 1)]
  · simp

theorem huber_nonneg {t : ℝ} (ht : 0 ≤ t) : 0 ≤ robust .huber t 1 := by
  have := C42_monotone .huber 1 0 t one_pos le_rfl ht
  simp only [robust] at this ⊢
  rw [if_pos zero_le_one] at this
  exact this

theorem outlier_full : FullRank outlier := by
  intro v hv
  have h := congrFun (hv 0) (⟨0, by decide⟩ : Fin 1)
  have h1 : mv (fun _ _ => 1 : Fin 1 → Fin 1 → ℝ) v 0 = 0 := h
  funext i
  rw [Subsingleton.elim i 0]
  simpa [mv] using h1

theorem huber_exact {t : ℝ} (ht : t ≤ 2 ^ 2000) : ExactScale .huber t 1 := by
  right
  have h := huber_deriv (n2 := t) (th2 := 1) one_pos
  have e : robustScale .huber t 1 = if t ≤ 1 then 1 else √1 / √t := by
    simp only [robustScale]
    split_ifs with h1
    · rfl
    · refine max_eq_right ?_
      have hs : √t ≤ 2 ^ 1000 := by
        rw [show (2 : ℝ) ^ 1000 = √(2 ^ 2000) by
          rw [show (2 : ℝ) ^ 2000 = (2 ^ 1000) ^ 2 by rw [← pow_mul]]
          exact (Real.sqrt_sq (by positivity)).symm]
        exact Real.sqrt_le_sqrt ht
      have hp : 0 < √t := Real.sqrt_pos.2 (by linarith [not_le.1 h1])
      rw [Real.sqrt_one, minPos]
      exact one_div_le_one_div_of_le hp (hs.trans (pow_le_pow_right₀ (by norm_num) (by norm_num)))
  rw [e]
  exact h

theorem outlier_start : robCost outlier (fun _ => 0) ≤ 200 := by
  unfold robCost robustLoss
  simp only [outlier_sq]
  show ∑ i : Fin 3, robust .huber ((0 - if i = 0 then 0 else if i = 1 then 1 else 100) ^ 2) 1 ≤ 200
  rw [Fin.sum_univ_three]
  have a : robust .huber ((0 - 0) ^ 2) 1 = 0 := by simp [robust]
  have b : robust .huber ((0 - 1) ^ 2) 1 = 1 := by simp [robust]
  have c : robust .huber ((0 - 100) ^ 2) 1 = 199 := by
    have e : √((0 - 100 : ℝ) ^ 2) = 100 := by rw [Real.sqrt_sq_eq_abs]; norm_num
    simp only [robust]
    rw [if_neg (by norm_num), e]; norm_num
  have e1 : (if (0 : Fin 3) = 0 then 0 else if (0 : Fin 3) = 1 then 1 else 100 : ℝ) = 0 := rfl
  have e2 : (if (1 : Fin 3) = 0 then 0 else if (1 : Fin 3) = 1 then 1 else 100 : ℝ) = 1 := by simp
  have e3 : (if (2 : Fin 3) = 0 then 0 else if (2 : Fin 3) = 1 then 1 else 100 : ℝ) = 100 := by simp
  rw [e2, e3]
  simp only [if_true]
  rw [a, b, c]; norm_num

theorem outlier_near {x : Vec ℝ 1} (h : robCost outlier x ≤ robCost outlier fun _ => 0) : |x 0| ≤ 101 := by
  have h0 := outlier_start
  have h1 : 2 * |x 0| - 1 ≤ robCost outlier x := by
    have a := huber_le (sq_nonneg (x 0 - 0))
    rw [Real.sqrt_sq_eq_abs, sub_zero] at a
    unfold robCost robustLoss
    simp only [outlier_sq]
    show _ ≤ ∑ i : Fin 3, robust .huber ((x 0 - if i = 0 then 0 else if i = 1 then 1 else 100) ^ 2) 1
    rw [Fin.sum_univ_three]
    have b := huber_nonneg (sq_nonneg (x 0 - 1))
    have c := huber_nonneg (sq_nonneg (x 0 - 100))
    simp only [sub_zero, if_true] at a ⊢
    simp
    linarith
  linarith

theorem outlier_exact : ScalesBelow outlier (robCost outlier fun _ => 0) := by
  intro x hx i
  have h := outlier_near hx
  rw [outlier_sq]
  refine huber_exact ?_
  have h1 := abs_le.mp h
  have : (x 0 - if i = 0 then 0 else if i = 1 then 1 else 100) ^ 2 ≤ 2 ^ 20 := by
    split_ifs <;> nlinarith
  exact this.trans (pow_le_pow_right₀ (by norm_num) (by norm_num))

theorem outlier_upTo (x : Vec ℝ 1) : UpTo 3 (robHess outlier x) := by
  refine ⟨by norm_num, fun v => ?_⟩
  unfold robHess
  rw [sum_quad, nrm_sq, Fin.sum_univ_three]
  have h : ∀ i, (outlier i).scale x * dotR v (mv (gram (outlier i).A) v) ≤ dotR v v := by
    intro i
    have h1 := (C42_scale_range_partial (outlier i).k (outlier i).th2 _ (outlier i).pos (sqL2_nonneg ((outlier i).r x))).2
    have h2 : dotR v (mv (gram (outlier i).A) v) = dotR v v := by
      rw [gram_quad]
      show ∑ j : Fin 1, mv (fun _ _ => 1 : Fin 1 → Fin 1 → ℝ) v j * mv (fun _ _ => 1 : Fin 1 → Fin 1 → ℝ) v j = _
      simp [mv, dotR]
    rw [h2]
    have h3 : (outlier i).scale x ≤ 1 := h1
    nlinarith [dotR_self_nonneg v]
  linarith [h 0, h 1, h 2]

/-- hypotheses of `C79_gn_robust`, `C79_lm_robust`, `C79_full_rank` and `C79_recipe_partial` -/
example (k : Nat) (hk : k < 1000) : RobustLS (robProb outlier (robHess outlier)) outlier (robHess outlier) 3 ∧
    RobustLS (robProb outlier fun _ => plainHess outlier) outlier (fun _ => plainHess outlier) 3 ∧ soptsR.useSquaredNorm = true ∧
    ScalesBelow outlier (robCost outlier fun _ => 0) ∧ ExactLinAlg someLinAlg ∧ FullRank outlier ∧
    (∀ i, (outlier i).k ≠ .truncated ∧ (outlier i).k ≠ .tukey) ∧ (∀ i, (outlier i).k ≠ .tukey ∧ (outlier i).k ≠ .gemanMcClure) ∧
    (∀ x, PD (robHess outlier x)) ∧ (∀ x l, Allowed soptsR l → PD (dampedR l (robHess outlier x))) ∧
    soptsR.useLdlt = true ∧ (∀ x, DiagOk soptsR (robHess outlier x)) ∧ soptsR.gradClip = 0 ∧ (∀ x, UpTo 3 (robHess outlier x)) ∧
    (∃ b, loopBound (optsR k) (-1) = some b ∧ b ≤ 65536) ∧ nCost soptsR 3 (robCost outlier fun _ => 0) < maxVal := by
  have hk1 : ∀ i, (outlier i).k ≠ .truncated ∧ (outlier i).k ≠ .tukey := fun i => ⟨by simp [outlier], by simp [outlier]⟩
  refine ⟨robProb_rob _ _ (by decide) (by decide), robProb_rob _ _ (by decide) (by decide), rfl, outlier_exact, someLinAlg_exact, outlier_full, hk1,
    fun i => ⟨by simp [outlier], by simp [outlier]⟩, fun x => (C79_full_rank outlier_full hk1 x le_rfl).1, fun x l hl => (C79_full_rank outlier_full hk1 x ?_).2, rfl,
    fun _ => Or.inl (le_refl _), rfl, outlier_upTo, ?_, ?_⟩
  · rcases hl with rfl | h
    · norm_num [soptsR]
    · exact le_trans (by norm_num [soptsR]) h
  · by_cases h0 : k = 0
    · subst h0; exact ⟨1, by decide, by decide⟩
    · have h6 : ¬ ((k : Int) + 1 + 1 > intMax) := by unfold intMax; omega
      refine ⟨(k : Int) + 1, ?_, by omega⟩
      simp only [loopBound, optsR]
      simp [h6]
  · have : robCost outlier (fun _ => 0) ≤ 200 := outlier_start
    show nCost soptsR 3 _ < 2 ^ 1024
    simp [nCost, normalizeCost, soptsR]
    exact this.trans_lt (lt_of_lt_of_le (by norm_num : (200 : ℝ) < 2 ^ 8) (pow_le_pow_right₀ (by norm_num) (by norm_num)))

/-- hypotheses of `C79_recipe_tukey` and `C79_recipe_geman` -/
example : ∃ x d : Vec ℝ 1, x 0 ≠ 0 ∧ x 0 ^ 2 ≤ (1 / 4) / 10 ∧ mv (plainHess (oneRes .gemanMcClure (1 / 4) (by norm_num))) d = -robGrad (oneRes .gemanMcClure (1 / 4) (by norm_num)) x := by
  obtain ⟨d, hd⟩ := pd_surj (H := plainHess (oneRes .gemanMcClure (1 / 4) (by norm_num))) (by
    rw [plainHess_eq]
    refine weighted_pd _ (fun v hv => ?_) _ fun _ => one_pos
    have h1 : mv (fun _ _ => 1 : Fin 1 → Fin 1 → ℝ) v 0 = 0 := congrFun (hv 0) (⟨0, by decide⟩ : Fin 1)
    funext i
    rw [Subsingleton.elim i 0]
    simpa [mv] using h1) (-robGrad (oneRes .gemanMcClure (1 / 4) (by norm_num)) fun _ => 1 / 10)
  exact ⟨fun _ => 1 / 10, d, by norm_num, by norm_num, hd⟩

end Verif
