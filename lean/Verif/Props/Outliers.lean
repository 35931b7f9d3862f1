import Verif.Lemmas.Local
import Verif.Props.RobustRun
/-!
# C94: gross outliers do not influence the result
-/

set_option linter.unusedSectionVars false

namespace Verif
open FloatOps Loss

/-! ### runs see the user's function only where they evaluate it -/

section
variable {F R W X : Type} [FloatOps F]

/-- two accumulation functions that do the same at `x` -/
structure SameAt (a a' : Acc F R W X) (x : X) : Prop where
  full : ∀ w n g H, a.full w x n g H = a'.full w x n g H
  eval : ∀ w, a.eval w x = a'.eval w x

variable {so : SolverOpts F} {L : LinAlg F} {P : Problem F R W X} {a : Acc F R W X} {o : Options F W (DVec F)}

theorem buildSystem_local {x : X} (h : SameAt P.acc a x) (w : W) (s : GNState F R) :
    buildSystem so { P with acc := a } w s x = buildSystem so P w s x := by
  unfold buildSystem gnAccumulate
  simp only [h.full]

/-- **C94**, locality, Gauss-Newton: a run of `Optimize` is the same (the points, the result, everything reported) for
all functions that agree at the points the run evaluates. -/
theorem C94_gn_local {fuel : Nat} {mi : Int} {w : W} {s : GNState F R} {x : X} {st : LoopSt F R W (GNState F R) X (DVec F) (DMat F)}
    (h : optimizeAcc (gnEnv so L P) o fuel mi w s x = .ok st) (ha : ∀ r ∈ st.trace, SameAt P.acc a r.x) :
    optimizeAcc (gnEnv so L { P with acc := a }) o fuel mi w s x = .ok st :=
  run_local (E := gnEnv so L P) (b := buildSystem so { P with acc := a }) h fun r hr w s => buildSystem_local (ha r hr) w s

/-- ... Levenberg-Marquardt -/
theorem C94_lm_local {fuel : Nat} {mi : Int} {w : W} {s : LMState F R} {x : X} {st : LoopSt F R W (LMState F R) X (DVec F) (DMat F)}
    (h : optimizeAcc (lmEnv so L P) o fuel mi w s x = .ok st) (ha : ∀ r ∈ st.trace, SameAt P.acc a r.x) :
    optimizeAcc (lmEnv so L { P with acc := a }) o fuel mi w s x = .ok st :=
  run_local (E := lmEnv so L P) (b := lmBuild so { P with acc := a }) h fun r hr w s => by
    show lmBuild so { P with acc := a } w s r.x = lmBuild so P w s r.x
    unfold lmBuild lmEvaluate
    simp only [buildSystem_local (ha r hr), (ha r hr).eval]

/-- ... gradient descent -/
theorem C94_gd_local {fuel : Nat} {mi : Int} {w : W} {s : GNState F R} {x : X} {st : LoopSt F R W (GNState F R) X (DVec F) (DMat F)}
    (h : optimizeAcc (gdEnv so P) o fuel mi w s x = .ok st) (ha : ∀ r ∈ st.trace, SameAt P.acc a r.x) :
    optimizeAcc (gdEnv so { P with acc := a }) o fuel mi w s x = .ok st :=
  run_local (E := gdEnv so P) (b := gdBuild so { P with acc := a }) h fun r hr w s => by
    show gdBuild so { P with acc := a } w s r.x = gdBuild so P w s r.x
    unfold gdBuild gnAccumulate
    simp only [(ha r hr).full]

end

/-! ### measurements beyond the threshold -/

section
variable {n N : Nat} {W : Type}

/-- the measurement is beyond the threshold of a loss that is constant there -/
def Rejected (B : Block n) (x : Vec ℝ n) : Prop := (B.k = .truncated ∨ B.k = .tukey) ∧ B.th2 < sqL2 (B.r x)

theorem Rejected.loss {B : Block n} {x : Vec ℝ n} (h : Rejected B x) : robustLoss B.k (B.r x) B.th2 = B.th2 := by
  obtain ⟨hk, h⟩ := h
  unfold robustLoss
  rcases hk with hk | hk <;> rw [hk] <;> simp only [robust] <;> rw [if_neg (not_le.2 h)]

theorem Rejected.scale {B : Block n} {x : Vec ℝ n} (h : Rejected B x) : B.scale x = 0 := by
  obtain ⟨hk, h⟩ := h
  unfold Block.scale
  rcases hk with hk | hk <;> rw [hk] <;> simp only [robustScale] <;> rw [if_neg (not_le.2 h)]

/-- Two sets of measurements that differ at `x` only in rejected ones (with the same thresholds). -/
def SameInliers (Bs Bs' : Fin N → Block n) (x : Vec ℝ n) : Prop :=
  ∀ i, Bs i = Bs' i ∨ (Rejected (Bs i) x ∧ Rejected (Bs' i) x ∧ (Bs i).th2 = (Bs' i).th2)

theorem SameInliers.cost {Bs Bs' : Fin N → Block n} {x : Vec ℝ n} (h : SameInliers Bs Bs' x) : robCost Bs x = robCost Bs' x := by
  unfold robCost
  refine Finset.sum_congr rfl fun i _ => ?_
  rcases h i with h | ⟨h1, h2, h3⟩
  · rw [h]
  · rw [h1.loss, h2.loss, h3]

theorem SameInliers.grad {Bs Bs' : Fin N → Block n} {x : Vec ℝ n} (h : SameInliers Bs Bs' x) : robGrad Bs x = robGrad Bs' x := by
  unfold robGrad
  refine Finset.sum_congr rfl fun i _ => ?_
  rcases h i with h | ⟨h1, h2, h3⟩
  · rw [h]
  · rw [h1.scale, h2.scale, zero_smul, zero_smul]

theorem SameInliers.hess {Bs Bs' : Fin N → Block n} {x : Vec ℝ n} (h : SameInliers Bs Bs' x) : robHess Bs x = robHess Bs' x := by
  funext p q
  unfold robHess
  refine Finset.sum_congr rfl fun i _ => ?_
  rcases h i with h | ⟨h1, h2, h3⟩
  · rw [h]
  · rw [h1.scale, h2.scale, zero_mul, zero_mul]

/-- the user's function for measurements under robust losses: adds up losses, `s J^T r` and `s J^T J` (robust_norms.h:14-30) -/
noncomputable def robAcc (W : Type) (Bs : Fin N → Block n) : Acc ℝ ℝ W (Vec ℝ n) where
  full := fun w x k g H => (({ cost := robCost Bs x, num := N, inlier := 1 },
    fun i => if h : i.1 < n then g i + robGrad Bs x ⟨i.1, h⟩ else g i,
    fun i j => if h : i.1 < n ∧ j.1 < n then H i j + robHess Bs x ⟨i.1, h.1⟩ ⟨j.1, h.2⟩ else H i j), w)
  eval := fun w x => ({ cost := robCost Bs x, num := N, inlier := 1 }, w)

theorem SameInliers.acc {Bs Bs' : Fin N → Block n} {x : Vec ℝ n} (h : SameInliers Bs Bs' x) :
    SameAt (robAcc W Bs) (robAcc W Bs') x where
  full := by intro w k g H; simp only [robAcc, h.cost, h.grad, h.hess]
  eval := by intro w; simp only [robAcc, h.cost]

variable {so : SolverOpts ℝ} {LA : LinAlg ℝ} {P : Problem ℝ ℝ W (Vec ℝ n)} {o : Options ℝ W (DVec ℝ)} {Bs Bs' : Fin N → Block n}

/-- **C94**, Gauss-Newton: how far the outliers are away does not matter. Let all measurements that `Bs'` changes be
beyond the threshold of a truncated or Tukey loss, before and after the change, at the points of the run on `Bs`. Then
the run on `Bs'` is the same. -/
theorem C94_gn_outliers {fuel : Nat} {mi : Int} {w : W} {s : GNState ℝ ℝ} {x : Vec ℝ n}
    {st : LoopSt ℝ ℝ W (GNState ℝ ℝ) (Vec ℝ n) (DVec ℝ) (DMat ℝ)}
    (h : optimizeAcc (gnEnv so LA { P with acc := robAcc W Bs }) o fuel mi w s x = .ok st)
    (hin : ∀ r ∈ st.trace, SameInliers Bs Bs' r.x) :
    optimizeAcc (gnEnv so LA { P with acc := robAcc W Bs' }) o fuel mi w s x = .ok st :=
  C94_gn_local (P := { P with acc := robAcc W Bs }) h fun r hr => (hin r hr).acc

/-- ... Levenberg-Marquardt -/
theorem C94_lm_outliers {fuel : Nat} {mi : Int} {w : W} {s : LMState ℝ ℝ} {x : Vec ℝ n}
    {st : LoopSt ℝ ℝ W (LMState ℝ ℝ) (Vec ℝ n) (DVec ℝ) (DMat ℝ)}
    (h : optimizeAcc (lmEnv so LA { P with acc := robAcc W Bs }) o fuel mi w s x = .ok st)
    (hin : ∀ r ∈ st.trace, SameInliers Bs Bs' r.x) :
    optimizeAcc (lmEnv so LA { P with acc := robAcc W Bs' }) o fuel mi w s x = .ok st :=
  C94_lm_local (P := { P with acc := robAcc W Bs }) h fun r hr => (hin r hr).acc

/-- ... gradient descent -/
theorem C94_gd_outliers {fuel : Nat} {mi : Int} {w : W} {s : GNState ℝ ℝ} {x : Vec ℝ n}
    {st : LoopSt ℝ ℝ W (GNState ℝ ℝ) (Vec ℝ n) (DVec ℝ) (DMat ℝ)}
    (h : optimizeAcc (gdEnv so { P with acc := robAcc W Bs }) o fuel mi w s x = .ok st)
    (hin : ∀ r ∈ st.trace, SameInliers Bs Bs' r.x) :
    optimizeAcc (gdEnv so { P with acc := robAcc W Bs' }) o fuel mi w s x = .ok st :=
  C94_gd_local (P := { P with acc := robAcc W Bs }) h fun r hr => (hin r hr).acc

end

/-! ### truncated losses recover the solution of the inliers -/

section
variable {R W : Type} {m n N : Nat}
variable {so : SolverOpts ℝ} {LA : LinAlg ℝ} {P : Problem ℝ R W (Vec ℝ n)} {o : Options ℝ W (DVec ℝ)}
variable {Bs : Fin N → Block n}

/-- `I` are the measurements within their thresholds at `x` -/
def InliersAt (Bs : Fin N → Block n) (I : Finset (Fin N)) (x : Vec ℝ n) : Prop :=
  ∀ i, i ∈ I ↔ sqL2 ((Bs i).r x) ≤ (Bs i).th2

theorem InliersAt.scale {I : Finset (Fin N)} {x : Vec ℝ n} (ht : ∀ i, (Bs i).k = .truncated) (h : InliersAt Bs I x) (i : Fin N) :
    (Bs i).scale x = if i ∈ I then 1 else 0 := by
  unfold Block.scale
  rw [ht i]
  simp only [robustScale, h i]

/-- the Hessian of the least squares problem of the measurements `I` alone -/
noncomputable def inHess (Bs : Fin N → Block n) (I : Finset (Fin N)) : Mat ℝ n := fun p q => ∑ i ∈ I, gram (Bs i).A p q

/-- its gradient -/
noncomputable def inGrad (Bs : Fin N → Block n) (I : Finset (Fin N)) (x : Vec ℝ n) : Vec ℝ n := ∑ i ∈ I, tmv (Bs i).A ((Bs i).r x)

theorem InliersAt.hess {I : Finset (Fin N)} {x : Vec ℝ n} (ht : ∀ i, (Bs i).k = .truncated) (h : InliersAt Bs I x) :
    robHess Bs x = inHess Bs I := by
  funext p q
  unfold robHess inHess
  simp only [h.scale ht, ite_mul, one_mul, zero_mul, Finset.sum_ite_mem, Finset.univ_inter]

theorem InliersAt.grad {I : Finset (Fin N)} {x : Vec ℝ n} (ht : ∀ i, (Bs i).k = .truncated) (h : InliersAt Bs I x) :
    robGrad Bs x = inGrad Bs I x := by
  unfold robGrad inGrad
  simp only [h.scale ht, ite_smul, one_smul, zero_smul, Finset.sum_ite_mem, Finset.univ_inter]

theorem inGrad_add (I : Finset (Fin N)) (x d : Vec ℝ n) : inGrad Bs I (x + d) = inGrad Bs I x + mv (inHess Bs I) d := by
  have h : ∀ i, tmv (Bs i).A ((Bs i).r (x + d)) = tmv (Bs i).A ((Bs i).r x) + mv (gram (Bs i).A) d := by
    intro i
    rw [mv_gram]
    unfold Block.r
    rw [mv_add]
    funext j
    simp only [tmv, Pi.add_apply, Pi.sub_apply, ← Finset.sum_add_distrib]
    refine Finset.sum_congr rfl fun k _ => by ring
  unfold inGrad
  rw [Finset.sum_congr rfl fun i _ => h i, Finset.sum_add_distrib]
  congr 1
  funext j
  simp only [Finset.sum_apply, mv, inHess, Finset.sum_mul]
  rw [Finset.sum_comm]

/-- **C94**, truncated losses: linear measurements of which those in `I` are within their thresholds at the start `x0` and
at the least squares solution `x1` of the measurements `I` alone, and the others are beyond theirs at both points, however
far. Gauss-Newton, with any options and stop criteria, returns exactly `x1`. -/
theorem C94_truncated {x0 x1 : Vec ℝ n} {I : Finset (Fin N)} (h : RobustLS P Bs (robHess Bs) m) (ht : ∀ i, (Bs i).k = .truncated)
    (h0 : InliersAt Bs I x0) (h1 : InliersAt Bs I x1) (hx1 : inGrad Bs I x1 = 0) (hpd : PD (inHess Bs I))
    (hL : ExactLinAlg LA) (hone : Solves so (P.dims == some 1) (inHess Bs I)) (hmin : DiagOk so (inHess Bs I)) (hclip : so.gradClip = 0)
    (s : GNState ℝ R) (hs : P.dims = none ∨ s.n = n) (fuel : Nat) (mi k : Int) (hk : loopBound o mi = some k)
    (w : W) (hc : nCost so m (robCost Bs x0) < maxVal) :
    ∃ st, optimizeAcc (gnEnv so LA P) o (fuel + 1) mi w s x0 = .ok st ∧ st.x = x1 ∧ ∀ r ∈ st.trace, (r.x = x0 ∨ r.x = x1) ∧ r.xNext = x1 := by
  have hnn : ∀ x, 0 ≤ robCost Bs x := by
    intro x
    refine Finset.sum_nonneg fun i _ => ?_
    unfold robustLoss
    rw [ht i]
    simp only [robust]
    split_ifs
    · exact sqL2_nonneg _
    · exact (Bs i).pos.le
  have hΩ : ∀ x, (x = x0 ∨ x = x1) → robHess Bs x = inHess Bs I ∧ robGrad Bs x = inGrad Bs I x := by
    rintro x (rfl | rfl)
    · exact ⟨h0.hess ht, h0.grad ht⟩
    · exact ⟨h1.hess ht, h1.grad ht⟩
  have hto : ∀ x d, (x = x0 ∨ x = x1) → mv (robHess Bs x) d = -robGrad Bs x → x + d = x1 := by
    intro x d hx hd
    obtain ⟨e1, e2⟩ := hΩ x hx
    rw [e1, e2] at hd
    have h2 := inGrad_add (Bs := Bs) I x (x1 - x)
    rw [add_sub_cancel, hx1] at h2
    have h3 : mv (inHess Bs I) d = mv (inHess Bs I) (x1 - x) := by
      rw [hd]
      exact (eq_neg_of_add_eq_zero_right h2.symm).symm
    rw [pd_inj hpd h3, add_sub_cancel]
  obtain ⟨st, e, htr⟩ := gn_quad_run (o := o) (Ω := fun x => x = x0 ∨ x = x1) (h.quad fun x _ => robHess_psd Bs x)
    (Or.inr fun x _ => hnn x) hL (fun x hx => by rw [(hΩ x hx).1]; exact hpd) (fun x hx => by rw [(hΩ x hx).1]; exact hone)
    (fun x hx => by rw [(hΩ x hx).1]; exact hmin) hclip
    (fun x d hx hg hd => by
      refine ⟨Or.inr (hto x d hx hd), ?_⟩
      refine (rob_bounded Bs (x := x) fun i => Or.inl (ht i)).decreases (robHess_psd Bs x) le_rfl ?_ hg ?_
      · rw [damped_zero, (hΩ x hx).1]; exact hpd
      · rw [damped_zero]; exact hd)
    s hs fuel mi k hk w x0 (Or.inl rfl) hc
  have hn : ∀ r ∈ st.trace, (r.x = x0 ∨ r.x = x1) ∧ r.xNext = x1 := by
    intro r hr
    obtain ⟨a, b, -⟩ := htr r hr
    have := hto r.x _ a b
    rw [add_sub_cancel] at this
    exact ⟨a, this⟩
  refine ⟨st, e, ?_, hn⟩
  obtain ⟨r, hr, hx⟩ := x_last e
  rw [hx, (hn r (List.mem_of_getLast? hr)).2]

/-- **C94**, exact recovery: the measurements `I` are taken of the true parameters `xt` without noise, the others are beyond
their thresholds there. From every start that classifies the measurements rightly Gauss-Newton returns the true parameters. -/
theorem C94_recovery {x0 xt : Vec ℝ n} {I : Finset (Fin N)} (h : RobustLS P Bs (robHess Bs) m) (ht : ∀ i, (Bs i).k = .truncated)
    (h0 : InliersAt Bs I x0) (hin : ∀ i ∈ I, (Bs i).b = mv (Bs i).A xt) (hout : ∀ i ∉ I, (Bs i).th2 < sqL2 ((Bs i).r xt))
    (hpd : PD (inHess Bs I)) (hL : ExactLinAlg LA) (hone : Solves so (P.dims == some 1) (inHess Bs I)) (hmin : DiagOk so (inHess Bs I))
    (hclip : so.gradClip = 0) (s : GNState ℝ R) (hs : P.dims = none ∨ s.n = n) (fuel : Nat) (mi k : Int) (hk : loopBound o mi = some k)
    (w : W) (hc : nCost so m (robCost Bs x0) < maxVal) :
    ∃ st, optimizeAcc (gnEnv so LA P) o (fuel + 1) mi w s x0 = .ok st ∧ st.x = xt := by
  have hr : ∀ i ∈ I, (Bs i).r xt = 0 := by
    intro i hi
    unfold Block.r
    rw [hin i hi, sub_self]
  have h1 : InliersAt Bs I xt := by
    intro i
    constructor
    · intro hi
      rw [hr i hi]
      simpa [sqL2] using (Bs i).pos.le
    · intro hi
      by_contra hn
      exact absurd hi (not_le.2 (hout i hn))
  have hg : inGrad Bs I xt = 0 := by
    refine Finset.sum_eq_zero fun i hi => ?_
    rw [hr i hi]
    funext j
    simp [tmv]
  obtain ⟨st, e, hx, -⟩ := C94_truncated (o := o) h ht h0 h1 hg hpd hL hone hmin hclip s hs fuel mi k hk w hc
  exact ⟨st, e, hx⟩

end

/-! ### non-vacuity -/

/-- a location from the measurements `0`, `1` and an outlier `b`, with truncated losses of threshold 1 -/
noncomputable def spread (b : ℝ) : Fin 3 → Block 1 := fun i =>
  ⟨1, fun _ _ => 1, fun _ => if i = 0 then 0 else if i = 1 then 1 else b, .truncated, 1, one_pos⟩

theorem spread_sq (b : ℝ) (x : Vec ℝ 1) (i : Fin 3) : sqL2 ((spread b i).r x) = (x 0 - if i = 0 then 0 else if i = 1 then 1 else b) ^ 2 := by
  show ∑ j : Fin 1, (mv (fun _ _ => 1 : Fin 1 → Fin 1 → ℝ) x j - _) * (mv (fun _ _ => 1 : Fin 1 → Fin 1 → ℝ) x j - _) = _
  simp [mv, pow_two]
  rfl

theorem spread_in {b : ℝ} (hb : 3 < b) {x : Vec ℝ 1} (h0 : 0 ≤ x 0) (h1 : x 0 ≤ 1) : InliersAt (spread b) {0, 1} x := by
  intro i
  rw [spread_sq]
  show i ∈ ({0, 1} : Finset (Fin 3)) ↔ _ ≤ (1 : ℝ)
  fin_cases i
  · simp; rw [abs_of_nonneg h0]; exact h1
  · simp; rw [abs_le]; constructor <;> linarith
  · simp; rw [abs_of_neg (by linarith)]; linarith

theorem spread_grad (b : ℝ) (x : Vec ℝ 1) : inGrad (spread b) {0, 1} x = fun _ => 2 * x 0 - 1 := by
  have h : ∀ i, tmv (spread b i).A ((spread b i).r x) = fun _ => x 0 - if i = 0 then 0 else if i = 1 then 1 else b := by
    intro i
    funext j
    show ∑ k : Fin 1, (1 : ℝ) * (mv (fun _ _ => 1 : Fin 1 → Fin 1 → ℝ) x k - if i = 0 then 0 else if i = 1 then 1 else b) = _
    simp [mv]
  unfold inGrad
  simp only [h]
  rw [Finset.sum_pair (by decide)]
  funext j
  simp
  ring

theorem spread_hess (b : ℝ) : inHess (spread b) {0, 1} = fun _ _ => 2 := by
  have h : ∀ i, gram (spread b i).A = fun _ _ => 1 := by
    intro i
    funext p q
    show ∑ k : Fin 1, (1 : ℝ) * 1 = 1
    simp
  unfold inHess
  simp only [h]
  funext p q
  rw [Finset.sum_pair (by decide)]
  norm_num

theorem spread_pd (b : ℝ) : PD (inHess (spread b) {0, 1}) := by
  rw [spread_hess]; exact pd_one two_pos

theorem spread_start {b : ℝ} (x : Vec ℝ 1) : nCost soptsR 3 (robCost (spread b) x) < maxVal := by
  have h : robCost (spread b) x ≤ 3 := by
    refine (Finset.sum_le_sum (g := fun _ => 1) fun i _ => ?_).trans (by simp)
    show robust .truncated _ 1 ≤ 1
    simp only [robust]
    split_ifs with h
    · exact h
    · exact le_rfl
  show nCost soptsR 3 _ < 2 ^ 1024
  simp [nCost, normalizeCost, soptsR]
  exact h.trans_lt (lt_of_lt_of_le (by norm_num : (3 : ℝ) < 2 ^ 8) (pow_le_pow_right₀ (by norm_num) (by norm_num)))

/-- The measurements `0`, `1` and any outlier `b > 3`, from any start in `[0, 1]`: the run returns the mean `1/2` of the two
inliers, and by `C94_gn_outliers` it is the same run for all `b`. -/
example (b b' : ℝ) (hb : 3 < b) (hb' : 3 < b') (x0 : Vec ℝ 1) (h0 : 0 ≤ x0 0) (h1 : x0 0 ≤ 1) (s : GNState ℝ ℝ) (fuel : Nat) :
    ∃ st, optimizeAcc (gnEnv soptsR someLinAlg (robProb (spread b) (robHess (spread b)))) (optsR 5) (fuel + 1) (-1) () s x0 = .ok st ∧
      (st.x = fun _ => 1 / 2) ∧
      optimizeAcc (gnEnv soptsR someLinAlg (robProb (spread b') (robHess (spread b')))) (optsR 5) (fuel + 1) (-1) () s x0 = .ok st := by
  have hk : loopBound (optsR 5) (-1) = some 6 := by decide
  obtain ⟨st, e, hx, htr⟩ := C94_truncated (o := optsR 5) (x0 := x0) (x1 := fun _ => 1 / 2) (robProb_rob (spread b) (robHess (spread b)) (by decide) (by decide))
    (fun _ => rfl) (spread_in hb h0 h1) (spread_in hb (by norm_num) (by norm_num))
    (by rw [spread_grad]; funext; norm_num) (spread_pd b) someLinAlg_exact (Or.inl rfl) (Or.inl (le_refl _)) rfl s (Or.inl rfl) fuel (-1) 6 hk ()
    (spread_start x0)
  refine ⟨st, e, hx, ?_⟩
  refine C94_gn_outliers (P := robProb (spread b) (robHess (spread b))) (Bs := spread b) (Bs' := spread b') e fun r hr i => ?_
  have hr01 : 0 ≤ r.x 0 ∧ r.x 0 ≤ 1 := by
    rcases (htr r hr).1 with h | h <;> rw [h]
    · exact ⟨h0, h1⟩
    · norm_num
  have far : ∀ c, 3 < c → Rejected (spread c 2) r.x := by
    intro c hc
    refine ⟨Or.inl rfl, ?_⟩
    rw [spread_sq]
    show (1 : ℝ) < _
    simp
    rw [abs_of_neg (by linarith [hr01.2])]
    linarith [hr01.2]
  fin_cases i
  · exact Or.inl rfl
  · exact Or.inl rfl
  · exact Or.inr ⟨far b hb, far b' hb', rfl⟩

/-- hypotheses of `C94_recovery`: the measurements `0` of the true location `0` and two outliers `5` and `-7` -/
example : ∃ (Bs : Fin 3 → Block 1) (x0 xt : Vec ℝ 1), (∀ i, (Bs i).k = .truncated) ∧ InliersAt Bs {0} x0 ∧
    (∀ i ∈ ({0} : Finset (Fin 3)), (Bs i).b = mv (Bs i).A xt) ∧ (∀ i ∉ ({0} : Finset (Fin 3)), (Bs i).th2 < sqL2 ((Bs i).r xt)) ∧
    PD (inHess Bs {0}) ∧ x0 ≠ xt := by
  have hsq : ∀ (c : ℝ) (x : Vec ℝ 1), sqL2 ((⟨1, fun _ _ => 1, fun _ => c, .truncated, 1, one_pos⟩ : Block 1).r x) = (x 0 - c) ^ 2 := by
    intro c x
    show ∑ j : Fin 1, (mv (fun _ _ => 1 : Fin 1 → Fin 1 → ℝ) x j - _) * (mv (fun _ _ => 1 : Fin 1 → Fin 1 → ℝ) x j - _) = _
    simp [mv, pow_two]
  refine ⟨fun i => ⟨1, fun _ _ => 1, fun _ => if i = 0 then 0 else if i = 1 then 5 else -7, .truncated, 1, one_pos⟩, fun _ => 1 / 2, fun _ => 0,
    fun _ => rfl, fun i => ?_, fun i hi => ?_, fun i hi => ?_, ?_, fun h => ?_⟩
  · rw [hsq]; fin_cases i <;> norm_num
  · rw [Finset.mem_singleton] at hi
    subst hi
    funext j
    simp [mv]
  · rw [hsq]; fin_cases i
    · simp at hi
    · norm_num
    · norm_num
  · have : inHess (fun i : Fin 3 => (⟨1, fun _ _ => 1, fun _ => if i = 0 then 0 else if i = 1 then 5 else -7, .truncated, 1, one_pos⟩ : Block 1)) {0} = fun _ _ => 1 := by
      funext p q
      unfold inHess
      rw [Finset.sum_singleton]
      show ∑ k : Fin 1, (1 : ℝ) * 1 = 1
      simp
    rw [this]
    exact pd_one one_pos
  · have := congrFun h 0
    norm_num at this

end Verif
