import Verif.Props.FullRuns
import Verif.Props.Converged
import Verif.Props.Stuck
/-!
# C96: fitting a circle (docs/API.md:86-112, tests/circle.cpp)

The second example of the documentation: points `p`, parameters `x = (centre, radius)`, residuals `|p_i - centre|² - radius²`, automatic differentiation. Exact arithmetic.
-/

set_option linter.unusedSectionVars false

namespace Verif
open FloatOps Loss

/-! ### The problem -/

section
variable {m : Nat}

/-- the residual of the point `p`, docs/API.md:100-102, tests/circle.cpp:46-53 -/
def circleExpr (p : Fin m → Fin 2 → ℝ) (i : Fin m) : Expr 3 :=
  .op2 .sub (.op2 .add (.op2 .mul (.op2 .sub (.const (p i 0)) (.var 0)) (.op2 .sub (.const (p i 0)) (.var 0)))
    (.op2 .mul (.op2 .sub (.const (p i 1)) (.var 1)) (.op2 .sub (.const (p i 1)) (.var 1)))) (.op2 .mul (.var 2) (.var 2))

/-- squared distance of the point `i` to `(a, b)` -/
def dist2 (p : Fin m → Fin 2 → ℝ) (i : Fin m) (a b : ℝ) : ℝ := (p i 0 - a) ^ 2 + (p i 1 - b) ^ 2

/-- the cost of the circle with centre `(a, b)` and squared radius `s` -/
def circleCost (p : Fin m → Fin 2 → ℝ) (a b s : ℝ) : ℝ := ∑ i, (dist2 p i a b - s) ^ 2

/-- no line goes through all points -/
def NotCollinear (p : Fin m → Fin 2 → ℝ) : Prop := ∀ a b c : ℝ, (∀ i, a * p i 0 + b * p i 1 + c = 0) → a = 0 ∧ b = 0 ∧ c = 0

/-- the circle of least cost -/
def BestCircle (p : Fin m → Fin 2 → ℝ) (a b s : ℝ) : Prop := ∀ a' b' s', circleCost p a b s ≤ circleCost p a' b' s'

def circleJ (p : Fin m → Fin 2 → ℝ) (x : Vec ℝ 3) (i : Fin m) : Fin 3 → ℝ := ![-2 * (p i 0 - x 0), -2 * (p i 1 - x 1), -2 * x 2]

def circleR (p : Fin m → Fin 2 → ℝ) (x : Vec ℝ 3) (i : Fin m) : ℝ := dist2 p i (x 0) (x 1) - x 2 ^ 2


variable {p : Fin m → Fin 2 → ℝ}

theorem circleExpr_dom (x : RVec 3) (i : Fin m) : (circleExpr p i).InDomain x ∧ (circleExpr p i).value x = circleR p x i := by
  refine ⟨?_, ?_⟩
  · simp [circleExpr, Expr.InDomain, dom2]
  · simp [circleExpr, Expr.value, fn2, circleR, dist2]; ring

theorem circle_jac (x : RVec 3) : HasJac (fun y i => (circleExpr p i).value y) (circleJ p x) x := by
  intro i
  have h0 : HasGrad (fun y : RVec 3 => y 0) (Pi.single 0 1) x := hasGrad_coord 0 x
  have h1 : HasGrad (fun y : RVec 3 => y 1) (Pi.single 1 1) x := hasGrad_coord 1 x
  have h2 : HasGrad (fun y : RVec 3 => y 2) (Pi.single 2 1) x := hasGrad_coord 2 x
  have a0 := (hasGrad_const (p i 0) x).sub h0
  have a1 := (hasGrad_const (p i 1) x).sub h1
  refine (((a0.mul a0).add (a1.mul a1)).sub (h2.mul h2)).congr_eq (fun y => ?_) |>.congr_J ?_
  · show (circleExpr p i).value y = _
    rw [(circleExpr_dom y i).2]
    simp only [circleR, dist2]; ring
  · funext k
    fin_cases k <;> simp [circleJ] <;> ring

/-! ### The best circle -/

/-- the normal equations -/
def Normal (p : Fin m → Fin 2 → ℝ) (a b s : ℝ) : Prop :=
  ∑ i, (dist2 p i a b - s) = 0 ∧ ∑ i, p i 0 * (dist2 p i a b - s) = 0 ∧ ∑ i, p i 1 * (dist2 p i a b - s) = 0

theorem cost_split {a b s : ℝ} (h : Normal p a b s) (a' b' s' : ℝ) :
    circleCost p a' b' s' = circleCost p a b s +
      ∑ i, (-2 * (a' - a) * p i 0 + -2 * (b' - b) * p i 1 + (a' ^ 2 + b' ^ 2 - a ^ 2 - b ^ 2 - s' + s)) ^ 2 := by
  obtain ⟨h0, h1, h2⟩ := h
  have e : ∀ i, (dist2 p i a' b' - s') ^ 2 = (dist2 p i a b - s) ^ 2 +
      (-2 * (a' - a) * p i 0 + -2 * (b' - b) * p i 1 + (a' ^ 2 + b' ^ 2 - a ^ 2 - b ^ 2 - s' + s)) ^ 2 +
      2 * (-2 * (a' - a) * (p i 0 * (dist2 p i a b - s)) + -2 * (b' - b) * (p i 1 * (dist2 p i a b - s)) +
        (a' ^ 2 + b' ^ 2 - a ^ 2 - b ^ 2 - s' + s) * (dist2 p i a b - s)) := by
    intro i; unfold dist2; ring
  unfold circleCost
  rw [Finset.sum_congr rfl fun i _ => e i, Finset.sum_add_distrib, Finset.sum_add_distrib, ← Finset.mul_sum, Finset.sum_add_distrib, Finset.sum_add_distrib,
    ← Finset.mul_sum, ← Finset.mul_sum, ← Finset.mul_sum, h0, h1, h2]
  ring

theorem Normal.best {a b s : ℝ} (h : Normal p a b s) : BestCircle p a b s := by
  intro a' b' s'
  rw [cost_split h a' b' s']
  exact le_add_of_nonneg_right (Finset.sum_nonneg fun _ _ => sq_nonneg _)

theorem Normal.unique (hp : NotCollinear p) {a b s a' b' s' : ℝ} (h : Normal p a b s) (h' : circleCost p a' b' s' ≤ circleCost p a b s) :
    a' = a ∧ b' = b ∧ s' = s := by
  rw [cost_split h a' b' s'] at h'
  have h0 : ∑ i, (-2 * (a' - a) * p i 0 + -2 * (b' - b) * p i 1 + (a' ^ 2 + b' ^ 2 - a ^ 2 - b ^ 2 - s' + s)) ^ 2 = 0 :=
    le_antisymm (by linarith) (Finset.sum_nonneg fun _ _ => sq_nonneg _)
  rw [Finset.sum_eq_zero_iff_of_nonneg fun _ _ => sq_nonneg _] at h0
  obtain ⟨e1, e2, e3⟩ := hp _ _ _ fun i => pow_eq_zero_iff (two_ne_zero) |>.mp (h0 i (Finset.mem_univ i))
  have ea : a' = a := by linarith
  have eb : b' = b := by linarith
  subst ea eb
  exact ⟨rfl, rfl, by linarith⟩

theorem normal_exists (hp : NotCollinear p) : ∃ a b s, Normal p a b s := by
  let A : Fin m → Fin 3 → ℝ := fun i => ![-2 * p i 0, -2 * p i 1, -1]
  have hmv : ∀ v i, mv A v i = -2 * p i 0 * v 0 + -2 * p i 1 * v 1 - v 2 := by
    intro v i; simp [mv, A, Fin.sum_univ_three]; ring
  have hpd : PD (gram A) := gram_pd fun v hv => by
    obtain ⟨e1, e2, e3⟩ := hp (-2 * v 0) (-2 * v 1) (-v 2) fun i => by have := congrFun hv i; rw [hmv] at this; simp at this; linarith
    funext k; fin_cases k <;> simp <;> linarith
  obtain ⟨y, hy⟩ := pd_surj hpd (-tmv A fun i => p i 0 ^ 2 + p i 1 ^ 2)
  rw [mv_gram] at hy
  have key : ∀ k, ∑ i, A i k * (dist2 p i (y 0) (y 1) - (y 2 + y 0 ^ 2 + y 1 ^ 2)) = 0 := by
    intro k
    have h1 := congrFun hy k
    simp only [tmv, Pi.neg_apply] at h1
    rw [← sub_eq_zero, sub_neg_eq_add, ← Finset.sum_add_distrib] at h1
    rw [← h1]
    refine Finset.sum_congr rfl fun i _ => ?_
    rw [hmv]; unfold dist2; ring
  refine ⟨y 0, y 1, y 2 + y 0 ^ 2 + y 1 ^ 2, ?_, ?_, ?_⟩
  · have := key 2
    simp only [A] at this
    simp at this ⊢
    linarith
  · have := key 0
    simp only [A, Matrix.cons_val_zero, mul_assoc] at this
    rw [← Finset.mul_sum] at this
    linarith
  · have := key 1
    simp only [A, Matrix.cons_val_one, Matrix.cons_val_zero, mul_assoc] at this
    rw [← Finset.mul_sum] at this
    linarith

theorem BestCircle.normal (hp : NotCollinear p) {a b s : ℝ} (h : BestCircle p a b s) : Normal p a b s := by
  obtain ⟨a', b', s', h'⟩ := normal_exists hp
  obtain ⟨rfl, rfl, rfl⟩ := h'.unique hp (h a' b' s')
  exact h'

theorem NotCollinear.two (hp : NotCollinear p) (a b : ℝ) : ∃ i, dist2 p i a b ≠ 0 := by
  by_contra h
  push Not at h
  have h0 : ∀ i, (1 : ℝ) * p i 0 + 0 * p i 1 + -a = 0 := by
    intro i
    have := h i
    unfold dist2 at this
    nlinarith [sq_nonneg (p i 0 - a), sq_nonneg (p i 1 - b)]
  have := (hp _ _ _ h0).1
  norm_num at this

theorem BestCircle.pos (hp : NotCollinear p) {a b s : ℝ} (h : BestCircle p a b s) : 0 < s := by
  obtain ⟨i, hi⟩ := hp.two a b
  have h0 := (h.normal hp).1
  rw [Finset.sum_sub_distrib] at h0
  have hd : ∀ i, 0 ≤ dist2 p i a b := fun i => by unfold dist2; positivity
  have h1 : 0 < ∑ i, dist2 p i a b := Finset.sum_pos' (fun i _ => hd i) ⟨i, Finset.mem_univ i, lt_of_le_of_ne (hd i) (Ne.symm hi)⟩
  have h2 : (m : ℝ) * s = ∑ i, dist2 p i a b := by
    simp at h0; linarith
  rw [← h2] at h1
  exact pos_of_mul_pos_right h1 (Nat.cast_nonneg m)

/-- the cost around the best centre -/
theorem BestCircle.cost {a b s : ℝ} (hp : NotCollinear p) (h : BestCircle p a b s) (s' : ℝ) :
    circleCost p a b s' = circleCost p a b s + m * (s' - s) ^ 2 := by
  rw [cost_split (h.normal hp) a b s']
  simp
  left; ring

/-! ### The Gauss-Newton step -/

theorem circleJ_inj (hp : NotCollinear p) {x : Vec ℝ 3} (hx : x 2 ≠ 0) {v : Vec ℝ 3} (hv : mv (circleJ p x) v = 0) : v = 0 := by
  obtain ⟨e1, e2, e3⟩ := hp (-2 * v 0) (-2 * v 1) (2 * x 0 * v 0 + 2 * x 1 * v 1 - 2 * x 2 * v 2) fun i => by
    have := congrFun hv i
    simp [mv, circleJ, Fin.sum_univ_three] at this
    linarith
  have h0 : v 0 = 0 := by linarith
  have h1 : v 1 = 0 := by linarith
  rw [h0, h1] at e3
  have h2 : v 2 = 0 := by
    have : x 2 * v 2 = 0 := by linarith
    exact (mul_eq_zero.mp this).resolve_left hx
  funext k; fin_cases k <;> simp [h0, h1, h2]

theorem circle_normal {x d : Vec ℝ 3} (hx : x 2 ≠ 0) (hd : mv (gram (circleJ p x)) d = -tmv (circleJ p x) (circleR p x)) :
    Normal p (x 0 + d 0) (x 1 + d 1) (x 2 ^ 2 + 2 * x 2 * d 2 + d 0 ^ 2 + d 1 ^ 2) := by
  rw [mv_gram] at hd
  have hq : ∀ i, mv (circleJ p x) d i + circleR p x i = dist2 p i (x 0 + d 0) (x 1 + d 1) - (x 2 ^ 2 + 2 * x 2 * d 2 + d 0 ^ 2 + d 1 ^ 2) := by
    intro i
    simp [mv, circleJ, Fin.sum_univ_three, circleR, dist2]; ring
  generalize x 2 ^ 2 + 2 * x 2 * d 2 + d 0 ^ 2 + d 1 ^ 2 = s at hq ⊢
  generalize x 0 + d 0 = a at hq ⊢
  generalize x 1 + d 1 = b at hq ⊢
  have key : ∀ k, ∑ i, circleJ p x i k * (dist2 p i a b - s) = 0 := by
    intro k
    have h1 := congrFun hd k
    simp only [tmv, Pi.neg_apply] at h1
    rw [← sub_eq_zero, sub_neg_eq_add, ← Finset.sum_add_distrib] at h1
    rw [← h1]
    refine Finset.sum_congr rfl fun i _ => ?_
    rw [← hq]; ring
  have k2 : ∑ i, (dist2 p i a b - s) = 0 := by
    have := key 2
    simp only [circleJ, Matrix.cons_val] at this
    rw [← Finset.mul_sum] at this
    exact (mul_eq_zero.mp this).resolve_left (by simpa using hx)
  have k0 := key 0
  have k1 := key 1
  simp only [circleJ, Matrix.cons_val_zero, Matrix.cons_val_one, mul_assoc, sub_mul] at k0 k1
  rw [← Finset.mul_sum, Finset.sum_sub_distrib, ← Finset.mul_sum, k2] at k0 k1
  exact ⟨k2, by linarith, by linarith⟩

/-- where the Gauss-Newton step leads to: the best centre, and a radius that is Heron's formula for the root of `s - |centre - best centre|²` -/
noncomputable def circleNext (a b s : ℝ) (x : Vec ℝ 3) : Vec ℝ 3 := ![a, b, (x 2 ^ 2 + s - (a - x 0) ^ 2 - (b - x 1) ^ 2) / (2 * x 2)]

theorem circle_lands (hp : NotCollinear p) {a b s : ℝ} (hb : BestCircle p a b s) {x d : Vec ℝ 3} (hx : x 2 ≠ 0)
    (hd : mv (gram (circleJ p x)) d = -tmv (circleJ p x) (circleR p x)) : x + d = circleNext a b s x := by
  obtain ⟨e1, e2, e3⟩ := (hb.normal hp).unique hp ((circle_normal hx hd).best a b s)
  have h2 : x 2 + d 2 = (x 2 ^ 2 + s - (a - x 0) ^ 2 - (b - x 1) ^ 2) / (2 * x 2) := by
    rw [eq_div_iff (by simpa using hx)]
    have hd0 : d 0 = a - x 0 := by linarith
    have hd1 : d 1 = b - x 1 := by linarith
    rw [← e3, ← hd0, ← hd1]; ring
  funext k
  fin_cases k
  · simpa [circleNext] using e1
  · simpa [circleNext] using e2
  · simpa [circleNext] using h2

theorem circleNext_stat (hp : NotCollinear p) {a b s : ℝ} (hb : BestCircle p a b s) {x : Vec ℝ 3} (hx : x 2 ≠ 0)
    (hg : tmv (circleJ p x) (circleR p x) = 0) : x = circleNext a b s x := by
  have := circle_lands hp hb (d := 0) hx (by rw [hg, mv_zero, neg_zero])
  simpa using this

theorem circleNext_fixed {a b s : ℝ} {x : Vec ℝ 3} (hx : x 2 ≠ 0) (h : x = circleNext a b s x) : x 0 = a ∧ x 1 = b ∧ x 2 ^ 2 = s := by
  have h0 : x 0 = a := by have := congrFun h 0; simpa [circleNext] using this
  have h1 : x 1 = b := by have := congrFun h 1; simpa [circleNext] using this
  have h2 : x 2 = (x 2 ^ 2 + s - (a - x 0) ^ 2 - (b - x 1) ^ 2) / (2 * x 2) := by have := congrFun h 2; simpa [circleNext] using this
  rw [eq_div_iff (by simpa using hx), h0, h1] at h2
  exact ⟨h0, h1, by linarith⟩

/-- **C96**, the shape of the cost: for points that are not on one line, every local minimum of the cost that the example gives to the optimizer is the best circle, with the
radius or its opposite: the example has no other local minimum. -/
theorem C96_minima (hp : NotCollinear p) (x : RVec 3) (h : IsLocalMin (fun y : RVec 3 => ∑ i, (circleExpr p i).value y ^ 2) x) :
    BestCircle p (x 0) (x 1) (x 2 ^ 2) := by
  have hcost : ∀ y : RVec 3, ∑ i, (circleExpr p i).value y ^ 2 = circleCost p (y 0) (y 1) (y 2 ^ 2) := fun y =>
    Finset.sum_congr rfl fun i _ => by rw [(circleExpr_dom y i).2]; rfl
  by_cases hx : x 2 = 0
  · exfalso
    obtain ⟨i, hi⟩ := hp.two (x 0) (x 1)
    have hd : ∀ i, 0 ≤ dist2 p i (x 0) (x 1) := fun i => by unfold dist2; positivity
    have hS : 0 < ∑ i, dist2 p i (x 0) (x 1) := Finset.sum_pos' (fun i _ => hd i) ⟨i, Finset.mem_univ i, lt_of_le_of_ne (hd i) (Ne.symm hi)⟩
    have hm : (0 : ℝ) < m := by have := i.pos; exact_mod_cast this
    have hexp : ∀ t : ℝ, circleCost p (x 0) (x 1) (t ^ 2) = circleCost p (x 0) (x 1) 0 - t ^ 2 * (2 * ∑ i, dist2 p i (x 0) (x 1) - m * t ^ 2) := by
      intro t
      unfold circleCost
      rw [Finset.sum_congr rfl fun i _ => show (dist2 p i (x 0) (x 1) - t ^ 2) ^ 2 = (dist2 p i (x 0) (x 1) - 0) ^ 2 + (t ^ 2) ^ 2 - 2 * t ^ 2 * dist2 p i (x 0) (x 1) by ring,
        Finset.sum_sub_distrib, Finset.sum_add_distrib, ← Finset.mul_sum]
      simp
      ring
    have hc : Filter.Tendsto (fun t : ℝ => Function.update x 2 t) (nhds 0) (nhds x) := by
      have h1 : Continuous (fun t : ℝ => Function.update x 2 t) := continuous_const.update 2 continuous_id
      have h2 := h1.tendsto 0
      rwa [show Function.update x 2 (0 : ℝ) = x by rw [← hx]; exact Function.update_eq_self 2 x] at h2
    have h1 : ∀ᶠ t : ℝ in nhds 0, circleCost p (x 0) (x 1) 0 ≤ circleCost p (x 0) (x 1) (t ^ 2) := by
      refine (hc.eventually h).mono fun t ht => ?_
      have ht : ∑ i, (circleExpr p i).value x ^ 2 ≤ ∑ i, (circleExpr p i).value (Function.update x 2 t) ^ 2 := ht
      rw [hcost, hcost] at ht
      simpa [hx] using ht
    have h2 : ∀ᶠ t : ℝ in nhds 0, m * t ^ 2 < ∑ i, dist2 p i (x 0) (x 1) := by
      have : Continuous fun t : ℝ => m * t ^ 2 := by fun_prop
      exact this.tendsto 0 |>.eventually_lt_const (by simpa using hS)
    obtain ⟨ε, hε, hball⟩ := Metric.eventually_nhds_iff.mp (h1.and h2)
    obtain ⟨h3, h4⟩ := @hball (ε / 2) (by simp [abs_of_pos hε]; linarith)
    rw [hexp] at h3
    have : 0 < (ε / 2) ^ 2 * (2 * ∑ i, dist2 p i (x 0) (x 1) - m * (ε / 2) ^ 2) := mul_pos (by positivity) (by linarith)
    linarith
  · have hg := sumSq_grad (circle_jac (p := p) x)
    have h0 : rowCLM (fun k => 2 * ∑ i, circleJ p x i k * (circleExpr p i).value x) = 0 := h.hasFDerivAt_eq_zero hg
    obtain ⟨a, b, s, hn⟩ := normal_exists hp
    have hz : tmv (circleJ p x) (circleR p x) = 0 := by
      funext k
      have h1 := congrArg (fun L => L (Pi.single k 1)) h0
      simp [rowCLM, Pi.single_apply] at h1
      simp only [tmv, Pi.zero_apply, ← (circleExpr_dom x _).2]
      exact h1
    obtain ⟨h1, h2, h3⟩ := circleNext_fixed hx (circleNext_stat hp hn.best hx hz)
    rw [h1, h2, h3]
    exact hn.best

/-- **C96**, how far from the best circle a small gradient is: if `κ` bounds the normal matrix of lines through the points from below, the squared distance
between the coefficients of `x` and those of the best circle is at most `(2 + (2 |centre|² + 1) / radius²) / (4 κ²)` times the squared norm of the gradient. -/
theorem C96_gradient (hp : NotCollinear p) {κ : ℝ} (hκ : 0 < κ) (hlow : ∀ u v c : ℝ, κ * (u ^ 2 + v ^ 2 + c ^ 2) ≤ ∑ i, (u * p i 0 + v * p i 1 + c) ^ 2)
    {a b s : ℝ} (hb : BestCircle p a b s) (x : RVec 3) (hx : x 2 ≠ 0) {J : RMat m 3} (hJ : HasJac (fun y i => (circleExpr p i).value y) J x) :
    4 * (x 0 - a) ^ 2 + 4 * (x 1 - b) ^ 2 + (x 0 ^ 2 + x 1 ^ 2 - x 2 ^ 2 - (a ^ 2 + b ^ 2 - s)) ^ 2 ≤
      (2 + (2 * (x 0 ^ 2 + x 1 ^ 2) + 1) / x 2 ^ 2) / (4 * κ ^ 2) * ∑ k, (∑ i, J i k * (circleExpr p i).value x) ^ 2 := by
  obtain rfl : J = circleJ p x := hJ.unique (circle_jac x)
  simp only [(circleExpr_dom x _).2]
  obtain ⟨n0, n1, n2⟩ := hb.normal hp
  generalize he2 : x 0 ^ 2 + x 1 ^ 2 - x 2 ^ 2 - (a ^ 2 + b ^ 2 - s) = e2
  obtain ⟨e0, he0⟩ : ∃ e0, e0 = -2 * (x 0 - a) := ⟨_, rfl⟩
  obtain ⟨e1, he1⟩ : ∃ e1, e1 = -2 * (x 1 - b) := ⟨_, rfl⟩
  -- the residuals are those of the best circle plus a linear function
  have hr : ∀ i, circleR p x i = (dist2 p i a b - s) + (e0 * p i 0 + e1 * p i 1 + e2) := by
    intro i; rw [he0, he1, ← he2]; unfold circleR dist2; ring
  obtain ⟨g0, hg0⟩ : ∃ g0, g0 = ∑ i, circleJ p x i 0 * circleR p x i := ⟨_, rfl⟩
  obtain ⟨g1, hg1⟩ : ∃ g1, g1 = ∑ i, circleJ p x i 1 * circleR p x i := ⟨_, rfl⟩
  obtain ⟨g2, hg2⟩ : ∃ g2, g2 = ∑ i, circleJ p x i 2 * circleR p x i := ⟨_, rfl⟩
  rw [Fin.sum_univ_three, ← hg0, ← hg1, ← hg2]
  have s2 : g2 = -2 * x 2 * ∑ i, circleR p x i := by rw [hg2, Finset.mul_sum]; rfl
  have s0 : g0 = -2 * ∑ i, p i 0 * circleR p x i + 2 * x 0 * ∑ i, circleR p x i := by
    rw [hg0, Finset.mul_sum, Finset.mul_sum, ← Finset.sum_add_distrib]
    exact Finset.sum_congr rfl fun i _ => by simp [circleJ]; ring
  have s1 : g1 = -2 * ∑ i, p i 1 * circleR p x i + 2 * x 1 * ∑ i, circleR p x i := by
    rw [hg1, Finset.mul_sum, Finset.mul_sum, ← Finset.sum_add_distrib]
    exact Finset.sum_congr rfl fun i _ => by simp [circleJ]; ring
  have hq : ∑ i, (e0 * p i 0 + e1 * p i 1 + e2) ^ 2 = e0 * ∑ i, p i 0 * circleR p x i + e1 * ∑ i, p i 1 * circleR p x i + e2 * ∑ i, circleR p x i := by
    have : ∀ i, (e0 * p i 0 + e1 * p i 1 + e2) ^ 2 = e0 * (p i 0 * circleR p x i) + e1 * (p i 1 * circleR p x i) + e2 * circleR p x i -
        (e0 * (p i 0 * (dist2 p i a b - s)) + e1 * (p i 1 * (dist2 p i a b - s)) + e2 * (dist2 p i a b - s)) := by
      intro i; rw [hr]; ring
    rw [Finset.sum_congr rfl fun i _ => this i]
    rw [Finset.sum_sub_distrib, Finset.sum_add_distrib, Finset.sum_add_distrib, Finset.sum_add_distrib, Finset.sum_add_distrib]
    simp only [← Finset.mul_sum]
    rw [n0, n1, n2]
    ring
  have hmain := hlow e0 e1 e2
  rw [hq] at hmain
  generalize ∑ i, circleR p x i = S at s0 s1 s2 hmain
  generalize ∑ i, p i 0 * circleR p x i = S0 at s0 hmain
  generalize ∑ i, p i 1 * circleR p x i = S1 at s1 hmain
  have hE : κ ^ 2 * (e0 ^ 2 + e1 ^ 2 + e2 ^ 2) ≤ S0 ^ 2 + S1 ^ 2 + S ^ 2 := by
    have h1 : 0 ≤ e0 ^ 2 + e1 ^ 2 + e2 ^ 2 := by positivity
    have h2 : (e0 * S0 + e1 * S1 + e2 * S) ^ 2 ≤ (e0 ^ 2 + e1 ^ 2 + e2 ^ 2) * (S0 ^ 2 + S1 ^ 2 + S ^ 2) := by
      nlinarith [sq_nonneg (e0 * S1 - e1 * S0), sq_nonneg (e0 * S - e2 * S0), sq_nonneg (e1 * S - e2 * S1)]
    rcases h1.eq_or_lt with h0 | h0
    · rw [← h0, mul_zero]; positivity
    · have h3 : (κ * (e0 ^ 2 + e1 ^ 2 + e2 ^ 2)) ^ 2 ≤ (e0 * S0 + e1 * S1 + e2 * S) ^ 2 := pow_le_pow_left₀ (by positivity) hmain 2
      have h4 : (e0 ^ 2 + e1 ^ 2 + e2 ^ 2) * (κ ^ 2 * (e0 ^ 2 + e1 ^ 2 + e2 ^ 2)) ≤ (e0 ^ 2 + e1 ^ 2 + e2 ^ 2) * (S0 ^ 2 + S1 ^ 2 + S ^ 2) := by linarith
      exact le_of_mul_le_mul_left h4 h0
  have hx2 : 0 < x 2 ^ 2 := by positivity
  have hS : S ^ 2 * (4 * x 2 ^ 2) = g2 ^ 2 := by rw [s2]; ring
  have hG : 4 * (S0 ^ 2 + S1 ^ 2 + S ^ 2) ≤ (2 + (2 * (x 0 ^ 2 + x 1 ^ 2) + 1) / x 2 ^ 2) * (g0 ^ 2 + g1 ^ 2 + g2 ^ 2) := by
    have h0 : 4 * S0 ^ 2 ≤ 2 * g0 ^ 2 + 8 * x 0 ^ 2 * S ^ 2 := by rw [s0]; have := sq_nonneg (S0 * 2 - 4 * x 0 * S); linarith
    have h1 : 4 * S1 ^ 2 ≤ 2 * g1 ^ 2 + 8 * x 1 ^ 2 * S ^ 2 := by rw [s1]; have := sq_nonneg (S1 * 2 - 4 * x 1 * S); linarith
    have h3 : 4 * S ^ 2 = g2 ^ 2 / x 2 ^ 2 := by rw [eq_div_iff hx2.ne']; linarith
    have h4 : 4 * (S0 ^ 2 + S1 ^ 2 + S ^ 2) ≤ 2 * (g0 ^ 2 + g1 ^ 2) + (2 * (x 0 ^ 2 + x 1 ^ 2) + 1) * (4 * S ^ 2) := by
      have : (2 * (x 0 ^ 2 + x 1 ^ 2) + 1) * (4 * S ^ 2) = 8 * x 0 ^ 2 * S ^ 2 + 8 * x 1 ^ 2 * S ^ 2 + 4 * S ^ 2 := by ring
      linarith
    refine h4.trans ?_
    rw [h3]
    have h5 : 0 ≤ (2 * (x 0 ^ 2 + x 1 ^ 2) + 1) / x 2 ^ 2 * (g0 ^ 2 + g1 ^ 2) := by positivity
    have h6 : (2 * (x 0 ^ 2 + x 1 ^ 2) + 1) * (g2 ^ 2 / x 2 ^ 2) = (2 * (x 0 ^ 2 + x 1 ^ 2) + 1) / x 2 ^ 2 * g2 ^ 2 := by ring
    rw [h6]
    generalize (2 * (x 0 ^ 2 + x 1 ^ 2) + 1) / x 2 ^ 2 = B at h5 ⊢
    have := sq_nonneg g2
    linarith
  have hL : 4 * (x 0 - a) ^ 2 + 4 * (x 1 - b) ^ 2 + e2 ^ 2 = e0 ^ 2 + e1 ^ 2 + e2 ^ 2 := by rw [he0, he1]; ring
  rw [hL, div_mul_eq_mul_div, le_div_iff₀ (by positivity)]
  linarith

/-! ### Heron's iteration for the radius -/

/-- one iteration of Heron from a radius above `√(s / 5)` -/
theorem heron_step {s ρ : ℝ} (hs : 0 < s) (hρ : s < 5 * ρ ^ 2) : 0 < (ρ ^ 2 + s) / (2 * ρ) * ρ ∧ s ≤ ((ρ ^ 2 + s) / (2 * ρ)) ^ 2 ∧
    |((ρ ^ 2 + s) / (2 * ρ)) ^ 2 - s| ≤ |ρ ^ 2 - s| ∧ (ρ ^ 2 ≠ s → |((ρ ^ 2 + s) / (2 * ρ)) ^ 2 - s| < |ρ ^ 2 - s|) ∧
    2 * |ρ| * |(|(ρ ^ 2 + s) / (2 * ρ)| - √s)| = (|ρ| - √s) ^ 2 ∧ |(|(ρ ^ 2 + s) / (2 * ρ)| - √s)| ≤ 5 / 8 * |(|ρ| - √s)| := by
  have h0 : ρ ≠ 0 := by rintro rfl; simp at hρ; linarith
  have h2 : 0 < ρ ^ 2 := by positivity
  have hp : (ρ ^ 2 + s) / (2 * ρ) * ρ = (ρ ^ 2 + s) / 2 := by field_simp
  have hsq : ((ρ ^ 2 + s) / (2 * ρ)) ^ 2 - s = (ρ ^ 2 - s) ^ 2 / (4 * ρ ^ 2) := by field_simp; ring
  have hnn : 0 ≤ (ρ ^ 2 - s) ^ 2 / (4 * ρ ^ 2) := by positivity
  have hlt : |ρ ^ 2 - s| < 4 * ρ ^ 2 := by rw [abs_lt]; constructor <;> linarith
  have habs : |((ρ ^ 2 + s) / (2 * ρ)) ^ 2 - s| * (4 * ρ ^ 2) = |ρ ^ 2 - s| * |ρ ^ 2 - s| := by
    rw [hsq, abs_of_nonneg hnn, div_mul_cancel₀ _ (by positivity), ← pow_two, sq_abs]
  have hq0 : 0 < √s := Real.sqrt_pos.mpr hs
  have hq2 : √s ^ 2 = s := Real.sq_sqrt hs.le
  have ha : 0 < |ρ| := abs_pos.mpr h0
  have hr : 2 * |ρ| * |(ρ ^ 2 + s) / (2 * ρ)| = ρ ^ 2 + s := by
    rw [abs_div, abs_mul, abs_of_pos (by linarith : 0 < ρ ^ 2 + s), abs_two]; field_simp
  have he : 2 * |ρ| * (|(ρ ^ 2 + s) / (2 * ρ)| - √s) = (|ρ| - √s) ^ 2 := by
    rw [mul_sub, hr]
    nlinarith [sq_abs ρ]
  have he' : 2 * |ρ| * |(|(ρ ^ 2 + s) / (2 * ρ)| - √s)| = (|ρ| - √s) ^ 2 := by
    rw [← abs_of_nonneg (sq_nonneg (|ρ| - √s)), ← he, abs_mul, abs_of_pos (by linarith : 0 < 2 * |ρ|)]
  refine ⟨by rw [hp]; linarith, by linarith, ?_, fun hne => ?_, he', ?_⟩
  · have := abs_nonneg (ρ ^ 2 - s)
    have h4 : |((ρ ^ 2 + s) / (2 * ρ)) ^ 2 - s| * (4 * ρ ^ 2) ≤ |ρ ^ 2 - s| * (4 * ρ ^ 2) := by
      rw [habs]; exact mul_le_mul_of_nonneg_left hlt.le this
    exact le_of_mul_le_mul_right h4 (by positivity)
  · have : 0 < |ρ ^ 2 - s| := abs_pos.mpr (sub_ne_zero.mpr hne)
    have h4 : |((ρ ^ 2 + s) / (2 * ρ)) ^ 2 - s| * (4 * ρ ^ 2) < |ρ ^ 2 - s| * (4 * ρ ^ 2) := by
      rw [habs]; exact mul_lt_mul_of_pos_left hlt this
    exact lt_of_mul_lt_mul_right h4 (by positivity)
  · have h5 : √s ≤ 9 / 4 * |ρ| := by
      refine Real.sqrt_le_iff.mpr ⟨by positivity, ?_⟩
      rw [mul_pow, sq_abs]; nlinarith
    have h6 : |(|ρ| - √s)| ≤ 5 / 4 * |ρ| := by rw [abs_le]; constructor <;> linarith
    have h7 : 2 * |ρ| * |(|(ρ ^ 2 + s) / (2 * ρ)| - √s)| ≤ 2 * |ρ| * (5 / 8 * |(|ρ| - √s)|) := by
      rw [he', ← sq_abs (|ρ| - √s)]
      nlinarith [abs_nonneg (|ρ| - √s)]
    exact le_of_mul_le_mul_left h7 (by linarith)

end

/-! ### Runs -/

section
variable {R W : Type} {m : Nat} {so : SolverOpts ℝ} {LA : LinAlg ℝ} {P : Problem ℝ R W (RVec 3)} {o : Options ℝ W (DVec ℝ)} {p : Fin m → Fin 2 → ℝ}

theorem NotCollinear.pos (hp : NotCollinear p) : 0 < m := by
  obtain ⟨i, -⟩ := hp.two 0 0
  exact i.pos

/-- the problem of the example -/
theorem circle_nls (hP : ADProblem P (circleExpr p)) (hV : VecParams P) (hp : NotCollinear p) (Ω : RVec 3 → Prop) :
    NonlinLS P Ω (circleR p) (circleJ p) := by
  have h := nonlinLS_of_autodiff (Ω := Ω) (J := circleJ p) hP hV hp.pos fun x _ => ⟨fun i => (circleExpr_dom x i).1, circle_jac x⟩
  have e : (fun (y : RVec 3) i => (circleExpr p i).value y) = circleR p := by funext y i; exact (circleExpr_dom y i).2
  rwa [e] at h

theorem circleR_cost (x : RVec 3) : dotR (circleR p x) (circleR p x) = circleCost p (x 0) (x 1) (x 2 ^ 2) := by
  simp [dotR, circleR, circleCost, pow_two]

theorem circleR_lt {x y : RVec 3} (h : circleCost p (x 0) (x 1) (x 2 ^ 2) < circleCost p (y 0) (y 1) (y 2 ^ 2)) : nrm (circleR p x) < nrm (circleR p y) := by
  unfold nrm
  rw [circleR_cost, circleR_cost]
  exact Real.sqrt_lt_sqrt (by rw [← circleR_cost]; exact dotR_self_nonneg _) h

theorem circleNext_centre {a b s : ℝ} {x : RVec 3} (h0 : x 0 = a) (h1 : x 1 = b) : circleNext a b s x = ![a, b, (x 2 ^ 2 + s) / (2 * x 2)] := by
  unfold circleNext; rw [h0, h1]; simp

/-- **C96** (partial), Gauss-Newton on the example in exact arithmetic, points not on one line, `(a, b)` and `s` the centre and squared radius of the circle of least cost,
`x1` the point after one step. If `x1` is better than the start and `|radius of x1| > √(s / 5)`: the run ends normally, all steps are accepted until the circle is reached, every
step leads exactly to the best centre, from the second step on the radius follows Heron's iteration for `√s`; at the end the centre is exact and `N` iterations leave an error of the
radius of at most `(5/8)^(N-1)` times that of `x1`. The radius has the sign it has in `x1`. Missing: a positive radius and the other starts, see `C96_negative`. -/
theorem C96_run_partial (hP : ADProblem P (circleExpr p)) (hV : VecParams P) (hp : NotCollinear p) {a b s : ℝ} (hb : BestCircle p a b s) (hL : ExactLinAlg LA)
    (hone : so.useLdlt = true ∨ P.dims ≠ some 1) (hmin : so.checkMinHDiag ≤ 0) (hclip : so.gradClip = 0) (hq : Quiet o)
    (s0 : GNState ℝ R) (hs : P.dims = none ∨ s0.n = 3) (fuel : Nat) (mi N : Int) (hN : loopBound o mi = some N) (hN1 : 1 ≤ N)
    (w : W) (x0 : RVec 3) (hx0 : x0 2 ≠ 0) (hc0 : nCost so m (∑ i, (circleExpr p i).value x0 ^ 2) < maxVal)
    {ρ : ℝ} (hρ : ρ = (x0 2 ^ 2 + s - (a - x0 0) ^ 2 - (b - x0 1) ^ 2) / (2 * x0 2))
    (hacc : circleCost p a b (ρ ^ 2) < circleCost p (x0 0) (x0 1) (x0 2 ^ 2)) (hρ1 : s < 5 * ρ ^ 2) :
    ∃ st, optimizeAcc (gnEnv so LA P) o (fuel + 1) mi w s0 x0 = .ok st ∧
      (∀ t ∈ st.trace, ¬(t.x 0 = a ∧ t.x 1 = b ∧ t.x 2 ^ 2 = s) → t.succ = true) ∧
      (∀ t ∈ st.trace, t.xNext 0 = a ∧ t.xNext 1 = b) ∧
      (∀ t ∈ st.trace.tail, t.xNext 2 = (t.x 2 ^ 2 + s) / (2 * t.x 2) ∧ 2 * |t.x 2| * |(|t.xNext 2| - √s)| = (|t.x 2| - √s) ^ 2) ∧
      st.x 0 = a ∧ st.x 1 = b ∧ 0 < st.x 2 * ρ ∧ |(|st.x 2| - √s)| ≤ (5 / 8) ^ (N.toNat - 1) * |(|ρ| - √s)| := by
  have hs0 := hb.pos hp
  have hx1 : circleNext a b s x0 = ![a, b, ρ] := by rw [hρ]; rfl
  have hne : ∀ y : RVec 3, s < 5 * y 2 ^ 2 → y 2 ≠ 0 := by
    intro y h h0
    rw [h0] at h
    norm_num at h
    linarith
  let Ω : RVec 3 → Prop := fun x => x = x0 ∨ (x 0 = a ∧ x 1 = b ∧ s < 5 * x 2 ^ 2)
  have hΩ2 : ∀ x, Ω x → x 2 ≠ 0 := by
    rintro x (rfl | ⟨-, -, h⟩)
    · exact hx0
    · exact hne x h
  have hPD : ∀ x, Ω x → PD (gram (circleJ p x)) := fun x hx => gram_pd fun v hv => circleJ_inj hp (hΩ2 x hx) hv
  have hnext : ∀ x, Ω x → Ω (circleNext a b s x) := by
    rintro x (rfl | ⟨h0, h1, h2⟩)
    · exact Or.inr (by rw [hx1]; exact ⟨rfl, rfl, hρ1⟩)
    · refine Or.inr ?_
      rw [circleNext_centre h0 h1]
      refine ⟨rfl, rfl, ?_⟩
      have := (heron_step hs0 h2).2.1
      show s < 5 * ((x 2 ^ 2 + s) / (2 * x 2)) ^ 2
      linarith
  obtain ⟨st, e, ht⟩ := gn_nls_run (o := o) (so := so) (LA := LA) (circle_nls hP hV hp Ω) hL hPD
    (fun x hx => by
      rcases hone with h | h
      · exact Or.inl h
      · exact Or.inr (Or.inl (by simpa using h))) (fun x hx => Or.inl hmin) hclip
    (fun x d hx hg hd => by
      have hl := circle_lands hp hb (hΩ2 x hx) hd
      rw [hl]
      refine ⟨hnext x hx, circleR_lt ?_⟩
      rcases hx with rfl | ⟨h0, h1, h2⟩
      · rw [hx1]; exact hacc
      · rw [circleNext_centre h0 h1, h0, h1]
        show circleCost p a b (((x 2 ^ 2 + s) / (2 * x 2)) ^ 2) < _
        rw [hb.cost hp, hb.cost hp (x 2 ^ 2)]
        have hne2 : x 2 ^ 2 ≠ s := by
          intro h3
          refine hg ?_
          have hfix : circleNext a b s x = x := by
            rw [circleNext_centre h0 h1, h3.symm]
            funext k
            fin_cases k
            · exact h0.symm
            · exact h1.symm
            · show (x 2 ^ 2 + x 2 ^ 2) / (2 * x 2) = x 2
              have := hne x h2
              field_simp
              ring
          rw [hfix] at hl
          have hd0 : d = 0 := by simpa using hl
          rw [hd0, mv_zero] at hd
          exact neg_eq_zero.mp hd.symm
        have h4 := (heron_step hs0 h2).2.2.2.1 hne2
        have hm : (0 : ℝ) < m := by exact_mod_cast hp.pos
        have := sq_lt_sq.mpr h4
        nlinarith)
    s0 hs fuel mi N hN w x0 (Or.inl rfl) (by
      have : ∑ i, (circleExpr p i).value x0 ^ 2 = dotR (circleR p x0) (circleR p x0) := by
        rw [circleR_cost]; exact Finset.sum_congr rfl fun i _ => by rw [(circleExpr_dom x0 i).2]; rfl
      rw [← this]; exact hc0)
  have hland : ∀ t ∈ st.trace, Ω t.x ∧ t.xNext = circleNext a b s t.x := by
    intro t htt
    obtain ⟨h1, h2, -⟩ := ht t htt
    refine ⟨h1, ?_⟩
    have := circle_lands hp hb (hΩ2 _ h1) h2
    rwa [add_sub_cancel] at this
  have hg0 : tmv (circleJ p x0) (circleR p x0) ≠ 0 := by
    intro h
    have := circleNext_stat hp hb hx0 h
    rw [hx1] at this
    rw [this] at hacc
    exact lt_irrefl _ hacc
  have hpath := run_path e
  -- the iterations after the first one
  have hheron : ∀ (tr : List (Rec ℝ R (RVec 3) (DVec ℝ) (DMat ℝ))) (x y : RVec 3), Path x tr y → (x 0 = a ∧ x 1 = b ∧ s < 5 * x 2 ^ 2) →
      (∀ t ∈ tr, t.xNext = circleNext a b s t.x) →
      (y 0 = a ∧ y 1 = b ∧ s < 5 * y 2 ^ 2) ∧ 0 < y 2 * x 2 ∧ |(|y 2| - √s)| ≤ (5 / 8) ^ tr.length * |(|x 2| - √s)| ∧
      ∀ t ∈ tr, t.x 0 = a ∧ t.x 1 = b ∧ s < 5 * t.x 2 ^ 2 := by
    intro tr
    induction tr with
    | nil =>
      intro x y h hx _
      simp only [Path] at h
      subst h
      have := hne y hx.2.2
      exact ⟨hx, mul_self_pos.mpr this, by simp, by simp⟩
    | cons r tr ih =>
      rintro x y ⟨h1, h2⟩ hx hr
      subst h1
      have hn := hr r List.mem_cons_self
      rw [circleNext_centre hx.1 hx.2.1] at hn
      have hn2 : r.xNext 2 = (r.x 2 ^ 2 + s) / (2 * r.x 2) := by rw [hn]; rfl
      obtain ⟨g1, g2, -, -, -, g6⟩ := heron_step hs0 hx.2.2
      rw [← hn2] at g1 g2 g6
      obtain ⟨i1, i2, i3, i4⟩ := ih r.xNext y h2 ⟨by rw [hn]; rfl, by rw [hn]; rfl, by linarith⟩ fun t ht => hr t (List.mem_cons_of_mem _ ht)
      refine ⟨i1, ?_, ?_, ?_⟩
      · have h3 : 0 < (y 2 * r.x 2) * (r.xNext 2 * r.xNext 2) := by
          have := mul_pos i2 g1
          linarith
        exact pos_of_mul_pos_left h3 (mul_self_nonneg _)
      · rw [List.length_cons, pow_succ, mul_assoc]
        exact i3.trans (mul_le_mul_of_nonneg_left g6 (by positivity))
      · intro t ht
        rcases List.mem_cons.mp ht with rfl | ht
        · exact hx
        · exact i4 t ht
  have hcentre : ∀ t ∈ st.trace, t.xNext 0 = a ∧ t.xNext 1 = b := by
    intro t htt
    rw [(hland t htt).2]
    exact ⟨rfl, rfl⟩
  have hdone := quiet_done (f := fun x => dotR (tmv (circleJ p x) (circleR p x)) (tmv (circleJ p x) (circleR p x))) hq e hN
    (fun t ht0 hne => (ht t ht0).2.2 fun h0 => hne (by rw [h0]; simp [dotR]))
    (fun t ht0 h0 => by
      have hz : tmv (circleJ p t.x) (circleR p t.x) = 0 := by
        have := nrm_eq_zero (v := tmv (circleJ p t.x) (circleR p t.x)) (by unfold nrm; rw [h0, Real.sqrt_zero])
        exact this
      obtain ⟨h1, h2⟩ := hland t ht0
      rw [h2, ← circleNext_stat hp hb (hΩ2 _ h1) hz]
      exact h0)
  -- the first iteration
  obtain ⟨r, tr, htr⟩ : ∃ r tr, st.trace = r :: tr := by
    rcases h : st.trace with - | ⟨r, tr⟩
    · exfalso
      rw [h] at hpath hdone
      simp only [Path] at hpath
      rcases hdone with h0 | h0
      · rw [hpath] at h0
        exact hg0 (nrm_eq_zero (by unfold nrm; rw [h0, Real.sqrt_zero]))
      · simp at h0; omega
    · exact ⟨r, tr, rfl⟩
  have hsucc : ∀ t ∈ st.trace, ¬(t.x 0 = a ∧ t.x 1 = b ∧ t.x 2 ^ 2 = s) → t.succ = true := by
    intro t htt hk
    have h1 := hΩ2 _ (ht t htt).1
    exact (ht t htt).2.2 fun h0 => hk (circleNext_fixed h1 (circleNext_stat hp hb h1 h0))
  rw [htr] at hpath hland hdone hcentre hsucc
  obtain ⟨hrx, hpath⟩ := hpath
  have hr1 : r.xNext = ![a, b, ρ] := by rw [(hland r List.mem_cons_self).2, hrx, hx1]
  obtain ⟨f1, f2, f3, f4⟩ := hheron tr r.xNext st.x hpath (by rw [hr1]; exact ⟨rfl, rfl, hρ1⟩) fun t ht0 => (hland t (List.mem_cons_of_mem _ ht0)).2
  have hr2 : r.xNext 2 = ρ := by rw [hr1]; rfl
  rw [hr2] at f2 f3
  refine ⟨st, e, by rw [htr]; exact hsucc, by rw [htr]; exact hcentre, ?_, f1.1, f1.2.1, f2, ?_⟩
  · rw [htr]
    intro t ht0
    obtain ⟨h0, h1, h2⟩ := f4 t ht0
    have hn := (hland t (List.mem_cons_of_mem _ ht0)).2
    rw [circleNext_centre h0 h1] at hn
    have hn2 : t.xNext 2 = (t.x 2 ^ 2 + s) / (2 * t.x 2) := by rw [hn]; rfl
    exact ⟨hn2, by rw [hn2]; exact (heron_step hs0 h2).2.2.2.2.1⟩
  · rcases hdone with h0 | h0
    · have hz := nrm_eq_zero (v := tmv (circleJ p st.x) (circleR p st.x)) (by unfold nrm; rw [h0, Real.sqrt_zero])
      have h2 := (circleNext_fixed (hne _ f1.2.2) (circleNext_stat hp hb (hne _ f1.2.2) hz)).2.2
      have : |st.x 2| = √s := by rw [← h2]; exact (Real.sqrt_sq_eq_abs _).symm
      rw [this, sub_self, abs_zero]
      positivity
    · rw [show N.toNat - 1 = tr.length by rw [← h0]; simp]
      exact f3

end

/-! ### A negative radius -/

/-- four points of the unit circle -/
def cross : Fin 4 → Fin 2 → ℝ := ![![1, 0], ![-1, 0], ![0, 1], ![0, -1]]

theorem cross_cost (a b s : ℝ) : circleCost cross a b s = ((1 - a) ^ 2 + b ^ 2 - s) ^ 2 + ((1 + a) ^ 2 + b ^ 2 - s) ^ 2 + (a ^ 2 + (1 - b) ^ 2 - s) ^ 2 + (a ^ 2 + (1 + b) ^ 2 - s) ^ 2 := by
  simp [circleCost, dist2, cross, Fin.sum_univ_four]
  ring

theorem cross_points : NotCollinear cross ∧ BestCircle cross 0 0 1 := by
  refine ⟨fun a b c h => ?_, fun a b s => ?_⟩
  · have h0 := h 0
    have h1 := h 1
    have h2 := h 2
    simp [cross] at h0 h1 h2
    refine ⟨by linarith, by linarith, by linarith⟩
  · rw [cross_cost, cross_cost]
    norm_num
    positivity

theorem loopBound_optsR (k : Nat) (hk : k < 1000) (h0 : k ≠ 0) : loopBound (optsR k) (-1) = some ((k : Int) + 1) := by
  have h6 : ¬ ((k : Int) + 1 + 1 > intMax) := by unfold intMax; omega
  simp only [loopBound, optsR]
  simp [h6]

/-- **C96 (violated)**: a circle with a negative radius. Four points of the unit circle, Gauss-Newton with the defaults of the solver from the circle of centre `(11, 0)` and radius
`10`: after any number of iterations the result is the centre `(0, 0)` with the radius `-1`. -/
theorem C96_negative (k : Nat) (hk : k < 1000) (h0 : k ≠ 0) (g : Vec ℝ 3) (H : Mat ℝ 3) :
    ∃ st, optimizeAcc (gnEnv soptsR someLinAlg (adProbV (circleExpr cross))) (optsR k) 1 (-1) () (gnFresh (adProbV (circleExpr cross)) g H) ![11, 0, 10] = .ok st ∧
      st.x = ![0, 0, -1] := by
  obtain ⟨hp, hb⟩ := cross_points
  obtain ⟨st, e, h1, h2, h3, h4, h5, h6, h7⟩ := C96_run_partial (so := soptsR) (LA := someLinAlg) (o := optsR k) (adProbV_ad (circleExpr cross)) (adProbV_vec _) hp hb someLinAlg_exact
    (Or.inl rfl) (le_refl _) rfl (optsR_quiet k) (gnFresh (adProbV (circleExpr cross)) g H) (Or.inr rfl) 0 (-1) _ (loopBound_optsR k hk h0) (by omega) ()
    ![11, 0, 10] (by simp) (by
      have : ∑ i, (circleExpr cross i).value ![11, 0, 10] ^ 2 = 2904 := by
        rw [Finset.sum_congr rfl fun i _ => by rw [(circleExpr_dom _ i).2]]
        simp [circleR, dist2, cross, Fin.sum_univ_four]; norm_num
      rw [this]
      refine lt_of_le_of_lt (b := 2904) ?_ (lt_of_lt_of_le (by norm_num : (2904 : ℝ) < 2 ^ 13) (pow_le_pow_right₀ (by norm_num) (by norm_num)))
      simp [nCost, normalizeCost, soptsR])
    (ρ := -1) (by simp; norm_num) (by rw [cross_cost, cross_cost]; simp; norm_num) (by norm_num)
  have hz : |st.x 2| = 1 := by
    simp at h7
    linarith [abs_nonpos_iff.mp (le_of_eq (abs_eq_zero.mpr h7))]
  have hneg : st.x 2 = -1 := by
    rcases abs_eq (zero_le_one) |>.mp hz with h | h
    · rw [h] at h6; norm_num at h6
    · exact h
  refine ⟨st, e, ?_⟩
  funext i
  fin_cases i
  · exact h4
  · exact h5
  · exact hneg

/-! ### A start that is too far -/

section
variable {F R W S X V M : Type} [FloatOps F] {E : Env F R W S X V M} {o : Options F W V} {Px : X → Prop} {I Z : S → Prop} {B N A : X → S → Prop} {C : X → F} {D : X → Option V}

/-- what is known of a run whose first step does not decrease the cost -/
structure FirstBad (x x1 : X) (st : LoopSt F R W S X V M) : Prop where
  succ : ∀ t ∈ st.trace.tail, t.succ = false
  rows : ∀ t ∈ st.trace, t.x = x ∨ t.x = x1
  x : st.x = x ∨ st.x = x1

/-- A solver whose cost and step are functions of the parameters and that starts with a step that does not decrease the cost: only the start and the point after that step are
ever evaluated, and no iteration after the first is successful. -/
theorem run_first_bad (h : RunInv E Px I Z B N A) (hB : ∀ x s, B x s → (E.sol.cost s).cost = C x ∧ E.sol.solve s = D x)
    (hlt : ∀ a : F, lt (sub a a) (ofInt 0) = false)
    {fuel : Nat} {mi : Int} (hmi : budget o mi ≤ 65536) {w : W} {s : S} {x : X} {st : LoopSt F R W S X V M} (hx : Px x) (hI : I s)
    {d : V} (hd : D x = some d) (hundo : E.plusEq (E.plusEq x d) (E.negV d) = x) (hbad : lt (sub (C (E.plusEq x d)) (C x)) (ofInt 0) = false)
    (hr : optimizeAcc E o fuel mi w s x = .ok st) : FirstBad x (E.plusEq x d) st := by
  obtain ⟨m, st0, hm, hj, -, hlen, hst⟩ := run_inv
    (I := fun st => Px st.x ∧ I st.s ∧ st.out.numIters = st.trace.length % 65536 ∧
      (st.trace.length ≤ 65536 → (st.trace = [] ∧ st.lastDx = none ∧ st.x = x) ∨ (st.trace ≠ [] ∧ FirstBad x (E.plusEq x d) st ∧ st.out.finalCost.cost = C x ∧
        (st.x = E.plusEq x d ∧ st.lastDx = some d ∨ st.x = x ∧ st.lastDx = none))))
    (J := fun st => st.trace.length ≤ 65536 → FirstBad x (E.plusEq x d) st)
    (fun last st st' hno h1 hb => by
      obtain ⟨hPx, hIs, hni, hgo⟩ := h1
      obtain ⟨succ, mdx, w1, s1, out1, ms, hstep, hs⟩ := body_spec' hb
      have hmem := step_memoryless h.toStepInv hB hPx hIs hstep
      have hni' := numIters_inv hb hni
      have hrun : st'.out.stop = .kNone → out1.stop = .kNone := fun hn => timeStop_none (by rw [hs.out] at hn; exact hn)
      have hPx' : Px st'.x := by
        have := hs.upd
        revert this
        generalize st'.x = x1
        generalize st'.lastDx = l1
        generalize st'.lastSucc = b1
        intro this
        cases this with
        | succ dx => exact h.plus _ _ hPx
        | roll d _ _ => exact h.plus _ _ hPx
        | adv dx _ => exact h.plus _ _ hPx
        | stay _ => exact hPx
      have hI' : st'.out.stop = .kNone → I st'.s := fun hn => by
        obtain ⟨b, hb⟩ := hs.solver
        rw [hb]
        rcases hmem with ⟨-, -, h2, -⟩ | ⟨d, -, -, -, -, hA⟩
        · exact absurd (hrun hn) h2
        · split at hA
          · exact h.rebuildA _ _ _ hA
          · exact h.rebuildB _ _ _ hA
      have hfc : st'.out.finalCost = out1.finalCost := by rw [hs.out]
      have key : st'.trace.length ≤ 65536 → FirstBad x (E.plusEq x d) st' ∧ (st'.out.stop = .kNone → st'.out.finalCost.cost = C x ∧
          (st'.x = E.plusEq x d ∧ st'.lastDx = some d ∨ st'.x = x ∧ st'.lastDx = none)) := by
        intro hl
        have hl1 : st'.trace.length = st.trace.length + 1 := by rw [hs.trace]; simp
        have htr := hs.trace
        have hupd := hs.upd
        have hsx : st.x = x ∨ st.x = E.plusEq x d := by
          rcases hgo (by omega) with ⟨-, -, h2⟩ | ⟨-, -, -, h2 | h2⟩
          · exact Or.inl h2
          · exact Or.inr h2.1
          · exact Or.inl h2.1
        -- where the iteration leads
        have hpos : (st'.x = E.plusEq x d ∧ st'.lastDx = some d ∨ st'.x = x ∧ st'.lastDx = none) ∧ (st.trace ≠ [] → succ = false) := by
          rcases hgo (by omega) with ⟨h0, hld, hx0⟩ | ⟨hne, hF, hfin, hp⟩
          · refine ⟨?_, fun h => absurd h0 h⟩
            rw [hld, hx0] at hupd
            rw [hx0] at hmem
            revert hupd
            generalize st'.x = x1
            generalize st'.lastDx = l1
            generalize st'.lastSucc = b1
            generalize hq : (none : Option V) = q
            intro hupd
            have hm : ∀ v, mdx = some v → v = d := by
              intro v hv
              rcases hmem with ⟨-, h2, -⟩ | ⟨d', h1, h2, -⟩
              · rw [h2] at hv; cases hv
              · rw [hd] at h1
                obtain rfl := Option.some.inj h1
                rcases h2 with h2 | ⟨h2, -⟩
                · rw [h2] at hv; exact (Option.some.inj hv).symm
                · rw [h2] at hv; cases hv
            cases hupd with
            | succ dx => obtain rfl := hm _ rfl; exact Or.inl ⟨rfl, rfl⟩
            | roll d' _ h3 => rw [← hq] at h3; cases h3
            | adv dx _ => obtain rfl := hm _ rfl; exact Or.inl ⟨rfl, rfl⟩
            | stay _ => exact Or.inr ⟨rfl, hq⟩
          · have hsf : succ = false := by
              rcases hmem with ⟨h2, -⟩ | ⟨d', -, -, h2, -⟩
              · exact h2
              · rw [h2, hfin]
                rcases hp with ⟨hp, -⟩ | ⟨hp, -⟩
                · rw [hp]; exact hbad
                · rw [hp]; exact hlt _
            refine ⟨?_, fun _ => hsf⟩
            subst hsf
            rcases hp with ⟨hp, hld⟩ | ⟨hp, hld⟩
            · rw [hp, hld] at hupd
              revert hupd
              generalize st'.x = x1
              generalize st'.lastDx = l1
              generalize st'.lastSucc = b1
              generalize hq : (some d : Option V) = q
              intro hupd
              cases hupd with
              | roll d' _ h3 =>
                rw [← hq] at h3
                obtain rfl := Option.some.inj h3
                rw [hundo]
                exact Or.inr ⟨rfl, rfl⟩
              | adv dx h3 => rw [← hq] at h3; cases h3
              | stay h3 => rw [← hq] at h3; cases h3
            · rw [hp, hld] at hupd
              rw [hp] at hmem
              revert hupd
              generalize st'.x = x1
              generalize st'.lastDx = l1
              generalize st'.lastSucc = b1
              generalize hq : (none : Option V) = q
              intro hupd
              cases hupd with
              | roll d' _ h3 => rw [← hq] at h3; cases h3
              | adv dx _ =>
                rcases hmem with ⟨-, h2, -⟩ | ⟨d', h1, h2, -⟩
                · cases h2
                · rw [hd] at h1
                  obtain rfl := Option.some.inj h1
                  rcases h2 with h2 | ⟨h2, -⟩
                  · obtain rfl := Option.some.inj h2; exact Or.inl ⟨rfl, rfl⟩
                  · cases h2
              | stay _ => exact Or.inr ⟨rfl, hq⟩
        refine ⟨⟨?_, ?_, ?_⟩, fun hn => ⟨?_, hpos.1⟩⟩
        · intro t ht
          rw [htr] at ht
          rcases hgo (by omega) with ⟨h0, -⟩ | ⟨hne, hF, -⟩
          · rw [h0] at ht; simp at ht
          · rw [List.tail_append_of_ne_nil hne, List.mem_append, List.mem_singleton] at ht
            rcases ht with ht | rfl
            · exact hF.succ t ht
            · exact hpos.2 hne
        · intro t ht
          rw [htr, List.mem_append, List.mem_singleton] at ht
          rcases ht with ht | rfl
          · rcases hgo (by omega) with ⟨h0, -⟩ | ⟨hne, hF, -⟩
            · rw [h0] at ht; simp at ht
            · exact hF.rows t ht
          · exact hsx
        · rcases hpos.1 with h2 | h2
          · exact Or.inr h2.1
          · exact Or.inl h2.1
        · rw [hfc]
          rcases hmem with ⟨-, -, h2, -⟩ | ⟨d', -, -, -, h2, -⟩
          · exact absurd (hrun hn) h2
          · rcases hgo (by omega) with ⟨h0, -, hx0⟩ | ⟨hne, -, hfin, -⟩
            · rw [if_pos (Or.inr (by rw [hni, h0]; rfl)), hx0] at h2
              exact h2
            · have hl0 : 0 < st.trace.length := List.length_pos_iff.mpr hne
              rw [if_neg (by rw [hpos.2 hne]; rw [hni]; simp; omega)] at h2
              rw [h2, hfin]
      refine ⟨fun hn => ⟨hPx', hI' hn, hni', fun hl => Or.inr ⟨by rw [hs.trace]; simp, (key hl).1, ((key hl).2 hn)⟩⟩, fun hl => (key hl).1⟩)
    (show _ from ⟨hx, hI, rfl, fun _ => Or.inl ⟨rfl, rfl, rfl⟩⟩) (show _ from fun _ => ⟨by simp [initSt], by simp [initSt], Or.inl rfl⟩) hr
  obtain ⟨hb, -, -⟩ := loopBound_spec hm
  have := hj (by unfold budget at hmi; omega)
  rw [hst]
  exact ⟨this.succ, this.rows, this.x⟩

end

section
variable {R W : Type} {m : Nat} {so : SolverOpts ℝ} {LA : LinAlg ℝ} {P : Problem ℝ R W (RVec 3)} {o : Options ℝ W (DVec ℝ)} {p : Fin m → Fin 2 → ℝ}

/-- **C96 (violated)**: from a start whose first Gauss-Newton step does not decrease the cost the run never gets anywhere: all iterations after the first one fail, and the
result is the start or the point after that first step, which is not better. -/
theorem C96_far (hP : ADProblem P (circleExpr p)) (hV : VecParams P) (hp : NotCollinear p) {a b s : ℝ} (hb : BestCircle p a b s) (hL : ExactLinAlg LA)
    (hone : so.useLdlt = true ∨ P.dims ≠ some 1) (hmin : so.checkMinHDiag ≤ 0) (hclip : so.gradClip = 0)
    (s0 : GNState ℝ R) (hs : P.dims = none ∨ s0.n = 3) (fuel : Nat) (mi : Int) (hmi : budget o mi ≤ 65536)
    (w : W) (x0 : RVec 3) (hx0 : x0 2 ≠ 0) {ρ : ℝ} (hρ : ρ = (x0 2 ^ 2 + s - (a - x0 0) ^ 2 - (b - x0 1) ^ 2) / (2 * x0 2))
    (hρ0 : ρ ≠ 0) (hc0 : nCost so m (circleCost p a b (ρ ^ 2)) < maxVal) (hworse : circleCost p (x0 0) (x0 1) (x0 2 ^ 2) ≤ circleCost p a b (ρ ^ 2)) (st)
    (hr : optimizeAcc (gnEnv so LA P) o fuel mi w s0 x0 = .ok st) :
    (∀ t ∈ st.trace.tail, t.succ = false) ∧ (∀ t ∈ st.trace, t.x = x0 ∨ t.x = ![a, b, ρ]) ∧ (st.x = x0 ∨ st.x = ![a, b, ρ]) := by
  have hN := circle_nls (P := P) (p := p) hP hV hp (fun x => x 2 ≠ 0)
  have hx1 : circleNext a b s x0 = ![a, b, ρ] := by rw [hρ]; rfl
  have hdet : Deterministic P 3 := by
    intro w w' x
    obtain ⟨c, g, H, w1, h1, h2⟩ := hP.full w x (fun _ => (0 : ℝ)) (fun _ _ => (0 : ℝ)) fun i => (circleExpr_dom x i).1
    obtain ⟨c', g', H', w2, h3, h4⟩ := hP.full w' x (fun _ => (0 : ℝ)) (fun _ _ => (0 : ℝ)) fun i => (circleExpr_dom x i).1
    have z1 : P.acc.full w x 3 (fun _ => ofInt 0) (fun _ _ => ofInt 0) = ((⟨c, m, P.ratio1, ""⟩, g, H), w1) := by simpa using h2
    have z2 : P.acc.full w' x 3 (fun _ => ofInt 0) (fun _ _ => ofInt 0) = ((⟨c', m, P.ratio1, ""⟩, g', H'), w2) := by simpa using h4
    rw [z1, z2]
    rw [h1] at h3
    simp only [Option.some.injEq, Prod.mk.injEq] at h3
    obtain ⟨rfl, -, rfl, rfl⟩ := h3
    rfl
  have hk : KeepsDims P := fun x v => by rw [hV.dyn, hV.dyn]
  have hsz : SizeOk P s0 := by
    intro d hd
    rcases hs with h | h
    · rw [h] at hd; cases hd
    · rcases hV.size with h1 | ⟨h1, -⟩
      · rw [h1] at hd; rw [h]; exact Option.some.inj hd
      · rw [h1] at hd; cases hd
  have hcost : ∀ y : RVec 3, nCost so m (dotR (circleR p y) (circleR p y)) = nCost so m (circleCost p (y 0) (y 1) (y 2 ^ 2)) := fun y => by rw [circleR_cost]
  have hnn : ∀ y : RVec 3, 0 ≤ circleCost p (y 0) (y 1) (y 2 ^ 2) := fun y => by rw [← circleR_cost]; exact dotR_self_nonneg _
  have hle : nCost so m (circleCost p (x0 0) (x0 1) (x0 2 ^ 2)) ≤ nCost so m (circleCost p a b (ρ ^ 2)) := by
    by_contra h
    push Not at h
    have hnn1 : 0 ≤ circleCost p a b (ρ ^ 2) := hnn ![a, b, ρ]
    rw [Verif.nCost_lt hnn1 (hnn x0)] at h
    linarith
  obtain ⟨c, w1, hb0, hc, hv⟩ := nls_build hN hclip w (sizedState P 3) rfl x0 hx0 (Or.inl hmin) (by rw [id, hcost]; exact (lt_of_le_of_lt hle hc0).ne)
  have hPD : PD (gram (circleJ p x0)) := gram_pd fun v hv => circleJ_inj hp hx0 hv
  obtain ⟨v, h1, h2⟩ := gnSolve_pd (so := so) hL (P.dims == some 1) ⟨3, tmv (circleJ p x0) (circleR p x0), gram (circleJ p x0), c⟩ hv hPD (by
    rcases hone with h | h
    · exact Or.inl h
    · exact Or.inr (Or.inl (by simpa using h)))
  have hland := circle_lands hp hb hx0 h2
  have hplus : P.plusEq x0 ⟨3, v⟩ = ![a, b, ρ] := by rw [hV.plus, hland, hx1]
  obtain ⟨c1, w2, hb1, hc1, hv1⟩ := nls_build hN hclip w (sizedState P 3) rfl ![a, b, ρ] (by exact hρ0) (Or.inl hmin) (by rw [id, hcost]; exact hc0.ne)
  have hF := run_first_bad (gn_memoryless (so := so) (L := LA) hdet hk w) (C := fun x => (buildSystem so P w (sizedState P 3) x).2.1.cost.cost)
    (D := fun x => gnSolve so LA (P.dims == some 1) (buildSystem so P w (sizedState P 3) x).2.1)
    (fun x s h => by rw [h.1]; exact ⟨rfl, rfl⟩) (fun a => by simp) hmi (hV.dyn x0) hsz (d := ⟨3, v⟩) (by rw [hb0]; exact h1)
    (by
      show P.plusEq (P.plusEq x0 ⟨3, v⟩) ⟨3, negVec v⟩ = x0
      rw [hV.plus, hV.plus]
      funext i; simp [negVec])
    (by
      show lt (sub (buildSystem so P w (sizedState P 3) (P.plusEq x0 ⟨3, v⟩)).2.1.cost.cost _) _ = false
      rw [hplus, hb0, hb1]
      simp only [hc, hc1, id, circleR_cost]
      have h3 : nCost so m (circleCost p (x0 0) (x0 1) (x0 2 ^ 2)) ≤ nCost so m (circleCost p (![a, b, ρ] 0) (![a, b, ρ] 1) (![a, b, ρ] 2 ^ 2)) := hle
      simpa using h3) hr
  have hplus' : (gnEnv so LA P).plusEq x0 ⟨3, v⟩ = ![a, b, ρ] := hplus
  rw [hplus'] at hF
  exact ⟨hF.succ, hF.rows, hF.x⟩

end

/-- four points of the circle of tests/circle.cpp: centre `(2, 7)`, radius `2` -/
def cross27 : Fin 4 → Fin 2 → ℝ := ![![4, 7], ![0, 7], ![2, 9], ![2, 5]]

/-- hypotheses of `C96_far`: this circle and the start of the documentation and of the test, centre `(0, 0)` and radius `1`; the step leads to the radius `-24` -/
example : ADProblem (adProbV (circleExpr cross27)) (circleExpr cross27) ∧ VecParams (adProbV (circleExpr cross27)) ∧ NotCollinear cross27 ∧ BestCircle cross27 2 7 4 ∧
    ((-24 : ℝ) = (1 ^ 2 + 4 - (2 - 0) ^ 2 - (7 - 0) ^ 2) / (2 * 1)) ∧ circleCost cross27 0 0 (1 ^ 2) ≤ circleCost cross27 2 7 ((-24) ^ 2) ∧
    nCost soptsR 4 (circleCost cross27 2 7 ((-24) ^ 2)) < maxVal := by
  have hc : ∀ a b s, circleCost cross27 a b s = ((4 - a) ^ 2 + (7 - b) ^ 2 - s) ^ 2 + (a ^ 2 + (7 - b) ^ 2 - s) ^ 2 + ((2 - a) ^ 2 + (9 - b) ^ 2 - s) ^ 2 + ((2 - a) ^ 2 + (5 - b) ^ 2 - s) ^ 2 := by
    intro a b s
    simp [circleCost, dist2, cross27, Fin.sum_univ_four]
  refine ⟨adProbV_ad _, adProbV_vec _, fun a b c h => ?_, fun a b s => ?_, by norm_num, by rw [hc, hc]; norm_num, ?_⟩
  · have h0 := h 0
    have h1 := h 1
    have h2 := h 2
    have h3 := h 3
    simp [cross27] at h0 h1 h2 h3
    refine ⟨by linarith, by linarith, by linarith⟩
  · rw [hc, hc]
    norm_num
    positivity
  · rw [hc]
    refine lt_of_le_of_lt (b := 1308736) ?_ (lt_of_lt_of_le (by norm_num : (1308736 : ℝ) < 2 ^ 30) (pow_le_pow_right₀ (by norm_num) (by norm_num)))
    simp [nCost, normalizeCost, soptsR]
    norm_num

/-- hypotheses of `C96_gradient`: the four points of the unit circle, `κ = 2` -/
example (u v c : ℝ) : 2 * (u ^ 2 + v ^ 2 + c ^ 2) ≤ ∑ i, (u * cross i 0 + v * cross i 1 + c) ^ 2 := by
  simp [cross, Fin.sum_univ_four]
  nlinarith [sq_nonneg c]

/-- hypothesis of `C96_minima`: the best circle is a local minimum, with either sign of the radius -/
example (x : RVec 3) (h0 : x 0 = 0) (h1 : x 1 = 0) (h2 : x 2 ^ 2 = 1) : IsLocalMin (fun y : RVec 3 => ∑ i, (circleExpr cross i).value y ^ 2) x := by
  refine Filter.Eventually.of_forall fun y => ?_
  show ∑ i, (circleExpr cross i).value x ^ 2 ≤ ∑ i, (circleExpr cross i).value y ^ 2
  have : ∑ i, (circleExpr cross i).value x ^ 2 = circleCost cross (x 0) (x 1) (x 2 ^ 2) := Finset.sum_congr rfl fun i _ => by rw [(circleExpr_dom x i).2]; rfl
  rw [this, h0, h1, h2, cross_cost]
  norm_num
  positivity

end Verif
