import Verif.Model.NestedJet
import Verif.Props.JetProps
import Mathlib.Analysis.Calculus.FDeriv.Symmetric
/-!
# C106: jets of jets carry the higher derivatives
-/

namespace Verif
namespace Loss

open Classical Filter Topology

/-! ### The mathematical meaning -/

/-- the value of an expression -/
noncomputable def NExpr.value {m : Nat} : NExpr m → RVec m → ℝ
  | .var i, x => x i
  | .const c, _ => c
  | .neg e, x => -e.value x
  | .add e e', x => e.value x + e'.value x
  | .sub e e', x => e.value x - e'.value x
  | .mul e e', x => e.value x * e'.value x
  | .div e e', x => e.value x / e'.value x
  | .fn o e, x => fn1 o.op (e.value x)
  | .bin o e e', x => fn2 o.op (e.value x) (e'.value x)

/-- the points where the function is smooth -/
def Fn.dom : Fn → ℝ → Prop
  | .powC p, a => 0 < a ∨ (a ≠ 0 ∧ ∃ k : ℤ, p = k)
  | o, a => dom1 o.op a

/-- every operation is applied inside its domain -/
def NExpr.InDom {m : Nat} (x : RVec m) : NExpr m → Prop
  | .var _ => True
  | .const _ => True
  | .neg e => e.InDom x
  | .add e e' => e.InDom x ∧ e'.InDom x
  | .sub e e' => e.InDom x ∧ e'.InDom x
  | .mul e e' => e.InDom x ∧ e'.InDom x
  | .div e e' => e.InDom x ∧ e'.InDom x ∧ e'.value x ≠ 0
  | .fn o e => e.InDom x ∧ o.dom (e.value x)
  | .bin o e e' => e.InDom x ∧ e'.InDom x ∧ dom2 o.op (e.value x) (e'.value x)

/-- the partial derivative with respect to a coordinate -/
noncomputable def partialD {n : Nat} (i : Fin n) (f : RVec n → ℝ) : RVec n → ℝ := fun y => fderiv ℝ f y (Pi.single i 1)

/-- repeated partial derivatives, the first index first -/
noncomputable def partials {n : Nat} (is : List (Fin n)) (f : RVec n → ℝ) : RVec n → ℝ := is.foldl (fun f i => partialD i f) f

/-! ### The functions -/

theorem Fn.dom_dom1 {o : Fn} {a : ℝ} (h : o.dom a) : dom1 o.op a := by
  cases o with
  | powC p => rcases h with h | h; exacts [Or.inl h, Or.inr (Or.inl h)]
  | _ => exact h

theorem Fn.dom_open {o : Fn} {a : ℝ} (h : o.dom a) : ∀ᶠ t in 𝓝 a, o.dom t := by
  cases o with
  | log => exact eventually_gt_nhds h
  | log10 => exact eventually_gt_nhds h
  | log2 => exact eventually_gt_nhds h
  | log1p => exact eventually_gt_nhds h
  | sqrt => exact eventually_gt_nhds h
  | acos => exact (eventually_gt_nhds h.1).and (eventually_lt_nhds h.2)
  | asin => exact (eventually_gt_nhds h.1).and (eventually_lt_nhds h.2)
  | tan => exact Real.continuous_cos.continuousAt.eventually_ne h
  | cbrt => exact eventually_ne_nhds h
  | powC p =>
    rcases h with h | ⟨h, hk⟩
    · exact (eventually_gt_nhds h).mono fun t ht => Or.inl ht
    · exact (eventually_ne_nhds h).mono fun t ht => Or.inr ⟨ht, hk⟩
  | _ => exact Eventually.of_forall fun _ => trivial

/-- the value inside the domain -/
theorem Fn.value_ok {o : Fn} {a : ℝ} (h : o.dom a) : JOps.fn o a = some (fn1 o.op a) := by
  obtain ⟨r, d, hr, -, hv, -, -⟩ := rule1_correct o.op a (Fn.dom_dom1 h)
  show (rule1 o.op a).map Rule1.val = _
  rw [hr, Option.map_some, hv]

theorem Bin.value_ok {o : Bin} {a b : ℝ} (h : dom2 o.op a b) : JOps.bin o a b = some (fn2 o.op a b) := by
  obtain ⟨r, hr, hv, -⟩ := rule2_correct o.op a b h
  show (rule2 o.op a b).map Rule2.val = _
  rw [hr, Option.map_some, hv]

theorem Bin.dom_open {o : Bin} {a b : ℝ} (h : dom2 o.op a b) : ∀ᶠ t in 𝓝 (a, b), dom2 o.op t.1 t.2 := by
  cases o with
  | hypot =>
    rcases h with h | h
    · exact (continuous_fst.continuousAt.eventually_ne h).mono fun t ht => Or.inl ht
    · exact (continuous_snd.continuousAt.eventually_ne h).mono fun t ht => Or.inr ht
  | atan2 =>
    rcases h with h | h
    · exact (continuous_snd.continuousAt.eventually (eventually_gt_nhds (show (0 : ℝ) < (a, b).2 from h))).mono fun t ht => Or.inl ht
    · exact (continuous_fst.continuousAt.eventually_ne h).mono fun t ht => Or.inr ht

theorem one_sub_sq_pos {a : ℝ} (h : -1 < a ∧ a < 1) : 0 < 1 - a * a := by nlinarith [h.1, h.2]

theorem arctan_one_pos : 0 < Real.arctan 1 := by rw [Real.arctan_one]; positivity

theorem cbrt_ne_zero {a : ℝ} (h : a ≠ 0) : cbrt (a * a) ≠ 0 := (cbrt_pos (mul_self_pos.2 h)).ne'

/-- the factor is the derivative, and is computed inside the domains -/
theorem Fn.factor_ok {o : Fn} {a : ℝ} (h : o.dom a) : o.factor.InDom (fun _ => a) ∧ HasDerivAt (fn1 o.op) (o.factor.value fun _ => a) a := by
  have hd := Fn.dom_dom1 h
  obtain ⟨r, d, hr, -, -, hc, hd'⟩ := rule1_correct o.op a hd
  suffices hs : o.factor.InDom (fun _ => a) ∧ ∀ r, rule1 o.op a = some r → r.comp 1 = o.factor.value fun _ => a by
    refine ⟨hs.1, ?_⟩
    have := hs.2 r hr
    rw [hc, mul_one] at this
    exact this ▸ hd'
  have l10 : Real.log 10 ≠ 0 := (Real.log_pos (by norm_num)).ne'
  have l2 : Real.log 2 ≠ 0 := (Real.log_pos (by norm_num)).ne'
  cases o with
  | log =>
    have h : 0 < a := h
    refine ⟨⟨trivial, trivial, h.ne'⟩, ?_⟩
    rintro r hr
    simp only [Fn.op, rule1, not_le.2 h, if_false, Option.some.injEq] at hr
    subst hr; simp [factor, NExpr.value]
  | log10 =>
    have h : 0 < a := h
    refine ⟨⟨trivial, ⟨trivial, trivial, show (0 : ℝ) < 10 by norm_num⟩, mul_ne_zero h.ne' l10⟩, ?_⟩
    rintro r hr
    simp only [Fn.op, rule1, not_le.2 h, if_false, Option.some.injEq] at hr
    subst hr; simp [factor, NExpr.value, fn1, Fn.op]
  | log1p =>
    have h : -1 < a := h
    refine ⟨⟨trivial, ⟨trivial, trivial⟩, show 1 + a ≠ 0 by linarith⟩, ?_⟩
    rintro r hr
    simp only [Fn.op, rule1, not_le.2 h, if_false, Option.some.injEq] at hr
    subst hr; simp [factor, NExpr.value]
  | exp => exact ⟨⟨trivial, trivial⟩, fun r hr => by cases hr; simp [factor, NExpr.value, fn1, Fn.op]⟩
  | expm1 => exact ⟨⟨⟨trivial, trivial⟩, trivial⟩, fun r hr => by cases hr; simp [factor, NExpr.value, fn1, Fn.op]⟩
  | sqrt =>
    have h : 0 < a := h
    refine ⟨⟨trivial, ⟨trivial, trivial, h⟩, mul_ne_zero two_ne_zero (Real.sqrt_pos.2 h).ne'⟩, ?_⟩
    rintro r hr
    simp only [Fn.op, rule1, not_lt.2 h.le, h.ne', if_false, Option.some.injEq] at hr
    subst hr; simp [factor, NExpr.value, fn1, Fn.op]
  | cos => exact ⟨⟨trivial, trivial⟩, fun r hr => by cases hr; simp [factor, NExpr.value, fn1, Fn.op]⟩
  | acos =>
    have h : -1 < a ∧ a < 1 := h
    refine ⟨⟨trivial, ⟨⟨trivial, trivial, trivial⟩, one_sub_sq_pos h⟩, (Real.sqrt_pos.2 (one_sub_sq_pos h)).ne'⟩, ?_⟩
    rintro r hr
    simp only [Fn.op, rule1, not_lt.2 (abs_lt.2 h).le, (abs_lt.2 h).ne, if_false, Option.some.injEq] at hr
    subst hr; simp [factor, NExpr.value, fn1, Fn.op]
  | sin => exact ⟨⟨trivial, trivial⟩, fun r hr => by cases hr; simp [factor, NExpr.value, fn1, Fn.op]⟩
  | asin =>
    have h : -1 < a ∧ a < 1 := h
    refine ⟨⟨trivial, ⟨⟨trivial, trivial, trivial⟩, one_sub_sq_pos h⟩, (Real.sqrt_pos.2 (one_sub_sq_pos h)).ne'⟩, ?_⟩
    rintro r hr
    simp only [Fn.op, rule1, not_lt.2 (abs_lt.2 h).le, (abs_lt.2 h).ne, if_false, Option.some.injEq] at hr
    subst hr; simp [factor, NExpr.value, fn1, Fn.op]
  | tan =>
    have h : Real.cos a ≠ 0 := h
    refine ⟨⟨trivial, ⟨trivial, h⟩, ⟨trivial, h⟩⟩, ?_⟩
    rintro r hr
    simp only [Fn.op, rule1, h, if_false, Option.some.injEq] at hr
    subst hr; simp [factor, NExpr.value, fn1, Fn.op]
  | atan => exact ⟨⟨trivial, ⟨trivial, trivial, trivial⟩, show 1 + a * a ≠ 0 from (by nlinarith [mul_self_nonneg a] : 0 < 1 + a * a).ne'⟩, fun r hr => by cases hr; simp [factor, NExpr.value]⟩
  | sinh => exact ⟨⟨trivial, trivial⟩, fun r hr => by cases hr; simp [factor, NExpr.value, fn1, Fn.op]⟩
  | cosh => exact ⟨⟨trivial, trivial⟩, fun r hr => by cases hr; simp [factor, NExpr.value, fn1, Fn.op]⟩
  | tanh => exact ⟨⟨trivial, ⟨trivial, trivial⟩, ⟨trivial, trivial⟩⟩, fun r hr => by cases hr; simp [factor, NExpr.value, fn1, Fn.op]⟩
  | cbrt =>
    have h : a ≠ 0 := h
    refine ⟨⟨trivial, ⟨trivial, ⟨trivial, trivial⟩, mul_self_ne_zero.2 h⟩, mul_ne_zero three_ne_zero (cbrt_ne_zero h)⟩, ?_⟩
    rintro r hr
    simp only [Fn.op, rule1, h, if_false, Option.some.injEq] at hr
    subst hr; simp [factor, NExpr.value, fn1, Fn.op]
  | exp2 => exact ⟨⟨⟨trivial, trivial⟩, trivial, show (0 : ℝ) < 2 by norm_num⟩, fun r hr => by cases hr; simp [factor, NExpr.value, fn1, Fn.op]⟩
  | log2 =>
    have h : 0 < a := h
    refine ⟨⟨trivial, ⟨trivial, trivial, show (0 : ℝ) < 2 by norm_num⟩, mul_ne_zero h.ne' l2⟩, ?_⟩
    rintro r hr
    simp only [Fn.op, rule1, not_le.2 h, if_false, Option.some.injEq] at hr
    subst hr; simp [factor, NExpr.value, fn1, Fn.op]
  | erf => exact ⟨⟨⟨⟨trivial, trivial⟩, trivial⟩, trivial, ⟨⟨trivial, trivial⟩, arctan_one_pos⟩, (Real.sqrt_pos.2 arctan_one_pos).ne'⟩, fun r hr => by cases hr; simp [factor, NExpr.value, fn1, Fn.op]⟩
  | erfc => exact ⟨⟨⟨⟨trivial, trivial⟩, trivial⟩, trivial, ⟨⟨trivial, trivial⟩, arctan_one_pos⟩, (Real.sqrt_pos.2 arctan_one_pos).ne'⟩, fun r hr => by cases hr; simp [factor, NExpr.value, fn1, Fn.op]⟩
  | norm => exact ⟨⟨trivial, trivial⟩, fun r hr => by cases hr; simp [factor, NExpr.value]⟩
  | powC p =>
    refine ⟨⟨trivial, trivial, ?_⟩, ?_⟩
    · rcases h with h | ⟨h, k, hk⟩
      · exact Or.inl h
      · exact Or.inr ⟨h, k - 1, by rw [hk]; push_cast; ring⟩
    · rintro r hr
      have h0 : a ≠ 0 := by rcases h with h | h; exacts [h.ne', h.1]
      have h1 : ¬ ((a < 0 ∧ (⌊p⌋ : ℝ) ≠ p) ∨ (a = 0 ∧ p < 0)) := by
        rintro (⟨h2, h3⟩ | ⟨h2, -⟩)
        · rcases h with h | ⟨-, k, rfl⟩
          · exact lt_asymm h h2
          · exact h3 (by rw [Int.floor_intCast])
        · exact h0 h2
      simp only [Fn.op, rule1] at hr
      rw [if_neg h1, if_neg (fun h => h0 h.1)] at hr
      simp only [Option.some.injEq] at hr
      subst hr; simp [factor, NExpr.value, fn1, Fn.op]

/-- the factors are the partial derivatives -/
theorem Bin.factor_ok {o : Bin} {a b : ℝ} (h : dom2 o.op a b) : o.factors.1.InDom ![a, b] ∧ o.factors.2.InDom ![a, b] ∧
    ∀ {n : Nat} {f g : RVec n → ℝ} {J K x : RVec n}, HasGrad f J x → HasGrad g K x → f x = a → g x = b →
      HasGrad (fun y => fn2 o.op (f y) (g y)) (fun i => o.factors.1.value ![a, b] * J i + o.factors.2.value ![a, b] * K i) x := by
  obtain ⟨r, hr, -, -, hg⟩ := rule2_correct o.op a b h
  suffices hs : (o.factors.1.InDom ![a, b] ∧ o.factors.2.InDom ![a, b]) ∧ ∀ u w, r.comp u w = o.factors.1.value ![a, b] * u + o.factors.2.value ![a, b] * w by
    refine ⟨hs.1.1, hs.1.2, fun hf hg' e1 e2 => (hg hf hg' e1 e2).congr_J ?_⟩
    funext i; exact hs.2 _ _
  cases o with
  | hypot =>
    have ht : Real.sqrt (a ^ 2 + b ^ 2) ≠ 0 := by
      refine (Real.sqrt_pos.2 ?_).ne'
      rcases h with h | h <;> positivity
    refine ⟨⟨⟨trivial, ⟨trivial, trivial, h⟩, ht⟩, ⟨trivial, ⟨trivial, trivial, h⟩, ht⟩⟩, ?_⟩
    simp only [Bin.op, rule2, ht, if_false, Option.some.injEq] at hr
    subst hr; intro u w; simp [factors, NExpr.value, fn2, Bin.op]
  | atan2 =>
    have ht : b * b + a * a ≠ 0 := by
      refine ne_of_gt ?_
      rcases h with h | h
      · have h : 0 < b := h
        nlinarith [mul_self_nonneg a, mul_pos h h]
      · have h : a ≠ 0 := h
        nlinarith [mul_self_nonneg b, mul_self_pos.2 h]
    refine ⟨⟨⟨⟨trivial, ⟨⟨trivial, trivial⟩, trivial, trivial⟩, ht⟩, trivial⟩, ⟨⟨trivial, ⟨⟨trivial, trivial⟩, trivial, trivial⟩, ht⟩, trivial⟩⟩, ?_⟩
    simp only [Bin.op, rule2, ht, if_false, Option.some.injEq] at hr
    subst hr; intro u w; simp [factors, NExpr.value]; ring

/-! ### Derivatives of all orders -/

variable {n : Nat}

/-- the jet carries the derivatives of `f` at `x` up to order `k` -/
def TowerRep (x : RVec n) : (k : Nat) → Tower n k → (RVec n → ℝ) → Prop
  | 0, (J : ℝ), f => J = f x
  | k + 1, (J : NJet (Tower n k) n), f => TowerRep x k J.a f ∧ (∀ᶠ y in 𝓝 x, DifferentiableAt ℝ f y) ∧ ∀ i, TowerRep x k (J.v i) (partialD i f)

theorem partialD_congr {f g : RVec n → ℝ} {x : RVec n} (h : f =ᶠ[𝓝 x] g) (i : Fin n) : partialD i f =ᶠ[𝓝 x] partialD i g :=
  (h.fderiv (𝕜 := ℝ)).mono fun y hy => by simp only [partialD, hy]

theorem TowerRep.congr {x : RVec n} : ∀ {k : Nat} {J : Tower n k} {f g : RVec n → ℝ}, TowerRep x k J f → f =ᶠ[𝓝 x] g → TowerRep x k J g
  | 0, J, f, g, h, e => Eq.trans h e.eq_of_nhds
  | k + 1, J, f, g, h, e => by
    refine ⟨h.1.congr e, ?_, fun i => (h.2.2 i).congr (partialD_congr e i)⟩
    filter_upwards [h.2.1, e.eventuallyEq_nhds] with y hy hy'
    exact hy'.differentiableAt_iff.1 hy

theorem rep_const (x : RVec n) : ∀ (k : Nat) (c : ℝ), TowerRep x k (JOps.const c) fun _ => c
  | 0, c => rfl
  | k + 1, c => by
    refine ⟨rep_const x k c, Eventually.of_forall fun y => differentiableAt_const _, fun i => (rep_const x k 0).congr (Eventually.of_forall fun y => ?_)⟩
    simp [partialD]

theorem TowerRep.neg {x : RVec n} : ∀ {k : Nat} {J : Tower n k} {f : RVec n → ℝ}, TowerRep x k J f → TowerRep x k (JOps.neg J) fun y => -f y
  | 0, J, f, h => congrArg (fun a : ℝ => -a) h
  | k + 1, J, f, h => by
    refine ⟨h.1.neg, h.2.1.mono fun y hy => hy.neg, fun i => (h.2.2 i).neg.congr (h.2.1.mono fun y hy => ?_)⟩
    simp [partialD, fderiv_fun_neg]

theorem TowerRep.add {x : RVec n} : ∀ {k : Nat} {J K : Tower n k} {f g : RVec n → ℝ}, TowerRep x k J f → TowerRep x k K g → TowerRep x k (JOps.add J K) fun y => f y + g y
  | 0, J, K, f, g, h, h' => congrArg₂ (fun a b : ℝ => a + b) h h'
  | k + 1, J, K, f, g, h, h' => by
    refine ⟨h.1.add h'.1, (h.2.1.and h'.2.1).mono fun y hy => hy.1.add hy.2, fun i => ((h.2.2 i).add (h'.2.2 i)).congr ((h.2.1.and h'.2.1).mono fun y hy => ?_)⟩
    simp [partialD, fderiv_fun_add hy.1 hy.2]

theorem TowerRep.sub {x : RVec n} : ∀ {k : Nat} {J K : Tower n k} {f g : RVec n → ℝ}, TowerRep x k J f → TowerRep x k K g → TowerRep x k (JOps.sub J K) fun y => f y - g y
  | 0, J, K, f, g, h, h' => congrArg₂ (fun a b : ℝ => a - b) h h'
  | k + 1, J, K, f, g, h, h' => by
    refine ⟨h.1.sub h'.1, (h.2.1.and h'.2.1).mono fun y hy => hy.1.sub hy.2, fun i => ((h.2.2 i).sub (h'.2.2 i)).congr ((h.2.1.and h'.2.1).mono fun y hy => ?_)⟩
    simp [partialD, fderiv_fun_sub hy.1 hy.2]

theorem TowerRep.mul {x : RVec n} : ∀ {k : Nat} {J K : Tower n k} {f g : RVec n → ℝ}, TowerRep x k J f → TowerRep x k K g → TowerRep x k (JOps.mul J K) fun y => f y * g y
  | 0, J, K, f, g, h, h' => congrArg₂ (fun a b : ℝ => a * b) h h'
  | k + 1, J, K, f, g, h, h' => by
    refine ⟨h.1.mul h'.1, (h.2.1.and h'.2.1).mono fun y hy => hy.1.mul hy.2, fun i => ((h.1.mul (h'.2.2 i)).add ((h.2.2 i).mul h'.1)).congr ((h.2.1.and h'.2.1).mono fun y hy => ?_)⟩
    simp [partialD, fderiv_fun_mul hy.1 hy.2]
    ring

theorem TowerRep.div {x : RVec n} : ∀ {k : Nat} {J K : Tower n k} {f g : RVec n → ℝ}, TowerRep x k J f → TowerRep x k K g → g x ≠ 0 → ∃ Q, JOps.div J K = some Q ∧ TowerRep x k Q fun y => f y / g y
  | 0, J, K, f, g, h, h', h0 => by
    have h : J = f x := h
    have h' : K = g x := h'
    refine ⟨(f x / g x : ℝ), ?_, rfl⟩
    rw [h, h']
    exact if_neg h0
  | k + 1, J, K, f, g, h, h', h0 => by
    obtain ⟨I, hI, hI'⟩ := TowerRep.div (rep_const x k 1) h'.1 h0
    have hc : ∀ᶠ y in 𝓝 x, g y ≠ 0 := h'.2.1.self_of_nhds.continuousAt.eventually_ne h0
    have hq : TowerRep x k (JOps.mul J.a I) fun y => f y / g y := (h.1.mul hI').congr (Eventually.of_forall fun y => by ring)
    refine ⟨(⟨JOps.mul J.a I, fun i => JOps.mul (JOps.sub (J.v i) (JOps.mul (JOps.mul J.a I) (K.v i))) I⟩ : NJet (Tower n k) n), ?_, hq, ?_, fun i => ?_⟩
    · show Option.map _ (JOps.div (JOps.const 1) K.a) = _
      rw [hI]; rfl
    · filter_upwards [h.2.1, h'.2.1, hc] with y h1 h2 h3 using (h1.hasFDerivAt.mul ((hasDerivAt_inv h3).comp_hasFDerivAt y h2.hasFDerivAt)).differentiableAt
    · refine (((h.2.2 i).sub (hq.mul (h'.2.2 i))).mul hI').congr ?_
      filter_upwards [h.2.1, h'.2.1, hc] with y h1 h2 h3
      have := (h1.hasFDerivAt.mul ((hasDerivAt_inv h3).comp_hasFDerivAt y h2.hasFDerivAt)).fderiv
      have e : fderiv ℝ (fun y => f y / g y) y = fderiv ℝ (f * (Inv.inv ∘ g)) y := by
        congr 1
      simp only [partialD]
      rw [e, this]
      simp
      field_simp
      ring

/-- functions at one level -/
def Closed (x : RVec n) (k : Nat) : Prop :=
  (∀ (o : Fn) (J : Tower n k) (f : RVec n → ℝ), TowerRep x k J f → o.dom (f x) → ∃ Q, JOps.fn o J = some Q ∧ TowerRep x k Q fun y => fn1 o.op (f y)) ∧
  ∀ (o : Bin) (J K : Tower n k) (f g : RVec n → ℝ), TowerRep x k J f → TowerRep x k K g → dom2 o.op (f x) (g x) → ∃ Q, JOps.bin o J K = some Q ∧ TowerRep x k Q fun y => fn2 o.op (f y) (g y)

theorem eval_rep {x : RVec n} {k : Nat} (hc : Closed x k) {m : Nat} {env : Fin m → Tower n k} {g : Fin m → RVec n → ℝ} (hg : ∀ j, TowerRep x k (env j) (g j)) :
    ∀ e : NExpr m, e.InDom (fun j => g j x) → ∃ J, e.eval env = some J ∧ TowerRep x k J fun y => e.value fun j => g j y
  | .var i, _ => ⟨_, rfl, hg i⟩
  | .const c, _ => ⟨_, rfl, rep_const x k c⟩
  | .neg e, h => by
    obtain ⟨J, h1, h2⟩ := eval_rep hc hg e h
    exact ⟨_, by rw [NExpr.eval, h1, Option.map_some], h2.neg⟩
  | .add e e', h => by
    obtain ⟨J, h1, h2⟩ := eval_rep hc hg e h.1
    obtain ⟨J', h1', h2'⟩ := eval_rep hc hg e' h.2
    exact ⟨_, by rw [NExpr.eval, h1, h1', Option.bind_some, Option.map_some], h2.add h2'⟩
  | .sub e e', h => by
    obtain ⟨J, h1, h2⟩ := eval_rep hc hg e h.1
    obtain ⟨J', h1', h2'⟩ := eval_rep hc hg e' h.2
    exact ⟨_, by rw [NExpr.eval, h1, h1', Option.bind_some, Option.map_some], h2.sub h2'⟩
  | .mul e e', h => by
    obtain ⟨J, h1, h2⟩ := eval_rep hc hg e h.1
    obtain ⟨J', h1', h2'⟩ := eval_rep hc hg e' h.2
    exact ⟨_, by rw [NExpr.eval, h1, h1', Option.bind_some, Option.map_some], h2.mul h2'⟩
  | .div e e', h => by
    obtain ⟨J, h1, h2⟩ := eval_rep hc hg e h.1
    obtain ⟨J', h1', h2'⟩ := eval_rep hc hg e' h.2.1
    obtain ⟨Q, h3, h4⟩ := h2.div h2' h.2.2
    exact ⟨Q, by rw [NExpr.eval, h1, h1', Option.bind_some, Option.bind_some, h3], h4⟩
  | .fn o e, h => by
    obtain ⟨J, h1, h2⟩ := eval_rep hc hg e h.1
    obtain ⟨Q, h3, h4⟩ := hc.1 o J _ h2 h.2
    exact ⟨Q, by rw [NExpr.eval, h1, Option.bind_some, h3], h4⟩
  | .bin o e e', h => by
    obtain ⟨J, h1, h2⟩ := eval_rep hc hg e h.1
    obtain ⟨J', h1', h2'⟩ := eval_rep hc hg e' h.2.1
    obtain ⟨Q, h3, h4⟩ := hc.2 o J J' _ _ h2 h2' h.2.2
    exact ⟨Q, by rw [NExpr.eval, h1, h1', Option.bind_some, Option.bind_some, h3], h4⟩

theorem hasGrad_partialD {f : RVec n → ℝ} {y : RVec n} (h : DifferentiableAt ℝ f y) : HasGrad f (fun i => partialD i f y) y := by
  have e : fderiv ℝ f y = rowCLM fun i => partialD i f y := by
    ext v
    rw [rowCLM_apply]
    conv_lhs => rw [pi_eq_sum_univ' v]
    rw [map_sum]
    simp only [map_smul, smul_eq_mul, partialD, dotProduct]
    refine Finset.sum_congr rfl fun i _ => ?_
    rw [mul_comm]
  show HasFDerivAt f _ y
  rw [← e]; exact h.hasFDerivAt

theorem HasGrad.partialD_eq {f : RVec n → ℝ} {J y : RVec n} (h : HasGrad f J y) (i : Fin n) : partialD i f y = J i := by
  have := h.unique (hasGrad_partialD (HasFDerivAt.differentiableAt h))
  exact (congrFun this i).symm

theorem closed (x : RVec n) : ∀ k, Closed x k
  | 0 => by
    constructor
    · intro o J f h hd
      have h : J = f x := h
      subst h
      exact ⟨_, Fn.value_ok hd, rfl⟩
    · intro o J K f g h h' hd
      have h : J = f x := h
      have h' : K = g x := h'
      subst h; subst h'
      exact ⟨_, Bin.value_ok hd, rfl⟩
  | k + 1 => by
    have ih := closed x k
    constructor
    · intro o J f h hd
      obtain ⟨A, hA, hA'⟩ := ih.1 o J.a f h.1 hd
      obtain ⟨D, hD, hD'⟩ := eval_rep ih (env := fun _ : Fin 1 => J.a) (g := fun _ => f) (fun _ => h.1) o.factor (Fn.factor_ok hd).1
      refine ⟨(⟨A, fun i => JOps.mul D (J.v i)⟩ : NJet (Tower n k) n), ?_, hA', ?_, fun i => ?_⟩
      · show Option.bind (JOps.fn o J.a) _ = _
        rw [hA, Option.bind_some, hD]; rfl
      · filter_upwards [h.2.1, h.2.1.self_of_nhds.continuousAt.eventually (Fn.dom_open hd)] with y h1 h2
        exact (Fn.factor_ok h2).2.differentiableAt.comp y h1
      · refine (hD'.mul (h.2.2 i)).congr ?_
        filter_upwards [h.2.1, h.2.1.self_of_nhds.continuousAt.eventually (Fn.dom_open hd)] with y h1 h2
        have := ((hasGrad_partialD h1).comp_deriv (Fn.factor_ok h2).2).partialD_eq i
        exact this.symm
    · intro o J K f g h h' hd
      obtain ⟨A, hA, hA'⟩ := ih.2 o J.a K.a f g h.1 h'.1 hd
      have he : ∀ j : Fin 2, TowerRep x k (![J.a, K.a] j) (![f, g] j) := by
        intro j; fin_cases j; exacts [h.1, h'.1]
      have ee : ∀ y, (fun j : Fin 2 => (![f, g] j : RVec n → ℝ) y) = ![f y, g y] := by
        intro y; funext j; fin_cases j <;> rfl
      obtain ⟨D, hD, hD'⟩ := eval_rep ih he o.factors.1 (by rw [ee]; exact (Bin.factor_ok hd).1)
      obtain ⟨D', hE, hE'⟩ := eval_rep ih he o.factors.2 (by rw [ee]; exact (Bin.factor_ok hd).2.1)
      have ho : ∀ᶠ y in 𝓝 x, dom2 o.op (f y) (g y) :=
        (h.2.1.self_of_nhds.continuousAt.prodMk h'.2.1.self_of_nhds.continuousAt).eventually (Bin.dom_open hd)
      refine ⟨(⟨A, fun i => JOps.add (JOps.mul D (J.v i)) (JOps.mul D' (K.v i))⟩ : NJet (Tower n k) n), ?_, hA', ?_, fun i => ?_⟩
      · show Option.bind (JOps.bin o J.a K.a) _ = _
        rw [hA, Option.bind_some, hD, Option.bind_some, hE]; rfl
      · filter_upwards [h.2.1, h'.2.1, ho] with y h1 h2 h3
        exact HasFDerivAt.differentiableAt ((Bin.factor_ok h3).2.2 (hasGrad_partialD h1) (hasGrad_partialD h2) rfl rfl)
      · refine ((hD'.mul (h.2.2 i)).add (hE'.mul (h'.2.2 i))).congr ?_
        filter_upwards [h.2.1, h'.2.1, ho] with y h1 h2 h3
        have := ((Bin.factor_ok h3).2.2 (hasGrad_partialD h1) (hasGrad_partialD h2) rfl rfl).partialD_eq i
        simp only [ee]
        exact this.symm

theorem rep_seed (x : RVec n) : ∀ (k : Nat) (i : Fin n), TowerRep x k (Tower.seed x k i) fun y => y i
  | 0, i => rfl
  | k + 1, i => by
    refine ⟨rep_seed x k i, Eventually.of_forall fun y => differentiableAt_apply i y, fun j => (rep_const x k _).congr (Eventually.of_forall fun y => ?_)⟩
    have : fderiv ℝ (fun y : RVec n => y i) y = ContinuousLinearMap.proj i := (ContinuousLinearMap.proj (R := ℝ) (φ := fun _ : Fin n => ℝ) i).fderiv
    simp only [partialD, this, ContinuousLinearMap.proj_apply, Pi.single_apply, eq_comm]

/-- **C106**: code run on jets of jets of … (`k` times) inside the domains of its operations gives every partial derivative up to order `k`: the coefficient reached by taking `.a` or `.v[i]` at each
level is the derivative with respect to the indices taken. -/
theorem C106_derivatives (e : NExpr n) (x : RVec n) (h : e.InDom x) (k : Nat) :
    ∃ J, e.eval (Tower.seed x k) = some J ∧ ∀ p : List (Option (Fin n)), p.length ≤ k → Tower.coeff k J p = partials (p.filterMap id) e.value x := by
  obtain ⟨J, h1, h2⟩ := eval_rep (closed x k) (rep_seed x k) e h
  refine ⟨J, h1, ?_⟩
  have key : ∀ (k : Nat) (J : Tower n k) (f : RVec n → ℝ), TowerRep x k J f → ∀ p : List (Option (Fin n)), p.length ≤ k → Tower.coeff k J p = partials (p.filterMap id) f x := by
    intro k
    induction k with
    | zero =>
      intro J f hr p hp
      obtain rfl : p = [] := List.length_eq_zero_iff.1 (Nat.le_zero.1 hp)
      exact hr
    | succ k ih =>
      intro J f hr p hp
      match p, hp with
      | [], _ => exact ih J.a f hr.1 [] (Nat.zero_le _)
      | none :: p, hp => exact ih J.a f hr.1 p (Nat.le_of_succ_le_succ hp)
      | some i :: p, hp => exact ih (J.v i) _ (hr.2.2 i) p (Nat.le_of_succ_le_succ hp)
  exact key k J _ h2

/-! ### The order of the indices does not matter -/

/-- derivatives of all orders exist -/
def SmoothAt (f : RVec n → ℝ) (x : RVec n) : Prop := ∀ k, ∃ J, TowerRep x k J f

theorem SmoothAt.partialD {f : RVec n → ℝ} {x : RVec n} (h : SmoothAt f x) (i : Fin n) : SmoothAt (partialD i f) x := fun k => by
  obtain ⟨J, hJ⟩ := h (k + 1)
  exact ⟨_, hJ.2.2 i⟩

theorem SmoothAt.symm {f : RVec n → ℝ} {x : RVec n} (h : SmoothAt f x) (i j : Fin n) : Loss.partialD j (Loss.partialD i f) x = Loss.partialD i (Loss.partialD j f) x := by
  obtain ⟨J, hJ⟩ := h 2
  have h1 : ∀ᶠ y in 𝓝 x, HasFDerivAt f (rowCLM fun i => Loss.partialD i f y) y := hJ.2.1.mono fun y hy => hasGrad_partialD hy
  have hl : ∀ w : RVec n, rowCLM w = (∑ i, w i • ContinuousLinearMap.proj (R := ℝ) (φ := fun _ : Fin n => ℝ) i) := fun w => rfl
  have h2 : HasFDerivAt (fun y => rowCLM fun i => Loss.partialD i f y)
      (∑ i, (fderiv ℝ (Loss.partialD i f) x).smulRight (ContinuousLinearMap.proj (R := ℝ) (φ := fun _ : Fin n => ℝ) i)) x := by
    simp only [hl]
    refine HasFDerivAt.fun_sum fun i _ => ?_
    have hd : DifferentiableAt ℝ (Loss.partialD i f) x := (hJ.2.2 i).2.1.self_of_nhds
    exact hd.hasFDerivAt.smul_const (ContinuousLinearMap.proj (R := ℝ) (φ := fun _ : Fin n => ℝ) i)
  have := second_derivative_symmetric_of_eventually h1 h2 (Pi.single j 1) (Pi.single i 1)
  simpa [_root_.sum_apply, Pi.single_apply, Loss.partialD] using this

theorem NExpr.inDom_open (e : NExpr n) {x : RVec n} (h : e.InDom x) : ∀ᶠ y in 𝓝 x, e.InDom y := by
  have hcont : ∀ e : NExpr n, e.InDom x → ContinuousAt e.value x := fun e h => by
    obtain ⟨J, -, h2⟩ := eval_rep (closed x 1) (rep_seed x 1) e h
    exact h2.2.1.self_of_nhds.continuousAt
  induction e with
  | var i => exact Eventually.of_forall fun _ => trivial
  | const c => exact Eventually.of_forall fun _ => trivial
  | neg e ih => exact ih h
  | add e e' ih ih' => exact (ih h.1).and (ih' h.2)
  | sub e e' ih ih' => exact (ih h.1).and (ih' h.2)
  | mul e e' ih ih' => exact (ih h.1).and (ih' h.2)
  | div e e' ih ih' => exact (ih h.1).and ((ih' h.2.1).and ((hcont e' h.2.1).eventually_ne h.2.2))
  | fn o e ih => exact (ih h.1).and ((hcont e h.1).eventually (Fn.dom_open h.2))
  | bin o e e' ih ih' => exact (ih h.1).and ((ih' h.2.1).and (((hcont e h.1).prodMk (hcont e' h.2.1)).eventually (Bin.dom_open h.2.2)))

theorem NExpr.smooth (e : NExpr n) {x : RVec n} (h : e.InDom x) : SmoothAt e.value x := fun k => by
  obtain ⟨J, -, h2⟩ := eval_rep (closed x k) (rep_seed x k) e h
  exact ⟨J, h2⟩

theorem partials_congr {x : RVec n} (is : List (Fin n)) {f g : RVec n → ℝ} (h : f =ᶠ[𝓝 x] g) : partials is f =ᶠ[𝓝 x] partials is g := by
  induction is generalizing f g with
  | nil => exact h
  | cons i is ih => exact ih (partialD_congr h i)

theorem partials_perm {x : RVec n} {is js : List (Fin n)} (h : is.Perm js) {f : RVec n → ℝ} (hf : ∀ᶠ y in 𝓝 x, SmoothAt f y) : partials is f =ᶠ[𝓝 x] partials js f := by
  induction h generalizing f with
  | nil => exact EventuallyEq.rfl
  | cons i _ ih => exact ih (hf.mono fun y hy => hy.partialD i)
  | swap i j is => exact partials_congr is (hf.mono fun y hy => hy.symm j i)
  | trans _ _ ih ih' => exact (ih hf).trans (ih' hf)

/-- **C106**: in whatever order, and at whatever levels, the indices are taken, the coefficient is the same: second derivatives form a symmetric matrix, … -/
theorem C106_symmetric (e : NExpr n) (x : RVec n) (h : e.InDom x) (k : Nat) (J : Tower n k) (hJ : e.eval (Tower.seed x k) = some J) (p q : List (Option (Fin n))) (hp : p.length ≤ k) (hq : q.length ≤ k)
    (hpq : (p.filterMap id).Perm (q.filterMap id)) : Tower.coeff k J p = Tower.coeff k J q := by
  obtain ⟨J', h1, h2⟩ := C106_derivatives e x h k
  obtain rfl : J' = J := Option.some.inj (h1.symm.trans hJ)
  rw [h2 p hp, h2 q hq]
  exact (partials_perm hpq ((NExpr.inDom_open e h).mono fun y hy => e.smooth hy)).eq_of_nhds

/-- **C106**, second order: jets of jets give the value, the gradient (twice) and the Hessian matrix: the Jacobian of the gradient, and symmetric. -/
theorem C106_hessian (e : NExpr n) (x : RVec n) (h : e.InDom x) :
    ∃ J : NJet (NJet ℝ n) n, e.eval (T := NJet (NJet ℝ n) n) (fun i => ⟨⟨x i, fun j => if j = i then 1 else 0⟩, fun j => ⟨if j = i then 1 else 0, fun _ => 0⟩⟩) = some J ∧
      J.a.a = e.value x ∧ HasGrad e.value J.a.v x ∧ (∀ i, (J.v i).a = J.a.v i) ∧
      (∀ i, HasGrad (fun y => fderiv ℝ e.value y (Pi.single i 1)) (J.v i).v x) ∧ ∀ i j, (J.v i).v j = (J.v j).v i := by
  obtain ⟨J, h1, h2⟩ := eval_rep (closed x 2) (rep_seed x 2) e h
  have hg := hasGrad_partialD h2.2.1.self_of_nhds
  have ha : ∀ i, J.a.v i = partialD i e.value x := fun i => h2.1.2.2 i
  have hb : ∀ i, (J.v i).a = partialD i e.value x := fun i => (h2.2.2 i).1
  have hc : ∀ i j, (J.v i).v j = partialD j (partialD i e.value) x := fun i j => (h2.2.2 i).2.2 j
  refine ⟨J, ?_, h2.1.1, ?_, fun i => by rw [ha, hb], fun i => ?_, fun i j => ?_⟩
  · exact h1
  · exact hg.congr_J (funext fun i => (ha i).symm)
  · exact (hasGrad_partialD (h2.2.2 i).2.1.self_of_nhds).congr_J (funext fun j => (hc i j).symm)
  · rw [hc, hc]; exact (e.smooth h).symm i j

/-! ### The same jets as in C36 -/

/-- at one level the operations are those of `Model/Jet` -/
theorem njet_fn (o : Fn) (f : NJet ℝ n) (h : o.dom f.a) : ∃ J : NJet ℝ n, JOps.fn o f = some J ∧ SJet.op1 o.op ⟨f.a, f.v⟩ = .ok ⟨J.a, J.v⟩ := by
  obtain ⟨r, d, hr, hn, hv, hc, hd⟩ := rule1_correct o.op f.a (Fn.dom_dom1 h)
  obtain ⟨h1, h2⟩ := Fn.factor_ok h
  have e := hd.unique h2
  obtain ⟨D, hD, hD'⟩ := eval_rep (closed (n := n) 0 0) (env := fun _ : Fin 1 => f.a) (g := fun _ _ => f.a) (fun _ => rfl) o.factor h1
  have hD' : D = o.factor.value fun _ => f.a := hD'
  refine ⟨⟨fn1 o.op f.a, fun i => (o.factor.value fun _ => f.a) * f.v i⟩, ?_, ?_⟩
  · show Option.bind (JOps.fn o f.a) _ = _
    rw [Fn.value_ok h, Option.bind_some]
    have hD : o.factor.eval (fun _ => f.a) = some (o.factor.value fun _ => f.a) := hD' ▸ hD
    rw [hD]; rfl
  · unfold SJet.op1
    rw [hr]
    simp only [hn, exists_false, if_false, hv, hc, e]

/-! ### Examples -/

/-- `exp(x y) / hypot(x, y) + pow(x, 3)` -/
noncomputable def sampleE : NExpr 2 :=
  .add (.div (.fn .exp (.mul (.var 0) (.var 1))) (.bin .hypot (.var 0) (.var 1))) (.fn (.powC 3) (.var 0))

example : sampleE.InDom ![-2, 1] := by
  refine ⟨⟨⟨⟨trivial, trivial⟩, trivial⟩, ⟨trivial, trivial, Or.inl ?_⟩, ?_⟩, trivial, Or.inr ⟨?_, 3, by norm_num⟩⟩
  · simp [NExpr.value]
  · simp only [NExpr.value, fn2, Bin.op, ne_eq]
    exact (Real.sqrt_pos.2 (by simp; norm_num)).ne'
  · simp [NExpr.value]

/-- the second derivative of `x * x * y` with respect to both, at the point `(3, 5)` -/
example : ∃ J : NJet (NJet ℝ 2) 2, NExpr.eval (T := NJet (NJet ℝ 2) 2) (fun i => ⟨⟨![3, 5] i, fun j => if j = i then 1 else 0⟩, fun j => ⟨if j = i then 1 else 0, fun _ => 0⟩⟩)
    (.mul (.mul (.var 0) (.var 0)) (.var 1)) = some J ∧ J.a.a = 45 ∧ (J.v 0).a = 30 ∧ (J.v 0).v 1 = 6 ∧ (J.v 0).v 0 = 10 := by
  refine ⟨_, rfl, ?_, ?_, ?_, ?_⟩ <;> simp [JOps.mul, JOps.add] <;> norm_num

end Loss
end Verif
