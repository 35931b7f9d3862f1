import Verif.Model.NormsFl
import Verif.Lemmas.SqrtSquare
import Verif.Lemmas.MixedFl
import Verif.Props.RobustFloat
import Verif.Props.Norms
import Verif.Props.SoftmaxFloat
/-!
# C127: norms and distances in floating point
-/

namespace Verif.Loss
open FloatOps

/-! ## The same code as in exact arithmetic -/

theorem absF_real' (a : ℝ) : absF a = |a| := by
  unfold absF
  simp only [RealOps.lt_eq, RealOps.ofInt_eq, RealOps.neg_eq, Int.cast_zero]
  split
  · rw [abs_of_neg (by assumption)]
  · rw [abs_of_nonneg (by linarith)]

theorem sum_real {n : ℕ} (v : Fin n → ℝ) (t : SumTree n) : t.sum v = (t.leaves.map v).sum := by
  induction t with
  | leaf i => simp [SumTree.sum, SumTree.leaves]
  | node l r hl hr => simp [SumTree.sum, SumTree.leaves, hl, hr]

theorem sum_perm {n : ℕ} (v : Fin n → ℝ) {t : SumTree n} (ht : t.leaves.Perm (List.finRange n)) : t.sum v = ∑ i, v i := by
  rw [sum_real, (ht.map v).sum_eq, ← List.ofFn_eq_map, List.sum_ofFn]

/-- **C127, the model.** On real numbers, in any order of summation, these are the norms of C43. -/
theorem C127_same {n : ℕ} {t : SumTree n} (ht : t.leaves.Perm (List.finRange n)) (x : RVec n) (ep : ℝ) :
    sqL2F t x = sqL2 x ∧ l2F t x = l2 x ∧ l1F t x = l1 x ∧ l2JF ep t x = l2J ep x := by
  have h1 : sqL2F t x = sqL2 x := by
    unfold sqL2F sqL2
    rw [sum_perm _ ht]
    rfl
  have h2 : l2F t x = l2 x := by
    unfold l2F
    rw [h1]
    rfl
  refine ⟨h1, h2, ?_, ?_⟩
  · unfold l1F l1
    rw [sum_perm _ ht]
    exact Finset.sum_congr rfl fun i _ => absF_real' _
  · unfold l2JF l2J
    funext i
    simp only [h2, RealOps.lt_eq, RealOps.div_eq, gt_iff_lt]
    split <;> rfl

theorem maxCoeff_real : ∀ {n : ℕ} (x : Fin (n + 1) → ℝ), ∃ j, maxCoeffF x = x j ∧ ∀ i, x i ≤ x j
  | 0, x => ⟨0, rfl, fun i => (congrArg x (Fin.fin_one_eq_zero i)).le⟩
  | n + 1, x => by
    obtain ⟨j, hj, hle⟩ := maxCoeff_real fun i => x i.castSucc
    unfold maxCoeffF
    simp only [hj, RealOps.lt_eq]
    split
    next h =>
      refine ⟨_, rfl, fun i => ?_⟩
      refine Fin.lastCases le_rfl (fun i => ?_) i
      exact (hle i).trans h.le
    next h =>
      refine ⟨_, rfl, fun i => ?_⟩
      refine Fin.lastCases (not_lt.1 h) (fun i => hle i) i

theorem C127_same_linf {n : ℕ} (x : RVec (n + 1)) : linfF x = linf x := by
  obtain ⟨j, hj, hle⟩ := maxCoeff_real fun i => absF (x i)
  unfold linfF
  rw [hj, linf_eq_norm, absF_real']
  have hle : ∀ i, |x i| ≤ |x j| := by simpa only [absF_real'] using hle
  apply le_antisymm
  · exact norm_le_pi_norm x j
  · exact (pi_norm_le_iff_of_nonneg (abs_nonneg _)).2 hle

/-! ## Numbers without NaN -/

section
variable {f : Fmt}

theorem fin_add_zero (c : Fl f) : add c (ofInt 0) = c ∧ add (ofInt 0) c = c := by
  rw [Fl.ofInt_zero]
  cases c with
  | fin q h =>
    have e : ∀ q' : ℚ, q' = q → (Fl.mk q' : Fl f) = .fin q h := by
      intro q' hq'
      subst hq'
      unfold Fl.mk Fl.ofGrid
      have := f.rnd_id q' h.1
      rw [dif_pos (by rw [this]; exact h.2)]
      simp only [this]
    exact ⟨e _ (add_zero q), e _ (zero_add q)⟩
  | _ => exact ⟨rfl, rfl⟩

theorem absF_fin {q : ℚ} {h} : ∃ h', absF (.fin q h : Fl f) = .fin |q| h' := by
  have hz : lt (.fin q h : Fl f) (ofInt 0) = decide (q < 0) := by
    rw [Fl.ofInt_zero]; rfl
  unfold absF
  rw [hz]
  by_cases hq : q < 0
  · simp only [hq, decide_true, if_true, abs_of_neg hq]
    exact ⟨⟨f.grid_neg h.1, by rw [abs_neg]; exact h.2⟩, rfl⟩
  · simp only [hq, decide_false, abs_of_nonneg (not_lt.1 hq)]
    exact ⟨⟨h.1, by have := h.2; rwa [abs_of_nonneg (not_lt.1 hq)] at this⟩, rfl⟩

theorem absF_inf : absF (.pinf : Fl f) = .pinf ∧ absF (.ninf : Fl f) = .pinf ∧ absF (.nan : Fl f) = .nan := by
  unfold absF
  rw [Fl.ofInt_zero]
  exact ⟨rfl, rfl, rfl⟩

theorem absF_nonNeg {x : Fl f} (hx : x ≠ .nan) : Fl.NonNeg (absF x) := by
  cases x with
  | nan => exact absurd rfl hx
  | pinf => rw [absF_inf.1]; trivial
  | ninf => rw [absF_inf.2.1]; trivial
  | fin q h =>
    obtain ⟨h', e⟩ := absF_fin (q := q) (h := h)
    rw [e]
    exact abs_nonneg q

theorem sq_nonNeg' {x : Fl f} (hx : x ≠ .nan) : Fl.NonNeg (mul x x) := by
  cases x with
  | nan => exact absurd rfl hx
  | pinf => trivial
  | ninf => trivial
  | fin q h => exact Fl.mk_nonNeg (mul_self_nonneg q)

theorem tree_nonNeg {n : ℕ} {v : Fin n → Fl f} : ∀ t : SumTree n, (∀ i ∈ t.leaves, Fl.NonNeg (v i)) → Fl.NonNeg (t.sum v) ∧ ∀ i ∈ t.leaves, leqF (v i) (t.sum v) = true
  | .leaf i, h => by
    have hi := h i (by simp [SumTree.leaves])
    refine ⟨hi, fun j hj => ?_⟩
    rw [List.mem_singleton.1 hj]
    exact leqF_refl (NonNeg.ne_nan hi)
  | .node l r, h => by
    obtain ⟨hl, hl'⟩ := tree_nonNeg l fun i hi => h i (List.mem_append_left _ hi)
    obtain ⟨hr, hr'⟩ := tree_nonNeg r fun i hi => h i (List.mem_append_right _ hi)
    have hz : Fl.NonNeg (ofInt 0 : Fl f) := by rw [Fl.ofInt_zero]; exact le_rfl
    obtain ⟨a1, -, -, -⟩ := add_leq hz hr hl (NonNeg.leq hr)
    obtain ⟨-, b1, -, -⟩ := add_leq hz hl hr (NonNeg.leq hl)
    rw [(fin_add_zero _).1] at a1
    rw [(fin_add_zero _).2] at b1
    obtain ⟨-, -, n1, -⟩ := add_leq hr hr hl (leqF_refl (NonNeg.ne_nan hr))
    refine ⟨n1, fun i hi => ?_⟩
    rcases List.mem_append.1 hi with hi | hi
    · exact leqF_trans (hl' i hi) a1
    · exact leqF_trans (hr' i hi) b1

theorem tree_nan {n : ℕ} {v : Fin n → Fl f} {i : Fin n} (h : v i = .nan) : ∀ t : SumTree n, i ∈ t.leaves → t.sum v = .nan
  | .leaf j, hi => by
    rw [List.mem_singleton.1 hi] at h
    exact h
  | .node l r, hi => by
    show add (l.sum v) (r.sum v) = _
    rcases List.mem_append.1 hi with hi | hi
    · rw [tree_nan h l hi]; rfl
    · rw [tree_nan h r hi]
      cases l.sum v <;> rfl

theorem maxCoeffF_leq : ∀ {n : ℕ} (x : Fin (n + 1) → Fl f), (∀ i, x i ≠ .nan) → ∃ j, maxCoeffF x = x j ∧ ∀ i, leqF (x i) (x j) = true
  | 0, x, h => ⟨0, rfl, fun i => by rw [Fin.fin_one_eq_zero i]; exact leqF_refl (h 0)⟩
  | n + 1, x, h => by
    obtain ⟨j, hj, hle⟩ := maxCoeffF_leq (fun i => x i.castSucc) fun i => h _
    unfold maxCoeffF
    simp only [hj]
    by_cases hc : lt (x j.castSucc) (x (Fin.last _)) = true
    · rw [if_pos hc]
      refine ⟨_, rfl, fun i => ?_⟩
      refine Fin.lastCases (leqF_refl (h _)) (fun i => ?_) i
      exact leqF_trans (hle i) (by unfold leqF; rw [hc]; rfl)
    · rw [if_neg hc]
      refine ⟨_, rfl, fun i => ?_⟩
      refine Fin.lastCases ?_ (fun i => hle i) i
      have h1 := h j.castSucc
      have h2 := h (Fin.last _)
      revert hc
      generalize x j.castSucc = a at h1
      generalize x (Fin.last _) = b at h2
      intro hc
      cases a <;> cases b <;> first | exact absurd rfl h1 | exact absurd rfl h2 | rfl | exact absurd rfl hc | skip
      next q hq r hr =>
        rw [leqF_fin]
        have : ¬ q < r := fun h => hc (show decide _ = true by simpa using h)
        simpa using this

/-- **C127, no NaN.** For every vector without NaN (infinities included) and every order of summation, the norms are non-negative numbers or infinite, not NaN. -/
theorem C127_never_nan {n : ℕ} (t : SumTree n) {x : Fin n → Fl f} (hx : ∀ i, x i ≠ .nan) :
    Fl.NonNeg (sqL2F t x) ∧ Fl.NonNeg (l2F t x) ∧ Fl.NonNeg (l1F t x) := by
  have h1 := (tree_nonNeg (v := fun i => mul (x i) (x i)) t fun i _ => sq_nonNeg' (hx i)).1
  exact ⟨h1, (sqrt_leq h1 h1 (leqF_refl (NonNeg.ne_nan h1))).2, (tree_nonNeg (v := fun i => absF (x i)) t fun i _ => absF_nonNeg (hx i)).1⟩

/-- **C127, NaN.** A NaN among the coefficients is not lost by `SquaredL2`, `L2` and `L1`. -/
theorem C127_nan {n : ℕ} (t : SumTree n) {x : Fin n → Fl f} {i : Fin n} (hi : i ∈ t.leaves) (h : x i = .nan) :
    sqL2F t x = .nan ∧ l2F t x = .nan ∧ l1F t x = .nan := by
  have h1 : sqL2F t x = .nan := tree_nan (v := fun i => mul (x i) (x i)) (by show mul (x i) (x i) = _; rw [h]; rfl) t hi
  refine ⟨h1, ?_, tree_nan (v := fun i => absF (x i)) (by show absF (x i) = _; rw [h]; exact absF_inf.2.2) t hi⟩
  unfold l2F
  rw [h1]
  rfl

/-- **C127, the order of the norms.** In every order of summation: `Linf` is the largest coefficient exactly, and no rounding takes `L1` below it. -/
theorem C127_order {n : ℕ} {t : SumTree (n + 1)} (ht : t.leaves.Perm (List.finRange (n + 1))) {x : Fin (n + 1) → Fl f} (hx : ∀ i, x i ≠ .nan) :
    (∃ j, linfF x = absF (x j)) ∧ (∀ i, leqF (absF (x i)) (linfF x) = true) ∧ leqF (linfF x) (l1F t x) = true := by
  obtain ⟨j, hj, hle⟩ := maxCoeffF_leq (fun i => absF (x i)) fun i => NonNeg.ne_nan (absF_nonNeg (hx i))
  refine ⟨⟨j, hj⟩, fun i => ?_, ?_⟩
  · unfold linfF; rw [hj]; exact hle i
  · unfold linfF; rw [hj]
    exact (tree_nonNeg (v := fun i => absF (x i)) t fun i _ => absF_nonNeg (hx i)).2 j (ht.mem_iff.2 (List.mem_finRange j))

/-! ## Distances -/

theorem neg_mk (q : ℚ) : neg (Fl.mk q : Fl f) = Fl.mk (-q) := by
  have e := f.rnd_neg q
  show Fl.neg (Fl.ofGrid _ _) = Fl.ofGrid _ _
  suffices H : ∀ (r r' : ℚ) (h : f.Grid r) (h' : f.Grid r'), r' = -r → Fl.neg (Fl.ofGrid r h) = Fl.ofGrid r' h' from H _ _ _ _ e
  rintro r r' h h' rfl
  unfold Fl.ofGrid
  by_cases h1 : |r| ≤ f.max
  · rw [dif_pos h1, dif_pos (by rwa [abs_neg])]; rfl
  · rw [dif_neg h1, dif_neg (by rwa [abs_neg])]
    have hr : r ≠ 0 := by rintro rfl; rw [abs_zero] at h1; exact h1 f.max_pos.le
    rcases lt_or_gt_of_ne hr with h2 | h2
    · rw [if_neg (by linarith), if_pos (by linarith)]; rfl
    · rw [if_pos h2, if_neg (by linarith)]; rfl

theorem sub_swap (a b : Fl f) : sub b a = neg (sub a b) := by
  cases a <;> cases b <;> first | rfl | skip
  next q hq r hr =>
    show Fl.mk (r - q) = neg (Fl.mk (q - r))
    rw [neg_mk, neg_sub]

theorem absF_neg (x : Fl f) : absF (neg x) = absF x := by
  cases x with
  | fin q h =>
    obtain ⟨h1, e1⟩ := absF_fin (f := f) (q := q) (h := h)
    obtain ⟨h2, e2⟩ := absF_fin (f := f) (q := -q) (h := ⟨f.grid_neg h.1, by rw [abs_neg]; exact h.2⟩)
    rw [e1]
    refine Eq.trans e2 ?_
    simp only [abs_neg]
  | pinf => exact absF_inf.2.1.trans absF_inf.1.symm
  | ninf => exact absF_inf.1.trans absF_inf.2.1.symm
  | nan => rfl

theorem sq_neg' (x : Fl f) : mul (neg x) (neg x) = mul x x := by
  cases x with
  | fin q h => show Fl.mk (-q * -q) = Fl.mk (q * q); rw [neg_mul_neg]
  | _ => rfl

/-- **C127, symmetry.** The distances are symmetric to the last bit, for all vectors, NaN and infinities included, in every order of summation. -/
theorem C127_symmetric {n : ℕ} (t : SumTree n) (a b : Fin n → Fl f) (a' b' : Fin (n + 1) → Fl f) :
    distL2F t a b = distL2F t b a ∧ distL1F t a b = distL1F t b a ∧ distLinfF a' b' = distLinfF b' a' := by
  refine ⟨?_, ?_, ?_⟩
  · unfold distL2F l2F sqL2F diffF
    congr 2
    funext i
    rw [sub_swap (a i) (b i), sq_neg']
  · unfold distL1F l1F diffF
    congr 1
    funext i
    rw [sub_swap (a i) (b i), absF_neg]
  · unfold distLinfF linfF diffF
    congr 1
    funext i
    rw [sub_swap (a' i) (b' i), absF_neg]

theorem mk_fin {q s : ℚ} {h} (e : (Fl.mk q : Fl f) = .fin s h) : s = f.rnd q := by
  unfold Fl.mk Fl.ofGrid at e
  split at e
  · cases e; rfl
  · split at e <;> cases e

theorem abs_sub_zero {a b : ℚ} {ha hb} (h : absF (sub (.fin a ha) (.fin b hb) : Fl f) = ofInt 0) : a = b := by
  by_contra hab
  have hne := f.sub_ne a b ha.1 hb.1 hab
  rw [Fl.ofInt_zero] at h
  cases hs : (sub (.fin a ha) (.fin b hb) : Fl f) with
  | nan => rw [hs, absF_inf.2.2] at h; cases h
  | pinf => rw [hs, absF_inf.1] at h; cases h
  | ninf => rw [hs, absF_inf.2.1] at h; cases h
  | fin q hq =>
    rw [hs] at h
    obtain ⟨h', e⟩ := absF_fin (f := f) (q := q) (h := hq)
    rw [e] at h
    have : |q| = 0 := by injection h
    have h2 := mk_fin (f := f) (q := a - b) hs
    rw [abs_eq_zero.1 this] at h2
    exact hne h2.symm

theorem sub_self_fin {a : Fl f} (h : finite a = true) : sub a a = ofInt 0 := by
  obtain ⟨q, hq, rfl⟩ := (Fl.finite_iff a).1 h
  show Fl.mk (q - q) = Fl.mk ((0 : ℤ) : ℚ)
  simp

theorem absF_zero : absF (ofInt 0 : Fl f) = ofInt 0 := by
  rw [Fl.ofInt_zero]
  obtain ⟨h, e⟩ := absF_fin (f := f) (q := 0) (h := ⟨f.grid_zero, by rw [abs_zero]; exact f.max_pos.le⟩)
  rw [e]
  simp only [abs_zero]

theorem leq_zero_eq {a : Fl f} (h0 : Fl.NonNeg a) (h : leqF a (ofInt 0) = true) : a = ofInt 0 := by
  rw [Fl.ofInt_zero] at *
  cases a with
  | nan => exact h0.elim
  | ninf => exact h0.elim
  | pinf => cases h
  | fin q hq =>
    rw [leqF_fin] at h
    have h1 : q ≤ 0 := by simpa using h
    have h2 : 0 ≤ q := h0
    have : q = 0 := le_antisymm h1 h2
    subst this
    rfl

theorem tree_zero {n : ℕ} (t : SumTree n) : (t.sum fun _ => (ofInt 0 : Fl f)) = ofInt 0 := by
  induction t with
  | leaf i => rfl
  | node l r hl hr =>
    show add _ _ = _
    rw [hl, hr]
    exact (fin_add_zero _).1

/-- **C127, definiteness.** For vectors of finite numbers the distances `L1` and `Linf` are zero exactly if the vectors are equal: differences and sums do not underflow. -/
theorem C127_definite {n : ℕ} {t : SumTree (n + 1)} (ht : t.leaves.Perm (List.finRange (n + 1))) {a b : Fin (n + 1) → Fl f} (ha : ∀ i, finite (a i) = true) (hb : ∀ i, finite (b i) = true) :
    (distL1F t a b = ofInt 0 ↔ a = b) ∧ (distLinfF a b = ofInt 0 ↔ a = b) := by
  have hn : ∀ i, diffF a b i ≠ .nan := by
    intro i
    obtain ⟨q, hq, e1⟩ := (Fl.finite_iff _).1 (ha i)
    obtain ⟨r, hr, e2⟩ := (Fl.finite_iff _).1 (hb i)
    unfold diffF
    rw [e1, e2]
    exact mk_ne_nan _
  have hz : ∀ i, absF (diffF a b i) = ofInt 0 → a i = b i := by
    intro i h
    obtain ⟨q, hq, e1⟩ := (Fl.finite_iff _).1 (ha i)
    obtain ⟨r, hr, e2⟩ := (Fl.finite_iff _).1 (hb i)
    unfold diffF at h
    rw [e1, e2] at h
    have := abs_sub_zero h
    subst this
    rw [e1, e2]
  have hs : a = b → ∀ i, absF (diffF a b i) = ofInt 0 := by
    rintro rfl i
    unfold diffF
    rw [sub_self_fin (ha i), absF_zero]
  obtain ⟨-, o2, o3⟩ := C127_order ht hn
  have hlinf : (∀ i, absF (diffF a b i) = ofInt 0) → distLinfF a b = ofInt 0 := by
    intro h
    obtain ⟨⟨j, hj⟩, -, -⟩ := C127_order ht hn
    unfold distLinfF
    rw [hj, h j]
  have key : ∀ i, leqF (absF (diffF a b i)) (ofInt 0) = true → absF (diffF a b i) = ofInt 0 := fun i h => leq_zero_eq (absF_nonNeg (hn i)) h
  refine ⟨⟨fun h => ?_, fun h => ?_⟩, ⟨fun h => ?_, fun h => hlinf (hs h)⟩⟩
  · funext i
    refine hz i (key i ?_)
    unfold distL1F at h
    rw [← h]
    exact leqF_trans (o2 i) o3
  · unfold distL1F l1F
    have : (fun i => absF (diffF a b i)) = fun _ => ofInt 0 := funext (hs h)
    rw [this]
    exact tree_zero t
  · funext i
    refine hz i (key i ?_)
    unfold distLinfF at h
    rw [← h]
    exact o2 i

end

/-! ## `L2`: order, Jacobian, overflow and underflow -/

section
variable {p : ℕ} {hp : p ≠ 0} {emin : ℤ} {hem : emin ≤ -emin - 2 * p + 3} {eps : ℚ}
local notation "𝔽" => Fmt.ieee p hp emin hem eps

/-- **C127, `L2` is not below its coefficients**, unless their squares underflow: in every order of summation no rounding, of the square, the sums and the root, takes it below. -/
theorem C127_l2_order {n : ℕ} (t : SumTree n) {x : Fin n → Fl 𝔽} (hx : ∀ i, x i ≠ .nan) {i : Fin n} (hi : i ∈ t.leaves) {q : ℚ} {h} (e : x i = .fin q h)
    (hq : q = 0 ∨ (2 : ℚ) ^ (emin + p) ≤ q * q) : leqF (absF (x i)) (l2F t x) = true := by
  obtain ⟨hs, hle⟩ := tree_nonNeg (v := fun i => mul (x i) (x i)) t fun i _ => sq_nonNeg' (hx i)
  have h1 := (sqrt_leq (sq_nonNeg' (hx i)) hs (hle i hi)).1
  refine leqF_trans ?_ h1
  rw [e]
  obtain ⟨h', ea⟩ := absF_fin (f := 𝔽) (q := q) (h := h)
  rw [ea]
  have gq : GridBin p emin |q| := h'.1
  have esq : |q| * |q| = q * q := abs_mul_abs_self q
  have hsq := sqrt_square (p := p) hp (emin := emin) hem eps gq (abs_nonneg q) (by rw [esq, abs_eq_zero]; exact hq)
  rw [esq] at hsq
  cases hm : (mul (.fin q h) (.fin q h) : Fl 𝔽) with
  | nan => exact absurd hm (mk_ne_nan _)
  | ninf =>
    have := sq_nonNeg' (f := 𝔽) (x := .fin q h) (by intro hc; cases hc)
    rw [hm] at this
    exact this.elim
  | pinf => exact leq_pinf (by intro hc; cases hc)
  | fin s hs' =>
    have es : s = rndBin p emin (q * q) := mk_fin (f := 𝔽) (q := q * q) hm
    have hs0 : 0 ≤ s := by rw [es]; exact rndBin_nonneg (mul_self_nonneg q)
    have h3 := hsq (by rw [← es]; exact (le_abs_self s).trans hs'.2)
    rw [← es] at h3
    show leqF _ (if s < 0 then Fl.nan else Fl.ofGrid ((𝔽).sqrtq s) ((𝔽).sqrt_grid s)) = true
    rw [if_neg (not_lt.2 hs0)]
    have : (Fl.fin |q| h' : Fl 𝔽) = Fl.ofGrid |q| h'.1 := by
      unfold Fl.ofGrid
      rw [dif_pos h'.2]
    rw [this]
    exact ofGrid_leq _ _ h3

/-- the exported Jacobian of `L2` -/
theorem l2J_bounded (h1 : GridBin p emin 1) (hm1 : 1 ≤ (𝔽).max) {e : ℚ} {he} (he0 : 0 < e) (he1 : e ≤ 1) (hlo : (2 : ℚ) ^ (emin + p) ≤ e * e) {n : ℕ} (t : SumTree n) {x : Fin n → Fl 𝔽}
    (hx : ∀ i, finite (x i) = true) {i : Fin n} (hi : i ∈ t.leaves) : ∃ q h, l2JF (.fin e he) t x i = .fin q h ∧ |q| ≤ 1 := by
  have hn : ∀ i, x i ≠ .nan := by
    intro i hc
    have := hx i
    rw [hc] at this
    cases this
  obtain ⟨q, hq, ex⟩ := (Fl.finite_iff _).1 (hx i)
  have hl := (C127_never_nan t hn).2.1
  -- a coefficient is below the norm or tiny
  have hor : leqF (absF (x i)) (l2F t x) = true ∨ |q| < e := by
    by_cases hc : (2 : ℚ) ^ (emin + p) ≤ q * q
    · exact Or.inl (C127_l2_order t hn hi ex (Or.inr hc))
    · right
      have : q * q < e * e := lt_of_lt_of_le (not_le.1 hc) hlo
      exact abs_lt_of_sq_lt_sq (by rw [sq, sq]; exact this) he0.le
  obtain ⟨h', ea⟩ := absF_fin (f := 𝔽) (q := q) (h := hq)
  rw [ex, ea] at hor
  unfold l2JF
  simp only [ex]
  cases hc : l2F t x with
  | nan => rw [hc] at hl; exact hl.elim
  | ninf => rw [hc] at hl; exact hl.elim
  | pinf =>
    rw [if_pos (show lt (.fin e he : Fl 𝔽) .pinf = true from rfl)]
    refine ⟨0, ⟨(𝔽).grid_zero, by rw [abs_zero]; exact (𝔽).max_pos.le⟩, ?_, by simp⟩
    rw [← Fl.ofInt_zero]
    show Fl.mk 0 = Fl.mk ((0 : ℤ) : ℚ)
    simp
  | fin s hs =>
    rw [hc, leqF_fin] at hor
    have hlt : lt (.fin e he : Fl 𝔽) (.fin s hs) = decide (e < s) := rfl
    rw [hlt]
    by_cases hes : e < s
    · rw [if_pos (by simpa using hes)]
      have hqs : |q| ≤ s := by
        rcases hor with h | h
        · simpa using h
        · linarith
      have hs0 : 0 < s := by linarith
      have hb : |q / s| ≤ 1 := by
        rw [abs_div, abs_of_pos hs0, div_le_one hs0]; exact hqs
      have hr : |(𝔽).rnd (q / s)| ≤ 1 := by
        obtain ⟨hb1, hb2⟩ := abs_le.1 hb
        have e1 : (𝔽).rnd 1 = 1 := (𝔽).rnd_id 1 h1
        rw [abs_le]
        constructor
        · have := (𝔽).rnd_mono _ _ hb1
          rwa [(𝔽).rnd_neg, e1] at this
        · have := (𝔽).rnd_mono _ _ hb2
          rwa [e1] at this
      refine ⟨(𝔽).rnd (q / s), ⟨(𝔽).rnd_grid _, hr.trans hm1⟩, ?_, hr⟩
      show (if s = 0 then Fl.infSign q else Fl.mk (q / s)) = _
      rw [if_neg hs0.ne']
      unfold Fl.mk Fl.ofGrid
      rw [dif_pos (hr.trans hm1)]
    · rw [if_neg (by simpa using hes)]
      refine ⟨q, hq, rfl, ?_⟩
      rcases hor with h | h
      · have : |q| ≤ s := by simpa using h
        linarith
      · linarith

/-- the rounded sum of finite numbers of the format that are not negative, in any order, if it is finite -/
theorem tree_error {n : ℕ} {v : Fin n → Fl 𝔽} {e : Fin n → ℚ} (hv : ∀ i, ∃ h, v i = .fin (e i) h) (h0 : ∀ i, 0 ≤ e i) : ∀ (t : SumTree n) {s : ℚ} {hs}, t.sum v = .fin s hs →
    (1 - 1 / 2 ^ p) ^ t.height * (t.leaves.map e).sum ≤ s ∧ s ≤ (1 + 1 / 2 ^ p) ^ t.height * (t.leaves.map e).sum
  | .leaf i, s, hs, h => by
    obtain ⟨h', he⟩ := hv i
    have : v i = .fin s hs := h
    rw [he] at this
    have es : e i = s := by injection this
    simp [SumTree.leaves, SumTree.height, es]
  | .node l r, s, hs, h => by
    have hnn : ∀ i, Fl.NonNeg (v i) := fun i => by
      obtain ⟨h', he⟩ := hv i
      rw [he]
      exact h0 i
    have hl := (tree_nonNeg l fun i _ => hnn i).1
    have hr := (tree_nonNeg r fun i _ => hnn i).1
    have h : add (l.sum v) (r.sum v) = .fin s hs := h
    cases ea : l.sum v with
    | nan => rw [ea] at hl; exact hl.elim
    | ninf => rw [ea] at hl; exact hl.elim
    | pinf => rw [ea] at h; cases eb : r.sum v <;> rw [eb] at h <;> cases h
    | fin a ha =>
      cases eb : r.sum v with
      | nan => rw [eb] at hr; exact hr.elim
      | ninf => rw [eb] at hr; exact hr.elim
      | pinf => rw [ea, eb] at h; cases h
      | fin b hb =>
        rw [ea] at hl
        rw [eb] at hr
        have ha0 : 0 ≤ a := hl
        have hb0 : 0 ≤ b := hr
        obtain ⟨a3, a4⟩ := tree_error hv h0 l ea
        obtain ⟨b3, b4⟩ := tree_error hv h0 r eb
        rw [ea, eb] at h
        have es : s = rndBin p emin (a + b) := mk_fin (f := 𝔽) (q := a + b) h
        have hu0 : (0 : ℚ) ≤ 1 / 2 ^ p := by positivity
        have hu1 : (1 : ℚ) / 2 ^ p ≤ 1 := by
          rw [div_le_one (by positivity)]; exact one_le_pow₀ (by norm_num)
        set u : ℚ := 1 / 2 ^ p with hu
        have hsum0 : ∀ L : List (Fin n), 0 ≤ (L.map e).sum := fun L => List.sum_nonneg (by
          intro x hx; obtain ⟨i, -, rfl⟩ := List.mem_map.1 hx; exact h0 i)
        have hL := hsum0 l.leaves
        have hR := hsum0 r.leaves
        have herr : |rndBin p emin (a + b) - (a + b)| ≤ |a + b| / 2 ^ p := rndBin_add_err ha.1 hb.1
        rw [abs_of_nonneg (show 0 ≤ a + b by linarith), div_eq_mul_one_div, ← hu, abs_le, ← es] at herr
        have hup : ∀ (x : ℚ) (k m : Nat), 0 ≤ x → k ≤ m → (1 + u) ^ k * x ≤ (1 + u) ^ m * x := fun x k m hx hkm =>
          mul_le_mul_of_nonneg_right (pow_le_pow_right₀ (by linarith) hkm) hx
        have hdn : ∀ (x : ℚ) (k m : Nat), 0 ≤ x → k ≤ m → (1 - u) ^ m * x ≤ (1 - u) ^ k * x := fun x k m hx hkm =>
          mul_le_mul_of_nonneg_right (pow_le_pow_of_le_one (by linarith) (by linarith) hkm) hx
        have hmap : ((SumTree.node l r).leaves.map e).sum = (l.leaves.map e).sum + (r.leaves.map e).sum := by simp [SumTree.leaves]
        have k1 := hup _ _ (max l.height r.height) hL (le_max_left _ _)
        have k2 := hup _ _ (max l.height r.height) hR (le_max_right _ _)
        have k3 := hdn _ _ (max l.height r.height) hL (le_max_left _ _)
        have k4 := hdn _ _ (max l.height r.height) hR (le_max_right _ _)
        rw [hmap]
        constructor
        · show (1 - u) ^ (max l.height r.height + 1) * _ ≤ _
          rw [pow_succ]
          nlinarith [herr.1]
        · show _ ≤ (1 + u) ^ (max l.height r.height + 1) * _
          rw [pow_succ]
          nlinarith [herr.2]

/-- **C127, the error of `L1`.** In every order of summation, for all finite vectors: if the result is finite, its relative error is at most `(1 + u)^h - 1`, `h` the depth of the summation.
There is no condition about underflow. -/
theorem C127_l1_error {n : ℕ} {t : SumTree n} (ht : t.leaves.Perm (List.finRange n)) {x : Fin n → Fl 𝔽} {q : Fin n → ℚ} (hx : ∀ i, ∃ h, x i = .fin (q i) h) {s : ℚ} {hs} (h : l1F t x = .fin s hs) :
    (1 - 1 / 2 ^ p) ^ t.height * ∑ i, |q i| ≤ s ∧ s ≤ (1 + 1 / 2 ^ p) ^ t.height * ∑ i, |q i| := by
  have := tree_error (v := fun i => absF (x i)) (e := fun i => |q i|) (fun i => by
    obtain ⟨h', e⟩ := hx i
    obtain ⟨h'', e'⟩ := absF_fin (f := 𝔽) (q := q i) (h := h')
    exact ⟨h'', by rw [e]; exact e'⟩) (fun i => abs_nonneg _) t h
  rw [(ht.map _).sum_eq, ← List.ofFn_eq_map, List.sum_ofFn] at this
  exact this

/-- a square that does not underflow -/
theorem sq_rel {q : ℚ} (hq : q = 0 ∨ (2 : ℚ) ^ (emin + p - 1) ≤ q * q) : |rndBin p emin (q * q) - q * q| ≤ q * q * (1 / 2 ^ p) := by
  rcases hq with rfl | hq
  · simp [rndBin_zero]
  have h0 : 0 < q * q := lt_of_lt_of_le (two_zpow_pos _) hq
  set j := Int.log 2 (q * q) with hj
  have h1 : (2 : ℚ) ^ j ≤ q * q := by exact_mod_cast Int.zpow_log_le_self (b := 2) (by norm_num) h0
  have h2 : q * q < (2 : ℚ) ^ (j + 1) := by exact_mod_cast Int.lt_zpow_succ_log_self (b := 2) (by norm_num) (q * q)
  have h3 := (zpow_lt_zpow_iff_right₀ (by norm_num : (1 : ℚ) < 2)).1 (lt_of_le_of_lt hq h2)
  refine (rndBin_err_exp h1 h2 (by omega)).trans ?_
  have e : (2 : ℚ) ^ (j + 1 - p) / 2 = 2 ^ j * (1 / 2 ^ p) := by
    rw [zpow_sub₀ (by norm_num), zpow_add₀ (by norm_num), zpow_one, zpow_natCast]
    field_simp
  rw [e]
  exact mul_le_mul_of_nonneg_right h1 (by positivity)

/-- **C127, the error of `L2`** (partial: without underflow of the squares, see `C127_l2_underflow`, and if the result is finite, see `C127_l2_overflow`). In every order of summation the relative error of the squared
norm is at most `(1 + u)^(h + 1) - 1`, and that of the square of the norm at most `(1 + u)^(h + 3) - 1`, `h` the depth of the summation. -/
theorem C127_l2_error_partial (h2p : 2 * (p : ℤ) ≤ -emin) {n : ℕ} {t : SumTree n} (ht : t.leaves.Perm (List.finRange n)) {x : Fin n → Fl 𝔽} {q : Fin n → ℚ} (hx : ∀ i, ∃ h, x i = .fin (q i) h)
    (hq : ∀ i, q i = 0 ∨ (2 : ℚ) ^ (emin + p - 1) ≤ q i * q i) {y : ℚ} {hy} (h : sqL2F t x = .fin y hy) :
    ((1 - 1 / 2 ^ p) ^ (t.height + 1) * ∑ i, q i * q i ≤ y ∧ y ≤ (1 + 1 / 2 ^ p) ^ (t.height + 1) * ∑ i, q i * q i) ∧
    ∃ s hs, l2F t x = .fin s hs ∧ (1 - 1 / 2 ^ p) ^ (t.height + 3) * ∑ i, q i * q i ≤ s ^ 2 ∧ s ^ 2 ≤ (1 + 1 / 2 ^ p) ^ (t.height + 3) * ∑ i, q i * q i := by
  have hn : ∀ i, x i ≠ .nan := by
    intro i hc
    obtain ⟨h', e⟩ := hx i
    rw [hc] at e
    cases e
  have hle := (tree_nonNeg (v := fun i => mul (x i) (x i)) t fun i _ => sq_nonNeg' (hn i)).2
  have hv : ∀ i, ∃ h, mul (x i) (x i) = .fin (rndBin p emin (q i * q i)) h := by
    intro i
    have h1 := hle i (ht.mem_iff.2 (List.mem_finRange i))
    have h2 := sq_nonNeg' (hn i)
    unfold sqL2F at h
    rw [h] at h1
    obtain ⟨h', e⟩ := hx i
    cases hm : mul (x i) (x i) with
    | nan => rw [hm] at h2; exact h2.elim
    | ninf => rw [hm] at h2; exact h2.elim
    | pinf => rw [hm] at h1; cases h1
    | fin r hr =>
      rw [e] at hm
      have : r = rndBin p emin (q i * q i) := mk_fin (f := 𝔽) (q := q i * q i) hm
      subst this
      exact ⟨hr, rfl⟩
  have h3 := tree_error hv (fun i => rndBin_nonneg (mul_self_nonneg _)) t h
  rw [(ht.map _).sum_eq, ← List.ofFn_eq_map, List.sum_ofFn] at h3
  have hu0 : (0 : ℚ) ≤ 1 / 2 ^ p := by positivity
  have hu1 : (1 : ℚ) / 2 ^ p ≤ 1 := by
    rw [div_le_one (by positivity)]; exact one_le_pow₀ (by norm_num)
  have hur : (((1 / 2 ^ p : ℚ)) : ℝ) = 1 / 2 ^ p := by push_cast; rfl
  set S := ∑ i, q i * q i with hS
  have hS0 : 0 ≤ S := Finset.sum_nonneg fun i _ => mul_self_nonneg _
  have hy0 : 0 ≤ y := le_trans (mul_nonneg (pow_nonneg (by linarith) _) (Finset.sum_nonneg fun i _ => rndBin_nonneg (mul_self_nonneg _))) h3.1
  have hsq := sqrt_rel (p := p) hp hem h2p eps hy.1 hy0 ((le_abs_self y).trans hy.2)
  rw [← hur] at hsq
  set u : ℚ := 1 / 2 ^ p with hu
  have hR1 : (1 - u) * S ≤ ∑ i, rndBin p emin (q i * q i) := by
    rw [Finset.mul_sum]
    refine Finset.sum_le_sum fun i _ => ?_
    have := (abs_le.1 (sq_rel (hq i))).1
    rw [← hu] at this
    linarith
  have hR2 : ∑ i, rndBin p emin (q i * q i) ≤ (1 + u) * S := by
    rw [Finset.mul_sum]
    refine Finset.sum_le_sum fun i _ => ?_
    have := (abs_le.1 (sq_rel (hq i))).2
    rw [← hu] at this
    linarith
  have k1 : (1 - u) ^ (t.height + 1) * S ≤ y := by
    calc (1 - u) ^ (t.height + 1) * S = (1 - u) ^ t.height * ((1 - u) * S) := by rw [pow_succ]; ring
      _ ≤ (1 - u) ^ t.height * _ := mul_le_mul_of_nonneg_left hR1 (pow_nonneg (by linarith) _)
      _ ≤ y := h3.1
  have k2 : y ≤ (1 + u) ^ (t.height + 1) * S := by
    calc y ≤ (1 + u) ^ t.height * _ := h3.2
      _ ≤ (1 + u) ^ t.height * ((1 + u) * S) := mul_le_mul_of_nonneg_left hR2 (pow_nonneg (by linarith) _)
      _ = _ := by rw [pow_succ]; ring
  refine ⟨⟨k1, k2⟩, ?_⟩
  set s := (𝔽).sqrtq y with hs
  have hs0 : 0 ≤ s := (𝔽).sqrt_nonneg y
  have r0 : 0 ≤ √(y : ℝ) := Real.sqrt_nonneg _
  have rr : √(y : ℝ) ^ 2 = y := Real.sq_sqrt (by exact_mod_cast hy0)
  have hu1' : (u : ℝ) ≤ 1 := by exact_mod_cast hu1
  have hu0' : (0 : ℝ) ≤ u := by exact_mod_cast hu0
  rw [abs_le] at hsq
  have b1 : (1 - u) ^ 2 * y ≤ s ^ 2 := by
    have : ((1 - u : ℝ) * √(y : ℝ)) ^ 2 ≤ (s : ℝ) ^ 2 := pow_le_pow_left₀ (mul_nonneg (by linarith) r0) (by linarith [hsq.1]) 2
    rw [mul_pow, rr] at this
    exact_mod_cast this
  have b2 : s ^ 2 ≤ (1 + u) ^ 2 * y := by
    have : (s : ℝ) ^ 2 ≤ ((1 + u : ℝ) * √(y : ℝ)) ^ 2 := pow_le_pow_left₀ (by exact_mod_cast hs0) (by linarith [hsq.2]) 2
    rw [mul_pow, rr] at this
    exact_mod_cast this
  have hfin : ∃ hs', l2F t x = .fin s hs' := by
    have hm1 : (1 : ℚ) ≤ (𝔽).max := by
      have h1 : (1 : ℤ) ≤ 2 ^ p - 1 := by
        have : (2 : ℤ) ^ 1 ≤ 2 ^ p := pow_le_pow_right₀ (by norm_num) (Nat.pos_of_ne_zero hp)
        linarith
      have h2 : (1 : ℚ) ≤ ((2 ^ p - 1 : ℤ) : ℚ) := by exact_mod_cast h1
      have h3 : (1 : ℚ) ≤ 2 ^ (-emin - 2 * (p : ℤ) + 3) := one_le_zpow₀ (by norm_num) (by omega)
      exact one_le_mul_of_one_le_of_one_le h2 h3
    have hmx : |s| ≤ (𝔽).max := by
      rw [abs_of_nonneg hs0]
      have hym : y ≤ (𝔽).max := (le_abs_self y).trans hy.2
      have h1 : √(y : ℝ) ≤ ((𝔽).max : ℝ) := by
        apply Real.sqrt_le_iff.2
        refine ⟨by exact_mod_cast (𝔽).max_pos.le, ?_⟩
        have : y ≤ (𝔽).max ^ 2 := by nlinarith
        exact_mod_cast this
      have := near_le (ieee_sqrt_nearest p hp emin hem eps hy0 hy.1 hym (𝔽).grid_max) h1
      exact_mod_cast this
    refine ⟨⟨(𝔽).sqrt_grid y, hmx⟩, ?_⟩
    unfold l2F
    rw [h]
    show (if y < 0 then Fl.nan else Fl.ofGrid ((𝔽).sqrtq y) ((𝔽).sqrt_grid y)) = _
    rw [if_neg (not_lt.2 hy0)]
    unfold Fl.ofGrid
    rw [dif_pos hmx]
  obtain ⟨hs', e⟩ := hfin
  refine ⟨s, hs', e, ?_, ?_⟩
  · calc (1 - u) ^ (t.height + 3) * S = (1 - u) ^ 2 * ((1 - u) ^ (t.height + 1) * S) := by rw [← mul_assoc, ← pow_add]; congr 2; ring
      _ ≤ (1 - u) ^ 2 * y := mul_le_mul_of_nonneg_left k1 (sq_nonneg _)
      _ ≤ _ := b1
  · calc s ^ 2 ≤ (1 + u) ^ 2 * y := b2
      _ ≤ (1 + u) ^ 2 * ((1 + u) ^ (t.height + 1) * S) := mul_le_mul_of_nonneg_left k2 (sq_nonneg _)
      _ = _ := by rw [← mul_assoc, ← pow_add]; congr 2; ring

/-- the differences of finite numbers -/
theorem diff_val {n : ℕ} {a b : Fin n → Fl 𝔽} {qa qb : Fin n → ℚ} (ha : ∀ i, ∃ h, a i = .fin (qa i) h) (hb : ∀ i, ∃ h, b i = .fin (qb i) h) (hd : ∀ i, finite (diffF a b i) = true) :
    ∃ d : Fin n → ℚ, (∀ i, ∃ h, diffF a b i = .fin (d i) h) ∧ ∀ i, (1 - 1 / 2 ^ p) * |qa i - qb i| ≤ |d i| ∧ |d i| ≤ (1 + 1 / 2 ^ p) * |qa i - qb i| := by
  have : ∀ i, ∃ d, (∃ h, diffF a b i = .fin d h) ∧ (1 - 1 / 2 ^ p) * |qa i - qb i| ≤ |d| ∧ |d| ≤ (1 + 1 / 2 ^ p) * |qa i - qb i| := by
    intro i
    obtain ⟨d, h, e⟩ := (Fl.finite_iff _).1 (hd i)
    refine ⟨d, ⟨h, e⟩, ?_⟩
    obtain ⟨h1, e1⟩ := ha i
    obtain ⟨h2, e2⟩ := hb i
    unfold diffF at e
    rw [e1, e2] at e
    have ed : d = rndBin p emin (qa i - qb i) := mk_fin (f := 𝔽) (q := qa i - qb i) e
    have := rndBin_add_err h1.1 (gridBin_neg h2.1)
    rw [← sub_eq_add_neg, ← ed, div_eq_mul_one_div] at this
    have h3 := abs_sub_abs_le_abs_sub d (qa i - qb i)
    have h4 := abs_sub_abs_le_abs_sub (qa i - qb i) d
    rw [abs_sub_comm (qa i - qb i) d] at h4
    constructor <;> nlinarith
  choose d hd1 hd2 using this
  exact ⟨d, hd1, hd2⟩

/-- **C127, triangle inequality** (partial: up to rounding, see `C127_triangle_wrong`). For finite vectors and results, `L1` fulfils it up to the factor `((1 + u) / (1 - u))^(h + 1)`, `h` the depth of the
summation. -/
theorem C127_triangle_partial {n : ℕ} {t : SumTree n} (ht : t.leaves.Perm (List.finRange n)) {a b c : Fin n → Fl 𝔽} (ha : ∀ i, finite (a i) = true) (hb : ∀ i, finite (b i) = true) (hc : ∀ i, finite (c i) = true)
    {s s1 s2 : ℚ} {hs hs1 hs2} (h : distL1F t a c = .fin s hs) (h1 : distL1F t a b = .fin s1 hs1) (h2 : distL1F t b c = .fin s2 hs2) :
    (1 - 1 / 2 ^ p) ^ (t.height + 1) * s ≤ (1 + 1 / 2 ^ p) ^ (t.height + 1) * (s1 + s2) := by
  have hval : ∀ x : Fin n → Fl 𝔽, (∀ i, finite (x i) = true) → ∃ q : Fin n → ℚ, ∀ i, ∃ h, x i = .fin (q i) h := by
    intro x hx
    have : ∀ i, ∃ q h, x i = .fin q h := fun i => (Fl.finite_iff _).1 (hx i)
    choose q hq hq' using this
    exact ⟨q, fun i => ⟨hq i, hq' i⟩⟩
  obtain ⟨qa, ea⟩ := hval a ha
  obtain ⟨qb, eb⟩ := hval b hb
  obtain ⟨qc, ec⟩ := hval c hc
  -- a finite sum has finite terms
  have hfin : ∀ (x : Fin n → Fl 𝔽) {r : ℚ} {hr}, (∀ i, x i ≠ .nan) → l1F t x = .fin r hr → ∀ i, finite (x i) = true := by
    intro x r hr hn he i
    have := (tree_nonNeg (v := fun i => absF (x i)) t fun i _ => absF_nonNeg (hn i)).2 i (ht.mem_iff.2 (List.mem_finRange i))
    unfold l1F at he
    rw [he] at this
    cases hx : x i with
    | nan => exact absurd hx (hn i)
    | pinf => rw [hx, absF_inf.1] at this; cases this
    | ninf => rw [hx, absF_inf.2.1] at this; cases this
    | fin q hq => rfl
  have hnn : ∀ (x y : Fin n → Fl 𝔽), (∀ i, finite (x i) = true) → (∀ i, finite (y i) = true) → ∀ i, diffF x y i ≠ .nan := by
    intro x y hx hy i
    obtain ⟨q, hq, e1⟩ := (Fl.finite_iff _).1 (hx i)
    obtain ⟨r, hr, e2⟩ := (Fl.finite_iff _).1 (hy i)
    unfold diffF
    rw [e1, e2]
    exact mk_ne_nan _
  obtain ⟨d, ed, bd⟩ := diff_val ea ec (hfin _ (hnn a c ha hc) h)
  obtain ⟨d1, ed1, bd1⟩ := diff_val ea eb (hfin _ (hnn a b ha hb) h1)
  obtain ⟨d2, ed2, bd2⟩ := diff_val eb ec (hfin _ (hnn b c hb hc) h2)
  obtain ⟨-, k⟩ := C127_l1_error ht ed h
  obtain ⟨k1, -⟩ := C127_l1_error ht ed1 h1
  obtain ⟨k2, -⟩ := C127_l1_error ht ed2 h2
  have hu0 : (0 : ℚ) ≤ 1 / 2 ^ p := by positivity
  have hu1 : (1 : ℚ) / 2 ^ p ≤ 1 := by
    rw [div_le_one (by positivity)]; exact one_le_pow₀ (by norm_num)
  set u : ℚ := 1 / 2 ^ p with hu
  set A := ∑ i, |qa i - qc i|
  set A1 := ∑ i, |qa i - qb i|
  set A2 := ∑ i, |qb i - qc i|
  have hA : A ≤ A1 + A2 := by
    rw [← Finset.sum_add_distrib]
    exact Finset.sum_le_sum fun i _ => abs_sub_le _ _ _
  have t1 : ∑ i, |d i| ≤ (1 + u) * A := by
    rw [Finset.mul_sum]
    exact Finset.sum_le_sum fun i _ => (bd i).2
  have t2 : (1 - u) * A1 ≤ ∑ i, |d1 i| := by
    rw [Finset.mul_sum]
    exact Finset.sum_le_sum fun i _ => (bd1 i).1
  have t3 : (1 - u) * A2 ≤ ∑ i, |d2 i| := by
    rw [Finset.mul_sum]
    exact Finset.sum_le_sum fun i _ => (bd2 i).1
  have p1 : 0 ≤ (1 + u) ^ t.height := pow_nonneg (by linarith) _
  have p2 : 0 ≤ (1 - u) ^ t.height := pow_nonneg (by linarith) _
  have q1 : s ≤ (1 + u) ^ (t.height + 1) * A := by
    calc s ≤ (1 + u) ^ t.height * ∑ i, |d i| := k
      _ ≤ (1 + u) ^ t.height * ((1 + u) * A) := mul_le_mul_of_nonneg_left t1 p1
      _ = _ := by rw [pow_succ]; ring
  have q2 : (1 - u) ^ (t.height + 1) * A1 ≤ s1 := by
    calc (1 - u) ^ (t.height + 1) * A1 = (1 - u) ^ t.height * ((1 - u) * A1) := by rw [pow_succ]; ring
      _ ≤ (1 - u) ^ t.height * ∑ i, |d1 i| := mul_le_mul_of_nonneg_left t2 p2
      _ ≤ _ := k1
  have q3 : (1 - u) ^ (t.height + 1) * A2 ≤ s2 := by
    calc (1 - u) ^ (t.height + 1) * A2 = (1 - u) ^ t.height * ((1 - u) * A2) := by rw [pow_succ]; ring
      _ ≤ (1 - u) ^ t.height * ∑ i, |d2 i| := mul_le_mul_of_nonneg_left t3 p2
      _ ≤ _ := k2
  have P1 : 0 ≤ (1 + u) ^ (t.height + 1) := pow_nonneg (by linarith) _
  have P2 : 0 ≤ (1 - u) ^ (t.height + 1) := pow_nonneg (by linarith) _
  calc (1 - u) ^ (t.height + 1) * s ≤ (1 - u) ^ (t.height + 1) * ((1 + u) ^ (t.height + 1) * A) := mul_le_mul_of_nonneg_left q1 P2
    _ ≤ (1 - u) ^ (t.height + 1) * ((1 + u) ^ (t.height + 1) * (A1 + A2)) := mul_le_mul_of_nonneg_left (mul_le_mul_of_nonneg_left hA P1) P2
    _ = (1 + u) ^ (t.height + 1) * ((1 - u) ^ (t.height + 1) * A1 + (1 - u) ^ (t.height + 1) * A2) := by ring
    _ ≤ _ := mul_le_mul_of_nonneg_left (by linarith) P1

end

/-! ## `double` and `float` -/

theorem small_sq {f : Fmt} {q : ℚ} {h} (hq : f.rnd (q * q) = 0) : (mul (.fin q h) (.fin q h) : Fl f) = ofInt 0 := by
  show Fl.mk (q * q) = Fl.mk ((0 : ℤ) : ℚ)
  unfold Fl.mk
  congr 1
  rw [hq, Int.cast_zero, f.rnd_zero]

/-- **C127, Jacobian of `L2`.** For every vector of finite doubles and every order of summation, each coefficient of the exported Jacobian is a finite number between -1 and 1, also if the norm overflows or
underflows. -/
theorem C127_jacobian_double {n : ℕ} {t : SumTree n} (ht : t.leaves.Perm (List.finRange n)) {x : Fin n → D} (hx : ∀ i, finite (x i) = true) (i : Fin n) :
    ∃ q h, l2JF FloatOps.eps t x i = .fin q h ∧ |q| ≤ 1 := by
  have hg : GridBin 53 (-1074) (14073749 / 2 ^ 47) := ⟨14073749, -47, by norm_num, by norm_num, by norm_num⟩
  have hm : (2 : ℚ) ≤ Fmt.binary64.max := hasTwo_binary64.2.2
  have hle : |(14073749 / 2 ^ 47 : ℚ)| ≤ Fmt.binary64.max := by
    rw [abs_of_pos (by norm_num)]
    exact le_trans (by norm_num) hm
  have e : (FloatOps.eps : D) = .fin (14073749 / 2 ^ 47) ⟨hg, hle⟩ := by
    show Fl.mk _ = _
    unfold Fl.mk Fl.ofGrid
    have : Fmt.binary64.rnd Fmt.binary64.epsq = 14073749 / 2 ^ 47 := rndBin_id hg
    simp only [this]
    rw [dif_pos hle]
  rw [e]
  have h1 : GridBin 53 (-1074) 1 := ⟨1, 0, by norm_num, by norm_num, by norm_num⟩
  exact l2J_bounded h1 (le_trans (by norm_num) hm) (by norm_num) (by norm_num)
    (le_trans (zpow_le_zpow_right₀ (n := -100) (by norm_num) (by norm_num)) (by norm_num)) t hx (ht.mem_iff.2 (List.mem_finRange i))

/-- **C127, Jacobian of `L2`**, the same for vectors of `float`; `FloatEpsilon()` is the `double` 1e-7 rounded to `float`, so the comparison in `double` is the one in `float`. -/
theorem C127_jacobian_float {n : ℕ} {t : SumTree n} (ht : t.leaves.Perm (List.finRange n)) {x : Fin n → Fl Fmt.binary32} (hx : ∀ i, finite (x i) = true) (i : Fin n) {he} :
    ∃ q h, l2JF (.fin (14073749 / 2 ^ 47) he) t x i = .fin q h ∧ |q| ≤ 1 := by
  have h1 : GridBin 24 (-149) 1 := ⟨1, 0, by norm_num, by norm_num, by norm_num⟩
  have hm : (1 : ℚ) ≤ Fmt.binary32.max := by
    show (1 : ℚ) ≤ (2 ^ 24 - 1 : ℤ) * 2 ^ (-(-149) - 2 * ((24 : ℕ) : ℤ) + 3)
    norm_num
  exact l2J_bounded h1 hm (by norm_num) (by norm_num) (by norm_num) t hx (ht.mem_iff.2 (List.mem_finRange i))

theorem big_sq {q : ℚ} {h} (hq : 2 ^ 512 ≤ |q|) : (mul (.fin q h) (.fin q h) : D) = .pinf := by
  show Fl.mk (q * q) = _
  have h1 : (2 : ℚ) ^ 1024 ≤ q * q := by
    rw [← abs_mul_abs_self q]
    calc (2 : ℚ) ^ 1024 = 2 ^ 512 * 2 ^ 512 := by rw [← pow_add]
      _ ≤ _ := mul_le_mul hq hq (by positivity) (abs_nonneg _)
  have hg : GridBin 53 (-1074) (2 ^ 1024) := ⟨1, 1024, by norm_num, by norm_num, by rw [Int.cast_one, one_mul]; exact (zpow_natCast (2 : ℚ) 1024).symm⟩
  have h2 : (2 : ℚ) ^ 1024 ≤ Fmt.binary64.rnd (q * q) := by
    have := Fmt.binary64.rnd_mono _ _ h1
    rwa [Fmt.binary64.rnd_id _ hg] at this
  have hmax : Fmt.binary64.max < 2 ^ 1024 := by decide +kernel
  have h0 : (0 : ℚ) < 2 ^ 1024 := by positivity
  unfold Fl.mk Fl.ofGrid
  have h3 := lt_of_lt_of_le h0 h2
  rw [dif_neg (by rw [abs_of_pos h3]; exact not_le.2 (lt_of_lt_of_le hmax h2)), if_pos h3]

theorem eq_val {f : Fmt} {a b : Fl f} (h : eq a b = true) : a = b := by
  cases a <;> cases b <;> first | rfl | (cases h; done) | skip
  next q hq r hr =>
    have : q = r := of_decide_eq_true h
    subst this
    rfl

theorem tree_pinf {f : Fmt} {n : ℕ} {v : Fin n → Fl f} (hv : ∀ i, Fl.NonNeg (v i)) {i : Fin n} (h : v i = .pinf) (t : SumTree n) (hi : i ∈ t.leaves) : t.sum v = .pinf := by
  obtain ⟨h1, h2⟩ := tree_nonNeg t fun i _ => hv i
  have := h2 i hi
  rw [h] at this
  cases ht : t.sum v with
  | pinf => rfl
  | _ => rw [ht] at this; cases this

/-- **C127 is violated (overflow of `L2`).** A coefficient of `2^512 = 1.3e154` or more makes the norm infinite and the exported Jacobian zero, whatever the other coefficients, although `Linf` and the
norm itself are far from the largest double: the Jacobian does not have length 1. -/
theorem C127_l2_overflow {n : ℕ} {t : SumTree n} {x : Fin n → D} (hx : ∀ i, finite (x i) = true) {i : Fin n} (hi : i ∈ t.leaves) {q : ℚ} {h} (e : x i = .fin q h) (hq : 2 ^ 512 ≤ |q|) :
    l2F t x = .pinf ∧ ∀ j, l2JF FloatOps.eps t x j = ofInt 0 := by
  have hn : ∀ i, x i ≠ .nan := by
    intro i hc
    have := hx i
    rw [hc] at this
    cases this
  have h1 : l2F t x = .pinf := by
    unfold l2F sqL2F
    rw [tree_pinf (fun i => sq_nonNeg' (hn i)) (i := i) (by rw [e]; exact big_sq hq) t hi]
    rfl
  refine ⟨h1, fun j => ?_⟩
  unfold l2JF
  obtain ⟨r, hr, er⟩ := (Fl.finite_iff _).1 (hx j)
  rw [h1, er, if_pos (by decide +kernel)]
  show Fl.mk 0 = Fl.mk ((0 : ℤ) : ℚ)
  simp

/-- **C127 is violated (underflow of `L2`).** If no coefficient is above `2^-538 = 1.1e-162`, the norm is zero and the exported Jacobian is the vector itself. In particular vectors that differ by so
little have the `L2` distance 0. -/
theorem C127_l2_underflow {n : ℕ} {t : SumTree n} {x : Fin n → D} (hx : ∀ i, ∃ q h, x i = .fin q h ∧ |q| ≤ 1 / 2 ^ 538) :
    l2F t x = ofInt 0 ∧ l2JF FloatOps.eps t x = x := by
  have h0 : (fun i => mul (x i) (x i)) = fun _ => (ofInt 0 : D) := by
    funext i
    obtain ⟨q, h, e, hq⟩ := hx i
    rw [e]
    apply small_sq
    apply le_antisymm _ (Fmt.binary64.rnd_nonneg (mul_self_nonneg q))
    have h1 : q * q ≤ 1 / 2 ^ 1076 := by
      rw [← abs_mul_abs_self q]
      calc |q| * |q| ≤ 1 / 2 ^ 538 * (1 / 2 ^ 538) := mul_le_mul hq hq (abs_nonneg _) (by positivity)
        _ = 1 / 2 ^ 1076 := by rw [one_div_mul_one_div, ← pow_add]
    have h2 : Fmt.binary64.rnd (1 / 2 ^ 1076) = 0 := by decide +kernel
    rw [← h2]
    exact Fmt.binary64.rnd_mono _ _ h1
  have h1 : l2F t x = ofInt 0 := by
    unfold l2F sqL2F
    rw [h0, tree_zero]
    exact eq_val (by decide +kernel)
  refine ⟨h1, ?_⟩
  unfold l2JF
  funext i
  rw [h1, if_neg (by decide +kernel)]

/-- **C127 is violated (definiteness of `L2`).** Different vectors with distance 0: the origin and `(2^-538, 0)`; `L1` tells them apart. -/
theorem C127_l2_not_definite : ∃ a b : Fin 2 → D, a ≠ b ∧ (∀ i, finite (a i) = true ∧ finite (b i) = true) ∧ distL2F (SumTree.leftToRight 1) a b = ofInt 0 ∧
    distL1F (SumTree.leftToRight 1) a b ≠ ofInt 0 := by
  refine ⟨![Fl.mk (1 / 2 ^ 538), ofInt 0], ![ofInt 0, ofInt 0], fun h => ?_, ?_, eq_val ?_, fun h => ?_⟩
  · have h := congrFun h 0
    have h1 : eq (Fl.mk (1 / 2 ^ 538) : D) (ofInt 0) = false := by decide +kernel
    have h2 : eq (ofInt 0 : D) (ofInt 0) = true := by decide +kernel
    rw [show (Fl.mk (1 / 2 ^ 538) : D) = ofInt 0 from h, h2] at h1
    cases h1
  · decide +kernel
  · decide +kernel
  · have h1 : eq (distL1F (SumTree.leftToRight 1) ![(Fl.mk (1 / 2 ^ 538) : D), ofInt 0] ![ofInt 0, ofInt 0]) (ofInt 0) = false := by decide +kernel
    have h2 : eq (ofInt 0 : D) (ofInt 0) = true := by decide +kernel
    rw [h, h2] at h1
    cases h1

/-- **C127 is violated (triangle inequality).** Rounding the differences can take the two sides below the third: `2^53`, `-7/8` and `-9/8`. -/
theorem C127_triangle_wrong : ∃ a b c : Fin 1 → D, (∀ i, finite (a i) = true ∧ finite (b i) = true ∧ finite (c i) = true) ∧
    lt (add (distL1F (SumTree.leftToRight 0) a b) (distL1F (SumTree.leftToRight 0) b c)) (distL1F (SumTree.leftToRight 0) a c) = true := by
  refine ⟨fun _ => Fl.mk (2 ^ 53), fun _ => Fl.mk (-7 / 8), fun _ => Fl.mk (-9 / 8), ?_, ?_⟩ <;> decide +kernel

/-! ## Examples -/

theorem tree3_perm : (SumTree.node (SumTree.leaf (0 : Fin 3)) (SumTree.node (.leaf 2) (.leaf 1))).leaves.Perm (List.finRange 3) := by decide

/-- hypotheses of `C127_never_nan`, `C127_order` and `C127_definite`: a vector with an infinite coefficient, and two vectors of finite numbers, summed in another order -/
example : (∀ i, (![ofInt 3, neg (ofInt 4), .pinf] : Fin 3 → D) i ≠ .nan) ∧ (∀ i, finite ((![ofInt 3, neg (ofInt 4), maxVal] : Fin 3 → D) i) = true) := by
  constructor
  · intro i
    have : ∀ i, isNaN ((![ofInt 3, neg (ofInt 4), .pinf] : Fin 3 → D) i) = false := by decide +kernel
    intro h
    have h' := this i
    rw [h] at h'
    cases h'
  · decide +kernel

/-- the norms and the Jacobian of (3, -4, 12), in another order: 13, 19, 12 and (3/13, ..) rounded; hypotheses of `C127_jacobian_double`, `C127_l2_order` and `C127_l1_error` -/
example : (eq (l2F (.node (.leaf 0) (.node (.leaf 2) (.leaf 1))) ![(ofInt 3 : D), neg (ofInt 4), ofInt 12]) (ofInt 13) &&
      eq (l1F (.node (.leaf 0) (.node (.leaf 2) (.leaf 1))) ![(ofInt 3 : D), neg (ofInt 4), ofInt 12]) (ofInt 19) && eq (linfF ![(ofInt 3 : D), neg (ofInt 4), ofInt 12]) (ofInt 12)) = true ∧
    ∃ q h, l2JF FloatOps.eps (.node (.leaf 0) (.node (.leaf 2) (.leaf 1))) ![(ofInt 3 : D), neg (ofInt 4), ofInt 12] 0 = .fin q h ∧ |q| ≤ 1 :=
  ⟨by decide +kernel, C127_jacobian_double tree3_perm (by decide +kernel) 0⟩

/-- hypotheses of `C127_l2_overflow`: (1e200, 1) has an infinite norm -/
example : l2F (SumTree.leftToRight 1) ![(Fl.mk (10 ^ 200) : D), ofInt 1] = .pinf := by
  have h : finite (Fl.mk (10 ^ 200) : D) = true := by decide +kernel
  have hm : ∀ {q : ℚ} {h'}, (Fl.mk (10 ^ 200) : D) = .fin q h' → 2 ^ 512 ≤ |q| := by
    intro q h' e
    rw [mk_fin e]
    decide +kernel
  obtain ⟨q, h', e⟩ := (Fl.finite_iff _).1 h
  exact (C127_l2_overflow (i := 0) (by decide +kernel) (by decide) e (hm e)).1

/-- hypotheses of `C127_l2_error_partial` and `C127_triangle_partial`: the vectors (3, 4), (0, 0) and (-3, -4) -/
example : (∃ s hs, l2F (SumTree.leftToRight 1) ![(Fl.mk 3 : D), Fl.mk 4] = .fin s hs ∧ s ^ 2 ≤ (1 + 1 / 2 ^ 53) ^ 4 * 25) ∧
    (∀ a b c : Fin 2 → D, a = ![Fl.mk 3, Fl.mk 4] → b = ![Fl.mk 0, Fl.mk 0] → c = ![Fl.mk (-3), Fl.mk (-4)] → (∀ i, finite (a i) = true ∧ finite (b i) = true ∧ finite (c i) = true) ∧
      finite (distL1F (SumTree.leftToRight 1) a c) = true ∧ finite (distL1F (SumTree.leftToRight 1) a b) = true ∧ finite (distL1F (SumTree.leftToRight 1) b c) = true) := by
  constructor
  · have hx : ∀ i : Fin 2, ∃ h, (![(Fl.mk 3 : D), Fl.mk 4] : Fin 2 → D) i = .fin ((![3, 4] : Fin 2 → ℚ) i) h := by
      intro i
      have h4 : (4 : ℚ) ≤ Fmt.binary64.max := by decide +kernel
      have g3 : Fmt.binary64.Grid 3 := ⟨3, 0, by norm_num, by norm_num, by norm_num⟩
      have g4 : Fmt.binary64.Grid 4 := ⟨4, 0, by norm_num, by norm_num, by norm_num⟩
      fin_cases i
      · exact mk_grid g3 (show |(3 : ℚ)| ≤ _ by rw [abs_of_pos (by norm_num)]; linarith)
      · exact mk_grid g4 (show |(4 : ℚ)| ≤ _ by rw [abs_of_pos (by norm_num)]; linarith)
    obtain ⟨y, hy, e⟩ := (Fl.finite_iff (sqL2F (SumTree.leftToRight 1) ![(Fl.mk 3 : D), Fl.mk 4])).1 (by decide +kernel)
    obtain ⟨-, s, hs, es, -, hb⟩ := C127_l2_error_partial (by norm_num) (t := SumTree.leftToRight 1) (by decide) hx (fun i => Or.inr (by
      refine le_trans (zpow_le_one_of_nonpos₀ (by norm_num) (by norm_num)) ?_
      fin_cases i <;> norm_num)) e
    refine ⟨s, hs, es, ?_⟩
    have e25 : ∑ i, (![3, 4] : Fin 2 → ℚ) i * (![3, 4] : Fin 2 → ℚ) i = 25 := by
      rw [Fin.sum_univ_two]
      norm_num
    rw [e25] at hb
    exact hb
  · rintro a b c rfl rfl rfl
    decide +kernel

end Verif.Loss
