import Mathlib.Algebra.BigOperators.Fin
import Mathlib.Algebra.BigOperators.Field
import Mathlib.Algebra.Order.BigOperators.Group.Finset
import Mathlib.Data.List.FinRange
import Verif.Num.Round
import Verif.Model.ClassifFl
/-!
# C69: softmax in floating point
-/

set_option linter.unusedSectionVars false

namespace Verif
open FloatOps

section
variable {p : ℕ} {hp : p ≠ 0} {emin : ℤ} {hem : emin ≤ -emin - 2 * p + 3} {ep : ℚ}

/-- What is assumed of `std::exp`: `exp(0) = 1`, `exp(-inf) = 0` and non-positive numbers are mapped to `[0, 1]`. -/
structure ExpOk {f : Fmt} (ex : Fl f → Fl f) : Prop where
  zero : ex (ofInt 0) = ofInt 1
  ninf : ex .ninf = ofInt 0
  neg : ∀ q h, q ≤ 0 → ∃ e h', ex (.fin q h) = .fin e h' ∧ 0 ≤ e ∧ e ≤ 1

/-- small integers are numbers of the format -/
theorem natGrid (hp : p ≠ 0) (he : emin ≤ 0) {k : ℕ} (hk : k ≤ 2 ^ p) : GridBin p emin (k : ℚ) := by
  rcases Nat.lt_or_eq_of_le hk with h | h
  · exact ⟨k, 0, by rw [abs_of_nonneg (by positivity)]; exact_mod_cast h, he, by simp⟩
  · refine ⟨2 ^ (p - 1), 1, ?_, by omega, ?_⟩
    · rw [abs_of_nonneg (by positivity)]; exact pow_lt_pow_right₀ (by norm_num) (by omega)
    · obtain ⟨j, rfl⟩ : ∃ j, p = j + 1 := ⟨p - 1, by omega⟩
      rw [h]; simp [pow_succ]

theorem two_pow_le_max (hp : p ≠ 0) (h2 : 2 * (p : ℤ) ≤ -emin) : (2 : ℚ) ^ p ≤ (2 ^ p - 1 : ℤ) * 2 ^ (-emin - 2 * (p : ℤ) + 3) := by
  have h2p : (2 : ℤ) ≤ 2 ^ p := by
    calc (2 : ℤ) = 2 ^ 1 := by norm_num
      _ ≤ 2 ^ p := pow_le_pow_right₀ (by norm_num) (by omega)
  have h3 : (2 : ℚ) ^ (1 : ℤ) ≤ 2 ^ (-emin - 2 * (p : ℤ) + 3) := zpow_le_zpow_right₀ (by norm_num) (by omega)
  have h4 : (2 : ℚ) ≤ 2 ^ p := by exact_mod_cast h2p
  rw [zpow_one] at h3
  push_cast
  nlinarith

/-- rounding a number between 0 and 2^p -/
theorem mk_small (h2 : 2 * (p : ℤ) ≤ -emin) {q : ℚ} (h0 : 0 ≤ q) {k : ℕ} (hk : k ≤ 2 ^ p) (hq : q ≤ k) :
    ∃ h, (Fl.mk q : Fl (Fmt.ieee p hp emin hem ep)) = .fin (rndBin p emin q) h ∧ 0 ≤ rndBin p emin q ∧ rndBin p emin q ≤ k := by
  have h1 : rndBin p emin q ≤ k := by
    have := rndBin_mono (emin := emin) hp hq
    rwa [rndBin_id (natGrid hp (by omega) hk)] at this
  have h3 := rndBin_nonneg (p := p) (emin := emin) h0
  have hle : |(Fmt.ieee p hp emin hem ep).rnd q| ≤ (Fmt.ieee p hp emin hem ep).max := by
    show |rndBin p emin q| ≤ (2 ^ p - 1 : ℤ) * 2 ^ (-emin - 2 * (p : ℤ) + 3)
    rw [abs_of_nonneg h3]
    refine (h1.trans ?_).trans (two_pow_le_max hp h2)
    exact_mod_cast hk
  refine ⟨⟨rndBin_grid hp _, hle⟩, ?_, h3, h1⟩
  unfold Fl.mk Fl.ofGrid
  rw [dif_pos hle]; rfl

theorem rndBin_err (q : ℚ) : |rndBin p emin q - q| ≤ |q| / 2 ^ p + 2 ^ emin / 2 := by
  have he := two_zpow_pos emin
  rcases eq_or_ne q 0 with rfl | h0
  · rw [rndBin_zero]; simp; positivity
  refine (rndBin_half_ulp q).trans ?_
  unfold ulpExp
  rcases max_choice emin (Int.log 2 |q| - (p - 1)) with h | h
  · rw [h]
    have : 0 ≤ |q| / 2 ^ p := by positivity
    linarith
  · rw [h]
    have hlog := Int.zpow_log_le_self (b := 2) (by norm_num) (abs_pos.mpr h0)
    have e : (2 : ℚ) ^ (Int.log 2 |q| - (p - 1)) / 2 = 2 ^ Int.log 2 |q| / 2 ^ p := by
      rw [zpow_sub₀ (by norm_num), zpow_sub₀ (by norm_num), zpow_one, zpow_natCast]; field_simp
    rw [e]
    have : (2 : ℚ) ^ Int.log 2 |q| / 2 ^ p ≤ |q| / 2 ^ p := div_le_div_of_nonneg_right (by exact_mod_cast hlog) (by positivity)
    linarith

/-- the largest coefficient is one of the coefficients -/
theorem maxCoeffF_spec {f : Fmt} : ∀ {n : Nat} (x : Fin (n + 1) → Fl f) (q : Fin (n + 1) → ℚ), (∀ i, ∃ h, x i = .fin (q i) h) →
    ∃ j, maxCoeffF x = x j ∧ ∀ i, q i ≤ q j
  | 0, x, q, _ => ⟨0, rfl, fun i => by rw [show i = 0 from Fin.ext (by omega)]⟩
  | n + 1, x, q, hx => by
    obtain ⟨j, hj, hle⟩ := maxCoeffF_spec (fun i => x i.castSucc) (fun i => q i.castSucc) fun i => hx _
    obtain ⟨h1, e1⟩ := hx j.castSucc
    obtain ⟨h2, e2⟩ := hx (Fin.last _)
    have hlt : lt (x j.castSucc) (x (Fin.last _)) = decide (q j.castSucc < q (Fin.last _)) := by rw [e1, e2]; rfl
    unfold maxCoeffF
    simp only [hj, hlt, decide_eq_true_eq]
    split
    next h =>
      exact ⟨_, rfl, Fin.lastCases (le_refl _) fun i => (hle i).trans h.le⟩
    next h =>
      exact ⟨_, rfl, Fin.lastCases (not_lt.mp h) hle⟩

theorem ofInt_one (h2 : 2 * (p : ℤ) ≤ -emin) : ∃ h, (ofInt 1 : Fl (Fmt.ieee p hp emin hem ep)) = .fin 1 h := by
  have h1 : rndBin p emin 1 = 1 := by
    have := rndBin_id (natGrid (k := 1) (emin := emin) hp (by omega) Nat.one_le_two_pow)
    simpa using this
  obtain ⟨h, e, -⟩ := mk_small (hp := hp) (hem := hem) (ep := ep) h2 (q := 1) (by norm_num) (k := 1) Nat.one_le_two_pow (by norm_num)
  have h' := h
  rw [h1] at h'
  refine ⟨h', ?_⟩
  show Fl.mk ((1 : ℤ) : ℚ) = _
  rw [Int.cast_one, e]
  simp only [h1]

/-- the exponentials that `SafeSoftmax` computes -/
theorem safe_exps (h2 : 2 * (p : ℤ) ≤ -emin) {ex : Fl (Fmt.ieee p hp emin hem ep) → Fl (Fmt.ieee p hp emin hem ep)} (hex : ExpOk ex)
    {qa qm : ℚ} {ha hm} (h : qa ≤ qm) :
    ∃ e he, ex (sub (.fin qa ha) (.fin qm hm)) = .fin e he ∧ 0 ≤ e ∧ e ≤ 1 ∧ (qa = qm → e = 1) := by
  change ∃ e he, ex (Fl.mk (qa - qm)) = .fin e he ∧ 0 ≤ e ∧ e ≤ 1 ∧ (qa = qm → e = 1)
  by_cases heq : qa = qm
  · obtain ⟨h1, e1⟩ := ofInt_one (hp := hp) (hem := hem) (ep := ep) h2
    have : (Fl.mk (qa - qm) : Fl (Fmt.ieee p hp emin hem ep)) = ofInt 0 := by
      show _ = Fl.mk ((0 : ℤ) : ℚ)
      rw [heq, sub_self, Int.cast_zero]
    rw [this, hex.zero, e1]
    exact ⟨1, h1, rfl, by norm_num, le_refl _, fun _ => rfl⟩
  · have hn : (Fmt.ieee p hp emin hem ep).rnd (qa - qm) ≤ 0 := Fmt.rnd_nonpos _ (by linarith)
    unfold Fl.mk Fl.ofGrid
    split
    next h' =>
      obtain ⟨e, he, e1, e2, e3⟩ := hex.neg _ ⟨Fmt.rnd_grid _ _, h'⟩ hn
      exact ⟨e, he, e1, e2, e3, fun h => absurd h heq⟩
    · rw [if_neg (not_lt.mpr hn), hex.ninf, Fl.ofInt_zero]
      exact ⟨0, ⟨Fmt.grid_zero _, by rw [abs_zero]; exact (Fmt.max_pos _).le⟩, rfl, le_refl _, by norm_num, fun h => absurd h heq⟩

/-- summation of numbers in `[0, 1]`, in any order -/
theorem treeSum (h2 : 2 * (p : ℤ) ≤ -emin) {n : Nat} {v : Fin n → Fl (Fmt.ieee p hp emin hem ep)} {e : Fin n → ℚ}
    (hv : ∀ i, ∃ h, v i = .fin (e i) h) (h0 : ∀ i, 0 ≤ e i) (h1 : ∀ i, e i ≤ 1) :
    ∀ t : SumTree n, t.leaves.length ≤ 2 ^ p → ∃ s h, t.sum v = .fin s h ∧ s ≤ t.leaves.length ∧ (∀ i ∈ t.leaves, e i ≤ s) ∧
      (1 - 1 / 2 ^ p) ^ t.height * (t.leaves.map e).sum ≤ s ∧ s ≤ (1 + 1 / 2 ^ p) ^ t.height * (t.leaves.map e).sum
  | .leaf i, _ => by
    obtain ⟨h, he⟩ := hv i
    refine ⟨e i, h, he, by simpa [SumTree.leaves] using h1 i, by simp [SumTree.leaves], ?_, ?_⟩ <;>
      simp [SumTree.leaves, SumTree.height]
  | .node l r, hk => by
    have hlen : (SumTree.node l r).leaves.length = l.leaves.length + r.leaves.length := by simp [SumTree.leaves]
    rw [hlen] at hk
    obtain ⟨a, ha, ea, a1, a2, a3, a4⟩ := treeSum h2 hv h0 h1 l (by omega)
    obtain ⟨b, hb, eb, b1, b2, b3, b4⟩ := treeSum h2 hv h0 h1 r (by omega)
    have hu0 : (0 : ℚ) ≤ 1 / 2 ^ p := by positivity
    have hu1 : (1 : ℚ) / 2 ^ p ≤ 1 := by
      rw [div_le_one (by positivity)]; exact one_le_pow₀ (by norm_num)
    set u : ℚ := 1 / 2 ^ p with hu
    have hsum0 : ∀ L : List (Fin n), 0 ≤ (L.map e).sum := fun L => List.sum_nonneg (by
      intro x hx; obtain ⟨i, -, rfl⟩ := List.mem_map.1 hx; exact h0 i)
    have hL := hsum0 l.leaves
    have hR := hsum0 r.leaves
    have ha0 : 0 ≤ a := le_trans (mul_nonneg (pow_nonneg (by linarith) _) hL) a3
    have hb0 : 0 ≤ b := le_trans (mul_nonneg (pow_nonneg (by linarith) _) hR) b3
    have hab : a + b ≤ ((l.leaves.length + r.leaves.length : ℕ) : ℚ) := by push_cast; linarith
    obtain ⟨h, e1, e2, e3⟩ := mk_small (hp := hp) (hem := hem) (ep := ep) h2 (q := a + b) (by linarith) hk hab
    have herr : |rndBin p emin (a + b) - (a + b)| ≤ |a + b| / 2 ^ p := rndBin_add_err ha.1 hb.1
    rw [abs_of_nonneg (show 0 ≤ a + b by linarith), div_eq_mul_one_div, ← hu, abs_le] at herr
    have hma : a ≤ rndBin p emin (a + b) := by
      have := rndBin_mono (p := p) (emin := emin) hp (show a ≤ a + b by linarith)
      rwa [rndBin_id ha.1] at this
    have hmb : b ≤ rndBin p emin (a + b) := by
      have := rndBin_mono (p := p) (emin := emin) hp (show b ≤ a + b by linarith)
      rwa [rndBin_id hb.1] at this
    have hup : ∀ (x : ℚ) (k m : Nat), 0 ≤ x → k ≤ m → (1 + u) ^ k * x ≤ (1 + u) ^ m * x := fun x k m hx hkm =>
      mul_le_mul_of_nonneg_right (pow_le_pow_right₀ (by linarith) hkm) hx
    have hdn : ∀ (x : ℚ) (k m : Nat), 0 ≤ x → k ≤ m → (1 - u) ^ m * x ≤ (1 - u) ^ k * x := fun x k m hx hkm =>
      mul_le_mul_of_nonneg_right (pow_le_pow_of_le_one (by linarith) (by linarith) hkm) hx
    have hmap : ((SumTree.node l r).leaves.map e).sum = (l.leaves.map e).sum + (r.leaves.map e).sum := by simp [SumTree.leaves]
    have k1 := hup _ _ (max l.height r.height) hL (le_max_left _ _)
    have k2 := hup _ _ (max l.height r.height) hR (le_max_right _ _)
    have k3 := hdn _ _ (max l.height r.height) hL (le_max_left _ _)
    have k4 := hdn _ _ (max l.height r.height) hR (le_max_right _ _)
    refine ⟨rndBin p emin (a + b), h, ?_, by rw [hlen]; exact e3, ?_, ?_, ?_⟩
    · show add (l.sum v) (r.sum v) = _
      rw [ea, eb]; exact e1
    · intro i hi
      rcases List.mem_append.1 hi with hi | hi
      · exact (a2 i hi).trans hma
      · exact (b2 i hi).trans hmb
    · rw [hmap]
      show (1 - u) ^ (max l.height r.height + 1) * _ ≤ _
      rw [pow_succ]
      nlinarith [herr.1]
    · rw [hmap]
      show _ ≤ (1 + u) ^ (max l.height r.height + 1) * _
      rw [pow_succ]
      nlinarith [herr.2]

/-- **C69** for `SafeSoftmax`: for every vector of finite numbers (of at most `2^p` coefficients) and every order of summation, all entries of the result are
finite and in `[0, 1]`, not all are zero, and they sum to 1 up to rounding: `u = 2^-p` is the unit roundoff, `h` the depth of the summation,
`2^emin` the smallest positive number. -/
theorem C69_safe_softmax_partial (h2 : 2 * (p : ℤ) ≤ -emin) {ex : Fl (Fmt.ieee p hp emin hem ep) → Fl (Fmt.ieee p hp emin hem ep)} (hex : ExpOk ex)
    {n : Nat} (hn : n + 1 ≤ 2 ^ p) {t : SumTree (n + 1)} (ht : t.leaves.Perm (List.finRange (n + 1)))
    {x : Fin (n + 1) → Fl (Fmt.ieee p hp emin hem ep)} (hx : ∀ i, finite (x i) = true) :
    ∃ q : Fin (n + 1) → ℚ, (∀ i, ∃ h, safeSoftmaxF ex t x i = .fin (q i) h) ∧ (∀ i, 0 ≤ q i ∧ q i ≤ 1) ∧ (∃ i, 1 / 2 ^ p ≤ q i) ∧
      (1 - 1 / 2 ^ p) / (1 + 1 / 2 ^ p) ^ t.height - (n + 1) * (2 ^ emin / 2) ≤ ∑ i, q i ∧
      ∑ i, q i ≤ (1 + 1 / 2 ^ p) / (1 - 1 / 2 ^ p) ^ t.height + (n + 1) * (2 ^ emin / 2) := by
  have hx' : ∀ i, ∃ q h, x i = .fin q h := fun i => (Fl.finite_iff _).1 (hx i)
  choose a ha hxa using hx'
  obtain ⟨j, hj, hle⟩ := maxCoeffF_spec x a fun i => ⟨ha i, hxa i⟩
  have hexps : ∀ i, ∃ e he, ex (sub (x i) (maxCoeffF x)) = .fin e he ∧ 0 ≤ e ∧ e ≤ 1 ∧ (a i = a j → e = 1) := by
    intro i
    rw [hj, hxa i, hxa j]
    exact safe_exps h2 hex (hle i)
  choose e he hee he0 he1 hej using hexps
  have hlen : t.leaves.length = n + 1 := by rw [ht.length_eq, List.length_finRange]
  obtain ⟨s, hs, es, s1, s2, s3, s4⟩ := treeSum h2 (fun i => ⟨he i, hee i⟩) he0 he1 t (by omega)
  have hmap : (t.leaves.map e).sum = ∑ i, e i := by
    rw [(ht.map e).sum_eq, ← List.ofFn_eq_map, List.sum_ofFn]
  rw [hmap] at s3 s4
  have hs1 : 1 ≤ s := by
    have := s2 j (ht.mem_iff.2 (List.mem_finRange j))
    rwa [hej j rfl] at this
  have hs0 : 0 < s := by linarith
  have hsn : s ≤ 2 ^ p := by
    rw [hlen] at s1
    exact s1.trans (by exact_mod_cast hn)
  have hq : ∀ i, ∃ h, safeSoftmaxF ex t x i = .fin (rndBin p emin (e i / s)) h ∧ 0 ≤ rndBin p emin (e i / s) ∧ rndBin p emin (e i / s) ≤ (1 : ℕ) := by
    intro i
    have hd : e i / s ≤ (1 : ℕ) := by
      rw [Nat.cast_one, div_le_one hs0]; exact (he1 i).trans hs1
    obtain ⟨h, e1, e2, e3⟩ := mk_small (hp := hp) (hem := hem) (ep := ep) h2 (div_nonneg (he0 i) hs0.le) (k := 1) Nat.one_le_two_pow hd
    refine ⟨h, ?_, e2, e3⟩
    show div (ex (sub (x i) (maxCoeffF x))) (t.sum fun i => ex (sub (x i) (maxCoeffF x))) = _
    rw [es, hee i, ← e1]
    change (if s = 0 then _ else Fl.mk (e i / s)) = _
    rw [if_neg hs0.ne']
  refine ⟨fun i => rndBin p emin (e i / s), fun i => ⟨(hq i).1, (hq i).2.1⟩, fun i => ⟨(hq i).2.2.1, by simpa using (hq i).2.2.2⟩, ⟨j, ?_⟩, ?_⟩
  · have hg : GridBin p emin (1 / 2 ^ p) :=
      ⟨1, -p, by rw [abs_one]; exact one_lt_pow₀ (by norm_num) hp, by omega, by rw [zpow_neg, zpow_natCast]; simp⟩
    have h3 : (1 : ℚ) / 2 ^ p ≤ e j / s := by
      rw [hej j rfl]
      exact one_div_le_one_div_of_le hs0 hsn
    have := rndBin_mono (emin := emin) hp h3
    rwa [rndBin_id hg] at this
  · have hu0 : (0 : ℚ) < 1 / 2 ^ p := by positivity
    have hu1 : (1 : ℚ) / 2 ^ p < 1 := by
      rw [div_lt_one (by positivity)]; exact one_lt_pow₀ (by norm_num) hp
    have herr : ∀ i, |rndBin p emin (e i / s) - e i / s| ≤ e i / s * (1 / 2 ^ p) + 2 ^ emin / 2 := by
      intro i
      have := rndBin_err (p := p) (emin := emin) (e i / s)
      rw [abs_of_nonneg (div_nonneg (he0 i) hs0.le), div_eq_mul_one_div (e i / s)] at this
      exact this
    set u : ℚ := 1 / 2 ^ p with hu
    set S : ℚ := ∑ i, e i with hS
    have hS0 : 0 < S := by
      have : (1 + u) ^ t.height * S > 0 := by linarith
      exact (mul_pos_iff_of_pos_left (by positivity)).1 this
    have hsumd : ∑ i, e i / s = S / s := by rw [hS, Finset.sum_div]
    have hcard : ∑ _i : Fin (n + 1), (2 : ℚ) ^ emin / 2 = (n + 1) * (2 ^ emin / 2) := by
      rw [Finset.sum_const, Finset.card_univ, Fintype.card_fin, nsmul_eq_mul]; push_cast; ring
    have hup : ∑ i, rndBin p emin (e i / s) ≤ S / s * (1 + u) + (n + 1) * (2 ^ emin / 2) := by
      calc ∑ i, rndBin p emin (e i / s) ≤ ∑ i, (e i / s + (e i / s * u + 2 ^ emin / 2)) :=
            Finset.sum_le_sum fun i _ => by have := (abs_le.1 (herr i)).2; linarith
        _ = _ := by rw [Finset.sum_add_distrib, Finset.sum_add_distrib, ← Finset.sum_mul, hsumd, hcard]; ring
    have hdn : S / s * (1 - u) - (n + 1) * (2 ^ emin / 2) ≤ ∑ i, rndBin p emin (e i / s) := by
      calc S / s * (1 - u) - (n + 1) * (2 ^ emin / 2) = ∑ i, (e i / s - (e i / s * u + 2 ^ emin / 2)) := by
            rw [Finset.sum_sub_distrib, Finset.sum_add_distrib, ← Finset.sum_mul, hsumd, hcard]; ring
        _ ≤ _ := Finset.sum_le_sum fun i _ => by have := (abs_le.1 (herr i)).1; linarith
    have hU : 0 < (1 + u) ^ t.height := by positivity
    have hD : 0 < (1 - u) ^ t.height := pow_pos (by linarith) _
    have r1 : S / s ≤ 1 / (1 - u) ^ t.height := by
      rw [div_le_div_iff₀ hs0 hD]; linarith
    have r2 : 1 / (1 + u) ^ t.height ≤ S / s := by
      rw [div_le_div_iff₀ hU hs0]; linarith
    constructor
    · refine le_trans (sub_le_sub_right ?_ _) hdn
      rw [div_eq_mul_one_div, mul_comm]
      exact mul_le_mul_of_nonneg_right r2 (by linarith)
    · refine hup.trans (add_le_add_left ?_ _)
      rw [div_eq_mul_one_div (1 + u), mul_comm]
      exact mul_le_mul_of_nonneg_left r1 (by linarith)

/-- **C69 is violated** by `Softmax`: where the exponential overflows (`exp(1000)` in `double`), all entries are NaN. -/
theorem C69_softmax_overflows {f : Fmt} {ex : Fl f → Fl f} {c : Fl f} (hc : ex c = .pinf) {n : Nat} (t : SumTree n) (i : Fin n) :
    softmaxF ex t (fun _ => c) i = .nan := by
  have : t.sum (fun _ => ex c) = .pinf := by
    induction t with
    | leaf i => exact hc
    | node l r hl hr =>
      show add (l.sum _) (r.sum _) = _
      rw [hl, hr]; rfl
  show div (ex c) (t.sum fun _ => ex c) = _
  rw [this, hc]; rfl

end

/-- a function that meets the assumptions on `std::exp` and overflows at 710 -/
def exampleExp : Fl Fmt.binary64 → Fl Fmt.binary64
  | .nan => .nan
  | .ninf => ofInt 0
  | .pinf => .pinf
  | .fin q _ => if q ≤ 0 then .mk (1 / (1 - q)) else if q < 710 then .mk (1 + q) else .pinf

theorem exampleExp_ok : ExpOk exampleExp where
  zero := by rw [Fl.ofInt_zero]; show Fl.mk (1 / (1 - 0)) = Fl.mk ((1 : ℤ) : ℚ); norm_num
  ninf := rfl
  neg q h hq := by
    obtain ⟨h', e, e0, e1⟩ := mk_small (hp := by norm_num) (hem := by norm_num) (ep := 14073749 / 2 ^ 47) (p := 53) (emin := -1074) (by norm_num)
      (q := 1 / (1 - q)) (div_nonneg (by norm_num) (by linarith)) (k := 1) (by norm_num)
      (by rw [Nat.cast_one, div_le_one (by linarith)]; linarith)
    refine ⟨_, h', ?_, e0, by simpa using e1⟩
    show (if q ≤ 0 then Fl.mk (1 / (1 - q)) else _) = _
    rw [if_pos hq]; exact e

/-- hypotheses of `C69_safe_softmax_partial` for `double`, with large coefficients of opposite signs; `Softmax` overflows on them -/
example : 2 * ((53 : ℕ) : ℤ) ≤ -(-1074) ∧ ExpOk exampleExp ∧ (SumTree.leftToRight 2).leaves.Perm (List.finRange 3) ∧
    (∀ i, finite ((![maxVal, neg maxVal, ofInt 1000] : Fin 3 → Fl Fmt.binary64) i) = true) ∧
    (eq (safeSoftmaxF exampleExp (SumTree.leftToRight 2) ![maxVal, neg maxVal, maxVal] 0) half &&
      eq (safeSoftmaxF exampleExp (SumTree.leftToRight 2) ![maxVal, neg maxVal, maxVal] 1) (ofInt 0) &&
      eq (safeSoftmaxF exampleExp (SumTree.leftToRight 2) ![maxVal, neg maxVal, maxVal] 2) half) = true ∧
    isNaN (softmaxF exampleExp (SumTree.leftToRight 2) ![maxVal, neg maxVal, maxVal] 0) = true :=
  ⟨by norm_num, exampleExp_ok, by decide, by decide +kernel, by decide +kernel, by decide +kernel⟩

end Verif
