import Verif.Model.SimplicialLDLT
import Verif.Props.Indefinite
import Verif.Props.SparseProps
/-!
# C110: the sparse LDLT decomposition
-/

set_option linter.unusedSectionVars false

namespace Verif
open FloatOps

namespace Simp

/-- the lower triangle of `L` with the unit diagonal -/
def unitL (L : Nat → Nat → ℝ) (i t : Nat) : ℝ := if t < i then L i t else if t = i then 1 else 0

/-- column `j` of row `i`, as the factorisation computes it -/
structure Rows (A : Nat → Nat → ℝ) (s : ℝ) (k : Nat) (S : SimpFac ℝ) : Prop where
  below : ∀ i < k, ∀ j < i, S.D j * S.L i j = A j i - ∑ t ∈ Finset.range j, S.L j t * (S.D t * S.L i t)
  diag : ∀ i < k, S.D i = A i i + s - ∑ t ∈ Finset.range i, S.L i t * (S.D t * S.L i t)

theorem row_spec {S : SimpFac ℝ} {y0 : Nat → ℝ} {d0 : ℝ} : ∀ m, (∀ i < m, S.D i ≠ 0) →
    (∀ j, m ≤ j → (simpRow S y0 d0 m).1 j = y0 j - ∑ i ∈ Finset.range m, S.L j i * (S.D i * (simpRow S y0 d0 m).2.2 i)) ∧
    (∀ i < m, S.D i * (simpRow S y0 d0 m).2.2 i = y0 i - ∑ t ∈ Finset.range i, S.L i t * (S.D t * (simpRow S y0 d0 m).2.2 t)) ∧
    (simpRow S y0 d0 m).2.1 = d0 - ∑ t ∈ Finset.range m, (simpRow S y0 d0 m).2.2 t * (S.D t * (simpRow S y0 d0 m).2.2 t) := by
  intro m
  induction m with
  | zero => intro _; simp [simpRow]
  | succ m ih =>
    intro h
    obtain ⟨h1, h2, h3⟩ := ih fun i hi => h i (by omega)
    have hm := h m (by omega)
    have el : ∀ t, (simpRow S y0 d0 (m + 1)).2.2 t = if t = m then (simpRow S y0 d0 m).1 m / S.D m else (simpRow S y0 d0 m).2.2 t := fun t => rfl
    have ey : ∀ j, (simpRow S y0 d0 (m + 1)).1 j = if m < j then (simpRow S y0 d0 m).1 j - S.L j m * (simpRow S y0 d0 m).1 m else (simpRow S y0 d0 m).1 j := fun t => rfl
    have ed : (simpRow S y0 d0 (m + 1)).2.1 = (simpRow S y0 d0 m).2.1 - (simpRow S y0 d0 m).1 m / S.D m * (simpRow S y0 d0 m).1 m := rfl
    have old : ∀ t ∈ Finset.range m, (simpRow S y0 d0 (m + 1)).2.2 t = (simpRow S y0 d0 m).2.2 t := fun t ht => by
      rw [el, if_neg (by have := Finset.mem_range.mp ht; omega)]
    have new : S.D m * (simpRow S y0 d0 (m + 1)).2.2 m = (simpRow S y0 d0 m).1 m := by
      rw [el, if_pos rfl]; field_simp
    have sumEq : ∀ c : Nat → ℝ, ∑ i ∈ Finset.range m, c i * (S.D i * (simpRow S y0 d0 (m + 1)).2.2 i) = ∑ i ∈ Finset.range m, c i * (S.D i * (simpRow S y0 d0 m).2.2 i) :=
      fun c => Finset.sum_congr rfl fun t ht => by rw [old t ht]
    refine ⟨fun j hj => ?_, fun i hi => ?_, ?_⟩
    · rw [ey, if_pos (by omega), Finset.sum_range_succ, sumEq, new, h1 j (by omega)]
      ring
    · rcases Nat.lt_succ_iff_lt_or_eq.mp hi with hi | rfl
      · rw [old i (Finset.mem_range.mpr hi), h2 i hi]
        congr 1
        refine Finset.sum_congr rfl fun t ht => ?_
        rw [old t (Finset.mem_range.mpr (by have := Finset.mem_range.mp ht; omega))]
      · rw [new, sumEq, h1 _ le_rfl]
    · rw [ed, Finset.sum_range_succ, new, h3, el m, if_pos rfl]
      have : ∑ t ∈ Finset.range m, (simpRow S y0 d0 (m + 1)).2.2 t * (S.D t * (simpRow S y0 d0 (m + 1)).2.2 t) =
          ∑ t ∈ Finset.range m, (simpRow S y0 d0 m).2.2 t * (S.D t * (simpRow S y0 d0 m).2.2 t) := Finset.sum_congr rfl fun t ht => by rw [old t ht]
      rw [this]
      ring

/-- the factor with one more row -/
noncomputable def addRow (s : ℝ) (A : Nat → Nat → ℝ) (S : SimpFac ℝ) (k : Nat) : SimpFac ℝ :=
  ⟨fun i j => if i = k then (simpRow S (fun i => A i k) (A k k + s) k).2.2 j else S.L i j, fun i => if i = k then (simpRow S (fun i => A i k) (A k k + s) k).2.1 else S.D i⟩

theorem addRow_rows {s : ℝ} {A : Nat → Nat → ℝ} {S : SimpFac ℝ} {k : Nat} (h : Rows A s k S) (h0 : ∀ i < k, S.D i ≠ 0) : Rows A s (k + 1) (addRow s A S k) := by
  obtain ⟨_, h2, h3⟩ := row_spec (S := S) (y0 := fun i => A i k) (d0 := A k k + s) k h0
  have eD : ∀ t, t ≠ k → (addRow s A S k).D t = S.D t := fun t ht => if_neg ht
  have eL : ∀ t j, t ≠ k → (addRow s A S k).L t j = S.L t j := fun t j ht => if_neg ht
  have eDk : (addRow s A S k).D k = (simpRow S (fun i => A i k) (A k k + s) k).2.1 := if_pos rfl
  have eLk : ∀ j, (addRow s A S k).L k j = (simpRow S (fun i => A i k) (A k k + s) k).2.2 j := fun j => if_pos rfl
  constructor
  · intro i hi j hj
    rcases Nat.lt_succ_iff_lt_or_eq.mp hi with hi | rfl
    · rw [eD j (by omega), eL i j (by omega), h.below i hi j hj]
      congr 1
      refine Finset.sum_congr rfl fun t ht => ?_
      have := Finset.mem_range.mp ht
      rw [eD t (by omega), eL j t (by omega), eL i t (by omega)]
    · rw [eD j (by omega), eLk, h2 j hj]
      congr 1
      refine Finset.sum_congr rfl fun t ht => ?_
      have := Finset.mem_range.mp ht
      rw [eD t (by omega), eL j t (by omega), eLk]
  · intro i hi
    rcases Nat.lt_succ_iff_lt_or_eq.mp hi with hi | rfl
    · rw [eD i (by omega), h.diag i hi]
      congr 1
      refine Finset.sum_congr rfl fun t ht => ?_
      have := Finset.mem_range.mp ht
      rw [eD t (by omega), eL i t (by omega)]
    · rw [eDk, h3]
      congr 1
      refine Finset.sum_congr rfl fun t ht => ?_
      have := Finset.mem_range.mp ht
      rw [eD t (by omega), eLk]

theorem go_succ {s : ℝ} {A : Nat → Nat → ℝ} {k : Nat} : simpGo s A (k + 1) = (simpGo s A k).bind fun S => if (addRow s A S k).D k = 0 then none else some (addRow s A S k) := by
  rw [simpGo]
  cases simpGo s A k with
  | none => rfl
  | some S =>
    simp only [Option.bind_some]
    have e : (addRow s A S k).D k = (simpRow S (fun i => A i k) (add (A k k) s) k).2.1 := if_pos rfl
    rw [e]
    by_cases h : (simpRow S (fun i => A i k) (add (A k k) s) k).2.1 = 0
    · rw [if_pos h]
      exact if_pos (by rw [h]; simp)
    · rw [if_neg h]
      exact if_neg (by simpa using h)

theorem go_rows {s : ℝ} {A : Nat → Nat → ℝ} : ∀ {k : Nat} {S : SimpFac ℝ}, simpGo s A k = some S → Rows A s k S ∧ ∀ i < k, S.D i ≠ 0 := by
  intro k
  induction k with
  | zero => intro S _; exact ⟨⟨fun i hi => absurd hi (by omega), fun i hi => absurd hi (by omega)⟩, fun i hi => absurd hi (by omega)⟩
  | succ k ih =>
    intro S h
    rw [go_succ] at h
    cases hS : simpGo s A k with
    | none => rw [hS] at h; simp at h
    | some S0 =>
      rw [hS, Option.bind_some] at h
      obtain ⟨h1, h2⟩ := ih hS
      split at h
      · simp at h
      next hd =>
        injection h with h
        subst h
        refine ⟨addRow_rows h1 h2, fun i hi => ?_⟩
        rcases Nat.lt_succ_iff_lt_or_eq.mp hi with hi | rfl
        · have : (addRow s A S0 k).D i = S0.D i := if_neg (by omega)
          rw [this]; exact h2 i hi
        · exact hd

theorem sum_unit {L : Nat → Nat → ℝ} {k i : Nat} (hi : i < k) (f : Nat → ℝ) :
    ∑ t ∈ Finset.range k, unitL L i t * f t = f i + ∑ t ∈ Finset.range i, L i t * f t := by
  have h1 : ∑ t ∈ Finset.range k, unitL L i t * f t = ∑ t ∈ Finset.range (i + 1), unitL L i t * f t := by
    refine (Finset.sum_subset (Finset.range_subset_range.mpr (by omega)) fun t _ ht => ?_).symm
    have : i < t := by simpa using ht
    rw [unitL, if_neg (by omega), if_neg (by omega), zero_mul]
  rw [h1, Finset.sum_range_succ, add_comm]
  congr 1
  · rw [unitL, if_neg (by omega), if_pos rfl, one_mul]
  · exact Finset.sum_congr rfl fun t ht => by rw [unitL, if_pos (Finset.mem_range.mp ht)]

/-- `L D L'` is the matrix, on the rows done -/
theorem Rows.product {A : Nat → Nat → ℝ} {s : ℝ} {k : Nat} {S : SimpFac ℝ} (h : Rows A s k S) (hA : ∀ i j, A i j = A j i) {i j : Nat} (hi : i < k) (hj : j < k) :
    ∑ t ∈ Finset.range k, unitL S.L i t * (S.D t * unitL S.L j t) = A i j + if i = j then s else 0 := by
  have key : ∀ i j, i < k → j < i → ∑ t ∈ Finset.range k, unitL S.L i t * (S.D t * unitL S.L j t) = A i j := by
    intro i j hi hj
    have e : ∀ t, unitL S.L i t * (S.D t * unitL S.L j t) = unitL S.L j t * (S.D t * unitL S.L i t) := fun t => by ring
    rw [Finset.sum_congr rfl fun t _ => e t, sum_unit (by omega) fun t => S.D t * unitL S.L i t]
    have e2 : ∀ t < i, unitL S.L i t = S.L i t := fun t ht => if_pos ht
    have e3 : ∑ t ∈ Finset.range j, S.L j t * (S.D t * unitL S.L i t) = ∑ t ∈ Finset.range j, S.L j t * (S.D t * S.L i t) :=
      Finset.sum_congr rfl fun t ht => by rw [e2 t (by have := Finset.mem_range.mp ht; omega)]
    rw [e2 j hj, h.below i hi j hj, e3, hA i j]
    ring
  rcases lt_trichotomy j i with hji | rfl | hij
  · rw [key i j hi hji, if_neg (by omega), add_zero]
  · rw [if_pos rfl, sum_unit hj fun t => S.D t * unitL S.L j t]
    have e1 : unitL S.L j j = 1 := by rw [unitL, if_neg (by omega), if_pos rfl]
    have e2 : ∀ t < j, unitL S.L j t = S.L j t := fun t ht => if_pos ht
    have e3 : ∑ t ∈ Finset.range j, S.L j t * (S.D t * unitL S.L j t) = ∑ t ∈ Finset.range j, S.L j t * (S.D t * S.L j t) :=
      Finset.sum_congr rfl fun t ht => by rw [e2 t (Finset.mem_range.mp ht)]
    rw [e1, mul_one, e3]
    have := h.diag j hj
    linarith
  · have := key j i hj hij
    rw [if_neg (by omega), add_zero, hA i j, ← this]
    exact Finset.sum_congr rfl fun t _ => by ring

/-! ## The triangular solves -/

theorem fwd_eq (L : Nat → Nat → ℝ) (b : Nat → ℝ) : ∀ m j, simpFwd L b m j = b j - ∑ i ∈ Finset.range (min m j), L j i * simpFwd L b i i := by
  intro m
  induction m with
  | zero => intro j; simp [simpFwd]
  | succ m ih =>
    intro j
    show (if m < j then simpFwd L b m j - L j m * simpFwd L b m m else simpFwd L b m j) = _
    by_cases h : m < j
    · rw [if_pos h, ih j, show min (m + 1) j = m + 1 by omega, show min m j = m by omega, Finset.sum_range_succ]
      ring
    · rw [if_neg h, ih j, show min (m + 1) j = min m j by omega]

/-- forward substitution solves with the unit triangle -/
theorem fwd_solves (L : Nat → Nat → ℝ) (b : Nat → ℝ) {n i : Nat} (hi : i < n) : ∑ t ∈ Finset.range n, unitL L i t * simpFwd L b n t = b i := by
  have e : ∀ j ≤ n, simpFwd L b n j = simpFwd L b j j := fun j hj => by
    rw [fwd_eq L b n j, fwd_eq L b j j]
    congr 2
    rw [min_eq_right hj, min_self]
  have e2 : ∑ t ∈ Finset.range i, L i t * simpFwd L b n t = ∑ t ∈ Finset.range i, L i t * simpFwd L b t t :=
    Finset.sum_congr rfl fun t ht => by rw [e t (by have := Finset.mem_range.mp ht; omega)]
  rw [sum_unit hi, e2, e i hi.le, fwd_eq L b i i, min_self]
  ring

theorem foldl_sub (c : Nat → ℝ) : ∀ (l : List Nat) (a : ℝ), l.foldl (fun a j => a - c j) a = a - (l.map c).sum := by
  intro l
  induction l with
  | nil => intro a; simp
  | cons x l ih => intro a; rw [List.foldl_cons, ih]; simp; ring

theorem bwd_eq (L : Nat → Nat → ℝ) {n : Nat} (z : Nat → ℝ) : ∀ m ≤ n, ∀ i, n - m ≤ i → i < n →
    simpBwd L n z m i + ∑ j ∈ Finset.Ioo i n, L j i * simpBwd L n z m j = z i := by
  intro m
  induction m with
  | zero => intro _ i h1 h2; omega
  | succ m ih =>
    intro hm i h1 h2
    have step : ∀ j, simpBwd L n z (m + 1) j = if j = n - (m + 1) then
        (List.range' (n - (m + 1) + 1) m).foldl (fun a j => a - L j (n - (m + 1)) * simpBwd L n z m j) (z (n - (m + 1))) else simpBwd L n z m j := fun j => rfl
    have tail : ∑ j ∈ Finset.Ioo i n, L j i * simpBwd L n z (m + 1) j = ∑ j ∈ Finset.Ioo i n, L j i * simpBwd L n z m j :=
      Finset.sum_congr rfl fun j hj => by rw [step, if_neg (by have := Finset.mem_Ioo.mp hj; omega)]
    rw [tail, step]
    by_cases hi : i = n - (m + 1)
    · rw [if_pos hi, ← hi, foldl_sub]
      have : ((List.range' (i + 1) m).map fun j => L j i * simpBwd L n z m j).sum = ∑ j ∈ Finset.Ioo i n, L j i * simpBwd L n z m j := by
        have e : Finset.Ioo i n = (List.range' (i + 1) m).toFinset := by
          ext j
          simp only [Finset.mem_Ioo, List.mem_toFinset, List.mem_range'_1]
          omega
        rw [e, List.sum_toFinset _ List.nodup_range']
      rw [this]
      ring
    · rw [if_neg hi]
      exact ih (by omega) i (by omega) h2

/-- backward substitution solves with the transposed triangle -/
theorem bwd_solves (L : Nat → Nat → ℝ) {n : Nat} (z : Nat → ℝ) {t : Nat} (ht : t < n) : ∑ j ∈ Finset.range n, unitL L j t * simpBwd L n z n j = z t := by
  rw [← bwd_eq L z n le_rfl t (by omega) ht]
  have hs : Finset.range n = insert t (Finset.Ioo t n) ∪ Finset.range t := by
    ext j; simp only [Finset.mem_range, Finset.mem_union, Finset.mem_insert, Finset.mem_Ioo]; omega
  have hd : Disjoint (insert t (Finset.Ioo t n)) (Finset.range t) := by
    rw [Finset.disjoint_left]; intro j hj; simp only [Finset.mem_insert, Finset.mem_Ioo] at hj; simp; omega
  have e0 : ∑ j ∈ Finset.range t, unitL L j t * simpBwd L n z n j = 0 := Finset.sum_eq_zero fun j hj => by
    have := Finset.mem_range.mp hj
    rw [unitL, if_neg (by omega), if_neg (by omega), zero_mul]
  rw [hs, Finset.sum_union hd, e0, add_zero, Finset.sum_insert (by simp)]
  congr 1
  · rw [unitL, if_neg (by omega), if_pos rfl, one_mul]
  · exact Finset.sum_congr rfl fun j hj => by rw [unitL, if_pos (Finset.mem_Ioo.mp hj).1]

/-- the three solves together -/
theorem solve_core {A : Nat → Nat → ℝ} {s : ℝ} {n : Nat} {S : SimpFac ℝ} (h : Rows A s n S) (h0 : ∀ i < n, S.D i ≠ 0) (hA : ∀ i j, A i j = A j i) (b : Nat → ℝ) {i : Nat} (hi : i < n) :
    ∑ j ∈ Finset.range n, (A i j + if i = j then s else 0) * simpBwd S.L n (fun i => simpFwd S.L b n i / S.D i) n j = b i := by
  have e1 : ∀ j ∈ Finset.range n, (A i j + if i = j then s else 0) * simpBwd S.L n (fun i => simpFwd S.L b n i / S.D i) n j =
      ∑ t ∈ Finset.range n, unitL S.L i t * (S.D t * (unitL S.L j t * simpBwd S.L n (fun i => simpFwd S.L b n i / S.D i) n j)) := fun j hj => by
    rw [← h.product hA hi (Finset.mem_range.mp hj), Finset.sum_mul]
    exact Finset.sum_congr rfl fun t _ => by ring
  rw [Finset.sum_congr rfl e1, Finset.sum_comm]
  have e2 : ∀ t ∈ Finset.range n, ∑ j ∈ Finset.range n, unitL S.L i t * (S.D t * (unitL S.L j t * simpBwd S.L n (fun i => simpFwd S.L b n i / S.D i) n j)) =
      unitL S.L i t * simpFwd S.L b n t := fun t ht => by
    rw [← Finset.mul_sum, ← Finset.mul_sum, bwd_solves S.L _ (Finset.mem_range.mp ht)]
    have := h0 t (Finset.mem_range.mp ht)
    field_simp
  rw [Finset.sum_congr rfl e2]
  exact fwd_solves S.L b hi

/-- the quadratic form of the rows done -/
theorem form {A : Nat → Nat → ℝ} {s : ℝ} {k : Nat} {S : SimpFac ℝ} (h : Rows A s k S) (hA : ∀ i j, A i j = A j i) (x : Nat → ℝ) :
    ∑ i ∈ Finset.range k, ∑ j ∈ Finset.range k, x i * ((A i j + if i = j then s else 0) * x j) = ∑ t ∈ Finset.range k, S.D t * (∑ j ∈ Finset.range k, unitL S.L j t * x j) ^ 2 := by
  have e1 : ∀ i ∈ Finset.range k, ∀ j ∈ Finset.range k, x i * ((A i j + if i = j then s else 0) * x j) =
      ∑ t ∈ Finset.range k, S.D t * ((unitL S.L i t * x i) * (unitL S.L j t * x j)) := fun i hi j hj => by
    rw [← h.product hA (Finset.mem_range.mp hi) (Finset.mem_range.mp hj), Finset.sum_mul, Finset.mul_sum]
    exact Finset.sum_congr rfl fun t _ => by ring
  rw [Finset.sum_congr rfl fun i hi => Finset.sum_congr rfl fun j hj => e1 i hi j hj]
  have e2 : ∀ i ∈ Finset.range k, ∑ j ∈ Finset.range k, ∑ t ∈ Finset.range k, S.D t * ((unitL S.L i t * x i) * (unitL S.L j t * x j)) =
      ∑ t ∈ Finset.range k, ∑ j ∈ Finset.range k, S.D t * ((unitL S.L i t * x i) * (unitL S.L j t * x j)) := fun i _ => Finset.sum_comm
  rw [Finset.sum_congr rfl e2, Finset.sum_comm]
  refine Finset.sum_congr rfl fun t _ => ?_
  rw [pow_two, Finset.sum_mul_sum, Finset.mul_sum]
  exact Finset.sum_congr rfl fun i _ => by rw [Finset.mul_sum]

/-- for every `k` there is a vector, 1 at `k` and 0 after it, on which the form is the pivot `k` -/
theorem pivot_form {A : Nat → Nat → ℝ} {s : ℝ} {k : Nat} {S : SimpFac ℝ} (h : Rows A s (k + 1) S) (hA : ∀ i j, A i j = A j i) :
    ∃ x : Nat → ℝ, x k = 1 ∧ ∑ i ∈ Finset.range (k + 1), ∑ j ∈ Finset.range (k + 1), x i * ((A i j + if i = j then s else 0) * x j) = S.D k := by
  let z : Nat → ℝ := fun t => if t = k then 1 else 0
  refine ⟨simpBwd S.L (k + 1) z (k + 1), ?_, ?_⟩
  · have := bwd_eq S.L z (k + 1) le_rfl k (by omega) (by omega)
    rw [show Finset.Ioo k (k + 1) = ∅ by ext j; simp, Finset.sum_empty, add_zero] at this
    rw [this]; exact if_pos rfl
  · rw [form h hA, Finset.sum_eq_single k]
    · rw [bwd_solves S.L z (by omega), show z k = 1 from if_pos rfl]; ring
    · intro t ht htk
      rw [bwd_solves S.L z (Finset.mem_range.mp ht), show z t = 0 from if_neg htk]; ring
    · intro hk; exact absurd (Finset.mem_range.mpr (by omega)) hk

theorem permCoeff_sym {n : Nat} {σ : Equiv.Perm (Fin n)} {M : Mat ℝ n} (hM : SymR M) (i j : Nat) : permCoeff σ M i j = permCoeff σ M j i := by
  unfold permCoeff
  by_cases h : i < n ∧ j < n
  · rw [dif_pos h, dif_pos h.symm]; exact hM _ _
  · rw [dif_neg h, dif_neg fun h' => h h'.symm]

/-- sums over the indices in the order of elimination -/
theorem sum_perm {n : Nat} (σ : Equiv.Perm (Fin n)) (f : Fin n → ℝ) : ∑ j, f j = ∑ j ∈ Finset.range n, if h : j < n then f (σ ⟨j, h⟩) else 0 := by
  rw [← Equiv.sum_comp σ f, Finset.sum_range]
  exact Finset.sum_congr rfl fun j _ => by rw [dif_pos j.2]

end Simp

open Simp

section
variable {n : Nat} {σ : Equiv.Perm (Fin n)} {M : Mat ℝ n} {s : ℝ}

/-- **C110**: whenever the factorisation succeeds, whatever the matrix, the order of elimination and the shift, the solution is exact. -/
theorem C110_solves (hM : SymR M) {S : SimpFac ℝ} (h : simpGo s (permCoeff σ M) n = some S) (b : Vec ℝ n) : mv (shiftR s M) (simpSolve σ S b) = b := by
  obtain ⟨h1, h2⟩ := go_rows h
  funext i
  have key := solve_core h1 h2 (permCoeff_sym hM) (fun i => if h : i < n then b (σ ⟨i, h⟩) else ofInt 0) (σ.symm i).2
  rw [dif_pos (σ.symm i).2] at key
  simp only [Fin.eta, Equiv.apply_symm_apply] at key
  rw [← key]
  show ∑ j, shiftR s M i j * simpSolve σ S b j = _
  rw [sum_perm σ]
  refine Finset.sum_congr rfl fun j hj => ?_
  have hj' := Finset.mem_range.mp hj
  rw [dif_pos hj', permCoeff, dif_pos ⟨(σ.symm i).2, hj'⟩]
  simp only [Fin.eta, Equiv.apply_symm_apply]
  congr 1
  · unfold shiftR
    congr 1
    have : i = σ ⟨j, hj'⟩ ↔ (σ.symm i).1 = j := by
      constructor
      · rintro e; rw [e]; simp
      · intro e; subst e; simp
    simp only [this]
  · show simpBwd _ n _ n (σ.symm (σ ⟨j, hj'⟩)).1 = _
    rw [Equiv.symm_apply_apply]
    rfl

/-- the quadratic form of the shifted matrix in the order of elimination -/
theorem form_perm (x : Vec ℝ n) : dotR x (mv (shiftR s M) x) = ∑ i ∈ Finset.range n, ∑ j ∈ Finset.range n,
    (fun i => if h : i < n then x (σ ⟨i, h⟩) else 0) i * ((permCoeff σ M i j + if i = j then s else 0) * (fun i => if h : i < n then x (σ ⟨i, h⟩) else 0) j) := by
  show ∑ i, x i * ∑ j, shiftR s M i j * x j = _
  rw [sum_perm σ]
  refine Finset.sum_congr rfl fun i hi => ?_
  have hi' := Finset.mem_range.mp hi
  rw [dif_pos hi', sum_perm σ, Finset.mul_sum]
  refine Finset.sum_congr rfl fun j hj => ?_
  have hj' := Finset.mem_range.mp hj
  simp only [dif_pos hi', dif_pos hj']
  rw [permCoeff, dif_pos ⟨hi', hj'⟩, shiftR]
  have : σ ⟨i, hi'⟩ = σ ⟨j, hj'⟩ ↔ i = j := by rw [σ.injective.eq_iff, Fin.mk.injEq]
  simp only [this]

theorem pivots_pos (hM : SymR M) (hpd : PD (shiftR s M)) : ∀ k ≤ n, ∃ S, simpGo s (permCoeff σ M) k = some S ∧ ∀ i < k, 0 < S.D i := by
  intro k
  induction k with
  | zero => intro _; exact ⟨_, rfl, fun i hi => absurd hi (by omega)⟩
  | succ k ih =>
    intro hk
    obtain ⟨S, hS, hpos⟩ := ih (by omega)
    obtain ⟨h1, h2⟩ := go_rows hS
    have hrow := addRow_rows h1 h2
    obtain ⟨x, hx, hf⟩ := pivot_form hrow (permCoeff_sym hM)
    let v : Vec ℝ n := fun i => if (σ.symm i).1 ≤ k then x (σ.symm i).1 else 0
    have hv : v ≠ 0 := fun h => by
      have := congrFun h (σ ⟨k, by omega⟩)
      simp only [v, Equiv.symm_apply_apply, le_refl, if_true, hx] at this
      exact one_ne_zero this
    have hq := hpd.2 v hv
    rw [form_perm (σ := σ)] at hq
    have ev : ∀ i ∈ Finset.range n, (if h : i < n then v (σ ⟨i, h⟩) else 0) = if i ≤ k then x i else 0 := fun i hi => by
      rw [dif_pos (Finset.mem_range.mp hi)]
      simp only [v, Equiv.symm_apply_apply]
    have cut : ∀ f : Nat → ℝ, (∀ i, k < i → f i = 0) → ∑ i ∈ Finset.range n, f i = ∑ i ∈ Finset.range (k + 1), f i := fun f hf =>
      (Finset.sum_subset (Finset.range_subset_range.mpr hk) fun i _ hi => hf i (by simpa using hi)).symm
    have e : (∑ i ∈ Finset.range n, ∑ j ∈ Finset.range n,
        (fun i => if h : i < n then v (σ ⟨i, h⟩) else 0) i * ((permCoeff σ M i j + if i = j then s else 0) * (fun i => if h : i < n then v (σ ⟨i, h⟩) else 0) j)) =
        (addRow s (permCoeff σ M) S k).D k := by
      rw [← hf]
      have e1 : ∀ i ∈ Finset.range n, (∑ j ∈ Finset.range n,
          (fun i => if h : i < n then v (σ ⟨i, h⟩) else 0) i * ((permCoeff σ M i j + if i = j then s else 0) * (fun i => if h : i < n then v (σ ⟨i, h⟩) else 0) j)) =
          ∑ j ∈ Finset.range n, (if i ≤ k then x i else 0) * ((permCoeff σ M i j + if i = j then s else 0) * (if j ≤ k then x j else 0)) := fun i hi =>
        Finset.sum_congr rfl fun j hj => by simp only [ev i hi, ev j hj]
      rw [Finset.sum_congr rfl e1, cut]
      · refine Finset.sum_congr rfl fun i hi => ?_
        rw [cut]
        · refine Finset.sum_congr rfl fun j hj => ?_
          rw [if_pos (show i ≤ k by have := Finset.mem_range.mp hi; omega), if_pos (show j ≤ k by have := Finset.mem_range.mp hj; omega)]
        · intro j hj; rw [if_neg (show ¬j ≤ k by omega)]; ring
      · intro i hi
        refine Finset.sum_eq_zero fun j _ => ?_
        rw [if_neg (show ¬i ≤ k by omega)]; ring
    rw [e] at hq
    refine ⟨addRow s (permCoeff σ M) S k, ?_, fun i hi => ?_⟩
    · rw [go_succ, hS, Option.bind_some, if_neg hq.ne']
    · rcases Nat.lt_succ_iff_lt_or_eq.mp hi with hi | rfl
      · have : (addRow s (permCoeff σ M) S k).D i = S.D i := if_neg (by omega)
        rw [this]; exact hpos i hi
      · exact hq

/-- **C110**: the shifted matrix is positive definite exactly when the factorisation succeeds with positive pivots, in whatever order. -/
theorem C110_positive (hM : SymR M) : PD (shiftR s M) ↔ ∃ S, simpGo s (permCoeff σ M) n = some S ∧ ∀ i < n, 0 < S.D i := by
  refine ⟨fun h => pivots_pos hM h n le_rfl, ?_⟩
  rintro ⟨S, hS, hpos⟩
  obtain ⟨h1, _⟩ := go_rows hS
  refine ⟨fun i j => by unfold shiftR; rw [hM i j]; simp only [eq_comm], fun v hv => ?_⟩
  rw [form_perm (σ := σ), form h1 (permCoeff_sym hM)]
  refine lt_of_le_of_ne (Finset.sum_nonneg fun t ht => mul_nonneg (hpos t (Finset.mem_range.mp ht)).le (sq_nonneg _)) fun h0 => hv ?_
  have hz : ∀ t < n, ∑ j ∈ Finset.range n, unitL S.L j t * (fun i => if h : i < n then v (σ ⟨i, h⟩) else 0) j = 0 := fun t ht => by
    have := (Finset.sum_eq_zero_iff_of_nonneg fun t ht => mul_nonneg (hpos t (Finset.mem_range.mp ht)).le (sq_nonneg _)).mp h0.symm t (Finset.mem_range.mpr ht)
    have h2 := (mul_eq_zero.mp this).resolve_left (hpos t ht).ne'
    exact pow_eq_zero_iff (two_ne_zero) |>.mp h2
  -- the triangle has a unit diagonal: from the last coefficient to the first
  have hall : ∀ m, ∀ t, t < n → n ≤ t + m → (fun i => if h : i < n then v (σ ⟨i, h⟩) else 0) t = (0 : ℝ) := by
    intro m
    induction m with
    | zero => intro t h1 h2; omega
    | succ m ih =>
      intro t ht hm
      have := hz t ht
      rw [Finset.sum_eq_single t] at this
      · rwa [unitL, if_neg (by omega), if_pos rfl, one_mul] at this
      · intro j hj hjt
        rcases lt_or_gt_of_ne hjt with h | h
        · rw [unitL, if_neg (by omega), if_neg (by omega), zero_mul]
        · rw [ih j (Finset.mem_range.mp hj) (by omega), mul_zero]
      · intro h; exact absurd (Finset.mem_range.mpr ht) h
  funext i
  have := hall n (σ.symm i).1 (σ.symm i).2 (by omega)
  simp only [dif_pos (σ.symm i).2, Fin.eta, Equiv.apply_symm_apply] at this
  exact this

end

/-- **C110**, consequence: `SimplicialLDLT` meets the assumptions made on sparse factorisations elsewhere (C61, C63, C102), whatever the order of elimination. -/
theorem C110_exact (ord : (n : Nat) → SpSq ℝ n → Equiv.Perm (Fin n)) : ExactShift (simplicial ord) ∧
    ((∀ n (A B : SpSq ℝ n), symUpper A.dense = symUpper B.dense → ord n A = ord n B) → ExactSparse (simplicial ord)) := by
  have hs : ExactShift (simplicial ord) := fun s n A v hpd => by
    obtain ⟨S, hS, _⟩ := pivots_pos (σ := ord n A) (symUpper_sym A.dense) hpd n le_rfl
    refine ⟨by simp only [simplicial]; rw [hS]; rfl, ?_⟩
    simp only [simplicial]
    rw [hS]
    exact C110_solves (symUpper_sym A.dense) hS v
  refine ⟨hs, fun ho => ⟨fun n A B v h => ?_, fun n A v hpd => ?_⟩⟩
  · have e1 : (simplicial ord).factor (ofInt 0) n A = (simplicial ord).factor (ofInt 0) n B := by simp only [simplicial]; rw [h, ho n A B h]
    have e2 : (simplicial ord).solve (ofInt 0) n A v = (simplicial ord).solve (ofInt 0) n B v := by simp only [simplicial]; rw [h, ho n A B h]
    rw [spSolveLDLT, spSolveLDLT, e1, e2]
  · have e : shiftR 0 (symUpper A.dense) = symUpper A.dense := by funext i j; simp [shiftR]
    have := hs 0 n A v (by rw [e]; exact hpd)
    rwa [e] at this

/-- **C110**: an answer of the sparse `SolveLDLT` is always right, and the only solution; so there is no answer for singular matrices. -/
theorem C110_answer (ord : (n : Nat) → SpSq ℝ n → Equiv.Perm (Fin n)) {n : Nat} {A : SpSq ℝ n} {b x : Vec ℝ n} (h : spSolveLDLT (simplicial ord) A b = some x) :
    mv (symUpper A.dense) x = b ∧ ∀ y, mv (symUpper A.dense) y = b → y = x := by
  have hsym := symUpper_sym A.dense
  rw [spSolveLDLT] at h
  split at h <;> [skip; simp at h]
  next hf =>
  simp only [simplicial, RealOps.ofInt_eq, Int.cast_zero, Option.isSome_iff_exists] at hf h
  obtain ⟨S, hS⟩ := hf
  rw [hS, Option.some.injEq] at h
  have e : shiftR 0 (symUpper A.dense) = symUpper A.dense := by funext i j; simp [shiftR]
  have sol : ∀ c, mv (symUpper A.dense) (simpSolve (ord n A) S c) = c := fun c => by
    have := C110_solves hsym hS c
    rwa [e] at this
  have h : simpSolve (ord n A) S b = x := h
  have hx := sol b
  rw [h] at hx
  refine ⟨hx, fun y hy => ?_⟩
  have h0 : mv (symUpper A.dense) (y - x) = 0 := by rw [mv_sub, hx, hy, sub_self]
  have : dotR (y - x) (y - x) = 0 := by
    conv_lhs => rw [← sol (y - x)]
    rw [sym_dot hsym, sol, h0]
    simp [dotR]
  exact sub_eq_zero.mp (dotR_self_eq_zero this)

/-- diagonal matrices have no `L` -/
theorem go_diag {n : Nat} {σ : Equiv.Perm (Fin n)} {d : Vec ℝ n} (hd : ∀ i, d i ≠ 0) : ∀ k ≤ n, ∃ S, simpGo 0 (permCoeff σ fun i j => if i = j then d i else 0) k = some S ∧
    ∀ i < k, ∀ j < i, S.L i j = 0 := by
  intro k
  induction k with
  | zero => intro _; exact ⟨_, rfl, fun i hi => absurd hi (by omega)⟩
  | succ k ih =>
    intro hk
    obtain ⟨S, hS, hL⟩ := ih (by omega)
    obtain ⟨h1, h2⟩ := go_rows hS
    have hrow := addRow_rows h1 h2
    have eD : ∀ t, t ≠ k → (addRow 0 (permCoeff σ fun i j => if i = j then d i else 0) S k).D t = S.D t := fun t ht => if_neg ht
    have eL : ∀ t j, t ≠ k → (addRow 0 (permCoeff σ fun i j => if i = j then d i else 0) S k).L t j = S.L t j := fun t j ht => if_neg ht
    have off : ∀ j < k, (addRow 0 (permCoeff σ fun i j => if i = j then d i else 0) S k).L k j = 0 := fun j hj => by
      have := hrow.below k (by omega) j hj
      rw [Finset.sum_eq_zero fun t ht => by
        rw [eL j t (by omega), hL j hj t (Finset.mem_range.mp ht), zero_mul], permCoeff, dif_pos ⟨by omega, by omega⟩, if_neg, sub_zero, eD j (by omega)] at this
      · exact (mul_eq_zero.mp this).resolve_left (h2 j hj)
      · rw [σ.injective.eq_iff, Fin.mk.injEq]; omega
    have piv : (addRow 0 (permCoeff σ fun i j => if i = j then d i else 0) S k).D k = d (σ ⟨k, by omega⟩) := by
      rw [hrow.diag k (by omega), Finset.sum_eq_zero fun t ht => by rw [off t (Finset.mem_range.mp ht), zero_mul], permCoeff, dif_pos ⟨by omega, by omega⟩, if_pos rfl]
      ring
    refine ⟨_, by rw [go_succ, hS, Option.bind_some, if_neg (by rw [piv]; exact hd _)], fun i hi j hj => ?_⟩
    rcases Nat.lt_succ_iff_lt_or_eq.mp hi with hi | rfl
    · rw [eL i j (by omega)]; exact hL i hi j hj
    · exact off j hj

/-- **C110**, violation: `SolveLDLT` is documented to return nothing if the matrix is not positive definite. A diagonal matrix without zeros is solved whatever its signs are. -/
theorem C110_indefinite (ord : (n : Nat) → SpSq ℝ n → Equiv.Perm (Fin n)) {n : Nat} {d : Vec ℝ n} (hd : ∀ i, d i ≠ 0) (b : Vec ℝ n) :
    spSolveLDLT (simplicial ord) (SpSq.ofDense fun i j => if i = j then d i else 0) b = some fun i => b i / d i := by
  have hM : SymR (fun i j => if i = j then d i else 0 : Mat ℝ n) := fun i j => by
    by_cases h : i = j
    · rw [h]
    · simp only [if_neg h, if_neg (Ne.symm h)]
  have e : symUpper (SpSq.ofDense (fun i j => if i = j then d i else 0 : Mat ℝ n)).dense = fun i j => if i = j then d i else 0 := by
    rw [dense_ofDense _ fun i j hz => by simpa using hz, symUpper_of_sym hM]
  obtain ⟨S, hS, _⟩ := go_diag (σ := ord n (SpSq.ofDense fun i j => if i = j then d i else 0)) hd n le_rfl
  have hf : (simplicial ord).factor (ofInt 0) n (SpSq.ofDense fun i j => if i = j then d i else 0) = true := by
    simp only [simplicial, RealOps.ofInt_eq, Int.cast_zero]; rw [e, hS]; rfl
  have hs : (simplicial ord).solve (ofInt 0) n (SpSq.ofDense fun i j => if i = j then d i else 0) b = simpSolve (ord n (SpSq.ofDense fun i j => if i = j then d i else 0)) S b := by
    simp only [simplicial, RealOps.ofInt_eq, Int.cast_zero]; rw [e, hS]
  rw [spSolveLDLT, if_pos hf, hs, Option.some.injEq]
  have hx := C110_solves hM hS b
  funext i
  have := congrFun hx i
  simp only [mv, shiftR, ite_self, add_zero, ite_mul, zero_mul, Finset.sum_ite_eq, Finset.mem_univ, if_true] at this
  rw [eq_div_iff (hd i), mul_comm]
  exact this

/-- the Hessian diag(1, -1): the "solution" for the gradient (0, -1), that is the right-hand side (0, 1), goes up the gradient -/
example (ord : (n : Nat) → SpSq ℝ n → Equiv.Perm (Fin n)) : ∃ x, spSolveLDLT (simplicial ord) (SpSq.ofDense fun i j => if i = j then ![1, -1] i else 0) ![0, 1] = some x ∧
    0 < dotR ![0, -1] x := by
  refine ⟨_, C110_indefinite ord (fun i => by fin_cases i <;> simp) _, ?_⟩
  simp [dotR, Fin.sum_univ_two]

/-- **C110**: outside of the positive definite matrices the order of elimination decides whether a solution is found. -/
theorem C110_order : simpGo 0 (permCoeff (Equiv.refl (Fin 2)) (fun i j => if i = 0 ∧ j = 0 then 0 else 1 : Mat ℝ 2)) 2 = none ∧
    (simpGo 0 (permCoeff (Equiv.swap 0 1) (fun i j => if i = 0 ∧ j = 0 then 0 else 1 : Mat ℝ 2)) 2).isSome = true := by
  constructor
  · rw [go_succ, go_succ]
    simp [simpGo, addRow, simpRow, permCoeff]
  · rw [go_succ, go_succ]
    simp [simpGo, addRow, simpRow, permCoeff]

/-- a positive definite matrix, factorised -/
example : PD (shiftR 0 (fun i j => if i = j then 2 else 1 : Mat ℝ 2)) := by
  refine ⟨fun i j => by simp only [shiftR, eq_comm], fun v hv => ?_⟩
  have : dotR v (mv (shiftR 0 (fun i j => if i = j then 2 else 1 : Mat ℝ 2)) v) = v 0 ^ 2 + v 1 ^ 2 + (v 0 + v 1) ^ 2 := by
    simp [dotR, mv, shiftR, Fin.sum_univ_two]; ring
  rw [this]
  rcases eq_or_ne (v 0) 0 with h | h
  · have h1 : v 1 ≠ 0 := fun h1 => hv (by funext i; fin_cases i <;> assumption)
    positivity
  · positivity

/-- in the natural order it is an exact sparse decomposition in the sense of C61 -/
example : ExactSparse (simplicial fun n _ => Equiv.refl (Fin n)) := (C110_exact _).2 fun _ _ _ _ => rfl

end Verif
