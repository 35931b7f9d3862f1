import Verif.Lemmas.LdltRound
import Verif.Props.EigenLDLT
/-!
# Rounding errors of the LDLT decomposition: the loop succeeds and factorises a nearby matrix
-/

set_option linter.unusedSectionVars false

namespace Verif
open FloatOps

section
variable {n : Nat} {u : ℝ} {r : Rnd u}

/-- the relative error of the factors -/
def facErr (u : ℝ) (n : ℕ) : ℝ := (1 + u) ^ (n + 3) - 1

theorem facErr_nonneg (hu : 0 ≤ u) (n : ℕ) : 0 ≤ facErr u n := by unfold facErr; linarith [one_le_pow_u hu (n + 3)]

/-- the symmetric matrix `A` is at least `μ` times its diagonal -/
structure Coercive (μ : ℝ) (A : Mat ℝ n) : Prop where
  sym : SymR A
  diag : ∀ i, 0 < A i i
  bound : ∀ v : Vec ℝ n, μ * ∑ i, A i i * v i ^ 2 ≤ dotR v (mv A v)

/-- the numbers of a matrix -/
def matV (A : Mat (Rd r) n) : Mat ℝ n := fun i j => (A i j).v

/-- The columns so far are a decomposition of the rows and columns of the pivots, up to rounding. -/
structure LdInv (μ : ℝ) (A : Mat (Rd r) n) (done : List (LdltCol (Rd r) n)) : Prop where
  nodup : (done.map (·.p)).Nodup
  pos : ∀ w ∈ fullCols [] done, 0 < w.1
  big : ∀ c ∈ done, μ / 4 * (A c.p c.p).v ≤ c.d.v
  near : ∀ i j, i ∈ done.map (·.p) ∨ j ∈ done.map (·.p) → |(A i j).v - ldM (fullCols [] done) i j| ≤ facErr u n * ldAbs (fullCols [] done) i j
  elim : ∀ k, k ∉ done.map (·.p) → ∃ z : Vec ℝ n, z k = 1 ∧ (∀ i, i ∉ done.map (·.p) → i ≠ k → z i = 0) ∧ ∀ w ∈ fullCols [] done, ∑ i, w.2 i * z i = 0

theorem ldM_quad (ws : List (ℝ × Vec ℝ n)) (z : Vec ℝ n) (h : ∀ w ∈ ws, ∑ i, w.2 i * z i = 0) : ∑ i, ∑ j, ldM ws i j * z i * z j = 0 := by
  induction ws with
  | nil => simp [ldM]
  | cons w ws ih =>
    have h1 := ih fun w hw => h w (List.mem_cons_of_mem _ hw)
    have h2 := h w List.mem_cons_self
    have e : ∀ i j, ldM (w :: ws) i j * z i * z j = w.1 * (w.2 i * z i) * (w.2 j * z j) + ldM ws i j * z i * z j := by
      intro i j
      simp only [ldM, List.map_cons, List.sum_cons]; ring
    simp only [e, Finset.sum_add_distrib, h1, add_zero, ← Finset.mul_sum, h2, mul_zero, Finset.sum_const_zero]

/-- what the pivots have taken off the diagonal -/
theorem taken_core {μ G : ℝ} {A : Mat ℝ n} (hA : Coercive μ A) (hG0 : 0 ≤ G) (hμ : 2 * (n + 1) * G ≤ μ) (hμ1 : μ ≤ 1) {D : Fin n → Prop} {ws : List (ℝ × Vec ℝ n)}
    (hpos : ∀ w ∈ ws, 0 < w.1) (hnear : ∀ i j, D i ∨ D j → |A i j - ldM ws i j| ≤ G * ldAbs ws i j) {k : Fin n} (hk : ¬ D k)
    (helim : ∃ z : Vec ℝ n, z k = 1 ∧ (∀ i, ¬ D i → i ≠ k → z i = 0) ∧ ∀ w ∈ ws, ∑ i, w.2 i * z i = 0) :
    ldM ws k k * (1 - n * G) ≤ (1 - μ) * A k k := by
  obtain ⟨z, z1, z2, z3⟩ := helim
  set M := ldM ws with hM
  have hn : (1 : ℝ) ≤ n := by
    have : 0 < n := k.pos
    exact_mod_cast this
  have hG4 : G ≤ 1 / 4 := by nlinarith
  have hMd := ldM_diag_nonneg hpos
  have hcase : ∀ i, D i ∨ i = k ∨ z i = 0 := by
    intro i
    by_cases h1 : D i
    · exact Or.inl h1
    · by_cases h2 : i = k
      · exact Or.inr (Or.inl h2)
      · exact Or.inr (Or.inr (z2 i h1 h2))
  have hdiag : ∀ i, D i → M i i ≤ 4 / 3 * A i i := by
    intro i hi
    have h1 := abs_le.1 (hnear i i (Or.inl hi))
    rw [ldM_diag hpos] at h1
    have h2 := hMd i
    have h3 : G * M i i ≤ 1 / 4 * M i i := mul_le_mul_of_nonneg_right hG4 h2
    linarith [h1.1, h1.2]
  have key : ∀ i j, (A i j - M i j) * z i * z j ≤ (if i = k then if j = k then A k k - M k k else 0 else 0) + G / 2 * (M i i * z i ^ 2 + M j j * z j ^ 2) := by
    intro i j
    have hr0 : 0 ≤ G / 2 * (M i i * z i ^ 2 + M j j * z j ^ 2) :=
      mul_nonneg (by linarith) (add_nonneg (mul_nonneg (hMd i) (sq_nonneg _)) (mul_nonneg (hMd j) (sq_nonneg _)))
    have hin : (D i ∨ D j) → (A i j - M i j) * z i * z j ≤ G / 2 * (M i i * z i ^ 2 + M j j * z j ^ 2) := by
      intro hij
      have h1 := hnear i j hij
      have h2 := ldAbs_amgm hpos i j (z i) (z j)
      have h3 : (A i j - M i j) * z i * z j ≤ |A i j - M i j| * (|z i| * |z j|) := by
        rw [← abs_mul, ← abs_mul, ← mul_assoc]; exact le_abs_self _
      have h4 := mul_le_mul_of_nonneg_right h1 (mul_nonneg (abs_nonneg (z i)) (abs_nonneg (z j)))
      have h5 := mul_le_mul_of_nonneg_left h2 hG0
      rw [← hM] at *
      linarith
    rcases hcase i with hi | rfl | hi
    · rw [if_neg fun e : i = k => hk (e ▸ hi), zero_add]; exact hin (Or.inl hi)
    · rcases hcase j with hj | rfl | hj
      · rw [if_pos rfl, if_neg fun e : j = i => hk (e ▸ hj), zero_add]; exact hin (Or.inr hj)
      · rw [if_pos rfl, if_pos rfl]; rw [z1] at hr0 ⊢; linarith
      · rw [hj, mul_zero, if_pos rfl]
        split
        next e => subst e; rw [z1] at hj; exact absurd hj one_ne_zero
        · rw [hj] at hr0; linarith
    · rw [hi, mul_zero, zero_mul]
      rw [hi] at hr0
      split
      next e => subst e; rw [z1] at hi; exact absurd hi one_ne_zero
      · linarith
  have hsum := Finset.sum_le_sum fun i (_ : i ∈ Finset.univ) => Finset.sum_le_sum fun j (_ : j ∈ Finset.univ) => key i j
  have hL : ∑ i, ∑ j, (A i j - M i j) * z i * z j = dotR z (mv A z) := by
    have e : ∀ i j, (A i j - M i j) * z i * z j = A i j * z i * z j - M i j * z i * z j := by intros; ring
    simp only [e, Finset.sum_sub_distrib]
    rw [show ∑ i, ∑ j, M i j * z i * z j = 0 from ldM_quad _ z z3, sub_zero]
    unfold dotR mv
    refine Finset.sum_congr rfl fun i _ => ?_
    rw [Finset.mul_sum]
    exact Finset.sum_congr rfl fun j _ => by ring
  have hR : ∑ i, ∑ j, ((if i = k then if j = k then A k k - M k k else 0 else 0) + G / 2 * (M i i * z i ^ 2 + M j j * z j ^ 2)) =
      (A k k - M k k) + G * n * ∑ i, M i i * z i ^ 2 := by
    have e1 : ∑ i, ∑ j, (if i = k then if j = k then A k k - M k k else 0 else 0) = A k k - M k k := by
      rw [Finset.sum_eq_single k (fun i _ hi => by simp [hi]) (by simp)]
      simp
    simp only [Finset.sum_add_distrib, ← Finset.mul_sum, Finset.sum_const, Finset.card_univ, Fintype.card_fin, nsmul_eq_mul, e1]
    have e2 : ∑ x, M x x * (n * z x ^ 2) = n * ∑ x, M x x * z x ^ 2 := by
      rw [Finset.mul_sum]
      exact Finset.sum_congr rfl fun x _ => by ring
    rw [e2]
    ring
  rw [hL, hR] at hsum
  have hb := hA.bound z
  have hQ : ∑ i, M i i * z i ^ 2 ≤ 4 / 3 * (∑ i, A i i * z i ^ 2) + (M k k - 4 / 3 * A k k) := by
    have : ∀ i, M i i * z i ^ 2 ≤ 4 / 3 * (A i i * z i ^ 2) + if i = k then M k k - 4 / 3 * A k k else 0 := by
      intro i
      rcases hcase i with hi | rfl | hi
      · rw [if_neg fun e : i = k => hk (e ▸ hi)]
        have := mul_le_mul_of_nonneg_right (hdiag i hi) (sq_nonneg (z i))
        linarith
      · rw [if_pos rfl, z1]; linarith
      · rw [hi]
        split
        next e => subst e; rw [z1] at hi; exact absurd hi one_ne_zero
        · simp
    have h1 := Finset.sum_le_sum fun i (_ : i ∈ Finset.univ) => this i
    rw [Finset.sum_add_distrib, ← Finset.mul_sum, Finset.sum_ite_eq' Finset.univ k, if_pos (Finset.mem_univ _)] at h1
    exact h1
  have hQk : A k k ≤ ∑ i, A i i * z i ^ 2 := by
    have := Finset.single_le_sum (f := fun i => A i i * z i ^ 2) (fun i _ => mul_nonneg (hA.diag i).le (sq_nonneg _)) (Finset.mem_univ k)
    simp only [z1] at this
    linarith
  have hGn : 0 ≤ G * n := by positivity
  have h5 := mul_le_mul_of_nonneg_left hQ hGn
  have h6 : 0 ≤ (μ - 4 / 3 * (G * n)) * ((∑ i, A i i * z i ^ 2) - A k k) := mul_nonneg (by nlinarith) (by linarith)
  have hb' : μ * ∑ i, A i i * z i ^ 2 ≤ dotR z (mv A z) := hb
  nlinarith

/-- what the pivots have taken off the diagonal -/
theorem LdInv.taken (hu : 0 ≤ u) {μ : ℝ} {A : Mat (Rd r) n} (hA : Coercive μ (matV A)) (hμ : 2 * (n + 1) * facErr u n ≤ μ) (hμ1 : μ ≤ 1)
    {done : List (LdltCol (Rd r) n)} (h : LdInv μ A done) {k : Fin n} (hk : k ∉ done.map (·.p)) :
    ldM (fullCols [] done) k k * (1 - n * facErr u n) ≤ (1 - μ) * (A k k).v :=
  taken_core (D := fun i => i ∈ done.map (·.p)) hA (facErr_nonneg hu n) hμ hμ1 h.pos h.near hk (h.elim k hk)

/-- the pivot -/
theorem LdInv.pivot (hu : 0 ≤ u) (hu2 : u ≤ 1 / 2) {μ : ℝ} {A : Mat (Rd r) n} (hA : Coercive μ (matV A)) (hμ : 2 * (n + 1) * facErr u n ≤ μ) (hμ0 : 0 < μ) (hμ1 : μ ≤ 1)
    {done : List (LdltCol (Rd r) n)} (h : LdInv μ A done) {k : Fin n} (hk : k ∉ done.map (·.p)) (hlen : done.length < n) :
    μ / 4 * (A k k).v ≤ (ldltRest A done k k).v ∧ 0 < (ldltRest A done k k).v := by
  have ht := h.taken hu hA hμ hμ1 hk
  set M := ldM (fullCols [] done) k k with hM
  set G := facErr u n with hG
  have hG0 : 0 ≤ G := facErr_nonneg hu n
  have hn : (1 : ℝ) ≤ n := by
    have : 0 < n := k.pos
    exact_mod_cast this
  have hd := ((ldltDot_near hu done hk hk).mono hu (show done.length + 2 ≤ n + 3 by omega)).2
  rw [ldM_diag h.pos] at hd
  have hM0 : 0 ≤ M := ldM_diag_nonneg h.pos k
  have hd2 : (ldltDot done k k).v ≤ (1 + G) * M := by
    have := (abs_le.1 hd).2
    unfold facErr at hG
    rw [← hM, ← hG] at this
    linarith
  have hakk : 0 < (A k k).v := hA.diag k
  have hnG : n * G ≤ 1 / 2 := by nlinarith
  have h1 : (1 + G) * M * (1 - n * G) ≤ (1 - μ / 2) * (A k k).v * (1 - n * G) := by
    have h2 : (1 + G) * ((1 - μ) * (A k k).v) ≤ (1 - μ / 2) * (1 - n * G) * (A k k).v := by
      have h3 : (1 + G) * (1 - μ) ≤ (1 - μ / 2) * (1 - n * G) := by nlinarith [mul_nonneg hG0 hμ0.le, mul_nonneg (mul_nonneg hG0 hμ0.le) (by linarith : (0:ℝ) ≤ n)]
      nlinarith
    have := mul_le_mul_of_nonneg_left ht (show 0 ≤ 1 + G by linarith)
    linarith
  have h4 : (1 + G) * M ≤ (1 - μ / 2) * (A k k).v := le_of_mul_le_mul_right h1 (by linarith)
  have h5 : μ / 2 * (A k k).v ≤ (A k k).v - (ldltDot done k k).v := by linarith
  have h6 : 0 < (A k k).v - (ldltDot done k k).v := lt_of_lt_of_le (by positivity) h5
  obtain ⟨h7, h8⟩ := r.pos hu2 h6
  refine ⟨?_, h8⟩
  show _ ≤ r.rnd _
  refine le_trans ?_ h7
  have : 1 / 2 * (μ / 2 * (A k k).v) ≤ (1 - u) * ((A k k).v - (ldltDot done k k).v) :=
    mul_le_mul (by linarith) h5 (by positivity) (by linarith)
  linarith

/-- the next column -/
theorem LdInv.step (hu : 0 ≤ u) (hu2 : u ≤ 1 / 2) {μ : ℝ} {A : Mat (Rd r) n} (hA : Coercive μ (matV A)) (hμ : 2 * (n + 1) * facErr u n ≤ μ) (hμ0 : 0 < μ) (hμ1 : μ ≤ 1)
    {done : List (LdltCol (Rd r) n)} (h : LdInv μ A done) {p : Fin n} (hp : p ∉ done.map (·.p)) (hlen : done.length < n) :
    LdInv μ A (done ++ [⟨p, ldltRest A done p p, fun i => div (ldltRest A done i p) (ldltRest A done p p)⟩]) := by
  obtain ⟨hbig, hpos⟩ := h.pivot hu hu2 hA hμ hμ0 hμ1 hp hlen
  set d := ldltRest A done p p with hd
  set c : LdltCol (Rd r) n := ⟨p, d, fun i => div (ldltRest A done i p) d⟩ with hc
  have hmap : (done ++ [c]).map (·.p) = done.map (·.p) ++ [p] := by simp [hc]
  have hsn := fullCols_snoc done c []
  rw [List.nil_append] at hsn
  set v : Vec ℝ n := fun i => if i = c.p then 1 else if i ∈ done.map (·.p) then 0 else (c.l i).v with hv
  have hvp : v p = 1 := by simp [hv, hc]
  have hvin : ∀ i ∈ done.map (·.p), v i = 0 := by
    intro i hi
    have : i ≠ p := fun e => hp (e ▸ hi)
    simp only [hv]
    rw [if_neg (show ¬ i = c.p from this), if_pos hi]
  have hvout : ∀ i, i ≠ p → i ∉ done.map (·.p) → v i = r.rnd ((ldltRest A done i p).v / d.v) := by
    intro i hi hi2
    simp only [hv]
    rw [if_neg (show ¬ i = c.p from hi), if_neg hi2]; rfl
  have hM : ∀ i j, ldM (fullCols [] (done ++ [c])) i j = ldM (fullCols [] done) i j + d.v * v i * v j := by
    intro i j; rw [hsn, ldM_append]; simp [ldM, hc]
  have hAb : ∀ i j, ldAbs (fullCols [] (done ++ [c])) i j = ldAbs (fullCols [] done) i j + |d.v * v i * v j| := by
    intro i j; rw [hsn, ldAbs_append]; simp [ldAbs, hc]
  have hsymA : ∀ i j, (A i j).v = (A j i).v := hA.sym
  -- the column of the pivot
  have hcol : ∀ i, i ∉ done.map (·.p) → |(A i p).v - (ldM (fullCols [] done) i p + d.v * v i * v p)| ≤ facErr u n * (ldAbs (fullCols [] done) i p + |d.v * v i * v p|) := by
    intro i hi
    have hdot := ((ldltDot_near hu done hi hp).mono hu (show done.length + 2 ≤ n + 3 by omega)).2
    have hrest := r.back hu hu2 ((A i p).v - (ldltDot done i p).v)
    rw [show r.rnd ((A i p).v - (ldltDot done i p).v) = (ldltRest A done i p).v from rfl] at hrest
    have hl : |(ldltRest A done i p).v - d.v * v i| ≤ ((1 + u) ^ 2 - 1) * |d.v * v i| := by
      by_cases hip : i = p
      · subst hip
        rw [hvp, mul_one, ← hd, sub_self, abs_zero]
        exact mul_nonneg (by nlinarith) (abs_nonneg _)
      · have hb := r.back hu hu2 ((ldltRest A done i p).v / d.v)
        rw [← hvout i hip hi] at hb
        have e : (ldltRest A done i p).v - d.v * v i = d.v * ((ldltRest A done i p).v / d.v - v i) := by field_simp
        rw [e, abs_mul, abs_mul]
        calc |d.v| * |(ldltRest A done i p).v / d.v - v i| ≤ |d.v| * (((1 + u) ^ 2 - 1) * |v i|) := mul_le_mul_of_nonneg_left hb (abs_nonneg _)
          _ = _ := by ring
    have hs : |(ldltRest A done i p).v| ≤ (1 + u) ^ 2 * |d.v * v i| := by
      have := abs_add_le ((ldltRest A done i p).v - d.v * v i) (d.v * v i)
      rw [sub_add_cancel] at this
      linarith
    have h2 : 0 ≤ (1 + u) ^ 2 - 1 := by nlinarith
    have hs2 := mul_le_mul_of_nonneg_left hs h2
    rw [hvp, mul_one]
    have e : (A i p).v - (ldM (fullCols [] done) i p + d.v * v i) =
        ((A i p).v - (ldltDot done i p).v - (ldltRest A done i p).v) + ((ldltDot done i p).v - ldM (fullCols [] done) i p) + ((ldltRest A done i p).v - d.v * v i) := by ring
    rw [e]
    have h3 := abs_add_three ((A i p).v - (ldltDot done i p).v - (ldltRest A done i p).v) ((ldltDot done i p).v - ldM (fullCols [] done) i p) ((ldltRest A done i p).v - d.v * v i)
    have hn4 : (1 + u) ^ 4 ≤ (1 + u) ^ (n + 3) := pow_u_mono hu (by omega)
    have h5 : ((1 + u) ^ 4 - 1) * |d.v * v i| ≤ facErr u n * |d.v * v i| := by
      unfold facErr
      exact mul_le_mul_of_nonneg_right (by linarith) (abs_nonneg _)
    have h6 : ((1 + u) ^ 2 - 1) * ((1 + u) ^ 2 * |d.v * v i|) + ((1 + u) ^ 2 - 1) * |d.v * v i| = ((1 + u) ^ 4 - 1) * |d.v * v i| := by ring
    have h7 : ((1 + u) ^ (n + 3) - 1) * ldAbs (fullCols [] done) i p = facErr u n * ldAbs (fullCols [] done) i p := rfl
    rw [mul_add]
    linarith
  refine ⟨?_, ?_, ?_, ?_, ?_⟩
  · rw [hmap]
    exact List.nodup_append.2 ⟨h.nodup, List.nodup_singleton _, fun a ha b hb e => hp (by rw [List.mem_singleton] at hb; rw [← hb, ← e]; exact ha)⟩
  · intro w hw
    rw [hsn, List.mem_append, List.mem_singleton] at hw
    rcases hw with hw | rfl
    · exact h.pos w hw
    · exact hpos
  · intro c' hc'
    rw [List.mem_append, List.mem_singleton] at hc'
    rcases hc' with hc' | rfl
    · exact h.big c' hc'
    · exact hbig
  · intro i j hij
    rw [hM, hAb]
    by_cases hi : i ∈ done.map (·.p)
    · rw [hvin i hi, mul_zero, zero_mul, abs_zero, add_zero, add_zero]
      exact h.near i j (Or.inl hi)
    · by_cases hj : j ∈ done.map (·.p)
      · rw [hvin j hj, mul_zero, abs_zero, add_zero, add_zero]
        exact h.near i j (Or.inr hj)
      · rw [hmap] at hij
        simp only [List.mem_append, hi, hj, List.mem_singleton, false_or] at hij
        rcases hij with rfl | rfl
        · have := hcol j hj
          rw [hsymA i j, ldM_sym _ i j, ldAbs_sym _ i j, mul_right_comm d.v]
          exact this
        · exact hcol i hi
  · intro k hk
    rw [hmap, List.mem_append, List.mem_singleton, not_or] at hk
    obtain ⟨zk, a1, a2, a3⟩ := h.elim k hk.1
    obtain ⟨zp, b1, b2, b3⟩ := h.elim p hp
    have hvz : ∀ (k : Fin n) (z : Vec ℝ n), z k = 1 → (∀ i, i ∉ done.map (·.p) → i ≠ k → z i = 0) → k ∉ done.map (·.p) → ∑ i, v i * z i = v k := by
      intro k z h1 h2 h3
      rw [Finset.sum_eq_single k (fun i _ hik => ?_) (by simp), h1, mul_one]
      by_cases hi : i ∈ done.map (·.p)
      · rw [hvin i hi, zero_mul]
      · rw [h2 i hi hik, mul_zero]
    refine ⟨fun i => zk i - v k * zp i, ?_, ?_, ?_⟩
    · simp only [a1, b2 k hk.1 hk.2]; ring
    · intro i hi hik
      rw [hmap, List.mem_append, List.mem_singleton, not_or] at hi
      simp only [a2 i hi.1 hik, b2 i hi.1 hi.2]; ring
    · intro w hw
      rw [hsn, List.mem_append, List.mem_singleton] at hw
      have e : ∀ w2 : Vec ℝ n, ∑ i, w2 i * (zk i - v k * zp i) = ∑ i, w2 i * zk i - v k * ∑ i, w2 i * zp i := by
        intro w2
        rw [Finset.mul_sum, ← Finset.sum_sub_distrib]
        exact Finset.sum_congr rfl fun i _ => by ring
      rcases hw with hw | rfl
      · rw [e, a3 w hw, b3 w hw]; ring
      · show ∑ i, v i * (zk i - v k * zp i) = 0
        rw [e, hvz k zk a1 a2 hk.1, hvz p zp b1 b2 hp, hvp]; ring

theorem ldltPick_in {F : Type} [FloatOps F] (A : Mat F n) (a : Fin n) (t : List (Fin n)) : ldltPick A a t ∈ a :: t := by
  unfold ldltPick
  induction t generalizing a with
  | nil => simp
  | cons i t ih =>
    rw [List.foldl_cons]
    have h := ih (if lt (absF (A a a)) (absF (A i i)) then i else a)
    rcases List.mem_cons.mp h with h | h
    · rw [h]; split <;> simp
    · exact List.mem_cons_of_mem _ (List.mem_cons_of_mem _ h)

theorem absF_rd (a : Rd r) : (absF a).v = |a.v| := by
  unfold absF
  by_cases h : a.v < 0
  · have : lt a (ofInt 0) = true := by rw [Rd.lt_iff, Rd.ofInt_zero_v]; exact h
    rw [if_pos this, Rd.neg_v, abs_of_neg h]
  · have : ¬ lt a (ofInt 0) = true := by rw [Rd.lt_iff, Rd.ofInt_zero_v]; exact h
    rw [if_neg this, abs_of_nonneg (not_lt.1 h)]

/-- the loop finds positive pivots only -/
theorem ldltGo_rounded (hu : 0 ≤ u) (hu2 : u ≤ 1 / 2) {μ : ℝ} {A : Mat (Rd r) n} (hA : Coercive μ (matV A)) (hμ : 2 * (n + 1) * facErr u n ≤ μ) (hμ0 : 0 < μ) (hμ1 : μ ≤ 1) :
    ∀ (k : Nat) (done : List (LdltCol (Rd r) n)) (rem : List (Fin n)) (s : LdltSign), rem.length = k → rem.Nodup → s = .pos ∨ s = .zero →
      (∀ i, i ∈ done.map (·.p) ↔ i ∉ rem) → done.length + k = n → LdInv μ A done →
      ∃ cols s', ldltGo A k done rem false s = some (cols, s') ∧ (s' = .pos ∨ s' = .zero) ∧ LdInv μ A cols ∧ cols.length = n ∧ ∀ i, i ∈ cols.map (·.p)
  | 0, done, [], s, _, _, hs, hin, hl, hinv => ⟨done, s, by simp [ldltGo], hs, hinv, by omega, fun i => by rw [hin]; simp⟩
  | k + 1, done, a :: t, s, hk, hn, hs, hin, hl, hinv => by
    have hp := ldltPick_in A a t
    obtain ⟨w1, w2, w3⟩ := ldltSwap_spec hn hp
    have hlen : (ldltSwap a (ldltPick A a t) t).length = k := by rw [w3]; simpa using hk
    unfold ldltGo
    simp only
    generalize ldltPick A a t = p at *
    have hpd : p ∉ done.map (·.p) := by rw [hin]; exact fun h => h hp
    obtain ⟨-, hd⟩ := hinv.pivot hu hu2 hA hμ hμ0 hμ1 hpd (by omega)
    have hv : lt (ofInt 0) (absF (ldltRest A done p p)) = true := by
      rw [Rd.lt_iff, Rd.ofInt_zero_v, absF_rd]; exact abs_pos.2 hd.ne'
    simp only [hv, Bool.not_true, Bool.false_and, Bool.false_eq_true, if_false, if_true]
    refine ldltGo_rounded hu hu2 hA hμ hμ0 hμ1 k _ _ _ hlen w1 ?_ (fun i => ?_) (by simp; omega) (hinv.step hu hu2 hA hμ hμ0 hμ1 hpd (by omega))
    · have h1 : lt (ofInt 0) (ldltRest A done p p) = true := by rw [Rd.lt_iff, Rd.ofInt_zero_v]; exact hd
      have h2 : lt (ldltRest A done p p) (ofInt 0) = false := by rw [Rd.lt_false, Rd.ofInt_zero_v]; exact hd.le
      rcases hs with rfl | rfl <;> simp [ldltSign, h1, h2]
    · have hm : i ∈ ldltSwap a p t ↔ i ≠ p ∧ i ∈ a :: t := by
        rw [← List.mem_toFinset, w2, Finset.mem_erase, List.mem_toFinset]
      rw [hm, List.map_append, List.mem_append, hin]
      simp only [List.map_cons, List.map_nil, List.mem_singleton]
      tauto
  | 0, _, _ :: _, _, h, _, _, _, _, _ => by simp at h
  | _ + 1, _, [], _, h, _, _, _, _, _ => by simp at h

theorem ldInv_nil {μ : ℝ} {A : Mat (Rd r) n} : LdInv μ A [] := by
  refine ⟨by simp, by simp [fullCols], by simp, by simp, fun k _ => ⟨fun i => if i = k then 1 else 0, by simp, fun i _ hi => by simp [hi], by simp [fullCols]⟩⟩

end
end Verif
