import Verif.Lemmas.LdltRoundGo
import Verif.Model.EigenLLT
/-!
# The columns of the LLT decomposition, with or without rounding
-/

set_option linter.unusedSectionVars false

namespace Verif
open FloatOps

section
variable {n : Nat}

theorem mem_take_finRange {m : Nat} {l : Fin n} : l ∈ (List.finRange n).take m ↔ l.val < m := by
  rw [List.mem_take_iff_getElem]
  constructor
  · rintro ⟨i, hi, e⟩
    rw [List.getElem_finRange] at e
    rw [← e]; simp at hi ⊢; omega
  · intro h
    exact ⟨l.val, by simp; omega, by simp⟩

theorem take_succ_finRange {m : Nat} {k : Fin n} (hk : k.val = m) : (List.finRange n).take (m + 1) = (List.finRange n).take m ++ [k] := by
  subst hk
  rw [List.take_succ_eq_append_getElem (by simp)]
  simp

/-- a column below the diagonal -/
def lcol (M : Mat ℝ n) (l : Fin n) : ℝ × Vec ℝ n := (1, fun i => if l ≤ i then M i l else 0)

/-- the first columns -/
def lcols (M : Mat ℝ n) (m : Nat) : List (ℝ × Vec ℝ n) := ((List.finRange n).take m).map (lcol M)

theorem lcols_pos (M : Mat ℝ n) (m : Nat) : ∀ w ∈ lcols M m, 0 < w.1 := by
  intro w hw
  obtain ⟨l, -, rfl⟩ := List.mem_map.1 hw
  exact one_pos

theorem lcols_congr {M M' : Mat ℝ n} {m : Nat} (h : ∀ i l : Fin n, l.val < m → M' i l = M i l) : lcols M' m = lcols M m := by
  refine List.map_congr_left fun l hl => ?_
  rw [mem_take_finRange] at hl
  unfold lcol
  congr 1
  funext i
  rw [h i l hl]

theorem lcols_succ (M : Mat ℝ n) {m : Nat} {k : Fin n} (hk : k.val = m) : lcols M (m + 1) = lcols M m ++ [lcol M k] := by
  rw [lcols, take_succ_finRange hk, List.map_append]; rfl

/-- the first columns away from the diagonal -/
theorem lcols_out (M : Mat ℝ n) {m : Nat} {i j : Fin n} (hi : m ≤ i.val) (hj : m ≤ j.val) :
    ldM (lcols M m) i j = (((List.finRange n).take m).map fun l => M i l * M j l).sum ∧
    ldAbs (lcols M m) i j = (((List.finRange n).take m).map fun l => |M i l * M j l|).sum := by
  have h : ∀ l ∈ (List.finRange n).take m, l ≤ i ∧ l ≤ j := by
    intro l hl
    rw [mem_take_finRange] at hl
    exact ⟨by rw [Fin.le_def]; omega, by rw [Fin.le_def]; omega⟩
  unfold ldM ldAbs lcols
  rw [List.map_map, List.map_map]
  constructor
  · congr 1
    refine List.map_congr_left fun l hl => ?_
    simp only [Function.comp, lcol, if_pos (h l hl).1, if_pos (h l hl).2]; ring
  · congr 1
    refine List.map_congr_left fun l hl => ?_
    simp only [Function.comp, lcol, if_pos (h l hl).1, if_pos (h l hl).2, one_mul]

/-- `L`: the matrix below the diagonal -/
def lowerR (M : Mat ℝ n) : Mat ℝ n := fun i j => if j ≤ i then M i j else 0

/-- all the columns are `L Lᵀ` -/
theorem lcols_all (M : Mat ℝ n) (i j : Fin n) :
    ldM (lcols M n) i j = ∑ l, lowerR M i l * lowerR M j l ∧ ldAbs (lcols M n) i j = ∑ l, |lowerR M i l * lowerR M j l| := by
  have e : (List.finRange n).take n = List.finRange n := List.take_of_length_le (by simp)
  unfold ldM ldAbs lcols
  rw [List.map_map, List.map_map, e, Fin.sum_univ_def, Fin.sum_univ_def]
  constructor <;> (congr 1; refine List.map_congr_left fun l _ => ?_; simp only [Function.comp, lcol, lowerR, one_mul])

/-- The first `m` columns are a decomposition of the first `m` rows and columns, up to `G`; the others are untouched. -/
structure LltInv (G : ℝ) (A : Mat ℝ n) (m : Nat) (M : Mat ℝ n) : Prop where
  keep : ∀ i j : Fin n, m ≤ j.val → M i j = A i j
  pos : ∀ j : Fin n, j.val < m → 0 < M j j
  near : ∀ i j : Fin n, i.val < m ∨ j.val < m → |A i j - ldM (lcols M m) i j| ≤ G * ldAbs (lcols M m) i j
  elim : ∀ k : Fin n, ¬ k.val < m → ∃ z : Vec ℝ n, z k = 1 ∧ (∀ i : Fin n, ¬ i.val < m → i ≠ k → z i = 0) ∧ ∀ w ∈ lcols M m, ∑ i, w.2 i * z i = 0

theorem lltInv_zero (G : ℝ) (A : Mat ℝ n) : LltInv G A 0 A := by
  refine ⟨fun _ _ _ => rfl, fun _ h => absurd h (by omega), fun _ _ h => absurd h (by omega),
    fun k _ => ⟨fun i => if i = k then 1 else 0, by simp, fun i _ hi => by simp [hi], by simp [lcols]⟩⟩

/-- the next column -/
theorem LltInv.step {G : ℝ} {A M M' : Mat ℝ n} (hA : SymR A) {m : Nat} (h : LltInv G A m M) {k : Fin n} (hk : k.val = m)
    (hoff : ∀ i j, j ≠ k → M' i j = M i j) (hpos : 0 < M' k k)
    (hcol : ∀ i, k ≤ i → |A i k - (ldM (lcols M m) i k + M' i k * M' k k)| ≤ G * (ldAbs (lcols M m) i k + |M' i k * M' k k|)) : LltInv G A (m + 1) M' := by
  have hne : ∀ l : Fin n, l.val < m → l ≠ k := fun l hl e => by subst e; omega
  have hc : lcols M' m = lcols M m := lcols_congr fun i l hl => hoff i l (hne l hl)
  have hs : lcols M' (m + 1) = lcols M m ++ [lcol M' k] := by rw [lcols_succ M' hk, hc]
  set v : Vec ℝ n := (lcol M' k).2 with hv
  have hv1 : ∀ i, k ≤ i → v i = M' i k := fun i hi => by simp only [hv, lcol, if_pos hi]
  have hv0 : ∀ i : Fin n, i.val < m → v i = 0 := fun i hi => by
    simp only [hv, lcol]; rw [if_neg]; rw [Fin.le_def]; omega
  have hM : ∀ i j, ldM (lcols M' (m + 1)) i j = ldM (lcols M m) i j + v i * v j := by
    intro i j; rw [hs, ldM_append]; simp [ldM, hv, lcol]
  have hAb : ∀ i j, ldAbs (lcols M' (m + 1)) i j = ldAbs (lcols M m) i j + |v i * v j| := by
    intro i j; rw [hs, ldAbs_append]; simp only [ldAbs, List.map_cons, List.map_nil, List.sum_cons, List.sum_nil, add_zero, hv, lcol, one_mul]
  have hvk : v k = M' k k := hv1 k le_rfl
  refine ⟨?_, ?_, ?_, ?_⟩
  · intro i j hj
    rw [hoff i j (fun e => by subst e; omega)]
    exact h.keep i j (by omega)
  · intro j hj
    by_cases e : j = k
    · rw [e]; exact hpos
    · rw [hoff j j e]
      exact h.pos j (by have : j.val ≠ k.val := fun h => e (Fin.ext h); omega)
  · intro i j hij
    rw [hM, hAb]
    by_cases hi : i.val < m
    · rw [hv0 i hi, zero_mul, abs_zero, add_zero, add_zero]
      exact h.near i j (Or.inl hi)
    · by_cases hj : j.val < m
      · rw [hv0 j hj, mul_zero, abs_zero, add_zero, add_zero]
        exact h.near i j (Or.inr hj)
      · have hki : k ≤ i := by rw [Fin.le_def]; omega
        have hkj : k ≤ j := by rw [Fin.le_def]; omega
        by_cases e : j = k
        · subst e
          rw [hvk, hv1 i hki]
          exact hcol i hki
        · have e2 : i = k := Fin.ext (by have : j.val ≠ k.val := fun h => e (Fin.ext h); omega)
          subst e2
          rw [hvk, hv1 j hkj, hA i j, ldM_sym, ldAbs_sym, mul_comm]
          exact hcol j hkj
  · intro l hl
    have hl' : ¬ l.val < m := by omega
    have hlk : l ≠ k := fun e => by subst e; omega
    obtain ⟨zk, a1, a2, a3⟩ := h.elim l hl'
    obtain ⟨zp, b1, b2, b3⟩ := h.elim k (by omega)
    have hvz : ∀ (k : Fin n) (z : Vec ℝ n), z k = 1 → (∀ i : Fin n, ¬ i.val < m → i ≠ k → z i = 0) → ¬ k.val < m → ∑ i, v i * z i = v k := by
      intro k z h1 h2 h3
      rw [Finset.sum_eq_single k (fun i _ hik => ?_) (by simp), h1, mul_one]
      by_cases hi : i.val < m
      · rw [hv0 i hi, zero_mul]
      · rw [h2 i hi hik, mul_zero]
    refine ⟨fun i => zk i - v l / v k * zp i, ?_, ?_, ?_⟩
    · simp only [a1, b2 l hl' hlk]; ring
    · intro i hi hik
      have : i ≠ k := fun e => by subst e; omega
      simp only [a2 i (by omega) hik, b2 i (by omega) this]; ring
    · intro w hw
      rw [hs, List.mem_append, List.mem_singleton] at hw
      have e : ∀ w2 : Vec ℝ n, ∑ i, w2 i * (zk i - v l / v k * zp i) = ∑ i, w2 i * zk i - v l / v k * ∑ i, w2 i * zp i := by
        intro w2
        rw [Finset.mul_sum, ← Finset.sum_sub_distrib]
        exact Finset.sum_congr rfl fun i _ => by ring
      rcases hw with hw | rfl
      · rw [e, a3 w hw, b3 w hw]; ring
      · show ∑ i, v i * (zk i - v l / v k * zp i) = 0
        rw [e, hvz l zk a1 a2 hl', hvz k zp b1 b2 (by omega), hvk]
        field_simp
        ring

/-- without rounding: what is left of the diagonal of a positive definite matrix is positive -/
theorem LltInv.pivot_pos {A M : Mat ℝ n} (hA : PD A) {m : Nat} (h : LltInv 0 A m M) {k : Fin n} (hk : k.val = m) : 0 < A k k - ldM (lcols M m) k k := by
  obtain ⟨z, z1, z2, z3⟩ := h.elim k (by omega)
  have hz : z ≠ 0 := fun e => by rw [e] at z1; simp at z1
  have hp := hA.2 z hz
  have hn : ∀ i j : Fin n, i.val < m ∨ j.val < m → A i j - ldM (lcols M m) i j = 0 := by
    intro i j hij
    have := h.near i j hij
    rw [zero_mul] at this
    exact abs_nonpos_iff.1 this
  have e : dotR z (mv A z) = ∑ i, ∑ j, (A i j - ldM (lcols M m) i j) * z i * z j := by
    have e : ∀ i j, (A i j - ldM (lcols M m) i j) * z i * z j = A i j * z i * z j - ldM (lcols M m) i j * z i * z j := by intros; ring
    simp only [e, Finset.sum_sub_distrib]
    rw [ldM_quad _ z z3, sub_zero]
    unfold dotR mv
    refine Finset.sum_congr rfl fun i _ => ?_
    rw [Finset.mul_sum]
    exact Finset.sum_congr rfl fun j _ => by ring
  rw [e, Finset.sum_eq_single k, Finset.sum_eq_single k] at hp
  · rw [z1] at hp; linarith
  · intro j _ hj
    by_cases hjm : j.val < m
    · rw [hn k j (Or.inr hjm)]; ring
    · rw [z2 j hjm hj]; ring
  · simp
  · intro i _ hi
    refine Finset.sum_eq_zero fun j _ => ?_
    by_cases him : i.val < m
    · rw [hn i j (Or.inl him)]; ring
    · rw [z2 i him hi]; ring
  · simp

end
end Verif

namespace Verif
open FloatOps

section
variable {F : Type} [FloatOps F] {n : Nat}

/-- one row of the forward substitution -/
def fwdRow (L : Mat F n) (b x : Vec F n) (i : Fin n) : F :=
  div (if i.val = 0 then b i else sub (b i) (((List.finRange n).take i).foldl (fun a l => add a (mul (L i l) (x l))) (ofInt 0))) (L i i)

theorem fwdRow_congr {L : Mat F n} {b x y : Vec F n} {i : Fin n} (h : ∀ l : Fin n, l.val < i.val → x l = y l) : fwdRow L b x i = fwdRow L b y i := by
  unfold fwdRow
  have : ∀ (t : List (Fin n)) (a : F), (∀ l ∈ t, x l = y l) → t.foldl (fun a l => add a (mul (L i l) (x l))) a = t.foldl (fun a l => add a (mul (L i l) (y l))) a := by
    intro t
    induction t with
    | nil => intros; rfl
    | cons c t ih =>
      intro a hc
      rw [List.foldl_cons, List.foldl_cons, hc c List.mem_cons_self]
      exact ih _ fun l hl => hc l (List.mem_cons_of_mem _ hl)
  rw [this _ _ fun l hl => h l (mem_take_finRange.1 hl)]

/-- the solution satisfies every row -/
theorem fwdSolve_row (L : Mat F n) (b : Vec F n) (i : Fin n) : fwdSolve L b i = fwdRow L b (fwdSolve L b) i := by
  suffices h : ∀ m, m ≤ n → ∀ x : Vec F n, x = ((List.finRange n).take m).foldl (fun (x : Vec F n) (i : Fin n) =>
      let y := if i.val = 0 then x i else sub (x i) (((List.finRange n).take i).foldl (fun a l => add a (mul (L i l) (x l))) (ofInt 0))
      fun l => if l = i then div y (L i i) else x l) b →
      (∀ i : Fin n, i.val < m → x i = fwdRow L b x i) ∧ ∀ i : Fin n, m ≤ i.val → x i = b i by
    refine (h n le_rfl (fwdSolve L b) ?_).1 i i.isLt
    rw [List.take_of_length_le (by simp)]; rfl
  intro m
  induction m with
  | zero => intro _ x hx; rw [hx]; exact ⟨fun i h => absurd h (by omega), fun i _ => rfl⟩
  | succ m ih =>
    intro hm x hx
    have hk : (⟨m, hm⟩ : Fin n).val = m := rfl
    rw [take_succ_finRange hk, List.foldl_append, List.foldl_cons, List.foldl_nil] at hx
    obtain ⟨h1, h2⟩ := ih (by omega) _ rfl
    generalize ((List.finRange n).take m).foldl _ b = w at *
    have hw : ∀ l : Fin n, l.val ≠ m → x l = w l := by
      intro l hl
      rw [hx]
      simp only
      rw [if_neg fun e => hl (by rw [e])]
    refine ⟨fun i hi => ?_, fun i hi => ?_⟩
    · have hc : fwdRow L b x i = fwdRow L b w i := fwdRow_congr fun l hl => hw l (by omega)
      rw [hc]
      by_cases e : i.val = m
      · have e2 : i = ⟨m, hm⟩ := Fin.ext e
        subst e2
        rw [hx]
        simp only [if_true]
        rw [h2 _ le_rfl]
        rfl
      · rw [hw i e]
        exact h1 i (by omega)
    · rw [hw i (by omega)]
      exact h2 i (by omega)

/-- one column of the decomposition -/
theorem lltCol_some {M M' : Mat F n} {k : Fin n} (h : lltCol M k = some M') :
    (lt (lltRest M k k) (ofInt 0) || eq (lltRest M k k) (ofInt 0)) = false ∧ (∀ i j, j ≠ k → M' i j = M i j) ∧ M' k k = sqrt (lltRest M k k) ∧
    ∀ i, k < i → M' i k = div (lltRest M k i) (sqrt (lltRest M k k)) := by
  unfold lltCol at h
  simp only at h
  split at h
  · cases h
  next hx =>
    have := Option.some.inj h
    subst this
    refine ⟨by simpa using hx, fun i j hj => if_neg hj, by simp, fun i hi => by simp [hi, hi.ne']⟩

theorem drop_finRange {m : Nat} {k : Fin n} (hk : k.val = m) : (List.finRange n).drop m = k :: (List.finRange n).drop (m + 1) := by
  subst hk
  rw [List.drop_eq_getElem_cons (by simp)]
  simp

/-- The loop, with an invariant of the columns. -/
theorem lltGo_inv {I : Nat → Mat F n → Prop} (step : ∀ (k : Fin n) M M', I k M → lltCol M k = some M' → I (k + 1) M') :
    ∀ (d m : Nat) (M : Mat F n), m + d = n → I m M →
      match (lltGo ((List.finRange n).drop m) M).2 with
      | none => I n (lltGo ((List.finRange n).drop m) M).1
      | some k => I k (lltGo ((List.finRange n).drop m) M).1 ∧ lltCol (lltGo ((List.finRange n).drop m) M).1 k = none := by
  intro d
  induction d with
  | zero =>
    intro m M hm hI
    have : (List.finRange n).drop m = [] := List.drop_eq_nil_of_le (by simp; omega)
    rw [this]
    have e : m = n := by omega
    exact e ▸ hI
  | succ d ih =>
    intro m M hm hI
    have hk : (⟨m, by omega⟩ : Fin n).val = m := rfl
    rw [drop_finRange hk, lltGo]
    cases hc : lltCol M ⟨m, by omega⟩ with
    | none => exact ⟨hI, hc⟩
    | some M' =>
      simp only
      exact ih (m + 1) M' (by omega) (step ⟨m, by omega⟩ M M' hI hc)

/-- the decomposition, with an invariant of the columns -/
theorem eigenLlt_inv {I : Nat → Mat F n → Prop} (A : Mat F n) (h0 : I 0 A) (step : ∀ (k : Fin n) M M', I k M → lltCol M k = some M' → I (k + 1) M') :
    match (eigenLlt A).2 with
    | none => I n (eigenLlt A).1
    | some k => I k (eigenLlt A).1 ∧ lltCol (eigenLlt A).1 k = none := by
  have := lltGo_inv step n 0 A (by omega) h0
  simpa [eigenLlt] using this

end

section
variable {n : Nat}

theorem lltRest_real (M : Mat ℝ n) {k i : Fin n} (hi : k ≤ i) : lltRest M k i = M i k - ldM (lcols M k) i k := by
  have h : lltDot M k i k = ldM (lcols M k) i k := by
    rw [(lcols_out M (Fin.le_def.1 hi) le_rfl).1]
    exact foldl_sum _ _
  unfold lltRest
  split
  next h0 => simp [h0, lcols, ldM]
  · rw [← h]; rfl

/-- a column without rounding -/
theorem LltInv.col_real {A M M' : Mat ℝ n} (hA : SymR A) {k : Fin n} (h : LltInv 0 A k M) (hc : lltCol M k = some M') : LltInv 0 A (k + 1) M' := by
  obtain ⟨h1, h2, h3, h4⟩ := lltCol_some hc
  have hx : 0 < lltRest M k k := by
    rw [Bool.or_eq_false_iff] at h1
    have a := h1.1; have b := h1.2
    simp only [FloatOps.lt, FloatOps.eq, FloatOps.ofInt, decide_eq_false_iff_not, Int.cast_zero] at a b
    exact lt_of_le_of_ne (not_lt.1 a) (fun e => b e.symm)
  have hs : 0 < √(lltRest M k k) := Real.sqrt_pos.2 hx
  have hkk : M' k k = √(lltRest M k k) := h3
  refine h.step hA rfl h2 (by rw [hkk]; exact hs) fun i hi => ?_
  have e : M' i k * M' k k = A i k - ldM (lcols M k) i k := by
    rw [← h.keep i k le_rfl, ← lltRest_real M hi]
    rcases eq_or_lt_of_le hi with rfl | hlt
    · rw [hkk, Real.mul_self_sqrt hx.le]
    · rw [h4 i hlt, hkk]
      show lltRest M k i / √(lltRest M k k) * _ = _
      field_simp
  rw [e]
  simp

end
end Verif
