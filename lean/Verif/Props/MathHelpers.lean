import Verif.Props.CostCount
import Verif.Model.MathH
import Verif.Examples.Toy
/-!
# C33, C34: integer square root, maximum difference of sparse matrices
-/

set_option linter.unusedSectionVars false

namespace Verif
open FloatOps

/-! ### C33 -/

theorem divI32_ok {a b : Int} (hb : 0 < b) (ha : 0 ≤ a) (h : a ≤ intMax) : divI32 a b = .ok (a / b) := by
  unfold divI32
  rw [if_neg (by omega), Int.tdiv_eq_ediv_of_nonneg ha]
  unfold i32
  have h1 : 0 ≤ a / b := Int.ediv_nonneg ha hb.le
  have h2 : a / b ≤ a := Int.ediv_le_self b ha
  rw [if_pos ⟨by omega, by omega⟩]

theorem sqrtLoop_spec (N : Int) (hN : 1 < N) (hM : N ≤ intMax) :
    ∀ (n : Nat) (left right result : Int), 1 ≤ left → left ≤ right + 1 → right ≤ N / 2 → right - left + 1 < 2 ^ n →
      result = left - 1 → result * result ≤ N → N < (right + 1) * (right + 1) →
      ∃ r, sqrtLoop N (n + 1) left right result = .ok r ∧ 0 ≤ r ∧ r * r ≤ N ∧ N < (r + 1) * (r + 1) := by
  have hI : (intMax : Int) = 2147483647 := rfl
  intro n
  induction n with
  | zero =>
    intro left right result h1 h2 h3 h4 h5 h6 h7
    have : ¬ left ≤ right := by simp at h4; omega
    refine ⟨result, by unfold sqrtLoop; rw [if_neg this], by omega, h6, ?_⟩
    have e : right = result := by omega
    rw [← e]; exact h7
  | succ n ih =>
    intro left right result h1 h2 h3 h4 h5 h6 h7
    unfold sqrtLoop
    by_cases hc : left ≤ right
    · have hw : (right - left) / 2 * 2 ≤ right - left := by omega
      set mid := left + (right - left) / 2 with hmid
      have hmid1 : 1 ≤ mid := by omega
      have hmid2 : mid ≤ right := by omega
      have hmid3 : mid ≤ N / 2 := by omega
      rw [if_pos hc, i32_ok (by omega) (by omega), Res.bind_ok, divI32_ok (by norm_num) (by omega) (by omega), Res.bind_ok,
        i32_ok (by omega) (by omega), Res.bind_ok, ← hmid, divI32_ok (by omega) (by omega) hM, Res.bind_ok]
      by_cases hq : mid ≤ N / mid
      · have hsq : mid * mid ≤ N := by
          have := Int.mul_le_of_le_ediv (by omega) hq
          exact this
        rw [if_pos hq, i32_ok (by omega) (by omega), Res.bind_ok]
        refine ih (mid + 1) right mid (by omega) (by omega) h3 ?_ (by omega) hsq h7
        rw [pow_succ] at h4; omega
      · have hsq : N < mid * mid := by
          have : N / mid < mid := by omega
          exact (Int.ediv_lt_iff_lt_mul (by omega)).mp this
        rw [if_neg hq]
        have : i32 (mid - 1) = .ok (mid - 1) := i32_ok (by omega) (by omega)
        rw [this, Res.bind_ok]
        refine ih left (mid - 1) result h1 (by omega) (by omega) ?_ h5 h6 (by rw [sub_add_cancel]; exact hsq)
        rw [pow_succ] at h4; omega
    · refine ⟨result, by rw [if_neg hc], by omega, h6, ?_⟩
      have e : right = result := by omega
      rw [← e]; exact h7

/-- **C33**: for every `int` argument, `SQRT` ends after at most 32 tests of its loop condition without overflow or division by
zero; it returns the largest `r` with `r * r ≤ N` for `N ≥ 0`, and `N` for negative `N`. -/
theorem C33_sqrt (N : Int) (hM : N ≤ intMax) (fuel : Nat) (hf : 32 ≤ fuel) :
    ∃ r, isqrtC fuel N = .ok r ∧ (N < 0 → r = N) ∧ (0 ≤ N → 0 ≤ r ∧ r * r ≤ N ∧ ∀ s, 0 ≤ s → s * s ≤ N → s ≤ r) := by
  have hI : (intMax : Int) = 2147483647 := rfl
  unfold isqrtC
  by_cases h : N ≤ 1
  · rw [if_pos h]
    refine ⟨N, rfl, fun _ => rfl, fun h0 => ⟨h0, by nlinarith, fun s hs hsN => ?_⟩⟩
    rcases (by omega : N = 0 ∨ N = 1) with rfl | rfl <;> nlinarith
  · rw [if_neg h, divI32_ok (by norm_num) (by omega) hM, Res.bind_ok]
    obtain ⟨k, rfl⟩ : ∃ k, fuel = k + 1 := ⟨fuel - 1, by omega⟩
    have hp : (2 : Int) ^ 31 ≤ 2 ^ k := pow_le_pow_right₀ (by norm_num) (by omega)
    obtain ⟨r, h1, h2, h3, h4⟩ := sqrtLoop_spec N (by omega) hM k 1 (N / 2) 0 (by norm_num) (by omega) (by omega)
      (by omega) (by norm_num) (by omega) (by
        have : N ≤ 2 * (N / 2) + 1 := by omega
        have h0 : 1 ≤ N / 2 := by omega
        nlinarith)
    refine ⟨r, h1, fun hn => by omega, fun _ => ⟨h2, h3, fun s hs hsN => ?_⟩⟩
    by_contra hc
    have : r + 1 ≤ s := by omega
    nlinarith

/-- the largest `int`, a square, a non-square and `Dynamic` -/
example : isqrtC 32 2147483647 = .ok 46340 ∧ isqrtC 32 144 = .ok 12 ∧ isqrtC 32 143 = .ok 11 ∧ isqrtC 32 (-1) = .ok (-1) := by decide

/-! ### C34 -/

section
variable {F : Type}

/-- `v` is stored at row `i` of column `j` -/
def SpMat.Has (A : SpMat F) (i j : Nat) (v : F) : Prop := ∃ c, A.col[j]? = some c ∧ (i, v) ∈ c

/-- `v` is the coefficient at row `i` and column `j`: the stored value, zero if there is none -/
def SpMat.Coeff [FloatOps F] (A : SpMat F) (i j : Nat) (v : F) : Prop := A.Has i j v ∨ ((¬ ∃ w, A.Has i j w) ∧ v = ofInt 0)

theorem find_unique {c : SpCol F} (h : (c.map (·.1)).Nodup) {i : Nat} {v : F} (hm : (i, v) ∈ c) : findRow c i = some v := by
  induction c with
  | nil => cases hm
  | cons e c ih =>
    unfold findRow
    rw [List.find?_cons]
    simp only [List.map_cons, List.nodup_cons] at h
    rcases List.mem_cons.mp hm with rfl | hm'
    · simp
    · have hne : e.1 ≠ i := fun h' => h.1 (by rw [h']; exact List.mem_map_of_mem (f := (·.1)) hm')
      rw [show (e.1 == i) = false from by simpa using hne]
      exact ih h.2 hm'

theorem find_mem {c : SpCol F} {i : Nat} {v : F} (h : findRow c i = some v) : (i, v) ∈ c := by
  unfold findRow at h
  obtain ⟨e, he, rfl⟩ := Option.map_eq_some_iff.mp h
  have h1 := List.find?_some he
  have h2 := List.mem_of_find?_eq_some he
  have : e.1 = i := by simpa using h1
  rw [← this]; exact h2

theorem find_none {c : SpCol F} {i : Nat} (h : findRow c i = none) (v : F) : (i, v) ∉ c := by
  unfold findRow at h
  intro hm
  have := List.find?_eq_none.mp (Option.map_eq_none_iff.mp h) _ hm
  simp at this

variable [FloatOps F]

/-- the differences visited by `MaxAbsDiff` in one column, first and second pass -/
def seen1 (p : SpCol F × SpCol F) : List F := p.1.map fun e => absS (sub e.2 ((findRow p.2 e.1).getD (ofInt 0)))
def seen2 (p : SpCol F × SpCol F) : List F := p.2.filterMap fun e => match findRow p.1 e.1 with
    | some _ => none
    | none => some (absS (sub (ofInt 0) e.2))

theorem diffPass1_eq (p : SpCol F × SpCol F) (m : F) : diffPass1 p.1 p.2 m = (seen1 p).foldl maxF m := by
  unfold diffPass1 seen1; rw [List.foldl_map]

theorem diffPass2_eq (p : SpCol F × SpCol F) (m : F) : diffPass2 p.1 p.2 m = (seen2 p).foldl maxF m := by
  unfold diffPass2 seen2
  rw [List.foldl_filterMap]
  congr 1
  funext m e
  cases findRow p.1 e.1 <;> rfl

theorem maxAbsDiff_eq {A B : SpMat F} (hr : A.rows = B.rows) (hc : A.cols = B.cols) :
    maxAbsDiff A B = .ok (((A.col.zip B.col).flatMap seen1 ++ (A.col.zip B.col).flatMap seen2).foldl maxF (ofInt 0)) := by
  unfold maxAbsDiff
  rw [if_neg (by simp [hr, hc])]
  simp only [diffPass1_eq, diffPass2_eq]
  rw [List.foldl_append, List.foldl_flatMap, List.foldl_flatMap]

/-- `d` is the absolute difference of two coefficients at least one of which is stored -/
def Hits (A B : SpMat F) (d : F) : Prop :=
  ∃ i j a b, i < A.rows ∧ j < A.cols ∧ A.Coeff i j a ∧ B.Coeff i j b ∧ ((∃ w, A.Has i j w) ∨ ∃ w, B.Has i j w) ∧ d = absS (sub a b)

theorem coeff_unique {A : SpMat F} (hA : A.WF) {i j : Nat} {a b : F} (ha : A.Coeff i j a) (hb : A.Coeff i j b) : a = b := by
  rcases ha with ⟨c, hc, ha⟩ | ⟨na, rfl⟩
  · rcases hb with ⟨c', hc', hb⟩ | ⟨nb, rfl⟩
    · rw [hc] at hc'
      cases hc'
      have hn := hA.nodup c (List.mem_of_getElem? hc)
      have h1 := find_unique hn ha
      rw [find_unique hn hb] at h1
      exact (Option.some.inj h1).symm
    · exact absurd ⟨a, c, hc, ha⟩ nb
  · rcases hb with hb | ⟨nb, rfl⟩
    · exact absurd ⟨b, hb⟩ na
    · rfl

theorem coeff_exists (A : SpMat F) (i j : Nat) : ∃ a, A.Coeff i j a := by
  by_cases h : ∃ w, A.Has i j w
  · obtain ⟨w, hw⟩ := h
    exact ⟨w, Or.inl hw⟩
  · exact ⟨_, Or.inr ⟨h, rfl⟩⟩

theorem coeff_find {A : SpMat F} {i j : Nat} {c : SpCol F} (hc : A.col[j]? = some c) : A.Coeff i j ((findRow c i).getD (ofInt 0)) := by
  cases h : findRow c i with
  | some v => exact Or.inl ⟨c, hc, find_mem h⟩
  | none =>
    refine Or.inr ⟨?_, rfl⟩
    rintro ⟨w, c', hc', hw⟩
    rw [hc] at hc'; cases hc'
    exact find_none h w hw

theorem seen_iff {A B : SpMat F} (hA : A.WF) (hB : B.WF) (hr : A.rows = B.rows) (hc : A.cols = B.cols) (d : F) :
    d ∈ (A.col.zip B.col).flatMap seen1 ++ (A.col.zip B.col).flatMap seen2 ↔ Hits A B d := by
  have hzip : ∀ {p : SpCol F × SpCol F}, p ∈ A.col.zip B.col → ∃ j : Nat, A.col[j]? = some p.1 ∧ B.col[j]? = some p.2 := by
    intro p hp
    obtain ⟨j, hj⟩ := List.mem_iff_getElem?.mp hp
    exact ⟨j, (List.getElem?_zip_eq_some.mp hj)⟩
  have hlt : ∀ {j : Nat} {c : SpCol F}, A.col[j]? = some c → j < A.cols := fun h => by
    rw [← hA.len]; exact (List.getElem?_eq_some_iff.mp h).1
  rw [List.mem_append, List.mem_flatMap, List.mem_flatMap]
  constructor
  · rintro (⟨p, hp, hd⟩ | ⟨p, hp, hd⟩)
    · obtain ⟨j, h1, h2⟩ := hzip hp
      obtain ⟨e, he, rfl⟩ := List.mem_map.mp hd
      exact ⟨e.1, j, e.2, _, hA.inRange _ (List.mem_of_getElem? h1) e he, hlt h1, Or.inl ⟨_, h1, he⟩, coeff_find h2, Or.inl ⟨_, _, h1, he⟩, rfl⟩
    · obtain ⟨j, h1, h2⟩ := hzip hp
      obtain ⟨e, he, hd⟩ := List.mem_filterMap.mp hd
      cases hf : findRow p.1 e.1 with
      | some v => rw [hf] at hd; cases hd
      | none =>
        rw [hf] at hd
        have := coeff_find (i := e.1) h1
        rw [hf] at this
        exact ⟨e.1, j, _, e.2, by rw [hr]; exact hB.inRange _ (List.mem_of_getElem? h2) e he, hlt h1, this, Or.inl ⟨_, h2, he⟩, Or.inr ⟨_, _, h2, he⟩, (Option.some.inj hd).symm⟩
  · rintro ⟨i, j, a, b, hi, hj, ha, hb, hs, rfl⟩
    obtain ⟨c1, h1⟩ : ∃ c, A.col[j]? = some c := ⟨_, List.getElem?_eq_getElem (by rw [hA.len]; exact hj)⟩
    obtain ⟨c2, h2⟩ : ∃ c, B.col[j]? = some c := ⟨_, List.getElem?_eq_getElem (by rw [hB.len, ← hc]; exact hj)⟩
    have hp : (c1, c2) ∈ A.col.zip B.col := List.mem_of_getElem? (i := j) (List.getElem?_zip_eq_some.mpr ⟨h1, h2⟩)
    have ea := coeff_unique hA ha (coeff_find h1)
    have eb := coeff_unique hB hb (coeff_find h2)
    cases hf : findRow c1 i with
    | some v =>
      rw [hf] at ea
      refine Or.inl ⟨_, hp, List.mem_map.mpr ⟨(i, v), find_mem hf, ?_⟩⟩
      rw [ea, eb]; rfl
    | none =>
      rw [hf] at ea
      refine Or.inr ⟨_, hp, List.mem_filterMap.mpr ?_⟩
      rcases hs with ⟨w, c, hc', hw⟩ | ⟨w, c, hc', hw⟩
      · rw [h1] at hc'; cases hc'
        exact absurd hw (find_none hf w)
      · rw [h2] at hc'; cases hc'
        have : b = w := coeff_unique hB hb (Or.inl ⟨_, h2, hw⟩)
        refine ⟨(i, w), hw, ?_⟩
        simp only [hf]
        rw [ea, this]; rfl

/-- folding `std::max` over values on which `<` is a strict weak order -/
theorem fold_max {ok : F → Prop} (irr : ∀ a : F, lt a a = false) (tr : ∀ a b c : F, lt a b = true → lt b c = true → lt a c = true)
    (ntr : ∀ a b c : F, ok a → ok b → ok c → lt a b = false → lt b c = false → lt a c = false) :
    ∀ (l : List F) (m : F), ok m → (∀ d ∈ l, ok d) →
      ok (l.foldl maxF m) ∧ lt (l.foldl maxF m) m = false ∧ (∀ d ∈ l, lt (l.foldl maxF m) d = false) ∧
      (l.foldl maxF m = m ∨ l.foldl maxF m ∈ l)
  | [], m, hm, _ => ⟨hm, irr m, fun _ h => (nomatch h), Or.inl rfl⟩
  | a :: l, m, hm, hl => by
    have hmax : ok (maxF m a) ∧ lt (maxF m a) m = false ∧ lt (maxF m a) a = false ∧ (maxF m a = m ∨ maxF m a = a) := by
      unfold maxF
      by_cases h : lt m a = true
      · rw [if_pos h]
        refine ⟨hl a List.mem_cons_self, ?_, irr a, Or.inr rfl⟩
        by_contra hc
        have := tr _ _ _ h (by simpa using hc)
        rw [irr] at this; cases this
      · rw [if_neg h]
        exact ⟨hm, irr m, by simpa using h, Or.inl rfl⟩
    obtain ⟨h1, h2, h3, h4⟩ := hmax
    obtain ⟨k1, k2, k3, k4⟩ := fold_max irr tr ntr l (maxF m a) h1 (fun d hd => hl d (List.mem_cons_of_mem _ hd))
    refine ⟨k1, ntr _ _ _ k1 h1 hm k2 h2, fun d hd => ?_, ?_⟩
    · rcases List.mem_cons.mp hd with rfl | hd
      · exact ntr _ _ _ k1 h1 (hl _ List.mem_cons_self) k2 h3
      · exact k3 d hd
    · show l.foldl maxF (maxF m a) = m ∨ l.foldl maxF (maxF m a) ∈ a :: l
      rcases k4 with h | h
      · rcases h4 with h5 | h5
        · left; rw [h, h5]
        · right; rw [h, h5]; exact List.mem_cons_self
      · right; exact List.mem_cons_of_mem _ h

/-- what `MaxAbsDiff` returns, for any arithmetic -/
theorem maxAbsDiff_spec {ok : F → Prop} (irr : ∀ a : F, lt a a = false) (tr : ∀ a b c : F, lt a b = true → lt b c = true → lt a c = true)
    (ntr : ∀ a b c : F, ok a → ok b → ok c → lt a b = false → lt b c = false → lt a c = false) (h0 : ok (ofInt 0))
    {A B : SpMat F} (hA : A.WF) (hB : B.WF) (hr : A.rows = B.rows) (hc : A.cols = B.cols) (hf : ∀ d, Hits A B d → ok d) :
    ∃ m, maxAbsDiff A B = .ok m ∧ ok m ∧ lt m (ofInt 0) = false ∧ (∀ d, Hits A B d → lt m d = false) ∧ (m = ofInt 0 ∨ Hits A B m) := by
  obtain ⟨h1, h2, h3, h4⟩ := fold_max irr tr ntr ((A.col.zip B.col).flatMap seen1 ++ (A.col.zip B.col).flatMap seen2) (ofInt 0) h0
    (fun d hd => hf d ((seen_iff hA hB hr hc d).mp hd))
  refine ⟨_, maxAbsDiff_eq hr hc, h1, h2, fun d hd => h3 d ((seen_iff hA hB hr hc d).mpr hd), ?_⟩
  rcases h4 with h | h
  · exact Or.inl h
  · exact Or.inr ((seen_iff hA hB hr hc _).mp h)

/-- **C34**, different sizes -/
theorem C34_throws (A B : SpMat F) (h : A.rows ≠ B.rows ∨ A.cols ≠ B.cols) : maxAbsDiff A B = .throw := if_pos h

end

theorem absS_real (x : ℝ) : absS x = |x| := by
  unfold absS
  by_cases h : x < 0
  · rw [if_pos (by simpa using h), abs_of_neg h]; rfl
  · rw [if_neg (by simpa using h), abs_of_nonneg (not_lt.mp h)]

/-- **C34**: in exact arithmetic, for all matrices of equal size with any sparsity patterns, the result is the
maximum of `|A(i,j) - B(i,j)|` over all coefficients (0 if there are none). -/
theorem C34_max {A B : SpMat ℝ} (hA : A.WF) (hB : B.WF) (hr : A.rows = B.rows) (hc : A.cols = B.cols) :
    ∃ m, maxAbsDiff A B = .ok m ∧
      IsGreatest (insert 0 {d | ∃ i j a b, i < A.rows ∧ j < A.cols ∧ A.Coeff i j a ∧ B.Coeff i j b ∧ d = |a - b|}) m := by
  obtain ⟨m, h1, -, h2, h3, h4⟩ := maxAbsDiff_spec (F := ℝ) (ok := fun _ => True) (by simp) (by
      intro a b c; simp only [RealOps.lt_eq]; exact lt_trans) (by
      intro a b c _ _ _
      simp only [RealOps.lt_eq_false]
      exact fun h1 h2 => h2.trans h1) trivial hA hB hr hc (fun _ _ => trivial)
  have key : ∀ x y : ℝ, lt x y = false ↔ y ≤ x := fun x y => by rw [RealOps.lt_eq_false]
  refine ⟨m, h1, ?_, ?_⟩
  · rcases h4 with h | ⟨i, j, a, b, hi, hj, ha, hb, -, rfl⟩
    · left; rw [h]; simp
    · right; exact ⟨i, j, a, b, hi, hj, ha, hb, by rw [absS_real]; rfl⟩
  · rintro d (rfl | ⟨i, j, a, b, hi, hj, ha, hb, rfl⟩)
    · have := (key _ _).mp h2
      simpa using this
    · by_cases hs : (∃ w, A.Has i j w) ∨ ∃ w, B.Has i j w
      · have := (key _ _).mp (h3 _ ⟨i, j, a, b, hi, hj, ha, hb, hs, rfl⟩)
        rw [absS_real] at this
        exact this
      · rw [not_or] at hs
        have ea : a = 0 := by
          rcases ha with h | h
          · exact absurd ⟨_, h⟩ hs.1
          · simpa using h.2
        have eb : b = 0 := by
          rcases hb with h | h
          · exact absurd ⟨_, h⟩ hs.2
          · simpa using h.2
        have := (key _ _).mp h2
        rw [ea, eb]; simpa using this

/-- **C34**: symmetric -/
theorem C34_symmetric {A B : SpMat ℝ} (hA : A.WF) (hB : B.WF) (hr : A.rows = B.rows) (hc : A.cols = B.cols) : maxAbsDiff A B = maxAbsDiff B A := by
  obtain ⟨m, h1, h2⟩ := C34_max hA hB hr hc
  obtain ⟨m', h1', h2'⟩ := C34_max hB hA hr.symm hc.symm
  rw [h1, h1']
  congr 1
  refine IsGreatest.unique h2 ?_
  have e : {d | ∃ i j a b, i < A.rows ∧ j < A.cols ∧ A.Coeff i j a ∧ B.Coeff i j b ∧ d = |a - b|} =
      {d | ∃ i j a b, i < B.rows ∧ j < B.cols ∧ B.Coeff i j a ∧ A.Coeff i j b ∧ d = |a - b|} := by
    ext d
    constructor
    · rintro ⟨i, j, a, b, hi, hj, ha, hb, rfl⟩
      exact ⟨i, j, b, a, by omega, by omega, hb, ha, abs_sub_comm _ _⟩
    · rintro ⟨i, j, a, b, hi, hj, ha, hb, rfl⟩
      exact ⟨i, j, b, a, by omega, by omega, hb, ha, abs_sub_comm _ _⟩
  rw [e]; exact h2'

/-- **C34**: zero exactly for matrices with equal coefficients -/
theorem C34_zero_iff {A B : SpMat ℝ} (hA : A.WF) (hB : B.WF) (hr : A.rows = B.rows) (hc : A.cols = B.cols) :
    maxAbsDiff A B = .ok 0 ↔ ∀ i j a, i < A.rows → j < A.cols → (A.Coeff i j a ↔ B.Coeff i j a) := by
  obtain ⟨m, h1, h2, h3⟩ := C34_max hA hB hr hc
  rw [h1]
  constructor
  · intro h i j a hi hj
    injection h with h
    subst h
    obtain ⟨x, hx⟩ := coeff_exists A i j
    obtain ⟨y, hy⟩ := coeff_exists B i j
    have h4 : |x - y| ≤ 0 := h3 (Or.inr ⟨i, j, x, y, hi, hj, hx, hy, rfl⟩)
    have hxy : x = y := sub_eq_zero.mp (abs_nonpos_iff.mp h4)
    constructor
    · intro ha; rw [coeff_unique hA ha hx, hxy]; exact hy
    · intro hb; rw [coeff_unique hB hb hy, ← hxy]; exact hx
  · intro h
    congr 1
    rcases h2 with h2 | ⟨i, j, a, b, hi, hj, ha, hb, rfl⟩
    · exact h2
    · have := coeff_unique hB ((h i j a hi hj).mp ha) hb
      rw [this]; simp

theorem absS_fl_pos {f : Fmt} (x : Fl f) (hx : finite x = true) (h : lt (ofInt 0) (absS x) = false) : lt x (ofInt 0) = false ∧ lt (ofInt 0) x = false := by
  unfold absS at h
  obtain ⟨q, g, rfl⟩ := (Fl.finite_iff x).mp hx
  rw [Fl.ofInt_zero] at *
  by_cases hq : lt (Fl.fin q g) (Fl.fin 0 ⟨f.grid_zero, by simpa using f.max_pos.le⟩) = true
  · rw [if_pos hq] at h
    exfalso
    have h1 : q < 0 := by simpa [FloatOps.lt, Fl.lt] using hq
    have h2 : ¬ (0 : ℚ) < -q := by simpa [FloatOps.lt, FloatOps.neg, Fl.neg, Fl.lt] using h
    linarith
  · rw [if_neg hq] at h
    exact ⟨by simpa using hq, h⟩

/-- **C34** in floating point arithmetic, for matrices whose coefficients and differences are finite: the
result is the largest rounded absolute difference, and it is 0 only if all coefficients are equal. -/
theorem C34_float {f : Fmt} {A B : SpMat (Fl f)} (hA : A.WF) (hB : B.WF) (hr : A.rows = B.rows) (hc : A.cols = B.cols)
    (hfa : ∀ i j a, A.Coeff i j a → finite a = true) (hfb : ∀ i j b, B.Coeff i j b → finite b = true)
    (hfd : ∀ i j a b, A.Coeff i j a → B.Coeff i j b → finite (absS (sub a b)) = true ∧ finite (sub a b) = true) :
    ∃ m, maxAbsDiff A B = .ok m ∧
      (∀ i j a b, i < A.rows → j < A.cols → A.Coeff i j a → B.Coeff i j b → lt m (absS (sub a b)) = false) ∧
      (m = ofInt 0 ∨ ∃ i j a b, i < A.rows ∧ j < A.cols ∧ A.Coeff i j a ∧ B.Coeff i j b ∧ m = absS (sub a b)) ∧
      (m = ofInt 0 → ∀ i j a b, i < A.rows → j < A.cols → A.Coeff i j a → B.Coeff i j b → eq a b = true) := by
  have h0f : finite (ofInt 0 : Fl f) = true := by rw [Fl.ofInt_zero]; exact (Fl.finite_iff _).mpr ⟨_, _, rfl⟩
  obtain ⟨m, h1, hmf, h2, h3, h4⟩ := maxAbsDiff_spec (F := Fl f) (ok := fun x => finite x = true) FloatLaws.lt_irrefl FloatLaws.lt_trans
    FloatLaws.lt_negtrans h0f hA hB hr hc (by
      rintro d ⟨i, j, a, b, hi, hj, ha, hb, -, rfl⟩
      exact (hfd i j a b ha hb).1)
  have hall : ∀ i j a b, i < A.rows → j < A.cols → A.Coeff i j a → B.Coeff i j b → lt m (absS (sub a b)) = false := by
    intro i j a b hi hj ha hb
    by_cases hs : (∃ w, A.Has i j w) ∨ ∃ w, B.Has i j w
    · exact h3 _ ⟨i, j, a, b, hi, hj, ha, hb, hs, rfl⟩
    · rw [not_or] at hs
      have ea : a = ofInt 0 := by
        rcases ha with h | h
        · exact absurd ⟨_, h⟩ hs.1
        · exact h.2
      have eb : b = ofInt 0 := by
        rcases hb with h | h
        · exact absurd ⟨_, h⟩ hs.2
        · exact h.2
      have hz : absS (sub (ofInt 0) (ofInt 0) : Fl f) = ofInt 0 := by
        have hs : (sub (ofInt 0) (ofInt 0) : Fl f) = ofInt 0 := by
          conv_lhs => rw [Fl.ofInt_zero]
          show Fl.mk (0 - 0) = Fl.mk ((0 : Int) : ℚ)
          simp
        rw [hs]; unfold absS; rw [FloatLaws.lt_irrefl]; rfl
      rw [ea, eb, hz]; exact h2
  refine ⟨m, h1, hall, ?_, ?_⟩
  · rcases h4 with h | ⟨i, j, a, b, hi, hj, ha, hb, -, rfl⟩
    · exact Or.inl h
    · exact Or.inr ⟨i, j, a, b, hi, hj, ha, hb, rfl⟩
  · rintro rfl i j a b hi hj ha hb
    have h5 := hall i j a b hi hj ha hb
    obtain ⟨h6, h7⟩ := absS_fl_pos _ (hfd i j a b ha hb).2 h5
    rw [FloatLaws.eq_spec a b (hfa i j a ha) (hfb i j b hb)]
    rw [FloatLaws.sub_neg a b (hfa i j a ha) (hfb i j b hb)] at h6
    have h8 : lt b a = false := by
      obtain ⟨p, gp, rfl⟩ := (Fl.finite_iff a).mp (hfa i j a ha)
      obtain ⟨q, gq, rfl⟩ := (Fl.finite_iff b).mp (hfb i j b hb)
      by_contra hc2
      have hlt : q < p := by simpa [FloatOps.lt, Fl.lt] using hc2
      have hr0 : f.rnd (p - q) ≠ 0 := f.sub_ne p q gp.1 gq.1 hlt.ne'
      have hr1 : 0 ≤ f.rnd (p - q) := f.rnd_nonneg (by linarith)
      obtain ⟨z, gz, hz⟩ := (Fl.finite_iff _).mp (hfd i j _ _ ha hb).2
      have hz2 : (Fl.mk (p - q) : Fl f) = .fin z gz := hz
      unfold Fl.mk Fl.ofGrid at hz2
      split at hz2
      · have hzz : f.rnd (p - q) = z := Fl.fin.inj hz2
        rw [hz, Fl.ofInt_zero] at h7
        have : ¬ (0 : ℚ) < z := by simpa [FloatOps.lt, Fl.lt] using h7
        rw [← hzz] at this
        exact this (lt_of_le_of_ne hr1 (Ne.symm hr0))
      · split at hz2 <;> cases hz2
    rw [h6, h8]; rfl

/-- With NaN coefficients the result can be 0 for different matrices: the comparison in `std::max` ignores
NaN. -/
theorem C34_nan_hidden :
    let A : SpMat (Fl Fmt.binary64) := ⟨1, 1, [[(0, .nan)]]⟩
    let B : SpMat (Fl Fmt.binary64) := ⟨1, 1, [[(0, ofInt 1)]]⟩
    (maxAbsDiff A B).holds (fun m => eq m (ofInt 0)) = true := by decide +kernel

/-- a case meeting the hypotheses, with entries stored in only one of the matrices; the second matrix is
the larger one in one place, the first in another -/
def spA {F : Type} [FloatOps F] : SpMat F := ⟨3, 2, [[(0, ofInt 1), (2, ofInt 5)], [(1, ofInt 2)]]⟩
def spB {F : Type} [FloatOps F] : SpMat F := ⟨3, 2, [[(0, ofInt 3), (1, ofInt (-4))], []]⟩

theorem spA_wf {F : Type} [FloatOps F] : (spA : SpMat F).WF := by
  refine ⟨rfl, ?_, ?_⟩ <;> simp [spA]
  rintro a b (⟨rfl, -⟩ | ⟨rfl, -⟩) <;> omega
theorem spB_wf {F : Type} [FloatOps F] : (spB : SpMat F).WF := by
  refine ⟨rfl, ?_, ?_⟩ <;> simp [spB]
  rintro a b (⟨rfl, -⟩ | ⟨rfl, -⟩) <;> omega

example : (maxAbsDiff (spA : SpMat (Fl Fmt.binary64)) spB).holds (fun m => eq m (ofInt 5)) = true ∧
    (maxAbsDiff (spB : SpMat (Fl Fmt.binary64)) spA).holds (fun m => eq m (ofInt 5)) = true := by decide +kernel
example : ∃ m : ℝ, maxAbsDiff spA spB = .ok m := (C34_max spA_wf spB_wf rfl rfl).imp fun _ h => h.1

end Verif
