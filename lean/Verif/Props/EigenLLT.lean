import Verif.Lemmas.Llt
import Verif.Props.Mahalanobis
import Mathlib.LinearAlgebra.Matrix.Block
/-!
# C115: the Cholesky factor behind `MahaWhitened`

`cov.llt()` and `matrixL().solve(res)` (mahalanobis.h:139-153) with Eigen's algorithms, in exact arithmetic.
-/

namespace Verif
open FloatOps Matrix

section
variable {n : Nat}

theorem eigenLlt_cases {A : Mat ℝ n} (hA : SymR A) :
    match (eigenLlt A).2 with
    | none => LltInv 0 A n (eigenLlt A).1
    | some k => LltInv 0 A k (eigenLlt A).1 ∧ lltCol (eigenLlt A).1 k = none :=
  eigenLlt_inv (I := fun m M => LltInv 0 A m M) A (lltInv_zero 0 A) fun _ _ _ h hc => h.col_real hA hc

theorem LltInv.product {A M : Mat ℝ n} (h : LltInv 0 A n M) (i j : Fin n) : ∑ l, lowerR M i l * lowerR M j l = A i j := by
  have := h.near i j (Or.inl i.isLt)
  rw [zero_mul, (lcols_all M i j).1] at this
  linarith [abs_nonpos_iff.1 this]

theorem lltCol_none {M : Mat ℝ n} {k : Fin n} (h : lltCol M k = none) : lltRest M k k ≤ 0 := by
  unfold lltCol at h
  simp only at h
  split at h
  next hx =>
    rw [Bool.or_eq_true] at hx
    simp only [FloatOps.lt, FloatOps.eq, FloatOps.ofInt, decide_eq_true_eq, Int.cast_zero] at hx
    rcases hx with hx | hx
    · exact hx.le
    · exact hx.le
  · cases h

/-- a quadratic form with a factor -/
theorem quad_factor {A L : Mat ℝ n} (h : ∀ i j, ∑ l, L i l * L j l = A i j) (v : Vec ℝ n) : dotR v (mv A v) = ∑ l, (∑ i, L i l * v i) ^ 2 := by
  unfold dotR mv
  have e : ∀ l, (∑ i, L i l * v i) ^ 2 = ∑ i, ∑ j, v i * (L i l * L j l * v j) := by
    intro l
    rw [sq, Finset.sum_mul_sum]
    exact Finset.sum_congr rfl fun i _ => Finset.sum_congr rfl fun j _ => by ring
  simp only [e]
  rw [Finset.sum_comm]
  refine Finset.sum_congr rfl fun i _ => ?_
  rw [Finset.sum_comm, Finset.mul_sum]
  refine Finset.sum_congr rfl fun j _ => ?_
  rw [← h i j, Finset.sum_mul, Finset.mul_sum]

/-- a triangular matrix without zeros on the diagonal has a trivial kernel on the left -/
theorem lower_kernel {M : Mat ℝ n} (hd : ∀ i, M i i ≠ 0) {v : Vec ℝ n} (h : ∀ l, ∑ i, lowerR M i l * v i = 0) : v = 0 := by
  have : ∀ (d : Nat) (i : Fin n), n - 1 - i.val = d → v i = 0 := by
    intro d
    induction d using Nat.strong_induction_on with
    | _ d ih =>
      intro i hi
      have := h i
      rw [Finset.sum_eq_single i] at this
      · simp only [lowerR, le_refl, if_true] at this
        exact (mul_eq_zero.1 this).resolve_left (hd i)
      · intro j _ hj
        by_cases hij : i ≤ j
        · have hlt : i < j := lt_of_le_of_ne hij (Ne.symm hj)
          rw [Fin.lt_def] at hlt
          rw [ih (n - 1 - j.val) (by omega) j rfl, mul_zero]
        · simp only [lowerR, if_neg hij, zero_mul]
      · simp
  funext i
  exact this _ i rfl

/-- **C115**: of a symmetric matrix, the decomposition succeeds exactly if the matrix is positive definite. -/
theorem C115_succeeds_iff {A : Mat ℝ n} (hA : SymR A) : (eigenLlt A).2 = none ↔ PD A := by
  have h := eigenLlt_cases hA
  constructor
  · intro e
    rw [e] at h
    refine ⟨hA, fun v hv => ?_⟩
    rw [quad_factor h.product]
    refine lt_of_le_of_ne (Finset.sum_nonneg fun l _ => sq_nonneg _) fun e => hv ?_
    refine lower_kernel (M := (eigenLlt A).1) (fun i => (h.pos i i.isLt).ne') fun l => ?_
    have := (Finset.sum_eq_zero_iff_of_nonneg fun l _ => sq_nonneg (∑ i, lowerR (eigenLlt A).1 i l * v i)).1 e.symm l (Finset.mem_univ _)
    exact pow_eq_zero_iff (two_ne_zero) |>.1 this
  · intro hp
    match e : (eigenLlt A).2 with
    | none => rfl
    | some k =>
      rw [e] at h
      have h1 := h.1.pivot_pos hp rfl
      have h2 := lltCol_none h.2
      rw [lltRest_real _ le_rfl, h.1.keep k k le_rfl] at h2
      linarith

/-- **C115**: the factor of a positive definite matrix: `L Lᵀ = A`, with positive numbers on the diagonal (`L` is `matrixL()`, zero above the diagonal). -/
theorem C115_factor {A : Mat ℝ n} (hA : PD A) :
    (∀ i j, ∑ l, lowerR (eigenLlt A).1 i l * lowerR (eigenLlt A).1 j l = A i j) ∧ ∀ i, 0 < (eigenLlt A).1 i i := by
  have h := eigenLlt_cases hA.1
  rw [(C115_succeeds_iff hA.1).2 hA] at h
  exact ⟨h.product, fun i => h.pos i i.isLt⟩

/-- the sum of a row below the diagonal -/
theorem lower_row (M : Mat ℝ n) (x : Vec ℝ n) (i : Fin n) :
    mv (lowerR M) x i = (((List.finRange n).take i).map fun l => M i l * x l).sum + M i i * x i := by
  have e1 : mv (lowerR M) x i = ((List.finRange n).map fun l => lowerR M i l * x l).sum := by
    unfold mv; rw [Fin.sum_univ_def]
  have e2 : List.finRange n = (List.finRange n).take (i + 1) ++ (List.finRange n).drop (i + 1) := (List.take_append_drop _ _).symm
  have e3 : ((List.finRange n).map fun l => lowerR M i l * x l) = (((List.finRange n).take (i + 1) ++ (List.finRange n).drop (i + 1)).map fun l => lowerR M i l * x l) := by rw [← e2]
  rw [e1, e3, List.map_append, List.sum_append, take_succ_finRange rfl, List.map_append, List.sum_append]
  have h3 : (((List.finRange n).drop (i + 1)).map fun l => lowerR M i l * x l).sum = 0 := by
    refine List.sum_eq_zero fun y hy => ?_
    obtain ⟨l, hl, rfl⟩ := List.mem_map.1 hy
    have : ¬ l ≤ i := by
      obtain ⟨t, ht, e⟩ := List.mem_drop_iff_getElem.1 hl
      rw [List.getElem_finRange] at e
      rw [← e, Fin.le_def]; simp; omega
    simp only [lowerR, if_neg this, zero_mul]
  rw [h3, add_zero]
  congr 1
  · congr 1
    refine List.map_congr_left fun l hl => ?_
    rw [mem_take_finRange] at hl
    simp only [lowerR]
    rw [if_pos (Fin.le_def.2 hl.le)]
  · simp [lowerR]

/-- **C115**: forward substitution solves the triangular system. -/
theorem C115_substitution {M : Mat ℝ n} (hd : ∀ i, M i i ≠ 0) (b : Vec ℝ n) : mv (lowerR M) (fwdSolve M b) = b := by
  funext i
  have h := fwdSolve_row M b i
  unfold fwdRow at h
  have e : ((List.finRange n).take i).foldl (fun a l => add a (mul (M i l) (fwdSolve M b l))) (ofInt 0) = (((List.finRange n).take i).map fun l => M i l * fwdSolve M b l).sum := foldl_sum _ _
  rw [e] at h
  rw [lower_row]
  have h0 : (if i.val = 0 then b i else sub (b i) ((((List.finRange n).take i).map fun l => M i l * fwdSolve M b l).sum)) = b i - (((List.finRange n).take i).map fun l => M i l * fwdSolve M b l).sum := by
    split
    next hi => simp [hi]
    · rfl
  rw [h0] at h
  have h' : fwdSolve M b i = (b i - (((List.finRange n).take i).map fun l => M i l * fwdSolve M b l).sum) / M i i := h
  have := hd i
  rw [eq_div_iff this] at h'
  linarith

/-- positive definite, in the words of Mathlib -/
theorem pd_iff_posDef {A : Mat ℝ n} : PD A ↔ (Matrix.of A).PosDef := by
  rw [posDef_iff_dotProduct_mulVec]
  constructor
  · rintro ⟨h1, h2⟩
    refine ⟨?_, fun x hx => ?_⟩
    · ext i j; simp [h1 i j]
    · have := h2 x hx
      simpa [dotR, mv, dotProduct, mulVec] using this
  · rintro ⟨h1, h2⟩
    refine ⟨fun i j => ?_, fun v hv => ?_⟩
    · have := congrFun (congrFun h1 j) i
      simpa using this
    · have := h2 (x := v) hv
      simpa [dotR, mv, dotProduct, mulVec] using this

/-- Eigen's two decompositions, as `DenseInvCov` (math.h:52-54; exact pivots) and `MahaWhitened` use them -/
noncomputable def eigenFact (n : Nat) : Loss.Fact n where
  ldltInv S :=
    if h : ∀ j, (eigenLdlt (0 : ℝ) n (fun i j => S i j) fun i => if i = j then 1 else 0).isSome then
      some (Matrix.of fun i j => (eigenLdlt (0 : ℝ) n (fun i j => S i j) fun i => if i = j then 1 else 0).get (h j) i)
    else none
  lltL S := Matrix.of (lowerR (eigenLlt fun i j => S i j).1)

/-- **C115**: Eigen's algorithms satisfy what C46 and C89 assume of them. -/
theorem C115_contract (n : Nat) : (eigenFact n).Ok := by
  intro S hS
  have hpd : PD (fun i j => S i j) := pd_iff_posDef.2 hS
  constructor
  · have hs : ∀ j, ∃ x, eigenLdlt (0 : ℝ) n (fun i j => S i j) (fun i => if i = j then 1 else 0) = some x ∧ mv (fun i j => S i j) x = fun i => if i = j then 1 else 0 :=
      fun j => C104_solves_partial hpd _
    have h : ∀ j, (eigenLdlt (0 : ℝ) n (fun i j => S i j) fun i => if i = j then 1 else 0).isSome := fun j => by
      obtain ⟨x, hx, -⟩ := hs j
      rw [hx]; rfl
    simp only [eigenFact, dif_pos h]
    congr 1
    refine (Matrix.inv_eq_right_inv ?_).symm
    ext i j
    obtain ⟨x, hx, hx2⟩ := hs j
    have : ∀ l, (eigenLdlt (0 : ℝ) n (fun i j => S i j) fun i => if i = j then 1 else 0).get (h j) l = x l := by
      intro l; exact congrFun (Option.get_of_eq_some _ hx) l
    rw [Matrix.mul_apply, Matrix.one_apply]
    simp only [Matrix.of_apply, this]
    exact congrFun hx2 i
  · ext i j
    rw [Matrix.mul_apply]
    exact (C115_factor hpd).1 i j

/-- the matrix that Eigen reads: the upper triangle -/
theorem symU_read (S : Loss.RMat n n) : (fun i j => if j ≤ i then S j i else S i j) = fun i j => Loss.symU S i j := by
  funext i j
  unfold Loss.symU
  by_cases h : j ≤ i
  · rcases eq_or_lt_of_le h with rfl | h'
    · simp
    · rw [if_pos h, if_neg (not_le.2 h')]
  · rw [if_neg h, if_pos (le_of_not_ge h)]

/-- **C115** (partial): with a positive definite covariance (read from its upper triangle), the residual is the one of C46, whitened by the inverse of the factor; its squared norm is `rᵀ S⁻¹ r`; and the
exported Jacobians are those of C46. Missing: other covariances are not refused, see `C115_silent`. -/
theorem C115_whitens_partial (S : Loss.RMat n n) (hS : (Loss.symU S).PosDef) (r : Vec ℝ n) {k : Nat} (J : Loss.RMat n k) :
    whitenLlt (fun i j => S i j) r = Loss.whitenCov (eigenFact n) r S ∧ ∑ i, whitenLlt (fun i j => S i j) r i ^ 2 = r ⬝ᵥ ((Loss.symU S)⁻¹ *ᵥ r) ∧
    Matrix.of (whitenLltJ (fun i j => S i j) fun i j => J i j) = Loss.whitenCovJx (eigenFact n) S J := by
  have hpd : PD (fun i j => Loss.symU S i j) := pd_iff_posDef.2 hS
  obtain ⟨hf, hp⟩ := C115_factor hpd
  have key : ∀ r : Vec ℝ n, whitenLlt (fun i j => S i j) r = Loss.whitenCov (eigenFact n) r S := by
    intro r
    unfold whitenLlt Loss.whitenCov
    rw [symU_read]
    have h := C115_substitution (M := (eigenLlt fun i j => Loss.symU S i j).1) (fun i => (hp i).ne') r
    have e := (C115_contract n _ hS).2
    have hdet : IsUnit ((eigenFact n).lltL (Loss.symU S)).det := by
      have h3 : IsUnit (Loss.symU S).det := hS.isUnit.map Matrix.detMonoidHom
      rw [← e, det_mul] at h3
      exact isUnit_of_mul_isUnit_left h3
    have h' : (eigenFact n).lltL (Loss.symU S) *ᵥ (fwdSolve (eigenLlt fun i j => Loss.symU S i j).1 r) = r := h
    conv_rhs => rw [← h']
    rw [mulVec_mulVec, nonsing_inv_mul _ hdet, one_mulVec]
  refine ⟨key r, ?_, ?_⟩
  · rw [key r]
    exact (Loss.C46_whitened _ (C115_contract n) S hS r).2.1
  · ext i j
    rw [Matrix.of_apply]
    unfold whitenLltJ
    rw [key]
    rfl

/-- **C115 is violated** for every covariance that is not positive definite: an answer is given all the same (`info()` is not looked at), and the triangular matrix that whitens is not a factor
of the covariance, or it has a zero on its diagonal, by which it divides. -/
theorem C115_silent {A : Mat ℝ n} (hA : SymR A) (hn : ¬ PD A) :
    ∃ k, (eigenLlt A).2 = some k ∧ (∑ l, lowerR (eigenLlt A).1 k l * lowerR (eigenLlt A).1 k l ≠ A k k ∨ (eigenLlt A).1 k k = 0) := by
  have h := eigenLlt_cases hA
  match e : (eigenLlt A).2 with
  | none => exact absurd ((C115_succeeds_iff hA).1 e) hn
  | some k =>
    rw [e] at h
    obtain ⟨h1, h2⟩ := h
    refine ⟨k, rfl, ?_⟩
    have h3 := lltCol_none h2
    rw [lltRest_real _ le_rfl, (lcols_out _ le_rfl le_rfl).1] at h3
    have h4 := lower_row (eigenLlt A).1 (fun l => lowerR (eigenLlt A).1 k l) k
    have e5 : (((List.finRange n).take k).map fun l => (eigenLlt A).1 k l * lowerR (eigenLlt A).1 k l).sum = (((List.finRange n).take k).map fun l => (eigenLlt A).1 k l * (eigenLlt A).1 k l).sum := by
      congr 1
      refine List.map_congr_left fun l hl => ?_
      rw [mem_take_finRange] at hl
      simp only [lowerR]
      rw [if_pos (Fin.le_def.2 hl.le)]
    rw [e5] at h4
    have e6 : lowerR (eigenLlt A).1 k k = (eigenLlt A).1 k k := by simp [lowerR]
    rw [e6] at h4
    by_contra hc
    push Not at hc
    have h7 : mv (lowerR (eigenLlt A).1) (fun l => lowerR (eigenLlt A).1 k l) k = A k k := hc.1
    rw [h7, ← h1.keep k k le_rfl] at h4
    have h8 : 0 < (eigenLlt A).1 k k * (eigenLlt A).1 k k := mul_self_pos.2 hc.2
    linarith

/-- **C115 is violated**, a witness: with the covariance `[1 2; 2 1]` the residual `(1, 0)` comes back as `(1, -2)`, of squared norm 5; the decomposition failed, `rᵀ S⁻¹ r` is `-1/3`,
and `MahaSquaredNorm` refuses the same matrix. -/
theorem C115_silent_witness :
    (eigenLlt fun i j => (!![1, 2; 2, 1] : Loss.RMat 2 2) i j).2 = some 1 ∧ whitenLlt (fun i j => (!![1, 2; 2, 1] : Loss.RMat 2 2) i j) ![1, 0] = ![1, -2] ∧
    ![1, 0] ⬝ᵥ ((!![1, 2; 2, 1] : Loss.RMat 2 2)⁻¹ *ᵥ ![1, 0]) = -1 / 3 ∧ Loss.mahaSqCov (eigenFact 2) ![1, 0] !![1, 2; 2, 1] = none := by
  set S : Loss.RMat 2 2 := !![1, 2; 2, 1] with hS
  have hsu : Loss.symU S = S := by ext i j; fin_cases i <;> fin_cases j <;> rfl
  have hsym : SymR (fun i j => S i j) := fun i j => by fin_cases i <;> fin_cases j <;> simp [hS]
  have e01 : List.finRange 2 = [0, 1] := rfl
  have hgo : eigenLlt (fun i j => S i j) = (fun i j => S i j, some 1) := by
    have h0 : lltCol (fun i j => S i j) 0 = some fun i j => S i j := by
      have hx : lltRest (fun i j => S i j) 0 0 = 1 := by simp [lltRest, hS]
      unfold lltCol
      simp only [hx]
      rw [if_neg (by simp [FloatOps.lt, FloatOps.eq, FloatOps.ofInt])]
      congr 1
      funext i j
      fin_cases i <;> fin_cases j <;> simp [hS, lltRest, FloatOps.sqrt, FloatOps.div]
    have h1 : lltCol (fun i j => S i j) 1 = none := by
      have hx : lltRest (fun i j => S i j) 1 1 = -3 := by
        simp [hS, lltRest, lltDot, e01, FloatOps.sub, FloatOps.add, FloatOps.mul, FloatOps.ofInt]; norm_num
      unfold lltCol
      simp only [hx]
      rw [if_pos (by simp [FloatOps.lt, FloatOps.eq, FloatOps.ofInt])]
    rw [eigenLlt, e01, lltGo, h0]
    simp only [lltGo, h1]
  refine ⟨by rw [hgo], ?_, ?_, ?_⟩
  · unfold whitenLlt
    rw [symU_read, hsu, hgo]
    unfold fwdSolve
    rw [e01]
    funext i
    fin_cases i <;> simp [hS, FloatOps.sub, FloatOps.add, FloatOps.mul, FloatOps.ofInt, FloatOps.div]
  · have : S⁻¹ = !![-1/3, 2/3; 2/3, -1/3] := by
      refine Matrix.inv_eq_right_inv ?_
      ext i j
      fin_cases i <;> fin_cases j <;> norm_num [hS, Matrix.mul_apply, Fin.sum_univ_two]
    rw [this]
    simp [Matrix.mulVec, dotProduct, Fin.sum_univ_two]
  · have : ¬ PSD (fun i j => S i j) := fun h => by
      have := h.2 ![1, -1]
      simp [dotR, mv, hS, Fin.sum_univ_two] at this
    unfold Loss.mahaSqCov
    rw [hsu]
    have hno : ¬ ∀ j, (eigenLdlt (0 : ℝ) 2 (fun i j => S i j) fun i => if i = j then 1 else 0).isSome := fun h => by
      obtain ⟨x, hx⟩ := Option.isSome_iff_exists.1 (h 0)
      exact this (C104_psd hsym hx)
    simp only [eigenFact, dif_neg hno, Option.map_none]

/-- hypotheses of `C115_factor`, `C115_whitens_partial`: a covariance with correlation, of which only the upper triangle is filled -/
example : ∃ S : Loss.RMat 2 2, S 1 0 ≠ S 0 1 ∧ (Loss.symU S).PosDef ∧ PD (fun i j => Loss.symU S i j) ∧ whitenLlt (fun i j => S i j) ![2, 5] = ![1, 2] := by
  set S : Loss.RMat 2 2 := !![4, 2; 7, 5] with hS
  have hsu : Loss.symU S = !![4, 2; 2, 5] := by ext i j; fin_cases i <;> fin_cases j <;> rfl
  have hpd : PD (fun i j => Loss.symU S i j) := by
    rw [hsu]
    refine ⟨fun i j => ?_, fun v hv => ?_⟩
    · fin_cases i <;> fin_cases j <;> simp
    · have : v 0 ≠ 0 ∨ v 1 ≠ 0 := by
        by_contra h; push Not at h; exact hv (by funext i; fin_cases i <;> simp [h])
      simp only [dotR, mv, Fin.sum_univ_two]
      simp
      rcases this with h | h
      · nlinarith [sq_nonneg (v 0 + 2 * v 1), mul_self_pos.2 h, sq_nonneg (v 1)]
      · nlinarith [sq_nonneg (2 * v 0 + v 1), mul_self_pos.2 h, sq_nonneg (v 0)]
  refine ⟨S, by simp [hS], pd_iff_posDef.1 hpd, hpd, ?_⟩
  have s4 : √(4 : ℝ) = 2 := by rw [show (4 : ℝ) = 2 ^ 2 by norm_num]; exact Real.sqrt_sq (by norm_num)
  have e01 : List.finRange 2 = [0, 1] := rfl
  have hgo : eigenLlt (![![4, 2], ![2, 5]] : Mat ℝ 2) = (![![2, 2], ![1, 2]], none) := by
    have h0 : lltCol (![![4, 2], ![2, 5]] : Mat ℝ 2) 0 = some ![![2, 2], ![1, 5]] := by
      have hx : lltRest (![![4, 2], ![2, 5]] : Mat ℝ 2) 0 0 = 4 := by simp [lltRest]
      unfold lltCol
      simp only [hx]
      rw [if_neg (by simp [FloatOps.lt, FloatOps.eq, FloatOps.ofInt])]
      congr 1
      funext i j
      fin_cases i <;> fin_cases j <;> simp [lltRest, FloatOps.sqrt, FloatOps.div, s4]
    have h1 : lltCol (![![2, 2], ![1, 5]] : Mat ℝ 2) 1 = some ![![2, 2], ![1, 2]] := by
      have hx : lltRest (![![2, 2], ![1, 5]] : Mat ℝ 2) 1 1 = 4 := by
        simp [lltRest, lltDot, e01, FloatOps.sub, FloatOps.add, FloatOps.mul, FloatOps.ofInt]; norm_num
      unfold lltCol
      simp only [hx]
      rw [if_neg (by simp [FloatOps.lt, FloatOps.eq, FloatOps.ofInt])]
      congr 1
      funext i j
      fin_cases i <;> fin_cases j <;> simp [FloatOps.sqrt, s4]
    rw [eigenLlt, e01, lltGo, h0]
    simp only [lltGo, h1]
  have hm : (fun i j => Loss.symU S i j) = (![![4, 2], ![2, 5]] : Mat ℝ 2) := by rw [hsu]; rfl
  unfold whitenLlt
  rw [symU_read, hm, hgo]
  unfold fwdSolve
  rw [e01]
  funext i
  fin_cases i <;> simp [FloatOps.sub, FloatOps.add, FloatOps.mul, FloatOps.ofInt, FloatOps.div]; norm_num

end
end Verif
