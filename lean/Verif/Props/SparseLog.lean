import Verif.Model.SparseLog
import Verif.Props.LogProps
import Verif.Props.SparseProps
import Verif.Props.Indefinite
/-!
# C102: `MaxStdDev` with sparse Hessians
-/

set_option linter.unusedSectionVars false

namespace Verif
open FloatOps

section
variable {R : Type} {Ls : SpLinAlg ℝ}

/-- the stored coefficients -/
theorem mem_stored {n : Nat} (C : Mat ℝ n) (v : ℝ) :
    v ∈ ((List.finRange n).flatMap fun j => (viewCol C j).map Prod.snd) ↔ ∃ i j, v = C i j ∧ v ≠ 0 := by
  simp only [List.mem_flatMap, List.mem_finRange, true_and, List.mem_map, viewCol, List.mem_filterMap]
  constructor
  · rintro ⟨j, e, ⟨i, hi⟩, rfl⟩
    split at hi
    · cases hi
    next h =>
      injection hi with hi
      subst hi
      exact ⟨i, j, rfl, by simpa using h⟩
  · rintro ⟨i, j, rfl, h⟩
    exact ⟨j, (i.1, C i j), ⟨i, by rw [if_neg (by simpa using h)]⟩, rfl⟩

/-- the largest stored coefficient of the inverse of a positive definite matrix is a variance, and the largest of all coefficients -/
theorem spMaxCoeff_inv {n : Nat} {M C : Mat ℝ n} (hn : 0 < n) (h : PD M) (hC : InvOf M C) :
    ∃ i, spMaxCoeff C = .ok (C i i) ∧ ∀ j k, C j k ≤ C i i := by
  obtain ⟨hp, hb⟩ := inv_entries h hC
  have key : ∃ v, spMaxCoeff C = .ok v ∧ (∀ j k, C j k ≠ 0 → C j k ≤ v) ∧ ∃ i j, v = C i j := by
    have hm := mem_stored C
    unfold spMaxCoeff
    generalize (List.finRange n).flatMap (fun j => (viewCol C j).map Prod.snd) = l at hm
    cases l with
    | nil =>
      have := (hm (C ⟨0, hn⟩ ⟨0, hn⟩)).2 ⟨_, _, rfl, (hp _).ne'⟩
      cases this
    | cons a l =>
      obtain ⟨h1, h2, h3⟩ := foldl_max l a
      refine ⟨_, rfl, fun j k hz => ?_, ?_⟩
      · rcases List.mem_cons.1 ((hm (C j k)).2 ⟨j, k, rfl, hz⟩) with e | e
        · rw [e]; exact h1
        · exact h2 _ e
      · have : l.foldl (fun a b => if lt a b then b else a) a ∈ a :: l := by
          rcases h3 with e | e
          · rw [e]; exact List.mem_cons_self
          · exact List.mem_cons_of_mem _ e
        obtain ⟨i, j, e, -⟩ := (hm _).1 this
        exact ⟨i, j, e⟩
  obtain ⟨v, h1, h2, i, j, rfl⟩ := key
  have h3 := h2 i i (hp i).ne'
  have h4 := h2 j j (hp j).ne'
  have h5 := (hb i j).2
  have e : C i j = C i i := by linarith
  refine ⟨i, by rw [h1, e], fun a b => ?_⟩
  by_cases hz : C a b = 0
  · rw [hz]; exact (hp i).le
  · exact e ▸ h2 a b hz

theorem spMaxSigma_of (hL : ExactShift Ls) {n : Nat} (A : SpSq ℝ n) (hn : 0 < n) (hpd : PD (symUpper A.dense)) :
    ∃ C, sparseInvCov Ls 0 A = some C ∧ ∃ sigma, (spMaxCoeff C).map sqrt = .ok sigma ∧ MaxSigma A.dense sigma := by
  obtain ⟨C, h1, h2⟩ := C63_sparse_inverse_partial hL 0 hn A hpd
  obtain ⟨i, h3, h4⟩ := spMaxCoeff_inv hn hpd h2
  have hp := (inv_entries hpd h2).1 i
  refine ⟨_, h1, Real.sqrt (C i i), by rw [h3]; rfl, Real.sqrt_pos.2 hp, C, h2, ⟨i, Real.sq_sqrt hp.le⟩, fun j k => ?_⟩
  rw [Real.sq_sqrt hp.le]; exact h4 j k

theorem MaxSigma.unique {n : Nat} {H : Mat ℝ n} {s t : ℝ} (hpd : PD (symUpper H)) (hs : MaxSigma H s) (ht : MaxSigma H t) : s = t := by
  obtain ⟨s0, C, hC, ⟨i, hi⟩, hm⟩ := hs
  obtain ⟨t0, C', hC', ⟨j, hj⟩, hm'⟩ := ht
  have e := invOf_unique hpd hC hC'
  subst e
  have h1 := hm j j
  have h2 := hm' i i
  have : s ^ 2 = t ^ 2 := by linarith
  exact (pow_left_inj₀ s0.le t0.le (by norm_num)).1 this

/-- **C102** (partial), Gauss-Newton: on a positive definite sparse Hessian, stored fully or by its upper triangle, `MaxStdDev` is the square root of the largest variance,
and the same as with the dense Hessian. Missing: other Hessians, see `C102_indefinite`. -/
theorem C102_gn_partial (hL : ExactShift Ls) {Ld : LinAlg ℝ} (hLd : ExactLinAlg Ld) (s : SpGNState ℝ R) (hn : 0 < s.n) (hpd : PD (symUpper s.H.dense)) :
    ∃ sigma, spGnMaxStdDev Ls s = .ok sigma ∧ MaxSigma s.H.dense sigma ∧ gnMaxStdDev Ld (⟨s.n, s.g, s.H.dense, s.cost⟩ : GNState ℝ R) = .ok sigma := by
  obtain ⟨C, h1, sigma, h2, h3⟩ := spMaxSigma_of hL s.H hn hpd
  obtain ⟨sigma', h4, h5⟩ := C64_gn_partial hLd (⟨s.n, s.g, s.H.dense, s.cost⟩ : GNState ℝ R) hn hpd
  refine ⟨sigma, ?_, h3, by rw [h4, h3.unique hpd h5]⟩
  unfold spGnMaxStdDev
  rw [show sparseInvCov Ls (ofInt 0) s.H = some C from by simpa using h1]
  exact h2

/-- the same state with a dense Hessian -/
noncomputable def lmOfSp (s : SpLMState ℝ R) : LMState ℝ R := ⟨⟨s.gn.n, s.gn.g, s.gn.H.dense, s.gn.cost⟩, s.lambda, s.prev, s.badF, s.rebuild⟩

theorem lmOfSp_hessian (s : SpLMState ℝ R) : lmHessian (lmOfSp s) = ⟨(spLmHessian s).n, (spLmHessian s).m.dense⟩ := by
  by_cases h : lt (ofInt 0) s.prev = true
  · have e : spLmHessian s = ⟨s.gn.n, s.gn.H.updateDiag fun v => div v (add (ofInt 1) s.prev)⟩ := by unfold spLmHessian; rw [if_pos h]
    rw [e]
    unfold lmHessian
    rw [if_pos (show lt (ofInt 0) (lmOfSp s).prev = true from h)]
    show DMat.mk s.gn.n _ = DMat.mk s.gn.n _
    congr 1
    funext i j
    exact (dense_updateDiag s.gn.H (fun v => div v (add (ofInt 1) s.prev)) i j).symm
  · have e : spLmHessian s = ⟨s.gn.n, s.gn.H⟩ := by unfold spLmHessian; rw [if_neg h]
    rw [e]
    unfold lmHessian
    rw [if_neg (show ¬ lt (ofInt 0) (lmOfSp s).prev = true from h)]
    rfl

/-- **C102** (partial), Levenberg-Marquardt: from the un-damped Hessian the square root of the largest variance, from the damped one never more; both as with the dense Hessian. -/
theorem C102_lm_partial (hL : ExactShift Ls) {Ld : LinAlg ℝ} (hLd : ExactLinAlg Ld) (s : SpLMState ℝ R) (hn : 0 < s.gn.n) (hsym : SymR s.gn.H.dense)
    (hpd : PD (spLmHessian s).m.dense) :
    ∃ damped sigma, spLmMaxStdDev Ls true s = .ok damped ∧ spLmMaxStdDev Ls false s = .ok sigma ∧ MaxSigma s.gn.H.dense damped ∧
      MaxSigma (spLmHessian s).m.dense sigma ∧ damped ≤ sigma ∧
      lmMaxStdDev Ld true (lmOfSp s) = .ok damped ∧ lmMaxStdDev Ld false (lmOfSp s) = .ok sigma := by
  have hN : (spLmHessian s).n = s.gn.n := by unfold spLmHessian; split <;> rfl
  have hn' : 0 < (spLmHessian s).n := hN ▸ hn
  obtain ⟨H, hH⟩ : ∃ H : Mat ℝ s.gn.n, lmHessian (lmOfSp s) = ⟨s.gn.n, H⟩ ∧ PD H := by
    have h1 := lmOfSp_hessian s
    have : ∀ (k : Nat) (M : Mat ℝ k), k = s.gn.n → PD M → ∃ H : Mat ℝ s.gn.n, (⟨k, M⟩ : DMat ℝ) = ⟨s.gn.n, H⟩ ∧ PD H := by
      rintro k M rfl h
      exact ⟨M, rfl, h⟩
    rw [h1]
    exact this _ _ hN hpd
  obtain ⟨d, g, a1, a2, a3, a4, a5⟩ := C64_lm_partial hLd (lmOfSp s) hn hsym H hH.1 hH.2
  have hpd2 : PD (symUpper s.gn.H.dense) := by
    rw [symUpper_of_sym hsym]
    have h1 := hH.1
    unfold lmHessian at h1
    split at h1
    next h =>
      have h : (0 : ℝ) < s.prev := by simpa [lmOfSp] using h
      have h2 := eq_of_heq (DMat.mk.inj h1).2
      have h3 : s.gn.H.dense = dampedR s.prev H := by
        funext i j
        rw [← h2]
        unfold dampedR lmOfSp
        by_cases hij : i = j
        · subst hij
          simp
          field_simp
        · simp [hij]
      rw [h3]
      exact damped_pd' hH.2 h.le
    · have h2 := eq_of_heq (DMat.mk.inj h1).2
      have h3 : s.gn.H.dense = H := h2
      rw [h3]; exact hH.2
  obtain ⟨C1, b1, d', b2, b3⟩ := spMaxSigma_of hL s.gn.H hn hpd2
  obtain ⟨C2, c1, g', c2, c3⟩ := spMaxSigma_of hL (spLmHessian s).m hn' (by rw [symUpper_of_sym hpd.1]; exact hpd)
  have ed : d' = d := b3.unique hpd2 a3
  have eg : g' = g := by
    have h1 : (⟨(spLmHessian s).n, (spLmHessian s).m.dense⟩ : DMat ℝ) = ⟨s.gn.n, H⟩ := by rw [← lmOfSp_hessian, hH.1]
    have h2 : ∀ M : DMat ℝ, M = ⟨s.gn.n, H⟩ → PD M.m → MaxSigma M.m g' → g' = g := by
      rintro M rfl hM h
      exact h.unique (by rw [symUpper_of_sym hM.1]; exact hM) a4
    exact h2 _ h1 hpd c3
  subst ed eg
  refine ⟨d', g', ?_, ?_, b3, c3, a5, a1, a2⟩
  · show spLmStd Ls s.gn.H = _
    unfold spLmStd
    rw [show sparseInvCov Ls (ofInt 0) s.gn.H = some C1 from by simpa using b1]
    exact b2
  · show spLmStd Ls (spLmHessian s).m = _
    unfold spLmStd
    rw [show sparseInvCov Ls (ofInt 0) (spLmHessian s).m = some C2 from by simpa using c1]
    exact c2

/-- A sparse LDLT over the reals as it is, without a test of signs: it solves every system with nonzero pivots; here of diagonal matrices. -/
def SolvesDiag (Ls : SpLinAlg ℝ) : Prop := ∀ n (A : SpSq ℝ n) (d : Vec ℝ n), (∀ i j, A.dense i j = if i = j then d i else 0) → (∀ i, d i ≠ 0) →
  Ls.factor 0 n A = true ∧ ∀ v, Ls.solve 0 n A v = fun i => v i / d i

/-- **C102 is violated** by indefinite Hessians: `MaxStdDev` of the saddle `diag(a, -b)` is `1 / sqrt a`, as if the second parameter were perfectly known, where the dense
solver throws (Gauss-Newton) or reports 0 (Levenberg-Marquardt). -/
theorem C102_indefinite (hL : SolvesDiag Ls) {Ld : LinAlg ℝ} (hLd : PosLDLT Ld) (a b : ℝ) (ha : 0 < a) (hb : 0 < b) (A : SpSq ℝ 2)
    (hA : ∀ i j, A.dense i j = if i = j then ![a, -b] i else 0) (g : Vec ℝ 2) (c : Cost ℝ R) :
    spGnMaxStdDev Ls ⟨2, g, A, c⟩ = .ok (1 / √a) ∧ gnMaxStdDev Ld ⟨2, g, A.dense, c⟩ = .throw ∧
    spLmMaxStdDev Ls true ⟨⟨2, g, A, c⟩, 0, 0, 2, true⟩ = .ok (1 / √a) ∧ lmMaxStdDev Ld true ⟨⟨2, g, A.dense, c⟩, 0, 0, 2, true⟩ = .ok 0 := by
  have hd : ∀ i, (![a, -b] : Vec ℝ 2) i ≠ 0 := by
    intro i; fin_cases i
    · exact ha.ne'
    · exact neg_ne_zero.2 hb.ne'
  obtain ⟨hf, hs⟩ := hL 2 A ![a, -b] hA hd
  have hC : sparseInvCov Ls 0 A = some (fun i j => if i = j then 1 / ![a, -b] i else 0) := by
    unfold sparseInvCov
    rw [if_neg (by norm_num), if_pos (by simpa using hf)]
    congr 1
    funext i j
    unfold spSolveId
    rw [show (ofInt 0 : ℝ) = 0 from by simp, hs]
    by_cases hij : i = j <;> simp [hij]
  have hm : (spMaxCoeff (fun i j : Fin 2 => if i = j then 1 / (![a, -b] : Vec ℝ 2) i else 0)).map sqrt = .ok (1 / √a) := by
    have h1 : (1 / (![a, -b] : Vec ℝ 2) 0) ≠ 0 := one_div_ne_zero (hd 0)
    have h2 : (1 / (![a, -b] : Vec ℝ 2) 1) ≠ 0 := one_div_ne_zero (hd 1)
    have e : ((List.finRange 2).flatMap fun j => (viewCol (fun i j : Fin 2 => if i = j then 1 / (![a, -b] : Vec ℝ 2) i else 0) j).map Prod.snd) = [1 / a, 1 / -b] := by
      have hb' : (1 / -b) ≠ 0 := h2
      have ha' : (1 / a) ≠ 0 := h1
      simp [List.finRange_succ, viewCol, ha.ne', hb.ne']
    unfold spMaxCoeff
    rw [e]
    have hlt : ¬ (1 / a < 1 / -b) := by
      have : 1 / -b < 0 := one_div_neg.2 (by linarith)
      have : 0 < 1 / a := by positivity
      linarith
    have : lt (1 / a) (1 / -b) = false := by simpa using hlt
    simp only [List.foldl_cons, List.foldl_nil, this, Bool.false_eq_true, if_false]
    show Res.ok (Real.sqrt (1 / a)) = _
    rw [Real.sqrt_div zero_le_one, Real.sqrt_one]
  have hC' : sparseInvCov Ls (ofInt 0) A = some (fun i j => if i = j then 1 / ![a, -b] i else 0) := by
    rw [← hC]; congr 1; simp
  have hno : denseInvCov Ld ⟨2, A.dense⟩ = none := by
    cases h : denseInvCov Ld ⟨2, A.dense⟩ with
    | none => rfl
    | some C =>
      have := C63_dense_partial hLd 2 A.dense (by norm_num) C h
      have h2 := this.2 ![0, 1]
      simp [dotR, mv, Fin.sum_univ_succ, symUpper, hA] at h2
      linarith
  refine ⟨?_, ?_, ?_, ?_⟩
  · unfold spGnMaxStdDev
    rw [hC']
    exact hm
  · unfold gnMaxStdDev
    rw [hno]
  · show spLmStd Ls A = _
    unfold spLmStd
    rw [hC']
    exact hm
  · unfold lmMaxStdDev
    simp only [if_true]
    rw [hno]
    simp

end

/-! ### Non-vacuity -/

/-- hypotheses of `C102_gn_partial` -/
example : ExactShift someShift ∧ ExactLinAlg someLinAlg ∧ PD (symUpper (SpSq.ofDense (fun _ _ : Fin 1 => (2 : ℝ))).dense) := by
  refine ⟨someShift_exact, someLinAlg_exact, ?_⟩
  rw [dense_ofDense _ (fun i j hz => by simp at hz)]
  have : symUpper (fun _ _ : Fin 1 => (2 : ℝ)) = fun _ _ => 2 := by funext i j; simp [symUpper]
  rw [this]; exact pd_one (by norm_num)

/-- hypotheses of `C102_lm_partial`: a damped 1x1 matrix -/
example : let s : SpLMState ℝ ℝ := ⟨⟨1, 0, SpSq.ofDense (fun _ _ => 4), { cost := 1, num := 1, inlier := 1 }⟩, 1, 1, 2, true⟩
    SymR s.gn.H.dense ∧ PD (spLmHessian s).m.dense ∧ (spLmHessian s).n = 1 := by
  intro s
  have h0 : s.gn.H.dense = fun _ _ => 4 := dense_ofDense _ (fun i j hz => by simp at hz)
  refine ⟨fun i j => by rw [h0], ?_, ?_⟩
  · have : spLmHessian s = ⟨1, s.gn.H.updateDiag fun v => div v (add (ofInt 1) s.prev)⟩ := by
      unfold spLmHessian
      rw [if_pos (by simp [s])]
    rw [this]
    have e : (s.gn.H.updateDiag fun v => div v (add (ofInt 1) s.prev)).dense = fun _ _ => 2 := by
      funext i j
      rw [dense_updateDiag, h0, if_pos (Subsingleton.elim _ _)]
      simp [s]; norm_num
    show PD (s.gn.H.updateDiag fun v => div v (add (ofInt 1) s.prev)).dense
    rw [e]; exact pd_one (by norm_num)
  · unfold spLmHessian; split <;> rfl

/-- a decomposition as assumed by `C102_indefinite` -/
noncomputable def diagLDLT : SpLinAlg ℝ where
  factor := fun _ n A => @decide (∃ d : Vec ℝ n, (∀ i j, A.dense i j = if i = j then d i else 0) ∧ ∀ i, d i ≠ 0) (Classical.propDecidable _)
  solve := fun _ _ A v => fun i => v i / A.dense i i

theorem diagLDLT_solves : SolvesDiag diagLDLT := by
  intro n A d h1 h2
  refine ⟨@decide_eq_true _ (Classical.propDecidable _) ⟨d, h1, h2⟩, fun v => ?_⟩
  funext i
  show v i / A.dense i i = _
  rw [h1, if_pos rfl]

/-- the saddle `diag(4, -1)`: standard deviation 1/2 -/
example : spGnMaxStdDev diagLDLT (⟨2, 0, SpSq.ofDense (fun i j => if i = j then ![4, -1] i else 0), { cost := 1, num := 1, inlier := 1 }⟩ : SpGNState ℝ ℝ) = .ok (1 / √4) :=
  (C102_indefinite (Ld := someLinAlg) diagLDLT_solves someLinAlg_pos 4 1 (by norm_num) (by norm_num) _
    (fun i j => by rw [dense_ofDense _ (fun i j hz => by simpa using hz)]) 0 _).1

end Verif
