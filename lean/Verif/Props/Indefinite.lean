import Verif.Props.SparseProps
import Verif.Props.LmSystem
import Verif.Props.LogProps
/-!
# C62, C63: Hessians that are not positive definite
-/

set_option linter.unusedSectionVars false

namespace Verif
open FloatOps

section
variable {R W X : Type}
variable {so : SolverOpts ℝ} {L : LinAlg ℝ} {P : Problem ℝ R W X} {o : Options ℝ W (DVec ℝ)}

/-- Eigen's `LDLT` with `info() == Success` and `isPositive()`, in exact arithmetic: the matrix is `P' L D L' P` with `D >= 0`, and `solve(b)` is
`x = P' L'^-1 D+ L^-1 P b` with the pseudo-inverse `D+`. So the matrix is positive semi-definite, `b.x = z.D+ z >= 0` with `z = L^-1 P b`, and
`b.x = 0` implies `D+ z = 0`, hence `x = 0`. -/
structure PosLDLT (L : LinAlg ℝ) : Prop where
  psd : ∀ n A b x, SymR A → L.ldlt n A b = some x → PSD A
  nonneg : ∀ n A b x, SymR A → L.ldlt n A b = some x → 0 ≤ dotR b x
  zero : ∀ n A b x, SymR A → L.ldlt n A b = some x → dotR b x = 0 → x = 0

/-- `d` is zero or a descent direction for the gradient `g` -/
def NotUphill {n : Nat} (g d : Vec ℝ n) : Prop := d = 0 ∨ dotR g d < 0

theorem gnSolve_notUphill (hL : PosLDLT L) (hl : so.useLdlt = true) {one : Bool} {n : Nat} {g : Vec ℝ n} {H : Mat ℝ n} {c : Cost ℝ R} {dx : DVec ℝ}
    (h : gnSolve so L one ⟨n, g, H, c⟩ = some dx) : ∃ d, dx = ⟨n, d⟩ ∧ PSD (symUpper H) ∧ NotUphill g d := by
  unfold gnSolve at h
  rw [if_pos hl] at h
  split at h
  · unfold solveLDLT at h
    rw [Option.map_eq_some_iff] at h
    obtain ⟨d, h1, rfl⟩ := h
    refine ⟨d, rfl, hL.psd _ _ _ _ (symUpper_sym H) h1, ?_⟩
    have h2 := hL.nonneg _ _ _ _ (symUpper_sym H) h1
    have h3 := hL.zero _ _ _ _ (symUpper_sym H) h1
    have e : dotR (negVec g) d = - dotR g d := by
      rw [show negVec g = -g from rfl, dotR_comm, dotR_neg, dotR_comm]
    simp only [e] at h2 h3
    rcases lt_or_eq_of_le h2 with h4 | h4
    · exact Or.inr (by linarith)
    · exact Or.inl (h3 h4.symm)
  · cases h

/-- **C62** (partial), Gauss-Newton with LDLT and a dense Hessian: every step of every run is zero or a descent direction of the (clipped) gradient at
the point of its iteration, and it is found only where the Hessian is positive semi-definite. Missing: sparse Hessians, for which the
property is violated, see `C62_sparse_uphill`. -/
theorem C62_gn_partial (hL : PosLDLT L) (hl : so.useLdlt = true) (s : GNState ℝ R) (fuel : Nat) (mi : Int) (w : W) (x : X) (st)
    (h : optimizeAcc (gnEnv so L P) o fuel mi w s x = .ok st) :
    ∀ r ∈ st.trace, ∀ dx, r.dx = some dx → ∃ w0 w1 n c g H d,
      P.acc.full w0 r.x n (fun _ => ofInt 0) (fun _ _ => ofInt 0) = ((c, g, H), w1) ∧ dx = ⟨n, d⟩ ∧ PSD (symUpper H) ∧
      NotUphill (clampVec so.gradClip g) d := by
  intro r hr dx hdx
  have hinv : RunInv (gnEnv so L P) (fun _ => True) (fun _ => True) (fun _ => True)
      (fun x s => UserSystem so P x s) (fun _ _ => True) (fun _ _ => True) :=
    { plus := fun _ _ _ => trivial
      resize := fun _ _ _ _ _ _ _ _ _ => trivial
      build := fun w s x b s' w' _ _ h => by
        cases b
        · exact trivial
        · exact buildSystem_user h
      good := fun _ _ _ _ _ _ _ => trivial
      bad := fun _ _ _ _ _ => trivial
      failedB := fun _ _ _ _ _ => trivial
      failedN := fun _ _ _ _ _ => trivial
      rebuildB := fun _ _ _ _ => trivial
      rebuildA := fun _ _ _ _ => trivial }
  obtain ⟨t, ⟨w0, w1, n, c, g, H, c', h1, rfl⟩, hsol, -⟩ := (run_runinv hinv trivial trivial h).1 r hr dx hdx
  obtain ⟨d, h2, h3, h4⟩ := gnSolve_notUphill hL hl hsol
  refine ⟨w0, w1, n, c, g, H, d, h1, h2, ?_, h4⟩
  rwa [← fillLower_eq, if_neg (by simp [hl])] at h3

/-- **C62** (partial), Levenberg-Marquardt: the same with the damped Hessian, for the iterations of C50 that use the system of their own
point. -/
theorem C62_lm_partial (hL : PosLDLT L) (hl : so.useLdlt = true) (s : LMState ℝ R) (hs : s.rebuild = true) (fuel : Nat) (mi : Int) (w : W) (x : X) (st)
    (h : optimizeAcc (lmEnv so L P) o fuel mi w s x = .ok st) (i r dx) (hi : st.trace[i]? = some r)
    (hdx : r.dx = some dx) (hr : i ≤ 1 ∨ ∃ j q, j < i ∧ i ≤ j + 2 ∧ st.trace[j]? = some q ∧ q.succ = true) :
    ∃ w0 w1 n c g H d l, P.acc.full w0 r.x n (fun _ => ofInt 0) (fun _ _ => ofInt 0) = ((c, g, H), w1) ∧ dx = ⟨n, d⟩ ∧
      PSD (symUpper (dampH l H)) ∧ NotUphill (clampVec so.gradClip g) d := by
  obtain ⟨gn, l, ⟨w0, w1, n, c, g, H, c', h1, rfl⟩, hsol⟩ := C50_step_from_current_partial s hs fuel mi w x st h i r dx hi hdx hr
  obtain ⟨d, h2, h3, h4⟩ := gnSolve_notUphill hL hl hsol
  refine ⟨w0, w1, n, c, g, H, d, l, h1, h2, ?_, h4⟩
  rwa [← fillLower_eq, if_neg (by simp [hl])] at h3

/-- the assumption on LDLT can be met together with that of C25 and C53 -/
theorem someLinAlg_pos : PosLDLT someLinAlg := by
  have key : ∀ n (A : Mat ℝ n) b x, someLinAlg.ldlt n A b = some x → PD A ∧ mv A x = b := by
    intro n A b x h
    simp only [someLinAlg] at h
    split at h
    next hp =>
      injection h with h
      exact ⟨hp, h ▸ (pd_surj hp b).choose_spec⟩
    · cases h
  refine ⟨fun n A b x _ h => (key n A b x h).1.psd, fun n A b x _ h => ?_, fun n A b x _ h h0 => ?_⟩
  · obtain ⟨h1, h2⟩ := key n A b x h
    rw [← h2, dotR_comm]; exact h1.psd.2 x
  · obtain ⟨h1, h2⟩ := key n A b x h
    by_contra hx
    rw [← h2, dotR_comm] at h0
    exact absurd (h1.2 x hx) (by rw [h0]; exact lt_irrefl _)

end

/-- a run to which `C62_gn_partial` applies: the fit of a line -/
example : ∃ st, optimizeAcc (gnEnv soptsR someLinAlg (lsProb line3 line3b)) (optsR 5) 10 (-1) () ⟨2, 0, 0, { cost := 0, num := 0, inlier := 1 }⟩ 0 = .ok st ∧
    PosLDLT someLinAlg := by
  obtain ⟨xs, -, st, h, -⟩ := C28_gn_one_step (so := soptsR) (o := optsR 5) (lsProb_ls line3 line3b (by decide) (by decide)) someLinAlg_exact line3_rank
    (Or.inl rfl) (Or.inl (le_refl _)) rfl ⟨2, 0, 0, { cost := 0, num := 0, inlier := 1 }⟩ (Or.inr rfl) 9 (-1) 6 (by decide) () 0 line3_start
  exact ⟨st, h, someLinAlg_pos⟩

/-! ### The sparse LDLT is not tested for positivity -/

/-- `SimplicialLDLT` of a 1x1 matrix: it fails only for a zero pivot -/
def spLin1 : SpLinAlg D where
  factor := fun s n A => if h : n = 1 then ne (add (A.dense ⟨0, by omega⟩ ⟨0, by omega⟩) s) (ofInt 0) else false
  solve := fun s n A b => fun i => if h : n = 1 then div (b i) (add (A.dense ⟨0, by omega⟩ ⟨0, by omega⟩) s) else ofInt 0

/-- one parameter, cost 10 - x^2 / 2 with its gradient and Hessian -/
def hill : Problem D D Nat D :=
  prob1 (fun x => (sub (ofInt 10) (div (mul x x) (ofInt 2)), neg x, ofInt (-1))) (fun _ => 1) none

def spgn0 : SpGNState D D := ⟨0, nofun, SpSq.zero 0, { cost := ofInt 0, num := 0, inlier := ofInt 1 }⟩

/-- **C62 is violated** with a sparse Hessian: from 1 Gauss-Newton moves up the hill to its top at 0 (step -1, gradient -1) and reports success, where the
same problem with a dense Hessian stops with `kSolverFailed`. -/
theorem C62_sparse_uphill :
    (∃ st r, optimizeAcc (spGnEnv sopts1 spLin1 (sparsify hill)) { opts1 0 with maxConsecFailures := 1 } 10 (-1) 0 spgn0 (ofInt 1) = .ok st ∧ st.trace = [r] ∧ r.succ = true ∧
      r.dx.map DVec.val = some (ofInt (-1)) ∧ 0 ≤ st.out.stop.code ∧ st.x = ofInt 0 ∧
      (hill.acc.eval 0 (ofInt 1)).1.cost = div (ofInt 19) (ofInt 2) ∧ (hill.acc.eval 0 st.x).1.cost = ofInt 10) ∧
    ∃ st, optimizeAcc (gnEnv sopts1 lin1 hill) { opts1 0 with maxConsecFailures := 1 } 10 (-1) 0 gn0 (ofInt 1) = .ok st ∧ st.out.stop = .kSolverFailed := by
  constructor
  · have h : (optimizeAcc (spGnEnv sopts1 spLin1 (sparsify hill)) { opts1 0 with maxConsecFailures := 1 } 10 (-1) 0 spgn0 (ofInt 1)).holds (fun st =>
        match st.trace with
        | [r] => r.succ && decide (r.dx.map DVec.val = some (ofInt (-1))) && decide (0 ≤ st.out.stop.code) && decide (st.x = ofInt 0)
        | _ => false) = true := by decide +kernel
    obtain ⟨st, h1, h2⟩ := Res.exists_of_holds h
    match ht : st.trace with
    | [] => rw [ht] at h2; cases h2
    | r :: _ :: _ => rw [ht] at h2; cases h2
    | [r] =>
      rw [ht] at h2
      simp only [Bool.and_eq_true, decide_eq_true_eq] at h2
      refine ⟨st, r, h1, ht, h2.1.1.1, h2.1.1.2, h2.1.2, h2.2, by decide +kernel, by rw [h2.2]; decide +kernel⟩
  · have h : (optimizeAcc (gnEnv sopts1 lin1 hill) { opts1 0 with maxConsecFailures := 1 } 10 (-1) 0 gn0 (ofInt 1)).holds
        (fun st => decide (st.out.stop = .kSolverFailed)) = true := by decide +kernel
    obtain ⟨st, h1, h2⟩ := Res.exists_of_holds h
    exact ⟨st, h1, of_decide_eq_true h2⟩

/-! ### C63 -/

section
variable {L : LinAlg ℝ} {Ls : SpLinAlg ℝ}

/-- **C63** (partial), dense: for two or more parameters an inverse is returned only for a positive semi-definite matrix. Missing: a single parameter,
`C63_negative_variance`. -/
theorem C63_dense_partial (hL : PosLDLT L) (n : Nat) (H : Mat ℝ n) (hn : 1 < n) (C : DMat ℝ) (h : denseInvCov L ⟨n, H⟩ = some C) : PSD (symUpper H) := by
  unfold denseInvCov at h
  rw [if_neg (show ¬ n = 1 by omega)] at h
  split at h
  · split at h
    next hall =>
      have := hall ⟨0, by omega⟩
      obtain ⟨x, hx⟩ := Option.isSome_iff_exists.1 this
      exact hL.psd _ _ _ _ (symUpper_sym H) hx
    · cases h
  · cases h

/-- `M + s I` -/
def shiftR {n : Nat} (s : ℝ) (M : Mat ℝ n) : Mat ℝ n := fun i j => M i j + if i = j then s else 0

/-- What is assumed of `SimplicialLDLT` with `setShift(s)` over the reals: it solves `A + s I` if this is positive definite. -/
def ExactShift (Ls : SpLinAlg ℝ) : Prop :=
  ∀ s n (A : SpSq ℝ n) v, PD (shiftR s (symUpper A.dense)) → Ls.factor s n A = true ∧ mv (shiftR s (symUpper A.dense)) (Ls.solve s n A v) = v

theorem spSolveId_inv (h : ExactShift Ls) {s : ℝ} {n : Nat} {A : SpSq ℝ n} (hpd : PD (shiftR s (symUpper A.dense))) :
    InvOf (shiftR s (symUpper A.dense)) (spSolveId Ls s A) := by
  have hcol : ∀ j, mv (shiftR s (symUpper A.dense)) (fun i => spSolveId Ls s A i j) = Pi.single j 1 := by
    intro j
    have e : (fun k => if k = j then ofInt 1 else ofInt 0 : Vec ℝ n) = Pi.single j 1 := by
      funext k; by_cases hk : k = j <;> simp [hk]
    have := (h s n A (Pi.single j 1) hpd).2
    unfold spSolveId
    rw [e]
    exact this
  intro v
  have e : mv (spSolveId Ls s A) v = fun i => ∑ j, spSolveId Ls s A i j * v j := rfl
  funext i
  have : mv (shiftR s (symUpper A.dense)) (mv (spSolveId Ls s A) v) i =
      ∑ j, mv (shiftR s (symUpper A.dense)) (fun i => spSolveId Ls s A i j) i * v j := by
    simp only [mv, Finset.mul_sum, Finset.sum_mul]
    rw [Finset.sum_comm]
    refine Finset.sum_congr rfl fun j _ => Finset.sum_congr rfl fun k _ => by ring
  rw [this]
  simp [hcol, Pi.single_apply]

/-- **C63** (partial), sparse: on a positive definite matrix `SparseInvCov` returns the inverse, whatever the shift for a second attempt is. -/
theorem C63_sparse_inverse_partial (h : ExactShift Ls) (retry : ℝ) {n : Nat} (hn : 0 < n) (A : SpSq ℝ n) (hpd : PD (symUpper A.dense)) :
    ∃ C, sparseInvCov Ls retry A = some C ∧ InvOf (symUpper A.dense) C := by
  have e : shiftR 0 (symUpper A.dense) = symUpper A.dense := by funext i j; simp [shiftR]
  have hpd' : PD (shiftR 0 (symUpper A.dense)) := by rw [e]; exact hpd
  refine ⟨_, ?_, e ▸ spSolveId_inv h hpd'⟩
  unfold sparseInvCov
  rw [if_neg (by omega)]
  have := (h 0 n A 0 hpd').1
  simp [this]

/-- **C63**, the second attempt: if the decomposition fails and the shifted matrix is positive definite, the result is the inverse of
the shifted matrix. -/
theorem C63_sparse_shift (h : ExactShift Ls) (retry : ℝ) (hr : 0 < retry) {n : Nat} (hn : 0 < n) (A : SpSq ℝ n) (hf : Ls.factor 0 n A = false)
    (hpd : PD (shiftR retry (symUpper A.dense))) :
    ∃ C, sparseInvCov Ls retry A = some C ∧ InvOf (shiftR retry (symUpper A.dense)) C := by
  refine ⟨_, ?_, spSolveId_inv h hpd⟩
  unfold sparseInvCov
  rw [if_neg (by omega)]
  have := (h retry n A 0 hpd).1
  simp [this, hf, hr]

/-- **C63**, refusal: where the decomposition fails there is a covariance only if a positive shift was given and the shifted decomposition succeeds. -/
theorem C63_sparse_refused (retry : ℝ) {n : Nat} (A : SpSq ℝ n) (hf : Ls.factor 0 n A = false) (hr : retry ≤ 0 ∨ Ls.factor retry n A = false) :
    sparseInvCov Ls retry A = none := by
  have h0 : Ls.factor (ofInt 0) n A = false := by simpa using hf
  unfold sparseInvCov
  split_ifs with h1 h2 h3
  · rfl
  · rw [h0] at h2; cases h2
  · rw [Bool.and_eq_true] at h3
    rcases hr with h | h
    · have h4 : (0 : ℝ) < retry := by simpa using h3.1
      exact absurd h4 (not_lt.mpr h)
    · rw [h3.2] at h; cases h
  · rfl

/-- hypotheses of `C63_sparse_refused`: a decomposition that fails -/
example : ∃ (Ls : SpLinAlg ℝ) (A : SpSq ℝ 1), Ls.factor 0 1 A = false ∧ ((0 : ℝ) ≤ 0 ∨ Ls.factor 0 1 A = false) :=
  ⟨⟨fun _ _ _ => false, fun _ _ _ b => b⟩, SpSq.ofDense fun _ _ => 0, rfl, Or.inl (le_refl _)⟩

end

/-- **C63 is violated** by a single parameter and by sparse matrices: the "covariance" of the Hessian -1 is -1; without any shift. -/
theorem C63_negative_variance :
    (∃ C, denseInvCov lin1 (⟨1, fun _ _ => ofInt (-1)⟩ : DMat D) = some ⟨1, C⟩ ∧ C 0 0 = ofInt (-1)) ∧
    ∃ C, sparseInvCov spLin1 (ofInt 0) (SpSq.ofDense fun _ _ : Fin 1 => (ofInt (-1) : D)) = some C ∧ C 0 0 = ofInt (-1) := by
  refine ⟨⟨_, rfl, by decide +kernel⟩, ?_⟩
  have h : (sparseInvCov spLin1 (ofInt 0) (SpSq.ofDense fun _ _ : Fin 1 => (ofInt (-1) : D))).any (fun C => decide (C 0 0 = ofInt (-1))) = true := by
    decide +kernel
  cases hC : sparseInvCov spLin1 (ofInt 0) (SpSq.ofDense fun _ _ : Fin 1 => (ofInt (-1) : D)) with
  | none => rw [hC] at h; cases h
  | some C => rw [hC] at h; exact ⟨C, rfl, of_decide_eq_true h⟩

open Classical in
/-- a sparse decomposition with shift that meets the assumption -/
noncomputable def someShift : SpLinAlg ℝ where
  factor := fun s _ A => decide (PD (shiftR s (symUpper A.dense)))
  solve := fun s n A v => (someLinAlg.ldlt n (shiftR s (symUpper A.dense)) v).getD 0

theorem someShift_exact : ExactShift someShift := by
  intro s n A v h
  obtain ⟨u, hu, hu2⟩ := someLinAlg_exact.ldlt n (shiftR s (symUpper A.dense)) v h
  refine ⟨by simp [someShift, h], ?_⟩
  simp only [someShift, hu]
  exact hu2

/-- the empty 1x1 matrix: the decomposition fails, the one with shift 1 does not (hypotheses of `C63_sparse_shift`) -/
example : someShift.factor 0 1 (SpSq.zero 1) = false ∧ PD (shiftR 1 (symUpper (SpSq.zero 1 : SpSq ℝ 1).dense)) := by
  have e : ∀ s : ℝ, shiftR s (symUpper (SpSq.zero 1 : SpSq ℝ 1).dense) = fun _ _ => s := by
    intro s
    rw [dense_zero]
    funext i j
    rw [Subsingleton.elim i j]
    simp [shiftR, symUpper]
  constructor
  · simp only [someShift, e, decide_eq_false_iff_not]
    intro h
    have := pd_diag h 0
    simp at this
  · rw [e]; exact pd_one (by norm_num)

/-- a positive definite sparse matrix -/
example : PD (symUpper (SpSq.ofDense (fun _ _ : Fin 1 => (2 : ℝ))).dense) ∧ PosLDLT someLinAlg := by
  refine ⟨?_, someLinAlg_pos⟩
  rw [dense_ofDense _ (fun i j hz => by simp at hz)]
  have : symUpper (fun _ _ : Fin 1 => (2 : ℝ)) = fun _ _ => 2 := by funext i j; simp [symUpper]
  rw [this]; exact pd_one (by norm_num)

end Verif
