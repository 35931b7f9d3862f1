import Verif.Lemmas.Pad
import Verif.Props.Units
/-!
# C105: parameters without effect

A user adds parameters that no residual depends on. They should stay where they are, and the others should move as before.
-/

set_option linter.unusedSectionVars false

namespace Verif
open FloatOps

section
variable {R W X X' U : Type} {m n N : Nat}

/-- What the runs with and without the added parameters have in common: everything but the saved Hessian; the added parameters keep their values `u`. -/
def PadRun (ι : Fin n ↪ Fin N) (tx : X' → X) (ux : X' → U) (u : U) {S S' : Type} (st : LoopSt ℝ R W S X (DVec ℝ) (DMat ℝ)) (st' : LoopSt ℝ R W S' X' (DVec ℝ) (DMat ℝ)) : Prop :=
  st.w = st'.w ∧ st.x = tx st'.x ∧ ux st'.x = u ∧ ({ st.out with finalHessian := none } : Output ℝ R (DMat ℝ)) = { st'.out with finalHessian := none } ∧
    List.Forall₂ (fun r r' => r.x = tx r'.x ∧ ux r'.x = u ∧ r.succ = r'.succ ∧ Option.Rel (StepPad ι) r.dx r'.dx ∧ r.xNext = tx r'.xNext ∧ ux r'.xNext = u) st.trace st'.trace

variable {ι : Fin n ↪ Fin N} {tx : X' → X} {ux : X' → U} {P : Problem ℝ R W X} {P' : Problem ℝ R W X'} {so : SolverOpts ℝ} {o o' : Options ℝ W (DVec ℝ)}

theorem padRun_of_final {u : U} {S S' : Type} {a : Res (LoopSt ℝ R W S X (DVec ℝ) (DMat ℝ))}
    {b : Res (LoopSt ℝ R W S' X' (DVec ℝ) (DMat ℝ))} (h : Res.Rel (FinalSim (padRels ι tx ux u)) a b) : Res.Rel (PadRun ι tx ux u) a b := by
  refine Res.Rel.mono h ?_
  rintro ⟨w, s, x, out, ld, ls, tr⟩ ⟨w', s', x', out', ld', ls', tr'⟩ ⟨h1, h2, h3, h4⟩
  refine ⟨h1, h2.1, h2.2, ?_, h4.imp fun r r' hr => ⟨hr.x.1, hr.x.2, hr.succ, hr.dx, hr.xNext.1, hr.xNext.2⟩⟩
  obtain ⟨a1, a2, a3, a4, a5, a6, a7, a8, a9, a10, a11, a12, a13⟩ := out
  obtain ⟨b1, b2, b3, b4, b5, b6, b7, b8, b9, b10, b11, b12, b13⟩ := out'
  obtain ⟨h1, h2, h3, h4, h5, h6, h7, h8, h9, h10, h11, h12⟩ := h3
  simp only at h1 h2 h3 h4 h5 h6 h7 h8 h9 h10 h11 h12
  have e : a11 = b11 := by
    have := h10.imp (S := Eq) (fun e e' ⟨c, c', hc, h1, h2⟩ => by have : c = c' := hc; rw [h1, h2, this])
    exact List.forall₂_eq_eq_eq ▸ this
  have e2 : a12 = b12 := by
    have h11 : List.Forall₂ Eq a12 b12 := h11
    exact List.forall₂_eq_eq_eq ▸ h11
  have f1 : a1 = b1 := h1
  have f2 : a2 = b2 := h2
  simp only [Output.mk.injEq]
  exact ⟨f1, f2, h3, h4, h5, h6, h7, h8, trivial, h9, e, e2, h12⟩

/-! ### The solvers -/

/-- **C105** (partial), Gauss-Newton with `use_ldlt`: parameters without effect do not move and change nothing, if the Hessians of the other parameters are positive definite (up to rows of zeros)
or not positive semidefinite. Missing: other Hessians, see `C105_gn_refused`. -/
theorem C105_gn_partial {inv : (n : Nat) → Mat ℝ n → Mat ℝ n} (h : Padded ι tx ux P P') (hl : so.useLdlt = true) (hm : so.checkMinHDiag ≤ 0) (hg : 0 ≤ so.gradClip) (ho : PadOpts ι o o')
    (hH : ∀ w x, SymR (fullH P n w x) ∧ (SemiPD (fullH P n w x) ∨ ¬ PSD (fullH P n w x)))
    (fuel : Nat) (mi : Int) (w : W) (y : X') (s s' : GNState ℝ R) (hn : s.n = n ↔ s'.n = N) (hd : P.dims ≠ none → s.n = n) :
    Res.Rel (PadRun ι tx ux (ux y)) (optimizeAcc (gnEnv so (eigenLinAlg 0 inv) P) o fuel mi w s (tx y)) (optimizeAcc (gnEnv so (eigenLinAlg 0 inv) P') o' fuel mi w s' y) :=
  padRun_of_final (run_runsim (gn_padsim h hl hm hg fun w y => eigen_padOk (hH w (tx y)).1 (hH w (tx y)).2) (optSim_pad ho) fuel mi w s s' _ _ ⟨rfl, rfl⟩ ⟨hn, hd⟩ (Or.inl fun _ _ h => h))

/-- **C105**, Levenberg-Marquardt with `use_ldlt`, new solvers: parameters without effect do not move and change nothing, if the Hessians are positive semidefinite and the dampings positive. -/
theorem C105_lm {inv : (n : Nat) → Mat ℝ n → Mat ℝ n} (h : Padded ι tx ux P P') (hl : so.useLdlt = true) (hm : so.checkMinHDiag ≤ 0) (hg : 0 ≤ so.gradClip) (ho : PadOpts ι o o')
    (hlo : 0 < so.dampLo) (hin : 0 < so.dampInit) (hH : ∀ w x, PSD (fullH P n w x)) (hval : ∀ w y, (normalizeCost so (P'.acc.eval w y).1).isValid = true)
    (fuel : Nat) (mi : Int) (hb : ∀ k, loopBound o mi = some k → k ≤ 65536) (w : W) (y : X')
    (g : Vec ℝ (P.dims.getD 0)) (H : Mat ℝ (P.dims.getD 0)) (g' : Vec ℝ (P'.dims.getD 0)) (H' : Mat ℝ (P'.dims.getD 0)) :
    Res.Rel (PadRun ι tx ux (ux y)) (optimizeAcc (lmEnv so (eigenLinAlg 0 inv) P) o fuel mi w (lmFresh so P g H) (tx y))
      (optimizeAcc (lmEnv so (eigenLinAlg 0 inv) P') o' fuel mi w (lmFresh so P' g' H') y) := by
  have hl0 : 0 < min so.dampLo so.dampInit := lt_min hlo hin
  refine padRun_of_final (run_runsim (lm_padsim (l0 := min so.dampLo so.dampInit) h hl hm hg hl0.le (min_le_left _ _) (fun w y r hr => ?_) hval) (optSim_pad ho) fuel mi w _ _ _ _ ⟨rfl, rfl⟩
    ⟨⟨rfl, rfl, rfl, rfl, min_le_right _ _⟩, ?_, Or.inl rfl⟩ (Or.inr hb))
  · have hs := scaleDiag_semi (hH w (tx y)) (q := r) (by linarith)
    exact eigen_padOk hs.1.1 (Or.inl hs)
  · have hn := h.pos
    have hN := h.pos'
    simp only [SizePad, lmFresh, lmReset, gnFresh]
    rcases h.dims with ⟨e1, e2⟩ | ⟨e1, e2⟩ <;> rw [e1, e2] <;> simp <;> omega

/-- **C105**, gradient descent. -/
theorem C105_gd (h : Padded ι tx ux P P') (hg : 0 ≤ so.gradClip) (ho : PadOpts ι o o') (fuel : Nat) (mi : Int) (w : W) (y : X')
    (s s' : GNState ℝ R) (hn : s.n = n ↔ s'.n = N) (hd : P.dims ≠ none → s.n = n) :
    Res.Rel (PadRun ι tx ux (ux y)) (optimizeAcc (gdEnv so P) o fuel mi w s (tx y)) (optimizeAcc (gdEnv so P') o' fuel mi w s' y) :=
  padRun_of_final (run_runsim (gd_padsim h hg) (optSim_pad ho) fuel mi w s s' _ _ ⟨rfl, rfl⟩ ⟨hn, hd⟩ (Or.inl fun _ _ h => h))

end

/-! ### Residuals -/

section
variable {m n N : Nat} {ι : Fin n ↪ Fin N}

/-- Jacobians with columns of zeros added -/
def PadJ (ι : Fin n ↪ Fin N) (A : Fin m → Fin n → ℝ) (A' : Fin m → Fin N → ℝ) : Prop := ∀ i, PadV ι (A i) (A' i)

theorem PadJ.gram {A : Fin m → Fin n → ℝ} {A' : Fin m → Fin N → ℝ} (h : PadJ ι A A') : PadM ι (gram A) (gram A') := by
  unfold Verif.gram
  refine ⟨fun i j => Finset.sum_congr rfl fun k _ => by rw [(h k).1, (h k).1], fun j hj i => ⟨Finset.sum_eq_zero fun k _ => ?_, Finset.sum_eq_zero fun k _ => ?_⟩⟩ <;>
    rw [(h k).2 j hj] <;> ring

theorem PadJ.tmv {A : Fin m → Fin n → ℝ} {A' : Fin m → Fin N → ℝ} (h : PadJ ι A A') (r : Vec ℝ m) : PadV ι (tmv A r) (tmv A' r) := by
  unfold Verif.tmv
  refine ⟨fun i => Finset.sum_congr rfl fun k _ => by rw [(h k).1], fun j hj => Finset.sum_eq_zero fun k _ => ?_⟩
  rw [(h k).2 j hj]; ring

theorem PadJ.mv {A : Fin m → Fin n → ℝ} {A' : Fin m → Fin N → ℝ} (h : PadJ ι A A') (y : Vec ℝ N) : Verif.mv A' y = Verif.mv A fun i => y (ι i) := by
  funext i
  exact pad_sum (ι := ι) _ _ (fun j hj => by rw [(h i).2 j hj, zero_mul]) fun k => by rw [(h i).1]

theorem fullH_gram (A : Fin m → Fin n → ℝ) :
    symUpper (fun i j : Fin n => if h : i.1 < n ∧ j.1 < n then (0 : ℝ) + gram A ⟨i.1, h.1⟩ ⟨j.1, h.2⟩ else 0) = gram A := by
  have : (fun i j : Fin n => if h : i.1 < n ∧ j.1 < n then (0 : ℝ) + gram A ⟨i.1, h.1⟩ ⟨j.1, h.2⟩ else 0) = gram A := by
    funext i j; simp
  rw [this, symUpper_of_sym (gram_sym _)]

/-- the same residuals as functions of more parameters -/
theorem nlsProb_padded (hn : 0 < n) (r : Vec ℝ n → Vec ℝ m) (J : Vec ℝ n → Fin m → Fin n → ℝ) (J' : Vec ℝ N → Fin m → Fin N → ℝ) (hJ : ∀ y, PadJ ι (J fun i => y (ι i)) (J' y)) :
    Padded ι (fun (y : Vec ℝ N) i => y (ι i)) (fun y (j : { j // j ∉ Set.range ι }) => y j) (nlsProb r J) (nlsProb (fun y => r fun i => y (ι i)) J') where
  pos := hn
  dims := Or.inr ⟨rfl, rfl⟩
  dyn _ := rfl
  dyn' _ := rfl
  plus y v v' hv := by
    constructor
    · funext i; simp [nlsProb, hv.1]
    · funext j; simp [nlsProb, hv.2 j j.2]
  clock := rfl
  ratio1 := rfl
  alloc _ := ⟨rfl, rfl⟩
  full w y := by
    refine ⟨_, _, _, _, _, _, rfl, rfl, ?_, ?_⟩
    · have := (hJ y).tmv (r fun i => y (ι i))
      exact ⟨fun i => by simpa using this.1 i, fun j hj => by simpa using this.2 j hj⟩
    · rw [fullH_gram, fullH_gram]; exact (hJ y).gram
  eval _ _ := rfl

theorem nlsProb_fullH (r : Vec ℝ n → Vec ℝ m) (J : Vec ℝ n → Fin m → Fin n → ℝ) (w : Unit) (x : Vec ℝ n) : fullH (nlsProb r J) n w x = gram (J x) := fullH_gram _

/-- **C105** for residuals, Levenberg-Marquardt: whatever the residuals and their Jacobians, parameters that no residual depends on do not move and change nothing. -/
theorem C105_lm_residuals {inv : (n : Nat) → Mat ℝ n → Mat ℝ n} (hn : 0 < n) (r : Vec ℝ n → Vec ℝ m) (J : Vec ℝ n → Fin m → Fin n → ℝ) (J' : Vec ℝ N → Fin m → Fin N → ℝ)
    (hJ : ∀ y, PadJ ι (J fun i => y (ι i)) (J' y)) {so : SolverOpts ℝ} {o o' : Options ℝ Unit (DVec ℝ)} (hl : so.useLdlt = true) (hm : so.checkMinHDiag ≤ 0) (hg : 0 ≤ so.gradClip) (ho : PadOpts ι o o')
    (hlo : 0 < so.dampLo) (hin : 0 < so.dampInit) (hval : ∀ x, (normalizeCost so ({ cost := dotR (r x) (r x), num := m, inlier := 1 } : Cost ℝ ℝ)).isValid = true)
    (fuel : Nat) (mi : Int) (hb : ∀ k, loopBound o mi = some k → k ≤ 65536) (y : Vec ℝ N) (g H g' H') :
    Res.Rel (PadRun ι (fun (y : Vec ℝ N) i => y (ι i)) (fun y (j : { j // j ∉ Set.range ι }) => y j) fun j => y j)
      (optimizeAcc (lmEnv so (eigenLinAlg 0 inv) (nlsProb r J)) o fuel mi () (lmFresh so (nlsProb r J) g H) fun i => y (ι i))
      (optimizeAcc (lmEnv so (eigenLinAlg 0 inv) (nlsProb (fun y => r fun i => y (ι i)) J')) o' fuel mi () (lmFresh so (nlsProb (fun y => r fun i => y (ι i)) J') g' H') y) :=
  C105_lm (nlsProb_padded hn r J J' hJ) hl hm hg ho hlo hin (fun w x => by rw [nlsProb_fullH]; exact gram_psd _) (fun w y => hval _) fuel mi hb () y g H g' H'

/-- linear residuals -/
theorem lsProb_padded (hn : 0 < n) (A : Fin m → Fin n → ℝ) (A' : Fin m → Fin N → ℝ) (b : Vec ℝ m) (hA : PadJ ι A A') :
    Padded ι (fun (y : Vec ℝ N) i => y (ι i)) (fun y (j : { j // j ∉ Set.range ι }) => y j) (lsProb A b) (lsProb A' b) where
  pos := hn
  dims := Or.inr ⟨rfl, rfl⟩
  dyn _ := rfl
  dyn' _ := rfl
  plus y v v' hv := by
    constructor
    · funext i; simp [lsProb, hv.1]
    · funext j; simp [lsProb, hv.2 j j.2]
  clock := rfl
  ratio1 := rfl
  alloc _ := ⟨rfl, rfl⟩
  full w y := by
    have e : lsCost A' b y = lsCost A b fun i => y (ι i) := by unfold lsCost; rw [hA.mv]
    refine ⟨_, _, _, _, _, _, rfl, by simp only [lsProb, e]; rfl, ?_, ?_⟩
    · have := hA.tmv (Verif.mv A (fun i => y (ι i)) - b)
      rw [← hA.mv y] at this
      refine ⟨fun i => ?_, fun j hj => ?_⟩
      · have h1 := this.1 i
        rw [hA.mv y] at h1
        simpa [lsGrad, hA.mv y] using h1
      · simpa [lsGrad] using this.2 j hj
    · rw [fullH_gram, fullH_gram]; exact hA.gram
  eval w y := by
    have e : lsCost A' b y = lsCost A b fun i => y (ι i) := by unfold lsCost; rw [hA.mv]
    simp only [lsProb, e]

end

/-! ### Examples -/

/-- residuals `2 + sin x`, `1` of one parameter -/
noncomputable def sinR (x : Vec ℝ 1) : Vec ℝ 2 := fun i => if i = 0 then 2 + Real.sin (x 0) else 1

noncomputable def sinJ (x : Vec ℝ 1) : Fin 2 → Fin 1 → ℝ := fun i _ => if i = 0 then Real.cos (x 0) else 0

/-- … as functions of a second parameter of two -/
noncomputable def sinJ' (y : Vec ℝ 2) : Fin 2 → Fin 2 → ℝ := fun i j => if j = 0 then 0 else if i = 0 then Real.cos (y 1) else 0

theorem sin_padJ (y : Vec ℝ 2) : PadJ (Fin.succEmb 1) (sinJ fun i => y (Fin.succEmb 1 i)) (sinJ' y) := by
  intro i
  refine ⟨fun j => by simp [sinJ, sinJ'], fun j hj => ?_⟩
  obtain rfl : j = 0 := by
    by_contra h
    exact hj ⟨j.pred h, by simp⟩
  simp [sinJ']

theorem sin_valid (x : Vec ℝ 1) : (normalizeCost soptsR ({ cost := dotR (sinR x) (sinR x), num := 2, inlier := 1 } : Cost ℝ ℝ)).isValid = true := by
  have h1 := Real.sin_le_one (x 0)
  have h2 := Real.neg_one_le_sin (x 0)
  have e : dotR (sinR x) (sinR x) = (2 + Real.sin (x 0)) ^ 2 + 1 := by simp [sinR, dotR, Fin.sum_univ_two]; ring
  have b1 : (2 + Real.sin (x 0)) ^ 2 ≤ 9 := by nlinarith
  have b3 : (10 : ℝ) < 2 ^ 1024 := lt_of_lt_of_le (by norm_num : (10 : ℝ) < 2 ^ 4) (pow_le_pow_right₀ (by norm_num) (by norm_num))
  have : ((2 + Real.sin (x 0)) ^ 2 + 1 : ℝ) ≠ 2 ^ 1024 := by
    intro h; rw [← h] at b3; linarith
  simpa [Cost.isValid, normalizeCost, soptsR, e, maxVal, ne] using this

theorem semi_one (H : Mat ℝ 1) (h : PSD H) : SemiPD H := by
  refine ⟨h, fun i hi j => by rw [Subsingleton.elim j i]; exact hi, fun v ⟨i, hi, hv⟩ => ?_⟩
  obtain rfl : i = 0 := Subsingleton.elim _ _
  have h1 := h.2 (fun _ => 1)
  simp [dotR, mv] at h1 ⊢
  have : 0 < H 0 0 := lt_of_le_of_ne h1 (Ne.symm hi)
  have h2 : 0 < v 0 * v 0 := mul_self_pos.mpr hv
  nlinarith

/-- hypotheses of `C105_gn_partial`, `C105_lm`, `C105_lm_residuals` and `C105_gd` -/
example : Padded (Fin.succEmb 1) (fun (y : Vec ℝ 2) i => y (Fin.succEmb 1 i)) (fun y (j : { j // j ∉ Set.range (Fin.succEmb 1) }) => y j) (nlsProb sinR sinJ)
      (nlsProb (fun y => sinR fun i => y (Fin.succEmb 1 i)) sinJ') ∧ soptsR.useLdlt = true ∧ soptsR.checkMinHDiag ≤ 0 ∧ 0 ≤ soptsR.gradClip ∧
    PadOpts (Fin.succEmb 1) { optsDef Unit with stopCallback2 := some fun w _ d _ => (decide (∃ h : 0 < d.n, d.v ⟨0, h⟩ = 5), w) }
      { optsDef Unit with stopCallback2 := some fun w _ d _ => (decide (∃ h : 1 < d.n, d.v ⟨1, h⟩ = 5), w) } ∧
    (∀ w x, SymR (fullH (nlsProb sinR sinJ) 1 w x) ∧ SemiPD (fullH (nlsProb sinR sinJ) 1 w x)) ∧ 0 < soptsR.dampLo ∧ 0 < soptsR.dampInit ∧
    (∀ k, loopBound (optsDef Unit) (-1) = some k → k ≤ 65536) := by
  refine ⟨nlsProb_padded (by decide) _ _ _ sin_padJ, rfl, le_refl _, le_refl _, ⟨rfl, .some ?_⟩, fun w x => ?_, by norm_num [soptsR], by norm_num [soptsR], ?_⟩
  · rintro w e d d' g g' ⟨v, v', rfl, rfl, hv⟩ -
    have := hv.1 0
    simp at this
    simp [this]
  · rw [nlsProb_fullH]
    exact ⟨gram_sym _, semi_one _ (gram_psd _)⟩
  · intro k hk
    simp [loopBound, optsDef] at hk
    omega

/-- runs of Levenberg-Marquardt with and without the added parameter -/
example (y : Vec ℝ 2) : ∃ st st', optimizeAcc (lmEnv soptsR (eigenLinAlg 0 someLinAlg.inv) (nlsProb sinR sinJ)) { optsR 10 with maxConsecFailures := 3 } 20 (-1) () (lmFresh soptsR (nlsProb sinR sinJ) 0 0) (fun i => y i.succ) = .ok st ∧
    optimizeAcc (lmEnv soptsR (eigenLinAlg 0 someLinAlg.inv) (nlsProb (fun y => sinR fun i => y (Fin.succEmb 1 i)) sinJ')) { optsR 10 with maxConsecFailures := 3 } 20 (-1) ()
      (lmFresh soptsR (nlsProb (fun y => sinR fun i => y (Fin.succEmb 1 i)) sinJ') 0 0) y = .ok st' ∧
    st'.x 0 = y 0 ∧ st'.x 1 = st.x 0 ∧ st'.out.finalCost = st.out.finalCost ∧ st'.out.numIters = st.out.numIters := by
  have hc : ∀ v : ℝ, stdClamp v soptsR.dampLo soptsR.dampHi = .ok (max soptsR.dampLo (min v soptsR.dampHi)) := fun v => stdClamp_real (by norm_num [soptsR])
  obtain ⟨st, h, -⟩ := C01_bounded_work (E := lmEnv soptsR (eigenLinAlg 0 someLinAlg.inv) (nlsProb sinR sinJ)) (o := { optsR 10 with maxConsecFailures := 3 }) (cnt := fun _ => 0)
    ⟨fun s q => by show ∃ s', lmGood soptsR s q = _; unfold lmGood; rw [hc]; exact ⟨_, rfl⟩, fun s => by show ∃ s', lmBad soptsR s = _; unfold lmBad; rw [hc]; exact ⟨_, rfl⟩,
      fun s => by show ∃ s', lmBad soptsR s = _; unfold lmBad; rw [hc]; exact ⟨_, rfl⟩⟩
    ⟨fun _ _ _ => Nat.zero_le _, fun _ _ _ => rfl, fun _ => rfl, fun _ h => (nomatch h), fun _ h => (nomatch h)⟩
    (by decide) (by decide) (mi := -1) (by decide) (fuel := 20) (by decide) () (lmFresh soptsR (nlsProb sinR sinJ) 0 0) (fun i => y i.succ)
  have hr := C105_lm_residuals (inv := someLinAlg.inv) (so := soptsR) (o := { optsR 10 with maxConsecFailures := 3 }) (o' := { optsR 10 with maxConsecFailures := 3 }) (by decide) sinR sinJ sinJ' sin_padJ rfl (le_refl _) (le_refl _) ⟨rfl, .none⟩ (by norm_num [soptsR])
    (by norm_num [soptsR]) sin_valid 20 (-1) (fun k hk => by simp [loopBound, optsR] at hk; omega) y 0 0 0 0
  have hs : ∀ {α β : Type} {p : α → β → Prop} {a : Res α} {b : Res β} {x : α}, Res.Rel p a b → a = .ok x → ∃ z, b = .ok z ∧ p x z := by
    intro α β p a b x hp ha
    subst ha
    cases b with
    | ok z => exact ⟨z, rfl, hp⟩
    | _ => exact hp.elim
  obtain ⟨st', h', -, h2, h3, h4, -⟩ := hs hr h
  simp only [Output.mk.injEq] at h4
  refine ⟨st, st', h, h', congrFun h3 ⟨0, by simp⟩, (congrFun h2 0).symm, ?_, ?_⟩ <;> simp_all

/-! ### A Hessian that is refused -/

/-- a run of Gauss-Newton whose Hessian is refused does not move -/
theorem ls_gn_refused {m n : Nat} {tol : ℝ} {inv : (n : Nat) → Mat ℝ n → Mat ℝ n} {so : SolverOpts ℝ} {o : Options ℝ Unit (DVec ℝ)} (hl : so.useLdlt = true) (A : Fin m → Fin n → ℝ) (b : Vec ℝ m)
    (hA : ∀ v, eigenLdlt tol n (gram A) v = none) {fuel : Nat} {mi : Int} {s : GNState ℝ ℝ} {x : Vec ℝ n} {st : LoopSt ℝ ℝ Unit (GNState ℝ ℝ) (Vec ℝ n) (DVec ℝ) (DMat ℝ)}
    (hr : optimizeAcc (gnEnv so (eigenLinAlg tol inv) (lsProb A b)) o fuel mi () s x = .ok st) : st.x = x ∧ st.trace.length = 1 := by
  have hdet : Deterministic (lsProb A b) n := fun w w' x => rfl
  refine And.imp_right And.left (run_no_step (gn_memoryless (so := so) (L := eigenLinAlg tol inv) hdet (fun x v => rfl) ())
    (C := fun x => (buildSystem so (lsProb A b) () (sizedState (lsProb A b) n) x).2.1.cost.cost)
    (D := fun x => gnSolve so (eigenLinAlg tol inv) ((lsProb A b).dims == some 1) (buildSystem so (lsProb A b) () (sizedState (lsProb A b) n) x).2.1)
    (fun x s h => by rw [h.1]; exact ⟨rfl, rfl⟩) rfl (fun d h => by cases h) ?_ hr)
  have hH : ∃ g c, (buildSystem so (lsProb A b) () (sizedState (lsProb A b) n) x).2.1 = ⟨n, g, gram A, c⟩ := by
    have ha : ∃ g c, (gnAccumulate so (lsProb A b) () (sizedState (lsProb A b) n) x).1 = ⟨n, g, gram A, c⟩ := by
      have e : (gnAccumulate so (lsProb A b) () (sizedState (lsProb A b) n) x).1.H = gram A := by
        funext i j
        have hi : i.1 < n := i.2
        have hj : j.1 < n := j.2
        simp [gnAccumulate, lsProb, sizedState, hi, hj]
      exact ⟨_, _, by rw [← e]; rfl⟩
    obtain ⟨g, c, ha⟩ := ha
    unfold buildSystem
    rw [← Prod.mk.eta (p := gnAccumulate so (lsProb A b) () (sizedState (lsProb A b) n) x), ha]
    simp only [hl]
    split
    · split
      · exact ⟨_, _, rfl⟩
      · exact ⟨clampVec so.gradClip g, c, by simp⟩
    · exact ⟨_, _, rfl⟩
  obtain ⟨g, c, hH⟩ := hH
  simp only [hH]
  unfold gnSolve
  rw [if_pos hl]
  split
  · unfold solveLDLT
    rw [symUpper_of_sym (gram_sym A)]
    show Option.map _ (eigenLdlt tol n (gram A) _) = none
    rw [hA]; rfl
  · rfl

/-- residuals `x 0 + 2 x 2` and `x 1` -/
def abcA : Fin 2 → Fin 3 → ℝ := ![![1, 0, 2], ![0, 1, 0]]

/-- the same, with a parameter without effect in front -/
def zabcA : Fin 2 → Fin 4 → ℝ := ![![0, 1, 0, 2], ![0, 0, 1, 0]]

theorem gram_abc : gram abcA = !![1, 0, 2; 0, 1, 0; 2, 0, 4] := by
  funext i j
  fin_cases i <;> fin_cases j <;> simp [gram, abcA, Fin.sum_univ_succ] <;> norm_num

theorem gram_zabc : gram zabcA = !![0, 0, 0, 0; 0, 1, 0, 2; 0, 0, 1, 0; 0, 2, 0, 4] := by
  funext i j
  fin_cases i <;> fin_cases j <;> simp [gram, zabcA, Fin.sum_univ_succ] <;> norm_num

theorem abc_padJ : PadJ (Fin.succEmb 3) abcA zabcA := by
  intro i
  refine ⟨fun j => by fin_cases i <;> fin_cases j <;> rfl, fun j hj => ?_⟩
  obtain rfl : j = 0 := by
    by_contra h
    exact hj ⟨j.pred h, by simp⟩
  fin_cases i <;> rfl

theorem abc_accepted : (eigenLdlt 0 3 (gram abcA) 0).isSome := by
  have : (ldltGo (gram abcA) 3 [] (List.finRange 3) false .zero).map Prod.snd = some .pos := by
    rw [gram_abc]
    simp [ldltGo, ldltPick, ldltSwap, List.finRange_succ, absF_real, ldltRest, ldltDot, ldltSign]
    norm_num
  unfold eigenLdlt
  cases h : ldltGo (gram abcA) 3 [] (List.finRange 3) false .zero with
  | none => rw [h] at this; cases this
  | some p =>
    rw [h] at this
    have : p.2 = .pos := by simpa using this
    simp [this]

theorem zabc_refused (b : Vec ℝ 4) : eigenLdlt 0 4 (gram zabcA) b = none := by
  have : ldltGo (gram zabcA) 4 [] (List.finRange 4) false .zero = none := by
    obtain ⟨M, hM⟩ : ∃ M : Mat ℝ 4, M = gram zabcA := ⟨_, rfl⟩
    rw [← hM]
    have h00 : M 0 0 = 0 := by rw [hM, gram_zabc]; rfl
    have h11 : M 1 1 = 1 := by rw [hM, gram_zabc]; rfl
    have h22 : M 2 2 = 1 := by rw [hM, gram_zabc]; rfl
    have h33 : M 3 3 = 4 := by rw [hM, gram_zabc]; rfl
    have h13 : M 1 3 = 2 := by rw [hM, gram_zabc]; rfl
    have h21 : M 2 1 = 0 := by rw [hM, gram_zabc]; rfl
    have h01 : M 0 1 = 0 := by rw [hM, gram_zabc]; rfl
    have h23 : M 2 3 = 0 := by rw [hM, gram_zabc]; rfl
    have h03 : M 0 3 = 0 := by rw [hM, gram_zabc]; rfl
    have p1 : ldltPick M 0 [1, 2, 3] = 3 := by simp [ldltPick, absF_real, h00, h11, h22, h33]
    have p2 : ldltPick M 1 [2, 0] = 1 := by simp [ldltPick, absF_real, h00, h11, h22]
    have p3 : ldltPick M 2 [0] = 2 := by simp [ldltPick, absF_real, h00, h22]
    have s1 : ldltSwap (0 : Fin 4) 3 [1, 2, 3] = [1, 2, 0] := by decide
    have s2 : ldltSwap (1 : Fin 4) 1 [2, 0] = [2, 0] := by decide
    show ldltGo M (3 + 1) [] [0, 1, 2, 3] false .zero = none
    rw [ldltGo]
    simp only [p1, s1]
    simp only [absF_real, ldltRest, ldltDot, h33]
    norm_num
    rw [ldltGo]
    simp only [p2, s2]
    simp only [absF_real, ldltRest, ldltDot]
    norm_num [h11, h13, h21, h01, h23, h03]
    rw [ldltGo]
    simp only [p3]
    simp only [absF_real, ldltRest, ldltDot]
    norm_num [h22, h23, h21]
  unfold eigenLdlt
  rw [this]

/-- **C105 is violated** by Gauss-Newton: the problem with the residuals `x 0 + 2 x 2 - b 0`, `x 1 - b 1` is solved; with a parameter without effect in front no run moves from its start. -/
theorem C105_gn_refused {inv : (n : Nat) → Mat ℝ n → Mat ℝ n} {so : SolverOpts ℝ} {o : Options ℝ Unit (DVec ℝ)} (hl : so.useLdlt = true) (hmin : so.checkMinHDiag ≤ 0) (hclip : so.gradClip = 0)
    (b : Vec ℝ 2) (s s' : GNState ℝ ℝ) (fuel : Nat) (mi k : Int) (hk : loopBound o mi = some k) (y : Vec ℝ 4) (hx0 : nCost so 2 (lsCost abcA b fun i => y i.succ) < maxVal) :
    Padded (Fin.succEmb 3) (fun (y : Vec ℝ 4) i => y i.succ) (fun y (j : { j // j ∉ Set.range (Fin.succEmb 3) }) => y j) (lsProb abcA b) (lsProb zabcA b) ∧
    (∃ st, optimizeAcc (gnEnv so (eigenLinAlg 0 inv) (lsProb abcA b)) o (fuel + 1) mi () s (fun i => y i.succ) = .ok st ∧ lsCost abcA b st.x = 0) ∧
    ∀ st, optimizeAcc (gnEnv so (eigenLinAlg 0 inv) (lsProb zabcA b)) o (fuel + 1) mi () s' y = .ok st → st.x = y := by
  refine ⟨lsProb_padded (by norm_num) _ _ _ abc_padJ, ?_, fun st h => (ls_gn_refused hl zabcA b zabc_refused h).1⟩
  obtain ⟨xs, h1, st, h2, h3, -⟩ := C103_gn_partial (o := o) (lsProb_ls abcA b (by norm_num) (by norm_num)) (eigenLinAlg_semi (inv := inv)) abc_accepted hl (Or.inl hmin) hclip s (Or.inl rfl) fuel mi k hk ()
    (fun i => y i.succ) hx0
  refine ⟨st, h2, ?_⟩
  rw [h3]
  have h4 := h1 ![b 0, b 1, 0]
  have h5 : lsCost abcA b ![b 0, b 1, 0] = 0 := by
    simp [lsCost, dotR, mv, abcA, Fin.sum_univ_succ]
  rw [h5] at h4
  exact le_antisymm h4 (lsCost_nonneg _)

/-- … and this is a run of it, that stays at residual 5, where the first solves the problem -/
example : nCost soptsR 2 (lsCost abcA ![0, 5] fun i => (0 : Vec ℝ 4) i.succ) < maxVal ∧
    ∃ st, optimizeAcc (gnEnv soptsR (eigenLinAlg 0 someLinAlg.inv) (lsProb zabcA ![0, 5])) { optsR 10 with maxConsecFailures := 3 } 3 (-1) () (gnFresh (lsProb zabcA ![0, 5]) 0 0) 0 = .ok st ∧
      st.x = 0 ∧ lsCost zabcA ![0, 5] st.x = 25 := by
  have e : lsCost abcA ![0, 5] (fun i => (0 : Vec ℝ 4) i.succ) = 25 := by simp [lsCost, dotR, mv, abcA, Fin.sum_univ_succ]; norm_num
  have hx : nCost soptsR 2 (lsCost abcA ![0, 5] fun i => (0 : Vec ℝ 4) i.succ) < maxVal := by
    rw [e]
    show nCost soptsR 2 25 < 2 ^ 1024
    simp [nCost, normalizeCost, soptsR]
    exact lt_of_lt_of_le (by norm_num : (25 : ℝ) < 2 ^ 5) (pow_le_pow_right₀ (by norm_num) (by norm_num))
  obtain ⟨st, h, -⟩ := C01_bounded_work (E := gnEnv soptsR (eigenLinAlg 0 someLinAlg.inv) (lsProb zabcA ![0, 5])) (o := { optsR 10 with maxConsecFailures := 3 }) (cnt := fun _ => 0)
    ⟨fun s q => ⟨_, rfl⟩, fun s => ⟨_, rfl⟩, fun s => ⟨_, rfl⟩⟩
    ⟨fun _ _ _ => Nat.zero_le _, fun _ _ _ => rfl, fun _ => rfl, fun _ h => (nomatch h), fun _ h => (nomatch h)⟩
    (by decide) (by decide) (mi := -1) (by decide) (fuel := 3) (by decide) () (gnFresh (lsProb zabcA ![0, 5]) 0 0) 0
  have h1 := (C105_gn_refused rfl (le_refl _) rfl ![0, 5] (gnFresh (lsProb abcA ![0, 5]) 0 0) (gnFresh (lsProb zabcA ![0, 5]) 0 0) 2 (-1) _ rfl 0 hx).2.2 st h
  refine ⟨hx, st, h, h1, ?_⟩
  rw [h1]; simp [lsCost, dotR, mv, zabcA, Fin.sum_univ_succ]; norm_num

end Verif
